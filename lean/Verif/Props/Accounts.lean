import Verif.Props.Final
import Verif.Props.Utility

/-! # Properties C36 and C37: updated balances -/

namespace Dex

namespace Spec

/-- Some order of account `a` buys or sells token `t`. -/
def Trades (orders : List Order) (a : AccountId) (t : Token) : Prop :=
  ∃ o ∈ orders, o.accountId = some a ∧ (o.buyToken = t ∨ o.sellToken = t)

instance (orders : List Order) (a : AccountId) (t : Token) : Decidable (Trades orders a t) := by unfold Trades; infer_instance

/-- The order's account exists and has an entry for the token it sells. -/
def HasEntry (accounts : Accounts) (o : Order) : Prop :=
  ∃ a, o.accountId = some a ∧ ∃ p, accounts.find? (fun p => decide (p.1 = a)) = some p ∧ ∃ q ∈ p.2, q.1 = o.sellToken

/-- Balance after the orders: bought added, sold subtracted. Balances of traded tokens lose their fractional part. -/
def balanceAfter (accounts : Accounts) (orders : List Order) (a : AccountId) (t : Token) : ℚ :=
  if Trades orders a t then (trunc (balanceOf accounts a t) : ℚ) + gain orders (some a) t else balanceOf accounts a t

/-- Total of token `t` over all accounts. -/
def totalBalance (accounts : Accounts) (t : Token) : ℚ := (accounts.map (fun p => balanceOf accounts p.1 t)).sum

end Spec

open Spec

theorem trunc_isInt {q : ℚ} (h : IsInt q) : (trunc q : ℚ) = q := by
  obtain ⟨n, rfl⟩ := isInt_iff.1 h
  unfold trunc
  split <;> simp

/-- One step of `update_accounts`. -/
theorem updateAccountStep_spec {accounts : Accounts} {o : Order} {a : AccountId} {acc : Dict Token ℚ} (ha : o.accountId = some a)
    (hacc : dictGet? accounts a = some acc) (hs : o.sellToken ∈ dictKeys acc) :
    ∃ acc', updateAccountStep accounts o = .ok (dictSet accounts a acc') ∧ (∀ t, t ∈ dictKeys acc → t ∈ dictKeys acc') ∧
      ∀ t, (dictGet? acc' t).getD 0 =
        (if o.buyToken = t ∨ o.sellToken = t then (trunc ((dictGet? acc t).getD 0) : ℚ) else (dictGet? acc t).getD 0) +
          (if o.buyToken = t then o.buy else 0) - (if o.sellToken = t then o.sell else 0) := by
  obtain ⟨vs, hvs⟩ := dictGet?_isSome.2 hs
  -- the dict with an entry for the bought token
  obtain ⟨acc1, e1, hb1, hg1, hk1⟩ : ∃ acc1, ensureEntry acc o.buyToken = acc1 ∧ (∃ vb, dictGet? acc1 o.buyToken = some vb) ∧
      (∀ t, (dictGet? acc1 t).getD 0 = (dictGet? acc t).getD 0) ∧ ∀ t, t ∈ dictKeys acc → t ∈ dictKeys acc1 := by
    unfold ensureEntry
    cases hb : dictGet? acc o.buyToken with
    | some v => exact ⟨acc, rfl, ⟨v, hb⟩, fun _ => rfl, fun _ h => h⟩
    | none =>
      refine ⟨_, rfl, ⟨0, by rw [dictGet?_dictSet]; simp⟩, ?_, ?_⟩
      · intro t
        rw [dictGet?_dictSet]
        split
        · rename_i h; subst h; rw [hb]; rfl
        · rfl
      · intro t ht
        rw [← dictGet?_isSome] at ht ⊢
        rw [dictGet?_dictSet]
        split
        · exact ⟨_, rfl⟩
        · exact ht
  obtain ⟨vb, hvb⟩ := hb1
  have hvs1 : ∃ v, dictGet? acc1 o.sellToken = some v := dictGet?_isSome.2 (hk1 _ hs)
  obtain ⟨vs1, hvs1⟩ := hvs1
  unfold updateAccountStep
  rw [ha]
  simp only
  rw [dictGet_of hacc, ok_bind]
  simp only [e1]
  rw [dictGet_of hvb, ok_bind]
  have h2 : ∃ v, dictGet? (dictSet acc1 o.buyToken (pyInt vb : ℚ)) o.sellToken = some v := by
    rw [dictGet?_dictSet]; split
    · exact ⟨_, rfl⟩
    · exact ⟨_, hvs1⟩
  obtain ⟨v2, hv2⟩ := h2
  rw [dictGet_of hv2, ok_bind]
  have h3 : ∃ v, dictGet? (dictSet (dictSet acc1 o.buyToken (pyInt vb : ℚ)) o.sellToken (pyInt v2 : ℚ)) o.buyToken = some v := by
    rw [dictGet?_dictSet]; split
    · exact ⟨_, rfl⟩
    · rw [dictGet?_dictSet]; simp
  obtain ⟨v3, hv3⟩ := h3
  rw [dictGet_of hv3, ok_bind]
  have h4 : ∃ v, dictGet? (dictSet (dictSet (dictSet acc1 o.buyToken (pyInt vb : ℚ)) o.sellToken (pyInt v2 : ℚ)) o.buyToken (v3 + o.buy))
      o.sellToken = some v := by
    rw [dictGet?_dictSet]; split
    · exact ⟨_, rfl⟩
    · rw [dictGet?_dictSet]; simp
  obtain ⟨v4, hv4⟩ := h4
  rw [dictGet_of hv4, ok_bind]
  refine ⟨_, rfl, ?_, ?_⟩
  · intro t ht
    have := hk1 t ht
    rw [← dictGet?_isSome] at this ⊢
    simp only [dictGet?_dictSet]
    split
    · exact ⟨_, rfl⟩
    split
    · exact ⟨_, rfl⟩
    exact this
  · intro t
    rw [← hg1 t]
    simp only [dictGet?_dictSet] at hv2 hv3 hv4 ⊢
    by_cases hbs : o.buyToken = o.sellToken
    · simp only [hbs, if_true, Option.some.injEq] at hv2 hv3 hv4 hvb ⊢
      by_cases ht : o.sellToken = t
      · subst ht
        simp only [if_true, or_self, Option.getD_some, hvb]
        rw [← hv4, ← hv3, ← hv2, pyInt_eq_trunc, pyInt_eq_trunc, trunc_isInt (isInt_intCast _)]
      · have ht' : ¬ t = o.sellToken := fun e => ht e.symm
        simp [ht]
    · have hsb : ¬ o.sellToken = o.buyToken := fun e => hbs e.symm
      simp only [hbs, hsb, if_false, if_true, Option.some.injEq] at hv2 hv3 hv4
      by_cases ht : o.sellToken = t
      · subst ht
        simp only [if_true, hbs, if_false, false_or, Option.getD_some]
        rw [← hv4, hv2, pyInt_eq_trunc]; simp
      · by_cases hb : o.buyToken = t
        · subst hb
          simp only [if_true, ht, if_false, true_or, Option.getD_some, hvb]
          rw [← hv3, pyInt_eq_trunc]; simp
        · simp [ht, hb]

theorem gain_cons_some (o : Order) (os : List Order) (a : AccountId) (t : Token) : gain (o :: os) (some a) t =
    gain os (some a) t + (if o.accountId = some a then (if o.buyToken = t then o.buy else 0) - (if o.sellToken = t then o.sell else 0) else 0) := by
  unfold gain bought sold
  by_cases h : o.accountId = some a
  · by_cases h1 : o.buyToken = t <;> by_cases h2 : o.sellToken = t <;> simp [h, h1, h2] <;> ring
  · simp [h]

theorem gain_isInt {orders : List Order} (h : ∀ o ∈ orders, IsInt o.buy ∧ IsInt o.sell) (a : Option AccountId) (t : Token) :
    IsInt (gain orders a t) := by
  unfold gain bought sold
  refine IsInt.sub (isInt_sum ?_) (isInt_sum ?_)
  · intro o ho; exact (h o (List.mem_of_mem_filter (List.mem_of_mem_filter ho))).1
  · intro o ho; exact (h o (List.mem_of_mem_filter (List.mem_of_mem_filter ho))).2

theorem gain_untraded {orders : List Order} {a : AccountId} {t : Token} (h : ¬ Trades orders a t) : gain orders (some a) t = 0 := by
  induction orders with
  | nil => simp [gain, bought, sold]
  | cons o os ih =>
    rw [gain_cons_some, ih (fun ⟨c, hc, h'⟩ => h ⟨c, by simp [hc], h'⟩)]
    by_cases ha : o.accountId = some a
    · have h1 : ¬ o.buyToken = t := fun e => h ⟨o, by simp, ha, .inl e⟩
      have h2 : ¬ o.sellToken = t := fun e => h ⟨o, by simp, ha, .inr e⟩
      simp [h1, h2]
    · simp [ha]

theorem hasEntry_iff {accounts : Accounts} {o : Order} : HasEntry accounts o ↔
    ∃ a acc, o.accountId = some a ∧ dictGet? accounts a = some acc ∧ o.sellToken ∈ dictKeys acc := by
  unfold HasEntry dictGet? dictKeys
  constructor
  · rintro ⟨a, ha, p, hp, q, hq, e⟩
    exact ⟨a, p.2, ha, by rw [hp]; rfl, List.mem_map.2 ⟨q, hq, e⟩⟩
  · rintro ⟨a, acc, ha, h, hs⟩
    cases hp : accounts.find? (fun p => decide (p.1 = a)) with
    | none => rw [hp] at h; simp at h
    | some p =>
      rw [hp] at h
      simp only [Option.map_some, Option.some.injEq] at h
      subst h
      obtain ⟨q, hq, e⟩ := List.mem_map.1 hs
      exact ⟨a, ha, p, hp, q, hq, e⟩

theorem balanceOf_getD (accounts : Accounts) (a : AccountId) (t : Token) :
    balanceOf accounts a t = ((dictGet? accounts a).bind (fun d => dictGet? d t)).getD 0 := by
  cases h : dictGet? accounts a with
  | some acc => rw [balanceOf_eq h]; rfl
  | none =>
    unfold dictGet? at h
    unfold balanceOf
    cases hf : accounts.find? (fun p => decide (p.1 = a)) with
    | none => simp
    | some p => rw [hf] at h; simp at h

/-- C36. Updating the accounts for orders with integer amounts succeeds and gives every account exactly what its orders bought minus what
they sold, token by token; the accounts stay the same and tokens an account does not trade keep their balance. -/
theorem C36_balances {accounts : Accounts} {orders : List Order} (hint : ∀ o ∈ orders, IsInt o.buy ∧ IsInt o.sell)
    (h : ∀ o ∈ orders, HasEntry accounts o) : ∃ accounts', updateAccounts accounts orders = .ok accounts' ∧
      accounts'.map (·.1) = accounts.map (·.1) ∧ ∀ a t, balanceOf accounts' a t = balanceAfter accounts orders a t := by
  unfold updateAccounts
  induction orders generalizing accounts with
  | nil => exact ⟨accounts, rfl, rfl, fun a t => by simp [balanceAfter, Trades]⟩
  | cons o os ih =>
    obtain ⟨a, acc, ha, hacc, hs⟩ := hasEntry_iff.1 (h o (by simp))
    obtain ⟨acc', h1, h2, h3⟩ := updateAccountStep_spec ha hacc hs
    have hget : ∀ c, dictGet? (dictSet accounts a acc') c = if a = c then some acc' else dictGet? accounts c := by
      intro c; rw [dictGet?_dictSet]
    obtain ⟨r, hr, hk, hbal⟩ := ih (accounts := dictSet accounts a acc') (fun o ho => hint o (by simp [ho])) (by
      intro c hc
      obtain ⟨a', acc1, ha1, hacc1, hs1⟩ := hasEntry_iff.1 (h c (by simp [hc]))
      rw [hasEntry_iff]
      by_cases e : a = a'
      · subst e
        rw [hacc] at hacc1; cases hacc1
        exact ⟨a, acc', ha1, by rw [hget, if_pos rfl], h2 _ hs1⟩
      · exact ⟨a', acc1, ha1, by rw [hget, if_neg e]; exact hacc1, hs1⟩)
    refine ⟨r, by rw [foldE, h1, ok_bind, hr], ?_, ?_⟩
    · rw [hk]
      have := dictKeys_dictSet accounts a acc'
      unfold dictKeys at this
      rw [this, if_pos]
      exact List.mem_map.2 ⟨_, dictGet?_mem hacc, rfl⟩
    · intro c t
      rw [hbal c t]
      obtain ⟨i1, i2⟩ := hint o (by simp)
      have hb1 : balanceOf (dictSet accounts a acc') c t = if a = c then (dictGet? acc' t).getD 0 else balanceOf accounts c t := by
        rw [balanceOf_getD, hget, balanceOf_getD accounts c t]
        split <;> rfl
      unfold balanceAfter
      rw [gain_cons_some, hb1]
      by_cases hac : a = c
      · subst hac
        rw [if_pos rfl, h3 t, ← balanceOf_eq hacc t, if_pos ha]
        have hT : Trades (o :: os) a t ↔ (o.buyToken = t ∨ o.sellToken = t) ∨ Trades os a t := by
          unfold Trades
          simp [ha]
        by_cases ho : o.buyToken = t ∨ o.sellToken = t
        · rw [if_pos ho, if_pos (hT.2 (.inl ho))]
          have hI : IsInt ((trunc (balanceOf accounts a t) : ℚ) + (if o.buyToken = t then o.buy else 0) - (if o.sellToken = t then o.sell else 0)) := by
            refine IsInt.sub (IsInt.add (isInt_intCast _) ?_) ?_
            · split
              · exact i1
              · exact isInt_intCast 0
            · split
              · exact i2
              · exact isInt_intCast 0
          rw [trunc_isInt hI]
          by_cases hos : Trades os a t
          · rw [if_pos hos]; ring
          · rw [if_neg hos, gain_untraded hos]; ring
        · rw [if_neg ho]
          have e1 : ¬ o.buyToken = t := fun e => ho (.inl e)
          have e2 : ¬ o.sellToken = t := fun e => ho (.inr e)
          simp only [e1, e2, if_false, sub_zero, add_zero]
          by_cases hos : Trades os a t
          · rw [if_pos hos, if_pos (hT.2 (.inr hos))]
          · rw [if_neg hos, if_neg (fun h => (hT.1 h).elim ho hos)]
      · have hoc : ¬ o.accountId = some c := by rw [ha]; simpa using hac
        have hT : Trades (o :: os) c t ↔ Trades os c t := by
          unfold Trades
          simp [hoc]
        rw [if_neg hac, if_neg hoc, add_zero]
        by_cases hos : Trades os c t
        · rw [if_pos hos, if_pos (hT.2 hos)]
        · rw [if_neg hos, if_neg (fun h => hos (hT.1 h))]

/-- C36. An order of an unknown account, or without a balance entry for the token it sells (and does not buy), makes the update raise
`KeyError`. -/
theorem C36_key_error {accounts : Accounts} {o : Order} {os : List Order} {a : AccountId} (ha : o.accountId = some a)
    (h : (∀ p ∈ accounts, p.1 ≠ a) ∨ ∃ p, accounts.find? (fun p => decide (p.1 = a)) = some p ∧ (∀ q ∈ p.2, q.1 ≠ o.sellToken) ∧ o.buyToken ≠ o.sellToken) :
    updateAccounts accounts (o :: os) = .error .keyError := by
  have : updateAccountStep accounts o = .error .keyError := by
    unfold updateAccountStep
    rw [ha]
    simp only
    rcases h with h | ⟨p, hp, h1, h2⟩
    · have : dictGet? accounts a = none := by
        rw [dictGet?_eq_none]
        intro hm
        obtain ⟨p, hp, e⟩ := List.mem_map.1 hm
        exact h p hp e
      unfold dictGet
      rw [this]; rfl
    · have hacc : dictGet? accounts a = some p.2 := by unfold dictGet?; rw [hp]; rfl
      rw [dictGet_of hacc, ok_bind]
      have hn : dictGet? p.2 o.sellToken = none := by
        rw [dictGet?_eq_none]
        intro hm
        obtain ⟨q, hq, e⟩ := List.mem_map.1 hm
        exact h1 q hq e
      have hn1 : dictGet? (ensureEntry p.2 o.buyToken) o.sellToken = none := by
        unfold ensureEntry
        split
        · exact hn
        · rw [dictGet?_dictSet, if_neg h2]; exact hn
      cases hb : dictGet? (ensureEntry p.2 o.buyToken) o.buyToken with
      | none => unfold dictGet; rw [hb]; rfl
      | some vb =>
        rw [dictGet_of hb, ok_bind]
        have : dictGet (dictSet (ensureEntry p.2 o.buyToken) o.buyToken (pyInt vb : ℚ)) o.sellToken = .error .keyError := by
          unfold dictGet
          rw [dictGet?_dictSet, if_neg h2, hn1]
        rw [this]; rfl
  unfold updateAccounts
  rw [foldE, this]; rfl

/-- C36. After a solution that passed the final check, the updated balances of all tokens traded by its orders are non-negative. -/
theorem C36_validated_nonneg {cfg : Config} {fdiv : ℚ → ℕ → Py ℚ} {accounts accounts' : Accounts} {orders : List Order} {prices : Prices}
    {fee : Fee} (hm : 0 ≤ cfg.minTradable) (hp : cfg.feeTokenPrice ≠ 0) (hk : (prices.map (·.1)).Nodup)
    (hx : nrExecuted orders ≠ 0) (hv : validate cfg fdiv accounts orders prices fee = .ok ())
    (hint : ∀ o ∈ orders, IsInt o.buy ∧ IsInt o.sell) (he : ∀ o ∈ orders, HasEntry accounts o) (h : updateAccounts accounts orders = .ok accounts')
    {a : AccountId} {t : Token} (ht : Trades orders a t) : 0 ≤ balanceOf accounts' a t := by
  obtain ⟨r, hr, _, hbal⟩ := C36_balances hint he
  rw [h] at hr; cases hr
  rw [hbal, balanceAfter, if_pos ht]
  obtain ⟨_, h0 | ⟨hin, hfe⟩⟩ := C30_passed_is_feasible hk hm hp hv
  · exact absurd h0 hx
  obtain ⟨o, ho, hoa, hot⟩ := ht
  refine hfe.accounts o ho a hoa t ?_
  rcases hot with rfl | rfl
  · exact (hin.priced o ho).1
  · exact (hin.priced o ho).2

theorem sum_single {accounts : Accounts} (hn : (accounts.map (·.1)).Nodup) {a : AccountId} (h : ∃ p ∈ accounts, p.1 = a) (x : ℚ) :
    (accounts.map (fun p => if some a = some p.1 then x else 0)).sum = x := by
  induction accounts with
  | nil => obtain ⟨p, hp, _⟩ := h; simp at hp
  | cons q l ih =>
    simp only [List.map_cons, List.nodup_cons, List.sum_cons] at hn ⊢
    by_cases e : a = q.1
    · have : (l.map (fun p => if some a = some p.1 then x else 0)).sum = 0 := by
        refine List.sum_eq_zero ?_
        intro y hy
        obtain ⟨p, hp, rfl⟩ := List.mem_map.1 hy
        refine if_neg (fun h => hn.1 ?_)
        rw [← e, Option.some.inj h]
        exact List.mem_map.2 ⟨p, hp, rfl⟩
      rw [this, if_pos (by rw [e])]; simp
    · rw [if_neg (fun h => e (Option.some.inj h)), zero_add]
      refine ih hn.2 ?_
      obtain ⟨p, hp, e'⟩ := h
      rcases List.mem_cons.1 hp with rfl | hp
      · exact absurd e'.symm e
      · exact ⟨p, hp, e'⟩

theorem sum_gain {accounts : Accounts} (hn : (accounts.map (·.1)).Nodup) {orders : List Order}
    (h : ∀ o ∈ orders, ∃ a, o.accountId = some a ∧ ∃ p ∈ accounts, p.1 = a) (t : Token) :
    (accounts.map (fun p => gain orders (some p.1) t)).sum = bought orders t - sold orders t := by
  induction orders with
  | nil => simp [gain, bought, sold]
  | cons o os ih =>
    obtain ⟨a, ha, hp⟩ := h o (by simp)
    have := sum_single hn hp ((if o.buyToken = t then o.buy else 0) - (if o.sellToken = t then o.sell else 0))
    simp only [gain_cons_some, ha]
    rw [List.sum_map_add, ih (fun o ho => h o (by simp [ho])), this]
    unfold bought sold
    by_cases h1 : o.buyToken = t <;> by_cases h2 : o.sellToken = t <;> simp [h1, h2] <;> ring

/-- C37. Over all accounts, the total of each token changes by what the orders bought minus what they sold. -/
theorem C37_totals {accounts accounts' : Accounts} {orders : List Order} (hn : (accounts.map (·.1)).Nodup) (hi : IntBalances accounts)
    (hint : ∀ o ∈ orders, IsInt o.buy ∧ IsInt o.sell) (he : ∀ o ∈ orders, HasEntry accounts o) (h : updateAccounts accounts orders = .ok accounts')
    (t : Token) : totalBalance accounts' t = totalBalance accounts t + bought orders t - sold orders t := by
  obtain ⟨r, hr, hk, hbal⟩ := C36_balances hint he
  rw [h] at hr; cases hr
  have hb : ∀ a, IsInt (balanceOf accounts a t) := by
    intro a
    unfold balanceOf
    split
    · exact isInt_intCast 0
    · rename_i p hp
      split
      · exact isInt_intCast 0
      · rename_i q hq
        exact hi p (List.mem_of_find?_eq_some hp) q (List.mem_of_find?_eq_some hq)
  have e : ∀ a, balanceOf accounts' a t = balanceOf accounts a t + gain orders (some a) t := by
    intro a
    rw [hbal, balanceAfter]
    split
    · rw [trunc_isInt (hb a)]
    · rename_i hT; rw [gain_untraded hT, add_zero]
  have e1 : totalBalance accounts' t = ((accounts.map (·.1)).map (fun a => balanceOf accounts' a t)).sum := by
    rw [← hk, List.map_map]; rfl
  rw [e1, List.map_map]
  simp only [Function.comp_def, e]
  rw [List.sum_map_add, sum_gain hn]
  · unfold totalBalance; ring
  · intro o ho
    obtain ⟨a, ha, p, hp, _⟩ := he o ho
    exact ⟨a, ha, p, List.mem_of_find?_eq_some hp, by simpa using List.find?_some hp⟩

/-- C37. For a solution that passed the final check: the total of every token but the fee token is unchanged, and the total of the fee token
does not increase. -/
theorem C37_validated {cfg : Config} {fdiv : ℚ → ℕ → Py ℚ} {accounts accounts' : Accounts} {orders : List Order} {prices : Prices}
    {fee : Fee} (hm : 0 ≤ cfg.minTradable) (hp : cfg.feeTokenPrice ≠ 0) (hk : (prices.map (·.1)).Nodup) (hx : nrExecuted orders ≠ 0)
    (hv : validate cfg fdiv accounts orders prices fee = .ok ()) (hn : (accounts.map (·.1)).Nodup) (hi : IntBalances accounts)
    (hint : ∀ o ∈ orders, IsInt o.buy ∧ IsInt o.sell) (he : ∀ o ∈ orders, HasEntry accounts o)
    (h : updateAccounts accounts orders = .ok accounts') :
    (∀ t, t ≠ fee.token → totalBalance accounts' t = totalBalance accounts t) ∧
      totalBalance accounts' fee.token ≤ totalBalance accounts fee.token := by
  obtain ⟨_, h0 | ⟨_, hfe⟩⟩ := C30_passed_is_feasible hk hm hp hv
  · exact absurd h0 hx
  constructor
  · intro t ht
    rw [C37_totals hn hi hint he h, hfe.balanced t ht]; ring
  · rw [C37_totals hn hi hint he h]
    have := hfe.feeToken
    linarith

/-- The hypotheses hold for the validated solution of `ExVal`. -/
example : (∀ o ∈ ExVal.orders, IsInt o.buy ∧ IsInt o.sell) ∧ (∀ o ∈ ExVal.orders, HasEntry ExVal.accounts o) ∧
    (ExVal.accounts.map (·.1)).Nodup ∧ IntBalances ExVal.accounts ∧ nrExecuted ExVal.orders ≠ 0 := by
  refine ⟨by decide +kernel, ?_, by decide +kernel, by decide +kernel, by decide +kernel⟩
  have : ∀ o ∈ ExVal.orders, o.accountId = some "x" ∧ o.sellToken = "S" ∨ o.accountId = some "y" ∧ o.sellToken = "B" ∨
      o.accountId = some "z" ∧ o.sellToken = "F" := by decide +kernel
  intro o ho
  rcases this o ho with h | h | h
  · exact ⟨"x", h.1, ("x", [("S", 15015010)]), by decide +kernel, ("S", 15015010), by simp, h.2.symm⟩
  · exact ⟨"y", h.1, ("y", [("B", 10020026)]), by decide +kernel, ("B", 10020026), by simp, h.2.symm⟩
  · exact ⟨"z", h.1, ("z", [("F", 40000)]), by decide +kernel, ("F", 40000), by simp, h.2.symm⟩

example : updateAccounts ExVal.accounts ExVal.orders =
    .ok [("x", [("S", 0), ("B", 9999997)]), ("y", [("B", 0), ("S", 15015010)]), ("z", [("F", 9927), ("B", 20029)])] := by decide +kernel

end Dex
