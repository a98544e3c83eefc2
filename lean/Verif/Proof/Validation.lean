import Verif.Proof.Round
import Verif.Model.Validation

/-! # The final check, step by step -/

namespace Dex

open Spec

/-- A dict with the given keys and values. -/
def DRep (d : Dict Token ℚ) (tokens : List Token) (val : Token → ℚ) : Prop :=
  dictKeys d = tokens ∧ ∀ t ∈ tokens, dictGet? d t = some (val t)

theorem DRep.set {d : Dict Token ℚ} {tokens : List Token} {val : Token → ℚ} (h : DRep d tokens val) {k : Token} (hk : k ∈ tokens) (v : ℚ) :
    DRep (dictSet d k v) tokens (fun t => if k = t then v else val t) := by
  refine ⟨?_, ?_⟩
  · rw [dictKeys_dictSet, h.1, if_pos hk]
  · intro t ht
    rw [dictGet?_dictSet]
    by_cases hkt : k = t
    · simp only [hkt, if_true]
    · simp only [hkt, if_false]; exact h.2 t ht

theorem DRep.congr {d : Dict Token ℚ} {tokens : List Token} {val val' : Token → ℚ} (h : DRep d tokens val) (hv : ∀ t ∈ tokens, val t = val' t) :
    DRep d tokens val' := ⟨h.1, fun t ht => by rw [h.2 t ht, hv t ht]⟩

theorem DRep.forall {d : Dict Token ℚ} {tokens : List Token} {val : Token → ℚ} (h : DRep d tokens val) (hn : tokens.Nodup) (P : Token → ℚ → Prop) :
    (∀ q ∈ d, P q.1 q.2) ↔ ∀ t ∈ tokens, P t (val t) := by
  constructor
  · intro hq t ht
    exact hq _ (dictGet?_mem (h.2 t ht))
  · rintro hq ⟨t, v⟩ hm
    have hk : t ∈ tokens := by rw [← h.1]; exact List.mem_map.2 ⟨_, hm, rfl⟩
    have h1 := dictGet?_of_mem (by rw [h.1]; exact hn) hm
    rw [h.2 t hk] at h1
    cases h1
    exact hq t hk

/-- The table of account balances. -/
structure ARep (accs : Dict (Option AccountId) (Dict Token ℚ)) (tokens : List Token) (val : Option AccountId → Token → ℚ) : Prop where
  nodup : (dictKeys accs).Nodup
  entry : ∀ k ∈ dictKeys accs, ∃ d, dictGet? accs k = some d ∧ DRep d tokens (val k)

theorem ARep.set {accs : Dict (Option AccountId) (Dict Token ℚ)} {tokens : List Token} {val : Option AccountId → Token → ℚ}
    (h : ARep accs tokens val) {k : Option AccountId} {d : Dict Token ℚ} {w : Token → ℚ} (hd : DRep d tokens w) :
    ARep (dictSet accs k d) tokens (fun k' t => if k = k' then w t else val k' t) ∧
    (∀ k', k' ∈ dictKeys (dictSet accs k d) ↔ k' = k ∨ k' ∈ dictKeys accs) := by
  have hk : ∀ k', k' ∈ dictKeys (dictSet accs k d) ↔ k' = k ∨ k' ∈ dictKeys accs := by
    intro k'
    rw [dictKeys_dictSet]
    split
    · rename_i hm
      exact ⟨.inr, fun h => h.elim (fun e => e ▸ hm) id⟩
    · simp [or_comm]
  refine ⟨⟨nodup_dictSet h.nodup k d, ?_⟩, hk⟩
  intro k' hk'
  rw [dictGet?_dictSet]
  by_cases hkk : k = k'
  · rw [if_pos hkk]
    exact ⟨d, rfl, hd.congr fun t _ => by simp [hkk]⟩
  · rw [if_neg hkk]
    obtain ⟨d', h1, h2⟩ := h.entry k' (((hk k').1 hk').resolve_left (Ne.symm hkk))
    exact ⟨d', h1, h2.congr fun t _ => by simp [hkk]⟩

theorem ARep.congr {accs : Dict (Option AccountId) (Dict Token ℚ)} {tokens : List Token} {val val' : Option AccountId → Token → ℚ}
    (h : ARep accs tokens val) (hv : ∀ k ∈ dictKeys accs, ∀ t ∈ tokens, val k t = val' k t) : ARep accs tokens val' :=
  ⟨h.nodup, fun k hk => by obtain ⟨d, h1, h2⟩ := h.entry k hk; exact ⟨d, h1, h2.congr (hv k hk)⟩⟩

theorem ARep.forall {accs : Dict (Option AccountId) (Dict Token ℚ)} {tokens : List Token} {val : Option AccountId → Token → ℚ}
    (h : ARep accs tokens val) (hn : tokens.Nodup) :
    (∀ p ∈ accs, ∀ q ∈ p.2, q.2 ≥ 0) ↔ ∀ k ∈ dictKeys accs, ∀ t ∈ tokens, 0 ≤ val k t := by
  constructor
  · intro hp k hk
    obtain ⟨d, h1, h2⟩ := h.entry k hk
    exact (h2.forall hn (fun _ v => v ≥ 0)).1 (hp _ (dictGet?_mem h1))
  · rintro hp ⟨k, d⟩ hm
    have hk : k ∈ dictKeys accs := List.mem_map.2 ⟨_, hm, rfl⟩
    obtain ⟨d', h1, h2⟩ := h.entry k hk
    rw [dictGet?_of_mem h.nodup hm] at h1
    cases h1
    exact (h2.forall hn (fun _ v => v ≥ 0)).2 (hp k hk)

/-! ### Account table -/

theorem pyInt_eq_trunc (q : ℚ) : pyInt q = trunc q := rfl

theorem balanceOf_eq {accounts : Accounts} {a : AccountId} {acc : Dict Token ℚ} (h : dictGet? accounts a = some acc) (t : Token) :
    balanceOf accounts a t = (dictGet? acc t).getD 0 := by
  unfold dictGet? at h
  unfold balanceOf
  cases hf : accounts.find? (fun p => decide (p.1 = a)) with
  | none => rw [hf] at h; simp at h
  | some p =>
    rw [hf] at h
    simp only [Option.map_some, Option.some.injEq] at h
    subst h
    unfold dictGet?
    cases hg : p.2.find? (fun q => decide (q.1 = t)) <;> simp [hg]

theorem dictGet?_map {tokens : List Token} (f : Token → ℚ) {t : Token} (ht : t ∈ tokens) :
    dictGet? (tokens.map (fun t => (t, f t))) t = some (f t) := by
  induction tokens with
  | nil => simp at ht
  | cons a l ih =>
    rw [List.map_cons, dictGet?_cons]
    split
    · rename_i h; simp only at h; rw [h]
    · rename_i h
      exact ih ((List.mem_cons.1 ht).resolve_left (fun e => h e.symm))

theorem DRep_init (tokens : List Token) (f : Token → ℚ) : DRep (tokens.map (fun t => (t, f t))) tokens f := by
  refine ⟨?_, fun t ht => dictGet?_map f ht⟩
  simp [dictKeys, List.map_map, Function.comp_def]

/-- Starting balance used by the check. -/
def startBal (accounts : Accounts) (k : Option AccountId) (t : Token) : ℚ :=
  match k with
  | none => 0
  | some a => (trunc (balanceOf accounts a t) : ℚ)

theorem accountTable_fold {accounts : Accounts} {tokens : List Token} : ∀ {orders : List Order} {d : Dict (Option AccountId) (Dict Token ℚ)},
    ARep d tokens (startBal accounts) → (∀ o ∈ orders, ∃ a acc, o.accountId = some a ∧ dictGet? accounts a = some acc) →
    ∃ d', foldE (fun d (o : Order) => do
      match o.accountId with
      | none => .error .keyError
      | some a =>
        let acc ← dictGet accounts a
        pure (dictSet d o.accountId (tokens.map (fun t => (t, (pyInt ((dictGet? acc t).getD 0) : ℚ)))))) d orders = .ok d' ∧
      ARep d' tokens (startBal accounts) ∧ ∀ k, k ∈ dictKeys d' ↔ k ∈ dictKeys d ∨ ∃ o ∈ orders, o.accountId = k := by
  intro orders
  induction orders with
  | nil => intro d h _; exact ⟨d, rfl, h, by simp⟩
  | cons o os ih =>
    intro d h ho
    obtain ⟨a, acc, ha, hacc⟩ := ho o (by simp)
    obtain ⟨h1, h2⟩ := h.set (k := o.accountId) (DRep_init tokens (fun t => (pyInt ((dictGet? acc t).getD 0) : ℚ)))
    have h3 := h1.congr (val' := startBal accounts) (by
      intro k _ t _
      split
      · rename_i hk
        subst hk
        rw [ha]
        simp only [startBal]
        rw [balanceOf_eq hacc, pyInt_eq_trunc]
      · rfl)
    obtain ⟨d', e, i1, i2⟩ := ih h3 (fun o ho' => ho o (by simp [ho']))
    refine ⟨d', ?_, i1, ?_⟩
    · unfold foldE
      simp only [ha, dictGet_of hacc, ok_bind, pure_eq_ok]
      simp only [ha] at e
      exact e
    · intro k
      rw [i2, h2]
      simp only [List.mem_cons, exists_eq_or_imp]
      constructor
      · rintro ((rfl | h) | h)
        · exact .inr (.inl rfl)
        · exact .inl h
        · exact .inr (.inr h)
      · rintro (h | h | h)
        · exact .inl (.inr h)
        · exact .inl (.inl h.symm)
        · exact .inr h

theorem accountTable_spec {accounts : Accounts} {tokens : List Token} {orders : List Order}
    (ho : ∀ o ∈ orders, ∃ a acc, o.accountId = some a ∧ dictGet? accounts a = some acc) :
    ∃ d, accountTable accounts tokens orders = .ok d ∧ ARep d tokens (startBal accounts) ∧
      ∀ k, k ∈ dictKeys d ↔ ∃ o ∈ orders, o.accountId = k := by
  obtain ⟨d, e, h1, h2⟩ := accountTable_fold (accounts := accounts) (tokens := tokens) (orders := orders) (d := [])
    ⟨by simp [dictKeys], by simp [dictKeys]⟩ ho
  exact ⟨d, e, h1, fun k => by rw [h2]; simp [dictKeys]⟩

/-! ### Order constraints -/

theorem validateOrderConstraints_iff {cfg : Config} (hm : 0 ≤ cfg.minTradable) {o : Order} :
    validateOrderConstraints cfg o o.buy o.sell = .ok () ↔ OrderConstraints cfg o := by
  have hm' : (0 : ℚ) ≤ cfg.minTradable := by exact_mod_cast hm
  unfold validateOrderConstraints
  by_cases hb : o.buy = 0
  · simp only [hb, if_true, bind_eq_ok, pyAssert_eq_ok, exists_and_left, exists_const, true_or, true_and]
    constructor
    · rintro ⟨h1, h2⟩
      exact ⟨fun h => by rw [hb] at h; exact absurd h (lt_irrefl _), h1, .inl hb, h2⟩
    · intro h
      exact ⟨h.maxSell, h.minSell⟩
  · simp only [hb, if_false, pyDiv_of_ne hb, ok_bind, bind_eq_ok, pyAssert_eq_ok, exists_and_left, exists_const, false_or]
    constructor
    · rintro ⟨h1, h2, h3, h4⟩
      refine ⟨fun h => ?_, h2, .inr h3, h4⟩
      rw [div_le_iff₀ h] at h1; exact h1
    · intro h
      have h3 := h.minBuy.resolve_left hb
      have hpos : 0 < o.buy := lt_of_le_of_ne (hm'.trans h3) (Ne.symm hb)
      exact ⟨by rw [div_le_iff₀ hpos]; exact h.limit hpos, h.maxSell, h3, h.minSell⟩

theorem gain_nil (a : Option AccountId) (t : Token) : gain [] a t = 0 := by simp [gain, bought, sold]

theorem gain_cons (o : Order) (os : List Order) (a : Option AccountId) (t : Token) :
    gain (o :: os) a t = (if o.accountId = a then (if o.buyToken = t then o.buy else 0) - (if o.sellToken = t then o.sell else 0) else 0) +
      gain os a t := by
  have key : ∀ l : List Order, bought l t - sold l t = - imbal l t := by intro l; unfold imbal; ring
  unfold gain
  rw [key, key]
  by_cases h : o.accountId = a
  · rw [List.filter_cons_of_pos (by simpa using h), imbal_cons, if_pos h]; ring
  · rw [List.filter_cons_of_neg (by simpa using h), if_neg h, zero_add]

/-! ### Main loop -/

/-- State of the check after some orders. -/
structure VRep (st : ValState) (tokens : List Token) (bal : Token → ℚ) (acc : Option AccountId → Token → ℚ) : Prop where
  bal : DRep st.balances tokens bal
  acc : ARep st.accs tokens acc

theorem validateStep_eq {cfg : Config} {st : ValState} {tokens : List Token} {bal : Token → ℚ} {acc : Option AccountId → Token → ℚ}
    (h : VRep st tokens bal acc) {o : Order} (hb : o.buyToken ∈ tokens) (hs : o.sellToken ∈ tokens) (ha : o.accountId ∈ dictKeys st.accs) :
    ∃ st', validateStep cfg st o = (validateOrderConstraints cfg o o.buy o.sell >>= fun _ => .ok st') ∧
      dictKeys st'.accs = dictKeys st.accs ∧
      VRep st' tokens (fun t => bal t + ((if o.sellToken = t then o.sell else 0) - (if o.buyToken = t then o.buy else 0)))
        (fun k t => acc k t + (if o.accountId = k then (if o.buyToken = t then o.buy else 0) - (if o.sellToken = t then o.sell else 0) else 0)) := by
  obtain ⟨d, hd1, hd2⟩ := h.acc.entry _ ha
  have b1 := h.bal.set hb (bal o.buyToken - o.buy)
  have b2 := b1.set hs ((if o.buyToken = o.sellToken then bal o.buyToken - o.buy else bal o.sellToken) + o.sell)
  have a1 := hd2.set hb (acc o.accountId o.buyToken + o.buy)
  have a2 := a1.set hs ((if o.buyToken = o.sellToken then acc o.accountId o.buyToken + o.buy else acc o.accountId o.sellToken) - o.sell)
  obtain ⟨r1, r2⟩ := h.acc.set (k := o.accountId) a2
  refine ⟨⟨_, _⟩, ?_, ?_, ⟨b2.congr ?_, r1.congr ?_⟩⟩
  · unfold validateStep
    simp only [dictGet_of (h.bal.2 _ hb), ok_bind, dictGet_of (b1.2 _ hs), dictGet_of hd1, dictGet_of (hd2.2 _ hb), dictGet_of (a1.2 _ hs), pure_eq_ok]
  · rw [dictKeys_dictSet, if_pos ha]
  · intro t _
    by_cases h1 : o.sellToken = t <;> by_cases h2 : o.buyToken = t
    · subst h1; simp [h2]; ring
    · subst h1; simp [h2]
    · subst h2; simp [h1]; ring
    · simp [h1, h2]
  · intro k _ t _
    by_cases hk : o.accountId = k
    · subst hk
      simp only [if_true]
      by_cases h1 : o.sellToken = t <;> by_cases h2 : o.buyToken = t
      · subst h1; simp [h2]; ring
      · subst h1; simp [h2]; ring
      · subst h2; simp [h1]
      · simp [h1, h2]
    · simp [hk]

theorem validateFold {cfg : Config} {tokens : List Token} : ∀ {orders : List Order} {st : ValState} {bal : Token → ℚ} {acc : Option AccountId → Token → ℚ},
    VRep st tokens bal acc → (∀ o ∈ orders, o.buyToken ∈ tokens ∧ o.sellToken ∈ tokens ∧ o.accountId ∈ dictKeys st.accs) →
    ((∃ st', foldE (validateStep cfg) st orders = .ok st') ↔ ∀ o ∈ orders, validateOrderConstraints cfg o o.buy o.sell = .ok ()) ∧
    ∀ st', foldE (validateStep cfg) st orders = .ok st' → dictKeys st'.accs = dictKeys st.accs ∧
      VRep st' tokens (fun t => bal t + imbal orders t) (fun k t => acc k t + gain orders k t) := by
  intro orders
  induction orders with
  | nil =>
    intro st bal acc h _
    refine ⟨by simp [foldE], ?_⟩
    intro st' e
    cases e
    refine ⟨rfl, ?_⟩
    simp only [imbal_nil, gain_nil, add_zero]
    exact h
  | cons o os ih =>
    intro st bal acc h ho
    obtain ⟨h1, h2, h3⟩ := ho o (by simp)
    obtain ⟨st1, e, k, hv⟩ := validateStep_eq (cfg := cfg) h h1 h2 h3
    obtain ⟨i1, i2⟩ := ih hv (fun o' ho' => by rw [k]; exact ho o' (by simp [ho']))
    have hunf : foldE (validateStep cfg) st (o :: os) =
        (validateOrderConstraints cfg o o.buy o.sell >>= fun _ => foldE (validateStep cfg) st1 os) := by
      show (validateStep cfg st o >>= fun st' => foldE (validateStep cfg) st' os) = _
      rw [e]
      cases validateOrderConstraints cfg o o.buy o.sell <;> rfl
    rw [hunf]
    cases hc : validateOrderConstraints cfg o o.buy o.sell with
    | error e =>
      refine ⟨?_, fun st' h => by cases h⟩
      constructor
      · rintro ⟨_, h⟩; cases h
      · intro h
        have := h o (by simp)
        rw [hc] at this; cases this
    | ok u =>
      rw [ok_bind]
      refine ⟨?_, ?_⟩
      · rw [i1]
        simp [hc]
      · intro st' e'
        obtain ⟨j1, j2⟩ := i2 st' e'
        refine ⟨j1.trans k, ⟨j2.bal.congr fun t _ => ?_, j2.acc.congr fun k t _ _ => ?_⟩⟩
        · rw [imbal_cons]; ring
        · rw [gain_cons]; ring

theorem checkBalances_iff {d : Dict Token ℚ} {fee : Fee} :
    checkBalances d fee = .ok () ↔ ∀ q ∈ d, (q.1 = fee.token → 0 ≤ q.2) ∧ (q.1 ≠ fee.token → q.2 = 0) := by
  unfold checkBalances
  induction d with
  | nil => simp [foldE]
  | cons p d ih =>
    unfold foldE
    rw [bind_eq_ok]
    by_cases h : p.1 = fee.token
    · simp only [h, if_true, pyAssert_eq_ok, exists_and_left, exists_const, List.forall_mem_cons, ih]
      simp
    · simp only [h, if_false, pyAssert_eq_ok, exists_and_left, exists_const, List.forall_mem_cons, ih]
      simp [h]

end Dex
