import Verif.Proof.Moderate

/-! # Property C115: how a command can fail when rates are of ordinary size -/

namespace Dex

namespace Spec

/-- The rates are small enough for the prices: the limit rates of the pair are at most `X`, which is at most the price of the fee token if that is the first token;
otherwise some rate of at most `Y` is within the limits of the orders selling the fee token, and `Y (X + 1)` is at most the price of the fee token. -/
def ModerateRates (cfg : Config) (fee : Fee) (pair : Token × Token) (b s f : List Order) : Prop :=
  ∃ X Y : ℚ, (∀ y, LimitRate fee b s y → y ≤ X) ∧ (pair.1 = fee.token → X ≤ cfg.feeTokenPrice) ∧
    (pair.1 ≠ fee.token → (∀ o ∈ f, 1 / (o.maxXrate * (9 / 10)) ≤ Y) ∧ Y * (X + 1) ≤ cfg.feeTokenPrice)

/-- The three ways in which matching a pair fails: division by zero on a lopsided side; a shape assertion with a tie among at least four orders of the pair; a shape
assertion with a tie among at least three orders that sell the fee token and an order made up. -/
def PairError (cfg : Config) (fee : Fee) (b s f : List Order) (e : PyErr) : Prop :=
  (e = .zeroDivision ∧ Lopsided fee b) ∨ ((e = .assertion "xrate.py:439" ∨ e = .assertion "xrate.py:440") ∧
    ((∃ b' s', b'.Sublist b ∧ s'.Sublist s ∧ 4 ≤ b'.length + s'.length ∧ Tie cfg fee b' s') ∨
      3 ≤ f.length ∧ ∃ mo f', (∀ o ∈ f', ∃ a ∈ f, SameButExec a o) ∧ Tie cfg fee [mo] f'))

end Spec

open Spec

/-- The matching step fails only in these ways. -/
theorem only_pairError {cfg : Config} {ext : Ext} {pair : Token × Token} {b s f : List Order} {fee : Fee} {pool : List Order} (hp : Pool pool) (hc : CfgOk cfg)
    (h0 : 0 ≤ fee.value) (hfee : fee.value < 1) (hφ : 9 / 10 ≤ (1 - fee.value) ^ 2) (hb : BookOf pool pair fee { b, s, f }) (hne : pair.1 ≠ pair.2)
    (hF2 : pair.2 ≠ fee.token) (hbr : ∀ E, MaxBranching E (ext.branch E)) (hq : ∀ t, 0 ≤ t → ∃ r, ext.sqrt t = .ok r) (hbn : b ≠ []) (hsn : s ≠ [])
    (hbp : ∀ o ∈ b, 0 < o.maxSell) (hsp : ∀ o ∈ s, 0 < o.maxSell) (hfp : ∀ o ∈ f, 0 < o.maxSell) (hmod : ModerateRates cfg fee pair b s f) :
    Only (PairError cfg fee b s f) (solveTokenPairAndFee cfg ext pair b s f fee none) := by
  obtain ⟨X, Y, hX, hXP, hY⟩ := hmod
  have hsearch := hb.search hp hc hfee
  obtain ⟨b1, s1, g1, sb, ss, mb, ms⟩ := C14_exact (hsearch.prune hbn hsn)
  dsimp only at sb ss mb ms g1
  unfold solveTokenPairAndFee
  rw [g1, ok_bind]
  dsimp only
  split
  · exact only_pure _
  rename_i hlen
  have hb0 : b1 ≠ [] := fun h => hlen (.inl (by rw [h]; rfl))
  have hs0 : s1 ≠ [] := fun h => hlen (.inr (by rw [h]; rfl))
  have hb1 := hb.sub sb ss (List.Sublist.refl _)
  have hsearch1 : SearchInput cfg fee b1 s1 := hsearch.sub sb ss
  obtain ⟨o, ho⟩ := List.exists_mem_of_ne_nil _ hb0
  obtain ⟨hob, c, hc', hoc⟩ := (mb o).1 ho
  have hm : ∃ o ∈ b1, ∃ c ∈ s1, Matchable fee o c := ⟨o, ho, c, (ms c).2 ⟨hc', o, hob, hoc⟩, hoc⟩
  refine only_bind (only_solveOriented_of hp hc h0 hfee hφ hb1 hne hF2 hbr (fun y hy => by cases hy) hm (fun _ => ?_) (X := X) (Y := Y) ?_
    hXP ?_ hY) fun _ _ => only_pure _
  · intro e he
    rcases C114_search hsearch1 h0 (fun o ho => hbp o (sb.subset ho)) (fun o ho => hsp o (ss.subset ho)) hm hq he with
      ⟨k1, k2⟩ | ⟨k1, b', s', k2, k3, k4⟩
    · exact .inl ⟨k1, Lopsided.mono sb.subperm k2⟩
    · obtain ⟨_, _, hp', sb', ss', _, _⟩ := C14_exact (hsearch1.prune hb0 hs0)
      rw [hp'] at k2
      cases k2
      exact .inr ⟨k1, .inl ⟨b', s', sb'.trans sb, ss'.trans ss, k3, k4⟩⟩
  · intro x hx
    unfold givenOrBestXrate at hx
    obtain ⟨r, hr, hx⟩ := bind_eq_ok.1 hx
    cases r with
    | none => cases hx
    | some r =>
      cases hx
      exact best_le_limit hsearch1 hb0 hs0 (fun y hy => hX y (limitRate_mono sb.subset ss.subset hy)) hr
  · intro mo f' hsame hlen' hne hmo hin hmat e he
    obtain ⟨a, ha⟩ := List.exists_mem_of_ne_nil _ hne
    rcases C114_search hin h0 (by simpa using hmo) (fun o ho => by
        obtain ⟨a, ha, e⟩ := hsame o ho
        have := hfp a ha
        unfold SameButExec at e
        rw [e]; exact this) ⟨mo, by simp, a, ha, hmat a ha⟩ hq he with ⟨k1, k2⟩ | ⟨k1, b', s', k2, k3, k4⟩
    · exact absurd k2 (not_lopsided_single hmo.le)
    · obtain ⟨_, _, hp', sb', ss', mb', ms'⟩ := C14_exact (hin.prune (by simp) hne)
      rw [hp'] at k2
      cases k2
      have hlb := sb'.length_le
      have hls := ss'.length_le
      have hmo' : mo ∈ b' := (mb' mo).2 ⟨by simp, a, ha, hmat a ha⟩
      have hbe : b' = [mo] := sb'.eq_of_length_le (by have := List.length_pos_of_mem hmo'; simp only [List.length_singleton]; omega)
      subst hbe
      refine .inr ⟨k1, .inr ⟨?_, mo, s', fun o ho => hsame o (ss'.subset ho), k4⟩⟩
      simp only [List.length_singleton] at k3
      omega

/-- C115. The command for a pair, without thresholds, with orders on both sides and moderate rates, fails only in the three ways. -/
theorem C115_token_pair {cfg : Config} {ext : Ext} {inst : Instance} {pair : Token × Token} (hi : GoodInstance inst)
    (hset : SolverSetting cfg ext pair inst.fee none) (hφ : 9 / 10 ≤ (1 - inst.fee.value) ^ 2) (hq : ∀ t, 0 ≤ t → ∃ r, ext.sqrt t = .ok r)
    {accounts : Accounts} {bk : Books} {fee : Fee} (h : loadPairProblem cfg inst pair = .ok (accounts, bk, fee)) (hbn : bk.b ≠ []) (hsn : bk.s ≠ [])
    (hmod : ModerateRates cfg fee pair bk.b bk.s bk.f) {e : PyErr} (he : tokenPairMain cfg ext inst pair none = .error e) :
    PairError cfg fee bk.b bk.s bk.f e := by
  have he' := (C44_token_pair hset.cfgOk hi hset.tokens hset.branch hset.xratePos h).1 e he
  have h0 := h
  unfold loadPairProblem at h0
  simp only [bind_eq_ok, pyAssert_eq_ok, exists_and_left, exists_const] at h0
  obtain ⟨os, h1, os', h2, hF2, e'⟩ := h0
  cases e'
  have hload : loadProblem cfg inst = .ok (inst.accounts, os', inst.fee) := by
    unfold loadProblem; rw [h1, ok_bind, h2]; rfl
  have hmin : 0 < cfg.minTradable := by have := hset.cfgOk.minPos; omega
  obtain ⟨hp, hk, _, _⟩ := loaded_pool hmin hi.balances hi.ints hi.sell hload
  have hb := bookOf_filter hp (forall₂_same_refl _) pair inst.fee (ordersBuyingSelling os' pair.1 inst.fee.token) (.inl rfl)
  have hpos : ∀ {x y : Token}, ∀ o ∈ ordersBuyingSelling os' x y, 0 < o.maxSell := fun o ho => by
    obtain ⟨_, _, _, _, _, _, _, hm, _⟩ := C02_load_problem hmin hi.balances hi.sell hload (List.mem_of_mem_filter ho)
    exact hm
  rw [C32_validation_never_fails hset hp hk hb, economicLoop_single hset.noThresholds.avg hset.noThresholds.abs hbn] at he'
  exact only_bind (only_pairError hp hset.cfgOk hi.feePos.le hset.feeLt hφ hb hset.tokens hF2 hset.branch hq hbn hsn hpos hpos hpos hmod) (fun _ _ => only_pure _) e he'

/-- C115. So the command succeeds for a small book: at most three orders for the pair, on the first side none that sells more than twice as much as another, and at
most two orders that sell the fee token. -/
theorem C115_small_run {cfg : Config} {ext : Ext} {inst : Instance} {pair : Token × Token} (hi : GoodInstance inst)
    (hset : SolverSetting cfg ext pair inst.fee none) (hφ : 9 / 10 ≤ (1 - inst.fee.value) ^ 2) (hq : ∀ t, 0 ≤ t → ∃ r, ext.sqrt t = .ok r)
    {accounts : Accounts} {bk : Books} {fee : Fee} (h : loadPairProblem cfg inst pair = .ok (accounts, bk, fee)) (hbn : bk.b ≠ []) (hsn : bk.s ≠ [])
    (hmod : ModerateRates cfg fee pair bk.b bk.s bk.f) (hn : bk.b.length + bk.s.length ≤ 3) (hnf : bk.f.length ≤ 2)
    (h2 : ∀ o ∈ bk.b, ∀ c ∈ bk.b, o.maxSell ≤ 2 * c.maxSell) : ∃ d, tokenPairMain cfg ext inst pair none = .ok d := by
  cases he : tokenPairMain cfg ext inst pair none with
  | ok d => exact ⟨d, rfl⟩
  | error e =>
    exfalso
    rcases C115_token_pair hi hset hφ hq h hbn hsn hmod he with ⟨_, hl⟩ | ⟨_, ⟨b', s', sb, ss, h4, _⟩ | ⟨h3, _⟩⟩
    · exact not_lopsided_loaded hi hset h hsn hn h2 hl
    · have := sb.length_le
      have := ss.length_le
      omega
    · omega

/-! ### The command for all pairs -/

/-- How the command over all pairs fails: in one of the three ways on one of the pairs, with the orders as loaded up to the amounts executed. -/
def BestError (cfg : Config) (fee : Fee) (pool : List Order) (pairs : List (Token × Token)) (e : PyErr) : Prop :=
  ∃ pair ∈ pairs, ∃ orders, List.Forall₂ SameButExec pool orders ∧
    PairError cfg fee (ordersBuyingSelling orders pair.1 pair.2) (ordersBuyingSelling orders pair.2 pair.1) (feeOrdersFor orders pair fee) e

theorem forall₂_filter_same {pool orders : List Order} (h : List.Forall₂ SameButExec pool orders) {x y : Token} {o : Order} (ho : o ∈ ordersBuyingSelling orders x y) :
    ∃ a ∈ ordersBuyingSelling pool x y, SameButExec a o := by
  obtain ⟨h1, h2⟩ := List.mem_filter.1 ho
  obtain ⟨a, ha, e⟩ := forall₂_mem_right h o h1
  refine ⟨a, List.mem_filter.2 ⟨ha, ?_⟩, e⟩
  unfold SameButExec at e
  rw [e] at h2
  exact h2

theorem moderate_same {cfg : Config} {fee : Fee} {pair : Token × Token} {pool orders : List Order} (h : List.Forall₂ SameButExec pool orders)
    (hm : ModerateRates cfg fee pair (ordersBuyingSelling pool pair.1 pair.2) (ordersBuyingSelling pool pair.2 pair.1) (feeOrdersFor pool pair fee)) :
    ModerateRates cfg fee pair (ordersBuyingSelling orders pair.1 pair.2) (ordersBuyingSelling orders pair.2 pair.1) (feeOrdersFor orders pair fee) := by
  obtain ⟨X, Y, h1, h2, h3⟩ := hm
  have hx : ∀ {a o : Order}, SameButExec a o → a.maxXrate = o.maxXrate := fun e => by unfold SameButExec at e; rw [e]
  refine ⟨X, Y, ?_, h2, fun hF => ⟨?_, (h3 hF).2⟩⟩
  · rintro y (⟨o, ho, rfl⟩ | ⟨o, ho, rfl⟩)
    · obtain ⟨a, ha, e⟩ := forall₂_filter_same h ho
      exact h1 _ (.inl ⟨a, ha, by rw [hx e]⟩)
    · obtain ⟨a, ha, e⟩ := forall₂_filter_same h ho
      exact h1 _ (.inr ⟨a, ha, by rw [hx e]⟩)
  · have g := (h3 hF).1
    unfold feeOrdersFor at g ⊢
    rw [if_pos hF] at g ⊢
    intro o ho
    obtain ⟨a, ha, e⟩ := forall₂_filter_same h ho
    rw [← hx e]
    exact g a ha

theorem only_matchTokenPair_of {cfg : Config} {ext : Ext} {pair : Token × Token} {accounts : Accounts} {pool orders : List Order} {fee : Fee}
    (hset : SolverSetting cfg ext pair fee none) (h0 : 0 ≤ fee.value) (hφ : 9 / 10 ≤ (1 - fee.value) ^ 2) (hp : Pool pool) (hk : Backed accounts pool)
    (hpos : ∀ o ∈ pool, 0 < o.maxSell) (hF2 : pair.2 ≠ fee.token) (hq : ∀ t, 0 ≤ t → ∃ r, ext.sqrt t = .ok r)
    (hmod : ModerateRates cfg fee pair (ordersBuyingSelling pool pair.1 pair.2) (ordersBuyingSelling pool pair.2 pair.1) (feeOrdersFor pool pair fee))
    (hs : List.Forall₂ SameButExec pool orders) :
    Only (PairError cfg fee (ordersBuyingSelling orders pair.1 pair.2) (ordersBuyingSelling orders pair.2 pair.1) (feeOrdersFor orders pair fee))
      (matchTokenPair cfg ext pair accounts orders fee) := by
  have hpos' : ∀ o ∈ orders, 0 < o.maxSell := fun o ho => by
    obtain ⟨a, ha, e⟩ := forall₂_mem_right hs o ho
    have := hpos a ha
    unfold SameButExec at e
    rw [e]; exact this
  have hposF : ∀ o ∈ feeOrdersFor orders pair fee, 0 < o.maxSell := fun o ho => by
    unfold feeOrdersFor at ho
    split at ho
    · exact hpos' o (List.mem_of_mem_filter ho)
    · simp at ho
  unfold matchTokenPair
  dsimp only
  split
  · exact only_pure _
  rename_i h1
  split
  · exact only_pure _
  rename_i h2
  rw [show (if pair.1 ≠ fee.token then ordersBuyingSelling orders pair.1 fee.token else []) = feeOrdersFor orders pair fee from rfl]
  split
  · exact only_pure _
  have hb := bookOf_pair hp hs pair fee
  have hbn : ordersBuyingSelling orders pair.1 pair.2 ≠ [] := fun h => h1 (by rw [h]; rfl)
  have hsn : ordersBuyingSelling orders pair.2 pair.1 ≠ [] := fun h => h2 (by rw [h]; rfl)
  rw [C32_validation_never_fails hset hp hk hb, economicLoop_single hset.noThresholds.avg hset.noThresholds.abs hbn]
  exact only_bind (only_bind (only_pairError hp hset.cfgOk h0 hset.feeLt hφ hb hset.tokens hF2 hset.branch hq hbn hsn
    (fun o ho => hpos' o (List.mem_of_mem_filter ho)) (fun o ho => hpos' o (List.mem_of_mem_filter ho)) hposF (moderate_same hs hmod))
    fun _ _ => only_pure _) fun _ _ => only_pure _

theorem only_bestLoop_of {cfg : Config} {ext : Ext} {inst : Instance} {pool : List Order} {pairs : List (Token × Token)} (hi : GoodInstance inst)
    (hl : LoadedPool cfg inst pool) (hφ : 9 / 10 ≤ (1 - inst.fee.value) ^ 2) (hpos : ∀ o ∈ pool, 0 < o.maxSell) (hq : ∀ t, 0 ≤ t → ∃ r, ext.sqrt t = .ok r)
    (hmod : ∀ pair ∈ pairs, pair.2 ≠ inst.fee.token ∧
      ModerateRates cfg inst.fee pair (ordersBuyingSelling pool pair.1 pair.2) (ordersBuyingSelling pool pair.2 pair.1) (feeOrdersFor pool pair inst.fee))
    {visits : List ((Token × Token) × Bool)} {st : BestState} (hv : ∀ v ∈ visits, v.1 ∈ pairs)
    (hset : ∀ v ∈ visits, SolverSetting cfg ext v.1 inst.fee none) (hs : List.Forall₂ SameButExec pool st.orders) :
    Only (BestError cfg inst.fee pool pairs) (bestLoop cfg ext inst.accounts inst.fee visits st) := by
  induction visits generalizing st with
  | nil => exact only_ok _
  | cons v visits ih =>
    obtain ⟨pair, stop⟩ := v
    have h0 := hset (pair, stop) (by simp)
    have hv0 := hv (pair, stop) (by simp)
    unfold bestLoop
    refine only_bind (fun e he => ?_) fun r hr => ?_
    · cases hm : matchTokenPair cfg ext pair inst.accounts st.orders inst.fee with
      | error e' =>
        have : e' = e := by
          unfold matchAndEvaluate at he
          rw [hm] at he
          cases he; rfl
        subst this
        exact ⟨pair, hv0, st.orders, hs, only_matchTokenPair_of h0 hi.feePos.le hφ hl.wf hl.backed hpos (hmod pair hv0).1 hq (hmod pair hv0).2 hs _ hm⟩
      | ok r =>
        exfalso
        obtain ⟨sol, orders'⟩ := r
        obtain ⟨_, g2⟩ := matchTokenPair_spec h0.cfgOk h0.feeLt h0.tokens h0.branch hl.wf hs hm
        have hft : bought sol.orders inst.fee.token ≤ sold sol.orders inst.fee.token := by
          rcases g2 with rfl | hg
          · simp [Solution.trivial, bought, sold]
          · exact hg.feeToken h0.feeMin
        obtain ⟨d, hd, _⟩ := dump_ok h0.cfgOk hi hl g2 hft
        unfold dumpSolution at hd
        simp only [bind_eq_ok] at hd
        obtain ⟨acc, hacc, m, hm', _⟩ := hd
        unfold matchAndEvaluate at he
        rw [hm, ok_bind] at he
        dsimp only at he
        rw [hacc, ok_bind] at he
        obtain ⟨v, hv⟩ := objective_of_metrics hm' (os' := sol.orders.filter (fun o => decide (o.buy > 0))) (fun o ho => List.mem_of_mem_filter ho)
        rw [hv] at he
        cases he
    · obtain ⟨obj, sol, orders'⟩ := r
      dsimp only
      unfold matchAndEvaluate at hr
      simp only [bind_eq_ok] at hr
      obtain ⟨⟨sol', orders''⟩, h2, acc, _, obj', _, e⟩ := hr
      cases e
      obtain ⟨g1, _⟩ := matchTokenPair_spec h0.cfgOk h0.feeLt h0.tokens h0.branch hl.wf hs h2
      split
      · exact only_pure _
      · refine ih (fun v hv' => hv v (by simp [hv'])) (fun v hv => hset v (by simp [hv])) ?_
        split <;> exact g1

theorem eligible_not_fee {orders : List Order} {ft : Token} {p : Token × Token} (h : p ∈ eligibleTokenPairs orders ft) : p.2 ≠ ft := by
  unfold eligibleTokenPairs at h
  simp only [List.mem_append, List.mem_flatMap, List.mem_map, List.mem_filter, decide_eq_true_eq] at h
  rcases h with ⟨b, _, s, ⟨_, h1, h2⟩, rfl⟩ | ⟨s, ⟨_, h1⟩, rfl⟩
  · exact h2
  · exact h1

/-- C115. The command over all pairs, without thresholds, for every shuffle and time limit, if the rates of all pairs are moderate: it fails only in the three ways,
on one of the candidate pairs. -/
theorem C115_best_pair {cfg : Config} {ext : Ext} {inst : Instance} {shuffle : List (Token × Token) → List ((Token × Token) × Bool)} {pool : List Order}
    (hi : GoodInstance inst) (hsh : ∀ E, ∀ v ∈ shuffle E, v.1 ∈ E) (hset : ∀ pair, pair.1 ≠ pair.2 → SolverSetting cfg ext pair inst.fee none)
    (hφ : 9 / 10 ≤ (1 - inst.fee.value) ^ 2) (hq : ∀ t, 0 ≤ t → ∃ r, ext.sqrt t = .ok r) (hload : loadProblem cfg inst = .ok (inst.accounts, pool, inst.fee))
    (hmod : ∀ pair ∈ eligibleTokenPairs pool inst.fee.token,
      ModerateRates cfg inst.fee pair (ordersBuyingSelling pool pair.1 pair.2) (ordersBuyingSelling pool pair.2 pair.1) (feeOrdersFor pool pair inst.fee))
    {e : PyErr} (he : bestTokenPairMain cfg ext inst shuffle = .error e) :
    BestError cfg inst.fee pool (eligibleTokenPairs pool inst.fee.token) e := by
  have h0 := hset ("0", "1") (by decide)
  have hmin : 0 < cfg.minTradable := by have := h0.cfgOk.minPos; omega
  obtain ⟨orders, hload', h1, _⟩ := C44_best_pair h0.cfgOk hi h0.branch hsh
  rw [hload] at hload'
  cases hload'
  obtain ⟨hl, _, _⟩ := loadedPool hmin hi.balances hi.ints hi.sell hload
  exact only_bestLoop_of hi hl hφ (fun o ho => by
      obtain ⟨_, _, _, _, _, _, _, hm, _⟩ := C02_load_problem hmin hi.balances hi.sell hload ho
      exact hm) hq (fun p hp => ⟨eligible_not_fee hp, hmod p hp⟩) (hsh _) (fun v hv => hset v.1 (eligible_ne (hsh _ v hv))) (forall₂_same_refl _) e (h1 e he)

theorem length_filter_same {pool orders : List Order} (h : List.Forall₂ SameButExec pool orders) (x y : Token) :
    (ordersBuyingSelling orders x y).length = (ordersBuyingSelling pool x y).length := by
  unfold ordersBuyingSelling
  induction h with
  | nil => rfl
  | cons e _ ih =>
    unfold SameButExec at e
    rw [List.filter_cons, List.filter_cons, e]
    split <;> simp only [List.length_cons, ih]

/-- C115. So the command over all pairs succeeds if each candidate pair has at most three orders, on the first side at most two of which none sells more than twice as
much as the other, and its first token is bought for the fee token by at most two orders. -/
theorem C115_best_small {cfg : Config} {ext : Ext} {inst : Instance} {shuffle : List (Token × Token) → List ((Token × Token) × Bool)} {pool : List Order}
    (hi : GoodInstance inst) (hsh : ∀ E, ∀ v ∈ shuffle E, v.1 ∈ E) (hset : ∀ pair, pair.1 ≠ pair.2 → SolverSetting cfg ext pair inst.fee none)
    (hφ : 9 / 10 ≤ (1 - inst.fee.value) ^ 2) (hq : ∀ t, 0 ≤ t → ∃ r, ext.sqrt t = .ok r) (hload : loadProblem cfg inst = .ok (inst.accounts, pool, inst.fee))
    (hmod : ∀ pair ∈ eligibleTokenPairs pool inst.fee.token,
      ModerateRates cfg inst.fee pair (ordersBuyingSelling pool pair.1 pair.2) (ordersBuyingSelling pool pair.2 pair.1) (feeOrdersFor pool pair inst.fee))
    (hsmall : ∀ pair ∈ eligibleTokenPairs pool inst.fee.token, (ordersBuyingSelling pool pair.1 pair.2).length ≤ 2 ∧
      (ordersBuyingSelling pool pair.1 pair.2).length + (ordersBuyingSelling pool pair.2 pair.1).length ≤ 3 ∧
      (ordersBuyingSelling pool pair.1 inst.fee.token).length ≤ 2 ∧
      ∀ o ∈ ordersBuyingSelling pool pair.1 pair.2, ∀ c ∈ ordersBuyingSelling pool pair.1 pair.2, o.maxSell ≤ 2 * c.maxSell) :
    ∃ d, bestTokenPairMain cfg ext inst shuffle = .ok d := by
  cases he : bestTokenPairMain cfg ext inst shuffle with
  | ok d => exact ⟨d, rfl⟩
  | error e =>
    exfalso
    have h0 := hset ("0", "1") (by decide)
    have hmin : 0 < cfg.minTradable := by have := h0.cfgOk.minPos; omega
    obtain ⟨pair, hpair, orders, hs, herr⟩ := C115_best_pair hi hsh hset hφ hq hload hmod he
    obtain ⟨k1, k2, k3, k4⟩ := hsmall pair hpair
    have hsell : ∀ {a o : Order}, SameButExec a o → a.maxSell = o.maxSell := fun e => by unfold SameButExec at e; rw [e]
    rcases herr with ⟨_, hl⟩ | ⟨_, ⟨b', s', sb, ss, h4, _⟩ | ⟨h3, _⟩⟩
    · have hpos : ∀ o ∈ ordersBuyingSelling orders pair.1 pair.2, 0 < o.maxSell := fun o ho => by
        obtain ⟨a, ha, e⟩ := forall₂_filter_same hs ho
        obtain ⟨_, _, _, _, _, _, _, hm, _⟩ := C02_load_problem hmin hi.balances hi.sell hload (List.mem_of_mem_filter ha)
        rw [← hsell e]; exact hm
      have hbal : ∀ o ∈ ordersBuyingSelling orders pair.1 pair.2, ∀ c ∈ ordersBuyingSelling orders pair.1 pair.2, o.maxSell ≤ 2 * c.maxSell := fun o ho c hc => by
        obtain ⟨a, ha, e⟩ := forall₂_filter_same hs ho
        obtain ⟨a', ha', e'⟩ := forall₂_filter_same hs hc
        rw [← hsell e, ← hsell e']; exact k4 a ha a' ha'
      rw [← length_filter_same hs] at k1
      clear k2 k3 k4
      revert hl
      generalize ordersBuyingSelling orders pair.1 pair.2 = b at *
      rcases b with _ | ⟨o, _ | ⟨c, _ | ⟨d, b⟩⟩⟩
      · rintro ⟨U, p, F, h1, _⟩
        have := h1.length_le
        simp at this
      · exact not_lopsided_single (hpos o (by simp)).le
      · exact not_lopsided_two hi.feePos.le h0.feeLt (hpos o (by simp)).le (hpos c (by simp)).le (hbal o (by simp) c (by simp)) (hbal c (by simp) o (by simp))
      · simp only [List.length_cons] at k1; omega
    · have h5 := sb.length_le
      have h6 := ss.length_le
      rw [length_filter_same hs] at h5 h6
      omega
    · unfold feeOrdersFor at h3
      split at h3
      · rw [length_filter_same hs] at h3; omega
      · simp at h3

/-! ### The hypotheses are met -/

/-- Whatever the square root, the branching and the division: the solver succeeds on the example instance. -/
example {ext : Ext} (hbr : ∀ E, MaxBranching E (ext.branch E)) (hq : ∀ t, 0 ≤ t → ∃ r, ext.sqrt t = .ok r)
    (hd : ∀ q n, 0 ≤ q → 0 < n → ∃ r, ext.fdiv q n = .ok r ∧ 0 ≤ r) : ∃ d, tokenPairMain Config.default ext ExInst.inst ("B", "S") none = .ok d := by
  obtain ⟨⟨acc, bk, fee⟩, h1, h2, h3, h4, h5, h6, h7, h8, h9, h10⟩ := exists_of_pyCheck (x := loadPairProblem Config.default ExInst.inst ("B", "S"))
    (p := fun r : Accounts × Books × Fee => r.2.1.b ≠ [] ∧ r.2.1.s ≠ [] ∧ (∀ o ∈ r.2.1.b, o.maxXrate * (1 - r.2.2.value) ≤ 10 ^ 9) ∧
      (∀ o ∈ r.2.1.s, 1 / (o.maxXrate * (1 - r.2.2.value)) ≤ 10 ^ 9) ∧ (∀ o ∈ r.2.1.f, 1 / (o.maxXrate * (9 / 10)) ≤ 10 ^ 8) ∧
      r.2.1.b.length + r.2.1.s.length ≤ 3 ∧ r.2.1.f.length ≤ 2 ∧ (∀ o ∈ r.2.1.b, ∀ c ∈ r.2.1.b, o.maxSell ≤ 2 * c.maxSell) ∧ r.2.2.token = "F") (by decide +kernel)
  refine C115_small_run (by constructor <;> decide +kernel)
    ⟨by constructor <;> decide, by decide +kernel, by decide +kernel, by decide, hbr, by simp, ⟨rfl, rfl, hd⟩⟩
    (by decide +kernel) hq h1 h2 h3 ⟨10 ^ 9, 10 ^ 8, limitRates_le h4 h5, fun h => absurd (h.trans h10) (by decide), fun _ => ⟨h6, by decide +kernel⟩⟩ h7 h8 h9

/-- The first case occurs for a pair without the fee token: the orders of C57, with another token for the fee. -/
example : ∃ r, loadPairProblem Config.default { ExZero.inst with fee := { token := "X", value := 1 / 1000 } } ("F", "S") = .ok r ∧
    r.2.1.b = ExZero.b ∧ r.2.1.s = ExZero.s ∧ r.2.1.f = [] :=
  exists_of_pyCheck (p := fun r : Accounts × Books × Fee => r.2.1.b = ExZero.b ∧ r.2.1.s = ExZero.s ∧ r.2.1.f = []) (by decide +kernel)

example : tokenPairMain Config.default ExInst.ext { ExZero.inst with fee := { token := "X", value := 1 / 1000 } } ("F", "S") none = .error .zeroDivision :=
  eq_error_of_pyRaises (by decide +kernel)

/-- The rates of all pairs of the example instance are moderate. -/
example : ∃ r, loadProblem Config.default ExInst.inst = .ok r ∧ ("B", "S") ∈ eligibleTokenPairs r.2.1 ExInst.inst.fee.token ∧
    ∀ pair ∈ eligibleTokenPairs r.2.1 ExInst.inst.fee.token, ModerateRates Config.default ExInst.inst.fee pair (ordersBuyingSelling r.2.1 pair.1 pair.2)
      (ordersBuyingSelling r.2.1 pair.2 pair.1) (feeOrdersFor r.2.1 pair ExInst.inst.fee) := by
  obtain ⟨r, h1, h2, h3⟩ := exists_of_pyCheck (x := loadProblem Config.default ExInst.inst)
    (p := fun r : Accounts × List Order × Fee => ("B", "S") ∈ eligibleTokenPairs r.2.1 ExInst.inst.fee.token ∧
      ∀ pair ∈ eligibleTokenPairs r.2.1 ExInst.inst.fee.token,
        (∀ o ∈ ordersBuyingSelling r.2.1 pair.1 pair.2, o.maxXrate * (1 - ExInst.inst.fee.value) ≤ 10 ^ 9) ∧
        (∀ o ∈ ordersBuyingSelling r.2.1 pair.2 pair.1, 1 / (o.maxXrate * (1 - ExInst.inst.fee.value)) ≤ 10 ^ 9) ∧
        ∀ o ∈ feeOrdersFor r.2.1 pair ExInst.inst.fee, 1 / (o.maxXrate * (9 / 10)) ≤ 10 ^ 8) (by decide +kernel)
  refine ⟨r, h1, h2, fun pair hp => ?_⟩
  obtain ⟨g1, g2, g3⟩ := h3 pair hp
  exact ⟨10 ^ 9, 10 ^ 8, limitRates_le g1 g2, fun _ => by decide +kernel, fun _ => ⟨g3, by decide +kernel⟩⟩

/-- The command over all pairs succeeds there, for every order of the pairs. -/
example {shuffle : List (Token × Token) → List ((Token × Token) × Bool)} (hsh : ∀ E, ∀ v ∈ shuffle E, v.1 ∈ E) :
    ∃ d, bestTokenPairMain Config.default ExInst.ext ExInst.inst shuffle = .ok d := by
  obtain ⟨⟨acc, pool, fee⟩, h1, h2, h3, h4⟩ := exists_of_pyCheck (x := loadProblem Config.default ExInst.inst)
    (p := fun r : Accounts × List Order × Fee => r.1 = ExInst.inst.accounts ∧ r.2.2 = ExInst.inst.fee ∧
      ∀ pair ∈ eligibleTokenPairs r.2.1 ExInst.inst.fee.token,
        ((∀ o ∈ ordersBuyingSelling r.2.1 pair.1 pair.2, o.maxXrate * (1 - ExInst.inst.fee.value) ≤ 10 ^ 9) ∧
        (∀ o ∈ ordersBuyingSelling r.2.1 pair.2 pair.1, 1 / (o.maxXrate * (1 - ExInst.inst.fee.value)) ≤ 10 ^ 9) ∧
        ∀ o ∈ feeOrdersFor r.2.1 pair ExInst.inst.fee, 1 / (o.maxXrate * (9 / 10)) ≤ 10 ^ 8) ∧
        (ordersBuyingSelling r.2.1 pair.1 pair.2).length ≤ 2 ∧
        (ordersBuyingSelling r.2.1 pair.1 pair.2).length + (ordersBuyingSelling r.2.1 pair.2 pair.1).length ≤ 3 ∧
        (ordersBuyingSelling r.2.1 pair.1 ExInst.inst.fee.token).length ≤ 2 ∧
        ∀ o ∈ ordersBuyingSelling r.2.1 pair.1 pair.2, ∀ c ∈ ordersBuyingSelling r.2.1 pair.1 pair.2, o.maxSell ≤ 2 * c.maxSell) (by decide +kernel)
  dsimp only at h2 h3
  subst h2 h3
  refine C115_best_small (by constructor <;> decide +kernel) hsh
    (fun pair hp => ⟨by constructor <;> decide, by decide +kernel, by decide +kernel, hp, ExInst.branch_max, by simp, ExInst.setting.noThresholds⟩)
    (by decide +kernel) (fun t ht => ?_) h1 (fun pair hp => ?_) (fun pair hp => (h4 pair hp).2)
  · show ∃ r, ExInst.sqrt t = .ok r
    unfold ExInst.sqrt
    rw [if_pos ht]
    exact ⟨_, rfl⟩
  · obtain ⟨⟨g1, g2, g3⟩, _⟩ := h4 pair hp
    exact ⟨10 ^ 9, 10 ^ 8, limitRates_le g1 g2, fun _ => by decide +kernel, fun _ => ⟨g3, by decide +kernel⟩⟩

end Dex
