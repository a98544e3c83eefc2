import Verif.Proof.Errors

/-! # Properties C55 and C56: which exceptions the solvers raise -/

namespace Dex

open Spec

/-! ## C55 -/

/-- C55. The rate search on a book in which some pair of orders can trade raises nothing but a division by zero, one of two shape
assertions of its binary search, or an exception of the square root on a non-negative number. -/
theorem C55_rate_search {cfg : Config} {sqrt : ℚ → Py ℚ} {fee : Fee} {b s : List Order} (h : SearchInput cfg fee b s)
    (hm : ∃ o ∈ b, ∃ c ∈ s, Matchable fee o c) {e : PyErr} (he : findBestXrate cfg sqrt b s fee = .error e) : SearchFailure sqrt e :=
  only_findBestXrate h hm e he

/-- C55. The search for an economically viable solution, with any thresholds: besides the failures of the rate search it can only raise
`ValueError` (the minimum or maximum of an empty list). -/
theorem C55_any_thresholds {cfg : Config} {ext : Ext} {pair : Token × Token} {fee : Fee} {xrate : Option ℚ} {pool b s f : List Order}
    (hp : Pool pool) (hc : CfgOk cfg) (hfee : fee.value < 1) (hφ : 9 / 10 ≤ (1 - fee.value) ^ 2) (hne : pair.1 ≠ pair.2)
    (hbr : ∀ E, MaxBranching E (ext.branch E)) (hx : ∀ y, xrate = some y → 0 < y) (hb : BookOf pool pair fee { b, s, f }) {e : PyErr}
    (he : economicLoop cfg ext pair fee xrate (b.length + s.length + 1) { b, s, f } [] .trivial = .error e) :
    SearchFailure ext.sqrt e ∨ e = .valueError :=
  only_economicLoop hp hc hfee hφ hne hbr hx hb (le_refl _) e he

theorem only_solveEconomicViable {cfg : Config} {ext : Ext} {pair : Token × Token} {accounts : Accounts} {b s f pool : List Order}
    {fee : Fee} {xrate : Option ℚ} (hset : SolverSetting cfg ext pair fee xrate) (hφ : 9 / 10 ≤ (1 - fee.value) ^ 2) (hp : Pool pool)
    (hk : Backed accounts pool) (hb : BookOf pool pair fee { b, s, f }) (hbn : b ≠ []) (hsn : s ≠ []) :
    Only (SearchFailure ext.sqrt) (solveEconomicViable cfg ext pair accounts b s f fee xrate) := by
  rw [C32_validation_never_fails hset hp hk hb, economicLoop_single hset.noThresholds.avg hset.noThresholds.abs hbn]
  exact only_bind (only_solveTokenPairAndFee hp hset.cfgOk hset.feeLt hφ hb hset.tokens hset.branch hset.xratePos hbn hsn)
    fun _ _ => only_pure _

/-- C55. The token-pair solver from the instance to the dumped solution, without thresholds, if there is at least one order on each side:
every exception is a failure of the rate search or of the price rounding. No other assertion, lookup or conversion fails. -/
theorem C55_token_pair {cfg : Config} {ext : Ext} {inst : Instance} {pair : Token × Token} {xrate : Option ℚ} (hi : GoodInstance inst)
    (hset : SolverSetting cfg ext pair inst.fee xrate) (hφ : 9 / 10 ≤ (1 - inst.fee.value) ^ 2) {accounts : Accounts} {bk : Books} {fee : Fee}
    (h : loadPairProblem cfg inst pair = .ok (accounts, bk, fee)) (hbn : bk.b ≠ []) (hsn : bk.s ≠ []) {e : PyErr}
    (he : tokenPairMain cfg ext inst pair xrate = .error e) : SearchFailure ext.sqrt e := by
  have he' := (C44_token_pair hset.cfgOk hi hset.tokens hset.branch hset.xratePos h).1 e he
  have h0 := h
  unfold loadPairProblem at h0
  simp only [bind_eq_ok, pyAssert_eq_ok, exists_and_left, exists_const] at h0
  obtain ⟨os, h1, os', h2, _, e⟩ := h0
  cases e
  have hload : loadProblem cfg inst = .ok (inst.accounts, os', inst.fee) := by
    unfold loadProblem; rw [h1, ok_bind, h2]; rfl
  obtain ⟨hp, hk, _, _⟩ := loaded_pool (by have := hset.cfgOk.minPos; omega) hi.balances hi.ints hi.sell hload
  exact only_solveEconomicViable hset hφ hp hk (bookOf_filter hp (forall₂_same_refl _) pair inst.fee _ (.inl rfl)) hbn hsn _ he'

theorem only_matchTokenPair {cfg : Config} {ext : Ext} {pair : Token × Token} {accounts : Accounts} {pool orders : List Order} {fee : Fee}
    (hset : SolverSetting cfg ext pair fee none) (hφ : 9 / 10 ≤ (1 - fee.value) ^ 2) (hp : Pool pool) (hk : Backed accounts pool)
    (hs : List.Forall₂ SameButExec pool orders) : Only (SearchFailure ext.sqrt) (matchTokenPair cfg ext pair accounts orders fee) := by
  unfold matchTokenPair
  dsimp only
  split
  · exact only_pure _
  rename_i h1
  split
  · exact only_pure _
  rename_i h2
  rw [show (if pair.1 ≠ fee.token then ordersBuyingSelling orders pair.1 fee.token else []) = feeOrdersFor orders pair fee from rfl]
  split
  · exact only_pure _
  exact only_bind (only_solveEconomicViable hset hφ hp hk (bookOf_pair hp hs pair fee) (fun h => h1 (by rw [h]; rfl))
    (fun h => h2 (by rw [h]; rfl))) fun _ _ => only_pure _

/-- If the metrics can be computed, so can the objective of any part of the orders. -/
theorem objective_of_metrics {prices : Prices} {accounts : Accounts} {fee : Fee} {os os' : List Order} {m : Metrics}
    (h : computeSolutionMetrics prices accounts os fee = .ok m) (hsub : ∀ o ∈ os', o ∈ os) :
    ∃ v, computeObjectiveCore prices accounts os' fee = .ok v := by
  have key : ∀ {l : List Order} {m0 m1 : Metrics}, foldE (metricsStep prices accounts fee) m0 l = .ok m1 →
      ∀ o ∈ l, ∃ t, objectiveTerms prices accounts fee o = .ok t := by
    intro l
    induction l with
    | nil => intro _ _ _ o ho; cases ho
    | cons a l ih =>
      intro m0 m1 hm o ho
      unfold foldE at hm
      rw [bind_eq_ok] at hm
      obtain ⟨m2, hm2, hm⟩ := hm
      rcases List.mem_cons.1 ho with rfl | ho
      · unfold metricsStep at hm2
        simp only [bind_eq_ok] at hm2
        obtain ⟨pb, e1, ps, e2, x, e3, u, e4, bal, e5, um, e6, _⟩ := hm2
        unfold objectiveTerms
        rw [e1, ok_bind, e2, ok_bind, e3, ok_bind, e4, ok_bind, e5, ok_bind, e6, ok_bind]
        exact ⟨_, rfl⟩
      · exact ih hm o ho
  have hterm : ∃ ts, mapE (objectiveTerms prices accounts fee) os' = .ok ts := by
    have hall : ∀ o ∈ os', ∃ t, objectiveTerms prices accounts fee o = .ok t := fun o ho => key h o (hsub o ho)
    clear hsub
    induction os' with
    | nil => exact ⟨[], rfl⟩
    | cons o l ih =>
      obtain ⟨t, ht⟩ := hall o (by simp)
      obtain ⟨ts, hts⟩ := ih (fun o ho => hall o (by simp [ho]))
      exact ⟨t :: ts, by unfold mapE; rw [ht, ok_bind, hts]; rfl⟩
  obtain ⟨ts, hts⟩ := hterm
  unfold computeObjectiveCore
  rw [hts]
  exact ⟨_, rfl⟩

theorem only_matchAndEvaluate {cfg : Config} {ext : Ext} {inst : Instance} {pair : Token × Token} {pool orders : List Order}
    (hi : GoodInstance inst) (hl : LoadedPool cfg inst pool) (hset : SolverSetting cfg ext pair inst.fee none)
    (hφ : 9 / 10 ≤ (1 - inst.fee.value) ^ 2) (hs : List.Forall₂ SameButExec pool orders) :
    Only (SearchFailure ext.sqrt) (matchAndEvaluate cfg ext pair inst.accounts orders inst.fee) := by
  unfold matchAndEvaluate
  refine only_bind (only_matchTokenPair hset hφ hl.wf hl.backed hs) fun r hr => ?_
  obtain ⟨sol, orders'⟩ := r
  obtain ⟨_, g2⟩ := matchTokenPair_spec hset.cfgOk hset.feeLt hset.tokens hset.branch hl.wf hs hr
  have hft : bought sol.orders inst.fee.token ≤ sold sol.orders inst.fee.token := by
    rcases g2 with rfl | hg
    · simp [Solution.trivial, bought, sold]
    · exact hg.feeToken hset.feeMin
  obtain ⟨d, hd, _⟩ := dump_ok hset.cfgOk hi hl g2 hft
  unfold dumpSolution at hd
  simp only [bind_eq_ok] at hd
  obtain ⟨acc, hacc, m, hm, _⟩ := hd
  dsimp only
  rw [hacc, ok_bind]
  obtain ⟨v, hv⟩ := objective_of_metrics hm (os' := sol.orders.filter (fun o => decide (o.buy > 0))) (fun o ho => List.mem_of_mem_filter ho)
  rw [hv, ok_bind]
  exact only_pure _

theorem only_bestLoop {cfg : Config} {ext : Ext} {inst : Instance} {pool : List Order} (hi : GoodInstance inst) (hl : LoadedPool cfg inst pool)
    (hφ : 9 / 10 ≤ (1 - inst.fee.value) ^ 2) {visits : List ((Token × Token) × Bool)} {st : BestState}
    (hset : ∀ v ∈ visits, SolverSetting cfg ext v.1 inst.fee none) (hs : List.Forall₂ SameButExec pool st.orders) :
    Only (SearchFailure ext.sqrt) (bestLoop cfg ext inst.accounts inst.fee visits st) := by
  induction visits generalizing st with
  | nil => exact only_ok _
  | cons v visits ih =>
    obtain ⟨pair, stop⟩ := v
    have h0 := hset (pair, stop) (by simp)
    unfold bestLoop
    refine only_bind (only_matchAndEvaluate hi hl h0 hφ hs) fun r hr => ?_
    obtain ⟨obj, sol, orders'⟩ := r
    dsimp only
    unfold matchAndEvaluate at hr
    simp only [bind_eq_ok] at hr
    obtain ⟨⟨sol', orders''⟩, h2, acc, _, obj', _, e⟩ := hr
    cases e
    obtain ⟨g1, _⟩ := matchTokenPair_spec h0.cfgOk h0.feeLt h0.tokens h0.branch hl.wf hs h2
    split
    · exact only_pure _
    · refine ih (fun v hv => hset v (by simp [hv])) ?_
      split <;> exact g1

/-- C55. The solver that searches all pairs, from the instance to the dumped solution, without thresholds and for every shuffle and
time-out: every exception is a failure of the rate search or of the price rounding. -/
theorem C55_best_pair {cfg : Config} {ext : Ext} {inst : Instance} {shuffle : List (Token × Token) → List ((Token × Token) × Bool)}
    (hi : GoodInstance inst) (hsh : ∀ E, ∀ v ∈ shuffle E, v.1 ∈ E)
    (hset : ∀ pair, pair.1 ≠ pair.2 → SolverSetting cfg ext pair inst.fee none) (hφ : 9 / 10 ≤ (1 - inst.fee.value) ^ 2) {e : PyErr}
    (he : bestTokenPairMain cfg ext inst shuffle = .error e) : SearchFailure ext.sqrt e := by
  have h0 := hset ("0", "1") (by decide)
  obtain ⟨orders, hload, h1, _⟩ := C44_best_pair h0.cfgOk hi h0.branch hsh
  obtain ⟨hl, _, _⟩ := loadedPool (by have := h0.cfgOk.minPos; omega) hi.balances hi.ints hi.sell hload
  exact only_bestLoop hi hl hφ (fun v hv => hset v.1 (eligible_ne (hsh _ v hv))) (forall₂_same_refl _) e (h1 e he)

theorem computeSBuyTokenPrice_ok {p x : ℚ} {b s : List Order} {fee : Fee} (hp : 0 < p) (hx : 0 < x) (h : x ≤ p) :
    ∃ q, computeSBuyTokenPrice p x b s fee = .ok q := by
  have h1 : 1 ≤ p / x := by rwa [le_div_iff₀ hx, one_mul]
  have hd : (1 : ℤ) ≤ ⌊p / x⌋ := Int.le_floor.2 (by exact_mod_cast h1)
  have hu : (1 : ℤ) ≤ ⌈p / x⌉ := hd.trans (Int.floor_le_ceil _)
  have hd0 : ((⌊p / x⌋ : ℤ) : ℚ) ≠ 0 := by have : ⌊p / x⌋ ≠ 0 := by omega
                                           exact_mod_cast this
  have hu0 : ((⌈p / x⌉ : ℤ) : ℚ) ≠ 0 := by have : ⌈p / x⌉ ≠ 0 := by omega
                                           exact_mod_cast this
  unfold computeSBuyTokenPrice
  rw [pyDiv_of_ne hx.ne', ok_bind]
  dsimp only
  rw [pyDiv_of_ne hu0, ok_bind, pyDiv_of_ne hd0, ok_bind, pyDiv_of_ne (div_ne_zero hp.ne' hu0), ok_bind,
    pyDiv_of_ne (div_ne_zero hp.ne' hd0), ok_bind]
  split <;> exact ⟨_, rfl⟩

/-- The fee token is the first token and the rate is given: no exception. -/
theorem solveOriented_given {cfg : Config} {ext : Ext} {pair : Token × Token} {b s f : List Order} {fee : Fee} {x : ℚ}
    {pool : List Order} (hp : Pool pool) (hc : CfgOk cfg) (hfee : fee.value < 1)
    (hb : BookOf pool pair fee { b, s, f }) (hne : pair.1 ≠ pair.2) (hbr : ∀ E, MaxBranching E (ext.branch E))
    (hF : pair.1 = fee.token) (hx0 : 0 < x) (hx : x ≤ cfg.feeTokenPrice) (hbn : b ≠ []) (hsn : s ≠ []) :
    ∃ r, solveOriented cfg ext pair b s f fee (some x) = .ok r := by
  have hsearch : SearchInput cfg fee b s := hb.search hp hc hfee
  have hp0 : (0 : ℚ) < cfg.feeTokenPrice := by have := hc.feePrice; exact_mod_cast this
  have hpos : ∀ y, some x = some y → 0 < y := fun y hy => by cases hy; exact hx0
  have hst : ∃ r, solveTokenPair cfg ext.sqrt pair b s fee (some x) none cfg.maxNrExec = .ok r := by
    unfold solveTokenPair
    rw [if_neg (by rintro (h | h) <;> simp_all)]
    simp only [if_pos hF, givenOrBestXrate, roundXrate]
    obtain ⟨q, hq⟩ := computeSBuyTokenPrice_ok (b := b) (s := s) (fee := fee) hp0 hx0 hx
    obtain ⟨q1, _⟩ := C20_close hp0 hx0 hq
    have hq0 : (0 : ℚ) < q := by exact_mod_cast q1
    rw [show (pure (some x) : Py (Option ℚ)) = .ok (some x) from rfl, ok_bind]
    dsimp only
    rw [hq, ok_bind, pyDiv_of_ne hq0.ne', ok_bind]
    obtain ⟨r, hr⟩ := C05_no_exception (⟨hsearch.minPos, div_pos hp0 hq0, hsearch.feeLt, hc.limit, hsearch.idsB, hsearch.idsS⟩ :
      ExecInput cfg (cfg.feeTokenPrice / q) fee cfg.maxNrExec b s)
    rw [hr, ok_bind]
    exact ⟨_, rfl⟩
  obtain ⟨⟨xo, b1, s1⟩, h1⟩ := hst
  unfold solveOriented
  rw [h1, ok_bind]
  dsimp only
  by_cases h0 : countNrExec b1 = 0
  · rw [if_pos h0]; exact ⟨_, rfl⟩
  rw [if_neg h0]
  obtain ⟨y, x0, e0, hy, _, _, _, _, hpr, _, hex⟩ := (solveTokenPair_spec hsearch hc.limit hpos (fun q hq => by cases hq) h1).resolve_left
    (by
      rintro ⟨_, _, _, h | h⟩
      · exact hbn h
      · exact hsn h)
  subst e0
  have hsame : BooksSame { b, s, f } { b := b1, s := s1, f } :=
    ⟨forall₂_exec_of_buy hex.sameB, forall₂_exec_of_buy hex.sameS, forall₂_same_refl _⟩
  have hb1 := hb.same hsame
  dsimp only
  rw [if_pos hF]
  obtain ⟨q, _, hq1, _, hq⟩ := hpr cfg.feeTokenPrice (by unfold effPrice; rw [if_pos hF])
  have hbA : BookOf pool pair fee { b := b1, s := s1, f := [] } :=
    ⟨hb1.derB, hb1.derS, by simp, hb1.idsB, hb1.idsS, by simp, hb1.clsB, hb1.clsS, by simp⟩
  have hgood : GoodMatch cfg fee pair { b := b1, s := s1, f := [] } y cfg.feeTokenPrice := by
    refine ⟨hy, ⟨cfg.feeTokenPrice, hc.feePrice, rfl⟩, ⟨q, hq1, hq⟩, hex.exB, hex.exS, by simp, ?_, hex.both, .inl ⟨hF, rfl, rfl⟩⟩
    have := hex.count
    simpa [countNrExec] using this
  obtain ⟨r, hr⟩ := aggregateAndRound_ok hp hc hfee hbA hne (by rw [← hF]; exact hne.symm) hbr hgood
  rw [hr, ok_bind]; exact ⟨_, rfl⟩

theorem solveTokenPairAndFee_given {cfg : Config} {ext : Ext} {pair : Token × Token} {b s f : List Order} {fee : Fee} {x : ℚ}
    {pool : List Order} (hp : Pool pool) (hc : CfgOk cfg) (hfee : fee.value < 1)
    (hb : BookOf pool pair fee { b, s, f }) (hne : pair.1 ≠ pair.2) (hbr : ∀ E, MaxBranching E (ext.branch E))
    (hF : pair.1 = fee.token ∨ pair.2 = fee.token) (hx0 : 0 < x) (hx : x ≤ cfg.feeTokenPrice) (hbn : b ≠ []) (hsn : s ≠ []) :
    ∃ r, solveTokenPairAndFee cfg ext pair b s f fee (some x) = .ok r := by
  have hpi := SearchInput.prune (hb.search hp hc hfee) hbn hsn
  obtain ⟨b1, s1, h1, sb, ss, mb, ms⟩ := C14_exact hpi
  have hb1 := hb.sub sb ss (List.Sublist.refl _)
  unfold solveTokenPairAndFee
  rw [h1, ok_bind]
  dsimp only
  split
  · exact ⟨_, rfl⟩
  rename_i hlen
  have hb0 : b1 ≠ [] := fun h => hlen (.inl (by rw [h]; rfl))
  have hs0 : s1 ≠ [] := fun h => hlen (.inr (by rw [h]; rfl))
  split
  · rename_i hF2
    have hsw : BookOf pool (pair.2, pair.1) fee { b := s1, s := b1, f } :=
      ⟨hb1.derS, hb1.derB, hb1.derF, hb1.idsS, hb1.idsB, hb1.idsF, hb1.clsS, hb1.clsB, fun h => absurd hF2 h⟩
    obtain ⟨r, hr⟩ := solveOriented_given hp hc hfee hsw (Ne.symm hne) hbr hF2 hx0 hx hs0 hb0
    rw [hr, ok_bind]; exact ⟨_, rfl⟩
  · rename_i hF2
    obtain ⟨r, hr⟩ := solveOriented_given hp hc hfee hb1 hne hbr (hF.resolve_right hF2) hx0 hx hb0 hs0
    rw [hr, ok_bind]; exact ⟨_, rfl⟩

/-- C55. If the user gives the rate and the pair contains the fee token, the token-pair solver never raises, provided the
price of the other token at that rate does not round down to zero. -/
theorem C55_given_rate_total {cfg : Config} {ext : Ext} {inst : Instance} {pair : Token × Token} {x : ℚ} (hi : GoodInstance inst)
    (hset : SolverSetting cfg ext pair inst.fee (some x)) (hF : pair.1 = inst.fee.token ∨ pair.2 = inst.fee.token) (hx : x ≤ cfg.feeTokenPrice)
    {accounts : Accounts} {bk : Books} {fee : Fee} (h : loadPairProblem cfg inst pair = .ok (accounts, bk, fee)) (hbn : bk.b ≠ [])
    (hsn : bk.s ≠ []) : ∃ d, tokenPairMain cfg ext inst pair (some x) = .ok d := by
  cases hres : tokenPairMain cfg ext inst pair (some x) with
  | ok d => exact ⟨d, rfl⟩
  | error e =>
    exfalso
    have he' := (C44_token_pair hset.cfgOk hi hset.tokens hset.branch hset.xratePos h).1 e hres
    have h0 := h
    unfold loadPairProblem at h0
    simp only [bind_eq_ok, pyAssert_eq_ok, exists_and_left, exists_const] at h0
    obtain ⟨os, h1, os', h2, _, e'⟩ := h0
    cases e'
    have hload : loadProblem cfg inst = .ok (inst.accounts, os', inst.fee) := by
      unfold loadProblem; rw [h1, ok_bind, h2]; rfl
    obtain ⟨hp, hk, _, _⟩ := loaded_pool (by have := hset.cfgOk.minPos; omega) hi.balances hi.ints hi.sell hload
    have hb := bookOf_filter hp (forall₂_same_refl _) pair inst.fee (ordersBuyingSelling os' pair.1 inst.fee.token) (.inl rfl)
    rw [C32_validation_never_fails hset hp hk hb, economicLoop_single hset.noThresholds.avg hset.noThresholds.abs hbn] at he'
    have hx0 := hset.xratePos x rfl
    have hok := solveTokenPairAndFee_given hp hset.cfgOk hset.feeLt hb hset.tokens hset.branch hF hx0 hx hbn hsn
    obtain ⟨r, hr⟩ := hok
    rw [hr, ok_bind] at he'
    cases he'

/-- The hypotheses of C55 hold for the well-formed instance of C18, on which the solver does raise. -/
example : GoodInstance ExPlateau.inst ∧ SolverSetting Config.default ExInst.ext ("F", "S") ExPlateau.inst.fee none ∧
    9 / 10 ≤ (1 - ExPlateau.inst.fee.value) ^ 2 ∧
    (∃ r, loadPairProblem Config.default ExPlateau.inst ("F", "S") = .ok r ∧ r.2.1.b ≠ [] ∧ r.2.1.s ≠ []) ∧
    tokenPairMain Config.default ExInst.ext ExPlateau.inst ("F", "S") none = .error (.assertion "xrate.py:440") :=
  ⟨by constructor <;> decide +kernel,
    ⟨by constructor <;> decide, by decide +kernel, by decide +kernel, by decide, ExInst.branch_max, by simp, ExInst.setting.noThresholds⟩,
    by decide +kernel,
    exists_of_pyCheck (p := fun r : Accounts × Books × Fee => r.2.1.b ≠ [] ∧ r.2.1.s ≠ []) (by decide +kernel), C18_solver_aborts _⟩

/-- With the rate given, the solver runs on the same instance. -/
example : ∃ d, tokenPairMain Config.default ExInst.ext ExPlateau.inst ("F", "S") (some 1000) = .ok d := by
  obtain ⟨⟨acc, bk, fee⟩, h1, h2, h3⟩ := exists_of_pyCheck (x := loadPairProblem Config.default ExPlateau.inst ("F", "S"))
    (p := fun r : Accounts × Books × Fee => r.2.1.b ≠ [] ∧ r.2.1.s ≠ []) (by decide +kernel)
  refine C55_given_rate_total (by constructor <;> decide +kernel)
    ⟨by constructor <;> decide, by decide +kernel, by decide +kernel, by decide, ExInst.branch_max, ?_, ExInst.setting.noThresholds⟩
    (.inl rfl) (by decide +kernel) h1 h2 h3
  intro y hy
  cases hy
  norm_num

/-! ## C56 -/

/-- C56. A failing assertion in the rate search means that two neighbouring limit rates of the pruned book have exactly the same objective
value (or that the square root itself failed an assertion), and that there are at least four orders left; the assertion on line 436 never fails. -/
theorem C56_abort_needs_tie {cfg : Config} {sqrt : ℚ → Py ℚ} {fee : Fee} {b s : List Order} (h : SearchInput cfg fee b s)
    (hm : ∃ o ∈ b, ∃ c ∈ s, Matchable fee o c) {site : String} (he : findBestXrate cfg sqrt b s fee = .error (.assertion site))
    (hq : ∀ t, 0 ≤ t → sqrt t ≠ .error (.assertion site)) :
    (site = "xrate.py:439" ∨ site = "xrate.py:440") ∧
      ∃ b' s', pruneUnrealizable b s fee = .ok (b', s') ∧ 4 ≤ b'.length + s'.length ∧ Tie cfg fee b' s' := by
  have := only_findBestXrate' (sqrt := sqrt) (E := fun e => e = .zeroDivision ∨ (∃ t, 0 ≤ t ∧ sqrt t = .error e) ∨
      (e = .assertion "xrate.py:439" ∨ e = .assertion "xrate.py:440") ∧
      ∃ b' s', pruneUnrealizable b s fee = .ok (b', s') ∧ 4 ≤ b'.length + s'.length ∧ Tie cfg fee b' s')
    h hm (.inl rfl) (fun t e ht he => .inr (.inl ⟨t, ht, he⟩))
    (fun b' s' hp h4 ht => ⟨.inr (.inr ⟨.inl rfl, b', s', hp, h4, ht⟩), .inr (.inr ⟨.inr rfl, b', s', hp, h4, ht⟩)⟩) _ he
  rcases this with h1 | ⟨t, ht, h1⟩ | ⟨h1, h2⟩
  · cases h1
  · exact absurd h1 (hq t ht)
  · refine ⟨?_, h2⟩
    rcases h1 with h1 | h1 <;> cases h1
    · exact .inl rfl
    · exact .inr rfl

/-- The hypotheses of C56 hold for the book of C18, which therefore has a tie. -/
example : ∃ b' s', pruneUnrealizable ExPlateau.b ExPlateau.s ExPlateau.fee = .ok (b', s') ∧ 4 ≤ b'.length + s'.length ∧ Tie Config.default ExPlateau.fee b' s' := by
  refine (C56_abort_needs_tie (sqrt := ExInst.sqrt) ⟨by decide, by decide +kernel, by decide, by decide, by decide +kernel, by decide +kernel,
    by decide +kernel, by decide +kernel⟩ ⟨_, List.mem_cons_self, _, List.mem_cons_self, 999, by norm_num, ?_, ?_⟩ (C18_search_aborts _) ?_).2
  · show (999 : ℚ) ≤ 10001 / 10 * (1 - 1 / 1000); norm_num
  · show (1 / 999 : ℚ) ≤ 10012 / 9990000 * (1 - 1 / 1000); norm_num
  · intro t ht h
    unfold ExInst.sqrt at h
    rw [if_pos ht] at h
    cases h

/-! ## C57 -/

/-! A well-formed instance with two orders buying the fee token and one selling it. In the pattern "second b order partly executed, first one
not executed" the denominator of root 3 (xrate.py:277-290) is zero. -/
namespace ExZero

def fee : Fee := { token := "F", value := 1 / 1000 }

def inst : Instance where
  accounts := [("a", [("S", 1996002000000000000000000)]), ("b", [("S", 7992002000000000000001999)]), ("c", [("F", 1998000000000000000000000)])]
  fee := fee
  orders := [
    { accountID := "a", buyToken := "F", sellToken := "S", sellAmount := 1996002000000000000000000, buyAmount := 998001000000000000000000 },
    { accountID := "b", buyToken := "F", sellToken := "S", sellAmount := 7992002000000000000001999, buyAmount := 5988006000000000000000000 },
    { accountID := "c", buyToken := "S", sellToken := "F", sellAmount := 1998000000000000000000000, buyAmount := 1998000000000000000000000 }]

/-- The two sides, as the loader produces them. -/
def b : List Order := [Order.mk' "F" "S" 1996002000000000000000000 2 (some "a") "0",
  Order.mk' "F" "S" 7992002000000000000001999 (7992002000000000000001999 / 5988006000000000000000000) (some "b") "1"]

def s : List Order := [Order.mk' "S" "F" 1998000000000000000000000 1 (some "c") "2"]

end ExZero

/-- C57 (search). On this book the rate search raises `ZeroDivisionError`, for every square root that succeeds on non-negative numbers. -/
theorem C57_search_divides_by_zero {sqrt : ℚ → Py ℚ} (hq : ∀ t, 0 ≤ t → ∃ r, sqrt t = .ok r) :
    findBestXrate Config.default sqrt ExZero.b ExZero.s ExZero.fee = .error .zeroDivision := by
  have h : SearchInput Config.default ExZero.fee ExZero.b ExZero.s := by constructor <;> decide +kernel
  obtain ⟨⟨b', s'⟩, h1, h2⟩ := exists_of_pyCheck (x := pruneUnrealizable ExZero.b ExZero.s ExZero.fee)
    (p := fun r : List Order × List Order => r = (ExZero.b, ExZero.s)) (by decide +kernel)
  cases h2
  obtain ⟨triv, h3, h4⟩ := exists_of_pyCheck (x := solveTrivial Config.default ExZero.fee ExZero.b ExZero.s)
    (p := fun r : Option (ℚ × ℚ) => r.map (·.1) = some (7992002000000000000001999 / 5988006000000000000000000 * (999 / 1000))) (by decide +kernel)
  obtain ⟨ivs, h5, d, hd, h6⟩ := exists_of_pyCheck (x := xrateIntervals ExZero.b ExZero.s ExZero.fee
      (some (7992002000000000000001999 / 5988006000000000000000000 * (999 / 1000))))
    (p := fun ivs : List IntervalData => ∃ d ∈ ivs, pyRaises (do let c ← computeConstants d ExZero.fee; root3 Config.default c) .zeroDivision = true)
    (by decide +kernel)
  have h7 := eq_error_of_pyRaises h6
  have hpi := h.prune (by decide) (by decide)
  have key := only_searchIntervals (sqrt := sqrt) (E := fun e => e = .zeroDivision) h hpi h1 (by decide)
    (fun d hd => only_localOptima rfl (fun t e ht he => by obtain ⟨r, hr⟩ := hq t ht; rw [hr] at he; cases he) hd.idxB hd.idxS) triv
  unfold findBestXrate
  rw [h1, ok_bind]
  dsimp only
  rw [h3, ok_bind]
  rw [h4] at key ⊢
  rw [h5, ok_bind] at key ⊢
  cases hm : mapE (solveInterval Config.default sqrt ExZero.fee) ivs with
  | error e =>
    rw [hm] at key
    cases key e rfl
    rfl
  | ok rs =>
    exfalso
    obtain ⟨r, _, hr⟩ := (mapE_ok_mem hm).1 d hd
    unfold solveInterval localOptima at hr
    simp only [bind_eq_ok] at hr
    obtain ⟨_, ⟨c, hc, r3, h8, _⟩, _⟩ := hr
    rw [hc, ok_bind, h8] at h7
    cases h7

/-- C57 (end to end). The token-pair solver run on the well-formed instance above raises `ZeroDivisionError`. -/
theorem C57_solver_divides_by_zero {ext : Ext} (hs : ∀ t, 0 ≤ t → ∃ r, ext.sqrt t = .ok r) :
    tokenPairMain Config.default ext ExZero.inst ("F", "S") none = .error .zeroDivision := by
  obtain ⟨⟨acc, bk, fee⟩, h1, h2⟩ := exists_of_pyCheck (x := loadPairProblem Config.default ExZero.inst ("F", "S"))
    (p := fun r : Accounts × Books × Fee => r.2.1.b = ExZero.b ∧ r.2.1.s = ExZero.s ∧ r.2.2 = ExZero.fee)
    (by decide +kernel)
  obtain ⟨e1, e2, e3⟩ := h2
  simp only at e1 e2 e3
  subst e3
  obtain ⟨⟨b', s'⟩, h3, h4⟩ := exists_of_pyCheck (x := pruneUnrealizable ExZero.b ExZero.s ExZero.fee)
    (p := fun r : List Order × List Order => r = (ExZero.b, ExZero.s)) (by decide +kernel)
  cases h4
  have hp : ∀ maxNr, solveTokenPair Config.default ext.sqrt ("F", "S") ExZero.b ExZero.s ExZero.fee none none maxNr =
      .error .zeroDivision := by
    intro maxNr
    unfold solveTokenPair
    rw [if_neg (by decide)]
    simp only [givenOrBestXrate, C57_search_divides_by_zero hs]
    rfl
  have hq : ∀ f, solveTokenPairAndFee Config.default ext ("F", "S") ExZero.b ExZero.s f ExZero.fee none =
      .error .zeroDivision := by
    intro f
    unfold solveTokenPairAndFee
    rw [h3, ok_bind]
    show (if ExZero.b.length = 0 ∨ ExZero.s.length = 0 then _ else _) = _
    rw [if_neg (by decide), if_neg (by decide)]
    unfold solveOriented
    rw [hp]
    rfl
  unfold tokenPairMain
  rw [h1, ok_bind]
  show (solveEconomicViable _ _ _ acc bk.b bk.s bk.f ExZero.fee none >>= _) = _
  unfold solveEconomicViable economicLoop
  rw [e1, e2, if_pos (by decide)]
  simp only [hq]
  rfl

/-- The instance is well formed, and the example's square root succeeds on non-negative numbers. -/
example : GoodInstance ExZero.inst ∧ ∀ t, 0 ≤ t → ∃ r, ExInst.ext.sqrt t = .ok r := by
  refine ⟨by constructor <;> decide +kernel, fun t ht => ?_⟩
  show ∃ r, ExInst.sqrt t = .ok r
  unfold ExInst.sqrt
  rw [if_pos ht]
  exact ⟨_, rfl⟩

end Dex
