import Verif.Props.Solver

/-! # Property C32: the final check accepts what the solver matched -/

namespace Dex

open Spec

/-- All balances are integers. -/
def Spec.IntBalances (accounts : Accounts) : Prop := ∀ p ∈ accounts, ∀ q ∈ p.2, IsInt q.2

instance (accounts : Accounts) : Decidable (IntBalances accounts) := by unfold IntBalances; infer_instance

/-- The orders are backed by the accounts. -/
structure Backed (accounts : Accounts) (pool : List Order) : Prop where
  known : ∀ o ∈ pool, ∃ a, o.accountId = some a ∧ ∃ p ∈ accounts, p.1 = a
  total : ∀ a ts tb, ((pool.filter (fun o => decide (o.accountId = some a ∧ o.sellToken = ts ∧ o.buyToken = tb))).map (·.maxSell)).sum ≤
    balanceOf accounts a ts
  balances : ∀ a t, 0 ≤ balanceOf accounts a t ∧ IsInt (balanceOf accounts a t)

theorem balanceOf_int {accounts : Accounts} (hb : NonnegBalances accounts) (hi : IntBalances accounts) (a : AccountId) (t : Token) :
    0 ≤ balanceOf accounts a t ∧ IsInt (balanceOf accounts a t) := by
  unfold balanceOf
  split
  · exact ⟨le_refl _, isInt_intCast 0⟩
  · rename_i p hp
    split
    · exact ⟨le_refl _, isInt_intCast 0⟩
    · rename_i q hq
      exact ⟨hb p (List.mem_of_find?_eq_some hp) q (List.mem_of_find?_eq_some hq),
        hi p (List.mem_of_find?_eq_some hp) q (List.mem_of_find?_eq_some hq)⟩

theorem known_of_balance {accounts : Accounts} {a : AccountId} {t : Token} (h : balanceOf accounts a t ≠ 0) : ∃ p ∈ accounts, p.1 = a := by
  unfold balanceOf at h
  split at h
  · exact absurd rfl h
  · rename_i p hp
    exact ⟨p, List.mem_of_find?_eq_some hp, by simpa using List.find?_some hp⟩

/-- A loaded instance gives a well-formed, backed list of orders. -/
theorem loaded_pool {cfg : Config} {inst : Instance} {accounts : Accounts} {orders : List Order} {fee : Fee}
    (hm : 0 < cfg.minTradable) (hb : NonnegBalances inst.accounts) (hi : IntBalances inst.accounts) (hs : ∀ d ∈ inst.orders, 0 ≤ d.sellAmount)
    (h : loadProblem cfg inst = .ok (accounts, orders, fee)) : Pool orders ∧ Backed accounts orders ∧ accounts = inst.accounts ∧ fee = inst.fee := by
  obtain ⟨os, h', hids, htot⟩ := C01_load_problem hm hb hs
  rw [h'] at h
  cases h
  have hm' : (0 : ℚ) < cfg.minTradable := by exact_mod_cast hm
  refine ⟨⟨hids, ?_⟩, ⟨?_, htot, balanceOf_int hb hi⟩, rfl, rfl⟩
  · intro o ho
    obtain ⟨k, d, _, _, _, _, _, h1, h2, h3, h4, _⟩ := C02_load_problem hm hb hs h' ho
    refine ⟨?_, h1.le, by rw [h3]; exact h2⟩
    rw [h4]
    exact div_pos (by linarith) (lt_of_lt_of_le hm' (le_max_left _ _))
  · intro o ho
    obtain ⟨k, d, _, _, ha, _, _, h1, _⟩ := C02_load_problem hm hb hs h' ho
    refine ⟨_, ha, known_of_balance (t := o.sellToken) ?_⟩
    have hle := htot d.accountID o.sellToken o.buyToken
    have : o.maxSell ≤ ((orders.filter (fun o' => decide (o'.accountId = some d.accountID ∧ o'.sellToken = o.sellToken ∧
        o'.buyToken = o.buyToken))).map (·.maxSell)).sum := by
      refine List.single_le_sum ?_ _ (List.mem_map.2 ⟨o, List.mem_filter.2 ⟨ho, by simp [ha]⟩, rfl⟩)
      intro x hx
      obtain ⟨c, hc, rfl⟩ := List.mem_map.1 hx
      obtain ⟨_, _, _, _, _, _, _, g, _⟩ := C02_load_problem hm hb hs h' (List.mem_of_mem_filter hc)
      exact g.le
    intro h0
    rw [h0] at hle
    linarith

/-- The order without executed amounts. -/
def cleared (o : Order) : Order := { o with buy := 0, sell := 0 }

theorem cleared_of_same {a o : Order} (h : SameButExec a o) : cleared o = cleared a := by
  unfold SameButExec at h
  rw [h]; rfl

/-- What an account sells of a token is covered by its balance. -/
theorem sold_le_balance {cfg : Config} {fee : Fee} {pool : List Order} {accounts : Accounts} {sol : Solution} (hp : Pool pool)
    (hk : Backed accounts pool) (hg : GoodSolution cfg fee pool sol) (a : AccountId) (t : Token) :
    sold (sol.orders.filter (fun o => decide (o.accountId = some a))) t ≤ balanceOf accounts a t := by
  unfold sold
  set L := (sol.orders.filter (fun o => decide (o.accountId = some a))).filter (fun o => decide (o.sellToken = t)) with hL
  have hLmem : ∀ o ∈ L, o ∈ sol.orders ∧ o.accountId = some a ∧ o.sellToken = t := by
    intro o ho
    simp only [hL, List.mem_filter, decide_eq_true_eq] at ho
    exact ⟨ho.1.1, ho.1.2, ho.2⟩
  rcases L.eq_nil_or_concat with h0 | ⟨_, o1, h0⟩
  · rw [h0]; simpa using (hk.balances a t).1
  have ho1 : o1 ∈ L := by rw [h0]; simp
  refine le_trans ?_ (hk.total a t o1.buyToken)
  have h1 : (L.map (·.sell)).sum ≤ ((L.map cleared).map (·.maxSell)).sum := by
    rw [List.map_map]
    refine List.sum_le_sum (fun o ho => ?_)
    exact (hg.constraints o (hLmem o ho).1).maxSell
  refine le_trans h1 ?_
  set P := pool.filter (fun o => decide (o.accountId = some a ∧ o.sellToken = t ∧ o.buyToken = o1.buyToken)) with hP
  have e : (P.map (·.maxSell)).sum = ((P.map cleared).map (·.maxSell)).sum := by rw [List.map_map]; rfl
  rw [e]
  have hnd : (L.map cleared).Nodup := by
    refine List.Nodup.of_map (·.id) ?_
    rw [List.map_map]
    exact hg.ids.sublist (((List.filter_sublist).trans (List.filter_sublist)).map _)
  have hsub : L.map cleared ⊆ P.map cleared := by
    intro c hc
    obtain ⟨o, ho, rfl⟩ := List.mem_map.1 hc
    obtain ⟨ho, h2, h3⟩ := hLmem o ho
    obtain ⟨x, hx, hs⟩ := hg.der o ho
    refine List.mem_map.2 ⟨x, List.mem_filter.2 ⟨hx, ?_⟩, (cleared_of_same hs).symm⟩
    have hbt := hg.sellDet o ho o1 (hLmem o1 ho1).1 (by rw [h3, (hLmem o1 ho1).2.2])
    unfold SameButExec at hs
    rw [hs] at h2 h3 hbt
    simp only [decide_eq_true_eq]
    exact ⟨h2, h3, hbt⟩
  obtain ⟨l, hl, hsl⟩ := List.Nodup.subperm hnd hsub
  rw [← (hl.map (·.maxSell)).sum_eq]
  refine List.Sublist.sum_le_sum (hsl.map _) ?_
  intro x hx
  obtain ⟨c, hc, rfl⟩ := List.mem_map.1 hx
  obtain ⟨o, ho, rfl⟩ := List.mem_map.1 hc
  exact (hp.ok o (List.mem_of_mem_filter ho)).2.1

theorem trunc_of_int {q : ℚ} (h0 : 0 ≤ q) (h : IsInt q) : (trunc q : ℚ) = q := by
  obtain ⟨n, rfl⟩ := isInt_iff.1 h
  unfold trunc
  rw [if_pos h0, Int.floor_intCast]

/-- No fee threshold, and the average-fee division (Python int / int) works on non-negative totals. -/
structure NoThresholds (cfg : Config) (ext : Ext) : Prop where
  avg : cfg.minAvgFee = 0
  abs : cfg.minAbsFee = 0
  fdiv : ∀ q n, 0 ≤ q → 0 < n → ∃ r, ext.fdiv q n = .ok r ∧ 0 ≤ r

theorem validate_good {cfg : Config} {ext : Ext} {fee : Fee} {pool : List Order} {accounts : Accounts} {sol : Solution} (hp : Pool pool)
    (hk : Backed accounts pool) (hc : CfgOk cfg) (ht : NoThresholds cfg ext) (hf : 0 ≤ fee.value) (hfm : 1 ≤ fee.value * cfg.minTradable)
    (hg : GoodSolution cfg fee pool sol) : ValInput cfg accounts sol.orders sol.prices fee ∧
      (nrExecuted sol.orders = 0 ∨ Feasible cfg ext.fdiv accounts sol.orders sol.prices fee) := by
  refine ⟨⟨hg.keys, hg.priced, hg.feePriced, ?_, by have := hc.minPos; omega, hc.feePrice.ne'⟩, ?_⟩
  · intro o ho
    obtain ⟨a, ha, hs⟩ := hg.der o ho
    have := hk.known a ha
    unfold SameButExec at hs
    rw [hs]; exact this
  rcases Nat.eq_zero_or_pos (nrExecuted sol.orders) with h0 | h0
  · exact .inl h0
  right
  have hft := hg.feeToken hfm
  refine ⟨hg.count, hg.constraints, hg.balanced, hft, ?_, ?_, ?_⟩
  · obtain ⟨r, h1, h2⟩ := ht.fdiv _ _ (sub_nonneg.2 hft) h0
    exact ⟨r, h1, by rw [ht.avg]; exact h2⟩
  · intro o ho _ hb p hpr
    rw [ht.abs]
    have hp0 : 0 < p := by
      obtain ⟨e, he, rfl⟩ := hpr
      exact (hg.intPrices e (List.mem_of_find?_eq_some he)).1
    have := hc.feePrice
    positivity
  · intro o ho a ha t _
    have hb := hk.balances a t
    rw [trunc_of_int hb.1 hb.2]
    unfold gain
    have h1 := sold_le_balance hp hk hg a t
    have h2 : 0 ≤ bought (sol.orders.filter (fun o => decide (o.accountId = some a))) t := by
      unfold bought
      refine List.sum_nonneg ?_
      intro x hx
      obtain ⟨o, ho, rfl⟩ := List.mem_map.1 hx
      exact (hg.amounts o (List.mem_of_mem_filter (List.mem_of_mem_filter ho))).2.1
    linarith

theorem validate_trivial {cfg : Config} {fdiv : ℚ → ℕ → Py ℚ} {accounts : Accounts} {fee : Fee} :
    validate cfg fdiv accounts Solution.trivial.orders Solution.trivial.prices fee = .ok () := by
  simp [validate, Solution.trivial, countNrExec, pyAssert]

/-- What the caller of the token-pair solver provides besides the orders. -/
structure SolverSetting (cfg : Config) (ext : Ext) (pair : Token × Token) (fee : Fee) (xrate : Option ℚ) : Prop where
  cfgOk : CfgOk cfg
  feeLt : fee.value < 1
  feeMin : 1 ≤ fee.value * cfg.minTradable
  tokens : pair.1 ≠ pair.2
  branch : ∀ E, MaxBranching E (ext.branch E)
  xratePos : ∀ y, xrate = some y → 0 < y
  noThresholds : NoThresholds cfg ext

theorem SolverSetting.feePos {cfg : Config} {ext : Ext} {pair : Token × Token} {fee : Fee} {xrate : Option ℚ}
    (h : SolverSetting cfg ext pair fee xrate) : 0 < fee.value := by
  have h1 := h.feeMin
  have h2 : (0 : ℚ) < cfg.minTradable := by exact_mod_cast (by have := h.cfgOk.minPos; omega : 0 < cfg.minTradable)
  by_contra hc
  have : fee.value * cfg.minTradable ≤ 0 := mul_nonpos_of_nonpos_of_nonneg (not_lt.1 hc) h2.le
  linarith

/-- C32. Orders backed by the accounts: whatever the search for a viable solution returns passes the final check, so the solver returns
exactly what the search found and raises only when the search raises. -/
theorem C32_validation_never_fails {cfg : Config} {ext : Ext} {pair : Token × Token} {accounts : Accounts} {b s f pool : List Order}
    {fee : Fee} {xrate : Option ℚ} (hset : SolverSetting cfg ext pair fee xrate) (hp : Pool pool) (hk : Backed accounts pool)
    (hb : BookOf pool pair fee { b, s, f }) :
    solveEconomicViable cfg ext pair accounts b s f fee xrate =
      economicLoop cfg ext pair fee xrate (b.length + s.length + 1) { b, s, f } [] .trivial := by
  unfold solveEconomicViable
  cases hr : economicLoop cfg ext pair fee xrate (b.length + s.length + 1) { b, s, f } [] .trivial with
  | error e => rfl
  | ok r =>
    obtain ⟨sol, objs⟩ := r
    obtain ⟨h1, _⟩ := economicLoop_spec hp hset.cfgOk hset.feeLt hset.tokens hset.branch hset.xratePos hb (by simp) (.inl rfl) hr
    have hv : validate cfg ext.fdiv accounts sol.orders sol.prices fee = .ok () := by
      rcases h1 with rfl | hg
      · exact validate_trivial
      · obtain ⟨g1, g2⟩ := validate_good hp hk hset.cfgOk hset.noThresholds hset.feePos.le hset.feeMin hg
        exact (C30_validate_iff g1).2 ⟨fun p hp => (hg.intPrices p hp).2, g2⟩
    rw [ok_bind]
    dsimp only
    rw [hv]; rfl

theorem bookOf_filter {pool orders : List Order} (hp : Pool pool) (hs : List.Forall₂ SameButExec pool orders) (pair : Token × Token)
    (fee : Fee) (f : List Order) (hf : f = ordersBuyingSelling orders pair.1 fee.token ∨ f = []) : BookOf pool pair fee
      { b := ordersBuyingSelling orders pair.1 pair.2, s := ordersBuyingSelling orders pair.2 pair.1, f := f } := by
  have hd : ∀ x y, ∀ o ∈ ordersBuyingSelling orders x y, Der pool o := by
    intro x y o ho
    obtain ⟨a, ha, h⟩ := forall₂_mem_right hs _ (List.mem_of_mem_filter ho)
    exact ⟨a, ha, h⟩
  have hn : ∀ x y, ((ordersBuyingSelling orders x y).map (·.id)).Nodup := by
    intro x y
    have : (orders.map (·.id)).Nodup := by rw [ids_of_same hs]; exact hp.ids
    exact this.sublist (List.filter_sublist.map _)
  have hc : ∀ x y, ∀ o ∈ ordersBuyingSelling orders x y, o.buyToken = x ∧ o.sellToken = y := by
    intro x y o ho
    simpa using (List.mem_filter.1 ho).2
  refine ⟨hd _ _, hd _ _, ?_, hn _ _, hn _ _, ?_, hc _ _, hc _ _, ?_⟩
  · rcases hf with rfl | rfl
    · exact hd _ _
    · simp
  · rcases hf with rfl | rfl
    · exact hn _ _
    · simp
  · rcases hf with rfl | rfl
    · exact fun _ => hc _ _
    · simp

/-- C32. For every loaded instance with non-negative integer balances the final check of the token-pair solver never fails. -/
theorem C32_token_pair {cfg : Config} {ext : Ext} {inst : Instance} {pair : Token × Token} {accounts : Accounts} {bk : Books} {fee : Fee}
    {xrate : Option ℚ} (hb : NonnegBalances inst.accounts) (hi : IntBalances inst.accounts) (hs : ∀ d ∈ inst.orders, 0 ≤ d.sellAmount)
    (h : loadPairProblem cfg inst pair = .ok (accounts, bk, fee)) (hset : SolverSetting cfg ext pair fee xrate) :
    solveEconomicViable cfg ext pair accounts bk.b bk.s bk.f fee xrate =
      economicLoop cfg ext pair fee xrate (bk.b.length + bk.s.length + 1) bk [] .trivial := by
  unfold loadPairProblem at h
  simp only [bind_eq_ok, pyAssert_eq_ok, exists_and_left, exists_const] at h
  obtain ⟨os, h1, os', h2, _, e⟩ := h
  cases e
  have hload : loadProblem cfg inst = .ok (inst.accounts, os', inst.fee) := by
    unfold loadProblem; rw [h1, ok_bind, h2]; rfl
  obtain ⟨hp, hk, _, _⟩ := loaded_pool (by have := hset.cfgOk.minPos; omega) hb hi hs hload
  exact C32_validation_never_fails hset hp hk (bookOf_filter hp (forall₂_same_refl _) pair inst.fee _ (.inl rfl))

/-- The fee orders `match_token_pair` selects. -/
def feeOrdersFor (orders : List Order) (pair : Token × Token) (fee : Fee) : List Order :=
  if pair.1 ≠ fee.token then ordersBuyingSelling orders pair.1 fee.token else []

theorem bookOf_pair {pool orders : List Order} (hp : Pool pool) (hs : List.Forall₂ SameButExec pool orders) (pair : Token × Token)
    (fee : Fee) : BookOf pool pair fee
      { b := ordersBuyingSelling orders pair.1 pair.2, s := ordersBuyingSelling orders pair.2 pair.1, f := feeOrdersFor orders pair fee } := by
  refine bookOf_filter hp hs pair fee _ ?_
  unfold feeOrdersFor
  split
  · exact .inl rfl
  · exact .inr rfl

/-- `match_token_pair` keeps the orders up to executed amounts and returns a trivial or well-formed solution. -/
theorem matchTokenPair_spec {cfg : Config} {ext : Ext} {pair : Token × Token} {accounts : Accounts} {pool orders orders' : List Order}
    {fee : Fee} {sol : Solution} (hc : CfgOk cfg) (hf : fee.value < 1) (hne : pair.1 ≠ pair.2)
    (hbr : ∀ E, MaxBranching E (ext.branch E)) (hp : Pool pool) (hs : List.Forall₂ SameButExec pool orders)
    (h : matchTokenPair cfg ext pair accounts orders fee = .ok (sol, orders')) :
    List.Forall₂ SameButExec pool orders' ∧ SolOk cfg fee pool sol := by
  have hB := bookOf_pair hp hs pair fee
  unfold matchTokenPair at h
  dsimp only at h
  split at h
  · cases h; exact ⟨hs, .inl rfl⟩
  split at h
  · cases h; exact ⟨hs, .inl rfl⟩
  rw [show (if pair.1 ≠ fee.token then ordersBuyingSelling orders pair.1 fee.token else []) = feeOrdersFor orders pair fee from rfl] at h
  split at h
  · cases h; exact ⟨hs, .inl rfl⟩
  unfold solveEconomicViable at h
  simp only [bind_eq_ok] at h
  obtain ⟨⟨sol', objs'⟩, ⟨⟨sol'', objs''⟩, h1, ⟨⟩, _, e⟩, e'⟩ := h
  cases e
  cases e'
  obtain ⟨g1, g2⟩ := economicLoop_spec hp hc hf hne hbr (xrate := none) (fun _ h => by cases h) hB (gone := []) (fun _ h => by cases h) (.inl rfl) h1
  refine ⟨forall₂_same_trans hs (writeBack_same hp ?_ g2), g1⟩
  intro o ho
  obtain ⟨a, ha, h⟩ := forall₂_mem_right hs _ ho
  exact ⟨a, ha, h⟩

theorem bestLoop_spec {cfg : Config} {ext : Ext} {accounts : Accounts} {pool : List Order} {fee : Fee} (hc : CfgOk cfg) (hf : fee.value < 1)
    (hbr : ∀ E, MaxBranching E (ext.branch E)) (hp : Pool pool) {visits : List ((Token × Token) × Bool)} {st0 st : BestState}
    (hv : ∀ v ∈ visits, v.1.1 ≠ v.1.2) (hs : List.Forall₂ SameButExec pool st0.orders) (h0 : SolOk cfg fee pool st0.sol)
    (h : bestLoop cfg ext accounts fee visits st0 = .ok st) : List.Forall₂ SameButExec pool st.orders ∧ SolOk cfg fee pool st.sol := by
  induction visits generalizing st0 with
  | nil => cases h; exact ⟨hs, h0⟩
  | cons v visits ih =>
    obtain ⟨pair, stop⟩ := v
    unfold bestLoop at h
    rw [bind_eq_ok] at h
    obtain ⟨⟨obj, sol, orders'⟩, h1, h⟩ := h
    unfold matchAndEvaluate at h1
    simp only [bind_eq_ok] at h1
    obtain ⟨⟨sol', orders''⟩, h2, acc, _, obj', _, e⟩ := h1
    cases e
    obtain ⟨g1, g2⟩ := matchTokenPair_spec hc hf (hv (pair, stop) (by simp)) hbr hp hs h2
    dsimp only at h
    split at h
    · cases h
      split
      · exact ⟨g1, g2⟩
      · exact ⟨g1, h0⟩
    · refine ih (fun v hv' => hv v (by simp [hv'])) ?_ ?_ h
      · split <;> exact g1
      · split
        · exact g2
        · exact h0

/-- C32. In the search over all pairs, after any sequence of pairs (`visits`) was evaluated on the shared order objects, the final check
of the next pair never fails. -/
theorem C32_best_pair {cfg : Config} {ext : Ext} {inst : Instance} {accounts : Accounts} {orders : List Order} {fee : Fee}
    (hb : NonnegBalances inst.accounts) (hi : IntBalances inst.accounts) (hs : ∀ d ∈ inst.orders, 0 ≤ d.sellAmount)
    (h : loadProblem cfg inst = .ok (accounts, orders, fee)) {visits : List ((Token × Token) × Bool)} {st : BestState}
    (hv : ∀ v ∈ visits, v.1.1 ≠ v.1.2) (hst : bestTokenPair cfg ext accounts orders fee visits = .ok st) {pair : Token × Token}
    (hset : SolverSetting cfg ext pair fee none) :
    let b := ordersBuyingSelling st.orders pair.1 pair.2
    let s := ordersBuyingSelling st.orders pair.2 pair.1
    let f := feeOrdersFor st.orders pair fee
    solveEconomicViable cfg ext pair accounts b s f fee none =
      economicLoop cfg ext pair fee none (b.length + s.length + 1) { b, s, f } [] .trivial := by
  obtain ⟨hp, hk, _, _⟩ := loaded_pool (by have := hset.cfgOk.minPos; omega) hb hi hs h
  obtain ⟨g1, _⟩ := bestLoop_spec hset.cfgOk hset.feeLt hset.branch hp hv (forall₂_same_refl _) (.inl rfl) hst
  exact C32_validation_never_fails hset hp hk (bookOf_pair hp g1 pair fee)

namespace ExInst

theorem setting : SolverSetting Config.default ext ("B", "S") inst.fee none :=
  ⟨by constructor <;> decide, by decide +kernel, by decide +kernel, by decide, branch_max, by simp,
    ⟨rfl, rfl, fun q n hq hn => ⟨q / n, rfl, div_nonneg hq (by positivity)⟩⟩⟩

end ExInst

/-- The hypotheses of C32 hold for the example instance, which is solved with all orders executed (`ExInst.run`). -/
example : NonnegBalances ExInst.inst.accounts ∧ IntBalances ExInst.inst.accounts ∧ (∀ d ∈ ExInst.inst.orders, 0 ≤ d.sellAmount) ∧
    SolverSetting Config.default ExInst.ext ("B", "S") ExInst.inst.fee none := by
  refine ⟨by decide +kernel, by decide +kernel, by decide +kernel, ExInst.setting⟩

example : ∃ r, (do
      let (_, bk, fee) ← loadPairProblem Config.default ExInst.inst ("B", "S")
      economicLoop Config.default ExInst.ext ("B", "S") fee none (bk.b.length + bk.s.length + 1) bk [] .trivial) = .ok r ∧
      nrExecuted r.1.orders = 3 :=
  exists_of_pyCheck (p := fun r : Solution × List Order => nrExecuted r.1.orders = 3) (by decide +kernel)

end Dex
