import Verif.Props.Errors
import Verif.Props.EconomicComplete
import Verif.Props.EconomicExample

/-! # Properties C68, C69: what the two objectives are, and what the search over all pairs achieves -/

namespace Dex

namespace Spec

/-- Objective term of an order that buys at price `p` and rate `x`, in exact arithmetic: twice its utility minus its greatest possible utility. -/
def exactTerm (x p : ℚ) (fee : Fee) (o : Order) : ℚ :=
  2 * (p * (o.buy - o.buy * x / (1 - fee.value) / o.maxXrate)) -
    max 0 (p * (o.maxSell * (1 - fee.value) / x - o.maxSell / o.maxXrate))

/-- Objective of exact fills at rate `x` and price `p` of the first token: the terms of all orders, plus half of the fees in fee tokens. -/
def exactObjective (cfg : Config) (b s f : List Order) (x p : ℚ) (fee : Fee) : ℚ :=
  (b.map (exactTerm x p fee)).sum + (s.map (exactTerm (1 / x) (p / x) fee)).sum + (f.map (exactTerm (p / cfg.feeTokenPrice) p fee)).sum +
    ((s.map (fun o => o.buy / x / (1 - fee.value))).sum - (b.map (·.buy)).sum) * p / cfg.feeTokenPrice / 2

/-- Reported utility of the executed orders minus what they were denied. -/
def reportedObjective (d : Dump) : ℚ := d.objVals.utility - d.objVals.utilityDisregTouched

/-- The pair is visited: no time-out before. -/
def Visited (visits : List ((Token × Token) × Bool)) (pair : Token × Token) : Prop :=
  ∃ pre stop post, visits = pre ++ (pair, stop) :: post ∧ ∀ v ∈ pre, v.2 = false

end Spec

open Spec

theorem sumE_of {g : Order → Py ℚ} {h : Order → ℚ} {l : List Order} (hg : ∀ o ∈ l, g o = .ok (h o)) : sumE g l = .ok (l.map h).sum := by
  induction l with
  | nil => rfl
  | cons a l ih =>
    unfold sumE
    rw [hg a (by simp), ok_bind, ih (fun o ho => hg o (by simp [ho]))]
    rfl

theorem mapE_map_of {α : Type} {g : Order → Py α} {h : Order → α} {l : List Order} (hg : ∀ o ∈ l, g o = .ok (h o)) : mapE g l = .ok (l.map h) := by
  induction l with
  | nil => rfl
  | cons a l ih =>
    unfold mapE
    rw [hg a (by simp), ok_bind, ih (fun o ho => hg o (by simp [ho]))]
    rfl

theorem ratObjectiveTerm_of {o : Order} {x p : ℚ} {fee : Fee} (hf : fee.value < 1) (hl : 0 < o.maxXrate) (hx : x ≠ 0) :
    ratObjectiveTerm o x p fee = .ok (exactTerm x p fee o) := by
  have hφ : 1 - fee.value ≠ 0 := by linarith
  unfold ratObjectiveTerm ratMaxUtility ratUtility ratSellFromBuy Order.withBuy
  simp only [pyDiv_of_ne hφ, pyDiv_of_ne hl.ne', pyDiv_of_ne hx, ok_bind, pure_eq_ok, Except.ok.injEq]
  unfold exactTerm
  congr 3
  field_simp

/-- C68. The objective that the search for the number of fee orders and the rates maximises, in closed form. -/
theorem C68_exact_objective {cfg : Config} {b s f : List Order} {x p : ℚ} {fee : Fee} (hc : CfgOk cfg) (hf : fee.value < 1) (hx : 0 < x) (hp : 0 < p)
    (hb : ∀ o ∈ b ++ s ++ f, 0 < o.maxXrate) : computeObjectiveRational cfg b s f x p fee = .ok (exactObjective cfg b s f x p fee) := by
  have hφ : 1 - fee.value ≠ 0 := by linarith
  have hF : (0 : ℚ) < cfg.feeTokenPrice := by exact_mod_cast hc.feePrice
  have h1 : 1 / x ≠ 0 := (by positivity : 0 < 1 / x).ne'
  have h2 : p / cfg.feeTokenPrice ≠ 0 := (by positivity : 0 < p / (cfg.feeTokenPrice : ℚ)).ne'
  unfold computeObjectiveRational objectiveForOrders bBuyTokenImbalance
  rw [sumE_of (h := exactTerm x p fee) (fun o ho => ratObjectiveTerm_of hf (hb o (by simp [ho])) hx.ne'), ok_bind, pyDiv_of_ne hx.ne', ok_bind,
    pyDiv_of_ne hx.ne', ok_bind, sumE_of (h := exactTerm (1 / x) (p / x) fee) (fun o ho => ratObjectiveTerm_of hf (hb o (by simp [ho])) h1), ok_bind,
    pyDiv_of_ne hF.ne', ok_bind, sumE_of (h := exactTerm (p / cfg.feeTokenPrice) p fee) (fun o ho => ratObjectiveTerm_of hf (hb o (by simp [ho])) h2), ok_bind,
    ok_bind, ok_bind, sumE_of (h := fun o => o.buy / x / (1 - fee.value)) (fun o _ => by
      unfold ratSellFromBuy; rw [pyDiv_of_ne hφ]; congr 2; ring), ok_bind, pure_eq_ok, ok_bind, pyDiv_of_ne hF.ne', ok_bind]
  rfl

/-- C68. The objective that ranks the pairs: the utilities of the orders minus what they were denied. -/
theorem C68_integer_objective {prices : Prices} {accounts : Accounts} {fee : Fee} (hf : fee.value < 1) (hd : 2 ≤ fee.value.den) {orders : List Order}
    (h : ∀ o ∈ orders, Evaluable prices accounts o (priceAt prices o.buyToken) (priceAt prices o.sellToken)) :
    computeObjectiveCore prices accounts orders fee =
      .ok (orders.map (fun o => utilityAt prices fee o - max 0 (disregardedAt prices accounts fee o))).sum := by
  have ht : mapE (objectiveTerms prices accounts fee) orders = .ok (orders.map (fun o => (utilityAt prices fee o,
      max (utilityAt prices fee o) (disregardedAt prices accounts fee o + utilityAt prices fee o)))) := by
    refine mapE_map_of fun o ho => ?_
    obtain ⟨h1, h2, h3, h4⟩ := (h o ho).xrate
    unfold objectiveTerms
    rw [h1, ok_bind, h2, ok_bind, h3, ok_bind, C39_formula (h o ho) hf, ok_bind, balanceUpdated_eq (h o ho), ok_bind, intMaxUtility_eq (h o ho) hf hd, ok_bind]
    rfl
  unfold computeObjectiveCore
  rw [ht, ok_bind, pure_eq_ok, Except.ok.injEq]
  clear ht h
  induction orders with
  | nil => simp
  | cons o l ih =>
    simp only [List.map_cons, List.sum_cons] at ih ⊢
    rw [← ih]
    have : max (utilityAt prices fee o) (disregardedAt prices accounts fee o + utilityAt prices fee o) =
        utilityAt prices fee o + max 0 (disregardedAt prices accounts fee o) := by
      rw [← max_add_add_left, add_zero, add_comm (disregardedAt _ _ _ _)]
    rw [this]
    ring

/-- Orders with exact fills on B/S, and one fee order, at rate 3/2: all limits are positive and the objective is not trivial. -/
example : ∃ v, computeObjectiveRational Config.default [(Order.mk' "B" "S" 20000 2 (some "a") "0").withBuy 9000] [(Order.mk' "S" "B" 9500 1 (some "b") "1").withBuy 13000]
    [(Order.mk' "B" "F" 9000 2 (some "c") "2").withBuy 100] (3 / 2) (3 * 10 ^ 18) ExInst.inst.fee = .ok v ∧ v ≠ 0 ∧
    (∀ o ∈ [Order.mk' "B" "S" 20000 2 (some "a") "0", Order.mk' "S" "B" 9500 1 (some "b") "1", Order.mk' "B" "F" 9000 2 (some "c") "2"], 0 < o.maxXrate) := by
  obtain ⟨v, h1, h2⟩ := exists_of_pyCheck (x := computeObjectiveRational Config.default [(Order.mk' "B" "S" 20000 2 (some "a") "0").withBuy 9000]
    [(Order.mk' "S" "B" 9500 1 (some "b") "1").withBuy 13000] [(Order.mk' "B" "F" 9000 2 (some "c") "2").withBuy 100] (3 / 2) (3 * 10 ^ 18) ExInst.inst.fee)
    (p := fun v : ℚ => v ≠ 0) (by decide +kernel)
  exact ⟨v, h1, h2, by decide +kernel⟩

/-- The orders of the metrics example satisfy the hypothesis. -/
example : ∃ v, computeObjectiveCore ExUtil.prices ExUtil.accounts [ExUtil.o1, ExUtil.o2, ExUtil.o3] ExUtil.fee = .ok v ∧ v ≠ 0 ∧
    ∀ o ∈ [ExUtil.o1, ExUtil.o2, ExUtil.o3], Evaluable ExUtil.prices ExUtil.accounts o (priceAt ExUtil.prices o.buyToken) (priceAt ExUtil.prices o.sellToken) := by
  obtain ⟨v, h1, h2⟩ := exists_of_pyCheck (x := computeObjectiveCore ExUtil.prices ExUtil.accounts [ExUtil.o1, ExUtil.o2, ExUtil.o3] ExUtil.fee)
    (p := fun v : ℚ => v ≠ 0) (by decide +kernel)
  refine ⟨v, h1, h2, ?_⟩
  intro o ho
  simp only [List.mem_cons, List.not_mem_nil, or_false] at ho
  rcases ho with rfl | rfl | rfl
  all_goals constructor <;> decide +kernel

/-! ## C69 -/

theorem utilityAt_zero {prices : Prices} {fee : Fee} {o : Order} (h : o.buy = 0) : utilityAt prices fee o = 0 := by
  unfold utilityAt intUtil uniformSell
  simp [h]

/-- What is written for a solution contains its objective. -/
theorem reported_of {cfg : Config} {inst : Instance} {pool : List Order} {sol : Solution} {d : Dump} (hc : CfgOk cfg) (hi : GoodInstance inst)
    (hl : LoadedPool cfg inst pool) (hs : SolOk cfg inst.fee pool sol) (hd : dumpSolution inst sol = .ok d) :
    ∃ acc, updateAccounts inst.accounts sol.orders = .ok acc ∧
      computeObjectiveCore sol.prices acc (sol.orders.filter (fun o => decide (o.buy > 0))) inst.fee = .ok (reportedObjective d) := by
  rcases hs with rfl | hg
  · refine ⟨inst.accounts, rfl, ?_⟩
    cases hd
    unfold reportedObjective computeObjectiveCore
    simp [Solution.trivial, mapE, pure_eq_ok, ok_bind]
  obtain ⟨acc, hacc, _, _, hmet⟩ := good_metricOk hc hi hl hg
  refine ⟨acc, hacc, ?_⟩
  have hd2 := den_two hi.feePos hi.feeLt
  obtain ⟨m, hm, m1, _, m3, _⟩ := C38_metrics hi.feeLt hd2 hmet
  unfold dumpSolution at hd
  rw [hacc, ok_bind, hm, ok_bind] at hd
  simp only [bind_eq_ok] at hd
  obtain ⟨ds, _, e⟩ := hd
  cases e
  rw [C68_integer_objective hi.feeLt hd2 (fun o ho => (hmet o (List.mem_of_mem_filter ho)).eval)]
  have hnn : ∀ o ∈ sol.orders, 0 ≤ disregardedAt sol.prices acc inst.fee o := fun o ho =>
    C38_disregarded_nonneg (hmet o ho).eval.maxSell (hmet o ho).sell (hmet o ho).bal
  show _ = Except.ok (m.utility - m.utilityDisregTouched)
  rw [m1, m3, Except.ok.injEq]
  have hex : ∀ o ∈ sol.orders, 0 ≤ o.buy ∧ (0 < o.buy ↔ 0 < o.sell) := fun o ho => ⟨(hg.amounts o ho).2.1, hg.exec o ho⟩
  clear m1 m3 hm hmet hacc hg hl
  revert hnn hex
  generalize sol.orders = L
  intro hnn hex
  induction L with
  | nil => simp
  | cons o L ih =>
    have ih := ih (fun c hc => hnn c (by simp [hc])) (fun c hc => hex c (by simp [hc]))
    obtain ⟨h0, h1⟩ := hex o (by simp)
    by_cases hb : 0 < o.buy
    · rw [List.filter_cons_of_pos (by simpa using hb), List.filter_cons_of_pos (by simpa using h1.1 hb)]
      simp only [List.map_cons, List.sum_cons]
      rw [ih, max_eq_right (hnn o (by simp))]
      ring
    · rw [List.filter_cons_of_neg (by simpa using not_lt.1 hb), List.filter_cons_of_neg (by simpa using fun h => hb (h1.2 h)), ih]
      simp only [List.map_cons, List.sum_cons]
      rw [utilityAt_zero (le_antisymm (not_lt.1 hb) h0)]
      ring

theorem dump_empty {cfg : Config} {inst : Instance} {pool : List Order} {sol : Solution} {d : Dump}
    (hs : SolOk cfg inst.fee pool sol) (hd : dumpSolution inst sol = .ok d) (he : d.orders = []) : sol.orders.filter (fun o => decide (o.buy > 0)) = [] := by
  rcases hs with rfl | hg
  · rfl
  unfold dumpSolution at hd
  simp only [bind_eq_ok] at hd
  obtain ⟨_, _, _, _, ds, h3, e⟩ := hd
  cases e
  have he : ds = [] := he
  subst he
  have hlen := (mapE_eq_ok_forall₂.1 h3).length_eq
  rw [List.filter_eq_nil_iff]
  intro o ho hb
  have hm : o ∈ (sol.orders.insertionSort (fun a b => a.id ≤ b.id)).filter (fun o => decide (o.sell > 0)) := by
    rw [List.mem_filter]
    exact ⟨(List.perm_insertionSort _ _).mem_iff.2 ho, by simpa using (hg.exec o ho).1 (by simpa using hb)⟩
  rw [List.eq_nil_of_length_eq_zero hlen] at hm
  cases hm

/-- C69. What the command over all pairs writes is worth nothing exactly when it is empty, and never less than nothing. -/
theorem C69_worth {cfg : Config} {ext : Ext} {inst : Instance} {shuffle : List (Token × Token) → List ((Token × Token) × Bool)}
    (hc : CfgOk cfg) (hi : GoodInstance inst) (hbr : ∀ E, MaxBranching E (ext.branch E)) (hsh : ∀ E, ∀ v ∈ shuffle E, v.1 ∈ E) {d : Dump}
    (h : bestTokenPairMain cfg ext inst shuffle = .ok d) : 0 ≤ reportedObjective d ∧ (0 < reportedObjective d ↔ d.orders ≠ []) := by
  unfold bestTokenPairMain at h
  simp only [bind_eq_ok] at h
  obtain ⟨⟨accounts, orders, fee⟩, hload, st, hst, hd⟩ := h
  dsimp only at hst hd
  obtain ⟨rfl, hl, hsol, _⟩ := bestPair_parts hc hi hbr hload (hsh _) hst
  obtain ⟨acc, ha, ho⟩ := reported_of hc hi hl hsol hd
  obtain ⟨rfl, _⟩ : accounts = inst.accounts ∧ True := by
    unfold loadProblem at hload
    simp only [bind_eq_ok] at hload
    obtain ⟨_, _, _, _, e⟩ := hload
    cases e
    exact ⟨rfl, trivial⟩
  obtain ⟨l, hl1, _, hbest⟩ := C42_best_of_evaluated hst
  rcases hbest with ⟨e, _⟩ | ⟨hpos, l1, l2, e, _⟩
  · rw [e] at hd
    cases hd
    simp [reportedObjective]
  obtain ⟨acc', ha', ho'⟩ := C42_objective_of_solution hl1 (st.objective, st.sol) (by rw [e]; simp)
  dsimp only at ha' ho'
  rw [ha] at ha'; cases ha'
  rw [ho, Except.ok.injEq] at ho'
  rw [← ho'] at hpos
  refine ⟨hpos.le, fun _ he => ?_, fun _ => hpos⟩
  rw [dump_empty hsol hd he] at ho
  have : reportedObjective d = 0 := by
    unfold computeObjectiveCore mapE at ho
    simpa using ho.symm
  linarith

theorem bestLoop_le {cfg : Config} {ext : Ext} {accounts : Accounts} {fee : Fee} {visits : List ((Token × Token) × Bool)} {st0 st : BestState}
    (h : bestLoop cfg ext accounts fee visits st0 = .ok st) : st0.objective ≤ st.objective := by
  obtain ⟨_, _, ⟨_, e, _⟩ | ⟨_, _, _, e, _⟩⟩ := bestLoop_evaluations h
  · exact e.ge
  · exact e.le

theorem bestLoop_visited {cfg : Config} {ext : Ext} {accounts : Accounts} {orders : List Order} {fee : Fee} (hc : CfgOk cfg) (hf : fee.value < 1)
    (hbr : ∀ E, MaxBranching E (ext.branch E)) (hp : Pool orders) {pair : Token × Token} {visits : List ((Token × Token) × Bool)}
    (hv : ∀ v ∈ visits, v.1.1 ≠ v.1.2) {st0 st : BestState} (hs : List.Forall₂ SameButExec orders st0.orders)
    (h : bestLoop cfg ext accounts fee visits st0 = .ok st) (hvis : Visited visits pair) :
    ∃ u obj sol os, List.Forall₂ SameButExec orders u ∧ matchAndEvaluate cfg ext pair accounts u fee = .ok (obj, sol, os) ∧ obj ≤ st.objective := by
  induction visits generalizing st0 with
  | nil => obtain ⟨pre, _, _, e, _⟩ := hvis; simp at e
  | cons v visits ih =>
    obtain ⟨q, stop⟩ := v
    unfold bestLoop at h
    dsimp only at h
    rw [bind_eq_ok] at h
    obtain ⟨⟨obj, sol, os⟩, e, h⟩ := h
    dsimp only at h
    have hos : List.Forall₂ SameButExec orders os := by
      have e := e
      unfold matchAndEvaluate at e
      simp only [bind_eq_ok] at e
      obtain ⟨⟨sol'', os''⟩, h3, acc, _, obj'', _, e⟩ := e
      cases e
      exact (matchTokenPair_spec hc hf (hv (q, stop) (by simp)) hbr hp hs h3).1
    have hmax : obj ≤ (if obj > st0.objective then ({ objective := obj, sol, orders := os } : BestState) else { st0 with orders := os }).objective := by
      split
      · exact le_refl _
      · rename_i h; exact not_lt.1 h
    have hord : List.Forall₂ SameButExec orders
        (if obj > st0.objective then ({ objective := obj, sol, orders := os } : BestState) else { st0 with orders := os }).orders := by
      split <;> exact hos
    obtain ⟨pre, stop', post, e', hpre⟩ := hvis
    cases pre with
    | nil =>
      rw [List.nil_append] at e'
      cases e'
      refine ⟨_, _, _, _, hs, e, le_trans hmax ?_⟩
      cases stop with
      | true => simp only [if_true] at h; cases h; exact le_refl _
      | false => simp only [Bool.false_eq_true, if_false] at h; exact bestLoop_le h
    | cons w pre =>
      rw [List.cons_append] at e'
      cases e'
      obtain rfl : stop = false := hpre (q, stop) (by simp)
      simp only [Bool.false_eq_true, if_false] at h
      exact ih (fun v hv' => hv v (by simp [hv'])) hord h ⟨pre, stop', post, rfl, fun v hv' => hpre v (by simp [hv'])⟩

/-- Without fee orders (and without the fee token in the pair) only the trivial solution is found. -/
theorem economic_noFee {cfg : Config} {ext : Ext} {pair : Token × Token} {fee : Fee} {pool b s objs : List Order} {accounts : Accounts} {sol : Solution}
    (h : RunInput cfg ext pair fee none pool) (hb : BookOf pool pair fee { b, s, f := [] }) (hF : pair.1 ≠ fee.token) (hF2 : pair.2 ≠ fee.token)
    (hr : solveEconomicViable cfg ext pair accounts b s [] fee none = .ok (sol, objs)) : sol = .trivial := by
  have hrun := C63_run h hb hr
  have hb' : BookOf pool pair fee { b := b.map fresh, s := s.map fresh, f := [] } := by
    refine ⟨?_, ?_, by simp, ?_, ?_, by simp, ?_, ?_, by simp⟩
    · intro o ho
      obtain ⟨c, hc, rfl⟩ := List.mem_map.1 ho
      exact (hb.derB c hc).same (sameButExec_iff.2 ⟨0, 0, rfl⟩)
    · intro o ho
      obtain ⟨c, hc, rfl⟩ := List.mem_map.1 ho
      exact (hb.derS c hc).same (sameButExec_iff.2 ⟨0, 0, rfl⟩)
    · rw [List.map_map]; exact hb.idsB
    · rw [List.map_map]; exact hb.idsS
    · intro o ho
      obtain ⟨c, hc, rfl⟩ := List.mem_map.1 ho
      exact hb.clsB c hc
    · intro o ho
      obtain ⟨c, hc, rfl⟩ := List.mem_map.1 ho
      exact hb.clsS c hc
  have key : ∀ r, solveTokenPairAndFee cfg ext pair (b.map fresh) (s.map fresh) [] fee none = .ok r → r.sol = .trivial := by
    intro r hr
    obtain ⟨h1, h2⟩ := solve_ne hr
    rcases C60_fee_order_choice h.pool h.cfg h.feeLt hb' h.ne hF hF2 h1 h2 (by simp) hr with ⟨_, e⟩ | ⟨_, _, _, _, _, _, _, _, _, _, _, ho⟩
    · exact e
    · rcases ho with ⟨_, e⟩ | ⟨_, e⟩ | ⟨_, e, _⟩
      · exact e
      · exact e
      · exact absurd rfl e
  have hv : Viable cfg fee .trivial := .inl rfl
  generalize b.map fresh = b0 at hrun key
  generalize s.map fresh = s0 at hrun key
  cases hrun with
  | empty => rfl
  | stop h1 _ => exact key _ h1
  | hopeless _ _ _ => rfl
  | dropB h1 h2 => rw [key _ h1] at h2; exact absurd hv h2
  | dropS h1 h2 => rw [key _ h1] at h2; exact absurd hv h2

/-- The command for a pair writes the solution that the search over all pairs evaluates for the pair, together with its objective. -/
theorem evaluated_of_command {cfg : Config} {ext : Ext} {inst : Instance} {pair : Token × Token} (hc : CfgOk cfg) (hi : GoodInstance inst)
    (hne : pair.1 ≠ pair.2) (hbr : ∀ E, MaxBranching E (ext.branch E)) {d : Dump} (h : tokenPairMain cfg ext inst pair none = .ok d) :
    pair.2 ≠ inst.fee.token ∧ ∃ orders sol os', loadProblem cfg inst = .ok (inst.accounts, orders, inst.fee) ∧ LoadedPool cfg inst orders ∧
      matchAndEvaluate cfg ext pair inst.accounts orders inst.fee = .ok (reportedObjective d, sol, os') := by
  have hm : 0 < cfg.minTradable := by have := hc.minPos; omega
  unfold tokenPairMain at h
  rw [bind_eq_ok] at h
  obtain ⟨⟨accounts, bk, fee⟩, hload, h⟩ := h
  dsimp only at h
  rw [bind_eq_ok] at h
  obtain ⟨⟨sol, objs⟩, hr, hd⟩ := h
  dsimp only at hd
  have hparts := tokenPair_parts hc hi hne hbr (by simp) hload hr
  unfold loadPairProblem at hload
  simp only [bind_eq_ok, pyAssert_eq_ok, exists_and_left, exists_const] at hload
  obtain ⟨os0, h1, orders, h2, hF2, e⟩ := hload
  cases e
  have hload : loadProblem cfg inst = .ok (inst.accounts, orders, inst.fee) := by
    unfold loadProblem; rw [h1, ok_bind, h2]; rfl
  obtain ⟨hl, _, _⟩ := loadedPool hm hi.balances hi.ints hi.sell hload
  dsimp only at hr
  have hB := bookOf_filter hl.wf (forall₂_same_refl _) pair inst.fee _ (.inl rfl)
  have hdist : ∀ o ∈ orders, o.buyToken ≠ o.sellToken := by
    intro o ho
    obtain ⟨k, e, hsf⟩ := hl.stems o ho
    rw [hsf.2.2.2.1, hsf.2.2.2.2.1]
    exact hi.tokens e (List.mem_of_getElem? hsf.1)
  have hin : RunInput cfg ext pair inst.fee none orders := ⟨hl.wf, hc, hi.feeLt, hne, hbr, by simp⟩
  have hmatch : ∃ os', matchTokenPair cfg ext pair inst.accounts orders inst.fee = .ok (sol, os') := by
    by_cases hM : MatchablePair orders inst.fee.token pair
    · unfold matchTokenPair
      dsimp only
      rw [if_neg (by rw [length_buyingSelling]; exact not_not.2 hM.bSide), if_neg (by rw [length_buyingSelling]; exact not_not.2 hM.sSide)]
      by_cases hF : pair.1 = inst.fee.token
      · rw [if_neg (fun h => h.1 hF), if_neg (not_not.2 hF)]
        have : ordersBuyingSelling orders pair.1 inst.fee.token = [] := by
          rw [List.eq_nil_iff_forall_not_mem]
          intro o ho
          obtain ⟨g1, g2, g3⟩ := mem_buyingSelling.1 ho
          exact hdist o g1 (by rw [g2, g3, hF])
        rw [this] at hr
        rw [hr]
        exact ⟨_, rfl⟩
      · rw [if_pos hF, if_neg (fun h => length_buyingSelling.1 h.2 (hM.feeSide.resolve_left hF)), hr]
        exact ⟨_, rfl⟩
    · refine ⟨orders, ?_⟩
      rw [C41_unmatchable hM]
      have hnil : ∀ x y, ¬ Offers orders x y → ordersBuyingSelling orders x y = [] := fun x y h => List.length_eq_zero_iff.1 (length_buyingSelling.2 h)
      suffices sol = .trivial by rw [this]
      by_cases o1 : Offers orders pair.1 pair.2
      · have hbn : ordersBuyingSelling orders pair.1 pair.2 ≠ [] := fun h => length_buyingSelling.1 (by rw [h]; rfl) o1
        by_cases o2 : Offers orders pair.2 pair.1
        · have hF : pair.1 ≠ inst.fee.token := fun e => hM ⟨o1, o2, .inl e⟩
          have hf := hnil _ _ (fun e => hM ⟨o1, o2, .inr e⟩ : ¬ Offers orders pair.1 inst.fee.token)
          rw [hf] at hr hB
          exact economic_noFee hin hB hF hF2 hr
        · rw [C35_one_sided_raises (.inr ⟨hbn, hnil _ _ o2⟩)] at hr
          cases hr
      · by_cases o2 : Offers orders pair.2 pair.1
        · have hsn : ordersBuyingSelling orders pair.2 pair.1 ≠ [] := fun h => length_buyingSelling.1 (by rw [h]; rfl) o2
          rw [C35_one_sided_raises (.inl ⟨hnil _ _ o1, hsn⟩)] at hr
          cases hr
        · rw [hnil _ _ o1, hnil _ _ o2, C35_both_empty] at hr
          cases hr
          rfl
  obtain ⟨os', hmatch⟩ := hmatch
  obtain ⟨_, hsol⟩ := matchTokenPair_spec hc hi.feeLt hne hbr hl.wf (forall₂_same_refl _) hmatch
  obtain ⟨acc, ha, ho⟩ := reported_of hc hi hl hsol hd
  refine ⟨hF2, orders, sol, os', hload, hl, ?_⟩
  unfold matchAndEvaluate
  rw [hmatch, ok_bind]
  dsimp only
  rw [ha, ok_bind, ho]
  rfl

/-- The best objective is the one written. -/
theorem reported_best {cfg : Config} {ext : Ext} {inst : Instance} {orders : List Order} {visits : List ((Token × Token) × Bool)}
    (hc : CfgOk cfg) (hi : GoodInstance inst) (hbr : ∀ E, MaxBranching E (ext.branch E)) (hload : loadProblem cfg inst = .ok (inst.accounts, orders, inst.fee))
    (hsh : ∀ v ∈ visits, v.1 ∈ eligibleTokenPairs orders inst.fee.token) {st : BestState} {d : Dump}
    (hst : bestTokenPair cfg ext inst.accounts orders inst.fee visits = .ok st) (hd : dumpSolution inst st.sol = .ok d) :
    reportedObjective d = st.objective := by
  obtain ⟨_, hl, hsol, _⟩ := bestPair_parts hc hi hbr hload hsh hst
  obtain ⟨acc, ha, ho⟩ := reported_of hc hi hl hsol hd
  obtain ⟨l, hl1, _, hbest⟩ := C42_best_of_evaluated hst
  rcases hbest with ⟨e, e0⟩ | ⟨hpos, l1, l2, e, _⟩
  · rw [e] at hd
    cases hd
    rw [e0]
    simp [reportedObjective]
  obtain ⟨acc', ha', ho'⟩ := C42_objective_of_solution hl1 (st.objective, st.sol) (by rw [e]; simp)
  dsimp only at ha' ho'
  rw [ha] at ha'; cases ha'
  rw [ho, Except.ok.injEq] at ho'
  exact ho'

/-- C69. For every shuffle and time-out: on the same instance, no pair visited by the command over all pairs gives the command for that pair a better
result. -/
theorem C69_best_of_visited {cfg : Config} {ext : Ext} {inst : Instance} {shuffle : List (Token × Token) → List ((Token × Token) × Bool)}
    (hc : CfgOk cfg) (hi : GoodInstance inst) (hbr : ∀ E, MaxBranching E (ext.branch E)) (hsh : ∀ E, ∀ v ∈ shuffle E, v.1 ∈ E) {pair : Token × Token}
    (hne : pair.1 ≠ pair.2) {d d' : Dump} (h : bestTokenPairMain cfg ext inst shuffle = .ok d) (h' : tokenPairMain cfg ext inst pair none = .ok d')
    (hvis : ∀ orders, loadProblem cfg inst = .ok (inst.accounts, orders, inst.fee) → Visited (shuffle (eligibleTokenPairs orders inst.fee.token)) pair) :
    reportedObjective d' ≤ reportedObjective d := by
  obtain ⟨_, orders, sol, os', hload, hl, hev⟩ := evaluated_of_command hc hi hne hbr h'
  unfold bestTokenPairMain at h
  rw [hload, ok_bind] at h
  dsimp only at h
  rw [bind_eq_ok] at h
  obtain ⟨st, hst, hd⟩ := h
  rw [reported_best hc hi hbr hload (hsh _) hst hd]
  obtain ⟨u, obj, sol2, os2, hu, he, hle⟩ := bestLoop_visited hc hi.feeLt hbr hl.wf (fun v hv => eligible_ne (hsh _ v hv)) (forall₂_same_refl _) hst (hvis orders hload)
  rw [(C43_evaluations_agree hc hi.feeLt hne hbr hl.wf (forall₂_same_refl _) hu hev he).1]
  exact hle

/-- C69. Without time-out: on the same instance, no pair of tokens at all gives the command for that pair a better result than the command over all
pairs. -/
theorem C69_best_of_all {cfg : Config} {ext : Ext} {inst : Instance} {shuffle : List (Token × Token) → List ((Token × Token) × Bool)}
    (hc : CfgOk cfg) (hi : GoodInstance inst) (hbr : ∀ E, MaxBranching E (ext.branch E)) (hsh : ∀ E, ((shuffle E).map (·.1)).Perm E)
    (hto : ∀ E, ∀ v ∈ shuffle E, v.2 = false) {pair : Token × Token}
    (hne : pair.1 ≠ pair.2) {d d' : Dump} (h : bestTokenPairMain cfg ext inst shuffle = .ok d) (h' : tokenPairMain cfg ext inst pair none = .ok d') :
    reportedObjective d' ≤ reportedObjective d := by
  have hsh' : ∀ E, ∀ v ∈ shuffle E, v.1 ∈ E := fun E v hv => (hsh E).mem_iff.1 (List.mem_map.2 ⟨v, hv, rfl⟩)
  obtain ⟨hF2, orders, sol, os', hload, hl, hev⟩ := evaluated_of_command hc hi hne hbr h'
  by_cases hM : MatchablePair orders inst.fee.token pair
  · refine C69_best_of_visited hc hi hbr hsh' hne h h' fun orders' hload' => ?_
    rw [hload] at hload'; cases hload'
    rcases C41_complete hne hM with hel | ⟨e, _⟩
    · obtain ⟨v, hv, e⟩ := List.mem_map.1 ((hsh _).mem_iff.2 hel)
      obtain ⟨pre, post, e2⟩ := List.append_of_mem hv
      refine ⟨pre, v.2, post, by rw [e2, ← e], fun w hw => hto _ w (by rw [e2]; simp [hw])⟩
    · exact absurd e hF2
  · unfold matchAndEvaluate at hev
    rw [C41_unmatchable hM, ok_bind] at hev
    have : reportedObjective d' = 0 := by
      simp only [bind_eq_ok] at hev
      obtain ⟨acc, _, v, hv, e⟩ := hev
      have e1 : v = 0 := by
        unfold computeObjectiveCore at hv
        simpa [Solution.trivial, mapE, pure_eq_ok, ok_bind] using hv.symm
      cases e
      exact e1
    rw [this]
    exact (C69_worth hc hi hbr hsh' h).1

/-- Without time-out the command over all pairs of the example instance is worth more than nothing, and so is the command for the pair B/S. -/
example : ∃ d d', bestTokenPairMain Config.default ExInst.ext ExInst.inst (fun E => E.reverse.map (fun p => (p, false))) = .ok d ∧
    tokenPairMain Config.default ExInst.ext ExInst.inst ("B", "S") none = .ok d' ∧ 0 < reportedObjective d' ∧ reportedObjective d' ≤ reportedObjective d := by
  obtain ⟨d, h1, _⟩ := ExInst.run_best
  obtain ⟨d', h2, h3⟩ := exists_of_pyCheck (x := tokenPairMain Config.default ExInst.ext ExInst.inst ("B", "S") none) (p := fun d => 0 < reportedObjective d)
    (by decide +kernel)
  have hc : CfgOk Config.default := by constructor <;> decide
  refine ⟨d, d', h1, h2, h3, C69_best_of_all hc ExInst.good ExInst.branch_max ?_ ?_ (by decide) h1 h2⟩
  · intro E
    rw [List.map_map]
    simp [Function.comp_def]
  · intro E v hv
    obtain ⟨p, _, rfl⟩ := List.mem_map.1 hv
    rfl

end Dex
