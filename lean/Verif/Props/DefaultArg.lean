import Verif.Model.BestDefault
import Verif.Props.Viability
import Verif.Props.Objective

/-! # Property C83: evaluating a pair with the default argument -/

namespace Dex

namespace Spec

/-- Reported utility of all orders of the solution minus what they were denied, executed or not. -/
def reportedObjectiveAll (d : Dump) : ℚ := d.objVals.utility - d.objVals.utilityDisreg

/-- What the orders that are not executed were denied. -/
def deniedUntouched (accounts : Accounts) (fee : Fee) (sol : Solution) : ℚ :=
  ((sol.orders.filter (fun o => decide (o.buy = 0))).map (disregardedAt sol.prices accounts fee)).sum

end Spec

open Spec

theorem objective_nil (prices : Prices) (acc : Accounts) (fee : Fee) : computeObjectiveCore prices acc [] fee = .ok 0 := by
  unfold computeObjectiveCore mapE
  simp [ok_bind, pure_eq_ok]

theorem sum_map_minus {f g : Order → ℚ} : ∀ (l : List Order), (l.map (fun o => f o - g o)).sum = (l.map f).sum - (l.map g).sum
  | [] => by simp
  | o :: l => by simp only [List.map_cons, List.sum_cons]; rw [sum_map_minus l]; ring

theorem denied_split {prices : Prices} {acc : Accounts} {fee : Fee} : ∀ {L : List Order}, (∀ o ∈ L, 0 ≤ disregardedAt prices acc fee o) → (∀ o ∈ L, 0 ≤ o.buy) →
    (L.map (fun o => utilityAt prices fee o - max 0 (disregardedAt prices acc fee o))).sum =
      ((L.filter (fun o => decide (o.buy > 0))).map (fun o => utilityAt prices fee o - max 0 (disregardedAt prices acc fee o))).sum -
        ((L.filter (fun o => decide (o.buy = 0))).map (disregardedAt prices acc fee)).sum
  | [], _, _ => by simp
  | o :: L, h1, h2 => by
    have ih := denied_split (L := L) (fun c hc => h1 c (by simp [hc])) (fun c hc => h2 c (by simp [hc]))
    by_cases hb : 0 < o.buy
    · rw [List.filter_cons_of_pos (by simpa using hb), List.filter_cons_of_neg (by simpa using hb.ne')]
      simp only [List.map_cons, List.sum_cons]
      rw [ih]
      ring
    · have h0 : o.buy = 0 := le_antisymm (not_lt.1 hb) (h2 o (by simp))
      rw [List.filter_cons_of_neg (by simpa using not_lt.1 hb), List.filter_cons_of_pos (by simpa using h0)]
      simp only [List.map_cons, List.sum_cons]
      rw [ih, utilityAt_zero h0, max_eq_right (h1 o (by simp))]
      ring

/-- C83. For every pair and every state of the order objects that the search can reach: when the pair can be matched, both ways of evaluating succeed on the
same solution, and the default way gives an objective that is less by what the orders not executed were denied. -/
theorem C83_difference {cfg : Config} {ext : Ext} {inst : Instance} {pair : Token × Token} {pool u os : List Order} {sol : Solution} (hc : CfgOk cfg)
    (hi : GoodInstance inst) (hne : pair.1 ≠ pair.2) (hbr : ∀ E, MaxBranching E (ext.branch E))
    (hload : loadProblem cfg inst = .ok (inst.accounts, pool, inst.fee)) (hu : List.Forall₂ SameButExec pool u)
    (h : matchTokenPair cfg ext pair inst.accounts u inst.fee = .ok (sol, os)) :
    ∃ acc v w, updateAccounts inst.accounts sol.orders = .ok acc ∧ matchAndEvaluate cfg ext pair inst.accounts u inst.fee = .ok (v, sol, os) ∧
      matchAndEvaluateDefault cfg ext pair inst.accounts u inst.fee = .ok (w, sol, os) ∧ w = v - deniedUntouched acc inst.fee sol ∧ w ≤ v := by
  have hm : 0 < cfg.minTradable := by have := hc.minPos; omega
  obtain ⟨hl, _, _⟩ := loadedPool hm hi.balances hi.ints hi.sell hload
  obtain ⟨_, hsol⟩ := matchTokenPair_spec hc hi.feeLt hne hbr hl.wf hu h
  unfold matchAndEvaluate matchAndEvaluateDefault
  rw [h, ok_bind, ok_bind]
  dsimp only
  rcases hsol with rfl | hg
  · have e1 : updateAccounts inst.accounts Solution.trivial.orders = .ok inst.accounts := rfl
    have e2 : Solution.trivial.orders.filter (fun o => decide (o.buy > 0)) = [] := rfl
    have e3 : Solution.trivial.orders = [] := rfl
    rw [e1, ok_bind, ok_bind, e2, e3, objective_nil, ok_bind]
    exact ⟨inst.accounts, 0, 0, rfl, rfl, rfl, by simp [deniedUntouched, Solution.trivial], le_refl _⟩
  obtain ⟨acc, hacc, _, _, hmet⟩ := good_metricOk hc hi hl hg
  have hd2 := den_two hi.feePos hi.feeLt
  have hnn : ∀ o ∈ sol.orders, 0 ≤ disregardedAt sol.prices acc inst.fee o := fun o ho =>
    C38_disregarded_nonneg (hmet o ho).eval.maxSell (hmet o ho).sell (hmet o ho).bal
  have hsplit := denied_split hnn (fun o ho => (hg.amounts o ho).2.1)
  rw [hacc, ok_bind, ok_bind, C68_integer_objective hi.feeLt hd2 (fun o ho => (hmet o (List.mem_of_mem_filter ho)).eval), ok_bind,
    C68_integer_objective hi.feeLt hd2 (fun o ho => (hmet o ho).eval), ok_bind]
  refine ⟨acc, _, _, rfl, rfl, rfl, hsplit, ?_⟩
  rw [hsplit]
  have : 0 ≤ ((sol.orders.filter (fun o => decide (o.buy = 0))).map (disregardedAt sol.prices acc inst.fee)).sum := by
    refine List.sum_nonneg ?_
    intro x hx
    obtain ⟨o, ho, rfl⟩ := List.mem_map.1 hx
    exact hnn o (List.mem_of_mem_filter ho)
  linarith

/-- C83. The two ways of evaluating raise the same exceptions. -/
theorem C83_same_exceptions {cfg : Config} {ext : Ext} {inst : Instance} {pair : Token × Token} {pool u : List Order} (hc : CfgOk cfg)
    (hi : GoodInstance inst) (hne : pair.1 ≠ pair.2) (hbr : ∀ E, MaxBranching E (ext.branch E))
    (hload : loadProblem cfg inst = .ok (inst.accounts, pool, inst.fee)) (hu : List.Forall₂ SameButExec pool u) (e : PyErr) :
    matchAndEvaluate cfg ext pair inst.accounts u inst.fee = .error e ↔ matchAndEvaluateDefault cfg ext pair inst.accounts u inst.fee = .error e := by
  cases h : matchTokenPair cfg ext pair inst.accounts u inst.fee with
  | error e' =>
    unfold matchAndEvaluate matchAndEvaluateDefault
    rw [h, error_bind, error_bind]
  | ok r =>
    obtain ⟨_, _, _, _, h1, h2, _⟩ := C83_difference hc hi hne hbr hload hu h
    rw [h1, h2]
    simp

/-- C83. In terms of what is written for the solution: evaluating executed orders only gives the utility minus `utility_disreg_touched`, the default gives
the utility minus `utility_disreg`. -/
theorem C83_reported {cfg : Config} {ext : Ext} {inst : Instance} {pair : Token × Token} {pool u os os' : List Order} {sol sol' : Solution} {v w : ℚ} {d : Dump}
    (hc : CfgOk cfg) (hi : GoodInstance inst) (hne : pair.1 ≠ pair.2) (hbr : ∀ E, MaxBranching E (ext.branch E))
    (hload : loadProblem cfg inst = .ok (inst.accounts, pool, inst.fee)) (hu : List.Forall₂ SameButExec pool u)
    (hv : matchAndEvaluate cfg ext pair inst.accounts u inst.fee = .ok (v, sol, os))
    (hw : matchAndEvaluateDefault cfg ext pair inst.accounts u inst.fee = .ok (w, sol', os')) (hd : dumpSolution inst sol = .ok d) :
    sol' = sol ∧ os' = os ∧ v = reportedObjective d ∧ w = reportedObjectiveAll d := by
  have hm : 0 < cfg.minTradable := by have := hc.minPos; omega
  obtain ⟨hl, _, _⟩ := loadedPool hm hi.balances hi.ints hi.sell hload
  have h : matchTokenPair cfg ext pair inst.accounts u inst.fee = .ok (sol, os) := by
    unfold matchAndEvaluate at hv
    simp only [bind_eq_ok] at hv
    obtain ⟨⟨_, _⟩, h, _, _, _, _, e⟩ := hv
    cases e
    exact h
  obtain ⟨_, hsol⟩ := matchTokenPair_spec hc hi.feeLt hne hbr hl.wf hu h
  obtain ⟨acc, ha, ho⟩ := reported_of hc hi hl hsol hd
  unfold matchAndEvaluate at hv
  unfold matchAndEvaluateDefault at hw
  rw [h, ok_bind] at hv hw
  dsimp only at hv hw
  rw [ha, ok_bind] at hv hw
  rw [ho, ok_bind] at hv
  cases hv
  rw [bind_eq_ok] at hw
  obtain ⟨w', hw, e⟩ := hw
  cases e
  refine ⟨rfl, rfl, rfl, ?_⟩
  rcases hsol with rfl | hg
  · cases ha
    cases hd
    have e3 : Solution.trivial.orders = [] := rfl
    rw [e3, objective_nil] at hw
    cases hw
    simp [reportedObjectiveAll]
  obtain ⟨acc', hacc, _, _, hmet⟩ := good_metricOk hc hi hl hg
  rw [ha] at hacc
  cases hacc
  have hd2 := den_two hi.feePos hi.feeLt
  obtain ⟨m, hm, m1, m2, _⟩ := C38_metrics hi.feeLt hd2 hmet
  unfold dumpSolution at hd
  rw [ha, ok_bind, hm, ok_bind] at hd
  simp only [bind_eq_ok] at hd
  obtain ⟨ds, _, e⟩ := hd
  cases e
  rw [C68_integer_objective hi.feeLt hd2 (fun o ho => (hmet o ho).eval), Except.ok.injEq] at hw
  rw [← hw]
  show _ = m.utility - m.utilityDisreg
  rw [m1, m2, ← sum_map_minus]
  congr 1
  refine List.map_congr_left fun o ho => ?_
  have h0 : 0 ≤ disregardedAt sol.prices acc inst.fee o := C38_disregarded_nonneg (hmet o ho).eval.maxSell (hmet o ho).sell (hmet o ho).bal
  rw [max_eq_right h0]

namespace ExDef
/-- Three equal orders each way on F/S. -/
def inst : Instance where
  accounts := [("A", [("S", 10 ^ 21)]), ("C", [("F", 10 ^ 21)])]
  fee := { token := "F", value := 1 / 1000 }
  orders := [ { accountID := "A", buyToken := "F", sellToken := "S", buyAmount := 10 ^ 19, sellAmount := 2 * 10 ^ 19 },
    { accountID := "A", buyToken := "F", sellToken := "S", buyAmount := 10 ^ 19, sellAmount := 2 * 10 ^ 19 },
    { accountID := "A", buyToken := "F", sellToken := "S", buyAmount := 10 ^ 19, sellAmount := 2 * 10 ^ 19 },
    { accountID := "C", buyToken := "S", sellToken := "F", buyAmount := 10 ^ 19, sellAmount := 10 ^ 19 },
    { accountID := "C", buyToken := "S", sellToken := "F", buyAmount := 10 ^ 19, sellAmount := 10 ^ 19 },
    { accountID := "C", buyToken := "S", sellToken := "F", buyAmount := 10 ^ 19, sellAmount := 10 ^ 19 } ]
/-- Default configuration except for a limit of two executed orders. -/
def cfg : Config := { Config.default with maxNrExec := 2 }
/-- Both evaluations of every eligible pair. -/
noncomputable def both : Py (Dump × List (ℚ × ℚ × ℕ)) := do
  let d ← bestTokenPairMain cfg ExVia.ext inst (fun E => E.map (fun p => (p, false)))
  let (accounts, orders, fee) ← loadProblem cfg inst
  let l ← mapE (fun pair => do
    let (v, sol, _) ← matchAndEvaluate cfg ExVia.ext pair accounts orders fee
    let (w, _, _) ← matchAndEvaluateDefault cfg ExVia.ext pair accounts orders fee
    pure (v, w, nrExecuted sol.orders)) (eligibleTokenPairs orders fee.token)
  pure (d, l)
end ExDef

/-- C83, negative. The choice matters: there is an instance for which the program writes a solution with two executed orders, although every eligible pair has a
negative objective when it is evaluated with the default argument. A search with the default would find nothing. -/
theorem C83_default_finds_nothing : ∃ (cfg : Config) (ext : Ext) (inst : Instance) (pool : List Order) (d : Dump), CfgOk cfg ∧ GoodInstance inst ∧
    (∀ E, MaxBranching E (ext.branch E)) ∧ loadProblem cfg inst = .ok (inst.accounts, pool, inst.fee) ∧
    bestTokenPairMain cfg ext inst (fun E => E.map (fun p => (p, false))) = .ok d ∧ d.orders.length = 2 ∧ 0 < reportedObjective d ∧
    ∀ pair ∈ eligibleTokenPairs pool inst.fee.token, ∃ w sol os, matchAndEvaluateDefault cfg ext pair inst.accounts pool inst.fee = .ok (w, sol, os) ∧
      w < 0 ∧ nrExecuted sol.orders = 2 := by
  obtain ⟨⟨d, l⟩, e, h⟩ := exists_of_pyCheck (x := ExDef.both) (p := fun q => q.1.orders.length = 2 ∧ 0 < q.1.objVals.utility - q.1.objVals.utilityDisregTouched ∧
    ∀ r ∈ q.2, r.2.1 < 0 ∧ r.2.2 = 2) (by decide +kernel)
  have hc : CfgOk ExDef.cfg := by constructor <;> decide +kernel
  have hi : GoodInstance ExDef.inst := by constructor <;> decide +kernel
  unfold ExDef.both at e
  simp only [bind_eq_ok] at e
  obtain ⟨d', hd, ⟨acc, pool, fee⟩, hload, l', hl, e⟩ := e
  cases e
  dsimp only at hl
  obtain ⟨_, rfl, rfl⟩ := loadedPool (cfg := ExDef.cfg) (by decide +kernel) hi.balances hi.ints hi.sell hload
  refine ⟨ExDef.cfg, ExVia.ext, ExDef.inst, pool, d, hc, hi, ExVia.branch_max, hload, hd, h.1, h.2.1, ?_⟩
  intro pair hp
  obtain ⟨r, hr, g⟩ := forall₂_mem_r (mapE_eq_ok_forall₂.1 hl).flip pair hp
  simp only [bind_eq_ok] at g
  obtain ⟨⟨v, sol, os⟩, h1, ⟨w, sol', os'⟩, h2, e⟩ := g
  cases e
  have hne := eligible_ne hp
  have hmt : matchTokenPair ExDef.cfg ExVia.ext pair ExDef.inst.accounts pool ExDef.inst.fee = .ok (sol, os) := by
    unfold matchAndEvaluate at h1
    simp only [bind_eq_ok] at h1
    obtain ⟨⟨_, _⟩, h, _, _, _, _, e⟩ := h1
    cases e
    exact h
  obtain ⟨_, _, w', _, _, h4, _⟩ := C83_difference hc hi hne ExVia.branch_max hload (forall₂_same_refl _) hmt
  rw [h2] at h4
  cases h4
  exact ⟨w, sol, os, h2, (h.2.2 _ hr).1, (h.2.2 _ hr).2⟩

/-- The hypotheses of `C83_difference`, `C83_same_exceptions` and `C83_reported` on a run that executes two of six orders. -/
example : CfgOk ExDef.cfg ∧ GoodInstance ExDef.inst ∧ (∀ E, MaxBranching E (ExVia.ext.branch E)) ∧
    ∃ q : ((Accounts × List Order × Fee) × (ℚ × Solution × List Order) × (ℚ × Solution × List Order) × Dump), (do
      let p ← loadProblem ExDef.cfg ExDef.inst
      let r ← matchAndEvaluate ExDef.cfg ExVia.ext ("F", "S") p.1 p.2.1 p.2.2
      let r' ← matchAndEvaluateDefault ExDef.cfg ExVia.ext ("F", "S") p.1 p.2.1 p.2.2
      let d ← dumpSolution ExDef.inst r.2.1
      pure (p, r, r', d)) = .ok q ∧ q.1.2.1.length = 6 ∧ q.2.1.2.1.orders.length = 6 ∧ q.2.2.2.orders.length = 2 ∧ q.2.2.1.1 < q.2.1.1 :=
  ⟨by constructor <;> decide +kernel, by constructor <;> decide +kernel, ExVia.branch_max,
    exists_of_pyCheck (p := fun q : ((Accounts × List Order × Fee) × (ℚ × Solution × List Order) × (ℚ × Solution × List Order) × Dump) =>
      q.1.2.1.length = 6 ∧ q.2.1.2.1.orders.length = 6 ∧ q.2.2.2.orders.length = 2 ∧ q.2.2.1.1 < q.2.1.1) (by decide +kernel)⟩

end Dex
