import Verif.Proof.Terminates
import Verif.Props.ExInstance

/-! # Property C34: the solver terminates -/

namespace Dex

open Spec

set_option linter.unusedTactic false
set_option linter.unreachableTactic false

theorem solveTokenPairAndFee_lengths {cfg : Config} {ext : Ext} {pair : Token × Token} {b s f : List Order} {fee : Fee} {xrate : Option ℚ}
    {r : MatchResult} (h : solveTokenPairAndFee cfg ext pair b s f fee xrate = .ok r) :
    r.books.b.length = b.length ∧ r.books.s.length = s.length := by
  unfold solveTokenPairAndFee at h
  rw [bind_eq_ok] at h
  obtain ⟨⟨b1, s1⟩, _, h⟩ := h
  dsimp only at h
  split at h
  · cases h; exact ⟨rfl, rfl⟩
  split at h <;>
  · rw [bind_eq_ok] at h
    obtain ⟨r1, _, h⟩ := h
    cases h
    exact ⟨writeBack_length _ _, writeBack_length _ _⟩

/-- One round that goes on removes one order. -/
theorem remove_shorter {l : List Order} {o : Order} (h : pyMinBy (·.buy) (l.filter (fun o => decide (o.buy > 0))) = .ok o) :
    (l.filter (fun u => decide (u.id ≠ o.id))).length < l.length := by
  have hm := List.mem_of_mem_filter (pyMinBy_spec h).1
  exact List.length_filter_lt_length_iff_exists.2 ⟨o, hm, by simp⟩

/-- C34. Allowing more rounds than (number of b_orders + number of s_orders + 1) changes nothing: each round that does not stop removes
an order. -/
theorem C34_round_bound {cfg : Config} {ext : Ext} {pair : Token × Token} {fee : Fee} {xrate : Option ℚ} {fuel fuel' : ℕ} {bk : Books}
    {gone : List Order} {cur : Solution} (h : bk.b.length + bk.s.length + 1 ≤ fuel) (h' : bk.b.length + bk.s.length + 1 ≤ fuel') :
    economicLoop cfg ext pair fee xrate fuel bk gone cur = economicLoop cfg ext pair fee xrate fuel' bk gone cur := by
  induction fuel generalizing fuel' bk gone cur with
  | zero => omega
  | succ fuel ih =>
    obtain ⟨fuel', rfl⟩ : ∃ k, fuel' = k + 1 := ⟨fuel' - 1, by omega⟩
    unfold economicLoop
    split
    · cases h1 : solveTokenPairAndFee cfg ext pair bk.b bk.s bk.f fee xrate with
      | error e => rfl
      | ok r =>
        obtain ⟨l1, l2⟩ := solveTokenPairAndFee_lengths h1
        rw [ok_bind, ok_bind]
        dsimp only
        cases isEconomicViable cfg r.sol.orders r.sol.prices fee with
        | error e => rfl
        | ok v =>
          rw [ok_bind, ok_bind]
          split
          · rfl
          cases approxViableSubset cfg r.sol.orders r.sol.prices fee with
          | error e => rfl
          | ok sub =>
            rw [ok_bind, ok_bind]
            split
            · rfl
            cases hb : pyMinBy (·.buy) (r.books.b.filter (fun o => decide (o.buy > 0))) with
            | error e => rfl
            | ok bm =>
              rw [ok_bind, ok_bind]
              cases hs : pyMinBy (·.buy) (r.books.s.filter (fun o => decide (o.buy > 0))) with
              | error e => rfl
              | ok sm =>
                rw [ok_bind, ok_bind]
                cases dictGet r.sol.prices pair.1 with
                | error e => rfl
                | ok pb =>
                  rw [ok_bind, ok_bind]
                  cases dictGet r.sol.prices pair.2 with
                  | error e => rfl
                  | ok ps =>
                    rw [ok_bind, ok_bind]
                    have kb := remove_shorter hb
                    have ks := remove_shorter hs
                    split
                    · exact ih (by dsimp only; omega) (by dsimp only; omega)
                    · exact ih (by dsimp only; omega) (by dsimp only; omega)
    · rfl

theorem nd_economicLoop {cfg : Config} {ext : Ext} {pair : Token × Token} {fee : Fee} {xrate : Option ℚ} (hs : ∀ q, ND (ext.sqrt q))
    {fuel : ℕ} {bk : Books} {gone : List Order} {cur : Solution} (h : bk.b.length + bk.s.length + 1 ≤ fuel) :
    ND (economicLoop cfg ext pair fee xrate fuel bk gone cur) := by
  induction fuel generalizing bk gone cur with
  | zero => omega
  | succ fuel ih =>
    unfold economicLoop
    split
    · refine nd_bind (nd_solveTokenPairAndFee hs) (fun r h1 => ?_)
      obtain ⟨l1, l2⟩ := solveTokenPairAndFee_lengths h1
      dsimp only
      refine nd_bind (nd_isEconomicViable _ _ _ _) (fun v _ => ?_)
      split
      · exact nd_pure _
      refine nd_bind (nd_approxViableSubset _ _ _ _) (fun sub _ => ?_)
      split
      · exact nd_pure _
      refine nd_bind (nd_minBy _ _) (fun bm hb => nd_bind (nd_minBy _ _) (fun sm hs => nd_bind (nd_dictGet _ _) (fun _ _ =>
        nd_bind (nd_dictGet _ _) (fun _ _ => ?_))))
      have kb := remove_shorter hb
      have ks := remove_shorter hs
      split
      · exact ih (by dsimp only; omega)
      · exact ih (by dsimp only; omega)
    · exact nd_pure _

theorem nd_validate {cfg : Config} {fdiv : ℚ → ℕ → Py ℚ} (hd : ∀ q n, ND (fdiv q n)) {accounts : Accounts} {os : List Order} {p : Prices}
    {fee : Fee} : ND (validate cfg fdiv accounts os p fee) := by
  unfold validate accountTable validateStep validateOrderConstraints checkBalances
  repeat' first | with_reducible exact hd _ _ | nd1 | with_reducible refine nd_bind ?_ (fun _ _ => ?_) | split | dsimp only

theorem nd_solveEconomicViable {cfg : Config} {ext : Ext} (hs : ∀ q, ND (ext.sqrt q)) (hd : ∀ q n, ND (ext.fdiv q n)) {pair : Token × Token}
    {accounts : Accounts} {b s f : List Order} {fee : Fee} {xrate : Option ℚ} :
    ND (solveEconomicViable cfg ext pair accounts b s f fee xrate) := by
  unfold solveEconomicViable
  exact nd_bind (nd_economicLoop hs (le_refl _)) (fun _ _ => nd_bind (nd_validate hd) (fun _ _ => nd_pure _))

/-- C34. The token-pair solver ends on every input: no `while` loop of it (or of anything it calls) runs for ever. -/
theorem C34_terminates {cfg : Config} {ext : Ext} (hs : ∀ q, ext.sqrt q ≠ .error .diverge) (hd : ∀ q n, ext.fdiv q n ≠ .error .diverge)
    {pair : Token × Token} {accounts : Accounts} {b s f : List Order} {fee : Fee} {xrate : Option ℚ} :
    solveEconomicViable cfg ext pair accounts b s f fee xrate ≠ .error .diverge := nd_solveEconomicViable hs hd

theorem nd_updateAccounts (a : Accounts) (os : List Order) : ND (updateAccounts a os) := by
  unfold updateAccounts updateAccountStep; nd
macro_rules | `(tactic| nd1) => `(tactic| with_reducible exact nd_updateAccounts _ _)
theorem nd_intUtility (o : Order) (x p : ℚ) (fee : Fee) : ND (intUtility o x p fee) := by unfold intUtility; nd
macro_rules | `(tactic| nd1) => `(tactic| with_reducible exact nd_intUtility _ _ _ _)
theorem nd_intMaxUtility (o : Order) (x p : ℚ) (fee : Fee) (b : ℚ) : ND (intMaxUtility o x p fee b) := by
  unfold intMaxUtility intDisregardedUtility; nd
macro_rules | `(tactic| nd1) => `(tactic| with_reducible exact nd_intMaxUtility _ _ _ _ _)
theorem nd_balanceUpdated (a : Accounts) (o : Order) : ND (balanceUpdated a o) := by unfold balanceUpdated; nd
macro_rules | `(tactic| nd1) => `(tactic| with_reducible exact nd_balanceUpdated _ _)
theorem nd_computeObjectiveCore (p : Prices) (a : Accounts) (os : List Order) (fee : Fee) : ND (computeObjectiveCore p a os fee) := by
  unfold computeObjectiveCore objectiveTerms; nd
macro_rules | `(tactic| nd1) => `(tactic| with_reducible exact nd_computeObjectiveCore _ _ _ _)
theorem nd_metrics (p : Prices) (a : Accounts) (os : List Order) (fee : Fee) : ND (computeSolutionMetrics p a os fee) := by
  unfold computeSolutionMetrics metricsStep; nd
macro_rules | `(tactic| nd1) => `(tactic| with_reducible exact nd_metrics _ _ _ _)
theorem nd_dumpSolution (i : Instance) (sol : Solution) : ND (dumpSolution i sol) := by unfold dumpSolution dumpOrder; nd
macro_rules | `(tactic| nd1) => `(tactic| with_reducible exact nd_dumpSolution _ _)
theorem nd_loadOrdersFrom (cfg : Config) (i : ℕ) (ds : List OrderDict) : ND (loadOrdersFrom cfg i ds) := by
  induction ds generalizing i with
  | nil => exact nd_ok _
  | cons d ds ih =>
    unfold loadOrdersFrom Order.loadFromDict
    repeat' first | with_reducible exact ih _ | nd1 | with_reducible refine nd_bind ?_ (fun _ _ => ?_) | split | dsimp only
macro_rules | `(tactic| nd1) => `(tactic| with_reducible exact nd_loadOrdersFrom _ _ _)
theorem nd_restrict (os : List Order) (a : Accounts) : ND (restrictOrderSellAmounts os a) := by
  unfold restrictOrderSellAmounts restrictStep; nd
macro_rules | `(tactic| nd1) => `(tactic| with_reducible exact nd_restrict _ _)

theorem nd_bestLoop {cfg : Config} {ext : Ext} (hs : ∀ q, ND (ext.sqrt q)) (hd : ∀ q n, ND (ext.fdiv q n)) {accounts : Accounts} {fee : Fee}
    {visits : List ((Token × Token) × Bool)} {st : BestState} : ND (bestLoop cfg ext accounts fee visits st) := by
  induction visits generalizing st with
  | nil => exact nd_ok _
  | cons v visits ih =>
    obtain ⟨pair, stop⟩ := v
    unfold bestLoop matchAndEvaluate matchTokenPair
    repeat' first | with_reducible exact nd_solveEconomicViable hs hd | with_reducible exact ih | nd1 |
      with_reducible refine nd_bind ?_ (fun _ _ => ?_) | split | dsimp only

/-- C34. The whole token-pair program (load, solve, dump) ends on every instance. -/
theorem C34_token_pair_main {cfg : Config} {ext : Ext} (hs : ∀ q, ext.sqrt q ≠ .error .diverge) (hd : ∀ q n, ext.fdiv q n ≠ .error .diverge)
    {inst : Instance} {pair : Token × Token} {xrate : Option ℚ} : tokenPairMain cfg ext inst pair xrate ≠ .error .diverge := by
  have hs' : ∀ q, ND (ext.sqrt q) := hs
  have hd' : ∀ q n, ND (ext.fdiv q n) := hd
  have : ND (tokenPairMain cfg ext inst pair xrate) := by
    unfold tokenPairMain loadPairProblem
    repeat' first | with_reducible exact nd_solveEconomicViable hs' hd' | nd1 |
      with_reducible refine nd_bind ?_ (fun _ _ => ?_) | split | dsimp only
  exact this

/-- C34. So does the program searching over all token pairs, for every shuffle and every outcome of the time-limit tests. -/
theorem C34_best_pair_main {cfg : Config} {ext : Ext} (hs : ∀ q, ext.sqrt q ≠ .error .diverge) (hd : ∀ q n, ext.fdiv q n ≠ .error .diverge)
    {inst : Instance} {shuffle : List (Token × Token) → List ((Token × Token) × Bool)} :
    bestTokenPairMain cfg ext inst shuffle ≠ .error .diverge := by
  have hs' : ∀ q, ND (ext.sqrt q) := hs
  have hd' : ∀ q n, ND (ext.fdiv q n) := hd
  have : ND (bestTokenPairMain cfg ext inst shuffle) := by
    unfold bestTokenPairMain loadProblem bestTokenPair
    repeat' first | with_reducible exact nd_bestLoop hs' hd' | nd1 |
      with_reducible refine nd_bind ?_ (fun _ _ => ?_) | split | dsimp only
  exact this

/-- The example's external functions meet the hypotheses, and the example program returns a value (`ExInst.run`). -/
example : (∀ q, ExInst.ext.sqrt q ≠ .error .diverge) ∧ ∀ q n, ExInst.ext.fdiv q n ≠ .error .diverge := by
  refine ⟨fun q => ?_, fun q n => ?_⟩
  · show ExInst.sqrt q ≠ _
    unfold ExInst.sqrt; split <;> simp
  · show (Except.ok (q / n) : Py ℚ) ≠ _
    simp

/-- The example instance with a further, small order "3". -/
def ExInst.inst2 : Instance :=
  { ExInst.inst with orders := ExInst.inst.orders ++ [{ accountID := "A", buyToken := "B", sellToken := "S", buyAmount := 10 ^ 15, sellAmount := 10 ^ 16 }] }

/-- The loop can go through several rounds: the first round matches four orders, too many for the minimum average fee; the small one is
removed and the second round returns the other three. -/
example : (∃ r, (do
      let (_, bk, fee) ← loadPairProblem Config.default ExInst.inst2 ("B", "S")
      solveTokenPairAndFee { Config.default with minAvgFee := 12 * 10 ^ 15 } ExInst.ext ("B", "S") bk.b bk.s bk.f fee none) = .ok r ∧
      (r.sol.orders.filter (fun o => decide (0 < o.buy))).map (·.id) = ["3", "0", "1", "2"]) ∧
    ∃ r, (do
      let (_, bk, fee) ← loadPairProblem Config.default ExInst.inst2 ("B", "S")
      economicLoop { Config.default with minAvgFee := 12 * 10 ^ 15 } ExInst.ext ("B", "S") fee none (bk.b.length + bk.s.length + 1) bk [] .trivial)
        = .ok r ∧ r.1.orders.map (·.id) = ["0", "1", "2"] :=
  ⟨exists_of_pyCheck (p := fun r : MatchResult => (r.sol.orders.filter (fun o => decide (0 < o.buy))).map (·.id) = ["3", "0", "1", "2"]) (by decide +kernel),
    exists_of_pyCheck (p := fun r : Solution × List Order => r.1.orders.map (·.id) = ["0", "1", "2"]) (by decide +kernel)⟩

end Dex
