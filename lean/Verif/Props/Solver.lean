import Verif.Proof.Economic
import Verif.Props.Validation
import Verif.Props.Load
import Verif.Props.ExInstance
import Mathlib.Algebra.Order.BigOperators.Group.List

/-! # Properties C31, C32, C34, C35: the token-pair solver -/

namespace Dex

open Spec

/-! ## C31 -/

theorem aggregateAndRound_keys {cfg : Config} {ext : Ext} {pair : Token × Token} {bk : Books} {x p : ℚ} {fee : Fee} {sol : Solution}
    {os : List Order} (h : aggregateAndRound cfg ext pair bk x p fee = .ok (sol, os)) : (sol.prices.map (·.1)).Nodup := by
  unfold aggregateAndRound aggregateOrdersPrices at h
  simp only [bind_eq_ok] at h
  obtain ⟨⟨orders, prices⟩, ⟨sp, _, e⟩, ⟨ok, os'⟩, _, h⟩ := h
  cases e
  cases ok
  · simp only [Bool.false_eq_true, if_false] at h; cases h; simp [Solution.trivial]
  · simp only [if_true] at h; cases h; exact agg_keys_nodup _ _ _ _ _ _

theorem solveOriented_keys {cfg : Config} {ext : Ext} {pair : Token × Token} {b s f : List Order} {fee : Fee} {xrate : Option ℚ}
    {r : MatchResult} (hr : solveOriented cfg ext pair b s f fee xrate = .ok r) : (r.sol.prices.map (·.1)).Nodup := by
  have htriv : (Solution.trivial.prices.map (·.1)).Nodup := by simp [Solution.trivial]
  unfold solveOriented at hr
  rw [bind_eq_ok] at hr
  obtain ⟨⟨xo, b1, s1⟩, _, hr⟩ := hr
  dsimp only at hr
  split at hr
  · cases hr; exact htriv
  cases xo with
  | none => cases hr
  | some x =>
    dsimp only at hr
    split at hr
    · rw [bind_eq_ok] at hr
      obtain ⟨⟨sol, os⟩, h2, hr⟩ := hr
      cases hr
      exact aggregateAndRound_keys h2
    split at hr
    · cases hr; exact htriv
    rw [bind_eq_ok] at hr
    obtain ⟨imb, _, hr⟩ := hr
    rw [bind_eq_ok] at hr
    obtain ⟨⟨mn, mx⟩, _, hr⟩ := hr
    dsimp only at hr
    split at hr
    · cases hr; exact htriv
    rw [bind_eq_ok] at hr
    obtain ⟨st, _, hr⟩ := hr
    cases hbest : st.best with
    | none => rw [hbest] at hr; cases hr; exact htriv
    | some best =>
      rw [hbest] at hr
      dsimp only at hr
      cases hbp : best.bPrice with
      | none => rw [hbp] at hr; cases hr; exact htriv
      | some p =>
        rw [hbp] at hr
        dsimp only at hr
        rw [bind_eq_ok] at hr
        obtain ⟨⟨sol, os⟩, h4, hr⟩ := hr
        cases hr
        exact aggregateAndRound_keys h4

theorem solveTokenPairAndFee_keys {cfg : Config} {ext : Ext} {pair : Token × Token} {b s f : List Order} {fee : Fee} {xrate : Option ℚ}
    {r : MatchResult} (hr : solveTokenPairAndFee cfg ext pair b s f fee xrate = .ok r) : (r.sol.prices.map (·.1)).Nodup := by
  unfold solveTokenPairAndFee at hr
  rw [bind_eq_ok] at hr
  obtain ⟨⟨b1, s1⟩, _, hr⟩ := hr
  dsimp only at hr
  split at hr
  · cases hr; simp [Solution.trivial]
  split at hr <;>
  · rw [bind_eq_ok] at hr
    obtain ⟨r1, h2, hr⟩ := hr
    cases hr
    exact (solveOriented_keys h2 :)

theorem economicLoop_keys {cfg : Config} {ext : Ext} {pair : Token × Token} {fee : Fee} {xrate : Option ℚ}
    {fuel : ℕ} {bk : Books} {gone : List Order} {cur sol : Solution} {objs : List Order} (hcur : (cur.prices.map (·.1)).Nodup)
    (hr : economicLoop cfg ext pair fee xrate fuel bk gone cur = .ok (sol, objs)) : (sol.prices.map (·.1)).Nodup := by
  induction fuel generalizing bk gone cur with
  | zero => cases hr
  | succ fuel ih =>
    unfold economicLoop at hr
    split at hr
    · rw [bind_eq_ok] at hr
      obtain ⟨r, h1, hr⟩ := hr
      have hk := solveTokenPairAndFee_keys h1
      dsimp only at hr
      rw [bind_eq_ok] at hr
      obtain ⟨v, _, hr⟩ := hr
      split at hr
      · cases hr; exact hk
      · rw [bind_eq_ok] at hr
        obtain ⟨sub, _, hr⟩ := hr
        split at hr
        · cases hr; simp [Solution.trivial]
        · simp only [bind_eq_ok] at hr
          obtain ⟨bm, _, sm, _, pb, _, ps, _, hr⟩ := hr
          split at hr <;> exact ih hk hr
    · cases hr; exact hcur

/-- C31. Whatever the token-pair solver returns, for any orders, accounts, thresholds, rate and any behaviour of the external functions,
is trivial or satisfies the auction rules. -/
theorem C31_returned_is_feasible {cfg : Config} {ext : Ext} {pair : Token × Token} {accounts : Accounts} {b s f : List Order} {fee : Fee}
    {xrate : Option ℚ} {sol : Solution} {objs : List Order} (hm : 0 ≤ cfg.minTradable) (hp : cfg.feeTokenPrice ≠ 0)
    (h : solveEconomicViable cfg ext pair accounts b s f fee xrate = .ok (sol, objs)) :
    (sol.prices.map (·.1)).Nodup ∧ (∀ p ∈ sol.prices, IsInt p.2) ∧
    (nrExecuted sol.orders = 0 ∨ ValInput cfg accounts sol.orders sol.prices fee ∧
      Feasible cfg ext.fdiv accounts sol.orders sol.prices fee) := by
  unfold solveEconomicViable at h
  simp only [bind_eq_ok] at h
  obtain ⟨⟨sol', objs'⟩, h1, ⟨⟩, h2, e⟩ := h
  cases e
  have hk := economicLoop_keys (by simp [Solution.trivial]) h1
  exact ⟨hk, C30_passed_is_feasible hk hm hp h2⟩

theorem matchTokenPair_keys_feasible {cfg : Config} {ext : Ext} {pair : Token × Token} {accounts : Accounts} {orders orders' : List Order} {fee : Fee}
    {sol : Solution} (hm : 0 ≤ cfg.minTradable) (hp : cfg.feeTokenPrice ≠ 0)
    (h : matchTokenPair cfg ext pair accounts orders fee = .ok (sol, orders')) :
    (sol.prices.map (·.1)).Nodup ∧ (∀ p ∈ sol.prices, IsInt p.2) ∧
    (nrExecuted sol.orders = 0 ∨ ValInput cfg accounts sol.orders sol.prices fee ∧
      Feasible cfg ext.fdiv accounts sol.orders sol.prices fee) := by
  have htriv : (Solution.trivial.prices.map (·.1)).Nodup ∧ (∀ p ∈ Solution.trivial.prices, IsInt p.2) ∧
      (nrExecuted Solution.trivial.orders = 0 ∨ ValInput cfg accounts Solution.trivial.orders Solution.trivial.prices fee ∧
      Feasible cfg ext.fdiv accounts Solution.trivial.orders Solution.trivial.prices fee) := by
    refine ⟨by simp [Solution.trivial], by simp [Solution.trivial], .inl rfl⟩
  unfold matchTokenPair at h
  dsimp only at h
  split at h
  · cases h; exact htriv
  split at h
  · cases h; exact htriv
  generalize (if pair.1 ≠ fee.token then ordersBuyingSelling orders pair.1 fee.token else []) = f at h
  split at h
  · cases h; exact htriv
  rw [bind_eq_ok] at h
  obtain ⟨⟨sol', objs⟩, h1, h⟩ := h
  cases h
  exact C31_returned_is_feasible hm hp h1

/-- C31. The same for the solver that searches all pairs, for every visiting order and every time-out. -/
theorem C31_best_pair_feasible {cfg : Config} {ext : Ext} {accounts : Accounts} {orders : List Order} {fee : Fee}
    {visits : List ((Token × Token) × Bool)} {st : BestState} (hm : 0 ≤ cfg.minTradable) (hp : cfg.feeTokenPrice ≠ 0)
    (h : bestTokenPair cfg ext accounts orders fee visits = .ok st) :
    (st.sol.prices.map (·.1)).Nodup ∧ (∀ p ∈ st.sol.prices, IsInt p.2) ∧
    (nrExecuted st.sol.orders = 0 ∨ ValInput cfg accounts st.sol.orders st.sol.prices fee ∧
      Feasible cfg ext.fdiv accounts st.sol.orders st.sol.prices fee) := by
  unfold bestTokenPair at h
  have key : ∀ {visits : List ((Token × Token) × Bool)} {st0 : BestState}, bestLoop cfg ext accounts fee visits st0 = .ok st →
      ((st0.sol.prices.map (·.1)).Nodup ∧ (∀ p ∈ st0.sol.prices, IsInt p.2) ∧
        (nrExecuted st0.sol.orders = 0 ∨ ValInput cfg accounts st0.sol.orders st0.sol.prices fee ∧
        Feasible cfg ext.fdiv accounts st0.sol.orders st0.sol.prices fee)) →
      ((st.sol.prices.map (·.1)).Nodup ∧ (∀ p ∈ st.sol.prices, IsInt p.2) ∧
        (nrExecuted st.sol.orders = 0 ∨ ValInput cfg accounts st.sol.orders st.sol.prices fee ∧
        Feasible cfg ext.fdiv accounts st.sol.orders st.sol.prices fee)) := by
    intro visits
    induction visits with
    | nil => intro st0 h h0; cases h; exact h0
    | cons v visits ih =>
      intro st0 h h0
      obtain ⟨pair, stop⟩ := v
      unfold bestLoop at h
      rw [bind_eq_ok] at h
      obtain ⟨⟨obj, sol, orders'⟩, h1, h⟩ := h
      unfold matchAndEvaluate at h1
      simp only [bind_eq_ok] at h1
      obtain ⟨⟨sol', orders''⟩, h2, acc, _, obj', _, e⟩ := h1
      cases e
      have hs := matchTokenPair_keys_feasible hm hp h2
      dsimp only at h
      split at h
      · cases h
        split
        · exact hs
        · exact h0
      · refine ih h ?_
        split
        · exact hs
        · exact h0
  exact key h ⟨by simp [Solution.trivial], by simp [Solution.trivial], .inl rfl⟩

/-- The hypotheses are met by the example instance, on which the solver returns executed orders. -/
example : ∃ r, (do
      let (accounts, bk, fee) ← loadPairProblem Config.default ExInst.inst ("B", "S")
      solveEconomicViable Config.default ExInst.ext ("B", "S") accounts bk.b bk.s bk.f fee none) = .ok r ∧ nrExecuted r.1.orders = 3 :=
  exists_of_pyCheck (p := fun r : Solution × List Order => nrExecuted r.1.orders = 3) (by decide +kernel)

example : ∃ st, (do
      let (accounts, orders, fee) ← loadProblem Config.default ExInst.inst
      bestTokenPair Config.default ExInst.ext accounts orders fee [(("S", "B"), false), (("B", "S"), true), (("F", "S"), false)]) = .ok st ∧
      nrExecuted st.sol.orders = 3 :=
  exists_of_pyCheck (p := fun st : BestState => nrExecuted st.sol.orders = 3) (by decide +kernel)

/-! ## C35 -/

/-- C35. If exactly one of the two order lists is empty, the token-pair solver raises `ValueError`, whatever the other list holds. -/
theorem C35_one_sided_raises {cfg : Config} {ext : Ext} {pair : Token × Token} {accounts : Accounts} {b s f : List Order} {fee : Fee}
    {xrate : Option ℚ} (h : (b = [] ∧ s ≠ []) ∨ (b ≠ [] ∧ s = [])) :
    solveEconomicViable cfg ext pair accounts b s f fee xrate = .error .valueError := by
  have hp : pruneUnrealizable b s fee = .error .valueError := C14_empty_side (by rcases h with ⟨h, _⟩ | ⟨_, h⟩ <;> simp [h])
  have hl : b.length > 0 ∨ s.length > 0 := by
    rcases h with ⟨_, h⟩ | ⟨h, _⟩
    · exact .inr (List.length_pos_iff.2 h)
    · exact .inl (List.length_pos_iff.2 h)
  unfold solveEconomicViable economicLoop
  rw [if_pos hl]
  unfold solveTokenPairAndFee
  rw [hp]
  rfl

/-- C35. If both lists are empty the trivial solution is returned. -/
theorem C35_both_empty {cfg : Config} {ext : Ext} {pair : Token × Token} {accounts : Accounts} {f : List Order} {fee : Fee}
    {xrate : Option ℚ} : solveEconomicViable cfg ext pair accounts [] [] f fee xrate = .ok (.trivial, f) := by
  unfold solveEconomicViable economicLoop
  rw [if_neg (by simp)]
  simp [validate, Solution.trivial, countNrExec, pyAssert]

example : solveEconomicViable Config.default ExInst.ext ("B", "S") [] [Order.mk' "B" "S" 20000 2 (some "A") "0"] [] []
    ExInst.inst.fee none = .error .valueError := C35_one_sided_raises (.inr ⟨by simp, rfl⟩)

end Dex
