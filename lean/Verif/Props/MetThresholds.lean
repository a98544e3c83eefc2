import Verif.Props.Cli
import Verif.Props.Errors

/-! C119: thresholds that are met anyway have no influence, and no threshold avoids an exception. -/

namespace Dex

namespace Spec

/-- The same configuration without fee thresholds. -/
def noFloor (cfg : Config) : Config := { cfg with minAvgFee := 0, minAbsFee := 0 }

/-- The solution executes no order, or it meets the thresholds: by the volumes of its orders, and with the average of the fee it collects. -/
def MeetsAll (cfg : Config) (fdiv : ℚ → ℕ → Py ℚ) (fee : Fee) (sol : Solution) : Prop :=
  nrExecuted sol.orders = 0 ∨ (MeetsThresholds cfg sol.prices fee sol.orders ∧
    ∃ q, fdiv (sold sol.orders fee.token - bought sol.orders fee.token) (nrExecuted sol.orders) = .ok q ∧ cfg.minAvgFee ≤ q)

end Spec

open Spec

set_option smartUnfolding false in
theorem solve_noFloor (cfg : Config) (ext : Ext) (pair : Token × Token) (b s f : List Order) (fee : Fee) (r : Option ℚ) :
    solveTokenPairAndFee (noFloor cfg) ext pair b s f fee r = solveTokenPairAndFee cfg ext pair b s f fee r := rfl

set_option smartUnfolding false in
theorem loadPairProblem_noFloor (cfg : Config) (inst : Instance) (pair : Token × Token) :
    loadPairProblem (noFloor cfg) inst pair = loadPairProblem cfg inst pair := rfl

theorem validate_of_noFloor {cfg : Config} {fdiv : ℚ → ℕ → Py ℚ} {accounts : Accounts} {fee : Fee} {sol : Solution}
    (hi : ∀ p ∈ sol.prices, IsInt p.2)
    (hf : nrExecuted sol.orders = 0 ∨ ValInput (noFloor cfg) accounts sol.orders sol.prices fee ∧
      Feasible (noFloor cfg) fdiv accounts sol.orders sol.prices fee)
    (ht : MeetsAll cfg fdiv fee sol) : validate cfg fdiv accounts sol.orders sol.prices fee = .ok () := by
  by_cases h0 : nrExecuted sol.orders = 0
  · unfold validate
    rw [nrExecuted_eq] at h0
    rw [bind_eq_ok]
    simp only [pyAssert_eq_ok, exists_and_left, exists_const]
    refine ⟨hi, ?_⟩
    simp [h0]
  obtain ⟨v, g⟩ := hf.resolve_left h0
  obtain ⟨m, m2⟩ := ht.resolve_left h0
  have m1 := m.1
  have hv : ValInput cfg accounts sol.orders sol.prices fee := ⟨v.keys, v.priced, v.feePriced, v.known, v.minTradable, v.feePrice⟩
  have hc : ∀ o ∈ sol.orders, OrderConstraints cfg o := fun o ho => by
    obtain ⟨c1, c2, c3, c4⟩ := g.constraints o ho
    exact ⟨c1, c2, c3, c4⟩
  have ha : ∀ o ∈ sol.orders, o.sellToken ≠ fee.token → 0 < o.buy → ∀ p, PriceOf sol.prices o.buyToken p →
      cfg.minAbsFee ≤ o.buy * p * fee.value / cfg.feeTokenPrice := by
    intro o ho hs hb p hp
    have e := (m1 o ho hb).resolve_left hs
    unfold feeAt volumeAt at e
    rwa [priceAt_of hp] at e
  rw [C30_validate_iff hv]
  exact ⟨hi, .inr ⟨g.nrOrders, hc, g.balanced, g.feeToken, m2, ha, g.accounts⟩⟩

/-- C119. For any orders, accounts and rate: if the solution found without thresholds meets the given thresholds, the solver returns exactly this solution
with the thresholds too. -/
theorem C119_met_thresholds {cfg : Config} {ext : Ext} {pair : Token × Token} {accounts : Accounts} {b s f : List Order} {fee : Fee}
    {xrate : Option ℚ} {sol : Solution} {objs : List Order} (hm : 0 ≤ cfg.minTradable) (hp : cfg.feeTokenPrice ≠ 0)
    (h : solveEconomicViable (noFloor cfg) ext pair accounts b s f fee xrate = .ok (sol, objs)) (ht : MeetsAll cfg ext.fdiv fee sol) :
    solveEconomicViable cfg ext pair accounts b s f fee xrate = .ok (sol, objs) := by
  obtain ⟨_, hi, hf⟩ := C31_returned_is_feasible (cfg := noFloor cfg) hm hp h
  have hv := validate_of_noFloor hi hf ht
  unfold solveEconomicViable at h ⊢
  rw [bind_eq_ok] at h
  obtain ⟨⟨sol', objs'⟩, h1, h⟩ := h
  dsimp only at h
  rw [bind_eq_ok] at h
  obtain ⟨_, _, e⟩ := h
  cases e
  have key : economicLoop cfg ext pair fee xrate (b.length + s.length + 1) { b, s, f } [] .trivial = .ok (sol, objs) := by
    unfold economicLoop at h1 ⊢
    split at h1
    · rename_i hb
      rw [if_pos hb]
      rw [solve_noFloor, bind_eq_ok] at h1
      obtain ⟨r, hr, h1⟩ := h1
      rw [hr, ok_bind]
      dsimp only at h1 ⊢
      have z : isEconomicViable (noFloor cfg) r.sol.orders r.sol.prices fee = .ok true := by
        unfold isEconomicViable
        split
        · rfl
        · rw [if_pos ⟨rfl, rfl⟩]; rfl
      rw [z, ok_bind, if_pos (.inl rfl)] at h1
      cases h1
      have hv : isEconomicViable cfg r.sol.orders r.sol.prices fee = .ok true := by
        by_cases h0 : nrExecuted r.sol.orders = 0
        · unfold isEconomicViable
          rw [nrExecuted_eq] at h0
          rw [if_pos h0]; rfl
        · obtain ⟨v, _⟩ := hf.resolve_left h0
          obtain ⟨m, _⟩ := ht.resolve_left h0
          have hbp : BuyPriced r.sol.prices r.sol.orders := by
            intro o ho
            have := v.priced o ho
            rw [priced_iff] at this
            exact this.1
          rw [viable_iff hp hbp, decide_eq_true (.inr (.inr m))]
      rw [hv, ok_bind, if_pos (.inl rfl)]
      rfl
    · rename_i hb
      rw [if_neg hb]
      exact h1
  rw [key, ok_bind]
  dsimp only
  rw [hv]
  rfl

/-- C119. So the same file is written. -/
theorem C119_same_file {cfg : Config} {ext : Ext} {inst : Instance} {pair : Token × Token} {accounts : Accounts} {bk : Books} {fee : Fee}
    {xrate : Option ℚ} {sol : Solution} {objs : List Order} (hm : 0 ≤ cfg.minTradable) (hp : cfg.feeTokenPrice ≠ 0)
    (hl : loadPairProblem cfg inst pair = .ok (accounts, bk, fee))
    (h : solveEconomicViable (noFloor cfg) ext pair accounts bk.b bk.s bk.f fee xrate = .ok (sol, objs)) (ht : MeetsAll cfg ext.fdiv fee sol) :
    tokenPairMain cfg ext inst pair xrate = tokenPairMain (noFloor cfg) ext inst pair xrate := by
  unfold tokenPairMain
  rw [loadPairProblem_noFloor, hl, ok_bind, ok_bind]
  dsimp only
  rw [h, C119_met_thresholds hm hp h ht]

/-- C119. No threshold avoids an exception: an instance on which the solver fails without thresholds it fails on with any, in the same way. -/
theorem C119_same_exception {cfg : Config} {ext : Ext} {inst : Instance} {pair : Token × Token} {accounts : Accounts} {bk : Books} {fee : Fee}
    {xrate : Option ℚ} {e : PyErr} (hb : NonnegBalances inst.accounts) (hi : IntBalances inst.accounts) (hs : ∀ d ∈ inst.orders, 0 ≤ d.sellAmount)
    (hl : loadPairProblem cfg inst pair = .ok (accounts, bk, fee)) (hset : SolverSetting (noFloor cfg) ext pair fee xrate)
    (h : solveEconomicViable (noFloor cfg) ext pair accounts bk.b bk.s bk.f fee xrate = .error e) :
    solveEconomicViable cfg ext pair accounts bk.b bk.s bk.f fee xrate = .error e := by
  rw [C32_token_pair hb hi hs (by rw [loadPairProblem_noFloor]; exact hl) hset] at h
  have key : economicLoop cfg ext pair fee xrate (bk.b.length + bk.s.length + 1) bk [] .trivial = .error e := by
    unfold economicLoop at h ⊢
    split at h
    · rename_i hb
      rw [if_pos hb]
      rw [solve_noFloor] at h
      cases hr : solveTokenPairAndFee cfg ext pair bk.b bk.s bk.f fee xrate with
      | error e' =>
        rw [hr, error_bind] at h
        rw [error_bind, h]
      | ok r =>
        rw [hr, ok_bind] at h
        dsimp only at h
        have z : isEconomicViable (noFloor cfg) r.sol.orders r.sol.prices fee = .ok true := by
          unfold isEconomicViable
          split
          · rfl
          · rw [if_pos ⟨rfl, rfl⟩]; rfl
        rw [z, ok_bind, if_pos (.inl rfl)] at h
        cases h
    · cases h
  unfold solveEconomicViable
  rw [key, error_bind]

/-- C119. The same for the whole command: it ends in the same exception. -/
theorem C119_same_exit {cfg : Config} {ext : Ext} {inst : Instance} {pair : Token × Token} {xrate : Option ℚ} {e : PyErr} (hi : GoodInstance inst)
    (hset : SolverSetting (noFloor cfg) ext pair inst.fee xrate) (h : tokenPairMain (noFloor cfg) ext inst pair xrate = .error e) :
    tokenPairMain cfg ext inst pair xrate = .error e := by
  unfold tokenPairMain at h ⊢
  rw [loadPairProblem_noFloor] at h
  cases hl : loadPairProblem cfg inst pair with
  | error e' =>
    rw [hl, error_bind] at h
    rw [error_bind, h]
  | ok l =>
    obtain ⟨accounts, bk, fee⟩ := l
    have hfee : fee = inst.fee := by
      unfold loadPairProblem at hl
      simp only [bind_eq_ok] at hl
      obtain ⟨_, _, _, _, _, _, e⟩ := hl
      cases e
      rfl
    subst hfee
    rw [hl, ok_bind] at h
    rw [ok_bind]
    dsimp only at h ⊢
    cases hr : solveEconomicViable (noFloor cfg) ext pair accounts bk.b bk.s bk.f inst.fee xrate with
    | error e' =>
      rw [hr, error_bind] at h
      cases h
      rw [C119_same_exception hi.balances hi.ints hi.sell hl hset hr, error_bind]
    | ok r =>
      obtain ⟨sol, objs⟩ := r
      obtain ⟨_, pool, hp, hs, hft⟩ := tokenPair_parts hset.cfgOk hi hset.tokens hset.branch hset.xratePos
        (by rw [loadPairProblem_noFloor]; exact hl) hr
      obtain ⟨d, hd, _⟩ := dump_ok hset.cfgOk hi hp hs hft
      rw [hr, ok_bind] at h
      dsimp only at h
      rw [hd] at h
      cases h

namespace ExMet

/-- Thresholds that the solution of the example instance meets, -/
def low : Config := { Config.default with minAvgFee := 6 * 10 ^ 15, minAbsFee := 10 ^ 15 }

/-- and a threshold that it does not meet. -/
def high : Config := { Config.default with minAvgFee := 6 * 10 ^ 16, minAbsFee := 10 ^ 15 }

end ExMet

/-- On the example instance three orders are executed with the low thresholds, as without any; with the high one none is. -/
example : ∃ d d', tokenPairMain ExMet.low ExInst.ext ExInst.inst ("B", "S") none = .ok d ∧
    tokenPairMain (noFloor ExMet.low) ExInst.ext ExInst.inst ("B", "S") none = .ok d ∧ d.orders.length = 3 ∧
    tokenPairMain ExMet.high ExInst.ext ExInst.inst ("B", "S") none = .ok d' ∧ d'.orders.length = 0 := by
  obtain ⟨⟨⟨acc, bk, fee⟩, sol, objs⟩, h1, h2, h3⟩ := exists_of_pyCheck (x := (do
      let l ← loadPairProblem ExMet.low ExInst.inst ("B", "S")
      let r ← solveEconomicViable (noFloor ExMet.low) ExInst.ext ("B", "S") l.1 l.2.1.b l.2.1.s l.2.1.f l.2.2 none
      pure (l, r) : Py ((Accounts × Books × Fee) × (Solution × List Order))))
    (p := fun r => MeetsThresholds ExMet.low r.2.1.prices r.1.2.2 r.2.1.orders ∧
      ExMet.low.minAvgFee ≤ (sold r.2.1.orders r.1.2.2.token - bought r.2.1.orders r.1.2.2.token) / nrExecuted r.2.1.orders) (by decide +kernel)
  rw [bind_eq_ok] at h1
  obtain ⟨l, hl, h1⟩ := h1
  rw [bind_eq_ok] at h1
  obtain ⟨r, hr, h1⟩ := h1
  cases h1
  have key := C119_same_file (cfg := ExMet.low) (ext := ExInst.ext) (by decide) (by decide) hl hr (.inr ⟨h2, _, rfl, h3⟩)
  obtain ⟨d, h4, h5⟩ := exists_of_pyCheck (x := tokenPairMain (noFloor ExMet.low) ExInst.ext ExInst.inst ("B", "S") none)
    (p := fun d => d.orders.length = 3) (by decide +kernel)
  obtain ⟨d', h6, h7⟩ := exists_of_pyCheck (x := tokenPairMain ExMet.high ExInst.ext ExInst.inst ("B", "S") none)
    (p := fun d => d.orders.length = 0) (by decide +kernel)
  exact ⟨d, d', by rw [key, h4], h4, h5, h6, h7⟩

/-- The instance of C18 on which the search fails: it fails with any thresholds. -/
example (x y : ℚ) : tokenPairMain { Config.default with minAvgFee := x, minAbsFee := y } ExInst.ext ExPlateau.inst ("F", "S") none =
    .error (.assertion "xrate.py:440") := by
  have hn : noFloor { Config.default with minAvgFee := x, minAbsFee := y } = Config.default := rfl
  refine C119_same_exit (by constructor <;> decide +kernel) ?_ (by rw [hn]; exact C18_solver_aborts _)
  rw [hn]
  exact ⟨by constructor <;> decide, by decide +kernel, by decide +kernel, by decide, ExInst.branch_max, by simp, ExInst.setting.noThresholds⟩

end Dex
