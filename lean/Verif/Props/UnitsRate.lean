import Verif.Props.Units
import Verif.Props.Local

/-! # C96: the search for a rate does not depend on the units of the amounts -/

namespace Dex

open Spec

/-- C96. Computing buy amounts commutes with a change of units, for every input: also the exceptions are the same. -/
theorem C96_amounts {cfg cfg' : Config} {k x : ℚ} {fee : Fee} {maxNr : ℤ} {b s : List Order} (hk : 0 < k) (hc : ScaledCfg k cfg cfg') :
    computeBuyAmounts cfg' x (b.map (scaleOrder k)) (s.map (scaleOrder k)) fee maxNr =
      (computeBuyAmounts cfg x b s fee maxNr).map (fun r => (r.1.map (scaleOrder k), r.2.map (scaleOrder k))) := by
  have h := computeBuyAmounts_sca (x := x) (fee := fee) (maxNr := maxNr) hk hc (scaL_map k b) (scaL_map k s)
  revert h
  cases computeBuyAmounts cfg x b s fee maxNr with
  | error e => cases computeBuyAmounts cfg' x (b.map (scaleOrder k)) (s.map (scaleOrder k)) fee maxNr with
    | error e' => intro h; exact congrArg Except.error (Eq.symm h)
    | ok r' => intro h; exact h.elim
  | ok r => cases computeBuyAmounts cfg' x (b.map (scaleOrder k)) (s.map (scaleOrder k)) fee maxNr with
    | error e' => intro h; exact h.elim
    | ok r' => intro h; exact congrArg Except.ok (Prod.ext (scaL_iff.1 h.1) (scaL_iff.1 h.2))

/-- C96. The search finds the same rate, and reports the objective in the other units; it raises the same exception, if any.
This holds for every input and every square root function. -/
theorem C96_rate {cfg cfg' : Config} {k : ℚ} {sqrt : ℚ → Py ℚ} {fee : Fee} {b s : List Order} (hk : 0 < k) (hc : ScaledCfg k cfg cfg') :
    findBestXrate cfg' sqrt (b.map (scaleOrder k)) (s.map (scaleOrder k)) fee =
      (findBestXrate cfg sqrt b s fee).map (Option.map fun r => (r.1, k * r.2)) := by
  have h := findBestXrate_sca (sqrt := sqrt) (fee := fee) hk hc (scaL_map k b) (scaL_map k s)
  revert h
  cases findBestXrate cfg sqrt b s fee with
  | error e => cases findBestXrate cfg' sqrt (b.map (scaleOrder k)) (s.map (scaleOrder k)) fee with
    | error e' => intro h; exact congrArg Except.error (Eq.symm h)
    | ok r' => intro h; exact h.elim
  | ok r => cases findBestXrate cfg' sqrt (b.map (scaleOrder k)) (s.map (scaleOrder k)) fee with
    | error e' => intro h; exact h.elim
    | ok r' =>
      intro h
      refine congrArg Except.ok ?_
      cases r <;> cases r'
      · rfl
      · exact h.elim
      · exact h.elim
      · exact congrArg some (Prod.ext h.1.symm h.2)

/-- Non-vacuity: a book whose rate is not at a limit of an order, in units of a tenth. -/
example : let cfg' : Config := { Config.default with minTradable := 10 * Config.default.minTradable, minRationalTradable := 10 * Config.default.minRationalTradable }
    ScaledCfg 10 Config.default cfg' ∧
    ∃ r, findBestXrate cfg' ExLocal.sqrt (ExRoot.b.map (scaleOrder 10)) (ExRoot.s.map (scaleOrder 10)) ExRoot.fee = .ok r ∧
      ∃ p, r = some p ∧ 0 < p.2 ∧ (∀ o ∈ ExRoot.b, p.1 ≠ o.maxXrate * (1 - ExRoot.fee.value)) := by
  refine ⟨⟨by decide +kernel, rfl, rfl⟩, ?_⟩
  obtain ⟨r, h1, h2⟩ := exists_of_pyCheck
    (x := findBestXrate { Config.default with minTradable := 10 * Config.default.minTradable, minRationalTradable := 10 * Config.default.minRationalTradable }
      ExLocal.sqrt (ExRoot.b.map (scaleOrder 10)) (ExRoot.s.map (scaleOrder 10)) ExRoot.fee)
    (p := fun r : Option (ℚ × ℚ) => r.isSome = true ∧ 0 < (r.getD (0, 0)).2 ∧ ∀ o ∈ ExRoot.b, (r.getD (0, 0)).1 ≠ o.maxXrate * (1 - ExRoot.fee.value))
    (by decide +kernel)
  obtain ⟨p, rfl⟩ := Option.isSome_iff_exists.1 h2.1
  exact ⟨_, h1, p, rfl, h2.2⟩

end Dex
