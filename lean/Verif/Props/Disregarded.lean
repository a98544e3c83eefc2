import Verif.Model.Traits
import Verif.Props.Utility
import Mathlib.Algebra.Order.Group.MinMax

/-! # Properties C79 and C80: the disregarded utility and the fee; the two integer arithmetics -/

namespace Dex

namespace Spec

/-- Utility per unit sold at the prices and the fee `φ`: the amount received, minus the amount the limit asks for, at the price. -/
def surplusRate (pb ps φ : ℚ) (o : Order) : ℚ := ps * (1 - φ) - pb / o.maxXrate

/-- What the order could still sell: the rest of its maximum, at most the remaining balance. -/
def leftover (pb ps : ℚ) (fee : Fee) (o : Order) (bal : ℚ) : ℚ := min (o.origMaxSell - (uniformSell pb ps fee o.buy : ℚ)) bal

/-- Utility the order would gain from selling the rest at the prices and the fee `φ`. -/
def missedUtility (pb ps φ : ℚ) (fee : Fee) (o : Order) (bal : ℚ) : ℚ := leftover pb ps fee o bal * max 0 (surplusRate pb ps φ o)

end Spec

open Spec

theorem intDisregardedUtility_eq {prices : Prices} {accounts : Accounts} {o : Order} {pb ps : ℚ} (h : Evaluable prices accounts o pb ps)
    {fee : Fee} (hf : fee.value < 1) (hd : 2 ≤ fee.value.den) (bal : ℚ) :
    intDisregardedUtility o (pb / ps) pb fee bal = .ok (disregarded pb ps fee o bal) := by
  have h1 := intMaxUtility_eq h hf hd bal
  unfold intMaxUtility at h1
  rw [bind_eq_ok] at h1
  obtain ⟨du, hdu, h1⟩ := h1
  rw [C39_formula h hf, ok_bind, pure_eq_ok, Except.ok.injEq] at h1
  rw [hdu, add_right_cancel h1]

/-- C79. The disregarded utility is, up to less than one unit, the utility missed by the unsold rest if the fee were one over the
denominator of the fee, divided by one minus that fee. -/
theorem C79_denominator {prices : Prices} {accounts : Accounts} {o : Order} {pb ps : ℚ} (h : Evaluable prices accounts o pb ps)
    {fee : Fee} (hf : fee.value < 1) (hd : 2 ≤ fee.value.den) {bal : ℚ} (hb : 0 ≤ bal)
    (hs : 0 ≤ uniformSell pb ps fee o.buy ∧ (uniformSell pb ps fee o.buy : ℚ) ≤ o.origMaxSell) :
    ∃ du, intDisregardedUtility o (pb / ps) pb fee bal = .ok du ∧
      |du - missedUtility pb ps (1 / fee.value.den) fee o bal / (1 - 1 / fee.value.den)| < 1 := by
  refine ⟨_, intDisregardedUtility_eq h hf hd bal, ?_⟩
  have hd' : (2 : ℚ) ≤ fee.value.den := by exact_mod_cast hd
  have hs0 : (0 : ℚ) ≤ uniformSell pb ps fee o.buy := by exact_mod_cast hs.1
  have hM := h.maxSell
  have hx := h.limit
  unfold disregarded missedUtility surplusRate
  change |((⌊leftover pb ps fee o bal * _ / _⌋ : ℤ) : ℚ) - _| < 1
  set l := leftover pb ps fee o bal with hl
  set d : ℚ := (fee.value.den : ℚ)
  set M := o.origMaxSell
  have l0 : 0 ≤ l := le_min (by linarith [hs.2]) hb
  have lM : l ≤ M := (min_le_left _ _).trans (by linarith)
  have hφ : 0 < 1 - 1 / d := by rw [sub_pos, div_lt_one (by linarith)]; linarith
  set R : ℚ := minBuyOf o * pb * d / (d - 1) with hR
  have e : l * max 0 (ps * (1 - 1 / d) - pb / o.maxXrate) / (1 - 1 / d) = l * max 0 (ps * M - R) / M := by
    have e1 : max 0 (ps * (1 - 1 / d) - pb / o.maxXrate) = (1 - 1 / d) / M * max 0 (ps * M - R) := by
      rw [mul_max_of_nonneg _ _ (by positivity), mul_zero]
      congr 1
      have : d - 1 ≠ 0 := by linarith
      have : d ≠ 0 := by linarith
      have := hM.ne'
      have := hx.ne'
      rw [hR]; unfold minBuyOf
      change _ = (1 - 1 / d) / M * (ps * M - M / o.maxXrate * pb * d / (d - 1))
      field_simp
    rw [e1]
    have := hφ.ne'
    generalize 1 - 1 / d = φ at *
    field_simp
  rw [e]
  have f1 := Int.floor_le R
  have f2 := Int.lt_floor_add_one R
  have m1 : max 0 (ps * M - R) ≤ max 0 (ps * M - (⌊R⌋ : ℤ)) := max_le_max le_rfl (by linarith)
  have m2 : max 0 (ps * M - (⌊R⌋ : ℤ)) < max 0 (ps * M - R) + 1 := by
    rw [max_lt_iff]
    exact ⟨by linarith [le_max_left (0 : ℚ) (ps * M - R)], by linarith [le_max_right (0 : ℚ) (ps * M - R)]⟩
  have g1 := Int.floor_le (l * max 0 (ps * M - (⌊R⌋ : ℤ)) / M)
  have g2 := Int.lt_floor_add_one (l * max 0 (ps * M - (⌊R⌋ : ℤ)) / M)
  have k1 : l * max 0 (ps * M - R) / M ≤ l * max 0 (ps * M - (⌊R⌋ : ℤ)) / M := by gcongr
  have k2 : l * max 0 (ps * M - (⌊R⌋ : ℤ)) / M < l * max 0 (ps * M - R) / M + 1 := by
    rw [div_add_one hM.ne', div_lt_div_iff_of_pos_right hM]
    rcases eq_or_lt_of_le l0 with h0 | h0
    · rw [← h0]; simp; exact hM
    · nlinarith [mul_lt_mul_of_pos_left m2 h0]
  rw [abs_lt]
  constructor <;> linarith

/-- C79. For a fee of one over an integer this is the utility missed at the fee, divided by one minus the fee. -/
theorem C79_unit_fee {prices : Prices} {accounts : Accounts} {o : Order} {pb ps : ℚ} (h : Evaluable prices accounts o pb ps)
    {fee : Fee} {d : ℕ} (hd : 2 ≤ d) (hf : fee.value = 1 / d) {bal : ℚ} (hb : 0 ≤ bal)
    (hs : 0 ≤ uniformSell pb ps fee o.buy ∧ (uniformSell pb ps fee o.buy : ℚ) ≤ o.origMaxSell) :
    ∃ du, intDisregardedUtility o (pb / ps) pb fee bal = .ok du ∧
      |du - missedUtility pb ps fee.value fee o bal / (1 - fee.value)| < 1 := by
  have hd' : (2 : ℚ) ≤ d := by exact_mod_cast hd
  have hden : fee.value.den = d := by
    rw [hf, one_div, Rat.inv_natCast_den, if_neg (by omega)]
  have hlt : fee.value < 1 := by rw [hf, div_lt_one (by linarith)]; linarith
  have := C79_denominator h hlt (by rw [hden]; exact hd) hb hs
  rwa [hden, ← hf] at this

/-- C79. For a fee of one over an integer, an order with integer amounts that gains nothing from selling at the prices has no
disregarded utility. -/
theorem C79_no_surplus {prices : Prices} {accounts : Accounts} {o : Order} {pb ps : ℚ} (h : Evaluable prices accounts o pb ps)
    {fee : Fee} {d : ℕ} (hd : 2 ≤ d) (hf : fee.value = 1 / d) (hi : IsInt o.origMaxSell) (hr : surplusRate pb ps fee.value o ≤ 0)
    (bal : ℚ) : intDisregardedUtility o (pb / ps) pb fee bal = .ok 0 := by
  have hd' : (2 : ℚ) ≤ d := by exact_mod_cast hd
  have hden : fee.value.den = d := by
    rw [hf, one_div, Rat.inv_natCast_den, if_neg (by omega)]
  have hlt : fee.value < 1 := by rw [hf, div_lt_one (by linarith)]; linarith
  rw [intDisregardedUtility_eq h hlt (by rw [hden]; exact hd)]
  have hM := h.maxSell
  have hx := h.limit
  obtain ⟨M, eM⟩ := isInt_iff.1 hi
  obtain ⟨p, ep⟩ := isInt_iff.1 (show IsInt ps from h.psInt)
  have : ps * o.origMaxSell ≤ (⌊minBuyOf o * pb * (fee.value.den : ℚ) / ((fee.value.den : ℚ) - 1)⌋ : ℤ) := by
    rw [hden, eM, ep]
    have : p * M ≤ ⌊minBuyOf o * pb * (d : ℚ) / ((d : ℚ) - 1)⌋ := by
      rw [Int.le_floor]
      push_cast
      rw [← eM, ← ep, le_div_iff₀ (by linarith)]
      unfold surplusRate at hr
      rw [hf] at hr
      unfold minBuyOf
      have e : o.origMaxSell / o.maxXrate * pb * d - ps * o.origMaxSell * (d - 1) =
          - (o.origMaxSell * d * (ps * (1 - 1 / d) - pb / o.maxXrate)) := by
        field_simp; ring
      have : o.origMaxSell * d * (ps * (1 - 1 / d) - pb / o.maxXrate) ≤ 0 :=
        mul_nonpos_of_nonneg_of_nonpos (by positivity) hr
      linarith
    exact_mod_cast this
  unfold disregarded
  rw [max_eq_left (by linarith)]
  simp

/-- C80. On an order whose maximum has not been restricted and whose bought amount is an integer, the utility of the standard solver is
the utility of the smart contract or one unit less, and lies below the exact utility. -/
theorem C80_utility {prices : Prices} {accounts : Accounts} {o : Order} {pb ps : ℚ} (h : Evaluable prices accounts o pb ps)
    {fee : Fee} (hf : fee.value < 1) (hm : o.maxSell = o.origMaxSell) (hb : IsInt o.buy) :
    ∃ u v, intUtility o (pb / ps) pb fee = .ok u ∧ stdUtility o (pb / ps) pb fee = .ok v ∧ (v = u ∨ v = u - 1) ∧
      v ≤ exactUtil pb ps fee o ∧ exactUtil pb ps fee o ≤ u := by
  have hM := h.maxSell
  have hx := h.limit
  have hv : stdUtility o (pb / ps) pb fee = .ok ((⌊exactUtil pb ps fee o⌋ : ℤ) : ℚ) := by
    unfold stdUtility
    simp only [hm, pyDiv_of_ne hx.ne', ok_bind, h.intSell hf, pyFloorDiv_of_ne hM.ne', pure_eq_ok, Except.ok.injEq]
    congr 2
    unfold exactUtil uniformSell
    field_simp
  obtain ⟨n, en⟩ := isInt_iff.1 hb
  obtain ⟨p, ep⟩ := isInt_iff.1 (show IsInt pb from h.pbInt)
  refine ⟨_, _, C39_formula h hf, hv, ?_, Int.floor_le _, (C39_bounds h).1⟩
  obtain ⟨b1, b2, _⟩ := C39_bounds h (fee := fee)
  have f1 := Int.floor_le (exactUtil pb ps fee o)
  have f2 := Int.lt_floor_add_one (exactUtil pb ps fee o)
  obtain ⟨k, ek⟩ : ∃ k : ℤ, intUtil pb ps fee o = k :=
    ⟨n * p - ⌊(uniformSell pb ps fee o.buy : ℚ) * minBuyOf o * pb / o.origMaxSell⌋, by unfold intUtil; rw [en, ep]; push_cast; ring⟩
  rw [ek] at b1 b2 ⊢
  have c1 : (⌊exactUtil pb ps fee o⌋ : ℚ) < k + 1 := by linarith
  have c2 : (k : ℚ) < (⌊exactUtil pb ps fee o⌋ : ℚ) + 2 := by linarith
  have c1' : ⌊exactUtil pb ps fee o⌋ < k + 1 := by exact_mod_cast c1
  have c2' : k < ⌊exactUtil pb ps fee o⌋ + 2 := by exact_mod_cast c2
  rcases (by omega : ⌊exactUtil pb ps fee o⌋ = k ∨ ⌊exactUtil pb ps fee o⌋ = k - 1) with e | e
  · left; exact_mod_cast e
  · right; rw [e]; push_cast; ring

/-- C80. The maximum utility of the standard solver is, up to less than one unit, what the order would gain from selling all it can at
the prices and a fee of one over the denominator of the fee. -/
theorem C80_max_utility {prices : Prices} {accounts : Accounts} {o : Order} {pb ps : ℚ} (h : Evaluable prices accounts o pb ps)
    {fee : Fee} (hf : fee.value < 1) (hm : o.maxSell = o.origMaxSell) {bal : ℚ} (hb : 0 ≤ bal)
    (hs : 0 ≤ uniformSell pb ps fee o.buy) :
    ∃ v, stdMaxUtility o (pb / ps) pb fee bal = .ok v ∧
      |v - min o.maxSell (uniformSell pb ps fee o.buy + bal) * max 0 (surplusRate pb ps (1 / fee.value.den) o)| < 1 := by
  obtain ⟨_, _, _, h4⟩ := h.xrate
  have hM := h.maxSell
  have hx := h.limit
  have hd : (0 : ℚ) < fee.value.den := by exact_mod_cast fee.value.den_pos
  have hs0 : (0 : ℚ) ≤ uniformSell pb ps fee o.buy := by exact_mod_cast hs
  unfold stdMaxUtility
  simp only [hm, pyDiv_of_ne hx.ne', ok_bind, h4, h.intSell hf, pyFloorDiv_of_ne hd.ne', pyFloorDiv_of_ne hM.ne', pure_eq_ok,
    Except.ok.injEq, exists_eq_left']
  change |max (((⌊min o.origMaxSell ((uniformSell pb ps fee o.buy : ℚ) + bal) * ps * _ / _⌋ : ℤ) : ℚ) -
    ((⌊min o.origMaxSell ((uniformSell pb ps fee o.buy : ℚ) + bal) * _ * pb / _⌋ : ℤ) : ℚ)) 0 - _| < 1
  set l := min o.origMaxSell ((uniformSell pb ps fee o.buy : ℚ) + bal)
  have l0 : 0 ≤ l := le_min hM.le (by linarith)
  rw [mul_max_of_nonneg _ _ l0, mul_zero, max_comm (0 : ℚ)]
  have e : l * surplusRate pb ps (1 / fee.value.den) o = l * ps * (fee.value.den - 1) / fee.value.den -
      l * (o.origMaxSell / o.maxXrate) * pb / o.origMaxSell := by
    unfold surplusRate; field_simp
  rw [e]
  refine lt_of_le_of_lt (abs_max_sub_max_le_abs _ _ _) ?_
  have a1 := Int.floor_le (l * ps * ((fee.value.den : ℚ) - 1) / fee.value.den)
  have a2 := Int.lt_floor_add_one (l * ps * ((fee.value.den : ℚ) - 1) / fee.value.den)
  have b1 := Int.floor_le (l * (o.origMaxSell / o.maxXrate) * pb / o.origMaxSell)
  have b2 := Int.lt_floor_add_one (l * (o.origMaxSell / o.maxXrate) * pb / o.origMaxSell)
  rw [abs_lt]
  constructor <;> linarith

namespace ExDisreg
/-- A fee of 3/1000. -/
def fee : Fee := { token := "F", value := 3 / 1000 }
def prices : Prices := [("B", 1000000), ("S", 1002000)]
def accounts : Accounts := [("x", [("S", 10 ^ 6)])]
/-- Sells S for B, at least one B per S. -/
def o : Order := Order.mk' "B" "S" 1000000 1 (some "x") "0"
def unitFee : Fee := { token := "F", value := 1 / 1000 }
theorem eval : Evaluable prices accounts o 1000000 1002000 := by constructor <;> decide +kernel
end ExDisreg

/-- C79. With a fee of 3/1000 the reported disregarded utility counts an order that would lose by trading at the prices. -/
theorem C79_wrong_fee : ∃ (prices : Prices) (accounts : Accounts) (fee : Fee) (o : Order) (pb ps : ℚ),
    Evaluable prices accounts o pb ps ∧ fee.value = 3 / 1000 ∧ o.buy = 0 ∧ IsInt o.origMaxSell ∧ surplusRate pb ps fee.value o < 0 ∧
      ∃ m, computeSolutionMetrics prices accounts [o] fee = .ok m ∧ m.utility = 0 ∧ 0 < m.utilityDisreg :=
  ⟨ExDisreg.prices, ExDisreg.accounts, ExDisreg.fee, ExDisreg.o, 1000000, 1002000, ExDisreg.eval, rfl, rfl, by decide +kernel,
    by decide +kernel, exists_of_pyCheck (p := fun m : Metrics => m.utility = 0 ∧ 0 < m.utilityDisreg) (by decide +kernel)⟩

/-- C79. Even for a fee of one over an integer the reported disregarded utility is more than the utility missed, by more than
rounding. -/
theorem C79_scaled : ∃ (prices : Prices) (accounts : Accounts) (fee : Fee) (o : Order) (pb ps bal : ℚ),
    Evaluable prices accounts o pb ps ∧ fee.value = 1 / 1000 ∧
      ∃ du, intDisregardedUtility o (pb / ps) pb fee bal = .ok du ∧ missedUtility pb ps fee.value fee o bal + 900000 < du :=
  ⟨ExDisreg.prices, ExDisreg.accounts, ExDisreg.unitFee, ExDisreg.o, 1000000, 1002000, 10 ^ 6, ExDisreg.eval, rfl,
    exists_of_pyCheck (p := fun du : ℚ => missedUtility 1000000 1002000 ExDisreg.unitFee.value ExDisreg.unitFee ExDisreg.o (10 ^ 6) +
      900000 < du) (by decide +kernel)⟩

example : 2 ≤ ExUtil.fee.value.den ∧ 0 ≤ uniformSell 1500 700 ExUtil.fee ExUtil.o1.buy ∧
    (uniformSell 1500 700 ExUtil.fee ExUtil.o1.buy : ℚ) ≤ ExUtil.o1.origMaxSell ∧ ExUtil.fee.value = 1 / (1000 : ℕ) ∧
    0 < missedUtility 1500 700 ExUtil.fee.value ExUtil.fee ExUtil.o1 50000 ∧ ExUtil.o1.maxSell = ExUtil.o1.origMaxSell ∧
    IsInt ExUtil.o1.buy := by decide +kernel
example : surplusRate 1000000 1000500 ExDisreg.unitFee.value ExDisreg.o ≤ 0 ∧ IsInt ExDisreg.o.origMaxSell := by decide +kernel

end Dex
