import Verif.Model.Double
import Verif.Props.AllRates
import Mathlib.Analysis.Real.Sqrt

/-! # C107: square roots in doubles, and the rate search with them -/

namespace Dex

namespace Spec

/-- The finite double precision numbers. -/
def IsDouble (x : ℚ) : Prop := ∃ m e : ℤ, |m| < 2 ^ 53 ∧ -1074 ≤ e ∧ e ≤ 971 ∧ x = m * 2 ^ e

end Spec

open Spec

theorem roundEven_close (q : ℚ) : |q - roundEven q| ≤ 1 / 2 := by
  have h1 := Int.floor_le q
  have h2 := Int.lt_floor_add_one q
  unfold roundEven
  simp only
  rw [abs_le]
  split_ifs <;> push_cast <;> constructor <;> linarith

theorem roundEven_nearest (q : ℚ) (n : ℤ) : |q - roundEven q| ≤ |q - n| := by
  have hc := roundEven_close q
  by_cases he : n = roundEven q
  · rw [he]
  · have h1 : (1 : ℚ) ≤ |((n - roundEven q : ℤ) : ℚ)| := by
      rw [← Int.cast_abs]; exact_mod_cast Int.one_le_abs (sub_ne_zero.2 he)
    have h2 : |((n - roundEven q : ℤ) : ℚ)| ≤ |q - roundEven q| + |q - n| := by
      have : ((n - roundEven q : ℤ) : ℚ) = (q - roundEven q) - (q - n) := by push_cast; ring
      rw [this]; exact abs_sub _ _
    linarith

theorem roundEven_tie {q : ℚ} {n : ℤ} (h : |q - n| = |q - roundEven q|) (hn : n ≠ roundEven q) : roundEven q % 2 = 0 := by
  have h1 := Int.floor_le q
  have h2 := Int.lt_floor_add_one q
  have hc := roundEven_close q
  have hn1 : (1 : ℚ) ≤ |((n - roundEven q : ℤ) : ℚ)| := by
    rw [← Int.cast_abs]; exact_mod_cast Int.one_le_abs (sub_ne_zero.2 hn)
  have h3 : |((n - roundEven q : ℤ) : ℚ)| ≤ |q - roundEven q| + |q - n| := by
    have : ((n - roundEven q : ℤ) : ℚ) = (q - roundEven q) - (q - n) := by push_cast; ring
    rw [this]; exact abs_sub _ _
  have h4 : |q - roundEven q| = 1 / 2 := by linarith
  unfold roundEven at h4 ⊢
  simp only at h4 ⊢
  split_ifs at h4 ⊢ with g1 g2 g3
  · rw [abs_of_nonneg (by linarith)] at h4; linarith
  · rw [abs_of_nonpos (by push_cast; linarith)] at h4; push_cast at h4; linarith
  · exact g3
  · omega

theorem ulp_pos (q : ℚ) : 0 < ulp q := zpow_pos (by norm_num) _

theorem two_zpow_add (a b : ℤ) : (2 : ℚ) ^ (a + b) = 2 ^ a * 2 ^ b := zpow_add₀ (by norm_num) a b

theorem two_zpow_lt {a b : ℤ} (h : (2 : ℚ) ^ a < 2 ^ b) : a < b := (zpow_lt_zpow_iff_right₀ (by norm_num)).1 h

theorem two_zpow_le {a b : ℤ} (h : a ≤ b) : (2 : ℚ) ^ a ≤ 2 ^ b := zpow_le_zpow_right₀ (by norm_num) h

/-- A double is a multiple of `2 ^ c`, or smaller than `2 ^ (c + 52)`. -/
theorem Spec.IsDouble.multiple {y : ℚ} (h : IsDouble y) (c : ℤ) :
    (∃ j : ℤ, y = j * 2 ^ c) ∨ (|y| < 2 ^ (c + 52) ∧ -1074 < c) := by
  obtain ⟨m, e, hm, he1, _, rfl⟩ := h
  rcases le_or_gt c e with hc | hc
  · left
    refine ⟨m * 2 ^ (e - c).toNat, ?_⟩
    have : (2 : ℚ) ^ e = 2 ^ (e - c).toNat * 2 ^ c := by
      rw [← zpow_natCast, ← two_zpow_add]; congr 1; omega
    rw [this]; push_cast; ring
  · right
    refine ⟨?_, by omega⟩
    have he0 : (0 : ℚ) < 2 ^ e := zpow_pos (by norm_num) _
    rw [abs_mul, abs_of_pos he0]
    have h1 : |(m : ℚ)| < 2 ^ 53 := by rw [← Int.cast_abs]; exact_mod_cast hm
    calc |(m : ℚ)| * 2 ^ e < 2 ^ 53 * 2 ^ e := by gcongr
      _ = 2 ^ (53 + e) := by rw [two_zpow_add]; norm_num
      _ ≤ 2 ^ (c + 52) := two_zpow_le (by omega)

theorem scaled_log (q : ℚ) (h : 0 < q) : (2 : ℚ) ^ (Int.log 2 q) ≤ q ∧ q < 2 ^ (Int.log 2 q + 1) := by
  have h1 := Int.zpow_log_le_self (b := 2) (by norm_num) h
  have h2 := Int.lt_zpow_succ_log_self (b := 2) (by norm_num) q
  exact_mod_cast And.intro h1 h2

/-- The integer that `toDouble` scales. -/
theorem roundEven_bounds {q : ℚ} (h : 0 < q) : 0 ≤ roundEven (q / ulp q) ∧ roundEven (q / ulp q) ≤ 2 ^ 53 ∧
    (-1022 ≤ Int.log 2 q → 2 ^ 52 ≤ roundEven (q / ulp q)) := by
  obtain ⟨l1, l2⟩ := scaled_log q h
  have hu := ulp_pos q
  have hc := abs_le.1 (roundEven_close (q / ulp q))
  have up : q / ulp q < 2 ^ 53 := by
    rw [div_lt_iff₀ hu]
    refine l2.trans_le ?_
    have : (2 : ℚ) ^ 53 * ulp q = 2 ^ (53 + (max (Int.log 2 q) (-1022) - 52)) := by
      rw [two_zpow_add]; unfold ulp; norm_num
    rw [this]
    exact two_zpow_le (by have := le_max_left (Int.log 2 q) (-1022); omega)
  have h0 : 0 < q / ulp q := by positivity
  refine ⟨?_, ?_, ?_⟩
  · by_contra hn
    have : roundEven (q / ulp q) ≤ -1 := by omega
    have : ((roundEven (q / ulp q) : ℤ) : ℚ) ≤ -1 := by exact_mod_cast this
    linarith [hc.2]
  · by_contra hn
    have : (2 : ℤ) ^ 53 + 1 ≤ roundEven (q / ulp q) := by omega
    have : ((2 : ℚ) ^ 53 + 1) ≤ (roundEven (q / ulp q) : ℤ) := by exact_mod_cast this
    linarith [hc.1]
  · intro hl
    have lo : (2 : ℚ) ^ 52 ≤ q / ulp q := by
      rw [le_div_iff₀ hu]
      refine le_trans (le_of_eq ?_) l1
      have : (2 : ℚ) ^ 52 * ulp q = 2 ^ (52 + (max (Int.log 2 q) (-1022) - 52)) := by
        rw [two_zpow_add]; unfold ulp; norm_num
      rw [this, max_eq_left hl]; congr 1; omega
    by_contra hn
    have : roundEven (q / ulp q) ≤ (2 : ℤ) ^ 52 - 1 := by omega
    have : ((roundEven (q / ulp q) : ℤ) : ℚ) ≤ 2 ^ 52 - 1 := by exact_mod_cast this
    linarith [hc.2]

theorem toDouble_eq {q : ℚ} (h : 0 < q) : toDouble q =
    if roundEven (q / ulp q) * ulp q < 2 ^ (1024 : ℤ) then .ok (roundEven (q / ulp q) * ulp q) else .error .overflow := by
  unfold toDouble; rw [if_neg h.ne']

/-- C107. `float` of a fraction is a double, and no double is nearer. -/
theorem C107_float {q x : ℚ} (hq : 0 ≤ q) (h : toDouble q = .ok x) : IsDouble x ∧ ∀ y, IsDouble y → |q - x| ≤ |q - y| := by
  rcases hq.eq_or_lt with rfl | hq
  · unfold toDouble at h; rw [if_pos rfl] at h; cases h
    exact ⟨⟨0, 0, by norm_num, by norm_num, by norm_num, by norm_num⟩, fun y _ => by simp⟩
  rw [toDouble_eq hq] at h
  split at h
  swap
  · cases h
  rename_i hlt
  cases h
  obtain ⟨l1, l2⟩ := scaled_log q hq
  obtain ⟨b1, b2, b3⟩ := roundEven_bounds hq
  have hu := ulp_pos q
  have hud : ulp q = 2 ^ (max (Int.log 2 q) (-1022) - 52) := rfl
  set E := max (Int.log 2 q) (-1022) with hE
  set k := roundEven (q / ulp q) with hk
  have hE1 : -1022 ≤ E := le_max_right _ _
  have near : ∀ j : ℤ, |q - k * ulp q| ≤ |q - j * ulp q| := by
    intro j
    have := roundEven_nearest (q / ulp q) j
    have e : ∀ n : ℤ, |q - n * ulp q| = |q / ulp q - n| * ulp q := by
      intro n
      rw [← abs_of_pos hu, ← abs_mul, abs_of_pos hu]
      congr 1; field_simp
    rw [e, e]
    exact mul_le_mul_of_nonneg_right this hu.le
  have hEtop : E ≤ 1023 := by
    by_contra hn
    have hEl : E = Int.log 2 q := by omega
    have h52 : (2 : ℚ) ^ 52 ≤ k := by exact_mod_cast b3 (by omega)
    have : (2 : ℚ) ^ (1024 : ℤ) ≤ k * ulp q := by
      calc (2 : ℚ) ^ (1024 : ℤ) ≤ 2 ^ (52 + (E - 52)) := two_zpow_le (by omega)
        _ = 2 ^ 52 * ulp q := by rw [two_zpow_add, hud]; norm_num
        _ ≤ k * ulp q := by gcongr
    linarith
  refine ⟨?_, ?_⟩
  · rcases b2.lt_or_eq with b2 | b2
    · exact ⟨k, E - 52, by rw [abs_of_nonneg b1]; exact b2, by omega, by omega, rfl⟩
    · have ex : (k : ℚ) * ulp q = 2 ^ (E + 1) := by
        rw [b2, hud]
        have : E + 1 = 53 + (E - 52) := by ring
        rw [this, two_zpow_add]; norm_num
      rw [ex] at hlt
      have := two_zpow_lt hlt
      refine ⟨2 ^ 52, E - 51, by norm_num, by omega, by omega, ?_⟩
      rw [ex]
      have : E + 1 = 52 + (E - 51) := by ring
      rw [this, two_zpow_add]; norm_num
  · intro y hy
    rcases hy.multiple (E - 52) with ⟨j, rfl⟩ | ⟨hy, hc⟩
    · exact near j
    · have hEl : E = Int.log 2 q := by omega
      have h1 := near (2 ^ 52)
      have e : (((2 : ℤ) ^ 52 : ℤ) : ℚ) * ulp q = 2 ^ E := by
        have : E = 52 + (E - 52) := by ring
        rw [hud]; conv_rhs => rw [this, two_zpow_add]
        norm_num
      rw [e] at h1
      have h2 : (2 : ℚ) ^ E ≤ q := by rw [hEl]; exact l1
      rw [abs_of_nonneg (sub_nonneg.2 h2)] at h1
      have h3 : y ≤ 2 ^ E := by
        have : E - 52 + 52 = E := by ring
        rw [this] at hy
        exact (le_abs_self y).trans hy.le
      refine h1.trans (le_trans ?_ (le_abs_self _))
      linarith

/-- C107. Between two equally near doubles the conversion takes the even multiple of their distance. -/
theorem C107_float_ties {q x y : ℚ} (hq : 0 ≤ q) (h : toDouble q = .ok x) (hy : IsDouble y) (hn : y ≠ x) (ht : |q - y| = |q - x|) :
    ∃ j : ℤ, x = 2 * j * |x - y| := by
  rcases hq.eq_or_lt with rfl | hq
  · unfold toDouble at h; rw [if_pos rfl] at h; cases h; exact ⟨0, by simp⟩
  rw [toDouble_eq hq] at h
  split at h
  swap
  · cases h
  cases h
  obtain ⟨l1, l2⟩ := scaled_log q hq
  have hu := ulp_pos q
  have hud : ulp q = 2 ^ (max (Int.log 2 q) (-1022) - 52) := rfl
  set E := max (Int.log 2 q) (-1022) with hE
  set k := roundEven (q / ulp q) with hk
  have e : ∀ n : ℤ, |q - n * ulp q| = |q / ulp q - n| * ulp q := by
    intro n
    rw [← abs_of_pos hu, ← abs_mul, abs_of_pos hu]
    congr 1; field_simp
  have near : ∀ j : ℤ, |q - k * ulp q| ≤ |q - j * ulp q| := by
    intro j
    rw [e, e]
    exact mul_le_mul_of_nonneg_right (roundEven_nearest (q / ulp q) j) hu.le
  rcases hy.multiple (E - 52) with ⟨n, rfl⟩ | ⟨hy, hc⟩
  · rw [← hud] at ht hn ⊢
    rw [e, e] at ht
    have ht := mul_right_cancel₀ hu.ne' ht
    have hnk : n ≠ k := by rintro rfl; exact hn rfl
    have even := roundEven_tie ht hnk
    have hc := roundEven_close (q / ulp q)
    rw [← hk] at hc even
    have d1 : |((k - n : ℤ) : ℚ)| ≤ 1 := by
      have : ((k - n : ℤ) : ℚ) = (q / ulp q - n) - (q / ulp q - k) := by push_cast; ring
      rw [this]; refine (abs_sub _ _).trans ?_
      rw [ht]; linarith
    have d2 : |k - n| ≤ 1 := by rw [← Int.cast_abs] at d1; exact_mod_cast d1
    have d3 : |k - n| = 1 := le_antisymm d2 (Int.one_le_abs (sub_ne_zero.2 hnk.symm))
    refine ⟨k / 2, ?_⟩
    have d4 : |(k : ℚ) * ulp q - n * ulp q| = ulp q := by
      rw [← sub_mul, abs_mul, abs_of_pos hu, ← Int.cast_sub, ← Int.cast_abs, d3]; simp
    rw [d4]
    congr 1
    exact_mod_cast (by omega : k = 2 * (k / 2))
  · exfalso
    have hEl : E = Int.log 2 q := by omega
    have h1 := near (2 ^ 52)
    have e : (((2 : ℤ) ^ 52 : ℤ) : ℚ) * ulp q = 2 ^ E := by
      have : E = 52 + (E - 52) := by ring
      rw [hud]; conv_rhs => rw [this, two_zpow_add]
      norm_num
    rw [e] at h1
    have h2 : (2 : ℚ) ^ E ≤ q := by rw [hEl]; exact l1
    rw [abs_of_nonneg (sub_nonneg.2 h2)] at h1
    have h3 : y < 2 ^ E := by
      have : E - 52 + 52 = E := by ring
      rw [this] at hy
      exact (le_abs_self y).trans_lt hy
    have := le_abs_self (q - y)
    linarith

/-- C107. The conversion raises `OverflowError` exactly from the middle between the largest double and `2 ^ 1024` on. -/
theorem C107_float_overflow {q : ℚ} (hq : 0 ≤ q) : toDouble q = .error .overflow ↔ (2 : ℚ) ^ (1024 : ℤ) - 2 ^ (970 : ℤ) ≤ q := by
  rcases hq.eq_or_lt with rfl | hq
  · unfold toDouble; rw [if_pos rfl]
    simp only [reduceCtorEq, false_iff, not_le]
    decide +kernel
  rw [toDouble_eq hq]
  obtain ⟨l1, l2⟩ := scaled_log q hq
  obtain ⟨b1, b2, b3⟩ := roundEven_bounds hq
  have hc := abs_le.1 (roundEven_close (q / ulp q))
  have hu := ulp_pos q
  have hud : ulp q = 2 ^ (max (Int.log 2 q) (-1022) - 52) := rfl
  set E := max (Int.log 2 q) (-1022) with hE
  set k := roundEven (q / ulp q) with hk
  have hE1 : -1022 ≤ E := le_max_right _ _
  have h971 : (2 : ℚ) ^ (1024 : ℤ) - 2 ^ (970 : ℤ) = (2 ^ 53 - 1 / 2) * 2 ^ (971 : ℤ) := by decide +kernel
  have big : ∀ n : ℤ, (2 : ℚ) ^ n * ulp q = 2 ^ (n + (E - 52)) := fun n => by rw [two_zpow_add, hud]
  have hkx : ((if (k : ℚ) * ulp q < 2 ^ (1024 : ℤ) then .ok (k * ulp q) else .error .overflow : Py ℚ) = .error .overflow) ↔
      (2 : ℚ) ^ (1024 : ℤ) ≤ k * ulp q := by
    split
    · rename_i h; simpa using h
    · rename_i h; simpa using h
  rw [hkx, h971]
  rcases lt_trichotomy E 1023 with h | h | h
  · have h1 : (k : ℚ) * ulp q ≤ 2 ^ (1023 : ℤ) := by
      calc (k : ℚ) * ulp q ≤ 2 ^ (53 : ℤ) * ulp q := by
            have : (k : ℚ) ≤ 2 ^ (53 : ℤ) := by exact_mod_cast b2
            gcongr
        _ = 2 ^ (53 + (E - 52)) := big 53
        _ ≤ 2 ^ (1023 : ℤ) := two_zpow_le (by omega)
    have h2 : q < 2 ^ (1023 : ℤ) := l2.trans_le (two_zpow_le (by have := le_max_left (Int.log 2 q) (-1022); omega))
    constructor
    · intro hh; exfalso; exact absurd (hh.trans h1) (by decide +kernel)
    · intro hh; exfalso; exact absurd (hh.trans_lt h2) (by decide +kernel)
  · have hu' : ulp q = 2 ^ (971 : ℤ) := by rw [hud, h]; norm_num
    have e : (2 : ℚ) ^ (1024 : ℤ) = 2 ^ 53 * 2 ^ (971 : ℤ) := by decide +kernel
    rw [e, ← hu', mul_le_mul_iff_left₀ hu, ← le_div_iff₀ hu]
    constructor
    · intro hh; linarith [hc.1]
    · intro hh
      by_contra hn
      have hn : k < 2 ^ 53 := by
        have := not_le.1 hn
        exact_mod_cast this
      have hn' : (k : ℚ) ≤ 2 ^ 53 - 1 := by
        have : k ≤ 2 ^ 53 - 1 := by omega
        exact_mod_cast this
      have eq : q / ulp q = 2 ^ 53 - 1 / 2 := by linarith [hc.2]
      have : k = 2 ^ 53 := by rw [hk, eq]; decide +kernel
      omega
  · have hEl : E = Int.log 2 q := by omega
    have h52 : (2 : ℚ) ^ (52 : ℤ) ≤ k := by exact_mod_cast b3 (by omega)
    have h1 : (2 : ℚ) ^ (1024 : ℤ) ≤ k * ulp q := by
      calc (2 : ℚ) ^ (1024 : ℤ) ≤ 2 ^ (52 + (E - 52)) := two_zpow_le (by omega)
        _ = 2 ^ (52 : ℤ) * ulp q := (big 52).symm
        _ ≤ k * ulp q := by gcongr
    have h2 : (2 : ℚ) ^ (1024 : ℤ) ≤ q := (two_zpow_le (by omega)).trans l1
    have h3 : (2 ^ 53 - 1 / 2) * (2 : ℚ) ^ (971 : ℤ) ≤ 2 ^ (1024 : ℤ) := by decide +kernel
    exact ⟨fun _ => h3.trans h2, fun _ => h1⟩

/-! ### The square root -/

/-- The root and its distance to the square root, scaled to integers. -/
theorem doubleRoot_scaled {x : ℚ} (h : 0 < x) : ∃ (k : ℕ) (u : ℚ), u = 2 ^ (Int.log 2 x / 2 - 52) ∧ doubleRoot x = k * u ∧ 2 ^ 52 ≤ k ∧ k ≤ 2 ^ 53 ∧
    2 ^ 104 ≤ x / u ^ 2 ∧ ((k : ℚ) - 1 / 2) ^ 2 ≤ x / u ^ 2 ∧ x / u ^ 2 ≤ ((k : ℚ) + 1 / 2) ^ 2 := by
  obtain ⟨l1, l2⟩ := scaled_log x h
  set L := Int.log 2 x with hL
  have hu : (0 : ℚ) < 2 ^ (L / 2 - 52) := zpow_pos (by norm_num) _
  have hu2 : ((2 : ℚ) ^ (L / 2 - 52)) ^ 2 = 2 ^ (2 * (L / 2) - 104) := by
    rw [← zpow_natCast, ← zpow_mul]; congr 1; push_cast; ring
  set X := x / ((2 : ℚ) ^ (L / 2 - 52)) ^ 2 with hX
  have x1 : (2 : ℚ) ^ 104 ≤ X := by
    rw [hX, le_div_iff₀ (by positivity), hu2]
    refine le_trans (le_of_eq_of_le ?_ (two_zpow_le (by omega : 104 + (2 * (L / 2) - 104) ≤ L))) l1
    rw [two_zpow_add]; norm_num
  have x2 : X < 2 ^ 106 := by
    rw [hX, div_lt_iff₀ (by positivity), hu2]
    refine lt_of_lt_of_le l2 (le_of_le_of_eq (two_zpow_le (by omega : L + 1 ≤ 106 + (2 * (L / 2) - 104))) ?_)
    rw [two_zpow_add]; norm_num
  set n := Nat.sqrt ⌊X⌋.toNat with hn
  have X0 : 0 ≤ ⌊X⌋ := Int.floor_nonneg.2 (le_trans (by norm_num) x1)
  have n1 : ((n : ℚ)) ^ 2 ≤ X := by
    have h1 : n ^ 2 ≤ ⌊X⌋.toNat := Nat.sqrt_le' _
    have h2 : ((n ^ 2 : ℕ) : ℤ) ≤ ⌊X⌋ := by omega
    have h3 : (((n ^ 2 : ℕ) : ℤ) : ℚ) ≤ (⌊X⌋ : ℤ) := by exact_mod_cast h2
    have h4 := Int.floor_le X
    push_cast at h3; linarith
  have n2 : X < ((n : ℚ) + 1) ^ 2 := by
    have h1 : ⌊X⌋.toNat < (n + 1) ^ 2 := Nat.lt_succ_sqrt' _
    have h2 : ⌊X⌋ + 1 ≤ (((n + 1) ^ 2 : ℕ) : ℤ) := by omega
    have h3 : ((⌊X⌋ + 1 : ℤ) : ℚ) ≤ (((n + 1) ^ 2 : ℕ) : ℤ) := by exact_mod_cast h2
    have h4 := Int.lt_floor_add_one X
    push_cast at h3; linarith
  have n3 : 2 ^ 52 ≤ n := by
    by_contra hc
    have : ((n : ℚ)) + 1 ≤ 2 ^ 52 := by exact_mod_cast (by omega : n + 1 ≤ 2 ^ 52)
    have : ((n : ℚ) + 1) ^ 2 ≤ (2 ^ 52) ^ 2 := by gcongr
    norm_num at this x1; linarith
  have n4 : n < 2 ^ 53 := by
    by_contra hc
    have : (2 : ℚ) ^ 53 ≤ n := by exact_mod_cast not_lt.1 hc
    have : ((2 : ℚ) ^ 53) ^ 2 ≤ (n : ℚ) ^ 2 := by gcongr
    norm_num at this x2; linarith
  have n3' : (1 : ℚ) ≤ n := by exact_mod_cast (by omega : 1 ≤ n)
  refine ⟨if ((n : ℚ) + 1 / 2) ^ 2 < X then n + 1 else n, _, rfl, ?_, ?_, ?_, x1, ?_, ?_⟩
  · unfold doubleRoot
    simp only [← hL, ← hX, ← hn, Nat.cast_ite, Nat.cast_add, Nat.cast_one]
  · split <;> omega
  · split <;> omega
  · split
    · rename_i g; push_cast; nlinarith
    · nlinarith
  · split
    · push_cast; nlinarith
    · rename_i g; exact not_lt.1 g

/-- C107. The square root of a double is a double, and every other double is further from the real square root. -/
theorem C107_root {x : ℚ} (hx : IsDouble x) (h : 0 < x) : IsDouble (doubleRoot x) ∧
    ∀ y, IsDouble y → y ≠ doubleRoot x → |√(x : ℝ) - (doubleRoot x : ℚ)| < |√(x : ℝ) - (y : ℚ)| := by
  obtain ⟨k, u, hu, hr, k1, k2, x1, r1, r2⟩ := doubleRoot_scaled h
  obtain ⟨l1, l2⟩ := scaled_log x h
  set L := Int.log 2 x with hL
  have up : 0 < u := hu ▸ zpow_pos (by norm_num) _
  have hu2 : u ^ 2 = 2 ^ (2 * (L / 2) - 104) := by
    rw [hu, ← zpow_natCast, ← zpow_mul]; congr 1; push_cast; ring
  -- the scaled argument is an integer
  obtain ⟨j, hj⟩ : ∃ j : ℤ, x / u ^ 2 = j := by
    rcases hx.multiple (2 * (L / 2) - 104) with ⟨j, hj⟩ | ⟨hc, _⟩
    · refine ⟨j, ?_⟩
      rw [div_eq_iff (by positivity), hu2]; exact hj
    · exfalso
      rw [abs_of_pos h] at hc
      have := two_zpow_lt (l1.trans_lt hc)
      omega
  rw [hj] at r1 r2 x1
  have s1 : ((k : ℚ) - 1 / 2) ^ 2 < j := by
    refine lt_of_le_of_ne r1 (fun he => ?_)
    have : ((2 * k - 1) ^ 2 : ℤ) = 4 * j := by
      have : ((2 * (k : ℚ) - 1) ^ 2) = 4 * j := by rw [← he]; ring
      exact_mod_cast this
    have := congrArg (· % 2) this
    simp only [pow_two] at this
    ring_nf at this
    omega
  have s2 : (j : ℚ) < ((k : ℚ) + 1 / 2) ^ 2 := by
    refine lt_of_le_of_ne r2 (fun he => ?_)
    have : ((2 * k + 1) ^ 2 : ℤ) = 4 * j := by
      have : ((2 * (k : ℚ) + 1) ^ 2) = 4 * j := by rw [he]; ring
      exact_mod_cast this
    have := congrArg (· % 2) this
    simp only [pow_two] at this
    ring_nf at this
    omega
  have ej : x = j * u ^ 2 := by rw [← hj]; field_simp
  have k1' : (2 : ℝ) ^ 52 ≤ k := by exact_mod_cast k1
  have upR : (0 : ℝ) < (u : ℝ) := by exact_mod_cast up
  have exR : (x : ℝ) = j * (u : ℝ) ^ 2 := by rw [ej]; push_cast; ring
  have a1 : ((k : ℝ) - 1 / 2) * u < √(x : ℝ) := by
    apply Real.lt_sqrt_of_sq_lt
    rw [exR, mul_pow]
    have : ((k : ℝ) - 1 / 2) ^ 2 < j := by
      have := (Rat.cast_lt (K := ℝ)).2 s1
      push_cast at this; exact this
    gcongr
  have a2 : √(x : ℝ) < ((k : ℝ) + 1 / 2) * u := by
    rw [Real.sqrt_lt' (by positivity), exR, mul_pow]
    have : (j : ℝ) < ((k : ℝ) + 1 / 2) ^ 2 := by
      have := (Rat.cast_lt (K := ℝ)).2 s2
      push_cast at this; exact this
    gcongr
  have a3 : |√(x : ℝ) - k * u| < u / 2 := by rw [abs_lt]; constructor <;> linarith
  have a4 : ∀ n : ℤ, n ≠ k → |√(x : ℝ) - k * u| < |√(x : ℝ) - n * u| := by
    intro n hn
    have h1 : (1 : ℝ) ≤ |((n - k : ℤ) : ℝ)| := by
      rw [← Int.cast_abs]; exact_mod_cast Int.one_le_abs (sub_ne_zero.2 hn)
    have h2 : |((n - k : ℤ) : ℝ)| * u ≤ |√(x : ℝ) - k * u| + |√(x : ℝ) - n * u| := by
      have : |((n - k : ℤ) : ℝ)| * u = |(√(x : ℝ) - k * u) - (√(x : ℝ) - n * u)| := by
        rw [← abs_of_pos upR, ← abs_mul, abs_of_pos upR]; congr 1; push_cast; ring
      rw [this]; exact abs_sub _ _
    nlinarith
  have hLb : -1074 ≤ L ∧ L ≤ 1023 := by
    obtain ⟨m, e, hm, e1, e2, hxm⟩ := hx
    have pe : (0 : ℚ) < 2 ^ e := zpow_pos (by norm_num) _
    have m0 : 0 < m := by
      by_contra hc
      have : (m : ℚ) ≤ 0 := by exact_mod_cast not_lt.1 hc
      have := mul_nonpos_of_nonpos_of_nonneg this pe.le
      linarith
    rw [abs_of_pos m0] at hm
    have m1 : (1 : ℚ) ≤ m := by exact_mod_cast m0
    have m2 : (m : ℚ) < 2 ^ (53 : ℤ) := by exact_mod_cast hm
    constructor
    · have : (2 : ℚ) ^ e < 2 ^ (L + 1) := lt_of_le_of_lt (by rw [hxm]; nlinarith) l2
      have := two_zpow_lt this; omega
    · have : (2 : ℚ) ^ L < 2 ^ (53 + e) := l1.trans_lt (by rw [hxm, two_zpow_add]; gcongr)
      have := two_zpow_lt this; omega
  refine ⟨?_, ?_⟩
  · rw [hr]
    rcases k2.lt_or_eq with k2 | k2
    · exact ⟨k, L / 2 - 52, by rw [abs_of_nonneg (by omega)]; exact_mod_cast k2, by omega, by omega, by rw [hu]; norm_cast⟩
    · refine ⟨2 ^ 52, L / 2 - 51, by norm_num, by omega, by omega, ?_⟩
      have : L / 2 - 51 = 1 + (L / 2 - 52) := by ring
      rw [this, two_zpow_add, k2, hu]; norm_num; ring
  · intro y hy hn
    rw [hr] at hn ⊢
    push_cast
    rcases hy.multiple (L / 2 - 52) with ⟨n, rfl⟩ | ⟨hy, _⟩
    · rw [← hu] at hn ⊢
      push_cast
      refine a4 n ?_
      rintro rfl; exact hn (by norm_cast)
    · have e : (2 : ℚ) ^ (L / 2 - 52 + 52) = 2 ^ 52 * u := by
        rw [two_zpow_add, hu]; norm_num; ring
      rw [e] at hy
      have hy : ((y : ℚ) : ℝ) < 2 ^ 52 * u := by exact_mod_cast (le_abs_self y).trans_lt hy
      have b1 : (2 : ℝ) ^ 52 * u ≤ √(x : ℝ) := by
        apply Real.le_sqrt_of_sq_le
        rw [exR, mul_pow]
        have : ((2 : ℝ) ^ 52) ^ 2 ≤ j := by
          have : (2 : ℝ) ^ 104 ≤ j := by exact_mod_cast x1
          norm_num at this ⊢; linarith
        gcongr
      have b2 : |√(x : ℝ) - k * u| ≤ √(x : ℝ) - 2 ^ 52 * u := by
        by_cases hk : k = 2 ^ 52
        · rw [hk, Nat.cast_pow, Nat.cast_ofNat, abs_of_nonneg (by linarith)]
        · have := (a4 (2 ^ 52) (fun hc => hk (by exact_mod_cast hc.symm))).le
          rw [Int.cast_pow, Int.cast_ofNat] at this
          rwa [abs_of_nonneg (sub_nonneg.2 b1)] at this
      refine lt_of_le_of_lt b2 (lt_of_lt_of_le ?_ (le_abs_self _))
      linarith

/-- C107. `F(sqrt(t))` does not raise for a non-negative argument below `2 ^ 1023`. -/
theorem C107_sqrt_total {t : ℚ} (h0 : 0 ≤ t) (h : t ≤ 2 ^ (1023 : ℤ)) : ∃ r, pySqrt t = .ok r := by
  have ho : toDouble t ≠ .error .overflow := by
    intro hc
    have := ((C107_float_overflow h0).1 hc).trans h
    exact absurd this (by decide +kernel)
  unfold pySqrt
  rw [if_neg (not_lt.2 h0)]
  have : ∃ x, toDouble t = .ok x := by
    unfold toDouble at ho ⊢
    split
    · exact ⟨_, rfl⟩
    · rename_i hn
      rw [if_neg hn] at ho
      simp only at ho ⊢
      split
      · exact ⟨_, rfl⟩
      · rename_i hg; rw [if_neg hg] at ho; exact absurd rfl ho
  obtain ⟨x, hx⟩ := this
  rw [hx, ok_bind]
  split
  · exact ⟨_, rfl⟩
  · exact ⟨_, rfl⟩

/-- C107. From the smallest normal number on, the square of `F(sqrt(t))` differs from `t` by at most `2 ^ -51` of `t`. -/
theorem C107_accurate {t r : ℚ} (h : 2 ^ (-1022 : ℤ) ≤ t) (hr : pySqrt t = .ok r) : 0 < r ∧ |r ^ 2 - t| ≤ 1 / 2 ^ 51 * t := by
  have t0 : 0 < t := lt_of_lt_of_le (zpow_pos (by norm_num) _) h
  unfold pySqrt at hr
  rw [if_neg (not_lt.2 t0.le), bind_eq_ok] at hr
  obtain ⟨x, hx, hr⟩ := hr
  obtain ⟨l1, l2⟩ := scaled_log t t0
  have hL : -1022 ≤ Int.log 2 t := by
    have := two_zpow_lt (h.trans_lt l2); omega
  rw [toDouble_eq t0] at hx
  split at hx
  swap
  · cases hx
  cases hx
  have hut : ulp t ≤ 1 / 2 ^ 52 * t := by
    unfold ulp
    rw [max_eq_left hL]
    have : (2 : ℚ) ^ (Int.log 2 t - 52) = 1 / 2 ^ 52 * 2 ^ (Int.log 2 t) := by
      rw [sub_eq_add_neg, two_zpow_add]; norm_num; ring
    rw [this]; gcongr
  have hu := ulp_pos t
  have d1 : |roundEven (t / ulp t) * ulp t - t| ≤ 1 / 2 ^ 53 * t := by
    have : |roundEven (t / ulp t) * ulp t - t| = |t / ulp t - roundEven (t / ulp t)| * ulp t := by
      rw [abs_sub_comm, ← abs_of_pos hu, ← abs_mul, abs_of_pos hu]; congr 1; field_simp
    rw [this]
    have := roundEven_close (t / ulp t)
    calc _ ≤ 1 / 2 * ulp t := by gcongr
      _ ≤ 1 / 2 * (1 / 2 ^ 52 * t) := by gcongr
      _ = _ := by ring
  set x := (roundEven (t / ulp t) : ℚ) * ulp t with hxd
  rw [abs_le] at d1
  have x0 : 0 < x := by
    have : 1 / 2 ^ 53 * t < t := by rw [mul_lt_iff_lt_one_left t0]; norm_num
    linarith
  rw [if_neg x0.ne'] at hr
  cases hr
  obtain ⟨k, u, hud, hr, k1, k2, x1, r1, r2⟩ := doubleRoot_scaled x0
  have up : 0 < u := hud ▸ zpow_pos (by norm_num) _
  have k1' : (2 : ℚ) ^ 52 ≤ k := by exact_mod_cast k1
  have k0 : (0 : ℚ) < k := lt_of_lt_of_le (by norm_num) k1'
  refine ⟨by rw [hr]; positivity, ?_⟩
  set X := x / u ^ 2 with hX
  have ex : x = X * u ^ 2 := by rw [hX]; field_simp
  have d2 : |(k : ℚ) ^ 2 - X| ≤ 5 / 4 / 2 ^ 52 * X := by
    have key : (k : ℚ) + 1 / 4 ≤ 5 / 4 / 2 ^ 52 * (k - 1 / 2) ^ 2 := by nlinarith
    rw [abs_le]; constructor <;> nlinarith
  have d3 : |(k * u) ^ 2 - x| ≤ 5 / 4 / 2 ^ 52 * x := by
    have : |(k * u) ^ 2 - x| = |(k : ℚ) ^ 2 - X| * u ^ 2 := by
      rw [ex, mul_pow, ← sub_mul, abs_mul, abs_of_pos (by positivity : 0 < u ^ 2)]
    rw [this]; conv_rhs => rw [ex]
    rw [← mul_assoc]; gcongr
  rw [hr]
  rw [abs_le] at d3 ⊢
  have c2 : x ≤ (1 + 1 / 2 ^ 53) * t := by linarith
  constructor <;> nlinarith

/-! ### The rate search -/

/-- Limits from about `10 ^ -150` to `10 ^ 150`: the arguments of the square root are normal numbers. -/
theorem pySqrt_roots {fee : Fee} {b s : List Order} (h0 : 0 ≤ fee.value) (hf : fee.value < 1)
    (hb : ∀ o ∈ b, 2 ^ (-500 : ℤ) ≤ o.maxXrate) (hs : ∀ o ∈ s, 0 < o.maxXrate ∧ o.maxXrate ≤ 2 ^ (500 : ℤ)) :
    RootsAccurate (1 / 2 ^ 51) pySqrt fee b s := by
  rintro t r _ ⟨o, ho, c, hc, hle⟩ hr
  refine C107_accurate (le_trans ?_ hle) hr
  obtain ⟨c1, c2⟩ := hs c hc
  have hφ : 0 < 1 - fee.value := by linarith
  rw [le_div_iff₀ (by positivity)]
  refine le_trans ?_ (hb o ho)
  have h1 : (2 : ℚ) * (1 - fee.value) * c.maxXrate ≤ 2 * 1 * 2 ^ (500 : ℤ) := by gcongr; linarith
  have h2 : (0 : ℚ) ≤ 2 ^ (-1022 : ℤ) := (zpow_pos (by norm_num) _).le
  exact (mul_le_mul_of_nonneg_left h1 h2).trans (by decide +kernel)

/-- C107. C53 for the program's own square root: next to the limit rate found by the binary search, no rate is better than the rate
found by more than the `2 ^ -102`nd part of the amounts offered. -/
theorem C107_locally_optimal {cfg : Config} {fee : Fee} {b s b' s' : List Order} {r obj x0 v0 : ℚ}
    {ivs : List IntervalData} (h : SearchInput cfg fee b s) (h0 : 0 ≤ fee.value)
    (hb : ∀ o ∈ b, 2 ^ (-500 : ℤ) ≤ o.maxXrate) (hs : ∀ o ∈ s, o.maxXrate ≤ 2 ^ (500 : ℤ))
    (hr : findBestXrate cfg pySqrt b s fee = .ok (some (r, obj)))
    (hp : pruneUnrealizable b s fee = .ok (b', s')) (ht : solveTrivial cfg fee b' s' = .ok (some (x0, v0)))
    (hi : xrateIntervals b' s' fee (some x0) = .ok ivs) (hroom : ∀ y, SearchRate cfg pySqrt fee ivs y → NonBinding cfg fee b s y)
    {x v : ℚ} (hx : 0 < x) (hv : ValueAt cfg fee b s x v) (ab : ∃ o ∈ b, AcceptsB fee x o) (as : ∃ o ∈ s, AcceptsS fee x o)
    (hn : NextTo fee b' s' x0 x) :
    v ≤ obj + 1 / 2 ^ 102 * ((b.map (·.maxSell)).sum / x + 4 * (s.map (·.maxSell)).sum) := by
  have := C53_locally_optimal h h0 (by norm_num) (pySqrt_roots h0 h.feeLt hb (fun o ho => ⟨(h.ordS o ho).1, hs o ho⟩)) hr hp ht hi hroom hx hv ab as hn
  convert this using 3
  norm_num

/-- C107. C104 for the program's own square root, single peak. -/
theorem C107_single_peak {cfg : Config} {fee : Fee} {b s : List Order} {r obj : ℚ} (h : SearchInput cfg fee b s) (h0 : 0 ≤ fee.value)
    (hb : ∀ o ∈ b, 2 ^ (-500 : ℤ) ≤ o.maxXrate) (hs : ∀ o ∈ s, o.maxXrate ≤ 2 ^ (500 : ℤ))
    (hr : findBestXrate cfg pySqrt b s fee = .ok (some (r, obj))) (hroom : ∀ y, AcceptedRate fee b s y → NonBinding cfg fee b s y)
    (hpeak : SinglePeak cfg fee b s) {x v : ℚ} (hx : AcceptedRate fee b s x) (hv : ValueAt cfg fee b s x v) :
    v ≤ obj + 1 / 2 ^ 102 * ((b.map (·.maxSell)).sum / x + 4 * (s.map (·.maxSell)).sum) := by
  have := C104_single_peak h h0 (by norm_num) (pySqrt_roots h0 h.feeLt hb (fun o ho => ⟨(h.ordS o ho).1, hs o ho⟩)) hr hroom hpeak hx hv
  convert this using 3
  norm_num

/-- C107. C104 for the program's own square root, one limit per side. -/
theorem C107_one_limit_per_side {cfg : Config} {fee : Fee} {b s : List Order} {r obj : ℚ} (h : SearchInput cfg fee b s) (h0 : 0 ≤ fee.value)
    (hb : ∀ o ∈ b, 2 ^ (-500 : ℤ) ≤ o.maxXrate) (hs : ∀ o ∈ s, o.maxXrate ≤ 2 ^ (500 : ℤ))
    (hr : findBestXrate cfg pySqrt b s fee = .ok (some (r, obj))) (hroom : ∀ y, AcceptedRate fee b s y → NonBinding cfg fee b s y)
    (eb : ∀ o ∈ b, ∀ c ∈ b, o.maxXrate = c.maxXrate) (es : ∀ o ∈ s, ∀ c ∈ s, o.maxXrate = c.maxXrate)
    {x v : ℚ} (hx : AcceptedRate fee b s x) (hv : ValueAt cfg fee b s x v) :
    v ≤ obj + 1 / 2 ^ 102 * ((b.map (·.maxSell)).sum / x + 4 * (s.map (·.maxSell)).sum) := by
  have := C104_one_limit_per_side h h0 (by norm_num) (pySqrt_roots h0 h.feeLt hb (fun o ho => ⟨(h.ordS o ho).1, hs o ho⟩)) hr hroom eb es hx hv
  convert this using 3
  norm_num

/-- C107. One order on each side, neither of them tiny: no rate is better than the rate found by more than the `2 ^ -102`nd part of the
amounts offered. -/
theorem C107_two_orders {cfg : Config} {fee : Fee} {o c : Order} {r obj : ℚ} (h : SearchInput cfg fee [o] [c]) (h0 : 0 ≤ fee.value)
    (hb : 2 ^ (-500 : ℤ) ≤ o.maxXrate) (hs : c.maxXrate ≤ 2 ^ (500 : ℤ))
    (hr : findBestXrate cfg pySqrt [o] [c] fee = .ok (some (r, obj)))
    (hroom : 2 ≤ cfg.maxNrExec) (ho1 : (cfg.minRationalTradable : ℚ) ≤ o.maxSell)
    (ho2 : (cfg.minRationalTradable : ℚ) ≤ o.maxSell / o.maxXrate)
    (hc1 : (cfg.minRationalTradable : ℚ) ≤ c.maxSell * (1 - fee.value) ^ 2)
    (hc2 : (cfg.minRationalTradable : ℚ) ≤ c.maxSell / c.maxXrate)
    {x v : ℚ} (hx : AcceptedRate fee [o] [c] x) (hv : ValueAt cfg fee [o] [c] x v) :
    v ≤ obj + 1 / 2 ^ 102 * (o.maxSell / x + 4 * c.maxSell) := by
  have := C104_two_orders h h0 (by norm_num) (pySqrt_roots h0 h.feeLt (by simpa using hb) (by simpa using ⟨(h.ordS c (by simp)).1, hs⟩)) hr
    hroom ho1 ho2 hc1 hc2 hx hv
  convert this using 3
  norm_num

/-! ### Non-vacuity -/

/-- `float(1/10)` and the double next to it; `sqrt(2)`; half way between `2 ^ 53` and `2 ^ 53 + 2`; an argument below the normal numbers. -/
example : toDouble (1 / 10) = .ok (3602879701896397 / 2 ^ 55) ∧ IsDouble (3602879701896398 / 2 ^ 55) ∧
    pySqrt 2 = .ok (6369051672525773 / 2 ^ 52) ∧ toDouble (2 ^ 53 + 1) = .ok (2 ^ 53) ∧ toDouble (2 ^ 53 + 3) = .ok (2 ^ 53 + 4) ∧
    pySqrt (1 / 2 ^ 1080) = .ok 0 ∧ pySqrt (2 ^ 1024) = .error .overflow ∧ pySqrt (-1) = .error .valueError := by
  have e : ∀ {x : Py ℚ} {y : ℚ}, pyCheck x (fun r => r = y) = true → x = .ok y := by
    intro x y h
    obtain ⟨r, h1, h2⟩ := exists_of_pyCheck h
    rw [h1, h2]
  refine ⟨e (by decide +kernel), ⟨3602879701896398, -55, by norm_num, by norm_num, by norm_num, by norm_num⟩, e (by decide +kernel),
    e (by decide +kernel), e (by decide +kernel), e (by decide +kernel), ?_, by decide +kernel⟩
  decide +kernel

namespace ExDoubles

def o : Order := Order.mk' "B" "S" 1000000 2 none "0"
def c : Order := Order.mk' "S" "B" 500000 2 none "1"

end ExDoubles

/-- A book with one order on each side to which `C107_two_orders` applies: the rate found is the square root computed in doubles. -/
example : ∃ obj v, findBestXrate Config.default pySqrt [ExDoubles.o] [ExDoubles.c] ExRoot.fee = .ok (some (3560764502367685 / 2251799813685248, obj)) ∧
    ValueAt Config.default ExRoot.fee [ExDoubles.o] [ExDoubles.c] 1 v ∧ v ≤ obj + 1 / 2 ^ 102 * (1000000 / 1 + 4 * 500000) := by
  obtain ⟨res, e, ⟨⟨r, obj⟩, rm, h1⟩⟩ := exists_of_pyCheck
    (x := findBestXrate Config.default pySqrt [ExDoubles.o] [ExDoubles.c] ExRoot.fee)
    (p := fun res => ∃ p ∈ res, p.1 = 3560764502367685 / 2251799813685248) (by decide +kernel)
  cases rm; cases h1
  obtain ⟨v, hv, _⟩ := exists_of_pyCheck (x := solverObjective Config.default ExRoot.fee [ExDoubles.o] [ExDoubles.c] 1) (p := fun _ => True) (by decide +kernel)
  refine ⟨obj, v, e, solverObjective_iff.1 hv, ?_⟩
  refine C107_two_orders ?_ (by decide +kernel) (by decide +kernel) (by decide +kernel) e (by decide +kernel) (by decide +kernel)
    (by decide +kernel) (by decide +kernel) (by decide +kernel) ⟨by norm_num, by decide +kernel, by decide +kernel⟩ (solverObjective_iff.1 hv)
  constructor <;> decide +kernel

end Dex
