import Verif.Model.FloatText
import Verif.Props.FloatFee
import Verif.Props.RunChain

/-! # C109: the fee ratio as it is written -/

namespace Dex

namespace Spec

/-- A decimal number of at most fifteen digits: zero, or not too small. -/
def IsShort (q : ℚ) : Prop := q = 0 ∨ ∃ (a : ℕ) (i : ℤ), a < 10 ^ 15 ∧ q = a * 10 ^ i ∧ (2 : ℚ) ^ (-1022 : ℤ) ≤ q

/-- The number that the text written for a float is read as. -/
def rereadRatio (v : PyVal) : Py ℚ := do
  let x ← pyFloat v
  pyFraction (reload readLeaf (stringifyNumeric x))

end Spec

open Spec

/-! ### Decimal digits of a double -/

theorem ten_zpow_add (a b : ℤ) : (10 : ℚ) ^ (a + b) = 10 ^ a * 10 ^ b := zpow_add₀ (by norm_num) a b

theorem ten_zpow_le {a b : ℤ} (h : a ≤ b) : (10 : ℚ) ^ a ≤ 10 ^ b := zpow_le_zpow_right₀ (by norm_num) h

theorem ten_zpow_pos (a : ℤ) : (0 : ℚ) < 10 ^ a := zpow_pos (by norm_num) a

theorem scaled_log10 {x : ℚ} (h : 0 < x) : (10 : ℚ) ^ (Int.log 10 x) ≤ x ∧ x < 10 ^ (Int.log 10 x + 1) := by
  have h1 := Int.zpow_log_le_self (b := 10) (by norm_num) h
  have h2 := Int.lt_zpow_succ_log_self (b := 10) (by norm_num) x
  exact_mod_cast And.intro h1 h2

/-- Different doubles are far apart: by the distance of the doubles above `x`, or half of it below a power of two. -/
theorem double_apart {x y : ℚ} (hx : IsDouble x) (h : 0 < x) (hy : IsDouble y) (hn : y ≠ x) :
    (2 : ℚ) ^ (Int.log 2 x - 52) ≤ |x - y| ∨ (x = 2 ^ Int.log 2 x ∧ (2 : ℚ) ^ (Int.log 2 x - 53) ≤ |x - y|) := by
  obtain ⟨l1, l2⟩ := scaled_log x h
  set k := Int.log 2 x with hk
  have sep : ∀ (c a b : ℤ), x = a * 2 ^ c → y = b * 2 ^ c → (2 : ℚ) ^ c ≤ |x - y| := by
    intro c a b ha hb
    have hp : (0 : ℚ) < 2 ^ c := zpow_pos (by norm_num) _
    have hab : a ≠ b := by rintro rfl; exact hn (hb.trans ha.symm)
    rw [ha, hb, ← sub_mul, abs_mul, abs_of_pos hp, ← Int.cast_sub, ← Int.cast_abs]
    have : (1 : ℚ) ≤ ((|a - b| : ℤ) : ℚ) := by exact_mod_cast Int.one_le_abs (sub_ne_zero.2 hab)
    nlinarith
  have kk : k - 52 + 52 = k := by ring
  have hxm : ∃ a : ℤ, x = a * 2 ^ (k - 52) := by
    rcases hx.multiple (k - 52) with h1 | ⟨h1, _⟩
    · exact h1
    · rw [kk, abs_of_pos h] at h1
      exact absurd h1 (not_lt.2 l1)
  obtain ⟨a, ha⟩ := hxm
  rcases hy.multiple (k - 52) with ⟨b, hb⟩ | ⟨h1, _⟩
  · exact .inl (sep _ a b ha hb)
  rw [kk] at h1
  have hyk : y < 2 ^ k := (le_abs_self y).trans_lt h1
  have e52 : (2 : ℚ) ^ k = 2 ^ (52 : ℕ) * 2 ^ (k - 52) := by
    conv_lhs => rw [← kk, add_comm, two_zpow_add]
    norm_num
  have hp : (0 : ℚ) < 2 ^ (k - 52) := zpow_pos (by norm_num) _
  by_cases hxk : x = 2 ^ k
  · right
    refine ⟨hxk, ?_⟩
    rcases hy.multiple (k - 53) with ⟨b, hb⟩ | ⟨h2, _⟩
    · refine sep _ (2 * a) b ?_ hb
      rw [ha]
      have : k - 52 = 1 + (k - 53) := by ring
      rw [this, two_zpow_add]; push_cast; ring
    · have h3 : y < 2 ^ (k - 1) := by
        have : k - 53 + 52 = k - 1 := by ring
        rw [this] at h2
        exact (le_abs_self y).trans_lt h2
      have h4 : (2 : ℚ) ^ k = 2 * 2 ^ (k - 1) := by
        have : k = 1 + (k - 1) := by ring
        conv_lhs => rw [this, two_zpow_add]
        norm_num
      have h5 : (2 : ℚ) ^ (k - 53) ≤ 2 ^ (k - 1) := two_zpow_le (by omega)
      refine le_trans ?_ (le_abs_self _)
      rw [hxk, h4]; linarith
  · left
    have hlt : (2 : ℚ) ^ k < x := lt_of_le_of_ne l1 (Ne.symm hxk)
    have ha' : (2 : ℤ) ^ 52 < a := by
      rw [ha, e52] at hlt
      have := lt_of_mul_lt_mul_right hlt hp.le
      exact_mod_cast this
    have ha2 : (2 : ℚ) ^ 52 + 1 ≤ a := by exact_mod_cast ha'
    have h6 : (2 : ℚ) ^ k + 2 ^ (k - 52) ≤ x := by
      rw [ha, e52]; nlinarith
    refine le_trans ?_ (le_abs_self _)
    linarith

/-- A number that is nearer to the double `x` than half the distance to the others is read as `x`. -/
theorem toDouble_of_near {x c : ℚ} (hx : IsDouble x) (hc : 0 ≤ c)
    (hnear : ∀ y, IsDouble y → y ≠ x → 2 * |c - x| < |x - y|) (htop : c < 2 ^ (1024 : ℤ) - 2 ^ (970 : ℤ)) : toDouble c = .ok x := by
  cases hd : toDouble c with
  | error e =>
    have he : e = .overflow := by
      unfold toDouble at hd
      split at hd
      · cases hd
      · dsimp only at hd
        split at hd
        · cases hd
        · cases hd; rfl
    subst he
    exact absurd ((C107_float_overflow hc).1 hd) (not_le.2 htop)
  | ok y =>
    obtain ⟨hy, hnb⟩ := C107_float hc hd
    by_contra hne
    have hyx : y ≠ x := fun e => hne (by rw [e])
    have h1 := hnear y hy hyx
    have h2 := hnb x hx
    have h3 : |x - y| ≤ |c - x| + |c - y| := by
      have : x - y = (c - y) - (c - x) := by ring
      rw [this]; refine (abs_sub _ _).trans (by linarith)
    linarith

theorem double_top {x : ℚ} (hx : IsDouble x) : x ≤ 2 ^ (1024 : ℤ) - 2 ^ (971 : ℤ) := by
  obtain ⟨m, e, hm, _, he, rfl⟩ := hx
  have h1 : (2 : ℚ) ^ e ≤ 2 ^ (971 : ℤ) := two_zpow_le he
  have h2 : (m : ℚ) ≤ 2 ^ 53 - 1 := by
    have : m ≤ 2 ^ 53 - 1 := by have := (abs_lt.1 hm).2; omega
    exact_mod_cast this
  have h3 : (0 : ℚ) < 2 ^ e := zpow_pos (by norm_num) _
  have h4 : ((2 : ℚ) ^ 53 - 1) * 2 ^ (971 : ℤ) = 2 ^ (1024 : ℤ) - 2 ^ (971 : ℤ) := by decide +kernel
  calc (m : ℚ) * 2 ^ e ≤ (2 ^ 53 - 1) * 2 ^ e := by gcongr
    _ ≤ (2 ^ 53 - 1) * 2 ^ (971 : ℤ) := mul_le_mul_of_nonneg_left h1 (by norm_num)
    _ = _ := h4

/-- Seventeen digits are enough. -/
theorem seventeen {x : ℚ} (hx : IsDouble x) (h : 0 < x) :
    toDouble (roundEven (x / 10 ^ (Int.log 10 x + 1 - 17)) * 10 ^ (Int.log 10 x + 1 - 17)) = .ok x := by
  obtain ⟨l1, l2⟩ := scaled_log x h
  obtain ⟨t1, t2⟩ := scaled_log10 h
  set E := Int.log 10 x with hE
  set k := Int.log 2 x with hk
  set u : ℚ := 10 ^ (E + 1 - 17) with hu
  have up : 0 < u := ten_zpow_pos _
  set c := roundEven (x / u) * u with hc
  have eu : (10 : ℚ) ^ E = 10 ^ (16 : ℕ) * u := by
    have : E = 16 + (E + 1 - 17) := by ring
    conv_lhs => rw [this, ten_zpow_add]
    norm_num [hu]
  have hclose : 2 * |c - x| ≤ u := by
    have h1 := roundEven_close (x / u)
    have h2 : c - x = -(x / u - roundEven (x / u)) * u := by rw [hc]; field_simp; ring
    rw [h2, abs_mul, abs_neg, abs_of_pos up]
    nlinarith
  have k52 : (2 : ℚ) ^ (k + 1) = 2 ^ (53 : ℕ) * 2 ^ (k - 52) := by
    have : k + 1 = 53 + (k - 52) := by ring
    rw [this, two_zpow_add]; norm_num
  have p52 : (0 : ℚ) < 2 ^ (k - 52) := zpow_pos (by norm_num) _
  have k53 : (2 : ℚ) ^ k = 2 ^ (53 : ℕ) * 2 ^ (k - 53) := by
    have : k = 53 + (k - 53) := by ring
    conv_lhs => rw [this, two_zpow_add]
    norm_num
  have p53 : (0 : ℚ) < 2 ^ (k - 53) := zpow_pos (by norm_num) _
  have u1 : u < 2 ^ (k - 52) := by
    have : 10 ^ (16 : ℕ) * u < 2 ^ (53 : ℕ) * 2 ^ (k - 52) := by rw [← eu, ← k52]; linarith
    norm_num at this
    linarith
  have hk970 : k ≤ 1023 := by
    have := (l1.trans (double_top hx)).trans_lt (by decide +kernel : (2 : ℚ) ^ (1024 : ℤ) - 2 ^ (971 : ℤ) < 2 ^ (1024 : ℤ))
    have := two_zpow_lt this
    omega
  refine toDouble_of_near hx ?_ ?_ ?_
  · have : 0 ≤ x / u := by positivity
    have h1 := abs_le.1 (roundEven_close (x / u))
    have h2 : (-1 : ℤ) < roundEven (x / u) := by
      have : (-1 : ℚ) < roundEven (x / u) := by linarith [h1.2]
      exact_mod_cast this
    have h3 : (0 : ℤ) ≤ roundEven (x / u) := by omega
    have h4 : (0 : ℚ) ≤ roundEven (x / u) := by exact_mod_cast h3
    positivity
  · intro y hy hn
    rcases double_apart hx h hy hn with h1 | ⟨h1, h2⟩
    · rw [← hk] at h1; linarith
    · rw [← hk] at h1 h2
      have : 10 ^ (16 : ℕ) * u ≤ 2 ^ (53 : ℕ) * 2 ^ (k - 53) := by rw [← eu, ← k53, ← h1]; exact t1
      norm_num at this
      linarith
  · have h1 := double_top hx
    have h2 : c ≤ x + u / 2 := by
      have := (abs_le.1 (show |c - x| ≤ u / 2 by linarith)).2
      linarith
    have h3 : (2 : ℚ) ^ (k - 52) ≤ 2 ^ (971 : ℤ) := two_zpow_le (by omega)
    have h4 : (2 : ℚ) ^ (971 : ℤ) = 2 * 2 ^ (970 : ℤ) := by decide +kernel
    rw [h4] at h1 h3
    generalize (2 : ℚ) ^ (1024 : ℤ) = A at *
    generalize (2 : ℚ) ^ (970 : ℤ) = B at *
    clear h4
    linarith

/-- What the search for digits finds: a decimal number that is read as `x`, with the least number of digits for which one of the two decimal numbers
around `x` is. -/
theorem shortDigits_spec {x : ℚ} : ∀ {fuel n : ℕ} {m j : ℤ}, shortDigits x fuel n = .ok (m, j) →
    ∃ n', n ≤ n' ∧ n' < n + fuel ∧ j = Int.log 10 x + 1 - n' ∧ toDouble (m * 10 ^ j) = .ok x ∧ (m = ⌊x / 10 ^ j⌋ ∨ m = ⌊x / 10 ^ j⌋ + 1) ∧
      ∀ i, n ≤ i → i < n' → ∀ a : ℤ, (a = ⌊x / 10 ^ (Int.log 10 x + 1 - i)⌋ ∨ a = ⌊x / 10 ^ (Int.log 10 x + 1 - i)⌋ + 1) →
        toDouble (a * 10 ^ (Int.log 10 x + 1 - i)) ≠ .ok x := by
  intro fuel
  induction fuel with
  | zero => intro n m j h; cases h
  | succ fuel ih =>
    intro n m j h
    unfold shortDigits at h
    simp only at h
    set J := Int.log 10 x + 1 - n with hJ
    set near := roundEven (x / 10 ^ J) with hnear
    have hcases : near = ⌊x / 10 ^ J⌋ ∨ near = ⌊x / 10 ^ J⌋ + 1 := by
      rw [hnear]; unfold roundEven; simp only; split_ifs <;> simp
    obtain ⟨far, hfar⟩ : ∃ far, far = if near = ⌊x / 10 ^ J⌋ then near + 1 else near - 1 := ⟨_, rfl⟩
    rw [← hfar] at h
    split at h
    · rename_i h1
      obtain ⟨rfl, rfl⟩ := Prod.mk.inj (Except.ok.inj h)
      exact ⟨n, le_rfl, by omega, rfl, h1, hcases, fun i h2 h3 => by omega⟩
    · rename_i h1
      split at h
      · rename_i h2
        obtain ⟨rfl, rfl⟩ := Prod.mk.inj (Except.ok.inj h)
        refine ⟨n, le_rfl, by omega, rfl, h2, ?_, fun i h2 h3 => by omega⟩
        rw [hfar]
        split
        · rename_i h3; right; rw [h3]
        · rename_i h3; left; rw [hcases.resolve_left h3]; ring
      · rename_i h2
        obtain ⟨n', g1, g2, g3, g4, g5, g6⟩ := ih h
        refine ⟨n', by omega, by omega, g3, g4, g5, ?_⟩
        intro i hi1 hi2 a ha
        rcases hi1.eq_or_lt with rfl | hi1
        · by_cases hn : near = ⌊x / 10 ^ J⌋
          · rw [hfar, if_pos hn] at h2
            rcases ha with rfl | rfl
            · rw [← hJ, ← hn]; exact h1
            · rw [← hJ, ← hn]; exact h2
          · rw [hfar, if_neg hn] at h2
            have hn' := hcases.resolve_left hn
            have e : near - 1 = ⌊x / 10 ^ J⌋ := by rw [hn']; ring
            rcases ha with rfl | rfl
            · rw [← hJ, ← e]; exact h2
            · rw [← hJ, ← hn']; exact h1
        · exact g6 i (by omega) hi2 a ha

theorem shortDigits_nearest {x : ℚ} : ∀ {fuel n : ℕ} {m j : ℤ}, shortDigits x fuel n = .ok (m, j) → ∀ b : ℤ, toDouble (b * 10 ^ j) = .ok x →
    |m * 10 ^ j - x| ≤ |b * 10 ^ j - x| := by
  intro fuel
  induction fuel with
  | zero => intro n m j h; cases h
  | succ fuel ih =>
    intro n m j h b hb
    unfold shortDigits at h
    simp only at h
    set J := Int.log 10 x + 1 - n with hJ
    have up := ten_zpow_pos J
    have scale : ∀ z : ℤ, |(z : ℚ) * 10 ^ J - x| = |x / 10 ^ J - z| * 10 ^ J := by
      intro z
      have e : (z : ℚ) * 10 ^ J - x = -((x / 10 ^ J - z) * 10 ^ J) := by field_simp; ring
      rw [e, abs_neg, abs_mul, abs_of_pos up]
    have hnr := roundEven_nearest (x / 10 ^ J)
    set near := roundEven (x / 10 ^ J) with hnear
    have hcases : near = ⌊x / 10 ^ J⌋ ∨ near = ⌊x / 10 ^ J⌋ + 1 := by
      rw [hnear]; unfold roundEven; simp only; split_ifs <;> simp
    obtain ⟨far, hfar⟩ : ∃ far, far = if near = ⌊x / 10 ^ J⌋ then near + 1 else near - 1 := ⟨_, rfl⟩
    rw [← hfar] at h
    split at h
    · obtain ⟨rfl, rfl⟩ := Prod.mk.inj (Except.ok.inj h)
      rw [scale, scale]
      exact mul_le_mul_of_nonneg_right (hnr b) up.le
    · rename_i h1
      split at h
      · obtain ⟨rfl, rfl⟩ := Prod.mk.inj (Except.ok.inj h)
        rw [scale, scale]
        refine mul_le_mul_of_nonneg_right ?_ up.le
        have hbn : b ≠ near := fun e => h1 (e ▸ hb)
        have f1 := Int.floor_le (x / 10 ^ J)
        have f2 := Int.lt_floor_add_one (x / 10 ^ J)
        clear_value near
        generalize x / 10 ^ J = y at *
        generalize ⌊y⌋ = z at *
        rcases lt_trichotomy b z with hz | rfl | hz
        · have : (b : ℚ) + 1 ≤ z := by exact_mod_cast hz
          rw [abs_of_nonneg (by linarith : 0 ≤ y - b)]
          rw [hfar]
          split
          · rename_i e; rw [e]; push_cast; rw [abs_of_nonpos (by linarith)]; linarith
          · rename_i e; rw [hcases.resolve_left e]; push_cast; rw [abs_of_nonneg (by linarith)]; linarith
        · rw [hfar, if_neg (Ne.symm hbn), hcases.resolve_left (Ne.symm hbn)]
          push_cast
          rw [add_sub_cancel_right]
        · rcases (show z + 1 ≤ b from hz).eq_or_lt with rfl | hz'
          · rw [hfar, if_pos (hcases.resolve_right (Ne.symm hbn)), hcases.resolve_right (Ne.symm hbn)]
          · have hz2 : z + 2 ≤ b := by omega
            have : (z : ℚ) + 2 ≤ b := by exact_mod_cast hz2
            rw [abs_of_nonpos (by linarith : y - b ≤ 0)]
            rw [hfar]
            split
            · rename_i e; rw [e]; push_cast; rw [abs_of_nonpos (by linarith)]; linarith
            · rename_i e; rw [hcases.resolve_left e]; push_cast; rw [abs_of_nonneg (by linarith)]; linarith
      · exact ih h b hb

theorem shortDigits_total {x : ℚ} (hx : IsDouble x) (h : 0 < x) : ∀ {fuel n : ℕ}, n ≤ 17 → 17 < n + fuel → ∃ p, shortDigits x fuel n = .ok p := by
  intro fuel
  induction fuel with
  | zero => intro n h1 h2; omega
  | succ fuel ih =>
    intro n h1 h2
    unfold shortDigits
    simp only
    generalize (if roundEven (x / 10 ^ (Int.log 10 x + 1 - (n : ℤ))) = ⌊x / 10 ^ (Int.log 10 x + 1 - (n : ℤ))⌋ then
      roundEven (x / 10 ^ (Int.log 10 x + 1 - (n : ℤ))) + 1 else roundEven (x / 10 ^ (Int.log 10 x + 1 - (n : ℤ))) - 1) = far
    split
    · exact ⟨_, rfl⟩
    · rename_i h3
      split
      · exact ⟨_, rfl⟩
      · by_cases hn : n = 17
        · subst hn
          exact absurd (seventeen hx h) h3
        · exact ih (by omega) (by omega)

/-! ### Which decimal numbers are read as the same double -/

/-- What is read as `x` on one side of `x` is read as `x` all the way. -/
theorem toDouble_between {x c d : ℚ} (hx : toDouble c = .ok x) (hc : 0 ≤ c) (h0 : 0 ≤ d) (hd : (c ≤ d ∧ d ≤ x) ∨ (x ≤ d ∧ d ≤ c)) : toDouble d = .ok x := by
  obtain ⟨h1, h2⟩ := C107_float hc hx
  cases hy : toDouble d with
  | error e =>
    have he : e = .overflow := by
      unfold toDouble at hy
      split at hy
      · cases hy
      · dsimp only at hy
        split at hy
        · cases hy
        · cases hy; rfl
    subst he
    have h3 := (C107_float_overflow h0).1 hy
    exfalso
    rcases hd with ⟨_, hd⟩ | ⟨_, hd⟩
    · have := double_top h1
      exact absurd ((h3.trans hd).trans this) (by decide +kernel)
    · have := (C107_float_overflow hc).2 (h3.trans hd)
      rw [hx] at this
      cases this
  | ok y =>
    obtain ⟨g1, g2⟩ := C107_float h0 hy
    by_contra hne
    have hyx : y ≠ x := fun e => hne (by rw [e])
    have a1 := h2 y g1
    have a2 := g2 x h1
    rcases hd with ⟨d1, d2⟩ | ⟨d1, d2⟩
    · have b1 : |c - x| = x - c := by rw [abs_sub_comm, abs_of_nonneg (by linarith)]
      have b2 : |d - x| = x - d := by rw [abs_sub_comm, abs_of_nonneg (by linarith)]
      rw [b1] at a1
      rw [b2] at a2
      have c1 := (abs_le.1 a2)
      have c2 : y ≤ x := by linarith
      have c3 : y < x := lt_of_le_of_ne c2 hyx
      rcases le_total c y with hcy | hcy
      · rw [abs_sub_comm, abs_of_nonneg (by linarith)] at a1; linarith
      · rw [abs_of_nonneg (by linarith)] at a1
        have : c = d := by linarith
        rw [this, hy] at hx
        cases hx
        exact hyx rfl
    · have b1 : |c - x| = c - x := abs_of_nonneg (by linarith)
      have b2 : |d - x| = d - x := abs_of_nonneg (by linarith)
      rw [b1] at a1
      rw [b2] at a2
      have c1 := (abs_le.1 a2)
      have c2 : x ≤ y := by linarith
      have c3 : x < y := lt_of_le_of_ne c2 (Ne.symm hyx)
      rcases le_total c y with hcy | hcy
      · rw [abs_sub_comm, abs_of_nonneg (by linarith)] at a1
        have : c = d := by linarith
        rw [this, hy] at hx
        cases hx
        exact hyx rfl
      · rw [abs_of_nonneg (by linarith)] at a1; linarith

/-- What is read as a normal double is near it. -/
theorem normal_close {x c : ℚ} (hc : 0 < c) (hx : toDouble c = .ok x) (h : 2 ^ (-1022 : ℤ) ≤ x) : |c - x| ≤ x / (2 ^ 53 - 1) := by
  have x0 : (0 : ℚ) < x := lt_of_lt_of_le (zpow_pos (by norm_num) _) h
  rcases le_or_gt (2 ^ (-1022 : ℤ)) c with h1 | h1
  · have h2 := abs_le.1 (toDouble_close h1 hx)
    have h3 : c * (2 ^ 53 - 1) ≤ 2 ^ 53 * x := by linarith [h2.1]
    rw [le_div_iff₀ (by norm_num), abs_sub_comm]
    have h4 := toDouble_close h1 hx
    have h5 : |x - c| * (2 ^ 53 - 1) ≤ (1 / 2 ^ 53 * c) * (2 ^ 53 - 1) := mul_le_mul_of_nonneg_right h4 (by norm_num)
    linarith
  · have hu : ulp c = 2 ^ (-1074 : ℤ) := by
      unfold ulp
      have : Int.log 2 c < -1022 := two_zpow_lt ((scaled_log c hc).1.trans_lt h1)
      rw [max_eq_right this.le]; norm_num
    rw [toDouble_eq hc] at hx
    split at hx
    swap
    · cases hx
    cases hx
    have h2 := roundEven_close (c / ulp c)
    have up := ulp_pos c
    have h3 : |c - roundEven (c / ulp c) * ulp c| ≤ 1 / 2 * ulp c := by
      have : c - roundEven (c / ulp c) * ulp c = (c / ulp c - roundEven (c / ulp c)) * ulp c := by field_simp
      rw [this, abs_mul, abs_of_pos up]
      exact mul_le_mul_of_nonneg_right h2 up.le
    refine h3.trans ?_
    rw [le_div_iff₀ (by norm_num)]
    refine le_trans ?_ h
    rw [hu]
    decide +kernel

theorem normal_stays {d x : ℚ} (h : 2 ^ (-1022 : ℤ) ≤ d) (hx : toDouble d = .ok x) : 2 ^ (-1022 : ℤ) ≤ x := by
  have d0 : (0 : ℚ) < d := lt_of_lt_of_le (zpow_pos (by norm_num) _) h
  have h1 := (C107_float d0.le hx).2 (2 ^ (-1022 : ℤ)) ⟨1, -1022, by norm_num, by norm_num, by norm_num, by norm_num⟩
  rw [abs_of_nonneg (sub_nonneg.2 h)] at h1
  have := (abs_le.1 h1).2
  linarith

/-- A decimal number `a * 10 ^ i` with at most `n` digits near `x`, if it is not below the power of ten at or below `x`, is a multiple of the last of `n`
digits of `x`. -/
theorem short_multiple {x : ℚ} {n : ℕ} {a : ℕ} {i : ℤ} (ha : a < 10 ^ n) (hle : (10 : ℚ) ^ Int.log 10 x ≤ a * 10 ^ i) :
    ∃ b : ℤ, (a : ℚ) * 10 ^ i = b * 10 ^ (Int.log 10 x + 1 - n) := by
  set E := Int.log 10 x with hE
  have hi : E + 1 - n ≤ i := by
    by_contra hn
    have h1 : (10 : ℚ) ^ i ≤ 10 ^ (E - n) := ten_zpow_le (by omega)
    have h2 : (a : ℚ) < 10 ^ n := by exact_mod_cast ha
    have h3 : (a : ℚ) * 10 ^ i < 10 ^ n * 10 ^ (E - n) := by
      have := ten_zpow_pos i
      have := ten_zpow_pos (E - n)
      calc (a : ℚ) * 10 ^ i ≤ a * 10 ^ (E - n) := by gcongr
        _ < _ := by gcongr
    have h4 : (10 : ℚ) ^ n * 10 ^ (E - n) = 10 ^ E := by
      rw [← zpow_natCast, ← ten_zpow_add]; congr 1; ring
    linarith
  refine ⟨a * 10 ^ (i - (E + 1 - n)).toNat, ?_⟩
  have : (10 : ℚ) ^ i = 10 ^ (i - (E + 1 - n)).toNat * 10 ^ (E + 1 - n) := by
    rw [← zpow_natCast, ← ten_zpow_add]; congr 1; omega
  rw [this]; push_cast; ring

theorem ten_zpow_fifteen (E : ℤ) : (10 : ℚ) ^ E = 10 ^ 14 * 10 ^ (E + 1 - (15 : ℕ)) ∧ (10 : ℚ) ^ (E + 1) = 10 ^ 15 * 10 ^ (E + 1 - (15 : ℕ)) := by
  constructor
  · have : E = (14 : ℕ) + (E + 1 - (15 : ℕ)) := by push_cast; ring
    conv_lhs => rw [this, ten_zpow_add]
    norm_num
  · have : E + 1 = (15 : ℕ) + (E + 1 - (15 : ℕ)) := by push_cast; ring
    conv_lhs => rw [this, ten_zpow_add]
    norm_num

/-- Fifteen digits: the decimal number found is the one the double came from. -/
theorem fifteen {x : ℚ} {a : ℕ} {i : ℤ} (ha : a < 10 ^ 15) (h : 2 ^ (-1022 : ℤ) ≤ (a : ℚ) * 10 ^ i) (hx : toDouble (a * 10 ^ i) = .ok x) {m j : ℤ}
    (hm : shortDigits x 17 1 = .ok (m, j)) : (m : ℚ) * 10 ^ j = a * 10 ^ i := by
  set d : ℚ := a * 10 ^ i with hd
  have d0 : (0 : ℚ) < d := lt_of_lt_of_le (zpow_pos (by norm_num) _) h
  have hxn := normal_stays h hx
  have x0 : (0 : ℚ) < x := lt_of_lt_of_le (zpow_pos (by norm_num) _) hxn
  have cd := normal_close d0 hx hxn
  obtain ⟨t1, t2⟩ := scaled_log10 x0
  set E := Int.log 10 x with hE
  obtain ⟨e14, e15⟩ := ten_zpow_fifteen E
  set u : ℚ := 10 ^ (E + 1 - (15 : ℕ)) with hu
  have up : 0 < u := ten_zpow_pos _
  have hdE : (10 : ℚ) ^ E ≤ d := by
    by_contra hn
    have hn := not_le.1 hn
    have hi : i ≤ E - 15 := by
      by_contra hi
      have : ∃ b : ℤ, d = b * u := by
        refine ⟨a * 10 ^ (i - (E + 1 - (15 : ℕ))).toNat, ?_⟩
        have : (10 : ℚ) ^ i = 10 ^ (i - (E + 1 - (15 : ℕ))).toNat * 10 ^ (E + 1 - (15 : ℕ) : ℤ) := by
          rw [← zpow_natCast, ← ten_zpow_add]; congr 1; omega
        rw [hd, this, ← hu]; push_cast; ring
      obtain ⟨b, hb⟩ := this
      have hb2 : b < 10 ^ 14 := by
        rw [hb, e14] at hn
        have := lt_of_mul_lt_mul_right hn up.le
        exact_mod_cast this
      have hb3 : (b : ℚ) ≤ 10 ^ 14 - 1 := by
        have : b ≤ 10 ^ 14 - 1 := by omega
        exact_mod_cast this
      have h1 := (abs_le.1 cd).1
      have h2 : x - x / (2 ^ 53 - 1) ≤ d := by linarith
      have h3 : d ≤ (10 ^ 14 - 1) * u := by rw [hb]; gcongr
      have h4 : 10 ^ 14 * u ≤ x := by rw [← e14]; exact t1
      norm_num at h2 h3 h4
      linarith
    have h1 : (10 : ℚ) ^ i ≤ 10 ^ (E - 15) := ten_zpow_le hi
    have h2 : (a : ℚ) ≤ 10 ^ 15 - 1 := by
      have : a + 1 ≤ 10 ^ 15 := ha
      have : (a : ℚ) + 1 ≤ 10 ^ 15 := by exact_mod_cast this
      linarith
    have e10 : u = 10 * 10 ^ (E - 15) := by
      have : E + 1 - (15 : ℕ) = 1 + (E - 15) := by push_cast; ring
      rw [hu, this, ten_zpow_add]; norm_num
    have h3 : d ≤ (10 ^ 15 - 1) * 10 ^ (E - 15) := by
      rw [hd]
      have := ten_zpow_pos i
      calc (a : ℚ) * 10 ^ i ≤ (10 ^ 15 - 1) * 10 ^ i := by gcongr
        _ ≤ _ := mul_le_mul_of_nonneg_left h1 (by norm_num)
    have h4 : 10 ^ 14 * u ≤ x := by rw [← e14]; exact t1
    have h5 := (abs_le.1 cd).1
    rw [e10] at h4
    generalize (10 : ℚ) ^ (E - 15) = w at *
    norm_num at h3 h4 h5
    linarith
  obtain ⟨b, hb⟩ := short_multiple ha hdE
  rw [← hE, ← hu, ← hd] at hb
  have hxu : x < 10 ^ 15 * u := by rw [← e15]; exact t2
  -- one of the two fifteen-digit numbers around `x` is `d`
  have hb' : b = ⌊x / u⌋ ∨ b = ⌊x / u⌋ + 1 := by
    have h1 : |d - x| < u := by
      refine cd.trans_lt ?_
      rw [div_lt_iff₀ (by norm_num)]
      norm_num at hxu ⊢
      linarith
    have h2 := abs_lt.1 h1
    rw [hb] at h2
    have h3 : (b : ℚ) - 1 < x / u := by rw [lt_div_iff₀ up]; linarith
    have h4 : x / u < (b : ℚ) + 1 := by rw [div_lt_iff₀ up]; linarith
    have h5 : ⌊x / u⌋ < b + 1 := by rw [Int.floor_lt]; exact_mod_cast h4
    have h6 : b - 1 ≤ ⌊x / u⌋ := by rw [Int.le_floor]; push_cast; exact h3.le
    omega
  obtain ⟨n', g1, g2, g3, g4, g5, g6⟩ := shortDigits_spec hm
  rw [← hE] at g3 g6
  have hn15 : n' ≤ 15 := by
    by_contra hn
    refine g6 15 (by omega) (by omega) b hb' ?_
    rw [← hu, ← hb]
    exact hx
  -- the number found is a multiple of the same place
  have hmu : ∃ c : ℤ, (m : ℚ) * 10 ^ j = c * u := by
    refine ⟨m * 10 ^ (15 - n'), ?_⟩
    have : (10 : ℚ) ^ j = 10 ^ (15 - n') * u := by
      rw [g3, hu, ← zpow_natCast, ← ten_zpow_add]; congr 1; omega
    rw [this]; push_cast; ring
  obtain ⟨c, hc⟩ := hmu
  have m0 : (0 : ℚ) < m * 10 ^ j := by
    rcases (le_or_gt ((m : ℚ) * 10 ^ j) 0) with h0 | h0
    · exfalso
      have hj := ten_zpow_pos j
      have h1 : (1 : ℤ) ≤ ⌊x / 10 ^ j⌋ := by
        rw [Int.le_floor, le_div_iff₀ hj]
        push_cast
        rw [one_mul]
        refine (ten_zpow_le ?_).trans t1
        omega
      have h2 : (1 : ℤ) ≤ m := by omega
      have h3 : (1 : ℚ) ≤ m := by exact_mod_cast h2
      nlinarith
    · exact h0
  have cm := normal_close m0 g4 hxn
  have h1 : |(m : ℚ) * 10 ^ j - d| < u := by
    have : (m : ℚ) * 10 ^ j - d = (m * 10 ^ j - x) - (d - x) := by ring
    rw [this]
    refine (abs_sub _ _).trans_lt ?_
    have : x / (2 ^ 53 - 1) < u / 2 := by
      rw [div_lt_iff₀ (by norm_num)]
      norm_num at hxu ⊢
      linarith
    linarith
  rw [hc, hb, ← sub_mul, abs_mul, abs_of_pos up] at h1
  have h2 : |((c - b : ℤ) : ℚ)| < 1 := by
    push_cast
    nlinarith
  have h3 : c = b := by
    rw [← Int.cast_abs] at h2
    have : |c - b| < 1 := by exact_mod_cast h2
    have := Int.abs_lt_one_iff.1 this
    omega
  rw [hc, hb, h3]

/-! ### The text and how it is read -/

theorem number_app (a b : List Char) : number (a ++ b) = number a * 10 ^ b.length + number b := by
  induction b using List.reverseRecOn with
  | nil => simp [number]
  | append_singleton b c ih =>
    have e : ∀ l : List Char, number (l ++ [c]) = 10 * number l + (c.toNat - 48) := fun l => by unfold number; rw [List.foldl_append]; rfl
    rw [← List.append_assoc, e, e, ih, List.length_append, List.length_singleton, pow_succ]
    ring

theorem number_zeros (k : ℕ) : number (List.replicate k '0') = 0 := by
  induction k with
  | zero => rfl
  | succ k ih => rw [List.replicate_succ', number_app, ih]; rfl

theorem digits_app {a b : List Char} (ha : Digits a) (hb : Digits b) : Digits (a ++ b) := by
  intro c hc
  rcases List.mem_append.1 hc with h | h
  · exact ha c h
  · exact hb c h

theorem digits_zeros (k : ℕ) : Digits (List.replicate k '0') := by
  intro c hc
  rw [List.eq_of_mem_replicate hc]
  decide

theorem expDigits_spec (n : ℕ) : Digits (expDigits n) ∧ expDigits n ≠ [] ∧ number (expDigits n) = n := by
  obtain ⟨h1, h2, h3⟩ := digits_nat n
  unfold expDigits
  split
  · refine ⟨digits_app (digits_zeros 1) h1, by simp, ?_⟩
    have : number (['0'] ++ Nat.toDigits 10 n) = n := by rw [number_app, h3]; simp [number]
    exact this
  · exact ⟨h1, h2, h3⟩

/-- The parts of the text of a double. -/
theorem layout_parts {ds : List Char} (hd : Digits ds) (hne : ds ≠ []) (h0 : ds.head? ≠ some '0') (j : ℤ) :
    ∃ w f fd e k, layout ds (ds.length + j) = w ++ f ++ e ∧ Whole w ∧ Point f fd ∧ (f ≠ [] → fd ≠ []) ∧ Exponent e k ∧ (f ≠ [] ∨ e ≠ []) ∧
      ((number w : ℚ) + number fd / 10 ^ fd.length) * 10 ^ k = number ds * 10 ^ j := by
  have hlen : 0 < ds.length := List.length_pos_of_ne_nil hne
  unfold layout
  split
  · split
    · rename_i h1 h2
      set z := (-((ds.length : ℤ) + j)).toNat with hz
      refine ⟨['0'], '.' :: (List.replicate z '0' ++ ds), List.replicate z '0' ++ ds, [], 0, by simp, ⟨?_, by simp, by simp⟩,
        .some _ (digits_app (digits_zeros _) hd), fun _ => by simp [hne], .none, .inl (by simp), ?_⟩
      · exact digits_zeros 1
      · rw [number_app, number_zeros, List.length_append, List.length_replicate]
        have e : j = -((z + ds.length : ℕ) : ℤ) := by push_cast; omega
        rw [e, zpow_neg, zpow_natCast]
        simp [number]
        field_simp
    · split
      · rename_i h1 h2 h3
        set p := ((ds.length : ℤ) + j).toNat with hp
        have hpl : p < ds.length := by omega
        have hp0 : 0 < p := by omega
        refine ⟨ds.take p, '.' :: ds.drop p, ds.drop p, [], 0, by simp, ⟨fun c hc => hd c (List.mem_of_mem_take hc), ?_, ?_⟩,
          .some _ (fun c hc => hd c (List.mem_of_mem_drop hc)), fun _ => ?_, .none, .inl (by simp), ?_⟩
        · intro h
          have := congrArg List.length h
          rw [List.length_take, List.length_nil] at this
          omega
        · intro h
          rw [List.head?_take, if_neg (by omega)] at h
          exact absurd h h0
        · intro h
          have := congrArg List.length h
          simp at this
          omega
        · have h4 := number_app (ds.take p) (ds.drop p)
          rw [List.take_append_drop] at h4
          rw [h4]
          have e : j = -((ds.drop p).length : ℤ) := by rw [List.length_drop]; omega
          rw [e, zpow_neg, zpow_natCast]
          push_cast
          rw [mul_one]
          field_simp
      · rename_i h1 h2 h3
        set z := ((ds.length : ℤ) + j).toNat - ds.length with hz
        refine ⟨ds ++ List.replicate z '0', ['.', '0'], ['0'], [], 0, by simp, ⟨digits_app hd (digits_zeros _), by simp [hne], ?_⟩,
          .some _ (digits_zeros 1), fun _ => by simp, .none, .inl (by simp), ?_⟩
        · intro h
          rw [List.head?_append_of_ne_nil _ hne] at h
          exact absurd h h0
        · rw [number_app, number_zeros, List.length_replicate]
          have e : j = (z : ℤ) := by omega
          rw [e, zpow_natCast]
          simp [number]
  · simp only
    set e := (ds.length : ℤ) + j - 1 with he
    obtain ⟨x1, x2, x3⟩ := expDigits_spec e.natAbs
    have hexp : Exponent ('e' :: (if e < 0 then '-' else '+') :: expDigits e.natAbs) e := by
      split
      · rename_i hs
        have := Exponent.some 'e' (.inl rfl) ['-'] (-1) .minus _ x1 x2
        rw [x3] at this
        have e1 : (-1) * ((e.natAbs : ℕ) : ℤ) = e := by omega
        rw [e1] at this
        exact this
      · rename_i hs
        have := Exponent.some 'e' (.inl rfl) ['+'] 1 .plus _ x1 x2
        rw [x3] at this
        have e1 : 1 * ((e.natAbs : ℕ) : ℤ) = e := by omega
        rw [e1] at this
        exact this
    obtain ⟨c, r, rfl⟩ := List.exists_cons_of_ne_nil hne
    have hc : c ≠ '0' := fun h => h0 (by rw [h]; rfl)
    have hw : Whole [c] := ⟨fun x hx => hd x (by rw [List.mem_singleton.1 hx]; exact List.mem_cons_self), by simp,
      fun h => absurd (Option.some.inj h) hc⟩
    have hn := number_app [c] r
    rw [List.singleton_append] at hn
    split
    · rename_i h1
      have hr : r = [] := by simpa using h1
      subst hr
      refine ⟨[c], [], [], _, e, rfl, hw, .none, fun h => absurd rfl h, hexp, .inr (by simp), ?_⟩
      have : e = j := by rw [he]; simp
      rw [this]
      simp [number]
    · rename_i h1
      have hr : r ≠ [] := fun h => h1 (by rw [h]; rfl)
      refine ⟨[c], '.' :: r, r, _, e, rfl, hw, .some _ (fun x hx => hd x (List.mem_cons_of_mem _ hx)), fun _ => hr, hexp, .inl (by simp), ?_⟩
      rw [hn]
      have : e = (r.length : ℤ) + j := by rw [he, List.length_cons]; push_cast; ring
      rw [this, ten_zpow_add, zpow_natCast]
      push_cast
      field_simp

theorem jsonNumber_plain {s : List Char} {v : PyVal} (h : JsonNumber s v) : PlainText s := by
  have hdig : ∀ {l : List Char}, Digits l → ∀ c ∈ l, ' ' ≤ c ∧ c ≤ '~' := fun hl c hc =>
    ⟨le_trans (by decide) (hl c hc).1, le_trans (hl c hc).2 (by decide)⟩
  have hmin : ∀ {l : List Char} {σ : ℤ}, Minus l σ → ∀ c ∈ l, ' ' ≤ c ∧ c ≤ '~' := by
    intro l σ hl c hc
    cases hl with
    | none => cases hc
    | minus => rw [List.mem_singleton.1 hc]; decide
  refine plain_of ?_
  intro c hc
  cases h with
  | int s w σ hs hw =>
    rcases List.mem_append.1 hc with h | h
    · exact hmin hs c h
    · exact hdig hw.1 c h
  | dec s w f fd e σ k hs hw hf hfd he hne =>
    rcases List.mem_append.1 hc with h | h
    · rcases List.mem_append.1 h with h | h
      · rcases List.mem_append.1 h with h | h
        · exact hmin hs c h
        · exact hdig hw.1 c h
      · cases hf with
        | none => cases h
        | some l hl =>
          rcases List.mem_cons.1 h with rfl | h
          · decide
          · exact hdig hl c h
    · cases he with
      | none => cases h
      | some x hx sg τ hsg l hl hl0 =>
        rcases List.mem_cons.1 h with rfl | h
        · rcases hx with rfl | rfl <;> decide
        · rcases List.mem_append.1 h with h | h
          · cases hsg with
            | none => cases h
            | plus => rw [List.mem_singleton.1 h]; decide
            | minus => rw [List.mem_singleton.1 h]; decide
          · exact hdig hl c h

/-- The text of a positive double: the digits found, as a json number. -/
theorem floatText_value {x : ℚ} (h : 0 < x) {m j : ℤ} (hp : shortDigits x 17 1 = .ok (m, j)) : ∃ s c, floatText x = .ok s ∧ 0 ≤ c ∧
    toDouble c = .ok x ∧ (∀ sg σ, Minus sg σ → JsonNumber (sg ++ s) (.dec (σ * c))) ∧ c = m * 10 ^ j := by
  obtain ⟨n', g1, g2, g3, g4, g5, _⟩ := shortDigits_spec hp
  have m1 : 1 ≤ m := by
    have h1 : (1 : ℤ) ≤ ⌊x / 10 ^ j⌋ := by
      rw [Int.le_floor, le_div_iff₀ (ten_zpow_pos j)]
      push_cast
      rw [one_mul]
      exact (ten_zpow_le (by omega)).trans (scaled_log10 h).1
    omega
  obtain ⟨⟨m', j'⟩, hn⟩ : ∃ p, normDigits (m, j) = p := ⟨_, rfl⟩
  have hv : 1 ≤ m' ∧ (m' : ℚ) * 10 ^ j' = m * 10 ^ j := by
    unfold normDigits at hn
    split at hn
    · rename_i h10
      have h10 : m = 10 := h10
      cases hn
      refine ⟨le_rfl, ?_⟩
      rw [h10, add_comm, ten_zpow_add]; norm_num
    · cases hn; exact ⟨m1, rfl⟩
  obtain ⟨d1, d2, d3⟩ := digits_nat m'.toNat
  have d4 := toDigits_head m'.toNat (by omega)
  obtain ⟨w, f, fd, e, k, e1, e2, e3, e4, e5, e6, e7⟩ := layout_parts d1 d2 d4 j'
  have hm' : ((m'.toNat : ℕ) : ℚ) = m' := by
    have : ((m'.toNat : ℕ) : ℤ) = m' := Int.toNat_of_nonneg (by omega)
    exact_mod_cast this
  have hval : ((number w : ℚ) + number fd / 10 ^ fd.length) * 10 ^ k = m * 10 ^ j := by rw [e7, d3, hm', hv.2]
  refine ⟨layout (Nat.toDigits 10 m'.toNat) ((Nat.toDigits 10 m'.toNat).length + j'), m * 10 ^ j, ?_, ?_, g4, ?_, rfl⟩
  · unfold floatText
    rw [if_neg h.ne', hp, ok_bind, hn]
    rfl
  · have : (1 : ℚ) ≤ m := by exact_mod_cast m1
    have := ten_zpow_pos j
    positivity
  · intro sg σ hs
    have := JsonNumber.dec sg w f fd e σ k hs e2 e3 e4 e5 e6
    rw [hval] at this
    rw [e1, ← List.append_assoc, ← List.append_assoc]
    exact this

/-- The text of a double, and the decimal number it stands for. -/
theorem floatText_spec {x : ℚ} (hx : IsDouble x) (h : 0 ≤ x) : ∃ s c, floatText x = .ok s ∧ 0 ≤ c ∧ toDouble c = .ok x ∧
    (∀ sg σ, Minus sg σ → JsonNumber (sg ++ s) (.dec (σ * c))) ∧ ∀ q, 0 ≤ q → IsShort q → toDouble q = .ok x → c = q := by
  rcases h.eq_or_lt with rfl | h
  · refine ⟨['0', '.', '0'], 0, rfl, le_rfl, rfl, ?_, ?_⟩
    · intro sg σ hs
      have := JsonNumber.dec sg ['0'] ['.', '0'] ['0'] [] σ 0 hs ⟨digits_zeros 1, by simp, by simp⟩ (.some _ (digits_zeros 1)) (by simp) .none (.inl (by simp))
      simpa [number] using this
    · intro q h0 hq hd
      rcases hq with rfl | ⟨a, i, _, _, h3⟩
      · rfl
      · have h4 := normal_stays h3 hd
        exact absurd h4 (by decide +kernel)
  · obtain ⟨⟨m, j⟩, hp⟩ := shortDigits_total hx h (fuel := 17) (n := 1) (by omega) (by omega)
    obtain ⟨s, c, h1, h2, h3, h4, rfl⟩ := floatText_value h hp
    refine ⟨s, _, h1, h2, h3, h4, ?_⟩
    intro q h0 hq hd
    rcases hq with rfl | ⟨a, i, h1, rfl, h3⟩
    · unfold toDouble at hd
      rw [if_pos rfl] at hd
      cases hd
      exact absurd h (lt_irrefl _)
    · exact fifteen h1 h3 hd hp

/-- The search stops at or before the number of digits of any decimal number that is read as `x`. -/
theorem shortDigits_le {x : ℚ} (h : 0 < x) {m j : ℤ} (hp : shortDigits x 17 1 = .ok (m, j)) {a n : ℕ} {i : ℤ} (ha : a < 10 ^ n)
    (hd : toDouble (a * 10 ^ i) = .ok x) : 0 < n ∧ Int.log 10 x + 1 - n ≤ j := by
  have a0 : (0 : ℚ) ≤ a * 10 ^ i := by have := ten_zpow_pos i; positivity
  obtain ⟨n', g1, g2, g3, g4, g5, g6⟩ := shortDigits_spec hp
  obtain ⟨t1, t2⟩ := scaled_log10 h
  set E := Int.log 10 x with hE
  have n0 : 0 < n := by
    rcases Nat.eq_zero_or_pos n with rfl | h0
    · have : a = 0 := by omega
      subst this
      unfold toDouble at hd
      rw [if_pos (by simp)] at hd
      cases hd
      exact absurd h (lt_irrefl _)
    · exact h0
  have floor_one : ∀ k : ℕ, 1 ≤ k → (10 : ℚ) ^ E ≤ ⌊x / 10 ^ (E + 1 - k)⌋ * 10 ^ (E + 1 - k) ∧ (⌊x / 10 ^ (E + 1 - k)⌋ : ℚ) * 10 ^ (E + 1 - k) ≤ x ∧
      x < (⌊x / 10 ^ (E + 1 - k)⌋ + 1) * 10 ^ (E + 1 - k) := by
    intro k hk
    have up := ten_zpow_pos (E + 1 - k)
    refine ⟨?_, ?_, ?_⟩
    · have e : (10 : ℚ) ^ E = ((10 ^ (k - 1) : ℤ) : ℚ) * 10 ^ (E + 1 - k) := by
        push_cast
        rw [← zpow_natCast, ← ten_zpow_add]; congr 1; omega
      have : (10 : ℤ) ^ (k - 1) ≤ ⌊x / 10 ^ (E + 1 - k)⌋ := by
        rw [Int.le_floor, le_div_iff₀ up, ← e]; exact t1
      rw [e]
      have : (((10 : ℤ) ^ (k - 1) : ℤ) : ℚ) ≤ ⌊x / 10 ^ (E + 1 - k)⌋ := by exact_mod_cast this
      gcongr
    · rw [← le_div_iff₀ up]; exact Int.floor_le _
    · rw [← div_lt_iff₀ up]; exact Int.lt_floor_add_one _
  have hle : n' ≤ n := by
    by_contra hn
    rcases lt_or_ge ((a : ℚ) * 10 ^ i) (10 ^ E) with h1 | h1
    · obtain ⟨f1, f2, _⟩ := floor_one 1 le_rfl
      exact g6 1 le_rfl (by omega) _ (.inl rfl) (toDouble_between hd a0 (by have := ten_zpow_pos E; linarith) (.inl ⟨by linarith, f2⟩))
    · obtain ⟨b, hb⟩ := short_multiple ha h1
      obtain ⟨f1, f2, f3⟩ := floor_one n n0
      rw [← hE] at hb
      have up := ten_zpow_pos (E + 1 - n)
      rcases le_or_gt b ⌊x / 10 ^ (E + 1 - n)⌋ with h2 | h2
      · refine g6 n n0 (by omega) _ (.inl rfl) (toDouble_between hd a0 (by have := ten_zpow_pos E; linarith) (.inl ⟨?_, f2⟩))
        rw [hb]
        have : (b : ℚ) ≤ ⌊x / 10 ^ (E + 1 - n)⌋ := by exact_mod_cast h2
        gcongr
      · refine g6 n n0 (by omega) _ (.inr rfl) (toDouble_between hd a0 ?_ (.inr ⟨?_, ?_⟩))
        · push_cast; linarith
        · push_cast; exact f3.le
        · rw [hb]
          have : ((⌊x / 10 ^ (E + 1 - n)⌋ + 1 : ℤ) : ℚ) ≤ b := by exact_mod_cast h2
          gcongr
  exact ⟨n0, by omega⟩

/-! ### The properties -/

/-- C109. The text of a double is a json number, and `float` of the number read is the same double. -/
theorem C109_float_text {x : ℚ} (hx : IsDouble x) (h : 0 ≤ x) : ∃ s c, floatText x = .ok s ∧ JsonText s (.dec c) ∧ toDouble c = .ok x := by
  obtain ⟨s, c, h1, _, h3, h4, _⟩ := floatText_spec hx h
  refine ⟨s, c, h1, ⟨[], [], s, by simp, jsonBlanks_nil, jsonBlanks_nil, .number _ _ ?_⟩, h3⟩
  have := h4 [] 1 .none
  simpa using this

/-- C109. No decimal number with fewer digits stands for the same double. -/
theorem C109_shortest {x c : ℚ} (h : 0 < x) {s : List Char} (hs : floatText x = .ok s) (hc : JsonText s (.dec c)) {a n : ℕ} {i : ℤ} (ha : a < 10 ^ n)
    (hd : toDouble (a * 10 ^ i) = .ok x) : ∃ (b : ℕ) (l : ℤ), b < 10 ^ n ∧ c = b * 10 ^ l := by
  have a0 : (0 : ℚ) ≤ a * 10 ^ i := by have := ten_zpow_pos i; positivity
  have hx := (C107_float a0 hd).1
  obtain ⟨⟨m, j⟩, hp⟩ := shortDigits_total hx h (fuel := 17) (n := 1) (by omega) (by omega)
  obtain ⟨n', g1, g2, g3, g4, g5, g6⟩ := shortDigits_spec hp
  obtain ⟨s', c', f1, f2, f3, f4, f5⟩ := floatText_value h hp
  cases hs.symm.trans f1
  have hcc : c = m * 10 ^ j := by
    have h1 : JsonText s (.dec (m * 10 ^ j)) := by
      refine ⟨[], [], s, by simp, jsonBlanks_nil, jsonBlanks_nil, .number _ _ ?_⟩
      have := f4 [] 1 .none
      rw [f5] at this
      simpa using this
    exact PyVal.dec.inj (C100_unambiguous hc h1)
  obtain ⟨t1, t2⟩ := scaled_log10 h
  set E := Int.log 10 x with hE
  obtain ⟨n0, hle'⟩ := shortDigits_le h hp ha hd
  have hle : n' ≤ n := by omega
  have m1 : 1 ≤ m := by
    have h1 : (1 : ℤ) ≤ ⌊x / 10 ^ j⌋ := by
      rw [Int.le_floor, le_div_iff₀ (ten_zpow_pos j)]
      push_cast
      rw [one_mul]
      exact (ten_zpow_le (by omega)).trans t1
    omega
  have m2 : m ≤ 10 ^ n' := by
    have h1 : ⌊x / 10 ^ j⌋ < 10 ^ n' := by
      rw [Int.floor_lt, div_lt_iff₀ (ten_zpow_pos j)]
      refine t2.trans_le (le_of_eq ?_)
      push_cast
      rw [g3, ← zpow_natCast, ← ten_zpow_add]; congr 1; ring
    omega
  have pw : (10 : ℕ) ^ n' ≤ 10 ^ n := Nat.pow_le_pow_right (by norm_num) hle
  rcases m2.eq_or_lt with h10 | h10
  · refine ⟨1, n' + j, ?_, ?_⟩
    · calc 1 < 10 ^ 1 := by norm_num
        _ ≤ 10 ^ n := Nat.pow_le_pow_right (by norm_num) n0
    · rw [hcc, h10, ten_zpow_add]; push_cast; rw [zpow_natCast]; ring
  · refine ⟨m.toNat, j, ?_, ?_⟩
    · have : (m.toNat : ℤ) < ((10 ^ n' : ℕ) : ℤ) := by rw [Int.toNat_of_nonneg (by omega)]; exact_mod_cast h10
      exact lt_of_lt_of_le (by exact_mod_cast this) pw
    · rw [hcc]
      congr 1
      have : ((m.toNat : ℕ) : ℤ) = m := Int.toNat_of_nonneg (by omega)
      exact_mod_cast this.symm

/-- C109. Of the decimal numbers with so few digits that stand for the double, the nearest one is written. -/
theorem C109_nearest {x c : ℚ} (h : 0 < x) {s : List Char} (hs : floatText x = .ok s) (hc : JsonText s (.dec c)) {a n : ℕ} {i : ℤ} (ha : a < 10 ^ n)
    (hd : toDouble (a * 10 ^ i) = .ok x) (hn : ∀ (b k : ℕ) (l : ℤ), b < 10 ^ k → k < n → toDouble (b * 10 ^ l) ≠ .ok x) : |c - x| ≤ |a * 10 ^ i - x| := by
  have a0 : (0 : ℚ) ≤ a * 10 ^ i := by have := ten_zpow_pos i; positivity
  have hx := (C107_float a0 hd).1
  obtain ⟨⟨m, j⟩, hp⟩ := shortDigits_total hx h (fuel := 17) (n := 1) (by omega) (by omega)
  obtain ⟨n', g1, g2, g3, g4, g5, g6⟩ := shortDigits_spec hp
  have hcd : toDouble c = .ok x ∧ c = m * 10 ^ j := by
    obtain ⟨s', c', f1, f2, f3, f4, f5⟩ := floatText_value h hp
    cases hs.symm.trans f1
    have h1 : JsonText s (.dec c') := by
      refine ⟨[], [], s, by simp, jsonBlanks_nil, jsonBlanks_nil, .number _ _ ?_⟩
      have := f4 [] 1 .none
      simpa using this
    cases C100_unambiguous hc h1
    exact ⟨f3, f5⟩
  obtain ⟨hcd, rfl⟩ := hcd
  obtain ⟨n0, hle⟩ := shortDigits_le h hp ha hd
  obtain ⟨t1, t2⟩ := scaled_log10 h
  set E := Int.log 10 x with hE
  rcases lt_or_ge ((a : ℚ) * 10 ^ i) (10 ^ E) with h1 | h1
  · have hone : toDouble (((1 : ℕ) : ℚ) * 10 ^ E) = .ok x := by
      rw [Nat.cast_one, one_mul]
      exact toDouble_between hd a0 (ten_zpow_pos E).le (.inl ⟨h1.le, t1⟩)
    have hj := (shortDigits_le (n := 1) h hp (by norm_num) hone).2
    have hj' : j = E := by omega
    have h2 := shortDigits_nearest hp 1 (by rw [hj', Int.cast_one]; rw [Nat.cast_one] at hone; exact hone)
    refine h2.trans ?_
    rw [hj', Int.cast_one, one_mul, abs_of_nonpos (by linarith), abs_of_nonpos (by linarith)]
    linarith
  · obtain ⟨b, hb⟩ := short_multiple ha h1
    rw [← hE] at hb
    have hnn : n' = n := by
      by_contra hne
      have m1 : 0 ≤ m := by
        have h1 : (0 : ℤ) ≤ ⌊x / 10 ^ j⌋ := by rw [Int.le_floor]; push_cast; exact (div_pos h (ten_zpow_pos j)).le
        omega
      have m2 : m ≤ 10 ^ n' := by
        have h1 : ⌊x / 10 ^ j⌋ < 10 ^ n' := by
          rw [Int.floor_lt, div_lt_iff₀ (ten_zpow_pos j)]
          refine t2.trans_le (le_of_eq ?_)
          push_cast
          rw [g3, ← zpow_natCast, ← ten_zpow_add]; congr 1; ring
        omega
      rcases m2.eq_or_lt with h10 | h10
      · refine hn 1 n' (n' + j) (Nat.one_lt_pow (by omega) (by norm_num)) (by omega) ?_
        rw [← g4, h10, ten_zpow_add]; push_cast; rw [zpow_natCast, one_mul]
      · refine hn m.toNat n' j ?_ (by omega) ?_
        · have : (m.toNat : ℤ) < ((10 ^ n' : ℕ) : ℤ) := by rw [Int.toNat_of_nonneg m1]; exact_mod_cast h10
          exact_mod_cast this
        · have : ((m.toNat : ℕ) : ℤ) = m := Int.toNat_of_nonneg m1
          have : ((m.toNat : ℕ) : ℚ) = m := by exact_mod_cast this
          rw [this]; exact g4
    have hjn : j = E + 1 - n := by rw [← hnn]; exact g3
    rw [← hjn] at hb
    rw [hb]
    exact shortDigits_nearest hp b (by rw [← hb]; exact hd)

/-- C109. The number is written with an exponent exactly if it is less than 0.0001 or at least 10^16. -/
theorem C109_form {x c : ℚ} (h : 0 < x) {s : List Char} (hs : floatText x = .ok s) (hc : JsonText s (.dec c)) :
    'e' ∈ s ↔ c < 1 / 10 ^ 4 ∨ 10 ^ 16 ≤ c := by
  have hs0 := hs
  unfold floatText at hs
  rw [if_neg h.ne', bind_eq_ok] at hs
  obtain ⟨⟨m, j⟩, hp, hs⟩ := hs
  obtain ⟨s', c', f1, f2, f3, f4, f5⟩ := floatText_value h hp
  cases hs0.symm.trans f1
  have hcc : c = m * 10 ^ j := by
    have h1 : JsonText s (.dec c') := by
      refine ⟨[], [], s, by simp, jsonBlanks_nil, jsonBlanks_nil, .number _ _ ?_⟩
      have := f4 [] 1 .none
      simpa using this
    cases C100_unambiguous hc h1
    exact f5
  have m1 : 1 ≤ m := by
    by_contra hm
    have h1 : m ≤ 0 := by omega
    have h2 : (m : ℚ) ≤ 0 := by exact_mod_cast h1
    have h3 : c' ≤ 0 := by rw [f5]; exact mul_nonpos_of_nonpos_of_nonneg h2 (ten_zpow_pos j).le
    have h4 : c' = 0 := le_antisymm h3 f2
    rw [h4] at f3
    unfold toDouble at f3
    rw [if_pos rfl] at f3
    cases f3
    exact absurd h (lt_irrefl _)
  obtain ⟨⟨m', j'⟩, hn⟩ : ∃ p, normDigits (m, j) = p := ⟨_, rfl⟩
  rw [hn] at hs
  have hv : 1 ≤ m' ∧ (m' : ℚ) * 10 ^ j' = m * 10 ^ j := by
    unfold normDigits at hn
    split at hn
    · rename_i h10
      have h10 : m = 10 := h10
      cases hn
      refine ⟨le_rfl, ?_⟩
      rw [h10, add_comm, ten_zpow_add]; norm_num
    · cases hn; exact ⟨m1, rfl⟩
  rw [← hv.2] at hcc
  obtain ⟨k, rfl⟩ : ∃ k : ℕ, m' = k := ⟨m'.toNat, (Int.toNat_of_nonneg (by omega)).symm⟩
  have hk : 1 ≤ k := by exact_mod_cast hv.1
  simp only [Int.toNat_natCast] at hs
  obtain ⟨d1, d2, d3⟩ := digits_nat k
  set ds := Nat.toDigits 10 k with hds
  have hs := Except.ok.inj hs
  have hlen : 0 < ds.length := List.length_pos_of_ne_nil d2
  have up : k < 10 ^ ds.length := (Nat.length_toDigits_le_iff (by norm_num) hlen).1 le_rfl
  have low : 10 ^ (ds.length - 1) ≤ k := by
    rcases Nat.lt_or_ge 1 ds.length with h1 | h1
    · by_contra hlt
      have := (Nat.length_toDigits_le_iff (b := 10) (n := k) (k := ds.length - 1) (by norm_num) (by omega)).2 (by omega)
      rw [← hds] at this
      omega
    · have : ds.length - 1 = 0 := by omega
      rw [this]; exact hk
  set point : ℤ := ds.length + j' with hpt
  have cup : c < 10 ^ point := by
    have h1 : (k : ℚ) < 10 ^ ds.length := by exact_mod_cast up
    rw [hcc, hpt, ten_zpow_add, zpow_natCast, Int.cast_natCast]
    exact mul_lt_mul_of_pos_right h1 (ten_zpow_pos j')
  have clow : (10 : ℚ) ^ (point - 1) ≤ c := by
    have h1 : (10 : ℚ) ^ (ds.length - 1) ≤ k := by exact_mod_cast low
    have e : point - 1 = ((ds.length - 1 : ℕ) : ℤ) + j' := by omega
    rw [hcc, e, ten_zpow_add, zpow_natCast, Int.cast_natCast]
    exact mul_le_mul_of_nonneg_right h1 (ten_zpow_pos j').le
  have noe : 'e' ∉ ds := fun he => absurd (d1 _ he) (by decide)
  have noz : ∀ z, 'e' ∉ List.replicate z '0' := fun z he => absurd (List.eq_of_mem_replicate he) (by decide)
  have hlay : 'e' ∈ layout ds point ↔ ¬ (-4 < point ∧ point ≤ 16) := by
    unfold layout
    split
    · rename_i hb
      refine iff_of_false ?_ (not_not.2 hb)
      split
      · simp only [List.mem_cons, List.mem_append, not_or, List.cons_append]
        exact ⟨by decide, by decide, noz _, noe⟩
      · split
        · simp only [List.mem_cons, List.mem_append, not_or]
          exact ⟨fun he => noe (List.mem_of_mem_take he), by decide, fun he => noe (List.mem_of_mem_drop he)⟩
        · simp only [List.mem_append, not_or]
          exact ⟨⟨noe, noz _⟩, by decide⟩
    · rename_i hb
      exact iff_of_true (by simp) hb
  rw [← hs, hlay]
  have e4 : (1 : ℚ) / 10 ^ 4 = 10 ^ (-4 : ℤ) := by norm_num
  have e16 : (10 : ℚ) ^ 16 = 10 ^ (16 : ℤ) := by norm_num
  rw [e4, e16]
  constructor
  · intro hb
    by_cases h1 : point ≤ -4
    · exact .inl (cup.trans_le (ten_zpow_le h1))
    · exact .inr ((ten_zpow_le (by omega)).trans clow)
  · rintro (h1 | h1) ⟨h2, h3⟩
    · exact absurd ((ten_zpow_le (by omega : (-4 : ℤ) ≤ point - 1)).trans clow) (not_le.2 h1)
    · exact absurd (cup.trans_le (ten_zpow_le h3)) (not_lt.2 h1)

theorem readLeaf_number {s : List Char} {v : PyVal} (h : JsonNumber s v) : readLeaf (String.ofList s) = v := by
  apply readLeaf_value
  rw [String.toList_ofList]
  exact .number _ _ h

/-- The leaf written for a finite float. -/
theorem floatLeaf_spec {big : Bool → Py PyVal} {q x : ℚ} (hx : toDouble |q| = .ok x) : ∃ (s : List Char) (c : ℚ), 0 ≤ c ∧ toDouble c = .ok x ∧
    floatText x = .ok s ∧ floatLeaf big q = .ok (.other (String.ofList (if q < 0 then '-' :: s else s))) ∧
    JsonNumber (if q < 0 then '-' :: s else s) (.dec (if q < 0 then -c else c)) ∧ (IsShort |q| → c = |q|) := by
  have hd := (C107_float (abs_nonneg q) hx).1
  have x0 : 0 ≤ x := by
    rcases (abs_nonneg q).eq_or_lt with h | h
    · rw [← h] at hx; unfold toDouble at hx; rw [if_pos rfl] at hx; cases hx; exact le_rfl
    · have h1 := (C107_float h.le hx).2 0 ⟨0, 0, by norm_num, by norm_num, by norm_num, by norm_num⟩
      rw [sub_zero, abs_abs] at h1
      have := (abs_le.1 h1).2
      linarith
  obtain ⟨s, c, h1, h2, h3, h4, h5⟩ := floatText_spec hd x0
  refine ⟨s, c, h2, h3, h1, ?_, ?_, fun h => h5 _ (abs_nonneg q) h hx⟩
  · unfold floatLeaf
    rw [hx]
    simp only
    rw [h1, ok_bind]
    rfl
  · split
    · have := h4 ['-'] (-1) .minus
      simpa using this
    · have := h4 [] 1 .none
      simpa using this

theorem entryOk_number {s : List Char} {v : PyVal} (h : JsonNumber s v) : EntryOk (.other (String.ofList s)) := by
  refine entryOk_other ⟨⟨v, ?_⟩, ?_⟩
  · rw [String.toList_ofList]; exact .number _ _ h
  · rw [String.toList_ofList]; exact jsonNumber_plain h

theorem floatInf_entry (neg : Bool) : ∃ s, floatInf neg = .ok (.other s) ∧ EntryOk (.other s) ∧ readLeaf s = .other s ∧ (neg = false → s = "Infinity") := by
  cases neg
  · exact ⟨"Infinity", rfl, entryOk_other ⟨⟨_, .inf⟩, plain_of (by decide)⟩, readLeaf_value .inf, fun _ => rfl⟩
  · exact ⟨"-Infinity", rfl, entryOk_other ⟨⟨_, .negInf⟩, plain_of (by decide)⟩, readLeaf_value .negInf, fun h => by cases h⟩

theorem toDouble_error {q : ℚ} {e : PyErr} (h : toDouble q = .error e) : e = .overflow := by
  unfold toDouble at h
  split at h
  · cases h
  · dsimp only at h
    split at h
    · cases h
    · cases h; rfl

theorem floatLeaf_entry {big : Bool → Py PyVal} (hb : big = floatInf ∨ big = floatBig) {q : ℚ} {v : PyVal} (h : floatLeaf big q = .ok v) : EntryOk v := by
  cases hx : toDouble |q| with
  | ok x =>
    obtain ⟨s, c, _, _, _, h4, h5, _⟩ := floatLeaf_spec (big := big) hx
    cases h.symm.trans h4
    exact entryOk_number h5
  | error e =>
    unfold floatLeaf at h
    rw [hx] at h
    simp only at h
    rcases hb with rfl | rfl
    · obtain ⟨s, h1, h2, _⟩ := floatInf_entry (q < 0)
      cases h.symm.trans h1
      exact h2
    · cases h

theorem floatLeaf_again {big : Bool → Py PyVal} (hb : big = floatInf ∨ big = floatBig) {q : ℚ} (h0 : 0 ≤ q) {v : PyVal} (h : floatLeaf big q = .ok v) :
    pyFloat (reload readLeaf (stringifyNumeric v)) = .ok v := by
  have hq : ¬ q < 0 := not_lt.2 h0
  cases hx : toDouble |q| with
  | ok x =>
    obtain ⟨s, c, h1, h2, h3, h4, h5, _⟩ := floatLeaf_spec (big := big) hx
    rw [if_neg hq] at h4
    rw [if_neg hq, if_neg hq] at h5
    cases h.symm.trans h4
    have : reload readLeaf (stringifyNumeric (.other (String.ofList s))) = .dec c := readLeaf_number h5
    rw [this]
    show floatLeaf floatInf c = _
    rw [← abs_of_nonneg h1] at h2
    obtain ⟨s', c', _, _, g3, g4, _, _⟩ := floatLeaf_spec (big := floatInf) h2
    rw [if_neg (not_lt.2 h1)] at g4
    cases h3.symm.trans g3
    exact g4
  | error e =>
    unfold floatLeaf at h
    rw [hx] at h
    simp only at h
    rcases hb with rfl | rfl
    · obtain ⟨s, h1, _, h3, h4⟩ := floatInf_entry (q < 0)
      cases h.symm.trans h1
      have h4 := h4 (by simp [h0])
      subst h4
      have : reload readLeaf (stringifyNumeric (.other "Infinity")) = .other "Infinity" := h3
      rw [this]
      rfl
    · cases h

/-- C109. What is assumed about `float` in C106 holds: whatever it returns is written as json, and a float that has been written is read back as itself. -/
theorem C109_float_lib : FloatLib pyFloat where
  entry := by
    intro v x h
    cases v with
    | bool b => exact floatLeaf_entry (.inr rfl) h
    | int n => exact floatLeaf_entry (.inr rfl) h
    | frac q => exact floatLeaf_entry (.inr rfl) h
    | dec q => exact floatLeaf_entry (.inl rfl) h
    | str s =>
      have h : pyFloatText s = .ok x := h
      unfold pyFloatText at h
      split at h
      · cases h
      · rw [bind_eq_ok] at h
        obtain ⟨q, _, h⟩ := h
        exact floatLeaf_entry (.inl rfl) h
    | other s =>
      have h : (if s = "NaN" ∨ s = "Infinity" ∨ s = "-Infinity" then .ok (.other s) else .error .typeError : Py PyVal) = .ok x := h
      split at h
      · rename_i hs
        cases h
        rcases hs with rfl | rfl | rfl
        · exact entryOk_other ⟨⟨_, .nan⟩, plain_of (by decide)⟩
        · exact entryOk_other ⟨⟨_, .inf⟩, plain_of (by decide)⟩
        · exact entryOk_other ⟨⟨_, .negInf⟩, plain_of (by decide)⟩
      · cases h
    | list _ => cases h
    | tuple _ => cases h
    | dict _ => cases h
  again := by
    intro v q x hv h0 h
    cases v with
    | bool b =>
      cases hv
      exact floatLeaf_again (.inr rfl) h0 h
    | int n => cases hv; exact floatLeaf_again (.inr rfl) h0 h
    | frac q => cases hv; exact floatLeaf_again (.inr rfl) h0 h
    | dec q => cases hv; exact floatLeaf_again (.inl rfl) h0 h
    | str s =>
      have h : pyFloatText s = .ok x := h
      have hv : pyFractionText s = .ok q := hv
      unfold pyFloatText at h
      split at h
      · cases h
      · rw [bind_eq_ok] at h
        obtain ⟨q', h1, h⟩ := h
        cases hv.symm.trans h1
        exact floatLeaf_again (.inl rfl) h0 h
    | other s => cases hv
    | list _ => cases hv
    | tuple _ => cases hv
    | dict _ => cases hv

/-- The ratio below one in the instance, and what is read from the text written for it. -/
theorem reread_spec {v x : PyVal} {q : ℚ} (hv : pyFraction v = .ok q) (h0 : 0 ≤ q) (h1 : q < 1) (h : pyFloat v = .ok x) : ∃ c y, 0 ≤ c ∧
    toDouble q = .ok y ∧ toDouble c = .ok y ∧ pyFraction (reload readLeaf (stringifyNumeric x)) = .ok c ∧ (IsShort q → c = q) := by
  have key : ∀ big, floatLeaf big q = .ok x → ∃ c y, 0 ≤ c ∧ toDouble q = .ok y ∧ toDouble c = .ok y ∧
      pyFraction (reload readLeaf (stringifyNumeric x)) = .ok c ∧ (IsShort q → c = q) := by
    intro big hb
    cases hx : toDouble q with
    | error e =>
      have he := toDouble_error hx
      subst he
      have := (C107_float_overflow h0).1 hx
      exact absurd (this.trans_lt h1) (by decide +kernel)
    | ok y =>
      have hx' : toDouble |q| = .ok y := by rw [abs_of_nonneg h0]; exact hx
      obtain ⟨s, c, g1, g2, _, g4, g5, g6⟩ := floatLeaf_spec (big := big) hx'
      rw [if_neg (not_lt.2 h0)] at g4
      rw [if_neg (not_lt.2 h0), if_neg (not_lt.2 h0)] at g5
      rw [abs_of_nonneg h0] at g6
      cases hb.symm.trans g4
      have : reload readLeaf (stringifyNumeric (.other (String.ofList s))) = .dec c := readLeaf_number g5
      rw [this]
      exact ⟨c, y, g1, rfl, g2, rfl, g6⟩
  cases v with
  | bool b => cases hv; exact key _ h
  | int n => cases hv; exact key _ h
  | frac q => cases hv; exact key _ h
  | dec q => cases hv; exact key _ h
  | str s =>
    have h : pyFloatText s = .ok x := h
    have hv : pyFractionText s = .ok q := hv
    unfold pyFloatText at h
    split at h
    · cases h
    · rw [bind_eq_ok] at h
      obtain ⟨q', h1, h⟩ := h
      cases hv.symm.trans h1
      exact key _ h
  | other s => cases hv
  | list _ => cases hv
  | tuple _ => cases hv
  | dict _ => cases hv

/-- C109. A fee ratio of at most fifteen digits is in the solution file what it was in the instance. -/
theorem C109_fee_kept {v : PyVal} {q c : ℚ} (hv : pyFraction v = .ok q) (h0 : 0 ≤ q) (h1 : q < 1) (hs : IsShort q) (h : rereadRatio v = .ok c) : c = q := by
  unfold rereadRatio at h
  rw [bind_eq_ok] at h
  obtain ⟨x, hx, h⟩ := h
  obtain ⟨c', y, _, _, _, g4, g5⟩ := reread_spec hv h0 h1 hx
  cases h.symm.trans g4
  exact g5 hs

/-- C109. Any other fee ratio is changed by less than one part in `2 ^ 51`. -/
theorem C109_fee_near {v : PyVal} {q c : ℚ} (hv : pyFraction v = .ok q) (h0 : 2 ^ (-1022 : ℤ) ≤ q) (h1 : q < 1) (h : rereadRatio v = .ok c) :
    |c - q| < q / 2 ^ 51 := by
  unfold rereadRatio at h
  rw [bind_eq_ok] at h
  obtain ⟨x, hx, h⟩ := h
  have q0 : (0 : ℚ) < q := lt_of_lt_of_le (zpow_pos (by norm_num) _) h0
  obtain ⟨c', y, g1, g2, g3, g4, g5⟩ := reread_spec hv q0.le h1 hx
  cases h.symm.trans g4
  have hy := normal_stays h0 g2
  have y0 : (0 : ℚ) < y := lt_of_lt_of_le (zpow_pos (by norm_num) _) hy
  have c0 : 0 < c := by
    rcases g1.eq_or_lt with rfl | hc
    · unfold toDouble at g3; rw [if_pos rfl] at g3; cases g3; exact absurd y0 (lt_irrefl _)
    · exact hc
  have a1 := normal_close c0 g3 hy
  have a2 := normal_close q0 g2 hy
  have a3 := abs_le.1 (toDouble_close h0 g2)
  have : |c - q| ≤ |c - y| + |q - y| := by
    have : c - q = (c - y) - (q - y) := by ring
    rw [this]; exact abs_sub _ _
  refine lt_of_le_of_lt (this.trans (add_le_add a1 a2)) ?_
  norm_num at a3 ⊢
  linarith

/-- C109. For an instance whose fee ratio has at most fifteen digits, what C106 requires of the text of the instance holds with the `float` of the library. -/
theorem C109_reads {s : List Char} {t : PyVal} {inst : Instance} (h1 : JsonText s t) (h2 : InstanceOf (pyConv pyFloat) t inst) (h3 : GoodInstance inst)
    (h4 : PlainAmounts t) (h5 : IsShort inst.fee.value) : ReadsAs pyFloat s t inst := by
  refine ⟨h1, h2, h3, h4, ?_⟩
  intro fee r x q f1 f2 f3 f4
  obtain ⟨fee0, r0, g1, _, g3, g4⟩ := h2.fee
  cases f1.symm.trans g1
  cases f2.symm.trans g3
  cases f4.symm.trans g4
  obtain ⟨c, y, _, _, _, k4, k5⟩ := reread_spec g4 h3.feePos.le h3.feeLt f3
  rw [k5 h5] at k4
  exact k4

/-- C109. So however often the programs are run on their own output, with nothing assumed about the library: the fee, the accounts, and what else C106
states of the instances in the texts written. -/
theorem C109_chain {P : Config → Prop} {n : ℕ} {s s' : List Char} {t : PyVal} {inst : Instance} (h1 : JsonText s t) (h2 : InstanceOf (pyConv pyFloat) t inst)
    (h3 : GoodInstance inst) (h4 : PlainAmounts t) (h5 : IsShort inst.fee.value) (hr : TextRuns pyFloat P n s s') :
    ∃ t' inst', ReadsAs pyFloat s' t' inst' ∧ Descends inst inst' :=
  C106_chain C109_float_lib (C109_reads h1 h2 h3 h4 h5) hr

/-- C109 (negative). A fee ratio with more digits is not kept: the solution file holds another fee than the instance. -/
theorem C109_fee_changed : ∃ c, rereadRatio (.dec (3333333333333333333 / 10 ^ 21)) = .ok c ∧ c ≠ 3333333333333333333 / 10 ^ 21 := by
  obtain ⟨c, h1, h2⟩ := exists_of_pyCheck (x := rereadRatio (.dec (3333333333333333333 / 10 ^ 21)))
    (p := fun c => c = 33333333333333335 / 10 ^ 19) (by decide +kernel)
  exact ⟨c, h1, by rw [h2]; norm_num⟩

namespace ExFloat

/-- 5e-324 is the shortest text of the least double; 4.94e-324 is nearer, but longer. -/
example : floatText (2 ^ (-1074 : ℤ)) = .ok "5e-324".toList ∧ floatText 12345 = .ok "12345.0".toList ∧ floatText (10 ^ 16) = .ok "1e+16".toList := by
  decide +kernel

/-- The text of some floats. -/
example : floatText (1 / 8) = .ok "0.125".toList ∧ floatText (2 ^ 70) = .ok "1.1805916207174113e+21".toList ∧ floatText (2 ^ 20) = .ok "1048576.0".toList ∧
    floatText (1 / 2 ^ 20) = .ok "9.5367431640625e-07".toList := by decide +kernel

/-- The usual fee ratio: `float` rounds it, the text is the same number again. -/
example : ∃ c x, toDouble (1 / 1000) = .ok x ∧ x ≠ 1 / 1000 ∧ rereadRatio (.dec (1 / 1000)) = .ok c ∧ c = 1 / 1000 := by
  obtain ⟨c, h1, h2⟩ := exists_of_pyCheck (x := rereadRatio (.dec (1 / 1000))) (p := fun c => c = 1 / 1000) (by decide +kernel)
  obtain ⟨x, h3, h4⟩ := exists_of_pyCheck (x := toDouble (1 / 1000)) (p := fun x => x ≠ 1 / 1000) (by decide +kernel)
  exact ⟨c, x, h3, h4, h1, h2⟩

/-- Too large: infinite as `Decimal`, an error as `int`. -/
example : pyFloatText "1e400" = .ok (.other "Infinity") ∧ pyFloat (.int (10 ^ 400)) = .error .overflow ∧ pyFloatText "1/2" = .error .valueError := by
  refine ⟨?_, ?_, rfl⟩
  · have h : pyFractionText "1e400" = .ok (10 ^ 400) := by decide +kernel
    rw [pyFloatText, if_neg (by decide), h, ok_bind, floatLeaf]
    have h : toDouble |(10 : ℚ) ^ 400| = .error .overflow := by decide +kernel
    rw [h]
    rfl
  · have h : toDouble |((10 ^ 400 : ℤ) : ℚ)| = .error .overflow := by decide +kernel
    rw [pyFloat, floatLeaf, h]
    rfl

theorem instance_of : InstanceOf (pyConv pyFloat) (ExJson.tree []) ExInst.inst := by
  rw [← C65_read]
  obtain ⟨i, hi, rfl⟩ := exists_of_pyCheck (x := readInstance (pyConv pyFloat) (ExJson.tree [])) (p := fun i => i = ExInst.inst) (by decide +kernel)
  exact hi

theorem short : IsShort ExInst.inst.fee.value := .inr ⟨1, -3, by norm_num, by decide +kernel, by decide +kernel⟩

/-- A run on the text of the example, and what C109 says of the text it leaves. -/
example : ∃ s' t' inst', TextRuns pyFloat (fun _ => True) 1 ExText.text s' ∧ ReadsAs pyFloat s' t' inst' ∧ Descends ExInst.inst inst' ∧
    inst'.orders = ExInst.inst.orders := by
  have hfl : ∀ t, FloatOk (pyConv pyFloat) t := fun t fee r x _ _ h => C109_float_lib.entry r x h
  obtain ⟨out, h, hb⟩ := exists_of_pyCheck (x := tokenPairJson (pyConv pyFloat) Config.default ExInst.ext (ExJson.tree []) ("B", "S") none ExJson.solver)
    (p := fun out => pyCheck (readInstance (pyConv pyFloat) (reload readLeaf out.file)) (fun inst' : Instance => inst'.orders = ExInst.inst.orders) = true)
    (by decide +kernel)
  obtain ⟨i, h8, h9⟩ := exists_of_pyCheck hb
  have he := tokenPairText_eq (c := pyConv pyFloat) (cfg := Config.default) (ext := ExInst.ext) (pair := ("B", "S")) (xrate := none) (solver := ExJson.solver)
    ExText.reads
  obtain ⟨s1, h1, h2, _⟩ := (text_run he (fun out ho => tokenPair_entry ExJson.cfg_ok (entryOk_text ExText.reads) ExText.solver_ok (hfl _) ho)).1 out h
  have hruns : TextRuns pyFloat (fun _ => True) 1 ExText.text s1 :=
    .next (.none _) (.pair Config.default ExInst.ext ("B", "S") none ExJson.solver trivial ExJson.cfg_ok (by decide) ExInst.branch_max (by simp) ExText.solver_ok h1)
  obtain ⟨t', inst', h5, h6⟩ := C109_chain ExText.reads instance_of ExInst.good ExReread.plain short hruns
  have h7 := h5.reads
  rw [C100_unambiguous h5.text h2] at h7
  cases h8.symm.trans (C65_read.2 h7)
  exact ⟨s1, t', _, hruns, h5, h6, h9⟩

end ExFloat

end Dex
