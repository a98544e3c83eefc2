import Verif.Model.Log
import Verif.Props.FloatText

/-! # C110: the numbers in the log -/

namespace Dex

open Spec

/-- Four digits, not all of them zero, and close to the number. -/
theorem sciDigits_spec {x : ℚ} (h : 0 < x) : ∃ n e, sciDigits x = (n, e) ∧ 1000 ≤ n ∧ n < 10000 ∧ |(n : ℚ) * 10 ^ (e - 3) - x| ≤ x / 2000 := by
  obtain ⟨t1, t2⟩ := scaled_log10 h
  set E := Int.log 10 x with hE
  have up := ten_zpow_pos (E - 3)
  have e0 : (10 : ℚ) ^ E = 1000 * 10 ^ (E - 3) := by
    have : E = 3 + (E - 3) := by ring
    conv_lhs => rw [this, ten_zpow_add]
    norm_num
  have e1 : (10 : ℚ) ^ (E + 1) = 10000 * 10 ^ (E - 3) := by
    have : E + 1 = 4 + (E - 3) := by ring
    conv_lhs => rw [this, ten_zpow_add]
    norm_num
  rw [e0] at t1
  rw [e1] at t2
  have hc := roundEven_close (x / 10 ^ (E - 3))
  set n := roundEven (x / 10 ^ (E - 3)) with hn
  have l1 : 1000 ≤ x / 10 ^ (E - 3) := by rw [le_div_iff₀ up]; exact t1
  have l2 : x / 10 ^ (E - 3) < 10000 := by rw [div_lt_iff₀ up]; exact t2
  have hc' := abs_le.1 hc
  have n1 : 1000 ≤ n := by
    by_contra hlt
    have h1 : n ≤ 999 := by omega
    have h2 : (n : ℚ) ≤ 999 := by exact_mod_cast h1
    linarith [hc'.2]
  have n2 : n ≤ 10000 := by
    by_contra hgt
    have h1 : 10001 ≤ n := by omega
    have h2 : (10001 : ℚ) ≤ n := by exact_mod_cast h1
    linarith [hc'.1]
  have close : |(n : ℚ) * 10 ^ (E - 3) - x| ≤ x / 2000 := by
    have e : (n : ℚ) * 10 ^ (E - 3) - x = -(x / 10 ^ (E - 3) - n) * 10 ^ (E - 3) := by field_simp; ring
    rw [e, abs_mul, abs_neg, abs_of_pos up]
    have : |x / 10 ^ (E - 3) - n| * 10 ^ (E - 3) ≤ 1 / 2 * 10 ^ (E - 3) := mul_le_mul_of_nonneg_right hc up.le
    linarith
  by_cases h10 : n = 10000
  · refine ⟨1000, E + 1, ?_, le_rfl, by norm_num, ?_⟩
    · unfold sciDigits
      simp only
      rw [← hE, ← hn, if_pos h10]
    · have e : ((1000 : ℤ) : ℚ) * 10 ^ (E + 1 - 3) = n * 10 ^ (E - 3) := by
        have : E + 1 - 3 = 1 + (E - 3) := by ring
        rw [this, ten_zpow_add, h10]; norm_num; ring
      rw [e]; exact close
  · refine ⟨n, E, ?_, n1, by omega, close⟩
    unfold sciDigits
    simp only
    rw [← hE, ← hn, if_neg h10]

/-- The text of a double in scientific notation is a number for `Fraction`, near the double. -/
theorem sciText_spec {x : ℚ} (h : 0 ≤ x) : ∃ c, Unsigned (sciText x) c ∧ |c - x| ≤ x / 2000 := by
  rcases h.eq_or_lt with rfl | h
  · refine ⟨0, ?_, by simp⟩
    have : sciText 0 = ['0'] ++ ('.' :: ['0', '0', '0']) ++ ('e' :: (['+'] ++ ['0', '0'])) := by decide
    rw [this]
    have := Unsigned.decimal ['0'] ('.' :: ['0', '0', '0']) ['0', '0', '0'] _ _ (digits_zeros 1) (.some _ (digits_zeros 3)) (.inl (by simp))
      (Exponent.some 'e' (.inl rfl) ['+'] 1 .plus ['0', '0'] (digits_zeros 2) (by simp))
    simpa [number] using this
  · obtain ⟨n, e, h1, h2, h3, h4⟩ := sciDigits_spec h
    obtain ⟨d1, d2, d3⟩ := digits_nat n.toNat
    set ds := Nat.toDigits 10 n.toNat with hds
    have len : ds.length = 4 := by
      have l1 : ds.length ≤ 4 := (Nat.length_toDigits_le_iff (by norm_num) (by norm_num)).2 (by omega)
      have l2 : ¬ ds.length ≤ 3 := fun hl => by
        have := (Nat.length_toDigits_le_iff (b := 10) (by norm_num) (by norm_num)).1 hl
        omega
      omega
    obtain ⟨x1, x2, x3⟩ := expDigits_spec e.natAbs
    have hexp : Exponent ('e' :: (if e < 0 then '-' else '+') :: expDigits e.natAbs) e := by
      split
      · have := Exponent.some 'e' (.inl rfl) ['-'] (-1) .minus _ x1 x2
        rw [x3] at this
        have e1 : (-1) * ((e.natAbs : ℕ) : ℤ) = e := by omega
        rw [e1] at this
        exact this
      · have := Exponent.some 'e' (.inl rfl) ['+'] 1 .plus _ x1 x2
        rw [x3] at this
        have e1 : 1 * ((e.natAbs : ℕ) : ℤ) = e := by omega
        rw [e1] at this
        exact this
    have hu := Unsigned.decimal (ds.take 1) ('.' :: ds.drop 1) (ds.drop 1) _ e (fun c hc => d1 c (List.mem_of_mem_take hc))
      (.some _ (fun c hc => d1 c (List.mem_of_mem_drop hc))) (.inl (fun h => by
        have := congrArg List.length h
        rw [List.length_take, List.length_nil] at this
        omega)) hexp
    refine ⟨_, ?_, h4⟩
    have hv : ((number (ds.take 1) : ℚ) + number (ds.drop 1) / 10 ^ (ds.drop 1).length) * 10 ^ e = n * 10 ^ (e - 3) := by
      have g := number_app (ds.take 1) (ds.drop 1)
      rw [List.take_append_drop, d3, List.length_drop, len] at g
      have g' : (n : ℚ) = number (ds.take 1) * 1000 + number (ds.drop 1) := by
        have : ((n.toNat : ℕ) : ℤ) = n := Int.toNat_of_nonneg (by omega)
        have : ((n.toNat : ℕ) : ℚ) = n := by exact_mod_cast this
        rw [← this, g]; push_cast; norm_num
      have e3 : (10 : ℚ) ^ e = 1000 * 10 ^ (e - 3) := by
        have : e = 3 + (e - 3) := by ring
        conv_lhs => rw [this, ten_zpow_add]
        norm_num
      rw [List.length_drop, len, g', e3]
      ring
    rw [hv] at hu
    have ht : sciText x = ds.take 1 ++ '.' :: ds.drop 1 ++ 'e' :: (if e < 0 then '-' else '+') :: expDigits e.natAbs := by
      unfold sciText
      rw [if_neg h.ne', h1]
    rw [ht]
    exact hu

/-- C110. With `--log-rationals` every number is in the log as it is: the text is read as the same number. -/
theorem C110_exact (q : ℚ) : ∃ t, logNumber true q = .ok t ∧ pyFractionText t = .ok q :=
  ⟨pyStrFrac q, rfl, C91_fraction_round_trip q⟩

/-- C110. Without it a number is shown with a relative error of about 0.05 %. -/
theorem C110_close {q : ℚ} (h : 2 ^ (-1022 : ℤ) ≤ |q|) {t : String} (ht : logNumber false q = .ok t) :
    ∃ c, pyFractionText t = .ok c ∧ |c - q| ≤ 501 / 10 ^ 6 * |q| := by
  unfold logNumber at ht
  rw [if_neg (by simp), bind_eq_ok] at ht
  obtain ⟨x, hx, ht⟩ := ht
  cases ht
  have x0 : 0 ≤ x := le_trans (zpow_pos (by norm_num) _).le (normal_stays h hx)
  obtain ⟨c, hc, hcx⟩ := sciText_spec x0
  have hd := toDouble_close h hx
  have hx1 := abs_le.1 hd
  have key : |c - (|q|)| ≤ 501 / 10 ^ 6 * |q| := by
    have : |c - (|q|)| ≤ |c - x| + |x - (|q|)| := by
      have : c - |q| = (c - x) + (x - |q|) := by ring
      rw [this]; exact abs_add_le _ _
    refine this.trans ((add_le_add hcx hd).trans ?_)
    norm_num at hx1 ⊢
    linarith [abs_nonneg q]
  by_cases hq : q < 0
  · refine ⟨-c, ?_, ?_⟩
    · rw [C91_fraction_text, if_pos hq, String.toList_ofList]
      exact ⟨[], ['-'], _, [], -1, c, by simp, by simp [Blanks], by simp [Blanks], .minus, hc, by push_cast; ring⟩
    · have e : -c - q = -(c - (|q|)) := by rw [abs_of_neg hq]; ring
      rw [e, abs_neg]; exact key
  · refine ⟨c, ?_, ?_⟩
    · rw [C91_fraction_text, if_neg hq, String.toList_ofList]
      exact ⟨[], [], _, [], 1, c, by simp, by simp [Blanks], by simp [Blanks], .none, hc, by push_cast; ring⟩
    · have e : |q| = q := abs_of_nonneg (not_lt.1 hq)
      rw [e] at key ⊢; exact key

/-- C110. A number is missing from the log exactly if it is too large for a double. -/
theorem C110_missing {q : ℚ} : (∃ e, logNumber false q = .error e) ↔ (2 : ℚ) ^ (1024 : ℤ) - 2 ^ (970 : ℤ) ≤ |q| := by
  rw [← C107_float_overflow (abs_nonneg q)]
  unfold logNumber
  rw [if_neg (by simp)]
  constructor
  · rintro ⟨e, he⟩
    cases hx : toDouble |q| with
    | ok x => rw [hx, ok_bind] at he; cases he
    | error e' => rw [toDouble_error hx]
  · intro h
    rw [h]
    exact ⟨.overflow, rfl⟩

/-- C110. The amounts shown as integers are right up to `2 ^ 53`. -/
theorem C110_integers {q : ℚ} (hq : IsInt q) (h : |q| ≤ 2 ^ 53) : ∃ n : ℤ, logInteger false q = .ok n ∧ (n : ℚ) = q := by
  obtain ⟨z, rfl⟩ := isInt_iff.1 hq
  have hz : |z| ≤ 2 ^ 53 := by rw [← Int.cast_abs] at h; exact_mod_cast h
  have hdbl : IsDouble |(z : ℚ)| := by
    rcases hz.lt_or_eq with hz | hz
    · exact ⟨|z|, 0, by rw [abs_abs]; exact hz, by norm_num, by norm_num, by push_cast; simp⟩
    · refine ⟨1, 53, by norm_num, by norm_num, by norm_num, ?_⟩
      rw [← Int.cast_abs, hz]; norm_num
  cases hx : toDouble |(z : ℚ)| with
  | error e =>
    have := (C107_float_overflow (abs_nonneg _)).1 (by rw [hx, toDouble_error hx])
    exact absurd (this.trans h) (by decide +kernel)
  | ok x =>
    have h1 := (C107_float (abs_nonneg _) hx).2 _ hdbl
    rw [sub_self, abs_zero] at h1
    have h2 : x = |(z : ℚ)| := by
      have := abs_eq_zero.1 (le_antisymm h1 (abs_nonneg _))
      linarith
    unfold logInteger
    rw [if_neg (by simp), hx, ok_bind, h2]
    refine ⟨_, rfl, ?_⟩
    have h3 : pyInt |(z : ℚ)| = |z| := by rw [← Int.cast_abs]; unfold pyInt; rw [if_pos (by exact_mod_cast abs_nonneg z), Int.floor_intCast]
    rw [h3]
    split
    · rename_i hn
      rw [abs_of_neg (by exact_mod_cast hn)]; push_cast; ring
    · rename_i hn
      rw [abs_of_nonneg (by exact_mod_cast not_lt.1 hn)]

/-- C110 (negative). Beyond that they are not: `"%d"` of a `Fraction` (the maximum sell amounts of core/round.py:84-87) shows 10^18 for the amount 10^18 + 1, unless `--log-rationals`
is given. -/
theorem C110_amount_wrong : (∃ n, logInteger false (10 ^ 18 + 1) = .ok n ∧ n = 10 ^ 18) ∧ ∃ n, logInteger true (10 ^ 18 + 1) = .ok n ∧ n = 10 ^ 18 + 1 := by
  constructor
  · exact exists_of_pyCheck (p := fun n => n = 10 ^ 18) (by decide +kernel)
  · exact exists_of_pyCheck (p := fun n => n = 10 ^ 18 + 1) (by decide +kernel)

/-- C110. The lists of executed amounts in the log (token_pair_solver/solver.py:392-412): every order id with its amount, in order. -/
theorem C110_amounts {r : Bool} {leaf : PyVal → String} (l : List (String × ℚ)) {ts : List String}
    (h : List.Forall₂ (fun p t => logNumber r p.2 = .ok t) l ts) :
    logText r leaf (.list (l.map (fun p => .dict [(p.1, .frac p.2)]))) =
      .ok ("[" ++ ", ".intercalate (List.zipWith (fun p t => "{" ++ (leaf (.str p.1) ++ ": " ++ t) ++ "}") l ts) ++ "]") := by
  have key : logReprs r leaf (l.map (fun p => .dict [(p.1, .frac p.2)])) = .ok (List.zipWith (fun p t => "{" ++ (leaf (.str p.1) ++ ": " ++ t) ++ "}") l ts) := by
    induction h with
    | nil => rfl
    | cons h1 _ ih =>
      rw [List.map_cons, logReprs, logRepr, logEntries, logRepr, h1, ok_bind, logEntries, ok_bind]
      simp only [ih]
      rfl
  rw [logText, logRepr, key]
  · rfl
  · intro s hs; cases hs

namespace ExLog

/-- A rate in the log, in both forms. -/
example : logNumber false (2 / 3) = .ok "6.667e-01" ∧ logNumber true (2 / 3) = .ok "2/3" ∧ logNumber false (-12345) = .ok "-1.234e+04" := by decide +kernel

/-- A small amount is shown as it is. -/
example : ∃ n, logInteger false 20000 = .ok n ∧ n = 20000 := exists_of_pyCheck (p := fun n => n = 20000) (by decide +kernel)

/-- Executed amounts. -/
example : logText false (fun _ => "'7'") (.list [.dict [("7", .frac (10 ^ 18 + 1))]]) = .ok "[{'7': 1.000e+18}]" := by
  have h : logNumber false (10 ^ 18 + 1) = .ok "1.000e+18" := by decide +kernel
  exact C110_amounts [("7", 10 ^ 18 + 1)] (.cons h .nil)

example : logLine "DEBUG" "solver" "x" = "DEBUG  ::solver     : x" := by decide +kernel

end ExLog

end Dex
