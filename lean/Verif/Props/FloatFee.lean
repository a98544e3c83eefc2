import Verif.Props.Double
import Verif.Props.Validation

/-! # C108: the average fee is compared as a float -/

namespace Dex

open Spec

theorem IsDouble_le_toDouble {q x m : ℚ} (hq : 0 ≤ q) (hx : toDouble q = .ok x) (hm : IsDouble m) (h : m ≤ q) : m ≤ x := by
  have := (C107_float hq hx).2 m hm
  by_contra hc
  push Not at hc
  rw [abs_of_nonneg (by linarith), abs_of_nonneg (by linarith)] at this
  linarith

theorem toDouble_close {q x : ℚ} (h : 2 ^ (-1022 : ℤ) ≤ q) (hx : toDouble q = .ok x) : |x - q| ≤ 1 / 2 ^ 53 * q := by
  have q0 : 0 < q := lt_of_lt_of_le (zpow_pos (by norm_num) _) h
  obtain ⟨l1, l2⟩ := scaled_log q q0
  have hL : -1022 ≤ Int.log 2 q := by
    have := two_zpow_lt (h.trans_lt l2); omega
  rw [toDouble_eq q0] at hx
  split at hx
  swap
  · cases hx
  cases hx
  have hut : ulp q ≤ 1 / 2 ^ 52 * q := by
    unfold ulp
    rw [max_eq_left hL]
    have : (2 : ℚ) ^ (Int.log 2 q - 52) = 1 / 2 ^ 52 * 2 ^ (Int.log 2 q) := by
      rw [sub_eq_add_neg, two_zpow_add]; norm_num; ring
    rw [this]; gcongr
  have hu := ulp_pos q
  have : |roundEven (q / ulp q) * ulp q - q| = |q / ulp q - roundEven (q / ulp q)| * ulp q := by
    rw [abs_sub_comm, ← abs_of_pos hu, ← abs_mul, abs_of_pos hu]; congr 1; field_simp
  rw [this]
  have := roundEven_close (q / ulp q)
  calc _ ≤ 1 / 2 * ulp q := by gcongr
    _ ≤ 1 / 2 * (1 / 2 ^ 52 * q) := by gcongr
    _ = _ := by ring

/-- The average of an amount of at least one unit over fewer than `2 ^ 1022` orders is not below the normal numbers. -/
theorem average_normal {a : ℚ} {n : ℕ} (ha : 1 ≤ a) (hn : 0 < n) (hb : (n : ℚ) ≤ 2 ^ (1022 : ℤ)) : (2 : ℚ) ^ (-1022 : ℤ) ≤ a / n := by
  have n0 : (0 : ℚ) < n := by exact_mod_cast hn
  rw [le_div_iff₀ n0]
  refine le_trans ?_ ha
  have h2 : (0 : ℚ) ≤ 2 ^ (-1022 : ℤ) := (zpow_pos (by norm_num) _).le
  exact (mul_le_mul_of_nonneg_left hb h2).trans (by decide +kernel)

namespace Spec

/-- The auction rules with the average fee computed exactly and compared with `min`. -/
def FeasibleExact (cfg : Config) (min : ℚ) (accounts : Accounts) (orders : List Order) (prices : Prices) (fee : Fee) : Prop :=
  Feasible { cfg with minAvgFee := min } (fun a n => .ok (a / n)) accounts orders prices fee

end Spec

/-- C108. A solution that keeps the rules exactly passes the check in floating point, if the minimum is a double and the fees are below
`2 ^ 1023` per order. -/
theorem C108_exact_passes {cfg : Config} {accounts : Accounts} {orders : List Order} {prices : Prices} {fee : Fee}
    (h : ValInput cfg accounts orders prices fee) (hi : ∀ p ∈ prices, IsInt p.2) (hnr : nrExecuted orders ≠ 0) (hm : IsDouble cfg.minAvgFee)
    (hb : (sold orders fee.token - bought orders fee.token) / nrExecuted orders ≤ 2 ^ (1023 : ℤ))
    (hf : FeasibleExact cfg cfg.minAvgFee accounts orders prices fee) : validate cfg pyTrueDiv accounts orders prices fee = .ok () := by
  rw [C30_validate_iff h]
  refine ⟨hi, .inr ?_⟩
  obtain ⟨q, hq, hle⟩ := hf.avgFee
  cases hq
  have a0 : 0 ≤ (sold orders fee.token - bought orders fee.token) / nrExecuted orders :=
    div_nonneg (sub_nonneg.2 hf.feeToken) (by positivity)
  have hto : ∃ x, toDouble ((sold orders fee.token - bought orders fee.token) / nrExecuted orders) = .ok x := by
    have ho : toDouble ((sold orders fee.token - bought orders fee.token) / nrExecuted orders) ≠ .error .overflow := by
      intro hc
      exact absurd (((C107_float_overflow a0).1 hc).trans hb) (by decide +kernel)
    unfold toDouble at ho ⊢
    split
    · exact ⟨_, rfl⟩
    · rename_i hn
      rw [if_neg hn] at ho
      simp only at ho ⊢
      split
      · exact ⟨_, rfl⟩
      · rename_i hg; rw [if_neg hg] at ho; exact absurd rfl ho
  obtain ⟨x, hx⟩ := hto
  exact ⟨hf.nrOrders, hf.constraints, hf.balanced, hf.feeToken,
    ⟨x, by unfold pyTrueDiv; rw [if_neg hnr]; exact hx, IsDouble_le_toDouble a0 hx hm hle⟩, hf.absFee, hf.accounts⟩

/-- What a passed check says about the exact average. -/
theorem passed_average {cfg : Config} {accounts : Accounts} {orders : List Order} {prices : Prices} {fee : Fee}
    (hnr : nrExecuted orders ≠ 0) (hcfg : (cfg.maxNrExec : ℚ) ≤ 2 ^ (1022 : ℤ)) (hint : ∀ o ∈ orders, IsInt o.buy ∧ IsInt o.sell)
    (h : Feasible cfg pyTrueDiv accounts orders prices fee) :
    IsInt (sold orders fee.token - bought orders fee.token) ∧
      cfg.minAvgFee ≤ (1 + 1 / 2 ^ 53) * ((sold orders fee.token - bought orders fee.token) / nrExecuted orders) := by
  have h1 : IsInt (sold orders fee.token) := isInt_sum (fun o ho => (hint o (List.mem_of_mem_filter ho)).2)
  have h2 : IsInt (bought orders fee.token) := isInt_sum (fun o ho => (hint o (List.mem_of_mem_filter ho)).1)
  obtain ⟨z1, e1⟩ := isInt_iff.1 h1
  obtain ⟨z2, e2⟩ := isInt_iff.1 h2
  have hI : IsInt (sold orders fee.token - bought orders fee.token) := isInt_iff.2 ⟨z1 - z2, by rw [e1, e2]; push_cast; ring⟩
  refine ⟨hI, ?_⟩
  obtain ⟨x, hx, hle⟩ := h.avgFee
  unfold pyTrueDiv at hx
  rw [if_neg hnr] at hx
  refine hle.trans ?_
  have a0 := sub_nonneg.2 h.feeToken
  rcases a0.eq_or_lt with e | a0
  · rw [← e, zero_div] at hx ⊢
    unfold toDouble at hx
    rw [if_pos rfl] at hx
    cases hx; simp
  · have a1 : 1 ≤ sold orders fee.token - bought orders fee.token := by
      obtain ⟨z, ez⟩ := isInt_iff.1 hI
      rw [ez] at a0 ⊢
      exact_mod_cast a0
    have hb : (nrExecuted orders : ℚ) ≤ 2 ^ (1022 : ℤ) := le_trans (by exact_mod_cast h.nrOrders) hcfg
    have := (abs_le.1 (toDouble_close (average_normal a1 (Nat.pos_of_ne_zero hnr) hb) hx)).2
    linarith

theorem Spec.Feasible.exact {cfg : Config} {fdiv : ℚ → ℕ → Py ℚ} {accounts : Accounts} {orders : List Order} {prices : Prices} {fee : Fee} {m : ℚ}
    (h : Feasible cfg fdiv accounts orders prices fee)
    (hm : m ≤ (sold orders fee.token - bought orders fee.token) / nrExecuted orders) : FeasibleExact cfg m accounts orders prices fee :=
  ⟨h.nrOrders, fun o ho => ⟨(h.constraints o ho).1, (h.constraints o ho).2, (h.constraints o ho).3, (h.constraints o ho).4⟩, h.balanced, h.feeToken,
    ⟨_, rfl, hm⟩, h.absFee, h.accounts⟩

/-- C108. A solution that passes the check keeps the rules, with an average fee of at least the minimum less its `2 ^ -53`rd part. -/
theorem C108_passed {cfg : Config} {accounts : Accounts} {orders : List Order} {prices : Prices} {fee : Fee}
    (hk : (prices.map (·.1)).Nodup) (hm : 0 ≤ cfg.minTradable) (hp : cfg.feeTokenPrice ≠ 0) (hnr : nrExecuted orders ≠ 0)
    (hcfg : (cfg.maxNrExec : ℚ) ≤ 2 ^ (1022 : ℤ)) (hint : ∀ o ∈ orders, IsInt o.buy ∧ IsInt o.sell)
    (h : validate cfg pyTrueDiv accounts orders prices fee = .ok ()) :
    FeasibleExact cfg (cfg.minAvgFee / (1 + 1 / 2 ^ 53)) accounts orders prices fee := by
  obtain ⟨_, hf⟩ := (C30_passed_is_feasible hk hm hp h).2.resolve_left hnr
  refine hf.exact ?_
  rw [div_le_iff₀ (by norm_num), mul_comm]
  exact (passed_average hnr hcfg hint hf).2

/-- C108. If the minimum is an integer and not more than `2 ^ 53` over all executed orders, the check is exact. -/
theorem C108_small_exact {cfg : Config} {accounts : Accounts} {orders : List Order} {prices : Prices} {fee : Fee}
    (hk : (prices.map (·.1)).Nodup) (hm : 0 ≤ cfg.minTradable) (hp : cfg.feeTokenPrice ≠ 0) (hnr : nrExecuted orders ≠ 0)
    (hcfg : (cfg.maxNrExec : ℚ) ≤ 2 ^ (1022 : ℤ)) (hint : ∀ o ∈ orders, IsInt o.buy ∧ IsInt o.sell)
    (hmin : IsInt cfg.minAvgFee) (hsmall : cfg.minAvgFee * nrExecuted orders ≤ 2 ^ 53)
    (h : validate cfg pyTrueDiv accounts orders prices fee = .ok ()) :
    FeasibleExact cfg cfg.minAvgFee accounts orders prices fee := by
  obtain ⟨_, hf⟩ := (C30_passed_is_feasible hk hm hp h).2.resolve_left hnr
  obtain ⟨hI, hle⟩ := passed_average hnr hcfg hint hf
  refine hf.exact ?_
  have n0 : (0 : ℚ) < nrExecuted orders := by exact_mod_cast Nat.pos_of_ne_zero hnr
  obtain ⟨a, ea⟩ := isInt_iff.1 hI
  obtain ⟨m, em⟩ := isInt_iff.1 hmin
  rw [ea, em] at hle ⊢
  rw [em] at hsmall
  rw [mul_div_assoc', le_div_iff₀ n0] at hle
  rw [le_div_iff₀ n0]
  by_contra hc
  push Not at hc
  have h1 : a + 1 ≤ m * nrExecuted orders := by exact_mod_cast hc
  have h2 : (a : ℚ) + 1 ≤ m * nrExecuted orders := by exact_mod_cast h1
  generalize (m : ℚ) * nrExecuted orders = K at *
  norm_num at hle hsmall
  linarith

/-! ### The rounding can decide -/

namespace ExFloatFee

/-- The example of the final check with all amounts times `10 ^ 15`. -/
def orders : List Order :=
  [ ((Order.mk' "B" "S" (20000000 * 10 ^ 15) 2 (some "x") "0").withBuy (9999997 * 10 ^ 15)).withSell (15015010 * 10 ^ 15),
    ((Order.mk' "S" "B" (20000000 * 10 ^ 15) 1 (some "y") "1").withBuy (15015010 * 10 ^ 15)).withSell (10020026 * 10 ^ 15),
    ((Order.mk' "B" "F" (100000 * 10 ^ 15) 2 (some "z") "2").withBuy (20029 * 10 ^ 15)).withSell (30073 * 10 ^ 15),
    Order.mk' "B" "F" (100000 * 10 ^ 15) 2 (some "z") "3" ]
def accounts : Accounts := [("x", [("S", 15015010 * 10 ^ 15)]), ("y", [("B", 10020026 * 10 ^ 15)]), ("z", [("F", 40000 * 10 ^ 15)])]
/-- The minimum is more than 600 units above the average of the three executed orders. -/
def cfg : Config := { Config.default with minAvgFee := 10024333333333334016 }
/-- A minimum for which the check is exact. -/
def low : Config := { Config.default with minAvgFee := 1000000000000000 }

end ExFloatFee

/-- C108, negative. The check accepts a solution whose average fee is below the minimum. -/
theorem C108_below_minimum : ∃ cfg accounts orders prices fee, validate cfg pyTrueDiv accounts orders prices fee = .ok () ∧
    (∀ o ∈ orders, IsInt o.buy ∧ IsInt o.sell) ∧ nrExecuted orders = 3 ∧ IsInt cfg.minAvgFee ∧
    (sold orders fee.token - bought orders fee.token) / nrExecuted orders + 600 < cfg.minAvgFee ∧
    ¬ FeasibleExact cfg cfg.minAvgFee accounts orders prices fee := by
  have key : (sold ExFloatFee.orders ExVal.fee.token - bought ExFloatFee.orders ExVal.fee.token) / nrExecuted ExFloatFee.orders + 600 <
      ExFloatFee.cfg.minAvgFee := by decide +kernel
  refine ⟨ExFloatFee.cfg, ExFloatFee.accounts, ExFloatFee.orders, ExVal.prices, ExVal.fee, by decide +kernel, by decide +kernel,
    by decide +kernel, by decide +kernel, key, ?_⟩
  intro h
  obtain ⟨q, hq, hle⟩ := h.avgFee
  cases hq
  simp only at hle
  linarith

/-! ### Non-vacuity -/

/-- A solution with three executed orders to which `C108_passed` and `C108_small_exact` apply, and `C108_exact_passes` back again. -/
example : validate ExFloatFee.low pyTrueDiv ExFloatFee.accounts ExFloatFee.orders ExVal.prices ExVal.fee = .ok () ∧
    FeasibleExact ExFloatFee.low ExFloatFee.low.minAvgFee ExFloatFee.accounts ExFloatFee.orders ExVal.prices ExVal.fee ∧
    IsDouble ExFloatFee.low.minAvgFee ∧
    (sold ExFloatFee.orders ExVal.fee.token - bought ExFloatFee.orders ExVal.fee.token) / nrExecuted ExFloatFee.orders ≤ 2 ^ (1023 : ℤ) := by
  have h : validate ExFloatFee.low pyTrueDiv ExFloatFee.accounts ExFloatFee.orders ExVal.prices ExVal.fee = .ok () := by decide +kernel
  refine ⟨h, C108_small_exact (by decide +kernel) (by decide +kernel) (by decide +kernel) (by decide +kernel) (by decide +kernel) (by decide +kernel)
    (by decide +kernel) (by decide +kernel) h, ⟨1000000000000000, 0, by norm_num, by norm_num, by norm_num, by decide +kernel⟩, by decide +kernel⟩

end Dex
