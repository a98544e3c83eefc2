import Verif.Props.Volume
import Verif.Props.Objective

/-! # C93: without a fee, it does not matter which side is called b_orders

`compute_buy_amounts` (amount.py:307-383) treats the two lists differently: the pointers into them move in different orders, the undo steps
look at the b side first, and the minimum-amount repair handles the sides one after the other. The exchange executed is the same. -/

namespace Dex

open Spec

theorem fillAmount_swapB (cfg : Config) (x : ℚ) (fee : Fee) (L : List Order) (t : ℚ) (o : Order) :
    fillAmount (EligibleB cfg (1 / x) fee) (maxBuyB (1 / x) fee) L t o = fillAmount (EligibleS cfg x fee) (maxBuyS x fee) L t o := by
  have h : ∀ a : Order, EligibleB cfg (1 / x) fee a ↔ EligibleS cfg x fee a := fun a => by
    unfold EligibleB EligibleS; rw [div_div_eq_mul_div, div_one]
  have hc : maxBuyB (1 / x) fee = maxBuyS x fee := funext fun a => by unfold maxBuyB maxBuyS; rw [div_div_eq_mul_div, div_one]
  unfold fillAmount
  simp only [h, hc]

theorem fillAmount_swapS (cfg : Config) (x : ℚ) (fee : Fee) (L : List Order) (t : ℚ) (o : Order) :
    fillAmount (EligibleS cfg (1 / x) fee) (maxBuyS (1 / x) fee) L t o = fillAmount (EligibleB cfg x fee) (maxBuyB x fee) L t o := by
  have h := fillAmount_swapB cfg (1 / x) fee L t o
  rw [one_div_one_div] at h
  exact h.symm

theorem filter_swapB (cfg : Config) (x : ℚ) (fee : Fee) (L : List Order) :
    ((L.filter (fun o => decide (EligibleB cfg (1 / x) fee o))).map (maxBuyB (1 / x) fee)).sum =
      ((L.filter (fun o => decide (EligibleS cfg x fee o))).map (maxBuyS x fee)).sum := by
  have h : ∀ a : Order, EligibleB cfg (1 / x) fee a ↔ EligibleS cfg x fee a := fun a => by
    unfold EligibleB EligibleS; rw [div_div_eq_mul_div, div_one]
  have hc : maxBuyB (1 / x) fee = maxBuyS x fee := funext fun a => by unfold maxBuyB maxBuyS; rw [div_div_eq_mul_div, div_one]
  simp only [h, hc]

theorem filter_swapS (cfg : Config) (x : ℚ) (fee : Fee) (L : List Order) :
    ((L.filter (fun o => decide (EligibleS cfg (1 / x) fee o))).map (maxBuyS (1 / x) fee)).sum =
      ((L.filter (fun o => decide (EligibleB cfg x fee o))).map (maxBuyB x fee)).sum := by
  have h := filter_swapB cfg (1 / x) fee L
  rw [one_div_one_div] at h
  exact h.symm

theorem Admissible.swap {cfg : Config} {x : ℚ} {fee : Fee} {maxNr : ℤ} {b s : List Order} {u : ℚ} (hx : 0 < x) (hf : fee.value = 0)
    (h : Admissible cfg x fee maxNr b s u) : Admissible cfg (1 / x) fee maxNr s b (u / x) := by
  have e1 : u * ((1 - fee.value) / x) = u / x := by rw [hf]; ring
  have e2 : u / x * ((1 - fee.value) / (1 / x)) = u := by rw [hf]; field_simp; ring
  obtain ⟨h1, h2, h3, h4, h5, h6⟩ := h
  rw [e1] at h2 h4 h5
  refine ⟨div_nonneg h1 hx.le, ?_, ?_, ?_, ?_, ?_⟩
  · rw [e2, filter_swapB]; exact h3
  · rw [filter_swapS]; exact h2
  · rw [e2]; simp only [fillAmount_swapB, fillAmount_swapS]; linarith
  · intro o ho q hq hp
    rw [e2, fillAmount_swapB] at hq
    have := h6 o ho q hq hp
    rwa [← div_eq_mul_one_div]
  · intro o ho q hq hp
    rw [fillAmount_swapS] at hq
    have := h5 o ho q hq hp
    rwa [div_div_eq_mul_div, div_one]

/-- C93. Without a fee, exchanging the two lists of orders and inverting the rate exchanges the results. -/
theorem C93_sides {cfg : Config} {x : ℚ} {fee : Fee} {maxNr : ℤ} {b s b' s' : List Order}
    (h : ExecInput cfg x fee maxNr b s) (hf : fee.value = 0) (hr : computeBuyAmounts cfg x b s fee maxNr = .ok (b', s')) :
    computeBuyAmounts cfg (1 / x) s b fee maxNr = .ok (s', b') := by
  obtain ⟨g1, g2⟩ := C58_greatest_volume h hr
  obtain ⟨t, _, ht, e1, e2⟩ := C11_closed_form h hr
  rw [ht] at g1 g2
  have hx := h.ratePos
  have h' : ExecInput cfg (1 / x) fee maxNr s b := ⟨h.minPos, one_div_pos.2 hx, h.feeLt, h.limit, h.idsS, h.idsB⟩
  rw [C58_determined h' (g1.swap hx hf) fun u hu => by
    have := g2 _ (by simpa using hu.swap (one_div_pos.2 hx) hf)
    rwa [le_div_iff₀ hx], e1, e2]
  have a1 : t / x * ((1 - fee.value) / (1 / x)) = t := by rw [hf]; field_simp; ring
  have a2 : t * ((1 - fee.value) / x) = t / x := by rw [hf]; ring
  rw [a1, a2]
  simp only [fillAmount_swapB, fillAmount_swapS]

/-- C93. The objective of an execution without a fee is the same seen from either side, with the price of the other token. -/
theorem C93_objective {cfg : Config} {x p : ℚ} {fee : Fee} {maxNr : ℤ} {b s b' s' : List Order} (hc : CfgOk cfg)
    (h : ExecInput cfg x fee maxNr b s) (hf : fee.value = 0) (hp : 0 < p) (hb : ∀ o ∈ b ++ s, 0 < o.maxXrate)
    (hr : computeBuyAmounts cfg x b s fee maxNr = .ok (b', s')) :
    ∃ v, computeObjectiveRational cfg b' s' [] x p fee = .ok v ∧ computeObjectiveRational cfg s' b' [] (1 / x) (p / x) fee = .ok v := by
  have hx := h.ratePos
  obtain ⟨t, _, ht, e1, e2⟩ := C11_closed_form h hr
  have hbal := (C06_balanced h hr).1
  have hb' : ∀ o ∈ b' ++ s' ++ [], 0 < o.maxXrate := by
    intro o ho
    rw [List.append_nil, List.mem_append, e1, e2] at ho
    rcases ho with ho | ho <;> obtain ⟨a, ha, rfl⟩ := List.mem_map.1 ho <;> exact hb a (by simp [ha])
  have hb2 : ∀ o ∈ s' ++ b' ++ [], 0 < o.maxXrate := fun o ho => hb' o (by simp only [List.append_nil, List.mem_append] at ho ⊢; exact ho.symm)
  refine ⟨_, C68_exact_objective hc h.feeLt hx hp hb', ?_⟩
  rw [C68_exact_objective hc h.feeLt (one_div_pos.2 hx) (div_pos hp hx) hb2]
  have a1 : p / x / (1 / x) = p := by field_simp
  have a2 : (s'.map (fun o => o.buy / x / (1 - fee.value))).sum = (s'.map (·.buy)).sum / x := by
    rw [hf, div_eq_mul_one_div, ← sum_map_mul_right']
    congr 1
    apply List.map_congr_left; intro o _; ring
  have a3 : (b'.map (fun o => o.buy / (1 / x) / (1 - fee.value))).sum = (b'.map (·.buy)).sum * x := by
    rw [hf, ← sum_map_mul_right']
    congr 1
    apply List.map_congr_left; intro o _; field_simp; ring
  rw [hf] at hbal
  unfold exactObjective
  rw [a2, a3, one_div_one_div, a1]
  simp only [List.map_nil, List.sum_nil]
  have a4 : (s'.map (·.buy)).sum / x = (b'.map (·.buy)).sum := by
    rw [div_eq_iff hx.ne']; linarith
  rw [a4]
  have a5 : (b'.map (·.buy)).sum * x = (s'.map (·.buy)).sum := by linarith
  rw [a5]
  congr 1
  ring

/-- C93. With a fee the sides differ: the fee is taken in the token of the b_orders, and the same two lists exchange other amounts when
the sides are exchanged. -/
theorem C93_fee_breaks_it : ∃ (cfg : Config) (fee : Fee) (b s : List Order) (maxNr : ℤ), ExecInput cfg 1 fee maxNr b s ∧ 0 < fee.value ∧
    ∃ r r', computeBuyAmounts cfg 1 b s fee maxNr = .ok r ∧ computeBuyAmounts cfg (1 / 1) s b fee maxNr = .ok r' ∧
      (r.1.map (·.buy)).sum = 11976012 / 100 ∧ (r'.2.map (·.buy)).sum = 120000 := by
  refine ⟨Config.default, Ex.fee, Ex.bs, Ex.ss, 30,
    ⟨by decide, by decide +kernel, by decide +kernel, by decide, by decide +kernel, by decide +kernel⟩, by decide +kernel, ?_⟩
  obtain ⟨r, h1, h2⟩ := exists_of_pyCheck (x := computeBuyAmounts Config.default 1 Ex.bs Ex.ss Ex.fee 30)
    (p := fun r : List Order × List Order => (r.1.map (·.buy)).sum = 11976012 / 100) (by decide +kernel)
  obtain ⟨r', h3, h4⟩ := exists_of_pyCheck (x := computeBuyAmounts Config.default (1 / 1) Ex.ss Ex.bs Ex.fee 30)
    (p := fun r : List Order × List Order => (r.2.map (·.buy)).sum = 120000) (by decide +kernel)
  exact ⟨r, r', h1, h3, h2, h4⟩

/-- Non-vacuity: a book without a fee in which the order limit binds, executed from either side. -/
example : let fee : Fee := { Ex.fee with value := 0 }
    ExecInput Config.default (5 / 4) fee 3 Ex.bs Ex.ss ∧ (∀ o ∈ Ex.bs ++ Ex.ss, 0 < o.maxXrate) ∧ ∃ r,
      computeBuyAmounts Config.default (5 / 4) Ex.bs Ex.ss fee 3 = .ok r ∧ ((r.1 ++ r.2).filter (fun o => decide (0 < o.buy))).length = 3 := by
  refine ⟨⟨by decide, by decide +kernel, by decide +kernel, by decide, by decide +kernel, by decide +kernel⟩, by decide +kernel, ?_⟩
  exact exists_of_pyCheck (by decide +kernel)

end Dex
