import Verif.Model.TpOrderbookInt
import Verif.Props.Objective

/-! # Property C84: the integer variants of the objective and of the imbalance -/

namespace Dex

namespace Spec

/-- Surplus of the token that `b` buys and `s` sells, in exact arithmetic at rate `x`. -/
def exactImbalance (b s : List Order) (x : ℚ) (fee : Fee) : ℚ := (s.map (fun o => o.buy / x / (1 - fee.value))).sum - (b.map (·.buy)).sum

end Spec

open Spec

theorem intSell_inverse {pb ps : ℚ} (hb : 0 < pb) (hbi : IsInt pb) (hs : 0 < ps) (hsi : IsInt ps) {fee : Fee} (hf : fee.value < 1) (buy : ℚ) :
    intSellFromBuy buy (1 / (pb / ps)) (pb / (pb / ps)) fee = .ok (uniformSell ps pb fee buy) := by
  have hφ : 1 - fee.value ≠ 0 := by linarith
  have e1 : pb / (pb / ps) = ps := by field_simp
  have e2 : (1 : ℚ) / (pb / ps) = ps / pb := by field_simp
  have e3 : ps / (ps / pb) = pb := by field_simp
  unfold IsInt at hbi hsi
  unfold intSellFromBuy
  rw [e1, e2, pyAssert_of hsi, ok_bind, pyDiv_of_ne (div_ne_zero hs.ne' hb.ne'), ok_bind, e3, pyAssert_of hbi, ok_bind, pyFloorDiv_of_ne hφ, ok_bind,
    pyFloorDiv_of_ne hb.ne']
  rfl

/-- C84. With integer prices the integer imbalance is what the orders on the second side sell at the clearing price, rounded down order by order, minus what
the orders on the first side buy. -/
theorem C84_imbalance {b s : List Order} {pb ps : ℚ} {fee : Fee} (hb : 0 < pb) (hbi : IsInt pb) (hs : 0 < ps) (hsi : IsInt ps) (hf : fee.value < 1) :
    bBuyTokenImbalanceInt b s (pb / ps) pb fee = .ok ((s.map (fun o => (uniformSell ps pb fee o.buy : ℚ))).sum - (b.map (·.buy)).sum) := by
  have hx : pb / ps ≠ 0 := div_ne_zero hb.ne' hs.ne'
  unfold bBuyTokenImbalanceInt
  rw [pyDiv_of_ne hx, ok_bind, pyDiv_of_ne hx, ok_bind, sumE_of (h := fun o => (uniformSell ps pb fee o.buy : ℚ)) (fun o _ => by
    rw [intSell_inverse hb hbi hs hsi hf, ok_bind]; rfl), ok_bind]
  rfl

/-- C84. It differs from the exact imbalance by less than one unit per executed order of the second side, downwards. -/
theorem C84_rounding {b s : List Order} {pb ps : ℚ} {fee : Fee} (hb : 0 < pb) (hbi : IsInt pb) (hs : 0 < ps) (hsi : IsInt ps) (hf : fee.value < 1)
    (h0 : ∀ o ∈ s, 0 ≤ o.buy) :
    ∃ i q, bBuyTokenImbalanceInt b s (pb / ps) pb fee = .ok i ∧ bBuyTokenImbalance b s (pb / ps) pb fee = .ok q ∧ q = exactImbalance b s (pb / ps) fee ∧
      i ≤ q ∧ q ≤ i + nrExecuted s ∧ (0 < nrExecuted s → q < i + nrExecuted s) := by
  have hx : pb / ps ≠ 0 := div_ne_zero hb.ne' hs.ne'
  have hφ : 1 - fee.value ≠ 0 := by linarith
  refine ⟨_, exactImbalance b s (pb / ps) fee, C84_imbalance hb hbi hs hsi hf, ?_, rfl, ?_⟩
  · unfold bBuyTokenImbalance
    rw [pyDiv_of_ne hx, ok_bind, pyDiv_of_ne hx, ok_bind, sumE_of (h := fun o => o.buy / (pb / ps) / (1 - fee.value)) (fun o _ => by
      unfold ratSellFromBuy; rw [pyDiv_of_ne hφ]; congr 2; ring), ok_bind]
    rfl
  unfold exactImbalance
  have key : (s.map (fun o => (uniformSell ps pb fee o.buy : ℚ))).sum ≤ (s.map (fun o => o.buy / (pb / ps) / (1 - fee.value))).sum ∧
      (s.map (fun o => o.buy / (pb / ps) / (1 - fee.value))).sum ≤ (s.map (fun o => (uniformSell ps pb fee o.buy : ℚ))).sum + nrExecuted s ∧
      (0 < nrExecuted s → (s.map (fun o => o.buy / (pb / ps) / (1 - fee.value))).sum < (s.map (fun o => (uniformSell ps pb fee o.buy : ℚ))).sum + nrExecuted s) := by
    clear hx
    induction s with
    | nil => simp [nrExecuted]
    | cons o s ih =>
      obtain ⟨i1, i2, i3⟩ := ih (fun c hc => h0 c (by simp [hc]))
      have e : o.buy / (pb / ps) / (1 - fee.value) = o.buy * ps / (1 - fee.value) / pb := by field_simp
      have l1 : (uniformSell ps pb fee o.buy : ℚ) ≤ o.buy / (pb / ps) / (1 - fee.value) := by rw [e]; exact uniformSell_le hb hbi _
      have l2 : o.buy / (pb / ps) / (1 - fee.value) < uniformSell ps pb fee o.buy + 1 := by rw [e, uniformSell_eq hb hbi]; exact Int.lt_floor_add_one _
      have hc : (nrExecuted (o :: s) : ℚ) = (if 0 < o.buy then 1 else 0) + nrExecuted s := by
        unfold nrExecuted
        rw [List.filter_cons]
        by_cases hp : 0 < o.buy
        · rw [if_pos (by simpa using hp), if_pos hp]; push_cast [List.length_cons]; ring
        · rw [if_neg (by simpa using hp), if_neg hp, zero_add]
      simp only [List.map_cons, List.sum_cons]
      rw [hc]
      by_cases hp : 0 < o.buy
      · rw [if_pos hp]
        exact ⟨by linarith, by linarith, fun _ => by linarith⟩
      · have hz : o.buy = 0 := le_antisymm (not_lt.1 hp) (h0 o (by simp))
        rw [if_neg hp]
        have hn : nrExecuted (o :: s) = nrExecuted s := by
          rw [if_neg hp, zero_add] at hc; exact_mod_cast hc
        rw [hz, uniformSell_zero] at *
        simp only [zero_div, Int.cast_zero, zero_add]
        exact ⟨i1, i2, fun h => i3 (by rwa [hn] at h)⟩
  obtain ⟨k1, k2, k3⟩ := key
  exact ⟨by linarith, by linarith, fun h => by have := k3 h; linarith⟩

/-- C84. For orders that trade on the clearing price and balance the first token, the integer imbalance is what the fee orders buy of it. -/
theorem C84_bought_by_fee_orders {b s f : List Order} {pair : Token × Token} {prices : Prices} {pb ps : ℚ} {fee : Fee} (hne : pair.1 ≠ pair.2)
    (hF : pair.1 ≠ fee.token) (hf : fee.value < 1) (hI : IntPrices prices) (hpb : PriceOf prices pair.1 pb) (hps : PriceOf prices pair.2 ps)
    (cB : ∀ o ∈ b, o.buyToken = pair.1 ∧ o.sellToken = pair.2) (cS : ∀ o ∈ s, o.buyToken = pair.2 ∧ o.sellToken = pair.1)
    (cF : ∀ o ∈ f, o.buyToken = pair.1 ∧ o.sellToken = fee.token) (hon : ∀ o ∈ s, OnClearingPrice prices fee o)
    (hbal : sold (b ++ s ++ f) pair.1 = bought (b ++ s ++ f) pair.1) :
    bBuyTokenImbalanceInt b s (pb / ps) pb fee = .ok (f.map (·.buy)).sum := by
  obtain ⟨b1, b2⟩ := hI.of hpb
  obtain ⟨s1, s2⟩ := hI.of hps
  rw [C84_imbalance b1 b2 s1 s2 hf, Except.ok.injEq]
  have h1 : (s.map (fun o => (uniformSell ps pb fee o.buy : ℚ))) = s.map (·.sell) := by
    refine List.map_congr_left fun o ho => ?_
    obtain ⟨q, r, hq, hr, e⟩ := hon o ho
    rw [(cS o ho).1] at hq
    rw [(cS o ho).2] at hr
    rw [e, priceOf_unique hq hps, priceOf_unique hr hpb]
  rw [h1]
  have all : ∀ {l : List Order} {q : Order → Prop} [DecidablePred q], (∀ o ∈ l, q o) → l.filter (fun o => decide (q o)) = l := fun {l q _} h =>
    List.filter_eq_self.2 fun o ho => by simpa using h o ho
  have non : ∀ {l : List Order} {q : Order → Prop} [DecidablePred q], (∀ o ∈ l, ¬ q o) → l.filter (fun o => decide (q o)) = [] := fun {l q _} h =>
    List.filter_eq_nil_iff.2 fun o ho => by simpa using h o ho
  unfold sold bought at hbal
  simp only [List.filter_append, List.map_append, List.sum_append] at hbal
  rw [non (l := b) (fun o ho e => hne (e.symm.trans (cB o ho).2)), all (l := s) (fun o ho => (cS o ho).2),
    non (l := f) (fun o ho e => hF (e.symm.trans (cF o ho).2)), all (l := b) (fun o ho => (cB o ho).1),
    non (l := s) (fun o ho e => hne (e.symm.trans (cS o ho).1)), all (l := f) (fun o ho => (cF o ho).1)] at hbal
  simp only [List.map_nil, List.sum_nil, zero_add, add_zero] at hbal
  linarith

/-- C84. Without orders the integer objective is zero. -/
theorem C84_empty {cfg : Config} {x p : ℚ} {fee : Fee} (hc : CfgOk cfg) (hx : x ≠ 0) : computeObjectiveInteger cfg [] [] [] x p fee = .ok 0 := by
  have hF : (cfg.feeTokenPrice : ℚ) ≠ 0 := by exact_mod_cast hc.feePrice.ne'
  unfold computeObjectiveInteger objectiveForOrdersInt bBuyTokenImbalanceInt sumE
  simp only [pyDiv_of_ne hx, pyDiv_of_ne hF, ok_bind, pure_eq_ok]
  simp

theorem objectiveInt_raises {l : List Order} (h : l ≠ []) (x p : ℚ) (fee : Fee) (v : ℚ) : objectiveForOrdersInt l x p fee ≠ .ok v := by
  cases l with
  | nil => exact absurd rfl h
  | cons o l =>
    unfold objectiveForOrdersInt sumE intObjectiveTermNoBalance
    intro e
    simp only [bind_eq_ok] at e
    obtain ⟨_, ⟨_, _, e⟩, _⟩ := e
    cases e

/-- C84, negative. The integer objective is never computed for any order: the function raises whenever one of its three lists is not empty. -/
theorem C84_integer_objective_raises {cfg : Config} {b s f : List Order} (h : b ++ s ++ f ≠ []) (x p : ℚ) (fee : Fee) (v : ℚ) :
    computeObjectiveInteger cfg b s f x p fee ≠ .ok v := by
  intro e
  unfold computeObjectiveInteger at e
  simp only [bind_eq_ok] at e
  obtain ⟨t1, e1, _, _, _, _, t2, e2, _, _, t3, e3, _⟩ := e
  have g : ∀ {l : List Order} {x p v : ℚ}, objectiveForOrdersInt l x p fee = .ok v → l = [] := fun {l x p v} e => by
    by_contra hl
    exact objectiveInt_raises hl x p fee v e
  exact h (by rw [g e1, g e2, g e3]; rfl)

/-- C84, negative. The exception is `TypeError` when the first order that is looked at can be evaluated. -/
theorem C84_type_error {cfg : Config} {prices : Prices} {accounts : Accounts} {o : Order} {b s f : List Order} {pb ps : ℚ} {fee : Fee} (hf : fee.value < 1)
    (h : Evaluable prices accounts o pb ps) : computeObjectiveInteger cfg (o :: b) s f (pb / ps) pb fee = .error .typeError := by
  unfold computeObjectiveInteger objectiveForOrdersInt sumE intObjectiveTermNoBalance
  rw [C39_formula h hf]
  rfl

/-! ### Examples -/

namespace ExIntBook
/-- Orders of a pair with executed amounts at prices 3 and 2, with a fee of a thousandth. -/
def b : List Order := [(Order.mk' "B" "S" 20000 2 (some "a") "0").withBuy 13000]
@[inherit_doc b] def s : List Order := [((Order.mk' "S" "B" 9500 1 (some "b") "1").withBuy 13500).withSell 9009, ((Order.mk' "S" "B" 9500 1 (some "b") "3").withBuy 6100).withSell 4070]
@[inherit_doc b] def f : List Order := [(Order.mk' "B" "F" 9000 2 (some "c") "2").withBuy 79]
def prices : Prices := [("F", 1), ("B", 3), ("S", 2)]
def fee : Fee := { token := "F", value := 1 / 1000 }
end ExIntBook

open ExIntBook in
/-- The hypotheses of `C84_imbalance`, `C84_rounding` and `C84_bought_by_fee_orders`; the exact imbalance is between 79 and 81. -/
example : IsInt (3 : ℚ) ∧ IsInt (2 : ℚ) ∧ fee.value < 1 ∧ (∀ o ∈ s, 0 ≤ o.buy) ∧ nrExecuted s = 2 ∧ IntPrices prices ∧ PriceOf prices "B" 3 ∧ PriceOf prices "S" 2 ∧
    (∀ o ∈ b, o.buyToken = "B" ∧ o.sellToken = "S") ∧ (∀ o ∈ s, o.buyToken = "S" ∧ o.sellToken = "B") ∧ (∀ o ∈ f, o.buyToken = "B" ∧ o.sellToken = "F") ∧
    (∀ o ∈ s, OnClearingPrice prices fee o) ∧ sold (b ++ s ++ f) "B" = bought (b ++ s ++ f) "B" ∧ bBuyTokenImbalanceInt b s (3 / 2) 3 fee = .ok 79 ∧
    (79 : ℚ) < exactImbalance b s (3 / 2) fee ∧ exactImbalance b s (3 / 2) fee < 81 := by
  refine ⟨by decide +kernel, by decide +kernel, by decide +kernel, by decide +kernel, by decide +kernel, ?_, priceOf_iff.2 (by decide +kernel),
    priceOf_iff.2 (by decide +kernel), by decide +kernel, by decide +kernel, by decide +kernel, ?_, by decide +kernel, by decide +kernel, by decide +kernel,
    by decide +kernel⟩
  · intro e he
    simp only [prices, List.mem_cons, List.not_mem_nil, or_false] at he
    rcases he with rfl | rfl | rfl <;> decide +kernel
  · intro o ho
    refine ⟨2, 3, ?_, ?_, ?_⟩
    all_goals
      simp only [s, List.mem_cons, List.not_mem_nil, or_false] at ho
      rcases ho with rfl | rfl
    all_goals first | exact priceOf_iff.2 (by decide +kernel) | decide +kernel

/-- The hypotheses of `C84_integer_objective_raises` and `C84_type_error`. -/
example : ExIntBook.b ++ ExIntBook.s ++ ExIntBook.f ≠ [] ∧ Evaluable ExIntBook.prices [("a", [])] (Order.mk' "B" "S" 20000 2 (some "a") "0") 3 2 :=
  ⟨by decide +kernel, by constructor <;> decide +kernel⟩

/-- The hypotheses of `C84_empty`. -/
example : CfgOk Config.default := by constructor <;> decide +kernel

end Dex
