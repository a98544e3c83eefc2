import Verif.Props.Price
import Verif.Proof.Validation

/-! # Properties C38, C39, C40 and C48: utilities and reported metrics -/

namespace Dex

namespace Spec

/-- Minimum buy amount behind the order's limit rate. -/
def minBuyOf (o : Order) : ℚ := o.origMaxSell / o.maxXrate

/-- Utility of the order at the prices in integer arithmetic. -/
def intUtil (pb ps : ℚ) (fee : Fee) (o : Order) : ℚ :=
  o.buy * pb - (⌊(uniformSell pb ps fee o.buy : ℚ) * minBuyOf o * pb / o.origMaxSell⌋ : ℤ)

/-- Exact utility of an executed order: what it bought minus what its limit asks for, valued at the price. -/
def exactUtil (pb ps : ℚ) (fee : Fee) (o : Order) : ℚ :=
  (o.buy - (uniformSell pb ps fee o.buy : ℚ) / o.maxXrate) * pb

/-- Disregarded utility: the part of the order left unfilled (limited by the remaining balance) times its surplus per unit. -/
def disregarded (pb ps : ℚ) (fee : Fee) (o : Order) (bal : ℚ) : ℚ :=
  (⌊min (o.origMaxSell - (uniformSell pb ps fee o.buy : ℚ)) bal *
    max 0 (ps * o.origMaxSell - (⌊minBuyOf o * pb * (fee.value.den : ℚ) / ((fee.value.den : ℚ) - 1)⌋ : ℤ)) / o.origMaxSell⌋ : ℤ)

/-- Price of a token, zero if there is none. -/
def priceAt (prices : Prices) (t : Token) : ℚ := ((prices.find? (fun p => decide (p.1 = t))).map (·.2)).getD 0

/-- Remaining balance of the order's sell token. -/
def remaining (accounts : Accounts) (o : Order) : ℚ := backing accounts o

end Spec

open Spec

theorem floor_mul_div {a m p : ℚ} (hp : IsInt p) (hm : 0 < m) :
    (⌊a / m⌋ : ℚ) * p + (⌊(a - m * (⌊a / m⌋ : ℚ)) * p / m⌋ : ℤ) = (⌊a * p / m⌋ : ℤ) := by
  obtain ⟨n, rfl⟩ := isInt_iff.1 hp
  have e : a * (n : ℚ) / m = (a - m * (⌊a / m⌋ : ℚ)) * n / m + ((⌊a / m⌋ * n : ℤ) : ℚ) := by
    push_cast; field_simp; ring
  rw [e, Int.floor_add_intCast]
  push_cast; ring

/-- C39. The integer utility is `buy * p - floor(sell * minbuy * p / maxsell)`. -/
theorem C39_formula {prices : Prices} {accounts : Accounts} {o : Order} {pb ps : ℚ} (h : Evaluable prices accounts o pb ps) {fee : Fee}
    (hf : fee.value < 1) : intUtility o (pb / ps) pb fee = .ok (intUtil pb ps fee o) := by
  unfold Dex.intUtility
  simp only [pyDiv_of_ne h.limit.ne', ok_bind, pyAssert_of h.minBuy, h.intSell hf, pyFloorDiv_of_ne h.maxSell.ne', pyMod,
    h.maxSell.ne', if_false, pure_eq_ok, Except.ok.injEq]
  have := floor_mul_div (a := (uniformSell pb ps fee o.buy : ℚ) * minBuyOf o) h.pbInt h.maxSell
  unfold intUtil
  rw [← this]
  unfold uniformSell minBuyOf
  ring

/-- C39. The integer utility exceeds the exact utility by less than one unit; it is non-negative for an order that respects its limit. -/
theorem C39_bounds {prices : Prices} {accounts : Accounts} {o : Order} {pb ps : ℚ} (h : Evaluable prices accounts o pb ps) {fee : Fee} :
    exactUtil pb ps fee o ≤ intUtil pb ps fee o ∧ intUtil pb ps fee o < exactUtil pb ps fee o + 1 ∧
      ((uniformSell pb ps fee o.buy : ℚ) ≤ o.maxXrate * o.buy → 0 ≤ intUtil pb ps fee o) := by
  have h1 := h.maxSell
  have h2 := h.limit
  have e : (uniformSell pb ps fee o.buy : ℚ) * minBuyOf o * pb / o.origMaxSell = (uniformSell pb ps fee o.buy : ℚ) / o.maxXrate * pb := by
    unfold minBuyOf; field_simp
  have h3 := Int.floor_le ((uniformSell pb ps fee o.buy : ℚ) * minBuyOf o * pb / o.origMaxSell)
  have h4 := Int.lt_floor_add_one ((uniformSell pb ps fee o.buy : ℚ) * minBuyOf o * pb / o.origMaxSell)
  have h5 : exactUtil pb ps fee o ≤ intUtil pb ps fee o := by unfold exactUtil intUtil; rw [e] at *; linarith
  refine ⟨h5, by unfold exactUtil intUtil; rw [e] at *; linarith, fun hl => le_trans ?_ h5⟩
  unfold exactUtil
  refine mul_nonneg ?_ h.pbPos.le
  rw [sub_nonneg, div_le_iff₀ h2]; linarith

/-- C39. An order whose minimum buy amount is not an integer cannot be evaluated: `AssertionError`. -/
theorem C39_fractional_limit_raises {o : Order} {xrate price : ℚ} {fee : Fee} (hl : o.maxXrate ≠ 0) (h : ¬ IsInt (minBuyOf o)) :
    intUtility o xrate price fee = .error (.assertion "order_util.py:184") := by
  unfold Dex.intUtility
  simp only [pyDiv_of_ne hl, ok_bind]
  unfold pyAssert
  rw [if_neg (show ¬ (o.origMaxSell / o.maxXrate).den = 1 from h)]; rfl

theorem intMaxUtility_eq {prices : Prices} {accounts : Accounts} {o : Order} {pb ps : ℚ} (h : Evaluable prices accounts o pb ps) {fee : Fee}
    (hf : fee.value < 1) (hd : 2 ≤ fee.value.den) (bal : ℚ) :
    intMaxUtility o (pb / ps) pb fee bal = .ok (disregarded pb ps fee o bal + intUtil pb ps fee o) := by
  obtain ⟨_, _, _, h4⟩ := h.xrate
  have hd' : (fee.value.den : ℚ) - 1 ≠ 0 := by
    have : (2 : ℚ) ≤ fee.value.den := by exact_mod_cast hd
    linarith
  have e : intDisregardedUtility o (pb / ps) pb fee bal = .ok (disregarded pb ps fee o bal) := by
    unfold intDisregardedUtility
    simp only [pyDiv_of_ne h.limit.ne', ok_bind, h4, h.intSell hf, pyFloorDiv_of_ne hd', pyFloorDiv_of_ne h.maxSell.ne', pure_eq_ok,
      Except.ok.injEq]
    unfold disregarded uniformSell minBuyOf
    congr 4
    split
    · rename_i hc; rw [max_eq_right (by linarith)]
    · rename_i hc; rw [max_eq_left (by linarith)]
  unfold intMaxUtility
  rw [e, ok_bind, C39_formula h hf]; rfl

/-- C38. The disregarded utility is non-negative when the order sells at most its original maximum and the remaining balance is
non-negative. -/
theorem C38_disregarded_nonneg {pb ps : ℚ} {fee : Fee} {o : Order} {bal : ℚ} (hm : 0 < o.origMaxSell)
    (hs : (uniformSell pb ps fee o.buy : ℚ) ≤ o.origMaxSell) (hb : 0 ≤ bal) : 0 ≤ disregarded pb ps fee o bal := by
  unfold disregarded
  have : (0 : ℤ) ≤ ⌊min (o.origMaxSell - (uniformSell pb ps fee o.buy : ℚ)) bal *
      max 0 (ps * o.origMaxSell - (⌊minBuyOf o * pb * (fee.value.den : ℚ) / ((fee.value.den : ℚ) - 1)⌋ : ℤ)) / o.origMaxSell⌋ := by
    rw [Int.floor_nonneg]
    exact div_nonneg (mul_nonneg (le_min (by linarith) hb) (le_max_left _ _)) hm.le
  exact_mod_cast this

theorem balanceUpdated_eq {prices : Prices} {accounts : Accounts} {o : Order} {pb ps : ℚ} (h : Evaluable prices accounts o pb ps) :
    balanceUpdated accounts o = .ok (backing accounts o) := by
  unfold balanceUpdated backing
  cases ha : o.accountId with
  | none => rfl
  | some a =>
    obtain ⟨d, hd⟩ := Option.isSome_iff_exists.1 (h.account a ha)
    simp only
    rw [dictGet_of hd, ok_bind, balanceOf_eq hd]; rfl

/-- An order of a feasible solution, as the metrics need it. -/
structure MetricOk (prices : Prices) (accounts : Accounts) (fee : Fee) (o : Order) : Prop where
  eval : Evaluable prices accounts o (priceAt prices o.buyToken) (priceAt prices o.sellToken)
  sell : (uniformSell (priceAt prices o.buyToken) (priceAt prices o.sellToken) fee o.buy : ℚ) ≤ o.origMaxSell
  bal : 0 ≤ remaining accounts o

/-- Utility of an order of the solution. -/
def Spec.utilityAt (prices : Prices) (fee : Fee) (o : Order) : ℚ := intUtil (priceAt prices o.buyToken) (priceAt prices o.sellToken) fee o

/-- Disregarded utility of an order of the solution. -/
def Spec.disregardedAt (prices : Prices) (accounts : Accounts) (fee : Fee) (o : Order) : ℚ :=
  disregarded (priceAt prices o.buyToken) (priceAt prices o.sellToken) fee o (remaining accounts o)

theorem metrics_fold {prices : Prices} {accounts : Accounts} {fee : Fee} (hf : fee.value < 1) (hd : 2 ≤ fee.value.den) {orders : List Order}
    (h : ∀ o ∈ orders, MetricOk prices accounts fee o) (m0 : Metrics) : ∃ m, foldE (metricsStep prices accounts fee) m0 orders = .ok m ∧
      m.utility = m0.utility + (orders.map (utilityAt prices fee)).sum ∧
      m.utilityDisreg = m0.utilityDisreg + (orders.map (disregardedAt prices accounts fee)).sum ∧
      m.utilityDisregTouched = m0.utilityDisregTouched +
        ((orders.filter (fun o => decide (0 < o.sell))).map (disregardedAt prices accounts fee)).sum := by
  induction orders generalizing m0 with
  | nil => exact ⟨m0, rfl, by simp, by simp, by simp⟩
  | cons o os ih =>
    have ho := h o (by simp)
    obtain ⟨h1, h2, h3, h4⟩ := ho.eval.xrate
    have hnn : 0 ≤ disregardedAt prices accounts fee o := C38_disregarded_nonneg ho.eval.maxSell ho.sell ho.bal
    have hstep : ∃ m1, metricsStep prices accounts fee m0 o = .ok m1 ∧ m1.utility = m0.utility + utilityAt prices fee o ∧
        m1.utilityDisreg = m0.utilityDisreg + disregardedAt prices accounts fee o ∧
        m1.utilityDisregTouched = m0.utilityDisregTouched + (if 0 < o.sell then disregardedAt prices accounts fee o else 0) := by
      have e : ∀ x y : ℚ, disregarded (priceAt prices o.buyToken) (priceAt prices o.sellToken) fee o (backing accounts o) = x → 0 ≤ x →
        (¬ (y > x + y)) ∧ max (x + y - y) 0 = x ∧ x + y - y = x := by
        intro x y _ hx; refine ⟨by linarith, by rw [add_sub_cancel_right]; exact max_eq_left hx, by ring⟩
      obtain ⟨e1, e2, e3⟩ := e _ (intUtil (priceAt prices o.buyToken) (priceAt prices o.sellToken) fee o) rfl hnn
      unfold metricsStep
      rw [h1, ok_bind, h2, ok_bind, h3, ok_bind, C39_formula ho.eval hf, ok_bind, balanceUpdated_eq ho.eval, ok_bind,
        intMaxUtility_eq ho.eval hf hd, ok_bind, if_neg e1]
      refine ⟨_, rfl, ?_, ?_, ?_⟩
      · repeat' split
        all_goals rfl
      · have : ∀ z : ℚ, z = max (disregarded (priceAt prices o.buyToken) (priceAt prices o.sellToken) fee o (backing accounts o) +
            intUtil (priceAt prices o.buyToken) (priceAt prices o.sellToken) fee o - intUtil (priceAt prices o.buyToken) (priceAt prices o.sellToken) fee o) 0 → m0.utilityDisreg + z = m0.utilityDisreg + disregardedAt prices accounts fee o := by
          rintro z rfl; rw [e2]; rfl
        repeat' split
        all_goals exact this _ rfl
      · have : ∀ z : ℚ, z = disregarded (priceAt prices o.buyToken) (priceAt prices o.sellToken) fee o (backing accounts o) +
            intUtil (priceAt prices o.buyToken) (priceAt prices o.sellToken) fee o - intUtil (priceAt prices o.buyToken) (priceAt prices o.sellToken) fee o → m0.utilityDisregTouched + z = m0.utilityDisregTouched + disregardedAt prices accounts fee o := by
          rintro z rfl; rw [e3]; rfl
        by_cases hs : 0 < o.sell
        · rw [if_pos hs, if_pos hs]
          split <;> [exact this _ rfl; split <;> exact this _ rfl]
        · rw [if_neg hs, if_neg hs, add_zero]
          split <;> [rfl; split <;> rfl]
    obtain ⟨m1, hm1, a1, a2, a3⟩ := hstep
    obtain ⟨m, hm, b1, b2, b3⟩ := ih (fun o ho => h o (by simp [ho])) m1
    refine ⟨m, by rw [foldE, hm1, ok_bind, hm], ?_, ?_, ?_⟩
    · rw [b1, a1]; simp; ring
    · rw [b2, a2]; simp; ring
    · rw [b3, a3]
      by_cases hs : 0 < o.sell
      · simp [hs]; ring
      · simp [hs]

/-- C38. The metrics of a feasible solution are computed without an exception (in particular the warning path is not taken); the utility
is the sum of the orders' utilities, the disregarded utility is the sum of the orders' disregarded utilities, and it is non-negative. -/
theorem C38_metrics {prices : Prices} {accounts : Accounts} {fee : Fee} (hf : fee.value < 1) (hd : 2 ≤ fee.value.den) {orders : List Order}
    (h : ∀ o ∈ orders, MetricOk prices accounts fee o) : ∃ m, computeSolutionMetrics prices accounts orders fee = .ok m ∧
      m.utility = (orders.map (utilityAt prices fee)).sum ∧
      m.utilityDisreg = (orders.map (disregardedAt prices accounts fee)).sum ∧
      m.utilityDisregTouched = ((orders.filter (fun o => decide (0 < o.sell))).map (disregardedAt prices accounts fee)).sum ∧
      0 ≤ m.utilityDisregTouched ∧ m.utilityDisregTouched ≤ m.utilityDisreg := by
  obtain ⟨m, hm, a, b, c⟩ := metrics_fold hf hd h {}
  have hnn : ∀ o ∈ orders, 0 ≤ disregardedAt prices accounts fee o := fun o ho =>
    C38_disregarded_nonneg (h o ho).eval.maxSell (h o ho).sell (h o ho).bal
  simp only [zero_add] at a b c
  refine ⟨m, hm, a, b, c, ?_, ?_⟩
  · rw [c]
    refine List.sum_nonneg ?_
    intro x hx
    obtain ⟨o, ho, rfl⟩ := List.mem_map.1 hx
    exact hnn o (List.mem_of_mem_filter ho)
  · rw [b, c]
    refine List.Sublist.sum_le_sum (List.filter_sublist.map _) ?_
    intro x hx
    obtain ⟨o, ho, rfl⟩ := List.mem_map.1 hx
    exact hnn o ho

/-! ## C40 -/

theorem metricsStep_ok {prices : Prices} {accounts : Accounts} {fee : Fee} {m m' : Metrics} {o : Order}
    (h : metricsStep prices accounts fee m o = .ok m') :
    m'.volume = m.volume + o.sell * priceAt prices o.sellToken ∧ m'.ordersTouched = m.ordersTouched + (if 0 < o.sell then 1 else 0) ∧
      m'.fees = m.fees + (if o.sellToken = fee.token then o.sell else if o.buyToken = fee.token then - o.buy else 0) := by
  unfold metricsStep at h
  simp only [bind_eq_ok, dictGet_eq_ok] at h
  obtain ⟨pb, h1, ps, h2, x, h3, u, h4, bal, h5, umax, h6, h⟩ := h
  have e : priceAt prices o.sellToken = ps := by
    unfold dictGet? at h2
    unfold priceAt
    rw [h2]; rfl
  split at h
  · cases h
  · cases h
    rw [e]
    refine ⟨?_, ?_, ?_⟩
    · repeat' split
      all_goals rfl
    · by_cases hs : 0 < o.sell
      · rw [if_pos hs, if_pos hs]; split <;> [rfl; split <;> rfl]
      · rw [if_neg hs, if_neg hs]; split <;> [rfl; split <;> rfl]
    · by_cases hs : 0 < o.sell
      · rw [if_pos hs]; split <;> [rfl; split <;> [exact sub_eq_add_neg _ _; exact (add_zero _).symm]]
      · rw [if_neg hs]; split <;> [rfl; split <;> [exact sub_eq_add_neg _ _; exact (add_zero _).symm]]

/-- C40. The reported volume is the total sell amount valued at the sell-token prices, `orders_touched` counts the orders with a positive
sell amount, and `fees` is the fee token sold minus the fee token bought. -/
theorem C40_metrics_add_up {prices : Prices} {accounts : Accounts} {fee : Fee} {orders : List Order} {m : Metrics}
    (hd : ∀ o ∈ orders, o.buyToken ≠ o.sellToken) (h : computeSolutionMetrics prices accounts orders fee = .ok m) :
    m.volume = (orders.map (fun o => o.sell * priceAt prices o.sellToken)).sum ∧
      m.ordersTouched = (orders.filter (fun o => decide (0 < o.sell))).length ∧
      m.fees = sold orders fee.token - bought orders fee.token := by
  have key : ∀ (os : List Order) (m0 m : Metrics), (∀ o ∈ os, o.buyToken ≠ o.sellToken) →
      foldE (metricsStep prices accounts fee) m0 os = .ok m →
      m.volume = m0.volume + (os.map (fun o => o.sell * priceAt prices o.sellToken)).sum ∧
      m.ordersTouched = m0.ordersTouched + (os.filter (fun o => decide (0 < o.sell))).length ∧
      m.fees = m0.fees + imbal os fee.token := by
    intro os
    induction os with
    | nil => intro m0 m _ h; cases h; simp [imbal_nil]
    | cons o os ih =>
      intro m0 m hd h
      rw [foldE, bind_eq_ok] at h
      obtain ⟨m1, h1, h⟩ := h
      obtain ⟨a1, a2, a3⟩ := metricsStep_ok h1
      obtain ⟨b1, b2, b3⟩ := ih m1 m (fun o ho => hd o (by simp [ho])) h
      refine ⟨by rw [b1, a1]; simp; ring, ?_, ?_⟩
      · rw [b2, a2]
        by_cases hs : 0 < o.sell <;> simp [hs]; omega
      · rw [b3, a3, imbal_cons]
        have := hd o (by simp)
        by_cases h1 : o.sellToken = fee.token
        · have h2 : o.buyToken ≠ fee.token := fun e => this (e.trans h1.symm)
          simp [h1, h2]; ring
        · simp [h1]; split <;> ring
  obtain ⟨a, b, c⟩ := key orders {} m hd h
  simp only [zero_add] at a b c
  exact ⟨a, b, c⟩

/-! ## C48 -/

/-- C48. Exact utility: an executed order gains iff the rate, net of fee, respects its limit. -/
theorem C48_sign {o : Order} {x p : ℚ} {fee : Fee} (hf : fee.value < 1) (hl : 0 < o.maxXrate) (hp : 0 < p) :
    ∃ u, ratUtility o x p fee = .ok u ∧ u = p * (o.buy - soldB x fee o / o.maxXrate) ∧
      (0 < o.buy → (0 ≤ u ↔ x ≤ o.maxXrate * (1 - fee.value))) := by
  have hφ : 0 < 1 - fee.value := by linarith
  unfold ratUtility ratSellFromBuy
  simp only [pyDiv_of_ne hφ.ne', pyDiv_of_ne hl.ne', ok_bind, pure_eq_ok]
  refine ⟨_, rfl, rfl, fun hb => ?_⟩
  rw [mul_nonneg_iff_of_pos_left hp, sub_nonneg, div_div, div_le_iff₀ (by positivity)]
  constructor
  · intro h
    have h' : o.buy * x ≤ o.buy * ((1 - fee.value) * o.maxXrate) := h
    have := le_of_mul_le_mul_left h' hb
    linarith
  · intro h
    refine mul_le_mul_of_nonneg_left ?_ hb.le
    linarith

/-- C48. The exact utility never exceeds the maximum utility of an order that sells at most its maximum; the maximum utility is the
utility of selling everything, or zero if that is negative. -/
theorem C48_max {o : Order} {x p : ℚ} {fee : Fee} (hf : fee.value < 1) (hx : 0 < x) (hl : 0 < o.maxXrate) (hp : 0 < p) (hb : 0 ≤ o.buy)
    (hs : soldB x fee o ≤ o.maxSell) : ∃ u umax, ratUtility o x p fee = .ok u ∧ ratMaxUtility o x p fee = .ok umax ∧ u ≤ umax ∧
      umax = max 0 (p * (maxBuyB x fee o - o.maxSell / o.maxXrate)) ∧ ratObjectiveTerm o x p fee = .ok (2 * u - umax) := by
  have hφ : 0 < 1 - fee.value := by linarith
  obtain ⟨u, hu, e, _⟩ := C48_sign (x := x) hf hl hp (o := o)
  have hmax : ratMaxUtility o x p fee = .ok (max 0 (p * (maxBuyB x fee o - o.maxSell / o.maxXrate))) := by
    obtain ⟨v, hv, ev, _⟩ := C48_sign (x := x) hf hl hp (o := o.withBuy (maxBuyB x fee o))
    unfold ratMaxUtility
    rw [pyDiv_of_ne hx.ne', ok_bind]
    unfold maxBuyB at hv
    simp only [hv, ok_bind, pure_eq_ok]
    rw [ev]
    congr 3
    unfold soldB maxBuyB Order.withBuy
    simp only
    field_simp
  refine ⟨u, _, hu, hmax, ?_, rfl, by unfold ratObjectiveTerm; rw [hu, ok_bind, hmax]; rfl⟩
  rw [e]
  unfold soldB at hs ⊢
  unfold maxBuyB
  have hbm : o.buy ≤ o.maxSell / x * (1 - fee.value) := by
    rw [div_le_iff₀ hφ] at hs
    rw [div_mul_eq_mul_div, le_div_iff₀ hx]; exact hs
  have e1 : p * (o.buy - o.buy * x / (1 - fee.value) / o.maxXrate) = o.buy * (p * (1 - x / (1 - fee.value) / o.maxXrate)) := by
    field_simp
  have e2 : p * (o.maxSell / x * (1 - fee.value) - o.maxSell / o.maxXrate) =
      (o.maxSell / x * (1 - fee.value)) * (p * (1 - x / (1 - fee.value) / o.maxXrate)) := by
    field_simp
  rw [e1, e2]
  rcases le_total 0 (p * (1 - x / (1 - fee.value) / o.maxXrate)) with h | h
  · exact le_max_of_le_right (mul_le_mul_of_nonneg_right hbm h)
  · exact le_max_of_le_left (mul_nonpos_of_nonneg_of_nonpos hb h)

namespace ExUtil
def fee : Fee := { token := "F", value := 1 / 1000 }
def prices : Prices := [("F", 1000), ("B", 1500), ("S", 700)]
/-- Two executed orders on the pair B/S and one untouched fee order. -/
def o1 : Order := { Order.mk' "B" "S" 250000 (25 / 10) (some "x") "0" with buy := 90001, sell := 193052 }
def o2 : Order := { Order.mk' "S" "B" 100000 (8 / 10) (some "y") "1" with buy := 150002, sell := 70071 }
def o3 : Order := Order.mk' "B" "F" 30000 2 (some "x") "2"
def accounts : Accounts := [("x", [("S", 10 ^ 6), ("F", 0)]), ("y", [("B", 29000)])]
theorem eval1 : Evaluable prices accounts o1 1500 700 := by
  constructor <;> decide +kernel
end ExUtil

example : intUtility ExUtil.o1 (1500 / 700) 1500 ExUtil.fee = .ok 19170300 ∧ exactUtil 1500 700 ExUtil.fee ExUtil.o1 = 19170300 := by
  decide +kernel
example : minBuyOf ExUtil.o1 = 100000 ∧ ¬ IsInt (minBuyOf { ExUtil.o1 with maxXrate := 3 }) := by decide +kernel
example : ∀ o ∈ [ExUtil.o1, ExUtil.o2, ExUtil.o3], MetricOk ExUtil.prices ExUtil.accounts ExUtil.fee o := by
  intro o ho
  simp only [List.mem_cons, List.not_mem_nil, or_false] at ho
  rcases ho with rfl | rfl | rfl
  · exact ⟨by constructor <;> decide +kernel, by decide +kernel, by decide +kernel⟩
  · exact ⟨by constructor <;> decide +kernel, by decide +kernel, by decide +kernel⟩
  · exact ⟨by constructor <;> decide +kernel, by decide +kernel, by decide +kernel⟩
example : ∃ m, computeSolutionMetrics ExUtil.prices ExUtil.accounts [ExUtil.o1, ExUtil.o2, ExUtil.o3] ExUtil.fee = .ok m ∧
    m.ordersTouched = 2 ∧ 0 < m.utilityDisregTouched ∧ m.utilityDisregTouched ≤ m.utilityDisreg ∧ m.fees = 0 :=
  exists_of_pyCheck (p := fun m : Metrics => m.ordersTouched = 2 ∧ 0 < m.utilityDisregTouched ∧ m.utilityDisregTouched ≤ m.utilityDisreg ∧
    m.fees = 0) (by decide +kernel)
example : soldB 2 ExUtil.fee ExUtil.o1 ≤ ExUtil.o1.maxSell ∧ (2 : ℚ) ≤ ExUtil.o1.maxXrate * (1 - ExUtil.fee.value) := by decide +kernel

end Dex
