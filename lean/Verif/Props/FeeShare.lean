import Verif.Props.Dump
import Verif.Props.ExInstance
import Mathlib.Algebra.BigOperators.Ring.Finset
import Mathlib.Algebra.BigOperators.Group.Finset.Piecewise

/-! # Property C105: the reported fees are the fee share of the value sold -/

namespace Dex

namespace Spec

/-- The price of a token, zero if there is none. -/
def priceIn (prices : Prices) (t : Token) : ℚ := ((prices.find? (fun e => decide (e.1 = t))).map (·.2)).getD 0

/-- Value of what the orders sell. -/
def soldValue (prices : Prices) (es : List OrderDict) : ℚ := (es.map (fun e => execSell e * priceIn prices e.sellToken)).sum

/-- Value of one unit of each order's sell token, summed over the orders. -/
def unitValue (prices : Prices) (es : List OrderDict) : ℚ := (es.map (fun e => priceIn prices e.sellToken)).sum

/-- The reported fees in units of value: at most the fee share of the value sold, and less than that by not even `1 - fee` units of each order's
sell token. -/
structure FeeShare (cfg : Config) (inst : Instance) (d : Dump) : Prop where
  upper : cfg.feeTokenPrice * d.objVals.fees ≤ inst.fee.value * soldValue d.prices d.orders
  lower : inst.fee.value * soldValue d.prices d.orders - (1 - inst.fee.value) * unitValue d.prices d.orders ≤ cfg.feeTokenPrice * d.objVals.fees
  strict : d.orders ≠ [] →
    inst.fee.value * soldValue d.prices d.orders - (1 - inst.fee.value) * unitValue d.prices d.orders < cfg.feeTokenPrice * d.objVals.fees

end Spec

open Spec

theorem priceIn_eq {prices : Prices} {t : Token} {p : ℚ} (h : PriceOf prices t p) : priceIn prices t = p := by
  obtain ⟨e, h1, h2⟩ := h
  unfold priceIn
  rw [h1]
  exact h2

/-- Sorting a sum by token. -/
theorem sum_by_token {p : Token → ℚ} {tok : OrderDict → Token} {amt : OrderDict → ℚ} {T : Finset Token} {es : List OrderDict}
    (h : ∀ e ∈ es, tok e ∈ T) : (es.map (fun e => amt e * p (tok e))).sum = ∑ t ∈ T, p t * ((es.filter (fun e => decide (tok e = t))).map amt).sum := by
  induction es with
  | nil => simp
  | cons e es ih =>
    rw [List.map_cons, List.sum_cons, ih (fun e he => h e (by simp [he]))]
    have : ∀ t ∈ T, p t * (((e :: es).filter (fun e => decide (tok e = t))).map amt).sum =
        (if tok e = t then amt e * p t else 0) + p t * ((es.filter (fun e => decide (tok e = t))).map amt).sum := by
      intro t _
      by_cases ht : tok e = t
      · simp [ht]; ring
      · simp [ht]
    rw [Finset.sum_congr rfl this, Finset.sum_add_distrib, Finset.sum_ite_eq, if_pos (h e (by simp))]

/-- The value that flows in minus the value that flows out is what remains of the fee token. -/
theorem dump_value_balance {cfg : Config} {inst : Instance} {d : Dump} (h : DumpOk cfg inst d) (p : Token → ℚ) :
    (d.orders.map (fun e => execSell e * p e.sellToken)).sum - (d.orders.map (fun e => execBuy e * p e.buyToken)).sum =
      p inst.fee.token * d.objVals.fees := by
  classical
  let T : Finset Token := insert inst.fee.token ((d.orders.map (·.sellToken)).toFinset ∪ (d.orders.map (·.buyToken)).toFinset)
  have h1 : ∀ e ∈ d.orders, e.sellToken ∈ T := fun e he => by
    simp only [T, Finset.mem_insert, Finset.mem_union, List.mem_toFinset, List.mem_map]
    exact .inr (.inl ⟨e, he, rfl⟩)
  have h2 : ∀ e ∈ d.orders, e.buyToken ∈ T := fun e he => by
    simp only [T, Finset.mem_insert, Finset.mem_union, List.mem_toFinset, List.mem_map]
    exact .inr (.inr ⟨e, he, rfl⟩)
  rw [sum_by_token (p := p) (tok := (·.sellToken)) (amt := execSell) h1, sum_by_token (p := p) (tok := (·.buyToken)) (amt := execBuy) h2,
    ← Finset.sum_sub_distrib, Finset.sum_eq_single inst.fee.token]
  · rw [← mul_sub, h.fees]
    rfl
  · intro t _ ht
    rw [← mul_sub]
    have := h.balanced t ht
    unfold dumpSold dumpBought at this
    rw [this, sub_self, mul_zero]
  · intro hn
    exact absurd (Finset.mem_insert_self _ _) hn

/-- One order: what it sells exceeds what it buys, in value, by the fee up to rounding. -/
theorem order_value {pb ps buy sell : ℚ} {fee : Fee} (hf : fee.value < 1) (h0 : 0 < ps) (hi : IsInt ps) (h : sell = uniformSell pb ps fee buy) :
    sell * ps - buy * pb ≤ fee.value * (sell * ps) ∧ fee.value * (sell * ps) - (1 - fee.value) * ps < sell * ps - buy * pb := by
  have hd : 0 < 1 - fee.value := by linarith
  obtain ⟨n, rfl⟩ := isInt_iff.1 hi
  set v := buy * pb / (1 - fee.value) with hv
  have hvb : buy * pb = v * (1 - fee.value) := by rw [hv]; field_simp
  set w : ℤ := ⌊v⌋ with hw
  have h1 : (w : ℚ) ≤ v := Int.floor_le v
  have h2 : v < w + 1 := Int.lt_floor_add_one v
  set u : ℤ := ⌊(w : ℚ) / n⌋ with hu
  have e : sell = u := h
  have h3 : (u : ℚ) * n ≤ w := (le_div_iff₀ h0).1 (Int.floor_le _)
  have h4 : (w : ℚ) < (u + 1) * n := (div_lt_iff₀ h0).1 (Int.lt_floor_add_one _)
  have h5 : (w : ℚ) + 1 ≤ (u + 1) * n := by exact_mod_cast h4
  rw [e, hvb]
  constructor
  · have := mul_le_mul_of_nonneg_right (h3.trans h1) hd.le
    nlinarith
  · have := mul_lt_mul_of_pos_right (h2.trans_le h5) hd
    nlinarith

theorem sum_sub_map {α : Type} (l : List α) (f g : α → ℚ) : (l.map f).sum - (l.map g).sum = (l.map (fun e => f e - g e)).sum := by
  induction l with
  | nil => simp
  | cons a l ih => simp only [List.map_cons, List.sum_cons]; rw [← ih]; ring

theorem sum_mul_map {α : Type} (l : List α) (f : α → ℚ) (c : ℚ) : c * (l.map f).sum = (l.map (fun e => c * f e)).sum := by
  induction l with
  | nil => simp
  | cons a l ih => simp only [List.map_cons, List.sum_cons]; rw [← ih]; ring

theorem sum_lt_map {α : Type} {l : List α} {f g : α → ℚ} (h : ∀ a ∈ l, f a < g a) : (l.map f).sum ≤ (l.map g).sum ∧ (l ≠ [] → (l.map f).sum < (l.map g).sum) := by
  induction l with
  | nil => simp
  | cons a l ih =>
    have h1 := h a (by simp)
    have h2 := (ih (fun a ha => h a (by simp [ha]))).1
    simp only [List.map_cons, List.sum_cons]
    exact ⟨by linarith, fun _ => by linarith⟩

/-- C105. The fees that a written solution reports are the fee share of the value sold, up to rounding. -/
theorem C105_fee_share {cfg : Config} {inst : Instance} {d : Dump} (hf : inst.fee.value < 1) (h : DumpOk cfg inst d) : FeeShare cfg inst d := by
  by_cases hn : d.orders = []
  · have h0 : d.objVals.fees = 0 := by rw [h.fees, hn]; simp [dumpSold, dumpBought]
    refine ⟨?_, ?_, fun h => absurd hn h⟩ <;> rw [h0, hn] <;> simp [soldValue, unitValue]
  have hv := dump_value_balance h (priceIn d.prices)
  rw [priceIn_eq (h.feePrice hn)] at hv
  have ho : ∀ e ∈ d.orders, execSell e * priceIn d.prices e.sellToken - execBuy e * priceIn d.prices e.buyToken ≤
      inst.fee.value * (execSell e * priceIn d.prices e.sellToken) ∧
      inst.fee.value * (execSell e * priceIn d.prices e.sellToken) - (1 - inst.fee.value) * priceIn d.prices e.sellToken <
        execSell e * priceIn d.prices e.sellToken - execBuy e * priceIn d.prices e.buyToken := by
    intro e he
    obtain ⟨pb, ps, h1, h2, h3⟩ := h.clearing e he
    rw [priceIn_eq h1, priceIn_eq h2]
    obtain ⟨x, h4, rfl⟩ := h2
    obtain ⟨h5, h6⟩ := h.prices x (List.mem_of_find?_eq_some h4)
    exact order_value hf h5 h6 h3
  rw [sum_sub_map] at hv
  obtain ⟨l1, l2⟩ := sum_lt_map (fun e he => (ho e he).2)
  refine ⟨?_, ?_, fun _ => ?_⟩ <;> unfold soldValue
  · rw [← hv, sum_mul_map]
    exact List.sum_le_sum (fun e he => (ho e he).1)
  · unfold unitValue
    rw [← hv, sum_mul_map, sum_mul_map, sum_sub_map]
    exact l1
  · unfold unitValue
    rw [← hv, sum_mul_map, sum_mul_map, sum_sub_map]
    exact l2 hn

/-- C105. The program for one pair reports the fee share of the value sold, up to rounding. -/
theorem C105_token_pair {cfg : Config} {ext : Ext} {inst : Instance} {pair : Token × Token} {xrate : Option ℚ} {d : Dump} (hc : CfgOk cfg)
    (hi : GoodInstance inst) (hne : pair.1 ≠ pair.2) (hbr : ∀ E, MaxBranching E (ext.branch E)) (hx : ∀ y, xrate = some y → 0 < y)
    (h : tokenPairMain cfg ext inst pair xrate = .ok d) : FeeShare cfg inst d := by
  have h0 := h
  unfold tokenPairMain at h0
  rw [bind_eq_ok] at h0
  obtain ⟨⟨accounts, bk, fee⟩, h1, _⟩ := h0
  exact C105_fee_share hi.feeLt ((C44_token_pair hc hi hne hbr hx h1).2 d h)

/-- C105. The same for the program that searches all pairs. -/
theorem C105_best_pair {cfg : Config} {ext : Ext} {inst : Instance} {shuffle : List (Token × Token) → List ((Token × Token) × Bool)} {d : Dump}
    (hc : CfgOk cfg) (hi : GoodInstance inst) (hbr : ∀ E, MaxBranching E (ext.branch E)) (hsh : ∀ E, ∀ v ∈ shuffle E, v.1 ∈ E)
    (h : bestTokenPairMain cfg ext inst shuffle = .ok d) : FeeShare cfg inst d := by
  obtain ⟨_, _, _, h1⟩ := C44_best_pair hc hi hbr hsh
  exact C105_fee_share hi.feeLt (h1 d h)

/-- C105. If one unit is at most the fee on the smallest amount, a solution that executes an order reports a fee of at least one unit of the fee
token. -/
theorem C105_positive {cfg : Config} {inst : Instance} {d : Dump} (hc : CfgOk cfg) (hf : inst.fee.value < 1) (hp : 0 < inst.fee.value)
    (hm : 1 ≤ inst.fee.value * cfg.minTradable) (h : DumpOk cfg inst d) (hn : d.orders ≠ []) : 1 ≤ d.objVals.fees := by
  have h1 := (C105_fee_share hf h).strict hn
  have h2 : 0 ≤ inst.fee.value * soldValue d.prices d.orders - (1 - inst.fee.value) * unitValue d.prices d.orders := by
    unfold soldValue unitValue
    rw [sum_mul_map, sum_mul_map, sum_sub_map]
    apply List.sum_nonneg
    intro y hy
    obtain ⟨e, he, rfl⟩ := List.mem_map.1 hy
    obtain ⟨pb, ps, _, g2, _⟩ := h.clearing e he
    have g3 := priceIn_eq g2
    obtain ⟨x, g4, rfl⟩ := g2
    have g5 := (h.prices x (List.mem_of_find?_eq_some g4)).1
    rw [g3]
    have g6 := (h.minAmounts e he).1
    have g7 : inst.fee.value * cfg.minTradable ≤ inst.fee.value * execSell e := mul_le_mul_of_nonneg_left g6 hp.le
    nlinarith
  have h3 : 0 < d.objVals.fees := by
    by_contra hneg
    have := mul_nonpos_of_nonneg_of_nonpos (by exact_mod_cast hc.feePrice.le : (0 : ℚ) ≤ cfg.feeTokenPrice) (not_lt.1 hneg)
    linarith
  have h4 : IsInt d.objVals.fees := by
    obtain ⟨ks, _, hks⟩ := h.orders
    have hfrom : ∀ e ∈ d.orders, IsInt (execSell e) ∧ IsInt (execBuy e) := fun e he => by
      obtain ⟨k, _, d0, _, _, _, _, g1, g2, _⟩ := forall₂_mem_r hks e he
      exact ⟨g1, g2⟩
    rw [h.fees]
    exact (isInt_sum fun e he => (hfrom e (List.mem_of_mem_filter he)).1).sub (isInt_sum fun e he => (hfrom e (List.mem_of_mem_filter he)).2)
  obtain ⟨n, hn'⟩ := isInt_iff.1 h4
  rw [hn'] at h3 ⊢
  exact_mod_cast h3

/-! ### Examples -/

/-- The solution of the example instance, with its metrics: the fees are at least one unit, and the smallest amount allowed is such that C105_positive
applies. -/
example : ∃ d, tokenPairMain Config.default ExInst.ext ExInst.inst ("B", "S") none = .ok d ∧ d.orders.length = 3 ∧
    FeeShare Config.default ExInst.inst d ∧ 1 ≤ ExInst.inst.fee.value * Config.default.minTradable ∧ 10 ^ 16 ≤ d.objVals.fees := by
  obtain ⟨d, h, h1, h2, h3⟩ := exists_of_pyCheck (x := tokenPairMain Config.default ExInst.ext ExInst.inst ("B", "S") none)
    (p := fun d : Dump => d.orders.length = 3 ∧ d.orders.length = 3 ∧ 10 ^ 16 ≤ d.objVals.fees) (by decide +kernel)
  exact ⟨d, h, h1, C105_token_pair ⟨by decide, by decide, by decide, by decide, by decide, by decide⟩ ExInst.good (by decide) ExInst.branch_max (by simp) h,
    by decide +kernel, h3⟩

end Dex
