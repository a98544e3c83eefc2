import Verif.Props.Search
import Verif.Model.Api

/-! # Properties C20, C21, C22 and C50: integer prices -/

namespace Dex

namespace Spec

/-- Number of orders of the book that accept the rate `x`. -/
def NrAccepting (fee : Fee) (b s : List Order) (x : ℚ) : ℕ :=
  (b.filter (fun o => decide (AcceptsB fee x o))).length + (s.filter (fun o => decide (AcceptsS fee x o))).length

end Spec

open Spec

theorem nrAccepting_eq (fee : Fee) (b s : List Order) (x : ℚ) :
    countSatisfyingXrate b x fee + countSatisfyingXrate s (1 / x) fee = NrAccepting fee b s x := by
  unfold countSatisfyingXrate NrAccepting AcceptsB AcceptsS
  rw [List.countP_eq_length_filter, List.countP_eq_length_filter]

/-- C20. When the exact price `p / x` of the second token is at least 1, the selected price is its floor or its ceiling,
and no fewer orders accept the resulting rate than the rate resulting from the other choice. -/
theorem C20_selected_price {p x : ℚ} {b s : List Order} {fee : Fee} (hp : 0 < p) (hx : 0 < x) (h1 : 1 ≤ p / x) :
    ∃ r : ℤ, computeSBuyTokenPrice p x b s fee = .ok r ∧ 1 ≤ r ∧ (r = ⌊p / x⌋ ∨ r = ⌈p / x⌉) ∧
      NrAccepting fee b s (p / ⌊p / x⌋) ≤ NrAccepting fee b s (p / r) ∧
      NrAccepting fee b s (p / ⌈p / x⌉) ≤ NrAccepting fee b s (p / r) := by
  have hd : 1 ≤ ⌊p / x⌋ := Int.le_floor.2 (by exact_mod_cast h1)
  have hu : 1 ≤ ⌈p / x⌉ := hd.trans (Int.floor_le_ceil _)
  have hd' : (⌊p / x⌋ : ℚ) ≠ 0 := by exact_mod_cast (by omega : ⌊p / x⌋ ≠ 0)
  have hu' : (⌈p / x⌉ : ℚ) ≠ 0 := by exact_mod_cast (by omega : ⌈p / x⌉ ≠ 0)
  unfold computeSBuyTokenPrice
  simp only [pyDiv_of_ne hx.ne', pyDiv_of_ne hd', pyDiv_of_ne hu', ok_bind, pyDiv_of_ne (div_ne_zero hp.ne' hd'),
    pyDiv_of_ne (div_ne_zero hp.ne' hu'), nrAccepting_eq]
  split
  · rename_i h
    exact ⟨_, rfl, hu, .inr rfl, h.le, le_refl _⟩
  · rename_i h
    exact ⟨_, rfl, hd, .inl rfl, le_refl _, by omega⟩

/-- C20. The choice exactly: the ceiling if strictly more orders accept it, otherwise (also on a tie) the floor. -/
theorem C20_choice {p x : ℚ} {b s : List Order} {fee : Fee} (hp : 0 < p) (hx : 0 < x) (h1 : 1 ≤ p / x) :
    computeSBuyTokenPrice p x b s fee =
      .ok (if NrAccepting fee b s (p / ⌊p / x⌋) < NrAccepting fee b s (p / ⌈p / x⌉) then ⌈p / x⌉ else ⌊p / x⌋) := by
  have hd : 1 ≤ ⌊p / x⌋ := Int.le_floor.2 (by exact_mod_cast h1)
  have hu : 1 ≤ ⌈p / x⌉ := hd.trans (Int.floor_le_ceil _)
  have hd' : (⌊p / x⌋ : ℚ) ≠ 0 := by exact_mod_cast (by omega : ⌊p / x⌋ ≠ 0)
  have hu' : (⌈p / x⌉ : ℚ) ≠ 0 := by exact_mod_cast (by omega : ⌈p / x⌉ ≠ 0)
  unfold computeSBuyTokenPrice
  simp only [pyDiv_of_ne hx.ne', pyDiv_of_ne hd', pyDiv_of_ne hu', ok_bind, pyDiv_of_ne (div_ne_zero hp.ne' hd'),
    pyDiv_of_ne (div_ne_zero hp.ne' hu'), nrAccepting_eq]
  split <;> rfl

/-- C20. `ZeroDivisionError` is raised exactly when the exact price is below 1 (its floor is zero). -/
theorem C20_zero_division_iff {p x : ℚ} {b s : List Order} {fee : Fee} (hp : 0 < p) (hx : 0 < x) :
    computeSBuyTokenPrice p x b s fee = .error .zeroDivision ↔ ⌊p / x⌋ = 0 := by
  have h0 : 0 < p / x := div_pos hp hx
  constructor
  · intro h
    by_contra hne
    have hd : 0 ≤ ⌊p / x⌋ := Int.floor_nonneg.2 h0.le
    have h1 : 1 ≤ p / x := by
      have : (1 : ℤ) ≤ ⌊p / x⌋ := by omega
      have := Int.le_floor.1 this
      exact_mod_cast this
    obtain ⟨r, hr, _⟩ := C20_selected_price (b := b) (s := s) (fee := fee) hp hx h1
    rw [hr] at h; cases h
  · intro h
    have hu : (⌈p / x⌉ : ℚ) ≠ 0 := by
      have := Int.ceil_pos.2 h0
      exact_mod_cast this.ne'
    unfold computeSBuyTokenPrice
    simp only [pyDiv_of_ne hx.ne', pyDiv_of_ne hu, ok_bind, h, Int.cast_zero]
    rfl

/-- C20. The selected price moves the exact price by less than one unit, hence the rate by less than the factor
`r / (r - 1)` resp. `(r + 1) / r`. -/
theorem C20_close {p x : ℚ} {b s : List Order} {fee : Fee} {r : ℤ} (hp : 0 < p) (hx : 0 < x)
    (h : computeSBuyTokenPrice p x b s fee = .ok r) : 1 ≤ r ∧ |(r : ℚ) - p / x| < 1 := by
  have h0 : 0 < p / x := div_pos hp hx
  have h1 : 1 ≤ p / x := by
    by_contra hlt
    rw [not_le] at hlt
    have : ⌊p / x⌋ = 0 := by
      rw [Int.floor_eq_iff]; constructor <;> simp [h0.le, hlt]
    rw [(C20_zero_division_iff hp hx).2 this] at h; cases h
  obtain ⟨r', hr, h2, h3, _⟩ := C20_selected_price (b := b) (s := s) (fee := fee) hp hx h1
  rw [hr] at h; cases h
  refine ⟨h2, ?_⟩
  rw [abs_lt]
  rcases h3 with rfl | rfl
  · have := Int.floor_le (p / x); have := Int.lt_floor_add_one (p / x)
    constructor <;> linarith
  · have := Int.le_ceil (p / x); have := Int.ceil_lt_add_one (p / x)
    constructor <;> linarith

/-- Both choices occur: at rate 4/3 and price 10 the exact price is 7.5; here the ceiling is chosen because the b order
accepts only rates up to 1.3. -/
example : computeSBuyTokenPrice 10 (4/3) [Order.mk' "B" "S" 1 (13/10) none "0"] [] { token := "F", value := 0 } = .ok 8 := by
  obtain ⟨r, h, rfl⟩ := exists_of_pyCheck
    (x := computeSBuyTokenPrice 10 (4/3) [Order.mk' "B" "S" 1 (13/10) none "0"] [] { token := "F", value := 0 })
    (p := fun r : ℤ => r = 8) (by decide +kernel)
  exact h

example : computeSBuyTokenPrice 10 (4/3) [] [Order.mk' "S" "B" 1 (8/10 - 1/20) none "0"] { token := "F", value := 0 } = .ok 7 := by
  obtain ⟨r, h, rfl⟩ := exists_of_pyCheck
    (x := computeSBuyTokenPrice 10 (4/3) [] [Order.mk' "S" "B" 1 (8/10 - 1/20) none "0"] { token := "F", value := 0 })
    (p := fun r : ℤ => r = 7) (by decide +kernel)
  exact h

/-! ## C22: the market order -/

theorem createMarketOrder_eq {cfg : Config} {bt st : Token} {amt : ℚ} {f : List Order} (hne : f ≠ [])
    (hpos : ∀ o ∈ f, 0 < o.maxXrate) :
    ∃ m ∈ f, (∀ a ∈ f, m.maxXrate ≤ a.maxXrate) ∧ createMarketOrder cfg bt st amt f =
      .ok (Order.mk' bt st (max amt cfg.minRationalTradable) (1 / (m.maxXrate * (9 / 10))) none marketOrderId) := by
  obtain ⟨q, hq⟩ := pyMinBy_of_ne_nil id (l := f.map (·.maxXrate)) (by simpa using hne)
  obtain ⟨h1, h2⟩ := pyMinBy_spec hq
  obtain ⟨m, hm, rfl⟩ := List.mem_map.1 h1
  refine ⟨m, hm, fun a ha => h2 a.maxXrate (List.mem_map.2 ⟨a, ha, rfl⟩), ?_⟩
  unfold createMarketOrder
  have := hpos m hm
  have h3 : m.maxXrate * (9 / 10) ≠ 0 := by positivity
  simp only [hq, ok_bind, pyDiv_of_ne h3]
  rfl

/-- Inputs of the fee-connection step. -/
structure FeeOrders (fee : Fee) (f : List Order) : Prop where
  feeLt : fee.value < 1
  ne : f ≠ []
  pos : ∀ o ∈ f, 0 < o.maxXrate

/-- C22. Creating the market order raises nothing; it sells at least the minimum amount and at least the imbalance, and
if `(1 - fee)^2 ≥ 9/10` pruning it against the fee orders removes nothing. -/
theorem C22_market_order_matchable {cfg : Config} {fee : Fee} {bt st : Token} {amt : ℚ} {f : List Order}
    (h : FeeOrders fee f) (hφ : 9 / 10 ≤ (1 - fee.value) ^ 2) :
    ∃ mo, createMarketOrder cfg bt st amt f = .ok mo ∧ (cfg.minRationalTradable : ℚ) ≤ mo.maxSell ∧ amt ≤ mo.maxSell ∧
      mo.buyToken = bt ∧ mo.sellToken = st ∧ (∀ o ∈ f, Matchable fee mo o) ∧ pruneUnrealizable [mo] f fee = .ok ([mo], f) := by
  obtain ⟨m, hm, hmin, e⟩ := createMarketOrder_eq (cfg := cfg) (bt := bt) (st := st) (amt := amt) h.ne h.pos
  have hm0 := h.pos m hm
  refine ⟨_, e, le_max_right _ _, le_max_left _ _, rfl, rfl, ?_, ?_⟩
  · intro o ho
    rw [matchable_iff h.feeLt (by show (0:ℚ) < 1 / _; positivity) (h.pos o ho)]
    show 1 ≤ 1 / (m.maxXrate * (9 / 10)) * o.maxXrate * (1 - fee.value) ^ 2
    have h1 : 1 / (m.maxXrate * (9 / 10)) * m.maxXrate = 10 / 9 := by field_simp
    have h2 : 1 / (m.maxXrate * (9 / 10)) * m.maxXrate ≤ 1 / (m.maxXrate * (9 / 10)) * o.maxXrate :=
      mul_le_mul_of_nonneg_left (hmin o ho) (by positivity)
    nlinarith
  · generalize hmo : Order.mk' bt st (max amt (cfg.minRationalTradable : ℚ)) (1 / (m.maxXrate * (9 / 10))) none marketOrderId = mo
    have hx : mo.maxXrate = 1 / (m.maxXrate * (9 / 10)) := by rw [← hmo]; rfl
    have hx0 : 0 < mo.maxXrate := by rw [hx]; positivity
    obtain ⟨bc, hbc, sc, hsc, mb, ms, e2⟩ := prune_eq (fee := fee) (b := [mo]) (s := f)
      ⟨h.feeLt, by simp, h.ne, by simpa using hx0, h.pos⟩
    rw [List.mem_singleton] at hbc
    subst hbc
    rw [e2]
    congr 2
    · rw [List.filter_eq_self]
      intro o ho
      rw [List.mem_singleton] at ho; subst ho
      rw [decide_eq_true_eq, hx, ge_iff_le]
      have hsc0 := h.pos sc hsc
      have h2 : 1 / sc.maxXrate ≤ 1 / m.maxXrate := one_div_le_one_div_of_le hm0 (hmin sc hsc)
      have h3 : 1 / (m.maxXrate * (9 / 10)) * (1 - fee.value) ^ 2 ≥ 1 / (m.maxXrate * (9 / 10)) * (9 / 10) :=
        mul_le_mul_of_nonneg_left hφ (by positivity)
      have h4 : 1 / (m.maxXrate * (9 / 10)) * (9 / 10) = 1 / m.maxXrate := by field_simp
      linarith
    · rw [List.filter_eq_self]
      intro o ho
      rw [decide_eq_true_eq, hx, one_div_one_div, ge_iff_le]
      have := hmin o ho
      have : m.maxXrate * (9 / 10) ≤ o.maxXrate * (9 / 10) := by linarith
      have : o.maxXrate * (9 / 10) ≤ o.maxXrate * (1 - fee.value) ^ 2 := mul_le_mul_of_nonneg_left hφ (h.pos o ho).le
      linarith

/-- C22. The market order exactly: it has the given tokens, no account, the larger of the amount and the minimum as sell amount, and the
limit `10/9` of the inverse of the smallest limit among the fee orders. -/
theorem C22_market_order {cfg : Config} {fee : Fee} {bt st : Token} {amt : ℚ} {f : List Order} (h : FeeOrders fee f) :
    ∃ mo, createMarketOrder cfg bt st amt f = .ok mo ∧ mo.buyToken = bt ∧ mo.sellToken = st ∧ mo.accountId = none ∧ mo.buy = 0 ∧
      mo.maxSell = max amt cfg.minRationalTradable ∧ (∃ m ∈ f, mo.maxXrate * m.maxXrate = 10 / 9) ∧
      ∀ a ∈ f, 10 / 9 ≤ mo.maxXrate * a.maxXrate := by
  obtain ⟨m, hm, hmin, e⟩ := createMarketOrder_eq (cfg := cfg) (bt := bt) (st := st) (amt := amt) h.ne h.pos
  have hm0 := h.pos m hm
  have h1 : 1 / (m.maxXrate * (9 / 10)) * m.maxXrate = 10 / 9 := by field_simp
  refine ⟨_, e, rfl, rfl, rfl, rfl, rfl, ⟨m, hm, h1⟩, fun a ha => ?_⟩
  rw [← h1]
  exact mul_le_mul_of_nonneg_left (hmin a ha) (by show (0 : ℚ) ≤ 1 / _; positivity)

/-- C22 (the bound is sharp). For `(1 - fee)^2 < 9/10` (a fee above about 5.1 %) and fee orders with one common limit, the
market order is pruned and the price computation raises `AssertionError`. -/
theorem C22_high_fee_aborts {cfg : Config} {sqrt : ℚ → Py ℚ} {fee : Fee} {bt : Token} {imb x : ℚ} {f : List Order}
    (h : FeeOrders fee f) (hφ : (1 - fee.value) ^ 2 < 9 / 10) (hsame : ∀ o ∈ f, o.maxXrate = x) :
    tokenPriceToCoverImbalance cfg sqrt bt fee imb f = .error (.assertion "xrate.py:98") := by
  obtain ⟨m, hm, hmin, e⟩ := createMarketOrder_eq (cfg := cfg) (bt := fee.token) (st := bt) (amt := imb * (101 / 100)) h.ne h.pos
  have hm0 := h.pos m hm
  unfold tokenPriceToCoverImbalance
  simp only [e, ok_bind]
  generalize hmo : Order.mk' fee.token bt (max (imb * (101 / 100)) (cfg.minRationalTradable : ℚ)) (1 / (m.maxXrate * (9 / 10))) none
    marketOrderId = mo
  have hx : mo.maxXrate = 1 / (m.maxXrate * (9 / 10)) := by rw [← hmo]; rfl
  have hx0 : 0 < mo.maxXrate := by rw [hx]; positivity
  have hpi : PruneInput fee [mo] f := ⟨h.feeLt, by simp, h.ne, by simpa using hx0, h.pos⟩
  obtain ⟨b', s', e2, _, _, hb, _⟩ := C14_exact hpi
  have hb' : b' = [] := by
    rw [List.eq_nil_iff_forall_not_mem]
    intro o ho
    obtain ⟨h1, c, hc, h2⟩ := (hb o).1 ho
    rw [List.mem_singleton] at h1; subst h1
    rw [matchable_iff h.feeLt hx0 (h.pos c hc), hsame c hc, ← hsame m hm, hx] at h2
    have h1 : 1 / (m.maxXrate * (9 / 10)) * m.maxXrate = 10 / 9 := by field_simp
    rw [h1] at h2
    linarith
  subst hb'
  have hs' := (C14_both_or_none hpi e2).1 rfl
  subst hs'
  rw [findBestXrate_unmatchable e2]
  rfl

/-! ## C21: the price of the token connected to the fee token -/

/-- C21. The price is the floor or the ceiling, hence an integer within one, of `fee price / rate`, where the rate is the optimal rate of the market order
against the fee orders. At the market order's limit rate the price is rounded up, so the resulting rate stays within the
limit; otherwise it is rounded down, so the resulting rate does not fall below the optimal one. -/
theorem C21_price {cfg : Config} {sqrt : ℚ → Py ℚ} {fee : Fee} {bt : Token} {imb : ℚ} {f : List Order} {r : ℤ}
    (h : FeeOrders fee f) (hcfg : 0 < cfg.minRationalTradable ∧ 0 ≤ cfg.maxNrExec ∧ 0 < cfg.feeTokenPrice)
    (hids : (f.map (·.id)).Nodup) (hsell : ∀ o ∈ f, 0 ≤ o.maxSell)
    (hr : tokenPriceToCoverImbalance cfg sqrt bt fee imb f = .ok r) :
    ∃ mo x v, createMarketOrder cfg fee.token bt (imb * (101 / 100)) f = .ok mo ∧
      findBestXrate cfg sqrt [mo] f fee = .ok (some (x, v)) ∧ 0 < x ∧
      0 ≤ r ∧ |(r : ℚ) - cfg.feeTokenPrice / x| < 1 ∧
      (x = mo.maxXrate * (1 - fee.value) → r = ⌈cfg.feeTokenPrice / x⌉ ∧ 1 ≤ r ∧ AcceptsB fee (cfg.feeTokenPrice / r) mo) ∧
      (x ≠ mo.maxXrate * (1 - fee.value) → r = ⌊cfg.feeTokenPrice / x⌋ ∧ (1 ≤ r → x ≤ cfg.feeTokenPrice / r)) := by
  obtain ⟨m, hm, hmin, e⟩ := createMarketOrder_eq (cfg := cfg) (bt := fee.token) (st := bt) (amt := imb * (101 / 100)) h.ne h.pos
  have hm0 := h.pos m hm
  unfold tokenPriceToCoverImbalance at hr
  simp only [e, ok_bind] at hr
  generalize hmo : Order.mk' fee.token bt (max (imb * (101 / 100)) (cfg.minRationalTradable : ℚ)) (1 / (m.maxXrate * (9 / 10))) none
    marketOrderId = mo at *
  have hx0 : 0 < mo.maxXrate := by rw [← hmo]; show (0:ℚ) < 1 / _; positivity
  have hms : (0 : ℚ) ≤ mo.maxSell := by
    rw [← hmo]
    have : (0 : ℚ) ≤ cfg.minRationalTradable := by exact_mod_cast hcfg.1.le
    exact this.trans (le_max_right _ _)
  rw [bind_eq_ok] at hr
  obtain ⟨res, hf, hr⟩ := hr
  have si : SearchInput cfg fee [mo] f := ⟨hcfg.1, h.feeLt, hcfg.2.1, hcfg.2.2, by simp, hids,
    by simpa using ⟨hx0, hms⟩, fun o ho => ⟨h.pos o ho, hsell o ho⟩⟩
  obtain ⟨x, v, _, _, _, _, _, rfl, _, _, _, hx, _⟩ := C16_attained_maximum si hf
  simp only [pyDiv_of_ne hx.ne', ok_bind] at hr
  have hfp : (0 : ℚ) < cfg.feeTokenPrice := by exact_mod_cast hcfg.2.2
  have hq : 0 < (cfg.feeTokenPrice : ℚ) / x := div_pos hfp hx
  refine ⟨mo, x, v, e, hf, hx, ?_⟩
  split at hr
  · rename_i heq
    cases hr
    have h1 : 1 ≤ ⌈(cfg.feeTokenPrice : ℚ) / x⌉ := Int.ceil_pos.2 hq
    have hle := Int.le_ceil ((cfg.feeTokenPrice : ℚ) / x)
    refine ⟨by omega, ?_, fun _ => ⟨rfl, h1, ?_⟩, fun hne => absurd heq hne⟩
    · have := Int.ceil_lt_add_one ((cfg.feeTokenPrice : ℚ) / x)
      rw [abs_lt]; constructor <;> linarith
    · unfold AcceptsB
      rw [← heq]
      have h1' : (0 : ℚ) < ⌈(cfg.feeTokenPrice : ℚ) / x⌉ := by exact_mod_cast h1
      rw [div_le_iff₀ hx] at hle
      rw [div_le_iff₀ h1']
      linarith
  · rename_i hne
    cases hr
    have hle := Int.floor_le ((cfg.feeTokenPrice : ℚ) / x)
    refine ⟨Int.floor_nonneg.2 hq.le, ?_, fun heq => absurd heq hne, fun _ => ⟨rfl, fun h1 => ?_⟩⟩
    · have := Int.lt_floor_add_one ((cfg.feeTokenPrice : ℚ) / x)
      rw [abs_lt]; constructor <;> linarith
    · have h1' : (0 : ℚ) < ⌊(cfg.feeTokenPrice : ℚ) / x⌋ := by exact_mod_cast h1
      rw [le_div_iff₀ hx] at hle
      rw [le_div_iff₀ h1']
      linarith

/-! ### Non-vacuity of C21 and C22 -/

namespace ExFee
def fee : Fee := { token := "F", value := 1 / 1000 }
def f : List Order := [Order.mk' "B" "F" 500000 2 none "0", Order.mk' "B" "F" 300000 (19/10) none "1"]
end ExFee

example : FeeOrders ExFee.fee ExFee.f := by constructor <;> decide +kernel
example : 9 / 10 ≤ (1 - ExFee.fee.value) ^ 2 := by decide +kernel

/-- The price is computed for the example (a root, so rounded down) ... -/
example : ∃ r, tokenPriceToCoverImbalance Config.default (fun t => .ok ((t + 1) / 2)) "B" ExFee.fee 20000 ExFee.f = .ok r ∧ 1 ≤ r :=
  exists_of_pyCheck (p := fun r : ℤ => 1 ≤ r) (by decide +kernel)

/-- ... and for the same orders a fee of 10 % is outside the bound of C22. -/
example : FeeOrders { token := "F", value := 1 / 10 } [Order.mk' "B" "F" 500000 2 none "0"] ∧
    (1 - (1 / 10 : ℚ)) ^ 2 < 9 / 10 := by
  refine ⟨by constructor <;> decide +kernel, by norm_num⟩

/-! ## C50: crash paths -/

/-- C50. Price selection raises `ZeroDivisionError` for every rate larger than the price. -/
theorem C50_rate_above_price {p x : ℚ} {b s : List Order} {fee : Fee} (hp : 0 < p) (hx : p < x) :
    computeSBuyTokenPrice p x b s fee = .error .zeroDivision := by
  have hx0 : 0 < x := hp.trans hx
  rw [C20_zero_division_iff hp hx0, Int.floor_eq_iff]
  constructor
  · simpa using (div_pos hp hx0).le
  · rw [div_lt_iff₀ hx0]; simpa using hx

/-- An order whose integer utility can be evaluated at the prices: priced tokens with positive integer prices, and a positive
integer minimum buy amount behind its limit. -/
structure Evaluable (prices : Prices) (accounts : Accounts) (o : Order) (pb ps : ℚ) : Prop where
  buyPrice : dictGet? prices o.buyToken = some pb
  sellPrice : dictGet? prices o.sellToken = some ps
  pbInt : pb.den = 1
  psInt : ps.den = 1
  pbPos : 0 < pb
  psPos : 0 < ps
  maxSell : 0 < o.origMaxSell
  limit : 0 < o.maxXrate
  minBuy : (o.origMaxSell / o.maxXrate).den = 1
  account : ∀ a, o.accountId = some a → (dictGet? accounts a).isSome

theorem Evaluable.xrate {prices : Prices} {accounts : Accounts} {o : Order} {pb ps : ℚ} (h : Evaluable prices accounts o pb ps) :
    dictGet prices o.buyToken = .ok pb ∧ dictGet prices o.sellToken = .ok ps ∧ pyDiv pb ps = .ok (pb / ps) ∧
      pyDiv pb (pb / ps) = .ok ps := by
  have h1 := h.pbPos.ne'
  have h2 := h.psPos.ne'
  refine ⟨by unfold dictGet; rw [h.buyPrice], by unfold dictGet; rw [h.sellPrice], pyDiv_of_ne h2, ?_⟩
  rw [pyDiv_of_ne (div_ne_zero h1 h2)]
  congr 1; field_simp

theorem Evaluable.intSell {prices : Prices} {accounts : Accounts} {o : Order} {pb ps : ℚ} (h : Evaluable prices accounts o pb ps)
    {fee : Fee} (hf : fee.value < 1) (buy : ℚ) :
    intSellFromBuy buy (pb / ps) pb fee = .ok ⌊(⌊buy * pb / (1 - fee.value)⌋ : ℚ) / ps⌋ := by
  obtain ⟨_, _, _, h4⟩ := h.xrate
  have hφ : 1 - fee.value ≠ 0 := by linarith
  unfold intSellFromBuy
  rw [pyAssert_of h.pbInt, ok_bind, h4, ok_bind, pyAssert_of h.psInt, ok_bind, pyFloorDiv_of_ne hφ, ok_bind,
    pyFloorDiv_of_ne h.psPos.ne']

theorem Evaluable.intUtility {prices : Prices} {accounts : Accounts} {o : Order} {pb ps : ℚ} (h : Evaluable prices accounts o pb ps)
    {fee : Fee} (hf : fee.value < 1) : ∃ u, intUtility o (pb / ps) pb fee = .ok u := by
  unfold Dex.intUtility
  simp only [pyDiv_of_ne h.limit.ne', ok_bind, pyAssert_of h.minBuy, h.intSell hf, pyFloorDiv_of_ne h.maxSell.ne', pyMod,
    h.maxSell.ne', if_false]
  exact ⟨_, rfl⟩

/-- C50. Evaluating the disregarded utility of an order with a zero fee raises `ZeroDivisionError` (`fee_denom - 1 = 0`). -/
theorem C50_zero_fee_metrics {prices : Prices} {accounts : Accounts} {o : Order} {os : List Order} {pb ps : ℚ} {fee : Fee}
    (h : Evaluable prices accounts o pb ps) (hf : fee.value = 0) :
    computeSolutionMetrics prices accounts (o :: os) fee = .error .zeroDivision ∧
    computeObjectiveCore prices accounts (o :: os) fee = .error .zeroDivision := by
  have hf1 : fee.value < 1 := by rw [hf]; norm_num
  obtain ⟨h1, h2, h3, h4⟩ := h.xrate
  obtain ⟨u, hu⟩ := h.intUtility hf1
  have hbal : ∃ bal, balanceUpdated accounts o = .ok bal := by
    unfold balanceUpdated
    cases ha : o.accountId with
    | none => exact ⟨0, rfl⟩
    | some a =>
      obtain ⟨d, hd⟩ := Option.isSome_iff_exists.1 (h.account a ha)
      refine ⟨(dictGet? d o.sellToken).getD 0, ?_⟩
      show (dictGet accounts a >>= _) = _
      unfold dictGet
      rw [hd]; rfl
  obtain ⟨bal, hbal⟩ := hbal
  have hm : intMaxUtility o (pb / ps) pb fee bal = .error .zeroDivision := by
    have hz : ((fee.value.den : ℚ) - 1) = 0 := by rw [hf]; norm_num
    unfold intMaxUtility intDisregardedUtility
    simp only [pyDiv_of_ne h.limit.ne', ok_bind, h4, h.intSell hf1, pyFloorDiv, hz, if_true]
    rfl
  constructor
  · unfold computeSolutionMetrics foldE metricsStep
    simp only [h1, h2, h3, hu, hbal, hm, ok_bind, error_bind]
  · unfold computeObjectiveCore mapE objectiveTerms
    simp only [h1, h2, h3, hu, hbal, hm, ok_bind, error_bind]

example : Evaluable [("F", 10), ("S", 7)] [("a", [])] (Order.mk' "F" "S" 100000 (1/2) (some "a") "0") 10 7 := by
  constructor <;> decide +kernel

end Dex
