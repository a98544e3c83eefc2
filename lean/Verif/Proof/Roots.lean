import Verif.Props.Optimal
import Verif.Props.Interval
import Mathlib.Tactic.FieldSimp
import Mathlib.Tactic.Ring

/-! # The objective as a function of the rate, for a fixed fill pattern -/

namespace Dex

open Spec

/-- Term of a b_order that sells `p.2` at rate `x` (b-token price 1, `f` = 1 - fee). -/
def termB (f x : ℚ) (p : Order × ℚ) : ℚ :=
  2 * p.2 * (f / x - 1 / p.1.maxXrate) - max 0 (p.1.maxSell * (f / x - 1 / p.1.maxXrate))

/-- Term of an s_order that sells `p.2` at rate `x`. -/
def termS (f x : ℚ) (p : Order × ℚ) : ℚ :=
  2 * p.2 * (f - 1 / (x * p.1.maxXrate)) - max 0 (p.1.maxSell * (f - 1 / (x * p.1.maxXrate)))

theorem objectiveForOrders_pairsB {x : ℚ} {fee : Fee} (hx : 0 < x) (hf : fee.value < 1) {L : List (Order × ℚ)}
    (hL : ∀ p ∈ L, 0 < p.1.maxXrate) :
    objectiveForOrders (L.map (fun p => p.1.withBuy (p.2 * (1 - fee.value) / x))) x 1 fee =
      .ok (L.map (termB (1 - fee.value) x)).sum := by
  have hφ : (1 - fee.value) ≠ 0 := by linarith
  unfold objectiveForOrders
  induction L with
  | nil => simp [sumE]
  | cons p L ih =>
    have hp := (hL p (by simp)).ne'
    have hx' := hx.ne'
    simp only [List.map_cons, sumE, ratObjectiveTerm_eq hx hf (hL p (by simp)), ok_bind,
      ih (fun o ho => hL o (by simp [ho])), pure_eq_ok, List.sum_cons]
    congr 2
    unfold termB weight
    congr 1
    · field_simp
    · congr 1; field_simp

theorem objectiveForOrders_pairsS {x : ℚ} {fee : Fee} (hx : 0 < x) (hf : fee.value < 1) {L : List (Order × ℚ)}
    (hL : ∀ p ∈ L, 0 < p.1.maxXrate) :
    objectiveForOrders (L.map (fun p => p.1.withBuy (p.2 * x * (1 - fee.value)))) (1 / x) (1 / x) fee =
      .ok (L.map (termS (1 - fee.value) x)).sum := by
  have hφ : (1 - fee.value) ≠ 0 := by linarith
  unfold objectiveForOrders
  induction L with
  | nil => simp [sumE]
  | cons p L ih =>
    have hp := (hL p (by simp)).ne'
    have hx' := hx.ne'
    simp only [List.map_cons, sumE, ratObjectiveTerm_eq (one_div_pos.2 hx) hf (hL p (by simp)), ok_bind,
      ih (fun o ho => hL o (by simp [ho])), pure_eq_ok, List.sum_cons]
    congr 2
    unfold termS weight
    congr 1
    · field_simp
    · congr 1; field_simp

/-- Objective of sold amounts. -/
def objPairs (cfg : Config) (f x : ℚ) (LB LS : List (Order × ℚ)) : ℚ :=
  (LB.map (termB f x)).sum + (LS.map (termS f x)).sum +
    ((LS.map (·.2)).sum - (LB.map (·.2)).sum * f / x) / cfg.feeTokenPrice / 2

theorem computeObjectiveRational_pairs {cfg : Config} (hp : 0 < cfg.feeTokenPrice) {x : ℚ} (hx : 0 < x) {fee : Fee}
    (hf : fee.value < 1) {LB LS : List (Order × ℚ)} (hb : ∀ p ∈ LB, 0 < p.1.maxXrate) (hs : ∀ p ∈ LS, 0 < p.1.maxXrate) :
    computeObjectiveRational cfg (LB.map (fun p => p.1.withBuy (p.2 * (1 - fee.value) / x)))
        (LS.map (fun p => p.1.withBuy (p.2 * x * (1 - fee.value)))) [] x 1 fee =
      .ok (objPairs cfg (1 - fee.value) x LB LS) := by
  have hφ : (1 - fee.value) ≠ 0 := by linarith
  have hp' : (cfg.feeTokenPrice : ℚ) ≠ 0 := by exact_mod_cast hp.ne'
  have hx' := hx.ne'
  have hsum : sumE (fun o => ratSellFromBuy o.buy (1 / x) fee) (LS.map (fun p => p.1.withBuy (p.2 * x * (1 - fee.value)))) =
      .ok (LS.map (·.2)).sum := by
    rw [sumE_of_forall (g := fun o => o.buy * (1 / x) / (1 - fee.value))]
    · congr 1
      rw [List.map_map]
      congr 1
      apply List.map_congr_left
      intro o _
      simp only [Function.comp, withBuy_buy]
      field_simp
    · intro o _
      simp only [ratSellFromBuy, pyDiv_of_ne hφ]
  have hbuy : ((LB.map (fun p => p.1.withBuy (p.2 * (1 - fee.value) / x))).map (·.buy)).sum =
      (LB.map (·.2)).sum * (1 - fee.value) / x := by
    rw [List.map_map, mul_div_assoc, ← sum_map_mul_right']
    congr 1
    apply List.map_congr_left
    intro o _
    simp only [Function.comp, withBuy_buy]; ring
  have hnil : objectiveForOrders ([] : List Order) (1 / (cfg.feeTokenPrice : ℚ)) 1 fee = .ok 0 := rfl
  simp only [computeObjectiveRational, objectiveForOrders_pairsB hx hf hb, objectiveForOrders_pairsS hx hf hs,
    pyDiv_of_ne hx.ne', pyDiv_of_ne hp', ok_bind, pure_eq_ok, hnil, bBuyTokenImbalance, hsum, hbuy]
  congr 1; unfold objPairs; ring

/-! ### Fill patterns -/

/-- Orders sorted worst first: those before index `i` sell nothing, order `i` sells `q`, those after sell everything. -/
def Spec.fillFrom (orders : List Order) (i : ℕ) (q : ℚ) : List (Order × ℚ) :=
  (orders.take i).map (fun o => (o, 0)) ++ ((orders.drop i).take 1).map (fun o => (o, q)) ++
    (orders.drop (i + 1)).map (fun o => (o, o.maxSell))

/-- All orders sell everything. -/
def Spec.fillAll (orders : List Order) : List (Order × ℚ) := orders.map (fun o => (o, o.maxSell))

/-- Total maximum sell amount. -/
def totSell (l : List Order) : ℚ := (l.map (·.maxSell)).sum
/-- Total of maximum sell amount over limit rate. -/
def totDiv (l : List Order) : ℚ := (l.map (fun o => o.maxSell / o.maxXrate)).sum

@[simp] theorem totSell_append (a b : List Order) : totSell (a ++ b) = totSell a + totSell b := by simp [totSell]
@[simp] theorem totDiv_append (a b : List Order) : totDiv (a ++ b) = totDiv a + totDiv b := by simp [totDiv]
@[simp] theorem totSell_cons (o : Order) (b : List Order) : totSell (o :: b) = o.maxSell + totSell b := by simp [totSell]
@[simp] theorem totDiv_cons (o : Order) (b : List Order) : totDiv (o :: b) = o.maxSell / o.maxXrate + totDiv b := by
  simp [totDiv]

/-- An order can trade at `x` on the b side, with the fee. -/
def okB (f x : ℚ) (o : Order) : Prop := 0 < o.maxXrate ∧ 0 ≤ o.maxSell ∧ x ≤ o.maxXrate * f
def okS (f x : ℚ) (o : Order) : Prop := 0 < o.maxXrate ∧ 0 ≤ o.maxSell ∧ 1 / x ≤ o.maxXrate * f

theorem hB_nonneg {f x : ℚ} (hx : 0 < x) {o : Order} (h : okB f x o) : 0 ≤ f / x - 1 / o.maxXrate := by
  rw [sub_nonneg, div_le_div_iff₀ h.1 hx]; have := h.2.2; linarith

theorem hS_nonneg {f x : ℚ} (hx : 0 < x) {o : Order} (h : okS f x o) : 0 ≤ f - 1 / (x * o.maxXrate) := by
  have h1 := h.1
  have h2 := h.2.2
  rw [sub_nonneg, div_le_iff₀ (by positivity)]
  rw [div_le_iff₀ hx] at h2; linarith

theorem termB_eq {f x : ℚ} (hx : 0 < x) {p : Order × ℚ} (h : okB f x p.1) :
    termB f x p = (2 * p.2 - p.1.maxSell) * (f / x - 1 / p.1.maxXrate) := by
  unfold termB
  rw [max_eq_right (mul_nonneg h.2.1 (hB_nonneg hx h))]; ring

theorem termS_eq {f x : ℚ} (hx : 0 < x) {p : Order × ℚ} (h : okS f x p.1) :
    termS f x p = (2 * p.2 - p.1.maxSell) * (f - 1 / (x * p.1.maxXrate)) := by
  unfold termS
  rw [max_eq_right (mul_nonneg h.2.1 (hS_nonneg hx h))]; ring

theorem sumB_zero {f x : ℚ} (hx : 0 < x) (l : List Order) (h : ∀ o ∈ l, okB f x o) :
    ((l.map (fun o => (o, (0 : ℚ)))).map (termB f x)).sum = -(f / x * totSell l - totDiv l) := by
  induction l with
  | nil => simp [totSell, totDiv]
  | cons o l ih =>
    have ih' := ih (fun a ha => h a (by simp [ha]))
    have := (h o (by simp)).1.ne'
    simp only [List.map_cons, List.sum_cons, totSell_cons, totDiv_cons]
    rw [ih', termB_eq hx (h o (by simp))]; simp only; ring

theorem sumB_full {f x : ℚ} (hx : 0 < x) (l : List Order) (h : ∀ o ∈ l, okB f x o) :
    ((fillAll l).map (termB f x)).sum = f / x * totSell l - totDiv l := by
  unfold fillAll
  induction l with
  | nil => simp [totSell, totDiv]
  | cons o l ih =>
    have ih' := ih (fun a ha => h a (by simp [ha]))
    simp only [List.map_cons, List.sum_cons, totSell_cons, totDiv_cons]
    rw [ih', termB_eq hx (h o (by simp))]; simp only; ring

theorem sumS_zero {f x : ℚ} (hx : 0 < x) (l : List Order) (h : ∀ o ∈ l, okS f x o) :
    ((l.map (fun o => (o, (0 : ℚ)))).map (termS f x)).sum = -(f * totSell l - totDiv l / x) := by
  induction l with
  | nil => simp [totSell, totDiv]
  | cons o l ih =>
    have ih' := ih (fun a ha => h a (by simp [ha]))
    have := (h o (by simp)).1.ne'
    have := hx.ne'
    simp only [List.map_cons, List.sum_cons, totSell_cons, totDiv_cons]
    rw [ih', termS_eq hx (h o (by simp))]; simp only; field_simp; ring

theorem sumS_full {f x : ℚ} (hx : 0 < x) (l : List Order) (h : ∀ o ∈ l, okS f x o) :
    ((fillAll l).map (termS f x)).sum = f * totSell l - totDiv l / x := by
  unfold fillAll
  induction l with
  | nil => simp [totSell, totDiv]
  | cons o l ih =>
    have ih' := ih (fun a ha => h a (by simp [ha]))
    have := (h o (by simp)).1.ne'
    have := hx.ne'
    simp only [List.map_cons, List.sum_cons, totSell_cons, totDiv_cons]
    rw [ih', termS_eq hx (h o (by simp))]; simp only; field_simp; ring

theorem fillFrom_split (U F : List Order) (p : Order) (q : ℚ) :
    fillFrom (U ++ p :: F) U.length q = U.map (fun o => (o, 0)) ++ (p, q) :: fillAll F := by
  unfold fillFrom fillAll
  have h1 : (U ++ p :: F).take U.length = U := by simp
  have h2 : (U ++ p :: F).drop U.length = p :: F := by simp
  have h3 : (U ++ p :: F).drop (U.length + 1) = F := by
    rw [← List.drop_drop, h2]; rfl
  rw [h1, h2, h3]; simp

theorem fillAll_snd (l : List Order) : ((fillAll l).map (·.2)).sum = totSell l := by
  unfold fillAll totSell; rw [List.map_map]; rfl

theorem fillFrom_snd (U F : List Order) (p : Order) (q : ℚ) :
    ((fillFrom (U ++ p :: F) U.length q).map (·.2)).sum = q + totSell F := by
  rw [fillFrom_split, List.map_append, List.sum_append, List.map_cons, List.sum_cons, fillAll_snd, List.map_map]
  have : (U.map ((fun p : Order × ℚ => p.2) ∘ fun o => (o, (0 : ℚ)))).sum = 0 := by
    apply List.sum_eq_zero; intro y hy; obtain ⟨o, _, rfl⟩ := List.mem_map.1 hy; rfl
  rw [this, zero_add]

/-- All s_orders filled against b_orders filled from the back: the objective as a function of the rate. -/
theorem pattern4_eq {cfg : Config} {f x : ℚ} (hp : 0 < cfg.feeTokenPrice) (hx : 0 < x) {U F S : List Order} {p : Order}
    (hB : ∀ o ∈ U ++ p :: F, okB f x o) (hS : ∀ o ∈ S, okS f x o) :
    objPairs cfg f x (fillFrom (U ++ p :: F) U.length (totSell S * x * f - totSell F)) (fillAll S) =
      (totDiv U + p.maxSell / p.maxXrate - totDiv F + 2 * totSell F / p.maxXrate + 2 * f ^ 2 * totSell S + f * totSell S +
        totSell S * (1 - f ^ 2) / cfg.feeTokenPrice / 2)
      - (f * totSell (U ++ p :: F) + totDiv S) / x - 2 * f * totSell S / p.maxXrate * x := by
  have hp' : (cfg.feeTokenPrice : ℚ) ≠ 0 := by exact_mod_cast hp.ne'
  have hx' := hx.ne'
  have hpi := (hB p (by simp)).1.ne'
  unfold objPairs
  rw [fillFrom_snd, fillAll_snd, fillFrom_split, List.map_append, List.sum_append, List.map_cons, List.sum_cons,
    sumB_zero hx U (fun o ho => hB o (by simp [ho])), sumB_full hx F (fun o ho => hB o (by simp [ho])), sumS_full hx S hS,
    termB_eq hx (hB p (by simp))]
  simp only [totSell_append, totSell_cons]
  field_simp
  ring

/-- All b_orders filled against s_orders filled from the back. -/
theorem pattern3_eq {cfg : Config} {f x : ℚ} (hf : 0 < f) (hp : 0 < cfg.feeTokenPrice) (hx : 0 < x) {U F B : List Order} {p : Order}
    (hS : ∀ o ∈ U ++ p :: F, okS f x o) (hB : ∀ o ∈ B, okB f x o) :
    objPairs cfg f x (fillAll B) (fillFrom (U ++ p :: F) U.length (totSell B / (x * f) - totSell F)) =
      (- totDiv B + f * (totSell F - totSell U - p.maxSell) - 2 * f * totSell F)
      + (f * totSell B - totDiv F + totDiv U + p.maxSell / p.maxXrate + 2 * totSell B + 2 * totSell F / p.maxXrate
          + totSell B * (1 / f - f) / cfg.feeTokenPrice / 2) * (1 / x)
      - 2 * totSell B / (f * p.maxXrate) * (1 / x) ^ 2 := by
  have hp' : (cfg.feeTokenPrice : ℚ) ≠ 0 := by exact_mod_cast hp.ne'
  have hx' := hx.ne'
  have hf' := hf.ne'
  have hpi := (hS p (by simp)).1.ne'
  unfold objPairs
  rw [fillFrom_snd, fillAll_snd, fillFrom_split, List.map_append, List.sum_append, List.map_cons, List.sum_cons,
    sumS_zero hx U (fun o ho => hS o (by simp [ho])), sumS_full hx F (fun o ho => hS o (by simp [ho])), sumB_full hx B hB,
    termS_eq hx (hS p (by simp))]
  field_simp
  ring

/-! ### Moving to a candidate rate -/

theorem shape4_diff {c K M x y : ℚ} (hx : 0 < x) (hy : 0 < y) :
    (c - K / y - M * y) - (c - K / x - M * x) = (y - x) * (K - M * (x * y)) / (x * y) := by
  have := hx.ne'; have := hy.ne'
  field_simp; ring

theorem shape4_le {c K M x y : ℚ} (hx : 0 < x) (hy : 0 < y) (h : 0 ≤ (y - x) * (K - M * (x * y))) :
    c - K / x - M * x ≤ c - K / y - M * y := by
  have := shape4_diff (c := c) (K := K) (M := M) hx hy
  have h2 : 0 ≤ (y - x) * (K - M * (x * y)) / (x * y) := by positivity
  linarith

/-- Loss from a square root `r` of `K / M` that is not exact. -/
theorem shape4_slack {c K M x r ε : ℚ} (hx : 0 < x) (hr : 0 < r) (hK : 0 < K) (hM : 0 < M)
    (hε : (K - M * r ^ 2) ^ 2 ≤ ε * (r * (K + M * r ^ 2))) : c - K / x - M * x ≤ c - K / r - M * r + ε := by
  have hd := shape4_diff (c := c) (K := K) (M := M) hx hr
  have hpos : 0 < r * (K + M * r ^ 2) := by positivity
  have e1 : (K - M * r ^ 2) ^ 2 / (r * (K + M * r ^ 2)) ≤ ε := by rw [div_le_iff₀ hpos]; exact hε
  have e2 : (x - r) * (K - M * (x * r)) / (x * r) ≤ (K - M * r ^ 2) ^ 2 / (r * (K + M * r ^ 2)) := by
    rw [div_le_div_iff₀ (by positivity) hpos]
    have : 0 ≤ r * ((K - M * (x * r)) ^ 2 + K * M * (x - r) ^ 2) := by positivity
    nlinarith [this]
  have e3 : (r - x) * (K - M * (x * r)) / (x * r) = -((x - r) * (K - M * (x * r)) / (x * r)) := by ring
  rw [e3] at hd
  linarith

theorem move4 {c K M x lb ub lo hi r ε : ℚ} (hK : 0 < K) (hM : 0 < M) (hl : 0 < lb) (h1 : lb < x) (h2 : x < ub)
    (h3 : lo ≤ x) (h4 : x ≤ hi) (hr : 0 < r) (hε0 : 0 ≤ ε) (hε : (K - M * r ^ 2) ^ 2 ≤ ε * (r * (K + M * r ^ 2))) :
    ∃ y, lb ≤ y ∧ y ≤ ub ∧ lo ≤ y ∧ y ≤ hi ∧ c - K / x - M * x ≤ c - K / y - M * y + ε ∧
      (y = lb ∨ y = ub ∨ (lb < y ∧ y < ub ∧ (y = r ∨ y = lo ∨ y = hi))) := by
  have hx : 0 < x := hl.trans h1
  have slack := shape4_slack (c := c) hx hr hK hM hε
  rcases le_total x r with hxr | hxr
  · by_cases hin : r ≤ hi ∧ r < ub
    · exact ⟨r, h1.le.trans hxr, hin.2.le, h3.trans hxr, hin.1, slack, .inr (.inr ⟨h1.trans_le hxr, hin.2, .inl rfl⟩)⟩
    · -- the end towards `r`
      have key : ∀ y, x ≤ y → y ≤ r → c - K / x - M * x ≤ c - K / y - M * y + ε := by
        intro y hxy hyr
        have hy : 0 < y := hx.trans_le hxy
        by_cases hc : M * (x * y) ≤ K
        · have := shape4_le (c := c) hx hy (mul_nonneg (sub_nonneg.2 hxy) (sub_nonneg.2 hc)); linarith
        · have hc' := not_le.1 hc
          have : c - K / r - M * r ≤ c - K / y - M * y := by
            apply shape4_le hr hy
            apply mul_nonneg_of_nonpos_of_nonpos (by linarith)
            have : x * y ≤ r * y := mul_le_mul_of_nonneg_right hxr hy.le
            have := mul_le_mul_of_nonneg_left this hM.le
            linarith
          linarith
      rcases le_or_gt ub hi with hu | hu
      · have hur : ub ≤ r := by
          by_contra hc; exact hin ⟨(not_le.1 hc).le.trans hu, not_le.1 hc⟩
        exact ⟨ub, (h1.trans h2).le, le_rfl, h3.trans h2.le, hu, key ub h2.le hur, .inr (.inl rfl)⟩
      · have hhr : hi ≤ r := by
          by_contra hc; exact hin ⟨(not_le.1 hc).le, (not_le.1 hc).trans hu⟩
        exact ⟨hi, h1.le.trans h4, hu.le, h3.trans h4, le_rfl, key hi h4 hhr,
          .inr (.inr ⟨h1.trans_le h4, hu, .inr (.inr rfl)⟩)⟩
  · by_cases hin : lo ≤ r ∧ lb < r
    · exact ⟨r, hin.2.le, hxr.trans h2.le, hin.1, hxr.trans h4, slack, .inr (.inr ⟨hin.2, hxr.trans_lt h2, .inl rfl⟩)⟩
    · have key : ∀ y, 0 < y → y ≤ x → r ≤ y → c - K / x - M * x ≤ c - K / y - M * y + ε := by
        intro y hy hyx hry
        by_cases hc : K ≤ M * (x * y)
        · have := shape4_le (c := c) (K := K) (M := M) hx hy
            (mul_nonneg_of_nonpos_of_nonpos (sub_nonpos.2 hyx) (sub_nonpos.2 hc)); linarith
        · have hc' := not_le.1 hc
          have : c - K / r - M * r ≤ c - K / y - M * y := by
            apply shape4_le hr hy
            apply mul_nonneg (by linarith)
            have : r * y ≤ x * y := mul_le_mul_of_nonneg_right hxr hy.le
            have := mul_le_mul_of_nonneg_left this hM.le
            linarith
          linarith
      rcases le_or_gt lo lb with hu | hu
      · have hur : r ≤ lb := by
          by_contra hc; exact hin ⟨hu.trans (not_le.1 hc).le, not_le.1 hc⟩
        exact ⟨lb, le_rfl, (h1.trans h2).le, hu, h1.le.trans h4, key lb hl h1.le hur, .inl rfl⟩
      · have hhr : r ≤ lo := by
          by_contra hc; exact hin ⟨(not_le.1 hc).le, hu.trans (not_le.1 hc)⟩
        exact ⟨lo, hu.le, h3.trans h2.le, le_rfl, h3.trans h4, key lo (hl.trans hu) h3 hhr,
          .inr (.inr ⟨hu, h3.trans_lt h2, .inr (.inl rfl)⟩)⟩

theorem shape3_le {c A Q u v : ℚ} (h : 0 ≤ (v - u) * (A - Q * (u + v))) : c + A * u - Q * u ^ 2 ≤ c + A * v - Q * v ^ 2 := by
  nlinarith

/-- The same for the other pattern, in terms of `1 / x`; `r` is the exact maximiser `2 Q / A` (any sign). -/
theorem move3 {c A Q x lb ub lo hi r : ℚ} (hQ : 0 < Q) (hl : 0 < lb) (h1 : lb < x) (h2 : x < ub)
    (h3 : lo ≤ x) (h4 : x ≤ hi) (hr : r * A = 2 * Q) :
    ∃ y, lb ≤ y ∧ y ≤ ub ∧ lo ≤ y ∧ y ≤ hi ∧
      c + A * (1 / x) - Q * (1 / x) ^ 2 ≤ c + A * (1 / y) - Q * (1 / y) ^ 2 ∧
      (y = lb ∨ y = ub ∨ (lb < y ∧ y < ub ∧ (y = r ∨ y = lo ∨ y = hi))) := by
  have hx : 0 < x := hl.trans h1
  have up : ∀ y, x ≤ y → A * y ≤ 2 * Q → c + A * (1 / x) - Q * (1 / x) ^ 2 ≤ c + A * (1 / y) - Q * (1 / y) ^ 2 := by
    intro y hxy hA
    have hy : 0 < y := hx.trans_le hxy
    apply shape3_le
    have e : (1 / y - 1 / x) * (A - Q * (1 / x + 1 / y)) = (y - x) * (Q * (x + y) - A * (x * y)) / (x * y) ^ 2 := by
      have := hx.ne'; have := hy.ne'
      field_simp; ring
    rw [e]
    apply div_nonneg _ (by positivity)
    apply mul_nonneg (by linarith)
    have a1 : A * x ≤ 2 * Q := by
      rcases le_total 0 A with h | h
      · exact (mul_le_mul_of_nonneg_left hxy h).trans hA
      · have := mul_nonpos_of_nonpos_of_nonneg h hx.le; linarith
    nlinarith [mul_le_mul_of_nonneg_right hA hx.le, mul_le_mul_of_nonneg_right a1 hy.le]
  have down : ∀ y, 0 < y → y ≤ x → 2 * Q ≤ A * y → c + A * (1 / x) - Q * (1 / x) ^ 2 ≤ c + A * (1 / y) - Q * (1 / y) ^ 2 := by
    intro y hy hyx hA
    apply shape3_le
    have e : (1 / y - 1 / x) * (A - Q * (1 / x + 1 / y)) = (x - y) * (A * (x * y) - Q * (x + y)) / (x * y) ^ 2 := by
      have := hx.ne'; have := hy.ne'
      field_simp; ring
    rw [e]
    apply div_nonneg _ (by positivity)
    apply mul_nonneg (by linarith)
    have hA0 : 0 ≤ A := by
      by_contra hc
      have := mul_nonpos_of_nonpos_of_nonneg (not_le.1 hc).le hy.le; linarith
    have a1 : 2 * Q ≤ A * x := hA.trans (mul_le_mul_of_nonneg_left hyx hA0)
    nlinarith [mul_le_mul_of_nonneg_right hA hx.le, mul_le_mul_of_nonneg_right a1 hy.le]
  by_cases hAx : A * x ≤ 2 * Q
  · -- move up
    by_cases hin : x ≤ r ∧ r ≤ hi ∧ r < ub
    · exact ⟨r, h1.le.trans hin.1, hin.2.2.le, h3.trans hin.1, hin.2.1, up r hin.1 (by linarith),
        .inr (.inr ⟨h1.trans_le hin.1, hin.2.2, .inl rfl⟩)⟩
    · have key : ∀ y, x ≤ y → (x ≤ r → y ≤ r) → A * y ≤ 2 * Q := by
        intro y hxy hyr
        rcases le_or_gt A 0 with h | h
        · have := mul_nonpos_of_nonpos_of_nonneg h (hx.le.trans hxy); linarith
        · have hxr : x ≤ r := by
            rw [← hr] at hAx
            exact le_of_mul_le_mul_right (by linarith) h
          have := mul_le_mul_of_nonneg_left (hyr hxr) h.le
          linarith
      rcases le_or_gt ub hi with hu | hu
      · refine ⟨ub, (h1.trans h2).le, le_rfl, h3.trans h2.le, hu, up ub h2.le (key ub h2.le fun hxr => ?_), .inr (.inl rfl)⟩
        by_contra hc; exact hin ⟨hxr, (not_le.1 hc).le.trans hu, not_le.1 hc⟩
      · refine ⟨hi, h1.le.trans h4, hu.le, h3.trans h4, le_rfl, up hi h4 (key hi h4 fun hxr => ?_),
          .inr (.inr ⟨h1.trans_le h4, hu, .inr (.inr rfl)⟩)⟩
        by_contra hc; exact hin ⟨hxr, (not_le.1 hc).le, (not_le.1 hc).trans hu⟩
  · have hAx' := not_le.1 hAx
    have hA : 0 < A := by
      by_contra hc
      have := mul_nonpos_of_nonpos_of_nonneg (not_lt.1 hc) hx.le; linarith
    have hrx : r ≤ x := by
      rw [← hr] at hAx'
      exact le_of_mul_le_mul_right (by linarith) hA
    have key : ∀ y, r ≤ y → 2 * Q ≤ A * y := by
      intro y hy
      have := mul_le_mul_of_nonneg_left hy hA.le
      linarith
    by_cases hin : lo ≤ r ∧ lb < r
    · exact ⟨r, hin.2.le, hrx.trans h2.le, hin.1, hrx.trans h4, down r (hl.trans hin.2) hrx (key r le_rfl),
        .inr (.inr ⟨hin.2, hrx.trans_lt h2, .inl rfl⟩)⟩
    · rcases le_or_gt lo lb with hu | hu
      · refine ⟨lb, le_rfl, (h1.trans h2).le, hu, h1.le.trans h4, down lb hl h1.le (key lb ?_), .inl rfl⟩
        by_contra hc; exact hin ⟨hu.trans (not_le.1 hc).le, not_le.1 hc⟩
      · refine ⟨lo, hu.le, h3.trans h2.le, le_rfl, h3.trans h4, down lo (hl.trans hu) h3 (key lo ?_),
          .inr (.inr ⟨hu, h3.trans_lt h2, .inr (.inl rfl)⟩)⟩
        by_contra hc; exact hin ⟨(not_le.1 hc).le, hu.trans (not_le.1 hc)⟩

/-! ### The roots of an interval -/

theorem pyGet_split (U F : List Order) (p : Order) : pyGet (U ++ p :: F) (U.length : ℤ) = .ok p :=
  pyGet_nat (by simp)

theorem sumE_div {l : List Order} (h : ∀ o ∈ l, 0 < o.maxXrate) :
    sumE (fun o => pyDiv o.maxSell o.maxXrate) l = .ok (totDiv l) := by
  rw [sumE_of_forall (g := fun o => o.maxSell / o.maxXrate)]
  · rfl
  · intro o ho; exact pyDiv_of_ne (h o ho).ne'

theorem drop_split (U F : List Order) (p : Order) : (U ++ p :: F).drop (U.length + 1) = F := by
  have h2 : (U ++ p :: F).drop U.length = p :: F := by simp
  rw [← List.drop_drop, h2]; rfl

theorem constants_eq {fee : Fee} {lb ub : ℚ} {U1 F1 U2 F2 : List Order} {p1 p2 : Order}
    (h2 : ∀ o ∈ U2 ++ p2 :: F2, 0 < o.maxXrate) :
    computeConstants { lb, ub, b := U1 ++ p1 :: F1, s := U2 ++ p2 :: F2, bPartial := U1.length, sPartial := U2.length } fee =
      .ok { bPi := p1.maxXrate, sPi := p2.maxXrate, bYb := p1.maxSell, sYb := p2.maxSell, bYbF := totSell F1, sYbF := totSell F2,
            c := (1 - fee.value) * (totSell F1 - totSell U1) - totDiv F2 + totDiv U2, f := 1 - fee.value } := by
  unfold computeConstants cConstant
  simp only [pyGet_split, ok_bind, sumYbF, drop_split, List.take_left', sumE_div (fun o ho => h2 o (by simp [ho]) : ∀ o ∈ F2, _),
    sumE_div (fun o ho => h2 o (by simp [ho]) : ∀ o ∈ U2, _), pure_eq_ok]
  rfl

/-- Root 4 and root 5 when all s_orders are filled. -/
theorem roots4 {fee : Fee} (hf : fee.value < 1) {lb ub : ℚ} {U F S : List Order} {p : Order} (hS : ∀ o ∈ S, 0 < o.maxXrate)
    (hp : 0 < p.maxXrate) (hne : S ≠ []) (hY : 0 < totSell S) (hK : 0 < (1 - fee.value) * totSell (U ++ p :: F) + totDiv S)
    {c : Constants}
    (hc : computeConstants { lb, ub, b := U ++ p :: F, s := S, bPartial := U.length, sPartial := 0 } fee = .ok c)
    (sqrt : ℚ → Py ℚ) :
    root4 sqrt c = (sqrt (((1 - fee.value) * totSell (U ++ p :: F) + totDiv S) /
        (2 * (1 - fee.value) * totSell S / p.maxXrate)) >>= fun r => pure (some r)) ∧
      root5 c = .ok ((p.maxSell + totSell F) / ((1 - fee.value) * totSell S)) := by
  have hφ : 0 < 1 - fee.value := by linarith
  obtain ⟨p2, F2, rfl⟩ : ∃ p2 F2, S = p2 :: F2 := by
    cases S with
    | nil => exact absurd rfl hne
    | cons a l => exact ⟨a, l, rfl⟩
  have hc' := constants_eq (fee := fee) (lb := lb) (ub := ub) (U1 := U) (F1 := F) (p1 := p) (U2 := []) (p2 := p2) (F2 := F2)
    (by simpa using hS)
  simp only [List.nil_append, List.length_nil] at hc'
  rw [hc'] at hc; cases hc
  have h2 := hS p2 (by simp)
  simp only [totSell_cons] at hY
  unfold root4 root5
  have hd : 2 * (1 - fee.value) * p2.maxXrate * (p2.maxSell + totSell F2) ≠ 0 := by positivity
  have hd5 : (1 - fee.value) * (p2.maxSell + totSell F2) ≠ 0 := by positivity
  simp only [pyDiv_of_ne hd, pyDiv_of_ne hd5, ok_bind, totSell_cons, and_true]
  have e : p.maxXrate * (p2.maxXrate * (-((1 - fee.value) * (totSell F - totSell U) - totDiv F2 + totDiv []) + (1 - fee.value) * p.maxSell
        + 2 * (1 - fee.value) * totSell F) + p2.maxSell) / (2 * (1 - fee.value) * p2.maxXrate * (p2.maxSell + totSell F2)) =
      ((1 - fee.value) * totSell (U ++ p :: F) + totDiv (p2 :: F2)) /
        (2 * (1 - fee.value) * (p2.maxSell + totSell F2) / p.maxXrate) := by
    have e0 : totDiv ([] : List Order) = 0 := rfl
    rw [e0]
    simp only [totSell_append, totSell_cons, totDiv_cons]
    have := hφ.ne'
    field_simp
    ring
  rw [e, if_pos]
  have : 0 < (2 * (1 - fee.value) * (p2.maxSell + totSell F2) / p.maxXrate) := by positivity
  exact (div_pos hK this).le

/-- Root 3 and root 5 when all b_orders are filled. -/
theorem roots3 {cfg : Config} (hcp : 0 < cfg.feeTokenPrice) {fee : Fee} (hf : fee.value < 1) {lb ub : ℚ} {U F B : List Order}
    {p : Order} (hS : ∀ o ∈ U ++ p :: F, 0 < o.maxXrate) (hne : B ≠ []) {c : Constants}
    (hY : 0 < p.maxSell + totSell F)
    (hc : computeConstants { lb, ub, b := B, s := U ++ p :: F, bPartial := 0, sPartial := U.length } fee = .ok c) :
    (∀ r, root3 cfg c = .ok r → r * ((1 - fee.value) * totSell B - totDiv F + totDiv U + p.maxSell / p.maxXrate + 2 * totSell B
        + 2 * totSell F / p.maxXrate + totSell B * (1 / (1 - fee.value) - (1 - fee.value)) / cfg.feeTokenPrice / 2) =
      2 * (2 * totSell B / ((1 - fee.value) * p.maxXrate))) ∧
      root5 c = .ok (totSell B / ((1 - fee.value) * (p.maxSell + totSell F))) := by
  have hφ : 0 < 1 - fee.value := by linarith
  have hp' : (cfg.feeTokenPrice : ℚ) ≠ 0 := by exact_mod_cast hcp.ne'
  obtain ⟨p1, F1, rfl⟩ : ∃ p1 F1, B = p1 :: F1 := by
    cases B with
    | nil => exact absurd rfl hne
    | cons a l => exact ⟨a, l, rfl⟩
  have hc' := constants_eq (fee := fee) (lb := lb) (ub := ub) (U1 := []) (F1 := F1) (p1 := p1) (U2 := U) (p2 := p) (F2 := F) hS
  simp only [List.nil_append, List.length_nil] at hc'
  rw [hc'] at hc; cases hc
  have h2 := (hS p (by simp))
  unfold root3 root5
  have hd5 : (1 - fee.value) * (p.maxSell + totSell F) ≠ 0 := by positivity
  have h2fp : (2 * (cfg.feeTokenPrice : ℚ)) ≠ 0 := mul_ne_zero two_ne_zero hp'
  simp only [pyDiv_of_ne hd5, pyDiv_of_ne h2fp, ok_bind, totSell_cons, and_true]
  intro r hr
  obtain ⟨hne0, rfl⟩ : _ ∧ _ := pyDiv_eq_ok.1 hr
  have e0 : totSell ([] : List Order) = 0 := rfl
  rw [e0] at hne0 ⊢
  rw [div_mul_eq_mul_div, div_eq_iff hne0]
  have := hφ.ne'
  have := h2.ne'
  field_simp
  ring

end Dex
