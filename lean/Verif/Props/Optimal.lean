import Verif.Proof.ClosedForm
import Verif.Props.Amount
import Verif.Model.TpOrderbook

/-! # C11 (closed form) and C12: greedy execution is optimal for a given rate -/

namespace Dex

open Spec

/-- C11 (closed form). The result is the greedy fill at one level `t`: `t` units of the s-token change hands. -/
theorem C11_closed_form {cfg : Config} {x : ℚ} {fee : Fee} {maxNr : ℤ} {b s b' s' : List Order}
    (h : ExecInput cfg x fee maxNr b s) (hr : computeBuyAmounts cfg x b s fee maxNr = .ok (b', s')) :
    ∃ t : ℚ, 0 ≤ t ∧ (s'.map (·.buy)).sum = t ∧
      b' = b.map (fun o => o.withBuy (fillAmount (EligibleB cfg x fee) (maxBuyB x fee) b (t * ((1 - fee.value) / x)) o)) ∧
      s' = s.map (fun o => o.withBuy (fillAmount (EligibleS cfg x fee) (maxBuyS x fee) s t o)) := by
  obtain ⟨b1, s1, B, S, i, j, t, h1, hs⟩ :=
    computeBuyAmounts_spec cfg h.minPos h.ratePos h.feeLt h.limit h.idsB h.idsS
  rw [hr] at h1; cases h1
  refine ⟨t, hs.lastS.2.2.1, side_sum hs.posS hs.resS hs.lastS, ?_, ?_⟩
  · rw [hs.eqB]
    exact writeBack_fill_eq (capB_withBuy x fee) (fun _ _ => Iff.rfl) hs.permB hs.sortB h.idsB
  · rw [hs.eqS]
    exact writeBack_fill_eq (capS_withBuy x fee) (fun _ _ => Iff.rfl) hs.permS hs.sortS h.idsS

/-! ### Objective value of an assignment -/

/-- Utility weight of an order trading at `rate` with buy-token price `price`. -/
def weight (rate price : ℚ) (fee : Fee) (o : Order) : ℚ := price * (1 - rate / (1 - fee.value) / o.maxXrate)

theorem ratObjectiveTerm_eq {rate price : ℚ} {fee : Fee} (hr : 0 < rate) (hf : fee.value < 1) {o : Order}
    (hx : 0 < o.maxXrate) (v : ℚ) :
    ratObjectiveTerm (o.withBuy v) rate price fee =
      .ok (2 * (weight rate price fee o * v) -
        max 0 (weight rate price fee o * (o.maxSell / rate * (1 - fee.value)))) := by
  have hφ : (1 - fee.value) ≠ 0 := by linarith
  simp only [ratObjectiveTerm, ratUtility, ratMaxUtility, ratSellFromBuy, Order.withBuy, pyDiv_of_ne hφ,
    pyDiv_of_ne hr.ne', pyDiv_of_ne hx.ne', ok_bind, pure_eq_ok, weight]
  have hr' := hr.ne'
  have hx' := hx.ne'
  congr 2
  · field_simp
  · congr 1; field_simp

theorem objectiveForOrders_eq {rate price : ℚ} {fee : Fee} (hr : 0 < rate) (hf : fee.value < 1) {os : List Order}
    (hx : ∀ o ∈ os, 0 < o.maxXrate) (v : Order → ℚ) :
    objectiveForOrders (os.map (fun o => o.withBuy (v o))) rate price fee =
      .ok (2 * (os.map (fun o => weight rate price fee o * v o)).sum -
        (os.map (fun o => max 0 (weight rate price fee o * (o.maxSell / rate * (1 - fee.value))))).sum) := by
  unfold objectiveForOrders
  induction os with
  | nil => simp [sumE]
  | cons o os ih =>
    simp only [List.map_cons, sumE, ratObjectiveTerm_eq hr hf (hx o (by simp)), ok_bind,
      ih (fun o ho => hx o (by simp [ho])), pure_eq_ok, List.sum_cons]
    congr 1; ring

/-- Objective value of buy amounts `v`, `w`, written out. -/
theorem computeObjectiveRational_explicit {cfg : Config} (hp : 0 < cfg.feeTokenPrice) {x p : ℚ} (hx : 0 < x) {fee : Fee}
    (hf : fee.value < 1) {b s : List Order} (hb : ∀ o ∈ b, 0 < o.maxXrate) (hs : ∀ o ∈ s, 0 < o.maxXrate)
    (v w : Order → ℚ) : computeObjectiveRational cfg (b.map (fun o => o.withBuy (v o)))
        (s.map (fun o => o.withBuy (w o))) [] x p fee =
      .ok (-(b.map (fun o => max 0 (weight x p fee o * (o.maxSell / x * (1 - fee.value))))).sum
        - (s.map (fun o => max 0 (weight (1 / x) (p / x) fee o * (o.maxSell / (1 / x) * (1 - fee.value))))).sum
        + 2 * (b.map (fun o => weight x p fee o * v o)).sum +
        2 * (s.map (fun o => weight (1 / x) (p / x) fee o * w o)).sum +
        ((s.map w).sum / x / (1 - fee.value) - (b.map v).sum) * p / cfg.feeTokenPrice / 2) := by
  have hφ : (1 - fee.value) ≠ 0 := by linarith
  have hp' : (cfg.feeTokenPrice : ℚ) ≠ 0 := by exact_mod_cast hp.ne'
  have hsum : sumE (fun o => ratSellFromBuy o.buy (1 / x) fee) (s.map (fun o => o.withBuy (w o))) =
      .ok ((s.map w).sum / x / (1 - fee.value)) := by
    rw [sumE_of_forall (g := fun o => o.buy * (1 / x) / (1 - fee.value))]
    · congr 1
      rw [List.map_map]
      rw [div_div, div_eq_mul_one_div (List.map w s).sum, ← sum_map_mul_right']
      congr 1
      apply List.map_congr_left
      intro o _
      simp only [Function.comp, withBuy_buy]
      field_simp
    · intro o _
      simp only [ratSellFromBuy, pyDiv_of_ne hφ]
  have hbuy : ((b.map (fun o => o.withBuy (v o))).map (·.buy)).sum = (b.map v).sum := by
    rw [List.map_map]; rfl
  have hnil : objectiveForOrders ([] : List Order) (p / (cfg.feeTokenPrice : ℚ)) p fee = .ok 0 := rfl
  simp only [computeObjectiveRational, objectiveForOrders_eq hx hf hb, objectiveForOrders_eq (one_div_pos.2 hx) hf hs,
    pyDiv_of_ne hx.ne', pyDiv_of_ne hp', ok_bind, pure_eq_ok, hnil, bBuyTokenImbalance, hsum, hbuy]
  congr 1; ring

/-- Objective of an assignment, up to a constant that depends on the static order data only. -/
theorem computeObjectiveRational_eq {cfg : Config} (hp : 0 < cfg.feeTokenPrice) {x p : ℚ} (hx : 0 < x) {fee : Fee}
    (hf : fee.value < 1) {b s : List Order} (hb : ∀ o ∈ b, 0 < o.maxXrate) (hs : ∀ o ∈ s, 0 < o.maxXrate) :
    ∃ K : ℚ, ∀ v w : Order → ℚ, computeObjectiveRational cfg (b.map (fun o => o.withBuy (v o)))
        (s.map (fun o => o.withBuy (w o))) [] x p fee =
      .ok (K + 2 * (b.map (fun o => weight x p fee o * v o)).sum +
        2 * (s.map (fun o => weight (1 / x) (p / x) fee o * w o)).sum +
        ((s.map w).sum / x / (1 - fee.value) - (b.map v).sum) * p / cfg.feeTokenPrice / 2) :=
  ⟨_, fun v w => computeObjectiveRational_explicit hp hx hf hb hs v w⟩

/-! ### Fractional knapsack -/

theorem fillOrders_nonpos {cap : Order → ℚ} {L : List Order} (hpos : ∀ o ∈ L, 0 < cap o) {t : ℚ} (ht : t ≤ 0)
    (g : Order → ℚ) : ((fillOrders cap t L).map (fun o => g o * o.buy)).sum = 0 := by
  apply List.sum_eq_zero
  intro y hy
  obtain ⟨o, ho, rfl⟩ := List.mem_map.1 hy
  obtain ⟨k, a, _, rfl⟩ := mem_fillOrders ho
  have := preCap_nonneg (cap := cap) hpos k
  rw [withBuy_buy, max_eq_left (le_trans (min_le_right _ _) (by linarith)), mul_zero]

/-- A greedy fill is at least as good as any assignment of no larger total (the last summand is zero then). -/
theorem knapsack {cap g : Order → ℚ} (hgb : ∀ (o : Order) (v : ℚ), g (o.withBuy v) = g o) (v : Order → ℚ) :
    ∀ (L : List Order) (t m : ℚ), (∀ o ∈ L, 0 < cap o) → (∀ o ∈ L, 0 ≤ g o) →
      L.Pairwise (fun a b => g b ≤ g a) → (∀ o ∈ L, 0 ≤ v o) → (∀ o ∈ L, v o ≤ cap o) → 0 ≤ t → 0 ≤ m →
      (∀ o ∈ L, g o ≤ m) →
      (L.map (fun o => g o * v o)).sum ≤
        ((fillOrders cap t L).map (fun o => g o * o.buy)).sum + m * max 0 ((L.map v).sum - t) := by
  intro L
  induction L with
  | nil => intro t m _ _ _ _ _ _ hm _; simp only [fillOrders, List.map_nil, List.sum_nil, zero_add]; positivity
  | cons o L ih =>
    intro t m hpos hg hsort hv hvc ht hm hgm
    have hpos' : ∀ o ∈ L, 0 < cap o := fun a ha => hpos a (by simp [ha])
    have hs := List.pairwise_cons.1 hsort
    have hgo := hg o (by simp)
    have hvo := hv o (by simp)
    have hvco := hvc o (by simp)
    have hco := hpos o (by simp)
    simp only [fillOrders, List.map_cons, List.sum_cons, withBuy_buy, hgb]
    set V := (L.map v).sum with hV
    have hV0 : 0 ≤ V := List.sum_nonneg (fun y hy => by
      obtain ⟨a, ha, rfl⟩ := List.mem_map.1 hy; exact hv a (by simp [ha]))
    have hmono : g o * max 0 (v o + V - t) ≤ m * max 0 (v o + V - t) :=
      mul_le_mul_of_nonneg_right (hgm o (by simp)) (le_max_left _ _)
    rcases le_total t (cap o) with hle | hle
    · rw [min_eq_right hle, max_eq_right ht, fillOrders_nonpos hpos' (by linarith) g]
      have h1 : (L.map (fun o => g o * v o)).sum ≤ g o * V := by
        rw [hV, mul_comm, ← sum_map_mul_right']
        apply List.sum_le_sum
        intro a ha
        rw [mul_comm]
        exact mul_le_mul_of_nonneg_left (hs.1 a ha) (hv a (by simp [ha]))
      have h2 : g o * (v o + V - t) ≤ g o * max 0 (v o + V - t) :=
        mul_le_mul_of_nonneg_left (le_max_right _ _) hgo
      linarith
    · rw [min_eq_left hle, max_eq_right hco.le]
      have h1 := ih (t - cap o) (g o) hpos' (fun a ha => hg a (by simp [ha])) hs.2 (fun a ha => hv a (by simp [ha]))
        (fun a ha => hvc a (by simp [ha])) (by linarith) hgo hs.1
      have h2 : g o * (v o - cap o) + g o * max 0 (V - (t - cap o)) ≤ g o * max 0 (v o + V - t) := by
        rw [← mul_add]
        apply mul_le_mul_of_nonneg_left _ hgo
        rcases le_total 0 (V - (t - cap o)) with h | h
        · rw [max_eq_right h]; exact le_trans (by linarith) (le_max_right _ _)
        · rw [max_eq_left h]; exact le_trans (by linarith) (le_max_left _ _)
      linarith

/-- Fee-adjusted comparison of one side: any assignment `v` of no larger total is worth at most the fill. -/
theorem side_optimal {cap g : Order → ℚ} {elig : Order → Prop} [DecidablePred elig] {orig L : List Order} {t : ℚ}
    (hgb : ∀ (o : Order) (v : ℚ), g (o.withBuy v) = g o)
    (hcap : ∀ (o : Order) (v : ℚ), cap (o.withBuy v) = cap o)
    (hel : ∀ (o : Order) (v : ℚ), elig (o.withBuy v) ↔ elig o)
    (hperm : L.Perm ((orig.map Order.clearBuy).filter (fun o => decide (elig o))))
    (hpos : ∀ o ∈ L, 0 < cap o) (ht : 0 ≤ t)
    (hg : ∀ o ∈ orig, elig o → 0 ≤ g o) (hsort : L.Pairwise (fun a b => g b ≤ g a))
    (v : String → ℚ) (hv0 : ∀ o ∈ orig, 0 ≤ v o.id) (hve : ∀ o ∈ orig, ¬ elig o → v o.id = 0)
    (hvc : ∀ o ∈ orig, elig o → v o.id ≤ cap o) (hvt : (orig.map (fun o => v o.id)).sum ≤ t) :
    (orig.map (fun o => g o * v o.id)).sum ≤ ((fillOrders cap t L).map (fun o => g o * o.buy)).sum := by
  have mem : ∀ o ∈ L, ∃ a ∈ orig, elig a ∧ o = a.withBuy 0 := by
    intro o ho
    have := List.mem_filter.1 (hperm.mem_iff.1 ho)
    obtain ⟨a, ha, rfl⟩ := List.mem_map.1 this.1
    exact ⟨a, ha, (hel a 0).1 (of_decide_eq_true this.2), rfl⟩
  -- sums over `orig` are sums over `L`
  have sums : ∀ h : Order → ℚ, (∀ (o : Order) (q : ℚ), h (o.withBuy q) = h o) → (∀ o ∈ orig, ¬ elig o → h o = 0) →
      (orig.map h).sum = (L.map h).sum := by
    intro h hh hz
    rw [(hperm.map h).sum_eq, List.filter_map, List.map_map]
    have e1 : ((fun o : Order => decide (elig o)) ∘ Order.clearBuy) = fun o => decide (elig o) := by
      funext o
      rw [Bool.eq_iff_iff]; simp only [Function.comp, decide_eq_true_eq]
      exact hel o 0
    have e2 : h ∘ Order.clearBuy = h := by funext o; exact hh o 0
    rw [e1, e2]
    clear hperm mem hvt hvc hv0 hve hg
    induction orig with
    | nil => rfl
    | cons a l ih =>
      have ih' := ih (fun o ho => hz o (by simp [ho]))
      rw [List.filter_cons]
      by_cases ha : elig a
      · rw [if_pos (by simpa using ha)]; simp only [List.map_cons, List.sum_cons, ih']
      · rw [if_neg (by simpa using ha)]; simp only [List.map_cons, List.sum_cons, ih', hz a (by simp) ha, zero_add]
  have s1 := sums (fun o => g o * v o.id) (fun o q => by rw [hgb]; rfl) (fun o ho hn => by rw [hve o ho hn, mul_zero])
  have s2 := sums (fun o => v o.id) (fun o q => rfl) hve
  obtain ⟨m, hm0, hm⟩ : ∃ m : ℚ, 0 ≤ m ∧ ∀ o ∈ L, g o ≤ m := by
    cases L with
    | nil => exact ⟨0, le_rfl, by simp⟩
    | cons o L =>
      obtain ⟨a, ha, hea, rfl⟩ := mem o (by simp)
      refine ⟨g a, hg a ha hea, ?_⟩
      intro c hc
      rcases List.mem_cons.1 hc with rfl | hc
      · rw [hgb]
      · have := (List.pairwise_cons.1 hsort).1 c hc
        rwa [hgb] at this
  have key := knapsack hgb (fun o => v o.id) L t m hpos
    (fun o ho => by obtain ⟨a, ha, hea, rfl⟩ := mem o ho; rw [hgb]; exact hg a ha hea) hsort
    (fun o ho => by obtain ⟨a, ha, hea, rfl⟩ := mem o ho; exact hv0 a ha)
    (fun o ho => by obtain ⟨a, ha, hea, rfl⟩ := mem o ho; rw [hcap]; exact hvc a ha hea) ht hm0 hm
  rw [← s1, ← s2, max_eq_left (by linarith), mul_zero, add_zero] at key
  exact key

theorem weight_anti {rate price : ℚ} {fee : Fee} (hr : 0 < rate) (hp : 0 < price) (hf : fee.value < 1) {a b : Order}
    (hb : 0 < b.maxXrate) (h : ¬ Before b a) : weight rate price fee b ≤ weight rate price fee a := by
  have hle : b.maxXrate ≤ a.maxXrate := by
    by_contra hc; exact h (.inl (not_le.1 hc))
  unfold weight
  apply mul_le_mul_of_nonneg_left _ hp.le
  have hφ : 0 < 1 - fee.value := by linarith
  have := div_le_div_of_nonneg_left (div_pos hr hφ).le hb hle
  linarith

theorem weight_nonneg {rate price : ℚ} {fee : Fee} (hp : 0 < price) (hf : fee.value < 1) {o : Order}
    (ho : 0 < o.maxXrate) (h : rate ≤ o.maxXrate * (1 - fee.value)) : 0 ≤ weight rate price fee o := by
  unfold weight
  have hφ : 0 < 1 - fee.value := by linarith
  apply mul_nonneg hp.le
  rw [sub_nonneg, div_div, div_le_one (by positivity)]
  linarith

/-- C12. Among all assignments that trade no more than the computed amounts do, the computed amounts have the largest
objective value. -/
theorem C12_optimal_at_volume {cfg : Config} {x p : ℚ} {fee : Fee} {maxNr : ℤ} {b s b' s' : List Order}
    (h : ExecInput cfg x fee maxNr b s) (hfee : 0 ≤ fee.value) (hp : 0 < p) (hfp : 0 < cfg.feeTokenPrice)
    (hb : ∀ o ∈ b, 0 < o.maxXrate) (hs : ∀ o ∈ s, 0 < o.maxXrate)
    (hr : computeBuyAmounts cfg x b s fee maxNr = .ok (b', s')) (v w : String → ℚ)
    (ha : Assignment cfg x fee b s v w) (hvol : (s.map (fun o => w o.id)).sum ≤ (s'.map (·.buy)).sum) :
    ∃ ours theirs : ℚ, computeObjectiveRational cfg b' s' [] x p fee = .ok ours ∧
      computeObjectiveRational cfg (b.map (fun o => o.withBuy (v o.id))) (s.map (fun o => o.withBuy (w o.id))) [] x p fee
        = .ok theirs ∧ theirs ≤ ours := by
  obtain ⟨b1, s1, B, S, i, j, t, h1, hspec⟩ :=
    computeBuyAmounts_spec cfg h.minPos h.ratePos h.feeLt h.limit h.idsB h.idsS
  rw [hr] at h1; cases h1
  have hφ : 0 < 1 - fee.value := by have := h.feeLt; linarith
  have hx := h.ratePos
  have hpx : 0 < p / x := div_pos hp hx
  have hrx : 0 < 1 / x := one_div_pos.2 hx
  have hsumS := side_sum hspec.posS hspec.resS hspec.lastS
  have hsumB := side_sum hspec.posB hspec.resB hspec.lastB
  rw [hsumS] at hvol
  -- ours, as amounts by order
  have eB := writeBack_fill_eq (t := t * ratio x fee) (capB_withBuy x fee) (fun _ _ => Iff.rfl) hspec.permB hspec.sortB h.idsB
  have eS := writeBack_fill_eq (t := t) (capS_withBuy x fee) (fun _ _ => Iff.rfl) hspec.permS hspec.sortS h.idsS
  obtain ⟨K, hK⟩ := computeObjectiveRational_eq (p := p) hfp hx h.feeLt hb hs
  set fB := fillAmount (EligibleB cfg x fee) (capB x fee) b (t * ratio x fee) with hfB
  set fS := fillAmount (EligibleS cfg x fee) (capS x fee) s t with hfS
  have hours := hK fB fS
  rw [← eB, ← eS, ← hspec.eqB, ← hspec.eqS] at hours
  refine ⟨_, _, hours, hK (fun o => v o.id) (fun o => w o.id), ?_⟩
  -- the sums of ours in terms of fills
  have wgb : ∀ (rate price : ℚ) (o : Order) (q : ℚ), weight rate price fee (o.withBuy q) = weight rate price fee o :=
    fun _ _ _ _ => rfl
  have oursB : (b.map (fun o => weight x p fee o * fB o)).sum =
      ((fillOrders (capB x fee) (t * ratio x fee) B).map (fun o => weight x p fee o * o.buy)).sum := by
    have e : (b'.map (fun o => weight x p fee o * o.buy)).sum = (b.map (fun o => weight x p fee o * fB o)).sum := by
      rw [hspec.eqB, eB, List.map_map]; rfl
    rw [← e, (hspec.resB.map _).sum_eq, List.map_append, List.sum_append]
    have : (((b.map Order.clearBuy).filter (fun o => !decide (EligibleB cfg x fee o))).map
        (fun o => weight x p fee o * o.buy)).sum = 0 := by
      apply List.sum_eq_zero
      intro y hy
      obtain ⟨o, ho, rfl⟩ := List.mem_map.1 hy
      obtain ⟨a, _, rfl⟩ := List.mem_map.1 (List.mem_filter.1 ho).1
      exact mul_zero _
    rw [this, add_zero]
  have oursS : (s.map (fun o => weight (1 / x) (p / x) fee o * fS o)).sum =
      ((fillOrders (capS x fee) t S).map (fun o => weight (1 / x) (p / x) fee o * o.buy)).sum := by
    have e : (s'.map (fun o => weight (1 / x) (p / x) fee o * o.buy)).sum =
        (s.map (fun o => weight (1 / x) (p / x) fee o * fS o)).sum := by
      rw [hspec.eqS, eS, List.map_map]; rfl
    rw [← e, (hspec.resS.map _).sum_eq, List.map_append, List.sum_append]
    have : (((s.map Order.clearBuy).filter (fun o => !decide (EligibleS cfg x fee o))).map
        (fun o => weight (1 / x) (p / x) fee o * o.buy)).sum = 0 := by
      apply List.sum_eq_zero
      intro y hy
      obtain ⟨o, ho, rfl⟩ := List.mem_map.1 hy
      obtain ⟨a, _, rfl⟩ := List.mem_map.1 (List.mem_filter.1 ho).1
      exact mul_zero _
    rw [this, add_zero]
  have fBsum : (b.map fB).sum = t * ratio x fee := by
    rw [← hsumB, hspec.eqB, eB, List.map_map]; rfl
  have fSsum : (s.map fS).sum = t := by
    rw [← hsumS, hspec.eqS, eS, List.map_map]; rfl
  -- volumes of theirs
  set V := (b.map (fun o => v o.id)).sum with hV
  set W := (s.map (fun o => w o.id)).sum with hW
  have hbal := ha.balanced
  rw [← hV, ← hW] at hbal
  have hVW : V = W * ratio x fee := by
    unfold ratio; field_simp; linarith
  have memB : ∀ o ∈ B, ∃ a ∈ b, o = a.withBuy 0 := by
    intro o ho
    obtain ⟨a, ha, rfl⟩ := List.mem_map.1 (List.mem_filter.1 (hspec.permB.mem_iff.1 ho)).1
    exact ⟨a, ha, rfl⟩
  have memS : ∀ o ∈ S, ∃ a ∈ s, o = a.withBuy 0 := by
    intro o ho
    obtain ⟨a, ha, rfl⟩ := List.mem_map.1 (List.mem_filter.1 (hspec.permS.mem_iff.1 ho)).1
    exact ⟨a, ha, rfl⟩
  have kB := side_optimal (g := weight x p fee) (wgb x p) (capB_withBuy x fee) (fun _ _ => Iff.rfl) hspec.permB hspec.posB
    hspec.lastB.2.2.1 (fun o ho he => weight_nonneg hp h.feeLt (hb o ho) he.1)
    (hspec.sortB.imp_of_mem (fun {a c} ha hc hn => by
      obtain ⟨a', ha', rfl⟩ := memB a ha
      obtain ⟨c', hc', rfl⟩ := memB c hc
      exact weight_anti hx hp h.feeLt (hb c' hc') hn))
    v ha.nonnegB ha.eligB (fun o ho he => by
      have := ha.capB o ho he
      unfold capB
      rw [div_le_iff₀ hφ] at this
      rw [div_mul_eq_mul_div, le_div_iff₀ hx]; exact this)
    (by rw [← hV, hVW]; exact mul_le_mul_of_nonneg_right hvol (ratio_pos hx h.feeLt).le)
  have kS := side_optimal (g := weight (1 / x) (p / x) fee) (wgb _ _) (capS_withBuy x fee) (fun _ _ => Iff.rfl) hspec.permS
    hspec.posS hspec.lastS.2.2.1 (fun o ho he => weight_nonneg hpx h.feeLt (hs o ho) he.1)
    (hspec.sortS.imp_of_mem (fun {a c} ha hc hn => by
      obtain ⟨a', ha', rfl⟩ := memS a ha
      obtain ⟨c', hc', rfl⟩ := memS c hc
      exact weight_anti hrx hpx h.feeLt (hs c' hc') hn))
    w ha.nonnegS ha.eligS (fun o ho he => by
      have := ha.capS o ho he
      unfold capS
      rw [div_le_iff₀ hφ, div_le_iff₀ hx] at this
      linarith)
    hvol
  rw [oursB, oursS, fBsum, fSsum, hVW]
  have hfees : (W / x / (1 - fee.value) - W * ratio x fee) * p / cfg.feeTokenPrice / 2 ≤
      (t / x / (1 - fee.value) - t * ratio x fee) * p / cfg.feeTokenPrice / 2 := by
    have hcoef : 0 ≤ (1 / x / (1 - fee.value) - ratio x fee) * p / cfg.feeTokenPrice / 2 := by
      have hfp' : (0 : ℚ) < cfg.feeTokenPrice := by exact_mod_cast hfp
      have : 0 ≤ 1 / x / (1 - fee.value) - ratio x fee := by
        unfold ratio
        rw [sub_nonneg, div_div, div_le_div_iff₀ hx (by positivity)]
        have h1 : (1 - fee.value) * (1 - fee.value) ≤ 1 := by nlinarith
        nlinarith
      positivity
    have := mul_le_mul_of_nonneg_right hvol hcoef
    have e : ∀ q : ℚ, (q / x / (1 - fee.value) - q * ratio x fee) * p / cfg.feeTokenPrice / 2 =
        q * ((1 / x / (1 - fee.value) - ratio x fee) * p / cfg.feeTokenPrice / 2) := by intro q; ring
    rw [e, e]; exact this
  linarith

/-- C12. If the computed amounts fill all eligible orders of one side, no assignment to eligible orders that respects
maximum sell amounts and token balance has a larger objective value. -/
theorem C12_optimal {cfg : Config} {x p : ℚ} {fee : Fee} {maxNr : ℤ} {b s b' s' : List Order}
    (h : ExecInput cfg x fee maxNr b s) (hfee : 0 ≤ fee.value) (hp : 0 < p) (hfp : 0 < cfg.feeTokenPrice)
    (hb : ∀ o ∈ b, 0 < o.maxXrate) (hs : ∀ o ∈ s, 0 < o.maxXrate)
    (hr : computeBuyAmounts cfg x b s fee maxNr = .ok (b', s'))
    (hfull : (∀ o ∈ b', EligibleB cfg x fee o → soldB x fee o = o.maxSell) ∨
      (∀ o ∈ s', EligibleS cfg x fee o → soldS x fee o = o.maxSell)) (v w : String → ℚ)
    (ha : Assignment cfg x fee b s v w) :
    ∃ ours theirs : ℚ, computeObjectiveRational cfg b' s' [] x p fee = .ok ours ∧
      computeObjectiveRational cfg (b.map (fun o => o.withBuy (v o.id))) (s.map (fun o => o.withBuy (w o.id))) [] x p fee
        = .ok theirs ∧ theirs ≤ ours := by
  apply C12_optimal_at_volume h hfee hp hfp hb hs hr v w ha
  have hφ : 0 < 1 - fee.value := by have := h.feeLt; linarith
  have hx := h.ratePos
  obtain ⟨t, _, ht, eB, eS⟩ := C11_closed_form h hr
  have hbal := (C06_balanced h hr).1
  have hbal2 := ha.balanced
  have le_of : ∀ p q : ℚ, p * (1 - fee.value) ≤ q * (1 - fee.value) → p ≤ q := fun p q h => le_of_mul_le_mul_right h hφ
  rcases hfull with hf | hf
  · apply le_of
    rw [← hbal, ← hbal2]
    apply mul_le_mul_of_nonneg_right _ hx.le
    rw [eB, List.map_map]
    apply List.sum_le_sum
    intro o ho
    simp only [Function.comp, withBuy_buy]
    by_cases he : EligibleB cfg x fee o
    · have h1 := hf (o.withBuy (fillAmount (EligibleB cfg x fee) (maxBuyB x fee) b (t * ((1 - fee.value) / x)) o))
        (by rw [eB]; exact List.mem_map.2 ⟨o, ho, rfl⟩) he
      have h2 := ha.capB o ho he
      unfold soldB at h1
      rw [withBuy_buy] at h1
      have h3 : (o.withBuy (fillAmount (EligibleB cfg x fee) (maxBuyB x fee) b (t * ((1 - fee.value) / x)) o)).maxSell =
        o.maxSell := rfl
      rw [h3] at h1
      rw [← h1] at h2
      have h4 := (div_le_div_iff_of_pos_right hφ).1 h2
      exact le_of_mul_le_mul_right h4 hx
    · rw [ha.eligB o ho he]; unfold fillAmount; rw [if_neg he]
  · rw [eS, List.map_map]
    apply List.sum_le_sum
    intro o ho
    simp only [Function.comp, withBuy_buy]
    by_cases he : EligibleS cfg x fee o
    · have h1 := hf (o.withBuy (fillAmount (EligibleS cfg x fee) (maxBuyS x fee) s t o))
        (by rw [eS]; exact List.mem_map.2 ⟨o, ho, rfl⟩) he
      have h2 := ha.capS o ho he
      unfold soldS at h1
      rw [withBuy_buy] at h1
      have h3 : (o.withBuy (fillAmount (EligibleS cfg x fee) (maxBuyS x fee) s t o)).maxSell = o.maxSell := rfl
      rw [h3] at h1
      rw [← h1] at h2
      exact (div_le_div_iff_of_pos_right hx).1 ((div_le_div_iff_of_pos_right hφ).1 h2)
    · rw [ha.eligS o ho he]; unfold fillAmount; rw [if_neg he]

/-! ### When one side is filled completely -/

theorem exists_lastIdx {cap : Order → ℚ} {L : List Order} {t : ℚ} (h0 : 0 ≤ t)
    (h1 : t ≤ preCap cap L L.length) : ∃ i : ℤ, LastIdx cap L t i := by
  -- smallest `k` with `t ≤ preCap k`
  have hex : ∃ k, t ≤ preCap cap L k := ⟨_, h1⟩
  classical
  let k := Nat.find hex
  have hk : t ≤ preCap cap L k := Nat.find_spec hex
  have hmin : ∀ j < k, ¬ t ≤ preCap cap L j := fun j hj => Nat.find_min hex hj
  have hkl : k ≤ L.length := Nat.find_min' hex h1
  refine ⟨(k : ℤ) - 1, by omega, by omega, h0, ?_, ?_⟩
  · have : ((k : ℤ) - 1 + 1).toNat = k := by omega
    rw [this]; exact hk
  · intro hk0
    exact not_le.1 (hmin _ (by omega))

/-- The two conditions of C12 under which nothing but the orders' own capacities limits the execution: all eligible orders
fit in the order-count limit, and greedily filling up to the smaller side's capacity `u` leaves no order with less than
the minimum tradable amount. -/
structure Unconstrained (cfg : Config) (x : ℚ) (fee : Fee) (maxNr : ℤ) (b s : List Order) (u : ℚ) : Prop where
  smaller : (u * ((1 - fee.value) / x) = ((b.filter (fun o => decide (EligibleB cfg x fee o))).map (maxBuyB x fee)).sum ∧
      u ≤ ((s.filter (fun o => decide (EligibleS cfg x fee o))).map (maxBuyS x fee)).sum) ∨
    (u * ((1 - fee.value) / x) ≤ ((b.filter (fun o => decide (EligibleB cfg x fee o))).map (maxBuyB x fee)).sum ∧
      u = ((s.filter (fun o => decide (EligibleS cfg x fee o))).map (maxBuyS x fee)).sum)
  room : ((b.filter (fun o => decide (EligibleB cfg x fee o))).length +
    (s.filter (fun o => decide (EligibleS cfg x fee o))).length : ℤ) ≤ maxNr
  minB : ∀ o ∈ b, ∀ q, q = fillAmount (EligibleB cfg x fee) (maxBuyB x fee) b (u * ((1 - fee.value) / x)) o → 0 < q →
    (cfg.minRationalTradable : ℚ) ≤ q ∧ (cfg.minRationalTradable : ℚ) ≤ q * x / (1 - fee.value)
  minS : ∀ o ∈ s, ∀ q, q = fillAmount (EligibleS cfg x fee) (maxBuyS x fee) s u o → 0 < q →
    (cfg.minRationalTradable : ℚ) ≤ q ∧ (cfg.minRationalTradable : ℚ) ≤ q / x / (1 - fee.value)

theorem elig_sum {cap : Order → ℚ} {elig : Order → Prop} [DecidablePred elig] {orig L : List Order}
    (hcap : ∀ (o : Order) (v : ℚ), cap (o.withBuy v) = cap o)
    (hel : ∀ (o : Order) (v : ℚ), elig (o.withBuy v) ↔ elig o)
    (hperm : L.Perm ((orig.map Order.clearBuy).filter (fun o => decide (elig o)))) :
    preCap cap L L.length = ((orig.filter (fun o => decide (elig o))).map cap).sum ∧
    L.length = (orig.filter (fun o => decide (elig o))).length := by
  have e1 : ((fun o : Order => decide (elig o)) ∘ Order.clearBuy) = fun o => decide (elig o) := by
    funext o
    rw [Bool.eq_iff_iff]; simp only [Function.comp, decide_eq_true_eq]
    exact hel o 0
  constructor
  · rw [preCap_length, (hperm.map cap).sum_eq, List.filter_map, List.map_map, e1]
    congr 1
    apply List.map_congr_left
    intro o _
    exact hcap o 0
  · rw [hperm.length_eq, List.filter_map, List.length_map, e1]

/-- If the greedy fill at `u` leaves no order with less than the minimum tradable amount, neither last order is too small. -/
theorem lastOk_of_min {cfg : Config} {x : ℚ} {fee : Fee} {b s B S : List Order} {u : ℚ} (hρ : 0 < ratio x fee)
    (permB : B.Perm ((b.map Order.clearBuy).filter (fun o => decide (EligibleB cfg x fee o))))
    (permS : S.Perm ((s.map Order.clearBuy).filter (fun o => decide (EligibleS cfg x fee o))))
    (sortB : B.Pairwise (fun a b => ¬ Before b a)) (sortS : S.Pairwise (fun a b => ¬ Before b a))
    (posB : ∀ o ∈ B, 0 < capB x fee o) (posS : ∀ o ∈ S, 0 < capS x fee o)
    (idsB : (b.map (·.id)).Nodup) (idsS : (s.map (·.id)).Nodup) (u0 : 0 ≤ u)
    (ub : u * ratio x fee ≤ preCap (capB x fee) B B.length) (us : u ≤ preCap (capS x fee) S S.length)
    (minB : ∀ o ∈ b, ∀ q, q = fillAmount (EligibleB cfg x fee) (maxBuyB x fee) b (u * ((1 - fee.value) / x)) o → 0 < q →
      (cfg.minRationalTradable : ℚ) ≤ q ∧ (cfg.minRationalTradable : ℚ) ≤ q * x / (1 - fee.value))
    (minS : ∀ o ∈ s, ∀ q, q = fillAmount (EligibleS cfg x fee) (maxBuyS x fee) s u o → 0 < q →
      (cfg.minRationalTradable : ℚ) ≤ q ∧ (cfg.minRationalTradable : ℚ) ≤ q / x / (1 - fee.value)) :
    LastOk cfg x fee B S u := by
  rcases u0.lt_or_eq with hpos | hz
  · obtain ⟨i', hi'⟩ := exists_lastIdx (mul_nonneg u0 hρ.le) ub
    obtain ⟨j', hj'⟩ := exists_lastIdx u0 us
    have hi0 := (hi'.nonneg_iff posB).2 (mul_pos hpos hρ)
    have hj0 := (hj'.nonneg_iff posS).2 hpos
    obtain ⟨n, rfl⟩ := Int.eq_ofNat_of_zero_le hi0
    obtain ⟨m, rfl⟩ := Int.eq_ofNat_of_zero_le hj0
    obtain ⟨hnl, hb1, hb2⟩ := hi'.bounds
    obtain ⟨hml, hs1, hs2⟩ := hj'.bounds
    obtain ⟨bo, hbo⟩ : ∃ bo, B[n]? = some bo := ⟨_, List.getElem?_eq_getElem hnl⟩
    obtain ⟨so, hso⟩ : ∃ so, S[m]? = some so := ⟨_, List.getElem?_eq_getElem hml⟩
    have mb := List.mem_filter.1 (permB.mem_iff.1 (List.mem_of_getElem? hbo))
    have ms := List.mem_filter.1 (permS.mem_iff.1 (List.mem_of_getElem? hso))
    obtain ⟨bo', hbo', rfl⟩ := List.mem_map.1 mb.1
    obtain ⟨so', hso', rfl⟩ := List.mem_map.1 ms.1
    have hbe : EligibleB cfg x fee bo' := of_decide_eq_true mb.2
    have hse : EligibleS cfg x fee so' := of_decide_eq_true ms.2
    have pb := preCap_eq_before (capB_withBuy x fee) (fun _ _ => Iff.rfl) permB sortB
      (nodup_ids_of_perm permB idsB) hbo
    have ps := preCap_eq_before (capS_withBuy x fee) (fun _ _ => Iff.rfl) permS sortS
      (nodup_ids_of_perm permS idsS) hso
    have vb : u * ratio x fee - preCap (capB x fee) B n =
        fillAmount (EligibleB cfg x fee) (maxBuyB x fee) b (u * ((1 - fee.value) / x)) bo' := by
      unfold fillAmount
      rw [if_pos hbe]
      have hsucc := preCap_succ (cap := capB x fee) hbo
      rw [hsucc] at hb2
      rw [pb] at hb1 hb2 ⊢
      have hc : capB x fee bo'.clearBuy = maxBuyB x fee bo' := rfl
      rw [hc] at hb2
      exact (by rw [min_eq_right (by linarith), max_eq_right (by linarith)] :
        max 0 (min (maxBuyB x fee bo') (u * ratio x fee -
          ((b.filter (fun c => decide (EligibleB cfg x fee c ∧ Before c bo'.clearBuy))).map (capB x fee)).sum)) = _).symm
    have vs : u - preCap (capS x fee) S m =
        fillAmount (EligibleS cfg x fee) (maxBuyS x fee) s u so' := by
      unfold fillAmount
      rw [if_pos hse]
      have hsucc := preCap_succ (cap := capS x fee) hso
      rw [hsucc] at hs2
      rw [ps] at hs1 hs2 ⊢
      have hc : capS x fee so'.clearBuy = maxBuyS x fee so' := rfl
      rw [hc] at hs2
      exact (by rw [min_eq_right (by linarith), max_eq_right (by linarith)] :
        max 0 (min (maxBuyS x fee so') (u -
          ((s.filter (fun c => decide (EligibleS cfg x fee c ∧ Before c so'.clearBuy))).map (capS x fee)).sum)) = _).symm
    have c1 := minB bo' hbo' _ vb (by linarith)
    have c2 := minS so' hso' _ vs (by linarith)
    exact .inr ⟨n, m, hi', hj', c1.1, c1.2, c2.1, c2.2⟩
  · exact .inl hz.symm

/-- C12. If neither the order-count limit nor the minimum-tradable repair binds, the computed amounts fill one side. -/
theorem C12_one_side_filled {cfg : Config} {x : ℚ} {fee : Fee} {maxNr : ℤ} {b s b' s' : List Order} {u : ℚ}
    (h : ExecInput cfg x fee maxNr b s) (hu : Unconstrained cfg x fee maxNr b s u)
    (hr : computeBuyAmounts cfg x b s fee maxNr = .ok (b', s')) :
    (∀ o ∈ b', EligibleB cfg x fee o → soldB x fee o = o.maxSell) ∨
      (∀ o ∈ s', EligibleS cfg x fee o → soldS x fee o = o.maxSell) := by
  obtain ⟨b1, s1, B, S, i, j, t, h1, hs⟩ :=
    computeBuyAmounts_spec cfg h.minPos h.ratePos h.feeLt h.limit h.idsB h.idsS
  rw [hr] at h1; cases h1
  have hρ := ratio_pos h.ratePos h.feeLt
  obtain ⟨eb1, eb2⟩ := elig_sum (cap := capB x fee) (elig := EligibleB cfg x fee) (capB_withBuy x fee)
    (fun _ _ => Iff.rfl) hs.permB
  obtain ⟨es1, es2⟩ := elig_sum (cap := capS x fee) (elig := EligibleS cfg x fee) (capS_withBuy x fee)
    (fun _ _ => Iff.rfl) hs.permS
  have hsm : (u * ratio x fee = preCap (capB x fee) B B.length ∧ u ≤ preCap (capS x fee) S S.length ∨
          u * ratio x fee ≤ preCap (capB x fee) B B.length ∧ u = preCap (capS x fee) S S.length) := by
    rw [eb1, es1]; exact hu.smaller
  have u0 : 0 ≤ u := by
    rcases hsm with ⟨h1, _⟩ | ⟨_, h1⟩
    · have := preCap_nonneg (cap := capB x fee) hs.posB B.length
      rw [← h1] at this
      by_contra hc
      have := mul_neg_of_neg_of_pos (not_le.1 hc) hρ
      linarith
    · rw [h1]; exact preCap_nonneg hs.posS _
  have ub : u * ratio x fee ≤ preCap (capB x fee) B B.length := by rcases hsm with ⟨h1, _⟩ | ⟨h1, _⟩ <;> linarith
  have us : u ≤ preCap (capS x fee) S S.length := by rcases hsm with ⟨_, h1⟩ | ⟨_, h1⟩ <;> linarith
  have hok : LastOk cfg x fee B S u := lastOk_of_min hρ hs.permB hs.permS hs.sortB hs.sortS hs.posB hs.posS h.idsB h.idsS
    u0 ub us hu.minB hu.minS
  have htu : t = u := hs.maximal u hsm hok (by rw [eb2, es2]; exact hu.room)
  subst htu
  -- the filled side
  have full : ∀ {cap : Order → ℚ} {elig : Order → Prop} [DecidablePred elig] {orig res L : List Order} {t : ℚ} {i : ℤ},
      (∀ (o : Order) (v : ℚ), cap (o.withBuy v) = cap o) → (∀ o ∈ L, 0 < cap o) →
      L.Perm ((orig.map Order.clearBuy).filter (fun o => decide (elig o))) →
      res.Perm (fillOrders cap t L ++ (orig.map Order.clearBuy).filter (fun o => !decide (elig o))) →
      LastIdx cap L t i → t = preCap cap L L.length → ∀ o ∈ res, elig o → o.buy = cap o := by
    intro cap elig _ orig res L t i hcap hpos hperm hres hlast ht o ho he
    rcases side_cases hpos hperm hres hlast ho with ⟨k, a, hk, _, hoe, hc⟩ | ⟨_, hne⟩
    · have hco : cap o = cap a := by rw [hoe, hcap]
      have hkl : k < L.length := by
        by_contra hc; rw [List.getElem?_eq_none (by omega)] at hk; cases hk
      rcases hc with ⟨_, h1⟩ | ⟨_, h1, _, h2⟩ | ⟨hik, _⟩
      · rw [h1, hco]
      · have := preCap_mono (cap := cap) hpos (show k + 1 ≤ L.length by omega)
        rw [preCap_succ hk] at this
        rw [hco]; linarith
      · exfalso
        have h4 := hlast.2.2.2.1
        have := preCap_mono (cap := cap) hpos (show (i + 1).toNat ≤ k by have := hlast.1; omega)
        have h5 := preCap_lt_succ (cap := cap) hpos hkl
        have h6 := preCap_mono (cap := cap) hpos (show k + 1 ≤ L.length by omega)
        linarith
    · exact absurd he hne
  rcases hsm with ⟨h1, _⟩ | ⟨_, h1⟩
  · left
    intro o ho he
    exact soldB_of_eq_capB h.ratePos h.feeLt
      (full (capB_withBuy x fee) hs.posB hs.permB hs.resB hs.lastB h1 o ho he)
  · right
    intro o ho he
    exact soldS_of_eq_capS h.ratePos h.feeLt
      (full (capS_withBuy x fee) hs.posS hs.permS hs.resS hs.lastS h1 o ho he)

/-! ### Non-vacuity -/

/-- The book of `Props/Amount.lean` meets the hypotheses of C12: all s_orders are filled. -/
example : Unconstrained Config.default 1 Ex.fee 30 Ex.bs Ex.ss (119880) := by
  constructor
  · decide +kernel
  · decide +kernel
  · intro o ho q hq hp
    have : ∀ o ∈ Ex.bs, 0 < fillAmount (EligibleB Config.default 1 Ex.fee) (maxBuyB 1 Ex.fee) Ex.bs
        (119880 * ((1 - Ex.fee.value) / 1)) o →
      (Config.default.minRationalTradable : ℚ) ≤ fillAmount (EligibleB Config.default 1 Ex.fee) (maxBuyB 1 Ex.fee) Ex.bs
        (119880 * ((1 - Ex.fee.value) / 1)) o ∧ (Config.default.minRationalTradable : ℚ) ≤
        fillAmount (EligibleB Config.default 1 Ex.fee) (maxBuyB 1 Ex.fee) Ex.bs
        (119880 * ((1 - Ex.fee.value) / 1)) o * 1 / (1 - Ex.fee.value) := by decide +kernel
    subst hq; exact this o ho hp
  · intro o ho q hq hp
    have : ∀ o ∈ Ex.ss, 0 < fillAmount (EligibleS Config.default 1 Ex.fee) (maxBuyS 1 Ex.fee) Ex.ss 119880 o →
      (Config.default.minRationalTradable : ℚ) ≤ fillAmount (EligibleS Config.default 1 Ex.fee) (maxBuyS 1 Ex.fee) Ex.ss
        119880 o ∧ (Config.default.minRationalTradable : ℚ) ≤
        fillAmount (EligibleS Config.default 1 Ex.fee) (maxBuyS 1 Ex.fee) Ex.ss 119880 o / 1 / (1 - Ex.fee.value) := by
      decide +kernel
    subst hq; exact this o ho hp

/-- A competing assignment that trades something (and so is compared in C12). -/
example : Assignment Config.default 1 Ex.fee Ex.bs Ex.ss (fun i => if i = "1" then 19980 else 0)
    (fun i => if i = "3" then 20000 else 0) := by
  constructor <;> decide +kernel

end Dex
