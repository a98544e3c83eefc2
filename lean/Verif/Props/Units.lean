import Verif.Props.Symmetry
import Verif.Props.ExtraOrder
import Verif.Proof.ScaleCore

/-! # C94, C95: units of amounts, and the limit on the number of orders -/

namespace Dex

open Spec

theorem eligibleB_scale {cfg cfg' : Config} {k x : ℚ} (hk : 0 < k) (hm : (cfg'.minRationalTradable : ℚ) = k * cfg.minRationalTradable) {fee : Fee}
    (o : Order) : EligibleB cfg' x fee (scaleOrder k o) ↔ EligibleB cfg x fee o := by
  unfold EligibleB scaleOrder
  simp only [hm]
  rw [show k * o.maxSell / x * (1 - fee.value) = k * (o.maxSell / x * (1 - fee.value)) by ring, mul_le_mul_iff_right₀ hk, mul_le_mul_iff_right₀ hk]

theorem eligibleS_scale {cfg cfg' : Config} {k x : ℚ} (hk : 0 < k) (hm : (cfg'.minRationalTradable : ℚ) = k * cfg.minRationalTradable) {fee : Fee}
    (o : Order) : EligibleS cfg' x fee (scaleOrder k o) ↔ EligibleS cfg x fee o := by
  unfold EligibleS scaleOrder
  simp only [hm]
  rw [show k * o.maxSell * x * (1 - fee.value) = k * (o.maxSell * x * (1 - fee.value)) by ring, mul_le_mul_iff_right₀ hk, mul_le_mul_iff_right₀ hk]

theorem before_scale {k : ℚ} (hk : 0 < k) (a o : Order) : Before (scaleOrder k a) (scaleOrder k o) ↔ Before a o := by
  unfold Before scaleOrder
  simp only [gt_iff_lt, mul_lt_mul_iff_right₀ hk, mul_right_inj' hk.ne']

theorem fill_scale {elig elig' : Order → Prop} [DecidablePred elig] [DecidablePred elig'] {cap cap' : Order → ℚ} {k : ℚ} (hk : 0 < k)
    (he : ∀ o, elig' (scaleOrder k o) ↔ elig o) (hc : ∀ o, cap' (scaleOrder k o) = k * cap o) (L : List Order) (t : ℚ) (o : Order) :
    fillAmount elig' cap' (L.map (scaleOrder k)) (k * t) (scaleOrder k o) = k * fillAmount elig cap L t o := by
  unfold fillAmount
  simp only [he]
  split
  · rw [List.filter_map, List.map_map, mul_max_of_nonneg _ _ hk.le, mul_min_of_nonneg _ _ hk.le, mul_zero, hc, mul_sub]
    have e : ((fun a => decide (elig' a ∧ Before a (scaleOrder k o))) ∘ scaleOrder k) = fun a => decide (elig a ∧ Before a o) := by
      funext a; simp [he, before_scale hk]
    rw [e]
    have e2 : ∀ l : List Order, (l.map (cap' ∘ scaleOrder k)).sum = k * (l.map cap).sum := fun l => by
      rw [mul_comm, ← sum_map_mul_right']
      congr 1
      apply List.map_congr_left; intro a _; simp [hc, mul_comm]
    rw [e2]
  · simp

theorem eligSum_scale {elig elig' : Order → Prop} [DecidablePred elig] [DecidablePred elig'] {cap cap' : Order → ℚ} {k : ℚ}
    (he : ∀ o, elig' (scaleOrder k o) ↔ elig o) (hc : ∀ o, cap' (scaleOrder k o) = k * cap o) (L : List Order) :
    (((L.map (scaleOrder k)).filter (fun o => decide (elig' o))).map cap').sum = k * ((L.filter (fun o => decide (elig o))).map cap).sum := by
  rw [List.filter_map, List.map_map]
  have e : ((fun a => decide (elig' a)) ∘ scaleOrder k) = fun a => decide (elig a) := by
    funext a; simp [he]
  rw [e, mul_comm, ← sum_map_mul_right']
  congr 1
  apply List.map_congr_left; intro a _; simp [hc, mul_comm]

theorem count_scale {k : ℚ} (hk : 0 < k) {f g : Order → ℚ} (h : ∀ o, f (scaleOrder k o) = k * g o) (L : List Order) :
    ((L.map (scaleOrder k)).filter (fun o => decide (0 < f o))).length = (L.filter (fun o => decide (0 < g o))).length := by
  rw [List.filter_map, List.length_map]
  congr 2
  funext a
  simp [h, hk]

theorem Admissible.scale {cfg cfg' : Config} {k x : ℚ} {fee : Fee} {maxNr : ℤ} {b s : List Order} {u : ℚ} (hk : 0 < k)
    (hm : (cfg'.minRationalTradable : ℚ) = k * cfg.minRationalTradable) :
    Admissible cfg' x fee maxNr (b.map (scaleOrder k)) (s.map (scaleOrder k)) (k * u) ↔ Admissible cfg x fee maxNr b s u := by
  have cb : ∀ o, maxBuyB x fee (scaleOrder k o) = k * maxBuyB x fee o := fun o => by unfold maxBuyB scaleOrder; ring
  have cs : ∀ o, maxBuyS x fee (scaleOrder k o) = k * maxBuyS x fee o := fun o => by unfold maxBuyS scaleOrder; ring
  have eb := eligibleB_scale (x := x) (fee := fee) hk hm
  have es := eligibleS_scale (x := x) (fee := fee) hk hm
  have e1 : k * u * ((1 - fee.value) / x) = k * (u * ((1 - fee.value) / x)) := by ring
  have fb := fun t o => fill_scale hk eb cb b t o
  have fs := fun t o => fill_scale hk es cs s t o
  have m1 : ∀ q, (k * q * x / (1 - fee.value)) = k * (q * x / (1 - fee.value)) := fun q => by ring
  have m2 : ∀ q, (k * q / x / (1 - fee.value)) = k * (q / x / (1 - fee.value)) := fun q => by ring
  constructor
  · rintro ⟨h1, h2, h3, h4, h5, h6⟩
    rw [e1] at h2 h4 h5
    rw [eligSum_scale eb cb, mul_le_mul_iff_right₀ hk] at h2
    rw [eligSum_scale es cs, mul_le_mul_iff_right₀ hk] at h3
    rw [count_scale hk (fun o => fb _ o), count_scale hk (fun o => fs _ o)] at h4
    refine ⟨nonneg_of_mul_nonneg_right h1 hk, h2, h3, h4, ?_, ?_⟩
    · rintro o ho q rfl hq
      have := h5 _ (List.mem_map_of_mem ho) _ rfl (by rw [fb]; exact mul_pos hk hq)
      rwa [fb, m1, hm, mul_le_mul_iff_right₀ hk, mul_le_mul_iff_right₀ hk] at this
    · rintro o ho q rfl hq
      have := h6 _ (List.mem_map_of_mem ho) _ rfl (by rw [fs]; exact mul_pos hk hq)
      rwa [fs, m2, hm, mul_le_mul_iff_right₀ hk, mul_le_mul_iff_right₀ hk] at this
  · rintro ⟨h1, h2, h3, h4, h5, h6⟩
    refine ⟨mul_nonneg hk.le h1, ?_, ?_, ?_, ?_, ?_⟩
    · rw [e1, eligSum_scale eb cb, mul_le_mul_iff_right₀ hk]; exact h2
    · rw [eligSum_scale es cs, mul_le_mul_iff_right₀ hk]; exact h3
    · rw [e1, count_scale hk (fun o => fb _ o), count_scale hk (fun o => fs _ o)]; exact h4
    · intro o ho q hq hp
      obtain ⟨a, ha, rfl⟩ := List.mem_map.1 ho
      rw [e1, fb] at hq
      subst hq
      rw [m1, hm, mul_le_mul_iff_right₀ hk, mul_le_mul_iff_right₀ hk]
      exact h5 a ha _ rfl (pos_of_mul_pos_right hp hk.le)
    · intro o ho q hq hp
      obtain ⟨a, ha, rfl⟩ := List.mem_map.1 ho
      rw [fs] at hq
      subst hq
      rw [m2, hm, mul_le_mul_iff_right₀ hk, mul_le_mul_iff_right₀ hk]
      exact h6 a ha _ rfl (pos_of_mul_pos_right hp hk.le)

/-- C94. Amounts given in other units, with the minimum tradable amount in the same units, give the same execution in those units. -/
theorem C94_units {cfg cfg' : Config} {k x : ℚ} {fee : Fee} {maxNr : ℤ} {b s b' s' : List Order} (hk : 0 < k)
    (hm : (cfg'.minRationalTradable : ℚ) = k * cfg.minRationalTradable)
    (h : ExecInput cfg x fee maxNr b s) (hr : computeBuyAmounts cfg x b s fee maxNr = .ok (b', s')) :
    computeBuyAmounts cfg' x (b.map (scaleOrder k)) (s.map (scaleOrder k)) fee maxNr = .ok (b'.map (scaleOrder k), s'.map (scaleOrder k)) := by
  have cb : ∀ o, maxBuyB x fee (scaleOrder k o) = k * maxBuyB x fee o := fun o => by unfold maxBuyB scaleOrder; ring
  have cs : ∀ o, maxBuyS x fee (scaleOrder k o) = k * maxBuyS x fee o := fun o => by unfold maxBuyS scaleOrder; ring
  have eb := eligibleB_scale (x := x) (fee := fee) hk hm
  have es := eligibleS_scale (x := x) (fee := fee) hk hm
  obtain ⟨g1, g2⟩ := C58_greatest_volume h hr
  obtain ⟨t, _, ht, e1, e2⟩ := C11_closed_form h hr
  rw [ht] at g1 g2
  have hid : ∀ L : List Order, ((L.map (scaleOrder k)).map (·.id)) = L.map (·.id) := fun L => by rw [List.map_map]; rfl
  have hmin : 0 < cfg'.minRationalTradable := by
    have h1 : (0 : ℚ) < cfg.minRationalTradable := by exact_mod_cast h.minPos
    have : (0 : ℚ) < cfg'.minRationalTradable := by rw [hm]; exact mul_pos hk h1
    exact_mod_cast this
  have h' : ExecInput cfg' x fee maxNr (b.map (scaleOrder k)) (s.map (scaleOrder k)) :=
    ⟨hmin, h.ratePos, h.feeLt, h.limit, by rw [hid]; exact h.idsB, by rw [hid]; exact h.idsS⟩
  rw [C58_determined h' ((Admissible.scale hk hm).2 g1) fun u hu => by
    have hu' : Admissible cfg x fee maxNr b s (u / k) := (Admissible.scale hk hm).1 (by rwa [mul_div_cancel₀ _ hk.ne'])
    have := g2 _ hu'
    rw [div_le_iff₀ hk] at this; linarith, e1, e2]
  congr 2
  · rw [List.map_map, List.map_map]
    apply List.map_congr_left
    intro o _
    have := fill_scale hk eb cb b (t * ((1 - fee.value) / x)) o
    rw [show k * (t * ((1 - fee.value) / x)) = k * t * ((1 - fee.value) / x) by ring] at this
    simp only [Function.comp, this]
    rfl
  · rw [List.map_map, List.map_map]
    apply List.map_congr_left
    intro o _
    have := fill_scale hk es cs s t o
    simp only [Function.comp, this]
    rfl

/-- C94. The objective is in the units of the amounts. -/
theorem C94_objective {cfg : Config} {k x p : ℚ} {fee : Fee} {b s f : List Order} (hc : CfgOk cfg) (hk : 0 < k) (hf : fee.value < 1) (hx : 0 < x)
    (hp : 0 < p) (hb : ∀ o ∈ b ++ s ++ f, 0 < o.maxXrate) : ∃ v, computeObjectiveRational cfg b s f x p fee = .ok v ∧
      computeObjectiveRational cfg (b.map (scaleOrder k)) (s.map (scaleOrder k)) (f.map (scaleOrder k)) x p fee = .ok (k * v) := by
  refine ⟨_, C68_exact_objective hc hf hx hp hb, ?_⟩
  rw [C68_exact_objective hc hf hx hp (by
    intro o ho
    simp only [← List.map_append, List.mem_map] at ho
    obtain ⟨a, ha, rfl⟩ := ho
    exact hb a ha)]
  have e : ∀ (y q : ℚ) (l : List Order), ((l.map (scaleOrder k)).map (exactTerm y q fee)).sum = k * (l.map (exactTerm y q fee)).sum := by
    intro y q l
    rw [List.map_map, mul_comm, ← sum_map_mul_right']
    congr 1
    apply List.map_congr_left
    intro o _
    simp only [Function.comp, exactTerm, scaleOrder]
    have hmax := mul_max_of_nonneg 0 (q * (o.maxSell * (1 - fee.value) / y - o.maxSell / o.maxXrate)) hk.le
    rw [mul_zero] at hmax
    rw [show q * (k * o.maxSell * (1 - fee.value) / y - k * o.maxSell / o.maxXrate) =
      k * (q * (o.maxSell * (1 - fee.value) / y - o.maxSell / o.maxXrate)) by ring, ← hmax]
    ring
  have e2 : ((s.map (scaleOrder k)).map (fun o => o.buy / x / (1 - fee.value))).sum = k * (s.map (fun o => o.buy / x / (1 - fee.value))).sum := by
    rw [List.map_map, mul_comm, ← sum_map_mul_right']
    congr 1
    apply List.map_congr_left
    intro o _
    simp only [Function.comp, scaleOrder]
    ring
  have e3 : ((b.map (scaleOrder k)).map (·.buy)).sum = k * (b.map (·.buy)).sum := by
    rw [List.map_map, mul_comm, ← sum_map_mul_right']
    congr 1
    apply List.map_congr_left
    intro o _
    simp only [Function.comp, scaleOrder]
    ring
  unfold exactObjective
  rw [e, e, e, e2, e3]
  refine congrArg Except.ok ?_
  ring

/-- Non-vacuity: a book in units of a tenth, in which the order limit binds. -/
example : let cfg' : Config := { Config.default with minRationalTradable := 10 * Config.default.minRationalTradable }
    ExecInput Config.default 1 Ex.fee 3 Ex.bs Ex.ss ∧ (cfg'.minRationalTradable : ℚ) = 10 * Config.default.minRationalTradable ∧
    ∃ r, computeBuyAmounts cfg' 1 (Ex.bs.map (scaleOrder 10)) (Ex.ss.map (scaleOrder 10)) Ex.fee 3 = .ok r ∧
      ((r.1 ++ r.2).filter (fun o => decide (0 < o.buy))).length = 3 := by
  refine ⟨⟨by decide, by decide +kernel, by decide +kernel, by decide, by decide +kernel, by decide +kernel⟩, by decide +kernel, ?_⟩
  exact exists_of_pyCheck (by decide +kernel)

/-- The minimum tradable amount has to be scaled too: with the same one, a book in units of a tenth executes orders that the small book does not. -/
theorem C94_minimum_matters : ∃ (b s : List Order) (r r' : List Order × List Order),
    ExecInput Config.default 1 Ex.fee 30 b s ∧ computeBuyAmounts Config.default 1 b s Ex.fee 30 = .ok r ∧
    computeBuyAmounts Config.default 1 (b.map (scaleOrder 10)) (s.map (scaleOrder 10)) Ex.fee 30 = .ok r' ∧
    (∀ o ∈ r.1 ++ r.2, o.buy = 0) ∧ ∃ o ∈ r'.1, 0 < o.buy := by
  refine ⟨Ex.bs.map (scaleOrder (1 / 20)), Ex.ss.map (scaleOrder (1 / 20)), ?_⟩
  obtain ⟨r, h1, h2⟩ := exists_of_pyCheck (x := computeBuyAmounts Config.default 1 (Ex.bs.map (scaleOrder (1 / 20))) (Ex.ss.map (scaleOrder (1 / 20))) Ex.fee 30)
    (p := fun r : List Order × List Order => ∀ o ∈ r.1 ++ r.2, o.buy = 0) (by decide +kernel)
  obtain ⟨r', h3, h4⟩ := exists_of_pyCheck (x := computeBuyAmounts Config.default 1 ((Ex.bs.map (scaleOrder (1 / 20))).map (scaleOrder 10))
    ((Ex.ss.map (scaleOrder (1 / 20))).map (scaleOrder 10)) Ex.fee 30)
    (p := fun r : List Order × List Order => ∃ o ∈ r.1, 0 < o.buy) (by decide +kernel)
  exact ⟨r, r', ⟨by decide, by decide +kernel, by decide +kernel, by decide, by decide +kernel, by decide +kernel⟩, h1, h3, h2, h4⟩

/-! ### C95 -/

theorem fillAmount_mono_vol {elig : Order → Prop} [DecidablePred elig] {cap : Order → ℚ} (L : List Order) {t t' : ℚ} (h : t ≤ t') (o : Order) :
    fillAmount elig cap L t o ≤ fillAmount elig cap L t' o := by
  unfold fillAmount
  split
  · exact max_le_max le_rfl (min_le_min le_rfl (by linarith))
  · exact le_rfl

/-- C95. At a given rate, a larger limit on the number of executed orders gives no order less. -/
theorem C95_limit {cfg : Config} {x : ℚ} {fee : Fee} {n n' : ℤ} {b s b₁ s₁ b₂ s₂ : List Order} (h : ExecInput cfg x fee n b s) (hn : n ≤ n')
    (h₁ : computeBuyAmounts cfg x b s fee n = .ok (b₁, s₁)) (h₂ : computeBuyAmounts cfg x b s fee n' = .ok (b₂, s₂)) :
    List.Forall₂ (fun o o' => o' = o.withBuy o'.buy ∧ o.buy ≤ o'.buy) b₁ b₂ ∧ List.Forall₂ (fun o o' => o' = o.withBuy o'.buy ∧ o.buy ≤ o'.buy) s₁ s₂ := by
  have h' : ExecInput cfg x fee n' b s := ⟨h.minPos, h.ratePos, h.feeLt, h.limit.trans hn, h.idsB, h.idsS⟩
  obtain ⟨g1, _⟩ := C58_greatest_volume h h₁
  obtain ⟨_, g2⟩ := C58_greatest_volume h' h₂
  obtain ⟨t, _, ht, e1, e2⟩ := C11_closed_form h h₁
  obtain ⟨t', _, ht', e1', e2'⟩ := C11_closed_form h' h₂
  have hle : t ≤ t' := by
    rw [← ht, ← ht']
    exact g2 _ ⟨g1.nonneg, g1.fitB, g1.fitS, g1.count.trans hn, g1.minB, g1.minS⟩
  have hφ : 0 < 1 - fee.value := by have := h.feeLt; linarith
  rw [e1, e1', e2, e2']
  constructor <;> rw [List.forall₂_map_left_iff, List.forall₂_map_right_iff, List.forall₂_same]
  · exact fun o _ => ⟨rfl, fillAmount_mono_vol b (mul_le_mul_of_nonneg_right hle (div_nonneg hφ.le h.ratePos.le)) o⟩
  · exact fun o _ => ⟨rfl, fillAmount_mono_vol s hle o⟩

theorem exactTerm_mono {x p : ℚ} {fee : Fee} {o o' : Order} (hp : 0 < p) (hf : fee.value < 1) (hl : 0 < o.maxXrate)
    (he : o' = o.withBuy o'.buy) (h : o.buy ≤ o'.buy) (hr : o.buy < o'.buy → x ≤ o'.maxXrate * (1 - fee.value)) :
    exactTerm x p fee o ≤ exactTerm x p fee o' := by
  have hφ : 0 < 1 - fee.value := by linarith
  rw [he] at hr ⊢
  unfold exactTerm Order.withBuy
  unfold Order.withBuy at hr
  dsimp only at hr ⊢
  rcases h.eq_or_lt with h | h
  · rw [h]
  · have h1 := hr h
    have h2 : x / (1 - fee.value) / o.maxXrate ≤ 1 := by
      rw [div_div, div_le_one (mul_pos hφ hl)]; linarith
    have h3 : 0 ≤ (o'.buy - o.buy) * (1 - x / (1 - fee.value) / o.maxXrate) := mul_nonneg (by linarith) (by linarith)
    have h4 : o.buy - o.buy * x / (1 - fee.value) / o.maxXrate ≤ o'.buy - o'.buy * x / (1 - fee.value) / o.maxXrate := by
      have e : ∀ q : ℚ, q - q * x / (1 - fee.value) / o.maxXrate = q * (1 - x / (1 - fee.value) / o.maxXrate) := fun q => by ring
      rw [e, e]; linarith
    have := mul_le_mul_of_nonneg_left h4 hp.le
    linarith

theorem sum_le_of_forall₂ {f : Order → ℚ} {l l' : List Order} (h : List.Forall₂ (fun o o' => f o ≤ f o') l l') : (l.map f).sum ≤ (l'.map f).sum := by
  induction h with
  | nil => exact le_rfl
  | cons h _ ih => simp only [List.map_cons, List.sum_cons]; linarith

/-- C95. At a given rate and price, a larger limit on the number of executed orders does not lower the objective. -/
theorem C95_objective {cfg : Config} {x p : ℚ} {fee : Fee} {n n' : ℤ} {b s b₁ s₁ b₂ s₂ : List Order} (hc : CfgOk cfg) (h : ExecInput cfg x fee n b s)
    (hn : n ≤ n') (hp : 0 < p) (hf : 0 ≤ fee.value) (hl : ∀ o ∈ b ++ s, 0 < o.maxXrate)
    (h₁ : computeBuyAmounts cfg x b s fee n = .ok (b₁, s₁)) (h₂ : computeBuyAmounts cfg x b s fee n' = .ok (b₂, s₂)) :
    ∃ v v', computeObjectiveRational cfg b₁ s₁ [] x p fee = .ok v ∧ computeObjectiveRational cfg b₂ s₂ [] x p fee = .ok v' ∧ v ≤ v' := by
  have hx := h.ratePos
  have hφ : 0 < 1 - fee.value := by have := h.feeLt; linarith
  have h' : ExecInput cfg x fee n' b s := ⟨h.minPos, h.ratePos, h.feeLt, h.limit.trans hn, h.idsB, h.idsS⟩
  have pos : ∀ {m : ℤ} {b' s' : List Order}, ExecInput cfg x fee m b s → computeBuyAmounts cfg x b s fee m = .ok (b', s') →
      ∀ o ∈ b' ++ s' ++ [], 0 < o.maxXrate := by
    intro m b' s' hm hr o ho
    obtain ⟨t, _, _, e1, e2⟩ := C11_closed_form hm hr
    rw [List.append_nil, List.mem_append, e1, e2] at ho
    rcases ho with ho | ho <;> obtain ⟨a, ha, rfl⟩ := List.mem_map.1 ho <;> exact hl a (by simp [ha])
  have p1 := pos h h₁
  have p2 := pos h' h₂
  obtain ⟨mb, ms⟩ := C95_limit h hn h₁ h₂
  obtain ⟨l1, l2⟩ := C07_limit_rates h' h₂
  obtain ⟨q1, q2⟩ := C08_max_sell h h₁
  refine ⟨_, _, C68_exact_objective hc h.feeLt hx hp p1, C68_exact_objective hc h.feeLt hx hp p2, ?_⟩
  have tb : (b₁.map (exactTerm x p fee)).sum ≤ (b₂.map (exactTerm x p fee)).sum := by
    apply sum_le_of_forall₂
    refine (forall₂_and_mem mb).imp ?_
    rintro o o' ⟨⟨h1, h2⟩, ho, ho'⟩
    exact exactTerm_mono hp h.feeLt (p1 o (by simp [ho])) h1 h2 fun hlt => (l1 o' ho' (lt_of_le_of_lt (q1 o ho).1 hlt)).1
  have ts : (s₁.map (exactTerm (1 / x) (p / x) fee)).sum ≤ (s₂.map (exactTerm (1 / x) (p / x) fee)).sum := by
    apply sum_le_of_forall₂
    refine (forall₂_and_mem ms).imp ?_
    rintro o o' ⟨⟨h1, h2⟩, ho, ho'⟩
    exact exactTerm_mono (div_pos hp hx) h.feeLt (p1 o (by simp [ho])) h1 h2
      fun hlt => (l2 o' ho' (lt_of_le_of_lt (q2 o ho).1 hlt)).1
  have hs : (s₁.map (·.buy)).sum ≤ (s₂.map (·.buy)).sum := sum_le_of_forall₂ (ms.imp fun _ _ h => h.2)
  have ff : ∀ {b' s' : List Order}, (b'.map (·.buy)).sum * x = (s'.map (·.buy)).sum * (1 - fee.value) →
      (s'.map (fun o => o.buy / x / (1 - fee.value))).sum - (b'.map (·.buy)).sum =
        (s'.map (·.buy)).sum * ((1 / (1 - fee.value) - (1 - fee.value)) / x) := by
    intro b' s' hb
    have e : (s'.map (fun o => o.buy / x / (1 - fee.value))).sum = (s'.map (·.buy)).sum * (1 / x / (1 - fee.value)) := by
      rw [← sum_map_mul_right']
      congr 1
      apply List.map_congr_left; intro o _; ring
    have e2 : (b'.map (·.buy)).sum = (s'.map (·.buy)).sum * (1 - fee.value) / x := by rw [eq_div_iff hx.ne', hb]
    rw [e, e2]
    ring
  have hK : 0 ≤ (1 / (1 - fee.value) - (1 - fee.value)) / x := by
    apply div_nonneg _ hx.le
    have : 1 ≤ 1 / (1 - fee.value) := by rw [le_div_iff₀ hφ]; linarith
    linarith
  have hF : (0 : ℚ) < cfg.feeTokenPrice := by exact_mod_cast hc.feePrice
  unfold exactObjective
  rw [ff (C06_balanced h h₁).1, ff (C06_balanced h' h₂).1]
  have := mul_le_mul_of_nonneg_right hs hK
  have hfee : (s₁.map (·.buy)).sum * ((1 / (1 - fee.value) - (1 - fee.value)) / x) * p / cfg.feeTokenPrice / 2 ≤
      (s₂.map (·.buy)).sum * ((1 / (1 - fee.value) - (1 - fee.value)) / x) * p / cfg.feeTokenPrice / 2 := by gcongr
  simp only [List.map_nil, List.sum_nil]
  linarith

namespace ExLimit

def bOrder (sell buy : ℚ) : OrderDict := { accountID := "b", buyToken := "B", sellToken := "S", buyAmount := buy, sellAmount := sell }
def sOrder (sell buy : ℚ) : OrderDict := { accountID := "s", buyToken := "S", sellToken := "B", buyAmount := buy, sellAmount := sell }

def inst : Instance where
  accounts := [("b", [("S", 10 ^ 24)]), ("s", [("B", 10 ^ 24)]), ("f", [("F", 10 ^ 24)]), ("g", [("F", 10 ^ 24)])]
  fee := { token := "F", value := 1 / 1000 }
  orders := [sOrder (35 * 10 ^ 18 + 5005) (10 ^ 19), sOrder (3 * 10 ^ 19) (10 ^ 19), bOrder (1998 * 10 ^ 16) (10 ^ 19),
    bOrder (14985 * 10 ^ 15) (75 * 10 ^ 17), bOrder (10 ^ 19) (6 * 10 ^ 18), ExExtra.fOrder "f" (200 * 10 ^ 18) (10 ^ 18), ExExtra.tiny]

/-- The configuration with the given MAX_NR_EXEC_ORDERS. -/
def cfg (n : ℤ) : Config := { Config.default with maxNrExec := n }

end ExLimit

/-- C95. This does not carry over to the programs: an instance that is solved with at most four executed orders is not solved with at most five.
With four, the repair of a tiny amount leaves three orders on the pair, and the attempts start with two fee orders. With five, they start with one
fee order, the small one that pays the highest price; its attempt has the largest objective before rounding, and cannot be rounded. -/
theorem C95_run_not_monotone : let i := ExLimit.inst
    CfgOk (ExLimit.cfg 4) ∧ CfgOk (ExLimit.cfg 5) ∧ (∀ E, MaxBranching E (ExDouble.ext.branch E)) ∧ GoodInstance i ∧
    ∃ d d', tokenPairMain (ExLimit.cfg 4) ExDouble.ext i ("B", "S") (some 1) = .ok d ∧ tokenPairMain (ExLimit.cfg 5) ExDouble.ext i ("B", "S") (some 1) = .ok d' ∧
      0 < reportedObjective d ∧ d'.orders = [] ∧ d'.prices = [] := by
  intro i
  obtain ⟨d, h1, h2⟩ := exists_of_pyCheck (x := tokenPairMain (ExLimit.cfg 4) ExDouble.ext i ("B", "S") (some 1))
    (p := fun d => 0 < reportedObjective d) (by decide +kernel)
  obtain ⟨d', h3, h4⟩ := exists_of_pyCheck (x := tokenPairMain (ExLimit.cfg 5) ExDouble.ext i ("B", "S") (some 1))
    (p := fun d : Dump => d.orders = [] ∧ d.prices = []) (by decide +kernel)
  exact ⟨by constructor <;> decide, by constructor <;> decide, ExInst.branch_max, by constructor <;> decide +kernel, d, d', h1, h3, h2, h4⟩

/-- Non-vacuity: the limits 3 and 4 give different executions of one book. -/
example : ExecInput Config.default 1 Ex.fee 3 Ex.bs Ex.ss ∧ (∀ o ∈ Ex.bs ++ Ex.ss, 0 < o.maxXrate) ∧ ∃ r r',
    computeBuyAmounts Config.default 1 Ex.bs Ex.ss Ex.fee 3 = .ok r ∧ computeBuyAmounts Config.default 1 Ex.bs Ex.ss Ex.fee 4 = .ok r' ∧
      (r.2.map (·.buy)).sum < (r'.2.map (·.buy)).sum := by
  refine ⟨⟨by decide, by decide +kernel, by decide +kernel, by decide, by decide +kernel, by decide +kernel⟩, by decide +kernel, ?_⟩
  obtain ⟨r, h1, h2⟩ := exists_of_pyCheck (x := computeBuyAmounts Config.default 1 Ex.bs Ex.ss Ex.fee 3)
    (p := fun r : List Order × List Order => (r.2.map (·.buy)).sum < 119000) (by decide +kernel)
  obtain ⟨r', h3, h4⟩ := exists_of_pyCheck (x := computeBuyAmounts Config.default 1 Ex.bs Ex.ss Ex.fee 4)
    (p := fun r : List Order × List Order => 119000 < (r.2.map (·.buy)).sum) (by decide +kernel)
  exact ⟨r, r', h1, h3, h2.trans h4⟩

end Dex
