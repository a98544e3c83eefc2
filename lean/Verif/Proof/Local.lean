import Verif.Props.Roots

/-! # Lemmas for C53: the limit-rate search stops at a local maximum; the value of a fill pattern -/

namespace Dex

open Spec

/-! ### Binary search -/

/-- `f` does not decrease from the entry before `i` to entry `i` (does not increase, for `Down`). -/
def Up (f : ℚ → Py ℚ) (xs : List ℚ) (i : ℕ) : Prop :=
  ∀ (h : i < xs.length) (a b : ℚ), f xs[i] = .ok a → f (xs[i - 1]'(by omega)) = .ok b → b ≤ a
def Down (f : ℚ → Py ℚ) (xs : List ℚ) (i : ℕ) : Prop :=
  ∀ (h : i < xs.length) (a b : ℚ), f xs[i] = .ok a → f (xs[i - 1]'(by omega)) = .ok b → a ≤ b

theorem binSearchLoop_peak {f : ℚ → Py ℚ} {xs : List ℚ} : ∀ (fuel l r : ℕ) {c : ℤ}, 1 ≤ l → l < r → r < xs.length →
    Up f xs l → Down f xs r → binSearchLoop f xs fuel (l : ℤ) (r : ℤ) = .ok c →
    ∃ m : ℕ, c = m ∧ 1 ≤ m ∧ m + 1 < xs.length ∧ Up f xs m ∧ Down f xs (m + 1) := by
  intro fuel
  induction fuel with
  | zero => intro l r c _ _ _ _ _ h; cases h
  | succ fuel ih =>
    intro l r c h1 h2 h3 hu hd h
    have hc : ((l : ℤ) + (r : ℤ)) / 2 = (((l + r) / 2 : ℕ) : ℤ) := by push_cast; rfl
    unfold binSearchLoop at h
    simp only [hc] at h
    generalize hcd : (l + r) / 2 = k at *
    by_cases hstop : (l : ℤ) ≠ (k : ℤ) ∧ (r : ℤ) ≠ (k : ℤ)
    · rw [if_pos hstop] at h
      have hlc : l < k := by omega
      have hcr : k < r := by omega
      have el : (l : ℤ) - 1 = ((l - 1 : ℕ) : ℤ) := by omega
      have er : (r : ℤ) - 1 = ((r - 1 : ℕ) : ℤ) := by omega
      have ec : (k : ℤ) - 1 = ((k - 1 : ℕ) : ℤ) := by omega
      simp only [bind_assoc, pure_bind, el, er, ec, pyGet_at (by omega : l < xs.length), pyGet_at (by omega : l - 1 < xs.length),
        pyGet_at h3, pyGet_at (by omega : r - 1 < xs.length), pyGet_at (by omega : k < xs.length),
        pyGet_at (by omega : k - 1 < xs.length), ok_bind] at h
      simp only [bind_eq_ok] at h
      obtain ⟨a1, e1, a2, e2, a3, e3, a4, e4, a5, e5, a6, e6, h⟩ := h
      split at h
      · rename_i hpos
        rw [bind_eq_ok] at h
        obtain ⟨_, hass, h⟩ := h
        have hass' := pyAssert_eq_ok.1 hass
        refine ih k r (by omega) hcr h3 ?_ hd h
        intro hk a b ea eb
        rw [e5] at ea; cases ea
        rw [e6] at eb; cases eb
        have := (pos_iff_pos_of_mul_pos hpos).1 hass'
        linarith
      · simp only [bind_eq_ok] at h
        obtain ⟨_, _, _, hass, h⟩ := h
        have hass' := pyAssert_eq_ok.1 hass
        refine ih l k h1 hlc (by omega) hu ?_ h
        intro hk a b ea eb
        rw [e5] at ea; cases ea
        rw [e6] at eb; cases eb
        linarith
    · rw [if_neg hstop] at h
      cases h
      have hkl : k = l := by omega
      have hr : r = l + 1 := by omega
      subst hkl; subst hr
      exact ⟨k, rfl, h1, h3, hu, hd⟩

/-- Nothing in `xs` lies strictly between `x` and `y`. -/
def Adjacent (xs : List ℚ) (x y : ℚ) : Prop := ∀ z ∈ xs, ¬ (x < z ∧ z < y) ∧ ¬ (y < z ∧ z < x)

theorem adjacent_index {xs : List ℚ} (hs : xs.Pairwise (· < ·)) {i j : ℕ} (hi : i < xs.length) (hj : j < xs.length)
    (h : Adjacent xs xs[i] xs[j]) : j = i ∨ j = i + 1 ∨ i = j + 1 := by
  have lt : ∀ {a b : ℕ} (ha : a < xs.length) (hb : b < xs.length), a < b → xs[a] < xs[b] :=
    fun ha hb hab => List.pairwise_iff_getElem.1 hs _ _ ha hb hab
  by_contra hc
  rcases Nat.lt_or_ge i j with hij | hij
  · exact (h (xs[i + 1]'(by omega)) (List.getElem_mem _)).1 ⟨lt hi (by omega) (by omega), lt (by omega) hj (by omega)⟩
  · exact (h (xs[j + 1]'(by omega)) (List.getElem_mem _)).2 ⟨lt hj (by omega) (by omega), lt (by omega) hi (by omega)⟩

theorem binSearch_neighbours {f : ℚ → Py ℚ} {xs : List ℚ} (hs : xs.Pairwise (· < ·)) {x v : ℚ}
    (h : binSearch f xs = .ok (x, v)) {y w : ℚ} (hy : y ∈ xs) (hadj : Adjacent xs x y) (hw : f y = .ok w) : w ≤ v := by
  obtain ⟨hx, hv⟩ := binSearch_mem h
  simp only at hx hv
  obtain ⟨j, hj, rfl⟩ := List.getElem_of_mem hy
  have eqidx : ∀ {i : ℕ} (hi : i < xs.length), x = xs[i] → j = i ∨ j = i + 1 ∨ i = j + 1 := by
    intro i hi he
    rw [he] at hadj
    exact adjacent_index hs hi hj hadj
  unfold binSearch at h
  split at h
  · rw [bind_eq_ok] at h
    obtain ⟨xos, h1, h2⟩ := h
    have hm := (pyMaxBy_spec h2).2
    obtain ⟨q, hq, eq⟩ := (mapE_ok_mem h1).1 _ hy
    rw [hw, ok_bind] at eq; cases eq
    exact hm _ hq
  · rename_i hn
    have hn' : 2 < xs.length := by omega
    have g0 : pyGet xs 0 = .ok xs[0] := pyGet_at (k := 0) (by omega)
    have g1 : pyGet xs 1 = .ok xs[1] := pyGet_at (k := 1) (by omega)
    have l0 : pyGet xs (-1) = .ok (xs[xs.length - 1]'(by omega)) := pyGet_neg (k := 1) (by omega) (by omega)
    have l1 : pyGet xs (-2) = .ok (xs[xs.length - 2]'(by omega)) := pyGet_neg (k := 2) (by omega) (by omega)
    rw [g0, ok_bind, g1, ok_bind] at h
    simp only [bind_eq_ok] at h
    obtain ⟨f0, e0, f1, e1, h⟩ := h
    split at h
    · rename_i hgt
      cases h
      rcases eqidx (by omega) rfl with rfl | rfl | hc
      · rw [e0] at hw; cases hw; exact le_rfl
      · simp only [Nat.zero_add] at hw
        rw [e1] at hw; cases hw; exact hgt.le
      · omega
    · rename_i hle
      simp only [l0, l1, ok_bind, bind_eq_ok] at h
      obtain ⟨g0', k0, g1', k1, h⟩ := h
      split at h
      · rename_i hgt
        cases h
        rcases eqidx (by omega) rfl with rfl | rfl | hc
        · rw [k0] at hw; cases hw; exact le_rfl
        · omega
        · have : j = xs.length - 2 := by omega
          subst this
          rw [k1] at hw; cases hw; exact hgt.le
      · rename_i hle2
        simp only [bind_eq_ok] at h
        obtain ⟨c, hc, x', hx', o, ho, h⟩ := h
        cases h
        have hr : ((xs.length : ℤ) - 1) = ((xs.length - 1 : ℕ) : ℤ) := by omega
        rw [hr] at hc
        have up1 : Up f xs 1 := by
          intro _ a b ea eb
          rw [e1] at ea; cases ea
          simp only [Nat.sub_self] at eb
          rw [e0] at eb; cases eb
          exact not_lt.1 hle
        have dn : Down f xs (xs.length - 1) := by
          intro _ a b ea eb
          rw [k0] at ea; cases ea
          have : xs.length - 1 - 1 = xs.length - 2 := by omega
          simp only [this] at eb
          rw [k1] at eb; cases eb
          exact not_lt.1 hle2
        obtain ⟨m, rfl, m1, m2, m3, m4⟩ := binSearchLoop_peak (xs.length + 1) 1 (xs.length - 1) (le_refl _) (by omega) (by omega)
          up1 dn (by rw [Nat.cast_one]; exact hc)
        rw [pyGet_at (by omega : m < xs.length)] at hx'
        cases hx'
        rcases eqidx (by omega) rfl with rfl | rfl | hc
        · rw [hv] at hw; cases hw; exact le_rfl
        · exact m4 m2 _ _ hw (by simpa using hv)
        · subst hc
          exact m3 (by omega) _ _ hv (by simpa using hw)

/-! ### Upper bound: what the solver executes at a rate is worth at most the fill pattern -/

theorem side_bound (h A : Order → ℚ) {U F : List Order} {p : Order} {T : ℚ} (hU : ∀ o ∈ U, h o ≤ h p) (hF : ∀ o ∈ F, h p ≤ h o)
    (hp : 0 ≤ h p) (hA : ∀ o ∈ U ++ p :: F, 0 ≤ A o ∧ A o ≤ o.maxSell) (hT : ((U ++ p :: F).map A).sum ≤ T) :
    ((U ++ p :: F).map (fun o => (2 * A o - o.maxSell) * h o)).sum ≤
      ((fillFrom (U ++ p :: F) U.length (T - totSell F)).map (fun q => (2 * q.2 - q.1.maxSell) * h q.1)).sum := by
  have h1 : (U.map (fun o => (2 * A o - o.maxSell) * h o)).sum ≤
      ((U.map (fun o => (o, (0 : ℚ)))).map (fun q => (2 * q.2 - q.1.maxSell) * h q.1)).sum + 2 * h p * (U.map A).sum := by
    clear hT
    induction U with
    | nil => simp
    | cons o U ih =>
      have ih' := ih (fun a ha => hU a (by simp [ha])) (fun a ha => hA a (by
        simp only [List.cons_append, List.mem_cons]; exact .inr ha))
      have ho := hU o (by simp)
      have hao := (hA o (by simp)).1
      simp only [List.map_cons, List.sum_cons]
      nlinarith [mul_le_mul_of_nonneg_left ho hao]
  have h2 : (F.map (fun o => (2 * A o - o.maxSell) * h o)).sum ≤
      ((fillAll F).map (fun q => (2 * q.2 - q.1.maxSell) * h q.1)).sum + 2 * h p * ((F.map A).sum - totSell F) := by
    have hA' : ∀ o ∈ F, 0 ≤ A o ∧ A o ≤ o.maxSell := fun a ha => hA a (by simp [ha])
    clear hT hA
    unfold fillAll
    induction F with
    | nil => simp [totSell]
    | cons o F ih =>
      have ih' := ih (fun a ha => hF a (by simp [ha])) (fun a ha => hA' a (by simp [ha]))
      have ho := hF o (by simp)
      have hao := (hA' o (by simp)).2
      simp only [List.map_cons, List.sum_cons, totSell_cons]
      nlinarith [mul_le_mul_of_nonneg_left ho (sub_nonneg.2 hao)]
  rw [fillFrom_split]
  simp only [List.map_append, List.sum_append, List.map_cons, List.sum_cons] at hT ⊢
  nlinarith [mul_le_mul_of_nonneg_left hT hp]

theorem side_full (h A : Order → ℚ) {S : List Order} (hh : ∀ o ∈ S, 0 ≤ h o) (hA : ∀ o ∈ S, A o ≤ o.maxSell) :
    (S.map (fun o => (2 * A o - o.maxSell) * h o)).sum ≤
      ((fillAll S).map (fun q => (2 * q.2 - q.1.maxSell) * h q.1)).sum := by
  unfold fillAll
  rw [List.map_map]
  apply List.sum_le_sum
  intro o ho
  simp only [Function.comp]
  nlinarith [mul_le_mul_of_nonneg_right (hA o ho) (hh o ho)]

/-- What the solver executes at `x`, as sold amounts. -/
theorem executed_amounts {cfg : Config} {fee : Fee} {B S : List Order} {x val : ℚ}
    (h : ExecInput cfg x fee cfg.maxNrExec B S) (hfp : 0 < cfg.feeTokenPrice)
    (hB : ∀ o ∈ B, okB (1 - fee.value) x o) (hS : ∀ o ∈ S, okS (1 - fee.value) x o)
    (hv : solverObjective cfg fee B S x = .ok val) :
    ∃ A C : Order → ℚ, (∀ o ∈ B, 0 ≤ A o ∧ A o ≤ o.maxSell) ∧ (∀ o ∈ S, 0 ≤ C o ∧ C o ≤ o.maxSell) ∧
      (B.map A).sum = (S.map C).sum * x * (1 - fee.value) ∧
      val = (B.map (fun o => (2 * A o - o.maxSell) * ((1 - fee.value) / x - 1 / o.maxXrate))).sum +
        (S.map (fun o => (2 * C o - o.maxSell) * ((1 - fee.value) - 1 / (x * o.maxXrate)))).sum +
        (S.map C).sum * (1 - (1 - fee.value) ^ 2) / cfg.feeTokenPrice / 2 := by
  have hφ : 0 < 1 - fee.value := by have := h.feeLt; linarith
  have hx := h.ratePos
  have hx' := hx.ne'
  have hφ' := hφ.ne'
  obtain ⟨b', s', h1, h2⟩ := solverObjective_iff.1 hv
  obtain ⟨t, ht0, hts, eB, eS⟩ := C11_closed_form h h1
  have hbal := (C06_balanced h h1).1
  set vB := fillAmount (EligibleB cfg x fee) (maxBuyB x fee) B (t * ((1 - fee.value) / x)) with hvB
  set vS := fillAmount (EligibleS cfg x fee) (maxBuyS x fee) S t with hvS
  have fill_le : ∀ {elig : Order → Prop} [DecidablePred elig] {cap : Order → ℚ} {l : List Order} {t : ℚ} {o : Order}, 0 ≤ cap o →
      0 ≤ fillAmount elig cap l t o ∧ fillAmount elig cap l t o ≤ cap o := by
    intro elig _ cap l t o hc
    unfold fillAmount
    split
    · exact ⟨le_max_left _ _, max_le hc (min_le_left _ _)⟩
    · exact ⟨le_rfl, hc⟩
  have cB : ∀ o ∈ B, 0 ≤ vB o * x / (1 - fee.value) ∧ vB o * x / (1 - fee.value) ≤ o.maxSell := by
    intro o ho
    have h0 := (hB o ho).2.1
    obtain ⟨k1, k2⟩ := fill_le (elig := EligibleB cfg x fee) (l := B) (t := t * ((1 - fee.value) / x))
      (show 0 ≤ maxBuyB x fee o by unfold maxBuyB; positivity)
    refine ⟨by rw [hvB]; positivity, ?_⟩
    rw [div_le_iff₀ hφ]
    have := mul_le_mul_of_nonneg_right k2 hx.le
    unfold maxBuyB at this
    calc vB o * x ≤ o.maxSell / x * (1 - fee.value) * x := this
      _ = o.maxSell * (1 - fee.value) := by field_simp
  have cS : ∀ o ∈ S, 0 ≤ vS o / x / (1 - fee.value) ∧ vS o / x / (1 - fee.value) ≤ o.maxSell := by
    intro o ho
    have h0 := (hS o ho).2.1
    obtain ⟨k1, k2⟩ := fill_le (elig := EligibleS cfg x fee) (l := S) (t := t)
      (show 0 ≤ maxBuyS x fee o by unfold maxBuyS; positivity)
    refine ⟨by rw [hvS]; positivity, ?_⟩
    rw [div_le_iff₀ hφ, div_le_iff₀ hx]
    have k3 : vS o ≤ o.maxSell * x * (1 - fee.value) := k2
    linarith
  refine ⟨fun o => vB o * x / (1 - fee.value), fun o => vS o / x / (1 - fee.value), cB, cS, ?_⟩
  have sumA : (B.map (fun o => vB o * x / (1 - fee.value))).sum = (b'.map (·.buy)).sum * x / (1 - fee.value) := by
    rw [eB, List.map_map, mul_div_assoc, ← sum_map_mul_right']
    congr 1; apply List.map_congr_left; intro o _; simp only [Function.comp, withBuy_buy]; ring
  have sumC : (S.map (fun o => vS o / x / (1 - fee.value))).sum = (s'.map (·.buy)).sum / x / (1 - fee.value) := by
    rw [eS, List.map_map, div_div, div_eq_mul_inv, ← sum_map_mul_right']
    congr 1; apply List.map_congr_left; intro o _; simp only [Function.comp, withBuy_buy]; rw [div_div, div_eq_mul_inv]
  have hbalA : (B.map (fun o => vB o * x / (1 - fee.value))).sum =
      (S.map (fun o => vS o / x / (1 - fee.value))).sum * x * (1 - fee.value) := by
    rw [sumA, sumC, hbal]; field_simp
  refine ⟨hbalA, ?_⟩
  have e1 : b' = (B.map (fun o => (o, vB o * x / (1 - fee.value)))).map (fun p => p.1.withBuy (p.2 * (1 - fee.value) / x)) := by
    rw [eB, List.map_map]; apply List.map_congr_left; intro o _
    simp only [Function.comp]; congr 1; field_simp
  have e2 : s' = (S.map (fun o => (o, vS o / x / (1 - fee.value)))).map (fun p => p.1.withBuy (p.2 * x * (1 - fee.value))) := by
    rw [eS, List.map_map]; apply List.map_congr_left; intro o _
    simp only [Function.comp]; congr 1; field_simp
  rw [e1, e2, computeObjectiveRational_pairs hfp hx h.feeLt
    (by intro p hp; obtain ⟨o, ho, rfl⟩ := List.mem_map.1 hp; exact (hB o ho).1)
    (by intro p hp; obtain ⟨o, ho, rfl⟩ := List.mem_map.1 hp; exact (hS o ho).1)] at h2
  cases h2
  unfold objPairs
  simp only [List.map_map]
  congr 1
  · congr 1
    · congr 1; apply List.map_congr_left; intro o ho; simp only [Function.comp]; rw [termB_eq hx (hB o ho)]
    · congr 1; apply List.map_congr_left; intro o ho; simp only [Function.comp]; rw [termS_eq hx (hS o ho)]
  · have i1 : ((fun p : Order × ℚ => p.2) ∘ fun o => (o, vB o * x / (1 - fee.value))) = fun o => vB o * x / (1 - fee.value) := rfl
    have i2 : ((fun p : Order × ℚ => p.2) ∘ fun o => (o, vS o / x / (1 - fee.value))) = fun o => vS o / x / (1 - fee.value) := rfl
    rw [i1, i2, hbalA]
    have hfp' : (cfg.feeTokenPrice : ℚ) ≠ 0 := by exact_mod_cast hfp.ne'
    field_simp

theorem hB_mono {f x : ℚ} {a b : Order} (ha : 0 < a.maxXrate) (h : a.maxXrate ≤ b.maxXrate) :
    f / x - 1 / a.maxXrate ≤ f / x - 1 / b.maxXrate := by
  have := one_div_le_one_div_of_le ha h; linarith

theorem hS_mono {f x : ℚ} (hx : 0 < x) {a b : Order} (ha : 0 < a.maxXrate) (h : a.maxXrate ≤ b.maxXrate) :
    f - 1 / (x * a.maxXrate) ≤ f - 1 / (x * b.maxXrate) := by
  have := one_div_le_one_div_of_le (mul_pos hx ha) (mul_le_mul_of_nonneg_left h hx.le); linarith

theorem sum_termB_eq {f x : ℚ} (hx : 0 < x) {L : List (Order × ℚ)} (h : ∀ p ∈ L, okB f x p.1) :
    (L.map (termB f x)).sum = (L.map (fun p => (2 * p.2 - p.1.maxSell) * (f / x - 1 / p.1.maxXrate))).sum := by
  congr 1; apply List.map_congr_left; intro p hp; exact termB_eq hx (h p hp)

theorem sum_termS_eq {f x : ℚ} (hx : 0 < x) {L : List (Order × ℚ)} (h : ∀ p ∈ L, okS f x p.1) :
    (L.map (termS f x)).sum = (L.map (fun p => (2 * p.2 - p.1.maxSell) * (f - 1 / (x * p.1.maxXrate)))).sum := by
  congr 1; apply List.map_congr_left; intro p hp; exact termS_eq hx (h p hp)

theorem fee_term_mono {cfg : Config} {fee : Fee} (hfp : 0 < cfg.feeTokenPrice) (h0 : 0 ≤ fee.value) (h1 : fee.value < 1) {a b : ℚ}
    (h : a ≤ b) : a * (1 - (1 - fee.value) ^ 2) / cfg.feeTokenPrice / 2 ≤ b * (1 - (1 - fee.value) ^ 2) / cfg.feeTokenPrice / 2 := by
  have hfp' : (0 : ℚ) < cfg.feeTokenPrice := by exact_mod_cast hfp
  have : 0 ≤ 1 - (1 - fee.value) ^ 2 := by nlinarith
  have := mul_le_mul_of_nonneg_right h this
  have := div_le_div_of_nonneg_right this hfp'.le
  linarith

/-- The s-side can be filled. -/
theorem upper4 {cfg : Config} {fee : Fee} {U F S : List Order} {p : Order} {x val : ℚ}
    (h : ExecInput cfg x fee cfg.maxNrExec (U ++ p :: F) S) (hfp : 0 < cfg.feeTokenPrice) (h0 : 0 ≤ fee.value)
    (hB : ∀ o ∈ U ++ p :: F, okB (1 - fee.value) x o) (hS : ∀ o ∈ S, okS (1 - fee.value) x o)
    (hsort : (U ++ p :: F).Pairwise (fun a b => a.maxXrate ≤ b.maxXrate))
    (hv : solverObjective cfg fee (U ++ p :: F) S x = .ok val) :
    val ≤ objPairs cfg (1 - fee.value) x
      (fillFrom (U ++ p :: F) U.length (totSell S * x * (1 - fee.value) - totSell F)) (fillAll S) := by
  have hφ : 0 < 1 - fee.value := by have := h.feeLt; linarith
  have hx := h.ratePos
  obtain ⟨A, C, hA, hC, hbal, rfl⟩ := executed_amounts h hfp hB hS hv
  have hCsum : (S.map C).sum ≤ totSell S := List.sum_le_sum (fun o ho => (hC o ho).2)
  have hAT : ((U ++ p :: F).map A).sum ≤ totSell S * x * (1 - fee.value) := by
    rw [hbal]; exact mul_le_mul_of_nonneg_right (mul_le_mul_of_nonneg_right hCsum hx.le) hφ.le
  obtain ⟨_, s2, s3⟩ := List.pairwise_append.1 hsort
  have b1 := side_bound (fun o => (1 - fee.value) / x - 1 / o.maxXrate) A (U := U) (F := F) (p := p)
    (fun o ho => hB_mono (hB o (by simp [ho])).1 (s3 o ho p (by simp)))
    (fun o ho => hB_mono (hB p (by simp)).1 ((List.pairwise_cons.1 s2).1 o ho))
    (hB_nonneg hx (hB p (by simp))) hA hAT
  have b2 := side_full (fun o => (1 - fee.value) - 1 / (x * o.maxXrate)) C (fun o ho => hS_nonneg hx (hS o ho)) (fun o ho => (hC o ho).2)
  have b3 := fee_term_mono hfp h0 h.feeLt hCsum
  unfold objPairs
  rw [sum_termB_eq hx (fun q hq => hB _ (mem_fillFrom hq)), sum_termS_eq hx (fun q hq => hS _ (mem_fillAll hq)), fillFrom_snd,
    fillAll_snd]
  have e : (totSell S - (totSell S * x * (1 - fee.value) - totSell F + totSell F) * (1 - fee.value) / x) =
      totSell S * (1 - (1 - fee.value) ^ 2) := by
    have := hx.ne'
    field_simp; ring
  rw [e]
  linarith

/-- The b-side can be filled. -/
theorem upper3 {cfg : Config} {fee : Fee} {U F B : List Order} {p : Order} {x val : ℚ}
    (h : ExecInput cfg x fee cfg.maxNrExec B (U ++ p :: F)) (hfp : 0 < cfg.feeTokenPrice) (h0 : 0 ≤ fee.value)
    (hB : ∀ o ∈ B, okB (1 - fee.value) x o) (hS : ∀ o ∈ U ++ p :: F, okS (1 - fee.value) x o)
    (hsort : (U ++ p :: F).Pairwise (fun a b => a.maxXrate ≤ b.maxXrate))
    (hv : solverObjective cfg fee B (U ++ p :: F) x = .ok val) :
    val ≤ objPairs cfg (1 - fee.value) x (fillAll B)
      (fillFrom (U ++ p :: F) U.length (totSell B / (x * (1 - fee.value)) - totSell F)) := by
  have hφ : 0 < 1 - fee.value := by have := h.feeLt; linarith
  have hx := h.ratePos
  obtain ⟨A, C, hA, hC, hbal, rfl⟩ := executed_amounts h hfp hB hS hv
  have hAsum : (B.map A).sum ≤ totSell B := List.sum_le_sum (fun o ho => (hA o ho).2)
  have hCT : ((U ++ p :: F).map C).sum ≤ totSell B / (x * (1 - fee.value)) := by
    rw [le_div_iff₀ (by positivity), ← mul_assoc, ← hbal]; exact hAsum
  obtain ⟨_, s2, s3⟩ := List.pairwise_append.1 hsort
  have b1 := side_bound (fun o => (1 - fee.value) - 1 / (x * o.maxXrate)) C (U := U) (F := F) (p := p)
    (fun o ho => hS_mono hx (hS o (by simp [ho])).1 (s3 o ho p (by simp)))
    (fun o ho => hS_mono hx (hS p (by simp)).1 ((List.pairwise_cons.1 s2).1 o ho))
    (hS_nonneg hx (hS p (by simp))) hC hCT
  have b2 := side_full (fun o => (1 - fee.value) / x - 1 / o.maxXrate) A (fun o ho => hB_nonneg hx (hB o ho)) (fun o ho => (hA o ho).2)
  have b3 := fee_term_mono hfp h0 h.feeLt hCT
  unfold objPairs
  rw [sum_termB_eq hx (fun q hq => hB _ (mem_fillAll hq)), sum_termS_eq hx (fun q hq => hS _ (mem_fillFrom hq)), fillFrom_snd,
    fillAll_snd]
  have e : (totSell B / (x * (1 - fee.value)) - totSell F + totSell F - totSell B * (1 - fee.value) / x) =
      totSell B / (x * (1 - fee.value)) * (1 - (1 - fee.value) ^ 2) := by
    have := hx.ne'; have := hφ.ne'
    field_simp; ring
  rw [e]
  linarith

/-! ### Lower bound: the solver's value at a rate is at least that of the fill pattern -/

namespace Spec

/-- At rate `x` nothing but the orders' own limits restricts the execution: every order accepting the rate can trade the
minimum amount, and neither the order-count limit nor the minimum-tradable repair binds. -/
structure NonBinding (cfg : Config) (fee : Fee) (b s : List Order) (x : ℚ) : Prop where
  eligB : ∀ o ∈ b, AcceptsB fee x o → EligibleB cfg x fee o
  eligS : ∀ o ∈ s, AcceptsS fee x o → EligibleS cfg x fee o
  room : ∃ u, Unconstrained cfg x fee cfg.maxNrExec b s u

end Spec

/-- The lists `B`, `S` of an interval between two neighbouring limit rates, relative to the book. -/
structure Region (fee : Fee) (b s B S : List Order) (lb ub : ℚ) : Prop where
  lbPos : 0 < lb
  lt : lb < ub
  exB : ∃ R, b.Perm (B ++ R) ∧ ∀ o ∈ R, o.maxXrate * (1 - fee.value) ≤ lb
  exS : ∃ R, s.Perm (S ++ R) ∧ ∀ o ∈ R, ub ≤ 1 / (o.maxXrate * (1 - fee.value))
  inB : ∀ o ∈ B, ub ≤ o.maxXrate * (1 - fee.value)
  inS : ∀ o ∈ S, 1 / (o.maxXrate * (1 - fee.value)) ≤ lb
  sortB : B.Pairwise (fun a b => a.maxXrate ≤ b.maxXrate)
  sortS : S.Pairwise (fun a b => a.maxXrate ≤ b.maxXrate)

theorem amounts_by_id {L : List (Order × ℚ)} (h : (L.map (fun p => p.1.id)).Nodup) :
    ∃ q : String → ℚ, (∀ p ∈ L, q p.1.id = p.2) ∧ ∀ i, i ∉ L.map (fun p => p.1.id) → q i = 0 := by
  induction L with
  | nil => exact ⟨fun _ => 0, by simp, by simp⟩
  | cons a L ih =>
    rw [List.map_cons, List.nodup_cons] at h
    obtain ⟨q, q1, q2⟩ := ih h.2
    refine ⟨fun i => if i = a.1.id then a.2 else q i, ?_, ?_⟩
    · intro p hp
      rcases List.mem_cons.1 hp with rfl | hp
      · simp
      · have hne : p.1.id ≠ a.1.id := fun he => h.1 (he ▸ List.mem_map.2 ⟨p, hp, rfl⟩)
        simp only [hne, if_false]; exact q1 p hp
    · intro i hi
      rw [List.map_cons, List.mem_cons, not_or] at hi
      simp only [hi.1, if_false]; exact q2 i hi.2

/-- Sums over the book are sums over the pattern. -/
theorem book_sum {l B R : List Order} {L : List (Order × ℚ)} (hperm : l.Perm (B ++ R)) (hL : L.map (·.1) = B) {q : String → ℚ}
    (hq : ∀ p ∈ L, q p.1.id = p.2) (hR : ∀ o ∈ R, q o.id = 0) (g : Order × ℚ → ℚ) (hg : ∀ o ∈ R, g (o, 0) = 0) :
    ((l.map (fun o => (o, q o.id))).map g).sum = (L.map g).sum := by
  rw [((hperm.map (fun o => (o, q o.id))).map g).sum_eq, List.map_append, List.map_append, List.sum_append]
  have e1 : B.map (fun o => (o, q o.id)) = L := by
    rw [← hL, List.map_map]
    conv_rhs => rw [← List.map_id L]
    apply List.map_congr_left
    intro p hp
    simp only [Function.comp, hq p hp, id]
  have e2 : ((R.map (fun o => (o, q o.id))).map g).sum = 0 := by
    apply List.sum_eq_zero
    intro y hy
    rw [List.map_map] at hy
    obtain ⟨o, ho, rfl⟩ := List.mem_map.1 hy
    simp only [Function.comp, hR o ho]; exact hg o ho
  rw [e1, e2, add_zero]

theorem lower {cfg : Config} {fee : Fee} {b s B S : List Order} {lb ub y v : ℚ} {LB LS : List (Order × ℚ)}
    (h : SearchInput cfg fee b s) (h0 : 0 ≤ fee.value) (hR : Region fee b s B S lb ub) (hl : lb ≤ y) (hu : y ≤ ub)
    (hn : NonBinding cfg fee b s y) (eB : LB.map (·.1) = B) (eS : LS.map (·.1) = S)
    (qB : ∀ p ∈ LB, 0 ≤ p.2 ∧ p.2 ≤ p.1.maxSell) (qS : ∀ p ∈ LS, 0 ≤ p.2 ∧ p.2 ≤ p.1.maxSell)
    (hbal : (LB.map (·.2)).sum = (LS.map (·.2)).sum * y * (1 - fee.value))
    (hv : solverObjective cfg fee b s y = .ok v) : objPairs cfg (1 - fee.value) y LB LS ≤ v := by
  have hφ : 0 < 1 - fee.value := by have := h.feeLt; linarith
  have hy : 0 < y := hR.lbPos.trans_le hl
  have hy' := hy.ne'
  have hφ' := hφ.ne'
  obtain ⟨RB, pB, rB⟩ := hR.exB
  obtain ⟨RS, pS, rS⟩ := hR.exS
  have nodB : ((B ++ RB).map (·.id)).Nodup := (pB.map _).nodup_iff.1 h.idsB
  have nodS : ((S ++ RS).map (·.id)).Nodup := (pS.map _).nodup_iff.1 h.idsS
  rw [List.map_append] at nodB nodS
  have idB : LB.map (fun p => p.1.id) = B.map (·.id) := by rw [← eB, List.map_map]; rfl
  have idS : LS.map (fun p => p.1.id) = S.map (·.id) := by rw [← eS, List.map_map]; rfl
  obtain ⟨q, q1, q2⟩ := amounts_by_id (L := LB) (by rw [idB]; exact (List.nodup_append.1 nodB).1)
  obtain ⟨r, r1, r2⟩ := amounts_by_id (L := LS) (by rw [idS]; exact (List.nodup_append.1 nodS).1)
  have qz : ∀ o ∈ RB, q o.id = 0 := fun o ho => q2 _ (by
    rw [idB]; intro hc
    exact (List.nodup_append.1 nodB).2.2 _ hc _ (List.mem_map.2 ⟨o, ho, rfl⟩) rfl)
  have rz : ∀ o ∈ RS, r o.id = 0 := fun o ho => r2 _ (by
    rw [idS]; intro hc
    exact (List.nodup_append.1 nodS).2.2 _ hc _ (List.mem_map.2 ⟨o, ho, rfl⟩) rfl)
  have cases_ : ∀ {l B R : List Order} {L : List (Order × ℚ)}, l.Perm (B ++ R) → L.map (·.1) = B → ∀ o ∈ l,
      (∃ p ∈ L, p.1 = o) ∨ o ∈ R := by
    intro l B R L hp he o ho
    rcases List.mem_append.1 (hp.mem_iff.1 ho) with hm | hm
    · rw [← he] at hm
      obtain ⟨p, hp, e⟩ := List.mem_map.1 hm
      exact .inl ⟨p, hp, e⟩
    · exact .inr hm
  have memB : ∀ p ∈ LB, p.1 ∈ b ∧ p.1 ∈ B := fun p hp => by
    have : p.1 ∈ B := by rw [← eB]; exact List.mem_map.2 ⟨p, hp, rfl⟩
    exact ⟨pB.mem_iff.2 (List.mem_append_left _ this), this⟩
  have memS : ∀ p ∈ LS, p.1 ∈ s ∧ p.1 ∈ S := fun p hp => by
    have : p.1 ∈ S := by rw [← eS]; exact List.mem_map.2 ⟨p, hp, rfl⟩
    exact ⟨pS.mem_iff.2 (List.mem_append_left _ this), this⟩
  have accB : ∀ o ∈ B, AcceptsB fee y o := fun o ho => hu.trans (hR.inB o ho)
  have accS : ∀ o ∈ S, o ∈ s → AcceptsS fee y o := fun o ho hos => by
    have h1 := (hR.inS o ho).trans hl
    unfold AcceptsS
    rw [div_le_iff₀ (mul_pos (h.ordS o hos).1 hφ)] at h1
    rw [div_le_iff₀ hy]; linarith
  have sumb := book_sum pB eB q1 qz (fun p => p.2) (fun _ _ => rfl)
  have sums := book_sum pS eS r1 rz (fun p => p.2) (fun _ _ => rfl)
  rw [List.map_map] at sumb sums
  have hass : Assignment cfg y fee b s (fun i => q i * (1 - fee.value) / y) (fun i => r i * y * (1 - fee.value)) := by
    refine ⟨?_, ?_, ?_, ?_, ?_, ?_, ?_⟩
    · intro o ho
      rcases cases_ pB eB o ho with ⟨p, hp, rfl⟩ | hm
      · have := (qB p hp).1; rw [← q1 p hp] at this; positivity
      · simp [qz o hm]
    · intro o ho
      rcases cases_ pS eS o ho with ⟨p, hp, rfl⟩ | hm
      · have := (qS p hp).1; rw [← r1 p hp] at this; positivity
      · simp [rz o hm]
    · intro o ho hne
      rcases cases_ pB eB o ho with ⟨p, hp, rfl⟩ | hm
      · exact absurd (hn.eligB _ ho (accB _ (memB p hp).2)) hne
      · simp [qz o hm]
    · intro o ho hne
      rcases cases_ pS eS o ho with ⟨p, hp, rfl⟩ | hm
      · exact absurd (hn.eligS _ ho (accS _ (memS p hp).2 ho)) hne
      · simp [rz o hm]
    · intro o ho _
      have e : q o.id * (1 - fee.value) / y * y / (1 - fee.value) = q o.id := by field_simp
      rw [e]
      rcases cases_ pB eB o ho with ⟨p, hp, rfl⟩ | hm
      · rw [q1 p hp]; exact (qB p hp).2
      · rw [qz o hm]; exact (h.ordB o ho).2
    · intro o ho _
      have e : r o.id * y * (1 - fee.value) / y / (1 - fee.value) = r o.id := by field_simp
      rw [e]
      rcases cases_ pS eS o ho with ⟨p, hp, rfl⟩ | hm
      · rw [r1 p hp]; exact (qS p hp).2
      · rw [rz o hm]; exact (h.ordS o ho).2
    · have a1 : (b.map (fun o => q o.id * (1 - fee.value) / y)).sum = (LB.map (·.2)).sum * ((1 - fee.value) / y) := by
        rw [← sumb, ← sum_map_mul_right']
        congr 1; apply List.map_congr_left; intro o _; simp only [Function.comp]; ring
      have a2 : (s.map (fun o => r o.id * y * (1 - fee.value))).sum = (LS.map (·.2)).sum * (y * (1 - fee.value)) := by
        rw [← sums, ← sum_map_mul_right']
        congr 1; apply List.map_congr_left; intro o _; simp only [Function.comp]; ring
      rw [a1, a2, hbal]; field_simp
  obtain ⟨b', s', hc, ho⟩ := solverObjective_iff.1 hv
  obtain ⟨u, hu'⟩ := hn.room
  have hex := h.exec hy
  have hfull := C12_one_side_filled hex hu' hc
  obtain ⟨ours, theirs, o1, o2, o3⟩ := C12_optimal (p := 1) hex h0 one_pos h.feePrice (fun o ho => (h.ordB o ho).1)
    (fun o ho => (h.ordS o ho).1) hc hfull _ _ hass
  rw [ho] at o1; cases o1
  have e1 : b.map (fun o => o.withBuy (q o.id * (1 - fee.value) / y)) =
      (b.map (fun o => (o, q o.id))).map (fun p => p.1.withBuy (p.2 * (1 - fee.value) / y)) := by rw [List.map_map]; rfl
  have e2 : s.map (fun o => o.withBuy (r o.id * y * (1 - fee.value))) =
      (s.map (fun o => (o, r o.id))).map (fun p => p.1.withBuy (p.2 * y * (1 - fee.value))) := by rw [List.map_map]; rfl
  rw [e1, e2, computeObjectiveRational_pairs h.feePrice hy h.feeLt
    (by intro p hp; obtain ⟨o, ho, rfl⟩ := List.mem_map.1 hp; exact (h.ordB o ho).1)
    (by intro p hp; obtain ⟨o, ho, rfl⟩ := List.mem_map.1 hp; exact (h.ordS o ho).1)] at o2
  cases o2
  have zB : ∀ o ∈ RB, termB (1 - fee.value) y (o, 0) = 0 := by
    intro o ho
    have hob := h.ordB o (pB.mem_iff.2 (List.mem_append_right _ ho))
    have : (1 - fee.value) / y - 1 / o.maxXrate ≤ 0 := by
      rw [sub_nonpos, div_le_div_iff₀ hy hob.1]
      have := (rB o ho).trans hl; linarith
    unfold termB
    rw [max_eq_left (mul_nonpos_of_nonneg_of_nonpos hob.2 this)]; simp
  have zS : ∀ o ∈ RS, termS (1 - fee.value) y (o, 0) = 0 := by
    intro o ho
    have hos := h.ordS o (pS.mem_iff.2 (List.mem_append_right _ ho))
    have : (1 - fee.value) - 1 / (y * o.maxXrate) ≤ 0 := by
      rw [sub_nonpos, le_div_iff₀ (mul_pos hy hos.1)]
      have h1 := hu.trans (rS o ho)
      rw [le_div_iff₀ (mul_pos hos.1 hφ)] at h1
      linarith
    unfold termS
    rw [max_eq_left (mul_nonpos_of_nonneg_of_nonpos hos.2 this)]; simp
  have t1 := book_sum pB eB q1 qz (termB (1 - fee.value) y) zB
  have t2 := book_sum pS eS r1 rz (termS (1 - fee.value) y) zS
  unfold objPairs at o3 ⊢
  rw [t1, t2, List.map_map, List.map_map, sumb, sums] at o3
  exact o3

/-! ### The region of an interval -/

theorem YieldOk.sorted {b s : List Order} {fee : Fee} (hf : fee.value < 1) (hs : ∀ o ∈ s, 0 < o.maxXrate) {d : IntervalData}
    (h : YieldOk (variants b s fee) d) : d.b.Pairwise (fun a b => a.maxXrate ≤ b.maxXrate) ∧
      d.s.Pairwise (fun a b => a.maxXrate ≤ b.maxXrate) := by
  have hφ : 0 < 1 - fee.value := by linarith
  obtain ⟨pre, v, w, post, hall, _, _, eb, es⟩ := h.split
  have hsort : (variants b s fee).Pairwise (fun a b => b.xrate ≤ a.xrate) := pySortByRev_pairwise _ _
  have hmem : ∀ u ∈ pre ++ v :: w :: post, u ∈ variants b s fee := fun u hu => by rw [hall]; exact hu
  rw [hall] at hsort
  constructor
  · rw [eb, List.pairwise_reverse, List.pairwise_map]
    have sub : ((pre ++ [v]).filter (·.isB)).Sublist (pre ++ v :: w :: post) :=
      List.filter_sublist.trans (by simp)
    refine (hsort.sublist sub).imp_of_mem fun {a c} ha hc hac => ?_
    have ka := List.mem_filter.1 ha
    have kc := List.mem_filter.1 hc
    rcases mem_variants (hmem a (sub.subset ha)) with ⟨_, _, e1⟩ | ⟨_, e1, _⟩
    · rcases mem_variants (hmem c (sub.subset hc)) with ⟨_, _, e2⟩ | ⟨_, e2, _⟩
      · rw [e1, e2] at hac; exact le_of_mul_le_mul_right hac hφ
      · rw [e2] at kc; cases kc.2
    · rw [e1] at ka; cases ka.2
  · rw [es, List.pairwise_map]
    have sub : ((w :: post).filter (fun v => !v.isB)).Sublist (pre ++ v :: w :: post) :=
      List.filter_sublist.trans ((List.sublist_cons_self v _).trans (List.sublist_append_right _ _))
    refine (hsort.sublist sub).imp_of_mem fun {a c} ha hc hac => ?_
    have ka := List.mem_filter.1 ha
    have kc := List.mem_filter.1 hc
    rcases mem_variants (hmem a (sub.subset ha)) with ⟨_, e1, _⟩ | ⟨ma, _, e1⟩
    · rw [e1] at ka; cases ka.2
    · rcases mem_variants (hmem c (sub.subset hc)) with ⟨_, e2, _⟩ | ⟨mc, _, e2⟩
      · rw [e2] at kc; cases kc.2
      · rw [e1, e2] at hac
        have := (one_div_le_one_div (mul_pos (hs _ mc) hφ) (mul_pos (hs _ ma) hφ)).1 hac
        exact le_of_mul_le_mul_right this hφ

theorem acceptsS_iff {fee : Fee} (hf : fee.value < 1) {x : ℚ} (hx : 0 < x) {o : Order} (ho : 0 < o.maxXrate) :
    AcceptsS fee x o ↔ 1 / (o.maxXrate * (1 - fee.value)) ≤ x := by
  have hφ : 0 < 1 - fee.value := by linarith
  unfold AcceptsS
  rw [div_le_iff₀ hx, div_le_iff₀ (mul_pos ho hφ), mul_comm]

theorem perm_filter_append {α : Type} (p : α → Bool) (l : List α) : l.Perm (l.filter p ++ l.filter (fun a => !p a)) :=
  (List.filter_append_perm p l).symm

theorem region_of {cfg : Config} {fee : Fee} {b s b' s' : List Order} (h : SearchInput cfg fee b s)
    (hp : pruneUnrealizable b s fee = .ok (b', s')) (hne : b' ≠ []) {opt : Option ℚ} {ivs : List IntervalData}
    (hi : xrateIntervals b' s' fee opt = .ok ivs) {d : IntervalData} (hd : d ∈ ivs) (hlt : d.lb < d.ub) :
    Region fee b s d.b d.s d.lb d.ub := by
  have hφ : 0 < 1 - fee.value := by have := h.feeLt; linarith
  have hbne : b ≠ [] := by
    rintro rfl; rw [C14_empty_side (.inl rfl)] at hp; cases hp
  have hsne : s ≠ [] := by
    rintro rfl; rw [C14_empty_side (.inr rfl)] at hp; cases hp
  have hpi := h.prune hbne hsne
  have hpi' := hpi.pruned hp hne
  obtain ⟨b1, s1, e1, sb, ss, mb, ms⟩ := C14_exact hpi
  rw [hp] at e1; cases e1
  obtain ⟨ivs', e2, hs2⟩ := C15_sound opt (⟨hpi'.feeLt, hpi'.neB, hpi'.neS, hpi'.posB, hpi'.posS⟩ : IntervalInput fee b' s')
  rw [hi] at e2; cases e2
  obtain ⟨p1, p2, p3, p4, _, _, p5⟩ := hs2 d hd
  obtain ⟨ivs'', e3, hy⟩ := xrateIntervals_spec (opt := opt) hpi'.feeLt hpi'.neB hpi'.neS hpi'.posB hpi'.posS
  rw [hi] at e3; cases e3
  have hsorted := (hy d hd).sorted hpi'.feeLt hpi'.posS
  -- membership in the interval's lists
  have posS : ∀ o ∈ s, 0 < o.maxXrate := fun o ho => (h.ordS o ho).1
  have inb : ∀ x, d.lb < x → x < d.ub → ∀ o, o ∈ d.b ↔ o ∈ b ∧ AcceptsB fee x o := by
    intro x h1 h2 o
    obtain ⟨q1, q2⟩ := p5 x h1 h2
    have hx : 0 < x := p1.trans h1
    rw [q1.mem_iff, List.mem_filter, decide_eq_true_eq]
    constructor
    · rintro ⟨k1, k2⟩; exact ⟨sb.subset k1, k2⟩
    · rintro ⟨k1, k2⟩
      obtain ⟨c, hc⟩ := List.exists_mem_of_ne_nil _ p4
      obtain ⟨hc1, hc2⟩ := List.mem_filter.1 (q2.mem_iff.1 hc)
      exact ⟨(mb o).2 ⟨k1, c, ss.subset hc1, x, hx, k2, of_decide_eq_true hc2⟩, k2⟩
  have ins : ∀ x, d.lb < x → x < d.ub → ∀ o, o ∈ d.s ↔ o ∈ s ∧ AcceptsS fee x o := by
    intro x h1 h2 o
    obtain ⟨q1, q2⟩ := p5 x h1 h2
    have hx : 0 < x := p1.trans h1
    rw [q2.mem_iff, List.mem_filter, decide_eq_true_eq]
    constructor
    · rintro ⟨k1, k2⟩; exact ⟨ss.subset k1, k2⟩
    · rintro ⟨k1, k2⟩
      obtain ⟨c, hc⟩ := List.exists_mem_of_ne_nil _ p3
      obtain ⟨hc1, hc2⟩ := List.mem_filter.1 (q1.mem_iff.1 hc)
      exact ⟨(ms o).2 ⟨k1, c, sb.subset hc1, x, hx, of_decide_eq_true hc2, k2⟩, k2⟩
  obtain ⟨m, m1, m2⟩ := exists_between hlt
  obtain ⟨q1, q2⟩ := p5 m m1 m2
  have ndb : b.Nodup := List.Nodup.of_map _ h.idsB
  have nds : s.Nodup := List.Nodup.of_map _ h.idsS
  have pb : (b.filter (fun o => decide (AcceptsB fee m o))).Perm d.b := by
    rw [List.perm_ext_iff_of_nodup (ndb.filter _) (q1.nodup_iff.2 ((sb.nodup ndb).filter _))]
    intro o
    rw [inb m m1 m2, List.mem_filter, decide_eq_true_eq]
  have ps : (s.filter (fun o => decide (AcceptsS fee m o))).Perm d.s := by
    rw [List.perm_ext_iff_of_nodup (nds.filter _) (q2.nodup_iff.2 ((ss.nodup nds).filter _))]
    intro o
    rw [ins m m1 m2, List.mem_filter, decide_eq_true_eq]
  refine ⟨p1, hlt, ⟨b.filter (fun o => !decide (AcceptsB fee m o)), ?_, ?_⟩, ⟨s.filter (fun o => !decide (AcceptsS fee m o)), ?_, ?_⟩,
    ?_, ?_, hsorted.1, hsorted.2⟩
  · exact (perm_filter_append _ b).trans (pb.append_right _)
  · intro o ho
    obtain ⟨ho1, ho2⟩ := List.mem_filter.1 ho
    by_contra hc
    have hc' := not_le.1 hc
    have hz1 : d.lb < min (o.maxXrate * (1 - fee.value)) m := lt_min hc' m1
    have hz2 : min (o.maxXrate * (1 - fee.value)) m < d.ub := (min_le_right _ _).trans_lt m2
    have := (inb _ hz1 hz2 o).2 ⟨ho1, min_le_left _ _⟩
    have := ((inb m m1 m2 o).1 this).2
    simp [this] at ho2
  · exact (perm_filter_append _ s).trans (ps.append_right _)
  · intro o ho
    obtain ⟨ho1, ho2⟩ := List.mem_filter.1 ho
    by_contra hc
    have hc' := not_le.1 hc
    have hz1 : d.lb < max (1 / (o.maxXrate * (1 - fee.value))) m := m1.trans_le (le_max_right _ _)
    have hz2 : max (1 / (o.maxXrate * (1 - fee.value))) m < d.ub := max_lt hc' m2
    have := (ins _ hz1 hz2 o).2 ⟨ho1, (acceptsS_iff h.feeLt (p1.trans hz1) (posS o ho1)).2 (le_max_left _ _)⟩
    have := ((ins m m1 m2 o).1 this).2
    simp [this] at ho2
  · intro o ho
    by_contra hc
    have hc' := not_le.1 hc
    obtain ⟨z, z1, z2⟩ := exists_between (max_lt hc' hlt)
    have := ((inb z ((le_max_right _ _).trans_lt z1) z2 o).1 ho).2
    exact absurd this (not_le.2 ((le_max_left _ _).trans_lt z1))
  · intro o ho
    by_contra hc
    have hc' := not_le.1 hc
    obtain ⟨z, z1, z2⟩ := exists_between (lt_min hc' hlt)
    have hos := ((ins m m1 m2 o).1 ho).1
    have := ((ins z z1 (z2.trans_le (min_le_right _ _)) o).1 ho).2
    rw [acceptsS_iff h.feeLt (p1.trans z1) (posS o hos)] at this
    exact absurd this (not_le.2 (z2.trans_le (min_le_left _ _)))

end Dex
