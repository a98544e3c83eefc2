import Verif.Proof.Local

/-! # Within an interval some candidate rate is at least as good as any rate -/

namespace Dex

open Spec

/-- `math.sqrt` is accurate to a relative error of `δ` in the square. -/
def Spec.SqrtAccurate (δ : ℚ) (sqrt : ℚ → Py ℚ) : Prop :=
  ∀ t r, 0 < t → sqrt t = .ok r → 0 < r ∧ |r ^ 2 - t| ≤ δ * t

/-- The same for the arguments that occur for the given orders: not less than half the limit of a b_order times the smallest rate that an
s_order accepts. -/
def Spec.RootsAccurate (δ : ℚ) (sqrt : ℚ → Py ℚ) (fee : Fee) (b s : List Order) : Prop :=
  ∀ t r, 0 < t → (∃ o ∈ b, ∃ c ∈ s, o.maxXrate / (2 * (1 - fee.value) * c.maxXrate) ≤ t) → sqrt t = .ok r → 0 < r ∧ |r ^ 2 - t| ≤ δ * t

theorem Spec.SqrtAccurate.roots {δ : ℚ} {sqrt : ℚ → Py ℚ} (h : SqrtAccurate δ sqrt) (fee : Fee) (b s : List Order) :
    RootsAccurate δ sqrt fee b s := fun t r ht _ hr => h t r ht hr

theorem totDiv_lower {S : List Order} {a : ℚ} (h : ∀ o ∈ S, 0 < o.maxXrate ∧ 0 < o.maxSell ∧ a < 1 / o.maxXrate) (hne : S ≠ []) :
    a * totSell S < totDiv S := by
  have key : ∀ S : List Order, (∀ o ∈ S, 0 < o.maxXrate ∧ 0 < o.maxSell ∧ a < 1 / o.maxXrate) → a * totSell S ≤ totDiv S := by
    intro S
    induction S with
    | nil => intro _; simp [totSell, totDiv]
    | cons o S ih =>
      intro h
      have h1 := ih (fun o ho => h o (by simp [ho]))
      obtain ⟨p1, p2, p3⟩ := h o (by simp)
      have : a * o.maxSell ≤ o.maxSell / o.maxXrate := by
        rw [div_eq_mul_one_div, mul_comm]; exact mul_le_mul_of_nonneg_left p3.le p2.le
      simp only [totSell, totDiv, List.map_cons, List.sum_cons, mul_add] at h1 ⊢
      linarith
  obtain ⟨o, S, rfl⟩ := List.exists_cons_of_ne_nil hne
  have h1 := key S (fun o ho => h o (by simp [ho]))
  obtain ⟨p1, p2, p3⟩ := h o (by simp)
  have : a * o.maxSell < o.maxSell / o.maxXrate := by
    rw [div_eq_mul_one_div, mul_comm]; exact mul_lt_mul_of_pos_left p3 p2
  simp only [totSell, totDiv, List.map_cons, List.sum_cons, mul_add] at h1 ⊢
  linarith

theorem localOptima_ok {cfg : Config} {sqrt : ℚ → Py ℚ} {fee : Fee} {d : IntervalData} {cands : List ℚ}
    (h : localOptima cfg sqrt fee d = .ok cands) : ∃ c r3 r4 r5, computeConstants d fee = .ok c ∧ root3 cfg c = .ok r3 ∧
      root4 sqrt c = .ok r4 ∧ root5 c = .ok r5 ∧
      ∀ y, d.lb < y → y < d.ub → (y = r3 ∨ r4 = some y ∨ y = r5) → y ∈ cands := by
  unfold localOptima at h
  simp only [bind_eq_ok] at h
  obtain ⟨c, hc, r3, h3, r4, h4, r5, h5, h⟩ := h
  refine ⟨c, r3, r4, r5, hc, h3, h4, h5, ?_⟩
  intro y h1 h2 hy
  cases h
  rw [mem_sortDistinct, List.mem_filter]
  refine ⟨?_, by simpa using ⟨h1, h2⟩⟩
  rw [List.mem_filterMap]
  rcases hy with rfl | rfl | rfl
  · exact ⟨some y, by simp, rfl⟩
  · exact ⟨some y, by simp, rfl⟩
  · exact ⟨some y, by simp, rfl⟩

theorem slack4 {δ K M r x T Y : ℚ} (hδ : δ ≤ 1 / 2) (hK : 0 < K) (hM : 0 < M) (hr : 0 < r) (hx : 0 < x)
    (hT : 0 ≤ T) (hY : 0 ≤ Y) (hs : |r ^ 2 - K / M| ≤ δ * (K / M)) (h1 : K ≤ (T / x + Y) * x) (h2 : M * x ≤ 2 * Y) :
    (K - M * r ^ 2) ^ 2 ≤ δ ^ 2 * (T / x + 4 * Y) * (r * (K + M * r ^ 2)) := by
  have e1 : |K - M * r ^ 2| ≤ δ * K := by
    have : K - M * r ^ 2 = -(M * (r ^ 2 - K / M)) := by field_simp; ring
    rw [this, abs_neg, abs_mul, abs_of_pos hM]
    have := mul_le_mul_of_nonneg_left hs hM.le
    have e : M * (δ * (K / M)) = δ * K := by field_simp
    rwa [e] at this
  have e2 : (K - M * r ^ 2) ^ 2 ≤ (δ * K) ^ 2 := by
    rw [← sq_abs]; exact pow_le_pow_left₀ (abs_nonneg _) e1 2
  have hTx : 0 ≤ T / x := div_nonneg hT hx.le
  have e3 : K ≤ (T / x + 4 * Y) * r := by
    rcases le_total x r with hxr | hxr
    · calc K ≤ (T / x + Y) * x := h1
        _ ≤ (T / x + 4 * Y) * r := mul_le_mul (by linarith) hxr hx.le (by linarith)
    · have h3 := (abs_le.1 e1).2
      have h4 : K ≤ 2 * (M * r ^ 2) := by nlinarith
      have h5 : M * r ^ 2 ≤ M * x * r := by nlinarith [mul_le_mul_of_nonneg_left hxr (mul_pos hM hr).le]
      have h6 : M * x * r ≤ 2 * Y * r := mul_le_mul_of_nonneg_right h2 hr.le
      have h7 : 0 ≤ T / x * r := mul_nonneg hTx hr.le
      nlinarith
  have e4 : K ≤ K + M * r ^ 2 := by nlinarith [sq_nonneg r]
  have e5 : K * K ≤ (T / x + 4 * Y) * r * (K + M * r ^ 2) := mul_le_mul e3 e4 hK.le (by positivity)
  calc (K - M * r ^ 2) ^ 2 ≤ (δ * K) ^ 2 := e2
    _ = δ ^ 2 * (K * K) := by ring
    _ ≤ δ ^ 2 * ((T / x + 4 * Y) * r * (K + M * r ^ 2)) := mul_le_mul_of_nonneg_left e5 (sq_nonneg _)
    _ = _ := by ring

theorem totDiv_le {f x : ℚ} (hx : 0 < x) {l : List Order} (h : ∀ o ∈ l, okS f x o) : totDiv l ≤ f * totSell l * x := by
  induction l with
  | nil => simp [totDiv, totSell]
  | cons o l ih =>
    have ih' := ih (fun a ha => h a (by simp [ha]))
    obtain ⟨h1, h2, h3⟩ := h o (by simp)
    rw [totDiv_cons, totSell_cons]
    have : o.maxSell / o.maxXrate ≤ f * o.maxSell * x := by
      rw [div_le_iff₀ h1]
      rw [div_le_iff₀ hx] at h3
      nlinarith
    linarith

theorem fillFrom_fst (U F : List Order) (p : Order) (q : ℚ) : (fillFrom (U ++ p :: F) U.length q).map (·.1) = U ++ p :: F := by
  rw [fillFrom_split]
  unfold fillAll
  simp [Function.comp_def]

theorem fillAll_fst (l : List Order) : (fillAll l).map (·.1) = l := by
  unfold fillAll; simp [Function.comp_def]

theorem fillFrom_range {U F : List Order} {p : Order} {q : ℚ} (h : ∀ o ∈ U ++ p :: F, 0 ≤ o.maxSell) (h1 : 0 ≤ q) (h2 : q ≤ p.maxSell) :
    ∀ a ∈ fillFrom (U ++ p :: F) U.length q, 0 ≤ a.2 ∧ a.2 ≤ a.1.maxSell := by
  intro a ha
  rw [fillFrom_split] at ha
  rcases List.mem_append.1 ha with ha | ha
  · obtain ⟨o, ho, rfl⟩ := List.mem_map.1 ha
    exact ⟨le_rfl, h o (by simp [ho])⟩
  · rcases List.mem_cons.1 ha with rfl | ha
    · exact ⟨h1, h2⟩
    · obtain ⟨o, ho, rfl⟩ := List.mem_map.1 ha
      exact ⟨h o (by simp [ho]), le_rfl⟩

theorem fillAll_range {l : List Order} (h : ∀ o ∈ l, 0 ≤ o.maxSell) : ∀ a ∈ fillAll l, 0 ≤ a.2 ∧ a.2 ≤ a.1.maxSell := by
  intro a ha
  obtain ⟨o, ho, rfl⟩ := List.mem_map.1 ha
  exact ⟨h o ho, le_rfl⟩

/-- Candidate rates of the intervals. -/
def Cand (cfg : Config) (sqrt : ℚ → Py ℚ) (fee : Fee) (ivs : List IntervalData) (y : ℚ) : Prop :=
  ∃ d ∈ ivs, ∃ cands, localOptima cfg sqrt fee d = .ok cands ∧ y ∈ cands

/-- Facts about the lists of a region. -/
structure Sides (cfg : Config) (fee : Fee) (b s B S : List Order) (lb ub : ℚ) : Prop where
  input : SearchInput cfg fee b s
  fee0 : 0 ≤ fee.value
  region : Region fee b s B S lb ub
  neB : B ≠ []
  neS : S ≠ []
  posB : ∀ o ∈ B, 0 < o.maxXrate ∧ 0 < o.maxSell
  posS : ∀ o ∈ S, 0 < o.maxXrate ∧ 0 < o.maxSell

variable {cfg : Config} {fee : Fee} {b s B S : List Order} {lb ub : ℚ}

theorem Sides.okB (h : Sides cfg fee b s B S lb ub) {y : ℚ} (hu : y ≤ ub) : ∀ o ∈ B, okB (1 - fee.value) y o :=
  fun o ho => ⟨(h.posB o ho).1, (h.posB o ho).2.le, hu.trans (h.region.inB o ho)⟩

theorem Sides.okS (h : Sides cfg fee b s B S lb ub) {y : ℚ} (hl : lb ≤ y) : ∀ o ∈ S, okS (1 - fee.value) y o :=
  fun o ho => ⟨(h.posS o ho).1, (h.posS o ho).2.le, (acceptsS_iff h.input.feeLt (h.region.lbPos.trans_le hl) (h.posS o ho).1).2
    ((h.region.inS o ho).trans hl)⟩

theorem Sides.totB_le (h : Sides cfg fee b s B S lb ub) : totSell B ≤ totSell b := by
  obtain ⟨R, p, _⟩ := h.region.exB
  have e : totSell b = totSell (B ++ R) := (p.map _).sum_eq
  have : 0 ≤ totSell R := sum_maxSell_nonneg (fun o ho => (h.input.ordB o (p.mem_iff.2 (by simp [ho]))).2)
  rw [e, totSell_append]; linarith

theorem Sides.totS_le (h : Sides cfg fee b s B S lb ub) : totSell S ≤ totSell s := by
  obtain ⟨R, p, _⟩ := h.region.exS
  have e : totSell s = totSell (S ++ R) := (p.map _).sum_eq
  have : 0 ≤ totSell R := sum_maxSell_nonneg (fun o ho => (h.input.ordS o (p.mem_iff.2 (by simp [ho]))).2)
  rw [e, totSell_append]; linarith

theorem core4 {sqrt : ℚ → Py ℚ} {ivs : List IntervalData} (h : Sides cfg fee b s B S lb ub)
    {δ : ℚ} (hδ : δ ≤ 1 / 2) (hsq : RootsAccurate δ sqrt fee b s)
    (hall : AllPatterns fee lb ub B S ivs) (hloc : ∀ d ∈ ivs, ∃ cands, localOptima cfg sqrt fee d = .ok cands)
    (hroom : ∀ y, y = lb ∨ y = ub ∨ Cand cfg sqrt fee ivs y → NonBinding cfg fee b s y ∧ ∃ w, solverObjective cfg fee b s y = .ok w)
    {x val : ℚ} (h1 : lb < x) (h2 : x < ub) (hex : ExecInput cfg x fee cfg.maxNrExec B S) (hv : solverObjective cfg fee B S x = .ok val)
    {k : ℕ} (hk : FillsTo B ((S.map (·.maxSell)).sum * x * (1 - fee.value)) k) :
    ∃ y w, (y = lb ∨ y = ub ∨ Cand cfg sqrt fee ivs y) ∧ solverObjective cfg fee b s y = .ok w ∧
      val ≤ w + δ ^ 2 * (totSell b / x + 4 * totSell s) := by
  have hφ : 0 < 1 - fee.value := by have := h.input.feeLt; linarith
  have hφ1 : 1 - fee.value ≤ 1 := by have := h.fee0; linarith
  have hl := h.region.lbPos
  have hx : 0 < x := hl.trans h1
  have hfp := h.input.feePrice
  have hd := (hall x h1 h2).1 k hk
  obtain ⟨U, p, F, rfl, rfl⟩ := split_at hk.1
  set f := 1 - fee.value with hf
  have hYp : 0 < totSell S := totSell_pos h.neS (fun o ho => (h.posS o ho).2)
  have hBp := totSell_pos h.neB (fun o ho => (h.posB o ho).2)
  have hD := totDiv_nonneg (fun o ho => ⟨(h.posS o ho).1, (h.posS o ho).2.le⟩)
  have hK : 0 < f * totSell (U ++ p :: F) + totDiv S := by positivity
  have hp := (h.posB p (by simp)).1
  have hM : 0 < 2 * f * totSell S / p.maxXrate := by positivity
  obtain ⟨cands, hc⟩ := hloc _ hd
  obtain ⟨c, r3, r4, r5, ec, e3, e4, e5, hin⟩ := localOptima_ok hc
  obtain ⟨q4, q5⟩ := roots4 h.input.feeLt (fun o ho => (h.posS o ho).1) hp h.neS hYp hK ec sqrt
  rw [q4, bind_eq_ok] at e4
  obtain ⟨r, er, e4⟩ := e4
  cases e4
  rw [q5] at e5; cases e5
  obtain ⟨hr, hacc⟩ := hsq _ _ (div_pos hK hM) (by
    obtain ⟨RB, pB, _⟩ := h.region.exB
    obtain ⟨RS, pS, _⟩ := h.region.exS
    by_contra hc
    push Not at hc
    have key := totDiv_lower (S := S) (a := (f * totSell (U ++ p :: F) + totDiv S) / totSell S) (fun c hcS => by
      have h1 := hc p (pB.mem_iff.2 (by simp)) c (pS.mem_iff.2 (by simp [hcS]))
      obtain ⟨c1, c2⟩ := h.posS c hcS
      refine ⟨c1, c2, ?_⟩
      rw [div_lt_div_iff₀ hM (by positivity), mul_div_assoc', lt_div_iff₀ hp] at h1
      rw [div_lt_div_iff₀ hYp c1]
      have h2 : 0 < 2 * f * p.maxXrate := by positivity
      refine lt_of_mul_lt_mul_left ?_ h2.le
      nlinarith) h.neS
    rw [div_mul_cancel₀ _ hYp.ne'] at key
    have : 0 < f * totSell (U ++ p :: F) := by positivity
    linarith) er
  have okx := h.okB h2.le
  have okxS := h.okS h1.le
  -- bounds of the pattern
  obtain ⟨_, k1, k2⟩ := hk
  rw [drop_split] at k1
  have k2' : totSell S * x * f ≤ p.maxSell + totSell F := by
    have : (U ++ p :: F).drop U.length = p :: F := by simp
    rw [this] at k2; rw [← totSell_cons]; exact k2
  have k1' : totSell F ≤ totSell S * x * f := k1
  have hslack := slack4 (x := x) (T := totSell b) (Y := totSell s) hδ hK hM hr hx
    (hBp.le.trans h.totB_le) (hYp.le.trans h.totS_le) hacc
    (by
      have e : (totSell b / x + totSell s) * x = totSell b + totSell s * x := by field_simp
      rw [e]
      have a1 := totDiv_le hx okxS
      have a2 : f * totSell (U ++ p :: F) ≤ 1 * totSell b := mul_le_mul hφ1 h.totB_le hBp.le (by norm_num)
      have a3 : f * totSell S ≤ 1 * totSell s := mul_le_mul hφ1 h.totS_le hYp.le (by norm_num)
      have a4 := mul_le_mul_of_nonneg_right a3 hx.le
      linarith)
    (by
      have a1 : x ≤ p.maxXrate * f := (okx p (by simp)).2.2
      rw [div_mul_eq_mul_div, div_le_iff₀ hp]
      have a2 : 2 * f * totSell S * x ≤ 2 * f * totSell S * (p.maxXrate * f) := mul_le_mul_of_nonneg_left a1 (by positivity)
      have a3 : totSell S * (f * f) ≤ totSell s * 1 := mul_le_mul h.totS_le (by nlinarith) (by positivity) (hYp.le.trans h.totS_le)
      have a4 := mul_le_mul_of_nonneg_right a3 hp.le
      nlinarith)
  have hTY : 0 ≤ totSell b / x + 4 * totSell s := by
    have := div_nonneg (hBp.le.trans h.totB_le) hx.le
    have := hYp.le.trans h.totS_le
    linarith
  have hup := upper4 hex hfp h.fee0 okx okxS h.region.sortB hv
  rw [← hf, pattern4_eq hfp hx okx okxS] at hup
  obtain ⟨y, y1, y2, y3, y4, hle, hy⟩ := move4 (c := totDiv U + p.maxSell / p.maxXrate - totDiv F + 2 * totSell F / p.maxXrate + 2 * f ^ 2 * totSell S +
      f * totSell S + totSell S * (1 - f ^ 2) / cfg.feeTokenPrice / 2)
    hK hM hl h1 h2
    (lo := totSell F / (f * totSell S)) (hi := (p.maxSell + totSell F) / (f * totSell S))
    (by rw [div_le_iff₀ (by positivity)]; linarith) (by rw [le_div_iff₀ (by positivity)]; linarith)
    hr (mul_nonneg (sq_nonneg δ) hTY) hslack
  have hy0 : 0 < y := hl.trans_le y1
  have hyc : y = lb ∨ y = ub ∨ Cand cfg sqrt fee ivs y := by
    rcases hy with hy | hy | ⟨g1, g2, hy⟩
    · exact .inl hy
    · exact .inr (.inl hy)
    · refine .inr (.inr ?_)
      rcases hy with hy | hy | hy
      · exact ⟨_, hd, cands, hc, hin y g1 g2 (.inr (.inl (by rw [hy])))⟩
      · -- the lower kink belongs to the next pattern
        have hFne : F ≠ [] := by
          rintro rfl
          have : y = 0 := by rw [hy]; simp [totSell]
          linarith
        obtain ⟨p2, F2, rfl⟩ := List.exists_cons_of_ne_nil hFne
        have heq : U ++ p :: p2 :: F2 = (U ++ [p]) ++ p2 :: F2 := by simp
        have hYy : totSell S * y * f = totSell (p2 :: F2) := by rw [hy]; field_simp
        have nn2 : 0 ≤ p2.maxSell := (h.posB p2 (by simp)).2.le
        have hfill : FillsTo (U ++ p :: p2 :: F2) ((S.map (·.maxSell)).sum * y * f) (U ++ [p]).length := by
          refine ⟨by simp, ?_, ?_⟩
          · rw [heq, drop_split]; change totSell F2 ≤ totSell S * y * f
            rw [hYy, totSell_cons]; linarith
          · rw [heq, List.drop_left']
            · change totSell S * y * f ≤ _; rw [hYy]; exact le_rfl
            · rfl
        have hd2 := (hall y g1 g2).1 _ hfill
        obtain ⟨cands2, hc2⟩ := hloc _ hd2
        obtain ⟨c2, _, _, r52, ec2, _, _, e52, hin2⟩ := localOptima_ok hc2
        rw [heq] at ec2 hK
        obtain ⟨_, q52⟩ := roots4 h.input.feeLt (fun o ho => (h.posS o ho).1) (h.posB p2 (by simp)).1 h.neS hYp hK ec2 sqrt
        rw [q52] at e52; cases e52
        refine ⟨_, hd2, cands2, hc2, hin2 y g1 g2 (.inr (.inr ?_))⟩
        rw [hy, totSell_cons]
      · exact ⟨_, hd, cands, hc, hin y g1 g2 (.inr (.inr hy))⟩
  obtain ⟨hnb, w, hw⟩ := hroom y hyc
  refine ⟨y, w, hyc, hw, ?_⟩
  have oky := h.okB y2
  have okyS := h.okS y1
  rw [div_le_iff₀ (by positivity)] at y3
  rw [le_div_iff₀ (by positivity)] at y4
  have hlow := lower h.input h.fee0 h.region y1 y2 hnb (fillFrom_fst U F p (totSell S * y * f - totSell F)) (fillAll_fst S)
    (fillFrom_range (fun o ho => (h.posB o ho).2.le) (by linarith) (by linarith))
    (fillAll_range (fun o ho => (h.posS o ho).2.le))
    (by rw [fillFrom_snd, fillAll_snd]; ring) hw
  rw [← hf, pattern4_eq hfp hy0 oky okyS] at hlow
  linarith

theorem core3 {sqrt : ℚ → Py ℚ} {ivs : List IntervalData} (h : Sides cfg fee b s B S lb ub)
    (hall : AllPatterns fee lb ub B S ivs) (hloc : ∀ d ∈ ivs, ∃ cands, localOptima cfg sqrt fee d = .ok cands)
    (hroom : ∀ y, y = lb ∨ y = ub ∨ Cand cfg sqrt fee ivs y → NonBinding cfg fee b s y ∧ ∃ w, solverObjective cfg fee b s y = .ok w)
    {x val : ℚ} (h1 : lb < x) (h2 : x < ub) (hex : ExecInput cfg x fee cfg.maxNrExec B S) (hv : solverObjective cfg fee B S x = .ok val)
    {k : ℕ} (hk : FillsTo S ((B.map (·.maxSell)).sum / (x * (1 - fee.value))) k) :
    ∃ y w, (y = lb ∨ y = ub ∨ Cand cfg sqrt fee ivs y) ∧ solverObjective cfg fee b s y = .ok w ∧ val ≤ w := by
  have hφ : 0 < 1 - fee.value := by have := h.input.feeLt; linarith
  have hl := h.region.lbPos
  have hx : 0 < x := hl.trans h1
  have hfp := h.input.feePrice
  have hd := (hall x h1 h2).2 k hk
  obtain ⟨U, p, F, rfl, rfl⟩ := split_at hk.1
  set f := 1 - fee.value with hf
  have hBp := totSell_pos h.neB (fun o ho => (h.posB o ho).2)
  have hp := (h.posS p (by simp)).1
  have hF : 0 ≤ totSell F := sum_maxSell_nonneg (fun o ho => (h.posS o (by simp [ho])).2.le)
  have hYp : 0 < p.maxSell + totSell F := by have := (h.posS p (by simp)).2; linarith
  obtain ⟨cands, hc⟩ := hloc _ hd
  obtain ⟨c, r3, r4, r5, ec, e3, e4, e5, hin⟩ := localOptima_ok hc
  obtain ⟨q3, q5⟩ := roots3 hfp h.input.feeLt (fun o ho => (h.posS o ho).1) h.neB hYp ec
  have hr := q3 _ e3
  rw [q5] at e5; cases e5
  have okx := h.okB h2.le
  have okxS := h.okS h1.le
  obtain ⟨_, k1, k2⟩ := hk
  rw [drop_split] at k1
  have k2' : totSell B / (x * f) ≤ p.maxSell + totSell F := by
    have : (U ++ p :: F).drop U.length = p :: F := by simp
    rw [this] at k2; rw [← totSell_cons]; exact k2
  have k1' : totSell F ≤ totSell B / (x * f) := k1
  rw [div_le_iff₀ (by positivity)] at k2'
  rw [le_div_iff₀ (by positivity)] at k1'
  have hQ : 0 < 2 * totSell B / (f * p.maxXrate) := by positivity
  have hup := upper3 hex hfp h.fee0 okx okxS h.region.sortS hv
  rw [← hf, pattern3_eq hφ hfp hx okxS okx] at hup
  obtain ⟨y, y1, y2, y3, y4, hle, hy⟩ := move3 (c := - totDiv B + f * (totSell F - totSell U - p.maxSell) - 2 * f * totSell F)
    hQ hl h1 h2
    (lo := totSell B / (f * (p.maxSell + totSell F))) (hi := if totSell F = 0 then ub else totSell B / (f * totSell F))
    (by rw [div_le_iff₀ (by positivity)]; linarith)
    (by
      split
      · exact h2.le
      · rename_i hne
        have := lt_of_le_of_ne hF (Ne.symm hne)
        rw [le_div_iff₀ (by positivity)]; linarith) hr
  have hy0 : 0 < y := hl.trans_le y1
  have hyc : y = lb ∨ y = ub ∨ Cand cfg sqrt fee ivs y := by
    rcases hy with hy | hy | ⟨g1, g2, hy⟩
    · exact .inl hy
    · exact .inr (.inl hy)
    · refine .inr (.inr ?_)
      rcases hy with hy | hy | hy
      · exact ⟨_, hd, cands, hc, hin y g1 g2 (.inl hy)⟩
      · exact ⟨_, hd, cands, hc, hin y g1 g2 (.inr (.inr hy))⟩
      · -- the upper kink belongs to the next pattern
        split at hy
        · exact absurd hy g2.ne
        · rename_i hne
          have hFp := lt_of_le_of_ne hF (Ne.symm hne)
          have hFne : F ≠ [] := by rintro rfl; simp [totSell] at hne
          obtain ⟨p2, F2, rfl⟩ := List.exists_cons_of_ne_nil hFne
          have heq : U ++ p :: p2 :: F2 = (U ++ [p]) ++ p2 :: F2 := by simp
          have hYy : totSell B / (y * f) = totSell (p2 :: F2) := by rw [hy]; field_simp
          have nn2 : 0 ≤ p2.maxSell := (h.posS p2 (by simp)).2.le
          have hfill : FillsTo (U ++ p :: p2 :: F2) ((B.map (·.maxSell)).sum / (y * f)) (U ++ [p]).length := by
            refine ⟨by simp, ?_, ?_⟩
            · rw [heq, drop_split]; change totSell F2 ≤ totSell B / (y * f)
              rw [hYy, totSell_cons]; linarith
            · rw [heq, List.drop_left']
              · change totSell B / (y * f) ≤ _; rw [hYy]; exact le_rfl
              · rfl
          have hd2 := (hall y g1 g2).2 _ hfill
          obtain ⟨cands2, hc2⟩ := hloc _ hd2
          obtain ⟨c2, _, _, r52, ec2, _, _, e52, hin2⟩ := localOptima_ok hc2
          rw [heq] at ec2
          obtain ⟨_, q52⟩ := roots3 hfp h.input.feeLt (fun o ho => (h.posS o (by rw [heq]; exact ho)).1) h.neB
            (by rw [← totSell_cons]; exact hFp) ec2
          rw [q52] at e52; cases e52
          refine ⟨_, hd2, cands2, hc2, hin2 y g1 g2 (.inr (.inr ?_))⟩
          rw [hy, totSell_cons]
  obtain ⟨hnb, w, hw⟩ := hroom y hyc
  refine ⟨y, w, hyc, hw, ?_⟩
  have oky := h.okB y2
  have okyS := h.okS y1
  rw [div_le_iff₀ (by positivity)] at y3
  have y4' : totSell F ≤ totSell B / (y * f) := by
    rw [le_div_iff₀ (by positivity)]
    split at y4
    · rename_i hz; rw [hz]; linarith
    · rename_i hne
      have hFp := lt_of_le_of_ne hF (Ne.symm hne)
      rw [le_div_iff₀ (by positivity)] at y4; linarith
  have y3' : totSell B / (y * f) ≤ p.maxSell + totSell F := by
    rw [div_le_iff₀ (by positivity)]; linarith
  have hlow := lower h.input h.fee0 h.region y1 y2 hnb (fillAll_fst B) (fillFrom_fst U F p (totSell B / (y * f) - totSell F))
    (fillAll_range (fun o ho => (h.posB o ho).2.le))
    (fillFrom_range (fun o ho => (h.posS o ho).2.le) (by linarith) (by linarith))
    (by rw [fillFrom_snd, fillAll_snd, ← hf]; field_simp; ring) hw
  rw [← hf, pattern3_eq hφ hfp hy0 okyS oky] at hlow
  linarith

end Dex
