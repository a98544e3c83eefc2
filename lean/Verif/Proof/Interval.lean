import Verif.Proof.Sort
import Verif.Model.Xrate
import Mathlib.Tactic.Linarith
import Mathlib.Tactic.Positivity

/-! # Lemmas about the rate-interval iterator -/

namespace Dex

theorem partialIdxLoop_lt {lb ub : ℚ} (l : List Order) : ∀ {i : ℕ} {cur : ℚ} {j : ℕ},
    j ∈ partialIdxLoop lb ub i cur l → i ≤ j ∧ j < i + l.length := by
  induction l with
  | nil => intro i cur j h; simp [partialIdxLoop] at h
  | cons o l ih =>
    intro i cur j h
    simp only [partialIdxLoop] at h
    split at h
    · simp at h
    · rcases List.mem_append.1 h with h | h
      · split at h
        · simp at h; subst h; simp
        · simp at h
      · have := ih h
        simp only [List.length_cons]; omega

/-- What the main loop yields, in terms of a split of the sorted variants. -/
structure YieldOk (all : List Variant) (d : IntervalData) : Prop where
  split : ∃ pre v w post, all = pre ++ v :: w :: post ∧ d.lb = w.xrate ∧ d.ub = v.xrate ∧
    d.b = (((pre ++ [v]).filter (·.isB)).map (·.data)).reverse ∧
    d.s = ((w :: post).filter (fun v => !v.isB)).map (·.data)
  neB : d.b ≠ []
  neS : d.s ≠ []
  idxB : d.bPartial < d.b.length
  idxS : d.sPartial < d.s.length

theorem intervalYields_spec {st : IntervalState} {xLb xUb : ℚ} {fee : Fee} (hl : xLb * (1 - fee.value) ≠ 0)
    (hu : xUb * (1 - fee.value) ≠ 0) (hb : st.bExec ≠ []) (hs : st.sExec ≠ []) :
    ∃ ys, intervalYields st xLb xUb fee = .ok ys ∧ ∀ d ∈ ys, d.lb = xLb ∧ d.ub = xUb ∧ d.b = st.bExec ∧ d.s = st.sExec ∧
      d.bPartial < st.bExec.length ∧ d.sPartial < st.sExec.length := by
  obtain ⟨bo, bl, hbe⟩ : ∃ bo bl, st.bExec = bo :: bl := by
    cases h : st.bExec with
    | nil => exact absurd h hb
    | cons a l => exact ⟨a, l, rfl⟩
  obtain ⟨so, sl, hse⟩ : ∃ so sl, st.sExec = so :: sl := by
    cases h : st.sExec with
    | nil => exact absurd h hs
    | cons a l => exact ⟨a, l, rfl⟩
  have g1 : pyGet st.bExec 0 = .ok bo := pyGet_nat (k := 0) (by rw [hbe]; rfl)
  have g2 : pyGet st.sExec 0 = .ok so := pyGet_nat (k := 0) (by rw [hse]; rfl)
  unfold intervalYields
  rw [g1, ok_bind, g2, ok_bind]
  unfold sPartialIdxs
  simp only [pyDiv_of_ne hl, pyDiv_of_ne hu, ok_bind, pure_eq_ok]
  refine ⟨_, rfl, ?_⟩
  intro d hd
  rcases List.mem_append.1 hd with h | h
  · obtain ⟨i, hi, rfl⟩ := List.mem_map.1 h
    have := (partialIdxLoop_lt _ hi).2
    refine ⟨rfl, rfl, rfl, rfl, by simpa using this, ?_⟩
    rw [hse]; simp
  · obtain ⟨i, hi, rfl⟩ := List.mem_map.1 h
    have := (partialIdxLoop_lt _ hi).2
    refine ⟨rfl, rfl, rfl, rfl, ?_, by simpa using this⟩
    rw [hbe]; simp

theorem intervalLoop_spec {fee : Fee} {opt : Option ℚ} (hφ : (1 - fee.value) ≠ 0) (all : List Variant)
    (hne : ∀ v ∈ all, v.xrate ≠ 0) : ∀ (rest pre : List Variant) (st : IntervalState), all = pre ++ rest →
      st.bExec = ((pre.filter (·.isB)).map (·.data)).reverse →
      st.sExec = (rest.filter (fun v => !v.isB)).map (·.data) →
      ∃ ivs, intervalLoop fee opt st rest = .ok ivs ∧ ∀ d ∈ ivs, YieldOk all d := by
  intro rest
  induction rest with
  | nil => intro pre st _ _ _; exact ⟨[], rfl, by simp⟩
  | cons v rest ih =>
    intro pre st hall hb hs
    cases rest with
    | nil => exact ⟨[], rfl, by simp⟩
    | cons w post =>
      -- state after the update
      obtain ⟨st1, e1, hb1, hs1⟩ : ∃ st1, intervalUpdate st v = .ok st1 ∧
          st1.bExec = (((pre ++ [v]).filter (·.isB)).map (·.data)).reverse ∧
          st1.sExec = ((w :: post).filter (fun v => !v.isB)).map (·.data) := by
        unfold intervalUpdate
        cases hv : v.isB with
        | true =>
          refine ⟨_, rfl, ?_, ?_⟩
          · simp [hb, hv]
          · rw [hs]; simp [List.filter_cons, hv]
        | false =>
          have : st.sExec = v.data :: ((w :: post).filter (fun v => !v.isB)).map (·.data) := by
            rw [hs, List.filter_cons, if_pos (by simp [hv])]; rfl
          rw [this]
          refine ⟨_, rfl, ?_, rfl⟩
          simp [hb, hv]
      have hall' : all = (pre ++ [v]) ++ w :: post := by rw [hall]; simp
      obtain ⟨ivs, e2, h2⟩ := ih (pre ++ [v]) { st1 with prev := some v.xrate } hall' hb1 hs1
      have hvm : v ∈ all := by rw [hall]; simp
      have hwm : w ∈ all := by rw [hall]; simp
      simp only [intervalLoop]
      rw [e1, ok_bind]
      split
      · exact ⟨ivs, e2, h2⟩
      · split
        · exact ⟨ivs, e2, h2⟩
        · rename_i hbl
          split
          · exact ⟨[], rfl, by simp⟩
          · rename_i hsl
            have nb : st1.bExec ≠ [] := fun h => hbl (by rw [h]; rfl)
            have ns : st1.sExec ≠ [] := fun h => hsl (by rw [h]; rfl)
            obtain ⟨ys, e3, h3⟩ := intervalYields_spec (fee := fee) (mul_ne_zero (hne w hwm) hφ)
              (mul_ne_zero (hne v hvm) hφ) nb ns
            rw [e3, ok_bind, e2]
            refine ⟨ys ++ ivs, rfl, ?_⟩
            intro d hd
            rcases List.mem_append.1 hd with hd | hd
            · obtain ⟨k1, k2, k3, k4, k5, k6⟩ := h3 d hd
              refine ⟨⟨pre, v, w, post, hall, k1, k2, by rw [k3, hb1], by rw [k4, hs1]⟩, by rw [k3]; exact nb,
                by rw [k4]; exact ns, by rw [k3]; exact k5, by rw [k4]; exact k6⟩
            · exact h2 d hd

/-- The sorted variants of `xrate_interval_iterator`. -/
def variants (b s : List Order) (fee : Fee) : List Variant :=
  pySortByRev (·.xrate) (b.map (fun o => { isB := true, xrate := o.maxXrate * (1 - fee.value), data := o : Variant }) ++
    s.map (fun o => { isB := false, xrate := 1 / (o.maxXrate * (1 - fee.value)), data := o : Variant }))

theorem mem_variants {b s : List Order} {fee : Fee} {v : Variant} (hv : v ∈ variants b s fee) :
    (v.data ∈ b ∧ v.isB = true ∧ v.xrate = v.data.maxXrate * (1 - fee.value)) ∨
    (v.data ∈ s ∧ v.isB = false ∧ v.xrate = 1 / (v.data.maxXrate * (1 - fee.value))) := by
  have := (pySortByRev_perm _ _).mem_iff.1 hv
  rcases List.mem_append.1 this with h | h
  · obtain ⟨o, ho, rfl⟩ := List.mem_map.1 h; exact .inl ⟨ho, rfl, rfl⟩
  · obtain ⟨o, ho, rfl⟩ := List.mem_map.1 h; exact .inr ⟨ho, rfl, rfl⟩

theorem variants_pos {b s : List Order} {fee : Fee} (hf : fee.value < 1) (hb : ∀ o ∈ b, 0 < o.maxXrate)
    (hs : ∀ o ∈ s, 0 < o.maxXrate) {v : Variant} (hv : v ∈ variants b s fee) : 0 < v.xrate := by
  have hφ : 0 < 1 - fee.value := by linarith
  rcases mem_variants hv with ⟨h1, _, h2⟩ | ⟨h1, _, h2⟩
  · rw [h2]; have := hb _ h1; positivity
  · rw [h2]; have := hs _ h1; positivity

theorem xrateIntervals_spec {b s : List Order} {fee : Fee} {opt : Option ℚ} (hf : fee.value < 1) (nb : b ≠ []) (ns : s ≠ [])
    (hb : ∀ o ∈ b, 0 < o.maxXrate) (hs : ∀ o ∈ s, 0 < o.maxXrate) :
    ∃ ivs, xrateIntervals b s fee opt = .ok ivs ∧ ∀ d ∈ ivs, YieldOk (variants b s fee) d := by
  have hφ : 0 < 1 - fee.value := by linarith
  unfold xrateIntervals
  rw [pyAssert_of ⟨List.length_pos_of_ne_nil nb, List.length_pos_of_ne_nil ns⟩, ok_bind]
  simp only
  rw [mapE_of_forall (g := fun o => { isB := false, xrate := 1 / (o.maxXrate * (1 - fee.value)), data := o : Variant })]
  · rw [ok_bind]
    exact intervalLoop_spec hφ.ne' (variants b s fee) (fun v hv => (variants_pos hf hb hs hv).ne') _ [] _ rfl rfl rfl
  · intro o ho
    rw [pyDiv_of_ne (mul_pos (hs o ho) hφ).ne']; rfl

theorem sorted_split {pre post : List Variant} {v w : Variant}
    (hs : (pre ++ v :: w :: post).Pairwise (fun a b => b.xrate ≤ a.xrate)) {x : ℚ} (h1 : w.xrate < x) (h2 : x < v.xrate) :
    (∀ a ∈ pre ++ [v], x ≤ a.xrate) ∧ (∀ a ∈ w :: post, a.xrate < x) := by
  have hs' : ((pre ++ [v]) ++ (w :: post)).Pairwise (fun a b => b.xrate ≤ a.xrate) := by simpa using hs
  obtain ⟨p1, p2, p3⟩ := List.pairwise_append.1 hs'
  constructor
  · intro a ha
    rcases List.mem_append.1 ha with h | h
    · have := (List.pairwise_append.1 p1).2.2 a h v (by simp)
      linarith
    · rw [List.mem_singleton.1 h]; exact h2.le
  · intro a ha
    rcases List.mem_cons.1 ha with rfl | h
    · exact h1
    · have := (List.pairwise_cons.1 p2).1 a h
      linarith

/-- The orders an interval carries, for a rate strictly inside it. -/
theorem YieldOk.perm {b s : List Order} {fee : Fee} (hf : fee.value < 1) (hs : ∀ o ∈ s, 0 < o.maxXrate)
    {d : IntervalData} (h : YieldOk (variants b s fee) d) {x : ℚ} (hx0 : 0 < x) (h1 : d.lb < x) (h2 : x < d.ub) :
    d.b.Perm (b.filter (fun o => decide (x ≤ o.maxXrate * (1 - fee.value)))) ∧
    d.s.Perm (s.filter (fun o => decide (1 / x ≤ o.maxXrate * (1 - fee.value)))) := by
  have hφ : 0 < 1 - fee.value := by linarith
  obtain ⟨pre, v, w, post, hall, e1, e2, eb, es⟩ := h.split
  have hsort : (variants b s fee).Pairwise (fun a b => b.xrate ≤ a.xrate) := pySortByRev_pairwise _ _
  rw [hall] at hsort
  obtain ⟨k1, k2⟩ := sorted_split hsort (x := x) (e1 ▸ h1) (e2 ▸ h2)
  have hperm := pySortByRev_perm (fun v : Variant => v.xrate)
    (b.map (fun o => { isB := true, xrate := o.maxXrate * (1 - fee.value), data := o : Variant }) ++
      s.map (fun o => { isB := false, xrate := 1 / (o.maxXrate * (1 - fee.value)), data := o : Variant }))
  change (variants b s fee).Perm _ at hperm
  have hall' : variants b s fee = (pre ++ [v]) ++ (w :: post) := by rw [hall]; simp
  constructor
  · -- b side: filter the variants by `isB ∧ x ≤ xrate`
    have f1 : (variants b s fee).filter (fun a => a.isB && decide (x ≤ a.xrate)) = (pre ++ [v]).filter (·.isB) := by
      rw [hall', List.filter_append]
      have a1 : (pre ++ [v]).filter (fun a => a.isB && decide (x ≤ a.xrate)) = (pre ++ [v]).filter (·.isB) :=
        List.filter_congr (fun a ha => by simp [k1 a ha])
      have a2 : (w :: post).filter (fun a => a.isB && decide (x ≤ a.xrate)) = [] := by
        rw [List.filter_eq_nil_iff]
        intro a ha
        have := k2 a ha
        simp only [Bool.and_eq_true, decide_eq_true_eq, not_and, not_le]
        intro _; exact this
      rw [a1, a2, List.append_nil]
    rw [eb]
    refine (List.reverse_perm _).trans ?_
    rw [← f1]
    have := (hperm.filter (fun a => a.isB && decide (x ≤ a.xrate))).map (fun v : Variant => v.data)
    refine this.trans (List.Perm.of_eq ?_)
    rw [List.filter_append, List.filter_map, List.filter_map, List.map_append, List.map_map, List.map_map]
    have z : List.filter ((fun a : Variant => a.isB && decide (x ≤ a.xrate)) ∘
        fun o => { isB := false, xrate := 1 / (o.maxXrate * (1 - fee.value)), data := o : Variant }) s = [] := by
      rw [List.filter_eq_nil_iff]; intro o _; simp
    rw [z, List.map_nil, List.append_nil]
    have y : ((fun v : Variant => v.data) ∘
        fun o => { isB := true, xrate := o.maxXrate * (1 - fee.value), data := o : Variant }) = id := rfl
    rw [y, List.map_id]
    rfl
  · have f1 : (variants b s fee).filter (fun a => !a.isB && decide (a.xrate < x)) = (w :: post).filter (fun v => !v.isB) := by
      rw [hall', List.filter_append]
      have a1 : (w :: post).filter (fun a => !a.isB && decide (a.xrate < x)) = (w :: post).filter (fun v => !v.isB) :=
        List.filter_congr (fun a ha => by simp [k2 a ha])
      have a2 : (pre ++ [v]).filter (fun a => !a.isB && decide (a.xrate < x)) = [] := by
        rw [List.filter_eq_nil_iff]
        intro a ha
        have := k1 a ha
        simp only [Bool.and_eq_true, decide_eq_true_eq, not_and, not_lt]
        intro _; exact this
      rw [a1, a2, List.nil_append]
    rw [es, ← f1]
    have := (hperm.filter (fun a => !a.isB && decide (a.xrate < x))).map (fun v : Variant => v.data)
    refine this.trans (List.Perm.of_eq ?_)
    rw [List.filter_append, List.filter_map, List.filter_map, List.map_append, List.map_map, List.map_map]
    have z : List.filter ((fun a : Variant => !a.isB && decide (a.xrate < x)) ∘
        fun o => { isB := true, xrate := o.maxXrate * (1 - fee.value), data := o : Variant }) b = [] := by
      rw [List.filter_eq_nil_iff]; intro o _; simp
    rw [z, List.map_nil, List.nil_append]
    have y : ((fun v : Variant => v.data) ∘
        fun o => { isB := false, xrate := 1 / (o.maxXrate * (1 - fee.value)), data := o : Variant }) = id := rfl
    rw [y, List.map_id]
    apply List.filter_congr
    intro o ho
    have ho0 := mul_pos (hs o ho) hφ
    rw [Bool.eq_iff_iff]
    simp only [Function.comp, Bool.not_false, Bool.true_and, decide_eq_true_eq]
    -- strict and non-strict agree because no variant equals `x`
    constructor
    · intro h3
      rw [div_le_iff₀ hx0]
      rw [div_lt_iff₀ ho0] at h3
      linarith
    · intro h3
      have h4 : 1 / (o.maxXrate * (1 - fee.value)) ≤ x := by
        rw [div_le_iff₀ hx0] at h3
        rw [div_le_iff₀ ho0]; linarith
      rcases h4.lt_or_eq with h5 | h5
      · exact h5
      · exfalso
        -- the variant of `o` is on one of the two sides
        have hm : ({ isB := false, xrate := 1 / (o.maxXrate * (1 - fee.value)), data := o : Variant }) ∈ variants b s fee :=
          hperm.mem_iff.2 (List.mem_append_right _ (List.mem_map_of_mem ho))
        have hsort' : ((pre ++ [v]) ++ (w :: post)).Pairwise (fun a b => b.xrate ≤ a.xrate) := by simpa using hsort
        rw [hall'] at hm
        rcases List.mem_append.1 hm with hm | hm
        · have hv : v.xrate ≤ 1 / (o.maxXrate * (1 - fee.value)) := by
            rcases List.mem_append.1 hm with h | h
            · exact (List.pairwise_append.1 (List.pairwise_append.1 hsort').1).2.2 _ h v (by simp)
            · rw [← List.mem_singleton.1 h]
          rw [e2] at h2; linarith
        · have := k2 _ hm
          simp only at this; linarith

end Dex
