import Verif.Proof.Objective
import Verif.Props.Interval
import Verif.Props.Prune

/-! # Property C16: the rate search -/

namespace Dex

open Spec

/-- Inputs of the rate search. -/
structure SearchInput (cfg : Config) (fee : Fee) (b s : List Order) : Prop where
  minPos : 0 < cfg.minRationalTradable
  feeLt : fee.value < 1
  limit : 0 ≤ cfg.maxNrExec
  feePrice : 0 < cfg.feeTokenPrice
  idsB : (b.map (·.id)).Nodup
  idsS : (s.map (·.id)).Nodup
  ordB : ∀ o ∈ b, 0 < o.maxXrate ∧ 0 ≤ o.maxSell
  ordS : ∀ o ∈ s, 0 < o.maxXrate ∧ 0 ≤ o.maxSell

namespace Spec

/-- Value of a book at a rate: execute the orders at the rate and evaluate the objective at b-token price 1. -/
def ValueAt (cfg : Config) (fee : Fee) (b s : List Order) (x v : ℚ) : Prop :=
  ∃ b' s', computeBuyAmounts cfg x b s fee cfg.maxNrExec = .ok (b', s') ∧
    computeObjectiveRational cfg b' s' [] x 1 fee = .ok v

end Spec

theorem solverObjective_iff {cfg : Config} {fee : Fee} {b s : List Order} {x v : ℚ} :
    solverObjective cfg fee b s x = .ok v ↔ ValueAt cfg fee b s x v := by
  unfold solverObjective ValueAt
  rw [bind_eq_ok]
  constructor
  · rintro ⟨⟨b', s'⟩, h1, h2⟩; exact ⟨b', s', h1, h2⟩
  · rintro ⟨b', s', h1, h2⟩; exact ⟨(b', s'), h1, h2⟩

theorem mem_sortDistinct {l : List ℚ} {x : ℚ} : x ∈ sortDistinct l ↔ x ∈ l := by
  unfold sortDistinct
  rw [List.mem_dedup, (pySortBy_perm id l).mem_iff]

theorem mapE_ok_mem {α β : Type} {f : α → Py β} {l : List α} {r : List β} (h : mapE f l = .ok r) :
    (∀ a ∈ l, ∃ b ∈ r, f a = .ok b) ∧ (∀ b ∈ r, ∃ a ∈ l, f a = .ok b) := by
  rw [mapE_eq_ok_forall₂] at h
  induction h with
  | nil => simp
  | cons h1 _ ih =>
    constructor
    · intro a ha
      rcases List.mem_cons.1 ha with rfl | ha
      · exact ⟨_, by simp, h1⟩
      · obtain ⟨b, hb, h⟩ := ih.1 a ha; exact ⟨b, by simp [hb], h⟩
    · intro b hb
      rcases List.mem_cons.1 hb with rfl | hb
      · exact ⟨_, by simp, h1⟩
      · obtain ⟨a, ha, h⟩ := ih.2 b hb; exact ⟨a, by simp [ha], h⟩

theorem binSearch_mem {f : ℚ → Py ℚ} {xs : List ℚ} {r : ℚ × ℚ} (h : binSearch f xs = .ok r) :
    r.1 ∈ xs ∧ f r.1 = .ok r.2 := by
  unfold binSearch at h
  split at h
  · rw [bind_eq_ok] at h
    obtain ⟨xos, h1, h2⟩ := h
    have hm := (pyMaxBy_spec h2).1
    obtain ⟨x, hx, hf⟩ := (mapE_ok_mem h1).2 _ hm
    rw [bind_eq_ok] at hf
    obtain ⟨o, ho, h3⟩ := hf
    cases h3; exact ⟨hx, ho⟩
  · simp only [bind_eq_ok] at h
    obtain ⟨x0, g0, x1, g1, f0, e0, f1, e1, h⟩ := h
    split at h
    · cases h; exact ⟨pyGet_ok_mem g0, e0⟩
    · simp only [bind_eq_ok] at h
      obtain ⟨y0, k0, y1, k1, g, q0, g', q1, h⟩ := h
      split at h
      · cases h; exact ⟨pyGet_ok_mem k0, q0⟩
      · simp only [bind_eq_ok] at h
        obtain ⟨c, _, x, gx, o, ho, h⟩ := h
        cases h; exact ⟨pyGet_ok_mem gx, ho⟩

/-- Limit rates of a list of orders with positive limit rates. -/
theorem trivialCandidates_eq {b s : List Order} {fee : Fee} (hf : fee.value < 1) (hs : ∀ o ∈ s, 0 < o.maxXrate) :
    ∃ xs, trivialCandidates b s fee = .ok xs ∧ ∀ x, x ∈ xs ↔ LimitRate fee b s x := by
  have hφ : 0 < 1 - fee.value := by linarith
  unfold trivialCandidates
  rw [mapE_of_forall (g := fun o : Order => 1 / (o.maxXrate * (1 - fee.value)))]
  · refine ⟨_, rfl, fun x => ?_⟩
    rw [mem_sortDistinct, List.mem_append, List.mem_map, List.mem_map]
    unfold LimitRate root1
    constructor
    · rintro (⟨o, ho, rfl⟩ | ⟨o, ho, rfl⟩)
      · exact .inl ⟨o, ho, rfl⟩
      · exact .inr ⟨o, ho, rfl⟩
    · rintro (⟨o, ho, rfl⟩ | ⟨o, ho, rfl⟩)
      · exact .inl ⟨o, ho, rfl⟩
      · exact .inr ⟨o, ho, rfl⟩
  · intro o ho
    unfold root2
    exact pyDiv_of_ne (mul_pos (hs o ho) hφ).ne'

theorem SearchInput.prune {cfg : Config} {fee : Fee} {b s : List Order} (h : SearchInput cfg fee b s) (hb : b ≠ []) (hs : s ≠ []) :
    PruneInput fee b s := ⟨h.feeLt, hb, hs, fun o ho => (h.ordB o ho).1, fun o ho => (h.ordS o ho).1⟩

theorem SearchInput.exec {cfg : Config} {fee : Fee} {b s : List Order} (h : SearchInput cfg fee b s) {x : ℚ} (hx : 0 < x) :
    ExecInput cfg x fee cfg.maxNrExec b s := ⟨h.minPos, hx, h.feeLt, h.limit, h.idsB, h.idsS⟩

theorem SearchInput.sub {cfg : Config} {fee : Fee} {b s b' s' : List Order} (h : SearchInput cfg fee b s)
    (hb : b'.Sublist b) (hs : s'.Sublist s) : SearchInput cfg fee b' s' :=
  ⟨h.minPos, h.feeLt, h.limit, h.feePrice, (hb.map _).nodup h.idsB, (hs.map _).nodup h.idsS,
    fun o ho => h.ordB o (hb.subset ho), fun o ho => h.ordS o (hs.subset ho)⟩

/-- At a rate accepted on both sides, pruned orders do not matter. -/
theorem objective_pruned {cfg : Config} {fee : Fee} {b s b' s' : List Order} (h : SearchInput cfg fee b s)
    (hp : pruneUnrealizable b s fee = .ok (b', s')) {x : ℚ} (hx : 0 < x)
    (ab : ∃ o ∈ b', AcceptsB fee x o) (as : ∃ o ∈ s', AcceptsS fee x o) :
    ∃ v, solverObjective cfg fee b s x = .ok v ∧ solverObjective cfg fee b' s' x = .ok v := by
  obtain ⟨ob, hob, aob⟩ := ab
  obtain ⟨os, hos, aos⟩ := as
  have hbne : b ≠ [] := by
    rintro rfl; rw [C14_empty_side (.inl rfl)] at hp; cases hp
  have hsne : s ≠ [] := by
    rintro rfl; rw [C14_empty_side (.inr rfl)] at hp; cases hp
  have hpi := h.prune hbne hsne
  obtain ⟨b1, s1, e1, sb, ss, mb, ms⟩ := C14_exact hpi
  rw [hp] at e1; cases e1
  obtain ⟨bc, _, sc, _, _, _, e2⟩ := prune_eq hpi
  rw [hp] at e2
  -- same accepting orders
  have fb : b'.filter (fun o => decide (x ≤ o.maxXrate * (1 - fee.value))) =
      b.filter (fun o => decide (x ≤ o.maxXrate * (1 - fee.value))) := by
    have hb' : b' = b.filter (fun o => decide (o.maxXrate * (1 - fee.value) ^ 2 ≥ 1 / sc.maxXrate)) := by
      injection e2 with e2; exact congrArg Prod.fst e2
    rw [hb', List.filter_filter]
    apply List.filter_congr
    intro o ho
    rw [Bool.eq_iff_iff, Bool.and_eq_true]
    refine ⟨fun k => k.1, fun k => ⟨k, ?_⟩⟩
    have : o ∈ b' := (mb o).2 ⟨ho, os, ss.subset hos, x, hx, of_decide_eq_true k, aos⟩
    rw [hb'] at this
    exact (List.mem_filter.1 this).2
  have fs : s'.filter (fun o => decide (1 / x ≤ o.maxXrate * (1 - fee.value))) =
      s.filter (fun o => decide (1 / x ≤ o.maxXrate * (1 - fee.value))) := by
    have hs' : s' = s.filter (fun o => decide (o.maxXrate * (1 - fee.value) ^ 2 ≥ 1 / bc.maxXrate)) := by
      injection e2 with e2; exact congrArg Prod.snd e2
    rw [hs', List.filter_filter]
    apply List.filter_congr
    intro o ho
    rw [Bool.eq_iff_iff, Bool.and_eq_true]
    refine ⟨fun k => k.1, fun k => ⟨k, ?_⟩⟩
    have : o ∈ s' := (ms o).2 ⟨ho, ob, sb.subset hob, x, hx, aob, of_decide_eq_true k⟩
    rw [hs'] at this
    exact (List.mem_filter.1 this).2
  obtain ⟨v, v1, v2⟩ := solverObjective_accepting (h.exec hx) h.feePrice h.ordB h.ordS (List.Perm.refl _) (List.Perm.refl _)
  have h' := h.sub sb ss
  obtain ⟨u, u1, u2⟩ := solverObjective_accepting (h'.exec hx) h.feePrice h'.ordB h'.ordS (List.Perm.refl _) (List.Perm.refl _)
  rw [fb, fs, v2] at u2
  cases u2
  exact ⟨v, v1, u1⟩

/-- Every limit rate of a pruned book is accepted on both sides. -/
theorem limitRate_accepted {fee : Fee} {b s b' s' : List Order} (h : PruneInput fee b s)
    (hp : pruneUnrealizable b s fee = .ok (b', s')) {x : ℚ} (hx : LimitRate fee b' s' x) :
    0 < x ∧ (∃ o ∈ b', AcceptsB fee x o) ∧ (∃ o ∈ s', AcceptsS fee x o) := by
  have hφ : 0 < 1 - fee.value := by have := h.feeLt; linarith
  obtain ⟨b1, s1, e1, sb, ss, mb, ms⟩ := C14_exact h
  rw [hp] at e1; cases e1
  rcases hx with ⟨o, ho, rfl⟩ | ⟨c, hc, rfl⟩
  · obtain ⟨hob, c, hc, hm⟩ := (mb o).1 ho
    have hc' : c ∈ s' := (ms c).2 ⟨hc, o, hob, hm⟩
    have h0 := mul_pos (h.posB o hob) hφ
    refine ⟨h0, ⟨o, ho, le_refl _⟩, c, hc', ?_⟩
    unfold AcceptsS
    rw [div_le_iff₀ h0]
    have := (matchable_iff h.feeLt (h.posB o hob) (h.posS c hc)).1 hm
    linarith
  · obtain ⟨hcs, o, ho, hm⟩ := (ms c).1 hc
    have ho' : o ∈ b' := (mb o).2 ⟨ho, c, hcs, hm⟩
    have h0 := mul_pos (h.posS c hcs) hφ
    refine ⟨one_div_pos.2 h0, ⟨o, ho', ?_⟩, c, hc, ?_⟩
    · unfold AcceptsB
      rw [div_le_iff₀ h0]
      have := (matchable_iff h.feeLt (h.posB o ho) (h.posS c hcs)).1 hm
      linarith
    · unfold AcceptsS; rw [one_div_one_div]

/-- The search on a book in which nothing can be matched aborts. -/
theorem findBestXrate_unmatchable {cfg : Config} {sqrt : ℚ → Py ℚ} {fee : Fee} {b s : List Order}
    (hp : pruneUnrealizable b s fee = .ok ([], [])) :
    findBestXrate cfg sqrt b s fee = .error (.assertion "xrate.py:98") := by
  unfold findBestXrate
  rw [hp]; rfl

/-- Value of a candidate rate inside an interval, on the whole book. -/
theorem objective_interval {cfg : Config} {fee : Fee} {b s b' s' : List Order} (h : SearchInput cfg fee b s)
    (hp : pruneUnrealizable b s fee = .ok (b', s')) (hne : b' ≠ []) {opt : Option ℚ} {ivs : List IntervalData}
    (hi : xrateIntervals b' s' fee opt = .ok ivs) {d : IntervalData} (hd : d ∈ ivs) {x : ℚ} (h1 : d.lb < x) (h2 : x < d.ub) :
    0 < x ∧ ∃ v, solverObjective cfg fee b s x = .ok v ∧ solverObjective cfg fee d.b d.s x = .ok v := by
  have hbne : b ≠ [] := by
    rintro rfl; rw [C14_empty_side (.inl rfl)] at hp; cases hp
  have hsne : s ≠ [] := by
    rintro rfl; rw [C14_empty_side (.inr rfl)] at hp; cases hp
  have hpi := h.prune hbne hsne
  have hpi' := hpi.pruned hp hne
  obtain ⟨b1, s1, e1, sb, ss, mb, ms⟩ := C14_exact hpi
  rw [hp] at e1; cases e1
  have h' := h.sub sb ss
  obtain ⟨ivs', e2, hs2⟩ := C15_sound opt (⟨hpi'.feeLt, hpi'.neB, hpi'.neS, hpi'.posB, hpi'.posS⟩ : IntervalInput fee b' s')
  rw [hi] at e2; cases e2
  obtain ⟨p1, p2, p3, p4, _, _, p5⟩ := hs2 d hd
  have hx : 0 < x := p1.trans h1
  obtain ⟨q1, q2⟩ := p5 x h1 h2
  have ab : ∃ o ∈ b', AcceptsB fee x o := by
    obtain ⟨o, ho⟩ := List.exists_mem_of_ne_nil _ p3
    have := List.mem_filter.1 (q1.mem_iff.1 ho)
    exact ⟨o, this.1, of_decide_eq_true this.2⟩
  have as : ∃ o ∈ s', AcceptsS fee x o := by
    obtain ⟨o, ho⟩ := List.exists_mem_of_ne_nil _ p4
    have := List.mem_filter.1 (q2.mem_iff.1 ho)
    exact ⟨o, this.1, of_decide_eq_true this.2⟩
  obtain ⟨v, v1, v2⟩ := objective_pruned h hp hx ab as
  obtain ⟨u, u1, u2⟩ := solverObjective_accepting (h'.exec hx) h.feePrice h'.ordB h'.ordS q1 q2
  rw [v2] at u1; cases u1
  exact ⟨hx, v, v1, u2⟩

/-- C16. If the rate search returns, it returns a positive rate together with the value of the *whole* book at that rate.
The rate is a limit rate of an order or lies strictly inside a rate interval. The value is at least the value of the
limit rate found by the binary search and at least the value of every candidate rate strictly inside an interval the
search examines - whatever floating-point `sqrt` returns. -/
theorem C16_attained_maximum {cfg : Config} {sqrt : ℚ → Py ℚ} {fee : Fee} {b s : List Order} {r : Option (ℚ × ℚ)}
    (h : SearchInput cfg fee b s) (hr : findBestXrate cfg sqrt b s fee = .ok r) :
    ∃ x v b' s' x0 v0 ivs, r = some (x, v) ∧ pruneUnrealizable b s fee = .ok (b', s') ∧
      solveTrivial cfg fee b' s' = .ok (some (x0, v0)) ∧ xrateIntervals b' s' fee (some x0) = .ok ivs ∧
      0 < x ∧ ValueAt cfg fee b s x v ∧
      (LimitRate fee b s x ∨ ∃ d ∈ ivs, d.lb < x ∧ x < d.ub) ∧
      LimitRate fee b s x0 ∧ ValueAt cfg fee b s x0 v0 ∧ v0 ≤ v ∧
      (∀ d ∈ ivs, ∃ cands, localOptima cfg sqrt fee d = .ok cands ∧
        ∀ y ∈ cands, d.lb < y ∧ y < d.ub ∧ ∃ w, ValueAt cfg fee b s y w ∧ w ≤ v) := by
  unfold findBestXrate at hr
  rw [bind_eq_ok] at hr
  obtain ⟨⟨b', s'⟩, hp, hr⟩ := hr
  simp only [bind_eq_ok] at hr
  obtain ⟨triv, ht, ivs, hi, rs, hm, hr⟩ := hr
  have hbne : b ≠ [] := by
    rintro rfl; rw [C14_empty_side (.inl rfl)] at hp; cases hp
  have hsne : s ≠ [] := by
    rintro rfl; rw [C14_empty_side (.inr rfl)] at hp; cases hp
  have hpi := h.prune hbne hsne
  have hne : b' ≠ [] := by
    rintro rfl
    have := (C14_both_or_none hpi hp).1 rfl
    subst this
    have := findBestXrate_unmatchable (cfg := cfg) (sqrt := sqrt) hp
    unfold xrateIntervals at hi
    cases hi
  have hpi' := hpi.pruned hp hne
  obtain ⟨b1, s1, e1, sb, ss, _, _⟩ := C14_exact hpi
  rw [hp] at e1; cases e1
  have h' := h.sub sb ss
  have lim : ∀ x, LimitRate fee b' s' x → LimitRate fee b s x := by
    rintro x (⟨o, ho, rfl⟩ | ⟨o, ho, rfl⟩)
    · exact .inl ⟨o, sb.subset ho, rfl⟩
    · exact .inr ⟨o, ss.subset ho, rfl⟩
  -- the trivial solution
  obtain ⟨x0, v0, rfl, hl0, hv0⟩ : ∃ x0 v0, triv = some (x0, v0) ∧ LimitRate fee b' s' x0 ∧
      solverObjective cfg fee b' s' x0 = .ok v0 := by
    obtain ⟨xs, ex, hxs⟩ := trivialCandidates_eq (b := b') (s := s') h.feeLt hpi'.posS
    have ht' := ht
    unfold solveTrivial at ht'
    rw [ex, ok_bind] at ht'
    split at ht'
    · rename_i hz
      exfalso
      obtain ⟨o, ho⟩ := List.exists_mem_of_ne_nil _ hne
      have : o.maxXrate * (1 - fee.value) ∈ xs := (hxs _).2 (.inl ⟨o, ho, rfl⟩)
      rw [List.eq_nil_of_length_eq_zero hz] at this; simp at this
    · rw [bind_eq_ok] at ht'
      obtain ⟨⟨x0, v0⟩, hbs, ht'⟩ := ht'
      cases ht'
      obtain ⟨k1, k2⟩ := binSearch_mem hbs
      exact ⟨x0, v0, rfl, (hxs _).1 (mem_sortDistinct.1 k1), k2⟩
  obtain ⟨px0, ab0, as0⟩ := limitRate_accepted hpi hp hl0
  have hv0' : ValueAt cfg fee b s x0 v0 := by
    obtain ⟨v, k1, k2⟩ := objective_pruned h hp px0 ab0 as0
    rw [hv0] at k2; cases k2
    exact solverObjective_iff.1 k1
  -- what the intervals return
  have int : ∀ d ∈ ivs, ∃ cands, localOptima cfg sqrt fee d = .ok cands ∧ (∀ y ∈ cands, d.lb < y ∧ y < d.ub) ∧
      (∀ x v, solveInterval cfg sqrt fee d = .ok (some (x, v)) → x ∈ cands ∧ solverObjective cfg fee d.b d.s x = .ok v ∧
        ∀ y ∈ cands, ∃ w, solverObjective cfg fee d.b d.s y = .ok w ∧ w ≤ v) ∧
      (solveInterval cfg sqrt fee d = .ok none → cands = []) := by
    intro d hd
    obtain ⟨res, hres, hsi⟩ := (mapE_ok_mem hm).1 d hd
    have hsi' := hsi
    unfold solveInterval at hsi'
    rw [bind_eq_ok] at hsi'
    obtain ⟨cands, hc, hsi'⟩ := hsi'
    refine ⟨cands, hc, ?_, ?_, ?_⟩
    · intro y hy
      unfold localOptima at hc
      simp only [bind_eq_ok] at hc
      obtain ⟨_, _, _, _, _, _, _, _, hc⟩ := hc
      cases hc
      have := List.mem_filter.1 (mem_sortDistinct.1 hy)
      exact of_decide_eq_true this.2
    · intro x v hxv
      rw [hsi] at hxv; cases hxv
      split at hsi'
      · cases hsi'
      · simp only [bind_eq_ok] at hsi'
        obtain ⟨xos, hx1, opt, hx2, hx3⟩ := hsi'
        cases hx3
        obtain ⟨m1, m2⟩ := pyMaxBy_spec hx2
        obtain ⟨n1, n2⟩ := mapE_ok_mem hx1
        obtain ⟨y, hy, ey⟩ := n2 _ m1
        rw [bind_eq_ok] at ey
        obtain ⟨w, ew, ey⟩ := ey
        cases ey
        refine ⟨hy, ew, fun y hy => ?_⟩
        obtain ⟨q, hq, eq⟩ := n1 y hy
        rw [bind_eq_ok] at eq
        obtain ⟨w, ew, eq⟩ := eq
        cases eq
        exact ⟨w, ew, m2 _ hq⟩
    · intro hn
      rw [hsi] at hn; cases hn
      split at hsi'
      · rename_i hz; exact List.eq_nil_of_length_eq_zero hz
      · simp only [bind_eq_ok] at hsi'
        obtain ⟨_, _, _, _, hx3⟩ := hsi'
        cases hx3
  split at hr
  · rename_i hz; simp at hz
  · rw [bind_eq_ok] at hr
    obtain ⟨⟨x, v⟩, hb, hr⟩ := hr
    cases hr
    obtain ⟨m1, m2⟩ := pyMaxBy_spec hb
    have hle : v0 ≤ v := m2 (x0, v0) (by simp)
    have intval : ∀ d ∈ ivs, ∃ cands, localOptima cfg sqrt fee d = .ok cands ∧
        ∀ y ∈ cands, d.lb < y ∧ y < d.ub ∧ ∃ w, ValueAt cfg fee b s y w ∧ w ≤ v := by
      intro d hd
      obtain ⟨cands, c1, c2, c3, c4⟩ := int d hd
      refine ⟨cands, c1, fun y hy => ⟨(c2 y hy).1, (c2 y hy).2, ?_⟩⟩
      obtain ⟨_, w, w1, w2⟩ := objective_interval h hp hne hi hd (c2 y hy).1 (c2 y hy).2
      refine ⟨w, solverObjective_iff.1 w1, ?_⟩
      obtain ⟨res, hres, hsi⟩ := (mapE_ok_mem hm).1 d hd
      cases res with
      | none => rw [c4 hsi] at hy; simp at hy
      | some p =>
        obtain ⟨x1, v1⟩ := p
        obtain ⟨w', e1, e2⟩ := (c3 x1 v1 hsi).2.2 y hy
        rw [w2] at e1; cases e1
        have : v1 ≤ v := m2 (x1, v1) (by
          rw [List.mem_filterMap]; exact ⟨some (x1, v1), by simp [hres], rfl⟩)
        linarith
    have hmem : (x, v) = (x0, v0) ∨ ∃ d ∈ ivs, solveInterval cfg sqrt fee d = .ok (some (x, v)) := by
      rw [List.mem_filterMap] at m1
      obtain ⟨a, ha, hid⟩ := m1
      simp only [id] at hid
      subst hid
      rcases List.mem_cons.1 ha with he | ha
      · left; injection he
      · right
        exact (mapE_ok_mem hm).2 _ ha
    rcases hmem with he | ⟨d, hd, he⟩
    · cases he
      exact ⟨x0, v0, b', s', x0, v0, ivs, rfl, hp, ht, hi, px0, hv0', .inl (lim _ hl0), lim _ hl0, hv0', le_refl _, intval⟩
    · obtain ⟨cands, c1, c2, c3, c4⟩ := int d hd
      obtain ⟨y1, y2, _⟩ := c3 x v he
      obtain ⟨l1, l2⟩ := c2 x y1
      obtain ⟨hx, w, w1, w2⟩ := objective_interval h hp hne hi hd l1 l2
      rw [y2] at w2; cases w2
      exact ⟨x, v, b', s', x0, v0, ivs, rfl, hp, ht, hi, hx, solverObjective_iff.1 w1, .inr ⟨d, hd, l1, l2⟩, lim _ hl0, hv0',
        hle, intval⟩

/-- C16 (consequence). The search never returns "no rate". -/
theorem findBestXrate_ne_none {cfg : Config} {sqrt : ℚ → Py ℚ} {fee : Fee} {b s : List Order}
    (h : SearchInput cfg fee b s) : findBestXrate cfg sqrt b s fee ≠ .ok none := by
  intro hr
  obtain ⟨_, _, _, _, _, _, _, h1, _⟩ := C16_attained_maximum h hr
  cases h1

/-! ### Non-vacuity -/

example : SearchInput Config.default ExIv.fee ExIv.b ExIv.s := by constructor <;> decide +kernel

/-- The search returns a rate strictly between limit rates (a root), here with `sqrt t` replaced by `(t + 1) / 2`. -/
example : ∃ r, findBestXrate Config.default (fun t => .ok ((t + 1) / 2)) ExIv.b ExIv.s ExIv.fee = .ok r ∧
    r.map (·.1) = some (37969 / 31968) ∧ ¬ LimitRate ExIv.fee ExIv.b ExIv.s (37969 / 31968) := by
  obtain ⟨r, h1, h2⟩ := exists_of_pyCheck
    (x := findBestXrate Config.default (fun t => .ok ((t + 1) / 2)) ExIv.b ExIv.s ExIv.fee)
    (p := fun r : Option (ℚ × ℚ) => r.map (·.1) = some (37969 / 31968)) (by decide +kernel)
  exact ⟨r, h1, h2, by unfold LimitRate; decide +kernel⟩

end Dex
