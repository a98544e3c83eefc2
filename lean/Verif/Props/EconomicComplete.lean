import Verif.Props.EconomicRun
import Verif.Props.Shuffle

/-! # Properties C43, C63: the run of the viability search is unique, and the search follows it -/

namespace Dex

open Spec

/-! ### The run is unique -/

theorem firstLeast_unique {l : List Order} {o o' : Order} (h : FirstLeast l o) (h' : FirstLeast l o') : o = o' := by
  have e : o.buy = o'.buy := le_antisymm (h.least h'.mem h'.1) (h'.least h.mem h.1)
  obtain ⟨p, pre, post, el, h1, _⟩ := h
  obtain ⟨p', pre', post', el', h1', _⟩ := h'
  rw [el] at el'
  rcases List.append_eq_append_iff.1 el' with ⟨a, e1, e2⟩ | ⟨a, e1, e2⟩
  · cases a with
    | nil => simp only [List.nil_append, List.cons.injEq] at e2; exact e2.1
    | cons x a =>
      simp only [List.cons_append, List.cons.injEq] at e2
      have := h1' o (by rw [e1, ← e2.1]; simp) p
      rw [e] at this
      exact absurd this (lt_irrefl _)
  · cases a with
    | nil => simp only [List.nil_append, List.cons.injEq] at e2; exact e2.1.symm
    | cons x a =>
      simp only [List.cons_append, List.cons.injEq] at e2
      have := h1 o' (by rw [e1, ← e2.1]; simp) p'
      rw [e] at this
      exact absurd this (lt_irrefl _)

/-- The first step of a run. -/
theorem run_step {cfg : Config} {fee : Fee} {pair : Token × Token} {solve : List Order → List Order → Py MatchResult} {b s : List Order} {sol : Solution}
    (h : ViabilityRun cfg fee pair solve b s sol) (hn : ∀ r, solve [] [] ≠ .ok r) {r : MatchResult} (hr : solve b s = .ok r) :
    (Viable cfg fee r.sol ∧ sol = r.sol) ∨ (¬ Viable cfg fee r.sol ∧ ∃ os, approxViableSubset cfg r.sol.orders r.sol.prices fee = .ok os ∧
      ((os = [] ∧ sol = .trivial) ∨ (os ≠ [] ∧ ∃ o c pb ps, FirstLeast r.books.b o ∧ FirstLeast r.books.s c ∧ PriceOf r.sol.prices pair.1 pb ∧
        PriceOf r.sol.prices pair.2 ps ∧ ((o.buy * pb < c.buy * ps ∧ ViabilityRun cfg fee pair solve (without b o) s sol) ∨
          (c.buy * ps ≤ o.buy * pb ∧ ViabilityRun cfg fee pair solve b (without s c) sol))))) := by
  cases h with
  | empty => exact absurd hr (hn r)
  | stop h1 h2 => rw [hr] at h1; cases h1; exact .inl ⟨h2, rfl⟩
  | hopeless h1 h2 h3 => rw [hr] at h1; cases h1; exact .inr ⟨h2, _, h3, .inl ⟨rfl, rfl⟩⟩
  | dropB h1 h2 h3 h4 h5 h6 h7 h8 h9 h10 =>
    rw [hr] at h1; cases h1; exact .inr ⟨h2, _, h3, .inr ⟨h4, _, _, _, _, h5, h6, h7, h8, .inl ⟨h9, h10⟩⟩⟩
  | dropS h1 h2 h3 h4 h5 h6 h7 h8 h9 h10 =>
    rw [hr] at h1; cases h1; exact .inr ⟨h2, _, h3, .inr ⟨h4, _, _, _, _, h5, h6, h7, h8, .inr ⟨h9, h10⟩⟩⟩

/-- C63. The run has at most one outcome. -/
theorem C63_run_unique {cfg : Config} {fee : Fee} {pair : Token × Token} {solve : List Order → List Order → Py MatchResult} {b s : List Order} {sol sol' : Solution}
    (hn : ∀ r, solve [] [] ≠ .ok r) (h : ViabilityRun cfg fee pair solve b s sol) (h' : ViabilityRun cfg fee pair solve b s sol') : sol = sol' := by
  induction h with
  | empty =>
    cases h' with
    | empty => rfl
    | stop h1 => exact absurd h1 (hn _)
    | hopeless h1 => exact absurd h1 (hn _)
    | dropB h1 => exact absurd h1 (hn _)
    | dropS h1 => exact absurd h1 (hn _)
  | stop h1 h2 =>
    rcases run_step h' hn h1 with ⟨_, e⟩ | ⟨hv, _⟩
    · exact e.symm
    · exact absurd h2 hv
  | hopeless h1 h2 h3 =>
    rcases run_step h' hn h1 with ⟨hv, _⟩ | ⟨_, os, e, k⟩
    · exact absurd hv h2
    · rw [h3] at e; cases e
      rcases k with ⟨_, e⟩ | ⟨k, _⟩
      · exact e.symm
      · exact absurd rfl k
  | dropB h1 h2 h3 h4 h5 h6 h7 h8 h9 _ ih =>
    rcases run_step h' hn h1 with ⟨hv, _⟩ | ⟨_, os, e, k⟩
    · exact absurd hv h2
    · rw [h3] at e; cases e
      rcases k with ⟨e, _⟩ | ⟨_, o, c, pb, ps, k1, k2, k3, k4, k5⟩
      · exact absurd e h4
      · obtain rfl := firstLeast_unique h5 k1
        obtain rfl := firstLeast_unique h6 k2
        obtain rfl := priceOf_unique h7 k3
        obtain rfl := priceOf_unique h8 k4
        rcases k5 with ⟨_, k⟩ | ⟨hle, _⟩
        · exact ih k
        · exact absurd h9 (not_lt.2 hle)
  | dropS h1 h2 h3 h4 h5 h6 h7 h8 h9 _ ih =>
    rcases run_step h' hn h1 with ⟨hv, _⟩ | ⟨_, os, e, k⟩
    · exact absurd hv h2
    · rw [h3] at e; cases e
      rcases k with ⟨e, _⟩ | ⟨_, o, c, pb, ps, k1, k2, k3, k4, k5⟩
      · exact absurd e h4
      · obtain rfl := firstLeast_unique h5 k1
        obtain rfl := firstLeast_unique h6 k2
        obtain rfl := priceOf_unique h7 k3
        obtain rfl := priceOf_unique h8 k4
        rcases k5 with ⟨hlt, _⟩ | ⟨_, k⟩
        · exact absurd hlt (not_lt.2 h9)
        · exact ih k

theorem run_solve {cfg : Config} {fee : Fee} {pair : Token × Token} {solve : List Order → List Order → Py MatchResult} {b s : List Order} {sol : Solution}
    (h : ViabilityRun cfg fee pair solve b s sol) (ht : sol ≠ .trivial) : ∃ r, solve b s = .ok r ∧ r.sol ≠ .trivial := by
  cases h with
  | empty => exact absurd rfl ht
  | stop h1 h2 => exact ⟨_, h1, ht⟩
  | hopeless h1 h2 h3 => exact absurd rfl ht
  | dropB h1 h2 => exact ⟨_, h1, not_viable_ne h2⟩
  | dropS h1 h2 => exact ⟨_, h1, not_viable_ne h2⟩

/-! ### Removing an order that cannot trade -/

theorem solve_dropB {cfg : Config} {ext : Ext} {pair : Token × Token} {fee : Fee} {xrate : Option ℚ} {pool : List Order} {b s f : List Order} {u : Order}
    {r₀ : MatchResult} (h : RunInput cfg ext pair fee xrate pool) (hb : BookOf pool pair fee { b, s, f })
    (hu : ∀ o ∈ b, o.id = u.id → ∀ c ∈ s, ¬ Matchable fee o c) (hr : solveTokenPairAndFee cfg ext pair b s f fee xrate = .ok r₀) (ht : r₀.sol ≠ .trivial) :
    ∃ r, solveTokenPairAndFee cfg ext pair (without b u) s f fee xrate = .ok r := by
  unfold solveTokenPairAndFee at hr ⊢
  rw [bind_eq_ok] at hr
  obtain ⟨⟨b', s'⟩, e, hr⟩ := hr
  obtain ⟨hbn, hsn⟩ := prune_ne e
  have pB : ∀ o ∈ b, 0 < o.maxXrate := fun o ho => ((hb.derB o ho).ok h.pool).1
  have pS : ∀ o ∈ s, 0 < o.maxXrate := fun o ho => ((hb.derS o ho).ok h.pool).1
  obtain ⟨b2, s2, e2, sb, ss, mb, ms⟩ := C14_exact (⟨h.feeLt, hbn, hsn, pB, pS⟩ : PruneInput fee b s)
  rw [e] at e2
  obtain ⟨rfl, rfl⟩ := Prod.mk.inj (Except.ok.inj e2)
  dsimp only at hr
  split at hr
  · cases hr; exact absurd rfl ht
  rename_i h0
  have hid : ∀ o ∈ b, (∃ c ∈ s, Matchable fee o c) → o.id ≠ u.id := fun o ho ⟨c, hc, hm⟩ he => hu o ho he c hc hm
  have hwn : without b u ≠ [] := by
    push Not at h0
    obtain ⟨o, ho⟩ := List.exists_mem_of_length_pos (Nat.pos_of_ne_zero h0.1)
    have := (mb o).1 ho
    exact List.ne_nil_of_mem (mem_without.2 ⟨this.1, hid o this.1 this.2⟩)
  obtain ⟨b3, s3, e3, sb3, ss3, mb3, ms3⟩ :=
    C14_exact (⟨h.feeLt, hwn, hsn, fun o ho => pB o ((without_sub _ _).subset ho), pS⟩ : PruneInput fee (without b u) s)
  obtain rfl : b3 = b' := by
    refine sublist_ext (nodup_of_ids hb.idsB) (sb3.trans (without_sub _ _)) sb fun o => ?_
    rw [mb3, mb, mem_without]
    exact ⟨fun ⟨h1, h2⟩ => ⟨h1.1, h2⟩, fun ⟨h1, h2⟩ => ⟨⟨h1, hid o h1 h2⟩, h2⟩⟩
  obtain rfl : s3 = s' := by
    refine sublist_ext (nodup_of_ids hb.idsS) ss3 ss fun c => ?_
    rw [ms3, ms]
    refine and_congr_right fun hc => ⟨fun ⟨o, ho, hm⟩ => ⟨o, (mem_without.1 ho).1, hm⟩, fun ⟨o, ho, hm⟩ => ⟨o, mem_without.2 ⟨ho, hid o ho ⟨c, hc, hm⟩⟩, hm⟩⟩
  rw [e3, ok_bind]
  dsimp only
  rw [if_neg h0]
  split at hr
  · rename_i hF
    rw [if_pos hF]
    rw [bind_eq_ok] at hr
    obtain ⟨t, et, hr⟩ := hr
    rw [et, ok_bind]
    exact ⟨_, rfl⟩
  · rename_i hF
    rw [if_neg hF]
    rw [bind_eq_ok] at hr
    obtain ⟨t, et, hr⟩ := hr
    rw [et, ok_bind]
    exact ⟨_, rfl⟩

theorem solve_dropS {cfg : Config} {ext : Ext} {pair : Token × Token} {fee : Fee} {xrate : Option ℚ} {pool : List Order} {b s f : List Order} {u : Order}
    {r₀ : MatchResult} (h : RunInput cfg ext pair fee xrate pool) (hb : BookOf pool pair fee { b, s, f })
    (hu : ∀ o ∈ s, o.id = u.id → ∀ c ∈ b, ¬ Matchable fee c o) (hr : solveTokenPairAndFee cfg ext pair b s f fee xrate = .ok r₀) (ht : r₀.sol ≠ .trivial) :
    ∃ r, solveTokenPairAndFee cfg ext pair b (without s u) f fee xrate = .ok r := by
  unfold solveTokenPairAndFee at hr ⊢
  rw [bind_eq_ok] at hr
  obtain ⟨⟨b', s'⟩, e, hr⟩ := hr
  obtain ⟨hbn, hsn⟩ := prune_ne e
  have pB : ∀ o ∈ b, 0 < o.maxXrate := fun o ho => ((hb.derB o ho).ok h.pool).1
  have pS : ∀ o ∈ s, 0 < o.maxXrate := fun o ho => ((hb.derS o ho).ok h.pool).1
  obtain ⟨b2, s2, e2, sb, ss, mb, ms⟩ := C14_exact (⟨h.feeLt, hbn, hsn, pB, pS⟩ : PruneInput fee b s)
  rw [e] at e2
  obtain ⟨rfl, rfl⟩ := Prod.mk.inj (Except.ok.inj e2)
  dsimp only at hr
  split at hr
  · cases hr; exact absurd rfl ht
  rename_i h0
  have hid : ∀ o ∈ s, (∃ c ∈ b, Matchable fee c o) → o.id ≠ u.id := fun o ho ⟨c, hc, hm⟩ he => hu o ho he c hc hm
  have hwn : without s u ≠ [] := by
    push Not at h0
    obtain ⟨o, ho⟩ := List.exists_mem_of_length_pos (Nat.pos_of_ne_zero h0.2)
    have := (ms o).1 ho
    exact List.ne_nil_of_mem (mem_without.2 ⟨this.1, hid o this.1 this.2⟩)
  obtain ⟨b3, s3, e3, sb3, ss3, mb3, ms3⟩ :=
    C14_exact (⟨h.feeLt, hbn, hwn, pB, fun o ho => pS o ((without_sub _ _).subset ho)⟩ : PruneInput fee b (without s u))
  obtain rfl : s3 = s' := by
    refine sublist_ext (nodup_of_ids hb.idsS) (ss3.trans (without_sub _ _)) ss fun o => ?_
    rw [ms3, ms, mem_without]
    exact ⟨fun ⟨h1, h2⟩ => ⟨h1.1, h2⟩, fun ⟨h1, h2⟩ => ⟨⟨h1, hid o h1 h2⟩, h2⟩⟩
  obtain rfl : b3 = b' := by
    refine sublist_ext (nodup_of_ids hb.idsB) sb3 sb fun c => ?_
    rw [mb3, mb]
    refine and_congr_right fun hc => ⟨fun ⟨o, ho, hm⟩ => ⟨o, (mem_without.1 ho).1, hm⟩, fun ⟨o, ho, hm⟩ => ⟨o, mem_without.2 ⟨ho, hid o ho ⟨c, hc, hm⟩⟩, hm⟩⟩
  rw [e3, ok_bind]
  dsimp only
  rw [if_neg h0]
  split at hr
  · rename_i hF
    rw [if_pos hF]
    rw [bind_eq_ok] at hr
    obtain ⟨t, et, hr⟩ := hr
    rw [et, ok_bind]
    exact ⟨_, rfl⟩
  · rename_i hF
    rw [if_neg hF]
    rw [bind_eq_ok] at hr
    obtain ⟨t, et, hr⟩ := hr
    rw [et, ok_bind]
    exact ⟨_, rfl⟩

/-- The order found does not change when orders that are not executed are left out. -/
theorem firstLeast_filter {l : List Order} {p : Order → Bool} {o : Order} (h : FirstLeast l o) (h0 : ∀ c ∈ l, p c = false → c.buy = 0) :
    FirstLeast (l.filter p) o := by
  obtain ⟨hp, pre, post, rfl, h1, h2⟩ := h
  have hpo : p o = true := by
    by_contra hn
    have := h0 o (by simp) (by simpa using hn)
    linarith
  refine ⟨hp, pre.filter p, post.filter p, ?_, fun c hc => h1 c (List.mem_filter.1 hc).1, fun c hc => h2 c (List.mem_filter.1 hc).1⟩
  rw [List.filter_append, List.filter_cons, if_pos hpo]

theorem run_dropB {cfg : Config} {ext : Ext} {pair : Token × Token} {fee : Fee} {xrate : Option ℚ} {pool : List Order} {b s f : List Order} {u : Order}
    {sol : Solution} (h : RunInput cfg ext pair fee xrate pool) (hb : BookOf pool pair fee { b, s, f }) (zb : ∀ o ∈ b, o.buy = 0)
    (hu : ∀ o ∈ b, o.id = u.id → ∀ c ∈ s, ¬ Matchable fee o c) (ht : sol ≠ .trivial)
    (hr : ViabilityRun cfg fee pair (fun b s => solveTokenPairAndFee cfg ext pair b s f fee xrate) b s sol) :
    ViabilityRun cfg fee pair (fun b s => solveTokenPairAndFee cfg ext pair b s f fee xrate) (without b u) s sol := by
  have key : ∀ {b s : List Order} {r₀ : MatchResult}, BookOf pool pair fee { b, s, f } → (∀ o ∈ b, o.buy = 0) →
      (∀ o ∈ b, o.id = u.id → ∀ c ∈ s, ¬ Matchable fee o c) → solveTokenPairAndFee cfg ext pair b s f fee xrate = .ok r₀ → r₀.sol ≠ .trivial →
      ∃ r, solveTokenPairAndFee cfg ext pair (without b u) s f fee xrate = .ok r ∧ r.sol = r₀.sol ∧ r.books.s = r₀.books.s ∧
        ∀ o, FirstLeast r₀.books.b o → FirstLeast r.books.b o := by
    intro b s r₀ hb zb hu h1 h2
    obtain ⟨r, e⟩ := solve_dropB h hb hu h1 h2
    obtain ⟨r₁, e1, e2, e3⟩ := solve_skipB h hb hu e
    rw [h1] at e1; cases e1
    rcases e3 with e3 | ⟨e3, e4, e5⟩
    · exact absurd (e2.trans e3) h2
    · refine ⟨r, e, e2.symm, e5.symm, fun o ho => ?_⟩
      rw [e3]
      refine firstLeast_filter ho fun c hc hn => zb c (e4 c hc ?_)
      simpa using hn
  induction hr with
  | empty => exact absurd rfl ht
  | stop h1 h2 =>
    obtain ⟨r, e, e1, _⟩ := key hb zb hu h1 ht
    rw [← e1] at h2 ⊢
    exact .stop e h2
  | hopeless => exact absurd rfl ht
  | @dropB b s os r o c pb ps sol h1 h2 h3 h4 h5 h6 h7 h8 h9 _ ih =>
    obtain ⟨r', e, e1, e2, e3⟩ := key hb zb hu h1 (not_viable_ne h2)
    rw [← e1] at h2 h3 h7 h8
    rw [← e2] at h6
    refine .dropB e h2 h3 h4 (e3 o h5) h6 h7 h8 h9 ?_
    rw [without_comm]
    exact ih (hb.sub (without_sub b o) (List.Sublist.refl _) (List.Sublist.refl _)) (fun c hc => zb c ((without_sub _ _).subset hc))
      (fun c hc => hu c ((without_sub _ _).subset hc)) ht
  | @dropS b s os r o c pb ps sol h1 h2 h3 h4 h5 h6 h7 h8 h9 _ ih =>
    obtain ⟨r', e, e1, e2, e3⟩ := key hb zb hu h1 (not_viable_ne h2)
    rw [← e1] at h2 h3 h7 h8
    rw [← e2] at h6
    exact .dropS e h2 h3 h4 (e3 o h5) h6 h7 h8 h9 (ih (hb.sub (List.Sublist.refl _) (without_sub s c) (List.Sublist.refl _)) zb
      (fun c hc hid d hd => hu c hc hid d ((without_sub _ _).subset hd)) ht)

theorem run_dropS {cfg : Config} {ext : Ext} {pair : Token × Token} {fee : Fee} {xrate : Option ℚ} {pool : List Order} {b s f : List Order} {u : Order}
    {sol : Solution} (h : RunInput cfg ext pair fee xrate pool) (hb : BookOf pool pair fee { b, s, f }) (zs : ∀ o ∈ s, o.buy = 0)
    (hu : ∀ o ∈ s, o.id = u.id → ∀ c ∈ b, ¬ Matchable fee c o) (ht : sol ≠ .trivial)
    (hr : ViabilityRun cfg fee pair (fun b s => solveTokenPairAndFee cfg ext pair b s f fee xrate) b s sol) :
    ViabilityRun cfg fee pair (fun b s => solveTokenPairAndFee cfg ext pair b s f fee xrate) b (without s u) sol := by
  have key : ∀ {b s : List Order} {r₀ : MatchResult}, BookOf pool pair fee { b, s, f } → (∀ o ∈ s, o.buy = 0) →
      (∀ o ∈ s, o.id = u.id → ∀ c ∈ b, ¬ Matchable fee c o) → solveTokenPairAndFee cfg ext pair b s f fee xrate = .ok r₀ → r₀.sol ≠ .trivial →
      ∃ r, solveTokenPairAndFee cfg ext pair b (without s u) f fee xrate = .ok r ∧ r.sol = r₀.sol ∧ r.books.b = r₀.books.b ∧
        ∀ o, FirstLeast r₀.books.s o → FirstLeast r.books.s o := by
    intro b s r₀ hb zs hu h1 h2
    obtain ⟨r, e⟩ := solve_dropS h hb hu h1 h2
    obtain ⟨r₁, e1, e2, e3⟩ := solve_skipS h hb hu e
    rw [h1] at e1; cases e1
    rcases e3 with e3 | ⟨e3, e4, e5⟩
    · exact absurd (e2.trans e3) h2
    · refine ⟨r, e, e2.symm, e5.symm, fun o ho => ?_⟩
      rw [e3]
      refine firstLeast_filter ho fun c hc hn => zs c (e4 c hc ?_)
      simpa using hn
  induction hr with
  | empty => exact absurd rfl ht
  | stop h1 h2 =>
    obtain ⟨r, e, e1, _⟩ := key hb zs hu h1 ht
    rw [← e1] at h2 ⊢
    exact .stop e h2
  | hopeless => exact absurd rfl ht
  | @dropB b s os r o c pb ps sol h1 h2 h3 h4 h5 h6 h7 h8 h9 _ ih =>
    obtain ⟨r', e, e1, e2, e3⟩ := key hb zs hu h1 (not_viable_ne h2)
    rw [← e1] at h2 h3 h7 h8
    rw [← e2] at h5
    exact .dropB e h2 h3 h4 h5 (e3 c h6) h7 h8 h9 (ih (hb.sub (without_sub b o) (List.Sublist.refl _) (List.Sublist.refl _)) zs
      (fun c hc hid d hd => hu c hc hid d ((without_sub _ _).subset hd)) ht)
  | @dropS b s os r o c pb ps sol h1 h2 h3 h4 h5 h6 h7 h8 h9 _ ih =>
    obtain ⟨r', e, e1, e2, e3⟩ := key hb zs hu h1 (not_viable_ne h2)
    rw [← e1] at h2 h3 h7 h8
    rw [← e2] at h5
    refine .dropS e h2 h3 h4 h5 (e3 c h6) h7 h8 h9 ?_
    rw [without_comm]
    exact ih (hb.sub (List.Sublist.refl _) (without_sub s c) (List.Sublist.refl _)) (fun c hc => zs c ((without_sub _ _).subset hc))
      (fun c hc => hu c ((without_sub _ _).subset hc)) ht

/-! ### The loop follows the run -/

theorem relB_fresh (l : List Order) : RelB l (l.map fresh) := by
  induction l with
  | nil => exact .nil
  | cons o l ih => exact .cons (sameButExec_iff.2 ⟨0, 0, rfl⟩) ih

theorem fresh_zero (l : List Order) : ∀ o ∈ l.map fresh, o.buy = 0 := by
  intro o ho
  obtain ⟨c, _, rfl⟩ := List.mem_map.1 ho
  rfl

theorem length_filter_lt_of_mem {l : List Order} {m : Order} (h : m ∈ l) : (l.filter (fun o => decide (o.id ≠ m.id))).length < l.length :=
  List.length_filter_lt_length_iff_exists.2 ⟨m, h, by simp⟩

theorem economicLoop_complete {cfg : Config} {ext : Ext} {pair : Token × Token} {fee : Fee} {xrate : Option ℚ} {pool : List Order}
    (h : RunInput cfg ext pair fee xrate pool) {fuel : ℕ} {bk : Books} {gone : List Order} {cur sol : Solution} {b s f : List Order}
    (hb : BookOf pool pair fee bk) (rb : RelB bk.b b) (rs : RelB bk.s s) (rf : RelB bk.f f) (zb : ∀ o ∈ b, o.buy = 0) (zs : ∀ o ∈ s, o.buy = 0)
    (hfuel : bk.b.length + bk.s.length < fuel) (ht : sol ≠ .trivial)
    (hr : ViabilityRun cfg fee pair (fun b s => solveTokenPairAndFee cfg ext pair b s f fee xrate) b s sol) :
    ∃ objs, economicLoop cfg ext pair fee xrate fuel bk gone cur = .ok (sol, objs) := by
  induction fuel generalizing bk gone cur b s with
  | zero => omega
  | succ fuel ih =>
    have hn : ∀ r, solveTokenPairAndFee cfg ext pair [] [] f fee xrate ≠ .ok r := fun r e => (solve_ne e).1 rfl
    obtain ⟨r₀, e₀, ht₀⟩ := run_solve hr ht
    have hstep := run_step hr hn e₀
    obtain ⟨r, h1, _⟩ := (solveTokenPairAndFee_rel (RelB.symm rb) (RelB.symm rs) (RelB.symm rf)).ok_iff e₀
    have hb0 : BookOf pool pair fee { b := bk.b, s := bk.s, f := bk.f } := hb
    obtain ⟨g1, g2⟩ := solveTokenPairAndFee_spec h.pool h.cfg h.feeLt hb0 h.ne h.branch h.rate h1
    have hbk : BookOf pool pair fee r.books := hb0.same g1
    have hbf : BookOf pool pair fee { b, s, f } := hb0.same (bk' := { b, s, f }) ⟨rb, rs, rf⟩
    obtain ⟨r₁, e₁, esol, stB, stS⟩ := solve_stale h hb0 rb rs rf zb zs h1
    rw [e₀] at e₁; cases e₁
    have rb' : RelB r.books.b b := forall₂_same_trans (RelB.symm g1.b) rb
    have rs' : RelB r.books.s s := forall₂_same_trans (RelB.symm g1.s) rs
    have rf' : RelB r.books.f f := forall₂_same_trans (RelB.symm g1.f) rf
    have hg : GoodSolution cfg fee pool r.sol := g2.resolve_left (by rw [esol]; exact ht₀)
    have hbp : BuyPriced r.sol.prices r.sol.orders := by
      intro o ho
      have := hg.priced o ho
      rw [priced_iff] at this
      exact this.1
    have hv := viable_iff (cfg := cfg) (fee := fee) (by have := h.cfg.feePrice; omega) hbp
    obtain ⟨v1, v2⟩ := isEconomicViable_iff h.cfg g2 hv
    have hlen : bk.b.length > 0 ∨ bk.s.length > 0 := .inl (List.length_pos_iff.2 (solve_ne h1).1)
    unfold economicLoop
    rw [if_pos hlen, h1, ok_bind]
    dsimp only
    rw [hv, ok_bind]
    rw [← esol] at hstep
    rcases hstep with ⟨hvi, e⟩ | ⟨hnv, os, hos, hrest⟩
    · rw [if_pos (.inl (v1.2 hvi))]
      exact ⟨_, by rw [e]; rfl⟩
    · rw [if_neg (by rintro (hc | hc); exacts [hnv (v1.1 hc), hnv (v2 hc)]), hos, ok_bind]
      rcases hrest with ⟨_, e⟩ | ⟨hne, o, c, pb, ps, f1, f2, p1, p2, hcase⟩
      · exact absurd e ht
      rw [if_neg (fun e => hne (List.length_eq_zero_iff.1 e))]
      have exB : ∃ x ∈ r.books.b, 0 < x.buy := by
        obtain ⟨x, hx, hs⟩ := forall₂_mem_r stB o f1.mem
        rcases hs.2 with e | ⟨e, _⟩
        · exact ⟨x, hx, by rw [e]; exact f1.1⟩
        · exact absurd f1.1 (by rw [e]; exact lt_irrefl _)
      have exS : ∃ x ∈ r.books.s, 0 < x.buy := by
        obtain ⟨x, hx, hs⟩ := forall₂_mem_r stS c f2.mem
        rcases hs.2 with e | ⟨e, _⟩
        · exact ⟨x, hx, by rw [e]; exact f2.1⟩
        · exact absurd f2.1 (by rw [e]; exact lt_irrefl _)
      obtain ⟨bm, hbm⟩ := pyMinBy_exists exB
      obtain ⟨sm, hsm⟩ := pyMinBy_exists exS
      have fb := pyMinBy_first hbm
      have fs := pyMinBy_first hsm
      rw [hbm, ok_bind, hsm, ok_bind, dictGet_eq_ok.2 (priceOf_iff.1 p1), ok_bind, dictGet_eq_ok.2 (priceOf_iff.1 p2), ok_bind]
      have pb0 := (hg.intPrices.of p1).1
      have ps0 := (hg.intPrices.of p2).1
      have lB : bm.buy ≤ o.buy := by
        obtain ⟨d, hd, hs⟩ := forall₂_mem_r stB o f1.mem
        rcases hs.2 with e | ⟨e, _⟩
        · rw [← e]; exact fb.least hd (by rw [e]; exact f1.1)
        · exact absurd f1.1 (by rw [e]; exact lt_irrefl _)
      have lS : sm.buy ≤ c.buy := by
        obtain ⟨d, hd, hs⟩ := forall₂_mem_r stS c f2.mem
        rcases hs.2 with e | ⟨e, _⟩
        · rw [← e]; exact fs.least hd (by rw [e]; exact f2.1)
        · exact absurd f2.1 (by rw [e]; exact lt_irrefl _)
      have frel : ∀ {l l' : List Order} (m : Order), RelB l l' → RelB (without l m) (without l' m) := fun m hl =>
        filter_rel hl (fun a c hac => by rw [id_same _ _ hac])
      have lenB := g1.b.length_eq
      have lenS := g1.s.length_eq
      split
      · rename_i hlt
        have hlen' := length_filter_lt_of_mem fb.mem
        refine ih (b := without b bm) (s := s) (hbk.sub List.filter_sublist (List.Sublist.refl _) (List.Sublist.refl _)) (frel bm rb') rs' rf'
          (fun o ho => zb o ((without_sub _ _).subset ho)) zs (by dsimp only at hlen' lenB lenS ⊢; omega) ?_
        rcases firstLeast_stale stB fb with ⟨m₀, k1, k2, k3⟩ | ⟨km, kn⟩
        · have ew : without b bm = without b o := by unfold without; rw [id_same _ _ k2, firstLeast_unique k1 f1]
          rw [ew]
          rcases hcase with ⟨_, hrun⟩ | ⟨hle, _⟩
          · exact hrun
          · exfalso
            rw [firstLeast_unique k1 f1] at k3
            rw [k3] at hlt
            have := mul_le_mul_of_nonneg_right lS ps0.le
            linarith
        · refine run_dropB h hbf zb ?_ ht hr
          intro o ho hid c hc
          obtain ⟨o', ho', so⟩ := forall₂_mem_r rb o ho
          obtain ⟨c', hc', sc⟩ := forall₂_mem_r rs c hc
          have : o' = bm := List.inj_on_of_nodup_map hb.idsB ho' km ((id_same _ _ so).trans hid)
          subst this
          have := kn c' hc'
          obtain ⟨_, _, rfl⟩ := sameButExec_iff.1 so
          obtain ⟨_, _, rfl⟩ := sameButExec_iff.1 sc
          exact this
      · rename_i hlt
        push Not at hlt
        have hlen' := length_filter_lt_of_mem fs.mem
        refine ih (b := b) (s := without s sm) (hbk.sub (List.Sublist.refl _) List.filter_sublist (List.Sublist.refl _)) rb' (frel sm rs') rf'
          zb (fun o ho => zs o ((without_sub _ _).subset ho)) (by dsimp only at hlen' lenB lenS ⊢; omega) ?_
        rcases firstLeast_stale stS fs with ⟨m₀, k1, k2, k3⟩ | ⟨km, kn⟩
        · have ew : without s sm = without s c := by unfold without; rw [id_same _ _ k2, firstLeast_unique k1 f2]
          rw [ew]
          rcases hcase with ⟨hlt', _⟩ | ⟨_, hrun⟩
          · exfalso
            rw [firstLeast_unique k1 f2] at k3
            rw [k3] at hlt
            have := mul_le_mul_of_nonneg_right lB pb0.le
            linarith
          · exact hrun
        · refine run_dropS h hbf zs ?_ ht hr
          intro o ho hid c hc
          obtain ⟨o', ho', so⟩ := forall₂_mem_r rs o ho
          obtain ⟨c', hc', sc⟩ := forall₂_mem_r rb c hc
          have : o' = sm := List.inj_on_of_nodup_map hb.idsS ho' km ((id_same _ _ so).trans hid)
          subst this
          have := kn c' hc'
          obtain ⟨_, _, rfl⟩ := sameButExec_iff.1 so
          obtain ⟨_, _, rfl⟩ := sameButExec_iff.1 sc
          exact this

/-- C63. The search returns a given non-trivial solution iff it is the outcome of the run and passes validation. (A run that ends with the trivial
solution may instead raise `ValueError`.) -/
theorem C63_iff {cfg : Config} {ext : Ext} {pair : Token × Token} {fee : Fee} {xrate : Option ℚ} {pool : List Order} {accounts : Accounts} {b s f : List Order}
    {sol : Solution} (h : RunInput cfg ext pair fee xrate pool) (hb : BookOf pool pair fee { b, s, f }) (ht : sol ≠ .trivial) :
    (∃ objs, solveEconomicViable cfg ext pair accounts b s f fee xrate = .ok (sol, objs)) ↔
      ViabilityRun cfg fee pair (fun b s => solveTokenPairAndFee cfg ext pair b s (f.map fresh) fee xrate) (b.map fresh) (s.map fresh) sol ∧
        validate cfg ext.fdiv accounts sol.orders sol.prices fee = .ok () := by
  constructor
  · rintro ⟨objs, hr⟩
    refine ⟨C63_run h hb hr, ?_⟩
    unfold solveEconomicViable at hr
    rw [bind_eq_ok] at hr
    obtain ⟨⟨sol', objs'⟩, h1, hr⟩ := hr
    rw [bind_eq_ok] at hr
    obtain ⟨_, hv, hr⟩ := hr
    cases hr
    exact hv
  · rintro ⟨hrun, hv⟩
    obtain ⟨objs, e⟩ := economicLoop_complete h (gone := []) (cur := .trivial) hb (relB_fresh b) (relB_fresh s) (relB_fresh f) (fresh_zero b) (fresh_zero s)
      (fuel := b.length + s.length + 1) (by dsimp only; omega) ht hrun
    refine ⟨objs, ?_⟩
    unfold solveEconomicViable
    rw [e, ok_bind]
    dsimp only
    rw [hv]
    rfl

/-! ### Evaluating pairs -/

theorem fresh_map_eq {l l' : List Order} (h : RelB l l') : l.map fresh = l'.map fresh := by
  induction h with
  | nil => rfl
  | cons hab _ ih =>
    rw [List.map_cons, List.map_cons, ih]
    obtain ⟨_, _, rfl⟩ := sameButExec_iff.1 hab
    rfl

theorem selected_rel {l l' : List Order} (h : RelB l l') (x y : Token) : RelB (ordersBuyingSelling l x y) (ordersBuyingSelling l' x y) :=
  filter_rel h (by intro a b hab; obtain ⟨_, _, rfl⟩ := sameButExec_iff.1 hab; rfl)

theorem feeOrders_rel {l l' : List Order} (h : RelB l l') (pair : Token × Token) (fee : Fee) : RelB (feeOrdersFor l pair fee) (feeOrdersFor l' pair fee) := by
  unfold feeOrdersFor
  split
  · exact selected_rel h _ _
  · exact List.Forall₂.nil

/-- Whatever amounts are left on the order objects: two evaluations of a pair that succeed find the same solution. -/
theorem matchTokenPair_agree {cfg : Config} {ext : Ext} {pair : Token × Token} {accounts : Accounts} {orders u1 u2 os1 os2 : List Order} {fee : Fee}
    {sol1 sol2 : Solution} (hc : CfgOk cfg) (hf : fee.value < 1) (hne : pair.1 ≠ pair.2) (hbr : ∀ E, MaxBranching E (ext.branch E)) (hp : Pool orders)
    (h1 : List.Forall₂ SameButExec orders u1) (h2 : List.Forall₂ SameButExec orders u2)
    (e1 : matchTokenPair cfg ext pair accounts u1 fee = .ok (sol1, os1)) (e2 : matchTokenPair cfg ext pair accounts u2 fee = .ok (sol2, os2)) :
    sol1 = sol2 := by
  have h12 : RelB u1 u2 := forall₂_same_trans (RelB.symm h1) h2
  have hB1 := bookOf_pair hp h1 pair fee
  have hB2 := bookOf_pair hp h2 pair fee
  have hl := fun x y => (selected_rel h12 x y).length_eq
  have hlf := (feeOrders_rel h12 pair fee).length_eq
  unfold matchTokenPair at e1 e2
  dsimp only at e1 e2
  rw [show (if pair.1 ≠ fee.token then ordersBuyingSelling u1 pair.1 fee.token else []) = feeOrdersFor u1 pair fee from rfl] at e1
  rw [show (if pair.1 ≠ fee.token then ordersBuyingSelling u2 pair.1 fee.token else []) = feeOrdersFor u2 pair fee from rfl] at e2
  rw [hl, hl, hlf] at e1
  by_cases c1 : (ordersBuyingSelling u2 pair.1 pair.2).length = 0
  · rw [if_pos c1] at e1 e2; cases e1; cases e2; rfl
  rw [if_neg c1] at e1 e2
  by_cases c2 : (ordersBuyingSelling u2 pair.2 pair.1).length = 0
  · rw [if_pos c2] at e1 e2; cases e1; cases e2; rfl
  rw [if_neg c2] at e1 e2
  by_cases c3 : pair.1 ≠ fee.token ∧ (feeOrdersFor u2 pair fee).length = 0
  · rw [if_pos c3] at e1 e2; cases e1; cases e2; rfl
  rw [if_neg c3, bind_eq_ok] at e1 e2
  obtain ⟨⟨s1, o1⟩, e1, k1⟩ := e1
  obtain ⟨⟨s2, o2⟩, e2, k2⟩ := e2
  cases k1; cases k2
  have hi : RunInput cfg ext pair fee none orders := ⟨hp, hc, hf, hne, hbr, by simp⟩
  have r1 := C63_run hi hB1 e1
  have r2 := C63_run hi hB2 e2
  rw [fresh_map_eq (selected_rel h12 _ _), fresh_map_eq (selected_rel h12 _ _), fresh_map_eq (feeOrders_rel h12 _ _)] at r1
  exact C63_run_unique (fun r e => (solve_ne e).1 rfl) r1 r2

/-- C43. Whatever the thresholds: two successful evaluations of a pair, on order objects with any amounts left by other evaluations, find the same
objective and solution. -/
theorem C43_evaluations_agree {cfg : Config} {ext : Ext} {pair : Token × Token} {accounts : Accounts} {orders u1 u2 os1 os2 : List Order} {fee : Fee}
    {obj1 obj2 : ℚ} {sol1 sol2 : Solution} (hc : CfgOk cfg) (hf : fee.value < 1) (hne : pair.1 ≠ pair.2) (hbr : ∀ E, MaxBranching E (ext.branch E))
    (hp : Pool orders) (h1 : List.Forall₂ SameButExec orders u1) (h2 : List.Forall₂ SameButExec orders u2)
    (e1 : matchAndEvaluate cfg ext pair accounts u1 fee = .ok (obj1, sol1, os1)) (e2 : matchAndEvaluate cfg ext pair accounts u2 fee = .ok (obj2, sol2, os2)) :
    obj1 = obj2 ∧ sol1 = sol2 := by
  unfold matchAndEvaluate at e1 e2
  rw [bind_eq_ok] at e1 e2
  obtain ⟨⟨s1, o1⟩, m1, e1⟩ := e1
  obtain ⟨⟨s2, o2⟩, m2, e2⟩ := e2
  obtain rfl := matchTokenPair_agree hc hf hne hbr hp h1 h2 m1 m2
  simp only [bind_eq_ok] at e1 e2
  obtain ⟨a1, q1, v1, w1, e1⟩ := e1
  obtain ⟨a2, q2, v2, w2, e2⟩ := e2
  rw [q1] at q2; cases q2
  rw [w1] at w2; cases w2
  cases e1; cases e2
  exact ⟨rfl, rfl⟩

theorem bestLoop_agree {cfg : Config} {ext : Ext} {accounts : Accounts} {orders : List Order} {fee : Fee} (hc : CfgOk cfg) (hf : fee.value < 1)
    (hbr : ∀ E, MaxBranching E (ext.branch E)) (hp : Pool orders) {val : Token × Token → ℚ}
    (hval : ∀ p, p.1 ≠ p.2 → ∀ u r, List.Forall₂ SameButExec orders u → matchAndEvaluate cfg ext p accounts u fee = .ok r → val p = r.1)
    {pairs : List (Token × Token)} (hv : ∀ p ∈ pairs, p.1 ≠ p.2) {st0 st : BestState} (hs : List.Forall₂ SameButExec orders st0.orders)
    (h : bestLoop cfg ext accounts fee (pairs.map (fun p => (p, false))) st0 = .ok st) :
    st.objective = (pairs.map val).foldl max st0.objective := by
  induction pairs generalizing st0 with
  | nil => cases h; rfl
  | cons p pairs ih =>
    rw [List.map_cons] at h
    unfold bestLoop at h
    dsimp only at h
    rw [bind_eq_ok] at h
    obtain ⟨⟨obj, sol, os⟩, e, h⟩ := h
    have hos : List.Forall₂ SameButExec orders os := by
      unfold matchAndEvaluate at e
      simp only [bind_eq_ok] at e
      obtain ⟨⟨sol'', os''⟩, h3, acc, _, obj'', _, e⟩ := e
      cases e
      exact (matchTokenPair_spec hc hf (hv p (by simp)) hbr hp hs h3).1
    simp only [Bool.false_eq_true, if_false] at h
    rw [List.map_cons, List.foldl_cons, hval p (hv p (by simp)) _ _ hs e]
    have hmax : (if obj > st0.objective then ({ objective := obj, sol, orders := os } : BestState) else { st0 with orders := os }).objective =
        max st0.objective obj := by
      split
      · rename_i h; exact (max_eq_right (le_of_lt h)).symm
      · rename_i h; exact (max_eq_left (not_lt.1 h)).symm
    have hord : List.Forall₂ SameButExec orders
        (if obj > st0.objective then ({ objective := obj, sol, orders := os } : BestState) else { st0 with orders := os }).orders := by
      split <;> exact hos
    have := ih (fun q hq => hv q (by simp [hq])) hord h
    rw [hmax] at this
    exact this

/-- C43. Whatever the thresholds, without time-out, on well-formed orders: if the search succeeds for two orders of visits, it finds the same best
objective for both. -/
theorem C43_any_thresholds {cfg : Config} {ext : Ext} {accounts : Accounts} {orders : List Order} {fee : Fee} (hc : CfgOk cfg)
    (hf : fee.value < 1) (hbr : ∀ E, MaxBranching E (ext.branch E)) (hp : Pool orders) {pairs pairs' : List (Token × Token)} (hperm : pairs.Perm pairs')
    (hv : ∀ p ∈ pairs, p.1 ≠ p.2) {st st' : BestState} (h : bestTokenPair cfg ext accounts orders fee (pairs.map (fun p => (p, false))) = .ok st)
    (h' : bestTokenPair cfg ext accounts orders fee (pairs'.map (fun p => (p, false))) = .ok st') : st.objective = st'.objective := by
  classical
  have hval : ∃ val : Token × Token → ℚ, ∀ p, p.1 ≠ p.2 → ∀ u r, List.Forall₂ SameButExec orders u →
      matchAndEvaluate cfg ext p accounts u fee = .ok r → val p = r.1 := by
    refine ⟨fun p => if hx : ∃ v u r, List.Forall₂ SameButExec orders u ∧ matchAndEvaluate cfg ext p accounts u fee = .ok r ∧ r.1 = v then hx.choose else 0, ?_⟩
    rintro p hne u ⟨v, sol, os⟩ hu he
    have hx : ∃ v u r, List.Forall₂ SameButExec orders u ∧ matchAndEvaluate cfg ext p accounts u fee = .ok r ∧ r.1 = v := ⟨_, _, _, hu, he, rfl⟩
    dsimp only
    rw [dif_pos hx]
    obtain ⟨u', ⟨v', sol', os'⟩, hu', he', e⟩ := hx.choose_spec
    rw [← e]
    exact (C43_evaluations_agree hc hf hne hbr hp hu' hu he' he).1
  obtain ⟨val, hval⟩ := hval
  unfold bestTokenPair at h h'
  rw [bestLoop_agree hc hf hbr hp hval hv (st0 := { objective := 0, sol := .trivial, orders }) (forall₂_same_refl _) h,
    bestLoop_agree hc hf hbr hp hval (fun p hp => hv p (hperm.mem_iff.2 hp)) (st0 := { objective := 0, sol := .trivial, orders }) (forall₂_same_refl _) h']
  exact foldl_max_perm (hperm.map _) _

end Dex
