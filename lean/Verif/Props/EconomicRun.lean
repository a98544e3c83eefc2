import Verif.Props.Outcome
import Verif.Props.Viability

/-! # Property C63: the search for an economically viable solution -/

namespace Dex

namespace Spec

/-- An order object before any execution. -/
def fresh (o : Order) : Order := (o.withBuy 0).withSell 0

/-- `o` is the first of the executed orders of the list with the least buy amount. -/
def FirstLeast (l : List Order) (o : Order) : Prop :=
  0 < o.buy ∧ ∃ pre post, l = pre ++ o :: post ∧ (∀ c ∈ pre, 0 < c.buy → o.buy < c.buy) ∧ ∀ c ∈ post, 0 < c.buy → o.buy ≤ c.buy

/-- The list without the order (orders are known by their id). -/
def without (l : List Order) (o : Order) : List Order := l.filter (fun c => decide (c.id ≠ o.id))

/-- The solution executes no order, or there are no thresholds, or it meets them. -/
def Viable (cfg : Config) (fee : Fee) (sol : Solution) : Prop :=
  nrExecuted sol.orders = 0 ∨ (cfg.minAvgFee = 0 ∧ cfg.minAbsFee = 0) ∨ MeetsThresholds cfg sol.prices fee sol.orders

/-- The search: solve the problem with the orders `b`, `s`; stop if the solution is viable; give up if no subset of its orders looks viable; otherwise
remove the order of least value, taking for each list the first of the least buy amounts and preferring the second list, and go on. -/
inductive ViabilityRun (cfg : Config) (fee : Fee) (pair : Token × Token) (solve : List Order → List Order → Py MatchResult) :
    List Order → List Order → Solution → Prop
  | empty : ViabilityRun cfg fee pair solve [] [] .trivial
  | stop {b s : List Order} {r : MatchResult} : solve b s = .ok r → Viable cfg fee r.sol → ViabilityRun cfg fee pair solve b s r.sol
  | hopeless {b s : List Order} {r : MatchResult} : solve b s = .ok r → ¬ Viable cfg fee r.sol →
      approxViableSubset cfg r.sol.orders r.sol.prices fee = .ok [] → ViabilityRun cfg fee pair solve b s .trivial
  | dropB {b s os : List Order} {r : MatchResult} {o c : Order} {pb ps : ℚ} {sol : Solution} : solve b s = .ok r → ¬ Viable cfg fee r.sol →
      approxViableSubset cfg r.sol.orders r.sol.prices fee = .ok os → os ≠ [] → FirstLeast r.books.b o → FirstLeast r.books.s c →
      PriceOf r.sol.prices pair.1 pb → PriceOf r.sol.prices pair.2 ps → o.buy * pb < c.buy * ps →
      ViabilityRun cfg fee pair solve (without b o) s sol → ViabilityRun cfg fee pair solve b s sol
  | dropS {b s os : List Order} {r : MatchResult} {o c : Order} {pb ps : ℚ} {sol : Solution} : solve b s = .ok r → ¬ Viable cfg fee r.sol →
      approxViableSubset cfg r.sol.orders r.sol.prices fee = .ok os → os ≠ [] → FirstLeast r.books.b o → FirstLeast r.books.s c →
      PriceOf r.sol.prices pair.1 pb → PriceOf r.sol.prices pair.2 ps → c.buy * ps ≤ o.buy * pb →
      ViabilityRun cfg fee pair solve b (without s c) sol → ViabilityRun cfg fee pair solve b s sol

end Spec

open Spec

/-! ### Lists -/

theorem minByAux_first {α : Type} (key : α → ℚ) (a : α) (l : List α) : ∃ pre post, a :: l = pre ++ minByAux key a l :: post ∧
    (∀ c ∈ pre, key (minByAux key a l) < key c) ∧ ∀ c ∈ post, key (minByAux key a l) ≤ key c := by
  induction l generalizing a with
  | nil => exact ⟨[], [], rfl, by simp, by simp⟩
  | cons c l ih =>
    unfold minByAux
    have hm := minByAux_spec key (if key c < key a then c else a) l
    by_cases h : key c < key a
    · rw [if_pos h] at hm ⊢
      obtain ⟨pre, post, e, h1, h2⟩ := ih c
      refine ⟨a :: pre, post, by rw [e]; rfl, ?_, h2⟩
      intro d hd
      rcases List.mem_cons.1 hd with rfl | hd
      · exact (hm.2 c (by simp)).trans_lt h
      · exact h1 d hd
    · rw [if_neg h] at hm ⊢
      push Not at h
      obtain ⟨pre, post, e, h1, h2⟩ := ih a
      cases pre with
      | nil =>
        simp only [List.nil_append, List.cons.injEq] at e
        refine ⟨[], c :: post, ?_, by simp, ?_⟩
        · rw [List.nil_append, ← e.1, ← e.2]
        · intro d hd
          rcases List.mem_cons.1 hd with rfl | hd
          · rw [← e.1]; exact h
          · exact h2 d hd
      | cons x pre =>
        simp only [List.cons_append, List.cons.injEq] at e
        obtain ⟨rfl, e⟩ := e
        refine ⟨a :: c :: pre, post, by rw [List.cons_append, List.cons_append, ← e], ?_, h2⟩
        intro d hd
        rcases List.mem_cons.1 hd with rfl | hd
        · exact h1 _ (by simp)
        rcases List.mem_cons.1 hd with rfl | hd
        · exact (h1 a (by simp)).trans_le h
        · exact h1 d (by simp [hd])

theorem split_of_filter {α : Type} {p : α → Bool} {l pre post : List α} {a : α} (h : l.filter p = pre ++ a :: post) :
    ∃ pre' post', l = pre' ++ a :: post' ∧ pre'.filter p = pre ∧ post'.filter p = post := by
  rw [List.filter_eq_append_iff] at h
  obtain ⟨l1, l2, rfl, h1, h2⟩ := h
  rw [List.filter_eq_cons_iff] at h2
  obtain ⟨m1, m2, rfl, h3, h4, h5⟩ := h2
  refine ⟨l1 ++ m1, m2, by simp, ?_, h5⟩
  rw [List.filter_append, h1, List.filter_eq_nil_iff.2 (by simpa using h3), List.append_nil]

theorem pyMinBy_first {l : List Order} {m : Order} (h : pyMinBy (·.buy) (l.filter (fun o => decide (o.buy > 0))) = .ok m) : FirstLeast l m := by
  have hm := (pyMinBy_spec h).1
  refine ⟨by have := (List.mem_filter.1 hm).2; simpa using this, ?_⟩
  cases hl : l.filter (fun o => decide (o.buy > 0)) with
  | nil => rw [hl] at hm; simp at hm
  | cons a l' =>
    rw [hl] at h
    obtain ⟨pre, post, e, h1, h2⟩ := minByAux_first (fun o : Order => o.buy) a l'
    have e0 : minByAux (fun o : Order => o.buy) a l' = m := by simpa [pyMinBy] using h
    rw [e0] at e h1 h2
    rw [e] at hl
    obtain ⟨pre', post', rfl, rfl, rfl⟩ := split_of_filter hl
    refine ⟨pre', post', rfl, fun c hc hp => h1 c ?_, fun c hc hp => h2 c ?_⟩ <;> simp [hc, hp]

theorem Spec.FirstLeast.mem {l : List Order} {o : Order} (h : FirstLeast l o) : o ∈ l := by
  obtain ⟨_, pre, post, rfl, _⟩ := h; simp

theorem Spec.FirstLeast.least {l : List Order} {o : Order} (h : FirstLeast l o) {c : Order} (hc : c ∈ l) (hp : 0 < c.buy) : o.buy ≤ c.buy := by
  obtain ⟨_, pre, post, rfl, h1, h2⟩ := h
  rcases List.mem_append.1 hc with hc | hc
  · exact (h1 c hc hp).le
  rcases List.mem_cons.1 hc with rfl | hc
  · exact le_rfl
  · exact h2 c hc hp

/-- Orders that are not executed do not matter. -/
theorem firstLeast_of_filter {l : List Order} {p : Order → Bool} {o : Order} (h : FirstLeast (l.filter p) o) (h0 : ∀ c ∈ l, p c = false → c.buy = 0) :
    FirstLeast l o := by
  obtain ⟨hp, pre, post, e, h1, h2⟩ := h
  obtain ⟨pre', post', rfl, rfl, rfl⟩ := split_of_filter e
  have key : ∀ c ∈ pre' ++ o :: post', 0 < c.buy → p c = true := by
    intro c hc hb
    by_contra hn
    have := h0 c hc (by simpa using hn)
    linarith
  refine ⟨hp, pre', post', rfl, fun c hc hb => h1 c ?_ hb, fun c hc hb => h2 c ?_ hb⟩
  · exact List.mem_filter.2 ⟨hc, key c (by simp [hc]) hb⟩
  · exact List.mem_filter.2 ⟨hc, key c (by simp [hc]) hb⟩

theorem sublist_ext {α : Type} {l l1 l2 : List α} (hn : l.Nodup) (h1 : l1.Sublist l) (h2 : l2.Sublist l) (h : ∀ a, a ∈ l1 ↔ a ∈ l2) : l1 = l2 := by
  induction l generalizing l1 l2 with
  | nil => rw [List.sublist_nil.1 h1, List.sublist_nil.1 h2]
  | cons x l ih =>
    rw [List.nodup_cons] at hn
    cases h1 with
    | cons _ h1 =>
      have hx : x ∉ l1 := fun hx => hn.1 (h1.subset hx)
      cases h2 with
      | cons _ h2 => exact ih hn.2 h1 h2 h
      | cons_cons _ h2 => exact absurd ((h x).2 (by simp)) hx
    | @cons_cons l1 _ _ h1 =>
      cases h2 with
      | cons _ h2 => exact absurd (h2.subset ((h x).1 (by simp))) hn.1
      | @cons_cons l2 _ _ h2 =>
        congr 1
        refine ih hn.2 h1 h2 fun a => ?_
        have := h a
        simp only [List.mem_cons] at this
        constructor
        · intro ha
          rcases this.1 (.inr ha) with rfl | h
          · exact absurd (h1.subset ha) hn.1
          · exact h
        · intro ha
          rcases this.2 (.inr ha) with rfl | h
          · exact absurd (h2.subset ha) hn.1
          · exact h

theorem without_comm (l : List Order) (o u : Order) : without (without l o) u = without (without l u) o := by
  unfold without
  rw [List.filter_filter, List.filter_filter]
  congr 1
  funext c
  exact Bool.and_comm _ _

theorem writeBack_id {X : List Order} (o : Order) : ((X.find? (fun u => u.id = o.id)).getD o).id = o.id := by
  cases h : X.find? (fun u => decide (u.id = o.id)) with
  | none => rfl
  | some c => have := List.find?_some h; simpa using this

theorem without_writeBack (l X : List Order) (u : Order) : without (writeBack l X) u = writeBack (without l u) X := by
  unfold without writeBack
  rw [List.filter_map]
  congr 1
  refine List.filter_congr fun c _ => ?_
  dsimp only [Function.comp]
  rw [writeBack_id]

theorem mem_without {l : List Order} {o c : Order} : c ∈ without l o ↔ c ∈ l ∧ c.id ≠ o.id := by
  unfold without; rw [List.mem_filter, decide_eq_true_eq]

theorem prune_ne {b s : List Order} {fee : Fee} {r : List Order × List Order} (h : pruneUnrealizable b s fee = .ok r) : b ≠ [] ∧ s ≠ [] := by
  unfold pruneUnrealizable at h
  simp only [bind_eq_ok] at h
  obtain ⟨_, h1, _, h2, _⟩ := h
  constructor
  · rintro rfl; simp [pyMaxBy] at h1
  · rintro rfl; simp [pyMaxBy] at h2

/-! ### Leftover amounts -/

/-- The order objects `u`, `u₀` agree up to executed amounts, and in the buy amount unless `P` holds of `u`. -/
def Stale (P : Order → Prop) (u u₀ : Order) : Prop := SameButExec u u₀ ∧ (u.buy = u₀.buy ∨ (u₀.buy = 0 ∧ P u))

theorem writeBack_stale {P : Order → Prop} {l l₀ X X₀ : List Order} (h : RelB l l₀) (h0 : ∀ o ∈ l₀, o.buy = 0) (hX : RelS X X₀)
    (hP : ∀ u ∈ l, u.id ∉ X.map (·.id) → P u) : List.Forall₂ (Stale P) (writeBack l X) (writeBack l₀ X₀) := by
  unfold writeBack
  induction h with
  | nil => exact .nil
  | @cons a b l l₀ hab _ ih =>
    refine .cons ?_ (ih (fun o ho => h0 o (by simp [ho])) (fun u hu => hP u (by simp [hu])))
    rcases find?_rel (p := fun u => decide (u.id = a.id)) (q := fun u => decide (u.id = b.id)) hX
      (fun c d hcd => by rw [id_sameS _ _ hcd, id_same _ _ hab]) with ⟨h1, h2⟩ | ⟨c, d, h1, h2, h3⟩
    · dsimp only
      rw [h1, h2]
      refine ⟨hab, .inr ⟨h0 b (by simp), hP a (by simp) ?_⟩⟩
      intro hm
      obtain ⟨c, hc, e⟩ := List.mem_map.1 hm
      have := List.find?_eq_none.1 h1 c hc
      simp [e] at this
    · dsimp only
      rw [h1, h2]
      refine ⟨h3.exec, .inl ?_⟩
      obtain ⟨v, e⟩ := h3
      show c.buy = d.buy
      rw [e]

theorem sameButExec_symm {a b : Order} (h : SameButExec a b) : SameButExec b a := by
  obtain ⟨u, v, rfl⟩ := sameButExec_iff.1 h
  exact sameButExec_iff.2 ⟨a.buy, a.sell, rfl⟩

theorem RelB.symm {l l' : List Order} (h : RelB l l') : RelB l' l := by
  induction h with
  | nil => exact .nil
  | cons h _ ih => exact .cons (sameButExec_symm h) ih

theorem forall₂_split {α β : Type} {R : α → β → Prop} {l1 l2 : List α} {l : List β} (h : List.Forall₂ R (l1 ++ l2) l) :
    ∃ k1 k2, List.Forall₂ R l1 k1 ∧ List.Forall₂ R l2 k2 ∧ l = k1 ++ k2 := by
  induction l1 generalizing l with
  | nil => exact ⟨[], l, .nil, h, rfl⟩
  | cons a l1 ih =>
    cases h with
    | cons h1 h2 =>
      obtain ⟨k1, k2, g1, g2, rfl⟩ := ih h2
      exact ⟨_ :: k1, k2, .cons h1 g1, g2, rfl⟩

theorem firstLeast_stale {P : Order → Prop} {l l₀ : List Order} {m : Order} (h : List.Forall₂ (Stale P) l l₀) (hm : FirstLeast l m) :
    (∃ m₀, FirstLeast l₀ m₀ ∧ SameButExec m m₀ ∧ m.buy = m₀.buy) ∨ P m := by
  obtain ⟨hp, pre, post, rfl, h1, h2⟩ := hm
  obtain ⟨pre₀, rest, hpre, hrest, rfl⟩ : ∃ pre₀ rest, List.Forall₂ (Stale P) pre pre₀ ∧ List.Forall₂ (Stale P) (m :: post) rest ∧ l₀ = pre₀ ++ rest :=
    forall₂_split h
  cases hrest with
  | @cons _ m₀ _ post₀ hmm hpost =>
    rcases hmm.2 with e | ⟨_, hP⟩
    · left
      have key : ∀ {k k₀ : List Order} {c₀ : Order}, List.Forall₂ (Stale P) k k₀ → c₀ ∈ k₀ → 0 < c₀.buy → ∃ c ∈ k, c.buy = c₀.buy := by
        intro k k₀ c₀ hk hc hpos
        obtain ⟨c, hc', hs⟩ := forall₂_mem_r hk c₀ hc
        rcases hs.2 with e | ⟨e, _⟩
        · exact ⟨c, hc', e⟩
        · rw [e] at hpos; exact absurd hpos (lt_irrefl _)
      refine ⟨m₀, ⟨e ▸ hp, pre₀, post₀, rfl, ?_, ?_⟩, hmm.1, e⟩
      · intro c₀ hc hpos
        obtain ⟨c, hc', e'⟩ := key hpre hc hpos
        rw [← e, ← e']
        exact h1 c hc' (e' ▸ hpos)
      · intro c₀ hc hpos
        obtain ⟨c, hc', e'⟩ := key hpost hc hpos
        rw [← e, ← e']
        exact h2 c hc' (e' ▸ hpos)
    · exact .inr hP

/-- The search parameters shared by the lemmas. -/
structure RunInput (cfg : Config) (ext : Ext) (pair : Token × Token) (fee : Fee) (xrate : Option ℚ) (pool : List Order) : Prop where
  pool : Pool pool
  cfg : CfgOk cfg
  feeLt : fee.value < 1
  ne : pair.1 ≠ pair.2
  branch : ∀ E, MaxBranching E (ext.branch E)
  rate : ∀ y, xrate = some y → 0 < y

theorem oriented_ids {cfg : Config} {ext : Ext} {pair : Token × Token} {fee : Fee} {xrate : Option ℚ} {pool : List Order} {b s f : List Order} {r : MatchResult}
    (h : RunInput cfg ext pair fee xrate pool) (hb : BookOf pool pair fee { b, s, f }) (hF : pair.2 ≠ fee.token)
    (hr : solveOriented cfg ext pair b s f fee xrate = .ok r) : r.books.b.map (·.id) = b.map (·.id) ∧ r.books.s.map (·.id) = s.map (·.id) := by
  obtain ⟨g, _⟩ := solveOriented_spec h.pool h.cfg h.feeLt hb h.ne hF h.branch h.rate hr
  exact ⟨ids_of_same g.b, ids_of_same g.s⟩

theorem RunInput.swap {cfg : Config} {ext : Ext} {pair : Token × Token} {fee : Fee} {xrate : Option ℚ} {pool : List Order}
    (h : RunInput cfg ext pair fee xrate pool) : RunInput cfg ext (pair.2, pair.1) fee xrate pool :=
  ⟨h.pool, h.cfg, h.feeLt, Ne.symm h.ne, h.branch, h.rate⟩

theorem BookOf.swap {pool : List Order} {pair : Token × Token} {fee : Fee} {b s f : List Order} (h : BookOf pool pair fee { b, s, f })
    (hF : pair.2 = fee.token) : BookOf pool (pair.2, pair.1) fee { b := s, s := b, f } :=
  ⟨h.derS, h.derB, h.derF, h.idsS, h.idsB, h.idsF, h.clsS, h.clsB, fun h => absurd hF h⟩

/-- Solving from order objects with leftover amounts. -/
theorem solve_stale {cfg : Config} {ext : Ext} {pair : Token × Token} {fee : Fee} {xrate : Option ℚ} {pool : List Order} {b s f b₀ s₀ f₀ : List Order}
    {r : MatchResult} (h : RunInput cfg ext pair fee xrate pool) (hb : BookOf pool pair fee { b, s, f }) (rb : RelB b b₀) (rs : RelB s s₀) (rf : RelB f f₀)
    (zb : ∀ o ∈ b₀, o.buy = 0) (zs : ∀ o ∈ s₀, o.buy = 0) (hr : solveTokenPairAndFee cfg ext pair b s f fee xrate = .ok r) :
    ∃ r₀, solveTokenPairAndFee cfg ext pair b₀ s₀ f₀ fee xrate = .ok r₀ ∧ r.sol = r₀.sol ∧
      List.Forall₂ (Stale (fun u => u ∈ b ∧ ∀ c ∈ s, ¬ Matchable fee u c)) r.books.b r₀.books.b ∧
      List.Forall₂ (Stale (fun u => u ∈ s ∧ ∀ c ∈ b, ¬ Matchable fee c u)) r.books.s r₀.books.s := by
  unfold solveTokenPairAndFee at hr ⊢
  rw [bind_eq_ok] at hr
  obtain ⟨⟨b', s'⟩, e, hr⟩ := hr
  obtain ⟨⟨b₀', s₀'⟩, e₀, hbb, hss⟩ := (prune_rel rb rs).ok_iff e
  obtain ⟨hbn, hsn⟩ := prune_ne e
  have hpi : PruneInput fee b s := ⟨h.feeLt, hbn, hsn, fun o ho => ((hb.derB o ho).ok h.pool).1, fun o ho => ((hb.derS o ho).ok h.pool).1⟩
  obtain ⟨b2, s2, e2, sb, ss, mb, ms⟩ := C14_exact hpi
  rw [e] at e2
  obtain ⟨rfl, rfl⟩ := Prod.mk.inj (Except.ok.inj e2)
  rw [e₀, ok_bind]
  dsimp only at hr hbb hss ⊢
  have hb' := hb.sub sb ss (List.Sublist.refl f)
  have pb : ∀ u ∈ b, u.id ∉ b'.map (·.id) → u ∈ b ∧ ∀ c ∈ s, ¬ Matchable fee u c := by
    intro u hu hn
    refine ⟨hu, fun c hc hm => hn (List.mem_map.2 ⟨u, (mb u).2 ⟨hu, c, hc, hm⟩, rfl⟩)⟩
  have ps : ∀ u ∈ s, u.id ∉ s'.map (·.id) → u ∈ s ∧ ∀ c ∈ b, ¬ Matchable fee c u := by
    intro u hu hn
    refine ⟨hu, fun c hc hm => hn (List.mem_map.2 ⟨u, (ms u).2 ⟨hu, c, hc, hm⟩, rfl⟩)⟩
  have wb : ∀ l : List Order, writeBack l [] = l := by
    intro l; unfold writeBack; simp
  split at hr
  · rename_i h0
    cases hr
    rw [if_pos (by rw [← hbb.length_eq, ← hss.length_eq]; exact h0)]
    have hnone : (∀ u ∈ b, ∀ c ∈ s, ¬ Matchable fee u c) := by
      intro u hu c hc hm
      rcases h0 with h0 | h0 <;> rw [List.length_eq_zero_iff] at h0 <;> subst h0
      · exact absurd ((mb u).2 ⟨hu, c, hc, hm⟩) (by simp)
      · exact absurd ((ms c).2 ⟨hc, u, hu, hm⟩) (by simp)
    refine ⟨_, rfl, rfl, ?_, ?_⟩
    · have := writeBack_stale (P := fun u => u ∈ b ∧ ∀ c ∈ s, ¬ Matchable fee u c) rb zb (List.Forall₂.nil : RelS [] [])
        (fun u hu _ => ⟨hu, hnone u hu⟩)
      rwa [wb, wb] at this
    · have := writeBack_stale (P := fun u => u ∈ s ∧ ∀ c ∈ b, ¬ Matchable fee c u) rs zs (List.Forall₂.nil : RelS [] [])
        (fun u hu _ => ⟨hu, fun c hc => hnone c hc u hu⟩)
      rwa [wb, wb] at this
  · rename_i h0
    rw [if_neg (by rw [← hbb.length_eq, ← hss.length_eq]; exact h0)]
    split at hr
    · rename_i hF
      rw [if_pos hF]
      rw [bind_eq_ok] at hr
      obtain ⟨t, et, hr⟩ := hr
      cases hr
      obtain ⟨t₀, et₀, ht⟩ := (solveOriented_relS hss hbb rf (fun h => h0 h.symm)).ok_iff et
      obtain ⟨i1, i2⟩ := oriented_ids h.swap (hb'.swap hF) (by rw [← hF]; exact h.ne) et
      rw [et₀, ok_bind]
      exact ⟨_, rfl, ht.sol, writeBack_stale rb zb ht.books.s (by rw [i2]; exact pb), writeBack_stale rs zs ht.books.b (by rw [i1]; exact ps)⟩
    · rename_i hF
      rw [if_neg hF]
      rw [bind_eq_ok] at hr
      obtain ⟨t, et, hr⟩ := hr
      cases hr
      obtain ⟨t₀, et₀, ht⟩ := (solveOriented_relS hbb hss rf h0).ok_iff et
      obtain ⟨i1, i2⟩ := oriented_ids h hb' hF et
      rw [et₀, ok_bind]
      exact ⟨_, rfl, ht.sol, writeBack_stale rb zb ht.books.b (by rw [i1]; exact pb), writeBack_stale rs zs ht.books.s (by rw [i2]; exact ps)⟩

theorem solve_ne {cfg : Config} {ext : Ext} {pair : Token × Token} {fee : Fee} {xrate : Option ℚ} {b s f : List Order} {r : MatchResult}
    (hr : solveTokenPairAndFee cfg ext pair b s f fee xrate = .ok r) : b ≠ [] ∧ s ≠ [] := by
  unfold solveTokenPairAndFee at hr
  rw [bind_eq_ok] at hr
  obtain ⟨_, e, _⟩ := hr
  exact prune_ne e

theorem not_viable_ne {cfg : Config} {fee : Fee} {sol : Solution} (h : ¬ Viable cfg fee sol) : sol ≠ .trivial := by
  rintro rfl
  exact h (.inl rfl)

/-! ### The amounts used for a pair with the fee token -/

theorem find?_none_of_ids {X : List Order} {i : String} (h : i ∉ X.map (·.id)) : X.find? (fun v => decide (v.id = i)) = none := by
  rw [List.find?_eq_none]
  intro v hv e
  exact h (List.mem_map.2 ⟨v, hv, by simpa using e⟩)

theorem writeBack_executed {b' b X : List Order} (hs : b'.Sublist b) (hn : (b.map (·.id)).Nodup) (hX : X.map (·.id) = b'.map (·.id)) (hz : ∀ o ∈ b, o.buy = 0) :
    (writeBack b X).filter (fun o => decide (0 < o.buy)) = X.filter (fun o => decide (0 < o.buy)) := by
  induction hs generalizing X with
  | slnil =>
    rw [List.map_nil, List.map_eq_nil_iff] at hX
    subst hX; rfl
  | @cons b' b a hs ih =>
    rw [List.map_cons, List.nodup_cons] at hn
    have ha : a.id ∉ X.map (·.id) := by rw [hX]; exact fun h => hn.1 ((hs.map _).subset h)
    have e : writeBack (a :: b) X = a :: writeBack b X := by
      unfold writeBack
      rw [List.map_cons, find?_none_of_ids ha]
      rfl
    rw [e, List.filter_cons, if_neg (by rw [hz a (by simp)]; simp), ih hn.2 hX (fun o ho => hz o (by simp [ho]))]
  | @cons_cons b' b a hs ih =>
    rw [List.map_cons, List.nodup_cons] at hn
    cases X with
    | nil => simp at hX
    | cons x X =>
      simp only [List.map_cons, List.cons.injEq] at hX
      have e : writeBack (a :: b) (x :: X) = x :: writeBack b X := by
        unfold writeBack
        rw [List.map_cons, List.find?_cons, hX.1]
        simp only [decide_true, Option.getD_some, List.cons.injEq, true_and]
        refine List.map_congr_left fun o ho => ?_
        have : a.id ≠ o.id := fun h => hn.1 (h ▸ List.mem_map.2 ⟨o, ho, rfl⟩)
        rw [List.find?_cons, hX.1]
        simp [this]
      rw [e, List.filter_cons, List.filter_cons, ih hn.2 hX.2 (fun o ho => hz o (by simp [ho]))]

theorem writeBack_whole {b X : List Order} (hn : (b.map (·.id)).Nodup) (hX : X.map (·.id) = b.map (·.id)) : writeBack b X = X := by
  induction b generalizing X with
  | nil => rw [List.map_nil, List.map_eq_nil_iff] at hX; subst hX; rfl
  | cons a b ih =>
    rw [List.map_cons, List.nodup_cons] at hn
    cases X with
    | nil => simp at hX
    | cons x X =>
      simp only [List.map_cons, List.cons.injEq] at hX
      have e : writeBack (a :: b) (x :: X) = x :: writeBack b X := by
        unfold writeBack
        rw [List.map_cons, List.find?_cons, hX.1]
        simp only [decide_true, Option.getD_some, List.cons.injEq, true_and]
        refine List.map_congr_left fun o ho => ?_
        have : a.id ≠ o.id := fun h => hn.1 (h ▸ List.mem_map.2 ⟨o, ho, rfl⟩)
        rw [List.find?_cons, hX.1]
        simp [this]
      rw [e, ih hn.2 hX.2]

theorem writeBack_left {b X Y : List Order} (hX : X.map (·.id) = b.map (·.id)) : writeBack b (X ++ Y) = writeBack b X := by
  unfold writeBack
  refine List.map_congr_left fun o ho => ?_
  rw [List.find?_append]
  cases h : X.find? (fun v => decide (v.id = o.id)) with
  | some c => rfl
  | none =>
    exfalso
    have : o.id ∈ X.map (·.id) := by rw [hX]; exact List.mem_map.2 ⟨o, ho, rfl⟩
    obtain ⟨c, hc, e⟩ := List.mem_map.1 this
    have := List.find?_eq_none.1 h c hc
    simp [e] at this

theorem writeBack_right {b X Y : List Order} (hX : ∀ o ∈ b, o.id ∉ X.map (·.id)) : writeBack b (X ++ Y) = writeBack b Y := by
  unfold writeBack
  refine List.map_congr_left fun o ho => ?_
  rw [List.find?_append, find?_none_of_ids (hX o ho), Option.none_or]

theorem oriented_fee_books {cfg : Config} {ext : Ext} {pair : Token × Token} {fee : Fee} {xrate : Option ℚ} {pool : List Order} {b s f : List Order}
    {r : MatchResult} (h : RunInput cfg ext pair fee xrate pool) (hb : BookOf pool pair fee { b, s, f }) (hF : pair.1 = fee.token)
    (hr : solveOriented cfg ext pair b s f fee xrate = .ok r) (ht : r.sol ≠ .trivial) : r.sol.orders = r.books.b ++ r.books.s := by
  have hF2 : pair.2 ≠ fee.token := fun e => h.ne (hF.trans e.symm)
  obtain ⟨i1, i2⟩ := oriented_ids h hb hF2 hr
  unfold solveOriented at hr
  rw [bind_eq_ok] at hr
  obtain ⟨⟨xo, b1, s1⟩, h1, hr⟩ := hr
  have hsearch : SearchInput cfg fee b s := hb.search h.pool h.cfg h.feeLt
  dsimp only at hr
  split at hr
  · cases hr; exact absurd rfl ht
  cases xo with
  | none => cases hr
  | some x =>
    dsimp only at hr
    rw [bind_eq_ok] at hr
    obtain ⟨⟨sol, os⟩, e, hr⟩ := hr
    cases hr
    obtain ⟨y, x0, e0, hy, _, _, _, _, hpr, _, hex⟩ := (solveTokenPair_spec hsearch h.cfg.limit h.rate (fun q hq => by cases hq) h1).resolve_left
      (by rintro ⟨h, _⟩; cases h)
    cases e0
    have hsame : BooksSame { b, s, f } { b := b1, s := s1, f } :=
      ⟨forall₂_exec_of_buy hex.sameB, forall₂_exec_of_buy hex.sameS, forall₂_same_refl _⟩
    have hb1 := hb.same hsame
    obtain ⟨q, _, hq1, _, hq⟩ := hpr cfg.feeTokenPrice (by unfold effPrice; rw [if_pos hF])
    have hbA : BookOf pool pair fee { b := b1, s := s1, f := [] } :=
      ⟨hb1.derB, hb1.derS, by simp, hb1.idsB, hb1.idsS, by simp, hb1.clsB, hb1.clsS, by simp⟩
    have hgood : GoodMatch cfg fee pair { b := b1, s := s1, f := [] } x cfg.feeTokenPrice := by
      refine ⟨hy, ⟨cfg.feeTokenPrice, h.cfg.feePrice, rfl⟩, ⟨q, hq1, hq⟩, hex.exB, hex.exS, by simp, ?_, hex.both, .inl ⟨hF, rfl, rfl⟩⟩
      have := hex.count
      simpa [countNrExec] using this
    obtain ⟨g1, _⟩ := aggregateAndRound_spec h.pool h.cfg h.feeLt hbA h.ne hF2 h.branch hgood e
    simp only [List.append_nil] at g1
    dsimp only at i1 i2 ht ⊢
    have hw : ∀ l : List Order, (writeBack l os).map (·.id) = l.map (·.id) := by
      intro l
      unfold writeBack
      rw [List.map_map]
      exact List.map_congr_left fun o _ => writeBack_id o
    rw [hw] at i1 i2
    unfold aggregateAndRound at e
    rw [bind_eq_ok] at e
    obtain ⟨⟨orders, prices⟩, ea, e⟩ := e
    rw [bind_eq_ok] at e
    obtain ⟨⟨ok, res⟩, er, e⟩ := e
    dsimp only at er e
    split at e
    · cases e
      dsimp only
      unfold aggregateOrdersPrices at ea
      rw [bind_eq_ok] at ea
      obtain ⟨q, _, ea⟩ := ea
      cases ea
      rw [List.append_nil] at er
      have hids : os.map (·.id) = (b1 ++ s1).map (·.id) := ids_of_same g1
      have hdis : ∀ o ∈ s1, o.id ∉ b1.map (·.id) := by
        intro o ho hm
        rw [i1] at hm
        have hm2 : o.id ∈ s.map (·.id) := i2 ▸ List.mem_map.2 ⟨o, ho, rfl⟩
        obtain ⟨c, hc, e1⟩ := List.mem_map.1 hm
        obtain ⟨d, hd, e2⟩ := List.mem_map.1 hm2
        obtain ⟨c', hc', sc⟩ := hb.derB c hc
        obtain ⟨d', hd', sd⟩ := hb.derS d hd
        have : c' = d' := List.inj_on_of_nodup_map h.pool.ids hc' hd' (by rw [id_same _ _ sc, id_same _ _ sd, e1, e2])
        subst this
        have k1 := (hb.clsB c hc).1
        have k2 := (hb.clsS d hd).1
        obtain ⟨_, _, rfl⟩ := sameButExec_iff.1 sc
        obtain ⟨_, _, rfl⟩ := sameButExec_iff.1 sd
        exact h.ne (k1.symm.trans k2)
      obtain ⟨oB, oS, rfl, l1⟩ : ∃ oB oS, os = oB ++ oS ∧ oB.length = b1.length := by
        refine ⟨os.take b1.length, os.drop b1.length, (List.take_append_drop _ _).symm, ?_⟩
        have := congrArg List.length hids
        simp only [List.length_map, List.length_append] at this
        rw [List.length_take]; omega
      rw [List.map_append, List.map_append] at hids
      obtain ⟨j1, j2⟩ := List.append_inj hids (by simp [l1])
      have n1 : (b1.map (·.id)).Nodup := by rw [i1]; exact hb.idsB
      have n2 : (s1.map (·.id)).Nodup := by rw [i2]; exact hb.idsS
      rw [writeBack_left j1, writeBack_whole n1 j1, writeBack_right (by rw [j1]; exact hdis), writeBack_whole n2 j2]
    · cases e; exact absurd rfl ht

theorem filter_of_tokens {l m : List Order} {t : Token} (h1 : ∀ o ∈ l, o.buyToken = t) (h2 : ∀ o ∈ m, o.buyToken ≠ t) :
    (l ++ m).filter (fun o => decide (o.buyToken = t ∧ 0 < o.buy)) = l.filter (fun o => decide (0 < o.buy)) := by
  have h0 : m.filter (fun o => decide (o.buyToken = t ∧ 0 < o.buy)) = [] :=
    List.filter_eq_nil_iff.2 fun o ho hd => h2 o ho (of_decide_eq_true hd).1
  rw [List.filter_append, h0, List.append_nil]
  refine List.filter_congr fun o ho => ?_
  simp [h1 o ho]

/-- Both books of the outcome for a pair with the fee token, in the orientation used internally. -/
theorem oriented_fee_amounts {cfg : Config} {ext : Ext} {pair : Token × Token} {fee : Fee} {xrate : Option ℚ} {pool : List Order}
    {b s b' s' f : List Order} {r : MatchResult} (h : RunInput cfg ext pair fee xrate pool) (hb : BookOf pool pair fee { b, s, f })
    (hbs : b'.Sublist b) (hss : s'.Sublist s) (hF : pair.1 = fee.token) (hzB : ∀ o ∈ b, o.buy = 0) (hzS : ∀ o ∈ s, o.buy = 0)
    (hr : solveOriented cfg ext pair b' s' f fee xrate = .ok r) (ht : r.sol ≠ .trivial) :
    (writeBack b r.books.b).filter (fun o => decide (0 < o.buy)) = r.sol.orders.filter (fun o => decide (o.buyToken = pair.1 ∧ 0 < o.buy)) ∧
    (writeBack s r.books.s).filter (fun o => decide (0 < o.buy)) = r.sol.orders.filter (fun o => decide (o.buyToken = pair.2 ∧ 0 < o.buy)) := by
  have hF2 : pair.2 ≠ fee.token := fun e => h.ne (hF.trans e.symm)
  have hb' : BookOf pool pair fee { b := b', s := s', f } :=
    ⟨fun o ho => hb.derB o (hbs.subset ho), fun o ho => hb.derS o (hss.subset ho), hb.derF, hb.idsB.sublist (hbs.map _), hb.idsS.sublist (hss.map _),
      hb.idsF, fun o ho => hb.clsB o (hbs.subset ho), fun o ho => hb.clsS o (hss.subset ho), hb.clsF⟩
  obtain ⟨g, _⟩ := solveOriented_spec h.pool h.cfg h.feeLt hb' h.ne hF2 h.branch h.rate hr
  have hbk := hb'.same g
  have cB : ∀ o ∈ r.books.b, o.buyToken = pair.1 := fun o ho => (hbk.clsB o ho).1
  have cS : ∀ o ∈ r.books.s, o.buyToken = pair.2 := fun o ho => (hbk.clsS o ho).1
  rw [oriented_fee_books h hb' hF hr ht, writeBack_executed hbs hb.idsB (ids_of_same g.b) hzB, writeBack_executed hss hb.idsS (ids_of_same g.s) hzS]
  constructor
  · exact (filter_of_tokens cB fun o ho e => h.ne (e.symm.trans (cS o ho))).symm
  · have h0 : r.books.b.filter (fun o => decide (o.buyToken = pair.2 ∧ 0 < o.buy)) = [] :=
      List.filter_eq_nil_iff.2 fun o ho hd => h.ne ((cB o ho).symm.trans (of_decide_eq_true hd).1)
    rw [List.filter_append, h0, List.nil_append]
    refine List.filter_congr fun o ho => ?_
    simp [cS o ho]

/-- C63. For a pair with the fee token (on either side) and orders not executed before, the amounts compared when an order is removed are those of the
solution just computed: the executed orders of each list are exactly the solution's executed orders buying that list's token. For other pairs see C64. -/
theorem C63_fee_pair_amounts {cfg : Config} {ext : Ext} {pair : Token × Token} {fee : Fee} {xrate : Option ℚ} {pool : List Order} {b s f : List Order}
    {r : MatchResult} (h : RunInput cfg ext pair fee xrate pool) (hb : BookOf pool pair fee { b, s, f }) (hF : pair.1 = fee.token ∨ pair.2 = fee.token)
    (hzB : ∀ o ∈ b, o.buy = 0) (hzS : ∀ o ∈ s, o.buy = 0)
    (hr : solveTokenPairAndFee cfg ext pair b s f fee xrate = .ok r) (ht : r.sol ≠ .trivial) :
    r.books.b.filter (fun o => decide (0 < o.buy)) = r.sol.orders.filter (fun o => decide (o.buyToken = pair.1 ∧ 0 < o.buy)) ∧
    r.books.s.filter (fun o => decide (0 < o.buy)) = r.sol.orders.filter (fun o => decide (o.buyToken = pair.2 ∧ 0 < o.buy)) := by
  have hs : SearchInput cfg fee b s := hb.search h.pool h.cfg h.feeLt
  obtain ⟨hbn, hsn⟩ := solve_ne hr
  obtain ⟨b', s', e, h1, h2, _, _⟩ := C14_exact (hs.prune hbn hsn)
  unfold solveTokenPairAndFee at hr
  rw [e, ok_bind] at hr
  dsimp only at hr
  split at hr
  · cases hr; exact absurd rfl ht
  split at hr
  · rename_i hp2
    rw [bind_eq_ok] at hr
    obtain ⟨r', hr', hr⟩ := hr
    cases hr
    exact (oriented_fee_amounts h.swap (hb.swap hp2) h2 h1 hp2 hzS hzB hr' ht).symm
  · rename_i hp2
    rw [bind_eq_ok] at hr
    obtain ⟨r', hr', hr⟩ := hr
    cases hr
    exact oriented_fee_amounts h hb h1 h2 (hF.resolve_right hp2) hzB hzS hr' ht

/-! ### One list has executed orders iff the other has -/

/-- Orders of both lists are executed, or of neither. -/
def BothSides (bk : Books) : Prop := (∃ o ∈ bk.b, 0 < o.buy) ↔ ∃ o ∈ bk.s, 0 < o.buy

theorem givenExecF_both {cfg : Config} {sqrt : ℚ → Py ℚ} {nrF : ℕ} {imb : ℚ} {pair : Token × Token} {bk : Books} {x : ℚ} {fee : Fee}
    {pool : List Order} {r : GivenResult} (hp : Pool pool) (hc : CfgOk cfg) (hfee : fee.value < 1) (hb : BookOf pool pair fee bk)
    (hne : pair.1 ≠ pair.2) (hF1 : pair.1 ≠ fee.token) (hF2 : pair.2 ≠ fee.token) (hx : 0 < x) (hbn : bk.b ≠ []) (hsn : bk.s ≠ [])
    (hfn : bk.f ≠ []) (hn1 : 1 ≤ nrF) (hn2 : (nrF : ℤ) ≤ cfg.maxNrExec) (hz : ∀ o ∈ bk.f, o.buy = 0) (h0 : BothSides bk)
    (hr : givenExecF cfg sqrt nrF imb pair bk x fee = .ok r) : BothSides r.books := by
  obtain ⟨_, hg⟩ := givenExecF_spec hp hc hfee hb hne hF1 hF2 hx hbn hsn hfn hn1 hn2 hz hr
  cases hbp : r.bPrice with
  | some p => exact (hg p hbp).both
  | none =>
    unfold givenExecF at hr
    rw [bind_eq_ok] at hr
    obtain ⟨⟨p, fT⟩, _, hr⟩ := hr
    dsimp only at hr
    split at hr
    · cases hr; exact h0
    · rw [bind_eq_ok] at hr
      obtain ⟨⟨xo, b', s'⟩, _, hr⟩ := hr
      dsimp only at hr
      cases xo with
      | none => cases hr
      | some y =>
        dsimp only at hr
        rw [bind_eq_ok] at hr
        obtain ⟨_, _, hr⟩ := hr
        cases hr
        cases hbp

theorem fOrdersLoop_both {cfg : Config} {sqrt : ℚ → Py ℚ} {imb : ℚ} {pair : Token × Token} {x : ℚ} {fee : Fee}
    {pool : List Order} (hp : Pool pool) (hc : CfgOk cfg) (hfee : fee.value < 1)
    (hne : pair.1 ≠ pair.2) (hF1 : pair.1 ≠ fee.token) (hF2 : pair.2 ≠ fee.token) (hx : 0 < x)
    {ns : List ℕ} {st st' : FLoopState} {bk0 : Books} (hb : BookOf pool pair fee bk0) (hbn : bk0.b ≠ []) (hsn : bk0.s ≠ []) (hfn : bk0.f ≠ [])
    (hns : ∀ n ∈ ns, 1 ≤ n ∧ (n : ℤ) ≤ cfg.maxNrExec) (h1 : BooksSame bk0 st.books) (h0 : BothSides st.books)
    (hr : fOrdersLoop cfg sqrt imb pair x fee ns st = .ok st') : BothSides st'.books := by
  induction ns generalizing st with
  | nil => cases hr; exact h0
  | cons n ns ih =>
    unfold fOrdersLoop at hr
    rw [bind_eq_ok] at hr
    obtain ⟨r, e1, hr⟩ := hr
    have ne_of : ∀ {l l' : List Order}, List.Forall₂ SameButExec l l' → l ≠ [] → l' ≠ [] := by
      intro l l' h hn hc; subst hc; cases h; exact hn rfl
    have hreset : ∀ l : List Order, List.Forall₂ SameButExec l (l.map (fun o => (o.withBuy 0).withSell 0)) := by
      intro l
      induction l with
      | nil => exact .nil
      | cons o l ih => exact .cons rfl ih
    have hsame : BooksSame bk0 { st.books with f := st.books.f.map (fun o => (o.withBuy 0).withSell 0) } :=
      ⟨h1.b, h1.s, forall₂_same_trans h1.f (hreset _)⟩
    have hz : ∀ o ∈ st.books.f.map (fun o => (o.withBuy 0).withSell 0), o.buy = 0 := fun o ho => by obtain ⟨a, _, rfl⟩ := List.mem_map.1 ho; rfl
    obtain ⟨r1, _⟩ := givenExecF_spec hp hc hfee (hb.same hsame) hne hF1 hF2 hx (ne_of h1.b hbn) (ne_of h1.s hsn)
      (ne_of hsame.f hfn) (hns n (by simp)).1 (hns n (by simp)).2 hz e1
    have r2 := givenExecF_both hp hc hfee (hb.same hsame) hne hF1 hF2 hx (ne_of h1.b hbn) (ne_of h1.s hsn)
      (ne_of hsame.f hfn) (hns n (by simp)).1 (hns n (by simp)).2 hz h0 e1
    have hR := hsame.trans r1
    have hns' : ∀ n ∈ ns, 1 ≤ n ∧ (n : ℤ) ≤ cfg.maxNrExec := fun m hm => hns m (by simp [hm])
    cases hbp : r.bPrice with
    | none =>
      rw [hbp] at hr
      exact ih hns' (st := { st with books := r.books }) hR r2 hr
    | some p =>
      rw [hbp] at hr
      cases hbest : st.best with
      | none =>
        rw [hbest] at hr
        exact ih hns' (st := { best := some r, books := r.books }) hR r2 hr
      | some best =>
        rw [hbest] at hr
        dsimp only at hr
        split at hr
        · cases hr
          exact r2
        · rw [bind_eq_ok] at hr
          obtain ⟨_, _, hr⟩ := hr
          exact ih hns' (st := { best := some r, books := r.books }) hR r2 hr

theorem sum_pos_iff_exists {l : List Order} {g : Order → ℚ} (h : ∀ o ∈ l, 0 ≤ g o) : 0 < (l.map g).sum ↔ ∃ o ∈ l, 0 < g o := by
  induction l with
  | nil => simp
  | cons a l ih =>
    have h1 := h a (by simp)
    have h2 : 0 ≤ (l.map g).sum := List.sum_nonneg (by
      intro x hx
      obtain ⟨o, ho, rfl⟩ := List.mem_map.1 hx
      exact h o (by simp [ho]))
    have ih := ih fun o ho => h o (by simp [ho])
    rw [List.map_cons, List.sum_cons]
    constructor
    · intro hp
      by_cases ha : 0 < g a
      · exact ⟨a, by simp, ha⟩
      · obtain ⟨o, ho, hg⟩ := ih.1 (by linarith)
        exact ⟨o, by simp [ho], hg⟩
    · rintro ⟨o, ho, hg⟩
      rcases List.mem_cons.1 ho with rfl | ho
      · linarith
      · have := ih.2 ⟨o, ho, hg⟩
        linarith

theorem oriented_both {cfg : Config} {ext : Ext} {pair : Token × Token} {fee : Fee} {xrate : Option ℚ} {pool : List Order} {b s f : List Order}
    {r : MatchResult} (h : RunInput cfg ext pair fee xrate pool) (hb : BookOf pool pair fee { b, s, f }) (hF2 : pair.2 ≠ fee.token)
    (hr : solveOriented cfg ext pair b s f fee xrate = .ok r) (ht : r.sol ≠ .trivial) : BothSides r.books := by
  by_cases hF : pair.1 = fee.token
  · have ho := oriented_fee_books h hb hF hr ht
    obtain ⟨g, g2⟩ := solveOriented_spec h.pool h.cfg h.feeLt hb h.ne hF2 h.branch h.rate hr
    have hbk := hb.same g
    have hg := g2.resolve_left ht
    have hbal := hg.balanced pair.2 hF2
    have p1 : 0 < sold r.sol.orders pair.2 ↔ ∃ o ∈ r.books.b, 0 < o.buy := by
      unfold sold
      rw [sum_pos_iff_exists (fun o ho => (hg.amounts o (List.mem_filter.1 ho).1).2.2.2)]
      constructor
      · rintro ⟨o, hm, hp⟩
        obtain ⟨hm, ht⟩ := List.mem_filter.1 hm
        have hp := (hg.exec o hm).2 hp
        rw [ho] at hm
        rcases List.mem_append.1 hm with hm | hm
        · exact ⟨o, hm, hp⟩
        · exact absurd ((hbk.clsS o hm).2.symm.trans (of_decide_eq_true ht)) h.ne
      · rintro ⟨o, hm, hp⟩
        have hm' : o ∈ r.sol.orders := by rw [ho]; exact List.mem_append_left _ hm
        exact ⟨o, List.mem_filter.2 ⟨hm', decide_eq_true (hbk.clsB o hm).2⟩, (hg.exec o hm').1 hp⟩
    have p2 : 0 < bought r.sol.orders pair.2 ↔ ∃ o ∈ r.books.s, 0 < o.buy := by
      unfold bought
      rw [sum_pos_iff_exists (fun o ho => (hg.amounts o (List.mem_filter.1 ho).1).2.1)]
      constructor
      · rintro ⟨o, hm, hp⟩
        obtain ⟨hm, ht⟩ := List.mem_filter.1 hm
        rw [ho] at hm
        rcases List.mem_append.1 hm with hm | hm
        · exact absurd ((hbk.clsB o hm).1.symm.trans (of_decide_eq_true ht)) h.ne
        · exact ⟨o, hm, hp⟩
      · rintro ⟨o, hm, hp⟩
        have hm' : o ∈ r.sol.orders := by rw [ho]; exact List.mem_append_right _ hm
        exact ⟨o, List.mem_filter.2 ⟨hm', decide_eq_true (hbk.clsS o hm).1⟩, hp⟩
    unfold BothSides
    rw [← p1, ← p2, hbal]
  · unfold solveOriented at hr
    rw [bind_eq_ok] at hr
    obtain ⟨⟨xo, b1, s1⟩, h1, hr⟩ := hr
    have hsearch : SearchInput cfg fee b s := hb.search h.pool h.cfg h.feeLt
    dsimp only at hr
    split at hr
    · cases hr; exact absurd rfl ht
    rename_i h0
    cases xo with
    | none => cases hr
    | some x =>
      dsimp only at hr
      obtain ⟨y, x0, e0, hy, _, _, _, _, _, _, hex⟩ := (solveTokenPair_spec hsearch h.cfg.limit h.rate (fun q hq => by cases hq) h1).resolve_left
        (by rintro ⟨h, _⟩; cases h)
      cases e0
      have hsame : BooksSame { b, s, f } { b := b1, s := s1, f } :=
        ⟨forall₂_exec_of_buy hex.sameB, forall₂_exec_of_buy hex.sameS, forall₂_same_refl _⟩
      have hb1 := hb.same hsame
      split at hr
      · cases hr; exact absurd rfl ht
      rename_i hf0
      rw [bind_eq_ok] at hr
      obtain ⟨imb, _, hr⟩ := hr
      rw [bind_eq_ok] at hr
      obtain ⟨⟨mn, mx⟩, h2, hr⟩ := hr
      obtain ⟨n1, n2, n3⟩ := nrFOrders_spec h2
      dsimp only at hr
      split at hr
      · cases hr; exact absurd rfl ht
      rename_i hm
      rw [bind_eq_ok] at hr
      obtain ⟨st, h3, hr⟩ := hr
      have hperm := sortedByExecPriority_perm f
      have hbS : BookOf pool pair fee { b := b1, s := s1, f := sortedByExecPriority f } :=
        ⟨hb1.derB, hb1.derS, fun o ho => hb1.derF o (hperm.mem_iff.1 ho), hb1.idsB, hb1.idsS, (hperm.map _).nodup_iff.2 hb1.idsF, hb1.clsB,
          hb1.clsS, fun h o ho => hb1.clsF h o (hperm.mem_iff.1 ho)⟩
      have hbn : b1 ≠ [] := by rintro rfl; exact h0 rfl
      have hsn : s1 ≠ [] := by
        obtain ⟨o, ho, hpos⟩ := exists_of_countNrExec h0
        obtain ⟨o', ho', _⟩ := hex.both.1 ⟨o, ho, hpos⟩
        rintro rfl; simp at ho'
      have hfn : sortedByExecPriority f ≠ [] := by
        intro h; rw [h] at hperm; rw [← hperm.length_eq] at hf0; simp at hf0
      have hB := fOrdersLoop_both h.pool h.cfg h.feeLt h.ne hF hF2 hy (bk0 := { b := b1, s := s1, f := sortedByExecPriority f }) hbS hbn hsn hfn
        (by
          intro n hn
          obtain ⟨i, hi, rfl⟩ := List.mem_map.1 hn
          rw [List.mem_range] at hi
          omega) (st := { best := none, books := { b := b1, s := s1, f := sortedByExecPriority f } }) (BooksSame.refl _) hex.both h3
      cases hbest : st.best with
      | none => rw [hbest] at hr; cases hr; exact hB
      | some best =>
        rw [hbest] at hr
        dsimp only at hr
        cases hbp : best.bPrice with
        | none => rw [hbp] at hr; cases hr; exact hB
        | some p =>
          rw [hbp] at hr
          dsimp only at hr
          rw [bind_eq_ok] at hr
          obtain ⟨_, _, hr⟩ := hr
          cases hr
          exact hB

theorem exists_of_filter_eq {l m : List Order} (h : l.filter (fun o => decide (0 < o.buy)) = m.filter (fun o => decide (0 < o.buy))) :
    (∃ o ∈ l, 0 < o.buy) ↔ ∃ o ∈ m, 0 < o.buy := by
  have key : ∀ l : List Order, (∃ o ∈ l, 0 < o.buy) ↔ ∃ o, o ∈ l.filter (fun o => decide (0 < o.buy)) := by
    intro l
    simp [List.mem_filter]
  rw [key, key, h]

theorem solve_both {cfg : Config} {ext : Ext} {pair : Token × Token} {fee : Fee} {xrate : Option ℚ} {pool : List Order} {b s f : List Order}
    {r : MatchResult} (h : RunInput cfg ext pair fee xrate pool) (hb : BookOf pool pair fee { b, s, f }) (zb : ∀ o ∈ b, o.buy = 0) (zs : ∀ o ∈ s, o.buy = 0)
    (hr : solveTokenPairAndFee cfg ext pair b s f fee xrate = .ok r) (ht : r.sol ≠ .trivial) : BothSides r.books := by
  unfold solveTokenPairAndFee at hr
  rw [bind_eq_ok] at hr
  obtain ⟨⟨b', s'⟩, e, hr⟩ := hr
  obtain ⟨sb, ss⟩ := prune_sublist e
  have hb' := hb.sub sb ss (List.Sublist.refl f)
  dsimp only at hr
  split at hr
  · cases hr; exact absurd rfl ht
  split at hr
  · rename_i hF
    rw [bind_eq_ok] at hr
    obtain ⟨t, et, hr⟩ := hr
    cases hr
    have hF' : pair.1 ≠ fee.token := by rw [← hF]; exact h.ne
    obtain ⟨i1, i2⟩ := oriented_ids h.swap (hb'.swap hF) hF' et
    have hB := oriented_both h.swap (hb'.swap hF) hF' et ht
    have e1 := exists_of_filter_eq (writeBack_executed sb hb.idsB i2 zb)
    have e2 := exists_of_filter_eq (writeBack_executed ss hb.idsS i1 zs)
    exact (e1.trans (Iff.symm hB)).trans e2.symm
  · rename_i hF
    rw [bind_eq_ok] at hr
    obtain ⟨t, et, hr⟩ := hr
    cases hr
    obtain ⟨i1, i2⟩ := oriented_ids h hb' hF et
    have hB := oriented_both h hb' hF et ht
    have e1 := exists_of_filter_eq (writeBack_executed sb hb.idsB i1 zb)
    have e2 := exists_of_filter_eq (writeBack_executed ss hb.idsS i2 zs)
    exact (e1.trans hB).trans e2.symm

theorem pyMinBy_exists {l : List Order} (h : ∃ o ∈ l, 0 < o.buy) : ∃ m, pyMinBy (·.buy) (l.filter (fun o => decide (o.buy > 0))) = .ok m := by
  obtain ⟨o, ho, hp⟩ := h
  have hm : o ∈ l.filter (fun o => decide (o.buy > 0)) := List.mem_filter.2 ⟨ho, decide_eq_true hp⟩
  cases hl : l.filter (fun o => decide (o.buy > 0)) with
  | nil => rw [hl] at hm; simp at hm
  | cons a t => exact ⟨_, rfl⟩

theorem firstLeast_exists {l : List Order} (h : ∃ o ∈ l, 0 < o.buy) : ∃ m, FirstLeast l m := by
  obtain ⟨m, hm⟩ := pyMinBy_exists h
  exact ⟨m, pyMinBy_first hm⟩

/-! ### Orders that cannot trade do not matter -/

theorem without_sub (l : List Order) (o : Order) : (without l o).Sublist l := List.filter_sublist

theorem nodup_of_ids {l : List Order} (h : (l.map (·.id)).Nodup) : l.Nodup := List.Nodup.of_map _ h

theorem solve_skipB {cfg : Config} {ext : Ext} {pair : Token × Token} {fee : Fee} {xrate : Option ℚ} {pool : List Order} {b s f : List Order} {u : Order}
    {r : MatchResult} (h : RunInput cfg ext pair fee xrate pool) (hb : BookOf pool pair fee { b, s, f })
    (hu : ∀ o ∈ b, o.id = u.id → ∀ c ∈ s, ¬ Matchable fee o c) (hr : solveTokenPairAndFee cfg ext pair (without b u) s f fee xrate = .ok r) :
    ∃ r₀, solveTokenPairAndFee cfg ext pair b s f fee xrate = .ok r₀ ∧ r₀.sol = r.sol ∧
      (r.sol = .trivial ∨ (r.books.b = without r₀.books.b u ∧ (∀ c ∈ r₀.books.b, c.id = u.id → c ∈ b) ∧ r₀.books.s = r.books.s)) := by
  unfold solveTokenPairAndFee at hr ⊢
  rw [bind_eq_ok] at hr
  obtain ⟨⟨b', s'⟩, e, hr⟩ := hr
  obtain ⟨hbn, hsn⟩ := prune_ne e
  have hbn' : b ≠ [] := by rintro rfl; exact hbn rfl
  have pB : ∀ o ∈ b, 0 < o.maxXrate := fun o ho => ((hb.derB o ho).ok h.pool).1
  have pS : ∀ o ∈ s, 0 < o.maxXrate := fun o ho => ((hb.derS o ho).ok h.pool).1
  obtain ⟨b2, s2, e2, sb, ss, mb, ms⟩ := C14_exact (⟨h.feeLt, hbn, hsn, fun o ho => pB o ((without_sub _ _).subset ho), pS⟩ : PruneInput fee (without b u) s)
  rw [e] at e2
  obtain ⟨rfl, rfl⟩ := Prod.mk.inj (Except.ok.inj e2)
  obtain ⟨b3, s3, e3, sb3, ss3, mb3, ms3⟩ := C14_exact (⟨h.feeLt, hbn', hsn, pB, pS⟩ : PruneInput fee b s)
  have hid : ∀ o ∈ b, (∃ c ∈ s, Matchable fee o c) → o.id ≠ u.id := fun o ho ⟨c, hc, hm⟩ he => hu o ho he c hc hm
  obtain rfl : b3 = b' := by
    refine sublist_ext (nodup_of_ids hb.idsB) sb3 (sb.trans (without_sub _ _)) fun o => ?_
    rw [mb3, mb, mem_without]
    exact ⟨fun ⟨h1, h2⟩ => ⟨⟨h1, hid o h1 h2⟩, h2⟩, fun ⟨h1, h2⟩ => ⟨h1.1, h2⟩⟩
  obtain rfl : s3 = s' := by
    refine sublist_ext (nodup_of_ids hb.idsS) ss3 ss fun c => ?_
    rw [ms3, ms]
    refine and_congr_right fun hc => ⟨fun ⟨o, ho, hm⟩ => ⟨o, mem_without.2 ⟨ho, hid o ho ⟨c, hc, hm⟩⟩, hm⟩, fun ⟨o, ho, hm⟩ => ⟨o, (mem_without.1 ho).1, hm⟩⟩
  have hb' := hb.sub sb3 ss3 (List.Sublist.refl f)
  have hw : ∀ X : List Order, X.map (·.id) = b3.map (·.id) → ∀ c ∈ writeBack b X, c.id = u.id → c ∈ b := by
    intro X hX c hc hcu
    unfold writeBack at hc
    obtain ⟨o, ho, rfl⟩ := List.mem_map.1 hc
    rw [writeBack_id] at hcu
    have hn : X.find? (fun v => decide (v.id = o.id)) = none := by
      rw [List.find?_eq_none]
      intro v hv
      have : v.id ∈ b3.map (·.id) := hX ▸ List.mem_map.2 ⟨v, hv, rfl⟩
      obtain ⟨w, hw, e⟩ := List.mem_map.1 this
      have := (mb w).1 hw
      have := (mem_without.1 this.1).2
      rw [decide_eq_true_eq, ← e, hcu]
      exact this
    rw [hn]
    exact ho
  rw [e3, ok_bind]
  dsimp only at hr ⊢
  split at hr
  · rename_i h0
    cases hr
    rw [if_pos h0]
    exact ⟨_, rfl, rfl, .inl rfl⟩
  · rename_i h0
    rw [if_neg h0]
    split at hr
    · rename_i hF
      rw [if_pos hF]
      rw [bind_eq_ok] at hr
      obtain ⟨t, et, hr⟩ := hr
      cases hr
      obtain ⟨i1, i2⟩ := oriented_ids h.swap (hb'.swap hF) (by rw [← hF]; exact h.ne) et
      rw [et, ok_bind]
      exact ⟨_, rfl, rfl, .inr ⟨(without_writeBack _ _ _).symm, hw _ i2, rfl⟩⟩
    · rename_i hF
      rw [if_neg hF]
      rw [bind_eq_ok] at hr
      obtain ⟨t, et, hr⟩ := hr
      cases hr
      obtain ⟨i1, i2⟩ := oriented_ids h hb' hF et
      rw [et, ok_bind]
      exact ⟨_, rfl, rfl, .inr ⟨(without_writeBack _ _ _).symm, hw _ i1, rfl⟩⟩

theorem solve_skipS {cfg : Config} {ext : Ext} {pair : Token × Token} {fee : Fee} {xrate : Option ℚ} {pool : List Order} {b s f : List Order} {u : Order}
    {r : MatchResult} (h : RunInput cfg ext pair fee xrate pool) (hb : BookOf pool pair fee { b, s, f })
    (hu : ∀ o ∈ s, o.id = u.id → ∀ c ∈ b, ¬ Matchable fee c o) (hr : solveTokenPairAndFee cfg ext pair b (without s u) f fee xrate = .ok r) :
    ∃ r₀, solveTokenPairAndFee cfg ext pair b s f fee xrate = .ok r₀ ∧ r₀.sol = r.sol ∧
      (r.sol = .trivial ∨ (r.books.s = without r₀.books.s u ∧ (∀ c ∈ r₀.books.s, c.id = u.id → c ∈ s) ∧ r₀.books.b = r.books.b)) := by
  unfold solveTokenPairAndFee at hr ⊢
  rw [bind_eq_ok] at hr
  obtain ⟨⟨b', s'⟩, e, hr⟩ := hr
  obtain ⟨hbn, hsn⟩ := prune_ne e
  have hsn' : s ≠ [] := by rintro rfl; exact hsn rfl
  have pB : ∀ o ∈ b, 0 < o.maxXrate := fun o ho => ((hb.derB o ho).ok h.pool).1
  have pS : ∀ o ∈ s, 0 < o.maxXrate := fun o ho => ((hb.derS o ho).ok h.pool).1
  obtain ⟨b2, s2, e2, sb, ss, mb, ms⟩ := C14_exact (⟨h.feeLt, hbn, hsn, pB, fun o ho => pS o ((without_sub _ _).subset ho)⟩ : PruneInput fee b (without s u))
  rw [e] at e2
  obtain ⟨rfl, rfl⟩ := Prod.mk.inj (Except.ok.inj e2)
  obtain ⟨b3, s3, e3, sb3, ss3, mb3, ms3⟩ := C14_exact (⟨h.feeLt, hbn, hsn', pB, pS⟩ : PruneInput fee b s)
  have hid : ∀ o ∈ s, (∃ c ∈ b, Matchable fee c o) → o.id ≠ u.id := fun o ho ⟨c, hc, hm⟩ he => hu o ho he c hc hm
  obtain rfl : s3 = s' := by
    refine sublist_ext (nodup_of_ids hb.idsS) ss3 (ss.trans (without_sub _ _)) fun o => ?_
    rw [ms3, ms, mem_without]
    exact ⟨fun ⟨h1, h2⟩ => ⟨⟨h1, hid o h1 h2⟩, h2⟩, fun ⟨h1, h2⟩ => ⟨h1.1, h2⟩⟩
  obtain rfl : b3 = b' := by
    refine sublist_ext (nodup_of_ids hb.idsB) sb3 sb fun c => ?_
    rw [mb3, mb]
    refine and_congr_right fun hc => ⟨fun ⟨o, ho, hm⟩ => ⟨o, mem_without.2 ⟨ho, hid o ho ⟨c, hc, hm⟩⟩, hm⟩, fun ⟨o, ho, hm⟩ => ⟨o, (mem_without.1 ho).1, hm⟩⟩
  have hb' := hb.sub sb3 ss3 (List.Sublist.refl f)
  have hw : ∀ X : List Order, X.map (·.id) = s3.map (·.id) → ∀ c ∈ writeBack s X, c.id = u.id → c ∈ s := by
    intro X hX c hc hcu
    unfold writeBack at hc
    obtain ⟨o, ho, rfl⟩ := List.mem_map.1 hc
    rw [writeBack_id] at hcu
    have hn : X.find? (fun v => decide (v.id = o.id)) = none := by
      rw [List.find?_eq_none]
      intro v hv
      have : v.id ∈ s3.map (·.id) := hX ▸ List.mem_map.2 ⟨v, hv, rfl⟩
      obtain ⟨w, hw, e⟩ := List.mem_map.1 this
      have := (ms w).1 hw
      have := (mem_without.1 this.1).2
      rw [decide_eq_true_eq, ← e, hcu]
      exact this
    rw [hn]
    exact ho
  rw [e3, ok_bind]
  dsimp only at hr ⊢
  split at hr
  · rename_i h0
    cases hr
    rw [if_pos h0]
    exact ⟨_, rfl, rfl, .inl rfl⟩
  · rename_i h0
    rw [if_neg h0]
    split at hr
    · rename_i hF
      rw [if_pos hF]
      rw [bind_eq_ok] at hr
      obtain ⟨t, et, hr⟩ := hr
      cases hr
      obtain ⟨i1, i2⟩ := oriented_ids h.swap (hb'.swap hF) (by rw [← hF]; exact h.ne) et
      rw [et, ok_bind]
      exact ⟨_, rfl, rfl, .inr ⟨(without_writeBack _ _ _).symm, hw _ i1, rfl⟩⟩
    · rename_i hF
      rw [if_neg hF]
      rw [bind_eq_ok] at hr
      obtain ⟨t, et, hr⟩ := hr
      cases hr
      obtain ⟨i1, i2⟩ := oriented_ids h hb' hF et
      rw [et, ok_bind]
      exact ⟨_, rfl, rfl, .inr ⟨(without_writeBack _ _ _).symm, hw _ i2, rfl⟩⟩

theorem run_skipB {cfg : Config} {ext : Ext} {pair : Token × Token} {fee : Fee} {xrate : Option ℚ} {pool : List Order} {b s f : List Order} {u : Order}
    {sol : Solution} (h : RunInput cfg ext pair fee xrate pool) (hb : BookOf pool pair fee { b, s, f }) (zb : ∀ o ∈ b, o.buy = 0)
    (hu : ∀ o ∈ b, o.id = u.id → ∀ c ∈ s, ¬ Matchable fee o c) (hne : without b u ≠ [] ∨ s ≠ [])
    (hr : ViabilityRun cfg fee pair (fun b s => solveTokenPairAndFee cfg ext pair b s f fee xrate) (without b u) s sol) :
    ViabilityRun cfg fee pair (fun b s => solveTokenPairAndFee cfg ext pair b s f fee xrate) b s sol := by
  generalize hb1 : without b u = b1 at hr hne
  induction hr generalizing b with
  | empty => simp at hne
  | stop h1 h2 =>
    subst hb1
    obtain ⟨r₀, e, e1, _⟩ := solve_skipB h hb hu h1
    rw [← e1] at h2 ⊢
    exact .stop e h2
  | hopeless h1 h2 h3 =>
    subst hb1
    obtain ⟨r₀, e, e1, _⟩ := solve_skipB h hb hu h1
    rw [← e1] at h2 h3
    exact .hopeless e h2 h3
  | @dropB b1 s os r o c pb ps sol h1 h2 h3 h4 h5 h6 h7 h8 h9 _ ih =>
    subst hb1
    obtain ⟨r₀, e, e1, e2⟩ := solve_skipB h hb hu h1
    rcases e2 with e2 | ⟨e2, e3, e4⟩
    · exact absurd e2 (not_viable_ne h2)
    rw [← e1] at h2 h3 h7 h8
    rw [e2] at h5
    rw [← e4] at h6
    have h5' : FirstLeast r₀.books.b o := firstLeast_of_filter h5 fun c hc hn => by
      have hid : c.id = u.id := by simpa using hn
      exact zb c (e3 c hc hid)
    refine .dropB e h2 h3 h4 h5' h6 h7 h8 h9 (ih (hb.sub (without_sub b o) (List.Sublist.refl _) (List.Sublist.refl _))
      (fun c hc => zb c ((without_sub _ _).subset hc)) (fun c hc => hu c ((without_sub _ _).subset hc)) (without_comm _ _ _) (.inr (solve_ne h1).2))
  | @dropS b1 s os r o c pb ps sol h1 h2 h3 h4 h5 h6 h7 h8 h9 _ ih =>
    subst hb1
    obtain ⟨r₀, e, e1, e2⟩ := solve_skipB h hb hu h1
    rcases e2 with e2 | ⟨e2, e3, e4⟩
    · exact absurd e2 (not_viable_ne h2)
    rw [← e1] at h2 h3 h7 h8
    rw [e2] at h5
    rw [← e4] at h6
    have h5' : FirstLeast r₀.books.b o := firstLeast_of_filter h5 fun c hc hn => by
      have hid : c.id = u.id := by simpa using hn
      exact zb c (e3 c hc hid)
    refine .dropS e h2 h3 h4 h5' h6 h7 h8 h9 (ih (hb.sub (List.Sublist.refl _) (without_sub s c) (List.Sublist.refl _)) zb
      (fun c hc hid d hd => hu c hc hid d ((without_sub _ _).subset hd)) rfl (.inl (solve_ne h1).1))

theorem run_skipS {cfg : Config} {ext : Ext} {pair : Token × Token} {fee : Fee} {xrate : Option ℚ} {pool : List Order} {b s f : List Order} {u : Order}
    {sol : Solution} (h : RunInput cfg ext pair fee xrate pool) (hb : BookOf pool pair fee { b, s, f }) (zs : ∀ o ∈ s, o.buy = 0)
    (hu : ∀ o ∈ s, o.id = u.id → ∀ c ∈ b, ¬ Matchable fee c o) (hne : b ≠ [] ∨ without s u ≠ [])
    (hr : ViabilityRun cfg fee pair (fun b s => solveTokenPairAndFee cfg ext pair b s f fee xrate) b (without s u) sol) :
    ViabilityRun cfg fee pair (fun b s => solveTokenPairAndFee cfg ext pair b s f fee xrate) b s sol := by
  generalize hs1 : without s u = s1 at hr hne
  induction hr generalizing s with
  | empty => simp at hne
  | stop h1 h2 =>
    subst hs1
    obtain ⟨r₀, e, e1, _⟩ := solve_skipS h hb hu h1
    rw [← e1] at h2 ⊢
    exact .stop e h2
  | hopeless h1 h2 h3 =>
    subst hs1
    obtain ⟨r₀, e, e1, _⟩ := solve_skipS h hb hu h1
    rw [← e1] at h2 h3
    exact .hopeless e h2 h3
  | @dropS b s1 os r o c pb ps sol h1 h2 h3 h4 h5 h6 h7 h8 h9 _ ih =>
    subst hs1
    obtain ⟨r₀, e, e1, e2⟩ := solve_skipS h hb hu h1
    rcases e2 with e2 | ⟨e2, e3, e4⟩
    · exact absurd e2 (not_viable_ne h2)
    rw [← e1] at h2 h3 h7 h8
    rw [e2] at h6
    rw [← e4] at h5
    have h6' : FirstLeast r₀.books.s c := firstLeast_of_filter h6 fun c hc hn => by
      have hid : c.id = u.id := by simpa using hn
      exact zs c (e3 c hc hid)
    refine .dropS e h2 h3 h4 h5 h6' h7 h8 h9 (ih (hb.sub (List.Sublist.refl _) (without_sub s c) (List.Sublist.refl _))
      (fun c hc => zs c ((without_sub _ _).subset hc)) (fun c hc => hu c ((without_sub _ _).subset hc)) (without_comm _ _ _) (.inl (solve_ne h1).1))
  | @dropB b s1 os r o c pb ps sol h1 h2 h3 h4 h5 h6 h7 h8 h9 _ ih =>
    subst hs1
    obtain ⟨r₀, e, e1, e2⟩ := solve_skipS h hb hu h1
    rcases e2 with e2 | ⟨e2, e3, e4⟩
    · exact absurd e2 (not_viable_ne h2)
    rw [← e1] at h2 h3 h7 h8
    rw [e2] at h6
    rw [← e4] at h5
    have h6' : FirstLeast r₀.books.s c := firstLeast_of_filter h6 fun c hc hn => by
      have hid : c.id = u.id := by simpa using hn
      exact zs c (e3 c hc hid)
    refine .dropB e h2 h3 h4 h5 h6' h7 h8 h9 (ih (hb.sub (without_sub b o) (List.Sublist.refl _) (List.Sublist.refl _)) zs
      (fun c hc hid d hd => hu c hc hid d ((without_sub _ _).subset hd)) rfl (.inr (solve_ne h1).2))

/-! ### The loop -/

theorem isEconomicViable_iff {cfg : Config} {fee : Fee} {pool : List Order} {sol : Solution} {v : Bool} (hc : CfgOk cfg) (hs : SolOk cfg fee pool sol)
    (h : isEconomicViable cfg sol.orders sol.prices fee = .ok v) : (v = true ↔ Viable cfg fee sol) ∧ (isTrivial sol.orders = true → Viable cfg fee sol) := by
  have hbp : BuyPriced sol.prices sol.orders := by
    rcases hs with rfl | hg
    · intro o ho; cases ho
    · intro o ho
      have := hg.priced o ho
      rw [priced_iff] at this
      exact this.1
  rw [viable_iff (by have := hc.feePrice; omega) hbp] at h
  cases h
  refine ⟨by rw [decide_eq_true_eq]; rfl, fun ht => .inl ?_⟩
  unfold isTrivial at ht
  rw [countNrExec_eq] at ht
  simpa using ht

theorem economicLoop_run {cfg : Config} {ext : Ext} {pair : Token × Token} {fee : Fee} {xrate : Option ℚ} {pool : List Order}
    (h : RunInput cfg ext pair fee xrate pool) {fuel : ℕ} {bk : Books} {gone : List Order} {cur sol : Solution} {objs : List Order} {b s f : List Order}
    (hb : BookOf pool pair fee bk) (rb : RelB bk.b b) (rs : RelB bk.s s) (rf : RelB bk.f f) (zb : ∀ o ∈ b, o.buy = 0) (zs : ∀ o ∈ s, o.buy = 0)
    (hcur : bk.b = [] → bk.s = [] → cur = .trivial) (hr : economicLoop cfg ext pair fee xrate fuel bk gone cur = .ok (sol, objs)) :
    ViabilityRun cfg fee pair (fun b s => solveTokenPairAndFee cfg ext pair b s f fee xrate) b s sol := by
  induction fuel generalizing bk gone cur b s with
  | zero => cases hr
  | succ fuel ih =>
    unfold economicLoop at hr
    split at hr
    · rw [bind_eq_ok] at hr
      obtain ⟨r, h1, hr⟩ := hr
      have hb0 : BookOf pool pair fee { b := bk.b, s := bk.s, f := bk.f } := hb
      obtain ⟨g1, g2⟩ := solveTokenPairAndFee_spec h.pool h.cfg h.feeLt hb0 h.ne h.branch h.rate h1
      have hbk : BookOf pool pair fee r.books := hb0.same g1
      have hbf : BookOf pool pair fee { b, s, f } := hb0.same (bk' := { b, s, f }) ⟨rb, rs, rf⟩
      obtain ⟨r₀, e₀, esol, stB, stS⟩ := solve_stale h hb0 rb rs rf zb zs h1
      have rb' : RelB r.books.b b := forall₂_same_trans (RelB.symm g1.b) rb
      have rs' : RelB r.books.s s := forall₂_same_trans (RelB.symm g1.s) rs
      have rf' : RelB r.books.f f := forall₂_same_trans (RelB.symm g1.f) rf
      dsimp only at hr
      rw [bind_eq_ok] at hr
      obtain ⟨v, hv, hr⟩ := hr
      obtain ⟨v1, v2⟩ := isEconomicViable_iff h.cfg g2 hv
      split at hr
      · rename_i hc
        cases hr
        rw [esol] at v1 v2 hc ⊢
        exact .stop e₀ (hc.elim v1.1 v2)
      · rename_i hc
        push Not at hc
        have hnv : ¬ Viable cfg fee r₀.sol := by rw [← esol]; exact fun hv => hc.1 (v1.2 hv)
        rw [bind_eq_ok] at hr
        obtain ⟨sub, hsub, hr⟩ := hr
        rw [esol] at hsub
        split at hr
        · rename_i h0
          cases hr
          rw [List.length_eq_zero_iff] at h0
          subst h0
          exact .hopeless e₀ hnv hsub
        · rename_i h0
          have hsne : sub ≠ [] := fun e => h0 (by rw [e]; rfl)
          simp only [bind_eq_ok] at hr
          obtain ⟨bm, hbm, sm, hsm, pb, hpb, ps, hps, hr⟩ := hr
          have fb := pyMinBy_first hbm
          have fs := pyMinBy_first hsm
          rw [esol] at hpb hps
          have ppb : PriceOf r₀.sol.prices pair.1 pb := priceOf_iff.2 (dictGet_eq_ok.1 hpb)
          have pps : PriceOf r₀.sol.prices pair.2 ps := priceOf_iff.2 (dictGet_eq_ok.1 hps)
          have hg : GoodSolution cfg fee pool r₀.sol := by
            rw [esol] at g2
            exact g2.resolve_left (not_viable_ne hnv)
          have hboth := solve_both h hbf zb zs e₀ (not_viable_ne hnv)
          have pb0 := (hg.intPrices.of ppb).1
          have ps0 := (hg.intPrices.of pps).1
          have lB : ∀ c ∈ r₀.books.b, 0 < c.buy → bm.buy ≤ c.buy := by
            intro c hc hp
            obtain ⟨d, hd, hs⟩ := forall₂_mem_r stB c hc
            rcases hs.2 with e | ⟨e, _⟩
            · rw [← e]; exact fb.least hd (by rw [e]; exact hp)
            · rw [e] at hp; exact absurd hp (lt_irrefl _)
          have lS : ∀ c ∈ r₀.books.s, 0 < c.buy → sm.buy ≤ c.buy := by
            intro c hc hp
            obtain ⟨d, hd, hs⟩ := forall₂_mem_r stS c hc
            rcases hs.2 with e | ⟨e, _⟩
            · rw [← e]; exact fs.least hd (by rw [e]; exact hp)
            · rw [e] at hp; exact absurd hp (lt_irrefl _)
          have frel : ∀ {l l' : List Order} (m : Order), RelB l l' → RelB (without l m) (without l' m) := fun m hl =>
            filter_rel hl (fun a c hac => by rw [id_same _ _ hac])
          split at hr
          · rename_i hlt
            have hrec := ih (b := without b bm) (s := s) (hbk.sub List.filter_sublist (List.Sublist.refl _) (List.Sublist.refl _)) (frel bm rb') rs' rf'
              (fun o ho => zb o ((without_sub _ _).subset ho)) zs (fun _ e => absurd fs.mem (by dsimp only at e; rw [e]; simp)) hr
            rcases firstLeast_stale stB fb with ⟨m₀, k1, k2, k3⟩ | ⟨km, kn⟩
            · have ew : without b bm = without b m₀ := by unfold without; rw [id_same _ _ k2]
              rw [ew] at hrec
              obtain ⟨c₀, hc₀⟩ := firstLeast_exists (hboth.1 ⟨m₀, k1.mem, k1.1⟩)
              refine .dropB e₀ hnv hsub hsne k1 hc₀ ppb pps ?_ hrec
              rw [← k3]
              exact hlt.trans_le (mul_le_mul_of_nonneg_right (lS c₀ hc₀.mem hc₀.1) ps0.le)
            · refine run_skipB h hbf zb ?_ (.inr (solve_ne e₀).2) hrec
              intro o ho hid c hc
              obtain ⟨o', ho', so⟩ := forall₂_mem_r rb o ho
              obtain ⟨c', hc', sc⟩ := forall₂_mem_r rs c hc
              have : o' = bm := List.inj_on_of_nodup_map hb.idsB ho' km ((id_same _ _ so).trans hid)
              subst this
              have := kn c' hc'
              obtain ⟨_, _, rfl⟩ := sameButExec_iff.1 so
              obtain ⟨_, _, rfl⟩ := sameButExec_iff.1 sc
              exact this
          · rename_i hlt
            push Not at hlt
            have hrec := ih (b := b) (s := without s sm) (hbk.sub (List.Sublist.refl _) List.filter_sublist (List.Sublist.refl _)) rb' (frel sm rs') rf'
              zb (fun o ho => zs o ((without_sub _ _).subset ho)) (fun e _ => absurd fb.mem (by dsimp only at e; rw [e]; simp)) hr
            rcases firstLeast_stale stS fs with ⟨m₀, k1, k2, k3⟩ | ⟨km, kn⟩
            · have ew : without s sm = without s m₀ := by unfold without; rw [id_same _ _ k2]
              rw [ew] at hrec
              obtain ⟨c₀, hc₀⟩ := firstLeast_exists (hboth.2 ⟨m₀, k1.mem, k1.1⟩)
              refine .dropS e₀ hnv hsub hsne hc₀ k1 ppb pps ?_ hrec
              rw [← k3]
              exact hlt.trans (mul_le_mul_of_nonneg_right (lB c₀ hc₀.mem hc₀.1) pb0.le)
            · refine run_skipS h hbf zs ?_ (.inl (solve_ne e₀).1) hrec
              intro o ho hid c hc
              obtain ⟨o', ho', so⟩ := forall₂_mem_r rs o ho
              obtain ⟨c', hc', sc⟩ := forall₂_mem_r rb c hc
              have : o' = sm := List.inj_on_of_nodup_map hb.idsS ho' km ((id_same _ _ so).trans hid)
              subst this
              have := kn c' hc'
              obtain ⟨_, _, rfl⟩ := sameButExec_iff.1 so
              obtain ⟨_, _, rfl⟩ := sameButExec_iff.1 sc
              exact this
    · rename_i h0
      push Not at h0
      cases hr
      have e1 : bk.b = [] := List.length_eq_zero_iff.1 (by omega)
      have e2 : bk.s = [] := List.length_eq_zero_iff.1 (by omega)
      rw [hcur e1 e2]
      rw [e1] at rb
      rw [e2] at rs
      cases rb
      cases rs
      exact .empty

/-- C63. What the search returns is the outcome of the run described by `ViabilityRun`, each step solving its orders afresh: amounts left on the order
objects by earlier steps do not matter, even though the code reads them when it looks for the order to remove. -/
theorem C63_run {cfg : Config} {ext : Ext} {pair : Token × Token} {fee : Fee} {xrate : Option ℚ} {pool : List Order} {accounts : Accounts} {b s f objs : List Order}
    {sol : Solution} (h : RunInput cfg ext pair fee xrate pool) (hb : BookOf pool pair fee { b, s, f })
    (hr : solveEconomicViable cfg ext pair accounts b s f fee xrate = .ok (sol, objs)) :
    ViabilityRun cfg fee pair (fun b s => solveTokenPairAndFee cfg ext pair b s (f.map fresh) fee xrate) (b.map fresh) (s.map fresh) sol := by
  have hrel : ∀ l : List Order, RelB l (l.map fresh) := by
    intro l
    induction l with
    | nil => exact .nil
    | cons o l ih => exact .cons (sameButExec_iff.2 ⟨0, 0, rfl⟩) ih
  have hz : ∀ l : List Order, ∀ o ∈ l.map fresh, o.buy = 0 := by
    intro l o ho
    obtain ⟨c, _, rfl⟩ := List.mem_map.1 ho
    rfl
  unfold solveEconomicViable at hr
  rw [bind_eq_ok] at hr
  obtain ⟨⟨sol', objs'⟩, h1, hr⟩ := hr
  rw [bind_eq_ok] at hr
  obtain ⟨_, _, hr⟩ := hr
  cases hr
  exact economicLoop_run h hb (hrel b) (hrel s) (hrel f) (hz b) (hz s) (fun _ _ => rfl) h1

end Dex
