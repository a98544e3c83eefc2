import Verif.Proof.Sort
import Verif.Model.TpOrderbook
import Mathlib.Tactic.FieldSimp
import Mathlib.Tactic.Ring
import Mathlib.Tactic.Linarith
import Mathlib.Tactic.Positivity

/-! # Property C14: pruning -/

namespace Dex

namespace Spec

/-- A b_order and an s_order can trade with each other: some rate is accepted by both. -/
def Matchable (fee : Fee) (o c : Order) : Prop :=
  ∃ x : ℚ, 0 < x ∧ x ≤ o.maxXrate * (1 - fee.value) ∧ 1 / x ≤ c.maxXrate * (1 - fee.value)

end Spec

open Spec

theorem matchable_iff {fee : Fee} {o c : Order} (hf : fee.value < 1) (ho : 0 < o.maxXrate) (hc : 0 < c.maxXrate) :
    Matchable fee o c ↔ 1 ≤ o.maxXrate * c.maxXrate * (1 - fee.value) ^ 2 := by
  have hφ : 0 < 1 - fee.value := by linarith
  constructor
  · rintro ⟨x, hx, h1, h2⟩
    have h3 : 1 / x * x ≤ c.maxXrate * (1 - fee.value) * (o.maxXrate * (1 - fee.value)) :=
      mul_le_mul h2 h1 hx.le (by positivity)
    rw [one_div_mul_cancel hx.ne'] at h3
    linarith [h3]
  · intro h
    refine ⟨o.maxXrate * (1 - fee.value), by positivity, le_refl _, ?_⟩
    rw [div_le_iff₀ (by positivity)]
    linarith

/-- Inputs for which pruning is claimed to work. -/
structure PruneInput (fee : Fee) (b s : List Order) : Prop where
  feeLt : fee.value < 1
  neB : b ≠ []
  neS : s ≠ []
  posB : ∀ o ∈ b, 0 < o.maxXrate
  posS : ∀ o ∈ s, 0 < o.maxXrate

theorem ratioCheck_iff {fee : Fee} {o c : Order} {l : List Order} {m : ℚ} (hf : fee.value < 1) (ho : 0 < o.maxXrate)
    (hl : ∀ c ∈ l, 0 < c.maxXrate) (hc : c ∈ l) (hm : c.maxXrate = m) (hmax : ∀ a ∈ l, a.maxXrate ≤ m) :
    o.maxXrate * (1 - fee.value) ^ 2 ≥ 1 / m ↔ ∃ c ∈ l, 1 ≤ o.maxXrate * c.maxXrate * (1 - fee.value) ^ 2 := by
  have hφ : 0 < 1 - fee.value := by linarith
  have hm0 : 0 < m := hm ▸ hl c hc
  rw [ge_iff_le, div_le_iff₀ hm0]
  constructor
  · intro h; exact ⟨c, hc, by rw [hm]; linarith⟩
  · rintro ⟨a, ha, h1⟩
    have h2 : o.maxXrate * (1 - fee.value) ^ 2 * a.maxXrate ≤ o.maxXrate * (1 - fee.value) ^ 2 * m :=
      mul_le_mul_of_nonneg_left (hmax a ha) (by positivity)
    linarith

theorem prune_eq {fee : Fee} {b s : List Order} (h : PruneInput fee b s) :
    ∃ bc ∈ b, ∃ sc ∈ s, (∀ a ∈ b, a.maxXrate ≤ bc.maxXrate) ∧ (∀ a ∈ s, a.maxXrate ≤ sc.maxXrate) ∧
    pruneUnrealizable b s fee = .ok
      (b.filter (fun o => decide (o.maxXrate * (1 - fee.value) ^ 2 ≥ 1 / sc.maxXrate)),
       s.filter (fun o => decide (o.maxXrate * (1 - fee.value) ^ 2 ≥ 1 / bc.maxXrate))) := by
  obtain ⟨mb, hmb⟩ := pyMaxBy_of_ne_nil id (l := b.map (·.maxXrate)) (by simpa using h.neB)
  obtain ⟨ms, hms⟩ := pyMaxBy_of_ne_nil id (l := s.map (·.maxXrate)) (by simpa using h.neS)
  obtain ⟨h1, h2⟩ := pyMaxBy_spec hmb
  obtain ⟨h3, h4⟩ := pyMaxBy_spec hms
  obtain ⟨bc, hbc, rfl⟩ := List.mem_map.1 h1
  obtain ⟨sc, hsc, rfl⟩ := List.mem_map.1 h3
  refine ⟨bc, hbc, sc, hsc, fun a ha => ?_, fun a ha => ?_, ?_⟩
  · exact h2 a.maxXrate (List.mem_map_of_mem ha)
  · exact h4 a.maxXrate (List.mem_map_of_mem ha)
  · unfold pruneUnrealizable
    simp only [hmb, hms, ok_bind]
    rw [filterE_of_forall (q := fun o => decide (o.maxXrate * (1 - fee.value) ^ 2 ≥ 1 / sc.maxXrate)), ok_bind,
      filterE_of_forall (q := fun o => decide (o.maxXrate * (1 - fee.value) ^ 2 ≥ 1 / bc.maxXrate)), ok_bind]
    · rfl
    · intro o _; rw [pyDiv_of_ne (h.posB bc hbc).ne']; rfl
    · intro o _; rw [pyDiv_of_ne (h.posS sc hsc).ne']; rfl

/-- C14. Pruning raises nothing and keeps exactly the orders that can trade with some order of the other side. -/
theorem C14_exact {fee : Fee} {b s : List Order} (h : PruneInput fee b s) :
    ∃ b' s', pruneUnrealizable b s fee = .ok (b', s') ∧ b'.Sublist b ∧ s'.Sublist s ∧
      (∀ o, o ∈ b' ↔ o ∈ b ∧ ∃ c ∈ s, Matchable fee o c) ∧ (∀ c, c ∈ s' ↔ c ∈ s ∧ ∃ o ∈ b, Matchable fee o c) := by
  obtain ⟨bc, hbc, sc, hsc, mb, ms, e⟩ := prune_eq h
  refine ⟨_, _, e, List.filter_sublist, List.filter_sublist, fun o => ?_, fun c => ?_⟩
  · rw [List.mem_filter, decide_eq_true_eq]
    refine and_congr_right fun ho => ?_
    rw [ratioCheck_iff h.feeLt (h.posB o ho) h.posS hsc rfl ms]
    exact ⟨fun ⟨c, hc, h1⟩ => ⟨c, hc, (matchable_iff h.feeLt (h.posB o ho) (h.posS c hc)).2 h1⟩,
      fun ⟨c, hc, h1⟩ => ⟨c, hc, (matchable_iff h.feeLt (h.posB o ho) (h.posS c hc)).1 h1⟩⟩
  · rw [List.mem_filter, decide_eq_true_eq]
    refine and_congr_right fun hc => ?_
    rw [ratioCheck_iff h.feeLt (h.posS c hc) h.posB hbc rfl mb]
    constructor
    · rintro ⟨o, ho, h1⟩
      exact ⟨o, ho, (matchable_iff h.feeLt (h.posB o ho) (h.posS c hc)).2 (by linarith)⟩
    · rintro ⟨o, ho, h1⟩
      have := (matchable_iff h.feeLt (h.posB o ho) (h.posS c hc)).1 h1
      exact ⟨o, ho, by linarith⟩

/-- C14. A removed order can trade with no order of the other side at any rate. -/
theorem C14_removed {fee : Fee} {b s b' s' : List Order} (h : PruneInput fee b s)
    (hr : pruneUnrealizable b s fee = .ok (b', s')) :
    (∀ o ∈ b, o ∉ b' → ∀ c ∈ s, ¬ Matchable fee o c) ∧ (∀ c ∈ s, c ∉ s' → ∀ o ∈ b, ¬ Matchable fee o c) := by
  obtain ⟨b1, s1, e, _, _, hb, hs⟩ := C14_exact h
  rw [e] at hr; cases hr
  exact ⟨fun o ho hn c hc hm => hn ((hb o).2 ⟨ho, c, hc, hm⟩), fun c hc hn o ho hm => hn ((hs c).2 ⟨hc, o, ho, hm⟩)⟩

/-- C14. After pruning either both sides are empty or both are not. -/
theorem C14_both_or_none {fee : Fee} {b s b' s' : List Order} (h : PruneInput fee b s)
    (hr : pruneUnrealizable b s fee = .ok (b', s')) : b' = [] ↔ s' = [] := by
  obtain ⟨b1, s1, e, _, _, hb, hs⟩ := C14_exact h
  rw [e] at hr; cases hr
  rw [List.eq_nil_iff_forall_not_mem, List.eq_nil_iff_forall_not_mem]
  constructor
  · intro hn c hc
    obtain ⟨hcs, o, ho, hm⟩ := (hs c).1 hc
    exact hn o ((hb o).2 ⟨ho, c, hcs, hm⟩)
  · intro hn o ho
    obtain ⟨hob, c, hc, hm⟩ := (hb o).1 ho
    exact hn c ((hs c).2 ⟨hc, o, hob, hm⟩)

theorem PruneInput.pruned {fee : Fee} {b s b' s' : List Order} (h : PruneInput fee b s)
    (hr : pruneUnrealizable b s fee = .ok (b', s')) (hne : b' ≠ []) : PruneInput fee b' s' := by
  have hs' : s' ≠ [] := fun hc => hne ((C14_both_or_none h hr).2 hc)
  obtain ⟨b1, s1, e, sb, ss, _, _⟩ := C14_exact h
  rw [e] at hr; cases hr
  exact ⟨h.feeLt, hne, hs', fun o ho => h.posB o (sb.subset ho), fun o ho => h.posS o (ss.subset ho)⟩

/-- C14. Pruning a pruned book changes nothing. -/
theorem C14_idempotent {fee : Fee} {b s b' s' : List Order} (h : PruneInput fee b s)
    (hr : pruneUnrealizable b s fee = .ok (b', s')) (hne : b' ≠ []) :
    pruneUnrealizable b' s' fee = .ok (b', s') := by
  have h2 := h.pruned hr hne
  obtain ⟨b1, s1, e, sb, ss, hb, hs⟩ := C14_exact h
  rw [e] at hr; cases hr
  obtain ⟨b2, s2, e2, sb2, ss2, hb2, hs2⟩ := C14_exact h2
  rw [e2]
  -- both filters keep everything
  obtain ⟨bc, hbc, sc, hsc, mb, ms, e3⟩ := prune_eq h2
  rw [e3] at e2
  cases e2
  have f1 : b'.filter (fun o => decide (o.maxXrate * (1 - fee.value) ^ 2 ≥ 1 / sc.maxXrate)) = b' := by
    rw [List.filter_eq_self]
    intro o ho
    obtain ⟨hob, c, hc, hm⟩ := (hb o).1 ho
    exact (List.mem_filter.1 ((hb2 o).2 ⟨ho, c, (hs c).2 ⟨hc, o, hob, hm⟩, hm⟩)).2
  have f2 : s'.filter (fun o => decide (o.maxXrate * (1 - fee.value) ^ 2 ≥ 1 / bc.maxXrate)) = s' := by
    rw [List.filter_eq_self]
    intro c hc
    obtain ⟨hcs, o, ho, hm⟩ := (hs c).1 hc
    exact (List.mem_filter.1 ((hs2 c).2 ⟨hc, o, (hb o).2 ⟨ho, c, hcs, hm⟩, hm⟩)).2
  rw [f1, f2]

/-- The hypothesis that both sides are non-empty is needed: pruning a one-sided book raises `ValueError`. -/
theorem C14_empty_side {fee : Fee} {b s : List Order} (h : b = [] ∨ s = []) :
    pruneUnrealizable b s fee = .error .valueError := by
  rcases h with rfl | rfl
  · rfl
  · unfold pruneUnrealizable
    cases b <;> rfl

/-! ### Non-vacuity -/

/-- One b_order and one s_order survive, the other two are removed. -/
example : ∃ r, pruneUnrealizable [Order.mk' "U" "T" 10 2 none "0", Order.mk' "U" "T" 10 1 none "1"]
      [Order.mk' "T" "U" 10 (9/10) none "2", Order.mk' "T" "U" 10 (1/3) none "3"] { token := "F", value := 1/1000 } = .ok r ∧
    r.1.map (·.id) = ["0"] ∧ r.2.map (·.id) = ["2"] :=
  exists_of_pyCheck (p := fun r : List Order × List Order => r.1.map (·.id) = ["0"] ∧ r.2.map (·.id) = ["2"])
    (by decide +kernel)

example : PruneInput { token := "F", value := 1/1000 } [Order.mk' "U" "T" 10 2 none "0", Order.mk' "U" "T" 10 1 none "1"]
      [Order.mk' "T" "U" 10 (9/10) none "2", Order.mk' "T" "U" 10 (1/3) none "3"] := by
  constructor <;> decide +kernel

end Dex
