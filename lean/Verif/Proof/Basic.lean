import Verif.Model.Py
import Mathlib.Tactic.Linarith
import Mathlib.Tactic.Ring
import Mathlib.Tactic.FieldSimp
import Mathlib.Tactic.Positivity
import Mathlib.Algebra.Order.BigOperators.Group.List

/-! # Lemmas about the Python vocabulary -/

namespace Dex

@[simp] theorem ok_bind {α β : Type} (a : α) (f : α → Py β) : ((Except.ok a : Py α) >>= f) = f a := rfl
@[simp] theorem error_bind {α β : Type} (e : PyErr) (f : α → Py β) :
    ((Except.error e : Py α) >>= f) = .error e := rfl
@[simp] theorem pure_eq_ok {α : Type} (a : α) : (pure a : Py α) = .ok a := rfl

theorem bind_eq_ok {α β : Type} {x : Py α} {f : α → Py β} {b : β} :
    (x >>= f) = .ok b ↔ ∃ a, x = .ok a ∧ f a = .ok b := by
  cases x <;> simp

@[simp] theorem pyAssert_eq_ok {c : Prop} [Decidable c] {site : String} {u : Unit} :
    pyAssert c site = .ok u ↔ c := by
  unfold pyAssert; split <;> simp_all

theorem pyAssert_of {c : Prop} [Decidable c] {site : String} (h : c) : pyAssert c site = .ok () := by
  simp [pyAssert, h]

theorem pyDiv_of_ne {a b : ℚ} (h : b ≠ 0) : pyDiv a b = .ok (a / b) := by simp [pyDiv, h]

@[simp] theorem pyDiv_eq_ok {a b r : ℚ} : pyDiv a b = .ok r ↔ b ≠ 0 ∧ r = a / b := by
  unfold pyDiv; split <;> simp_all [eq_comm]

theorem pyFloorDiv_of_ne {a b : ℚ} (h : b ≠ 0) : pyFloorDiv a b = .ok ⌊a / b⌋ := by simp [pyFloorDiv, h]

@[simp] theorem pyFloorDiv_eq_ok {a b : ℚ} {r : ℤ} : pyFloorDiv a b = .ok r ↔ b ≠ 0 ∧ r = ⌊a / b⌋ := by
  unfold pyFloorDiv; split <;> simp_all [eq_comm]

@[simp] theorem pyMod_eq_ok {a b r : ℚ} : pyMod a b = .ok r ↔ b ≠ 0 ∧ r = a - b * ⌊a / b⌋ := by
  unfold pyMod; split <;> simp_all [eq_comm]

theorem pyGet_nat {α : Type} {l : List α} {k : ℕ} {a : α} (h : l[k]? = some a) : pyGet l (k : ℤ) = .ok a := by
  have hk : k < l.length := by
    by_contra hc
    rw [List.getElem?_eq_none (by omega)] at h; cases h
  simp [pyGet, pyIndex, hk]
  rw [List.getElem?_eq_getElem hk] at h
  simpa using h

theorem pyModify_nat {α : Type} {l : List α} {k : ℕ} (f : α → α) (h : k < l.length) :
    pyModify l (k : ℤ) f = .ok (l.modify k f) := by
  simp [pyModify, pyIndex, h]

theorem pyGet_ok_mem {α : Type} {l : List α} {i : ℤ} {a : α} (h : pyGet l i = .ok a) : a ∈ l := by
  unfold pyGet at h
  split at h
  · cases h
  · split at h
    · rename_i heq; cases h; exact List.mem_of_getElem? heq
    · cases h

/-! ### mapE, filterE, sumE, … -/

theorem mapE_eq_ok_forall₂ {α β : Type} {f : α → Py β} {l : List α} {r : List β} :
    mapE f l = .ok r ↔ List.Forall₂ (fun a b => f a = .ok b) l r := by
  induction l generalizing r with
  | nil => simp [mapE, eq_comm]
  | cons a l ih =>
    simp only [mapE, bind_eq_ok, pure_eq_ok]
    constructor
    · rintro ⟨b, hb, bs, hbs, h⟩
      cases h
      exact .cons hb (ih.1 hbs)
    · intro h
      cases h with
      | cons h1 h2 => exact ⟨_, h1, _, ih.2 h2, rfl⟩

theorem mapE_of_forall {α β : Type} {f : α → Py β} {g : α → β} {l : List α} (h : ∀ a ∈ l, f a = .ok (g a)) :
    mapE f l = .ok (l.map g) := by
  induction l with
  | nil => rfl
  | cons a l ih =>
    simp [mapE, h a (by simp), ih (fun b hb => h b (by simp [hb]))]

theorem mapE_length {α β : Type} {f : α → Py β} {l : List α} {r : List β} (h : mapE f l = .ok r) :
    r.length = l.length := (mapE_eq_ok_forall₂.1 h).length_eq.symm

theorem filterE_of_forall {α : Type} {p : α → Py Bool} {q : α → Bool} {l : List α}
    (h : ∀ a ∈ l, p a = .ok (q a)) : filterE p l = .ok (l.filter q) := by
  induction l with
  | nil => rfl
  | cons a l ih =>
    simp only [filterE, h a (by simp), ih (fun b hb => h b (by simp [hb])), ok_bind, pure_eq_ok]
    cases hq : q a <;> simp [hq]

theorem filterE_sublist {α : Type} {p : α → Py Bool} {l r : List α} (h : filterE p l = .ok r) : r.Sublist l := by
  induction l generalizing r with
  | nil => simp [filterE] at h; subst h; exact .slnil
  | cons a l ih =>
    simp only [filterE, bind_eq_ok, pure_eq_ok] at h
    obtain ⟨b, _, as, has, h⟩ := h
    cases h
    split
    · exact (ih has).cons_cons _
    · exact (ih has).cons _

theorem filterE_mem {α : Type} {p : α → Py Bool} {l r : List α} (h : filterE p l = .ok r) {a : α} :
    a ∈ r ↔ a ∈ l ∧ p a = .ok true := by
  induction l generalizing r with
  | nil => simp [filterE] at h; subst h; simp
  | cons x l ih =>
    simp only [filterE, bind_eq_ok, pure_eq_ok] at h
    obtain ⟨b, hb, as, has, h⟩ := h
    cases h
    have := ih has
    cases b
    · simp only [Bool.false_eq_true, if_false, this, List.mem_cons]
      constructor
      · tauto
      · rintro ⟨rfl | h1, h2⟩
        · rw [hb] at h2; cases h2
        · exact ⟨h1, h2⟩
    · simp only [if_true, List.mem_cons, this]
      constructor
      · rintro (rfl | h)
        · exact ⟨.inl rfl, hb⟩
        · exact ⟨.inr h.1, h.2⟩
      · tauto

theorem sumE_of_forall {α : Type} {f : α → Py ℚ} {g : α → ℚ} {l : List α} (h : ∀ a ∈ l, f a = .ok (g a)) :
    sumE f l = .ok (l.map g).sum := by
  induction l with
  | nil => rfl
  | cons a l ih => simp [sumE, h a (by simp), ih (fun b hb => h b (by simp [hb]))]

theorem sumE_eq_ok_forall {α : Type} {f : α → Py ℚ} {l : List α} {r : ℚ} (h : sumE f l = .ok r) :
    ∀ a ∈ l, ∃ y, f a = .ok y := by
  induction l generalizing r with
  | nil => simp
  | cons a l ih =>
    simp only [sumE, bind_eq_ok, pure_eq_ok] at h
    obtain ⟨x, hx, s, hs, _⟩ := h
    intro b hb
    rcases List.mem_cons.1 hb with rfl | hb
    · exact ⟨x, hx⟩
    · exact ih hs b hb

theorem allE_of_forall {α : Type} {p : α → Py Bool} {q : α → Bool} {l : List α}
    (h : ∀ a ∈ l, p a = .ok (q a)) : allE p l = .ok (l.all q) := by
  induction l with
  | nil => rfl
  | cons a l ih =>
    simp only [allE, h a (by simp), ok_bind, List.all_cons]
    cases hq : q a
    · simp
    · simp [ih (fun b hb => h b (by simp [hb]))]

theorem anyE_of_forall {α : Type} {p : α → Py Bool} {q : α → Bool} {l : List α}
    (h : ∀ a ∈ l, p a = .ok (q a)) : anyE p l = .ok (l.any q) := by
  induction l with
  | nil => rfl
  | cons a l ih =>
    simp only [anyE, h a (by simp), ok_bind, List.any_cons]
    cases hq : q a
    · simp [ih (fun b hb => h b (by simp [hb]))]
    · simp

/-- Invariant rule for `foldE`. -/
theorem foldE_invariant {α σ : Type} {f : σ → α → Py σ} (P : σ → List α → Prop) {l : List α} {st st' : σ}
    (h : foldE f st l = .ok st') (h0 : P st l)
    (step : ∀ st a l st', P st (a :: l) → f st a = .ok st' → P st' l) : P st' [] := by
  induction l generalizing st with
  | nil => simp [foldE] at h; subst h; exact h0
  | cons a l ih =>
    simp only [foldE, bind_eq_ok] at h
    obtain ⟨s1, h1, h2⟩ := h
    exact ih h2 (step _ _ _ _ h0 h1)

theorem foldE_append {α σ : Type} {f : σ → α → Py σ} (l1 l2 : List α) (st : σ) :
    foldE f st (l1 ++ l2) = foldE f st l1 >>= fun s => foldE f s l2 := by
  induction l1 generalizing st with
  | nil => rfl
  | cons a l ih =>
    simp only [List.cons_append, foldE]
    cases f st a with
    | error e => rfl
    | ok s => simpa using ih s

/-! ### max / min -/

theorem maxByAux_spec {α : Type} (key : α → ℚ) (best : α) (l : List α) :
    (maxByAux key best l ∈ best :: l) ∧ ∀ a ∈ best :: l, key a ≤ key (maxByAux key best l) := by
  induction l generalizing best with
  | nil => simp [maxByAux]
  | cons x l ih =>
    simp only [maxByAux]
    split
    · rename_i hlt
      obtain ⟨h1, h2⟩ := ih x
      refine ⟨List.mem_cons_of_mem _ h1, ?_⟩
      intro a ha
      rcases List.mem_cons.1 ha with rfl | ha
      · exact le_trans hlt.le (h2 x (by simp))
      · exact h2 a ha
    · rename_i hlt
      obtain ⟨h1, h2⟩ := ih best
      refine ⟨?_, ?_⟩
      · rcases List.mem_cons.1 h1 with h | h
        · rw [h]; simp
        · exact List.mem_cons_of_mem _ (List.mem_cons_of_mem _ h)
      · intro a ha
        rcases List.mem_cons.1 ha with rfl | ha
        · exact h2 _ (by simp)
        · rcases List.mem_cons.1 ha with rfl | ha
          · exact le_trans (not_lt.1 hlt) (h2 best (by simp))
          · exact h2 a (by simp [ha])

theorem pyMaxBy_spec {α : Type} {key : α → ℚ} {l : List α} {m : α} (h : pyMaxBy key l = .ok m) :
    m ∈ l ∧ ∀ a ∈ l, key a ≤ key m := by
  cases l with
  | nil => simp [pyMaxBy] at h
  | cons a l => simp [pyMaxBy] at h; subst h; exact maxByAux_spec key a l

theorem pyMaxBy_of_ne_nil {α : Type} (key : α → ℚ) {l : List α} (h : l ≠ []) : ∃ m, pyMaxBy key l = .ok m := by
  cases l with
  | nil => exact absurd rfl h
  | cons a l => exact ⟨_, rfl⟩

theorem minByAux_spec {α : Type} (key : α → ℚ) (best : α) (l : List α) :
    (minByAux key best l ∈ best :: l) ∧ ∀ a ∈ best :: l, key (minByAux key best l) ≤ key a := by
  induction l generalizing best with
  | nil => simp [minByAux]
  | cons x l ih =>
    simp only [minByAux]
    split
    · rename_i hlt
      obtain ⟨h1, h2⟩ := ih x
      refine ⟨List.mem_cons_of_mem _ h1, ?_⟩
      intro a ha
      rcases List.mem_cons.1 ha with rfl | ha
      · exact le_trans (h2 x (by simp)) hlt.le
      · exact h2 a ha
    · rename_i hlt
      obtain ⟨h1, h2⟩ := ih best
      refine ⟨?_, ?_⟩
      · rcases List.mem_cons.1 h1 with h | h
        · rw [h]; simp
        · exact List.mem_cons_of_mem _ (List.mem_cons_of_mem _ h)
      · intro a ha
        rcases List.mem_cons.1 ha with rfl | ha
        · exact h2 _ (by simp)
        · rcases List.mem_cons.1 ha with rfl | ha
          · exact le_trans (h2 best (by simp)) (not_lt.1 hlt)
          · exact h2 a (by simp [ha])

theorem pyMinBy_spec {α : Type} {key : α → ℚ} {l : List α} {m : α} (h : pyMinBy key l = .ok m) :
    m ∈ l ∧ ∀ a ∈ l, key m ≤ key a := by
  cases l with
  | nil => simp [pyMinBy] at h
  | cons a l => simp [pyMinBy] at h; subst h; exact minByAux_spec key a l

theorem pyMinBy_of_ne_nil {α : Type} (key : α → ℚ) {l : List α} (h : l ≠ []) : ∃ m, pyMinBy key l = .ok m := by
  cases l with
  | nil => exact absurd rfl h
  | cons a l => exact ⟨_, rfl⟩

/-! ### Sorting -/

theorem pySortBy_perm {α : Type} (key : α → ℚ) (l : List α) : (pySortBy key l).Perm l :=
  List.perm_insertionSort _ _

theorem pySortByRev_perm {α : Type} (key : α → ℚ) (l : List α) : (pySortByRev key l).Perm l :=
  List.perm_insertionSort _ _

theorem pySortBy_pairwise {α : Type} (key : α → ℚ) (l : List α) :
    (pySortBy key l).Pairwise (fun a b => key a ≤ key b) := by
  have : Std.Total (fun a b : α => key a ≤ key b) := ⟨fun a b => le_total _ _⟩
  have : IsTrans α (fun a b : α => key a ≤ key b) := ⟨fun _ _ _ h1 h2 => le_trans h1 h2⟩
  exact List.pairwise_insertionSort _ _

theorem pySortByRev_pairwise {α : Type} (key : α → ℚ) (l : List α) :
    (pySortByRev key l).Pairwise (fun a b => key b ≤ key a) := by
  have : Std.Total (fun a b : α => key b ≤ key a) := ⟨fun a b => le_total _ _⟩
  have : IsTrans α (fun a b : α => key b ≤ key a) := ⟨fun _ _ _ h1 h2 => le_trans h2 h1⟩
  exact List.pairwise_insertionSort _ _

/-! ### Dicts -/

section Dict
variable {κ υ : Type} [DecidableEq κ]

@[simp] theorem dictGet?_nil (k : κ) : dictGet? ([] : Dict κ υ) k = none := rfl

theorem dictGet?_cons (p : κ × υ) (d : Dict κ υ) (k : κ) :
    dictGet? (p :: d) k = if p.1 = k then some p.2 else dictGet? d k := by
  simp only [dictGet?, List.find?_cons]
  by_cases h : p.1 = k <;> simp [h]

theorem dictGet?_dictSet (d : Dict κ υ) (k : κ) (v : υ) (k' : κ) :
    dictGet? (dictSet d k v) k' = if k = k' then some v else dictGet? d k' := by
  induction d with
  | nil => simp [dictSet, dictGet?_cons]
  | cons p d ih =>
    obtain ⟨a, b⟩ := p
    simp only [dictSet]
    split
    · rename_i h; subst h
      simp only [dictGet?_cons]
      split <;> simp_all
    · rename_i h
      simp only [dictGet?_cons, ih]
      by_cases h1 : a = k'
      · subst h1; simp [Ne.symm h]
      · simp [h1]

@[simp] theorem dictGet_eq_ok {d : Dict κ υ} {k : κ} {v : υ} : dictGet d k = .ok v ↔ dictGet? d k = some v := by
  unfold dictGet; cases dictGet? d k <;> simp

theorem dictGet_of {d : Dict κ υ} {k : κ} {v : υ} (h : dictGet? d k = some v) : dictGet d k = .ok v := by simp [h]

theorem dictKeys_dictSet (d : Dict κ υ) (k : κ) (v : υ) :
    dictKeys (dictSet d k v) = if k ∈ dictKeys d then dictKeys d else dictKeys d ++ [k] := by
  induction d with
  | nil => simp [dictSet, dictKeys]
  | cons p d ih =>
    obtain ⟨a, b⟩ := p
    simp only [dictSet]
    by_cases h : a = k
    · subst h; simp [dictKeys]
    · simp only [h, if_false]
      simp only [dictKeys, List.map_cons, List.mem_cons, Ne.symm h, false_or] at ih ⊢
      rw [ih]
      by_cases hk : k ∈ List.map (fun x => x.1) d <;> simp [hk]

theorem dictGet?_isSome {d : Dict κ υ} {k : κ} : (∃ v, dictGet? d k = some v) ↔ k ∈ dictKeys d := by
  induction d with
  | nil => simp [dictKeys]
  | cons p d ih =>
    simp only [dictGet?_cons]
    by_cases h : p.1 = k
    · simp [h, dictKeys]
    · simp only [h, if_false, ih]
      simp [dictKeys, Ne.symm h]

theorem dictGet?_eq_none {d : Dict κ υ} {k : κ} : dictGet? d k = none ↔ k ∉ dictKeys d := by
  rw [← dictGet?_isSome]
  cases dictGet? d k <;> simp

theorem dictGet?_mem {d : Dict κ υ} {k : κ} {v : υ} (h : dictGet? d k = some v) : (k, v) ∈ d := by
  induction d with
  | nil => simp at h
  | cons p d ih =>
    rw [dictGet?_cons] at h
    split at h
    · rename_i hk; cases h; subst hk; simp
    · exact List.mem_cons_of_mem _ (ih h)

theorem dictGet?_of_mem {d : Dict κ υ} (hd : (dictKeys d).Nodup) {k : κ} {v : υ} (h : (k, v) ∈ d) :
    dictGet? d k = some v := by
  induction d with
  | nil => simp at h
  | cons p d ih =>
    simp only [dictKeys, List.map_cons, List.nodup_cons] at hd
    rw [dictGet?_cons]
    rcases List.mem_cons.1 h with h | h
    · subst h; simp
    · have : p.1 ≠ k := by
        intro hc; apply hd.1; rw [hc]; exact List.mem_map.2 ⟨_, h, rfl⟩
      simp [this, ih hd.2 h]

theorem nodup_dictSet {d : Dict κ υ} (hd : (dictKeys d).Nodup) (k : κ) (v : υ) :
    (dictKeys (dictSet d k v)).Nodup := by
  rw [dictKeys_dictSet]
  split
  · exact hd
  · rename_i h
    rw [List.nodup_append]
    refine ⟨hd, by simp, ?_⟩
    intro a ha b hb
    simp at hb; subst hb; exact fun hc => h (hc ▸ ha)

end Dict

/-! ### Misc -/

theorem sum_map_mul_right' {α : Type} (l : List α) (f : α → ℚ) (c : ℚ) :
    (l.map (fun a => f a * c)).sum = (l.map f).sum * c := by
  induction l with
  | nil => simp
  | cons a l ih => simp only [List.map_cons, List.sum_cons, ih]; ring

/-- Run a computation in the kernel and check its result. -/
def pyCheck {α : Type} (x : Py α) (p : α → Prop) [DecidablePred p] : Bool :=
  match x with
  | .ok a => decide (p a)
  | .error _ => false

theorem exists_of_pyCheck {α : Type} {x : Py α} {p : α → Prop} [DecidablePred p] (h : pyCheck x p = true) :
    ∃ a, x = .ok a ∧ p a := by
  unfold pyCheck at h
  cases x with
  | ok a => exact ⟨a, rfl, by simpa using h⟩
  | error e => simp at h

/-- Run a computation in the kernel and check which exception it raises. -/
def pyRaises {α : Type} (x : Py α) (e : PyErr) : Bool :=
  match x with
  | .ok _ => false
  | .error e' => decide (e' = e)

theorem eq_error_of_pyRaises {α : Type} {x : Py α} {e : PyErr} (h : pyRaises x e = true) : x = .error e := by
  unfold pyRaises at h
  cases x with
  | ok a => simp at h
  | error e' => simp at h; rw [h]

end Dex
