import Verif.Model.Mem
import Verif.Proof.Heap

/-! # Comparing a computation on mutable objects with one on values -/

namespace Dex

variable {X : Prop}

/-- Both succeed, with results related by `Q`, or both raise; the same exception if `X`. -/
def Sim (X : Prop) {α β : Type} (x : Py (α × Mem)) (y : Py β) (Q : α → Mem → β → Prop) : Prop :=
  match x, y with
  | .ok r, .ok b => Q r.1 r.2 b
  | .error e, .error e' => X → e = e'
  | _, _ => False

/-- Equal up to which exception is raised; equal if `X`. -/
def PyEqv (X : Prop) {α : Type} (x y : Py α) : Prop :=
  match x, y with
  | .ok a, .ok b => a = b
  | .error e, .error e' => X → e = e'
  | _, _ => False

theorem PyEqv.refl {α : Type} (x : Py α) : PyEqv X x x := by cases x <;> simp [PyEqv]

theorem Sim.congr {α β : Type} {x : Py (α × Mem)} {y y' : Py β} {Q : α → Mem → β → Prop} (h : Sim X x y Q) (e : PyEqv X y y') :
    Sim X x y' Q := by
  cases x <;> cases y <;> cases y' <;> simp_all [Sim, PyEqv]

theorem Sim.mono {α β : Type} {x : Py (α × Mem)} {y : Py β} {Q R : α → Mem → β → Prop} (h : Sim X x y Q)
    (hq : ∀ a m b, Q a m b → R a m b) : Sim X x y R := by
  cases x <;> cases y <;> simp_all [Sim]

theorem Sim.ok {α β : Type} {a : α} {m : Mem} {b : β} {Q : α → Mem → β → Prop} (h : Q a m b) :
    Sim X ((pure a : HM α) m) (.ok b) Q := h

theorem Sim.pure {α β : Type} {a : α} {m : Mem} {b : β} {Q : α → Mem → β → Prop} (h : Q a m b) :
    Sim X ((Pure.pure a : HM α) m) (Pure.pure b : Py β) Q := h

theorem Sim.raise {α β : Type} {e : PyErr} {m : Mem} {Q : α → Mem → β → Prop} :
    Sim X ((HM.raise e : HM α) m) (.error e : Py β) Q := fun _ => rfl

theorem HM.bind_apply {α β : Type} (x : HM α) (k : α → HM β) (m : Mem) : (x >>= k) m = match x m with
    | .error e => .error e
    | .ok (a, m') => k a m' := rfl

theorem Sim.bind {α β γ δ : Type} {x : HM α} {m : Mem} {y : Py β} {Q : α → Mem → β → Prop} {k : α → HM γ} {l : β → Py δ}
    {R : γ → Mem → δ → Prop} (h : Sim X (x m) y Q) (hk : ∀ a m' b, Q a m' b → x m = .ok (a, m') → y = .ok b → Sim X (k a m') (l b) R) :
    Sim X ((x >>= k) m) (y >>= l) R := by
  have e : (x >>= k) m = match x m with
    | .error e => .error e
    | .ok (a, m') => k a m' := rfl
  rw [e]
  cases hx : x m with
  | error e =>
    rw [hx] at h
    cases y with
    | error e' => exact h
    | ok b => exact absurd h (by simp [Sim])
  | ok r =>
    rw [hx] at h
    obtain ⟨a, m'⟩ := r
    cases y with
    | error e' => exact absurd h (by simp [Sim])
    | ok b => exact hk a m' b h hx rfl

/-- A step that changes nothing in the values. -/
theorem Sim.bindL {α γ δ : Type} {x : HM α} {m m' : Mem} {a : α} {k : α → HM γ} {y : Py δ}
    {R : γ → Mem → δ → Prop} (h : x m = .ok (a, m')) (hk : Sim X (k a m') y R) : Sim X ((x >>= k) m) y R := by
  have e : (x >>= k) m = match x m with
    | .error e => .error e
    | .ok (a, m') => k a m' := rfl
  rw [e, h]
  exact hk

/-- Reading, where the values read are the ones the other side has. -/
theorem Sim.readMap {α β γ δ : Type} {f : Heap → Py α} {g : α → β} {y : Py β} {m : Mem} {k : α → HM γ} {l : β → Py δ}
    {R : γ → Mem → δ → Prop} (e : y = (f m.heap >>= fun a => .ok (g a))) (hk : ∀ a, f m.heap = .ok a → Sim X (k a m) (l (g a)) R) :
    Sim X ((HM.reads f >>= k) m) (y >>= l) R := by
  have e' : (HM.reads f >>= k) m = match HM.reads f m with
    | .error e => .error e
    | .ok (a, m') => k a m' := rfl
  rw [e', e]
  unfold HM.reads
  cases hf : f m.heap with
  | error e => exact fun _ => rfl
  | ok a => exact hk a hf

theorem Sim.read {α γ δ : Type} {f : Heap → Py α} {y : Py α} {m : Mem} {k : α → HM γ} {l : α → Py δ}
    {R : γ → Mem → δ → Prop} (e : y = f m.heap) (hk : ∀ a, f m.heap = .ok a → Sim X (k a m) (l a) R) :
    Sim X ((HM.reads f >>= k) m) (y >>= l) R := by
  refine Sim.readMap (g := id) ?_ hk
  rw [e]
  cases f m.heap <;> rfl

/-- Reading a value that costs the other side nothing. -/
theorem Sim.readL {α γ δ : Type} {f : Heap → Py α} {a : α} {m : Mem} {k : α → HM γ} {y : Py δ}
    {R : γ → Mem → δ → Prop} (e : f m.heap = .ok a) (hk : Sim X (k a m) y R) : Sim X ((HM.reads f >>= k) m) y R := by
  refine Sim.bindL (m' := m) ?_ hk
  unfold HM.reads
  rw [e]

/-- A final read. -/
theorem Sim.readEnd {α : Type} {f : Heap → Py α} {y : Py α} {m : Mem} {R : α → Mem → α → Prop}
    (e : y = f m.heap) (hk : ∀ a, f m.heap = .ok a → R a m a) : Sim X (HM.reads f m) y R := by
  rw [e]
  unfold HM.reads
  cases hf : f m.heap with
  | error e => exact fun _ => rfl
  | ok a => exact hk a hf

theorem Sim.exists_ok {α β : Type} {x : Py (α × Mem)} {b : β} {Q : α → Mem → β → Prop} (h : Sim X x (.ok b) Q) :
    ∃ a m, x = .ok (a, m) ∧ Q a m b := by
  cases x with
  | error e => exact absurd h (by simp [Sim])
  | ok r => exact ⟨r.1, r.2, rfl, h⟩

theorem Sim.bindR_error {α β γ : Type} {x : Py (α × Mem)} {e : PyErr} {Q : α → Mem → β → Prop} {l : β → Py γ} {R : α → Mem → γ → Prop}
    (h : Sim X x (.error e) Q) : Sim X x ((.error e : Py β) >>= l) R := by
  cases x with
  | error e => exact h
  | ok r => exact absurd h (by simp [Sim])

/-- A step of the other side only. -/
theorem Sim.bindR {α β γ : Type} {x : Py (α × Mem)} {y : Py β} {Q : α → Mem → β → Prop} {l : β → Py γ} {R : α → Mem → γ → Prop}
    (h : Sim X x y Q) (hl : ∀ a m b, Q a m b → Sim X (.ok (a, m)) (l b) R) : Sim X x (y >>= l) R := by
  cases x with
  | error e => cases y with
    | error e => exact h
    | ok b => exact absurd h (by simp [Sim])
  | ok r => cases y with
    | error e => exact absurd h (by simp [Sim])
    | ok b => exact hl r.1 r.2 b h

/-- Comprehensions. -/
theorem Sim.mapM {α β : Type} {f : α → HM β} {F : α → Py β} {Inv : Mem → Prop} {l : List α}
    (h : ∀ a ∈ l, ∀ m, Inv m → Sim X (f a m) (F a) (fun x m' y => x = y ∧ Inv m')) :
    ∀ m, Inv m → Sim X (HM.mapM f l m) (mapE F l) (fun x m' y => x = y ∧ Inv m') := by
  induction l with
  | nil => intro m hm; exact ⟨rfl, hm⟩
  | cons a l ih =>
    intro m hm
    unfold HM.mapM mapE
    refine Sim.bind (h a (List.mem_cons_self ..) m hm) ?_
    rintro x m' y ⟨rfl, hm'⟩ _ _
    refine Sim.bind (ih (fun a ha => h a (List.mem_cons_of_mem _ ha)) m' hm') ?_
    rintro xs m'' ys ⟨rfl, hm''⟩ _ _
    exact Sim.pure ⟨rfl, hm''⟩

/-! ### Equality up to the exception -/

theorem PyEqv.trans {α : Type} {x y z : Py α} (h : PyEqv X x y) (h' : PyEqv X y z) : PyEqv X x z := by
  cases x <;> cases y <;> cases z <;> simp_all [PyEqv]

theorem PyEqv.symm {α : Type} {x y : Py α} (h : PyEqv X x y) : PyEqv X y x := by
  cases x <;> cases y <;> simp_all [PyEqv]

theorem PyEqv.bind {α β : Type} {x y : Py α} {k l : α → Py β} (h : PyEqv X x y) (hk : ∀ a, PyEqv X (k a) (l a)) :
    PyEqv X (x >>= k) (y >>= l) := by
  cases x with
  | error e => cases y with
    | error e' => exact h
    | ok b => exact absurd h (by simp [PyEqv])
  | ok a => cases y with
    | error e' => exact absurd h (by simp [PyEqv])
    | ok b =>
      have e : a = b := h
      subst e
      exact hk a

theorem mapE_append {α β : Type} (f : α → Py β) (l l' : List α) :
    mapE f (l ++ l') = (mapE f l >>= fun x => mapE f l' >>= fun y => pure (x ++ y)) := by
  induction l with
  | nil =>
    simp only [List.nil_append, mapE, ok_bind]
    cases mapE f l' <;> rfl
  | cons a l ih =>
    have e : ∀ t, mapE f (a :: t) = (f a >>= fun b => mapE f t >>= fun bs => pure (b :: bs)) := fun _ => rfl
    rw [List.cons_append, e, e, ih]
    generalize mapE f l' = z
    cases f a with
    | error e => rfl
    | ok b =>
      simp only [ok_bind]
      cases mapE f l with
      | error e => rfl
      | ok bs => cases z <;> rfl

theorem mapE_map {α β γ : Type} (f : β → Py γ) (g : α → β) (l : List α) : mapE f (l.map g) = mapE (fun a => f (g a)) l := by
  induction l with
  | nil => rfl
  | cons a l ih => rw [List.map_cons]; unfold mapE; rw [ih]

end Dex
