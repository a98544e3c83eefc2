import Verif.Proof.Basic
import Verif.Model.Orderbook
import Verif.Spec.Orders

/-! # `sorted_orders_by_exec_priority` and writing orders back -/

namespace Dex

theorem orderLt_iff (a b : Order) : orderLt a b = true ↔ Spec.Before a b := by
  unfold orderLt Spec.Before
  split
  · rename_i h
    simp only [decide_eq_true_eq, sub_neg]
    constructor
    · intro h1; exact .inl h1
    · rintro (h1 | ⟨h1, _⟩)
      · exact h1
      · exact absurd h1 h
  · rename_i h
    rw [not_not] at h
    split
    · rename_i h2
      simp only [decide_eq_true_eq, sub_neg]
      constructor
      · intro h1; exact .inr ⟨h, .inl h1⟩
      · rintro (h1 | ⟨_, h1 | ⟨h1, _⟩⟩)
        · rw [h] at h1; exact absurd h1 (lt_irrefl _)
        · exact h1
        · exact absurd h1 h2
    · rename_i h2
      rw [not_not] at h2
      simp only [decide_eq_true_eq]
      constructor
      · intro h1; exact .inr ⟨h, .inr ⟨h2, h1⟩⟩
      · rintro (h1 | ⟨_, h1 | ⟨_, h1⟩⟩)
        · rw [h] at h1; exact absurd h1 (lt_irrefl _)
        · rw [h2] at h1; exact absurd h1 (lt_irrefl _)
        · exact h1

theorem orderLt_false_iff (a b : Order) : orderLt a b = false ↔ ¬ Spec.Before a b := by
  rw [← orderLt_iff]; simp

namespace Spec

theorem Before.asymm {a b : Order} (h : Before a b) : ¬ Before b a := by
  intro h'
  rcases h with h | ⟨h, h2 | ⟨h2, h3⟩⟩ <;> rcases h' with k | ⟨k, k2 | ⟨k2, k3⟩⟩
  · exact lt_asymm h k
  · rw [k] at h; exact lt_irrefl _ h
  · rw [k] at h; exact lt_irrefl _ h
  · rw [h] at k; exact lt_irrefl _ k
  · exact lt_asymm h2 k2
  · rw [k2] at h2; exact lt_irrefl _ h2
  · rw [h] at k; exact lt_irrefl _ k
  · rw [h2] at k2; exact lt_irrefl _ k2
  · exact lt_asymm h3 k3

theorem Before.trans {a b c : Order} (h : Before a b) (h' : Before b c) : Before a c := by
  rcases h with h | ⟨h, h2 | ⟨h2, h3⟩⟩ <;> rcases h' with k | ⟨k, k2 | ⟨k2, k3⟩⟩
  · exact .inl (lt_trans k h)
  · exact .inl (k ▸ h)
  · exact .inl (k ▸ h)
  · exact .inl (h ▸ k)
  · exact .inr ⟨h.trans k, .inl (lt_trans k2 h2)⟩
  · exact .inr ⟨h.trans k, .inl (k2 ▸ h2)⟩
  · exact .inl (h ▸ k)
  · exact .inr ⟨h.trans k, .inl (h2 ▸ k2)⟩
  · exact .inr ⟨h.trans k, .inr ⟨h2.trans k2, lt_trans h3 k3⟩⟩

theorem Before.total {a b : Order} (h : a.id ≠ b.id) : Before a b ∨ Before b a := by
  rcases lt_trichotomy a.maxXrate b.maxXrate with h1 | h1 | h1
  · exact .inr (.inl h1)
  · rcases lt_trichotomy a.maxSell b.maxSell with h2 | h2 | h2
    · exact .inr (.inr ⟨h1.symm, .inl h2⟩)
    · rcases lt_trichotomy a.id b.id with h3 | h3 | h3
      · exact .inl (.inr ⟨h1, .inr ⟨h2, h3⟩⟩)
      · exact absurd h3 h
      · exact .inr (.inr ⟨h1.symm, .inr ⟨h2.symm, h3⟩⟩)
    · exact .inl (.inr ⟨h1, .inl h2⟩)
  · exact .inl (.inl h1)

/-- `¬ Before` is a total preorder. -/
theorem notBefore_total (a b : Order) : ¬ Before b a ∨ ¬ Before a b := by
  by_cases h : Before b a
  · exact .inr h.asymm
  · exact .inl h

theorem notBefore_trans {a b c : Order} (h : ¬ Before b a) (h' : ¬ Before c b) : ¬ Before c a := by
  intro hca
  by_cases hab : Before a b
  · exact h' (hca.trans hab)
  · -- a and b tie in every component
    unfold Before at h h' hca hab
    push Not at h h' hab
    have e1 : a.maxXrate = b.maxXrate := le_antisymm hab.1 h.1
    have e2 : a.maxSell = b.maxSell := le_antisymm (hab.2 e1).1 (h.2 e1.symm).1
    have e3 : a.id = b.id := le_antisymm ((h.2 e1.symm).2 e2.symm) ((hab.2 e1).2 e2)
    rw [e1, e2, e3] at hca
    rcases hca with k | ⟨k, k2 | ⟨k2, k3⟩⟩
    · exact absurd h'.1 (not_le.2 k)
    · exact absurd (h'.2 k).1 (not_le.2 k2)
    · exact absurd ((h'.2 k).2 k2) (not_le.2 k3)

end Spec

theorem sortedByExecPriority_perm (os : List Order) : (sortedByExecPriority os).Perm os :=
  List.perm_insertionSort _ _

theorem sortedByExecPriority_pairwise (os : List Order) :
    (sortedByExecPriority os).Pairwise (fun a b => ¬ Spec.Before b a) := by
  have h1 : Std.Total (fun a b : Order => orderLt b a = false) :=
    ⟨fun a b => by simp only [orderLt_false_iff]; exact Spec.notBefore_total a b⟩
  have h2 : IsTrans Order (fun a b : Order => orderLt b a = false) :=
    ⟨fun a b c => by simp only [orderLt_false_iff]; exact Spec.notBefore_trans⟩
  have := List.pairwise_insertionSort (fun a b : Order => orderLt b a = false) os
  unfold sortedByExecPriority
  exact this.imp (fun h => (orderLt_false_iff _ _).1 h)

@[simp] theorem sortedByExecPriority_mem {os : List Order} {o : Order} : o ∈ sortedByExecPriority os ↔ o ∈ os :=
  (sortedByExecPriority_perm os).mem_iff

theorem nodup_ids_inj {os : List Order} (h : (os.map (·.id)).Nodup) {a b : Order} (ha : a ∈ os) (hb : b ∈ os)
    (hid : a.id = b.id) : a = b :=
  List.inj_on_of_nodup_map h ha hb hid

/-- For distinct ids the sorted list does not depend on the order of the input. -/
theorem sortedByExecPriority_unique {os os' : List Order} (hp : os.Perm os') (hn : (os.map (·.id)).Nodup) :
    sortedByExecPriority os = sortedByExecPriority os' := by
  have hp' : (sortedByExecPriority os).Perm (sortedByExecPriority os') :=
    ((sortedByExecPriority_perm os).trans hp).trans (sortedByExecPriority_perm os').symm
  refine hp'.eq_of_pairwise ?_ (sortedByExecPriority_pairwise os) (sortedByExecPriority_pairwise os')
  intro a b ha hb h1 h2
  have ha' : a ∈ os := by simpa using ha
  have hb' : b ∈ os := hp.mem_iff.2 (by simpa using hb)
  by_contra hne
  have hid : a.id ≠ b.id := fun h => hne (nodup_ids_inj hn ha' hb' h)
  rcases Spec.Before.total hid with h | h
  · exact h2 h
  · exact h1 h

/-! ### writeBack -/

theorem writeBack_append (a b u : List Order) : writeBack (a ++ b) u = writeBack a u ++ writeBack b u := by
  simp [writeBack]

theorem writeBack_perm {a b : List Order} (h : a.Perm b) (u : List Order) : (writeBack a u).Perm (writeBack b u) :=
  h.map _

@[simp] theorem writeBack_length (a u : List Order) : (writeBack a u).length = a.length := by simp [writeBack]

theorem writeBack_of_not_mem {a u : List Order} (h : ∀ o ∈ a, o.id ∉ u.map (·.id)) : writeBack a u = a := by
  unfold writeBack
  conv_rhs => rw [← List.map_id a]
  apply List.map_congr_left
  intro o ho
  have : u.find? (fun v => decide (v.id = o.id)) = none := by
    rw [List.find?_eq_none]
    intro v hv
    simp only [decide_eq_true_eq]
    intro e
    exact h o ho (e ▸ List.mem_map_of_mem hv)
  rw [this]; rfl

theorem find?_id_of_mem {u : List Order} (hn : (u.map (·.id)).Nodup) {v : Order} (hv : v ∈ u) {i : String}
    (hi : v.id = i) : u.find? (fun w => decide (w.id = i)) = some v := by
  induction u with
  | nil => simp at hv
  | cons w u ih =>
    rw [List.find?_cons]
    by_cases hw : w.id = i
    · simp only [hw, decide_true]
      congr 1
      exact nodup_ids_inj hn (by simp) hv (hw.trans hi.symm)
    · simp only [hw, decide_false]
      rcases List.mem_cons.1 hv with rfl | hv
      · exact absurd hi hw
      · exact ih (by simp at hn; exact hn.2) hv

theorem writeBack_self {a u : List Order} (hn : (a.map (·.id)).Nodup) (h : u.map (·.id) = a.map (·.id)) :
    writeBack a u = u := by
  have hnu : (u.map (·.id)).Nodup := h ▸ hn
  apply List.ext_getElem?
  intro k
  have hk := congrArg (fun l => l[k]?) h
  simp only [List.getElem?_map] at hk
  simp only [writeBack, List.getElem?_map]
  cases ha : a[k]? with
  | none =>
    rw [ha] at hk
    cases hu : u[k]? with
    | none => rfl
    | some v => rw [hu] at hk; simp at hk
  | some o =>
    rw [ha] at hk
    cases hu : u[k]? with
    | none => rw [hu] at hk; simp at hk
    | some v =>
      rw [hu] at hk
      simp only [Option.map_some, Option.some.injEq] at hk ⊢
      rw [find?_id_of_mem hnu (List.mem_of_getElem? hu) hk]
      rfl

/-- Writing back updated versions of a permutation of the orders selected by `p`. -/
theorem writeBack_filter_perm {orig l u : List Order} {p : Order → Bool} (hn : (orig.map (·.id)).Nodup)
    (hl : l.Perm (orig.filter p)) (hu : u.map (·.id) = l.map (·.id)) :
    (writeBack orig u).Perm (u ++ orig.filter (fun o => !p o)) := by
  have h1 : orig.Perm (l ++ orig.filter (fun o => !p o)) :=
    (List.filter_append_perm p orig).symm.trans (hl.symm.append_right _)
  refine (writeBack_perm h1 u).trans ?_
  rw [writeBack_append]
  have hn' : ((l ++ orig.filter (fun o => !p o)).map (·.id)).Nodup := (h1.map _).nodup_iff.1 hn
  rw [List.map_append, List.nodup_append] at hn'
  rw [writeBack_self hn'.1 hu]
  rw [writeBack_of_not_mem]
  intro o ho hmem
  rw [hu] at hmem
  exact hn'.2.2 _ hmem _ (List.mem_map_of_mem ho) rfl

end Dex
