import Verif.Model.Amount
import Verif.Proof.Basic

/-! # Greedy fills

All states `compute_buy_amounts` goes through are greedy fills of the two sorted order lists:
each order takes `min(capacity, what is left)`. This file has the facts about such fills. -/

namespace Dex

/-- Greedy fill of `os` with total amount `t`. -/
def fillOrders (cap : Order → ℚ) : ℚ → List Order → List Order
  | _, [] => []
  | t, o :: os => o.withBuy (max 0 (min (cap o) t)) :: fillOrders cap (t - cap o) os

/-- Capacity of the first `k` orders. -/
def preCap (cap : Order → ℚ) (os : List Order) (k : ℕ) : ℚ := ((os.take k).map cap).sum

variable {cap : Order → ℚ}

@[simp] theorem fillOrders_length (t : ℚ) (os : List Order) : (fillOrders cap t os).length = os.length := by
  induction os generalizing t with
  | nil => rfl
  | cons o os ih => simp [fillOrders, ih]

@[simp] theorem preCap_zero (os : List Order) : preCap cap os 0 = 0 := by simp [preCap]

theorem preCap_cons_succ (o : Order) (os : List Order) (k : ℕ) :
    preCap cap (o :: os) (k + 1) = cap o + preCap cap os k := by simp [preCap]

theorem preCap_nonneg (hpos : ∀ o ∈ os, 0 < cap o) (k : ℕ) : 0 ≤ preCap cap os k := by
  apply List.sum_nonneg
  intro x hx
  obtain ⟨o, ho, rfl⟩ := List.mem_map.1 hx
  exact (hpos o (List.mem_of_mem_take ho)).le

theorem preCap_succ {os : List Order} {k : ℕ} {o : Order} (h : os[k]? = some o) :
    preCap cap os (k + 1) = preCap cap os k + cap o := by
  induction os generalizing k with
  | nil => simp at h
  | cons a os ih =>
    cases k with
    | zero => simp at h; subst h; simp [preCap]
    | succ k => simp at h; rw [preCap_cons_succ, preCap_cons_succ, ih h]; ring

theorem preCap_lt_succ (hpos : ∀ o ∈ os, 0 < cap o) {k : ℕ} (hk : k < os.length) :
    preCap cap os k < preCap cap os (k + 1) := by
  rw [preCap_succ (List.getElem?_eq_getElem hk)]
  have := hpos _ (List.getElem_mem hk)
  linarith

theorem preCap_mono (hpos : ∀ o ∈ os, 0 < cap o) {j k : ℕ} (h : j ≤ k) :
    preCap cap os j ≤ preCap cap os k := by
  induction k with
  | zero => have : j = 0 := by omega
            subst this; exact le_refl _
  | succ k ih =>
    rcases Nat.lt_or_ge j (k + 1) with hlt | hge
    · refine le_trans (ih (by omega)) ?_
      by_cases hk : k < os.length
      · exact (preCap_lt_succ hpos hk).le
      · simp only [preCap]
        rw [List.take_of_length_le (by omega), List.take_of_length_le (by omega)]
    · have : j = k + 1 := by omega
      rw [this]

theorem preCap_length (os : List Order) : preCap cap os os.length = (os.map cap).sum := by
  simp [preCap]

/-- What each order of a fill has. -/
theorem fillOrders_getElem? (t : ℚ) (os : List Order) (k : ℕ) :
    (fillOrders cap t os)[k]? = (os[k]?).map (fun o => o.withBuy (max 0 (min (cap o) (t - preCap cap os k)))) := by
  induction os generalizing t k with
  | nil => simp [fillOrders]
  | cons o os ih =>
    cases k with
    | zero => simp [fillOrders]
    | succ k =>
      simp only [fillOrders, List.getElem?_cons_succ, ih, preCap_cons_succ]
      congr 1
      funext o'
      ring_nf

theorem withBuy_withBuy (o : Order) (a b : ℚ) : (o.withBuy a).withBuy b = o.withBuy b := rfl
@[simp] theorem withBuy_buy (o : Order) (a : ℚ) : (o.withBuy a).buy = a := by cases o; rfl

/-- Changing the level between `preCap k` and `preCap (k+1)` touches only order `k`. -/
theorem fillOrders_modify (hpos : ∀ o ∈ os, 0 < cap o) {k : ℕ} {t t' : ℚ}
    (h1 : preCap cap os k ≤ t) (h2 : t ≤ preCap cap os (k + 1))
    (h1' : preCap cap os k ≤ t') (h2' : t' ≤ preCap cap os (k + 1)) (g : Order → Order)
    (hg : ∀ o, os[k]? = some o → g (o.withBuy (t - preCap cap os k)) = o.withBuy (t' - preCap cap os k)) :
    (fillOrders cap t os).modify k g = fillOrders cap t' os := by
  apply List.ext_getElem?
  intro j
  rw [List.getElem?_modify, fillOrders_getElem?, fillOrders_getElem?]
  cases ho : os[j]? with
  | none => simp
  | some o =>
    have hco : 0 < cap o := hpos o (List.mem_of_getElem? ho)
    have hsucc := preCap_succ (cap := cap) ho
    simp only [Option.map_some, Option.map_eq_map]
    rcases Nat.lt_trichotomy j k with hj | hj | hj
    · have := preCap_mono (cap := cap) hpos (show j + 1 ≤ k by omega)
      simp only [if_neg (show ¬ k = j by omega)]
      rw [min_eq_left (by linarith), min_eq_left (by linarith)]
    · subst hj
      have e1 : max 0 (min (cap o) (t - preCap cap os j)) = t - preCap cap os j := by
        rw [min_eq_right (by linarith), max_eq_right (by linarith)]
      have e2 : max 0 (min (cap o) (t' - preCap cap os j)) = t' - preCap cap os j := by
        rw [min_eq_right (by linarith), max_eq_right (by linarith)]
      simp only [if_true, e1, e2]
      simp [hg o ho]
    · have := preCap_mono (cap := cap) hpos (show k + 1 ≤ j by omega)
      simp only [if_neg (show ¬ k = j by omega)]
      have e : ∀ t : ℚ, t ≤ preCap cap os (k + 1) → max 0 (min (cap o) (t - preCap cap os j)) = 0 :=
        fun t ht => max_eq_left (le_trans (min_le_right _ _) (by linarith))
      rw [e t h2, e t' h2']

theorem fillOrders_zero (hz : ∀ o ∈ os, o.buy = 0) (hpos : ∀ o ∈ os, 0 < cap o) : fillOrders cap 0 os = os := by
  apply List.ext_getElem?
  intro j
  rw [fillOrders_getElem?]
  cases ho : os[j]? with
  | none => simp
  | some o =>
    have hmem := List.mem_of_getElem? ho
    have := preCap_nonneg (cap := cap) hpos j
    have h0 : max 0 (min (cap o) (0 - preCap cap os j)) = 0 :=
      max_eq_left (le_trans (min_le_right _ _) (by linarith))
    simp only [Option.map_some, h0]
    have := hz o hmem
    cases o; simp_all [Order.withBuy]

/-- The total of a fill. -/
theorem fillOrders_sum (hpos : ∀ o ∈ os, 0 < cap o) {t : ℚ} (h0 : 0 ≤ t) (h1 : t ≤ (os.map cap).sum) :
    ((fillOrders cap t os).map (·.buy)).sum = t := by
  induction os generalizing t with
  | nil => simp [fillOrders] at *; linarith
  | cons o os ih =>
    have hco := hpos o (by simp)
    have hpos' : ∀ o ∈ os, 0 < cap o := fun o ho => hpos o (by simp [ho])
    simp only [List.map_cons, List.sum_cons] at h1
    simp only [fillOrders, List.map_cons, List.sum_cons, withBuy_buy]
    rcases le_total t (cap o) with hle | hle
    · rw [min_eq_right hle, max_eq_right h0]
      have : ((fillOrders cap (t - cap o) os).map (·.buy)).sum = 0 := by
        apply List.sum_eq_zero
        intro x hx
        obtain ⟨o', ho', rfl⟩ := List.mem_map.1 hx
        obtain ⟨j, hj⟩ := List.mem_iff_getElem?.1 ho'
        rw [fillOrders_getElem?] at hj
        cases hoj : os[j]? with
        | none => rw [hoj] at hj; simp at hj
        | some o'' =>
          rw [hoj] at hj
          simp at hj
          rw [← hj]
          have := preCap_nonneg (cap := cap) hpos' j
          simp only [withBuy_buy]
          exact max_eq_left (le_trans (min_le_right _ _) (by linarith))
      rw [this]; ring
    · rw [min_eq_left hle, max_eq_right hco.le, ih hpos' (by linarith) (by linarith)]; ring

/-- Members of a fill. -/
theorem mem_fillOrders {t : ℚ} {os : List Order} {o' : Order} (h : o' ∈ fillOrders cap t os) :
    ∃ (k : ℕ) (o : Order), os[k]? = some o ∧ o' = o.withBuy (max 0 (min (cap o) (t - preCap cap os k))) := by
  obtain ⟨j, hj⟩ := List.mem_iff_getElem?.1 h
  rw [fillOrders_getElem?] at hj
  cases hoj : os[j]? with
  | none => rw [hoj] at hj; simp at hj
  | some o => rw [hoj] at hj; simp at hj; exact ⟨j, o, hoj, hj.symm⟩

/-- `k` is the index of the last order with a positive amount in the fill (−1 if none). -/
def LastIdx (cap : Order → ℚ) (os : List Order) (t : ℚ) (k : ℤ) : Prop :=
  -1 ≤ k ∧ k < os.length ∧ 0 ≤ t ∧ t ≤ preCap cap os (k + 1).toNat ∧ (0 ≤ k → preCap cap os k.toNat < t)

theorem LastIdx.neg_iff (hpos : ∀ o ∈ os, 0 < cap o) {t : ℚ} {k : ℤ} (h : LastIdx cap os t k) :
    k < 0 ↔ t = 0 := by
  obtain ⟨h1, h2, h3, h4, h5⟩ := h
  constructor
  · intro hk
    have : k = -1 := by omega
    subst this
    simp at h4; linarith
  · intro ht
    by_contra hc
    have := h5 (by omega)
    have := preCap_nonneg (cap := cap) hpos k.toNat
    linarith

theorem LastIdx.nonneg_iff (hpos : ∀ o ∈ os, 0 < cap o) {t : ℚ} {k : ℤ} (h : LastIdx cap os t k) :
    0 ≤ k ↔ 0 < t := by
  have := h.neg_iff hpos
  obtain ⟨h1, h2, h3, h4, h5⟩ := h
  constructor
  · intro hk
    rcases h3.lt_or_eq with h | h
    · exact h
    · exact absurd (this.2 h.symm) (by omega)
  · intro ht
    by_contra hc
    have := this.1 (by omega)
    linarith

/-- Number of executed orders of a fill. -/
theorem fillOrders_count (hpos : ∀ o ∈ os, 0 < cap o) {t : ℚ} {k : ℤ} (h : LastIdx cap os t k) :
    ((countNrExec (fillOrders cap t os) : ℕ) : ℤ) = k + 1 := by
  obtain ⟨h1, h2, h3, h4, h5⟩ := h
  have key : ∀ (os : List Order) (t : ℚ) (m : ℕ), (∀ o ∈ os, 0 < cap o) → m ≤ os.length →
      t ≤ preCap cap os m → (0 < m → preCap cap os (m - 1) < t) →
      countNrExec (fillOrders cap t os) = m := by
    intro os
    induction os with
    | nil => intro t m _ hm _ _; simp at hm; subst hm; simp [fillOrders, countNrExec]
    | cons o os ih =>
      intro t m hpos hm ht hlt
      have hco := hpos o (by simp)
      have hpos' : ∀ o ∈ os, 0 < cap o := fun o ho => hpos o (by simp [ho])
      simp only [fillOrders, countNrExec, List.countP_cons]
      have ih' := ih (t - cap o) (m - 1) hpos' (by simp at hm; omega)
      cases m with
      | zero =>
        simp at ht
        have : max 0 (min (cap o) t) = 0 := max_eq_left (le_trans (min_le_right _ _) ht)
        rw [this, if_neg (by simp)]
        apply ih'
        · simp; linarith
        · simp
      | succ m =>
        have h0 : 0 < t := by
          have := hlt (by omega)
          have := preCap_nonneg (cap := cap) hpos (m + 1 - 1)
          linarith
        rw [if_pos (decide_eq_true (show 0 < (o.withBuy (max 0 (min (cap o) t))).buy from
          lt_max_of_lt_right (lt_min hco h0)))]
        congr 1
        apply ih'
        · rw [preCap_cons_succ] at ht; simp; linarith
        · intro hm0
          simp at hm0
          have := hlt (by omega)
          obtain ⟨m', rfl⟩ : ∃ m', m = m' + 1 := ⟨m - 1, by omega⟩
          simp only [Nat.add_sub_cancel] at this ⊢
          rw [preCap_cons_succ] at this
          linarith
  have := key os t (k + 1).toNat hpos (by omega) h4 (by
    intro hk
    have := h5 (by omega)
    have e : (k + 1).toNat - 1 = k.toNat := by omega
    rw [e]; exact this)
  rw [this]; omega

end Dex
