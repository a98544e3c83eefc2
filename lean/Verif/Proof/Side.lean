import Verif.Proof.BuyAmounts

/-! # One side of a result of `compute_buy_amounts` -/

namespace Dex

open Spec

/-- Amounts in a fill, by position relative to the last executed order. -/
theorem LastIdx.value {cap : Order → ℚ} {os : List Order} (hpos : ∀ o ∈ os, 0 < cap o) {t : ℚ} {i : ℤ}
    (h : LastIdx cap os t i) {k : ℕ} {a : Order} (ha : os[k]? = some a) :
    ((k : ℤ) < i ∧ max 0 (min (cap a) (t - preCap cap os k)) = cap a) ∨
    ((k : ℤ) = i ∧ max 0 (min (cap a) (t - preCap cap os k)) = t - preCap cap os k ∧
      0 < t - preCap cap os k ∧ t - preCap cap os k ≤ cap a) ∨
    (i < k ∧ max 0 (min (cap a) (t - preCap cap os k)) = 0) := by
  have hca := hpos a (List.mem_of_getElem? ha)
  rcases lt_trichotomy (k : ℤ) i with hk | hk | hk
  · left
    refine ⟨hk, ?_⟩
    have h5 := h.2.2.2.2 (by omega)
    have := preCap_mono (cap := cap) hpos (show k + 1 ≤ i.toNat by omega)
    rw [preCap_succ ha] at this
    rw [min_eq_left (by linarith), max_eq_right hca.le]
  · right; left
    subst hk
    obtain ⟨_, h1, h2⟩ := h.bounds
    rw [preCap_succ ha] at h2
    exact ⟨rfl, by rw [min_eq_right (by linarith), max_eq_right (by linarith)], by linarith, by linarith⟩
  · right; right
    refine ⟨hk, ?_⟩
    have h4 := h.2.2.2.1
    have := preCap_mono (cap := cap) hpos (show (i + 1).toNat ≤ k by have := h.1; omega)
    exact max_eq_left (le_trans (min_le_right _ _) (by linarith))

/-- The orders of a result, one side. -/
theorem side_cases {cap : Order → ℚ} {elig : Order → Prop} [DecidablePred elig] {orig res L : List Order} {t : ℚ} {i : ℤ}
    (hpos : ∀ o ∈ L, 0 < cap o) (hperm : L.Perm ((orig.map Order.clearBuy).filter (fun o => decide (elig o))))
    (hres : res.Perm (fillOrders cap t L ++ (orig.map Order.clearBuy).filter (fun o => !decide (elig o))))
    (hlast : LastIdx cap L t i) {o : Order} (ho : o ∈ res) :
    (∃ (k : ℕ) (a : Order), L[k]? = some a ∧ elig a ∧ o = a.withBuy o.buy ∧
      (((k : ℤ) < i ∧ o.buy = cap a) ∨
       ((k : ℤ) = i ∧ o.buy = t - preCap cap L k ∧ 0 < o.buy ∧ o.buy ≤ cap a) ∨
       (i < k ∧ o.buy = 0))) ∨ (o.buy = 0 ∧ ¬ elig o) := by
  rcases List.mem_append.1 (hres.mem_iff.1 ho) with h | h
  · left
    obtain ⟨k, a, hk, he⟩ := mem_fillOrders h
    have helig : elig a := by
      have := hperm.mem_iff.1 (List.mem_of_getElem? hk)
      simp only [List.mem_filter, decide_eq_true_eq] at this
      exact this.2
    have hb : o.buy = max 0 (min (cap a) (t - preCap cap L k)) := by rw [he, withBuy_buy]
    refine ⟨k, a, hk, helig, by rw [hb]; exact he, ?_⟩
    rcases hlast.value hpos hk with ⟨h1, h2⟩ | ⟨h1, h2, h3, h4⟩ | ⟨h1, h2⟩
    · exact .inl ⟨h1, hb.trans h2⟩
    · refine .inr (.inl ⟨h1, hb.trans h2, ?_, ?_⟩)
      · rw [hb, h2]; exact h3
      · rw [hb, h2]; exact h4
    · exact .inr (.inr ⟨h1, hb.trans h2⟩)
  · right
    simp only [List.mem_filter, List.mem_map, Bool.not_eq_true', decide_eq_false_iff_not] at h
    obtain ⟨⟨a, _, rfl⟩, hne⟩ := h
    exact ⟨rfl, hne⟩

theorem side_sum {cap : Order → ℚ} {elig : Order → Prop} [DecidablePred elig] {orig res L : List Order} {t : ℚ} {i : ℤ}
    (hpos : ∀ o ∈ L, 0 < cap o)
    (hres : res.Perm (fillOrders cap t L ++ (orig.map Order.clearBuy).filter (fun o => !decide (elig o))))
    (hlast : LastIdx cap L t i) : (res.map (·.buy)).sum = t := by
  rw [(hres.map _).sum_eq, List.map_append, List.sum_append]
  have h0 : (((orig.map Order.clearBuy).filter (fun o => !decide (elig o))).map (·.buy)).sum = 0 := by
    apply List.sum_eq_zero
    intro v hv
    obtain ⟨o, ho, rfl⟩ := List.mem_map.1 hv
    obtain ⟨a, _, rfl⟩ := List.mem_map.1 (List.mem_filter.1 ho).1
    rfl
  rw [h0, add_zero]
  apply fillOrders_sum hpos hlast.2.2.1
  rw [← preCap_length]
  refine le_trans hlast.2.2.2.1 (preCap_mono hpos ?_)
  have := hlast.2.1; omega

theorem countNrExec_perm {a b : List Order} (h : a.Perm b) : countNrExec a = countNrExec b := h.countP_eq _

theorem side_count {cap : Order → ℚ} {elig : Order → Prop} [DecidablePred elig] {orig res L : List Order} {t : ℚ} {i : ℤ}
    (hpos : ∀ o ∈ L, 0 < cap o)
    (hres : res.Perm (fillOrders cap t L ++ (orig.map Order.clearBuy).filter (fun o => !decide (elig o))))
    (hlast : LastIdx cap L t i) : ((countNrExec res : ℕ) : ℤ) = i + 1 := by
  rw [countNrExec_perm hres]
  unfold countNrExec
  rw [List.countP_append]
  have h0 : ((orig.map Order.clearBuy).filter (fun o => !decide (elig o))).countP (fun o => decide (0 < o.buy)) = 0 := by
    rw [List.countP_eq_zero]
    intro o ho
    obtain ⟨a, _, rfl⟩ := List.mem_map.1 (List.mem_filter.1 ho).1
    simp [Order.clearBuy, Order.withBuy]
  rw [h0, add_zero]
  exact fillOrders_count hpos hlast

/-- Priority: everything before an executed order is full. -/
theorem side_priority {cap : Order → ℚ} {elig : Order → Prop} [DecidablePred elig] {orig res L : List Order} {t : ℚ} {i : ℤ}
    (hcap : ∀ (o : Order) (v : ℚ), cap (o.withBuy v) = cap o)
    (hpos : ∀ o ∈ L, 0 < cap o) (hperm : L.Perm ((orig.map Order.clearBuy).filter (fun o => decide (elig o))))
    (hres : res.Perm (fillOrders cap t L ++ (orig.map Order.clearBuy).filter (fun o => !decide (elig o))))
    (hsort : L.Pairwise (fun a b => ¬ Before b a))
    (hlast : LastIdx cap L t i) {a o : Order} (ha : a ∈ res) (ho : o ∈ res) (hea : elig a) (hbef : Before a o)
    (hex : 0 < o.buy) : a.buy = cap a := by
  rcases side_cases hpos hperm hres hlast ha with ⟨k, a', hk, _, hae, hka⟩ | ⟨_, h⟩
  · rcases side_cases hpos hperm hres hlast ho with ⟨l, o', hl, _, hoe, hlo⟩ | ⟨h, _⟩
    · have hb' : Before a' o' := by
        rw [hae, hoe] at hbef; exact hbef
      have hkl : k < l := by
        by_contra hc
        rcases Nat.lt_or_eq_of_le (not_lt.1 hc) with hlt | heq
        · obtain ⟨hl1, hl2⟩ := List.getElem?_eq_some_iff.1 hl
          obtain ⟨hk1, hk2⟩ := List.getElem?_eq_some_iff.1 hk
          have := List.pairwise_iff_getElem.1 hsort l k hl1 hk1 hlt
          rw [hl2, hk2] at this
          exact this hb'
        · subst heq
          rw [hk] at hl
          cases hl
          exact hb'.asymm hb'
      have hca : cap a = cap a' := by rw [hae, hcap]
      rw [hca]
      rcases hlo with ⟨h1, _⟩ | ⟨h1, _⟩ | ⟨_, h0⟩
      · rcases hka with ⟨_, h⟩ | ⟨h, _⟩ | ⟨h, _⟩
        · exact h
        · omega
        · omega
      · rcases hka with ⟨_, h⟩ | ⟨h, _⟩ | ⟨h, _⟩
        · exact h
        · omega
        · omega
      · rw [h0] at hex; exact absurd hex (lt_irrefl _)
    · rw [h] at hex; exact absurd hex (lt_irrefl _)
  · exact absurd hea h

theorem capB_withBuy (x : ℚ) (fee : Fee) (o : Order) (v : ℚ) : capB x fee (o.withBuy v) = capB x fee o := rfl
theorem capS_withBuy (x : ℚ) (fee : Fee) (o : Order) (v : ℚ) : capS x fee (o.withBuy v) = capS x fee o := rfl

theorem mem_writeBack {orig u : List Order} {o' : Order} (h : o' ∈ writeBack orig u) : o' ∈ orig ∨ o' ∈ u := by
  unfold writeBack at h
  obtain ⟨o, ho, rfl⟩ := List.mem_map.1 h
  cases hf : u.find? (fun v => decide (v.id = o.id)) with
  | none => exact .inl (by simpa using ho)
  | some v => exact .inr (by simpa using List.mem_of_find?_eq_some hf)

/-- Only buy amounts change. -/
theorem writeBack_fill_static {cap : Order → ℚ} {orig L : List Order} {t : ℚ} (hn : (orig.map (·.id)).Nodup)
    (hL : ∀ o ∈ L, o ∈ orig.map Order.clearBuy) :
    List.Forall₂ SameButBuy orig (writeBack (orig.map Order.clearBuy) (fillOrders cap t L)) := by
  unfold writeBack
  rw [List.map_map, List.forall₂_map_right_iff]
  rw [List.forall₂_same]
  intro o ho
  simp only [Function.comp]
  cases hf : (fillOrders cap t L).find? (fun v => decide (v.id = o.clearBuy.id)) with
  | none => rfl
  | some v =>
    have h1 := List.find?_some hf
    have h2 := List.mem_of_find?_eq_some hf
    simp only [decide_eq_true_eq] at h1
    obtain ⟨k, a, hk, rfl⟩ := mem_fillOrders h2
    obtain ⟨a', ha', rfl⟩ := List.mem_map.1 (hL a (List.mem_of_getElem? hk))
    have : a' = o := nodup_ids_inj hn ha' ho h1
    subst this
    rfl

end Dex
