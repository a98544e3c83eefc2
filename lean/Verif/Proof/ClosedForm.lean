import Verif.Proof.Side

/-! # Closed form of the amounts set by `compute_buy_amounts` -/

namespace Dex

open Spec

theorem clearBuy_id (o : Order) : o.clearBuy.id = o.id := rfl

theorem take_eq_filter_before {L : List Order} (hsort : L.Pairwise (fun a b => ¬ Before b a))
    (hn : (L.map (·.id)).Nodup) {k : ℕ} {a : Order} (hk : L[k]? = some a) :
    L.filter (fun c => decide (Before c a)) = L.take k := by
  induction L generalizing k with
  | nil => simp at hk
  | cons c L ih =>
    have hs := List.pairwise_cons.1 hsort
    have hn' : (L.map (·.id)).Nodup := by simp at hn; exact hn.2
    cases k with
    | zero =>
      simp only [List.getElem?_cons_zero, Option.some.injEq] at hk
      subst hk
      rw [List.take_zero, List.filter_eq_nil_iff]
      intro o ho
      simp only [decide_eq_true_eq]
      rcases List.mem_cons.1 ho with rfl | ho
      · exact fun h => h.asymm h
      · exact hs.1 o ho
    | succ k =>
      simp only [List.getElem?_cons_succ] at hk
      have ha : a ∈ L := List.mem_of_getElem? hk
      have hid : c.id ≠ a.id := by
        simp only [List.map_cons, List.nodup_cons] at hn
        intro h; exact hn.1 (h ▸ List.mem_map_of_mem ha)
      have hb : Before c a := by
        rcases Before.total hid with h | h
        · exact h
        · exact absurd h (hs.1 a ha)
      rw [List.filter_cons, if_pos (by simpa using hb), List.take_succ_cons, ih hs.2 hn' hk]

theorem preCap_eq_before {cap : Order → ℚ} {elig : Order → Prop} [DecidablePred elig] {orig L : List Order}
    (hcap : ∀ (o : Order) (v : ℚ), cap (o.withBuy v) = cap o)
    (hel : ∀ (o : Order) (v : ℚ), elig (o.withBuy v) ↔ elig o)
    (hperm : L.Perm ((orig.map Order.clearBuy).filter (fun o => decide (elig o))))
    (hsort : L.Pairwise (fun a b => ¬ Before b a)) (hn : (L.map (·.id)).Nodup) {k : ℕ} {a : Order}
    (hk : L[k]? = some a) :
    preCap cap L k = ((orig.filter (fun c => decide (elig c ∧ Before c a))).map cap).sum := by
  unfold preCap
  rw [← take_eq_filter_before hsort hn hk]
  rw [((hperm.filter (fun c => decide (Before c a))).map cap).sum_eq]
  rw [List.filter_filter, List.filter_map, List.map_map]
  congr 1
  have e1 : ((fun o : Order => decide (Before o a) && decide (elig o)) ∘ Order.clearBuy) =
      (fun c => decide (elig c ∧ Before c a)) := by
    funext c
    rw [Bool.eq_iff_iff]
    simp only [Function.comp, Bool.and_eq_true, decide_eq_true_eq]
    have h1 : elig c.clearBuy ↔ elig c := hel c 0
    have h2 : Before c.clearBuy a ↔ Before c a := Iff.rfl
    rw [h1, h2]; tauto
  rw [e1]
  apply List.map_congr_left
  intro c _
  exact hcap c 0

theorem nodup_ids_of_perm {elig : Order → Prop} [DecidablePred elig] {orig L : List Order}
    (hperm : L.Perm ((orig.map Order.clearBuy).filter (fun o => decide (elig o)))) (hn : (orig.map (·.id)).Nodup) :
    (L.map (·.id)).Nodup := by
  rw [(hperm.map _).nodup_iff]
  have : ((orig.map Order.clearBuy).map (·.id)).Nodup := by rw [clearBuy_ids]; exact hn
  exact List.Nodup.sublist (List.filter_sublist.map _) this

/-- One side of the result in closed form. -/
theorem writeBack_fill_eq {cap : Order → ℚ} {elig : Order → Prop} [DecidablePred elig] {orig L : List Order} {t : ℚ}
    (hcap : ∀ (o : Order) (v : ℚ), cap (o.withBuy v) = cap o)
    (hel : ∀ (o : Order) (v : ℚ), elig (o.withBuy v) ↔ elig o)
    (hperm : L.Perm ((orig.map Order.clearBuy).filter (fun o => decide (elig o))))
    (hsort : L.Pairwise (fun a b => ¬ Before b a)) (hn : (orig.map (·.id)).Nodup) :
    writeBack (orig.map Order.clearBuy) (fillOrders cap t L) =
      orig.map (fun o => o.withBuy (fillAmount elig cap orig t o)) := by
  have hnL := nodup_ids_of_perm hperm hn
  unfold writeBack
  rw [List.map_map]
  apply List.map_congr_left
  intro o ho
  simp only [Function.comp]
  by_cases he : elig o
  · have hmem : o.clearBuy ∈ L := by
      rw [hperm.mem_iff, List.mem_filter]
      exact ⟨List.mem_map_of_mem ho, decide_eq_true (show elig o.clearBuy from (hel o 0).2 he)⟩
    obtain ⟨k, hk⟩ := List.mem_iff_getElem?.1 hmem
    have hfk : (fillOrders cap t L)[k]? =
        some (o.clearBuy.withBuy (max 0 (min (cap o.clearBuy) (t - preCap cap L k)))) := by
      rw [fillOrders_getElem?, hk]; rfl
    rw [find?_id_of_mem (i := o.clearBuy.id) (by rw [fillOrders_ids]; exact hnL) (List.mem_of_getElem? hfk) rfl]
    simp only [Option.getD_some]
    have hc : cap o.clearBuy = cap o := hcap o 0
    unfold fillAmount
    rw [if_pos he, hc, preCap_eq_before hcap hel hperm hsort hnL hk]
    rfl
  · have hf : (fillOrders cap t L).find? (fun v => decide (v.id = o.clearBuy.id)) = none := by
      rw [List.find?_eq_none]
      intro v hv
      simp only [decide_eq_true_eq]
      intro hid
      obtain ⟨k, a, hk, rfl⟩ := mem_fillOrders hv
      have ha := List.mem_filter.1 (hperm.mem_iff.1 (List.mem_of_getElem? hk))
      obtain ⟨a', ha', rfl⟩ := List.mem_map.1 ha.1
      have : a' = o := nodup_ids_inj hn ha' ho hid
      subst this
      exact he ((hel a' 0).1 (of_decide_eq_true ha.2))
    rw [hf]
    unfold fillAmount
    rw [if_neg he]
    rfl

end Dex
