import Verif.Props.Optimal
import Verif.Model.Xrate

/-! # The objective at a rate depends only on the orders accepting the rate -/

namespace Dex

open Spec

/-- `compute_buy_amounts` in terms of the eligible orders. -/
theorem computeBuyAmounts_eq {cfg : Config} {x : ℚ} (hx : 0 < x) (b s : List Order) (fee : Fee) (maxNr : ℤ) :
    computeBuyAmounts cfg x b s fee maxNr =
      (if ((b.map Order.clearBuy).filter (fun o => decide (EligibleB cfg x fee o))).length = 0 ∨
          ((s.map Order.clearBuy).filter (fun o => decide (EligibleS cfg x fee o))).length = 0 then
        pure (b.map Order.clearBuy, s.map Order.clearBuy)
       else do
        let (b1, s1) ← executeSorted cfg x fee maxNr
          (sortedByExecPriority ((b.map Order.clearBuy).filter (fun o => decide (EligibleB cfg x fee o))))
          (sortedByExecPriority ((s.map Order.clearBuy).filter (fun o => decide (EligibleS cfg x fee o))))
        pure (writeBack (b.map Order.clearBuy) b1, writeBack (s.map Order.clearBuy) s1)) := by
  unfold computeBuyAmounts
  simp only [filterMaxXrate_eq hx, filterMinTradable_eq hx, ok_bind, List.filter_filter]
  have e1 : (fun a : Order => decide ((cfg.minRationalTradable : ℚ) ≤ a.maxSell ∧
      (cfg.minRationalTradable : ℚ) ≤ a.maxSell / x * (1 - fee.value)) &&
      decide (x ≤ a.maxXrate * (1 - fee.value))) = fun o => decide (EligibleB cfg x fee o) := by
    funext o
    rw [Bool.eq_iff_iff, Bool.and_eq_true, decide_eq_true_eq, decide_eq_true_eq, decide_eq_true_eq]
    unfold EligibleB; tauto
  have e2 : (fun a : Order => decide ((cfg.minRationalTradable : ℚ) ≤ a.maxSell ∧
      (cfg.minRationalTradable : ℚ) ≤ a.maxSell * x * (1 - fee.value)) &&
      decide (1 / x ≤ a.maxXrate * (1 - fee.value))) = fun o => decide (EligibleS cfg x fee o) := by
    funext o
    rw [Bool.eq_iff_iff, Bool.and_eq_true, decide_eq_true_eq, decide_eq_true_eq, decide_eq_true_eq]
    unfold EligibleS; tauto
  rw [e1, e2]

/-- Two books with the same eligible orders at `x` up to order are filled at the same level. -/
theorem level_unique {cfg : Config} {x : ℚ} {fee : Fee} {maxNr : ℤ} {b s b1 s1 : List Order}
    (h : ExecInput cfg x fee maxNr b s) (h1 : ExecInput cfg x fee maxNr b1 s1)
    (pB : (b.filter (fun o => decide (EligibleB cfg x fee o))).Perm (b1.filter (fun o => decide (EligibleB cfg x fee o))))
    (pS : (s.filter (fun o => decide (EligibleS cfg x fee o))).Perm (s1.filter (fun o => decide (EligibleS cfg x fee o)))) :
    ∃ t : ℚ, 0 ≤ t ∧
      computeBuyAmounts cfg x b s fee maxNr = .ok
        (b.map (fun o => o.withBuy (fillAmount (EligibleB cfg x fee) (maxBuyB x fee) b (t * ((1 - fee.value) / x)) o)),
         s.map (fun o => o.withBuy (fillAmount (EligibleS cfg x fee) (maxBuyS x fee) s t o))) ∧
      computeBuyAmounts cfg x b1 s1 fee maxNr = .ok
        (b1.map (fun o => o.withBuy (fillAmount (EligibleB cfg x fee) (maxBuyB x fee) b1 (t * ((1 - fee.value) / x)) o)),
         s1.map (fun o => o.withBuy (fillAmount (EligibleS cfg x fee) (maxBuyS x fee) s1 t o))) := by
  have hx := h.ratePos
  have comm : ∀ (l : List Order) (p : Order → Bool), (∀ o, p o.clearBuy = p o) →
      (l.map Order.clearBuy).filter p = (l.filter p).map Order.clearBuy := by
    intro l p hp
    rw [List.filter_map]; congr 1
    apply List.filter_congr; intro o _; exact hp o
  have qB : ((b.map Order.clearBuy).filter (fun o => decide (EligibleB cfg x fee o))).Perm
      ((b1.map Order.clearBuy).filter (fun o => decide (EligibleB cfg x fee o))) := by
    rw [comm b _ (fun _ => rfl), comm b1 _ (fun _ => rfl)]; exact pB.map _
  have qS : ((s.map Order.clearBuy).filter (fun o => decide (EligibleS cfg x fee o))).Perm
      ((s1.map Order.clearBuy).filter (fun o => decide (EligibleS cfg x fee o))) := by
    rw [comm s _ (fun _ => rfl), comm s1 _ (fun _ => rfl)]; exact pS.map _
  have nod : ∀ (l : List Order) (p : Order → Bool), (l.map (·.id)).Nodup →
      (((l.map Order.clearBuy).filter p).map (·.id)).Nodup := by
    intro l p hl
    have : ((l.map Order.clearBuy).map (·.id)).Nodup := by rw [clearBuy_ids]; exact hl
    exact List.Nodup.sublist (List.filter_sublist.map _) this
  have sB := sortedByExecPriority_unique qB (nod b _ h.idsB)
  have sS := sortedByExecPriority_unique qS (nod s _ h.idsS)
  obtain ⟨b2, s2, B, S, i, j, t, e2, hs2⟩ :=
    computeBuyAmounts_spec cfg h.minPos h.ratePos h.feeLt h.limit h.idsB h.idsS
  obtain ⟨r1, r2⟩ : b2 = b.map (fun o => o.withBuy (fillAmount (EligibleB cfg x fee) (maxBuyB x fee) b (t * ((1 - fee.value) / x)) o)) ∧
      s2 = s.map (fun o => o.withBuy (fillAmount (EligibleS cfg x fee) (maxBuyS x fee) s t o)) := by
    refine ⟨?_, ?_⟩
    · rw [hs2.eqB]
      exact writeBack_fill_eq (capB_withBuy x fee) (fun _ _ => Iff.rfl) hs2.permB hs2.sortB h.idsB
    · rw [hs2.eqS]
      exact writeBack_fill_eq (capS_withBuy x fee) (fun _ _ => Iff.rfl) hs2.permS hs2.sortS h.idsS
  refine ⟨t, hs2.lastS.2.2.1, by rw [e2, r1, r2], ?_⟩
  -- the second book
  have permB1 : B.Perm ((b1.map Order.clearBuy).filter (fun o => decide (EligibleB cfg x fee o))) := hs2.permB.trans qB
  have permS1 : S.Perm ((s1.map Order.clearBuy).filter (fun o => decide (EligibleS cfg x fee o))) := hs2.permS.trans qS
  have w1 := writeBack_fill_eq (t := t * ((1 - fee.value) / x)) (capB_withBuy x fee) (fun _ _ => Iff.rfl) permB1 hs2.sortB h1.idsB
  have w2 := writeBack_fill_eq (t := t) (capS_withBuy x fee) (fun _ _ => Iff.rfl) permS1 hs2.sortS h1.idsS
  obtain ⟨b3, s3, B3, S3, i3, j3, t3, e3, hs3⟩ :=
    computeBuyAmounts_spec cfg h1.minPos h1.ratePos h1.feeLt h1.limit h1.idsB h1.idsS
  -- same sorted lists
  have uniq : ∀ {L L' M : List Order}, L.Perm M → L'.Perm M → L.Pairwise (fun a b => ¬ Before b a) →
      L'.Pairwise (fun a b => ¬ Before b a) → (M.map (·.id)).Nodup → L = L' := by
    intro L L' M hL hL' s1 s2 hM
    have hp : L.Perm L' := hL.trans hL'.symm
    refine hp.eq_of_pairwise ?_ s1 s2
    intro a c ha hc k1 k2
    by_contra hne
    have hid : a.id ≠ c.id := fun hid => hne (nodup_ids_inj hM (hL.mem_iff.1 ha) (hL'.mem_iff.1 hc) hid)
    rcases Before.total hid with hb | hb
    · exact k2 hb
    · exact k1 hb
  have hBB : B3 = B := uniq hs3.permB permB1 hs3.sortB hs2.sortB (nod b1 _ h1.idsB)
  have hSS : S3 = S := uniq hs3.permS permS1 hs3.sortS hs2.sortS (nod s1 _ h1.idsS)
  subst hBB hSS
  have ht : t3 = t := by
    rw [computeBuyAmounts_eq hx] at e2 e3
    rw [← sB, ← sS, ← qB.length_eq, ← qS.length_eq] at e3
    -- compare totals bought on the s side
    have tot : ∀ {bb ss bb' ss' BB SS : List Order} {ii jj : ℤ} {tt : ℚ}, BuySpec cfg x fee maxNr bb ss bb' ss' BB SS ii jj tt →
        (ss'.map (·.buy)).sum = tt := fun hh => side_sum hh.posS hh.resS hh.lastS
    have t1 := tot hs2
    have t2 := tot hs3
    split at e2
    · rename_i hz
      rw [if_pos hz] at e3
      cases e2; cases e3
      rw [← t1, ← t2]
      simp only [List.map_map]
      have zero : ∀ l : List Order, (l.map ((fun x : Order => x.buy) ∘ Order.clearBuy)).sum = 0 := by
        intro l
        apply List.sum_eq_zero
        intro y hy
        obtain ⟨o, _, rfl⟩ := List.mem_map.1 hy
        rfl
      rw [zero, zero]
    · rename_i hz
      rw [if_neg hz] at e3
      cases hex : executeSorted cfg x fee maxNr
          (sortedByExecPriority ((b.map Order.clearBuy).filter (fun o => decide (EligibleB cfg x fee o))))
          (sortedByExecPriority ((s.map Order.clearBuy).filter (fun o => decide (EligibleS cfg x fee o)))) with
      | error e => rw [hex] at e2; cases e2
      | ok r =>
        obtain ⟨rb, rs⟩ := r
        rw [hex] at e2 e3
        cases e2; cases e3
        -- `writeBack` of the same list: compare on the eligible orders
        obtain ⟨i', j', t', k1, k2, k3, k4, k5, k6, k7, _⟩ := executeSorted_spec cfg maxNr h.limit hx h.feeLt
          (B := B3) (S := S3) hs2.posB hs2.posS
          (by intro o ho
              obtain ⟨o', _, rfl⟩ := List.mem_map.1 (List.mem_filter.1 (hs2.permB.mem_iff.1 ho)).1; rfl)
          (by intro o ho
              obtain ⟨o', _, rfl⟩ := List.mem_map.1 (List.mem_filter.1 (hs2.permS.mem_iff.1 ho)).1; rfl)
        have hB3 : sortedByExecPriority ((b.map Order.clearBuy).filter (fun o => decide (EligibleB cfg x fee o))) = B3 :=
          uniq (sortedByExecPriority_perm _) hs2.permB (sortedByExecPriority_pairwise _) hs2.sortB (nod b _ h.idsB)
        have hS3 : sortedByExecPriority ((s.map Order.clearBuy).filter (fun o => decide (EligibleS cfg x fee o))) = S3 :=
          uniq (sortedByExecPriority_perm _) hs2.permS (sortedByExecPriority_pairwise _) hs2.sortS (nod s _ h.idsS)
        rw [hB3, hS3, k1] at hex
        cases hex
        have wr : ∀ (l : List Order), (l.map (·.id)).Nodup →
            S3.Perm ((l.map Order.clearBuy).filter (fun o => decide (EligibleS cfg x fee o))) →
            ((writeBack (l.map Order.clearBuy) (fillOrders (capS x fee) t' S3)).map (·.buy)).sum =
              ((fillOrders (capS x fee) t' S3).map (·.buy)).sum := by
          intro l hl hp
          have hnl : ((l.map Order.clearBuy).map (·.id)).Nodup := by rw [clearBuy_ids]; exact hl
          have := writeBack_filter_perm hnl hp (fillOrders_ids (capS x fee) t' S3)
          rw [(this.map _).sum_eq, List.map_append, List.sum_append]
          have z : (List.map (fun x : Order => x.buy) (List.filter (fun o => !decide (EligibleS cfg x fee o))
              (List.map Order.clearBuy l))).sum = 0 := by
            apply List.sum_eq_zero
            intro y hy
            obtain ⟨o, ho, rfl⟩ := List.mem_map.1 hy
            obtain ⟨o', _, rfl⟩ := List.mem_map.1 (List.mem_filter.1 ho).1
            rfl
          rw [z, add_zero]
        rw [← t1, ← t2, wr s h.idsS hs2.permS, wr s1 h1.idsS hs3.permS]
  subst ht
  rw [e3, hs3.eqB, hs3.eqS]
  have hr : t3 * ratio x fee = t3 * ((1 - fee.value) / x) := rfl
  rw [hr, w1, w2]
  rfl

/-! ### Objective -/

theorem sum_filter_of_zero {α : Type} (l : List α) (p : α → Bool) (f : α → ℚ) (h : ∀ a ∈ l, p a = false → f a = 0) :
    (l.map f).sum = ((l.filter p).map f).sum := by
  induction l with
  | nil => rfl
  | cons a l ih =>
    have ih' := ih (fun c hc => h c (by simp [hc]))
    rw [List.filter_cons]
    cases hp : p a with
    | true => simp [ih']
    | false => simp [ih', h a (by simp) hp]

theorem fillAmount_of_perm {elig : Order → Prop} [DecidablePred elig] {cap : Order → ℚ} {l l1 : List Order} {t : ℚ}
    (hp : (l.filter (fun o => decide (elig o))).Perm (l1.filter (fun o => decide (elig o)))) (o : Order) :
    fillAmount elig cap l t o = fillAmount elig cap l1 t o := by
  unfold fillAmount
  have e : ∀ m : List Order, m.filter (fun a => decide (elig a ∧ Before a o)) =
      (m.filter (fun a => decide (elig a))).filter (fun a => decide (Before a o)) := by
    intro m
    rw [List.filter_filter]
    apply List.filter_congr
    intro a _
    rw [Bool.eq_iff_iff]; simp only [Bool.and_eq_true, decide_eq_true_eq]; tauto
  rw [e l, e l1, ((hp.filter _).map cap).sum_eq]

theorem weight_nonpos {x p : ℚ} {fee : Fee} (hp : 0 < p) (hf : fee.value < 1) {o : Order} (ho : 0 < o.maxXrate)
    (h : ¬ x ≤ o.maxXrate * (1 - fee.value)) : weight x p fee o ≤ 0 := by
  have hφ : 0 < 1 - fee.value := by linarith
  unfold weight
  apply mul_nonpos_of_nonneg_of_nonpos hp.le
  have : 1 ≤ x / (1 - fee.value) / o.maxXrate := by
    rw [le_div_iff₀ ho, le_div_iff₀ hφ]
    have := not_le.1 h
    linarith
  linarith

/-- The objective of executing a book at rate `x` only depends on the orders accepting `x`, up to their order. -/
theorem solverObjective_accepting {cfg : Config} {x : ℚ} {fee : Fee} {b s b1 s1 : List Order}
    (h : ExecInput cfg x fee cfg.maxNrExec b s) (hfp : 0 < cfg.feeTokenPrice)
    (hb : ∀ o ∈ b, 0 < o.maxXrate ∧ 0 ≤ o.maxSell) (hs : ∀ o ∈ s, 0 < o.maxXrate ∧ 0 ≤ o.maxSell)
    (pb : b1.Perm (b.filter (fun o => decide (x ≤ o.maxXrate * (1 - fee.value)))))
    (ps : s1.Perm (s.filter (fun o => decide (1 / x ≤ o.maxXrate * (1 - fee.value))))) :
    ∃ v, solverObjective cfg fee b s x = .ok v ∧ solverObjective cfg fee b1 s1 x = .ok v := by
  have hx := h.ratePos
  have hf := h.feeLt
  have hφ : 0 < 1 - fee.value := by linarith
  have h1 : ExecInput cfg x fee cfg.maxNrExec b1 s1 := by
    refine ⟨h.minPos, hx, hf, h.limit, ?_, ?_⟩
    · rw [(pb.map _).nodup_iff]; exact (List.filter_sublist.map _).nodup h.idsB
    · rw [(ps.map _).nodup_iff]; exact (List.filter_sublist.map _).nodup h.idsS
  have eB : (b.filter (fun o => decide (EligibleB cfg x fee o))).Perm (b1.filter (fun o => decide (EligibleB cfg x fee o))) := by
    refine List.Perm.trans (List.Perm.of_eq ?_) (pb.filter _).symm
    rw [List.filter_filter]
    apply List.filter_congr
    intro o _
    rw [Bool.eq_iff_iff]
    simp only [Bool.and_eq_true, decide_eq_true_eq]
    exact ⟨fun he => ⟨he, he.1⟩, fun he => he.1⟩
  have eS : (s.filter (fun o => decide (EligibleS cfg x fee o))).Perm (s1.filter (fun o => decide (EligibleS cfg x fee o))) := by
    refine List.Perm.trans (List.Perm.of_eq ?_) (ps.filter _).symm
    rw [List.filter_filter]
    apply List.filter_congr
    intro o _
    rw [Bool.eq_iff_iff]
    simp only [Bool.and_eq_true, decide_eq_true_eq]
    exact ⟨fun he => ⟨he, he.1⟩, fun he => he.1⟩
  obtain ⟨t, ht, r1, r2⟩ := level_unique h h1 eB eS
  have m1 : ∀ o ∈ b1, o ∈ b := fun o ho => (List.mem_filter.1 (pb.mem_iff.1 ho)).1
  have m2 : ∀ o ∈ s1, o ∈ s := fun o ho => (List.mem_filter.1 (ps.mem_iff.1 ho)).1
  unfold solverObjective
  rw [r1, r2]
  simp only [ok_bind]
  rw [computeObjectiveRational_explicit hfp hx hf (fun o ho => (hb o ho).1) (fun o ho => (hs o ho).1),
    computeObjectiveRational_explicit hfp hx hf (fun o ho => (hb o (m1 o ho)).1) (fun o ho => (hs o (m2 o ho)).1)]
  refine ⟨_, rfl, ?_⟩
  have fB : ∀ o, fillAmount (EligibleB cfg x fee) (maxBuyB x fee) b1 (t * ((1 - fee.value) / x)) o =
      fillAmount (EligibleB cfg x fee) (maxBuyB x fee) b (t * ((1 - fee.value) / x)) o :=
    fun o => (fillAmount_of_perm eB o).symm
  have fS : ∀ o, fillAmount (EligibleS cfg x fee) (maxBuyS x fee) s1 t o =
      fillAmount (EligibleS cfg x fee) (maxBuyS x fee) s t o := fun o => (fillAmount_of_perm eS o).symm
  have zB : ∀ o, decide (x ≤ o.maxXrate * (1 - fee.value)) = false →
      fillAmount (EligibleB cfg x fee) (maxBuyB x fee) b (t * ((1 - fee.value) / x)) o = 0 := by
    intro o ho
    unfold fillAmount; rw [if_neg (fun he => (of_decide_eq_false ho) he.1)]
  have zS : ∀ o, decide (1 / x ≤ o.maxXrate * (1 - fee.value)) = false →
      fillAmount (EligibleS cfg x fee) (maxBuyS x fee) s t o = 0 := by
    intro o ho
    unfold fillAmount; rw [if_neg (fun he => (of_decide_eq_false ho) he.1)]
  have sumB : ∀ f : Order → ℚ, (∀ o ∈ b, decide (x ≤ o.maxXrate * (1 - fee.value)) = false → f o = 0) →
      (b.map f).sum = (b1.map f).sum := by
    intro f hz
    rw [sum_filter_of_zero b _ f hz, (pb.map f).sum_eq]
  have sumS : ∀ f : Order → ℚ, (∀ o ∈ s, decide (1 / x ≤ o.maxXrate * (1 - fee.value)) = false → f o = 0) →
      (s.map f).sum = (s1.map f).sum := by
    intro f hz
    rw [sum_filter_of_zero s _ f hz, (ps.map f).sum_eq]
  simp only [fB, fS, funext fB, funext fS]
  rw [sumB (fun o => max 0 (weight x 1 fee o * (o.maxSell / x * (1 - fee.value)))) (by
      intro o ho hn
      have h1 := weight_nonpos one_pos hf (hb o ho).1 (of_decide_eq_false hn)
      have h2 : 0 ≤ o.maxSell / x * (1 - fee.value) := by have := (hb o ho).2; positivity
      exact max_eq_left (mul_nonpos_of_nonpos_of_nonneg h1 h2)),
    sumS (fun o => max 0 (weight (1 / x) (1 / x) fee o * (o.maxSell / (1 / x) * (1 - fee.value)))) (by
      intro o ho hn
      have h1 := weight_nonpos (one_div_pos.2 hx) hf (hs o ho).1 (of_decide_eq_false hn)
      have h2 : 0 ≤ o.maxSell / (1 / x) * (1 - fee.value) := by have := (hs o ho).2; positivity
      exact max_eq_left (mul_nonpos_of_nonpos_of_nonneg h1 h2)),
    sumB (fun o => weight x 1 fee o * fillAmount (EligibleB cfg x fee) (maxBuyB x fee) b (t * ((1 - fee.value) / x)) o) (by
      intro o _ hn; rw [zB o hn, mul_zero]),
    sumS (fun o => weight (1 / x) (1 / x) fee o * fillAmount (EligibleS cfg x fee) (maxBuyS x fee) s t o) (by
      intro o _ hn; rw [zS o hn, mul_zero]),
    sumB (fillAmount (EligibleB cfg x fee) (maxBuyB x fee) b (t * ((1 - fee.value) / x))) (fun o _ hn => zB o hn),
    sumS (fillAmount (EligibleS cfg x fee) (maxBuyS x fee) s t) (fun o _ hn => zS o hn)]

end Dex
