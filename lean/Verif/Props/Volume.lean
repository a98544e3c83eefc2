import Verif.Props.Optimal

/-! # C58: the volume executed at a given rate is the greatest admissible one -/

namespace Dex

open Spec

/-- `u` units of the s-token can be exchanged by greedy fills of both sides: both sides are large enough, at most `maxNr`
orders are executed, and no executed order buys or sells less than the minimum tradable amount. -/
structure Admissible (cfg : Config) (x : ℚ) (fee : Fee) (maxNr : ℤ) (b s : List Order) (u : ℚ) : Prop where
  nonneg : 0 ≤ u
  fitB : u * ((1 - fee.value) / x) ≤ ((b.filter (fun o => decide (EligibleB cfg x fee o))).map (maxBuyB x fee)).sum
  fitS : u ≤ ((s.filter (fun o => decide (EligibleS cfg x fee o))).map (maxBuyS x fee)).sum
  count : ((b.filter (fun o => decide
      (0 < fillAmount (EligibleB cfg x fee) (maxBuyB x fee) b (u * ((1 - fee.value) / x)) o))).length +
    (s.filter (fun o => decide (0 < fillAmount (EligibleS cfg x fee) (maxBuyS x fee) s u o))).length : ℤ) ≤ maxNr
  minB : ∀ o ∈ b, ∀ q, q = fillAmount (EligibleB cfg x fee) (maxBuyB x fee) b (u * ((1 - fee.value) / x)) o → 0 < q →
    (cfg.minRationalTradable : ℚ) ≤ q ∧ (cfg.minRationalTradable : ℚ) ≤ q * x / (1 - fee.value)
  minS : ∀ o ∈ s, ∀ q, q = fillAmount (EligibleS cfg x fee) (maxBuyS x fee) s u o → 0 < q →
    (cfg.minRationalTradable : ℚ) ≤ q ∧ (cfg.minRationalTradable : ℚ) ≤ q / x / (1 - fee.value)

private theorem count_fill {cap : Order → ℚ} {elig : Order → Prop} [DecidablePred elig] {orig L : List Order} {t : ℚ} {i : ℤ}
    (hcap : ∀ (o : Order) (v : ℚ), cap (o.withBuy v) = cap o)
    (hel : ∀ (o : Order) (v : ℚ), elig (o.withBuy v) ↔ elig o)
    (hpos : ∀ o ∈ L, 0 < cap o)
    (hperm : L.Perm ((orig.map Order.clearBuy).filter (fun o => decide (elig o))))
    (hsort : L.Pairwise (fun a b => ¬ Before b a)) (hn : (orig.map (·.id)).Nodup) (hlast : LastIdx cap L t i) :
    ((orig.filter (fun o => decide (0 < fillAmount elig cap orig t o))).length : ℤ) = i + 1 := by
  have hres : (writeBack (orig.map Order.clearBuy) (fillOrders cap t L)).Perm
      (fillOrders cap t L ++ (orig.map Order.clearBuy).filter (fun o => !decide (elig o))) :=
    writeBack_filter_perm (p := fun o => decide (elig o)) (by rw [clearBuy_ids]; exact hn) hperm (fillOrders_ids _ _ _)
  have h := side_count hpos hres hlast
  rw [writeBack_fill_eq hcap hel hperm hsort hn] at h
  rw [← h]
  unfold countNrExec
  rw [List.countP_map, List.countP_eq_length_filter]
  rfl

/-- C58. The amount of s-token exchanged is admissible, and no larger amount is. -/
theorem C58_greatest_volume {cfg : Config} {x : ℚ} {fee : Fee} {maxNr : ℤ} {b s b' s' : List Order}
    (h : ExecInput cfg x fee maxNr b s) (hr : computeBuyAmounts cfg x b s fee maxNr = .ok (b', s')) :
    Admissible cfg x fee maxNr b s ((s'.map (·.buy)).sum) ∧
      ∀ u, Admissible cfg x fee maxNr b s u → u ≤ (s'.map (·.buy)).sum := by
  obtain ⟨c1, c2⟩ := C09_min_tradable h hr
  obtain ⟨b1, s1, B, S, i, j, t, h1, hs⟩ :=
    computeBuyAmounts_spec cfg h.minPos h.ratePos h.feeLt h.limit h.idsB h.idsS
  rw [hr] at h1; cases h1
  have hρ := ratio_pos h.ratePos h.feeLt
  rw [side_sum hs.posS hs.resS hs.lastS]
  obtain ⟨eb, _⟩ := elig_sum (cap := capB x fee) (elig := EligibleB cfg x fee) (capB_withBuy x fee)
    (fun _ _ => Iff.rfl) hs.permB
  obtain ⟨es, _⟩ := elig_sum (cap := capS x fee) (elig := EligibleS cfg x fee) (capS_withBuy x fee)
    (fun _ _ => Iff.rfl) hs.permS
  have eqB := hs.eqB.trans (writeBack_fill_eq (capB_withBuy x fee) (fun _ _ => Iff.rfl) hs.permB hs.sortB h.idsB)
  have eqS := hs.eqS.trans (writeBack_fill_eq (capS_withBuy x fee) (fun _ _ => Iff.rfl) hs.permS hs.sortS h.idsS)
  have cB : ∀ {u : ℚ} {a : ℤ}, LastIdx (capB x fee) B (u * ratio x fee) a →
      ((b.filter (fun o => decide
        (0 < fillAmount (EligibleB cfg x fee) (maxBuyB x fee) b (u * ((1 - fee.value) / x)) o))).length : ℤ) = a + 1 :=
    fun ha => count_fill (capB_withBuy x fee) (fun _ _ => Iff.rfl) hs.posB hs.permB hs.sortB h.idsB ha
  have cS : ∀ {u : ℚ} {a : ℤ}, LastIdx (capS x fee) S u a →
      ((s.filter (fun o => decide (0 < fillAmount (EligibleS cfg x fee) (maxBuyS x fee) s u o))).length : ℤ) = a + 1 :=
    fun ha => count_fill (capS_withBuy x fee) (fun _ _ => Iff.rfl) hs.posS hs.permS hs.sortS h.idsS ha
  constructor
  · refine ⟨hs.lastS.2.2.1, ?_, ?_, ?_, ?_, ?_⟩
    · have := hs.lastB.le_preCap hs.posB hs.lastB.2.1
      rw [eb] at this; exact this
    · have := hs.lastS.le_preCap hs.posS hs.lastS.2.1
      rw [es] at this; exact this
    · have h2 := hs.count
      rw [cB hs.lastB, cS hs.lastS]; linarith
    · rintro o ho q rfl hq
      exact c1 (o.withBuy _) (by rw [eqB]; exact List.mem_map.2 ⟨o, ho, rfl⟩) hq
    · rintro o ho q rfl hq
      exact c2 (o.withBuy _) (by rw [eqS]; exact List.mem_map.2 ⟨o, ho, rfl⟩) hq
  · intro u hu
    have ub : u * ratio x fee ≤ preCap (capB x fee) B B.length := by rw [eb]; exact hu.fitB
    have us : u ≤ preCap (capS x fee) S S.length := by rw [es]; exact hu.fitS
    obtain ⟨a, ha⟩ := exists_lastIdx (mul_nonneg hu.nonneg hρ.le) ub
    obtain ⟨c, hc⟩ := exists_lastIdx hu.nonneg us
    refine hs.greatest u a c ha hc ?_ (lastOk_of_min hρ hs.permB hs.permS hs.sortB hs.sortS hs.posB hs.posS h.idsB h.idsS
      hu.nonneg ub us hu.minB hu.minS)
    have h1 := hu.count
    rw [cB ha, cS hc] at h1
    linarith

/-- C58. The computed amounts are determined completely: they are the greedy fills at the greatest admissible volume. -/
theorem C58_determined {cfg : Config} {x : ℚ} {fee : Fee} {maxNr : ℤ} {b s : List Order}
    (h : ExecInput cfg x fee maxNr b s) {t : ℚ} (ht : Admissible cfg x fee maxNr b s t)
    (hmax : ∀ u, Admissible cfg x fee maxNr b s u → u ≤ t) :
    computeBuyAmounts cfg x b s fee maxNr = .ok
      (b.map (fun o => o.withBuy (fillAmount (EligibleB cfg x fee) (maxBuyB x fee) b (t * ((1 - fee.value) / x)) o)),
        s.map (fun o => o.withBuy (fillAmount (EligibleS cfg x fee) (maxBuyS x fee) s t o))) := by
  obtain ⟨⟨b', s'⟩, hr⟩ := C05_no_exception h
  obtain ⟨g1, g2⟩ := C58_greatest_volume h hr
  obtain ⟨t', _, h2, h3, h4⟩ := C11_closed_form h hr
  rw [h2] at g1 g2
  have : t' = t := le_antisymm (hmax _ g1) (g2 _ ht)
  subst this
  rw [hr, h3, h4]

/-- C58. Something is executed exactly if a positive volume is admissible. -/
theorem C58_executes_iff {cfg : Config} {x : ℚ} {fee : Fee} {maxNr : ℤ} {b s b' s' : List Order}
    (h : ExecInput cfg x fee maxNr b s) (hr : computeBuyAmounts cfg x b s fee maxNr = .ok (b', s')) :
    (∃ o ∈ s', 0 < o.buy) ↔ ∃ u, 0 < u ∧ Admissible cfg x fee maxNr b s u := by
  obtain ⟨g1, g2⟩ := C58_greatest_volume h hr
  have hnn := (C08_max_sell h hr).2
  constructor
  · rintro ⟨o, ho, hp⟩
    refine ⟨_, ?_, g1⟩
    have : o.buy ≤ (s'.map (·.buy)).sum := by
      apply List.single_le_sum _ _ (List.mem_map.2 ⟨o, ho, rfl⟩)
      intro y hy
      obtain ⟨c, hc, rfl⟩ := List.mem_map.1 hy
      exact (hnn c hc).1
    linarith
  · rintro ⟨u, hu, ha⟩
    have := g2 u ha
    by_contra hc
    push Not at hc
    have : (s'.map (·.buy)).sum = 0 := by
      apply List.sum_eq_zero
      intro y hy
      obtain ⟨c, hc', rfl⟩ := List.mem_map.1 hy
      exact le_antisymm (hc c hc') (hnn c hc').1
    linarith

/-- C58. Among all admissible volumes filled greedily, the one executed has the largest objective value, also when the
order-count limit or the minimum tradable amount binds. -/
theorem C58_best_greedy_fill {cfg : Config} {x p : ℚ} {fee : Fee} {maxNr : ℤ} {b s b' s' : List Order}
    (h : ExecInput cfg x fee maxNr b s) (hfee : 0 ≤ fee.value) (hp : 0 < p) (hfp : 0 < cfg.feeTokenPrice)
    (hb : ∀ o ∈ b, 0 < o.maxXrate) (hs : ∀ o ∈ s, 0 < o.maxXrate)
    (hr : computeBuyAmounts cfg x b s fee maxNr = .ok (b', s')) (v w : String → ℚ)
    (ha : Assignment cfg x fee b s v w) {u : ℚ} (hu : Admissible cfg x fee maxNr b s u)
    (hw : (s.map (fun o => w o.id)).sum ≤ u) :
    ∃ ours theirs : ℚ, computeObjectiveRational cfg b' s' [] x p fee = .ok ours ∧
      computeObjectiveRational cfg (b.map (fun o => o.withBuy (v o.id))) (s.map (fun o => o.withBuy (w o.id))) [] x p fee
        = .ok theirs ∧ theirs ≤ ours :=
  C12_optimal_at_volume h hfee hp hfp hb hs hr v w ha (hw.trans ((C58_greatest_volume h hr).2 u hu))

/-! ### Non-vacuity -/

instance (cfg : Config) (x : ℚ) (fee : Fee) (maxNr : ℤ) (b s : List Order) (u : ℚ) :
    Decidable (Admissible cfg x fee maxNr b s u) :=
  decidable_of_iff (0 ≤ u ∧
    u * ((1 - fee.value) / x) ≤ ((b.filter (fun o => decide (EligibleB cfg x fee o))).map (maxBuyB x fee)).sum ∧
    u ≤ ((s.filter (fun o => decide (EligibleS cfg x fee o))).map (maxBuyS x fee)).sum ∧
    ((b.filter (fun o => decide
      (0 < fillAmount (EligibleB cfg x fee) (maxBuyB x fee) b (u * ((1 - fee.value) / x)) o))).length +
    (s.filter (fun o => decide (0 < fillAmount (EligibleS cfg x fee) (maxBuyS x fee) s u o))).length : ℤ) ≤ maxNr ∧
    (∀ o ∈ b, 0 < fillAmount (EligibleB cfg x fee) (maxBuyB x fee) b (u * ((1 - fee.value) / x)) o →
    (cfg.minRationalTradable : ℚ) ≤ fillAmount (EligibleB cfg x fee) (maxBuyB x fee) b (u * ((1 - fee.value) / x)) o ∧
    (cfg.minRationalTradable : ℚ) ≤
      fillAmount (EligibleB cfg x fee) (maxBuyB x fee) b (u * ((1 - fee.value) / x)) o * x / (1 - fee.value)) ∧
    (∀ o ∈ s, 0 < fillAmount (EligibleS cfg x fee) (maxBuyS x fee) s u o →
    (cfg.minRationalTradable : ℚ) ≤ fillAmount (EligibleS cfg x fee) (maxBuyS x fee) s u o ∧
    (cfg.minRationalTradable : ℚ) ≤ fillAmount (EligibleS cfg x fee) (maxBuyS x fee) s u o / x / (1 - fee.value)))
    ⟨fun ⟨h1, h2, h3, h4, h5, h6⟩ => ⟨h1, h2, h3, h4, fun o ho _ e hq => by subst e; exact h5 o ho hq,
      fun o ho _ e hq => by subst e; exact h6 o ho hq⟩,
    fun h => ⟨h.1, h.2, h.3, h.4, fun o ho hq => h.5 o ho _ rfl hq, fun o ho hq => h.6 o ho _ rfl hq⟩⟩

/-- In the book of `Props/Amount.lean`, both s_orders can be filled if four orders may be executed. -/
example : ExecInput Config.default 1 Ex.fee 30 Ex.bs Ex.ss ∧ Admissible Config.default 1 Ex.fee 30 Ex.bs Ex.ss 119880 :=
  ⟨⟨by decide, by decide +kernel, by decide +kernel, by decide, by decide +kernel, by decide +kernel⟩, by decide +kernel⟩

/-- With a limit of three orders this volume is no longer admissible, a smaller positive one is. -/
example : ¬ Admissible Config.default 1 Ex.fee 3 Ex.bs Ex.ss 119880 ∧ Admissible Config.default 1 Ex.fee 3 Ex.bs Ex.ss 70000 := by
  constructor <;> decide +kernel

/-- The minimum tradable amount can exclude a volume below an admissible one, so the set of admissible volumes is no
interval. -/
example : Admissible Config.default 1 Ex.fee 30 Ex.bs Ex.ss 59940 ∧ ¬ Admissible Config.default 1 Ex.fee 30 Ex.bs Ex.ss 59941 ∧
    Admissible Config.default 1 Ex.fee 30 Ex.bs Ex.ss 119880 := by
  refine ⟨?_, ?_, ?_⟩ <;> decide +kernel

end Dex
