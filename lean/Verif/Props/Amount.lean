import Verif.Proof.Side

/-! # Properties C05–C11, C13: executing orders at a given rate (`compute_buy_amounts`) -/

namespace Dex

open Spec

/-- Inputs for which the rate-execution properties are claimed. -/
structure ExecInput (cfg : Config) (x : ℚ) (fee : Fee) (maxNr : ℤ) (b s : List Order) : Prop where
  minPos : 0 < cfg.minRationalTradable
  ratePos : 0 < x
  feeLt : fee.value < 1
  limit : 0 ≤ maxNr
  idsB : (b.map (·.id)).Nodup
  idsS : (s.map (·.id)).Nodup

/-- C05. Computing buy amounts terminates and raises nothing. -/
theorem C05_no_exception {cfg : Config} {x : ℚ} {fee : Fee} {maxNr : ℤ} {b s : List Order}
    (h : ExecInput cfg x fee maxNr b s) : ∃ r, computeBuyAmounts cfg x b s fee maxNr = .ok r := by
  obtain ⟨b', s', _, _, _, _, _, h1, _⟩ :=
    computeBuyAmounts_spec cfg h.minPos h.ratePos h.feeLt h.limit h.idsB h.idsS
  exact ⟨_, h1⟩

private theorem specOf {cfg : Config} {x : ℚ} {fee : Fee} {maxNr : ℤ} {b s b' s' : List Order}
    (h : ExecInput cfg x fee maxNr b s) (hr : computeBuyAmounts cfg x b s fee maxNr = .ok (b', s')) :
    ∃ B S i j t, BuySpec cfg x fee maxNr b s b' s' B S i j t := by
  obtain ⟨b1, s1, B, S, i, j, t, h1, h2⟩ :=
    computeBuyAmounts_spec cfg h.minPos h.ratePos h.feeLt h.limit h.idsB h.idsS
  rw [hr] at h1
  cases h1
  exact ⟨B, S, i, j, t, h2⟩

/-- C06. The pair is balanced exactly. -/
theorem C06_balanced {cfg : Config} {x : ℚ} {fee : Fee} {maxNr : ℤ} {b s b' s' : List Order}
    (h : ExecInput cfg x fee maxNr b s) (hr : computeBuyAmounts cfg x b s fee maxNr = .ok (b', s')) :
    (b'.map (·.buy)).sum * x = (s'.map (·.buy)).sum * (1 - fee.value) ∧
    (b'.map (soldB x fee)).sum = (s'.map (·.buy)).sum := by
  obtain ⟨B, S, i, j, t, hs⟩ := specOf h hr
  have hφ : 1 - fee.value ≠ 0 := by have := h.feeLt; linarith
  have hx := h.ratePos
  have h1 := side_sum hs.posB hs.resB hs.lastB
  have h2 := side_sum hs.posS hs.resS hs.lastS
  have h3 : (b'.map (soldB x fee)).sum = (b'.map (·.buy)).sum * (x / (1 - fee.value)) := by
    rw [← sum_map_mul_right']
    congr 1
    apply List.map_congr_left
    intro o _
    unfold soldB; ring
  rw [h3, h1, h2]
  unfold ratio
  constructor <;> field_simp

/-- C07. Executed orders accept the rate; what they pay is within their limit. -/
theorem C07_limit_rates {cfg : Config} {x : ℚ} {fee : Fee} {maxNr : ℤ} {b s b' s' : List Order}
    (h : ExecInput cfg x fee maxNr b s) (hr : computeBuyAmounts cfg x b s fee maxNr = .ok (b', s')) :
    (∀ o ∈ b', 0 < o.buy → x ≤ o.maxXrate * (1 - fee.value) ∧ soldB x fee o ≤ o.maxXrate * o.buy) ∧
    (∀ o ∈ s', 0 < o.buy → 1 / x ≤ o.maxXrate * (1 - fee.value) ∧ soldS x fee o ≤ o.maxXrate * o.buy) := by
  obtain ⟨B, S, i, j, t, hs⟩ := specOf h hr
  have hφ : 0 < 1 - fee.value := by have := h.feeLt; linarith
  constructor
  · intro o ho hpos
    have hx : x ≤ o.maxXrate * (1 - fee.value) := by
      rcases side_cases hs.posB hs.permB hs.resB hs.lastB ho with ⟨k, a, _, hel, he, _⟩ | ⟨hz, _⟩
      · rw [he]; exact hel.1
      · rw [hz] at hpos; exact absurd hpos (lt_irrefl _)
    refine ⟨hx, ?_⟩
    unfold soldB
    rw [div_le_iff₀ hφ]
    have := mul_le_mul_of_nonneg_left hx hpos.le
    linarith
  · intro o ho hpos
    have hx : 1 / x ≤ o.maxXrate * (1 - fee.value) := by
      rcases side_cases hs.posS hs.permS hs.resS hs.lastS ho with ⟨k, a, _, hel, he, _⟩ | ⟨hz, _⟩
      · rw [he]; exact hel.1
      · rw [hz] at hpos; exact absurd hpos (lt_irrefl _)
    refine ⟨hx, ?_⟩
    unfold soldS
    rw [div_le_iff₀ hφ]
    have := mul_le_mul_of_nonneg_left hx hpos.le
    rw [mul_one_div] at this
    linarith

theorem soldB_le_of_le_capB {x : ℚ} {fee : Fee} (hx : 0 < x) (hf : fee.value < 1) {o : Order}
    (h : o.buy ≤ capB x fee o) : soldB x fee o ≤ o.maxSell := by
  have hφ : 0 < 1 - fee.value := by linarith
  unfold capB at h
  unfold soldB
  rw [div_le_iff₀ hφ]
  have := mul_le_mul_of_nonneg_right h hx.le
  have e : o.maxSell / x * (1 - fee.value) * x = o.maxSell * (1 - fee.value) := by field_simp
  linarith

theorem soldS_le_of_le_capS {x : ℚ} {fee : Fee} (hx : 0 < x) (hf : fee.value < 1) {o : Order}
    (h : o.buy ≤ capS x fee o) : soldS x fee o ≤ o.maxSell := by
  have hφ : 0 < 1 - fee.value := by linarith
  unfold capS at h
  unfold soldS
  rw [div_le_iff₀ hφ, div_le_iff₀ hx]
  linarith

theorem soldB_of_eq_capB {x : ℚ} {fee : Fee} (hx : 0 < x) (hf : fee.value < 1) {o : Order}
    (h : o.buy = capB x fee o) : soldB x fee o = o.maxSell := by
  have hφ : 1 - fee.value ≠ 0 := by linarith
  have := hx.ne'
  unfold soldB; rw [h]; unfold capB; field_simp

theorem soldS_of_eq_capS {x : ℚ} {fee : Fee} (hx : 0 < x) (hf : fee.value < 1) {o : Order}
    (h : o.buy = capS x fee o) : soldS x fee o = o.maxSell := by
  have hφ : 1 - fee.value ≠ 0 := by linarith
  have := hx.ne'
  unfold soldS; rw [h]; unfold capS; field_simp

/-- C08. Amounts are non-negative and within maximum sell amounts. -/
theorem C08_max_sell {cfg : Config} {x : ℚ} {fee : Fee} {maxNr : ℤ} {b s b' s' : List Order}
    (h : ExecInput cfg x fee maxNr b s) (hr : computeBuyAmounts cfg x b s fee maxNr = .ok (b', s')) :
    (∀ o ∈ b', 0 ≤ o.buy ∧ (0 < o.buy → soldB x fee o ≤ o.maxSell)) ∧
    (∀ o ∈ s', 0 ≤ o.buy ∧ (0 < o.buy → soldS x fee o ≤ o.maxSell)) := by
  obtain ⟨B, S, i, j, t, hs⟩ := specOf h hr
  constructor
  · intro o ho
    rcases side_cases hs.posB hs.permB hs.resB hs.lastB ho with ⟨k, a, hk, hel, he, hc⟩ | ⟨hz, _⟩
    · have hcap : capB x fee o = capB x fee a := by rw [he, capB_withBuy]
      have hca := hs.posB a (List.mem_of_getElem? hk)
      rcases hc with ⟨_, h1⟩ | ⟨_, _, h1, h2⟩ | ⟨_, h1⟩
      · exact ⟨by linarith, fun _ => soldB_le_of_le_capB h.ratePos h.feeLt (by linarith)⟩
      · exact ⟨by linarith, fun _ => soldB_le_of_le_capB h.ratePos h.feeLt (by linarith)⟩
      · exact ⟨h1.ge, fun hp => by rw [h1] at hp; exact absurd hp (lt_irrefl _)⟩
    · exact ⟨hz.ge, fun hp => by rw [hz] at hp; exact absurd hp (lt_irrefl _)⟩
  · intro o ho
    rcases side_cases hs.posS hs.permS hs.resS hs.lastS ho with ⟨k, a, hk, hel, he, hc⟩ | ⟨hz, _⟩
    · have hcap : capS x fee o = capS x fee a := by rw [he, capS_withBuy]
      have hca := hs.posS a (List.mem_of_getElem? hk)
      rcases hc with ⟨_, h1⟩ | ⟨_, _, h1, h2⟩ | ⟨_, h1⟩
      · exact ⟨by linarith, fun _ => soldS_le_of_le_capS h.ratePos h.feeLt (by linarith)⟩
      · exact ⟨by linarith, fun _ => soldS_le_of_le_capS h.ratePos h.feeLt (by linarith)⟩
      · exact ⟨h1.ge, fun hp => by rw [h1] at hp; exact absurd hp (lt_irrefl _)⟩
    · exact ⟨hz.ge, fun hp => by rw [hz] at hp; exact absurd hp (lt_irrefl _)⟩

/-- C09. Executed orders buy and sell at least the minimum tradable amount. -/
theorem C09_min_tradable {cfg : Config} {x : ℚ} {fee : Fee} {maxNr : ℤ} {b s b' s' : List Order}
    (h : ExecInput cfg x fee maxNr b s) (hr : computeBuyAmounts cfg x b s fee maxNr = .ok (b', s')) :
    (∀ o ∈ b', 0 < o.buy → (cfg.minRationalTradable : ℚ) ≤ o.buy ∧ (cfg.minRationalTradable : ℚ) ≤ soldB x fee o) ∧
    (∀ o ∈ s', 0 < o.buy → (cfg.minRationalTradable : ℚ) ≤ o.buy ∧ (cfg.minRationalTradable : ℚ) ≤ soldS x fee o) := by
  obtain ⟨B, S, i, j, t, hs⟩ := specOf h hr
  constructor
  · intro o ho hpos
    rcases side_cases hs.posB hs.permB hs.resB hs.lastB ho with ⟨k, a, hk, hel, he, hc⟩ | ⟨hz, _⟩
    · have hcap : capB x fee o = capB x fee a := by rw [he, capB_withBuy]
      have hms : o.maxSell = a.maxSell := by rw [he]; rfl
      rcases hc with ⟨_, h1⟩ | ⟨hki, h1, h2, _⟩ | ⟨_, h1⟩
      · refine ⟨by rw [h1]; exact hel.2.2, ?_⟩
        rw [soldB_of_eq_capB h.ratePos h.feeLt (h1.trans hcap.symm), hms]; exact hel.2.1
      · rcases hs.ok with hz | ⟨k', l', hk', _, m1, m2, _⟩
        · have := preCap_nonneg (cap := capB x fee) hs.posB k
          rw [hz, zero_mul] at h1; linarith
        · have hlast := hs.lastB
          rw [← hki] at hlast
          rw [← hlast.unique hs.posB hk', ← h1] at m1 m2
          exact ⟨m1, m2⟩
      · rw [h1] at hpos; exact absurd hpos (lt_irrefl _)
    · rw [hz] at hpos; exact absurd hpos (lt_irrefl _)
  · intro o ho hpos
    rcases side_cases hs.posS hs.permS hs.resS hs.lastS ho with ⟨k, a, hk, hel, he, hc⟩ | ⟨hz, _⟩
    · have hcap : capS x fee o = capS x fee a := by rw [he, capS_withBuy]
      have hms : o.maxSell = a.maxSell := by rw [he]; rfl
      rcases hc with ⟨_, h1⟩ | ⟨hki, h1, h2, _⟩ | ⟨_, h1⟩
      · refine ⟨by rw [h1]; exact hel.2.2, ?_⟩
        rw [soldS_of_eq_capS h.ratePos h.feeLt (h1.trans hcap.symm), hms]; exact hel.2.1
      · rcases hs.ok with hz | ⟨k', l', _, hl', _, _, m1, m2⟩
        · have := preCap_nonneg (cap := capS x fee) hs.posS k
          rw [hz] at h1; linarith
        · have hlast := hs.lastS
          rw [← hki] at hlast
          rw [← hlast.unique hs.posS hl', ← h1] at m1 m2
          exact ⟨m1, m2⟩
      · rw [h1] at hpos; exact absurd hpos (lt_irrefl _)
    · rw [hz] at hpos; exact absurd hpos (lt_irrefl _)

/-- C10. At most `maxNr` orders are executed. -/
theorem C10_order_count {cfg : Config} {x : ℚ} {fee : Fee} {maxNr : ℤ} {b s b' s' : List Order}
    (h : ExecInput cfg x fee maxNr b s) (hr : computeBuyAmounts cfg x b s fee maxNr = .ok (b', s')) :
    (((b' ++ s').filter (fun o => decide (0 < o.buy))).length : ℤ) ≤ maxNr := by
  obtain ⟨B, S, i, j, t, hs⟩ := specOf h hr
  have h1 := side_count hs.posB hs.resB hs.lastB
  have h2 := side_count hs.posS hs.resS hs.lastS
  have h3 := hs.count
  unfold countNrExec at h1 h2
  rw [List.countP_eq_length_filter] at h1 h2
  rw [List.filter_append, List.length_append]
  push_cast
  linarith

/-- C11. If an order is executed, every eligible order before it is executed in full. -/
theorem C11_priority {cfg : Config} {x : ℚ} {fee : Fee} {maxNr : ℤ} {b s b' s' : List Order}
    (h : ExecInput cfg x fee maxNr b s) (hr : computeBuyAmounts cfg x b s fee maxNr = .ok (b', s')) :
    (∀ a ∈ b', ∀ o ∈ b', EligibleB cfg x fee a → Before a o → 0 < o.buy → soldB x fee a = a.maxSell) ∧
    (∀ a ∈ s', ∀ o ∈ s', EligibleS cfg x fee a → Before a o → 0 < o.buy → soldS x fee a = a.maxSell) := by
  obtain ⟨B, S, i, j, t, hs⟩ := specOf h hr
  constructor
  · intro a ha o ho hel hb hex
    exact soldB_of_eq_capB h.ratePos h.feeLt
      (side_priority (capB_withBuy x fee) hs.posB hs.permB hs.resB hs.sortB hs.lastB ha ho hel hb hex)
  · intro a ha o ho hel hb hex
    exact soldS_of_eq_capS h.ratePos h.feeLt
      (side_priority (capS_withBuy x fee) hs.posS hs.permS hs.resS hs.sortS hs.lastS ha ho hel hb hex)

/-- C13a. Nothing but buy amounts changes, position by position. -/
theorem C13_only_buy_changes {cfg : Config} {x : ℚ} {fee : Fee} {maxNr : ℤ} {b s b' s' : List Order}
    (h : ExecInput cfg x fee maxNr b s) (hr : computeBuyAmounts cfg x b s fee maxNr = .ok (b', s')) :
    List.Forall₂ SameButBuy b b' ∧ List.Forall₂ SameButBuy s s' := by
  obtain ⟨B, S, i, j, t, hs⟩ := specOf h hr
  constructor
  · rw [hs.eqB]
    exact writeBack_fill_static h.idsB (fun o ho => (List.mem_filter.1 (hs.permB.mem_iff.1 ho)).1)
  · rw [hs.eqS]
    exact writeBack_fill_static h.idsS (fun o ho => (List.mem_filter.1 (hs.permS.mem_iff.1 ho)).1)

private theorem map_clearBuy_of_same {a b : List Order} (h : List.Forall₂ SameButBuy a b) :
    b.map Order.clearBuy = a.map Order.clearBuy := by
  induction h with
  | nil => rfl
  | cons h1 _ ih => simp only [List.map_cons, ih]; rw [h1]; rfl

/-- C13b. Leftover buy amounts do not matter (for every input, also ill-formed ones). -/
theorem C13_stale_amounts_ignored (cfg : Config) (x : ℚ) (fee : Fee) (maxNr : ℤ) {b s b2 s2 : List Order}
    (hb : List.Forall₂ SameButBuy b b2) (hs : List.Forall₂ SameButBuy s s2) :
    computeBuyAmounts cfg x b2 s2 fee maxNr = computeBuyAmounts cfg x b s fee maxNr := by
  unfold computeBuyAmounts
  rw [map_clearBuy_of_same hb, map_clearBuy_of_same hs]

/-- C13c. Running twice is running once. -/
theorem C13_idempotent {cfg : Config} {x : ℚ} {fee : Fee} {maxNr : ℤ} {b s b' s' : List Order}
    (h : ExecInput cfg x fee maxNr b s) (hr : computeBuyAmounts cfg x b s fee maxNr = .ok (b', s')) :
    computeBuyAmounts cfg x b' s' fee maxNr = .ok (b', s') := by
  obtain ⟨h1, h2⟩ := C13_only_buy_changes h hr
  rw [C13_stale_amounts_ignored cfg x fee maxNr h1 h2, hr]

/-- C11 (consequence). On each side at most one executed order is not filled completely. -/
theorem C11_one_partial {cfg : Config} {x : ℚ} {fee : Fee} {maxNr : ℤ} {b s b' s' : List Order}
    (h : ExecInput cfg x fee maxNr b s) (hr : computeBuyAmounts cfg x b s fee maxNr = .ok (b', s')) :
    (∀ a ∈ b', ∀ o ∈ b', 0 < a.buy → 0 < o.buy → soldB x fee a ≠ a.maxSell → soldB x fee o ≠ o.maxSell → a = o) ∧
    (∀ a ∈ s', ∀ o ∈ s', 0 < a.buy → 0 < o.buy → soldS x fee a ≠ a.maxSell → soldS x fee o ≠ o.maxSell → a = o) := by
  obtain ⟨c1, c2⟩ := C11_priority h hr
  obtain ⟨e1, e2⟩ := C13_only_buy_changes h hr
  obtain ⟨B, S, i, j, t, hs⟩ := specOf h hr
  have ids : ∀ {u v : List Order}, List.Forall₂ SameButBuy u v → v.map (·.id) = u.map (·.id) := by
    intro u v huv
    induction huv with
    | nil => rfl
    | cons h1 _ ih => simp only [List.map_cons, ih]; rw [h1]
  have nb : (b'.map (·.id)).Nodup := by rw [ids e1]; exact h.idsB
  have ns : (s'.map (·.id)).Nodup := by rw [ids e2]; exact h.idsS
  constructor
  · intro a ha o ho pa po na no
    by_contra hne
    have hel : ∀ o ∈ b', 0 < o.buy → EligibleB cfg x fee o := by
      intro o ho hp
      rcases side_cases hs.posB hs.permB hs.resB hs.lastB ho with ⟨k, a, _, hel, he, _⟩ | ⟨hz, _⟩
      · rw [he]; exact hel
      · rw [hz] at hp; exact absurd hp (lt_irrefl _)
    rcases Before.total (fun hid => hne (nodup_ids_inj nb ha ho hid)) with hb | hb
    · exact na (c1 a ha o ho (hel a ha pa) hb po)
    · exact no (c1 o ho a ha (hel o ho po) hb pa)
  · intro a ha o ho pa po na no
    by_contra hne
    have hel : ∀ o ∈ s', 0 < o.buy → EligibleS cfg x fee o := by
      intro o ho hp
      rcases side_cases hs.posS hs.permS hs.resS hs.lastS ho with ⟨k, a, _, hel, he, _⟩ | ⟨hz, _⟩
      · rw [he]; exact hel
      · rw [hz] at hp; exact absurd hp (lt_irrefl _)
    rcases Before.total (fun hid => hne (nodup_ids_inj ns ha ho hid)) with hb | hb
    · exact na (c2 a ha o ho (hel a ha pa) hb po)
    · exact no (c2 o ho a ha (hel o ho po) hb pa)

/-! ### Non-vacuity: a book with two orders per side where one order is partially filled -/

namespace Ex
def fee : Fee := { token := "F", value := 1 / 1000 }
def b1 : Order := Order.mk' "B" "S" 100000 2 (some "a1") "0"
def b2 : Order := Order.mk' "B" "S" 50000 (3/2) (some "a2") "1"
def b3 : Order := Order.mk' "B" "S" 50000 (1/2) (some "a2") "4"
def s1 : Order := Order.mk' "S" "B" 60000 2 (some "a3") "2"
def s2 : Order := Order.mk' "S" "B" 60000 (3/2) (some "a4") "3"
def bs : List Order := [b2, b1, b3]
def ss : List Order := [s1, s2]
end Ex

/-- The hypotheses of C05–C13 are met by a non-trivial book, which is executed partially: `b1` is filled, `b2` has lower
priority and is partially filled, `b3` does not accept the rate. -/
example : ExecInput Config.default 1 Ex.fee 30 Ex.bs Ex.ss ∧
    ∃ r, computeBuyAmounts Config.default 1 Ex.bs Ex.ss Ex.fee 30 = .ok r ∧
      (∃ a ∈ r.1, ∃ o ∈ r.1, EligibleB Config.default 1 Ex.fee a ∧ Before a o ∧ 0 < o.buy ∧
        soldB 1 Ex.fee o ≠ o.maxSell) ∧ (∃ o ∈ r.2, 0 < o.buy) ∧ (∃ o ∈ r.1, o.buy = 0) := by
  refine ⟨⟨by decide, by decide +kernel, by decide +kernel, by decide, by decide +kernel, by decide +kernel⟩, ?_⟩
  exact exists_of_pyCheck (by decide +kernel)

/-- With an order limit of 3 the limit binds (four orders are executable). -/
example : ExecInput Config.default 1 Ex.fee 3 Ex.bs Ex.ss ∧
    ∃ r, computeBuyAmounts Config.default 1 Ex.bs Ex.ss Ex.fee 3 = .ok r ∧
      ((r.1 ++ r.2).filter (fun o => decide (0 < o.buy))).length = 3 := by
  refine ⟨⟨by decide, by decide +kernel, by decide +kernel, by decide, by decide +kernel, by decide +kernel⟩, ?_⟩
  exact exists_of_pyCheck (by decide +kernel)

end Dex
