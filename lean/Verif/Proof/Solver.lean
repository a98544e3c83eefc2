import Verif.Props.Price
import Verif.Props.Round
import Verif.Model.Solver

/-! # The matching step, from the rate search to rounding -/

namespace Dex

open Spec

/-! ### Relations between order lists -/

theorem sameButExec_refl (o : Order) : SameButExec o o := rfl

theorem sameButExec_of_buy {o o' : Order} (h : SameButBuy o o') : SameButExec o o' := by
  unfold SameButBuy at h
  unfold SameButExec
  rw [h]

theorem SameButExec.symm' {o o' : Order} (h : SameButExec o o') : SameButExec o' o := by
  unfold SameButExec at *
  rw [h]

theorem forall₂_and_mem {α β : Type} {R : α → β → Prop} {l : List α} {l' : List β} (h : List.Forall₂ R l l') :
    List.Forall₂ (fun a b => R a b ∧ a ∈ l ∧ b ∈ l') l l' := by
  induction h with
  | nil => exact .nil
  | cons h1 _ ih =>
    refine .cons ⟨h1, by simp, by simp⟩ (ih.imp ?_)
    rintro a b ⟨h1, h2, h3⟩
    exact ⟨h1, by simp [h2], by simp [h3]⟩

theorem forall₂_mem_r {α β : Type} {R : α → β → Prop} {l : List α} {l' : List β} (h : List.Forall₂ R l l') :
    ∀ b ∈ l', ∃ a ∈ l, R a b := by
  induction h with
  | nil => simp
  | cons h1 _ ih =>
    intro b hb
    rcases List.mem_cons.1 hb with rfl | hb
    · exact ⟨_, by simp, h1⟩
    · obtain ⟨a, ha, h⟩ := ih b hb
      exact ⟨a, by simp [ha], h⟩

theorem ids_of_same {l l' : List Order} (h : List.Forall₂ SameButExec l l') : l'.map (·.id) = l.map (·.id) :=
  forall₂_map_id (fun _ _ h => by rw [h]) h

/-! ### Executing at a rate -/

/-- The order trades exactly at rate `x` (price of its buy token over price of its sell token) within its constraints, with the solver's slack. -/
structure ExactAt (cfg : Config) (x : ℚ) (fee : Fee) (o : Order) : Prop where
  nonneg : 0 ≤ o.buy
  maxSell : 0 < o.buy → o.buy * x / (1 - fee.value) ≤ o.maxSell
  limit : 0 < o.buy → x ≤ o.maxXrate * (1 - fee.value)
  minBuy : 0 < o.buy → (cfg.minRationalTradable : ℚ) ≤ o.buy
  minSell : 0 < o.buy → (cfg.minRationalTradable : ℚ) ≤ o.buy * x / (1 - fee.value)

theorem ExactAt.of_zero {cfg : Config} {x : ℚ} {fee : Fee} {o : Order} (h : o.buy = 0) : ExactAt cfg x fee o := by
  refine ⟨h.ge, ?_, ?_, ?_, ?_⟩ <;> intro h' <;> rw [h] at h' <;> exact absurd h' (lt_irrefl _)

theorem ExactAt.raise {cfg : Config} {x : ℚ} {fee : Fee} {o o' : Order} (h : ExactAt cfg x fee o) (hb : o'.buy = o.buy) (hl : o'.maxXrate = o.maxXrate)
    (hm : o.maxSell ≤ o'.maxSell) : ExactAt cfg x fee o' := by
  refine ⟨?_, ?_, ?_, ?_, ?_⟩ <;> rw [hb]
  · exact h.nonneg
  · intro h0; exact (h.maxSell h0).trans hm
  · intro h0; rw [hl]; exact h.limit h0
  · exact h.minBuy
  · exact h.minSell

/-- Result of executing two lists at a rate. -/
structure PairExec (cfg : Config) (x : ℚ) (fee : Fee) (maxNr : ℤ) (b s b' s' : List Order) : Prop where
  sameB : List.Forall₂ SameButBuy b b'
  sameS : List.Forall₂ SameButBuy s s'
  exB : ∀ o ∈ b', ExactAt cfg x fee o
  exS : ∀ o ∈ s', ExactAt cfg (1 / x) fee o
  count : (countNrExec b' : ℤ) + countNrExec s' ≤ maxNr
  both : (∃ o ∈ b', 0 < o.buy) ↔ ∃ o ∈ s', 0 < o.buy

theorem sum_pos_iff {l : List Order} (h : ∀ o ∈ l, 0 ≤ o.buy) : 0 < (l.map (·.buy)).sum ↔ ∃ o ∈ l, 0 < o.buy := by
  induction l with
  | nil => simp
  | cons o l ih =>
    have h1 := h o (by simp)
    have h2 : 0 ≤ (l.map (·.buy)).sum := List.sum_nonneg (by
      intro x hx
      obtain ⟨a, ha, rfl⟩ := List.mem_map.1 hx
      exact h a (by simp [ha]))
    have ih := ih (fun a ha => h a (by simp [ha]))
    rw [List.map_cons, List.sum_cons]
    constructor
    · intro hp
      rcases h1.eq_or_lt with h0 | h0
      · rw [← h0, zero_add] at hp
        obtain ⟨a, ha, hpos⟩ := ih.1 hp
        exact ⟨a, by simp [ha], hpos⟩
      · exact ⟨o, by simp, h0⟩
    · rintro ⟨a, ha, hpos⟩
      rcases List.mem_cons.1 ha with rfl | ha
      · linarith
      · have := ih.2 ⟨a, ha, hpos⟩
        linarith

theorem computeBuyAmounts_exec {cfg : Config} {x : ℚ} {fee : Fee} {maxNr : ℤ} {b s b' s' : List Order}
    (h : ExecInput cfg x fee maxNr b s) (hr : computeBuyAmounts cfg x b s fee maxNr = .ok (b', s')) :
    PairExec cfg x fee maxNr b s b' s' := by
  obtain ⟨e1, e2⟩ := C13_only_buy_changes h hr
  obtain ⟨l1, l2⟩ := C07_limit_rates h hr
  obtain ⟨m1, m2⟩ := C08_max_sell h hr
  obtain ⟨t1, t2⟩ := C09_min_tradable h hr
  obtain ⟨bal, _⟩ := C06_balanced h hr
  have hc := C10_order_count h hr
  have hφ : 0 < 1 - fee.value := by have := h.feeLt; linarith
  have hx := h.ratePos
  have key : ∀ o : Order, soldS x fee o = o.buy * (1 / x) / (1 - fee.value) := by intro o; unfold soldS; ring
  refine ⟨e1, e2, ?_, ?_, ?_, ?_⟩
  · intro o ho
    exact ⟨(m1 o ho).1, (m1 o ho).2, fun h => (l1 o ho h).1, fun h => (t1 o ho h).1, fun h => (t1 o ho h).2⟩
  · intro o ho
    refine ⟨(m2 o ho).1, ?_, fun h => (l2 o ho h).1, fun h => (t2 o ho h).1, ?_⟩ <;> rw [← key]
    · exact (m2 o ho).2
    · exact fun h => (t2 o ho h).2
  · unfold countNrExec
    rw [List.countP_eq_length_filter, List.countP_eq_length_filter]
    rw [List.filter_append, List.length_append] at hc
    exact_mod_cast hc
  · rw [← sum_pos_iff (fun o ho => (m1 o ho).1), ← sum_pos_iff (fun o ho => (m2 o ho).1)]
    constructor
    · intro hp
      have : 0 < (s'.map (·.buy)).sum * (1 - fee.value) := by rw [← bal]; exact mul_pos hp hx
      exact (mul_pos_iff_of_pos_right hφ).1 this
    · intro hp
      have : 0 < (b'.map (·.buy)).sum * x := by rw [bal]; exact mul_pos hp hφ
      exact (mul_pos_iff_of_pos_right hx).1 this

/-- The price at which the rate is rounded in `solve_token_pair`. -/
def effPrice (cfg : Config) (pair : Token × Token) (fee : Fee) (bPrice : Option ℚ) : Option ℚ :=
  if pair.1 = fee.token then some (cfg.feeTokenPrice : ℚ) else bPrice

/-- `solve_token_pair`, if it returns a rate. -/
theorem solveTokenPair_spec {cfg : Config} {sqrt : ℚ → Py ℚ} {pair : Token × Token} {b s : List Order} {fee : Fee} {xrate bPrice : Option ℚ}
    {maxNr : ℤ} {r : Option ℚ} {b' s' : List Order} (h : SearchInput cfg fee b s) (hn : 0 ≤ maxNr) (hx : ∀ y, xrate = some y → 0 < y)
    (hp : ∀ p, bPrice = some p → 0 < p) (hr : solveTokenPair cfg sqrt pair b s fee xrate bPrice maxNr = .ok (r, b', s')) :
    (r = none ∧ b' = b ∧ s' = s ∧ (b = [] ∨ s = [])) ∨
    ∃ x x0, r = some x ∧ 0 < x ∧ 0 < x0 ∧ (∀ y, xrate = some y → x0 = y) ∧
      (xrate = none → ∃ v, findBestXrate cfg sqrt b s fee = .ok (some (x0, v))) ∧
      (effPrice cfg pair fee bPrice = none → x = x0) ∧
      (∀ p, effPrice cfg pair fee bPrice = some p → ∃ q : ℤ, computeSBuyTokenPrice p x0 b s fee = .ok q ∧ 1 ≤ q ∧ |(q : ℚ) - p / x0| < 1 ∧ x = p / q) ∧
      computeBuyAmounts cfg x b s fee maxNr = .ok (b', s') ∧ PairExec cfg x fee maxNr b s b' s' := by
  unfold solveTokenPair at hr
  by_cases he : b.length = 0 ∨ s.length = 0
  · rw [if_pos he] at hr
    cases hr
    exact .inl ⟨rfl, rfl, rfl, by simpa using he⟩
  · rw [if_neg he] at hr
    right
    change (givenOrBestXrate cfg sqrt b s fee xrate >>= fun xrate => match xrate with
      | none => pure (none, b, s)
      | some x => roundXrate (effPrice cfg pair fee bPrice) x b s fee >>= fun x => do
          let (b, s) ← computeBuyAmounts cfg x b s fee maxNr
          pure (some x, b, s)) = .ok (r, b', s') at hr
    -- the rate
    have hrate : ∃ x0, 0 < x0 ∧ (∀ y, xrate = some y → x0 = y) ∧ (xrate = none → ∃ v, findBestXrate cfg sqrt b s fee = .ok (some (x0, v))) ∧
        (roundXrate (effPrice cfg pair fee bPrice) x0 b s fee >>= fun x => do
          let (b, s) ← computeBuyAmounts cfg x b s fee maxNr
          pure (some x, b, s)) = .ok (r, b', s') := by
      cases xrate with
      | some y =>
        exact ⟨y, hx y rfl, fun z hz => by cases hz; rfl, fun h => (by cases h), hr⟩
      | none =>
        unfold givenOrBestXrate at hr
        rw [bind_eq_ok] at hr
        obtain ⟨xo, h1, hr⟩ := hr
        rw [bind_eq_ok] at h1
        obtain ⟨r0, hf, e⟩ := h1
        obtain ⟨x, v, _, _, _, _, _, e', _, _, _, hx0, _⟩ := C16_attained_maximum h hf
        subst e'
        cases e
        exact ⟨x, hx0, fun y hy => (by cases hy), fun _ => ⟨v, hf⟩, hr⟩
    obtain ⟨x0, hx0, h1, h2, hr⟩ := hrate
    have hfin : ∀ x, 0 < x → (do
          let (b, s) ← computeBuyAmounts cfg x b s fee maxNr
          pure (some x, b, s) : Py _) = .ok (r, b', s') → r = some x ∧ computeBuyAmounts cfg x b s fee maxNr = .ok (b', s') ∧
          PairExec cfg x fee maxNr b s b' s' := by
      intro x hx hr
      rw [bind_eq_ok] at hr
      obtain ⟨⟨b1, s1⟩, e1, e2⟩ := hr
      cases e2
      exact ⟨rfl, e1, computeBuyAmounts_exec ⟨h.minPos, hx, h.feeLt, hn, h.idsB, h.idsS⟩ e1⟩
    cases hep : effPrice cfg pair fee bPrice with
    | none =>
      rw [hep] at hr
      obtain ⟨e1, e2, e3⟩ := hfin x0 hx0 hr
      exact ⟨x0, x0, e1, hx0, hx0, h1, h2, fun _ => rfl, fun p hp => (by cases hp), e2, e3⟩
    | some p =>
      have hp0 : 0 < p := by
        unfold effPrice at hep
        split at hep
        · cases hep; have := h.feePrice; exact_mod_cast this
        · exact hp p hep
      rw [hep] at hr
      unfold roundXrate at hr
      rw [bind_eq_ok] at hr
      obtain ⟨x, h3, hr⟩ := hr
      rw [bind_eq_ok] at h3
      obtain ⟨q, hq, hdiv⟩ := h3
      obtain ⟨q1, q2⟩ := C20_close hp0 hx0 hq
      obtain ⟨hne, rfl⟩ := pyDiv_eq_ok.1 hdiv
      have hq0 : (0 : ℚ) < q := by exact_mod_cast q1
      obtain ⟨e1, e2, e3⟩ := hfin (p / q) (div_pos hp0 hq0) hr
      exact ⟨p / q, x0, e1, div_pos hp0 hq0, hx0, h1, h2, fun h => (by cases h), fun p' hp' => by cases hp'; exact ⟨q, hq, q1, q2, rfl⟩, e2, e3⟩

end Dex
