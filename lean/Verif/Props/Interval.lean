import Verif.Proof.Interval
import Verif.Proof.Basic

/-! # Property C15: rate intervals -/

namespace Dex

/-- Inputs for which the interval properties are claimed. -/
structure IntervalInput (fee : Fee) (b s : List Order) : Prop where
  feeLt : fee.value < 1
  neB : b ≠ []
  neS : s ≠ []
  posB : ∀ o ∈ b, 0 < o.maxXrate
  posS : ∀ o ∈ s, 0 < o.maxXrate

namespace Spec

/-- The order accepts being executed as a b_order at rate `x`. -/
def AcceptsB (fee : Fee) (x : ℚ) (o : Order) : Prop := x ≤ o.maxXrate * (1 - fee.value)

/-- The order accepts being executed as an s_order at rate `x`. -/
def AcceptsS (fee : Fee) (x : ℚ) (o : Order) : Prop := 1 / x ≤ o.maxXrate * (1 - fee.value)

instance (fee : Fee) (x : ℚ) (o : Order) : Decidable (AcceptsB fee x o) := by unfold AcceptsB; infer_instance
instance (fee : Fee) (x : ℚ) (o : Order) : Decidable (AcceptsS fee x o) := by unfold AcceptsS; infer_instance

/-- `x` is the limit rate of some order: the extreme rate it accepts. -/
def LimitRate (fee : Fee) (b s : List Order) (x : ℚ) : Prop :=
  (∃ o ∈ b, x = o.maxXrate * (1 - fee.value)) ∨ (∃ o ∈ s, x = 1 / (o.maxXrate * (1 - fee.value)))

/-- `i` is the order where filling `orders` (worst first) from the back stops at volume `v`. -/
def FillsTo (orders : List Order) (v : ℚ) (i : ℕ) : Prop :=
  i < orders.length ∧ ((orders.drop (i + 1)).map (·.maxSell)).sum ≤ v ∧ v ≤ ((orders.drop i).map (·.maxSell)).sum

end Spec

open Spec

/-- C15. The iterator raises nothing. Every interval has positive bounds, two non-empty lists and partial indices
pointing into them; its lists are exactly the orders accepting any rate strictly inside. -/
theorem C15_sound {fee : Fee} {b s : List Order} (opt : Option ℚ) (h : IntervalInput fee b s) :
    ∃ ivs, xrateIntervals b s fee opt = .ok ivs ∧ ∀ d ∈ ivs, 0 < d.lb ∧ d.lb ≤ d.ub ∧ d.b ≠ [] ∧ d.s ≠ [] ∧
      d.bPartial < d.b.length ∧ d.sPartial < d.s.length ∧
      ∀ x, d.lb < x → x < d.ub → d.b.Perm (b.filter (fun o => decide (AcceptsB fee x o))) ∧
        d.s.Perm (s.filter (fun o => decide (AcceptsS fee x o))) := by
  obtain ⟨ivs, e, hy⟩ := xrateIntervals_spec (opt := opt) h.feeLt h.neB h.neS h.posB h.posS
  refine ⟨ivs, e, fun d hd => ?_⟩
  have hd' := hy d hd
  obtain ⟨pre, v, w, post, hall, e1, e2, _, _⟩ := hd'.split
  have hw : w ∈ variants b s fee := by rw [hall]; simp
  have hpos : 0 < d.lb := e1 ▸ variants_pos h.feeLt h.posB h.posS hw
  have hsort : (variants b s fee).Pairwise (fun a b => b.xrate ≤ a.xrate) := pySortByRev_pairwise _ _
  rw [hall] at hsort
  have hle : w.xrate ≤ v.xrate := (List.pairwise_cons.1 (List.pairwise_append.1 hsort).2.1).1 w (by simp)
  refine ⟨hpos, by rw [e1, e2]; exact hle, hd'.neB, hd'.neS, hd'.idxB, hd'.idxS, fun x h1 h2 => ?_⟩
  exact hd'.perm h.feeLt h.posS (hpos.trans h1) h1 h2

/-! ### Completeness -/

theorem partialIdxLoop_complete {lb ub v : ℚ} (h1 : lb ≤ v) (h2 : v ≤ ub) (l : List Order)
    (hn : ∀ o ∈ l, 0 ≤ o.maxSell) : ∀ {i k : ℕ}, FillsTo l v k →
    i + k ∈ partialIdxLoop lb ub i (l.map (·.maxSell)).sum l := by
  induction l with
  | nil => intro i k hk; exact absurd hk.1 (by simp)
  | cons o l ih =>
    intro i k ⟨k1, k2, k3⟩
    have hv : v ≤ ((o :: l).map (·.maxSell)).sum := by
      refine k3.trans ?_
      rw [← List.take_append_drop k (o :: l), List.map_append, List.sum_append]
      simp only [List.take_append_drop]
      have : 0 ≤ (((o :: l).take k).map (·.maxSell)).sum := by
        apply List.sum_nonneg
        intro y hy
        obtain ⟨a, ha, rfl⟩ := List.mem_map.1 hy
        exact hn a (List.mem_of_mem_take ha)
      linarith
    have hcur : ¬ ((o :: l).map (·.maxSell)).sum < lb := by linarith
    simp only [partialIdxLoop, if_neg hcur]
    have hsub : ((o :: l).map (·.maxSell)).sum - o.maxSell = (l.map (·.maxSell)).sum := by simp
    rw [hsub]
    cases k with
    | zero =>
      rw [if_pos (by simp only [zero_add, List.drop_one, List.tail_cons] at k2; exact k2.trans h2)]; simp
    | succ k =>
      apply List.mem_append_right
      have : i + (k + 1) = i + 1 + k := by omega
      rw [this]
      exact ih (fun a ha => hn a (by simp [ha])) ⟨by simpa using k1, by simpa using k2, by simpa using k3⟩

theorem fillsTo_exists {v : ℚ} (l : List Order) (hne : l ≠ []) (h0 : 0 ≤ v) (hv : v ≤ (l.map (·.maxSell)).sum) :
    ∃ k, FillsTo l v k := by
  induction l with
  | nil => exact absurd rfl hne
  | cons o l ih =>
    by_cases hc : (l.map (·.maxSell)).sum ≤ v
    · exact ⟨0, by simp, by simpa using hc, by simpa using hv⟩
    · have hne : l ≠ [] := by
        rintro rfl; exact hc (by simpa using h0)
      obtain ⟨k, k1, k2, k3⟩ := ih hne (not_le.1 hc).le
      exact ⟨k + 1, by simpa using k1, by simpa using k2, by simpa using k3⟩

/-- What an interval must offer for a rate `x` inside it: the two lists, and the order where filling one side against the
whole other side stops. -/
def Covers (fee : Fee) (x : ℚ) (d : IntervalData) : Prop :=
  (d.sPartial = 0 ∧ FillsTo d.b ((d.s.map (·.maxSell)).sum * x * (1 - fee.value)) d.bPartial) ∨
  (d.bPartial = 0 ∧ FillsTo d.s ((d.b.map (·.maxSell)).sum / (x * (1 - fee.value))) d.sPartial)

/-- For two lists and an interval of rates, every way of filling one side against the whole other side at a rate inside is
among the items. -/
def AllPatterns (fee : Fee) (lb ub : ℚ) (B S : List Order) (ivs : List IntervalData) : Prop :=
  ∀ x, lb < x → x < ub →
    (∀ k, FillsTo B ((S.map (·.maxSell)).sum * x * (1 - fee.value)) k → (⟨lb, ub, B, S, k, 0⟩ : IntervalData) ∈ ivs) ∧
    (∀ k, FillsTo S ((B.map (·.maxSell)).sum / (x * (1 - fee.value))) k → (⟨lb, ub, B, S, 0, k⟩ : IntervalData) ∈ ivs)

theorem AllPatterns.mono {fee : Fee} {lb ub : ℚ} {B S : List Order} {l l' : List IntervalData}
    (h : AllPatterns fee lb ub B S l) (hs : ∀ d ∈ l, d ∈ l') : AllPatterns fee lb ub B S l' :=
  fun x h1 h2 => ⟨fun k hk => hs _ ((h x h1 h2).1 k hk), fun k hk => hs _ ((h x h1 h2).2 k hk)⟩

theorem sum_maxSell_nonneg {l : List Order} (h : ∀ o ∈ l, 0 ≤ o.maxSell) : 0 ≤ (l.map (·.maxSell)).sum := by
  apply List.sum_nonneg
  intro y hy
  obtain ⟨o, ho, rfl⟩ := List.mem_map.1 hy
  exact h o ho

theorem intervalYields_complete {st : IntervalState} {xLb xUb : ℚ} {fee : Fee} (hf : fee.value < 1) (hl : 0 < xLb)
    (hlu : xLb < xUb) (hb : st.bExec ≠ []) (hs : st.sExec ≠ [])
    (nb : ∀ o ∈ st.bExec, 0 ≤ o.maxSell) (ns : ∀ o ∈ st.sExec, 0 ≤ o.maxSell)
    (ub : st.bUb = (st.bExec.map (·.maxSell)).sum) (us : st.sUb = (st.sExec.map (·.maxSell)).sum) :
    ∃ ys, intervalYields st xLb xUb fee = .ok ys ∧ AllPatterns fee xLb xUb st.bExec st.sExec ys := by
  have hφ : 0 < 1 - fee.value := by linarith
  have hu : 0 < xUb := hl.trans hlu
  obtain ⟨bo, bl, hbe⟩ : ∃ bo bl, st.bExec = bo :: bl := by
    cases h : st.bExec with
    | nil => exact absurd h hb
    | cons a l => exact ⟨a, l, rfl⟩
  obtain ⟨so, sl, hse⟩ : ∃ so sl, st.sExec = so :: sl := by
    cases h : st.sExec with
    | nil => exact absurd h hs
    | cons a l => exact ⟨a, l, rfl⟩
  have g1 : pyGet st.bExec 0 = .ok bo := pyGet_nat (k := 0) (by rw [hbe]; rfl)
  have g2 : pyGet st.sExec 0 = .ok so := pyGet_nat (k := 0) (by rw [hse]; rfl)
  have B0 := sum_maxSell_nonneg nb
  have S0 := sum_maxSell_nonneg ns
  have bo0 : 0 ≤ bo.maxSell := nb bo (by rw [hbe]; simp)
  have so0 : 0 ≤ so.maxSell := ns so (by rw [hse]; simp)
  unfold intervalYields
  rw [g1, ok_bind, g2, ok_bind]
  unfold sPartialIdxs
  simp only [pyDiv_of_ne (mul_pos hl hφ).ne', pyDiv_of_ne (mul_pos hu hφ).ne', ok_bind, pure_eq_ok]
  refine ⟨_, rfl, ?_⟩
  intro x h1 h2
  have hx : 0 < x := hl.trans h1
  rw [ub, us]
  generalize hB : (st.bExec.map (·.maxSell)).sum = B at *
  generalize hS : (st.sExec.map (·.maxSell)).sum = S at *
  constructor
  · intro k hk
    have a1 : (S - so.maxSell) * xLb * (1 - fee.value) ≤ S * x * (1 - fee.value) := by
      apply mul_le_mul_of_nonneg_right _ hφ.le
      calc (S - so.maxSell) * xLb ≤ S * xLb := mul_le_mul_of_nonneg_right (by linarith) hl.le
        _ ≤ S * x := mul_le_mul_of_nonneg_left h1.le S0
    have a2 : S * x * (1 - fee.value) ≤ S * xUb * (1 - fee.value) :=
      mul_le_mul_of_nonneg_right (mul_le_mul_of_nonneg_left h2.le S0) hφ.le
    have k2 := partialIdxLoop_complete a1 a2 st.bExec nb (i := 0) hk
    rw [zero_add] at k2
    exact List.mem_append_left _ (List.mem_map.2 ⟨k, k2, rfl⟩)
  · intro k hk
    have a1 : (B - bo.maxSell) / (xUb * (1 - fee.value)) ≤ B / (x * (1 - fee.value)) := by
      rw [div_le_div_iff₀ (by positivity) (by positivity)]
      calc (B - bo.maxSell) * (x * (1 - fee.value)) ≤ B * (x * (1 - fee.value)) :=
            mul_le_mul_of_nonneg_right (by linarith) (by positivity)
        _ ≤ B * (xUb * (1 - fee.value)) := mul_le_mul_of_nonneg_left (mul_le_mul_of_nonneg_right h2.le hφ.le) B0
    have a2 : B / (x * (1 - fee.value)) ≤ B / (xLb * (1 - fee.value)) := by
      rw [div_le_div_iff₀ (by positivity) (by positivity)]
      exact mul_le_mul_of_nonneg_left (mul_le_mul_of_nonneg_right h1.le hφ.le) B0
    have k2 := partialIdxLoop_complete a1 a2 st.sExec ns (i := 0) hk
    rw [zero_add, hS] at k2
    exact List.mem_append_right _ (List.mem_map.2 ⟨k, k2, rfl⟩)

theorem intervalLoop_complete {fee : Fee} {opt : Option ℚ} (hf : fee.value < 1) (all : List Variant)
    (hpos : ∀ v ∈ all, 0 < v.xrate) (hms : ∀ v ∈ all, 0 ≤ v.data.maxSell) (v w : Variant) (post : List Variant)
    (hwv : w.xrate < v.xrate) (hopt : opt = none ∨ opt = some v.xrate ∨ opt = some w.xrate)
    (hsn : (w :: post).filter (fun v => !v.isB) ≠ []) :
    ∀ (mid pre : List Variant) (st : IntervalState), all = pre ++ (mid ++ v :: w :: post) →
      (pre ++ (mid ++ [v])).filter (·.isB) ≠ [] →
      st.bExec = ((pre.filter (·.isB)).map (·.data)).reverse →
      st.sExec = ((mid ++ v :: w :: post).filter (fun v => !v.isB)).map (·.data) →
      st.bUb = (st.bExec.map (·.maxSell)).sum → st.sUb = (st.sExec.map (·.maxSell)).sum →
      ∃ ivs, intervalLoop fee opt st (mid ++ v :: w :: post) = .ok ivs ∧
        AllPatterns fee w.xrate v.xrate (((pre ++ (mid ++ [v])).filter (·.isB)).map (·.data)).reverse
          (((w :: post).filter (fun v => !v.isB)).map (·.data)) ivs := by
  have hφ : 0 < 1 - fee.value := by linarith
  -- the update step
  have upd : ∀ (pre rest : List Variant) (u : Variant) (st : IntervalState), all = pre ++ u :: rest →
      st.bExec = ((pre.filter (·.isB)).map (·.data)).reverse →
      st.sExec = ((u :: rest).filter (fun v => !v.isB)).map (·.data) →
      st.bUb = (st.bExec.map (·.maxSell)).sum → st.sUb = (st.sExec.map (·.maxSell)).sum →
      ∃ st1, intervalUpdate st u = .ok st1 ∧
          st1.bExec = (((pre ++ [u]).filter (·.isB)).map (·.data)).reverse ∧
          st1.sExec = (rest.filter (fun v => !v.isB)).map (·.data) ∧
          st1.bUb = (st1.bExec.map (·.maxSell)).sum ∧ st1.sUb = (st1.sExec.map (·.maxSell)).sum := by
    intro pre rest u st _ hb hs ub us
    unfold intervalUpdate
    cases hv : u.isB with
    | true =>
      refine ⟨_, rfl, ?_, ?_, ?_, ?_⟩
      · simp [hb, hv]
      · rw [hs]; simp [hv]
      · simp [ub]; ring
      · exact us
    | false =>
      have hse : st.sExec = u.data :: (rest.filter (fun v => !v.isB)).map (·.data) := by
        rw [hs, List.filter_cons, if_pos (by simp [hv])]; rfl
      rw [hse] at us ⊢
      refine ⟨_, rfl, ?_, rfl, ub, ?_⟩
      · simp [hb, hv]
      · simp [us]
  intro mid
  induction mid with
  | nil =>
    intro pre st hall hbn hb hs ub us
    simp only [List.nil_append] at *
    obtain ⟨st1, e1, hb1, hs1, ub1, us1⟩ := upd pre (w :: post) v st hall hb hs ub us
    have hvm : v ∈ all := by rw [hall]; simp
    have hwm : w ∈ all := by rw [hall]; simp
    have hall' : all = (pre ++ [v]) ++ w :: post := by rw [hall]; simp
    obtain ⟨ivs, e2, _⟩ := intervalLoop_spec (opt := opt) hφ.ne' all (fun v hv => (hpos v hv).ne') (w :: post) (pre ++ [v])
      { st1 with prev := some v.xrate } hall' hb1 hs1
    have nb : st1.bExec ≠ [] := by
      rw [hb1]; intro hc; exact hbn (List.map_eq_nil_iff.1 (List.reverse_eq_nil_iff.1 hc))
    have ns : st1.sExec ≠ [] := by
      rw [hs1]; intro hc; exact hsn (List.map_eq_nil_iff.1 hc)
    have mb : ∀ o ∈ st1.bExec, 0 ≤ o.maxSell := by
      intro o ho
      rw [hb1] at ho
      obtain ⟨u, hu, rfl⟩ := List.mem_map.1 (List.mem_reverse.1 ho)
      apply hms; rw [hall']; exact List.mem_append_left _ (List.mem_filter.1 hu).1
    have ms : ∀ o ∈ st1.sExec, 0 ≤ o.maxSell := by
      intro o ho
      rw [hs1] at ho
      obtain ⟨u, hu, rfl⟩ := List.mem_map.1 ho
      apply hms; rw [hall']; exact List.mem_append_right _ (List.mem_filter.1 hu).1
    obtain ⟨ys, e3, hys⟩ := intervalYields_complete hf (hpos w hwm) hwv nb ns mb ms ub1 us1
    rw [hb1, hs1] at hys
    have hskip : skipInterval opt st1.prev v w = false := by
      rcases hopt with rfl | rfl | rfl <;> simp [skipInterval]
    simp only [intervalLoop]
    rw [e1, ok_bind, hskip, if_neg (by simp), if_neg (by simpa using nb), if_neg (by simpa using ns), e3, ok_bind, e2]
    exact ⟨_, rfl, hys.mono (fun d hd => List.mem_append_left _ hd)⟩
  | cons u mid ih =>
    intro pre st hall hbn hb hs ub us
    obtain ⟨st1, e1, hb1, hs1, ub1, us1⟩ := upd pre (mid ++ v :: w :: post) u st hall hb hs ub us
    have hall' : all = (pre ++ [u]) ++ (mid ++ v :: w :: post) := by rw [hall]; simp
    obtain ⟨ivs, e2, hys⟩ := ih (pre ++ [u]) { st1 with prev := some u.xrate } hall' (by simpa using hbn)
      hb1 hs1 ub1 us1
    have hpm : pre ++ [u] ++ (mid ++ [v]) = pre ++ (u :: mid ++ [v]) := by simp
    rw [hpm] at hys
    have hsl : ¬ st1.sExec.length = 0 := by
      rw [hs1, List.length_map]
      intro hz
      apply hsn
      have hz' := List.eq_nil_of_length_eq_zero hz
      rw [List.filter_append, List.append_eq_nil_iff] at hz'
      have hz2 := hz'.2
      rw [List.filter_cons] at hz2
      split at hz2
      · cases hz2
      · exact hz2
    obtain ⟨u2, rest, hr⟩ : ∃ u2 rest, mid ++ v :: w :: post = u2 :: rest := by
      cases mid with
      | nil => exact ⟨v, _, rfl⟩
      | cons a l => exact ⟨a, _, rfl⟩
    have hu : u ∈ all := by rw [hall]; simp
    have hu2 : u2 ∈ all := by rw [hall', hr]; simp
    rw [List.cons_append, hr]
    rw [hr] at e2
    simp only [intervalLoop]
    rw [e1, ok_bind]
    split
    · exact ⟨ivs, e2, hys⟩
    · split
      · exact ⟨ivs, e2, hys⟩
      · rename_i hbl
        obtain ⟨ys, e3, _⟩ := intervalYields_spec (fee := fee) (mul_ne_zero (hpos u2 hu2).ne' hφ.ne')
          (mul_ne_zero (hpos u hu).ne' hφ.ne') (st := st1) (fun h => hbl (by rw [h]; rfl)) (fun h => hsl (by rw [h]; rfl))
        rw [e3, ok_bind, e2]
        exact ⟨_, rfl, hys.mono (fun d hd => List.mem_append_right _ hd)⟩

theorem split_sorted (x : ℚ) (l : List Variant) (hs : l.Pairwise (fun a b => b.xrate ≤ a.xrate)) (hx : ∀ v ∈ l, v.xrate ≠ x)
    (h1 : ∃ v ∈ l, x < v.xrate) (h2 : ∃ v ∈ l, v.xrate < x) :
    ∃ mid v w post, l = mid ++ v :: w :: post ∧ (∀ u ∈ mid ++ [v], x < u.xrate) ∧ (∀ u ∈ w :: post, u.xrate < x) := by
  induction l with
  | nil => obtain ⟨v, hv, _⟩ := h1; simp at hv
  | cons a l ih =>
    obtain ⟨p1, p2⟩ := List.pairwise_cons.1 hs
    have ha : x < a.xrate := by
      obtain ⟨v, hv, h⟩ := h1
      rcases List.mem_cons.1 hv with rfl | hv
      · exact h
      · exact h.trans_le (p1 v hv)
    obtain ⟨z, hz, hzx⟩ := h2
    have hzl : z ∈ l := by
      rcases List.mem_cons.1 hz with rfl | hz
      · exact absurd ha (lt_asymm hzx)
      · exact hz
    by_cases hc : ∃ v ∈ l, x < v.xrate
    · obtain ⟨mid, v, w, post, e, k1, k2⟩ := ih p2 (fun v hv => hx v (by simp [hv])) hc ⟨z, hzl, hzx⟩
      refine ⟨a :: mid, v, w, post, by rw [e]; rfl, ?_, k2⟩
      intro u hu
      rw [List.cons_append] at hu
      rcases List.mem_cons.1 hu with rfl | hu
      · exact ha
      · exact k1 u hu
    · cases l with
      | nil => simp at hzl
      | cons w post =>
        refine ⟨[], a, w, post, rfl, by simpa using ha, ?_⟩
        intro u hu
        rcases lt_trichotomy u.xrate x with h | h | h
        · exact h
        · exact absurd h (hx u (by simp only [List.mem_cons] at hu ⊢; exact .inr hu))
        · exact absurd ⟨u, hu, h⟩ hc

/-- C15. Every rate at which some b_order and some s_order can trade and that is no order's limit rate lies strictly
between two neighbouring limit rates for which all fill patterns are yielded - among all intervals, or among those
kept when the search is restricted to the neighbourhood of a limit rate `y` next to `x`. -/
theorem C15_all_patterns {fee : Fee} {b s : List Order} {opt : Option ℚ} (h : IntervalInput fee b s)
    (mb : ∀ o ∈ b, 0 ≤ o.maxSell) (ms : ∀ o ∈ s, 0 ≤ o.maxSell) {x : ℚ} (hx : 0 < x) (hl : ¬ LimitRate fee b s x)
    (hb : ∃ o ∈ b, AcceptsB fee x o) (hs : ∃ o ∈ s, AcceptsS fee x o)
    (hopt : opt = none ∨ ∃ y, opt = some y ∧ LimitRate fee b s y ∧
      ∀ z, LimitRate fee b s z → ¬ (x < z ∧ z < y) ∧ ¬ (y < z ∧ z < x)) :
    ∃ ivs lb ub B S, xrateIntervals b s fee opt = .ok ivs ∧ lb < x ∧ x < ub ∧ LimitRate fee b s lb ∧ LimitRate fee b s ub ∧
      (∀ z, LimitRate fee b s z → z ≤ lb ∨ ub ≤ z) ∧ (opt = none ∨ opt = some ub ∨ opt = some lb) ∧
      B ≠ [] ∧ S ≠ [] ∧ (∀ o ∈ B, o ∈ b) ∧ (∀ o ∈ S, o ∈ s) ∧ AllPatterns fee lb ub B S ivs := by
  have hφ : 0 < 1 - fee.value := by have := h.feeLt; linarith
  have hperm := pySortByRev_perm (fun v : Variant => v.xrate)
    (b.map (fun o => { isB := true, xrate := o.maxXrate * (1 - fee.value), data := o : Variant }) ++
      s.map (fun o => { isB := false, xrate := 1 / (o.maxXrate * (1 - fee.value)), data := o : Variant }))
  change (variants b s fee).Perm _ at hperm
  have hlim : ∀ v ∈ variants b s fee, LimitRate fee b s v.xrate := by
    intro v hv
    rcases mem_variants hv with ⟨k1, _, k2⟩ | ⟨k1, _, k2⟩
    · exact .inl ⟨_, k1, k2⟩
    · exact .inr ⟨_, k1, k2⟩
  have hlim' : ∀ y, LimitRate fee b s y → ∃ v ∈ variants b s fee, v.xrate = y := by
    rintro y (⟨o, ho, rfl⟩ | ⟨o, ho, rfl⟩)
    · exact ⟨_, hperm.mem_iff.2 (List.mem_append_left _ (List.mem_map.2 ⟨o, ho, rfl⟩)), rfl⟩
    · exact ⟨_, hperm.mem_iff.2 (List.mem_append_right _ (List.mem_map.2 ⟨o, ho, rfl⟩)), rfl⟩
  have hne : ∀ v ∈ variants b s fee, v.xrate ≠ x := fun v hv he => hl (he ▸ hlim v hv)
  obtain ⟨ob, hob, hob2⟩ := hb
  obtain ⟨os, hos, hos2⟩ := hs
  have vb : ({ isB := true, xrate := ob.maxXrate * (1 - fee.value), data := ob : Variant }) ∈ variants b s fee :=
    hperm.mem_iff.2 (List.mem_append_left _ (List.mem_map.2 ⟨ob, hob, rfl⟩))
  have vs : ({ isB := false, xrate := 1 / (os.maxXrate * (1 - fee.value)), data := os : Variant }) ∈ variants b s fee :=
    hperm.mem_iff.2 (List.mem_append_right _ (List.mem_map.2 ⟨os, hos, rfl⟩))
  have lb1 : x < ob.maxXrate * (1 - fee.value) := lt_of_le_of_ne hob2 (fun he => hne _ vb he.symm)
  have ls1 : 1 / (os.maxXrate * (1 - fee.value)) < x := by
    apply lt_of_le_of_ne _ (hne _ vs)
    unfold AcceptsS at hos2
    rw [div_le_iff₀ hx] at hos2
    rw [div_le_iff₀ (mul_pos (h.posS os hos) hφ)]; linarith
  have hsort : (variants b s fee).Pairwise (fun a b => b.xrate ≤ a.xrate) := pySortByRev_pairwise _ _
  obtain ⟨mid, v, w, post, e, k1, k2⟩ := split_sorted x _ hsort hne ⟨_, vb, lb1⟩ ⟨_, vs, ls1⟩
  have hv : v ∈ variants b s fee := by rw [e]; simp
  have hw : w ∈ variants b s fee := by rw [e]; simp
  have hxv : x < v.xrate := k1 v (by simp)
  have hwx : w.xrate < x := k2 w (by simp)
  have e' : variants b s fee = (mid ++ [v]) ++ (w :: post) := by rw [e]; simp
  have hopt' : opt = none ∨ opt = some v.xrate ∨ opt = some w.xrate := by
    rcases hopt with h | ⟨y, rfl, hy, hz⟩
    · exact .inl h
    · right
      obtain ⟨u, hu, rfl⟩ := hlim' y hy
      have hs1 := hsort
      rw [e'] at hs1 hu
      rcases List.mem_append.1 hu with hu | hu
      · left
        have h1 : v.xrate ≤ u.xrate := by
          rcases List.mem_append.1 hu with hu | hu
          · exact (List.pairwise_append.1 (List.pairwise_append.1 hs1).1).2.2 u hu v (by simp)
          · rw [List.mem_singleton.1 hu]
        have h2 := (hz v.xrate (hlim v hv)).1
        have h3 : u.xrate ≤ v.xrate := by
          by_contra hc; exact h2 ⟨hxv, not_le.1 hc⟩
        rw [le_antisymm h3 h1]
      · right
        have h1 : u.xrate ≤ w.xrate := by
          rcases List.mem_cons.1 hu with rfl | hu
          · exact le_refl _
          · exact (List.pairwise_cons.1 (List.pairwise_append.1 hs1).2.1).1 u hu
        have h2 := (hz w.xrate (hlim w hw)).2
        have h3 : w.xrate ≤ u.xrate := by
          by_contra hc; exact h2 ⟨not_le.1 hc, hwx⟩
        rw [le_antisymm h1 h3]
  have hmaxSell : ∀ u ∈ variants b s fee, 0 ≤ u.data.maxSell := by
    intro u hu
    rcases mem_variants hu with ⟨k, _, _⟩ | ⟨k, _, _⟩
    · exact mb _ k
    · exact ms _ k
  have hsn : (w :: post).filter (fun v => !v.isB) ≠ [] := by
    have : ({ isB := false, xrate := 1 / (os.maxXrate * (1 - fee.value)), data := os : Variant }) ∈ w :: post := by
      have hm := vs
      rw [e'] at hm
      rcases List.mem_append.1 hm with hm | hm
      · exact absurd (k1 _ hm) (lt_asymm ls1)
      · exact hm
    exact List.ne_nil_of_mem (List.mem_filter.2 ⟨this, rfl⟩)
  have hbn : (([] : List Variant) ++ (mid ++ [v])).filter (fun u => u.isB) ≠ [] := by
    have : ({ isB := true, xrate := ob.maxXrate * (1 - fee.value), data := ob : Variant }) ∈ mid ++ [v] := by
      have hm := vb
      rw [e'] at hm
      rcases List.mem_append.1 hm with hm | hm
      · exact hm
      · exact absurd (k2 _ hm) (lt_asymm lb1)
    exact List.ne_nil_of_mem (List.mem_filter.2 ⟨this, rfl⟩)
  have hsum : (s.map (·.maxSell)).sum = ((((variants b s fee).filter (fun v => !v.isB)).map (·.data)).map (·.maxSell)).sum := by
    have := ((hperm.filter (fun v => !v.isB)).map (fun v : Variant => v.data)).map (fun o : Order => o.maxSell)
    rw [this.sum_eq, List.filter_append, List.filter_map, List.filter_map]
    have z1 : List.filter ((fun v : Variant => !v.isB) ∘
        fun o => { isB := true, xrate := o.maxXrate * (1 - fee.value), data := o : Variant }) b = [] := by
      rw [List.filter_eq_nil_iff]; intro o _; simp
    have z2 : List.filter ((fun v : Variant => !v.isB) ∘
        fun o => { isB := false, xrate := 1 / (o.maxXrate * (1 - fee.value)), data := o : Variant }) s = s := by
      rw [List.filter_eq_self]; intro o _; rfl
    rw [z1, z2, List.map_nil, List.nil_append, List.map_map]
    congr 1
    rw [List.map_map]; rfl
  obtain ⟨ivs, e4, hys⟩ := intervalLoop_complete (opt := opt) h.feeLt (variants b s fee)
    (fun v hv => variants_pos h.feeLt h.posB h.posS hv) hmaxSell v w post (hwx.trans hxv) hopt' hsn mid []
    { prev := none, bExec := [], sExec := ((variants b s fee).filter (fun v => !v.isB)).map (·.data), bUb := 0,
      sUb := (s.map (·.maxSell)).sum } e hbn rfl (by rw [e]) rfl hsum
  refine ⟨ivs, w.xrate, v.xrate, _, _, ?_, hwx, hxv, hlim w hw, hlim v hv, ?_, hopt', ?_, ?_, ?_, ?_, hys⟩
  · unfold xrateIntervals
    rw [pyAssert_of ⟨List.length_pos_of_ne_nil h.neB, List.length_pos_of_ne_nil h.neS⟩, ok_bind]
    simp only
    rw [mapE_of_forall (g := fun o => { isB := false, xrate := 1 / (o.maxXrate * (1 - fee.value)), data := o : Variant })]
    · rw [ok_bind, ← e4, ← e]; rfl
    · intro o ho
      rw [pyDiv_of_ne (mul_pos (h.posS o ho) hφ).ne']; rfl
  · intro z hz
    obtain ⟨u, hu, rfl⟩ := hlim' z hz
    have hs1 := hsort
    rw [e'] at hs1 hu
    rcases List.mem_append.1 hu with hu | hu
    · right
      rcases List.mem_append.1 hu with hu | hu
      · exact (List.pairwise_append.1 (List.pairwise_append.1 hs1).1).2.2 u hu v (by simp)
      · rw [List.mem_singleton.1 hu]
    · left
      rcases List.mem_cons.1 hu with rfl | hu
      · exact le_refl _
      · exact (List.pairwise_cons.1 (List.pairwise_append.1 hs1).2.1).1 u hu
  · intro hc; exact hbn (List.map_eq_nil_iff.1 (List.reverse_eq_nil_iff.1 hc))
  · intro hc; exact hsn (List.map_eq_nil_iff.1 hc)
  · intro o ho
    obtain ⟨u, hu, rfl⟩ := List.mem_map.1 (List.mem_reverse.1 ho)
    obtain ⟨hu1, hu2⟩ := List.mem_filter.1 hu
    rcases mem_variants (show u ∈ variants b s fee by rw [e']; exact List.mem_append_left _ (by simpa using hu1))
      with ⟨k, _, _⟩ | ⟨_, k, _⟩
    · exact k
    · rw [k] at hu2; cases hu2
  · intro o ho
    obtain ⟨u, hu, rfl⟩ := List.mem_map.1 ho
    obtain ⟨hu1, hu2⟩ := List.mem_filter.1 hu
    rcases mem_variants (show u ∈ variants b s fee by rw [e']; exact List.mem_append_right _ hu1) with ⟨_, k, _⟩ | ⟨k, _, _⟩
    · rw [k] at hu2; cases hu2
    · exact k

/-- C15. In particular the rate lies in an interval whose partial index is that of filling one side against the whole
other side. -/
theorem C15_complete {fee : Fee} {b s : List Order} {opt : Option ℚ} (h : IntervalInput fee b s)
    (mb : ∀ o ∈ b, 0 ≤ o.maxSell) (ms : ∀ o ∈ s, 0 ≤ o.maxSell) {x : ℚ} (hx : 0 < x) (hl : ¬ LimitRate fee b s x)
    (hb : ∃ o ∈ b, AcceptsB fee x o) (hs : ∃ o ∈ s, AcceptsS fee x o)
    (hopt : opt = none ∨ ∃ y, opt = some y ∧ LimitRate fee b s y ∧
      ∀ z, LimitRate fee b s z → ¬ (x < z ∧ z < y) ∧ ¬ (y < z ∧ z < x)) :
    ∃ ivs, xrateIntervals b s fee opt = .ok ivs ∧ ∃ d ∈ ivs, d.lb < x ∧ x < d.ub ∧ Covers fee x d := by
  have hφ : 0 < 1 - fee.value := by have := h.feeLt; linarith
  obtain ⟨ivs, lb, ub, B, S, e, h1, h2, _, _, _, _, nB, nS, sB, sS, hall⟩ := C15_all_patterns h mb ms hx hl hb hs hopt
  have B0 := sum_maxSell_nonneg (fun o ho => mb o (sB o ho))
  have S0 := sum_maxSell_nonneg (fun o ho => ms o (sS o ho))
  refine ⟨ivs, e, ?_⟩
  by_cases hc : (S.map (·.maxSell)).sum * x * (1 - fee.value) ≤ (B.map (·.maxSell)).sum
  · obtain ⟨k, hk⟩ := fillsTo_exists B nB (by positivity) hc
    exact ⟨_, (hall x h1 h2).1 k hk, h1, h2, .inl ⟨rfl, hk⟩⟩
  · have hc' : (B.map (·.maxSell)).sum / (x * (1 - fee.value)) ≤ (S.map (·.maxSell)).sum := by
      rw [div_le_iff₀ (by positivity)]
      have := not_le.1 hc
      linarith
    obtain ⟨k, hk⟩ := fillsTo_exists S nS (by positivity) hc'
    exact ⟨_, (hall x h1 h2).2 k hk, h1, h2, .inr ⟨rfl, hk⟩⟩

/-! ### Non-vacuity -/

namespace ExIv
def fee : Fee := { token := "F", value := 1 / 1000 }
def b : List Order := [Order.mk' "B" "S" 100000 2 none "0", Order.mk' "B" "S" 50000 (3/2) none "1"]
def s : List Order := [Order.mk' "S" "B" 60000 2 none "2", Order.mk' "S" "B" 60000 (3/2) none "3"]
end ExIv

example : IntervalInput ExIv.fee ExIv.b ExIv.s := by constructor <;> decide +kernel

/-- The rate 1 meets the hypotheses of `C15_complete` (without restriction). -/
example : ¬ LimitRate ExIv.fee ExIv.b ExIv.s 1 ∧ (∃ o ∈ ExIv.b, AcceptsB ExIv.fee 1 o) ∧ (∃ o ∈ ExIv.s, AcceptsS ExIv.fee 1 o) := by
  unfold LimitRate; decide +kernel

/-- Restricted to the neighbourhood of the limit rate `(3/2)(1-fee)`. -/
example : ∃ ivs, xrateIntervals ExIv.b ExIv.s ExIv.fee (some ((3/2) * (999/1000))) = .ok ivs ∧ 3 ≤ ivs.length ∧
    ∃ d ∈ ivs, d.lb < 1 ∧ 1 < d.ub :=
  exists_of_pyCheck (p := fun ivs : List IntervalData => 3 ≤ ivs.length ∧ ∃ d ∈ ivs, d.lb < 1 ∧ 1 < d.ub) (by decide +kernel)

end Dex
