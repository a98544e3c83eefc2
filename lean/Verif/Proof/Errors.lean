import Verif.Props.Final
import Verif.Props.Viability
import Verif.Props.Local
import Verif.Props.Termination

/-! # Which exceptions the solver can raise -/

namespace Dex

namespace Spec

/-- Exceptions of the rate search and the price rounding: a division by zero, one of two shape assertions of the binary search (the third
cannot fail), or whatever the floating-point square root raises on a non-negative number. -/
def SearchFailure (sqrt : ℚ → Py ℚ) (e : PyErr) : Prop :=
  e = .zeroDivision ∨ e = .assertion "xrate.py:439" ∨ e = .assertion "xrate.py:440" ∨ ∃ t, 0 ≤ t ∧ sqrt t = .error e

/-- Two neighbouring limit rates of the book have the same objective value. -/
def Tie (cfg : Config) (fee : Fee) (b s : List Order) : Prop :=
  ∃ x y v, LimitRate fee b s x ∧ LimitRate fee b s y ∧ x < y ∧ (∀ z, LimitRate fee b s z → ¬ (x < z ∧ z < y)) ∧
    ValueAt cfg fee b s x v ∧ ValueAt cfg fee b s y v

end Spec

open Spec

/-- Every exception of the computation is in `E`. -/
def Only {α : Type} (E : PyErr → Prop) (x : Py α) : Prop := ∀ e, x = .error e → E e

theorem only_ok {α : Type} {E : PyErr → Prop} (a : α) : Only E (.ok a : Py α) := by intro e h; cases h

theorem only_pure {α : Type} {E : PyErr → Prop} (a : α) : Only E (pure a : Py α) := only_ok a

theorem only_error {α : Type} {E : PyErr → Prop} {e : PyErr} (h : E e) : Only E (.error e : Py α) := by
  intro e' h'; cases h'; exact h

theorem only_bind {α β : Type} {E : PyErr → Prop} {x : Py α} {f : α → Py β} (h : Only E x) (hf : ∀ a, x = .ok a → Only E (f a)) :
    Only E (x >>= f) := by
  cases x with
  | error e => intro e' h'; rw [error_bind] at h'; cases h'; exact h e rfl
  | ok a => rw [ok_bind]; exact hf a rfl

theorem only_mapE {α β : Type} {E : PyErr → Prop} {f : α → Py β} {l : List α} (h : ∀ a ∈ l, Only E (f a)) : Only E (mapE f l) := by
  induction l with
  | nil => exact only_ok _
  | cons a l ih =>
    unfold mapE
    exact only_bind (h a (by simp)) (fun b _ => only_bind (ih (fun c hc => h c (by simp [hc]))) (fun _ _ => only_pure _))

theorem only_assert {E : PyErr → Prop} {c : Prop} [Decidable c] {s : String} (h : E (.assertion s)) : Only E (pyAssert c s) := by
  unfold pyAssert
  split
  · exact only_ok _
  · exact only_error h

theorem only_div {E : PyErr → Prop} (h : E .zeroDivision) (a b : ℚ) : Only E (pyDiv a b) := by
  unfold pyDiv
  split
  · exact only_error h
  · exact only_ok _

/-! ### The search -/

theorem only_binSearchLoop {E : PyErr → Prop} {f : ℚ → Py ℚ} {g : ℚ → ℚ} {xs : List ℚ} (hf : ∀ x ∈ xs, f x = .ok (g x))
    (hE : 4 ≤ xs.length → ∀ i (hi : i + 1 < xs.length), g xs[i] = g xs[i + 1] → E (.assertion "xrate.py:439") ∧ E (.assertion "xrate.py:440")) :
    ∀ (fuel l r : ℕ) (_ : 1 ≤ l) (_ : l < r) (hr : r < xs.length), r < l + fuel → g xs[l - 1] ≤ g xs[l] → g xs[r] ≤ g xs[r - 1] →
      Only E (binSearchLoop f xs fuel (l : ℤ) (r : ℤ)) := by
  intro fuel
  induction fuel with
  | zero => intro l r _ _ _ _; omega
  | succ fuel ih =>
    intro l r hl hlr hr hfu dl dr
    have hc : ((l : ℤ) + (r : ℤ)) / 2 = (((l + r) / 2 : ℕ) : ℤ) := by push_cast; rfl
    unfold binSearchLoop
    simp only [hc]
    generalize hcd : (l + r) / 2 = k at *
    by_cases hstop : (l : ℤ) ≠ (k : ℤ) ∧ (r : ℤ) ≠ (k : ℤ)
    · rw [if_pos hstop]
      have hlc : l < k := by omega
      have hcr : k < r := by omega
      have el : (l : ℤ) - 1 = ((l - 1 : ℕ) : ℤ) := by omega
      have er : (r : ℤ) - 1 = ((r - 1 : ℕ) : ℤ) := by omega
      have ec : (k : ℤ) - 1 = ((k - 1 : ℕ) : ℤ) := by omega
      have tie : ∀ i : ℕ, 1 ≤ i → (hi : i < xs.length) → g xs[i] = g xs[i - 1] → E (.assertion "xrate.py:439") ∧ E (.assertion "xrate.py:440") := by
        intro i h1 hi h
        have := hE (by omega) (i - 1) (by omega)
        have e : i - 1 + 1 = i := by omega
        simp only [e] at this
        exact this h.symm
      simp only [pure_bind, el, er, ec, pyGet_at (by omega : l < xs.length), pyGet_at (by omega : l - 1 < xs.length),
        pyGet_at hr, pyGet_at (by omega : r - 1 < xs.length), pyGet_at (by omega : k < xs.length),
        pyGet_at (by omega : k - 1 < xs.length), ok_bind, hf _ (List.getElem_mem _)]
      by_cases h0 : (g xs[l] - g xs[l - 1]) * (g xs[k] - g xs[k - 1]) > 0
      · rw [if_pos h0]
        have h1 : 0 < g xs[l] - g xs[l - 1] := by
          rcases (sub_nonneg.2 dl).lt_or_eq with h | h
          · exact h
          · rw [← h] at h0; simp at h0
        have h2 : 0 < g xs[k] - g xs[k - 1] := (pos_iff_pos_of_mul_pos h0).1 h1
        rw [pyAssert_of h1, ok_bind]
        exact ih k r (by omega) hcr hr (by omega) (by linarith) dr
      · rw [if_neg h0]
        by_cases hdr : g xs[r] - g xs[r - 1] < 0
        · rw [pyAssert_of hdr, ok_bind]
          by_cases hdc : g xs[k] - g xs[k - 1] < 0
          · rw [pyAssert_of hdc, ok_bind]
            exact ih l k hl hlc (by omega) (by omega) dl (by linarith)
          · refine only_bind (only_assert ?_) fun _ h => absurd (pyAssert_eq_ok.1 h) hdc
            rcases (not_lt.1 hdc).lt_or_eq with h | h
            · refine (tie l hl (by omega) ?_).2
              by_contra hne
              exact h0 (mul_pos (lt_of_le_of_ne (sub_nonneg.2 dl) (fun e => hne (by linarith))) h)
            · exact (tie k (by omega) (by omega) (by linarith)).2
        · refine only_bind (only_assert ?_) fun _ h => absurd (pyAssert_eq_ok.1 h) hdr
          exact (tie r (by omega) hr (by linarith [not_lt.1 hdr])).1
    · rw [if_neg hstop]; exact only_pure _

theorem binSearchLoop_range {f : ℚ → Py ℚ} {xs : List ℚ} : ∀ (fuel l r : ℕ) {c : ℤ}, l ≤ r → 1 ≤ l →
    binSearchLoop f xs fuel (l : ℤ) (r : ℤ) = .ok c → ∃ m : ℕ, c = m ∧ m ≤ r := by
  intro fuel
  induction fuel with
  | zero => intro l r c _ _ h; cases h
  | succ fuel ih =>
    intro l r c hlr hl h
    have hc : ((l : ℤ) + (r : ℤ)) / 2 = (((l + r) / 2 : ℕ) : ℤ) := by push_cast; rfl
    unfold binSearchLoop at h
    simp only [hc] at h
    generalize hcd : (l + r) / 2 = k at *
    split at h
    · simp only [bind_eq_ok] at h
      obtain ⟨_, _, _, _, _, _, h⟩ := h
      split at h
      · rw [bind_eq_ok] at h
        obtain ⟨_, _, h⟩ := h
        exact ih k r (by omega) (by omega) h
      · simp only [bind_eq_ok] at h
        obtain ⟨_, _, _, _, h⟩ := h
        obtain ⟨m, h1, h2⟩ := ih l k (by omega) (by omega) h
        exact ⟨m, h1, by omega⟩
    · cases h
      exact ⟨k, rfl, by omega⟩

/-- The binary search on the sorted rates: it can only fail on an assertion, at one of two places, and only if two neighbouring rates have
the same objective value. -/
theorem only_binSearch {E : PyErr → Prop} {f : ℚ → Py ℚ} {g : ℚ → ℚ} {xs : List ℚ} (hne : xs ≠ []) (hf : ∀ x ∈ xs, f x = .ok (g x))
    (hE : 4 ≤ xs.length → ∀ i (hi : i + 1 < xs.length), g xs[i] = g xs[i + 1] → E (.assertion "xrate.py:439") ∧ E (.assertion "xrate.py:440")) :
    Only E (binSearch f xs) := by
  unfold binSearch
  split
  · rw [mapE_of_forall (g := fun x => (x, g x)) (fun x hx => by rw [hf x hx]; rfl), ok_bind]
    obtain ⟨m, hm⟩ := pyMaxBy_of_ne_nil (fun p : ℚ × ℚ => p.2) (l := xs.map fun x => (x, g x)) (by simpa using hne)
    rw [hm]; exact only_ok _
  · rename_i hn
    have g0 : pyGet xs 0 = .ok xs[0] := pyGet_at (k := 0) (by omega)
    have g1 : pyGet xs 1 = .ok xs[1] := pyGet_at (k := 1) (by omega)
    have l0 : pyGet xs (-1) = .ok (xs[xs.length - 1]'(by omega)) := pyGet_neg (k := 1) (by omega) (by omega)
    have l1 : pyGet xs (-2) = .ok (xs[xs.length - 2]'(by omega)) := pyGet_neg (k := 2) (by omega) (by omega)
    simp only [g0, g1, l0, l1, ok_bind, hf _ (List.getElem_mem _)]
    split
    · exact only_pure _
    rename_i hl
    split
    · exact only_pure _
    rename_i hr
    have e : ((xs.length : ℤ) - 1) = ((xs.length - 1 : ℕ) : ℤ) := by omega
    rw [e]
    refine only_bind (only_binSearchLoop hf hE (xs.length + 1) 1 (xs.length - 1) (by omega) (by omega) (by omega) (by omega)
      (not_lt.1 hl) (not_lt.1 hr)) fun c hc => ?_
    have hc' : ∃ k : ℕ, c = k ∧ k < xs.length := by
      have := binSearchLoop_range (f := f) (xs := xs) (xs.length + 1) 1 (xs.length - 1) (by omega) (by omega) hc
      obtain ⟨m, hm, hm'⟩ := this
      exact ⟨m, hm, by omega⟩
    obtain ⟨k, rfl, hk⟩ := hc'
    rw [pyGet_at hk, ok_bind, hf _ (List.getElem_mem _), ok_bind]
    exact only_pure _

/-- The division by zero is excluded inside an interval as soon as the orders' maximum sell amounts are positive, except in `root3`. -/
theorem only_localOptima {cfg : Config} {sqrt : ℚ → Py ℚ} {fee : Fee} {d : IntervalData} {E : PyErr → Prop} (hz : E .zeroDivision)
    (hq : ∀ t e, 0 ≤ t → sqrt t = .error e → E e) (ib : d.bPartial < d.b.length) (is : d.sPartial < d.s.length) :
    Only E (localOptima cfg sqrt fee d) := by
  have hsum : ∀ l : List Order, Only E (sumE (fun o => pyDiv o.maxSell o.maxXrate) l) := by
    intro l
    induction l with
    | nil => exact only_ok _
    | cons a l ih =>
      unfold sumE
      exact only_bind (only_div hz _ _) fun _ _ => only_bind ih fun _ _ => only_pure _
  unfold localOptima
  refine only_bind ?_ fun c _ => only_bind ?_ fun _ _ => only_bind ?_ fun _ _ => only_bind ?_ fun _ _ => only_pure _
  · unfold computeConstants
    rw [pyGet_at ib, ok_bind, pyGet_at is, ok_bind]
    refine only_bind ?_ fun _ _ => only_pure _
    unfold cConstant
    exact only_bind (hsum _) fun _ _ => only_bind (hsum _) fun _ _ => only_pure _
  · unfold root3
    exact only_bind (only_div hz _ _) fun _ _ => only_div hz _ _
  · unfold root4
    refine only_bind (only_div hz _ _) fun t _ => ?_
    split
    · rename_i ht
      exact only_bind (fun e he => hq t e ht he) fun _ _ => only_pure _
    · exact only_pure _
  · unfold root5
    exact only_div hz _ _

theorem only_solveInterval {cfg : Config} {sqrt : ℚ → Py ℚ} {fee : Fee} {d : IntervalData} {E : PyErr → Prop}
    (hl : Only E (localOptima cfg sqrt fee d))
    (hobj : ∀ x, d.lb < x → x < d.ub → ∃ v, solverObjective cfg fee d.b d.s x = .ok v) :
    Only E (solveInterval cfg sqrt fee d) := by
  unfold solveInterval
  refine only_bind hl fun xs hxs => ?_
  split
  · exact only_pure _
  · rename_i hlen
    have hmem : ∀ y ∈ xs, d.lb < y ∧ y < d.ub := by
      intro y hy
      unfold localOptima at hxs
      simp only [bind_eq_ok] at hxs
      obtain ⟨_, _, _, _, _, _, _, _, hxs⟩ := hxs
      cases hxs
      exact of_decide_eq_true (List.mem_filter.1 (mem_sortDistinct.1 hy)).2
    refine only_bind (only_mapE fun x hx => ?_) fun xos hxos => ?_
    · obtain ⟨v, hv⟩ := hobj x (hmem x hx).1 (hmem x hx).2
      rw [hv, ok_bind]; exact only_pure _
    · have : xos ≠ [] := by
        rintro rfl
        have hne : xs ≠ [] := fun h => hlen (by rw [h]; rfl)
        obtain ⟨x, hx⟩ := List.exists_mem_of_ne_nil _ hne
        obtain ⟨_, hb, _⟩ := (mapE_ok_mem hxos).1 x hx
        simp at hb
      obtain ⟨m, hm⟩ := pyMaxBy_of_ne_nil (fun p : ℚ × ℚ => p.2) this
      rw [hm, ok_bind]; exact only_pure _

/-- Neighbours in the sorted list of limit rates. -/
theorem tie_of_neighbours {cfg : Config} {fee : Fee} {b s : List Order} {xs : List ℚ} {g : ℚ → ℚ} (hxs : ∀ x, x ∈ xs ↔ LimitRate fee b s x)
    (hg : ∀ x ∈ xs, solverObjective cfg fee b s x = .ok (g x)) {i : ℕ} (hi : i + 1 < (sortDistinct xs).length)
    (h : g (sortDistinct xs)[i] = g (sortDistinct xs)[i + 1]) : Tie cfg fee b s := by
  have hp : (sortDistinct xs).Pairwise (· < ·) := sortDistinct_pairwise xs
  have hm : ∀ k (hk : k < (sortDistinct xs).length), (sortDistinct xs)[k] ∈ xs := fun k hk => mem_sortDistinct.1 (List.getElem_mem hk)
  refine ⟨(sortDistinct xs)[i], (sortDistinct xs)[i + 1], g (sortDistinct xs)[i], (hxs _).1 (hm _ _), (hxs _).1 (hm _ _),
    List.pairwise_iff_getElem.1 hp i (i + 1) _ _ (by omega), ?_, solverObjective_iff.1 (hg _ (hm _ _)), ?_⟩
  · rintro z hz ⟨h1, h2⟩
    obtain ⟨j, hj, rfl⟩ := List.getElem_of_mem (mem_sortDistinct.2 ((hxs z).2 hz))
    rcases Nat.lt_trichotomy j i with hlt | rfl | hgt
    · exact absurd (List.pairwise_iff_getElem.1 hp j i hj (by omega) hlt) (not_lt.2 h1.le)
    · exact lt_irrefl _ h1
    · rcases Nat.lt_or_ge (i + 1) j with h3 | h3
      · exact absurd (List.pairwise_iff_getElem.1 hp (i + 1) j hi hj h3) (not_lt.2 h2.le)
      · have : j = i + 1 := by omega
        subst this
        exact lt_irrefl _ h2
  · rw [h]; exact solverObjective_iff.1 (hg _ (hm _ _))

/-- There are at most as many limit rates as orders. -/
theorem limitRates_length {fee : Fee} {b s : List Order} {xs : List ℚ} (hxs : ∀ x ∈ xs, LimitRate fee b s x) :
    (sortDistinct xs).length ≤ b.length + s.length := by
  have hn : (sortDistinct xs).Nodup := (sortDistinct_pairwise xs).imp fun h => h.ne
  have hsub : sortDistinct xs ⊆ b.map (fun o => o.maxXrate * (1 - fee.value)) ++ s.map (fun o => 1 / (o.maxXrate * (1 - fee.value))) := by
    intro x hx
    rcases hxs x (mem_sortDistinct.1 hx) with ⟨o, ho, rfl⟩ | ⟨o, ho, rfl⟩
    · exact List.mem_append_left _ (List.mem_map.2 ⟨o, ho, rfl⟩)
    · exact List.mem_append_right _ (List.mem_map.2 ⟨o, ho, rfl⟩)
  simpa using (hn.subperm hsub).length_le

/-- The part of the rate search after the binary search. -/
theorem only_searchIntervals {cfg : Config} {sqrt : ℚ → Py ℚ} {fee : Fee} {b s b' s' : List Order} {E : PyErr → Prop} (h : SearchInput cfg fee b s)
    (hpi : PruneInput fee b s) (hp : pruneUnrealizable b s fee = .ok (b', s')) (hne : b' ≠ [])
    (hl : ∀ d, YieldOk (variants b' s' fee) d → Only E (localOptima cfg sqrt fee d)) (triv : Option (ℚ × ℚ)) :
    Only E (do
      let ivs ← xrateIntervals b' s' fee (triv.map (·.1))
      let rs ← mapE (solveInterval cfg sqrt fee) ivs
      let xos := (triv :: rs).filterMap id
      if xos.length = 0 then pure none
      else
        let best ← pyMaxBy (·.2) xos
        pure (some best) : Py (Option (ℚ × ℚ))) := by
  have hpi' := hpi.pruned hp hne
  obtain ⟨ivs, ei, hys⟩ := xrateIntervals_spec (opt := triv.map (·.1)) h.feeLt hpi'.neB hpi'.neS hpi'.posB hpi'.posS
  rw [ei, ok_bind]
  refine only_bind (only_mapE fun d hd => ?_) fun rs _ => ?_
  · exact only_solveInterval (hl d (hys d hd)) fun x h1 h2 => by
      obtain ⟨_, v, _, hv⟩ := objective_interval h hp hne ei hd h1 h2
      exact ⟨v, hv⟩
  · dsimp only
    split
    · exact only_pure _
    · rename_i hlen
      obtain ⟨m, hm⟩ := pyMaxBy_of_ne_nil (fun p : ℚ × ℚ => p.2) (l := (triv :: rs).filterMap id) (fun h => hlen (by rw [h]; rfl))
      rw [hm, ok_bind]; exact only_pure _

/-- The rate search on a book where some b order can trade with some s order. -/
theorem only_findBestXrate_of {cfg : Config} {sqrt : ℚ → Py ℚ} {fee : Fee} {b s : List Order} {E : PyErr → Prop} (h : SearchInput cfg fee b s)
    (hm : ∃ o ∈ b, ∃ c ∈ s, Matchable fee o c)
    (hl : ∀ b' s' d, pruneUnrealizable b s fee = .ok (b', s') → YieldOk (variants b' s' fee) d → Only E (localOptima cfg sqrt fee d))
    (ht : ∀ b' s', pruneUnrealizable b s fee = .ok (b', s') → 4 ≤ b'.length + s'.length → Tie cfg fee b' s' → E (.assertion "xrate.py:439") ∧ E (.assertion "xrate.py:440")) :
    Only E (findBestXrate cfg sqrt b s fee) := by
  obtain ⟨o, ho, c, hc, hoc⟩ := hm
  have hpi := h.prune (List.ne_nil_of_mem ho) (List.ne_nil_of_mem hc)
  obtain ⟨b', s', hp, sb, ss, mb, ms⟩ := C14_exact hpi
  have hne : b' ≠ [] := List.ne_nil_of_mem ((mb o).2 ⟨ho, c, hc, hoc⟩)
  have hpi' := hpi.pruned hp hne
  unfold findBestXrate
  rw [hp, ok_bind]
  dsimp only
  refine only_bind ?_ fun triv _ => ?_
  · unfold solveTrivial
    obtain ⟨xs, ex, hxs⟩ := trivialCandidates_eq (b := b') (s := s') h.feeLt hpi'.posS
    rw [ex, ok_bind]
    split
    · exact only_pure _
    · rename_i hlen
      have hval : ∀ x ∈ xs, ∃ v, solverObjective cfg fee b' s' x = .ok v := by
        intro x hx
        obtain ⟨px, ab, as⟩ := limitRate_accepted hpi hp ((hxs x).1 hx)
        obtain ⟨v, _, hv⟩ := objective_pruned h hp px ab as
        exact ⟨v, hv⟩
      have hg : ∃ g : ℚ → ℚ, ∀ x ∈ xs, solverObjective cfg fee b' s' x = .ok (g x) :=
        ⟨fun x => if hx : x ∈ xs then (hval x hx).choose else 0, fun x hx => by simpa only [dif_pos hx] using (hval x hx).choose_spec⟩
      obtain ⟨g, hg⟩ := hg
      refine only_bind (only_binSearch (g := g) ?_ (fun x hx => hg x (mem_sortDistinct.1 hx)) fun h4 i hi hti => ht b' s' hp
        (h4.trans (limitRates_length fun x hx => (hxs x).1 hx)) (tie_of_neighbours hxs hg hi hti)) fun _ _ => only_pure _
      intro hnil
      apply hlen
      have : xs = [] := by
        rw [List.eq_nil_iff_forall_not_mem]
        intro x hx
        have := mem_sortDistinct.2 hx
        rw [hnil] at this; simp at this
      rw [this]; rfl
  · exact only_searchIntervals h hpi hp hne (fun d hd => hl b' s' d hp hd) triv

theorem only_findBestXrate' {cfg : Config} {sqrt : ℚ → Py ℚ} {fee : Fee} {b s : List Order} {E : PyErr → Prop} (h : SearchInput cfg fee b s)
    (hm : ∃ o ∈ b, ∃ c ∈ s, Matchable fee o c) (hz : E .zeroDivision) (hq : ∀ t e, 0 ≤ t → sqrt t = .error e → E e)
    (ht : ∀ b' s', pruneUnrealizable b s fee = .ok (b', s') → 4 ≤ b'.length + s'.length → Tie cfg fee b' s' → E (.assertion "xrate.py:439") ∧ E (.assertion "xrate.py:440")) :
    Only E (findBestXrate cfg sqrt b s fee) :=
  only_findBestXrate_of h hm (fun _ _ _ _ hd => only_localOptima hz hq hd.idxB hd.idxS) ht

theorem only_findBestXrate {cfg : Config} {sqrt : ℚ → Py ℚ} {fee : Fee} {b s : List Order} (h : SearchInput cfg fee b s)
    (hm : ∃ o ∈ b, ∃ c ∈ s, Matchable fee o c) : Only (SearchFailure sqrt) (findBestXrate cfg sqrt b s fee) :=
  only_findBestXrate' h hm (.inl rfl) (fun t _ ht he => .inr (.inr (.inr ⟨t, ht, he⟩))) fun _ _ _ _ _ => ⟨.inr (.inl rfl), .inr (.inr (.inl rfl))⟩

/-! ### One token pair -/

theorem only_computeSBuyTokenPrice {E : PyErr → Prop} (hz : E .zeroDivision) (p x : ℚ) (b s : List Order) (fee : Fee) :
    Only E (computeSBuyTokenPrice p x b s fee) := by
  unfold computeSBuyTokenPrice
  refine only_bind (only_div hz _ _) fun _ _ => only_bind (only_div hz _ _) fun _ _ => only_bind (only_div hz _ _) fun _ _ =>
    only_bind (only_div hz _ _) fun _ _ => only_bind (only_div hz _ _) fun _ _ => ?_
  dsimp only
  split <;> exact only_pure _

theorem only_solveTokenPair {cfg : Config} {sqrt : ℚ → Py ℚ} {pair : Token × Token} {b s : List Order} {fee : Fee} {xrate bPrice : Option ℚ}
    {maxNr : ℤ} (h : SearchInput cfg fee b s) (hn : 0 ≤ maxNr) (hx : ∀ y, xrate = some y → 0 < y) (hp : ∀ p, bPrice = some p → 0 < p)
    (hm : xrate = none → ∃ o ∈ b, ∃ c ∈ s, Matchable fee o c) :
    Only (SearchFailure sqrt) (solveTokenPair cfg sqrt pair b s fee xrate bPrice maxNr) := by
  have hz : SearchFailure sqrt .zeroDivision := .inl rfl
  unfold solveTokenPair
  by_cases he : b.length = 0 ∨ s.length = 0
  · rw [if_pos he]; exact only_pure _
  rw [if_neg he]
  change Only _ (givenOrBestXrate cfg sqrt b s fee xrate >>= fun xrate => match xrate with
      | none => pure (none, b, s)
      | some x => roundXrate (effPrice cfg pair fee bPrice) x b s fee >>= fun x => do
          let (b, s) ← computeBuyAmounts cfg x b s fee maxNr
          pure (some x, b, s))
  have hex : ∀ x, 0 < x → Only (SearchFailure sqrt) (do
          let (b, s) ← computeBuyAmounts cfg x b s fee maxNr
          pure (some x, b, s) : Py _) := by
    intro x hx
    obtain ⟨r, hr⟩ := C05_no_exception (⟨h.minPos, hx, h.feeLt, hn, h.idsB, h.idsS⟩ : ExecInput cfg x fee maxNr b s)
    rw [hr, ok_bind]; exact only_pure _
  have hrest : ∀ x, 0 < x → Only (SearchFailure sqrt) (roundXrate (effPrice cfg pair fee bPrice) x b s fee >>= fun x => do
          let (b, s) ← computeBuyAmounts cfg x b s fee maxNr
          pure (some x, b, s) : Py _) := by
    intro x hx
    cases hep : effPrice cfg pair fee bPrice with
    | none => exact hex x hx
    | some p =>
      have hp0 : 0 < p := by
        unfold effPrice at hep
        split at hep
        · cases hep; have := h.feePrice; exact_mod_cast this
        · exact hp p hep
      unfold roundXrate
      refine only_bind (only_bind (only_computeSBuyTokenPrice hz _ _ _ _ _) fun _ _ => only_div hz _ _) fun y hy => ?_
      rw [bind_eq_ok] at hy
      obtain ⟨q, hq, hy⟩ := hy
      obtain ⟨q1, _⟩ := C20_close hp0 hx hq
      obtain ⟨_, rfl⟩ := pyDiv_eq_ok.1 hy
      have hq0 : (0 : ℚ) < q := by exact_mod_cast q1
      exact hex _ (div_pos hp0 hq0)
  cases xrate with
  | some y => exact hrest y (hx y rfl)
  | none =>
    unfold givenOrBestXrate
    refine only_bind (only_bind (only_findBestXrate h (hm rfl)) fun _ _ => only_pure _) fun xo hxo => ?_
    rw [bind_eq_ok] at hxo
    obtain ⟨r0, hf, e⟩ := hxo
    obtain ⟨x, v, _, _, _, _, _, rfl, _, _, _, hx0, _⟩ := C16_attained_maximum h hf
    cases e
    exact hrest x hx0

/-! ### The fee orders -/

theorem only_tokenPrice {cfg : Config} {sqrt : ℚ → Py ℚ} {imb : ℚ} {bTok : Token} {f : List Order} {fee : Fee} (hc : CfgOk cfg)
    (hfee : fee.value < 1) (hφ : 9 / 10 ≤ (1 - fee.value) ^ 2) (hne : f ≠ []) (hids : (f.map (·.id)).Nodup)
    (hok : ∀ o ∈ f, 0 < o.maxXrate ∧ 0 ≤ o.maxSell) :
    Only (SearchFailure sqrt) (tokenPriceToCoverImbalance cfg sqrt bTok fee imb f) := by
  obtain ⟨mo, e, h1, _, _, _, hmat, _⟩ := C22_market_order_matchable (cfg := cfg) (bt := fee.token) (st := bTok) (amt := imb * (101 / 100))
    (⟨hfee, hne, fun o ho => (hok o ho).1⟩ : FeeOrders fee f) hφ
  obtain ⟨m, hm, _, e'⟩ := createMarketOrder_eq (cfg := cfg) (bt := fee.token) (st := bTok) (amt := imb * (101 / 100)) hne (fun o ho => (hok o ho).1)
  have hx0 : 0 < mo.maxXrate := by
    rw [e] at e'; cases e'
    have := (hok m hm).1
    show (0 : ℚ) < 1 / _; positivity
  have hmin : (0 : ℚ) < cfg.minRationalTradable := by exact_mod_cast hc.minRational
  have si : SearchInput cfg fee [mo] f := ⟨hc.minRational, hfee, hc.limit, hc.feePrice, by simp, hids,
    by simpa using ⟨hx0, hmin.le.trans h1⟩, hok⟩
  unfold tokenPriceToCoverImbalance
  simp only [e, ok_bind]
  obtain ⟨o, ho⟩ := List.exists_mem_of_ne_nil _ hne
  refine only_bind (only_findBestXrate si ⟨mo, by simp, o, ho, hmat o ho⟩) fun r hr => ?_
  obtain ⟨x, v, _, _, _, _, _, rfl, _, _, _, hx, _⟩ := C16_attained_maximum si hr
  simp only [pyDiv_of_ne hx.ne', ok_bind]
  split <;> exact only_pure _

theorem only_solveBFee {cfg : Config} {sqrt : ℚ → Py ℚ} {imb : ℚ} {bTok : Token} {f : List Order} {fee : Fee} (hc : CfgOk cfg)
    (hfee : fee.value < 1) (hφ : 9 / 10 ≤ (1 - fee.value) ^ 2) (hne : f ≠ []) (hids : (f.map (·.id)).Nodup)
    (hok : ∀ o ∈ f, 0 < o.maxXrate ∧ 0 ≤ o.maxSell) : Only (SearchFailure sqrt) (solveBFee cfg sqrt imb bTok f fee) := by
  unfold solveBFee
  refine only_bind (only_tokenPrice hc hfee hφ hne hids hok) fun p hp => ?_
  obtain ⟨_, _, _, _, _, _, hp0, _⟩ := C21_price ⟨hfee, hne, fun o ho => (hok o ho).1⟩ ⟨hc.minRational, hc.limit, hc.feePrice⟩ hids
    (fun o ho => (hok o ho).2) hp
  obtain ⟨m, hm, _, emo⟩ := createMarketOrder_eq (cfg := cfg) (bt := fee.token) (st := bTok) (amt := imb) hne (fun o ho => (hok o ho).1)
  rw [emo, ok_bind]
  refine only_bind (only_div (.inl rfl) _ _) fun fx hfx => ?_
  obtain ⟨hne0, rfl⟩ := pyDiv_eq_ok.1 hfx
  have hne0' : p ≠ 0 := by exact_mod_cast hne0
  have hP : (0 : ℚ) < cfg.feeTokenPrice := by exact_mod_cast hc.feePrice
  have hpq : (0 : ℚ) < p := by exact_mod_cast (by omega : 0 < p)
  have hm0 := (hok m hm).1
  have hmin : (0 : ℚ) < cfg.minRationalTradable := by exact_mod_cast hc.minRational
  have hin : SearchInput cfg fee [Order.mk' fee.token bTok (max imb (cfg.minRationalTradable : ℚ)) (1 / (m.maxXrate * (9 / 10))) none marketOrderId] f := by
    refine ⟨hc.minRational, hfee, hc.limit, hc.feePrice, by simp, hids, ?_, hok⟩
    intro o ho
    rw [List.mem_singleton] at ho
    subst ho
    exact ⟨by show (0 : ℚ) < 1 / _; positivity, hmin.le.trans (le_max_right _ _)⟩
  have hfx0 : (0 : ℚ) < cfg.feeTokenPrice / p := div_pos hP hpq
  refine only_bind (only_solveTokenPair hin hc.limit (fun y hy => by cases hy; exact hfx0) (fun q hq => by cases hq) (fun h => by cases h)) fun r hr => ?_
  obtain ⟨xo, mo', f1⟩ := r
  rcases solveTokenPair_spec hin hc.limit (fun y hy => by cases hy; exact hfx0) (fun q hq => by cases hq) hr with
    ⟨_, _, _, h0⟩ | ⟨x, x0, rfl, _⟩
  · exfalso
    rcases h0 with h0 | h0
    · cases h0
    · exact hne h0
  · dsimp only
    rw [pyAssert_of (by simp), ok_bind]; exact only_pure _

theorem objectiveForOrders_ok {l : List Order} {x p : ℚ} {fee : Fee} (hf : fee.value < 1) (hx : x ≠ 0) (h : ∀ o ∈ l, o.maxXrate ≠ 0) :
    ∃ v, objectiveForOrders l x p fee = .ok v := by
  have hφ : (1 - fee.value) ≠ 0 := by have : 0 < 1 - fee.value := by linarith
                                      exact this.ne'
  unfold objectiveForOrders
  induction l with
  | nil => exact ⟨_, rfl⟩
  | cons o l ih =>
    obtain ⟨v, hv⟩ := ih (fun a ha => h a (by simp [ha]))
    have ho := h o (by simp)
    unfold sumE
    have : ∃ t, ratObjectiveTerm o x p fee = .ok t := by
      unfold ratObjectiveTerm ratMaxUtility ratUtility ratSellFromBuy
      have ho' : ∀ a, (o.withBuy a).maxXrate ≠ 0 := fun _ => ho
      simp only [pyDiv_of_ne hφ, pyDiv_of_ne hx, pyDiv_of_ne ho, pyDiv_of_ne (ho' _), ok_bind, pure_eq_ok]
      exact ⟨_, rfl⟩
    obtain ⟨t, ht⟩ := this
    rw [ht, ok_bind, hv, ok_bind]
    exact ⟨_, rfl⟩

theorem bBuyTokenImbalance_ok (b s : List Order) {x : ℚ} (p : ℚ) {fee : Fee} (hf : fee.value < 1) (hx : x ≠ 0) :
    ∃ v, bBuyTokenImbalance b s x p fee = .ok v := by
  have hφ : (1 - fee.value) ≠ 0 := by have : 0 < 1 - fee.value := by linarith
                                      exact this.ne'
  unfold bBuyTokenImbalance
  simp only [pyDiv_of_ne hx, ok_bind]
  rw [sumE_of_forall (g := fun o => o.buy * (1 / x) / (1 - fee.value)) (fun o _ => by unfold ratSellFromBuy; rw [pyDiv_of_ne hφ])]
  exact ⟨_, rfl⟩

theorem computeObjectiveRational_ok {cfg : Config} {b s f : List Order} {x p : ℚ} {fee : Fee} (hf : fee.value < 1) (hx : x ≠ 0) (hp : p ≠ 0)
    (hP : cfg.feeTokenPrice ≠ 0) (hb : ∀ o ∈ b, o.maxXrate ≠ 0) (hs : ∀ o ∈ s, o.maxXrate ≠ 0) (hfo : ∀ o ∈ f, o.maxXrate ≠ 0) :
    ∃ v, computeObjectiveRational cfg b s f x p fee = .ok v := by
  have hP' : (cfg.feeTokenPrice : ℚ) ≠ 0 := by exact_mod_cast hP
  obtain ⟨v1, h1⟩ := objectiveForOrders_ok (p := p) hf hx hb
  obtain ⟨v2, h2⟩ := objectiveForOrders_ok (p := p / x) hf (one_div_ne_zero hx) hs
  obtain ⟨v3, h3⟩ := objectiveForOrders_ok (p := p) hf (div_ne_zero hp hP') hfo
  obtain ⟨v4, h4⟩ := bBuyTokenImbalance_ok b s p hf hx
  unfold computeObjectiveRational
  simp only [h1, h2, h3, h4, pyDiv_of_ne hx, pyDiv_of_ne hP', ok_bind]
  exact ⟨_, rfl⟩

theorem restoreMaxSell_ok {l l2 : List Order} (h : List.Forall₂ (fun o o2 => o.maxSell ≤ o2.origMaxSell) l l2) :
    ∃ l3, restoreMaxSell l2 (l.map (·.maxSell)) = .ok l3 := by
  unfold restoreMaxSell
  refine ⟨_, mapE_of_forall (g := fun p : Order × ℚ => { p.1 with maxSell := p.2 }) ?_⟩
  induction h with
  | nil => simp
  | cons h1 _ ih =>
    intro p hp
    rw [List.map_cons, List.zip_cons_cons, List.mem_cons] at hp
    rcases hp with rfl | hp
    · unfold Order.setMaxSell
      rw [pyAssert_of h1]; rfl
    · exact ih p hp

theorem only_solveBuffered {cfg : Config} {sqrt : ℚ → Py ℚ} {pair : Token × Token} {b s : List Order} {x p : ℚ} {fee : Fee} {maxNr : ℤ}
    (h : BufferInput cfg pair b s x p fee) (hs : SearchInput cfg fee b s) (hn : 0 ≤ maxNr) (hb : b ≠ []) (hsn : s ≠ []) :
    Only (SearchFailure sqrt) (solveBuffered cfg sqrt pair b s x p fee maxNr) := by
  unfold solveBuffered
  rw [C29_enter_exact h, ok_bind]
  obtain ⟨hlt1, hlt2⟩ := C29_strictly_smaller h (C29_enter_exact h)
  generalize hb1 : b.map (reduced (bufferSize cfg cfg.feeTokenPrice p x)) = b1 at *
  generalize hs1 : s.map (reduced (bufferSize cfg cfg.feeTokenPrice (p / x) (1 / x))) = s1 at *
  have hids : ∀ (d : ℤ) (l : List Order), (l.map (reduced d)).map (·.id) = l.map (·.id) := by
    intro d l; rw [List.map_map]; rfl
  have hin : SearchInput cfg fee b1 s1 := by
    refine ⟨hs.minPos, hs.feeLt, hs.limit, hs.feePrice, ?_, ?_, ?_, ?_⟩
    · rw [← hb1, hids]; exact hs.idsB
    · rw [← hs1, hids]; exact hs.idsS
    · intro o ho
      rw [← hb1] at ho
      obtain ⟨a, ha, rfl⟩ := List.mem_map.1 ho
      exact ⟨(hs.ordB a ha).1, le_max_right _ _⟩
    · intro o ho
      rw [← hs1] at ho
      obtain ⟨a, ha, rfl⟩ := List.mem_map.1 ho
      exact ⟨(hs.ordS a ha).1, le_max_right _ _⟩
  have hx1 : ∀ y, some x = some y → 0 < y := fun y hy => by cases hy; exact h.rate
  have hp1 : ∀ q, some p = some q → 0 < q := fun q hq => by cases hq; exact h.price
  refine only_bind (only_solveTokenPair hin hn hx1 hp1 (fun h => by cases h)) fun r hr => ?_
  obtain ⟨r', b2, s2⟩ := r
  have key : ∀ {l l1 l2 : List Order}, (∀ o ∈ l, 0 ≤ o.maxSell ∧ o.maxSell ≤ o.origMaxSell) → List.Forall₂ Tighter l l1 →
      List.Forall₂ SameButBuy l1 l2 → ∃ l3, restoreMaxSell l2 (l.map (·.maxSell)) = .ok l3 := by
    intro l l1 l2 g0 g1 g2
    refine restoreMaxSell_ok ?_
    have h12 := forall₂_trans' (R := Tighter) (S := SameButBuy) (T := fun o o2 => o2.origMaxSell = o.origMaxSell)
      (fun o o1 o2 e1 e2 => by
        unfold SameButBuy at e2
        rw [e2, e1.same]) g1 g2
    clear g1 g2
    induction h12 with
    | nil => exact .nil
    | cons e _ ih => exact .cons (by rw [e]; exact (g0 _ (by simp)).2) (ih (fun o ho => g0 o (by simp [ho])))
  rcases solveTokenPair_spec hin hn hx1 hp1 hr with ⟨_, _, _, h0⟩ | ⟨y, x0, rfl, hy, hx0, hxx, _, _, hpr, _, hex⟩
  · exfalso
    rcases h0 with h0 | h0
    · rw [← hb1] at h0; exact hb (List.map_eq_nil_iff.1 h0)
    · rw [← hs1] at h0; exact hsn (List.map_eq_nil_iff.1 h0)
  · obtain ⟨l3, e3⟩ := key h.amtB hlt1 hex.sameB
    obtain ⟨l4, e4⟩ := key h.amtS hlt2 hex.sameS
    dsimp only
    rw [e3, ok_bind, e4, ok_bind]
    exact only_pure _

theorem only_givenExecF {cfg : Config} {sqrt : ℚ → Py ℚ} {nrF : ℕ} {imb : ℚ} {pair : Token × Token} {bk : Books} {x : ℚ} {fee : Fee}
    {pool : List Order} (hp : Pool pool) (hc : CfgOk cfg) (hfee : fee.value < 1) (hφ : 9 / 10 ≤ (1 - fee.value) ^ 2) (hb : BookOf pool pair fee bk)
    (hne : pair.1 ≠ pair.2) (hF1 : pair.1 ≠ fee.token) (hF2 : pair.2 ≠ fee.token) (hx : 0 < x) (hbn : bk.b ≠ []) (hsn : bk.s ≠ [])
    (hfn : bk.f ≠ []) (hn1 : 1 ≤ nrF) (hn2 : (nrF : ℤ) ≤ cfg.maxNrExec) :
    Only (SearchFailure sqrt) (givenExecF cfg sqrt nrF imb pair bk x fee) := by
  unfold givenExecF
  have htake : bk.f.take nrF ≠ [] := by
    cases hf : bk.f with
    | nil => exact absurd hf hfn
    | cons o l => obtain ⟨k, rfl⟩ : ∃ k, nrF = k + 1 := ⟨nrF - 1, by omega⟩; simp
  have hids : ((bk.f.take nrF).map (·.id)).Nodup := by rw [List.map_take]; exact hb.idsF.sublist (List.take_sublist _ _)
  have hok : ∀ o ∈ bk.f.take nrF, 0 < o.maxXrate ∧ 0 ≤ o.maxSell :=
    fun o ho => ⟨((hb.derF o (List.mem_of_mem_take ho)).ok hp).1, ((hb.derF o (List.mem_of_mem_take ho)).ok hp).2.1⟩
  refine only_bind (only_solveBFee hc hfee hφ htake hids hok) fun r h1 => ?_
  obtain ⟨p, fT⟩ := r
  obtain ⟨p1, sT, eT⟩ := solveBFee_spec hc hfee htake hids hok h1
  have hlen := sT.length_eq
  have htk : (fT ++ bk.f.drop nrF).take nrF = fT := by
    rw [List.length_take] at hlen
    by_cases hle : nrF ≤ bk.f.length
    · rw [List.take_append_of_le_length (by omega), List.take_of_length_le (by omega)]
    · rw [List.drop_of_length_le (by omega), List.append_nil, List.take_of_length_le (by omega)]
  have hcnt : countNrExec fT ≤ nrF := by
    refine (List.countP_le_length).trans ?_
    rw [← hlen, List.length_take]; omega
  dsimp only
  rw [htk]
  split
  · exact only_pure _
  · have hpq : (0 : ℚ) < p := by exact_mod_cast p1
    have hbi : BufferInput cfg pair bk.b bk.s x p fee :=
      ⟨hx, hpq, hc.feePrice, hc.volume, hc.error, hne, hF1, hF2, hb.clsB, hb.clsS, fun o ho => ((hb.derB o ho).ok hp).2,
        fun o ho => ((hb.derS o ho).ok hp).2⟩
    refine only_bind (only_solveBuffered hbi (hb.search hp hc hfee) (by omega) hbn hsn) fun r h2 => ?_
    obtain ⟨xo, b', s'⟩ := r
    obtain ⟨y, q, rfl, hy, hq1, _, hyq, hex, _, _⟩ := solveBuffered_spec hbi (hb.search hp hc hfee) (by omega) hbn hsn h2
    dsimp only
    have hm : ∀ {l l' : List Order}, (∀ o ∈ l, Der pool o) → List.Forall₂ SameButExec l l' → ∀ o ∈ l', o.maxXrate ≠ 0 :=
      fun g1 g2 o ho => ((der_forall₂ g1 g2 o ho).ok hp).1.ne'
    have hsf : List.Forall₂ SameButExec bk.f (fT ++ bk.f.drop nrF) := by
      have : List.Forall₂ SameButExec (bk.f.take nrF ++ bk.f.drop nrF) (fT ++ bk.f.drop nrF) :=
        List.rel_append (forall₂_exec_of_buy sT) (forall₂_same_refl (bk.f.drop nrF))
      rwa [List.take_append_drop] at this
    obtain ⟨v, hv⟩ := computeObjectiveRational_ok (cfg := cfg) hfee hy.ne' hpq.ne' hc.feePrice.ne' (hm hb.derB (forall₂_exec_of_buy hex.sameB))
      (hm hb.derS (forall₂_exec_of_buy hex.sameS)) (hm hb.derF hsf)
    rw [hv, ok_bind]
    exact only_pure _

theorem only_fOrdersLoop {cfg : Config} {sqrt : ℚ → Py ℚ} {imb : ℚ} {pair : Token × Token} {x : ℚ} {fee : Fee}
    {pool : List Order} (hp : Pool pool) (hc : CfgOk cfg) (hfee : fee.value < 1) (hφ : 9 / 10 ≤ (1 - fee.value) ^ 2)
    (hne : pair.1 ≠ pair.2) (hF1 : pair.1 ≠ fee.token) (hF2 : pair.2 ≠ fee.token) (hx : 0 < x)
    {ns : List ℕ} {st : FLoopState} {bk0 : Books} (hb : BookOf pool pair fee bk0) (hbn : bk0.b ≠ []) (hsn : bk0.s ≠ []) (hfn : bk0.f ≠ [])
    (hns : ∀ n ∈ ns, 1 ≤ n ∧ (n : ℤ) ≤ cfg.maxNrExec) (h1 : BooksSame bk0 st.books) :
    Only (SearchFailure sqrt) (fOrdersLoop cfg sqrt imb pair x fee ns st) := by
  induction ns generalizing st with
  | nil => exact only_ok _
  | cons n ns ih =>
    unfold fOrdersLoop
    have ne_of : ∀ {l l' : List Order}, List.Forall₂ SameButExec l l' → l ≠ [] → l' ≠ [] := by
      intro l l' h hn hc; subst hc; cases h; exact hn rfl
    have hreset : ∀ l : List Order, List.Forall₂ SameButExec l (l.map (fun o => (o.withBuy 0).withSell 0)) := by
      intro l
      induction l with
      | nil => exact .nil
      | cons o l ih => exact .cons rfl ih
    have hsame : BooksSame bk0 { st.books with f := st.books.f.map (fun o => (o.withBuy 0).withSell 0) } :=
      ⟨h1.b, h1.s, forall₂_same_trans h1.f (hreset _)⟩
    dsimp only
    refine only_bind (only_givenExecF hp hc hfee hφ (hb.same hsame) hne hF1 hF2 hx (ne_of h1.b hbn) (ne_of h1.s hsn)
      (ne_of hsame.f hfn) (hns n (by simp)).1 (hns n (by simp)).2) fun r e1 => ?_
    obtain ⟨r1, r2⟩ := givenExecF_spec hp hc hfee (hb.same hsame) hne hF1 hF2 hx (ne_of h1.b hbn) (ne_of h1.s hsn)
      (ne_of hsame.f hfn) (hns n (by simp)).1 (hns n (by simp)).2
      (fun o ho => by obtain ⟨a, _, rfl⟩ := List.mem_map.1 ho; rfl) e1
    have hR := hsame.trans r1
    have hns' : ∀ n ∈ ns, 1 ≤ n ∧ (n : ℤ) ≤ cfg.maxNrExec := fun m hm => hns m (by simp [hm])
    cases hbp : r.bPrice with
    | none => exact ih hns' (st := { st with books := r.books }) hR
    | some p =>
      dsimp only
      cases hbest : st.best with
      | none => exact ih hns' (st := { best := some r, books := r.books }) hR
      | some best =>
        dsimp only
        split
        · exact only_pure _
        · rename_i hlt
          rw [pyAssert_of (not_lt.1 hlt), ok_bind]
          exact ih hns' (st := { best := some r, books := r.books }) hR

theorem aggregateAndRound_ok {cfg : Config} {ext : Ext} {pair : Token × Token} {bk : Books} {x p : ℚ} {fee : Fee} {pool : List Order}
    (hp : Pool pool) (hc : CfgOk cfg) (hfee : fee.value < 1) (hb : BookOf pool pair fee bk)
    (hne : pair.1 ≠ pair.2) (hF2 : pair.2 ≠ fee.token) (hbr : ∀ E, MaxBranching E (ext.branch E)) (hg : GoodMatch cfg fee pair bk x p) :
    ∃ r, aggregateAndRound cfg ext pair bk x p fee = .ok r := by
  obtain ⟨B, S⟩ := pair
  have hBS : B ≠ S := hne
  have hSF : S ≠ fee.token := hF2
  unfold aggregateAndRound aggregateOrdersPrices
  simp only [pyDiv_of_ne hg.ratePos.ne', ok_bind, pure_eq_ok]
  generalize hpr : dictSet (dictSet [(fee.token, (cfg.feeTokenPrice : ℚ))] B p) S (p / x) = prices
  generalize hos : bk.b ++ bk.s ++ bk.f = orders
  have hP : (0 : ℚ) < cfg.feeTokenPrice := by exact_mod_cast hc.feePrice
  obtain ⟨k, hk1, hk⟩ := hg.price
  obtain ⟨q, hq1, hq⟩ := hg.sPrice
  have hp0 : 0 < p := by rw [hk]; exact_mod_cast hk1
  have hq0 : (0 : ℚ) < q := by exact_mod_cast hq1
  have hpx : p / x = q := by rw [hq]; field_simp
  have gF : dictGet? prices fee.token = some (cfg.feeTokenPrice : ℚ) := by
    rw [← hpr, dictGet?_dictSet, if_neg hSF, dictGet?_dictSet]
    rcases hg.feeCase with ⟨h1, _, h2⟩ | ⟨h1, _⟩
    · rw [if_pos h1, h2]
    · have h1 : B ≠ fee.token := h1
      rw [if_neg h1]; simp [dictGet?_cons]
  have gB : dictGet? prices B = some p := by
    rw [← hpr, dictGet?_dictSet, if_neg hBS.symm, dictGet?_dictSet, if_pos rfl]
  have gS : dictGet? prices S = some (q : ℚ) := by
    rw [← hpr, dictGet?_dictSet, if_pos rfl, hpx]
  have hkeys : (prices.map (·.1)).Nodup := by
    rw [← hpr]; exact agg_keys_nodup _ _ _ _ _ _
  have hkmem : ∀ t ∈ dictKeys prices, t = fee.token ∨ t = B ∨ t = S := by
    intro t ht
    rw [← dictGet?_isSome, ← hpr] at ht
    obtain ⟨v, hv⟩ := ht
    rw [dictGet?_dictSet] at hv
    split at hv
    · exact .inr (.inr (by rename_i h; exact h.symm))
    · rw [dictGet?_dictSet] at hv
      split at hv
      · exact .inr (.inl (by rename_i h; exact h.symm))
      · rw [dictGet?_cons] at hv
        split at hv
        · exact .inl (by rename_i h; exact h.symm)
        · simp at hv
  have hint : IntPrices prices := by
    intro e he
    have h1 := dictGet?_of_mem (d := prices) hkeys (k := e.1) (v := e.2) he
    rcases hkmem e.1 (List.mem_map.2 ⟨e, he, rfl⟩) with h2 | h2 | h2 <;> rw [h2] at h1
    · rw [gF] at h1; rw [← Option.some.inj h1]; exact ⟨hP, isInt_intCast _⟩
    · rw [gB] at h1; rw [← Option.some.inj h1]; exact ⟨hp0, by rw [hk]; exact isInt_intCast _⟩
    · rw [gS] at h1; rw [← Option.some.inj h1]; exact ⟨hq0, isInt_intCast _⟩
  have hf0 : ∀ o ∈ bk.f, o.buyToken = B ∧ o.sellToken = fee.token := by
    intro o ho
    rcases hg.feeCase with ⟨_, h2, _⟩ | ⟨h1, _⟩
    · rw [h2] at ho; simp at ho
    · exact hb.clsF h1 o ho
  have hids : (orders.map (·.id)).Nodup := by
    rw [← hos]
    refine nodup_ids_append hp ?_ hb.derF (nodup_ids_append hp hb.derB hb.derS hb.idsB hb.idsS ?_) hb.idsF ?_
    · intro o ho
      rcases List.mem_append.1 ho with h | h
      · exact hb.derB o h
      · exact hb.derS o h
    · intro o ho o' ho' h
      have h1 : o.buyToken = B := (hb.clsB o ho).1
      have h2 : o'.buyToken = S := (hb.clsS o' ho').1
      exact hBS (by rw [← h1, h.1, h2])
    · intro o ho o' ho' h
      obtain ⟨h1, h2⟩ := hf0 o' ho'
      rcases List.mem_append.1 ho with h' | h'
      · have h3 : o.sellToken = S := (hb.clsB o h').2
        exact hSF (by rw [← h3, h.2, h2])
      · have h3 : o.buyToken = S := (hb.clsS o h').1
        exact hBS (by rw [← h3, h.1, h1])
  have hpriced : ∀ o ∈ orders, Priced prices o := by
    intro o ho
    rw [priced_iff]
    simp only [priceOf_iff]
    rw [← hos] at ho
    simp only [List.mem_append] at ho
    rcases ho with (h | h) | h
    · obtain ⟨c1, c2⟩ := hb.clsB o h
      rw [c1, c2]; exact ⟨⟨_, gB⟩, _, gS⟩
    · obtain ⟨c1, c2⟩ := hb.clsS o h
      rw [c1, c2]; exact ⟨⟨_, gS⟩, _, gB⟩
    · obtain ⟨c1, c2⟩ := hf0 o h
      rw [c1, c2]; exact ⟨⟨_, gB⟩, _, gF⟩
  obtain ⟨ok, res, e⟩ := C26_rounding_total (cfg := cfg) (branch := ext.branch) (⟨hint, hfee, hids, hpriced⟩ : RoundInput prices fee orders)
    (fun E => (hbr E).1)
  rw [e, ok_bind]
  cases ok <;> exact ⟨_, rfl⟩

/-! ### The matching step -/

theorem only_solveOriented {cfg : Config} {ext : Ext} {pair : Token × Token} {b s f : List Order} {fee : Fee} {xrate : Option ℚ}
    {pool : List Order} (hp : Pool pool) (hc : CfgOk cfg) (hfee : fee.value < 1) (hφ : 9 / 10 ≤ (1 - fee.value) ^ 2)
    (hb : BookOf pool pair fee { b, s, f }) (hne : pair.1 ≠ pair.2) (hF2 : pair.2 ≠ fee.token) (hbr : ∀ E, MaxBranching E (ext.branch E))
    (hx : ∀ y, xrate = some y → 0 < y) (hm : ∃ o ∈ b, ∃ c ∈ s, Matchable fee o c) :
    Only (SearchFailure ext.sqrt) (solveOriented cfg ext pair b s f fee xrate) := by
  have hsearch : SearchInput cfg fee b s := hb.search hp hc hfee
  unfold solveOriented
  refine only_bind (only_solveTokenPair hsearch hc.limit hx (fun q hq => by cases hq) (fun _ => hm)) fun r h1 => ?_
  obtain ⟨xo, b1, s1⟩ := r
  have hsame : BooksSame { b, s, f } { b := b1, s := s1, f } := by
    rcases solveTokenPair_spec hsearch hc.limit hx (fun q hq => by cases hq) h1 with ⟨_, rfl, rfl, _⟩ | ⟨_, _, _, _, _, _, _, _, _, _, hex⟩
    · exact BooksSame.refl _
    · exact ⟨forall₂_exec_of_buy hex.sameB, forall₂_exec_of_buy hex.sameS, forall₂_same_refl _⟩
  have hb1 := hb.same hsame
  dsimp only
  by_cases h0 : countNrExec b1 = 0
  · rw [if_pos h0]; exact only_pure _
  rw [if_neg h0]
  obtain ⟨o0, ho0, c0, hc0, _⟩ := hm
  obtain ⟨x, x0, e0, hy, _, _, _, _, hpr, _, hex⟩ := (solveTokenPair_spec hsearch hc.limit hx (fun q hq => by cases hq) h1).resolve_left
    (by
      rintro ⟨_, _, _, h | h⟩
      · rw [h] at ho0; simp at ho0
      · rw [h] at hc0; simp at hc0)
  subst e0
  dsimp only
  by_cases hF : pair.1 = fee.token
  · rw [if_pos hF]
    obtain ⟨q, _, hq1, _, hq⟩ := hpr cfg.feeTokenPrice (by unfold effPrice; rw [if_pos hF])
    have hbA : BookOf pool pair fee { b := b1, s := s1, f := [] } :=
      ⟨hb1.derB, hb1.derS, by simp, hb1.idsB, hb1.idsS, by simp, hb1.clsB, hb1.clsS, by simp⟩
    have hgood : GoodMatch cfg fee pair { b := b1, s := s1, f := [] } x cfg.feeTokenPrice := by
      refine ⟨hy, ⟨cfg.feeTokenPrice, hc.feePrice, rfl⟩, ⟨q, hq1, hq⟩, hex.exB, hex.exS, by simp, ?_, hex.both, .inl ⟨hF, rfl, rfl⟩⟩
      have := hex.count
      simpa [countNrExec] using this
    obtain ⟨r, hr⟩ := aggregateAndRound_ok hp hc hfee hbA hne hF2 hbr hgood
    rw [hr, ok_bind]; exact only_pure _
  rw [if_neg hF]
  by_cases hf0 : f.length = 0
  · rw [if_pos hf0]; exact only_pure _
  rw [if_neg hf0]
  obtain ⟨imb, hi⟩ := bBuyTokenImbalance_ok b1 s1 1 hfee hy.ne'
  rw [hi, ok_bind]
  have hcnt : nrFOrders cfg b1 s1 f = .ok (max (min (cfg.maxNrExec - countNrExec b1 - countNrExec s1 + 1) (min (f.length : ℤ) (cfg.maxNrExec - 2))) 1,
      min (f.length : ℤ) (cfg.maxNrExec - 2)) := by
    unfold nrFOrders
    dsimp only
    rw [pyAssert_of hex.count]; rfl
  rw [hcnt, ok_bind]
  generalize hmx : min (f.length : ℤ) (cfg.maxNrExec - 2) = mx
  generalize hmn : max (min (cfg.maxNrExec - countNrExec b1 - countNrExec s1 + 1) mx) 1 = mn
  dsimp only
  split
  · exact only_pure _
  rename_i hle
  have hperm := sortedByExecPriority_perm f
  have hbS : BookOf pool pair fee { b := b1, s := s1, f := sortedByExecPriority f } :=
    ⟨hb1.derB, hb1.derS, fun o ho => hb1.derF o (hperm.mem_iff.1 ho), hb1.idsB, hb1.idsS, (hperm.map _).nodup_iff.2 hb1.idsF, hb1.clsB,
      hb1.clsS, fun h o ho => hb1.clsF h o (hperm.mem_iff.1 ho)⟩
  have hbn : b1 ≠ [] := by rintro rfl; exact h0 rfl
  have hsn : s1 ≠ [] := by
    obtain ⟨o, ho, hpos⟩ := exists_of_countNrExec h0
    obtain ⟨o', ho', _⟩ := hex.both.1 ⟨o, ho, hpos⟩
    rintro rfl; simp at ho'
  have hfn : sortedByExecPriority f ≠ [] := by
    intro h; rw [h] at hperm; rw [← hperm.length_eq] at hf0; simp at hf0
  have hns : ∀ n ∈ (List.range (mx + 1 - mn).toNat).map (· + mn.toNat), 1 ≤ n ∧ (n : ℤ) ≤ cfg.maxNrExec := by
    intro n hn
    obtain ⟨i, hi, rfl⟩ := List.mem_map.1 hn
    rw [List.mem_range] at hi
    omega
  refine only_bind (only_fOrdersLoop hp hc hfee hφ hne hF hF2 hy (bk0 := { b := b1, s := s1, f := sortedByExecPriority f }) hbS hbn hsn hfn
    hns (BooksSame.refl _)) fun st h3 => ?_
  obtain ⟨l1, l2⟩ := fOrdersLoop_spec hp hc hfee hne hF hF2 hy (bk0 := { b := b1, s := s1, f := sortedByExecPriority f }) hbS hbn hsn hfn
    hns (BooksSame.refl _) (by intro g hg; cases hg) h3
  cases hbest : st.best with
  | none => exact only_pure _
  | some best =>
    dsimp only
    obtain ⟨g1, g2⟩ := l2 best hbest
    cases hbp : best.bPrice with
    | none => exact only_pure _
    | some p =>
      dsimp only
      obtain ⟨r, hr⟩ := aggregateAndRound_ok hp hc hfee (hbS.same g1) hne hF2 hbr (g2 p hbp)
      rw [hr, ok_bind]; exact only_pure _

theorem only_solveTokenPairAndFee {cfg : Config} {ext : Ext} {pair : Token × Token} {b s f : List Order} {fee : Fee} {xrate : Option ℚ}
    {pool : List Order} (hp : Pool pool) (hc : CfgOk cfg) (hfee : fee.value < 1) (hφ : 9 / 10 ≤ (1 - fee.value) ^ 2)
    (hb : BookOf pool pair fee { b, s, f }) (hne : pair.1 ≠ pair.2) (hbr : ∀ E, MaxBranching E (ext.branch E))
    (hx : ∀ y, xrate = some y → 0 < y) (hbn : b ≠ []) (hsn : s ≠ []) :
    Only (SearchFailure ext.sqrt) (solveTokenPairAndFee cfg ext pair b s f fee xrate) := by
  have hpi := SearchInput.prune (hb.search hp hc hfee) hbn hsn
  obtain ⟨b1, s1, h1, sb, ss, mb, ms⟩ := C14_exact hpi
  have hb1 := hb.sub sb ss (List.Sublist.refl _)
  unfold solveTokenPairAndFee
  rw [h1, ok_bind]
  dsimp only
  split
  · exact only_pure _
  rename_i hlen
  have hm : ∃ o ∈ b1, ∃ c ∈ s1, Matchable fee o c := by
    obtain ⟨o, ho⟩ : ∃ o, o ∈ b1 := List.exists_mem_of_ne_nil _ (fun h => hlen (.inl (by rw [h]; rfl)))
    obtain ⟨ho', c, hc', hoc⟩ := (mb o).1 ho
    exact ⟨o, ho, c, (ms c).2 ⟨hc', o, ho', hoc⟩, hoc⟩
  split
  · rename_i hF
    have hsw : BookOf pool (pair.2, pair.1) fee { b := s1, s := b1, f } :=
      ⟨hb1.derS, hb1.derB, hb1.derF, hb1.idsS, hb1.idsB, hb1.idsF, hb1.clsS, hb1.clsB, fun h => absurd hF h⟩
    obtain ⟨o, ho, c, hc', hoc⟩ := hm
    refine only_bind (only_solveOriented hp hc hfee hφ hsw (Ne.symm hne) (by rw [← hF]; exact hne) hbr hx
      ⟨c, hc', o, ho, ?_⟩) fun _ _ => only_pure _
    obtain ⟨y, hy, y1, y2⟩ := hoc
    exact ⟨1 / y, one_div_pos.2 hy, y2, by rwa [one_div_one_div]⟩
  · rename_i hF
    exact only_bind (only_solveOriented hp hc hfee hφ hb1 hne hF hbr hx hm) fun _ _ => only_pure _

/-! ### The loop over removals -/

/-- A non-trivial solution has a price for both tokens of the pair. -/
def PairPriced (pair : Token × Token) (sol : Solution) : Prop :=
  sol = .trivial ∨ (∃ p, dictGet? sol.prices pair.1 = some p) ∧ ∃ p, dictGet? sol.prices pair.2 = some p

theorem aggregateAndRound_priced {cfg : Config} {ext : Ext} {pair : Token × Token} {bk : Books} {x p : ℚ} {fee : Fee} {sol : Solution}
    {os : List Order} (h : aggregateAndRound cfg ext pair bk x p fee = .ok (sol, os)) : PairPriced pair sol := by
  unfold aggregateAndRound aggregateOrdersPrices at h
  simp only [bind_eq_ok] at h
  obtain ⟨⟨orders, prices⟩, ⟨sp, _, e⟩, ⟨ok, os'⟩, _, h⟩ := h
  cases e
  cases ok
  · simp only [Bool.false_eq_true, if_false] at h; cases h; exact .inl rfl
  · simp only [if_true] at h
    cases h
    refine .inr ⟨?_, ?_⟩
    · rw [dictGet?_dictSet]
      split
      · exact ⟨_, rfl⟩
      · rw [dictGet?_dictSet, if_pos rfl]; exact ⟨_, rfl⟩
    · rw [dictGet?_dictSet, if_pos rfl]; exact ⟨_, rfl⟩

theorem solveOriented_priced {cfg : Config} {ext : Ext} {pair : Token × Token} {b s f : List Order} {fee : Fee} {xrate : Option ℚ}
    {r : MatchResult} (hr : solveOriented cfg ext pair b s f fee xrate = .ok r) : PairPriced pair r.sol := by
  unfold solveOriented at hr
  rw [bind_eq_ok] at hr
  obtain ⟨⟨xo, b1, s1⟩, _, hr⟩ := hr
  dsimp only at hr
  split at hr
  · cases hr; exact .inl rfl
  cases xo with
  | none => cases hr
  | some x =>
    dsimp only at hr
    split at hr
    · rw [bind_eq_ok] at hr
      obtain ⟨⟨sol, os⟩, h2, hr⟩ := hr
      cases hr
      exact aggregateAndRound_priced h2
    split at hr
    · cases hr; exact .inl rfl
    rw [bind_eq_ok] at hr
    obtain ⟨imb, _, hr⟩ := hr
    rw [bind_eq_ok] at hr
    obtain ⟨⟨mn, mx⟩, _, hr⟩ := hr
    dsimp only at hr
    split at hr
    · cases hr; exact .inl rfl
    rw [bind_eq_ok] at hr
    obtain ⟨st, _, hr⟩ := hr
    cases hbest : st.best with
    | none => rw [hbest] at hr; cases hr; exact .inl rfl
    | some best =>
      rw [hbest] at hr
      dsimp only at hr
      cases hbp : best.bPrice with
      | none => rw [hbp] at hr; cases hr; exact .inl rfl
      | some p =>
        rw [hbp] at hr
        dsimp only at hr
        rw [bind_eq_ok] at hr
        obtain ⟨⟨sol, os⟩, h4, hr⟩ := hr
        cases hr
        exact aggregateAndRound_priced h4

theorem solveTokenPairAndFee_priced {cfg : Config} {ext : Ext} {pair : Token × Token} {b s f : List Order} {fee : Fee} {xrate : Option ℚ}
    {r : MatchResult} (hr : solveTokenPairAndFee cfg ext pair b s f fee xrate = .ok r) : PairPriced pair r.sol := by
  unfold solveTokenPairAndFee at hr
  rw [bind_eq_ok] at hr
  obtain ⟨⟨b1, s1⟩, _, hr⟩ := hr
  dsimp only at hr
  split at hr
  · cases hr; exact .inl rfl
  split at hr
  · rw [bind_eq_ok] at hr
    obtain ⟨r1, h2, hr⟩ := hr
    cases hr
    rcases solveOriented_priced h2 with h | ⟨h, h'⟩
    · exact .inl h
    · exact .inr ⟨h', h⟩
  · rw [bind_eq_ok] at hr
    obtain ⟨r1, h2, hr⟩ := hr
    cases hr
    exact (solveOriented_priced h2 :)

theorem only_minBy {α : Type} {E : PyErr → Prop} (hv : E .valueError) (k : α → ℚ) (l : List α) : Only E (pyMinBy k l) := by
  intro e he
  cases l with
  | nil => cases he; exact hv
  | cons a l => cases he

theorem prune_empty {b s : List Order} {fee : Fee} (h : b = [] ∨ s = []) : ∀ e, pruneUnrealizable b s fee = .error e → e = .valueError := by
  intro e he
  unfold pruneUnrealizable at he
  dsimp only at he
  cases b with
  | nil => cases he; rfl
  | cons o b =>
    obtain rfl : s = [] := h.resolve_left (by simp)
    obtain ⟨m, hm⟩ := pyMaxBy_of_ne_nil (fun q : ℚ => q) (l := (o :: b).map (·.maxXrate)) (by simp)
    rw [show pyMaxBy id ((o :: b).map (·.maxXrate)) = .ok m from hm, ok_bind] at he
    cases he; rfl

theorem only_economicLoop {cfg : Config} {ext : Ext} {pair : Token × Token} {fee : Fee} {xrate : Option ℚ}
    {pool : List Order} (hp : Pool pool) (hc : CfgOk cfg) (hfee : fee.value < 1) (hφ : 9 / 10 ≤ (1 - fee.value) ^ 2)
    (hne : pair.1 ≠ pair.2) (hbr : ∀ E, MaxBranching E (ext.branch E)) (hx : ∀ y, xrate = some y → 0 < y)
    {fuel : ℕ} {bk : Books} {gone : List Order} {cur : Solution} (hb : BookOf pool pair fee bk)
    (hfuel : bk.b.length + bk.s.length + 1 ≤ fuel) :
    Only (fun e => SearchFailure ext.sqrt e ∨ e = .valueError) (economicLoop cfg ext pair fee xrate fuel bk gone cur) := by
  induction fuel generalizing bk gone cur with
  | zero => omega
  | succ fuel ih =>
    unfold economicLoop
    split
    · refine only_bind ?_ fun r h1 => ?_
      · by_cases hem : bk.b = [] ∨ bk.s = []
        · intro e he
          unfold solveTokenPairAndFee at he
          cases hpr : pruneUnrealizable bk.b bk.s fee with
          | error e' =>
            rw [hpr] at he
            cases he
            exact .inr (prune_empty hem _ hpr)
          | ok r =>
            exfalso
            unfold pruneUnrealizable at hpr
            simp only [bind_eq_ok] at hpr
            obtain ⟨_, h1, _, h2, _⟩ := hpr
            rcases hem with h | h
            · rw [h] at h1; cases h1
            · rw [h] at h2; cases h2
        · push Not at hem
          intro e he
          exact .inl (only_solveTokenPairAndFee (f := bk.f) hp hc hfee hφ hb hne hbr hx hem.1 hem.2 e he)
      obtain ⟨l1, l2⟩ := solveTokenPairAndFee_lengths h1
      obtain ⟨g1, g2⟩ := solveTokenPairAndFee_spec hp hc hfee (b := bk.b) (s := bk.s) (f := bk.f) hb hne hbr hx h1
      have hbk : BookOf pool pair fee r.books := BookOf.same (bk := { b := bk.b, s := bk.s, f := bk.f }) hb g1
      have hbp : BuyPriced r.sol.prices r.sol.orders := by
        intro o ho
        rcases g2 with h | hg
        · rw [h] at ho; cases ho
        · exact (priced_iff.1 (hg.priced o ho)).1
      dsimp only
      rw [viable_iff hc.feePrice.ne' hbp, ok_bind]
      split
      · exact only_pure _
      rename_i hnv
      have ht : ¬ (cfg.minAvgFee = 0 ∧ cfg.minAbsFee = 0) := fun h => hnv (.inl (decide_eq_true (.inr (.inl h))))
      obtain ⟨sub, hsub, _⟩ := C47_subset ht hc.feePrice.ne' hbp (fee := fee)
      rw [hsub, ok_bind]
      split
      · exact only_pure _
      refine only_bind (only_minBy (.inr rfl) _ _) fun bm hbm => only_bind (only_minBy (.inr rfl) _ _) fun sm hsm => ?_
      have kb := remove_shorter hbm
      have ks := remove_shorter hsm
      rcases solveTokenPairAndFee_priced h1 with ht | ⟨⟨pb, hpb⟩, ps, hps⟩
      · exfalso
        apply hnv
        right
        rw [ht]; rfl
      rw [dictGet_of hpb, ok_bind, dictGet_of hps, ok_bind]
      split
      · exact ih (hbk.sub List.filter_sublist (List.Sublist.refl _) (List.Sublist.refl _)) (by dsimp only; omega)
      · exact ih (hbk.sub (List.Sublist.refl _) List.filter_sublist (List.Sublist.refl _)) (by dsimp only; omega)
    · exact only_pure _

/-- Without thresholds the loop stops after the first matching. -/
theorem economicLoop_single {cfg : Config} {ext : Ext} {pair : Token × Token} {fee : Fee} {xrate : Option ℚ} (h1 : cfg.minAvgFee = 0)
    (h2 : cfg.minAbsFee = 0) {fuel : ℕ} {bk : Books} {gone : List Order} {cur : Solution} (hb : bk.b ≠ []) :
    economicLoop cfg ext pair fee xrate (fuel + 1) bk gone cur = (solveTokenPairAndFee cfg ext pair bk.b bk.s bk.f fee xrate >>= fun r =>
      pure (r.sol, r.books.b ++ r.books.s ++ r.books.f ++ gone)) := by
  unfold economicLoop
  rw [if_pos (.inl (List.length_pos_of_ne_nil hb))]
  refine bind_congr fun r => ?_
  have : isEconomicViable cfg r.sol.orders r.sol.prices fee = .ok true := by
    unfold isEconomicViable
    split
    · rfl
    · rw [if_pos ⟨h1, h2⟩]; rfl
  dsimp only
  rw [this, ok_bind, if_pos (.inl rfl)]

end Dex
