import Verif.Props.Xrate
import Verif.Model.Api
import Mathlib.Tactic.IntervalCases

/-! # Properties C17 and C18: the binary search over limit rates -/

namespace Dex

namespace Spec

/-- Along `xs` the function strictly increases up to position `k` and strictly decreases after it. -/
def StrictPeak (g : ℚ → ℚ) (xs : List ℚ) (k : ℕ) : Prop :=
  k < xs.length ∧ ∀ (i : ℕ) (h : i + 1 < xs.length),
    (i < k → g xs[i] < g xs[i + 1]) ∧ (k ≤ i → g xs[i + 1] < g xs[i])

end Spec

open Spec

theorem pyGet_at {α : Type} {l : List α} {k : ℕ} (h : k < l.length) : pyGet l (k : ℤ) = .ok l[k] :=
  pyGet_nat (List.getElem?_eq_getElem h)

theorem pyGet_neg {α : Type} {l : List α} {k : ℕ} (h0 : 0 < k) (h : k ≤ l.length) :
    pyGet l (-(k : ℤ)) = .ok (l[l.length - k]'(by omega)) := by
  have h1 : ¬ (0 : ℤ) ≤ -(k : ℤ) := by omega
  have h2 : (- -(k : ℤ)).toNat = k := by omega
  have h3 : l.length - k < l.length := by omega
  simp only [pyGet, pyIndex, h1, if_false, h2, h, if_true, List.getElem?_eq_getElem h3]

theorem strictPeak_lt {g : ℚ → ℚ} {xs : List ℚ} {k : ℕ} (h : StrictPeak g xs k) {i : ℕ} (hi : i < xs.length) (hk : i ≠ k) :
    g xs[i] < g (xs[k]'h.1) := by
  rcases Nat.lt_or_gt_of_ne hk with hlt | hgt
  · -- climb from i to k
    have : ∀ m (hm : i + m + 1 ≤ k), g xs[i] < g (xs[i + m + 1]'(lt_of_le_of_lt hm h.1)) := by
      intro m
      induction m with
      | zero => intro hm; exact (h.2 i (by have := h.1; omega)).1 hlt
      | succ m ih =>
        intro hm
        have h1 := ih (by omega)
        have h2 := (h.2 (i + m + 1) (by have := h.1; omega)).1 (by omega)
        exact h1.trans h2
    have h3 := this (k - i - 1) (by omega)
    have e : i + (k - i - 1) + 1 = k := by omega
    simp only [e] at h3
    exact h3
  · have : ∀ m (hm : k + m + 1 < xs.length), g (xs[k + m + 1]'hm) < g (xs[k]'h.1) := by
      intro m
      induction m with
      | zero => intro hm; exact (h.2 k hm).2 (le_refl _)
      | succ m ih =>
        intro hm
        have h1 := ih (by omega)
        have h2 := (h.2 (k + m + 1) hm).2 (by omega)
        exact h2.trans h1
    have h3 := this (i - k - 1) (by omega)
    have e : k + (i - k - 1) + 1 = i := by omega
    simp only [e] at h3
    exact h3

theorem binSearchLoop_spec {f : ℚ → Py ℚ} {g : ℚ → ℚ} {xs : List ℚ} (hf : ∀ x ∈ xs, f x = .ok (g x)) {k : ℕ}
    (h : StrictPeak g xs k) : ∀ (fuel l r : ℕ), 1 ≤ l → l ≤ k → k < r → r < xs.length → r - l < fuel →
      binSearchLoop f xs fuel (l : ℤ) (r : ℤ) = .ok (k : ℤ) := by
  intro fuel
  induction fuel with
  | zero => intro l r _ _ _ _ hlt; omega
  | succ fuel ih =>
    intro l r h1 h2 h3 h4 h5
    have hc : ((l : ℤ) + (r : ℤ)) / 2 = (((l + r) / 2 : ℕ) : ℤ) := by push_cast; rfl
    unfold binSearchLoop
    simp only [hc]
    generalize hcd : (l + r) / 2 = c at *
    by_cases hstop : (l : ℤ) ≠ (c : ℤ) ∧ (r : ℤ) ≠ (c : ℤ)
    · rw [if_pos hstop]
      have hlc : l < c := by omega
      have hcr : c < r := by omega
      have s1 : ∀ i : ℕ, 1 ≤ i → (hi : i < xs.length) → (i ≤ k → 0 < g xs[i] - g xs[i - 1]) ∧ (k < i → g xs[i] - g xs[i - 1] < 0) := by
        intro i h1 hi
        have := h.2 (i - 1) (by omega)
        have e : i - 1 + 1 = i := by omega
        simp only [e] at this
        exact ⟨fun hk => by linarith [this.1 (by omega)], fun hk => by linarith [this.2 (by omega)]⟩
      have el : (l : ℤ) - 1 = ((l - 1 : ℕ) : ℤ) := by omega
      have er : (r : ℤ) - 1 = ((r - 1 : ℕ) : ℤ) := by omega
      have ec : (c : ℤ) - 1 = ((c - 1 : ℕ) : ℤ) := by omega
      simp only [bind_assoc, pure_bind, el, er, ec]
      rw [pyGet_at (by omega : l < xs.length), ok_bind, hf _ (List.getElem_mem _), ok_bind,
        pyGet_at (by omega : l - 1 < xs.length), ok_bind, hf _ (List.getElem_mem _), ok_bind,
        pyGet_at h4, ok_bind, hf _ (List.getElem_mem _), ok_bind,
        pyGet_at (by omega : r - 1 < xs.length), ok_bind, hf _ (List.getElem_mem _), ok_bind,
        pyGet_at (by omega : c < xs.length), ok_bind, hf _ (List.getElem_mem _), ok_bind,
        pyGet_at (by omega : c - 1 < xs.length), ok_bind, hf _ (List.getElem_mem _), ok_bind]
      have dl := (s1 l h1 (by omega)).1 h2
      have dr := (s1 r (by omega) h4).2 h3
      rcases Nat.lt_or_ge k c with hck | hck
      · have dc := (s1 c (by omega) (by omega)).2 hck
        rw [if_neg (by have := mul_neg_of_pos_of_neg dl dc; linarith), pyAssert_of dr, ok_bind, pyAssert_of dc, ok_bind]
        exact ih l c h1 h2 hck (by omega) (by omega)
      · have dc := (s1 c (by omega) (by omega)).1 hck
        rw [if_pos (mul_pos dl dc), pyAssert_of dl, ok_bind]
        exact ih c r (by omega) hck h3 h4 (by omega)
    · rw [if_neg hstop]
      have : c = k := by omega
      rw [this]; rfl

/-- C17. On a strictly unimodal objective the search terminates, raises nothing and returns the peak and its value. -/
theorem C17_finds_peak {f : ℚ → Py ℚ} {g : ℚ → ℚ} {xs : List ℚ} (hf : ∀ x ∈ xs, f x = .ok (g x)) {k : ℕ}
    (h : StrictPeak g xs k) : binSearch f xs = .ok (xs[k]'h.1, g (xs[k]'h.1)) := by
  have hk := h.1
  unfold binSearch
  by_cases hn : xs.length ≤ 2
  · rw [if_pos hn, mapE_of_forall (g := fun x => (x, g x)) (by intro x hx; rw [hf x hx]; rfl), ok_bind]
    obtain ⟨m, hm⟩ := pyMaxBy_of_ne_nil (fun p : ℚ × ℚ => p.2) (l := xs.map (fun x => (x, g x)))
      (by rw [Ne, List.map_eq_nil_iff]; rintro rfl; simp at hk)
    rw [hm]
    obtain ⟨m1, m2⟩ := pyMaxBy_spec hm
    obtain ⟨x, hx, rfl⟩ := List.mem_map.1 m1
    obtain ⟨i, hi, rfl⟩ := List.getElem_of_mem hx
    by_cases hik : i = k
    · subst hik; rfl
    · have h1 := strictPeak_lt h hi hik
      have h2 := m2 (xs[k], g xs[k]) (List.mem_map.2 ⟨xs[k], List.getElem_mem hk, rfl⟩)
      simp only at h2
      linarith
  · rw [if_neg hn]
    have hn' : 2 < xs.length := by omega
    have g0 : pyGet xs 0 = .ok xs[0] := pyGet_at (k := 0) (by omega)
    have g1 : pyGet xs 1 = .ok xs[1] := pyGet_at (k := 1) (by omega)
    have l0 : pyGet xs (-1) = .ok (xs[xs.length - 1]'(by omega)) := pyGet_neg (k := 1) (by omega) (by omega)
    have l1 : pyGet xs (-2) = .ok (xs[xs.length - 2]'(by omega)) := pyGet_neg (k := 2) (by omega) (by omega)
    rw [g0, ok_bind, g1, ok_bind, hf _ (List.getElem_mem _), ok_bind, hf _ (List.getElem_mem _), ok_bind]
    have p0 := h.2 0 (by omega)
    by_cases hk0 : k = 0
    · subst hk0
      rw [if_pos (p0.2 (le_refl _))]; rfl
    · have := p0.1 (by omega)
      rw [if_neg (by simp only [Nat.zero_add] at this; linarith)]
      rw [l0, ok_bind, l1, ok_bind, hf _ (List.getElem_mem _), ok_bind, hf _ (List.getElem_mem _), ok_bind]
      have pl := h.2 (xs.length - 2) (by omega)
      have e : xs.length - 2 + 1 = xs.length - 1 := by omega
      simp only [e] at pl
      by_cases hkl : k = xs.length - 1
      · rw [if_pos (pl.1 (by omega))]
        simp only [hkl]; rfl
      · have := pl.2 (by omega)
        rw [if_neg (by linarith)]
        have hr : ((xs.length : ℤ) - 1) = ((xs.length - 1 : ℕ) : ℤ) := by omega
        have := binSearchLoop_spec hf h (xs.length + 1) 1 (xs.length - 1) (le_refl _) (by omega) (by omega) (by omega) (by omega)
        rw [hr]
        rw [Nat.cast_one] at this
        rw [this, ok_bind, pyGet_at hk, ok_bind, hf _ (List.getElem_mem _)]
        rfl

/-- C17 for the solver: if the value of the book, as a function of the rate, is strictly unimodal along the increasing
list of limit rates, the limit-rate search returns the limit rate with the largest value. -/
theorem C17_limit_rate_search {cfg : Config} {fee : Fee} {b s : List Order} (h : SearchInput cfg fee b s) (hb : b ≠ [])
    {g : ℚ → ℚ} {xs : List ℚ} (hx : xs.Pairwise (· < ·)) (hmem : ∀ x, x ∈ xs ↔ LimitRate fee b s x)
    (hg : ∀ x ∈ xs, ValueAt cfg fee b s x (g x)) {k : ℕ} (hp : StrictPeak g xs k) :
    ∃ x v, solveTrivial cfg fee b s = .ok (some (x, v)) ∧ LimitRate fee b s x ∧ ValueAt cfg fee b s x v ∧
      ∀ y w, LimitRate fee b s y → ValueAt cfg fee b s y w → w ≤ v := by
  obtain ⟨cs, e, hcs⟩ := trivialCandidates_eq (b := b) (s := s) h.feeLt (fun o ho => (h.ordS o ho).1)
  have hsd : sortDistinct cs = xs := by
    have p1 : (sortDistinct cs).Pairwise (· ≤ ·) := (pySortBy_pairwise id cs).sublist (List.dedup_sublist _)
    have hperm : (sortDistinct cs).Perm xs := by
      have nd : (sortDistinct cs).Nodup := List.nodup_dedup _
      rw [List.perm_ext_iff_of_nodup nd (hx.imp ne_of_lt)]
      intro x
      rw [mem_sortDistinct, hcs, hmem]
    exact hperm.eq_of_pairwise (fun a b _ _ h1 h2 => le_antisymm h1 h2) p1 (hx.imp le_of_lt)
  have hk := hp.1
  have hbs := C17_finds_peak (f := solverObjective cfg fee b s) (fun x hx => solverObjective_iff.2 (hg x hx)) hp
  refine ⟨xs[k], g xs[k], ?_, (hmem _).1 (List.getElem_mem hk), hg _ (List.getElem_mem hk), ?_⟩
  · unfold solveTrivial
    rw [e, ok_bind, if_neg, hsd, hbs]
    · rfl
    · intro hz
      obtain ⟨o, ho⟩ := List.exists_mem_of_ne_nil _ hb
      have : o.maxXrate * (1 - fee.value) ∈ cs := (hcs _).2 (.inl ⟨o, ho, rfl⟩)
      rw [List.eq_nil_of_length_eq_zero hz] at this; simp at this
  · intro y w hy hw
    obtain ⟨i, hi, rfl⟩ := List.getElem_of_mem ((hmem y).2 hy)
    have := solverObjective_iff.2 hw
    rw [solverObjective_iff.2 (hg _ (List.getElem_mem hi))] at this
    cases this
    by_cases hik : i = k
    · subst hik; exact le_refl _
    · exact (strictPeak_lt hp hi hik).le

/-! ### Non-vacuity of C17 -/

/-- A peak strictly inside a list of seven rates; the search finds it. -/
example : StrictPeak (fun x => -(x - 3) ^ 2) [0, 1, 5/2, 3, 4, 9, 10] 3 := by
  refine ⟨by decide, ?_⟩
  intro i h
  have : i < 6 := by simp at h; omega
  interval_cases i <;> norm_num

/-- The values of the example book at its four limit rates form a strict peak, so `C17_limit_rate_search` applies to it. -/
example : ∃ (g : ℚ → ℚ) (xs : List ℚ) (k : ℕ), xs.Pairwise (· < ·) ∧ (∀ x, x ∈ xs ↔ LimitRate ExIv.fee ExIv.b ExIv.s x) ∧
    (∀ x ∈ xs, ValueAt Config.default ExIv.fee ExIv.b ExIv.s x (g x)) ∧ StrictPeak g xs k := by
  let g : ℚ → ℚ := fun x => match solverObjective Config.default ExIv.fee ExIv.b ExIv.s x with
    | .ok v => v
    | .error _ => 0
  refine ⟨g, [500/999, 2000/2997, 2997/2000, 999/500], 2, by decide +kernel, ?_, ?_, by decide, ?_⟩
  · intro x
    unfold LimitRate
    simp only [ExIv.b, ExIv.s, ExIv.fee, Order.mk', List.mem_cons, List.not_mem_nil, or_false, exists_eq_or_imp, exists_eq_left]
    norm_num
    tauto
  · intro x hx
    rw [← solverObjective_iff]
    obtain ⟨v, h1, _⟩ := exists_of_pyCheck (x := solverObjective Config.default ExIv.fee ExIv.b ExIv.s x)
      (p := fun _ => True) (by
        revert x
        decide +kernel)
    show _ = Except.ok (match solverObjective Config.default ExIv.fee ExIv.b ExIv.s x with
      | .ok v => v
      | .error _ => 0)
    rw [h1]
  · intro i h
    have : i < 3 := by simp at h; omega
    interval_cases i <;> clear this <;> decide +kernel +revert

/-! ## C18: the search can abort

The instance below is well formed: positive integer amounts, sufficient integer balances, distinct accounts.  All
values of the objective in the middle of the sorted limit rates are equal (nothing is executed there), so the slope at the
centre of the binary search is zero and `assert d_center < 0` (xrate.py:440) fails. -/

namespace ExPlateau

def fee : Fee := { token := "F", value := 1 / 1000 }

def dicts : List OrderDict :=
  [{ accountID := "a", buyToken := "F", sellToken := "S", sellAmount := 10000000, buyAmount := 10000 },
   { accountID := "b", buyToken := "F", sellToken := "S", sellAmount := 10001000, buyAmount := 10000 },
   { accountID := "c", buyToken := "S", sellToken := "F", sellAmount := 10012, buyAmount := 9990000 },
   { accountID := "d", buyToken := "S", sellToken := "F", sellAmount := 10012, buyAmount := 9990999 }]

def inst : Instance :=
  { accounts := [("a", [("S", 10000000)]), ("b", [("S", 10001000)]), ("c", [("F", 10012)]), ("d", [("F", 10012)])]
    orders := dicts
    fee := fee }

/-- The two sides, as the loader produces them. -/
def b : List Order := [Order.mk' "F" "S" 10001000 (10001/10) (some "b") "1", Order.mk' "F" "S" 10000000 1000 (some "a") "0"]

def s : List Order := [Order.mk' "S" "F" 10012 (10012/9990000) (some "c") "2", Order.mk' "S" "F" 10012 (10012/9990999) (some "d") "3"]

end ExPlateau

/-- C18 (search). On this book the search raises `AssertionError`, whatever `math.sqrt` returns. -/
theorem C18_search_aborts (sqrt : ℚ → Py ℚ) :
    findBestXrate Config.default sqrt ExPlateau.b ExPlateau.s ExPlateau.fee = .error (.assertion "xrate.py:440") := by
  obtain ⟨⟨b', s'⟩, h1, h2⟩ := exists_of_pyCheck (x := pruneUnrealizable ExPlateau.b ExPlateau.s ExPlateau.fee)
    (p := fun r : List Order × List Order => r = (ExPlateau.b, ExPlateau.s)) (by decide +kernel)
  cases h2
  have h3 : solveTrivial Config.default ExPlateau.fee ExPlateau.b ExPlateau.s = .error (.assertion "xrate.py:440") :=
    eq_error_of_pyRaises (by decide +kernel)
  unfold findBestXrate
  rw [h1, ok_bind]
  show (solveTrivial Config.default ExPlateau.fee ExPlateau.b ExPlateau.s >>= _) = _
  rw [h3]
  rfl

/-- C18 (end to end). The token-pair solver run on the well-formed instance above raises `AssertionError`. -/
theorem C18_solver_aborts (ext : Ext) :
    tokenPairMain Config.default ext ExPlateau.inst ("F", "S") none = .error (.assertion "xrate.py:440") := by
  obtain ⟨⟨acc, bk, fee⟩, h1, h2⟩ := exists_of_pyCheck (x := loadPairProblem Config.default ExPlateau.inst ("F", "S"))
    (p := fun r : Accounts × Books × Fee => r.2.1.b = ExPlateau.b ∧ r.2.1.s = ExPlateau.s ∧ r.2.2 = ExPlateau.fee)
    (by decide +kernel)
  obtain ⟨e1, e2, e3⟩ := h2
  simp only at e1 e2 e3
  subst e3
  obtain ⟨⟨b', s'⟩, h3, h4⟩ := exists_of_pyCheck (x := pruneUnrealizable ExPlateau.b ExPlateau.s ExPlateau.fee)
    (p := fun r : List Order × List Order => r = (ExPlateau.b, ExPlateau.s)) (by decide +kernel)
  cases h4
  have hp : ∀ maxNr, solveTokenPair Config.default ext.sqrt ("F", "S") ExPlateau.b ExPlateau.s ExPlateau.fee none none maxNr =
      .error (.assertion "xrate.py:440") := by
    intro maxNr
    unfold solveTokenPair
    rw [if_neg (by decide)]
    simp only [givenOrBestXrate, C18_search_aborts]
    rfl
  have hq : ∀ f, solveTokenPairAndFee Config.default ext ("F", "S") ExPlateau.b ExPlateau.s f ExPlateau.fee none =
      .error (.assertion "xrate.py:440") := by
    intro f
    unfold solveTokenPairAndFee
    rw [h3, ok_bind]
    show (if ExPlateau.b.length = 0 ∨ ExPlateau.s.length = 0 then _ else _) = _
    rw [if_neg (by decide), if_neg (by decide)]
    unfold solveOriented
    rw [hp]
    rfl
  unfold tokenPairMain
  rw [h1, ok_bind]
  show (solveEconomicViable _ _ _ acc bk.b bk.s bk.f ExPlateau.fee none >>= _) = _
  unfold solveEconomicViable economicLoop
  rw [e1, e2, if_pos (by decide)]
  simp only [hq]
  rfl

/-- The instance of C18 is well formed: positive integer amounts, and every account owns what its order sells. -/
example : (∀ d ∈ ExPlateau.dicts, 0 < d.sellAmount ∧ d.sellAmount.den = 1 ∧ 0 < d.buyAmount ∧ d.buyAmount.den = 1 ∧
    d.sellAmount ≤ accountBalance ExPlateau.inst.accounts (some d.accountID) d.sellToken) ∧
    0 < ExPlateau.fee.value ∧ ExPlateau.fee.value < 1 := by decide +kernel

/-- ... and the search input assumptions of C16 hold of it. -/
example : SearchInput Config.default ExPlateau.fee ExPlateau.b ExPlateau.s := by constructor <;> decide +kernel

/-! ## C19: the all-filled root -/

/-- C19. `root5` is the rate at which the b side and the s side of the interval, both filled in full from the partial
order on, balance: what the s orders receive (net of fee) is what the b orders sell. -/
theorem C19_root5_balances {fee : Fee} {d : IntervalData} {c : Constants} {r : ℚ} (hc : computeConstants d fee = .ok c)
    (hr : root5 c = .ok r) :
    ((d.b.drop d.bPartial).map (·.maxSell)).sum = (1 - fee.value) * (r * ((d.s.drop d.sPartial).map (·.maxSell)).sum) := by
  unfold computeConstants at hc
  simp only [bind_eq_ok] at hc
  obtain ⟨bo, hb, so, hs, cc, _, hc⟩ := hc
  cases hc
  have drop_eq : ∀ {l : List Order} {k : ℕ} {o : Order}, pyGet l (k : ℤ) = .ok o → l.drop k = o :: l.drop (k + 1) := by
    intro l k o h
    by_cases hk : k < l.length
    · rw [pyGet_at hk] at h
      cases h
      exact List.drop_eq_getElem_cons hk
    · have : pyGet l (k : ℤ) = .error .indexError := by
        simp only [pyGet, pyIndex, Int.toNat_natCast, hk, if_false]
        simp
      rw [this] at h; cases h
  rw [drop_eq hb, drop_eq hs]
  unfold root5 pyDiv at hr
  split at hr
  · cases hr
  · rename_i hne
    cases hr
    simp only [List.map_cons, List.sum_cons, sumYbF] at hne ⊢
    obtain ⟨h1, h2⟩ := mul_ne_zero_iff.1 hne
    field_simp

/-- C19 (uniqueness). It is the only such rate when there is something to fill. -/
theorem C19_unique {fee : Fee} {d : IntervalData} {c : Constants} {r x : ℚ} (hc : computeConstants d fee = .ok c)
    (hr : root5 c = .ok r) (hf : fee.value < 1) (hs : 0 < ((d.s.drop d.sPartial).map (·.maxSell)).sum)
    (hx : ((d.b.drop d.bPartial).map (·.maxSell)).sum = (1 - fee.value) * (x * ((d.s.drop d.sPartial).map (·.maxSell)).sum)) :
    x = r := by
  have h1 := C19_root5_balances hc hr
  rw [h1] at hx
  have hφ : (1 - fee.value) ≠ 0 := by linarith
  have := mul_left_cancel₀ hφ hx
  exact (mul_right_cancel₀ hs.ne' this).symm

/-- The root exists on an interval of the example book and lies inside it. -/
example : ∃ c, computeConstants { lb := 2000/2997, ub := 2997/2000, b := ExIv.b.reverse, s := ExIv.s.reverse, bPartial := 0, sPartial := 1 } ExIv.fee =
    .ok c ∧ ∃ r, root5 c = .ok r ∧ r = 150000 / (60000 * (999/1000)) := by
  obtain ⟨c, h1, h2⟩ := exists_of_pyCheck
    (x := computeConstants { lb := 2000/2997, ub := 2997/2000, b := ExIv.b.reverse, s := ExIv.s.reverse, bPartial := 0, sPartial := 1 } ExIv.fee)
    (p := fun c : Constants => pyCheck (root5 c) (fun r : ℚ => r = 150000 / (60000 * (999/1000))) = true) (by decide +kernel)
  exact ⟨c, h1, exists_of_pyCheck h2⟩

end Dex
