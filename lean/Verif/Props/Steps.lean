import Verif.Props.Interval

/-! # C75: how much work the rate search does -/

namespace Dex

open Spec

/-! ### The binary search -/

private def queried (xs : List ℚ) (i : ℤ) : List ℚ :=
  match pyGet xs i with
  | .ok x => [x]
  | .error _ => []

private theorem queried_length (xs : List ℚ) (i : ℤ) : (queried xs i).length ≤ 1 := by
  unfold queried; split <;> simp

private theorem queried_mem {xs : List ℚ} {i : ℤ} {x : ℚ} (h : x ∈ queried xs i) : x ∈ xs := by
  unfold queried at h
  cases hx : pyGet xs i with
  | error e => rw [hx] at h; simp at h
  | ok y =>
    rw [hx] at h
    obtain rfl : x = y := by simpa using h
    exact pyGet_ok_mem hx

private theorem get_congr {f g : ℚ → Py ℚ} {xs : List ℚ} {i : ℤ} (h : ∀ x ∈ queried xs i, g x = f x) {α : Type}
    (k : ℚ → Py ℚ → Py α) : (pyGet xs i >>= fun x => k x (g x)) = (pyGet xs i >>= fun x => k x (f x)) := by
  unfold queried at h
  cases hx : pyGet xs i with
  | error e => rfl
  | ok x => rw [hx] at h; simp only [ok_bind]; rw [h x (by simp)]

private def slopeAt (f : ℚ → Py ℚ) (xs : List ℚ) (i : ℤ) : Py ℚ := do
  let x ← pyGet xs i
  let a ← f x
  let y ← pyGet xs (i - 1)
  let b ← f y
  pure (a - b)

private theorem slopeAt_congr {f g : ℚ → Py ℚ} {xs : List ℚ} {i : ℤ} (h : ∀ x ∈ queried xs i, g x = f x)
    (h' : ∀ x ∈ queried xs (i - 1), g x = f x) : slopeAt g xs i = slopeAt f xs i := by
  unfold slopeAt
  have e : ∀ a : ℚ, (do let y ← pyGet xs (i - 1); let b ← g y; pure (a - b) : Py ℚ) =
      (do let y ← pyGet xs (i - 1); let b ← f y; pure (a - b) : Py ℚ) := by
    intro a
    exact get_congr h' (fun _ p => p >>= fun b => pure (a - b))
  simp only [e]
  exact get_congr h (fun _ p => p >>= fun a => do let y ← pyGet xs (i - 1); let b ← f y; pure (a - b))

private theorem loop_eq (f : ℚ → Py ℚ) (xs : List ℚ) (n : ℕ) (l r : ℤ) :
    binSearchLoop f xs (n + 1) l r =
      if l ≠ (l + r) / 2 ∧ r ≠ (l + r) / 2 then do
        let dl ← slopeAt f xs l
        let dr ← slopeAt f xs r
        let dc ← slopeAt f xs ((l + r) / 2)
        if dl * dc > 0 then
          pyAssert (dl > 0) "xrate.py:436"
          binSearchLoop f xs n ((l + r) / 2) r
        else
          pyAssert (dr < 0) "xrate.py:439"
          pyAssert (dc < 0) "xrate.py:440"
          binSearchLoop f xs n l ((l + r) / 2)
      else pure ((l + r) / 2) := rfl

/-- `f` may be anything, and so may the branch taken: the points asked for are determined by `f`. -/
private theorem loop_queries (f : ℚ → Py ℚ) (xs : List ℚ) : ∀ (k : ℕ) (l r : ℤ), l < r → r - l ≤ 2 ^ k →
    ∃ pts : List ℚ, pts.length ≤ 6 * k ∧ (∀ x ∈ pts, x ∈ xs) ∧ ∀ (g : ℚ → Py ℚ), (∀ x ∈ pts, g x = f x) →
      ∀ n m : ℕ, (n = m ∨ k < n ∧ k < m) → binSearchLoop g xs n l r = binSearchLoop f xs m l r := by
  intro k
  induction k with
  | zero =>
    intro l r hlr hw
    refine ⟨[], by simp, by simp, ?_⟩
    intro g _ n m hnm
    rcases Nat.eq_zero_or_pos n with rfl | hn
    · obtain rfl : m = 0 := by omega
      rfl
    obtain ⟨n, rfl⟩ : ∃ n', n = n' + 1 := ⟨n - 1, by omega⟩
    obtain ⟨m, rfl⟩ : ∃ m', m = m' + 1 := ⟨m - 1, by omega⟩
    have hc : (l + r) / 2 = l := by simp at hw; omega
    rw [loop_eq, loop_eq, if_neg (by simp [hc]), if_neg (by simp [hc])]
  | succ k ih =>
    intro l r hlr hw
    by_cases hcond : l ≠ (l + r) / 2 ∧ r ≠ (l + r) / 2
    · have hp : (2 : ℤ) ^ (k + 1) = 2 * 2 ^ k := by rw [pow_succ]; ring
      rw [hp] at hw
      have hp0 : (0 : ℤ) < 2 ^ k := by positivity
      generalize (2 : ℤ) ^ k = w at *
      obtain ⟨p1, l1, m1, q1⟩ := ih ((l + r) / 2) r (by omega) (by omega)
      obtain ⟨p2, l2, m2, q2⟩ := ih l ((l + r) / 2) (by omega) (by omega)
      let base := queried xs l ++ queried xs (l - 1) ++ (queried xs r ++ queried xs (r - 1)) ++
        (queried xs ((l + r) / 2) ++ queried xs ((l + r) / 2 - 1))
      have hbase : base.length ≤ 6 := by
        have := queried_length xs l
        have := queried_length xs (l - 1)
        have := queried_length xs r
        have := queried_length xs (r - 1)
        have := queried_length xs ((l + r) / 2)
        have := queried_length xs ((l + r) / 2 - 1)
        simp only [base, List.length_append]
        omega
      have hmem : ∀ x ∈ base, x ∈ xs := by
        intro x hx
        simp only [base, List.mem_append] at hx
        rcases hx with ((h | h) | h | h) | h | h <;> exact queried_mem h
      have key : ∀ (pts : List ℚ), (∀ x ∈ base, x ∈ pts) → ∀ g : ℚ → Py ℚ, (∀ x ∈ pts, g x = f x) →
          slopeAt g xs l = slopeAt f xs l ∧ slopeAt g xs r = slopeAt f xs r ∧
          slopeAt g xs ((l + r) / 2) = slopeAt f xs ((l + r) / 2) := by
        intro pts hsub g hg
        refine ⟨slopeAt_congr ?_ ?_, slopeAt_congr ?_ ?_, slopeAt_congr ?_ ?_⟩ <;>
          exact fun x hx => hg x (hsub x (by simp only [base, List.mem_append]; tauto))
      -- which half is searched
      by_cases hleft : ∃ dl dc, slopeAt f xs l = .ok dl ∧ slopeAt f xs ((l + r) / 2) = .ok dc ∧ dl * dc > 0
      · obtain ⟨dl, dc, e1, e2, hd⟩ := hleft
        refine ⟨base ++ p1, by rw [List.length_append]; omega, fun x hx => (List.mem_append.1 hx).elim (hmem x) (m1 x), ?_⟩
        intro g hg n m hnm
        rcases Nat.eq_zero_or_pos n with rfl | hn
        · obtain rfl : m = 0 := by omega
          rfl
        obtain ⟨n, rfl⟩ : ∃ n', n = n' + 1 := ⟨n - 1, by omega⟩
        obtain ⟨m, rfl⟩ : ∃ m', m = m' + 1 := ⟨m - 1, by omega⟩
        obtain ⟨k1, k2, k3⟩ := key _ (fun x hx => List.mem_append_left _ hx) g hg
        rw [loop_eq, loop_eq, if_pos hcond, if_pos hcond, k1, k2, k3, e1, e2]
        have hrec := q1 g (fun x hx => hg x (List.mem_append_right _ hx)) n m (by omega)
        cases slopeAt f xs r with
        | error e => rfl
        | ok dr => simp only [ok_bind, if_pos hd, hrec]
      · refine ⟨base ++ p2, by rw [List.length_append]; omega, fun x hx => (List.mem_append.1 hx).elim (hmem x) (m2 x), ?_⟩
        intro g hg n m hnm
        rcases Nat.eq_zero_or_pos n with rfl | hn
        · obtain rfl : m = 0 := by omega
          rfl
        obtain ⟨n, rfl⟩ : ∃ n', n = n' + 1 := ⟨n - 1, by omega⟩
        obtain ⟨m, rfl⟩ : ∃ m', m = m' + 1 := ⟨m - 1, by omega⟩
        obtain ⟨k1, k2, k3⟩ := key _ (fun x hx => List.mem_append_left _ hx) g hg
        rw [loop_eq, loop_eq, if_pos hcond, if_pos hcond, k1, k2, k3]
        have hrec := q2 g (fun x hx => hg x (List.mem_append_right _ hx)) n m (by omega)
        cases e1 : slopeAt f xs l with
        | error e => rfl
        | ok dl =>
          cases slopeAt f xs r with
          | error e => rfl
          | ok dr =>
            cases e2 : slopeAt f xs ((l + r) / 2) with
            | error e => rfl
            | ok dc =>
              have hd : ¬ dl * dc > 0 := fun hd => hleft ⟨dl, dc, e1, e2, hd⟩
              simp only [ok_bind, if_neg hd, hrec]
    · refine ⟨[], by simp, by simp, ?_⟩
      intro g _ n m hnm
      rcases Nat.eq_zero_or_pos n with rfl | hn
      · obtain rfl : m = 0 := by omega
        rfl
      obtain ⟨n, rfl⟩ : ∃ n', n = n' + 1 := ⟨n - 1, by omega⟩
      obtain ⟨m, rfl⟩ : ∃ m', m = m' + 1 := ⟨m - 1, by omega⟩
      rw [loop_eq, loop_eq, if_neg hcond, if_neg hcond]

/-- C75. The binary search over `n ≤ 2 ^ k + 2` rates looks at the objective at no more than `6 k + 5` of them: its outcome
(rate and value, or exception) is the same for every objective that agrees with `f` there. `f` is arbitrary; it may raise
exceptions and need not have a single local optimum. -/
theorem C75_bin_search_queries (f : ℚ → Py ℚ) (xs : List ℚ) (k : ℕ) (hk : xs.length ≤ 2 ^ k + 2) :
    ∃ pts : List ℚ, pts.length ≤ 6 * k + 5 ∧ (∀ x ∈ pts, x ∈ xs) ∧
      ∀ g : ℚ → Py ℚ, (∀ x ∈ pts, g x = f x) → binSearch g xs = binSearch f xs := by
  by_cases h2 : xs.length ≤ 2
  · refine ⟨xs, by omega, fun _ h => h, ?_⟩
    intro g hg
    unfold binSearch
    rw [if_pos h2, if_pos h2]
    have : mapE (fun x => do let o ← g x; pure (x, o)) xs = mapE (fun x => do let o ← f x; pure (x, o)) xs := by
      clear h2 hk
      induction xs with
      | nil => rfl
      | cons a l ih =>
        unfold mapE
        rw [hg a (by simp), ih (fun x hx => hg x (List.mem_cons_of_mem _ hx))]
    rw [this]
  · have hlen : (1 : ℤ) < xs.length - 1 := by omega
    obtain ⟨p, lp, mp, hp⟩ := loop_queries f xs k 1 (xs.length - 1) hlen (by
      have : ((xs.length : ℕ) : ℤ) ≤ ((2 ^ k + 2 : ℕ) : ℤ) := by exact_mod_cast hk
      push_cast at this
      linarith)
    have run : ∀ h : ℚ → Py ℚ, binSearch h xs = (do
        let x0 ← pyGet xs 0
        let x1 ← pyGet xs 1
        let f0 ← h x0
        let f1 ← h x1
        if f0 > f1 then pure (x0, f0)
        else
          let y0 ← pyGet xs (-1)
          let y1 ← pyGet xs (-2)
          let g0 ← h y0
          let g1 ← h y1
          if g0 > g1 then pure (y0, g0)
          else
            let c ← binSearchLoop h xs (xs.length + 1) 1 (xs.length - 1)
            let x ← pyGet xs c
            let o ← h x
            pure (x, o)) := by
      intro h
      unfold binSearch
      rw [if_neg h2]
    let last : List ℚ := match binSearchLoop f xs (xs.length + 1) 1 (xs.length - 1) with
      | .ok c => queried xs c
      | .error _ => []
    have hlast1 : last.length ≤ 1 := by
      simp only [last]
      split
      · exact queried_length _ _
      · simp
    have hlastm : ∀ x ∈ last, x ∈ xs := by
      intro x hx
      simp only [last] at hx
      split at hx
      · exact queried_mem hx
      · simp at hx
    refine ⟨(queried xs 0 ++ queried xs 1) ++ (queried xs (-1) ++ queried xs (-2)) ++ (p ++ last), ?_, ?_, ?_⟩
    · have := queried_length xs 0
      have := queried_length xs 1
      have := queried_length xs (-1)
      have := queried_length xs (-2)
      simp only [List.length_append]
      omega
    · intro x hx
      simp only [List.mem_append] at hx
      rcases hx with ((h | h) | h | h) | h | h
      · exact queried_mem h
      · exact queried_mem h
      · exact queried_mem h
      · exact queried_mem h
      · exact mp x h
      · exact hlastm x h
    · intro g hg
      simp only [List.mem_append] at hg
      rw [run, run, hp g (fun x hx => hg x (by tauto)) _ _ (.inl rfl)]
      have a0 : ∀ x ∈ queried xs 0, g x = f x := fun x hx => hg x (by tauto)
      have a1 : ∀ x ∈ queried xs 1, g x = f x := fun x hx => hg x (by tauto)
      have a2 : ∀ x ∈ queried xs (-1), g x = f x := fun x hx => hg x (by tauto)
      have a3 : ∀ x ∈ queried xs (-2), g x = f x := fun x hx => hg x (by tauto)
      have a4 : ∀ x ∈ last, g x = f x := fun x hx => hg x (by tauto)
      unfold queried at a0 a1 a2 a3
      cases h0 : pyGet xs 0 with
      | error e => rfl
      | ok x0 =>
        cases h1 : pyGet xs 1 with
        | error e => rfl
        | ok x1 =>
          rw [h0] at a0; rw [h1] at a1
          simp only [ok_bind]
          rw [a0 x0 (by simp), a1 x1 (by simp)]
          cases f x0 with
          | error e => rfl
          | ok f0 =>
            cases f x1 with
            | error e => rfl
            | ok f1 =>
              simp only [ok_bind]
              split
              · rfl
              · cases h2 : pyGet xs (-1) with
                | error e => rfl
                | ok y0 =>
                  cases h3 : pyGet xs (-2) with
                  | error e => rfl
                  | ok y1 =>
                    rw [h2] at a2; rw [h3] at a3
                    simp only [ok_bind]
                    rw [a2 y0 (by simp), a3 y1 (by simp)]
                    cases f y0 with
                    | error e => rfl
                    | ok g0 =>
                      cases f y1 with
                      | error e => rfl
                      | ok g1 =>
                        simp only [ok_bind]
                        split
                        · rfl
                        · simp only [last] at a4
                          cases hc : binSearchLoop f xs (xs.length + 1) 1 (xs.length - 1) with
                          | error e => rfl
                          | ok c =>
                            rw [hc] at a4
                            simp only [ok_bind]
                            exact get_congr a4 (fun x o => o >>= fun o => pure (x, o))

/-- C75. The loop of the binary search over `n ≤ 2 ^ k + 2` rates runs at most `k` times: allowing more iterations than
that never changes its outcome. -/
theorem C75_bin_search_iterations (f : ℚ → Py ℚ) (xs : List ℚ) (k : ℕ) (hn : 2 < xs.length) (hk : xs.length ≤ 2 ^ k + 2)
    {n m : ℕ} (h1 : k < n) (h2 : k < m) :
    binSearchLoop f xs n 1 (xs.length - 1) = binSearchLoop f xs m 1 (xs.length - 1) := by
  obtain ⟨p, _, _, hp⟩ := loop_queries f xs k 1 (xs.length - 1) (by omega) (by
    have : ((xs.length : ℕ) : ℤ) ≤ ((2 ^ k + 2 : ℕ) : ℤ) := by exact_mod_cast hk
    push_cast at this
    linarith)
  exact hp f (fun _ _ => rfl) n m (.inr ⟨h1, h2⟩)

/-! ### The intervals -/

private theorem partialIdxLoop_length (lb ub : ℚ) : ∀ (os : List Order) (i : ℕ) (cur : ℚ),
    (partialIdxLoop lb ub i cur os).length ≤ os.length := by
  intro os
  induction os with
  | nil => intro i cur; simp [partialIdxLoop]
  | cons o os ih =>
    intro i cur
    unfold partialIdxLoop
    split
    · simp
    · have := ih (i + 1) (cur - o.maxSell)
      rw [List.length_append, List.length_cons]
      split <;> simp <;> omega

private theorem intervalYields_length {st : IntervalState} {a c : ℚ} {fee : Fee} {ys : List IntervalData}
    (h : intervalYields st a c fee = .ok ys) : ys.length ≤ st.bExec.length + st.sExec.length := by
  unfold intervalYields at h
  simp only [bind_eq_ok, pure_eq_ok, Except.ok.injEq] at h
  obtain ⟨b0, _, s0, _, js, hj, rfl⟩ := h
  unfold sPartialIdxs at hj
  simp only [bind_eq_ok, pure_eq_ok, Except.ok.injEq] at hj
  obtain ⟨l, _, u, _, rfl⟩ := hj
  rw [List.length_append, List.length_map, List.length_map]
  unfold bPartialIdxs
  exact Nat.add_le_add (partialIdxLoop_length _ _ _ _ _) (partialIdxLoop_length _ _ _ _ _)

/-- Bound of what the loop holds, now and later. -/
private def load (st : IntervalState) (L : List Variant) : ℕ :=
  st.bExec.length + L.countP (·.isB) + st.sExec.length

/-- How many intervals are still to be looked at around the rate `x`. -/
private def pendingAt (x : ℚ) (prev : Option ℚ) : List Variant → ℕ
  | [] => 0
  | v :: rest => (if prev = some x then 1 else 0) + (if v.xrate = x then 2 else 0) +
      3 * rest.countP (fun w => decide (w.xrate = x))

private theorem intervalUpdate_load {st st' : IntervalState} {v : Variant} {L : List Variant}
    (h : intervalUpdate st v = .ok st') : load st' L ≤ load st (v :: L) ∧ st'.prev = st.prev := by
  unfold intervalUpdate at h
  split at h
  · rename_i hv
    cases h
    refine ⟨?_, rfl⟩
    simp only [load, List.length_cons, List.countP_cons, hv, if_true]
    omega
  · rename_i hv
    split at h
    · cases h
    · rename_i o rest he
      cases h
      refine ⟨?_, rfl⟩
      simp only [load, List.countP_cons, hv, he, List.length_cons, Bool.false_eq_true, if_false]
      omega

private theorem load_next (st : IntervalState) (p : Option ℚ) (L : List Variant) :
    load { st with prev := p } L = load st L := rfl

private theorem intervalLoop_length (fee : Fee) (x : ℚ) : ∀ (L : List Variant) (st : IntervalState) (ivs : List IntervalData),
    intervalLoop fee (some x) st L = .ok ivs → ivs.length ≤ pendingAt x st.prev L * load st L := by
  intro L
  induction L with
  | nil =>
    intro st ivs h
    unfold intervalLoop at h
    cases h
    simp
  | cons v L ih =>
    intro st ivs h
    cases L with
    | nil =>
      unfold intervalLoop at h
      cases h
      simp
    | cons w rest =>
      unfold intervalLoop at h
      obtain ⟨st', e1, h⟩ := bind_eq_ok.1 h
      obtain ⟨hl, hp⟩ := intervalUpdate_load (L := w :: rest) e1
      have hstep : ∀ more, intervalLoop fee (some x) { st' with prev := some v.xrate } (w :: rest) = .ok more →
          more.length ≤ pendingAt x (some v.xrate) (w :: rest) * load st (v :: w :: rest) := by
        intro more hm
        refine (ih _ _ hm).trans ?_
        rw [load_next]
        exact Nat.mul_le_mul_left _ hl
      have hmono : pendingAt x (some v.xrate) (w :: rest) ≤ pendingAt x st.prev (v :: w :: rest) := by
        simp only [pendingAt, List.countP_cons, Option.some.injEq, decide_eq_true_eq]
        split_ifs <;> omega
      have hless : ¬ (x ≠ v.xrate ∧ x ≠ w.xrate ∧ st.prev ≠ some x) →
          pendingAt x (some v.xrate) (w :: rest) + 1 ≤ pendingAt x st.prev (v :: w :: rest) := by
        intro hn
        simp only [pendingAt, List.countP_cons, Option.some.injEq, decide_eq_true_eq]
        have hn' : v.xrate = x ∨ w.xrate = x ∨ st.prev = some x := by
          by_contra hc
          push Not at hc
          exact hn ⟨fun e => hc.1 e.symm, fun e => hc.2.1 e.symm, hc.2.2⟩
        split_ifs <;> first | omega | (exfalso; tauto)
      split at h
      · exact (hstep _ h).trans (Nat.mul_le_mul_right _ hmono)
      · rename_i hskip
        split at h
        · exact (hstep _ h).trans (Nat.mul_le_mul_right _ hmono)
        · split at h
          · cases h; simp
          · obtain ⟨ys, e2, h⟩ := bind_eq_ok.1 h
            obtain ⟨more, e3, h⟩ := bind_eq_ok.1 h
            rw [pure_eq_ok, Except.ok.injEq] at h
            subst h
            have h1 := hstep _ e3
            have h2 := intervalYields_length e2
            have h3 : ys.length ≤ load st (v :: w :: rest) := by
              refine (h2.trans ?_).trans hl
              unfold load; omega
            have h4 := hless (by
              unfold skipInterval at hskip
              rw [hp] at hskip
              simpa using hskip)
            rw [List.length_append]
            calc ys.length + more.length
                ≤ load st (v :: w :: rest) + pendingAt x (some v.xrate) (w :: rest) * load st (v :: w :: rest) := by omega
              _ = (pendingAt x (some v.xrate) (w :: rest) + 1) * load st (v :: w :: rest) := by ring
              _ ≤ _ := Nat.mul_le_mul_right _ h4

/-- C75. Given the best limit rate `x`, the iterator yields at most three times as many cases as there are orders, for each
order whose limit rate (after the fee) is `x`; so a linear number if limit rates differ. -/
theorem C75_interval_count {b s : List Order} {fee : Fee} {x : ℚ} {ivs : List IntervalData}
    (h : xrateIntervals b s fee (some x) = .ok ivs) :
    ivs.length ≤ 3 * (b.countP (fun o => decide (o.maxXrate * (1 - fee.value) = x)) +
      s.countP (fun o => decide (1 / (o.maxXrate * (1 - fee.value)) = x))) * (b.length + s.length) := by
  unfold xrateIntervals at h
  obtain ⟨_, _, h⟩ := bind_eq_ok.1 h
  obtain ⟨vs, ev, h⟩ := bind_eq_ok.1 h
  have hvs : vs = s.map (fun o => { isB := false, xrate := 1 / (o.maxXrate * (1 - fee.value)), data := o : Variant }) := by
    have hf := mapE_eq_ok_forall₂.1 ev
    clear h ev
    revert hf
    generalize s = l
    intro hf
    induction hf with
    | nil => rfl
    | cons h1 _ ih =>
      obtain ⟨q, e, h1⟩ := bind_eq_ok.1 h1
      rw [pure_eq_ok, Except.ok.injEq] at h1
      rw [pyDiv_eq_ok] at e
      rw [List.map_cons, ← ih, ← h1, e.2]
  have hlen := intervalLoop_length _ _ _ _ _ h
  generalize hall : pySortByRev (fun v : Variant => v.xrate)
    (b.map (fun o => { isB := true, xrate := o.maxXrate * (1 - fee.value), data := o : Variant }) ++ vs) = all at hlen
  have hperm : all.Perm (b.map (fun o => { isB := true, xrate := o.maxXrate * (1 - fee.value), data := o : Variant }) ++ vs) := by
    rw [← hall]; exact pySortByRev_perm _ _
  have hload : ∀ st : IntervalState, st.bExec = [] → st.sExec = (all.filter (fun v => !v.isB)).map (·.data) →
      load st all = b.length + s.length := by
    intro st hb0 hs0
    have h1 : all.countP (·.isB) = b.length := by
      rw [hperm.countP_eq, hvs, List.countP_append, List.countP_map, List.countP_map]
      have e1 : List.countP ((fun v : Variant => v.isB) ∘
        fun o : Order => { isB := true, xrate := o.maxXrate * (1 - fee.value), data := o : Variant }) b = b.length :=
        List.countP_eq_length.2 (fun _ _ => rfl)
      have e2 : List.countP ((fun v : Variant => v.isB) ∘
        fun o : Order => { isB := false, xrate := 1 / (o.maxXrate * (1 - fee.value)), data := o : Variant }) s = 0 :=
        List.countP_eq_zero.2 (fun _ _ => by simp)
      omega
    have h2 : ((all.filter (fun v => !v.isB)).map (·.data)).length = s.length := by
      rw [List.length_map, (hperm.filter _).length_eq, hvs, List.filter_append, List.length_append,
        ← List.countP_eq_length_filter, ← List.countP_eq_length_filter, List.countP_map, List.countP_map]
      have e1 : List.countP ((fun v : Variant => !v.isB) ∘
        fun o : Order => { isB := true, xrate := o.maxXrate * (1 - fee.value), data := o : Variant }) b = 0 :=
        List.countP_eq_zero.2 (fun _ _ => by simp)
      have e2 : List.countP ((fun v : Variant => !v.isB) ∘
        fun o : Order => { isB := false, xrate := 1 / (o.maxXrate * (1 - fee.value)), data := o : Variant }) s = s.length :=
        List.countP_eq_length.2 (fun _ _ => rfl)
      omega
    simp only [load, h1, hb0, hs0, h2, List.length_nil]
    omega
  rw [hload _ rfl rfl] at hlen
  refine hlen.trans (Nat.mul_le_mul_right _ ?_)
  have hp : pendingAt x none all ≤ 3 * all.countP (fun w => decide (w.xrate = x)) := by
    cases all with
    | nil => simp [pendingAt]
    | cons v rest =>
      simp only [pendingAt, List.countP_cons, decide_eq_true_eq, reduceCtorEq, if_false]
      split_ifs <;> omega
  refine hp.trans (le_of_eq ?_)
  rw [hperm.countP_eq, hvs, List.countP_append, List.countP_map, List.countP_map]
  rfl

/-- C75. In each case at most three rates are tried. -/
theorem C75_rates_per_case {cfg : Config} {sqrt : ℚ → Py ℚ} {fee : Fee} {d : IntervalData} {xs : List ℚ}
    (h : localOptima cfg sqrt fee d = .ok xs) : xs.length ≤ 3 := by
  unfold localOptima at h
  simp only [bind_eq_ok, pure_eq_ok, Except.ok.injEq] at h
  obtain ⟨c, _, r3, _, r4, _, r5, _, rfl⟩ := h
  unfold sortDistinct
  refine (List.dedup_sublist _).length_le.trans ?_
  rw [(pySortBy_perm _ _).length_eq]
  refine (List.length_filter_le _ _).trans ?_
  exact List.length_filterMap_le _ _

/-! ### Non-vacuity -/

/-- For 1026 rates, 65 evaluations are enough. -/
example (f : ℚ → Py ℚ) : ∃ pts : List ℚ, pts.length ≤ 65 ∧
    ∀ g : ℚ → Py ℚ, (∀ x ∈ pts, g x = f x) →
      binSearch g ((List.range 1026).map (fun i : ℕ => (i : ℚ))) = binSearch f ((List.range 1026).map (fun i : ℕ => (i : ℚ))) := by
  obtain ⟨pts, h1, _, h3⟩ := C75_bin_search_queries f ((List.range 1026).map (fun i : ℕ => (i : ℚ))) 10 (by rw [List.length_map, List.length_range]; norm_num)
  exact ⟨pts, h1, h3⟩

/-- The book of `Props/Interval.lean` yields cases around the limit rate of one of its orders. -/
example : ∃ ivs, xrateIntervals ExIv.b ExIv.s ExIv.fee (some ((3/2) * (999/1000))) = .ok ivs ∧ 3 ≤ ivs.length ∧
    ivs.length ≤ 3 * 1 * (ExIv.b.length + ExIv.s.length) := by
  obtain ⟨ivs, e, h⟩ := exists_of_pyCheck (x := xrateIntervals ExIv.b ExIv.s ExIv.fee (some ((3/2) * (999/1000))))
    (p := fun ivs => 3 ≤ ivs.length) (by decide +kernel)
  refine ⟨ivs, e, h, ?_⟩
  have := C75_interval_count e
  have h1 : ExIv.b.countP (fun o => decide (o.maxXrate * (1 - ExIv.fee.value) = (3/2) * (999/1000))) +
      ExIv.s.countP (fun o => decide (1 / (o.maxXrate * (1 - ExIv.fee.value)) = (3/2) * (999/1000))) = 1 := by decide +kernel
  rw [h1] at this
  exact this

end Dex
