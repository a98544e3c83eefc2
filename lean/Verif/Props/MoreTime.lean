import Verif.Props.Cli
import Verif.Props.Errors
import Verif.Props.TwoOrders

/-! # C118: more time -/

namespace Dex

open Spec

namespace Spec

/-- Whenever the second run is found to be late after some number of pairs, the first one is too: with the second limit and clock there is at least as much
time. -/
def AtLeastAsLong (limit limit' : Option ℤ) (elapsed elapsed' : ℕ → ℚ) : Prop :=
  ∀ k l', limit' = some l' → (l' : ℚ) < elapsed' k → ∃ l, limit = some l ∧ (l : ℚ) < elapsed k

end Spec

theorem bestLoop_longer {cfg : Config} {ext : Ext} {accounts : Accounts} {fee : Fee} {limit limit' : Option ℤ} {elapsed elapsed' : ℕ → ℚ}
    (hl : AtLeastAsLong limit limit' elapsed elapsed') {E : List (Token × Token)} {n : ℕ} {st st' : BestState}
    (h : bestLoop cfg ext accounts fee (timedVisits limit' elapsed' n E) st = .ok st') :
    ∃ st1, bestLoop cfg ext accounts fee (timedVisits limit elapsed n E) st = .ok st1 ∧ st1.objective ≤ st'.objective := by
  induction E generalizing n st with
  | nil => exact ⟨st', h, le_rfl⟩
  | cons p E ih =>
    unfold timedVisits bestLoop at h ⊢
    rw [bind_eq_ok] at h
    obtain ⟨⟨obj, sol, os⟩, he, h⟩ := h
    rw [he, ok_bind]
    dsimp only at h ⊢
    by_cases ht : timeUp limit (elapsed n) = true
    · rw [if_pos ht]
      refine ⟨_, rfl, ?_⟩
      split at h
      · cases h; exact le_rfl
      · exact bestLoop_le h
    · rw [if_neg ht]
      have ht' : ¬ timeUp limit' (elapsed' n) = true := by
        intro hu
        apply ht
        unfold timeUp at hu ⊢
        cases hl' : limit' with
        | none => rw [hl'] at hu; cases hu
        | some l' =>
          rw [hl'] at hu
          obtain ⟨l, e, hlt⟩ := hl n l' hl' (of_decide_eq_true hu)
          rw [e]
          exact decide_eq_true hlt
      rw [if_neg ht'] at h
      exact ih h

/-- C118. If the command over all pairs succeeds, it also succeeds with less time (a lower limit, or a slower clock), for the same shuffle, and then what it writes
is worth at most as much. -/
theorem C118_less_time {base : Config} {ext : Ext} {inst : Instance} {a : Args} {limit : Option ℤ} {shuffle : List (Token × Token) → List (Token × Token)}
    {elapsed elapsed' : ℕ → ℚ} (hc : CfgOk base) (hi : GoodInstance inst) (hbr : ∀ E, MaxBranching E (ext.branch E)) (hsh : ∀ E, (shuffle E).Perm E)
    (ha : a.command = some .bestTokenPair) (hl : AtLeastAsLong limit a.timeLimit elapsed elapsed') {d' : Dump}
    (h : matchMain base ext inst a shuffle elapsed' = .ok d') :
    ∃ d, matchMain base ext inst { a with timeLimit := limit } shuffle elapsed = .ok d ∧ reportedObjective d ≤ reportedObjective d' := by
  have hsub : ∀ (lim : Option ℤ) (el : ℕ → ℚ) E, ∀ v ∈ timedVisits lim el 0 (shuffle E), v.1 ∈ E := by
    intro lim el E v hv
    refine (hsh E).mem_iff.1 ?_
    rw [← timedVisits_fst lim el (shuffle E) 0]
    exact List.mem_map.2 ⟨v, hv, rfl⟩
  have hc' : CfgOk (a.config base) := Args.config_ok hc
  unfold matchMain at h ⊢
  rw [ha] at h
  dsimp only at h ⊢
  rw [ha]
  change ∃ d, bestTokenPairMain (a.config base) ext inst (fun E => timedVisits limit elapsed 0 (shuffle E)) = .ok d ∧ _
  obtain ⟨orders, hload, herr, _⟩ := C44_best_pair (shuffle := fun E => timedVisits limit elapsed 0 (shuffle E)) hc' hi hbr (hsub limit elapsed)
  unfold bestTokenPairMain at h
  rw [hload, ok_bind] at h
  dsimp only at h
  rw [bind_eq_ok] at h
  obtain ⟨st', hst', hd'⟩ := h
  obtain ⟨st, hst, hle⟩ := bestLoop_longer hl hst'
  cases hm : bestTokenPairMain (a.config base) ext inst (fun E => timedVisits limit elapsed 0 (shuffle E)) with
  | error e =>
    have := herr e hm
    unfold bestTokenPair at this
    rw [hst] at this
    cases this
  | ok d =>
    refine ⟨d, rfl, ?_⟩
    unfold bestTokenPairMain at hm
    rw [hload, ok_bind] at hm
    dsimp only at hm
    rw [bind_eq_ok] at hm
    obtain ⟨st1, hst1, hd⟩ := hm
    have e : st1 = st := by
      unfold bestTokenPair at hst1
      rw [hst] at hst1
      cases hst1
      rfl
    subst e
    rw [reported_best hc' hi hbr hload (hsub _ _ _) hst1 hd, reported_best hc' hi hbr hload (hsub _ _ _) hst' hd']
    exact hle

/-- C118. With the same clock and a larger limit, or none, the run is worth at least as much, if it succeeds. -/
theorem C118_larger_limit {base : Config} {ext : Ext} {inst : Instance} {a a' : Args} {l : ℤ} {shuffle : List (Token × Token) → List (Token × Token)}
    {elapsed : ℕ → ℚ} (hc : CfgOk base) (hi : GoodInstance inst) (hbr : ∀ E, MaxBranching E (ext.branch E)) (hsh : ∀ E, (shuffle E).Perm E)
    (ha : a.command = some .bestTokenPair) (hl : a.timeLimit = some l) (hl' : ∀ l', a'.timeLimit = some l' → l ≤ l')
    (hs : a' = { a with timeLimit := a'.timeLimit }) {d d' : Dump} (h : matchMain base ext inst a shuffle elapsed = .ok d)
    (h' : matchMain base ext inst a' shuffle elapsed = .ok d') : reportedObjective d ≤ reportedObjective d' := by
  have ha' : a'.command = some .bestTokenPair := by rw [hs]; exact ha
  obtain ⟨d1, h1, hle⟩ := C118_less_time (limit := some l) (elapsed := elapsed) hc hi hbr hsh ha'
    (fun k m hm hk => ⟨l, rfl, lt_of_le_of_lt (by exact_mod_cast hl' m hm) hk⟩) h'
  have e : { a' with timeLimit := some l } = a := by rw [hs, ← hl]
  rw [e, h] at h1
  cases h1
  exact hle

namespace ExMoreTime

/-- Two orders that trade, and the orders of `C57_search_divides_by_zero` with another token. -/
def inst : Instance where
  accounts := (ExLost.inst []).accounts ++ [("x", [("T", 1996002000000000000000000)]), ("y", [("T", 7992002000000000000001999)]),
    ("z", [("F", 1998000000000000000000000)])]
  fee := ExZero.fee
  orders := [ExLost.b0, ExLost.c,
    { accountID := "x", buyToken := "F", sellToken := "T", sellAmount := 1996002000000000000000000, buyAmount := 998001000000000000000000 },
    { accountID := "y", buyToken := "F", sellToken := "T", sellAmount := 7992002000000000000001999, buyAmount := 5988006000000000000000000 },
    { accountID := "z", buyToken := "T", sellToken := "F", sellAmount := 1998000000000000000000000, buyAmount := 1998000000000000000000000 }]

/-- A shuffle that visits the pair F/S first. -/
def shuffle (E : List (Token × Token)) : List (Token × Token) :=
  E.filter (fun p => p = ("F", "S")) ++ E.filter (fun p => p ≠ ("F", "S"))

theorem shuffle_perm (E : List (Token × Token)) : (shuffle E).Perm E := by
  have := List.filter_append_perm (fun p : Token × Token => decide (p = ("F", "S"))) E
  simpa [shuffle] using this

end ExMoreTime

/-- C118 (negative). More time can lose the solution: with a limit of one second the run writes a solution with two executed orders; without a limit the same run
ends with `ZeroDivisionError` at a later pair, and the solution found before is lost. -/
theorem C118_more_time_fails : GoodInstance ExMoreTime.inst ∧ (∀ E, (ExMoreTime.shuffle E).Perm E) ∧
    (∃ d, matchMain Config.default ExFrame.ext ExMoreTime.inst { timeLimit := some 1, command := some .bestTokenPair } ExMoreTime.shuffle (fun k => 2 * (k + 1)) = .ok d ∧
      d.orders.length = 2 ∧ 0 < reportedObjective d) ∧
    matchMain Config.default ExFrame.ext ExMoreTime.inst { command := some .bestTokenPair } ExMoreTime.shuffle (fun k => 2 * (k + 1)) = .error .zeroDivision :=
  ⟨by constructor <;> decide +kernel, ExMoreTime.shuffle_perm,
    exists_of_pyCheck (p := fun d : Dump => d.orders.length = 2 ∧ 0 < reportedObjective d) (by decide +kernel),
    eq_error_of_pyRaises (by decide +kernel)⟩

/-- The hypotheses of `C118_larger_limit`, with a larger value: with a limit of one second only the first pair of the example instance is evaluated, and the empty
solution is written; without a limit the result is worth something. -/
example : ∃ d d', matchMain Config.default ExInst.ext ExInst.inst { timeLimit := some 1, command := some .bestTokenPair } List.reverse (fun k => 7 * (k + 1)) = .ok d ∧
    matchMain Config.default ExInst.ext ExInst.inst { command := some .bestTokenPair } List.reverse (fun k => 7 * (k + 1)) = .ok d' ∧
    reportedObjective d = 0 ∧ 0 < reportedObjective d' ∧ reportedObjective d ≤ reportedObjective d' := by
  obtain ⟨d, h1, h2⟩ := exists_of_pyCheck (x := matchMain Config.default ExInst.ext ExInst.inst { timeLimit := some 1, command := some .bestTokenPair }
    List.reverse (fun k => 7 * (k + 1))) (p := fun d => reportedObjective d = 0) (by decide +kernel)
  obtain ⟨d', h3, h4⟩ := exists_of_pyCheck (x := matchMain Config.default ExInst.ext ExInst.inst { command := some .bestTokenPair }
    List.reverse (fun k => 7 * (k + 1))) (p := fun d => 0 < reportedObjective d) (by decide +kernel)
  have hc : CfgOk Config.default := by constructor <;> decide
  exact ⟨d, d', h1, h3, h2, h4, C118_larger_limit (l := 1) hc ExInst.good ExInst.branch_max (fun _ => List.reverse_perm _) rfl rfl (by simp) rfl h1 h3⟩

end Dex
