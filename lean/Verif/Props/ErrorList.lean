import Verif.Props.Overflow

/-! # Property C113: the list of exceptions is exact -/

namespace Dex

open Spec

namespace ExShape

/-- Four orders on one side, one on the other. At the two lowest limit rates the first order trades; at the two highest only orders below the least amount are
left, and they sell 2 · 5500000 units against 11000 units times 1000, so that the objective is the same at both. -/
def inst : Instance where
  accounts := [("a", [("S", 20060000)]), ("b", [("S", 5500000)]), ("c", [("S", 5500000)]), ("d", [("S", 5500000)]), ("e", [("F", 11000)])]
  fee := { token := "F", value := 1 / 1000 }
  orders := [
    { accountID := "a", buyToken := "F", sellToken := "S", sellAmount := 20060000, buyAmount := 20000 },
    { accountID := "b", buyToken := "F", sellToken := "S", sellAmount := 10040000, buyAmount := 10000 },
    { accountID := "c", buyToken := "F", sellToken := "S", sellAmount := 10050000, buyAmount := 10000 },
    { accountID := "d", buyToken := "F", sellToken := "S", sellAmount := 10050000, buyAmount := 10000 },
    { accountID := "e", buyToken := "S", sellToken := "F", sellAmount := 11000, buyAmount := 10989000 }]

/-- The world of C111 with the branching of the example of C33 as well. -/
noncomputable def world : World :=
  { ExClosed.world with ext := { ExClosed.world.ext with branch := fun E => if E = ExVia.graph then ExVia.ext.branch E else ExInst.ext.branch E } }

theorem std : StdWorld world where
  base := rfl
  conv := rfl
  sqrt := rfl
  fdiv := rfl
  branch E := by
    change MaxBranching E (if E = ExVia.graph then ExVia.ext.branch E else ExInst.ext.branch E)
    split
    · exact ExVia.branch_max E
    · exact ExInst.branch_max E
  shuffle := ExClosed.std.shuffle
  runtime := ExClosed.std.runtime

end ExShape

namespace Spec

/-- A run of the program as delivered, on a valid instance and for a valid command, fails with `e`. -/
def RunFails (w : World) (inst : Instance) (a : Args) (e : PyErr) : Prop :=
  GoodInstance inst ∧ FeeOk Config.default inst.fee ∧ a.command ≠ none ∧ GoodCommand a ∧ matchMain w.base w.ext inst a w.shuffle w.elapsed = .error e

end Spec

/-- C113. Neither command fails in the final check of the fee of each order (validation.py:77), whatever the thresholds and the floating-point functions are, if
these do not raise that assertion themselves. -/
theorem C113_absolute_never {cfg : Config} {ext : Ext} {inst : Instance} (hc : CfgOk cfg) (hi : GoodInstance inst) (hf : FeeOk cfg inst.fee)
    (hbr : ∀ E, MaxBranching E (ext.branch E)) (hd : ∀ q n r, 0 ≤ q → 0 < n → ext.fdiv q n = .ok r → 0 ≤ r)
    (hs : ∀ t, ext.sqrt t ≠ .error (.assertion "validation.py:77")) (hq : ∀ q n, ext.fdiv q n ≠ .error (.assertion "validation.py:77")) :
    (∀ pair xrate, pair.1 ≠ pair.2 → (∀ y, xrate = some y → 0 < y) → tokenPairMain cfg ext inst pair xrate ≠ .error (.assertion "validation.py:77")) ∧
    ∀ shuffle : List (Token × Token) → List ((Token × Token) × Bool), (∀ E, ∀ v ∈ shuffle E, v.1 ∈ E) →
      bestTokenPairMain cfg ext inst shuffle ≠ .error (.assertion "validation.py:77") := by
  have core : ¬ CoreFailure ext (.assertion "validation.py:77") := by
    rintro ((h | h | h | ⟨t, _, h⟩) | ⟨q, n, _, _, h⟩)
    · cases h
    · exact absurd h (by decide)
    · exact absurd h (by decide)
    · exact hs t h
    · exact hq q n h
  have thr : ¬ ThresholdFailure cfg (.assertion "validation.py:77") := by
    rintro (h | ⟨_, h⟩)
    · cases h
    · exact absurd h (by decide)
  refine ⟨fun pair xrate hne hx he => ?_, fun shuffle hsh he => ?_⟩
  · rcases C111_token_pair hc hi hf hne hbr hd hx he with h | ⟨_, h⟩ | ⟨_, h⟩ | ⟨_, h⟩
    · exact core h
    · exact absurd h (by decide)
    · exact thr h
    · cases h
  · rcases C111_best_pair hc hi hf hbr hd hsh he with h | ⟨_, h⟩
    · exact core h
    · exact thr h

/-- C113. The thresholds that go with the assertion on the average fee: the minimum average fee is positive. -/
theorem C113_average_only {w : World} (h : StdWorld w) {inst : Instance} {a : Args} (he : RunFails w inst a (.assertion "validation.py:74")) : 0 < a.minAvgFee := by
  obtain ⟨hi, hf, hcmd, hg, he⟩ := he
  have key : ∀ e, RunError (a.config w.base) inst a e → e = .assertion "validation.py:74" → 0 < a.minAvgFee := by
    intro e hr hv
    cases hr with
    | average hm => exact hm
    | _ => exact absurd hv (by decide)
  exact key _ (C111_exceptions h hi hf hcmd hg he) rfl

/-- C113. On a valid instance with at most `2 ^ 64` orders and amounts of at most `2 ^ 256`, these six exceptions are all. -/
theorem C113_complete {w : World} (h : StdWorld w) {inst : Instance} (hz : Sized (2 ^ 256) (2 ^ 64) inst) {a : Args} {e : PyErr} (he : RunFails w inst a e) :
    e ∈ [.zeroDivision, .valueError, .assertion "xrate.py:439", .assertion "xrate.py:440", .assertion "token_pair_solver/api.py:35",
      .assertion "validation.py:74"] := by
  obtain ⟨hi, hf, hcmd, hg, he⟩ := he
  have := C111_exceptions h hi hf hcmd hg he
  cases this with
  | overflow => exact absurd he (C112_no_overflow h hi hz hf hg)
  | _ => simp

/-- C113. Each of them occurs, on an instance of this size. -/
theorem C113_occur : ∃ w, StdWorld w ∧ ∀ e ∈ [PyErr.zeroDivision, .valueError, .assertion "xrate.py:439", .assertion "xrate.py:440",
    .assertion "token_pair_solver/api.py:35", .assertion "validation.py:74"], ∃ inst a, Sized (2 ^ 256) (2 ^ 64) inst ∧ RunFails w inst a e := by
  refine ⟨ExShape.world, ExShape.std, fun e he => ?_⟩
  have key : ∀ inst a, GoodInstance inst → Sized (2 ^ 256) (2 ^ 64) inst → FeeOk Config.default inst.fee → a.command ≠ none → GoodCommand a →
      matchMain ExShape.world.base ExShape.world.ext inst a ExShape.world.shuffle ExShape.world.elapsed = .error e → ∃ inst a, Sized (2 ^ 256) (2 ^ 64) inst ∧ RunFails ExShape.world inst a e :=
    fun inst a h1 h2 h3 h4 h5 h6 => ⟨inst, a, h2, h1, h3, h4, h5, h6⟩
  have cmd : ∀ (a : Args) (x y : Token), x ≠ y → a.command = some (.tokenPair (x, y) none) → GoodCommand a :=
    fun a x y hxy ha pair xrate hp => by cases ha.symm.trans hp; exact ⟨hxy, by simp⟩
  simp only [List.mem_cons, List.not_mem_nil, or_false] at he
  rcases he with rfl | rfl | rfl | rfl | rfl | rfl
  · exact key ExZero.inst { command := some (.tokenPair ("F", "S") none) } (by constructor <;> decide +kernel) (by constructor <;> decide +kernel)
      (by constructor <;> decide +kernel) (by simp) (cmd _ _ _ (by decide) rfl) (eq_error_of_pyRaises (by decide +kernel))
  · exact key ExInst.inst { command := some (.tokenPair ("F", "B") none) } ExInst.good (by constructor <;> decide +kernel)
      (by constructor <;> decide +kernel) (by simp) (cmd _ _ _ (by decide) rfl) (eq_error_of_pyRaises (by decide +kernel))
  · exact key ExShape.inst { command := some (.tokenPair ("F", "S") none) } (by constructor <;> decide +kernel) (by constructor <;> decide +kernel)
      (by constructor <;> decide +kernel) (by simp) (cmd _ _ _ (by decide) rfl) (eq_error_of_pyRaises (by decide +kernel))
  · exact key ExPlateau.inst { command := some (.tokenPair ("F", "S") none) } (by constructor <;> decide +kernel) (by constructor <;> decide +kernel)
      (by constructor <;> decide +kernel) (by simp) (cmd _ _ _ (by decide) rfl) (eq_error_of_pyRaises (by decide +kernel))
  · exact key ExInst.inst { command := some (.tokenPair ("B", "F") none) } ExInst.good (by constructor <;> decide +kernel)
      (by constructor <;> decide +kernel) (by simp) (cmd _ _ _ (by decide) rfl) (eq_error_of_pyRaises (by decide +kernel))
  · exact key ExVia.inst { minAvgFee := ExVia.cfg.minAvgFee, command := some (.tokenPair ("F", "S") none) } ExVia.good (by constructor <;> decide +kernel)
      (by constructor <;> decide +kernel) (by simp) (cmd _ _ _ (by decide) rfl) (eq_error_of_pyRaises (by decide +kernel))

end Dex
