import Verif.Proof.MemMain
import Verif.Props.ExInstance

/-! # C77: the two programs on shared mutable orders

All other theorems about the programs treat lists of orders as lists of values and write results back by id. In Model/Mem.lean
orders are objects: the lists of a pair hold references to the orders of the whole book, every assignment is seen by everybody who
refers to the object, the best solution so far is a deep copy, objective values are memoised, and intervals are produced while
the consumer changes the orders they refer to. -/

namespace Dex

/-- C77, token-pair solver. On objects it writes the same solution as on values, and raises an exception exactly when the other does
(possibly another exception, but see `C77_token_pair_exact`). The state of the memory before does not matter, nor does the size of the caches. -/
theorem C77_token_pair_program (cfg : Config) (ext : HeapExt) (inst : Instance) (pair : Token × Token) (h : pair.1 ≠ pair.2) (xrate : Option ℚ)
    (m : Mem) (d : Dump) :
    (∃ m', heapTokenPairMain cfg ext inst pair xrate m = .ok (d, m')) ↔ tokenPairMain cfg ext.toExt inst pair xrate = .ok d := by
  have hs := sim_tokenPairMain (X := False) (cfg := cfg) (ext := ext) (inst := inst) (x := xrate) (m := m) h False.elim
  constructor
  · rintro ⟨m', e⟩
    rw [e] at hs
    cases hv : tokenPairMain cfg ext.toExt inst pair xrate with
    | error e' => rw [hv] at hs; exact absurd hs (by simp [Sim])
    | ok d' => rw [hv] at hs; have e2 : d' = d := hs; rw [e2]
  · intro e
    rw [e] at hs
    obtain ⟨a, m', e1, e2⟩ := hs.exists_ok
    exact ⟨m', by rw [e1, e2]⟩

/-- C77, best-token-pair solver: the same, for any choice of visited pairs among the eligible ones. -/
theorem C77_best_program (cfg : Config) (ext : HeapExt) (inst : Instance) (shuffle : List (Token × Token) → List ((Token × Token) × Bool))
    (h : ∀ l, ∀ v ∈ shuffle l, v.1 ∈ l) (m : Mem) (d : Dump) :
    (∃ m', heapBestMain cfg ext inst shuffle m = .ok (d, m')) ↔ bestTokenPairMain cfg ext.toExt inst shuffle = .ok d := by
  have hs := sim_bestMain (X := False) (cfg := cfg) (ext := ext) (inst := inst) (m := m) h False.elim
  constructor
  · rintro ⟨m', e⟩
    rw [e] at hs
    cases hv : bestTokenPairMain cfg ext.toExt inst shuffle with
    | error e' => rw [hv] at hs; exact absurd hs (by simp [Sim])
    | ok d' => rw [hv] at hs; have e2 : d' = d := hs; rw [e2]
  · intro e
    rw [e] at hs
    obtain ⟨a, m', e1, e2⟩ := hs.exists_ok
    exact ⟨m', by rw [e1, e2]⟩

theorem Sim.map_eq {α : Type} {x : Py (α × Mem)} {y : Py α} (h : Sim True x y (fun a _ v => v = a)) : x.map Prod.fst = y := by
  cases x <;> cases y <;> simp_all [Sim, Except.map]

/-- C77, token-pair solver, exceptions included. If the fee is below 1 and the amounts of the orders are not negative, then the outcome
is the same: the same solution or the same exception. -/
theorem C77_token_pair_exact (cfg : Config) (ext : HeapExt) (inst : Instance) (pair : Token × Token) (h : pair.1 ≠ pair.2) (xrate : Option ℚ)
    (m : Mem) (hf : inst.fee.value < 1) (ha : ∀ d ∈ inst.orders, 0 ≤ d.buyAmount ∧ 0 ≤ d.sellAmount) :
    (heapTokenPairMain cfg ext inst pair xrate m).map Prod.fst = tokenPairMain cfg ext.toExt inst pair xrate :=
  (sim_tokenPairMain (X := True) h (fun _ => ⟨hf, ha⟩)).map_eq

/-- C77, best-token-pair solver, exceptions included. -/
theorem C77_best_exact (cfg : Config) (ext : HeapExt) (inst : Instance) (shuffle : List (Token × Token) → List ((Token × Token) × Bool))
    (h : ∀ l, ∀ v ∈ shuffle l, v.1 ∈ l) (m : Mem) (hf : inst.fee.value < 1) (ha : ∀ d ∈ inst.orders, 0 ≤ d.buyAmount ∧ 0 ≤ d.sellAmount) :
    (heapBestMain cfg ext inst shuffle m).map Prod.fst = bestTokenPairMain cfg ext.toExt inst shuffle :=
  (sim_bestMain (X := True) h (fun _ => ⟨hf, ha⟩)).map_eq

/-! ### Concrete runs -/

namespace ExMem

/-- Any memory will do. -/
def mem : Mem := { heap := fun _ => Order.mk' "" "" 0 0 none "", next := 0, cache := [] }

noncomputable def ext : HeapExt := { ExInst.ext with cap := fun n => n }

/-- Two orders that exchange the token B for itself. -/
def same : Instance where
  accounts := [("A", [("B", 10 ^ 20)]), ("C", [("B", 10 ^ 20)])]
  fee := { token := "F", value := 1 / 1000 }
  orders := [ { accountID := "A", buyToken := "B", sellToken := "B", buyAmount := 10 ^ 19, sellAmount := 2 * 10 ^ 19 },
    { accountID := "C", buyToken := "B", sellToken := "B", buyAmount := 10 ^ 19, sellAmount := 11 * 10 ^ 18 } ]

end ExMem

/-- The run of `ExInst.run` on objects, executing three orders; computed, not derived from the theorem. -/
example : ∃ d m, heapTokenPairMain Config.default ExMem.ext ExInst.inst ("B", "S") none ExMem.mem = .ok (d, m) ∧
    d.orders.map (·.execBuyAmount) = [some 9980005004999999966, some 17306065416497044526, some 19989989994994994] := by
  obtain ⟨⟨d, m⟩, e, p⟩ := exists_of_pyCheck (x := heapTokenPairMain Config.default ExMem.ext ExInst.inst ("B", "S") none ExMem.mem)
    (p := fun d : Dump × Mem => d.1.orders.map (·.execBuyAmount) = [some 9980005004999999966, some 17306065416497044526, some 19989989994994994])
    (by decide +kernel)
  exact ⟨d, m, e, p⟩

/-- The same from the theorem. -/
example : ∃ d m, heapTokenPairMain Config.default ExMem.ext ExInst.inst ("B", "S") none ExMem.mem = .ok (d, m) ∧
    d.orders.map (·.execBuyAmount) = [some 9980005004999999966, some 17306065416497044526, some 19989989994994994] := by
  obtain ⟨d, e, _, p⟩ := ExInst.run
  obtain ⟨m', e'⟩ := (C77_token_pair_program Config.default ExMem.ext ExInst.inst ("B", "S") (by decide) none ExMem.mem d).2 e
  exact ⟨d, m', e', p⟩

/-- The best-token-pair solver visiting all pairs in reverse order, on objects. -/
example : ∃ d m, heapBestMain Config.default ExMem.ext ExInst.inst (fun E => E.reverse.map (fun p => (p, false))) ExMem.mem = .ok (d, m) ∧
    d.orders.length = 3 := by
  obtain ⟨⟨d, m⟩, e, p⟩ := exists_of_pyCheck
    (x := heapBestMain Config.default ExMem.ext ExInst.inst (fun E => E.reverse.map (fun p => (p, false))) ExMem.mem)
    (p := fun d : Dump × Mem => d.1.orders.length = 3) (by decide +kernel)
  exact ⟨d, m, e, p⟩

/-- `shuffle` as in that run meets the hypothesis. -/
example (l : List (Token × Token)) : ∀ v ∈ l.reverse.map (fun p => (p, false)), v.1 ∈ l := by
  intro v hv
  obtain ⟨p, hp, rfl⟩ := List.mem_map.1 hv
  exact List.mem_reverse.1 hp

/-- A run that raises, on objects: the given rate 0. Computed, not derived from the theorem. -/
example : heapTokenPairMain Config.default ExMem.ext ExInst.inst ("B", "S") (some 0) ExMem.mem = .error .zeroDivision := by
  have h : (match heapTokenPairMain Config.default ExMem.ext ExInst.inst ("B", "S") (some 0) ExMem.mem with
    | .error e => decide (e = .zeroDivision)
    | .ok _ => false) = true := by decide +kernel
  cases hx : heapTokenPairMain Config.default ExMem.ext ExInst.inst ("B", "S") (some 0) ExMem.mem with
  | ok r => rw [hx] at h; cases h
  | error e => rw [hx] at h; rw [of_decide_eq_true h]

/-- The instance meets the hypotheses of the exact statements. -/
example : ExInst.inst.fee.value < 1 ∧ ∀ d ∈ ExInst.inst.orders, 0 ≤ d.buyAmount ∧ 0 ≤ d.sellAmount := by decide +kernel

/-- The hypothesis on the pair is needed. Nothing in the code forbids naming the same token twice (`token-pair B B`); then the two
books are the same objects, and with orders that exchange B for itself the program fails an assertion. On values it finds nothing to match. -/
theorem C77_same_token :
    heapTokenPairMain Config.default ExMem.ext ExMem.same ("B", "B") (some 1) ExMem.mem = .error (.assertion "amount.py:138") ∧
    ∃ d, tokenPairMain Config.default ExMem.ext.toExt ExMem.same ("B", "B") (some 1) = .ok d ∧ d.orders = [] := by
  constructor
  · have h : (match heapTokenPairMain Config.default ExMem.ext ExMem.same ("B", "B") (some 1) ExMem.mem with
      | .error e => decide (e = .assertion "amount.py:138")
      | .ok _ => false) = true := by decide +kernel
    cases hx : heapTokenPairMain Config.default ExMem.ext ExMem.same ("B", "B") (some 1) ExMem.mem with
    | ok r => rw [hx] at h; cases h
    | error e => rw [hx] at h; rw [of_decide_eq_true h]
  · obtain ⟨d, e, p⟩ := exists_of_pyCheck (x := tokenPairMain Config.default ExMem.ext.toExt ExMem.same ("B", "B") (some 1))
      (p := fun d : Dump => d.orders.length = 0) (by decide +kernel)
    exact ⟨d, e, List.eq_nil_of_length_eq_zero p⟩

end Dex
