import Verif.Proof.RenApi
import Verif.Props.Dump
import Mathlib.Logic.Equiv.Basic

/-! # Property C85: the programs do not look at the names of tokens and accounts -/

namespace Dex

open Spec

theorem map_of_renD {ρ : Renaming} {x y : Py Dump} (h : RelE (RenD ρ) x y) : y = x.map ρ.dump := by
  cases x <;> cases y
  · exact congrArg Except.error (Eq.symm h)
  · exact h.elim
  · exact h.elim
  · exact congrArg Except.ok h

/-- C85. Renaming the tokens and the accounts of an instance and of the requested pair renames the result of the token-pair solver and changes nothing else:
the same amounts, prices and metrics are reported, and if one run raises an exception, the other raises the same. The graph library has to follow
the renaming. -/
theorem C85_pair_solver {ρ : Renaming} {cfg : Config} {ext ext' : Ext} (hx : ρ.Ext ext ext') (inst : Instance) (pair : Token × Token) (xrate : Option ℚ) :
    tokenPairMain cfg ext' (ρ.inst inst) (ρ.pair pair) xrate = (tokenPairMain cfg ext inst pair xrate).map ρ.dump :=
  map_of_renD (tokenPairMain_ren hx)

/-- C85 for the search over all pairs: if the pairs are visited in the corresponding order, the result is renamed and otherwise the same. -/
theorem C85_best_pair_solver {ρ : Renaming} {cfg : Config} {ext ext' : Ext} (hx : ρ.Ext ext ext') (inst : Instance)
    {shuffle shuffle' : List (Token × Token) → List ((Token × Token) × Bool)}
    (hsh : ∀ E, shuffle' (E.map ρ.pair) = (shuffle E).map fun v => (ρ.pair v.1, v.2)) :
    bestTokenPairMain cfg ext' (ρ.inst inst) shuffle' = (bestTokenPairMain cfg ext inst shuffle).map ρ.dump :=
  map_of_renD (bestTokenPairMain_ren hx hsh)

/-- C85 for accounts: with the tokens' names kept, nothing is asked of the graph library. -/
theorem C85_accounts {ρ : Renaming} (ht : ∀ t, ρ.tok t = t) (cfg : Config) (ext : Ext) (inst : Instance) (pair : Token × Token) (xrate : Option ℚ)
    (shuffle : List (Token × Token) → List ((Token × Token) × Bool)) :
    tokenPairMain cfg ext (ρ.inst inst) pair xrate = (tokenPairMain cfg ext inst pair xrate).map ρ.dump ∧
    bestTokenPairMain cfg ext (ρ.inst inst) shuffle = (bestTokenPairMain cfg ext inst shuffle).map ρ.dump := by
  have hp : ρ.pair = id := funext fun p => Prod.ext (ht _) (ht _)
  have hx : ρ.Ext ext ext := ⟨rfl, rfl, fun E => by rw [hp, List.map_id, List.map_id]⟩
  refine ⟨?_, C85_best_pair_solver hx inst fun E => ?_⟩
  · have := C85_pair_solver (cfg := cfg) hx inst pair xrate
    rwa [hp] at this
  · rw [hp, List.map_id]
    exact (List.map_id _).symm

/-- For every renaming and all external functions there are external functions that follow the renaming. -/
theorem C85_follows (ρ : Renaming) (ext : Ext) : ∃ ext', ρ.Ext ext ext' := by
  classical
  have hinj : Function.Injective (List.map ρ.pair) := List.map_injective_iff.2 fun p q h =>
    Prod.ext (ρ.tok_inj (congrArg Prod.fst h)) (ρ.tok_inj (congrArg Prod.snd h))
  refine ⟨{ ext with branch := fun E' => if h : ∃ E, E.map ρ.pair = E' then (ext.branch h.choose).map ρ.pair else [] }, rfl, rfl, fun E => ?_⟩
  have h : ∃ E₀ : List (Token × Token), E₀.map ρ.pair = E.map ρ.pair := ⟨E, rfl⟩
  dsimp only
  rw [dif_pos h, hinj h.choose_spec]

namespace ExRen

/-- Exchange the names of the fee token and of another token, and of the two accounts. -/
def ρ : Renaming where
  tok := Equiv.swap "B" "F"
  acc := Equiv.swap "A" "C"
  tok_inj := (Equiv.swap "B" "F").injective
  acc_inj := (Equiv.swap "A" "C").injective

end ExRen

/-- The example instance under the new names: "B" is the fee token now, and the first order of "C" buys "F". All three orders are executed as in `ExInst.run`. -/
example : ∃ ext' d, ExRen.ρ.Ext ExInst.ext ext' ∧ (ExRen.ρ.inst ExInst.inst).fee.token = "B" ∧
    tokenPairMain Config.default ext' (ExRen.ρ.inst ExInst.inst) ("F", "S") none = .ok d ∧
    d.prices = [("B", 1000000000000000000), ("F", 1998000000000000000), ("S", 1153353435898438067)] ∧
    d.orders.map (·.accountID) = ["C", "A", "A"] ∧
    d.orders.map (·.execBuyAmount) = [some 9980005004999999966, some 17306065416497044526, some 19989989994994994] := by
  obtain ⟨ext', hx⟩ := C85_follows ExRen.ρ ExInst.ext
  obtain ⟨d, h, hp⟩ := exists_of_pyCheck (x := tokenPairMain Config.default ExInst.ext ExInst.inst ("B", "S") none)
    (p := fun d : Dump => d.prices = [("F", 1000000000000000000), ("B", 1998000000000000000), ("S", 1153353435898438067)] ∧
      d.orders.map (·.accountID) = ["A", "C", "C"] ∧
      d.orders.map (·.execBuyAmount) = [some 9980005004999999966, some 17306065416497044526, some 19989989994994994]) (by decide +kernel)
  have := C85_pair_solver (cfg := Config.default) hx ExInst.inst ("B", "S") none
  rw [h] at this
  refine ⟨ext', _, hx, by decide +kernel, this, ?_, ?_, ?_⟩
  · dsimp only [Renaming.dump]
    rw [hp.1]
    decide +kernel
  · have e := congrArg (List.map ExRen.ρ.acc) hp.2.1
    dsimp only [Renaming.dump]
    rw [List.map_map] at e ⊢
    exact e.trans (by decide +kernel)
  · dsimp only [Renaming.dump]
    rw [List.map_map]
    exact hp.2.2

/-- The search over all pairs on the renamed instance, visiting the pairs in reverse order. -/
example : ∃ ext' d, bestTokenPairMain Config.default ext' (ExRen.ρ.inst ExInst.inst) (fun E => E.reverse.map (fun p => (p, false))) = .ok d ∧
    d.orders.map (·.execBuyAmount) = [some 9980005004999999966, some 17306065416497044526, some 19989989994994994] := by
  obtain ⟨ext', hx⟩ := C85_follows ExRen.ρ ExInst.ext
  obtain ⟨d, h, hp⟩ := ExInst.run_best
  have := C85_best_pair_solver (cfg := Config.default) hx ExInst.inst (shuffle := fun E => E.reverse.map (fun p => (p, false)))
    (shuffle' := fun E => E.reverse.map (fun p => (p, false))) (fun E => by simp [Function.comp_def])
  rw [h] at this
  refine ⟨ext', _, this, ?_⟩
  dsimp only [Renaming.dump]
  rw [List.map_map]
  exact hp

end Dex
