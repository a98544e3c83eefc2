import Verif.Props.Round
import Verif.Model.Api

/-! # A concrete instance used as a non-trivial example

Two accounts, three orders on the pair B/S plus one fee order. The external functions are concrete: an integer square root with 20
decimals, a maximum branching and exact division. -/

namespace Dex

open Spec

namespace ExInst

def sqrt (q : ℚ) : Py ℚ := if 0 ≤ q then .ok ((Nat.sqrt (q.num.toNat * q.den * 10 ^ 40) : ℚ) / (q.den * 10 ^ 20)) else .error .valueError

/-- The graph of the example's matched orders. -/
def graph : List (Token × Token) := [("S", "B"), ("B", "S"), ("F", "B")]

noncomputable def branch (E : List (Token × Token)) : List (Token × Token) :=
  if E = graph then [("F", "B"), ("B", "S")] else (exists_maxBranching E).choose

noncomputable def ext : Ext := { sqrt, branch, fdiv := fun q n => .ok (q / n) }

def inst : Instance where
  accounts := [("A", [("S", 10 ^ 20), ("B", 10 ^ 20)]), ("C", [("F", 10 ^ 20), ("B", 10 ^ 20)])]
  fee := { token := "F", value := 1 / 1000 }
  orders := [ { accountID := "A", buyToken := "B", sellToken := "S", buyAmount := 10 ^ 19, sellAmount := 2 * 10 ^ 19 },
    { accountID := "C", buyToken := "S", sellToken := "B", buyAmount := 10 ^ 19, sellAmount := 10 ^ 19 },
    { accountID := "C", buyToken := "B", sellToken := "F", buyAmount := 10 ^ 18, sellAmount := 2 * 10 ^ 18 } ]

theorem branch_max (E : List (Token × Token)) : MaxBranching E (branch E) := by
  unfold branch
  split
  · rename_i h
    subst h
    refine ⟨⟨by decide, by decide, ⟨fun t => if t = "F" then 0 else if t = "B" then 1 else 2, by decide⟩⟩, ?_⟩
    intro br hb
    have hsub : br.map (·.2) ⊆ ["B", "S"] := by
      intro t ht
      obtain ⟨e, he, rfl⟩ := List.mem_map.1 ht
      have := hb.sub e he
      simp only [graph, List.mem_cons, List.not_mem_nil, or_false] at this
      rcases this with rfl | rfl | rfl <;> decide
    have := (hb.inDeg.subperm hsub).length_le
    simpa using this
  · exact (exists_maxBranching E).choose_spec

end ExInst

/-- The whole token-pair solver runs on the instance and executes all three orders. -/
theorem ExInst.run : ∃ d, tokenPairMain Config.default ExInst.ext ExInst.inst ("B", "S") none = .ok d ∧
    d.prices = [("F", 1000000000000000000), ("B", 1998000000000000000), ("S", 1153353435898438067)] ∧
    d.orders.map (·.execBuyAmount) = [some 9980005004999999966, some 17306065416497044526, some 19989989994994994] :=
  exists_of_pyCheck (p := fun d : Dump => d.prices = [("F", 1000000000000000000), ("B", 1998000000000000000), ("S", 1153353435898438067)] ∧
    d.orders.map (·.execBuyAmount) = [some 9980005004999999966, some 17306065416497044526, some 19989989994994994]) (by decide +kernel)

end Dex
