import Verif.Model.Orderbook
import Verif.Proof.Basic
import Mathlib.Logic.Relation

/-! # Property C46: tokens connected to the fee token -/

namespace Dex

namespace Spec

/-- The token is both bought and sold by some order, or is the fee token. -/
def Tradable (orders : List Order) (feeToken t : Token) : Prop :=
  ((∃ o ∈ orders, o.sellToken = t) ∧ ∃ o ∈ orders, o.buyToken = t) ∨ t = feeToken

/-- Some order trades `a` and `b`, both tradable. -/
def Adjacent (orders : List Order) (feeToken a b : Token) : Prop :=
  Tradable orders feeToken a ∧ Tradable orders feeToken b ∧
    ∃ o ∈ orders, (o.buyToken = a ∧ o.sellToken = b) ∨ (o.sellToken = a ∧ o.buyToken = b)

/-- The token can be reached from the fee token. -/
def Reachable (orders : List Order) (feeToken : Token) : Token → Prop := Relation.ReflTransGen (Adjacent orders feeToken) feeToken

end Spec

open Spec

theorem mem_adjacencyKeys {orders : List Order} {ft t : Token} : t ∈ adjacencyKeys orders ft ↔ Tradable orders ft t := by
  unfold adjacencyKeys Tradable
  simp only [List.mem_dedup, List.mem_append, List.mem_filter, List.mem_map, decide_eq_true_eq, List.mem_singleton]

theorem mem_adjacency {orders : List Order} {ft a b : Token} (ha : Tradable orders ft a) : b ∈ adjacency orders ft a ↔ Adjacent orders ft a b := by
  unfold adjacency Adjacent
  simp only [List.mem_dedup, List.mem_flatMap, List.mem_filter, decide_eq_true_eq, List.mem_append, mem_adjacencyKeys]
  constructor
  · rintro ⟨o, ⟨ho, h1, h2⟩, h | h⟩
    · split at h
      · rename_i e
        rw [List.mem_singleton] at h
        subst h
        exact ⟨ha, h1, o, ho, .inl ⟨e, rfl⟩⟩
      · simp at h
    · split at h
      · rename_i e
        rw [List.mem_singleton] at h
        subst h
        exact ⟨ha, h2, o, ho, .inr ⟨e, rfl⟩⟩
      · simp at h
  · rintro ⟨_, hb, o, ho, ⟨rfl, rfl⟩ | ⟨rfl, rfl⟩⟩
    · exact ⟨o, ⟨ho, hb, ha⟩, .inl (by simp)⟩
    · exact ⟨o, ⟨ho, ha, hb⟩, .inr (by simp)⟩

theorem connectedLoop_spec {setOrder : List Token → List Token} (hset : ∀ l, (setOrder l).Perm l) {orders : List Order} {ft : Token}
    {fuel cur : ℕ} {conn : List Token} (hnd : conn.Nodup) (hreach : ∀ t ∈ conn, Reachable orders ft t)
    (htr : ∀ t ∈ conn, Tradable orders ft t) (hcur : cur ≤ conn.length) (hft : ft ∈ conn)
    (hdone : ∀ i (_ : i < cur) t, conn[i]? = some t → ∀ u, Adjacent orders ft t u → u ∈ conn)
    (hfuel : (adjacencyKeys orders ft).length + 1 ≤ fuel + cur) :
    ∃ r, connectedLoop setOrder orders ft fuel conn cur = .ok r ∧ r.Nodup ∧ ∀ t, t ∈ r ↔ Reachable orders ft t := by
  have hlen : conn.length ≤ (adjacencyKeys orders ft).length :=
    (hnd.subperm (fun t ht => mem_adjacencyKeys.2 (htr t ht))).length_le
  induction fuel generalizing cur conn with
  | zero => omega
  | succ fuel ih =>
    unfold connectedLoop
    by_cases hc : cur < conn.length
    · rw [if_pos hc, pyGet_nat (List.getElem?_eq_getElem hc), ok_bind]
      have hmem : conn[cur] ∈ conn := List.getElem_mem hc
      have htc := htr _ hmem
      rw [if_pos (mem_adjacencyKeys.2 htc)]
      set new := (adjacency orders ft conn[cur]).filter (fun t => decide (t ∉ conn)) with hnew
      have hn : ∀ t, t ∈ setOrder new ↔ Adjacent orders ft conn[cur] t ∧ t ∉ conn := by
        intro t
        rw [(hset new).mem_iff, hnew, List.mem_filter, mem_adjacency htc]
        simp
      have hnd' : (conn ++ setOrder new).Nodup := by
        rw [List.nodup_append]
        refine ⟨hnd, (hset new).nodup_iff.2 ((List.nodup_dedup _).filter _), ?_⟩
        rintro a ha b hb rfl
        exact ((hn a).1 hb).2 ha
      have htr' : ∀ t ∈ conn ++ setOrder new, Tradable orders ft t := by
        intro t ht
        rcases List.mem_append.1 ht with ht | ht
        · exact htr t ht
        · exact ((hn t).1 ht).1.2.1
      refine ih hnd' ?_ htr' ?_ (List.mem_append_left _ hft) ?_ (by omega) ?_
      · intro t ht
        rcases List.mem_append.1 ht with ht | ht
        · exact hreach t ht
        · exact (hreach _ hmem).tail ((hn t).1 ht).1
      · rw [List.length_append]; omega
      · intro i hi t ht u hu
        rw [List.getElem?_append_left (by omega)] at ht
        by_cases hic : i < cur
        · exact List.mem_append_left _ (hdone i hic t ht u hu)
        · have : i = cur := by omega
          subst this
          rw [List.getElem?_eq_getElem hc] at ht
          cases ht
          by_cases hu' : u ∈ conn
          · exact List.mem_append_left _ hu'
          · exact List.mem_append_right _ ((hn u).2 ⟨hu, hu'⟩)
      · exact (hnd'.subperm (fun t ht => mem_adjacencyKeys.2 (htr' t ht))).length_le
    · rw [if_neg hc]
      refine ⟨conn, rfl, hnd, fun t => ⟨hreach t, fun h => ?_⟩⟩
      unfold Reachable at h
      induction h with
      | refl => exact hft
      | tail _ hab ihr =>
        obtain ⟨i, hi, e⟩ := List.getElem_of_mem ihr
        exact hdone i (by omega) _ (by rw [List.getElem?_eq_getElem hi, e]) _ hab

/-- C46. For every order list and every iteration order of Python sets, the search for connected tokens terminates without error and
returns exactly the tokens reachable from the fee token. -/
theorem C46_reachable {setOrder : List Token → List Token} (hset : ∀ l, (setOrder l).Perm l) (orders : List Order) (feeToken : Token) :
    ∃ r, computeConnectedTokens setOrder orders feeToken = .ok r ∧ r.Nodup ∧ ∀ t, t ∈ r ↔ Reachable orders feeToken t := by
  unfold computeConnectedTokens
  refine connectedLoop_spec hset (by simp) ?_ ?_ (by simp) (by simp) (by intro i hi; omega) (by omega)
  · intro t ht
    rw [List.mem_singleton] at ht
    subst ht
    exact .refl
  · intro t ht
    rw [List.mem_singleton] at ht
    exact .inr ht

namespace ExGraph
/-- F–B–S are connected; U is only bought; X and Y are only connected with each other. -/
def orders : List Order := [Order.mk' "B" "F" 100 2 none "0", Order.mk' "S" "B" 100 2 none "1", Order.mk' "B" "S" 100 2 none "2",
  Order.mk' "U" "S" 100 2 none "3", Order.mk' "X" "Y" 100 2 none "4", Order.mk' "Y" "X" 100 2 none "5"]
end ExGraph

example : computeConnectedTokens List.reverse ExGraph.orders "F" = .ok ["F", "B", "S"] := by decide +kernel
example : Reachable ExGraph.orders "F" "S" ∧ ¬ Reachable ExGraph.orders "F" "U" := by
  obtain ⟨r, h, _, hr⟩ := C46_reachable List.reverse_perm ExGraph.orders "F"
  rw [show computeConnectedTokens List.reverse ExGraph.orders "F" = .ok ["F", "B", "S"] by decide +kernel] at h
  cases h
  rw [← hr, ← hr]
  decide +kernel

end Dex
