import Verif.Model.Solver

/-! # Model of dex_open_solver/best_token_pair_solver/solver.py -/

namespace Dex

/-- Orders buying `x` and selling `y` (best_token_pair_solver/solver.py:23-26, 30-33, 39-42). -/
def ordersBuyingSelling (orders : List Order) (x y : Token) : List Order :=
  orders.filter (fun o => decide (o.buyToken = x ∧ o.sellToken = y))

/-- `match_token_pair` (best_token_pair_solver/solver.py:20-52). Returns the solution and the global order list after
the mutations. -/
def matchTokenPair (cfg : Config) (ext : Ext) (pair : Token × Token) (accounts : Accounts) (orders : List Order)
    (fee : Fee) : Py (Solution × List Order) := do
  let b := ordersBuyingSelling orders pair.1 pair.2
  if b.length = 0 then pure (.trivial, orders)
  else
    let s := ordersBuyingSelling orders pair.2 pair.1
    if s.length = 0 then pure (.trivial, orders)
    else
      let f := if pair.1 ≠ fee.token then ordersBuyingSelling orders pair.1 fee.token else []
      if pair.1 ≠ fee.token ∧ f.length = 0 then pure (.trivial, orders)
      else
        let (sol, objs) ← solveEconomicViable cfg ext pair accounts b s f fee none
        pure (sol, writeBack orders objs)

/-- `match_token_pair_and_evaluate` with `touched_only=True` (best_token_pair_solver/solver.py:55-74). -/
def matchAndEvaluate (cfg : Config) (ext : Ext) (pair : Token × Token) (accounts : Accounts) (orders : List Order)
    (fee : Fee) : Py (ℚ × Solution × List Order) := do
  let (sol, orders) ← matchTokenPair cfg ext pair accounts orders fee
  let acc ← updateAccounts accounts sol.orders
  let touched := sol.orders.filter (fun o => decide (o.buy > 0))
  let obj ← computeObjectiveCore sol.prices acc touched fee
  pure (obj, sol, orders)

/-- `eligible_token_pairs` (best_token_pair_solver/solver.py:77-94). Sets are listed in some order; `main` shuffles the
result anyway. -/
def eligibleTokenPairs (orders : List Order) (feeToken : Token) : List (Token × Token) :=
  let direct := ((orders.filter (fun o => decide (o.sellToken = feeToken))).map (·.buyToken)).dedup
  let all := (orders.flatMap (fun o => [o.buyToken, o.sellToken])).dedup
  (direct.flatMap (fun b => (all.filter (fun s => decide (s ≠ b ∧ s ≠ feeToken))).map (fun s => (b, s)))) ++
  ((all.filter (fun s => decide (s ≠ feeToken))).map (fun s => (feeToken, s)))

/-- Loop state of `main`. -/
structure BestState where
  objective : ℚ
  sol : Solution
  orders : List Order

/-- Loop of `main` (best_token_pair_solver/solver.py:116-127) over the shuffled pairs. `stop` says after which of the
remaining iterations the time limit is found exceeded. -/
def bestLoop (cfg : Config) (ext : Ext) (accounts : Accounts) (fee : Fee) :
    List ((Token × Token) × Bool) → BestState → Py BestState
  | [], st => .ok st
  | (pair, stop) :: rest, st => do
    let (obj, sol, orders) ← matchAndEvaluate cfg ext pair accounts st.orders fee
    let st := if obj > st.objective then { objective := obj, sol, orders } else { st with orders }
    if stop then pure st else bestLoop cfg ext accounts fee rest st

/-- The search part of `main` (best_token_pair_solver/solver.py:108-129). `visits` is the shuffled list of pairs, each
with the outcome of the time-limit test after it. -/
def bestTokenPair (cfg : Config) (ext : Ext) (accounts : Accounts) (orders : List Order) (fee : Fee)
    (visits : List ((Token × Token) × Bool)) : Py BestState :=
  bestLoop cfg ext accounts fee visits { objective := 0, sol := .trivial, orders }

end Dex
