import Verif.Model.Price
import Verif.Model.Round
import Verif.Model.Validation

/-! # Model of dex_open_solver/token_pair_solver/solver.py -/

namespace Dex

/-- What the model takes from outside: float `sqrt`, networkx's branching, float division. -/
structure Ext where
  sqrt : ℚ → Py ℚ
  branch : List (Token × Token) → List (Token × Token)
  fdiv : ℚ → ℕ → Py ℚ

/-- A solution `(orders, prices)`. -/
structure Solution where
  orders : List Order
  prices : Prices
deriving DecidableEq

/-- `TRIVIAL_SOLUTION` (solver.py:29). -/
def Solution.trivial : Solution := { orders := [], prices := [] }

/-- `compute_s_buy_token_price` (solver.py:32-44). -/
def computeSBuyTokenPrice (bPrice xrate : ℚ) (b s : List Order) (fee : Fee) : Py ℤ := do
  let q ← pyDiv bPrice xrate
  let up := ⌈q⌉
  let down := ⌊q⌋
  let xUp ← pyDiv bPrice up
  let xDown ← pyDiv bPrice down
  let iUp ← pyDiv 1 xUp
  let cu := countSatisfyingXrate b xUp fee + countSatisfyingXrate s iUp fee
  let iDown ← pyDiv 1 xDown
  let cd := countSatisfyingXrate b xDown fee + countSatisfyingXrate s iDown fee
  if cu > cd then pure up else pure down

/-- `if xrate is None: xrate, _ = find_best_xrate(...)` (solver.py:76-82). -/
def givenOrBestXrate (cfg : Config) (sqrt : ℚ → Py ℚ) (b s : List Order) (fee : Fee) : Option ℚ → Py (Option ℚ)
  | some x => pure (some x)
  | none => do
    let r ← findBestXrate cfg sqrt b s fee
    pure (r.map (·.1))

/-- `if b_buy_token_price is not None: ... xrate = F(b_buy_token_price, s_buy_token_price)` (solver.py:91-96). -/
def roundXrate (bPrice : Option ℚ) (x : ℚ) (b s : List Order) (fee : Fee) : Py ℚ :=
  match bPrice with
  | none => pure x
  | some p => do
    let ps ← computeSBuyTokenPrice p x b s fee
    pyDiv p ps

/-- `solve_token_pair` (solver.py:47-103). Returns the rate (or `None`) and the two lists with their buy amounts. -/
def solveTokenPair (cfg : Config) (sqrt : ℚ → Py ℚ) (pair : Token × Token) (b s : List Order) (fee : Fee)
    (xrate : Option ℚ) (bPrice : Option ℚ) (maxNr : ℤ) : Py (Option ℚ × List Order × List Order) := do
  if b.length = 0 ∨ s.length = 0 then pure (none, b, s)
  else
    let bPrice := if pair.1 = fee.token then some (cfg.feeTokenPrice : ℚ) else bPrice
    let xrate ← givenOrBestXrate cfg sqrt b s fee xrate
    match xrate with
    | none => pure (none, b, s)
    | some x =>
      let x ← roundXrate bPrice x b s fee
      let (b, s) ← computeBuyAmounts cfg x b s fee maxNr
      pure (some x, b, s)

/-- `solve_b_buy_token_and_fee_token` (solver.py:106-149). Returns the price and the f_orders with their buy amounts. -/
def solveBFee (cfg : Config) (sqrt : ℚ → Py ℚ) (imbalance : ℚ) (bTok : Token) (f : List Order) (fee : Fee) :
    Py (ℤ × List Order) := do
  let p ← tokenPriceToCoverImbalance cfg sqrt bTok fee imbalance f
  let debt ← createMarketOrder cfg fee.token bTok imbalance f
  let feeX ← pyDiv cfg.feeTokenPrice p
  let (x, _, f) ← solveTokenPair cfg sqrt (fee.token, bTok) [debt] f fee (some feeX) none cfg.maxNrExec
  pyAssert (x.isSome) "solver.py:147"
  pure (p, f)

/-- `compute_nr_f_orders_to_execute` (solver.py:152-185). -/
def nrFOrders (cfg : Config) (b s f : List Order) : Py (ℤ × ℤ) := do
  let nb : ℤ := countNrExec b
  let ns : ℤ := countNrExec s
  pyAssert (nb + ns ≤ cfg.maxNrExec) "solver.py:163"
  let minMax := cfg.maxNrExec - nb - ns + 1
  let mx := min (f.length : ℤ) (cfg.maxNrExec - 2)
  let mn := min minMax mx
  pure (max mn 1, mx)

/-- The lists held by the caller of the matching functions. -/
structure Books where
  b : List Order
  s : List Order
  f : List Order

/-- `with rounding_buffer(...): solve_token_pair(...)` (solver.py:234-242, token_pair_solver/round.py:8-36).
(If the body raises, the exception propagates; the restored amounts are then not observed.) -/
def solveBuffered (cfg : Config) (sqrt : ℚ → Py ℚ) (pair : Token × Token) (b s : List Order) (xrate bPrice : ℚ)
    (fee : Fee) (maxNr : ℤ) : Py (Option ℚ × List Order × List Order) := do
  let (b', s') ← roundingBufferEnter cfg pair b s xrate bPrice fee
  let (x, b', s') ← solveTokenPair cfg sqrt pair b' s' fee (some xrate) (some bPrice) maxNr
  let b' ← restoreMaxSell b' (b.map (·.maxSell))
  let s' ← restoreMaxSell s' (s.map (·.maxSell))
  pure (x, b', s')

/-- Result of `solve_token_pair_and_fee_token_given_exec_f_orders`. -/
structure GivenResult where
  objective : ℚ
  xrate : ℚ
  bPrice : Option ℤ
  books : Books

/-- `solve_token_pair_and_fee_token_given_exec_f_orders` (solver.py:188-251). A `None` rate from `solve_token_pair` would
make the objective raise `TypeError` (reported as `valueError`; it needs an empty list, excluded by the caller). -/
def givenExecF (cfg : Config) (sqrt : ℚ → Py ℚ) (nrF : ℕ) (imbalance : ℚ) (pair : Token × Token) (bk : Books)
    (xrate : ℚ) (fee : Fee) : Py GivenResult := do
  let (p, fTake) ← solveBFee cfg sqrt imbalance pair.1 (bk.f.take nrF) fee
  let f := fTake ++ bk.f.drop nrF
  let n := countNrExec (f.take nrF)
  if n = 0 then pure { objective := 0, xrate, bPrice := none, books := { bk with f } }
  else
    let maxNr := cfg.maxNrExec - n
    let (x, b, s) ← solveBuffered cfg sqrt pair bk.b bk.s xrate p fee maxNr
    match x with
    | none => .error .valueError
    | some x =>
      let obj ← computeObjectiveRational cfg b s f x p fee
      pure { objective := obj, xrate := x, bPrice := some p, books := { b, s, f } }

/-- State of the loop over numbers of f_orders (solver.py:339-375): best result so far and the current lists. -/
structure FLoopState where
  best : Option GivenResult
  books : Books

/-- `for nr_exec_f_orders in range(...)` (solver.py:341-375). -/
def fOrdersLoop (cfg : Config) (sqrt : ℚ → Py ℚ) (imbalance : ℚ) (pair : Token × Token) (xrate : ℚ) (fee : Fee) :
    List ℕ → FLoopState → Py FLoopState
  | [], st => .ok st
  | n :: ns, st => do
    let f := st.books.f.map (fun o => (o.withBuy 0).withSell 0)
    let r ← givenExecF cfg sqrt n imbalance pair { st.books with f } xrate fee
    match r.bPrice with
    | none => fOrdersLoop cfg sqrt imbalance pair xrate fee ns { st with books := r.books }
    | some _ =>
      match st.best with
      | some best =>
        if r.objective < best.objective then pure { st with books := r.books }
        else do
          pyAssert (r.objective ≥ best.objective) "solver.py:371"
          fOrdersLoop cfg sqrt imbalance pair xrate fee ns { best := some r, books := r.books }
      | none => fOrdersLoop cfg sqrt imbalance pair xrate fee ns { best := some r, books := r.books }

/-- Result of a matching function: the solution and the caller's order objects afterwards. -/
structure MatchResult where
  sol : Solution
  books : Books

/-- Aggregation and rounding at the end of `solve_token_pair_and_fee_token` (solver.py:415-426).
Returns the solution and the rounded orders (the mutated objects). -/
def aggregateAndRound (cfg : Config) (ext : Ext) (pair : Token × Token) (bk : Books) (xrate bPrice : ℚ) (fee : Fee) :
    Py (Solution × List Order) := do
  let (orders, prices) ← aggregateOrdersPrices cfg pair bk.b bk.s bk.f xrate bPrice fee
  let (ok, orders) ← roundSolution cfg ext.branch prices orders fee
  if ok then pure ({ orders, prices }, orders) else pure (Solution.trivial, orders)

/-- The part of `solve_token_pair_and_fee_token` after the pair has been oriented (solver.py:279-426), for non-empty
pruned lists `b`, `s`. -/
def solveOriented (cfg : Config) (ext : Ext) (pair : Token × Token) (b s f : List Order) (fee : Fee)
    (xrate : Option ℚ) : Py MatchResult := do
  let (x, b, s) ← solveTokenPair cfg ext.sqrt pair b s fee xrate none cfg.maxNrExec
  if countNrExec b = 0 then pure { sol := .trivial, books := { b, s, f } }
  else match x with
  | none => .error .valueError
  | some x =>
    if pair.1 = fee.token then
      let (sol, os) ← aggregateAndRound cfg ext pair { b, s, f := [] } x cfg.feeTokenPrice fee
      pure { sol, books := { b := writeBack b os, s := writeBack s os, f } }
    else if f.length = 0 then pure { sol := .trivial, books := { b, s, f } }
    else
      let imb ← bBuyTokenImbalance b s x 1 fee
      let (mn, mx) ← nrFOrders cfg b s f
      if mn > mx then pure { sol := .trivial, books := { b, s, f } }
      else
        let fSorted := sortedByExecPriority f
        let ns := (List.range (mx + 1 - mn).toNat).map (· + mn.toNat)
        let st ← fOrdersLoop cfg ext.sqrt imb pair x fee ns { best := none, books := { b, s, f := fSorted } }
        let books := { st.books with f := writeBack f st.books.f }
        match st.best with
        | none => pure { sol := .trivial, books }
        | some best =>
          match best.bPrice with
          | none => pure { sol := .trivial, books }
          | some p =>
            let (sol, _) ← aggregateAndRound cfg ext pair best.books best.xrate p fee
            pure { sol, books }

/-- `solve_token_pair_and_fee_token` (solver.py:254-426). -/
def solveTokenPairAndFee (cfg : Config) (ext : Ext) (pair : Token × Token) (b s f : List Order) (fee : Fee)
    (xrate : Option ℚ) : Py MatchResult := do
  let (b', s') ← pruneUnrealizable b s fee
  if b'.length = 0 ∨ s'.length = 0 then pure { sol := .trivial, books := { b, s, f } }
  else if pair.2 = fee.token then do
    let r ← solveOriented cfg ext (pair.2, pair.1) s' b' f fee xrate
    pure { r with books := { b := writeBack b r.books.s, s := writeBack s r.books.b, f := r.books.f } }
  else do
    let r ← solveOriented cfg ext pair b' s' f fee xrate
    pure { r with books := { b := writeBack b r.books.b, s := writeBack s r.books.s, f := r.books.f } }

/-- `while` loop of `solve_token_pair_and_fee_token_economic_viable` (solver.py:447-489). `gone` collects the orders
removed so far (with the amounts they had). Returns the solution and all order objects afterwards. -/
def economicLoop (cfg : Config) (ext : Ext) (pair : Token × Token) (fee : Fee) (xrate : Option ℚ) :
    ℕ → Books → List Order → Solution → Py (Solution × List Order)
  | 0, _, _, _ => .error .diverge
  | fuel + 1, bk, gone, cur =>
    if bk.b.length > 0 ∨ bk.s.length > 0 then do
      let r ← solveTokenPairAndFee cfg ext pair bk.b bk.s bk.f fee xrate
      let done := r.books.b ++ r.books.s ++ r.books.f ++ gone
      let viable ← isEconomicViable cfg r.sol.orders r.sol.prices fee
      if viable = true ∨ isTrivial r.sol.orders = true then pure (r.sol, done)
      else
        let sub ← approxViableSubset cfg r.sol.orders r.sol.prices fee
        if sub.length = 0 then pure (.trivial, done)
        else
          let bm ← pyMinBy (·.buy) (r.books.b.filter (fun o => decide (o.buy > 0)))
          let sm ← pyMinBy (·.buy) (r.books.s.filter (fun o => decide (o.buy > 0)))
          let pb ← dictGet r.sol.prices pair.1
          let ps ← dictGet r.sol.prices pair.2
          if bm.buy * pb < sm.buy * ps then
            economicLoop cfg ext pair fee xrate fuel
              { r.books with b := r.books.b.filter (fun o => decide (o.id ≠ bm.id)) } (bm :: gone) r.sol
          else
            economicLoop cfg ext pair fee xrate fuel
              { r.books with s := r.books.s.filter (fun o => decide (o.id ≠ sm.id)) } (sm :: gone) r.sol
    else pure (cur, bk.b ++ bk.s ++ bk.f ++ gone)

/-- `solve_token_pair_and_fee_token_economic_viable` (solver.py:429-494). -/
def solveEconomicViable (cfg : Config) (ext : Ext) (pair : Token × Token) (accounts : Accounts) (b s f : List Order)
    (fee : Fee) (xrate : Option ℚ) : Py (Solution × List Order) := do
  let (sol, objs) ← economicLoop cfg ext pair fee xrate (b.length + s.length + 1) { b, s, f } [] .trivial
  validate cfg ext.fdiv accounts sol.orders sol.prices fee
  pure (sol, objs)

end Dex
