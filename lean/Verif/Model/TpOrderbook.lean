import Verif.Model.Amount

/-! # Model of dex_open_solver/token_pair_solver/orderbook.py -/

namespace Dex

/-- `compute_b_buy_token_imbalance` with `arith_traits=RationalTraits`
(token_pair_solver/orderbook.py:23-40, using 8-20). The `IntegerTraits` variant is never called. -/
def bBuyTokenImbalance (b s : List Order) (xrate bPrice : ℚ) (fee : Fee) : Py ℚ := do
  let bTotal := (b.map (·.buy)).sum
  let inv ← pyDiv 1 xrate
  let _ ← pyDiv bPrice xrate
  let sTotal ← sumE (fun o => ratSellFromBuy o.buy inv fee) s
  pure (sTotal - bTotal)

/-- `compute_objective_for_orders` with `RationalTraits` (token_pair_solver/orderbook.py:43-57). -/
def objectiveForOrders (orders : List Order) (xrate price : ℚ) (fee : Fee) : Py ℚ :=
  sumE (fun o => ratObjectiveTerm o xrate price fee) orders

/-- `compute_objective_rational` (token_pair_solver/orderbook.py:60-109). -/
def computeObjectiveRational (cfg : Config) (b s f : List Order) (xrate bPrice : ℚ) (fee : Fee) : Py ℚ := do
  let t1 ← objectiveForOrders b xrate bPrice fee
  let inv ← pyDiv 1 xrate
  let sPrice ← pyDiv bPrice xrate
  let t2 ← objectiveForOrders s inv sPrice fee
  let fx ← pyDiv bPrice cfg.feeTokenPrice
  let t3 ← objectiveForOrders f fx bPrice fee
  let imb ← bBuyTokenImbalance b s xrate bPrice fee
  let fees ← pyDiv (imb * bPrice) cfg.feeTokenPrice
  pure (t1 + t2 + t3 + fees / 2)

/-- `aggregate_orders_prices` (token_pair_solver/orderbook.py:116-135). The dict literal is built key by key, a repeated
key keeps its place and takes the later value. -/
def aggregateOrdersPrices (cfg : Config) (pair : Token × Token) (b s f : List Order) (xrate bPrice : ℚ) (fee : Fee) :
    Py (List Order × Prices) := do
  let sPrice ← pyDiv bPrice xrate
  let prices : Prices := dictSet (dictSet [(fee.token, (cfg.feeTokenPrice : ℚ))] pair.1 bPrice) pair.2 sPrice
  pure (b ++ s ++ f, prices)

/-- `count_orders_satisfying_xrate` (token_pair_solver/orderbook.py:138-139). -/
def countSatisfyingXrate (orders : List Order) (xrate : ℚ) (fee : Fee) : ℕ :=
  orders.countP (fun o => decide (xrate ≤ o.maxXrate * (1 - fee.value)))

/-- `prune_unrealizable_orders` (token_pair_solver/orderbook.py:142-152). -/
def pruneUnrealizable (b s : List Order) (fee : Fee) : Py (List Order × List Order) := do
  let f2 := (1 - fee.value) ^ 2
  let bMax ← pyMaxBy id (b.map (·.maxXrate))
  let sMax ← pyMaxBy id (s.map (·.maxXrate))
  let b' ← filterE (fun o => do
    let r ← pyDiv 1 sMax
    pure (decide (o.maxXrate * f2 ≥ r))) b
  let s' ← filterE (fun o => do
    let r ← pyDiv 1 bMax
    pure (decide (o.maxXrate * f2 ≥ r))) s
  pure (b', s')

end Dex
