import Verif.Model.TpOrderbook

/-! # Model of the `IntegerTraits` variants of dex_open_solver/token_pair_solver/orderbook.py -/

namespace Dex

/-- `compute_b_buy_token_imbalance` with `arith_traits=IntegerTraits`, the default (token_pair_solver/orderbook.py:23-40, using 8-20). -/
def bBuyTokenImbalanceInt (b s : List Order) (xrate bPrice : ℚ) (fee : Fee) : Py ℚ := do
  let bTotal := (b.map (·.buy)).sum
  let inv ← pyDiv 1 xrate
  let sPrice ← pyDiv bPrice xrate
  let sTotal ← sumE (fun o => do
    let v ← intSellFromBuy o.buy inv sPrice fee
    pure (v : ℚ)) s
  pure (sTotal - bTotal)

/-- `BaseTraits.compute_objective_term` for `IntegerTraits` when it is called without `balance_updated` (core/order_util.py:8-30, called
from token_pair_solver/orderbook.py:50-57): the utility is computed, then `compute_max_utility_term` (core/order_util.py:169-176) misses a
required argument. -/
def intObjectiveTermNoBalance (o : Order) (xrate price : ℚ) (fee : Fee) : Py ℚ := do
  let _ ← intUtility o xrate price fee
  .error .typeError

/-- `compute_objective_for_orders` with `IntegerTraits` (token_pair_solver/orderbook.py:43-57). -/
def objectiveForOrdersInt (orders : List Order) (xrate price : ℚ) (fee : Fee) : Py ℚ :=
  sumE (fun o => intObjectiveTermNoBalance o xrate price fee) orders

/-- `compute_objective_integer` (token_pair_solver/orderbook.py:60-105 and 112-113). -/
def computeObjectiveInteger (cfg : Config) (b s f : List Order) (xrate bPrice : ℚ) (fee : Fee) : Py ℚ := do
  let t1 ← objectiveForOrdersInt b xrate bPrice fee
  let inv ← pyDiv 1 xrate
  let sPrice ← pyDiv bPrice xrate
  let t2 ← objectiveForOrdersInt s inv sPrice fee
  let fx ← pyDiv bPrice cfg.feeTokenPrice
  let t3 ← objectiveForOrdersInt f fx bPrice fee
  let imb ← bBuyTokenImbalanceInt b s xrate bPrice fee
  let fees ← pyDiv (imb * bPrice) cfg.feeTokenPrice
  pure (t1 + t2 + t3 + fees / 2)

end Dex
