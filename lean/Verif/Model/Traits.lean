import Verif.Model.Order

/-! # The integer arithmetic of the standard solver (core/order_util.py:65-123)

`StandardSolverIntegerTraits` is not used by the programs: core/order_util.py:201-202 binds `IntegerTraits` to `SmartContractTraits`.
Its `compute_sell_from_buy_amount` (core/order_util.py:72-80) has the same text as the one of `SmartContractTraits`, so `intSellFromBuy`
stands for both. -/

namespace Dex

/-- `StandardSolverIntegerTraits.compute_max_utility_term` (core/order_util.py:82-105). -/
def stdMaxUtility (o : Order) (xrate price : ℚ) (fee : Fee) (balanceUpdated : ℚ) : Py ℚ := do
  let sell ← intSellFromBuy o.buy xrate price fee
  let maxSell' := min o.maxSell (sell + balanceUpdated)
  let sellPrice ← pyDiv price xrate
  let minBuy ← pyDiv o.maxSell o.maxXrate
  let feeDenom : ℚ := fee.value.den
  let a ← pyFloorDiv (maxSell' * sellPrice * (feeDenom - 1)) feeDenom
  let b ← pyFloorDiv (maxSell' * minBuy * price) o.maxSell
  pure (max ((a : ℚ) - b) 0)

/-- `StandardSolverIntegerTraits.compute_utility_term` (core/order_util.py:107-123). -/
def stdUtility (o : Order) (xrate price : ℚ) (fee : Fee) : Py ℚ := do
  let minBuy ← pyDiv o.maxSell o.maxXrate
  let sell ← intSellFromBuy o.buy xrate price fee
  let u ← pyFloorDiv ((o.buy * o.maxSell - sell * minBuy) * price) o.maxSell
  pure (u : ℚ)

end Dex
