import Verif.Model.Config

/-! # Model of dex_open_solver/core/order.py and core/order_util.py -/

namespace Dex

abbrev Token := String
abbrev AccountId := String

/-- `Fee` namedtuple (core/api.py:18). -/
structure Fee where
  token : Token
  value : ℚ
deriving DecidableEq

/-- `class Order` (core/order.py:9-32). `int` and `Fraction` attributes are rationals.
Simplification: the write-only attributes `utility`, `utility_disreg` are left out. -/
structure Order where
  id : String
  accountId : Option AccountId
  buyToken : Token
  sellToken : Token
  maxSell : ℚ
  origMaxSell : ℚ
  maxXrate : ℚ
  buy : ℚ
  sell : ℚ
deriving DecidableEq

/-- `Order.__init__` (core/order.py:11-32). -/
def Order.mk' (buyToken sellToken : Token) (maxSell maxXrate : ℚ) (accountId : Option AccountId)
    (id : String) : Order :=
  { id, accountId, buyToken, sellToken, maxSell, origMaxSell := maxSell, maxXrate, buy := 0, sell := 0 }

/-- `buy_amount` setter / `with_buy_amount` (core/order.py:80-82, 129-132). -/
def Order.withBuy (o : Order) (v : ℚ) : Order := { o with buy := v }

/-- `sell_amount` setter (core/order.py:88-90). -/
def Order.withSell (o : Order) (v : ℚ) : Order := { o with sell := v }

/-- `max_sell_amount` setter (core/order.py:67-70). -/
def Order.setMaxSell (o : Order) (v : ℚ) : Py Order := do
  pyAssert (v ≤ o.origMaxSell) "order.py:69"
  pure { o with maxSell := v }

/-- An element of `instance['orders']`: the fields `Order.load_from_dict` reads (core/order.py:108-121), and the two
fields `dump_solution` writes (core/api.py:70-71). Simplification: amounts are already parsed by `Fraction(...)`;
other keys of the dict are left out. -/
structure OrderDict where
  accountID : AccountId
  buyToken : Token
  sellToken : Token
  sellAmount : ℚ
  buyAmount : ℚ
  execSellAmount : Option ℚ := none
  execBuyAmount : Option ℚ := none
deriving DecidableEq

/-- `Order.load_from_dict` (core/order.py:108-121). -/
def Order.loadFromDict (cfg : Config) (d : OrderDict) (id : String) : Py Order := do
  let buyCeiled := max (cfg.minTradable : ℚ) d.buyAmount
  let r ← pyDiv d.sellAmount buyCeiled
  pure (Order.mk' d.buyToken d.sellToken d.sellAmount r (some d.accountID) id)

/-- `Order.volume` (core/order.py:172-174). -/
def Order.volume (o : Order) (prices : Dict Token ℚ) : Py ℚ := do
  let p ← dictGet prices o.buyToken
  pure (o.buy * p)

/-- `Order.fee` (core/order.py:176-178). -/
def Order.feePaid (cfg : Config) (o : Order) (prices : Dict Token ℚ) (fee : Fee) : Py ℚ := do
  let v ← o.volume prices
  pyDiv (v * fee.value) cfg.feeTokenPrice

/-! ### RationalTraits (core/order_util.py:33-62) -/

/-- `RationalTraits.compute_sell_from_buy_amount` (core/order_util.py:36-38). -/
def ratSellFromBuy (buy xrate : ℚ) (fee : Fee) : Py ℚ :=
  pyDiv (buy * xrate) (1 - fee.value)

/-- `RationalTraits.compute_utility_term` (core/order_util.py:53-62). -/
def ratUtility (o : Order) (xrate price : ℚ) (fee : Fee) : Py ℚ := do
  let sell ← ratSellFromBuy o.buy xrate fee
  let q ← pyDiv sell o.maxXrate
  pure (price * (o.buy - q))

/-- `RationalTraits.compute_max_utility_term` (core/order_util.py:40-51). -/
def ratMaxUtility (o : Order) (xrate price : ℚ) (fee : Fee) : Py ℚ := do
  let q ← pyDiv o.maxSell xrate
  let minBuy := q * (1 - fee.value)
  let u ← ratUtility (o.withBuy minBuy) xrate price fee
  pure (max 0 u)

/-- `BaseTraits.compute_objective_term` for `RationalTraits` (core/order_util.py:8-30). -/
def ratObjectiveTerm (o : Order) (xrate price : ℚ) (fee : Fee) : Py ℚ := do
  let u ← ratUtility o xrate price fee
  let umax ← ratMaxUtility o xrate price fee
  pure (2 * u - umax)

/-! ### SmartContractTraits = IntegerTraits (core/order_util.py:126-202) -/

/-- `SmartContractTraits.compute_sell_from_buy_amount` (core/order_util.py:132-141). -/
def intSellFromBuy (buy xrate price : ℚ) (fee : Fee) : Py ℤ := do
  pyAssert (price.den = 1) "order_util.py:135"
  let sellPrice ← pyDiv price xrate
  pyAssert (sellPrice.den = 1) "order_util.py:137"
  let a ← pyFloorDiv (buy * price) (1 - fee.value)
  pyFloorDiv a sellPrice

/-- `SmartContractTraits.compute_utility_term` (core/order_util.py:178-198). -/
def intUtility (o : Order) (xrate price : ℚ) (fee : Fee) : Py ℚ := do
  let maxSell := o.origMaxSell
  let minBuy ← pyDiv maxSell o.maxXrate
  pyAssert (minBuy.den = 1) "order_util.py:184"
  let sell ← intSellFromBuy o.buy xrate price fee
  let a := (sell : ℚ) * minBuy
  let q ← pyFloorDiv a maxSell
  let rounded := (o.buy - q) * price
  let r ← pyMod a maxSell
  let err ← pyFloorDiv (r * price) maxSell
  pure (rounded - err)

/-- `SmartContractTraits.compute_disregarded_utility_term` (core/order_util.py:143-167). -/
def intDisregardedUtility (o : Order) (xrate price : ℚ) (fee : Fee) (balanceUpdated : ℚ) : Py ℚ := do
  let maxSell := o.origMaxSell
  let minBuy ← pyDiv maxSell o.maxXrate
  let feeDenom : ℚ := fee.value.den
  let sellPrice ← pyDiv price xrate
  let sell ← intSellFromBuy o.buy xrate price fee
  let remaining := maxSell - sell
  let leftover := min remaining balanceUpdated
  let limitLeft := sellPrice * maxSell
  let limitRight ← pyFloorDiv (minBuy * price * feeDenom) (feeDenom - 1)
  let limitTerm := if limitLeft > (limitRight : ℚ) then limitLeft - limitRight else 0
  let r ← pyFloorDiv (leftover * limitTerm) maxSell
  pure (r : ℚ)

/-- `SmartContractTraits.compute_max_utility_term` (core/order_util.py:169-176). -/
def intMaxUtility (o : Order) (xrate price : ℚ) (fee : Fee) (balanceUpdated : ℚ) : Py ℚ := do
  let du ← intDisregardedUtility o xrate price fee balanceUpdated
  let u ← intUtility o xrate price fee
  pure (du + u)

/-- `Order.get_sell_amount_from_buy_amount` with `arith_traits=IntegerTraits` (core/order.py:149-166). -/
def Order.getSellFromBuy (o : Order) (prices : Dict Token ℚ) (fee : Fee) : Py ℚ := do
  let pb ← dictGet prices o.buyToken
  let ps ← dictGet prices o.sellToken
  if pb ≠ 0 ∧ ps ≠ 0 then
    let xrate ← pyDiv pb ps
    let s ← intSellFromBuy o.buy xrate pb fee
    pure (s : ℚ)
  else
    pyAssert (o.buy = 0) "order.py:165"
    pure 0

/-- `Order.set_sell_amount_from_buy_amount` with `arith_traits=IntegerTraits` (core/order.py:168-170). -/
def Order.setSellFromBuy (o : Order) (prices : Dict Token ℚ) (fee : Fee) : Py Order := do
  let s ← o.getSellFromBuy prices fee
  pure (o.withSell s)

end Dex
