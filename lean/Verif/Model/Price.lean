import Verif.Model.Xrate

/-! # Model of dex_open_solver/token_pair_solver/price.py -/

namespace Dex

/-- Id of the artificial market order. In Python it is a fresh uuid (order.py:20-21); it is never compared with another
order's id because the market order is always alone in its list. -/
def marketOrderId : String := "market"

/-- `create_market_order` (price.py:10-30). -/
def createMarketOrder (cfg : Config) (buyToken sellToken : Token) (sellAmount : ℚ) (sOrders : List Order) :
    Py Order := do
  let sellAmount := max sellAmount (cfg.minRationalTradable : ℚ)
  let minX ← pyMinBy id (sOrders.map (·.maxXrate))
  let minX := minX * (9 / 10)
  let mx ← pyDiv 1 minX
  pure (Order.mk' buyToken sellToken sellAmount mx none marketOrderId)

/-- `compute_token_price_to_cover_imbalance` (price.py:34-65). A `None` rate would make `FEE_TOKEN_PRICE / xrate` raise
`TypeError`; it is reported as `valueError` (unreachable, see `findBestXrate_ne_none`). -/
def tokenPriceToCoverImbalance (cfg : Config) (sqrt : ℚ → Py ℚ) (buyToken : Token) (fee : Fee) (imbalance : ℚ)
    (fOrders : List Order) : Py ℤ := do
  let sellAmount := imbalance * (101 / 100)
  let mo ← createMarketOrder cfg fee.token buyToken sellAmount fOrders
  let r ← findBestXrate cfg sqrt [mo] fOrders fee
  match r with
  | none => .error .valueError
  | some (xrate, _) =>
    let q ← pyDiv cfg.feeTokenPrice xrate
    if xrate = mo.maxXrate * (1 - fee.value) then pure ⌈q⌉ else pure ⌊q⌋

end Dex
