import Verif.Model.Order
import Verif.Model.Util

/-! # Model of the text of an order -/

namespace Dex

/-- `Order.__str__` (core/order.py:139-147); `__repr__` is the same. The package writes it in messages of level DEBUG. -/
def Order.text (o : Order) : String :=
  "(" ++ o.buyToken ++ ", " ++ o.sellToken ++ ", " ++ pyStrFrac o.maxSell ++ ", " ++ pyStrFrac o.maxXrate ++ ")" ++
    if o.sell > 0 then " [" ++ pyStrFrac o.buy ++ ", " ++ pyStrFrac o.sell ++ "]" else ""

end Dex
