import Verif.Model.Orderbook

/-! # Model of dex_open_solver/token_pair_solver/amount.py -/

namespace Dex

/-- `b_buy_amount_from_b_sell_amount` (amount.py:37-38). -/
def bBuyFromBSell (bSell xrate : ℚ) (fee : Fee) : Py ℚ := do
  let q ← pyDiv bSell xrate
  pure (q * (1 - fee.value))

/-- `b_sell_amount_from_b_buy_amount` (amount.py:41-42). -/
def bSellFromBBuy (bBuy xrate : ℚ) (fee : Fee) : Py ℚ :=
  pyDiv (bBuy * xrate) (1 - fee.value)

/-- `b_buy_amount_from_b_max_sell_amount` (amount.py:45-46). -/
def bBuyFromBMaxSell (o : Order) (xrate : ℚ) (fee : Fee) : Py ℚ :=
  bBuyFromBSell o.maxSell xrate fee

/-- `s_buy_amount_from_s_sell_amount` (amount.py:50-51). -/
def sBuyFromSSell (sSell xrate : ℚ) (fee : Fee) : Py ℚ :=
  .ok (sSell * xrate * (1 - fee.value))

/-- `s_sell_amount_from_s_buy_amount` (amount.py:54-55). -/
def sSellFromSBuy (sBuy xrate : ℚ) (fee : Fee) : Py ℚ := do
  let q ← pyDiv sBuy xrate
  pyDiv q (1 - fee.value)

/-- `s_buy_amount_from_s_max_sell_amount` (amount.py:58-59). -/
def sBuyFromSMaxSell (o : Order) (xrate : ℚ) (fee : Fee) : Py ℚ :=
  sBuyFromSSell o.maxSell xrate fee

/-- `b_buy_amount_from_s_buy_amount` (amount.py:71-72). -/
def bBuyFromSBuy (sBuy xrate : ℚ) (fee : Fee) : Py ℚ := do
  let q ← pyDiv sBuy xrate
  pure (q * (1 - fee.value))

/-- `s_buy_amount_from_b_buy_amount` (amount.py:78-79). -/
def sBuyFromBBuy (bBuy xrate : ℚ) (fee : Fee) : Py ℚ :=
  pyDiv (bBuy * xrate) (1 - fee.value)

/-- `filter_orders_violating_max_xrate` (amount.py:87-102). -/
def filterMaxXrate (xrate : ℚ) (bOrders sOrders : List Order) (fee : Fee) :
    Py (List Order × List Order) := do
  let b := bOrders.filter (fun o => decide (xrate ≤ o.maxXrate * (1 - fee.value)))
  let s ← filterE (fun o => do
    let r ← pyDiv 1 xrate
    pure (decide (r ≤ o.maxXrate * (1 - fee.value)))) sOrders
  pure (b, s)

/-- `filter_orders_violating_min_tradable_amount` (amount.py:105-120); `and` short-circuits. -/
def filterMinTradable (cfg : Config) (xrate : ℚ) (bOrders sOrders : List Order) (fee : Fee) :
    Py (List Order × List Order) := do
  let m : ℚ := cfg.minRationalTradable
  let b ← filterE (fun o => if o.maxSell ≥ m then do
      let v ← bBuyFromBMaxSell o xrate fee
      pure (decide (v ≥ m))
    else pure false) bOrders
  let s ← filterE (fun o => if o.maxSell ≥ m then do
      let v ← sBuyFromSMaxSell o xrate fee
      pure (decide (v ≥ m))
    else pure false) sOrders
  pure (b, s)

/-- Indices and the two (mutated) order lists. -/
structure ExecState where
  bi : ℤ
  si : ℤ
  b : List Order
  s : List Order

/-- `order.buy_amount += d`. -/
def Order.addBuy (d : ℚ) (o : Order) : Order := o.withBuy (o.buy + d)

/-- `order.buy_amount -= d`. -/
def Order.subBuy (d : ℚ) (o : Order) : Order := o.withBuy (o.buy - d)

/-- `order.buy_amount = 0`. -/
def Order.clearBuy (o : Order) : Order := o.withBuy 0

/-- `execute_order_pair` (amount.py:127-168). -/
def executeOrderPair (xrate : ℚ) (fee : Fee) (st : ExecState) : Py ExecState := do
  let bo ← pyGet st.b st.bi
  let so ← pyGet st.s st.si
  let bMax ← bBuyFromBMaxSell bo xrate fee
  let bUb := bMax - bo.buy
  let sMax ← sBuyFromSMaxSell so xrate fee
  let sUb := sMax - so.buy
  pyAssert (bUb ≥ 0 ∧ sUb ≥ 0) "amount.py:138"
  let bFromS ← bBuyFromSBuy sUb xrate fee
  let sFromB ← sBuyFromBBuy bUb xrate fee
  if bUb < bFromS then
    let b ← pyModify st.b st.bi (Order.addBuy bUb)
    let s ← pyModify st.s st.si (Order.addBuy sFromB)
    pure { bi := st.bi + 1, si := st.si, b, s }
  else if bUb > bFromS then
    let b ← pyModify st.b st.bi (Order.addBuy bFromS)
    let s ← pyModify st.s st.si (Order.addBuy sUb)
    pure { bi := st.bi, si := st.si + 1, b, s }
  else
    let b ← pyModify st.b st.bi (Order.addBuy bUb)
    let s ← pyModify st.s st.si (Order.addBuy sUb)
    pure { bi := st.bi + 1, si := st.si + 1, b, s }

/-- `undo_order_pair_execution` (amount.py:176-215). -/
def undoOrderPair (xrate : ℚ) (fee : Fee) (st : ExecState) : Py ExecState := do
  let bo ← pyGet st.b st.bi
  let so ← pyGet st.s st.si
  let bUb := bo.buy
  let sUb := so.buy
  pyAssert (bUb ≥ 0 ∧ sUb ≥ 0) "amount.py:185"
  let bFromS ← bBuyFromSBuy sUb xrate fee
  let sFromB ← sBuyFromBBuy bUb xrate fee
  if bUb < bFromS then
    let b ← pyModify st.b st.bi Order.clearBuy
    let s ← pyModify st.s st.si (Order.subBuy sFromB)
    pure { bi := st.bi - 1, si := st.si, b, s }
  else if bUb > bFromS then
    let b ← pyModify st.b st.bi (Order.subBuy bFromS)
    let s ← pyModify st.s st.si Order.clearBuy
    pure { bi := st.bi, si := st.si - 1, b, s }
  else
    let b ← pyModify st.b st.bi Order.clearBuy
    let s ← pyModify st.s st.si Order.clearBuy
    pure { bi := st.bi - 1, si := st.si - 1, b, s }

/-- `remove_buy_amount` (amount.py:221-229), with fuel for its `while`. Returns the final index and the orders. -/
def removeBuyLoop : ℕ → ℤ → List Order → ℚ → Py (ℤ × List Order)
  | 0, _, _, _ => .error .diverge
  | fuel + 1, i, orders, amt =>
    if amt > 0 then do
      pyAssert (i ≥ 0) "amount.py:223"
      let o ← pyGet orders i
      let d := min o.buy amt
      let orders ← pyModify orders i (Order.subBuy d)
      let amt := amt - d
      let o' ← pyGet orders i
      removeBuyLoop fuel (if o'.buy = 0 then i - 1 else i) orders amt
    else pure (i, orders)

/-- `remove_buy_amount` (amount.py:221-229). Every iteration but the last empties an order, so one iteration per order
plus the exit test suffices. -/
def removeBuyAmount (i : ℤ) (orders : List Order) (amt : ℚ) : Py (ℤ × List Order) :=
  removeBuyLoop (orders.length + 1) i orders amt

/-- The invariant asserted at amount.py:244 and 261. -/
def bothOrNone (bi si : ℤ) : Prop := (bi = -1 ∧ si = -1) ∨ (bi ≥ 0 ∧ si ≥ 0)

instance (bi si : ℤ) : Decidable (bothOrNone bi si) := by unfold bothOrNone; infer_instance

/-- `undo_b_order_execution` (amount.py:234-246). -/
def undoB (xrate : ℚ) (fee : Fee) (st : ExecState) : Py ExecState := do
  let bo ← pyGet st.b st.bi
  let amt ← sBuyFromBBuy bo.buy xrate fee
  let (si, s) ← removeBuyAmount st.si st.s amt
  let b ← pyModify st.b st.bi Order.clearBuy
  let bi := st.bi - 1
  pyAssert (bothOrNone bi si) "amount.py:244"
  pure { bi, si, b, s }

/-- `undo_s_order_execution` (amount.py:251-263). -/
def undoS (xrate : ℚ) (fee : Fee) (st : ExecState) : Py ExecState := do
  let so ← pyGet st.s st.si
  let amt ← bBuyFromSBuy so.buy xrate fee
  let (bi, b) ← removeBuyAmount st.bi st.b amt
  let s ← pyModify st.s st.si Order.clearBuy
  let si := st.si - 1
  pyAssert (bothOrNone bi si) "amount.py:261"
  pure { bi, si, b, s }

/-- First half of `undo_order_execution_violating_min_tradable_amount_constraint` (amount.py:278-286): undo the current
b_order if it trades too little. -/
def undoMinB (cfg : Config) (xrate : ℚ) (fee : Fee) (st : ExecState) : Py (ExecState × Bool) := do
  let m : ℚ := cfg.minRationalTradable
  let bo ← pyGet st.b st.bi
  let bSell ← bSellFromBBuy bo.buy xrate fee
  if bo.buy < m ∨ bSell < m then
    let st ← undoB xrate fee st
    pure (st, true)
  else pure (st, false)

/-- Second half (amount.py:293-302): undo the current s_order if it trades too little. -/
def undoMinS (cfg : Config) (xrate : ℚ) (fee : Fee) (st : ExecState) (undone : Bool) :
    Py (ExecState × Bool) := do
  let m : ℚ := cfg.minRationalTradable
  let so ← pyGet st.s st.si
  let sSell ← sSellFromSBuy so.buy xrate fee
  if so.buy < m ∨ sSell < m then
    let st ← undoS xrate fee st
    pure (st, true)
  else pure (st, undone)

/-- `undo_order_execution_violating_min_tradable_amount_constraint` (amount.py:268-304). -/
def undoMinTradable (cfg : Config) (xrate : ℚ) (fee : Fee) (st : ExecState) : Py (ExecState × Bool) := do
  if st.bi < 0 then pure (st, false)
  else
    let (st, undone) ← undoMinB cfg xrate fee st
    if st.si < 0 then pure (st, undone)
    else undoMinS cfg xrate fee st undone

/-- First `while` of `compute_buy_amounts` (amount.py:350-354). -/
def execLoop (xrate : ℚ) (fee : Fee) (maxNr : ℤ) : ℕ → ExecState → Py ExecState
  | 0, _ => .error .diverge
  | fuel + 1, st =>
    if st.si < st.s.length ∧ st.bi < st.b.length ∧ st.si + st.bi < maxNr then do
      let st ← executeOrderPair xrate fee st
      execLoop xrate fee maxNr fuel st
    else pure st

/-- Second `while` of `compute_buy_amounts` (amount.py:374-379). -/
def undoLoop (cfg : Config) (xrate : ℚ) (fee : Fee) : ℕ → ExecState → Py ExecState
  | 0, _ => .error .diverge
  | fuel + 1, st => do
    let (st, undone) ← undoMinTradable cfg xrate fee st
    if undone then undoLoop cfg xrate fee fuel st else pure st

/-- `i if i < len(l) and l[i].buy_amount > 0 else i - 1` (amount.py:357-358). -/
def lastExecuted (l : List Order) (i : ℤ) : Py ℤ := do
  if i < l.length then
    let o ← pyGet l i
    pure (if o.buy > 0 then i else i - 1)
  else pure (i - 1)

/-- The part of `compute_buy_amounts` after filtering (amount.py:343-383), on the sorted lists. -/
def executeSorted (cfg : Config) (xrate : ℚ) (fee : Fee) (maxNr : ℤ) (b s : List Order) :
    Py (List Order × List Order) := do
  let st ← execLoop xrate fee maxNr (b.length + s.length + 1) { bi := 0, si := 0, b, s }
  let bi ← lastExecuted st.b st.bi
  let si ← lastExecuted st.s st.si
  let st := { st with bi, si }
  let nr := bi + si + 2
  let st ← if nr > maxNr then do
      pyAssert (nr = maxNr + 1) "amount.py:367"
      undoOrderPair xrate fee st
    else pure st
  let st ← undoLoop cfg xrate fee (b.length + s.length + 1) st
  pyAssert ((st.b.map (·.buy)).sum * xrate = (st.s.map (·.buy)).sum * (1 - fee.value)) "amount.py:382"
  pure (st.b, st.s)

/-- `compute_buy_amounts` (amount.py:307-383): returns the two given lists with their buy amounts set.
`maxNr` is `max_nr_exec_orders` after the default has been filled in (320-321). -/
def computeBuyAmounts (cfg : Config) (xrate : ℚ) (bOrders sOrders : List Order) (fee : Fee) (maxNr : ℤ) :
    Py (List Order × List Order) := do
  let b0 := bOrders.map Order.clearBuy
  let s0 := sOrders.map Order.clearBuy
  let (b, s) ← filterMaxXrate xrate b0 s0 fee
  let (b, s) ← filterMinTradable cfg xrate b s fee
  if b.length = 0 ∨ s.length = 0 then pure (b0, s0)
  else
    let (b, s) ← executeSorted cfg xrate fee maxNr (sortedByExecPriority b) (sortedByExecPriority s)
    pure (writeBack b0 b, writeBack s0 s)

end Dex
