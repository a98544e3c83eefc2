import Verif.Model.Amount

/-! # amount.py once more, with order objects in a heap

`Model/Amount.lean` passes order values and writes them back by id. Here orders are references into a heap, lists hold
references, and `order.buy_amount = v` updates the heap, as Python does. C76 compares the two. -/

namespace Dex

/-- Address of an order object. -/
abbrev Ref := ℕ

/-- The order objects. -/
abbrev Heap := Ref → Order

/-- `order.buy_amount = v`. -/
def Heap.setBuy (h : Heap) (r : Ref) (v : ℚ) : Heap := fun q => if q = r then (h r).withBuy v else h q

/-- Indices and the heap. The two lists of references do not change. -/
structure HeapState where
  bi : ℤ
  si : ℤ
  heap : Heap

/-- `execute_order_pair` (amount.py:127-168). -/
def heapExecuteOrderPair (xrate : ℚ) (fee : Fee) (b s : List Ref) (st : HeapState) : Py HeapState := do
  let h := st.heap
  let bo ← pyGet b st.bi
  let so ← pyGet s st.si
  let bMax ← bBuyFromBMaxSell (h bo) xrate fee
  let bUb := bMax - (h bo).buy
  let sMax ← sBuyFromSMaxSell (h so) xrate fee
  let sUb := sMax - (h so).buy
  pyAssert (bUb ≥ 0 ∧ sUb ≥ 0) "amount.py:138"
  let bFromS ← bBuyFromSBuy sUb xrate fee
  let sFromB ← sBuyFromBBuy bUb xrate fee
  if bUb < bFromS then
    let h := h.setBuy bo ((h bo).buy + bUb)
    let h := h.setBuy so ((h so).buy + sFromB)
    pure { bi := st.bi + 1, si := st.si, heap := h }
  else if bUb > bFromS then
    let h := h.setBuy bo ((h bo).buy + bFromS)
    let h := h.setBuy so ((h so).buy + sUb)
    pure { bi := st.bi, si := st.si + 1, heap := h }
  else
    let h := h.setBuy bo ((h bo).buy + bUb)
    let h := h.setBuy so ((h so).buy + sUb)
    pure { bi := st.bi + 1, si := st.si + 1, heap := h }

/-- `undo_order_pair_execution` (amount.py:176-215). -/
def heapUndoOrderPair (xrate : ℚ) (fee : Fee) (b s : List Ref) (st : HeapState) : Py HeapState := do
  let h := st.heap
  let bo ← pyGet b st.bi
  let so ← pyGet s st.si
  let bUb := (h bo).buy
  let sUb := (h so).buy
  pyAssert (bUb ≥ 0 ∧ sUb ≥ 0) "amount.py:185"
  let bFromS ← bBuyFromSBuy sUb xrate fee
  let sFromB ← sBuyFromBBuy bUb xrate fee
  if bUb < bFromS then
    let h := h.setBuy bo 0
    let h := h.setBuy so ((h so).buy - sFromB)
    pure { bi := st.bi - 1, si := st.si, heap := h }
  else if bUb > bFromS then
    let h := h.setBuy bo ((h bo).buy - bFromS)
    let h := h.setBuy so 0
    pure { bi := st.bi, si := st.si - 1, heap := h }
  else
    let h := h.setBuy bo 0
    let h := h.setBuy so 0
    pure { bi := st.bi - 1, si := st.si - 1, heap := h }

/-- `remove_buy_amount` (amount.py:221-229), with fuel for its `while`. -/
def heapRemoveBuyLoop (orders : List Ref) : ℕ → ℤ → Heap → ℚ → Py (ℤ × Heap)
  | 0, _, _, _ => .error .diverge
  | fuel + 1, i, h, amt =>
    if amt > 0 then do
      pyAssert (i ≥ 0) "amount.py:223"
      let o ← pyGet orders i
      let d := min (h o).buy amt
      let h := h.setBuy o ((h o).buy - d)
      let amt := amt - d
      let o ← pyGet orders i
      heapRemoveBuyLoop orders fuel (if (h o).buy = 0 then i - 1 else i) h amt
    else pure (i, h)

/-- `remove_buy_amount` (amount.py:221-229). -/
def heapRemoveBuyAmount (i : ℤ) (orders : List Ref) (h : Heap) (amt : ℚ) : Py (ℤ × Heap) :=
  heapRemoveBuyLoop orders (orders.length + 1) i h amt

/-- `undo_b_order_execution` (amount.py:234-246). -/
def heapUndoB (xrate : ℚ) (fee : Fee) (b s : List Ref) (st : HeapState) : Py HeapState := do
  let bo ← pyGet b st.bi
  let amt ← sBuyFromBBuy (st.heap bo).buy xrate fee
  let (si, h) ← heapRemoveBuyAmount st.si s st.heap amt
  let bo ← pyGet b st.bi
  let h := h.setBuy bo 0
  let bi := st.bi - 1
  pyAssert (bothOrNone bi si) "amount.py:244"
  pure { bi, si, heap := h }

/-- `undo_s_order_execution` (amount.py:251-263). -/
def heapUndoS (xrate : ℚ) (fee : Fee) (b s : List Ref) (st : HeapState) : Py HeapState := do
  let so ← pyGet s st.si
  let amt ← bBuyFromSBuy (st.heap so).buy xrate fee
  let (bi, h) ← heapRemoveBuyAmount st.bi b st.heap amt
  let so ← pyGet s st.si
  let h := h.setBuy so 0
  let si := st.si - 1
  pyAssert (bothOrNone bi si) "amount.py:261"
  pure { bi, si, heap := h }

/-- First half of `undo_order_execution_violating_min_tradable_amount_constraint` (amount.py:278-286). -/
def heapUndoMinB (cfg : Config) (xrate : ℚ) (fee : Fee) (b s : List Ref) (st : HeapState) : Py (HeapState × Bool) := do
  let m : ℚ := cfg.minRationalTradable
  let bo ← pyGet b st.bi
  let bSell ← bSellFromBBuy (st.heap bo).buy xrate fee
  if (st.heap bo).buy < m ∨ bSell < m then
    let st ← heapUndoB xrate fee b s st
    pure (st, true)
  else pure (st, false)

/-- Second half (amount.py:293-302). -/
def heapUndoMinS (cfg : Config) (xrate : ℚ) (fee : Fee) (b s : List Ref) (st : HeapState) (undone : Bool) :
    Py (HeapState × Bool) := do
  let m : ℚ := cfg.minRationalTradable
  let so ← pyGet s st.si
  let sSell ← sSellFromSBuy (st.heap so).buy xrate fee
  if (st.heap so).buy < m ∨ sSell < m then
    let st ← heapUndoS xrate fee b s st
    pure (st, true)
  else pure (st, undone)

/-- `undo_order_execution_violating_min_tradable_amount_constraint` (amount.py:268-304). -/
def heapUndoMinTradable (cfg : Config) (xrate : ℚ) (fee : Fee) (b s : List Ref) (st : HeapState) :
    Py (HeapState × Bool) := do
  if st.bi < 0 then pure (st, false)
  else
    let (st, undone) ← heapUndoMinB cfg xrate fee b s st
    if st.si < 0 then pure (st, undone)
    else heapUndoMinS cfg xrate fee b s st undone

/-- First `while` of `compute_buy_amounts` (amount.py:350-354). -/
def heapExecLoop (xrate : ℚ) (fee : Fee) (maxNr : ℤ) (b s : List Ref) : ℕ → HeapState → Py HeapState
  | 0, _ => .error .diverge
  | fuel + 1, st =>
    if st.si < s.length ∧ st.bi < b.length ∧ st.si + st.bi < maxNr then do
      let st ← heapExecuteOrderPair xrate fee b s st
      heapExecLoop xrate fee maxNr b s fuel st
    else pure st

/-- Second `while` of `compute_buy_amounts` (amount.py:374-379). -/
def heapUndoLoop (cfg : Config) (xrate : ℚ) (fee : Fee) (b s : List Ref) : ℕ → HeapState → Py HeapState
  | 0, _ => .error .diverge
  | fuel + 1, st => do
    let (st, undone) ← heapUndoMinTradable cfg xrate fee b s st
    if undone then heapUndoLoop cfg xrate fee b s fuel st else pure st

/-- `i if i < len(l) and l[i].buy_amount > 0 else i - 1` (amount.py:357-358). -/
def heapLastExecuted (h : Heap) (l : List Ref) (i : ℤ) : Py ℤ := do
  if i < l.length then
    let o ← pyGet l i
    pure (if (h o).buy > 0 then i else i - 1)
  else pure (i - 1)

/-- The part of `compute_buy_amounts` after filtering (amount.py:346-383), on the sorted lists. -/
def heapExecuteSorted (cfg : Config) (xrate : ℚ) (fee : Fee) (maxNr : ℤ) (b s : List Ref) (h : Heap) : Py Heap := do
  let st ← heapExecLoop xrate fee maxNr b s (b.length + s.length + 1) { bi := 0, si := 0, heap := h }
  let bi ← heapLastExecuted st.heap b st.bi
  let si ← heapLastExecuted st.heap s st.si
  let st := { st with bi, si }
  let nr := bi + si + 2
  let st ← if nr > maxNr then do
      pyAssert (nr = maxNr + 1) "amount.py:367"
      heapUndoOrderPair xrate fee b s st
    else pure st
  let st ← heapUndoLoop cfg xrate fee b s (b.length + s.length + 1) st
  pyAssert ((b.map (fun r => (st.heap r).buy)).sum * xrate = (s.map (fun r => (st.heap r).buy)).sum * (1 - fee.value))
    "amount.py:382"
  pure st.heap

/-- `filter_orders_violating_max_xrate` (amount.py:87-102). -/
def heapFilterMaxXrate (h : Heap) (xrate : ℚ) (b s : List Ref) (fee : Fee) : Py (List Ref × List Ref) := do
  let b := b.filter (fun r => decide (xrate ≤ (h r).maxXrate * (1 - fee.value)))
  let s ← filterE (fun r => do
    let q ← pyDiv 1 xrate
    pure (decide (q ≤ (h r).maxXrate * (1 - fee.value)))) s
  pure (b, s)

/-- `filter_orders_violating_min_tradable_amount` (amount.py:105-120). -/
def heapFilterMinTradable (cfg : Config) (h : Heap) (xrate : ℚ) (b s : List Ref) (fee : Fee) :
    Py (List Ref × List Ref) := do
  let m : ℚ := cfg.minRationalTradable
  let b ← filterE (fun r => if (h r).maxSell ≥ m then do
      let v ← bBuyFromBMaxSell (h r) xrate fee
      pure (decide (v ≥ m))
    else pure false) b
  let s ← filterE (fun r => if (h r).maxSell ≥ m then do
      let v ← sBuyFromSMaxSell (h r) xrate fee
      pure (decide (v ≥ m))
    else pure false) s
  pure (b, s)

/-- `sorted_orders_by_exec_priority` (core/orderbook.py:13-24) on references. -/
def heapSorted (h : Heap) (l : List Ref) : List Ref := l.insertionSort (fun a b => orderLt (h b) (h a) = false)

/-- `compute_buy_amounts` (amount.py:307-383): changes the heap, returns nothing. -/
def heapComputeBuyAmounts (cfg : Config) (xrate : ℚ) (bOrders sOrders : List Ref) (fee : Fee) (maxNr : ℤ) (h : Heap) :
    Py Heap := do
  let h := bOrders.foldl (fun h r => h.setBuy r 0) h
  let h := sOrders.foldl (fun h r => h.setBuy r 0) h
  let (b, s) ← heapFilterMaxXrate h xrate bOrders sOrders fee
  let (b, s) ← heapFilterMinTradable cfg h xrate b s fee
  if b.length = 0 ∨ s.length = 0 then pure h
  else heapExecuteSorted cfg xrate fee maxNr (heapSorted h b) (heapSorted h s) h

end Dex
