import Verif.Model.TpOrderbook

/-! # Model of dex_open_solver/core/round.py and dex_open_solver/token_pair_solver/round.py -/

namespace Dex

/-- `compute_token_balances` (core/round.py:17-25). -/
def computeTokenBalances (tokens : List Token) (orders : List Order) : Py (Dict Token ℚ) :=
  foldE (fun d o => do
      let vb ← dictGet d o.buyToken
      let d := dictSet d o.buyToken (vb - o.buy)
      let vs ← dictGet d o.sellToken
      pure (dictSet d o.sellToken (vs + o.sell)))
    (tokens.map (fun t => (t, (0 : ℚ)))) orders

/-- First loop of `setup_rounding_buffer` (core/round.py:47-57): `max_rounding_amounts`. -/
def maxRoundingAmounts (cfg : Config) (tokens : List Token) (prices : Prices) (fee : Fee) :
    Py (Dict Token ℚ) := do
  let feePrice ← dictGet prices fee.token
  foldE (fun d t => do
      pyAssert ((dictGet? prices t).isSome) "round.py:50"
      let p ← dictGet prices t
      let est ← pyDiv p feePrice
      let amt ← pyDiv cfg.maxRoundingVolume est
      pyAssert (⌈amt⌉ ≥ 1) "round.py:57"
      pure (dictSet d t (⌈amt⌉ : ℚ))) [] tokens

/-- Second loop body of `setup_rounding_buffer` (core/round.py:63-91). -/
def bufferOrder (cfg : Config) (tokens : List Token) (prices : Prices) (amounts : Dict Token ℚ) (o : Order) :
    Py Order := do
  if o.sellToken ∈ tokens ∧ o.buyToken ∈ tokens then
    let pb ← dictGet prices o.buyToken
    let ps ← dictGet prices o.sellToken
    let estX ← pyDiv pb ps
    let amt ← dictGet amounts o.buyToken
    let buffer := ⌈amt * estX * (cfg.priceEstimationError : ℚ) ^ 2⌉
    pyAssert (buffer ≥ 1) "round.py:79"
    let new := max (o.maxSell - buffer) 0
    pyAssert (new < o.maxSell ∨ o.maxSell = 0) "round.py:90"
    o.setMaxSell new
  else pure o

/-- `setup_rounding_buffer` (core/round.py:28-93). -/
def setupRoundingBuffer (cfg : Config) (orders : List Order) (tokens : List Token) (prices : Prices) (fee : Fee) :
    Py (List Order) := do
  let amounts ← maxRoundingAmounts cfg tokens prices fee
  mapE (bufferOrder cfg tokens prices amounts) orders

/-- Entering `rounding_buffer` (token_pair_solver/round.py:18-27). -/
def roundingBufferEnter (cfg : Config) (pair : Token × Token) (b s : List Order) (xrate bPrice : ℚ) (fee : Fee) :
    Py (List Order × List Order) := do
  let (orders, prices) ← aggregateOrdersPrices cfg pair b s [] xrate bPrice fee
  let orders ← setupRoundingBuffer cfg orders [pair.1, pair.2] prices fee
  pure (orders.take b.length, orders.drop b.length)

/-- Leaving `rounding_buffer` (token_pair_solver/round.py:31-36), for one list. -/
def restoreMaxSell (orders : List Order) (old : List ℚ) : Py (List Order) :=
  mapE (fun p => p.1.setMaxSell p.2) (orders.zip old)

/-- Edges handed to networkx (core/round.py:111-114): distinct, in first-occurrence order. -/
def orderEdges (orders : List Order) (fee : Fee) : List (Token × Token) :=
  ((orders.filter (fun o => decide (o.buyToken ≠ fee.token))).map (fun o => (o.sellToken, o.buyToken))).reverse.dedup.reverse

/-- `compute_spanning_order_arborescence` (core/round.py:96-123). `branch` stands for
`nx.algorithms.tree.branchings.Edmonds(G).find_optimum()` on the edge list; the result is `{child: parent}`. -/
def spanningArborescence (branch : List (Token × Token) → List (Token × Token)) (orders : List Order) (fee : Fee) :
    Dict Token Token :=
  (branch (orderEdges orders fee)).foldl (fun d e => dictSet d e.2 e.1) []

/-- Loop of `round_leaf_token` (core/round.py:130-177) over the sorted orders; `bal` is
`token_balances[leaf_token]`. Returns the orders with the adjusted ones replaced. -/
def roundLeafLoop (cfg : Config) (leaf parent : Token) (prices : Prices) (fee : Fee) :
    ℚ → List Order → Py (List Order)
  | _, [] => .ok []
  | bal, o :: os =>
    if o.buyToken ≠ leaf ∨ o.sellToken ≠ parent ∨ o.buy = 0 then do
      let os' ← roundLeafLoop cfg leaf parent prices fee bal os
      pure (o :: os')
    else do
      let minDelta := (cfg.minTradable : ℚ) - o.buy
      let delta := max minDelta bal
      let newSell ← (o.withBuy (o.buy + delta)).getSellFromBuy prices fee
      if newSell > o.maxSell then do
        let os' ← roundLeafLoop cfg leaf parent prices fee bal os
        pure (o :: os')
      else if newSell < cfg.minTradable then do
        let os' ← roundLeafLoop cfg leaf parent prices fee bal os
        pure (o :: os')
      else do
        pyAssert (o.buy + delta ≥ cfg.minTradable) "round.py:158"
        let bal' := bal - delta
        let o' ← (o.withBuy (o.buy + delta)).setSellFromBuy prices fee
        if bal' = 0 then pure (o' :: os)
        else do
          let os' ← roundLeafLoop cfg leaf parent prices fee bal' os
          pure (o' :: os')

/-- `round_leaf_token` (core/round.py:126-177). -/
def roundLeafToken (cfg : Config) (leaf parent : Token) (orders : List Order) (bal : ℚ) (prices : Prices) (fee : Fee) :
    Py (List Order) := do
  let upd ← roundLeafLoop cfg leaf parent prices fee bal (pySortByRev (·.buy) orders)
  pure (writeBack orders upd)

/-- Adjustment made for one leaf (core/round.py:210-213): nothing if it is balanced already. -/
def roundLeafIfNeeded (cfg : Config) (leaf parent : Token) (orders : List Order) (bal : ℚ) (prices : Prices) (fee : Fee) :
    Py (List Order) :=
  if bal ≠ 0 then roundLeafToken cfg leaf parent orders bal prices fee else pure orders

/-- `while tree` loop of `round_solution` (core/round.py:201-228). Returns the success flag and the orders. -/
def roundLoop (cfg : Config) (prices : Prices) (fee : Fee) :
    ℕ → Dict Token Token → Dict Token ℚ → List Order → Py (Bool × List Order)
  | 0, _, _, _ => .error .diverge
  | fuel + 1, tree, balances, orders =>
    if tree.length = 0 then pure (true, orders)
    else do
      let leaves := (dictKeys tree).filter (fun c => decide (c ∉ tree.map (·.2)))
      let leaf ← pyGet leaves 0
      let parent ← dictGet tree leaf
      let bal ← dictGet balances leaf
      let orders ← roundLeafIfNeeded cfg leaf parent orders bal prices fee
      let balances ← computeTokenBalances (dictKeys prices) orders
      let bal ← dictGet balances leaf
      if bal ≠ 0 then pure (false, orders)
      else roundLoop cfg prices fee fuel (tree.filter (fun p => decide (p.1 ≠ leaf))) balances orders

/-- First loop body of `round_solution` (core/round.py:183-187). -/
def roundOrder (prices : Prices) (fee : Fee) (o : Order) : Py Order :=
  (o.withBuy (⌊o.buy⌋ : ℚ)).setSellFromBuy prices fee

/-- `round_solution` (core/round.py:180-228). Returns the success flag and the mutated orders. -/
def roundSolution (cfg : Config) (branch : List (Token × Token) → List (Token × Token)) (prices : Prices)
    (orders : List Order) (fee : Fee) : Py (Bool × List Order) := do
  let orders ← mapE (roundOrder prices fee) orders
  let balances ← computeTokenBalances (dictKeys prices) orders
  let tree := spanningArborescence branch (orders.filter (fun o => decide (o.sell > 0))) fee
  roundLoop cfg prices fee (tree.length + 1) tree balances orders

end Dex
