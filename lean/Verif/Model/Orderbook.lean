import Verif.Model.Order

/-! # Model of dex_open_solver/core/orderbook.py -/

namespace Dex

/-- `accounts`: account id → token → balance. Simplification: balances are already converted to numbers. -/
abbrev Accounts := Dict AccountId (Dict Token ℚ)

/-- `prices`: token → price. -/
abbrev Prices := Dict Token ℚ

/-- Python's `int(x)` on a rational: truncation towards zero. -/
def pyInt (q : ℚ) : ℤ := if 0 ≤ q then ⌊q⌋ else ⌈q⌉

/-- Writing mutated order objects back into a list that holds the same objects: Python object identity is
modelled by the order id (see DESIGN.md, "Aliasing"). -/
def writeBack (orig upd : List Order) : List Order :=
  orig.map (fun o => (upd.find? (fun u => u.id = o.id)).getD o)

/-- `order_cmp(o1, o2) < 0` (core/orderbook.py:17-22). -/
def orderLt (o1 o2 : Order) : Bool :=
  if o1.maxXrate ≠ o2.maxXrate then o2.maxXrate - o1.maxXrate < 0
  else if o1.maxSell ≠ o2.maxSell then o2.maxSell - o1.maxSell < 0
  else o1.id < o2.id

/-- `sorted_orders_by_exec_priority` (core/orderbook.py:13-24): a stable sort by `order_cmp`.
(`a` may stay before `b` unless `b` is strictly smaller.) -/
def sortedByExecPriority (orders : List Order) : List Order :=
  orders.insertionSort (fun a b => orderLt b a = false)

/-- `count_nr_exec_orders` (core/orderbook.py:170-171). -/
def countNrExec (orders : List Order) : ℕ := orders.countP (fun o => 0 < o.buy)

/-- `is_trivial` (core/orderbook.py:302-303). -/
def isTrivial (orders : List Order) : Bool := countNrExec orders = 0

/-- Key of `remaining_balances` (core/orderbook.py:137-146). -/
abbrev BalKey := Option AccountId × Token × Token

/-- `accounts.get(aID, {}).get(tS, 0)` (core/orderbook.py:145). -/
def accountBalance (accounts : Accounts) (aID : Option AccountId) (t : Token) : ℚ :=
  match aID with
  | none => 0
  | some a => ((dictGet? accounts a).bind (fun d => dictGet? d t)).getD 0

/-- `remaining_balances` after making sure the order's key is present (core/orderbook.py:143-146). -/
def initRemaining (accounts : Accounts) (rem : Dict BalKey ℚ) (o : Order) : Dict BalKey ℚ :=
  match dictGet? rem (o.accountId, o.sellToken, o.buyToken) with
  | some _ => rem
  | none => dictSet rem (o.accountId, o.sellToken, o.buyToken) (accountBalance accounts o.accountId o.sellToken)

/-- Loop body of `restrict_order_sell_amounts_by_balances` (core/orderbook.py:140-165).
State: remaining balances and capped orders so far. -/
def restrictStep (accounts : Accounts) (st : Dict BalKey ℚ × List Order) (o : Order) :
    Py (Dict BalKey ℚ × List Order) := do
  let key : BalKey := (o.accountId, o.sellToken, o.buyToken)
  let rem := initRemaining accounts st.1 o
  let bal ← dictGet rem key
  let new := min o.maxSell bal
  if new = 0 then pure (rem, st.2)
  else
    pyAssert (o.maxSell > 0) "orderbook.py:156"
    let rem := dictSet rem key (bal - new)
    pyAssert (bal - new ≥ 0) "orderbook.py:160"
    let o' ← o.setMaxSell new
    pure (rem, st.2 ++ [o'])

/-- `restrict_order_sell_amounts_by_balances` (core/orderbook.py:118-167). -/
def restrictOrderSellAmounts (orders : List Order) (accounts : Accounts) : Py (List Order) := do
  let st ← foldE (restrictStep accounts) ([], []) (sortedByExecPriority orders)
  pure st.2

/-- `filter_orders_tokenpair` (core/orderbook.py:98-115). -/
def filterOrdersTokenpair (orders : List Order) (t0 t1 : Token) : List Order :=
  orders.filter (fun o => decide (
    (∀ t ∈ [t0, t1], t ∈ [o.sellToken, o.buyToken]) ∧ (∀ t ∈ [o.sellToken, o.buyToken], t ∈ [t0, t1])))

/-- `if order.buy_token not in accounts[account_id]: accounts[account_id][order.buy_token] = 0` (core/orderbook.py:225-226). -/
def ensureEntry (acc : Dict Token ℚ) (t : Token) : Dict Token ℚ :=
  match dictGet? acc t with
  | some _ => acc
  | none => dictSet acc t 0

/-- Loop body of `update_accounts` (core/orderbook.py:221-230). -/
def updateAccountStep (accounts : Accounts) (o : Order) : Py Accounts := do
  match o.accountId with
  | none => .error .keyError
  | some a =>
    let acc ← dictGet accounts a
    let acc := ensureEntry acc o.buyToken
    let vb ← dictGet acc o.buyToken
    let acc := dictSet acc o.buyToken (pyInt vb : ℚ)
    let vs ← dictGet acc o.sellToken
    let acc := dictSet acc o.sellToken (pyInt vs : ℚ)
    let vb ← dictGet acc o.buyToken
    let acc := dictSet acc o.buyToken (vb + o.buy)
    let vs ← dictGet acc o.sellToken
    let acc := dictSet acc o.sellToken (vs - o.sell)
    pure (dictSet accounts a acc)

/-- `update_accounts` (core/orderbook.py:220-230). -/
def updateAccounts (accounts : Accounts) (orders : List Order) : Py Accounts :=
  foldE updateAccountStep accounts orders

/-- `balance_updated` (core/orderbook.py:60-63 and 200-203). -/
def balanceUpdated (accounts : Accounts) (o : Order) : Py ℚ :=
  match o.accountId with
  | none => .ok 0
  | some a => do
    let acc ← dictGet accounts a
    pure ((dictGet? acc o.sellToken).getD 0)

/-- The dict `obj` of `compute_solution_metrics` (core/orderbook.py:30-35). -/
structure Metrics where
  volume : ℚ := 0
  utility : ℚ := 0
  utilityDisreg : ℚ := 0
  utilityDisregTouched : ℚ := 0
  fees : ℚ := 0
  ordersTouched : ℕ := 0
deriving DecidableEq

/-- Loop body of `compute_solution_metrics` (core/orderbook.py:37-93). Prices are never `None` here, so the
first branch (39-40) is unreachable and left out; `order.index` on line 74 does not exist and raises. -/
def metricsStep (prices : Prices) (accounts : Accounts) (fee : Fee) (m : Metrics) (o : Order) :
    Py Metrics := do
  let pb ← dictGet prices o.buyToken
  let ps ← dictGet prices o.sellToken
  let xrate ← pyDiv pb ps
  let u ← intUtility o xrate pb fee
  let bal ← balanceUpdated accounts o
  let umax ← intMaxUtility o xrate pb fee bal
  if u > umax then .error .attributeError
  else
    let m := { m with
      volume := m.volume + o.sell * ps
      utility := m.utility + u
      utilityDisreg := m.utilityDisreg + max (umax - u) 0 }
    let m := if o.sell > 0 then
        { m with ordersTouched := m.ordersTouched + 1
                 utilityDisregTouched := m.utilityDisregTouched + (umax - u) }
      else m
    let m := if o.sellToken = fee.token then { m with fees := m.fees + o.sell }
      else if o.buyToken = fee.token then { m with fees := m.fees - o.buy }
      else m
    pure m

/-- `compute_solution_metrics` (core/orderbook.py:27-95). -/
def computeSolutionMetrics (prices : Prices) (accounts : Accounts) (orders : List Order) (fee : Fee) :
    Py Metrics :=
  foldE (metricsStep prices accounts fee) {} orders

/-- One summand pair `(u, umax)` of `compute_objective` (core/orderbook.py:180-214). -/
def objectiveTerms (prices : Prices) (accounts : Accounts) (fee : Fee) (o : Order) : Py (ℚ × ℚ) := do
  let pb ← dictGet prices o.buyToken
  let ps ← dictGet prices o.sellToken
  let xrate ← pyDiv pb ps
  let u ← intUtility o xrate pb fee
  let bal ← balanceUpdated accounts o
  let umax ← intMaxUtility o xrate pb fee bal
  pure (u, max u umax)

/-- `compute_objective` (core/orderbook.py:174-216). -/
def computeObjectiveCore (prices : Prices) (accounts : Accounts) (orders : List Order) (fee : Fee) :
    Py ℚ := do
  let ts ← mapE (objectiveTerms prices accounts fee) orders
  pure (2 * (ts.map (·.1)).sum - (ts.map (·.2)).sum)

/-- `compute_total_fee` (core/orderbook.py:268-272). -/
def computeTotalFee (cfg : Config) (orders : List Order) (prices : Prices) (fee : Fee) : Py ℚ :=
  sumE (fun o => o.feePaid cfg prices fee) orders

/-- `compute_average_order_fee` (core/orderbook.py:275-277). -/
def computeAverageOrderFee (cfg : Config) (orders : List Order) (prices : Prices) (fee : Fee) : Py ℚ := do
  let t ← computeTotalFee cfg orders prices fee
  pyDiv t (countNrExec orders)

/-- `is_economic_viable` (core/orderbook.py:280-299). -/
def isEconomicViable (cfg : Config) (orders : List Order) (prices : Prices) (fee : Fee) : Py Bool := do
  if countNrExec orders = 0 then pure true
  else if cfg.minAvgFee = 0 ∧ cfg.minAbsFee = 0 then pure true
  else
    let bad ← anyE (fun o => do
        let v ← o.feePaid cfg prices fee
        pure (decide (v < cfg.minAbsFee)))
      (orders.filter (fun o => decide (o.sellToken ≠ fee.token ∧ o.buy > 0)))
    if bad then pure false
    else
      let avg ← computeAverageOrderFee cfg orders prices fee
      pure (decide (avg ≥ cfg.minAvgFee))

/-- `while` loop of `compute_approx_economic_viable_subset` (core/orderbook.py:335-340), returning the final `i`. -/
def viablePrefixLoop (cfg : Config) (os : List Order) (prices : Prices) (fee : Fee) : ℕ → ℕ → Py ℕ
  | 0, _ => .error .diverge
  | fuel + 1, i =>
    if i < os.length then do
      let avg ← computeAverageOrderFee cfg (os.take i) prices fee
      if avg ≥ cfg.minAvgFee then viablePrefixLoop cfg os prices fee fuel (i + 1) else pure i
    else pure i

/-- `compute_approx_economic_viable_subset` (core/orderbook.py:308-349). -/
def approxViableSubset (cfg : Config) (orders : List Order) (prices : Prices) (fee : Fee) :
    Py (List Order) := do
  if cfg.minAvgFee = 0 ∧ cfg.minAbsFee = 0 then pure orders
  else
    let orders ← filterE (fun o => if o.sellToken = fee.token then pure true else do
        let v ← o.feePaid cfg prices fee
        pure (decide (v ≥ cfg.minAbsFee))) orders
    let execd := orders.filter (fun o => decide (o.buy > 0))
    let keyed ← mapE (fun o => do
        let v ← o.volume prices
        pure (v, o)) execd
    let byVol := (pySortByRev (·.1) keyed).map (·.2)
    let i ← viablePrefixLoop cfg byVol prices fee (byVol.length + 1) 1
    let os := byVol.take i
    if (os.map (·.buyToken)).dedup.length = 1 then pure [] else pure os

/-! ### Connected tokens -/

/-- Keys of `token_adjacency` (core/orderbook.py:236-244): tokens both sold and bought, and the fee token. -/
def adjacencyKeys (orders : List Order) (feeToken : Token) : List Token :=
  (((orders.map (·.sellToken)).filter (fun t => decide (t ∈ orders.map (·.buyToken)))) ++ [feeToken]).dedup

/-- `token_adjacency[t]` after the loop at core/orderbook.py:246-250, as a list of distinct tokens. -/
def adjacency (orders : List Order) (feeToken : Token) (t : Token) : List Token :=
  let keys := adjacencyKeys orders feeToken
  let os := orders.filter (fun o => decide (o.sellToken ∈ keys ∧ o.buyToken ∈ keys))
  (os.flatMap (fun o =>
    (if o.buyToken = t then [o.sellToken] else []) ++
    (if o.sellToken = t then [o.buyToken] else []))).dedup

/-- Breadth-first loop (core/orderbook.py:254-262). `setOrder` is the (unspecified) iteration order of the Python
set `new_tokens`. -/
def connectedLoop (setOrder : List Token → List Token) (orders : List Order) (feeToken : Token) :
    ℕ → List Token → ℕ → Py (List Token)
  | 0, _, _ => .error .diverge
  | fuel + 1, connected, cur =>
    if cur < connected.length then do
      let c ← pyGet connected cur
      if c ∈ adjacencyKeys orders feeToken then
        let new := (adjacency orders feeToken c).filter (fun t => decide (t ∉ connected))
        connectedLoop setOrder orders feeToken fuel (connected ++ setOrder new) (cur + 1)
      else .error .keyError
    else pure connected

/-- `compute_connected_tokens` (core/orderbook.py:233-265); the result list stands for the returned set. -/
def computeConnectedTokens (setOrder : List Token → List Token) (orders : List Order) (feeToken : Token) :
    Py (List Token) :=
  connectedLoop setOrder orders feeToken ((adjacencyKeys orders feeToken).length + 1) [feeToken] 0

end Dex
