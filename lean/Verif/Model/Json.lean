import Verif.Model.Api
import Verif.Model.Util

/-! # Model of reading the instance json and writing the solution json

The tree level of core/api.py, core/order.py:108-121, core/orderbook.py:220-230 and the two `main` functions
(token_pair_solver/solver.py:497-529, best_token_pair_solver/solver.py:97-144): the instance is the nested value
`json.load(..., parse_float=Decimal)` returns, and the result is the nested value given to `json.dump`.
The text of json files is in Model/JsonText.lean. -/

namespace Dex

/-- The conversions `Fraction(v)`, `int(v)` and `float(v)` applied to values of the instance: external functions. -/
structure Conv where
  toF : PyVal → Py ℚ
  toInt : PyVal → Py ℤ
  toFloat : PyVal → Py PyVal

/-- `v[k]` for a text key `k`. -/
def getItem : PyVal → String → Py PyVal
  | .dict d, k => dictGet d k
  | _, _ => .error .typeError

/-- `v[k] = x` for a text key `k`. -/
def setItem : PyVal → String → PyVal → Py PyVal
  | .dict d, k, x => .ok (.dict (dictSet d k x))
  | _, _, _ => .error .typeError

/-- The values `for x in v` runs through. -/
def elements : PyVal → Py (List PyVal)
  | .list l => .ok l
  | .tuple l => .ok l
  | .dict d => .ok (d.map (fun p => .str p.1))
  | .str s => .ok (s.toList.map (fun c => .str (String.singleton c)))
  | _ => .error .typeError

/-- A token or account id. Simplification: ids that are not text are outside the model and raise `TypeError` here. -/
def asText : PyVal → Py String
  | .str s => .ok s
  | _ => .error .typeError

/-- A dict. Simplification: entries of `accounts` that are not dicts raise `TypeError` when the instance is read. -/
def asDict : PyVal → Py (Dict String PyVal)
  | .dict d => .ok d
  | _ => .error .typeError

/-- The reads of `Order.load_from_dict` (core/order.py:109-121). -/
def readOrder (c : Conv) (v : PyVal) : Py OrderDict := do
  let buyAmount ← getItem v "buyAmount"
  let buyAmount ← c.toF buyAmount
  let buyToken ← getItem v "buyToken"
  let buyToken ← asText buyToken
  let sellToken ← getItem v "sellToken"
  let sellToken ← asText sellToken
  let sellAmount ← getItem v "sellAmount"
  let sellAmount ← c.toF sellAmount
  let accountID ← getItem v "accountID"
  let accountID ← asText accountID
  pure { accountID, buyToken, sellToken, sellAmount, buyAmount }

/-- The reads of `load_fee` (core/api.py:22-23). -/
def readFee (c : Conv) (v : PyVal) : Py Fee := do
  let token ← getItem v "token"
  let token ← asText token
  let ratio ← getItem v "ratio"
  let value ← c.toF ratio
  pure { token, value }

/-- A balance as the solver uses it: `Fraction(v)` when loading (core/orderbook.py:145), `int(v)` in `validate`
(core/validation.py:48) and `update_accounts` (core/orderbook.py:227-228). -/
def readBalance (c : Conv) (v : PyVal) : Py ℚ := do
  let q ← c.toF v
  let _ ← c.toInt v
  pure q

/-- The token balances of one account. -/
def readAccount (c : Conv) (p : String × PyVal) : Py (String × Dict Token ℚ) := do
  let d ← asDict p.2
  let l ← mapE (fun e : String × PyVal => do
    let q ← readBalance c e.2
    pure (e.1, q)) d
  pure (p.1, l)

/-- All balances. Simplification: they are converted when the instance is read; Python converts each balance when an
order needs it, so balances that are never needed may be malformed there. -/
def readAccounts (c : Conv) (v : PyVal) : Py Accounts := do
  let d ← asDict v
  mapE (readAccount c) d

/-- The part of the instance the solvers read (core/api.py:26-39, token_pair_solver/api.py:10-33). -/
def readInstance (c : Conv) (v : PyVal) : Py Instance := do
  let accounts ← getItem v "accounts"
  let accounts ← readAccounts c accounts
  let orders ← getItem v "orders"
  let orders ← elements orders
  let orders ← mapE (readOrder c) orders
  let fee ← getItem v "fee"
  let fee ← readFee c fee
  pure { accounts, orders, fee }

/-! ### Writing -/

/-- `v + x` for a number `v` of the instance and an amount `x`. Simplification: the result is a `Fraction`; an integral
`Fraction` and an `int` have the same text. -/
def addNum : PyVal → ℚ → Py PyVal
  | .int n, x => .ok (.frac (n + x))
  | .frac q, x => .ok (.frac (q + x))
  | _, _ => .error .typeError

/-- `if order.buy_token not in accounts[account_id]: accounts[account_id][order.buy_token] = 0` (core/orderbook.py:225-226). -/
def ensureVal (d : Dict String PyVal) (t : Token) : Dict String PyVal :=
  match dictGet? d t with
  | some _ => d
  | none => dictSet d t (.int 0)

/-- Loop body of `update_accounts` (core/orderbook.py:221-230) on the accounts of the instance. -/
def updateTreeStep (c : Conv) (accounts : PyVal) (o : Order) : Py PyVal := do
  match o.accountId with
  | none => .error .keyError
  | some a =>
    let acc ← getItem accounts a
    let d ← asDict acc
    let d := ensureVal d o.buyToken
    let vb ← dictGet d o.buyToken
    let nb ← c.toInt vb
    let d := dictSet d o.buyToken (.int nb)
    let vs ← dictGet d o.sellToken
    let ns ← c.toInt vs
    let d := dictSet d o.sellToken (.int ns)
    let vb ← dictGet d o.buyToken
    let vb ← addNum vb o.buy
    let d := dictSet d o.buyToken vb
    let vs ← dictGet d o.sellToken
    let vs ← addNum vs (-o.sell)
    let d := dictSet d o.sellToken vs
    setItem accounts a (.dict d)

/-- `update_accounts` (core/orderbook.py:220-230) on the accounts of the instance. -/
def updateTree (c : Conv) (accounts : PyVal) (orders : List Order) : Py PyVal :=
  foldE (updateTreeStep c) accounts orders

/-- The value of a number. -/
def num? : PyVal → Option ℚ
  | .int n => some n
  | .frac q => some q
  | _ => none

/-- A balance as an operand of arithmetic: `TypeError` for text. -/
def numberOf (v : PyVal) : Py ℚ :=
  match num? v with
  | some q => .ok q
  | none => .error .typeError

/-- `accounts_updated[order.account_id].get(order.sell_token, 0)` (core/orderbook.py:61), used as a number. -/
def treeBalance (accounts : PyVal) (o : Order) : Py ℚ :=
  match o.accountId with
  | none => .ok 0
  | some a => do
    let acc ← getItem accounts a
    let d ← asDict acc
    match dictGet? d o.sellToken with
    | none => pure 0
    | some v => numberOf v

/-- The balances of one account that are numbers. -/
def accountNumbers : PyVal → Dict Token ℚ
  | .dict e => e.filterMap (fun q => (num? q.2).map (fun y => (q.1, y)))
  | _ => []

/-- The balances that are numbers (`treeBalance` raises on those needed that are not). -/
def numbersOf : PyVal → Accounts
  | .dict d => d.map (fun p => (p.1, accountNumbers p.2))
  | _ => []

/-- The dict returned by `compute_solution_metrics` (core/orderbook.py:30-35, 95). -/
def metricsVal (m : Metrics) : PyVal :=
  .dict [("volume", .frac m.volume), ("utility", .frac m.utility), ("utility_disreg", .frac m.utilityDisreg),
    ("utility_disreg_touched", .frac m.utilityDisregTouched), ("fees", .frac m.fees), ("orders_touched", .int m.ordersTouched)]

/-- The dict of prices (core/api.py:52). -/
def pricesVal (prices : Prices) : PyVal := .dict (prices.map (fun p => (p.1, .frac p.2)))

/-- `original_orders` (core/api.py:63-65), from index `i`. -/
def originalVals : ℕ → List PyVal → Dict String PyVal
  | _, [] => []
  | i, v :: l => (toString i, v) :: originalVals (i + 1) l

/-- Loop body of the touched-orders dump (core/api.py:69-72). -/
def writeOrder (orig : Dict String PyVal) (o : Order) : Py PyVal := do
  let v ← dictGet orig o.id
  let v ← setItem v "execSellAmount" (.str (pyStrFrac o.sell))
  setItem v "execBuyAmount" (.str (pyStrFrac o.buy))

/-- `if 'orderID' in order.keys(): order['orderID'] = int(order['orderID'])` (core/api.py:79-81). -/
def restoreOrderID (c : Conv) (v : PyVal) : Py PyVal := do
  let d ← asDict v
  match dictGet? d "orderID" with
  | none => pure v
  | some i => do
    let n ← c.toInt i
    setItem v "orderID" (.int n)

mutual
/-- Whether `json.dump` accepts a value: it raises `TypeError` on a `Decimal` or `Fraction`. -/
def isJson : PyVal → Bool
  | .dec _ => false
  | .frac _ => false
  | .list l => isJsonList l
  | .tuple l => isJsonList l
  | .dict l => isJsonDict l
  | _ => true
/-- `isJson` of every element. -/
def isJsonList : List PyVal → Bool
  | [] => true
  | v :: l => isJson v && isJsonList l
/-- `isJson` of every value. -/
def isJsonDict : List (String × PyVal) → Bool
  | [] => true
  | (_, v) :: l => isJson v && isJsonDict l
end

/-- `json.dump(instance, solution_file)` (core/api.py:99): the text is not modelled. -/
def jsonDump (v : PyVal) : Py Unit := if isJson v then .ok () else .error .typeError

/-- What a run leaves: the instance returned by `main`, and the value written to the solution file. -/
structure JsonOut where
  returned : PyVal
  file : PyVal

/-- First part of `dump_solution` (core/api.py:51-72): prices, accounts, objective values and touched orders. -/
def solutionTree (c : Conv) (t : PyVal) (sol : Solution) (fee : Fee) : Py PyVal := do
  let t ← setItem t "prices" (pricesVal sol.prices)
  let accounts ← getItem t "accounts"
  let accounts ← updateTree c accounts sol.orders
  let t ← setItem t "accounts" accounts
  let _ ← mapE (treeBalance accounts) sol.orders
  let m ← computeSolutionMetrics sol.prices (numbersOf accounts) sol.orders fee
  let t ← setItem t "objVals" (metricsVal m)
  let sorted := sol.orders.insertionSort (fun a b => a.id ≤ b.id)
  let originals ← getItem t "orders"
  let originals ← elements originals
  let ds ← mapE (writeOrder (originalVals 0 originals)) (sorted.filter (fun o => decide (o.sell > 0)))
  setItem t "orders" (.list ds)

/-- `instance['fee']['ratio'] = float(instance['fee']['ratio'])` (core/api.py:75). -/
def restoreFee (c : Conv) (t : PyVal) : Py PyVal := do
  let fee ← getItem t "fee"
  let ratio ← getItem fee "ratio"
  let ratio ← c.toFloat ratio
  let fee ← setItem fee "ratio" ratio
  setItem t "fee" fee

/-- Second part of `dump_solution` (core/api.py:78-89): numbers to text, order ids back to integers, and the `solver` dict
(name, arguments, run time, status). -/
def textTree (c : Conv) (t : PyVal) (solver : PyVal) : Py PyVal := do
  let s := stringifyNumeric t
  let orders ← getItem s "orders"
  let orders ← elements orders
  let orders ← mapE (restoreOrderID c) orders
  let s ← setItem s "orders" (.list orders)
  setItem s "solver" solver

/-- `dump_solution` (core/api.py:42-102). -/
def dumpTree (c : Conv) (t : PyVal) (sol : Solution) (fee : Fee) (solver : PyVal) : Py JsonOut := do
  let t ← solutionTree c t sol fee
  let t ← restoreFee c t
  let s ← textTree c t solver
  jsonDump s
  pure { returned := t, file := s }

/-- `main` of the token-pair solver (token_pair_solver/solver.py:497-529) on the parsed json. -/
def tokenPairJson (c : Conv) (cfg : Config) (ext : Ext) (t : PyVal) (pair : Token × Token) (xrate : Option ℚ) (solver : PyVal) :
    Py JsonOut := do
  let inst ← readInstance c t
  let (accounts, bk, fee) ← loadPairProblem cfg inst pair
  let (sol, _) ← solveEconomicViable cfg ext pair accounts bk.b bk.s bk.f fee xrate
  dumpTree c t sol fee solver

/-- `main` of the best-token-pair solver (best_token_pair_solver/solver.py:97-144) on the parsed json. -/
def bestTokenPairJson (c : Conv) (cfg : Config) (ext : Ext) (t : PyVal)
    (shuffle : List (Token × Token) → List ((Token × Token) × Bool)) (solver : PyVal) : Py JsonOut := do
  let inst ← readInstance c t
  let (accounts, orders, fee) ← loadProblem cfg inst
  let st ← bestTokenPair cfg ext accounts orders fee (shuffle (eligibleTokenPairs orders fee.token))
  dumpTree c t st.sol fee solver

end Dex
