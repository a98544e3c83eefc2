import Verif.Model.Best

/-! # Model of dex_open_solver/core/api.py and dex_open_solver/token_pair_solver/api.py -/

namespace Dex

/-- The part of the instance json the solver reads. Simplification: numbers are already parsed. -/
structure Instance where
  accounts : Accounts
  orders : List OrderDict
  fee : Fee

/-- `[Order.load_from_dict(d, str(index)) for index, d in enumerate(...)]` from index `i`
(core/api.py:30-33, token_pair_solver/api.py:16-19). -/
def loadOrdersFrom (cfg : Config) : ℕ → List OrderDict → Py (List Order)
  | _, [] => .ok []
  | i, d :: ds => do
    let o ← Order.loadFromDict cfg d (toString i)
    let os ← loadOrdersFrom cfg (i + 1) ds
    pure (o :: os)

/-- `load_problem` (core/api.py:26-39). -/
def loadProblem (cfg : Config) (inst : Instance) : Py (Accounts × List Order × Fee) := do
  let orders ← loadOrdersFrom cfg 0 inst.orders
  let orders ← restrictOrderSellAmounts orders inst.accounts
  pure (inst.accounts, orders, inst.fee)

/-- `load_problem` of the token-pair solver (token_pair_solver/api.py:10-42). -/
def loadPairProblem (cfg : Config) (inst : Instance) (pair : Token × Token) : Py (Accounts × Books × Fee) := do
  let orders ← loadOrdersFrom cfg 0 inst.orders
  let orders ← restrictOrderSellAmounts orders inst.accounts
  pyAssert (pair.2 ≠ inst.fee.token) "token_pair_solver/api.py:35"
  pure (inst.accounts,
    { b := ordersBuyingSelling orders pair.1 pair.2
      s := ordersBuyingSelling orders pair.2 pair.1
      f := ordersBuyingSelling orders pair.1 inst.fee.token }, inst.fee)

/-- What `dump_solution` puts into the instance. -/
structure Dump where
  prices : Prices
  accounts : Accounts
  objVals : Metrics
  orders : List OrderDict

/-- `original_orders` (core/api.py:63-65), from index `i`. -/
def originalOrdersFrom : ℕ → List OrderDict → Dict String OrderDict
  | _, [] => []
  | i, d :: ds => (toString i, d) :: originalOrdersFrom (i + 1) ds

/-- Loop body of the touched-orders dump (core/api.py:67-72). Simplification: executed amounts are numbers, not text. -/
def dumpOrder (orig : Dict String OrderDict) (o : Order) : Py OrderDict := do
  let d ← dictGet orig o.id
  pure { d with execSellAmount := some o.sell, execBuyAmount := some o.buy }

/-- `dump_solution` (core/api.py:42-72). Simplification: the float fee ratio, stringification (modelled separately as
`stringifyNumeric`) and file output (74-102) are left out. -/
def dumpSolution (inst : Instance) (sol : Solution) : Py Dump := do
  let accounts ← updateAccounts inst.accounts sol.orders
  let m ← computeSolutionMetrics sol.prices accounts sol.orders inst.fee
  let sorted := sol.orders.insertionSort (fun a b => a.id ≤ b.id)
  let ds ← mapE (dumpOrder (originalOrdersFrom 0 inst.orders)) (sorted.filter (fun o => decide (o.sell > 0)))
  pure { prices := sol.prices, accounts, objVals := m, orders := ds }

/-- `main` of the token-pair solver without file handling (token_pair_solver/solver.py:497-529). -/
def tokenPairMain (cfg : Config) (ext : Ext) (inst : Instance) (pair : Token × Token) (xrate : Option ℚ) :
    Py Dump := do
  let (accounts, bk, fee) ← loadPairProblem cfg inst pair
  let (sol, _) ← solveEconomicViable cfg ext pair accounts bk.b bk.s bk.f fee xrate
  dumpSolution inst sol

/-- `main` of the best-token-pair solver without file handling (best_token_pair_solver/solver.py:97-144), for a given
shuffle and given outcomes of the time-limit test. -/
def bestTokenPairMain (cfg : Config) (ext : Ext) (inst : Instance) (shuffle : List (Token × Token) → List ((Token × Token) × Bool)) :
    Py Dump := do
  let (accounts, orders, fee) ← loadProblem cfg inst
  let st ← bestTokenPair cfg ext accounts orders fee (shuffle (eligibleTokenPairs orders fee.token))
  dumpSolution inst st.sol

end Dex
