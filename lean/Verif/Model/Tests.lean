import Verif.Model.Solver

/-! # Model of the property-based unit tests in tests/unit

The bodies of the tests, as functions of the generated lists. `event(...)` only records statistics and is left out. Orders get their ids
from `uuid` (core/order.py:20-21); here they come with the lists. -/

namespace Dex

/-- `Order.set_sell_amount_from_buy_amount` with `arith_traits=RationalTraits` (core/order.py:149-170, core/order_util.py:36-38). -/
def Order.setSellRational (o : Order) (prices : Dict Token ℚ) (fee : Fee) : Py Order := do
  let pb ← dictGet prices o.buyToken
  let ps ← dictGet prices o.sellToken
  if pb ≠ 0 ∧ ps ≠ 0 then
    let xrate ← pyDiv pb ps
    let v ← ratSellFromBuy o.buy xrate fee
    pure (o.withSell v)
  else
    pyAssert (o.buy = 0) "order.py:165"
    pure (o.withSell 0)

/-- `order.account_id = 'A'` for every order of a list. -/
def assignA (os : List Order) : List Order := os.map (fun o => { o with accountId := some "A" })

/-- `fee` of tests/unit/amount_test.py:17 and tests/unit/xrate_test.py:14. -/
def testFee0 : Fee := { token := "T0", value := 1 / 1000 }

/-- `fee` of the tests in tests/unit/solver_test.py:57, 73, 91. -/
def testFeeF : Fee := { token := "F", value := 1 / 1000 }

/-- `compute_buy_amounts_helper` (tests/unit/amount_test.py:20-54), the body of `test_compute_buy_amounts_small`. The collected fee is a
`Fraction` here, so the average (core/validation.py:73) is exact. -/
def testComputeBuyAmounts (cfg : Config) (fee : Fee) (b s : List Order) (xrate : ℚ) (maxNr : ℤ) : Py Unit := do
  let (b, s) ← computeBuyAmounts cfg xrate b s fee maxNr
  let prices : Prices := [("T0", (xrate.num : ℚ)), ("T1", (xrate.den : ℚ))]
  let b ← mapE (fun o => o.setSellRational prices fee) b
  let s ← mapE (fun o => o.setSellRational prices fee) s
  let accounts : Accounts := [("A", [("T0", (s.map (·.sell)).sum), ("T1", (b.map (·.sell)).sum)])]
  validate { cfg with maxNrExec := maxNr } (fun q n => .ok (q / n)) accounts (assignA b ++ assignA s) prices fee

/-- `compute_objective` (tests/unit/xrate_test.py:17-24) is `solverObjective`: the buy amounts and their objective. The loop of
`test_find_best_xrate` (tests/unit/xrate_test.py:56-59), with fuel for its `while`. -/
def testGridLoop (cfg : Config) (fee : Fee) (b s : List Order) (opt ub step : ℚ) : ℕ → ℚ → Py Unit
  | 0, _ => .error .diverge
  | fuel + 1, x =>
    if x ≤ ub then do
      let v ← solverObjective cfg fee b s x
      pyAssert (v ≤ opt) "xrate_test.py:58"
      testGridLoop cfg fee b s opt ub step fuel (x + step)
    else pure ()

/-- `test_find_best_xrate` (tests/unit/xrate_test.py:33-59) after `assume`, which only discards inputs. -/
def testFindBestXrate (cfg : Config) (sqrt : ℚ → Py ℚ) (fuel : ℕ) (b s : List Order) : Py Unit := do
  let fee := testFee0
  let bRates := b.map (fun o => o.maxXrate * (1 - fee.value))
  let sRates ← mapE (fun o => pyDiv 1 (o.maxXrate * (1 - fee.value))) s
  let ub ← pyMaxBy id bRates
  let lb ← pyMinBy id sRates
  let cfg := { cfg with maxNrExec := ((b.length + s.length : ℕ) : ℤ), minTradable := 0 }
  match ← findBestXrate cfg sqrt b s fee with
  | none => .error .typeError
  | some (x, _) =>
    let opt ← solverObjective cfg fee b s x
    let step ← pyDiv (ub - lb) 100
    testGridLoop cfg fee b s opt ub step fuel lb

/-- `solve_token_pair_and_fee_token_helper` (tests/unit/solver_test.py:18-46), the body of the three tests of the file, which set the two
fee thresholds (solver_test.py:58-59, 75-76, 93-94). -/
def testSolver (cfg : Config) (ext : Ext) (fee : Fee) (minAvgFee minAbsFee : ℚ) (b s f : List Order) : Py Unit := do
  let accounts : Accounts := [("A", [("T0", (s.map (·.maxSell)).sum), ("T1", (b.map (·.maxSell)).sum), ("F", (f.map (·.maxSell)).sum)])]
  let _ ← solveEconomicViable { cfg with minAvgFee, minAbsFee } ext ("T0", "T1") accounts (assignA b) (assignA s) (assignA f) fee none
  pure ()

end Dex
