import Verif.Model.Py

/-! # Model of dex_open_solver/core/config.py -/

namespace Dex

/-- `class Config` (core/config.py:4-50). The solver reads a process-wide singleton; here it is a parameter.
`minRationalTradable` is `MIN_RATIONAL_TRADABLE_AMOUNT` (config.py:46-50), whose value comes from one float
multiplication; theorems only use the stated inequalities between it and `minTradable`.
Simplification: `token_pair_solver/amount.py:24` reads `MIN_RATIONAL_TRADABLE_AMOUNT` once at import; here it is the same field. -/
structure Config where
  /-- `MIN_TRADABLE_AMOUNT` (config.py:10) -/
  minTradable : ℤ
  /-- `MIN_RATIONAL_TRADABLE_AMOUNT` (config.py:46-50) -/
  minRationalTradable : ℤ
  /-- `FEE_TOKEN_PRICE` (config.py:13) -/
  feeTokenPrice : ℤ
  /-- `MAX_NR_EXEC_ORDERS` (config.py:16) -/
  maxNrExec : ℤ
  /-- `MIN_AVERAGE_ORDER_FEE` (config.py:19) -/
  minAvgFee : ℚ
  /-- `MIN_ABSOLUTE_ORDER_FEE` (config.py:23) -/
  minAbsFee : ℚ
  /-- `MAX_ROUNDING_VOLUME` (config.py:37) -/
  maxRoundingVolume : ℤ
  /-- `PRICE_ESTIMATION_ERROR` (config.py:43) -/
  priceEstimationError : ℤ

/-- The values in core/config.py. `int(10000 * (1 + 0.001))` evaluates to 10009 in IEEE double arithmetic
(1 + 0.001 rounds below 1.001). -/
def Config.default : Config where
  minTradable := 10000
  minRationalTradable := 10009
  feeTokenPrice := 10 ^ 18
  maxNrExec := 30
  minAvgFee := 0
  minAbsFee := 0
  maxRoundingVolume := 10 ^ 11
  priceEstimationError := 10

end Dex
