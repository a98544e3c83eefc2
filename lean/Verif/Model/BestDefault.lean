import Verif.Model.Best

/-! # Model of `match_token_pair_and_evaluate` with its default argument (best_token_pair_solver/solver.py:55-74) -/

namespace Dex

/-- `match_token_pair_and_evaluate` with `touched_only=False`, the default (best_token_pair_solver/solver.py:55-74). `main` passes `True`. -/
def matchAndEvaluateDefault (cfg : Config) (ext : Ext) (pair : Token × Token) (accounts : Accounts) (orders : List Order)
    (fee : Fee) : Py (ℚ × Solution × List Order) := do
  let (sol, orders) ← matchTokenPair cfg ext pair accounts orders fee
  let acc ← updateAccounts accounts sol.orders
  let obj ← computeObjectiveCore sol.prices acc sol.orders fee
  pure (obj, sol, orders)

end Dex
