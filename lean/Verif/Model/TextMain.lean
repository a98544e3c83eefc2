import Verif.Model.JsonText

/-! # Model of the two programs, from the text of the instance file to the text of the solution file -/

namespace Dex

/-- What a run raises: an error of the json reader, or any other error. -/
inductive TextErr
  | json (e : JsonErr)
  | py (e : PyErr)
deriving DecidableEq, Repr

/-- `main` of the token-pair solver (token_pair_solver/solver.py:497-529), between the two files. -/
def tokenPairText (c : Conv) (cfg : Config) (ext : Ext) (s : List Char) (pair : Token × Token) (xrate : Option ℚ) (solver : PyVal) :
    Except TextErr (List Char) := do
  let t ← (jsonLoads s).mapError .json
  let out ← (tokenPairJson c cfg ext t pair xrate solver).mapError .py
  (jsonDumps out.file).mapError .py

/-- `main` of the best-token-pair solver (best_token_pair_solver/solver.py:97-144), between the two files. -/
def bestTokenPairText (c : Conv) (cfg : Config) (ext : Ext) (s : List Char) (shuffle : List (Token × Token) → List ((Token × Token) × Bool))
    (solver : PyVal) : Except TextErr (List Char) := do
  let t ← (jsonLoads s).mapError .json
  let out ← (bestTokenPairJson c cfg ext t shuffle solver).mapError .py
  (jsonDumps out.file).mapError .py

end Dex
