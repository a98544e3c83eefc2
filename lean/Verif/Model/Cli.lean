import Verif.Model.Api

/-! # Model of dex_open_solver/match.py

The model starts from the parsed arguments; parsing is in Model/ArgParse.lean. -/

namespace Dex

/-- The subcommand: `token-pair` (token_pair_solver/solver.py:532-549) or `best-token-pair` (best_token_pair_solver/solver.py:147-153). -/
inductive Command where
  | tokenPair (pair : Token × Token) (xrate : Option ℚ)
  | bestTokenPair

/-- The parsed arguments that matter for the solution (match.py:16-75). Python 3 does not require a subcommand, so it may be missing. -/
structure Args where
  minAvgFee : ℚ := 0
  minAbsFee : Option ℚ := none
  timeLimit : Option ℤ := none
  command : Option Command

/-- The configuration set by `main` (match.py:80-84). -/
def Args.config (a : Args) (base : Config) : Config :=
  match a.minAbsFee with
  | none => { base with minAvgFee := a.minAvgFee, minAbsFee := a.minAvgFee }
  | some m => { base with minAvgFee := a.minAvgFee, minAbsFee := m }

/-- The time-limit test (best_token_pair_solver/solver.py:123-125) for the time elapsed since the start. -/
def timeUp (limit : Option ℤ) (elapsed : ℚ) : Bool :=
  match limit with
  | none => false
  | some l => decide ((l : ℚ) < elapsed)

/-- The pairs with the outcome of the time-limit test after each (best_token_pair_solver/solver.py:116-127); `elapsed k` is
`time.time() - start_time` after the pair at position `k`. -/
def timedVisits (limit : Option ℤ) (elapsed : ℕ → ℚ) : ℕ → List (Token × Token) → List ((Token × Token) × Bool)
  | _, [] => []
  | k, p :: ps => (p, timeUp limit (elapsed k)) :: timedVisits limit elapsed (k + 1) ps

/-- `main` (match.py:15-92) without parsing, logging and file handling. A missing subcommand leaves `args` without the attribute
`exec_subcommand` (match.py:92). -/
def matchMain (base : Config) (ext : Ext) (inst : Instance) (a : Args) (shuffle : List (Token × Token) → List (Token × Token)) (elapsed : ℕ → ℚ) :
    Py Dump :=
  match a.command with
  | none => .error .attributeError
  | some (.tokenPair pair xrate) => tokenPairMain (a.config base) ext inst pair xrate
  | some .bestTokenPair => bestTokenPairMain (a.config base) ext inst (fun E => timedVisits a.timeLimit elapsed 0 (shuffle E))

end Dex
