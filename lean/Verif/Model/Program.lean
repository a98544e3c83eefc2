import Verif.Model.TextMain
import Verif.Model.ArgParse

/-! # Model of the program: from the command line and the files before the run to the files after it

match.py:15-92, the two `main` functions (token_pair_solver/solver.py:497-529, best_token_pair_solver/solver.py:97-144) and the end of `dump_solution`
(core/api.py:82-102). Simplifications: files are texts (encoding is not modelled); whether a file can be opened for writing is a parameter; an existing file can
be read; the name `-` (standard input) is not distinguished from a file of that name; logging is not modelled. -/

namespace Dex

/-! ### What is written when `json.dump` raises -/

/-- One text after another, unless writing has stopped. -/
def andThen (a b : List Char × Bool) : List Char × Bool := if a.2 then (a.1 ++ b.1, b.2) else a

mutual
/-- The text `json.dump` writes (`_iterencode` of `_make_iterencode`, written in pieces by `json.dump`), and whether it comes to the end: at a `Decimal` or `Fraction`
it raises, and what comes before has been written. -/
def writeValue (level : ℕ) : PyVal → List Char × Bool
  | .bool b => ((if b then "true" else "false").toList, true)
  | .int n => ((pyStrInt n).toList, true)
  | .frac _ => ([], false)
  | .dec _ => ([], false)
  | .str s => (dumpString s, true)
  | .other s => (s.toList, true)
  | .list [] => (['[', ']'], true)
  | .list (v :: l) =>
    andThen (andThen (andThen ('[' :: newLine (level + 1), true) (writeValue (level + 1) v)) (writeItems (level + 1) l)) (newLine level ++ [']'], true)
  | .tuple [] => (['[', ']'], true)
  | .tuple (v :: l) =>
    andThen (andThen (andThen ('[' :: newLine (level + 1), true) (writeValue (level + 1) v)) (writeItems (level + 1) l)) (newLine level ++ [']'], true)
  | .dict [] => (['{', '}'], true)
  | .dict ((k, v) :: l) =>
    andThen (andThen (andThen ('{' :: newLine (level + 1) ++ dumpString k ++ [':', ' '], true) (writeValue (level + 1) v)) (writeMembers (level + 1) l))
      (newLine level ++ ['}'], true)
/-- The loop of `_iterencode_list` after the first value. -/
def writeItems (level : ℕ) : List PyVal → List Char × Bool
  | [] => ([], true)
  | v :: l => andThen (andThen (',' :: newLine level, true) (writeValue level v)) (writeItems level l)
/-- The loop of `_iterencode_dict` after the first entry. -/
def writeMembers (level : ℕ) : List (String × PyVal) → List Char × Bool
  | [] => ([], true)
  | (k, v) :: l => andThen (andThen (',' :: newLine level ++ dumpString k ++ [':', ' '], true) (writeValue level v)) (writeMembers level l)
end

/-! ### The program -/

/-- The files: the text of each, if it exists. -/
abbrev Files := String → Option (List Char)

/-- What ends a run early: the argument parser, the json reader, an exception, or a file that cannot be written. -/
inductive ProgErr
  | cli (e : CliErr)
  | json (e : JsonErr)
  | py (e : PyErr)
  | os
deriving DecidableEq, Repr

/-- What a run depends on besides the command line and the files. -/
structure World where
  /-- `Fraction`, `int` and `float` on json values -/
  conv : Conv
  /-- the configuration before the run (core/config.py) -/
  base : Config
  ext : Ext
  /-- `random.shuffle` (best_token_pair_solver/solver.py:115) -/
  shuffle : List (Token × Token) → List (Token × Token)
  /-- the time after each pair (best_token_pair_solver/solver.py:123-125) -/
  elapsed : ℕ → ℚ
  /-- `sys.argv[0]` -/
  argv0 : String
  /-- the text of the run time -/
  runtime : String
  /-- the name `NamedTemporaryFile` chooses (core/api.py:93-96) -/
  tempFile : String
  /-- whether a file can be opened for writing (core/api.py:98) -/
  canWrite : String → Bool

/-- The `solver` entry (core/api.py:84-88). -/
def solverVal (w : World) (argv : List String) : PyVal :=
  .dict [("name", .str "open"), ("args", .list ((w.argv0 :: argv).map .str)), ("runtime", .other w.runtime), ("exit_status", .str "completed")]

/-- `dump_solution` up to the value given to `json.dump` (core/api.py:51-89). -/
def dumpVal (c : Conv) (t : PyVal) (sol : Solution) (fee : Fee) (solver : PyVal) : Py PyVal := do
  let t ← solutionTree c t sol fee
  let t ← restoreFee c t
  textTree c t solver

/-- `main` of the subcommand (token_pair_solver/solver.py:503-526, best_token_pair_solver/solver.py:103-141), from the parsed json to the value given to
`json.dump`; the configuration is the one set by match.py:80-84. -/
def commandVal (w : World) (a : Args) (cmd : Command) (t solver : PyVal) : Py PyVal := do
  let inst ← readInstance w.conv t
  match cmd with
  | .tokenPair pair xrate => do
    let (accounts, bk, fee) ← loadPairProblem (a.config w.base) inst pair
    let (sol, _) ← solveEconomicViable (a.config w.base) w.ext pair accounts bk.b bk.s bk.f fee xrate
    dumpVal w.conv t sol fee solver
  | .bestTokenPair => do
    let (accounts, orders, fee) ← loadProblem (a.config w.base) inst
    let st ← bestTokenPair (a.config w.base) w.ext accounts orders fee (timedVisits a.timeLimit w.elapsed 0 (w.shuffle (eligibleTokenPairs orders fee.token)))
    dumpVal w.conv t st.sol fee solver

/-- The end of `dump_solution` (core/api.py:91-100): the file is opened, which empties it, and written. -/
def writeSolution (w : World) (files : Files) (name : Option String) (v : PyVal) : Except ProgErr Unit × Files :=
  let f := name.getD w.tempFile
  if w.canWrite f then
    let (text, done) := writeValue 0 v
    (if done then .ok () else .error (.py .typeError), fun g => if g = f then some text else files g)
  else (.error .os, files)

/-- The program (match.py:15-92): the outcome and the files after the run. `argparse.FileType('r')` opens the instance while parsing; a missing subcommand raises
`AttributeError` (match.py:92). -/
def program (w : World) (files : Files) (argv : List String) : Except ProgErr Unit × Files :=
  match parseArgs (fun f => (files f).isSome) argv with
  | .error e => (.error (.cli e), files)
  | .ok p =>
    match p.args.command with
    | none => (.error (.py .attributeError), files)
    | some cmd =>
      match jsonLoads ((files p.instanceFile).getD []) with
      | .error e => (.error (.json e), files)
      | .ok t =>
        match commandVal w p.args cmd t (solverVal w argv) with
        | .error e => (.error (.py e), files)
        | .ok v => writeSolution w files p.solution v

end Dex
