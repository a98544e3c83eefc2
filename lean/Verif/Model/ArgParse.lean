import Verif.Model.Cli
import Verif.Model.Number

/-! # Model of the command line of dex_open_solver/match.py: from the texts in `sys.argv[1:]` to the parsed arguments

The parser declared in match.py:16-72, token_pair_solver/solver.py:532-549 and best_token_pair_solver/solver.py:147-153, and the library
`argparse` (methods `parse_args`, `_parse_known_args`, `_parse_optional`, `_get_option_tuples`, `_match_arguments_partial`, `_get_values`,
`_SubParsersAction.__call__`; Python 3.11) as far as this parser uses it. Simplifications: only ASCII digits count as digits; an argument that
begins with `-h` and goes on is a usage error (some are a request for help); file names are not opened, `opens` says which ones can be. -/

namespace Dex

/-- How parsing ends when it does not return: with the help text (exit status 0), with a usage message (exit status 2), or with an exception
that `argparse` does not catch. -/
inductive CliErr where
  | help
  | usage
  | raised (e : PyErr)
deriving DecidableEq, Repr

/-- The options of the parsers (match.py:24-64, token_pair_solver/solver.py:543-547). -/
inductive Opt where
  | help
  | solution
  | logging
  | logRationals
  | minAvgFee
  | minAbsFee
  | timeLimit
  | xrate
deriving DecidableEq, Repr

/-- What `_parse_optional` makes of an argument: a plain argument, an option (`none`: one that this parser does not know) with the text after
`=` if there is one, or `--`. -/
inductive Cls where
  | arg
  | opt (o : Option Opt) (explicit : Option String)
  | dashes
deriving DecidableEq, Repr

/-- `_negative_number_matcher`: `^-\d+$|^-\d*\.\d+$`, where `$` also matches before a newline at the end. -/
def looksNegative : List Char → Bool
  | [] => false
  | c :: r =>
    let r := if r.getLast? = some '\n' then r.dropLast else r
    c = '-' && match r.dropWhile Char.isDigit with
      | [] => r ≠ []
      | d :: ds => d = '.' && ds ≠ [] && ds.all Char.isDigit

/-- The text before the first `=`, and the text after it. -/
def splitEq : List Char → List Char × Option (List Char)
  | [] => ([], none)
  | c :: r => if c = '=' then ([], some r) else let (n, e) := splitEq r; (c :: n, e)

/-- The option strings of a parser. -/
abbrev OptTable := List (List Char × Opt)

/-- `_get_option_tuples`: the options that the argument may abbreviate. -/
def optionTuples (t : OptTable) (a : List Char) : List Cls :=
  if a.take 2 = ['-', '-'] then
    let (name, e) := splitEq a
    (t.filter (fun x => name.isPrefixOf x.1)).map (fun x => .opt (some x.2) (e.map String.ofList))
  else t.filterMap fun x =>
    if x.1 = a.take 2 then some (.opt (some x.2) (some (String.ofList (a.drop 2)))) else if a.isPrefixOf x.1 then some (.opt (some x.2) none) else none

/-- The option with the given option string. -/
def findOpt (t : OptTable) (a : List Char) : Option Opt := (t.find? (fun x => x.1 = a)).map (·.2)

/-- `_parse_optional`. -/
def parseOptional (t : OptTable) (a : List Char) : Except CliErr Cls :=
  if a.head? ≠ some '-' then .ok .arg
  else match findOpt t a with
  | some o => .ok (.opt (some o) none)
  | none =>
    if a.length = 1 then .ok .arg
    else
      match (splitEq a).2, findOpt t (splitEq a).1 with
      | some e, some o => .ok (.opt (some o) (some (String.ofList e)))
      | _, _ =>
        match optionTuples t a with
        | _ :: _ :: _ => .error .usage
        | [c] => .ok c
        | [] => if looksNegative a then .ok .arg else if ' ' ∈ a then .ok .arg else .ok (.opt none none)

/-- The arguments with what they are: every argument after `--` is a plain one. -/
def classify (t : OptTable) : List String → Except CliErr (List (String × Cls))
  | [] => .ok []
  | a :: l =>
    if a = "--" then .ok ((a, .dashes) :: l.map (fun b => (b, .arg)))
    else do
      let c ← parseOptional t a.toList
      let r ← classify t l
      .ok ((a, c) :: r)

/-- How many arguments a positional takes: one, two, or one and everything after it. -/
inductive Nargs where
  | one
  | two
  | parser

/-- A positional argument of a parser storing into `σ`. -/
structure Positional (σ : Type) where
  nargs : Nargs
  required : Bool
  act : List String → σ → Except CliErr σ

/-- A parser storing into `σ`. -/
structure ArgParser (σ : Type) where
  table : OptTable
  act : Opt → String → σ → Except CliErr σ
  positionals : List (Positional σ)

/-- The arguments after `--`s. -/
def skipDashes (l : List (String × Cls)) : List (String × Cls) := l.dropWhile (fun a => a.2 = .dashes)

/-- What is left after a plain argument and the `--`s around it: pattern `-*A-*`. -/
def afterArg (l : List (String × Cls)) : Option (List (String × Cls)) :=
  match skipDashes l with
  | (_, .arg) :: r => some (skipDashes r)
  | _ => none

/-- What is left after the arguments of a positional (`_get_nargs_pattern`): patterns `-*A-*`, `-*A-*A-*` and `-*A[-AO]*`. -/
def afterPositional (n : Nargs) (l : List (String × Cls)) : Option (List (String × Cls)) :=
  match n with
  | .one => afterArg l
  | .two => (afterArg l).bind afterArg
  | .parser => match skipDashes l with
    | (_, .arg) :: _ => some []
    | _ => none

/-- The arguments for each of the positionals, and what is left. -/
def matchAll {σ : Type} : List (Positional σ) → List (String × Cls) → Option (List (List String) × List (String × Cls))
  | [], l => some ([], l)
  | p :: ps, l => do
    let r ← afterPositional p.nargs l
    let (gs, r') ← matchAll ps r
    pure (((l.take (l.length - r.length)).map (·.1)) :: gs, r')

/-- `_match_arguments_partial`: as many of the first `n` positionals as match. -/
def matchPartial {σ : Type} (ps : List (Positional σ)) (l : List (String × Cls)) : ℕ → List (List String) × List (String × Cls)
  | 0 => ([], l)
  | n + 1 => match matchAll (ps.take (n + 1)) l with
    | some r => r
    | none => matchPartial ps l n

/-- Takes the actions of positionals with their arguments. -/
def takePositionals {σ : Type} : List (Positional σ) → List (List String) → σ → Except CliErr σ
  | p :: ps, g :: gs, st => do
    let st ← p.act g st
    takePositionals ps gs st
  | _, _, st => .ok st

/-- `consume_positionals`: the new state, the positionals and the arguments left. -/
def consumePositionals {σ : Type} (ps : List (Positional σ)) (l : List (String × Cls)) (st : σ) :
    Except CliErr (σ × List (Positional σ) × List (String × Cls)) := do
  let (gs, r) := matchPartial ps l ps.length
  let st ← takePositionals ps gs st
  pure (st, ps.drop gs.length, r)

/-- `consume_optional` for an option followed by the arguments `r`: the new state, the arguments left, and whether the option is unknown.
(`help` takes no argument, all others take one.) -/
def consumeOptional {σ : Type} (P : ArgParser σ) (o : Option Opt) (explicit : Option String) (r : List (String × Cls)) (st : σ) :
    Except CliErr (σ × List (String × Cls) × Bool) :=
  match o, explicit with
  | none, _ => .ok (st, r, true)
  | some .help, none => .error .help
  | some .help, some _ => .error .usage
  | some o, some e => do
    let st ← P.act o e st
    pure (st, r, false)
  | some o, none =>
    match r with
    | (s, .arg) :: r => do
      let st ← P.act o s st
      pure (st, r, false)
    | _ => .error .usage

/-- Whether an argument is an option. -/
def Cls.isOpt : Cls → Bool
  | .opt _ _ => true
  | _ => false

/-- The loop of `_parse_known_args` and the positionals after it: the state, the positionals left, and the arguments nobody took. Every round
takes an argument, so `fuel` larger than the number of arguments is enough. -/
def parseLoop {σ : Type} (P : ArgParser σ) : ℕ → List (Positional σ) → List (String × Cls) → List String → σ →
    Except CliErr (σ × List (Positional σ) × List String)
  | 0, _, _, _, _ => .error (.raised .diverge)
  | fuel + 1, ps, l, extras, st =>
    if l.any (fun a => a.2.isOpt) then
      match l with
      | (s, .opt o e) :: r => do
        let (st, r, unknown) ← consumeOptional P o e r st
        parseLoop P fuel ps r (if unknown then extras ++ [s] else extras) st
      | _ => do
        let (st, ps, r) ← consumePositionals ps l st
        if r.length < l.length then parseLoop P fuel ps r extras st
        else parseLoop P fuel ps (r.dropWhile (fun a => !a.2.isOpt)) (extras ++ (r.takeWhile (fun a => !a.2.isOpt)).map (·.1)) st
    else do
      let (st, ps, r) ← consumePositionals ps l st
      pure (st, ps, extras ++ r.map (·.1))

/-- `parse_known_args`: the state and the arguments nobody took; a required positional must have been there. -/
def parseKnown {σ : Type} (P : ArgParser σ) (argv : List String) (st : σ) : Except CliErr (σ × List String) := do
  let l ← classify P.table argv
  let (st, ps, extras) ← parseLoop P (l.length + 1) P.positionals l [] st
  if ps.any (·.required) then .error .usage else pure (st, extras)

/-- `_get_value`: `TypeError` and `ValueError` become usage errors, other exceptions are not caught. -/
def getValue {α : Type} (x : Py α) : Except CliErr α :=
  match x with
  | .ok a => .ok a
  | .error .valueError => .error .usage
  | .error .typeError => .error .usage
  | .error e => .error (.raised e)

/-- `bool(text)`. -/
def pyBoolText (s : String) : Bool := s ≠ ""

/-- The namespace of the subcommands. -/
structure SubArgs where
  pair : Option (Token × Token) := none
  xrate : Option ℚ := none

/-- Positional arguments lose the first `--` (`_get_values`). -/
def stripDashes (g : List String) : List String := g.erase "--"

/-- The parser of `token-pair` (token_pair_solver/solver.py:532-549). -/
def tokenPairParser : ArgParser SubArgs where
  table := [("-h".toList, .help), ("--help".toList, .help), ("--xrate".toList, .xrate)]
  act o s st :=
    match o with
    | .xrate => do
      let x ← getValue (pyFractionText s)
      pure { st with xrate := some x }
    | _ => .error .usage
  positionals := [{
    nargs := .two
    required := true
    act g st := match stripDashes g with
      | [b, s] => .ok { st with pair := some (b, s) }
      | _ => .error .usage }]

/-- The parser of `best-token-pair` (best_token_pair_solver/solver.py:147-153). -/
def bestTokenPairParser : ArgParser SubArgs where
  table := [("-h".toList, .help), ("--help".toList, .help)]
  act _ _ _ := .error .usage
  positionals := []

/-- The parsed arguments (match.py:74-77): `args` are those that `matchMain` needs. -/
structure Parsed where
  instanceFile : String := ""
  solution : Option String := none
  logging : String := "INFO"
  logRationals : Bool := false
  args : Args := { command := none }
  unrecognized : List String := []

/-- The subcommand (`_SubParsersAction.__call__`): its arguments are parsed by its own parser, what that one does not know is kept. -/
def runSubcommand (g : List String) (st : Parsed) : Except CliErr Parsed :=
  match g with
  | [] => .error .usage
  | name :: argv =>
    if name = "token-pair" then do
      let (sub, extras) ← parseKnown tokenPairParser argv {}
      match sub.pair with
      | none => .error .usage
      | some pair => pure { st with args := { st.args with command := some (.tokenPair pair sub.xrate) }, unrecognized := st.unrecognized ++ extras }
    else if name = "best-token-pair" then do
      let (_, extras) ← parseKnown bestTokenPairParser argv {}
      pure { st with args := { st.args with command := some .bestTokenPair }, unrecognized := st.unrecognized ++ extras }
    else .error .usage

/-- The main parser (match.py:16-72). -/
def mainParser (opens : String → Bool) : ArgParser Parsed where
  table := [("-h".toList, .help), ("--help".toList, .help), ("--solution".toList, .solution), ("--logging".toList, .logging),
    ("--log-rationals".toList, .logRationals), ("--min-avg-fee-per-order".toList, .minAvgFee), ("--min-abs-fee-per-order".toList, .minAbsFee),
    ("--time-limit".toList, .timeLimit)]
  act o s st :=
    match o with
    | .solution => .ok { st with solution := some s }
    | .logging => if s ∈ ["DEBUG", "INFO", "WARNING", "ERROR", "CRITICAL"] then .ok { st with logging := s } else .error .usage
    | .logRationals => .ok { st with logRationals := pyBoolText s }
    | .minAvgFee => do
      let q ← getValue (pyFractionText s)
      pure { st with args := { st.args with minAvgFee := q } }
    | .minAbsFee => do
      let q ← getValue (pyFractionText s)
      pure { st with args := { st.args with minAbsFee := some q } }
    | .timeLimit => do
      let n ← getValue (pyIntText s)
      pure { st with args := { st.args with timeLimit := some n } }
    | _ => .error .usage
  positionals := [
    { nargs := .one
      required := true
      act g st := match stripDashes g with
        | [f] => if opens f then .ok { st with instanceFile := f } else .error .usage
        | _ => .error .usage },
    { nargs := .parser, required := false, act := runSubcommand }]

/-- `parser.parse_args()` (match.py:74): no argument may be left. -/
def parseArgs (opens : String → Bool) (argv : List String) : Except CliErr Parsed := do
  let (st, extras) ← parseKnown (mainParser opens) argv {}
  if extras ++ st.unrecognized = [] then pure st else .error .usage

end Dex
