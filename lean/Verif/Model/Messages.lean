import Verif.Model.Program

/-! # Model of the messages of a run at the levels INFO and above

The package writes five messages above DEBUG: "No matching orders between %s and %s." (token_pair_solver/solver.py:295), "Could not round solution."
(token_pair_solver/solver.py:423), "Time limit reached - leaving." (best_token_pair_solver/solver.py:126), "Solution file is '%s'." (core/api.py:102) and the
warning about a utility above its maximum, whose argument `order.index` raises (core/orderbook.py:73-75, in the model of the metrics). The functions with
messages are those of Model/Solver.lean, Best.lean and Program.lean again; a message is written although an exception follows. Of the calls at level DEBUG only
the arguments that can raise are evaluated: that is the division in token_pair_solver/solver.py:387. -/

namespace Dex

/-- The messages at level INFO and above. -/
inductive Message where
  /-- token_pair_solver/solver.py:295 -/
  | noMatch (b s : Token)
  /-- token_pair_solver/solver.py:423 -/
  | noRound
  /-- best_token_pair_solver/solver.py:126 -/
  | timeLimit
  /-- core/api.py:102 -/
  | solutionFile (name : String)
deriving DecidableEq

/-- A computation that writes messages and may raise. -/
def Said (α : Type) := List Message × Py α

namespace Said

/-- A computation that writes nothing. -/
def quiet {α : Type} (x : Py α) : Said α := ([], x)

/-- Writing a message. -/
def say (m : Message) : Said Unit := ([m], .ok ())

/-- One after the other; what has been written stays written when the second part raises. -/
def andThen {α β : Type} (x : Said α) (f : α → Said β) : Said β :=
  match x.2 with
  | .ok a => (x.1 ++ (f a).1, (f a).2)
  | .error e => (x.1, .error e)

instance : Monad Said where
  pure a := quiet (.ok a)
  bind := andThen

end Said

open Said

/-- Aggregation and rounding with the message (token_pair_solver/solver.py:415-426). -/
def aggregateAndRoundSaid (cfg : Config) (ext : Ext) (pair : Token × Token) (bk : Books) (xrate bPrice : ℚ) (fee : Fee) :
    Said (Solution × List Order) := do
  let (orders, prices) ← quiet (aggregateOrdersPrices cfg pair bk.b bk.s bk.f xrate bPrice fee)
  let (ok, orders) ← quiet (roundSolution cfg ext.branch prices orders fee)
  if ok then pure ({ orders, prices }, orders)
  else do
    say .noRound
    pure (Solution.trivial, orders)

/-- `solve_token_pair_and_fee_token` after the pair has been oriented, with the messages and the division among the arguments of a message
(token_pair_solver/solver.py:279-426). -/
def solveOrientedSaid (cfg : Config) (ext : Ext) (pair : Token × Token) (b s f : List Order) (fee : Fee) (xrate : Option ℚ) : Said MatchResult := do
  let (x, b, s) ← quiet (solveTokenPair cfg ext.sqrt pair b s fee xrate none cfg.maxNrExec)
  if countNrExec b = 0 then do
    say (.noMatch pair.1 pair.2)
    pure { sol := .trivial, books := { b, s, f } }
  else match x with
  | none => quiet (.error .valueError)
  | some x =>
    if pair.1 = fee.token then do
      let (sol, os) ← aggregateAndRoundSaid cfg ext pair { b, s, f := [] } x cfg.feeTokenPrice fee
      pure { sol, books := { b := writeBack b os, s := writeBack s os, f } }
    else if f.length = 0 then pure { sol := .trivial, books := { b, s, f } }
    else do
      let imb ← quiet (bBuyTokenImbalance b s x 1 fee)
      let (mn, mx) ← quiet (nrFOrders cfg b s f)
      if mn > mx then pure { sol := .trivial, books := { b, s, f } }
      else do
        let fSorted := sortedByExecPriority f
        let ns := (List.range (mx + 1 - mn).toNat).map (· + mn.toNat)
        let st ← quiet (fOrdersLoop cfg ext.sqrt imb pair x fee ns { best := none, books := { b, s, f := fSorted } })
        let books := { st.books with f := writeBack f st.books.f }
        match st.best with
        | none => pure { sol := .trivial, books }
        | some best =>
          match best.bPrice with
          | none => pure { sol := .trivial, books }
          | some p => do
            let _ ← quiet (pyDiv p best.xrate)
            let (sol, _) ← aggregateAndRoundSaid cfg ext pair best.books best.xrate p fee
            pure { sol, books }

/-- `solve_token_pair_and_fee_token` (token_pair_solver/solver.py:254-426) with its messages. -/
def solveTokenPairAndFeeSaid (cfg : Config) (ext : Ext) (pair : Token × Token) (b s f : List Order) (fee : Fee) (xrate : Option ℚ) : Said MatchResult := do
  let (b', s') ← quiet (pruneUnrealizable b s fee)
  if b'.length = 0 ∨ s'.length = 0 then pure { sol := .trivial, books := { b, s, f } }
  else if pair.2 = fee.token then do
    let r ← solveOrientedSaid cfg ext (pair.2, pair.1) s' b' f fee xrate
    pure { r with books := { b := writeBack b r.books.s, s := writeBack s r.books.b, f := r.books.f } }
  else do
    let r ← solveOrientedSaid cfg ext pair b' s' f fee xrate
    pure { r with books := { b := writeBack b r.books.b, s := writeBack s r.books.s, f := r.books.f } }

/-- The loop of `solve_token_pair_and_fee_token_economic_viable` (token_pair_solver/solver.py:447-489) with the messages of its calls. -/
def economicLoopSaid (cfg : Config) (ext : Ext) (pair : Token × Token) (fee : Fee) (xrate : Option ℚ) :
    ℕ → Books → List Order → Solution → Said (Solution × List Order)
  | 0, _, _, _ => quiet (.error .diverge)
  | fuel + 1, bk, gone, cur =>
    if bk.b.length > 0 ∨ bk.s.length > 0 then do
      let r ← solveTokenPairAndFeeSaid cfg ext pair bk.b bk.s bk.f fee xrate
      let done := r.books.b ++ r.books.s ++ r.books.f ++ gone
      let viable ← quiet (isEconomicViable cfg r.sol.orders r.sol.prices fee)
      if viable = true ∨ isTrivial r.sol.orders = true then pure (r.sol, done)
      else do
        let sub ← quiet (approxViableSubset cfg r.sol.orders r.sol.prices fee)
        if sub.length = 0 then pure (.trivial, done)
        else do
          let bm ← quiet (pyMinBy (·.buy) (r.books.b.filter (fun o => decide (o.buy > 0))))
          let sm ← quiet (pyMinBy (·.buy) (r.books.s.filter (fun o => decide (o.buy > 0))))
          let pb ← quiet (dictGet r.sol.prices pair.1)
          let ps ← quiet (dictGet r.sol.prices pair.2)
          if bm.buy * pb < sm.buy * ps then
            economicLoopSaid cfg ext pair fee xrate fuel
              { r.books with b := r.books.b.filter (fun o => decide (o.id ≠ bm.id)) } (bm :: gone) r.sol
          else
            economicLoopSaid cfg ext pair fee xrate fuel
              { r.books with s := r.books.s.filter (fun o => decide (o.id ≠ sm.id)) } (sm :: gone) r.sol
    else pure (cur, bk.b ++ bk.s ++ bk.f ++ gone)

/-- `solve_token_pair_and_fee_token_economic_viable` (token_pair_solver/solver.py:429-494) with its messages. -/
def solveEconomicViableSaid (cfg : Config) (ext : Ext) (pair : Token × Token) (accounts : Accounts) (b s f : List Order)
    (fee : Fee) (xrate : Option ℚ) : Said (Solution × List Order) := do
  let (sol, objs) ← economicLoopSaid cfg ext pair fee xrate (b.length + s.length + 1) { b, s, f } [] .trivial
  let _ ← quiet (validate cfg ext.fdiv accounts sol.orders sol.prices fee)
  pure (sol, objs)

/-- `match_token_pair` (best_token_pair_solver/solver.py:20-52) with its messages. -/
def matchTokenPairSaid (cfg : Config) (ext : Ext) (pair : Token × Token) (accounts : Accounts) (orders : List Order)
    (fee : Fee) : Said (Solution × List Order) := do
  let b := ordersBuyingSelling orders pair.1 pair.2
  if b.length = 0 then pure (.trivial, orders)
  else do
    let s := ordersBuyingSelling orders pair.2 pair.1
    if s.length = 0 then pure (.trivial, orders)
    else do
      let f := if pair.1 ≠ fee.token then ordersBuyingSelling orders pair.1 fee.token else []
      if pair.1 ≠ fee.token ∧ f.length = 0 then pure (.trivial, orders)
      else do
        let (sol, objs) ← solveEconomicViableSaid cfg ext pair accounts b s f fee none
        pure (sol, writeBack orders objs)

/-- `match_token_pair_and_evaluate` with `touched_only=True` (best_token_pair_solver/solver.py:55-74) with its messages. -/
def matchAndEvaluateSaid (cfg : Config) (ext : Ext) (pair : Token × Token) (accounts : Accounts) (orders : List Order)
    (fee : Fee) : Said (ℚ × Solution × List Order) := do
  let (sol, orders) ← matchTokenPairSaid cfg ext pair accounts orders fee
  let acc ← quiet (updateAccounts accounts sol.orders)
  let touched := sol.orders.filter (fun o => decide (o.buy > 0))
  let obj ← quiet (computeObjectiveCore sol.prices acc touched fee)
  pure (obj, sol, orders)

/-- Loop of `main` (best_token_pair_solver/solver.py:116-127) with its messages. -/
def bestLoopSaid (cfg : Config) (ext : Ext) (accounts : Accounts) (fee : Fee) :
    List ((Token × Token) × Bool) → BestState → Said BestState
  | [], st => quiet (.ok st)
  | (pair, stop) :: rest, st => do
    let (obj, sol, orders) ← matchAndEvaluateSaid cfg ext pair accounts st.orders fee
    let st := if obj > st.objective then { objective := obj, sol, orders } else { st with orders }
    if stop then do
      say .timeLimit
      pure st
    else bestLoopSaid cfg ext accounts fee rest st

/-- `main` of the subcommand up to the value given to `json.dump` (token_pair_solver/solver.py:503-526, best_token_pair_solver/solver.py:103-141) with its
messages. -/
def commandValSaid (w : World) (a : Args) (cmd : Command) (t solver : PyVal) : Said PyVal := do
  let inst ← quiet (readInstance w.conv t)
  match cmd with
  | .tokenPair pair xrate => do
    let (accounts, bk, fee) ← quiet (loadPairProblem (a.config w.base) inst pair)
    let (sol, _) ← solveEconomicViableSaid (a.config w.base) w.ext pair accounts bk.b bk.s bk.f fee xrate
    quiet (dumpVal w.conv t sol fee solver)
  | .bestTokenPair => do
    let (accounts, orders, fee) ← quiet (loadProblem (a.config w.base) inst)
    let st ← bestLoopSaid (a.config w.base) w.ext accounts fee (timedVisits a.timeLimit w.elapsed 0 (w.shuffle (eligibleTokenPairs orders fee.token)))
      { objective := 0, sol := .trivial, orders }
    quiet (dumpVal w.conv t st.sol fee solver)

/-- The end of `dump_solution` (core/api.py:91-102) with its message. -/
def writeSolutionSaid (w : World) (files : Files) (name : Option String) (v : PyVal) : List Message × Except ProgErr Unit × Files :=
  let r := writeSolution w files name v
  match r.1 with
  | .ok _ => ([.solutionFile (name.getD w.tempFile)], r)
  | .error _ => ([], r)

/-- Whether a message is shown at a level given with `--logging` (match.py:76, 86-90; the levels of the standard library). -/
def Message.shown (level : String) : Message → Bool
  | .noMatch _ _ => level ∈ ["DEBUG", "INFO"]
  | .noRound => level ∈ ["DEBUG", "INFO", "WARNING"]
  | .timeLimit => level ∈ ["DEBUG", "INFO", "WARNING"]
  | .solutionFile _ => level ∈ ["DEBUG", "INFO"]

/-- The program (match.py:15-92): the messages shown at the level given (without those of level DEBUG), the outcome and the files after the run. -/
def programSaid (w : World) (files : Files) (argv : List String) : List Message × Except ProgErr Unit × Files :=
  match parseArgs (fun f => (files f).isSome) argv with
  | .error e => ([], .error (.cli e), files)
  | .ok p =>
    match p.args.command with
    | none => ([], .error (.py .attributeError), files)
    | some cmd =>
      match jsonLoads ((files p.instanceFile).getD []) with
      | .error e => ([], .error (.json e), files)
      | .ok t =>
        let c := commandValSaid w p.args cmd t (solverVal w argv)
        match c.2 with
        | .error e => (c.1.filter (Message.shown p.logging), .error (.py e), files)
        | .ok v =>
          let r := writeSolutionSaid w files p.solution v
          ((c.1 ++ r.1).filter (Message.shown p.logging), r.2)

end Dex
