# Formal model of gnosis/dex-open-solver in Lean 4

## Approach

The Python code is modelled function by function as *executable* Lean definitions
in the exception monad `Py := Except PyErr` (`lean/Verif/Model/*.lean`): every
`assert`, division, dict lookup, list index, `max([])` that can raise in Python is an explicit
`.error` in the model.  Exact rationals (`Fraction`, `int`) are `ℚ`; Python objects that are mutated
are values that functions return updated (see "Aliasing").  `while` loops take a fuel computed from the
input sizes and return `.error .diverge` when it runs out, so "never `.diverge`" is termination.

* `Verif/Model/*`  – the model, each definition citing file and lines in /repo.
* `Verif/Spec/*`   – small specification vocabulary, independent of the model's helpers.
* `Verif/Proof/*`  – lemmas.
* `Verif/Props/*`  – the property theorems (one or more per property id), with a non-vacuity `example` each.

## External behaviour taken as parameters (never assumed more than stated)

* `math.sqrt` + `Fraction(float)` (xrate.py:301): an arbitrary function `ℚ → Py ℚ` (may raise). Only C53 and C104 assume
  something: for the arguments that occur, the result is within a stated relative error of the real square root (`Spec.RootsAccurate`).
  C107 proves this of the correctly rounded root of the argument rounded to a double (`pySqrt`, Model/Double.lean), which is what
  IEEE 754 and the documentation of Python promise.
  The concrete instances of C72 use `ExDouble.sqrt`, which rounds the argument and the root to doubles as Python does.
* networkx `Edmonds(G).find_optimum()` (core/round.py:122): an arbitrary function on edge lists; theorems that
  need it assume it returns a *maximum branching* (sub-multiset of the edges, in-degree ≤ 1, acyclic, maximum size).
* float division `total_fees / nr` (validation.py:74): an arbitrary function `ℚ → ℕ → Py ℚ`; theorems say what they need.
  C108 uses the correctly rounded division (`pyTrueDiv`).
* `Fraction(v)`, `int(v)`, `float(v)` on json values (C65–C67): arbitrary functions (`Conv`); assumed right on `int`, `Fraction` and the
  decimal text of integers, and `int` truncating what `Fraction` reads when both succeed (`Spec.ConvOk`).
  Model/Number.lean and Model/FloatText.lean define all three as in the library (`pyConv pyFloat`); C91 and C109 prove what was assumed.
* `random.shuffle`, Python set iteration order, the clock: universally quantified lists / cut-off points.

## Aliasing

Orders are mutable objects shared between lists.  The main model passes lists of order values and writes updated values
back *by order id* (`writeBack`); `deepcopy` is keeping the value; generators run to completion; `lru_cache` is left out.
That this is what Python computes is proved, not assumed.  Model/Heap.lean and Model/Mem.lean are a second model, in which lists hold
references, assignments change a heap, `deepcopy` and `Order(...)` allocate, a generator and its consumer take turns, and
objective values are memoised.  C76 (amount.py) and C77 (both programs) show that the two models agree, exceptions
included if the fee is below 1 and amounts are not negative (otherwise, when both raise, the exceptions may differ; whether they
ever do is not known).  C77 needs the two tokens of the pair to differ (`C77_same_token` shows what
happens otherwise); statements C01–C75 about a pair of equal tokens are therefore about the value model only.

## What is modelled

| /repo/dex_open_solver | Lean | left out |
|---|---|---|
| core/config.py | Model/Config.lean (all constants; thresholds are fields) | – |
| core/order.py | Model/Order.lean, OrderText.lean | uuid default id (the id is a parameter), `utility*` fields (write-only) |
| core/order_util.py | Model/Order.lean, Model/Orderbook.lean (`RationalTraits`, `SmartContractTraits` = `IntegerTraits`), Model/Traits.lean (`StandardSolverIntegerTraits`, never used by the programs) | — |
| core/orderbook.py | Model/Orderbook.lean, all functions | – |
| core/round.py | Model/Round.lean, all functions | networkx itself (parameter `branch`) |
| core/validation.py | Model/Validation.lean, all functions | float division itself (parameter `fdiv`) |
| core/util.py | Model/Util.lean (`stringify_numeric`), Model/Log.lean (the numbers `LoggerFormatter` writes), Model/Messages.lean (which messages of level INFO and above are written) | messages of level DEBUG; `repr` of values other than `Fraction` (parameter); `%` with other conversions than `%s`, `%d`. `'%.3e'` in the model was compared with the interpreter's on 2299 doubles (random bits, powers of two, ties, neighbours of powers of ten): no difference (no code of the project was run). |
| core/api.py | Model/Api.lean (`load_problem`, `dump_solution` up to line 72, on numbers), Model/Json.lean (all of it, on json trees), Model/TextMain.lean (both programs between two texts) | temp files; `sys.argv` and run time are the parameter `solver` |
| token_pair_solver/amount.py, orderbook.py, xrate.py, price.py, round.py, solver.py, api.py | Model/Amount, TpOrderbook, Xrate, Price, Round, Solver, Api .lean, all functions; the `IntegerTraits` variants of `compute_objective`/`compute_b_buy_token_imbalance` (never called) in Model/TpOrderbookInt.lean; all others again with object identity in Model/Heap.lean (amount.py) and Model/Mem.lean | float `sqrt` itself (parameter) |
| best_token_pair_solver/solver.py | Model/Best.lean, Model/BestDefault.lean (`touched_only=False`, never used), Model/Api.lean, Model/Mem.lean | the clock and `shuffle` (quantified over) |
| tests/unit | Model/Tests.lean: the bodies of the four tests as functions of the generated lists, starting from the default `Config` | hypothesis itself, `event`; `Config` values left over from an earlier test in the same process |
| library `Fraction(str)`, `int(str)` (Python 3.7) | Model/Number.lean | digits and blanks outside ASCII |
| match.py:74-92 with both subcommands, core/api.py:82-100 | Model/Program.lean: command line and files before the run to files after it, including what has been written when `json.dump` raises | whether files can be opened for writing (parameter); encodings; `-` as standard input is treated as a file; logging (Model/Messages.lean repeats the functions with the messages of level INFO and above); a process killed while writing |
| library `Fraction.__float__`, `math.sqrt` (Python 3.7, IEEE 754 binary64) | Model/Double.lean | correct rounding is taken from the standards, the C code of the interpreter is not modelled. Compared with the interpreter's `float` and `math.sqrt` on 3000 random fractions, with ties, subnormal numbers and overflows: no difference (no code of the project was run). |
| library `float(v)`, `float.__repr__` (Python 3.7) | Model/FloatText.lean | texts that `Fraction` refuses; negative zero as `Decimal`. `shortDigits` tries 1 to 17 digits and does not follow the algorithm of dtoa.c. Compared with the interpreter's `repr` on 2537 doubles (random bits, powers of two, subnormal numbers, neighbours of powers of ten): no difference (no code of the project was run). |
| library `json.load(parse_float=Decimal)`, `json.dump(indent=4)` (Python 3.7) | Model/JsonText.lean | encodings; escapes of half a surrogate pair (marked `surrogate`); limits on nesting and exponents; the text of a float (`.other`). Compared with the library `json` on 4000 random texts, valid and damaged: the only differences are 6 damaged texts that also hold half a pair (no code of the project was run). |
| match.py | Model/Cli.lean | from the parsed arguments on: `Config` fields, time limit, subcommand; of the logging set-up only the level is modelled (Model/Messages.lean) |
| match.py:16-75, `setup_arg_parser` of both solvers | Model/ArgParse.lean | from `sys.argv[1:]` to the parsed arguments, with the parts of the library `argparse` (Python 3.11) that these parsers use. Simplified: ASCII digits only; an argument that begins with `-h` and goes on is a usage error; whether a file can be opened is a parameter `opens`. The model was compared with the library on 1200 random argument lists (a re-declaration of the parser, no code of the project was run): no differences. Python 3.7 (the Dockerfile) differs only in cases outside the theorems (`--name=--`, `-hX`). |

Simplifications, each also stated at the definition: C01–C64 take the numbers of the instance as already parsed (`ℚ`), C65–C67 start from
the json tree, C102 from the text of the file; there all balances are converted on reading (a malformed balance that Python never looks at is an error here), ids are text; exceptions carry
their class, assertions also their source line.

Every model definition was compared with its Python source line by line after the proofs were finished; no difference was found.

## Plan per property

| id | modelled | proof plan |
|----|----------|------------|
| C01 C02 | `restrictOrderSellAmounts` (fold over the priority-sorted list) | invariant: remaining balance = balance − committed, ≥ 0 |
| C03 | `Order.loadFromDict` | field arithmetic |
| C04 | `sortedByExecPriority` (stable insertion sort with Python's cmp) | permutation + pairwise; uniqueness of sorted lists |
| C05–C11, C13 | `computeBuyAmounts` with all helper loops | loop invariant: each side is (full prefix) ++ [partial] ++ zeros, balanced; measure for the undo loop |
| C12 | `computeBuyAmounts`, `computeObjective` | fractional-knapsack exchange argument on the invariant's final form |
| C14 | `pruneUnrealizableOrders` | order of maxima |
| C15 | `xrateIntervalIterator` | invariant over the sorted list of limit rates |
| C16 | `solve` (SymbolicSolver) | maximum over the candidate list; arbitrary sqrt |
| C17 | `solveTrivialBinSearch` for an arbitrary objective function | invariant d(left) > 0 > d(right) |
| C18 | same | concrete witness evaluated by the kernel |
| C19 | `root5` | field arithmetic |
| C20 C50 | `computeSBuyTokenPrice` | floor/ceil case split |
| C21 C22 | `createMarketOrder`, `computeTokenPriceToCoverImbalance` | floor/ceil, order of minima |
| C23–C28 | `roundSolution`, `roundLeafToken`, `computeTokenBalances` | invariants over the loops; processed tokens stay balanced |
| C29 | `roundingBuffer` enter/exit | pointwise |
| C30 | `validate` | iff with an independent `Feasible` predicate |
| C31 C34 C35 | `solveEconomicViable` | C30 + induction on fuel |
| C32 | whole `solveTokenPairAndFeeToken` | composition of C01, C05–C11, C20–C28 |
| C33 | `isEconomicViable` vs `validate` | arithmetic + kernel-evaluated witness |
| C36 C37 | `updateAccounts` | induction over orders |
| C38–C40 | `computeSolutionMetrics`, SmartContractTraits | floor arithmetic, induction |
| C41–C43 | `eligibleTokenPairs`, `matchTokenPair`, best-pair loop | induction over visited pairs; non-interference of stale amounts |
| C44 | `dumpSolution` | injectivity of `str(index)`, C03 |
| C45 | `stringifyNumeric` on a nested value type | structural induction |
| C46 | `computeConnectedTokens` | BFS invariant |
| C47–C49 C51 | corresponding functions | direct; kernel-evaluated witnesses |
| C52 | `root3`, `root4` | objective of a fixed fill pattern as a function of the rate; difference is a square |
| C53 | whole rate search | C17 neighbours + fill pattern per sub-interval + C52; square root assumed accurate to a stated bound |
| C54 | whole rate search | kernel-evaluated witness |
| C55 C56 | both commands end to end | set of possible exceptions, compositionally over every function on the path |
| C57 | rate search, token-pair command | kernel-evaluated witness for the failing denominator |
| C58 | amounts at a given rate | each undo step keeps every admissible volume below the current one; the loop exit bounds it from above |
| C59 | when rounding fails | the leaf loop makes only whole adjustments or reduces every order to the minimum; on failure no order could take the imbalance |
| C60 | pair and fee token, number of fee orders | the loop as a relation between attempts and the best so far (`Tries`), then its exact outcome (`Chosen`) |
| C61 | pair with the fee token | pruning exact (C14), amounts exact (C58), rounding as a relation; liveness from C59 |
| C62 | one attempt | market order and buffered books are inputs of C58; restoring maximum sell amounts undoes the buffer |
| C63 | viability search | induction on the loop; relation between order objects with leftover amounts and unexecuted ones; an order that is pruned but holds a leftover amount may be removed, which is shown not to change the rest of the run |
| C64 | viability search | kernel-evaluated witness |
| C65–C67 | reading and writing on the json tree (Model/Json.lean) | relation between the tree of accounts and the number model, kept by `update_accounts`; `dumpSolution` (C44) on the numbers; positions (C45) for the text |
| C68, C69 | closed forms of the objectives; worth of the written solution | per-order formulas (C39, C48); worth = objective of the executed orders; evaluations do not depend on left-over amounts (C43); pairs that are no candidates give the trivial solution |
| C70 | options of the command line | `Feasible` (C31) carried over to the file through the relation of C44; the flags of the visits computed from limit and clock |
| C71 | unrelated orders have no influence | capping and sorting commute with keeping the orders of the pair; the solution stems from these; C43 and C69 for the search over pairs |
| C72 | one more order can destroy the solution (negative) | kernel evaluation of four runs; correct answers stay correct when orders are appended |
| C73 | when rounding of three-token solutions succeeds or fails | the largest branching is the chain F→B→S; bounds of the imbalances after floors, propagated through the two steps of the loop |
| C74 | claims of doc/token_pair/token_pair.lyx | if both sides had a partial order, a larger volume would be admissible (C58); kernel evaluation at three rates for the negative claim |
| C75 | work of the rate search | width halves; queries collected along the run of the given objective; a potential counts the intervals next to the best limit rate |
| C76 | `heapComputeBuyAmounts` (Model/Heap.lean: lists of references and a heap) | each heap function commutes with reading the lists off the heap |
| C77 | both `main`s on references and a heap (Model/Mem.lean) against the value model | simulation relation `Sim` function by function; objects outside the lists of a call keep their contents, ids never change |
| C78 | `round_solution` on exactly feasible orders; `solve_token_pair_and_fee_token` for a pair with the fee token | deltas of `round_leaf_token` never have the sign opposite to the imbalance; each leaf is handled once; sums |
| C79, C80 | `SmartContractTraits`, `StandardSolverIntegerTraits` | floor bounds; exact formulas over ℚ |
| C81 | whole token-pair program with a given rate | floor or ceiling of the quotient; induction over the fee-order loop and the search for viability |
| C82 | whole programs | sums of greedy fills by priority; rounding keeps the executed orders (C28); exact outcomes (C60-C63); induction over the search |
| C83 | `match_token_pair_and_evaluate` | closed form of the objective (C68), metrics (C38) |
| C84 | `IntegerTraits` variants of token_pair_solver/orderbook.py | floor bounds, sums |
| C85 | both programs | relation between the two runs, function by function |
| C86 | both programs | the executed orders span the chain fee token → B → S, or one edge; induction over the loops |
| C87 | both programs | relation of runs on renumbered orders: each function commutes with new ids if ids of equal rate keep their order |
| C88 | bodies of the unit tests (Model/Tests.lean) | C05–C13 and C30 for the amounts; C55 and C16 for the others; `decide` on witnesses |
| C89 | token-pair solver from the instance to the dump | C61, C16 (rate), C20 (price), C62/volume, rounding bounds |
| C90 | both programs from the instance to the dump | C14 (exact pruning), matchable in terms of the limits; induction over the visits |
| C91 | library conversions of text (Model/Number.lean), dump and reading | grammar of the accepted texts as a relation; both directions by splitting at the first non-digit |
| C92 | dump and reading on the json tree with the conversions of C91 | relation of the account tree and the numbers as lists, kept by `update_accounts`; text of a number reads back (C91); unreachable dict entries unchanged |
| C93 | computeBuyAmounts from both sides | admissible volumes of C58 correspond under exchange of the sides when the fee is 0 |
| C94 | computeBuyAmounts and objective in other units | admissible volumes of C58 scale |
| C95 | computeBuyAmounts with two limits; whole run | volume admissible for a limit is admissible for a larger one; kernel evaluation of two runs |
| C96 | findBestXrate and computeBuyAmounts in other units | relational proof through all functions of xrate.py and amount.py (Proof/ScaleCore.lean) |
| C97 | parseArgs on whole command lines; texts through C91 | induction over the options; the loop of argparse takes one option per round |
| C98 | parseArgs rejects or misreads | the classification of the arguments fails, or an unknown option is left over |
| C99 | computeBuyAmounts on two books that differ in one order; whole run | the greedy fill is monotone in the order's priority, capacity and the volume; a partially filled order leaves the volume admissible; kernel evaluation for the witnesses |
| C100 | the scanner of the library `json` (Model/JsonText.lean) | grammar as an inductive relation; scanner sound and complete for it by mutual induction over derivations and fuel |
| C101 | the writer of the library `json` | the text written is derived in the grammar of C100 by recursion over the value |
| C102 | both programs between two texts (Model/TextMain.lean) | distinct keys and writable leaves are kept by every step of `dump_solution`; C100, C101, C65, C66, C92 |
| C103 | the whole program (Model/Program.lean) | the text before a failing value is the beginning of a json text cut at a value, which the scanner of C100 does not accept; C97, C65, C66, C70 |
| C104 | whole rate search | the neighbour property of C17 and a single peak put every better rate next to the limit rate found; C53 |
| C105 | whole programs down to the numbers of the dump | value balance over tokens; two nested floors of `compute_sell_amount` with an integer price lose less than one unit |
| C106 | sequences of runs of both programs between texts (Model/TextMain.lean) | the hypotheses of C92 and C102 hold again for the text written; C37, C105; induction over the runs |
| C107 | `toDouble`, `doubleRoot`, `pySqrt` (Model/Double.lean), the rate search with them | a double is a multiple of the unit in the last place or lies below the power of two under the argument; scaled integer square root; the argument of the root is at least half the ratio of the limits, so that it is a normal number (C53, C104) |
| C108 | `validate` with the division of Model/Double.lean | C107: a double below the exact average is not above the rounded one; relative error 2^-53; integer amounts |
| C109 | `shortDigits`, `floatText`, `pyFloat` (Model/FloatText.lean) | doubles are far apart: 17 digits single one out, and the double determines 15; what is read as a double is an interval; layout of the text against the json grammar (C100); C106 |
| C110 | `logNumber`, `logInteger`, `logText` (Model/Log.lean) | four digits by rounding `x / 10^(e-3)`: error half a unit; the text against the grammar of `Fraction` (C91); error of the conversion to double (C107) |
| C111 | all of the above with `pyFloat`, `pySqrt`, `pyTrueDiv` for the parameters (Props/Closed.lean) | `only_*` lemmas without the assumption that division never fails; C107 – C109 for the arithmetic; C44, C65 for the rest of the run. `C111_occur` shows all kinds of exceptions except 439 and 74, which are in `C113_occur`. OverflowError is shown for limits near 10^400 only |
| C112 | as C111 (Props/Overflow.lean) | Proof/Bounded.lean: the solver with two square roots that agree up to a bound gives the same result (`*_agree`, function by function), as the arguments stay below the bound; then C111 with functions cut off at the bound. Hypothesis added to `GoodInstance`: sell amounts are whole numbers (`Sized.whole`). `C112_size_needed` is the counterexample without bounds |
| C113 | as C111 (Props/ErrorList.lean) | C111 with `economicLoop_viable` (C33) to exclude 77; C112 to exclude OverflowError; six witnesses evaluated by the kernel in one world |
| C114 | as C56 (Props/ZeroDiv.lean) | of the divisors of the search only the one of root 3 can be zero; it is positive unless the orders below the partial one outweigh the rest; `only_findBestXrate_of` |
| C115 | as C55 (Proof/Moderate.lean, Props/Moderate.lean) | the error chain of C55 for any description of errors; the rate found is at most the greatest limit rate (`best_le_limit`), the price at least its quotient; C114 for both searches |
| C116 | Model/Messages.lean: the functions of Model/Solver.lean, Best.lean, Program.lean again, writing messages | forgetting the messages gives the functions back (Proof/Messages.lean); a message is followed by the empty solution, which ends the loop |
| C117 | Model/OrderText.lean | the parts are cut off at the commas; a number has no comma in its text and is read back from it (C91) |
| C118 | Props/Objective.lean (the reported objective is that of the loop), Model/Cli.lean | both loops evaluate the same pairs up to the point where the shorter one stops; the objective of the loop never falls |
| C119 | Props/Solver.lean (C31), Props/Validation.lean (C30), Props/Viability.lean, Props/Final.lean (C32) | the matching and the loading do not read the thresholds (by definition), so the first iteration of the viability loop is the same; then both checks pass |

## Where the code differs from what one would expect

Each is a theorem, general or with a concrete witness evaluated by the kernel (`decide +kernel`), next to the positive theorem that holds.

| theorem | what happens |
|---|---|
| C02_negative_balance_counterexample | with a negative balance loading can keep orders with a negative maximum sell amount |
| C18 | the binary search over limit rates raises AssertionError (xrate.py:440) on a valid order book; by C56 only 439 and 440 can fail, and only on an exact tie |
| C22_high_fee_aborts | with a fee above about 5% the market order is pruned and the price search raises |
| C33 | the viability pre-check accepts a solution that `validate` rejects (AssertionError, validation.py:74) |
| C35 | an order book with one empty side raises ValueError (`max([])`) |
| C39_fractional_limit_raises | a fractional buy amount makes the integer utility raise AssertionError |
| C47 | the "approximate" viable subset is not a superset of the viable orders |
| C49 | the search over numbers of fee orders starts one above the number that certainly fits |
| C50 | a fee of zero, or a price below 1, raises ZeroDivisionError |
| C51 | removing an order for a fee threshold can empty one side: ValueError from `max([])` when pruning |
| C54 | the rate returned need not maximise the objective |
| C57 | root 3 divides by zero on a well-formed instance: ZeroDivisionError (xrate.py:289) |
| C64_removes_larger_order | for a pair without the fee token the viability search compares the amounts of the last attempt in the fee-order loop (the chosen attempt is a deep copy, solver.py:373-377), so it can remove a large order and keep the one that pays too little |
| C67 | a json float (`Decimal`) in a part of the instance that is not rewritten, or an order id that is not a number, makes `dump_solution` raise after solving; the solution file is left incomplete |
| C71_position_matters | order ids are list positions compared as text ("10" < "9"), so one more unrelated order in front of the list changes which of two users with equal orders is served |
| C72_extra_order, C72_extra_balance | the price of the bought token maximises the objective of the artificial market order against the fee orders; it can be one at which the fee orders do not buy the whole imbalance (comment at solver.py:121-123 says otherwise), so rounding fails and nothing is written |
| C72_tiny_order | the numbers of fee orders are compared before rounding, and the loop stops at the first fall (solver.py:363-368); the attempt kept may be the only one that cannot be rounded |
| C74_open_question | the objective can have several local optima (it jumps up where a further order accepts the rate); xrate.py:399 and the document assume one, and the binary search may stop at the wrong one (C54) |
| C77_same_token | `token-pair B B` with orders that exchange B for itself: both books hold the same objects, `amount.py:138` fails |
| C79_wrong_fee | the disregarded utility uses only the denominator of the fee: with a fee of 3/1000 it counts orders that would lose by trading |
| C79_scaled | the disregarded utility is the utility missed divided by one minus the fee, not the utility missed (RationalTraits and StandardSolverIntegerTraits do not divide) |
| C81_not_inverted | called directly with the fee token second, the solver exchanges the tokens but not the given rate: the rate is applied to the opposite quotient (the command line excludes this order of tokens by an assert) |
| C82_not_with_thresholds | with a fee threshold an order may be executed while a large one of higher priority is not, because the search for a viable solution removed it (the instance of C64) |
| C83_default_finds_nothing | with the default `touched_only=False` the best pair may have a negative objective, so that a search using it would write nothing although two orders can be matched |
| C84_integer_objective_raises, C84_type_error | `compute_objective_integer` raises for every non-empty book: `balance_updated` is missing in the call of `compute_objective_term` |
| C86_rounding_depends | `round_solution` on two facing orders without a fee-paying order: the result depends on which maximum branching networkx returns; the programs never call it so |
| C87_ties_matter | swapping two equal orders of different users in the list changes who trades |
| C88_solver_test_can_fail | `test_solve_token_pair_and_fee_token` raises `AssertionError` (xrate.py:440) on a book within its generators' range |
| C88_average_fee_test_can_fail, C88_absolute_fee_test_can_fail | the two threshold tests raise `ValueError` on books within their generators' range |
| C88_rate_test_can_fail | on a book within its generators' range the grid of `test_find_best_xrate` has a better rate than the search |
| C88_rate_test_may_not_end | `test_find_best_xrate` loops for ever if the limits leave a single rate (step 0) |
| C89_more_orders_no_trade | adding two orders to an instance whose two orders trade can remove every trade: the rounding of the price counts accepting orders on both sides together and may exclude the only order of one side |
| C90_documented_root1 | data/token_pair-1-1-5.json, named at xrate.py:262 as example for root 1, has limits that do not cross after fees: nothing is executed |
| C91_different_texts | a balance written `1e21` or `100.0` is accepted when loading (`Fraction`) and refused by `validate` (`int`); `--xrate 1/0` ends in ZeroDivisionError, which argparse does not report as a usage error |
| C92_bool_witness | `true` as balance or amount is taken as 1 but written as `True`, which cannot be read |
| C93_fee_breaks_it | with a fee, exchanging the sides changes the amounts (the fee is taken in the token bought by the b_orders) |
| C94_minimum_matters | scaling amounts but not the minimum tradable amount changes which orders are executed |
| C95_run_not_monotone | an instance solved with MAX_NR_EXEC_ORDERS = 4 gets the trivial solution with 5: `compute_nr_f_orders_to_execute` starts with more fee orders when the repair of tiny amounts left a slot free (solver.py:150-185), and attempts are compared before rounding |
| C98 | `--log-rationals False` switches rational logging on (`type=bool`, match.py:41-46); `--xrate 1/0` ends with ZeroDivisionError, not a usage message; `--min-avg-fee-per-order -1/2` is rejected but `--min-avg-fee-per-order=-1/2` is read; options after the subcommand are rejected; without subcommand the program fails with AttributeError (match.py:92). |
| C99_more_offered_sells_less, C99_better_limit_sells_less, C99_program | one would expect that a better offer never sells less. With the minimum tradable amount it can: the amounts that can be exchanged have gaps on both sides, and moving an order's bounds can move the common amount into a gap (amount.py). |
| C100_repeated_account | RFC 8259 leaves the meaning of repeated names open; one would expect an instance that lists an account twice to be refused. It is accepted, and the balances listed first are lost (solver.py:main). |
| C103_instance_lost | `dump_solution` opens the solution file (which empties it) before `json.dump` can raise (api.py:98-99); if it is the instance file, the instance is lost. |
| C106_limit_exceeded | the solution file keeps the original limits: run again on its own output, the program executes an order beyond its sell amount |
| C108_below_minimum | the float division in the final check rounds up: a solution passes although its average fee is below the minimum |
| C109_fee_changed | a fee ratio with more than 15 digits is rounded when it is written: the solution file holds another fee than the one the solution was computed and checked with |
| C110_amount_wrong | without `--log-rationals` the line `Reducing max sell amount` (core/round.py:84-87) shows amounts above 2^53 wrongly: `%d` of a number that was converted to a double before |
| C113_occur | the other shape assertion of the binary search (xrate.py:439) fails too, on a valid instance with five orders and the default configuration: at the two highest rates only orders below the least amount are left and the objective is the same |
| C116_no_cross, C116_no_match_although_cross | "No matching orders between …" (token_pair_solver/solver.py:295) is not written when no two orders cross: pruning returns the empty solution before it (solver.py:268-272). It is written for orders that do cross, when the rate found executes none of them. |
| C117_comma, C117_only | The text of an order (core/order.py:139-147) does not tell orders of the same limits apart, and is ambiguous for token names with commas. |
| C118_more_time_fails | best_token_pair_solver/solver.py:116-127 has no handler around the evaluation of a pair: an exception at one pair loses the solution found for an earlier one, so a longer time limit can turn a run that writes a solution into one that writes none. |

## Validation of the model

None of this is part of a proof; it checks the reading of the source against data in the repository.

* `Verif/Props/Recorded.lean`: nine files in /repo/data hold a solution with its metrics. Volume, fees and touched orders computed by the
  model equal the recorded values exactly; the arithmetic of `StandardSolverIntegerTraits` gives the recorded utility and disregarded utility
  exactly (evaluated by the kernel). data/token_pair-2-1-1.json and data/token_pair-2-2-3.json hold the solution of another instance.
* `tools/validate/validate.py` evaluates the model on every instance of the end-to-end tests and of /repo/data, with a brute-force maximum
  branching and a correctly rounded square root. All assertions of the end-to-end tests hold of the model. On the data files, utility minus
  disregarded utility is not less than recorded, except for 2-2-3 (see above). `tools/validate/output.txt` is the output.
* data/token_pair-1-1-6.json claims that the minimum amount makes the search miss the optimum. With the present loading, which raises the
  buy amounts, the limits change and the search returns a root that no rate of a fine grid improves on. The program fails on the file, because
  its amounts are fractional (C39). This is an observation, not a theorem.

## Mutation testing

`seeded/run.py` applies one edit to a scratch copy of the model, recompiles every dependent module past its errors (failed proofs become
`sorry`) and reports which claimed theorems are missing or depend on `sorryAx` afterwards. Results are in `seeded/LOG.jsonl`.
Lines with `"failed": null` are inconclusive: a module did not finish compiling within the time limit, so it is not known which claimed
theorems reject the edit. Their note names the module, and the later line where the edit was run again, if there is one.

## Trusted base

* The Lean 4.33.0 kernel and the Mathlib version it is built with.
* Axioms: every theorem of MANIFEST.json depends on a subset of `propext`, `Classical.choice`, `Quot.sound`; C45_idempotent
  only on `propext`; C45_positions, C45_integral_fraction and C49_interval not on `Classical.choice`. No other axiom, no `sorry`,
  no `native_decide`, no `bv_decide`.
* The reading of the Python source as written down in `Verif/Model` (see the table above), and the parameters listed under
  "External behaviour".
