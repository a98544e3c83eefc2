"""Writes /verif/properties.jsonl. Run: python3 tools/gen_properties.py"""
import json, os
P = []
def p(id, title, statement, quantifier, why, *anchors):
    P.append(dict(id=id, title=title, statement=statement, quantifier=quantifier,
                  why_tests_cant=why, anchors=list(anchors)))

CO="dex_open_solver/core/"; TP="dex_open_solver/token_pair_solver/"; BP="dex_open_solver/best_token_pair_solver/"

# ---- loading -----------------------------------------------------------------------------
p("C01","Loaded orders never over-commit a balance",
  "After loading an instance with non-negative balances, for every account, sell token and buy token the sum of the maximum sell amounts of the loaded orders of that account selling that token for that buy token is at most the account's balance of the sell token.",
  "every list of orders and every assignment of non-negative balances (also missing accounts/tokens)",
  "the capping is a greedy fold over a sorted list of unbounded length; tests use a handful of accounts",
  CO+"orderbook.py:restrict_order_sell_amounts_by_balances", CO+"api.py:load_problem")
p("C02","Loading only caps or drops orders",
  "Loading keeps each order's identity, tokens, account and limit rate; it never invents or duplicates an order; every kept order has 0 < maximum sell amount <= the requested sell amount; an order is dropped only when its sell amount is zero or its account has no balance left for that token pair after higher-priority orders.",
  "every list of orders with distinct ids and non-negative sell amounts, every non-negative balance assignment",
  "needs all lists and all balances", CO+"orderbook.py:restrict_order_sell_amounts_by_balances")
p("C03","Loaded limit rate is never looser than the user's",
  "The limit exchange rate given to an order loaded from a dict is at most sellAmount/buyAmount for a positive buyAmount, and executing the order within it (sell <= rate * buy) implies sell * buyAmount <= buy * sellAmount.",
  "every sellAmount >= 0 and buyAmount >= 0, every executed amount pair",
  "rational arithmetic over all amounts", CO+"order.py:Order.load_from_dict")
p("C04","Execution priority is a deterministic total order",
  "Sorting orders by execution priority returns a permutation of the orders, ordered by decreasing limit rate, ties by decreasing maximum sell amount, ties by increasing id; for distinct ids the result does not depend on the order in which the orders are given.",
  "every list of orders; every permutation of it",
  "all lists and all permutations", CO+"orderbook.py:sorted_orders_by_exec_priority")
# ---- amounts ------------------------------------------------------------------------------
p("C05","Executing orders at a given rate never crashes or hangs",
  "For a positive exchange rate, a fee in [0,1), well-formed orders and a non-negative order limit, computing buy amounts terminates and raises no exception (no assertion, index or division error).",
  "every pair of finite order lists, rate, fee and order limit",
  "loops with undo steps; all five assertions must hold for every input", TP+"amount.py:compute_buy_amounts", TP+"amount.py:remove_buy_amount", TP+"amount.py:undo_order_execution_violating_min_tradable_amount_constraint")
p("C06","Execution balances the token pair exactly",
  "The executed amounts satisfy, exactly, total bought by b_orders * rate = total bought by s_orders * (1 - fee): the s-token sold by b_orders equals the s-token bought by s_orders.",
  "every pair of order lists, rate, fee, order limit","exact rational identity after arbitrarily many partial fills and undos",
  TP+"amount.py:compute_buy_amounts")
p("C07","Execution respects limit rates",
  "Every order with a positive executed amount accepts the rate: rate <= limit * (1 - fee) for b_orders and 1/rate <= limit * (1 - fee) for s_orders; its executed sell amount is at most limit * buy amount.",
  "every order in every input","for all inputs", TP+"amount.py:compute_buy_amounts")
p("C08","Execution respects maximum sell amounts",
  "No order is executed beyond its maximum sell amount and no executed amount is negative.",
  "every order in every input","for all inputs", TP+"amount.py:compute_buy_amounts")
p("C09","Execution respects the minimum tradable amount",
  "Every order with a positive executed amount buys and sells at least the (slack-increased) minimum tradable amount.",
  "every order in every input","undo loop must reach a fixpoint on every input", TP+"amount.py:compute_buy_amounts")
p("C10","Execution respects the order-count limit",
  "At most max_nr_exec_orders orders get a positive executed amount.",
  "every input and every limit >= 0","the main loop can overshoot by one and is repaired afterwards", TP+"amount.py:compute_buy_amounts")
p("C11","Execution follows priority",
  "On each side, if an order is executed then every eligible order of higher priority on that side is executed in full; so at most one order per side is partially filled.",
  "every input","structure of all fills after undo", TP+"amount.py:compute_buy_amounts")
p("C12","Greedy execution is optimal for a given rate",
  "For a fixed rate and price, no assignment of non-negative buy amounts to the eligible orders that respects maximum sell amounts and token balance has a larger objective value than the amounts computed, whenever the order-count limit and the minimum-tradable-amount repair do not bind.",
  "every input and every competing feasible assignment (uncountably many)","quantifies over all competing solutions", TP+"amount.py:compute_buy_amounts", TP+"orderbook.py:compute_objective_rational")
p("C13","Execution is a function of the static order data",
  "Computing buy amounts changes nothing but buy amounts, and the amounts it sets do not depend on buy amounts left over from earlier runs; running it twice gives the same result as once.",
  "every input and every stale state","all histories of earlier runs on the same order objects", TP+"amount.py:compute_buy_amounts")
# ---- xrate --------------------------------------------------------------------------------
p("C14","Pruning removes only unmatchable orders",
  "An order removed by pruning cannot trade with any counter-order at any rate both accept; after pruning either both sides are empty or both are non-empty; pruning twice equals pruning once.",
  "every pair of non-empty order lists with positive limit rates, fee in [0,1)","all counter-orders and all rates", TP+"orderbook.py:prune_unrealizable_orders")
p("C15","Rate intervals carry exactly the executable orders",
  "Each interval produced by the rate-interval iterator lists exactly the orders whose limit rate accepts every rate strictly inside the interval, both lists are non-empty, and the partial indices point into them. Conversely, for a rate accepted on both sides (next to the limit rate to which the search is restricted, if any), every way of filling one side against the whole other side at that rate is yielded.",
  "every pair of order lists and every interval produced","all sort orders and ties", TP+"xrate.py:xrate_interval_iterator")
p("C16","The rate search returns an attained maximum of its candidates",
  "When the rate search returns (rate, objective): the rate is positive, the objective is the value obtained by executing the pruned orders it evaluated at that rate, and it is at least the value found for the best limit rate and for every interval candidate examined.",
  "every input and every behaviour of floating-point sqrt","all inputs, arbitrary sqrt rounding", TP+"xrate.py:SymbolicSolver.solve", TP+"xrate.py:find_best_xrate")
p("C17","The limit-rate search finds the peak of a unimodal objective",
  "If the objective over the sorted distinct limit rates strictly increases up to some point and strictly decreases after it, the binary search raises no assertion, terminates and returns that point and its value. For any objective, the limit rate returned is at least as good as the limit rates next to it.",
  "every list of rates of any length and every strictly unimodal objective","all lengths and peak positions", TP+"xrate.py:SymbolicSolver.solve_trivial_bin_search")
p("C18","The rate search can abort on a valid order book",
  "It is NOT true that the rate search never raises: there is a well-formed order book (integer amounts, all orders individually loadable) on which it raises AssertionError because the objective has a plateau.",
  "existence (a negative result for 'never raises')","no test reaches the plateau", TP+"xrate.py:SymbolicSolver.solve_trivial_bin_search")
p("C19","The all-filled root balances the book",
  "At the rate given by the 'all orders fully filled' root, executing the partial and filled orders of the interval in full balances the pair exactly.",
  "every interval data with positive amounts","rational identity", TP+"xrate.py:SymbolicSolver.root5")
# ---- prices -------------------------------------------------------------------------------
p("C20","Integer price selection",
  "Rounding the second token's price picks floor or ceiling of the exact price, one that at least as many orders accept as the other, and raises ZeroDivisionError exactly when the floor is zero.",
  "every positive price and rate, every order lists","all inputs", TP+"solver.py:compute_s_buy_token_price")
p("C21","Fee-connection price is a positive-or-zero integer that the market order accepts when rounded up",
  "The price computed for the token connected to the fee token is an integer within one of fee-price/rate, and when the optimal rate is the market order's limit the rounded rate does not exceed that limit.",
  "every list of fee orders and imbalance","all inputs", TP+"price.py:compute_token_price_to_cover_imbalance")
p("C22","The artificial market order is matchable with every fee order",
  "For a fee with (1-fee)^2 >= 9/10 the market order created to sell the imbalance survives pruning against the fee orders together with all of them; its sell amount is at least the minimum tradable amount.",
  "every non-empty list of fee orders, every imbalance","all inputs", TP+"price.py:create_market_order", TP+"orderbook.py:prune_unrealizable_orders")
# ---- rounding -----------------------------------------------------------------------------
p("C23","Rounded amounts are integers on the uniform clearing price",
  "When rounding reports success, every executed amount is a non-negative integer and every sell amount is exactly floor(floor(buy*p_buy/(1-fee))/p_sell) at the final prices.",
  "every set of orders and integer prices","all inputs", CO+"round.py:round_solution")
p("C24","Rounding preserves order constraints",
  "If before rounding each executed order respects its limit at the clearing rate, its maximum sell amount and the slack-increased minimum tradable amount, then after rounding it respects its limit rate, its maximum sell amount and the minimum tradable amount.",
  "every feasible rational solution, also when rounding fails","all inputs", CO+"round.py:round_solution", CO+"round.py:round_leaf_token")
p("C25","Successful rounding balances every token except the fee token",
  "If rounding reports success, each non-fee token that is covered by the spanning tree has total sold equal to total bought; with a maximum branching rooted at the fee token on a token pair this is every non-fee token.",
  "every order set, price set and branching returned by the graph library","all trees", CO+"round.py:round_solution", CO+"round.py:compute_spanning_order_arborescence")
p("C26","Rounding terminates without lookup errors",
  "For any branching the graph library returns (in-degree at most one, acyclic, over priced tokens), rounding terminates and raises no index or key error.",
  "every finite branching, order list","all trees, any depth", CO+"round.py:round_solution")
p("C27","Collected fees are non-negative",
  "If all non-fee tokens are balanced, every order trades on the uniform clearing price with at least the minimum tradable sell amount, and fee * minimum tradable amount >= 1, then the fee token sold is at least the fee token bought.",
  "every solution","all solutions", CO+"round.py:round_solution", CO+"validation.py:validate")
p("C28","Rounding never changes which orders are executed",
  "An order is executed after rounding iff it was executed before (given the minimum tradable slack); so the number of executed orders does not change.",
  "every feasible rational solution","all inputs", CO+"round.py:round_solution")
p("C29","The rounding buffer is temporary and strictly reduces capacity",
  "Inside the buffer every positive maximum sell amount is strictly smaller (never negative); on leaving, every maximum sell amount has its previous value.",
  "every order lists, prices and rate","all inputs", TP+"round.py:rounding_buffer", CO+"round.py:setup_rounding_buffer")
# ---- validation / solver ------------------------------------------------------------------
p("C30","The final check accepts exactly the feasible solutions",
  "The final validation raises no exception if and only if the solution satisfies the auction rules: integer prices, order-count limit, limit rates, maximum sell amounts, minimum tradable amounts, non-fee tokens balanced, fee token not over-bought, fee thresholds, and no negative account balance.",
  "every solution, accounts, fee and prices covering the orders' tokens","iff over all solutions", CO+"validation.py:validate")
p("C31","Whatever the solver returns is feasible",
  "Any (orders, prices) returned by the token-pair solver for any input, economic parameters and rate satisfies all auction rules of C30; otherwise the solver raised.",
  "every input for which the solver returns","all inputs", TP+"solver.py:solve_token_pair_and_fee_token_economic_viable")
p("C32","The solver's own result never fails the final check under default economics",
  "For an instance loaded with non-negative integer balances, with zero fee thresholds and fee * minimum tradable amount >= 1, whenever the matching step returns a solution the final validation succeeds.",
  "every loaded instance and token pair, arbitrary sqrt and any maximum branching","end-to-end over all inputs", TP+"solver.py:solve_token_pair_and_fee_token", CO+"validation.py:validate")
p("C33","Viability pre-check and final check disagree",
  "It is NOT true that a solution accepted by the economic-viability check always passes the final check: the first uses volume*fee, the second the collected fee balance, and a concrete balanced solution is accepted by the first and rejected by the second. They agree when every executed sell amount is at least 1/fee^2.",
  "existence, and every solution with large amounts","needs amounts near the threshold", CO+"orderbook.py:is_economic_viable", CO+"validation.py:validate")
p("C34","The economic-viability search terminates",
  "The search for an economically viable solution removes one order per round and stops after at most (number of b_orders + s_orders) rounds.",
  "every input","all inputs", TP+"solver.py:solve_token_pair_and_fee_token_economic_viable")
p("C35","One-sided order books crash the token-pair solver",
  "It is NOT true that the token-pair solver always returns: if exactly one of the two order lists is empty it raises ValueError (max of an empty sequence).",
  "every input with exactly one empty side","a whole family of inputs", TP+"solver.py:solve_token_pair_and_fee_token_economic_viable", TP+"orderbook.py:prune_unrealizable_orders")
p("C36","Updated balances",
  "Updating accounts adds to each account exactly what its orders bought and subtracts exactly what they sold, token by token, and leaves every other balance alone; after a validated solution no balance of a traded token is negative.",
  "every account map and order list","all histories of orders over shared accounts", CO+"orderbook.py:update_accounts")
p("C37","Value conservation of accounts",
  "Over all accounts, the total balance of each token changes by (bought - sold) of that token; for a validated solution non-fee totals are unchanged and the fee-token total does not increase.",
  "every validated solution over any finite set of accounts","all solutions", CO+"orderbook.py:update_accounts", CO+"validation.py:validate")
# ---- metrics ------------------------------------------------------------------------------
p("C38","Disregarded utility of a feasible solution is non-negative",
  "In the reported metrics of a feasible solution, no order's utility exceeds its maximum utility, so utility_disreg_touched >= 0 and the warning path (which would raise AttributeError) is never taken.",
  "every feasible solution, fee with denominator >= 2","one e2e instance is tested; claim is for all", CO+"orderbook.py:compute_solution_metrics", CO+"order_util.py:SmartContractTraits")
p("C39","Integer utility equals the exact rounding formula",
  "The integer utility of an order equals buy*p - floor(sell*minbuy*p/maxsell); it is non-negative for an order that respects its limit, and within one unit above the exact utility.",
  "every order and integer price","all amounts", CO+"order_util.py:SmartContractTraits.compute_utility_term")
p("C40","Reported metrics add up",
  "In the reported metrics: fees is the fee token sold minus bought, orders_touched is the number of orders with positive sell amount, volume is the sum of sell amount times price.",
  "every solution with orders between distinct tokens","all inputs", CO+"orderbook.py:compute_solution_metrics")
# ---- best pair ----------------------------------------------------------------------------
p("C41","Candidate token pairs are sound and complete",
  "For orders between different tokens the candidate list has no duplicates. A pair is a candidate exactly when its tokens differ, the second occurs in the book, is not the fee token, and the first is the fee token or is bought with the fee token by some order. Matching a pair that is neither a candidate nor the reverse of one immediately returns the trivial solution.",
  "every order list","all books", BP+"solver.py:eligible_token_pairs", BP+"solver.py:match_token_pair")
p("C42","Best-pair search returns the best evaluated solution",
  "For every order in which pairs are visited and every point at which the time limit stops the search, the returned solution is either trivial or has a positive objective, and its objective is at least that of every pair evaluated.",
  "every shuffle and every cut-off point","schedules: shuffle and clock", BP+"solver.py:main")
p("C43","Best-pair result does not depend on the shuffle",
  "With no time limit, two orders of visiting the pairs for which the search succeeds give the same best objective, although pairs are evaluated on shared, mutated order objects. With zero fee thresholds the search succeeds for one order of visits iff it does for another.",
  "every pair of permutations of the candidate pairs","all permutations and the mutated state between evaluations", BP+"solver.py:main", BP+"solver.py:match_token_pair")
# ---- output -------------------------------------------------------------------------------
p("C44","The dumped solution",
  "The dumped solution lists exactly the orders with positive sell amount, each once and attached to its own original order, with the executed amounts of the solution; and each respects the user's original amounts: execSell <= sellAmount and execSell*buyAmount <= execBuy*sellAmount.",
  "every instance and feasible solution","end-to-end over all inputs", CO+"api.py:dump_solution")
p("C45","Numeric stringification",
  "Stringifying a nested value turns exactly the integer/fraction leaves into their decimal text, keeps every other leaf, all keys, lengths and nesting, and is idempotent.",
  "every nested value of any depth","all depths", CO+"util.py:stringify_numeric", CO+"util.py:transform")
p("C46","Tokens connected to the fee token",
  "The connected-token set is exactly the set of tokens reachable from the fee token over orders between tokens that are both bought and sold (or are the fee token); the search terminates.",
  "every order list, every iteration order of Python sets","graphs of any size; set order", CO+"orderbook.py:compute_connected_tokens")
p("C47","Approximate viable subset",
  "With a fee threshold the subset uses each order at most once and keeps only executed orders paying the absolute fee (or selling the fee token). It is a prefix, by decreasing volume, ending at the first prefix whose average fee is too low. It is empty or contains two bought tokens, and no viable choice of paying orders is longer unless it is empty. It is NOT an over-approximation: it can be empty although a two-token choice meets both thresholds, and it can itself miss the average threshold.",
  "every solution and thresholds","all inputs", CO+"orderbook.py:compute_approx_economic_viable_subset")
p("C48","Rational utilities",
  "With exact arithmetic, an order's utility is non-negative iff (for positive amounts) the rate respects its limit net of fee, and never exceeds its maximum utility when it sells at most its maximum.",
  "every order, rate, fee","all rationals", CO+"order_util.py:RationalTraits")
p("C49","Number of fee orders to try",
  "The interval of fee-order counts to try always starts at 1 or more, never exceeds the number of fee orders nor the order-count limit minus two, and trying n of them leaves room so that b, s and fee orders together stay within the order-count limit.",
  "every input","all counts", TP+"solver.py:compute_nr_f_orders_to_execute", TP+"solver.py:solve_token_pair_and_fee_token_given_exec_f_orders")
p("C50","Zero fee or tiny price crash paths",
  "It is NOT true that pricing always succeeds: price selection raises ZeroDivisionError for every rate larger than the first token's price, and evaluating metrics with a zero fee raises ZeroDivisionError.",
  "every rate above the price; every priced order with zero fee","families of inputs", TP+"solver.py:compute_s_buy_token_price", CO+"order_util.py:SmartContractTraits.compute_disregarded_utility_term")
p("C51","A fee threshold can crash the solver",
  "It is NOT true that the solver always returns a solution or reports none on well-formed instances: with a minimum average fee, an instance with one order per side makes both the single-pair and the best-pair command raise ValueError.",
  "a concrete instance with every maximum-branching function","interaction of pruning, viability removal and re-solving", CO+"orderbook.py:compute_approx_economic_viable_subset", TP+"solver.py:solve_token_pair_and_fee_token_economic_viable")
p("C52","Candidate rates maximise the objective of their fill pattern",
  "If all s_orders of an interval are filled (against b_orders filled best limit first), root 4 is the best rate for that pattern: no other rate accepted by the orders gives it a larger objective. If all b_orders are filled, root 3 is the best rate.",
  "every interval, fee and rate; square root exact on its argument","an optimum over all rational rates", TP+"xrate.py:SymbolicSolver.root3", TP+"xrate.py:SymbolicSolver.root4", TP+"xrate.py:SymbolicSolver.compute_constants")
p("C53","The rate found is optimal around the limit rate found",
  "If at the rates the search evaluates only the orders' limits restrict the execution (no minimum-amount or order-count restriction binds), the returned objective is at least the value of the whole book at every rate between the limit rates next to the one found by the binary search, up to delta^2 * (total b sell / rate + 4 * total s sell) for a square root of relative error delta.",
  "every order book, every rate in the two neighbouring intervals","an optimum over a continuum of rates", TP+"xrate.py:SymbolicSolver.solve", TP+"xrate.py:SymbolicSolver.collect_local_optima_within_interval")
p("C54","The rate found need not be globally optimal",
  "It is NOT true that the rate search maximises the objective over all rates: on a sane book of five orders the value of one order's limit rate exceeds the returned value.",
  "a concrete book","the search is greedy over a non-unimodal objective", TP+"xrate.py:SymbolicSolver.solve_trivial_bin_search", TP+"xrate.py:find_best_xrate")
p("C55","Which exceptions the solvers can raise",
  "On a well-formed instance without fee thresholds, with 9/10 <= (1-fee)^2 and for every shuffle and time-out, every exception of the two solver commands is a ZeroDivisionError, one of the two shape assertions of the binary search, or an exception of the square root on a non-negative number: no other assertion (including the final validation), lookup or conversion fails. With any thresholds the pair search can additionally only raise ValueError. With a given rate not above the fee-token price on a pair containing the fee token, the solver never raises.",
  "every instance, pair, shuffle, maximum branching and square root","absence of exceptions over all inputs", TP+"solver.py:main", BP+"solver.py:main", TP+"xrate.py:find_best_xrate", CO+"validation.py:validate")
p("C56","The rate search aborts only on an exact tie",
  "If the rate search on a book with a matchable pair fails an assertion, it is one of the two slope-shape assertions of the binary search, at least four orders are left after pruning, and two neighbouring limit rates of the pruned book have exactly equal objective value (or the square root itself failed).",
  "every book, fee and square root","characterises all failing inputs", TP+"xrate.py:SymbolicSolver.solve_trivial_bin_search", TP+"xrate.py:find_best_xrate")
p("C57","The rate search can divide by zero",
  "It is NOT true that the rate search always returns a rate on a well-formed book: on an instance with two orders on one side and one on the other the denominator of root 3 is zero, and the search and the token-pair solver raise ZeroDivisionError whatever the square root returns.",
  "a concrete instance with every square root defined on non-negative numbers","needs amounts solving a Diophantine equation", TP+"xrate.py:SymbolicSolver.root3", TP+"solver.py:main")
p("C58","Execution at a rate takes the greatest admissible volume",
  "Call a volume admissible if both sides' eligible orders can supply it and filling both sides by priority up to it executes at most the allowed number of orders and none below the minimum tradable amount. The amount exchanged by compute_buy_amounts is admissible and no admissible volume is larger, also when the order limit or the minimum tradable amount binds; this determines the result completely, and something is executed exactly if a positive volume is admissible.",
  "every rate, fee, order limit, order lists and competing volume","quantifies over all volumes; the admissible set is not an interval", TP+"amount.py:compute_buy_amounts", TP+"amount.py:undo_order_pair_execution", TP+"amount.py:undo_order_execution_violating_min_tradable_amount_constraint")
p("C59","Rounding gives up only when there is no room",
  "If round_solution reports failure on an exact feasible solution, some token of the branching is out of balance in the returned orders and no executed order buying it for its parent token could take the imbalance within its maximum sell amount and the minimum tradable amounts. For a pair with the fee token rounding succeeds whenever some order buying the other token can take the imbalance left by the floors, in particular whenever one such order has slack proportional to the numbers of executed orders.",
  "all feasible exact solutions, prices and branchings","failure of rounding is rare and depends on all fractional parts", CO+"round.py:round_solution", CO+"round.py:round_leaf_token")
p("C60","Choice of the number of fee orders",
  "For a pair without the fee token, a returned solution is trivial if no two orders can trade, if the greatest volume at the rate is zero, or if there are no fee orders or fewer than three orders may be executed. Otherwise the admissible numbers of fee orders are tried in increasing order from the same exact fills; attempts without a price are skipped; the search goes on while the objective does not fall and stops at the first fall. The solution is the rounding of the attempt so chosen, with prices of the fee token, the first token, and the second token at the rate of the attempt; it is trivial if no attempt gives a price.",
  "all pairs without the fee token, all order lists, all rates given or found","the choice only matters when the limit on executed orders is tight", TP+"solver.py:solve_token_pair_and_fee_token")
p("C61","Exact outcome for a pair with the fee token",
  "For a pair with the fee token (in either position) a returned solution is trivial if no two orders can trade. Otherwise it is determined by the orders that can trade with some other: the given or found rate, an integer price of the other token for it, and the greatest admissible volume at the integer prices; it is trivial if that volume is zero and otherwise the rounding of the exact fills at that volume. If one order buying the other token has slack (C59) the solution executes orders.",
  "all pairs with the fee token, all order lists","a solver that returns the trivial solution, or a smaller volume, passes every feasibility check", TP+"solver.py:solve_token_pair_and_fee_token")
p("C62","Exact result of an attempt with a number of fee orders",
  "An attempt with n fee orders uses the first n in execution priority; the price of the first token covers the imbalance; the fee orders are filled with greatest volume against a market order for the imbalance; if that volume is zero there is no price; otherwise the matched orders, with maximum sell amounts lowered by the rounding buffers, are filled with greatest volume at the rate of integer prices within the orders left by the limit, and the objective is that of these amounts.",
  "all imbalances, rates and order lists, all n within the limit","intermediate result, not visible in the solution file", TP+"solver.py:solve_token_pair_and_fee_token_given_exec_f_orders", TP+"solver.py:solve_b_buy_token_and_fee_token")
p("C63","The search for an economically viable solution",
  "The solution returned by the search is the outcome of this run: solve the pair for the current orders, not executed before; return the solution if it is trivial or meets the fee thresholds; return the trivial solution if no subset of its orders looks viable; otherwise remove one executed order, the first with the least buy amount on the side where that amount is worth less (on a tie the second side), and start again. The run has at most one outcome, and a non-trivial outcome that passes validation is always returned. Amounts left on order objects by earlier rounds never influence the result. For a pair with the fee token the amounts compared are those of the solution just computed.",
  "all order lists, thresholds, rates given or found, tokens in either position","amounts left behind by earlier rounds are invisible in most runs", TP+"solver.py:solve_token_pair_and_fee_token_economic_viable")
p("C64","The order removed need not be the one paying the least fee",
  "It is NOT true that the search removes the order paying the least fee, as its comment says: for a pair without the fee token it compares the amounts of the last attempt made, not of the chosen one. On a concrete instance the only order missing the minimum fee is kept and one worth three hundred times more is removed; leaving out the small order beforehand gives a viable solution with more volume, utility and fees.",
  "a concrete instance","needs a binding order limit, a rejected last attempt and a threshold at once", TP+"solver.py:solve_token_pair_and_fee_token_economic_viable", TP+"solver.py:solve_token_pair_and_fee_token")
p("C65","The solution file holds exactly the solution",
  "From the parsed instance json to the value given to json.dump, for both solvers: if a run succeeds then the solver ran on the numbers of the instance, its solution is correct (C44), and the file holds that solution. Prices, objective values, new balances and executed amounts are decimal text; the touched orders are the order objects of the instance, each once, with the order id as an integer and the other fields as in the instance with numbers as text; balances no order mentions and all other keys are as in the instance; no Decimal is left. The value main returns has the same keys with numbers instead of text, and no solver entry.",
  "all instance json values, all solutions, all conversions Fraction/int that are right on integers","json values are nested without bound", CO+"api.py:dump_solution", CO+"api.py:load_problem", CO+"util.py:stringify_numeric", TP+"solver.py:main", BP+"solver.py:main")
p("C66","A solution is always written for a writable instance",
  "If no json float other than the fee ratio occurs in the instance and every order id is a number, then a solution file is written exactly when the solver succeeds on the numbers of the instance, and otherwise the run raises the exception of the solver: dumping adds no failure of its own.",
  "all instance json values meeting the condition","needs all shapes of json and all solver outcomes", CO+"api.py:dump_solution", TP+"solver.py:main", BP+"solver.py:main")
p("C67","A json float elsewhere in the instance makes the run fail after solving",
  "It is NOT true that the rest of the instance does not matter: a json float (read as Decimal) in any key the solver does not use, in a field of an executed order, or as a balance no order mentions makes writing the solution raise TypeError, although the instance is solved; so does an order id that is not a number. Shown for all such instances, and on concrete ones.",
  "all instance json values; concrete instances","the test instances hold no float besides the fee ratio", CO+"api.py:dump_solution", CO+"util.py:stringify_numeric")
p("C68","What the two objectives are",
  "The objective the rate search and the choice of fee orders compare is, exactly: the sum over all orders of twice the utility minus the greatest possible utility at the given rate and price, plus half of the fees collected, in fee tokens. The objective that ranks token pairs is the sum over the executed orders of the integer utility minus the utility they were denied.",
  "all order lists, rates, prices, fees below one, accounts","closed forms over unbounded lists", TP+"orderbook.py:compute_objective_rational", TP+"orderbook.py:compute_objective_for_orders", CO+"orderbook.py:compute_objective")
p("C69","The command over all pairs is at least as good as the command for any pair",
  "Call the reported utility minus the reported disregarded utility of touched orders the worth of a solution file. The worth of what the best-token-pair command writes is never negative, and zero exactly when no order is executed. On the same instance, for every pair visited before the time-out, and without time-out for every pair of tokens at all, the token-pair command without a given rate writes nothing of greater worth.",
  "all instances, shuffles, time-outs, thresholds and external functions","relates two commands on all instances and all orders of visits; order objects are shared between evaluations", BP+"solver.py:main", TP+"solver.py:main", CO+"orderbook.py:compute_solution_metrics")
p("C70","The options of the command line",
  "Whatever the subcommand, shuffle and clock, a written solution is correct for the instance and meets the thresholds given: every executed order not selling the fee token pays at least the minimum absolute fee (which is the minimum average fee when not given), and the fees divided by the number of executed orders, as computed in floating point, are at least the minimum average fee. With a time limit the first pair is always evaluated and each next one exactly when the limit had not passed after the one before: the result is worth at least that of every pair so evaluated, and equals the result over the list cut off there. Without a subcommand the program fails.",
  "all instances, arguments, shuffles, clocks and external functions","tests run single option values; the clock and the shuffle are not controlled", "dex_open_solver/match.py:main", BP+"solver.py:main", TP+"solver.py:main")
p("C71","Orders that do not concern a pair have no influence",
  "Take two instances with the same accounts and fee whose orders on one of the sides of a pair, or buying its first token for the fee token, are the same at the same positions; all other orders may differ in content and number. Then the token-pair command has exactly the same outcome on both, solution or exception. If orders are appended that each have a token occurring nowhere in the instance, the best-token-pair command (without time-out) does not get worse. But positions matter: one more unrelated order in front can decide which of two users with equal orders is served, because order ids are positions compared as text.",
  "all pairs of instances, rates, thresholds, shuffles and external functions","relates two runs on arbitrary instances (hyperproperty)", CO+"orderbook.py:restrict_order_sell_amounts_by_balances", TP+"api.py:load_problem", TP+"solver.py:main", BP+"solver.py:main")
p("C72","One more order can destroy the solution",
  "It is NOT true that the price of the bought token is always such that the fee imbalance can be sold, as the comments say, nor that offering more to the solver cannot make it fail. On a concrete solved instance, appending one order that pays more of the fee token, or giving a user a positive balance, makes the token-pair command write the trivial solution, although the solution of the smaller instance is a correct one of positive worth. When the maximum number of orders binds, an order buying a thousandth of a token does it.",
  "concrete instances with the default configuration (and one with a limit of four orders), square root rounded as in Python","relates two runs; the price found on the small market is not checked against the imbalance", TP+"price.py:compute_token_price_to_cover_imbalance", TP+"solver.py:solve_b_buy_token_and_fee_token", TP+"solver.py:solve_token_pair_and_fee_token", TP+"solver.py:main")
p("C73","When rounding succeeds and when it fails, for a pair without the fee token",
  "For a pair without the fee token, let an exact solution be balanced in the second token. If one order that buys the second token and one order that pays with the fee token keep explicit slacks to their bounds (a few units per executed order, plus the fees to be covered), integer rounding succeeds, and an attempt of the solver with this exact solution gives a solution that executes orders. If the executed orders that pay with the fee token could not take, up to such rounding errors, the fees collected in the first token even when selling everything they offer, rounding fails and the attempt gives the trivial solution.",
  "all exact feasible solutions of three tokens at integer prices; all attempts of the solver on well-formed books; all largest branchings","success depends on accumulated floors over all orders; failure is observed only as an empty solution", CO+"round.py:round_solution", CO+"round.py:round_leaf_token", TP+"solver.py:solve_token_pair_and_fee_token_given_exec_f_orders", TP+"solver.py:solve_token_pair_and_fee_token")
p("C74","The claims of the project's description of the algorithm",
  "What doc/token_pair/token_pair.lyx says of the solver's amounts holds of the code, side constraints and fee included: at any rate at most one order of the pair is partially filled, at least one executed order is filled if anything is executed, the rate then lies between the lowest rate an s_order accepts and the highest rate a b_order accepts, and the b_orders buy what the s_orders sell times (1 - fee) squared. Its open question (and the assumption of the code) that the objective has exactly one local optimum is answered in the negative, by a book without fee and without active side constraints.",
  "all books, rates, fees < 1 and limits; one concrete book for the negative claim","needs the greedy fill of both sides at once; the document says the authors saw no counterexample in the instances they inspected", TP+"amount.py:compute_buy_amounts", TP+"xrate.py:SymbolicSolver.solve_trivial_bin_search")

p("C75","How much work the rate search does",
  "The binary search over n <= 2^k + 2 limit rates runs at most k times and depends on the objective at no more than 6k + 5 of the rates, whatever the objective is. Given the best limit rate x, the interval iterator yields at most 3 m n cases, where n is the number of orders and m the number of orders with limit rate x; in each case at most three rates are tried.",
  "all objectives (exceptions included), all lists of rates, all books","tests measure times of single runs; the bound is for all objectives", TP+"xrate.py:SymbolicSolver.solve_trivial_bin_search", TP+"xrate.py:xrate_interval_iterator", TP+"xrate.py:SymbolicSolver.collect_local_optima_within_interval")
p("C76","Matching in place does what the value model says",
  "Order objects are shared between lists and changed by assignment. Called on two lists of references to order objects (no object twice, ids distinct within a list), compute_buy_amounts leaves in these objects exactly the amounts that the model on lists of values computes, or raises the same exception. Objects that are in neither list are not changed, and of those that are nothing but the buy amount.",
  "all heaps of order objects, all lists of references, rates, fees, limits","an unwanted write through an alias shows only in particular sequences of operations", TP+"amount.py:compute_buy_amounts", TP+"amount.py:execute_order_pair", TP+"amount.py:remove_buy_amount")
p("C77","Sharing of mutable orders never shows in the output",
  "Run on order objects that are shared between the book of the whole instance, the books of the pair and the deep copies of the best solution so far, with attributes changed by assignment, memoised objective values and intervals generated while their consumer changes the orders, both programs write the same solution as if lists of orders were values; one raises exactly when the other does, and it is the same exception if the fee is below 1 and no amount is negative. For the token-pair solver the two tokens must differ: named the same token twice, the two books are the same objects and the program can fail an assertion.",
  "all instances, pairs of distinct tokens, given rates, visiting orders of eligible pairs, cut-offs, cache sizes, initial memories","a stale or doubly written object shows only for particular sequences of pairs", TP+"solver.py:solve_token_pair_and_fee_token_economic_viable", BP+"solver.py:main", CO+"orderbook.py:restrict_order_sell_amounts_by_balances", TP+"xrate.py:find_best_xrate", TP+"round.py:rounding_buffer")
p("C78","How far rounding moves the amounts",
  "Rounding moves all amounts bought of one token in the same direction, none of them by more than the total change of that token, and only rounds down amounts of the fee token. For a pair with the fee token, each amount of the other token ends less than 1 + nb (k + 1) below and at most ns above its exact fill (nb, ns executed orders on the two sides, k the exact amount sold per fee token), and the output's volume is at most the greatest volume t tradable at its prices and at least t - nb (k + 1); similar bounds hold for the three kinds of orders of a pair without the fee token.",
  "all orders, prices and maximum branchings; all runs of the matching of a pair with the fee token","the displacement depends on all remainders together; a test sees one case", CO+"round.py:round_solution", CO+"round.py:round_leaf_token", TP+"solver.py:solve_token_pair_and_fee_token")
p("C79","The disregarded utility assumes a fee of one over an integer",
  "The disregarded utility of an order is, up to less than one unit, the utility its unsold rest would gain at the prices with the fee 1/d divided by 1 - 1/d, where d is the denominator of the fee; so for a fee of one over an integer it is the utility missed at the fee divided by one minus the fee, and it is zero for an order that cannot gain at the prices. For a fee of 3/1000 the reported disregarded utility counts orders that would lose by trading, and even for a fee of 1/1000 it exceeds the utility missed by more than rounding.",
  "all orders, positive integer prices, balances and fees whose denominator is at least 2","the usual test fee is 1/1000, for which the shortcut in the formula cannot be seen", CO+"order_util.py:SmartContractTraits.compute_disregarded_utility_term", CO+"orderbook.py:compute_solution_metrics")
p("C80","The two integer arithmetics agree up to one unit",
  "On orders with an unrestricted maximum and an integer bought amount, the utility computed by StandardSolverIntegerTraits equals the one of SmartContractTraits or is one unit less, and the exact utility lies between them; its maximum utility is, up to less than one unit, what the order would gain by selling all it can at the prices and the fee 1/d.",
  "all orders, positive integer prices, balances and fees below one","the class is not used by the programs and has no tests", CO+"order_util.py:StandardSolverIntegerTraits", CO+"order_util.py:SmartContractTraits")
p("C81","A given exchange rate is honoured",
  "If the user gives a rate x with token-pair T U --xrate x, then the prices written are none at all or integers such that the price of U is less than one unit away from the price of T divided by x; for positive x and price of U, the rate of the prices differs from x by less than x divided by that price. If x is not positive, no order is executed, no price is written and the balances are unchanged. When the solver is called directly with the fee token second, the given rate is taken for the reciprocal one.",
  "all instances, pairs of two tokens, rates, minima and external results","every test of the programs passes xrate=None", TP+"solver.py:solve_token_pair_and_fee_token", TP+"solver.py:solve_token_pair", TP+"solver.py:compute_s_buy_token_price", TP+"solver.py:main")
p("C82","No queue jumping in the final solution",
  "Priority is kept through matching and rounding. If the final solution executes an order, it also executes every order of the same list (same buy and sell token) with higher priority that, at the prices of the solution, could trade the minimum amounts after lowering its maximum sell amount by the rounding buffer of its list. The buffer is zero for a pair with the fee token and for the orders that buy the first token with the fee token. For a pair whose first token is the fee token, a higher-priority order of that kind that buys the fee token buys all it can, rounded down. This holds for one matching, for the search for a viable solution among the orders it has left, and for the token-pair program and the program over all pairs (any shuffle and time-out) when no fee thresholds are set. With a fee threshold it fails: the search may remove an order of higher priority.",
  "all instances, pairs of two tokens, rates and external results","C11 speaks about one list before rounding; the tests do not compare executed orders with those left out", TP+"solver.py:solve_token_pair_and_fee_token", TP+"amount.py:compute_buy_amounts", TP+"orderbook.py:prune_unrealizable_orders", TP+"solver.py:main")
p("C83","Evaluating a pair with the default argument",
  "match_token_pair_and_evaluate called with its default touched_only=False and with True returns the same solution and the same orders, or raises the same exception. The default's objective is smaller by what the orders that are not executed were denied, so never greater. In terms of the solution written: with True the objective is utility minus utility_disreg_touched, with False it is utility minus utility_disreg. The flag matters: on some instance the program writes a solution with two executed orders although every eligible pair has a negative objective with the default.",
  "all instances, pairs of two tokens and states of the order objects that the search can reach","main always passes True and no test calls the function", BP+"solver.py:match_token_pair_and_evaluate", CO+"orderbook.py:compute_objective", CO+"orderbook.py:compute_solution_metrics")
p("C84","The integer variants of imbalance and objective",
  "compute_b_buy_token_imbalance with its default IntegerTraits, at integer prices, returns what the orders of the second side sell at the clearing price, each rounded down, minus what the orders of the first side buy. It is at most the value that RationalTraits gives, and less than it by less than one unit per executed order of the second side. For orders on the clearing price that balance the first token it is what the orders selling the fee token buy of it. compute_objective_integer returns 0 without orders and raises on every other input, because the term of an order is asked for without balance_updated: TypeError if the first order can be evaluated.",
  "all order lists, integer prices and fees below 1; for the exceptions all arguments","neither is called by the programs with IntegerTraits, and no test calls compute_objective_integer", TP+"orderbook.py:compute_b_buy_token_imbalance", TP+"orderbook.py:compute_objective_integer", TP+"orderbook.py:compute_objective", TP+"orderbook.py:compute_objective_for_orders", CO+"order_util.py:BaseTraits.compute_objective_term")
p("C85","The programs do not look at names",
  "Renaming the tokens and the accounts of an instance (different ones stay different), and of the requested pair, renames the result of the token-pair solver and changes nothing else: the same amounts, prices and metrics are reported, and if one run raises an exception the other raises the same. The graph library has to choose the corresponding edges. The same holds for the search over all pairs if the pairs are visited in the corresponding order. If only accounts are renamed, nothing is asked of the graph library.",
  "all instances, pairs, rates, configurations, external functions and injective renamings","a relation between two runs, for every renaming; a test compares one run with one expected file", TP+"solver.py:main", BP+"solver.py:main", CO+"api.py:load_problem", CO+"api.py:dump_solution", CO+"round.py:round_solution", CO+"orderbook.py:restrict_order_sell_amounts_by_balances")
p("C86","The outcome does not depend on the choice among maximum branchings",
  "compute_spanning_order_arborescence asks networkx for a maximum branching, which need not be unique. Both programs nevertheless give the same result, or raise the same exception, whichever maximum branchings are returned: the orders that the matching hands to the rounding leave no choice that matters. With C85, renaming tokens and accounts renames the result and changes nothing else, whichever maximum branchings are returned before and after. round_solution as such does depend on the choice.",
  "all good instances, pairs, rates, configurations, thresholds, shuffles, time-outs and pairs of functions returning maximum branchings","a test runs with the branchings of one version of networkx", CO+"round.py:compute_spanning_order_arborescence", CO+"round.py:round_solution", TP+"solver.py:main", BP+"solver.py:main")
p("C87","The order of the list of orders matters only between orders of equal tokens and limit rate",
  "If the orders of an instance are moved to other positions, and orders with equal tokens and equal limit rate keep the order of their positions (as text), then both programs report the same prices, balances and metrics and the same orders with the same amounts (possibly listed in another order), or raise the same exception. For one pair only the orders concerning the pair count; the others may be anything. In particular the orders may be listed in any order if no two have the same tokens and limit rate. For the search over all pairs, the candidate pairs are the same as well. Swapping two equal orders of different users does change who trades.",
  "all instances with nonnegative balances and sell amounts, all rearrangements, pairs, rates, configurations, external functions, shuffles and time-outs","a test tries a few of the rearrangements of a few books", CO+"orderbook.py:sorted_orders_by_exec_priority", CO+"api.py:load_problem", TP+"solver.py:main", BP+"solver.py:main")
p("C88","What the project's own property-based unit tests assert, for all inputs of their generators",
  "test_compute_buy_amounts_small passes on every input of its generators, and for any rate, positive number of orders and size of amounts. test_solve_token_pair_and_fee_token raises nothing on any input of its generators but what the rate search can raise; with fee thresholds (the two other solver tests) additionally ValueError or one of the two threshold assertions of the final check. If the limits leave more than one rate, test_find_best_xrate ends within 102 rounds and fails only in its comparison or in the search. Each of the last four can fail on an input of its generators (witnesses), and test_find_best_xrate does not end when the limits leave a single rate.",
  "all lists of one to four orders of the generators, all rates and limits of the generators, all external functions","the tests sample at most a few hundred inputs and pass on those", "tests/unit/amount_test.py:compute_buy_amounts_helper", "tests/unit/xrate_test.py:test_find_best_xrate", "tests/unit/solver_test.py:solve_token_pair_and_fee_token_helper", "tests/unit/strategies.py:random_order_list")
p("C89","Two users whose limits cross trade (end-to-end test has-non-trivial-solution)",
  "If the orders on a pair with the fee token are two orders in opposite directions, the integer price of the other token has at least one unit of room between the two limits, and both orders are large (beyond the minimum amount and the rounding), then the solver for the pair, without fee thresholds, writes a solution with both orders executed with positive amounts, unless the rate search fails. With more orders this is false: two further orders can remove every trade (witness).",
  "all instances with such a pair (both positions of the fee token for the matching itself), all external functions","the test runs one instance", "tests/e2e/token-pair/has-non-trival-solution/has_non_trivial_solution_test.py:test_has_non_trivial_solution", TP+"solver.py:compute_s_buy_token_price", TP+"solver.py:solve_token_pair_and_fee_token", TP+"solver.py:main")
p("C90","Without two orders whose limits cross, the programs write the empty solution (end-to-end tests has-trivial-solution)",
  "If there are orders in both directions of the pair but no two of them have limits that cross after the fee is taken twice (buy amounts raised to the minimum tradable amount), the command for the pair succeeds and writes no orders, no prices, the accounts of the instance and zero metrics. If no two orders of the instance cross, the command over all pairs does the same, for every order of visiting the pairs. The instance the source names as example for root 1 is such an instance.",
  "all instances with valid amounts and balances, all fee thresholds, all rate options, all external functions, all orders of visiting the pairs","the tests run three instances", "tests/e2e/best-token-pair/has-trival-solution/has_trivial_solution_2_test.py:test_has_trivial_solution", TP+"solver.py:solve_token_pair_and_fee_token", TP+"solver.py:main", BP+"solver.py:main")
p("C91","Amounts, balances and rates given as text are read as the number they denote, and what is written reads back unchanged",
  "Fraction(text), applied to amounts, the fee ratio, balances and the rate option, succeeds exactly on optional blanks, an optional sign and either digits/digits or decimal notation with optional point and exponent, and gives the number denoted; it raises ZeroDivisionError exactly on a denominator of zero and ValueError on all other text. int(text), applied to balances and order ids, succeeds exactly on optional blanks, a sign and digits that may be grouped by underscores. Where both succeed they agree. The text written for an integer or a fraction reads back as that number. Hence C65 holds with the conversions of the library. The two conversions accept different texts: a balance 1e21 passes the loading and fails the final check.",
  "all texts (of ASCII digits and blanks), all integers and fractions","tests use amounts that are json integers or short decimal texts", CO+"order.py:load_from_dict", CO+"api.py:load_fee", CO+"util.py:stringify_numeric", CO+"orderbook.py:update_accounts", CO+"validation.py:validate")
p("C92","The solution file is itself an instance",
  "When a program has written a solution, reading the solution file again (json.load with Decimal) gives an instance: the executed orders with their original account, tokens and limits, exactly the balances after the trade, and the same fee, provided the fee ratio written as float reads back as the same number and no balance or amount is a boolean. This instance again has non-negative integer balances, valid orders and a valid fee, so every other property applies to a run on it. A boolean balance or amount is accepted by the loading but written as text that cannot be read.",
  "all instances with valid amounts and balances given as integers, fractions, decimals or text, all rate options, all pairs, all orders of visiting the pairs, all external functions","no test reads a solution file", CO+"api.py:dump_solution", CO+"util.py:stringify_numeric", CO+"orderbook.py:update_accounts", TP+"solver.py:main", BP+"solver.py:main")
p("C93","Without a fee the two sides are interchangeable",
  "When the fee is 0, computing buy amounts at the inverse rate with the lists of b_orders and s_orders exchanged gives every order the same amount, also when the order limit or the minimum tradable amount binds, and the objective is the same with the price of the other token. With a positive fee this is false.",
  "all rates, order limits and order lists with unique ids","the two sides are handled by different branches whose interplay is only exercised by particular books", TP+"amount.py:compute_buy_amounts", TP+"amount.py:execute_order_pair", TP+"amount.py:undo_order_pair_execution", TP+"orderbook.py:compute_objective_rational")
p("C94","Units of amounts do not matter",
  "Multiplying all amounts of both lists of orders and the minimum tradable amount by the same positive number multiplies the computed buy amounts and the objective by that number. With the minimum tradable amount unchanged this is false.",
  "all positive factors, rates, fees below one, order limits and order lists with unique ids","a relation between infinitely many pairs of runs", TP+"amount.py:compute_buy_amounts", TP+"orderbook.py:compute_objective_rational")
p("C95","A larger order limit helps at a given rate, but can lose the solution of a run",
  "At a given rate and price, computing buy amounts with a larger limit on the number of executed orders gives no order less and does not lower the objective. For the whole program this is false: a concrete instance is solved with MAX_NR_EXEC_ORDERS = 4 and gets the empty solution with 5.",
  "all pairs of limits, rates, fees, order lists with unique ids; concrete instance for the program","a relation between pairs of runs with different limits", TP+"amount.py:compute_buy_amounts", TP+"solver.py:compute_nr_f_orders_to_execute", TP+"solver.py:solve_token_pair_and_fee_token")
p("C96","The search for a rate does not depend on the units of the amounts",
  "Multiplying all amounts of both lists of orders and the minimum tradable amount by the same positive number leaves the rate found by find_best_xrate unchanged and multiplies the reported objective by that number; if the search raises an exception, the same exception is raised. The same holds for compute_buy_amounts without any assumption on the orders.",
  "all positive factors, order lists, fees and square root functions, without further hypotheses","a relation between infinitely many pairs of runs, including those that raise", TP+"xrate.py:find_best_xrate", TP+"xrate.py:solve_trivial_bin_search", TP+"amount.py:compute_buy_amounts")
p("C97","What the texts on the command line mean",
  "Take a command line of options, the instance, more options, and a subcommand with its arguments, where options may be written with their text joined by = or as the next argument, and with any unique beginning of their name. If all texts are acceptable, parsing succeeds: the file is the one named, every option has the value of the last text given for it, read as Python reads numbers, or its default, and the subcommand, its tokens and its rate are those given. Otherwise the first text that is not acceptable ends the program, by a usage message or, exactly for fractions with denominator zero, by ZeroDivisionError.",
  "all command lines of this form, with any number of options in any order, and all texts","unboundedly many options, orders and texts; no unit test runs the parser", "dex_open_solver/match.py:main", TP+"solver.py:setup_arg_parser", BP+"solver.py:setup_arg_parser")
p("C98","Command lines that are rejected or misread although they look right",
  "The beginning of two names (--log, --min-a) anywhere before an argument -- ends the program with a usage message. So does a negative fraction -n/d given as the argument after an option (joined with = it is read), and any option of the main parser after the subcommand. --log-rationals is switched on by every non-empty text, False included. Without a subcommand parsing succeeds and the program fails with AttributeError.",
  "all command lines with these features, all texts, instances and configurations","universally quantified rejection over all surrounding arguments", "dex_open_solver/match.py:main", TP+"solver.py:setup_arg_parser", BP+"solver.py:setup_arg_parser")
p("C99","Offering more, or accepting a worse rate",
  "At a given rate: if one order offers more or accepts a worse rate and the volume executed does not go down, the order buys no less. If the order was not filled and no other order of its side has the same limit, offering more never reduces what it buys nor, if it bought something, the volume. In general it is NOT true that a better offer sells no less: on concrete books, offering more, or accepting a worse rate, reduces what the order sells at the same rate, because the minimum tradable amount then forces other orders out. It also happens to the token-pair command with the default configuration and the rate it finds: a user who offers ten percent more at the same limit ends up with less, at a worse rate.",
  "all books, rates, fees < 1, limits and improvements; concrete books and instances for the negative claims","relates two runs on arbitrary books (hyperproperty)", TP+"amount.py:compute_buy_amounts", TP+"solver.py:main")
p("C100","Which texts are instance files, and what they say",
  "Reading the instance file succeeds exactly on the texts of the json grammar (RFC 8259, plus NaN, Infinity and -Infinity), and returns the value the grammar assigns: integers as int, other numbers as exact Decimals, escapes decoded, and of entries with the same key the last value. Every other text is refused with JSONDecodeError; no text stands for two values. Negative: an account listed twice is accepted without a message and its first list of balances is lost.",
  "all texts (without an escape of half a surrogate pair)","the grammar is recursive and texts are unbounded; tests read well-formed files only", TP+"solver.py:main", BP+"solver.py:main")
p("C101","The text of the solution file",
  "Writing succeeds exactly on values without Fraction or Decimal (otherwise TypeError). What is written is a json text that reads back as the value written, with tuples as lists; only line breaks and printable ASCII characters are written, so the file does not depend on the encoding; different values are written as different texts.",
  "all values with distinct keys whose other leaves (floats, None) are written as json","values nest without bound, and texts hold any characters", CO+"api.py:dump_solution")
p("C102","From the text of the instance file to the text of the solution file",
  "If a run of either program succeeds on the text of a valid instance, the text it writes is a json text in printable ASCII that reads as a correct solution (C44, C65). If the solution can be written (C66), the run on the text succeeds exactly when the run on the numbers does, and otherwise raises the same exception; a text that is not json ends the run with the error of the reader. The text written is again the text of a valid instance (C92).",
  "all instance texts, pairs, rates, visiting orders and configurations meeting the stated conditions","end-to-end over all texts", TP+"solver.py:main", BP+"solver.py:main", CO+"api.py:dump_solution", CO+"api.py:load_problem")
p("C103","What a run of the program leaves behind",
  "From the command line and the files before the run to the files after it. However a run ends, it changes no file except the one named last by --solution (or the new temporary file). A run that ends with an error leaves all files unchanged, or (TypeError while writing) a solution file whose text is not json, so a failed run never leaves a file that reads as a solution. A run that ends without error leaves in the solution file a json text in printable ASCII; for a valid instance it reads as a correct solution that meets the thresholds on the command line. On the words of a command line, the program raises what the solver raises, and otherwise writes the solution if it can be written. Negative: with --solution naming the instance file, a run that fails while writing destroys the instance.",
  "all command lines, files, shuffles, clocks and libraries as stated; a concrete run for the negative claim","relates all files before and after all failing runs", "dex_open_solver/match.py:main", TP+"solver.py:main", BP+"solver.py:main", CO+"api.py:dump_solution")
p("C104","When the rate found is optimal among all rates",
  "If the value of the order book as a function of the rate has a single peak (the assumption stated in xrate.py and in the description of the algorithm), and at rates that both sides accept only the orders' limits restrict the execution, then no rate that both sides accept gives a greater value than the rate returned, up to delta^2 * (total b sell / rate + 4 * total s sell) for a square root of relative error delta. If all orders of each side have the same limit the assumption of a single peak is not needed; for one order on each side whose amounts, at its limit and after fees, reach the minimum tradable amount, no assumption on the execution is needed either.",
  "all order books, fees, accurate square roots and rates","compares with infinitely many rates", TP+"xrate.py:find_best_xrate", TP+"xrate.py:SymbolicSolver.solve")
p("C105","The reported fees are the fee share of the value sold",
  "In the solution that either program writes, the reported fees times the fee token price are at most fee * V, where V is the value of all executed sell amounts at the reported prices, and fall short of it by less than (1 - fee) times the price of the sell token summed over the executed orders. If fee * minimum tradable amount >= 1, a solution that executes an order reports a fee of at least one unit of the fee token.",
  "every instance, configuration, pair and behaviour of the external functions","the bound on the rounding loss holds for all prices and amounts", CO+"api.py:dump_solution", CO+"round.py:round_solution")
p("C106","Running the program again and again on its own output",
  "However often the two programs are run, in any order, each on the text the one before has written: every text holds an instance that the solvers can work with, with the same fee and account names, non-negative balances, the same total of every token but the fee token, of which nothing is gained, and orders that are orders of the first instance with their original limits. If fee * minimum tradable amount >= 1, at most as many runs execute an order as there are units of the fee token in the accounts of the first instance; after an empty solution nothing is executed and no balance changes. The limits are not reduced by what has been executed: an order can sell more than its sell amount over two runs.",
  "every instance text, any number of runs, all arguments and configurations","unbounded sequences of runs", CO+"api.py:dump_solution", CO+"api.py:load_problem", TP+"solver.py:main", BP+"solver.py:main")
p("C107","Square roots in double precision, and the rate search with them",
  "float() of a non-negative fraction is the nearest double, ties to the even one, and overflows exactly from 2^1024 - 2^970 on; the root of a double is the double nearest to the real square root, every other one is further away; F(sqrt(t)) does not raise for t <= 2^1023, and its square differs from t by at most t * 2^-51 for t >= 2^-1022. With this square root and limits between 2^-500 and 2^500 the statements about the best rate hold without any assumption on sqrt: no rate next to the limit rate found (in general), and no rate at all (single peak, or one limit per side, or two orders) is better than the rate returned by more than 2^-102 * (total sell amount of the b_orders / rate + 4 * total sell amount of the s_orders).",
  "all fractions, all doubles, all order lists","rounding cases", TP+"xrate.py:find_best_xrate")
p("C108","The average fee is compared as a float",
  "validate computes the average fee with the float division total_fees / nr_exec_orders. With correct rounding: a solution that keeps all rules exactly passes if the minimum is a double; a solution that passes keeps all rules with an average fee of at least the minimum / (1 + 2^-53); if the minimum is an integer and minimum * number of executed orders <= 2^53, the check is exact. Beyond that it is not: a solution with integer amounts passes although its average fee is more than 600 units below the minimum.",
  "all solutions and configurations","rounding cases need amounts above 2^53", CO+"validation.py:validate")
p("C109","The fee ratio as it is written to the solution file",
  "dump_solution writes float(ratio). The text of every double is a json number that float() reads as the same double, and no decimal number with fewer digits is read as that double; of those with as few digits the nearest is written, with an exponent exactly if it is below 0.0001 or at least 10^16. So a fee ratio below 1 with at most 15 significant digits (0, or at least 2^-1022) is in the solution file exactly what it was in the instance; any other ratio from 2^-1022 on is changed by less than one part in 2^51, and some are changed (3.333333333333333333e-3). With this float() the statements of C106 about repeated runs need no assumption on the library.",
  "all doubles, all fee ratios, all instances","digits beyond the fifteenth", CO+"api.py:dump_solution")
p("C110","The numbers in the log",
  "With --log-rationals every Fraction in a log message is written so that Fraction() reads the same number from it. Without it, the text is a number that differs from the logged one by at most 0.0501 %, if that is at least 2^-1022 in absolute value; a number cannot be formatted (the message is then missing) exactly if it is 2^1024 - 2^970 or more in absolute value. A Fraction shown with %d is right if it is an integer up to 2^53; beyond, wrong amounts are shown (10^18 for 10^18 + 1). The lists of executed amounts show every order id with the text of its amount, in order.",
  "all numbers in log messages","amounts with more than 15 digits, numbers out of the range of a double", CO+"util.py:LoggerFormatter")
p("C111","Runs of the program with the interpreter's own arithmetic",
  "With CPython's float(), square root and division in place of parameters, a run on any accepted command line and any valid instance file ends in one of two ways. Either it raises one of the listed exceptions (ZeroDivisionError, an assertion at xrate.py:439 or :440, OverflowError, the assertion at token_pair_solver/api.py:35 if the fee token is given second, ValueError if a threshold is set, the assertion at validation.py:74 if the minimum average fee is positive, ValueError if one side of the market has no orders) and no file is changed. Or it succeeds, writes exactly one file with a correct solution, every fee reaches the absolute threshold and the average fee reaches its minimum up to a factor 1 + 2^-53. Success and six of the failures do occur.",
  "all command lines, instance files and branchings of maximum weight","needs every error path of the program and rounding of doubles at once", "dex_open_solver/match.py:main", TP+"api.py:load_problem")
p("C112","No OverflowError for amounts of ordinary size",
  "A run on a valid instance with at most 2^64 orders, each selling a whole number of units and selling and asking for at most 2^256 units, does not end with OverflowError: every argument given to the square root or to the division of the average fee stays within the range of doubles. For any bounds M on the amounts and N on the number of orders the arguments of the square root are at most 2 M (2 N M + r + N M^2), r the minimum tradable amount in rational arithmetic, and those of the division at most N M. Without a bound it fails: two orders with amounts up to 10^410 make the run end with OverflowError.",
  "all command lines, all valid instances within the bounds, any branching of maximum weight and any shuffle","the largest argument of the square root over all rate intervals, fee orders and rounds of removal is not seen in test instances", TP+"xrate.py:SymbolicSolver.solve", CO+"orderbook.py:restrict_order_sell_amounts_by_balances", "dex_open_solver/match.py:main")
p("C113","Exactly six exceptions end a run",
  "On a valid instance with at most 2^64 orders and amounts of at most 2^256, a run that fails raises ZeroDivisionError, ValueError, or an assertion at xrate.py:439, xrate.py:440, token_pair_solver/api.py:35 or validation.py:74, and nothing else; each of the six does occur on such an instance. The assertion on the average fee (validation.py:74) needs a positive --min-avg-order-fee. The assertion on the fee of each order (validation.py:77) never fails, whatever the thresholds are: the viability check compares the same numbers before.",
  "all valid instances within the bounds, all commands, all thresholds, any branching of maximum weight and any shuffle","that no other exception exists is a statement on all runs; the instance for xrate.py:439 has to be constructed", CO+"validation.py:validate", TP+"xrate.py:find_best_xrate")
p("C114","The rate search divides by zero only on a lopsided book",
  "Call the orders of the first side lopsided if for some of them, listed by limit rate, and one of these, the ones with lower limit sell, after the fee, more than twice what it and the ones with higher limit sell. If the square root succeeds on nonnegative numbers, the rate search raises only (1) ZeroDivisionError, and then the orders of the first side are lopsided, or (2) a shape assertion, and then at least four orders are left after pruning and two neighbouring limit rates have equal value. The same holds for the token-pair command on a pair with the fee token (no thresholds, limit rates up to the fee token price). So that command succeeds with at most three orders, if no order of the first side sells more than twice as much as another of that side. The search for the price of a token against the fee token never raises ZeroDivisionError.",
  "every book, fee, instance, configuration and square root","characterises all failing inputs; the failing ones solve an equation in the amounts", TP+"xrate.py:SymbolicSolver.root3", TP+"xrate.py:find_best_xrate", TP+"price.py:compute_token_price_to_cover_imbalance", TP+"solver.py:main")
p("C115","With rates of ordinary size the commands fail only in three ways",
  "Rates are moderate for a pair if its limit rates are at most X, with X at most the fee token price when the first token is the fee token, and otherwise the orders selling the fee token for the first token accept rates up to at most Y with Y(X+1) at most the fee token price. With moderate rates, no thresholds and a square root that succeeds on nonnegative numbers, both commands fail only with ZeroDivisionError, and then the first side of a pair is lopsided (C114), or with a shape assertion, and then there is a tie among at least four orders of a pair, or a tie of at least three orders that sell the fee token with the artificial market order. So rounding a rate to integer prices never divides by zero then, and both commands succeed, for every shuffle and time limit, if each pair has at most three orders, at most two on the first side of which none sells more than twice as much as the other, and at most two orders sell the fee token for its first token.",
  "every instance, pair, shuffle, branching, square root and configuration","characterises all failing inputs", TP+"solver.py:solve_token_pair_and_fee_token", TP+"price.py:compute_token_price_to_cover_imbalance", TP+"xrate.py:find_best_xrate", BP+"solver.py:main")
p("C116","What a run says",
  "The messages at level INFO and above. Writing messages changes neither how a run of the program ends nor the files it leaves, at any level, and the division among the arguments of a message (price of the second token) never fails. The solver for a pair writes at most one message; if it writes one, that is \"Could not round solution\" or \"No matching orders\" with the names of the pair, and it returns the empty solution without an error. The command over all pairs writes at most one such message per pair visited, in the order of the visits, and \"Time limit reached\" only as the last one, exactly if the limit was found exceeded after some pair. \"Solution file is\" is written exactly by the runs that end without an error (at the levels DEBUG and INFO), as the last message, and names the file written. The messages of a run over all pairs are exactly those of the loop, also when it ends with an exception, and then that name; there is a valid instance where a message for one pair is followed by an exception at the next one. Negative: \"No matching orders\" is not written when there are orders in both directions of which no two cross, but is written for an instance in which orders cross.",
  "every command line, instance text, world, configuration, book, shuffle and time","universally quantified; tests do not look at messages", TP+"solver.py:solve_token_pair_and_fee_token", TP+"solver.py:solve_token_pair_and_fee_token_economic_viable", BP+"solver.py:main", CO+"api.py:dump_solution", "dex_open_solver/match.py:main")
p("C117","What the text of an order tells",
  "If no token has a comma in its name, two orders with the same text (__str__, as written in messages of level DEBUG) have the same tokens, the same limits, are both executed or both not, and if executed have the same executed amounts. Nothing else enters the text: orders that agree in these have the same text whatever their ids, accounts and original limits. Negative: with commas in the names, orders with different tokens have the same text.",
  "all orders","universally quantified over texts and rational amounts", CO+"order.py:Order.__str__")
p("C118","More time is worth at least as much, unless it ends in an exception",
  "For the same instance, thresholds and shuffle: if the command over all pairs succeeds, it also succeeds with less time (a lower time limit or a slower clock, in that it is found late whenever the other run is), and what it writes then is worth at most as much. So with the same clock a larger limit, or none, never gives a solution worth less, if both runs succeed. Negative: there are a valid instance and a shuffle such that with a time limit a solution with executed orders is written, and without a limit the run ends with an exception at a later pair and the solution found before is lost.",
  "all instances, thresholds, shuffles, clocks, limits and external functions","schedules: shuffle, clock and limits", BP+"solver.py:main", "dex_open_solver/match.py:main")
p("C119","Fee thresholds that are met anyway have no influence, and no threshold avoids an exception",
  "For any orders, accounts and rate: if the token-pair solver without fee thresholds returns a solution, and this solution meets given thresholds (it executes no order; or every executed order that does not sell the fee token pays the minimum absolute fee by its volume, and the average fee, both by the volumes and as collected, is at least the minimum average fee), then with these thresholds the solver returns the same solution, and the command writes the same file. For a good instance: if the command ends in an exception without thresholds, it ends in the same exception with any thresholds. (The converse is false: C51.)",
  "all instances, thresholds, pairs, rates and external functions","a relation between runs with different thresholds", TP+"solver.py:solve_token_pair_and_fee_token_economic_viable", CO+"orderbook.py:is_economic_viable", CO+"validation.py:validate")
out=os.path.join(os.path.dirname(os.path.dirname(os.path.abspath(__file__))),"properties.jsonl")
with open(out,"w") as f:
    for x in P: f.write(json.dumps(x)+"\n")
print(len(P))
