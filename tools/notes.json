{
 "partial": [],
 "C18": "Negative result: a concrete well-formed instance on which the solver raises AssertionError.",
 "C57": "Negative result: a concrete well-formed instance on which the solver raises ZeroDivisionError.",
 "C54": "Negative result: a concrete sane book on which the rate found is not optimal.",
 "C51": "Negative result: a concrete instance and fee threshold on which the solvers raise ValueError.",
 "C50": "Negative result for all rates above the price and for all zero-fee orders.",
 "C55": "The square root is a parameter; its own exceptions on non-negative arguments are listed as one of the outcomes. 9/10 <= (1-fee)^2 holds for fees up to about 5 percent.",
 "C53": "The square root is assumed accurate to a stated relative error.",
 "C52": "The square root is assumed exact on the argument it is called with.",
 "C35": "Negative result: an empty side raises ValueError.",
 "C33": "The positive direction and a concrete counterexample to the converse.",
 "C67": "Negative result, for all instances and with concrete witnesses."
}