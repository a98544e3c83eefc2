import Verif.Spec.Accounts

/-! # Specification vocabulary for solutions

Only record types are used from the model. -/

namespace Dex.Spec

/-- The rational is an integer. -/
def IsInt (q : ℚ) : Prop := q.den = 1

instance (q : ℚ) : Decidable (IsInt q) := by unfold IsInt; infer_instance

/-- Amount of token `t` sold by the orders. -/
def sold (orders : List Order) (t : Token) : ℚ := ((orders.filter (fun o => decide (o.sellToken = t))).map (·.sell)).sum

/-- Amount of token `t` bought by the orders. -/
def bought (orders : List Order) (t : Token) : ℚ := ((orders.filter (fun o => decide (o.buyToken = t))).map (·.buy)).sum

/-- Price of token `t`: the first entry for it. -/
def PriceOf (prices : Prices) (t : Token) (p : ℚ) : Prop := ∃ e, prices.find? (fun e => decide (e.1 = t)) = some e ∧ e.2 = p

/-- All prices are positive integers. -/
def IntPrices (prices : Prices) : Prop := ∀ p ∈ prices, 0 < p.2 ∧ IsInt p.2

instance (prices : Prices) : Decidable (IntPrices prices) := by unfold IntPrices; infer_instance

/-- Both tokens of the order have a price. -/
def Priced (prices : Prices) (o : Order) : Prop :=
  (∃ p ∈ prices, p.1 = o.buyToken) ∧ (∃ p ∈ prices, p.1 = o.sellToken)

instance (prices : Prices) (o : Order) : Decidable (Priced prices o) := by unfold Priced; infer_instance

/-- The exchange contract's sell amount for a buy amount at prices `pb`, `ps`. -/
def uniformSell (pb ps : ℚ) (fee : Fee) (buy : ℚ) : ℤ := ⌊(⌊buy * pb / (1 - fee.value)⌋ : ℚ) / ps⌋

/-- The order trades on the uniform clearing price. -/
def OnClearingPrice (prices : Prices) (fee : Fee) (o : Order) : Prop :=
  ∃ pb ps, PriceOf prices o.buyToken pb ∧ PriceOf prices o.sellToken ps ∧ o.sell = uniformSell pb ps fee o.buy

/-- Same order up to the executed amounts. -/
def SameButExec (o o' : Order) : Prop := o' = { o with buy := o'.buy, sell := o'.sell }

/-- The order constraints: limit rate, maximum sell amount, minimum tradable amount. -/
structure OrderConstraints (cfg : Config) (o : Order) : Prop where
  limit : 0 < o.buy → o.sell ≤ o.maxXrate * o.buy
  maxSell : o.sell ≤ o.maxSell
  minBuy : o.buy = 0 ∨ (cfg.minTradable : ℚ) ≤ o.buy
  minSell : o.sell = 0 ∨ (cfg.minTradable : ℚ) ≤ o.sell

/-! ### Branchings -/

/-- A branching: a set of edges `(parent, child)` in which every node has at most one parent, without cycles (some
numbering of the nodes increases along every edge). -/
structure Branching (edges br : List (Token × Token)) : Prop where
  sub : ∀ e ∈ br, e ∈ edges
  inDeg : (br.map (·.2)).Nodup
  acyclic : ∃ rank : Token → ℕ, ∀ e ∈ br, rank e.1 < rank e.2

/-- A branching with the largest number of edges. -/
def MaxBranching (edges br : List (Token × Token)) : Prop :=
  Branching edges br ∧ ∀ br', Branching edges br' → br'.length ≤ br.length

/-! ### Auction rules -/

/-- Truncation towards zero. -/
def trunc (q : ℚ) : ℤ := if 0 ≤ q then ⌊q⌋ else ⌈q⌉

/-- Number of executed orders. -/
def nrExecuted (orders : List Order) : ℕ := (orders.filter (fun o => decide (0 < o.buy))).length

/-- What account `a` gains of token `t` (bought minus sold). -/
def gain (orders : List Order) (a : Option AccountId) (t : Token) : ℚ :=
  bought (orders.filter (fun o => decide (o.accountId = a))) t - sold (orders.filter (fun o => decide (o.accountId = a))) t

/-- The rules of the auction for a solution with at least one executed order. `avgFee` computes the average collected fee per
executed order from the total and the number. -/
structure Feasible (cfg : Config) (avgFee : ℚ → ℕ → Py ℚ) (accounts : Accounts) (orders : List Order) (prices : Prices) (fee : Fee) :
    Prop where
  nrOrders : (nrExecuted orders : ℤ) ≤ cfg.maxNrExec
  constraints : ∀ o ∈ orders, OrderConstraints cfg o
  balanced : ∀ t, t ≠ fee.token → sold orders t = bought orders t
  feeToken : bought orders fee.token ≤ sold orders fee.token
  avgFee : ∃ q, avgFee (sold orders fee.token - bought orders fee.token) (nrExecuted orders) = .ok q ∧ cfg.minAvgFee ≤ q
  absFee : ∀ o ∈ orders, o.sellToken ≠ fee.token → 0 < o.buy → ∀ p, PriceOf prices o.buyToken p →
    cfg.minAbsFee ≤ o.buy * p * fee.value / cfg.feeTokenPrice
  accounts : ∀ o ∈ orders, ∀ a, o.accountId = some a → ∀ t, (∃ p ∈ prices, p.1 = t) →
    0 ≤ (trunc (balanceOf accounts a t) : ℚ) + gain orders (some a) t

end Dex.Spec
