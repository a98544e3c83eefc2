import Verif.Spec.Orders
import Verif.Model.Orderbook

/-! # Specification vocabulary for accounts

Only the record types and `Accounts` are used from the model. -/

namespace Dex.Spec

/-- Balance of token `t` in account `a`; a missing account or token counts as zero. -/
def balanceOf (accounts : Accounts) (a : AccountId) (t : Token) : ℚ :=
  match accounts.find? (fun p => decide (p.1 = a)) with
  | none => 0
  | some p => match p.2.find? (fun q => decide (q.1 = t)) with
    | none => 0
    | some q => q.2

/-- No balance is negative. -/
def NonnegBalances (accounts : Accounts) : Prop := ∀ p ∈ accounts, ∀ q ∈ p.2, 0 ≤ q.2

instance (accounts : Accounts) : Decidable (NonnegBalances accounts) := by unfold NonnegBalances; infer_instance

/-- Balance backing an order: what its account holds of the token it sells. -/
def backing (accounts : Accounts) (o : Order) : ℚ :=
  match o.accountId with
  | none => 0
  | some a => balanceOf accounts a o.sellToken

/-- Same account, same sell token, same buy token. -/
def SamePair (a b : Order) : Prop :=
  a.accountId = b.accountId ∧ a.sellToken = b.sellToken ∧ a.buyToken = b.buyToken

instance (a b : Order) : Decidable (SamePair a b) := by unfold SamePair; infer_instance

/-- Total maximum sell amount of the orders of `o`'s account and token pair with higher priority. -/
def ahead (orders : List Order) (o : Order) : ℚ :=
  ((orders.filter (fun c => decide (SamePair c o ∧ Before c o))).map (·.maxSell)).sum

/-- What `o` can sell given the balance and the orders of higher priority. -/
def available (accounts : Accounts) (orders : List Order) (o : Order) : ℚ :=
  min o.maxSell (max 0 (backing accounts o - ahead orders o))

end Dex.Spec
