import Verif.Model.Api

/-! # Renaming tokens and accounts

Used to state that the programs are neutral: they do not look at what a token or an account is called. -/

namespace Dex.Spec

/-- New names: different tokens stay different, and so do different accounts. -/
structure Renaming where
  tok : Token → Token
  acc : AccountId → AccountId
  tok_inj : Function.Injective tok
  acc_inj : Function.Injective acc

namespace Renaming

variable (ρ : Renaming)

/-- The order under the new names. Its id, a position in the instance, stays. -/
def order (o : Order) : Order :=
  { o with accountId := o.accountId.map ρ.acc, buyToken := ρ.tok o.buyToken, sellToken := ρ.tok o.sellToken }

/-- The order of an instance under the new names. -/
def dict (d : OrderDict) : OrderDict :=
  { d with accountID := ρ.acc d.accountID, buyToken := ρ.tok d.buyToken, sellToken := ρ.tok d.sellToken }

/-- The fee under the new names. -/
def fee (f : Fee) : Fee := { f with token := ρ.tok f.token }

/-- The pair under the new names. -/
def pair (p : Token × Token) : Token × Token := (ρ.tok p.1, ρ.tok p.2)

/-- Amounts per token under the new names: prices, or the balances of one account. -/
def amounts (d : Dict Token ℚ) : Dict Token ℚ := d.map fun p => (ρ.tok p.1, p.2)

/-- The accounts under the new names. -/
def accounts (a : Accounts) : Accounts := a.map fun p => (ρ.acc p.1, ρ.amounts p.2)

/-- The instance under the new names. -/
def inst (i : Instance) : Instance := { accounts := ρ.accounts i.accounts, orders := i.orders.map ρ.dict, fee := ρ.fee i.fee }

/-- The solution under the new names. -/
def sol (s : Solution) : Solution := { orders := s.orders.map ρ.order, prices := ρ.amounts s.prices }

/-- The reported result under the new names: the metrics stay. -/
def dump (d : Dump) : Dump :=
  { prices := ρ.amounts d.prices, accounts := ρ.accounts d.accounts, objVals := d.objVals, orders := d.orders.map ρ.dict }

/-- The graph library and the rounding of floats do not look at names either: on the renamed graph the same edges are
chosen. -/
structure Ext (e e' : Dex.Ext) : Prop where
  sqrt : e'.sqrt = e.sqrt
  fdiv : e'.fdiv = e.fdiv
  branch : ∀ E, e'.branch (E.map ρ.pair) = (e.branch E).map ρ.pair

end Renaming

end Dex.Spec
