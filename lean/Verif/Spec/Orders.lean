import Verif.Model.Order

/-! # Specification vocabulary for orders

Plain arithmetic and order-theoretic notions; nothing here uses a definition of `Verif/Model` other than the record
types. -/

namespace Dex.Spec

/-- `a` has strictly higher execution priority than `b`: better limit rate, ties by larger maximum sell amount, ties by
smaller id. -/
def Before (a b : Order) : Prop :=
  a.maxXrate > b.maxXrate ∨
    a.maxXrate = b.maxXrate ∧ (a.maxSell > b.maxSell ∨ a.maxSell = b.maxSell ∧ a.id < b.id)

/-- Amount of s-token a b_order sells when it buys `o.buy` at rate `x` (uniform price net of fee). -/
def soldB (x : ℚ) (fee : Fee) (o : Order) : ℚ := o.buy * x / (1 - fee.value)

/-- Amount of b-token an s_order sells when it buys `o.buy` at rate `x`. -/
def soldS (x : ℚ) (fee : Fee) (o : Order) : ℚ := o.buy / x / (1 - fee.value)

/-- A b_order may be executed at rate `x`: its limit accepts the rate and it can trade the minimum amount. -/
def EligibleB (cfg : Config) (x : ℚ) (fee : Fee) (o : Order) : Prop :=
  x ≤ o.maxXrate * (1 - fee.value) ∧ (cfg.minRationalTradable : ℚ) ≤ o.maxSell ∧
    (cfg.minRationalTradable : ℚ) ≤ o.maxSell / x * (1 - fee.value)

/-- An s_order may be executed at rate `x`. -/
def EligibleS (cfg : Config) (x : ℚ) (fee : Fee) (o : Order) : Prop :=
  1 / x ≤ o.maxXrate * (1 - fee.value) ∧ (cfg.minRationalTradable : ℚ) ≤ o.maxSell ∧
    (cfg.minRationalTradable : ℚ) ≤ o.maxSell * x * (1 - fee.value)

instance (cfg : Config) (x : ℚ) (fee : Fee) (o : Order) : Decidable (EligibleB cfg x fee o) := by
  unfold EligibleB; infer_instance

instance (cfg : Config) (x : ℚ) (fee : Fee) (o : Order) : Decidable (EligibleS cfg x fee o) := by
  unfold EligibleS; infer_instance

instance (a b : Order) : Decidable (Before a b) := by unfold Before; infer_instance

/-- `o'` is `o` up to its buy amount. -/
def SameButBuy (o o' : Order) : Prop := o' = { o with buy := o'.buy }

/-- Same order, up to executed amounts and the current maximum sell amount. -/
def SameOrder (o o' : Order) : Prop :=
  o'.id = o.id ∧ o'.accountId = o.accountId ∧ o'.buyToken = o.buyToken ∧ o'.sellToken = o.sellToken ∧
    o'.maxXrate = o.maxXrate ∧ o'.origMaxSell = o.origMaxSell

end Dex.Spec

namespace Dex.Spec

/-- Closed form of a greedy fill at level `t`: an eligible order takes what is left after all eligible orders of higher
priority, up to its capacity. -/
def fillAmount (elig : Order → Prop) [DecidablePred elig] (cap : Order → ℚ) (orders : List Order) (t : ℚ) (o : Order) : ℚ :=
  if elig o then
    max 0 (min (cap o) (t - ((orders.filter (fun a => decide (elig a ∧ Before a o))).map cap).sum))
  else 0

/-- What a b_order can buy at most at rate `x`. -/
def maxBuyB (x : ℚ) (fee : Fee) (o : Order) : ℚ := o.maxSell / x * (1 - fee.value)

/-- What an s_order can buy at most at rate `x`. -/
def maxBuyS (x : ℚ) (fee : Fee) (o : Order) : ℚ := o.maxSell * x * (1 - fee.value)

/-- Buy amounts `v` (b_orders) and `w` (s_orders), by order id, that are non-negative, within maximum sell amounts, only
on eligible orders, and balance the pair. -/
structure Assignment (cfg : Config) (x : ℚ) (fee : Fee) (b s : List Order) (v w : String → ℚ) : Prop where
  nonnegB : ∀ o ∈ b, 0 ≤ v o.id
  nonnegS : ∀ o ∈ s, 0 ≤ w o.id
  eligB : ∀ o ∈ b, ¬ EligibleB cfg x fee o → v o.id = 0
  eligS : ∀ o ∈ s, ¬ EligibleS cfg x fee o → w o.id = 0
  capB : ∀ o ∈ b, EligibleB cfg x fee o → v o.id * x / (1 - fee.value) ≤ o.maxSell
  capS : ∀ o ∈ s, EligibleS cfg x fee o → w o.id / x / (1 - fee.value) ≤ o.maxSell
  balanced : (b.map (fun o => v o.id)).sum * x = (s.map (fun o => w o.id)).sum * (1 - fee.value)

end Dex.Spec
