import Verif.Model.Orderbook

/-! # Model of dex_open_solver/core/validation.py -/

namespace Dex

/-- `validate_order_constraints` (core/validation.py:7-16). -/
def validateOrderConstraints (cfg : Config) (o : Order) (buy sell : ℚ) : Py Unit := do
  if buy = 0 then pure () else
    let r ← pyDiv sell buy
    pyAssert (r ≤ o.maxXrate) "validation.py:9"
  pyAssert (sell ≤ o.maxSell) "validation.py:12"
  pyAssert (buy = 0 ∨ buy ≥ cfg.minTradable) "validation.py:15"
  pyAssert (sell = 0 ∨ sell ≥ cfg.minTradable) "validation.py:16"

/-- `token_balance_account` (core/validation.py:46-52). -/
def accountTable (accounts : Accounts) (tokens : List Token) (orders : List Order) :
    Py (Dict (Option AccountId) (Dict Token ℚ)) :=
  foldE (fun d o => do
    match o.accountId with
    | none => .error .keyError
    | some a =>
      let acc ← dictGet accounts a
      pure (dictSet d o.accountId (tokens.map (fun t => (t, (pyInt ((dictGet? acc t).getD 0) : ℚ))))))
    [] orders

/-- The two dictionaries built by the main loop of `validate`. -/
structure ValState where
  balances : Dict Token ℚ
  accs : Dict (Option AccountId) (Dict Token ℚ)

/-- Loop body of `validate` (core/validation.py:55-60). -/
def validateStep (cfg : Config) (st : ValState) (o : Order) : Py ValState := do
  validateOrderConstraints cfg o o.buy o.sell
  let vb ← dictGet st.balances o.buyToken
  let bal := dictSet st.balances o.buyToken (vb - o.buy)
  let vs ← dictGet bal o.sellToken
  let bal := dictSet bal o.sellToken (vs + o.sell)
  let acc ← dictGet st.accs o.accountId
  let vb ← dictGet acc o.buyToken
  let acc := dictSet acc o.buyToken (vb + o.buy)
  let vs ← dictGet acc o.sellToken
  let acc := dictSet acc o.sellToken (vs - o.sell)
  pure { balances := bal, accs := dictSet st.accs o.accountId acc }

/-- Token balance check of `validate` (core/validation.py:63-68). -/
def checkBalances (balances : Dict Token ℚ) (fee : Fee) : Py Unit :=
  foldE (fun _ p => if p.1 = fee.token then pyAssert (p.2 ≥ 0) "validation.py:66"
    else pyAssert (p.2 = 0) "validation.py:68") () balances

/-- `validate` (core/validation.py:19-86) with `max_nr_exec_orders=None`.
`fdiv` stands for the true division `total_fees / nr_exec_orders` (line 74), a float when both are `int`. -/
def validate (cfg : Config) (fdiv : ℚ → ℕ → Py ℚ) (accounts : Accounts) (orders : List Order) (prices : Prices)
    (fee : Fee) : Py Unit := do
  pyAssert (∀ p ∈ prices, p.2.den = 1) "validation.py:33"
  let nr := countNrExec orders
  if nr = 0 then pure ()
  else
    pyAssert ((nr : ℤ) ≤ cfg.maxNrExec) "validation.py:41"
    let tokens := dictKeys prices
    let accs ← accountTable accounts tokens orders
    let st ← foldE (validateStep cfg) { balances := tokens.map (fun t => (t, (0 : ℚ))), accs } orders
    checkBalances st.balances fee
    let total ← dictGet st.balances fee.token
    let avg ← fdiv total nr
    pyAssert (avg ≥ cfg.minAvgFee) "validation.py:74"
    let ok ← allE (fun o => do
        let v ← o.feePaid cfg prices fee
        pure (decide (v ≥ cfg.minAbsFee)))
      (orders.filter (fun o => decide (o.sellToken ≠ fee.token ∧ o.buy > 0)))
    pyAssert (ok = true) "validation.py:77"
    pyAssert (∀ p ∈ st.accs, ∀ q ∈ p.2, q.2 ≥ 0) "validation.py:83"

end Dex
