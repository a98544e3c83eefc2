import Verif.Props.Frame

/-! # C72: one more order, or more money of a user, can destroy the solution

The price of the token bought is chosen by matching an artificial order that sells the imbalance with the orders selling the fee token
(solver.py:106-147, price.py:34-65). The comment there says that the price is such "that it is possible to sell the b_buy_token imbalance",
and that the attempts have "only one optimum" (solver.py:363-366). Neither holds: the price is the one with the largest objective on that small
market, which can be one at which the imbalance is not sold, and attempts are compared before rounding. The rounding then fails, and the
trivial solution is written although a solution exists.

The square root of these examples is the one of Python: both the conversion of the argument and the root are rounded to a double. -/

namespace Dex

open Spec

namespace ExDouble

/-- 2 to the power of an integer. -/
def pow2 (k : ℤ) : ℚ := if 0 ≤ k then ((2 ^ k.toNat : ℕ) : ℚ) else 1 / ((2 ^ (-k).toNat : ℕ) : ℚ)

/-- Exponent of the leading bit of a positive rational. -/
def log2 (q : ℚ) : ℤ :=
  let k : ℤ := (Nat.log2 q.num.toNat : ℤ) - Nat.log2 q.den
  if pow2 k ≤ q then k else k - 1

/-- Round half to even. -/
def roundEven (q : ℚ) : ℤ :=
  let n := ⌊q⌋
  if q - n < 1 / 2 then n else if 1 / 2 < q - n then n + 1 else if n % 2 = 0 then n else n + 1

/-- The double next to a positive rational (in the range of normal doubles). -/
def round (q : ℚ) : ℚ := let u : ℚ := pow2 (52 - log2 q); roundEven (q * u) / u

/-- The double next to the root of a positive rational. -/
def root (q : ℚ) : ℚ :=
  let u : ℚ := pow2 (52 - log2 q / 2)
  let n := Nat.sqrt ⌊q * u ^ 2⌋.toNat
  (if (n : ℚ) ^ 2 + n + 1 / 4 < q * u ^ 2 then n + 1 else n) / u

/-- `F(math.sqrt(q))`. -/
def sqrt (q : ℚ) : Py ℚ := if q < 0 then .error .valueError else if q = 0 then .ok 0 else if pow2 1023 < q then .error .overflow else .ok (root (round q))

example : sqrt 2 = .ok (6369051672525773 / 2 ^ 52) := by decide +kernel
example : sqrt (1 / 3) = .ok (1300077228592327 / 2 ^ 51) := by decide +kernel
example : sqrt (10 ^ 40) = .ok (10 ^ 20) := by decide +kernel

noncomputable def ext : Ext := { ExInst.ext with sqrt }

end ExDouble

namespace ExExtra

def sOrder : OrderDict := { accountID := "s", buyToken := "S", sellToken := "B", buyAmount := 50 * 10 ^ 18, sellAmount := 100 * 10 ^ 18 }
def bOrder (k : ℚ) : OrderDict := { accountID := "b", buyToken := "B", sellToken := "S", buyAmount := k * 10 ^ 18, sellAmount := 2 * k * 10 ^ 18 }
def fOrder (u : AccountId) (sell buy : ℚ) : OrderDict := { accountID := u, buyToken := "B", sellToken := "F", buyAmount := buy, sellAmount := sell }

/-- Orders on the pair B/S and one large fee order at 200 F for a B; `g` is the balance of a further user. -/
def inst (g : ℚ) (bs : List OrderDict) : Instance where
  accounts := [("b", [("S", 10 ^ 24)]), ("s", [("B", 10 ^ 24)]), ("f", [("F", 10 ^ 24)]), ("g", [("F", g)])]
  fee := { token := "F", value := 1 / 1000 }
  orders := sOrder :: bs ++ [fOrder "f" (200 * 10 ^ 18) (10 ^ 18)]

def small (g : ℚ) : Instance := inst g [bOrder 20, bOrder 15]

/-- The further user pays up to 1000 F for a B, five times as much. -/
def extra : OrderDict := fOrder "g" (42 * 10 ^ 18) (42 * 10 ^ 15)

/-- At most four orders may be executed. -/
def cfg4 : Config := { Config.default with maxNrExec := 4 }

def full : Instance := inst (10 ^ 24) [bOrder 20, bOrder 15, bOrder (1 / 2)]

/-- A tiny order that pays up to 300 F for a B. -/
def tiny : OrderDict := fOrder "g" (3 * 10 ^ 17) (10 ^ 15)

def add (i : Instance) (o : OrderDict) : Instance := { i with orders := i.orders ++ [o] }

end ExExtra

/-- A correct answer stays correct when orders are appended to the instance. -/
theorem Spec.DumpOk.append {cfg : Config} {inst : Instance} {d : Dump} (h : DumpOk cfg inst d) (os : List OrderDict) :
    DumpOk cfg { inst with orders := inst.orders ++ os } d := by
  obtain ⟨ks, h1, h2⟩ := h.orders
  refine ⟨⟨ks, h1, h2.imp ?_⟩, h.count, h.clearing, h.prices, h.balanced, h.feeToken, h.balances, h.nonneg, h.touched, h.disreg, h.fees, h.minAmounts, h.feePrice⟩
  rintro k e ⟨d0, hk, hd⟩
  refine ⟨d0, ?_, hd⟩
  rw [List.getElem?_append_left (by have := List.getElem?_eq_some_iff.1 hk; exact this.1)]
  exact hk

theorem dumpOk_of_run {cfg : Config} {ext : Ext} {inst : Instance} {pair : Token × Token} {d : Dump} (hc : CfgOk cfg) (hi : GoodInstance inst)
    (hne : pair.1 ≠ pair.2) (hbr : ∀ E, MaxBranching E (ext.branch E)) (h : tokenPairMain cfg ext inst pair none = .ok d) : DumpOk cfg inst d := by
  have h' := h
  unfold tokenPairMain at h'
  rw [bind_eq_ok] at h'
  obtain ⟨⟨accounts, bk, fee⟩, hl, _⟩ := h'
  exact (C44_token_pair hc hi hne hbr (by simp) hl).2 d h

/-- C72: a user who offers five times as much of the fee token for B, in an instance that is solved, makes the solver write the trivial
solution. The order was appended, nothing else changed; the answer for the smaller instance is a correct one for the larger instance too. -/
theorem C72_extra_order : let i := ExExtra.small (10 ^ 24); let i' := ExExtra.add i ExExtra.extra
    CfgOk Config.default ∧ (∀ E, MaxBranching E (ExDouble.ext.branch E)) ∧ GoodInstance i ∧ GoodInstance i' ∧ i'.orders = i.orders ++ [ExExtra.extra] ∧
    i'.accounts = i.accounts ∧ i'.fee = i.fee ∧
    ∃ d d', tokenPairMain Config.default ExDouble.ext i ("B", "S") none = .ok d ∧ tokenPairMain Config.default ExDouble.ext i' ("B", "S") none = .ok d' ∧
      0 < reportedObjective d ∧ DumpOk Config.default i' d ∧ d'.orders = [] ∧ d'.prices = [] := by
  intro i i'
  obtain ⟨d, h1, h2⟩ := exists_of_pyCheck (x := tokenPairMain Config.default ExDouble.ext i ("B", "S") none)
    (p := fun d => 0 < reportedObjective d) (by decide +kernel)
  obtain ⟨d', h3, h4⟩ := exists_of_pyCheck (x := tokenPairMain Config.default ExDouble.ext i' ("B", "S") none)
    (p := fun d : Dump => d.orders = [] ∧ d.prices = []) (by decide +kernel)
  have hc : CfgOk Config.default := by constructor <;> decide
  have hi : GoodInstance i := by constructor <;> decide +kernel
  exact ⟨hc, ExInst.branch_max, hi, by constructor <;> decide +kernel, rfl, rfl, rfl, d, d', h1, h3, h2,
    (dumpOk_of_run hc hi (by decide) ExInst.branch_max h1).append _, h4⟩

/-- C72: the same with the balance of a user: the instances differ in one balance, which is 0 in the first, and only the first is solved. -/
theorem C72_extra_balance : let i := ExExtra.add (ExExtra.small 0) ExExtra.extra; let i' := ExExtra.add (ExExtra.small (10 ^ 24)) ExExtra.extra
    CfgOk Config.default ∧ (∀ E, MaxBranching E (ExDouble.ext.branch E)) ∧ GoodInstance i ∧ GoodInstance i' ∧ i'.orders = i.orders ∧ i'.fee = i.fee ∧
    ∃ d d', tokenPairMain Config.default ExDouble.ext i ("B", "S") none = .ok d ∧ tokenPairMain Config.default ExDouble.ext i' ("B", "S") none = .ok d' ∧
      0 < reportedObjective d ∧ (∃ v, DumpOk Config.default i' v ∧ 0 < reportedObjective v) ∧ d'.orders = [] ∧ d'.prices = [] := by
  intro i i'
  obtain ⟨d, h1, h2⟩ := exists_of_pyCheck (x := tokenPairMain Config.default ExDouble.ext i ("B", "S") none)
    (p := fun d => 0 < reportedObjective d) (by decide +kernel)
  obtain ⟨_, _, _, hg, _, _, _, v, d', _, h3, hv, hok, h4⟩ := C72_extra_order
  exact ⟨by constructor <;> decide, ExInst.branch_max, by constructor <;> decide +kernel, hg, rfl, rfl, d, d', h1, h3, h2, ⟨v, hok, hv⟩, h4⟩

/-- C72: when the maximum number of orders binds, even a tiny order does it. The attempts with one and with two fee orders are compared before
rounding; the first, with the tiny order alone, has the larger objective, the loop stops at the second, and the first cannot be rounded. The same happens with the default bound of 30 and 32 orders (evaluated, not proved here: the kernel needs 7 GB). -/
theorem C72_tiny_order : let i := ExExtra.full; let i' := ExExtra.add i ExExtra.tiny
    CfgOk ExExtra.cfg4 ∧ (∀ E, MaxBranching E (ExDouble.ext.branch E)) ∧ GoodInstance i ∧ GoodInstance i' ∧ i'.orders = i.orders ++ [ExExtra.tiny] ∧
    i'.accounts = i.accounts ∧ i'.fee = i.fee ∧
    ∃ d d', tokenPairMain ExExtra.cfg4 ExDouble.ext i ("B", "S") none = .ok d ∧ tokenPairMain ExExtra.cfg4 ExDouble.ext i' ("B", "S") none = .ok d' ∧
      0 < reportedObjective d ∧ DumpOk ExExtra.cfg4 i' d ∧ d'.orders = [] ∧ d'.prices = [] := by
  intro i i'
  obtain ⟨d, h1, h2⟩ := exists_of_pyCheck (x := tokenPairMain ExExtra.cfg4 ExDouble.ext i ("B", "S") none)
    (p := fun d => 0 < reportedObjective d) (by decide +kernel)
  obtain ⟨d', h3, h4⟩ := exists_of_pyCheck (x := tokenPairMain ExExtra.cfg4 ExDouble.ext i' ("B", "S") none)
    (p := fun d : Dump => d.orders = [] ∧ d.prices = []) (by decide +kernel)
  have hc : CfgOk ExExtra.cfg4 := by constructor <;> decide
  have hi : GoodInstance i := by constructor <;> decide +kernel
  exact ⟨hc, ExInst.branch_max, hi, by constructor <;> decide +kernel, rfl, rfl, rfl, d, d', h1, h3, h2,
    (dumpOk_of_run hc hi (by decide) ExInst.branch_max h1).append _, h4⟩

/-- Without the bound the same tiny order is harmless. -/
example : ∃ d, tokenPairMain Config.default ExDouble.ext (ExExtra.add ExExtra.full ExExtra.tiny) ("B", "S") none = .ok d ∧ 0 < reportedObjective d ∧ d.orders.length = 6 :=
  exists_of_pyCheck (p := fun d => 0 < reportedObjective d ∧ d.orders.length = 6) (by decide +kernel)

end Dex
