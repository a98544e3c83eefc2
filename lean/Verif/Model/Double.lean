import Verif.Model.Py
import Mathlib.Data.Int.Log
import Mathlib.Algebra.Order.Archimedean.Basic
import Mathlib.Data.Rat.Floor

/-! # Double precision numbers (IEEE 754 binary64) as the program meets them

`math.sqrt` is the only place where the rate search leaves exact arithmetic (token_pair_solver/xrate.py:19, 301: `F(sqrt(t))`). The argument is a
`Fraction`, which `math.sqrt` converts with `Fraction.__float__`, that is `numerator / denominator` (Python 3.7, numbers.py:287-289). The true
division of integers is correctly rounded and raises `OverflowError` if the result is too large (Objects/longobject.c, `long_true_divide`); the square root of
a double is correctly rounded (IEEE 754); `F` of a double is exact. -/

namespace Dex

/-- Nearest integer, halves to the even one. -/
def roundEven (q : ℚ) : ℤ :=
  let n := ⌊q⌋
  if q - n < 1 / 2 then n else if 1 / 2 < q - n then n + 1 else if n % 2 = 0 then n else n + 1

/-- Distance of the doubles around a positive number: 53 bits, or fewer below the smallest normal number. -/
def ulp (q : ℚ) : ℚ := 2 ^ (max (Int.log 2 q) (-1022) - 52)

/-- `float(q)` for `q ≥ 0` (`Fraction.__float__`, `long_true_divide`). -/
def toDouble (q : ℚ) : Py ℚ :=
  if q = 0 then .ok 0 else
    let x := roundEven (q / ulp q) * ulp q
    if x < 2 ^ (1024 : ℤ) then .ok x else .error .overflow

/-- The square root of a positive double, correctly rounded. -/
def doubleRoot (x : ℚ) : ℚ :=
  let u : ℚ := 2 ^ (Int.log 2 x / 2 - 52)
  let n := Nat.sqrt ⌊x / u ^ 2⌋.toNat
  (if ((n : ℚ) + 1 / 2) ^ 2 < x / u ^ 2 then n + 1 else n) * u

/-- `F(math.sqrt(t))` (xrate.py:301). -/
def pySqrt (t : ℚ) : Py ℚ :=
  if t < 0 then .error .valueError else do
    let x ← toDouble t
    if x = 0 then .ok 0 else .ok (doubleRoot x)

/-- `a / n` for a non-negative integer `a` and a positive integer `n` (core/validation.py:74). -/
def pyTrueDiv (a : ℚ) (n : ℕ) : Py ℚ := if n = 0 then .error .zeroDivision else toDouble (a / n)

end Dex
