import Verif.Model.Json

/-! # Model of the conversions applied to numbers given as text

`Fraction(s)` and `int(s)` of the Python library (3.7, the version of docker/Dockerfile), as used in core/order.py:111-118, core/api.py:23, 81,
core/orderbook.py:145, 227-228, core/validation.py:48 and for the options of type `F` in match.py:44-56 and token_pair_solver/solver.py:543-547.
Simplification: only ASCII digits and blanks count as digits and blanks (Python accepts other decimal digits and blanks of Unicode too). -/

namespace Dex

/-- A blank (`\s` of `re`, `str.isspace`), within ASCII. -/
def isBlank (c : Char) : Bool := c = ' ' || c = '\t' || c = '\n' || c = '\r' || c = '\x0b' || c = '\x0c' || c = '\x1c' || c = '\x1d' || c = '\x1e' || c = '\x1f'

/-- The text without blanks at both ends. -/
def stripBlanks (s : List Char) : List Char := ((s.dropWhile isBlank).reverse.dropWhile isBlank).reverse

/-- An optional sign: whether the number is negative, and the rest. -/
def takeSign : List Char → Bool × List Char
  | [] => (false, [])
  | c :: r => if c = '-' then (true, r) else if c = '+' then (false, r) else (false, c :: r)

/-- The number with the given decimal digits. -/
def digitsVal (l : List Char) : ℕ := Nat.ofDigitChars 10 l 0

/-- Digits, with single underscores between them: `afterDigit` says whether the character before was a digit. -/
def intDigits : Bool → List Char → Bool
  | afterDigit, [] => afterDigit
  | afterDigit, c :: r => if c.isDigit then intDigits true r else c = '_' && afterDigit && intDigits false r

/-- `int(s)`. -/
def pyIntText (s : String) : Py ℤ :=
  let (neg, r) := takeSign (stripBlanks s.toList)
  if intDigits false r then
    let n : ℤ := digitsVal (r.filter Char.isDigit)
    .ok (if neg then -n else n)
  else .error .valueError

/-- The optional exponent at the end: `(?:E(?P<exp>[-+]?\d+))?`. -/
def fracExponent : List Char → Option ℤ
  | [] => some 0
  | c :: r =>
    if c = 'e' ∨ c = 'E' then
      let (neg, ds) := takeSign r
      if ds ≠ [] ∧ ds.all Char.isDigit then some (if neg then -(digitsVal ds : ℤ) else digitsVal ds) else none
    else none

/-- The lookahead `(?=\d|\.\d)`. -/
def startsNumber : List Char → Bool
  | [] => false
  | c :: r => c.isDigit || (c = '.' && match r with
    | [] => false
    | d :: _ => d.isDigit)

/-- The number after the sign: digits, then `/` and digits, or an optional fractional part and an optional exponent. -/
def unsignedFraction (r : List Char) : Py ℚ :=
  let num : ℚ := digitsVal (r.takeWhile Char.isDigit)
  if startsNumber r then
    match r.dropWhile Char.isDigit with
    | [] => .ok num
    | c :: r' =>
      if c = '/' then
        if r' ≠ [] ∧ r'.all Char.isDigit then pyDiv num (digitsVal r') else .error .valueError
      else
        let dec := if c = '.' then r'.takeWhile Char.isDigit else []
        let rest := if c = '.' then r'.dropWhile Char.isDigit else c :: r'
        match fracExponent rest with
        | none => .error .valueError
        | some e => .ok ((num + digitsVal dec / 10 ^ dec.length) * 10 ^ e)
  else .error .valueError

/-- `Fraction(s)` (library `fractions`, `_RATIONAL_FORMAT`). -/
def pyFractionText (s : String) : Py ℚ := do
  let (neg, r) := takeSign (stripBlanks s.toList)
  let q ← unsignedFraction r
  pure (if neg then -q else q)

/-- `Fraction(v)`. Simplification: the leaves that are neither numbers nor text (`null`, and `NaN` or `Infinity`, which are no json) all
raise `TypeError`. -/
def pyFraction : PyVal → Py ℚ
  | .bool b => .ok (if b then 1 else 0)
  | .int n => .ok n
  | .frac q => .ok q
  | .dec q => .ok q
  | .str s => pyFractionText s
  | _ => .error .typeError

/-- `int(v)`, with the same simplification. -/
def pyIntOf : PyVal → Py ℤ
  | .bool b => .ok (if b then 1 else 0)
  | .int n => .ok n
  | .frac q => .ok (pyInt q)
  | .dec q => .ok (pyInt q)
  | .str s => pyIntText s
  | _ => .error .typeError

/-- The conversions of the library; `float(v)` remains a parameter. -/
def pyConv (toFloat : PyVal → Py PyVal) : Conv := { toF := pyFraction, toInt := pyIntOf, toFloat }

end Dex
