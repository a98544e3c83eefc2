import Verif.Model.Double
import Verif.Model.Number

/-! # Doubles as text

`float(instance['fee']['ratio'])` (core/api.py:75) and the way `json.dump` writes its result: `float.__repr__` (Python 3.7, Objects/floatobject.c
`float_repr`, Python/pystrtod.c `format_float_short` with the code `r`), that is the shortest decimal number that is read as the same double, and of those the
nearest (Python/dtoa.c, mode 0). -/

namespace Dex

/-- The shortest decimal number `m * 10 ^ j` that is read as the positive double `x`, tried with `n` significant digits, then with more
(`_Py_dg_dtoa`, mode 0). -/
def shortDigits (x : ℚ) : ℕ → ℕ → Py (ℤ × ℤ)
  | 0, _ => .error .diverge
  | fuel + 1, n =>
    let j := Int.log 10 x + 1 - n
    let u : ℚ := 10 ^ j
    let near := roundEven (x / u)
    let far := if near = ⌊x / u⌋ then near + 1 else near - 1
    if toDouble (near * u) = .ok x then .ok (near, j)
    else if toDouble (far * u) = .ok x then .ok (far, j)
    else shortDigits x fuel (n + 1)

/-- One digit that was rounded up to ten is a one at the next place. -/
def normDigits (p : ℤ × ℤ) : ℤ × ℤ := if p.1 = 10 then (1, p.2 + 1) else p

/-- The digits of an exponent, at least two. -/
def expDigits (n : ℕ) : List Char := if n < 10 then '0' :: Nat.toDigits 10 n else Nat.toDigits 10 n

/-- `format_float_short`: the digits `ds`, with the point after the first `point` of them. -/
def layout (ds : List Char) (point : ℤ) : List Char :=
  if -4 < point ∧ point ≤ 16 then
    if point ≤ 0 then '0' :: '.' :: List.replicate (-point).toNat '0' ++ ds
    else if point < ds.length then ds.take point.toNat ++ '.' :: ds.drop point.toNat
    else ds ++ List.replicate (point.toNat - ds.length) '0' ++ ['.', '0']
  else
    let e := point - 1
    ds.take 1 ++ (if ds.length = 1 then [] else '.' :: ds.drop 1) ++ 'e' :: (if e < 0 then '-' else '+') :: expDigits e.natAbs

/-- `repr(x)` for a double `x ≥ 0`. -/
def floatText (x : ℚ) : Py (List Char) :=
  if x = 0 then .ok ['0', '.', '0'] else do
    let p ← shortDigits x 17 1
    let (m, j) := normDigits p
    let ds := Nat.toDigits 10 m.toNat
    pure (layout ds (ds.length + j))

/-- `float(q)` as it is written, for a number of either sign: `big` is what becomes of numbers that are too large. -/
def floatLeaf (big : Bool → Py PyVal) (q : ℚ) : Py PyVal :=
  match toDouble |q| with
  | .ok x => do
    let s ← floatText x
    pure (.other (String.ofList (if q < 0 then '-' :: s else s)))
  | .error _ => big (q < 0)

/-- Text and `Decimal` that are too large become infinite. -/
def floatInf (neg : Bool) : Py PyVal := .ok (.other (if neg then "-Infinity" else "Infinity"))

/-- `int` and `Fraction` that are too large raise `OverflowError`. -/
def floatBig (_ : Bool) : Py PyVal := .error .overflow

/-- `float(s)` for a text that is a number for `Fraction`. Simplification: the other texts that `float` reads (with underscores, or naming infinity) count as
errors; `load_fee` has already refused them (core/api.py:23). -/
def pyFloatText (s : String) : Py PyVal :=
  if '/' ∈ s.toList then .error .valueError else do
    let q ← pyFractionText s
    floatLeaf floatInf q

/-- `float(v)`; the result is the leaf that is written for it. Simplifications: negative zero as `Decimal` (`-0.0`) counts as zero; the conversion of
`null` and of the constants `NaN` and `Infinity`, which `load_fee` has already refused, as in `pyFraction`. -/
def pyFloat : PyVal → Py PyVal
  | .bool b => floatLeaf floatBig (if b then 1 else 0)
  | .int n => floatLeaf floatBig n
  | .frac q => floatLeaf floatBig q
  | .dec q => floatLeaf floatInf q
  | .str s => pyFloatText s
  | .other s => if s = "NaN" ∨ s = "Infinity" ∨ s = "-Infinity" then .ok (.other s) else .error .typeError
  | _ => .error .typeError

end Dex
