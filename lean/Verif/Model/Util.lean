import Verif.Model.Py

/-! # Model of dex_open_solver/core/util.py -/

namespace Dex

/-- A Python value as it occurs in an instance. `other` is any leaf that is not a number or `str`
(`None`, `float`), kept opaque; `dec` is a `Decimal` (`json.load(..., parse_float=Decimal)`). -/
inductive PyVal
  | bool (b : Bool)
  | int (n : ℤ)
  | frac (q : ℚ)
  | dec (q : ℚ)
  | str (s : String)
  | other (tag : String)
  | list (l : List PyVal)
  | tuple (l : List PyVal)
  | dict (l : List (String × PyVal))

/-- `str(obj)` for an `int`. -/
def pyStrInt (n : ℤ) : String := toString n

/-- `str(obj)` for a `Fraction`: `"n"` or `"n/d"`. -/
def pyStrFrac (q : ℚ) : String :=
  if q.den = 1 then toString q.num else toString q.num ++ "/" ++ toString q.den

/-- `transformer` of `stringify_numeric` (core/util.py:17-20). `bool` is a subclass of `int`. -/
def stringifyLeaf : PyVal → PyVal
  | .bool b => .str (if b then "True" else "False")
  | .int n => .str (pyStrInt n)
  | .frac q => .str (pyStrFrac q)
  | v => v

mutual
/-- `transform` (core/util.py:5-13). -/
def transform (t : PyVal → PyVal) : PyVal → PyVal
  | .list l => t (.list (transformList t l))
  | .tuple l => t (.tuple (transformList t l))
  | .dict l => t (.dict (transformDict t l))
  | v => t v
/-- The list comprehension in `transform` (core/util.py:9, 11). -/
def transformList (t : PyVal → PyVal) : List PyVal → List PyVal
  | [] => []
  | v :: l => transform t v :: transformList t l
/-- The dict comprehension in `transform` (core/util.py:7). -/
def transformDict (t : PyVal → PyVal) : List (String × PyVal) → List (String × PyVal)
  | [] => []
  | (k, v) :: l => (k, transform t v) :: transformDict t l
end

/-- `stringify_numeric` (core/util.py:16-21). -/
def stringifyNumeric (v : PyVal) : PyVal := transform stringifyLeaf v

end Dex
