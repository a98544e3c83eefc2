import Verif.Model.FloatText

/-! # Model of the numbers in the log (core/util.py:24-62)

`LoggerFormatter.format` turns every `Fraction` among the arguments of a message into a `PrettyFloat`, or with `--log-rationals` into a `PrettyFraction`, and
then inserts the arguments into the message with `%`. The messages of the package use the conversions `%s` and `%d` (with widths, which only add blanks).
An exception raised while a message is formatted is caught by the logging library (`Handler.handleError`): the line is missing, the run goes on. -/

namespace Dex

/-- The four digits of a positive double in scientific notation, and the exponent. -/
def sciDigits (x : ℚ) : ℤ × ℤ :=
  let e := Int.log 10 x
  let n := roundEven (x / 10 ^ (e - 3))
  if n = 10000 then (1000, e + 1) else (n, e)

/-- `'%.3e' % x` for a double `x ≥ 0` (core/util.py:26). -/
def sciText (x : ℚ) : List Char :=
  if x = 0 then "0.000e+00".toList else
    let (n, e) := sciDigits x
    let ds := Nat.toDigits 10 n.toNat
    ds.take 1 ++ '.' :: ds.drop 1 ++ 'e' :: (if e < 0 then '-' else '+') :: expDigits e.natAbs

/-- `'%s'` of a `Fraction`: as `PrettyFraction` (core/util.py:32-37, 52-55) or `PrettyFloat` (core/util.py:24-29, 47-50). -/
def logNumber (rationals : Bool) (q : ℚ) : Py String :=
  if rationals then .ok (pyStrFrac q) else do
    let x ← toDouble |q|
    pure (String.ofList (if q < 0 then '-' :: sciText x else sciText x))

/-- The integer that `'%d'` shows for a `Fraction`: both classes are truncated. -/
def logInteger (rationals : Bool) (q : ℚ) : Py ℤ :=
  if rationals then .ok (pyInt q) else do
    let x ← toDouble |q|
    pure (if q < 0 then -pyInt x else pyInt x)

mutual
/-- The text of a value inside a list, tuple or dict. `leaf` is `repr` of the values that `transform` (core/util.py:5-13) leaves as they are. -/
def logRepr (rationals : Bool) (leaf : PyVal → String) : PyVal → Py String
  | .frac q => logNumber rationals q
  | .list l => do
    let ts ← logReprs rationals leaf l
    pure ("[" ++ ", ".intercalate ts ++ "]")
  | .tuple l => do
    let ts ← logReprs rationals leaf l
    pure ("(" ++ ", ".intercalate ts ++ (if ts.length = 1 then ",)" else ")"))
  | .dict l => do
    let ts ← logEntries rationals leaf l
    pure ("{" ++ ", ".intercalate ts ++ "}")
  | v => .ok (leaf v)
/-- The texts of the elements. -/
def logReprs (rationals : Bool) (leaf : PyVal → String) : List PyVal → Py (List String)
  | [] => .ok []
  | v :: l => do
    let t ← logRepr rationals leaf v
    let ts ← logReprs rationals leaf l
    pure (t :: ts)
/-- The texts of the entries. -/
def logEntries (rationals : Bool) (leaf : PyVal → String) : List (String × PyVal) → Py (List String)
  | [] => .ok []
  | (k, v) :: l => do
    let t ← logRepr rationals leaf v
    let ts ← logEntries rationals leaf l
    pure ((leaf (.str k) ++ ": " ++ t) :: ts)
end

/-- `'%s'` of an argument of a message. -/
def logText (rationals : Bool) (leaf : PyVal → String) : PyVal → Py String
  | .str s => .ok s
  | v => logRepr rationals leaf v

/-- A line of the log (core/util.py:62). -/
def logLine (levelname module msg : String) : String :=
  levelname ++ String.ofList (List.replicate (7 - levelname.length) ' ') ++ "::" ++ module ++
    String.ofList (List.replicate (11 - module.length) ' ') ++ ": " ++ msg

end Dex
