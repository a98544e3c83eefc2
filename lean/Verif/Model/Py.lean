import Mathlib.Data.Rat.Floor
import Mathlib.Data.List.Sort
import Mathlib.Data.String.Basic

/-!
# Python run-time vocabulary

Exceptions as values, exact arithmetic, list indexing, dict operations.
Nothing here models a particular function of /repo; it models the Python primitives the code uses.
-/

namespace Dex

/-- Exceptions the modelled code can raise. `diverge` is not a Python exception: it marks a `while`
loop that used up its fuel, i.e. did not terminate within the bound computed from the input. -/
inductive PyErr
  | assertion (site : String)
  | zeroDivision
  | keyError
  | indexError
  | valueError
  | attributeError
  | typeError
  | overflow
  | diverge
deriving DecidableEq, Repr

/-- A Python computation: a value or an exception. -/
abbrev Py (α : Type) := Except PyErr α

/-- `assert c`. -/
def pyAssert (c : Prop) [Decidable c] (site : String) : Py Unit :=
  if c then .ok () else .error (.assertion site)

/-- `a / b` on exact rationals (`Fraction`). -/
def pyDiv (a b : ℚ) : Py ℚ :=
  if b = 0 then .error .zeroDivision else .ok (a / b)

/-- `a // b` on exact rationals: Python's `Fraction.__floordiv__` returns an `int`. -/
def pyFloorDiv (a b : ℚ) : Py ℤ :=
  if b = 0 then .error .zeroDivision else .ok ⌊a / b⌋

/-- `a % b` on exact rationals: `a - b * (a // b)`. -/
def pyMod (a b : ℚ) : Py ℚ :=
  if b = 0 then .error .zeroDivision else .ok (a - b * ⌊a / b⌋)

/-- Position denoted by the Python index `i` into a sequence of length `n`
(negative indices count from the end). -/
def pyIndex (n : ℕ) (i : ℤ) : Py ℕ :=
  if 0 ≤ i then (if i.toNat < n then .ok i.toNat else .error .indexError)
  else if (-i).toNat ≤ n then .ok (n - (-i).toNat) else .error .indexError

/-- `l[i]`. -/
def pyGet {α : Type} (l : List α) (i : ℤ) : Py α :=
  match pyIndex l.length i with
  | .error e => .error e
  | .ok k => match l[k]? with
    | some a => .ok a
    | none => .error .indexError

/-- `l[i]` replaced by `f(l[i])` (attribute assignment on a list element). -/
def pyModify {α : Type} (l : List α) (i : ℤ) (f : α → α) : Py (List α) :=
  match pyIndex l.length i with
  | .error e => .error e
  | .ok k => .ok (l.modify k f)

/-- List comprehension `[f(a) for a in l]`. -/
def mapE {α β : Type} (f : α → Py β) : List α → Py (List β)
  | [] => .ok []
  | a :: l => do
    let b ← f a
    let bs ← mapE f l
    pure (b :: bs)

/-- List comprehension `[a for a in l if p(a)]`. -/
def filterE {α : Type} (p : α → Py Bool) : List α → Py (List α)
  | [] => .ok []
  | a :: l => do
    let b ← p a
    let as ← filterE p l
    pure (if b then a :: as else as)

/-- `sum(f(a) for a in l)`. -/
def sumE {α : Type} (f : α → Py ℚ) : List α → Py ℚ
  | [] => .ok 0
  | a :: l => do
    let x ← f a
    let s ← sumE f l
    pure (x + s)

/-- `all(p(a) for a in l)` (short-circuits at the first `False`). -/
def allE {α : Type} (p : α → Py Bool) : List α → Py Bool
  | [] => .ok true
  | a :: l => do
    let b ← p a
    if b then allE p l else pure false

/-- `any(p(a) for a in l)` (short-circuits at the first `True`). -/
def anyE {α : Type} (p : α → Py Bool) : List α → Py Bool
  | [] => .ok false
  | a :: l => do
    let b ← p a
    if b then pure true else anyE p l

/-- `for a in l: st = f(st, a)`. -/
def foldE {α σ : Type} (f : σ → α → Py σ) : σ → List α → Py σ
  | st, [] => .ok st
  | st, a :: l => do
    let st' ← f st a
    foldE f st' l

/-- First maximal element, scanning with the best so far. -/
def maxByAux {α : Type} (key : α → ℚ) : α → List α → α
  | best, [] => best
  | best, a :: l => maxByAux key (if key best < key a then a else best) l

/-- `max(l, key=key)`: first maximal element, `ValueError` on an empty sequence. -/
def pyMaxBy {α : Type} (key : α → ℚ) : List α → Py α
  | [] => .error .valueError
  | a :: l => .ok (maxByAux key a l)

/-- First minimal element, scanning with the best so far. -/
def minByAux {α : Type} (key : α → ℚ) : α → List α → α
  | best, [] => best
  | best, a :: l => minByAux key (if key a < key best then a else best) l

/-- `min(l, key=key)`: first minimal element, `ValueError` on an empty sequence. -/
def pyMinBy {α : Type} (key : α → ℚ) : List α → Py α
  | [] => .error .valueError
  | a :: l => .ok (minByAux key a l)

/-- `sorted(l, key=key)` (stable). -/
def pySortBy {α : Type} (key : α → ℚ) (l : List α) : List α :=
  l.insertionSort (fun a b => key a ≤ key b)

/-- `sorted(l, key=key, reverse=True)` (stable: equal keys keep their order). -/
def pySortByRev {α : Type} (key : α → ℚ) (l : List α) : List α :=
  l.insertionSort (fun a b => key b ≤ key a)

/-! ### Dicts: association lists with distinct keys, in insertion order -/

/-- A Python dict. -/
abbrev Dict (κ υ : Type) := List (κ × υ)

/-- `d.get(k)`. -/
def dictGet? {κ υ : Type} [DecidableEq κ] (d : Dict κ υ) (k : κ) : Option υ :=
  (d.find? (fun p => p.1 = k)).map (·.2)

/-- `d[k]`. -/
def dictGet {κ υ : Type} [DecidableEq κ] (d : Dict κ υ) (k : κ) : Py υ :=
  match dictGet? d k with
  | some v => .ok v
  | none => .error .keyError

/-- `d[k] = v`. -/
def dictSet {κ υ : Type} [DecidableEq κ] : Dict κ υ → κ → υ → Dict κ υ
  | [], k, v => [(k, v)]
  | (k', v') :: d, k, v => if k' = k then (k', v) :: d else (k', v') :: dictSet d k v

/-- `d.keys()`. -/
def dictKeys {κ υ : Type} (d : Dict κ υ) : List κ := d.map (·.1)

end Dex
