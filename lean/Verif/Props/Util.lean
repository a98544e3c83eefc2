import Verif.Model.Util
import Mathlib.Data.Rat.Lemmas
import Std.Data.String.ToInt

/-! # Property C45: numeric stringification -/

namespace Dex

namespace Spec

/-- The direct components of a value. -/
def kids : PyVal → List PyVal
  | .list l => l
  | .tuple l => l
  | .dict l => l.map (·.2)
  | _ => []

/-- The component reached by following the positions. -/
def nodeAt : PyVal → List ℕ → Option PyVal
  | v, [] => some v
  | v, i :: p => ((kids v)[i]?).bind (fun c => nodeAt c p)

/-- What a node is, apart from its components. -/
inductive Shell
  | list (n : ℕ)
  | tuple (n : ℕ)
  | dict (keys : List String)
  | text (s : String)
  | opaque (tag : String)
  | number (q : ℚ)
  | truth (b : Bool)
  | fixed (q : ℚ)
deriving DecidableEq

/-- The shell of a node. -/
def shell : PyVal → Shell
  | .list l => .list l.length
  | .tuple l => .tuple l.length
  | .dict l => .dict (l.map (·.1))
  | .str s => .text s
  | .other t => .opaque t
  | .int n => .number n
  | .frac q => .number q
  | .dec q => .fixed q
  | .bool b => .truth b

/-- Decimal text of a fraction. -/
def decimal (q : ℚ) : String := if q.den = 1 then toString q.num else toString q.num ++ "/" ++ toString q.den

/-- Numbers become their text (truth values are integers in Python), everything else stays. -/
def textual : Shell → Shell
  | .number q => .text (decimal q)
  | .truth true => .text "True"
  | .truth false => .text "False"
  | s => s

end Spec

open Spec

theorem transformList_eq (t : PyVal → PyVal) (l : List PyVal) : transformList t l = l.map (transform t) := by
  induction l with
  | nil => rfl
  | cons v l ih => unfold transformList; rw [ih]; rfl

theorem transformDict_eq (t : PyVal → PyVal) (l : List (String × PyVal)) : transformDict t l = l.map (fun p => (p.1, transform t p.2)) := by
  induction l with
  | nil => rfl
  | cons v l ih => obtain ⟨k, v⟩ := v; unfold transformDict; rw [ih]; rfl

theorem stringify_list (l : List PyVal) : stringifyNumeric (.list l) = .list (l.map stringifyNumeric) := by
  show transform _ _ = _
  unfold transform
  rw [transformList_eq]; rfl

theorem stringify_tuple (l : List PyVal) : stringifyNumeric (.tuple l) = .tuple (l.map stringifyNumeric) := by
  show transform _ _ = _
  unfold transform
  rw [transformList_eq]; rfl

theorem stringify_dict (l : List (String × PyVal)) : stringifyNumeric (.dict l) = .dict (l.map (fun p => (p.1, stringifyNumeric p.2))) := by
  show transform _ _ = _
  unfold transform
  rw [transformDict_eq]; rfl

theorem kids_stringify (v : PyVal) : kids (stringifyNumeric v) = (kids v).map stringifyNumeric := by
  cases v with
  | list l => rw [stringify_list]; rfl
  | tuple l => rw [stringify_tuple]; rfl
  | dict l => rw [stringify_dict]; simp [kids]
  | bool b => rfl
  | int n => rfl
  | frac q => rfl
  | dec q => rfl
  | str s => rfl
  | other t => rfl

theorem shell_stringify (v : PyVal) : shell (stringifyNumeric v) = textual (shell v) := by
  cases v with
  | list l => rw [stringify_list]; simp [shell, textual]
  | tuple l => rw [stringify_tuple]; simp [shell, textual]
  | dict l => rw [stringify_dict]; simp [shell, textual]
  | bool b => cases b <;> rfl
  | int n =>
    show Shell.text (pyStrInt n) = Shell.text (decimal (n : ℚ))
    unfold decimal pyStrInt
    simp
  | frac q => rfl
  | dec q => rfl
  | str s => rfl
  | other t => rfl

/-- C45. At every position of a nested value of any depth: containers keep their kind, length and keys, numbers are replaced by their
decimal text, and every other leaf is kept. No position appears or disappears. -/
theorem C45_positions (v : PyVal) (p : List ℕ) :
    (nodeAt (stringifyNumeric v) p).map shell = (nodeAt v p).map (fun n => textual (shell n)) := by
  induction p generalizing v with
  | nil => simp [nodeAt, shell_stringify]
  | cons i p ih =>
    unfold nodeAt
    rw [kids_stringify, List.getElem?_map]
    cases h : (kids v)[i]? with
    | none => rfl
    | some c => exact ih c

mutual
theorem stringify_idem : ∀ v : PyVal, stringifyNumeric (stringifyNumeric v) = stringifyNumeric v
  | .list l => by rw [stringify_list, stringify_list, List.map_map, stringify_idem_list l]
  | .tuple l => by rw [stringify_tuple, stringify_tuple, List.map_map, stringify_idem_list l]
  | .dict l => by rw [stringify_dict, stringify_dict, List.map_map, stringify_idem_dict l]
  | .bool _ => rfl
  | .int _ => rfl
  | .frac _ => rfl
  | .dec _ => rfl
  | .str _ => rfl
  | .other _ => rfl
theorem stringify_idem_list : ∀ l : List PyVal, l.map (stringifyNumeric ∘ stringifyNumeric) = l.map stringifyNumeric
  | [] => rfl
  | v :: l => by rw [List.map_cons, List.map_cons, stringify_idem_list l, Function.comp, stringify_idem v]
theorem stringify_idem_dict : ∀ l : List (String × PyVal),
    l.map ((fun p => (p.1, stringifyNumeric p.2)) ∘ (fun p : String × PyVal => (p.1, stringifyNumeric p.2))) =
      l.map (fun p => (p.1, stringifyNumeric p.2))
  | [] => rfl
  | (k, v) :: l => by rw [List.map_cons, List.map_cons, stringify_idem_dict l]; simp only [Function.comp, stringify_idem v]
end

/-- C45. Stringification is idempotent. -/
theorem C45_idempotent (v : PyVal) : stringifyNumeric (stringifyNumeric v) = stringifyNumeric v := stringify_idem v

/-- C45. The text of an integer reads back as the integer. -/
theorem C45_int_text (n : ℤ) : stringifyNumeric (.int n) = .str (toString n) ∧ (toString n).toInt? = some n :=
  ⟨rfl, Int.toInt?_repr n⟩

/-- C45. The text of an integral fraction (such as an executed amount) is the text of the integer. -/
theorem C45_integral_fraction (n : ℤ) : stringifyNumeric (.frac n) = stringifyNumeric (.int n) := by
  show PyVal.str (pyStrFrac n) = PyVal.str (pyStrInt n)
  unfold pyStrFrac pyStrInt
  simp

/-- A nested value with numbers, truth values, texts and other leaves. -/
def ExStr.v : PyVal := .dict [("a", .list [.int (-12), .str "x", .tuple [.frac (3 / 7), .other "None"]]), ("b", .bool true), ("c", .frac 5)]

example : (nodeAt ExStr.v [0, 2, 0]).map shell = some (.number (3 / 7)) ∧
    (nodeAt (stringifyNumeric ExStr.v) [0, 2, 0]).map shell = some (.text "3/7") ∧
    (nodeAt (stringifyNumeric ExStr.v) [0, 0]).map shell = some (.text "-12") ∧
    (nodeAt (stringifyNumeric ExStr.v) []).map shell = some (.dict ["a", "b", "c"]) ∧
    (nodeAt (stringifyNumeric ExStr.v) [1]).map shell = some (.text "True") := by
  refine ⟨rfl, ?_, ?_, ?_, ?_⟩ <;> rw [C45_positions] <;> decide +kernel

end Dex
