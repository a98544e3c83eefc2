import Verif.Model.Number

/-! # Model of the text of json files

`json.load(file, parse_float=Decimal)` (token_pair_solver/solver.py:501, best_token_pair_solver/solver.py:101) and
`json.dump(instance, file, indent=4)` (core/api.py:99) of the Python library (3.7): the scanner of `_json.c` (`scanstring_unicode`,
`_match_number_unicode`, `_parse_object_unicode`, `_parse_array_unicode`, `scan_once_unicode`), `JSONDecoder.decode`, and `_make_iterencode`.
Simplifications: a file is its sequence of characters (encoding is not modelled); texts with an escape of a surrogate that is not half of a pair
are outside the model (`JsonErr.surrogate`), as Lean characters are Unicode scalar values; the limits on nesting depth and on the exponent
of a `Decimal` are not modelled; a `Decimal` is its value. -/

namespace Dex

/-- What reading a json text raises: `decode` is `JSONDecodeError`, `surrogate` marks texts outside the model. -/
inductive JsonErr
  | decode
  | surrogate
  | diverge
deriving DecidableEq, Repr

/-! ### Reading -/

/-- The blanks of json (`WHITESPACE` of `json.decoder`). -/
def isJsonBlank (c : Char) : Bool := c = ' ' || c = '\t' || c = '\n' || c = '\r'

/-- The text after blanks. -/
def skipBlanks (s : List Char) : List Char := s.dropWhile isJsonBlank

/-- The value of a hexadecimal digit. -/
def hexVal (c : Char) : Option ℕ :=
  if '0' ≤ c ∧ c ≤ '9' then some (c.toNat - 48)
  else if 'a' ≤ c ∧ c ≤ 'f' then some (c.toNat - 87)
  else if 'A' ≤ c ∧ c ≤ 'F' then some (c.toNat - 55)
  else none

/-- Four hexadecimal digits. -/
def hex4 : List Char → Option (ℕ × List Char)
  | a :: b :: c :: d :: r => do
    let a ← hexVal a
    let b ← hexVal b
    let c ← hexVal c
    let d ← hexVal d
    some (((a * 16 + b) * 16 + c) * 16 + d, r)
  | _ => none

/-- The character written as a backslash and a letter. -/
def shortEscape (e : Char) : Option Char :=
  if e = '"' then some '"'
  else if e = '\\' then some '\\'
  else if e = '/' then some '/'
  else if e = 'b' then some '\x08'
  else if e = 'f' then some '\x0c'
  else if e = 'n' then some '\n'
  else if e = 'r' then some '\r'
  else if e = 't' then some '\t'
  else none

/-- One step in a text in quotes: the closing quote, a character, or an error. -/
inductive StrStep
  | stop (r : List Char)
  | char (c : Char) (r : List Char)
  | fail (e : JsonErr)

/-- The second half of a surrogate pair, after the first half `n`. -/
def scanPair (n : ℕ) : List Char → StrStep
  | a :: b :: r =>
    if a = '\\' ∧ b = 'u' then
      match hex4 r with
      | none => .fail .decode
      | some (m, r) => if 0xDC00 ≤ m ∧ m ≤ 0xDFFF then .char (Char.ofNat (0x10000 + (n - 0xD800) * 0x400 + (m - 0xDC00))) r else .fail .surrogate
    else .fail .surrogate
  | _ => .fail .surrogate

/-- After `\u`. -/
def scanCode (s : List Char) : StrStep :=
  match hex4 s with
  | none => .fail .decode
  | some (n, r) =>
    if 0xD800 ≤ n ∧ n ≤ 0xDBFF then scanPair n r
    else if 0xDC00 ≤ n ∧ n ≤ 0xDFFF then .fail .surrogate
    else .char (Char.ofNat n) r

/-- After a backslash. -/
def scanEscape : List Char → StrStep
  | [] => .fail .decode
  | e :: r =>
    if e = 'u' then scanCode r
    else
      match shortEscape e with
      | some c => .char c r
      | none => .fail .decode

/-- One character of a text in quotes (`scanstring_unicode`, strict: control characters are errors). -/
def scanChar : List Char → StrStep
  | [] => .fail .decode
  | c :: r =>
    if c = '"' then .stop r
    else if c = '\\' then scanEscape r
    else if c.toNat < 0x20 then .fail .decode
    else .char c r

/-- `scanstring_unicode`, after the opening quote. -/
def scanString : ℕ → List Char → Except JsonErr (List Char × List Char)
  | 0, _ => .error .diverge
  | n + 1, s =>
    match scanChar s with
    | .stop r => .ok ([], r)
    | .char c r => do
      let (cs, r) ← scanString n r
      .ok (c :: cs, r)
    | .fail e => .error e

/-- The fractional part of a number, if there is one. -/
def scanPoint : List Char → Option (List Char) × List Char
  | [] => (none, [])
  | c :: r => if c = '.' ∧ r.takeWhile Char.isDigit ≠ [] then (some (r.takeWhile Char.isDigit), r.dropWhile Char.isDigit) else (none, c :: r)

/-- The exponent of a number, if there is one. -/
def scanExponent : List Char → Option ℤ × List Char
  | [] => (none, [])
  | c :: r =>
    let (neg, ds) := takeSign r
    if (c = 'e' ∨ c = 'E') ∧ ds.takeWhile Char.isDigit ≠ [] then
      (some (if neg then -(digitsVal (ds.takeWhile Char.isDigit) : ℤ) else digitsVal (ds.takeWhile Char.isDigit)), ds.dropWhile Char.isDigit)
    else (none, c :: r)

/-- An optional minus sign. -/
def takeMinus : List Char → Bool × List Char
  | [] => (false, [])
  | c :: r => if c = '-' then (true, r) else (false, c :: r)

/-- The integer part: a zero, or digits. -/
def scanWhole : List Char → List Char × List Char
  | [] => ([], [])
  | c :: r => if c = '0' then ([c], r) else ((c :: r).takeWhile Char.isDigit, (c :: r).dropWhile Char.isDigit)

/-- `_match_number_unicode`, with `parse_float=Decimal`. -/
def scanNumber (s : List Char) : Except JsonErr (PyVal × List Char) :=
  let (neg, r) := takeMinus s
  let (whole, r) := scanWhole r
  if whole = [] then .error .decode
  else
    let (point, r) := scanPoint r
    let (expo, r) := scanExponent r
    if point = none ∧ expo = none then .ok (.int (if neg then -(digitsVal whole : ℤ) else digitsVal whole), r)
    else
      let ds := point.getD []
      let q : ℚ := (digitsVal whole + digitsVal ds / 10 ^ ds.length) * 10 ^ expo.getD 0
      .ok (.dec (if neg then -q else q), r)

/-- The constants `scan_once_unicode` knows. -/
def jsonConstants : List (String × PyVal) :=
  [("null", .other "null"), ("true", .bool true), ("false", .bool false), ("NaN", .other "NaN"), ("Infinity", .other "Infinity"),
    ("-Infinity", .other "-Infinity")]

/-- The constant the text begins with. -/
def scanConstant (s : List Char) : List (String × PyVal) → Option (PyVal × List Char)
  | [] => none
  | (k, v) :: l => if k.toList.isPrefixOf s then some (v, s.drop k.toList.length) else scanConstant s l

mutual
/-- `scan_once_unicode`. -/
def scanValue : ℕ → List Char → Except JsonErr (PyVal × List Char)
  | 0, _ => .error .diverge
  | n + 1, s =>
    match s with
    | [] => .error .decode
    | c :: r =>
      if c = '"' then do
        let (k, r) ← scanString n r
        .ok (.str (String.ofList k), r)
      else if c = '{' then
        match skipBlanks r with
        | [] => .error .decode
        | d :: r' => if d = '}' then .ok (.dict [], r') else scanMembers n [] (d :: r')
      else if c = '[' then
        match skipBlanks r with
        | [] => .error .decode
        | d :: r' => if d = ']' then .ok (.list [], r') else scanItems n [] (d :: r')
      else
        match scanConstant (c :: r) jsonConstants with
        | some x => .ok x
        | none => scanNumber (c :: r)
/-- The loop of `_parse_array_unicode`; `acc` holds the values so far. -/
def scanItems : ℕ → List PyVal → List Char → Except JsonErr (PyVal × List Char)
  | 0, _, _ => .error .diverge
  | n + 1, acc, s => do
    let (v, r) ← scanValue n s
    match skipBlanks r with
    | [] => .error .decode
    | c :: r =>
      if c = ']' then .ok (.list (acc ++ [v]), r)
      else if c = ',' then scanItems n (acc ++ [v]) (skipBlanks r)
      else .error .decode
/-- The loop of `_parse_object_unicode`; `acc` is the dict so far (a repeated key is assigned again). -/
def scanMembers : ℕ → Dict String PyVal → List Char → Except JsonErr (PyVal × List Char)
  | 0, _, _ => .error .diverge
  | n + 1, acc, s =>
    match s with
    | [] => .error .decode
    | q :: r =>
      if q ≠ '"' then .error .decode
      else do
        let (k, r) ← scanString n r
        match skipBlanks r with
        | [] => .error .decode
        | c :: r =>
          if c ≠ ':' then .error .decode
          else do
            let (v, r) ← scanValue n (skipBlanks r)
            let acc := dictSet acc (String.ofList k) v
            match skipBlanks r with
            | [] => .error .decode
            | c :: r =>
              if c = '}' then .ok (.dict acc, r)
              else if c = ',' then scanMembers n acc (skipBlanks r)
              else .error .decode
end

/-- `json.loads` (`JSONDecoder.decode`): blanks, a value, blanks, and nothing else. A text that begins with a byte order mark is rejected. -/
def jsonLoads (s : List Char) : Except JsonErr PyVal :=
  if s.head? = some '\ufeff' then .error .decode
  else do
    let (v, r) ← scanValue (2 * s.length + 1) (skipBlanks s)
    if skipBlanks r = [] then .ok v else .error .decode

/-! ### Writing -/

/-- A hexadecimal digit. -/
def hexDigit (n : ℕ) : Char := Char.ofNat (if n < 10 then 48 + n else 87 + n)

/-- `'\\u{0:04x}'.format(n)`. -/
def dumpCode (n : ℕ) : List Char :=
  ['\\', 'u', hexDigit (n / 4096 % 16), hexDigit (n / 256 % 16), hexDigit (n / 16 % 16), hexDigit (n % 16)]

/-- One character in `encode_basestring_ascii`. -/
def dumpChar (c : Char) : List Char :=
  if c = '"' then ['\\', '"']
  else if c = '\\' then ['\\', '\\']
  else if ' ' ≤ c ∧ c ≤ '~' then [c]
  else if c = '\n' then ['\\', 'n']
  else if c = '\r' then ['\\', 'r']
  else if c = '\t' then ['\\', 't']
  else if c = '\x0c' then ['\\', 'f']
  else if c = '\x08' then ['\\', 'b']
  else if c.toNat < 0x10000 then dumpCode c.toNat
  else dumpCode (0xD800 + (c.toNat - 0x10000) / 0x400 % 0x400) ++ dumpCode (0xDC00 + (c.toNat - 0x10000) % 0x400)

/-- `encode_basestring_ascii`. -/
def dumpString (s : String) : List Char := '"' :: s.toList.flatMap dumpChar ++ ['"']

/-- The line break and the indentation at a level (`indent=4`). -/
def newLine (level : ℕ) : List Char := '\n' :: List.replicate (4 * level) ' '

mutual
/-- `_iterencode` of `_make_iterencode`. The tag of a leaf that is neither a number nor text is what is written for it. -/
def dumpValue (level : ℕ) : PyVal → List Char
  | .bool b => (if b then "true" else "false").toList
  | .int n => (pyStrInt n).toList
  | .frac _ => []
  | .dec _ => []
  | .str s => dumpString s
  | .other s => s.toList
  | .list [] => ['[', ']']
  | .list (v :: l) => '[' :: newLine (level + 1) ++ dumpValue (level + 1) v ++ dumpItems (level + 1) l ++ newLine level ++ [']']
  | .tuple [] => ['[', ']']
  | .tuple (v :: l) => '[' :: newLine (level + 1) ++ dumpValue (level + 1) v ++ dumpItems (level + 1) l ++ newLine level ++ [']']
  | .dict [] => ['{', '}']
  | .dict ((k, v) :: l) =>
    '{' :: newLine (level + 1) ++ dumpString k ++ ':' :: ' ' :: dumpValue (level + 1) v ++ dumpMembers (level + 1) l ++ newLine level ++ ['}']
/-- The loop of `_iterencode_list` after the first value: a comma and a new line before each value. -/
def dumpItems (level : ℕ) : List PyVal → List Char
  | [] => []
  | v :: l => ',' :: newLine level ++ dumpValue level v ++ dumpItems level l
/-- The loop of `_iterencode_dict` after the first entry. -/
def dumpMembers (level : ℕ) : List (String × PyVal) → List Char
  | [] => []
  | (k, v) :: l => ',' :: newLine level ++ dumpString k ++ ':' :: ' ' :: dumpValue level v ++ dumpMembers level l
end

/-- `json.dump(v, file, indent=4)` (core/api.py:99): `TypeError` on a `Decimal` or `Fraction` (a part of the text has then been written, see
Model/Program.lean). -/
def jsonDumps (v : PyVal) : Py (List Char) := do
  jsonDump v
  pure (dumpValue 0 v)

end Dex
