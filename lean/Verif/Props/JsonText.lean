import Verif.Model.JsonText
import Verif.Props.Number

/-! # Property C100: which texts are read as json, and as what -/

namespace Dex

namespace Spec

/-- Blanks of json. -/
def JsonBlanks (l : List Char) : Prop := ∀ c ∈ l, c ∈ [' ', '\t', '\n', '\r']

/-- A hexadecimal digit and its value. -/
def HexDigit (c : Char) (n : ℕ) : Prop :=
  (c, n) ∈ [('0', 0), ('1', 1), ('2', 2), ('3', 3), ('4', 4), ('5', 5), ('6', 6), ('7', 7), ('8', 8), ('9', 9), ('a', 10), ('b', 11), ('c', 12), ('d', 13),
    ('e', 14), ('f', 15), ('A', 10), ('B', 11), ('C', 12), ('D', 13), ('E', 14), ('F', 15)]

/-- Four hexadecimal digits and their value. -/
def Hex4 (l : List Char) (n : ℕ) : Prop :=
  ∃ a b c d i j k m, l = [a, b, c, d] ∧ HexDigit a i ∧ HexDigit b j ∧ HexDigit c k ∧ HexDigit d m ∧ n = i * 4096 + j * 256 + k * 16 + m

/-- How a character may be written between quotes. -/
inductive JsonChar : List Char → Char → Prop
  | plain (c : Char) (h : 0x20 ≤ c.toNat) (h1 : c ≠ '"') (h2 : c ≠ '\\') : JsonChar [c] c
  | short (e c : Char) (h : (e, c) ∈ [('"', '"'), ('\\', '\\'), ('/', '/'), ('b', '\x08'), ('f', '\x0c'), ('n', '\n'), ('r', '\r'), ('t', '\t')]) :
    JsonChar ['\\', e] c
  | code (h : List Char) (c : Char) (hh : Hex4 h c.toNat) : JsonChar ('\\' :: 'u' :: h) c
  | pair (h l : List Char) (n m : ℕ) (c : Char) (hh : Hex4 h n) (hl : Hex4 l m) (hn : 0xD800 ≤ n ∧ n < 0xDC00) (hm : 0xDC00 ≤ m ∧ m < 0xE000)
    (hc : c.toNat = 0x10000 + (n - 0xD800) * 1024 + (m - 0xDC00)) : JsonChar ('\\' :: 'u' :: h ++ '\\' :: 'u' :: l) c

/-- How a text may be written between quotes. -/
inductive JsonChars : List Char → List Char → Prop
  | nil : JsonChars [] []
  | cons (s r : List Char) (c : Char) (cs : List Char) (h : JsonChar s c) (hr : JsonChars r cs) : JsonChars (s ++ r) (c :: cs)

/-- A text in quotes. -/
def JsonString (s : List Char) (t : String) : Prop := ∃ body, s = '"' :: body ++ ['"'] ∧ JsonChars body t.toList

/-- The integer part of a number: no superfluous zero at the beginning. -/
def Whole (l : List Char) : Prop := Digits l ∧ l ≠ [] ∧ (l.head? = some '0' → l = ['0'])

/-- A minus sign, possibly none. -/
inductive Minus : List Char → ℤ → Prop
  | none : Minus [] 1
  | minus : Minus ['-'] (-1)

/-- A number: integers are `int`, numbers with a fractional part or an exponent are `Decimal`. -/
inductive JsonNumber : List Char → PyVal → Prop
  | int (s w : List Char) (σ : ℤ) (hs : Minus s σ) (hw : Whole w) : JsonNumber (s ++ w) (.int (σ * number w))
  | dec (s w f fd e : List Char) (σ k : ℤ) (hs : Minus s σ) (hw : Whole w) (hf : Point f fd) (hfd : f ≠ [] → fd ≠ []) (he : Exponent e k)
    (hne : f ≠ [] ∨ e ≠ []) : JsonNumber (s ++ w ++ f ++ e) (.dec (σ * ((number w + number fd / 10 ^ fd.length) * 10 ^ k)))

/-- The dict with the given entries in the given order: of entries with the same key the first gives the position and the last the value. -/
def lastWins {α : Type} : List (String × α) → List (String × α)
  | [] => []
  | (k, v) :: l => (k, (l.reverse.lookup k).getD v) :: (lastWins l).filter (fun p => p.1 ≠ k)

mutual
/-- The texts of json values (RFC 8259, and the constants `NaN`, `Infinity` and `-Infinity`), and the values they stand for. -/
inductive JsonValue : List Char → PyVal → Prop
  | null : JsonValue "null".toList (.other "null")
  | true : JsonValue "true".toList (.bool true)
  | false : JsonValue "false".toList (.bool false)
  | nan : JsonValue "NaN".toList (.other "NaN")
  | inf : JsonValue "Infinity".toList (.other "Infinity")
  | negInf : JsonValue "-Infinity".toList (.other "-Infinity")
  | number (s : List Char) (v : PyVal) (h : JsonNumber s v) : JsonValue s v
  | text (s : List Char) (t : String) (h : JsonString s t) : JsonValue s (.str t)
  | nil (b : List Char) (h : JsonBlanks b) : JsonValue ('[' :: b ++ [']']) (.list [])
  | list (s : List Char) (l : List PyVal) (h : JsonItems s l) : JsonValue ('[' :: s ++ [']']) (.list l)
  | empty (b : List Char) (h : JsonBlanks b) : JsonValue ('{' :: b ++ ['}']) (.dict [])
  | dict (s : List Char) (l : List (String × PyVal)) (h : JsonMembers s l) : JsonValue ('{' :: s ++ ['}']) (.dict (lastWins l))
/-- Values separated by commas. -/
inductive JsonItems : List Char → List PyVal → Prop
  | one (a s b : List Char) (v : PyVal) (ha : JsonBlanks a) (h : JsonValue s v) (hb : JsonBlanks b) : JsonItems (a ++ s ++ b) [v]
  | more (a s b r : List Char) (v : PyVal) (l : List PyVal) (ha : JsonBlanks a) (h : JsonValue s v) (hb : JsonBlanks b) (hr : JsonItems r l) :
    JsonItems (a ++ s ++ b ++ ',' :: r) (v :: l)
/-- Entries separated by commas. -/
inductive JsonMembers : List Char → List (String × PyVal) → Prop
  | one (a q b c s d : List Char) (k : String) (v : PyVal) (ha : JsonBlanks a) (hq : JsonString q k) (hb : JsonBlanks b) (hc : JsonBlanks c)
    (h : JsonValue s v) (hd : JsonBlanks d) : JsonMembers (a ++ q ++ b ++ ':' :: (c ++ s ++ d)) [(k, v)]
  | more (a q b c s d r : List Char) (k : String) (v : PyVal) (l : List (String × PyVal)) (ha : JsonBlanks a) (hq : JsonString q k) (hb : JsonBlanks b)
    (hc : JsonBlanks c) (h : JsonValue s v) (hd : JsonBlanks d) (hr : JsonMembers r l) :
    JsonMembers (a ++ q ++ b ++ ':' :: (c ++ s ++ d ++ ',' :: r)) ((k, v) :: l)
end

/-- A json text: one value, with blanks around it. -/
def JsonText (s : List Char) (v : PyVal) : Prop := ∃ a b body, s = a ++ body ++ b ∧ JsonBlanks a ∧ JsonBlanks b ∧ JsonValue body v

/-- The text contains an escape of a surrogate. -/
def HasSurrogate (s : List Char) : Prop := ∃ p h r n, s = p ++ '\\' :: 'u' :: h ++ r ∧ Hex4 h n ∧ 0xD800 ≤ n ∧ n < 0xE000

end Spec

open Spec

/-! ### Blanks -/

theorem isJsonBlank_iff {c : Char} : isJsonBlank c = true ↔ c ∈ [' ', '\t', '\n', '\r'] := by
  simp [isJsonBlank, or_assoc]

theorem skipBlanks_append {b r : List Char} (hb : JsonBlanks b) (hr : ∀ c, r.head? = some c → isJsonBlank c = false) : skipBlanks (b ++ r) = r := by
  unfold skipBlanks
  induction b with
  | nil =>
    cases r with
    | nil => rfl
    | cons c r => rw [List.nil_append, List.dropWhile_cons_of_neg]; simp [hr c rfl]
  | cons c b ih =>
    rw [List.cons_append, List.dropWhile_cons_of_pos (isJsonBlank_iff.2 (hb c (by simp)))]
    exact ih (fun c hc => hb c (by simp [hc]))

theorem skipBlanks_spec (s : List Char) : ∃ b, s = b ++ skipBlanks s ∧ JsonBlanks b := by
  refine ⟨s.takeWhile isJsonBlank, (List.takeWhile_append_dropWhile).symm, fun c hc => isJsonBlank_iff.1 (List.mem_takeWhile_imp hc)⟩

theorem skipBlanks_idem {s : List Char} (c : Char) (h : (skipBlanks s).head? = some c) : isJsonBlank c = false := by
  have := List.head?_dropWhile_not isJsonBlank s
  unfold skipBlanks at h
  rw [h] at this
  simpa using this

/-! ### Text in quotes -/

theorem hexVal_iff {c : Char} {n : ℕ} : hexVal c = some n ↔ HexDigit c n := by
  constructor
  · intro h
    unfold hexVal at h
    have key : ∀ m : ℕ, c.toNat = m → c = Char.ofNat m := fun m e => by rw [← e]; exact (Char.ofNat_toNat c).symm
    have le : ∀ a b : Char, a ≤ b ↔ a.toNat ≤ b.toNat := fun a b => Iff.rfl
    split_ifs at h with h1 h2 h3
    · rw [le, le] at h1
      obtain ⟨h1, h1'⟩ := h1
      change 48 ≤ _ at h1
      change _ ≤ 57 at h1'
      cases h
      generalize hm : c.toNat = m at h1 h1'
      interval_cases m <;> rw [key _ hm] <;> (unfold HexDigit; decide)
    · rw [le, le] at h2
      obtain ⟨h1, h1'⟩ := h2
      change 97 ≤ _ at h1
      change _ ≤ 102 at h1'
      cases h
      generalize hm : c.toNat = m at h1 h1'
      interval_cases m <;> rw [key _ hm] <;> (unfold HexDigit; decide)
    · rw [le, le] at h3
      obtain ⟨h1, h1'⟩ := h3
      change 65 ≤ _ at h1
      change _ ≤ 70 at h1'
      cases h
      generalize hm : c.toNat = m at h1 h1'
      interval_cases m <;> rw [key _ hm] <;> (unfold HexDigit; decide)
  · intro h
    unfold HexDigit at h
    simp only [List.mem_cons, List.not_mem_nil, or_false, Prod.mk.injEq] at h
    rcases h with h | h | h | h | h | h | h | h | h | h | h | h | h | h | h | h | h | h | h | h | h | h <;> obtain ⟨rfl, rfl⟩ := h <;> decide

theorem hex4_of {l r : List Char} {n : ℕ} (h : Hex4 l n) : hex4 (l ++ r) = some (n, r) := by
  obtain ⟨a, b, c, d, i, j, k, m, rfl, ha, hb, hc, hd, rfl⟩ := h
  show (hex4 (a :: b :: c :: d :: r)) = _
  unfold hex4
  dsimp only
  rw [hexVal_iff.2 ha, hexVal_iff.2 hb, hexVal_iff.2 hc, hexVal_iff.2 hd]
  show some _ = _
  congr 2
  ring

theorem hex4_spec {s r : List Char} {n : ℕ} (h : hex4 s = some (n, r)) : ∃ l, s = l ++ r ∧ Hex4 l n := by
  unfold hex4 at h
  split at h
  · rename_i a b c d r'
    simp only [Option.bind_eq_bind, Option.bind_eq_some_iff, Option.some.injEq, Prod.mk.injEq] at h
    obtain ⟨i, hi, j, hj, k, hk, m, hm, rfl, rfl⟩ := h
    exact ⟨[a, b, c, d], rfl, a, b, c, d, i, j, k, m, rfl, hexVal_iff.1 hi, hexVal_iff.1 hj, hexVal_iff.1 hk, hexVal_iff.1 hm, by ring⟩
  · cases h

theorem hex4_lt {l : List Char} {n : ℕ} (h : Hex4 l n) : n < 65536 := by
  obtain ⟨a, b, c, d, i, j, k, m, rfl, ha, hb, hc, hd, rfl⟩ := h
  have key : ∀ {c : Char} {n : ℕ}, HexDigit c n → n < 16 := by
    intro c n h
    unfold HexDigit at h
    simp only [List.mem_cons, List.not_mem_nil, or_false, Prod.mk.injEq] at h
    omega
  have := key ha
  have := key hb
  have := key hc
  have := key hd
  omega

theorem shortEscape_iff {e c : Char} : shortEscape e = some c ↔
    (e, c) ∈ [('"', '"'), ('\\', '\\'), ('/', '/'), ('b', '\x08'), ('f', '\x0c'), ('n', '\n'), ('r', '\r'), ('t', '\t')] := by
  constructor
  · intro h
    unfold shortEscape at h
    split_ifs at h with h1 h2 h3 h4 h5 h6 h7 h8 <;> cases h <;> subst_vars <;> decide
  · intro h
    simp only [List.mem_cons, List.not_mem_nil, or_false, Prod.mk.injEq] at h
    rcases h with h | h | h | h | h | h | h | h <;> obtain ⟨rfl, rfl⟩ := h <;> rfl

theorem toNat_ofNat {n : ℕ} (h : n < 0xD800 ∨ 0xDFFF < n ∧ n < 0x110000) : (Char.ofNat n).toNat = n := by
  have hv : n.isValidChar := h
  rw [Char.ofNat, dif_pos hv]
  rfl

theorem char_range (c : Char) : c.toNat < 0xD800 ∨ 0xDFFF < c.toNat ∧ c.toNat < 0x110000 := c.valid

theorem scanChar_of {s r : List Char} {c : Char} (h : JsonChar s c) : scanChar (s ++ r) = .char c r := by
  cases h with
  | plain _ h h1 h2 =>
    show scanChar (c :: r) = _
    unfold scanChar
    dsimp only
    rw [if_neg h1, if_neg h2, if_neg (by omega)]
  | short e _ h =>
    show scanChar ('\\' :: e :: r) = _
    unfold scanChar scanEscape
    dsimp only
    rw [if_neg (by decide), if_pos rfl, if_neg (by rintro rfl; revert h; simp), shortEscape_iff.2 h]
  | code h _ hh =>
    show scanChar ('\\' :: 'u' :: (h ++ r)) = _
    unfold scanChar scanEscape scanCode
    dsimp only
    rw [if_neg (by decide), if_pos rfl, if_pos rfl, hex4_of hh]
    dsimp only
    have := char_range c
    rw [if_neg (by omega), if_neg (by omega), Char.ofNat_toNat]
  | pair h l n m _ hh hl hn hm hc =>
    have e : '\\' :: 'u' :: h ++ '\\' :: 'u' :: l ++ r = '\\' :: 'u' :: (h ++ ('\\' :: 'u' :: (l ++ r))) := by simp
    rw [e]
    unfold scanChar scanEscape scanCode
    dsimp only
    rw [if_neg (by decide), if_pos rfl, if_pos rfl, hex4_of hh]
    dsimp only
    rw [if_pos (by omega)]
    unfold scanPair
    dsimp only
    rw [if_pos ⟨rfl, rfl⟩, hex4_of hl]
    dsimp only
    rw [if_pos (by omega), ← hc, Char.ofNat_toNat]

theorem scanChar_spec (s : List Char) :
    (∃ r, scanChar s = .stop r ∧ s = '"' :: r) ∨ (∃ c r p, scanChar s = .char c r ∧ s = p ++ r ∧ p ≠ [] ∧ JsonChar p c) ∨
      scanChar s = .fail .decode ∨ (scanChar s = .fail .surrogate ∧ HasSurrogate s) := by
  unfold scanChar
  cases s with
  | nil => exact .inr (.inr (.inl rfl))
  | cons c r =>
    dsimp only
    by_cases h1 : c = '"'
    · rw [if_pos h1]; subst h1; exact .inl ⟨r, rfl, rfl⟩
    rw [if_neg h1]
    by_cases h2 : c = '\\'
    · rw [if_pos h2]
      subst h2
      refine .inr ?_
      unfold scanEscape
      cases r with
      | nil => exact .inr (.inl rfl)
      | cons e r =>
        dsimp only
        by_cases h3 : e = 'u'
        · rw [if_pos h3]
          subst h3
          unfold scanCode
          cases h4 : hex4 r with
          | none => exact .inr (.inl rfl)
          | some x =>
            obtain ⟨n, r1⟩ := x
            obtain ⟨l, rfl, hl⟩ := hex4_spec h4
            have sur : 0xD800 ≤ n ∧ n < 0xE000 → HasSurrogate ('\\' :: 'u' :: (l ++ r1)) := fun hn => ⟨[], l, r1, n, rfl, hl, hn.1, hn.2⟩
            dsimp only
            by_cases h5 : 0xD800 ≤ n ∧ n ≤ 0xDBFF
            · rw [if_pos h5]
              have sur := sur (by omega)
              unfold scanPair
              split
              · rename_i a b r2 _
                by_cases h6 : a = '\\' ∧ b = 'u'
                · rw [if_pos h6]
                  obtain ⟨rfl, rfl⟩ := h6
                  cases h7 : hex4 r2 with
                  | none => exact .inr (.inl rfl)
                  | some x =>
                    obtain ⟨m, r3⟩ := x
                    obtain ⟨l', rfl, hl'⟩ := hex4_spec h7
                    dsimp only
                    by_cases h8 : 0xDC00 ≤ m ∧ m ≤ 0xDFFF
                    · rw [if_pos h8]
                      refine .inl ⟨_, _, '\\' :: 'u' :: l ++ '\\' :: 'u' :: l', rfl, by simp, by simp, ?_⟩
                      exact .pair l l' n m _ hl hl' (by omega) (by omega) (toNat_ofNat (by omega))
                    · rw [if_neg h8]; exact .inr (.inr ⟨rfl, sur⟩)
                · rw [if_neg h6]; exact .inr (.inr ⟨rfl, sur⟩)
              · exact .inr (.inr ⟨rfl, sur⟩)
            · rw [if_neg h5]
              by_cases h6 : 0xDC00 ≤ n ∧ n ≤ 0xDFFF
              · rw [if_pos h6]; exact .inr (.inr ⟨rfl, sur (by omega)⟩)
              · rw [if_neg h6]
                refine .inl ⟨_, _, '\\' :: 'u' :: l, rfl, rfl, by simp, .code l _ ?_⟩
                rw [toNat_ofNat]
                · exact hl
                · have := hex4_lt hl
                  omega
        · rw [if_neg h3]
          cases h4 : shortEscape e with
          | none => exact .inr (.inl rfl)
          | some d => exact .inl ⟨d, r, ['\\', e], rfl, rfl, by simp, .short e d (shortEscape_iff.1 h4)⟩
    rw [if_neg h2]
    by_cases h3 : c.toNat < 0x20
    · rw [if_pos h3]; exact .inr (.inr (.inl rfl))
    · rw [if_neg h3]
      exact .inr (.inl ⟨c, r, [c], rfl, rfl, by simp, .plain c (by omega) h1 h2⟩)

theorem scanString_of {s cs : List Char} (h : JsonChars s cs) (r : List Char) : ∀ n, (s ++ '"' :: r).length ≤ n →
    scanString n (s ++ '"' :: r) = .ok (cs, r) := by
  induction h with
  | nil =>
    intro n hn
    cases n with
    | zero => simp at hn
    | succ n => rfl
  | cons s r' c cs h hr ih =>
    intro n hn
    cases n with
    | zero => simp at hn
    | succ n =>
      unfold scanString
      rw [List.append_assoc, scanChar_of h]
      have hne : 0 < s.length := by cases h <;> simp
      dsimp only
      rw [ih n (by simp only [List.length_append, List.length_cons] at hn ⊢; omega)]
      rfl

theorem surrogate_pre {p s : List Char} (h : HasSurrogate s) : HasSurrogate (p ++ s) := by
  obtain ⟨q, h, r, n, rfl, h1, h2⟩ := h
  exact ⟨p ++ q, h, r, n, by simp, h1, h2⟩

theorem scanString_spec : ∀ (n : ℕ) (s : List Char), s.length < n →
    (∃ cs r p, scanString n s = .ok (cs, r) ∧ s = p ++ '"' :: r ∧ JsonChars p cs) ∨ scanString n s = .error .decode ∨
      (scanString n s = .error .surrogate ∧ HasSurrogate s) := by
  intro n
  induction n with
  | zero => intro s hs; omega
  | succ n ih =>
    intro s hs
    unfold scanString
    rcases scanChar_spec s with ⟨r, h, rfl⟩ | ⟨c, r, p, h, rfl, hp, hc⟩ | h | ⟨h, hsur⟩
    · rw [h]; exact .inl ⟨[], r, [], rfl, rfl, .nil⟩
    · rw [h]
      dsimp only
      have : 0 < p.length := List.length_pos_iff.2 hp
      rcases ih r (by simp only [List.length_append] at hs; omega) with ⟨cs, r', p', h', rfl, hcs⟩ | h' | ⟨h', hsur⟩
      · rw [h']; exact .inl ⟨c :: cs, r', p ++ p', rfl, by simp, .cons _ _ _ _ hc hcs⟩
      · rw [h']; exact .inr (.inl rfl)
      · rw [h']; exact .inr (.inr ⟨rfl, surrogate_pre hsur⟩)
    · rw [h]; exact .inr (.inl rfl)
    · rw [h]; exact .inr (.inr ⟨rfl, hsur⟩)

/-! ### Numbers -/

/-- The text does not continue a number. -/
def Ends (r : List Char) : Prop := ∀ c, r.head? = some c → c.isDigit = false ∧ c ≠ '.' ∧ c ≠ 'e' ∧ c ≠ 'E'

theorem minus_value {s : List Char} {σ : ℤ} (h : Minus s σ) (x : ℤ) : (if decide (σ = -1) = true then -x else x) = σ * x := by
  cases h <;> simp

theorem takeMinus_of {s r : List Char} {σ : ℤ} (h : Minus s σ) (hr : ∀ c, r.head? = some c → c ≠ '-') : takeMinus (s ++ r) = (decide (σ = -1), r) := by
  cases h with
  | none =>
    cases r with
    | nil => rfl
    | cons c r => show takeMinus (c :: r) = _; unfold takeMinus; dsimp only; rw [if_neg (hr c rfl)]; rfl
  | minus => rfl

theorem takeMinus_spec (s : List Char) : ∃ p σ, s = p ++ (takeMinus s).2 ∧ Minus p σ ∧ (takeMinus s).1 = decide (σ = -1) := by
  unfold takeMinus
  cases s with
  | nil => exact ⟨[], 1, rfl, .none, rfl⟩
  | cons c r =>
    dsimp only
    by_cases h : c = '-'
    · rw [if_pos h]; subst h; exact ⟨['-'], -1, rfl, .minus, rfl⟩
    · rw [if_neg h]; exact ⟨[], 1, rfl, .none, rfl⟩

theorem scanWhole_of {w r : List Char} (h : Whole w) (hr : ∀ c, r.head? = some c → c.isDigit = false) : scanWhole (w ++ r) = (w, r) := by
  obtain ⟨h1, h2, h3⟩ := h
  cases w with
  | nil => exact absurd rfl h2
  | cons c w =>
    have t := takeWhile_digits h1 hr
    rw [List.cons_append] at t ⊢
    unfold scanWhole
    dsimp only
    by_cases h0 : c = '0'
    · subst h0
      have := h3 rfl
      simp only [List.cons.injEq, true_and] at this
      subst this
      rfl
    · rw [if_neg h0, t.1, t.2]

theorem scanWhole_spec (s : List Char) : (scanWhole s).1 = [] ∨ (s = (scanWhole s).1 ++ (scanWhole s).2 ∧ Whole (scanWhole s).1) := by
  unfold scanWhole
  cases s with
  | nil => exact .inl rfl
  | cons c r =>
    dsimp only
    by_cases h : c = '0'
    · rw [if_pos h]; subst h; exact .inr ⟨rfl, digits_iff.2 rfl, by simp, fun _ => rfl⟩
    · rw [if_neg h]
      by_cases hd : c.isDigit = true
      · refine .inr ⟨List.takeWhile_append_dropWhile.symm, digits_takeWhile _, ?_, ?_⟩
        · simp [hd]
        · simp [hd, h]
      · left; simp [hd]

theorem scanPoint_none {r : List Char} (hr : ∀ c, r.head? = some c → c ≠ '.') : scanPoint r = (none, r) := by
  cases r with
  | nil => rfl
  | cons c r => unfold scanPoint; dsimp only; rw [if_neg (fun h => hr c rfl h.1)]

theorem scanPoint_some {fd r : List Char} (hd : Digits fd) (hne : fd ≠ []) (hr : ∀ c, r.head? = some c → c.isDigit = false) :
    scanPoint ('.' :: (fd ++ r)) = (some fd, r) := by
  obtain ⟨t1, t2⟩ := takeWhile_digits hd hr
  unfold scanPoint
  dsimp only
  rw [t1, t2, if_pos ⟨rfl, hne⟩]

theorem scanPoint_spec (s : List Char) : scanPoint s = (none, s) ∨ ∃ fd, (scanPoint s).1 = some fd ∧ Digits fd ∧ fd ≠ [] ∧ s = '.' :: (fd ++ (scanPoint s).2) := by
  cases s with
  | nil => exact .inl rfl
  | cons c r =>
    unfold scanPoint
    dsimp only
    split_ifs with h
    · obtain ⟨rfl, h⟩ := h
      exact .inr ⟨_, rfl, digits_takeWhile _, h, by rw [List.takeWhile_append_dropWhile]⟩
    · exact .inl rfl

theorem scanExponent_cons (c : Char) (r : List Char) : scanExponent (c :: r) = if (c = 'e' ∨ c = 'E') ∧ (takeSign r).2.takeWhile Char.isDigit ≠ [] then
      (some (if (takeSign r).1 then -(digitsVal ((takeSign r).2.takeWhile Char.isDigit) : ℤ) else digitsVal ((takeSign r).2.takeWhile Char.isDigit)),
        (takeSign r).2.dropWhile Char.isDigit)
    else (none, c :: r) := rfl

theorem scanExponent_none {r : List Char} (hr : ∀ c, r.head? = some c → c ≠ 'e' ∧ c ≠ 'E') : scanExponent r = (none, r) := by
  cases r with
  | nil => rfl
  | cons c r =>
    rw [scanExponent_cons, if_neg]
    rintro ⟨h | h, _⟩
    · exact (hr c rfl).1 h
    · exact (hr c rfl).2 h

theorem scanExponent_some {e r : List Char} {k : ℤ} (he : Exponent e k) (hne : e ≠ []) (hr : ∀ c, r.head? = some c → c.isDigit = false) :
    scanExponent (e ++ r) = (some k, r) := by
  cases he with
  | none => exact absurd rfl hne
  | some c hc s σ hs l hl hl' =>
    have hh : ∀ c, (l ++ r).head? = some c → c ≠ '-' ∧ c ≠ '+' := by
      intro d hd
      cases l with
      | nil => exact absurd rfl hl'
      | cons x l =>
        cases hd
        have := digit_not (isDigit_iff.2 (hl d (by simp)))
        exact ⟨this.1, this.2.1⟩
    obtain ⟨t1, t2⟩ := takeSign_of hs hh
    obtain ⟨u1, u2⟩ := takeWhile_digits hl hr
    rw [List.cons_append, List.append_assoc, scanExponent_cons, t1, u1, u2, if_pos ⟨hc, hl'⟩]
    congr 2
    rw [← t2, digitsVal_eq]
    split_ifs <;> simp

theorem scanExponent_spec (s : List Char) : scanExponent s = (none, s) ∨ ∃ e k, (scanExponent s).1 = some k ∧ Exponent e k ∧ e ≠ [] ∧ s = e ++ (scanExponent s).2 := by
  cases s with
  | nil => exact .inl rfl
  | cons c r =>
    rw [scanExponent_cons]
    by_cases h : (c = 'e' ∨ c = 'E') ∧ (takeSign r).2.takeWhile Char.isDigit ≠ []
    · rw [if_pos h]
      obtain ⟨sign, h1, h2⟩ := takeSign_spec r
      have hk : (if (takeSign r).1 then -(digitsVal ((takeSign r).2.takeWhile Char.isDigit) : ℤ) else digitsVal ((takeSign r).2.takeWhile Char.isDigit)) =
        (if (takeSign r).1 then -1 else 1) * number ((takeSign r).2.takeWhile Char.isDigit) := by
        rw [digitsVal_eq]; split_ifs <;> simp
      refine .inr ⟨c :: (sign ++ (takeSign r).2.takeWhile Char.isDigit), _, rfl, ?_, by simp, ?_⟩
      · rw [hk]
        exact .some c h.1 sign _ h2 _ (digits_takeWhile _) h.2
      · dsimp only
        rw [List.cons_append, List.append_assoc, List.takeWhile_append_dropWhile, ← h1]
    · rw [if_neg h]; exact .inl rfl

theorem scanNumber_eq (s : List Char) : scanNumber s =
    if (scanWhole (takeMinus s).2).1 = [] then .error .decode
    else if (scanPoint (scanWhole (takeMinus s).2).2).1 = none ∧ (scanExponent (scanPoint (scanWhole (takeMinus s).2).2).2).1 = none then
      .ok (.int (if (takeMinus s).1 then -(digitsVal (scanWhole (takeMinus s).2).1 : ℤ) else digitsVal (scanWhole (takeMinus s).2).1),
          (scanExponent (scanPoint (scanWhole (takeMinus s).2).2).2).2)
    else
      .ok (.dec (if (takeMinus s).1 then
          -((digitsVal (scanWhole (takeMinus s).2).1 + digitsVal ((scanPoint (scanWhole (takeMinus s).2).2).1.getD []) /
            10 ^ ((scanPoint (scanWhole (takeMinus s).2).2).1.getD []).length) * 10 ^ (scanExponent (scanPoint (scanWhole (takeMinus s).2).2).2).1.getD 0 : ℚ)
          else (digitsVal (scanWhole (takeMinus s).2).1 + digitsVal ((scanPoint (scanWhole (takeMinus s).2).2).1.getD []) /
            10 ^ ((scanPoint (scanWhole (takeMinus s).2).2).1.getD []).length) * 10 ^ (scanExponent (scanPoint (scanWhole (takeMinus s).2).2).2).1.getD 0),
        (scanExponent (scanPoint (scanWhole (takeMinus s).2).2).2).2) := rfl

theorem minus_value_rat {s : List Char} {σ : ℤ} (h : Minus s σ) (x : ℚ) : (if decide (σ = -1) = true then -x else x) = σ * x := by
  cases h <;> simp

theorem whole_head {w r : List Char} (h : Whole w) : ∀ c, (w ++ r).head? = some c → c.isDigit = true := by
  intro c hc
  obtain ⟨h1, h2, _⟩ := h
  cases w with
  | nil => exact absurd rfl h2
  | cons x w => cases hc; exact isDigit_iff.2 (h1 c (by simp))

theorem scanNumber_of {s r : List Char} {v : PyVal} (h : JsonNumber s v) (hr : Ends r) : scanNumber (s ++ r) = .ok (v, r) := by
  cases h with
  | int s w σ hs hw =>
    have hm := takeMinus_of hs (r := w ++ r) (fun c hc => (digit_not (whole_head hw c hc)).1)
    have hwh := scanWhole_of hw (r := r) (fun c hc => (hr c hc).1)
    have hp := scanPoint_none (r := r) (fun c hc => (hr c hc).2.1)
    have he := scanExponent_none (r := r) (fun c hc => (hr c hc).2.2)
    rw [scanNumber_eq, List.append_assoc, hm]
    dsimp only
    rw [hwh]
    dsimp only
    rw [if_neg hw.2.1, hp]
    dsimp only
    rw [he]
    dsimp only
    rw [if_pos ⟨rfl, rfl⟩, minus_value hs, digitsVal_eq]
  | dec s w f fd e σ k hs hw hf hfd he hne =>
    have hm := takeMinus_of hs (r := w ++ (f ++ (e ++ r))) (fun c hc => (digit_not (whole_head hw c hc)).1)
    have hE : ∀ c, (e ++ r).head? = some c → c.isDigit = false ∧ c ≠ '.' := by
      intro c hc
      cases e with
      | nil => exact ⟨(hr c hc).1, (hr c hc).2.1⟩
      | cons x e =>
        cases hc
        rcases exponent_head he c rfl with rfl | rfl <;> decide
    have hF : ∀ c, (f ++ (e ++ r)).head? = some c → c.isDigit = false := by
      intro c hc
      cases hf with
      | none => exact (hE c hc).1
      | some l h => cases hc; decide
    have hwh := scanWhole_of hw hF
    have hexp : scanExponent (e ++ r) = (if e = [] then none else some k, r) := by
      by_cases h : e = []
      · subst h
        exact scanExponent_none (fun c hc => (hr c hc).2.2)
      · rw [if_neg h]
        exact scanExponent_some he h (fun c hc => (hr c hc).1)
    have hk : (if e = [] then none else some k).getD 0 = k := by
      by_cases h : e = []
      · subst h; cases he; rfl
      · rw [if_neg h]; rfl
    have hp : scanPoint (f ++ (e ++ r)) = (if f = [] then none else some fd, e ++ r) := by
      cases hf with
      | none => exact scanPoint_none (fun c hc => (hE c hc).2)
      | some l h =>
        rw [if_neg (by simp)]
        exact scanPoint_some h (hfd (by simp)) (fun c hc => (hE c hc).1)
    have hd : (if f = [] then none else some fd).getD [] = fd := by
      cases hf with
      | none => rfl
      | some l h => rw [if_neg (by simp)]; rfl
    have e1 : s ++ w ++ f ++ e ++ r = s ++ (w ++ (f ++ (e ++ r))) := by simp
    rw [scanNumber_eq, e1, hm]
    dsimp only
    rw [hwh]
    dsimp only
    rw [if_neg hw.2.1, hp]
    dsimp only
    rw [hexp]
    dsimp only
    rw [if_neg]
    · rw [minus_value_rat hs, hd, hk, digitsVal_eq, digitsVal_eq]
    · rintro ⟨h1, h2⟩
      rcases hne with h | h
      · rw [if_neg h] at h1; cases h1
      · rw [if_neg h] at h2; cases h2

theorem scanNumber_spec (s : List Char) : (∃ v r p, scanNumber s = .ok (v, r) ∧ s = p ++ r ∧ p ≠ [] ∧ JsonNumber p v) ∨ scanNumber s = .error .decode := by
  obtain ⟨m, σ, e1, hm, e2⟩ := takeMinus_spec s
  rw [scanNumber_eq, e2]
  rcases scanWhole_spec (takeMinus s).2 with h | ⟨e3, hw⟩
  · rw [if_pos h]; exact .inr rfl
  rw [if_neg hw.2.1]
  left
  generalize scanWhole (takeMinus s).2 = W at *
  obtain ⟨w, r1⟩ := W
  dsimp only at *
  rw [e3] at e1
  have point : ∃ f fd, Point f fd ∧ (f ≠ [] → fd ≠ []) ∧ r1 = f ++ (scanPoint r1).2 ∧ (scanPoint r1).1.getD [] = fd ∧ ((scanPoint r1).1 = none ↔ f = []) := by
    rcases scanPoint_spec r1 with h | ⟨fd, h1, h2, h3, h4⟩
    · rw [h]; exact ⟨[], [], .none, fun h => h, rfl, rfl, by simp⟩
    · exact ⟨'.' :: fd, fd, .some fd h2, fun _ => h3, by simpa using h4, by rw [h1]; rfl, by rw [h1]; simp⟩
  obtain ⟨f, fd, hf, hfd, e4, e5, e6⟩ := point
  generalize scanPoint r1 = P at *
  obtain ⟨po, r2⟩ := P
  dsimp only at *
  have expo : ∃ e k, Exponent e k ∧ r2 = e ++ (scanExponent r2).2 ∧ (scanExponent r2).1.getD 0 = k ∧ ((scanExponent r2).1 = none ↔ e = []) := by
    rcases scanExponent_spec r2 with h | ⟨e, k, h1, h2, h3, h4⟩
    · rw [h]; exact ⟨[], 0, .none, rfl, rfl, by simp⟩
    · exact ⟨e, k, h2, h4, by rw [h1]; rfl, by rw [h1]; simpa using h3⟩
  obtain ⟨e, k, he, e7, e8, e9⟩ := expo
  generalize scanExponent r2 = X at *
  obtain ⟨ex, r3⟩ := X
  dsimp only at *
  have hne : m ++ w ≠ [] := by simp [hw.2.1]
  by_cases hx : po = none ∧ ex = none
  · rw [if_pos hx]
    have h1 := e6.1 hx.1
    have h2 := e9.1 hx.2
    subst h1 h2
    refine ⟨_, r3, m ++ w, rfl, by rw [e1, e4, e7]; simp, hne, ?_⟩
    rw [minus_value hm, digitsVal_eq]
    exact .int m w σ hm hw
  · rw [if_neg hx]
    refine ⟨_, r3, m ++ w ++ f ++ e, rfl, by rw [e1, e4, e7]; simp, by simp [hw.2.1], ?_⟩
    rw [minus_value_rat hm, e5, e8, digitsVal_eq, digitsVal_eq]
    refine .dec m w f fd e σ k hm hw hf hfd he ?_
    by_contra hc
    push Not at hc
    exact hx ⟨e6.2 hc.1, e9.2 hc.2⟩

/-! ### Repeated keys -/

theorem dictSet_absent {α : Type} {d : List (String × α)} {k : String} {v : α} (h : k ∉ d.map Prod.fst) : dictSet d k v = d ++ [(k, v)] := by
  induction d with
  | nil => rfl
  | cons p d ih =>
    obtain ⟨a, b⟩ := p
    simp only [List.map_cons, List.mem_cons, not_or] at h
    unfold dictSet
    rw [if_neg (fun e => h.1 e.symm), ih h.2]
    rfl

theorem dictSet_present {α : Type} {d : List (String × α)} {k : String} {v : α} (hn : (d.map Prod.fst).Nodup) (h : k ∈ d.map Prod.fst) :
    dictSet d k v = d.map (fun p => (p.1, if p.1 = k then v else p.2)) := by
  induction d with
  | nil => cases h
  | cons p d ih =>
    obtain ⟨a, b⟩ := p
    rw [List.map_cons, List.nodup_cons] at hn
    unfold dictSet
    by_cases e : a = k
    · subst e
      rw [if_pos rfl, List.map_cons, if_pos rfl]
      congr 1
      symm
      refine (List.map_congr_left (g := id) ?_).trans (List.map_id _)
      intro p hp
      have : p.1 ≠ a := fun e => hn.1 (e ▸ List.mem_map.2 ⟨p, hp, rfl⟩)
      simp [this]
    · rw [if_neg e, List.map_cons, if_neg e, ih hn.2]
      simpa [Ne.symm e] using h

theorem foldl_dictSet {α : Type} (l : List (String × α)) : ∀ acc : List (String × α), (acc.map Prod.fst).Nodup →
    l.foldl (fun d p => dictSet d p.1 p.2) acc =
      acc.map (fun p => (p.1, (l.reverse.lookup p.1).getD p.2)) ++ (lastWins l).filter (fun p => p.1 ∉ acc.map Prod.fst) := by
  induction l with
  | nil => intro acc _; simp [lastWins]
  | cons q l ih =>
    intro acc hn
    obtain ⟨k, v⟩ := q
    rw [List.foldl_cons]
    dsimp only
    have hlook : ∀ (a : String) (b : α), (((k, v) :: l).reverse.lookup a).getD b = (l.reverse.lookup a).getD (if a = k then v else b) := by
      intro a b
      rw [List.reverse_cons, List.lookup_append]
      by_cases e : a = k
      · subst e
        cases hl : l.reverse.lookup a <;> simp
      · cases hl : l.reverse.lookup a <;> simp [e, List.lookup, beq_eq_false_iff_ne.2 e]
    by_cases h : k ∈ acc.map Prod.fst
    · rw [dictSet_present hn h, ih _ (by rw [List.map_map]; exact hn)]
      rw [List.map_map, List.map_map]
      congr 1
      · refine List.map_congr_left ?_
        intro p _
        dsimp only [Function.comp]
        rw [hlook]
      · conv_rhs => unfold lastWins
        rw [List.filter_cons_of_neg (by simpa using h), List.filter_filter]
        refine List.filter_congr ?_
        intro p _
        have : acc.map (Prod.fst ∘ fun p => (p.1, if p.1 = k then v else p.2)) = acc.map Prod.fst := rfl
        rw [this]
        by_cases e : p.1 = k
        · rw [e]; simp [h]
        · simp [e]
    · rw [dictSet_absent h, ih _ (by
        rw [List.map_append, List.nodup_append]
        exact ⟨hn, by simp, fun a ha b hb => by simp at hb; subst hb; rintro rfl; exact h ha⟩)]
      rw [List.map_append, List.append_assoc]
      congr 1
      · refine List.map_congr_left ?_
        intro p hp
        rw [hlook, if_neg]
        rintro rfl
        exact h (List.mem_map_of_mem hp)
      · conv_rhs => unfold lastWins
        rw [List.filter_cons_of_pos (by simpa using h), List.filter_filter]
        show _ :: _ = _ :: _
        congr 1
        refine List.filter_congr ?_
        intro p _
        rw [List.map_append]
        by_cases e : p.1 = k
        · simp [e]
        · simp [e]

/-! ### Values -/

theorem jsonString_head {s : List Char} {t : String} (h : JsonString s t) : ∃ r, s = '"' :: r := by
  obtain ⟨b, rfl, _⟩ := h
  exact ⟨_, rfl⟩

theorem digit_not' {c : Char} (h : c.isDigit = true) : isJsonBlank c = false ∧ c ≠ ']' ∧ c ≠ '}' ∧ c ≠ '"' ∧ c ≠ '{' ∧ c ≠ '[' := by
  refine ⟨?_, ?_, ?_, ?_, ?_, ?_⟩
  · by_contra hb
    have := isJsonBlank_iff.1 (by simpa using hb)
    simp only [List.mem_cons, List.not_mem_nil, or_false] at this
    rcases this with rfl | rfl | rfl | rfl <;> exact absurd h (by decide)
  all_goals rintro rfl; exact absurd h (by decide)

/-- A number begins with a digit, or a minus sign and a digit. -/
theorem jsonNumber_head {s : List Char} {v : PyVal} (h : JsonNumber s v) : (∃ c r, s = c :: r ∧ c.isDigit = true) ∨ ∃ c r, s = '-' :: c :: r ∧ c.isDigit = true := by
  have key : ∀ (m w r : List Char) (σ : ℤ), Minus m σ → Whole w → (∃ c t, m ++ (w ++ r) = c :: t ∧ c.isDigit = true) ∨ ∃ c t, m ++ (w ++ r) = '-' :: c :: t ∧ c.isDigit = true := by
    intro m w r σ hm hw
    have := whole_head (r := r) hw
    cases hx : w ++ r with
    | nil => exact absurd (List.append_eq_nil_iff.1 hx).1 hw.2.1
    | cons c t =>
      rw [hx] at this
      cases hm with
      | none => exact .inl ⟨c, t, rfl, this c rfl⟩
      | minus => exact .inr ⟨c, t, rfl, this c rfl⟩
  cases h with
  | int s w σ hs hw => simpa using key s w [] σ hs hw
  | dec s w f fd e σ k hs hw hf hfd he hne => simpa using key s w (f ++ e) σ hs hw

theorem jsonValue_head {s : List Char} {v : PyVal} (h : JsonValue s v) : ∃ c r, s = c :: r ∧ isJsonBlank c = false ∧ c ≠ ']' ∧ c ≠ '}' := by
  cases h with
  | null => exact ⟨'n', _, rfl, by decide⟩
  | true => exact ⟨'t', _, rfl, by decide⟩
  | false => exact ⟨'f', _, rfl, by decide⟩
  | nan => exact ⟨'N', _, rfl, by decide⟩
  | inf => exact ⟨'I', _, rfl, by decide⟩
  | negInf => exact ⟨'-', _, rfl, by decide⟩
  | number s v h =>
    rcases jsonNumber_head h with ⟨c, r, rfl, hc⟩ | ⟨c, r, rfl, hc⟩
    · have := digit_not' hc
      exact ⟨c, r, rfl, this.1, this.2.1, this.2.2.1⟩
    · exact ⟨'-', _, rfl, by decide⟩
  | text s t h =>
    obtain ⟨r, rfl⟩ := jsonString_head h
    exact ⟨_, r, rfl, by decide⟩
  | nil b h => exact ⟨_, _, rfl, by decide⟩
  | list s l h => exact ⟨_, _, rfl, by decide⟩
  | empty b h => exact ⟨_, _, rfl, by decide⟩
  | dict s l h => exact ⟨_, _, rfl, by decide⟩

theorem scanConstant_digit {c : Char} (r : List Char) (h : c.isDigit = true) : scanConstant (c :: r) jsonConstants = none := by
  have : c ≠ 'n' ∧ c ≠ 't' ∧ c ≠ 'f' ∧ c ≠ 'N' ∧ c ≠ 'I' ∧ c ≠ '-' := by
    refine ⟨?_, ?_, ?_, ?_, ?_, ?_⟩ <;> (rintro rfl; exact absurd h (by decide))
  obtain ⟨h1, h2, h3, h4, h5, h6⟩ := this
  simp [scanConstant, jsonConstants, List.isPrefixOf, h1.symm, h2.symm, h3.symm, h4.symm, h5.symm, h6.symm]

theorem scanConstant_minus {c : Char} (r : List Char) (h : c.isDigit = true) : scanConstant ('-' :: c :: r) jsonConstants = none := by
  have h5 : c ≠ 'I' := by rintro rfl; exact absurd h (by decide)
  simp [scanConstant, jsonConstants, List.isPrefixOf, h5.symm]

theorem scanConstant_spec {s : List Char} {v : PyVal} {r : List Char} (h : scanConstant s jsonConstants = some (v, r)) :
    ∃ p, s = p ++ r ∧ JsonValue p v := by
  have key : ∀ (k : String) (w : PyVal) (l : List (String × PyVal)), JsonValue k.toList w →
      (scanConstant s l = some (v, r) → ∃ p, s = p ++ r ∧ JsonValue p v) → scanConstant s ((k, w) :: l) = some (v, r) → ∃ p, s = p ++ r ∧ JsonValue p v := by
    intro k w l hw ih h
    unfold scanConstant at h
    split_ifs at h with hp
    · cases h
      obtain ⟨t, rfl⟩ := List.isPrefixOf_iff_prefix.1 hp
      exact ⟨_, by rw [List.drop_left], hw⟩
    · exact ih h
  refine key _ _ _ .null ?_ h
  refine key _ _ _ .true ?_
  refine key _ _ _ .false ?_
  refine key _ _ _ .nan ?_
  refine key _ _ _ .inf ?_
  refine key _ _ _ .negInf ?_
  intro h
  cases h

/-! ### The scanner reads the texts of the grammar -/

theorem jsonItems_head {s : List Char} {l : List PyVal} (h : JsonItems s l) : ∃ a c r, s = a ++ c :: r ∧ JsonBlanks a ∧ isJsonBlank c = false ∧ c ≠ ']' := by
  cases h with
  | one a s b v ha h hb =>
    obtain ⟨c, r, rfl, h1, h2, _⟩ := jsonValue_head h
    exact ⟨a, c, r ++ b, by simp, ha, h1, h2⟩
  | more a s b r v l ha h hb hr =>
    obtain ⟨c, t, rfl, h1, h2, _⟩ := jsonValue_head h
    exact ⟨a, c, t ++ (b ++ ',' :: r), by simp, ha, h1, h2⟩

theorem jsonMembers_head {s : List Char} {l : List (String × PyVal)} (h : JsonMembers s l) : ∃ a r, s = a ++ '"' :: r ∧ JsonBlanks a := by
  cases h with
  | one a q b c s d k v ha hq hb hc h hd =>
    obtain ⟨r, rfl⟩ := jsonString_head hq
    exact ⟨a, r ++ (b ++ ':' :: (c ++ s ++ d)), by simp, ha⟩
  | more a q b c s d r k v l ha hq hb hc h hd hr =>
    obtain ⟨t, rfl⟩ := jsonString_head hq
    exact ⟨a, t ++ (b ++ ':' :: (c ++ s ++ d ++ ',' :: r)), by simp, ha⟩

theorem ends_blanks {b r : List Char} (hb : JsonBlanks b) (hr : Ends r) : Ends (b ++ r) := by
  intro c hc
  cases b with
  | nil => exact hr c hc
  | cons x b =>
    cases hc
    have := hb c (by simp)
    simp only [List.mem_cons, List.not_mem_nil, or_false] at this
    rcases this with rfl | rfl | rfl | rfl <;> decide

theorem ends_cons {c : Char} {r : List Char} (h : c.isDigit = false ∧ c ≠ '.' ∧ c ≠ 'e' ∧ c ≠ 'E') : Ends (c :: r) := by
  intro d hd
  cases hd
  exact h

theorem skip_cons {b : List Char} {c : Char} {r : List Char} (hb : JsonBlanks b) (hc : isJsonBlank c = false) : skipBlanks (b ++ c :: r) = c :: r :=
  skipBlanks_append hb (fun d hd => by cases hd; exact hc)

theorem scanString_json {q r : List Char} {k : String} (h : JsonString q k) {n : ℕ} (hn : (q ++ r).length ≤ n) :
    ∃ t, q ++ r = '"' :: t ∧ scanString n t = .ok (k.toList, r) := by
  obtain ⟨b, rfl, hb⟩ := h
  refine ⟨b ++ '"' :: r, by simp, scanString_of hb r n ?_⟩
  simp only [List.length_append, List.length_cons, List.length_nil] at hn ⊢
  omega

mutual
theorem scanValue_of {s : List Char} {v : PyVal} (h : JsonValue s v) : ∀ (r : List Char) (n : ℕ), Ends r → 2 * (s ++ r).length < n →
    scanValue n (s ++ r) = .ok (v, r) := by
  intro r n hr hn
  obtain ⟨n, rfl⟩ : ∃ m, n = m + 1 := ⟨n - 1, by omega⟩
  match h with
  | .null => rfl
  | .true => rfl
  | .false => rfl
  | .nan => rfl
  | .inf => rfl
  | .negInf => rfl
  | .number _ _ h =>
    have hs := scanNumber_of h hr
    rcases jsonNumber_head h with ⟨c, t, rfl, hc⟩ | ⟨c, t, rfl, hc⟩
    · rw [List.cons_append] at hs ⊢
      have := digit_not' hc
      unfold scanValue
      dsimp only
      rw [if_neg this.2.2.2.1, if_neg this.2.2.2.2.1, if_neg this.2.2.2.2.2, scanConstant_digit _ hc, hs]
    · rw [List.cons_append, List.cons_append] at hs ⊢
      unfold scanValue
      dsimp only
      rw [if_neg (by decide), if_neg (by decide), if_neg (by decide), scanConstant_minus _ hc, hs]
  | .text _ t h =>
    obtain ⟨u, e, hu⟩ := scanString_json h (r := r) (n := n) (by omega)
    rw [e]
    unfold scanValue
    dsimp only
    rw [if_pos rfl, hu]
    show Except.ok (PyVal.str (String.ofList t.toList), r) = _
    rw [String.ofList_toList]
  | .nil b hb =>
    have e : '[' :: b ++ [']'] ++ r = '[' :: (b ++ ']' :: r) := by simp
    rw [e]
    unfold scanValue
    dsimp only
    rw [if_neg (by decide), if_neg (by decide), if_pos rfl, skip_cons hb (by decide)]
    dsimp only
    rw [if_pos rfl]
  | .list s l h =>
    have e : '[' :: s ++ [']'] ++ r = '[' :: (s ++ ']' :: r) := by simp
    rw [e] at hn ⊢
    have ih := scanItems_of h [] r n (by simp only [List.length_append, List.length_cons] at hn ⊢; omega)
    obtain ⟨a, c, t, rfl, ha, hc, hc'⟩ := jsonItems_head h
    have e' : a ++ c :: t ++ ']' :: r = a ++ c :: (t ++ ']' :: r) := by simp
    rw [e', skip_cons ha hc] at ih
    unfold scanValue
    dsimp only
    rw [if_neg (by decide), if_neg (by decide), if_pos rfl, e', skip_cons ha hc]
    dsimp only
    rw [if_neg hc', ih]
    rfl
  | .empty b hb =>
    have e : '{' :: b ++ ['}'] ++ r = '{' :: (b ++ '}' :: r) := by simp
    rw [e]
    unfold scanValue
    dsimp only
    rw [if_neg (by decide), if_pos rfl, skip_cons hb (by decide)]
    dsimp only
    rw [if_pos rfl]
  | .dict s l h =>
    have e : '{' :: s ++ ['}'] ++ r = '{' :: (s ++ '}' :: r) := by simp
    rw [e] at hn ⊢
    have ih := scanMembers_of h [] r n (by simp only [List.length_append, List.length_cons] at hn ⊢; omega)
    obtain ⟨a, t, rfl, ha⟩ := jsonMembers_head h
    have e' : a ++ '"' :: t ++ '}' :: r = a ++ '"' :: (t ++ '}' :: r) := by simp
    rw [e', skip_cons ha (by decide)] at ih
    unfold scanValue
    dsimp only
    rw [if_neg (by decide), if_pos rfl, e', skip_cons ha (by decide)]
    dsimp only
    rw [if_neg (by decide), ih, foldl_dictSet l [] (by simp)]
    simp
theorem scanItems_of {s : List Char} {l : List PyVal} (h : JsonItems s l) : ∀ (acc : List PyVal) (r : List Char) (n : ℕ), 2 * (s ++ ']' :: r).length + 1 < n →
    scanItems n acc (skipBlanks (s ++ ']' :: r)) = .ok (.list (acc ++ l), r) := by
  intro acc r n hn
  obtain ⟨n, rfl⟩ : ∃ m, n = m + 1 := ⟨n - 1, by omega⟩
  match h with
  | .one a s b v ha h hb =>
    have ih := scanValue_of h (b ++ ']' :: r) n (ends_blanks hb (ends_cons (by decide)))
      (by simp only [List.length_append, List.length_cons] at hn ⊢; omega)
    have e : skipBlanks (a ++ s ++ b ++ ']' :: r) = s ++ (b ++ ']' :: r) := by
      obtain ⟨c, t, rfl, hc, _⟩ := jsonValue_head h
      have : a ++ c :: t ++ b ++ ']' :: r = a ++ c :: (t ++ (b ++ ']' :: r)) := by simp
      rw [this, skip_cons ha hc]; rfl
    rw [e]
    unfold scanItems
    rw [ih]
    show (match skipBlanks (b ++ ']' :: r) with
      | [] => _
      | c :: r => _) = _
    rw [skip_cons hb (by decide)]
    rfl
  | .more a s b r' v l ha h hb hr =>
    have ih := scanValue_of h (b ++ ',' :: (r' ++ ']' :: r)) n (ends_blanks hb (ends_cons (by decide)))
      (by simp only [List.length_append, List.length_cons] at hn ⊢; omega)
    have ih2 := scanItems_of hr (acc ++ [v]) r n (by simp only [List.length_append, List.length_cons] at hn ⊢; omega)
    have e : skipBlanks (a ++ s ++ b ++ ',' :: r' ++ ']' :: r) = s ++ (b ++ ',' :: (r' ++ ']' :: r)) := by
      obtain ⟨c, t, rfl, hc, _⟩ := jsonValue_head h
      have : a ++ c :: t ++ b ++ ',' :: r' ++ ']' :: r = a ++ c :: (t ++ (b ++ ',' :: (r' ++ ']' :: r))) := by simp
      rw [this, skip_cons ha hc]; rfl
    rw [e]
    unfold scanItems
    rw [ih]
    show (match skipBlanks (b ++ ',' :: (r' ++ ']' :: r)) with
      | [] => _
      | c :: r => _) = _
    rw [skip_cons hb (by decide)]
    dsimp only
    rw [if_neg (by decide), if_pos rfl, ih2]
    simp
theorem scanMembers_of {s : List Char} {l : List (String × PyVal)} (h : JsonMembers s l) : ∀ (acc : List (String × PyVal)) (r : List Char) (n : ℕ),
    2 * (s ++ '}' :: r).length + 1 < n →
    scanMembers n acc (skipBlanks (s ++ '}' :: r)) = .ok (.dict (l.foldl (fun d p => dictSet d p.1 p.2) acc), r) := by
  intro acc r n hn
  obtain ⟨n, rfl⟩ : ∃ m, n = m + 1 := ⟨n - 1, by omega⟩
  match h with
  | .one a q b c s d k v ha hq hb hc h hd =>
    have ih := scanValue_of h (d ++ '}' :: r) n (ends_blanks hd (ends_cons (by decide)))
      (by simp only [List.length_append, List.length_cons] at hn ⊢; omega)
    obtain ⟨t, e, hs⟩ := scanString_json hq (r := b ++ ':' :: (c ++ (s ++ (d ++ '}' :: r)))) (n := n)
      (by simp only [List.length_append, List.length_cons] at hn ⊢; omega)
    have e1 : a ++ q ++ b ++ ':' :: (c ++ s ++ d) ++ '}' :: r = a ++ (q ++ (b ++ ':' :: (c ++ (s ++ (d ++ '}' :: r))))) := by simp
    rw [e1, e, skip_cons ha (by decide)]
    have e2 : skipBlanks (c ++ (s ++ (d ++ '}' :: r))) = s ++ (d ++ '}' :: r) := by
      obtain ⟨x, t, rfl, hx, _⟩ := jsonValue_head h
      exact skip_cons hc hx
    unfold scanMembers
    dsimp only
    rw [if_neg (by simp), hs]
    show (match skipBlanks (b ++ ':' :: (c ++ (s ++ (d ++ '}' :: r)))) with
      | [] => _
      | c :: r => _) = _
    rw [skip_cons hb (by decide)]
    dsimp only
    rw [if_neg (by simp), e2, ih]
    show (match skipBlanks (d ++ '}' :: r) with
      | [] => _
      | c :: r => _) = _
    rw [skip_cons hd (by decide)]
    dsimp only
    rw [if_pos rfl, String.ofList_toList]
    rfl
  | .more a q b c s d r' k v l ha hq hb hc h hd hr =>
    have ih := scanValue_of h (d ++ ',' :: (r' ++ '}' :: r)) n (ends_blanks hd (ends_cons (by decide)))
      (by simp only [List.length_append, List.length_cons] at hn ⊢; omega)
    have ih2 := scanMembers_of hr (dictSet acc k v) r n (by simp only [List.length_append, List.length_cons] at hn ⊢; omega)
    obtain ⟨t, e, hs⟩ := scanString_json hq (r := b ++ ':' :: (c ++ (s ++ (d ++ ',' :: (r' ++ '}' :: r))))) (n := n)
      (by simp only [List.length_append, List.length_cons] at hn ⊢; omega)
    have e1 : a ++ q ++ b ++ ':' :: (c ++ s ++ d ++ ',' :: r') ++ '}' :: r = a ++ (q ++ (b ++ ':' :: (c ++ (s ++ (d ++ ',' :: (r' ++ '}' :: r)))))) := by simp
    rw [e1, e, skip_cons ha (by decide)]
    have e2 : skipBlanks (c ++ (s ++ (d ++ ',' :: (r' ++ '}' :: r)))) = s ++ (d ++ ',' :: (r' ++ '}' :: r)) := by
      obtain ⟨x, t, rfl, hx, _⟩ := jsonValue_head h
      exact skip_cons hc hx
    unfold scanMembers
    dsimp only
    rw [if_neg (by simp), hs]
    show (match skipBlanks (b ++ ':' :: (c ++ (s ++ (d ++ ',' :: (r' ++ '}' :: r))))) with
      | [] => _
      | c :: r => _) = _
    rw [skip_cons hb (by decide)]
    dsimp only
    rw [if_neg (by simp), e2, ih]
    show (match skipBlanks (d ++ ',' :: (r' ++ '}' :: r)) with
      | [] => _
      | c :: r => _) = _
    rw [skip_cons hd (by decide)]
    dsimp only
    rw [if_neg (by decide), if_pos rfl, String.ofList_toList, ih2]
    rfl
end

/-! ### The scanner reads nothing else -/

/-- A result of the scanner, for what it returns on success. -/
def Scans (x : Except JsonErr (PyVal × List Char)) (s : List Char) (p : PyVal → List Char → Prop) : Prop :=
  (∃ v r, x = .ok (v, r) ∧ p v r) ∨ x = .error .decode ∨ (x = .error .surrogate ∧ HasSurrogate s)

theorem Scans.mono {x : Except JsonErr (PyVal × List Char)} {s s' : List Char} {p p' : PyVal → List Char → Prop} (h : Scans x s p)
    (hs : HasSurrogate s → HasSurrogate s') (hp : ∀ v r, p v r → p' v r) : Scans x s' p' := by
  rcases h with ⟨v, r, h, h'⟩ | h | ⟨h, h'⟩
  · exact .inl ⟨v, r, h, hp v r h'⟩
  · exact .inr (.inl h)
  · exact .inr (.inr ⟨h, hs h'⟩)

theorem surrogate_skip {s : List Char} (h : HasSurrogate (skipBlanks s)) : HasSurrogate s := by
  obtain ⟨b, e, _⟩ := skipBlanks_spec s
  rw [e]
  exact surrogate_pre h

theorem skip_length (s : List Char) : (skipBlanks s).length ≤ s.length := by
  obtain ⟨b, e, _⟩ := skipBlanks_spec s
  conv_rhs => rw [e]
  simp

theorem jsonBlanks_nil : JsonBlanks [] := fun c hc => by cases hc

theorem jsonValue_pos {s : List Char} {v : PyVal} (h : JsonValue s v) : 0 < s.length := by
  obtain ⟨c, r, rfl, _⟩ := jsonValue_head h
  simp

theorem items_blank {a p : List Char} {l : List PyVal} (ha : JsonBlanks a) (h : JsonItems p l) : JsonItems (a ++ p) l := by
  have cat : ∀ b, JsonBlanks b → JsonBlanks (a ++ b) := fun b hb c hc => (List.mem_append.1 hc).elim (ha c) (hb c)
  cases h with
  | one b s c v hb h hc =>
    have := JsonItems.one (a ++ b) s c v (cat b hb) h hc
    simpa using this
  | more b s c r v l hb h hc hr =>
    have := JsonItems.more (a ++ b) s c r v l (cat b hb) h hc hr
    simpa using this

theorem members_blank {a p : List Char} {l : List (String × PyVal)} (ha : JsonBlanks a) (h : JsonMembers p l) : JsonMembers (a ++ p) l := by
  have cat : ∀ b, JsonBlanks b → JsonBlanks (a ++ b) := fun b hb c hc => (List.mem_append.1 hc).elim (ha c) (hb c)
  cases h with
  | one b q c d s e k v hb hq hc hd h he =>
    have := JsonMembers.one (a ++ b) q c d s e k v (cat b hb) hq hc hd h he
    simpa using this
  | more b q c d s e r k v l hb hq hc hd h he hr =>
    have := JsonMembers.more (a ++ b) q c d s e r k v l (cat b hb) hq hc hd h he hr
    simpa using this

theorem scan_spec : ∀ n : ℕ,
    (∀ s, 2 * s.length < n → Scans (scanValue n s) s (fun v r => ∃ p, s = p ++ r ∧ JsonValue p v)) ∧
    (∀ acc s, 2 * s.length + 1 < n → Scans (scanItems n acc s) s (fun v r => ∃ p l, v = .list (acc ++ l) ∧ s = p ++ ']' :: r ∧ JsonItems p l)) ∧
    (∀ acc s, 2 * s.length + 1 < n → Scans (scanMembers n acc s) s
      (fun v r => ∃ p l, v = .dict (l.foldl (fun d p => dictSet d p.1 p.2) acc) ∧ s = p ++ '}' :: r ∧ JsonMembers p l)) := by
  intro n
  induction n with
  | zero => exact ⟨fun s h => by omega, fun acc s h => by omega, fun acc s h => by omega⟩
  | succ n ih =>
    obtain ⟨ihV, ihI, ihM⟩ := ih
    refine ⟨?_, ?_, ?_⟩
    · intro s hn
      unfold scanValue
      cases s with
      | nil => exact .inr (.inl rfl)
      | cons c r =>
        dsimp only
        rw [List.length_cons] at hn
        by_cases h1 : c = '"'
        · rw [if_pos h1]
          subst h1
          rcases scanString_spec n r (by omega) with ⟨cs, r', p, h, rfl, hp⟩ | h | ⟨h, hs⟩
          · rw [h]
            refine .inl ⟨_, _, rfl, '"' :: p ++ ['"'], by simp, .text _ _ ⟨p, rfl, ?_⟩⟩
            rw [String.toList_ofList]
            exact hp
          · rw [h]; exact .inr (.inl rfl)
          · rw [h]; exact .inr (.inr ⟨rfl, surrogate_pre (p := ['"']) hs⟩)
        rw [if_neg h1]
        obtain ⟨b, eb, hb⟩ := skipBlanks_spec r
        have hl := skip_length r
        by_cases h2 : c = '{'
        · rw [if_pos h2]
          subst h2
          cases hr : skipBlanks r with
          | nil => exact .inr (.inl rfl)
          | cons d r' =>
            rw [hr] at eb hl
            dsimp only
            by_cases h3 : d = '}'
            · rw [if_pos h3]
              subst h3
              exact .inl ⟨_, _, rfl, '{' :: b ++ ['}'], by rw [eb]; simp, .empty b hb⟩
            · rw [if_neg h3]
              refine (ihM [] (d :: r') (by omega)).mono (fun h => ?_) ?_
              · rw [eb]
                exact surrogate_pre (p := '{' :: b) h
              · rintro v r2 ⟨p, l, rfl, e, hp⟩
                refine ⟨'{' :: (b ++ p) ++ ['}'], by rw [eb, e]; simp, ?_⟩
                have := JsonValue.dict (b ++ p) l (members_blank hb hp)
                have e2 := foldl_dictSet l [] (by simp)
                simp only [List.map_nil, List.nil_append, List.not_mem_nil, not_false_eq_true, decide_true, List.filter_true] at e2
                rw [e2]
                exact this
        rw [if_neg h2]
        by_cases h3 : c = '['
        · rw [if_pos h3]
          subst h3
          cases hr : skipBlanks r with
          | nil => exact .inr (.inl rfl)
          | cons d r' =>
            rw [hr] at eb hl
            dsimp only
            by_cases h3 : d = ']'
            · rw [if_pos h3]
              subst h3
              exact .inl ⟨_, _, rfl, '[' :: b ++ [']'], by rw [eb]; simp, .nil b hb⟩
            · rw [if_neg h3]
              refine (ihI [] (d :: r') (by omega)).mono (fun h => ?_) ?_
              · rw [eb]
                exact surrogate_pre (p := '[' :: b) h
              · rintro v r2 ⟨p, l, rfl, e, hp⟩
                refine ⟨'[' :: (b ++ p) ++ [']'], by rw [eb, e]; simp, ?_⟩
                exact JsonValue.list (b ++ p) l (items_blank hb hp)
        rw [if_neg h3]
        cases hc : scanConstant (c :: r) jsonConstants with
        | some x =>
          obtain ⟨v, r'⟩ := x
          exact .inl ⟨v, r', rfl, scanConstant_spec hc⟩
        | none =>
          dsimp only
          rcases scanNumber_spec (c :: r) with ⟨v, r', p, h, e, _, hp⟩ | h
          · rw [h]; exact .inl ⟨v, r', rfl, p, e, .number _ _ hp⟩
          · rw [h]; exact .inr (.inl rfl)
    · intro acc s hn
      unfold scanItems
      rcases ihV s (by omega) with ⟨v, r, h, p, rfl, hp⟩ | h | ⟨h, hs⟩
      · rw [h]
        show Scans (match skipBlanks r with
          | [] => _
          | c :: r => _) _ _
        obtain ⟨b, eb, hb⟩ := skipBlanks_spec r
        have hl := skip_length r
        have hpos := jsonValue_pos hp
        cases hr : skipBlanks r with
        | nil => exact .inr (.inl rfl)
        | cons c r' =>
          rw [hr] at eb hl
          dsimp only
          by_cases h1 : c = ']'
          · rw [if_pos h1]
            subst h1
            refine .inl ⟨_, _, rfl, p ++ b, [v], rfl, by rw [eb]; simp, ?_⟩
            have := JsonItems.one [] p b v jsonBlanks_nil hp hb
            simpa using this
          rw [if_neg h1]
          by_cases h2 : c = ','
          · rw [if_pos h2]
            subst h2
            obtain ⟨a, ea, ha⟩ := skipBlanks_spec r'
            have hl' := skip_length r'
            simp only [List.length_append, List.length_cons] at hn hl
            refine (ihI (acc ++ [v]) (skipBlanks r') (by omega)).mono (fun h => ?_) ?_
            · rw [eb]
              have := surrogate_pre (p := p ++ (b ++ [','])) (surrogate_skip h)
              simpa using this
            · rintro w r2 ⟨p', l, rfl, e, hp'⟩
              refine ⟨p ++ b ++ ',' :: (a ++ p'), v :: l, by simp, ?_, ?_⟩
              · rw [eb, ea, e]; simp
              · have := JsonItems.more [] p b (a ++ p') v l jsonBlanks_nil hp hb (items_blank ha hp')
                simpa using this
          · rw [if_neg h2]; exact .inr (.inl rfl)
      · rw [h]; exact .inr (.inl rfl)
      · rw [h]; exact .inr (.inr ⟨rfl, hs⟩)
    · intro acc s hn
      unfold scanMembers
      cases s with
      | nil => exact .inr (.inl rfl)
      | cons q s =>
        dsimp only
        by_cases h1 : q ≠ '"'
        · rw [if_pos h1]; exact .inr (.inl rfl)
        rw [if_neg h1]
        rw [not_not] at h1
        subst h1
        rw [List.length_cons] at hn
        rcases scanString_spec n s (by omega) with ⟨cs, r, p, h, rfl, hp⟩ | h | ⟨h, hs⟩
        · rw [h]
          show Scans (match skipBlanks r with
            | [] => _
            | c :: r => _) _ _
          obtain ⟨b, eb, hb⟩ := skipBlanks_spec r
          have hl := skip_length r
          simp only [List.length_append, List.length_cons] at hn
          have hq : JsonString ('"' :: p ++ ['"']) (String.ofList cs) := ⟨p, rfl, by rw [String.toList_ofList]; exact hp⟩
          cases hr : skipBlanks r with
          | nil => exact .inr (.inl rfl)
          | cons c r1 =>
            rw [hr] at eb hl
            dsimp only
            by_cases h2 : c ≠ ':'
            · rw [if_pos h2]; exact .inr (.inl rfl)
            rw [if_neg h2]
            rw [not_not] at h2
            subst h2
            obtain ⟨b1, eb1, hb1⟩ := skipBlanks_spec r1
            have hl1 := skip_length r1
            rw [List.length_cons] at hl
            have sur : ∀ t, r = t → HasSurrogate t → HasSurrogate ('"' :: (p ++ '"' :: r)) := by
              rintro t rfl ht
              have := surrogate_pre (p := '"' :: (p ++ ['"'])) ht
              simpa using this
            rcases ihV (skipBlanks r1) (by omega) with ⟨v, r2, h, pv, e2, hpv⟩ | h | ⟨h, hs⟩
            · rw [h]
              show Scans (match skipBlanks r2 with
                | [] => _
                | c :: r => _) _ _
              obtain ⟨b2, eb2, hb2⟩ := skipBlanks_spec r2
              have hl2 := skip_length r2
              have hlen := congrArg List.length e2
              rw [List.length_append] at hlen
              cases hr2 : skipBlanks r2 with
              | nil => exact .inr (.inl rfl)
              | cons c r3 =>
                rw [hr2] at eb2 hl2
                rw [List.length_cons] at hl2
                dsimp only
                have er : r = b ++ ':' :: (b1 ++ (pv ++ (b2 ++ c :: r3))) := by rw [eb, eb1, e2, eb2]
                by_cases h3 : c = '}'
                · rw [if_pos h3]
                  subst h3
                  refine .inl ⟨_, _, rfl, '"' :: p ++ ['"'] ++ b ++ ':' :: (b1 ++ pv ++ b2), [(String.ofList cs, v)], rfl, by rw [er]; simp, ?_⟩
                  have := JsonMembers.one [] _ b b1 pv b2 _ v jsonBlanks_nil hq hb hb1 hpv hb2
                  simpa using this
                rw [if_neg h3]
                by_cases h4 : c = ','
                · rw [if_pos h4]
                  subst h4
                  obtain ⟨a, ea, ha⟩ := skipBlanks_spec r3
                  have hl3 := skip_length r3
                  refine (ihM (dictSet acc (String.ofList cs) v) (skipBlanks r3) (by omega)).mono (fun h => ?_) ?_
                  · refine sur _ er ?_
                    have := surrogate_pre (p := b ++ ':' :: (b1 ++ (pv ++ (b2 ++ [','])))) (surrogate_skip h)
                    simpa using this
                  · rintro w r4 ⟨p', l, rfl, e, hp'⟩
                    refine ⟨'"' :: p ++ ['"'] ++ b ++ ':' :: (b1 ++ pv ++ b2 ++ ',' :: (a ++ p')), (String.ofList cs, v) :: l, rfl, ?_, ?_⟩
                    · rw [er, ea, e]; simp
                    · have := JsonMembers.more [] _ b b1 pv b2 (a ++ p') _ v l jsonBlanks_nil hq hb hb1 hpv hb2 (members_blank ha hp')
                      simpa using this
                · rw [if_neg h4]; exact .inr (.inl rfl)
            · rw [h]; exact .inr (.inl rfl)
            · rw [h]
              refine .inr (.inr ⟨rfl, sur _ eb ?_⟩)
              have := surrogate_pre (p := b ++ [':']) (surrogate_skip hs)
              simpa using this
        · rw [h]; exact .inr (.inl rfl)
        · rw [h]; exact .inr (.inr ⟨rfl, surrogate_pre (p := ['"']) hs⟩)

theorem skipBlanks_all {b : List Char} (hb : JsonBlanks b) : skipBlanks b = [] := by
  have := skipBlanks_append (r := []) hb (by simp)
  simpa using this

/-! ### The theorems -/

/-- C100. A text is read as a value exactly when it is a json text of that value: all of it, with any blanks, and nothing after it. -/
theorem C100_read {s : List Char} {v : PyVal} : jsonLoads s = .ok v ↔ JsonText s v := by
  constructor
  · intro h
    unfold jsonLoads at h
    split_ifs at h with h0
    have hl := skip_length s
    obtain ⟨a, ea, ha⟩ := skipBlanks_spec s
    rcases (scan_spec (2 * s.length + 1)).1 (skipBlanks s) (by omega) with ⟨w, r, h1, p, e, hp⟩ | h1 | ⟨h1, _⟩
    · rw [h1] at h
      simp only [bind, Except.bind] at h
      split_ifs at h with h2
      cases h
      obtain ⟨b, eb, hb⟩ := skipBlanks_spec r
      rw [h2, List.append_nil] at eb
      subst eb
      exact ⟨a, r, p, by rw [List.append_assoc, ← e]; exact ea, ha, hb, hp⟩
    · rw [h1] at h; cases h
    · rw [h1] at h; cases h
  · rintro ⟨a, b, p, rfl, ha, hb, hp⟩
    unfold jsonLoads
    obtain ⟨c, t, e, hc, h1, h2⟩ := jsonValue_head hp
    have hskip : skipBlanks (a ++ p ++ b) = p ++ b := by
      rw [e, List.append_assoc]
      exact skip_cons ha hc
    have hbom : ¬ (a ++ p ++ b).head? = some '\ufeff' := by
      intro hh
      cases a with
      | cons x a =>
        cases hh
        exact absurd (ha '\ufeff' (by simp)) (by decide)
      | nil =>
        rw [e] at hh
        cases hh
        cases hp with
        | number _ _ h =>
          rcases jsonNumber_head h with ⟨c, r, e', hd⟩ | ⟨c, r, e', hd⟩
          · cases e'.symm.trans e; exact absurd hd (by decide)
          · cases e'.symm.trans e
        | text _ _ h =>
          obtain ⟨r, e'⟩ := jsonString_head h
          cases e'.symm.trans e
        | _ => cases e
    rw [if_neg hbom, hskip, scanValue_of hp b _ (by simpa using ends_blanks hb (r := []) (by intro c hc; cases hc)) (by simp only [List.length_append]; omega)]
    simp only [bind, Except.bind]
    rw [if_pos (skipBlanks_all hb)]

/-- C100. Reading always ends: every other text raises the decoding error of the library, or contains the escape of a surrogate. -/
theorem C100_rejects {s : List Char} (h : ∀ v, ¬ JsonText s v) (hs : ¬ HasSurrogate s) : jsonLoads s = .error .decode := by
  unfold jsonLoads
  split_ifs with h0
  · rfl
  have hl := skip_length s
  obtain ⟨a, ea, ha⟩ := skipBlanks_spec s
  rcases (scan_spec (2 * s.length + 1)).1 (skipBlanks s) (by omega) with ⟨w, r, h1, p, e, hp⟩ | h1 | ⟨_, h1⟩
  · rw [h1]
    simp only [bind, Except.bind]
    split_ifs with h2
    · exfalso
      refine h w (C100_read.1 ?_)
      unfold jsonLoads
      rw [if_neg h0, h1]
      simp only [bind, Except.bind]
      rw [if_pos h2]
    · rfl
  · rw [h1]; rfl
  · exact absurd (surrogate_skip h1) hs

/-- C100. No text stands for two values. -/
theorem C100_unambiguous {s : List Char} {v w : PyVal} (hv : JsonText s v) (hw : JsonText s w) : v = w := by
  have := (C100_read.2 hv).symm.trans (C100_read.2 hw)
  cases this
  rfl

/-! ### Examples -/

namespace ExText

/-- Integers, numbers with an exponent, and escapes. -/
example : (match jsonLoads "[1, -2.50e1, \"\\u00e9\\ud83d\\ude00\"]".toList with
    | .ok (.list [.int 1, .dec q, .str s]) => q == -25 && s == "é😀"
    | _ => false) = true := by decide +kernel

/-- Texts that are not json. -/
example : (["", "[1, ]", "01", "{'a': 1}", "1 2", "\"\n\"", "+1", ".5", "1.", "tru", "nan"].all (fun s => match jsonLoads s.toList with
    | .error .decode => true
    | _ => false)) = true := by decide +kernel

end ExText

/-- C100 (negative). An instance that lists an account twice is accepted without a message, and the first list of balances is lost. -/
theorem C100_repeated_account : ∃ t, jsonLoads "{\"accounts\": {\"A\": {\"T1\": \"5\"}, \"A\": {\"T2\": \"7\"}}}".toList = .ok t ∧
    ∃ acc, field t "accounts" = some acc ∧ entry acc "A" "T1" = none ∧ (entry acc "A" "T2").isSome = true := by
  have h : (match jsonLoads "{\"accounts\": {\"A\": {\"T1\": \"5\"}, \"A\": {\"T2\": \"7\"}}}".toList with
    | .ok t => (field t "accounts").elim false (fun acc => (entry acc "A" "T1").isNone && (entry acc "A" "T2").isSome)
    | _ => false) = true := by decide +kernel
  split at h
  · rename_i t ht
    refine ⟨t, ht, ?_⟩
    cases ha : field t "accounts" with
    | none => rw [ha] at h; cases h
    | some acc =>
      rw [ha] at h
      simp only [Option.elim, Bool.and_eq_true, Option.isNone_iff_eq_none] at h
      exact ⟨acc, rfl, h⟩
  · cases h

end Dex
