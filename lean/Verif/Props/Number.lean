import Verif.Model.Number
import Verif.Props.Json
import Mathlib.Data.List.TakeWhile

/-! # Property C91: numbers are read from text as Python reads them, and what is written reads back as the same number -/

namespace Dex

namespace Spec

/-- Decimal digits only. -/
def Digits (l : List Char) : Prop := ∀ c ∈ l, '0' ≤ c ∧ c ≤ '9'

/-- The value of decimal digits. -/
def number (l : List Char) : ℕ := l.foldl (fun n c => 10 * n + (c.toNat - 48)) 0

/-- Blanks only. -/
def Blanks (l : List Char) : Prop := ∀ c ∈ l, c ∈ [' ', '\t', '\n', '\r', '\x0b', '\x0c', '\x1c', '\x1d', '\x1e', '\x1f']

/-- A sign, possibly empty, and its factor. -/
inductive Sign : List Char → ℤ → Prop
  | none : Sign [] 1
  | plus : Sign ['+'] 1
  | minus : Sign ['-'] (-1)

/-- A fractional part: nothing, or a point and digits. -/
inductive Point : List Char → List Char → Prop
  | none : Point [] []
  | some (l : List Char) (h : Digits l) : Point ('.' :: l) l

/-- An exponent: nothing, or `e` or `E`, a sign and digits. -/
inductive Exponent : List Char → ℤ → Prop
  | none : Exponent [] 0
  | some (c : Char) (hc : c = 'e' ∨ c = 'E') (s : List Char) (σ : ℤ) (hs : Sign s σ) (l : List Char) (hl : Digits l) (hne : l ≠ []) :
    Exponent (c :: (s ++ l)) (σ * number l)

/-- A number without sign and its value: numerator and denominator, or decimal notation. -/
inductive Unsigned : List Char → ℚ → Prop
  | ratio (n d : List Char) (hn : Digits n) (hn' : n ≠ []) (hd : Digits d) (h0 : number d ≠ 0) : Unsigned (n ++ '/' :: d) (number n / number d)
  | decimal (n f fd e : List Char) (k : ℤ) (hn : Digits n) (hf : Point f fd) (hne : n ≠ [] ∨ fd ≠ []) (he : Exponent e k) :
    Unsigned (n ++ f ++ e) ((number n + number fd / 10 ^ fd.length) * 10 ^ k)

/-- The text is a number for `Fraction`: blanks, a sign, a number, blanks. -/
def FractionText (s : List Char) (q : ℚ) : Prop :=
  ∃ pre sign body post σ v, s = pre ++ (sign ++ body) ++ post ∧ Blanks pre ∧ Blanks post ∧ Sign sign σ ∧ Unsigned body v ∧ q = σ * v

/-- The text is a quotient with denominator zero. -/
def ZeroDenominator (s : List Char) : Prop :=
  ∃ pre sign n d post σ, s = pre ++ (sign ++ (n ++ '/' :: d)) ++ post ∧ Blanks pre ∧ Blanks post ∧ Sign sign σ ∧ Digits n ∧ n ≠ [] ∧
    Digits d ∧ d ≠ [] ∧ number d = 0

/-- Groups of digits joined by single underscores, and the digits. -/
inductive Grouped : List Char → List Char → Prop
  | one (l : List Char) (h : Digits l) (hne : l ≠ []) : Grouped l l
  | more (l r ds : List Char) (h : Digits l) (hne : l ≠ []) (hr : Grouped r ds) : Grouped (l ++ '_' :: r) (l ++ ds)

/-- The text is a number for `int`: blanks, a sign, digits possibly grouped by underscores, blanks. -/
def IntText (s : List Char) (n : ℤ) : Prop :=
  ∃ pre sign body post σ ds, s = pre ++ (sign ++ body) ++ post ∧ Blanks pre ∧ Blanks post ∧ Sign sign σ ∧ Grouped body ds ∧ n = σ * number ds

end Spec

open Spec

theorem isDigit_iff {c : Char} : c.isDigit = true ↔ '0' ≤ c ∧ c ≤ '9' := by
  unfold Char.isDigit
  simp only [Bool.and_eq_true, decide_eq_true_eq, ge_iff_le]
  rfl

theorem digits_iff {l : List Char} : Digits l ↔ l.all Char.isDigit = true := by
  unfold Digits
  rw [List.all_eq_true]
  exact forall₂_congr (fun c _ => isDigit_iff.symm)

theorem digitsVal_eq (l : List Char) : digitsVal l = number l := by
  unfold digitsVal number
  rw [Nat.ofDigitChars_eq_foldl]
  rfl

theorem isBlank_iff {c : Char} : isBlank c = true ↔ c ∈ [' ', '\t', '\n', '\r', '\x0b', '\x0c', '\x1c', '\x1d', '\x1e', '\x1f'] := by
  simp [isBlank, or_assoc]

theorem isBlank_of_digit {c : Char} (h : c.isDigit = true) : isBlank c = false := by
  cases hb : isBlank c with
  | false => rfl
  | true =>
    rw [isBlank_iff] at hb
    simp only [List.mem_cons, List.not_mem_nil, or_false] at hb
    rcases hb with rfl | rfl | rfl | rfl | rfl | rfl | rfl | rfl | rfl | rfl <;> exact absurd h (by decide)

theorem dropWhile_blanks {p l : List Char} (hp : Blanks p) : (p ++ l).dropWhile isBlank = l.dropWhile isBlank := by
  induction p with
  | nil => rfl
  | cons c p ih =>
    rw [List.cons_append, List.dropWhile_cons_of_pos (isBlank_iff.2 (hp c (by simp)))]
    exact ih (fun d hd => hp d (by simp [hd]))

theorem takeWhile_blanks (l : List Char) : Blanks (l.takeWhile isBlank) := fun _ hc => isBlank_iff.1 (List.mem_takeWhile_imp hc)

/-- Neither end is a blank. -/
def Tight (m : List Char) : Prop := (∀ c, m.head? = some c → isBlank c = false) ∧ ∀ c, m.getLast? = some c → isBlank c = false

theorem dropWhile_tight {m : List Char} (h : ∀ c, m.head? = some c → isBlank c = false) : m.dropWhile isBlank = m := by
  cases m with
  | nil => rfl
  | cons c m => rw [List.dropWhile_cons_of_neg]; simp [h c rfl]

theorem strip_of {p m q : List Char} (hp : Blanks p) (hq : Blanks q) (hm : Tight m) : stripBlanks (p ++ m ++ q) = m := by
  unfold stripBlanks
  rw [List.append_assoc, dropWhile_blanks hp]
  rcases List.eq_nil_or_concat m with rfl | ⟨m', c, rfl⟩
  · rw [List.nil_append, ← List.append_nil q, dropWhile_blanks hq]; rfl
  have h1 : ((m' ++ [c]) ++ q).dropWhile isBlank = (m' ++ [c]) ++ q := dropWhile_tight (by
    intro d hd
    refine hm.1 d ?_
    rw [List.concat_eq_append]
    rcases m' with _ | ⟨x, m'⟩ <;> simpa using hd)
  rw [List.concat_eq_append, h1, List.reverse_append, dropWhile_blanks (fun d hd => hq d (List.mem_reverse.1 hd)), dropWhile_tight, List.reverse_reverse]
  intro d hd
  refine hm.2 d ?_
  rw [List.concat_eq_append]
  simpa using hd

theorem strip_spec (s : List Char) : ∃ p q, s = p ++ stripBlanks s ++ q ∧ Blanks p ∧ Blanks q := by
  refine ⟨s.takeWhile isBlank, ((s.dropWhile isBlank).reverse.takeWhile isBlank).reverse, ?_, takeWhile_blanks _,
    fun c hc => takeWhile_blanks _ c (List.mem_reverse.1 hc)⟩
  unfold stripBlanks
  rw [List.append_assoc, ← List.reverse_append, List.takeWhile_append_dropWhile, List.reverse_reverse, List.takeWhile_append_dropWhile]

theorem takeSign_spec (s : List Char) : ∃ sign, s = sign ++ (takeSign s).2 ∧ Sign sign (if (takeSign s).1 then -1 else 1) := by
  unfold takeSign
  cases s with
  | nil => exact ⟨[], rfl, .none⟩
  | cons c r =>
    dsimp only
    split
    · rename_i h; subst h; exact ⟨['-'], rfl, .minus⟩
    split
    · rename_i h; subst h; exact ⟨['+'], rfl, .plus⟩
    · exact ⟨[], rfl, .none⟩

theorem takeSign_of {sign body : List Char} {σ : ℤ} (hs : Sign sign σ) (hb : ∀ c, body.head? = some c → c ≠ '-' ∧ c ≠ '+') :
    (takeSign (sign ++ body)).2 = body ∧ (if (takeSign (sign ++ body)).1 then (-1 : ℤ) else 1) = σ := by
  cases hs with
  | none =>
    cases body with
    | nil => exact ⟨rfl, rfl⟩
    | cons c r =>
      obtain ⟨h1, h2⟩ := hb c rfl
      simp [takeSign, h1, h2]
  | plus => simp [takeSign]
  | minus => simp [takeSign]

theorem digit_not {c : Char} (h : c.isDigit = true) : c ≠ '-' ∧ c ≠ '+' ∧ c ≠ '/' ∧ c ≠ '.' ∧ c ≠ 'e' ∧ c ≠ 'E' ∧ c ≠ '_' := by
  refine ⟨?_, ?_, ?_, ?_, ?_, ?_, ?_⟩ <;> (rintro rfl; exact absurd h (by decide))

theorem takeWhile_digits {n r : List Char} (hn : Digits n) (hr : ∀ c, r.head? = some c → c.isDigit = false) :
    (n ++ r).takeWhile Char.isDigit = n ∧ (n ++ r).dropWhile Char.isDigit = r := by
  induction n with
  | nil =>
    cases r with
    | nil => exact ⟨rfl, rfl⟩
    | cons c r => simp [hr c rfl]
  | cons c n ih =>
    have hc := isDigit_iff.2 (hn c (by simp))
    obtain ⟨i1, i2⟩ := ih (fun d hd => hn d (by simp [hd]))
    rw [List.cons_append, List.takeWhile_cons_of_pos hc, List.dropWhile_cons_of_pos hc, i1, i2]
    exact ⟨rfl, rfl⟩

theorem digits_takeWhile (l : List Char) : Digits (l.takeWhile Char.isDigit) := fun _ hc => isDigit_iff.1 (List.mem_takeWhile_imp hc)

theorem head_dropWhile_digits (l : List Char) : ∀ c, (l.dropWhile Char.isDigit).head? = some c → c.isDigit = false := by
  intro c hc
  have := List.head?_dropWhile_not Char.isDigit l
  rw [hc] at this
  simpa using this

theorem fracExponent_cons (c : Char) (r : List Char) : fracExponent (c :: r) = if c = 'e' ∨ c = 'E' then
    if (takeSign r).2 ≠ [] ∧ (takeSign r).2.all Char.isDigit then
      some (if (takeSign r).1 then -(digitsVal (takeSign r).2 : ℤ) else digitsVal (takeSign r).2) else none else none := rfl

theorem fracExponent_iff {l : List Char} {k : ℤ} : fracExponent l = some k ↔ Exponent l k := by
  constructor
  · intro h
    cases l with
    | nil => simp only [fracExponent, Option.some.injEq] at h; subst h; exact .none
    | cons c r =>
      rw [fracExponent_cons] at h
      split at h
      · rename_i hc
        obtain ⟨sign, e, hs⟩ := takeSign_spec r
        split at h
        · rename_i hd
          have hk : k = (if (takeSign r).1 then -1 else 1) * (number (takeSign r).2 : ℤ) := by
            simp only [Option.some.injEq] at h
            rw [← h, digitsVal_eq]
            split <;> simp
          rw [hk]
          have := Exponent.some c hc sign _ hs (takeSign r).2 (digits_iff.2 hd.2) hd.1
          rwa [← e] at this
        · cases h
      · cases h
  · intro h
    cases h with
    | none => rfl
    | some c hc s σ hs l hl hne =>
      rw [fracExponent_cons, if_pos hc]
      obtain ⟨h1, h2⟩ := takeSign_of (body := l) hs (by
        intro d hd
        have := digit_not (isDigit_iff.2 (hl d (List.mem_of_mem_head? hd)))
        exact ⟨this.1, this.2.1⟩)
      rw [h1, if_pos ⟨hne, digits_iff.1 hl⟩, ← h2, digitsVal_eq]
      split <;> simp

theorem startsNumber_digit {n r : List Char} (hn : Digits n) (hne : n ≠ []) : startsNumber (n ++ r) = true := by
  cases n with
  | nil => exact absurd rfl hne
  | cons c n => simp [startsNumber, isDigit_iff.2 (hn c (by simp))]

theorem exponent_head {e : List Char} {k : ℤ} (h : Exponent e k) : ∀ c, e.head? = some c → c = 'e' ∨ c = 'E' := by
  intro c hc
  cases h with
  | none => cases hc
  | some c' h' => cases hc; exact h'

theorem unsigned_of {r : List Char} {v : ℚ} (h : Unsigned r v) : unsignedFraction r = .ok v := by
  cases h with
  | ratio n d hn hn' hd h0 =>
    unfold unsignedFraction
    obtain ⟨h1, h2⟩ := takeWhile_digits (r := '/' :: d) hn (by intro c hc; cases hc; decide)
    have hd' : d ≠ [] := by rintro rfl; exact h0 rfl
    dsimp only
    rw [h1, h2, if_pos (startsNumber_digit hn hn')]
    dsimp only
    rw [if_pos rfl, if_pos ⟨hd', digits_iff.1 hd⟩, digitsVal_eq, digitsVal_eq, pyDiv, if_neg (by exact_mod_cast h0)]
  | decimal n f fd e k hn hf hne he =>
    have hek := fracExponent_iff.2 he
    have hehead := exponent_head he
    unfold unsignedFraction
    cases hf with
    | none =>
      have hn' : n ≠ [] := hne.resolve_right (by simp)
      obtain ⟨h1, h2⟩ := takeWhile_digits (r := e) hn (by
        intro c hc
        rcases hehead c hc with rfl | rfl <;> decide)
      rw [List.append_nil] at *
      dsimp only
      rw [h1, h2, if_pos (startsNumber_digit hn hn'), digitsVal_eq]
      cases e with
      | nil => cases he; simp [number]
      | cons c e =>
        have hc := hehead c rfl
        have c1 : c ≠ '/' := by rcases hc with rfl | rfl <;> decide
        have c2 : c ≠ '.' := by rcases hc with rfl | rfl <;> decide
        dsimp only
        rw [if_neg c1]
        simp only [if_neg c2]
        rw [hek]
        rfl
    | some l hl =>
      obtain ⟨h1, h2⟩ := takeWhile_digits (r := '.' :: (fd ++ e)) hn (by intro c hc; cases hc; decide)
      obtain ⟨h3, h4⟩ := takeWhile_digits (r := e) hl (by
        intro c hc
        rcases hehead c hc with rfl | rfl <;> decide)
      have hs : startsNumber (n ++ '.' :: (fd ++ e)) = true := by
        rcases hne with h | h
        · exact startsNumber_digit hn h
        · cases n with
          | nil =>
            cases fd with
            | nil => exact absurd rfl h
            | cons d fd => simp [startsNumber, isDigit_iff.2 (hl d (by simp))]
          | cons c n => exact startsNumber_digit hn (by simp)
      rw [List.append_assoc, List.cons_append]
      dsimp only
      rw [h1, h2, if_pos hs]
      dsimp only
      rw [if_neg (by decide)]
      simp only [if_true]
      rw [h3, h4, hek]
      dsimp only
      rw [digitsVal_eq, digitsVal_eq]

theorem startsNumber_iff {r : List Char} (h : startsNumber r = true) : r.takeWhile Char.isDigit ≠ [] ∨
    ∃ r', r = '.' :: r' ∧ r'.takeWhile Char.isDigit ≠ [] := by
  cases r with
  | nil => cases h
  | cons c r =>
    unfold startsNumber at h
    simp only [Bool.or_eq_true, Bool.and_eq_true, decide_eq_true_eq] at h
    rcases h with h | ⟨rfl, h⟩
    · left; simp [h]
    · right
      refine ⟨r, rfl, ?_⟩
      cases r with
      | nil => cases h
      | cons d r => dsimp only at h; simp [h]

/-- What reading a number without sign can give. -/
theorem unsigned_cases (r : List Char) : (∃ v, unsignedFraction r = .ok v ∧ Unsigned r v) ∨ unsignedFraction r = .error .valueError ∨
    (unsignedFraction r = .error .zeroDivision ∧ ∃ n d, r = n ++ '/' :: d ∧ Digits n ∧ n ≠ [] ∧ Digits d ∧ d ≠ [] ∧ number d = 0) := by
  unfold unsignedFraction
  dsimp only
  split
  swap
  · exact .inr (.inl rfl)
  rename_i hs
  have hsplit := List.takeWhile_append_dropWhile (p := Char.isDigit) (l := r)
  have hn := digits_takeWhile r
  have hhd := head_dropWhile_digits r
  have hst := startsNumber_iff hs
  generalize r.takeWhile Char.isDigit = n at *
  generalize hrest : r.dropWhile Char.isDigit = rest at *
  cases rest with
  | nil =>
    left
    rw [List.append_nil] at hsplit
    subst hsplit
    refine ⟨_, rfl, ?_⟩
    have hne : n ≠ [] := by
      rcases hst with h | ⟨r', rfl, _⟩
      · exact h
      · simp
    have := Unsigned.decimal n [] [] [] 0 hn .none (.inl hne) .none
    rw [digitsVal_eq]
    simpa [number] using this
  | cons c r' =>
    dsimp only
    have hne : n ≠ [] ∨ (c = '.' ∧ r'.takeWhile Char.isDigit ≠ []) := by
      by_cases h0 : n = []
      · subst h0
        rw [List.nil_append] at hsplit
        rcases hst with h | ⟨r'', e, h⟩
        · exact absurd rfl h
        · rw [← hsplit] at e
          cases e
          exact .inr ⟨rfl, h⟩
      · exact .inl h0
    by_cases hc : c = '/'
    · rw [if_pos hc]
      subst hc
      have hne' : n ≠ [] := hne.resolve_right (by simp)
      split
      · rename_i hd
        rw [digitsVal_eq, digitsVal_eq]
        unfold pyDiv
        split
        · rename_i h0
          exact .inr (.inr ⟨rfl, n, r', hsplit.symm, hn, hne', digits_iff.2 hd.2, hd.1, by exact_mod_cast h0⟩)
        · rename_i h0
          refine .inl ⟨_, rfl, ?_⟩
          rw [← hsplit]
          exact .ratio n r' hn hne' (digits_iff.2 hd.2) (by exact_mod_cast h0)
      · exact .inr (.inl rfl)
    · rw [if_neg hc]
      by_cases hp : c = '.'
      · subst hp
        simp only [if_true]
        cases he : fracExponent (r'.dropWhile Char.isDigit) with
        | none => exact .inr (.inl rfl)
        | some k =>
          refine .inl ⟨_, rfl, ?_⟩
          have := Unsigned.decimal n ('.' :: r'.takeWhile Char.isDigit) (r'.takeWhile Char.isDigit) (r'.dropWhile Char.isDigit) k hn
            (.some _ (digits_takeWhile r')) (hne.imp_right (·.2)) (fracExponent_iff.1 he)
          rw [List.append_assoc, List.cons_append, List.takeWhile_append_dropWhile, hsplit] at this
          rw [digitsVal_eq, digitsVal_eq]
          exact this
      · simp only [if_neg hp]
        cases he : fracExponent (c :: r') with
        | none => exact .inr (.inl rfl)
        | some k =>
          refine .inl ⟨_, rfl, ?_⟩
          have := Unsigned.decimal n [] [] (c :: r') k hn .none (.inl (hne.resolve_right (fun h => hp h.1))) (fracExponent_iff.1 he)
          rw [List.append_nil, hsplit] at this
          rw [digitsVal_eq, digitsVal_eq]
          exact this

/-- The characters of a number. -/
def NumberChar (c : Char) : Prop := c.isDigit = true ∨ c ∈ ['/', '.', 'e', 'E', '+', '-', '_']

theorem numberChar_not_blank {c : Char} (h : NumberChar c) : isBlank c = false := by
  rcases h with h | h
  · exact isBlank_of_digit h
  · simp only [List.mem_cons, List.not_mem_nil, or_false] at h
    rcases h with rfl | rfl | rfl | rfl | rfl | rfl | rfl <;> decide

theorem tight_of {m : List Char} (h : ∀ c ∈ m, NumberChar c) : Tight m :=
  ⟨fun c hc => numberChar_not_blank (h c (List.mem_of_mem_head? hc)), fun c hc => numberChar_not_blank (h c (List.mem_of_mem_getLast? hc))⟩

theorem digits_chars {l : List Char} (h : Digits l) : ∀ c ∈ l, NumberChar c := fun c hc => .inl (isDigit_iff.2 (h c hc))

theorem sign_chars {l : List Char} {σ : ℤ} (h : Sign l σ) : ∀ c ∈ l, NumberChar c := by
  cases h <;> intro c hc <;> simp only [List.mem_cons, List.not_mem_nil, or_false] at hc <;> subst hc <;> exact .inr (by decide)

theorem exponent_chars {l : List Char} {k : ℤ} (h : Exponent l k) : ∀ c ∈ l, NumberChar c := by
  intro c hc
  cases h with
  | none => cases hc
  | some c' h' s σ hs l hl hne =>
    simp only [List.mem_cons, List.mem_append] at hc
    rcases hc with rfl | hc | hc
    · rcases h' with rfl | rfl <;> exact .inr (by decide)
    · exact sign_chars hs c hc
    · exact digits_chars hl c hc

theorem unsigned_chars {l : List Char} {v : ℚ} (h : Unsigned l v) : ∀ c ∈ l, NumberChar c := by
  intro c hc
  cases h with
  | ratio n d hn hn' hd h0 =>
    simp only [List.mem_cons, List.mem_append] at hc
    rcases hc with hc | rfl | hc
    · exact digits_chars hn c hc
    · exact .inr (by decide)
    · exact digits_chars hd c hc
  | decimal n f fd e k hn hf hne he =>
    simp only [List.mem_append] at hc
    rcases hc with (hc | hc) | hc
    · exact digits_chars hn c hc
    · cases hf with
      | none => cases hc
      | some l hl =>
        simp only [List.mem_cons] at hc
        rcases hc with rfl | hc
        · exact .inr (by decide)
        · exact digits_chars hl c hc
    · exact exponent_chars he c hc

theorem unsigned_head {l : List Char} {v : ℚ} (h : Unsigned l v) : ∀ c, l.head? = some c → c ≠ '-' ∧ c ≠ '+' := by
  intro c hc
  cases h with
  | ratio n d hn hn' hd h0 =>
    cases n with
    | nil => exact absurd rfl hn'
    | cons x n => cases hc; have := digit_not (isDigit_iff.2 (hn c (by simp))); exact ⟨this.1, this.2.1⟩
  | decimal n f fd e k hn hf hne he =>
    cases n with
    | cons x n => cases hc; have := digit_not (isDigit_iff.2 (hn c (by simp))); exact ⟨this.1, this.2.1⟩
    | nil =>
      cases hf with
      | none => simp at hne
      | some l hl => cases hc; decide

/-- Reading a text that consists of blanks, a sign, and a body that `takeSign` leaves. -/
theorem strip_sign {pre sign body post : List Char} {σ : ℤ} (h1 : Blanks pre) (h2 : Blanks post) (hs : Sign sign σ)
    (hc : ∀ c ∈ body, NumberChar c) (hh : ∀ c, body.head? = some c → c ≠ '-' ∧ c ≠ '+') :
    (takeSign (stripBlanks (pre ++ (sign ++ body) ++ post))).2 = body ∧
      (if (takeSign (stripBlanks (pre ++ (sign ++ body) ++ post))).1 then (-1 : ℤ) else 1) = σ := by
  rw [strip_of h1 h2 (tight_of (by
    intro c hm
    rcases List.mem_append.1 hm with hm | hm
    · exact sign_chars hs c hm
    · exact hc c hm))]
  exact takeSign_of hs hh

theorem fraction_bind (s : String) : pyFractionText s = (do
    let q ← unsignedFraction (takeSign (stripBlanks s.toList)).2
    pure (((if (takeSign (stripBlanks s.toList)).1 then -1 else 1 : ℤ) : ℚ) * q)) := by
  unfold pyFractionText
  dsimp only
  cases unsignedFraction (takeSign (stripBlanks s.toList)).2 with
  | error e => rfl
  | ok q =>
    rw [ok_bind, ok_bind]
    split <;> simp

/-- C91. `Fraction` of a text succeeds exactly on blanks, a sign, and a quotient or a number in decimal notation (with optional point and
exponent), and gives its value. -/
theorem C91_fraction_text {s : String} {q : ℚ} : pyFractionText s = .ok q ↔ FractionText s.toList q := by
  rw [fraction_bind]
  constructor
  · intro h
    rw [bind_eq_ok] at h
    obtain ⟨v, h1, h2⟩ := h
    rw [pure_eq_ok, Except.ok.injEq] at h2
    obtain ⟨p, t, e, hp, ht⟩ := strip_spec s.toList
    obtain ⟨sign, e2, hs⟩ := takeSign_spec (stripBlanks s.toList)
    rcases unsigned_cases (takeSign (stripBlanks s.toList)).2 with ⟨v', h3, h4⟩ | h3 | ⟨h3, _⟩
    · rw [h3] at h1
      cases h1
      exact ⟨p, sign, _, t, _, v, by rw [← e2]; exact e, hp, ht, hs, h4, h2.symm⟩
    · rw [h3] at h1; cases h1
    · rw [h3] at h1; cases h1
  · rintro ⟨pre, sign, body, post, σ, v, e, hp, ht, hs, hv, rfl⟩
    obtain ⟨h1, h2⟩ := strip_sign hp ht hs (unsigned_chars hv) (unsigned_head hv)
    rw [e, h1, h2, unsigned_of hv, ok_bind]
    rfl

/-- C91. Otherwise it raises: `ZeroDivisionError` exactly on a quotient with denominator zero, `ValueError` on everything else. -/
theorem C91_fraction_error {s : String} {e : PyErr} (h : pyFractionText s = .error e) :
    (e = .zeroDivision ∧ ZeroDenominator s.toList) ∨ (e = .valueError ∧ ¬ ZeroDenominator s.toList) := by
  rw [fraction_bind] at h
  obtain ⟨p, t, e1, hp, ht⟩ := strip_spec s.toList
  obtain ⟨sign, e2, hs⟩ := takeSign_spec (stripBlanks s.toList)
  rcases unsigned_cases (takeSign (stripBlanks s.toList)).2 with ⟨v', h3, h4⟩ | h3 | ⟨h3, n, d, h4, h5, h6, h7, h8, h9⟩
  · rw [h3, ok_bind] at h; cases h
  · rw [h3] at h
    cases h
    refine .inr ⟨rfl, ?_⟩
    rintro ⟨pre, sg, n, d, post, σ, e3, h4, h5, h6, h7, h8, h9, h10, h11⟩
    have hc : ∀ c ∈ n ++ '/' :: d, NumberChar c := by
      intro c hc
      simp only [List.mem_cons, List.mem_append] at hc
      rcases hc with hc | rfl | hc
      · exact digits_chars h7 c hc
      · exact .inr (by decide)
      · exact digits_chars h9 c hc
    obtain ⟨k1, _⟩ := strip_sign h4 h5 h6 hc (by
      intro c hc
      cases n with
      | nil => exact absurd rfl h8
      | cons x n => cases hc; have := digit_not (isDigit_iff.2 (h7 c (by simp))); exact ⟨this.1, this.2.1⟩)
    rw [e3, k1] at h3
    unfold unsignedFraction at h3
    obtain ⟨k2, k3⟩ := takeWhile_digits (r := '/' :: d) h7 (by intro c hc; cases hc; decide)
    dsimp only at h3
    rw [k2, k3, if_pos (startsNumber_digit h7 h8)] at h3
    dsimp only at h3
    rw [if_pos rfl, if_pos ⟨h10, digits_iff.1 h9⟩, digitsVal_eq, digitsVal_eq, pyDiv, if_pos (by exact_mod_cast h11)] at h3
    cases h3
  · rw [h3] at h
    cases h
    refine .inl ⟨rfl, p, sign, n, d, t, _, ?_, hp, ht, hs, h5, h6, h7, h8, h9⟩
    rw [← h4, ← e2]
    exact e1

/-! ### `int` -/

theorem intDigits_of {l ds : List Char} (h : Grouped l ds) : ∀ b, intDigits b l = true ∧ l.filter Char.isDigit = ds := by
  have hd : ∀ (l r : List Char), Digits l → l ≠ [] → ∀ b, intDigits b (l ++ r) = intDigits true r := by
    intro l r hl
    induction l with
    | nil => intro h; exact absurd rfl h
    | cons c l ih =>
      intro _ b
      rw [List.cons_append, intDigits, if_pos (isDigit_iff.2 (hl c (by simp)))]
      by_cases h0 : l = []
      · subst h0; rfl
      · exact ih (fun d hd => hl d (by simp [hd])) h0 true
  have hf : ∀ l, Digits l → l.filter Char.isDigit = l := fun l hl => List.filter_eq_self.2 (fun c hc => isDigit_iff.2 (hl c hc))
  induction h with
  | one l h hne =>
    intro b
    have := hd l [] h hne b
    rw [List.append_nil] at this
    rw [this]
    exact ⟨rfl, hf l h⟩
  | more l r ds h hne hr ih =>
    intro b
    rw [hd l _ h hne b, List.filter_append, hf l h, List.filter_cons_of_neg (by decide), (ih false).2]
    refine ⟨?_, rfl⟩
    rw [intDigits, if_neg (by decide), (ih false).1]
    rfl

theorem grouped_of {l : List Char} : (intDigits true l = true → l = [] ∨ (∃ r, l = '_' :: r ∧ ∃ ds, Grouped r ds) ∨ ∃ ds, Grouped l ds) ∧
    (intDigits false l = true → ∃ ds, Grouped l ds) := by
  induction l with
  | nil => exact ⟨fun _ => .inl rfl, fun h => by cases h⟩
  | cons c l ih =>
    have key : c.isDigit = true → intDigits true l = true → ∃ ds, Grouped (c :: l) ds := by
      intro hc h
      have hc' : Digits [c] := by
        intro d hd
        rw [List.mem_singleton] at hd
        subst hd
        exact isDigit_iff.1 hc
      rcases ih.1 h with rfl | ⟨r, rfl, ds, hg⟩ | ⟨ds, hg⟩
      · exact ⟨_, .one _ hc' (by simp)⟩
      · exact ⟨_, Grouped.more [c] r ds hc' (by simp) hg⟩
      · cases hg with
        | one _ h1 h2 => exact ⟨_, .one (c :: l) (by
            intro d hd
            rcases List.mem_cons.1 hd with rfl | hd
            · exact isDigit_iff.1 hc
            · exact h1 d hd) (by simp)⟩
        | more l' r ds h1 h2 h3 => exact ⟨_, Grouped.more (c :: l') r ds (by
            intro d hd
            rcases List.mem_cons.1 hd with rfl | hd
            · exact isDigit_iff.1 hc
            · exact h1 d hd) (by simp) h3⟩
    constructor
    · intro h
      rw [intDigits] at h
      split at h
      · rename_i hc; exact .inr (.inr (key hc h))
      · simp only [Bool.and_eq_true, decide_eq_true_eq, Bool.and_true] at h
        obtain ⟨⟨rfl, _⟩, h⟩ := h
        exact .inr (.inl ⟨l, rfl, ih.2 h⟩)
    · intro h
      rw [intDigits] at h
      split at h
      · rename_i hc; exact key hc h
      · simp at h

theorem grouped_chars {l ds : List Char} (h : Grouped l ds) : ∀ c ∈ l, NumberChar c := by
  induction h with
  | one l h hne => exact digits_chars h
  | more l r ds h hne hr ih =>
    intro c hc
    simp only [List.mem_cons, List.mem_append] at hc
    rcases hc with hc | rfl | hc
    · exact digits_chars h c hc
    · exact .inr (by decide)
    · exact ih c hc

theorem grouped_head {l ds : List Char} (h : Grouped l ds) : ∀ c, l.head? = some c → c ≠ '-' ∧ c ≠ '+' := by
  intro c hc
  cases h with
  | one _ h hne => have := digit_not (isDigit_iff.2 (h c (List.mem_of_mem_head? hc))); exact ⟨this.1, this.2.1⟩
  | more l r ds h hne hr =>
    cases l with
    | nil => exact absurd rfl hne
    | cons x l => cases hc; have := digit_not (isDigit_iff.2 (h c (by simp))); exact ⟨this.1, this.2.1⟩

theorem int_eq (s : String) : pyIntText s = if intDigits false (takeSign (stripBlanks s.toList)).2 then
    .ok ((if (takeSign (stripBlanks s.toList)).1 then -1 else 1) * (number ((takeSign (stripBlanks s.toList)).2.filter Char.isDigit) : ℤ))
    else .error .valueError := by
  unfold pyIntText
  dsimp only
  split
  · rw [digitsVal_eq]; split <;> simp
  · rfl

/-- C91. `int` of a text succeeds exactly on blanks, a sign and digits (with single underscores between digits), and gives the number;
otherwise it raises `ValueError`. -/
theorem C91_int_text {s : String} : (∀ n, pyIntText s = .ok n ↔ IntText s.toList n) ∧ ∀ e, pyIntText s = .error e → e = .valueError := by
  rw [int_eq]
  refine ⟨fun n => ⟨?_, ?_⟩, ?_⟩
  · intro h
    split at h
    · rename_i hd
      obtain ⟨ds, hg⟩ := grouped_of.2 hd
      obtain ⟨p, t, e, hp, ht⟩ := strip_spec s.toList
      obtain ⟨sign, e2, hs⟩ := takeSign_spec (stripBlanks s.toList)
      rw [(intDigits_of hg false).2, Except.ok.injEq] at h
      exact ⟨p, sign, _, t, _, ds, by rw [← e2]; exact e, hp, ht, hs, hg, h.symm⟩
    · cases h
  · rintro ⟨pre, sign, body, post, σ, ds, e, hp, ht, hs, hg, rfl⟩
    obtain ⟨h1, h2⟩ := strip_sign hp ht hs (grouped_chars hg) (grouped_head hg)
    obtain ⟨h3, h4⟩ := intDigits_of hg false
    rw [e, h1, h2, if_pos h3, h4]
  · intro e h
    split at h
    · cases h
    · cases h; rfl

/-! ### Writing and reading back -/

theorem toList_nat (n : ℕ) : (toString n).toList = Nat.toDigits 10 n := Nat.toList_repr

theorem digits_nat (n : ℕ) : Digits (Nat.toDigits 10 n) ∧ Nat.toDigits 10 n ≠ [] ∧ number (Nat.toDigits 10 n) = n := by
  refine ⟨fun c hc => isDigit_iff.1 (Nat.isDigit_of_mem_toDigits (by decide) (by decide) hc), Nat.toDigits_ne_nil, ?_⟩
  rw [← digitsVal_eq]
  exact Nat.ofDigitChars_ten_toDigits

theorem toList_int (n : ℤ) : ∃ sign σ, Sign sign σ ∧ (toString n).toList = sign ++ Nat.toDigits 10 n.natAbs ∧ σ * (n.natAbs : ℤ) = n := by
  have h : toString n = n.repr := rfl
  rw [h, Int.repr_eq_if]
  split
  · rename_i h0
    refine ⟨[], 1, .none, ?_, by rw [one_mul]; exact Int.natAbs_of_nonneg h0⟩
    rw [Nat.toList_repr, List.nil_append]
    congr 1
    omega
  · rename_i h0
    refine ⟨['-'], -1, .minus, ?_, by omega⟩
    rw [String.toList_append, Nat.toList_repr]
    congr 2
    omega

/-- C91. The text written for an integer is read back as the integer, by both conversions. -/
theorem C91_int_round_trip (n : ℤ) : pyIntText (toString n) = .ok n ∧ pyFractionText (toString n) = .ok n := by
  obtain ⟨sign, σ, hs, e, hn⟩ := toList_int n
  obtain ⟨d1, d2, d3⟩ := digits_nat n.natAbs
  constructor
  · rw [C91_int_text.1]
    exact ⟨[], sign, _, [], σ, _, by rw [List.nil_append, List.append_nil, e], by simp [Blanks], by simp [Blanks], hs, .one _ d1 d2, by rw [d3, hn]⟩
  · rw [C91_fraction_text]
    refine ⟨[], sign, _, [], σ, _, by rw [List.nil_append, List.append_nil, e], by simp [Blanks], by simp [Blanks], hs,
      by simpa [number] using Unsigned.decimal _ [] [] [] 0 d1 .none (.inl d2) .none, ?_⟩
    rw [← number, d3]
    rw [← Int.cast_natCast, ← Int.cast_mul, hn]

/-- C91. The text written for a fraction is read back as the fraction. -/
theorem C91_fraction_round_trip (q : ℚ) : pyFractionText (pyStrFrac q) = .ok q := by
  unfold pyStrFrac
  split
  · rename_i h
    rw [(C91_int_round_trip q.num).2]
    congr 1
    exact Rat.coe_int_num_of_den_eq_one h
  · rw [C91_fraction_text, String.toList_append, String.toList_append, toList_nat]
    obtain ⟨sign, σ, hs, e, hn⟩ := toList_int q.num
    obtain ⟨d1, d2, d3⟩ := digits_nat q.num.natAbs
    obtain ⟨c1, c2, c3⟩ := digits_nat q.den
    refine ⟨[], sign, _, [], σ, _, ?_, by simp [Blanks], by simp [Blanks], hs, .ratio _ _ d1 d2 c1 (by rw [c3]; exact q.den_nz), ?_⟩
    · rw [e, List.nil_append, List.append_nil, List.append_assoc, List.append_assoc]
      rfl
    · rw [d3, c3]
      have h1 : (σ : ℚ) * (q.num.natAbs : ℚ) = q.num := by rw [← Int.cast_natCast, ← Int.cast_mul, hn]
      rw [← mul_div_assoc, h1, Rat.num_div_den]

theorem grouped_plain {l ds : List Char} (h : Grouped l ds) (hl : '_' ∉ l) : Digits l ∧ ds = l := by
  cases h with
  | one _ h hne => exact ⟨h, rfl⟩
  | more l r ds h hne hr => exact absurd (by simp) hl

/-- C91. A text both conversions accept gives the same number. -/
theorem C91_agree {s : String} {q : ℚ} {n : ℤ} (h1 : pyFractionText s = .ok q) (h2 : pyIntText s = .ok n) : q = n := by
  rw [fraction_bind] at h1
  rw [int_eq] at h2
  split at h2
  swap
  · cases h2
  rename_i hd
  obtain ⟨ds, hg⟩ := grouped_of.2 hd
  rw [(intDigits_of hg false).2, Except.ok.injEq] at h2
  rw [bind_eq_ok] at h1
  obtain ⟨v, h1, h3⟩ := h1
  rw [pure_eq_ok, Except.ok.injEq] at h3
  generalize (takeSign (stripBlanks s.toList)).2 = r at *
  have hv : v = number ds := by
    have hnu : '_' ∉ r := by
      intro hm
      rcases unsigned_cases r with ⟨v', h4, h5⟩ | h4 | ⟨h4, _⟩
      · have hno : ∀ {l : List Char} {v : ℚ}, Unsigned l v → '_' ∉ l := by
          intro l v h hm
          have nd : ∀ {l : List Char}, Digits l → '_' ∉ l := fun hl hm => absurd (isDigit_iff.2 (hl _ hm)) (by decide)
          have ns : ∀ {l : List Char} {σ : ℤ}, Sign l σ → '_' ∉ l := fun hl hm => by cases hl <;> simp at hm
          cases h with
          | ratio n d hn hn' hd h0 =>
            simp only [List.mem_cons, List.mem_append] at hm
            rcases hm with hm | hm | hm
            · exact nd hn hm
            · exact absurd hm (by decide)
            · exact nd hd hm
          | decimal n f fd e k hn hf hne he =>
            simp only [List.mem_append] at hm
            rcases hm with (hm | hm) | hm
            · exact nd hn hm
            · cases hf with
              | none => cases hm
              | some l hl =>
                simp only [List.mem_cons] at hm
                rcases hm with hm | hm
                · exact absurd hm (by decide)
                · exact nd hl hm
            · cases he with
              | none => cases hm
              | some c hc s σ hs l hl hne =>
                simp only [List.mem_cons, List.mem_append] at hm
                rcases hm with hm | hm | hm
                · rcases hc with rfl | rfl <;> exact absurd hm (by decide)
                · exact ns hs hm
                · exact nd hl hm
        exact hno h5 hm
      · rw [h4] at h1; cases h1
      · rw [h4] at h1; cases h1
    obtain ⟨g1, rfl⟩ := grouped_plain hg hnu
    have hne : ds ≠ [] := by rintro rfl; cases hd
    have := unsigned_of (Unsigned.decimal ds [] [] [] 0 g1 .none (.inl hne) .none)
    simp only [List.append_nil] at this
    rw [this, Except.ok.injEq] at h1
    rw [← h1]
    simp [number]
  rw [← h3, ← h2, hv]
  push_cast
  rfl

/-- C91. The conversions of the library meet what C65–C67 ask of them. -/
theorem C91_conv (toFloat : PyVal → Py PyVal) : ConvOk (pyConv toFloat) where
  toF_int _ := rfl
  toF_frac _ := rfl
  toF_text n := (C91_int_round_trip n).2
  toInt_int _ := rfl
  toInt_frac q := by show Except.ok (pyInt q) = _; rw [pyInt_eq_trunc]
  toInt_text n := (C91_int_round_trip n).1
  agree v q n h1 h2 := by
    cases v with
    | int m => cases h1; cases h2; exact (ExJson.trunc_intCast _).symm
    | frac m => cases h1; cases h2; exact pyInt_eq_trunc _
    | dec m => cases h1; cases h2; exact pyInt_eq_trunc _
    | bool b => cases h1; cases h2; cases b <;> decide
    | str s =>
      have := C91_agree h1 h2
      subst this
      exact (ExJson.trunc_intCast _).symm
    | _ => cases h1

/-- C91. With the conversions of the library, what C65 says of the file holds of every run that succeeds, whatever `float` does. -/
theorem C91_token_pair {toFloat : PyVal → Py PyVal} {cfg : Config} {ext : Ext} {t : PyVal} {pair : Token × Token} {xrate : Option ℚ} {solver : PyVal}
    {inst : Instance} {out : JsonOut} (hcfg : CfgOk cfg) (hinst : InstanceOf (pyConv toFloat) t inst) (hi : GoodInstance inst) (hne : pair.1 ≠ pair.2)
    (hbr : ∀ E, MaxBranching E (ext.branch E)) (hx : ∀ y, xrate = some y → 0 < y)
    (h : tokenPairJson (pyConv toFloat) cfg ext t pair xrate solver = .ok out) :
    ∃ d, tokenPairMain cfg ext inst pair xrate = .ok d ∧ DumpOk cfg inst d ∧ FileOk (pyConv toFloat) t (orderObjects t) inst d solver out.file ∧
      ReturnedOk t d out.returned :=
  C65_token_pair (C91_conv toFloat) hcfg hinst hi hne hbr hx h

/-- C91. The same for the solver that searches all pairs. -/
theorem C91_best_pair {toFloat : PyVal → Py PyVal} {cfg : Config} {ext : Ext} {t : PyVal} {solver : PyVal}
    {shuffle : List (Token × Token) → List ((Token × Token) × Bool)} {inst : Instance} {out : JsonOut} (hcfg : CfgOk cfg)
    (hinst : InstanceOf (pyConv toFloat) t inst) (hi : GoodInstance inst) (hbr : ∀ E, MaxBranching E (ext.branch E))
    (hsh : ∀ E, ∀ v ∈ shuffle E, v.1 ∈ E) (h : bestTokenPairJson (pyConv toFloat) cfg ext t shuffle solver = .ok out) :
    ∃ d, bestTokenPairMain cfg ext inst shuffle = .ok d ∧ DumpOk cfg inst d ∧ FileOk (pyConv toFloat) t (orderObjects t) inst d solver out.file ∧
      ReturnedOk t d out.returned :=
  C65_best_pair (C91_conv toFloat) hcfg hinst hi hbr hsh h

namespace ExNumber

/-- The conversions of the library with the `float` of the example. -/
def conv : Conv := pyConv ExJson.conv.toFloat

theorem reads : InstanceOf conv (ExJson.tree []) ExInst.inst := by
  rw [← C65_read]
  obtain ⟨i, hi, rfl⟩ := exists_of_pyCheck (x := readInstance conv (ExJson.tree [])) (p := fun i => i = ExInst.inst) (by decide +kernel)
  exact hi

/-- The texts of the instance are read by the library's functions, and the run writes a file. -/
example : ∃ out d, tokenPairJson conv Config.default ExInst.ext (ExJson.tree []) ("B", "S") none ExJson.solver = .ok out ∧
    FileOk conv (ExJson.tree []) (orderObjects (ExJson.tree [])) ExInst.inst d ExJson.solver out.file := by
  obtain ⟨out, h, _⟩ := exists_of_pyCheck (x := tokenPairJson conv Config.default ExInst.ext (ExJson.tree []) ("B", "S") none ExJson.solver)
    (p := fun _ => True) (by decide +kernel)
  obtain ⟨d, _, _, hf, _⟩ := C91_token_pair ExJson.cfg_ok reads ExInst.good (by decide) ExInst.branch_max (by simp) h
  exact ⟨out, d, h, hf⟩

end ExNumber

/-! Concrete texts. -/

example : pyFractionText " 1/3 " = .ok (1 / 3) ∧ pyFractionText "-1.50e2" = .ok (-150) ∧ pyFractionText ".5" = .ok (1 / 2) ∧
    pyFractionText "1000000000000000000" = .ok (10 ^ 18) ∧ pyFractionText "0.001" = .ok (1 / 1000) ∧
    pyFractionText "1_000" = .error .valueError ∧ pyFractionText "" = .error .valueError ∧ pyFractionText "1/-2" = .error .valueError := by
  decide +kernel

example : pyIntText " -12\n" = .ok (-12) ∧ pyIntText "1_000" = .ok 1000 ∧ pyIntText "1__0" = .error .valueError ∧
    pyIntText "0x10" = .error .valueError := by decide +kernel

/-- C91 (negative). `Fraction` and `int` do not accept the same texts, and an amount or a rate `1/0` raises `ZeroDivisionError` (which argparse
does not turn into a usage error): a balance may be written `1e21` or `100.0` for the loading (core/orderbook.py:145) but not for the final
check (core/validation.py:48), and `1_000` the other way round. -/
theorem C91_different_texts : pyFractionText "1e21" = .ok (10 ^ 21) ∧ pyIntText "1e21" = .error .valueError ∧
    pyFractionText "100.0" = .ok 100 ∧ pyIntText "100.0" = .error .valueError ∧
    pyIntText "1_000" = .ok 1000 ∧ pyFractionText "1_000" = .error .valueError ∧ pyFractionText "1/0" = .error .zeroDivision := by
  decide +kernel

end Dex
