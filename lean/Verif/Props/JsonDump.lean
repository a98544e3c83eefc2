import Verif.Props.JsonText
import Verif.Props.Reread

/-! # Property C101: what is written as json is read back -/

namespace Dex

namespace Spec

/-- `w` is a part of `v` (or `v` itself). -/
inductive Part : PyVal → PyVal → Prop
  | refl (v : PyVal) : Part v v
  | list (w v : PyVal) (l : List PyVal) (h : v ∈ l) (hw : Part w v) : Part w (.list l)
  | tuple (w v : PyVal) (l : List PyVal) (h : v ∈ l) (hw : Part w v) : Part w (.tuple l)
  | dict (w : PyVal) (p : String × PyVal) (l : List (String × PyVal)) (h : p ∈ l) (hw : Part w p.2) : Part w (.dict l)

/-- No dict has two entries with the same key (no Python dict has). -/
def DistinctKeys (v : PyVal) : Prop := ∀ l, Part (.dict l) v → (l.map Prod.fst).Nodup

/-- There is no `Fraction` and no `Decimal`. -/
def NoFraction (v : PyVal) : Prop := ∀ q, ¬ Part (.frac q) v ∧ ¬ Part (.dec q) v

/-- The leaves that are neither numbers nor text are written as json values, which `num` reads. -/
def LeavesRead (num : String → PyVal) (v : PyVal) : Prop := ∀ s, Part (.other s) v → JsonValue s.toList (num s)

/-- Line breaks and printable ASCII characters only. -/
def PlainText (l : List Char) : Prop := ∀ c ∈ l, c = '\n' ∨ (' ' ≤ c ∧ c ≤ '~')

end Spec

open Spec

/-! ### Characters -/

theorem hexDigit_hex {n : ℕ} (h : n < 16) : HexDigit (hexDigit n) n := by
  interval_cases n <;> (unfold HexDigit; decide)

theorem dumpCode_hex {n : ℕ} (h : n < 65536) : ∃ l, dumpCode n = '\\' :: 'u' :: l ∧ Hex4 l n := by
  refine ⟨_, rfl, _, _, _, _, n / 4096 % 16, n / 256 % 16, n / 16 % 16, n % 16, rfl, hexDigit_hex (by omega), hexDigit_hex (by omega),
    hexDigit_hex (by omega), hexDigit_hex (by omega), by omega⟩

theorem dumpChar_json (c : Char) : JsonChar (dumpChar c) c := by
  have le : ∀ a b : Char, a ≤ b ↔ a.toNat ≤ b.toNat := fun a b => Iff.rfl
  have hr := char_range c
  unfold dumpChar
  split_ifs with h1 h2 h3 h4 h5 h6 h7 h8 h9
  · subst h1; exact .short _ _ (by decide)
  · subst h2; exact .short _ _ (by decide)
  · rw [le] at h3
    exact .plain c h3.1 h1 h2
  · subst h4; exact .short _ _ (by decide)
  · subst h5; exact .short _ _ (by decide)
  · subst h6; exact .short _ _ (by decide)
  · subst h7; exact .short _ _ (by decide)
  · subst h8; exact .short _ _ (by decide)
  · obtain ⟨l, e, hl⟩ := dumpCode_hex h9
    rw [e]
    exact .code l c hl
  · obtain ⟨l, e, hl⟩ := dumpCode_hex (n := 0xD800 + (c.toNat - 0x10000) / 0x400 % 0x400) (by omega)
    obtain ⟨m, e', hm⟩ := dumpCode_hex (n := 0xDC00 + (c.toNat - 0x10000) % 0x400) (by omega)
    rw [e, e']
    exact .pair l m _ _ c hl hm (by omega) (by omega) (by omega)

theorem dumpString_json (s : String) : JsonString (dumpString s) s := by
  refine ⟨s.toList.flatMap dumpChar, rfl, ?_⟩
  induction s.toList with
  | nil => exact .nil
  | cons c l ih => exact .cons _ _ _ _ (dumpChar_json c) ih

/-! ### Numbers -/

theorem toDigits_head (n : ℕ) : 0 < n → (Nat.toDigits 10 n).head? ≠ some '0' := by
  induction n using Nat.strong_induction_on with
  | _ n ih =>
    intro hn
    by_cases h : n < 10
    · rw [Nat.toDigits_of_lt_base h]
      interval_cases n <;> decide
    · rw [Nat.toDigits_of_base_le (by decide) (by omega), List.head?_append_of_ne_nil _ Nat.toDigits_ne_nil]
      exact ih (n / 10) (by omega) (by omega)

theorem whole_nat (n : ℕ) : Whole (Nat.toDigits 10 n) := by
  obtain ⟨h1, h2, h3⟩ := digits_nat n
  refine ⟨h1, h2, fun h => ?_⟩
  cases n with
  | zero => rfl
  | succ n => exact absurd h (toDigits_head _ (by omega))

theorem dumpInt_json (n : ℤ) : JsonNumber (pyStrInt n).toList (.int n) := by
  have h : pyStrInt n = n.repr := rfl
  rw [h, Int.repr_eq_if]
  have hn := digits_nat n.natAbs
  split_ifs with h0
  · have := JsonNumber.int [] _ 1 .none (whole_nat n.toNat)
    rw [(digits_nat n.toNat).2.2, List.nil_append, show (1 : ℤ) * (n.toNat : ℤ) = n by omega] at this
    rw [Nat.toList_repr]
    exact this
  · have := JsonNumber.int ['-'] _ (-1) .minus (whole_nat (-n).toNat)
    rw [(digits_nat (-n).toNat).2.2, show (-1 : ℤ) * ((-n).toNat : ℤ) = n by omega] at this
    rw [String.toList_append, Nat.toList_repr]
    exact this

/-! ### Values -/

theorem lastWins_nodup {α : Type} {l : List (String × α)} (h : (l.map Prod.fst).Nodup) : lastWins l = l := by
  induction l with
  | nil => rfl
  | cons p l ih =>
    obtain ⟨k, v⟩ := p
    rw [List.map_cons, List.nodup_cons] at h
    unfold lastWins
    rw [ih h.2]
    congr 1
    · have : l.reverse.lookup k = none := by
        rw [List.lookup_eq_none_iff]
        intro p hp
        simp only [bne_iff_ne]
        intro e
        exact h.1 (e ▸ List.mem_map.2 ⟨p, List.mem_reverse.1 hp, rfl⟩)
      rw [this]
      rfl
    · rw [List.filter_eq_self]
      intro p hp
      simp only [decide_eq_true_eq]
      intro e
      exact h.1 (e ▸ List.mem_map.2 ⟨p, hp, rfl⟩)

theorem newLine_blanks (k : ℕ) : JsonBlanks (newLine k) := by
  intro c hc
  unfold newLine at hc
  simp only [List.mem_cons, List.mem_replicate] at hc
  rcases hc with rfl | ⟨_, rfl⟩ <;> simp

theorem reload_tuple (num : String → PyVal) (l : List PyVal) : reload num (.tuple l) = .list (l.map (reload num)) := by
  show transform _ _ = _
  unfold transform
  rw [transformList_eq]; rfl

theorem reload_bool (num : String → PyVal) (b : Bool) : reload num (.bool b) = .bool b := by
  show transform _ _ = _
  unfold transform
  rfl

theorem reload_int (num : String → PyVal) (n : ℤ) : reload num (.int n) = .int n := by
  show transform _ _ = _
  unfold transform
  rfl

theorem reload_other (num : String → PyVal) (s : String) : reload num (.other s) = num s := by
  show transform _ _ = _
  unfold transform
  rfl

/-- What writing a value needs of its parts. -/
structure Writes (num : String → PyVal) (v : PyVal) : Prop where
  distinct : DistinctKeys v
  exact : NoFraction v
  leaves : LeavesRead num v

theorem Writes.part {num : String → PyVal} {v w : PyVal} (h : Writes num v) (hw : ∀ x, Part x w → Part x v) : Writes num w where
  distinct l hl := h.distinct l (hw _ hl)
  exact q := ⟨fun hq => (h.exact q).1 (hw _ hq), fun hq => (h.exact q).2 (hw _ hq)⟩
  leaves s hs := h.leaves s (hw _ hs)

mutual
theorem dumpValue_json (num : String → PyVal) (k : ℕ) : ∀ v, Writes num v → JsonValue (dumpValue k v) (reload num v)
  | .bool b, _ => by
    rw [reload_bool]
    unfold dumpValue
    cases b
    · exact .false
    · exact .true
  | .int n, _ => by
    rw [reload_int]
    unfold dumpValue
    exact .number _ _ (dumpInt_json n)
  | .frac q, h => absurd (.refl _) (h.exact q).1
  | .dec q, h => absurd (.refl _) (h.exact q).2
  | .str s, _ => by
    rw [reload_str]
    unfold dumpValue
    exact .text _ _ (dumpString_json s)
  | .other s, h => by
    rw [reload_other]
    unfold dumpValue
    exact h.leaves s (.refl _)
  | .list [], _ => by
    rw [reload_list]
    unfold dumpValue
    exact .nil [] jsonBlanks_nil
  | .list (v :: l), h => by
    rw [reload_list]
    unfold dumpValue
    have hv := dumpValue_json num (k + 1) v (h.part (fun x hx => .list _ v _ (by simp) hx))
    have := dumpItems_json num (k + 1) l (fun w hw => h.part (fun x hx => .list _ w _ (by simp [hw]) hx)) (newLine (k + 1)) _ (newLine k) _
      (newLine_blanks _) hv (newLine_blanks _)
    have := JsonValue.list _ _ this
    simpa using this
  | .tuple [], _ => by
    rw [reload_tuple]
    unfold dumpValue
    exact .nil [] jsonBlanks_nil
  | .tuple (v :: l), h => by
    rw [reload_tuple]
    unfold dumpValue
    have hv := dumpValue_json num (k + 1) v (h.part (fun x hx => .tuple _ v _ (by simp) hx))
    have := dumpItems_json num (k + 1) l (fun w hw => h.part (fun x hx => .tuple _ w _ (by simp [hw]) hx)) (newLine (k + 1)) _ (newLine k) _
      (newLine_blanks _) hv (newLine_blanks _)
    have := JsonValue.list _ _ this
    simpa using this
  | .dict [], _ => by
    rw [reload_dict]
    unfold dumpValue
    exact .empty [] jsonBlanks_nil
  | .dict ((key, v) :: l), h => by
    rw [reload_dict]
    unfold dumpValue
    have hv := dumpValue_json num (k + 1) v (h.part (fun x hx => .dict _ (key, v) _ (by simp) hx))
    have := dumpMembers_json num (k + 1) l (fun w hw => h.part (fun x hx => .dict _ w _ (by simp [hw]) hx)) (newLine (k + 1)) key _ (newLine k) _
      (newLine_blanks _) hv (newLine_blanks _)
    have := JsonValue.dict _ _ this
    rw [lastWins_nodup] at this
    · simpa using this
    · have hd := h.distinct _ (.refl _)
      rw [List.map_cons, List.map_map]
      exact hd
theorem dumpItems_json (num : String → PyVal) (k : ℕ) : ∀ l : List PyVal, (∀ w ∈ l, Writes num w) → ∀ (a s b : List Char) (v : PyVal), JsonBlanks a → JsonValue s v →
    JsonBlanks b → JsonItems (a ++ s ++ dumpItems k l ++ b) (v :: l.map (reload num))
  | [], _ => fun a s b v ha hs hb => by
    unfold dumpItems
    have := JsonItems.one a s b v ha hs hb
    simpa using this
  | w :: l, h => fun a s b v ha hs hb => by
    unfold dumpItems
    have hv := dumpValue_json num k w (h w (by simp))
    have := dumpItems_json num k l (fun x hx => h x (by simp [hx])) (newLine k) _ b _ (newLine_blanks _) hv hb
    have := JsonItems.more a s [] _ v _ ha hs jsonBlanks_nil this
    simpa using this
theorem dumpMembers_json (num : String → PyVal) (k : ℕ) : ∀ l : List (String × PyVal), (∀ p ∈ l, Writes num p.2) → ∀ (a : List Char) (key : String) (s b : List Char)
    (v : PyVal), JsonBlanks a → JsonValue s v → JsonBlanks b →
    JsonMembers (a ++ dumpString key ++ ':' :: ' ' :: s ++ dumpMembers k l ++ b) ((key, v) :: l.map (fun p => (p.1, reload num p.2)))
  | [], _ => fun a key s b v ha hs hb => by
    unfold dumpMembers
    have := JsonMembers.one a _ [] [' '] s b key v ha (dumpString_json key) jsonBlanks_nil (by simp [JsonBlanks]) hs hb
    simpa using this
  | (key', w) :: l, h => fun a key s b v ha hs hb => by
    unfold dumpMembers
    have hv := dumpValue_json num k w (h (key', w) (by simp))
    have := dumpMembers_json num k l (fun x hx => h x (by simp [hx])) (newLine k) key' _ b _ (newLine_blanks _) hv hb
    have := JsonMembers.more a _ [] [' '] s [] _ key v _ ha (dumpString_json key) jsonBlanks_nil (by simp [JsonBlanks]) hs jsonBlanks_nil this
    simpa using this
end

/-! ### What can be written -/

theorem part_isJson {w v : PyVal} (h : Part w v) : isJson v = true → isJson w = true := by
  induction h with
  | refl => exact id
  | list v l h _ ih =>
    intro hj
    unfold isJson at hj
    exact ih ((isJsonList_iff l).1 hj v h)
  | tuple v l h _ ih =>
    intro hj
    unfold isJson at hj
    exact ih ((isJsonList_iff l).1 hj v h)
  | dict p l h _ ih =>
    intro hj
    unfold isJson at hj
    exact ih ((isJsonDict_iff l).1 hj p h)

theorem noFraction_part {v w : PyVal} (h : NoFraction v) (hw : ∀ x, Part x w → Part x v) : NoFraction w :=
  fun q => ⟨fun hq => (h q).1 (hw _ hq), fun hq => (h q).2 (hw _ hq)⟩

mutual
theorem noFraction_isJson : ∀ v : PyVal, NoFraction v → isJson v = true
  | .bool _, _ => rfl
  | .int _, _ => rfl
  | .frac q, h => absurd (.refl _) (h q).1
  | .dec q, h => absurd (.refl _) (h q).2
  | .str _, _ => rfl
  | .other _, _ => rfl
  | .list l, h => by
    unfold isJson
    exact noFraction_isJsonList l (fun v hv => noFraction_part h (fun x hx => .list _ v _ hv hx))
  | .tuple l, h => by
    unfold isJson
    exact noFraction_isJsonList l (fun v hv => noFraction_part h (fun x hx => .tuple _ v _ hv hx))
  | .dict l, h => by
    unfold isJson
    exact noFraction_isJsonDict l (fun p hp => noFraction_part h (fun x hx => .dict _ p _ hp hx))
theorem noFraction_isJsonList : ∀ l : List PyVal, (∀ v ∈ l, NoFraction v) → isJsonList l = true
  | [], _ => rfl
  | v :: l, h => by
    unfold isJsonList
    rw [noFraction_isJson v (h v (by simp)), noFraction_isJsonList l (fun w hw => h w (by simp [hw]))]
    rfl
theorem noFraction_isJsonDict : ∀ l : List (String × PyVal), (∀ p ∈ l, NoFraction p.2) → isJsonDict l = true
  | [], _ => rfl
  | (k, v) :: l, h => by
    unfold isJsonDict
    rw [noFraction_isJson v (h (k, v) (by simp)), noFraction_isJsonDict l (fun w hw => h w (by simp [hw]))]
    rfl
end

theorem isJson_iff {v : PyVal} : isJson v = true ↔ NoFraction v := by
  refine ⟨fun h q => ⟨fun hq => ?_, fun hq => ?_⟩, noFraction_isJson v⟩ <;> exact absurd (part_isJson hq h) (by simp [isJson])

/-! ### The characters written -/

theorem plain_append {a b : List Char} (ha : PlainText a) (hb : PlainText b) : PlainText (a ++ b) := fun c hc => (List.mem_append.1 hc).elim (ha c) (hb c)

theorem plain_cons {c : Char} {b : List Char} (hc : c = '\n' ∨ (' ' ≤ c ∧ c ≤ '~')) (hb : PlainText b) : PlainText (c :: b) := by
  intro d hd
  rcases List.mem_cons.1 hd with rfl | hd
  · exact hc
  · exact hb d hd

theorem plain_nil : PlainText [] := fun c hc => by cases hc

theorem plain_hexDigit {n : ℕ} (h : n < 16) : ' ' ≤ hexDigit n ∧ hexDigit n ≤ '~' := by
  interval_cases n <;> decide

theorem plain_dumpCode (n : ℕ) : PlainText (dumpCode n) := by
  refine plain_cons (by decide) (plain_cons (by decide) ?_)
  intro c hc
  right
  simp only [List.mem_cons, List.not_mem_nil, or_false] at hc
  rcases hc with rfl | rfl | rfl | rfl <;> exact plain_hexDigit (by omega)

theorem plain_dumpChar (c : Char) : PlainText (dumpChar c) := by
  unfold dumpChar
  split_ifs with h1 h2 h3 h4 h5 h6 h7 h8 h9
  · exact plain_cons (by decide) (plain_cons (by decide) plain_nil)
  · exact plain_cons (by decide) (plain_cons (by decide) plain_nil)
  · exact plain_cons (.inr h3) plain_nil
  · exact plain_cons (by decide) (plain_cons (by decide) plain_nil)
  · exact plain_cons (by decide) (plain_cons (by decide) plain_nil)
  · exact plain_cons (by decide) (plain_cons (by decide) plain_nil)
  · exact plain_cons (by decide) (plain_cons (by decide) plain_nil)
  · exact plain_cons (by decide) (plain_cons (by decide) plain_nil)
  · exact plain_dumpCode _
  · exact plain_append (plain_dumpCode _) (plain_dumpCode _)

theorem plain_dumpString (s : String) : PlainText (dumpString s) := by
  refine plain_cons (by decide) (plain_append ?_ (plain_cons (by decide) plain_nil))
  intro c hc
  obtain ⟨d, _, hd⟩ := List.mem_flatMap.1 hc
  exact plain_dumpChar d c hd

theorem plain_newLine (k : ℕ) : PlainText (newLine k) := by
  refine plain_cons (.inl rfl) ?_
  intro c hc
  obtain ⟨_, rfl⟩ := List.mem_replicate.1 hc
  decide

theorem plain_int (n : ℤ) : PlainText (pyStrInt n).toList := by
  obtain ⟨sign, σ, hs, e, _⟩ := toList_int n
  show PlainText (toString n).toList
  rw [e]
  refine plain_append ?_ ?_
  · cases hs
    · exact plain_nil
    · exact plain_cons (by decide) plain_nil
    · exact plain_cons (by decide) plain_nil
  · intro c hc
    have h := (digits_nat n.natAbs).1 c hc
    exact .inr ⟨le_trans (by decide) h.1, le_trans h.2 (by decide)⟩

/-- The leaves that are neither numbers nor text are written in plain characters. -/
def PlainLeaves (v : PyVal) : Prop := ∀ s, Part (.other s) v → PlainText s.toList

theorem PlainLeaves.part {v w : PyVal} (h : PlainLeaves v) (hw : ∀ x, Part x w → Part x v) : PlainLeaves w := fun s hs => h s (hw _ hs)

mutual
theorem plain_dumpValue (k : ℕ) : ∀ v, PlainLeaves v → PlainText (dumpValue k v)
  | .bool b, _ => by
    unfold dumpValue
    cases b <;> (intro c hc; right; revert c; decide)
  | .int n, _ => by
    unfold dumpValue
    exact plain_int n
  | .frac q, _ => by unfold dumpValue; exact plain_nil
  | .dec q, _ => by unfold dumpValue; exact plain_nil
  | .str s, _ => by
    unfold dumpValue
    exact plain_dumpString s
  | .other s, h => by
    unfold dumpValue
    exact h s (.refl _)
  | .list [], _ => by
    unfold dumpValue
    exact plain_cons (by decide) (plain_cons (by decide) plain_nil)
  | .list (v :: l), h => by
    unfold dumpValue
    refine plain_append (plain_append (plain_append (plain_append (plain_cons (by decide) (plain_newLine _)) ?_) ?_) (plain_newLine _)) (plain_cons (by decide) plain_nil)
    · exact plain_dumpValue (k + 1) v (h.part (fun x hx => .list _ v _ (by simp) hx))
    · exact plain_dumpItems (k + 1) l (fun w hw => h.part (fun x hx => .list _ w _ (by simp [hw]) hx))
  | .tuple [], _ => by
    unfold dumpValue
    exact plain_cons (by decide) (plain_cons (by decide) plain_nil)
  | .tuple (v :: l), h => by
    unfold dumpValue
    refine plain_append (plain_append (plain_append (plain_append (plain_cons (by decide) (plain_newLine _)) ?_) ?_) (plain_newLine _)) (plain_cons (by decide) plain_nil)
    · exact plain_dumpValue (k + 1) v (h.part (fun x hx => .tuple _ v _ (by simp) hx))
    · exact plain_dumpItems (k + 1) l (fun w hw => h.part (fun x hx => .tuple _ w _ (by simp [hw]) hx))
  | .dict [], _ => by
    unfold dumpValue
    exact plain_cons (by decide) (plain_cons (by decide) plain_nil)
  | .dict ((key, v) :: l), h => by
    unfold dumpValue
    have h1 := plain_dumpValue (k + 1) v (h.part (fun x hx => .dict _ (key, v) _ (by simp) hx))
    have h2 := plain_dumpMembers (k + 1) l (fun w hw => h.part (fun x hx => .dict _ w _ (by simp [hw]) hx))
    have h3 : PlainText (':' :: ' ' :: dumpValue (k + 1) v) := plain_cons (by decide) (plain_cons (by decide) h1)
    exact plain_append (plain_append (plain_append (plain_append (plain_append (plain_cons (by decide) (plain_newLine _)) (plain_dumpString _)) h3) h2) (plain_newLine _))
      (plain_cons (by decide) plain_nil)
theorem plain_dumpItems (k : ℕ) : ∀ l : List PyVal, (∀ w ∈ l, PlainLeaves w) → PlainText (dumpItems k l)
  | [], _ => by unfold dumpItems; exact plain_nil
  | w :: l, h => by
    unfold dumpItems
    exact plain_append (plain_append (plain_cons (by decide) (plain_newLine _)) (plain_dumpValue k w (h w (by simp))))
      (plain_dumpItems k l (fun x hx => h x (by simp [hx])))
theorem plain_dumpMembers (k : ℕ) : ∀ l : List (String × PyVal), (∀ p ∈ l, PlainLeaves p.2) → PlainText (dumpMembers k l)
  | [], _ => by unfold dumpMembers; exact plain_nil
  | (key, w) :: l, h => by
    unfold dumpMembers
    have h1 := plain_dumpValue k w (h (key, w) (by simp))
    have h3 : PlainText (':' :: ' ' :: dumpValue k w) := plain_cons (by decide) (plain_cons (by decide) h1)
    exact plain_append (plain_append (plain_append (plain_cons (by decide) (plain_newLine _)) (plain_dumpString _)) h3)
      (plain_dumpMembers k l (fun x hx => h x (by simp [hx])))
end

/-! ### The theorems -/

/-- C101. Writing succeeds exactly when the value holds no `Fraction` and no `Decimal`, and raises `TypeError` otherwise. -/
theorem C101_writes (v : PyVal) : (NoFraction v → ∃ text, jsonDumps v = .ok text) ∧ (¬ NoFraction v → jsonDumps v = .error .typeError) := by
  unfold jsonDumps jsonDump
  constructor
  · intro h
    rw [if_pos (isJson_iff.2 h)]
    exact ⟨_, rfl⟩
  · intro h
    rw [if_neg (fun hj => h (isJson_iff.1 hj))]
    rfl

/-- C101. What has been written is a json text, and is read back as the value written, with tuples as lists. -/
theorem C101_round_trip {num : String → PyVal} {v : PyVal} {text : List Char} (hd : DistinctKeys v) (hl : LeavesRead num v)
    (h : jsonDumps v = .ok text) : JsonText text (reload num v) ∧ jsonLoads text = .ok (reload num v) := by
  have hj : isJson v = true ∧ text = dumpValue 0 v := by
    unfold jsonDumps jsonDump at h
    split_ifs at h with h0
    · cases h; exact ⟨h0, rfl⟩
    · cases h
  obtain ⟨hj, rfl⟩ := hj
  have := dumpValue_json num 0 v ⟨hd, isJson_iff.1 hj, hl⟩
  have ht : JsonText (dumpValue 0 v) (reload num v) := ⟨[], [], _, by simp, jsonBlanks_nil, jsonBlanks_nil, this⟩
  exact ⟨ht, C100_read.2 ht⟩

/-- C101. Only line breaks and printable ASCII characters are written: the file is the same in every encoding that contains ASCII. -/
theorem C101_plain {v : PyVal} {text : List Char} (hl : PlainLeaves v) (h : jsonDumps v = .ok text) : PlainText text := by
  unfold jsonDumps jsonDump at h
  split_ifs at h with h0
  · cases h; exact plain_dumpValue 0 v hl
  · cases h

/-- C101. Different values are written as different texts (tuples and lists apart). -/
theorem C101_faithful {num : String → PyVal} {v w : PyVal} {text : List Char} (hv : DistinctKeys v) (hw : DistinctKeys w) (hlv : LeavesRead num v)
    (hlw : LeavesRead num w) (h1 : jsonDumps v = .ok text) (h2 : jsonDumps w = .ok text) : reload num v = reload num w :=
  C100_unambiguous (C101_round_trip hv hlv h1).1 (C101_round_trip hw hlw h2).1

/-! ### Examples -/

namespace ExDump

/-- A value with every kind of part: a character outside ASCII and one outside the basic plane, a tuple, a float and an empty list. -/
def value : PyVal := .dict [("a\"é😀", .list [.int (-12), .str "x\n", .bool true]), ("b", .tuple [.other "1e-05", .other "null"]), ("c", .list [])]

def text : String := "{\n    \"a\\\"\\u00e9\\ud83d\\ude00\": [\n        -12,\n        \"x\\n\",\n        true\n    ],\n    \"b\": [\n        1e-05,\n        null\n    ],\n    \"c\": []\n}"

example : (match jsonDumps value with
    | .ok t => t == text.toList
    | .error _ => false) = true := by decide +kernel

end ExDump

end Dex
