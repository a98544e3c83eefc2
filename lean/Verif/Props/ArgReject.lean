import Verif.Props.ArgParse

/-! # C98: command lines that are rejected although they look right, and options that do not mean what they say -/

namespace Dex

namespace Spec

/-- The text is the beginning of the names of two different options, and not itself the name of an option. -/
def Ambiguous (opts : List Opt) (name : String) : Prop :=
  2 < name.toList.length ∧ (∀ o ∈ opts, name ≠ optName o) ∧
    ∃ o ∈ opts, ∃ o' ∈ opts, o ≠ o' ∧ name.toList <+: (optName o).toList ∧ name.toList <+: (optName o').toList

/-- A negative fraction `-n/d`. -/
def NegFraction (s : String) : Prop :=
  ∃ n d, s.toList = '-' :: (n ++ '/' :: d) ∧ n ≠ [] ∧ d ≠ [] ∧ (∀ c ∈ n, c.isDigit = true) ∧ ∀ c ∈ d, c.isDigit = true

end Spec

open Spec

variable {opens : String → Bool}

/-! ### Ambiguous names -/

theorem parseOptional_usage {t : OptTable} {a : List Char} {e : CliErr} (h : parseOptional t a = .error e) : e = .usage := by
  unfold parseOptional at h
  split at h
  · cases h
  · split at h
    · cases h
    · split at h
      · cases h
      · split at h
        · cases h
        · split at h
          · cases h; rfl
          · cases h
          · split at h
            · cases h
            · split at h <;> cases h

theorem classify_error {t : OptTable} {w : String} (hw : parseOptional t w.toList = .error .usage) (hd : w ≠ "--") {pre : List String} (hpre : "--" ∉ pre)
    (post : List String) : classify t (pre ++ w :: post) = .error .usage := by
  induction pre with
  | nil => rw [List.nil_append, classify, if_neg hd, hw]; rfl
  | cons a pre ih =>
    rw [List.mem_cons, not_or] at hpre
    rw [List.cons_append, classify, if_neg (Ne.symm hpre.1)]
    cases h : parseOptional t a.toList with
    | error e => rw [parseOptional_usage h]; rfl
    | ok c => rw [ih hpre.2]; rfl

theorem two_filter {α : Type} {l : List α} {p : α → Bool} {x y : α} (hx : x ∈ l) (hy : y ∈ l) (hne : x ≠ y) (h1 : p x = true) (h2 : p y = true) :
    ∃ a b c, l.filter p = a :: b :: c := by
  have hx' : x ∈ l.filter p := List.mem_filter.2 ⟨hx, h1⟩
  have hy' : y ∈ l.filter p := List.mem_filter.2 ⟨hy, h2⟩
  match h : l.filter p with
  | [] => rw [h] at hx'; cases hx'
  | [a] =>
    rw [h, List.mem_singleton] at hx' hy'
    exact absurd (hx'.trans hy'.symm) hne
  | a :: b :: c => exact ⟨a, b, c, rfl⟩

theorem ambiguous_long {opts : List Opt} {name : String} (h : Ambiguous opts name) : LongName name := by
  obtain ⟨h1, _, o, _, _, _, _, h2, _⟩ := h
  obtain ⟨⟨r, hr⟩, h3, _⟩ := optName_facts o
  refine ⟨?_, fun he => h3 (h2.subset he), h1⟩
  obtain ⟨t, ht⟩ := h2
  rw [hr] at ht
  match hn : name.toList, h1 with
  | a :: b :: c, _ =>
    rw [hn] at ht
    simp only [List.cons_append, List.cons.injEq] at ht
    exact ⟨c, by rw [ht.1, ht.2.1]⟩

theorem parseOptional_ambiguous {opts : List Opt} (hn : opts.Nodup) {name w : String} (h : Ambiguous opts name) (hw : w = name ∨ ∃ t, w = name ++ "=" ++ t) :
    parseOptional (tableOf opts) w.toList = .error .usage := by
  have hl := ambiguous_long h
  obtain ⟨r, hr⟩ := hl.start
  obtain ⟨h1, h2, o, ho, o', ho', hne, hp, hp'⟩ := h
  have hnone : findOpt (tableOf opts) name.toList = none := by
    cases hf : findOpt (tableOf opts) name.toList with
    | none => rfl
    | some o =>
      obtain ⟨x1, x2⟩ := (findOpt_tableOf opts hn h1 o).1 hf
      exact absurd (String.toList_inj.1 x2) (h2 o x1)
  have hmem : ∀ {o}, o ∈ opts → ((optName o).toList, o) ∈ tableOf opts := by
    intro o ho
    exact List.mem_cons_of_mem _ (List.mem_map.2 ⟨o, ho, rfl⟩)
  obtain ⟨a, b, c, hf⟩ := two_filter (l := tableOf opts) (p := fun x => name.toList.isPrefixOf x.1) (hmem ho) (hmem ho')
    (fun e => hne (congrArg Prod.snd e)) (List.isPrefixOf_iff_prefix.2 hp) (List.isPrefixOf_iff_prefix.2 hp')
  unfold parseOptional
  rcases hw with rfl | ⟨t, rfl⟩
  · rw [if_neg (by rw [hl.head]; simp), hnone]
    dsimp only
    rw [if_neg (by omega), splitEq_none hl.noEq]
    dsimp only
    have e : optionTuples (tableOf opts) w.toList = .opt (some a.2) none :: .opt (some b.2) none :: c.map (fun x => .opt (some x.2) none) := by
      unfold optionTuples
      rw [if_pos (by rw [hr]; rfl), splitEq_none hl.noEq]
      dsimp only
      rw [hf]; rfl
    rw [e]
  · rw [toList_joined, if_neg (by rw [List.head?_append, hl.head]; simp), findOpt_joined opts hn hl.long]
    dsimp only
    rw [if_neg (by rw [List.length_append]; omega), splitEq_append hl.noEq]
    dsimp only
    rw [hnone]
    dsimp only
    have e : optionTuples (tableOf opts) (name.toList ++ '=' :: t.toList) =
        .opt (some a.2) (some (String.ofList t.toList)) :: .opt (some b.2) (some (String.ofList t.toList)) :: c.map (fun x => .opt (some x.2) (some (String.ofList t.toList))) := by
      unfold optionTuples
      rw [if_pos (by rw [hr]; rfl), splitEq_append hl.noEq]
      dsimp only
      rw [hf]; rfl
    rw [e]

/-- C98. The beginning of two names, with or without a text, anywhere before an argument `--`, even where it is meant for the subcommand or as the text of an
option, makes the program end with a usage message. -/
theorem C98_ambiguous {name w : String} (h : Ambiguous mainOptions name) (hw : w = name ∨ ∃ t, w = name ++ "=" ++ t) {pre : List String} (hpre : "--" ∉ pre)
    (post : List String) : parseArgs opens (pre ++ w :: post) = .error .usage := by
  have hd : w ≠ "--" := by
    rcases hw with rfl | ⟨t, rfl⟩
    · exact (ambiguous_long h).ne
    · exact (ambiguous_long h).joined_ne t
  unfold parseArgs parseKnown
  rw [main_table, classify_error (parseOptional_ambiguous (by decide) h hw) hd hpre]
  rfl

/-- Non-vacuity: `--log` and `--min` are ambiguous. -/
example : Ambiguous mainOptions "--log" ∧ Ambiguous mainOptions "--min-a" ∧
    parseArgs (fun _ => true) ["inst.json", "--log=INFO", "best-token-pair"] = .error .usage := by
  have h1 : Ambiguous mainOptions "--log" := by
    refine ⟨by decide, by decide, .logging, by decide, .logRationals, by decide, by decide, by decide, by decide⟩
  have h2 : Ambiguous mainOptions "--min-a" := by
    refine ⟨by decide, by decide, .minAvgFee, by decide, .minAbsFee, by decide, by decide, by decide, by decide⟩
  exact ⟨h1, h2, C98_ambiguous h1 (w := "--log=INFO") (.inr ⟨"INFO", by decide⟩) (pre := ["inst.json"]) (by decide) ["best-token-pair"]⟩

/-! ### Negative fractions -/

theorem negFraction_unknown {opts : List Opt} {s : String} (h : NegFraction s) : parseOptional (tableOf opts) s.toList = .ok (.opt none none) ∧ s ≠ "--" := by
  obtain ⟨n, d, e, hn, hd, h1, h2⟩ := h
  obtain ⟨c, r, rfl⟩ := List.exists_cons_of_ne_nil hn
  have hc := h1 c (by simp)
  have hmem : ∀ x ∈ s.toList, x = '-' ∨ x = '/' ∨ x.isDigit = true := by
    intro x hx
    rw [e] at hx
    rcases List.mem_cons.1 hx with h | h
    · exact .inl h
    · rcases List.mem_append.1 h with h | h
      · exact .inr (.inr (h1 x h))
      · rcases List.mem_cons.1 h with h | h
        · exact .inr (.inl h)
        · exact .inr (.inr (h2 x h))
  have hno : ∀ x : Char, x ≠ '-' → x ≠ '/' → x.isDigit = false → x ∉ s.toList := by
    intro x x1 x2 x3 hx
    rcases hmem x hx with h | h | h
    · exact x1 h
    · exact x2 h
    · rw [x3] at h; cases h
  have hdr : ∀ (l m : List Char), (∀ c ∈ l, c.isDigit = true) → (l ++ m).dropWhile Char.isDigit = m.dropWhile Char.isDigit := by
    intro l m hl
    induction l with
    | nil => rfl
    | cons c l ih => rw [List.cons_append, List.dropWhile_cons_of_pos (hl c (by simp)), ih (fun c hc => hl c (by simp [hc]))]
  have hlook : looksNegative s.toList = false := by
    have hnl : '\n' ∉ s.toList := hno _ (by decide) (by decide) (by decide)
    rw [e] at hnl ⊢
    have e1 : ¬ ((c :: r) ++ '/' :: d).getLast? = some '\n' := fun he => hnl (List.mem_cons_of_mem _ (List.mem_of_getLast? he))
    have e2 : ((c :: r) ++ '/' :: d).dropWhile Char.isDigit = '/' :: d := by
      rw [hdr _ _ h1, List.dropWhile_cons_of_neg (by decide)]
    simp only [looksNegative, e1, if_false, e2]
    simp
  have heq : '=' ∉ s.toList := hno _ (by decide) (by decide) (by decide)
  have hsp : ' ' ∉ s.toList := hno _ (by decide) (by decide) (by decide)
  constructor
  · obtain ⟨f1, f2⟩ := not_option (opts := opts) (c := c) (r := r ++ '/' :: d) (.inl hc)
    unfold parseOptional
    rw [splitEq_none heq, hlook]
    rw [e, List.cons_append] at hsp ⊢
    rw [if_neg (by simp), f1, f2]
    dsimp only
    rw [if_neg (by simp), if_neg (by simp), if_neg hsp]
  · rintro rfl
    have e2 : "--".toList = ['-', '-'] := by decide
    rw [e2] at e
    simp only [List.cons_append, List.cons.injEq, true_and] at e
    rw [← e.1] at hc
    exact absurd hc (by decide)

theorem parseLoop_missing {σ : Type} {P : ArgParser σ} {o : Opt} (ho : o ≠ .help) (fuel : ℕ) (ps : List (Positional σ)) (w w' : String) (o' : Option Opt)
    (e' : Option String) (l : List (String × Cls)) (ex : List String) (st : σ) :
    parseLoop P (fuel + 1) ps ((w, .opt (some o) none) :: (w', .opt o' e') :: l) ex st = .error .usage := by
  rw [parseLoop.eq_def]
  dsimp only
  rw [if_pos (by simp [Cls.isOpt])]
  have : consumeOptional P (some o) none ((w', .opt o' e') :: l) st = .error .usage := by
    cases o <;> first | exact absurd rfl ho | rfl
  rw [this]
  rfl

/-- The error is a usage message, or an exception raised on the way. -/
theorem classify_or {t : OptTable} (l : List String) : classify t l = .error .usage ∨ ∃ c, classify t l = .ok c := by
  induction l with
  | nil => exact .inr ⟨_, rfl⟩
  | cons a l ih =>
    rw [classify]
    split
    · exact .inr ⟨_, rfl⟩
    · cases h : parseOptional t a.toList with
      | error e => rw [parseOptional_usage h]; exact .inl rfl
      | ok c =>
        rcases ih with ih | ⟨r, ih⟩
        · rw [ih]; exact .inl rfl
        · rw [ih]; exact .inr ⟨_, rfl⟩

/-- C98. A negative fraction `-n/d` in an argument of its own after an option is rejected with a usage message, whatever follows: it is taken for an
option. -/
theorem C98_negative_fraction {gs : List Given} (h : ∀ g ∈ gs, g.Ok) (ha : ∀ g ∈ gs, Acceptable g.option g.text) {g : Given}
    (hm : g.option ≠ .help ∧ g.option ≠ .xrate) (hg : Names mainOptions g.option g.name) (hj : g.joined = false) (ht : NegFraction g.text) (rest : List String) :
    parseArgs opens (gs.flatMap Given.words ++ (g.words ++ rest)) = .error .usage := by
  have hok : OkFor mainOptions { g with joined := true } :=
    Given.Ok.okFor (g := { g with joined := true }) ⟨hm, hg, fun h => by cases h⟩
  have hname := parseOptional_name hok
  obtain ⟨u1, u2⟩ := negFraction_unknown (opts := mainOptions) ht
  have hl := hg.long
  have hw : g.words = [g.name, g.text] := by unfold Given.words; rw [hj]; rfl
  unfold parseArgs parseKnown
  rw [hw, main_table, classify_all (fun g hg => (h g hg).okFor), List.cons_append, List.cons_append, List.nil_append, classify_cons hl.ne hname, classify_cons u2 u1]
  rcases classify_or (t := tableOf mainOptions) rest with hc | ⟨c, hc⟩
  · rw [hc]; rfl
  · rw [hc]
    obtain ⟨p, h1, _⟩ := readAll_says (opens := opens) h ha
    have hlen := clsAll_length gs
    simp only [Except.map]
    change ((parseLoop (mainParser opens) ((clsAll gs ++ (g.name, Cls.opt (some g.option) none) :: (g.text, .opt none none) :: c).length + 1) [instPos opens, subPos]
      (clsAll gs ++ (g.name, Cls.opt (some g.option) none) :: (g.text, .opt none none) :: c) [] {}) >>= _) >>= _ = _
    rw [show (clsAll gs ++ (g.name, Cls.opt (some g.option) none) :: (g.text, .opt none none) :: c).length + 1 =
      ((clsAll gs).length - gs.length + c.length + 2 + 1) + gs.length by simp only [List.length_append, List.length_cons]; omega,
      parseLoop_all (fun g hg => (h g hg).main.1), h1]
    simp only [bind, Except.bind]
    rw [parseLoop_missing hm.1]

/-- Non-vacuity: joined with the option the same text is read. -/
example : parseArgs (fun _ => true) ["--min-avg-fee-per-order", "-1/2", "inst.json", "best-token-pair"] = .error .usage ∧
    ∃ p, parseArgs (fun _ => true) ["--min-avg-fee-per-order=-1/2", "inst.json", "best-token-pair"] = .ok p ∧ p.args.minAvgFee = -1 / 2 := by
  constructor
  · exact C98_negative_fraction (gs := []) (by simp) (by simp) (g := ⟨.minAvgFee, "--min-avg-fee-per-order", "-1/2", false⟩) (by decide) (.inl rfl) rfl
      ⟨['1'], ['2'], by decide, by decide, by decide, by decide, by decide⟩ ["inst.json", "best-token-pair"]
  · have hq : FractionText "-1/2".toList (-1 / 2) := C91_fraction_text.1 (by decide +kernel)
    obtain ⟨p, h1, _, h3, _⟩ := C97_parsed (opens := fun _ => true) (gs := [⟨.minAvgFee, "--min-avg-fee-per-order", "-1/2", true⟩]) (gs' := []) (sub := .best)
      (f := "inst.json") (by
        intro g hg
        simp only [List.append_nil, List.mem_singleton] at hg
        subst hg
        exact ⟨by decide, .inl rfl, fun h => by cases h⟩)
      (by
        intro g hg
        simp only [List.append_nil, List.mem_singleton] at hg
        subst hg
        exact ⟨_, hq⟩) (.inl (by decide)) rfl trivial (by simp [Sub.given])
    refine ⟨p, h1, ?_⟩
    have e2 : FractionText "-1/2".toList p.args.minAvgFee := h3.minAvgFee
    exact Except.ok.inj ((C91_fraction_text.2 e2).symm.trans (C91_fraction_text.2 hq))

/-! ### Options after the subcommand -/

theorem main_name_prefix {name : String} {o : Opt} (hn : Names mainOptions o name) : name.toList <+: (optName o).toList := by
  rcases hn with rfl | ⟨_, h, _⟩
  · exact List.prefix_rfl
  · exact h

/-- The options of the main parser do not begin like those of the subcommands. -/
theorem main_name_other {name : String} {o : Opt} (hm : o ≠ .help ∧ o ≠ .xrate) (hn : Names mainOptions o name) {o' : Opt} (ho' : o' ∈ pairOptions) :
    ¬ name.toList <+: (optName o').toList := by
  have hl := hn.long
  intro hx
  have h3 : name.toList.take 3 = (optName o').toList.take 3 := by
    have e := List.prefix_iff_eq_take.1 hx
    rw [e, List.take_take, Nat.min_eq_left (by have := hl.long; omega)]
  have h4 : name.toList.take 3 = (optName o).toList.take 3 := by
    have e := List.prefix_iff_eq_take.1 (main_name_prefix hn)
    rw [e, List.take_take, Nat.min_eq_left (by have := hl.long; omega)]
  rw [h3] at h4
  revert h4
  simp only [pairOptions, List.mem_cons, List.not_mem_nil, or_false] at ho'
  rcases ho' with rfl | rfl <;> cases o <;> first | exact absurd rfl hm.1 | exact absurd rfl hm.2 | decide

theorem sub_unknown {name : String} {o : Opt} (hm : o ≠ .help ∧ o ≠ .xrate) (hn : Names mainOptions o name) {opts : List Opt} (hsub : opts ⊆ pairOptions)
    (hnd : opts.Nodup) :
    (tableOf opts).filter (fun x => name.toList.isPrefixOf x.1) = [] ∧ findOpt (tableOf opts) name.toList = none := by
  have hl := hn.long
  constructor
  · rw [List.filter_eq_nil_iff]
    intro x hx'
    rw [List.isPrefixOf_iff_prefix]
    unfold tableOf at hx'
    rcases List.mem_cons.1 hx' with rfl | hx'
    · intro h
      have : name.toList.length ≤ 2 := h.length_le
      have := hl.long
      omega
    · obtain ⟨o', ho', rfl⟩ := List.mem_map.1 hx'
      exact main_name_other hm hn (hsub ho')
  · cases h : findOpt (tableOf opts) name.toList with
    | none => rfl
    | some o' =>
      obtain ⟨h1, h2⟩ := (findOpt_tableOf opts hnd hl.long o').1 h
      exact absurd (by rw [h2]) (main_name_other hm hn (hsub h1))

/-- Arguments that are plain or unknown options. -/
def Left (c : List (String × Cls)) : Prop := ∀ x ∈ c, x.2 = .arg ∨ x.2 = .opt none none

theorem classify_left {opts : List Opt} (hsub : opts ⊆ pairOptions) (hnd : opts.Nodup) {gs : List Given} (h : ∀ g ∈ gs, g.Ok) :
    ∃ c, classify (tableOf opts) (gs.flatMap Given.words) = .ok c ∧ Left c := by
  induction gs with
  | nil => exact ⟨[], rfl, by intro x hx; cases hx⟩
  | cons g gs ih =>
    obtain ⟨c, hc, hlc⟩ := ih (fun g hg => h g (by simp [hg]))
    have hg := h g (by simp)
    obtain ⟨u1, u2⟩ := sub_unknown hg.main hg.named hsub hnd
    have hl := hg.named.long
    obtain ⟨r, hr⟩ := hl.start
    have neg : ∀ x : List Char, looksNegative (g.name.toList ++ x) = false := by
      intro x
      rw [hr]
      show looksNegative ('-' :: '-' :: (r ++ x)) = false
      unfold looksNegative
      dsimp only
      have : ∀ l : List Char, ((if ('-' :: l).getLast? = some '\n' then ('-' :: l).dropLast else '-' :: l)).dropWhile Char.isDigit =
          (if ('-' :: l).getLast? = some '\n' then ('-' :: l).dropLast else '-' :: l) ∧
          ∃ m, (if ('-' :: l).getLast? = some '\n' then ('-' :: l).dropLast else '-' :: l) = '-' :: m := by
        intro l
        have hm : ∃ m, (if ('-' :: l).getLast? = some '\n' then ('-' :: l).dropLast else '-' :: l) = '-' :: m := by
          split
          · rename_i hlast
            cases l with
            | nil => exact absurd hlast (by decide)
            | cons a l => exact ⟨(a :: l).dropLast, rfl⟩
          · exact ⟨l, rfl⟩
        obtain ⟨m, hm⟩ := hm
        exact ⟨by rw [hm, List.dropWhile_cons_of_neg (by decide)], m, hm⟩
      obtain ⟨e1, m, e2⟩ := this (r ++ x)
      rw [e1, e2]
      simp
    rw [List.flatMap_cons]
    unfold Given.words
    split
    · have e : ∃ x, parseOptional (tableOf opts) (g.name ++ "=" ++ g.text).toList = .ok x ∧ (x = .arg ∨ x = .opt none none) := by
        unfold parseOptional
        rw [toList_joined, if_neg (by rw [List.head?_append, hl.head]; simp), findOpt_joined opts hnd hl.long]
        dsimp only
        rw [if_neg (by rw [List.length_append]; have := hl.long; omega), splitEq_append hl.noEq]
        dsimp only
        rw [u2]
        dsimp only
        have e : optionTuples (tableOf opts) (g.name.toList ++ '=' :: g.text.toList) = [] := by
          unfold optionTuples
          rw [if_pos (by rw [hr]; rfl), splitEq_append hl.noEq]
          dsimp only
          rw [u1]; rfl
        rw [e]
        dsimp only
        rw [neg, if_neg (by simp)]
        split
        · exact ⟨_, rfl, .inl rfl⟩
        · exact ⟨_, rfl, .inr rfl⟩
      obtain ⟨x, e1, e2⟩ := e
      refine ⟨(g.name ++ "=" ++ g.text, x) :: c, ?_, ?_⟩
      · rw [List.singleton_append, classify_cons (hl.joined_ne _) e1]
        erw [hc]
        rfl
      · intro y hy
        rcases List.mem_cons.1 hy with rfl | hy
        · exact e2
        · exact hlc y hy
    · rename_i hj
      have e : ∃ x, parseOptional (tableOf opts) g.name.toList = .ok x ∧ (x = .arg ∨ x = .opt none none) := by
        unfold parseOptional
        rw [if_neg (by rw [hl.head]; simp), u2]
        dsimp only
        rw [if_neg (by have := hl.long; omega), splitEq_none hl.noEq]
        dsimp only
        have e : optionTuples (tableOf opts) g.name.toList = [] := by
          unfold optionTuples
          rw [if_pos (by rw [hr]; rfl), splitEq_none hl.noEq]
          dsimp only
          rw [u1]; rfl
        rw [e]
        dsimp only
        have := neg []
        rw [List.append_nil] at this
        rw [this, if_neg (by simp)]
        split
        · exact ⟨_, rfl, .inl rfl⟩
        · exact ⟨_, rfl, .inr rfl⟩
      obtain ⟨x, e1, e2⟩ := e
      refine ⟨(g.name, x) :: (g.text, .arg) :: c, ?_, ?_⟩
      · rw [List.cons_append, List.cons_append, List.nil_append, classify_cons hl.ne e1, classify_plain (hg.plain (by simpa using hj))]
        erw [hc]
        rfl
      · intro y hy
        rcases List.mem_cons.1 hy with rfl | hy
        · exact e2
        · rcases List.mem_cons.1 hy with rfl | hy
          · exact .inl rfl
          · exact hlc y hy

theorem consumePositionals_nil {σ : Type} (l : List (String × Cls)) (st : σ) : consumePositionals ([] : List (Positional σ)) l st = .ok (st, [], l) := by
  simp [consumePositionals, matchPartial, takePositionals, bind, Except.bind, pure, Except.pure]

/-- What is plain or unknown is left over once the positionals are there. -/
theorem parseLoop_left {σ : Type} {P : ArgParser σ} (fuel : ℕ) {c : List (String × Cls)} (hc : Left c) (hf : c.length < fuel) (ex : List String) (st : σ) :
    parseLoop P fuel [] c ex st = .ok (st, [], ex ++ c.map (·.1)) := by
  induction fuel generalizing c ex with
  | zero => omega
  | succ fuel ih =>
    rw [parseLoop.eq_def]
    dsimp only
    split
    · rename_i hany
      match c, hc, hf, hany with
      | (w, .opt o e) :: r, hc, hf, _ =>
        have := hc (w, .opt o e) (by simp)
        simp only [reduceCtorEq, Cls.opt.injEq, false_or] at this
        obtain ⟨rfl, rfl⟩ := this
        dsimp only
        have e1 : consumeOptional P none none r st = .ok (st, r, true) := rfl
        rw [e1]
        simp only [bind, Except.bind]
        rw [if_pos trivial, ih (fun x hx => hc x (by simp [hx])) (by simp only [List.length_cons] at hf; omega)]
        simp
      | (w, .arg) :: r, hc, hf, hany =>
        dsimp only
        rw [consumePositionals_nil]
        simp only [bind, Except.bind]
        rw [if_neg (by omega)]
        have hlt : (((w, Cls.arg) :: r).dropWhile (fun a => !a.2.isOpt)).length < fuel := by
          rw [List.dropWhile_cons_of_pos (by rfl)]
          have := (List.dropWhile_suffix (l := r) (fun a : String × Cls => !a.2.isOpt)).length_le
          simp only [List.length_cons] at hf
          omega
        rw [ih (fun x hx => hc x ((List.dropWhile_suffix _).subset hx)) hlt, List.append_assoc, ← List.map_append, List.takeWhile_append_dropWhile]
      | (w, .dashes) :: r, hc, _, _ =>
        have := hc (w, .dashes) (by simp)
        simp at this
    · rw [consumePositionals_nil]
      rfl

theorem parsePair_left {b s : String} (hb : Plain b) (hs : Plain s) {rates : List Given} (hr : ∀ g ∈ rates, RateOk g) {ws : List String}
    {c : List (String × Cls)} (hws : classify (tableOf pairOptions) ws = .ok c) (hc : Left c) :
    parseKnown tokenPairParser (b :: s :: (rates.flatMap Given.words ++ ws)) {} =
      (readAll tokenPairParser rates { pair := some (b, s) }).map (fun st => (st, ws)) := by
  have hcw : c.map (·.1) = ws := classify_fst hws
  have hcl : classify tokenPairParser.table (b :: s :: (rates.flatMap Given.words ++ ws)) = .ok ((b, .arg) :: (s, .arg) :: (clsAll rates ++ c)) := by
    rw [pair_table, classify_plain hb, classify_plain hs, classify_all (fun g hg => rate_okFor (hr g hg)), hws]
    rfl
  have hskip : skipDashes (clsAll rates ++ c) = clsAll rates ++ c := by
    cases rates with
    | nil =>
      cases c with
      | nil => rfl
      | cons x c =>
        show skipDashes (x :: c) = _
        unfold skipDashes
        rw [List.dropWhile_cons_of_neg]
        · rfl
        · rcases hc x (by simp) with h | h <;> simp [h]
    | cons g gs =>
      obtain ⟨w, o, e, c', hw⟩ := clsWords_cons g
      rw [clsAll, List.flatMap_cons, hw]
      simp [skipDashes]
  have hcons : consumePositionals [pairPos] ((b, .arg) :: (s, .arg) :: (clsAll rates ++ c)) {} = .ok ({ pair := some (b, s) }, [], clsAll rates ++ c) := by
    generalize clsAll rates ++ c = L at hskip
    unfold consumePositionals
    have e : matchPartial [pairPos] ((b, .arg) :: (s, .arg) :: L) [pairPos].length = ([[b, s]], L) := by
      have e1 : afterPositional .two ((b, Cls.arg) :: (s, Cls.arg) :: L) = some L := by
        show (some (skipDashes ((s, Cls.arg) :: L))).bind afterArg = _
        show some (skipDashes L) = _
        rw [hskip]
      have e2 : matchAll [pairPos] ((b, Cls.arg) :: (s, Cls.arg) :: L) = some ([[b, s]], L) := by
        have e3 : pairPos.nargs = .two := rfl
        have e4 : L.length + 1 + 1 - L.length = 2 := by omega
        simp [matchAll, e1, e3, e4]
      show matchPartial _ _ 1 = _
      rw [matchPartial, show List.take (0 + 1) [pairPos] = [pairPos] from rfl, e2]
    rw [e]
    dsimp only
    rw [takePositionals, pairPos_act hb hs]
    rfl
  have hloop : parseLoop tokenPairParser (((b, Cls.arg) :: (s, Cls.arg) :: (clsAll rates ++ c)).length + 1) [pairPos] ((b, .arg) :: (s, .arg) :: (clsAll rates ++ c)) [] {} =
      (readAll tokenPairParser rates { pair := some (b, s) }).map (fun st => (st, [], ws)) := by
    rw [parseLoop.eq_def]
    dsimp only
    split
    · rw [hcons]
      simp only [bind, Except.bind]
      rw [if_pos (by simp only [List.length_cons]; omega)]
      have hl := clsAll_length rates
      rw [List.length_cons, List.length_cons, List.length_append,
        show (clsAll rates).length + c.length + 1 + 1 = ((clsAll rates).length + c.length + 2 - rates.length) + rates.length by omega,
        parseLoop_all (fun g hg => by rw [(hr g hg).rate]; decide)]
      cases readAll tokenPairParser rates { pair := some (b, s) } with
      | error e => rfl
      | ok st =>
        simp only [bind, Except.bind]
        rw [parseLoop_left _ hc (by omega), hcw]
        rfl
    · rename_i hn
      cases rates with
      | nil =>
        rw [hcons]
        show Except.ok _ = Except.ok _
        rw [← hcw]
        rfl
      | cons g gs =>
        obtain ⟨w, o, e, c', hw⟩ := clsWords_cons g
        exfalso
        apply hn
        rw [clsAll, List.flatMap_cons, hw]
        simp [Cls.isOpt]
  unfold parseKnown
  rw [hcl]
  change (parseLoop tokenPairParser (((b, Cls.arg) :: (s, Cls.arg) :: (clsAll rates ++ c)).length + 1) [pairPos] ((b, .arg) :: (s, .arg) :: (clsAll rates ++ c)) [] {}) >>= _ = _
  rw [hloop]
  cases readAll tokenPairParser rates { pair := some (b, s) } <;> rfl

theorem classify_sub_tail {sub : Sub} (h : sub.Ok) {gs : List Given} (hgs : ∀ g ∈ gs, g.Ok) : ∃ name rest c, sub.words ++ gs.flatMap Given.words = name :: rest ∧
    classify (mainParser opens).table (name :: rest) = .ok ((name, .arg) :: c) := by
  have plainName : ∀ s : String, s = "token-pair" ∨ s = "best-token-pair" → Plain s := by
    rintro s (rfl | rfl) <;> exact .inl (by decide)
  have htail : classify (tableOf mainOptions) (gs.flatMap Given.words) = .ok (clsAll gs) := by
    have := classify_all (fun g hg => (hgs g hg).okFor) []
    rw [List.append_nil] at this
    rw [this]
    simp [classify, Except.map]
  cases sub with
  | best =>
    refine ⟨_, _, clsAll gs, rfl, ?_⟩
    rw [main_table, classify_plain (plainName _ (.inr rfl))]
    erw [htail]
    rfl
  | pair b s rates =>
    obtain ⟨h1, h2, h3⟩ := h
    have hc : ∃ c, classify (tableOf mainOptions) (rates.flatMap Given.words ++ gs.flatMap Given.words) = .ok c := by
      clear h1 h2
      induction rates with
      | nil => exact ⟨_, htail⟩
      | cons g rates ih =>
        obtain ⟨c, hc⟩ := ih (fun g hg => h3 g (by simp [hg]))
        rw [List.flatMap_cons, List.append_assoc]
        exact classify_rate (h3 g (by simp)) _ hc
    obtain ⟨c, hc⟩ := hc
    refine ⟨_, _, (b, .arg) :: (s, .arg) :: c, rfl, ?_⟩
    rw [main_table, classify_plain (plainName _ (.inl rfl))]
    show Except.map _ (classify _ (b :: s :: (rates.flatMap Given.words ++ gs.flatMap Given.words))) = _
    rw [classify_plain h1, classify_plain h2, hc]
    rfl

theorem flatMap_words_ne {gs : List Given} (h : gs ≠ []) : gs.flatMap Given.words ≠ [] := by
  obtain ⟨g, gs, rfl⟩ := List.exists_cons_of_ne_nil h
  rw [List.flatMap_cons]
  unfold Given.words
  split <;> simp

/-- C98. Options of the main parser after the subcommand are not recognized: the program ends with a usage message. -/
theorem C98_after_subcommand {gs gs' late : List Given} (h : ∀ g ∈ gs ++ gs', g.Ok) (ha : ∀ g ∈ gs ++ gs', Acceptable g.option g.text) (hlate : ∀ g ∈ late, g.Ok)
    (hne : late ≠ []) {f : String} (hf : Plain f) (ho : opens f = true) {sub : Sub} (hsub : sub.Ok) (hx : ∀ g ∈ sub.given, ∃ q, FractionText g.text.toList q) :
    parseArgs opens (gs.flatMap Given.words ++ f :: (gs'.flatMap Given.words ++ (sub.words ++ late.flatMap Given.words))) = .error .usage := by
  obtain ⟨name, rest, c, e, hc⟩ := classify_sub_tail (opens := opens) hsub hlate
  obtain ⟨p, h1, _, _, _, h5⟩ := readAll_says (opens := opens) h ha
  have hws := flatMap_words_ne hne
  have hfin : ∀ st : Parsed, st.unrecognized = late.flatMap Given.words → finish st = .error .usage := by
    intro st hst
    unfold finish
    rw [if_neg (by rw [hst]; exact hws)]
  have hrun : ∃ st : Parsed, runSubcommand (sub.words ++ late.flatMap Given.words) { p with instanceFile := f } = .ok st ∧ st.unrecognized = late.flatMap Given.words := by
    cases sub with
    | best =>
      obtain ⟨c, hc1, hc2⟩ := classify_left (opts := [.help]) (by decide) (by decide) hlate
      show ∃ st, runSubcommand ("best-token-pair" :: late.flatMap Given.words) _ = _ ∧ _
      refine ⟨{ p with instanceFile := f, args := { p.args with command := some .bestTokenPair }, unrecognized := p.unrecognized ++ late.flatMap Given.words }, ?_, ?_⟩
      · unfold runSubcommand
        dsimp only
        rw [if_neg (by decide), if_pos rfl]
        have e : parseKnown bestTokenPairParser (late.flatMap Given.words) {} = .ok ({}, late.flatMap Given.words) := by
          unfold parseKnown
          rw [show bestTokenPairParser.table = tableOf [.help] from rfl, hc1]
          change (parseLoop bestTokenPairParser (c.length + 1) [] c [] {}) >>= _ = _
          rw [parseLoop_left _ hc2 (by omega), classify_fst hc1]
          rfl
        rw [e]
        rfl
      · rw [h5]; rfl
    | pair b s rates =>
      obtain ⟨hb, hs, hr⟩ := hsub
      obtain ⟨st', e1, _⟩ := readRates_says (rates := rates) (fun g hg => (hr g hg).rate) hx { pair := some (b, s) } rfl
      obtain ⟨c, hc1, hc2⟩ := classify_left (opts := pairOptions) (List.Subset.refl _) (by decide) hlate
      have e2 := readRates_pair (fun g hg => (hr g hg).rate) e1
      show ∃ st, runSubcommand ("token-pair" :: b :: s :: (rates.flatMap Given.words ++ late.flatMap Given.words)) _ = _ ∧ _
      refine ⟨{ p with instanceFile := f, args := { p.args with command := some (.tokenPair (b, s) st'.xrate) }, unrecognized := p.unrecognized ++ late.flatMap Given.words }, ?_, ?_⟩
      · unfold runSubcommand
        dsimp only
        rw [if_pos rfl, parsePair_left hb hs hr hc1 hc2, e1]
        simp only [Except.map, bind, Except.bind]
        rw [e2]
        rfl
      · rw [h5]; rfl
  obtain ⟨st, hst, hun⟩ := hrun
  rw [e, parseArgs_line h hf ho hc, ← e]
  rw [readAll_append] at h1
  cases h2 : readAll (mainParser opens) gs {} with
  | error e => rw [h2] at h1; cases h1
  | ok st0 =>
    rw [h2] at h1
    simp only [bind, Except.bind] at h1 ⊢
    rw [readAll_file, h1]
    simp only [Except.map]
    rw [hst]
    exact hfin st hun

/-! ### The switch for rational numbers, and no subcommand -/

/-- C98. `--log-rationals` is on for every text that is not empty: `False`, `0` and `no` switch it on. -/
theorem C98_log_rationals {gs gs' : List Given} (h : ∀ g ∈ gs ++ gs', g.Ok) (ha : ∀ g ∈ gs ++ gs', Acceptable g.option g.text) {f : String} (hf : Plain f)
    (ho : opens f = true) {sub : Sub} (hsub : sub.Ok) (hx : ∀ g ∈ sub.given, ∃ q, FractionText g.text.toList q) {t : String}
    (ht : lastText .logRationals (gs ++ gs') = some t) :
    ∃ p, parseArgs opens (gs.flatMap Given.words ++ f :: (gs'.flatMap Given.words ++ sub.words)) = .ok p ∧ (p.logRationals = false ↔ t = "") := by
  obtain ⟨p, h1, _, h3, _⟩ := C97_parsed h ha hf ho hsub hx
  refine ⟨p, h1, ?_⟩
  have := h3.logRationals
  rw [ht] at this
  constructor
  · intro hp
    by_contra hne
    rw [this.2 ⟨t, rfl, hne⟩] at hp
    cases hp
  · rintro rfl
    cases hp : p.logRationals with
    | false => rfl
    | true =>
      obtain ⟨t, e, hne⟩ := this.1 hp
      cases e
      exact absurd rfl hne

theorem parseLoop_inst_alone {f : String} (h : Plain f) (ho : opens f = true) (fuel : ℕ) (ex : List String) (st : Parsed) :
    parseLoop (mainParser opens) (fuel + 1) [instPos opens, subPos] [(f, .arg)] ex st = .ok ({ st with instanceFile := f }, [subPos], ex) := by
  have hc : consumePositionals [instPos opens, subPos] [(f, .arg)] st = .ok ({ st with instanceFile := f }, [subPos], []) := by
    unfold consumePositionals
    have e : matchPartial [instPos opens, subPos] [(f, .arg)] [instPos opens, subPos].length = ([[f]], []) := by
      have e1 : matchAll [instPos opens, subPos] [(f, .arg)] = none := by
        simp [matchAll, instPos, subPos, afterPositional, afterArg, skipDashes]
      have e2 : matchAll [instPos opens] [(f, .arg)] = some ([[f]], []) := by
        simp [matchAll, instPos, afterPositional, afterArg, skipDashes]
      show matchPartial _ _ 2 = _
      rw [matchPartial, show List.take (1 + 1) [instPos opens, subPos] = [instPos opens, subPos] from rfl, e1]
      dsimp only
      rw [matchPartial, show List.take (0 + 1) [instPos opens, subPos] = [instPos opens] from rfl, e2]
    rw [e]
    dsimp only
    rw [takePositionals, instPos_act h ho]
    rfl
  rw [parseLoop.eq_def]
  dsimp only
  rw [if_neg (by simp [Cls.isOpt]), hc]
  simp [bind, Except.bind, pure, Except.pure]

/-- C98. A command line without subcommand is accepted by the parser; the program then fails. -/
theorem C98_no_subcommand {gs gs' : List Given} (h : ∀ g ∈ gs ++ gs', g.Ok) (ha : ∀ g ∈ gs ++ gs', Acceptable g.option g.text) {f : String} (hf : Plain f)
    (ho : opens f = true) : ∃ p, parseArgs opens (gs.flatMap Given.words ++ f :: gs'.flatMap Given.words) = .ok p ∧ Says (gs ++ gs') p ∧
      ∀ base ext inst shuffle elapsed, matchMain base ext inst p.args shuffle elapsed = .error .attributeError := by
  obtain ⟨p, h1, ⟨s1, s2, s3, s4, s5, s6⟩, _, h4, h5⟩ := readAll_says (opens := opens) h ha
  refine ⟨{ p with instanceFile := f }, ?_, ⟨s1, s2, s3, s4, s5, s6⟩, fun _ _ _ _ _ => C70_no_subcommand h4⟩
  have key : ∀ (fuel : ℕ) (st : Parsed), gs'.length + 2 ≤ fuel →
      parseLoop (mainParser opens) fuel [instPos opens, subPos] ((f, .arg) :: clsAll gs') [] st =
        ((readAll (mainParser opens) gs' { st with instanceFile := f }) >>= fun st => .ok (st, [subPos], [])) := by
    intro fuel st hfuel
    obtain ⟨fuel, rfl⟩ := Nat.exists_eq_add_of_le hfuel
    cases gs' with
    | nil =>
      rw [show ([] : List Given).length + 2 + fuel = (fuel + 1) + 1 by simp only [List.length_nil]; omega]
      exact parseLoop_inst_alone hf ho (fuel + 1) [] st
    | cons g gs' =>
      obtain ⟨w, o, e, c', hw⟩ := clsWords_cons g
      have e1 : clsAll (g :: gs') = (w, .opt o e) :: (c' ++ clsAll gs') := by
        rw [clsAll, List.flatMap_cons, hw, List.cons_append]; rfl
      have := parseLoop_all (P := mainParser opens) (gs := g :: gs') (fun g hg => (h g (by simp at hg ⊢; tauto)).main.1) (fuel + 1) [subPos] [] []
        { st with instanceFile := f }
      rw [List.append_nil] at this
      rw [e1, show (g :: gs').length + 2 + fuel = (fuel + 1 + (g :: gs').length) + 1 by omega, parseLoop_inst hf ho, ← e1, this]
      have e2 : (fun st => parseLoop (mainParser opens) (fuel + 1) [subPos] [] [] st) = fun st => .ok (st, [subPos], []) :=
        funext fun st => parseLoop_nil fuel [subPos] (.inr rfl) [] st
      rw [e2]
  have htail : classify (tableOf mainOptions) (gs'.flatMap Given.words) = .ok (clsAll gs') := by
    have := classify_all (fun g hg => (h g (List.mem_append.2 (.inr hg))).okFor) []
    rw [List.append_nil] at this
    rw [this]
    simp [classify, Except.map]
  unfold parseArgs parseKnown
  rw [main_table, classify_all (fun g hg => (h g (by simp [hg])).okFor), classify_plain hf, htail]
  simp only [Except.map]
  have hlen := clsAll_length gs'
  have hlen2 := clsAll_length gs
  change ((parseLoop (mainParser opens) ((clsAll gs ++ (f, Cls.arg) :: clsAll gs').length + 1) [instPos opens, subPos]
    (clsAll gs ++ (f, Cls.arg) :: clsAll gs') [] {}) >>= _) >>= _ = _
  obtain ⟨fuel, hfu⟩ : ∃ fuel, (clsAll gs ++ (f, Cls.arg) :: clsAll gs').length + 1 = fuel + gs.length ∧ gs'.length + 2 ≤ fuel := by
    refine ⟨(clsAll gs ++ (f, Cls.arg) :: clsAll gs').length + 1 - gs.length, ?_, ?_⟩ <;>
      simp only [List.length_append, List.length_cons] <;> omega
  rw [hfu.1, parseLoop_all (fun g hg => (h g (by simp [hg])).main.1)]
  rw [readAll_append] at h1
  cases h2 : readAll (mainParser opens) gs {} with
  | error e => rw [h2] at h1; cases h1
  | ok st0 =>
    rw [h2] at h1
    simp only [bind, Except.bind] at h1 ⊢
    rw [key fuel st0 hfu.2, readAll_file, h1]
    simp only [Except.map, bind, Except.bind]
    have e : [subPos].any (·.required) = false := rfl
    rw [if_neg (by rw [e]; simp)]
    simp [pure, Except.pure, h5]

/-- Non-vacuity: the command lines of the three theorems. -/
example : parseArgs (fun _ => true) ["inst.json", "token-pair", "B", "S", "--xrate=2", "--solution", "out.json"] = .error .usage ∧
    (∃ p, parseArgs (fun _ => true) ["inst.json", "--log-rationals", "False", "best-token-pair"] = .ok p ∧ p.logRationals = true) ∧
    ∃ p, parseArgs (fun _ => true) ["inst.json", "--solution", "out.json"] = .ok p ∧
      ∀ base ext inst shuffle elapsed, matchMain base ext inst p.args shuffle elapsed = .error .attributeError := by
  have ok : ∀ g : Given, g = ⟨.solution, "--solution", "out.json", false⟩ → g.Ok := by
    rintro _ rfl
    exact ⟨by decide, .inl rfl, fun _ => .inl (by decide)⟩
  have ok2 : ∀ g : Given, g = ⟨.logRationals, "--log-rationals", "False", false⟩ → g.Ok := by
    rintro _ rfl
    exact ⟨by decide, .inl rfl, fun _ => .inl (by decide)⟩
  refine ⟨?_, ?_, ?_⟩
  · exact C98_after_subcommand (opens := fun _ => true) (gs := []) (gs' := []) (late := [⟨.solution, "--solution", "out.json", false⟩]) (f := "inst.json")
      (sub := .pair "B" "S" [⟨.xrate, "--xrate", "2", true⟩]) (by simp) (by simp) (by simpa using ok) (by simp) (.inl (by decide)) rfl
      ⟨.inl (by decide), .inl (by decide), by
        intro g hg
        simp only [List.mem_singleton] at hg
        subst hg
        exact ⟨rfl, .inl rfl, fun h => by cases h⟩⟩
      (by
        intro g hg
        simp only [Sub.given, List.mem_singleton] at hg
        subst hg
        exact ⟨2, C91_fraction_text.1 (by decide +kernel)⟩)
  · obtain ⟨p, h1, h2⟩ := C98_log_rationals (opens := fun _ => true) (gs := []) (gs' := [⟨.logRationals, "--log-rationals", "False", false⟩]) (f := "inst.json")
      (sub := .best) (by simpa using ok2) (by simp [Acceptable]) (.inl (by decide)) rfl trivial (by simp [Sub.given]) (t := "False") rfl
    refine ⟨p, h1, ?_⟩
    cases hp : p.logRationals with
    | true => rfl
    | false => exact absurd (h2.1 hp) (by decide)
  · obtain ⟨p, h1, _, h2⟩ := C98_no_subcommand (opens := fun _ => true) (gs := []) (gs' := [⟨.solution, "--solution", "out.json", false⟩]) (f := "inst.json")
      (by simpa using ok) (by simp [Acceptable]) (.inl (by decide)) rfl
    exact ⟨p, h1, h2⟩

end Dex
