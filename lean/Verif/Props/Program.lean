import Verif.Props.JsonRun
import Verif.Props.ArgReject
import Verif.Model.Program

/-! # Property C103: what a run of the program leaves behind -/

namespace Dex

namespace Spec

/-- What is assumed about the surroundings of a run: the configuration and the libraries behave as stated in C44 and C65, the conversion to
`float` and the clock give numbers that are written as json. -/
structure WorldOk (w : World) : Prop where
  cfg : CfgOk w.base
  conv : ConvOk w.conv
  branch : ∀ E, MaxBranching E (w.ext.branch E)
  shuffle : ∀ E, (w.shuffle E).Perm E
  float : ∀ v x, w.conv.toFloat v = .ok x → EntryOk x
  runtime : IsJsonLeaf w.runtime

/-- The text is not json. -/
def NotJson (s : List Char) : Prop := ¬ ∃ v, JsonText s v

/-- The files are the same except for the one named, which holds the text. -/
def OnlyWritten (files files' : Files) (f : String) (text : List Char) : Prop := files' f = some text ∧ ∀ g, g ≠ f → files' g = files g

end Spec

open Spec

/-! ### Incomplete text -/

mutual
/-- `null` for each number that cannot be written. -/
def nullify : PyVal → PyVal
  | .dec _ => .other "null"
  | .frac _ => .other "null"
  | .list l => .list (nullifyList l)
  | .tuple l => .tuple (nullifyList l)
  | .dict l => .dict (nullifyDict l)
  | v => v
def nullifyList : List PyVal → List PyVal
  | [] => []
  | v :: l => nullify v :: nullifyList l
def nullifyDict : List (String × PyVal) → List (String × PyVal)
  | [] => []
  | (k, v) :: l => (k, nullify v) :: nullifyDict l
end

/-- What has been written is all of the text, or the text up to a `null`. -/
def Cut (x : List Char × Bool) (full : List Char) : Prop :=
  (x.2 = true → x.1 = full) ∧ (x.2 = false → ∃ r, full = x.1 ++ 'n' :: 'u' :: 'l' :: 'l' :: r)

theorem Cut.all (s : List Char) : Cut (s, true) s := ⟨fun _ => rfl, fun h => by cases h⟩

theorem Cut.andThen {x y : List Char × Bool} {f g : List Char} (hx : Cut x f) (hy : Cut y g) : Cut (andThen x y) (f ++ g) := by
  unfold Dex.andThen
  by_cases h : x.2 = true
  · rw [if_pos h, ← hx.1 h]
    refine ⟨fun h2 => by rw [← hy.1 h2], fun h2 => ?_⟩
    obtain ⟨r, hr⟩ := hy.2 h2
    exact ⟨r, by rw [hr, List.append_assoc]⟩
  · rw [if_neg h]
    refine ⟨fun h2 => absurd h2 h, fun h2 => ?_⟩
    obtain ⟨r, hr⟩ := hx.2 h2
    exact ⟨r ++ g, by rw [hr]; simp⟩

mutual
theorem cut_value (k : ℕ) : ∀ v : PyVal, Cut (writeValue k v) (dumpValue k (nullify v))
  | .bool b => by unfold writeValue nullify dumpValue; exact .all _
  | .int n => by unfold writeValue nullify dumpValue; exact .all _
  | .str s => by unfold writeValue nullify dumpValue; exact .all _
  | .other s => by unfold writeValue nullify dumpValue; exact .all _
  | .frac q => by unfold writeValue nullify dumpValue; exact ⟨fun h => (by cases h), fun _ => ⟨[], rfl⟩⟩
  | .dec q => by unfold writeValue nullify dumpValue; exact ⟨fun h => (by cases h), fun _ => ⟨[], rfl⟩⟩
  | .list [] => by unfold writeValue nullify nullifyList dumpValue; exact .all _
  | .list (v :: l) => by
    unfold writeValue nullify nullifyList dumpValue
    have := (((Cut.all ('[' :: newLine (k + 1))).andThen (cut_value (k + 1) v)).andThen (cut_items (k + 1) l)).andThen (Cut.all (newLine k ++ [']']))
    rw [List.append_assoc _ (newLine k)]
    exact this
  | .tuple [] => by unfold writeValue nullify nullifyList dumpValue; exact .all _
  | .tuple (v :: l) => by
    unfold writeValue nullify nullifyList dumpValue
    have := (((Cut.all ('[' :: newLine (k + 1))).andThen (cut_value (k + 1) v)).andThen (cut_items (k + 1) l)).andThen (Cut.all (newLine k ++ [']']))
    rw [List.append_assoc _ (newLine k)]
    exact this
  | .dict [] => by unfold writeValue nullify nullifyDict dumpValue; exact .all _
  | .dict ((key, v) :: l) => by
    unfold writeValue nullify nullifyDict dumpValue
    have := (((Cut.all ('{' :: newLine (k + 1) ++ dumpString key ++ [':', ' '])).andThen (cut_value (k + 1) v)).andThen (cut_members (k + 1) l)).andThen
      (Cut.all (newLine k ++ ['}']))
    simpa using this
theorem cut_items (k : ℕ) : ∀ l : List PyVal, Cut (writeItems k l) (dumpItems k (nullifyList l))
  | [] => by unfold writeItems nullifyList dumpItems; exact .all _
  | v :: l => by
    unfold writeItems nullifyList dumpItems
    exact ((Cut.all (',' :: newLine k)).andThen (cut_value k v)).andThen (cut_items k l)
theorem cut_members (k : ℕ) : ∀ l : List (String × PyVal), Cut (writeMembers k l) (dumpMembers k (nullifyDict l))
  | [] => by unfold writeMembers nullifyDict dumpMembers; exact .all _
  | (key, v) :: l => by
    unfold writeMembers nullifyDict dumpMembers
    have := ((Cut.all (',' :: newLine k ++ dumpString key ++ [':', ' '])).andThen (cut_value k v)).andThen (cut_members k l)
    simpa using this
end

theorem andThen_snd (x y : List Char × Bool) : (andThen x y).2 = (x.2 && y.2) := by
  unfold andThen
  split <;> simp_all

mutual
theorem write_done (k : ℕ) : ∀ v : PyVal, (writeValue k v).2 = isJson v
  | .bool b => by unfold writeValue isJson; rfl
  | .int n => by unfold writeValue isJson; rfl
  | .str s => by unfold writeValue isJson; rfl
  | .other s => by unfold writeValue isJson; rfl
  | .frac q => by unfold writeValue isJson; rfl
  | .dec q => by unfold writeValue isJson; rfl
  | .list [] => by unfold writeValue isJson isJsonList; rfl
  | .list (v :: l) => by
    unfold writeValue isJson isJsonList
    rw [andThen_snd, andThen_snd, andThen_snd, write_done (k + 1) v, write_items (k + 1) l]
    simp
  | .tuple [] => by unfold writeValue isJson isJsonList; rfl
  | .tuple (v :: l) => by
    unfold writeValue isJson isJsonList
    rw [andThen_snd, andThen_snd, andThen_snd, write_done (k + 1) v, write_items (k + 1) l]
    simp
  | .dict [] => by unfold writeValue isJson isJsonDict; rfl
  | .dict ((key, v) :: l) => by
    unfold writeValue isJson isJsonDict
    rw [andThen_snd, andThen_snd, andThen_snd, write_done (k + 1) v, write_members (k + 1) l]
    simp
theorem write_items (k : ℕ) : ∀ l : List PyVal, (writeItems k l).2 = isJsonList l
  | [] => by unfold writeItems isJsonList; rfl
  | v :: l => by
    unfold writeItems isJsonList
    rw [andThen_snd, andThen_snd, write_done k v, write_items k l]
    simp
theorem write_members (k : ℕ) : ∀ l : List (String × PyVal), (writeMembers k l).2 = isJsonDict l
  | [] => by unfold writeMembers isJsonDict; rfl
  | (key, v) :: l => by
    unfold writeMembers isJsonDict
    rw [andThen_snd, andThen_snd, write_done k v, write_members k l]
    simp
end

mutual
theorem nullify_json : ∀ v : PyVal, isJson v = true → nullify v = v
  | .bool b, _ => by unfold nullify; rfl
  | .int n, _ => by unfold nullify; rfl
  | .str s, _ => by unfold nullify; rfl
  | .other s, _ => by unfold nullify; rfl
  | .frac q, h => by cases h
  | .dec q, h => by cases h
  | .list l, h => by unfold nullify; unfold isJson at h; rw [nullify_jsonList l h]
  | .tuple l, h => by unfold nullify; unfold isJson at h; rw [nullify_jsonList l h]
  | .dict l, h => by unfold nullify; unfold isJson at h; rw [nullify_jsonDict l h]
theorem nullify_jsonList : ∀ l : List PyVal, isJsonList l = true → nullifyList l = l
  | [], _ => by unfold nullifyList; rfl
  | v :: l, h => by
    unfold isJsonList at h
    rw [Bool.and_eq_true] at h
    unfold nullifyList
    rw [nullify_json v h.1, nullify_jsonList l h.2]
theorem nullify_jsonDict : ∀ l : List (String × PyVal), isJsonDict l = true → nullifyDict l = l
  | [], _ => by unfold nullifyDict; rfl
  | (k, v) :: l, h => by
    unfold isJsonDict at h
    rw [Bool.and_eq_true] at h
    unfold nullifyDict
    rw [nullify_json v h.1, nullify_jsonDict l h.2]
end

mutual
theorem json_nullify : ∀ v : PyVal, isJson (nullify v) = true
  | .bool b => by unfold nullify; rfl
  | .int n => by unfold nullify; rfl
  | .str s => by unfold nullify; rfl
  | .other s => by unfold nullify; rfl
  | .frac q => by unfold nullify; rfl
  | .dec q => by unfold nullify; rfl
  | .list l => by unfold nullify isJson; exact json_nullifyList l
  | .tuple l => by unfold nullify isJson; exact json_nullifyList l
  | .dict l => by unfold nullify isJson; exact json_nullifyDict l
theorem json_nullifyList : ∀ l : List PyVal, isJsonList (nullifyList l) = true
  | [] => by unfold nullifyList; rfl
  | v :: l => by unfold nullifyList isJsonList; rw [json_nullify v, json_nullifyList l]; rfl
theorem json_nullifyDict : ∀ l : List (String × PyVal), isJsonDict (nullifyDict l) = true
  | [] => by unfold nullifyDict; rfl
  | (k, v) :: l => by unfold nullifyDict isJsonDict; rw [json_nullify v, json_nullifyDict l]; rfl
end

theorem nullifyDict_keys (l : List (String × PyVal)) : (nullifyDict l).map Prod.fst = l.map Prod.fst := by
  induction l with
  | nil => rfl
  | cons p l ih => unfold nullifyDict; rw [List.map_cons, ih]; rfl

theorem null_leaf : IsJsonLeaf "null" := ⟨⟨_, .null⟩, plain_of (by decide)⟩

mutual
theorem entryOk_nullify : ∀ v : PyVal, EntryOk v → EntryOk (nullify v)
  | .bool b, h => by unfold nullify; exact h
  | .int n, h => by unfold nullify; exact h
  | .str s, h => by unfold nullify; exact h
  | .other s, h => by unfold nullify; exact h
  | .frac q, h => by unfold nullify; exact entryOk_other null_leaf
  | .dec q, h => by unfold nullify; exact entryOk_other null_leaf
  | .list l, h => by unfold nullify; exact entryOk_list.2 (entryOk_nullifyList l (entryOk_list.1 h))
  | .tuple l, h => by unfold nullify; exact entryOk_tuple.2 (entryOk_nullifyList l (entryOk_tuple.1 h))
  | .dict l, h => by
    unfold nullify
    exact entryOk_dict.2 ⟨by rw [nullifyDict_keys]; exact (entryOk_dict.1 h).1, entryOk_nullifyDict l (entryOk_dict.1 h).2⟩
theorem entryOk_nullifyList : ∀ l : List PyVal, (∀ v ∈ l, EntryOk v) → ∀ v ∈ nullifyList l, EntryOk v
  | [], _ => fun v hv => by unfold nullifyList at hv; cases hv
  | w :: l, h => fun v hv => by
    unfold nullifyList at hv
    have h1 := entryOk_nullify w (h w (by simp))
    have h2 := entryOk_nullifyList l (fun x hx => h x (by simp [hx]))
    rcases List.mem_cons.1 hv with rfl | hv
    · exact h1
    · exact h2 v hv
theorem entryOk_nullifyDict : ∀ l : List (String × PyVal), (∀ p ∈ l, EntryOk p.2) → ∀ p ∈ nullifyDict l, EntryOk p.2
  | [], _ => fun v hv => by unfold nullifyDict at hv; cases hv
  | (k, w) :: l, h => fun v hv => by
    unfold nullifyDict at hv
    have h1 := entryOk_nullify w (h (k, w) (by simp))
    have h2 := entryOk_nullifyDict l (fun x hx => h x (by simp [hx]))
    rcases List.mem_cons.1 hv with rfl | hv
    · exact h1
    · exact h2 v hv
end

/-- The beginning of a json text, up to a `null`, is not a json text. -/
theorem notJson_of_cut {p r : List Char} {v : PyVal} (h : JsonText (p ++ 'n' :: 'u' :: 'l' :: 'l' :: r) v) : NotJson p := by
  rintro ⟨x, a, b, s, rfl, ha, hb, hx⟩
  have h1 := C100_read.2 h
  unfold jsonLoads at h1
  split_ifs at h1 with h0
  have e : skipBlanks (a ++ s ++ b ++ 'n' :: 'u' :: 'l' :: 'l' :: r) = s ++ (b ++ 'n' :: 'u' :: 'l' :: 'l' :: r) := by
    rw [List.append_assoc, List.append_assoc]
    refine skipBlanks_append ha (fun c hc => ?_)
    obtain ⟨d, t, rfl, hd, _⟩ := jsonValue_head hx
    cases hc
    exact hd
  rw [e, scanValue_of hx _ _ (ends_blanks hb (ends_cons (by decide))) (by simp; omega)] at h1
  simp only [bind, Except.bind] at h1
  rw [skip_cons hb (by decide)] at h1
  cases h1

/-- What is left when writing fails is not json; otherwise all is written. -/
theorem write_entry_file {v : PyVal} (h : EntryOk v) : ((writeValue 0 v).2 = true ∧ isJson v = true ∧ (writeValue 0 v).1 = dumpValue 0 v ∧
    JsonText (writeValue 0 v).1 (reload readLeaf v) ∧ PlainText (writeValue 0 v).1) ∨ ((writeValue 0 v).2 = false ∧ NotJson (writeValue 0 v).1) := by
  have hc := cut_value 0 v
  have hw := write_done 0 v
  cases hj : isJson v with
  | true =>
    left
    rw [hj] at hw
    have e := hc.1 hw
    rw [nullify_json v hj] at e
    obtain ⟨text, h1, h2, h3⟩ := write_entry h (by unfold jsonDump; rw [if_pos hj])
    have : text = dumpValue 0 v := by
      unfold jsonDumps jsonDump at h1
      rw [if_pos hj] at h1
      cases h1
      rfl
    rw [e]
    subst this
    exact ⟨hw, rfl, rfl, h2, h3⟩
  | false =>
    right
    rw [hj] at hw
    refine ⟨hw, ?_⟩
    obtain ⟨r, hr⟩ := hc.2 hw
    obtain ⟨text, h1, h2, _⟩ := write_entry (entryOk_nullify v h) (by unfold jsonDump; rw [if_pos (json_nullify v)])
    have : text = dumpValue 0 (nullify v) := by
      unfold jsonDumps jsonDump at h1
      rw [if_pos (json_nullify v)] at h1
      cases h1
      rfl
    rw [this, hr] at h2
    exact notJson_of_cut h2

/-! ### The value given to `json.dump` -/

theorem dumpVal_json {c : Conv} {t : PyVal} {sol : Solution} {fee : Fee} {solver v : PyVal} (h : dumpVal c t sol fee solver = .ok v) (hj : isJson v = true) :
    ∃ out, dumpTree c t sol fee solver = .ok out ∧ out.file = v := by
  unfold dumpVal at h
  simp only [bind_eq_ok] at h
  obtain ⟨t1, h1, t2, h2, h3⟩ := h
  refine ⟨{ returned := t2, file := v }, ?_, rfl⟩
  unfold dumpTree jsonDump
  rw [h1, ok_bind, h2, ok_bind, h3, ok_bind, if_pos hj]
  rfl

theorem dumpVal_of {c : Conv} {t : PyVal} {sol : Solution} {fee : Fee} {solver : PyVal} {out : JsonOut} (h : dumpTree c t sol fee solver = .ok out) :
    dumpVal c t sol fee solver = .ok out.file ∧ isJson out.file = true := by
  unfold dumpTree jsonDump at h
  simp only [bind_eq_ok] at h
  obtain ⟨t1, h1, t2, h2, s, h3, _, h4, h5⟩ := h
  cases h5
  unfold dumpVal
  rw [h1, ok_bind, h2, ok_bind, h3]
  refine ⟨rfl, ?_⟩
  by_contra hj
  rw [if_neg hj] at h4
  cases h4

theorem entryOk_dumpVal {c : Conv} {t solver v : PyVal} {sol : Solution} {fee : Fee} (ht : EntryOk t) (hs : EntryOk solver) (hf : FloatOk c t)
    (hp : (sol.prices.map Prod.fst).Nodup) (h : dumpVal c t sol fee solver = .ok v) : EntryOk v := by
  unfold dumpVal at h
  simp only [bind_eq_ok] at h
  obtain ⟨t1, h1, t2, h2, h3⟩ := h
  refine entryOk_textTree ?_ hs h3
  have e1 := entryOk_solution ht hp h1
  unfold restoreFee at h2
  simp only [bind_eq_ok, getItem_eq_ok] at h2
  obtain ⟨f, h6, r, h7, x, h8, f', h9, h10⟩ := h2
  refine entryOk_set e1 (entryOk_set (entryOk_field e1 h6) ?_ h9) h10
  rw [solutionTree_fee h1] at h6
  exact hf f r x h6 h7 h8

/-- The run of the subcommand on the json tree (C65). -/
def commandJson (w : World) (a : Args) (cmd : Command) (t solver : PyVal) : Py JsonOut :=
  match cmd with
  | .tokenPair pair xrate => tokenPairJson w.conv (a.config w.base) w.ext t pair xrate solver
  | .bestTokenPair => bestTokenPairJson w.conv (a.config w.base) w.ext t (fun E => timedVisits a.timeLimit w.elapsed 0 (w.shuffle E)) solver

theorem commandVal_json {w : World} {a : Args} {cmd : Command} {t solver v : PyVal} (h : commandVal w a cmd t solver = .ok v) (hj : isJson v = true) :
    ∃ out, commandJson w a cmd t solver = .ok out ∧ out.file = v := by
  unfold commandVal at h
  unfold commandJson
  rw [bind_eq_ok] at h
  obtain ⟨inst, hi, h⟩ := h
  cases cmd with
  | tokenPair pair xrate =>
    simp only [bind_eq_ok] at h
    obtain ⟨⟨accounts, bk, fee⟩, h1, ⟨sol, rest⟩, h2, h3⟩ := h
    obtain ⟨out, ho, e⟩ := dumpVal_json h3 hj
    refine ⟨out, ?_, e⟩
    show tokenPairJson _ _ _ _ _ _ _ = _
    unfold tokenPairJson
    rw [hi, ok_bind, h1, ok_bind]
    dsimp only
    rw [h2, ok_bind]
    exact ho
  | bestTokenPair =>
    simp only [bind_eq_ok] at h
    obtain ⟨⟨accounts, orders, fee⟩, h1, st, h2, h3⟩ := h
    obtain ⟨out, ho, e⟩ := dumpVal_json h3 hj
    refine ⟨out, ?_, e⟩
    show bestTokenPairJson _ _ _ _ _ _ = _
    unfold bestTokenPairJson
    rw [hi, ok_bind, h1, ok_bind]
    dsimp only
    rw [h2, ok_bind]
    exact ho

theorem commandVal_of {w : World} {a : Args} {cmd : Command} {t solver : PyVal} {out : JsonOut} (h : commandJson w a cmd t solver = .ok out) :
    commandVal w a cmd t solver = .ok out.file ∧ isJson out.file = true := by
  unfold commandJson at h
  unfold commandVal
  cases cmd with
  | tokenPair pair xrate =>
    unfold tokenPairJson at h
    simp only [bind_eq_ok] at h
    obtain ⟨inst, hi, ⟨accounts, bk, fee⟩, h1, ⟨sol, rest⟩, h2, h3⟩ := h
    rw [hi, ok_bind]
    dsimp only
    rw [h1, ok_bind]
    dsimp only
    rw [h2, ok_bind]
    exact dumpVal_of h3
  | bestTokenPair =>
    unfold bestTokenPairJson at h
    simp only [bind_eq_ok] at h
    obtain ⟨inst, hi, ⟨accounts, orders, fee⟩, h1, st, h2, h3⟩ := h
    rw [hi, ok_bind]
    dsimp only
    rw [h1, ok_bind]
    dsimp only
    rw [h2, ok_bind]
    exact dumpVal_of h3

theorem solverVal_ok {w : World} (hw : WorldOk w) (argv : List String) : EntryOk (solverVal w argv) := by
  refine entryOk_dict.2 ⟨(by show ["name", "args", "runtime", "exit_status"].Nodup; decide), ?_⟩
  intro p hp
  simp only [List.mem_cons, List.not_mem_nil, or_false] at hp
  rcases hp with rfl | rfl | rfl | rfl
  · exact entryOk_str _
  · refine entryOk_list.2 (fun v hv => ?_)
    obtain ⟨s, _, rfl⟩ := List.mem_map.1 hv
    exact entryOk_str _
  · exact entryOk_other hw.runtime
  · exact entryOk_str _

theorem commandVal_entry {w : World} (hw : WorldOk w) {a : Args} {cmd : Command} {text : List Char} {t v : PyVal} {argv : List String} (ht : JsonText text t)
    (h : commandVal w a cmd t (solverVal w argv) = .ok v) : EntryOk v := by
  have hc : CfgOk (a.config w.base) := Args.config_ok hw.cfg
  have hm : 0 < (a.config w.base).minTradable := by have := hc.minPos; omega
  have hf : FloatOk w.conv t := fun _ r x _ _ hx => hw.float r x hx
  unfold commandVal at h
  rw [bind_eq_ok] at h
  obtain ⟨inst, hi, h⟩ := h
  cases cmd with
  | tokenPair pair xrate =>
    simp only [bind_eq_ok] at h
    obtain ⟨⟨accounts, bk, fee⟩, h1, ⟨sol, rest⟩, h2, h3⟩ := h
    exact entryOk_dumpVal (entryOk_text ht) (solverVal_ok hw argv) hf (C31_returned_is_feasible hm.le hc.feePrice.ne' h2).1 h3
  | bestTokenPair =>
    simp only [bind_eq_ok] at h
    obtain ⟨⟨accounts, orders, fee⟩, h1, st, h2, h3⟩ := h
    exact entryOk_dumpVal (entryOk_text ht) (solverVal_ok hw argv) hf (C31_best_pair_feasible hm.le hc.feePrice.ne' h2).1 h3

theorem timed_subset {w : World} (hw : WorldOk w) (a : Args) : ∀ E, ∀ v ∈ timedVisits a.timeLimit w.elapsed 0 (w.shuffle E), v.1 ∈ E := by
  intro E v hv
  have h1 : v.1 ∈ (timedVisits a.timeLimit w.elapsed 0 (w.shuffle E)).map (·.1) := List.mem_map_of_mem hv
  rw [timedVisits_fst] at h1
  exact (hw.shuffle E).mem_iff.1 h1

theorem commandJson_spec {w : World} (hw : WorldOk w) {a : Args} {cmd : Command} {t solver : PyVal} {out : JsonOut} {inst : Instance} (ha : a.command = some cmd)
    (hg : GoodCommand a) (hinst : InstanceOf w.conv t inst) (hi : GoodInstance inst) (h : commandJson w a cmd t solver = .ok out) :
    ∃ d, matchMain w.base w.ext inst a w.shuffle w.elapsed = .ok d ∧ FileOk w.conv t (orderObjects t) inst d solver out.file := by
  have hc : CfgOk (a.config w.base) := Args.config_ok hw.cfg
  unfold matchMain
  rw [ha]
  cases cmd with
  | tokenPair pair xrate =>
    obtain ⟨h1, h2⟩ := hg pair xrate ha
    obtain ⟨d, hd, _, hf, _⟩ := C65_token_pair hw.conv hc hinst hi h1 hw.branch h2 h
    exact ⟨d, hd, hf⟩
  | bestTokenPair =>
    obtain ⟨d, hd, _, hf, _⟩ := C65_best_pair hw.conv hc hinst hi hw.branch (timed_subset hw a) h
    exact ⟨d, hd, hf⟩

/-! ### The claims -/

/-- C103. However a run ends, the only file it changes is the one named last by `--solution`, or, without that option, the new temporary file; and
this only after the solution has been found. -/
theorem C103_only_solution (w : World) (files : Files) (argv : List String) : (program w files argv).2 = files ∨
    ∃ p text, parseArgs (fun f => (files f).isSome) argv = .ok p ∧ OnlyWritten files (program w files argv).2 (p.solution.getD w.tempFile) text := by
  unfold program
  split
  · exact .inl rfl
  · rename_i p hp
    split
    · exact .inl rfl
    · split
      · exact .inl rfl
      · split
        · exact .inl rfl
        · unfold writeSolution
          dsimp only
          split
          · rename_i v _ _
            exact .inr ⟨p, (writeValue 0 v).1, hp, (by dsimp only; rw [if_pos rfl]), fun g hg => (by dsimp only; rw [if_neg hg])⟩
          · exact .inl rfl

/-- C103. If a run ends with an error, the files are unchanged, or the solution file holds a text that is not json: a failed run never leaves a file that reads as
a solution. -/
theorem C103_failure {w : World} (hw : WorldOk w) {files : Files} {argv : List String} {e : ProgErr} (h : (program w files argv).1 = .error e) :
    (program w files argv).2 = files ∨ (e = .py .typeError ∧ ∃ p text, parseArgs (fun f => (files f).isSome) argv = .ok p ∧
      OnlyWritten files (program w files argv).2 (p.solution.getD w.tempFile) text ∧ NotJson text) := by
  unfold program at h ⊢
  split at h
  · exact .inl rfl
  · rename_i p hp
    split at h
    · exact .inl rfl
    · split at h
      · exact .inl rfl
      · rename_i ht
        split at h
        · exact .inl rfl
        · rename_i v hv
          unfold writeSolution at h ⊢
          dsimp only at h ⊢
          split at h
          · right
            rcases write_entry_file (commandVal_entry hw (C100_read.1 ht) hv) with ⟨h1, _⟩ | ⟨h1, h2⟩
            · rw [if_pos h1] at h
              cases h
            · rename_i hcw
              rw [if_neg (by rw [h1]; decide)] at h
              cases h
              rw [if_pos hcw]
              exact ⟨rfl, p, _, hp, ⟨(by dsimp only; rw [if_pos rfl]), fun g hg => (by dsimp only; rw [if_neg hg])⟩, h2⟩
          · rename_i hcw
            rw [if_neg hcw]
            exact .inl rfl

/-- C103. If a run ends without error, then the instance file was json, and the solution file holds a json text in printable ASCII. If the instance is a valid one,
the text reads as a correct solution (C44) that meets the thresholds of the command line (C70) and holds what C65 says. -/
theorem C103_success {w : World} (hw : WorldOk w) {files : Files} {argv : List String} (h : (program w files argv).1 = .ok ()) :
    ∃ p text t file s', parseArgs (fun f => (files f).isSome) argv = .ok p ∧ files p.instanceFile = some text ∧ JsonText text t ∧
      OnlyWritten files (program w files argv).2 (p.solution.getD w.tempFile) s' ∧ JsonText s' (reload readLeaf file) ∧ PlainText s' ∧
      ∀ inst, InstanceOf w.conv t inst → GoodInstance inst → GoodCommand p.args →
        ∃ d, matchMain w.base w.ext inst p.args w.shuffle w.elapsed = .ok d ∧ DumpOk (p.args.config w.base) inst d ∧
          ThresholdsMet w.base w.ext inst p.args d ∧ FileOk w.conv t (orderObjects t) inst d (solverVal w argv) file := by
  unfold program at h ⊢
  split at h
  · cases h
  · rename_i p hp
    split at h
    · cases h
    · rename_i cmd hcmd
      split at h
      · cases h
      · rename_i t ht
        split at h
        · cases h
        · rename_i v hv
          unfold writeSolution at h ⊢
          dsimp only at h ⊢
          split at h
          · rename_i hcw
            rcases write_entry_file (commandVal_entry hw (C100_read.1 ht) hv) with ⟨h1, h2, h3, h4, h5⟩ | ⟨h1, _⟩
            · have hfile : ∃ text, files p.instanceFile = some text := by
                cases hf : files p.instanceFile with
                | some text => exact ⟨text, rfl⟩
                | none =>
                  rw [hf] at ht
                  cases ht
              obtain ⟨text, hf⟩ := hfile
              rw [if_pos hcw]
              rw [hf] at ht
              refine ⟨p, text, t, v, (writeValue 0 v).1, hp, hf, C100_read.1 ht, ⟨(by dsimp only; rw [if_pos rfl]), fun g hg => (by dsimp only; rw [if_neg hg])⟩, h4, h5, ?_⟩
              intro inst hinst hi hg
              obtain ⟨out, ho, rfl⟩ := commandVal_json hv h2
              obtain ⟨d, hd, hfo⟩ := commandJson_spec hw hcmd hg hinst hi ho
              obtain ⟨h6, h7⟩ := C70_thresholds hw.cfg hi hw.branch hw.shuffle hg hd
              exact ⟨d, hd, h6, h7, hfo⟩
            · rw [if_neg (by rw [h1]; decide)] at h
              cases h
          · cases h

theorem commandVal_error {w : World} (hw : WorldOk w) {a : Args} {cmd : Command} {t solver : PyVal} {inst : Instance} (ha : a.command = some cmd)
    (hg : GoodCommand a) (hinst : InstanceOf w.conv t inst) (hi : GoodInstance inst) {e : PyErr}
    (h : matchMain w.base w.ext inst a w.shuffle w.elapsed = .error e) : commandVal w a cmd t solver = .error e := by
  have hc : CfgOk (a.config w.base) := Args.config_ok hw.cfg
  have hread := C65_read.2 hinst
  obtain ⟨A, raws, fee, ratio, hr⟩ := readInstance_reads hw.conv hread
  unfold matchMain at h
  rw [ha] at h
  unfold commandVal
  rw [hread, ok_bind]
  cases cmd with
  | tokenPair pair xrate =>
    obtain ⟨hne, hx⟩ := hg pair xrate ha
    dsimp only at h ⊢
    unfold tokenPairMain at h
    cases hload : loadPairProblem (a.config w.base) inst pair with
    | error e1 => rw [hload] at h; cases h; rfl
    | ok r =>
      obtain ⟨accounts, bk, fee'⟩ := r
      rw [hload, ok_bind] at h
      rw [ok_bind]
      dsimp only at h ⊢
      cases hsol : solveEconomicViable (a.config w.base) w.ext pair accounts bk.b bk.s bk.f fee' xrate with
      | error e1 => rw [hsol] at h; cases h; rfl
      | ok r =>
        obtain ⟨sol, rest⟩ := r
        obtain ⟨rfl, pool, hl, hs, hft⟩ := tokenPair_parts hc hi hne hw.branch hx hload hsol
        obtain ⟨d, hd, _⟩ := dumpTree_spec hw.conv hc hr hi hl hs hft solver
        rw [hsol, ok_bind] at h
        dsimp only at h
        rw [hd] at h
        cases h
  | bestTokenPair =>
    dsimp only at h ⊢
    unfold bestTokenPairMain at h
    cases hload : loadProblem (a.config w.base) inst with
    | error e1 => rw [hload] at h; cases h; rfl
    | ok r =>
      obtain ⟨accounts, orders, fee'⟩ := r
      rw [hload, ok_bind] at h
      rw [ok_bind]
      dsimp only at h ⊢
      cases hst : bestTokenPair (a.config w.base) w.ext accounts orders fee' (timedVisits a.timeLimit w.elapsed 0 (w.shuffle (eligibleTokenPairs orders fee'.token))) with
      | error e1 => rw [hst] at h; cases h; rfl
      | ok st =>
        obtain ⟨rfl, hl, hs, hft⟩ := bestPair_parts hc hi hw.branch hload (timed_subset hw a _) hst
        obtain ⟨d, hd, _⟩ := dumpTree_spec hw.conv hc hr hi hl hs hft solver
        rw [hst, ok_bind, hd] at h
        cases h

theorem commandJson_writes {w : World} (hw : WorldOk w) {a : Args} {cmd : Command} {t solver : PyVal} {inst : Instance} (ha : a.command = some cmd)
    (hg : GoodCommand a) (hinst : InstanceOf w.conv t inst) (hi : GoodInstance inst) (hwr : Writable w.conv t solver) {d : Dump}
    (h : matchMain w.base w.ext inst a w.shuffle w.elapsed = .ok d) :
    ∃ out, commandJson w a cmd t solver = .ok out ∧ FileOk w.conv t (orderObjects t) inst d solver out.file := by
  have hc : CfgOk (a.config w.base) := Args.config_ok hw.cfg
  unfold matchMain at h
  rw [ha] at h
  cases cmd with
  | tokenPair pair xrate =>
    obtain ⟨h1, h2⟩ := hg pair xrate ha
    exact (C66_token_pair hw.conv hc hinst hi h1 hw.branch h2 hwr).1 d h
  | bestTokenPair => exact (C66_best_pair hw.conv hc hinst hi hw.branch (timed_subset hw a) hwr).1 d h

/-- C103. The program on the words of a command line: options (the last text for an option counts), the instance file, and a subcommand. If the instance file is the
text of a valid instance, the pair is a pair and the rate is positive, then the program ends with the exception the solver raises, and no file is changed; or the solver
finds a solution, and if it can be written (C66), the solution file holds the json text of it. -/
theorem C103_command_line {w : World} (hw : WorldOk w) {files : Files} {gs gs' : List Given} (h : ∀ g ∈ gs ++ gs', g.Ok)
    (ha : ∀ g ∈ gs ++ gs', Acceptable g.option g.text) {f : String} (hf : Plain f) {text : List Char} {t : PyVal} {inst : Instance} (hfile : files f = some text)
    (ht : JsonText text t) (hinst : InstanceOf w.conv t inst) (hi : GoodInstance inst) {sub : Sub} (hsub : sub.Ok)
    (hx : ∀ g ∈ sub.given, ∃ q, FractionText g.text.toList q) {argv : List String} (hargv : argv = gs.flatMap Given.words ++ f :: (gs'.flatMap Given.words ++ sub.words)) :
    ∃ p, Says (gs ++ gs') p ∧ SaysCommand sub p.args.command ∧ (GoodCommand p.args →
      (∀ e, matchMain w.base w.ext inst p.args w.shuffle w.elapsed = .error e → program w files argv = (.error (.py e), files)) ∧
      ∀ d, matchMain w.base w.ext inst p.args w.shuffle w.elapsed = .ok d → DumpOk (p.args.config w.base) inst d ∧ ThresholdsMet w.base w.ext inst p.args d ∧
        (Writable w.conv t (solverVal w argv) → w.canWrite ((lastText .solution (gs ++ gs')).getD w.tempFile) = true →
          (program w files argv).1 = .ok () ∧ ∃ s' file, OnlyWritten files (program w files argv).2 ((lastText .solution (gs ++ gs')).getD w.tempFile) s' ∧
            JsonText s' (reload readLeaf file) ∧ PlainText s' ∧ FileOk w.conv t (orderObjects t) inst d (solverVal w argv) file)) := by
  obtain ⟨p, h1, h2, h3, h4⟩ := C97_parsed (opens := fun f => (files f).isSome) h ha hf (by rw [hfile]; rfl) hsub hx
  rw [← hargv] at h1
  have hcmd : ∃ cmd, p.args.command = some cmd := by
    unfold SaysCommand at h4
    split at h4
    · exact ⟨_, h4⟩
    · split at h4
      · exact ⟨_, h4⟩
      · obtain ⟨q, _, h4⟩ := h4
        exact ⟨_, h4⟩
  obtain ⟨cmd, hcmd⟩ := hcmd
  have hprog : program w files argv = (match commandVal w p.args cmd t (solverVal w argv) with
      | .error e => (.error (.py e), files)
      | .ok v => writeSolution w files p.solution v) := by
    unfold program
    rw [h1]
    dsimp only
    rw [hcmd]
    dsimp only
    rw [h2, hfile]
    show (match jsonLoads text with
      | .error e => _
      | .ok t => _) = _
    rw [C100_read.2 ht]
    rfl
  refine ⟨p, h3, h4, fun hg => ⟨fun e he => ?_, fun d hd => ?_⟩⟩
  · rw [hprog, commandVal_error hw hcmd hg hinst hi he]
  · obtain ⟨h5, h6⟩ := C70_thresholds hw.cfg hi hw.branch hw.shuffle hg hd
    refine ⟨h5, h6, fun hwr hcw => ?_⟩
    obtain ⟨out, ho, hfo⟩ := commandJson_writes hw hcmd hg hinst hi hwr hd
    obtain ⟨h7, h8⟩ := commandVal_of ho
    rw [hprog, h7]
    dsimp only
    unfold writeSolution
    dsimp only
    rw [h3.solution, if_pos hcw]
    rcases write_entry_file (commandVal_entry hw ht h7) with ⟨k1, k2, k3, k4, k5⟩ | ⟨k1, _⟩
    · dsimp only
      rw [if_pos k1]
      exact ⟨rfl, _, out.file, ⟨(by dsimp only; rw [if_pos rfl]), fun g hg => (by dsimp only; rw [if_neg hg])⟩, k4, k5, hfo⟩
    · rw [write_done, h8] at k1
      cases k1

/-! ### Examples -/

namespace ExProgram

/-- `float` for the fee ratio of the example. -/
def conv : Conv := pyConv (fun
  | .dec q => .ok (.other (if q = 1 / 1000 then "0.001" else "NaN"))
  | _ => .error .typeError)

noncomputable def world : World where
  conv := conv
  base := Config.default
  ext := ExInst.ext
  shuffle := id
  elapsed := fun _ => 0
  argv0 := "match.py"
  runtime := "0.25"
  tempFile := "/tmp/solution-1.json"
  canWrite := fun _ => true

theorem world_ok : WorldOk world where
  cfg := ExJson.cfg_ok
  conv := C91_conv _
  branch := ExInst.branch_max
  shuffle _ := List.Perm.refl _
  float v x h := by
    cases v <;> cases h
    refine entryOk_other ?_
    split
    · exact ExText.number_leaf (by decide +kernel) (by decide +kernel)
    · exact ⟨⟨_, .nan⟩, plain_of (by decide)⟩
  runtime := ExText.number_leaf (by decide +kernel) (by decide +kernel)

def files (text : List Char) : Files := fun f => if f = "i.json" then some text else none

/-- The program run on the example writes a solution. -/
example : ∃ s', (program world (files ExText.text) ["--solution", "o.json", "i.json", "token-pair", "B", "S"]).1 = .ok () ∧
    (program world (files ExText.text) ["--solution", "o.json", "i.json", "token-pair", "B", "S"]).2 "o.json" = some s' ∧ PlainText s' ∧ ∃ v, JsonText s' v := by
  have h : (match program world (files ExText.text) ["--solution", "o.json", "i.json", "token-pair", "B", "S"] with
    | (.ok (), _) => true
    | _ => false) = true := by decide +kernel
  have h1 : (program world (files ExText.text) ["--solution", "o.json", "i.json", "token-pair", "B", "S"]).1 = .ok () := by
    revert h
    split
    · rename_i heq
      intro _
      rw [heq]
    · intro h; cases h
  obtain ⟨p, text, t, file, s', k1, _, _, k4, k5, k6, _⟩ := C103_success world_ok h1
  have hp : (match parseArgs (fun f => ((files ExText.text) f).isSome) ["--solution", "o.json", "i.json", "token-pair", "B", "S"] with
    | .ok p => p.solution == some "o.json"
    | _ => false) = true := by decide +kernel
  have hs : p.solution = some "o.json" := by
    generalize parseArgs (fun f => ((files ExText.text) f).isSome) ["--solution", "o.json", "i.json", "token-pair", "B", "S"] = r at k1 hp
    rw [k1] at hp
    exact beq_iff_eq.1 hp
  have k7 := k4.1
  rw [hs, Option.getD_some] at k7
  exact ⟨s', h1, k7, k6, _, k5⟩

/-- The text of the example with a number in a key that the program does not use. -/
def text2 : List Char := "{\"metadata\": {\"version\": 0.5},".toList ++ ExText.text.tail

end ExProgram

open ExProgram in
/-- C103 (negative). With `--solution` naming the instance file itself, a run that fails while writing destroys the instance: here because of a number in a key
that the program does not use (C67). What is left in the file is not json. -/
theorem C103_instance_lost : ∃ (w : World) (files : Files) (text text' : List Char) (t : PyVal) (inst : Instance), WorldOk w ∧ files "i.json" = some text ∧
    JsonText text t ∧ InstanceOf w.conv t inst ∧ GoodInstance inst ∧
    (program w files ["--solution", "i.json", "i.json", "token-pair", "B", "S"]).1 = .error (.py .typeError) ∧
    (program w files ["--solution", "i.json", "i.json", "token-pair", "B", "S"]).2 "i.json" = some text' ∧ NotJson text' := by
  have h : (match program world (files text2) ["--solution", "i.json", "i.json", "token-pair", "B", "S"] with
    | (.error (.py .typeError), f) => decide (f "i.json" ≠ some text2)
    | _ => false) = true := by decide +kernel
  have hi : (match jsonLoads text2 with
    | .ok t => pyCheck (readInstance conv t) (fun i => i = ExInst.inst)
    | _ => false) = true := by decide +kernel
  have h1 : (program world (files text2) ["--solution", "i.json", "i.json", "token-pair", "B", "S"]).1 = .error (.py .typeError) ∧ (program world (files text2) ["--solution", "i.json", "i.json", "token-pair", "B", "S"]).2 "i.json" ≠ some text2 := by
    generalize program world (files text2) ["--solution", "i.json", "i.json", "token-pair", "B", "S"] = r at h
    split at h
    · exact ⟨rfl, of_decide_eq_true h⟩
    · cases h
  have h2 : ∃ t, JsonText text2 t ∧ InstanceOf conv t ExInst.inst := by
    cases hl : jsonLoads text2 with
    | error e => rw [hl] at hi; cases hi
    | ok t =>
      rw [hl] at hi
      obtain ⟨i, h3, rfl⟩ := exists_of_pyCheck hi
      exact ⟨t, C100_read.1 hl, C65_read.1 h3⟩
  obtain ⟨t, ht, hinst⟩ := h2
  rcases C103_failure world_ok h1.1 with h3 | ⟨_, p, text', _, ⟨h4, h5⟩, h6⟩
  · exact absurd (by rw [h3]; exact if_pos rfl) h1.2
  · by_cases hs : "i.json" = p.solution.getD world.tempFile
    · rw [← hs] at h4
      have e : files text2 "i.json" = some text2 := if_pos rfl
      exact ⟨world, files text2, text2, text', t, ExInst.inst, world_ok, e, ht, hinst, ExInst.good, h1.1, h4, h6⟩
    · have e : files text2 "i.json" = some text2 := if_pos rfl
      exact absurd ((h5 _ hs).trans e) h1.2

end Dex
