import Verif.Props.JsonDump
import Verif.Model.TextMain

/-! # Property C102: from the text of the instance file to the text of the solution file -/

namespace Dex

namespace Spec

/-- The value of the text of a leaf. -/
def readLeaf (s : String) : PyVal :=
  match jsonLoads s.toList with
  | .ok v => v
  | .error _ => .other s

/-- The text is the text of a json value, in printable ASCII. -/
def IsJsonLeaf (s : String) : Prop := (∃ v, JsonValue s.toList v) ∧ PlainText s.toList

/-- What is required of the `solver` entry (name, arguments, run time and status): its dicts have distinct keys, and its leaves that are neither
numbers nor text are written as json. -/
structure EntryOk (v : PyVal) : Prop where
  distinct : DistinctKeys v
  leaves : ∀ s, Part (.other s) v → IsJsonLeaf s

/-- `float(ratio)` is a number that is written as json. -/
def FloatOk (c : Conv) (t : PyVal) : Prop :=
  ∀ fee r x, field t "fee" = some fee → field fee "ratio" = some r → c.toFloat r = .ok x → EntryOk x

end Spec

open Spec

/-! ### Parts -/

theorem part_trans {a b : PyVal} (h : Part a b) : ∀ {c : PyVal}, Part b c → Part a c := by
  intro c hc
  induction hc with
  | refl => exact h
  | list v l hm _ ih => exact .list _ v l hm ih
  | tuple v l hm _ ih => exact .tuple _ v l hm ih
  | dict p l hm _ ih => exact .dict _ p l hm ih

theorem entryOk_part {v w : PyVal} (h : EntryOk v) (hw : Part w v) : EntryOk w where
  distinct l hl := h.distinct l (part_trans hl hw)
  leaves s hs := h.leaves s (part_trans hs hw)

theorem entryOk_dict {l : List (String × PyVal)} : EntryOk (.dict l) ↔ (l.map Prod.fst).Nodup ∧ ∀ p ∈ l, EntryOk p.2 := by
  constructor
  · exact fun h => ⟨h.distinct l (.refl _), fun p hp => entryOk_part h (.dict _ p l hp (.refl _))⟩
  · rintro ⟨h1, h2⟩
    refine ⟨fun d hd => ?_, fun s hs => ?_⟩
    · cases hd with
      | refl => exact h1
      | dict p _ hp hw => exact (h2 p hp).distinct d hw
    · cases hs with
      | dict p _ hp hw => exact (h2 p hp).leaves s hw

theorem entryOk_list {l : List PyVal} : EntryOk (.list l) ↔ ∀ v ∈ l, EntryOk v := by
  constructor
  · exact fun h v hv => entryOk_part h (.list _ v l hv (.refl _))
  · intro h
    refine ⟨fun d hd => ?_, fun s hs => ?_⟩
    · cases hd with
      | list v _ hv hw => exact (h v hv).distinct d hw
    · cases hs with
      | list v _ hv hw => exact (h v hv).leaves s hw

theorem entryOk_tuple {l : List PyVal} : EntryOk (.tuple l) ↔ ∀ v ∈ l, EntryOk v := by
  constructor
  · exact fun h v hv => entryOk_part h (.tuple _ v l hv (.refl _))
  · intro h
    refine ⟨fun d hd => ?_, fun s hs => ?_⟩
    · cases hd with
      | tuple v _ hv hw => exact (h v hv).distinct d hw
    · cases hs with
      | tuple v _ hv hw => exact (h v hv).leaves s hw

theorem entryOk_bool (b : Bool) : EntryOk (.bool b) := ⟨fun d hd => (by cases hd), fun s hs => (by cases hs)⟩
theorem entryOk_int (n : ℤ) : EntryOk (.int n) := ⟨fun d hd => (by cases hd), fun s hs => (by cases hs)⟩
theorem entryOk_frac (q : ℚ) : EntryOk (.frac q) := ⟨fun d hd => (by cases hd), fun s hs => (by cases hs)⟩
theorem entryOk_dec (q : ℚ) : EntryOk (.dec q) := ⟨fun d hd => (by cases hd), fun s hs => (by cases hs)⟩
theorem entryOk_str (s : String) : EntryOk (.str s) := ⟨fun d hd => (by cases hd), fun s hs => (by cases hs)⟩
theorem entryOk_other {s : String} (h : IsJsonLeaf s) : EntryOk (.other s) := ⟨fun d hd => (by cases hd), fun s' hs => (by cases hs; exact h)⟩

/-! ### What has been read -/

theorem lastWins_keys {α : Type} (l : List (String × α)) : ((lastWins l).map Prod.fst).Nodup := by
  have := foldl_dictSet l [] (by simp)
  simp only [List.map_nil, List.nil_append, List.not_mem_nil, not_false_eq_true, decide_true, List.filter_true] at this
  rw [← this]
  have key : ∀ (l acc : List (String × α)), (acc.map Prod.fst).Nodup → ((l.foldl (fun d p => dictSet d p.1 p.2) acc).map Prod.fst).Nodup := by
    intro l
    induction l with
    | nil => exact fun acc h => h
    | cons p l ih => exact fun acc h => ih _ (nodup_dictSet (d := acc) h p.1 p.2)
  exact key l [] (by simp)

theorem lookup_mem {α : Type} {l : List (String × α)} {k : String} {v : α} (h : l.lookup k = some v) : (k, v) ∈ l := by
  induction l with
  | nil => cases h
  | cons p l ih =>
    obtain ⟨a, b⟩ := p
    rw [List.lookup_cons] at h
    by_cases e : k = a
    · subst e
      rw [beq_self_eq_true] at h
      cases h
      simp
    · rw [beq_false_of_ne e] at h
      exact List.mem_cons_of_mem _ (ih h)

theorem lastWins_mem {α : Type} {l : List (String × α)} : ∀ p ∈ lastWins l, p ∈ l := by
  induction l with
  | nil => intro p hp; cases hp
  | cons q l ih =>
    obtain ⟨k, v⟩ := q
    intro p hp
    unfold lastWins at hp
    rcases List.mem_cons.1 hp with rfl | hp
    · cases hl : l.reverse.lookup k with
      | none => simp
      | some w =>
        have := lookup_mem hl
        simp only [Option.getD_some, List.mem_cons]
        exact .inr (List.mem_reverse.1 this)
    · exact List.mem_cons_of_mem _ (ih p (List.mem_filter.1 hp).1)

theorem plain_of {l : List Char} (h : ∀ c ∈ l, ' ' ≤ c ∧ c ≤ '~') : PlainText l := fun c hc => .inr (h c hc)

mutual
theorem entryOk_value {s : List Char} {v : PyVal} (h : JsonValue s v) : EntryOk v := by
  match h with
  | .null => exact entryOk_other ⟨⟨_, .null⟩, plain_of (by decide)⟩
  | .true => exact entryOk_bool _
  | .false => exact entryOk_bool _
  | .nan => exact entryOk_other ⟨⟨_, .nan⟩, plain_of (by decide)⟩
  | .inf => exact entryOk_other ⟨⟨_, .inf⟩, plain_of (by decide)⟩
  | .negInf => exact entryOk_other ⟨⟨_, .negInf⟩, plain_of (by decide)⟩
  | .number _ _ h =>
    cases h with
    | int => exact entryOk_int _
    | dec => exact entryOk_dec _
  | .text _ t h => exact entryOk_str _
  | .nil b hb => exact entryOk_list.2 (by simp)
  | .list s l h => exact entryOk_list.2 (entryOk_items h)
  | .empty b hb => exact entryOk_dict.2 (by simp)
  | .dict s l h => exact entryOk_dict.2 ⟨lastWins_keys l, fun p hp => entryOk_members h p (lastWins_mem p hp)⟩
theorem entryOk_items {s : List Char} {l : List PyVal} (h : JsonItems s l) : ∀ v ∈ l, EntryOk v := by
  match h with
  | .one a s b v ha h hb =>
    have := entryOk_value h
    intro w hw
    rw [List.mem_singleton] at hw
    rw [hw]
    exact this
  | .more a s b r v l ha h hb hr =>
    have h1 := entryOk_value h
    have h2 := entryOk_items hr
    intro w hw
    rcases List.mem_cons.1 hw with rfl | hw
    · exact h1
    · exact h2 w hw
theorem entryOk_members {s : List Char} {l : List (String × PyVal)} (h : JsonMembers s l) : ∀ p ∈ l, EntryOk p.2 := by
  match h with
  | .one a q b c s d k v ha hq hb hc h hd =>
    have := entryOk_value h
    intro w hw
    rw [List.mem_singleton] at hw
    rw [hw]
    exact this
  | .more a q b c s d r k v l ha hq hb hc h hd hr =>
    have h1 := entryOk_value h
    have h2 := entryOk_members hr
    intro w hw
    rcases List.mem_cons.1 hw with rfl | hw
    · exact h1
    · exact h2 w hw
end

theorem entryOk_text {s : List Char} {v : PyVal} (h : JsonText s v) : EntryOk v := by
  obtain ⟨_, _, _, _, _, _, h⟩ := h
  exact entryOk_value h

/-! ### What is written -/

theorem entryOk_field {v x : PyVal} {k : String} (h : EntryOk v) (hx : field v k = some x) : EntryOk x := by
  cases v with
  | dict d =>
    unfold field at hx
    rw [Option.map_eq_some_iff] at hx
    obtain ⟨p, hp, rfl⟩ := hx
    exact (entryOk_dict.1 h).2 p (List.mem_of_find?_eq_some hp)
  | _ => cases hx

theorem entryOk_dictSet {d : Dict String PyVal} {k : String} {x : PyVal} (h : EntryOk (.dict d)) (hx : EntryOk x) : EntryOk (.dict (dictSet d k x)) := by
  obtain ⟨h1, h2⟩ := entryOk_dict.1 h
  refine entryOk_dict.2 ⟨nodup_dictSet (d := d) h1 k x, fun p hp => ?_⟩
  rcases mem_dictSet hp with hp | hp
  · exact h2 p hp
  · rw [hp]; exact hx

theorem entryOk_set {v x v' : PyVal} {k : String} (h : EntryOk v) (hx : EntryOk x) (hs : setItem v k x = .ok v') : EntryOk v' := by
  rw [setItem_eq_ok] at hs
  obtain ⟨d, rfl, rfl⟩ := hs
  exact entryOk_dictSet h hx

theorem entryOk_elements {v : PyVal} {l : List PyVal} (h : EntryOk v) (hl : elements v = .ok l) : ∀ x ∈ l, EntryOk x := by
  cases v with
  | list l' => cases hl; exact entryOk_list.1 h
  | tuple l' => cases hl; exact entryOk_tuple.1 h
  | dict d =>
    cases hl
    intro x hx
    obtain ⟨p, _, rfl⟩ := List.mem_map.1 hx
    exact entryOk_str _
  | str s =>
    cases hl
    intro x hx
    obtain ⟨p, _, rfl⟩ := List.mem_map.1 hx
    exact entryOk_str _
  | _ => cases hl

theorem entryOk_addNum {v x : PyVal} {q : ℚ} (h : addNum v q = .ok x) : EntryOk x := by
  cases v <;> cases h <;> exact entryOk_frac _

theorem entryOk_updateStep {c : Conv} {A A' : PyVal} {o : Order} (hA : EntryOk A) (h : updateTreeStep c A o = .ok A') : EntryOk A' := by
  unfold updateTreeStep at h
  split at h
  · cases h
  · simp only [bind_eq_ok, getItem_eq_ok, asDict_eq_ok, dictGet_eq_ok] at h
    obtain ⟨acc, h1, d, rfl, vb, _, nb, _, vs, _, ns, _, vb', _, vb2, h7, vs', _, vs2, h9, h10⟩ := h
    have hd := entryOk_field hA h1
    have h0 : EntryOk (.dict (ensureVal d o.buyToken)) := by
      unfold ensureVal
      split
      · exact hd
      · exact entryOk_dictSet hd (entryOk_int 0)
    refine entryOk_set hA ?_ h10
    refine entryOk_dictSet (entryOk_dictSet (entryOk_dictSet (entryOk_dictSet h0 (entryOk_int _)) (entryOk_int _)) ?_) ?_
    · exact entryOk_addNum h7
    · exact entryOk_addNum h9

theorem entryOk_update {c : Conv} {orders : List Order} : ∀ {A A' : PyVal}, EntryOk A → updateTree c A orders = .ok A' → EntryOk A' := by
  unfold updateTree
  induction orders with
  | nil => intro A A' h e; cases e; exact h
  | cons o l ih =>
    intro A A' h e
    unfold foldE at e
    rw [bind_eq_ok] at e
    obtain ⟨A1, h1, h2⟩ := e
    exact ih (entryOk_updateStep h h1) h2

mutual
theorem entryOk_stringify : ∀ v : PyVal, EntryOk v → EntryOk (stringifyNumeric v)
  | .bool b, _ => by unfold stringifyNumeric transform; exact entryOk_str _
  | .int n, _ => by unfold stringifyNumeric transform; exact entryOk_str _
  | .frac q, _ => by unfold stringifyNumeric transform; exact entryOk_str _
  | .dec q, h => by unfold stringifyNumeric transform; exact h
  | .str s, h => by unfold stringifyNumeric transform; exact h
  | .other s, h => by unfold stringifyNumeric transform; exact h
  | .list l, h => by
    unfold stringifyNumeric transform
    exact entryOk_list.2 (entryOk_stringifyList l (entryOk_list.1 h))
  | .tuple l, h => by
    unfold stringifyNumeric transform
    exact entryOk_tuple.2 (entryOk_stringifyList l (entryOk_tuple.1 h))
  | .dict l, h => by
    unfold stringifyNumeric transform
    refine entryOk_dict.2 ⟨?_, entryOk_stringifyDict l (entryOk_dict.1 h).2⟩
    rw [transformDict_eq, List.map_map]
    exact (entryOk_dict.1 h).1
theorem entryOk_stringifyList : ∀ l : List PyVal, (∀ v ∈ l, EntryOk v) → ∀ v ∈ transformList stringifyLeaf l, EntryOk v
  | [], _ => fun v hv => by unfold transformList at hv; cases hv
  | w :: l, h => fun v hv => by
    unfold transformList at hv
    have h1 := entryOk_stringify w (h w (by simp))
    have h2 := entryOk_stringifyList l (fun x hx => h x (by simp [hx]))
    rcases List.mem_cons.1 hv with rfl | hv
    · exact h1
    · exact h2 v hv
theorem entryOk_stringifyDict : ∀ l : List (String × PyVal), (∀ p ∈ l, EntryOk p.2) → ∀ p ∈ transformDict stringifyLeaf l, EntryOk p.2
  | [], _ => fun v hv => by unfold transformDict at hv; cases hv
  | (k, w) :: l, h => fun v hv => by
    unfold transformDict at hv
    have h1 := entryOk_stringify w (h (k, w) (by simp))
    have h2 := entryOk_stringifyDict l (fun x hx => h x (by simp [hx]))
    rcases List.mem_cons.1 hv with rfl | hv
    · exact h1
    · exact h2 v hv
end

theorem mapE_mem {α β : Type} {f : α → Py β} {l : List α} {r : List β} (h : mapE f l = .ok r) : ∀ y ∈ r, ∃ x ∈ l, f x = .ok y := by
  rw [mapE_eq_ok_forall₂] at h
  induction h with
  | nil => intro y hy; cases hy
  | cons h1 _ ih =>
    intro y hy
    rcases List.mem_cons.1 hy with rfl | hy
    · exact ⟨_, by simp, h1⟩
    · obtain ⟨x, hx, e⟩ := ih y hy
      exact ⟨x, by simp [hx], e⟩

theorem originalVals_mem {l : List PyVal} {k : String} {v : PyVal} : ∀ {i : ℕ}, dictGet? (originalVals i l) k = some v → v ∈ l := by
  induction l with
  | nil => intro i h; cases h
  | cons w l ih =>
    intro i h
    unfold originalVals at h
    rw [dictGet?_cons] at h
    split at h
    · cases h; simp
    · exact List.mem_cons_of_mem _ (ih h)

theorem entryOk_solution {c : Conv} {t t' : PyVal} {sol : Solution} {fee : Fee} (ht : EntryOk t) (hp : (sol.prices.map Prod.fst).Nodup)
    (h : solutionTree c t sol fee = .ok t') : EntryOk t' := by
  unfold solutionTree at h
  simp only [bind_eq_ok] at h
  obtain ⟨t1, h1, A, h2, A', h3, t2, h4, _, _, m, _, t3, h5, O, h6, os, h7, ds, h8, h9⟩ := h
  have e1 : EntryOk t1 := by
    refine entryOk_set ht (entryOk_dict.2 ⟨?_, ?_⟩) h1
    · rw [List.map_map]; exact hp
    · intro p hp
      obtain ⟨q, _, rfl⟩ := List.mem_map.1 hp
      exact entryOk_frac _
  have e2 := entryOk_set e1 (entryOk_update (entryOk_field e1 (getItem_eq_ok.1 h2)) h3) h4
  have e3 : EntryOk t3 := by
    refine entryOk_set e2 (entryOk_dict.2 ⟨(by show ["volume", "utility", "utility_disreg", "utility_disreg_touched", "fees", "orders_touched"].Nodup; decide), ?_⟩) h5
    intro p hp
    simp only [List.mem_cons, List.not_mem_nil, or_false] at hp
    rcases hp with rfl | rfl | rfl | rfl | rfl | rfl
    all_goals first | exact entryOk_frac _ | exact entryOk_int _
  have eo := entryOk_elements (entryOk_field e3 (getItem_eq_ok.1 h6)) h7
  refine entryOk_set e3 (entryOk_list.2 ?_) h9
  intro y hy
  obtain ⟨o, _, ho⟩ := mapE_mem h8 y hy
  unfold writeOrder at ho
  simp only [bind_eq_ok, dictGet_eq_ok] at ho
  obtain ⟨v, hv, v1, hv1, hv2⟩ := ho
  exact entryOk_set (entryOk_set (eo v (originalVals_mem hv)) (entryOk_str _) hv1) (entryOk_str _) hv2

theorem entryOk_textTree {c : Conv} {t t' solver : PyVal} (ht : EntryOk t) (hs : EntryOk solver) (h : textTree c t solver = .ok t') : EntryOk t' := by
  unfold textTree at h
  simp only [bind_eq_ok] at h
  obtain ⟨O, h1, os, h2, os', h3, t1, h4, h5⟩ := h
  have e0 := entryOk_stringify t ht
  have eo := entryOk_elements (entryOk_field e0 (getItem_eq_ok.1 h1)) h2
  refine entryOk_set (entryOk_set e0 (entryOk_list.2 ?_) h4) hs h5
  intro y hy
  obtain ⟨v, hv, hy⟩ := mapE_mem h3 y hy
  unfold restoreOrderID at hy
  rw [bind_eq_ok] at hy
  obtain ⟨d, _, hy⟩ := hy
  split at hy
  · cases hy
    exact eo _ hv
  · rw [bind_eq_ok] at hy
    obtain ⟨n, _, hy⟩ := hy
    exact entryOk_set (eo v hv) (entryOk_int n) hy

theorem solutionTree_fee {c : Conv} {t t' : PyVal} {sol : Solution} {fee : Fee} (h : solutionTree c t sol fee = .ok t') : field t' "fee" = field t "fee" := by
  unfold solutionTree at h
  simp only [bind_eq_ok] at h
  obtain ⟨t1, h1, A, h2, A', h3, t2, h4, _, _, m, _, t3, h5, O, h6, os, h7, ds, h8, h9⟩ := h
  have key : ∀ {v x v' : PyVal} {k : String}, k ≠ "fee" → setItem v k x = .ok v' → field v' "fee" = field v "fee" := by
    intro v x v' k hk hs
    rw [setItem_eq_ok] at hs
    obtain ⟨d, rfl, rfl⟩ := hs
    rw [field_set, if_neg hk]
  rw [key (by decide) h9, key (by decide) h5, key (by decide) h4, key (by decide) h1]

theorem entryOk_dump {c : Conv} {t solver : PyVal} {sol : Solution} {fee : Fee} {out : JsonOut} (ht : EntryOk t) (hs : EntryOk solver) (hf : FloatOk c t)
    (hp : (sol.prices.map Prod.fst).Nodup) (h : dumpTree c t sol fee solver = .ok out) : EntryOk out.file ∧ jsonDump out.file = .ok () := by
  unfold dumpTree at h
  simp only [bind_eq_ok] at h
  obtain ⟨t1, h1, t2, h2, s, h3, _, h4, h5⟩ := h
  cases h5
  refine ⟨entryOk_textTree ?_ hs h3, h4⟩
  have e1 := entryOk_solution ht hp h1
  unfold restoreFee at h2
  simp only [bind_eq_ok, getItem_eq_ok] at h2
  obtain ⟨f, h6, r, h7, x, h8, f', h9, h10⟩ := h2
  refine entryOk_set e1 (entryOk_set (entryOk_field e1 h6) ?_ h9) h10
  rw [solutionTree_fee h1] at h6
  exact hf f r x h6 h7 h8

theorem readLeaf_value {s : String} {v : PyVal} (h : JsonValue s.toList v) : readLeaf s = v := by
  unfold readLeaf
  rw [C100_read.2 ⟨[], [], s.toList, by simp, jsonBlanks_nil, jsonBlanks_nil, h⟩]

theorem leavesRead_entry {v : PyVal} (h : EntryOk v) : LeavesRead readLeaf v := by
  intro s hs
  obtain ⟨⟨w, hw⟩, _⟩ := h.leaves s hs
  rw [readLeaf_value hw]
  exact hw

theorem write_entry {v : PyVal} (h : EntryOk v) (hj : jsonDump v = .ok ()) :
    ∃ text, jsonDumps v = .ok text ∧ JsonText text (reload readLeaf v) ∧ PlainText text := by
  have hd : jsonDumps v = .ok (dumpValue 0 v) := by
    unfold jsonDumps
    rw [hj]
    rfl
  exact ⟨_, hd, (C101_round_trip h.distinct (leavesRead_entry h) hd).1, C101_plain (fun s hs => (h.leaves s hs).2) hd⟩

theorem tokenPair_entry {c : Conv} {cfg : Config} {ext : Ext} {t : PyVal} {pair : Token × Token} {xrate : Option ℚ} {solver : PyVal} {out : JsonOut}
    (hcfg : CfgOk cfg) (ht : EntryOk t) (hs : EntryOk solver) (hf : FloatOk c t) (h : tokenPairJson c cfg ext t pair xrate solver = .ok out) :
    EntryOk out.file ∧ jsonDump out.file = .ok () := by
  unfold tokenPairJson at h
  simp only [bind_eq_ok] at h
  obtain ⟨inst, _, ⟨accounts, bk, fee⟩, _, ⟨sol, rest⟩, hsol, h⟩ := h
  have hm : 0 < cfg.minTradable := by have := hcfg.minPos; omega
  exact entryOk_dump ht hs hf (C31_returned_is_feasible hm.le hcfg.feePrice.ne' hsol).1 h

theorem bestPair_entry {c : Conv} {cfg : Config} {ext : Ext} {t : PyVal} {shuffle : List (Token × Token) → List ((Token × Token) × Bool)} {solver : PyVal}
    {out : JsonOut} (hcfg : CfgOk cfg) (ht : EntryOk t) (hs : EntryOk solver) (hf : FloatOk c t)
    (h : bestTokenPairJson c cfg ext t shuffle solver = .ok out) : EntryOk out.file ∧ jsonDump out.file = .ok () := by
  unfold bestTokenPairJson at h
  simp only [bind_eq_ok] at h
  obtain ⟨inst, _, ⟨accounts, orders, fee⟩, _, st, hst, h⟩ := h
  have hm : 0 < cfg.minTradable := by have := hcfg.minPos; omega
  exact entryOk_dump ht hs hf (C31_best_pair_feasible hm.le hcfg.feePrice.ne' hst).1 h

theorem text_run {r : Py JsonOut} {e : Except TextErr (List Char)} (he : e = (do
    let out ← r.mapError .py
    (jsonDumps out.file).mapError .py)) (hr : ∀ out, r = .ok out → EntryOk out.file ∧ jsonDump out.file = .ok ()) :
    (∀ out, r = .ok out → ∃ s', e = .ok s' ∧ JsonText s' (reload readLeaf out.file) ∧ PlainText s') ∧ (∀ x, r = .error x → e = .error (.py x)) := by
  subst he
  constructor
  · intro out h
    obtain ⟨h1, h2⟩ := hr out h
    obtain ⟨s', h3, h4⟩ := write_entry h1 h2
    refine ⟨s', ?_, h4⟩
    rw [h]
    show (jsonDumps out.file).mapError _ = _
    rw [h3]
    rfl
  · intro x h
    rw [h]
    rfl

theorem tokenPairText_eq {c : Conv} {cfg : Config} {ext : Ext} {s : List Char} {t : PyVal} {pair : Token × Token} {xrate : Option ℚ} {solver : PyVal}
    (h : JsonText s t) : tokenPairText c cfg ext s pair xrate solver = (do
      let out ← (tokenPairJson c cfg ext t pair xrate solver).mapError .py
      (jsonDumps out.file).mapError .py) := by
  unfold tokenPairText
  rw [C100_read.2 h]
  rfl

theorem bestTokenPairText_eq {c : Conv} {cfg : Config} {ext : Ext} {s : List Char} {t : PyVal}
    {shuffle : List (Token × Token) → List ((Token × Token) × Bool)} {solver : PyVal} (h : JsonText s t) :
    bestTokenPairText c cfg ext s shuffle solver = (do
      let out ← (bestTokenPairJson c cfg ext t shuffle solver).mapError .py
      (jsonDumps out.file).mapError .py) := by
  unfold bestTokenPairText
  rw [C100_read.2 h]
  rfl

theorem text_ok {r : Py JsonOut} {e : Except TextErr (List Char)} {s' : List Char} (he : e = (do
    let out ← r.mapError .py
    (jsonDumps out.file).mapError .py)) (h : e = .ok s') : ∃ out, r = .ok out := by
  subst he
  cases r with
  | ok out => exact ⟨out, rfl⟩
  | error x => cases h

/-! ### The claims -/

/-- C102. Token-pair solver, from text to text: a text that is not json ends the run with the error of the reader, before anything is computed. -/
theorem C102_not_json {c : Conv} {cfg : Config} {ext : Ext} {s : List Char} (hs : ¬ ∃ t, JsonText s t) (solver : PyVal) :
    (∀ pair xrate, ∃ e, tokenPairText c cfg ext s pair xrate solver = .error (.json e)) ∧
    ∀ shuffle, ∃ e, bestTokenPairText c cfg ext s shuffle solver = .error (.json e) := by
  have : ∃ e, jsonLoads s = .error e := by
    cases h : jsonLoads s with
    | ok v => exact absurd ⟨v, C100_read.1 h⟩ hs
    | error e => exact ⟨e, rfl⟩
  obtain ⟨e, he⟩ := this
  refine ⟨fun pair xrate => ⟨e, ?_⟩, fun shuffle => ⟨e, ?_⟩⟩
  · unfold tokenPairText
    rw [he]
    rfl
  · unfold bestTokenPairText
    rw [he]
    rfl

/-- C102. Token-pair solver, from text to text: if a run succeeds, then the text written is a json text in printable ASCII; what it reads as is the solution
(with tuples as lists), which is correct (C44) and holds what C65 says. -/
theorem C102_token_pair {c : Conv} (hc : ConvOk c) {cfg : Config} {ext : Ext} {s s' : List Char} {t : PyVal} {pair : Token × Token} {xrate : Option ℚ}
    {solver : PyVal} {inst : Instance} (hcfg : CfgOk cfg) (hs : JsonText s t) (hinst : InstanceOf c t inst) (hi : GoodInstance inst)
    (hne : pair.1 ≠ pair.2) (hbr : ∀ E, MaxBranching E (ext.branch E)) (hx : ∀ y, xrate = some y → 0 < y) (hso : EntryOk solver) (hf : FloatOk c t)
    (h : tokenPairText c cfg ext s pair xrate solver = .ok s') :
    ∃ d file, tokenPairMain cfg ext inst pair xrate = .ok d ∧ DumpOk cfg inst d ∧ FileOk c t (orderObjects t) inst d solver file ∧
      JsonText s' (reload readLeaf file) ∧ PlainText s' := by
  have he := tokenPairText_eq (c := c) (cfg := cfg) (ext := ext) (pair := pair) (xrate := xrate) (solver := solver) hs
  obtain ⟨out, hout⟩ := text_ok he h
  obtain ⟨s2, h2, h3, h4⟩ := (text_run he (fun out ho => tokenPair_entry hcfg (entryOk_text hs) hso hf ho)).1 out hout
  cases h.symm.trans h2
  obtain ⟨d, h5, h6, h7, _⟩ := C65_token_pair hc hcfg hinst hi hne hbr hx hout
  exact ⟨d, out.file, h5, h6, h7, h3, h4⟩

/-- C102. The same for the best-token-pair solver. -/
theorem C102_best_pair {c : Conv} (hc : ConvOk c) {cfg : Config} {ext : Ext} {s s' : List Char} {t : PyVal}
    {shuffle : List (Token × Token) → List ((Token × Token) × Bool)} {solver : PyVal} {inst : Instance} (hcfg : CfgOk cfg) (hs : JsonText s t)
    (hinst : InstanceOf c t inst) (hi : GoodInstance inst) (hbr : ∀ E, MaxBranching E (ext.branch E)) (hsh : ∀ E, ∀ v ∈ shuffle E, v.1 ∈ E)
    (hso : EntryOk solver) (hf : FloatOk c t) (h : bestTokenPairText c cfg ext s shuffle solver = .ok s') :
    ∃ d file, bestTokenPairMain cfg ext inst shuffle = .ok d ∧ DumpOk cfg inst d ∧ FileOk c t (orderObjects t) inst d solver file ∧
      JsonText s' (reload readLeaf file) ∧ PlainText s' := by
  have he := bestTokenPairText_eq (c := c) (cfg := cfg) (ext := ext) (shuffle := shuffle) (solver := solver) hs
  obtain ⟨out, hout⟩ := text_ok he h
  obtain ⟨s2, h2, h3, h4⟩ := (text_run he (fun out ho => bestPair_entry hcfg (entryOk_text hs) hso hf ho)).1 out hout
  cases h.symm.trans h2
  obtain ⟨d, h5, h6, h7, _⟩ := C65_best_pair hc hcfg hinst hi hbr hsh hout
  exact ⟨d, out.file, h5, h6, h7, h3, h4⟩

/-- C102. If the solution can be written (C66), the run on text succeeds exactly when the run on the numbers of the instance does, and otherwise raises the
same error. -/
theorem C102_token_pair_outcome {c : Conv} (hc : ConvOk c) {cfg : Config} {ext : Ext} {s : List Char} {t : PyVal} {pair : Token × Token}
    {xrate : Option ℚ} {solver : PyVal} {inst : Instance} (hcfg : CfgOk cfg) (hs : JsonText s t) (hinst : InstanceOf c t inst) (hi : GoodInstance inst)
    (hne : pair.1 ≠ pair.2) (hbr : ∀ E, MaxBranching E (ext.branch E)) (hx : ∀ y, xrate = some y → 0 < y) (hso : EntryOk solver) (hf : FloatOk c t)
    (hw : Writable c t solver) :
    (∀ d, tokenPairMain cfg ext inst pair xrate = .ok d → ∃ s', tokenPairText c cfg ext s pair xrate solver = .ok s') ∧
    ∀ e, tokenPairMain cfg ext inst pair xrate = .error e → tokenPairText c cfg ext s pair xrate solver = .error (.py e) := by
  have he := tokenPairText_eq (c := c) (cfg := cfg) (ext := ext) (pair := pair) (xrate := xrate) (solver := solver) hs
  obtain ⟨h1, h2⟩ := text_run he (fun out ho => tokenPair_entry hcfg (entryOk_text hs) hso hf ho)
  obtain ⟨h3, h4⟩ := C66_token_pair hc hcfg hinst hi hne hbr hx hw
  refine ⟨fun d hd => ?_, fun e hd => h2 e (h4 e hd)⟩
  obtain ⟨out, ho, _⟩ := h3 d hd
  obtain ⟨s', hs', _⟩ := h1 out ho
  exact ⟨s', hs'⟩

/-- C102. The same for the best-token-pair solver. -/
theorem C102_best_pair_outcome {c : Conv} (hc : ConvOk c) {cfg : Config} {ext : Ext} {s : List Char} {t : PyVal}
    {shuffle : List (Token × Token) → List ((Token × Token) × Bool)} {solver : PyVal} {inst : Instance} (hcfg : CfgOk cfg) (hs : JsonText s t)
    (hinst : InstanceOf c t inst) (hi : GoodInstance inst) (hbr : ∀ E, MaxBranching E (ext.branch E)) (hsh : ∀ E, ∀ v ∈ shuffle E, v.1 ∈ E)
    (hso : EntryOk solver) (hf : FloatOk c t) (hw : Writable c t solver) :
    (∀ d, bestTokenPairMain cfg ext inst shuffle = .ok d → ∃ s', bestTokenPairText c cfg ext s shuffle solver = .ok s') ∧
    ∀ e, bestTokenPairMain cfg ext inst shuffle = .error e → bestTokenPairText c cfg ext s shuffle solver = .error (.py e) := by
  have he := bestTokenPairText_eq (c := c) (cfg := cfg) (ext := ext) (shuffle := shuffle) (solver := solver) hs
  obtain ⟨h1, h2⟩ := text_run he (fun out ho => bestPair_entry hcfg (entryOk_text hs) hso hf ho)
  obtain ⟨h3, h4⟩ := C66_best_pair hc hcfg hinst hi hbr hsh hw
  refine ⟨fun d hd => ?_, fun e hd => h2 e (h4 e hd)⟩
  obtain ⟨out, ho, _⟩ := h3 d hd
  obtain ⟨s', hs', _⟩ := h1 out ho
  exact ⟨s', hs'⟩

/-- C102. The text of the solution is itself the text of a valid instance: the executed orders with their original limits, the new balances and the
same fee (C92). -/
theorem C102_text_again {toFloat : PyVal → Py PyVal} {cfg : Config} {ext : Ext} {s s' : List Char} {t : PyVal} {pair : Token × Token} {xrate : Option ℚ}
    {solver : PyVal} {inst : Instance} (hcfg : CfgOk cfg) (hs : JsonText s t) (hinst : InstanceOf (pyConv toFloat) t inst) (hi : GoodInstance inst)
    (hne : pair.1 ≠ pair.2) (hbr : ∀ E, MaxBranching E (ext.branch E)) (hx : ∀ y, xrate = some y → 0 < y) (hso : EntryOk solver)
    (hf : FloatOk (pyConv toFloat) t) (hp : PlainAmounts t) (hfee : FeeReadsBack readLeaf (pyConv toFloat) t)
    (h : tokenPairText (pyConv toFloat) cfg ext s pair xrate solver = .ok s') :
    ∃ d t', tokenPairMain cfg ext inst pair xrate = .ok d ∧ JsonText s' t' ∧ InstanceOf (pyConv toFloat) t' (nextInstance inst d) ∧
      GoodInstance (nextInstance inst d) := by
  have he := tokenPairText_eq (c := pyConv toFloat) (cfg := cfg) (ext := ext) (pair := pair) (xrate := xrate) (solver := solver) hs
  obtain ⟨out, hout⟩ := text_ok he h
  obtain ⟨s2, h2, h3, h4⟩ := (text_run he (fun out ho => tokenPair_entry hcfg (entryOk_text hs) hso hf ho)).1 out hout
  cases h.symm.trans h2
  obtain ⟨d, h5, h6, h7⟩ := C92_token_pair hcfg hinst hi hne hbr hx hp hfee hout
  exact ⟨d, _, h5, h3, C65_read.1 h6, h7⟩

/-- C102. The same for the best-token-pair solver. -/
theorem C102_best_text_again {toFloat : PyVal → Py PyVal} {cfg : Config} {ext : Ext} {s s' : List Char} {t : PyVal}
    {shuffle : List (Token × Token) → List ((Token × Token) × Bool)} {solver : PyVal} {inst : Instance} (hcfg : CfgOk cfg) (hs : JsonText s t)
    (hinst : InstanceOf (pyConv toFloat) t inst) (hi : GoodInstance inst) (hbr : ∀ E, MaxBranching E (ext.branch E))
    (hsh : ∀ E, ∀ v ∈ shuffle E, v.1 ∈ E) (hso : EntryOk solver)
    (hf : FloatOk (pyConv toFloat) t) (hp : PlainAmounts t) (hfee : FeeReadsBack readLeaf (pyConv toFloat) t)
    (h : bestTokenPairText (pyConv toFloat) cfg ext s shuffle solver = .ok s') :
    ∃ d t', bestTokenPairMain cfg ext inst shuffle = .ok d ∧ JsonText s' t' ∧ InstanceOf (pyConv toFloat) t' (nextInstance inst d) ∧
      GoodInstance (nextInstance inst d) := by
  have he := bestTokenPairText_eq (c := pyConv toFloat) (cfg := cfg) (ext := ext) (shuffle := shuffle) (solver := solver) hs
  obtain ⟨out, hout⟩ := text_ok he h
  obtain ⟨s2, h2, h3, h4⟩ := (text_run he (fun out ho => bestPair_entry hcfg (entryOk_text hs) hso hf ho)).1 out hout
  cases h.symm.trans h2
  obtain ⟨d, h5, h6, h7⟩ := C92_best_pair hcfg hinst hi hbr hsh hp hfee hout
  exact ⟨d, _, h5, h3, C65_read.1 h6, h7⟩

/-! ### Examples -/

namespace ExText

/-- The instance of the example, as text. -/
def text : List Char := (["{\"accounts\": {\"A\": {\"S\": \"100000000000000000000\", \"B\": \"100000000000000000000\"},\n",
  " \"C\": {\"F\": \"100000000000000000000\", \"B\": 100000000000000000000}},\n",
  "\"orders\": [\n",
  "{\"accountID\": \"A\", \"buyToken\": \"B\", \"sellToken\": \"S\", ", "\"buyAmount\": \"10000000000000000000\", \"sellAmount\": \"20000000000000000000\", \"orderID\": 7},\n",
  "{\"accountID\": \"C\", \"buyToken\": \"S\", \"sellToken\": \"B\", ", "\"buyAmount\": \"10000000000000000000\", \"sellAmount\": \"10000000000000000000\", \"orderID\": 8},\n",
  "{\"accountID\": \"C\", \"buyToken\": \"B\", \"sellToken\": \"F\", ", "\"buyAmount\": \"1000000000000000000\", \"sellAmount\": \"2000000000000000000\", \"orderID\": 9}],\n",
  "\"fee\": {\"token\": \"F\", \"ratio\": 0.001}}"].map String.toList).flatten

mutual
def sameB : PyVal → PyVal → Bool
  | .bool a, .bool b => a == b
  | .int a, .int b => a == b
  | .frac a, .frac b => a == b
  | .dec a, .dec b => a == b
  | .str a, .str b => a == b
  | .other a, .other b => a == b
  | .list a, .list b => sameListB a b
  | .tuple a, .tuple b => sameListB a b
  | .dict a, .dict b => sameDictB a b
  | _, _ => false
def sameListB : List PyVal → List PyVal → Bool
  | [], [] => true
  | v :: a, w :: b => sameB v w && sameListB a b
  | _, _ => false
def sameDictB : List (String × PyVal) → List (String × PyVal) → Bool
  | [], [] => true
  | (k, v) :: a, (k', w) :: b => k == k' && sameB v w && sameDictB a b
  | _, _ => false
end

mutual
theorem sameB_eq : ∀ v w : PyVal, sameB v w = true → v = w
  | .list a, w, h => by
    cases w <;> unfold sameB at h <;> try cases h
    rw [sameListB_eq _ _ h]
  | .tuple a, w, h => by
    cases w <;> unfold sameB at h <;> try cases h
    rw [sameListB_eq _ _ h]
  | .dict a, w, h => by
    cases w <;> unfold sameB at h <;> try cases h
    rw [sameDictB_eq _ _ h]
  | .bool _, w, h => by cases w <;> simp_all [sameB]
  | .int _, w, h => by cases w <;> simp_all [sameB]
  | .frac _, w, h => by cases w <;> simp_all [sameB]
  | .dec _, w, h => by cases w <;> simp_all [sameB]
  | .str _, w, h => by cases w <;> simp_all [sameB]
  | .other _, w, h => by cases w <;> simp_all [sameB]
theorem sameListB_eq : ∀ a b : List PyVal, sameListB a b = true → a = b
  | [], b, h => by cases b <;> simp_all [sameListB]
  | v :: a, b, h => by
    cases b with
    | nil => simp [sameListB] at h
    | cons w b =>
      unfold sameListB at h
      rw [Bool.and_eq_true] at h
      rw [sameB_eq _ _ h.1, sameListB_eq _ _ h.2]
theorem sameDictB_eq : ∀ a b : List (String × PyVal), sameDictB a b = true → a = b
  | [], b, h => by cases b <;> simp_all [sameDictB]
  | (k, v) :: a, b, h => by
    cases b with
    | nil => simp [sameDictB] at h
    | cons w b =>
      obtain ⟨k', w⟩ := w
      unfold sameDictB at h
      rw [Bool.and_eq_true, Bool.and_eq_true, beq_iff_eq] at h
      rw [h.1.1, sameB_eq _ _ h.1.2, sameDictB_eq _ _ h.2]
end

theorem reads : JsonText text (ExJson.tree []) := by
  rw [← C100_read]
  have : (match jsonLoads text with | .ok v => sameB v (ExJson.tree []) | .error _ => false) = true := by decide +kernel
  cases h : jsonLoads text with
  | error e => rw [h] at this; cases this
  | ok v => rw [h] at this; rw [sameB_eq _ _ this]

theorem number_leaf {s : String} (h : (match scanNumber s.toList with | .ok (_, []) => true | _ => false) = true)
    (hp : ∀ c ∈ s.toList, ' ' ≤ c ∧ c ≤ '~') : IsJsonLeaf s := by
  rcases scanNumber_spec s.toList with ⟨v, r, p, h1, h2, _, h3⟩ | h1
  · rw [h1] at h
    cases r with
    | cons c r => cases h
    | nil =>
      rw [List.append_nil] at h2
      rw [← h2] at h3
      exact ⟨⟨v, .number _ _ h3⟩, plain_of hp⟩
  · rw [h1] at h; cases h

theorem solver_ok : EntryOk ExJson.solver := by
  refine entryOk_dict.2 ⟨by decide, ?_⟩
  intro p hp
  simp only [List.mem_cons, List.not_mem_nil, or_false] at hp
  rcases hp with rfl | rfl | rfl | rfl
  · exact entryOk_str _
  · exact entryOk_list.2 (by simp [entryOk_str])
  · exact entryOk_other (number_leaf (by decide +kernel) (by decide +kernel))
  · exact entryOk_str _

theorem float_ok : FloatOk ExReread.conv (ExJson.tree []) := by
  intro fee r x h1 h2 h3
  cases h1
  cases h2
  cases h3
  exact entryOk_other (number_leaf (by decide +kernel) (by decide +kernel))

theorem fee : FeeReadsBack readLeaf ExReread.conv (ExJson.tree []) := by
  intro fee r x q h1 h2 h3 h4
  cases h1
  cases h2
  cases h3
  cases h4
  decide +kernel

/-- The program run on the text of the instance writes a text; that text is again an instance, with the three orders and other balances. -/
example : ∃ s' t' inst', tokenPairText ExReread.conv Config.default ExInst.ext text ("B", "S") none ExJson.solver = .ok s' ∧ JsonText s' t' ∧ PlainText s' ∧
    InstanceOf ExReread.conv t' inst' ∧ GoodInstance inst' ∧ inst'.orders = ExInst.inst.orders := by
  obtain ⟨out, h, hb⟩ := exists_of_pyCheck (x := tokenPairJson ExReread.conv Config.default ExInst.ext (ExJson.tree []) ("B", "S") none ExJson.solver)
    (p := fun out => pyCheck (readInstance ExReread.conv (reload readLeaf out.file)) (fun inst' : Instance => inst'.orders = ExInst.inst.orders) = true) (by decide +kernel)
  have he := tokenPairText_eq (c := ExReread.conv) (cfg := Config.default) (ext := ExInst.ext) (pair := ("B", "S")) (xrate := none) (solver := ExJson.solver) reads
  obtain ⟨s', h1, h2, h3⟩ := (text_run he (fun out ho => tokenPair_entry ExJson.cfg_ok (entryOk_text reads) solver_ok float_ok ho)).1 out h
  obtain ⟨d, t', h4, h5, h6, h7⟩ := C102_text_again ExJson.cfg_ok reads ExReread.reads ExInst.good (by decide) ExInst.branch_max (by simp) solver_ok float_ok
    ExReread.plain fee h1
  obtain ⟨i, h8, h9⟩ := exists_of_pyCheck hb
  refine ⟨s', t', _, h1, h5, h3, h6, h7, ?_⟩
  rw [C100_unambiguous h5 h2] at h6
  cases h8.symm.trans (C65_read.2 h6)
  exact h9

/-- A text cut off in the middle is refused. -/
example : ∃ e, tokenPairText ExReread.conv Config.default ExInst.ext (text.take 40) ("B", "S") none ExJson.solver = .error (.json e) := by
  refine (C102_not_json ?_ _).1 _ _
  rintro ⟨t, ht⟩
  rw [← C100_read] at ht
  have : (match jsonLoads (text.take 40) with | .ok _ => true | .error _ => false) = false := by decide +kernel
  rw [ht] at this
  cases this

end ExText

end Dex
