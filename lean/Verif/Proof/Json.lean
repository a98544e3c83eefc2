import Verif.Model.Json
import Verif.Proof.Rel
import Verif.Props.Util
import Verif.Props.Dump

/-! # Lemmas about the tree level of reading and writing -/

namespace Dex

namespace Spec

/-- `v[k]`, if `v` is a dict with that key. -/
def field : PyVal → String → Option PyVal
  | .dict d, k => (d.find? (fun p => decide (p.1 = k))).map (·.2)
  | _, _ => none

/-- The balance written for account `a` and token `t`. -/
def entry (accounts : PyVal) (a t : String) : Option PyVal := (field accounts a).bind (fun d => field d t)

/-- What is needed of `Fraction(v)` and `int(v)`: right on `int`, `Fraction` and the decimal text of an integer, and `int` truncates
what `Fraction` reads. -/
structure ConvOk (c : Conv) : Prop where
  toF_int : ∀ n : ℤ, c.toF (.int n) = .ok n
  toF_frac : ∀ q : ℚ, c.toF (.frac q) = .ok q
  toF_text : ∀ n : ℤ, c.toF (.str (toString n)) = .ok n
  toInt_int : ∀ n : ℤ, c.toInt (.int n) = .ok n
  toInt_frac : ∀ q : ℚ, c.toInt (.frac q) = .ok (trunc q)
  toInt_text : ∀ n : ℤ, c.toInt (.str (toString n)) = .ok n
  agree : ∀ v q n, c.toF v = .ok q → c.toInt v = .ok n → n = trunc q

end Spec

open Spec

theorem field_dict (d : Dict String PyVal) (k : String) : field (.dict d) k = dictGet? d k := rfl

theorem getItem_eq_ok {v : PyVal} {k : String} {x : PyVal} : getItem v k = .ok x ↔ field v k = some x := by
  cases v with
  | dict d => rw [field_dict]; unfold getItem; simp
  | _ => simp [getItem, field]

theorem getItem_of {v : PyVal} {k : String} {x : PyVal} (h : field v k = some x) : getItem v k = .ok x := getItem_eq_ok.2 h

theorem setItem_eq_ok {v : PyVal} {k : String} {x v' : PyVal} : setItem v k x = .ok v' ↔ ∃ d, v = .dict d ∧ v' = .dict (dictSet d k x) := by
  cases v with
  | dict d => unfold setItem; simp [eq_comm]
  | _ => simp [setItem]

theorem field_set (d : Dict String PyVal) (k : String) (x : PyVal) (k' : String) :
    field (.dict (dictSet d k x)) k' = if k = k' then some x else field (.dict d) k' := by
  rw [field_dict, dictGet?_dictSet]
  rfl

theorem asDict_eq_ok {v : PyVal} {d : Dict String PyVal} : asDict v = .ok d ↔ v = .dict d := by
  cases v <;> simp [asDict]

theorem asText_eq_ok {v : PyVal} {s : String} : asText v = .ok s ↔ v = .str s := by
  cases v <;> simp [asText]

theorem field_some_dict {v : PyVal} {k : String} {x : PyVal} (h : field v k = some x) : ∃ d, v = .dict d := by
  cases v with
  | dict d => exact ⟨d, rfl⟩
  | _ => cases h

theorem field_stringify (v : PyVal) (k : String) : field (stringifyNumeric v) k = (field v k).map stringifyNumeric := by
  cases v with
  | dict d =>
    rw [stringify_dict]
    dsimp only [field]
    rw [List.find?_map]
    cases h : List.find? (fun p => decide (p.1 = k)) d with
    | none =>
      have : List.find? ((fun p : String × PyVal => decide (p.1 = k)) ∘ fun p : String × PyVal => (p.1, stringifyNumeric p.2)) d = none := h
      rw [this]; rfl
    | some p =>
      have : List.find? ((fun p : String × PyVal => decide (p.1 = k)) ∘ fun p : String × PyVal => (p.1, stringifyNumeric p.2)) d = some p := h
      rw [this]; rfl
  | list l => rw [stringify_list]; rfl
  | tuple l => rw [stringify_tuple]; rfl
  | bool b => cases b <;> rfl
  | int n => rfl
  | frac q => rfl
  | dec q => rfl
  | str s => rfl
  | other t => rfl

/-! ### Balances -/

/-- A number of the instance with an integral value. -/
def NumVal (v : PyVal) (q : ℚ) : Prop := IsInt q ∧ (v = .frac q ∨ ∃ n : ℤ, v = .int n ∧ q = n)

theorem NumVal.conv {c : Conv} (hc : ConvOk c) {v : PyVal} {q : ℚ} (h : NumVal v q) : c.toF v = .ok q ∧ c.toInt v = .ok (pyInt q) := by
  obtain ⟨_, rfl | ⟨n, rfl, rfl⟩⟩ := h
  · exact ⟨hc.toF_frac _, hc.toInt_frac _⟩
  · refine ⟨hc.toF_int _, ?_⟩
    rw [hc.toInt_int, pyInt_eq_trunc]
    congr 1
    have := trunc_isInt (isInt_iff.2 ⟨n, rfl⟩ : IsInt (n : ℚ))
    exact_mod_cast this.symm

theorem NumVal.text {v : PyVal} {q : ℚ} (h : NumVal v q) : ∃ n : ℤ, q = n ∧ stringifyNumeric v = .str (toString n) := by
  obtain ⟨hi, rfl | ⟨n, rfl, rfl⟩⟩ := h
  · obtain ⟨n, rfl⟩ := isInt_iff.1 hi
    exact ⟨n, rfl, C45_integral_fraction n⟩
  · exact ⟨n, rfl, rfl⟩

theorem NumVal.int (n : ℤ) : NumVal (.int n) n := ⟨isInt_iff.2 ⟨n, rfl⟩, .inr ⟨n, rfl, rfl⟩⟩

/-- A balance of the instance or of the updated accounts: both conversions read it, and it is an integral number or the original value. -/
def EntryRel (c : Conv) (x0 : Option PyVal) (v : PyVal) (q : ℚ) : Prop :=
  c.toF v = .ok q ∧ c.toInt v = .ok (pyInt q) ∧ (NumVal v q ∨ x0 = some v)

/-- The balances of one account. -/
def DRel (c : Conv) (x0 : String → Option PyVal) (d : Dict String PyVal) (e : Dict Token ℚ) : Prop :=
  ∀ t, (dictGet? e t = none → dictGet? d t = none) ∧ ∀ q, dictGet? e t = some q → ∃ v, dictGet? d t = some v ∧ EntryRel c (x0 t) v q

/-- The balance of `t` is an integral number. -/
def NumAt (d : Dict String PyVal) (e : Dict Token ℚ) (t : Token) : Prop :=
  ∃ v q, dictGet? d t = some v ∧ dictGet? e t = some q ∧ NumVal v q

theorem DRel.set {c : Conv} (hc : ConvOk c) {x0 : String → Option PyVal} {d : Dict String PyVal} {e : Dict Token ℚ} (h : DRel c x0 d e)
    {v : PyVal} {q : ℚ} (hv : NumVal v q) (t : Token) : DRel c x0 (dictSet d t v) (dictSet e t q) := by
  intro t'
  rw [dictGet?_dictSet, dictGet?_dictSet]
  split
  · refine ⟨by simp, ?_⟩
    intro q' hq
    cases hq
    exact ⟨v, rfl, (hv.conv hc).1, (hv.conv hc).2, .inl hv⟩
  · exact h t'

theorem NumAt.set {d : Dict String PyVal} {e : Dict Token ℚ} {t' : Token} (h : NumAt d e t') {v : PyVal} {q : ℚ} (hv : NumVal v q) (t : Token) :
    NumAt (dictSet d t v) (dictSet e t q) t' := by
  unfold NumAt
  rw [dictGet?_dictSet, dictGet?_dictSet]
  split
  · exact ⟨v, q, rfl, rfl, hv⟩
  · exact h

theorem NumAt.self {d : Dict String PyVal} {e : Dict Token ℚ} {v : PyVal} {q : ℚ} (hv : NumVal v q) (t : Token) :
    NumAt (dictSet d t v) (dictSet e t q) t := by
  unfold NumAt
  rw [dictGet?_dictSet, dictGet?_dictSet]
  simp [hv]

theorem DRel.read {c : Conv} {x0 : String → Option PyVal} {d : Dict String PyVal} {e : Dict Token ℚ} (h : DRel c x0 d e) (t : Token) :
    RelE (EntryRel c (x0 t)) (dictGet d t) (dictGet e t) := by
  unfold dictGet
  cases he : dictGet? e t with
  | none => rw [(h t).1 he]; exact rfl
  | some q =>
    obtain ⟨v, hv, hr⟩ := (h t).2 q he
    rw [hv]; exact hr

theorem addNum_rel {v : PyVal} {q x : ℚ} (h : NumVal v q) (hx : IsInt x) : ∃ v', addNum v x = .ok v' ∧ NumVal v' (q + x) := by
  obtain ⟨hi, rfl | ⟨n, rfl, rfl⟩⟩ := h
  · exact ⟨_, rfl, hi.add hx, .inl rfl⟩
  · exact ⟨_, rfl, hi.add hx, .inl rfl⟩

/-- All balances. -/
structure AccRel (c : Conv) (A0 A : PyVal) (acc : Accounts) : Prop where
  dict : ∃ d, A = .dict d
  none : ∀ a, dictGet? acc a = none → field A a = none
  some : ∀ a e, dictGet? acc a = some e → ∃ d, field A a = some (.dict d) ∧ DRel c (entry A0 a) d e

/-- The balance of account `a` and token `t` is an integral number. -/
def NumEntry (A : PyVal) (acc : Accounts) (a : AccountId) (t : Token) : Prop :=
  ∃ d e, field A a = some (.dict d) ∧ dictGet? acc a = some e ∧ NumAt d e t

theorem updateTreeStep_rel {c : Conv} (hc : ConvOk c) {A0 A : PyVal} {acc : Accounts} (h : AccRel c A0 A acc) {o : Order} (hb : IsInt o.buy)
    (hs : IsInt o.sell) : RelE (fun A' acc' => AccRel c A0 A' acc' ∧ (∀ a, o.accountId = some a → NumEntry A' acc' a o.sellToken ∧
      NumEntry A' acc' a o.buyToken) ∧ ∀ a t, NumEntry A acc a t → NumEntry A' acc' a t) (updateTreeStep c A o) (updateAccountStep acc o) := by
  unfold updateTreeStep updateAccountStep
  cases ha : o.accountId with
  | none => exact rfl
  | some a =>
    dsimp only
    obtain ⟨D, rfl⟩ := h.dict
    cases hacc : dictGet? acc a with
    | none =>
      have := h.none a hacc
      have e1 : getItem (.dict D) a = .error .keyError := by
        rw [field_dict] at this
        show dictGet D a = _
        unfold dictGet
        rw [this]
      have e2 : dictGet acc a = .error .keyError := by unfold dictGet; rw [hacc]
      rw [e1, e2]; exact rfl
    | some e =>
      obtain ⟨d, hd, hrel⟩ := h.some a e hacc
      rw [getItem_of hd, dictGet_of hacc, ok_bind, ok_bind]
      show RelE _ (pure d >>= _) _
      rw [show (pure d : Py (Dict String PyVal)) = .ok d from rfl, ok_bind]
      -- the entry of the bought token
      obtain ⟨d1, e1, hd1, he1, hr1, hk1⟩ : ∃ d1 e1, ensureVal d o.buyToken = d1 ∧ ensureEntry e o.buyToken = e1 ∧ DRel c (entry A0 a) d1 e1 ∧
          ∀ t, NumAt d e t → NumAt d1 e1 t := by
        unfold ensureEntry ensureVal
        cases he : dictGet? e o.buyToken with
        | none =>
          rw [(hrel _).1 he]
          have h0 : NumVal (.int 0) (0 : ℚ) := by simpa using NumVal.int 0
          exact ⟨_, _, rfl, rfl, hrel.set hc h0 _, fun t ht => ht.set h0 _⟩
        | some q =>
          obtain ⟨v, hv, _⟩ := (hrel _).2 q he
          rw [hv]
          exact ⟨_, _, rfl, rfl, hrel, fun t ht => ht⟩
      rw [hd1, he1]
      refine RelE.bind (hr1.read _) ?_
      intro vb qb hvb
      rw [hvb.2.1, ok_bind]
      have hn1 := NumVal.int (pyInt qb)
      have hr2 := hr1.set hc hn1 o.buyToken
      refine RelE.bind (hr2.read _) ?_
      intro vs qs hvs
      rw [hvs.2.1, ok_bind]
      have hn2 := NumVal.int (pyInt qs)
      have hr3 := hr2.set hc hn2 o.sellToken
      have hB : NumAt (dictSet (dictSet d1 o.buyToken (.int (pyInt qb))) o.sellToken (.int (pyInt qs)))
          (dictSet (dictSet e1 o.buyToken (pyInt qb : ℚ)) o.sellToken (pyInt qs : ℚ)) o.buyToken := (NumAt.self hn1 _).set hn2 _
      obtain ⟨vb3, qb3, g1, g2, g3⟩ := hB
      rw [dictGet_of g1, dictGet_of g2, ok_bind, ok_bind]
      obtain ⟨vb4, g4, g5⟩ := addNum_rel g3 hb
      rw [g4, ok_bind]
      have hr4 := hr3.set hc g5 o.buyToken
      obtain ⟨vs3, qs3, f1, f2, f3⟩ := (NumAt.self (d := dictSet d1 o.buyToken (.int (pyInt qb))) (e := dictSet e1 o.buyToken (pyInt qb : ℚ))
        hn2 o.sellToken).set g5 o.buyToken
      rw [dictGet_of f1, dictGet_of f2, ok_bind, ok_bind]
      obtain ⟨vs4, f4, f5⟩ := addNum_rel f3 (x := -o.sell) (by obtain ⟨n, hn⟩ := isInt_iff.1 hs; exact isInt_iff.2 ⟨-n, by rw [hn]; push_cast; ring⟩)
      rw [f4, ok_bind]
      rw [show qs3 + -o.sell = qs3 - o.sell by ring] at f5
      have hr5 := hr4.set hc f5 o.sellToken
      show RelE _ (.ok _) (.ok _)
      refine ⟨⟨⟨_, rfl⟩, ?_, ?_⟩, ?_, ?_⟩
      · intro a' ha'
        rw [dictGet?_dictSet] at ha'
        rw [field_set]
        split at ha'
        · cases ha'
        · rename_i hne; rw [if_neg hne]; exact h.none a' ha'
      · intro a' e' ha'
        rw [dictGet?_dictSet] at ha'
        rw [field_set]
        split at ha'
        · rename_i hne; subst hne; cases ha'; rw [if_pos rfl]; exact ⟨_, rfl, hr5⟩
        · rename_i hne; rw [if_neg hne]; exact h.some a' e' ha'
      · intro a' ha'
        cases ha'
        refine ⟨⟨_, _, by rw [field_set, if_pos rfl], by rw [dictGet?_dictSet, if_pos rfl], NumAt.self f5 _⟩,
          ⟨_, _, by rw [field_set, if_pos rfl], by rw [dictGet?_dictSet, if_pos rfl], (NumAt.self g5 _).set f5 _⟩⟩
      · intro a' t ⟨d', e', h1, h2, h3⟩
        unfold NumEntry
        rw [field_set, dictGet?_dictSet]
        split
        · rename_i hne; subst hne
          rw [hd] at h1; rw [hacc] at h2
          cases h1; cases h2
          exact ⟨_, _, rfl, rfl, ((((hk1 t h3).set hn1 _).set hn2 _).set g5 _).set f5 _⟩
        · exact ⟨d', e', h1, h2, h3⟩

theorem updateTree_rel {c : Conv} (hc : ConvOk c) {A0 : PyVal} (L : List Order) : ∀ {A : PyVal} {acc : Accounts}, AccRel c A0 A acc →
    (∀ o ∈ L, IsInt o.buy ∧ IsInt o.sell) → RelE (fun A' acc' => AccRel c A0 A' acc' ∧ (∀ o ∈ L, ∀ a, o.accountId = some a →
      NumEntry A' acc' a o.sellToken ∧ NumEntry A' acc' a o.buyToken) ∧ ∀ a t, NumEntry A acc a t → NumEntry A' acc' a t)
      (updateTree c A L) (updateAccounts acc L) := by
  induction L with
  | nil => intro A acc h _; exact ⟨h, by simp, fun _ _ h => h⟩
  | cons o L ih =>
    intro A acc h hint
    unfold updateTree updateAccounts foldE
    refine RelE.bind (updateTreeStep_rel hc h (hint o (by simp)).1 (hint o (by simp)).2) ?_
    intro A1 acc1 ⟨r1, r2, r3⟩
    refine RelE.mono (ih r1 (fun o ho => hint o (by simp [ho]))) ?_
    intro A2 acc2 ⟨s1, s2, s3⟩
    refine ⟨s1, ?_, fun a t ht => s3 a t (r3 a t ht)⟩
    intro o' ho' a ha
    rcases List.mem_cons.1 ho' with rfl | ho'
    · exact ⟨s3 _ _ (r2 a ha).1, s3 _ _ (r2 a ha).2⟩
    · exact s2 o' ho' a ha

/-! ### Objective values -/

theorem metrics_congr {prices : Prices} {A B : Accounts} {fee : Fee} (L : List Order) (h : ∀ o ∈ L, balanceUpdated A o = balanceUpdated B o) :
    ∀ m, foldE (metricsStep prices A fee) m L = foldE (metricsStep prices B fee) m L := by
  induction L with
  | nil => intro m; rfl
  | cons o L ih =>
    intro m
    have e : metricsStep prices A fee m o = metricsStep prices B fee m o := by
      unfold metricsStep; rw [h o (by simp)]
    unfold foldE
    rw [e]
    congr 1
    funext m'
    exact ih (fun o ho => h o (by simp [ho])) m'

theorem dictGet?_map_snd {α β : Type} (f : α → β) (d : Dict String α) (k : String) :
    dictGet? (d.map (fun p => (p.1, f p.2))) k = (dictGet? d k).map f := by
  induction d with
  | nil => rfl
  | cons p d ih =>
    rw [List.map_cons, dictGet?_cons, dictGet?_cons, ih]
    split <;> rfl

theorem dictGet?_filterMap {α β : Type} (f : α → Option β) {d : Dict String α} {k : String} {v : α} {x : β} (h : dictGet? d k = some v)
    (hx : f v = some x) : dictGet? (d.filterMap (fun p => (f p.2).map (fun y => (p.1, y)))) k = some x := by
  induction d with
  | nil => cases h
  | cons p d ih =>
    rw [dictGet?_cons] at h
    split at h
    · rename_i hp
      cases h
      rw [List.filterMap_cons, hx]
      simp [dictGet?_cons, hp]
    · rename_i hp
      rw [List.filterMap_cons]
      cases hf : f p.2 with
      | none => simpa using ih h
      | some y =>
        simp only [Option.map_some]
        rw [dictGet?_cons, if_neg hp]
        exact ih h

theorem NumVal.num {v : PyVal} {q : ℚ} (h : NumVal v q) : num? v = some q ∧ numberOf v = .ok q := by
  obtain ⟨_, rfl | ⟨n, rfl, rfl⟩⟩ := h <;> exact ⟨rfl, rfl⟩

theorem numbersOf_get {D : Dict String PyVal} {a : String} {d : Dict String PyVal} (h : field (.dict D) a = some (.dict d)) :
    dictGet? (numbersOf (.dict D)) a = some (d.filterMap (fun p => (num? p.2).map (fun y => (p.1, y)))) := by
  show dictGet? (D.map (fun p => (p.1, accountNumbers p.2))) a = _
  rw [dictGet?_map_snd accountNumbers D a]
  rw [field_dict] at h
  rw [h]
  rfl

theorem numEntry_balance {A : PyVal} {acc : Accounts} (hA : ∃ d, A = .dict d) {o : Order} {a : AccountId} (ha : o.accountId = some a)
    (h : NumEntry A acc a o.sellToken) : balanceUpdated (numbersOf A) o = balanceUpdated acc o ∧ ∃ q, treeBalance A o = .ok q := by
  obtain ⟨D, rfl⟩ := hA
  obtain ⟨d, e, h1, h2, v, q, h3, h4, h5⟩ := h
  constructor
  · unfold balanceUpdated
    rw [ha]
    dsimp only
    rw [dictGet_of (numbersOf_get h1), dictGet_of h2, ok_bind, ok_bind, h4, dictGet?_filterMap num? h3 h5.num.1]
  · refine ⟨q, ?_⟩
    unfold treeBalance
    rw [ha]
    dsimp only
    rw [getItem_of h1, ok_bind]
    show (pure d >>= _) = _
    rw [show (pure d : Py (Dict String PyVal)) = .ok d from rfl, ok_bind, h3]
    exact h5.num.2

/-! ### Reading -/

theorem forall₂_dict {α β : Type} {R : α → β → Prop} {d : Dict String α} {e : Dict String β}
    (h : List.Forall₂ (fun p q => p.1 = q.1 ∧ R p.2 q.2) d e) (k : String) :
    (dictGet? e k = none → dictGet? d k = none) ∧ ∀ y, dictGet? e k = some y → ∃ x, dictGet? d k = some x ∧ R x y := by
  induction h with
  | nil => exact ⟨fun _ => rfl, fun y hy => (by cases hy)⟩
  | cons r _ ih =>
    rename_i p q d e _
    rw [dictGet?_cons, dictGet?_cons, r.1]
    split
    · exact ⟨fun h => (by cases h), fun y hy => ⟨p.2, rfl, by cases hy; exact r.2⟩⟩
    · exact ih

theorem readAccounts_rel {c : Conv} (hc : ConvOk c) {A : PyVal} {acc : Accounts} (h : readAccounts c A = .ok acc) : AccRel c A A acc := by
  unfold readAccounts at h
  rw [bind_eq_ok] at h
  obtain ⟨D, hD, h⟩ := h
  rw [asDict_eq_ok] at hD
  subst hD
  have h1 : List.Forall₂ (fun (p : String × PyVal) (q : String × Dict Token ℚ) => p.1 = q.1 ∧
      ∃ d, p.2 = .dict d ∧ List.Forall₂ (fun (x : String × PyVal) (y : String × ℚ) => x.1 = y.1 ∧ c.toF x.2 = .ok y.2 ∧
        c.toInt x.2 = .ok (pyInt y.2)) d q.2) D acc := by
    refine (mapE_eq_ok_forall₂.1 h).imp ?_
    intro p q hpq
    unfold readAccount at hpq
    simp only [bind_eq_ok, asDict_eq_ok] at hpq
    obtain ⟨d, hd, l, hl, e⟩ := hpq
    cases e
    refine ⟨rfl, d, hd, (mapE_eq_ok_forall₂.1 hl).imp ?_⟩
    intro x y hxy
    unfold readBalance at hxy
    simp only [bind_eq_ok] at hxy
    obtain ⟨q, ⟨q', h1, n, h2, e1⟩, e2⟩ := hxy
    cases e1
    cases e2
    refine ⟨rfl, h1, ?_⟩
    rw [h2, hc.agree _ _ _ h1 h2]
    rfl
  have h2 := forall₂_dict (R := fun (v : PyVal) (q : Dict Token ℚ) => ∃ d, v = .dict d ∧ List.Forall₂ (fun (x : String × PyVal) (y : String × ℚ) =>
    x.1 = y.1 ∧ c.toF x.2 = .ok y.2 ∧ c.toInt x.2 = .ok (pyInt y.2)) d q) h1
  refine ⟨⟨D, rfl⟩, ?_, ?_⟩
  · intro a ha
    exact (h2 a).1 ha
  · intro a e ha
    obtain ⟨x, hx, d, rfl, hd⟩ := (h2 a).2 e ha
    refine ⟨d, hx, ?_⟩
    intro t
    obtain ⟨g1, g2⟩ := forall₂_dict (R := fun x y => c.toF x = .ok y ∧ c.toInt x = .ok (pyInt y)) hd t
    refine ⟨g1, ?_⟩
    intro q hq
    obtain ⟨v, hv, g3, g4⟩ := g2 q hq
    refine ⟨v, hv, g3, g4, .inr ?_⟩
    unfold entry
    rw [field_dict, hx]
    exact hv

/-- What has been read. -/
structure Reads (c : Conv) (t : PyVal) (inst : Instance) (A : PyVal) (raws : List PyVal) (feeVal ratioVal : PyVal) : Prop where
  accounts : field t "accounts" = some A
  accRel : AccRel c A A inst.accounts
  orders : ∃ v, field t "orders" = some v ∧ elements v = .ok raws
  order : List.Forall₂ (fun raw d => readOrder c raw = .ok d) raws inst.orders
  fee : field t "fee" = some feeVal
  ratio : field feeVal "ratio" = some ratioVal
  value : c.toF ratioVal = .ok inst.fee.value

theorem readInstance_reads {c : Conv} (hc : ConvOk c) {t : PyVal} {inst : Instance} (h : readInstance c t = .ok inst) :
    ∃ A raws fee ratio, Reads c t inst A raws fee ratio := by
  unfold readInstance readFee at h
  simp only [bind_eq_ok, getItem_eq_ok] at h
  obtain ⟨A, h1, acc, h2, v, h3, raws, h4, ds, h5, fee, h6, fee', ⟨tok, h7, tk, h8, ratio, h9, val, h10, e1⟩, e2⟩ := h
  cases e1
  cases e2
  exact ⟨A, raws, fee, ratio, h1, readAccounts_rel hc h2, ⟨v, h3, h4⟩, mapE_eq_ok_forall₂.1 h5, h6, h9, h10⟩

theorem readOrder_dict {c : Conv} {raw : PyVal} {d : OrderDict} (h : readOrder c raw = .ok d) : ∃ l, raw = .dict l := by
  unfold readOrder at h
  rw [bind_eq_ok] at h
  obtain ⟨v, h1, _⟩ := h
  exact field_some_dict (getItem_eq_ok.1 h1)

/-! ### Writing -/

theorem originalVals_get (ds : List PyVal) : ∀ i k : ℕ, dictGet? (originalVals i ds) (toString (i + k)) = ds[k]? := by
  induction ds with
  | nil => intro i k; rfl
  | cons d ds ih =>
    intro i k
    unfold originalVals
    rw [dictGet?_cons]
    cases k with
    | zero => simp
    | succ k =>
      have : ¬ toString i = toString (i + (k + 1)) := fun h => by have := toString_nat_inj h; omega
      rw [if_neg this, show i + (k + 1) = (i + 1) + k by omega, ih (i + 1) k]
      simp

/-- `v` is the `k`-th order object of the instance with the executed amounts of `o` added. -/
def WrittenTree (raws : List PyVal) (o : Order) (k : ℕ) (v : PyVal) : Prop :=
  ∃ l, raws[k]? = some (.dict l) ∧
    v = .dict (dictSet (dictSet l "execSellAmount" (.str (pyStrFrac o.sell))) "execBuyAmount" (.str (pyStrFrac o.buy)))

theorem writeOrder_of {c : Conv} {raws : List PyVal} {ds : List OrderDict} (h : List.Forall₂ (fun raw d => readOrder c raw = .ok d) raws ds)
    {o : Order} {k : ℕ} (hk : o.id = toString k) (hd : k < ds.length) : ∃ v, writeOrder (originalVals 0 raws) o = .ok v ∧ WrittenTree raws o k v := by
  have hlt : k < raws.length := by rw [h.length_eq]; exact hd
  obtain ⟨l, hl⟩ := readOrder_dict (h.get hlt hd)
  have hg := originalVals_get raws 0 k
  rw [Nat.zero_add, List.getElem?_eq_getElem hlt, ← hk] at hg
  have hl' : raws[k] = .dict l := hl
  rw [hl'] at hg
  refine ⟨_, ?_, l, by rw [List.getElem?_eq_getElem hlt, hl'], rfl⟩
  unfold writeOrder
  rw [dictGet_of hg]
  rfl

theorem mapE_writeOrder {c : Conv} {raws : List PyVal} {ds : List OrderDict} (h : List.Forall₂ (fun raw d => readOrder c raw = .ok d) raws ds)
    {L : List Order} {ks : List ℕ} (hk : L.map (·.id) = ks.map toString) (hd : ∀ k ∈ ks, k < ds.length) :
    ∃ l, mapE (writeOrder (originalVals 0 raws)) L = .ok l ∧ List.Forall₂ (fun p v => WrittenTree raws p.1 p.2 v) (L.zip ks) l := by
  induction L generalizing ks with
  | nil =>
    exact ⟨[], rfl, by simp⟩
  | cons o L ih =>
    cases ks with
    | nil => simp at hk
    | cons k ks =>
      simp only [List.map_cons, List.cons.injEq] at hk
      obtain ⟨l, h1, h2⟩ := ih hk.2 (fun k hk => hd k (by simp [hk]))
      obtain ⟨v, h3, h4⟩ := writeOrder_of h hk.1 (hd k (by simp))
      refine ⟨v :: l, ?_, .cons h4 h2⟩
      unfold mapE
      rw [h3, ok_bind, h1]
      rfl

theorem mapE_ok_of {α β : Type} {f : α → Py β} {L : List α} (h : ∀ a ∈ L, ∃ b, f a = .ok b) : ∃ l, mapE f L = .ok l := by
  induction L with
  | nil => exact ⟨[], rfl⟩
  | cons a L ih =>
    obtain ⟨l, hl⟩ := ih (fun a ha => h a (by simp [ha]))
    obtain ⟨b, hb⟩ := h a (by simp)
    refine ⟨b :: l, ?_⟩
    unfold mapE
    rw [hb, ok_bind, hl]
    rfl

/-- The instance after the first part of `dump_solution`. -/
structure SolTree (c : Conv) (t : PyVal) (A : PyVal) (raws : List PyVal) (sol : Solution) (d : Dump) (ks : List ℕ) (t' : PyVal) : Prop where
  shape : ∃ T A' l, t = .dict T ∧ updateTree c A sol.orders = .ok A' ∧ t' = .dict (dictSet (dictSet (dictSet (dictSet T "prices" (pricesVal d.prices))
    "accounts" A') "objVals" (metricsVal d.objVals)) "orders" (.list l))
  rest : ∀ k, k ≠ "prices" → k ≠ "accounts" → k ≠ "objVals" → k ≠ "orders" → field t' k = field t k
  prices : field t' "prices" = some (pricesVal d.prices)
  objVals : field t' "objVals" = some (metricsVal d.objVals)
  accounts : ∃ A', field t' "accounts" = some A' ∧ AccRel c A A' d.accounts ∧
    ∀ o ∈ sol.orders, ∀ a, o.accountId = some a → NumEntry A' d.accounts a o.sellToken ∧ NumEntry A' d.accounts a o.buyToken
  orders : ∃ l, field t' "orders" = some (.list l) ∧
    List.Forall₂ (fun p v => WrittenTree raws p.1 p.2 v) ((dumpList sol.orders).zip ks) l

theorem solutionTree_of {c : Conv} (hc : ConvOk c) {t : PyVal} {inst : Instance} {A : PyVal} {raws : List PyVal} {fee ratio : PyVal}
    (hr : Reads c t inst A raws fee ratio) {sol : Solution} {d : Dump} (hd : dumpSolution inst sol = .ok d)
    (hint : ∀ o ∈ sol.orders, IsInt o.buy ∧ IsInt o.sell) (hacc : ∀ o ∈ sol.orders, ∃ a, o.accountId = some a) {ks : List ℕ}
    (hk : (dumpList sol.orders).map (·.id) = ks.map toString) (hlt : ∀ k ∈ ks, k < inst.orders.length) :
    ∃ t', solutionTree c t sol inst.fee = .ok t' ∧ SolTree c t A raws sol d ks t' := by
  unfold dumpSolution at hd
  simp only [bind_eq_ok] at hd
  obtain ⟨acc, h1, m, h2, ds, h3, e⟩ := hd
  cases e
  have hu := updateTree_rel hc sol.orders hr.accRel hint
  rw [h1] at hu
  cases hA : updateTree c A sol.orders with
  | error e => rw [hA] at hu; exact hu.elim
  | ok A' =>
    rw [hA] at hu
    obtain ⟨r1, r2, _⟩ : AccRel c A A' acc ∧ (∀ o ∈ sol.orders, ∀ a, o.accountId = some a →
      NumEntry A' acc a o.sellToken ∧ NumEntry A' acc a o.buyToken) ∧ _ := hu
    have hbal : ∀ o ∈ sol.orders, balanceUpdated (numbersOf A') o = balanceUpdated acc o ∧ ∃ q, treeBalance A' o = .ok q := by
      intro o ho
      obtain ⟨a, ha⟩ := hacc o ho
      exact numEntry_balance r1.dict ha (r2 o ho a ha).1
    obtain ⟨bs, hbs⟩ := mapE_ok_of (fun o ho => (hbal o ho).2)
    have hm : computeSolutionMetrics sol.prices (numbersOf A') sol.orders inst.fee = .ok m := by
      unfold computeSolutionMetrics
      rw [metrics_congr _ (fun o ho => (hbal o ho).1)]
      exact h2
    obtain ⟨l, hl, hw⟩ := mapE_writeOrder hr.order hk hlt
    obtain ⟨T, rfl⟩ := field_some_dict hr.accounts
    obtain ⟨v, hv1, hv2⟩ := hr.orders
    refine ⟨.dict (dictSet (dictSet (dictSet (dictSet T "prices" (pricesVal sol.prices)) "accounts" A') "objVals" (metricsVal m)) "orders" (.list l)),
      ?_, ⟨T, A', l, rfl, hA, rfl⟩, ?_, ?_, ?_, ⟨A', ?_, r1, r2⟩, l, ?_, hw⟩
    · unfold solutionTree
      rw [show setItem (.dict T) "prices" (pricesVal sol.prices) = .ok (.dict (dictSet T "prices" (pricesVal sol.prices))) from rfl, ok_bind,
        getItem_of (x := A) (by rw [field_set, if_neg (by decide)]; exact hr.accounts), ok_bind, hA, ok_bind]
      rw [show setItem (.dict (dictSet T "prices" (pricesVal sol.prices))) "accounts" A' =
        .ok (.dict (dictSet (dictSet T "prices" (pricesVal sol.prices)) "accounts" A')) from rfl, ok_bind, hbs, ok_bind, hm, ok_bind]
      rw [show setItem (.dict (dictSet (dictSet T "prices" (pricesVal sol.prices)) "accounts" A')) "objVals" (metricsVal m) =
        .ok (.dict (dictSet (dictSet (dictSet T "prices" (pricesVal sol.prices)) "accounts" A') "objVals" (metricsVal m))) from rfl, ok_bind]
      dsimp only
      rw [getItem_of (x := v) (by rw [field_set, if_neg (by decide), field_set, if_neg (by decide), field_set, if_neg (by decide)]; exact hv1), ok_bind,
        hv2, ok_bind]
      show (mapE (writeOrder (originalVals 0 raws)) (dumpList sol.orders) >>= _) = _
      rw [hl, ok_bind]
      rfl
    · intro k k1 k2 k3 k4
      rw [field_set, if_neg k4.symm, field_set, if_neg k3.symm, field_set, if_neg k2.symm, field_set, if_neg k1.symm]
    · rw [field_set, if_neg (by decide), field_set, if_neg (by decide), field_set, if_neg (by decide), field_set, if_pos rfl]
    · rw [field_set, if_neg (by decide), field_set, if_pos rfl]
    · rw [field_set, if_neg (by decide), field_set, if_neg (by decide), field_set, if_pos rfl]
    · rw [field_set, if_pos rfl]

end Dex
