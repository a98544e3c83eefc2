import Verif.Model.Best
import Verif.Spec.Solution
import Verif.Proof.Basic

/-! # Related computations: the matching functions read no stale executed amounts

`RelE R x y`: both computations raise the same exception, or both return and the values are related by `R`. -/

namespace Dex

open Spec

/-- Same exception, or related values. -/
def RelE {α β : Type} (R : α → β → Prop) : Py α → Py β → Prop
  | .ok a, .ok b => R a b
  | .error e, .error e' => e = e'
  | _, _ => False

namespace RelE

variable {α β γ δ : Type} {R : α → β → Prop} {Q : γ → δ → Prop}

theorem pure' {a : α} {b : β} (h : R a b) : RelE R (pure a) (pure b) := h

theorem bind {x : Py α} {y : Py β} {f : α → Py γ} {g : β → Py δ} (h : RelE R x y) (hfg : ∀ a b, R a b → RelE Q (f a) (g b)) :
    RelE Q (x >>= f) (y >>= g) := by
  cases x with
  | error e => cases y with
    | error e' => exact h
    | ok b => exact h.elim
  | ok a => cases y with
    | error e' => exact h.elim
    | ok b => exact hfg a b h

theorem mono {R' : α → β → Prop} {x : Py α} {y : Py β} (h : RelE R x y) (hR : ∀ a b, R a b → R' a b) : RelE R' x y := by
  cases x <;> cases y <;> first | exact h | exact hR _ _ h

theorem refl {R : α → α → Prop} (hR : ∀ a, R a a) (x : Py α) : RelE R x x := by
  cases x with
  | error e => rfl
  | ok a => exact hR a

theorem of_eq {x y : Py α} (h : x = y) : RelE Eq x y := h ▸ refl (fun _ => Eq.refl _) x

theorem to_eq {x y : Py α} (h : RelE Eq x y) : x = y := by
  cases x <;> cases y
  · exact congrArg _ h
  · exact h.elim
  · exact h.elim
  · exact congrArg _ h

/-- The same first computation. -/
theorem bind_same {x : Py α} {f : α → Py γ} {g : α → Py δ} (hfg : ∀ a, RelE Q (f a) (g a)) : RelE Q (x >>= f) (x >>= g) :=
  bind (of_eq rfl) (fun a _ h => h ▸ hfg a)

/-- The same first computation, whose value is known. -/
theorem bind_same' {x : Py α} {f : α → Py γ} {g : α → Py δ} (hfg : ∀ a, x = .ok a → RelE Q (f a) (g a)) : RelE Q (x >>= f) (x >>= g) := by
  cases x with
  | error e => rfl
  | ok a => exact hfg a rfl

theorem ite {c c' : Prop} [Decidable c] [Decidable c'] {x x' : Py α} {y y' : Py β} (hc : c ↔ c') (h1 : c → RelE R x y) (h2 : ¬ c → RelE R x' y') :
    RelE R (if c then x else x') (if c' then y else y') := by
  by_cases h : c
  · rw [if_pos h, if_pos (hc.1 h)]; exact h1 h
  · rw [if_neg h, if_neg (fun h' => h (hc.2 h'))]; exact h2 h

theorem ok_iff {x : Py α} {y : Py β} (h : RelE R x y) {a : α} (hx : x = .ok a) : ∃ b, y = .ok b ∧ R a b := by
  subst hx
  cases y with
  | error e => exact h.elim
  | ok b => exact ⟨b, rfl, h⟩

end RelE

/-! ### Lists -/

section Lists

variable {α β γ δ : Type} {R : α → β → Prop} {Q : γ → δ → Prop}

theorem mapE_rel {f : α → Py γ} {g : β → Py δ} {l : List α} {l' : List β} (h : List.Forall₂ R l l') (hfg : ∀ a b, R a b → RelE Q (f a) (g b)) :
    RelE (List.Forall₂ Q) (mapE f l) (mapE g l') := by
  induction h with
  | nil => exact List.Forall₂.nil
  | cons h _ ih =>
    unfold mapE
    refine RelE.bind (hfg _ _ h) fun a b hab => RelE.bind ih fun as bs h' => ?_
    exact List.Forall₂.cons hab h'

theorem filterE_rel {f : α → Py Bool} {g : β → Py Bool} {l : List α} {l' : List β} (h : List.Forall₂ R l l') (hfg : ∀ a b, R a b → f a = g b) :
    RelE (List.Forall₂ R) (filterE f l) (filterE g l') := by
  induction h with
  | nil => exact List.Forall₂.nil
  | cons h _ ih =>
    unfold filterE
    rw [hfg _ _ h]
    refine RelE.bind_same fun b => RelE.bind ih fun as bs h' => ?_
    cases b
    · exact h'
    · exact List.Forall₂.cons h h'

theorem sumE_rel {f : α → Py ℚ} {g : β → Py ℚ} {l : List α} {l' : List β} (h : List.Forall₂ R l l') (hfg : ∀ a b, R a b → f a = g b) :
    sumE f l = sumE g l' := by
  induction h with
  | nil => rfl
  | cons h _ ih => unfold sumE; rw [hfg _ _ h, ih]

theorem map_rel {f : α → γ} {g : β → γ} {l : List α} {l' : List β} (h : List.Forall₂ R l l') (hfg : ∀ a b, R a b → f a = g b) :
    l.map f = l'.map g := by
  induction h with
  | nil => rfl
  | cons h _ ih => rw [List.map_cons, List.map_cons, hfg _ _ h, ih]

theorem countP_rel {f : α → Bool} {g : β → Bool} {l : List α} {l' : List β} (h : List.Forall₂ R l l') (hfg : ∀ a b, R a b → f a = g b) :
    l.countP f = l'.countP g := by
  induction h with
  | nil => rfl
  | cons h _ ih => rw [List.countP_cons, List.countP_cons, hfg _ _ h, ih]

theorem filter_rel {f : α → Bool} {g : β → Bool} {l : List α} {l' : List β} (h : List.Forall₂ R l l') (hfg : ∀ a b, R a b → f a = g b) :
    List.Forall₂ R (l.filter f) (l'.filter g) := by
  induction h with
  | nil => exact List.Forall₂.nil
  | cons h _ ih =>
    rw [List.filter_cons, List.filter_cons, hfg _ _ h]
    split
    · exact List.Forall₂.cons h ih
    · exact ih

theorem map_forall₂ {f : α → γ} {g : β → δ} {l : List α} {l' : List β} (h : List.Forall₂ R l l') (hfg : ∀ a b, R a b → Q (f a) (g b)) :
    List.Forall₂ Q (l.map f) (l'.map g) := by
  induction h with
  | nil => exact List.Forall₂.nil
  | cons h _ ih => exact List.Forall₂.cons (hfg _ _ h) ih

theorem append_rel {l1 l2 : List α} {m1 m2 : List β} (h1 : List.Forall₂ R l1 m1) (h2 : List.Forall₂ R l2 m2) :
    List.Forall₂ R (l1 ++ l2) (m1 ++ m2) := by
  induction h1 with
  | nil => exact h2
  | cons h _ ih => exact List.Forall₂.cons h ih

theorem getElem?_rel {l : List α} {l' : List β} (h : List.Forall₂ R l l') (k : ℕ) :
    (l[k]? = none ∧ l'[k]? = none) ∨ ∃ a b, l[k]? = some a ∧ l'[k]? = some b ∧ R a b := by
  induction h generalizing k with
  | nil => exact .inl ⟨rfl, rfl⟩
  | cons h _ ih =>
    cases k with
    | zero => exact .inr ⟨_, _, rfl, rfl, h⟩
    | succ k => exact ih k

theorem pyGet_rel {l : List α} {l' : List β} (h : List.Forall₂ R l l') (i : ℤ) : RelE R (pyGet l i) (pyGet l' i) := by
  unfold pyGet
  rw [h.length_eq]
  cases pyIndex l'.length i with
  | error e => rfl
  | ok k =>
    rcases getElem?_rel h k with ⟨h1, h2⟩ | ⟨a, b, h1, h2, h3⟩
    · simp only [h1, h2]; rfl
    · simp only [h1, h2]; exact h3

theorem modify_rel {f : α → α} {g : β → β} {l : List α} {l' : List β} (h : List.Forall₂ R l l') (hfg : ∀ a b, R a b → R (f a) (g b)) (k : ℕ) :
    List.Forall₂ R (l.modify k f) (l'.modify k g) := by
  induction h generalizing k with
  | nil => simp
  | cons h ht ih =>
    cases k with
    | zero => exact List.Forall₂.cons (hfg _ _ h) ht
    | succ k => exact List.Forall₂.cons h (ih k)

theorem pyModify_rel {f : α → α} {g : β → β} {l : List α} {l' : List β} (h : List.Forall₂ R l l') (i : ℤ) (hfg : ∀ a b, R a b → R (f a) (g b)) :
    RelE (List.Forall₂ R) (pyModify l i f) (pyModify l' i g) := by
  unfold pyModify
  rw [h.length_eq]
  cases pyIndex l'.length i with
  | error e => rfl
  | ok k => exact modify_rel h hfg k

theorem insertionSort_rel {r : α → α → Prop} [DecidableRel r] {r' : β → β → Prop} [DecidableRel r'] {l : List α} {l' : List β}
    (h : List.Forall₂ R l l') (hr : ∀ a b a' b', R a b → R a' b' → (r a a' ↔ r' b b')) :
    List.Forall₂ R (l.insertionSort r) (l'.insertionSort r') := by
  have hins : ∀ {a : α} {b : β} {l : List α} {l' : List β}, R a b → List.Forall₂ R l l' →
      List.Forall₂ R (l.orderedInsert r a) (l'.orderedInsert r' b) := by
    intro a b l l' hab h
    induction h with
    | nil => exact List.Forall₂.cons hab List.Forall₂.nil
    | @cons a' b' l l' h ht ih =>
      by_cases hc : r a a'
      · rw [List.orderedInsert_cons_of_le _ _ hc, List.orderedInsert_cons_of_le _ _ ((hr _ _ _ _ hab h).1 hc)]
        exact List.Forall₂.cons hab (List.Forall₂.cons h ht)
      · rw [List.orderedInsert_of_not_le _ _ hc, List.orderedInsert_of_not_le _ _ (fun hc' => hc ((hr _ _ _ _ hab h).2 hc'))]
        exact List.Forall₂.cons h ih
  induction h with
  | nil => exact List.Forall₂.nil
  | cons h _ ih => exact hins h ih

theorem find?_rel {p : α → Bool} {q : β → Bool} {l : List α} {l' : List β} (h : List.Forall₂ R l l') (hpq : ∀ a b, R a b → p a = q b) :
    (l.find? p = none ∧ l'.find? q = none) ∨ ∃ a b, l.find? p = some a ∧ l'.find? q = some b ∧ R a b := by
  induction h with
  | nil => exact .inl ⟨rfl, rfl⟩
  | cons h _ ih =>
    rw [List.find?_cons, List.find?_cons, hpq _ _ h]
    split
    · exact .inr ⟨_, _, rfl, rfl, h⟩
    · exact ih

end Lists

/-! ### Orders -/

/-- Same order up to the sell amount. -/
def SameButSell (o o' : Order) : Prop := ∃ v, o' = { o with sell := v }

theorem sameButExec_iff {o o' : Order} : SameButExec o o' ↔ ∃ u v, o' = { o with buy := u, sell := v } := by
  unfold SameButExec
  constructor
  · intro h; exact ⟨_, _, h⟩
  · rintro ⟨u, v, rfl⟩; rfl

theorem SameButSell.exec {o o' : Order} (h : SameButSell o o') : SameButExec o o' := by
  obtain ⟨v, rfl⟩ := h; rfl

/-- Lists of orders that agree up to executed amounts. -/
abbrev RelB (l l' : List Order) : Prop := List.Forall₂ SameButExec l l'

/-- Lists of orders that agree up to sell amounts. -/
abbrev RelS (l l' : List Order) : Prop := List.Forall₂ SameButSell l l'

theorem RelS.exec {l l' : List Order} (h : RelS l l') : RelB l l' := h.imp fun _ _ => SameButSell.exec

theorem writeBack_rel {R : Order → Order → Prop} (hid : ∀ a b, R a b → a.id = b.id) {l l' u u' : List Order} (h : List.Forall₂ R l l')
    (hu : List.Forall₂ R u u') : List.Forall₂ R (writeBack l u) (writeBack l' u') := by
  unfold writeBack
  refine map_forall₂ h fun a b hab => ?_
  rcases find?_rel (p := fun u => decide (u.id = a.id)) (q := fun u => decide (u.id = b.id)) hu
    (fun c d hcd => by rw [hid _ _ hcd, hid _ _ hab]) with ⟨h1, h2⟩ | ⟨c, d, h1, h2, h3⟩
  · rw [h1, h2]; exact hab
  · rw [h1, h2]; exact h3

theorem sorted_rel {R : Order → Order → Prop} (hR : ∀ a b, R a b → SameButExec a b) {l l' : List Order} (h : List.Forall₂ R l l') :
    List.Forall₂ R (sortedByExecPriority l) (sortedByExecPriority l') := by
  unfold sortedByExecPriority
  refine insertionSort_rel h fun a b a' b' h1 h2 => ?_
  obtain ⟨_, _, rfl⟩ := sameButExec_iff.1 (hR _ _ h1)
  obtain ⟨_, _, rfl⟩ := sameButExec_iff.1 (hR _ _ h2)
  exact Iff.rfl

/-! ### compute_buy_amounts -/

/-- Related states of the execution loops. -/
structure RelX (st st' : ExecState) : Prop where
  bi : st.bi = st'.bi
  si : st.si = st'.si
  b : RelS st.b st'.b
  s : RelS st.s st'.s

theorem addBuy_rel (d : ℚ) (a b : Order) (h : SameButSell a b) : SameButSell (Order.addBuy d a) (Order.addBuy d b) := by
  obtain ⟨v, rfl⟩ := h; exact ⟨v, rfl⟩

theorem subBuy_rel (d : ℚ) (a b : Order) (h : SameButSell a b) : SameButSell (Order.subBuy d a) (Order.subBuy d b) := by
  obtain ⟨v, rfl⟩ := h; exact ⟨v, rfl⟩

theorem clearBuy_rel (a b : Order) (h : SameButSell a b) : SameButSell (Order.clearBuy a) (Order.clearBuy b) := by
  obtain ⟨v, rfl⟩ := h; exact ⟨v, rfl⟩

theorem executeOrderPair_rel {x : ℚ} {fee : Fee} {st st' : ExecState} (h : RelX st st') :
    RelE RelX (executeOrderPair x fee st) (executeOrderPair x fee st') := by
  obtain ⟨bi, si, b, s⟩ := st
  obtain ⟨bi', si', b', s'⟩ := st'
  obtain ⟨rfl, rfl, hb, hs⟩ := h
  unfold executeOrderPair
  refine RelE.bind (pyGet_rel hb bi) fun bo bo' h1 => RelE.bind (pyGet_rel hs si) fun so so' h2 => ?_
  obtain ⟨v, rfl⟩ := h1
  obtain ⟨w, rfl⟩ := h2
  refine RelE.bind_same fun bMax => RelE.bind_same fun sMax => RelE.bind_same fun _ => RelE.bind_same fun bFromS => RelE.bind_same fun sFromB => ?_
  refine RelE.ite Iff.rfl (fun _ => ?_) (fun _ => RelE.ite Iff.rfl (fun _ => ?_) (fun _ => ?_))
  all_goals
    refine RelE.bind (pyModify_rel hb bi (addBuy_rel _)) fun b1 b2 hb' => RelE.bind (pyModify_rel hs si (addBuy_rel _)) fun s1 s2 hs' => ?_
    exact RelX.mk rfl rfl hb' hs'

theorem undoOrderPair_rel {x : ℚ} {fee : Fee} {st st' : ExecState} (h : RelX st st') :
    RelE RelX (undoOrderPair x fee st) (undoOrderPair x fee st') := by
  obtain ⟨bi, si, b, s⟩ := st
  obtain ⟨bi', si', b', s'⟩ := st'
  obtain ⟨rfl, rfl, hb, hs⟩ := h
  unfold undoOrderPair
  refine RelE.bind (pyGet_rel hb bi) fun bo bo' h1 => RelE.bind (pyGet_rel hs si) fun so so' h2 => ?_
  obtain ⟨v, rfl⟩ := h1
  obtain ⟨w, rfl⟩ := h2
  refine RelE.bind_same fun _ => RelE.bind_same fun bFromS => RelE.bind_same fun sFromB => ?_
  refine RelE.ite Iff.rfl (fun _ => ?_) (fun _ => RelE.ite Iff.rfl (fun _ => ?_) (fun _ => ?_))
  · refine RelE.bind (pyModify_rel hb bi clearBuy_rel) fun b1 b2 hb' => RelE.bind (pyModify_rel hs si (subBuy_rel _)) fun s1 s2 hs' => ?_
    exact RelX.mk rfl rfl hb' hs'
  · refine RelE.bind (pyModify_rel hb bi (subBuy_rel _)) fun b1 b2 hb' => RelE.bind (pyModify_rel hs si clearBuy_rel) fun s1 s2 hs' => ?_
    exact RelX.mk rfl rfl hb' hs'
  · refine RelE.bind (pyModify_rel hb bi clearBuy_rel) fun b1 b2 hb' => RelE.bind (pyModify_rel hs si clearBuy_rel) fun s1 s2 hs' => ?_
    exact RelX.mk rfl rfl hb' hs'

theorem removeBuyLoop_rel {fuel : ℕ} {i : ℤ} {l l' : List Order} {amt : ℚ} (h : RelS l l') :
    RelE (fun r r' : ℤ × List Order => r.1 = r'.1 ∧ RelS r.2 r'.2) (removeBuyLoop fuel i l amt) (removeBuyLoop fuel i l' amt) := by
  induction fuel generalizing i l l' amt with
  | zero => rfl
  | succ fuel ih =>
    unfold removeBuyLoop
    refine RelE.ite Iff.rfl (fun _ => ?_) (fun _ => ⟨rfl, h⟩)
    refine RelE.bind_same fun _ => RelE.bind (pyGet_rel h i) fun o o' ho => ?_
    obtain ⟨v, rfl⟩ := ho
    refine RelE.bind (pyModify_rel h i (subBuy_rel _)) fun l1 l2 hl => RelE.bind (pyGet_rel hl i) fun u u' hu => ?_
    obtain ⟨w, rfl⟩ := hu
    exact ih hl

theorem undoB_rel {x : ℚ} {fee : Fee} {st st' : ExecState} (h : RelX st st') : RelE RelX (undoB x fee st) (undoB x fee st') := by
  obtain ⟨bi, si, b, s⟩ := st
  obtain ⟨bi', si', b', s'⟩ := st'
  obtain ⟨rfl, rfl, hb, hs⟩ := h
  unfold undoB
  refine RelE.bind (pyGet_rel hb bi) fun bo bo' h1 => ?_
  obtain ⟨v, rfl⟩ := h1
  refine RelE.bind_same fun amt => ?_
  refine RelE.bind (R := fun r r' : ℤ × List Order => r.1 = r'.1 ∧ RelS r.2 r'.2) ?_ fun r r' hr => ?_
  · unfold removeBuyAmount
    rw [hs.length_eq]
    exact removeBuyLoop_rel hs
  · obtain ⟨i, l⟩ := r
    obtain ⟨i', l'⟩ := r'
    obtain ⟨rfl, hl⟩ := hr
    refine RelE.bind (pyModify_rel hb bi clearBuy_rel) fun b1 b2 hb' => RelE.bind_same fun _ => ?_
    exact RelX.mk rfl rfl hb' hl

theorem undoS_rel {x : ℚ} {fee : Fee} {st st' : ExecState} (h : RelX st st') : RelE RelX (undoS x fee st) (undoS x fee st') := by
  obtain ⟨bi, si, b, s⟩ := st
  obtain ⟨bi', si', b', s'⟩ := st'
  obtain ⟨rfl, rfl, hb, hs⟩ := h
  unfold undoS
  refine RelE.bind (pyGet_rel hs si) fun so so' h1 => ?_
  obtain ⟨v, rfl⟩ := h1
  refine RelE.bind_same fun amt => ?_
  refine RelE.bind (R := fun r r' : ℤ × List Order => r.1 = r'.1 ∧ RelS r.2 r'.2) ?_ fun r r' hr => ?_
  · unfold removeBuyAmount
    rw [hb.length_eq]
    exact removeBuyLoop_rel hb
  · obtain ⟨i, l⟩ := r
    obtain ⟨i', l'⟩ := r'
    obtain ⟨rfl, hl⟩ := hr
    refine RelE.bind (pyModify_rel hs si clearBuy_rel) fun b1 b2 hb' => RelE.bind_same fun _ => ?_
    exact RelX.mk rfl rfl hl hb'

/-- Related results of the undo functions. -/
abbrev RelXB (r r' : ExecState × Bool) : Prop := RelX r.1 r'.1 ∧ r.2 = r'.2

theorem undoMinB_rel {cfg : Config} {x : ℚ} {fee : Fee} {st st' : ExecState} (h : RelX st st') :
    RelE RelXB (undoMinB cfg x fee st) (undoMinB cfg x fee st') := by
  unfold undoMinB
  dsimp only
  rw [← h.bi]
  refine RelE.bind (pyGet_rel h.b st.bi) fun bo bo' h1 => ?_
  obtain ⟨v, rfl⟩ := h1
  refine RelE.bind_same fun _ => RelE.ite Iff.rfl (fun _ => ?_) (fun _ => ⟨h, rfl⟩)
  exact RelE.bind (undoB_rel h) fun _ _ h' => ⟨h', rfl⟩

theorem undoMinS_rel {cfg : Config} {x : ℚ} {fee : Fee} {st st' : ExecState} {u : Bool} (h : RelX st st') :
    RelE RelXB (undoMinS cfg x fee st u) (undoMinS cfg x fee st' u) := by
  unfold undoMinS
  dsimp only
  rw [← h.si]
  refine RelE.bind (pyGet_rel h.s st.si) fun so so' h1 => ?_
  obtain ⟨v, rfl⟩ := h1
  refine RelE.bind_same fun _ => RelE.ite Iff.rfl (fun _ => ?_) (fun _ => ⟨h, rfl⟩)
  exact RelE.bind (undoS_rel h) fun _ _ h' => ⟨h', rfl⟩

theorem undoMinTradable_rel {cfg : Config} {x : ℚ} {fee : Fee} {st st' : ExecState} (h : RelX st st') :
    RelE RelXB (undoMinTradable cfg x fee st) (undoMinTradable cfg x fee st') := by
  unfold undoMinTradable
  refine RelE.ite (by rw [h.bi]) (fun _ => ⟨h, rfl⟩) (fun _ => ?_)
  refine RelE.bind (undoMinB_rel h) fun r r' hr => ?_
  obtain ⟨st1, u⟩ := r
  obtain ⟨st2, u'⟩ := r'
  obtain ⟨hr, rfl⟩ := hr
  exact RelE.ite (by rw [hr.si]) (fun _ => ⟨hr, rfl⟩) (fun _ => undoMinS_rel hr)

theorem execLoop_rel {x : ℚ} {fee : Fee} {maxNr : ℤ} {fuel : ℕ} {st st' : ExecState} (h : RelX st st') :
    RelE RelX (execLoop x fee maxNr fuel st) (execLoop x fee maxNr fuel st') := by
  induction fuel generalizing st st' with
  | zero => rfl
  | succ fuel ih =>
    unfold execLoop
    refine RelE.ite (by rw [h.bi, h.si, h.b.length_eq, h.s.length_eq]) (fun _ => ?_) (fun _ => h)
    exact RelE.bind (executeOrderPair_rel h) fun _ _ h' => ih h'

theorem undoLoop_rel {cfg : Config} {x : ℚ} {fee : Fee} {fuel : ℕ} {st st' : ExecState} (h : RelX st st') :
    RelE RelX (undoLoop cfg x fee fuel st) (undoLoop cfg x fee fuel st') := by
  induction fuel generalizing st st' with
  | zero => rfl
  | succ fuel ih =>
    unfold undoLoop
    refine RelE.bind (undoMinTradable_rel h) fun r r' hr => ?_
    obtain ⟨st1, u⟩ := r
    obtain ⟨st2, u'⟩ := r'
    obtain ⟨hr, rfl⟩ := hr
    exact RelE.ite Iff.rfl (fun _ => ih hr) (fun _ => hr)

theorem lastExecuted_rel {l l' : List Order} {i : ℤ} (h : RelS l l') : lastExecuted l i = lastExecuted l' i := by
  refine RelE.to_eq ?_
  unfold lastExecuted
  refine RelE.ite (by rw [h.length_eq]) (fun _ => ?_) (fun _ => RelE.of_eq rfl)
  refine RelE.bind (pyGet_rel h i) fun o o' ho => ?_
  obtain ⟨v, rfl⟩ := ho
  exact RelE.of_eq rfl

/-- Related pairs of lists. -/
abbrev RelS2 (r r' : List Order × List Order) : Prop := RelS r.1 r'.1 ∧ RelS r.2 r'.2

/-- Related pairs of lists. -/
abbrev RelB2 (r r' : List Order × List Order) : Prop := RelB r.1 r'.1 ∧ RelB r.2 r'.2

theorem executeSorted_rel {cfg : Config} {x : ℚ} {fee : Fee} {maxNr : ℤ} {b b' s s' : List Order} (hb : RelS b b') (hs : RelS s s') :
    RelE RelS2 (executeSorted cfg x fee maxNr b s) (executeSorted cfg x fee maxNr b' s') := by
  unfold executeSorted
  rw [hb.length_eq, hs.length_eq]
  refine RelE.bind (execLoop_rel ⟨rfl, rfl, hb, hs⟩) fun st st' h => ?_
  rw [h.bi, h.si, lastExecuted_rel h.b]
  refine RelE.bind_same fun bi => ?_
  rw [lastExecuted_rel h.s]
  refine RelE.bind_same fun si => ?_
  dsimp only
  refine RelE.ite Iff.rfl (fun _ => RelE.bind_same fun _ => RelE.bind (undoOrderPair_rel ⟨rfl, rfl, h.b, h.s⟩) fun st1 st2 h' => ?_)
    (fun _ => RelE.bind (RelE.pure' (R := RelX) ⟨rfl, rfl, h.b, h.s⟩) fun st1 st2 h' => ?_)
  all_goals
    refine RelE.bind (undoLoop_rel h') fun st3 st4 h'' => ?_
    rw [map_rel h''.b (g := fun o => o.buy) (f := fun o => o.buy) (by rintro a b ⟨v, rfl⟩; rfl),
      map_rel h''.s (g := fun o => o.buy) (f := fun o => o.buy) (by rintro a b ⟨v, rfl⟩; rfl)]
    exact RelE.bind_same fun _ => ⟨h''.b, h''.s⟩

theorem filterMaxXrate_rel {x : ℚ} {fee : Fee} {b b' s s' : List Order} (hb : RelS b b') (hs : RelS s s') :
    RelE RelS2 (filterMaxXrate x b s fee) (filterMaxXrate x b' s' fee) := by
  unfold filterMaxXrate
  refine RelE.bind (filterE_rel hs (by rintro a b ⟨v, rfl⟩; rfl)) fun s1 s2 h => ?_
  exact ⟨filter_rel hb (by rintro a b ⟨v, rfl⟩; rfl), h⟩

theorem filterMinTradable_rel {cfg : Config} {x : ℚ} {fee : Fee} {b b' s s' : List Order} (hb : RelS b b') (hs : RelS s s') :
    RelE RelS2 (filterMinTradable cfg x b s fee) (filterMinTradable cfg x b' s' fee) := by
  unfold filterMinTradable
  refine RelE.bind (filterE_rel hb (by rintro a b ⟨v, rfl⟩; rfl)) fun b1 b2 h1 => ?_
  refine RelE.bind (filterE_rel hs (by rintro a b ⟨v, rfl⟩; rfl)) fun s1 s2 h2 => ?_
  exact ⟨h1, h2⟩

/-- `compute_buy_amounts` overwrites all buy amounts and reads no sell amount. -/
theorem computeBuyAmounts_rel {cfg : Config} {x : ℚ} {fee : Fee} {maxNr : ℤ} {b b' s s' : List Order} (hb : RelB b b') (hs : RelB s s') :
    RelE RelS2 (computeBuyAmounts cfg x b s fee maxNr) (computeBuyAmounts cfg x b' s' fee maxNr) := by
  have hclear : ∀ a b : Order, SameButExec a b → SameButSell a.clearBuy b.clearBuy := by
    intro a b h
    obtain ⟨u, v, rfl⟩ := sameButExec_iff.1 h
    exact ⟨v, rfl⟩
  have hb0 : RelS (b.map Order.clearBuy) (b'.map Order.clearBuy) := map_forall₂ hb hclear
  have hs0 : RelS (s.map Order.clearBuy) (s'.map Order.clearBuy) := map_forall₂ hs hclear
  have hid : ∀ a b, SameButSell a b → a.id = b.id := by rintro a b ⟨v, rfl⟩; rfl
  unfold computeBuyAmounts
  dsimp only
  refine RelE.bind (filterMaxXrate_rel hb0 hs0) fun r r' h1 => RelE.bind (filterMinTradable_rel h1.1 h1.2) fun q q' h2 => ?_
  refine RelE.ite (by rw [h2.1.length_eq, h2.2.length_eq]) (fun _ => ⟨hb0, hs0⟩) (fun _ => ?_)
  refine RelE.bind (executeSorted_rel (sorted_rel (fun _ _ => SameButSell.exec) h2.1) (sorted_rel (fun _ _ => SameButSell.exec) h2.2))
    fun t t' h3 => ?_
  exact ⟨writeBack_rel hid hb0 h3.1, writeBack_rel hid hs0 h3.2⟩

end Dex
