import Verif.Proof.RelMatch
import Verif.Spec.Rename

/-! # The matching functions commute with renaming tokens and accounts

Same layout as `Rel.lean` and `RelMatch.lean`, for another relation. -/

namespace Dex

open Spec

/-- The renamed order. -/
abbrev RenO (ρ : Renaming) (o o' : Order) : Prop := o' = ρ.order o

/-- The renamed list. -/
abbrev RenL (ρ : Renaming) (l l' : List Order) : Prop := List.Forall₂ (RenO ρ) l l'

variable {ρ : Renaming}

theorem renL_iff {l l' : List Order} : RenL ρ l l' ↔ l' = l.map ρ.order := by
  constructor
  · intro h
    induction h with
    | nil => rfl
    | cons h _ ih => rw [List.map_cons, h, ih]
  · rintro rfl
    induction l with
    | nil => exact List.Forall₂.nil
    | cons a l ih => exact List.Forall₂.cons rfl ih

theorem renL_map (l : List Order) : RenL ρ l (l.map ρ.order) := renL_iff.2 rfl

theorem id_ren (a b : Order) (h : RenO ρ a b) : a.id = b.id := by cases h; rfl

theorem sorted_ren {l l' : List Order} (h : RenL ρ l l') :
    RenL ρ (sortedByExecPriority l) (sortedByExecPriority l') := by
  unfold sortedByExecPriority
  refine insertionSort_rel h fun a b a' b' h1 h2 => ?_
  cases h1
  cases h2
  exact Iff.rfl

/-! ### compute_buy_amounts -/

/-- Related states of the execution loops. -/
structure RenX (ρ : Renaming) (st st' : ExecState) : Prop where
  bi : st.bi = st'.bi
  si : st.si = st'.si
  b : RenL ρ st.b st'.b
  s : RenL ρ st.s st'.s

theorem addBuy_ren (d : ℚ) (a b : Order) (h : RenO ρ a b) : RenO ρ (Order.addBuy d a) (Order.addBuy d b) := by
  cases h; rfl

theorem subBuy_ren (d : ℚ) (a b : Order) (h : RenO ρ a b) : RenO ρ (Order.subBuy d a) (Order.subBuy d b) := by
  cases h; rfl

theorem clearBuy_ren (a b : Order) (h : RenO ρ a b) : RenO ρ (Order.clearBuy a) (Order.clearBuy b) := by
  cases h; rfl

theorem executeOrderPair_ren {x : ℚ} {fee : Fee} {st st' : ExecState} (h : RenX ρ st st') :
    RelE (RenX ρ) (executeOrderPair x fee st) (executeOrderPair x (ρ.fee fee) st') := by
  obtain ⟨bi, si, b, s⟩ := st
  obtain ⟨bi', si', b', s'⟩ := st'
  obtain ⟨rfl, rfl, hb, hs⟩ := h
  unfold executeOrderPair
  refine RelE.bind (pyGet_rel hb bi) fun bo bo' h1 => RelE.bind (pyGet_rel hs si) fun so so' h2 => ?_
  cases h1
  cases h2
  refine RelE.bind_same fun bMax => RelE.bind_same fun sMax => RelE.bind_same fun _ => RelE.bind_same fun bFromS => RelE.bind_same fun sFromB => ?_
  refine RelE.ite Iff.rfl (fun _ => ?_) (fun _ => RelE.ite Iff.rfl (fun _ => ?_) (fun _ => ?_))
  all_goals
    refine RelE.bind (pyModify_rel hb bi (addBuy_ren _)) fun b1 b2 hb' => RelE.bind (pyModify_rel hs si (addBuy_ren _)) fun s1 s2 hs' => ?_
    exact RenX.mk rfl rfl hb' hs'

theorem undoOrderPair_ren {x : ℚ} {fee : Fee} {st st' : ExecState} (h : RenX ρ st st') :
    RelE (RenX ρ) (undoOrderPair x fee st) (undoOrderPair x (ρ.fee fee) st') := by
  obtain ⟨bi, si, b, s⟩ := st
  obtain ⟨bi', si', b', s'⟩ := st'
  obtain ⟨rfl, rfl, hb, hs⟩ := h
  unfold undoOrderPair
  refine RelE.bind (pyGet_rel hb bi) fun bo bo' h1 => RelE.bind (pyGet_rel hs si) fun so so' h2 => ?_
  cases h1
  cases h2
  refine RelE.bind_same fun _ => RelE.bind_same fun bFromS => RelE.bind_same fun sFromB => ?_
  refine RelE.ite Iff.rfl (fun _ => ?_) (fun _ => RelE.ite Iff.rfl (fun _ => ?_) (fun _ => ?_))
  · refine RelE.bind (pyModify_rel hb bi clearBuy_ren) fun b1 b2 hb' => RelE.bind (pyModify_rel hs si (subBuy_ren _)) fun s1 s2 hs' => ?_
    exact RenX.mk rfl rfl hb' hs'
  · refine RelE.bind (pyModify_rel hb bi (subBuy_ren _)) fun b1 b2 hb' => RelE.bind (pyModify_rel hs si clearBuy_ren) fun s1 s2 hs' => ?_
    exact RenX.mk rfl rfl hb' hs'
  · refine RelE.bind (pyModify_rel hb bi clearBuy_ren) fun b1 b2 hb' => RelE.bind (pyModify_rel hs si clearBuy_ren) fun s1 s2 hs' => ?_
    exact RenX.mk rfl rfl hb' hs'

theorem removeBuyLoop_ren {fuel : ℕ} {i : ℤ} {l l' : List Order} {amt : ℚ} (h : RenL ρ l l') :
    RelE (fun r r' : ℤ × List Order => r.1 = r'.1 ∧ RenL ρ r.2 r'.2) (removeBuyLoop fuel i l amt) (removeBuyLoop fuel i l' amt) := by
  induction fuel generalizing i l l' amt with
  | zero => rfl
  | succ fuel ih =>
    unfold removeBuyLoop
    refine RelE.ite Iff.rfl (fun _ => ?_) (fun _ => ⟨rfl, h⟩)
    refine RelE.bind_same fun _ => RelE.bind (pyGet_rel h i) fun o o' ho => ?_
    cases ho
    refine RelE.bind (pyModify_rel h i (subBuy_ren _)) fun l1 l2 hl => RelE.bind (pyGet_rel hl i) fun u u' hu => ?_
    cases hu
    exact ih hl

theorem undoB_ren {x : ℚ} {fee : Fee} {st st' : ExecState} (h : RenX ρ st st') : RelE (RenX ρ) (undoB x fee st) (undoB x (ρ.fee fee) st') := by
  obtain ⟨bi, si, b, s⟩ := st
  obtain ⟨bi', si', b', s'⟩ := st'
  obtain ⟨rfl, rfl, hb, hs⟩ := h
  unfold undoB
  refine RelE.bind (pyGet_rel hb bi) fun bo bo' h1 => ?_
  cases h1
  refine RelE.bind_same fun amt => ?_
  refine RelE.bind (R := fun r r' : ℤ × List Order => r.1 = r'.1 ∧ RenL ρ r.2 r'.2) ?_ fun r r' hr => ?_
  · unfold removeBuyAmount
    rw [hs.length_eq]
    exact removeBuyLoop_ren hs
  · obtain ⟨i, l⟩ := r
    obtain ⟨i', l'⟩ := r'
    obtain ⟨rfl, hl⟩ := hr
    refine RelE.bind (pyModify_rel hb bi clearBuy_ren) fun b1 b2 hb' => RelE.bind_same fun _ => ?_
    exact RenX.mk rfl rfl hb' hl

theorem undoS_ren {x : ℚ} {fee : Fee} {st st' : ExecState} (h : RenX ρ st st') : RelE (RenX ρ) (undoS x fee st) (undoS x (ρ.fee fee) st') := by
  obtain ⟨bi, si, b, s⟩ := st
  obtain ⟨bi', si', b', s'⟩ := st'
  obtain ⟨rfl, rfl, hb, hs⟩ := h
  unfold undoS
  refine RelE.bind (pyGet_rel hs si) fun so so' h1 => ?_
  cases h1
  refine RelE.bind_same fun amt => ?_
  refine RelE.bind (R := fun r r' : ℤ × List Order => r.1 = r'.1 ∧ RenL ρ r.2 r'.2) ?_ fun r r' hr => ?_
  · unfold removeBuyAmount
    rw [hb.length_eq]
    exact removeBuyLoop_ren hb
  · obtain ⟨i, l⟩ := r
    obtain ⟨i', l'⟩ := r'
    obtain ⟨rfl, hl⟩ := hr
    refine RelE.bind (pyModify_rel hs si clearBuy_ren) fun b1 b2 hb' => RelE.bind_same fun _ => ?_
    exact RenX.mk rfl rfl hl hb'

/-- Related results of the undo functions. -/
abbrev RenXB (ρ : Renaming) (r r' : ExecState × Bool) : Prop := RenX ρ r.1 r'.1 ∧ r.2 = r'.2

theorem undoMinB_ren {cfg : Config} {x : ℚ} {fee : Fee} {st st' : ExecState} (h : RenX ρ st st') :
    RelE (RenXB ρ) (undoMinB cfg x fee st) (undoMinB cfg x (ρ.fee fee) st') := by
  unfold undoMinB
  dsimp only
  rw [← h.bi]
  refine RelE.bind (pyGet_rel h.b st.bi) fun bo bo' h1 => ?_
  cases h1
  refine RelE.bind_same fun _ => RelE.ite Iff.rfl (fun _ => ?_) (fun _ => ⟨h, rfl⟩)
  exact RelE.bind (undoB_ren h) fun _ _ h' => ⟨h', rfl⟩

theorem undoMinS_ren {cfg : Config} {x : ℚ} {fee : Fee} {st st' : ExecState} {u : Bool} (h : RenX ρ st st') :
    RelE (RenXB ρ) (undoMinS cfg x fee st u) (undoMinS cfg x (ρ.fee fee) st' u) := by
  unfold undoMinS
  dsimp only
  rw [← h.si]
  refine RelE.bind (pyGet_rel h.s st.si) fun so so' h1 => ?_
  cases h1
  refine RelE.bind_same fun _ => RelE.ite Iff.rfl (fun _ => ?_) (fun _ => ⟨h, rfl⟩)
  exact RelE.bind (undoS_ren h) fun _ _ h' => ⟨h', rfl⟩

theorem undoMinTradable_ren {cfg : Config} {x : ℚ} {fee : Fee} {st st' : ExecState} (h : RenX ρ st st') :
    RelE (RenXB ρ) (undoMinTradable cfg x fee st) (undoMinTradable cfg x (ρ.fee fee) st') := by
  unfold undoMinTradable
  refine RelE.ite (by rw [h.bi]) (fun _ => ⟨h, rfl⟩) (fun _ => ?_)
  refine RelE.bind (undoMinB_ren h) fun r r' hr => ?_
  obtain ⟨st1, u⟩ := r
  obtain ⟨st2, u'⟩ := r'
  obtain ⟨hr, rfl⟩ := hr
  exact RelE.ite (by rw [hr.si]) (fun _ => ⟨hr, rfl⟩) (fun _ => undoMinS_ren hr)

theorem execLoop_ren {x : ℚ} {fee : Fee} {maxNr : ℤ} {fuel : ℕ} {st st' : ExecState} (h : RenX ρ st st') :
    RelE (RenX ρ) (execLoop x fee maxNr fuel st) (execLoop x (ρ.fee fee) maxNr fuel st') := by
  induction fuel generalizing st st' with
  | zero => rfl
  | succ fuel ih =>
    unfold execLoop
    refine RelE.ite (by rw [h.bi, h.si, h.b.length_eq, h.s.length_eq]) (fun _ => ?_) (fun _ => h)
    exact RelE.bind (executeOrderPair_ren h) fun _ _ h' => ih h'

theorem undoLoop_ren {cfg : Config} {x : ℚ} {fee : Fee} {fuel : ℕ} {st st' : ExecState} (h : RenX ρ st st') :
    RelE (RenX ρ) (undoLoop cfg x fee fuel st) (undoLoop cfg x (ρ.fee fee) fuel st') := by
  induction fuel generalizing st st' with
  | zero => rfl
  | succ fuel ih =>
    unfold undoLoop
    refine RelE.bind (undoMinTradable_ren h) fun r r' hr => ?_
    obtain ⟨st1, u⟩ := r
    obtain ⟨st2, u'⟩ := r'
    obtain ⟨hr, rfl⟩ := hr
    exact RelE.ite Iff.rfl (fun _ => ih hr) (fun _ => hr)

theorem lastExecuted_ren {l l' : List Order} {i : ℤ} (h : RenL ρ l l') : lastExecuted l i = lastExecuted l' i := by
  refine RelE.to_eq ?_
  unfold lastExecuted
  refine RelE.ite (by rw [h.length_eq]) (fun _ => ?_) (fun _ => RelE.of_eq rfl)
  refine RelE.bind (pyGet_rel h i) fun o o' ho => ?_
  cases ho
  exact RelE.of_eq rfl

/-- Related pairs of lists. -/
abbrev RenL2 (ρ : Renaming) (r r' : List Order × List Order) : Prop := RenL ρ r.1 r'.1 ∧ RenL ρ r.2 r'.2

theorem executeSorted_ren {cfg : Config} {x : ℚ} {fee : Fee} {maxNr : ℤ} {b b' s s' : List Order} (hb : RenL ρ b b') (hs : RenL ρ s s') :
    RelE (RenL2 ρ) (executeSorted cfg x fee maxNr b s) (executeSorted cfg x (ρ.fee fee) maxNr b' s') := by
  unfold executeSorted
  rw [hb.length_eq, hs.length_eq]
  refine RelE.bind (execLoop_ren ⟨rfl, rfl, hb, hs⟩) fun st st' h => ?_
  rw [h.bi, h.si, lastExecuted_ren h.b]
  refine RelE.bind_same fun bi => ?_
  rw [lastExecuted_ren h.s]
  refine RelE.bind_same fun si => ?_
  dsimp only
  refine RelE.ite Iff.rfl (fun _ => RelE.bind_same fun _ => RelE.bind (undoOrderPair_ren ⟨rfl, rfl, h.b, h.s⟩) fun st1 st2 h' => ?_)
    (fun _ => RelE.bind (RelE.pure' (R := RenX ρ) ⟨rfl, rfl, h.b, h.s⟩) fun st1 st2 h' => ?_)
  all_goals
    refine RelE.bind (undoLoop_ren h') fun st3 st4 h'' => ?_
    rw [map_rel h''.b (g := fun o => o.buy) (f := fun o => o.buy) (by rintro a _ rfl; rfl),
      map_rel h''.s (g := fun o => o.buy) (f := fun o => o.buy) (by rintro a _ rfl; rfl)]
    exact RelE.bind_same fun _ => ⟨h''.b, h''.s⟩

theorem filterMaxXrate_ren {x : ℚ} {fee : Fee} {b b' s s' : List Order} (hb : RenL ρ b b') (hs : RenL ρ s s') :
    RelE (RenL2 ρ) (filterMaxXrate x b s fee) (filterMaxXrate x b' s' (ρ.fee fee)) := by
  unfold filterMaxXrate
  refine RelE.bind (filterE_rel hs (by rintro a _ rfl; rfl)) fun s1 s2 h => ?_
  exact ⟨filter_rel hb (by rintro a _ rfl; rfl), h⟩

theorem filterMinTradable_ren {cfg : Config} {x : ℚ} {fee : Fee} {b b' s s' : List Order} (hb : RenL ρ b b') (hs : RenL ρ s s') :
    RelE (RenL2 ρ) (filterMinTradable cfg x b s fee) (filterMinTradable cfg x b' s' (ρ.fee fee)) := by
  unfold filterMinTradable
  refine RelE.bind (filterE_rel hb (by rintro a _ rfl; rfl)) fun b1 b2 h1 => ?_
  refine RelE.bind (filterE_rel hs (by rintro a _ rfl; rfl)) fun s1 s2 h2 => ?_
  exact ⟨h1, h2⟩

/-- `compute_buy_amounts` overwrites all buy amounts and reads no sell amount. -/
theorem computeBuyAmounts_ren {cfg : Config} {x : ℚ} {fee : Fee} {maxNr : ℤ} {b b' s s' : List Order} (hb : RenL ρ b b') (hs : RenL ρ s s') :
    RelE (RenL2 ρ) (computeBuyAmounts cfg x b s fee maxNr) (computeBuyAmounts cfg x b' s' (ρ.fee fee) maxNr) := by
  have hclear : ∀ a b : Order, RenO ρ a b → RenO ρ a.clearBuy b.clearBuy := by
    intro a b h
    cases h
    rfl
  have hb0 : RenL ρ (b.map Order.clearBuy) (b'.map Order.clearBuy) := map_forall₂ hb hclear
  have hs0 : RenL ρ (s.map Order.clearBuy) (s'.map Order.clearBuy) := map_forall₂ hs hclear
  have hid : ∀ a b, RenO ρ a b → a.id = b.id := by rintro a _ rfl; rfl
  unfold computeBuyAmounts
  dsimp only
  refine RelE.bind (filterMaxXrate_ren hb0 hs0) fun r r' h1 => RelE.bind (filterMinTradable_ren h1.1 h1.2) fun q q' h2 => ?_
  refine RelE.ite (by rw [h2.1.length_eq, h2.2.length_eq]) (fun _ => ⟨hb0, hs0⟩) (fun _ => ?_)
  refine RelE.bind (executeSorted_ren (sorted_ren h2.1) (sorted_ren h2.2))
    fun t t' h3 => ?_
  exact ⟨writeBack_rel hid hb0 h3.1, writeBack_rel hid hs0 h3.2⟩

theorem maxSells_ren {l l' : List Order} (h : RenL ρ l l') : l.map (·.maxSell) = l'.map (·.maxSell) :=
  map_rel h (by intro a b hab; cases hab; rfl)

theorem maxXrates_ren {l l' : List Order} (h : RenL ρ l l') : l.map (·.maxXrate) = l'.map (·.maxXrate) :=
  map_rel h (by intro a b hab; cases hab; rfl)

theorem buys_ren {l l' : List Order} (h : RenL ρ l l') : l.map (·.buy) = l'.map (·.buy) :=
  map_rel h (by rintro a _ rfl; rfl)

theorem countNrExec_ren {l l' : List Order} (h : RenL ρ l l') : countNrExec l = countNrExec l' :=
  countP_rel h (by rintro a _ rfl; rfl)

theorem prune_ren {fee : Fee} {b b' s s' : List Order} (hb : RenL ρ b b') (hs : RenL ρ s s') :
    RelE (RenL2 ρ) (pruneUnrealizable b s fee) (pruneUnrealizable b' s' (ρ.fee fee)) := by
  unfold pruneUnrealizable
  dsimp only
  rw [maxXrates_ren hb, maxXrates_ren hs]
  refine RelE.bind_same fun bMax => RelE.bind_same fun sMax => ?_
  refine RelE.bind (filterE_rel hb (by intro a b hab; cases hab; rfl)) fun b1 b2 h1 => ?_
  refine RelE.bind (filterE_rel hs (by intro a b hab; cases hab; rfl)) fun s1 s2 h2 => ?_
  exact ⟨h1, h2⟩

theorem imbalance_ren {b b' s s' : List Order} {x p : ℚ} {fee : Fee} (hb : RenL ρ b b') (hs : RenL ρ s s') :
    bBuyTokenImbalance b s x p fee = bBuyTokenImbalance b' s' x p (ρ.fee fee) := by
  unfold bBuyTokenImbalance
  dsimp only
  rw [buys_ren hb]
  refine RelE.to_eq (RelE.bind_same fun inv => RelE.bind_same fun _ => RelE.bind (R := Eq) (RelE.of_eq ?_) fun t t' e => e ▸ RelE.of_eq rfl)
  exact sumE_rel hs (by rintro a _ rfl; rfl)

theorem objectiveForOrders_ren {l l' : List Order} {x p : ℚ} {fee : Fee} (h : RenL ρ l l') :
    objectiveForOrders l x p fee = objectiveForOrders l' x p (ρ.fee fee) := sumE_rel h (by rintro a _ rfl; rfl)

theorem objectiveRational_ren {cfg : Config} {b b' s s' f f' : List Order} {x p : ℚ} {fee : Fee} (hb : RenL ρ b b') (hs : RenL ρ s s') (hf : RenL ρ f f') :
    computeObjectiveRational cfg b s f x p fee = computeObjectiveRational cfg b' s' f' x p (ρ.fee fee) := by
  have h2 : ∀ x p, objectiveForOrders s x p fee = objectiveForOrders s' x p (ρ.fee fee) := fun _ _ => objectiveForOrders_ren hs
  have h3 : ∀ x p, objectiveForOrders f x p fee = objectiveForOrders f' x p (ρ.fee fee) := fun _ _ => objectiveForOrders_ren hf
  unfold computeObjectiveRational
  simp only [objectiveForOrders_ren hb, h2, h3, imbalance_ren hb hs]

theorem solverObjective_ren {cfg : Config} {fee : Fee} {b b' s s' : List Order} (hb : RenL ρ b b') (hs : RenL ρ s s') :
    solverObjective cfg fee b s = solverObjective cfg (ρ.fee fee) b' s' := by
  funext x
  refine RelE.to_eq ?_
  unfold solverObjective
  refine RelE.bind (computeBuyAmounts_ren hb hs) fun r r' h => RelE.of_eq ?_
  exact objectiveRational_ren h.1 h.2 List.Forall₂.nil

theorem solveTrivial_ren {cfg : Config} {fee : Fee} {b b' s s' : List Order} (hb : RenL ρ b b') (hs : RenL ρ s s') :
    solveTrivial cfg fee b s = solveTrivial cfg (ρ.fee fee) b' s' := by
  have : trivialCandidates b s fee = trivialCandidates b' s' (ρ.fee fee) := by
    unfold trivialCandidates
    dsimp only
    rw [map_rel (f := fun o => root1 o fee) (g := fun o => root1 o fee) hb
      (by intro a b hab; cases hab; rfl)]
    refine RelE.to_eq (RelE.bind (mapE_rel (Q := Eq) hs ?_) fun l l' e => ?_)
    · intro a b hab
      cases hab
      exact RelE.of_eq rfl
    · rw [List.forall₂_eq_eq_eq] at e
      exact e ▸ RelE.of_eq rfl
  unfold solveTrivial
  rw [this, solverObjective_ren hb hs]

/-- Related variants. -/
structure RenV (ρ : Renaming) (v v' : Variant) : Prop where
  isB : v.isB = v'.isB
  xrate : v.xrate = v'.xrate
  data : RenO ρ v.data v'.data

/-- Related interval data. -/
structure RenI (ρ : Renaming) (d d' : IntervalData) : Prop where
  lb : d.lb = d'.lb
  ub : d.ub = d'.ub
  b : RenL ρ d.b d'.b
  s : RenL ρ d.s d'.s
  bp : d.bPartial = d'.bPartial
  sp : d.sPartial = d'.sPartial

/-- Related loop states. -/
structure RenIS (ρ : Renaming) (st st' : IntervalState) : Prop where
  prev : st.prev = st'.prev
  b : RenL ρ st.bExec st'.bExec
  s : RenL ρ st.sExec st'.sExec
  bUb : st.bUb = st'.bUb
  sUb : st.sUb = st'.sUb

theorem maxSell_ren {o o' : Order} (h : RenO ρ o o') : o.maxSell = o'.maxSell := by
  cases h; rfl

theorem maxXrate_ren {o o' : Order} (h : RenO ρ o o') : o.maxXrate = o'.maxXrate := by
  cases h; rfl

theorem partialIdxLoop_ren {lb ub : ℚ} {i : ℕ} {cur : ℚ} {l l' : List Order} (h : RenL ρ l l') :
    partialIdxLoop lb ub i cur l = partialIdxLoop lb ub i cur l' := by
  induction h generalizing i cur with
  | nil => rfl
  | cons h _ ih =>
    unfold partialIdxLoop
    rw [maxSell_ren h, ih]

theorem intervalUpdate_ren {st st' : IntervalState} {v v' : Variant} (h : RenIS ρ st st') (hv : RenV ρ v v') :
    RelE (RenIS ρ) (intervalUpdate st v) (intervalUpdate st' v') := by
  obtain ⟨p, b, s, bu, su⟩ := st
  obtain ⟨p', b', s', bu', su'⟩ := st'
  obtain ⟨rfl, hb, hs, rfl, rfl⟩ := h
  unfold intervalUpdate
  rw [hv.isB]
  refine RelE.ite Iff.rfl (fun _ => ?_) (fun _ => ?_)
  · exact RenIS.mk rfl (List.Forall₂.cons hv.data hb) hs (by rw [maxSell_ren hv.data]) rfl
  · cases hs with
    | nil => rfl
    | cons _ ht => exact RenIS.mk rfl hb ht rfl (by rw [maxSell_ren hv.data])

theorem intervalYields_ren {st st' : IntervalState} {xl xu : ℚ} {fee : Fee} (h : RenIS ρ st st') :
    RelE (List.Forall₂ (RenI ρ)) (intervalYields st xl xu fee) (intervalYields st' xl xu (ρ.fee fee)) := by
  obtain ⟨p, b, s, bu, su⟩ := st
  obtain ⟨p', b', s', bu', su'⟩ := st'
  obtain ⟨rfl, hb, hs, rfl, rfl⟩ := h
  dsimp only at hb hs
  unfold intervalYields
  dsimp only
  refine RelE.bind (pyGet_rel hb 0) fun b0 b1 h1 => RelE.bind (pyGet_rel hs 0) fun s0 s1 h2 => ?_
  rw [maxSell_ren h1, maxSell_ren h2]
  have hmap : ∀ (l : List ℕ) (F : ℕ → IntervalData) (G : ℕ → IntervalData), (∀ i, RenI ρ (F i) (G i)) → List.Forall₂ (RenI ρ) (l.map F) (l.map G) := by
    intro l F G hFG
    induction l with
    | nil => exact List.Forall₂.nil
    | cons i l ih => exact List.Forall₂.cons (hFG i) ih
  have hB : ∀ a c, bPartialIdxs b a c xl xu fee = bPartialIdxs b' a c xl xu fee := by
    intro a c
    unfold bPartialIdxs
    rw [maxSells_ren hb, partialIdxLoop_ren hb]
  have hS : ∀ a c, sPartialIdxs s a c xl xu fee = sPartialIdxs s' a c xl xu fee := by
    intro a c
    unfold sPartialIdxs
    simp only [maxSells_ren hs, partialIdxLoop_ren hs]
  rw [hB, hS]
  refine RelE.bind_same fun js => ?_
  exact append_rel (hmap _ _ _ fun i => ⟨rfl, rfl, hb, hs, rfl, rfl⟩) (hmap _ _ _ fun i => ⟨rfl, rfl, hb, hs, rfl, rfl⟩)

theorem intervalLoop_ren {fee : Fee} {opt : Option ℚ} {st st' : IntervalState} {l l' : List Variant} (h : RenIS ρ st st')
    (hl : List.Forall₂ (RenV ρ) l l') : RelE (List.Forall₂ (RenI ρ)) (intervalLoop fee opt st l) (intervalLoop (ρ.fee fee) opt st' l') := by
  induction hl generalizing st st' with
  | nil => unfold intervalLoop; exact List.Forall₂.nil
  | @cons v v' l l' hv hl ih =>
    cases hl with
    | nil => unfold intervalLoop; exact List.Forall₂.nil
    | @cons w w' l l' hw hl =>
      unfold intervalLoop
      refine RelE.bind (intervalUpdate_ren h hv) fun s1 s2 h' => ?_
      have hnext : RenIS ρ { s1 with prev := some v'.xrate } { s2 with prev := some v'.xrate } := ⟨rfl, h'.b, h'.s, h'.bUb, h'.sUb⟩
      have hskip : skipInterval opt s1.prev v w = skipInterval opt s2.prev v' w' := by
        unfold skipInterval
        rw [hv.xrate, hw.xrate, h'.prev]
      dsimp only
      rw [hskip, hv.xrate, hw.xrate]
      refine RelE.ite Iff.rfl (fun _ => ih hnext) (fun _ => ?_)
      refine RelE.ite (by rw [h'.b.length_eq]) (fun _ => ih hnext) (fun _ => ?_)
      refine RelE.ite (by rw [h'.s.length_eq]) (fun _ => List.Forall₂.nil) (fun _ => ?_)
      refine RelE.bind (intervalYields_ren h') fun ys ys' hy => RelE.bind (ih hnext) fun more more' hm => ?_
      exact append_rel hy hm

theorem xrateIntervals_ren {b b' s s' : List Order} {fee : Fee} {opt : Option ℚ} (hb : RenL ρ b b') (hs : RenL ρ s s') :
    RelE (List.Forall₂ (RenI ρ)) (xrateIntervals b s fee opt) (xrateIntervals b' s' (ρ.fee fee) opt) := by
  unfold xrateIntervals
  dsimp only
  rw [hb.length_eq, hs.length_eq]
  refine RelE.bind_same fun _ => RelE.bind (mapE_rel (Q := RenV ρ) hs ?_) fun vs vs' hv => ?_
  · intro a b hab
    rw [maxXrate_ren hab]
    exact RelE.bind_same fun x => RenV.mk rfl rfl hab
  · have hall := insertionSort_rel (r := fun a b : Variant => b.xrate ≤ a.xrate) (r' := fun a b : Variant => b.xrate ≤ a.xrate)
      (append_rel (map_forall₂ (Q := RenV ρ) (f := fun o => { isB := true, xrate := o.maxXrate * (1 - fee.value), data := o : Variant })
        (g := fun o => { isB := true, xrate := o.maxXrate * (1 - fee.value), data := o : Variant }) hb
        (fun a b hab => ⟨rfl, by rw [maxXrate_ren hab], hab⟩)) hv)
      (fun a b a' b' h1 h2 => by rw [h1.xrate, h2.xrate])
    refine intervalLoop_ren ⟨rfl, List.Forall₂.nil, ?_, rfl, by rw [maxSells_ren hs]⟩ hall
    refine map_forall₂ (filter_rel hall ?_) fun a b hab => hab.data
    intro a b hab
    rw [hab.isB]

theorem computeConstants_ren {d d' : IntervalData} {fee : Fee} (h : RenI ρ d d') : computeConstants d fee = computeConstants d' (ρ.fee fee) := by
  obtain ⟨lb, ub, b, s, bp, sp⟩ := d
  obtain ⟨lb', ub', b', s', bp', sp'⟩ := d'
  obtain ⟨rfl, rfl, hb, hs, rfl, rfl⟩ := h
  dsimp only at hb hs
  unfold computeConstants
  dsimp only
  refine RelE.to_eq (RelE.bind (pyGet_rel hb bp) fun b0 b1 h1 => RelE.bind (pyGet_rel hs sp) fun s0 s1 h2 => ?_)
  have hq : ∀ a b : Order, RenO ρ a b → pyDiv a.maxSell a.maxXrate = pyDiv b.maxSell b.maxXrate := by
    intro a b hab
    rw [maxSell_ren hab, maxXrate_ren hab]
  have hc : cConstant b bp s sp fee = cConstant b' bp s' sp fee := by
    unfold cConstant
    dsimp only
    rw [maxSells_ren (List.forall₂_drop _ hb), maxSells_ren (List.forall₂_take _ hb)]
    refine RelE.to_eq (RelE.bind (R := Eq) (RelE.of_eq (sumE_rel (List.forall₂_drop _ hs) hq)) fun x y e => ?_)
    subst e
    refine RelE.bind (R := Eq) (RelE.of_eq (sumE_rel (List.forall₂_take _ hs) hq)) fun x y e => ?_
    subst e
    exact RelE.of_eq rfl
  rw [hc, maxSell_ren h1, maxXrate_ren h1, maxSell_ren h2, maxXrate_ren h2]
  unfold sumYbF
  rw [maxSells_ren (List.forall₂_drop _ hb), maxSells_ren (List.forall₂_drop _ hs)]
  exact RelE.of_eq rfl

theorem solveInterval_ren {cfg : Config} {sqrt : ℚ → Py ℚ} {fee : Fee} {d d' : IntervalData} (h : RenI ρ d d') :
    solveInterval cfg sqrt fee d = solveInterval cfg sqrt (ρ.fee fee) d' := by
  unfold solveInterval localOptima
  simp only [computeConstants_ren h, h.lb, h.ub, solverObjective_ren h.b h.s]

theorem findBestXrate_ren {cfg : Config} {sqrt : ℚ → Py ℚ} {fee : Fee} {b b' s s' : List Order} (hb : RenL ρ b b') (hs : RenL ρ s s') :
    findBestXrate cfg sqrt b s fee = findBestXrate cfg sqrt b' s' (ρ.fee fee) := by
  refine RelE.to_eq ?_
  unfold findBestXrate
  refine RelE.bind (prune_ren hb hs) fun r r' h => ?_
  dsimp only
  rw [solveTrivial_ren h.1 h.2]
  refine RelE.bind_same fun triv => RelE.bind (xrateIntervals_ren h.1 h.2) fun ivs ivs' hi => ?_
  refine RelE.bind (mapE_rel (Q := Eq) hi fun d d' hd => RelE.of_eq (solveInterval_ren hd)) fun rs rs' hrs => ?_
  rw [List.forall₂_eq_eq_eq] at hrs
  subst hrs
  exact RelE.of_eq rfl


end Dex
