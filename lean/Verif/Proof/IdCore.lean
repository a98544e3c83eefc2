import Verif.Proof.RelMatch
import Verif.Proof.Sort

/-! # The matching functions commute with renumbering orders

Same layout as `RenCore.lean`, for another relation: the orders get new ids. -/

namespace Dex

open Spec

/-- New ids for orders. The limit rate and the tokens of an order are determined by its id; the id of the artificial market order stays. -/
structure Renumbering where
  id : String → String
  dom : String → Prop
  rate : String → ℚ
  tokens : String → Token × Token
  inj : Function.Injective id
  market : id marketOrderId = marketOrderId

/-- The order with its new id. -/
def Renumbering.order (σ : Renumbering) (o : Order) : Order := { o with id := σ.id o.id }

/-- The order is a known one, with the limit rate and the tokens recorded for its id. -/
def Renumbering.Rated (σ : Renumbering) (o : Order) : Prop :=
  o.id ≠ marketOrderId → σ.dom o.id ∧ o.maxXrate = σ.rate o.id ∧ (o.buyToken, o.sellToken) = σ.tokens o.id

/-- The renumbered order, of a set of ids. -/
abbrev IdO (σ : Renumbering) (I : String → Prop) (o o' : Order) : Prop := (I o.id ∧ σ.Rated o) ∧ o' = σ.order o

/-- The renumbered list. -/
abbrev IdL (σ : Renumbering) (I : String → Prop) (l l' : List Order) : Prop := List.Forall₂ (IdO σ I) l l'

/-- Ids of equal limit rate keep their order. -/
class TiesKept (σ : Renumbering) (p : String → Prop) : Prop where
  ties : ∀ i j, p i → p j → (i ≠ marketOrderId → j ≠ marketOrderId → σ.rate i = σ.rate j) → (i < j ↔ σ.id i < σ.id j)

variable {σ : Renumbering} {I J K : String → Prop}

theorem idO_mono {p' : String → Prop} (h : ∀ i, I i → p' i) (a b : Order) (hab : IdO σ I a b) : IdO σ p' a b := ⟨⟨h _ hab.1.1, hab.1.2⟩, hab.2⟩

theorem idL_mono {p' : String → Prop} (h : ∀ i, I i → p' i) {l l' : List Order} (hl : IdL σ I l l') : IdL σ p' l l' :=
  hl.imp (idO_mono h)

theorem idL_map {l l' : List Order} (h : IdL σ I l l') : l' = l.map σ.order := by
  induction h with
  | nil => rfl
  | cons h _ ih => rw [List.map_cons, h.2, ih]

theorem sorted_idm [TiesKept σ I] {l l' : List Order} (h : IdL σ I l l') :
    IdL σ I (sortedByExecPriority l) (sortedByExecPriority l') := by
  unfold sortedByExecPriority
  refine insertionSort_rel h fun a b a' b' h1 h2 => ?_
  obtain ⟨⟨k1, r1⟩, rfl⟩ := h1
  obtain ⟨⟨k2, r2⟩, rfl⟩ := h2
  rw [orderLt_false_iff, orderLt_false_iff]
  refine not_congr ?_
  unfold Before Renumbering.order
  dsimp only
  refine or_congr Iff.rfl (and_congr_right fun e => or_congr Iff.rfl (and_congr_right fun _ => ?_))
  refine TiesKept.ties (p := I) _ _ k2 k1 fun n2 n1 => ?_
  rw [← (r1 n1).2.1, ← (r2 n2).2.1, e]

/-- Writing back renumbered orders. -/
theorem writeBack_idm {l l' u u' : List Order} (hl : IdL σ I l l') (hu : IdL σ J u u') : IdL σ I (writeBack l u) (writeBack l' u') := by
  unfold writeBack
  refine map_forall₂ hl fun a b hab => ?_
  obtain ⟨ka, rfl⟩ := hab
  induction hu with
  | nil => exact ⟨ka, rfl⟩
  | @cons v v' u u' hv _ ih =>
    obtain ⟨kv, rfl⟩ := hv
    rw [List.find?_cons, List.find?_cons]
    by_cases e : v.id = a.id
    · have e' : (σ.order v).id = (σ.order a).id := congrArg σ.id e
      simp only [e, e', decide_true, Option.getD_some]
      exact ⟨⟨e ▸ ka.1, kv.2⟩, rfl⟩
    · have e' : ¬ (σ.order v).id = (σ.order a).id := fun h => e (σ.inj h)
      simp only [e, e', decide_false]
      exact ih

/-! ### compute_buy_amounts -/

/-- Related states of the execution loops. -/
structure IdX (σ : Renumbering) (I J : String → Prop) (st st' : ExecState) : Prop where
  bi : st.bi = st'.bi
  si : st.si = st'.si
  b : IdL σ I st.b st'.b
  s : IdL σ J st.s st'.s

theorem addBuy_idm (d : ℚ) (a b : Order) (h : IdO σ I a b) : IdO σ I (Order.addBuy d a) (Order.addBuy d b) := by
  obtain ⟨k, rfl⟩ := h
  exact ⟨k, rfl⟩

theorem subBuy_idm (d : ℚ) (a b : Order) (h : IdO σ I a b) : IdO σ I (Order.subBuy d a) (Order.subBuy d b) := by
  obtain ⟨k, rfl⟩ := h
  exact ⟨k, rfl⟩

theorem clearBuy_idm (a b : Order) (h : IdO σ I a b) : IdO σ I (Order.clearBuy a) (Order.clearBuy b) := by
  obtain ⟨k, rfl⟩ := h
  exact ⟨k, rfl⟩

theorem executeOrderPair_idm {x : ℚ} {fee : Fee} {st st' : ExecState} (h : IdX σ I J st st') :
    RelE (IdX σ I J) (executeOrderPair x fee st) (executeOrderPair x fee st') := by
  obtain ⟨bi, si, b, s⟩ := st
  obtain ⟨bi', si', b', s'⟩ := st'
  obtain ⟨rfl, rfl, hb, hs⟩ := h
  unfold executeOrderPair
  refine RelE.bind (pyGet_rel hb bi) fun bo bo' h1 => RelE.bind (pyGet_rel hs si) fun so so' h2 => ?_
  obtain ⟨kh1, rfl⟩ := h1
  obtain ⟨kh2, rfl⟩ := h2
  refine RelE.bind_same fun bMax => RelE.bind_same fun sMax => RelE.bind_same fun _ => RelE.bind_same fun bFromS => RelE.bind_same fun sFromB => ?_
  refine RelE.ite Iff.rfl (fun _ => ?_) (fun _ => RelE.ite Iff.rfl (fun _ => ?_) (fun _ => ?_))
  all_goals
    refine RelE.bind (pyModify_rel hb bi (addBuy_idm _)) fun b1 b2 hb' => RelE.bind (pyModify_rel hs si (addBuy_idm _)) fun s1 s2 hs' => ?_
    exact IdX.mk rfl rfl hb' hs'

theorem undoOrderPair_idm {x : ℚ} {fee : Fee} {st st' : ExecState} (h : IdX σ I J st st') :
    RelE (IdX σ I J) (undoOrderPair x fee st) (undoOrderPair x fee st') := by
  obtain ⟨bi, si, b, s⟩ := st
  obtain ⟨bi', si', b', s'⟩ := st'
  obtain ⟨rfl, rfl, hb, hs⟩ := h
  unfold undoOrderPair
  refine RelE.bind (pyGet_rel hb bi) fun bo bo' h1 => RelE.bind (pyGet_rel hs si) fun so so' h2 => ?_
  obtain ⟨kh1, rfl⟩ := h1
  obtain ⟨kh2, rfl⟩ := h2
  refine RelE.bind_same fun _ => RelE.bind_same fun bFromS => RelE.bind_same fun sFromB => ?_
  refine RelE.ite Iff.rfl (fun _ => ?_) (fun _ => RelE.ite Iff.rfl (fun _ => ?_) (fun _ => ?_))
  · refine RelE.bind (pyModify_rel hb bi clearBuy_idm) fun b1 b2 hb' => RelE.bind (pyModify_rel hs si (subBuy_idm _)) fun s1 s2 hs' => ?_
    exact IdX.mk rfl rfl hb' hs'
  · refine RelE.bind (pyModify_rel hb bi (subBuy_idm _)) fun b1 b2 hb' => RelE.bind (pyModify_rel hs si clearBuy_idm) fun s1 s2 hs' => ?_
    exact IdX.mk rfl rfl hb' hs'
  · refine RelE.bind (pyModify_rel hb bi clearBuy_idm) fun b1 b2 hb' => RelE.bind (pyModify_rel hs si clearBuy_idm) fun s1 s2 hs' => ?_
    exact IdX.mk rfl rfl hb' hs'

theorem removeBuyLoop_idm {fuel : ℕ} {i : ℤ} {l l' : List Order} {amt : ℚ} (h : IdL σ I l l') :
    RelE (fun r r' : ℤ × List Order => r.1 = r'.1 ∧ IdL σ I r.2 r'.2) (removeBuyLoop fuel i l amt) (removeBuyLoop fuel i l' amt) := by
  induction fuel generalizing i l l' amt with
  | zero => rfl
  | succ fuel ih =>
    unfold removeBuyLoop
    refine RelE.ite Iff.rfl (fun _ => ?_) (fun _ => ⟨rfl, h⟩)
    refine RelE.bind_same fun _ => RelE.bind (pyGet_rel h i) fun o o' ho => ?_
    obtain ⟨kho, rfl⟩ := ho
    refine RelE.bind (pyModify_rel h i (subBuy_idm _)) fun l1 l2 hl => RelE.bind (pyGet_rel hl i) fun u u' hu => ?_
    obtain ⟨khu, rfl⟩ := hu
    exact ih hl

theorem undoB_idm {x : ℚ} {fee : Fee} {st st' : ExecState} (h : IdX σ I J st st') : RelE (IdX σ I J) (undoB x fee st) (undoB x fee st') := by
  obtain ⟨bi, si, b, s⟩ := st
  obtain ⟨bi', si', b', s'⟩ := st'
  obtain ⟨rfl, rfl, hb, hs⟩ := h
  unfold undoB
  refine RelE.bind (pyGet_rel hb bi) fun bo bo' h1 => ?_
  obtain ⟨kh1, rfl⟩ := h1
  refine RelE.bind_same fun amt => ?_
  refine RelE.bind (R := fun r r' : ℤ × List Order => r.1 = r'.1 ∧ IdL σ J r.2 r'.2) ?_ fun r r' hr => ?_
  · unfold removeBuyAmount
    rw [hs.length_eq]
    exact removeBuyLoop_idm hs
  · obtain ⟨i, l⟩ := r
    obtain ⟨i', l'⟩ := r'
    obtain ⟨rfl, hl⟩ := hr
    refine RelE.bind (pyModify_rel hb bi clearBuy_idm) fun b1 b2 hb' => RelE.bind_same fun _ => ?_
    exact IdX.mk rfl rfl hb' hl

theorem undoS_idm {x : ℚ} {fee : Fee} {st st' : ExecState} (h : IdX σ I J st st') : RelE (IdX σ I J) (undoS x fee st) (undoS x fee st') := by
  obtain ⟨bi, si, b, s⟩ := st
  obtain ⟨bi', si', b', s'⟩ := st'
  obtain ⟨rfl, rfl, hb, hs⟩ := h
  unfold undoS
  refine RelE.bind (pyGet_rel hs si) fun so so' h1 => ?_
  obtain ⟨kh1, rfl⟩ := h1
  refine RelE.bind_same fun amt => ?_
  refine RelE.bind (R := fun r r' : ℤ × List Order => r.1 = r'.1 ∧ IdL σ I r.2 r'.2) ?_ fun r r' hr => ?_
  · unfold removeBuyAmount
    rw [hb.length_eq]
    exact removeBuyLoop_idm hb
  · obtain ⟨i, l⟩ := r
    obtain ⟨i', l'⟩ := r'
    obtain ⟨rfl, hl⟩ := hr
    refine RelE.bind (pyModify_rel hs si clearBuy_idm) fun b1 b2 hb' => RelE.bind_same fun _ => ?_
    exact IdX.mk rfl rfl hl hb'

/-- Related results of the undo functions. -/
abbrev IdXB (σ : Renumbering) (I J : String → Prop) (r r' : ExecState × Bool) : Prop := IdX σ I J r.1 r'.1 ∧ r.2 = r'.2

theorem undoMinB_idm {cfg : Config} {x : ℚ} {fee : Fee} {st st' : ExecState} (h : IdX σ I J st st') :
    RelE (IdXB σ I J) (undoMinB cfg x fee st) (undoMinB cfg x fee st') := by
  unfold undoMinB
  dsimp only
  rw [← h.bi]
  refine RelE.bind (pyGet_rel h.b st.bi) fun bo bo' h1 => ?_
  obtain ⟨kh1, rfl⟩ := h1
  refine RelE.bind_same fun _ => RelE.ite Iff.rfl (fun _ => ?_) (fun _ => ⟨h, rfl⟩)
  exact RelE.bind (undoB_idm h) fun _ _ h' => ⟨h', rfl⟩

theorem undoMinS_idm {cfg : Config} {x : ℚ} {fee : Fee} {st st' : ExecState} {u : Bool} (h : IdX σ I J st st') :
    RelE (IdXB σ I J) (undoMinS cfg x fee st u) (undoMinS cfg x fee st' u) := by
  unfold undoMinS
  dsimp only
  rw [← h.si]
  refine RelE.bind (pyGet_rel h.s st.si) fun so so' h1 => ?_
  obtain ⟨kh1, rfl⟩ := h1
  refine RelE.bind_same fun _ => RelE.ite Iff.rfl (fun _ => ?_) (fun _ => ⟨h, rfl⟩)
  exact RelE.bind (undoS_idm h) fun _ _ h' => ⟨h', rfl⟩

theorem undoMinTradable_idm {cfg : Config} {x : ℚ} {fee : Fee} {st st' : ExecState} (h : IdX σ I J st st') :
    RelE (IdXB σ I J) (undoMinTradable cfg x fee st) (undoMinTradable cfg x fee st') := by
  unfold undoMinTradable
  refine RelE.ite (by rw [h.bi]) (fun _ => ⟨h, rfl⟩) (fun _ => ?_)
  refine RelE.bind (undoMinB_idm h) fun r r' hr => ?_
  obtain ⟨st1, u⟩ := r
  obtain ⟨st2, u'⟩ := r'
  obtain ⟨hr, rfl⟩ := hr
  exact RelE.ite (by rw [hr.si]) (fun _ => ⟨hr, rfl⟩) (fun _ => undoMinS_idm hr)

theorem execLoop_idm {x : ℚ} {fee : Fee} {maxNr : ℤ} {fuel : ℕ} {st st' : ExecState} (h : IdX σ I J st st') :
    RelE (IdX σ I J) (execLoop x fee maxNr fuel st) (execLoop x fee maxNr fuel st') := by
  induction fuel generalizing st st' with
  | zero => rfl
  | succ fuel ih =>
    unfold execLoop
    refine RelE.ite (by rw [h.bi, h.si, h.b.length_eq, h.s.length_eq]) (fun _ => ?_) (fun _ => h)
    exact RelE.bind (executeOrderPair_idm h) fun _ _ h' => ih h'

theorem undoLoop_idm {cfg : Config} {x : ℚ} {fee : Fee} {fuel : ℕ} {st st' : ExecState} (h : IdX σ I J st st') :
    RelE (IdX σ I J) (undoLoop cfg x fee fuel st) (undoLoop cfg x fee fuel st') := by
  induction fuel generalizing st st' with
  | zero => rfl
  | succ fuel ih =>
    unfold undoLoop
    refine RelE.bind (undoMinTradable_idm h) fun r r' hr => ?_
    obtain ⟨st1, u⟩ := r
    obtain ⟨st2, u'⟩ := r'
    obtain ⟨hr, rfl⟩ := hr
    exact RelE.ite Iff.rfl (fun _ => ih hr) (fun _ => hr)

theorem lastExecuted_idm {l l' : List Order} {i : ℤ} (h : IdL σ I l l') : lastExecuted l i = lastExecuted l' i := by
  refine RelE.to_eq ?_
  unfold lastExecuted
  refine RelE.ite (by rw [h.length_eq]) (fun _ => ?_) (fun _ => RelE.of_eq rfl)
  refine RelE.bind (pyGet_rel h i) fun o o' ho => ?_
  obtain ⟨kho, rfl⟩ := ho
  exact RelE.of_eq rfl

/-- Related pairs of lists. -/
abbrev IdL2 (σ : Renumbering) (I J : String → Prop) (r r' : List Order × List Order) : Prop := IdL σ I r.1 r'.1 ∧ IdL σ J r.2 r'.2

theorem executeSorted_idm {cfg : Config} {x : ℚ} {fee : Fee} {maxNr : ℤ} {b b' s s' : List Order} (hb : IdL σ I b b') (hs : IdL σ J s s') :
    RelE (IdL2 σ I J) (executeSorted cfg x fee maxNr b s) (executeSorted cfg x fee maxNr b' s') := by
  unfold executeSorted
  rw [hb.length_eq, hs.length_eq]
  refine RelE.bind (execLoop_idm ⟨rfl, rfl, hb, hs⟩) fun st st' h => ?_
  rw [h.bi, h.si, lastExecuted_idm h.b]
  refine RelE.bind_same fun bi => ?_
  rw [lastExecuted_idm h.s]
  refine RelE.bind_same fun si => ?_
  dsimp only
  refine RelE.ite Iff.rfl (fun _ => RelE.bind_same fun _ => RelE.bind (undoOrderPair_idm ⟨rfl, rfl, h.b, h.s⟩) fun st1 st2 h' => ?_)
    (fun _ => RelE.bind (RelE.pure' (R := IdX σ I J) ⟨rfl, rfl, h.b, h.s⟩) fun st1 st2 h' => ?_)
  all_goals
    refine RelE.bind (undoLoop_idm h') fun st3 st4 h'' => ?_
    rw [map_rel h''.b (g := fun o => o.buy) (f := fun o => o.buy) (by rintro a _ ⟨_, rfl⟩; rfl),
      map_rel h''.s (g := fun o => o.buy) (f := fun o => o.buy) (by rintro a _ ⟨_, rfl⟩; rfl)]
    exact RelE.bind_same fun _ => ⟨h''.b, h''.s⟩

theorem filterMaxXrate_idm {x : ℚ} {fee : Fee} {b b' s s' : List Order} (hb : IdL σ I b b') (hs : IdL σ J s s') :
    RelE (IdL2 σ I J) (filterMaxXrate x b s fee) (filterMaxXrate x b' s' fee) := by
  unfold filterMaxXrate
  refine RelE.bind (filterE_rel hs (by rintro a _ ⟨_, rfl⟩; rfl)) fun s1 s2 h => ?_
  exact ⟨filter_rel hb (by rintro a _ ⟨_, rfl⟩; rfl), h⟩

theorem filterMinTradable_idm {cfg : Config} {x : ℚ} {fee : Fee} {b b' s s' : List Order} (hb : IdL σ I b b') (hs : IdL σ J s s') :
    RelE (IdL2 σ I J) (filterMinTradable cfg x b s fee) (filterMinTradable cfg x b' s' fee) := by
  unfold filterMinTradable
  refine RelE.bind (filterE_rel hb (by rintro a _ ⟨_, rfl⟩; rfl)) fun b1 b2 h1 => ?_
  refine RelE.bind (filterE_rel hs (by rintro a _ ⟨_, rfl⟩; rfl)) fun s1 s2 h2 => ?_
  exact ⟨h1, h2⟩

/-- `compute_buy_amounts` overwrites all buy amounts and reads no sell amount. -/
theorem computeBuyAmounts_idm [TiesKept σ I] [TiesKept σ J] {cfg : Config} {x : ℚ} {fee : Fee} {maxNr : ℤ} {b b' s s' : List Order} (hb : IdL σ I b b') (hs : IdL σ J s s') :
    RelE (IdL2 σ I J) (computeBuyAmounts cfg x b s fee maxNr) (computeBuyAmounts cfg x b' s' fee maxNr) := by
  have hb0 : IdL σ I (b.map Order.clearBuy) (b'.map Order.clearBuy) := map_forall₂ hb clearBuy_idm
  have hs0 : IdL σ J (s.map Order.clearBuy) (s'.map Order.clearBuy) := map_forall₂ hs clearBuy_idm
  unfold computeBuyAmounts
  dsimp only
  refine RelE.bind (filterMaxXrate_idm hb0 hs0) fun r r' h1 => RelE.bind (filterMinTradable_idm h1.1 h1.2) fun q q' h2 => ?_
  refine RelE.ite (by rw [h2.1.length_eq, h2.2.length_eq]) (fun _ => ⟨hb0, hs0⟩) (fun _ => ?_)
  refine RelE.bind (executeSorted_idm (sorted_idm h2.1) (sorted_idm h2.2))
    fun t t' h3 => ?_
  exact ⟨writeBack_idm hb0 h3.1, writeBack_idm hs0 h3.2⟩

theorem maxSells_idm {l l' : List Order} (h : IdL σ I l l') : l.map (·.maxSell) = l'.map (·.maxSell) :=
  map_rel h (by intro a b hab; obtain ⟨khab, rfl⟩ := hab; rfl)

theorem maxXrates_idm {l l' : List Order} (h : IdL σ I l l') : l.map (·.maxXrate) = l'.map (·.maxXrate) :=
  map_rel h (by intro a b hab; obtain ⟨khab, rfl⟩ := hab; rfl)

theorem buys_idm {l l' : List Order} (h : IdL σ I l l') : l.map (·.buy) = l'.map (·.buy) :=
  map_rel h (by rintro a _ ⟨_, rfl⟩; rfl)

theorem countNrExec_idm {l l' : List Order} (h : IdL σ I l l') : countNrExec l = countNrExec l' :=
  countP_rel h (by rintro a _ ⟨_, rfl⟩; rfl)

theorem prune_idm {fee : Fee} {b b' s s' : List Order} (hb : IdL σ I b b') (hs : IdL σ J s s') :
    RelE (IdL2 σ I J) (pruneUnrealizable b s fee) (pruneUnrealizable b' s' fee) := by
  unfold pruneUnrealizable
  dsimp only
  rw [maxXrates_idm hb, maxXrates_idm hs]
  refine RelE.bind_same fun bMax => RelE.bind_same fun sMax => ?_
  refine RelE.bind (filterE_rel hb (by intro a b hab; obtain ⟨khab, rfl⟩ := hab; rfl)) fun b1 b2 h1 => ?_
  refine RelE.bind (filterE_rel hs (by intro a b hab; obtain ⟨khab, rfl⟩ := hab; rfl)) fun s1 s2 h2 => ?_
  exact ⟨h1, h2⟩

theorem imbalance_idm {b b' s s' : List Order} {x p : ℚ} {fee : Fee} (hb : IdL σ I b b') (hs : IdL σ J s s') :
    bBuyTokenImbalance b s x p fee = bBuyTokenImbalance b' s' x p fee := by
  unfold bBuyTokenImbalance
  dsimp only
  rw [buys_idm hb]
  refine RelE.to_eq (RelE.bind_same fun inv => RelE.bind_same fun _ => RelE.bind (R := Eq) (RelE.of_eq ?_) fun t t' e => e ▸ RelE.of_eq rfl)
  exact sumE_rel hs (by rintro a _ ⟨_, rfl⟩; rfl)

theorem objectiveForOrders_idm {l l' : List Order} {x p : ℚ} {fee : Fee} (h : IdL σ I l l') :
    objectiveForOrders l x p fee = objectiveForOrders l' x p fee := sumE_rel h (by rintro a _ ⟨_, rfl⟩; rfl)

theorem objectiveRational_idm {cfg : Config} {b b' s s' f f' : List Order} {x p : ℚ} {fee : Fee} (hb : IdL σ I b b') (hs : IdL σ J s s') (hf : IdL σ K f f') :
    computeObjectiveRational cfg b s f x p fee = computeObjectiveRational cfg b' s' f' x p fee := by
  have h2 : ∀ x p, objectiveForOrders s x p fee = objectiveForOrders s' x p fee := fun _ _ => objectiveForOrders_idm hs
  have h3 : ∀ x p, objectiveForOrders f x p fee = objectiveForOrders f' x p fee := fun _ _ => objectiveForOrders_idm hf
  unfold computeObjectiveRational
  simp only [objectiveForOrders_idm hb, h2, h3, imbalance_idm hb hs]

theorem solverObjective_idm [TiesKept σ I] [TiesKept σ J] {cfg : Config} {fee : Fee} {b b' s s' : List Order} (hb : IdL σ I b b') (hs : IdL σ J s s') :
    solverObjective cfg fee b s = solverObjective cfg fee b' s' := by
  funext x
  refine RelE.to_eq ?_
  unfold solverObjective
  refine RelE.bind (computeBuyAmounts_idm hb hs) fun r r' h => RelE.of_eq ?_
  exact objectiveRational_idm (K := I) h.1 h.2 List.Forall₂.nil

theorem solveTrivial_idm [TiesKept σ I] [TiesKept σ J] {cfg : Config} {fee : Fee} {b b' s s' : List Order} (hb : IdL σ I b b') (hs : IdL σ J s s') :
    solveTrivial cfg fee b s = solveTrivial cfg fee b' s' := by
  have : trivialCandidates b s fee = trivialCandidates b' s' fee := by
    unfold trivialCandidates
    dsimp only
    rw [map_rel (f := fun o => root1 o fee) (g := fun o => root1 o fee) hb
      (by intro a b hab; obtain ⟨khab, rfl⟩ := hab; rfl)]
    refine RelE.to_eq (RelE.bind (mapE_rel (Q := Eq) hs ?_) fun l l' e => ?_)
    · intro a b hab
      obtain ⟨khab, rfl⟩ := hab
      exact RelE.of_eq rfl
    · rw [List.forall₂_eq_eq_eq] at e
      exact e ▸ RelE.of_eq rfl
  unfold solveTrivial
  rw [this, solverObjective_idm hb hs]

/-- Related variants. -/
structure IdV (σ : Renumbering) (I J : String → Prop) (v v' : Variant) : Prop where
  isB : v.isB = v'.isB
  xrate : v.xrate = v'.xrate
  dataB : v.isB = true → IdO σ I v.data v'.data
  dataS : v.isB = false → IdO σ J v.data v'.data

/-- Related interval data. -/
structure IdI (σ : Renumbering) (I J : String → Prop) (d d' : IntervalData) : Prop where
  lb : d.lb = d'.lb
  ub : d.ub = d'.ub
  b : IdL σ I d.b d'.b
  s : IdL σ J d.s d'.s
  bp : d.bPartial = d'.bPartial
  sp : d.sPartial = d'.sPartial

/-- Related loop states. -/
structure IdIS (σ : Renumbering) (I J : String → Prop) (st st' : IntervalState) : Prop where
  prev : st.prev = st'.prev
  b : IdL σ I st.bExec st'.bExec
  s : IdL σ J st.sExec st'.sExec
  bUb : st.bUb = st'.bUb
  sUb : st.sUb = st'.sUb

theorem maxSell_idm {o o' : Order} (h : IdO σ I o o') : o.maxSell = o'.maxSell := by
  obtain ⟨_, rfl⟩ := h; rfl

theorem maxXrate_idm {o o' : Order} (h : IdO σ I o o') : o.maxXrate = o'.maxXrate := by
  obtain ⟨_, rfl⟩ := h; rfl

theorem partialIdxLoop_idm {lb ub : ℚ} {i : ℕ} {cur : ℚ} {l l' : List Order} (h : IdL σ I l l') :
    partialIdxLoop lb ub i cur l = partialIdxLoop lb ub i cur l' := by
  induction h generalizing i cur with
  | nil => rfl
  | cons h _ ih =>
    unfold partialIdxLoop
    rw [maxSell_idm h, ih]

theorem intervalUpdate_idm {st st' : IntervalState} {v v' : Variant} (h : IdIS σ I J st st') (hv : IdV σ I J v v') :
    RelE (IdIS σ I J) (intervalUpdate st v) (intervalUpdate st' v') := by
  obtain ⟨p, b, s, bu, su⟩ := st
  obtain ⟨p', b', s', bu', su'⟩ := st'
  obtain ⟨rfl, hb, hs, rfl, rfl⟩ := h
  unfold intervalUpdate
  rw [← hv.isB]
  refine RelE.ite Iff.rfl (fun hB => ?_) (fun hB => ?_)
  · exact IdIS.mk rfl (List.Forall₂.cons (hv.dataB hB) hb) hs (by rw [maxSell_idm (hv.dataB hB)]) rfl
  · cases hs with
    | nil => rfl
    | cons _ ht => exact IdIS.mk rfl hb ht rfl (by rw [maxSell_idm (hv.dataS (by simpa using hB))])

theorem intervalYields_idm {st st' : IntervalState} {xl xu : ℚ} {fee : Fee} (h : IdIS σ I J st st') :
    RelE (List.Forall₂ (IdI σ I J)) (intervalYields st xl xu fee) (intervalYields st' xl xu fee) := by
  obtain ⟨p, b, s, bu, su⟩ := st
  obtain ⟨p', b', s', bu', su'⟩ := st'
  obtain ⟨rfl, hb, hs, rfl, rfl⟩ := h
  dsimp only at hb hs
  unfold intervalYields
  dsimp only
  refine RelE.bind (pyGet_rel hb 0) fun b0 b1 h1 => RelE.bind (pyGet_rel hs 0) fun s0 s1 h2 => ?_
  rw [maxSell_idm h1, maxSell_idm h2]
  have hmap : ∀ (l : List ℕ) (F : ℕ → IntervalData) (G : ℕ → IntervalData), (∀ i, IdI σ I J (F i) (G i)) → List.Forall₂ (IdI σ I J) (l.map F) (l.map G) := by
    intro l F G hFG
    induction l with
    | nil => exact List.Forall₂.nil
    | cons i l ih => exact List.Forall₂.cons (hFG i) ih
  have hB : ∀ a c, bPartialIdxs b a c xl xu fee = bPartialIdxs b' a c xl xu fee := by
    intro a c
    unfold bPartialIdxs
    rw [maxSells_idm hb, partialIdxLoop_idm hb]
  have hS : ∀ a c, sPartialIdxs s a c xl xu fee = sPartialIdxs s' a c xl xu fee := by
    intro a c
    unfold sPartialIdxs
    simp only [maxSells_idm hs, partialIdxLoop_idm hs]
  rw [hB, hS]
  refine RelE.bind_same fun js => ?_
  exact append_rel (hmap _ _ _ fun i => ⟨rfl, rfl, hb, hs, rfl, rfl⟩) (hmap _ _ _ fun i => ⟨rfl, rfl, hb, hs, rfl, rfl⟩)

theorem intervalLoop_idm {fee : Fee} {opt : Option ℚ} {st st' : IntervalState} {l l' : List Variant} (h : IdIS σ I J st st')
    (hl : List.Forall₂ (IdV σ I J) l l') : RelE (List.Forall₂ (IdI σ I J)) (intervalLoop fee opt st l) (intervalLoop fee opt st' l') := by
  induction hl generalizing st st' with
  | nil => unfold intervalLoop; exact List.Forall₂.nil
  | @cons v v' l l' hv hl ih =>
    cases hl with
    | nil => unfold intervalLoop; exact List.Forall₂.nil
    | @cons w w' l l' hw hl =>
      unfold intervalLoop
      refine RelE.bind (intervalUpdate_idm h hv) fun s1 s2 h' => ?_
      have hnext : IdIS σ I J { s1 with prev := some v'.xrate } { s2 with prev := some v'.xrate } := ⟨rfl, h'.b, h'.s, h'.bUb, h'.sUb⟩
      have hskip : skipInterval opt s1.prev v w = skipInterval opt s2.prev v' w' := by
        unfold skipInterval
        rw [hv.xrate, hw.xrate, h'.prev]
      dsimp only
      rw [hskip, hv.xrate, hw.xrate]
      refine RelE.ite Iff.rfl (fun _ => ih hnext) (fun _ => ?_)
      refine RelE.ite (by rw [h'.b.length_eq]) (fun _ => ih hnext) (fun _ => ?_)
      refine RelE.ite (by rw [h'.s.length_eq]) (fun _ => List.Forall₂.nil) (fun _ => ?_)
      refine RelE.bind (intervalYields_idm h') fun ys ys' hy => RelE.bind (ih hnext) fun more more' hm => ?_
      exact append_rel hy hm

theorem sellers_idm {l l' : List Variant} (h : List.Forall₂ (IdV σ I J) l l') :
    IdL σ J ((l.filter (fun v => !v.isB)).map (·.data)) ((l'.filter (fun v => !v.isB)).map (·.data)) := by
  induction h with
  | nil => exact List.Forall₂.nil
  | @cons v v' l l' hv _ ih =>
    rw [List.filter_cons, List.filter_cons, ← hv.isB]
    cases hB : v.isB with
    | true => exact ih
    | false => exact List.Forall₂.cons (hv.dataS hB) ih

theorem xrateIntervals_idm {b b' s s' : List Order} {fee : Fee} {opt : Option ℚ} (hb : IdL σ I b b') (hs : IdL σ J s s') :
    RelE (List.Forall₂ (IdI σ I J)) (xrateIntervals b s fee opt) (xrateIntervals b' s' fee opt) := by
  unfold xrateIntervals
  dsimp only
  rw [hb.length_eq, hs.length_eq]
  refine RelE.bind_same fun _ => RelE.bind (mapE_rel (Q := IdV σ I J) hs ?_) fun vs vs' hv => ?_
  · intro a b hab
    rw [maxXrate_idm hab]
    exact RelE.bind_same fun x => IdV.mk rfl rfl (fun h => by cases h) fun _ => hab
  · have hall := insertionSort_rel (r := fun a b : Variant => b.xrate ≤ a.xrate) (r' := fun a b : Variant => b.xrate ≤ a.xrate)
      (append_rel (map_forall₂ (Q := IdV σ I J) (f := fun o => { isB := true, xrate := o.maxXrate * (1 - fee.value), data := o : Variant })
        (g := fun o => { isB := true, xrate := o.maxXrate * (1 - fee.value), data := o : Variant }) hb
        (fun a b hab => ⟨rfl, by rw [maxXrate_idm hab], fun _ => hab, fun h => by cases h⟩)) hv)
      (fun a b a' b' h1 h2 => by rw [h1.xrate, h2.xrate])
    refine intervalLoop_idm ⟨rfl, List.Forall₂.nil, ?_, rfl, by rw [maxSells_idm hs]⟩ hall
    exact sellers_idm hall

theorem computeConstants_idm {d d' : IntervalData} {fee : Fee} (h : IdI σ I J d d') : computeConstants d fee = computeConstants d' fee := by
  obtain ⟨lb, ub, b, s, bp, sp⟩ := d
  obtain ⟨lb', ub', b', s', bp', sp'⟩ := d'
  obtain ⟨rfl, rfl, hb, hs, rfl, rfl⟩ := h
  dsimp only at hb hs
  unfold computeConstants
  dsimp only
  refine RelE.to_eq (RelE.bind (pyGet_rel hb bp) fun b0 b1 h1 => RelE.bind (pyGet_rel hs sp) fun s0 s1 h2 => ?_)
  have hq : ∀ a b : Order, IdO σ J a b → pyDiv a.maxSell a.maxXrate = pyDiv b.maxSell b.maxXrate := by
    intro a b hab
    rw [maxSell_idm hab, maxXrate_idm hab]
  have hc : cConstant b bp s sp fee = cConstant b' bp s' sp fee := by
    unfold cConstant
    dsimp only
    rw [maxSells_idm (List.forall₂_drop _ hb), maxSells_idm (List.forall₂_take _ hb)]
    refine RelE.to_eq (RelE.bind (R := Eq) (RelE.of_eq (sumE_rel (List.forall₂_drop _ hs) hq)) fun x y e => ?_)
    subst e
    refine RelE.bind (R := Eq) (RelE.of_eq (sumE_rel (List.forall₂_take _ hs) hq)) fun x y e => ?_
    subst e
    exact RelE.of_eq rfl
  rw [hc, maxSell_idm h1, maxXrate_idm h1, maxSell_idm h2, maxXrate_idm h2]
  unfold sumYbF
  rw [maxSells_idm (List.forall₂_drop _ hb), maxSells_idm (List.forall₂_drop _ hs)]
  exact RelE.of_eq rfl

theorem solveInterval_idm [TiesKept σ I] [TiesKept σ J] {cfg : Config} {sqrt : ℚ → Py ℚ} {fee : Fee} {d d' : IntervalData} (h : IdI σ I J d d') :
    solveInterval cfg sqrt fee d = solveInterval cfg sqrt fee d' := by
  unfold solveInterval localOptima
  simp only [computeConstants_idm h, h.lb, h.ub, solverObjective_idm h.b h.s]

theorem findBestXrate_idm [TiesKept σ I] [TiesKept σ J] {cfg : Config} {sqrt : ℚ → Py ℚ} {fee : Fee} {b b' s s' : List Order} (hb : IdL σ I b b') (hs : IdL σ J s s') :
    findBestXrate cfg sqrt b s fee = findBestXrate cfg sqrt b' s' fee := by
  refine RelE.to_eq ?_
  unfold findBestXrate
  refine RelE.bind (prune_idm hb hs) fun r r' h => ?_
  dsimp only
  rw [solveTrivial_idm h.1 h.2]
  refine RelE.bind_same fun triv => RelE.bind (xrateIntervals_idm h.1 h.2) fun ivs ivs' hi => ?_
  refine RelE.bind (mapE_rel (Q := Eq) hi fun d d' hd => RelE.of_eq (solveInterval_idm hd)) fun rs rs' hrs => ?_
  rw [List.forall₂_eq_eq_eq] at hrs
  subst hrs
  exact RelE.of_eq rfl


end Dex
