import Verif.Proof.RelMatch

/-! # The matching functions commute with a change of units of all amounts

Same layout as `Rel.lean`, `RelMatch.lean` and `RenCore.lean`, for another relation. -/

namespace Dex

namespace Spec

/-- The order with its amounts in other units. -/
def scaleOrder (k : ℚ) (o : Order) : Order :=
  { o with maxSell := k * o.maxSell, origMaxSell := k * o.origMaxSell, buy := k * o.buy, sell := k * o.sell }

/-- `cfg'` has the minimum tradable amount of the matching in other units. -/
structure ScaledCfg (k : ℚ) (cfg cfg' : Config) : Prop where
  min : (cfg'.minRationalTradable : ℚ) = k * cfg.minRationalTradable
  feePrice : cfg'.feeTokenPrice = cfg.feeTokenPrice
  maxNr : cfg'.maxNrExec = cfg.maxNrExec

end Spec

open Spec

/-- The same amount in other units. -/
abbrev ScaQ (k : ℚ) (a b : ℚ) : Prop := b = k * a

/-- The order in other units. -/
abbrev ScaO (k : ℚ) (o o' : Order) : Prop := o' = scaleOrder k o

/-- The list in other units. -/
abbrev ScaL (k : ℚ) (l l' : List Order) : Prop := List.Forall₂ (ScaO k) l l'

theorem scaL_map (k : ℚ) (l : List Order) : ScaL k l (l.map (scaleOrder k)) := by
  induction l with
  | nil => exact List.Forall₂.nil
  | cons a l ih => exact List.Forall₂.cons rfl ih

theorem scaL_iff {k : ℚ} {l l' : List Order} : ScaL k l l' ↔ l' = l.map (scaleOrder k) := by
  constructor
  · intro h
    induction h with
    | nil => rfl
    | cons h _ ih => rw [List.map_cons, h, ih]
  · rintro rfl
    exact scaL_map k l

variable {k : ℚ}

theorem pyAssert_sca {p q : Prop} [Decidable p] [Decidable q] (h : p ↔ q) (m : String) :
    RelE (fun _ _ => True) (pyAssert p m) (pyAssert q m) := by
  unfold pyAssert
  exact RelE.ite h (fun _ => trivial) (fun _ => rfl)

theorem pyDiv_sca {a a' : ℚ} (h : ScaQ k a a') (b : ℚ) : RelE (ScaQ k) (pyDiv a b) (pyDiv a' b) := by
  unfold pyDiv
  split
  · rfl
  · change a' / b = k * (a / b); rw [h]; ring

/-- The quotient of two amounts does not depend on the units. -/
theorem pyDiv_sca' (hk : 0 < k) {a a' b b' : ℚ} (h : ScaQ k a a') (h2 : ScaQ k b b') : pyDiv a b = pyDiv a' b' := by
  unfold pyDiv
  rw [h, h2]
  by_cases hb : b = 0
  · simp [hb]
  · rw [if_neg hb, if_neg (mul_ne_zero hk.ne' hb), mul_div_mul_left _ _ hk.ne']

theorem scaQ_lt (hk : 0 < k) {a a' b b' : ℚ} (h : ScaQ k a a') (h2 : ScaQ k b b') : a < b ↔ a' < b' := by
  rw [h, h2, mul_lt_mul_iff_right₀ hk]

theorem scaQ_le (hk : 0 < k) {a a' b b' : ℚ} (h : ScaQ k a a') (h2 : ScaQ k b b') : a ≤ b ↔ a' ≤ b' := by
  rw [h, h2, mul_le_mul_iff_right₀ hk]

theorem scaQ_zero : ScaQ k 0 0 := by simp [ScaQ]

theorem scaQ_sub {a a' b b' : ℚ} (h : ScaQ k a a') (h2 : ScaQ k b b') : ScaQ k (a - b) (a' - b') := by rw [ScaQ, h, h2]; ring

theorem scaQ_add {a a' b b' : ℚ} (h : ScaQ k a a') (h2 : ScaQ k b b') : ScaQ k (a + b) (a' + b') := by rw [ScaQ, h, h2]; ring

theorem scaQ_mul {a a' : ℚ} (h : ScaQ k a a') (c : ℚ) : ScaQ k (a * c) (a' * c) := by rw [ScaQ, h]; ring

theorem scaQ_mul' {a a' : ℚ} (h : ScaQ k a a') (c : ℚ) : ScaQ k (c * a) (c * a') := by rw [ScaQ, h]; ring

theorem scaQ_eq (hk : 0 < k) {a a' b b' : ℚ} (h : ScaQ k a a') (h2 : ScaQ k b b') : a = b ↔ a' = b' := by
  rw [h, h2, mul_right_inj' hk.ne']

theorem scaQ_min (hk : 0 < k) {a a' b b' : ℚ} (h : ScaQ k a a') (h2 : ScaQ k b b') : ScaQ k (min a b) (min a' b') := by
  rw [ScaQ, h, h2, mul_min_of_nonneg _ _ hk.le]

theorem scaQ_max (hk : 0 < k) {a a' b b' : ℚ} (h : ScaQ k a a') (h2 : ScaQ k b b') : ScaQ k (max a b) (max a' b') := by
  rw [ScaQ, h, h2, mul_max_of_nonneg _ _ hk.le]

theorem sum_sca {f : Order → ℚ} (hf : ∀ o, f (scaleOrder k o) = k * f o) {l l' : List Order} (h : ScaL k l l') :
    ScaQ k (l.map f).sum (l'.map f).sum := by
  induction h with
  | nil => exact scaQ_zero
  | cons h _ ih => rw [List.map_cons, List.map_cons, List.sum_cons, List.sum_cons, h]; exact scaQ_add (hf _) ih

theorem sumE_sca {f g : Order → Py ℚ} {l l' : List Order} (h : ScaL k l l') (hf : ∀ a b, ScaO k a b → RelE (ScaQ k) (f a) (g b)) :
    RelE (ScaQ k) (sumE f l) (sumE g l') := by
  induction h with
  | nil => exact scaQ_zero
  | cons h _ ih =>
    unfold sumE
    exact RelE.bind (hf _ _ h) fun a b hab => RelE.bind ih fun c d hcd => scaQ_add hab hcd

theorem sorted_sca (hk : 0 < k) {l l' : List Order} (h : ScaL k l l') : ScaL k (sortedByExecPriority l) (sortedByExecPriority l') := by
  unfold sortedByExecPriority
  refine insertionSort_rel h fun a b a' b' h1 h2 => ?_
  cases h1
  cases h2
  unfold orderLt scaleOrder
  simp only [ne_eq, mul_right_inj' hk.ne', sub_neg, mul_lt_mul_iff_right₀ hk]

/-! ### compute_buy_amounts -/

/-- Related states of the execution loops. -/
structure ScaX (k : ℚ) (st st' : ExecState) : Prop where
  bi : st.bi = st'.bi
  si : st.si = st'.si
  b : ScaL k st.b st'.b
  s : ScaL k st.s st'.s

theorem addBuy_sca {d d' : ℚ} (hd : ScaQ k d d') (a b : Order) (h : ScaO k a b) : ScaO k (Order.addBuy d a) (Order.addBuy d' b) := by
  cases h; cases hd
  unfold ScaO Order.addBuy Order.withBuy scaleOrder
  simp [mul_add]

theorem subBuy_sca {d d' : ℚ} (hd : ScaQ k d d') (a b : Order) (h : ScaO k a b) : ScaO k (Order.subBuy d a) (Order.subBuy d' b) := by
  cases h; cases hd
  unfold ScaO Order.subBuy Order.withBuy scaleOrder
  simp [mul_sub]

theorem clearBuy_sca (a b : Order) (h : ScaO k a b) : ScaO k (Order.clearBuy a) (Order.clearBuy b) := by
  cases h
  unfold ScaO Order.clearBuy Order.withBuy scaleOrder
  simp

theorem bBuyFromBSell_sca {a a' x : ℚ} {fee : Fee} (h : ScaQ k a a') : RelE (ScaQ k) (bBuyFromBSell a x fee) (bBuyFromBSell a' x fee) := by
  unfold bBuyFromBSell
  exact RelE.bind (pyDiv_sca h x) fun _ _ h => scaQ_mul h _

theorem sBuyFromSSell_sca {a a' x : ℚ} {fee : Fee} (h : ScaQ k a a') : RelE (ScaQ k) (sBuyFromSSell a x fee) (sBuyFromSSell a' x fee) :=
  scaQ_mul (scaQ_mul h _) _

theorem bSellFromBBuy_sca {a a' x : ℚ} {fee : Fee} (h : ScaQ k a a') : RelE (ScaQ k) (bSellFromBBuy a x fee) (bSellFromBBuy a' x fee) :=
  pyDiv_sca (scaQ_mul h _) _

theorem sBuyFromBBuy_sca {a a' x : ℚ} {fee : Fee} (h : ScaQ k a a') : RelE (ScaQ k) (sBuyFromBBuy a x fee) (sBuyFromBBuy a' x fee) :=
  pyDiv_sca (scaQ_mul h _) _

theorem bBuyFromSBuy_sca {a a' x : ℚ} {fee : Fee} (h : ScaQ k a a') : RelE (ScaQ k) (bBuyFromSBuy a x fee) (bBuyFromSBuy a' x fee) := by
  unfold bBuyFromSBuy
  exact RelE.bind (pyDiv_sca h x) fun _ _ h => scaQ_mul h _

theorem sSellFromSBuy_sca {a a' x : ℚ} {fee : Fee} (h : ScaQ k a a') : RelE (ScaQ k) (sSellFromSBuy a x fee) (sSellFromSBuy a' x fee) := by
  unfold sSellFromSBuy
  exact RelE.bind (pyDiv_sca h x) fun _ _ h => pyDiv_sca h _

theorem executeOrderPair_sca (hk : 0 < k) {x : ℚ} {fee : Fee} {st st' : ExecState} (h : ScaX k st st') :
    RelE (ScaX k) (executeOrderPair x fee st) (executeOrderPair x fee st') := by
  obtain ⟨bi, si, b, s⟩ := st
  obtain ⟨bi', si', b', s'⟩ := st'
  obtain ⟨rfl, rfl, hb, hs⟩ := h
  unfold executeOrderPair
  refine RelE.bind (pyGet_rel hb bi) fun bo bo' h1 => RelE.bind (pyGet_rel hs si) fun so so' h2 => ?_
  cases h1
  cases h2
  refine RelE.bind (bBuyFromBSell_sca (a := bo.maxSell) rfl) fun bMax bMax' hB => RelE.bind (sBuyFromSSell_sca (a := so.maxSell) rfl) fun sMax sMax' hS => ?_
  have hbu : ScaQ k (bMax - bo.buy) (bMax' - (scaleOrder k bo).buy) := scaQ_sub hB rfl
  have hsu : ScaQ k (sMax - so.buy) (sMax' - (scaleOrder k so).buy) := scaQ_sub hS rfl
  refine RelE.bind (R := fun _ _ => True) ?_ fun _ _ _ => RelE.bind (bBuyFromSBuy_sca hsu) fun bFromS bFromS' h3 =>
    RelE.bind (sBuyFromBBuy_sca hbu) fun sFromB sFromB' h4 => ?_
  · refine pyAssert_sca (and_congr (scaQ_le hk scaQ_zero hbu) (scaQ_le hk scaQ_zero hsu)) _
  refine RelE.ite (scaQ_lt hk hbu h3) (fun _ => ?_) (fun _ => RelE.ite (scaQ_lt hk h3 hbu) (fun _ => ?_) (fun _ => ?_))
  · exact RelE.bind (pyModify_rel hb bi (addBuy_sca hbu)) fun b1 b2 hb' => RelE.bind (pyModify_rel hs si (addBuy_sca h4)) fun s1 s2 hs' => ScaX.mk rfl rfl hb' hs'
  · exact RelE.bind (pyModify_rel hb bi (addBuy_sca h3)) fun b1 b2 hb' => RelE.bind (pyModify_rel hs si (addBuy_sca hsu)) fun s1 s2 hs' => ScaX.mk rfl rfl hb' hs'
  · exact RelE.bind (pyModify_rel hb bi (addBuy_sca hbu)) fun b1 b2 hb' => RelE.bind (pyModify_rel hs si (addBuy_sca hsu)) fun s1 s2 hs' => ScaX.mk rfl rfl hb' hs'

theorem undoOrderPair_sca (hk : 0 < k) {x : ℚ} {fee : Fee} {st st' : ExecState} (h : ScaX k st st') :
    RelE (ScaX k) (undoOrderPair x fee st) (undoOrderPair x fee st') := by
  obtain ⟨bi, si, b, s⟩ := st
  obtain ⟨bi', si', b', s'⟩ := st'
  obtain ⟨rfl, rfl, hb, hs⟩ := h
  unfold undoOrderPair
  refine RelE.bind (pyGet_rel hb bi) fun bo bo' h1 => RelE.bind (pyGet_rel hs si) fun so so' h2 => ?_
  cases h1
  cases h2
  have hbu : ScaQ k bo.buy (scaleOrder k bo).buy := rfl
  have hsu : ScaQ k so.buy (scaleOrder k so).buy := rfl
  refine RelE.bind (R := fun _ _ => True) ?_ fun _ _ _ => RelE.bind (bBuyFromSBuy_sca hsu) fun bFromS bFromS' h3 =>
    RelE.bind (sBuyFromBBuy_sca hbu) fun sFromB sFromB' h4 => ?_
  · refine pyAssert_sca (and_congr (scaQ_le hk scaQ_zero hbu) (scaQ_le hk scaQ_zero hsu)) _
  refine RelE.ite (scaQ_lt hk hbu h3) (fun _ => ?_) (fun _ => RelE.ite (scaQ_lt hk h3 hbu) (fun _ => ?_) (fun _ => ?_))
  · exact RelE.bind (pyModify_rel hb bi clearBuy_sca) fun b1 b2 hb' => RelE.bind (pyModify_rel hs si (subBuy_sca h4)) fun s1 s2 hs' => ScaX.mk rfl rfl hb' hs'
  · exact RelE.bind (pyModify_rel hb bi (subBuy_sca h3)) fun b1 b2 hb' => RelE.bind (pyModify_rel hs si clearBuy_sca) fun s1 s2 hs' => ScaX.mk rfl rfl hb' hs'
  · exact RelE.bind (pyModify_rel hb bi clearBuy_sca) fun b1 b2 hb' => RelE.bind (pyModify_rel hs si clearBuy_sca) fun s1 s2 hs' => ScaX.mk rfl rfl hb' hs'

theorem removeBuyLoop_sca (hk : 0 < k) {fuel : ℕ} {i : ℤ} {l l' : List Order} {amt amt' : ℚ} (h : ScaL k l l') (ha : ScaQ k amt amt') :
    RelE (fun r r' : ℤ × List Order => r.1 = r'.1 ∧ ScaL k r.2 r'.2) (removeBuyLoop fuel i l amt) (removeBuyLoop fuel i l' amt') := by
  induction fuel generalizing i l l' amt amt' with
  | zero => rfl
  | succ fuel ih =>
    unfold removeBuyLoop
    refine RelE.ite (scaQ_lt hk scaQ_zero ha) (fun _ => ?_) (fun _ => ⟨rfl, h⟩)
    refine RelE.bind_same fun _ => RelE.bind (pyGet_rel h i) fun o o' ho => ?_
    cases ho
    have hd : ScaQ k (min o.buy amt) (min (scaleOrder k o).buy amt') := scaQ_min hk rfl ha
    refine RelE.bind (pyModify_rel h i (subBuy_sca hd)) fun l1 l2 hl => RelE.bind (pyGet_rel hl i) fun u u' hu => ?_
    cases hu
    have he : ((scaleOrder k u).buy = 0) = (u.buy = 0) := propext (scaQ_eq hk (a := u.buy) rfl scaQ_zero).symm
    simp only [he]
    exact ih hl (scaQ_sub ha hd)

theorem undoB_sca (hk : 0 < k) {x : ℚ} {fee : Fee} {st st' : ExecState} (h : ScaX k st st') : RelE (ScaX k) (undoB x fee st) (undoB x fee st') := by
  obtain ⟨bi, si, b, s⟩ := st
  obtain ⟨bi', si', b', s'⟩ := st'
  obtain ⟨rfl, rfl, hb, hs⟩ := h
  unfold undoB
  refine RelE.bind (pyGet_rel hb bi) fun bo bo' h1 => ?_
  cases h1
  refine RelE.bind (sBuyFromBBuy_sca (a := bo.buy) rfl) fun amt amt' ha => ?_
  refine RelE.bind (R := fun r r' : ℤ × List Order => r.1 = r'.1 ∧ ScaL k r.2 r'.2) ?_ fun r r' hr => ?_
  · unfold removeBuyAmount
    rw [hs.length_eq]
    exact removeBuyLoop_sca hk hs ha
  · obtain ⟨i, l⟩ := r
    obtain ⟨i', l'⟩ := r'
    obtain ⟨rfl, hl⟩ := hr
    exact RelE.bind (pyModify_rel hb bi clearBuy_sca) fun b1 b2 hb' => RelE.bind_same fun _ => ScaX.mk rfl rfl hb' hl

theorem undoS_sca (hk : 0 < k) {x : ℚ} {fee : Fee} {st st' : ExecState} (h : ScaX k st st') : RelE (ScaX k) (undoS x fee st) (undoS x fee st') := by
  obtain ⟨bi, si, b, s⟩ := st
  obtain ⟨bi', si', b', s'⟩ := st'
  obtain ⟨rfl, rfl, hb, hs⟩ := h
  unfold undoS
  refine RelE.bind (pyGet_rel hs si) fun so so' h1 => ?_
  cases h1
  refine RelE.bind (bBuyFromSBuy_sca (a := so.buy) rfl) fun amt amt' ha => ?_
  refine RelE.bind (R := fun r r' : ℤ × List Order => r.1 = r'.1 ∧ ScaL k r.2 r'.2) ?_ fun r r' hr => ?_
  · unfold removeBuyAmount
    rw [hb.length_eq]
    exact removeBuyLoop_sca hk hb ha
  · obtain ⟨i, l⟩ := r
    obtain ⟨i', l'⟩ := r'
    obtain ⟨rfl, hl⟩ := hr
    exact RelE.bind (pyModify_rel hs si clearBuy_sca) fun b1 b2 hb' => RelE.bind_same fun _ => ScaX.mk rfl rfl hl hb'

/-- Related results of the undo functions. -/
abbrev ScaXB (k : ℚ) (r r' : ExecState × Bool) : Prop := ScaX k r.1 r'.1 ∧ r.2 = r'.2

variable {cfg cfg' : Config}

theorem undoMinB_sca (hk : 0 < k) (hc : ScaledCfg k cfg cfg') {x : ℚ} {fee : Fee} {st st' : ExecState} (h : ScaX k st st') :
    RelE (ScaXB k) (undoMinB cfg x fee st) (undoMinB cfg' x fee st') := by
  unfold undoMinB
  dsimp only
  rw [← h.bi]
  refine RelE.bind (pyGet_rel h.b st.bi) fun bo bo' h1 => ?_
  cases h1
  refine RelE.bind (bSellFromBBuy_sca (a := bo.buy) rfl) fun q q' hq => RelE.ite (or_congr (scaQ_lt hk rfl hc.min) (scaQ_lt hk hq hc.min)) (fun _ => ?_) (fun _ => ⟨h, rfl⟩)
  exact RelE.bind (undoB_sca hk h) fun _ _ h' => ⟨h', rfl⟩

theorem undoMinS_sca (hk : 0 < k) (hc : ScaledCfg k cfg cfg') {x : ℚ} {fee : Fee} {st st' : ExecState} {u : Bool} (h : ScaX k st st') :
    RelE (ScaXB k) (undoMinS cfg x fee st u) (undoMinS cfg' x fee st' u) := by
  unfold undoMinS
  dsimp only
  rw [← h.si]
  refine RelE.bind (pyGet_rel h.s st.si) fun so so' h1 => ?_
  cases h1
  refine RelE.bind (sSellFromSBuy_sca (a := so.buy) rfl) fun q q' hq => RelE.ite (or_congr (scaQ_lt hk rfl hc.min) (scaQ_lt hk hq hc.min)) (fun _ => ?_) (fun _ => ⟨h, rfl⟩)
  exact RelE.bind (undoS_sca hk h) fun _ _ h' => ⟨h', rfl⟩

theorem undoMinTradable_sca (hk : 0 < k) (hc : ScaledCfg k cfg cfg') {x : ℚ} {fee : Fee} {st st' : ExecState} (h : ScaX k st st') :
    RelE (ScaXB k) (undoMinTradable cfg x fee st) (undoMinTradable cfg' x fee st') := by
  unfold undoMinTradable
  refine RelE.ite (by rw [h.bi]) (fun _ => ⟨h, rfl⟩) (fun _ => ?_)
  refine RelE.bind (undoMinB_sca hk hc h) fun r r' hr => ?_
  obtain ⟨st1, u⟩ := r
  obtain ⟨st2, u'⟩ := r'
  obtain ⟨hr, rfl⟩ := hr
  exact RelE.ite (by rw [hr.si]) (fun _ => ⟨hr, rfl⟩) (fun _ => undoMinS_sca hk hc hr)

theorem execLoop_sca (hk : 0 < k) {x : ℚ} {fee : Fee} {maxNr : ℤ} {fuel : ℕ} {st st' : ExecState} (h : ScaX k st st') :
    RelE (ScaX k) (execLoop x fee maxNr fuel st) (execLoop x fee maxNr fuel st') := by
  induction fuel generalizing st st' with
  | zero => rfl
  | succ fuel ih =>
    unfold execLoop
    refine RelE.ite (by rw [h.bi, h.si, h.b.length_eq, h.s.length_eq]) (fun _ => ?_) (fun _ => h)
    exact RelE.bind (executeOrderPair_sca hk h) fun _ _ h' => ih h'

theorem undoLoop_sca (hk : 0 < k) (hc : ScaledCfg k cfg cfg') {x : ℚ} {fee : Fee} {fuel : ℕ} {st st' : ExecState} (h : ScaX k st st') :
    RelE (ScaX k) (undoLoop cfg x fee fuel st) (undoLoop cfg' x fee fuel st') := by
  induction fuel generalizing st st' with
  | zero => rfl
  | succ fuel ih =>
    unfold undoLoop
    refine RelE.bind (undoMinTradable_sca hk hc h) fun r r' hr => ?_
    obtain ⟨st1, u⟩ := r
    obtain ⟨st2, u'⟩ := r'
    obtain ⟨hr, rfl⟩ := hr
    exact RelE.ite Iff.rfl (fun _ => ih hr) (fun _ => hr)

theorem lastExecuted_sca (hk : 0 < k) {l l' : List Order} {i : ℤ} (h : ScaL k l l') : lastExecuted l i = lastExecuted l' i := by
  refine RelE.to_eq ?_
  unfold lastExecuted
  refine RelE.ite (by rw [h.length_eq]) (fun _ => ?_) (fun _ => RelE.of_eq rfl)
  refine RelE.bind (pyGet_rel h i) fun o o' ho => ?_
  cases ho
  have he : ((scaleOrder k o).buy > 0) = (o.buy > 0) := propext (scaQ_lt hk scaQ_zero (b := o.buy) rfl).symm
  simp only [he]
  exact RelE.of_eq rfl

/-- Related pairs of lists. -/
abbrev ScaL2 (k : ℚ) (r r' : List Order × List Order) : Prop := ScaL k r.1 r'.1 ∧ ScaL k r.2 r'.2

theorem executeSorted_sca (hk : 0 < k) (hc : ScaledCfg k cfg cfg') {x : ℚ} {fee : Fee} {maxNr : ℤ} {b b' s s' : List Order} (hb : ScaL k b b') (hs : ScaL k s s') :
    RelE (ScaL2 k) (executeSorted cfg x fee maxNr b s) (executeSorted cfg' x fee maxNr b' s') := by
  unfold executeSorted
  rw [hb.length_eq, hs.length_eq]
  refine RelE.bind (execLoop_sca hk ⟨rfl, rfl, hb, hs⟩) fun st st' h => ?_
  rw [h.bi, h.si, lastExecuted_sca hk h.b]
  refine RelE.bind_same fun bi => ?_
  rw [lastExecuted_sca hk h.s]
  refine RelE.bind_same fun si => ?_
  dsimp only
  refine RelE.ite Iff.rfl (fun _ => RelE.bind_same fun _ => RelE.bind (undoOrderPair_sca hk ⟨rfl, rfl, h.b, h.s⟩) fun st1 st2 h' => ?_)
    (fun _ => RelE.bind (RelE.pure' (R := ScaX k) ⟨rfl, rfl, h.b, h.s⟩) fun st1 st2 h' => ?_)
  all_goals
    refine RelE.bind (undoLoop_sca hk hc h') fun st3 st4 h'' => ?_
    refine RelE.bind (R := fun _ _ => True) ?_ fun _ _ _ => ⟨h''.b, h''.s⟩
    refine pyAssert_sca (scaQ_eq hk (scaQ_mul (sum_sca (f := (·.buy)) (fun _ => rfl) h''.b) x) (scaQ_mul (sum_sca (f := (·.buy)) (fun _ => rfl) h''.s) (1 - fee.value))) _

theorem filterMaxXrate_sca {x : ℚ} {fee : Fee} {b b' s s' : List Order} (hb : ScaL k b b') (hs : ScaL k s s') :
    RelE (ScaL2 k) (filterMaxXrate x b s fee) (filterMaxXrate x b' s' fee) := by
  unfold filterMaxXrate
  refine RelE.bind (filterE_rel hs (by rintro a _ rfl; rfl)) fun s1 s2 h => ?_
  exact ⟨filter_rel hb (by rintro a _ rfl; rfl), h⟩

theorem filterMinTradable_sca (hk : 0 < k) (hc : ScaledCfg k cfg cfg') {x : ℚ} {fee : Fee} {b b' s s' : List Order} (hb : ScaL k b b') (hs : ScaL k s s') :
    RelE (ScaL2 k) (filterMinTradable cfg x b s fee) (filterMinTradable cfg' x b' s' fee) := by
  unfold filterMinTradable
  refine RelE.bind (filterE_rel hb ?_) fun b1 b2 h1 => RelE.bind (filterE_rel hs ?_) fun s1 s2 h2 => ⟨h1, h2⟩
  · rintro a _ rfl
    refine RelE.to_eq (RelE.ite (scaQ_le hk hc.min rfl) (fun _ => ?_) (fun _ => RelE.of_eq rfl))
    exact RelE.bind (bBuyFromBSell_sca (a := a.maxSell) rfl) fun v v' hv => decide_eq_decide.2 (scaQ_le hk hc.min hv)
  · rintro a _ rfl
    refine RelE.to_eq (RelE.ite (scaQ_le hk hc.min rfl) (fun _ => ?_) (fun _ => RelE.of_eq rfl))
    exact RelE.bind (sBuyFromSSell_sca (a := a.maxSell) rfl) fun v v' hv => decide_eq_decide.2 (scaQ_le hk hc.min hv)

theorem computeBuyAmounts_sca (hk : 0 < k) (hc : ScaledCfg k cfg cfg') {x : ℚ} {fee : Fee} {maxNr : ℤ} {b b' s s' : List Order} (hb : ScaL k b b') (hs : ScaL k s s') :
    RelE (ScaL2 k) (computeBuyAmounts cfg x b s fee maxNr) (computeBuyAmounts cfg' x b' s' fee maxNr) := by
  have hb0 : ScaL k (b.map Order.clearBuy) (b'.map Order.clearBuy) := map_forall₂ hb clearBuy_sca
  have hs0 : ScaL k (s.map Order.clearBuy) (s'.map Order.clearBuy) := map_forall₂ hs clearBuy_sca
  have hid : ∀ a b, ScaO k a b → a.id = b.id := by rintro a _ rfl; rfl
  unfold computeBuyAmounts
  dsimp only
  refine RelE.bind (filterMaxXrate_sca hb0 hs0) fun r r' h1 => RelE.bind (filterMinTradable_sca hk hc h1.1 h1.2) fun q q' h2 => ?_
  refine RelE.ite (by rw [h2.1.length_eq, h2.2.length_eq]) (fun _ => ⟨hb0, hs0⟩) (fun _ => ?_)
  refine RelE.bind (executeSorted_sca hk hc (sorted_sca hk h2.1) (sorted_sca hk h2.2)) fun t t' h3 => ?_
  exact ⟨writeBack_rel hid hb0 h3.1, writeBack_rel hid hs0 h3.2⟩

/-! ### The objective -/

theorem ratUtility_sca {o o' : Order} {x p : ℚ} {fee : Fee} (h : ScaO k o o') : RelE (ScaQ k) (ratUtility o x p fee) (ratUtility o' x p fee) := by
  cases h
  unfold ratUtility ratSellFromBuy
  exact RelE.bind (pyDiv_sca (scaQ_mul (a := o.buy) rfl x) _) fun q q' hq => RelE.bind (pyDiv_sca hq _) fun r r' hr => scaQ_mul' (scaQ_sub (a := o.buy) rfl hr) _

theorem ratObjectiveTerm_sca (hk : 0 < k) {o o' : Order} {x p : ℚ} {fee : Fee} (h : ScaO k o o') :
    RelE (ScaQ k) (ratObjectiveTerm o x p fee) (ratObjectiveTerm o' x p fee) := by
  unfold ratObjectiveTerm ratMaxUtility
  refine RelE.bind (ratUtility_sca h) fun u u' hu => RelE.bind (R := ScaQ k) ?_ fun m m' hm => scaQ_sub (scaQ_mul' hu 2) hm
  cases h
  refine RelE.bind (pyDiv_sca (a := o.maxSell) rfl x) fun q q' hq => ?_
  refine RelE.bind (ratUtility_sca ?_) fun v v' hv => scaQ_max hk scaQ_zero hv
  cases hq
  unfold ScaO Order.withBuy scaleOrder
  simp [mul_assoc]

theorem objectiveForOrders_sca (hk : 0 < k) {l l' : List Order} {x p : ℚ} {fee : Fee} (h : ScaL k l l') :
    RelE (ScaQ k) (objectiveForOrders l x p fee) (objectiveForOrders l' x p fee) :=
  sumE_sca h fun _ _ hab => ratObjectiveTerm_sca hk hab

theorem imbalance_sca {b b' s s' : List Order} {x p : ℚ} {fee : Fee} (hb : ScaL k b b') (hs : ScaL k s s') :
    RelE (ScaQ k) (bBuyTokenImbalance b s x p fee) (bBuyTokenImbalance b' s' x p fee) := by
  unfold bBuyTokenImbalance
  refine RelE.bind_same fun inv => RelE.bind_same fun _ => RelE.bind (sumE_sca hs ?_) fun t t' ht => scaQ_sub ht (sum_sca (fun _ => rfl) hb)
  rintro a _ rfl
  exact pyDiv_sca (scaQ_mul (a := a.buy) rfl _) _

theorem objectiveRational_sca (hk : 0 < k) (hc : ScaledCfg k cfg cfg') {b b' s s' f f' : List Order} {x p : ℚ} {fee : Fee} (hb : ScaL k b b') (hs : ScaL k s s')
    (hf : ScaL k f f') : RelE (ScaQ k) (computeObjectiveRational cfg b s f x p fee) (computeObjectiveRational cfg' b' s' f' x p fee) := by
  unfold computeObjectiveRational
  rw [hc.feePrice]
  refine RelE.bind (objectiveForOrders_sca hk hb) fun t1 t1' h1 => RelE.bind_same fun inv => RelE.bind_same fun sp =>
    RelE.bind (objectiveForOrders_sca hk hs) fun t2 t2' h2 => RelE.bind_same fun fx => RelE.bind (objectiveForOrders_sca hk hf) fun t3 t3' h3 =>
    RelE.bind (imbalance_sca hb hs) fun i i' hi => RelE.bind (pyDiv_sca (scaQ_mul hi p) _) fun g g' hg => ?_
  refine scaQ_add (scaQ_add (scaQ_add h1 h2) h3) ?_
  rw [ScaQ, hg]; ring

theorem solverObjective_sca (hk : 0 < k) (hc : ScaledCfg k cfg cfg') {fee : Fee} {b b' s s' : List Order} (hb : ScaL k b b') (hs : ScaL k s s') (x : ℚ) :
    RelE (ScaQ k) (solverObjective cfg fee b s x) (solverObjective cfg' fee b' s' x) := by
  unfold solverObjective
  rw [hc.maxNr]
  exact RelE.bind (computeBuyAmounts_sca hk hc hb hs) fun r r' h => objectiveRational_sca hk hc h.1 h.2 List.Forall₂.nil

/-! ### The rate search -/

/-- The same rate, with the objective in other units. -/
abbrev ScaR (k : ℚ) (r r' : ℚ × ℚ) : Prop := r.1 = r'.1 ∧ ScaQ k r.2 r'.2

theorem pyMaxBy_sca (hk : 0 < k) {l l' : List (ℚ × ℚ)} (h : List.Forall₂ (ScaR k) l l') : RelE (ScaR k) (pyMaxBy (·.2) l) (pyMaxBy (·.2) l') := by
  cases h with
  | nil => rfl
  | @cons a a' l l' ha h =>
    change ScaR k (maxByAux _ _ _) (maxByAux _ _ _)
    induction h generalizing a a' with
    | nil => exact ha
    | @cons c c' l l' hc _ ih =>
      unfold maxByAux
      apply ih
      by_cases hlt : a.2 < c.2
      · rw [if_pos hlt, if_pos ((scaQ_lt hk ha.2 hc.2).1 hlt)]; exact hc
      · rw [if_neg hlt, if_neg (fun hh => hlt ((scaQ_lt hk ha.2 hc.2).2 hh))]; exact ha

/-- Related objective functions. -/
abbrev ScaF (k : ℚ) (f f' : ℚ → Py ℚ) : Prop := ∀ x, RelE (ScaQ k) (f x) (f' x)

theorem evalAll_sca {f f' : ℚ → Py ℚ} (hf : ScaF k f f') (xs : List ℚ) :
    RelE (List.Forall₂ (ScaR k)) (mapE (fun x => do let o ← f x; pure (x, o)) xs) (mapE (fun x => do let o ← f' x; pure (x, o)) xs) := by
  refine mapE_rel (R := Eq) (by rw [List.forall₂_eq_eq_eq]) ?_
  rintro x _ rfl
  exact RelE.bind (hf x) fun o o' ho => ⟨rfl, ho⟩

theorem binSearchLoop_sca (hk : 0 < k) {f f' : ℚ → Py ℚ} (hf : ScaF k f f') (xs : List ℚ) (fuel : ℕ) (l r : ℤ) :
    binSearchLoop f xs fuel l r = binSearchLoop f' xs fuel l r := by
  induction fuel generalizing l r with
  | zero => rfl
  | succ fuel ih =>
    have slope : ∀ i : ℤ, RelE (ScaQ k) (do let x ← pyGet xs i; let a ← f x; let y ← pyGet xs (i - 1); let b ← f y; pure (a - b))
        (do let x ← pyGet xs i; let a ← f' x; let y ← pyGet xs (i - 1); let b ← f' y; pure (a - b)) := fun i =>
      RelE.bind_same fun x => RelE.bind (hf x) fun a a' ha => RelE.bind_same fun y => RelE.bind (hf y) fun b b' hb => scaQ_sub ha hb
    refine RelE.to_eq ?_
    unfold binSearchLoop
    refine RelE.ite Iff.rfl (fun _ => ?_) (fun _ => RelE.of_eq rfl)
    refine RelE.bind (slope l) fun dl dl' hl => RelE.bind (slope r) fun dr dr' hr => RelE.bind (slope _) fun dc dc' hd => ?_
    have hprod : dl * dc > 0 ↔ dl' * dc' > 0 := by
      rw [hl, hd, show k * dl * (k * dc) = k ^ 2 * (dl * dc) by ring]
      constructor
      · intro h; positivity
      · intro h; exact pos_of_mul_pos_right h (by positivity)
    refine RelE.ite hprod (fun _ => ?_) (fun _ => ?_)
    · exact RelE.bind (pyAssert_sca (scaQ_lt hk scaQ_zero hl) _) fun _ _ _ => RelE.of_eq (ih _ _)
    · exact RelE.bind (pyAssert_sca (scaQ_lt hk hr scaQ_zero) _) fun _ _ _ => RelE.bind (pyAssert_sca (scaQ_lt hk hd scaQ_zero) _) fun _ _ _ => RelE.of_eq (ih _ _)

theorem binSearch_sca (hk : 0 < k) {f f' : ℚ → Py ℚ} (hf : ScaF k f f') (xs : List ℚ) : RelE (ScaR k) (binSearch f xs) (binSearch f' xs) := by
  unfold binSearch
  refine RelE.ite Iff.rfl (fun _ => ?_) (fun _ => ?_)
  · exact RelE.bind (evalAll_sca hf xs) fun l l' h => pyMaxBy_sca hk h
  · refine RelE.bind_same fun x0 => RelE.bind_same fun x1 => RelE.bind (hf x0) fun f0 f0' h0 => RelE.bind (hf x1) fun f1 f1' h1 => ?_
    refine RelE.ite (scaQ_lt hk h1 h0) (fun _ => ⟨rfl, h0⟩) (fun _ => ?_)
    refine RelE.bind_same fun y0 => RelE.bind_same fun y1 => RelE.bind (hf y0) fun g0 g0' h0 => RelE.bind (hf y1) fun g1 g1' h1 => ?_
    refine RelE.ite (scaQ_lt hk h1 h0) (fun _ => ⟨rfl, h0⟩) (fun _ => ?_)
    rw [binSearchLoop_sca hk hf]
    exact RelE.bind_same fun c => RelE.bind_same fun x => RelE.bind (hf x) fun o o' ho => ⟨rfl, ho⟩

/-- Related optional results. -/
def ScaOpt (k : ℚ) : Option (ℚ × ℚ) → Option (ℚ × ℚ) → Prop
  | none, none => True
  | some r, some r' => ScaR k r r'
  | _, _ => False

theorem trivialCandidates_sca {fee : Fee} {b b' s s' : List Order} (hb : ScaL k b b') (hs : ScaL k s s') :
    trivialCandidates b s fee = trivialCandidates b' s' fee := by
  unfold trivialCandidates
  dsimp only
  rw [map_rel (f := fun o => root1 o fee) (g := fun o => root1 o fee) hb (by intro a b hab; cases hab; rfl)]
  refine RelE.to_eq (RelE.bind (mapE_rel (Q := Eq) hs ?_) fun l l' e => ?_)
  · intro a b hab
    cases hab
    exact RelE.of_eq rfl
  · rw [List.forall₂_eq_eq_eq] at e
    exact e ▸ RelE.of_eq rfl

theorem solveTrivial_sca (hk : 0 < k) (hc : ScaledCfg k cfg cfg') {fee : Fee} {b b' s s' : List Order} (hb : ScaL k b b') (hs : ScaL k s s') :
    RelE (ScaOpt k) (solveTrivial cfg fee b s) (solveTrivial cfg' fee b' s') := by
  unfold solveTrivial
  rw [trivialCandidates_sca hb hs]
  refine RelE.bind_same fun xs => RelE.ite Iff.rfl (fun _ => trivial) (fun _ => ?_)
  exact RelE.bind (binSearch_sca hk (solverObjective_sca hk hc hb hs) _) fun r r' h => h

theorem maxXrates_sca {l l' : List Order} (h : ScaL k l l') : l.map (·.maxXrate) = l'.map (·.maxXrate) :=
  map_rel h (by intro a b hab; cases hab; rfl)

theorem prune_sca {fee : Fee} {b b' s s' : List Order} (hb : ScaL k b b') (hs : ScaL k s s') :
    RelE (ScaL2 k) (pruneUnrealizable b s fee) (pruneUnrealizable b' s' fee) := by
  unfold pruneUnrealizable
  dsimp only
  rw [maxXrates_sca hb, maxXrates_sca hs]
  refine RelE.bind_same fun bMax => RelE.bind_same fun sMax => ?_
  refine RelE.bind (filterE_rel hb (by intro a b hab; cases hab; rfl)) fun b1 b2 h1 => ?_
  refine RelE.bind (filterE_rel hs (by intro a b hab; cases hab; rfl)) fun s1 s2 h2 => ?_
  exact ⟨h1, h2⟩

/-- Related variants. -/
structure ScaV (k : ℚ) (v v' : Variant) : Prop where
  isB : v.isB = v'.isB
  xrate : v.xrate = v'.xrate
  data : ScaO k v.data v'.data

/-- Related interval data. -/
structure ScaI (k : ℚ) (d d' : IntervalData) : Prop where
  lb : d.lb = d'.lb
  ub : d.ub = d'.ub
  b : ScaL k d.b d'.b
  s : ScaL k d.s d'.s
  bp : d.bPartial = d'.bPartial
  sp : d.sPartial = d'.sPartial

/-- Related loop states. -/
structure ScaIS (k : ℚ) (st st' : IntervalState) : Prop where
  prev : st.prev = st'.prev
  b : ScaL k st.bExec st'.bExec
  s : ScaL k st.sExec st'.sExec
  bUb : ScaQ k st.bUb st'.bUb
  sUb : ScaQ k st.sUb st'.sUb

theorem maxSell_sca {o o' : Order} (h : ScaO k o o') : ScaQ k o.maxSell o'.maxSell := by
  cases h; rfl

theorem maxXrate_sca {o o' : Order} (h : ScaO k o o') : o.maxXrate = o'.maxXrate := by
  cases h; rfl

theorem maxSells_sca {l l' : List Order} (h : ScaL k l l') : ScaQ k (l.map (·.maxSell)).sum (l'.map (·.maxSell)).sum :=
  sum_sca (fun _ => rfl) h

theorem partialIdxLoop_sca (hk : 0 < k) {lb ub lb' ub' : ℚ} {i : ℕ} {cur cur' : ℚ} {l l' : List Order} (h : ScaL k l l') (h1 : ScaQ k lb lb')
    (h2 : ScaQ k ub ub') (h3 : ScaQ k cur cur') : partialIdxLoop lb ub i cur l = partialIdxLoop lb' ub' i cur' l' := by
  induction h generalizing i cur cur' with
  | nil => rfl
  | cons h _ ih =>
    unfold partialIdxLoop
    have hd := scaQ_sub h3 (maxSell_sca h)
    rw [ih hd]
    simp only [scaQ_lt hk h3 h1, scaQ_le hk hd h2]

theorem intervalUpdate_sca {st st' : IntervalState} {v v' : Variant} (h : ScaIS k st st') (hv : ScaV k v v') :
    RelE (ScaIS k) (intervalUpdate st v) (intervalUpdate st' v') := by
  obtain ⟨p, b, s, bu, su⟩ := st
  obtain ⟨p', b', s', bu', su'⟩ := st'
  obtain ⟨rfl, hb, hs, hbu, hsu⟩ := h
  unfold intervalUpdate
  rw [hv.isB]
  refine RelE.ite Iff.rfl (fun _ => ?_) (fun _ => ?_)
  · exact ScaIS.mk rfl (List.Forall₂.cons hv.data hb) hs (scaQ_add hbu (maxSell_sca hv.data)) hsu
  · cases hs with
    | nil => rfl
    | cons _ ht => exact ScaIS.mk rfl hb ht hbu (scaQ_sub hsu (maxSell_sca hv.data))

theorem intervalYields_sca (hk : 0 < k) {st st' : IntervalState} {xl xu : ℚ} {fee : Fee} (h : ScaIS k st st') :
    RelE (List.Forall₂ (ScaI k)) (intervalYields st xl xu fee) (intervalYields st' xl xu fee) := by
  obtain ⟨p, b, s, bu, su⟩ := st
  obtain ⟨p', b', s', bu', su'⟩ := st'
  obtain ⟨rfl, hb, hs, hbu, hsu⟩ := h
  dsimp only at hb hs hbu hsu
  unfold intervalYields
  dsimp only
  refine RelE.bind (pyGet_rel hb 0) fun b0 b1 h1 => RelE.bind (pyGet_rel hs 0) fun s0 s1 h2 => ?_
  have hmap : ∀ (l : List ℕ) (F : ℕ → IntervalData) (G : ℕ → IntervalData), (∀ i, ScaI k (F i) (G i)) → List.Forall₂ (ScaI k) (l.map F) (l.map G) := by
    intro l F G hFG
    induction l with
    | nil => exact List.Forall₂.nil
    | cons i l ih => exact List.Forall₂.cons (hFG i) ih
  have hB : bPartialIdxs b (su - s0.maxSell) su xl xu fee = bPartialIdxs b' (su' - s1.maxSell) su' xl xu fee :=
    partialIdxLoop_sca hk hb (scaQ_mul (scaQ_mul (scaQ_sub hsu (maxSell_sca h2)) _) _) (scaQ_mul (scaQ_mul hsu _) _) (maxSells_sca hb)
  have hS : sPartialIdxs s (bu - b0.maxSell) bu xl xu fee = sPartialIdxs s' (bu' - b1.maxSell) bu' xl xu fee := by
    unfold sPartialIdxs
    refine RelE.to_eq (RelE.bind (pyDiv_sca (scaQ_sub hbu (maxSell_sca h1)) _) fun l l' hl => RelE.bind (pyDiv_sca hbu _) fun u u' hu => ?_)
    exact partialIdxLoop_sca hk hs hl hu (maxSells_sca hs)
  rw [hB, hS]
  refine RelE.bind_same fun js => ?_
  exact append_rel (hmap _ _ _ fun i => ⟨rfl, rfl, hb, hs, rfl, rfl⟩) (hmap _ _ _ fun i => ⟨rfl, rfl, hb, hs, rfl, rfl⟩)

theorem intervalLoop_sca (hk : 0 < k) {fee : Fee} {opt : Option ℚ} {st st' : IntervalState} {l l' : List Variant} (h : ScaIS k st st')
    (hl : List.Forall₂ (ScaV k) l l') : RelE (List.Forall₂ (ScaI k)) (intervalLoop fee opt st l) (intervalLoop fee opt st' l') := by
  induction hl generalizing st st' with
  | nil => unfold intervalLoop; exact List.Forall₂.nil
  | @cons v v' l l' hv hl ih =>
    cases hl with
    | nil => unfold intervalLoop; exact List.Forall₂.nil
    | @cons w w' l l' hw hl =>
      unfold intervalLoop
      refine RelE.bind (intervalUpdate_sca h hv) fun s1 s2 h' => ?_
      have hnext : ScaIS k { s1 with prev := some v'.xrate } { s2 with prev := some v'.xrate } := ⟨rfl, h'.b, h'.s, h'.bUb, h'.sUb⟩
      have hskip : skipInterval opt s1.prev v w = skipInterval opt s2.prev v' w' := by
        unfold skipInterval
        rw [hv.xrate, hw.xrate, h'.prev]
      dsimp only
      rw [hskip, hv.xrate, hw.xrate]
      refine RelE.ite Iff.rfl (fun _ => ih hnext) (fun _ => ?_)
      refine RelE.ite (by rw [h'.b.length_eq]) (fun _ => ih hnext) (fun _ => ?_)
      refine RelE.ite (by rw [h'.s.length_eq]) (fun _ => List.Forall₂.nil) (fun _ => ?_)
      refine RelE.bind (intervalYields_sca hk h') fun ys ys' hy => RelE.bind (ih hnext) fun more more' hm => ?_
      exact append_rel hy hm

theorem xrateIntervals_sca (hk : 0 < k) {b b' s s' : List Order} {fee : Fee} {opt : Option ℚ} (hb : ScaL k b b') (hs : ScaL k s s') :
    RelE (List.Forall₂ (ScaI k)) (xrateIntervals b s fee opt) (xrateIntervals b' s' fee opt) := by
  unfold xrateIntervals
  dsimp only
  rw [hb.length_eq, hs.length_eq]
  refine RelE.bind_same fun _ => RelE.bind (mapE_rel (Q := ScaV k) hs ?_) fun vs vs' hv => ?_
  · intro a b hab
    rw [maxXrate_sca hab]
    exact RelE.bind_same fun x => ScaV.mk rfl rfl hab
  · have hall := insertionSort_rel (r := fun a b : Variant => b.xrate ≤ a.xrate) (r' := fun a b : Variant => b.xrate ≤ a.xrate)
      (append_rel (map_forall₂ (Q := ScaV k) (f := fun o => { isB := true, xrate := o.maxXrate * (1 - fee.value), data := o : Variant })
        (g := fun o => { isB := true, xrate := o.maxXrate * (1 - fee.value), data := o : Variant }) hb
        (fun a b hab => ⟨rfl, by rw [maxXrate_sca hab], hab⟩)) hv)
      (fun a b a' b' h1 h2 => by rw [h1.xrate, h2.xrate])
    refine intervalLoop_sca hk ⟨rfl, List.Forall₂.nil, ?_, scaQ_zero, maxSells_sca hs⟩ hall
    refine map_forall₂ (filter_rel hall ?_) fun a b hab => hab.data
    intro a b hab
    rw [hab.isB]

/-- Related constants. -/
structure ScaC (k : ℚ) (c c' : Constants) : Prop where
  bPi : c.bPi = c'.bPi
  sPi : c.sPi = c'.sPi
  f : c.f = c'.f
  bYb : ScaQ k c.bYb c'.bYb
  bYbF : ScaQ k c.bYbF c'.bYbF
  sYb : ScaQ k c.sYb c'.sYb
  sYbF : ScaQ k c.sYbF c'.sYbF
  c : ScaQ k c.c c'.c

theorem computeConstants_sca {d d' : IntervalData} {fee : Fee} (h : ScaI k d d') : RelE (ScaC k) (computeConstants d fee) (computeConstants d' fee) := by
  obtain ⟨lb, ub, b, s, bp, sp⟩ := d
  obtain ⟨lb', ub', b', s', bp', sp'⟩ := d'
  obtain ⟨rfl, rfl, hb, hs, rfl, rfl⟩ := h
  dsimp only at hb hs
  unfold computeConstants
  dsimp only
  refine RelE.bind (pyGet_rel hb bp) fun b0 b1 h1 => RelE.bind (pyGet_rel hs sp) fun s0 s1 h2 => RelE.bind (R := ScaQ k) ?_ fun c c' hc => ?_
  · have hq : ∀ a b : Order, ScaO k a b → RelE (ScaQ k) (pyDiv a.maxSell a.maxXrate) (pyDiv b.maxSell b.maxXrate) := by
      intro a b hab
      rw [maxXrate_sca hab]
      exact pyDiv_sca (maxSell_sca hab) _
    unfold cConstant
    dsimp only
    refine RelE.bind (sumE_sca (List.forall₂_drop _ hs) hq) fun sF sF' hF => RelE.bind (sumE_sca (List.forall₂_take _ hs) hq) fun sU sU' hU => ?_
    exact scaQ_add (scaQ_sub (scaQ_mul' (scaQ_sub (maxSells_sca (List.forall₂_drop _ hb)) (maxSells_sca (List.forall₂_take _ hb))) _) hF) hU
  · exact ScaC.mk (maxXrate_sca h1) (maxXrate_sca h2) rfl (maxSell_sca h1) (maxSells_sca (List.forall₂_drop _ hb)) (maxSell_sca h2)
      (maxSells_sca (List.forall₂_drop _ hs)) hc

theorem roots_sca (hk : 0 < k) (hc : ScaledCfg k cfg cfg') {c c' : Constants} (h : ScaC k c c') :
    root3 cfg c = root3 cfg' c' ∧ (∀ sqrt, root4 sqrt c = root4 sqrt c') ∧ root5 c = root5 c' := by
  obtain ⟨bPi, bYb, bYbF, sPi, sYb, sYbF, cc, f⟩ := c
  obtain ⟨bPi', bYb', bYbF', sPi', sYb', sYbF', cc', f'⟩ := c'
  obtain ⟨h1, h2, h3, h4, h5, h6, h7, h8⟩ := h
  dsimp only at h1 h2 h3 h4 h5 h6 h7 h8
  subst h1 h2 h3
  refine ⟨?_, fun sqrt => ?_, ?_⟩
  · unfold root3
    rw [hc.feePrice]
    refine RelE.to_eq (RelE.bind (pyDiv_sca ?_ _) fun d d' hd => RelE.of_eq (pyDiv_sca' hk ?_ (scaQ_add ?_ hd)))
    · rw [ScaQ, h4, h5]; ring
    · rw [ScaQ, h4, h5]; ring
    · rw [ScaQ, h4, h5, h6, h7, h8]; ring
  · unfold root4
    dsimp only
    rw [pyDiv_sca' hk (a := bPi * (sPi * (-cc + f * bYb + 2 * f * bYbF) + sYb)) (b := 2 * f * sPi * (sYb + sYbF))]
    · rw [ScaQ, h4, h5, h6, h8]; ring
    · rw [ScaQ, h6, h7]; ring
  · unfold root5
    refine pyDiv_sca' hk ?_ ?_
    · exact scaQ_add h4 h5
    · exact scaQ_mul' (scaQ_add h6 h7) _

theorem solveInterval_sca (hk : 0 < k) (hc : ScaledCfg k cfg cfg') {sqrt : ℚ → Py ℚ} {fee : Fee} {d d' : IntervalData} (h : ScaI k d d') :
    RelE (ScaOpt k) (solveInterval cfg sqrt fee d) (solveInterval cfg' sqrt fee d') := by
  unfold solveInterval
  refine RelE.bind (R := Eq) ?_ fun xs _ e => e ▸ RelE.ite Iff.rfl (fun _ => trivial) (fun _ => ?_)
  · unfold localOptima
    refine RelE.bind (computeConstants_sca h) fun c c' hcc => ?_
    obtain ⟨r3, r4, r5⟩ := roots_sca hk hc hcc
    rw [r3, r4, r5, h.lb, h.ub]
    exact RelE.of_eq rfl
  · refine RelE.bind (evalAll_sca (solverObjective_sca hk hc h.b h.s) xs) fun l l' hl => RelE.bind (pyMaxBy_sca hk hl) fun r r' hr => hr

theorem filterMap_sca {l l' : List (Option (ℚ × ℚ))} (h : List.Forall₂ (ScaOpt k) l l') : List.Forall₂ (ScaR k) (l.filterMap id) (l'.filterMap id) := by
  induction h with
  | nil => exact List.Forall₂.nil
  | @cons a b l l' h _ ih =>
    cases a <;> cases b
    · exact ih
    · exact h.elim
    · exact h.elim
    · exact List.Forall₂.cons h ih

theorem findBestXrate_sca (hk : 0 < k) (hc : ScaledCfg k cfg cfg') {sqrt : ℚ → Py ℚ} {fee : Fee} {b b' s s' : List Order} (hb : ScaL k b b') (hs : ScaL k s s') :
    RelE (ScaOpt k) (findBestXrate cfg sqrt b s fee) (findBestXrate cfg' sqrt b' s' fee) := by
  unfold findBestXrate
  refine RelE.bind (prune_sca hb hs) fun r r' h => RelE.bind (solveTrivial_sca hk hc h.1 h.2) fun t t' ht => ?_
  have hx : t.map (·.1) = t'.map (·.1) := by
    cases t <;> cases t'
    · rfl
    · exact ht.elim
    · exact ht.elim
    · exact congrArg some ht.1
  rw [hx]
  refine RelE.bind (xrateIntervals_sca hk h.1 h.2) fun ivs ivs' hi => ?_
  refine RelE.bind (mapE_rel (Q := ScaOpt k) hi fun d d' hd => solveInterval_sca hk hc hd) fun rs rs' hrs => ?_
  have hall := filterMap_sca (List.Forall₂.cons ht hrs)
  refine RelE.ite (by rw [hall.length_eq]) (fun _ => trivial) (fun _ => ?_)
  exact RelE.bind (pyMaxBy_sca hk hall) fun r r' hr => hr

end Dex
