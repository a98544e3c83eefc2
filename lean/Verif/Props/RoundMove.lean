import Verif.Proof.RoundMove
import Verif.Props.Chain
import Verif.Props.Viability

/-! # Property C78: how far rounding moves the amounts -/

namespace Dex

namespace Spec

/-- Total amount of `t` bought when all buy amounts are rounded down. -/
def boughtFloor (orders : List Order) (t : Token) : ℚ := ((orders.filter (fun o => decide (o.buyToken = t))).map (fun o => ((⌊o.buy⌋ : ℤ) : ℚ))).sum

/-- `v` lies between `0` and `D`. -/
def Between (D v : ℚ) : Prop := min 0 D ≤ v ∧ v ≤ max 0 D

end Spec

open Spec

theorem forall₂_forall {α ι : Type} {R : ι → α → α → Prop} (i : ι) {l l' : List α} (h : ∀ t, List.Forall₂ (R t) l l') :
    List.Forall₂ (fun a b => ∀ t, R t a b) l l' := by
  induction l generalizing l' with
  | nil => cases h i; exact .nil
  | cons a l ih =>
    cases h i with
    | cons r rs =>
      refine .cons (fun t => ?_) (ih fun t => ?_)
      · cases h t with | cons r _ => exact r
      · cases h t with | cons _ rs => exact rs

theorem forall₂_append_left {α : Type} {R : α → α → Prop} {l1 l2 l' : List α} (h : List.Forall₂ R (l1 ++ l2) l') :
    ∃ r1 r2, List.Forall₂ R l1 r1 ∧ List.Forall₂ R l2 r2 ∧ l' = r1 ++ r2 := by
  induction l1 generalizing l' with
  | nil => exact ⟨[], l', .nil, h, rfl⟩
  | cons a l1 ih =>
    cases h with
    | cons r rs =>
      obtain ⟨r1, r2, h1, h2, rfl⟩ := ih rs
      exact ⟨_ :: r1, r2, .cons r h1, h2, rfl⟩

theorem moved_total {t : Token} {σ : ℚ} {l l' : List Order}
    (h : List.Forall₂ (fun o o' => o'.buyToken = o.buyToken ∧ (o.buyToken = t → 0 ≤ σ * (o'.buy - (⌊o.buy⌋ : ℤ)))) l l') :
    0 ≤ σ * (bought l' t - boughtFloor l t) ∧
      List.Forall₂ (fun o o' => o.buyToken = t → σ * (o'.buy - (⌊o.buy⌋ : ℤ)) ≤ σ * (bought l' t - boughtFloor l t)) l l' := by
  induction h with
  | nil => simp [bought, boughtFloor]
  | @cons o o' l l' r _ ih =>
    obtain ⟨i1, i2⟩ := ih
    by_cases ht : o.buyToken = t
    · have e : bought (o' :: l') t - boughtFloor (o :: l) t = (o'.buy - (⌊o.buy⌋ : ℤ)) + (bought l' t - boughtFloor l t) := by
        simp only [bought, boughtFloor, List.filter_cons, r.1, ht, decide_true, if_true, List.map_cons, List.sum_cons]
        ring
      have := r.2 ht
      rw [e, mul_add]
      exact ⟨by linarith, .cons (fun _ => by linarith) (i2.imp fun a a' g hh => by linarith [g hh])⟩
    · have e : bought (o' :: l') t - boughtFloor (o :: l) t = bought l' t - boughtFloor l t := by
        simp only [bought, boughtFloor, List.filter_cons, r.1, ht, decide_false, reduceCtorEq, if_false]
      rw [e]
      exact ⟨i1, .cons (fun hh => absurd hh ht) i2⟩

theorem boughtFloor_firstRound {prices : Prices} {fee : Fee} {l l' : List Order} (h : List.Forall₂ (FirstRound prices fee) l l') (t : Token) :
    bought l' t = boughtFloor l t := by
  induction h with
  | nil => rfl
  | @cons o o' l l' r _ ih =>
    have e : o'.buyToken = o.buyToken := by rw [r.1]
    unfold bought boughtFloor at *
    rw [List.filter_cons, List.filter_cons, e]
    split
    · rw [List.map_cons, List.map_cons, List.sum_cons, List.sum_cons, ih, r.2.1]
    · exact ih

/-- C78. Rounding, successful or not, moves all amounts of one token in the same direction: for every token `t` let `D` be the total amount of `t`
bought in the result minus the total with all amounts rounded down. Every amount of `t` lies between its floor and its floor plus `D`. Amounts of the
fee token are just rounded down. -/
theorem C78_one_direction {cfg : Config} {branch : List (Token × Token) → List (Token × Token)} {prices : Prices}
    {orders res : List Order} {fee : Fee} {ok : Bool} (h : RoundInput prices fee orders)
    (hcfg : 1 ≤ cfg.minTradable ∧ cfg.minTradable ≤ cfg.minRationalTradable - 1)
    (hfeas : ∀ o ∈ orders, ExactFeasible cfg prices fee o) (hbr : ∀ E, Branching E (branch E))
    (hr : roundSolution cfg branch prices orders fee = .ok (ok, res)) :
    List.Forall₂ (fun o o' => SameButExec o o' ∧ (o.buyToken = fee.token → o'.buy = (⌊o.buy⌋ : ℤ)) ∧
      ∀ t, o.buyToken = t → Between (bought res t - boughtFloor orders t) (o'.buy - (⌊o.buy⌋ : ℤ))) orders res := by
  obtain ⟨os, e, hs1, hinv⟩ := firstPass h
  unfold roundSolution at hr
  rw [e, ok_bind] at hr
  obtain ⟨d, e2, k, hv⟩ := hinv.balances
  rw [e2, ok_bind] at hr
  obtain ⟨t1, t2⟩ := arborescence_spec branch (os.filter (fun o => decide (o.sell > 0))) fee
  obtain ⟨m1, m2⟩ := roundLoop_moved h.intPrices h.feeLt hinv (firstPass_bounded h hcfg hfeas hs1) hv hr
  have hF : fee.token ∉ dictKeys (spanningArborescence branch (os.filter (fun o => decide (o.sell > 0))) fee) := by
    intro hc
    obtain ⟨p, hp, hpe⟩ := List.mem_map.1 hc
    obtain ⟨o, _, hne, he⟩ := mem_orderEdges.1 ((hbr _).sub _ (t2 p hp))
    have := congrArg Prod.snd he
    dsimp only at this
    exact hne (this.symm.trans hpe)
  have a1 : List.Forall₂ (fun o o' => SameButExec o o' ∧ (o.buyToken = fee.token → o'.buy = (⌊o.buy⌋ : ℤ))) orders res :=
    forall₂_trans' (fun a b c r s => ⟨SameButExec.trans' r.1 s.1, fun ht => by rw [s.2 (by rw [r.1]; exact ht), r.2.1]⟩) hs1 (m1 _ hF)
  have a2 : ∀ t, List.Forall₂ (fun o o' => o.buyToken = t → Between (bought res t - boughtFloor orders t) (o'.buy - (⌊o.buy⌋ : ℤ))) orders res := by
    intro t
    have key : ∀ σ : ℚ, List.Forall₂ (fun o o' => SameButExec o o' ∧ (o.buyToken = t → 0 ≤ σ * (o'.buy - o.buy))) os res →
        0 ≤ σ * (bought res t - boughtFloor orders t) ∧ List.Forall₂ (fun o o' => o.buyToken = t → 0 ≤ σ * (o'.buy - (⌊o.buy⌋ : ℤ)) ∧
          σ * (o'.buy - (⌊o.buy⌋ : ℤ)) ≤ σ * (bought res t - boughtFloor orders t)) orders res := by
      intro σ hσ
      have g : List.Forall₂ (fun o o' => o'.buyToken = o.buyToken ∧ (o.buyToken = t → 0 ≤ σ * (o'.buy - (⌊o.buy⌋ : ℤ)))) orders res := by
        refine forall₂_trans' (fun a b c r s => ⟨?_, fun ht => ?_⟩) hs1 hσ
        · rw [SameButExec.trans' r.1 s.1]
        · rw [← r.2.1]; exact s.2 (by rw [r.1]; exact ht)
      obtain ⟨g1, g2⟩ := moved_total g
      exact ⟨g1, (forall₂_both g g2).imp fun a b r ht => ⟨r.1.2 ht, r.2 ht⟩⟩
    rcases m2 t with hup | hdown
    · obtain ⟨g1, g2⟩ := key 1 (hup.imp fun a b r => ⟨r.1, fun ht => by linarith [r.2 ht]⟩)
      refine g2.imp fun a b r ht => ?_
      obtain ⟨r1, r2⟩ := r ht
      rw [one_mul] at g1 r1 r2
      rw [one_mul] at r2
      exact ⟨(min_le_left _ _).trans r1, r2.trans (le_max_right _ _)⟩
    · obtain ⟨g1, g2⟩ := key (-1) (hdown.imp fun a b r => ⟨r.1, fun ht => by linarith [r.2 ht]⟩)
      refine g2.imp fun a b r ht => ?_
      obtain ⟨r1, r2⟩ := r ht
      exact ⟨(min_le_right _ _).trans (by linarith), le_trans (by linarith) (le_max_left _ _)⟩
  exact (forall₂_both a1 (forall₂_forall fee.token a2)).imp fun a b r => ⟨r.1.1, r.1.2, r.2⟩

/-- What orders on the clearing price sell, in terms of what they buy. -/
theorem sold_between {prices : Prices} {fee : Fee} {X Y : Token} {pX pY : ℚ} (hI : IntPrices prices) (hX : PriceOf prices X pX) (hY : PriceOf prices Y pY)
    {l l' : List Order} (hcls : ∀ o ∈ l, o.sellToken = X → o.buyToken = Y) (hpos : ∀ o ∈ l, 0 ≤ o.buy)
    (h : List.Forall₂ (fun o o' => SameButExec o o' ∧ OnClearingPrice prices fee o' ∧ (o.buy = 0 → o'.buy = 0)) l l') :
    exactSell pY pX fee 1 * ((l'.filter (fun o => decide (o.sellToken = X))).map (·.buy)).sum - nrExecutedOf l (fun o => decide (o.sellToken = X)) ≤ sold l' X ∧
      sold l' X ≤ exactSell pY pX fee 1 * ((l'.filter (fun o => decide (o.sellToken = X))).map (·.buy)).sum := by
  obtain ⟨x1, x2⟩ := hI.of hX
  induction h with
  | nil => simp [sold, nrExecutedOf]
  | @cons o o' l l' r _ ih =>
    obtain ⟨i1, i2⟩ := ih (fun a ha => hcls a (by simp [ha])) (fun a ha => hpos a (by simp [ha]))
    obtain ⟨r1, ⟨pb, ps, p1, p2, p3⟩, r3⟩ := r
    have et : o'.buyToken = o.buyToken ∧ o'.sellToken = o.sellToken := by rw [r1]; exact ⟨rfl, rfl⟩
    rw [et.1] at p1
    rw [et.2] at p2
    unfold sold nrExecutedOf at *
    simp only [List.filter_cons, et.2]
    by_cases hx : o.sellToken = X
    · rw [hcls o (by simp) hx] at p1
      rw [hx] at p2
      rw [priceOf_unique p1 hY, priceOf_unique p2 hX] at p3
      obtain ⟨u1, u2⟩ := uniformSell_bounds (pb := pY) (fee := fee) x1 x2 o'.buy
      rw [← p3] at u1 u2
      simp only [hx, decide_true, if_true, List.map_cons, List.sum_cons, Bool.true_and]
      rcases (hpos o (by simp)).eq_or_lt with hz | hp
      · have hs0 : o'.sell = 0 := by rw [p3, r3 hz.symm]; simp
        rw [if_neg (by simp [← hz]), r3 hz.symm, hs0, zero_add, zero_add]
        exact ⟨i1, i2⟩
      · rw [if_pos (by simpa using hp), List.length_cons]
        push_cast
        constructor <;> linarith
    · simp only [hx, decide_false, reduceCtorEq, if_false, Bool.false_and]
      exact ⟨i1, i2⟩

theorem floor_sum_between {l : List Order} (p : Order → Bool) (hpos : ∀ o ∈ l, 0 ≤ o.buy) :
    ((l.filter p).map (·.buy)).sum - nrExecutedOf l p ≤ ((l.filter p).map (fun o => ((⌊o.buy⌋ : ℤ) : ℚ))).sum ∧
      ((l.filter p).map (fun o => ((⌊o.buy⌋ : ℤ) : ℚ))).sum ≤ ((l.filter p).map (·.buy)).sum := by
  induction l with
  | nil => simp [nrExecutedOf]
  | cons o l ih =>
    obtain ⟨i1, i2⟩ := ih (fun a ha => hpos a (by simp [ha]))
    unfold nrExecutedOf at *
    simp only [List.filter_cons]
    by_cases hp : p o = true
    · have hfl1 := Int.floor_le o.buy
      have hfl2 := Int.lt_floor_add_one o.buy
      simp only [hp, if_true, List.map_cons, List.sum_cons, Bool.true_and]
      rcases (hpos o (by simp)).eq_or_lt with hz | hp
      · rw [if_neg (by simp [← hz]), ← hz]
        simp only [Int.floor_zero, Int.cast_zero, zero_add]
        exact ⟨i1, i2⟩
      · rw [if_pos (by simpa using hp), List.length_cons]
        push_cast
        constructor <;> linarith
    · simp only [hp, if_false, Bool.false_and, Bool.false_eq_true]
      exact ⟨i1, i2⟩

/-- What is sold of `X` when the orders that sell it are rounded down. -/
theorem sold_floor_between {prices : Prices} {fee : Fee} {X Y : Token} {pX pY : ℚ} (hI : IntPrices prices) (hf : fee.value < 1) (hX : PriceOf prices X pX)
    (hY : PriceOf prices Y pY) {l l' : List Order} (hcls : ∀ o ∈ l, o.sellToken = X → o.buyToken = Y) (hpos : ∀ o ∈ l, 0 ≤ o.buy)
    (h : List.Forall₂ (fun o o' => SameButExec o o' ∧ OnClearingPrice prices fee o' ∧ (o.buy = 0 → o'.buy = 0)) l l')
    (hfl : List.Forall₂ (fun o o' => SameButExec o o' ∧ (o.sellToken = X → o'.buy = (⌊o.buy⌋ : ℤ))) l l') :
    ((l.filter (fun o => decide (o.sellToken = X))).map (fun o => exactSell pY pX fee o.buy)).sum -
        nrExecutedOf l (fun o => decide (o.sellToken = X)) * (exactSell pY pX fee 1 + 1) ≤ sold l' X ∧
      sold l' X ≤ ((l.filter (fun o => decide (o.sellToken = X))).map (fun o => exactSell pY pX fee o.buy)).sum := by
  obtain ⟨x1, x2⟩ := hI.of hX
  obtain ⟨y1, y2⟩ := hI.of hY
  have hφ : 0 < 1 - fee.value := by linarith
  have hk0 : 0 < exactSell pY pX fee 1 := by unfold exactSell; positivity
  have hk : (fun o : Order => exactSell pY pX fee o.buy) = fun o => o.buy * exactSell pY pX fee 1 := by funext o; unfold exactSell; ring
  obtain ⟨a1, a2⟩ := sold_between hI hX hY hcls hpos h
  obtain ⟨b1, b2⟩ := floor_sum_between (fun o => decide (o.sellToken = X)) hpos
  have e : ((l'.filter (fun o => decide (o.sellToken = X))).map (·.buy)).sum =
      ((l.filter (fun o => decide (o.sellToken = X))).map (fun o => ((⌊o.buy⌋ : ℤ) : ℚ))).sum := by
    clear h a1 a2 b1 b2 hcls hpos
    induction hfl with
    | nil => rfl
    | @cons o o' l l' r _ ih =>
      have et : o'.sellToken = o.sellToken := by rw [r.1]
      rw [List.filter_cons, List.filter_cons, et]
      by_cases hx : o.sellToken = X
      · simp only [hx, decide_true, if_true, List.map_cons, List.sum_cons, ih, r.2 hx]
      · simp only [hx, decide_false, reduceCtorEq, if_false, ih]
  rw [e] at a1 a2
  rw [hk, sum_map_mul_right']
  set k := exactSell pY pX fee 1
  have m1 := mul_le_mul_of_nonneg_left b1 hk0.le
  have m2 := mul_le_mul_of_nonneg_left b2 hk0.le
  constructor <;> linarith

theorem between_bounds {D v lo hi : ℚ} (h : Between D v) (h1 : lo ≤ D) (h2 : D ≤ hi) : min 0 lo ≤ v ∧ v ≤ max 0 hi :=
  ⟨(min_le_min_left _ h1).trans h.1, h.2.trans (max_le_max_left _ h2)⟩

theorem round_clearing {cfg : Config} {branch : List (Token × Token) → List (Token × Token)} {prices : Prices} {orders res : List Order} {fee : Fee} {ok : Bool}
    (h : RoundInput prices fee orders) (hcfg : 1 ≤ cfg.minTradable ∧ cfg.minTradable ≤ cfg.minRationalTradable - 1)
    (hfeas : ∀ o ∈ orders, ExactFeasible cfg prices fee o) (hr : roundSolution cfg branch prices orders fee = .ok (ok, res)) :
    List.Forall₂ (fun o o' => SameButExec o o' ∧ OnClearingPrice prices fee o' ∧ (o.buy = 0 → o'.buy = 0)) orders res := by
  obtain ⟨h1, _⟩ := roundSolution_sound h hr
  refine (forall₂_and_mem h1).imp fun o o' r => ?_
  exact ⟨r.1.same, r.1.price, fun hz => ((rounded_facts h.intPrices h.feeLt hcfg (hfeas o r.2.1) r.1).2.2.2 hz).1⟩

/-- C78. A balanced solution of a pair with the fee token: let `nb`, `ns` be the numbers of executed orders that sell and buy `S`, and `k` the exact
amount of `S` sold for one fee token. If rounding succeeds, orders that buy the fee token are rounded down; an order that buys `S` loses less than
`1 + nb (k + 1)` and gains at most `ns`; of the exact volume of `S` at most `nb (k + 1)` is lost and nothing is gained. -/
theorem C78_fee_pair {cfg : Config} {branch : List (Token × Token) → List (Token × Token)} {prices : Prices}
    {orders res : List Order} {fee : Fee} {S : Token} {pF pS k nb ns : ℚ} (h : RoundInput prices fee orders)
    (hcfg : 1 ≤ cfg.minTradable ∧ cfg.minTradable ≤ cfg.minRationalTradable - 1)
    (hfeas : ∀ o ∈ orders, ExactFeasible cfg prices fee o) (hbr : ∀ E, MaxBranching E (branch E)) (hSF : S ≠ fee.token)
    (hcls : ∀ o ∈ orders, (o.buyToken = fee.token ∧ o.sellToken = S) ∨ (o.buyToken = S ∧ o.sellToken = fee.token))
    (hF : PriceOf prices fee.token pF) (hS : PriceOf prices S pS) (hk : k = exactSell pF pS fee 1)
    (hnb : nb = nrExecutedOf orders (fun o => decide (o.sellToken = S))) (hns : ns = nrExecutedOf orders (fun o => decide (o.buyToken = S)))
    (hbal : ((orders.filter (fun o => decide (o.sellToken = S))).map (fun o => exactSell pF pS fee o.buy)).sum = bought orders S)
    (hr : roundSolution cfg branch prices orders fee = .ok (true, res)) :
    List.Forall₂ (fun o o' => SameButExec o o' ∧ (o.buyToken = fee.token → o'.buy = (⌊o.buy⌋ : ℤ)) ∧
      (o.buyToken = S → o.buy - (1 + nb * (k + 1)) < o'.buy ∧ o'.buy ≤ o.buy + ns)) orders res ∧
    bought orders S - nb * (k + 1) ≤ bought res S ∧ bought res S ≤ bought orders S := by
  have hdir := C78_one_direction h hcfg hfeas (fun E => (hbr E).1) hr
  obtain ⟨f1, f2⟩ := h.intPrices.of hF
  obtain ⟨s1, s2⟩ := h.intPrices.of hS
  have hφ : 0 < 1 - fee.value := by linarith [h.feeLt]
  have hk0 : 0 < k := by rw [hk]; unfold exactSell; positivity
  have hnb0 : 0 ≤ nb := by rw [hnb]; exact Nat.cast_nonneg _
  have hns0 : 0 ≤ ns := by rw [hns]; exact Nat.cast_nonneg _
  have hm0 : 0 ≤ nb * (k + 1) := mul_nonneg hnb0 (by linarith)
  have hpos : ∀ o ∈ orders, 0 ≤ o.buy := fun o ho => (hfeas o ho).nonneg
  have hclsS : ∀ o ∈ orders, o.sellToken = S → o.buyToken = fee.token := by
    intro o ho hs
    rcases hcls o ho with ⟨g, _⟩ | ⟨_, g⟩
    · exact g
    · exact absurd (hs.symm.trans g) hSF
  obtain ⟨a1, a2⟩ := sold_floor_between h.intPrices h.feeLt hS hF hclsS hpos (round_clearing h hcfg hfeas hr)
    ((forall₂_and_mem hdir).imp fun o o' r => ⟨r.1.1, fun hs => r.1.2.1 (hclsS o r.2.1 hs)⟩)
  rw [hbal, ← hnb, ← hk] at a1
  rw [hbal] at a2
  have hb := C25_token_pair_balanced h hcfg hfeas hbr hSF.symm hSF (fun o ho => (hcls o ho).imp id .inl) (by
      rintro ⟨o, ho, g1, g2, g3⟩
      by_contra hc
      push Not at hc
      have hz : bought orders S = 0 := by
        unfold bought
        refine List.sum_eq_zero fun v hv => ?_
        obtain ⟨a, ha, rfl⟩ := List.mem_map.1 hv
        rw [List.mem_filter, decide_eq_true_eq] at ha
        exact le_antisymm (hc a ha.1 ha.2) (hpos a ha.1)
      have hmem : o ∈ orders.filter (fun o => decide (o.sellToken = S)) := by rw [List.mem_filter, decide_eq_true_eq]; exact ⟨ho, g2⟩
      have : exactSell pF pS fee o.buy ≤ ((orders.filter (fun o => decide (o.sellToken = S))).map (fun o => exactSell pF pS fee o.buy)).sum := by
        refine List.single_le_sum (fun v hv => ?_) _ (List.mem_map.2 ⟨o, hmem, rfl⟩)
        obtain ⟨a, ha, rfl⟩ := List.mem_map.1 hv
        have := hpos a (List.mem_of_mem_filter ha)
        unfold exactSell
        positivity
      have hp : 0 < exactSell pF pS fee o.buy := by unfold exactSell; positivity
      rw [hbal] at this
      linarith) (fun hc => absurd rfl hc) hr S hSF
  rw [hb] at a1 a2
  obtain ⟨c1, c2⟩ := floor_sum_between (fun o => decide (o.buyToken = S)) hpos
  change bought orders S - _ ≤ boughtFloor orders S at c1
  change boughtFloor orders S ≤ bought orders S at c2
  rw [← hns] at c1
  refine ⟨hdir.imp fun o o' r => ⟨r.1, r.2.1, fun hs => ?_⟩, a1, a2⟩
  obtain ⟨d1, d2⟩ := between_bounds (lo := -(nb * (k + 1))) (hi := ns) (r.2.2 S hs) (by linarith) (by linarith)
  rw [min_eq_right (by linarith)] at d1
  rw [max_eq_right hns0] at d2
  have hfl1 := Int.floor_le o.buy
  have hfl2 := Int.lt_floor_add_one o.buy
  constructor <;> linarith

/-- C78. A solution of a pair without the fee token, balanced in `S`, in which an order buying `S` and one paying with the fee token are executed: with the
quantities of C73 (`nb`, `ns`, `n` executed orders that sell `S`, buy `S`, buy `B`; `k`, `K` the exact rates; `δ` the exact amount of `B` sold and not
bought), if rounding succeeds, orders that buy `B` for `S` are rounded down; an order that buys `S` loses less than `1 + nb (k + 1)` and gains at most `ns`;
an order that pays with the fee token loses less than `1 + max 0 (ns + nb K (k + 1) - δ)` and gains at most `max 0 (δ + n)`; of the exact volume of `S`
at most `nb (k + 1)` is lost and nothing is gained. -/
theorem C78_main_pair {cfg : Config} {branch : List (Token × Token) → List (Token × Token)} {prices : Prices}
    {orders res : List Order} {fee : Fee} {B S : Token} {pB pS k K δ nb ns n : ℚ} (h : RoundInput prices fee orders)
    (hcfg : 1 ≤ cfg.minTradable ∧ cfg.minTradable ≤ cfg.minRationalTradable - 1)
    (hfeas : ∀ o ∈ orders, ExactFeasible cfg prices fee o) (hbr : ∀ E, MaxBranching E (branch E))
    (hBS : B ≠ S) (hBF : B ≠ fee.token) (hSF : S ≠ fee.token) (hcls : ChainKinds fee.token B S orders)
    (hB : PriceOf prices B pB) (hS : PriceOf prices S pS)
    (hk : k = exactSell pB pS fee 1) (hK : K = exactSell pS pB fee 1)
    (hnb : nb = nrExecutedOf orders (fun o => decide (o.sellToken = S))) (hns : ns = nrExecutedOf orders (fun o => decide (o.buyToken = S)))
    (hn : n = nrExecutedOf orders (fun o => decide (o.buyToken = B)))
    (hbal : ((orders.filter (fun o => decide (o.sellToken = S))).map (fun o => exactSell pB pS fee o.buy)).sum = bought orders S)
    (hδ : δ = ((orders.filter (fun o => decide (o.sellToken = B))).map (fun o => exactSell pS pB fee o.buy)).sum - bought orders B)
    (hs : ∃ o ∈ orders, o.buyToken = S ∧ 0 < o.buy) (hfo : ∃ o ∈ orders, o.sellToken = fee.token ∧ 0 < o.buy)
    (hr : roundSolution cfg branch prices orders fee = .ok (true, res)) :
    List.Forall₂ (fun o o' => SameButExec o o' ∧ (o.sellToken = S → o'.buy = (⌊o.buy⌋ : ℤ)) ∧
      (o.buyToken = S → o.buy - (1 + nb * (k + 1)) < o'.buy ∧ o'.buy ≤ o.buy + ns) ∧
      (o.sellToken = fee.token → o.buy - (1 + max 0 (ns + nb * K * (k + 1) - δ)) < o'.buy ∧ o'.buy ≤ o.buy + max 0 (δ + n))) orders res ∧
    bought orders S - nb * (k + 1) ≤ bought res S ∧ bought res S ≤ bought orders S := by
  have hdir := C78_one_direction h hcfg hfeas (fun E => (hbr E).1) hr
  obtain ⟨b1, b2⟩ := h.intPrices.of hB
  obtain ⟨s1, s2⟩ := h.intPrices.of hS
  have hφ : 0 < 1 - fee.value := by linarith [h.feeLt]
  have hk0 : 0 < k := by rw [hk]; unfold exactSell; positivity
  have hK0 : 0 < K := by rw [hK]; unfold exactSell; positivity
  have hnb0 : 0 ≤ nb := by rw [hnb]; exact Nat.cast_nonneg _
  have hns0 : 0 ≤ ns := by rw [hns]; exact Nat.cast_nonneg _
  have hm0 : 0 ≤ nb * (k + 1) := mul_nonneg hnb0 (by linarith)
  have hpos : ∀ o ∈ orders, 0 ≤ o.buy := fun o ho => (hfeas o ho).nonneg
  have kS : ∀ o ∈ orders, o.sellToken = S → o.buyToken = B := by
    intro o ho hx
    rcases hcls o ho with ⟨g, _⟩ | ⟨_, g⟩ | ⟨_, g⟩
    · exact g
    · exact absurd (g.symm.trans hx) hBS
    · exact absurd (hx.symm.trans g) hSF
  have kB : ∀ o ∈ orders, o.sellToken = B → o.buyToken = S := by
    intro o ho hx
    rcases hcls o ho with ⟨_, g⟩ | ⟨g, _⟩ | ⟨_, g⟩
    · exact absurd (hx.symm.trans g) hBS
    · exact g
    · exact absurd (hx.symm.trans g) hBF
  have kF : ∀ o ∈ orders, o.sellToken = fee.token → o.buyToken = B := by
    intro o ho hx
    rcases hcls o ho with ⟨g, _⟩ | ⟨_, g⟩ | ⟨g, _⟩
    · exact g
    · exact absurd (g.symm.trans hx) hBF
    · exact g
  obtain ⟨os, os', r1, r2, hbd, r3, r4⟩ := roundSolution_chain h hcfg hfeas hbr hBS hBF hSF hcls hs hfo hr
  rcases r4 with ⟨_, hc⟩ | ⟨r4, r5, r6, _⟩
  · exact absurd hc (by decide)
  have hzB : imbal res B = 0 := r6.1 rfl
  have hfl : List.Forall₂ (fun o o' => SameButExec o o' ∧ (o.sellToken = S → o'.buy = (⌊o.buy⌋ : ℤ))) orders res := by
    have hstep := chainStep_of hBS r1 r2
    refine forall₂_trans' (S := LeafStep cfg prices fee B fee.token) (R := fun o o' => ChainStep prices fee B o o' ∧ o ∈ orders) ?_
      ((forall₂_and_mem hstep).imp fun a b r => ⟨r.1, r.2.1⟩) r5
    intro a b c r s
    have e1 := r.1.1
    refine ⟨?_, fun hx => ?_⟩
    · rcases s with rfl | s
      · exact e1
      · exact SameButExec.trans' e1 s.same
    · rcases s with rfl | s
      · exact r.1.2.2.2 (kS a r.2 hx)
      · have := s.sellTok
        rw [e1] at this
        exact absurd (hx.symm.trans this) hSF
  have hclear := round_clearing h hcfg hfeas hr
  obtain ⟨a1, a2⟩ := sold_floor_between h.intPrices h.feeLt hS hB kS hpos hclear hfl
  rw [hbal, ← hnb, ← hk] at a1
  rw [hbal] at a2
  have hbS := C25_token_pair_balanced h hcfg hfeas hbr hBS hSF hcls (fun _ => hs) (fun _ _ => hfo) hr S hSF
  have hbB := C25_token_pair_balanced h hcfg hfeas hbr hBS hSF hcls (fun _ => hs) (fun _ _ => hfo) hr B hBF
  rw [hbS] at a1 a2
  obtain ⟨e1, e2⟩ := sold_between h.intPrices hB hS kB hpos hclear
  have hcls' : ChainKinds fee.token B S res := hcls.same (hclear.imp fun _ _ r => r.1)
  have hfil : ∀ {l : List Order}, ChainKinds fee.token B S l → l.filter (fun o => decide (o.sellToken = B)) = l.filter (fun o => decide (o.buyToken = S)) := by
    intro l hl
    refine List.filter_congr fun o ho => ?_
    rcases hl o ho with ⟨g1, g2⟩ | ⟨g1, g2⟩ | ⟨g1, g2⟩ <;> simp [g1, g2, hBS, hBS.symm, hBF.symm]
  have hnn : nrExecutedOf orders (fun o => decide (o.sellToken = B)) = nrExecutedOf orders (fun o => decide (o.buyToken = S)) := by
    rw [nrExecutedOf_filter, nrExecutedOf_filter, hfil hcls]
  rw [hfil hcls', ← hK, hbB] at e1 e2
  rw [hnn, ← hns] at e1
  change K * bought res S - ns ≤ _ at e1
  change _ ≤ K * bought res S at e2
  have hδ' : δ = K * bought orders S - bought orders B := by
    rw [hδ, hfil hcls]
    congr 1
    unfold bought
    rw [show (fun o : Order => exactSell pS pB fee o.buy) = fun o => o.buy * K from funext fun o => by rw [hK]; unfold exactSell; ring,
      sum_map_mul_right', mul_comm]
  have m1 := mul_le_mul_of_nonneg_left a1 hK0.le
  have m2 := mul_le_mul_of_nonneg_left a2 hK0.le
  obtain ⟨c1, c2⟩ := floor_sum_between (fun o => decide (o.buyToken = S)) hpos
  change bought orders S - _ ≤ boughtFloor orders S at c1
  change boughtFloor orders S ≤ bought orders S at c2
  rw [← hns] at c1
  obtain ⟨d1, d2⟩ := floor_sum_between (fun o => decide (o.buyToken = B)) hpos
  change bought orders B - _ ≤ boughtFloor orders B at d1
  change boughtFloor orders B ≤ bought orders B at d2
  rw [← hn] at d1
  refine ⟨(forall₂_and_mem (forall₂_both hdir hfl)).imp fun o o' r => ⟨r.1.1.1, r.1.2.2, fun hx => ?_, fun hx => ?_⟩, a1, a2⟩
  · obtain ⟨g1, g2⟩ := between_bounds (lo := -(nb * (k + 1))) (hi := ns) (r.1.1.2.2 S hx) (by linarith) (by linarith)
    rw [min_eq_right (by linarith)] at g1
    rw [max_eq_right hns0] at g2
    have hfl1 := Int.floor_le o.buy
    have hfl2 := Int.lt_floor_add_one o.buy
    constructor <;> linarith
  · obtain ⟨g1, g2⟩ := between_bounds (lo := δ - ns - nb * K * (k + 1)) (hi := δ + n) (r.1.1.2.2 B (kF o r.2.1 hx))
      (by linarith) (by linarith)
    have hfl1 := Int.floor_le o.buy
    have hfl2 := Int.lt_floor_add_one o.buy
    have : min 0 (δ - ns - nb * K * (k + 1)) = - max 0 (ns + nb * K * (k + 1) - δ) := by
      rw [max_def, min_def]
      split <;> split <;> linarith
    rw [this] at g1
    constructor <;> linarith

/-- C78. End to end for a pair with the fee token: a solution that is not trivial comes from a rate and an integer price `k` of `S`. Let `t` be the
greatest volume of `S` that the matchable orders can exchange at these prices, `nb`, `ns` the numbers of orders that the greedy fills for `t` execute
on the two sides and `κ` the exact amount of `S` sold for one fee token. The solution has these prices; orders that buy the fee token get their greedy
fill rounded down; orders that buy `S` get more than their fill minus `1 + nb (κ + 1)` and at most `ns` more than it; the volume exchanged is at most `t` and
at least `t - nb (κ + 1)`. -/
theorem C78_fee_pair_program {cfg : Config} {ext : Ext} {pair : Token × Token} {b s f : List Order} {fee : Fee} {xrate : Option ℚ}
    {r : MatchResult} (h : SearchInput cfg fee b s) (hcfg : 1 ≤ cfg.minTradable ∧ cfg.minTradable ≤ cfg.minRationalTradable - 1)
    (hbr : ∀ E, MaxBranching E (ext.branch E)) (hbn : b ≠ []) (hsn : s ≠ []) (hx : ∀ y, xrate = some y → 0 < y) (hne : pair.1 ≠ pair.2)
    (hF : pair.1 = fee.token) (hclsB : ∀ o ∈ b, o.buyToken = fee.token ∧ o.sellToken = pair.2)
    (hclsS : ∀ o ∈ s, o.buyToken = pair.2 ∧ o.sellToken = fee.token) (hids : ((b ++ s).map (·.id)).Nodup)
    (hr : solveTokenPairAndFee cfg ext pair b s f fee xrate = .ok r) (hnt : r.sol ≠ .trivial) :
    ∃ b' s' x k t, MatchableParts fee b s b' s' ∧ UsedRate cfg ext fee b' s' xrate x ∧ 1 ≤ k ∧ computeSBuyTokenPrice cfg.feeTokenPrice x b' s' fee = .ok k ∧
      r.sol.prices = [(fee.token, (cfg.feeTokenPrice : ℚ)), (pair.2, (k : ℚ))] ∧ Greatest cfg (cfg.feeTokenPrice / k) fee cfg.maxNrExec b' s' t ∧ 0 < t ∧
      ∀ κ nb ns : ℚ, κ = cfg.feeTokenPrice / k / (1 - fee.value) →
        nb = (b'.filter (fun o => decide (0 < fillB cfg (cfg.feeTokenPrice / k) fee b' t o))).length →
        ns = (s'.filter (fun o => decide (0 < fillS cfg (cfg.feeTokenPrice / k) fee s' t o))).length →
        (∃ rb rs, r.sol.orders = rb ++ rs ∧
          List.Forall₂ (fun o o' => SameButExec o o' ∧ o'.buy = (⌊fillB cfg (cfg.feeTokenPrice / k) fee b' t o⌋ : ℤ)) b' rb ∧
          List.Forall₂ (fun o o' => SameButExec o o' ∧ fillS cfg (cfg.feeTokenPrice / k) fee s' t o - (1 + nb * (κ + 1)) < o'.buy ∧
            o'.buy ≤ fillS cfg (cfg.feeTokenPrice / k) fee s' t o + ns) s' rs) ∧
        t - nb * (κ + 1) ≤ bought r.sol.orders pair.2 ∧ bought r.sol.orders pair.2 ≤ t := by
  have hSF : pair.2 ≠ fee.token := fun h => hne (hF.trans h.symm)
  rcases C61_fee_pair h hbn hsn hx hne hF hr with ⟨_, e⟩ | ⟨b', s', hm, _, _, x, k, t, b1, s1, hu, hk, hkk, hfill, h1⟩
  · exact absurd e hnt
  rcases h1 with ⟨_, e⟩ | ⟨ht, ok, res, e, hsol⟩
  · exact absurd e hnt
  cases ok with
  | false => exact absurd hsol hnt
  | true =>
    rw [if_pos rfl] at hsol
    have hff := feePairFills_of (hm.search h) hSF (fun o ho => hclsB o (hm.subB.subset ho)) (fun o ho => hclsS o (hm.subS.subset ho))
      (hids.sublist ((hm.subB.append hm.subS).map _)) hk hfill
    refine ⟨b', s', x, k, t, hm, hu, hk, hkk, by rw [hsol], hfill.volume, ht, fun κ nb ns hκ hnb hns => ?_⟩
    have lenB : nrExecuted b1 = (b'.filter (fun o => decide (0 < fillB cfg (cfg.feeTokenPrice / k) fee b' t o))).length := by
      rw [hfill.eqB]; unfold nrExecuted; rw [List.filter_map, List.length_map]; rfl
    have lenS : nrExecuted s1 = (s'.filter (fun o => decide (0 < fillS cfg (cfg.feeTokenPrice / k) fee s' t o))).length := by
      rw [hfill.eqS]; unfold nrExecuted; rw [List.filter_map, List.length_map]; rfl
    obtain ⟨g1, g2, g3⟩ := C78_fee_pair (k := κ) (nb := nb) (ns := ns) hff.input hcfg hff.feasible hbr hSF hff.cls hff.priceF hff.priceS
      (by rw [hκ]; unfold exactSell; rw [one_mul]) (by rw [hff.nrB, lenB, hnb]) (by rw [hff.nrS, lenS, hns]) hff.balanced e
    rw [hff.boughtS] at g2 g3
    rw [hsol]
    refine ⟨?_, g2, g3⟩
    obtain ⟨rb, rs, q1, q2, q3⟩ := forall₂_append_left g1
    refine ⟨rb, rs, q3, ?_, ?_⟩
    · have q1' := forall₂_and_mem q1
      rw [hfill.eqB, List.forall₂_map_left_iff] at q1'
      refine q1'.imp fun o o' w => ?_
      have c := hff.clsB _ (by rw [hfill.eqB]; exact w.2.1)
      exact ⟨w.1.1, w.1.2.1 c.1⟩
    · have q2' := forall₂_and_mem q2
      rw [hfill.eqS, List.forall₂_map_left_iff] at q2'
      refine q2'.imp fun o o' w => ?_
      have c := hff.clsS _ (by rw [hfill.eqS]; exact w.2.1)
      exact ⟨w.1.1, w.1.2.2 c.1⟩

/-! ## Examples -/

/-- The hypotheses of `C78_fee_pair`, with one amount raised and two rounded down. -/
example : RoundInput ExRoom.prices ExRoom.fee (ExRoom.orders 5000) ∧ (∀ o ∈ ExRoom.orders 5000, ExactFeasible Config.default ExRoom.prices ExRoom.fee o) ∧
    (∀ E, MaxBranching E (ExVia.branch E)) ∧
    (((ExRoom.orders 5000).filter (fun o => decide (o.sellToken = "S"))).map (fun o => exactSell 1 1000 ExRoom.fee o.buy)).sum =
      bought (ExRoom.orders 5000) "S" ∧ bought (ExRoom.orders 5000) "S" = 30031 + 1 / 5 :=
  ⟨by constructor <;> decide +kernel, exactFeasible_of_check (by decide +kernel), ExVia.branch_max, by decide +kernel, by decide +kernel⟩

example : ∃ r, roundSolution Config.default ExVia.branch ExRoom.prices (ExRoom.orders 5000) ExRoom.fee = .ok r ∧
    r.1 = true ∧ r.2.map (·.buy) = [30001168, 20021, 10010] ∧ bought r.2 "S" = 30031 :=
  exists_of_pyCheck (p := fun r : Bool × List Order => r.1 = true ∧ r.2.map (·.buy) = [30001168, 20021, 10010] ∧ bought r.2 "S" = 30031) (by decide +kernel)

namespace ExMove
def fee : Fee := { token := "F", value := 1 / 1000 }
def prices : Prices := [("F", 1), ("B", 1), ("S", 1000)]
/-- One order sells `S`, two buy it, one buys `B` for the fee token. -/
def orders : List Order :=
  [ (Order.mk' "B" "S" 40000 1 none "0").withBuy (30001168 + 4 / 5),
    (Order.mk' "S" "B" 30000000 2000 none "1").withBuy (20020 + 3 / 5),
    (Order.mk' "S" "B" 30000000 2000 none "2").withBuy (10010 + 3 / 5),
    (Order.mk' "B" "F" 100000 2 none "3").withBuy (60092 + 2 / 5) ]
end ExMove

/-- The hypotheses of `C78_main_pair`. -/
example : RoundInput ExMove.prices ExMove.fee ExMove.orders ∧ (∀ o ∈ ExMove.orders, ExactFeasible Config.default ExMove.prices ExMove.fee o) ∧
    (∀ E, MaxBranching E (ExInst.branch E)) ∧ ChainKinds ExMove.fee.token "B" "S" ExMove.orders ∧
    ((ExMove.orders.filter (fun o => decide (o.sellToken = "S"))).map (fun o => exactSell 1 1000 ExMove.fee o.buy)).sum = bought ExMove.orders "S" :=
  ⟨by constructor <;> decide +kernel, exactFeasible_of_check (by decide +kernel), ExInst.branch_max, by unfold ChainKinds; decide +kernel, by decide +kernel⟩

example : ∃ r, roundSolution Config.default ExInst.branch ExMove.prices ExMove.orders ExMove.fee = .ok r ∧
    r.1 = true ∧ r.2.map (·.buy) = [30001168, 20021, 10010, 59893] :=
  exists_of_pyCheck (p := fun r : Bool × List Order => r.1 = true ∧ r.2.map (·.buy) = [30001168, 20021, 10010, 59893]) (by decide +kernel)

/-- The hypotheses of `C78_fee_pair_program`: three of the four orders are executed. -/
example : SearchInput Config.default ExOut.fee ExOut.bF ExOut.sF ∧ (∀ E, MaxBranching E (ExVia.ext.branch E)) ∧
    (∀ o ∈ ExOut.bF, o.buyToken = ExOut.fee.token ∧ o.sellToken = "S") ∧ (∀ o ∈ ExOut.sF, o.buyToken = "S" ∧ o.sellToken = ExOut.fee.token) ∧
    ((ExOut.bF ++ ExOut.sF).map (·.id)).Nodup :=
  ⟨by constructor <;> decide +kernel, ExVia.branch_max, by decide +kernel, by decide +kernel, by decide +kernel⟩

example : ∃ r, solveTokenPairAndFee Config.default ExVia.ext ("F", "S") ExOut.bF ExOut.sF [] ExOut.fee none = .ok r ∧
    nrExecuted r.sol.orders = 3 ∧ r.sol.prices.length = 2 ∧ 10 ^ 19 ≤ bought r.sol.orders "S" :=
  exists_of_pyCheck (p := fun r : MatchResult => nrExecuted r.sol.orders = 3 ∧ r.sol.prices.length = 2 ∧ 10 ^ 19 ≤ bought r.sol.orders "S") (by decide +kernel)

end Dex
