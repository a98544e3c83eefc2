import Verif.Proof.IdCore
import Verif.Proof.RenMatch

/-! # Prices, rounding and the pair solver commute with renumbering orders -/

namespace Dex

open Spec

variable {σ : Renumbering} {I J K : String → Prop}

/-- Any id. -/
abbrev AnyId : String → Prop := fun _ => True

theorem idL_any {l l' : List Order} (h : IdL σ I l l') : IdL σ AnyId l l' := idL_mono (fun _ _ => trivial) h

/-! ### Orders and prices -/

/-- Renumbered orders with the same prices. -/
abbrev IdOP (σ : Renumbering) (r r' : List Order × Prices) : Prop := IdL σ AnyId r.1 r'.1 ∧ r.2 = r'.2

theorem aggregate_idm {cfg : Config} {pair : Token × Token} {b b' s s' f f' : List Order} {x p : ℚ} {fee : Fee} (hb : IdL σ I b b') (hs : IdL σ J s s')
    (hf : IdL σ K f f') :
    RelE (IdOP σ) (aggregateOrdersPrices cfg pair b s f x p fee) (aggregateOrdersPrices cfg pair b' s' f' x p fee) := by
  unfold aggregateOrdersPrices
  exact RelE.bind_same fun ps => ⟨append_rel (append_rel (idL_any hb) (idL_any hs)) (idL_any hf), rfl⟩

theorem setSellFromBuy_idm {o : Order} {p : Prices} {fee : Fee} (h : I o.id ∧ σ.Rated o) :
    RelE (IdO σ I) (o.setSellFromBuy p fee) ((σ.order o).setSellFromBuy p fee) := by
  unfold Order.setSellFromBuy
  exact RelE.bind_same fun s => ⟨h, rfl⟩

/-! ### Rounding -/

theorem computeTokenBalances_idm {tokens : List Token} {l l' : List Order} (h : IdL σ I l l') :
    computeTokenBalances tokens l = computeTokenBalances tokens l' := by
  refine RelE.to_eq ?_
  unfold computeTokenBalances
  refine foldE_rel (Q := Eq) h ?_ rfl
  rintro d _ o _ rfl ⟨_, rfl⟩
  exact RelE.of_eq rfl

theorem setMaxSell_idm {o o' : Order} {v : ℚ} (h : IdO σ I o o') : RelE (IdO σ I) (o.setMaxSell v) (o'.setMaxSell v) := by
  obtain ⟨k, rfl⟩ := h
  unfold Order.setMaxSell
  exact RelE.bind_same fun _ => ⟨k, rfl⟩

theorem bufferOrder_idm {cfg : Config} {tokens : List Token} {p : Prices} {am : Dict Token ℚ} {o : Order} (h : I o.id ∧ σ.Rated o) :
    RelE (IdO σ I) (bufferOrder cfg tokens p am o) (bufferOrder cfg tokens p am (σ.order o)) := by
  unfold bufferOrder
  refine RelE.ite Iff.rfl (fun _ => ?_) (fun _ => ⟨h, rfl⟩)
  refine RelE.bind_same fun _ => RelE.bind_same fun _ => RelE.bind_same fun _ => RelE.bind_same fun _ => ?_
  exact RelE.bind_same fun _ => RelE.bind_same fun _ => setMaxSell_idm ⟨h, rfl⟩

theorem mapE_split_rel {α β γ δ : Type} {R₁ R₂ : α → β → Prop} {Q₁ Q₂ : γ → δ → Prop} {f : α → Py γ} {g : β → Py δ} {b s : List α} {b' s' : List β}
    (hb : List.Forall₂ R₁ b b') (hs : List.Forall₂ R₂ s s') (h1 : ∀ a b, R₁ a b → RelE Q₁ (f a) (g b)) (h2 : ∀ a b, R₂ a b → RelE Q₂ (f a) (g b)) :
    RelE (fun r r' => List.Forall₂ Q₁ (r.take b.length) (r'.take b'.length) ∧ List.Forall₂ Q₂ (r.drop b.length) (r'.drop b'.length))
      (mapE f (b ++ s)) (mapE g (b' ++ s')) := by
  induction hb with
  | nil =>
    refine RelE.mono (mapE_rel hs h2) fun r r' h => ?_
    simpa using h
  | cons h _ ih =>
    rw [List.cons_append, List.cons_append]
    unfold mapE
    exact RelE.bind (h1 _ _ h) fun y y' hy => RelE.bind ih fun r r' hr => ⟨List.Forall₂.cons hy hr.1, hr.2⟩

theorem roundingBufferEnter_idm {cfg : Config} {pair : Token × Token} {b b' s s' : List Order} {x p : ℚ} {fee : Fee} (hb : IdL σ I b b') (hs : IdL σ J s s') :
    RelE (IdL2 σ I J) (roundingBufferEnter cfg pair b s x p fee) (roundingBufferEnter cfg pair b' s' x p fee) := by
  unfold roundingBufferEnter aggregateOrdersPrices setupRoundingBuffer
  cases pyDiv p x with
  | error e => rfl
  | ok ps =>
    simp only [ok_bind, List.append_nil]
    dsimp only [pure, Except.pure]
    simp only [ok_bind]
    generalize maxRoundingAmounts cfg [pair.1, pair.2] _ fee = am
    cases am with
    | error e => rfl
    | ok am =>
      simp only [ok_bind]
      refine RelE.bind (mapE_split_rel (Q₁ := IdO σ I) (Q₂ := IdO σ J) hb hs ?_ ?_) fun r r' hr => hr
      · rintro a _ ⟨k, rfl⟩
        exact bufferOrder_idm k
      · rintro a _ ⟨k, rfl⟩
        exact bufferOrder_idm k

theorem restoreMaxSell_idm {l l' : List Order} {old : List ℚ} (h : IdL σ I l l') : RelE (IdL σ I) (restoreMaxSell l old) (restoreMaxSell l' old) := by
  unfold restoreMaxSell
  have hz : List.Forall₂ (fun p p' : Order × ℚ => IdO σ I p.1 p'.1 ∧ p.2 = p'.2) (l.zip old) (l'.zip old) := by
    induction h generalizing old with
    | nil => simp
    | cons h _ ih =>
      cases old with
      | nil => simp
      | cons v old => exact List.Forall₂.cons ⟨h, rfl⟩ ih
  refine mapE_rel hz fun p p' hp => ?_
  rw [hp.2]
  exact setMaxSell_idm hp.1

theorem orderEdges_idm {l l' : List Order} {fee : Fee} (h : IdL σ I l l') : orderEdges l' fee = orderEdges l fee := by
  unfold orderEdges
  refine congrArg (fun l => (List.reverse l).dedup.reverse) ?_
  symm
  refine map_rel (R := IdO σ I) (filter_rel h ?_) ?_
  · rintro a _ ⟨_, rfl⟩
    rfl
  · rintro a _ ⟨_, rfl⟩
    rfl

theorem spanning_idm {br : List (Token × Token) → List (Token × Token)} {l l' : List Order} {fee : Fee} (h : IdL σ I l l') :
    spanningArborescence br l' fee = spanningArborescence br l fee := by
  unfold spanningArborescence
  rw [orderEdges_idm h]

theorem roundLeafLoop_idm {cfg : Config} {leaf parent : Token} {p : Prices} {fee : Fee} {bal : ℚ} {l l' : List Order} (h : IdL σ I l l') :
    RelE (IdL σ I) (roundLeafLoop cfg leaf parent p fee bal l) (roundLeafLoop cfg leaf parent p fee bal l') := by
  induction h generalizing bal with
  | nil => exact List.Forall₂.nil
  | @cons o o' l l' h ht ih =>
    obtain ⟨k, rfl⟩ := h
    have hkeep : RelE (IdL σ I) (do
          let os' ← roundLeafLoop cfg leaf parent p fee bal l
          pure (o :: os')) (do
          let os' ← roundLeafLoop cfg leaf parent p fee bal l'
          pure (σ.order o :: os')) := RelE.bind ih fun _ _ h => List.Forall₂.cons ⟨k, rfl⟩ h
    unfold roundLeafLoop
    refine RelE.ite Iff.rfl (fun _ => hkeep) (fun _ => ?_)
    dsimp only
    refine RelE.bind_same fun ns => RelE.ite Iff.rfl (fun _ => hkeep) (fun _ => RelE.ite Iff.rfl (fun _ => hkeep) (fun _ => ?_))
    refine RelE.bind_same fun _ => RelE.bind (setSellFromBuy_idm (I := I) (o := o.withBuy _) k) fun o1 o2 ho => ?_
    refine RelE.ite Iff.rfl (fun _ => List.Forall₂.cons ho ht) (fun _ => ?_)
    exact RelE.bind ih fun _ _ h => List.Forall₂.cons ho h

theorem roundLeafIfNeeded_idm {cfg : Config} {leaf parent : Token} {p : Prices} {fee : Fee} {bal : ℚ} {l l' : List Order} (h : IdL σ I l l') :
    RelE (IdL σ I) (roundLeafIfNeeded cfg leaf parent l bal p fee) (roundLeafIfNeeded cfg leaf parent l' bal p fee) := by
  unfold roundLeafIfNeeded
  refine RelE.ite Iff.rfl (fun _ => ?_) (fun _ => h)
  unfold roundLeafToken
  refine RelE.bind (roundLeafLoop_idm (insertionSort_rel h ?_)) fun u u' hu => writeBack_idm h hu
  rintro a _ b _ ⟨_, rfl⟩ ⟨_, rfl⟩
  exact Iff.rfl

/-- Renumbered results of the rounding. -/
abbrev IdBL (σ : Renumbering) (I : String → Prop) (r r' : Bool × List Order) : Prop := r.1 = r'.1 ∧ IdL σ I r.2 r'.2

theorem roundLoop_idm {cfg : Config} {p : Prices} {fee : Fee} {fuel : ℕ} {tree : Dict Token Token} {bal : Dict Token ℚ} {l l' : List Order}
    (h : IdL σ I l l') : RelE (IdBL σ I) (roundLoop cfg p fee fuel tree bal l) (roundLoop cfg p fee fuel tree bal l') := by
  induction fuel generalizing tree bal l l' with
  | zero => rfl
  | succ fuel ih =>
    unfold roundLoop
    refine RelE.ite Iff.rfl (fun _ => ⟨rfl, h⟩) (fun _ => ?_)
    dsimp only
    refine RelE.bind_same fun leaf => RelE.bind_same fun parent => RelE.bind_same fun b => RelE.bind (roundLeafIfNeeded_idm h) fun l1 l2 hl' => ?_
    rw [computeTokenBalances_idm hl']
    exact RelE.bind_same fun bal1 => RelE.bind_same fun b => RelE.ite Iff.rfl (fun _ => ⟨rfl, hl'⟩) (fun _ => ih hl')

theorem roundSolution_idm {cfg : Config} {br : List (Token × Token) → List (Token × Token)} {p : Prices} {fee : Fee} {l l' : List Order} (h : IdL σ I l l') :
    RelE (IdBL σ I) (roundSolution cfg br p l fee) (roundSolution cfg br p l' fee) := by
  unfold roundSolution
  refine RelE.bind (mapE_rel (Q := IdO σ I) h ?_) fun l1 l2 hl => ?_
  · rintro a _ ⟨k, rfl⟩
    exact setSellFromBuy_idm (o := a.withBuy (⌊a.buy⌋ : ℚ)) k
  · rw [computeTokenBalances_idm hl]
    refine RelE.bind_same fun bal => ?_
    have ht := spanning_idm (br := br) (fee := fee) (filter_rel (f := fun o => decide (o.sell > 0)) (g := fun o => decide (o.sell > 0)) hl (by rintro a _ ⟨_, rfl⟩; rfl))
    dsimp only
    rw [ht]
    exact roundLoop_idm hl

/-- Renumbered solutions. -/
structure IdS (σ : Renumbering) (s s' : Solution) : Prop where
  orders : IdL σ AnyId s.orders s'.orders
  prices : s.prices = s'.prices

/-- Renumbered books. -/
structure IdBk (σ : Renumbering) (I J K : String → Prop) (bk bk' : Books) : Prop where
  b : IdL σ I bk.b bk'.b
  s : IdL σ J bk.s bk'.s
  f : IdL σ K bk.f bk'.f

theorem trivial_idm : IdS σ Solution.trivial Solution.trivial := ⟨List.Forall₂.nil, rfl⟩

theorem aggregateAndRound_idm {cfg : Config} {ext : Ext} {pair : Token × Token} {bk bk' : Books} {x p : ℚ} {fee : Fee} (h : IdBk σ I J K bk bk') :
    RelE (fun r r' => IdS σ r.1 r'.1 ∧ IdL σ AnyId r.2 r'.2) (aggregateAndRound cfg ext pair bk x p fee)
      (aggregateAndRound cfg ext pair bk' x p fee) := by
  unfold aggregateAndRound
  refine RelE.bind (aggregate_idm h.b h.s h.f) fun r r' hr => ?_
  obtain ⟨os, prices⟩ := r
  obtain ⟨os', prices'⟩ := r'
  obtain ⟨hr, e⟩ := hr
  dsimp only at e hr
  subst e
  refine RelE.bind (roundSolution_idm hr) fun t t' ht => ?_
  obtain ⟨ok, l⟩ := t
  obtain ⟨ok', l'⟩ := t'
  obtain ⟨rfl, ht⟩ := ht
  refine RelE.ite Iff.rfl (fun _ => ⟨⟨ht, rfl⟩, ht⟩) (fun _ => ⟨trivial_idm, ht⟩)

end Dex
