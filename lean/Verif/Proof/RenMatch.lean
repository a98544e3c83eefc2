import Mathlib.Data.List.Dedup
import Verif.Proof.RenCore

/-! # Dictionaries, prices, rounding and validation commute with renaming -/

namespace Dex

open Spec

/-! ### Lists and dictionaries -/

section Lists

variable {α β γ δ : Type} {R : α → β → Prop} {Q : γ → δ → Prop}

theorem foldE_rel {f : γ → α → Py γ} {g : δ → β → Py δ} {l : List α} {l' : List β} (h : List.Forall₂ R l l')
    (hfg : ∀ c d a b, Q c d → R a b → RelE Q (f c a) (g d b)) {c : γ} {d : δ} (hq : Q c d) : RelE Q (foldE f c l) (foldE g d l') := by
  induction h generalizing c d with
  | nil => exact hq
  | cons h _ ih =>
    unfold foldE
    exact RelE.bind (hfg _ _ _ _ hq h) fun _ _ h' => ih h'

theorem anyE_rel {f : α → Py Bool} {g : β → Py Bool} {l : List α} {l' : List β} (h : List.Forall₂ R l l') (hfg : ∀ a b, R a b → f a = g b) :
    anyE f l = anyE g l' := by
  induction h with
  | nil => rfl
  | cons h _ ih => unfold anyE; rw [hfg _ _ h, ih]

theorem allE_rel {f : α → Py Bool} {g : β → Py Bool} {l : List α} {l' : List β} (h : List.Forall₂ R l l') (hfg : ∀ a b, R a b → f a = g b) :
    allE f l = allE g l' := by
  induction h with
  | nil => rfl
  | cons h _ ih => unfold allE; rw [hfg _ _ h, ih]

theorem pyMinBy_rel {f : α → ℚ} {g : β → ℚ} {l : List α} {l' : List β} (h : List.Forall₂ R l l') (hfg : ∀ a b, R a b → f a = g b) :
    RelE R (pyMinBy f l) (pyMinBy g l') := by
  have haux : ∀ {l : List α} {l' : List β}, List.Forall₂ R l l' → ∀ a b, R a b → R (minByAux f a l) (minByAux g b l') := by
    intro l l' h
    induction h with
    | nil => exact fun a b hab => hab
    | cons h _ ih =>
      intro a b hab
      unfold minByAux
      rw [hfg _ _ h, hfg _ _ hab]
      split
      · exact ih _ _ h
      · exact ih _ _ hab
  cases h with
  | nil => rfl
  | cons h ht => exact haux ht _ _ h

end Lists

section Dicts

variable {κ κ' υ υ' : Type} [DecidableEq κ] [DecidableEq κ'] {f : κ → κ'} (hf : Function.Injective f) (g : υ → υ')
include hf

theorem dictGet?_mapKV (d : Dict κ υ) (k : κ) : dictGet? (d.map fun p => (f p.1, g p.2)) (f k) = (dictGet? d k).map g := by
  induction d with
  | nil => rfl
  | cons p d ih =>
    rw [List.map_cons, dictGet?_cons, dictGet?_cons, ih]
    simp only [hf.eq_iff]
    split <;> rfl

theorem dictSet_mapKV (d : Dict κ υ) (k : κ) (v : υ) :
    dictSet (d.map fun p => (f p.1, g p.2)) (f k) (g v) = (dictSet d k v).map fun p => (f p.1, g p.2) := by
  induction d with
  | nil => rfl
  | cons p d ih =>
    obtain ⟨k', v'⟩ := p
    simp only [List.map_cons, dictSet, hf.eq_iff, ih]
    split <;> rfl

end Dicts

variable {ρ : Renaming}

@[simp] theorem ren_get? (d : Dict Token ℚ) (t : Token) : dictGet? (ρ.amounts d) (ρ.tok t) = dictGet? d t := by
  refine (dictGet?_mapKV ρ.tok_inj (id : ℚ → ℚ) d t).trans ?_
  simp

@[simp] theorem ren_get (d : Dict Token ℚ) (t : Token) : dictGet (ρ.amounts d) (ρ.tok t) = dictGet d t := by
  unfold dictGet
  rw [ren_get?]

theorem ren_set (d : Dict Token ℚ) (t : Token) (v : ℚ) : dictSet (ρ.amounts d) (ρ.tok t) v = ρ.amounts (dictSet d t v) :=
  dictSet_mapKV ρ.tok_inj (id : ℚ → ℚ) d t v

theorem ren_keys (d : Dict Token ℚ) : dictKeys (ρ.amounts d) = (dictKeys d).map ρ.tok := by
  unfold dictKeys Renaming.amounts
  rw [List.map_map, List.map_map]
  rfl

/-- Renamed amounts. -/
abbrev RenA (ρ : Renaming) (d d' : Dict Token ℚ) : Prop := d' = ρ.amounts d

theorem tok_iff (a b : Token) : a = b ↔ ρ.tok a = ρ.tok b := ρ.tok_inj.eq_iff.symm

theorem mem_tok (a : Token) (l : List Token) : a ∈ l ↔ ρ.tok a ∈ l.map ρ.tok := by
  rw [List.mem_map_of_injective ρ.tok_inj]

theorem pair_inj : Function.Injective ρ.pair := by
  rintro ⟨a, b⟩ ⟨c, d⟩ h
  unfold Renaming.pair at h
  rw [Prod.mk.injEq] at h
  exact Prod.ext (ρ.tok_inj h.1) (ρ.tok_inj h.2)

theorem forall₂_map_tok (l : List Token) : List.Forall₂ (fun a b => b = ρ.tok a) l (l.map ρ.tok) := by
  induction l with
  | nil => exact List.Forall₂.nil
  | cons a l ih => exact List.Forall₂.cons rfl ih

theorem forall₂_map_fun {α β : Type} (f : α → β) (l : List α) : List.Forall₂ (fun a b => b = f a) l (l.map f) := by
  induction l with
  | nil => exact List.Forall₂.nil
  | cons a l ih => exact List.Forall₂.cons rfl ih

theorem forall₂_fun_iff {α β : Type} {f : α → β} {l : List α} {l' : List β} (h : List.Forall₂ (fun a b => b = f a) l l') : l' = l.map f := by
  induction h with
  | nil => rfl
  | cons h _ ih => rw [List.map_cons, h, ih]

/-! ### Orders and prices -/

theorem volume_ren (o : Order) (p : Prices) : (ρ.order o).volume (ρ.amounts p) = o.volume p := by
  unfold Order.volume Renaming.order
  rw [ren_get]

theorem feePaid_ren (cfg : Config) (o : Order) (p : Prices) (fee : Fee) :
    (ρ.order o).feePaid cfg (ρ.amounts p) (ρ.fee fee) = o.feePaid cfg p fee := by
  unfold Order.feePaid
  rw [volume_ren]
  rfl

theorem getSellFromBuy_ren (o : Order) (p : Prices) (fee : Fee) :
    (ρ.order o).getSellFromBuy (ρ.amounts p) (ρ.fee fee) = o.getSellFromBuy p fee := by
  unfold Order.getSellFromBuy Renaming.order
  dsimp only
  rw [ren_get, ren_get]
  rfl

theorem setSellFromBuy_ren (o : Order) (p : Prices) (fee : Fee) :
    RelE (RenO ρ) (o.setSellFromBuy p fee) ((ρ.order o).setSellFromBuy (ρ.amounts p) (ρ.fee fee)) := by
  unfold Order.setSellFromBuy
  rw [getSellFromBuy_ren]
  exact RelE.bind_same fun s => rfl

/-- Renamed orders and prices. -/
abbrev RenOP (ρ : Renaming) (r r' : List Order × Prices) : Prop := RenL ρ r.1 r'.1 ∧ RenA ρ r.2 r'.2

theorem aggregate_ren {cfg : Config} {pair : Token × Token} {b b' s s' f f' : List Order} {x p : ℚ} {fee : Fee} (hb : RenL ρ b b') (hs : RenL ρ s s')
    (hf : RenL ρ f f') :
    RelE (RenOP ρ) (aggregateOrdersPrices cfg pair b s f x p fee) (aggregateOrdersPrices cfg (ρ.pair pair) b' s' f' x p (ρ.fee fee)) := by
  unfold aggregateOrdersPrices
  refine RelE.bind_same fun ps => ⟨append_rel (append_rel hb hs) hf, ?_⟩
  unfold RenA
  dsimp only
  rw [← ren_set, ← ren_set]
  rfl

/-! ### Rounding -/

theorem computeTokenBalances_ren {tokens : List Token} {l l' : List Order} (h : RenL ρ l l') :
    RelE (RenA ρ) (computeTokenBalances tokens l) (computeTokenBalances (tokens.map ρ.tok) l') := by
  unfold computeTokenBalances
  refine foldE_rel (Q := RenA ρ) h ?_ ?_
  · rintro d _ o _ rfl rfl
    unfold Renaming.order
    dsimp only
    rw [ren_get]
    refine RelE.bind_same fun vb => ?_
    rw [ren_set, ren_get]
    exact RelE.bind_same fun vs => ren_set _ _ _
  · unfold RenA Renaming.amounts
    rw [List.map_map, List.map_map]
    rfl

theorem maxRoundingAmounts_ren {cfg : Config} {tokens : List Token} {p : Prices} {fee : Fee} :
    RelE (RenA ρ) (maxRoundingAmounts cfg tokens p fee) (maxRoundingAmounts cfg (tokens.map ρ.tok) (ρ.amounts p) (ρ.fee fee)) := by
  unfold maxRoundingAmounts Renaming.fee
  dsimp only
  rw [ren_get]
  refine RelE.bind_same fun fp => ?_
  refine foldE_rel (Q := RenA ρ) (forall₂_map_tok tokens) ?_ rfl
  rintro d _ t _ rfl rfl
  rw [ren_get?, ren_get]
  refine RelE.bind_same fun _ => RelE.bind_same fun _ => RelE.bind_same fun _ => RelE.bind_same fun _ => RelE.bind_same fun _ => ?_
  exact ren_set _ _ _

theorem setMaxSell_ren {o o' : Order} {v : ℚ} (h : RenO ρ o o') : RelE (RenO ρ) (o.setMaxSell v) (o'.setMaxSell v) := by
  cases h
  unfold Order.setMaxSell
  exact RelE.bind_same fun _ => rfl

theorem bufferOrder_ren {cfg : Config} {tokens : List Token} {p : Prices} {am : Dict Token ℚ} (o : Order) :
    RelE (RenO ρ) (bufferOrder cfg tokens p am o) (bufferOrder cfg (tokens.map ρ.tok) (ρ.amounts p) (ρ.amounts am) (ρ.order o)) := by
  unfold bufferOrder
  refine RelE.ite (and_congr (mem_tok _ _) (mem_tok _ _)) (fun _ => ?_) (fun _ => rfl)
  rw [show (ρ.order o).buyToken = ρ.tok o.buyToken from rfl, show (ρ.order o).sellToken = ρ.tok o.sellToken from rfl, ren_get, ren_get, ren_get]
  refine RelE.bind_same fun _ => RelE.bind_same fun _ => RelE.bind_same fun _ => RelE.bind_same fun _ => ?_
  exact RelE.bind_same fun _ => RelE.bind_same fun _ => setMaxSell_ren rfl

theorem roundingBufferEnter_ren {cfg : Config} {pair : Token × Token} {b b' s s' : List Order} {x p : ℚ} {fee : Fee} (hb : RenL ρ b b') (hs : RenL ρ s s') :
    RelE (RenL2 ρ) (roundingBufferEnter cfg pair b s x p fee) (roundingBufferEnter cfg (ρ.pair pair) b' s' x p (ρ.fee fee)) := by
  unfold roundingBufferEnter
  refine RelE.bind (aggregate_ren hb hs List.Forall₂.nil) fun r r' h => ?_
  obtain ⟨os, prices⟩ := r
  obtain ⟨os', prices'⟩ := r'
  obtain ⟨h, rfl⟩ := h
  refine RelE.bind (R := RenL ρ) ?_ fun l l' hl => ?_
  · unfold setupRoundingBuffer
    refine RelE.bind (maxRoundingAmounts_ren (tokens := [pair.1, pair.2])) fun am am' ha => ?_
    cases ha
    refine mapE_rel h ?_
    rintro a _ rfl
    exact bufferOrder_ren a
  · rw [hb.length_eq]
    exact ⟨List.forall₂_take _ hl, List.forall₂_drop _ hl⟩

theorem restoreMaxSell_ren {l l' : List Order} {old : List ℚ} (h : RenL ρ l l') : RelE (RenL ρ) (restoreMaxSell l old) (restoreMaxSell l' old) := by
  unfold restoreMaxSell
  have hz : List.Forall₂ (fun p p' : Order × ℚ => RenO ρ p.1 p'.1 ∧ p.2 = p'.2) (l.zip old) (l'.zip old) := by
    induction h generalizing old with
    | nil => simp
    | cons h _ ih =>
      cases old with
      | nil => simp
      | cons v old => exact List.Forall₂.cons ⟨h, rfl⟩ ih
  refine mapE_rel hz fun p p' hp => ?_
  rw [hp.2]
  exact setMaxSell_ren hp.1

theorem orderEdges_ren {l l' : List Order} {fee : Fee} (h : RenL ρ l l') : orderEdges l' (ρ.fee fee) = (orderEdges l fee).map ρ.pair := by
  unfold orderEdges
  rw [List.map_reverse, ← List.dedup_map_of_injective pair_inj, List.map_reverse, List.map_map]
  refine congrArg (fun l => (List.reverse l).dedup.reverse) ?_
  symm
  refine map_rel (R := RenO ρ) (filter_rel h ?_) ?_
  · rintro a _ rfl
    exact decide_eq_decide.2 (not_congr (tok_iff _ _))
  · rintro a _ rfl
    rfl

/-- A renamed tree. -/
abbrev RenT (ρ : Renaming) (d d' : Dict Token Token) : Prop := d' = d.map ρ.pair

theorem spanning_ren {br br' : List (Token × Token) → List (Token × Token)} (hbr : ∀ E, br' (E.map ρ.pair) = (br E).map ρ.pair) {l l' : List Order} {fee : Fee}
    (h : RenL ρ l l') : RenT ρ (spanningArborescence br l fee) (spanningArborescence br' l' (ρ.fee fee)) := by
  have hfold : ∀ (E : List (Token × Token)) (d : Dict Token Token),
      (E.map ρ.pair).foldl (fun d e => dictSet d e.2 e.1) (d.map ρ.pair) = (E.foldl (fun d e => dictSet d e.2 e.1) d).map ρ.pair := by
    intro E
    induction E with
    | nil => exact fun d => rfl
    | cons e E ih =>
      intro d
      rw [List.map_cons, List.foldl_cons, List.foldl_cons, ← ih]
      exact congrArg (fun d => List.foldl _ d _) (dictSet_mapKV ρ.tok_inj ρ.tok d e.2 e.1)
  unfold RenT spanningArborescence
  rw [orderEdges_ren h, hbr]
  exact hfold _ []

theorem roundLeafLoop_ren {cfg : Config} {leaf parent : Token} {p : Prices} {fee : Fee} {bal : ℚ} {l l' : List Order} (h : RenL ρ l l') :
    RelE (RenL ρ) (roundLeafLoop cfg leaf parent p fee bal l)
      (roundLeafLoop cfg (ρ.tok leaf) (ρ.tok parent) (ρ.amounts p) (ρ.fee fee) bal l') := by
  induction h generalizing bal with
  | nil => exact List.Forall₂.nil
  | @cons o o' l l' h ht ih =>
    cases h
    have hkeep : RelE (RenL ρ) (do
          let os' ← roundLeafLoop cfg leaf parent p fee bal l
          pure (o :: os')) (do
          let os' ← roundLeafLoop cfg (ρ.tok leaf) (ρ.tok parent) (ρ.amounts p) (ρ.fee fee) bal l'
          pure (ρ.order o :: os')) := RelE.bind ih fun _ _ h => List.Forall₂.cons rfl h
    unfold roundLeafLoop
    refine RelE.ite (or_congr (not_congr (tok_iff _ _)) (or_congr (not_congr (tok_iff _ _)) Iff.rfl)) (fun _ => hkeep) (fun _ => ?_)
    dsimp only
    have e1 : ∀ v, (ρ.order o).withBuy v = ρ.order (o.withBuy v) := fun _ => rfl
    simp only [e1]
    rw [getSellFromBuy_ren]
    refine RelE.bind_same fun ns => RelE.ite Iff.rfl (fun _ => hkeep) (fun _ => RelE.ite Iff.rfl (fun _ => hkeep) (fun _ => ?_))
    refine RelE.bind_same fun _ => RelE.bind (setSellFromBuy_ren _ _ _) fun o1 o2 ho => ?_
    refine RelE.ite Iff.rfl (fun _ => List.Forall₂.cons ho ht) (fun _ => ?_)
    exact RelE.bind ih fun _ _ h => List.Forall₂.cons ho h

theorem roundLeafIfNeeded_ren {cfg : Config} {leaf parent : Token} {p : Prices} {fee : Fee} {bal : ℚ} {l l' : List Order} (h : RenL ρ l l') :
    RelE (RenL ρ) (roundLeafIfNeeded cfg leaf parent l bal p fee)
      (roundLeafIfNeeded cfg (ρ.tok leaf) (ρ.tok parent) l' bal (ρ.amounts p) (ρ.fee fee)) := by
  unfold roundLeafIfNeeded
  refine RelE.ite Iff.rfl (fun _ => ?_) (fun _ => h)
  unfold roundLeafToken
  refine RelE.bind (roundLeafLoop_ren (insertionSort_rel h ?_)) fun u u' hu => writeBack_rel id_ren h hu
  rintro a _ b _ rfl rfl
  exact Iff.rfl

/-- Renamed results of the rounding. -/
abbrev RenBL (ρ : Renaming) (r r' : Bool × List Order) : Prop := r.1 = r'.1 ∧ RenL ρ r.2 r'.2

theorem ren_tree_get (tree : Dict Token Token) (t : Token) :
    RelE (fun a b => b = ρ.tok a) (dictGet tree t) (dictGet (tree.map ρ.pair) (ρ.tok t)) := by
  unfold dictGet
  rw [show dictGet? (tree.map ρ.pair) (ρ.tok t) = (dictGet? tree t).map ρ.tok from dictGet?_mapKV ρ.tok_inj ρ.tok tree t]
  cases dictGet? tree t <;> rfl

theorem roundLoop_ren {cfg : Config} {p : Prices} {fee : Fee} {fuel : ℕ} {tree tree' : Dict Token Token} {bal bal' : Dict Token ℚ} {l l' : List Order}
    (ht : RenT ρ tree tree') (hbal : RenA ρ bal bal') (h : RenL ρ l l') :
    RelE (RenBL ρ) (roundLoop cfg p fee fuel tree bal l) (roundLoop cfg (ρ.amounts p) (ρ.fee fee) fuel tree' bal' l') := by
  induction fuel generalizing tree tree' bal bal' l l' with
  | zero => rfl
  | succ fuel ih =>
    cases ht
    cases hbal
    unfold roundLoop
    refine RelE.ite (by rw [List.length_map]) (fun _ => ⟨rfl, h⟩) (fun _ => ?_)
    dsimp only
    have hl : List.Forall₂ (fun a b => b = ρ.tok a) ((dictKeys tree).filter (fun c => decide (c ∉ tree.map (·.2))))
        ((dictKeys (tree.map ρ.pair)).filter (fun c => decide (c ∉ (tree.map ρ.pair).map (·.2)))) := by
      refine filter_rel (R := fun a b => b = ρ.tok a) ?_ ?_
      · have e : dictKeys (tree.map ρ.pair) = (dictKeys tree).map ρ.tok := by
          unfold dictKeys
          rw [List.map_map, List.map_map]
          rfl
        rw [e]
        exact forall₂_map_tok _
      · rintro a _ rfl
        refine decide_eq_decide.2 (not_congr ?_)
        rw [show (tree.map ρ.pair).map (·.2) = (tree.map (·.2)).map ρ.tok by rw [List.map_map, List.map_map]; rfl]
        exact mem_tok _ _
    refine RelE.bind (pyGet_rel hl 0) ?_
    rintro leaf _ rfl
    refine RelE.bind (ren_tree_get tree leaf) ?_
    rintro parent _ rfl
    rw [ren_get]
    refine RelE.bind_same fun b => RelE.bind (roundLeafIfNeeded_ren h) fun l1 l2 hl' => ?_
    rw [ren_keys]
    refine RelE.bind (computeTokenBalances_ren hl') ?_
    rintro bal1 _ rfl
    rw [ren_get]
    refine RelE.bind_same fun b => RelE.ite Iff.rfl (fun _ => ⟨rfl, hl'⟩) (fun _ => ?_)
    refine ih ?_ rfl hl'
    refine forall₂_fun_iff (filter_rel (forall₂_map_fun ρ.pair tree) ?_)
    rintro a _ rfl
    exact decide_eq_decide.2 (not_congr (tok_iff _ _))

theorem roundSolution_ren {cfg : Config} {br br' : List (Token × Token) → List (Token × Token)} (hbr : ∀ E, br' (E.map ρ.pair) = (br E).map ρ.pair)
    {p : Prices} {fee : Fee} {l l' : List Order} (h : RenL ρ l l') :
    RelE (RenBL ρ) (roundSolution cfg br p l fee) (roundSolution cfg br' (ρ.amounts p) l' (ρ.fee fee)) := by
  unfold roundSolution
  refine RelE.bind (mapE_rel (Q := RenO ρ) h ?_) fun l1 l2 hl => ?_
  · rintro a _ rfl
    exact setSellFromBuy_ren (a.withBuy (⌊a.buy⌋ : ℚ)) p fee
  · rw [ren_keys]
    refine RelE.bind (computeTokenBalances_ren hl) ?_
    rintro bal _ rfl
    have ht := spanning_ren hbr (fee := fee) (filter_rel (f := fun o => decide (o.sell > 0)) (g := fun o => decide (o.sell > 0)) hl (by rintro a _ rfl; rfl))
    dsimp only
    rw [ht, List.length_map]
    exact roundLoop_ren rfl rfl hl

/-- Renamed solutions. -/
abbrev RenS (ρ : Renaming) (s s' : Solution) : Prop := s' = ρ.sol s

/-- Renamed books. -/
structure RenBk (ρ : Renaming) (bk bk' : Books) : Prop where
  b : RenL ρ bk.b bk'.b
  s : RenL ρ bk.s bk'.s
  f : RenL ρ bk.f bk'.f

theorem aggregateAndRound_ren {cfg : Config} {ext ext' : Ext} (hx : ρ.Ext ext ext') {pair : Token × Token} {bk bk' : Books} {x p : ℚ} {fee : Fee}
    (h : RenBk ρ bk bk') :
    RelE (fun r r' => RenS ρ r.1 r'.1 ∧ RenL ρ r.2 r'.2) (aggregateAndRound cfg ext pair bk x p fee)
      (aggregateAndRound cfg ext' (ρ.pair pair) bk' x p (ρ.fee fee)) := by
  unfold aggregateAndRound
  refine RelE.bind (aggregate_ren h.b h.s h.f) fun r r' hr => ?_
  obtain ⟨os, prices⟩ := r
  obtain ⟨os', prices'⟩ := r'
  obtain ⟨hr, rfl⟩ := hr
  refine RelE.bind (roundSolution_ren hx.branch hr) fun t t' ht => ?_
  obtain ⟨ok, l⟩ := t
  obtain ⟨ok', l'⟩ := t'
  obtain ⟨rfl, ht⟩ := ht
  refine RelE.ite Iff.rfl (fun _ => ⟨?_, ht⟩) (fun _ => ⟨rfl, ht⟩)
  rw [renL_iff] at ht
  dsimp only at ht
  rw [ht]
  rfl

end Dex
