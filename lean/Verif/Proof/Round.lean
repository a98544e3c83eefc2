import Verif.Spec.Solution
import Verif.Model.Round
import Verif.Proof.Sort
import Mathlib.Tactic.FieldSimp
import Mathlib.Tactic.Ring
import Mathlib.Tactic.Linarith
import Mathlib.Tactic.Positivity

/-! # Lemmas about rounding -/

namespace Dex

open Spec

theorem isInt_iff {q : ℚ} : IsInt q ↔ ∃ n : ℤ, q = n := by
  unfold IsInt
  constructor
  · intro h; exact ⟨q.num, (Rat.den_eq_one_iff q).1 h |>.symm⟩
  · rintro ⟨n, rfl⟩; exact Rat.den_intCast n

theorem isInt_intCast (n : ℤ) : IsInt (n : ℚ) := isInt_iff.2 ⟨n, rfl⟩

theorem Spec.IsInt.add {a b : ℚ} (ha : IsInt a) (hb : IsInt b) : IsInt (a + b) := by
  obtain ⟨n, rfl⟩ := isInt_iff.1 ha; obtain ⟨m, rfl⟩ := isInt_iff.1 hb
  exact isInt_iff.2 ⟨n + m, by push_cast; rfl⟩

theorem Spec.IsInt.sub {a b : ℚ} (ha : IsInt a) (hb : IsInt b) : IsInt (a - b) := by
  obtain ⟨n, rfl⟩ := isInt_iff.1 ha; obtain ⟨m, rfl⟩ := isInt_iff.1 hb
  exact isInt_iff.2 ⟨n - m, by push_cast; rfl⟩

theorem Spec.IsInt.max {a b : ℚ} (ha : IsInt a) (hb : IsInt b) : IsInt (max a b) := by
  rcases max_choice a b with h | h <;> rw [h] <;> assumption

theorem isInt_sum {α : Type} {f : α → ℚ} {l : List α} (h : ∀ a ∈ l, IsInt (f a)) : IsInt (l.map f).sum := by
  induction l with
  | nil => exact isInt_intCast 0
  | cons a l ih =>
    rw [List.map_cons, List.sum_cons]
    exact (h a (by simp)).add (ih fun b hb => h b (by simp [hb]))

/-! ### Prices -/

theorem priceOf_iff {prices : Prices} {t : Token} {p : ℚ} : PriceOf prices t p ↔ dictGet? prices t = some p := by
  unfold PriceOf dictGet?
  constructor
  · rintro ⟨e, h1, rfl⟩; rw [h1]; rfl
  · intro h
    cases hf : prices.find? (fun e => decide (e.1 = t)) with
    | none => rw [hf] at h; simp at h
    | some e => rw [hf] at h; simp at h; exact ⟨e, rfl, h⟩

theorem priced_iff {prices : Prices} {o : Order} :
    Priced prices o ↔ (∃ pb, PriceOf prices o.buyToken pb) ∧ (∃ ps, PriceOf prices o.sellToken ps) := by
  simp only [priceOf_iff, dictGet?_isSome, Priced, dictKeys, List.mem_map]

theorem priced_keys {prices : Prices} {o : Order} (h : Priced prices o) :
    o.buyToken ∈ dictKeys prices ∧ o.sellToken ∈ dictKeys prices := by
  simpa only [Priced, dictKeys, List.mem_map] using h

theorem Spec.IntPrices.of {prices : Prices} (h : IntPrices prices) {t : Token} {p : ℚ} (hp : PriceOf prices t p) : 0 < p ∧ IsInt p :=
  h (t, p) (dictGet?_mem (priceOf_iff.1 hp))

theorem priceOf_unique {prices : Prices} {t : Token} {p q : ℚ} (hp : PriceOf prices t p) (hq : PriceOf prices t q) : p = q := by
  rw [priceOf_iff] at hp hq; rw [hp] at hq; exact Option.some.inj hq

/-- The sell amount computed by the code for a buy amount. -/
theorem getSellFromBuy_eq {prices : Prices} {fee : Fee} {o : Order} {pb ps : ℚ} (hI : IntPrices prices) (hf : fee.value < 1)
    (hb : PriceOf prices o.buyToken pb) (hs : PriceOf prices o.sellToken ps) :
    o.getSellFromBuy prices fee = .ok (uniformSell pb ps fee o.buy : ℚ) := by
  obtain ⟨b1, b2⟩ := hI.of hb
  obtain ⟨s1, s2⟩ := hI.of hs
  have h3 : pb / (pb / ps) = ps := by have := b1.ne'; have := s1.ne'; field_simp
  have hφ : 1 - fee.value ≠ 0 := by linarith
  unfold Order.getSellFromBuy
  rw [dictGet_of (priceOf_iff.1 hb), ok_bind, dictGet_of (priceOf_iff.1 hs), ok_bind, if_pos ⟨b1.ne', s1.ne'⟩,
    pyDiv_of_ne s1.ne', ok_bind]
  unfold intSellFromBuy
  unfold IsInt at b2 s2
  rw [pyAssert_of b2, ok_bind, pyDiv_of_ne (div_ne_zero b1.ne' s1.ne'), ok_bind, h3, pyAssert_of s2, ok_bind, pyFloorDiv_of_ne hφ,
    ok_bind, pyFloorDiv_of_ne s1.ne', ok_bind]
  rfl

theorem setSellFromBuy_eq {prices : Prices} {fee : Fee} {o : Order} {pb ps : ℚ} (hI : IntPrices prices) (hf : fee.value < 1)
    (hb : PriceOf prices o.buyToken pb) (hs : PriceOf prices o.sellToken ps) :
    o.setSellFromBuy prices fee = .ok (o.withSell (uniformSell pb ps fee o.buy : ℚ)) := by
  unfold Order.setSellFromBuy
  rw [getSellFromBuy_eq hI hf hb hs, ok_bind]
  rfl

/-! ### The uniform sell amount -/

theorem floor_floor_div {y p : ℚ} (hp : 0 < p) (hi : IsInt p) : ⌊(⌊y⌋ : ℚ) / p⌋ = ⌊y / p⌋ := by
  obtain ⟨n, rfl⟩ := isInt_iff.1 hi
  apply le_antisymm
  · apply Int.floor_le_floor
    exact div_le_div_of_nonneg_right (Int.floor_le y) hp.le
  · rw [Int.le_floor, le_div_iff₀ hp]
    have h1 := Int.floor_le (y / n)
    rw [le_div_iff₀ hp] at h1
    have : ⌊y / n⌋ * n ≤ ⌊y⌋ := by rw [Int.le_floor]; push_cast; exact h1
    exact_mod_cast this

/-- The two-step floor is the floor of the exact sell amount. -/
theorem uniformSell_eq {pb ps : ℚ} {fee : Fee} (hp : 0 < ps) (hi : IsInt ps) (buy : ℚ) :
    uniformSell pb ps fee buy = ⌊buy * pb / (1 - fee.value) / ps⌋ := floor_floor_div hp hi

theorem uniformSell_le {pb ps : ℚ} {fee : Fee} (hp : 0 < ps) (hi : IsInt ps) (buy : ℚ) :
    (uniformSell pb ps fee buy : ℚ) ≤ buy * pb / (1 - fee.value) / ps := by
  rw [uniformSell_eq hp hi]; exact Int.floor_le _

theorem uniformSell_nonneg {pb ps : ℚ} {fee : Fee} (hp : 0 < ps) (hi : IsInt ps) (hpb : 0 < pb) (hf : fee.value < 1) {buy : ℚ}
    (hb : 0 ≤ buy) : 0 ≤ uniformSell pb ps fee buy := by
  have hφ : 0 < 1 - fee.value := by linarith
  rw [uniformSell_eq hp hi, Int.floor_nonneg]; positivity

theorem uniformSell_mono {pb ps : ℚ} {fee : Fee} (hp : 0 < ps) (hi : IsInt ps) (hpb : 0 < pb) (hf : fee.value < 1) {a b : ℚ}
    (hab : a ≤ b) : uniformSell pb ps fee a ≤ uniformSell pb ps fee b := by
  have hφ : 0 < 1 - fee.value := by linarith
  rw [uniformSell_eq hp hi, uniformSell_eq hp hi]
  apply Int.floor_le_floor
  have := mul_le_mul_of_nonneg_right hab hpb.le
  exact div_le_div_of_nonneg_right (div_le_div_of_nonneg_right this hφ.le) hp.le

@[simp] theorem uniformSell_zero (pb ps : ℚ) (fee : Fee) : uniformSell pb ps fee 0 = 0 := by
  unfold uniformSell; simp

/-! ### Token balances -/

/-- Balance of a token. -/
def imbal (orders : List Order) (t : Token) : ℚ := sold orders t - bought orders t

theorem imbal_nil (t : Token) : imbal [] t = 0 := by simp [imbal, sold, bought]

theorem imbal_cons (o : Order) (os : List Order) (t : Token) :
    imbal (o :: os) t = (if o.sellToken = t then o.sell else 0) - (if o.buyToken = t then o.buy else 0) + imbal os t := by
  unfold imbal sold bought
  by_cases h1 : o.sellToken = t <;> by_cases h2 : o.buyToken = t <;> simp [h1, h2] <;> ring

theorem imbal_perm {a b : List Order} (h : a.Perm b) (t : Token) : imbal a t = imbal b t := by
  unfold imbal sold bought
  rw [((h.filter _).map _).sum_eq, ((h.filter _).map _).sum_eq]

theorem balances_fold {tokens : List Token} : ∀ {orders : List Order} {d : Dict Token ℚ}, dictKeys d = tokens →
    (∀ o ∈ orders, o.buyToken ∈ tokens ∧ o.sellToken ∈ tokens) →
    ∃ d', foldE (fun (d : Dict Token ℚ) (o : Order) => do
        let vb ← dictGet d o.buyToken
        let d := dictSet d o.buyToken (vb - o.buy)
        let vs ← dictGet d o.sellToken
        pure (dictSet d o.sellToken (vs + o.sell))) d orders = .ok d' ∧ dictKeys d' = tokens ∧
      ∀ t v, dictGet? d t = some v → dictGet? d' t = some (v + imbal orders t) := by
  intro orders
  induction orders with
  | nil => intro d hd _; exact ⟨d, rfl, hd, fun t v h => by rw [imbal_nil, add_zero]; exact h⟩
  | cons o os ih =>
    intro d hd ho
    obtain ⟨h1, h2⟩ := ho o (by simp)
    obtain ⟨vb, hb⟩ := dictGet?_isSome.2 (hd ▸ h1)
    set d1 := dictSet d o.buyToken (vb - o.buy) with hd1
    have k1 : dictKeys d1 = tokens := by rw [hd1, dictKeys_dictSet, if_pos (hd ▸ h1), hd]
    obtain ⟨vs, hs⟩ := dictGet?_isSome.2 (k1 ▸ h2)
    set d2 := dictSet d1 o.sellToken (vs + o.sell) with hd2
    have k2 : dictKeys d2 = tokens := by rw [hd2, dictKeys_dictSet, if_pos (k1 ▸ h2), k1]
    obtain ⟨d', e, k, hv⟩ := ih k2 (fun a ha => ho a (by simp [ha]))
    refine ⟨d', ?_, k, ?_⟩
    · unfold foldE
      rw [dictGet_of hb, ok_bind]
      simp only [← hd1, dictGet_of hs, ok_bind, ← hd2]
      exact e
    · intro t v htv
      have : dictGet? d2 t = some (v + ((if o.sellToken = t then o.sell else 0) - (if o.buyToken = t then o.buy else 0))) := by
        rw [hd2, dictGet?_dictSet]
        by_cases hst : o.sellToken = t
        · rw [if_pos hst, if_pos hst]
          rw [hd1, dictGet?_dictSet, hst] at hs
          by_cases hbt : o.buyToken = t
          · rw [if_pos hbt] at hs ⊢
            rw [hbt, htv] at hb
            cases hb; cases hs
            congr 1; ring
          · rw [if_neg hbt] at hs ⊢
            rw [htv] at hs; cases hs
            congr 1; ring
        · rw [if_neg hst, if_neg hst, hd1, dictGet?_dictSet]
          by_cases hbt : o.buyToken = t
          · rw [if_pos hbt, if_pos hbt]
            rw [hbt, htv] at hb; cases hb
            congr 1; ring
          · rw [if_neg hbt, if_neg hbt, htv]
            congr 1; ring
      rw [hv t _ this, imbal_cons]
      congr 1; ring

theorem computeTokenBalances_eq {tokens : List Token} {orders : List Order}
    (ho : ∀ o ∈ orders, o.buyToken ∈ tokens ∧ o.sellToken ∈ tokens) :
    ∃ d, computeTokenBalances tokens orders = .ok d ∧ dictKeys d = tokens ∧
      ∀ t ∈ tokens, dictGet? d t = some (imbal orders t) := by
  have hk : dictKeys (tokens.map (fun t => (t, (0 : ℚ)))) = tokens := by
    simp [dictKeys, List.map_map, Function.comp_def]
  obtain ⟨d, e, k, hv⟩ := balances_fold hk ho
  refine ⟨d, e, k, fun t ht => ?_⟩
  rw [← zero_add (imbal orders t)]
  apply hv
  obtain ⟨v, h⟩ := dictGet?_isSome.2 (show t ∈ dictKeys (tokens.map (fun t => (t, (0 : ℚ)))) by rw [hk]; exact ht)
  have := dictGet?_mem h
  obtain ⟨a, _, h2⟩ := List.mem_map.1 this
  cases h2
  exact h

/-! ### round_leaf_token -/

/-- `o'` is `o` with its amounts adjusted while processing `leaf`. -/
structure Adjusted (cfg : Config) (prices : Prices) (fee : Fee) (leaf parent : Token) (o o' : Order) : Prop where
  buyTok : o.buyToken = leaf
  sellTok : o.sellToken = parent
  nz : o.buy ≠ 0
  same : SameButExec o o'
  int : IsInt o'.buy
  minBuy : (cfg.minTradable : ℚ) ≤ o'.buy
  price : OnClearingPrice prices fee o'
  maxSell : o'.sell ≤ o.maxSell
  minSell : (cfg.minTradable : ℚ) ≤ o'.sell

/-- Effect of processing `leaf` on one order. -/
def LeafStep (cfg : Config) (prices : Prices) (fee : Fee) (leaf parent : Token) (o o' : Order) : Prop :=
  o' = o ∨ Adjusted cfg prices fee leaf parent o o'

theorem forall₂_refl' {α : Type} {R : α → α → Prop} (h : ∀ a, R a a) : ∀ l : List α, List.Forall₂ R l l
  | [] => .nil
  | a :: l => .cons (h a) (forall₂_refl' h l)

theorem roundLeafLoop_spec {cfg : Config} {leaf parent : Token} {prices : Prices} {fee : Fee} (hI : IntPrices prices)
    (hf : fee.value < 1) : ∀ {l : List Order} {bal : ℚ}, IsInt bal → (∀ o ∈ l, Priced prices o ∧ IsInt o.buy) →
    ∃ l', roundLeafLoop cfg leaf parent prices fee bal l = .ok l' ∧ List.Forall₂ (LeafStep cfg prices fee leaf parent) l l' := by
  intro l
  induction l with
  | nil => intro bal _ _; exact ⟨[], rfl, .nil⟩
  | cons o os ih =>
    intro bal hbal ho
    have hos : ∀ a ∈ os, Priced prices a ∧ IsInt a.buy := fun a ha => ho a (by simp [ha])
    have skip : ∃ l', (roundLeafLoop cfg leaf parent prices fee bal os >>= fun os' => (pure (o :: os') : Py _)) = .ok l' ∧
        List.Forall₂ (LeafStep cfg prices fee leaf parent) (o :: os) l' := by
      obtain ⟨l', e, h⟩ := ih hbal hos
      exact ⟨o :: l', by rw [e]; rfl, .cons (.inl rfl) h⟩
    unfold roundLeafLoop
    split
    · exact skip
    · rename_i hc
      simp only [not_or, not_not] at hc
      obtain ⟨hc1, hc2, hc3⟩ := hc
      obtain ⟨hp, hint⟩ := ho o (by simp)
      obtain ⟨⟨pb, hpb⟩, ps, hps⟩ := priced_iff.1 hp
      set delta := max ((cfg.minTradable : ℚ) - o.buy) bal with hdelta
      have hdint : IsInt delta := ((isInt_intCast _).sub hint).max hbal
      have hge : (cfg.minTradable : ℚ) ≤ o.buy + delta := by
        have := le_max_left ((cfg.minTradable : ℚ) - o.buy) bal
        rw [← hdelta] at this
        linarith
      have g1 : (o.withBuy (o.buy + delta)).getSellFromBuy prices fee = .ok (uniformSell pb ps fee (o.buy + delta) : ℚ) :=
        getSellFromBuy_eq hI hf hpb hps
      have g2 : (o.withBuy (o.buy + delta)).setSellFromBuy prices fee =
          .ok ((o.withBuy (o.buy + delta)).withSell (uniformSell pb ps fee (o.buy + delta) : ℚ)) :=
        setSellFromBuy_eq hI hf hpb hps
      simp only [← hdelta]
      rw [g1, ok_bind]
      split
      · exact skip
      · rename_i h1
        split
        · exact skip
        · rename_i h2
          rw [pyAssert_of hge, ok_bind, g2, ok_bind]
          have hadj : Adjusted cfg prices fee leaf parent o ((o.withBuy (o.buy + delta)).withSell (uniformSell pb ps fee (o.buy + delta) : ℚ)) :=
            ⟨hc1, hc2, hc3, rfl, hint.add hdint, hge, ⟨pb, ps, hpb, hps, rfl⟩, not_lt.1 h1, not_lt.1 h2⟩
          split
          · exact ⟨_, rfl, .cons (.inr hadj) (forall₂_refl' (fun _ => .inl rfl) os)⟩
          · obtain ⟨l', e, h⟩ := ih (hbal.sub hdint) hos
            exact ⟨_, by rw [e]; rfl, .cons (.inr hadj) h⟩

theorem LeafStep.id {cfg : Config} {prices : Prices} {fee : Fee} {leaf parent : Token} {o o' : Order}
    (h : LeafStep cfg prices fee leaf parent o o') : o'.id = o.id := by
  rcases h with rfl | h
  · rfl
  · rw [h.same]

theorem forall₂_map_id {R : Order → Order → Prop} (hR : ∀ o o', R o o' → o'.id = o.id) {l l' : List Order}
    (h : List.Forall₂ R l l') : l'.map (·.id) = l.map (·.id) := by
  induction h with
  | nil => rfl
  | cons h1 _ ih => rw [List.map_cons, List.map_cons, ih, hR _ _ h1]

/-- Writing back the images of a permutation of the list. -/
theorem writeBack_forall₂ {R : Order → Order → Prop} (hR : ∀ o o', R o o' → o'.id = o.id) {orig l l' : List Order}
    (hn : (orig.map (·.id)).Nodup) (hp : l.Perm orig) (h : List.Forall₂ R l l') : List.Forall₂ R orig (writeBack orig l') := by
  have key : ∀ {l l' : List Order}, List.Forall₂ R l l' → (l.map (·.id)).Nodup → ∀ o ∈ l, ∃ o', R o o' ∧
      l'.find? (fun u => decide (u.id = o.id)) = some o' := by
    intro l l' h
    induction h with
    | nil => simp
    | cons h1 _ ih =>
      rename_i a a' l l' _
      intro hn o ho
      rw [List.map_cons, List.nodup_cons] at hn
      rcases List.mem_cons.1 ho with rfl | ho
      · exact ⟨a', h1, by rw [List.find?_cons, hR _ _ h1]; simp⟩
      · obtain ⟨o', h2, h3⟩ := ih hn.2 o ho
        refine ⟨o', h2, ?_⟩
        have : ¬ (a'.id = o.id) := by
          rw [hR _ _ h1]
          intro e
          exact hn.1 (e ▸ List.mem_map.2 ⟨o, ho, rfl⟩)
        rw [List.find?_cons]
        simp only [this, decide_false]
        exact h3
  have hl : (l.map (·.id)).Nodup := (hp.map _).nodup_iff.2 hn
  unfold writeBack
  rw [List.forall₂_map_right_iff, List.forall₂_same]
  intro o ho
  obtain ⟨o', h1, h2⟩ := key h hl o (hp.mem_iff.2 ho)
  rw [h2]
  exact h1

theorem roundLeafToken_spec {cfg : Config} {leaf parent : Token} {prices : Prices} {fee : Fee} (hI : IntPrices prices)
    (hf : fee.value < 1) {orders : List Order} {bal : ℚ} (hbal : IsInt bal) (ho : ∀ o ∈ orders, Priced prices o ∧ IsInt o.buy)
    (hn : (orders.map (·.id)).Nodup) :
    ∃ l', roundLeafToken cfg leaf parent orders bal prices fee = .ok l' ∧
      List.Forall₂ (LeafStep cfg prices fee leaf parent) orders l' := by
  have hperm := pySortByRev_perm (fun o : Order => o.buy) orders
  obtain ⟨l', e, h⟩ := roundLeafLoop_spec (cfg := cfg) (leaf := leaf) (parent := parent) hI hf hbal
    (l := pySortByRev (fun o : Order => o.buy) orders) (fun o h => ho o (hperm.mem_iff.1 h))
  refine ⟨writeBack orders l', ?_, writeBack_forall₂ (fun _ _ h => h.id) hn hperm h⟩
  unfold roundLeafToken
  rw [e]; rfl

/-- Processing `leaf` changes only the balances of `leaf` and `parent`. -/
theorem imbal_leafStep {cfg : Config} {prices : Prices} {fee : Fee} {leaf parent t : Token} (h1 : t ≠ leaf) (h2 : t ≠ parent)
    {l l' : List Order} (h : List.Forall₂ (LeafStep cfg prices fee leaf parent) l l') : imbal l' t = imbal l t := by
  induction h with
  | nil => rfl
  | cons h3 _ ih =>
    rw [imbal_cons, imbal_cons, ih]
    rcases h3 with rfl | h3
    · rfl
    · have e1 := h3.buyTok; have e2 := h3.sellTok
      rw [h3.same]
      simp only [e1, e2, Ne.symm h1, Ne.symm h2, if_false]

/-! ### The main loop -/

/-- What holds of the orders throughout the main loop of rounding. -/
structure RoundInv (prices : Prices) (fee : Fee) (orders : List Order) : Prop where
  ids : (orders.map (·.id)).Nodup
  priced : ∀ o ∈ orders, Priced prices o
  int : ∀ o ∈ orders, IsInt o.buy
  price : ∀ o ∈ orders, OnClearingPrice prices fee o

theorem RoundInv.isInt_imbal {prices : Prices} {fee : Fee} {orders : List Order} (h : RoundInv prices fee orders) (t : Token) :
    IsInt (imbal orders t) := by
  refine IsInt.sub (isInt_sum fun o ho => ?_) (isInt_sum fun o ho => ?_)
  · obtain ⟨_, _, _, _, e⟩ := h.price o (List.mem_of_mem_filter ho)
    rw [e]; exact isInt_intCast _
  · exact h.int o (List.mem_of_mem_filter ho)

/-- Effect of the whole main loop on one order. -/
def Rerounded (cfg : Config) (prices : Prices) (fee : Fee) (o o' : Order) : Prop :=
  o' = o ∨ (o.buy ≠ 0 ∧ SameButExec o o' ∧ IsInt o'.buy ∧ (cfg.minTradable : ℚ) ≤ o'.buy ∧ OnClearingPrice prices fee o' ∧
    o'.sell ≤ o.maxSell ∧ (cfg.minTradable : ℚ) ≤ o'.sell)

theorem SameButExec.trans' {a b c : Order} (h1 : SameButExec a b) (h2 : SameButExec b c) : SameButExec a c := by
  unfold SameButExec at *
  rw [h1] at h2
  exact h2

theorem LeafStep.then {cfg : Config} {prices : Prices} {fee : Fee} {leaf parent : Token} {a b c : Order}
    (h1 : LeafStep cfg prices fee leaf parent a b) (h2 : Rerounded cfg prices fee b c) : Rerounded cfg prices fee a c := by
  rcases h1 with rfl | h1
  · exact h2
  · rcases h2 with rfl | ⟨_, g2, g3, g4, g5, g6, g7⟩
    · exact .inr ⟨h1.nz, h1.same, h1.int, h1.minBuy, h1.price, h1.maxSell, h1.minSell⟩
    · refine .inr ⟨h1.nz, SameButExec.trans' h1.same g2, g3, g4, g5, ?_, g7⟩
      have := h1.same
      rw [SameButExec] at this
      rw [this] at g6
      exact g6

theorem forall₂_trans' {R S T : Order → Order → Prop} (hT : ∀ a b c, R a b → S b c → T a c) {l1 l2 l3 : List Order}
    (h1 : List.Forall₂ R l1 l2) (h2 : List.Forall₂ S l2 l3) : List.Forall₂ T l1 l3 := by
  induction h1 generalizing l3 with
  | nil => cases h2; exact .nil
  | cons h _ ih => cases h2 with
    | cons g1 g2 => exact .cons (hT _ _ _ h g1) (ih g2)

theorem forall₂_mem_right {R : Order → Order → Prop} {l l' : List Order} (h : List.Forall₂ R l l') :
    ∀ o' ∈ l', ∃ o ∈ l, R o o' := by
  induction h with
  | nil => simp
  | cons h1 _ ih =>
    intro o' ho
    rcases List.mem_cons.1 ho with rfl | ho
    · exact ⟨_, by simp, h1⟩
    · obtain ⟨o, h2, h3⟩ := ih o' ho
      exact ⟨o, by simp [h2], h3⟩

theorem forall₂_mem_left {R : Order → Order → Prop} {l l' : List Order} (h : List.Forall₂ R l l') :
    ∀ o ∈ l, ∃ o' ∈ l', R o o' := by
  induction h with
  | nil => simp
  | cons h1 _ ih =>
    intro o' ho
    rcases List.mem_cons.1 ho with rfl | ho
    · exact ⟨_, by simp, h1⟩
    · obtain ⟨o, h2, h3⟩ := ih o' ho
      exact ⟨o, by simp [h2], h3⟩

theorem RoundInv.leafStep {cfg : Config} {prices : Prices} {fee : Fee} {leaf parent : Token} {l l' : List Order}
    (h : RoundInv prices fee l) (hs : List.Forall₂ (LeafStep cfg prices fee leaf parent) l l') : RoundInv prices fee l' := by
  refine ⟨?_, ?_, ?_, ?_⟩
  · rw [forall₂_map_id (fun _ _ h => h.id) hs]; exact h.ids
  all_goals
    intro o' ho'
    obtain ⟨o, ho, hs⟩ := forall₂_mem_right hs o' ho'
  · rcases hs with rfl | hs
    · exact h.priced _ ho
    · have := h.priced _ ho
      have e := hs.same
      rw [SameButExec] at e
      rw [e]; exact this
  · rcases hs with rfl | hs
    · exact h.int _ ho
    · exact hs.int
  · rcases hs with rfl | hs
    · exact h.price _ ho
    · exact hs.price

theorem leaf_facts {tree : Dict Token Token} {leaf : Token}
    (h : leaf ∈ (dictKeys tree).filter (fun c => decide (c ∉ tree.map (·.2)))) :
    leaf ∈ dictKeys tree ∧ leaf ∉ tree.map (·.2) := by
  rw [List.mem_filter, decide_eq_true_eq] at h; exact h

/-- The step on the orders made in one iteration of the main loop. -/
theorem roundStep_orders {cfg : Config} {prices : Prices} {fee : Fee} (hI : IntPrices prices) (hf : fee.value < 1)
    {leaf parent : Token} {orders : List Order} {bal : ℚ} (hinv : RoundInv prices fee orders) (hbal : IsInt bal) :
    ∃ l', roundLeafIfNeeded cfg leaf parent orders bal prices fee = .ok l' ∧
      List.Forall₂ (LeafStep cfg prices fee leaf parent) orders l' := by
  unfold roundLeafIfNeeded
  split
  · exact roundLeafToken_spec hI hf hbal (fun o ho => ⟨hinv.priced o ho, hinv.int o ho⟩) hinv.ids
  · exact ⟨orders, rfl, forall₂_refl' (fun _ => .inl rfl) _⟩

theorem RoundInv.balances {prices : Prices} {fee : Fee} {orders : List Order} (h : RoundInv prices fee orders) :
    ∃ d, computeTokenBalances (dictKeys prices) orders = .ok d ∧ dictKeys d = dictKeys prices ∧
      (∀ t v, dictGet? d t = some v → v = imbal orders t) := by
  obtain ⟨d, e, k, hv⟩ := computeTokenBalances_eq (tokens := dictKeys prices) (orders := orders)
    (fun o ho => priced_keys (h.priced o ho))
  refine ⟨d, e, k, fun t v htv => ?_⟩
  have : t ∈ dictKeys prices := by rw [← k]; exact dictGet?_isSome.1 ⟨v, htv⟩
  have := hv t this
  rw [this] at htv
  exact (Option.some.inj htv).symm

/-- Partial correctness of the main loop, for any tree. -/
theorem roundLoop_sound {cfg : Config} {prices : Prices} {fee : Fee} (hI : IntPrices prices) (hf : fee.value < 1) :
    ∀ {fuel : ℕ} {tree : Dict Token Token} {balances : Dict Token ℚ} {orders : List Order} {ok : Bool} {res : List Order},
    RoundInv prices fee orders → (∀ t v, dictGet? balances t = some v → IsInt v) →
    roundLoop cfg prices fee fuel tree balances orders = .ok (ok, res) →
    List.Forall₂ (Rerounded cfg prices fee) orders res ∧ RoundInv prices fee res ∧
      (ok = true → ∀ t ∈ dictKeys tree, imbal res t = 0) ∧
      (∀ t, t ∉ dictKeys tree → t ∉ tree.map (·.2) → imbal res t = imbal orders t) := by
  intro fuel
  induction fuel with
  | zero => intro _ _ _ _ _ _ _ h; cases h
  | succ fuel ih =>
    intro tree balances orders ok res hinv hbal h
    unfold roundLoop at h
    split at h
    · rename_i hz
      cases h
      rw [List.eq_nil_of_length_eq_zero hz]
      exact ⟨forall₂_refl' (fun _ => .inl rfl) _, hinv, fun _ => by simp [dictKeys], fun _ _ _ => rfl⟩
    · simp only [bind_eq_ok] at h
      obtain ⟨leaf, hleaf, parent, hpar, bal, hb, h⟩ := h
      obtain ⟨l1, l2⟩ := leaf_facts (pyGet_ok_mem hleaf)
      have hpm : (leaf, parent) ∈ tree := dictGet?_mem (dictGet_eq_ok.1 hpar)
      obtain ⟨os, e1, hstep⟩ := roundStep_orders (cfg := cfg) (leaf := leaf) (parent := parent) hI hf hinv
        (hbal _ _ (dictGet_eq_ok.1 hb))
      obtain ⟨os', e2, h⟩ := h
      rw [e1] at e2
      cases e2
      have hinv2 := hinv.leafStep hstep
      obtain ⟨d, e3, k3, hv⟩ := hinv2.balances
      obtain ⟨d', e4, bal2, hb2, h⟩ := h
      rw [e3] at e4
      cases e4
      have hbal2 := hv _ _ (dictGet_eq_ok.1 hb2)
      split at h
      · rename_i hnz
        cases h
        refine ⟨forall₂_trans' (R := LeafStep cfg prices fee leaf parent) (S := Rerounded cfg prices fee) (T := Rerounded cfg prices fee) (fun _ _ _ h1 h2 => LeafStep.then h1 h2) hstep
          (forall₂_refl' (R := Rerounded cfg prices fee) (fun _ => .inl rfl) _), hinv2, by simp, ?_⟩
        intro t h1 h2
        exact imbal_leafStep (t := t) (leaf := leaf) (parent := parent) (by rintro rfl; exact h1 l1)
            (by rintro rfl; exact h2 (List.mem_map.2 ⟨_, hpm, rfl⟩)) hstep
      · rename_i hz
        rw [not_not] at hz
        obtain ⟨i1, i2, i3, i4⟩ := ih hinv2 (fun t v htv => by rw [hv t v htv]; exact hinv2.isInt_imbal t) h
        have sub1 : ∀ t, t ∈ dictKeys (tree.filter (fun p => decide (p.1 ≠ leaf))) → t ∈ dictKeys tree := by
          intro t ht
          obtain ⟨p, hp, rfl⟩ := List.mem_map.1 ht
          exact List.mem_map.2 ⟨p, List.mem_of_mem_filter hp, rfl⟩
        have sub2 : ∀ t, t ∈ (tree.filter (fun p => decide (p.1 ≠ leaf))).map (·.2) → t ∈ tree.map (·.2) := by
          intro t ht
          obtain ⟨p, hp, rfl⟩ := List.mem_map.1 ht
          exact List.mem_map.2 ⟨p, List.mem_of_mem_filter hp, rfl⟩
        have notk : leaf ∉ dictKeys (tree.filter (fun p => decide (p.1 ≠ leaf))) := by
          intro ht
          obtain ⟨p, hp, e⟩ := List.mem_map.1 ht
          have := List.of_mem_filter hp
          rw [decide_eq_true_eq] at this
          exact this e
        refine ⟨forall₂_trans' (R := LeafStep cfg prices fee leaf parent) (S := Rerounded cfg prices fee) (T := Rerounded cfg prices fee) (fun _ _ _ h1 h2 => LeafStep.then h1 h2) hstep i1, i2, ?_, ?_⟩
        · intro hok t ht
          by_cases htl : t = leaf
          · subst htl
            rw [i4 t notk (fun hc => l2 (sub2 _ hc)), ← hbal2, hz]
          · refine i3 hok t ?_
            obtain ⟨p, hp, rfl⟩ := List.mem_map.1 ht
            exact List.mem_map.2 ⟨p, List.mem_filter.2 ⟨hp, by simpa using htl⟩, rfl⟩
        · intro t h1 h2
          rw [i4 t (fun hc => h1 (sub1 _ hc)) (fun hc => h2 (sub2 _ hc))]
          exact imbal_leafStep (t := t) (leaf := leaf) (parent := parent) (by rintro rfl; exact h1 l1)
            (by rintro rfl; exact h2 (List.mem_map.2 ⟨_, hpm, rfl⟩)) hstep

theorem exists_leaf {tree : Dict Token Token} {rank : Token → ℕ} (hr : ∀ p ∈ tree, rank p.2 < rank p.1) (hne : tree ≠ []) :
    (dictKeys tree).filter (fun c => decide (c ∉ tree.map (·.2))) ≠ [] := by
  have : ∃ p ∈ tree, ∀ q ∈ tree, rank q.1 ≤ rank p.1 := by
    clear hr
    induction tree with
    | nil => exact absurd rfl hne
    | cons a l ih =>
      cases l with
      | nil => exact ⟨a, by simp, by simp⟩
      | cons b l =>
        obtain ⟨p, hp, hmax⟩ := ih (by simp)
        by_cases h : rank p.1 ≤ rank a.1
        · refine ⟨a, by simp, fun q hq => ?_⟩
          rcases List.mem_cons.1 hq with rfl | hq
          · exact le_refl _
          · exact (hmax q hq).trans h
        · refine ⟨p, List.mem_cons_of_mem _ hp, fun q hq => ?_⟩
          rcases List.mem_cons.1 hq with rfl | hq
          · omega
          · exact hmax q hq
  obtain ⟨p, hp, hmax⟩ := this
  apply List.ne_nil_of_mem (a := p.1)
  rw [List.mem_filter, decide_eq_true_eq]
  refine ⟨List.mem_map.2 ⟨p, hp, rfl⟩, fun hc => ?_⟩
  obtain ⟨q, hq, e⟩ := List.mem_map.1 hc
  have h1 := hr q hq
  have h2 := hmax q hq
  rw [e] at h1
  omega

/-- Termination and absence of lookup errors of the main loop, for an acyclic tree over priced tokens. -/
theorem roundLoop_total {cfg : Config} {prices : Prices} {fee : Fee} (hI : IntPrices prices) (hf : fee.value < 1)
    {rank : Token → ℕ} : ∀ {fuel : ℕ} {tree : Dict Token Token} {balances : Dict Token ℚ} {orders : List Order},
    tree.length < fuel → (∀ p ∈ tree, rank p.2 < rank p.1) → (∀ t ∈ dictKeys tree, t ∈ dictKeys prices) →
    dictKeys balances = dictKeys prices →
    RoundInv prices fee orders → (∀ t v, dictGet? balances t = some v → IsInt v) →
    ∃ ok res, roundLoop cfg prices fee fuel tree balances orders = .ok (ok, res) := by
  intro fuel
  induction fuel with
  | zero => intro _ _ _ h; omega
  | succ fuel ih =>
    intro tree balances orders hfuel hr hk hkb hinv hbal
    unfold roundLoop
    split
    · exact ⟨_, _, rfl⟩
    · rename_i hz
      have hne : tree ≠ [] := by rintro rfl; exact hz rfl
      have hl := exists_leaf hr hne
      obtain ⟨leaf, ls, els⟩ := List.exists_cons_of_ne_nil hl
      have hg : pyGet ((dictKeys tree).filter (fun c => decide (c ∉ tree.map (·.2)))) 0 = .ok leaf :=
        pyGet_nat (k := 0) (by rw [els]; rfl)
      obtain ⟨l1, l2⟩ := leaf_facts (pyGet_ok_mem hg)
      obtain ⟨parent, hpar⟩ := dictGet?_isSome.2 l1
      obtain ⟨bal, hb⟩ := dictGet?_isSome.2 (show leaf ∈ dictKeys balances by rw [hkb]; exact hk leaf l1)
      obtain ⟨os, e1, hstep⟩ := roundStep_orders (cfg := cfg) (leaf := leaf) (parent := parent) hI hf hinv (hbal _ _ hb)
      have hinv2 := hinv.leafStep hstep
      obtain ⟨d, e3, k3, hv⟩ := hinv2.balances
      obtain ⟨bal2, hb2⟩ := dictGet?_isSome.2 (show leaf ∈ dictKeys d by rw [k3]; exact hk leaf l1)
      simp only [hg, ok_bind, dictGet_of hpar, dictGet_of hb, e1, e3, dictGet_of hb2]
      split
      · exact ⟨_, _, rfl⟩
      · apply ih
        · have : (tree.filter (fun p => decide (p.1 ≠ leaf))).length < tree.length := by
            rw [List.length_filter_lt_length_iff_exists]
            obtain ⟨p, hp, e⟩ := List.mem_map.1 l1
            exact ⟨p, hp, by simpa using e⟩
          omega
        · intro p hp; exact hr p (List.mem_of_mem_filter hp)
        · intro t ht
          obtain ⟨p, hp, rfl⟩ := List.mem_map.1 ht
          exact hk _ (List.mem_map.2 ⟨p, List.mem_of_mem_filter hp, rfl⟩)
        · exact k3
        · exact hinv2
        · intro t v htv; rw [hv t v htv]; exact hinv2.isInt_imbal t

/-! ### The spanning tree -/

theorem arborescence_fold : ∀ (br : List (Token × Token)) (d : Dict Token Token),
    (∀ t, t ∈ dictKeys (br.foldl (fun d e => dictSet d e.2 e.1) d) ↔ t ∈ dictKeys d ∨ t ∈ br.map (·.2)) ∧
    (∀ c p, dictGet? (br.foldl (fun d e => dictSet d e.2 e.1) d) c = some p → dictGet? d c = some p ∨ (p, c) ∈ br) ∧
    ((dictKeys d).Nodup → (dictKeys (br.foldl (fun d e => dictSet d e.2 e.1) d)).Nodup) := by
  intro br
  induction br with
  | nil => intro d; simp
  | cons e br ih =>
    intro d
    obtain ⟨h1, h2, h3⟩ := ih (dictSet d e.2 e.1)
    simp only [List.foldl_cons]
    refine ⟨fun t => ?_, fun c p h => ?_, fun hn => h3 (nodup_dictSet hn _ _)⟩
    · rw [h1, dictKeys_dictSet]
      split
      · rename_i hm
        simp only [List.map_cons, List.mem_cons]
        constructor
        · rintro (h | h)
          · exact .inl h
          · exact .inr (.inr h)
        · rintro (h | rfl | h)
          · exact .inl h
          · exact .inl hm
          · exact .inr h
      · simp only [List.mem_append, List.map_cons, List.mem_cons, List.not_mem_nil, or_false]
        tauto
    · rcases h2 c p h with h | h
      · rw [dictGet?_dictSet] at h
        split at h
        · rename_i he
          cases h
          right; subst he; simp
        · exact .inl h
      · right; simp [h]

theorem arborescence_spec (branch : List (Token × Token) → List (Token × Token)) (orders : List Order) (fee : Fee) :
    (∀ t, t ∈ dictKeys (spanningArborescence branch orders fee) ↔ t ∈ (branch (orderEdges orders fee)).map (·.2)) ∧
    (∀ p ∈ spanningArborescence branch orders fee, (p.2, p.1) ∈ branch (orderEdges orders fee)) := by
  obtain ⟨h1, h2, h3⟩ := arborescence_fold (branch (orderEdges orders fee)) []
  refine ⟨fun t => by rw [spanningArborescence, h1]; simp [dictKeys], fun p hp => ?_⟩
  have := dictGet?_of_mem (h3 (by simp [dictKeys])) (k := p.1) (v := p.2) hp
  rcases h2 _ _ this with h | h
  · simp at h
  · exact h

theorem mem_orderEdges {orders : List Order} {fee : Fee} {e : Token × Token} :
    e ∈ orderEdges orders fee ↔ ∃ o ∈ orders, o.buyToken ≠ fee.token ∧ e = (o.sellToken, o.buyToken) := by
  unfold orderEdges
  rw [List.mem_reverse, List.mem_dedup, List.mem_reverse, List.mem_map]
  constructor
  · rintro ⟨o, ho, rfl⟩
    rw [List.mem_filter, decide_eq_true_eq] at ho
    exact ⟨o, ho.1, ho.2, rfl⟩
  · rintro ⟨o, h1, h2, rfl⟩
    exact ⟨o, by rw [List.mem_filter, decide_eq_true_eq]; exact ⟨h1, h2⟩, rfl⟩

end Dex
