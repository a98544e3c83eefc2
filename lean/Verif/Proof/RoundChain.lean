import Verif.Props.Room

/-! # Rounding along the tree fee token → B → S -/

set_option linter.unusedSimpArgs false

namespace Dex

open Spec

/-- The maximum branching when some order buys `B` for the fee token and some order buys `S` for `B`. -/
theorem branching_chain {E br : List (Token × Token)} {F B S : Token} (hBS : B ≠ S) (hBF : B ≠ F) (hSF : S ≠ F)
    (hE : ∀ e ∈ E, e = (S, B) ∨ e = (B, S) ∨ e = (F, B)) (h1 : (B, S) ∈ E) (h2 : (F, B) ∈ E) (hm : MaxBranching E br) :
    (∀ e ∈ br, e = (B, S) ∨ e = (F, B)) ∧ (B, S) ∈ br ∧ (F, B) ∈ br := by
  obtain ⟨⟨sub, deg, rank, hrank⟩, hmax⟩ := hm
  have hlen : 2 ≤ br.length := by
    refine hmax [(F, B), (B, S)] ⟨?_, by simp [hBS], fun t => if t = F then 0 else if t = B then 1 else 2, ?_⟩
    · intro e he
      simp only [List.mem_cons, List.not_mem_nil, or_false] at he
      rcases he with rfl | rfl <;> assumption
    · intro e he
      simp only [List.mem_cons, List.not_mem_nil, or_false] at he
      rcases he with rfl | rfl
      · simp [hBF]
      · simp [hBF, hSF, hBS.symm]
  have hkids : ∀ t ∈ br.map (·.2), t = B ∨ t = S := by
    intro t ht
    obtain ⟨e, he, rfl⟩ := List.mem_map.1 ht
    rcases hE e (sub e he) with rfl | rfl | rfl <;> simp
  have hsub : [B, S].Subperm (br.map (·.2)) := by
    have hs : (br.map (·.2)).Subperm [B, S] := deg.subperm (fun t ht => by simpa using hkids t ht)
    have := hs.perm_of_length_le (by simpa using hlen)
    exact this.symm.subperm
  have hS : (B, S) ∈ br := by
    obtain ⟨e, he, h⟩ := List.mem_map.1 (hsub.subset (by simp : S ∈ [B, S]))
    rcases hE e (sub e he) with rfl | rfl | rfl
    · exact absurd h hBS
    · exact he
    · exact absurd h hBS
  have hnot : (S, B) ∉ br := by
    intro h
    have a := hrank _ h
    have b := hrank _ hS
    simp only at a b
    omega
  have hB : (F, B) ∈ br := by
    obtain ⟨e, he, h⟩ := List.mem_map.1 (hsub.subset (by simp : B ∈ [B, S]))
    rcases hE e (sub e he) with rfl | rfl | rfl
    · exact absurd he hnot
    · exact absurd h hBS.symm
    · exact he
  refine ⟨fun e he => ?_, hS, hB⟩
  rcases hE e (sub e he) with rfl | rfl | rfl
  · exact absurd he hnot
  · exact .inl rfl
  · exact .inr rfl

/-- The last round of the main loop. -/
theorem roundLoop_last {cfg : Config} {prices : Prices} {fee : Fee} (hI : IntPrices prices) (hf : fee.value < 1)
    {fuel : ℕ} {tree : Dict Token Token} {balances : Dict Token ℚ} {orders res : List Order} {leaf parent : Token} {ok : Bool}
    (hne : parent ≠ leaf) (htree : ∀ p ∈ tree, p = (leaf, parent)) (hmem : (leaf, parent) ∈ tree) (hinv : RoundInv prices fee orders)
    (hb : ∀ o ∈ orders, Bounded cfg o) (hbal : ∀ t v, dictGet? balances t = some v → v = imbal orders t)
    (h : roundLoop cfg prices fee fuel tree balances orders = .ok (ok, res)) :
    List.Forall₂ (LeafStep cfg prices fee leaf parent) orders res ∧ (ok = true ↔ imbal res leaf = 0) ∧
      (imbal res leaf = 0 ∨ ∀ o ∈ orders, OnEdge leaf parent o → ¬ Absorbs cfg prices fee (imbal orders leaf) o) := by
  cases fuel with
  | zero => cases h
  | succ fuel =>
    unfold roundLoop at h
    split at h
    · rename_i h0
      rw [List.length_eq_zero_iff.1 h0] at hmem
      simp at hmem
    · simp only [bind_eq_ok] at h
      obtain ⟨leaf', hleaf, parent', hpar, bal, hb1, h⟩ := h
      have hpm : (leaf', parent') ∈ tree := dictGet?_mem (dictGet_eq_ok.1 hpar)
      have := htree _ hpm
      cases this
      have hbal1 := hbal _ _ (dictGet_eq_ok.1 hb1)
      obtain ⟨os, e1, hstep⟩ := roundStep_orders (cfg := cfg) (leaf := leaf) (parent := parent) (bal := bal) hI hf hinv
        (by rw [hbal1]; exact hinv.isInt_imbal leaf)
      obtain ⟨os', e2, h⟩ := h
      have hroom := roundLeafIfNeeded_room hI hf hne hinv hb hbal1 e2
      rw [e1] at e2
      cases e2
      have hinv2 := hinv.leafStep hstep
      obtain ⟨d, e3, k3, hv⟩ := hinv2.balances
      obtain ⟨d', e4, bal2, hb2, h⟩ := h
      rw [e3] at e4
      cases e4
      have hbal2 := hv _ _ (dictGet_eq_ok.1 hb2)
      rw [hbal2] at h
      split at h
      · rename_i hnz
        cases h
        exact ⟨hstep, by simp [hnz], .inr (hroom.resolve_left hnz).2⟩
      · rename_i hz
        rw [not_not] at hz
        have hnil : tree.filter (fun p => decide (p.1 ≠ leaf)) = [] := by
          rw [List.filter_eq_nil_iff]
          intro p hp
          rw [htree p hp]; simp
        rw [hnil] at h
        cases fuel with
        | zero => cases h
        | succ fuel => unfold roundLoop at h; cases h; exact ⟨hstep, by simp [hz], .inl hz⟩

/-- The main loop on the tree fee token → B → S: first `S` is balanced through the orders that buy `S` for `B`, then `B` through those that buy `B` for
the fee token. -/
theorem roundLoop_chain {cfg : Config} {prices : Prices} {fee : Fee} (hI : IntPrices prices) (hf : fee.value < 1)
    {fuel : ℕ} {tree : Dict Token Token} {balances : Dict Token ℚ} {orders res : List Order} {F B S : Token} {ok : Bool}
    (hBS : B ≠ S) (hBF : B ≠ F) (hSF : S ≠ F) (htree : ∀ p ∈ tree, p = (S, B) ∨ p = (B, F)) (hmS : (S, B) ∈ tree) (hmB : (B, F) ∈ tree)
    (hinv : RoundInv prices fee orders) (hb : ∀ o ∈ orders, Bounded cfg o) (hbal : ∀ t v, dictGet? balances t = some v → v = imbal orders t)
    (h : roundLoop cfg prices fee fuel tree balances orders = .ok (ok, res)) :
    ∃ os, List.Forall₂ (LeafStep cfg prices fee S B) orders os ∧
      (imbal os S = 0 ∨ ∀ o ∈ orders, OnEdge S B o → ¬ Absorbs cfg prices fee (imbal orders S) o) ∧
      ((imbal os S ≠ 0 ∧ ok = false) ∨ (imbal os S = 0 ∧ List.Forall₂ (LeafStep cfg prices fee B F) os res ∧ (ok = true ↔ imbal res B = 0) ∧
        (imbal res B = 0 ∨ ∀ o ∈ os, OnEdge B F o → ¬ Absorbs cfg prices fee (imbal os B) o))) := by
  cases fuel with
  | zero => cases h
  | succ fuel =>
    unfold roundLoop at h
    split at h
    · rename_i h0
      rw [List.length_eq_zero_iff.1 h0] at hmS
      simp at hmS
    · simp only [bind_eq_ok] at h
      obtain ⟨leaf, hleaf, parent, hpar, bal, hb1, h⟩ := h
      have hl : leaf = S := by
        have hmem := pyGet_ok_mem hleaf
        rw [List.mem_filter, decide_eq_true_eq] at hmem
        obtain ⟨p, hp, rfl⟩ := List.mem_map.1 hmem.1
        rcases htree p hp with rfl | rfl
        · rfl
        · exact absurd (List.mem_map.2 ⟨_, hmS, rfl⟩) hmem.2
      subst hl
      have hpm : (leaf, parent) ∈ tree := dictGet?_mem (dictGet_eq_ok.1 hpar)
      have hp : parent = B := by
        rcases htree _ hpm with e | e
        · cases e; rfl
        · cases e; exact absurd rfl hBS
      subst hp
      have hbal1 := hbal _ _ (dictGet_eq_ok.1 hb1)
      obtain ⟨os, e1, hstep⟩ := roundStep_orders (cfg := cfg) (leaf := leaf) (parent := parent) (bal := bal) hI hf hinv
        (by rw [hbal1]; exact hinv.isInt_imbal leaf)
      obtain ⟨os', e2, h⟩ := h
      have hroom := roundLeafIfNeeded_room hI hf hBS hinv hb hbal1 e2
      rw [e1] at e2
      cases e2
      have hinv2 := hinv.leafStep hstep
      obtain ⟨d, e3, k3, hv⟩ := hinv2.balances
      obtain ⟨d', e4, bal2, hb2, h⟩ := h
      rw [e3] at e4
      cases e4
      have hbal2 := hv _ _ (dictGet_eq_ok.1 hb2)
      rw [hbal2] at h
      refine ⟨os, hstep, hroom.imp id (·.2), ?_⟩
      split at h
      · rename_i hnz
        cases h
        exact .inl ⟨hnz, rfl⟩
      · rename_i hz
        rw [not_not] at hz
        refine .inr ⟨hz, roundLoop_last hI hf hBF.symm ?_ ?_ hinv2 (Bounded.leafStep hb hstep) hv h⟩
        · intro p hp
          rw [List.mem_filter, decide_eq_true_eq] at hp
          rcases htree p hp.1 with rfl | rfl
          · exact absurd rfl hp.2
          · rfl
        · rw [List.mem_filter, decide_eq_true_eq]
          exact ⟨hmB, hBS⟩

/-- Orders of the three kinds a pair without the fee token has. -/
def ChainKinds (F B S : Token) (orders : List Order) : Prop :=
  ∀ o ∈ orders, (o.buyToken = B ∧ o.sellToken = S) ∨ (o.buyToken = S ∧ o.sellToken = B) ∨ (o.buyToken = B ∧ o.sellToken = F)

/-- An order after the floors were taken and `S` was balanced. -/
def ChainStep (prices : Prices) (fee : Fee) (B : Token) (o o' : Order) : Prop :=
  SameButExec o o' ∧ OnClearingPrice prices fee o' ∧ (o.buy = 0 → o'.buy = 0) ∧ (o.buyToken = B → o'.buy = ⌊o.buy⌋)

theorem uniformSell_bounds {pb ps : ℚ} {fee : Fee} (s1 : 0 < ps) (s2 : IsInt ps) (y : ℚ) :
    y * exactSell pb ps fee 1 - 1 < uniformSell pb ps fee y ∧ (uniformSell pb ps fee y : ℚ) ≤ y * exactSell pb ps fee 1 := by
  have hk : exactSell pb ps fee y = y * exactSell pb ps fee 1 := by unfold exactSell; ring
  constructor
  · have : exactSell pb ps fee y < uniformSell pb ps fee y + 1 := by
      rw [uniformSell_eq s1 s2, exactSell_eq]; exact Int.lt_floor_add_one _
    rw [hk] at this; linarith
  · have := uniformSell_le (pb := pb) (fee := fee) s1 s2 y
    rw [← exactSell_eq, hk] at this
    exact this

/-- The imbalances after the floors and the adjustment of `S`; `k` (`K`) is the exact amount of `S` (`B`) sold for one `B` (`S`). -/
theorem chain_imbal {prices : Prices} {fee : Fee} {orders os : List Order} {B S : Token} {pB pS : ℚ} (hI : IntPrices prices)
    (hf : fee.value < 1) (hBS : B ≠ S) (hBF : B ≠ fee.token) (hSF : S ≠ fee.token) (hB : PriceOf prices B pB) (hS : PriceOf prices S pS)
    (hpos : ∀ o ∈ orders, 0 ≤ o.buy) (hcls : ChainKinds fee.token B S orders) (hos : List.Forall₂ (ChainStep prices fee B) orders os) :
    let k := exactSell pB pS fee 1
    let K := exactSell pS pB fee 1
    let T := ((orders.filter (fun o => decide (o.sellToken = S))).map (fun o => exactSell pB pS fee o.buy)).sum
    K * T - bought orders B - nrExecutedOf orders (fun o => decide (o.buyToken = S)) - nrExecutedOf orders (fun o => decide (o.sellToken = S)) * (K * (k + 1)) ≤
        K * imbal os S + imbal os B ∧
      K * imbal os S + imbal os B ≤ K * T - bought orders B + nrExecutedOf orders (fun o => decide (o.buyToken = B)) := by
  obtain ⟨b1, b2⟩ := hI.of hB
  obtain ⟨s1, s2⟩ := hI.of hS
  have hφ : 0 < 1 - fee.value := by linarith
  dsimp only
  have hk0 : 0 < exactSell pB pS fee 1 := by unfold exactSell; positivity
  have hK0 : 0 < exactSell pS pB fee 1 := by unfold exactSell; positivity
  have hk : ∀ y : ℚ, exactSell pB pS fee y = y * exactSell pB pS fee 1 := by intro y; unfold exactSell; ring
  generalize hKe : exactSell pS pB fee 1 = K at *
  generalize hke : exactSell pB pS fee 1 = k at *
  induction hos with
  | nil => simp [imbal_nil, bought, nrExecutedOf]
  | @cons o o' l l' hr _ ih =>
    obtain ⟨i1, i2⟩ := ih (fun a ha => hpos a (by simp [ha])) (fun a ha => hcls a (by simp [ha]))
    obtain ⟨r1, ⟨pb, ps, r3, r4, r5⟩, r6, r7⟩ := hr
    have et : o'.buyToken = o.buyToken ∧ o'.sellToken = o.sellToken := by rw [r1]; exact ⟨rfl, rfl⟩
    rw [imbal_cons, imbal_cons, et.1, et.2]
    rw [et.1] at r3
    rw [et.2] at r4
    have h0 := hpos o (by simp)
    have hfl1 := Int.floor_le o.buy
    have hfl2 := Int.lt_floor_add_one o.buy
    rcases hcls o (by simp) with ⟨c1, c2⟩ | ⟨c1, c2⟩ | ⟨c1, c2⟩
    · rw [c1] at r3
      rw [c2] at r4
      rw [r7 c1] at r5
      obtain ⟨u1, u2⟩ := uniformSell_bounds (pb := pB) (fee := fee) s1 s2 (⌊o.buy⌋ : ℚ)
      rw [priceOf_unique r3 hB, priceOf_unique r4 hS] at r5
      rw [← r5, hke] at u1 u2
      simp only [bought, nrExecutedOf, List.filter_cons, c1, c2, hBS, hBS.symm, decide_true, decide_false, if_true, if_false, List.map_cons, List.sum_cons,
        Bool.true_and, Bool.false_and, reduceCtorEq] at i1 i2 ⊢
      rw [hk o.buy, r7 c1]
      have m1 : K * o'.sell ≤ K * (o.buy * k) := mul_le_mul_of_nonneg_left (u2.trans (mul_le_mul_of_nonneg_right hfl1 hk0.le)) hK0.le
      have m2 : K * (o.buy * k - (k + 1)) ≤ K * o'.sell := by
        refine mul_le_mul_of_nonneg_left ?_ hK0.le
        have : (o.buy - 1) * k ≤ (⌊o.buy⌋ : ℚ) * k := mul_le_mul_of_nonneg_right (by linarith) hk0.le
        linarith
      rcases h0.eq_or_lt with hz | hp
      · rw [if_neg (by simp [← hz]), if_neg (by simp [← hz])]
        have : o'.sell = 0 := by rw [r5, ← hz]; simp
        rw [this, ← hz]
        simp only [Int.floor_zero, Int.cast_zero]
        constructor <;> linarith
      · rw [if_pos (by simpa using hp), if_pos (by simpa using hp), List.length_cons, List.length_cons]
        push_cast
        constructor
        · linarith
        · linarith
    · rw [c1] at r3
      rw [c2] at r4
      obtain ⟨u1, u2⟩ := uniformSell_bounds (pb := pS) (fee := fee) b1 b2 o'.buy
      rw [priceOf_unique r3 hS, priceOf_unique r4 hB] at r5
      rw [← r5, hKe] at u1 u2
      simp only [bought, nrExecutedOf, List.filter_cons, c1, c2, hBS, hBS.symm, decide_true, decide_false, if_true, if_false, List.map_cons, List.sum_cons,
        Bool.true_and, Bool.false_and, reduceCtorEq] at i1 i2 ⊢
      rcases h0.eq_or_lt with hz | hp
      · rw [if_neg (by simp [← hz])]
        have e1 := r6 hz.symm
        have : o'.sell = 0 := by rw [r5, e1]; simp
        rw [this, e1]
        constructor <;> linarith
      · rw [if_pos (by simpa using hp), List.length_cons]
        push_cast
        constructor
        · linarith
        · linarith
    · simp only [bought, nrExecutedOf, List.filter_cons, c1, c2, hBS, hBS.symm, hBF.symm, hSF.symm, decide_true, decide_false, if_true, if_false, List.map_cons,
        List.sum_cons, Bool.true_and, Bool.false_and, reduceCtorEq] at i1 i2 ⊢
      rw [r7 c1]
      rcases h0.eq_or_lt with hz | hp
      · rw [if_neg (by simp [← hz]), ← hz]
        simp only [Int.floor_zero, Int.cast_zero]
        constructor <;> linarith
      · rw [if_pos (by simpa using hp), List.length_cons]
        push_cast
        constructor
        · linarith
        · linarith

/-- Imbalance of `S` caused by taking floors. -/
theorem chain_firstRound_imbal {prices : Prices} {fee : Fee} {orders os : List Order} {B S : Token} {pB pS : ℚ} (hI : IntPrices prices)
    (hf : fee.value < 1) (hBS : B ≠ S) (hSF : S ≠ fee.token) (hB : PriceOf prices B pB) (hS : PriceOf prices S pS)
    (hpos : ∀ o ∈ orders, 0 ≤ o.buy) (hcls : ChainKinds fee.token B S orders) (hos : List.Forall₂ (FirstRound prices fee) orders os) :
    let exact := ((orders.filter (fun o => decide (o.sellToken = S))).map (fun o => exactSell pB pS fee o.buy)).sum - bought orders S
    exact - nrExecutedOf orders (fun o => decide (o.sellToken = S)) * (exactSell pB pS fee 1 + 1) ≤ imbal os S ∧
      imbal os S ≤ exact + nrExecutedOf orders (fun o => decide (o.buyToken = S)) := by
  obtain ⟨b1, b2⟩ := hI.of hB
  obtain ⟨s1, s2⟩ := hI.of hS
  have hφ : 0 < 1 - fee.value := by linarith
  dsimp only
  have hk0 : 0 < exactSell pB pS fee 1 := by unfold exactSell; positivity
  have hk : ∀ y : ℚ, exactSell pB pS fee y = y * exactSell pB pS fee 1 := by intro y; unfold exactSell; ring
  generalize hke : exactSell pB pS fee 1 = k at *
  induction hos with
  | nil => simp [imbal_nil, bought, nrExecutedOf]
  | @cons o o' l l' hr _ ih =>
    obtain ⟨i1, i2⟩ := ih (fun a ha => hpos a (by simp [ha])) (fun a ha => hcls a (by simp [ha]))
    obtain ⟨r1, r2, pb, ps, r3, r4, r5⟩ := hr
    have et : o'.buyToken = o.buyToken ∧ o'.sellToken = o.sellToken := by rw [r1]; exact ⟨rfl, rfl⟩
    rw [imbal_cons, et.1, et.2]
    rw [et.1] at r3
    rw [et.2] at r4
    have h0 := hpos o (by simp)
    have hfl1 := Int.floor_le o.buy
    have hfl2 := Int.lt_floor_add_one o.buy
    rcases hcls o (by simp) with ⟨c1, c2⟩ | ⟨c1, c2⟩ | ⟨c1, c2⟩
    · rw [c1] at r3
      rw [c2] at r4
      rw [r2] at r5
      obtain ⟨u1, u2⟩ := uniformSell_bounds (pb := pB) (fee := fee) s1 s2 (⌊o.buy⌋ : ℚ)
      rw [priceOf_unique r3 hB, priceOf_unique r4 hS] at r5
      rw [← r5, hke] at u1 u2
      simp only [bought, nrExecutedOf, List.filter_cons, c1, c2, hBS, hBS.symm, decide_true, decide_false, if_true, if_false, List.map_cons, List.sum_cons,
        Bool.true_and, Bool.false_and, reduceCtorEq] at i1 i2 ⊢
      rw [hk o.buy]
      have m1 : o'.sell ≤ o.buy * k := u2.trans (mul_le_mul_of_nonneg_right hfl1 hk0.le)
      have m2 : (o.buy - 1) * k ≤ (⌊o.buy⌋ : ℚ) * k := mul_le_mul_of_nonneg_right (by linarith) hk0.le
      rcases h0.eq_or_lt with hz | hp
      · rw [if_neg (by simp [← hz])]
        have : o'.sell = 0 := by rw [r5, ← hz]; simp
        rw [this, ← hz]
        constructor <;> linarith
      · rw [if_pos (by simpa using hp), List.length_cons]
        push_cast
        constructor
        · linarith
        · linarith
    · simp only [bought, nrExecutedOf, List.filter_cons, c1, c2, hBS, hBS.symm, decide_true, decide_false, if_true, if_false, List.map_cons, List.sum_cons,
        Bool.true_and, Bool.false_and, reduceCtorEq] at i1 i2 ⊢
      rw [r2]
      rcases h0.eq_or_lt with hz | hp
      · rw [if_neg (by simp [← hz]), ← hz]
        simp only [Int.floor_zero, Int.cast_zero]
        constructor <;> linarith
      · rw [if_pos (by simpa using hp), List.length_cons]
        push_cast
        constructor
        · linarith
        · linarith
    · simp only [bought, nrExecutedOf, List.filter_cons, c1, c2, hBS, hBS.symm, hSF.symm, decide_true, decide_false, if_true, if_false, List.map_cons, List.sum_cons,
        Bool.true_and, Bool.false_and, reduceCtorEq] at i1 i2 ⊢
      constructor <;> linarith

end Dex
