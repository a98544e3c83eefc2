import Verif.Proof.RoundChain
import Verif.Props.ExtraOrder

/-! # Property C73: when rounding succeeds for a pair without the fee token -/

set_option linter.unusedSimpArgs false

namespace Dex

open Spec

theorem chainStep_of {cfg : Config} {prices : Prices} {fee : Fee} {B S : Token} (hBS : B ≠ S) {orders os os' : List Order}
    (h1 : List.Forall₂ (FirstRound prices fee) orders os) (h2 : List.Forall₂ (LeafStep cfg prices fee S B) os os') :
    List.Forall₂ (ChainStep prices fee B) orders os' := by
  induction h1 generalizing os' with
  | nil => cases h2; exact .nil
  | cons r _ ih =>
    cases h2 with
    | cons g gs =>
      refine .cons ?_ (ih gs)
      obtain ⟨a1, a2, a3⟩ := r
      rcases g with rfl | g
      · exact ⟨a1, a3, fun h => by rw [a2, h]; simp, fun _ => a2⟩
      · refine ⟨?_, g.price, fun h => absurd (by rw [a2, h]; simp) g.nz, fun h => ?_⟩
        · rw [g.same, a1]; rfl
        · have := g.buyTok
          rw [a1] at this
          exact absurd (h.symm.trans this) hBS

theorem ChainKinds.same {F B S : Token} {orders os : List Order} (h : ChainKinds F B S orders) (hs : List.Forall₂ SameButExec orders os) : ChainKinds F B S os := by
  intro o' ho'
  obtain ⟨o, ho, e⟩ := forall₂_mem_right hs o' ho'
  have := h o ho
  rw [e]; exact this

/-- Rounding when an order that buys `S` and one that pays with the fee token are executed. -/
theorem roundSolution_chain {cfg : Config} {branch : List (Token × Token) → List (Token × Token)} {prices : Prices}
    {orders res : List Order} {fee : Fee} {B S : Token} {ok : Bool} (h : RoundInput prices fee orders)
    (hcfg : 1 ≤ cfg.minTradable ∧ cfg.minTradable ≤ cfg.minRationalTradable - 1)
    (hfeas : ∀ o ∈ orders, ExactFeasible cfg prices fee o) (hbr : ∀ E, MaxBranching E (branch E))
    (hBS : B ≠ S) (hBF : B ≠ fee.token) (hSF : S ≠ fee.token) (hcls : ChainKinds fee.token B S orders)
    (hs : ∃ o ∈ orders, o.buyToken = S ∧ 0 < o.buy) (hfo : ∃ o ∈ orders, o.sellToken = fee.token ∧ 0 < o.buy)
    (hr : roundSolution cfg branch prices orders fee = .ok (ok, res)) :
    ∃ os os', List.Forall₂ (FirstRound prices fee) orders os ∧ List.Forall₂ (LeafStep cfg prices fee S B) os os' ∧ (∀ o ∈ os', Bounded cfg o) ∧
      (imbal os' S = 0 ∨ ∀ o ∈ os, OnEdge S B o → ¬ Absorbs cfg prices fee (imbal os S) o) ∧
      ((imbal os' S ≠ 0 ∧ ok = false) ∨ (imbal os' S = 0 ∧ List.Forall₂ (LeafStep cfg prices fee B fee.token) os' res ∧ (ok = true ↔ imbal res B = 0) ∧
        (imbal res B = 0 ∨ ∀ o ∈ os', OnEdge B fee.token o → ¬ Absorbs cfg prices fee (imbal os' B) o))) := by
  obtain ⟨os, e, hs1, hinv⟩ := firstPass h
  unfold roundSolution at hr
  rw [e, ok_bind] at hr
  obtain ⟨d, e2, k, hv⟩ := hinv.balances
  rw [e2, ok_bind] at hr
  obtain ⟨t1, t2⟩ := arborescence_spec branch (os.filter (fun o => decide (o.sell > 0))) fee
  have hcls' : ChainKinds fee.token B S os := hcls.same (hs1.imp fun _ _ r => r.1)
  have hexec : ∀ o ∈ orders, 0 < o.buy → ∃ o' ∈ os.filter (fun o => decide (o.sell > 0)), o'.buyToken = o.buyToken ∧ o'.sellToken = o.sellToken := by
    intro o ho hp
    obtain ⟨o', ho', r⟩ := forall₂_mem_left hs1 o ho
    refine ⟨o', ?_, by rw [r.1], by rw [r.1]⟩
    rw [List.mem_filter, decide_eq_true_eq]
    exact ⟨ho', (rounded_facts h.intPrices h.feeLt hcfg (hfeas o ho) (rounded_of r (.inl rfl))).2.2.1.2 hp⟩
  obtain ⟨c1, c2, c3⟩ := branching_chain hBS hBF hSF (fun e he => by
      obtain ⟨o, ho, _, rfl⟩ := mem_orderEdges.1 he
      rcases hcls' o (List.mem_of_mem_filter ho) with ⟨g1, g2⟩ | ⟨g1, g2⟩ | ⟨g1, g2⟩ <;> rw [g1, g2] <;> simp)
    (by
      obtain ⟨o, ho, g, hp⟩ := hs
      obtain ⟨o', ho', e1, e2⟩ := hexec o ho hp
      refine mem_orderEdges.2 ⟨o', ho', by rw [e1, g]; exact hSF, ?_⟩
      rw [e1, e2, g]
      rcases hcls o ho with ⟨g1, g2⟩ | ⟨g1, g2⟩ | ⟨g1, g2⟩
      · exact absurd (g1.symm.trans g) hBS
      · rw [g2]
      · exact absurd (g1.symm.trans g) hBS)
    (by
      obtain ⟨o, ho, g, hp⟩ := hfo
      obtain ⟨o', ho', e1, e2⟩ := hexec o ho hp
      have gB : o.buyToken = B := by
        rcases hcls o ho with ⟨g1, g2⟩ | ⟨g1, g2⟩ | ⟨g1, g2⟩
        · exact g1
        · exact absurd (g2.symm.trans g) hBF
        · exact g1
      exact mem_orderEdges.2 ⟨o', ho', by rw [e1, gB]; exact hBF, by rw [e1, e2, g, gB]⟩)
    (hbr (orderEdges (os.filter (fun o => decide (o.sell > 0))) fee))
  have htree : ∀ p ∈ spanningArborescence branch (os.filter (fun o => decide (o.sell > 0))) fee, p = (S, B) ∨ p = (B, fee.token) := by
    intro p hp
    rcases c1 _ (t2 p hp) with e | e
    · left; exact Prod.ext (congrArg Prod.snd e) (congrArg Prod.fst e)
    · right; exact Prod.ext (congrArg Prod.snd e) (congrArg Prod.fst e)
  have hmem : ∀ t, t ∈ (branch (orderEdges (os.filter (fun o => decide (o.sell > 0))) fee)).map (·.2) →
      ∃ q, (t, q) ∈ spanningArborescence branch (os.filter (fun o => decide (o.sell > 0))) fee := by
    intro t ht
    obtain ⟨p, hp, rfl⟩ := List.mem_map.1 ((t1 t).2 ht)
    exact ⟨p.2, hp⟩
  have hmS : (S, B) ∈ spanningArborescence branch (os.filter (fun o => decide (o.sell > 0))) fee := by
    obtain ⟨q, hq⟩ := hmem S (List.mem_map.2 ⟨_, c2, rfl⟩)
    rcases htree _ hq with e | e
    · rw [← e]; exact hq
    · exact absurd (congrArg Prod.fst e) hBS.symm
  have hmB : (B, fee.token) ∈ spanningArborescence branch (os.filter (fun o => decide (o.sell > 0))) fee := by
    obtain ⟨q, hq⟩ := hmem B (List.mem_map.2 ⟨_, c3, rfl⟩)
    rcases htree _ hq with e | e
    · exact absurd (congrArg Prod.fst e) hBS
    · rw [← e]; exact hq
  have hbd := firstPass_bounded h hcfg hfeas hs1
  obtain ⟨os', g1, g2, g3⟩ := roundLoop_chain h.intPrices h.feeLt hBS hBF hSF htree hmS hmB hinv hbd hv hr
  exact ⟨os, os', hs1, g1, Bounded.leafStep hbd g1, g2, g3⟩

theorem chain_sold {F B S : Token} {orders : List Order} (hBS : B ≠ S) (hBF : B ≠ F) (hcls : ChainKinds F B S orders) (g : ℚ → ℚ) :
    ((orders.filter (fun o => decide (o.sellToken = B))).map (fun o => g o.buy)).sum =
      ((orders.filter (fun o => decide (o.buyToken = S))).map (fun o => g o.buy)).sum := by
  congr 2
  refine List.filter_congr fun o ho => ?_
  rcases hcls o ho with ⟨g1, g2⟩ | ⟨g1, g2⟩ | ⟨g1, g2⟩ <;> simp [g1, g2, hBS, hBS.symm, hBF.symm]

/-- C73. Rounding of a solution of a pair without the fee token, balanced in `S`, succeeds whenever an order that buys `S` and an order that pays with the
fee token have enough slack. Let `nb`, `ns`, `n` be the numbers of executed orders that sell `S`, buy `S` and buy `B`; `k` (`K`) the exact amount of `S` (`B`)
sold for one `B` (`S`); `δ` the exact amount of `B` sold and not bought. The first order may be lowered by `1 + nb (k + 1)` and raised by `ns`,
the second may be lowered by `1 + ns + nb K (k + 1) - δ` and raised by `δ + n` within its bounds. -/
theorem C73_succeeds_with_slack {cfg : Config} {branch : List (Token × Token) → List (Token × Token)} {prices : Prices}
    {orders : List Order} {fee : Fee} {B S : Token} {pF pB pS k K δ nb ns n : ℚ} (h : RoundInput prices fee orders)
    (hcfg : 1 ≤ cfg.minTradable ∧ cfg.minTradable ≤ cfg.minRationalTradable - 1)
    (hfeas : ∀ o ∈ orders, ExactFeasible cfg prices fee o) (hbr : ∀ E, MaxBranching E (branch E))
    (hBS : B ≠ S) (hBF : B ≠ fee.token) (hSF : S ≠ fee.token) (hcls : ChainKinds fee.token B S orders)
    (hF : PriceOf prices fee.token pF) (hB : PriceOf prices B pB) (hS : PriceOf prices S pS)
    (hk : k = exactSell pB pS fee 1) (hK : K = exactSell pS pB fee 1)
    (hnb : nb = nrExecutedOf orders (fun o => decide (o.sellToken = S))) (hns : ns = nrExecutedOf orders (fun o => decide (o.buyToken = S)))
    (hn : n = nrExecutedOf orders (fun o => decide (o.buyToken = B)))
    (hbal : ((orders.filter (fun o => decide (o.sellToken = S))).map (fun o => exactSell pB pS fee o.buy)).sum = bought orders S)
    (hδ : δ = ((orders.filter (fun o => decide (o.sellToken = B))).map (fun o => exactSell pS pB fee o.buy)).sum - bought orders B)
    (hs : ∃ o ∈ orders, o.buyToken = S ∧ (cfg.minTradable : ℚ) ≤ o.buy - (1 + nb * (k + 1)) ∧
      (cfg.minTradable : ℚ) ≤ exactSell pS pB fee (o.buy - (1 + nb * (k + 1))) ∧ exactSell pS pB fee (o.buy + ns) ≤ o.maxSell)
    (hfo : ∃ o ∈ orders, o.sellToken = fee.token ∧ 0 < o.buy ∧ (cfg.minTradable : ℚ) ≤ o.buy - (1 + ns + nb * K * (k + 1) - δ) ∧
      (cfg.minTradable : ℚ) ≤ exactSell pB pF fee (o.buy - (1 + ns + nb * K * (k + 1) - δ)) ∧ exactSell pB pF fee (o.buy + (δ + n)) ≤ o.maxSell) :
    ∃ res, roundSolution cfg branch prices orders fee = .ok (true, res) := by
  obtain ⟨ok, res, hr⟩ := C26_rounding_total (cfg := cfg) h (fun E => (hbr E).1)
  suffices hok : ok = true by subst hok; exact ⟨res, hr⟩
  obtain ⟨f1, f2⟩ := h.intPrices.of hF
  obtain ⟨b1, b2⟩ := h.intPrices.of hB
  obtain ⟨s1, s2⟩ := h.intPrices.of hS
  have hf := h.feeLt
  have hφ : 0 < 1 - fee.value := by linarith
  have hm1 : (1 : ℚ) ≤ cfg.minTradable := by exact_mod_cast hcfg.1
  have hk0 : 0 < k := by rw [hk]; unfold exactSell; positivity
  have hnb0 : 0 ≤ nb := by rw [hnb]; exact Nat.cast_nonneg _
  have hmono : ∀ {p q a b : ℚ}, 0 < p → 0 < q → a ≤ b → exactSell p q fee a ≤ exactSell p q fee b := by
    intro p q a b hp hq hab
    unfold exactSell
    have : (0 : ℚ) ≤ p / q := by positivity
    exact div_le_div_of_nonneg_right (mul_le_mul_of_nonneg_right hab this) hφ.le
  obtain ⟨so, hso, so1, so2, so3, so4⟩ := hs
  obtain ⟨fo, hfo, fo1, fo0, fo2, fo3, fo4⟩ := hfo
  have hsopos : 0 < so.buy := by
    have := mul_nonneg hnb0 (by linarith : (0 : ℚ) ≤ k + 1)
    linarith
  have hsoB : so.sellToken = B := by
    rcases hcls so hso with ⟨g1, g2⟩ | ⟨g1, g2⟩ | ⟨g1, g2⟩
    · exact absurd (g1.symm.trans so1) hBS
    · exact g2
    · exact absurd (g1.symm.trans so1) hBS
  have hfoB : fo.buyToken = B := by
    rcases hcls fo hfo with ⟨g1, g2⟩ | ⟨g1, g2⟩ | ⟨g1, g2⟩
    · exact g1
    · exact absurd (g2.symm.trans fo1) hBF
    · exact g1
  obtain ⟨os, os', r1, r2, hbd, r3, r4⟩ := roundSolution_chain h hcfg hfeas hbr hBS hBF hSF hcls ⟨so, hso, so1, hsopos⟩ ⟨fo, hfo, fo1, fo0⟩ hr
  have habs : ∀ {o o' : Order} {bal p q lo hi : ℚ} {l : List Order}, 0 < p → 0 < q → IsInt q → PriceOf prices o'.buyToken p → PriceOf prices o'.sellToken q →
      lo ≤ o'.buy + bal → o'.buy + bal ≤ hi → o'.maxSell = o.maxSell → (cfg.minTradable : ℚ) ≤ lo → (cfg.minTradable : ℚ) ≤ exactSell p q fee lo →
      exactSell p q fee hi ≤ o.maxSell → Absorbs cfg prices fee bal o' := by
    intro o o' bal p q lo hi l hp hq hqi hpb hps h1 h2 h3 h4 h5 h6
    refine ⟨p, q, hpb, hps, h4.trans h1, ?_, ?_⟩
    · rw [uniformSell_eq hq hqi, Int.le_floor, ← exactSell_eq]
      exact h5.trans (hmono hp hq h1)
    · have := uniformSell_le (pb := p) (fee := fee) hq hqi (o'.buy + bal)
      rw [← exactSell_eq] at this
      rw [h3]
      exact this.trans ((hmono hp hq h2).trans h6)
  have hpos : ∀ o ∈ orders, 0 ≤ o.buy := fun o ho => (hfeas o ho).nonneg
  have hzS : imbal os' S = 0 := by
    refine r3.resolve_right fun hno => ?_
    obtain ⟨i1, i2⟩ := chain_firstRound_imbal h.intPrices h.feeLt hBS hSF hB hS hpos hcls r1
    rw [hbal, sub_self] at i1 i2
    rw [← hnb, ← hk] at i1
    rw [← hns] at i2
    obtain ⟨o', ho', r⟩ := forall₂_mem_left r1 so hso
    have e1 : o'.buyToken = S := by rw [r.1]; exact so1
    have e2 : o'.sellToken = B := by rw [r.1]; exact hsoB
    have hfl1 := Int.floor_le so.buy
    have hfl2 := Int.lt_floor_add_one so.buy
    have hnz : o'.buy ≠ 0 := ((rounded_facts h.intPrices h.feeLt hcfg (hfeas so hso) (rounded_of r (.inl rfl))).2.1.2 hsopos).ne'
    refine hno o' ho' ⟨e1, e2, hnz⟩ (habs (o := so) (l := []) s1 b1 b2 (by rw [e1]; exact hS) (by rw [e2]; exact hB) ?_ ?_ (by rw [r.1]) so2 so3 so4)
    · rw [r.2.1]; linarith
    · rw [r.2.1]; linarith
  rcases r4 with ⟨hc, _⟩ | ⟨_, _, r5, r6⟩
  · exact absurd hzS hc
  · rw [r5]
    refine r6.resolve_right fun hno => ?_
    have hstep := chainStep_of hBS r1 r2
    obtain ⟨i1, i2⟩ := chain_imbal h.intPrices h.feeLt hBS hBF hSF hB hS hpos hcls hstep
    rw [hbal, hzS, ← hnb, ← hns, ← hk, ← hK] at i1
    rw [hbal, hzS, ← hn, ← hK] at i2
    have hK' : ∀ y : ℚ, exactSell pS pB fee y = y * K := by intro y; rw [hK]; unfold exactSell; ring
    have hδ' : δ = K * bought orders S - bought orders B := by
      rw [hδ, chain_sold hBS hBF hcls (exactSell pS pB fee)]
      congr 1
      unfold bought
      rw [show (fun o : Order => exactSell pS pB fee o.buy) = fun o => o.buy * K from funext fun o => hK' _, sum_map_mul_right', mul_comm]
    obtain ⟨o', ho', r⟩ := forall₂_mem_left hstep fo hfo
    have e1 : o'.buyToken = B := by rw [r.1]; exact hfoB
    have e2 : o'.sellToken = fee.token := by rw [r.1]; exact fo1
    have e3 := r.2.2.2 hfoB
    have hfl1 := Int.floor_le fo.buy
    have hfl2 := Int.lt_floor_add_one fo.buy
    have hnz : o'.buy ≠ 0 := by
      obtain ⟨a, ha, ra⟩ := forall₂_mem_left r1 fo hfo
      have := (rounded_facts h.intPrices h.feeLt hcfg (hfeas fo hfo) (rounded_of ra (.inl rfl))).2.1.2 fo0
      rw [ra.2.1, ← e3] at this
      exact this.ne'
    have hc1 : nb * K * (k + 1) = nb * (K * (k + 1)) := by ring
    refine hno o' ho' ⟨e1, e2, hnz⟩ (habs (o := fo) (l := []) b1 f1 f2 (by rw [e1]; exact hB) (by rw [e2]; exact hF) ?_ ?_ (by rw [r.1]) fo2 fo3 fo4)
    · rw [e3]; linarith
    · rw [e3]; linarith

/-- What the orders that pay with the fee token take at most in the last step. -/
theorem chain_cover {cfg : Config} {prices : Prices} {fee : Fee} {B S : Token} {pB pF : ℚ} (hBS : B ≠ S) (hBF : B ≠ fee.token) (hSF : S ≠ fee.token)
    (hf : fee.value < 1) (b1 : 0 < pB) (f1 : 0 < pF) (f2 : IsInt pF) (hB : PriceOf prices B pB) (hF : PriceOf prices fee.token pF) {l l' r : List Order}
    (hcls : ChainKinds fee.token B S l) (hpos : ∀ o ∈ l, 0 ≤ o.buy) (hmax : ∀ o ∈ l, o.sellToken = fee.token → o.buyToken = B → 0 ≤ o.maxSell) (hbd : ∀ o ∈ r, Bounded cfg o) (h1 : List.Forall₂ (ChainStep prices fee B) l l')
    (h2 : List.Forall₂ (LeafStep cfg prices fee B fee.token) l' r) :
    imbal l' B - imbal r B + (bought l B - ((l.filter (fun o => decide (o.sellToken = S))).map (·.buy)).sum) ≤
      ((l.filter (fun o => decide (o.sellToken = fee.token) && decide (0 < o.buy))).map (fun o => (o.maxSell + 1) * (1 - fee.value) * (pF / pB))).sum +
        nrExecutedOf l (fun o => decide (o.sellToken = fee.token)) := by
  have hφ : 0 < 1 - fee.value := by linarith
  induction h1 generalizing r with
  | nil => cases h2; simp [imbal_nil, bought, nrExecutedOf]
  | @cons o o' l l' hr _ ih =>
    cases h2 with
    | @cons _ q _ r g gs =>
      have i1 := ih (fun a ha => hcls a (by simp [ha])) (fun a ha => hpos a (by simp [ha])) (fun a ha => hmax a (by simp [ha])) (fun a ha => hbd a (by simp [ha])) gs
      obtain ⟨r1, r2, r3, r4⟩ := hr
      have et : o'.buyToken = o.buyToken ∧ o'.sellToken = o.sellToken ∧ o'.maxSell = o.maxSell := by rw [r1]; exact ⟨rfl, rfl, rfl⟩
      have h0 := hpos o (by simp)
      have hsame : o.sellToken ≠ fee.token → q = o' := by
        intro hne
        rcases g with e | g
        · exact e
        · exact absurd (et.2.1.symm.trans g.sellTok) hne
      rw [imbal_cons, imbal_cons, et.1, et.2.1]
      rcases hcls o (by simp) with ⟨c1, c2⟩ | ⟨c1, c2⟩ | ⟨c1, c2⟩
      · have e := hsame (by rw [c2]; exact hSF)
        subst e
        simp only [bought, nrExecutedOf, List.filter_cons, et.1, et.2.1, c1, c2, hBS, hBS.symm, hSF, decide_true, decide_false, if_true, if_false,
          List.map_cons, List.sum_cons, Bool.true_and, Bool.false_and, reduceCtorEq] at i1 ⊢
        linarith
      · have e := hsame (by rw [c2]; exact hBF)
        subst e
        simp only [bought, nrExecutedOf, List.filter_cons, et.1, et.2.1, c1, c2, hBS, hBS.symm, hBF, decide_true, decide_false, if_true, if_false,
          List.map_cons, List.sum_cons, Bool.true_and, Bool.false_and, reduceCtorEq] at i1 ⊢
        linarith
      · have qt : q.buyToken = B ∧ q.sellToken = fee.token ∧ q.maxSell = o.maxSell ∧ OnClearingPrice prices fee q := by
          rcases g with rfl | g
          · exact ⟨et.1.trans c1, et.2.1.trans c2, et.2.2, r2⟩
          · refine ⟨?_, ?_, ?_, g.price⟩
            · rw [g.same]; exact et.1.trans c1
            · rw [g.same]; exact et.2.1.trans c2
            · rw [g.same]; exact et.2.2
        have hcap : q.buy ≤ (o.maxSell + 1) * (1 - fee.value) * (pF / pB) ∨ q.buy = 0 := by
          by_cases hq : q.buy = 0
          · exact .inr hq
          refine .inl ?_
          obtain ⟨-, -, b3⟩ := hbd q (by simp) hq
          obtain ⟨pb, ps, p1, p2, p3⟩ := qt.2.2.2
          rw [qt.1] at p1
          rw [qt.2.1] at p2
          rw [priceOf_unique p1 hB, priceOf_unique p2 hF, uniformSell_eq f1 f2, ← exactSell_eq] at p3
          have h3 := Int.lt_floor_add_one (exactSell pB pF fee q.buy)
          rw [← p3] at h3
          have h4 : exactSell pB pF fee q.buy ≤ o.maxSell + 1 := by rw [← qt.2.2.1]; linarith
          have h5 : q.buy = exactSell pB pF fee q.buy * (1 - fee.value) * (pF / pB) := by
            unfold exactSell; field_simp
          rw [h5]
          exact mul_le_mul_of_nonneg_right (mul_le_mul_of_nonneg_right h4 hφ.le) (by positivity)
        have hfl2 := Int.lt_floor_add_one o.buy
        have e4 := r4 c1
        have hfl0 : (0 : ℚ) ≤ (⌊o.buy⌋ : ℚ) := by exact_mod_cast Int.floor_nonneg.2 h0
        simp only [bought, nrExecutedOf, List.filter_cons, et.1, et.2.1, qt.1, qt.2.1, c1, c2, hBS, hBS.symm, hBF.symm, hSF, hSF.symm, decide_true, decide_false,
          if_true, if_false, List.map_cons, List.sum_cons, Bool.true_and, Bool.false_and, reduceCtorEq] at i1 ⊢
        rcases h0.eq_or_lt with hz | hp
        · rw [if_neg (by simp [← hz])]
          have e1 := r3 hz.symm
          have e2 : q.buy = 0 := by
            rcases g with rfl | g
            · exact e1
            · exact absurd e1 g.nz
          rw [e1, e2, ← hz]
          linarith
        · rw [if_pos (by simpa using hp), List.length_cons, List.map_cons, List.sum_cons]
          push_cast
          rcases hcap with hc | hc
          · linarith
          · have hm : 0 ≤ (o.maxSell + 1) * (1 - fee.value) * (pF / pB) := by
              have := hmax o (by simp) c2 c1
              positivity
            linarith

/-- C73. Conversely, rounding fails if the executed orders that pay with the fee token could not buy the `B` left over, up to rounding errors, if they sold
everything they offer (this is what happens in C72). -/
theorem C73_fails_without_cover {cfg : Config} {branch : List (Token × Token) → List (Token × Token)} {prices : Prices}
    {orders : List Order} {fee : Fee} {B S : Token} {pF pB pS k K nb ns nf : ℚ} (h : RoundInput prices fee orders)
    (hcfg : 1 ≤ cfg.minTradable ∧ cfg.minTradable ≤ cfg.minRationalTradable - 1)
    (hfeas : ∀ o ∈ orders, ExactFeasible cfg prices fee o) (hbr : ∀ E, MaxBranching E (branch E))
    (hBS : B ≠ S) (hBF : B ≠ fee.token) (hSF : S ≠ fee.token) (hcls : ChainKinds fee.token B S orders)
    (hF : PriceOf prices fee.token pF) (hB : PriceOf prices B pB) (hS : PriceOf prices S pS)
    (hk : k = exactSell pB pS fee 1) (hK : K = exactSell pS pB fee 1)
    (hnb : nb = nrExecutedOf orders (fun o => decide (o.sellToken = S))) (hns : ns = nrExecutedOf orders (fun o => decide (o.buyToken = S)))
    (hnf : nf = nrExecutedOf orders (fun o => decide (o.sellToken = fee.token)))
    (hbal : ((orders.filter (fun o => decide (o.sellToken = S))).map (fun o => exactSell pB pS fee o.buy)).sum = bought orders S)
    (hs : ∃ o ∈ orders, o.buyToken = S ∧ 0 < o.buy) (hfo : ∃ o ∈ orders, o.sellToken = fee.token ∧ 0 < o.buy)
    (hcap : ((orders.filter (fun o => decide (o.sellToken = fee.token) && decide (0 < o.buy))).map
        (fun o => (o.maxSell + 1) * (1 - fee.value) * (pF / pB))).sum <
      ((orders.filter (fun o => decide (o.sellToken = B))).map (fun o => exactSell pS pB fee o.buy)).sum -
        ((orders.filter (fun o => decide (o.sellToken = S))).map (·.buy)).sum - (ns + nf + nb * K * (k + 1))) :
    ∃ res, roundSolution cfg branch prices orders fee = .ok (false, res) := by
  obtain ⟨ok, res, hr⟩ := C26_rounding_total (cfg := cfg) h (fun E => (hbr E).1)
  cases ok with
  | false => exact ⟨res, hr⟩
  | true =>
    exfalso
    obtain ⟨f1, f2⟩ := h.intPrices.of hF
    obtain ⟨b1, b2⟩ := h.intPrices.of hB
    have hf := h.feeLt
    have hφ : 0 < 1 - fee.value := by linarith
    obtain ⟨os, os', r1, r2, hbd, r3, r4⟩ := roundSolution_chain h hcfg hfeas hbr hBS hBF hSF hcls hs hfo hr
    rcases r4 with ⟨_, hc⟩ | ⟨hzS, r4, r5, _⟩
    · cases hc
    have hzB : imbal res B = 0 := r5.1 rfl
    have hpos : ∀ o ∈ orders, 0 ≤ o.buy := fun o ho => (hfeas o ho).nonneg
    have hstep := chainStep_of hBS r1 r2
    obtain ⟨i1, _⟩ := chain_imbal h.intPrices h.feeLt hBS hBF hSF hB hS hpos hcls hstep
    rw [hbal, hzS, ← hnb, ← hns, ← hk, ← hK] at i1
    have hK' : ∀ y : ℚ, exactSell pS pB fee y = y * K := by intro y; rw [hK]; unfold exactSell; ring
    rw [chain_sold hBS hBF hcls (exactSell pS pB fee)] at hcap
    rw [show (fun o : Order => exactSell pS pB fee o.buy) = fun o => o.buy * K from funext fun o => hK' _, sum_map_mul_right' _ (fun o : Order => o.buy), mul_comm _ K] at hcap
    change _ < K * bought orders S - _ - _ at hcap
    have hbdr := Bounded.leafStep hbd r4
    have i2 := chain_cover hBS hBF hSF h.feeLt b1 f1 f2 hB hF hcls hpos (fun o ho c2 c1 => by
      refine le_trans ?_ ((hfeas o ho).maxSell pB pF (by rw [c1]; exact hB) (by rw [c2]; exact hF))
      have := hpos o ho
      unfold exactSell
      positivity) hbdr hstep r4
    rw [hzB, ← hnf] at i2
    have hc1 : nb * K * (k + 1) = nb * (K * (k + 1)) := by ring
    linarith

/-! ## The attempts of the solver -/

/-- The fills of an attempt are balanced in the second token. -/
theorem attempt_balanced {cfg : Config} {sqrt : ℚ → Py ℚ} {n : ℕ} {imb : ℚ} {pair : Token × Token} {bk : Books} {x : ℚ} {fee : Fee} {g : GivenResult}
    {p : ℤ} (hc : CfgOk cfg) (hfee : fee.value < 1) (hidB : (bk.b.map (·.id)).Nodup) (hidS : (bk.s.map (·.id)).Nodup)
    (h : AttemptResult cfg sqrt n imb pair bk x fee g) (hp : g.bPrice = some p) :
    (g.books.b.map (soldB g.xrate fee)).sum = (g.books.s.map (·.buy)).sum := by
  obtain ⟨p', m, u, debt, fT, hp1, _, _, _, _, h⟩ := h
  rcases h with ⟨_, hn⟩ | ⟨_, _, _, d, e, q, t, _, _, hq1, _, hx, hg, hb, hs, _⟩
  · rw [hn] at hp; cases hp
  have hpq : (0 : ℚ) < p' := by exact_mod_cast hp1
  have hqq : (0 : ℚ) < q := by exact_mod_cast hq1
  have hids : ∀ (d : ℤ) (l : List Order), (l.map (reduced d)).map (·.id) = l.map (·.id) := by
    intro d l; rw [List.map_map]; rfl
  have hin : ExecInput cfg (p' / q) fee (cfg.maxNrExec - nrExecuted fT) (bk.b.map (reduced d)) (bk.s.map (reduced e)) := by
    refine ⟨hc.minRational, div_pos hpq hqq, hfee, ?_, by rw [hids]; exact hidB, by rw [hids]; exact hidS⟩
    have := hg.admissible.count
    omega
  have := (C06_balanced hin (C58_determined hin hg.admissible hg.greatest)).2
  rw [hx, hb, hs]
  simp only [List.map_map] at this ⊢
  exact this

/-- What the solver passes to rounding for a pair without the fee token. -/
theorem chain_input {cfg : Config} {pair : Token × Token} {bk : Books} {x p : ℚ} {fee : Fee} {pool : List Order} (hp : Pool pool) (hc : CfgOk cfg)
    (hfee : fee.value < 1) (hb : BookOf pool pair fee bk) (hne : pair.1 ≠ pair.2) (hF1 : pair.1 ≠ fee.token) (hF2 : pair.2 ≠ fee.token)
    (hg : GoodMatch cfg fee pair bk x p) {prices : Prices}
    (hpr : prices = [(fee.token, (cfg.feeTokenPrice : ℚ)), (pair.1, p), (pair.2, p / x)]) :
    RoundInput prices fee (bk.b ++ bk.s ++ bk.f) ∧ (∀ o ∈ bk.b ++ bk.s ++ bk.f, ExactFeasible cfg prices fee o) ∧
      ChainKinds fee.token pair.1 pair.2 (bk.b ++ bk.s ++ bk.f) ∧ PriceOf prices fee.token cfg.feeTokenPrice ∧ PriceOf prices pair.1 p ∧
      PriceOf prices pair.2 (p / x) := by
  obtain ⟨B, S⟩ := pair
  dsimp only at *
  have hP : (0 : ℚ) < cfg.feeTokenPrice := by exact_mod_cast hc.feePrice
  obtain ⟨k, hk1, hk⟩ := hg.price
  obtain ⟨q, hq1, hq⟩ := hg.sPrice
  have hp0 : 0 < p := by rw [hk]; exact_mod_cast hk1
  have hq0 : (0 : ℚ) < q := by exact_mod_cast hq1
  have hpx : p / x = q := by rw [hq]; field_simp
  rw [hpx] at hpr ⊢
  have gF : PriceOf prices fee.token cfg.feeTokenPrice := by rw [hpr, priceOf_iff]; simp [dictGet?_cons]
  have gB : PriceOf prices B p := by rw [hpr, priceOf_iff]; simp [dictGet?_cons, hF1.symm]
  have gS : PriceOf prices S q := by rw [hpr, priceOf_iff]; simp [dictGet?_cons, hF2.symm, hne]
  have hint : IntPrices prices := by
    rw [hpr]
    intro e he
    simp only [List.mem_cons, List.not_mem_nil, or_false] at he
    rcases he with rfl | rfl | rfl
    · exact ⟨hP, isInt_intCast _⟩
    · exact ⟨hp0, by rw [hk]; exact isInt_intCast _⟩
    · exact ⟨hq0, isInt_intCast _⟩
  have hmem : ∀ {o : Order}, o ∈ bk.b ++ bk.s ++ bk.f ↔ o ∈ bk.b ∨ o ∈ bk.s ∨ o ∈ bk.f := by
    intro o; simp
  have hder : ∀ o ∈ bk.b ++ bk.s ++ bk.f, Der pool o := by
    intro o ho
    rcases hmem.1 ho with h | h | h
    · exact hb.derB o h
    · exact hb.derS o h
    · exact hb.derF o h
  have hids : ((bk.b ++ bk.s ++ bk.f).map (·.id)).Nodup := by
    refine nodup_ids_append hp ?_ hb.derF (nodup_ids_append hp hb.derB hb.derS hb.idsB hb.idsS ?_) hb.idsF ?_
    · intro o ho
      rcases List.mem_append.1 ho with h | h
      · exact hb.derB o h
      · exact hb.derS o h
    · intro o ho o' ho' h
      have h1 : o.buyToken = B := (hb.clsB o ho).1
      have h2 : o'.buyToken = S := (hb.clsS o' ho').1
      exact hne (by rw [← h1, h.1, h2])
    · intro o ho o' ho' h
      obtain ⟨h1, h2⟩ := hb.clsF hF1 o' ho'
      rcases List.mem_append.1 ho with h' | h'
      · have h3 : o.sellToken = S := (hb.clsB o h').2
        exact hF2 (by rw [← h3, h.2, h2])
      · have h3 : o.buyToken = S := (hb.clsS o h').1
        exact hne (by rw [← h3, h.1, h1])
  have hcls : ChainKinds fee.token B S (bk.b ++ bk.s ++ bk.f) := by
    intro o ho
    rcases hmem.1 ho with h | h | h
    · exact .inl (hb.clsB o h)
    · exact .inr (.inl (hb.clsS o h))
    · exact .inr (.inr (hb.clsF hF1 o h))
  refine ⟨⟨hint, hfee, hids, ?_⟩, ?_, hcls, gF, gB, gS⟩
  · intro o ho
    rw [priced_iff]
    rcases hcls o ho with ⟨c1, c2⟩ | ⟨c1, c2⟩ | ⟨c1, c2⟩ <;> rw [c1, c2]
    · exact ⟨⟨_, gB⟩, _, gS⟩
    · exact ⟨⟨_, gS⟩, _, gB⟩
    · exact ⟨⟨_, gB⟩, _, gF⟩
  · intro o ho
    have hm := ((hder o ho).ok hp).2.1
    rcases hmem.1 ho with h | h | h
    · obtain ⟨c1, c2⟩ := hb.clsB o h
      exact exactFeasible_of hm (hg.exB o h) (by rw [c1]; exact gB) (by rw [c2]; exact gS) hq.symm
    · obtain ⟨c1, c2⟩ := hb.clsS o h
      exact exactFeasible_of hm (hg.exS o h) (by rw [c1]; exact gS) (by rw [c2]; exact gB) (by rw [hq, one_div_div])
    · obtain ⟨c1, c2⟩ := hb.clsF hF1 o h
      exact exactFeasible_of hm (hg.exF o h) (by rw [c1]; exact gB) (by rw [c2]; exact gF) rfl

theorem filter_parts {b s f : List Order} {φ : Order → Bool} {vb vs vf : Bool} (hb : ∀ o ∈ b, φ o = vb) (hs : ∀ o ∈ s, φ o = vs) (hf : ∀ o ∈ f, φ o = vf) :
    (b ++ s ++ f).filter φ = (if vb then b else []) ++ (if vs then s else []) ++ (if vf then f else []) := by
  have key : ∀ {l : List Order} {v : Bool}, (∀ o ∈ l, φ o = v) → l.filter φ = if v then l else [] := by
    intro l v h
    cases v with
    | true => rw [if_pos rfl]; exact List.filter_eq_self.2 h
    | false => rw [if_neg (by simp)]; exact List.filter_eq_nil_iff.2 (fun o ho => by simp [h o ho])
  rw [List.filter_append, List.filter_append, key hb, key hs, key hf]

theorem nrExecutedOf_filter (l : List Order) (φ : Order → Bool) : nrExecutedOf l φ = nrExecuted (l.filter φ) := by
  unfold nrExecutedOf nrExecuted
  rw [List.filter_filter]
  congr 1
  exact List.filter_congr (fun o _ => Bool.and_comm _ _)

/-- C73. An attempt of the solver, with price `p` and rate `x` and the fills `b`, `s`, `f`, gives a solution that executes orders if an order of `s` and one
of `f` have the slack, and gives the trivial solution if the orders of `f` cannot take the fees collected in the first token. -/
theorem C73_attempt {cfg : Config} {ext : Ext} {n : ℕ} {imb : ℚ} {pair : Token × Token} {bk : Books} {y : ℚ} {fee : Fee}
    {pool b s f : List Order} {g : GivenResult} {p0 : ℤ} {p x k K δ : ℚ} {sol : Solution} (hp : Pool pool) (hc : CfgOk cfg) (hfee : fee.value < 1)
    (hbk : BookOf pool pair fee bk) (hne : pair.1 ≠ pair.2) (hF1 : pair.1 ≠ fee.token) (hF2 : pair.2 ≠ fee.token)
    (hbr : ∀ E, MaxBranching E (ext.branch E)) (hy : 0 < y) (hbn : bk.b ≠ []) (hsn : bk.s ≠ [])
    (hfn : bk.f ≠ []) (hn1 : 1 ≤ n) (hn2 : (n : ℤ) ≤ cfg.maxNrExec) (hz : ∀ o ∈ bk.f, o.buy = 0)
    (hr : givenExecF cfg ext.sqrt n imb pair bk y fee = .ok g) (hgp : g.bPrice = some p0) (hp0 : p = p0) (hx : x = g.xrate) (hb : b = g.books.b) (hs : s = g.books.s)
    (hf : f = g.books.f) (hro : RoundedTo cfg ext fee [(fee.token, (cfg.feeTokenPrice : ℚ)), (pair.1, p), (pair.2, p / g.xrate)]
      (g.books.b ++ g.books.s ++ g.books.f) sol)
    (hk : k = x / (1 - fee.value)) (hK : K = 1 / x / (1 - fee.value))
    (hδ : δ = (s.map (soldS x fee)).sum - (b.map (·.buy)).sum - (f.map (·.buy)).sum) :
    ((∃ o ∈ s, ∃ low, low = o.buy - (1 + nrExecuted b * (k + 1)) ∧ (cfg.minTradable : ℚ) ≤ low ∧ (cfg.minTradable : ℚ) ≤ low / x / (1 - fee.value) ∧
          (o.buy + nrExecuted s) / x / (1 - fee.value) ≤ o.maxSell) →
        (∃ o ∈ f, 0 < o.buy ∧ ∃ low, low = o.buy + δ - (1 + nrExecuted s + nrExecuted b * K * (k + 1)) ∧ (cfg.minTradable : ℚ) ≤ low ∧
          (cfg.minTradable : ℚ) ≤ low * (p / cfg.feeTokenPrice) / (1 - fee.value) ∧
          (o.buy + δ + (nrExecuted b + nrExecuted f)) * (p / cfg.feeTokenPrice) / (1 - fee.value) ≤ o.maxSell) →
        sol ≠ .trivial ∧ ∃ o ∈ sol.orders, 0 < o.buy) ∧
      ((∃ o ∈ s, 0 < o.buy) →
        ((f.filter (fun o => decide (0 < o.buy))).map (fun o => (o.maxSell + 1) * (1 - fee.value) * (cfg.feeTokenPrice / p))).sum <
          (s.map (soldS x fee)).sum - (b.map (·.buy)).sum - (nrExecuted s + nrExecuted f + nrExecuted b * K * (k + 1)) →
        sol = .trivial) := by
  obtain ⟨hsame, hgm⟩ := givenExecF_spec hp hc hfee hbk hne hF1 hF2 hy hbn hsn hfn hn1 hn2 hz hr
  have hgm := hgm p0 hgp
  rw [← hp0] at hgm
  have hat := C62_attempt hp hc hfee hbk hne hF1 hF2 hy hbn hsn hfn hn1 hn2 hr
  have hbal := attempt_balanced hc hfee hbk.idsB hbk.idsS hat hgp
  have hbk' := hbk.same hsame
  generalize hpr : ([(fee.token, (cfg.feeTokenPrice : ℚ)), (pair.1, p), (pair.2, p / g.xrate)] : Prices) = prices at hro
  obtain ⟨hin, hfeas, hcls, pF, pB, pS⟩ := chain_input hp hc hfee hbk' hne hF1 hF2 hgm hpr.symm
  have cB := hbk'.clsB
  have cS := hbk'.clsS
  have cF := hbk'.clsF hF1
  have hff : ∃ o ∈ g.books.f, 0 < o.buy := by
    rcases hgm.feeCase with ⟨h1, _⟩ | ⟨_, h⟩
    · exact absurd h1 hF1
    · exact h
  have hx0 := hgm.ratePos
  obtain ⟨k0, hk1, hk0⟩ := hgm.price
  have hpp : 0 < p := by rw [hk0]; exact_mod_cast hk1
  rw [← hx, ← hb, ← hs, ← hf] at *
  have hcfg : 1 ≤ cfg.minTradable ∧ cfg.minTradable ≤ cfg.minRationalTradable - 1 := ⟨hc.minPos, hc.slack⟩
  have hφ : 0 < 1 - fee.value := by linarith
  have eBS : ∀ v : ℚ, exactSell p (p / x) fee v = v * x / (1 - fee.value) := by
    intro v; unfold exactSell; rw [div_div_cancel₀ hpp.ne']
  have eSB : ∀ v : ℚ, exactSell (p / x) p fee v = v / x / (1 - fee.value) := by
    intro v; unfold exactSell; congr 1; field_simp
  have fSellS : (b ++ s ++ f).filter (fun o => decide (o.sellToken = pair.2)) = b := by
    rw [filter_parts (vb := true) (vs := false) (vf := false) (fun o ho => by simp [(cB o ho).2]) (fun o ho => by simp [(cS o ho).2, hne])
      (fun o ho => by simp [(cF o ho).2, hF2.symm])]
    simp
  have fBuyS : (b ++ s ++ f).filter (fun o => decide (o.buyToken = pair.2)) = s := by
    rw [filter_parts (vb := false) (vs := true) (vf := false) (fun o ho => by simp [(cB o ho).1, hne]) (fun o ho => by simp [(cS o ho).1])
      (fun o ho => by simp [(cF o ho).1, hne])]
    simp
  have fBuyB : (b ++ s ++ f).filter (fun o => decide (o.buyToken = pair.1)) = b ++ f := by
    rw [filter_parts (vb := true) (vs := false) (vf := true) (fun o ho => by simp [(cB o ho).1]) (fun o ho => by simp [(cS o ho).1, hne.symm])
      (fun o ho => by simp [(cF o ho).1])]
    simp
  have fSellB : (b ++ s ++ f).filter (fun o => decide (o.sellToken = pair.1)) = s := by
    rw [filter_parts (vb := false) (vs := true) (vf := false) (fun o ho => by simp [(cB o ho).2, hne.symm]) (fun o ho => by simp [(cS o ho).2])
      (fun o ho => by simp [(cF o ho).2, hF1.symm])]
    simp
  have fSellF : (b ++ s ++ f).filter (fun o => decide (o.sellToken = fee.token)) = f := by
    rw [filter_parts (vb := false) (vs := false) (vf := true) (fun o ho => by simp [(cB o ho).2, hF2]) (fun o ho => by simp [(cS o ho).2, hF1])
      (fun o ho => by simp [(cF o ho).2])]
    simp
  have hbal2 : (((b ++ s ++ f).filter (fun o => decide (o.sellToken = pair.2))).map (fun o => exactSell p (p / x) fee o.buy)).sum = bought (b ++ s ++ f) pair.2 := by
    unfold bought
    rw [fSellS, fBuyS, ← hbal]
    congr 2
    funext o
    rw [eBS]; rfl
  have hsoldB : (((b ++ s ++ f).filter (fun o => decide (o.sellToken = pair.1))).map (fun o => exactSell (p / x) p fee o.buy)).sum = (s.map (soldS x fee)).sum := by
    rw [fSellB]
    congr 2
    funext o
    rw [eSB]; rfl
  have nS : ((nrExecuted s : ℕ) : ℚ) = nrExecutedOf (b ++ s ++ f) (fun o => decide (o.buyToken = pair.2)) := by rw [nrExecutedOf_filter, fBuyS]
  have nB : ((nrExecuted b : ℕ) : ℚ) = nrExecutedOf (b ++ s ++ f) (fun o => decide (o.sellToken = pair.2)) := by rw [nrExecutedOf_filter, fSellS]
  have nBF : ((nrExecuted b : ℕ) : ℚ) + nrExecuted f = nrExecutedOf (b ++ s ++ f) (fun o => decide (o.buyToken = pair.1)) := by
    rw [nrExecutedOf_filter, fBuyB, nrExecuted, nrExecuted, nrExecuted, List.filter_append, List.length_append]; push_cast; rfl
  have nF : ((nrExecuted f : ℕ) : ℚ) = nrExecutedOf (b ++ s ++ f) (fun o => decide (o.sellToken = fee.token)) := by rw [nrExecutedOf_filter, fSellF]
  have hk' : k = exactSell p (p / x) fee 1 := by rw [eBS, one_mul]; exact hk
  have hK' : K = exactSell (p / x) p fee 1 := by rw [eSB]; exact hK
  have hbought : bought (b ++ s ++ f) pair.1 = (b.map (·.buy)).sum + (f.map (·.buy)).sum := by
    unfold bought; rw [fBuyB, List.map_append, List.sum_append]
  have hmem : ∀ {o : Order}, o ∈ b ++ s ++ f ↔ o ∈ b ∨ o ∈ s ∨ o ∈ f := by
    intro o; simp
  refine ⟨?_, ?_⟩
  · rintro ⟨o, ho, low, el, g1, g2, g3⟩ ⟨o', ho', hpos', low', el', g1', g2', g3'⟩
    obtain ⟨res, e⟩ := C73_succeeds_with_slack hin hcfg hfeas hbr hne hF1 hF2 hcls pF pB pS hk' hK' nB nS nBF hbal2
      (δ := δ) (by rw [hsoldB, hbought, hδ]; ring)
      ⟨o, hmem.2 (.inr (.inl ho)), (cS o ho).1, by rw [← el]; exact g1, by rw [eSB, ← el]; exact g2, by rw [eSB]; exact g3⟩
      ⟨o', hmem.2 (.inr (.inr ho')), (cF o' ho').2, hpos', by linarith,
        by unfold exactSell; convert g2' using 3; linarith, by unfold exactSell; convert g3' using 3; ring⟩
    obtain ⟨ok, res', e', rfl⟩ := hro
    rw [e] at e'
    cases e'
    rw [if_pos rfl]
    obtain ⟨h28, _⟩ := C28_same_orders_executed hin hcfg hfeas e
    have hpos : ∃ o ∈ res, 0 < o.buy := by
      obtain ⟨a', ha', _, g, _⟩ := forall₂_mem_left h28 o' (hmem.2 (.inr (.inr ho')))
      exact ⟨a', ha', g.2 hpos'⟩
    refine ⟨fun hc => ?_, hpos⟩
    obtain ⟨a, ha, _⟩ := hpos
    have : res = [] := congrArg Solution.orders hc
    rw [this] at ha
    simp at ha
  · rintro ⟨o, ho, hpos⟩ hcap
    obtain ⟨o', ho', hpos'⟩ := hff
    obtain ⟨res, e⟩ := C73_fails_without_cover hin hcfg hfeas hbr hne hF1 hF2 hcls pF pB pS hk' hK' nB nS nF hbal2
      ⟨o, hmem.2 (.inr (.inl ho)), (cS o ho).1, hpos⟩ ⟨o', hmem.2 (.inr (.inr ho')), (cF o' ho').2, hpos'⟩
      (by
        rw [hsoldB, fSellS]
        refine lt_of_eq_of_lt ?_ hcap
        congr 2
        have : f.filter (fun o => decide (0 < o.buy)) =
            ((b ++ s ++ f).filter (fun o => decide (o.sellToken = fee.token))).filter (fun o => decide (0 < o.buy)) := by rw [fSellF]
        rw [this, List.filter_filter]
        exact List.filter_congr (fun a ha => Bool.and_comm _ _))
    obtain ⟨ok, res', e', rfl⟩ := hro
    rw [e] at e'
    cases e'
    rw [if_neg (by simp)]

namespace ExChain

/-- Numbers appearing in C73 for the result of an attempt. -/
def k (fee : Fee) (g : GivenResult) : ℚ := g.xrate / (1 - fee.value)
@[inherit_doc k] def K (fee : Fee) (g : GivenResult) : ℚ := 1 / g.xrate / (1 - fee.value)
@[inherit_doc k] def p (g : GivenResult) : ℚ := (g.bPrice.getD 0 : ℤ)
@[inherit_doc k] def D (fee : Fee) (g : GivenResult) : ℚ := (g.books.s.map (soldS g.xrate fee)).sum - (g.books.b.map (·.buy)).sum
@[inherit_doc k] def lowS (fee : Fee) (g : GivenResult) (o : Order) : ℚ := o.buy - (1 + nrExecuted g.books.b * (k fee g + 1))
@[inherit_doc k] def lowF (fee : Fee) (g : GivenResult) (o : Order) : ℚ :=
  o.buy + (D fee g - (g.books.f.map (·.buy)).sum) - (1 + nrExecuted g.books.s + nrExecuted g.books.b * K fee g * (k fee g + 1))

end ExChain

open ExOut ExChain in
/-- The first part of `C73_attempt`: the attempt with two fee orders at the rate found. -/
example : ∃ r, (do
    let (x, b1, s1) ← solveTokenPair cfg ext.sqrt ("B", "S") b s fee none none cfg.maxNrExec
    attempt cfg ext ("B", "S") fee (x.getD 0) b1 s1 f 2) = .ok r ∧ r.bPrice.isSome = true ∧
    (∃ o ∈ r.books.s, (cfg.minTradable : ℚ) ≤ lowS fee r o ∧ (cfg.minTradable : ℚ) ≤ lowS fee r o / r.xrate / (1 - fee.value) ∧
      (o.buy + nrExecuted r.books.s) / r.xrate / (1 - fee.value) ≤ o.maxSell) ∧
    ∃ o ∈ r.books.f, 0 < o.buy ∧ (cfg.minTradable : ℚ) ≤ lowF fee r o ∧
      (cfg.minTradable : ℚ) ≤ lowF fee r o * (p r / cfg.feeTokenPrice) / (1 - fee.value) ∧
      (o.buy + (D fee r - (r.books.f.map (·.buy)).sum) + (nrExecuted r.books.b + nrExecuted r.books.f)) * (p r / cfg.feeTokenPrice) / (1 - fee.value) ≤ o.maxSell :=
  exists_of_pyCheck (p := fun r : GivenResult => r.bPrice.isSome = true ∧
    (∃ o ∈ r.books.s, (cfg.minTradable : ℚ) ≤ lowS fee r o ∧ (cfg.minTradable : ℚ) ≤ lowS fee r o / r.xrate / (1 - fee.value) ∧
      (o.buy + nrExecuted r.books.s) / r.xrate / (1 - fee.value) ≤ o.maxSell) ∧
    ∃ o ∈ r.books.f, 0 < o.buy ∧ (cfg.minTradable : ℚ) ≤ lowF fee r o ∧
      (cfg.minTradable : ℚ) ≤ lowF fee r o * (p r / cfg.feeTokenPrice) / (1 - fee.value) ∧
      (o.buy + (D fee r - (r.books.f.map (·.buy)).sum) + (nrExecuted r.books.b + nrExecuted r.books.f)) * (p r / cfg.feeTokenPrice) / (1 - fee.value) ≤ o.maxSell)
    (by decide +kernel)

open ExExtra ExChain in
/-- The second part: the attempt with both fee orders for the larger instance of `C72_extra_order`. -/
example : ∃ r, (do
    let (_, bk, fee) ← loadPairProblem Config.default (add (small (10 ^ 24)) extra) ("B", "S")
    let (b, s) ← pruneUnrealizable bk.b bk.s fee
    let (x, b1, s1) ← solveTokenPair Config.default ExDouble.ext.sqrt ("B", "S") b s fee none none Config.default.maxNrExec
    let g ← attempt Config.default ExDouble.ext ("B", "S") fee (x.getD 0) b1 s1 bk.f 2
    pure (g, fee)) = .ok r ∧ r.1.bPrice.isSome = true ∧ (∃ o ∈ r.1.books.s, 0 < o.buy) ∧
    ((r.1.books.f.filter (fun o => decide (0 < o.buy))).map
        (fun o => (o.maxSell + 1) * (1 - r.2.value) * (Config.default.feeTokenPrice / p r.1))).sum <
      D r.2 r.1 - (nrExecuted r.1.books.s + nrExecuted r.1.books.f + nrExecuted r.1.books.b * K r.2 r.1 * (k r.2 r.1 + 1)) :=
  exists_of_pyCheck (p := fun r : GivenResult × Fee => r.1.bPrice.isSome = true ∧ (∃ o ∈ r.1.books.s, 0 < o.buy) ∧
    ((r.1.books.f.filter (fun o => decide (0 < o.buy))).map
        (fun o => (o.maxSell + 1) * (1 - r.2.value) * (Config.default.feeTokenPrice / p r.1))).sum <
      D r.2 r.1 - (nrExecuted r.1.books.s + nrExecuted r.1.books.f + nrExecuted r.1.books.b * K r.2 r.1 * (k r.2 r.1 + 1))) (by decide +kernel)

end Dex
