import Verif.Proof.RoundRoom

/-! # Property C59: rounding gives up only when there is no room -/

namespace Dex

open Spec

theorem bounded_of_rounded {cfg : Config} {prices : Prices} {fee : Fee} {o o' : Order} (hI : IntPrices prices) (hf : fee.value < 1)
    (hcfg : 1 ≤ cfg.minTradable ∧ cfg.minTradable ≤ cfg.minRationalTradable - 1) (hp : ExactFeasible cfg prices fee o)
    (r : Rounded cfg prices fee o o') : Bounded cfg o' := by
  obtain ⟨h1, h2, h3, h4⟩ := rounded_facts hI hf hcfg hp r
  intro hnz
  have hpos : 0 < o.buy := lt_of_le_of_ne hp.nonneg (fun h => hnz (h4 h.symm).1)
  exact ⟨h1.minBuy.resolve_left hnz, h1.minSell.resolve_left (h3.2 hpos).ne', h1.maxSell⟩

theorem firstPass_bounded {cfg : Config} {prices : Prices} {orders os : List Order} {fee : Fee} (h : RoundInput prices fee orders)
    (hcfg : 1 ≤ cfg.minTradable ∧ cfg.minTradable ≤ cfg.minRationalTradable - 1)
    (hfeas : ∀ o ∈ orders, ExactFeasible cfg prices fee o) (hs : List.Forall₂ (FirstRound prices fee) orders os) :
    ∀ o ∈ os, Bounded cfg o := by
  intro o' ho'
  obtain ⟨o, ho, r⟩ := forall₂_mem_right hs o' ho'
  exact bounded_of_rounded h.intPrices h.feeLt hcfg (hfeas o ho) (rounded_of r (.inl rfl))

/-! ## C59 -/

/-- C59. When rounding reports failure, then some token of the branching is still out of balance, and no executed order that buys
this token for its parent token could have taken the imbalance within its bounds. -/
theorem C59_gives_up_without_room {cfg : Config} {branch : List (Token × Token) → List (Token × Token)} {prices : Prices}
    {orders : List Order} {fee : Fee} {res : List Order} (h : RoundInput prices fee orders)
    (hcfg : 1 ≤ cfg.minTradable ∧ cfg.minTradable ≤ cfg.minRationalTradable - 1)
    (hfeas : ∀ o ∈ orders, ExactFeasible cfg prices fee o) (hbr : ∀ E, Branching E (branch E))
    (hr : roundSolution cfg branch prices orders fee = .ok (false, res)) :
    ∃ os, List.Forall₂ (FirstRound prices fee) orders os ∧
      ∃ e ∈ branch (orderEdges (os.filter (fun o => decide (o.sell > 0))) fee), sold res e.2 ≠ bought res e.2 ∧
        ∀ o ∈ res, o.buyToken = e.2 → o.sellToken = e.1 → o.buy ≠ 0 →
          ¬ Absorbs cfg prices fee (sold res e.2 - bought res e.2) o := by
  obtain ⟨os, e, hs, hinv⟩ := firstPass h
  unfold roundSolution at hr
  rw [e, ok_bind] at hr
  obtain ⟨d, e2, k, hv⟩ := hinv.balances
  rw [e2, ok_bind] at hr
  obtain ⟨t1, t2⟩ := arborescence_spec branch (os.filter (fun o => decide (o.sell > 0))) fee
  obtain ⟨rank, hrank⟩ := (hbr (orderEdges (os.filter (fun o => decide (o.sell > 0))) fee)).acyclic
  obtain ⟨p, hp, g1, g2⟩ := roundLoop_room h.intPrices h.feeLt
    (fun p hp hc => by have := hrank _ (t2 p hp); simp only [hc] at this; omega) hinv (firstPass_bounded h hcfg hfeas hs) hv hr
  exact ⟨os, hs, _, t2 p hp, fun hc => g1 (sub_eq_zero.2 hc), fun o ho a b c => g2 o ho ⟨a, b, c⟩⟩

/-- The main loop on a tree with a single child token. -/
theorem roundLoop_single {cfg : Config} {prices : Prices} {fee : Fee} (hI : IntPrices prices) (hf : fee.value < 1)
    {fuel : ℕ} {tree : Dict Token Token} {balances : Dict Token ℚ} {orders res : List Order} {leaf parent : Token} {ok : Bool}
    (hne : parent ≠ leaf) (htree : ∀ p ∈ tree, p = (leaf, parent)) (hinv : RoundInv prices fee orders) (hb : ∀ o ∈ orders, Bounded cfg o)
    (hbal : ∀ t v, dictGet? balances t = some v → v = imbal orders t)
    (habs : ∃ o ∈ orders, OnEdge leaf parent o ∧ Absorbs cfg prices fee (imbal orders leaf) o)
    (h : roundLoop cfg prices fee fuel tree balances orders = .ok (ok, res)) : ok = true := by
  cases fuel with
  | zero => cases h
  | succ fuel =>
    unfold roundLoop at h
    split at h
    · cases h; rfl
    · simp only [bind_eq_ok] at h
      obtain ⟨leaf', hleaf, parent', hpar, bal, hb1, h⟩ := h
      have hpm : (leaf', parent') ∈ tree := dictGet?_mem (dictGet_eq_ok.1 hpar)
      have := htree _ hpm
      cases this
      have hbal1 := hbal _ _ (dictGet_eq_ok.1 hb1)
      obtain ⟨os, e1, hstep⟩ := roundStep_orders (cfg := cfg) (leaf := leaf) (parent := parent) (bal := bal) hI hf hinv
        (by rw [hbal1]; exact hinv.isInt_imbal leaf)
      obtain ⟨os', e2, h⟩ := h
      have hroom := roundLeafIfNeeded_room hI hf hne hinv hb hbal1 e2
      rw [e1] at e2
      cases e2
      have hinv2 := hinv.leafStep hstep
      obtain ⟨d, e3, k3, hv⟩ := hinv2.balances
      obtain ⟨d', e4, bal2, hb2, h⟩ := h
      rw [e3] at e4
      cases e4
      have hbal2 := hv _ _ (dictGet_eq_ok.1 hb2)
      have hz : imbal os leaf = 0 := by
        rcases hroom with hz | ⟨_, hno⟩
        · exact hz
        · obtain ⟨o, ho, g1, g2⟩ := habs
          exact absurd g2 (hno o ho g1)
      rw [hbal2, hz, if_neg (by simp)] at h
      have hnil : tree.filter (fun p => decide (p.1 ≠ leaf)) = [] := by
        rw [List.filter_eq_nil_iff]
        intro p hp
        rw [htree p hp]; simp
      rw [hnil] at h
      cases fuel with
      | zero => cases h
      | succ fuel => unfold roundLoop at h; cases h; rfl

/-- C59. For a token pair with the fee token (orders buy `S` for the fee token or the fee token for `S`): if, after taking floors, one executed
order that buys `S` can take the imbalance of `S` within its bounds, then rounding succeeds. -/
theorem C59_succeeds_with_room {cfg : Config} {branch : List (Token × Token) → List (Token × Token)} {prices : Prices}
    {orders os : List Order} {fee : Fee} {S : Token} (h : RoundInput prices fee orders)
    (hcfg : 1 ≤ cfg.minTradable ∧ cfg.minTradable ≤ cfg.minRationalTradable - 1)
    (hfeas : ∀ o ∈ orders, ExactFeasible cfg prices fee o) (hbr : ∀ E, Branching E (branch E)) (hSF : S ≠ fee.token)
    (hcls : ∀ o ∈ orders, (o.buyToken = fee.token ∧ o.sellToken = S) ∨ (o.buyToken = S ∧ o.sellToken = fee.token))
    (hos : List.Forall₂ (FirstRound prices fee) orders os)
    (hroom : ∃ o ∈ os, o.buyToken = S ∧ 0 < o.buy ∧ Absorbs cfg prices fee (sold os S - bought os S) o) :
    ∃ res, roundSolution cfg branch prices orders fee = .ok (true, res) := by
  obtain ⟨ok, res, hr⟩ := C26_rounding_total (cfg := cfg) h hbr
  suffices hok : ok = true by subst hok; exact ⟨res, hr⟩
  obtain ⟨os', e, hs, hinv⟩ := firstPass h
  have huniq : os' = os := by
    clear hr hroom hfeas e hinv h
    induction hs generalizing os with
    | nil => cases hos; rfl
    | cons h1 _ ih =>
      cases hos with
      | cons g1 g2 =>
        rw [ih (fun o ho => hcls o (by simp [ho])) g2]
        congr 1
        obtain ⟨a1, a2, a3⟩ := h1
        obtain ⟨b1, b2, b3⟩ := g1
        have hsell : ∀ {o a b : Order}, SameButExec o a → SameButExec o b → a.buy = b.buy → OnClearingPrice prices fee a →
            OnClearingPrice prices fee b → a = b := by
          intro o a b h1 h2 h3 ⟨pb, ps, p1, p2, p3⟩ ⟨qb, qs, q1, q2, q3⟩
          have ea : a.buyToken = b.buyToken ∧ a.sellToken = b.sellToken := by rw [h1, h2]; exact ⟨rfl, rfl⟩
          rw [ea.1] at p1
          rw [ea.2] at p2
          have hse : a.sell = b.sell := by rw [p3, q3, priceOf_unique p1 q1, priceOf_unique p2 q2, h3]
          rw [h1, h2, h3, hse]
        exact hsell a1 b1 (a2.trans b2.symm) a3 b3
  subst huniq
  unfold roundSolution at hr
  rw [e, ok_bind] at hr
  obtain ⟨d, e2, k, hv⟩ := hinv.balances
  rw [e2, ok_bind] at hr
  obtain ⟨t1, t2⟩ := arborescence_spec branch (os'.filter (fun o => decide (o.sell > 0))) fee
  have hcls' : ∀ o ∈ os', (o.buyToken = fee.token ∧ o.sellToken = S) ∨ (o.buyToken = S ∧ o.sellToken = fee.token) := by
    intro o' ho'
    obtain ⟨o, ho, r⟩ := forall₂_mem_right hs o' ho'
    have := r.1
    rw [this]; exact hcls o ho
  refine roundLoop_single (leaf := S) (parent := fee.token) h.intPrices h.feeLt hSF.symm ?_ hinv (firstPass_bounded h hcfg hfeas hs) hv ?_ hr
  · intro p hp
    obtain ⟨o, ho, hne, he⟩ := mem_orderEdges.1 ((hbr _).sub _ (t2 p hp))
    rcases hcls' o (List.mem_of_mem_filter ho) with ⟨g, _⟩ | ⟨g1, g2⟩
    · exact absurd g hne
    · rw [g1, g2] at he
      have h1 := congrArg Prod.fst he
      have h2 := congrArg Prod.snd he
      exact Prod.ext h2 h1
  · obtain ⟨o, ho, g1, g2, g3⟩ := hroom
    refine ⟨o, ho, ⟨g1, ?_, g2.ne'⟩, g3⟩
    rcases hcls' o ho with ⟨g, _⟩ | ⟨_, g⟩
    · exact absurd (g1.symm.trans g) hSF
    · exact g

/-- Number of executed orders among those with property `p`. -/
def nrExecutedOf (orders : List Order) (p : Order → Bool) : ℕ := (orders.filter (fun o => p o && decide (0 < o.buy))).length

/-- Imbalance caused by taking floors. -/
theorem firstRound_imbal {prices : Prices} {fee : Fee} {orders os : List Order} {S : Token} {pF pS : ℚ} (hI : IntPrices prices)
    (hf : fee.value < 1) (hSF : S ≠ fee.token) (hF : PriceOf prices fee.token pF) (hS : PriceOf prices S pS)
    (hpos : ∀ o ∈ orders, 0 ≤ o.buy)
    (hcls : ∀ o ∈ orders, (o.buyToken = fee.token ∧ o.sellToken = S) ∨ (o.buyToken = S ∧ o.sellToken = fee.token))
    (hos : List.Forall₂ (FirstRound prices fee) orders os) :
    let exact := ((orders.filter (fun o => decide (o.sellToken = S))).map (fun o => exactSell pF pS fee o.buy)).sum - bought orders S
    exact - nrExecutedOf orders (fun o => decide (o.sellToken = S)) * (exactSell pF pS fee 1 + 1) ≤ imbal os S ∧
      imbal os S ≤ exact + nrExecutedOf orders (fun o => decide (o.buyToken = S)) := by
  obtain ⟨f1, f2⟩ := hI.of hF
  obtain ⟨s1, s2⟩ := hI.of hS
  have hφ : 0 < 1 - fee.value := by linarith
  dsimp only
  induction hos with
  | nil => simp [imbal_nil, bought, nrExecutedOf]
  | @cons o o' l l' hr _ ih =>
    obtain ⟨i1, i2⟩ := ih (fun a ha => hpos a (by simp [ha])) (fun a ha => hcls a (by simp [ha]))
    obtain ⟨r1, r2, pb, ps, r3, r4, r5⟩ := hr
    have et : o'.buyToken = o.buyToken ∧ o'.sellToken = o.sellToken := by rw [r1]; exact ⟨rfl, rfl⟩
    rw [imbal_cons, et.1, et.2]
    rw [et.1] at r3
    rw [et.2] at r4
    have h0 := hpos o (by simp)
    have hk : ∀ y : ℚ, exactSell pF pS fee y = y * exactSell pF pS fee 1 := by intro y; unfold exactSell; ring
    have hk0 : 0 < exactSell pF pS fee 1 := by unfold exactSell; positivity
    have hfl1 := Int.floor_le o.buy
    have hfl2 := Int.lt_floor_add_one o.buy
    rcases hcls o (by simp) with ⟨c1, c2⟩ | ⟨c1, c2⟩
    · rw [c1] at r3
      rw [c2] at r4
      rw [priceOf_unique r3 hF, priceOf_unique r4 hS, r2] at r5
      have c3 : ¬ fee.token = S := fun h => hSF h.symm
      have u1 := uniformSell_le (pb := pF) (fee := fee) s1 s2 (⌊o.buy⌋ : ℚ)
      rw [← exactSell_eq, ← r5, hk] at u1
      have u2 : exactSell pF pS fee (⌊o.buy⌋ : ℚ) < o'.sell + 1 := by
        rw [r5, uniformSell_eq s1 s2, exactSell_eq]; exact Int.lt_floor_add_one _
      rw [hk] at u2
      simp only [bought, nrExecutedOf, List.filter_cons, c1, c2, c3, decide_true, decide_false, if_true, if_false, List.map_cons, List.sum_cons,
        Bool.true_and, Bool.false_and, reduceCtorEq] at i1 i2 ⊢
      rw [hk o.buy]
      have m1 : (⌊o.buy⌋ : ℚ) * exactSell pF pS fee 1 ≤ o.buy * exactSell pF pS fee 1 := mul_le_mul_of_nonneg_right hfl1 hk0.le
      have m2 : (o.buy - 1) * exactSell pF pS fee 1 ≤ (⌊o.buy⌋ : ℚ) * exactSell pF pS fee 1 :=
        mul_le_mul_of_nonneg_right (by linarith) hk0.le
      rcases h0.eq_or_lt with hz | hp
      · rw [if_neg (by simp [← hz])]
        have : o'.sell = 0 := by rw [r5, ← hz]; simp
        rw [this, ← hz]
        constructor <;> linarith
      · rw [if_pos (by simpa using hp), List.length_cons]
        push_cast
        constructor
        · linarith
        · linarith
    · have c3 : ¬ fee.token = S := fun h => hSF h.symm
      simp only [bought, nrExecutedOf, List.filter_cons, c1, c2, c3, decide_true, decide_false, if_true, if_false, List.map_cons, List.sum_cons,
        Bool.true_and, Bool.false_and, reduceCtorEq] at i1 i2 ⊢
      rw [r2]
      rcases h0.eq_or_lt with hz | hp
      · rw [if_neg (by simp [← hz]), ← hz]
        simp only [Int.floor_zero, Int.cast_zero]
        constructor <;> linarith
      · rw [if_pos (by simpa using hp), List.length_cons]
        push_cast
        constructor
        · linarith
        · linarith

/-- C59. Rounding of a balanced solution of a pair with the fee token succeeds whenever some order that buys `S` has enough slack: let `nb`, `ns`
be the numbers of executed orders that sell and buy `S`. The order's buy amount may be lowered by `1 + nb (k + 1)`, `k` being the exact amount
of `S` sold for one fee token, without going below the minimum tradable amounts, and may be raised by `ns` without exceeding the
maximum sell amount. -/
theorem C59_succeeds_with_slack {cfg : Config} {branch : List (Token × Token) → List (Token × Token)} {prices : Prices}
    {orders : List Order} {fee : Fee} {S : Token} {pF pS : ℚ} (h : RoundInput prices fee orders)
    (hcfg : 1 ≤ cfg.minTradable ∧ cfg.minTradable ≤ cfg.minRationalTradable - 1)
    (hfeas : ∀ o ∈ orders, ExactFeasible cfg prices fee o) (hbr : ∀ E, Branching E (branch E)) (hSF : S ≠ fee.token)
    (hcls : ∀ o ∈ orders, (o.buyToken = fee.token ∧ o.sellToken = S) ∨ (o.buyToken = S ∧ o.sellToken = fee.token))
    (hF : PriceOf prices fee.token pF) (hS : PriceOf prices S pS)
    (hbal : ((orders.filter (fun o => decide (o.sellToken = S))).map (fun o => exactSell pF pS fee o.buy)).sum = bought orders S)
    (hslack : ∃ o ∈ orders, o.buyToken = S ∧
      (cfg.minTradable : ℚ) ≤ o.buy - 1 - nrExecutedOf orders (fun o => decide (o.sellToken = S)) * (exactSell pF pS fee 1 + 1) ∧
      (cfg.minTradable : ℚ) ≤ exactSell pS pF fee
        (o.buy - 1 - nrExecutedOf orders (fun o => decide (o.sellToken = S)) * (exactSell pF pS fee 1 + 1)) ∧
      exactSell pS pF fee (o.buy + nrExecutedOf orders (fun o => decide (o.buyToken = S))) ≤ o.maxSell) :
    ∃ res, roundSolution cfg branch prices orders fee = .ok (true, res) := by
  obtain ⟨ok, res, hr⟩ := C26_rounding_total (cfg := cfg) h hbr
  suffices hok : ok = true by subst hok; exact ⟨res, hr⟩
  obtain ⟨os, _, hos, hinv⟩ := firstPass h
  obtain ⟨f1, f2⟩ := h.intPrices.of hF
  obtain ⟨s1, s2⟩ := h.intPrices.of hS
  have hf := h.feeLt
  have hφ : 0 < 1 - fee.value := by linarith
  have him := firstRound_imbal h.intPrices h.feeLt hSF hF hS (fun o ho => (hfeas o ho).nonneg) hcls hos
  dsimp only at him
  rw [hbal, sub_self] at him
  obtain ⟨i1, i2⟩ := him
  obtain ⟨o, ho, g1, g2, g3, g4⟩ := hslack
  set nb : ℚ := (nrExecutedOf orders (fun o => decide (o.sellToken = S)) : ℚ)
  set ns : ℚ := (nrExecutedOf orders (fun o => decide (o.buyToken = S)) : ℚ)
  set k := exactSell pF pS fee 1 with hk
  obtain ⟨o', ho', r⟩ := forall₂_mem_left hos o ho
  have e1 : o'.buyToken = S := by rw [r.1]; exact g1
  have e2 : o'.sellToken = fee.token := by
    rw [r.1]
    rcases hcls o ho with ⟨g, _⟩ | ⟨_, g⟩
    · exact absurd (g1.symm.trans g) hSF
    · exact g
  have e3 : o'.maxSell = o.maxSell := by rw [r.1]
  have hfl1 := Int.floor_le o.buy
  have hfl2 := Int.lt_floor_add_one o.buy
  have hlow : o.buy - 1 - nb * (k + 1) ≤ o'.buy + imbal os S := by rw [r.2.1]; linarith
  have hup : o'.buy + imbal os S ≤ o.buy + ns := by rw [r.2.1]; linarith
  have hmono : ∀ {a b : ℚ}, a ≤ b → exactSell pS pF fee a ≤ exactSell pS pF fee b := by
    intro a b hab
    unfold exactSell
    have : (0 : ℚ) ≤ pS / pF := by positivity
    exact div_le_div_of_nonneg_right (mul_le_mul_of_nonneg_right hab this) hφ.le
  have hm1 : (1 : ℚ) ≤ cfg.minTradable := by exact_mod_cast hcfg.1
  have hbuy : 0 < o.buy := by
    have : (0 : ℚ) ≤ nb := Nat.cast_nonneg _
    have hk0 : 0 < k := by rw [hk]; unfold exactSell; positivity
    have := mul_nonneg this (by linarith : (0 : ℚ) ≤ k + 1)
    linarith
  suffices hres : ∃ res, roundSolution cfg branch prices orders fee = .ok (true, res) by
    obtain ⟨res', e⟩ := hres
    rw [hr] at e
    cases e; rfl
  refine C59_succeeds_with_room h hcfg hfeas hbr hSF hcls hos ⟨o', ho', e1, ?_, pS, pF, by rw [e1]; exact hS, by rw [e2]; exact hF,
    g2.trans hlow, ?_, ?_⟩
  · exact (rounded_facts h.intPrices h.feeLt hcfg (hfeas o ho) (rounded_of r (.inl rfl))).2.1.2 hbuy
  · change _ ≤ uniformSell pS pF fee (o'.buy + imbal os S)
    rw [uniformSell_eq f1 f2, Int.le_floor, ← exactSell_eq]
    exact g3.trans (hmono hlow)
  · change (uniformSell pS pF fee (o'.buy + imbal os S) : ℚ) ≤ _
    have := uniformSell_le (pb := pS) (fee := fee) f1 f2 (o'.buy + imbal os S)
    rw [← exactSell_eq] at this
    rw [e3]
    exact this.trans ((hmono hup).trans g4)

/-! ## Examples -/

namespace ExRoom
def fee : Fee := { token := "F", value := 1 / 1000 }
def prices : Prices := [("F", 1), ("S", 1000)]
/-- One order sells `S`, two buy it; the first of those may sell `slack` more than it does. -/
def orders (slack : ℚ) : List Order :=
  [ (Order.mk' "F" "S" 40000 1 none "0").withBuy (30001168 + 4 / 5),
    (Order.mk' "S" "F" ((20020 + 3 / 5) * 1000 / (999 / 1000) + slack) 2000 none "1").withBuy (20020 + 3 / 5),
    (Order.mk' "S" "F" ((10010 + 3 / 5) * 1000 / (999 / 1000)) 2000 none "2").withBuy (10010 + 3 / 5) ]
def branch (E : List (Token × Token)) : List (Token × Token) := if E = [("F", "S")] then [("F", "S")] else []
end ExRoom

example : ∀ E, Branching E (ExRoom.branch E) := by
  intro E
  unfold ExRoom.branch
  split
  · rename_i h
    subst h
    exact ⟨by simp, by simp, ⟨fun t => if t = "F" then 0 else 1, by simp⟩⟩
  · exact ⟨by simp, by simp, ⟨fun _ => 0, by simp⟩⟩

example : RoundInput ExRoom.prices ExRoom.fee (ExRoom.orders 0) ∧ RoundInput ExRoom.prices ExRoom.fee (ExRoom.orders 5000) := by
  constructor <;> constructor <;> decide +kernel

theorem exactFeasible_of_check {cfg : Config} {prices : Prices} {fee : Fee} {orders : List Order}
    (h : (orders.all fun o => decide (0 ≤ o.buy ∧ (0 < o.buy → (cfg.minRationalTradable : ℚ) ≤ o.buy)) &&
      (match dictGet? prices o.buyToken, dictGet? prices o.sellToken with
      | some pb, some ps => decide (exactSell pb ps fee o.buy ≤ o.maxSell ∧ (0 < o.buy → pb / ps ≤ o.maxXrate * (1 - fee.value) ∧
        (cfg.minRationalTradable : ℚ) ≤ exactSell pb ps fee o.buy))
      | _, _ => true)) = true) : ∀ o ∈ orders, ExactFeasible cfg prices fee o := by
  intro o ho
  have := List.all_eq_true.1 h o ho
  rw [Bool.and_eq_true, decide_eq_true_eq] at this
  obtain ⟨⟨h1, h2⟩, h3⟩ := this
  have key : ∀ pb ps, PriceOf prices o.buyToken pb → PriceOf prices o.sellToken ps →
      exactSell pb ps fee o.buy ≤ o.maxSell ∧ (0 < o.buy → pb / ps ≤ o.maxXrate * (1 - fee.value) ∧
        (cfg.minRationalTradable : ℚ) ≤ exactSell pb ps fee o.buy) := by
    intro pb ps hb hs
    rw [priceOf_iff.1 hb, priceOf_iff.1 hs] at h3
    exact of_decide_eq_true h3
  exact ⟨h1, fun pb ps hb hs => (key pb ps hb hs).1, fun pb ps hb hs hp => ((key pb ps hb hs).2 hp).1, h2,
    fun pb ps hb hs hp => ((key pb ps hb hs).2 hp).2⟩

example : (∀ o ∈ ExRoom.orders 0, ExactFeasible Config.default ExRoom.prices ExRoom.fee o) ∧
    ∀ o ∈ ExRoom.orders 5000, ExactFeasible Config.default ExRoom.prices ExRoom.fee o :=
  ⟨exactFeasible_of_check (by decide +kernel), exactFeasible_of_check (by decide +kernel)⟩

/-- Without slack rounding fails: one unit too much of `S` is sold. -/
example : ∃ r, roundSolution Config.default ExRoom.branch ExRoom.prices (ExRoom.orders 0) ExRoom.fee = .ok r ∧
    r.1 = false ∧ sold r.2 "S" = bought r.2 "S" + 1 :=
  exists_of_pyCheck (p := fun r : Bool × List Order => r.1 = false ∧ sold r.2 "S" = bought r.2 "S" + 1) (by decide +kernel)

/-- With slack 5000 the hypotheses of `C59_succeeds_with_slack` hold, and rounding succeeds by changing an amount. -/
example : PriceOf ExRoom.prices ExRoom.fee.token 1 ∧ PriceOf ExRoom.prices "S" 1000 ∧ "S" ≠ ExRoom.fee.token ∧
    (∀ o ∈ ExRoom.orders 5000, (o.buyToken = ExRoom.fee.token ∧ o.sellToken = "S") ∨ (o.buyToken = "S" ∧ o.sellToken = ExRoom.fee.token)) ∧
    (((ExRoom.orders 5000).filter (fun o => decide (o.sellToken = "S"))).map (fun o => exactSell 1 1000 ExRoom.fee o.buy)).sum =
      bought (ExRoom.orders 5000) "S" ∧
    (∃ o ∈ ExRoom.orders 5000, o.buyToken = "S" ∧ (Config.default.minTradable : ℚ) ≤ o.buy - 1 -
        nrExecutedOf (ExRoom.orders 5000) (fun o => decide (o.sellToken = "S")) * (exactSell 1 1000 ExRoom.fee 1 + 1) ∧
      (Config.default.minTradable : ℚ) ≤ exactSell 1000 1 ExRoom.fee (o.buy - 1 -
        nrExecutedOf (ExRoom.orders 5000) (fun o => decide (o.sellToken = "S")) * (exactSell 1 1000 ExRoom.fee 1 + 1)) ∧
      exactSell 1000 1 ExRoom.fee (o.buy + nrExecutedOf (ExRoom.orders 5000) (fun o => decide (o.buyToken = "S"))) ≤ o.maxSell) :=
  ⟨⟨("F", 1), by decide +kernel, rfl⟩, ⟨("S", 1000), by decide +kernel, rfl⟩, by decide +kernel, by decide +kernel, by decide +kernel, by decide +kernel⟩

example : ∃ r, roundSolution Config.default ExRoom.branch ExRoom.prices (ExRoom.orders 5000) ExRoom.fee = .ok r ∧
    r.1 = true ∧ r.2.map (·.buy) = [30001168, 20021, 10010] :=
  exists_of_pyCheck (p := fun r : Bool × List Order => r.1 = true ∧ r.2.map (·.buy) = [30001168, 20021, 10010]) (by decide +kernel)

end Dex
