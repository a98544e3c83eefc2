import Verif.Props.Round

/-! # When the adjustment of a leaf token leaves an imbalance -/

namespace Dex

open Spec

namespace Spec

/-- The order could buy `bal` more (less if negative) at the clearing prices and still respect its maximum sell amount and the
minimum tradable amount. -/
def Absorbs (cfg : Config) (prices : Prices) (fee : Fee) (bal : ℚ) (o : Order) : Prop :=
  ∃ pb ps, PriceOf prices o.buyToken pb ∧ PriceOf prices o.sellToken ps ∧ (cfg.minTradable : ℚ) ≤ o.buy + bal ∧
    cfg.minTradable ≤ uniformSell pb ps fee (o.buy + bal) ∧ (uniformSell pb ps fee (o.buy + bal) : ℚ) ≤ o.maxSell

end Spec

/-- Executed orders respect their bounds. -/
def Bounded (cfg : Config) (o : Order) : Prop :=
  o.buy ≠ 0 → (cfg.minTradable : ℚ) ≤ o.buy ∧ (cfg.minTradable : ℚ) ≤ o.sell ∧ o.sell ≤ o.maxSell

/-- Orders the adjustment looks at. -/
def OnEdge (leaf parent : Token) (o : Order) : Prop := o.buyToken = leaf ∧ o.sellToken = parent ∧ o.buy ≠ 0

theorem imbal_cons_adjust {leaf parent : Token} (hne : parent ≠ leaf) {o o' : Order} (h1 : o.buyToken = leaf) (h2 : o.sellToken = parent)
    (hs : SameButExec o o') (l l' : List Order) :
    imbal (o' :: l') leaf - imbal (o :: l) leaf = o.buy - o'.buy + (imbal l' leaf - imbal l leaf) := by
  have e1 : o'.buyToken = leaf := by rw [hs]; exact h1
  have e2 : o'.sellToken = parent := by rw [hs]; exact h2
  rw [imbal_cons, imbal_cons, h1, h2, e1, e2, if_neg hne, if_pos rfl, if_neg hne, if_pos rfl]
  ring

theorem same_with (o : Order) (b s : ℚ) : SameButExec o ((o.withBuy b).withSell s) := rfl

theorem imbal_cons_same (o : Order) (l l' : List Order) (leaf : Token) :
    imbal (o :: l') leaf - imbal (o :: l) leaf = imbal l' leaf - imbal l leaf := by
  rw [imbal_cons, imbal_cons]; ring

/-- The step of the loop on an order of the edge. -/
theorem roundLeafLoop_cons {cfg : Config} {leaf parent : Token} {prices : Prices} {fee : Fee} (hI : IntPrices prices)
    (hf : fee.value < 1) {o : Order} {os : List Order} {bal pb ps : ℚ} (ho : OnEdge leaf parent o)
    (hpb : PriceOf prices leaf pb) (hps : PriceOf prices parent ps) :
    roundLeafLoop cfg leaf parent prices fee bal (o :: os) =
      (let delta := max ((cfg.minTradable : ℚ) - o.buy) bal
       let new := uniformSell pb ps fee (o.buy + delta)
       if (new : ℚ) > o.maxSell ∨ new < cfg.minTradable then
         roundLeafLoop cfg leaf parent prices fee bal os >>= fun os' => pure (o :: os')
       else if bal - delta = 0 then pure ((o.withBuy (o.buy + delta)).withSell new :: os)
       else roundLeafLoop cfg leaf parent prices fee (bal - delta) os >>= fun os' => pure ((o.withBuy (o.buy + delta)).withSell new :: os')) := by
  obtain ⟨h1, h2, h3⟩ := ho
  rw [← h1] at hpb
  rw [← h2] at hps
  have hge : (cfg.minTradable : ℚ) ≤ o.buy + max ((cfg.minTradable : ℚ) - o.buy) bal := by
    have := le_max_left ((cfg.minTradable : ℚ) - o.buy) bal
    linarith
  have g1 : ∀ d : ℚ, (o.withBuy (o.buy + d)).getSellFromBuy prices fee = .ok (uniformSell pb ps fee (o.buy + d) : ℚ) :=
    fun d => getSellFromBuy_eq hI hf hpb hps
  have g2 : ∀ d : ℚ, (o.withBuy (o.buy + d)).setSellFromBuy prices fee =
      .ok ((o.withBuy (o.buy + d)).withSell (uniformSell pb ps fee (o.buy + d) : ℚ)) :=
    fun d => setSellFromBuy_eq hI hf hpb hps
  rw [roundLeafLoop, if_neg (by simp [h1, h2, h3])]
  dsimp only
  rw [g1, ok_bind]
  by_cases c1 : (uniformSell pb ps fee (o.buy + max ((cfg.minTradable : ℚ) - o.buy) bal) : ℚ) > o.maxSell
  · rw [if_pos c1, if_pos (.inl c1)]
  · rw [if_neg c1]
    by_cases c2 : uniformSell pb ps fee (o.buy + max ((cfg.minTradable : ℚ) - o.buy) bal) < cfg.minTradable
    · rw [if_pos (by exact_mod_cast c2), if_pos (.inr c2)]
    · rw [if_neg (by exact_mod_cast c2), if_neg (by simp only [not_or]; exact ⟨c1, c2⟩), pyAssert_of hge, ok_bind, g2, ok_bind]

theorem roundLeafLoop_skip {cfg : Config} {leaf parent : Token} {prices : Prices} {fee : Fee} {o : Order} {os : List Order} {bal : ℚ}
    (ho : ¬ OnEdge leaf parent o) : roundLeafLoop cfg leaf parent prices fee bal (o :: os) =
      roundLeafLoop cfg leaf parent prices fee bal os >>= fun os' => pure (o :: os') := by
  rw [roundLeafLoop, if_pos]
  by_contra hc
  simp only [not_or, not_not] at hc
  exact ho hc

theorem not_absorbs {cfg : Config} {prices : Prices} {fee : Fee} {o : Order} {leaf parent : Token} {bal pb ps : ℚ} (ho : OnEdge leaf parent o)
    (hpb : PriceOf prices leaf pb) (hps : PriceOf prices parent ps)
    (h : o.buy + bal < cfg.minTradable ∨ uniformSell pb ps fee (o.buy + bal) < cfg.minTradable ∨
      o.maxSell < (uniformSell pb ps fee (o.buy + bal) : ℚ)) : ¬ Absorbs cfg prices fee bal o := by
  rintro ⟨pb', ps', h1, h2, h3, h4, h5⟩
  rw [ho.1] at h1
  rw [ho.2.1] at h2
  rw [priceOf_unique h1 hpb, priceOf_unique h2 hps] at h4 h5
  rcases h with h | h | h
  · linarith
  · omega
  · linarith

/-- Sells of a bounded order of the edge on the clearing price. -/
theorem onEdge_facts {cfg : Config} {prices : Prices} {fee : Fee} {o : Order} {leaf parent : Token} {pb ps : ℚ} (ho : OnEdge leaf parent o)
    (hpb : PriceOf prices leaf pb) (hps : PriceOf prices parent ps) (hb : Bounded cfg o) (hc : OnClearingPrice prices fee o) :
    (cfg.minTradable : ℚ) ≤ o.buy ∧ cfg.minTradable ≤ uniformSell pb ps fee o.buy ∧ (uniformSell pb ps fee o.buy : ℚ) ≤ o.maxSell := by
  obtain ⟨h1, h2, h3⟩ := hb ho.2.2
  obtain ⟨pb', ps', g1, g2, e⟩ := hc
  rw [ho.1] at g1
  rw [ho.2.1] at g2
  rw [priceOf_unique g1 hpb, priceOf_unique g2 hps] at e
  rw [e] at h2 h3
  exact ⟨h1, by exact_mod_cast h2, h3⟩

/-- With too much sold, or a minimum buy amount that does not give a minimum sell amount, only whole adjustments are made. -/
theorem roundLeafLoop_whole {cfg : Config} {leaf parent : Token} {prices : Prices} {fee : Fee} (hI : IntPrices prices)
    (hf : fee.value < 1) (hne : parent ≠ leaf) {bal pb ps : ℚ} (hpb : PriceOf prices leaf pb) (hps : PriceOf prices parent ps)
    (hcase : 0 < bal ∨ (bal < 0 ∧ uniformSell pb ps fee (cfg.minTradable : ℚ) < cfg.minTradable)) :
    ∀ {l l' : List Order}, (∀ o ∈ l, Bounded cfg o ∧ OnClearingPrice prices fee o) →
    roundLeafLoop cfg leaf parent prices fee bal l = .ok l' →
    bal + (imbal l' leaf - imbal l leaf) = 0 ∨ (l' = l ∧ ∀ o ∈ l, OnEdge leaf parent o → ¬ Absorbs cfg prices fee bal o) := by
  intro l
  induction l with
  | nil => intro l' _ h; cases h; exact .inr ⟨rfl, by simp⟩
  | cons o os ih =>
    intro l' hall h
    have hall' : ∀ o ∈ os, Bounded cfg o ∧ OnClearingPrice prices fee o := fun a ha => hall a (by simp [ha])
    have skip : (OnEdge leaf parent o → ¬ Absorbs cfg prices fee bal o) →
        (roundLeafLoop cfg leaf parent prices fee bal os >>= fun os' => (pure (o :: os') : Py _)) = .ok l' →
        bal + (imbal l' leaf - imbal (o :: os) leaf) = 0 ∨
          (l' = o :: os ∧ ∀ o' ∈ o :: os, OnEdge leaf parent o' → ¬ Absorbs cfg prices fee bal o') := by
      intro hno h
      obtain ⟨os', e, h⟩ := bind_eq_ok.1 h
      cases h
      rcases ih hall' e with i | ⟨i1, i2⟩
      · left; rw [imbal_cons_same]; exact i
      · right
        refine ⟨by rw [i1], fun a ha => ?_⟩
        rcases List.mem_cons.1 ha with rfl | ha
        · exact hno
        · exact i2 a ha
    by_cases ho : OnEdge leaf parent o
    · rw [roundLeafLoop_cons hI hf ho hpb hps] at h
      dsimp only at h
      obtain ⟨b1, b2⟩ := hI.of hpb
      obtain ⟨s1, s2⟩ := hI.of hps
      obtain ⟨f1, f2, f3⟩ := onEdge_facts ho hpb hps (hall o (by simp)).1 (hall o (by simp)).2
      split at h
      · rename_i hc
        refine skip (fun _ => ?_) h
        rcases hcase with hpos | ⟨hneg, hmin⟩
        · have hd : max ((cfg.minTradable : ℚ) - o.buy) bal = bal := max_eq_right (by linarith)
          rw [hd] at hc
          exact not_absorbs ho hpb hps (by rcases hc with hc | hc <;> [exact .inr (.inr hc); exact .inr (.inl hc)])
        · by_cases hlow : o.buy + bal < cfg.minTradable
          · exact not_absorbs ho hpb hps (.inl hlow)
          · have hd : max ((cfg.minTradable : ℚ) - o.buy) bal = bal := max_eq_right (by linarith)
            rw [hd] at hc
            exact not_absorbs ho hpb hps (by rcases hc with hc | hc <;> [exact .inr (.inr hc); exact .inr (.inl hc)])
      · rename_i hc
        have hd : max ((cfg.minTradable : ℚ) - o.buy) bal = bal := by
          rcases hcase with hpos | ⟨hneg, hmin⟩
          · exact max_eq_right (by linarith)
          · by_contra hd
            have hd' : max ((cfg.minTradable : ℚ) - o.buy) bal = (cfg.minTradable : ℚ) - o.buy := (max_choice _ _).resolve_right hd
            rw [hd'] at hc
            exact hc (.inr (by rw [add_sub_cancel]; exact hmin))
        rw [hd, sub_self, if_pos rfl] at h
        cases h
        left
        rw [imbal_cons_adjust hne ho.1 ho.2.1 (same_with _ _ _)]
        change bal + (o.buy - (o.buy + bal) + _) = 0
        ring
    · rw [roundLeafLoop_skip ho] at h
      exact skip (fun h => absurd h ho) h

/-- With too much bought and a minimum buy amount that gives a minimum sell amount, amounts are reduced to the minimum if need be. -/
theorem roundLeafLoop_reduce {cfg : Config} {leaf parent : Token} {prices : Prices} {fee : Fee} (hI : IntPrices prices)
    (hf : fee.value < 1) (hne : parent ≠ leaf) {pb ps : ℚ} (hpb : PriceOf prices leaf pb) (hps : PriceOf prices parent ps)
    (hmin : cfg.minTradable ≤ uniformSell pb ps fee (cfg.minTradable : ℚ)) :
    ∀ {l l' : List Order} {bal : ℚ}, bal < 0 → (∀ o ∈ l, Bounded cfg o ∧ OnClearingPrice prices fee o) →
    roundLeafLoop cfg leaf parent prices fee bal l = .ok l' →
    bal + (imbal l' leaf - imbal l leaf) = 0 ∨ (bal + (imbal l' leaf - imbal l leaf) < 0 ∧
      (∀ o ∈ l', OnEdge leaf parent o → o.buy = cfg.minTradable) ∧
      (∀ o ∈ l, OnEdge leaf parent o → o.buy + bal < cfg.minTradable)) := by
  intro l
  induction l with
  | nil => intro l' bal hb _ h; cases h; exact .inr ⟨by linarith, by simp, by simp⟩
  | cons o os ih =>
    intro l' bal hb hall h
    have hall' : ∀ o ∈ os, Bounded cfg o ∧ OnClearingPrice prices fee o := fun a ha => hall a (by simp [ha])
    by_cases ho : OnEdge leaf parent o
    · rw [roundLeafLoop_cons hI hf ho hpb hps] at h
      dsimp only at h
      obtain ⟨b1, b2⟩ := hI.of hpb
      obtain ⟨s1, s2⟩ := hI.of hps
      obtain ⟨f1, f2, f3⟩ := onEdge_facts ho hpb hps (hall o (by simp)).1 (hall o (by simp)).2
      set delta := max ((cfg.minTradable : ℚ) - o.buy) bal with hd
      have hd0 : delta ≤ 0 := max_le (by linarith) hb.le
      have hd1 : (cfg.minTradable : ℚ) - o.buy ≤ delta := le_max_left _ _
      have hd2 : bal ≤ delta := le_max_right _ _
      rw [if_neg] at h
      · split at h
        · rename_i hz
          cases h
          left
          rw [imbal_cons_adjust hne ho.1 ho.2.1 (same_with _ _ _)]
          change bal + (o.buy - (o.buy + delta) + _) = 0
          linarith
        · rename_i hz
          obtain ⟨os', e, h⟩ := bind_eq_ok.1 h
          cases h
          have hdm : delta = (cfg.minTradable : ℚ) - o.buy := by
            rcases max_choice ((cfg.minTradable : ℚ) - o.buy) bal with h | h
            · rw [hd]; exact h
            · exact absurd (by rw [hd, h]; ring) hz
          have hb' : bal - delta < 0 := lt_of_le_of_ne (by linarith) hz
          rw [imbal_cons_adjust hne ho.1 ho.2.1 (same_with _ _ _)]
          change bal + (o.buy - (o.buy + delta) + _) = 0 ∨ (bal + (o.buy - (o.buy + delta) + _) < 0 ∧ _)
          rcases ih hb' hall' e with i | ⟨i1, i2, i3⟩
          · left; linarith
          · right
            refine ⟨by linarith, fun a ha => ?_, fun a ha => ?_⟩
            · rcases List.mem_cons.1 ha with rfl | ha
              · intro _
                change o.buy + delta = _
                rw [hdm]; ring
              · exact i2 a ha
            · rcases List.mem_cons.1 ha with rfl | ha
              · intro _; linarith
              · intro hae; have := i3 a ha hae; linarith
      · simp only [not_or, not_lt]
        constructor
        · have := uniformSell_mono (fee := fee) s1 s2 b1 hf (a := o.buy + delta) (b := o.buy) (by linarith)
          have : (uniformSell pb ps fee (o.buy + delta) : ℚ) ≤ uniformSell pb ps fee o.buy := by exact_mod_cast this
          exact this.trans f3
        · exact hmin.trans (uniformSell_mono s1 s2 b1 hf (by linarith))
    · rw [roundLeafLoop_skip ho] at h
      obtain ⟨os', e, h⟩ := bind_eq_ok.1 h
      cases h
      rw [imbal_cons_same]
      rcases ih hb hall' e with i | ⟨i1, i2, i3⟩
      · exact .inl i
      · refine .inr ⟨i1, fun a ha => ?_, fun a ha => ?_⟩
        all_goals
          rcases List.mem_cons.1 ha with rfl | ha
          · exact fun h => absurd h ho
        · exact i2 a ha
        · exact i3 a ha

/-- The loop leaves an imbalance only if no order could have taken it, neither at the start nor at the end. -/
theorem roundLeafLoop_room {cfg : Config} {leaf parent : Token} {prices : Prices} {fee : Fee} (hI : IntPrices prices)
    (hf : fee.value < 1) (hne : parent ≠ leaf) {bal : ℚ} (hb : bal ≠ 0) {l l' : List Order}
    (hall : ∀ o ∈ l, Bounded cfg o ∧ OnClearingPrice prices fee o) (h : roundLeafLoop cfg leaf parent prices fee bal l = .ok l') :
    bal + (imbal l' leaf - imbal l leaf) = 0 ∨
      ((∀ o ∈ l', OnEdge leaf parent o → ¬ Absorbs cfg prices fee (bal + (imbal l' leaf - imbal l leaf)) o) ∧
       ∀ o ∈ l, OnEdge leaf parent o → ¬ Absorbs cfg prices fee bal o) := by
  by_cases hex : ∃ o ∈ l, OnEdge leaf parent o
  · obtain ⟨o, ho, hedge⟩ := hex
    obtain ⟨pb, ps, hpb, hps, _⟩ := (hall o ho).2
    rw [hedge.1] at hpb
    rw [hedge.2.1] at hps
    have whole : (0 < bal ∨ (bal < 0 ∧ uniformSell pb ps fee (cfg.minTradable : ℚ) < cfg.minTradable)) →
        bal + (imbal l' leaf - imbal l leaf) = 0 ∨
      ((∀ o ∈ l', OnEdge leaf parent o → ¬ Absorbs cfg prices fee (bal + (imbal l' leaf - imbal l leaf)) o) ∧
       ∀ o ∈ l, OnEdge leaf parent o → ¬ Absorbs cfg prices fee bal o) := by
      intro hcase
      rcases roundLeafLoop_whole hI hf hne hpb hps hcase hall h with h | ⟨rfl, h⟩
      · exact .inl h
      · rw [sub_self, add_zero]
        exact .inr ⟨h, h⟩
    rcases lt_or_gt_of_ne hb with hneg | hpos
    · by_cases hmin : uniformSell pb ps fee (cfg.minTradable : ℚ) < cfg.minTradable
      · exact whole (.inr ⟨hneg, hmin⟩)
      · rcases roundLeafLoop_reduce hI hf hne hpb hps (not_lt.1 hmin) hneg hall h with h | ⟨h1, h2, h3⟩
        · exact .inl h
        · refine .inr ⟨fun a ha hae => not_absorbs hae hpb hps (.inl ?_), fun a ha hae => not_absorbs hae hpb hps (.inl (h3 a ha hae))⟩
          rw [h2 a ha hae]; linarith
    · exact whole (.inl hpos)
  · push Not at hex
    right
    have : ∀ {l l' : List Order}, (∀ o ∈ l, ¬ OnEdge leaf parent o) → roundLeafLoop cfg leaf parent prices fee bal l = .ok l' → l' = l := by
      intro l
      induction l with
      | nil => intro l' _ h; cases h; rfl
      | cons o os ih =>
        intro l' hno h
        rw [roundLeafLoop_skip (hno o (by simp))] at h
        obtain ⟨os', e, h⟩ := bind_eq_ok.1 h
        cases h
        rw [ih (fun a ha => hno a (by simp [ha])) e]
    rw [this hex h]
    exact ⟨fun a ha hae => absurd hae (hex a ha), fun a ha hae => absurd hae (hex a ha)⟩

/-- The same for the step of the main loop. -/
theorem roundLeafIfNeeded_room {cfg : Config} {leaf parent : Token} {prices : Prices} {fee : Fee} (hI : IntPrices prices)
    (hf : fee.value < 1) (hne : parent ≠ leaf) {orders res : List Order} {bal : ℚ} (hinv : RoundInv prices fee orders)
    (hb : ∀ o ∈ orders, Bounded cfg o) (hbal : bal = imbal orders leaf)
    (h : roundLeafIfNeeded cfg leaf parent orders bal prices fee = .ok res) :
    imbal res leaf = 0 ∨ ((∀ o ∈ res, OnEdge leaf parent o → ¬ Absorbs cfg prices fee (imbal res leaf) o) ∧
      ∀ o ∈ orders, OnEdge leaf parent o → ¬ Absorbs cfg prices fee (imbal orders leaf) o) := by
  have hbi := hinv.isInt_imbal leaf
  subst hbal
  unfold roundLeafIfNeeded at h
  split at h
  · rename_i hnz
    unfold roundLeafToken at h
    obtain ⟨l', e, h⟩ := bind_eq_ok.1 h
    cases h
    have hperm := pySortByRev_perm (fun o : Order => o.buy) orders
    obtain ⟨l2, e2, hstep⟩ := roundLeafLoop_spec (cfg := cfg) (leaf := leaf) (parent := parent) hI hf hbi
      (l := pySortByRev (fun o : Order => o.buy) orders)
      (fun o h => ⟨hinv.priced o (hperm.mem_iff.1 h), hinv.int o (hperm.mem_iff.1 h)⟩)
    rw [e] at e2
    cases e2
    have hids := forall₂_map_id (fun _ _ h => LeafStep.id h) hstep
    have hp2 : (writeBack orders l').Perm l' := by
      refine (writeBack_perm hperm.symm l').trans ?_
      rw [writeBack_self ((hperm.map _).nodup_iff.2 hinv.ids) hids]
    have hroom := roundLeafLoop_room hI hf hne hnz
      (fun o h => ⟨hb o (hperm.mem_iff.1 h), hinv.price o (hperm.mem_iff.1 h)⟩) e
    rw [imbal_perm hp2, show imbal orders leaf + (imbal l' leaf - imbal (pySortByRev (fun o => o.buy) orders) leaf) = imbal l' leaf by
      rw [imbal_perm hperm]; ring] at *
    rcases hroom with h | ⟨h1, h2⟩
    · exact .inl h
    · exact .inr ⟨fun o ho => h1 o (hp2.mem_iff.1 ho), fun o ho => h2 o (hperm.mem_iff.2 ho)⟩
  · rename_i hz
    rw [not_not] at hz
    cases h
    exact .inl hz

theorem Bounded.leafStep {cfg : Config} {prices : Prices} {fee : Fee} {leaf parent : Token} {l l' : List Order}
    (hb : ∀ o ∈ l, Bounded cfg o) (hs : List.Forall₂ (LeafStep cfg prices fee leaf parent) l l') : ∀ o ∈ l', Bounded cfg o := by
  intro o' ho'
  obtain ⟨o, ho, hs⟩ := forall₂_mem_right hs o' ho'
  rcases hs with rfl | hs
  · exact hb o' ho
  · intro _
    have : o'.maxSell = o.maxSell := by rw [hs.same]
    exact ⟨hs.minBuy, hs.minSell, by rw [this]; exact hs.maxSell⟩

/-- The main loop gives up only at a token none of whose orders towards the parent could take the imbalance. -/
theorem roundLoop_room {cfg : Config} {prices : Prices} {fee : Fee} (hI : IntPrices prices) (hf : fee.value < 1) :
    ∀ {fuel : ℕ} {tree : Dict Token Token} {balances : Dict Token ℚ} {orders res : List Order},
    (∀ p ∈ tree, p.2 ≠ p.1) → RoundInv prices fee orders → (∀ o ∈ orders, Bounded cfg o) →
    (∀ t v, dictGet? balances t = some v → v = imbal orders t) →
    roundLoop cfg prices fee fuel tree balances orders = .ok (false, res) →
    ∃ p ∈ tree, imbal res p.1 ≠ 0 ∧ ∀ o ∈ res, OnEdge p.1 p.2 o → ¬ Absorbs cfg prices fee (imbal res p.1) o := by
  intro fuel
  induction fuel with
  | zero => intro _ _ _ _ _ _ _ _ h; cases h
  | succ fuel ih =>
    intro tree balances orders res htree hinv hb hbal h
    unfold roundLoop at h
    split at h
    · cases h
    · simp only [bind_eq_ok] at h
      obtain ⟨leaf, hleaf, parent, hpar, bal, hb1, h⟩ := h
      have hpm : (leaf, parent) ∈ tree := dictGet?_mem (dictGet_eq_ok.1 hpar)
      have hbal1 := hbal _ _ (dictGet_eq_ok.1 hb1)
      obtain ⟨os, e1, hstep⟩ := roundStep_orders (cfg := cfg) (leaf := leaf) (parent := parent) (bal := bal) hI hf hinv
        (by rw [hbal1]; exact hinv.isInt_imbal leaf)
      obtain ⟨os', e2, h⟩ := h
      have hroom := roundLeafIfNeeded_room hI hf (htree _ hpm) hinv hb hbal1 e2
      rw [e1] at e2
      cases e2
      have hinv2 := hinv.leafStep hstep
      obtain ⟨d, e3, k3, hv⟩ := hinv2.balances
      obtain ⟨d', e4, bal2, hb2, h⟩ := h
      rw [e3] at e4
      cases e4
      have hbal2 := hv _ _ (dictGet_eq_ok.1 hb2)
      split at h
      · rename_i hnz
        cases h
        rw [hbal2] at hnz
        exact ⟨_, hpm, hnz, (hroom.resolve_left hnz).1⟩
      · obtain ⟨p, hp, h1, h2⟩ := ih (fun p hp => htree p (List.mem_of_mem_filter hp)) hinv2 (Bounded.leafStep hb hstep) hv h
        exact ⟨p, List.mem_of_mem_filter hp, h1, h2⟩

end Dex
