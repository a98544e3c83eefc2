import Verif.Proof.Match

/-! # Results of the matching functions -/

namespace Dex

open Spec

/-- What is known about a non-trivial solution of the matching step. -/
structure GoodSolution (cfg : Config) (fee : Fee) (pool : List Order) (sol : Solution) : Prop where
  keys : (sol.prices.map (·.1)).Nodup
  intPrices : IntPrices sol.prices
  feePriced : ∃ p ∈ sol.prices, p.1 = fee.token
  priced : ∀ o ∈ sol.orders, Priced sol.prices o
  ids : (sol.orders.map (·.id)).Nodup
  der : ∀ o ∈ sol.orders, Der pool o
  onPrice : ∀ o ∈ sol.orders, OnClearingPrice sol.prices fee o
  amounts : ∀ o ∈ sol.orders, IsInt o.buy ∧ 0 ≤ o.buy ∧ IsInt o.sell ∧ 0 ≤ o.sell
  constraints : ∀ o ∈ sol.orders, OrderConstraints cfg o
  balanced : ∀ t, t ≠ fee.token → sold sol.orders t = bought sol.orders t
  feeToken : 1 ≤ fee.value * cfg.minTradable → bought sol.orders fee.token ≤ sold sol.orders fee.token
  count : (nrExecuted sol.orders : ℤ) ≤ cfg.maxNrExec
  sellDet : ∀ o ∈ sol.orders, ∀ o' ∈ sol.orders, o.sellToken = o'.sellToken → o.buyToken = o'.buyToken
  exec : ∀ o ∈ sol.orders, 0 < o.buy ↔ 0 < o.sell
  feePrice : PriceOf sol.prices fee.token cfg.feeTokenPrice

theorem agg_keys_nodup (t u w : Token) (a b c : ℚ) : (dictKeys (dictSet (dictSet [(t, a)] u b) w c)).Nodup :=
  nodup_dictSet (nodup_dictSet (show (dictKeys [(t, a)]).Nodup by simp [dictKeys]) _ _) _ _

theorem nodup_ids_append {pool a b : List Order} (hp : Pool pool) (ha : ∀ o ∈ a, Der pool o) (hb : ∀ o ∈ b, Der pool o)
    (h1 : (a.map (·.id)).Nodup) (h2 : (b.map (·.id)).Nodup) (hd : ∀ o ∈ a, ∀ o' ∈ b, ¬ (o.buyToken = o'.buyToken ∧ o.sellToken = o'.sellToken)) :
    ((a ++ b).map (·.id)).Nodup := by
  rw [List.map_append, List.nodup_append]
  refine ⟨h1, h2, ?_⟩
  intro i hi j hj hij
  obtain ⟨o, ho, rfl⟩ := List.mem_map.1 hi
  obtain ⟨o', ho', rfl⟩ := List.mem_map.1 hj
  have := (ha o ho).eq_of_id hp (hb o' ho') hij
  unfold SameButExec at this
  exact hd o ho o' ho' (by rw [this]; exact ⟨rfl, rfl⟩)

theorem exactFeasible_of {cfg : Config} {prices : Prices} {fee : Fee} {o : Order} {x pb ps : ℚ} (hm : 0 ≤ o.maxSell)
    (h : ExactAt cfg x fee o) (hb : PriceOf prices o.buyToken pb) (hs : PriceOf prices o.sellToken ps) (hx : pb / ps = x) :
    ExactFeasible cfg prices fee o := by
  have key : ∀ {a b : ℚ}, PriceOf prices o.buyToken a → PriceOf prices o.sellToken b → a / b = x := by
    intro a b h1 h2
    rw [priceOf_unique h1 hb, priceOf_unique h2 hs, hx]
  refine ⟨h.nonneg, ?_, ?_, h.minBuy, ?_⟩
  · intro a b h1 h2
    unfold exactSell
    rw [key h1 h2]
    rcases h.nonneg.eq_or_lt with h0 | h0
    · rw [← h0]; simpa using hm
    · exact h.maxSell h0
  · intro a b h1 h2 h0
    rw [key h1 h2]; exact h.limit h0
  · intro a b h1 h2 h0
    unfold exactSell
    rw [key h1 h2]; exact h.minSell h0

/-- Aggregation and rounding of an exact matching. -/
theorem aggregateAndRound_spec {cfg : Config} {ext : Ext} {pair : Token × Token} {bk : Books} {x p : ℚ} {fee : Fee} {pool : List Order}
    {sol : Solution} {os : List Order} (hp : Pool pool) (hc : CfgOk cfg) (hfee : fee.value < 1) (hb : BookOf pool pair fee bk)
    (hne : pair.1 ≠ pair.2) (hF2 : pair.2 ≠ fee.token) (hbr : ∀ E, MaxBranching E (ext.branch E)) (hg : GoodMatch cfg fee pair bk x p)
    (hr : aggregateAndRound cfg ext pair bk x p fee = .ok (sol, os)) :
    List.Forall₂ SameButExec (bk.b ++ bk.s ++ bk.f) os ∧ (sol = .trivial ∨ GoodSolution cfg fee pool sol) := by
  obtain ⟨B, S⟩ := pair
  have hBS : B ≠ S := hne
  have hSF : S ≠ fee.token := hF2
  unfold aggregateAndRound aggregateOrdersPrices at hr
  simp only [pyDiv_of_ne hg.ratePos.ne', ok_bind, pure_eq_ok] at hr
  generalize hpr : dictSet (dictSet [(fee.token, (cfg.feeTokenPrice : ℚ))] B p) S (p / x) = prices at hr
  generalize hos : bk.b ++ bk.s ++ bk.f = orders at hr ⊢
  have hP : (0 : ℚ) < cfg.feeTokenPrice := by exact_mod_cast hc.feePrice
  obtain ⟨k, hk1, hk⟩ := hg.price
  obtain ⟨q, hq1, hq⟩ := hg.sPrice
  have hp0 : 0 < p := by rw [hk]; exact_mod_cast hk1
  have hq0 : (0 : ℚ) < q := by exact_mod_cast hq1
  have hpx : p / x = q := by rw [hq]; field_simp
  have gF : dictGet? prices fee.token = some (cfg.feeTokenPrice : ℚ) := by
    rw [← hpr, dictGet?_dictSet, if_neg hSF, dictGet?_dictSet]
    rcases hg.feeCase with ⟨h1, _, h2⟩ | ⟨h1, _⟩
    · rw [if_pos h1, h2]
    · have h1 : B ≠ fee.token := h1
      rw [if_neg h1]; simp [dictGet?_cons]
  have gB : dictGet? prices B = some p := by
    rw [← hpr, dictGet?_dictSet, if_neg hBS.symm, dictGet?_dictSet, if_pos rfl]
  have gS : dictGet? prices S = some (q : ℚ) := by
    rw [← hpr, dictGet?_dictSet, if_pos rfl, hpx]
  have hkeys : (prices.map (·.1)).Nodup := by
    rw [← hpr]; exact agg_keys_nodup _ _ _ _ _ _
  have hkmem : ∀ t ∈ dictKeys prices, t = fee.token ∨ t = B ∨ t = S := by
    intro t ht
    rw [← dictGet?_isSome, ← hpr] at ht
    obtain ⟨v, hv⟩ := ht
    rw [dictGet?_dictSet] at hv
    split at hv
    · exact .inr (.inr (by rename_i h; exact h.symm))
    · rw [dictGet?_dictSet] at hv
      split at hv
      · exact .inr (.inl (by rename_i h; exact h.symm))
      · rw [dictGet?_cons] at hv
        split at hv
        · exact .inl (by rename_i h; exact h.symm)
        · simp at hv
  have hint : IntPrices prices := by
    intro e he
    have h1 := dictGet?_of_mem (d := prices) hkeys (k := e.1) (v := e.2) he
    rcases hkmem e.1 (List.mem_map.2 ⟨e, he, rfl⟩) with h2 | h2 | h2 <;> rw [h2] at h1
    · rw [gF] at h1; rw [← Option.some.inj h1]; exact ⟨hP, isInt_intCast _⟩
    · rw [gB] at h1; rw [← Option.some.inj h1]; exact ⟨hp0, by rw [hk]; exact isInt_intCast _⟩
    · rw [gS] at h1; rw [← Option.some.inj h1]; exact ⟨hq0, isInt_intCast _⟩
  -- classes of the orders
  have hf0 : ∀ o ∈ bk.f, B ≠ fee.token ∧ o.buyToken = B ∧ o.sellToken = fee.token := by
    intro o ho
    rcases hg.feeCase with ⟨_, h2, _⟩ | ⟨h1, _⟩
    · rw [h2] at ho; simp at ho
    · exact ⟨h1, hb.clsF h1 o ho⟩
  have hmem : ∀ {o : Order}, o ∈ orders ↔ o ∈ bk.b ∨ o ∈ bk.s ∨ o ∈ bk.f := by
    intro o; rw [← hos]; simp
  have hder : ∀ o ∈ orders, Der pool o := by
    intro o ho
    rcases hmem.1 ho with h | h | h
    · exact hb.derB o h
    · exact hb.derS o h
    · exact hb.derF o h
  have hids : (orders.map (·.id)).Nodup := by
    rw [← hos]
    refine nodup_ids_append hp ?_ hb.derF (nodup_ids_append hp hb.derB hb.derS hb.idsB hb.idsS ?_) hb.idsF ?_
    · intro o ho
      rcases List.mem_append.1 ho with h | h
      · exact hb.derB o h
      · exact hb.derS o h
    · intro o ho o' ho' h
      have h1 : o.buyToken = B := (hb.clsB o ho).1
      have h2 : o'.buyToken = S := (hb.clsS o' ho').1
      exact hBS (by rw [← h1, h.1, h2])
    · intro o ho o' ho' h
      obtain ⟨_, h1, h2⟩ := hf0 o' ho'
      rcases List.mem_append.1 ho with h' | h'
      · have h3 : o.sellToken = S := (hb.clsB o h').2
        exact hSF (by rw [← h3, h.2, h2])
      · have h3 : o.buyToken = S := (hb.clsS o h').1
        exact hBS (by rw [← h3, h.1, h1])
  have hcls : ∀ o ∈ orders, (o.buyToken = B ∧ o.sellToken = S) ∨ (o.buyToken = S ∧ o.sellToken = B) ∨
      (o.buyToken = B ∧ o.sellToken = fee.token) := by
    intro o ho
    rcases hmem.1 ho with h | h | h
    · exact .inl (hb.clsB o h)
    · exact .inr (.inl (hb.clsS o h))
    · exact .inr (.inr (hf0 o h).2)
  have hfeas : ∀ o ∈ orders, ExactFeasible cfg prices fee o := by
    intro o ho
    have hm := ((hder o ho).ok hp).2.1
    rcases hmem.1 ho with h | h | h
    · obtain ⟨c1, c2⟩ := hb.clsB o h
      exact exactFeasible_of hm (hg.exB o h) (priceOf_iff.2 (by rw [c1]; exact gB)) (priceOf_iff.2 (by rw [c2]; exact gS)) hq.symm
    · obtain ⟨c1, c2⟩ := hb.clsS o h
      refine exactFeasible_of hm (hg.exS o h) (priceOf_iff.2 (by rw [c1]; exact gS)) (priceOf_iff.2 (by rw [c2]; exact gB)) ?_
      rw [hq, one_div_div]
    · obtain ⟨_, c1, c2⟩ := hf0 o h
      exact exactFeasible_of hm (hg.exF o h) (priceOf_iff.2 (by rw [c1]; exact gB)) (priceOf_iff.2 (by rw [c2]; exact gF)) rfl
  have hpriced : ∀ o ∈ orders, Priced prices o := by
    intro o ho
    rw [priced_iff]
    simp only [priceOf_iff]
    rcases hcls o ho with ⟨c1, c2⟩ | ⟨c1, c2⟩ | ⟨c1, c2⟩ <;> rw [c1, c2]
    · exact ⟨⟨_, gB⟩, _, gS⟩
    · exact ⟨⟨_, gS⟩, _, gB⟩
    · exact ⟨⟨_, gB⟩, _, gF⟩
  have hin : RoundInput prices fee orders := ⟨hint, hfee, hids, hpriced⟩
  rw [bind_eq_ok] at hr
  obtain ⟨⟨ok, res⟩, e1, hr⟩ := hr
  have hcfg : 1 ≤ cfg.minTradable ∧ cfg.minTradable ≤ cfg.minRationalTradable - 1 := ⟨hc.minPos, hc.slack⟩
  have hsame : List.Forall₂ SameButExec orders res := (roundSolution_sound hin e1).1.imp (fun _ _ r => r.same)
  have hres : os = res := by
    cases ok <;> · simp only [Bool.false_eq_true, if_false, if_true] at hr; cases hr; rfl
  subst hres
  refine ⟨hsame, ?_⟩
  cases ok with
  | false => left; simp only [Bool.false_eq_true, if_false] at hr; cases hr; rfl
  | true =>
    right
    simp only [if_true] at hr
    cases hr
    have hbuy : ∀ o ∈ orders, 0 ≤ o.buy := fun o ho => (hfeas o ho).nonneg
    have h23 := C23_integer_on_clearing_price hin (by omega) hbuy e1
    have h24 := C24_order_constraints hin hcfg hfeas e1
    have hbal := C25_token_pair_balanced hin hcfg hfeas hbr hBS hSF hcls
      (by
        rintro ⟨o, ho, c1, c2, hpos⟩
        have hob : o ∈ bk.b := by
          rcases hmem.1 ho with h | h | h
          · exact h
          · exact absurd (c1.symm.trans (hb.clsS o h).1) hBS
          · exact absurd (c2.symm.trans (hf0 o h).2.2) hSF
        obtain ⟨o', ho', hpos'⟩ := hg.both.1 ⟨o, hob, hpos⟩
        exact ⟨o', hmem.2 (.inr (.inl ho')), (hb.clsS o' ho').1, hpos'⟩)
      (by
        intro hBF _
        rcases hg.feeCase with ⟨h1, _⟩ | ⟨_, o, ho, hpos⟩
        · exact absurd h1 hBF
        · exact ⟨o, hmem.2 (.inr (.inr ho)), (hf0 o ho).2.2, hpos⟩) e1
    obtain ⟨h28, hcnt⟩ := C28_same_orders_executed hin hcfg hfeas e1
    have hon : ∀ o ∈ os, OnClearingPrice prices fee o := fun o ho => (h23 o ho).2.2.2.2
    have htok : ∀ o ∈ os, ∃ a ∈ orders, o.buyToken = a.buyToken ∧ o.sellToken = a.sellToken := by
      intro o ho
      obtain ⟨a, ha, h⟩ := forall₂_mem_r hsame o ho
      unfold SameButExec at h
      exact ⟨a, ha, by rw [h], by rw [h]⟩
    refine ⟨hkeys, hint, ⟨_, dictGet?_mem gF, rfl⟩, ?_, ?_, ?_, hon, fun o ho => ⟨(h23 o ho).1, (h23 o ho).2.1, (h23 o ho).2.2.1, (h23 o ho).2.2.2.1⟩,
      h24, hbal, ?_, ?_, ?_, ?_, priceOf_iff.2 gF⟩
    · intro o ho
      obtain ⟨a, ha, h1, h2⟩ := htok o ho
      have := hpriced a ha
      unfold Priced at this ⊢
      rw [h1, h2]; exact this
    · rw [ids_of_same hsame]; exact hids
    · exact der_forall₂ hder hsame
    · intro hmf
      refine C27_fees_nonneg hint hkeys hfee hmf (by have := hc.minPos; omega) hon ?_ hbal
      intro o ho
      obtain ⟨a, ha, _, h1, h2⟩ := forall₂_mem_r h28 o ho
      rcases (h24 o ho).minSell with h3 | h3
      · left
        by_contra hc
        have : 0 < o.buy := lt_of_le_of_ne (h23 o ho).2.1 (Ne.symm hc)
        have := h2.2 (h1.1 this)
        rw [h3] at this
        exact lt_irrefl _ this
      · exact .inr h3
    · show (nrExecuted os : ℤ) ≤ _
      have e2 : nrExecuted os = nrExecuted orders := hcnt
      rw [e2, nrExecuted, ← hos, ← List.countP_eq_length_filter, List.countP_append, List.countP_append]
      have := hg.count
      unfold countNrExec at this
      push_cast
      exact this
    · intro o ho o' ho' hst
      obtain ⟨a, ha, h1, h2⟩ := htok o ho
      obtain ⟨a', ha', h1', h2'⟩ := htok o' ho'
      rw [h2, h2'] at hst
      rw [h1, h1']
      have hBF : ∀ o ∈ orders, o.sellToken = fee.token → o.buyToken = B ∨ (B = fee.token) := by
        intro o ho hs
        rcases hcls o ho with ⟨c1, _⟩ | ⟨_, c2⟩ | ⟨c1, _⟩
        · exact .inl c1
        · exact .inr (c2.symm.trans hs)
        · exact .inl c1
      have hne' : ∀ o ∈ orders, o.buyToken = B → o.sellToken = fee.token → B ≠ fee.token := by
        intro o ho c1 c2
        rcases hmem.1 ho with h | h | h
        · exact absurd ((hb.clsB o h).2.symm.trans c2) hSF
        · exact absurd (c1.symm.trans (hb.clsS o h).1) hBS
        · exact (hf0 o h).1
      rcases hcls a ha with ⟨c1, c2⟩ | ⟨c1, c2⟩ | ⟨c1, c2⟩ <;> rcases hcls a' ha' with ⟨d1, d2⟩ | ⟨d1, d2⟩ | ⟨d1, d2⟩ <;>
        rw [c2, d2] at hst
      · rw [c1, d1]
      · exact absurd hst.symm hBS
      · exact absurd hst hSF
      · exact absurd hst hBS
      · rw [c1, d1]
      · exact absurd hst (hne' a' ha' d1 d2)
      · exact absurd hst.symm hSF
      · exact absurd hst.symm (hne' a ha c1 c2)
      · rw [c1, d1]
    · intro o ho
      obtain ⟨a, ha, _, h1, h2⟩ := forall₂_mem_r h28 o ho
      exact h1.trans h2.symm

end Dex
