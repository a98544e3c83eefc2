import Verif.Proof.RoundChain
import Verif.Proof.Errors

/-! # The matching step does not depend on which maximum branching is returned -/

set_option linter.unusedSimpArgs false

namespace Dex

open Spec

/-- The tree of a chain, in either order. -/
theorem tree_chain {E br : List (Token × Token)} {F B S : Token} (hBS : B ≠ S) (hBF : B ≠ F) (hSF : S ≠ F)
    (hE : ∀ e ∈ E, e = (S, B) ∨ e = (B, S) ∨ e = (F, B)) (h1 : (B, S) ∈ E) (h2 : (F, B) ∈ E) (hm : MaxBranching E br) :
    br = [(B, S), (F, B)] ∨ br = [(F, B), (B, S)] := by
  obtain ⟨c1, c2, c3⟩ := branching_chain hBS hBF hSF hE h1 h2 hm
  have hnd : br.Nodup := List.Nodup.of_map _ hm.1.inDeg
  have hp : br.Perm [(B, S), (F, B)] := by
    refine (List.perm_ext_iff_of_nodup hnd (by simp [hBF])).2 fun e => ⟨fun he => by simpa using c1 e he, fun he => ?_⟩
    simp only [List.mem_cons, List.not_mem_nil, or_false] at he
    rcases he with rfl | rfl <;> assumption
  have hlen := hp.length_eq
  match br, hlen with
  | [a, b], _ =>
    have ha := c1 a (by simp)
    have hb := c1 b (by simp)
    have hab : a ≠ b := by rintro rfl; simp at hnd
    rcases ha with rfl | rfl <;> rcases hb with rfl | rfl
    · exact absurd rfl hab
    · exact .inl rfl
    · exact .inr rfl
    · exact absurd rfl hab

/-- With one edge at most, the maximum branching is the graph. -/
theorem branching_single {E br br' : List (Token × Token)} {e : Token × Token} (hne : e.1 ≠ e.2) (hE : ∀ d ∈ E, d = e) (hm : MaxBranching E br)
    (hm' : MaxBranching E br') : br = br' := by
  have key : ∀ {l : List (Token × Token)}, MaxBranching E l → l = if e ∈ E then [e] else [] := by
    intro l hl
    have hle : l.length ≤ 1 := by
      have hnd : l.Nodup := List.Nodup.of_map _ hl.1.inDeg
      have := (hnd.subperm (l₂ := [e]) (fun d hd => by rw [hE d (hl.1.sub d hd)]; simp)).length_le
      simpa using this
    split
    · rename_i he
      have : 1 ≤ l.length := hl.2 [e] ⟨by simpa using he, by simp, fun t => if t = e.1 then 0 else 1, by simp [hne.symm]⟩
      match l, hle, this with
      | [d], _, _ => rw [hE d (hl.1.sub d (by simp))]
    · rename_i he
      refine List.eq_nil_iff_forall_not_mem.2 fun d hd => he ?_
      have := hl.1.sub d hd
      rwa [hE d this] at this
  rw [key hm, key hm']

theorem bind_congr' {α β : Type} {x : Py α} {f g : α → Py β} (h : ∀ a, x = .ok a → f a = g a) : (x >>= f) = (x >>= g) := by
  cases x with
  | error e => rfl
  | ok a => exact h a rfl

/-- The rounding loop on the two orders of the chain. -/
theorem roundLoop_swap {cfg : Config} {prices : Prices} {fee : Fee} {F B S : Token} (hBS : B ≠ S) (hBF : B ≠ F) (hSF : S ≠ F) {fuel : ℕ}
    {balances : Dict Token ℚ} {orders : List Order} :
    roundLoop cfg prices fee fuel [(S, B), (B, F)] balances orders = roundLoop cfg prices fee fuel [(B, F), (S, B)] balances orders := by
  cases fuel with
  | zero => rfl
  | succ fuel =>
    have e1 : (dictKeys [(S, B), (B, F)]).filter (fun c => decide (c ∉ [(S, B), (B, F)].map (·.2))) = [S] := by
      simp [dictKeys, hBS.symm, hSF, hBF]
    have e2 : (dictKeys [(B, F), (S, B)]).filter (fun c => decide (c ∉ [(B, F), (S, B)].map (·.2))) = [S] := by
      simp [dictKeys, hBS.symm, hSF, hBF]
    have e3 : dictGet [(S, B), (B, F)] S = dictGet [(B, F), (S, B)] S := by
      simp [dictGet, dictGet?, hBS]
    have e4 : [(S, B), (B, F)].filter (fun p => decide (p.1 ≠ S)) = [(B, F), (S, B)].filter (fun p => decide (p.1 ≠ S)) := by
      simp [hBS]
    unfold roundLoop
    rw [if_neg (by simp), if_neg (by simp)]
    dsimp only
    rw [e1, e2]
    refine bind_congr' fun leaf hl => ?_
    have : leaf = S := by
      have : pyGet [S] 0 = .ok S := rfl
      rw [this] at hl
      exact (Except.ok.inj hl).symm
    subst this
    rw [e3, e4]

/-- Rounding does not depend on the choice among maximum branchings, if the executed orders are of the three kinds of a pair, and
either all kinds of edges of the chain occur or there is one kind only. -/
theorem roundSolution_branch {cfg : Config} {br br' : List (Token × Token) → List (Token × Token)} {prices : Prices}
    {orders : List Order} {fee : Fee} {B S : Token} (h : RoundInput prices fee orders)
    (hcfg : 1 ≤ cfg.minTradable ∧ cfg.minTradable ≤ cfg.minRationalTradable - 1)
    (hfeas : ∀ o ∈ orders, ExactFeasible cfg prices fee o) (hbr : ∀ E, MaxBranching E (br E)) (hbr' : ∀ E, MaxBranching E (br' E))
    (hBS : B ≠ S) (hSF : S ≠ fee.token)
    (hcls : ∀ o ∈ orders, (o.buyToken = B ∧ o.sellToken = S) ∨ (o.buyToken = S ∧ o.sellToken = B) ∨ (o.buyToken = B ∧ o.sellToken = fee.token))
    (hboth : (∃ o ∈ orders, o.buyToken = B ∧ o.sellToken = S ∧ 0 < o.buy) ↔ ∃ o ∈ orders, o.buyToken = S ∧ 0 < o.buy)
    (hfo : B ≠ fee.token → ∃ o ∈ orders, o.sellToken = fee.token ∧ 0 < o.buy) :
    roundSolution cfg br prices orders fee = roundSolution cfg br' prices orders fee := by
  obtain ⟨os, e, hs1, hinv⟩ := firstPass h
  unfold roundSolution
  rw [e, ok_bind, ok_bind]
  refine bind_congr' fun d _ => ?_
  dsimp only
  have hsell : ∀ o' ∈ os.filter (fun o => decide (o.sell > 0)), ∃ o ∈ orders, 0 < o.buy ∧ o'.buyToken = o.buyToken ∧ o'.sellToken = o.sellToken := by
    intro o' ho'
    obtain ⟨m, hp⟩ := List.mem_filter.1 ho'
    obtain ⟨o, ho, r⟩ := forall₂_mem_r hs1 o' m
    exact ⟨o, ho, (rounded_facts h.intPrices h.feeLt hcfg (hfeas o ho) (rounded_of r (.inl rfl))).2.2.1.1 (by simpa using hp), by rw [r.1], by rw [r.1]⟩
  have hexec : ∀ o ∈ orders, 0 < o.buy → ∃ o' ∈ os.filter (fun o => decide (o.sell > 0)), o'.buyToken = o.buyToken ∧ o'.sellToken = o.sellToken := by
    intro o ho hp
    obtain ⟨o', ho', r⟩ := forall₂_mem_left hs1 o ho
    refine ⟨o', ?_, by rw [r.1], by rw [r.1]⟩
    rw [List.mem_filter, decide_eq_true_eq]
    exact ⟨ho', (rounded_facts h.intPrices h.feeLt hcfg (hfeas o ho) (rounded_of r (.inl rfl))).2.2.1.2 hp⟩
  generalize hl : os.filter (fun o => decide (o.sell > 0)) = l at hsell hexec
  have hcl : ∀ o ∈ l, (o.buyToken = B ∧ o.sellToken = S) ∨ (o.buyToken = S ∧ o.sellToken = B) ∨ (o.buyToken = B ∧ o.sellToken = fee.token) := by
    intro o' ho'
    obtain ⟨o, ho, _, e1, e2⟩ := hsell o' ho'
    rw [e1, e2]; exact hcls o ho
  unfold spanningArborescence
  by_cases hBF : B = fee.token
  · -- the only edges are from the fee token to `S`
    have : br (orderEdges l fee) = br' (orderEdges l fee) := by
      refine branching_single (e := (fee.token, S)) (Ne.symm hSF) (fun d hd => ?_) (hbr _) (hbr' _)
      obtain ⟨o, ho, hn, rfl⟩ := mem_orderEdges.1 hd
      rcases hcl o ho with ⟨g1, g2⟩ | ⟨g1, g2⟩ | ⟨g1, g2⟩
      · exact absurd (g1.trans hBF) hn
      · rw [g1, g2, hBF]
      · exact absurd (g1.trans hBF) hn
    rw [this]
  by_cases hS : ∃ o ∈ orders, o.buyToken = S ∧ 0 < o.buy
  · have hch := fun (b : List (Token × Token) → List (Token × Token)) (hb : ∀ E, MaxBranching E (b E)) =>
      tree_chain (F := fee.token) hBS hBF hSF (E := orderEdges l fee) (br := b (orderEdges l fee)) (fun e he => by
          obtain ⟨o, ho, _, rfl⟩ := mem_orderEdges.1 he
          rcases hcl o ho with ⟨g1, g2⟩ | ⟨g1, g2⟩ | ⟨g1, g2⟩ <;> rw [g1, g2] <;> simp)
        (by
          obtain ⟨o, ho, g, hp⟩ := hS
          obtain ⟨o', ho', e1, e2⟩ := hexec o ho hp
          refine mem_orderEdges.2 ⟨o', ho', by rw [e1, g]; exact hSF, ?_⟩
          rw [e1, e2, g]
          rcases hcls o ho with ⟨g1, g2⟩ | ⟨g1, g2⟩ | ⟨g1, g2⟩
          · exact absurd (g1.symm.trans g) hBS
          · rw [g2]
          · exact absurd (g1.symm.trans g) hBS)
        (by
          obtain ⟨o, ho, g, hp⟩ := hfo hBF
          obtain ⟨o', ho', e1, e2⟩ := hexec o ho hp
          have gB : o.buyToken = B := by
            rcases hcls o ho with ⟨g1, g2⟩ | ⟨g1, g2⟩ | ⟨g1, g2⟩
            · exact g1
            · exact absurd (g2.symm.trans g) hBF
            · exact g1
          exact mem_orderEdges.2 ⟨o', ho', by rw [e1, gB]; exact hBF, by rw [e1, e2, g, gB]⟩) (hb _)
    have t1 : ([(B, S), (fee.token, B)] : List (Token × Token)).foldl (fun d e => dictSet d e.2 e.1) [] = [(S, B), (B, fee.token)] := by
      simp [dictSet, hBS, hBS.symm]
    have t2 : ([(fee.token, B), (B, S)] : List (Token × Token)).foldl (fun d e => dictSet d e.2 e.1) [] = [(B, fee.token), (S, B)] := by
      simp [dictSet, hBS, hBS.symm]
    rcases hch br hbr with h1 | h1 <;> rcases hch br' hbr' with h2 | h2 <;> rw [h1, h2]
    · rw [t1, t2]; exact roundLoop_swap hBS hBF hSF
    · rw [t1, t2]; exact (roundLoop_swap hBS hBF hSF).symm
  · have : br (orderEdges l fee) = br' (orderEdges l fee) := by
      refine branching_single (e := (fee.token, B)) (Ne.symm hBF) (fun d hd => ?_) (hbr _) (hbr' _)
      obtain ⟨o', ho', hn, rfl⟩ := mem_orderEdges.1 hd
      obtain ⟨o, ho, hp, e1, e2⟩ := hsell o' ho'
      rw [e1, e2]
      rcases hcls o ho with ⟨g1, g2⟩ | ⟨g1, g2⟩ | ⟨g1, g2⟩
      · exact absurd (hboth.1 ⟨o, ho, g1, g2, hp⟩) hS
      · exact absurd ⟨o, ho, g1, hp⟩ hS
      · rw [g1, g2]
    rw [this]

/-- Aggregation and rounding of an exact matching. -/
theorem aggregateAndRound_branch {cfg : Config} {ext ext' : Ext} {pair : Token × Token} {bk : Books} {x p : ℚ} {fee : Fee} {pool : List Order}
    (hp : Pool pool) (hc : CfgOk cfg) (hfee : fee.value < 1) (hb : BookOf pool pair fee bk)
    (hne : pair.1 ≠ pair.2) (hF2 : pair.2 ≠ fee.token) (hbr : ∀ E, MaxBranching E (ext.branch E)) (hbr' : ∀ E, MaxBranching E (ext'.branch E))
    (hg : GoodMatch cfg fee pair bk x p) :
    aggregateAndRound cfg ext pair bk x p fee = aggregateAndRound cfg ext' pair bk x p fee := by
  obtain ⟨B, S⟩ := pair
  have hBS : B ≠ S := hne
  have hSF : S ≠ fee.token := hF2
  unfold aggregateAndRound aggregateOrdersPrices
  simp only [pyDiv_of_ne hg.ratePos.ne', ok_bind, pure_eq_ok]
  generalize hpr : dictSet (dictSet [(fee.token, (cfg.feeTokenPrice : ℚ))] B p) S (p / x) = prices
  generalize hos : bk.b ++ bk.s ++ bk.f = orders
  have hP : (0 : ℚ) < cfg.feeTokenPrice := by exact_mod_cast hc.feePrice
  obtain ⟨k, hk1, hk⟩ := hg.price
  obtain ⟨q, hq1, hq⟩ := hg.sPrice
  have hp0 : 0 < p := by rw [hk]; exact_mod_cast hk1
  have hq0 : (0 : ℚ) < q := by exact_mod_cast hq1
  have hpx : p / x = q := by rw [hq]; field_simp
  have gF : dictGet? prices fee.token = some (cfg.feeTokenPrice : ℚ) := by
    rw [← hpr, dictGet?_dictSet, if_neg hSF, dictGet?_dictSet]
    rcases hg.feeCase with ⟨h1, _, h2⟩ | ⟨h1, _⟩
    · rw [if_pos h1, h2]
    · have h1 : B ≠ fee.token := h1
      rw [if_neg h1]; simp [dictGet?_cons]
  have gB : dictGet? prices B = some p := by
    rw [← hpr, dictGet?_dictSet, if_neg hBS.symm, dictGet?_dictSet, if_pos rfl]
  have gS : dictGet? prices S = some (q : ℚ) := by
    rw [← hpr, dictGet?_dictSet, if_pos rfl, hpx]
  have hkeys : (prices.map (·.1)).Nodup := by
    rw [← hpr]; exact agg_keys_nodup _ _ _ _ _ _
  have hkmem : ∀ t ∈ dictKeys prices, t = fee.token ∨ t = B ∨ t = S := by
    intro t ht
    rw [← dictGet?_isSome, ← hpr] at ht
    obtain ⟨v, hv⟩ := ht
    rw [dictGet?_dictSet] at hv
    split at hv
    · exact .inr (.inr (by rename_i h; exact h.symm))
    · rw [dictGet?_dictSet] at hv
      split at hv
      · exact .inr (.inl (by rename_i h; exact h.symm))
      · rw [dictGet?_cons] at hv
        split at hv
        · exact .inl (by rename_i h; exact h.symm)
        · simp at hv
  have hint : IntPrices prices := by
    intro e he
    have h1 := dictGet?_of_mem (d := prices) hkeys (k := e.1) (v := e.2) he
    rcases hkmem e.1 (List.mem_map.2 ⟨e, he, rfl⟩) with h2 | h2 | h2 <;> rw [h2] at h1
    · rw [gF] at h1; rw [← Option.some.inj h1]; exact ⟨hP, isInt_intCast _⟩
    · rw [gB] at h1; rw [← Option.some.inj h1]; exact ⟨hp0, by rw [hk]; exact isInt_intCast _⟩
    · rw [gS] at h1; rw [← Option.some.inj h1]; exact ⟨hq0, isInt_intCast _⟩
  -- classes of the orders
  have hf0 : ∀ o ∈ bk.f, B ≠ fee.token ∧ o.buyToken = B ∧ o.sellToken = fee.token := by
    intro o ho
    rcases hg.feeCase with ⟨_, h2, _⟩ | ⟨h1, _⟩
    · rw [h2] at ho; simp at ho
    · exact ⟨h1, hb.clsF h1 o ho⟩
  have hmem : ∀ {o : Order}, o ∈ orders ↔ o ∈ bk.b ∨ o ∈ bk.s ∨ o ∈ bk.f := by
    intro o; rw [← hos]; simp
  have hder : ∀ o ∈ orders, Der pool o := by
    intro o ho
    rcases hmem.1 ho with h | h | h
    · exact hb.derB o h
    · exact hb.derS o h
    · exact hb.derF o h
  have hids : (orders.map (·.id)).Nodup := by
    rw [← hos]
    refine nodup_ids_append hp ?_ hb.derF (nodup_ids_append hp hb.derB hb.derS hb.idsB hb.idsS ?_) hb.idsF ?_
    · intro o ho
      rcases List.mem_append.1 ho with h | h
      · exact hb.derB o h
      · exact hb.derS o h
    · intro o ho o' ho' h
      have h1 : o.buyToken = B := (hb.clsB o ho).1
      have h2 : o'.buyToken = S := (hb.clsS o' ho').1
      exact hBS (by rw [← h1, h.1, h2])
    · intro o ho o' ho' h
      obtain ⟨_, h1, h2⟩ := hf0 o' ho'
      rcases List.mem_append.1 ho with h' | h'
      · have h3 : o.sellToken = S := (hb.clsB o h').2
        exact hSF (by rw [← h3, h.2, h2])
      · have h3 : o.buyToken = S := (hb.clsS o h').1
        exact hBS (by rw [← h3, h.1, h1])
  have hcls : ∀ o ∈ orders, (o.buyToken = B ∧ o.sellToken = S) ∨ (o.buyToken = S ∧ o.sellToken = B) ∨
      (o.buyToken = B ∧ o.sellToken = fee.token) := by
    intro o ho
    rcases hmem.1 ho with h | h | h
    · exact .inl (hb.clsB o h)
    · exact .inr (.inl (hb.clsS o h))
    · exact .inr (.inr (hf0 o h).2)
  have hfeas : ∀ o ∈ orders, ExactFeasible cfg prices fee o := by
    intro o ho
    have hm := ((hder o ho).ok hp).2.1
    rcases hmem.1 ho with h | h | h
    · obtain ⟨c1, c2⟩ := hb.clsB o h
      exact exactFeasible_of hm (hg.exB o h) (priceOf_iff.2 (by rw [c1]; exact gB)) (priceOf_iff.2 (by rw [c2]; exact gS)) hq.symm
    · obtain ⟨c1, c2⟩ := hb.clsS o h
      refine exactFeasible_of hm (hg.exS o h) (priceOf_iff.2 (by rw [c1]; exact gS)) (priceOf_iff.2 (by rw [c2]; exact gB)) ?_
      rw [hq, one_div_div]
    · obtain ⟨_, c1, c2⟩ := hf0 o h
      exact exactFeasible_of hm (hg.exF o h) (priceOf_iff.2 (by rw [c1]; exact gB)) (priceOf_iff.2 (by rw [c2]; exact gF)) rfl
  have hpriced : ∀ o ∈ orders, Priced prices o := by
    intro o ho
    rw [priced_iff]
    simp only [priceOf_iff]
    rcases hcls o ho with ⟨c1, c2⟩ | ⟨c1, c2⟩ | ⟨c1, c2⟩ <;> rw [c1, c2]
    · exact ⟨⟨_, gB⟩, _, gS⟩
    · exact ⟨⟨_, gS⟩, _, gB⟩
    · exact ⟨⟨_, gB⟩, _, gF⟩
  have hin : RoundInput prices fee orders := ⟨hint, hfee, hids, hpriced⟩
  have hcfg : 1 ≤ cfg.minTradable ∧ cfg.minTradable ≤ cfg.minRationalTradable - 1 := ⟨hc.minPos, hc.slack⟩
  rw [roundSolution_branch hin hcfg hfeas hbr hbr' hBS hSF hcls ?_ ?_]
  · constructor
    · rintro ⟨o, ho, c1, c2, hpos⟩
      have hob : o ∈ bk.b := by
        rcases hmem.1 ho with h | h | h
        · exact h
        · exact absurd (c1.symm.trans (hb.clsS o h).1) hBS
        · exact absurd (c2.symm.trans (hf0 o h).2.2) hSF
      obtain ⟨o', ho', hpos'⟩ := hg.both.1 ⟨o, hob, hpos⟩
      exact ⟨o', hmem.2 (.inr (.inl ho')), (hb.clsS o' ho').1, hpos'⟩
    · rintro ⟨o, ho, c1, hpos⟩
      have hob : o ∈ bk.s := by
        rcases hmem.1 ho with h | h | h
        · exact absurd ((hb.clsB o h).1.symm.trans c1) hBS
        · exact h
        · exact absurd ((hf0 o h).2.1.symm.trans c1) hBS
      obtain ⟨o', ho', hpos'⟩ := hg.both.2 ⟨o, hob, hpos⟩
      exact ⟨o', hmem.2 (.inl ho'), (hb.clsB o' ho').1, (hb.clsB o' ho').2, hpos'⟩
  · intro hBF
    rcases hg.feeCase with ⟨h1, _⟩ | ⟨_, o, ho, hpos⟩
    · exact absurd h1 hBF
    · exact ⟨o, hmem.2 (.inr (.inr ho)), (hf0 o ho).2.2, hpos⟩

/-! ### The matching step -/

theorem solveOriented_branch {cfg : Config} {ext : Ext} {br : List (Token × Token) → List (Token × Token)} {pair : Token × Token} {b s f : List Order}
    {fee : Fee} {xrate : Option ℚ}
    {pool : List Order} (hp : Pool pool) (hc : CfgOk cfg) (hfee : fee.value < 1)
    (hb : BookOf pool pair fee { b, s, f }) (hne : pair.1 ≠ pair.2) (hF2 : pair.2 ≠ fee.token) (hbr : ∀ E, MaxBranching E (ext.branch E))
    (hbr' : ∀ E, MaxBranching E (br E))
    (hx : ∀ y, xrate = some y → 0 < y) (hbn : b ≠ []) (hsn : s ≠ []) :
    solveOriented cfg ext pair b s f fee xrate = solveOriented cfg { ext with branch := br } pair b s f fee xrate := by
  have hsearch : SearchInput cfg fee b s := hb.search hp hc hfee
  unfold solveOriented
  refine bind_congr' fun r h1 => ?_
  obtain ⟨xo, b1, s1⟩ := r
  have hsame : BooksSame { b, s, f } { b := b1, s := s1, f } := by
    rcases solveTokenPair_spec hsearch hc.limit hx (fun q hq => by cases hq) h1 with ⟨_, rfl, rfl, _⟩ | ⟨_, _, _, _, _, _, _, _, _, _, hex⟩
    · exact BooksSame.refl _
    · exact ⟨forall₂_exec_of_buy hex.sameB, forall₂_exec_of_buy hex.sameS, forall₂_same_refl _⟩
  have hb1 := hb.same hsame
  dsimp only
  by_cases h0 : countNrExec b1 = 0
  · rw [if_pos h0, if_pos h0]
  rw [if_neg h0, if_neg h0]
  obtain ⟨x, x0, e0, hy, _, _, _, _, hpr, _, hex⟩ := (solveTokenPair_spec hsearch hc.limit hx (fun q hq => by cases hq) h1).resolve_left
    (by
      rintro ⟨_, _, _, h | h⟩
      · exact hbn h
      · exact hsn h)
  subst e0
  dsimp only
  by_cases hF : pair.1 = fee.token
  · rw [if_pos hF, if_pos hF]
    obtain ⟨q, _, hq1, _, hq⟩ := hpr cfg.feeTokenPrice (by unfold effPrice; rw [if_pos hF])
    have hbA : BookOf pool pair fee { b := b1, s := s1, f := [] } :=
      ⟨hb1.derB, hb1.derS, by simp, hb1.idsB, hb1.idsS, by simp, hb1.clsB, hb1.clsS, by simp⟩
    have hgood : GoodMatch cfg fee pair { b := b1, s := s1, f := [] } x cfg.feeTokenPrice := by
      refine ⟨hy, ⟨cfg.feeTokenPrice, hc.feePrice, rfl⟩, ⟨q, hq1, hq⟩, hex.exB, hex.exS, by simp, ?_, hex.both, .inl ⟨hF, rfl, rfl⟩⟩
      have := hex.count
      simpa [countNrExec] using this
    rw [aggregateAndRound_branch hp hc hfee hbA hne hF2 hbr (ext' := { ext with branch := br }) hbr' hgood]
  rw [if_neg hF, if_neg hF]
  by_cases hf0 : f.length = 0
  · rw [if_pos hf0, if_pos hf0]
  rw [if_neg hf0, if_neg hf0]
  refine bind_congr' fun imb _ => ?_
  have hcnt : nrFOrders cfg b1 s1 f = .ok (max (min (cfg.maxNrExec - countNrExec b1 - countNrExec s1 + 1) (min (f.length : ℤ) (cfg.maxNrExec - 2))) 1,
      min (f.length : ℤ) (cfg.maxNrExec - 2)) := by
    unfold nrFOrders
    dsimp only
    rw [pyAssert_of hex.count]; rfl
  rw [hcnt, ok_bind, ok_bind]
  generalize hmx : min (f.length : ℤ) (cfg.maxNrExec - 2) = mx
  generalize hmn : max (min (cfg.maxNrExec - countNrExec b1 - countNrExec s1 + 1) mx) 1 = mn
  dsimp only
  split
  · rfl
  have hperm := sortedByExecPriority_perm f
  have hbS : BookOf pool pair fee { b := b1, s := s1, f := sortedByExecPriority f } :=
    ⟨hb1.derB, hb1.derS, fun o ho => hb1.derF o (hperm.mem_iff.1 ho), hb1.idsB, hb1.idsS, (hperm.map _).nodup_iff.2 hb1.idsF, hb1.clsB,
      hb1.clsS, fun h o ho => hb1.clsF h o (hperm.mem_iff.1 ho)⟩
  have hbn : b1 ≠ [] := by rintro rfl; exact h0 rfl
  have hsn : s1 ≠ [] := by
    obtain ⟨o, ho, hpos⟩ := exists_of_countNrExec h0
    obtain ⟨o', ho', _⟩ := hex.both.1 ⟨o, ho, hpos⟩
    rintro rfl; simp at ho'
  have hfn : sortedByExecPriority f ≠ [] := by
    intro h; rw [h] at hperm; rw [← hperm.length_eq] at hf0; simp at hf0
  have hns : ∀ n ∈ (List.range (mx + 1 - mn).toNat).map (· + mn.toNat), 1 ≤ n ∧ (n : ℤ) ≤ cfg.maxNrExec := by
    intro n hn
    obtain ⟨i, hi, rfl⟩ := List.mem_map.1 hn
    rw [List.mem_range] at hi
    omega
  refine bind_congr' fun st h3 => ?_
  obtain ⟨l1, l2⟩ := fOrdersLoop_spec hp hc hfee hne hF hF2 hy (bk0 := { b := b1, s := s1, f := sortedByExecPriority f }) hbS hbn hsn hfn
    hns (BooksSame.refl _) (by intro g hg; cases hg) h3
  cases hbest : st.best with
  | none => rfl
  | some best =>
    dsimp only
    obtain ⟨g1, g2⟩ := l2 best hbest
    cases hbp : best.bPrice with
    | none => rfl
    | some p =>
      dsimp only
      rw [aggregateAndRound_branch hp hc hfee (hbS.same g1) hne hF2 hbr (ext' := { ext with branch := br }) hbr' (g2 p hbp)]

theorem solveTokenPairAndFee_branch {cfg : Config} {ext : Ext} {br : List (Token × Token) → List (Token × Token)} {pair : Token × Token}
    {b s f : List Order} {fee : Fee} {xrate : Option ℚ}
    {pool : List Order} (hp : Pool pool) (hc : CfgOk cfg) (hfee : fee.value < 1)
    (hb : BookOf pool pair fee { b, s, f }) (hne : pair.1 ≠ pair.2) (hbr : ∀ E, MaxBranching E (ext.branch E)) (hbr' : ∀ E, MaxBranching E (br E))
    (hx : ∀ y, xrate = some y → 0 < y) :
    solveTokenPairAndFee cfg ext pair b s f fee xrate = solveTokenPairAndFee cfg { ext with branch := br } pair b s f fee xrate := by
  unfold solveTokenPairAndFee
  refine bind_congr' fun r h1 => ?_
  obtain ⟨b1, s1⟩ := r
  dsimp only
  split
  · rfl
  rename_i hlen
  have hbn : b1 ≠ [] := fun h => hlen (.inl (by rw [h]; rfl))
  have hsn : s1 ≠ [] := fun h => hlen (.inr (by rw [h]; rfl))
  obtain ⟨sb, ss⟩ := prune_sublist h1
  have hb1 := hb.sub sb ss (List.Sublist.refl _)
  split
  · rename_i hF
    have hsw : BookOf pool (pair.2, pair.1) fee { b := s1, s := b1, f } :=
      ⟨hb1.derS, hb1.derB, hb1.derF, hb1.idsS, hb1.idsB, hb1.idsF, hb1.clsS, hb1.clsB, fun h => absurd hF h⟩
    rw [solveOriented_branch hp hc hfee hsw (Ne.symm hne) (by rw [← hF]; exact hne) hbr hbr' hx hsn hbn]
  · rename_i hF
    rw [solveOriented_branch hp hc hfee hb1 hne hF hbr hbr' hx hbn hsn]

/-! ### The loop over removals -/

theorem economicLoop_branch {cfg : Config} {ext : Ext} {br : List (Token × Token) → List (Token × Token)} {pair : Token × Token} {fee : Fee}
    {xrate : Option ℚ} {pool : List Order} (hp : Pool pool) (hc : CfgOk cfg) (hfee : fee.value < 1)
    (hne : pair.1 ≠ pair.2) (hbr : ∀ E, MaxBranching E (ext.branch E)) (hbr' : ∀ E, MaxBranching E (br E)) (hx : ∀ y, xrate = some y → 0 < y)
    {fuel : ℕ} {bk : Books} {gone : List Order} {cur : Solution} (hb : BookOf pool pair fee bk) :
    economicLoop cfg ext pair fee xrate fuel bk gone cur = economicLoop cfg { ext with branch := br } pair fee xrate fuel bk gone cur := by
  induction fuel generalizing bk gone cur with
  | zero => rfl
  | succ fuel ih =>
    unfold economicLoop
    split
    · rw [← solveTokenPairAndFee_branch hp hc hfee (b := bk.b) (s := bk.s) (f := bk.f) hb hne hbr hbr' hx]
      refine bind_congr' fun r h1 => ?_
      obtain ⟨g1, _⟩ := solveTokenPairAndFee_spec hp hc hfee (b := bk.b) (s := bk.s) (f := bk.f) hb hne hbr hx h1
      have hbk : BookOf pool pair fee r.books := BookOf.same (bk := { b := bk.b, s := bk.s, f := bk.f }) hb g1
      dsimp only
      refine bind_congr' fun v _ => ?_
      split
      · rfl
      refine bind_congr' fun sub _ => ?_
      split
      · rfl
      refine bind_congr' fun bm _ => bind_congr' fun sm _ => bind_congr' fun pb _ => bind_congr' fun ps _ => ?_
      split
      · exact ih (hbk.sub List.filter_sublist (List.Sublist.refl _) (List.Sublist.refl _))
      · exact ih (hbk.sub (List.Sublist.refl _) List.filter_sublist (List.Sublist.refl _))
    · rfl

theorem solveEconomicViable_branch {cfg : Config} {ext : Ext} {br : List (Token × Token) → List (Token × Token)} {pair : Token × Token} {fee : Fee}
    {xrate : Option ℚ} {pool : List Order} {accounts : Accounts} {b s f : List Order} (hp : Pool pool) (hc : CfgOk cfg) (hfee : fee.value < 1)
    (hne : pair.1 ≠ pair.2) (hbr : ∀ E, MaxBranching E (ext.branch E)) (hbr' : ∀ E, MaxBranching E (br E)) (hx : ∀ y, xrate = some y → 0 < y)
    (hb : BookOf pool pair fee { b, s, f }) :
    solveEconomicViable cfg ext pair accounts b s f fee xrate = solveEconomicViable cfg { ext with branch := br } pair accounts b s f fee xrate := by
  unfold solveEconomicViable
  rw [economicLoop_branch hp hc hfee hne hbr hbr' hx hb]

end Dex
