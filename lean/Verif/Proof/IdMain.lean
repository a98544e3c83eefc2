import Verif.Proof.IdMatch

/-! # The pair solver commutes with renumbering orders -/

namespace Dex

open Spec

variable {σ : Renumbering} {I J K : String → Prop}

/-- The id of the artificial market order. -/
abbrev MarketId : String → Prop := fun i => i = marketOrderId

instance : TiesKept σ MarketId := ⟨fun i j hi hj _ => by rw [show i = j from hi.trans hj.symm]; simp⟩

/-! ### Solving a pair -/

theorem countSatisfyingXrate_idm {l l' : List Order} {x : ℚ} {fee : Fee} (h : IdL σ I l l') :
    countSatisfyingXrate l x fee = countSatisfyingXrate l' x fee :=
  countP_rel h (by rintro a _ ⟨_, rfl⟩; rfl)

theorem roundXrate_idm {p : Option ℚ} {x : ℚ} {b b' s s' : List Order} {fee : Fee} (hb : IdL σ I b b') (hs : IdL σ J s s') :
    roundXrate p x b s fee = roundXrate p x b' s' fee := by
  have h1 : ∀ x, countSatisfyingXrate b x fee = countSatisfyingXrate b' x fee := fun _ => countSatisfyingXrate_idm hb
  have h2 : ∀ x, countSatisfyingXrate s x fee = countSatisfyingXrate s' x fee := fun _ => countSatisfyingXrate_idm hs
  unfold roundXrate computeSBuyTokenPrice
  simp only [h1, h2]

/-- Renamed results of `solve_token_pair`. -/
abbrev IdR (σ : Renumbering) (I J : String → Prop) (r r' : Option ℚ × List Order × List Order) : Prop := r.1 = r'.1 ∧ IdL2 σ I J r.2 r'.2

theorem solveTokenPair_idm [TiesKept σ I] [TiesKept σ J] {cfg : Config} {sqrt : ℚ → Py ℚ} {pair : Token × Token} {b b' s s' : List Order} {fee : Fee}
    {xrate bPrice : Option ℚ} {maxNr : ℤ} (hb : IdL σ I b b') (hs : IdL σ J s s') :
    RelE (IdR σ I J) (solveTokenPair cfg sqrt pair b s fee xrate bPrice maxNr)
      (solveTokenPair cfg sqrt pair b' s' fee xrate bPrice maxNr) := by
  unfold solveTokenPair
  refine RelE.ite (by rw [hb.length_eq, hs.length_eq]) (fun h => ⟨rfl, hb, hs⟩) (fun h => ?_)
  dsimp only
  have hp : (if pair.1 = fee.token then some (cfg.feeTokenPrice : ℚ) else bPrice) =
      if pair.1 = fee.token then some (cfg.feeTokenPrice : ℚ) else bPrice := if_congr Iff.rfl.symm rfl rfl
  have hx : givenOrBestXrate cfg sqrt b' s' fee xrate = givenOrBestXrate cfg sqrt b s fee xrate := by
    unfold givenOrBestXrate
    rw [findBestXrate_idm hb hs]
  rw [hp, hx]
  refine RelE.bind_same fun x => ?_
  cases x with
  | none => exact ⟨rfl, hb, hs⟩
  | some x =>
    dsimp only
    rw [roundXrate_idm hb hs]
    exact RelE.bind_same fun y => RelE.bind (computeBuyAmounts_idm hb hs) fun r r' hr => ⟨rfl, hr⟩

theorem createMarketOrder_idm {cfg : Config} {bt st : Token} {a : ℚ} {l l' : List Order} (h : IdL σ I l l') :
    RelE (IdO σ MarketId) (createMarketOrder cfg bt st a l) (createMarketOrder cfg bt st a l') := by
  unfold createMarketOrder
  dsimp only
  rw [maxXrates_idm h]
  refine RelE.bind_same fun _ => RelE.bind_same fun _ => ⟨⟨rfl, fun h => absurd rfl h⟩, ?_⟩
  unfold Renumbering.order Order.mk'
  dsimp only
  rw [σ.market]

theorem tokenPrice_idm [TiesKept σ K] {cfg : Config} {sqrt : ℚ → Py ℚ} {t : Token} {fee : Fee} {imb : ℚ} {f f' : List Order} (hf : IdL σ K f f') :
    tokenPriceToCoverImbalance cfg sqrt t fee imb f = tokenPriceToCoverImbalance cfg sqrt t fee imb f' := by
  refine RelE.to_eq ?_
  unfold tokenPriceToCoverImbalance
  refine RelE.bind (createMarketOrder_idm (bt := fee.token) hf) ?_
  rintro mo _ ⟨k, rfl⟩
  rw [findBestXrate_idm (List.Forall₂.cons ⟨k, rfl⟩ List.Forall₂.nil) hf]
  exact RelE.bind_same fun r => RelE.of_eq rfl

/-- Renamed results of the fee-order matching. -/
abbrev IdZ (σ : Renumbering) (K : String → Prop) (r r' : ℤ × List Order) : Prop := r.1 = r'.1 ∧ IdL σ K r.2 r'.2

theorem solveBFee_idm [TiesKept σ K] {cfg : Config} {sqrt : ℚ → Py ℚ} {t : Token} {fee : Fee} {imb : ℚ} {f f' : List Order} (hf : IdL σ K f f') :
    RelE (IdZ σ K) (solveBFee cfg sqrt imb t f fee) (solveBFee cfg sqrt imb t f' fee) := by
  unfold solveBFee
  rw [tokenPrice_idm hf]
  refine RelE.bind_same fun p => RelE.bind (createMarketOrder_idm (bt := fee.token) hf) fun d d' hd => RelE.bind_same fun fx => ?_
  refine RelE.bind (solveTokenPair_idm (pair := (fee.token, t)) (List.Forall₂.cons hd List.Forall₂.nil) hf) fun r r' hr => ?_
  obtain ⟨x, b1, s1⟩ := r
  obtain ⟨x', b2, s2⟩ := r'
  obtain ⟨rfl, h1, h2⟩ := hr
  exact RelE.bind_same fun _ => ⟨rfl, h2⟩

theorem solveBuffered_idm [TiesKept σ I] [TiesKept σ J] {cfg : Config} {sqrt : ℚ → Py ℚ} {pair : Token × Token} {b b' s s' : List Order} {x p : ℚ} {fee : Fee} {maxNr : ℤ}
    (hb : IdL σ I b b') (hs : IdL σ J s s') :
    RelE (IdR σ I J) (solveBuffered cfg sqrt pair b s x p fee maxNr) (solveBuffered cfg sqrt pair b' s' x p fee maxNr) := by
  unfold solveBuffered
  refine RelE.bind (roundingBufferEnter_idm hb hs) fun r r' hr => ?_
  refine RelE.bind (solveTokenPair_idm hr.1 hr.2) fun t t' ht => ?_
  obtain ⟨x, b1, s1⟩ := t
  obtain ⟨x', b2, s2⟩ := t'
  obtain ⟨rfl, h1, h2⟩ := ht
  dsimp only
  rw [maxSells_idm hb, maxSells_idm hs]
  refine RelE.bind (restoreMaxSell_idm h1) fun b3 b4 h3 => RelE.bind (restoreMaxSell_idm h2) fun s3 s4 h4 => ?_
  exact ⟨rfl, h3, h4⟩

/-- Renamed results of the inner matching. -/
structure IdG (σ : Renumbering) (I J K : String → Prop) (r r' : GivenResult) : Prop where
  objective : r.objective = r'.objective
  xrate : r.xrate = r'.xrate
  bPrice : r.bPrice = r'.bPrice
  books : IdBk σ I J K r.books r'.books

theorem givenExecF_idm [TiesKept σ I] [TiesKept σ J] [TiesKept σ K] {cfg : Config} {sqrt : ℚ → Py ℚ} {n : ℕ} {imb : ℚ} {pair : Token × Token} {bk bk' : Books} {x : ℚ} {fee : Fee}
    (h : IdBk σ I J K bk bk') : RelE (IdG σ I J K) (givenExecF cfg sqrt n imb pair bk x fee) (givenExecF cfg sqrt n imb pair bk' x fee) := by
  unfold givenExecF
  refine RelE.bind (solveBFee_idm (List.forall₂_take _ h.f)) fun r r' hr => ?_
  obtain ⟨p, ft⟩ := r
  obtain ⟨p', ft'⟩ := r'
  obtain ⟨rfl, hft⟩ := hr
  have hf : IdL σ K (ft ++ bk.f.drop n) (ft' ++ bk'.f.drop n) := append_rel hft (List.forall₂_drop _ h.f)
  dsimp only
  rw [countNrExec_idm (List.forall₂_take n hf)]
  refine RelE.ite Iff.rfl (fun _ => ⟨rfl, rfl, rfl, h.b, h.s, hf⟩) (fun _ => ?_)
  refine RelE.bind (solveBuffered_idm h.b h.s) fun r r' hr => ?_
  obtain ⟨y, b1, s1⟩ := r
  obtain ⟨y', b2, s2⟩ := r'
  obtain ⟨rfl, h1, h2⟩ := hr
  cases y with
  | none => rfl
  | some y =>
    dsimp only
    rw [objectiveRational_idm h1 h2 hf]
    exact RelE.bind_same fun _ => ⟨rfl, rfl, rfl, h1, h2, hf⟩

/-- Renamed best results. -/
def IdOpt (σ : Renumbering) (I J K : String → Prop) (o o' : Option GivenResult) : Prop := (o = none ∧ o' = none) ∨ ∃ r r', o = some r ∧ o' = some r' ∧ IdG σ I J K r r'

/-- Renamed states of the loop over fee-order counts. -/
structure IdF (σ : Renumbering) (I J K : String → Prop) (st st' : FLoopState) : Prop where
  best : IdOpt σ I J K st.best st'.best
  books : IdBk σ I J K st.books st'.books

theorem fOrdersLoop_idm [TiesKept σ I] [TiesKept σ J] [TiesKept σ K] {cfg : Config} {sqrt : ℚ → Py ℚ} {imb : ℚ} {pair : Token × Token} {x : ℚ} {fee : Fee} {ns : List ℕ} {st st' : FLoopState}
    (h : IdF σ I J K st st') :
    RelE (IdF σ I J K) (fOrdersLoop cfg sqrt imb pair x fee ns st) (fOrdersLoop cfg sqrt imb pair x fee ns st') := by
  induction ns generalizing st st' with
  | nil => exact h
  | cons n ns ih =>
    unfold fOrdersLoop
    have hf : IdL σ K (st.books.f.map (fun o => (o.withBuy 0).withSell 0)) (st'.books.f.map (fun o => (o.withBuy 0).withSell 0)) :=
      map_forall₂ h.books.f (by rintro a _ ⟨k, rfl⟩; exact ⟨k, rfl⟩)
    dsimp only
    refine RelE.bind (givenExecF_idm (IdBk.mk h.books.b h.books.s hf)) fun r r' hr => ?_
    rw [← hr.bPrice]
    cases r.bPrice with
    | none => exact ih ⟨h.best, hr.books⟩
    | some p =>
      dsimp only
      rcases h.best with ⟨e, e'⟩ | ⟨t, t', e, e', ht⟩
      · rw [e, e']
        exact ih ⟨.inr ⟨_, _, rfl, rfl, hr⟩, hr.books⟩
      · rw [e, e']
        dsimp only
        rw [hr.objective, ht.objective]
        refine RelE.ite Iff.rfl (fun _ => ?_) (fun _ => RelE.bind_same fun _ => ?_)
        · exact IdF.mk (.inr ⟨t, t', rfl, rfl, ht⟩) hr.books
        · exact ih ⟨.inr ⟨_, _, rfl, rfl, hr⟩, hr.books⟩

/-- Renamed matching results. -/
structure IdM (σ : Renumbering) (I J K : String → Prop) (r r' : MatchResult) : Prop where
  sol : IdS σ r.sol r'.sol
  books : IdBk σ I J K r.books r'.books

theorem solveOriented_idm [TiesKept σ I] [TiesKept σ J] [TiesKept σ K] {cfg : Config} {ext : Ext} {pair : Token × Token} {b b' s s' f f' : List Order} {fee : Fee}
    {xrate : Option ℚ} (hb : IdL σ I b b') (hs : IdL σ J s s') (hf : IdL σ K f f') :
    RelE (IdM σ I J K) (solveOriented cfg ext pair b s f fee xrate) (solveOriented cfg ext pair b' s' f' fee xrate) := by
  unfold solveOriented
  refine RelE.bind (solveTokenPair_idm hb hs) fun r r' hr => ?_
  obtain ⟨x, b1, s1⟩ := r
  obtain ⟨x', b2, s2⟩ := r'
  obtain ⟨rfl, h1, h2⟩ := hr
  dsimp only at h1 h2 ⊢
  refine RelE.ite (by rw [countNrExec_idm h1]) (fun _ => ⟨trivial_idm, h1, h2, hf⟩) (fun _ => ?_)
  cases x with
  | none => rfl
  | some x =>
    dsimp only
    refine RelE.ite Iff.rfl (fun _ => ?_) (fun _ => RelE.ite (by rw [hf.length_eq]) (fun _ => ⟨trivial_idm, h1, h2, hf⟩) (fun _ => ?_))
    · refine RelE.bind (aggregateAndRound_idm (K := K) (IdBk.mk h1 h2 List.Forall₂.nil)) fun t t' ht => ?_
      exact ⟨ht.1, writeBack_idm h1 ht.2, writeBack_idm h2 ht.2, hf⟩
    · rw [imbalance_idm h1 h2]
      refine RelE.bind_same fun imb => ?_
      have hn : nrFOrders cfg b1 s1 f = nrFOrders cfg b2 s2 f' := by
        unfold nrFOrders
        rw [countNrExec_idm h1, countNrExec_idm h2, hf.length_eq]
      rw [hn]
      refine RelE.bind_same fun mm => ?_
      refine RelE.ite Iff.rfl (fun _ => ⟨trivial_idm, h1, h2, hf⟩) (fun _ => ?_)
      refine RelE.bind (fOrdersLoop_idm (⟨.inl ⟨rfl, rfl⟩, h1, h2, sorted_idm hf⟩ :
        IdF σ I J K { best := none, books := { b := b1, s := s1, f := sortedByExecPriority f } }
          { best := none, books := { b := b2, s := s2, f := sortedByExecPriority f' } })) fun st st' hst => ?_
      have hbk : IdBk σ I J K { st.books with f := writeBack f st.books.f } { st'.books with f := writeBack f' st'.books.f } :=
        ⟨hst.books.b, hst.books.s, writeBack_idm hf hst.books.f⟩
      rcases hst.best with ⟨e, e'⟩ | ⟨t, t', e, e', ht⟩
      · rw [e, e']
        exact ⟨trivial_idm, hbk⟩
      · rw [e, e']
        dsimp only
        rw [← ht.bPrice, ← ht.xrate]
        cases t.bPrice with
        | none => exact ⟨trivial_idm, hbk⟩
        | some p =>
          dsimp only
          exact RelE.bind (aggregateAndRound_idm ht.books) fun u u' hu => ⟨hu.1, hbk⟩

theorem solveTokenPairAndFee_idm [TiesKept σ I] [TiesKept σ J] [TiesKept σ K] {cfg : Config} {ext : Ext} {pair : Token × Token} {b b' s s' f f' : List Order} {fee : Fee}
    {xrate : Option ℚ} (hb : IdL σ I b b') (hs : IdL σ J s s') (hf : IdL σ K f f') :
    RelE (IdM σ I J K) (solveTokenPairAndFee cfg ext pair b s f fee xrate) (solveTokenPairAndFee cfg ext pair b' s' f' fee xrate) := by
  unfold solveTokenPairAndFee
  refine RelE.bind (prune_idm hb hs) fun r r' hr => ?_
  refine RelE.ite (by rw [hr.1.length_eq, hr.2.length_eq]) (fun _ => ⟨trivial_idm, hb, hs, hf⟩) (fun hne => ?_)
  refine RelE.ite Iff.rfl (fun _ => ?_) (fun _ => ?_)
  · refine RelE.bind (solveOriented_idm (pair := (pair.2, pair.1)) hr.2 hr.1 hf) fun t t' ht => ?_
    exact ⟨ht.sol, writeBack_idm hb ht.books.s, writeBack_idm hs ht.books.b, ht.books.f⟩
  · refine RelE.bind (solveOriented_idm hr.1 hr.2 hf) fun t t' ht => ?_
    exact ⟨ht.sol, writeBack_idm hb ht.books.b, writeBack_idm hs ht.books.s, ht.books.f⟩

/-! ### Viability -/

theorem computeTotalFee_idm {cfg : Config} {l l' : List Order} {p : Prices} {fee : Fee} (h : IdL σ I l l') :
    computeTotalFee cfg l p fee = computeTotalFee cfg l' p fee :=
  sumE_rel h (by rintro a _ ⟨_, rfl⟩; rfl)

theorem computeAverageOrderFee_idm {cfg : Config} {l l' : List Order} {p : Prices} {fee : Fee} (h : IdL σ I l l') :
    computeAverageOrderFee cfg l p fee = computeAverageOrderFee cfg l' p fee := by
  unfold computeAverageOrderFee
  rw [computeTotalFee_idm h, countNrExec_idm h]

theorem isEconomicViable_idm {cfg : Config} {l l' : List Order} {p : Prices} {fee : Fee} (h : IdL σ I l l') :
    isEconomicViable cfg l p fee = isEconomicViable cfg l' p fee := by
  unfold isEconomicViable
  rw [countNrExec_idm h, computeAverageOrderFee_idm h, anyE_rel (R := IdO σ I) (filter_rel h ?_) ?_]
  · rintro a _ ⟨_, rfl⟩
    exact decide_eq_decide.2 (and_congr (not_congr Iff.rfl) Iff.rfl)
  · rintro a _ ⟨_, rfl⟩
    rfl

theorem viablePrefixLoop_idm {cfg : Config} {l l' : List Order} {p : Prices} {fee : Fee} {fuel i : ℕ} (h : IdL σ I l l') :
    viablePrefixLoop cfg l p fee fuel i = viablePrefixLoop cfg l' p fee fuel i := by
  induction fuel generalizing i with
  | zero => rfl
  | succ fuel ih =>
    unfold viablePrefixLoop
    rw [h.length_eq, computeAverageOrderFee_idm (List.forall₂_take i h), ih]

theorem approxViableSubset_idm {cfg : Config} {l l' : List Order} {p : Prices} {fee : Fee} (h : IdL σ I l l') :
    RelE (IdL σ I) (approxViableSubset cfg l p fee) (approxViableSubset cfg l' p fee) := by
  unfold approxViableSubset
  refine RelE.ite Iff.rfl (fun _ => h) (fun _ => ?_)
  refine RelE.bind (filterE_rel h ?_) fun l1 l2 hl => ?_
  · rintro a _ ⟨_, rfl⟩
    rfl
  · dsimp only
    refine RelE.bind (mapE_rel (Q := fun a b => a.1 = b.1 ∧ IdO σ I a.2 b.2) (R := IdO σ I) (filter_rel hl (by rintro a _ ⟨_, rfl⟩; rfl)) ?_) fun k k' hk => ?_
    · rintro a _ ⟨k, rfl⟩
      exact RelE.bind_same fun v => ⟨rfl, k, rfl⟩
    · have hv : IdL σ I ((pySortByRev (·.1) k).map (·.2)) ((pySortByRev (·.1) k').map (·.2)) :=
        map_forall₂ (insertionSort_rel hk (fun a b a' b' h1 h2 => by dsimp only; rw [h1.1, h2.1])) fun a b h => h.2
      rw [viablePrefixLoop_idm hv, hv.length_eq]
      refine RelE.bind_same fun i => ?_
      have ht := List.forall₂_take i hv
      have hd : ((((pySortByRev (·.1) k').map (·.2)).take i).map (·.buyToken)).dedup.length =
          ((((pySortByRev (·.1) k).map (·.2)).take i).map (·.buyToken)).dedup.length := by
        rw [← map_rel (f := fun o => o.buyToken) (g := fun o : Order => o.buyToken) ht (by rintro a _ ⟨_, rfl⟩; rfl)]
      exact RelE.ite (by rw [hd]) (fun _ => List.Forall₂.nil) (fun _ => ht)

/-- Renamed results of the viability search. -/
abbrev IdE2 (σ : Renumbering) (r r' : Solution × List Order) : Prop := IdS σ r.1 r'.1 ∧ IdL σ AnyId r.2 r'.2

theorem economicLoop_idm [TiesKept σ I] [TiesKept σ J] [TiesKept σ K] {cfg : Config} {ext : Ext} {pair : Token × Token} {fee : Fee} {xrate : Option ℚ} {fuel : ℕ}
    {bk bk' : Books} {gone gone' : List Order} {cur cur' : Solution} (h : IdBk σ I J K bk bk') (hg : IdL σ AnyId gone gone') (hc : IdS σ cur cur') :
    RelE (IdE2 σ) (economicLoop cfg ext pair fee xrate fuel bk gone cur)
      (economicLoop cfg ext pair fee xrate fuel bk' gone' cur') := by
  have hall : ∀ {bk bk' : Books}, IdBk σ I J K bk bk' → IdL σ AnyId (bk.b ++ bk.s ++ bk.f ++ gone) (bk'.b ++ bk'.s ++ bk'.f ++ gone') := fun h =>
    append_rel (append_rel (append_rel (idL_any h.b) (idL_any h.s)) (idL_any h.f)) hg
  induction fuel generalizing bk bk' gone gone' cur cur' with
  | zero => rfl
  | succ fuel ih =>
    unfold economicLoop
    refine RelE.ite (by rw [h.b.length_eq, h.s.length_eq]) (fun _ => ?_) (fun _ => ⟨hc, hall h⟩)
    refine RelE.bind (solveTokenPairAndFee_idm h.b h.s h.f) fun r r' hr => ?_
    have hs : IdL σ AnyId r.sol.orders r'.sol.orders := hr.sol.orders
    have hp : r'.sol.prices = r.sol.prices := hr.sol.prices.symm
    dsimp only
    rw [hp, isEconomicViable_idm (p := r.sol.prices) hs]
    refine RelE.bind_same fun v => ?_
    refine RelE.ite (by unfold isTrivial; rw [countNrExec_idm hs]) (fun _ => ⟨hr.sol, hall hr.books⟩) (fun _ => ?_)
    refine RelE.bind (approxViableSubset_idm hs) fun sub sub' hsub => ?_
    refine RelE.ite (by rw [hsub.length_eq]) (fun _ => ⟨trivial_idm, hall hr.books⟩) (fun _ => ?_)
    have hmin : ∀ {I : String → Prop} {l l' : List Order}, IdL σ I l l' → RelE (IdO σ I) (pyMinBy (·.buy) (l.filter (fun o => decide (o.buy > 0))))
        (pyMinBy (·.buy) (l'.filter (fun o => decide (o.buy > 0)))) := fun h =>
      pyMinBy_rel (filter_rel h (by rintro a _ ⟨_, rfl⟩; rfl)) (by rintro a _ ⟨_, rfl⟩; rfl)
    refine RelE.bind (hmin hr.books.b) ?_
    rintro bm _ ⟨kb, rfl⟩
    refine RelE.bind (hmin hr.books.s) ?_
    rintro sm _ ⟨ks, rfl⟩
    refine RelE.bind_same fun pb => RelE.bind_same fun ps => ?_
    have hdel : ∀ {I : String → Prop} {l l' : List Order} (o : Order), IdL σ I l l' → IdL σ I (l.filter (fun x => decide (x.id ≠ o.id)))
        (l'.filter (fun x => decide (x.id ≠ (σ.order o).id))) := fun o h => filter_rel h (by
        rintro a _ ⟨_, rfl⟩
        exact decide_eq_decide.2 (not_congr σ.inj.eq_iff.symm))
    have happ : ∀ {bk bk' : Books} {g g' : List Order}, IdL σ AnyId g g' → IdBk σ I J K bk bk' → IdL σ AnyId (bk.b ++ bk.s ++ bk.f ++ g) (bk'.b ++ bk'.s ++ bk'.f ++ g') :=
      fun hg h => append_rel (append_rel (append_rel (idL_any h.b) (idL_any h.s)) (idL_any h.f)) hg
    refine RelE.ite Iff.rfl (fun _ => ?_) (fun _ => ?_)
    · exact ih ⟨hdel bm hr.books.b, hr.books.s, hr.books.f⟩ (List.Forall₂.cons ⟨⟨trivial, kb.2⟩, rfl⟩ hg) hr.sol (happ (List.Forall₂.cons ⟨⟨trivial, kb.2⟩, rfl⟩ hg))
    · exact ih ⟨hr.books.b, hdel sm hr.books.s, hr.books.f⟩ (List.Forall₂.cons ⟨⟨trivial, ks.2⟩, rfl⟩ hg) hr.sol (happ (List.Forall₂.cons ⟨⟨trivial, ks.2⟩, rfl⟩ hg))

end Dex
