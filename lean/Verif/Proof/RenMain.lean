import Verif.Proof.RenMatch

/-! # The programs commute with renaming -/

namespace Dex

open Spec

variable {ρ : Renaming}

/-! ### Solving a pair -/

theorem countSatisfyingXrate_ren {l l' : List Order} {x : ℚ} {fee : Fee} (h : RenL ρ l l') :
    countSatisfyingXrate l x fee = countSatisfyingXrate l' x (ρ.fee fee) :=
  countP_rel h (by rintro a _ rfl; rfl)

theorem roundXrate_ren {p : Option ℚ} {x : ℚ} {b b' s s' : List Order} {fee : Fee} (hb : RenL ρ b b') (hs : RenL ρ s s') :
    roundXrate p x b s fee = roundXrate p x b' s' (ρ.fee fee) := by
  have h1 : ∀ x, countSatisfyingXrate b x fee = countSatisfyingXrate b' x (ρ.fee fee) := fun _ => countSatisfyingXrate_ren hb
  have h2 : ∀ x, countSatisfyingXrate s x fee = countSatisfyingXrate s' x (ρ.fee fee) := fun _ => countSatisfyingXrate_ren hs
  unfold roundXrate computeSBuyTokenPrice
  simp only [h1, h2]

/-- Renamed results of `solve_token_pair`. -/
abbrev RenR (ρ : Renaming) (r r' : Option ℚ × List Order × List Order) : Prop := r.1 = r'.1 ∧ RenL2 ρ r.2 r'.2

theorem solveTokenPair_ren {cfg : Config} {sqrt : ℚ → Py ℚ} {pair : Token × Token} {b b' s s' : List Order} {fee : Fee}
    {xrate bPrice : Option ℚ} {maxNr : ℤ} (hb : RenL ρ b b') (hs : RenL ρ s s') :
    RelE (RenR ρ) (solveTokenPair cfg sqrt pair b s fee xrate bPrice maxNr)
      (solveTokenPair cfg sqrt (ρ.pair pair) b' s' (ρ.fee fee) xrate bPrice maxNr) := by
  unfold solveTokenPair
  refine RelE.ite (by rw [hb.length_eq, hs.length_eq]) (fun h => ⟨rfl, hb, hs⟩) (fun h => ?_)
  dsimp only
  have hp : (if (ρ.pair pair).1 = (ρ.fee fee).token then some (cfg.feeTokenPrice : ℚ) else bPrice) =
      if pair.1 = fee.token then some (cfg.feeTokenPrice : ℚ) else bPrice := if_congr (tok_iff _ _).symm rfl rfl
  have hx : givenOrBestXrate cfg sqrt b' s' (ρ.fee fee) xrate = givenOrBestXrate cfg sqrt b s fee xrate := by
    unfold givenOrBestXrate
    rw [findBestXrate_ren hb hs]
  rw [hp, hx]
  refine RelE.bind_same fun x => ?_
  cases x with
  | none => exact ⟨rfl, hb, hs⟩
  | some x =>
    dsimp only
    rw [roundXrate_ren hb hs]
    exact RelE.bind_same fun y => RelE.bind (computeBuyAmounts_ren hb hs) fun r r' hr => ⟨rfl, hr⟩

theorem createMarketOrder_ren {cfg : Config} {bt st : Token} {a : ℚ} {l l' : List Order} (h : RenL ρ l l') :
    RelE (RenO ρ) (createMarketOrder cfg bt st a l) (createMarketOrder cfg (ρ.tok bt) (ρ.tok st) a l') := by
  unfold createMarketOrder
  dsimp only
  rw [maxXrates_ren h]
  exact RelE.bind_same fun _ => RelE.bind_same fun _ => rfl

theorem tokenPrice_ren {cfg : Config} {sqrt : ℚ → Py ℚ} {t : Token} {fee : Fee} {imb : ℚ} {f f' : List Order} (hf : RenL ρ f f') :
    tokenPriceToCoverImbalance cfg sqrt t fee imb f = tokenPriceToCoverImbalance cfg sqrt (ρ.tok t) (ρ.fee fee) imb f' := by
  refine RelE.to_eq ?_
  unfold tokenPriceToCoverImbalance
  refine RelE.bind (createMarketOrder_ren (bt := fee.token) hf) ?_
  rintro mo _ rfl
  rw [findBestXrate_ren (List.Forall₂.cons rfl List.Forall₂.nil) hf]
  exact RelE.bind_same fun r => RelE.of_eq rfl

/-- Renamed results of the fee-order matching. -/
abbrev RenZ (ρ : Renaming) (r r' : ℤ × List Order) : Prop := r.1 = r'.1 ∧ RenL ρ r.2 r'.2

theorem solveBFee_ren {cfg : Config} {sqrt : ℚ → Py ℚ} {t : Token} {fee : Fee} {imb : ℚ} {f f' : List Order} (hf : RenL ρ f f') :
    RelE (RenZ ρ) (solveBFee cfg sqrt imb t f fee) (solveBFee cfg sqrt imb (ρ.tok t) f' (ρ.fee fee)) := by
  unfold solveBFee
  rw [tokenPrice_ren hf]
  refine RelE.bind_same fun p => RelE.bind (createMarketOrder_ren (bt := fee.token) hf) fun d d' hd => RelE.bind_same fun fx => ?_
  refine RelE.bind (solveTokenPair_ren (pair := (fee.token, t)) (List.Forall₂.cons hd List.Forall₂.nil) hf) fun r r' hr => ?_
  obtain ⟨x, b1, s1⟩ := r
  obtain ⟨x', b2, s2⟩ := r'
  obtain ⟨rfl, h1, h2⟩ := hr
  exact RelE.bind_same fun _ => ⟨rfl, h2⟩

theorem solveBuffered_ren {cfg : Config} {sqrt : ℚ → Py ℚ} {pair : Token × Token} {b b' s s' : List Order} {x p : ℚ} {fee : Fee} {maxNr : ℤ}
    (hb : RenL ρ b b') (hs : RenL ρ s s') :
    RelE (RenR ρ) (solveBuffered cfg sqrt pair b s x p fee maxNr) (solveBuffered cfg sqrt (ρ.pair pair) b' s' x p (ρ.fee fee) maxNr) := by
  unfold solveBuffered
  refine RelE.bind (roundingBufferEnter_ren hb hs) fun r r' hr => ?_
  refine RelE.bind (solveTokenPair_ren hr.1 hr.2) fun t t' ht => ?_
  obtain ⟨x, b1, s1⟩ := t
  obtain ⟨x', b2, s2⟩ := t'
  obtain ⟨rfl, h1, h2⟩ := ht
  dsimp only
  rw [maxSells_ren hb, maxSells_ren hs]
  refine RelE.bind (restoreMaxSell_ren h1) fun b3 b4 h3 => RelE.bind (restoreMaxSell_ren h2) fun s3 s4 h4 => ?_
  exact ⟨rfl, h3, h4⟩

/-- Renamed results of the inner matching. -/
structure RenG (ρ : Renaming) (r r' : GivenResult) : Prop where
  objective : r.objective = r'.objective
  xrate : r.xrate = r'.xrate
  bPrice : r.bPrice = r'.bPrice
  books : RenBk ρ r.books r'.books

theorem givenExecF_ren {cfg : Config} {sqrt : ℚ → Py ℚ} {n : ℕ} {imb : ℚ} {pair : Token × Token} {bk bk' : Books} {x : ℚ} {fee : Fee}
    (h : RenBk ρ bk bk') : RelE (RenG ρ) (givenExecF cfg sqrt n imb pair bk x fee) (givenExecF cfg sqrt n imb (ρ.pair pair) bk' x (ρ.fee fee)) := by
  unfold givenExecF
  refine RelE.bind (solveBFee_ren (List.forall₂_take _ h.f)) fun r r' hr => ?_
  obtain ⟨p, ft⟩ := r
  obtain ⟨p', ft'⟩ := r'
  obtain ⟨rfl, hft⟩ := hr
  have hf : RenL ρ (ft ++ bk.f.drop n) (ft' ++ bk'.f.drop n) := append_rel hft (List.forall₂_drop _ h.f)
  dsimp only
  rw [countNrExec_ren (List.forall₂_take n hf)]
  refine RelE.ite Iff.rfl (fun _ => ⟨rfl, rfl, rfl, h.b, h.s, hf⟩) (fun _ => ?_)
  refine RelE.bind (solveBuffered_ren h.b h.s) fun r r' hr => ?_
  obtain ⟨y, b1, s1⟩ := r
  obtain ⟨y', b2, s2⟩ := r'
  obtain ⟨rfl, h1, h2⟩ := hr
  cases y with
  | none => rfl
  | some y =>
    dsimp only
    rw [objectiveRational_ren h1 h2 hf]
    exact RelE.bind_same fun _ => ⟨rfl, rfl, rfl, h1, h2, hf⟩

/-- Renamed best results. -/
def RenOpt (ρ : Renaming) (o o' : Option GivenResult) : Prop := (o = none ∧ o' = none) ∨ ∃ r r', o = some r ∧ o' = some r' ∧ RenG ρ r r'

/-- Renamed states of the loop over fee-order counts. -/
structure RenF (ρ : Renaming) (st st' : FLoopState) : Prop where
  best : RenOpt ρ st.best st'.best
  books : RenBk ρ st.books st'.books

theorem fOrdersLoop_ren {cfg : Config} {sqrt : ℚ → Py ℚ} {imb : ℚ} {pair : Token × Token} {x : ℚ} {fee : Fee} {ns : List ℕ} {st st' : FLoopState}
    (h : RenF ρ st st') :
    RelE (RenF ρ) (fOrdersLoop cfg sqrt imb pair x fee ns st) (fOrdersLoop cfg sqrt imb (ρ.pair pair) x (ρ.fee fee) ns st') := by
  induction ns generalizing st st' with
  | nil => exact h
  | cons n ns ih =>
    unfold fOrdersLoop
    have hf : RenL ρ (st.books.f.map (fun o => (o.withBuy 0).withSell 0)) (st'.books.f.map (fun o => (o.withBuy 0).withSell 0)) :=
      map_forall₂ h.books.f (by rintro a _ rfl; rfl)
    dsimp only
    refine RelE.bind (givenExecF_ren (RenBk.mk h.books.b h.books.s hf)) fun r r' hr => ?_
    rw [← hr.bPrice]
    cases r.bPrice with
    | none => exact ih ⟨h.best, hr.books⟩
    | some p =>
      dsimp only
      rcases h.best with ⟨e, e'⟩ | ⟨t, t', e, e', ht⟩
      · rw [e, e']
        exact ih ⟨.inr ⟨_, _, rfl, rfl, hr⟩, hr.books⟩
      · rw [e, e']
        dsimp only
        rw [hr.objective, ht.objective]
        refine RelE.ite Iff.rfl (fun _ => ?_) (fun _ => RelE.bind_same fun _ => ?_)
        · exact RenF.mk (.inr ⟨t, t', rfl, rfl, ht⟩) hr.books
        · exact ih ⟨.inr ⟨_, _, rfl, rfl, hr⟩, hr.books⟩

/-- Renamed matching results. -/
structure RenM (ρ : Renaming) (r r' : MatchResult) : Prop where
  sol : RenS ρ r.sol r'.sol
  books : RenBk ρ r.books r'.books

theorem solveOriented_ren {cfg : Config} {ext ext' : Ext} (hx : ρ.Ext ext ext') {pair : Token × Token} {b b' s s' f f' : List Order} {fee : Fee}
    {xrate : Option ℚ} (hb : RenL ρ b b') (hs : RenL ρ s s') (hf : RenL ρ f f') :
    RelE (RenM ρ) (solveOriented cfg ext pair b s f fee xrate) (solveOriented cfg ext' (ρ.pair pair) b' s' f' (ρ.fee fee) xrate) := by
  unfold solveOriented
  rw [hx.sqrt]
  refine RelE.bind (solveTokenPair_ren hb hs) fun r r' hr => ?_
  obtain ⟨x, b1, s1⟩ := r
  obtain ⟨x', b2, s2⟩ := r'
  obtain ⟨rfl, h1, h2⟩ := hr
  dsimp only at h1 h2 ⊢
  refine RelE.ite (by rw [countNrExec_ren h1]) (fun _ => ⟨rfl, h1, h2, hf⟩) (fun _ => ?_)
  cases x with
  | none => rfl
  | some x =>
    dsimp only
    refine RelE.ite (tok_iff _ _) (fun _ => ?_) (fun _ => RelE.ite (by rw [hf.length_eq]) (fun _ => ⟨rfl, h1, h2, hf⟩) (fun _ => ?_))
    · refine RelE.bind (aggregateAndRound_ren hx (RenBk.mk h1 h2 List.Forall₂.nil)) fun t t' ht => ?_
      exact ⟨ht.1, writeBack_rel id_ren h1 ht.2, writeBack_rel id_ren h2 ht.2, hf⟩
    · rw [imbalance_ren h1 h2]
      refine RelE.bind_same fun imb => ?_
      have hn : nrFOrders cfg b1 s1 f = nrFOrders cfg b2 s2 f' := by
        unfold nrFOrders
        rw [countNrExec_ren h1, countNrExec_ren h2, hf.length_eq]
      rw [hn]
      refine RelE.bind_same fun mm => ?_
      refine RelE.ite Iff.rfl (fun _ => ⟨rfl, h1, h2, hf⟩) (fun _ => ?_)
      refine RelE.bind (fOrdersLoop_ren (⟨.inl ⟨rfl, rfl⟩, h1, h2, sorted_ren hf⟩ :
        RenF ρ { best := none, books := { b := b1, s := s1, f := sortedByExecPriority f } }
          { best := none, books := { b := b2, s := s2, f := sortedByExecPriority f' } })) fun st st' hst => ?_
      have hbk : RenBk ρ { st.books with f := writeBack f st.books.f } { st'.books with f := writeBack f' st'.books.f } :=
        ⟨hst.books.b, hst.books.s, writeBack_rel id_ren hf hst.books.f⟩
      rcases hst.best with ⟨e, e'⟩ | ⟨t, t', e, e', ht⟩
      · rw [e, e']
        exact ⟨rfl, hbk⟩
      · rw [e, e']
        dsimp only
        rw [← ht.bPrice, ← ht.xrate]
        cases t.bPrice with
        | none => exact ⟨rfl, hbk⟩
        | some p =>
          dsimp only
          exact RelE.bind (aggregateAndRound_ren hx ht.books) fun u u' hu => ⟨hu.1, hbk⟩

theorem solveTokenPairAndFee_ren {cfg : Config} {ext ext' : Ext} (hx : ρ.Ext ext ext') {pair : Token × Token} {b b' s s' f f' : List Order} {fee : Fee}
    {xrate : Option ℚ} (hb : RenL ρ b b') (hs : RenL ρ s s') (hf : RenL ρ f f') :
    RelE (RenM ρ) (solveTokenPairAndFee cfg ext pair b s f fee xrate) (solveTokenPairAndFee cfg ext' (ρ.pair pair) b' s' f' (ρ.fee fee) xrate) := by
  unfold solveTokenPairAndFee
  refine RelE.bind (prune_ren hb hs) fun r r' hr => ?_
  refine RelE.ite (by rw [hr.1.length_eq, hr.2.length_eq]) (fun _ => ⟨rfl, hb, hs, hf⟩) (fun hne => ?_)
  refine RelE.ite (tok_iff _ _) (fun _ => ?_) (fun _ => ?_)
  · refine RelE.bind (solveOriented_ren hx (pair := (pair.2, pair.1)) hr.2 hr.1 hf) fun t t' ht => ?_
    exact ⟨ht.sol, writeBack_rel id_ren hb ht.books.s, writeBack_rel id_ren hs ht.books.b, ht.books.f⟩
  · refine RelE.bind (solveOriented_ren hx hr.1 hr.2 hf) fun t t' ht => ?_
    exact ⟨ht.sol, writeBack_rel id_ren hb ht.books.b, writeBack_rel id_ren hs ht.books.s, ht.books.f⟩

/-! ### Viability -/

theorem computeTotalFee_ren {cfg : Config} {l l' : List Order} {p : Prices} {fee : Fee} (h : RenL ρ l l') :
    computeTotalFee cfg l p fee = computeTotalFee cfg l' (ρ.amounts p) (ρ.fee fee) :=
  sumE_rel h (by rintro a _ rfl; rw [feePaid_ren])

theorem computeAverageOrderFee_ren {cfg : Config} {l l' : List Order} {p : Prices} {fee : Fee} (h : RenL ρ l l') :
    computeAverageOrderFee cfg l p fee = computeAverageOrderFee cfg l' (ρ.amounts p) (ρ.fee fee) := by
  unfold computeAverageOrderFee
  rw [computeTotalFee_ren h, countNrExec_ren h]

theorem isEconomicViable_ren {cfg : Config} {l l' : List Order} {p : Prices} {fee : Fee} (h : RenL ρ l l') :
    isEconomicViable cfg l p fee = isEconomicViable cfg l' (ρ.amounts p) (ρ.fee fee) := by
  unfold isEconomicViable
  rw [countNrExec_ren h, computeAverageOrderFee_ren h, anyE_rel (R := RenO ρ) (filter_rel h ?_) ?_]
  · rintro a _ rfl
    exact decide_eq_decide.2 (and_congr (not_congr (tok_iff _ _)) Iff.rfl)
  · rintro a _ rfl
    rw [feePaid_ren]

theorem viablePrefixLoop_ren {cfg : Config} {l l' : List Order} {p : Prices} {fee : Fee} {fuel i : ℕ} (h : RenL ρ l l') :
    viablePrefixLoop cfg l p fee fuel i = viablePrefixLoop cfg l' (ρ.amounts p) (ρ.fee fee) fuel i := by
  induction fuel generalizing i with
  | zero => rfl
  | succ fuel ih =>
    unfold viablePrefixLoop
    rw [h.length_eq, computeAverageOrderFee_ren (List.forall₂_take i h), ih]

theorem approxViableSubset_ren {cfg : Config} {l l' : List Order} {p : Prices} {fee : Fee} (h : RenL ρ l l') :
    RelE (RenL ρ) (approxViableSubset cfg l p fee) (approxViableSubset cfg l' (ρ.amounts p) (ρ.fee fee)) := by
  unfold approxViableSubset
  refine RelE.ite Iff.rfl (fun _ => h) (fun _ => ?_)
  refine RelE.bind (filterE_rel h ?_) fun l1 l2 hl => ?_
  · rintro a _ rfl
    rw [feePaid_ren]
    exact if_congr (tok_iff _ _) rfl rfl
  · dsimp only
    refine RelE.bind (mapE_rel (Q := fun a b => a.1 = b.1 ∧ RenO ρ a.2 b.2) (R := RenO ρ) (filter_rel hl (by rintro a _ rfl; rfl)) ?_) fun k k' hk => ?_
    · rintro a _ rfl
      rw [volume_ren]
      exact RelE.bind_same fun v => ⟨rfl, rfl⟩
    · have hv : RenL ρ ((pySortByRev (·.1) k).map (·.2)) ((pySortByRev (·.1) k').map (·.2)) :=
        map_forall₂ (insertionSort_rel hk (fun a b a' b' h1 h2 => by dsimp only; rw [h1.1, h2.1])) fun a b h => h.2
      rw [viablePrefixLoop_ren hv, hv.length_eq]
      refine RelE.bind_same fun i => ?_
      have ht := List.forall₂_take i hv
      have hd : ((((pySortByRev (·.1) k').map (·.2)).take i).map (·.buyToken)).dedup.length =
          ((((pySortByRev (·.1) k).map (·.2)).take i).map (·.buyToken)).dedup.length := by
        rw [← map_rel (f := fun o => ρ.tok o.buyToken) (g := fun o : Order => o.buyToken) ht (by rintro a _ rfl; rfl)]
        rw [show (fun o : Order => ρ.tok o.buyToken) = ρ.tok ∘ (fun o : Order => o.buyToken) from rfl, ← List.map_map,
          List.dedup_map_of_injective ρ.tok_inj, List.length_map]
      exact RelE.ite (by rw [hd]) (fun _ => List.Forall₂.nil) (fun _ => ht)

/-- Renamed results of the viability search. -/
abbrev RenE2 (ρ : Renaming) (r r' : Solution × List Order) : Prop := RenS ρ r.1 r'.1 ∧ RenL ρ r.2 r'.2

theorem economicLoop_ren {cfg : Config} {ext ext' : Ext} (hx : ρ.Ext ext ext') {pair : Token × Token} {fee : Fee} {xrate : Option ℚ} {fuel : ℕ}
    {bk bk' : Books} {gone gone' : List Order} {cur cur' : Solution} (h : RenBk ρ bk bk') (hg : RenL ρ gone gone') (hc : RenS ρ cur cur') :
    RelE (RenE2 ρ) (economicLoop cfg ext pair fee xrate fuel bk gone cur)
      (economicLoop cfg ext' (ρ.pair pair) (ρ.fee fee) xrate fuel bk' gone' cur') := by
  have hall : ∀ {bk bk' : Books}, RenBk ρ bk bk' → RenL ρ (bk.b ++ bk.s ++ bk.f ++ gone) (bk'.b ++ bk'.s ++ bk'.f ++ gone') := fun h =>
    append_rel (append_rel (append_rel h.b h.s) h.f) hg
  induction fuel generalizing bk bk' gone gone' cur cur' with
  | zero => rfl
  | succ fuel ih =>
    unfold economicLoop
    refine RelE.ite (by rw [h.b.length_eq, h.s.length_eq]) (fun _ => ?_) (fun _ => ⟨hc, hall h⟩)
    refine RelE.bind (solveTokenPairAndFee_ren hx h.b h.s h.f) fun r r' hr => ?_
    have hs : RenL ρ r.sol.orders r'.sol.orders := by rw [hr.sol]; exact renL_map _
    have hp : r'.sol.prices = ρ.amounts r.sol.prices := by rw [hr.sol]; rfl
    dsimp only
    rw [hp, isEconomicViable_ren (p := r.sol.prices) hs]
    refine RelE.bind_same fun v => ?_
    refine RelE.ite (by unfold isTrivial; rw [countNrExec_ren hs]) (fun _ => ⟨hr.sol, hall hr.books⟩) (fun _ => ?_)
    refine RelE.bind (approxViableSubset_ren hs) fun sub sub' hsub => ?_
    refine RelE.ite (by rw [hsub.length_eq]) (fun _ => ⟨rfl, hall hr.books⟩) (fun _ => ?_)
    have hmin : ∀ {l l' : List Order}, RenL ρ l l' → RelE (RenO ρ) (pyMinBy (·.buy) (l.filter (fun o => decide (o.buy > 0))))
        (pyMinBy (·.buy) (l'.filter (fun o => decide (o.buy > 0)))) := fun h =>
      pyMinBy_rel (filter_rel h (by rintro a _ rfl; rfl)) (by rintro a _ rfl; rfl)
    refine RelE.bind (hmin hr.books.b) ?_
    rintro bm _ rfl
    refine RelE.bind (hmin hr.books.s) ?_
    rintro sm _ rfl
    rw [show (ρ.pair pair).1 = ρ.tok pair.1 from rfl, show (ρ.pair pair).2 = ρ.tok pair.2 from rfl, ren_get, ren_get]
    refine RelE.bind_same fun pb => RelE.bind_same fun ps => ?_
    have hdel : ∀ {l l' : List Order} (o : Order), RenL ρ l l' → RenL ρ (l.filter (fun x => decide (x.id ≠ o.id)))
        (l'.filter (fun x => decide (x.id ≠ (ρ.order o).id))) := fun o h => filter_rel h (by rintro a _ rfl; rfl)
    have happ : ∀ {bk bk' : Books} {g g' : List Order}, RenL ρ g g' → RenBk ρ bk bk' → RenL ρ (bk.b ++ bk.s ++ bk.f ++ g) (bk'.b ++ bk'.s ++ bk'.f ++ g') :=
      fun hg h => append_rel (append_rel (append_rel h.b h.s) h.f) hg
    refine RelE.ite Iff.rfl (fun _ => ?_) (fun _ => ?_)
    · exact ih ⟨hdel bm hr.books.b, hr.books.s, hr.books.f⟩ (List.Forall₂.cons rfl hg) hr.sol (happ (List.Forall₂.cons rfl hg))
    · exact ih ⟨hr.books.b, hdel sm hr.books.s, hr.books.f⟩ (List.Forall₂.cons rfl hg) hr.sol (happ (List.Forall₂.cons rfl hg))

end Dex
