import Verif.Proof.Rel

/-! # The matching of a pair does not depend on executed amounts left by earlier matchings -/

namespace Dex

open Spec

theorem maxSells_rel {l l' : List Order} (h : RelB l l') : l.map (·.maxSell) = l'.map (·.maxSell) :=
  map_rel h (by intro a b hab; obtain ⟨_, _, rfl⟩ := sameButExec_iff.1 hab; rfl)

theorem maxXrates_rel {l l' : List Order} (h : RelB l l') : l.map (·.maxXrate) = l'.map (·.maxXrate) :=
  map_rel h (by intro a b hab; obtain ⟨_, _, rfl⟩ := sameButExec_iff.1 hab; rfl)

theorem buys_rel {l l' : List Order} (h : RelS l l') : l.map (·.buy) = l'.map (·.buy) :=
  map_rel h (by rintro a b ⟨v, rfl⟩; rfl)

theorem countNrExec_rel {l l' : List Order} (h : RelS l l') : countNrExec l = countNrExec l' :=
  countP_rel h (by rintro a b ⟨v, rfl⟩; rfl)

theorem prune_rel {fee : Fee} {b b' s s' : List Order} (hb : RelB b b') (hs : RelB s s') :
    RelE RelB2 (pruneUnrealizable b s fee) (pruneUnrealizable b' s' fee) := by
  unfold pruneUnrealizable
  dsimp only
  rw [maxXrates_rel hb, maxXrates_rel hs]
  refine RelE.bind_same fun bMax => RelE.bind_same fun sMax => ?_
  refine RelE.bind (filterE_rel hb (by intro a b hab; obtain ⟨_, _, rfl⟩ := sameButExec_iff.1 hab; rfl)) fun b1 b2 h1 => ?_
  refine RelE.bind (filterE_rel hs (by intro a b hab; obtain ⟨_, _, rfl⟩ := sameButExec_iff.1 hab; rfl)) fun s1 s2 h2 => ?_
  exact ⟨h1, h2⟩

theorem imbalance_rel {b b' s s' : List Order} {x p : ℚ} {fee : Fee} (hb : RelS b b') (hs : RelS s s') :
    bBuyTokenImbalance b s x p fee = bBuyTokenImbalance b' s' x p fee := by
  unfold bBuyTokenImbalance
  dsimp only
  rw [buys_rel hb]
  refine RelE.to_eq (RelE.bind_same fun inv => RelE.bind_same fun _ => RelE.bind (R := Eq) (RelE.of_eq ?_) fun t t' e => e ▸ RelE.of_eq rfl)
  exact sumE_rel hs (by rintro a b ⟨v, rfl⟩; rfl)

theorem objectiveForOrders_rel {l l' : List Order} {x p : ℚ} {fee : Fee} (h : RelS l l') :
    objectiveForOrders l x p fee = objectiveForOrders l' x p fee := sumE_rel h (by rintro a b ⟨v, rfl⟩; rfl)

theorem objectiveRational_rel {cfg : Config} {b b' s s' f f' : List Order} {x p : ℚ} {fee : Fee} (hb : RelS b b') (hs : RelS s s') (hf : RelS f f') :
    computeObjectiveRational cfg b s f x p fee = computeObjectiveRational cfg b' s' f' x p fee := by
  have h2 : ∀ x p, objectiveForOrders s x p fee = objectiveForOrders s' x p fee := fun _ _ => objectiveForOrders_rel hs
  have h3 : ∀ x p, objectiveForOrders f x p fee = objectiveForOrders f' x p fee := fun _ _ => objectiveForOrders_rel hf
  unfold computeObjectiveRational
  simp only [objectiveForOrders_rel hb, h2, h3, imbalance_rel hb hs]

theorem solverObjective_rel {cfg : Config} {fee : Fee} {b b' s s' : List Order} (hb : RelB b b') (hs : RelB s s') :
    solverObjective cfg fee b s = solverObjective cfg fee b' s' := by
  funext x
  refine RelE.to_eq ?_
  unfold solverObjective
  refine RelE.bind (computeBuyAmounts_rel hb hs) fun r r' h => RelE.of_eq ?_
  exact objectiveRational_rel h.1 h.2 List.Forall₂.nil

theorem solveTrivial_rel {cfg : Config} {fee : Fee} {b b' s s' : List Order} (hb : RelB b b') (hs : RelB s s') :
    solveTrivial cfg fee b s = solveTrivial cfg fee b' s' := by
  have : trivialCandidates b s fee = trivialCandidates b' s' fee := by
    unfold trivialCandidates
    dsimp only
    rw [map_rel (f := fun o => root1 o fee) (g := fun o => root1 o fee) hb
      (by intro a b hab; obtain ⟨_, _, rfl⟩ := sameButExec_iff.1 hab; rfl)]
    refine RelE.to_eq (RelE.bind (mapE_rel (Q := Eq) hs ?_) fun l l' e => ?_)
    · intro a b hab
      obtain ⟨_, _, rfl⟩ := sameButExec_iff.1 hab
      exact RelE.of_eq rfl
    · rw [List.forall₂_eq_eq_eq] at e
      exact e ▸ RelE.of_eq rfl
  unfold solveTrivial
  rw [this, solverObjective_rel hb hs]

/-- Related variants. -/
structure RelV (v v' : Variant) : Prop where
  isB : v.isB = v'.isB
  xrate : v.xrate = v'.xrate
  data : SameButExec v.data v'.data

/-- Related interval data. -/
structure RelI (d d' : IntervalData) : Prop where
  lb : d.lb = d'.lb
  ub : d.ub = d'.ub
  b : RelB d.b d'.b
  s : RelB d.s d'.s
  bp : d.bPartial = d'.bPartial
  sp : d.sPartial = d'.sPartial

/-- Related loop states. -/
structure RelIS (st st' : IntervalState) : Prop where
  prev : st.prev = st'.prev
  b : RelB st.bExec st'.bExec
  s : RelB st.sExec st'.sExec
  bUb : st.bUb = st'.bUb
  sUb : st.sUb = st'.sUb

theorem maxSell_same {o o' : Order} (h : SameButExec o o') : o.maxSell = o'.maxSell := by
  obtain ⟨_, _, rfl⟩ := sameButExec_iff.1 h; rfl

theorem maxXrate_same {o o' : Order} (h : SameButExec o o') : o.maxXrate = o'.maxXrate := by
  obtain ⟨_, _, rfl⟩ := sameButExec_iff.1 h; rfl

theorem partialIdxLoop_rel {lb ub : ℚ} {i : ℕ} {cur : ℚ} {l l' : List Order} (h : RelB l l') :
    partialIdxLoop lb ub i cur l = partialIdxLoop lb ub i cur l' := by
  induction h generalizing i cur with
  | nil => rfl
  | cons h _ ih =>
    unfold partialIdxLoop
    rw [maxSell_same h, ih]

theorem intervalUpdate_rel {st st' : IntervalState} {v v' : Variant} (h : RelIS st st') (hv : RelV v v') :
    RelE RelIS (intervalUpdate st v) (intervalUpdate st' v') := by
  obtain ⟨p, b, s, bu, su⟩ := st
  obtain ⟨p', b', s', bu', su'⟩ := st'
  obtain ⟨rfl, hb, hs, rfl, rfl⟩ := h
  unfold intervalUpdate
  rw [hv.isB]
  refine RelE.ite Iff.rfl (fun _ => ?_) (fun _ => ?_)
  · exact RelIS.mk rfl (List.Forall₂.cons hv.data hb) hs (by rw [maxSell_same hv.data]) rfl
  · cases hs with
    | nil => rfl
    | cons _ ht => exact RelIS.mk rfl hb ht rfl (by rw [maxSell_same hv.data])

theorem intervalYields_rel {st st' : IntervalState} {xl xu : ℚ} {fee : Fee} (h : RelIS st st') :
    RelE (List.Forall₂ RelI) (intervalYields st xl xu fee) (intervalYields st' xl xu fee) := by
  obtain ⟨p, b, s, bu, su⟩ := st
  obtain ⟨p', b', s', bu', su'⟩ := st'
  obtain ⟨rfl, hb, hs, rfl, rfl⟩ := h
  dsimp only at hb hs
  unfold intervalYields
  dsimp only
  refine RelE.bind (pyGet_rel hb 0) fun b0 b1 h1 => RelE.bind (pyGet_rel hs 0) fun s0 s1 h2 => ?_
  rw [maxSell_same h1, maxSell_same h2]
  have hmap : ∀ (l : List ℕ) (F : ℕ → IntervalData) (G : ℕ → IntervalData), (∀ i, RelI (F i) (G i)) → List.Forall₂ RelI (l.map F) (l.map G) := by
    intro l F G hFG
    induction l with
    | nil => exact List.Forall₂.nil
    | cons i l ih => exact List.Forall₂.cons (hFG i) ih
  have hB : ∀ a c, bPartialIdxs b a c xl xu fee = bPartialIdxs b' a c xl xu fee := by
    intro a c
    unfold bPartialIdxs
    rw [maxSells_rel hb, partialIdxLoop_rel hb]
  have hS : ∀ a c, sPartialIdxs s a c xl xu fee = sPartialIdxs s' a c xl xu fee := by
    intro a c
    unfold sPartialIdxs
    simp only [maxSells_rel hs, partialIdxLoop_rel hs]
  rw [hB, hS]
  refine RelE.bind_same fun js => ?_
  exact append_rel (hmap _ _ _ fun i => ⟨rfl, rfl, hb, hs, rfl, rfl⟩) (hmap _ _ _ fun i => ⟨rfl, rfl, hb, hs, rfl, rfl⟩)

theorem intervalLoop_rel {fee : Fee} {opt : Option ℚ} {st st' : IntervalState} {l l' : List Variant} (h : RelIS st st')
    (hl : List.Forall₂ RelV l l') : RelE (List.Forall₂ RelI) (intervalLoop fee opt st l) (intervalLoop fee opt st' l') := by
  induction hl generalizing st st' with
  | nil => unfold intervalLoop; exact List.Forall₂.nil
  | @cons v v' l l' hv hl ih =>
    cases hl with
    | nil => unfold intervalLoop; exact List.Forall₂.nil
    | @cons w w' l l' hw hl =>
      unfold intervalLoop
      refine RelE.bind (intervalUpdate_rel h hv) fun s1 s2 h' => ?_
      have hnext : RelIS { s1 with prev := some v'.xrate } { s2 with prev := some v'.xrate } := ⟨rfl, h'.b, h'.s, h'.bUb, h'.sUb⟩
      have hskip : skipInterval opt s1.prev v w = skipInterval opt s2.prev v' w' := by
        unfold skipInterval
        rw [hv.xrate, hw.xrate, h'.prev]
      dsimp only
      rw [hskip, hv.xrate, hw.xrate]
      refine RelE.ite Iff.rfl (fun _ => ih hnext) (fun _ => ?_)
      refine RelE.ite (by rw [h'.b.length_eq]) (fun _ => ih hnext) (fun _ => ?_)
      refine RelE.ite (by rw [h'.s.length_eq]) (fun _ => List.Forall₂.nil) (fun _ => ?_)
      refine RelE.bind (intervalYields_rel h') fun ys ys' hy => RelE.bind (ih hnext) fun more more' hm => ?_
      exact append_rel hy hm

theorem xrateIntervals_rel {b b' s s' : List Order} {fee : Fee} {opt : Option ℚ} (hb : RelB b b') (hs : RelB s s') :
    RelE (List.Forall₂ RelI) (xrateIntervals b s fee opt) (xrateIntervals b' s' fee opt) := by
  unfold xrateIntervals
  dsimp only
  rw [hb.length_eq, hs.length_eq]
  refine RelE.bind_same fun _ => RelE.bind (mapE_rel (Q := RelV) hs ?_) fun vs vs' hv => ?_
  · intro a b hab
    rw [maxXrate_same hab]
    exact RelE.bind_same fun x => RelV.mk rfl rfl hab
  · have hall := insertionSort_rel (r := fun a b : Variant => b.xrate ≤ a.xrate) (r' := fun a b : Variant => b.xrate ≤ a.xrate)
      (append_rel (map_forall₂ (Q := RelV) (f := fun o => { isB := true, xrate := o.maxXrate * (1 - fee.value), data := o : Variant })
        (g := fun o => { isB := true, xrate := o.maxXrate * (1 - fee.value), data := o : Variant }) hb
        (fun a b hab => ⟨rfl, by rw [maxXrate_same hab], hab⟩)) hv)
      (fun a b a' b' h1 h2 => by rw [h1.xrate, h2.xrate])
    refine intervalLoop_rel ⟨rfl, List.Forall₂.nil, ?_, rfl, by rw [maxSells_rel hs]⟩ hall
    refine map_forall₂ (filter_rel hall ?_) fun a b hab => hab.data
    intro a b hab
    rw [hab.isB]

theorem computeConstants_rel {d d' : IntervalData} {fee : Fee} (h : RelI d d') : computeConstants d fee = computeConstants d' fee := by
  obtain ⟨lb, ub, b, s, bp, sp⟩ := d
  obtain ⟨lb', ub', b', s', bp', sp'⟩ := d'
  obtain ⟨rfl, rfl, hb, hs, rfl, rfl⟩ := h
  dsimp only at hb hs
  unfold computeConstants
  dsimp only
  refine RelE.to_eq (RelE.bind (pyGet_rel hb bp) fun b0 b1 h1 => RelE.bind (pyGet_rel hs sp) fun s0 s1 h2 => ?_)
  have hq : ∀ a b : Order, SameButExec a b → pyDiv a.maxSell a.maxXrate = pyDiv b.maxSell b.maxXrate := by
    intro a b hab
    rw [maxSell_same hab, maxXrate_same hab]
  have hc : cConstant b bp s sp fee = cConstant b' bp s' sp fee := by
    unfold cConstant
    dsimp only
    rw [maxSells_rel (List.forall₂_drop _ hb), maxSells_rel (List.forall₂_take _ hb)]
    refine RelE.to_eq (RelE.bind (R := Eq) (RelE.of_eq (sumE_rel (List.forall₂_drop _ hs) hq)) fun x y e => ?_)
    subst e
    refine RelE.bind (R := Eq) (RelE.of_eq (sumE_rel (List.forall₂_take _ hs) hq)) fun x y e => ?_
    subst e
    exact RelE.of_eq rfl
  rw [hc, maxSell_same h1, maxXrate_same h1, maxSell_same h2, maxXrate_same h2]
  unfold sumYbF
  rw [maxSells_rel (List.forall₂_drop _ hb), maxSells_rel (List.forall₂_drop _ hs)]
  exact RelE.of_eq rfl

theorem solveInterval_rel {cfg : Config} {sqrt : ℚ → Py ℚ} {fee : Fee} {d d' : IntervalData} (h : RelI d d') :
    solveInterval cfg sqrt fee d = solveInterval cfg sqrt fee d' := by
  unfold solveInterval localOptima
  simp only [computeConstants_rel h, h.lb, h.ub, solverObjective_rel h.b h.s]

theorem findBestXrate_rel {cfg : Config} {sqrt : ℚ → Py ℚ} {fee : Fee} {b b' s s' : List Order} (hb : RelB b b') (hs : RelB s s') :
    findBestXrate cfg sqrt b s fee = findBestXrate cfg sqrt b' s' fee := by
  refine RelE.to_eq ?_
  unfold findBestXrate
  refine RelE.bind (prune_rel hb hs) fun r r' h => ?_
  dsimp only
  rw [solveTrivial_rel h.1 h.2]
  refine RelE.bind_same fun triv => RelE.bind (xrateIntervals_rel h.1 h.2) fun ivs ivs' hi => ?_
  refine RelE.bind (mapE_rel (Q := Eq) hi fun d d' hd => RelE.of_eq (solveInterval_rel hd)) fun rs rs' hrs => ?_
  rw [List.forall₂_eq_eq_eq] at hrs
  subst hrs
  exact RelE.of_eq rfl

/-- The search returns a rate or raises. -/
theorem findBestXrate_isSome {cfg : Config} {sqrt : ℚ → Py ℚ} {fee : Fee} {b s : List Order} {r : Option (ℚ × ℚ)}
    (h : findBestXrate cfg sqrt b s fee = .ok r) : r ≠ none := by
  unfold findBestXrate at h
  simp only [bind_eq_ok] at h
  obtain ⟨⟨b', s'⟩, _, triv, ht, ivs, hi, rs, _, h⟩ := h
  dsimp only at ht hi
  have hsome : triv ≠ none := by
    intro e
    subst e
    unfold solveTrivial at ht
    rw [bind_eq_ok] at ht
    obtain ⟨xs, hx, ht⟩ := ht
    split at ht
    · rename_i h0
      unfold xrateIntervals at hi
      rw [bind_eq_ok] at hi
      obtain ⟨_, ha, _⟩ := hi
      rw [pyAssert_eq_ok] at ha
      unfold trivialCandidates at hx
      simp only [bind_eq_ok] at hx
      obtain ⟨r2, _, hx⟩ := hx
      cases hx
      have hnil := List.length_eq_zero_iff.1 h0
      obtain ⟨o, hb⟩ := List.exists_mem_of_length_pos ha.1
      have hmem : root1 o fee ∈ sortDistinct (b'.map (fun o => root1 o fee) ++ r2) := by
        unfold sortDistinct
        rw [List.mem_dedup, (pySortBy_perm _ _).mem_iff, List.mem_append]
        exact .inl (List.mem_map_of_mem hb)
      rw [hnil] at hmem
      cases hmem
    · rw [bind_eq_ok] at ht
      obtain ⟨_, _, ht⟩ := ht
      cases ht
  obtain ⟨t, rfl⟩ := Option.ne_none_iff_exists'.1 hsome
  rw [if_neg (by simp)] at h
  rw [bind_eq_ok] at h
  obtain ⟨_, _, h⟩ := h
  cases h
  simp

/-! ### Solving a pair -/

theorem countSatisfyingXrate_rel {l l' : List Order} {x : ℚ} {fee : Fee} (h : RelB l l') :
    countSatisfyingXrate l x fee = countSatisfyingXrate l' x fee :=
  countP_rel h (by intro a b hab; rw [maxXrate_same hab])

theorem roundXrate_rel {p : Option ℚ} {x : ℚ} {b b' s s' : List Order} {fee : Fee} (hb : RelB b b') (hs : RelB s s') :
    roundXrate p x b s fee = roundXrate p x b' s' fee := by
  have h1 : ∀ x, countSatisfyingXrate b x fee = countSatisfyingXrate b' x fee := fun _ => countSatisfyingXrate_rel hb
  have h2 : ∀ x, countSatisfyingXrate s x fee = countSatisfyingXrate s' x fee := fun _ => countSatisfyingXrate_rel hs
  unfold roundXrate computeSBuyTokenPrice
  simp only [h1, h2]

/-- Related results of `solve_token_pair`. -/
abbrev RelR (r r' : Option ℚ × List Order × List Order) : Prop := r.1 = r'.1 ∧ RelS2 r.2 r'.2

theorem givenOrBestXrate_rel {cfg : Config} {sqrt : ℚ → Py ℚ} {b b' s s' : List Order} {fee : Fee} {xrate : Option ℚ} (hb : RelB b b') (hs : RelB s s') :
    RelE (fun r r' => r = r' ∧ r ≠ none) (givenOrBestXrate cfg sqrt b s fee xrate) (givenOrBestXrate cfg sqrt b' s' fee xrate) := by
  cases xrate with
  | some x => exact ⟨rfl, by simp⟩
  | none =>
    unfold givenOrBestXrate
    dsimp only
    rw [findBestXrate_rel hb hs]
    refine RelE.bind_same' fun r hr => ?_
    have := findBestXrate_isSome hr
    exact ⟨rfl, by simpa using this⟩

theorem solveTokenPair_rel {cfg : Config} {sqrt : ℚ → Py ℚ} {pair : Token × Token} {b b' s s' : List Order} {fee : Fee}
    {xrate bPrice : Option ℚ} {maxNr : ℤ} (hb : RelB b b') (hs : RelB s s') (hne : ¬ (b.length = 0 ∨ s.length = 0) ∨ (RelS b b' ∧ RelS s s')) :
    RelE RelR (solveTokenPair cfg sqrt pair b s fee xrate bPrice maxNr) (solveTokenPair cfg sqrt pair b' s' fee xrate bPrice maxNr) := by
  unfold solveTokenPair
  refine RelE.ite (by rw [hb.length_eq, hs.length_eq]) (fun h => ?_) (fun h => ?_)
  · exact ⟨rfl, hne.resolve_left (not_not.2 h)⟩
  dsimp only
  refine RelE.bind (givenOrBestXrate_rel hb hs) fun x x' hx => ?_
  obtain ⟨rfl, hx⟩ := hx
  cases x with
  | none => exact absurd rfl hx
  | some x =>
    dsimp only
    rw [roundXrate_rel hb hs]
    refine RelE.bind_same fun y => RelE.bind (computeBuyAmounts_rel hb hs) fun r r' hr => ?_
    exact ⟨rfl, hr⟩

theorem setMaxSell_rel {o o' : Order} {v : ℚ} (h : SameButSell o o') : RelE SameButSell (o.setMaxSell v) (o'.setMaxSell v) := by
  obtain ⟨w, rfl⟩ := h
  unfold Order.setMaxSell
  exact RelE.bind_same fun _ => ⟨w, rfl⟩

theorem roundingBufferEnter_rel {cfg : Config} {pair : Token × Token} {b b' s s' : List Order} {x p : ℚ} {fee : Fee} (hb : RelS b b') (hs : RelS s s') :
    RelE RelS2 (roundingBufferEnter cfg pair b s x p fee) (roundingBufferEnter cfg pair b' s' x p fee) := by
  unfold roundingBufferEnter
  refine RelE.bind (R := fun r r' => RelS r.1 r'.1 ∧ r.2 = r'.2) ?_ fun r r' h => ?_
  · unfold aggregateOrdersPrices
    exact RelE.bind_same fun _ => ⟨append_rel (append_rel hb hs) List.Forall₂.nil, rfl⟩
  obtain ⟨os, prices⟩ := r
  obtain ⟨os', prices'⟩ := r'
  obtain ⟨h, rfl⟩ := h
  refine RelE.bind (R := RelS) ?_ fun l l' hl => ?_
  · unfold setupRoundingBuffer
    refine RelE.bind_same fun amounts => mapE_rel h fun a b hab => ?_
    obtain ⟨w, rfl⟩ := hab
    unfold bufferOrder
    refine RelE.ite Iff.rfl (fun _ => ?_) (fun _ => ⟨w, rfl⟩)
    refine RelE.bind_same fun _ => RelE.bind_same fun _ => RelE.bind_same fun _ => RelE.bind_same fun _ => ?_
    exact RelE.bind_same fun _ => RelE.bind_same fun _ => setMaxSell_rel ⟨w, rfl⟩
  · rw [hb.length_eq]
    exact ⟨List.forall₂_take _ hl, List.forall₂_drop _ hl⟩

theorem restoreMaxSell_rel {l l' : List Order} {old : List ℚ} (h : RelS l l') : RelE RelS (restoreMaxSell l old) (restoreMaxSell l' old) := by
  unfold restoreMaxSell
  have hz : List.Forall₂ (fun p p' : Order × ℚ => SameButSell p.1 p'.1 ∧ p.2 = p'.2) (l.zip old) (l'.zip old) := by
    induction h generalizing old with
    | nil => simp
    | cons h _ ih =>
      cases old with
      | nil => simp
      | cons v old => exact List.Forall₂.cons ⟨h, rfl⟩ ih
  refine mapE_rel hz fun p p' hp => ?_
  rw [hp.2]
  exact setMaxSell_rel hp.1

theorem solveBuffered_rel {cfg : Config} {sqrt : ℚ → Py ℚ} {pair : Token × Token} {b b' s s' : List Order} {x p : ℚ} {fee : Fee} {maxNr : ℤ}
    (hb : RelS b b') (hs : RelS s s') :
    RelE RelR (solveBuffered cfg sqrt pair b s x p fee maxNr) (solveBuffered cfg sqrt pair b' s' x p fee maxNr) := by
  unfold solveBuffered
  refine RelE.bind (roundingBufferEnter_rel hb hs) fun r r' hr => ?_
  refine RelE.bind (solveTokenPair_rel hr.1.exec hr.2.exec (.inr hr)) fun t t' ht => ?_
  obtain ⟨x, b1, s1⟩ := t
  obtain ⟨x', b2, s2⟩ := t'
  obtain ⟨rfl, h1, h2⟩ := ht
  dsimp only
  rw [maxSells_rel hb.exec, maxSells_rel hs.exec]
  refine RelE.bind (restoreMaxSell_rel h1) fun b3 b4 h3 => RelE.bind (restoreMaxSell_rel h2) fun s3 s4 h4 => ?_
  exact ⟨rfl, h3, h4⟩

/-- Related books: `b` and `s` up to sell amounts, the same `f`. -/
structure RelK (bk bk' : Books) : Prop where
  b : RelS bk.b bk'.b
  s : RelS bk.s bk'.s
  f : bk.f = bk'.f

/-- Related results of the inner matching. -/
structure RelG (r r' : GivenResult) : Prop where
  objective : r.objective = r'.objective
  xrate : r.xrate = r'.xrate
  bPrice : r.bPrice = r'.bPrice
  books : RelK r.books r'.books

theorem relS_refl (l : List Order) : RelS l l := List.forall₂_same.2 fun o _ => ⟨o.sell, rfl⟩

theorem givenExecF_rel {cfg : Config} {sqrt : ℚ → Py ℚ} {n : ℕ} {imb : ℚ} {pair : Token × Token} {bk bk' : Books} {x : ℚ} {fee : Fee}
    (h : RelK bk bk') : RelE RelG (givenExecF cfg sqrt n imb pair bk x fee) (givenExecF cfg sqrt n imb pair bk' x fee) := by
  obtain ⟨b, s, f⟩ := bk
  obtain ⟨b', s', f'⟩ := bk'
  obtain ⟨hb, hs, rfl⟩ := h
  unfold givenExecF
  refine RelE.bind_same fun pf => ?_
  dsimp only
  refine RelE.ite Iff.rfl (fun _ => ⟨rfl, rfl, rfl, hb, hs, rfl⟩) (fun _ => ?_)
  refine RelE.bind (solveBuffered_rel hb hs) fun r r' hr => ?_
  obtain ⟨y, b1, s1⟩ := r
  obtain ⟨y', b2, s2⟩ := r'
  obtain ⟨rfl, h1, h2⟩ := hr
  cases y with
  | none => rfl
  | some y =>
    dsimp only
    rw [objectiveRational_rel h1 h2 (relS_refl _)]
    exact RelE.bind_same fun _ => ⟨rfl, rfl, rfl, h1, h2, rfl⟩

/-- Related best results. -/
def RelO (o o' : Option GivenResult) : Prop := (o = none ∧ o' = none) ∨ ∃ r r', o = some r ∧ o' = some r' ∧ RelG r r'

/-- Related states of the loop over fee-order counts. -/
structure RelF (st st' : FLoopState) : Prop where
  best : RelO st.best st'.best
  b : RelS st.books.b st'.books.b
  s : RelS st.books.s st'.books.s
  f : RelB st.books.f st'.books.f

theorem relB_refl (l : List Order) : RelB l l := List.forall₂_same.2 fun _ _ => rfl

theorem fOrdersLoop_rel {cfg : Config} {sqrt : ℚ → Py ℚ} {imb : ℚ} {pair : Token × Token} {x : ℚ} {fee : Fee} {ns : List ℕ} {st st' : FLoopState}
    (h : RelF st st') : RelE RelF (fOrdersLoop cfg sqrt imb pair x fee ns st) (fOrdersLoop cfg sqrt imb pair x fee ns st') := by
  induction ns generalizing st st' with
  | nil => exact h
  | cons n ns ih =>
    unfold fOrdersLoop
    have hf : st.books.f.map (fun o => (o.withBuy 0).withSell 0) = st'.books.f.map (fun o => (o.withBuy 0).withSell 0) :=
      map_rel h.f (by intro a b hab; obtain ⟨_, _, rfl⟩ := sameButExec_iff.1 hab; rfl)
    dsimp only
    refine RelE.bind (givenExecF_rel (RelK.mk h.b h.s hf)) fun r r' hr => ?_
    have hbk : RelB r.books.f r'.books.f := hr.books.f ▸ relB_refl _
    rw [← hr.bPrice]
    cases r.bPrice with
    | none => exact ih ⟨h.best, hr.books.b, hr.books.s, hbk⟩
    | some p =>
      dsimp only
      rcases h.best with ⟨e, e'⟩ | ⟨t, t', e, e', ht⟩
      · rw [e, e']
        exact ih ⟨.inr ⟨_, _, rfl, rfl, hr⟩, hr.books.b, hr.books.s, hbk⟩
      · rw [e, e']
        dsimp only
        rw [hr.objective, ht.objective]
        refine RelE.ite Iff.rfl (fun _ => ?_) (fun _ => RelE.bind_same fun _ => ?_)
        · exact RelF.mk (.inr ⟨t, t', rfl, rfl, ht⟩) hr.books.b hr.books.s hbk
        · exact ih ⟨.inr ⟨_, _, rfl, rfl, hr⟩, hr.books.b, hr.books.s, hbk⟩

theorem mapE_eq_of_rel {α β : Type} {R : α → α → Prop} {f : α → Py β} {l l' : List α} (h : List.Forall₂ R l l') (hf : ∀ a b, R a b → f a = f b) :
    mapE f l = mapE f l' := by
  induction h with
  | nil => rfl
  | cons h _ ih => unfold mapE; rw [hf _ _ h, ih]

theorem aggregateAndRound_rel {cfg : Config} {ext : Ext} {pair : Token × Token} {bk bk' : Books} {x p : ℚ} {fee : Fee}
    (hb : RelS bk.b bk'.b) (hs : RelS bk.s bk'.s) (hf : RelS bk.f bk'.f) :
    aggregateAndRound cfg ext pair bk x p fee = aggregateAndRound cfg ext pair bk' x p fee := by
  have h : mapE (roundOrder (dictSet (dictSet [(fee.token, (cfg.feeTokenPrice : ℚ))] pair.1 p) pair.2 (p / x)) fee) (bk.b ++ bk.s ++ bk.f) =
      mapE (roundOrder (dictSet (dictSet [(fee.token, (cfg.feeTokenPrice : ℚ))] pair.1 p) pair.2 (p / x)) fee) (bk'.b ++ bk'.s ++ bk'.f) := by
    refine mapE_eq_of_rel (append_rel (append_rel hb hs) hf) ?_
    rintro a b ⟨v, rfl⟩
    rfl
  unfold aggregateAndRound aggregateOrdersPrices pyDiv
  split
  · rfl
  · simp only [ok_bind, pure_eq_ok, roundSolution]
    rw [h]

/-- Related books, all up to executed amounts. -/
structure RelBk (bk bk' : Books) : Prop where
  b : RelB bk.b bk'.b
  s : RelB bk.s bk'.s
  f : RelB bk.f bk'.f

/-- Related matching results: the same solution. -/
structure RelM (r r' : MatchResult) : Prop where
  sol : r.sol = r'.sol
  books : RelBk r.books r'.books

theorem id_same (a b : Order) (h : SameButExec a b) : a.id = b.id := by
  obtain ⟨_, _, rfl⟩ := sameButExec_iff.1 h; rfl

/-- Related books: `b` and `s` up to sell amounts, `f` up to executed amounts. -/
structure RelKB (bk bk' : Books) : Prop where
  b : RelS bk.b bk'.b
  s : RelS bk.s bk'.s
  f : RelB bk.f bk'.f

/-- Related matching results with the same buy amounts. -/
structure RelMS (r r' : MatchResult) : Prop where
  sol : r.sol = r'.sol
  books : RelKB r.books r'.books

theorem id_sameS (a b : Order) (h : SameButSell a b) : a.id = b.id := by
  obtain ⟨_, rfl⟩ := h; rfl

theorem solveOriented_relS {cfg : Config} {ext : Ext} {pair : Token × Token} {b b' s s' f f' : List Order} {fee : Fee} {xrate : Option ℚ}
    (hb : RelB b b') (hs : RelB s s') (hf : RelB f f') (hne : ¬ (b.length = 0 ∨ s.length = 0)) :
    RelE RelMS (solveOriented cfg ext pair b s f fee xrate) (solveOriented cfg ext pair b' s' f' fee xrate) := by
  unfold solveOriented
  refine RelE.bind (solveTokenPair_rel hb hs (.inl hne)) fun r r' hr => ?_
  obtain ⟨x, b1, s1⟩ := r
  obtain ⟨x', b2, s2⟩ := r'
  obtain ⟨rfl, h1, h2⟩ := hr
  dsimp only at h1 h2 ⊢
  refine RelE.ite (by rw [countNrExec_rel h1]) (fun _ => ⟨rfl, h1, h2, hf⟩) (fun _ => ?_)
  cases x with
  | none => rfl
  | some x =>
    dsimp only
    refine RelE.ite Iff.rfl (fun _ => ?_) (fun _ => RelE.ite (by rw [hf.length_eq]) (fun _ => ⟨rfl, h1, h2, hf⟩) (fun _ => ?_))
    · rw [aggregateAndRound_rel (bk := { b := b1, s := s1, f := [] }) (bk' := { b := b2, s := s2, f := [] }) h1 h2 List.Forall₂.nil]
      exact RelE.bind_same fun so => ⟨rfl, writeBack_rel id_sameS h1 (relS_refl _), writeBack_rel id_sameS h2 (relS_refl _), hf⟩
    · rw [imbalance_rel h1 h2]
      refine RelE.bind_same fun imb => ?_
      have hn : nrFOrders cfg b1 s1 f = nrFOrders cfg b2 s2 f' := by
        unfold nrFOrders
        rw [countNrExec_rel h1, countNrExec_rel h2, hf.length_eq]
      rw [hn]
      refine RelE.bind_same fun mm => ?_
      refine RelE.ite Iff.rfl (fun _ => ⟨rfl, h1, h2, hf⟩) (fun _ => ?_)
      refine RelE.bind (fOrdersLoop_rel (⟨.inl ⟨rfl, rfl⟩, h1, h2, sorted_rel (fun _ _ h => h) hf⟩ :
        RelF { best := none, books := { b := b1, s := s1, f := sortedByExecPriority f } }
          { best := none, books := { b := b2, s := s2, f := sortedByExecPriority f' } })) fun st st' hst => ?_
      have hbk : RelKB { st.books with f := writeBack f st.books.f } { st'.books with f := writeBack f' st'.books.f } :=
        ⟨hst.b, hst.s, writeBack_rel id_same hf hst.f⟩
      rcases hst.best with ⟨e, e'⟩ | ⟨t, t', e, e', ht⟩
      · rw [e, e']
        exact ⟨rfl, hbk⟩
      · rw [e, e']
        dsimp only
        rw [← ht.bPrice, ← ht.xrate]
        cases t.bPrice with
        | none => exact ⟨rfl, hbk⟩
        | some p =>
          dsimp only
          rw [aggregateAndRound_rel ht.books.b ht.books.s (ht.books.f ▸ relS_refl _)]
          exact RelE.bind_same fun _ => ⟨rfl, hbk⟩

theorem solveOriented_rel {cfg : Config} {ext : Ext} {pair : Token × Token} {b b' s s' f f' : List Order} {fee : Fee} {xrate : Option ℚ}
    (hb : RelB b b') (hs : RelB s s') (hf : RelB f f') (hne : ¬ (b.length = 0 ∨ s.length = 0)) :
    RelE RelM (solveOriented cfg ext pair b s f fee xrate) (solveOriented cfg ext pair b' s' f' fee xrate) :=
  (solveOriented_relS hb hs hf hne).mono fun _ _ h => ⟨h.sol, h.books.b.exec, h.books.s.exec, h.books.f⟩

theorem solveTokenPairAndFee_rel {cfg : Config} {ext : Ext} {pair : Token × Token} {b b' s s' f f' : List Order} {fee : Fee} {xrate : Option ℚ}
    (hb : RelB b b') (hs : RelB s s') (hf : RelB f f') :
    RelE RelM (solveTokenPairAndFee cfg ext pair b s f fee xrate) (solveTokenPairAndFee cfg ext pair b' s' f' fee xrate) := by
  unfold solveTokenPairAndFee
  refine RelE.bind (prune_rel hb hs) fun r r' hr => ?_
  refine RelE.ite (by rw [hr.1.length_eq, hr.2.length_eq]) (fun _ => ⟨rfl, hb, hs, hf⟩) (fun hne => ?_)
  refine RelE.ite Iff.rfl (fun _ => ?_) (fun _ => ?_)
  · refine RelE.bind (solveOriented_rel hr.2 hr.1 hf (fun h => hne h.symm)) fun t t' ht => ?_
    exact ⟨ht.sol, writeBack_rel id_same hb ht.books.s, writeBack_rel id_same hs ht.books.b, ht.books.f⟩
  · refine RelE.bind (solveOriented_rel hr.1 hr.2 hf hne) fun t t' ht => ?_
    exact ⟨ht.sol, writeBack_rel id_same hb ht.books.b, writeBack_rel id_same hs ht.books.s, ht.books.f⟩

/-- Related results of the viability search. -/
abbrev RelE2 (r r' : Solution × List Order) : Prop := r.1 = r'.1 ∧ RelB r.2 r'.2

/-- Without thresholds the first matching is accepted. -/
theorem economicLoop_rel {cfg : Config} {ext : Ext} {pair : Token × Token} {b b' s s' f f' : List Order} {fee : Fee} {xrate : Option ℚ} {fuel : ℕ}
    (hn1 : cfg.minAvgFee = 0) (hn2 : cfg.minAbsFee = 0) (hb : RelB b b') (hs : RelB s s') (hf : RelB f f') :
    RelE RelE2 (economicLoop cfg ext pair fee xrate fuel { b, s, f } [] .trivial) (economicLoop cfg ext pair fee xrate fuel { b := b', s := s', f := f' } [] .trivial) := by
  have hall : ∀ {bk bk' : Books}, RelBk bk bk' → RelB (bk.b ++ bk.s ++ bk.f ++ []) (bk'.b ++ bk'.s ++ bk'.f ++ []) := fun h =>
    append_rel (append_rel (append_rel h.b h.s) h.f) List.Forall₂.nil
  cases fuel with
  | zero => rfl
  | succ fuel =>
    unfold economicLoop
    refine RelE.ite (by rw [hb.length_eq, hs.length_eq]) (fun _ => ?_) (fun _ => ⟨rfl, hall ⟨hb, hs, hf⟩⟩)
    refine RelE.bind (solveTokenPairAndFee_rel hb hs hf) fun r r' hr => ?_
    have hv : ∀ os prices, isEconomicViable cfg os prices fee = .ok true := by
      intro os prices
      unfold isEconomicViable
      split
      · rfl
      · rw [if_pos ⟨hn1, hn2⟩]; rfl
    rw [hv, hv, ok_bind, ok_bind, if_pos (.inl rfl), if_pos (.inl rfl)]
    exact ⟨hr.sol, hall hr.books⟩

theorem matchTokenPair_rel {cfg : Config} {ext : Ext} {pair : Token × Token} {accounts : Accounts} {orders orders' : List Order} {fee : Fee}
    (hn1 : cfg.minAvgFee = 0) (hn2 : cfg.minAbsFee = 0) (h : RelB orders orders') :
    RelE RelE2 (matchTokenPair cfg ext pair accounts orders fee) (matchTokenPair cfg ext pair accounts orders' fee) := by
  have hsel : ∀ x y, RelB (ordersBuyingSelling orders x y) (ordersBuyingSelling orders' x y) := fun x y =>
    filter_rel h (by intro a b hab; obtain ⟨_, _, rfl⟩ := sameButExec_iff.1 hab; rfl)
  unfold matchTokenPair
  dsimp only
  refine RelE.ite (by rw [(hsel _ _).length_eq]) (fun _ => ⟨rfl, h⟩) (fun _ => ?_)
  refine RelE.ite (by rw [(hsel _ _).length_eq]) (fun _ => ⟨rfl, h⟩) (fun _ => ?_)
  have hf : RelB (if pair.1 ≠ fee.token then ordersBuyingSelling orders pair.1 fee.token else [])
      (if pair.1 ≠ fee.token then ordersBuyingSelling orders' pair.1 fee.token else []) := by
    split
    · exact hsel _ _
    · exact List.Forall₂.nil
  refine RelE.ite (by rw [hf.length_eq]) (fun _ => ⟨rfl, h⟩) (fun _ => ?_)
  refine RelE.bind (R := RelE2) ?_ fun r r' hr => ?_
  · unfold solveEconomicViable
    rw [(hsel _ _).length_eq, (hsel _ _).length_eq]
    refine RelE.bind (economicLoop_rel hn1 hn2 (hsel _ _) (hsel _ _) hf) fun r r' hr => ?_
    obtain ⟨sol, objs⟩ := r
    obtain ⟨sol', objs'⟩ := r'
    obtain ⟨rfl, ho⟩ := hr
    exact RelE.bind_same fun _ => ⟨rfl, ho⟩
  · exact ⟨hr.1, writeBack_rel id_same h hr.2⟩

theorem matchAndEvaluate_rel {cfg : Config} {ext : Ext} {pair : Token × Token} {accounts : Accounts} {orders orders' : List Order} {fee : Fee}
    (hn1 : cfg.minAvgFee = 0) (hn2 : cfg.minAbsFee = 0) (h : RelB orders orders') :
    RelE (fun r r' => r.1 = r'.1 ∧ r.2.1 = r'.2.1) (matchAndEvaluate cfg ext pair accounts orders fee)
      (matchAndEvaluate cfg ext pair accounts orders' fee) := by
  unfold matchAndEvaluate
  refine RelE.bind (matchTokenPair_rel hn1 hn2 h) fun r r' hr => ?_
  obtain ⟨sol, os⟩ := r
  obtain ⟨sol', os'⟩ := r'
  obtain ⟨rfl, _⟩ := hr
  exact RelE.bind_same fun _ => RelE.bind_same fun _ => ⟨rfl, rfl⟩

end Dex
