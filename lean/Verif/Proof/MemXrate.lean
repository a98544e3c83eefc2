import Verif.Proof.Sim
import Verif.Proof.Interval

/-! # The rate search on mutable objects -/

namespace Dex

variable {X : Prop}

/-- Only buy amounts of the listed objects have changed (and the cache). -/
def Scratch (l : List Ref) (m m' : Mem) : Prop := Heap.Frame l m.heap m'.heap ∧ m'.next = m.next

theorem Scratch.refl (l : List Ref) (m : Mem) : Scratch l m m := ⟨Heap.Frame.refl _ _, rfl⟩

theorem Scratch.trans {l : List Ref} {m m' m'' : Mem} (a : Scratch l m m') (b : Scratch l m' m'') : Scratch l m m'' :=
  ⟨a.1.trans b.1, b.2.trans a.2⟩

theorem Scratch.mono {l l' : List Ref} {m m' : Mem} (a : Scratch l m m') (hs : ∀ r ∈ l, r ∈ l') : Scratch l' m m' :=
  ⟨a.1.mono hs, a.2⟩

/-- Distinct ids. -/
def IdInj (h : Heap) (l : List Ref) : Prop := ∀ r ∈ l, ∀ q ∈ l, (h r).id = (h q).id → r = q

theorem IdInj.nodup {h : Heap} {l k : List Ref} (hi : IdInj h l) (hk : k.Nodup) (hs : ∀ r ∈ k, r ∈ l) :
    (k.map (fun r => (h r).id)).Nodup :=
  List.Nodup.map_on (fun r hr q hq e => hi r (hs r hr) q (hs q hq) e) hk

theorem Heap.Frame.id_eq {l : List Ref} {h h' : Heap} (f : Heap.Frame l h h') (r : Ref) : (h' r).id = (h r).id := by
  obtain ⟨v, e⟩ := f.2 r; rw [e]; rfl

theorem Heap.Frame.maxXrate_eq {l : List Ref} {h h' : Heap} (f : Heap.Frame l h h') (r : Ref) :
    (h' r).maxXrate = (h r).maxXrate := by
  obtain ⟨v, e⟩ := f.2 r; rw [e]; rfl

theorem Heap.Frame.maxSell_eq {l : List Ref} {h h' : Heap} (f : Heap.Frame l h h') (r : Ref) :
    (h' r).maxSell = (h r).maxSell := by
  obtain ⟨v, e⟩ := f.2 r; rw [e]; rfl

theorem Heap.Frame.clear_eq {l : List Ref} {h h' : Heap} (f : Heap.Frame l h h') (r : Ref) :
    (h' r).clearBuy = (h r).clearBuy := by
  obtain ⟨v, e⟩ := f.2 r; rw [e]; rfl

theorem IdInj.frame {l k : List Ref} {h h' : Heap} (hi : IdInj h k) (f : Heap.Frame l h h') : IdInj h' k :=
  fun r hr q hq e => hi r hr q hq (by rw [← f.id_eq, ← f.id_eq]; exact e)

theorem IdInj.mono {l k : List Ref} {h : Heap} (hi : IdInj h l) (hs : ∀ r ∈ k, r ∈ l) : IdInj h k :=
  fun r hr q hq e => hi r (hs r hr) q (hs q hq) e

/-! ### The values computed do not depend on the buy amounts found -/

theorem computeBuyAmounts_congr {cfg : Config} {x : ℚ} {fee : Fee} {n : ℤ} {b b' s s' : List Order}
    (hb : b.map Order.clearBuy = b'.map Order.clearBuy) (hs : s.map Order.clearBuy = s'.map Order.clearBuy) :
    computeBuyAmounts cfg x b s fee n = computeBuyAmounts cfg x b' s' fee n := by
  unfold computeBuyAmounts
  rw [hb, hs]

theorem map_clear_frame {l k : List Ref} {h h' : Heap} (f : Heap.Frame l h h') :
    (k.map h').map Order.clearBuy = (k.map h).map Order.clearBuy := by
  rw [List.map_map, List.map_map]
  exact List.map_congr_left (fun r _ => f.clear_eq r)

theorem computeBuyAmounts_frame {cfg : Config} {x : ℚ} {fee : Fee} {n : ℤ} {b s l : List Ref} {h h' : Heap} (f : Heap.Frame l h h') :
    computeBuyAmounts cfg x (b.map h') (s.map h') fee n = computeBuyAmounts cfg x (b.map h) (s.map h) fee n :=
  computeBuyAmounts_congr (map_clear_frame f) (map_clear_frame f)

theorem trivialCandidates_frame {fee : Fee} {b s l : List Ref} {h h' : Heap} (f : Heap.Frame l h h') :
    trivialCandidates (b.map h') (s.map h') fee = trivialCandidates (b.map h) (s.map h) fee := by
  unfold trivialCandidates root1 root2
  simp only [mapE_map, List.map_map, Function.comp_def, f.maxXrate_eq]

theorem map_maxSell_frame {k l : List Ref} {h h' : Heap} (f : Heap.Frame l h h') :
    (k.map h').map (·.maxSell) = (k.map h).map (·.maxSell) := by
  simp only [List.map_map, Function.comp_def, f.maxSell_eq]

theorem partialIdxLoop_frame {l : List Ref} {h h' : Heap} (f : Heap.Frame l h h') (lb ub : ℚ) (k : List Ref) :
    ∀ (i : ℕ) (c : ℚ), partialIdxLoop lb ub i c (k.map h') = partialIdxLoop lb ub i c (k.map h) := by
  induction k with
  | nil => intro i c; rfl
  | cons r k ih =>
    intro i c
    simp only [List.map_cons, partialIdxLoop, f.maxSell_eq, ih]

theorem sumE_map {α β : Type} (f : β → Py ℚ) (g : α → β) (l : List α) : sumE f (l.map g) = sumE (fun a => f (g a)) l := by
  induction l with
  | nil => rfl
  | cons a l ih => rw [List.map_cons]; unfold sumE; rw [ih]

theorem localOptima_frame {cfg : Config} {sqrt : ℚ → Py ℚ} {fee : Fee} {l : List Ref} {h h' : Heap} (f : Heap.Frame l h h') (d : IntervalRefs) :
    localOptima cfg sqrt fee (d.read h') = localOptima cfg sqrt fee (d.read h) := by
  unfold localOptima
  have e : computeConstants (d.read h') fee = computeConstants (d.read h) fee := by
    unfold computeConstants cConstant sumYbF IntervalRefs.read
    simp only [pyGet_map, ← List.map_drop, ← List.map_take, map_maxSell_frame f, sumE_map, f.maxSell_eq, f.maxXrate_eq]
    cases pyGet d.b (d.bPartial : ℤ) with
    | error e => rfl
    | ok rb =>
      cases pyGet d.s (d.sPartial : ℤ) with
      | error e => rfl
      | ok rs => simp only [ok_bind, f.maxSell_eq, f.maxXrate_eq]
  rw [e]
  rfl

/-! ### Objective -/

/-- What the rate search relies on: the two lists have no object in common and distinct ids. -/
structure Books2 (m : Mem) (b s : List Ref) : Prop where
  nodup : (b ++ s).Nodup
  bId : IdInj m.heap b
  sId : IdInj m.heap s

theorem Books2.bNodup {m : Mem} {b s : List Ref} (w : Books2 m b s) : b.Nodup := (List.nodup_append.1 w.nodup).1
theorem Books2.sNodup {m : Mem} {b s : List Ref} (w : Books2 m b s) : s.Nodup := (List.nodup_append.1 w.nodup).2.1

theorem Books2.frame {m m' : Mem} {b s l : List Ref} (w : Books2 m b s) (f : Scratch l m m') : Books2 m' b s :=
  ⟨w.nodup, w.bId.frame f.1, w.sId.frame f.1⟩

theorem Books2.sub {m : Mem} {b s b' s' : List Ref} (w : Books2 m b s) (hb : b'.Nodup) (hs : s'.Nodup)
    (sb : ∀ r ∈ b', r ∈ b) (ss : ∀ r ∈ s', r ∈ s) : Books2 m b' s' := by
  refine ⟨List.nodup_append.2 ⟨hb, hs, ?_⟩, w.bId.mono sb, w.sId.mono ss⟩
  intro r hr q hq
  exact (List.nodup_append.1 w.nodup).2.2 r (sb r hr) q (ss q hq)

/-- `compute_buy_amounts` as a step on the memory. -/
theorem sim_computeBuyAmounts {cfg : Config} {x : ℚ} {fee : Fee} {n : ℤ} {b s : List Ref} {m : Mem} (w : Books2 m b s) :
    Sim X (HM.writes (heapComputeBuyAmounts cfg x b s fee n) m) (computeBuyAmounts cfg x (b.map m.heap) (s.map m.heap) fee n)
      (fun _ m' v => v = (b.map m'.heap, s.map m'.heap) ∧ Scratch (b ++ s) m m') := by
  obtain ⟨e, f⟩ := heapComputeBuyAmounts_abs (cfg := cfg) (xrate := x) (fee := fee) (maxNr := n) w.nodup m.heap
    (w.bId.nodup w.bNodup (fun _ h => h)) (w.sId.nodup w.sNodup (fun _ h => h))
  rw [e]
  unfold HM.writes
  cases hh : heapComputeBuyAmounts cfg x b s fee n m.heap with
  | error e => exact fun _ => rfl
  | ok h' => exact ⟨rfl, f h' hh, rfl⟩

theorem sim_solverObjective {cfg : Config} {x : ℚ} {fee : Fee} {b s : List Ref} {m : Mem} (w : Books2 m b s) :
    Sim X (heapSolverObjective cfg fee b s x m) (solverObjective cfg fee (b.map m.heap) (s.map m.heap) x)
      (fun a m' v => a = v ∧ Scratch (b ++ s) m m') := by
  unfold heapSolverObjective solverObjective
  refine Sim.bind (sim_computeBuyAmounts w) ?_
  rintro _ m' _ ⟨rfl, f⟩ _ _
  exact Sim.readEnd rfl (fun a _ => ⟨rfl, f⟩)

theorem solverObjective_frame {cfg : Config} {x : ℚ} {fee : Fee} {b s l : List Ref} {h h' : Heap} (f : Heap.Frame l h h') :
    solverObjective cfg fee (b.map h') (s.map h') x = solverObjective cfg fee (b.map h) (s.map h) x := by
  unfold solverObjective
  rw [computeBuyAmounts_frame f]

theorem mem_of_mapE {α β : Type} {f : α → Py β} : ∀ {l : List α} {r : List β}, mapE f l = .ok r → ∀ {b : β}, b ∈ r → ∃ a ∈ l, f a = .ok b := by
  intro l
  induction l with
  | nil => intro r h b hb; cases h; simp at hb
  | cons a l ih =>
    intro r h b hb
    have e : mapE f (a :: l) = (f a >>= fun b => mapE f l >>= fun bs => pure (b :: bs)) := rfl
    rw [e] at h
    simp only [bind_eq_ok, pure_eq_ok, Except.ok.injEq] at h
    obtain ⟨c, hc, cs, hcs, rfl⟩ := h
    rcases List.mem_cons.1 hb with rfl | hb
    · exact ⟨a, List.mem_cons_self .., hc⟩
    · obtain ⟨x, hx, e⟩ := ih hcs hb
      exact ⟨x, List.mem_cons_of_mem _ hx, e⟩

/-! ### Binary search with effects -/

section BinSearch

variable {f : ℚ → HM ℚ} {F : ℚ → Py ℚ} {Inv : Mem → Prop}
  (hf : ∀ x m, Inv m → Sim X (f x m) (F x) (fun a m' v => a = v ∧ Inv m'))

include hf

theorem sim_binSearchLoop (xs : List ℚ) : ∀ (fuel : ℕ) (left right : ℤ) (m : Mem), Inv m →
    Sim X (heapBinSearchLoop f xs fuel left right m) (binSearchLoop F xs fuel left right) (fun a m' v => a = v ∧ Inv m') := by
  intro fuel
  induction fuel with
  | zero => intro left right m _; exact Sim.raise
  | succ n ih =>
    intro left right m hm
    have slope : ∀ (i : ℤ) (m : Mem), Inv m → Sim X ((do
        let x ← HM.reads fun _ => pyGet xs i
        let a ← f x
        let y ← HM.reads fun _ => pyGet xs (i - 1)
        let b ← f y
        pure (a - b) : HM ℚ) m) (do
        let x ← pyGet xs i
        let a ← F x
        let y ← pyGet xs (i - 1)
        let b ← F y
        pure (a - b)) (fun a m' v => a = v ∧ Inv m') := by
      intro i m hm
      refine Sim.read rfl (fun x _ => ?_)
      refine Sim.bind (hf x m hm) ?_
      rintro a m' _ ⟨rfl, hm'⟩ _ _
      refine Sim.read rfl (fun y _ => ?_)
      refine Sim.bind (hf y m' hm') ?_
      rintro b m'' _ ⟨rfl, hm''⟩ _ _
      exact Sim.pure ⟨rfl, hm''⟩
    unfold heapBinSearchLoop binSearchLoop
    dsimp only
    split
    · refine Sim.bind (slope left m hm) ?_
      rintro dl m1 _ ⟨rfl, hm1⟩ _ _
      refine Sim.bind (slope right m1 hm1) ?_
      rintro dr m2 _ ⟨rfl, hm2⟩ _ _
      refine Sim.bind (slope ((left + right) / 2) m2 hm2) ?_
      rintro dc m3 _ ⟨rfl, hm3⟩ _ _
      split
      · refine Sim.read rfl (fun _ _ => ?_)
        exact ih _ _ m3 hm3
      · refine Sim.read rfl (fun _ _ => ?_)
        refine Sim.read rfl (fun _ _ => ?_)
        exact ih _ _ m3 hm3
    · exact Sim.pure ⟨rfl, hm⟩

private theorem sim_again {x v : ℚ} {m : Mem} (hm : Inv m) (hv : F x = .ok v) :
    Sim X ((do let o ← f x; pure (x, o) : HM (ℚ × ℚ)) m) (pure (x, v)) (fun a m' w => a = w ∧ Inv m') := by
  have h := hf x m hm
  rw [hv] at h
  obtain ⟨a, m', e, rfl, hm'⟩ := h.exists_ok
  exact Sim.bindL e (Sim.pure ⟨rfl, hm'⟩)

theorem sim_binSearch (xs : List ℚ) {m : Mem} (hm : Inv m) :
    Sim X (heapBinSearch f xs m) (binSearch F xs) (fun a m' v => a = v ∧ Inv m') := by
  unfold heapBinSearch binSearch
  split
  · have hmap : Sim X (HM.mapM (fun x => do
        let o ← f x
        pure (x, o)) xs m) (mapE (fun x => do
        let o ← F x
        pure (x, o)) xs) (fun a m' v => a = v ∧ Inv m') := by
      refine Sim.mapM (fun x _ m hm => ?_) m hm
      refine Sim.bind (hf x m hm) ?_
      rintro o m' _ ⟨rfl, hm'⟩ _ _
      exact Sim.pure ⟨rfl, hm'⟩
    refine Sim.bind hmap ?_
    rintro xos m' _ ⟨rfl, hm'⟩ _ hv
    cases hp : pyMaxBy (fun p : ℚ × ℚ => p.2) xos with
    | error e => exact fun _ => rfl
    | ok best =>
      refine Sim.readL rfl ?_
      obtain ⟨x, _, hx⟩ := mem_of_mapE hv (pyMaxBy_spec hp).1
      simp only [bind_eq_ok, pure_eq_ok, Except.ok.injEq] at hx
      obtain ⟨o, ho, rfl⟩ := hx
      exact sim_again hf hm' ho
  · rename_i hlen
    have get : ∀ i : ℤ, (0 ≤ i ∧ i < xs.length) ∨ (i < 0 ∧ -i ≤ xs.length) → ∃ x, pyGet xs i = .ok x := by
      intro i hi
      cases hg : pyGet xs i with
      | ok x => exact ⟨x, rfl⟩
      | error e =>
        exfalso
        unfold pyGet pyIndex at hg
        rcases hi with hi | hi
        · rw [if_pos hi.1, if_pos (by omega)] at hg
          simp only at hg
          rw [List.getElem?_eq_getElem (by omega)] at hg
          cases hg
        · rw [if_neg (by omega), if_pos (by omega)] at hg
          simp only at hg
          rw [List.getElem?_eq_getElem (by omega)] at hg
          cases hg
    obtain ⟨x1, ex1⟩ := get 1 (by omega)
    obtain ⟨y1, ey1⟩ := get (-2) (by omega)
    refine Sim.read rfl (fun x0 _ => ?_)
    rw [ex1]
    simp only [ok_bind]
    refine Sim.bind (hf x0 m hm) ?_
    rintro f0 m1 _ ⟨rfl, hm1⟩ _ h0
    refine Sim.readL rfl ?_
    refine Sim.bind (hf x1 m1 hm1) ?_
    rintro f1 m2 _ ⟨rfl, hm2⟩ _ _
    split
    · exact sim_again hf hm2 h0
    · refine Sim.read rfl (fun y0 _ => ?_)
      rw [ey1]
      simp only [ok_bind]
      refine Sim.bind (hf y0 m2 hm2) ?_
      rintro g0 m3 _ ⟨rfl, hm3⟩ _ h2
      refine Sim.readL rfl ?_
      refine Sim.bind (hf y1 m3 hm3) ?_
      rintro g1 m4 _ ⟨rfl, hm4⟩ _ _
      split
      · exact sim_again hf hm4 h2
      · refine Sim.bind (sim_binSearchLoop hf xs _ _ _ m4 hm4) ?_
        rintro c m5 _ ⟨rfl, hm5⟩ _ _
        refine Sim.read rfl (fun x _ => ?_)
        refine Sim.bind (hf x m5 hm5) ?_
        rintro o m6 _ ⟨rfl, hm6⟩ _ _
        exact Sim.pure ⟨rfl, hm6⟩

end BinSearch

/-! ### Intervals -/

theorem sim_solveInterval {cfg : Config} {sqrt : ℚ → Py ℚ} {fee : Fee} {L : List Ref} {m0 : Mem} {d : IntervalRefs}
    (w : Books2 m0 d.b d.s) (hL : ∀ r ∈ d.b ++ d.s, r ∈ L) {m : Mem} (hm : Scratch L m0 m) :
    Sim X (heapSolveInterval cfg sqrt fee d m) (solveInterval cfg sqrt fee (d.read m0.heap)) (fun a m' v => a = v ∧ Scratch L m0 m') := by
  unfold heapSolveInterval solveInterval
  refine Sim.read (localOptima_frame hm.1 d).symm (fun xs _ => ?_)
  split
  · exact Sim.pure ⟨rfl, hm⟩
  · have hmap : Sim X (HM.mapM (fun x => do
        let o ← heapSolverObjective cfg fee d.b d.s x
        pure (x, o)) xs m) (mapE (fun x => do
        let o ← solverObjective cfg fee (d.read m0.heap).b (d.read m0.heap).s x
        pure (x, o)) xs) (fun a m' v => a = v ∧ Scratch L m0 m') := by
      refine Sim.mapM (fun x _ m hm => ?_) m hm
      have h := sim_solverObjective (X := X) (cfg := cfg) (x := x) (fee := fee) (w.frame hm)
      rw [solverObjective_frame hm.1] at h
      refine Sim.bind h ?_
      rintro o m' _ ⟨rfl, f⟩ _ _
      exact Sim.pure ⟨rfl, hm.trans (f.mono hL)⟩
    refine Sim.bind hmap ?_
    rintro xos m' _ ⟨rfl, hm'⟩ _ _
    refine Sim.read rfl (fun o _ => ?_)
    exact Sim.pure ⟨rfl, hm'⟩

theorem sim_memoObjective {cfg : Config} {fee : Fee} {cap : ℕ} {b s L : List Ref} {m0 : Mem} (w : Books2 m0 b s)
    (hL : ∀ r ∈ b ++ s, r ∈ L) (x : ℚ) (m : Mem)
    (hm : Scratch L m0 m ∧ ∀ p ∈ m.cache, solverObjective cfg fee (b.map m0.heap) (s.map m0.heap) p.1 = .ok p.2) :
    Sim X (memoObjective cfg fee cap b s x m) (solverObjective cfg fee (b.map m0.heap) (s.map m0.heap) x) (fun a m' v => a = v ∧
      Scratch L m0 m' ∧ ∀ p ∈ m'.cache, solverObjective cfg fee (b.map m0.heap) (s.map m0.heap) p.1 = .ok p.2) := by
  unfold memoObjective
  cases hf : m.cache.find? (fun p => p.1 = x) with
  | some p =>
    have hp := hm.2 p (List.mem_of_find?_eq_some hf)
    have hx : p.1 = x := by simpa using List.find?_some hf
    rw [hx] at hp
    rw [hp]
    refine ⟨rfl, ⟨hm.1.1, hm.1.2⟩, ?_⟩
    intro q hq
    rcases List.mem_cons.1 hq with rfl | hq
    · rw [hx]; exact hp
    · exact hm.2 q (List.mem_of_mem_filter hq)
  | none =>
    have h := sim_solverObjective (X := X) (cfg := cfg) (x := x) (fee := fee) (w.frame hm.1)
    rw [solverObjective_frame hm.1.1] at h
    have e : ∀ y : Py ℚ, (y >>= fun v => pure v) = y := by intro y; cases y <;> rfl
    rw [← e (solverObjective _ _ _ _ _)]
    dsimp only
    have hc : ∀ m', heapSolverObjective cfg fee b s x m = .ok m' → m'.2.cache = m.cache := by
      intro m' h
      unfold heapSolverObjective at h
      rw [HM.bind_apply] at h
      unfold HM.writes at h
      cases h1 : heapComputeBuyAmounts cfg x b s fee cfg.maxNrExec m.heap with
      | error e => rw [h1] at h; cases h
      | ok h' =>
        rw [h1] at h
        dsimp only at h
        unfold HM.reads at h
        dsimp only at h
        cases h2 : computeObjectiveRational cfg (b.map h') (s.map h') [] x 1 fee with
        | error e => rw [h2] at h; cases h
        | ok v => rw [h2] at h; cases h; rfl
    refine Sim.bind h ?_
    rintro v m' _ ⟨rfl, f⟩ hx hv
    refine ⟨rfl, ?_, ?_⟩
    · have := hm.1.trans (f.mono hL)
      exact ⟨this.1, this.2⟩
    · intro q hq
      rcases List.mem_cons.1 (List.mem_of_mem_take hq) with rfl | hq
      · exact hv
      · have e2 := hc _ hx
        dsimp only at e2
        rw [e2] at hq
        exact hm.2 q hq

theorem sim_solveTrivial {cfg : Config} {cap : ℕ → ℕ} {fee : Fee} {b s L : List Ref} {m0 : Mem} (w : Books2 m0 b s)
    (hL : ∀ r ∈ b ++ s, r ∈ L) {m : Mem} (hm : Scratch L m0 m) :
    Sim X (heapSolveTrivial cfg cap fee b s m) (solveTrivial cfg fee (b.map m0.heap) (s.map m0.heap))
      (fun a m' v => a = v ∧ Scratch L m0 m') := by
  unfold heapSolveTrivial solveTrivial
  refine Sim.read (trivialCandidates_frame hm.1).symm (fun xs _ => ?_)
  split
  · exact Sim.pure ⟨rfl, hm⟩
  · refine Sim.bindL (m' := { m with cache := [] }) rfl ?_
    refine Sim.bind (sim_binSearch (sim_memoObjective (cap := cap (sortDistinct xs).length) w hL) (sortDistinct xs)
      (m := { m with cache := [] }) ⟨⟨hm.1, hm.2⟩, by simp⟩) ?_
    rintro r m' _ ⟨rfl, hm', _⟩ _ _
    exact Sim.pure ⟨rfl, hm'⟩

/-- What a variant points to. -/
def RefVariant.read (h : Heap) (v : RefVariant) : Variant := { isB := v.isB, xrate := v.xrate, data := h v.data }

/-- What the loop state points to. -/
def RefIntervalState.read (h : Heap) (st : RefIntervalState) : IntervalState :=
  { prev := st.prev, bExec := st.bExec.map h, sExec := st.sExec.map h, bUb := st.bUb, sUb := st.sUb }

private theorem interleave {α β : Type} (F : α → Py β) (ys1 : List α) (A : Py (List ℕ)) (g : List ℕ → List α) (L : Py (List α))
    (hX : X → (∃ js, A = .ok js) ∧ ∃ l, L = .ok l) :
    PyEqv X (mapE F ys1 >>= fun rs1 => A >>= fun js => mapE F (g js) >>= fun rs2 => (L >>= fun l => mapE F l) >>= fun more =>
        pure (rs1 ++ rs2 ++ more))
      ((do
        let js ← A
        let more ← L
        pure ((ys1 ++ g js) ++ more)) >>= fun l => mapE F l) := by
  cases A with
  | error e =>
    have nx : ¬ X := fun h => by obtain ⟨⟨_, h⟩, _⟩ := hX h; cases h
    cases mapE F ys1 <;> exact fun h => absurd h nx
  | ok js =>
    cases L with
    | error e =>
      have nx : ¬ X := fun h => by obtain ⟨_, ⟨_, h⟩⟩ := hX h; cases h
      simp only [ok_bind]
      cases mapE F ys1 with
      | error e => exact fun h => absurd h nx
      | ok r => simp only [ok_bind]; cases mapE F (g js) <;> exact fun h => absurd h nx
    | ok l =>
      simp only [ok_bind]
      have e : (pure ((ys1 ++ g js) ++ l) : Py (List α)) = .ok ((ys1 ++ g js) ++ l) := rfl
      rw [e, ok_bind, mapE_append, mapE_append]
      cases mapE F ys1 with
      | error e => exact fun _ => rfl
      | ok r =>
        simp only [ok_bind]
        cases mapE F (g js) with
        | error e => exact fun _ => rfl
        | ok r' =>
          simp only [ok_bind]
          have e : (pure (r ++ r') : Py (List β)) = .ok (r ++ r') := rfl
          rw [e, ok_bind]
          exact PyEqv.refl _

section Loop

variable {ρ : Type} {fee : Fee} {opt : Option ℚ} {body : IntervalRefs → HM ρ} {bodyV : IntervalData → Py ρ} {b s L : List Ref} {m0 : Mem}
  (hbody : ∀ (d : IntervalRefs) (m : Mem), d.b.Nodup → d.s.Nodup → (∀ r ∈ d.b, r ∈ b) → (∀ r ∈ d.s, r ∈ s) → Scratch L m0 m →
    Sim X (body d m) (bodyV (d.read m0.heap)) (fun a m' v => a = v ∧ Scratch L m0 m'))

include hbody

theorem sim_intervalLoop : ∀ (vs : List RefVariant) (st : RefIntervalState) (m : Mem), Scratch L m0 m →
    (st.bExec ++ (vs.filter (·.isB)).map (·.data)).Nodup → (∀ r ∈ st.bExec ++ (vs.filter (·.isB)).map (·.data), r ∈ b) →
    st.sExec.Nodup → (∀ r ∈ st.sExec, r ∈ s) →
    (X → ∃ l, intervalLoop fee opt (st.read m0.heap) (vs.map (RefVariant.read m0.heap)) = .ok l) →
    Sim X (heapIntervalLoop fee opt body st vs m)
      (intervalLoop fee opt (st.read m0.heap) (vs.map (RefVariant.read m0.heap)) >>= fun l => mapE bodyV l)
      (fun a m' v => a = v ∧ Scratch L m0 m') := by
  intro vs
  induction vs with
  | nil => intro st m hm _ _ _ _ _; exact ⟨rfl, hm⟩
  | cons v vs ih =>
    intro st m hm hbn hbs hsn hss hX
    cases vs with
    | nil => exact ⟨rfl, hm⟩
    | cons w rest =>
      have e1 : heapIntervalLoop fee opt body st (v :: w :: rest) = (do
          let st ← HM.reads fun h => heapIntervalUpdate h st v
          let next := { st with prev := some v.xrate }
          if heapSkipInterval opt st.prev v w then heapIntervalLoop fee opt body next (w :: rest)
          else if st.bExec.length = 0 then heapIntervalLoop fee opt body next (w :: rest)
          else if st.sExec.length = 0 then pure []
          else
            let b0 ← HM.reads fun h => do
              let r ← pyGet st.bExec 0
              pure (h r).maxSell
            let bLb := st.bUb - b0
            let s0 ← HM.reads fun h => do
              let r ← pyGet st.sExec 0
              pure (h r).maxSell
            let sLb := st.sUb - s0
            let is ← HM.reads fun h => .ok (bPartialIdxs (st.bExec.map h) sLb st.sUb w.xrate v.xrate fee)
            let rs1 ← HM.mapM (fun i => body
              { lb := w.xrate, ub := v.xrate, b := st.bExec, s := st.sExec, bPartial := i, sPartial := 0 }) is
            let js ← HM.reads fun h => sPartialIdxs (st.sExec.map h) bLb st.bUb w.xrate v.xrate fee
            let rs2 ← HM.mapM (fun i => body
              { lb := w.xrate, ub := v.xrate, b := st.bExec, s := st.sExec, bPartial := 0, sPartial := i }) js
            let more ← heapIntervalLoop fee opt body next (w :: rest)
            pure (rs1 ++ rs2 ++ more)) := rfl
      have e0 : ∀ st : IntervalState, intervalLoop fee opt st ((v :: w :: rest).map (RefVariant.read m0.heap)) =
          (intervalUpdate st (v.read m0.heap) >>= fun st => (
            if skipInterval opt st.prev (v.read m0.heap) (w.read m0.heap) then
              intervalLoop fee opt { st with prev := some v.xrate } ((w :: rest).map (RefVariant.read m0.heap))
            else if st.bExec.length = 0 then
              intervalLoop fee opt { st with prev := some v.xrate } ((w :: rest).map (RefVariant.read m0.heap))
            else if st.sExec.length = 0 then pure []
            else do
              let ys ← intervalYields st w.xrate v.xrate fee
              let more ← intervalLoop fee opt { st with prev := some v.xrate } ((w :: rest).map (RefVariant.read m0.heap))
              pure (ys ++ more) : Py (List IntervalData))) := fun _ => rfl
      have e2 : ∀ st : IntervalState, (intervalLoop fee opt st ((v :: w :: rest).map (RefVariant.read m0.heap)) >>= fun l => mapE bodyV l) =
          (intervalUpdate st (v.read m0.heap) >>= fun st => (
            if skipInterval opt st.prev (v.read m0.heap) (w.read m0.heap) then
              intervalLoop fee opt { st with prev := some v.xrate } ((w :: rest).map (RefVariant.read m0.heap))
            else if st.bExec.length = 0 then
              intervalLoop fee opt { st with prev := some v.xrate } ((w :: rest).map (RefVariant.read m0.heap))
            else if st.sExec.length = 0 then pure []
            else do
              let ys ← intervalYields st w.xrate v.xrate fee
              let more ← intervalLoop fee opt { st with prev := some v.xrate } ((w :: rest).map (RefVariant.read m0.heap))
              pure (ys ++ more) : Py (List IntervalData)) >>= fun l => mapE bodyV l) := by
        intro st
        rw [e0]
        cases intervalUpdate st (v.read m0.heap) <;> rfl
      rw [e1, e2]
      have hup : intervalUpdate (st.read m0.heap) (v.read m0.heap) =
          (heapIntervalUpdate m.heap st v >>= fun a => .ok (a.read m0.heap)) := by
        unfold intervalUpdate heapIntervalUpdate RefIntervalState.read RefVariant.read
        dsimp only
        cases v.isB with
        | true => rw [if_pos rfl, if_pos rfl, ok_bind, hm.1.maxSell_eq]; rfl
        | false =>
          rw [if_neg (by simp), if_neg (by simp)]
          cases st.sExec with
          | nil => rfl
          | cons q l => simp only [List.map_cons, ok_bind, hm.1.maxSell_eq]
      refine Sim.readMap (g := RefIntervalState.read m0.heap) hup (fun st' hst => ?_)
      have hbn' : (st'.bExec ++ ((w :: rest).filter (·.isB)).map (·.data)).Nodup ∧
          (∀ r ∈ st'.bExec ++ ((w :: rest).filter (·.isB)).map (·.data), r ∈ b) ∧ st'.sExec.Nodup ∧ ∀ r ∈ st'.sExec, r ∈ s := by
        unfold heapIntervalUpdate at hst
        cases hv : v.isB with
        | true =>
          rw [if_pos hv] at hst
          cases hst
          rw [List.filter_cons_of_pos (by exact hv)] at hbn hbs
          have pm : (st.bExec ++ (v :: (w :: rest).filter (·.isB)).map (·.data)).Perm
              ((v.data :: st.bExec) ++ ((w :: rest).filter (·.isB)).map (·.data)) := by
            rw [List.map_cons, List.cons_append]
            exact List.perm_middle
          exact ⟨pm.nodup_iff.1 hbn, fun r hr => hbs r (pm.mem_iff.2 hr), hsn, hss⟩
        | false =>
          rw [if_neg (by simp [hv])] at hst
          rw [List.filter_cons_of_neg (by simp [hv])] at hbn hbs
          cases hs : st.sExec with
          | nil => rw [hs] at hst; cases hst
          | cons q l =>
            rw [hs] at hst
            cases hst
            rw [hs] at hsn hss
            exact ⟨hbn, hbs, (List.nodup_cons.1 hsn).2, fun r hr => hss r (List.mem_cons_of_mem _ hr)⟩
      obtain ⟨h1, h2, h3, h4⟩ := hbn'
      have hup' : intervalUpdate (st.read m0.heap) (v.read m0.heap) = .ok (st'.read m0.heap) := by rw [hup, hst]; rfl
      rw [e0, hup', ok_bind] at hX
      have hnext := fun hX => ih { st' with prev := some v.xrate } m hm h1 h2 h3 h4 hX
      have hskip : skipInterval opt (st'.read m0.heap).prev (v.read m0.heap) (w.read m0.heap) = heapSkipInterval opt st'.prev v w := rfl
      dsimp only
      rw [hskip]
      rw [hskip] at hX
      have lb : (st'.read m0.heap).bExec.length = st'.bExec.length := List.length_map ..
      have ls : (st'.read m0.heap).sExec.length = st'.sExec.length := List.length_map ..
      rw [lb, ls]
      rw [lb, ls] at hX
      by_cases c1 : heapSkipInterval opt st'.prev v w = true
      · rw [if_pos c1, if_pos c1]; rw [if_pos c1] at hX; exact hnext hX
      · rw [if_neg c1, if_neg c1]
        rw [if_neg c1] at hX
        by_cases c2 : st'.bExec.length = 0
        · rw [if_pos c2, if_pos c2]; rw [if_pos c2] at hX; exact hnext hX
        · rw [if_neg c2, if_neg c2]
          rw [if_neg c2] at hX
          by_cases c3 : st'.sExec.length = 0
          · rw [if_pos c3, if_pos c3]; exact ⟨rfl, hm⟩
          · rw [if_neg c3, if_neg c3]
            rw [if_neg c3] at hX
            have e3 : ∀ (L : Py (List IntervalData)), ((do
                let ys ← intervalYields (st'.read m0.heap) w.xrate v.xrate fee
                let more ← L
                pure (ys ++ more)) >>= fun l => mapE bodyV l) =
                ((pyGet st'.bExec 0 >>= fun r => .ok (m0.heap r).maxSell) >>= fun b0 =>
                  (pyGet st'.sExec 0 >>= fun r => .ok (m0.heap r).maxSell) >>= fun s0 =>
                  ((do
                    let js ← sPartialIdxs (st'.sExec.map m0.heap) (st'.bUb - b0) st'.bUb w.xrate v.xrate fee
                    let more ← L
                    pure (((bPartialIdxs (st'.bExec.map m0.heap) (st'.sUb - s0) st'.sUb w.xrate v.xrate fee).map (fun i =>
                      (IntervalRefs.read { lb := w.xrate, ub := v.xrate, b := st'.bExec, s := st'.sExec, bPartial := i, sPartial := 0 } m0.heap)) ++
                      js.map (fun i => (IntervalRefs.read { lb := w.xrate, ub := v.xrate, b := st'.bExec, s := st'.sExec, bPartial := 0, sPartial := i } m0.heap)))
                      ++ more)) >>= fun l => mapE bodyV l)) := by
              intro L
              unfold intervalYields RefIntervalState.read
              simp only [pyGet_map]
              cases pyGet st'.bExec 0 with
              | error e => rfl
              | ok rb =>
                cases pyGet st'.sExec 0 with
                | error e => rfl
                | ok rs =>
                  simp only [ok_bind]
                  cases sPartialIdxs (st'.sExec.map m0.heap) (st'.bUb - (m0.heap rb).maxSell) st'.bUb w.xrate v.xrate fee <;> rfl
            have e4 : ∀ L : Py (List IntervalData), (intervalYields (st'.read m0.heap) w.xrate v.xrate fee >>= fun ys =>
                L >>= fun more => pure (ys ++ more)) = (do
                let ys ← intervalYields (st'.read m0.heap) w.xrate v.xrate fee
                let more ← L
                pure (ys ++ more)) := fun _ => rfl
            rw [e3]
            have fx : ∀ (k : List Ref), (pyGet k 0 >>= fun r => (.ok (m0.heap r).maxSell : Py ℚ)) =
                (do
                  let r ← pyGet k 0
                  pure (m.heap r).maxSell) := by
              intro k
              cases pyGet k 0 with
              | error e => rfl
              | ok r => simp only [ok_bind, hm.1.maxSell_eq]; rfl
            refine Sim.read (fx st'.bExec) (fun b0 hb0 => ?_)
            refine Sim.read (fx st'.sExec) (fun s0 _ => ?_)
            have hA : X → (∃ js, sPartialIdxs (st'.sExec.map m0.heap) (st'.bUb - b0) st'.bUb w.xrate v.xrate fee = .ok js) ∧
                ∃ l, intervalLoop fee opt { st'.read m0.heap with prev := some v.xrate } ((w :: rest).map (RefVariant.read m0.heap)) = .ok l := by
              intro x
              obtain ⟨l, hl⟩ := hX x
              obtain ⟨ys, hy, hl⟩ := bind_eq_ok.1 hl
              obtain ⟨more, hmore, _⟩ := bind_eq_ok.1 hl
              refine ⟨?_, more, hmore⟩
              unfold intervalYields RefIntervalState.read at hy
              obtain ⟨o, ho, hy⟩ := bind_eq_ok.1 hy
              obtain ⟨_, _, hy⟩ := bind_eq_ok.1 hy
              obtain ⟨js, hjs, _⟩ := bind_eq_ok.1 hy
              have eb : o.maxSell = b0 := by
                rw [← fx] at hb0
                rw [pyGet_map] at ho
                obtain ⟨r, hr, e⟩ := bind_eq_ok.1 ho
                rw [hr, ok_bind] at hb0
                cases e
                cases hb0
                rfl
              rw [← eb]
              exact ⟨js, hjs⟩
            refine Sim.congr ?_ (interleave bodyV _ _ _ _ hA)
            have f1 : bPartialIdxs (st'.bExec.map m.heap) (st'.sUb - s0) st'.sUb w.xrate v.xrate fee =
                bPartialIdxs (st'.bExec.map m0.heap) (st'.sUb - s0) st'.sUb w.xrate v.xrate fee := by
              unfold bPartialIdxs
              rw [map_maxSell_frame hm.1, partialIdxLoop_frame hm.1]
            refine Sim.readL (congrArg Except.ok f1) ?_
            have hb : ∀ (p q : ℕ) (m : Mem), Scratch L m0 m → Sim X (body { lb := w.xrate, ub := v.xrate, b := st'.bExec, s := st'.sExec, bPartial := p, sPartial := q } m)
                (bodyV (IntervalRefs.read { lb := w.xrate, ub := v.xrate, b := st'.bExec, s := st'.sExec, bPartial := p, sPartial := q } m0.heap))
                (fun a m' v => a = v ∧ Scratch L m0 m') := fun p q m hm =>
              hbody _ m (List.nodup_append.1 h1).1 h3 (fun r hr => h2 r (List.mem_append_left _ hr)) h4 hm
            rw [mapE_map]
            refine Sim.bind (Sim.mapM (fun i _ m hm => hb i 0 m hm) m hm) ?_
            rintro rs1 m1 _ ⟨rfl, hm1⟩ _ _
            have f2 : sPartialIdxs (st'.sExec.map m0.heap) (st'.bUb - b0) st'.bUb w.xrate v.xrate fee =
                sPartialIdxs (st'.sExec.map m1.heap) (st'.bUb - b0) st'.bUb w.xrate v.xrate fee := by
              unfold sPartialIdxs
              simp only [map_maxSell_frame hm1.1, partialIdxLoop_frame hm1.1]
            refine Sim.read f2 (fun js _ => ?_)
            rw [mapE_map]
            refine Sim.bind (Sim.mapM (fun i _ m hm => hb 0 i m hm) m1 hm1) ?_
            rintro rs2 m2 _ ⟨rfl, hm2⟩ _ _
            refine Sim.bind (ih { st' with prev := some v.xrate } m2 hm2 h1 h2 h3 h4 (fun x => (hA x).2)) ?_
            rintro more m3 _ ⟨rfl, hm3⟩ _ _
            exact Sim.pure ⟨rfl, hm3⟩

end Loop

theorem heapVariants_frame {l : List Ref} {h h' : Heap} (f : Heap.Frame l h h') (b s : List Ref) (fee : Fee) :
    heapVariants b s fee h' = heapVariants b s fee h := by
  unfold heapVariants
  simp only [f.maxXrate_eq]

private theorem mapE_bind_map {α β γ : Type} (f : α → Py β) (g : β → γ) (l : List α) :
    mapE (fun a => f a >>= fun b => .ok (g b)) l = (mapE f l >>= fun r => .ok (r.map g)) := by
  induction l with
  | nil => rfl
  | cons a l ih =>
    unfold mapE
    rw [ih]
    cases f a with
    | error e => rfl
    | ok b =>
      simp only [ok_bind]
      cases mapE f l <;> rfl

theorem sim_intervals {ρ : Type} {fee : Fee} {opt : Option ℚ} {body : IntervalRefs → HM ρ} {bodyV : IntervalData → Py ρ} {b s L : List Ref} {m0 : Mem}
    (hbody : ∀ (d : IntervalRefs) (m : Mem), d.b.Nodup → d.s.Nodup → (∀ r ∈ d.b, r ∈ b) → (∀ r ∈ d.s, r ∈ s) → Scratch L m0 m →
      Sim X (body d m) (bodyV (d.read m0.heap)) (fun a m' v => a = v ∧ Scratch L m0 m'))
    (hb : b.Nodup) (hs : s.Nodup) (hX : X → fee.value < 1 ∧ ∀ r ∈ b ++ s, 0 < (m0.heap r).maxXrate) {m : Mem} (hm : Scratch L m0 m) :
    Sim X (heapIntervals b s fee opt body m)
      (xrateIntervals (b.map m0.heap) (s.map m0.heap) fee opt >>= fun l => mapE bodyV l) (fun a m' v => a = v ∧ Scratch L m0 m') := by
  have e : xrateIntervals (b.map m0.heap) (s.map m0.heap) fee opt =
      (heapVariants b s fee m0.heap >>= fun all => intervalLoop fee opt (RefIntervalState.read m0.heap
        { prev := none, bExec := [], sExec := (all.filter (fun v => !v.isB)).map (·.data), bUb := 0, sUb := (s.map (fun r => (m0.heap r).maxSell)).sum })
        (all.map (RefVariant.read m0.heap))) := by
    unfold xrateIntervals heapVariants
    simp only [List.length_map, mapE_map]
    cases pyAssert (b.length > 0 ∧ s.length > 0) "xrate.py:98" with
    | error e => rfl
    | ok u =>
      simp only [ok_bind]
      have e1 : mapE (fun r => do
            let x ← pyDiv 1 ((m0.heap r).maxXrate * (1 - fee.value))
            pure { isB := false, xrate := x, data := m0.heap r : Variant }) s =
          (mapE (fun r => do
            let x ← pyDiv 1 ((m0.heap r).maxXrate * (1 - fee.value))
            pure { isB := false, xrate := x, data := r : RefVariant }) s >>= fun r => .ok (r.map (RefVariant.read m0.heap))) := by
        rw [← mapE_bind_map]
        congr 1
        funext r
        cases pyDiv 1 ((m0.heap r).maxXrate * (1 - fee.value)) <;> rfl
      rw [e1]
      cases mapE (fun r => do
            let x ← pyDiv 1 ((m0.heap r).maxXrate * (1 - fee.value))
            pure { isB := false, xrate := x, data := r : RefVariant }) s with
      | error e => rfl
      | ok vs =>
        simp only [ok_bind]
        have e2 : pySortByRev (fun v : Variant => v.xrate)
            ((b.map m0.heap).map (fun o => { isB := true, xrate := o.maxXrate * (1 - fee.value), data := o : Variant }) ++
              vs.map (RefVariant.read m0.heap)) =
            (pySortByRev (fun v : RefVariant => v.xrate)
              (b.map (fun r => { isB := true, xrate := (m0.heap r).maxXrate * (1 - fee.value), data := r : RefVariant }) ++ vs)).map
              (RefVariant.read m0.heap) := by
          have e3 : (b.map m0.heap).map (fun o => { isB := true, xrate := o.maxXrate * (1 - fee.value), data := o : Variant }) =
              (b.map (fun r => { isB := true, xrate := (m0.heap r).maxXrate * (1 - fee.value), data := r : RefVariant })).map
                (RefVariant.read m0.heap) := by
            rw [List.map_map, List.map_map]; rfl
          rw [e3, ← List.map_append]
          unfold pySortByRev
          symm
          exact List.map_insertionSort _ _ _ _ (fun a _ b _ => Iff.rfl)
        rw [e2]
        generalize pySortByRev (fun v : RefVariant => v.xrate) _ = all
        have e4 : ((all.map (RefVariant.read m0.heap)).filter (fun v => !v.isB)).map (·.data) =
            ((all.filter (fun v => !v.isB)).map (·.data)).map m0.heap := by
          rw [List.filter_map, List.map_map, List.map_map]; rfl
        show intervalLoop fee opt _ _ = intervalLoop fee opt _ _
        rw [e4]
        unfold RefIntervalState.read
        simp only [List.map_map, Function.comp_def, List.map_nil]
  rw [e]
  unfold heapIntervals
  have e5 : ∀ (k : List RefVariant → Py (List IntervalData)), ((heapVariants b s fee m0.heap >>= k) >>= fun l => mapE bodyV l) =
      (heapVariants b s fee m0.heap >>= fun a => k a >>= fun l => mapE bodyV l) := by
    intro k; cases heapVariants b s fee m0.heap <;> rfl
  rw [e5]
  refine Sim.read (heapVariants_frame hm.1 b s fee).symm (fun all hall => ?_)
  have e6 : (s.map (fun r => (m.heap r).maxSell)).sum = (s.map (fun r => (m0.heap r).maxSell)).sum := by
    simp only [hm.1.maxSell_eq]
  refine Sim.readL (congrArg Except.ok e6) ?_
  -- the variants are those of `b` and of `s`
  have hperm : ((all.filter (·.isB)).map (·.data)).Perm b ∧ ((all.filter (fun v => !v.isB)).map (·.data)).Perm s := by
    unfold heapVariants at hall
    simp only [bind_eq_ok, pure_eq_ok, Except.ok.injEq] at hall
    obtain ⟨_, _, vs, hvs, rfl⟩ := hall
    have h1 : ∀ {l : List Ref} {vs : List RefVariant}, mapE (fun r => do
            let x ← pyDiv 1 ((m.heap r).maxXrate * (1 - fee.value))
            pure { isB := false, xrate := x, data := r : RefVariant }) l = .ok vs →
        vs.filter (·.isB) = [] ∧ (vs.filter (fun v => !v.isB)).map (·.data) = l := by
      intro l
      induction l with
      | nil => intro vs h; cases h; exact ⟨rfl, rfl⟩
      | cons a l ih =>
        intro vs h
        unfold mapE at h
        simp only [bind_eq_ok, pure_eq_ok, Except.ok.injEq] at h
        obtain ⟨c, ⟨x, _, rfl⟩, cs, hcs, rfl⟩ := h
        obtain ⟨i1, i2⟩ := ih hcs
        exact ⟨by rw [List.filter_cons_of_neg (by simp)]; exact i1, by rw [List.filter_cons_of_pos (by simp), List.map_cons, i2]⟩
    obtain ⟨i1, i2⟩ := h1 hvs
    have pm := pySortByRev_perm (key := fun v : RefVariant => v.xrate)
      (b.map (fun r => { isB := true, xrate := (m.heap r).maxXrate * (1 - fee.value), data := r : RefVariant }) ++ vs)
    refine ⟨((pm.filter _).map _).trans ?_, ((pm.filter _).map _).trans ?_⟩
    · rw [List.filter_append, i1, List.append_nil, List.filter_map, List.map_map]
      have : (b.filter ((fun v : RefVariant => v.isB) ∘ fun r => { isB := true, xrate := (m.heap r).maxXrate * (1 - fee.value), data := r : RefVariant })) = b := by
        rw [List.filter_eq_self]; intro _ _; rfl
      rw [this]
      have e : ((fun v : RefVariant => v.data) ∘ fun r => { isB := true, xrate := (m.heap r).maxXrate * (1 - fee.value), data := r : RefVariant }) = id := rfl
      rw [e, List.map_id]
    · rw [List.filter_append, List.map_append, i2, List.filter_map]
      have : (b.filter ((fun v : RefVariant => !v.isB) ∘ fun r => { isB := true, xrate := (m.heap r).maxXrate * (1 - fee.value), data := r : RefVariant })) = [] := by
        rw [List.filter_eq_nil_iff]; intro _ _; simp
      rw [this]
      exact List.Perm.refl _
  obtain ⟨pb, ps⟩ := hperm
  refine sim_intervalLoop hbody all _ m hm ?_ ?_ (ps.nodup_iff.2 hs) (fun r hr => ps.mem_iff.1 hr) ?_
  · rw [List.nil_append]; exact pb.nodup_iff.2 hb
  · rw [List.nil_append]; exact fun r hr => pb.mem_iff.1 hr
  · intro x
    obtain ⟨hf, hp⟩ := hX x
    rw [heapVariants_frame hm.1] at hall
    have hne : b.length > 0 ∧ s.length > 0 := by
      unfold heapVariants at hall
      obtain ⟨_, h, _⟩ := bind_eq_ok.1 hall
      exact pyAssert_eq_ok.1 h
    have hpos : ∀ k : List Ref, (∀ r ∈ k, r ∈ b ++ s) → ∀ o ∈ k.map m0.heap, 0 < o.maxXrate := by
      intro k hk o ho
      obtain ⟨r, hr, rfl⟩ := List.mem_map.1 ho
      exact hp r (hk r hr)
    obtain ⟨l, hl, _⟩ := xrateIntervals_spec (opt := opt) hf (b := b.map m0.heap) (s := s.map m0.heap)
      (by rw [ne_eq, List.map_eq_nil_iff]; exact List.ne_nil_of_length_pos hne.1)
      (by rw [ne_eq, List.map_eq_nil_iff]; exact List.ne_nil_of_length_pos hne.2)
      (hpos b (fun r hr => List.mem_append_left _ hr)) (hpos s (fun r hr => List.mem_append_right _ hr))
    rw [e, hall, ok_bind] at hl
    exact ⟨l, hl⟩

/-! ### Pruning and the whole search -/

theorem heapPrune_map (b s : List Ref) (fee : Fee) (h : Heap) :
    pruneUnrealizable (b.map h) (s.map h) fee = (heapPrune b s fee h >>= fun r => .ok (r.1.map h, r.2.map h)) := by
  unfold pruneUnrealizable heapPrune
  simp only [List.map_map, Function.comp_def, filterE_map]
  cases pyMaxBy id (b.map (fun r => (h r).maxXrate)) with
  | error e => rfl
  | ok bm =>
    simp only [ok_bind]
    cases pyMaxBy id (s.map (fun r => (h r).maxXrate)) with
    | error e => rfl
    | ok sm =>
      simp only [ok_bind]
      generalize filterE (fun r => do
        let q ← pyDiv 1 sm
        pure (decide ((h r).maxXrate * (1 - fee.value) ^ 2 ≥ q))) b = x
      generalize filterE (fun r => do
        let q ← pyDiv 1 bm
        pure (decide ((h r).maxXrate * (1 - fee.value) ^ 2 ≥ q))) s = y
      cases x <;> cases y <;> rfl

theorem heapPrune_sublist {b s : List Ref} {fee : Fee} {h : Heap} {r : List Ref × List Ref} (e : heapPrune b s fee h = .ok r) :
    r.1.Sublist b ∧ r.2.Sublist s := by
  unfold heapPrune at e
  simp only [bind_eq_ok, pure_eq_ok, Except.ok.injEq] at e
  obtain ⟨_, _, _, _, b', hb, s', hs, rfl⟩ := e
  exact ⟨filterE_sublist hb, filterE_sublist hs⟩

/-- The rate search cannot fail between two intervals: fee below one, limit rates not negative. Needed only for `X`. -/
def Rates (X : Prop) (fee : Fee) (h : Heap) (l : List Ref) : Prop := X → fee.value < 1 ∧ ∀ r ∈ l, 0 ≤ (h r).maxXrate

theorem Rates.sub {fee : Fee} {h : Heap} {l k : List Ref} (a : Rates X fee h l) (hs : ∀ r ∈ k, r ∈ l) : Rates X fee h k :=
  fun x => ⟨(a x).1, fun r hr => (a x).2 r (hs r hr)⟩

theorem Rates.congr {fee : Fee} {h h' : Heap} {l : List Ref} (a : Rates X fee h l) (hs : ∀ r ∈ l, (h' r).maxXrate = (h r).maxXrate) :
    Rates X fee h' l :=
  fun x => ⟨(a x).1, fun r hr => by rw [hs r hr]; exact (a x).2 r hr⟩

theorem heapPrune_pos {b s : List Ref} {fee : Fee} {h : Heap} {r : List Ref × List Ref} (e : heapPrune b s fee h = .ok r)
    (hn : ∀ r ∈ b ++ s, 0 ≤ (h r).maxXrate) : ∀ q ∈ r.1 ++ r.2, 0 < (h q).maxXrate := by
  unfold heapPrune at e
  simp only [bind_eq_ok, pure_eq_ok, Except.ok.injEq] at e
  obtain ⟨bm, hbm, sm, hsm, b', hb, s', hs, rfl⟩ := e
  have key : ∀ {k l l' : List Ref} {mx : ℚ}, (∀ r ∈ k, r ∈ b ++ s) → pyMaxBy id (k.map (fun r => (h r).maxXrate)) = .ok mx →
      filterE (fun r => do
        let q ← pyDiv 1 mx
        pure (decide ((h r).maxXrate * (1 - fee.value) ^ 2 ≥ q))) l = .ok l' → ∀ q ∈ l', 0 < (h q).maxXrate := by
    intro k l l' mx hk hmx hl q hq
    have h0 : 0 ≤ mx := by
      obtain ⟨r, hr, e⟩ := List.mem_map.1 (pyMaxBy_spec hmx).1
      have := hn r (hk r hr)
      rw [e] at this
      exact this
    obtain ⟨_, h1⟩ := (filterE_mem hl).1 hq
    simp only [bind_eq_ok, pure_eq_ok, Except.ok.injEq, decide_eq_true_eq] at h1
    obtain ⟨z, hz, hge⟩ := h1
    rw [pyDiv_eq_ok] at hz
    have h2 : 0 < z := by
      rw [hz.2]
      exact div_pos one_pos (lt_of_le_of_ne h0 (Ne.symm hz.1))
    by_contra hcon
    have : (h q).maxXrate * (1 - fee.value) ^ 2 ≤ 0 := mul_nonpos_of_nonpos_of_nonneg (not_lt.1 hcon) (sq_nonneg _)
    linarith
  intro q hq
  rcases List.mem_append.1 hq with hq | hq
  · exact key (fun r hr => List.mem_append_right _ hr) hsm hb q hq
  · exact key (fun r hr => List.mem_append_left _ hr) hbm hs q hq

theorem sim_findBestXrate {cfg : Config} {cap : ℕ → ℕ} {sqrt : ℚ → Py ℚ} {b s : List Ref} {fee : Fee} {m : Mem} (w : Books2 m b s)
    (hr : Rates X fee m.heap (b ++ s)) :
    Sim X (heapFindBestXrate cfg cap sqrt b s fee m) (findBestXrate cfg sqrt (b.map m.heap) (s.map m.heap) fee)
      (fun a m' v => a = v ∧ Scratch (b ++ s) m m') := by
  unfold heapFindBestXrate findBestXrate
  refine Sim.readMap (g := fun r => (r.1.map m.heap, r.2.map m.heap)) (heapPrune_map b s fee m.heap) ?_
  rintro ⟨b', s'⟩ hp
  obtain ⟨sb, ss⟩ := heapPrune_sublist hp
  have w' : Books2 m b' s' := w.sub (w.bNodup.sublist sb) (w.sNodup.sublist ss) (fun r hr => sb.subset hr) (fun r hr => ss.subset hr)
  have hL : ∀ r ∈ b' ++ s', r ∈ b ++ s := by
    intro r hr
    rcases List.mem_append.1 hr with h | h
    · exact List.mem_append_left _ (sb.subset h)
    · exact List.mem_append_right _ (ss.subset h)
  dsimp only
  refine Sim.bind (sim_solveTrivial w' hL (Scratch.refl _ _)) ?_
  rintro triv m1 _ ⟨rfl, hm1⟩ _ _
  have e : ∀ (k : List (Option (ℚ × ℚ)) → Py (Option (ℚ × ℚ))),
      (xrateIntervals (b'.map m.heap) (s'.map m.heap) fee (triv.map (·.1)) >>= fun ivs => mapE (solveInterval cfg sqrt fee) ivs >>= k) =
      ((xrateIntervals (b'.map m.heap) (s'.map m.heap) fee (triv.map (·.1)) >>= fun l => mapE (solveInterval cfg sqrt fee) l) >>= k) := by
    intro k
    cases xrateIntervals (b'.map m.heap) (s'.map m.heap) fee (triv.map (·.1)) <;> rfl
  rw [e]
  refine Sim.bind (sim_intervals (b := b') (s := s') (L := b ++ s) (fun d m2 h1 h2 h3 h4 hm2 =>
    sim_solveInterval (w'.sub h1 h2 h3 h4) ?_ hm2) w'.bNodup w'.sNodup (fun x => ⟨(hr x).1, heapPrune_pos hp (hr x).2⟩) hm1) ?_
  · intro r hr
    rcases List.mem_append.1 hr with h | h
    · exact hL r (List.mem_append_left _ (h3 r h))
    · exact hL r (List.mem_append_right _ (h4 r h))
  rintro rs m3 _ ⟨rfl, hm3⟩ _ _
  split
  · exact Sim.pure ⟨rfl, hm3⟩
  · refine Sim.read rfl (fun best _ => ?_)
    exact Sim.pure ⟨rfl, hm3⟩

end Dex
