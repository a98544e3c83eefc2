import Verif.Proof.MemXrate

/-! # The matching functions on mutable objects -/

namespace Dex

variable {X : Prop}

/-- `omega` on references. -/
macro "ref_omega" : tactic => `(tactic| (simp only [Ref] at *; omega))

theorem Heap.put_same (h : Heap) (r : Ref) (o : Order) : h.put r o r = o := by unfold Heap.put; rw [if_pos rfl]

theorem Heap.put_ne (h : Heap) {r q : Ref} (o : Order) (hne : q ≠ r) : h.put r o q = h q := by unfold Heap.put; rw [if_neg hne]

theorem map_put_of_not_mem {h : Heap} {l : List Ref} {r : Ref} {o : Order} (hr : r ∉ l) : l.map (h.put r o) = l.map h :=
  List.map_congr_left (fun _ hq => h.put_ne o (fun e => hr (e ▸ hq)))

/-- What no step of the solver changes. -/
def Order.fixed (o : Order) : String × ℚ := (o.id, o.maxXrate)

/-- Only the listed objects have changed, and no object has changed its id or its limit rate. -/
structure Touch (l : List Ref) (m m' : Mem) : Prop where
  next : m'.next = m.next
  same : ∀ r, r ∉ l → m'.heap r = m.heap r
  fix : ∀ r, (m'.heap r).fixed = (m.heap r).fixed

theorem Touch.id {l : List Ref} {m m' : Mem} (a : Touch l m m') (r : Ref) : (m'.heap r).id = (m.heap r).id := congrArg Prod.fst (a.fix r)

theorem Touch.refl (l : List Ref) (m : Mem) : Touch l m m := ⟨rfl, fun _ _ => rfl, fun _ => rfl⟩

theorem Touch.trans {l : List Ref} {m m' m'' : Mem} (a : Touch l m m') (b : Touch l m' m'') : Touch l m m'' :=
  ⟨b.next.trans a.next, fun r hr => (b.same r hr).trans (a.same r hr), fun r => (b.fix r).trans (a.fix r)⟩

theorem Touch.mono {l l' : List Ref} {m m' : Mem} (a : Touch l m m') (hs : ∀ r ∈ l, r ∈ l') : Touch l' m m' :=
  ⟨a.next, fun r hr => a.same r (fun h => hr (hs r h)), a.fix⟩

theorem Scratch.touch {l : List Ref} {m m' : Mem} (a : Scratch l m m') : Touch l m m' :=
  ⟨a.2, a.1.1, fun r => Prod.ext (a.1.id_eq r) (a.1.maxXrate_eq r)⟩

theorem Touch.map {l k : List Ref} {m m' : Mem} (a : Touch l m m') (hd : ∀ r ∈ k, r ∉ l) : k.map m'.heap = k.map m.heap :=
  List.map_congr_left (fun r hr => a.same r (hd r hr))

theorem IdInj.touch {l k : List Ref} {m m' : Mem} (hi : IdInj m.heap k) (f : Touch l m m') : IdInj m'.heap k :=
  fun r hr q hq e => hi r hr q hq (by rw [← f.id, ← f.id]; exact e)

/-- As `Touch`, for a computation that may also create objects. -/
structure Keeps (l : List Ref) (m m' : Mem) : Prop where
  next : m.next ≤ m'.next
  same : ∀ r < m.next, r ∉ l → m'.heap r = m.heap r
  fix : ∀ r < m.next, (m'.heap r).fixed = (m.heap r).fixed

theorem Keeps.id {l : List Ref} {m m' : Mem} (a : Keeps l m m') (r : Ref) (h : r < m.next) : (m'.heap r).id = (m.heap r).id :=
  congrArg Prod.fst (a.fix r h)

theorem Keeps.rates {l k : List Ref} {m m' : Mem} {fee : Fee} (a : Keeps l m m') (h : Rates X fee m.heap k) (hl : ∀ r ∈ k, r < m.next) :
    Rates X fee m'.heap k := h.congr (fun r hr => congrArg Prod.snd (a.fix r (hl r hr)))

theorem Keeps.refl (l : List Ref) (m : Mem) : Keeps l m m := ⟨le_refl _, fun _ _ _ => rfl, fun _ _ => rfl⟩

theorem Keeps.trans {l : List Ref} {m m' m'' : Mem} (a : Keeps l m m') (b : Keeps l m' m'') : Keeps l m m'' :=
  ⟨le_trans a.next b.next, fun r h hr => (b.same r (lt_of_lt_of_le h a.next) hr).trans (a.same r h hr),
    fun r h => (b.fix r (lt_of_lt_of_le h a.next)).trans (a.fix r h)⟩

theorem Keeps.mono {l l' : List Ref} {m m' : Mem} (a : Keeps l m m') (hs : ∀ r < m.next, r ∈ l → r ∈ l') : Keeps l' m m' :=
  ⟨a.next, fun r h hr => a.same r h (fun h' => hr (hs r h h')), a.fix⟩

theorem Touch.keeps {l : List Ref} {m m' : Mem} (a : Touch l m m') : Keeps l m m' :=
  ⟨a.next.ge, fun r _ hr => a.same r hr, fun r _ => a.fix r⟩

theorem Keeps.map {l k : List Ref} {m m' : Mem} (a : Keeps l m m') (hl : ∀ r ∈ k, r < m.next) (hd : ∀ r ∈ k, r ∉ l) :
    k.map m'.heap = k.map m.heap :=
  List.map_congr_left (fun r hr => a.same r (hl r hr) (hd r hr))

theorem IdInj.keeps {l k : List Ref} {m m' : Mem} (hi : IdInj m.heap k) (hl : ∀ r ∈ k, r < m.next) (f : Keeps l m m') : IdInj m'.heap k :=
  fun r hr q hq e => hi r hr q hq (by rw [← f.id r (hl r hr), ← f.id q (hl q hq)]; exact e)

/-- Only buy amounts of the listed objects have changed; objects may have been created. -/
structure BuyKeeps (l : List Ref) (m m' : Mem) : Prop where
  next : m.next ≤ m'.next
  same : ∀ r < m.next, r ∉ l → m'.heap r = m.heap r
  buy : ∀ r < m.next, ∃ v, m'.heap r = (m.heap r).withBuy v

theorem BuyKeeps.keeps {l : List Ref} {m m' : Mem} (a : BuyKeeps l m m') : Keeps l m m' :=
  ⟨a.next, a.same, fun r h => by obtain ⟨v, e⟩ := a.buy r h; rw [e]; rfl⟩

theorem BuyKeeps.trans {l : List Ref} {m m' m'' : Mem} (a : BuyKeeps l m m') (b : BuyKeeps l m' m'') : BuyKeeps l m m'' := by
  refine ⟨le_trans a.next b.next, (a.keeps.trans b.keeps).same, fun r h => ?_⟩
  obtain ⟨v, e⟩ := a.buy r h
  obtain ⟨w, e'⟩ := b.buy r (lt_of_lt_of_le h a.next)
  exact ⟨w, by rw [e', e]; rfl⟩

theorem Scratch.buyKeeps {l l' : List Ref} {m m' : Mem} (a : Scratch l m m') (hs : ∀ r < m.next, r ∈ l → r ∈ l') : BuyKeeps l' m m' :=
  ⟨a.2.ge, fun r h hr => a.1.1 r (fun h' => hr (hs r h h')), fun r _ => a.1.2 r⟩

theorem BuyKeeps.scratch {l k : List Ref} {m m' m'' : Mem} (a : BuyKeeps l m m') (b : Scratch k m' m'') (hs : ∀ r < m.next, r ∈ k → r ∈ l) :
    BuyKeeps l m m'' := by
  refine ⟨le_trans a.next b.2.ge, fun r h hr => (b.1.1 r (fun h' => hr (hs r h h'))).trans (a.same r h hr), fun r h => ?_⟩
  obtain ⟨v, e⟩ := a.buy r h
  obtain ⟨w, e'⟩ := b.1.2 r
  exact ⟨w, by rw [e', e]; rfl⟩

theorem BuyKeeps.clear {l k : List Ref} {m m' : Mem} (a : BuyKeeps l m m') (hl : ∀ r ∈ k, r < m.next) :
    (k.map m'.heap).map Order.clearBuy = (k.map m.heap).map Order.clearBuy := by
  rw [List.map_map, List.map_map]
  refine List.map_congr_left (fun r hr => ?_)
  obtain ⟨v, e⟩ := a.buy r (hl r hr)
  show (m'.heap r).clearBuy = (m.heap r).clearBuy
  rw [e]; rfl

/-! ### Creating and updating objects -/

theorem buyKeeps_new {m : Mem} (l : List Ref) (o : Order) : BuyKeeps l m { m with heap := m.heap.put m.next o, next := m.next + 1 } := by
  refine ⟨Nat.le_succ _, fun r h _ => m.heap.put_ne o (Nat.ne_of_lt h), fun r h => ⟨(m.heap r).buy, ?_⟩⟩
  show m.heap.put m.next o r = _
  rw [m.heap.put_ne o (Nat.ne_of_lt h)]
  rfl

theorem sim_marketOrder {cfg : Config} {bt st : Token} {x : ℚ} {f : List Ref} {m : Mem} :
    Sim X (heapMarketOrder cfg bt st x f m) (createMarketOrder cfg bt st x (f.map m.heap))
      (fun r m' o => r = m.next ∧ m' = { m with heap := m.heap.put m.next o, next := m.next + 1 }) := by
  unfold heapMarketOrder
  have e : ∀ y : Py Order, (y >>= fun o => pure o) = y := by intro y; cases y <;> rfl
  rw [← e (createMarketOrder _ _ _ _ _)]
  refine Sim.read rfl (fun o _ => ?_)
  exact ⟨rfl, rfl⟩

theorem HM.update_apply (r : Ref) (g : Order → Py Order) (m : Mem) : HM.update r g m = match g (m.heap r) with
    | .error e => .error e
    | .ok o => .ok ((), { m with heap := m.heap.put r o }) := by
  unfold HM.update HM.writes
  dsimp only
  cases g (m.heap r) <;> rfl

theorem sim_update {r : Ref} {g : Order → Py Order} {m : Mem} :
    Sim X (HM.update r g m) (g (m.heap r)) (fun _ m' o => m' = { m with heap := m.heap.put r o }) := by
  rw [HM.update_apply]
  cases g (m.heap r) with
  | error e => exact fun _ => rfl
  | ok o => exact rfl

theorem Heap.put_put (h : Heap) (r : Ref) (o o' : Order) : (h.put r o).put r o' = h.put r o' := by
  funext q
  unfold Heap.put
  split <;> rfl

theorem update_update (r : Ref) (g1 g2 : Order → Py Order) :
    (HM.update r g1 >>= fun _ => HM.update r g2) = HM.update r (fun o => g1 o >>= g2) := by
  funext m
  rw [HM.bind_apply, HM.update_apply, HM.update_apply]
  cases g1 (m.heap r) with
  | error e => rfl
  | ok o =>
    simp only [ok_bind]
    rw [HM.update_apply]
    simp only [Heap.put_same, Heap.put_put]

/-- Updating each object of a list. -/
theorem sim_forM_update {α : Type} {ref : α → Ref} {g : α → Order → Py Order} (hid : ∀ a o o', g a o = .ok o' → o'.fixed = o.fixed) :
    ∀ (L : List α) (m : Mem), (L.map ref).Nodup →
    Sim X (HM.forM (fun a => HM.update (ref a) (g a)) L m) (mapE (fun a => g a (m.heap (ref a))) L)
      (fun _ m' v => v = L.map (fun a => m'.heap (ref a)) ∧ Touch (L.map ref) m m') := by
  intro L
  induction L with
  | nil => intro m _; exact ⟨rfl, Touch.refl _ _⟩
  | cons a L ih =>
    intro m hn
    rw [List.map_cons, List.nodup_cons] at hn
    unfold HM.forM mapE
    refine Sim.bind sim_update ?_
    rintro _ _ o rfl _ ho
    have hT : Touch ((a :: L).map ref) m { m with heap := m.heap.put (ref a) o } := by
      refine ⟨rfl, fun r hr => ?_, fun r => ?_⟩
      · exact m.heap.put_ne o (fun e => hr (by rw [e]; simp))
      · show (m.heap.put (ref a) o r).fixed = _
        by_cases e : r = ref a
        · rw [e, Heap.put_same]; exact hid a _ _ ho
        · rw [m.heap.put_ne o e]
    have e : mapE (fun a => g a (m.heap (ref a))) L = mapE (fun c => g c (m.heap.put (ref a) o (ref c))) L := by
      have : ∀ (K : List α), (∀ c ∈ K, ref c ≠ ref a) → mapE (fun a => g a (m.heap (ref a))) K = mapE (fun c => g c (m.heap.put (ref a) o (ref c))) K := by
        intro K
        induction K with
        | nil => intro _; rfl
        | cons c K ih =>
          intro h
          unfold mapE
          rw [ih (fun c hc => h c (List.mem_cons_of_mem _ hc)), m.heap.put_ne o (h c (List.mem_cons_self ..))]
      exact this L (fun c hc e => hn.1 (by rw [← e]; exact List.mem_map_of_mem hc))
    rw [e]
    have hL := ih { m with heap := m.heap.put (ref a) o } hn.2
    cases hv : mapE (fun c => g c (m.heap.put (ref a) o (ref c))) L with
    | error e =>
      rw [hv] at hL
      exact hL.bindR_error
    | ok vs =>
      rw [hv] at hL
      obtain ⟨u, m', e', rfl, hT'⟩ := hL.exists_ok
      show Sim X (HM.forM _ L _) _ _
      rw [e']
      refine ⟨?_, hT.trans (hT'.mono (fun r hr => by rw [List.map_cons]; exact List.mem_cons_of_mem _ hr))⟩
      rw [List.map_cons]
      congr 1
      rw [hT'.same _ hn.1]
      exact (Heap.put_same _ _ _).symm

/-! ### `solve_token_pair` -/

theorem findBestXrate_never_none {cfg : Config} {sqrt : ℚ → Py ℚ} {b s : List Order} {fee : Fee} :
    findBestXrate cfg sqrt b s fee ≠ .ok none := by
  intro h
  unfold findBestXrate at h
  simp only [bind_eq_ok] at h
  obtain ⟨⟨b', s'⟩, _, triv, htriv, ivs, hivs, rs, _, h⟩ := h
  cases triv with
  | some t =>
    rw [if_neg (by simp)] at h
    simp only [bind_eq_ok, pure_eq_ok] at h
    obtain ⟨_, _, h⟩ := h
    cases h
  | none =>
    unfold solveTrivial at htriv
    simp only [bind_eq_ok] at htriv
    obtain ⟨xs, hxs, htriv⟩ := htriv
    split at htriv
    · rename_i hlen
      unfold xrateIntervals at hivs
      simp only [bind_eq_ok, pyAssert_eq_ok] at hivs
      obtain ⟨_, hpos, _⟩ := hivs
      unfold trivialCandidates at hxs
      simp only [bind_eq_ok, pure_eq_ok, Except.ok.injEq] at hxs
      obtain ⟨r2, _, rfl⟩ := hxs
      have hn : sortDistinct (b'.map (fun o => root1 o fee) ++ r2) = [] := List.length_eq_zero_iff.1 hlen
      unfold sortDistinct at hn
      rw [List.dedup_eq_nil] at hn
      have hp := pySortBy_perm (key := id) (b'.map (fun o => root1 o fee) ++ r2)
      rw [hn] at hp
      have := hp.length_eq
      simp only [List.length_nil, List.length_append, List.length_map] at this
      have h1 := hpos.1
      omega
    · simp only [bind_eq_ok, pure_eq_ok] at htriv
      obtain ⟨_, _, h⟩ := htriv
      cases h

theorem roundXrate_congr {p : Option ℚ} {x : ℚ} {b b' s s' : List Order} {fee : Fee} (hb : b.map Order.clearBuy = b'.map Order.clearBuy)
    (hs : s.map Order.clearBuy = s'.map Order.clearBuy) : roundXrate p x b s fee = roundXrate p x b' s' fee := by
  have hc : ∀ {l l' : List Order}, l.map Order.clearBuy = l'.map Order.clearBuy → ∀ y, countSatisfyingXrate l y fee = countSatisfyingXrate l' y fee := by
    intro l l' h y
    have e : ∀ k : List Order, countSatisfyingXrate (k.map Order.clearBuy) y fee = countSatisfyingXrate k y fee := by
      intro k
      unfold countSatisfyingXrate
      rw [List.countP_map]
      rfl
    rw [← e l, ← e l', h]
  unfold roundXrate
  cases p with
  | none => rfl
  | some p =>
    dsimp only
    unfold computeSBuyTokenPrice
    simp only [hc hb, hc hs]

theorem sim_solveTokenPair {cfg : Config} {ext : HeapExt} {pair : Token × Token} {b s : List Ref} {fee : Fee} {x p : Option ℚ} {n : ℤ} {m : Mem}
    (w : Books2 m b s) (hr : x = none → Rates X fee m.heap (b ++ s)) :
    Sim X (heapSolveTokenPair cfg ext pair b s fee x p n m) (solveTokenPair cfg ext.sqrt pair (b.map m.heap) (s.map m.heap) fee x p n)
      (fun a m' v => v = (a, b.map m'.heap, s.map m'.heap) ∧ Scratch (b ++ s) m m') := by
  unfold heapSolveTokenPair solveTokenPair
  simp only [List.length_map]
  split
  · exact Sim.pure ⟨rfl, Scratch.refl _ _⟩
  · generalize (if pair.1 = fee.token then some (cfg.feeTokenPrice : ℚ) else p) = bp
    have h1 : Sim X ((match (generalizing := false) x with
      | some x => pure (some x)
      | none => do
        let r ← heapFindBestXrate cfg ext.cap ext.sqrt b s fee
        pure (r.map (·.1)) : HM (Option ℚ)) m) (givenOrBestXrate cfg ext.sqrt (b.map m.heap) (s.map m.heap) fee x)
        (fun a m' v => a = v ∧ v ≠ none ∧ Scratch (b ++ s) m m') := by
      cases x with
      | some x => exact ⟨rfl, by simp, Scratch.refl _ _⟩
      | none =>
        unfold givenOrBestXrate
        refine Sim.bind (sim_findBestXrate w (hr rfl)) ?_
        rintro r m' _ ⟨rfl, hs⟩ _ hv
        refine Sim.pure ⟨rfl, ?_, hs⟩
        cases r with
        | none => exact absurd hv findBestXrate_never_none
        | some r => simp
    refine Sim.bind h1 ?_
    rintro a m1 _ ⟨rfl, hne, hs1⟩ _ _
    cases a with
    | none => exact absurd rfl hne
    | some y =>
      refine Sim.read (roundXrate_congr (map_clear_frame hs1.1).symm (map_clear_frame hs1.1).symm) (fun z _ => ?_)
      have h2 := sim_computeBuyAmounts (X := X) (cfg := cfg) (x := z) (fee := fee) (n := n) (w.frame hs1)
      rw [computeBuyAmounts_frame hs1.1] at h2
      refine Sim.bind h2 ?_
      rintro _ m2 _ ⟨rfl, hs2⟩ _ _
      exact Sim.pure ⟨rfl, hs1.trans hs2⟩

/-- For a given rate the buy amounts found do not matter. -/
theorem solveTokenPair_congr {cfg : Config} {sqrt : ℚ → Py ℚ} {pair : Token × Token} {b b' s s' : List Order} {fee : Fee} {x : ℚ} {p : Option ℚ}
    {n : ℤ} (hb : b.map Order.clearBuy = b'.map Order.clearBuy) (hs : s.map Order.clearBuy = s'.map Order.clearBuy)
    (hne : b ≠ [] ∧ s ≠ []) : solveTokenPair cfg sqrt pair b s fee (some x) p n = solveTokenPair cfg sqrt pair b' s' fee (some x) p n := by
  have lb : b.length = b'.length := by simpa using congrArg List.length hb
  have ls : s.length = s'.length := by simpa using congrArg List.length hs
  have l0 : ¬ (b.length = 0 ∨ s.length = 0) := by simp [hne.1, hne.2]
  unfold solveTokenPair
  have l1 : ¬ (b'.length = 0 ∨ s'.length = 0) := by rw [← lb, ← ls]; exact l0
  rw [if_neg l0, if_neg l1]
  have e : ∀ l l' : List Order, givenOrBestXrate cfg sqrt l l' fee (some x) = pure (some x) := fun _ _ => rfl
  simp only [e]
  show (roundXrate _ x b s fee >>= fun z => computeBuyAmounts cfg z b s fee n >>= _) =
    (roundXrate _ x b' s' fee >>= fun z => computeBuyAmounts cfg z b' s' fee n >>= _)
  rw [roundXrate_congr hb hs]
  simp only [computeBuyAmounts_congr hb hs]

/-! ### The fee token market -/

/-- A list of distinct live objects with distinct ids. -/
structure Live (m : Mem) (l : List Ref) : Prop where
  nodup : l.Nodup
  live : ∀ r ∈ l, r < m.next
  ids : IdInj m.heap l

theorem Live.sub {m : Mem} {l k : List Ref} (w : Live m l) (hk : k.Nodup) (hs : ∀ r ∈ k, r ∈ l) : Live m k :=
  ⟨hk, fun r hr => w.live r (hs r hr), w.ids.mono hs⟩

theorem Live.keeps {m m' : Mem} {l k : List Ref} (w : Live m l) (f : Keeps k m m') : Live m' l :=
  ⟨w.nodup, fun r hr => lt_of_lt_of_le (w.live r hr) f.next, w.ids.keeps w.live f⟩

theorem Live.books2 {m : Mem} {b s : List Ref} (w : Live m (b ++ s)) : Books2 m b s :=
  ⟨w.nodup, w.ids.mono (fun _ h => List.mem_append_left _ h), w.ids.mono (fun _ h => List.mem_append_right _ h)⟩

/-- A newly created object in front of a list. -/
theorem books2_new {m : Mem} {f : List Ref} {o : Order} (w : Live m f) :
    Books2 { m with heap := m.heap.put m.next o, next := m.next + 1 } [m.next] f := by
  refine ⟨?_, ?_, ?_⟩
  · rw [List.singleton_append, List.nodup_cons]
    exact ⟨fun h => absurd (w.live _ h) (lt_irrefl _), w.nodup⟩
  · intro r hr q hq _
    rw [List.mem_singleton.1 hr, List.mem_singleton.1 hq]
  · exact (w.keeps (buyKeeps_new f o).keeps).ids

theorem createMarketOrder_congr {cfg : Config} {bt st : Token} {x : ℚ} {l l' : List Order} (h : l.map Order.clearBuy = l'.map Order.clearBuy) :
    createMarketOrder cfg bt st x l = createMarketOrder cfg bt st x l' := by
  have e : ∀ k : List Order, (k.map Order.clearBuy).map (·.maxXrate) = k.map (·.maxXrate) := by
    intro k; rw [List.map_map]; rfl
  unfold createMarketOrder
  rw [← e l, ← e l', h]

theorem pyMinBy_mem {α : Type} {key : α → ℚ} {l : List α} {a : α} (h : pyMinBy key l = .ok a) : a ∈ l := by
  cases l with
  | nil => cases h
  | cons c l =>
    have : ∀ (l : List α) (c : α), minByAux key c l ∈ c :: l := by
      intro l
      induction l with
      | nil => intro c; exact List.mem_cons_self ..
      | cons d l ih =>
        intro c
        unfold minByAux
        have := ih (if key d < key c then d else c)
        split at this
        · rename_i hlt
          rw [if_pos hlt]
          exact List.mem_cons_of_mem _ this
        · rename_i hlt
          rw [if_neg hlt]
          rcases List.mem_cons.1 this with h | h
          · rw [h]; exact List.mem_cons_self ..
          · exact List.mem_cons_of_mem _ (List.mem_cons_of_mem _ h)
    cases h
    exact this l c

theorem createMarketOrder_nonneg {cfg : Config} {bt st : Token} {x : ℚ} {l : List Order} {o : Order} (h : createMarketOrder cfg bt st x l = .ok o)
    (hl : ∀ o ∈ l, 0 ≤ o.maxXrate) : 0 ≤ o.maxXrate := by
  unfold createMarketOrder at h
  simp only [bind_eq_ok, pure_eq_ok, Except.ok.injEq] at h
  obtain ⟨mn, hmn, q, hq, rfl⟩ := h
  obtain ⟨o, ho, rfl⟩ := List.mem_map.1 (pyMinBy_mem hmn)
  obtain ⟨_, rfl⟩ := pyDiv_eq_ok.1 hq
  have := hl o ho
  show 0 ≤ 1 / (o.maxXrate * (9 / 10))
  positivity

theorem sim_tokenPrice {cfg : Config} {cap : ℕ → ℕ} {sqrt : ℚ → Py ℚ} {bt : Token} {fee : Fee} {imb : ℚ} {f : List Ref} {m : Mem} (w : Live m f)
    (hr : Rates X fee m.heap f) :
    Sim X (heapTokenPrice cfg cap sqrt bt fee imb f m) (tokenPriceToCoverImbalance cfg sqrt bt fee imb (f.map m.heap))
      (fun a m' v => a = v ∧ BuyKeeps f m m') := by
  unfold heapTokenPrice tokenPriceToCoverImbalance
  refine Sim.bind sim_marketOrder ?_
  rintro _ _ o ⟨rfl, rfl⟩ _ ho
  have hr' : Rates X fee (m.heap.put m.next o) ([m.next] ++ f) := by
    intro hX
    refine ⟨(hr hX).1, fun r h => ?_⟩
    rcases List.mem_append.1 h with h | h
    · rw [List.mem_singleton.1 h, Heap.put_same]
      exact createMarketOrder_nonneg ho (fun o ho' => by
        obtain ⟨q, hq, rfl⟩ := List.mem_map.1 ho'
        exact (hr hX).2 q hq)
    · rw [m.heap.put_ne o (Nat.ne_of_lt (w.live r h))]
      exact (hr hX).2 r h
  have h := sim_findBestXrate (X := X) (cfg := cfg) (cap := cap) (sqrt := sqrt) (fee := fee) (books2_new (o := o) w) hr'
  have e1 : [m.next].map (m.heap.put m.next o) = [o] := by rw [List.map_singleton, Heap.put_same]
  have e2 : f.map (m.heap.put m.next o) = f.map m.heap := map_put_of_not_mem (fun h => absurd (w.live _ h) (lt_irrefl _))
  rw [e1, e2] at h
  refine Sim.bind h ?_
  rintro r m1 _ ⟨rfl, hs⟩ _ _
  cases r with
  | none => exact Sim.raise
  | some r =>
    obtain ⟨xr, ob⟩ := r
    have hk : BuyKeeps f m m1 := by
      refine (buyKeeps_new f o).scratch hs ?_
      intro r hr h
      rcases List.mem_append.1 h with h | h
      · exact absurd (List.mem_singleton.1 h) (Nat.ne_of_lt hr)
      · exact h
    refine Sim.read rfl (fun q _ => ?_)
    have e3 : (m1.heap m.next).maxXrate = o.maxXrate := by
      rw [hs.1.maxXrate_eq]
      show (m.heap.put m.next o m.next).maxXrate = _
      rw [Heap.put_same]
    refine Sim.readL (a := o.maxXrate * (1 - fee.value)) (by rw [e3]) ?_
    split
    · exact Sim.pure ⟨rfl, hk⟩
    · exact Sim.pure ⟨rfl, hk⟩

theorem sim_solveBFee {cfg : Config} {ext : HeapExt} {imb : ℚ} {bt : Token} {f : List Ref} {fee : Fee} {m : Mem} (w : Live m f)
    (hr : Rates X fee m.heap f) :
    Sim X (heapSolveBFee cfg ext imb bt f fee m) (solveBFee cfg ext.sqrt imb bt (f.map m.heap) fee)
      (fun a m' v => v = (a, f.map m'.heap) ∧ BuyKeeps f m m') := by
  unfold heapSolveBFee solveBFee
  refine Sim.bind (sim_tokenPrice w hr) ?_
  rintro p m1 _ ⟨rfl, hk1⟩ _ _
  have w1 := w.keeps hk1.keeps
  have hm := sim_marketOrder (X := X) (cfg := cfg) (bt := fee.token) (st := bt) (x := imb) (f := f) (m := m1)
  rw [createMarketOrder_congr (hk1.clear w.live)] at hm
  refine Sim.bind hm ?_
  rintro _ _ o ⟨rfl, rfl⟩ _ ho
  refine Sim.read rfl (fun feeX _ => ?_)
  have hf : f ≠ [] := by
    rintro rfl
    cases ho
  have hs := sim_solveTokenPair (X := X) (cfg := cfg) (ext := ext) (pair := (fee.token, bt)) (fee := fee) (x := some feeX) (p := none)
    (n := cfg.maxNrExec) (books2_new (o := o) w1) (by simp)
  have e1 : [m1.next].map (m1.heap.put m1.next o) = [o] := by rw [List.map_singleton, Heap.put_same]
  have e2 : f.map (m1.heap.put m1.next o) = f.map m1.heap := map_put_of_not_mem (fun h => absurd (w1.live _ h) (lt_irrefl _))
  rw [e1, e2, solveTokenPair_congr rfl (hk1.clear w.live) ⟨by simp, by simp [hf]⟩] at hs
  refine Sim.bind hs ?_
  rintro x m2 _ ⟨rfl, hs2⟩ _ _
  refine Sim.read rfl (fun _ _ => ?_)
  refine Sim.pure ⟨rfl, ?_⟩
  refine (hk1.trans (buyKeeps_new f o)).scratch hs2 ?_
  intro r hr h
  rcases List.mem_append.1 h with h | h
  · exact absurd (List.mem_singleton.1 h) (Nat.ne_of_lt (lt_of_lt_of_le hr hk1.next))
  · exact h

/-! ### The rounding buffer -/

theorem setMaxSell_fixed {o o' : Order} {v : ℚ} (h : o.setMaxSell v = .ok o') : o'.fixed = o.fixed := by
  unfold Order.setMaxSell at h
  simp only [bind_eq_ok, pure_eq_ok, Except.ok.injEq] at h
  obtain ⟨_, _, rfl⟩ := h
  rfl

theorem bufferOrder_fixed {cfg : Config} {ts : List Token} {prices : Prices} {am : Dict Token ℚ} {o o' : Order}
    (h : bufferOrder cfg ts prices am o = .ok o') : o'.fixed = o.fixed := by
  unfold bufferOrder at h
  split at h
  · simp only [bind_eq_ok] at h
    obtain ⟨_, _, _, _, _, _, _, _, _, _, _, _, h⟩ := h
    exact setMaxSell_fixed h
  · cases h; rfl

theorem sim_bufferEnter {cfg : Config} {pair : Token × Token} {b s : List Ref} {x p : ℚ} {fee : Fee} {m : Mem} (hn : (b ++ s).Nodup) :
    Sim X (heapBufferEnter cfg pair b s x p fee m) (roundingBufferEnter cfg pair (b.map m.heap) (s.map m.heap) x p fee)
      (fun _ m' v => v = (b.map m'.heap, s.map m'.heap) ∧ Touch (b ++ s) m m') := by
  unfold heapBufferEnter roundingBufferEnter
  refine Sim.read rfl ?_
  rintro ⟨os, prices⟩ hos
  unfold setupRoundingBuffer
  have eos : os = (b ++ s).map m.heap := by
    unfold aggregateOrdersPrices at hos
    simp only [bind_eq_ok, pure_eq_ok, Except.ok.injEq, Prod.mk.injEq] at hos
    obtain ⟨_, _, rfl, _⟩ := hos
    rw [List.append_nil, List.map_append]
  dsimp only
  have e : ∀ (A : Py (Dict Token ℚ)) (F : Dict Token ℚ → Py (List Order)) (k : List Order → Py (List Order × List Order)),
      ((A >>= F) >>= k) = (A >>= fun a => F a >>= k) := by
    intro A F k; cases A <;> rfl
  rw [e]
  refine Sim.read rfl (fun am _ => ?_)
  have h := sim_forM_update (X := X) (ref := fun r : Ref => r) (g := fun _ => bufferOrder cfg [pair.1, pair.2] prices am)
    (fun _ _ _ h => bufferOrder_fixed h) (b ++ s) m (by rw [List.map_id']; exact hn)
  have e2 : mapE (fun r => bufferOrder cfg [pair.1, pair.2] prices am (m.heap r)) (b ++ s) = mapE (bufferOrder cfg [pair.1, pair.2] prices am) os := by
    rw [eos, mapE_map]
  rw [e2, List.map_id'] at h
  cases hv : mapE (bufferOrder cfg [pair.1, pair.2] prices am) os with
  | error e => rw [hv] at h; exact h.bindR_error
  | ok vs =>
    rw [hv] at h
    obtain ⟨u, m', e', rfl, hT⟩ := h.exists_ok
    rw [e']
    refine ⟨?_, hT⟩
    show ((_ : List Order), (_ : List Order)) = _
    rw [List.length_map, List.map_append, List.take_left' (by simp), List.drop_left' (by simp)]

theorem sim_restoreMaxSell {l : List Ref} {old : List ℚ} {m : Mem} (hn : l.Nodup) (hlen : l.length ≤ old.length) :
    Sim X (heapRestoreMaxSell l old m) (restoreMaxSell (l.map m.heap) old) (fun _ m' v => v = l.map m'.heap ∧ Touch l m m') := by
  unfold heapRestoreMaxSell restoreMaxSell
  have e : (l.zip old).map Prod.fst = l := List.map_fst_zip hlen
  have h := sim_forM_update (X := X) (ref := fun p : Ref × ℚ => p.1) (g := fun p o => o.setMaxSell p.2)
    (fun _ _ _ h => setMaxSell_fixed h) (l.zip old) m (by rw [e]; exact hn)
  have e2 : mapE (fun p : Order × ℚ => p.1.setMaxSell p.2) ((l.map m.heap).zip old) = mapE (fun p : Ref × ℚ => (m.heap p.1).setMaxSell p.2) (l.zip old) := by
    rw [List.zip_map_left, mapE_map]
    rfl
  rw [e2]
  refine h.mono ?_
  rintro _ m' v ⟨rfl, hT⟩
  rw [e] at hT
  refine ⟨?_, hT⟩
  rw [← e, List.map_map, e]
  rfl

theorem sim_solveBuffered {cfg : Config} {ext : HeapExt} {pair : Token × Token} {b s : List Ref} {x p : ℚ} {fee : Fee} {n : ℤ} {m : Mem}
    (w : Books2 m b s) :
    Sim X (heapSolveBuffered cfg ext pair b s x p fee n m) (solveBuffered cfg ext.sqrt pair (b.map m.heap) (s.map m.heap) x p fee n)
      (fun a m' v => v = (a, b.map m'.heap, s.map m'.heap) ∧ Touch (b ++ s) m m') := by
  unfold heapSolveBuffered solveBuffered
  refine Sim.readL rfl (Sim.readL rfl ?_)
  refine Sim.bind (sim_bufferEnter w.nodup) ?_
  rintro _ m1 _ ⟨rfl, hT1⟩ _ _
  have w1 : Books2 m1 b s := ⟨w.nodup, w.bId.touch hT1, w.sId.touch hT1⟩
  refine Sim.bind (sim_solveTokenPair w1 (by simp)) ?_
  rintro y m2 _ ⟨rfl, hs2⟩ _ _
  have eb : (b.map m.heap).map (·.maxSell) = b.map (fun r => (m.heap r).maxSell) := by rw [List.map_map]; rfl
  have es : (s.map m.heap).map (·.maxSell) = s.map (fun r => (m.heap r).maxSell) := by rw [List.map_map]; rfl
  rw [eb, es]
  refine Sim.bind (sim_restoreMaxSell (old := b.map (fun r => (m.heap r).maxSell)) w.bNodup (by rw [List.length_map])) ?_
  rintro _ m3 _ ⟨rfl, hT3⟩ _ _
  have nd := (List.nodup_append.1 w.nodup).2.2
  have e3 : s.map m2.heap = s.map m3.heap := (hT3.map (fun r hr hb => nd r hb r hr rfl)).symm
  rw [e3]
  refine Sim.bind (sim_restoreMaxSell (old := s.map (fun r => (m.heap r).maxSell)) w.sNodup (by rw [List.length_map])) ?_
  rintro _ m4 _ ⟨rfl, hT4⟩ _ _
  have e4 : b.map m3.heap = b.map m4.heap := (hT4.map (fun r hr hs => nd r hr r hs rfl)).symm
  rw [e4]
  refine Sim.pure ⟨rfl, ?_⟩
  exact ((hT1.trans hs2.touch).trans (hT3.mono (fun _ h => List.mem_append_left _ h))).trans (hT4.mono (fun _ h => List.mem_append_right _ h))

/-! ### A given number of f_orders -/

/-- What the three lists point to. -/
def RefBooks.read (bk : RefBooks) (h : Heap) : Books := { b := bk.b.map h, s := bk.s.map h, f := bk.f.map h }

/-- All references of the three lists. -/
def RefBooks.all (bk : RefBooks) : List Ref := bk.b ++ bk.s ++ bk.f

theorem RefBooks.disj {bk : RefBooks} (hn : bk.all.Nodup) : (bk.b ++ bk.s).Nodup ∧ bk.f.Nodup ∧ ∀ r ∈ bk.b ++ bk.s, r ∉ bk.f := by
  obtain ⟨h1, h2, h3⟩ := List.nodup_append.1 hn
  exact ⟨h1, h2, fun r hr hf => h3 r hr r hf rfl⟩

theorem Live.bs {m : Mem} {bk : RefBooks} (w : Live m bk.all) : Live m (bk.b ++ bk.s) :=
  w.sub (RefBooks.disj w.nodup).1 (fun _ h => List.mem_append_left _ h)

theorem Live.f {m : Mem} {bk : RefBooks} (w : Live m bk.all) : Live m bk.f :=
  w.sub (RefBooks.disj w.nodup).2.1 (fun _ h => List.mem_append_right _ h)

theorem sim_givenExecF {cfg : Config} {ext : HeapExt} {nrF : ℕ} {imb : ℚ} {pair : Token × Token} {bk : RefBooks} {x : ℚ} {fee : Fee} {m : Mem}
    (w : Live m bk.all) (hr : Rates X fee m.heap bk.f) :
    Sim X (heapGivenExecF cfg ext nrF imb pair bk x fee m) (givenExecF cfg ext.sqrt nrF imb pair (bk.read m.heap) x fee)
      (fun a m' v => v = { objective := a.objective, xrate := a.xrate, bPrice := a.bPrice, books := bk.read m'.heap } ∧ Keeps bk.all m m') := by
  unfold heapGivenExecF givenExecF
  obtain ⟨n1, n2, dj⟩ := RefBooks.disj w.nodup
  have wt : Live m (bk.f.take nrF) := w.f.sub (n2.sublist (List.take_sublist ..)) (fun r hr => List.mem_of_mem_take hr)
  have e1 : (bk.read m.heap).f.take nrF = (bk.f.take nrF).map m.heap := (List.map_take ..).symm
  rw [e1]
  refine Sim.bind (sim_solveBFee wt (hr.sub (fun r hr => List.mem_of_mem_take hr))) ?_
  rintro p m1 _ ⟨rfl, hk1⟩ _ _
  have hk1' : Keeps bk.all m m1 := hk1.keeps.mono (fun r _ h => List.mem_append_right _ (List.mem_of_mem_take h))
  have hbs : ∀ r ∈ bk.b ++ bk.s, m1.heap r = m.heap r := fun r hr =>
    hk1.same r (w.live r (List.mem_append_left _ hr)) (fun h => dj r hr (List.mem_of_mem_take h))
  have eb : (bk.read m.heap).b = bk.b.map m1.heap :=
    List.map_congr_left (fun r hr => (hbs r (List.mem_append_left _ hr)).symm)
  have es : (bk.read m.heap).s = bk.s.map m1.heap :=
    List.map_congr_left (fun r hr => (hbs r (List.mem_append_right _ hr)).symm)
  have ef : (bk.f.take nrF).map m1.heap ++ (bk.read m.heap).f.drop nrF = bk.f.map m1.heap := by
    have e : (bk.read m.heap).f.drop nrF = (bk.f.drop nrF).map m1.heap := by
      show (bk.f.map m.heap).drop nrF = _
      rw [← List.map_drop]
      refine List.map_congr_left (fun r hr => ?_)
      refine (hk1.same r (w.f.live r (List.mem_of_mem_drop hr)) (fun h => ?_)).symm
      have hn := n2
      rw [← List.take_append_drop nrF bk.f] at hn
      exact (List.nodup_append.1 hn).2.2 r h r hr rfl
    rw [e, ← List.map_append, List.take_append_drop]
  dsimp only
  rw [ef, eb, es]
  refine Sim.readL (a := countNrExec ((bk.f.map m1.heap).take nrF)) (by rw [List.map_take]) ?_
  split
  · exact Sim.pure ⟨rfl, hk1'⟩
  · have w1 := w.keeps hk1'
    refine Sim.bind (sim_solveBuffered w1.bs.books2) ?_
    rintro y m2 _ ⟨rfl, hT2⟩ _ _
    cases y with
    | none => exact Sim.raise
    | some y =>
      dsimp only
      have ef2 : bk.f.map m1.heap = bk.f.map m2.heap := (hT2.map (fun r hr h => dj r h hr)).symm
      rw [ef2]
      refine Sim.read rfl (fun obj _ => ?_)
      exact Sim.pure ⟨rfl, hk1'.trans (hT2.keeps.mono (fun r _ h => List.mem_append_left _ h))⟩

/-! ### Deep copies -/

theorem deepcopy_spec : ∀ (l : List Ref) (m : Mem), (∀ r ∈ l, r < m.next) →
    ∃ c m', HM.deepcopy l m = .ok (c, m') ∧ c.map m'.heap = l.map m.heap ∧ m.next ≤ m'.next ∧ (∀ r < m.next, m'.heap r = m.heap r) ∧
      c.Nodup ∧ ∀ r ∈ c, m.next ≤ r ∧ r < m'.next := by
  intro l
  induction l with
  | nil => intro m _; exact ⟨[], m, rfl, rfl, le_refl _, fun _ _ => rfl, List.nodup_nil, by simp⟩
  | cons a l ih =>
    intro m hl
    obtain ⟨c, m', e, h1, h2, h3, h4, h5⟩ := ih { m with heap := m.heap.put m.next (m.heap a), next := m.next + 1 }
      (fun r hr => Nat.lt_succ_of_lt (hl r (List.mem_cons_of_mem _ hr)))
    dsimp only at h1 h2 h3 h5
    refine ⟨m.next :: c, m', ?_, ?_, by ref_omega, ?_, ?_, ?_⟩
    · have e0 : HM.deepcopy (a :: l) = ((do
          let o ← HM.reads fun h => .ok (h a)
          HM.new o : HM Ref) >>= fun b => HM.deepcopy l >>= fun bs => pure (b :: bs)) := rfl
      have e1 : (do
          let o ← HM.reads fun h => .ok (h a)
          HM.new o : HM Ref) m = .ok (m.next, { m with heap := m.heap.put m.next (m.heap a), next := m.next + 1 }) := rfl
      rw [e0, HM.bind_apply, e1]
      dsimp only
      rw [HM.bind_apply, e]
      rfl
    · rw [List.map_cons, List.map_cons, h1, h3 m.next (Nat.lt_succ_self _), Heap.put_same,
        map_put_of_not_mem (fun h => absurd (hl _ (List.mem_cons_of_mem _ h)) (lt_irrefl _))]
    · intro r hr
      rw [h3 r (by ref_omega), m.heap.put_ne _ (Nat.ne_of_lt hr)]
    · rw [List.nodup_cons]
      exact ⟨fun h => absurd (h5 _ h).1 (by ref_omega), h4⟩
    · intro r hr
      rcases List.mem_cons.1 hr with rfl | hr
      · exact ⟨le_refl _, by ref_omega⟩
      · have := h5 r hr
        exact ⟨by ref_omega, this.2⟩

/-- Copies of objects with distinct ids have distinct ids. -/
theorem idInj_copy {m m' : Mem} {l c : List Ref} (hi : IdInj m.heap l) (hn : l.Nodup) (e : c.map m'.heap = l.map m.heap) : IdInj m'.heap c := by
  have h : (c.map (fun r => (m'.heap r).id)).Nodup := by
    have e' : c.map (fun r => (m'.heap r).id) = l.map (fun r => (m.heap r).id) := by
      have := congrArg (List.map Order.id) e
      rwa [List.map_map, List.map_map] at this
    rw [e']
    exact hi.nodup hn (fun _ h => h)
  intro r hr q hq e
  exact List.inj_on_of_nodup_map h hr hq e

/-- The best result so far: a deep copy, of objects created later than `N`. -/
def BestRel (N : ℕ) (m : Mem) : Option HeapBest → Option GivenResult → Prop
  | none, none => True
  | some a, some v => v = { objective := a.objective, xrate := a.xrate, bPrice := some a.bPrice, books := a.books.read m.heap } ∧
      Live m a.books.all ∧ ∀ r ∈ a.books.all, N ≤ r
  | _, _ => False

theorem BestRel.keeps {N : ℕ} {l : List Ref} {m m' : Mem} {a : Option HeapBest} {v : Option GivenResult} (h : BestRel N m a v)
    (f : Keeps l m m') (hl : ∀ r ∈ l, r < N) : BestRel N m' a v := by
  cases a with
  | none => cases v with
    | none => exact trivial
    | some v => exact h.elim
  | some a => cases v with
    | none => exact h.elim
    | some v =>
      obtain ⟨e, w, d⟩ := h
      refine ⟨?_, w.keeps f, d⟩
      rw [e]
      have hh : ∀ k : List Ref, (∀ r ∈ k, r ∈ a.books.all) → k.map m'.heap = k.map m.heap := fun k hk =>
        f.map (fun r hr => w.live r (hk r hr)) (fun r hr h => absurd (hl r h) (not_lt.2 (d r (hk r hr))))
      unfold RefBooks.read
      rw [hh a.books.b (fun r hr => List.mem_append_left _ (List.mem_append_left _ hr)),
        hh a.books.s (fun r hr => List.mem_append_left _ (List.mem_append_right _ hr)),
        hh a.books.f (fun r hr => List.mem_append_right _ hr)]

theorem sim_fLoop {N : ℕ} {cfg : Config} {ext : HeapExt} {imb : ℚ} {pair : Token × Token} {bk : RefBooks} {x : ℚ} {fee : Fee} :
    ∀ (ns : List ℕ) (best : Option HeapBest) (bestV : Option GivenResult) (m : Mem), Live m bk.all →
    Rates X fee m.heap bk.f → (∀ r ∈ bk.all, r < N) → N ≤ m.next → BestRel N m best bestV →
    Sim X (heapFLoop cfg ext imb pair bk x fee ns best m) (fOrdersLoop cfg ext.sqrt imb pair x fee ns { best := bestV, books := bk.read m.heap })
      (fun a m' v => v.books = bk.read m'.heap ∧ BestRel N m' a v.best ∧ Keeps bk.all m m') := by
  intro ns
  induction ns with
  | nil => intro best bestV m _ _ _ _ hb; exact ⟨rfl, hb, Keeps.refl _ _⟩
  | cons n ns ih =>
    intro best bestV m w hr hN hN' hb
    obtain ⟨n1, n2, dj⟩ := RefBooks.disj w.nodup
    unfold heapFLoop fOrdersLoop
    -- resetting the f_orders
    have h0 := sim_forM_update (X := X) (ref := fun r : Ref => r) (g := fun _ o => (.ok ((o.withBuy 0).withSell 0) : Py Order))
      (fun _ _ _ h => by cases h; rfl) bk.f m (by rw [List.map_id']; exact n2)
    have e0 : mapE (fun r => (.ok (((m.heap r).withBuy 0).withSell 0) : Py Order)) bk.f = .ok ((bk.f.map m.heap).map (fun o => (o.withBuy 0).withSell 0)) := by
      rw [mapE_of_forall (g := fun r => ((m.heap r).withBuy 0).withSell 0) (fun _ _ => rfl), List.map_map]
      rfl
    rw [e0, List.map_id'] at h0
    obtain ⟨u, m1, e1, hf1, hT1⟩ := h0.exists_ok
    have e2 : (fun r : Ref => (do
        HM.update r (fun o => .ok (o.withBuy 0))
        HM.update r (fun o => .ok (o.withSell 0)) : HM Unit)) = fun r => HM.update r (fun o => .ok ((o.withBuy 0).withSell 0)) := by
      funext r
      exact update_update r _ _
    rw [e2]
    refine Sim.bindL e1 ?_
    have hk1 : Keeps bk.all m m1 := hT1.keeps.mono (fun r _ h => List.mem_append_right _ h)
    have w1 := w.keeps hk1
    have eb : (bk.read m.heap).b = (bk.read m1.heap).b := (hT1.map (fun r hr => dj r (List.mem_append_left _ hr))).symm
    have es : (bk.read m.heap).s = (bk.read m1.heap).s := (hT1.map (fun r hr => dj r (List.mem_append_right _ hr))).symm
    have e3 : ({ (bk.read m.heap) with f := (bk.read m.heap).f.map (fun o => (o.withBuy 0).withSell 0) } : Books) = bk.read m1.heap := by
      have ef : (bk.read m.heap).f.map (fun o => (o.withBuy 0).withSell 0) = (bk.read m1.heap).f := hf1
      rw [ef]
      dsimp only
      rw [eb, es]
    dsimp only
    rw [e3]
    refine Sim.bind (sim_givenExecF w1 (hk1.rates hr w.f.live)) ?_
    rintro r m2 _ ⟨rfl, hk2⟩ _ _
    have hb2 := (hb.keeps hk1 hN).keeps hk2 hN
    have hk12 := hk1.trans hk2
    have w2 := w.keeps hk12
    have hN2 : N ≤ m2.next := le_trans hN' hk12.next
    dsimp only
    cases hbp : r.bPrice with
    | none =>
      dsimp only
      refine (ih best bestV m2 w2 (hk12.rates hr w.f.live) hN hN2 hb2).mono ?_
      rintro a m' v ⟨h1, h2, h3⟩
      exact ⟨h1, h2, hk12.trans h3⟩
    | some p =>
      dsimp only
      -- continuing with a copy
      have cont : Sim X ((do
          let b ← HM.deepcopy bk.b
          let s ← HM.deepcopy bk.s
          let f ← HM.deepcopy bk.f
          heapFLoop cfg ext imb pair bk x fee ns
            (some { objective := r.objective, xrate := r.xrate, bPrice := p, books := { b, s, f } }) : HM (Option HeapBest)) m2)
          (fOrdersLoop cfg ext.sqrt imb pair x fee ns
            { best := some { objective := r.objective, xrate := r.xrate, bPrice := some p, books := bk.read m2.heap }, books := bk.read m2.heap })
          (fun a m' v => v.books = bk.read m'.heap ∧ BestRel N m' a v.best ∧ Keeps bk.all m m') := by
        have l2 := w2.live
        obtain ⟨cb, m3, c1, c2, c3, c4, c5, c6⟩ := deepcopy_spec bk.b m2 (fun r hr => l2 r (List.mem_append_left _ (List.mem_append_left _ hr)))
        refine Sim.bindL c1 ?_
        obtain ⟨cs, m4, d1, d2, d3, d4, d5, d6⟩ := deepcopy_spec bk.s m3
          (fun r hr => lt_of_lt_of_le (l2 r (List.mem_append_left _ (List.mem_append_right _ hr))) c3)
        refine Sim.bindL d1 ?_
        obtain ⟨cf, m5, f1, f2, f3, f4, f5, f6⟩ := deepcopy_spec bk.f m4
          (fun r hr => lt_of_lt_of_le (l2 r (List.mem_append_right _ hr)) (le_trans c3 d3))
        refine Sim.bindL f1 ?_
        have hk5 : ∀ l, Keeps l m2 m5 := fun l => by
          have : ∀ r < m2.next, m5.heap r = m2.heap r := fun r hr => by
            rw [f4 r (by ref_omega), d4 r (by ref_omega), c4 r hr]
          exact ⟨by ref_omega, fun r hr _ => this r hr, fun r hr => by rw [this r hr]⟩
        have q1 : cb.map m5.heap = bk.b.map m2.heap := by
          rw [← c2]
          exact List.map_congr_left (fun r hr => by rw [f4 r (by have := c6 r hr; ref_omega), d4 r (c6 r hr).2])
        have q2 : cs.map m5.heap = bk.s.map m2.heap := by
          have : bk.s.map m3.heap = bk.s.map m2.heap :=
            List.map_congr_left (fun r hr => c4 r (l2 r (List.mem_append_left _ (List.mem_append_right _ hr))))
          rw [← this, ← d2]
          exact List.map_congr_left (fun r hr => by rw [f4 r (d6 r hr).2])
        have q3 : cf.map m5.heap = bk.f.map m2.heap := by
          rw [f2]
          exact List.map_congr_left (fun r hr => by
            have := l2 r (List.mem_append_right _ hr)
            rw [d4 r (by ref_omega), c4 r this])
        have hlow : ∀ r ∈ cb ++ cs ++ cf, m2.next ≤ r ∧ r < m5.next := by
          intro r hr
          rcases List.mem_append.1 hr with hr | hr
          · rcases List.mem_append.1 hr with hr | hr
            · have := c6 r hr; ref_omega
            · have := d6 r hr; ref_omega
          · have := f6 r hr; ref_omega
        have hnod : (cb ++ cs ++ cf).Nodup := by
          refine List.nodup_append.2 ⟨List.nodup_append.2 ⟨c5, d5, ?_⟩, f5, ?_⟩
          · intro r hr q hq; have := c6 r hr; have := d6 q hq; ref_omega
          · intro r hr q hq
            have := f6 q hq
            rcases List.mem_append.1 hr with hr | hr
            · have := c6 r hr; ref_omega
            · have := d6 r hr; ref_omega
        have hid : IdInj m5.heap (cb ++ cs ++ cf) := by
          refine idInj_copy (m := m2) w2.ids w2.nodup ?_
          unfold RefBooks.all
          rw [List.map_append, List.map_append, q1, q2, q3, List.map_append, List.map_append]
        have eread : bk.read m2.heap = bk.read m5.heap := by
          have hh : ∀ k : List Ref, (∀ r ∈ k, r ∈ bk.all) → k.map m2.heap = k.map m5.heap := fun k hk =>
            ((hk5 []).map (fun r hr => l2 r (hk r hr)) (fun _ _ => List.not_mem_nil)).symm
          unfold RefBooks.read
          rw [hh bk.b (fun r hr => List.mem_append_left _ (List.mem_append_left _ hr)),
            hh bk.s (fun r hr => List.mem_append_left _ (List.mem_append_right _ hr)), hh bk.f (fun r hr => List.mem_append_right _ hr)]
        have hbest : BestRel N m5 (some { objective := r.objective, xrate := r.xrate, bPrice := p, books := { b := cb, s := cs, f := cf } })
            (some { objective := r.objective, xrate := r.xrate, bPrice := some p, books := bk.read m2.heap }) := by
          refine ⟨?_, ⟨hnod, fun r hr => (hlow r hr).2, hid⟩, fun q hq => le_trans hN2 (hlow q hq).1⟩
          unfold RefBooks.read
          dsimp only
          rw [q1, q2, q3]
        have w5 := w2.keeps (hk5 [])
        have hfin := ih _ _ m5 w5 ((hk12.trans (hk5 _)).rates hr w.f.live) hN (le_trans hN2 (hk5 []).next) hbest
        rw [← eread] at hfin
        refine hfin.mono ?_
        rintro a m' v ⟨h1, h2, h3⟩
        exact ⟨h1, h2, (hk12.trans (hk5 _)).trans h3⟩
      cases best with
      | none =>
        cases bestV with
        | some v => exact hb.elim
        | none =>
          refine Sim.bindL (a := false) (m' := m2) rfl ?_
          rw [if_neg (by simp)]
          exact cont
      | some a =>
        cases bestV with
        | none => exact hb.elim
        | some v =>
          have eo : v.objective = a.objective := by rw [hb.1]
          dsimp only
          rw [eo]
          split
          · refine Sim.bindL (a := true) (m' := m2) rfl ?_
            rw [if_pos rfl]
            exact Sim.pure ⟨rfl, hb2, hk12⟩
          · by_cases hge : r.objective ≥ a.objective
            · have hp : pyAssert (r.objective ≥ a.objective) "solver.py:371" = .ok () := pyAssert_of hge
              rw [hp]
              refine Sim.bindL (a := false) (m' := m2) rfl ?_
              rw [if_neg (by simp)]
              exact cont
            · rename_i hlt
              exact absurd (not_lt.1 hlt) hge

end Dex
