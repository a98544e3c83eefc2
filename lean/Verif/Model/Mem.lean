import Verif.Model.Heap
import Verif.Model.Api

/-! # The solver with order objects that have identity

A second model of token_pair_solver/{xrate,price,round,solver,api}.py, core/round.py, core/api.py (loading) and
best_token_pair_solver/solver.py. Lists hold references, assignments change objects in a heap, `Order(...)` and `deepcopy` allocate.
Functions that only read objects are those of the first model, applied to what the references point to. Memoisation
(`lru_cache`) and the interleaving of a generator with its consumer are modelled here; the first model leaves them out. -/

namespace Dex

/-- The mutable state: order objects, the next unused reference, and the `lru_cache` of the running
`solve_trivial_bin_search` (most recent first). -/
structure Mem where
  heap : Heap
  next : Ref
  cache : List (ℚ × ℚ)

/-- A Python computation on mutable objects. (If it raises, the state is lost: nothing in the code catches.) -/
def HM (α : Type) := Mem → Py (α × Mem)

instance : Monad HM where
  pure a := fun m => .ok (a, m)
  bind x k := fun m => match x m with
    | .error e => .error e
    | .ok (a, m') => k a m'

namespace HM

/-- A computation that only reads objects. -/
def reads {α : Type} (f : Heap → Py α) : HM α := fun m => match f m.heap with
  | .error e => .error e
  | .ok a => .ok (a, m)

/-- A computation that assigns to objects. -/
def writes (f : Heap → Py Heap) : HM Unit := fun m => match f m.heap with
  | .error e => .error e
  | .ok h => .ok ((), { m with heap := h })

/-- `raise`. -/
def raise {α : Type} (e : PyErr) : HM α := fun _ => .error e

/-- The object `r` gets new contents. -/
def _root_.Dex.Heap.put (h : Heap) (r : Ref) (o : Order) : Heap := fun q => if q = r then o else h q

/-- Assignments to attributes of one object. -/
def update (r : Ref) (f : Order → Py Order) : HM Unit := writes fun h => do
  let o ← f (h r)
  pure (h.put r o)

/-- Creates an object. -/
def new (o : Order) : HM Ref := fun m => .ok (m.next, { m with heap := m.heap.put m.next o, next := m.next + 1 })

/-- `[f(a) for a in l]`. -/
def mapM {α β : Type} (f : α → HM β) : List α → HM (List β)
  | [] => pure []
  | a :: l => do
    let b ← f a
    let bs ← mapM f l
    pure (b :: bs)

/-- `for a in l: f(a)`. -/
def forM {α : Type} (f : α → HM Unit) : List α → HM Unit
  | [] => pure ()
  | a :: l => do
    f a
    forM f l

/-- `deepcopy` of a list of objects none of which occurs twice. -/
def deepcopy (l : List Ref) : HM (List Ref) := mapM (fun r => do
  let o ← reads fun h => .ok (h r)
  new o) l

end HM

/-! ### token_pair_solver/xrate.py and price.py -/

/-- `prune_unrealizable_orders` (token_pair_solver/orderbook.py:142-152) on references. -/
def heapPrune (b s : List Ref) (fee : Fee) (h : Heap) : Py (List Ref × List Ref) := do
  let f2 := (1 - fee.value) ^ 2
  let bMax ← pyMaxBy id (b.map (fun r => (h r).maxXrate))
  let sMax ← pyMaxBy id (s.map (fun r => (h r).maxXrate))
  let b' ← filterE (fun r => do
    let q ← pyDiv 1 sMax
    pure (decide ((h r).maxXrate * f2 ≥ q))) b
  let s' ← filterE (fun r => do
    let q ← pyDiv 1 bMax
    pure (decide ((h r).maxXrate * f2 ≥ q))) s
  pure (b', s')

/-- `SymbolicSolver.compute_objective` (xrate.py:313-322). -/
def heapSolverObjective (cfg : Config) (fee : Fee) (b s : List Ref) (x : ℚ) : HM ℚ := do
  HM.writes (heapComputeBuyAmounts cfg x b s fee cfg.maxNrExec)
  HM.reads fun h => computeObjectiveRational cfg (b.map h) (s.map h) [] x 1 fee

/-- `IntervalData` (xrate.py:29). -/
structure IntervalRefs where
  lb : ℚ
  ub : ℚ
  b : List Ref
  s : List Ref
  bPartial : ℕ
  sPartial : ℕ

/-- What the references of an interval point to. -/
def IntervalRefs.read (d : IntervalRefs) (h : Heap) : IntervalData :=
  { lb := d.lb, ub := d.ub, b := d.b.map h, s := d.s.map h, bPartial := d.bPartial, sPartial := d.sPartial }

/-- `solve_interval` (xrate.py:346-375). -/
def heapSolveInterval (cfg : Config) (sqrt : ℚ → Py ℚ) (fee : Fee) (d : IntervalRefs) : HM (Option (ℚ × ℚ)) := do
  let xs ← HM.reads fun h => localOptima cfg sqrt fee (d.read h)
  if xs.length = 0 then pure none
  else
    let xos ← HM.mapM (fun x => do
      let o ← heapSolverObjective cfg fee d.b d.s x
      pure (x, o)) xs
    let opt ← HM.reads fun _ => pyMaxBy (·.2) xos
    pure (some opt)

/-- `f` of `solve_trivial_bin_search` (xrate.py:410-412): `compute_objective` behind an `lru_cache` of size `cap`. -/
def memoObjective (cfg : Config) (fee : Fee) (cap : ℕ) (b s : List Ref) (x : ℚ) : HM ℚ := fun m =>
  match m.cache.find? (fun p => p.1 = x) with
  | some p => .ok (p.2, { m with cache := p :: m.cache.filter (fun q => decide (q.1 ≠ x)) })
  | none => (do
      let v ← heapSolverObjective cfg fee b s x
      fun m => .ok (v, { m with cache := ((x, v) :: m.cache).take cap }) : HM ℚ) m

/-- Binary-search loop (xrate.py:428-442), for a function `f` with effects. -/
def heapBinSearchLoop (f : ℚ → HM ℚ) (xs : List ℚ) : ℕ → ℤ → ℤ → HM ℤ
  | 0, _, _ => HM.raise .diverge
  | fuel + 1, left, right => do
    let center := (left + right) / 2
    if left ≠ center ∧ right ≠ center then
      let slope (i : ℤ) : HM ℚ := do
        let x ← HM.reads fun _ => pyGet xs i
        let a ← f x
        let y ← HM.reads fun _ => pyGet xs (i - 1)
        let b ← f y
        pure (a - b)
      let dl ← slope left
      let dr ← slope right
      let dc ← slope center
      if dl * dc > 0 then
        HM.reads fun _ => pyAssert (dl > 0) "xrate.py:436"
        heapBinSearchLoop f xs fuel center right
      else
        HM.reads fun _ => pyAssert (dr < 0) "xrate.py:439"
        HM.reads fun _ => pyAssert (dc < 0) "xrate.py:440"
        heapBinSearchLoop f xs fuel left center
    else pure center

/-- `solve_trivial_bin_search` (xrate.py:402-444), for a function `f` with effects. Unlike `binSearch` it evaluates `f`
again wherever the code does. -/
def heapBinSearch (f : ℚ → HM ℚ) (xs : List ℚ) : HM (ℚ × ℚ) := do
  if xs.length ≤ 2 then
    let xos ← HM.mapM (fun x => do
      let o ← f x
      pure (x, o)) xs
    let best ← HM.reads fun _ => pyMaxBy (·.2) xos
    let o ← f best.1
    pure (best.1, o)
  else
    let x0 ← HM.reads fun _ => pyGet xs 0
    let f0 ← f x0
    let x1 ← HM.reads fun _ => pyGet xs 1
    let f1 ← f x1
    if f0 > f1 then
      let o ← f x0
      pure (x0, o)
    else
      let y0 ← HM.reads fun _ => pyGet xs (-1)
      let g0 ← f y0
      let y1 ← HM.reads fun _ => pyGet xs (-2)
      let g1 ← f y1
      if g0 > g1 then
        let o ← f y0
        pure (y0, o)
      else
        let c ← heapBinSearchLoop f xs (xs.length + 1) 1 (xs.length - 1)
        let x ← HM.reads fun _ => pyGet xs c
        let o ← f x
        pure (x, o)

/-- `solve_trivial` (xrate.py:447-457). `cap` gives the cache size for a number of rates (`ceil(log(n))`). -/
def heapSolveTrivial (cfg : Config) (cap : ℕ → ℕ) (fee : Fee) (b s : List Ref) : HM (Option (ℚ × ℚ)) := do
  let xs ← HM.reads fun h => trivialCandidates (b.map h) (s.map h) fee
  if xs.length = 0 then pure none
  else
    let xs := sortDistinct xs
    fun m => .ok ((), { m with cache := [] })
    let r ← heapBinSearch (memoObjective cfg fee (cap xs.length) b s) xs
    pure (some r)

/-- `OrderVariant` (xrate.py:102). -/
structure RefVariant where
  isB : Bool
  xrate : ℚ
  data : Ref

/-- State of the main loop of `xrate_interval_iterator`. -/
structure RefIntervalState where
  prev : Option ℚ
  bExec : List Ref
  sExec : List Ref
  bUb : ℚ
  sUb : ℚ

/-- Update at the top of the loop body (xrate.py:136-142). -/
def heapIntervalUpdate (h : Heap) (st : RefIntervalState) (v : RefVariant) : Py RefIntervalState :=
  if v.isB then
    .ok { st with bExec := v.data :: st.bExec, bUb := st.bUb + (h v.data).maxSell }
  else match st.sExec with
    | [] => .error .indexError
    | _ :: rest => .ok { st with sExec := rest, sUb := st.sUb - (h v.data).maxSell }

/-- Skip test (xrate.py:144-152). -/
def heapSkipInterval (opt prev : Option ℚ) (v w : RefVariant) : Bool :=
  match opt with
  | none => false
  | some x => decide (x ≠ v.xrate ∧ x ≠ w.xrate ∧ prev ≠ some x)

/-- Main loop of `xrate_interval_iterator` (xrate.py:131-196), interleaved with its consumer `body` (xrate.py:471-476);
returns the consumer's results. Simplification: the two inner generators (partial indices) run to the end. -/
def heapIntervalLoop {ρ : Type} (fee : Fee) (opt : Option ℚ) (body : IntervalRefs → HM ρ) :
    RefIntervalState → List RefVariant → HM (List ρ)
  | st, v :: w :: rest => do
    let st ← HM.reads fun h => heapIntervalUpdate h st v
    let next := { st with prev := some v.xrate }
    if heapSkipInterval opt st.prev v w then heapIntervalLoop fee opt body next (w :: rest)
    else if st.bExec.length = 0 then heapIntervalLoop fee opt body next (w :: rest)
    else if st.sExec.length = 0 then pure []
    else
      let b0 ← HM.reads fun h => do
        let r ← pyGet st.bExec 0
        pure (h r).maxSell
      let bLb := st.bUb - b0
      let s0 ← HM.reads fun h => do
        let r ← pyGet st.sExec 0
        pure (h r).maxSell
      let sLb := st.sUb - s0
      let is ← HM.reads fun h => .ok (bPartialIdxs (st.bExec.map h) sLb st.sUb w.xrate v.xrate fee)
      let rs1 ← HM.mapM (fun i => body
        { lb := w.xrate, ub := v.xrate, b := st.bExec, s := st.sExec, bPartial := i, sPartial := 0 }) is
      let js ← HM.reads fun h => sPartialIdxs (st.sExec.map h) bLb st.bUb w.xrate v.xrate fee
      let rs2 ← HM.mapM (fun i => body
        { lb := w.xrate, ub := v.xrate, b := st.bExec, s := st.sExec, bPartial := 0, sPartial := i }) js
      let more ← heapIntervalLoop fee opt body next (w :: rest)
      pure (rs1 ++ rs2 ++ more)
  | _, _ => pure []

/-- The part of `xrate_interval_iterator` before the main loop (xrate.py:98-128): the sorted variants. -/
def heapVariants (b s : List Ref) (fee : Fee) (h : Heap) : Py (List RefVariant) := do
  pyAssert (b.length > 0 ∧ s.length > 0) "xrate.py:98"
  let f := 1 - fee.value
  let vb := b.map (fun r => { isB := true, xrate := (h r).maxXrate * f, data := r : RefVariant })
  let vs ← mapE (fun r => do
    let x ← pyDiv 1 ((h r).maxXrate * f)
    pure { isB := false, xrate := x, data := r : RefVariant }) s
  pure (pySortByRev (·.xrate) (vb ++ vs))

/-- `[self.solve_interval(d) for d in xrate_interval_iterator(...)]` (xrate.py:471-476), for any consumer. -/
def heapIntervals {ρ : Type} (b s : List Ref) (fee : Fee) (opt : Option ℚ) (body : IntervalRefs → HM ρ) : HM (List ρ) := do
  let all ← HM.reads (heapVariants b s fee)
  let sUb ← HM.reads fun h => .ok ((s.map (fun r => (h r).maxSell)).sum)
  heapIntervalLoop fee opt body
    { prev := none, bExec := [], sExec := (all.filter (fun v => !v.isB)).map (·.data), bUb := 0, sUb } all

/-- `SymbolicSolver.solve` (xrate.py:459-484). -/
def heapFindBestXrate (cfg : Config) (cap : ℕ → ℕ) (sqrt : ℚ → Py ℚ) (b s : List Ref) (fee : Fee) :
    HM (Option (ℚ × ℚ)) := do
  let (b, s) ← HM.reads (heapPrune b s fee)
  let triv ← heapSolveTrivial cfg cap fee b s
  let rs ← heapIntervals b s fee (triv.map (·.1)) (heapSolveInterval cfg sqrt fee)
  let xos := (triv :: rs).filterMap id
  if xos.length = 0 then pure none
  else
    let best ← HM.reads fun _ => pyMaxBy (·.2) xos
    pure (some best)

/-- `create_market_order` (price.py:10-30): allocates the order. -/
def heapMarketOrder (cfg : Config) (buyToken sellToken : Token) (sellAmount : ℚ) (f : List Ref) : HM Ref := do
  let o ← HM.reads fun h => createMarketOrder cfg buyToken sellToken sellAmount (f.map h)
  HM.new o

/-- `compute_token_price_to_cover_imbalance` (price.py:34-65). -/
def heapTokenPrice (cfg : Config) (cap : ℕ → ℕ) (sqrt : ℚ → Py ℚ) (buyToken : Token) (fee : Fee) (imbalance : ℚ)
    (f : List Ref) : HM ℤ := do
  let sellAmount := imbalance * (101 / 100)
  let mo ← heapMarketOrder cfg fee.token buyToken sellAmount f
  let r ← heapFindBestXrate cfg cap sqrt [mo] f fee
  match r with
  | none => HM.raise .valueError
  | some (xrate, _) =>
    let q ← HM.reads fun _ => pyDiv cfg.feeTokenPrice xrate
    let limit ← HM.reads fun h => .ok ((h mo).maxXrate * (1 - fee.value))
    if xrate = limit then pure ⌈q⌉ else pure ⌊q⌋

/-! ### core/round.py and token_pair_solver/round.py -/

/-- Entering `rounding_buffer` (token_pair_solver/round.py:18-27, core/round.py:28-93). -/
def heapBufferEnter (cfg : Config) (pair : Token × Token) (b s : List Ref) (xrate bPrice : ℚ) (fee : Fee) : HM Unit := do
  let (_, prices) ← HM.reads fun h => aggregateOrdersPrices cfg pair (b.map h) (s.map h) [] xrate bPrice fee
  let amounts ← HM.reads fun _ => maxRoundingAmounts cfg [pair.1, pair.2] prices fee
  HM.forM (fun r => HM.update r (bufferOrder cfg [pair.1, pair.2] prices amounts)) (b ++ s)

/-- Leaving `rounding_buffer`, for one list (token_pair_solver/round.py:31-36). -/
def heapRestoreMaxSell (l : List Ref) (old : List ℚ) : HM Unit :=
  HM.forM (fun p => HM.update p.1 (fun o => o.setMaxSell p.2)) (l.zip old)

/-- Loop of `round_leaf_token` (core/round.py:130-177); `bal` is `token_balances[leaf_token]`. -/
def heapRoundLeafLoop (cfg : Config) (leaf parent : Token) (prices : Prices) (fee : Fee) : ℚ → List Ref → HM Unit
  | _, [] => pure ()
  | bal, r :: rs => do
    let o ← HM.reads fun h => .ok (h r)
    if o.buyToken ≠ leaf ∨ o.sellToken ≠ parent ∨ o.buy = 0 then heapRoundLeafLoop cfg leaf parent prices fee bal rs
    else
      let minDelta := (cfg.minTradable : ℚ) - o.buy
      let delta := max minDelta bal
      let newSell ← HM.reads fun _ => (o.withBuy (o.buy + delta)).getSellFromBuy prices fee
      if newSell > o.maxSell then heapRoundLeafLoop cfg leaf parent prices fee bal rs
      else if newSell < cfg.minTradable then heapRoundLeafLoop cfg leaf parent prices fee bal rs
      else
        HM.reads fun _ => pyAssert (o.buy + delta ≥ cfg.minTradable) "round.py:158"
        let bal := bal - delta
        HM.update r (fun o => .ok (o.withBuy (o.buy + delta)))
        HM.update r (fun o => o.setSellFromBuy prices fee)
        if bal = 0 then pure () else heapRoundLeafLoop cfg leaf parent prices fee bal rs

/-- `round_leaf_token` (core/round.py:126-177). -/
def heapRoundLeafToken (cfg : Config) (leaf parent : Token) (orders : List Ref) (bal : ℚ) (prices : Prices) (fee : Fee) :
    HM Unit := do
  let sorted ← HM.reads fun h => .ok (pySortByRev (fun r => (h r).buy) orders)
  heapRoundLeafLoop cfg leaf parent prices fee bal sorted

/-- Adjustment made for one leaf (core/round.py:210-213). -/
def heapRoundLeafIfNeeded (cfg : Config) (leaf parent : Token) (orders : List Ref) (bal : ℚ) (prices : Prices) (fee : Fee) :
    HM Unit :=
  if bal ≠ 0 then heapRoundLeafToken cfg leaf parent orders bal prices fee else pure ()

/-- `while tree` loop of `round_solution` (core/round.py:201-228). -/
def heapRoundLoop (cfg : Config) (prices : Prices) (fee : Fee) (orders : List Ref) :
    ℕ → Dict Token Token → Dict Token ℚ → HM Bool
  | 0, _, _ => HM.raise .diverge
  | fuel + 1, tree, balances =>
    if tree.length = 0 then pure true
    else do
      let leaves := (dictKeys tree).filter (fun c => decide (c ∉ tree.map (·.2)))
      let leaf ← HM.reads fun _ => pyGet leaves 0
      let parent ← HM.reads fun _ => dictGet tree leaf
      let bal ← HM.reads fun _ => dictGet balances leaf
      heapRoundLeafIfNeeded cfg leaf parent orders bal prices fee
      let balances ← HM.reads fun h => computeTokenBalances (dictKeys prices) (orders.map h)
      let bal ← HM.reads fun _ => dictGet balances leaf
      if bal ≠ 0 then pure false
      else heapRoundLoop cfg prices fee orders fuel (tree.filter (fun p => decide (p.1 ≠ leaf))) balances

/-- `round_solution` (core/round.py:180-228). -/
def heapRoundSolution (cfg : Config) (branch : List (Token × Token) → List (Token × Token)) (prices : Prices)
    (orders : List Ref) (fee : Fee) : HM Bool := do
  HM.forM (fun r => do
    HM.update r (fun o => .ok (o.withBuy (⌊o.buy⌋ : ℚ)))
    HM.update r (fun o => o.setSellFromBuy prices fee)) orders
  let balances ← HM.reads fun h => computeTokenBalances (dictKeys prices) (orders.map h)
  let tree ← HM.reads fun h => .ok (spanningArborescence branch ((orders.map h).filter (fun o => decide (o.sell > 0))) fee)
  heapRoundLoop cfg prices fee orders (tree.length + 1) tree balances

/-! ### token_pair_solver/solver.py -/

/-- Parameters from outside: those of `Ext`, and the sizes of the caches. -/
structure HeapExt extends Ext where
  cap : ℕ → ℕ

/-- `solve_token_pair` (solver.py:47-103). -/
def heapSolveTokenPair (cfg : Config) (ext : HeapExt) (pair : Token × Token) (b s : List Ref) (fee : Fee)
    (xrate : Option ℚ) (bPrice : Option ℚ) (maxNr : ℤ) : HM (Option ℚ) := do
  if b.length = 0 ∨ s.length = 0 then pure none
  else
    let bPrice := if pair.1 = fee.token then some (cfg.feeTokenPrice : ℚ) else bPrice
    let xrate ← (match xrate with
      | some x => pure (some x)
      | none => do
        let r ← heapFindBestXrate cfg ext.cap ext.sqrt b s fee
        pure (r.map (·.1)) : HM (Option ℚ))
    match xrate with
    | none => pure none
    | some x =>
      let x ← HM.reads fun h => roundXrate bPrice x (b.map h) (s.map h) fee
      HM.writes (heapComputeBuyAmounts cfg x b s fee maxNr)
      pure (some x)

/-- `solve_b_buy_token_and_fee_token` (solver.py:106-149). -/
def heapSolveBFee (cfg : Config) (ext : HeapExt) (imbalance : ℚ) (bTok : Token) (f : List Ref) (fee : Fee) : HM ℤ := do
  let p ← heapTokenPrice cfg ext.cap ext.sqrt bTok fee imbalance f
  let debt ← heapMarketOrder cfg fee.token bTok imbalance f
  let feeX ← HM.reads fun _ => pyDiv cfg.feeTokenPrice p
  let x ← heapSolveTokenPair cfg ext (fee.token, bTok) [debt] f fee (some feeX) none cfg.maxNrExec
  HM.reads fun _ => pyAssert (x.isSome) "solver.py:147"
  pure p

/-- `with rounding_buffer(...): solve_token_pair(...)` (solver.py:234-242, token_pair_solver/round.py:8-36). -/
def heapSolveBuffered (cfg : Config) (ext : HeapExt) (pair : Token × Token) (b s : List Ref) (xrate bPrice : ℚ)
    (fee : Fee) (maxNr : ℤ) : HM (Option ℚ) := do
  let bOld ← HM.reads fun h => .ok (b.map (fun r => (h r).maxSell))
  let sOld ← HM.reads fun h => .ok (s.map (fun r => (h r).maxSell))
  heapBufferEnter cfg pair b s xrate bPrice fee
  let x ← heapSolveTokenPair cfg ext pair b s fee (some xrate) (some bPrice) maxNr
  heapRestoreMaxSell b bOld
  heapRestoreMaxSell s sOld
  pure x

/-- The three lists of references. -/
structure RefBooks where
  b : List Ref
  s : List Ref
  f : List Ref

/-- Result of `solve_token_pair_and_fee_token_given_exec_f_orders`. -/
structure HeapGiven where
  objective : ℚ
  xrate : ℚ
  bPrice : Option ℤ

/-- `solve_token_pair_and_fee_token_given_exec_f_orders` (solver.py:188-251). -/
def heapGivenExecF (cfg : Config) (ext : HeapExt) (nrF : ℕ) (imbalance : ℚ) (pair : Token × Token) (bk : RefBooks)
    (xrate : ℚ) (fee : Fee) : HM HeapGiven := do
  let p ← heapSolveBFee cfg ext imbalance pair.1 (bk.f.take nrF) fee
  let n ← HM.reads fun h => .ok (countNrExec ((bk.f.take nrF).map h))
  if n = 0 then pure { objective := 0, xrate, bPrice := none }
  else
    let maxNr := cfg.maxNrExec - n
    let x ← heapSolveBuffered cfg ext pair bk.b bk.s xrate p fee maxNr
    match x with
    | none => HM.raise .valueError
    | some x =>
      let obj ← HM.reads fun h => computeObjectiveRational cfg (bk.b.map h) (bk.s.map h) (bk.f.map h) x p fee
      pure { objective := obj, xrate := x, bPrice := some p }

/-- `best_objective`, `best_solution` (solver.py:339-340) after the first update: the lists are deep copies. -/
structure HeapBest where
  objective : ℚ
  xrate : ℚ
  bPrice : ℤ
  books : RefBooks

/-- `for nr_exec_f_orders in range(...)` (solver.py:341-375). -/
def heapFLoop (cfg : Config) (ext : HeapExt) (imbalance : ℚ) (pair : Token × Token) (bk : RefBooks) (xrate : ℚ) (fee : Fee) :
    List ℕ → Option HeapBest → HM (Option HeapBest)
  | [], best => pure best
  | n :: ns, best => do
    HM.forM (fun r => do
      HM.update r (fun o => .ok (o.withBuy 0))
      HM.update r (fun o => .ok (o.withSell 0))) bk.f
    let r ← heapGivenExecF cfg ext n imbalance pair bk xrate fee
    match r.bPrice with
    | none => heapFLoop cfg ext imbalance pair bk xrate fee ns best
    | some p =>
      let stop ← (match best with
        | none => pure false
        | some best =>
          if r.objective < best.objective then pure true
          else do
            HM.reads fun _ => pyAssert (r.objective ≥ best.objective) "solver.py:371"
            pure false : HM Bool)
      if stop then pure best
      else
        let b ← HM.deepcopy bk.b
        let s ← HM.deepcopy bk.s
        let f ← HM.deepcopy bk.f
        heapFLoop cfg ext imbalance pair bk xrate fee ns
          (some { objective := r.objective, xrate := r.xrate, bPrice := p, books := { b, s, f } })

/-- A solution `(orders, prices)`. -/
structure RefSolution where
  orders : List Ref
  prices : Prices

/-- `TRIVIAL_SOLUTION` (solver.py:29). -/
def RefSolution.trivial : RefSolution := { orders := [], prices := [] }

/-- What a solution's references point to. -/
def RefSolution.read (sol : RefSolution) (h : Heap) : Solution := { orders := sol.orders.map h, prices := sol.prices }

/-- End of `solve_token_pair_and_fee_token` (solver.py:415-426). -/
def heapAggregateAndRound (cfg : Config) (ext : HeapExt) (pair : Token × Token) (bk : RefBooks) (xrate bPrice : ℚ) (fee : Fee) :
    HM RefSolution := do
  let (_, prices) ← HM.reads fun h => aggregateOrdersPrices cfg pair (bk.b.map h) (bk.s.map h) (bk.f.map h) xrate bPrice fee
  let orders := bk.b ++ bk.s ++ bk.f
  let ok ← heapRoundSolution cfg ext.branch prices orders fee
  if ok then pure { orders, prices } else pure .trivial

/-- `solve_token_pair_and_fee_token` after orienting the pair (solver.py:279-426). -/
def heapSolveOriented (cfg : Config) (ext : HeapExt) (pair : Token × Token) (bk : RefBooks) (fee : Fee)
    (xrate : Option ℚ) : HM RefSolution := do
  let x ← heapSolveTokenPair cfg ext pair bk.b bk.s fee xrate none cfg.maxNrExec
  let n ← HM.reads fun h => .ok (countNrExec (bk.b.map h))
  if n = 0 then pure .trivial
  else match x with
  | none => HM.raise .valueError
  | some x =>
    if pair.1 = fee.token then
      heapAggregateAndRound cfg ext pair { bk with f := [] } x cfg.feeTokenPrice fee
    else if bk.f.length = 0 then pure .trivial
    else
      let imb ← HM.reads fun h => bBuyTokenImbalance (bk.b.map h) (bk.s.map h) x 1 fee
      let (mn, mx) ← HM.reads fun h => nrFOrders cfg (bk.b.map h) (bk.s.map h) (bk.f.map h)
      if mn > mx then pure .trivial
      else
        let fSorted ← HM.reads fun h => .ok (heapSorted h bk.f)
        let ns := (List.range (mx + 1 - mn).toNat).map (· + mn.toNat)
        let best ← heapFLoop cfg ext imb pair { bk with f := fSorted } x fee ns none
        match best with
        | none => pure .trivial
        | some best => heapAggregateAndRound cfg ext pair best.books best.xrate best.bPrice fee

/-- `solve_token_pair_and_fee_token` (solver.py:254-426). -/
def heapSolveTokenPairAndFee (cfg : Config) (ext : HeapExt) (pair : Token × Token) (bk : RefBooks) (fee : Fee)
    (xrate : Option ℚ) : HM RefSolution := do
  let (b, s) ← HM.reads (heapPrune bk.b bk.s fee)
  if b.length = 0 ∨ s.length = 0 then pure .trivial
  else if pair.2 = fee.token then heapSolveOriented cfg ext (pair.2, pair.1) { b := s, s := b, f := bk.f } fee xrate
  else heapSolveOriented cfg ext pair { b, s, f := bk.f } fee xrate

/-- `while` loop of `solve_token_pair_and_fee_token_economic_viable` (solver.py:447-489). -/
def heapEconomicLoop (cfg : Config) (ext : HeapExt) (pair : Token × Token) (fee : Fee) (xrate : Option ℚ) :
    ℕ → RefBooks → RefSolution → HM RefSolution
  | 0, _, _ => HM.raise .diverge
  | fuel + 1, bk, cur =>
    if bk.b.length > 0 ∨ bk.s.length > 0 then do
      let sol ← heapSolveTokenPairAndFee cfg ext pair bk fee xrate
      let viable ← HM.reads fun h => isEconomicViable cfg (sol.orders.map h) sol.prices fee
      let triv ← HM.reads fun h => .ok (isTrivial (sol.orders.map h))
      if viable = true ∨ triv = true then pure sol
      else
        let sub ← HM.reads fun h => approxViableSubset cfg (sol.orders.map h) sol.prices fee
        if sub.length = 0 then pure .trivial
        else
          let bm ← HM.reads fun h => pyMinBy (fun r => (h r).buy) (bk.b.filter (fun r => decide ((h r).buy > 0)))
          let sm ← HM.reads fun h => pyMinBy (fun r => (h r).buy) (bk.s.filter (fun r => decide ((h r).buy > 0)))
          let pb ← HM.reads fun _ => dictGet sol.prices pair.1
          let ps ← HM.reads fun _ => dictGet sol.prices pair.2
          let less ← HM.reads fun h => .ok (decide ((h bm).buy * pb < (h sm).buy * ps))
          if less = true then
            let b ← HM.reads fun h => .ok (bk.b.filter (fun r => decide ((h r).id ≠ (h bm).id)))
            heapEconomicLoop cfg ext pair fee xrate fuel { bk with b } sol
          else
            let s ← HM.reads fun h => .ok (bk.s.filter (fun r => decide ((h r).id ≠ (h sm).id)))
            heapEconomicLoop cfg ext pair fee xrate fuel { bk with s } sol
    else pure cur

/-- `solve_token_pair_and_fee_token_economic_viable` (solver.py:429-494). -/
def heapSolveEconomicViable (cfg : Config) (ext : HeapExt) (pair : Token × Token) (accounts : Accounts) (bk : RefBooks)
    (fee : Fee) (xrate : Option ℚ) : HM RefSolution := do
  let sol ← heapEconomicLoop cfg ext pair fee xrate (bk.b.length + bk.s.length + 1) bk .trivial
  HM.reads fun h => validate cfg ext.fdiv accounts (sol.orders.map h) sol.prices fee
  pure sol

/-! ### best_token_pair_solver/solver.py -/

/-- Orders buying `x` and selling `y` (best_token_pair_solver/solver.py:23-26, 30-33, 39-42). -/
def heapBuyingSelling (h : Heap) (orders : List Ref) (x y : Token) : List Ref :=
  orders.filter (fun r => decide ((h r).buyToken = x ∧ (h r).sellToken = y))

/-- `match_token_pair` (best_token_pair_solver/solver.py:20-52). -/
def heapMatchTokenPair (cfg : Config) (ext : HeapExt) (pair : Token × Token) (accounts : Accounts) (orders : List Ref)
    (fee : Fee) : HM RefSolution := do
  let b ← HM.reads fun h => .ok (heapBuyingSelling h orders pair.1 pair.2)
  if b.length = 0 then pure .trivial
  else
    let s ← HM.reads fun h => .ok (heapBuyingSelling h orders pair.2 pair.1)
    if s.length = 0 then pure .trivial
    else
      let f ← HM.reads fun h => .ok (if pair.1 ≠ fee.token then heapBuyingSelling h orders pair.1 fee.token else [])
      if pair.1 ≠ fee.token ∧ f.length = 0 then pure .trivial
      else heapSolveEconomicViable cfg ext pair accounts { b, s, f } fee none

/-- `match_token_pair_and_evaluate` with `touched_only=True` (best_token_pair_solver/solver.py:55-74). -/
def heapMatchAndEvaluate (cfg : Config) (ext : HeapExt) (pair : Token × Token) (accounts : Accounts) (orders : List Ref)
    (fee : Fee) : HM (ℚ × RefSolution) := do
  let sol ← heapMatchTokenPair cfg ext pair accounts orders fee
  let acc ← HM.reads fun h => updateAccounts accounts (sol.orders.map h)
  let obj ← HM.reads fun h =>
    computeObjectiveCore sol.prices acc ((sol.orders.map h).filter (fun o => decide (o.buy > 0))) fee
  pure (obj, sol)

/-- Loop of `main` (best_token_pair_solver/solver.py:116-127). The best solution is a deep copy. -/
def heapBestLoop (cfg : Config) (ext : HeapExt) (accounts : Accounts) (orders : List Ref) (fee : Fee) :
    List ((Token × Token) × Bool) → ℚ × RefSolution → HM (ℚ × RefSolution)
  | [], best => pure best
  | (pair, stop) :: rest, best => do
    let (obj, sol) ← heapMatchAndEvaluate cfg ext pair accounts orders fee
    let best ← (if obj > best.1 then do
        let os ← HM.deepcopy sol.orders
        pure (obj, { orders := os, prices := sol.prices })
      else pure best : HM (ℚ × RefSolution))
    if stop then pure best else heapBestLoop cfg ext accounts orders fee rest best

/-! ### Loading and the two programs -/

/-- `[Order.load_from_dict(d, str(index)) for index, d in enumerate(...)]` from index `i`
(core/api.py:30-33, token_pair_solver/api.py:16-19). -/
def heapLoadOrdersFrom (cfg : Config) : ℕ → List OrderDict → HM (List Ref)
  | _, [] => pure []
  | i, d :: ds => do
    let o ← HM.reads fun _ => Order.loadFromDict cfg d (toString i)
    let r ← HM.new o
    let rs ← heapLoadOrdersFrom cfg (i + 1) ds
    pure (r :: rs)

/-- Loop of `restrict_order_sell_amounts_by_balances` (core/orderbook.py:140-165). -/
def heapRestrictLoop (accounts : Accounts) : List Ref → Dict BalKey ℚ → List Ref → HM (List Ref)
  | [], _, capped => pure capped
  | r :: rs, rem, capped => do
    let o ← HM.reads fun h => .ok (h r)
    let key : BalKey := (o.accountId, o.sellToken, o.buyToken)
    let rem := initRemaining accounts rem o
    let bal ← HM.reads fun _ => dictGet rem key
    let new := min o.maxSell bal
    if new = 0 then heapRestrictLoop accounts rs rem capped
    else
      HM.reads fun _ => pyAssert (o.maxSell > 0) "orderbook.py:156"
      let rem := dictSet rem key (bal - new)
      HM.reads fun _ => pyAssert (bal - new ≥ 0) "orderbook.py:160"
      HM.update r (fun o => o.setMaxSell new)
      heapRestrictLoop accounts rs rem (capped ++ [r])

/-- `restrict_order_sell_amounts_by_balances` (core/orderbook.py:118-167). -/
def heapRestrict (orders : List Ref) (accounts : Accounts) : HM (List Ref) := do
  let sorted ← HM.reads fun h => .ok (heapSorted h orders)
  heapRestrictLoop accounts sorted [] []

/-- `main` of the token-pair solver without file handling (token_pair_solver/solver.py:497-529, api.py:10-42). -/
def heapTokenPairMain (cfg : Config) (ext : HeapExt) (inst : Instance) (pair : Token × Token) (xrate : Option ℚ) :
    HM Dump := do
  let orders ← heapLoadOrdersFrom cfg 0 inst.orders
  let orders ← heapRestrict orders inst.accounts
  HM.reads fun _ => pyAssert (pair.2 ≠ inst.fee.token) "token_pair_solver/api.py:35"
  let b ← HM.reads fun h => .ok (heapBuyingSelling h orders pair.1 pair.2)
  let s ← HM.reads fun h => .ok (heapBuyingSelling h orders pair.2 pair.1)
  let f ← HM.reads fun h => .ok (heapBuyingSelling h orders pair.1 inst.fee.token)
  let sol ← heapSolveEconomicViable cfg ext pair inst.accounts { b, s, f } inst.fee xrate
  HM.reads fun h => dumpSolution inst (sol.read h)

/-- `main` of the best-token-pair solver without file handling (best_token_pair_solver/solver.py:97-144). -/
def heapBestMain (cfg : Config) (ext : HeapExt) (inst : Instance) (shuffle : List (Token × Token) → List ((Token × Token) × Bool)) :
    HM Dump := do
  let orders ← heapLoadOrdersFrom cfg 0 inst.orders
  let orders ← heapRestrict orders inst.accounts
  let pairs ← HM.reads fun h => .ok (eligibleTokenPairs (orders.map h) inst.fee.token)
  let best ← heapBestLoop cfg ext inst.accounts orders inst.fee (shuffle pairs) (0, .trivial)
  HM.reads fun h => dumpSolution inst (best.2.read h)

end Dex
