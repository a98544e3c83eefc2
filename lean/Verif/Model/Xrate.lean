import Verif.Model.TpOrderbook

/-! # Model of dex_open_solver/token_pair_solver/xrate.py -/

namespace Dex

/-- `IntervalData` (xrate.py:29). -/
structure IntervalData where
  lb : ℚ
  ub : ℚ
  b : List Order
  s : List Order
  bPartial : ℕ
  sPartial : ℕ

/-- The loop shared by `xrate_interval_iterator_b_orders` and `xrate_interval_iterator_s_orders`
(xrate.py:47-55 and 73-81): indices yielded, starting at `i` with the current upper bound `cur`. -/
def partialIdxLoop (lb ub : ℚ) : ℕ → ℚ → List Order → List ℕ
  | _, _, [] => []
  | i, cur, o :: os =>
    if cur < lb then []
    else (if cur - o.maxSell ≤ ub then [i] else []) ++ partialIdxLoop lb ub (i + 1) (cur - o.maxSell) os

/-- `xrate_interval_iterator_b_orders` (xrate.py:36-55). -/
def bPartialIdxs (b : List Order) (sLb sUb xLb xUb : ℚ) (fee : Fee) : List ℕ :=
  partialIdxLoop (sLb * xLb * (1 - fee.value)) (sUb * xUb * (1 - fee.value)) 0 (b.map (·.maxSell)).sum b

/-- `xrate_interval_iterator_s_orders` (xrate.py:62-81). -/
def sPartialIdxs (s : List Order) (bLb bUb xLb xUb : ℚ) (fee : Fee) : Py (List ℕ) := do
  let lb ← pyDiv bLb (xUb * (1 - fee.value))
  let ub ← pyDiv bUb (xLb * (1 - fee.value))
  pure (partialIdxLoop lb ub 0 (s.map (·.maxSell)).sum s)

/-- `OrderVariant` (xrate.py:102). -/
structure Variant where
  isB : Bool
  xrate : ℚ
  data : Order

/-- State of the main loop of `xrate_interval_iterator`. -/
structure IntervalState where
  prev : Option ℚ
  bExec : List Order
  sExec : List Order
  bUb : ℚ
  sUb : ℚ

/-- Update at the top of the loop body (xrate.py:136-142). -/
def intervalUpdate (st : IntervalState) (v : Variant) : Py IntervalState :=
  if v.isB then
    .ok { st with bExec := v.data :: st.bExec, bUb := st.bUb + v.data.maxSell }
  else match st.sExec with
    | [] => .error .indexError
    | _ :: rest => .ok { st with sExec := rest, sUb := st.sUb - v.data.maxSell }

/-- What one iteration yields (xrate.py:163-196). -/
def intervalYields (st : IntervalState) (xLb xUb : ℚ) (fee : Fee) : Py (List IntervalData) := do
  let b0 ← pyGet st.bExec 0
  let bLb := st.bUb - b0.maxSell
  let s0 ← pyGet st.sExec 0
  let sLb := st.sUb - s0.maxSell
  let ys1 := (bPartialIdxs st.bExec sLb st.sUb xLb xUb fee).map
    (fun i => { lb := xLb, ub := xUb, b := st.bExec, s := st.sExec, bPartial := i, sPartial := 0 : IntervalData })
  let js ← sPartialIdxs st.sExec bLb st.bUb xLb xUb fee
  let ys2 := js.map
    (fun i => { lb := xLb, ub := xUb, b := st.bExec, s := st.sExec, bPartial := 0, sPartial := i : IntervalData })
  pure (ys1 ++ ys2)

/-- Skip test of `xrate_interval_iterator` (xrate.py:144-152). -/
def skipInterval (opt prev : Option ℚ) (v w : Variant) : Bool :=
  match opt with
  | none => false
  | some x => decide (x ≠ v.xrate ∧ x ≠ w.xrate ∧ prev ≠ some x)

/-- Main loop of `xrate_interval_iterator` (xrate.py:131-196) over the sorted variants.
Simplification: the generator is run to the end instead of being interleaved with its consumer. -/
def intervalLoop (fee : Fee) (opt : Option ℚ) : IntervalState → List Variant → Py (List IntervalData)
  | st, v :: w :: rest => do
    let st ← intervalUpdate st v
    let next := { st with prev := some v.xrate }
    if skipInterval opt st.prev v w then intervalLoop fee opt next (w :: rest)
    else if st.bExec.length = 0 then intervalLoop fee opt next (w :: rest)
    else if st.sExec.length = 0 then pure []
    else
      let ys ← intervalYields st w.xrate v.xrate fee
      let more ← intervalLoop fee opt next (w :: rest)
      pure (ys ++ more)
  | _, _ => .ok []

/-- `xrate_interval_iterator` (xrate.py:84-196), as the list of yielded items. -/
def xrateIntervals (b s : List Order) (fee : Fee) (opt : Option ℚ) : Py (List IntervalData) := do
  pyAssert (b.length > 0 ∧ s.length > 0) "xrate.py:98"
  let f := 1 - fee.value
  let vb := b.map (fun o => { isB := true, xrate := o.maxXrate * f, data := o : Variant })
  let vs ← mapE (fun o => do
    let x ← pyDiv 1 (o.maxXrate * f)
    pure { isB := false, xrate := x, data := o : Variant }) s
  let all := pySortByRev (·.xrate) (vb ++ vs)
  let sExec := (all.filter (fun v => !v.isB)).map (·.data)
  intervalLoop fee opt
    { prev := none, bExec := [], sExec, bUb := 0, sUb := (s.map (·.maxSell)).sum } all

/-- `Constants` (xrate.py:200-203). -/
structure Constants where
  bPi : ℚ
  bYb : ℚ
  bYbF : ℚ
  sPi : ℚ
  sYb : ℚ
  sYbF : ℚ
  c : ℚ
  f : ℚ

/-- `sum_yb_F` (xrate.py:217-221, using orders_F 213-214). -/
def sumYbF (orders : List Order) (p : ℕ) : ℚ := ((orders.drop (p + 1)).map (·.maxSell)).sum

/-- `c_constant` (xrate.py:224-236). -/
def cConstant (b : List Order) (bp : ℕ) (s : List Order) (sp : ℕ) (fee : Fee) : Py ℚ := do
  let bF := ((b.drop (bp + 1)).map (·.maxSell)).sum
  let bU := ((b.take bp).map (·.maxSell)).sum
  let sF ← sumE (fun o => pyDiv o.maxSell o.maxXrate) (s.drop (sp + 1))
  let sU ← sumE (fun o => pyDiv o.maxSell o.maxXrate) (s.take sp)
  let f := 1 - fee.value
  pure (f * (bF - bU) - sF + sU)

/-- `compute_constants` (xrate.py:238-258). -/
def computeConstants (d : IntervalData) (fee : Fee) : Py Constants := do
  let bo ← pyGet d.b d.bPartial
  let so ← pyGet d.s d.sPartial
  let c ← cConstant d.b d.bPartial d.s d.sPartial fee
  pure { bPi := bo.maxXrate, sPi := so.maxXrate, bYb := bo.maxSell, sYb := so.maxSell
         bYbF := sumYbF d.b d.bPartial, sYbF := sumYbF d.s d.sPartial, c, f := 1 - fee.value }

/-- `root1` (xrate.py:263-265). -/
def root1 (o : Order) (fee : Fee) : ℚ := o.maxXrate * (1 - fee.value)

/-- `root2` (xrate.py:270-272). -/
def root2 (o : Order) (fee : Fee) : Py ℚ := pyDiv 1 (o.maxXrate * (1 - fee.value))

/-- `root3` (xrate.py:279-290). -/
def root3 (cfg : Config) (c : Constants) : Py ℚ := do
  let fp : ℚ := cfg.feeTokenPrice
  let n := 4 * (c.bYb + c.bYbF)
  let d1 := c.f * (c.sPi * (c.c + 2 * (c.bYb + c.bYbF)) + c.sYb + 2 * c.sYbF)
  let d2 ← pyDiv (c.sPi * (c.bYb * (1 + c.f ^ 2 * (2 * fp - 1)) + c.bYbF * (1 - c.f ^ 2))) (2 * fp)
  pyDiv n (d1 + d2)

/-- `root4` (xrate.py:297-302). `sqrt` stands for `F(math.sqrt(t))`: rounding to a double and back, possibly
raising `OverflowError`. -/
def root4 (sqrt : ℚ → Py ℚ) (c : Constants) : Py (Option ℚ) := do
  let n := c.bPi * (c.sPi * (-c.c + c.f * c.bYb + 2 * c.f * c.bYbF) + c.sYb)
  let d := 2 * c.f * c.sPi * (c.sYb + c.sYbF)
  let t ← pyDiv n d
  if t ≥ 0 then do
    let r ← sqrt t
    pure (some r)
  else pure none

/-- `root5` (xrate.py:308-310). -/
def root5 (c : Constants) : Py ℚ := pyDiv (c.bYb + c.bYbF) (c.f * (c.sYb + c.sYbF))

/-- `SymbolicSolver.compute_objective` (xrate.py:313-322). The buy amounts it leaves in the orders are reset before
anything reads them, so only the value is returned. -/
def solverObjective (cfg : Config) (fee : Fee) (b s : List Order) (xrate : ℚ) : Py ℚ := do
  let (b, s) ← computeBuyAmounts cfg xrate b s fee cfg.maxNrExec
  computeObjectiveRational cfg b s [] xrate 1 fee

/-- Sort and drop repeated values: `sorted` + `groupby` (xrate.py:338-342, 392-396) and
`sorted(list(set(xrates)))` (xrate.py:405). -/
def sortDistinct (l : List ℚ) : List ℚ := (pySortBy id l).dedup

/-- `collect_local_optima_within_interval` (xrate.py:326-343), without the root ids (only logged). -/
def localOptima (cfg : Config) (sqrt : ℚ → Py ℚ) (fee : Fee) (d : IntervalData) : Py (List ℚ) := do
  let c ← computeConstants d fee
  let r3 ← root3 cfg c
  let r4 ← root4 sqrt c
  let r5 ← root5 c
  let xs := ([some r3, r4, some r5].filterMap id).filter (fun x => decide (x > d.lb ∧ x < d.ub))
  pure (sortDistinct xs)

/-- `solve_interval` (xrate.py:346-375); `none` is `(None, None)`. -/
def solveInterval (cfg : Config) (sqrt : ℚ → Py ℚ) (fee : Fee) (d : IntervalData) : Py (Option (ℚ × ℚ)) := do
  let xs ← localOptima cfg sqrt fee d
  if xs.length = 0 then pure none
  else
    let xos ← mapE (fun x => do
      let o ← solverObjective cfg fee d.b d.s x
      pure (x, o)) xs
    let opt ← pyMaxBy (·.2) xos
    pure (some opt)

/-- `collect_local_optima_for_trivial_solution` (xrate.py:385-397), without the root ids. -/
def trivialCandidates (b s : List Order) (fee : Fee) : Py (List ℚ) := do
  let r1 := b.map (fun o => root1 o fee)
  let r2 ← mapE (fun o => root2 o fee) s
  pure (sortDistinct (r1 ++ r2))

/-- Binary-search loop of `solve_trivial_bin_search` (xrate.py:428-442) for an objective `f`; returns the final
`center`. -/
def binSearchLoop (f : ℚ → Py ℚ) (xs : List ℚ) : ℕ → ℤ → ℤ → Py ℤ
  | 0, _, _ => .error .diverge
  | fuel + 1, left, right => do
    let center := (left + right) / 2
    if left ≠ center ∧ right ≠ center then
      let slope (i : ℤ) : Py ℚ := do
        let x ← pyGet xs i
        let a ← f x
        let y ← pyGet xs (i - 1)
        let b ← f y
        pure (a - b)
      let dl ← slope left
      let dr ← slope right
      let dc ← slope center
      if dl * dc > 0 then
        pyAssert (dl > 0) "xrate.py:436"
        binSearchLoop f xs fuel center right
      else
        pyAssert (dr < 0) "xrate.py:439"
        pyAssert (dc < 0) "xrate.py:440"
        binSearchLoop f xs fuel left center
    else pure center

/-- `solve_trivial_bin_search` (xrate.py:402-444), for an arbitrary objective `f` (in the code: `compute_objective`,
memoised; memoisation is unobservable). `xs` are the sorted distinct rates. -/
def binSearch (f : ℚ → Py ℚ) (xs : List ℚ) : Py (ℚ × ℚ) := do
  if xs.length ≤ 2 then
    let xos ← mapE (fun x => do
      let o ← f x
      pure (x, o)) xs
    pyMaxBy (·.2) xos
  else
    let x0 ← pyGet xs 0
    let x1 ← pyGet xs 1
    let f0 ← f x0
    let f1 ← f x1
    if f0 > f1 then pure (x0, f0)
    else
      let y0 ← pyGet xs (-1)
      let y1 ← pyGet xs (-2)
      let g0 ← f y0
      let g1 ← f y1
      if g0 > g1 then pure (y0, g0)
      else
        let c ← binSearchLoop f xs (xs.length + 1) 1 (xs.length - 1)
        let x ← pyGet xs c
        let o ← f x
        pure (x, o)

/-- `solve_trivial` (xrate.py:447-457). -/
def solveTrivial (cfg : Config) (fee : Fee) (b s : List Order) : Py (Option (ℚ × ℚ)) := do
  let xs ← trivialCandidates b s fee
  if xs.length = 0 then pure none
  else
    let r ← binSearch (solverObjective cfg fee b s) (sortDistinct xs)
    pure (some r)

/-- `SymbolicSolver.solve` (xrate.py:459-484). -/
def findBestXrate (cfg : Config) (sqrt : ℚ → Py ℚ) (b s : List Order) (fee : Fee) : Py (Option (ℚ × ℚ)) := do
  let (b, s) ← pruneUnrealizable b s fee
  let triv ← solveTrivial cfg fee b s
  let ivs ← xrateIntervals b s fee (triv.map (·.1))
  let rs ← mapE (solveInterval cfg sqrt fee) ivs
  let xos := (triv :: rs).filterMap id
  if xos.length = 0 then pure none
  else
    let best ← pyMaxBy (·.2) xos
    pure (some best)

end Dex
