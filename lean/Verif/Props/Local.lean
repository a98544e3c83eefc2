import Verif.Proof.Core

/-! # C53: the rate found is optimal next to the limit rate found by the binary search -/

namespace Dex

namespace Spec

/-- The rates at which the search relies on the value of the book: the bounds of the intervals and the roots inside. -/
def SearchRate (cfg : Config) (sqrt : ℚ → Py ℚ) (fee : Fee) (ivs : List IntervalData) (y : ℚ) : Prop :=
  ∃ d ∈ ivs, y = d.lb ∨ y = d.ub ∨ ∃ cands, localOptima cfg sqrt fee d = .ok cands ∧ y ∈ cands

/-- No limit rate lies strictly between `x` and `y`. -/
def NextTo (fee : Fee) (b s : List Order) (x y : ℚ) : Prop :=
  ∀ z, LimitRate fee b s z → ¬ (x < z ∧ z < y) ∧ ¬ (y < z ∧ z < x)

end Spec

open Spec

theorem sortDistinct_pairwise (l : List ℚ) : (sortDistinct l).Pairwise (· < ·) := by
  have p1 : (sortDistinct l).Pairwise (· ≤ ·) := (pySortBy_pairwise id l).sublist (List.dedup_sublist _)
  have nd : (sortDistinct l).Nodup := List.nodup_dedup _
  exact (p1.and nd).imp (fun h => lt_of_le_of_ne h.1 h.2)

/-- C17. Without any assumption on the shape of the objective: the limit rate that the search returns is at least as good as
the limit rates next to it. -/
theorem C17_neighbours {cfg : Config} {fee : Fee} {b s : List Order} {x0 v0 : ℚ} (h : SearchInput cfg fee b s)
    (ht : solveTrivial cfg fee b s = .ok (some (x0, v0))) {y w : ℚ} (hy : LimitRate fee b s y) (hn : NextTo fee b s x0 y)
    (hw : ValueAt cfg fee b s y w) : LimitRate fee b s x0 ∧ ValueAt cfg fee b s x0 v0 ∧ w ≤ v0 := by
  obtain ⟨xs, ex, hxs⟩ := trivialCandidates_eq (b := b) (s := s) h.feeLt (fun o ho => (h.ordS o ho).1)
  unfold solveTrivial at ht
  rw [ex, ok_bind] at ht
  split at ht
  · cases ht
  · rw [bind_eq_ok] at ht
    obtain ⟨r, hbs, ht⟩ := ht
    cases ht
    obtain ⟨k1, k2⟩ := binSearch_mem hbs
    exact ⟨(hxs _).1 (mem_sortDistinct.1 k1), solverObjective_iff.1 k2,
      binSearch_neighbours (sortDistinct_pairwise xs) hbs (mem_sortDistinct.2 ((hxs y).2 hy))
        (fun z hz => hn z ((hxs z).1 (mem_sortDistinct.1 hz))) (solverObjective_iff.2 hw)⟩

/-- C53. Suppose that at the rates the search evaluates nothing but the orders' limits restricts the execution. Then the
value returned is at least the value of the book at *every* rate, accepted on both sides, between the limit rates next to
the one found by the binary search - up to an error of order `δ ^ 2` if `math.sqrt` has relative error `δ`. -/
theorem C53_locally_optimal {cfg : Config} {sqrt : ℚ → Py ℚ} {fee : Fee} {b s b' s' : List Order} {r obj x0 v0 : ℚ}
    {ivs : List IntervalData} {δ : ℚ} (h : SearchInput cfg fee b s) (h0 : 0 ≤ fee.value) (hδ : δ ≤ 1 / 2)
    (hsq : RootsAccurate δ sqrt fee b s) (hr : findBestXrate cfg sqrt b s fee = .ok (some (r, obj)))
    (hp : pruneUnrealizable b s fee = .ok (b', s')) (ht : solveTrivial cfg fee b' s' = .ok (some (x0, v0)))
    (hi : xrateIntervals b' s' fee (some x0) = .ok ivs) (hroom : ∀ y, SearchRate cfg sqrt fee ivs y → NonBinding cfg fee b s y)
    {x v : ℚ} (hx : 0 < x) (hv : ValueAt cfg fee b s x v) (ab : ∃ o ∈ b, AcceptsB fee x o) (as : ∃ o ∈ s, AcceptsS fee x o)
    (hn : NextTo fee b' s' x0 x) :
    v ≤ obj + δ ^ 2 * ((b.map (·.maxSell)).sum / x + 4 * (s.map (·.maxSell)).sum) := by
  change v ≤ obj + δ ^ 2 * (totSell b / x + 4 * totSell s)
  have hφ : 0 < 1 - fee.value := by have := h.feeLt; linarith
  have hε : 0 ≤ δ ^ 2 * (totSell b / x + 4 * totSell s) := by
    have h1 : 0 ≤ totSell b := sum_maxSell_nonneg (fun o ho => (h.ordB o ho).2)
    have h2 : 0 ≤ totSell s := sum_maxSell_nonneg (fun o ho => (h.ordS o ho).2)
    positivity
  -- what the search returns
  obtain ⟨_, _, _, _, _, _, _, er, ep, et, ei, _, _, _, _, _, hle, hcand⟩ := C16_attained_maximum h hr
  cases er
  rw [hp] at ep; cases ep
  rw [ht] at et; cases et
  rw [hi] at ei; cases ei
  -- the pruned book
  obtain ⟨ob, hob, aob⟩ := ab
  obtain ⟨os, hos, aos⟩ := as
  have hpi := h.prune (List.ne_nil_of_mem hob) (List.ne_nil_of_mem hos)
  obtain ⟨b1, s1, e1, sb, ss, mb, ms⟩ := C14_exact hpi
  rw [hp] at e1; cases e1
  have hob' : ob ∈ b' := (mb ob).2 ⟨hob, os, hos, x, hx, aob, aos⟩
  have hos' : os ∈ s' := (ms os).2 ⟨hos, ob, hob, x, hx, aob, aos⟩
  have hne : b' ≠ [] := List.ne_nil_of_mem hob'
  have hpi' := hpi.pruned hp hne
  have h' := h.sub sb ss
  have objP : ∀ y, LimitRate fee b' s' y → ∃ w, ValueAt cfg fee b s y w ∧ ValueAt cfg fee b' s' y w := by
    intro y hy
    obtain ⟨py, aby, asy⟩ := limitRate_accepted hpi hp hy
    obtain ⟨w, w1, w2⟩ := objective_pruned h hp py aby asy
    exact ⟨w, solverObjective_iff.1 w1, solverObjective_iff.1 w2⟩
  have val_eq : ∀ {B S : List Order} {y v w : ℚ}, ValueAt cfg fee B S y v → ValueAt cfg fee B S y w → v = w := by
    intro B S y v w h1 h2
    have := solverObjective_iff.2 h1
    rw [solverObjective_iff.2 h2] at this
    cases this; rfl
  -- limit rates next to `x0`
  have limle : ∀ y, LimitRate fee b' s' y → NextTo fee b' s' x0 y → ∀ w, ValueAt cfg fee b s y w → w ≤ obj := by
    intro y hy hny w hw
    obtain ⟨w', w1, w2⟩ := objP y hy
    cases val_eq hw w1
    exact ((C17_neighbours h' ht hy hny w2).2.2).trans hle
  by_cases hlx : LimitRate fee b' s' x
  · have := limle x hlx hn v hv
    linarith
  have hl0 : LimitRate fee b' s' x0 := by
    obtain ⟨xs, ex, hxs⟩ := trivialCandidates_eq (b := b') (s := s') h.feeLt hpi'.posS
    unfold solveTrivial at ht
    rw [ex, ok_bind] at ht
    split at ht
    · cases ht
    · rw [bind_eq_ok] at ht
      obtain ⟨_, hbs, ht⟩ := ht
      cases ht
      exact (hxs _).1 (mem_sortDistinct.1 (binSearch_mem hbs).1)
  obtain ⟨ivs', lb, ub, B, S, ei, h1, h2, llb, lub, hadj, hopt, hBne, hSne, hBm, hSm, hall⟩ :=
    C15_all_patterns (opt := some x0) (⟨hpi'.feeLt, hpi'.neB, hpi'.neS, hpi'.posB, hpi'.posS⟩ : IntervalInput fee b' s')
      (fun o ho => (h'.ordB o ho).2) (fun o ho => (h'.ordS o ho).2) hx hlx ⟨ob, hob', aob⟩ ⟨os, hos', aos⟩
      (.inr ⟨x0, rfl, hl0, fun z hz => ⟨(hn z hz).2, (hn z hz).1⟩⟩)
  rw [hi] at ei; cases ei
  have hx0 : x0 = ub ∨ x0 = lb := by
    rcases hopt with e | e | e
    · cases e
    · cases e; exact .inl rfl
    · cases e; exact .inr rfl
  have nextlb : NextTo fee b' s' x0 lb := by
    intro z hz
    rcases hx0 with rfl | rfl
    · rcases hadj z hz with k | k
      · exact ⟨fun c => by linarith [c.1, c.2], fun c => by linarith [c.1, c.2]⟩
      · exact ⟨fun c => by linarith [c.1, c.2], fun c => by linarith [c.1, c.2]⟩
    · exact ⟨fun c => by linarith [c.1, c.2], fun c => by linarith [c.1, c.2]⟩
  have nextub : NextTo fee b' s' x0 ub := by
    intro z hz
    rcases hx0 with rfl | rfl
    · exact ⟨fun c => by linarith [c.1, c.2], fun c => by linarith [c.1, c.2]⟩
    · rcases hadj z hz with k | k
      · exact ⟨fun c => by linarith [c.1, c.2], fun c => by linarith [c.1, c.2]⟩
      · exact ⟨fun c => by linarith [c.1, c.2], fun c => by linarith [c.1, c.2]⟩
  -- a fill pattern at `x`
  have hpat : (∃ k, FillsTo B ((S.map (·.maxSell)).sum * x * (1 - fee.value)) k) ∨
      ∃ k, FillsTo S ((B.map (·.maxSell)).sum / (x * (1 - fee.value))) k := by
    have nB : 0 ≤ (B.map (·.maxSell)).sum := sum_maxSell_nonneg (fun o ho => (h'.ordB o (hBm o ho)).2)
    have nS : 0 ≤ (S.map (·.maxSell)).sum := sum_maxSell_nonneg (fun o ho => (h'.ordS o (hSm o ho)).2)
    rcases le_total ((S.map (·.maxSell)).sum * x * (1 - fee.value)) (B.map (·.maxSell)).sum with hc | hc
    · exact .inl (fillsTo_exists B hBne (by positivity) hc)
    · refine .inr (fillsTo_exists S hSne (by positivity) ?_)
      rw [div_le_iff₀ (by positivity)]; linarith
  obtain ⟨d, hd, e1, e2, e3, e4⟩ : ∃ d ∈ ivs, d.lb = lb ∧ d.ub = ub ∧ d.b = B ∧ d.s = S := by
    rcases hpat with ⟨k, hk⟩ | ⟨k, hk⟩
    · exact ⟨_, (hall x h1 h2).1 k hk, rfl, rfl, rfl, rfl⟩
    · exact ⟨_, (hall x h1 h2).2 k hk, rfl, rfl, rfl, rfl⟩
  have hreg : Region fee b s B S lb ub := by
    have := region_of h hp hne hi hd (by rw [e1, e2]; exact h1.trans h2)
    rwa [e1, e2, e3, e4] at this
  have nblb : NonBinding cfg fee b s lb := hroom lb ⟨d, hd, .inl e1.symm⟩
  have nbub : NonBinding cfg fee b s ub := hroom ub ⟨d, hd, .inr (.inl e2.symm)⟩
  have hmin : (0 : ℚ) < cfg.minRationalTradable := by exact_mod_cast h.minPos
  have sides : Sides cfg fee b s B S lb ub := by
    refine ⟨h, h0, hreg, hBne, hSne, ?_, ?_⟩
    · intro o ho
      have hob := sb.subset (hBm o ho)
      refine ⟨(h.ordB o hob).1, ?_⟩
      have := (nblb.eligB o hob ((h1.trans h2).le.trans (hreg.inB o ho))).2.1
      exact hmin.trans_le this
    · intro o ho
      have hos := ss.subset (hSm o ho)
      refine ⟨(h.ordS o hos).1, ?_⟩
      have := (nblb.eligS o hos ((acceptsS_iff h.feeLt hreg.lbPos (h.ordS o hos).1).2 (hreg.inS o ho))).2.1
      exact hmin.trans_le this
  have hloc : ∀ d ∈ ivs, ∃ cands, localOptima cfg sqrt fee d = .ok cands := by
    intro d hd
    obtain ⟨cands, hc, _⟩ := hcand d hd
    exact ⟨cands, hc⟩
  have hroom' : ∀ y, y = lb ∨ y = ub ∨ Cand cfg sqrt fee ivs y →
      NonBinding cfg fee b s y ∧ ∃ w, solverObjective cfg fee b s y = .ok w := by
    rintro y (rfl | rfl | ⟨d, hd, cands, hc, hy⟩)
    · obtain ⟨w, w1, _⟩ := objP _ llb
      exact ⟨nblb, w, solverObjective_iff.2 w1⟩
    · obtain ⟨w, w1, _⟩ := objP _ lub
      exact ⟨nbub, w, solverObjective_iff.2 w1⟩
    · obtain ⟨cands', hc', hall'⟩ := hcand d hd
      rw [hc] at hc'; cases hc'
      obtain ⟨_, _, w, w1, _⟩ := hall' y hy
      exact ⟨hroom y ⟨d, hd, .inr (.inr ⟨cands, hc, hy⟩)⟩, w, solverObjective_iff.2 w1⟩
  have bound : ∀ y, y = lb ∨ y = ub ∨ Cand cfg sqrt fee ivs y → ∀ w, solverObjective cfg fee b s y = .ok w → w ≤ obj := by
    rintro y (rfl | rfl | ⟨d, hd, cands, hc, hy⟩) w hw
    · exact limle _ llb nextlb w (solverObjective_iff.1 hw)
    · exact limle _ lub nextub w (solverObjective_iff.1 hw)
    · obtain ⟨cands', hc', hall'⟩ := hcand d hd
      rw [hc] at hc'; cases hc'
      obtain ⟨_, _, w', w1, w2⟩ := hall' y hy
      cases val_eq (solverObjective_iff.1 hw) w1
      exact w2
  -- the value at `x` on the interval's lists
  obtain ⟨_, v', k1, k2⟩ := objective_interval h hp hne hi hd (x := x) (by rw [e1]; exact h1) (by rw [e2]; exact h2)
  rw [e3, e4] at k2
  cases val_eq hv (solverObjective_iff.1 k1)
  have hex : ExecInput cfg x fee cfg.maxNrExec B S := by
    obtain ⟨RB, pB, _⟩ := hreg.exB
    obtain ⟨RS, pS, _⟩ := hreg.exS
    have nodB : ((B ++ RB).map (·.id)).Nodup := (pB.map _).nodup_iff.1 h.idsB
    have nodS : ((S ++ RS).map (·.id)).Nodup := (pS.map _).nodup_iff.1 h.idsS
    rw [List.map_append] at nodB nodS
    exact ⟨h.minPos, hx, h.feeLt, h.limit, (List.nodup_append.1 nodB).1, (List.nodup_append.1 nodS).1⟩
  rcases hpat with ⟨k, hk⟩ | ⟨k, hk⟩
  · obtain ⟨y, w, hy, hw, hvw⟩ := core4 sides hδ hsq hall hloc hroom' h1 h2 hex k2 hk
    have := bound y hy w hw
    linarith
  · obtain ⟨y, w, hy, hw, hvw⟩ := core3 sides hall hloc hroom' h1 h2 hex k2 hk
    have := bound y hy w hw
    linarith

/-! ### Non-vacuity -/

namespace ExLocal

/-- Newton iteration with four digits after the point. -/
def newton (t : ℚ) : ℕ → ℚ → ℚ
  | 0, r => r
  | n + 1, r => newton t n (((r + t / r) / 2 * 10000).floor / 10000)

/-- A square root that is accurate to one part in a thousand or raises. -/
def sqrt (t : ℚ) : Py ℚ :=
  let r := newton t 6 1
  if 0 < r ∧ |r ^ 2 - t| ≤ 1 / 1000 * t then .ok r else .error .overflow

theorem sqrt_accurate : SqrtAccurate (1 / 1000) sqrt := by
  intro t r _ h
  unfold sqrt at h
  simp only at h
  split at h
  · cases h; assumption
  · cases h

/-- Total volume, in b-token bought by b_orders over the exchange rate, for the check below. -/
def volume (x : ℚ) : ℚ :=
  min ((ExRoot.s.filter (fun o => decide (EligibleS Config.default x ExRoot.fee o))).map (maxBuyS x ExRoot.fee)).sum
    (((ExRoot.b.filter (fun o => decide (EligibleB Config.default x ExRoot.fee o))).map (maxBuyB x ExRoot.fee)).sum /
      ((1 - ExRoot.fee.value) / x))

/-- `NonBinding` for the example book, in a form that can be evaluated. -/
def Check (x : ℚ) : Prop :=
  (∀ o ∈ ExRoot.b, AcceptsB ExRoot.fee x o → EligibleB Config.default x ExRoot.fee o) ∧
  (∀ o ∈ ExRoot.s, AcceptsS ExRoot.fee x o → EligibleS Config.default x ExRoot.fee o) ∧
  ((volume x * ((1 - ExRoot.fee.value) / x) =
      ((ExRoot.b.filter (fun o => decide (EligibleB Config.default x ExRoot.fee o))).map (maxBuyB x ExRoot.fee)).sum ∧
      volume x ≤ ((ExRoot.s.filter (fun o => decide (EligibleS Config.default x ExRoot.fee o))).map (maxBuyS x ExRoot.fee)).sum) ∨
    (volume x * ((1 - ExRoot.fee.value) / x) ≤
      ((ExRoot.b.filter (fun o => decide (EligibleB Config.default x ExRoot.fee o))).map (maxBuyB x ExRoot.fee)).sum ∧
      volume x = ((ExRoot.s.filter (fun o => decide (EligibleS Config.default x ExRoot.fee o))).map (maxBuyS x ExRoot.fee)).sum)) ∧
  (∀ o ∈ ExRoot.b, 0 < fillAmount (EligibleB Config.default x ExRoot.fee) (maxBuyB x ExRoot.fee) ExRoot.b
      (volume x * ((1 - ExRoot.fee.value) / x)) o →
    (Config.default.minRationalTradable : ℚ) ≤ fillAmount (EligibleB Config.default x ExRoot.fee) (maxBuyB x ExRoot.fee) ExRoot.b
      (volume x * ((1 - ExRoot.fee.value) / x)) o ∧
    (Config.default.minRationalTradable : ℚ) ≤ fillAmount (EligibleB Config.default x ExRoot.fee) (maxBuyB x ExRoot.fee) ExRoot.b
      (volume x * ((1 - ExRoot.fee.value) / x)) o * x / (1 - ExRoot.fee.value)) ∧
  (∀ o ∈ ExRoot.s, 0 < fillAmount (EligibleS Config.default x ExRoot.fee) (maxBuyS x ExRoot.fee) ExRoot.s (volume x) o →
    (Config.default.minRationalTradable : ℚ) ≤ fillAmount (EligibleS Config.default x ExRoot.fee) (maxBuyS x ExRoot.fee) ExRoot.s (volume x) o ∧
    (Config.default.minRationalTradable : ℚ) ≤
      fillAmount (EligibleS Config.default x ExRoot.fee) (maxBuyS x ExRoot.fee) ExRoot.s (volume x) o / x / (1 - ExRoot.fee.value))

instance (x : ℚ) : Decidable (Check x) := by unfold Check; infer_instance

theorem Check.nonBinding {x : ℚ} (h : Check x) : NonBinding Config.default ExRoot.fee ExRoot.b ExRoot.s x := by
  obtain ⟨h1, h2, h3, h4, h5⟩ := h
  refine ⟨h1, h2, volume x, h3, ?_, ?_, ?_⟩
  · have a := List.length_filter_le (fun o => decide (EligibleB Config.default x ExRoot.fee o)) ExRoot.b
    have c := List.length_filter_le (fun o => decide (EligibleS Config.default x ExRoot.fee o)) ExRoot.s
    have e1 : ExRoot.b.length = 2 := rfl
    have e2 : ExRoot.s.length = 2 := rfl
    have e3 : Config.default.maxNrExec = 30 := rfl
    rw [e1] at a; rw [e2] at c; rw [e3]; omega
  · rintro o ho q rfl hq; exact h4 o ho hq
  · rintro o ho q rfl hq; exact h5 o ho hq

end ExLocal

/-- A book with two orders on each side to which `C53_locally_optimal` applies: the binary search finds a limit rate, the
search improves on it at a root-4 rate inside an interval, and the rate 1 is compared. -/
example : ∃ r obj x0 v0 ivs, SearchInput Config.default ExRoot.fee ExRoot.b ExRoot.s ∧
    findBestXrate Config.default ExLocal.sqrt ExRoot.b ExRoot.s ExRoot.fee = .ok (some (r, obj)) ∧
    pruneUnrealizable ExRoot.b ExRoot.s ExRoot.fee = .ok (ExRoot.b, ExRoot.s) ∧
    solveTrivial Config.default ExRoot.fee ExRoot.b ExRoot.s = .ok (some (x0, v0)) ∧
    xrateIntervals ExRoot.b ExRoot.s ExRoot.fee (some x0) = .ok ivs ∧ v0 < obj ∧
    (∀ y, SearchRate Config.default ExLocal.sqrt ExRoot.fee ivs y → NonBinding Config.default ExRoot.fee ExRoot.b ExRoot.s y) ∧
    (∃ o ∈ ExRoot.b, AcceptsB ExRoot.fee 1 o) ∧ (∃ o ∈ ExRoot.s, AcceptsS ExRoot.fee 1 o) ∧
    NextTo ExRoot.fee ExRoot.b ExRoot.s x0 1 := by
  obtain ⟨res, e1, r1⟩ := exists_of_pyCheck
    (x := findBestXrate Config.default ExLocal.sqrt ExRoot.b ExRoot.s ExRoot.fee)
    (p := fun res => ∃ p ∈ res, pyCheck (solveTrivial Config.default ExRoot.fee ExRoot.b ExRoot.s)
      (fun t => ∃ q ∈ t, q.1 = 2997 / 2000 ∧ q.2 < p.2) = true) (by decide +kernel)
  obtain ⟨⟨r, obj⟩, rm, r2⟩ := r1
  obtain ⟨t, e2, ⟨x0, v0⟩, tm, rfl, hlt⟩ := exists_of_pyCheck r2
  cases rm; cases tm
  obtain ⟨ivs, e3, hc⟩ := exists_of_pyCheck (x := xrateIntervals ExRoot.b ExRoot.s ExRoot.fee (some (2997 / 2000)))
    (p := fun ivs => ∀ d ∈ ivs, pyCheck (localOptima Config.default ExLocal.sqrt ExRoot.fee d)
      (fun cands => ExLocal.Check d.lb ∧ ExLocal.Check d.ub ∧ ∀ y ∈ cands, ExLocal.Check y) = true) (by decide +kernel)
  refine ⟨r, obj, _, v0, ivs, ?_, e1, by decide +kernel, e2, e3, hlt, ?_, by decide +kernel, by decide +kernel, ?_⟩
  · constructor <;> decide +kernel
  · rintro y ⟨d, hd, hy⟩
    obtain ⟨cands, k1, k2, k3, k4⟩ := exists_of_pyCheck (hc d hd)
    rcases hy with rfl | rfl | ⟨cands', k5, hy⟩
    · exact k2.nonBinding
    · exact k3.nonBinding
    · rw [k1] at k5; cases k5
      exact (k4 y hy).nonBinding
  · have key : (∀ o ∈ ExRoot.b, ¬ (2997 / 2000 < o.maxXrate * (1 - ExRoot.fee.value) ∧ o.maxXrate * (1 - ExRoot.fee.value) < 1) ∧
        ¬ (1 < o.maxXrate * (1 - ExRoot.fee.value) ∧ o.maxXrate * (1 - ExRoot.fee.value) < 2997 / 2000)) ∧
      ∀ o ∈ ExRoot.s, ¬ (2997 / 2000 < 1 / (o.maxXrate * (1 - ExRoot.fee.value)) ∧ 1 / (o.maxXrate * (1 - ExRoot.fee.value)) < 1) ∧
        ¬ (1 < 1 / (o.maxXrate * (1 - ExRoot.fee.value)) ∧ 1 / (o.maxXrate * (1 - ExRoot.fee.value)) < 2997 / 2000) := by
      decide +kernel
    rintro z (⟨o, ho, rfl⟩ | ⟨o, ho, rfl⟩)
    · exact key.1 o ho
    · exact key.2 o ho

end Dex
