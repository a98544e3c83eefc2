import Verif.Props.Local
import Mathlib.Data.Finset.Max

/-! # C104: when the rate found is optimal among all rates -/

namespace Dex

namespace Spec

/-- Some order of each side accepts the rate. -/
def AcceptedRate (fee : Fee) (b s : List Order) (x : ℚ) : Prop :=
  0 < x ∧ (∃ o ∈ b, AcceptsB fee x o) ∧ ∃ o ∈ s, AcceptsS fee x o

/-- The value of the book, as a function of the rate, has one peak: between two rates it exceeds the smaller of their values. -/
def SinglePeak (cfg : Config) (fee : Fee) (b s : List Order) : Prop :=
  ∀ x y z vx vy vz, AcceptedRate fee b s x → AcceptedRate fee b s z → x < y → y < z →
    ValueAt cfg fee b s x vx → ValueAt cfg fee b s y vy → ValueAt cfg fee b s z vz → min vx vz < vy

end Spec

open Spec

theorem Spec.AcceptedRate.between {fee : Fee} {b s : List Order} (hf : fee.value < 1) (hs : ∀ o ∈ s, 0 < o.maxXrate) {x y z : ℚ}
    (hx : AcceptedRate fee b s x) (hz : AcceptedRate fee b s z) (h1 : x ≤ y) (h2 : y ≤ z) : AcceptedRate fee b s y := by
  obtain ⟨px, _, c, hc, ac⟩ := hx
  obtain ⟨_, ⟨o, ho, ao⟩, _⟩ := hz
  have py := px.trans_le h1
  exact ⟨py, ⟨o, ho, h2.trans ao⟩, c, hc, (acceptsS_iff hf py (hs c hc)).2 (((acceptsS_iff hf px (hs c hc)).1 ac).trans h1)⟩

/-- The rate search, seen from outside: there is a limit rate `x0` that is at least as good as the limit rates next to it, and
the value returned is at least the value of every tradable rate that no limit rate separates from `x0`. -/
theorem search_outline {cfg : Config} {sqrt : ℚ → Py ℚ} {fee : Fee} {b s : List Order} {r obj : ℚ} {δ : ℚ}
    (h : SearchInput cfg fee b s) (h0 : 0 ≤ fee.value) (hδ : δ ≤ 1 / 2) (hsq : RootsAccurate δ sqrt fee b s)
    (hr : findBestXrate cfg sqrt b s fee = .ok (some (r, obj))) (hroom : ∀ y, AcceptedRate fee b s y → NonBinding cfg fee b s y) :
    ∃ b' s' x0 v0, b'.Sublist b ∧ s'.Sublist s ∧ (∀ y, LimitRate fee b' s' y → AcceptedRate fee b s y ∧ ∃ w, ValueAt cfg fee b s y w) ∧
      LimitRate fee b' s' x0 ∧ ValueAt cfg fee b s x0 v0 ∧ v0 ≤ obj ∧
      (∀ y w, LimitRate fee b' s' y → NextTo fee b' s' x0 y → ValueAt cfg fee b s y w → w ≤ v0) ∧
      ∀ x v, AcceptedRate fee b s x → ValueAt cfg fee b s x v → NextTo fee b' s' x0 x →
        v ≤ obj + δ ^ 2 * ((b.map (·.maxSell)).sum / x + 4 * (s.map (·.maxSell)).sum) := by
  obtain ⟨_, _, b', s', x0, v0, ivs, er, hp, ht, hi, _, _, _, _, hv0, hle, hcand⟩ := C16_attained_maximum h hr
  cases er
  have hbne : b ≠ [] := by
    rintro rfl; rw [C14_empty_side (.inl rfl)] at hp; cases hp
  have hsne : s ≠ [] := by
    rintro rfl; rw [C14_empty_side (.inr rfl)] at hp; cases hp
  have hpi := h.prune hbne hsne
  obtain ⟨b1, s1, e1, sb, ss, mb, ms⟩ := C14_exact hpi
  rw [hp] at e1; cases e1
  have h' := h.sub sb ss
  have lim : ∀ y, LimitRate fee b' s' y → AcceptedRate fee b s y := by
    intro y hy
    obtain ⟨py, ⟨o, ho, ao⟩, c, hc, ac⟩ := limitRate_accepted hpi hp hy
    exact ⟨py, ⟨o, sb.subset ho, ao⟩, c, ss.subset hc, ac⟩
  have hl0 : LimitRate fee b' s' x0 := by
    obtain ⟨xs, ex, hxs⟩ := trivialCandidates_eq (b := b') (s := s') h.feeLt (fun o ho => (h'.ordS o ho).1)
    have ht' := ht
    unfold solveTrivial at ht'
    rw [ex, ok_bind] at ht'
    split at ht'
    · cases ht'
    · rw [bind_eq_ok] at ht'
      obtain ⟨_, hbs, ht'⟩ := ht'
      cases ht'
      exact (hxs _).1 (mem_sortDistinct.1 (binSearch_mem hbs).1)
  have val_eq : ∀ {B S : List Order} {y v w : ℚ}, ValueAt cfg fee B S y v → ValueAt cfg fee B S y w → v = w := by
    intro B S y v w h1 h2
    have := solverObjective_iff.2 h1
    rw [solverObjective_iff.2 h2] at this
    cases this; rfl
  have objP : ∀ y, LimitRate fee b' s' y → ∃ w, ValueAt cfg fee b s y w ∧ ValueAt cfg fee b' s' y w := by
    intro y hy
    obtain ⟨py, aby, asy⟩ := limitRate_accepted hpi hp hy
    obtain ⟨w, w1, w2⟩ := objective_pruned h hp py aby asy
    exact ⟨w, solverObjective_iff.1 w1, solverObjective_iff.1 w2⟩
  have hne : b' ≠ [] := by
    rintro rfl
    have := (C14_both_or_none hpi hp).1 rfl
    subst this
    unfold xrateIntervals at hi
    cases hi
  refine ⟨b', s', x0, v0, sb, ss, fun y hy => ⟨lim y hy, (objP y hy).imp (fun _ k => k.1)⟩, hl0, hv0, hle, ?_, ?_⟩
  · intro y w hy hn hw
    obtain ⟨w', w1, w2⟩ := objP y hy
    cases val_eq hw w1
    exact (C17_neighbours h' ht hy hn w2).2.2
  · intro x v hx hv hn
    refine C53_locally_optimal h h0 hδ hsq hr hp ht hi ?_ hx.1 hv hx.2.1 hx.2.2 hn
    have bounds : ∀ d ∈ ivs, AcceptedRate fee b s d.lb ∧ AcceptedRate fee b s d.ub := by
      have hpi' := hpi.pruned hp hne
      obtain ⟨ivs', ei, hy⟩ := xrateIntervals_spec (opt := some x0) hpi'.feeLt hpi'.neB hpi'.neS hpi'.posB hpi'.posS
      rw [hi] at ei; cases ei
      have hlim : ∀ v ∈ variants b' s' fee, LimitRate fee b' s' v.xrate := by
        intro v hv
        have hperm := pySortByRev_perm (fun v : Variant => v.xrate)
          (b'.map (fun o => { isB := true, xrate := o.maxXrate * (1 - fee.value), data := o : Variant }) ++
            s'.map (fun o => { isB := false, xrate := 1 / (o.maxXrate * (1 - fee.value)), data := o : Variant }))
        change (variants b' s' fee).Perm _ at hperm
        rcases List.mem_append.1 (hperm.mem_iff.1 hv) with hv | hv
        · obtain ⟨o, ho, rfl⟩ := List.mem_map.1 hv; exact .inl ⟨o, ho, rfl⟩
        · obtain ⟨o, ho, rfl⟩ := List.mem_map.1 hv; exact .inr ⟨o, ho, rfl⟩
      intro d hd
      obtain ⟨pre, v, w, post, hall, e1, e2, _, _⟩ := (hy d hd).split
      exact ⟨lim _ (e1 ▸ hlim w (by rw [hall]; simp)), lim _ (e2 ▸ hlim v (by rw [hall]; simp))⟩
    rintro y ⟨d, hd, rfl | rfl | ⟨cands, hc, hy⟩⟩
    · exact hroom _ (bounds d hd).1
    · exact hroom _ (bounds d hd).2
    · obtain ⟨cands', hc', hall⟩ := hcand d hd
      rw [hc] at hc'; cases hc'
      obtain ⟨k1, k2, _⟩ := hall y hy
      exact hroom _ (AcceptedRate.between h.feeLt (fun o ho => (h.ordS o ho).1) (bounds d hd).1 (bounds d hd).2 k1.le k2.le)

/-- C104. If the value of the book has a single peak, as xrate.py:399-401 and the description of the algorithm assume, and at
tradable rates nothing but the orders' limits restricts the execution, then no rate at all is better than the rate found - up
to an error of order `δ ^ 2` if `math.sqrt` has relative error `δ`. -/
theorem C104_single_peak {cfg : Config} {sqrt : ℚ → Py ℚ} {fee : Fee} {b s : List Order} {r obj : ℚ} {δ : ℚ}
    (h : SearchInput cfg fee b s) (h0 : 0 ≤ fee.value) (hδ : δ ≤ 1 / 2) (hsq : RootsAccurate δ sqrt fee b s)
    (hr : findBestXrate cfg sqrt b s fee = .ok (some (r, obj))) (hroom : ∀ y, AcceptedRate fee b s y → NonBinding cfg fee b s y)
    (hpeak : SinglePeak cfg fee b s) {x v : ℚ} (hx : AcceptedRate fee b s x) (hv : ValueAt cfg fee b s x v) :
    v ≤ obj + δ ^ 2 * ((b.map (·.maxSell)).sum / x + 4 * (s.map (·.maxSell)).sum) := by
  obtain ⟨b', s', x0, v0, sb, ss, lim, hl0, hv0, hle, hnb, hloc⟩ := search_outline h h0 hδ hsq hr hroom
  by_cases hn : NextTo fee b' s' x0 x
  · exact hloc x v hx hv hn
  have hε : 0 ≤ δ ^ 2 * ((b.map (·.maxSell)).sum / x + 4 * (s.map (·.maxSell)).sum) := by
    have h1 : 0 ≤ (b.map (·.maxSell)).sum := sum_maxSell_nonneg (fun o ho => (h.ordB o ho).2)
    have h2 : 0 ≤ (s.map (·.maxSell)).sum := sum_maxSell_nonneg (fun o ho => (h.ordS o ho).2)
    have := hx.1
    positivity
  -- the limit rate next to `x0` in the direction of `x`
  obtain ⟨xs, _, hxs⟩ := trivialCandidates_eq (b := b') (s := s') h.feeLt (fun o ho => (h.ordS o (ss.subset ho)).1)
  let Z := xs.toFinset.filter (fun z => (x0 < z ∧ z < x) ∨ (x < z ∧ z < x0))
  have hZ : ∀ z, z ∈ Z ↔ LimitRate fee b' s' z ∧ ((x0 < z ∧ z < x) ∨ (x < z ∧ z < x0)) := by
    intro z; simp only [Z, Finset.mem_filter, List.mem_toFinset, hxs]
  have hne : Z.Nonempty := by
    by_contra hc
    rw [Finset.not_nonempty_iff_eq_empty] at hc
    apply hn
    intro z hz
    have : z ∉ Z := by rw [hc]; simp
    rw [hZ] at this
    exact ⟨fun k => this ⟨hz, .inl k⟩, fun k => this ⟨hz, .inr k⟩⟩
  obtain ⟨z, hz, hmin⟩ := Z.exists_min_image (fun z => |z - x0|) hne
  obtain ⟨lz, hz⟩ := (hZ z).1 hz
  have hnz : NextTo fee b' s' x0 z := by
    intro w hw
    constructor
    · rintro ⟨k1, k2⟩
      rcases hz with ⟨z1, z2⟩ | ⟨z1, z2⟩
      · have := hmin w ((hZ w).2 ⟨hw, .inl ⟨k1, k2.trans z2⟩⟩)
        simp only [abs_of_pos (sub_pos.2 z1), abs_of_pos (sub_pos.2 k1)] at this
        linarith
      · linarith
    · rintro ⟨k1, k2⟩
      rcases hz with ⟨z1, z2⟩ | ⟨z1, z2⟩
      · linarith
      · have := hmin w ((hZ w).2 ⟨hw, .inr ⟨z1.trans k1, k2⟩⟩)
        simp only [abs_of_neg (sub_neg.2 z2), abs_of_neg (sub_neg.2 k2)] at this
        linarith
  obtain ⟨c, hc⟩ := (lim z lz).2
  have h1 := hnb z c lz hnz hc
  have h2 : min v0 v < c := by
    rcases hz with ⟨z1, z2⟩ | ⟨z1, z2⟩
    · exact hpeak x0 z x v0 c v (lim x0 hl0).1 hx z1 z2 hv0 hc hv
    · rw [min_comm]; exact hpeak x z x0 v c v0 hx (lim x0 hl0).1 z1 z2 hv hc hv0
  rcases min_lt_iff.1 h2 with h2 | h2
  · linarith
  · linarith

/-- C104. If all orders of each side have the same limit, the value need not be assumed to have a single peak. -/
theorem C104_one_limit_per_side {cfg : Config} {sqrt : ℚ → Py ℚ} {fee : Fee} {b s : List Order} {r obj : ℚ} {δ : ℚ}
    (h : SearchInput cfg fee b s) (h0 : 0 ≤ fee.value) (hδ : δ ≤ 1 / 2) (hsq : RootsAccurate δ sqrt fee b s)
    (hr : findBestXrate cfg sqrt b s fee = .ok (some (r, obj))) (hroom : ∀ y, AcceptedRate fee b s y → NonBinding cfg fee b s y)
    (hb : ∀ o ∈ b, ∀ c ∈ b, o.maxXrate = c.maxXrate) (hs : ∀ o ∈ s, ∀ c ∈ s, o.maxXrate = c.maxXrate)
    {x v : ℚ} (hx : AcceptedRate fee b s x) (hv : ValueAt cfg fee b s x v) :
    v ≤ obj + δ ^ 2 * ((b.map (·.maxSell)).sum / x + 4 * (s.map (·.maxSell)).sum) := by
  obtain ⟨b', s', x0, v0, sb, ss, lim, hl0, hv0, hle, hnb, hloc⟩ := search_outline h h0 hδ hsq hr hroom
  refine hloc x v hx hv ?_
  obtain ⟨px, ⟨o, ho, ao⟩, c, hc, ac⟩ := hx
  have ac := (acceptsS_iff h.feeLt px (h.ordS c hc).1).1 ac
  unfold AcceptsB at ao
  have val : ∀ z, LimitRate fee b' s' z → z = o.maxXrate * (1 - fee.value) ∨ z = 1 / (c.maxXrate * (1 - fee.value)) := by
    rintro z (⟨a, ha, rfl⟩ | ⟨a, ha, rfl⟩)
    · exact .inl (by rw [hb a (sb.subset ha) o ho])
    · exact .inr (by rw [hs a (ss.subset ha) c hc])
  intro z hz
  rcases val z hz with rfl | rfl <;> rcases val x0 hl0 with e | e <;> rw [e] <;>
    exact ⟨fun k => by linarith [k.1, k.2], fun k => by linarith [k.1, k.2]⟩

/-- One order on each side, neither of them tiny: nothing but the limits restricts the execution. -/
theorem nonBinding_two {cfg : Config} {fee : Fee} {o c : Order} (h : SearchInput cfg fee [o] [c]) (h0 : 0 ≤ fee.value)
    (hroom : 2 ≤ cfg.maxNrExec) (ho1 : (cfg.minRationalTradable : ℚ) ≤ o.maxSell)
    (ho2 : (cfg.minRationalTradable : ℚ) ≤ o.maxSell / o.maxXrate)
    (hc1 : (cfg.minRationalTradable : ℚ) ≤ c.maxSell * (1 - fee.value) ^ 2)
    (hc2 : (cfg.minRationalTradable : ℚ) ≤ c.maxSell / c.maxXrate) {y : ℚ} (hy : AcceptedRate fee [o] [c] y) :
    NonBinding cfg fee [o] [c] y := by
  obtain ⟨py, ⟨o', ho', ao⟩, c', hc', ac⟩ := hy
  rw [List.mem_singleton] at ho' hc'; subst ho' hc'
  have hf : 0 < 1 - fee.value := by have := h.feeLt; linarith
  have hf1 : 1 - fee.value ≤ 1 := by linarith
  obtain ⟨xo, _⟩ := h.ordB o' (by simp)
  obtain ⟨xc, _⟩ := h.ordS c' (by simp)
  have hm : (0 : ℚ) < cfg.minRationalTradable := by exact_mod_cast h.minPos
  have so : 0 < o'.maxSell := hm.trans_le ho1
  have sc : 0 < c'.maxSell := by
    by_contra hn
    have : c'.maxSell / c'.maxXrate ≤ 0 := div_nonpos_of_nonpos_of_nonneg (not_lt.1 hn) xc.le
    linarith
  set f := 1 - fee.value with hfd
  have ac' : 1 / y ≤ c'.maxXrate * f := ac
  have ao' : y ≤ o'.maxXrate * f := ao
  rw [div_le_iff₀ py] at ac'
  have b1 : (cfg.minRationalTradable : ℚ) ≤ o'.maxSell / y * f := by
    refine ho2.trans ?_
    rw [div_mul_eq_mul_div, div_le_div_iff₀ xo py]
    nlinarith
  have s1 : (cfg.minRationalTradable : ℚ) ≤ c'.maxSell * y * f := by
    refine hc2.trans ?_
    rw [div_le_iff₀ xc]
    nlinarith
  have hf2 : f ^ 2 ≤ 1 := by nlinarith
  have s2 : (cfg.minRationalTradable : ℚ) ≤ c'.maxSell := by nlinarith
  have eB : EligibleB cfg y fee o' := ⟨ao, ho1, b1⟩
  have eS : EligibleS cfg y fee c' := ⟨ac, s2, s1⟩
  have u1 : (cfg.minRationalTradable : ℚ) ≤ min (c'.maxSell * y * f) o'.maxSell := le_min s1 ho1
  have u2 : (cfg.minRationalTradable : ℚ) ≤ min (c'.maxSell * y * f) o'.maxSell * (f / y) := by
    rcases le_total (c'.maxSell * y * f) o'.maxSell with k | k
    · rw [min_eq_left k]
      refine hc1.trans (le_of_eq ?_)
      field_simp
    · rw [min_eq_right k]
      exact b1.trans (le_of_eq (by ring))
  have u3 : (cfg.minRationalTradable : ℚ) ≤ min (c'.maxSell * y * f) o'.maxSell / y / f := by
    refine u2.trans ?_
    rw [mul_div_assoc', div_div, div_le_div_iff₀ py (by positivity)]
    have : 0 < min (c'.maxSell * y * f) o'.maxSell := hm.trans_le u1
    have h3 : min (c'.maxSell * y * f) o'.maxSell * y * f ^ 2 ≤ min (c'.maxSell * y * f) o'.maxSell * y * 1 := by gcongr
    linarith
  have u4 : min (c'.maxSell * y * f) o'.maxSell * (f / y) ≤ o'.maxSell / y * f := by
    rw [div_mul_eq_mul_div, mul_div_assoc']
    gcongr
    exact min_le_right _ _
  refine ⟨by simpa using fun _ => eB, by simpa using fun _ => eS, min (c'.maxSell * y * f) o'.maxSell, ?_, ?_, ?_, ?_⟩
  · simp only [List.filter_cons, eB, eS, decide_true, if_true, List.filter_nil, List.map_cons, List.map_nil, List.sum_cons, List.sum_nil,
      add_zero, maxBuyB, maxBuyS, ← hfd]
    rcases le_total (c'.maxSell * y * f) o'.maxSell with k | k
    · rw [min_eq_left k]
      refine .inr ⟨?_, rfl⟩
      rw [div_mul_eq_mul_div, mul_div_assoc']
      gcongr
    · rw [min_eq_right k]
      exact .inl ⟨by ring, k⟩
  · simp only [List.filter_cons, eB, eS, decide_true, if_true, List.filter_nil, List.length_cons, List.length_nil]
    push_cast; linarith
  · rintro a ha q rfl _
    rw [List.mem_singleton] at ha; subst ha
    have nb : ¬ Before a a := by unfold Before; simp
    have e : ([a].filter (fun z => decide (EligibleB cfg y fee z ∧ Before z a))) = [] := by simp [nb]
    rw [fillAmount, if_pos eB, e, List.map_nil, List.sum_nil, sub_zero, maxBuyB, ← hfd, min_eq_right u4, max_eq_right (hm.le.trans u2)]
    refine ⟨u2, u1.trans (le_of_eq ?_)⟩
    field_simp
  · rintro a ha q rfl _
    rw [List.mem_singleton] at ha; subst ha
    have nb : ¬ Before a a := by unfold Before; simp
    have e : ([a].filter (fun z => decide (EligibleS cfg y fee z ∧ Before z a))) = [] := by simp [nb]
    rw [fillAmount, if_pos eS, e, List.map_nil, List.sum_nil, sub_zero, maxBuyS, ← hfd, min_eq_right (min_le_left _ _),
      max_eq_right (hm.le.trans u1)]
    exact ⟨u1, u3⟩

/-- C104. One order on each side, neither of them tiny: no rate is better than the rate found (up to the error of `math.sqrt`). -/
theorem C104_two_orders {cfg : Config} {sqrt : ℚ → Py ℚ} {fee : Fee} {o c : Order} {r obj : ℚ} {δ : ℚ}
    (h : SearchInput cfg fee [o] [c]) (h0 : 0 ≤ fee.value) (hδ : δ ≤ 1 / 2) (hsq : RootsAccurate δ sqrt fee [o] [c])
    (hr : findBestXrate cfg sqrt [o] [c] fee = .ok (some (r, obj)))
    (hroom : 2 ≤ cfg.maxNrExec) (ho1 : (cfg.minRationalTradable : ℚ) ≤ o.maxSell)
    (ho2 : (cfg.minRationalTradable : ℚ) ≤ o.maxSell / o.maxXrate)
    (hc1 : (cfg.minRationalTradable : ℚ) ≤ c.maxSell * (1 - fee.value) ^ 2)
    (hc2 : (cfg.minRationalTradable : ℚ) ≤ c.maxSell / c.maxXrate)
    {x v : ℚ} (hx : AcceptedRate fee [o] [c] x) (hv : ValueAt cfg fee [o] [c] x v) :
    v ≤ obj + δ ^ 2 * (o.maxSell / x + 4 * c.maxSell) := by
  have := C104_one_limit_per_side h h0 hδ hsq hr (fun y hy => nonBinding_two h h0 hroom ho1 ho2 hc1 hc2 hy)
    (by simp) (by simp) hx hv
  simpa using this

/-! ### Non-vacuity -/

namespace ExAllRates

def o : Order := Order.mk' "B" "S" 100000 2 none "0"
def c : Order := Order.mk' "S" "B" 1000000 2 none "1"

theorem input : SearchInput Config.default ExRoot.fee [o] [c] := by
  constructor <;> decide +kernel

theorem room {y : ℚ} (hy : AcceptedRate ExRoot.fee [o] [c] y) : NonBinding Config.default ExRoot.fee [o] [c] y :=
  nonBinding_two input (by decide +kernel) (by decide +kernel) (by decide +kernel) (by decide +kernel) (by decide +kernel) (by decide +kernel) hy

theorem tradable {y : ℚ} : AcceptedRate ExRoot.fee [o] [c] y ↔ 500 / 999 ≤ y ∧ y ≤ 999 / 500 := by
  have e1 : o.maxXrate * (1 - ExRoot.fee.value) = 999 / 500 := by decide +kernel
  have e2 : 1 / (c.maxXrate * (1 - ExRoot.fee.value)) = 500 / 999 := by decide +kernel
  have hf : ExRoot.fee.value < 1 := by decide +kernel
  have hc : 0 < c.maxXrate := by decide +kernel
  unfold AcceptedRate AcceptsB
  simp only [List.mem_singleton, exists_eq_left, e1]
  constructor
  · rintro ⟨p, h1, h2⟩
    rw [acceptsS_iff hf p hc, e2] at h2
    exact ⟨h2, h1⟩
  · rintro ⟨h1, h2⟩
    have p : 0 < y := lt_of_lt_of_le (by norm_num) h1
    refine ⟨p, h2, ?_⟩
    rw [acceptsS_iff hf p hc, e2]
    exact h1

/-- The value of the example book in closed form. -/
theorem value {y w : ℚ} (hy : AcceptedRate ExRoot.fee [o] [c] y) (hw : ValueAt Config.default ExRoot.fee [o] [c] y w) :
    w = -50000 - 999000 + (99900 + 500000 + 200000 + 100000 * (1000 / 999 - 999 / 1000) / 1000000000000000000 / 2) * (1 / y) -
      200000 / (999 / 500) * (1 / y) ^ 2 := by
  obtain ⟨t1, t2⟩ := tradable.1 hy
  have py := hy.1
  have hv := solverObjective_iff.2 hw
  have h := input
  have e0 : (1 : ℚ) - ExRoot.fee.value = 999 / 1000 := by decide +kernel
  have eo : o.maxSell = 100000 := by decide +kernel
  have ec : c.maxSell = 1000000 := by decide +kernel
  have xo : o.maxXrate = 2 := by decide +kernel
  have xc : c.maxXrate = 2 := by decide +kernel
  have hR : Region ExRoot.fee [o] [c] [o] [c] (500 / 999) (999 / 500) :=
    ⟨by norm_num, by norm_num, ⟨[], by simp, by simp⟩, ⟨[], by simp, by simp⟩, by decide +kernel, by decide +kernel, by simp, by simp⟩
  have okB' : ∀ a ∈ [o], okB (1 - ExRoot.fee.value) y a := by
    intro a ha; rw [List.mem_singleton] at ha; subst ha
    exact ⟨by rw [xo]; norm_num, by rw [eo]; norm_num, by rw [xo, e0]; linarith⟩
  have okS' : ∀ a ∈ ([] ++ c :: [] : List Order), okS (1 - ExRoot.fee.value) y a := by
    intro a ha; simp only [List.nil_append, List.mem_singleton] at ha; subst ha
    refine ⟨by rw [xc]; norm_num, by rw [ec]; norm_num, ?_⟩
    rw [xc, e0, div_le_iff₀ py]; linarith
  have hfp : 0 < Config.default.feeTokenPrice := by decide +kernel
  have up := upper3 (U := []) (F := []) (p := c) (B := [o]) (x := y) (val := w)
    ⟨h.minPos, py, h.feeLt, h.limit, h.idsB, h.idsS⟩ hfp (by decide +kernel) okB' okS' (by simp) hv
  have ts : totSell [o] = 100000 := by simp [totSell, eo]
  have lo := lower h (by decide +kernel) hR t1 t2 (room hy) (fillAll_fst [o])
    (fillFrom_fst [] [] c (totSell [o] / (y * (1 - ExRoot.fee.value)) - totSell []))
    (fillAll_range (by intro a ha; rw [List.mem_singleton] at ha; subst ha; rw [eo]; norm_num))
    (fillFrom_range (by intro a ha; simp only [List.nil_append, List.mem_singleton] at ha; subst ha; rw [ec]; norm_num)
      (by rw [ts, e0]; simp [totSell]; positivity)
      (by rw [ts, e0, ec]; simp only [totSell, List.map_nil, List.sum_nil, sub_zero]; rw [div_le_iff₀ (by positivity)]; linarith))
    (by rw [fillFrom_snd, fillAll_snd, e0]; field_simp; ring) hv
  have e := le_antisymm up lo
  rw [pattern3_eq (by rw [e0]; norm_num) hfp py okS' okB', e0, ts] at e
  have fp : (Config.default.feeTokenPrice : ℚ) = 1000000000000000000 := by decide +kernel
  rw [e, fp]
  simp only [totSell, totDiv, List.map_cons, List.map_nil, List.sum_cons, List.sum_nil, eo, ec, xo, xc]
  ring

theorem peak : SinglePeak Config.default ExRoot.fee [o] [c] := by
  intro x y z vx vy vz hx hz h1 h2 ex ey ez
  have hy := hx.between input.feeLt (fun a ha => (input.ordS a ha).1) hz h1.le h2.le
  have vx := value hx ex
  have vy := value hy ey
  have vz := value hz ez
  have px := hx.1
  have py := hy.1
  have k1 : 1 / y < 1 / x := one_div_lt_one_div_of_lt px h1
  have k2 : 1 / z < 1 / y := one_div_lt_one_div_of_lt py h2
  rw [vx, vy, vz]
  generalize 1 / x = p at *
  generalize 1 / y = q at *
  generalize 1 / z = t at *
  rw [min_lt_iff]
  by_contra hc
  push Not at hc
  obtain ⟨c1, c2⟩ := hc
  nlinarith [mul_pos (sub_pos.2 k1) (sub_pos.2 k2)]

end ExAllRates

/-- A book with one order on each side to which `C104_single_peak` and `C104_two_orders` apply: the search returns a rate, all rates between
about 1/2 and 2 are tradable, and the value has a single peak. -/
example : ∃ r obj, findBestXrate Config.default ExLocal.sqrt [ExAllRates.o] [ExAllRates.c] ExRoot.fee = .ok (some (r, obj)) ∧ 0 < r ∧
    SinglePeak Config.default ExRoot.fee [ExAllRates.o] [ExAllRates.c] ∧ AcceptedRate ExRoot.fee [ExAllRates.o] [ExAllRates.c] 1 ∧
    AcceptedRate ExRoot.fee [ExAllRates.o] [ExAllRates.c] (3 / 2) ∧ ∃ v, ValueAt Config.default ExRoot.fee [ExAllRates.o] [ExAllRates.c] 1 v ∧
      v ≤ obj + (1 / 1000) ^ 2 * (100000 / 1 + 4 * 1000000) := by
  obtain ⟨res, e, ⟨⟨r, obj⟩, rm, hpos⟩⟩ := exists_of_pyCheck
    (x := findBestXrate Config.default ExLocal.sqrt [ExAllRates.o] [ExAllRates.c] ExRoot.fee) (p := fun res => ∃ p ∈ res, 0 < p.1) (by decide +kernel)
  cases rm
  have t1 : AcceptedRate ExRoot.fee [ExAllRates.o] [ExAllRates.c] 1 := ExAllRates.tradable.2 (by norm_num)
  obtain ⟨v, hv, _⟩ := exists_of_pyCheck (x := solverObjective Config.default ExRoot.fee [ExAllRates.o] [ExAllRates.c] 1) (p := fun _ => True) (by decide +kernel)
  refine ⟨r, obj, e, hpos, ExAllRates.peak, t1, ExAllRates.tradable.2 (by norm_num), v, solverObjective_iff.1 hv, ?_⟩
  exact C104_two_orders ExAllRates.input (by decide +kernel) (by norm_num) (ExLocal.sqrt_accurate.roots _ _ _) e (by decide +kernel) (by decide +kernel)
    (by decide +kernel) (by decide +kernel) (by decide +kernel) t1 (solverObjective_iff.1 hv)

end Dex
