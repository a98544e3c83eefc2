import Verif.Props.Outcome
import Verif.Props.Price
import Verif.Props.Errors
import Verif.Props.ExtraOrder
import Verif.Props.Frame

/-! # Property C89: two users whose limits cross trade -/

namespace Dex

namespace Spec

/-- The two orders leave room for an integer price of `S`: the order `o` selling `S` and the order `c` buying it both accept all of at least
one unit of prices, the fee token having the fixed price `P`. -/
def PriceRoom (P : ℚ) (fee : Fee) (o c : Order) : Prop :=
  P / (o.maxXrate * (1 - fee.value)) + 1 ≤ P * (c.maxXrate * (1 - fee.value))

/-- The two orders are large: what either is ready to exchange at its limit exceeds the minimum tradable amount `m`, in both tokens, by
what rounding to integers may take. -/
def LargeOrders (m : ℚ) (o c : Order) : Prop :=
  m + (o.maxXrate + 2) ≤ min o.maxSell (c.maxSell / c.maxXrate) ∧
    m * o.maxXrate + (o.maxXrate + 2) ≤ min o.maxSell (c.maxSell / c.maxXrate)

instance (P : ℚ) (fee : Fee) (o c : Order) : Decidable (PriceRoom P fee o c) := by unfold PriceRoom; infer_instance
instance (m : ℚ) (o c : Order) : Decidable (LargeOrders m o c) := by unfold LargeOrders; infer_instance

end Spec

open Spec

theorem Spec.PriceRoom.matchable {P : ℚ} {fee : Fee} {o c : Order} (hP : 0 < P) (hf : fee.value < 1) (ho : 0 < o.maxXrate)
    (h : PriceRoom P fee o c) : Matchable fee o c := by
  have hφ : 0 < 1 - fee.value := by linarith
  have h0 := mul_pos ho hφ
  refine ⟨o.maxXrate * (1 - fee.value), h0, le_refl _, ?_⟩
  unfold PriceRoom at h
  rw [div_le_iff₀ h0]
  have h1 : P / (o.maxXrate * (1 - fee.value)) ≤ P * (c.maxXrate * (1 - fee.value)) := by linarith
  rw [div_le_iff₀ h0] at h1
  have : P * 1 ≤ P * (c.maxXrate * (1 - fee.value) * (o.maxXrate * (1 - fee.value))) := by linarith
  exact le_of_mul_le_mul_left this hP

/-- The rate found for two orders is accepted by both. -/
theorem twoOrders_rate {cfg : Config} {sqrt : ℚ → Py ℚ} {fee : Fee} {o c : Order} {x v : ℚ} (h : SearchInput cfg fee [o] [c])
    (hm : Matchable fee o c) (hr : findBestXrate cfg sqrt [o] [c] fee = .ok (some (x, v))) : 0 < x ∧ AcceptsB fee x o ∧ AcceptsS fee x c := by
  have hφ : 0 < 1 - fee.value := by have := h.feeLt; linarith
  obtain ⟨x', v', b', s', x0, v0, ivs, e, hp, _, hi, hx, _, hl, _⟩ := C16_attained_maximum h hr
  cases e
  have ho := (h.ordB o (by simp)).1
  have hc := (h.ordS c (by simp)).1
  refine ⟨hx, ?_⟩
  rcases hl with (⟨a, ha, rfl⟩ | ⟨a, ha, rfl⟩) | ⟨d, hd, d1, d2⟩
  · rw [List.mem_singleton] at ha; subst ha
    refine ⟨le_refl _, ?_⟩
    unfold AcceptsS
    rw [div_le_iff₀ hx]
    have := (matchable_iff h.feeLt ho hc).1 hm
    linarith
  · rw [List.mem_singleton] at ha; subst ha
    refine ⟨?_, ?_⟩
    · unfold AcceptsB
      rw [div_le_iff₀ (mul_pos hc hφ)]
      have := (matchable_iff h.feeLt ho hc).1 hm
      linarith
    · unfold AcceptsS; rw [one_div_one_div]
  · have hpi := h.prune (by simp) (by simp)
    obtain ⟨b1, s1, e1, sb, ss, mb, ms⟩ := C14_exact hpi
    rw [hp] at e1; cases e1
    have hob : o ∈ b' := (mb o).2 ⟨by simp, c, by simp, hm⟩
    have hpi' := hpi.pruned hp (List.ne_nil_of_mem hob)
    obtain ⟨ivs', e2, hs2⟩ := C15_sound (some x0) (⟨hpi'.feeLt, hpi'.neB, hpi'.neS, hpi'.posB, hpi'.posS⟩ : IntervalInput fee b' s')
    rw [hi] at e2; cases e2
    obtain ⟨p1, p2, p3, p4, _, _, p5⟩ := hs2 d hd
    obtain ⟨q1, q2⟩ := p5 x d1 d2
    constructor
    · obtain ⟨a, ha⟩ := List.exists_mem_of_ne_nil _ p3
      have := List.mem_filter.1 (q1.mem_iff.1 ha)
      have ha := sb.subset this.1
      rw [List.mem_singleton] at ha; subst ha
      exact of_decide_eq_true this.2
    · obtain ⟨a, ha⟩ := List.exists_mem_of_ne_nil _ p4
      have := List.mem_filter.1 (q2.mem_iff.1 ha)
      have ha := ss.subset this.1
      rw [List.mem_singleton] at ha; subst ha
      exact of_decide_eq_true this.2

theorem nrAccepting_two {fee : Fee} {o c : Order} {x : ℚ} : 2 ≤ NrAccepting fee [o] [c] x ↔ AcceptsB fee x o ∧ AcceptsS fee x c := by
  unfold NrAccepting
  by_cases h1 : AcceptsB fee x o <;> by_cases h2 : AcceptsS fee x c <;> simp [h1, h2]

/-- The integer price selected for two orders with room is accepted by both. -/
theorem twoOrders_price {P x : ℚ} {fee : Fee} {o c : Order} {k : ℤ} (hP : 0 < P) (hx : 0 < x) (hf : fee.value < 1) (ho : 0 < o.maxXrate)
    (hroom : PriceRoom P fee o c) (ha : AcceptsB fee x o ∧ AcceptsS fee x c)
    (hk : computeSBuyTokenPrice P x [o] [c] fee = .ok k) : 1 ≤ k ∧ AcceptsB fee (P / k) o ∧ AcceptsS fee (P / k) c := by
  have hφ : 0 < 1 - fee.value := by linarith
  have h0 := mul_pos ho hφ
  have hk1 := (C20_close hP hx hk).1
  have h1 : 1 ≤ P / x := by
    by_contra hlt
    rw [not_le] at hlt
    have : ⌊P / x⌋ = 0 := by
      rw [Int.floor_eq_iff]; constructor <;> simp [(div_pos hP hx).le, hlt]
    rw [(C20_zero_division_iff hP hx).2 this] at hk; cases hk
  obtain ⟨r, hr, _, _, g1, g2⟩ := C20_selected_price (b := [o]) (s := [c]) (fee := fee) hP hx h1
  rw [hr] at hk; cases hk
  refine ⟨hk1, nrAccepting_two.1 ?_⟩
  have hd1 : (1 : ℤ) ≤ ⌊P / x⌋ := Int.le_floor.2 (by exact_mod_cast h1)
  have hu1 : (1 : ℤ) ≤ ⌈P / x⌉ := hd1.trans (Int.floor_le_ceil _)
  have acc : ∀ n : ℤ, 1 ≤ n → P / (o.maxXrate * (1 - fee.value)) ≤ n → (n : ℚ) ≤ P * (c.maxXrate * (1 - fee.value)) →
      2 ≤ NrAccepting fee [o] [c] (P / n) := by
    intro n hn h1 h2
    have hn0 : (0 : ℚ) < n := by exact_mod_cast (by omega : 0 < n)
    refine nrAccepting_two.2 ⟨?_, ?_⟩
    · unfold AcceptsB
      rw [div_le_iff₀ h0] at h1
      rw [div_le_iff₀ hn0]; linarith
    · unfold AcceptsS
      rw [one_div_div, div_le_iff₀ hP]; linarith
  -- the exact price lies between the limits
  have a1 : P / (o.maxXrate * (1 - fee.value)) ≤ P / x := div_le_div_of_nonneg_left hP.le hx ha.1
  have a2 : P / x ≤ P * (c.maxXrate * (1 - fee.value)) := by
    have := mul_le_mul_of_nonneg_left ha.2 hP.le
    rwa [mul_one_div] at this
  unfold PriceRoom at hroom
  by_cases hfl : P / (o.maxXrate * (1 - fee.value)) ≤ (⌊P / x⌋ : ℤ)
  · exact (acc _ hd1 hfl ((Int.floor_le _).trans a2)).trans g1
  · rw [not_le] at hfl
    refine (acc _ hu1 (a1.trans (Int.le_ceil _)) ?_).trans g2
    have h2 : (⌈P / x⌉ : ℤ) ≤ ⌊P / x⌋ + 1 := Int.ceil_le_floor_add_one _
    have h3 : (⌈P / x⌉ : ℚ) ≤ ⌊P / x⌋ + 1 := by exact_mod_cast h2
    linarith

theorem fillAmount_singleton {elig : Order → Prop} [DecidablePred elig] {cap : Order → ℚ} {o : Order} {t : ℚ} (he : elig o) (h0 : 0 ≤ t) (ht : t ≤ cap o) :
    fillAmount elig cap [o] t o = t := by
  unfold fillAmount
  have hn : ¬ Before o o := fun h => h.asymm h
  rw [if_pos he]
  simp [hn, h0, ht]

/-- What two large orders can exchange at a rate both accept: all the first can sell or all the second can buy. -/
theorem twoOrders_volume {cfg : Config} {x t m : ℚ} {fee : Fee} {o c : Order} (hx : 0 < x) (hf : fee.value < 1) (hf0 : 0 ≤ fee.value)
    (ho : 0 < o.maxXrate) (hc : 0 < c.maxXrate) (hm0 : 0 < cfg.minRationalTradable) (hm : m = cfg.minRationalTradable) (hn : 2 ≤ cfg.maxNrExec)
    (hl : LargeOrders m o c) (ha : AcceptsB fee x o ∧ AcceptsS fee x c) (hg : Greatest cfg x fee cfg.maxNrExec [o] [c] t) :
    EligibleB cfg x fee o ∧ EligibleS cfg x fee c ∧ min o.maxSell (c.maxSell / c.maxXrate) ≤ t ∧ t ≤ o.maxSell ∧ t ≤ maxBuyS x fee c ∧
      x * (1 - fee.value) ≤ o.maxXrate := by
  have hφ : 0 < 1 - fee.value := by linarith
  have hφ1 : 1 - fee.value ≤ 1 := by linarith
  obtain ⟨aB, aS⟩ := ha
  unfold AcceptsB at aB
  unfold AcceptsS at aS
  have hmq : 0 < m := by rw [hm]; exact_mod_cast hm0
  obtain ⟨l1, l2⟩ := hl
  set w := min o.maxSell (c.maxSell / c.maxXrate) with hw
  have w1 : w ≤ o.maxSell := min_le_left _ _
  have w2 : w ≤ c.maxSell / c.maxXrate := min_le_right _ _
  have hw0 : 0 < w := by linarith
  have hcs : 0 < c.maxSell := by
    have := hw0.trans_le w2
    rwa [div_pos_iff_of_pos_right hc] at this
  have xo : x * (1 - fee.value) ≤ o.maxXrate := by
    have h1 : x * (1 - fee.value) ≤ o.maxXrate * (1 - fee.value) * (1 - fee.value) := mul_le_mul_of_nonneg_right aB hφ.le
    have h2 : o.maxXrate * (1 - fee.value) * (1 - fee.value) ≤ o.maxXrate * 1 * 1 := by gcongr
    linarith
  have xo2 : x / (1 - fee.value) ≤ o.maxXrate := by rw [div_le_iff₀ hφ]; exact aB
  have xφ : 0 < x * (1 - fee.value) := mul_pos hx hφ
  have xc : 1 / c.maxXrate ≤ x * (1 - fee.value) := by
    rw [div_le_iff₀ hx] at aS
    rw [div_le_iff₀ hc]; linarith
  have capS : w ≤ maxBuyS x fee c := by
    unfold maxBuyS
    have : c.maxSell / c.maxXrate ≤ c.maxSell * (x * (1 - fee.value)) := by
      rw [← mul_one_div]; exact mul_le_mul_of_nonneg_left xc hcs.le
    linarith
  have mw : m ≤ w := by linarith
  have mow : m * o.maxXrate ≤ w := by linarith
  -- an amount of the traded token of at least `w` is worth at least `m` of the fee token
  have worth : ∀ u, w ≤ u → m ≤ u / x * (1 - fee.value) ∧ m ≤ u / x / (1 - fee.value) := by
    intro u hu
    have h1 : m * (x / (1 - fee.value)) ≤ u := (mul_le_mul_of_nonneg_left xo2 hmq.le).trans (mow.trans hu)
    have h2 : m * (x * (1 - fee.value)) ≤ u := (mul_le_mul_of_nonneg_left xo hmq.le).trans (mow.trans hu)
    constructor
    · rw [mul_div_assoc', div_le_iff₀ hφ] at h1
      rw [div_mul_eq_mul_div, le_div_iff₀ hx]; linarith
    · rw [div_div, le_div_iff₀ xφ]; exact h2
  have elB : EligibleB cfg x fee o := ⟨aB, by rw [← hm]; linarith, by rw [← hm]; exact (worth _ w1).1⟩
  have elS : EligibleS cfg x fee c := by
    refine ⟨aS, ?_, by rw [← hm]; exact mw.trans capS⟩
    rw [← hm]
    have := (worth _ capS).2
    unfold maxBuyS at this
    have e : c.maxSell * x * (1 - fee.value) / x / (1 - fee.value) = c.maxSell := by field_simp
    rwa [e] at this
  have fB := hg.admissible.fitB
  have fS := hg.admissible.fitS
  simp only [List.filter_cons, elB, elS, decide_true, if_true, List.filter_nil, List.map_cons, List.map_nil, List.sum_cons, List.sum_nil, add_zero] at fB fS
  have toB : ∀ u, u * ((1 - fee.value) / x) ≤ maxBuyB x fee o ↔ u ≤ o.maxSell := by
    intro u
    unfold maxBuyB
    rw [div_mul_eq_mul_div, mul_div_assoc', div_le_div_iff_of_pos_right hx, mul_le_mul_iff_left₀ hφ]
  refine ⟨elB, elS, ?_, (toB t).1 fB, fS, xo⟩
  have hwB : w * ((1 - fee.value) / x) ≤ maxBuyB x fee o := (toB w).2 w1
  have hwB0 : 0 ≤ w * ((1 - fee.value) / x) := by positivity
  have eB := fillAmount_singleton (elig := EligibleB cfg x fee) (cap := maxBuyB x fee) elB hwB0 hwB
  have eS := fillAmount_singleton (elig := EligibleS cfg x fee) (cap := maxBuyS x fee) elS hw0.le capS
  apply hg.greatest
  refine ⟨hw0.le, ?_, ?_, ?_, ?_, ?_⟩
  · simpa [elB] using hwB
  · simpa [elS] using capS
  · have h1 : ([o].filter (fun a => decide (0 < fillAmount (EligibleB cfg x fee) (maxBuyB x fee) [o] (w * ((1 - fee.value) / x)) a))).length ≤ 1 :=
      List.length_filter_le _ _
    have h2 : ([c].filter (fun o => decide (0 < fillAmount (EligibleS cfg x fee) (maxBuyS x fee) [c] w o))).length ≤ 1 := List.length_filter_le _ _
    omega
  · intro a ha q hq _
    rw [List.mem_singleton] at ha; subst ha
    rw [eB] at hq
    rw [← hm, hq]
    refine ⟨?_, ?_⟩
    · have := (worth w le_rfl).1
      rw [mul_div_assoc']
      rwa [div_mul_eq_mul_div] at this
    · have e : w * ((1 - fee.value) / x) * x / (1 - fee.value) = w := by field_simp
      rw [e]; exact mw
  · intro a ha q hq _
    rw [List.mem_singleton] at ha; subst ha
    rw [eS] at hq
    rw [← hm, hq]
    exact ⟨mw, (worth w le_rfl).2⟩

theorem forall₂_two {α β : Type} {R : α → β → Prop} {a b : α} {l : List β} (h : List.Forall₂ R [a, b] l) : ∃ a' b', l = [a', b'] ∧ R a a' ∧ R b b' := by
  cases h with
  | cons h1 h =>
    cases h with
    | cons h2 h => cases h; exact ⟨_, _, rfl, h1, h2⟩

/-- Rounding the exchange of two large orders succeeds, and both stay executed. -/
theorem twoOrders_rounding {cfg : Config} {ext : Ext} {S : Token} {o c : Order} {b1 s1 : List Order} {fee : Fee} {k : ℤ} {t m : ℚ} {sol : Solution}
    (h : SearchInput cfg fee [o] [c]) (hf0 : 0 ≤ fee.value) (hcfg : 1 ≤ cfg.minTradable ∧ cfg.minTradable ≤ cfg.minRationalTradable - 1)
    (hn : 2 ≤ cfg.maxNrExec) (hbr : ∀ E, Branching E (ext.branch E)) (hSF : S ≠ fee.token) (hoT : o.buyToken = fee.token ∧ o.sellToken = S)
    (hcT : c.buyToken = S ∧ c.sellToken = fee.token) (hid : o.id ≠ c.id) (hk : 1 ≤ k) (hm : m = cfg.minRationalTradable) (hl : LargeOrders m o c)
    (ha : AcceptsB fee (cfg.feeTokenPrice / k) o ∧ AcceptsS fee (cfg.feeTokenPrice / k) c)
    (hfill : Filled cfg (cfg.feeTokenPrice / k) fee cfg.maxNrExec [o] [c] t b1 s1)
    (hr : RoundedTo cfg ext fee [(fee.token, (cfg.feeTokenPrice : ℚ)), (S, (k : ℚ))] (b1 ++ s1) sol) :
    0 < t ∧ ∃ o' c', sol.orders = [o', c'] ∧ SameButExec o o' ∧ SameButExec c c' ∧ 0 < o'.buy ∧ 0 < o'.sell ∧ 0 < c'.buy ∧ 0 < c'.sell := by
  have hP : (0 : ℚ) < cfg.feeTokenPrice := by have := h.feePrice; exact_mod_cast this
  have hk0 : (0 : ℚ) < k := by exact_mod_cast (by omega : 0 < k)
  have hx : (0 : ℚ) < cfg.feeTokenPrice / k := div_pos hP hk0
  have hφ : 0 < 1 - fee.value := by have := h.feeLt; linarith
  have ho := (h.ordB o (by simp)).1
  have hc := (h.ordS c (by simp)).1
  obtain ⟨elB, elS, v1, v2, v3, xo⟩ := twoOrders_volume hx h.feeLt hf0 ho hc h.minPos hm hn hl ha hfill.volume
  have hff := feePairFills_of h hSF (by simpa using hoT) (by simpa using hcT) (by simpa using hid) hk hfill
  obtain ⟨l1, l2⟩ := hl
  set w := min o.maxSell (c.maxSell / c.maxXrate) with hw
  have hmq : 2 ≤ m := by
    have : 2 ≤ cfg.minRationalTradable := by omega
    rw [hm]; exact_mod_cast this
  have hmt : (cfg.minTradable : ℚ) ≤ m - 1 := by rw [hm]; exact_mod_cast hcfg.2
  have ht0 : 0 < t := by linarith
  refine ⟨ht0, ?_⟩
  set x : ℚ := (cfg.feeTokenPrice : ℚ) / k with hxdef
  -- the exact fills
  have hwB : t * ((1 - fee.value) / x) ≤ maxBuyB x fee o := by
    unfold maxBuyB
    rw [div_mul_eq_mul_div, mul_div_assoc', div_le_div_iff_of_pos_right hx, mul_le_mul_iff_left₀ hφ]; exact v2
  have eB : fillB cfg x fee [o] t o = t * ((1 - fee.value) / x) := fillAmount_singleton elB (by positivity) hwB
  have eS : fillS cfg x fee [c] t c = t := fillAmount_singleton elS ht0.le v3
  have hb1 : b1 = [o.withBuy (t * ((1 - fee.value) / x))] := by rw [hfill.eqB, List.map_singleton, eB]
  have hs1 : s1 = [c.withBuy t] := by rw [hfill.eqS, List.map_singleton, eS]
  subst hb1 hs1
  simp only [List.singleton_append] at hff hr
  obtain ⟨res, e⟩ : ∃ res, roundSolution cfg ext.branch [(fee.token, (cfg.feeTokenPrice : ℚ)), (S, (k : ℚ))]
      [o.withBuy (t * ((1 - fee.value) / x)), c.withBuy t] fee = .ok (true, res) := by
    obtain ⟨os, _, hos, _⟩ := firstPass hff.input
    obtain ⟨o', c', rfl, r1, r2⟩ := forall₂_two hos
    obtain ⟨s1', s2'⟩ := hff.input.intPrices.of hff.priceS
    obtain ⟨f1', f2'⟩ := hff.input.intPrices.of hff.priceF
    have tk : o'.buyToken = fee.token ∧ o'.sellToken = S ∧ c'.buyToken = S ∧ c'.sellToken = fee.token ∧ c'.maxSell = c.maxSell := by
      rw [r1.1, r2.1]; exact ⟨hoT.1, hoT.2, hcT.1, hcT.2, rfl⟩
    obtain ⟨t1, t2, t3, t4, t5⟩ := tk
    obtain ⟨pb, ps, g1, g2, g3⟩ := r1.2.2
    rw [t1] at g1; rw [t2] at g2
    rw [priceOf_unique g1 hff.priceF, priceOf_unique g2 hff.priceS, r1.2.1] at g3
    have g4 : c'.buy = (⌊t⌋ : ℤ) := r2.2.1
    change o'.sell = (uniformSell (cfg.feeTokenPrice : ℚ) k fee (⌊t * ((1 - fee.value) / x)⌋ : ℤ) : ℤ) at g3
    have im : sold [o', c'] S - bought [o', c'] S = o'.sell - c'.buy := by
      unfold sold bought
      simp [t1, t2, t3, t4, Ne.symm hSF]
    -- what the first order sells after rounding
    have u1 : o'.sell ≤ t := by
      rw [g3]
      refine (uniformSell_le s1' s2' _).trans ?_
      have := Int.floor_le (t * ((1 - fee.value) / x))
      calc (⌊t * ((1 - fee.value) / x)⌋ : ℚ) * cfg.feeTokenPrice / (1 - fee.value) / k
          ≤ t * ((1 - fee.value) / x) * cfg.feeTokenPrice / (1 - fee.value) / k := by gcongr
        _ = t := by rw [hxdef]; field_simp
    have u2 : t - (o.maxXrate + 1) ≤ o'.sell := by
      rw [g3, uniformSell_eq s1' s2']
      have h1 := Int.lt_floor_add_one (t * ((1 - fee.value) / x))
      have h2 := Int.lt_floor_add_one ((⌊t * ((1 - fee.value) / x)⌋ : ℚ) * cfg.feeTokenPrice / (1 - fee.value) / k)
      have h3 : (t * ((1 - fee.value) / x) - 1) * cfg.feeTokenPrice / (1 - fee.value) / k ≤
          (⌊t * ((1 - fee.value) / x)⌋ : ℚ) * cfg.feeTokenPrice / (1 - fee.value) / k := by gcongr; linarith
      have h4 : (t * ((1 - fee.value) / x) - 1) * cfg.feeTokenPrice / (1 - fee.value) / k = t - x / (1 - fee.value) := by
        rw [hxdef]; field_simp
      have h5 : x / (1 - fee.value) ≤ o.maxXrate := by rw [div_le_iff₀ hφ]; exact ha.1
      linarith
    have hσ : m ≤ o'.sell ∧ m * o.maxXrate ≤ o'.sell := by constructor <;> linarith
    refine C59_succeeds_with_room hff.input hcfg hff.feasible hbr hSF hff.cls (.cons r1 (.cons r2 .nil))
      ⟨c', by simp, t3, ?_, (k : ℚ), (cfg.feeTokenPrice : ℚ), by rw [t3]; exact hff.priceS, by rw [t4]; exact hff.priceF, ?_, ?_, ?_⟩
    · rw [g4]
      have : (1 : ℤ) ≤ ⌊t⌋ := Int.le_floor.2 (by push_cast; linarith)
      exact_mod_cast (by omega : 0 < ⌊t⌋)
    · rw [im]; linarith [hσ.1]
    · rw [im, add_sub_cancel, uniformSell_eq f1' f2', Int.le_floor]
      have e1 : o'.sell * k / (1 - fee.value) / cfg.feeTokenPrice = o'.sell / (x * (1 - fee.value)) := by rw [hxdef]; field_simp
      rw [e1, le_div_iff₀ (mul_pos hx hφ)]
      calc (cfg.minTradable : ℚ) * (x * (1 - fee.value)) ≤ m * o.maxXrate := by
            have : (cfg.minTradable : ℚ) ≤ m := by linarith
            have := mul_pos hx hφ
            gcongr
        _ ≤ o'.sell := hσ.2
    · rw [im, add_sub_cancel, t5]
      refine (uniformSell_le f1' f2' _).trans ?_
      have e1 : o'.sell * k / (1 - fee.value) / cfg.feeTokenPrice = o'.sell / (x * (1 - fee.value)) := by rw [hxdef]; field_simp
      rw [e1, div_le_iff₀ (mul_pos hx hφ)]
      unfold maxBuyS at v3
      linarith
  obtain ⟨ok, res', e', rfl⟩ := hr
  rw [e] at e'
  cases e'
  rw [if_pos rfl]
  obtain ⟨h28, _⟩ := C28_same_orders_executed hff.input hcfg hff.feasible e
  obtain ⟨o', c', rfl, r1, r2⟩ := forall₂_two h28
  have hbp : 0 < t * ((1 - fee.value) / x) := by positivity
  exact ⟨o', c', rfl, by have := r1.1; unfold SameButExec at this ⊢; exact this, by have := r2.1; unfold SameButExec at this ⊢; exact this,
    r1.2.1.2 hbp, r1.2.2.2 hbp, r2.2.1.2 ht0, r2.2.2.2 ht0⟩

theorem twoOrders_outcome {cfg : Config} {ext : Ext} {S : Token} {o c : Order} {fee : Fee} {sol : Solution}
    (h : SearchInput cfg fee [o] [c]) (hf0 : 0 ≤ fee.value) (hcfg : 1 ≤ cfg.minTradable ∧ cfg.minTradable ≤ cfg.minRationalTradable - 1)
    (hn : 2 ≤ cfg.maxNrExec) (hbr : ∀ E, Branching E (ext.branch E)) (hSF : S ≠ fee.token) (hoT : o.buyToken = fee.token ∧ o.sellToken = S)
    (hcT : c.buyToken = S ∧ c.sellToken = fee.token) (hid : o.id ≠ c.id) (hroom : PriceRoom cfg.feeTokenPrice fee o c)
    (hl : LargeOrders cfg.minRationalTradable o c) (hr : FeePairOutcome cfg ext fee S [o] [c] none sol) :
    ∃ o' c', sol.orders = [o', c'] ∧ SameButExec o o' ∧ SameButExec c c' ∧ 0 < o'.buy ∧ 0 < o'.sell ∧ 0 < c'.buy ∧ 0 < c'.sell := by
  have hP : (0 : ℚ) < cfg.feeTokenPrice := by have := h.feePrice; exact_mod_cast this
  have ho := (h.ordB o (by simp)).1
  have hc := (h.ordS c (by simp)).1
  obtain ⟨x, k, t, b1, s1, ⟨hx, _, hx2⟩, hk, hk2, hfill, hres⟩ := hr
  obtain ⟨v, hv⟩ := hx2 rfl
  obtain ⟨_, a⟩ := twoOrders_rate h (hroom.matchable hP h.feeLt ho) hv
  obtain ⟨_, a'⟩ := twoOrders_price hP hx h.feeLt ho hroom a hk2
  rcases hres with ⟨ht, _⟩ | ⟨_, hro⟩
  · have hv := (twoOrders_volume (div_pos hP (by exact_mod_cast (by omega : 0 < k))) h.feeLt hf0 ho hc h.minPos rfl hn hl a' hfill.volume).2.2.1
    have hm : (0 : ℚ) < cfg.minRationalTradable := by have := h.minPos; exact_mod_cast this
    have := hl.1
    linarith
  · exact (twoOrders_rounding h hf0 hcfg hn hbr hSF hoT hcT hid hk rfl hl a' hfill hro).2

theorem matchableParts_two {fee : Fee} {o c : Order} {b' s' : List Order} (h : MatchableParts fee [o] [c] b' s') (hb : b' ≠ []) (hs : s' ≠ []) :
    b' = [o] ∧ s' = [c] := by
  have key : ∀ {l : List Order} {a : Order}, l.Sublist [a] → l ≠ [] → l = [a] := by
    intro l a hl hne
    rcases List.sublist_singleton.1 hl with h | h
    · exact absurd h hne
    · exact h
  exact ⟨key h.subB hb, key h.subS hs⟩

/-- C89. Two orders on a pair with the fee token as its first token, whose limits leave room for an integer price and which are large: if the
rate search does not fail, the solution executes both. -/
theorem C89_two_orders {cfg : Config} {ext : Ext} {pair : Token × Token} {o c : Order} {f : List Order} {fee : Fee} {r : MatchResult}
    (h : SearchInput cfg fee [o] [c]) (hf0 : 0 ≤ fee.value) (hcfg : 1 ≤ cfg.minTradable ∧ cfg.minTradable ≤ cfg.minRationalTradable - 1)
    (hn : 2 ≤ cfg.maxNrExec) (hbr : ∀ E, Branching E (ext.branch E)) (hne : pair.1 ≠ pair.2) (hF : pair.1 = fee.token)
    (hoT : o.buyToken = pair.1 ∧ o.sellToken = pair.2) (hcT : c.buyToken = pair.2 ∧ c.sellToken = pair.1) (hid : o.id ≠ c.id)
    (hroom : PriceRoom cfg.feeTokenPrice fee o c) (hl : LargeOrders cfg.minRationalTradable o c)
    (hr : solveTokenPairAndFee cfg ext pair [o] [c] f fee none = .ok r) :
    ∃ o' c', r.sol.orders = [o', c'] ∧ SameButExec o o' ∧ SameButExec c c' ∧ 0 < o'.buy ∧ 0 < o'.sell ∧ 0 < c'.buy ∧ 0 < c'.sell := by
  have hP : (0 : ℚ) < cfg.feeTokenPrice := by have := h.feePrice; exact_mod_cast this
  rcases C61_fee_pair h (by simp) (by simp) (by simp) hne hF hr with ⟨hm, _⟩ | ⟨b', s', hm, hb, hs, hout⟩
  · exact absurd (hroom.matchable hP h.feeLt (h.ordB o (by simp)).1) (hm o (by simp) c (by simp))
  · obtain ⟨rfl, rfl⟩ := matchableParts_two hm hb hs
    exact twoOrders_outcome h hf0 hcfg hn hbr (fun e => hne (hF.trans e.symm)) (by rw [← hF]; exact hoT) (by rw [← hF]; exact hcT) hid hroom hl hout

/-- C89. The same if the fee token is the second token of the pair. -/
theorem C89_two_orders_second {cfg : Config} {ext : Ext} {pair : Token × Token} {o c : Order} {f : List Order} {fee : Fee} {r : MatchResult}
    (h : SearchInput cfg fee [o] [c]) (hf0 : 0 ≤ fee.value) (hcfg : 1 ≤ cfg.minTradable ∧ cfg.minTradable ≤ cfg.minRationalTradable - 1)
    (hn : 2 ≤ cfg.maxNrExec) (hbr : ∀ E, Branching E (ext.branch E)) (hne : pair.1 ≠ pair.2) (hF : pair.2 = fee.token)
    (hoT : o.buyToken = pair.1 ∧ o.sellToken = pair.2) (hcT : c.buyToken = pair.2 ∧ c.sellToken = pair.1) (hid : o.id ≠ c.id)
    (hroom : PriceRoom cfg.feeTokenPrice fee c o) (hl : LargeOrders cfg.minRationalTradable c o)
    (hr : solveTokenPairAndFee cfg ext pair [o] [c] f fee none = .ok r) :
    ∃ o' c', r.sol.orders = [c', o'] ∧ SameButExec o o' ∧ SameButExec c c' ∧ 0 < o'.buy ∧ 0 < o'.sell ∧ 0 < c'.buy ∧ 0 < c'.sell := by
  have hP : (0 : ℚ) < cfg.feeTokenPrice := by have := h.feePrice; exact_mod_cast this
  rcases C61_fee_pair_second h (by simp) (by simp) (by simp) hne hF hr with ⟨hm, _⟩ | ⟨b', s', hm, hb, hs, hout⟩
  · exfalso
    refine hm o (by simp) c (by simp) ?_
    have ho := (h.ordB o (by simp)).1
    have hc := (h.ordS c (by simp)).1
    have := (matchable_iff h.feeLt hc ho).1 (hroom.matchable hP h.feeLt hc)
    rw [matchable_iff h.feeLt ho hc]
    linarith
  · obtain ⟨rfl, rfl⟩ := matchableParts_two hm hb hs
    obtain ⟨c', o', e, h1, h2, h3, h4, h5, h6⟩ := twoOrders_outcome h.swap hf0 hcfg hn hbr (fun e => hne (e.trans hF.symm)) (by rw [← hF]; exact hcT)
      (by rw [← hF]; exact hoT) hid.symm hroom hl hout
    exact ⟨o', c', e, h2, h1, h5, h6, h3, h4⟩

/-- What the dump of a solution lists, in general: one entry per order with a positive sell amount. -/
theorem dump_entries {inst : Instance} {sol : Solution} {d : Dump} (hd : dumpSolution inst sol = .ok d) :
    d.orders.length = (sol.orders.filter (fun o => decide (0 < o.sell))).length ∧ ∀ e ∈ d.orders, ∃ q, 0 < q ∧ e.execSellAmount = some q := by
  unfold dumpSolution at hd
  simp only [bind_eq_ok] at hd
  obtain ⟨acc, _, m, _, es, he, e⟩ := hd
  cases e
  constructor
  · have := (mapE_eq_ok_forall₂.1 he).length_eq
    dsimp only
    rw [← this]
    exact ((List.perm_insertionSort _ _).filter _).length_eq
  · intro e hmem
    obtain ⟨o, ho, hoe⟩ := (mapE_ok_mem he).2 e hmem
    unfold dumpOrder at hoe
    obtain ⟨d0, _, hp⟩ := bind_eq_ok.1 hoe
    cases hp
    exact ⟨o.sell, of_decide_eq_true (List.mem_filter.1 ho).2, rfl⟩

/-- C89. The command for a pair with the fee token, without fee thresholds, on an instance whose orders on the pair are (after loading) two
large orders whose limits leave room for an integer price: it writes a solution executing both, or the rate search fails. -/
theorem C89_program {cfg : Config} {ext : Ext} {inst : Instance} {pair : Token × Token} {o c : Order} {f : List Order} {accounts : Accounts} {fee : Fee}
    (hi : GoodInstance inst) (hset : SolverSetting cfg ext pair inst.fee none) (hφ : 9 / 10 ≤ (1 - inst.fee.value) ^ 2)
    (hn : 2 ≤ cfg.maxNrExec) (hload : loadPairProblem cfg inst pair = .ok (accounts, { b := [o], s := [c], f }, fee))
    (hF : pair.1 = inst.fee.token) (hroom : PriceRoom cfg.feeTokenPrice inst.fee o c) (hl : LargeOrders cfg.minRationalTradable o c) :
    (∃ d, tokenPairMain cfg ext inst pair none = .ok d ∧ d.orders.length = 2 ∧ ∀ e ∈ d.orders, ∃ q, 0 < q ∧ e.execSellAmount = some q) ∨
      ∃ e, tokenPairMain cfg ext inst pair none = .error e ∧ SearchFailure ext.sqrt e := by
  cases hm : tokenPairMain cfg ext inst pair none with
  | error e => exact .inr ⟨e, rfl, C55_token_pair hi hset hφ hload (by simp) (by simp) hm⟩
  | ok d =>
    refine .inl ⟨d, rfl, ?_⟩
    unfold tokenPairMain at hm
    rw [hload, ok_bind] at hm
    obtain ⟨⟨sol, objs⟩, hsol, hd⟩ := bind_eq_ok.1 hm
    dsimp only at hsol hd
    obtain ⟨hlen, hex⟩ := dump_entries hd
    refine ⟨?_, hex⟩
    have h0 := hload
    unfold loadPairProblem at h0
    simp only [bind_eq_ok, pyAssert_eq_ok, exists_and_left, exists_const] at h0
    obtain ⟨os, h1, os', h2, _, e⟩ := h0
    have hl0 : loadProblem cfg inst = .ok (inst.accounts, os', inst.fee) := by
      unfold loadProblem; rw [h1, ok_bind, h2]; rfl
    obtain ⟨hp, hk, _, _⟩ := loaded_pool (by have := hset.cfgOk.minPos; omega) hi.balances hi.ints hi.sell hl0
    have hbk := bookOf_filter hp (forall₂_same_refl _) pair inst.fee _ (.inl rfl)
    simp only [pure_eq_ok, Except.ok.injEq, Prod.mk.injEq] at e
    obtain ⟨rfl, e, rfl⟩ := e
    rw [e] at hbk
    rw [C32_validation_never_fails hset hp hk hbk, economicLoop_single hset.noThresholds.avg hset.noThresholds.abs (by simp)] at hsol
    obtain ⟨r, hr, e2⟩ := bind_eq_ok.1 hsol
    simp only [pure_eq_ok, Except.ok.injEq, Prod.mk.injEq] at e2
    obtain ⟨rfl, _⟩ := e2
    have hs := hbk.search hp hset.cfgOk hset.feeLt
    have hoT := hbk.clsB o (by simp)
    have hcT := hbk.clsS c (by simp)
    have hid : o.id ≠ c.id := by
      intro e
      have hsame := (hbk.derB o (by simp)).eq_of_id hp (hbk.derS c (by simp)) e
      have : c.buyToken = o.buyToken := by rw [hsame]
      exact hset.tokens (by rw [← hoT.1, ← hcT.1, this])
    have hbr := fun E => (hset.branch E).1
    have hcfg := And.intro hset.cfgOk.minPos hset.cfgOk.slack
    rw [hlen]
    obtain ⟨o', c', e, _, _, _, p1, _, p2⟩ := C89_two_orders hs hset.feePos.le hcfg hn hbr hset.tokens hF hoT hcT hid hroom hl hr
    rw [e]; simp [p1, p2]

/-! The instance of the end-to-end test (tests/e2e/token-pair/has-non-trival-solution/driver-e2e-instance.json). -/

namespace ExDriver

def inst : Instance :=
  { accounts := [("0x90f8", [("token0", 3000000000000000000000)]), ("0xffcf", [("token1", 3000000000000000000000)])]
    orders :=
      [{ accountID := "0x90f8", sellToken := "token0", buyToken := "token1", sellAmount := 2000000000000000000000, buyAmount := 999000000000000000000 },
       { accountID := "0xffcf", sellToken := "token1", buyToken := "token0", sellAmount := 999000000000000000000, buyAmount := 1996000000000000000000 }]
    fee := { token := "token0", value := 1 / 1000 } }

def o : Order := Order.mk' "token0" "token1" 999000000000000000000 (999 / 1996) (some "0xffcf") "1"
def c : Order := Order.mk' "token1" "token0" 2000000000000000000000 (2000 / 999) (some "0x90f8") "0"

theorem load : loadPairProblem Config.default inst ("token0", "token1") = .ok (inst.accounts, { b := [o], s := [c], f := [] }, inst.fee) := by
  obtain ⟨⟨acc, ⟨b, s, f⟩, fee⟩, h, e⟩ := exists_of_pyCheck (x := loadPairProblem Config.default inst ("token0", "token1"))
    (p := fun r : Accounts × Books × Fee => r.1 = inst.accounts ∧ r.2.1.b = [o] ∧ r.2.1.s = [c] ∧ r.2.1.f = [] ∧ r.2.2 = inst.fee) (by decide +kernel)
  obtain ⟨e1, e2, e3, e4, e5⟩ := e
  dsimp only at e1 e2 e3 e4 e5
  rw [h, e1, e2, e3, e4, e5]

/-- The graph of a match between the two tokens. -/
def graph : List (Token × Token) := [("token0", "token1")]

noncomputable def branch (E : List (Token × Token)) : List (Token × Token) :=
  if E = graph then [("token0", "token1")] else (exists_maxBranching E).choose

noncomputable def ext : Ext := { sqrt := ExDouble.sqrt, branch, fdiv := fun q n => .ok (q / n) }

theorem branch_max (E : List (Token × Token)) : MaxBranching E (branch E) := by
  unfold branch
  split
  · rename_i h
    subst h
    refine ⟨⟨by decide, by decide, ⟨fun t => if t = "token0" then 0 else 1, by decide⟩⟩, ?_⟩
    intro br hb
    have hsub : br.map (·.2) ⊆ ["token1"] := by
      intro t ht
      obtain ⟨e, he, rfl⟩ := List.mem_map.1 ht
      have := hb.sub e he
      simp only [graph, List.mem_cons, List.not_mem_nil, or_false] at this
      rcases this with rfl; decide
    have := (hb.inDeg.subperm hsub).length_le
    simpa using this
  · exact (exists_maxBranching E).choose_spec

end ExDriver

/-- It meets the hypotheses of C89, with the project's own configuration. -/
example : GoodInstance ExDriver.inst ∧ SolverSetting Config.default ExDriver.ext ("token0", "token1") ExDriver.inst.fee none ∧
    9 / 10 ≤ (1 - ExDriver.inst.fee.value) ^ 2 ∧ 2 ≤ Config.default.maxNrExec ∧
    loadPairProblem Config.default ExDriver.inst ("token0", "token1") = .ok (ExDriver.inst.accounts, { b := [ExDriver.o], s := [ExDriver.c], f := [] }, ExDriver.inst.fee) ∧
    PriceRoom Config.default.feeTokenPrice ExDriver.inst.fee ExDriver.o ExDriver.c ∧
    LargeOrders Config.default.minRationalTradable ExDriver.o ExDriver.c := by
  exact ⟨by constructor <;> decide +kernel,
    ⟨by constructor <;> decide, by decide +kernel, by decide +kernel, by decide, ExDriver.branch_max, by simp,
      ⟨rfl, rfl, ExInst.setting.noThresholds.fdiv⟩⟩, by decide +kernel, by decide, ExDriver.load, by decide +kernel, by decide +kernel⟩

/-- The model run on it executes both orders: the search does not fail. -/
example : ∃ d, tokenPairMain Config.default ExDriver.ext ExDriver.inst ("token0", "token1") none = .ok d ∧ d.orders.length = 2 ∧
    (∀ e ∈ d.orders, e.execSellAmount.any (fun q => decide (0 < q)) = true) :=
  exists_of_pyCheck (p := fun d : Dump => d.orders.length = 2 ∧ ∀ e ∈ d.orders, e.execSellAmount.any (fun q => decide (0 < q)) = true)
    (by decide +kernel)

/-! More than two orders. -/

namespace ExLost

def b0 : OrderDict := { accountID := "b0", buyToken := "F", sellToken := "S", buyAmount := 10 ^ 18, sellAmount := 10 ^ 18 }

/-- An order whose limit rate is exactly the limit rate of `c` (after fees). -/
def b1 (u : AccountId) : OrderDict :=
  { accountID := u, buyToken := "F", sellToken := "S", buyAmount := 998001 * 10 ^ 14, sellAmount := 700000 * 10 ^ 14 }

def c : OrderDict := { accountID := "c", buyToken := "S", sellToken := "F", buyAmount := 7 * 10 ^ 20, sellAmount := 10 ^ 21 }

def inst (os : List OrderDict) : Instance where
  accounts := [("b0", [("S", 10 ^ 21)]), ("b1", [("S", 10 ^ 21)]), ("b2", [("S", 10 ^ 21)]), ("c", [("F", 10 ^ 21)])]
  fee := { token := "F", value := 1 / 1000 }
  orders := os

theorem good2 : GoodInstance (inst [b0, c]) := by constructor <;> decide +kernel
theorem good4 : GoodInstance (inst [b0, c, b1 "b1", b1 "b2"]) := by constructor <;> decide +kernel

end ExLost

/-- C89 is about two orders. With more orders it fails: there are an instance with two orders that are both executed, and two further orders
such that nothing at all is executed once they are added. The best rate is then the limit rate of the only order on one side, the integer
price has to be rounded, and rounding it so that this order rejects it keeps more orders (all of the other side). -/
theorem C89_more_orders_no_trade : CfgOk Config.default ∧ (∀ E, MaxBranching E (ExFrame.ext.branch E)) ∧
    GoodInstance (ExLost.inst [ExLost.b0, ExLost.c]) ∧ GoodInstance (ExLost.inst [ExLost.b0, ExLost.c, ExLost.b1 "b1", ExLost.b1 "b2"]) ∧
    (∃ d, tokenPairMain Config.default ExFrame.ext (ExLost.inst [ExLost.b0, ExLost.c]) ("F", "S") none = .ok d ∧ d.orders.length = 2) ∧
    ∃ d, tokenPairMain Config.default ExFrame.ext (ExLost.inst [ExLost.b0, ExLost.c, ExLost.b1 "b1", ExLost.b1 "b2"]) ("F", "S") none = .ok d ∧
      d.orders.length = 0 :=
  ⟨by constructor <;> decide, ExFrame.branch_max, ExLost.good2, ExLost.good4,
    exists_of_pyCheck (p := fun d : Dump => d.orders.length = 2) (by decide +kernel),
    exists_of_pyCheck (p := fun d : Dump => d.orders.length = 0) (by decide +kernel)⟩

end Dex
