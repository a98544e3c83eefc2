import Verif.Proof.Roots
import Verif.Props.Search

/-! # C52: the candidate rates of an interval maximise the objective of its fill pattern -/

namespace Dex

namespace Spec

/-- Objective value (b-token price 1) of letting each order sell the amount it is paired with, at rate `x`. -/
def SellValue (cfg : Config) (fee : Fee) (x : ℚ) (LB LS : List (Order × ℚ)) (v : ℚ) : Prop :=
  computeObjectiveRational cfg (LB.map (fun p => p.1.withBuy (p.2 * (1 - fee.value) / x)))
    (LS.map (fun p => p.1.withBuy (p.2 * x * (1 - fee.value)))) [] x 1 fee = .ok v

/-- All s_orders sell everything; the b_orders sell what is needed for that, best limit rate first, `i` the last. -/
def allS (fee : Fee) (d : IntervalData) (x : ℚ) : List (Order × ℚ) × List (Order × ℚ) :=
  (fillFrom d.b d.bPartial ((d.s.map (·.maxSell)).sum * x * (1 - fee.value) -
    ((d.b.drop (d.bPartial + 1)).map (·.maxSell)).sum), fillAll d.s)

/-- All b_orders sell everything; the s_orders sell what is needed for that. -/
def allB (fee : Fee) (d : IntervalData) (x : ℚ) : List (Order × ℚ) × List (Order × ℚ) :=
  (fillAll d.b, fillFrom d.s d.sPartial ((d.b.map (·.maxSell)).sum / (x * (1 - fee.value)) -
    ((d.s.drop (d.sPartial + 1)).map (·.maxSell)).sum))

/-- All orders of the interval accept the rate. -/
def AllAccept (fee : Fee) (d : IntervalData) (x : ℚ) : Prop :=
  (∀ o ∈ d.b, AcceptsB fee x o) ∧ ∀ o ∈ d.s, AcceptsS fee x o

/-- Sane interval: non-empty lists of positive orders, partial indices pointing into them. -/
structure IntervalOk (d : IntervalData) : Prop where
  idxB : d.bPartial < d.b.length
  idxS : d.sPartial < d.s.length
  posB : ∀ o ∈ d.b, 0 < o.maxXrate ∧ 0 < o.maxSell
  posS : ∀ o ∈ d.s, 0 < o.maxXrate ∧ 0 < o.maxSell

end Spec

open Spec

theorem split_at {α : Type} {l : List α} {i : ℕ} (h : i < l.length) : ∃ U p F, l = U ++ p :: F ∧ U.length = i :=
  ⟨l.take i, l[i], l.drop (i + 1), by simp, by simp [h.le]⟩

theorem totSell_pos {l : List Order} (hne : l ≠ []) (h : ∀ o ∈ l, 0 < o.maxSell) : 0 < totSell l := by
  cases l with
  | nil => exact absurd rfl hne
  | cons a l =>
    rw [totSell_cons]
    have := sum_maxSell_nonneg (l := l) (fun o ho => (h o (by simp [ho])).le)
    have := h a (by simp)
    unfold totSell; linarith

theorem totDiv_nonneg {l : List Order} (h : ∀ o ∈ l, 0 < o.maxXrate ∧ 0 ≤ o.maxSell) : 0 ≤ totDiv l := by
  apply List.sum_nonneg
  intro y hy
  obtain ⟨o, ho, rfl⟩ := List.mem_map.1 hy
  exact div_nonneg (h o ho).2 (h o ho).1.le

theorem okB_of {fee : Fee} {x : ℚ} {l : List Order} (h : ∀ o ∈ l, 0 < o.maxXrate ∧ 0 < o.maxSell)
    (ha : ∀ o ∈ l, AcceptsB fee x o) : ∀ o ∈ l, okB (1 - fee.value) x o :=
  fun o ho => ⟨(h o ho).1, (h o ho).2.le, ha o ho⟩

theorem okS_of {fee : Fee} {x : ℚ} {l : List Order} (h : ∀ o ∈ l, 0 < o.maxXrate ∧ 0 < o.maxSell)
    (ha : ∀ o ∈ l, AcceptsS fee x o) : ∀ o ∈ l, okS (1 - fee.value) x o :=
  fun o ho => ⟨(h o ho).1, (h o ho).2.le, ha o ho⟩

theorem mem_fillAll {l : List Order} {p : Order × ℚ} (h : p ∈ fillAll l) : p.1 ∈ l := by
  obtain ⟨o, ho, rfl⟩ := List.mem_map.1 h; exact ho

theorem mem_fillFrom {l : List Order} {i : ℕ} {q : ℚ} {p : Order × ℚ} (h : p ∈ fillFrom l i q) : p.1 ∈ l := by
  unfold fillFrom at h
  rcases List.mem_append.1 h with h | h
  · rcases List.mem_append.1 h with h | h
    · obtain ⟨o, ho, rfl⟩ := List.mem_map.1 h; exact List.mem_of_mem_take ho
    · obtain ⟨o, ho, rfl⟩ := List.mem_map.1 h; exact List.mem_of_mem_drop (List.mem_of_mem_take ho)
  · obtain ⟨o, ho, rfl⟩ := List.mem_map.1 h; exact List.mem_of_mem_drop ho

/-- C52. If all s_orders are filled, root 4 is the best rate: no other rate that all orders of the interval accept gives
the same fill pattern a larger objective value (`math.sqrt` being exact on this argument). -/
theorem C52_root4_maximises {cfg : Config} {fee : Fee} {d : IntervalData} {c : Constants} {sqrt : ℚ → Py ℚ} {r x : ℚ}
    (hfp : 0 < cfg.feeTokenPrice) (hf : fee.value < 1) (hd : IntervalOk d) (h0 : d.sPartial = 0)
    (hc : computeConstants d fee = .ok c) (hr : root4 sqrt c = .ok (some r)) (hsq : ∀ t, sqrt t = .ok r → r ^ 2 = t)
    (hr0 : 0 < r) (har : AllAccept fee d r) (hx : 0 < x) (hax : AllAccept fee d x) :
    ∃ vr vx, SellValue cfg fee r (allS fee d r).1 (allS fee d r).2 vr ∧
      SellValue cfg fee x (allS fee d x).1 (allS fee d x).2 vx ∧ vx ≤ vr := by
  have hφ : 0 < 1 - fee.value := by linarith
  obtain ⟨lb, ub, B, S, i, j⟩ := d
  simp only at h0; subst h0
  obtain ⟨hidx, hidxS, posB, posS⟩ := hd
  simp only at hidx hidxS posB posS
  obtain ⟨U, p, F, rfl, rfl⟩ := split_at hidx
  have hne : S ≠ [] := List.ne_nil_of_length_pos hidxS
  have hY := totSell_pos hne (fun o ho => (posS o ho).2)
  have hB := totSell_pos (List.ne_nil_of_length_pos (Nat.zero_lt_of_lt hidx)) (fun o ho => (posB o ho).2)
  have hD := totDiv_nonneg (fun o ho => ⟨(posS o ho).1, (posS o ho).2.le⟩)
  have hK : 0 < (1 - fee.value) * totSell (U ++ p :: F) + totDiv S := by positivity
  have hp := (posB p (by simp)).1
  obtain ⟨e4, _⟩ := roots4 hf (fun o ho => (posS o ho).1) hp hne hY hK hc sqrt
  have hM : 0 < 2 * (1 - fee.value) * totSell S / p.maxXrate := by positivity
  rw [e4, bind_eq_ok] at hr
  obtain ⟨r', e, hr⟩ := hr
  cases hr
  have ht := hsq _ e
  have key : ∀ z, 0 < z → AllAccept fee ⟨lb, ub, U ++ p :: F, S, U.length, 0⟩ z →
      SellValue cfg fee z (allS fee ⟨lb, ub, U ++ p :: F, S, U.length, 0⟩ z).1 (allS fee ⟨lb, ub, U ++ p :: F, S, U.length, 0⟩ z).2
        ((totDiv U + p.maxSell / p.maxXrate - totDiv F + 2 * totSell F / p.maxXrate + 2 * (1 - fee.value) ^ 2 * totSell S +
          (1 - fee.value) * totSell S + totSell S * (1 - (1 - fee.value) ^ 2) / cfg.feeTokenPrice / 2)
        - ((1 - fee.value) * totSell (U ++ p :: F) + totDiv S) / z - 2 * (1 - fee.value) * totSell S / p.maxXrate * z) := by
    intro z hz ha
    unfold SellValue
    rw [← pattern4_eq hfp hz (okB_of posB ha.1) (okS_of posS ha.2)]
    unfold allS
    simp only [drop_split]
    exact computeObjectiveRational_pairs hfp hz hf (fun q hq => (posB _ (mem_fillFrom hq)).1) (fun q hq => (posS _ (mem_fillAll hq)).1)
  refine ⟨_, _, key r hr0 har, key x hx hax, ?_⟩
  apply shape4_le hx hr0
  have : (1 - fee.value) * totSell (U ++ p :: F) + totDiv S = 2 * (1 - fee.value) * totSell S / p.maxXrate * r ^ 2 := by
    rw [ht]; field_simp
  rw [this]
  have e : (r - x) * (2 * (1 - fee.value) * totSell S / p.maxXrate * r ^ 2 - 2 * (1 - fee.value) * totSell S / p.maxXrate * (x * r)) =
    2 * (1 - fee.value) * totSell S / p.maxXrate * r * (r - x) ^ 2 := by ring
  rw [e]; positivity

/-- C52. If all b_orders are filled, root 3 is the best rate. -/
theorem C52_root3_maximises {cfg : Config} {fee : Fee} {d : IntervalData} {c : Constants} {r x : ℚ}
    (hfp : 0 < cfg.feeTokenPrice) (hf : fee.value < 1) (hd : IntervalOk d) (h0 : d.bPartial = 0)
    (hc : computeConstants d fee = .ok c) (hr : root3 cfg c = .ok r)
    (hr0 : 0 < r) (har : AllAccept fee d r) (hx : 0 < x) (hax : AllAccept fee d x) :
    ∃ vr vx, SellValue cfg fee r (allB fee d r).1 (allB fee d r).2 vr ∧
      SellValue cfg fee x (allB fee d x).1 (allB fee d x).2 vx ∧ vx ≤ vr := by
  have hφ : 0 < 1 - fee.value := by linarith
  obtain ⟨lb, ub, B, S, i, j⟩ := d
  simp only at h0; subst h0
  obtain ⟨hidxB, hidx, posB, posS⟩ := hd
  simp only at hidx hidxB posB posS
  obtain ⟨U, p, F, rfl, rfl⟩ := split_at hidx
  have hne : B ≠ [] := List.ne_nil_of_length_pos hidxB
  have hB := totSell_pos hne (fun o ho => (posB o ho).2)
  have hp := (posS p (by simp)).1
  have hY : 0 < p.maxSell + totSell F := by
    rw [← totSell_cons]
    exact totSell_pos (by simp) (fun o ho => (posS o (by simp only [List.mem_append]; exact .inr ho)).2)
  obtain ⟨e3, _⟩ := roots3 hfp hf (fun o ho => (posS o ho).1) hne hY hc
  have hA := e3 r hr
  have key : ∀ z, 0 < z → AllAccept fee ⟨lb, ub, B, U ++ p :: F, 0, U.length⟩ z →
      SellValue cfg fee z (allB fee ⟨lb, ub, B, U ++ p :: F, 0, U.length⟩ z).1 (allB fee ⟨lb, ub, B, U ++ p :: F, 0, U.length⟩ z).2
        ((- totDiv B + (1 - fee.value) * (totSell F - totSell U - p.maxSell) - 2 * (1 - fee.value) * totSell F)
        + ((1 - fee.value) * totSell B - totDiv F + totDiv U + p.maxSell / p.maxXrate + 2 * totSell B + 2 * totSell F / p.maxXrate
          + totSell B * (1 / (1 - fee.value) - (1 - fee.value)) / cfg.feeTokenPrice / 2) * (1 / z)
        - 2 * totSell B / ((1 - fee.value) * p.maxXrate) * (1 / z) ^ 2) := by
    intro z hz ha
    unfold SellValue
    rw [← pattern3_eq hφ hfp hz (okS_of posS ha.2) (okB_of posB ha.1)]
    unfold allB
    simp only [drop_split]
    exact computeObjectiveRational_pairs hfp hz hf (fun q hq => (posB _ (mem_fillAll hq)).1) (fun q hq => (posS _ (mem_fillFrom hq)).1)
  refine ⟨_, _, key r hr0 har, key x hx hax, ?_⟩
  set A := ((1 - fee.value) * totSell B - totDiv F + totDiv U + p.maxSell / p.maxXrate + 2 * totSell B
        + 2 * totSell F / p.maxXrate + totSell B * (1 / (1 - fee.value) - (1 - fee.value)) / cfg.feeTokenPrice / 2) with hAd
  set Q := 2 * totSell B / ((1 - fee.value) * p.maxXrate) with hQ
  have hQ0 : 0 < Q := by positivity
  apply shape3_le
  have hA' : A = 2 * Q * (1 / r) := by field_simp; linarith
  rw [hA']
  have e : (1 / r - 1 / x) * (2 * Q * (1 / r) - Q * (1 / x + 1 / r)) = Q * (1 / r - 1 / x) ^ 2 := by ring
  rw [e]; positivity

/-! ### Non-vacuity -/

namespace ExRoot

def fee : Fee := { token := "F", value := 1 / 1000 }
def d4 : IntervalData := ⟨2/3, 3/2, [Order.mk' "B" "S" 150000 (25/16) none "0"], [Order.mk' "S" "B" 100000 (2000/999) none "1"], 0, 0⟩
def b : List Order := [Order.mk' "B" "S" 50000 (3/2) none "0", Order.mk' "B" "S" 100000 2 none "1"]
def s : List Order := [Order.mk' "S" "B" 60000 (3/2) none "2", Order.mk' "S" "B" 60000 2 none "3"]
def d3 : IntervalData := ⟨2/3, 3/2, b, s, 0, 0⟩
def sqrt (t : ℚ) : Py ℚ := if t = 25 / 16 then .ok (5 / 4) else .error .overflow

end ExRoot

/-- An interval where root 4 is 5/4, compared with the rate 1. -/
example : IntervalOk ExRoot.d4 ∧ (∃ c, computeConstants ExRoot.d4 ExRoot.fee = .ok c ∧ root4 ExRoot.sqrt c = .ok (some (5 / 4))) ∧
    (∀ t, ExRoot.sqrt t = .ok (5 / 4) → (5 / 4) ^ 2 = t) ∧ AllAccept ExRoot.fee ExRoot.d4 (5 / 4) ∧
    AllAccept ExRoot.fee ExRoot.d4 1 := by
  refine ⟨⟨?_, ?_, ?_, ?_⟩, ?_, ?_, ⟨?_, ?_⟩, ⟨?_, ?_⟩⟩
  iterate 4 decide +kernel
  · obtain ⟨c, h1, h2⟩ := exists_of_pyCheck (x := computeConstants ExRoot.d4 ExRoot.fee)
      (p := fun c => root4 ExRoot.sqrt c = .ok (some (5 / 4))) (by decide +kernel)
    exact ⟨c, h1, h2⟩
  · intro t ht
    unfold ExRoot.sqrt at ht
    split at ht
    · rename_i h; rw [h]; norm_num
    · cases ht
  iterate 4 decide +kernel

/-- An interval with two orders on each side where root 3 is positive, compared with the rate 1. -/
example : IntervalOk ExRoot.d3 ∧ AllAccept ExRoot.fee ExRoot.d3 1 ∧ ∃ c, computeConstants ExRoot.d3 ExRoot.fee = .ok c ∧
    ∃ r, root3 Config.default c = .ok r ∧ 0 < r ∧ AllAccept ExRoot.fee ExRoot.d3 r := by
  refine ⟨⟨?_, ?_, ?_, ?_⟩, ⟨?_, ?_⟩, ?_⟩
  iterate 6 decide +kernel
  obtain ⟨c, h1, h2⟩ := exists_of_pyCheck (x := computeConstants ExRoot.d3 ExRoot.fee)
    (p := fun c => pyCheck (root3 Config.default c)
      (fun r => 0 < r ∧ (∀ o ∈ ExRoot.d3.b, AcceptsB ExRoot.fee r o) ∧ ∀ o ∈ ExRoot.d3.s, AcceptsS ExRoot.fee r o) = true)
    (by decide +kernel)
  obtain ⟨r, h3, h4⟩ := exists_of_pyCheck h2
  exact ⟨c, h1, r, h3, h4.1, h4.2⟩

end Dex
