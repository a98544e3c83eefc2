import Verif.Proof.Fill

/-! # `compute_buy_amounts` as a greedy fill -/

namespace Dex

/-- Largest buy amount of a b_order at rate `x`. -/
def capB (x : ℚ) (fee : Fee) (o : Order) : ℚ := o.maxSell / x * (1 - fee.value)

/-- Largest buy amount of an s_order at rate `x`. -/
def capS (x : ℚ) (fee : Fee) (o : Order) : ℚ := o.maxSell * x * (1 - fee.value)

/-- b_buy amount per unit of s_buy amount. -/
def ratio (x : ℚ) (fee : Fee) : ℚ := (1 - fee.value) / x

/-- The state reached when `t` units of the s-token have been exchanged. -/
def stateAt (x : ℚ) (fee : Fee) (B S : List Order) (bi si : ℤ) (t : ℚ) : ExecState :=
  { bi, si, b := fillOrders (capB x fee) (t * ratio x fee) B, s := fillOrders (capS x fee) t S }

/-- `k` is the first order not completely filled. -/
structure FrontIdx (cap : Order → ℚ) (os : List Order) (t : ℚ) (k : ℕ) : Prop where
  le_len : k ≤ os.length
  pre_le : preCap cap os k ≤ t
  le_tot : t ≤ preCap cap os os.length
  lt_next : k < os.length → t < preCap cap os (k + 1)

theorem FrontIdx.getElem? {cap : Order → ℚ} {os : List Order} {t : ℚ} {k : ℕ} (h : FrontIdx cap os t k)
    {o : Order} (ho : os[k]? = some o) :
    (fillOrders cap t os)[k]? = some (o.withBuy (t - preCap cap os k)) := by
  have hk : k < os.length := by
    by_contra hc; rw [List.getElem?_eq_none (by omega)] at ho; cases ho
  have h1 := h.pre_le
  have h2 := h.lt_next hk
  rw [preCap_succ ho] at h2
  rw [fillOrders_getElem?, ho]
  simp only [Option.map_some]
  rw [min_eq_right (by linarith), max_eq_right (by linarith)]

theorem FrontIdx.full (hpos : ∀ o ∈ os, 0 < cap o) {t : ℚ} {k : ℕ} (hk : k ≤ os.length)
    (ht : t = preCap cap os k) : FrontIdx cap os t k where
  le_len := hk
  pre_le := ht.ge
  le_tot := ht ▸ preCap_mono hpos hk
  lt_next := fun hlt => ht ▸ preCap_lt_succ hpos hlt

theorem FrontIdx.stay (hpos : ∀ o ∈ os, 0 < cap o) {t : ℚ} {k : ℕ} (hk : k < os.length)
    (h1 : preCap cap os k ≤ t) (h2 : t < preCap cap os (k + 1)) : FrontIdx cap os t k where
  le_len := hk.le
  pre_le := h1
  le_tot := le_trans h2.le (preCap_mono hpos hk)
  lt_next := fun _ => h2

section
variable {x : ℚ} {fee : Fee} {B S : List Order}

theorem ratio_pos (hx : 0 < x) (hf : fee.value < 1) : 0 < ratio x fee := by
  unfold ratio; apply div_pos _ hx; linarith

/-- One `execute_order_pair` step. -/
theorem executeOrderPair_step (hx : 0 < x) (hf : fee.value < 1)
    (hB : ∀ o ∈ B, 0 < capB x fee o) (hS : ∀ o ∈ S, 0 < capS x fee o) {i j : ℕ} {t : ℚ}
    (hi : FrontIdx (capB x fee) B (t * ratio x fee) i) (hj : FrontIdx (capS x fee) S t j)
    (hil : i < B.length) (hjl : j < S.length) :
    ∃ (i' j' : ℕ) (t' : ℚ), executeOrderPair x fee (stateAt x fee B S i j t) = .ok (stateAt x fee B S i' j' t') ∧
      FrontIdx (capB x fee) B (t' * ratio x fee) i' ∧ FrontIdx (capS x fee) S t' j' ∧ t < t' ∧
      ((i' = i + 1 ∧ j' = j ∧ t' * ratio x fee = preCap (capB x fee) B i') ∨
       (i' = i ∧ j' = j + 1 ∧ t' = preCap (capS x fee) S j') ∨
       (i' = i + 1 ∧ j' = j + 1 ∧ t' * ratio x fee = preCap (capB x fee) B i' ∧ t' = preCap (capS x fee) S j')) := by
  have hφ : 0 < 1 - fee.value := by linarith
  have hρ := ratio_pos hx hf
  obtain ⟨bo, hbo⟩ : ∃ bo, B[i]? = some bo := ⟨_, List.getElem?_eq_getElem hil⟩
  obtain ⟨so, hso⟩ : ∃ so, S[j]? = some so := ⟨_, List.getElem?_eq_getElem hjl⟩
  have gb := pyGet_nat (hi.getElem? hbo)
  have gs := pyGet_nat (hj.getElem? hso)
  have hbn := hi.lt_next hil
  have hsn := hj.lt_next hjl
  have hbp := preCap_succ (cap := capB x fee) hbo
  have hsp := preCap_succ (cap := capS x fee) hso
  set ρ := ratio x fee with hρd
  set PB := preCap (capB x fee) B i with hPB
  set PS := preCap (capS x fee) S j with hPS
  set cb := capB x fee bo with hcb
  set cs := capS x fee so with hcs
  have hbl := hi.pre_le
  have hsl := hj.pre_le
  rw [← hPB] at hbl
  rw [← hPS] at hsl
  have e1 : ∀ u : ℚ, u / x * (1 - fee.value) = u * ρ := by intro u; rw [hρd]; unfold ratio; ring
  have e2 : ∀ u : ℚ, u * x / (1 - fee.value) = u / ρ := by intro u; rw [hρd]; unfold ratio; field_simp
  have hbUb : bo.maxSell * ρ - (t * ρ - PB) = PB + cb - t * ρ := by
    rw [hcb, ← e1]; unfold capB; ring
  have hsUb : so.maxSell * x * (1 - fee.value) - (t - PS) = PS + cs - t := by
    rw [hcs]; unfold capS; ring
  generalize hbo' : bo.withBuy (t * ρ - PB) = bo' at gb
  generalize hso' : so.withBuy (t - PS) = so' at gs
  have hbb : bo'.buy = t * ρ - PB := by rw [← hbo', withBuy_buy]
  have hsb : so'.buy = t - PS := by rw [← hso', withBuy_buy]
  have hbm : bo'.maxSell = bo.maxSell := by rw [← hbo']; rfl
  have hsm : so'.maxSell = so.maxSell := by rw [← hso']; rfl
  simp only [executeOrderPair, stateAt, ← hρd, gb, gs, ok_bind, bBuyFromBMaxSell, bBuyFromBSell, sBuyFromSMaxSell,
    sBuyFromSSell, bBuyFromSBuy, sBuyFromBBuy, pyDiv_of_ne hx.ne', pyDiv_of_ne hφ.ne', pure_eq_ok]
  simp only [hbb, hsb, hbm, hsm, e1, hbUb, hsUb, e2]
  rw [pyAssert_of (by constructor <;> linarith)]
  simp only [ok_bind]
  have lenB : i < (fillOrders (capB x fee) (t * ρ) B).length := by simpa using hil
  have lenS : j < (fillOrders (capS x fee) t S).length := by simpa using hjl
  simp only [pyModify_nat _ lenB, pyModify_nat _ lenS, ok_bind]
  set u := PB + cb - t * ρ with hu
  set v := PS + cs - t with hv
  have hupos : 0 < u := by linarith
  have hvpos : 0 < v := by linarith
  have modB : ∀ (t' d : ℚ), t' * ρ = t * ρ + d → 0 ≤ d → d ≤ u →
      List.modify (fillOrders (capB x fee) (t * ρ) B) i (Order.addBuy d) = fillOrders (capB x fee) (t' * ρ) B := by
    intro t' d h0 h1 h2
    apply fillOrders_modify hB hbl (by linarith) (by linarith) (by linarith)
    intro o _
    simp only [Order.addBuy, withBuy_withBuy, withBuy_buy, h0]
    congr 1; ring
  have modS : ∀ (t' d : ℚ), t' = t + d → 0 ≤ d → d ≤ v →
      List.modify (fillOrders (capS x fee) t S) j (Order.addBuy d) = fillOrders (capS x fee) t' S := by
    intro t' d h0 h1 h2
    apply fillOrders_modify hS hsl (by linarith) (by linarith) (by linarith)
    intro o _
    simp only [Order.addBuy, withBuy_withBuy, withBuy_buy, h0]
    congr 1; ring
  by_cases c1 : u < v * ρ
  · rw [if_pos c1]
    have huv : u / ρ < v := by rwa [div_lt_iff₀ hρ]
    have hup : 0 < u / ρ := div_pos hupos hρ
    have ht' : (t + u / ρ) * ρ = t * ρ + u := by field_simp
    rw [modB (t + u / ρ) u ht' hupos.le le_rfl, modS (t + u / ρ) (u / ρ) rfl hup.le huv.le]
    refine ⟨i + 1, j, t + u / ρ, by push_cast; rfl, ?_, ?_, by linarith, .inl ⟨rfl, rfl, ?_⟩⟩
    · apply FrontIdx.full hB (by omega); rw [hbp, ht']; linarith
    · apply FrontIdx.stay hS hjl <;> linarith
    · rw [hbp, ht']; linarith
  · rw [if_neg c1]
    by_cases c2 : u > v * ρ
    · rw [if_pos c2]
      have hvp : 0 < v * ρ := mul_pos hvpos hρ
      have ht' : (t + v) * ρ = t * ρ + v * ρ := by ring
      rw [modB (t + v) (v * ρ) ht' hvp.le c2.le, modS (t + v) v rfl hvpos.le le_rfl]
      refine ⟨i, j + 1, t + v, by push_cast; rfl, ?_, ?_, by linarith, .inr (.inl ⟨rfl, rfl, ?_⟩)⟩
      · apply FrontIdx.stay hB hil <;> linarith
      · apply FrontIdx.full hS (by omega); rw [hsp]; linarith
      · rw [hsp]; linarith
    · rw [if_neg c2]
      have huv : u = v * ρ := le_antisymm (not_lt.1 c2) (not_lt.1 c1)
      have ht' : (t + v) * ρ = t * ρ + u := by rw [huv]; ring
      rw [modB (t + v) u ht' hupos.le le_rfl, modS (t + v) v rfl hvpos.le le_rfl]
      refine ⟨i + 1, j + 1, t + v, by push_cast; rfl, ?_, ?_, by linarith, .inr (.inr ⟨rfl, rfl, ?_, ?_⟩)⟩
      · apply FrontIdx.full hB (by omega); rw [hbp, ht']; linarith
      · apply FrontIdx.full hS (by omega); rw [hsp]; linarith
      · rw [hbp, ht']; linarith
      · rw [hsp]; linarith

/-- Number of executed orders on a side whose first not-full order is `k`. -/
def execCount (cap : Order → ℚ) (os : List Order) (t : ℚ) (k : ℕ) : ℤ :=
  k + if preCap cap os k < t then 1 else 0

/-- Result of the first loop. -/
theorem execLoop_spec (hx : 0 < x) (hf : fee.value < 1)
    (hB : ∀ o ∈ B, 0 < capB x fee o) (hS : ∀ o ∈ S, 0 < capS x fee o) (maxNr : ℤ) :
    ∀ (fuel i j : ℕ) (t : ℚ), B.length + S.length + 1 ≤ fuel + i + j →
      FrontIdx (capB x fee) B (t * ratio x fee) i → FrontIdx (capS x fee) S t j → 0 ≤ t →
      execCount (capB x fee) B (t * ratio x fee) i + execCount (capS x fee) S t j ≤ maxNr + 1 →
      ∃ (i' j' : ℕ) (t' : ℚ),
        execLoop x fee maxNr fuel (stateAt x fee B S i j t) = .ok (stateAt x fee B S i' j' t') ∧
        FrontIdx (capB x fee) B (t' * ratio x fee) i' ∧ FrontIdx (capS x fee) S t' j' ∧ 0 ≤ t' ∧
        execCount (capB x fee) B (t' * ratio x fee) i' + execCount (capS x fee) S t' j' ≤ maxNr + 1 ∧
        (i' = B.length ∨ j' = S.length ∨ maxNr ≤ i' + j') := by
  intro fuel
  induction fuel with
  | zero =>
    intro i j t hfuel hi hj _ _
    have := hi.le_len; have := hj.le_len; omega
  | succ fuel ih =>
    intro i j t hfuel hi hj ht hc
    simp only [execLoop]
    by_cases hcond : ((j : ℤ) < (S.length : ℤ) ∧ (i : ℤ) < (B.length : ℤ) ∧ (j : ℤ) + i < maxNr)
    · rw [if_pos (by simpa [stateAt] using hcond)]
      obtain ⟨i', j', t', hstep, hi', hj', htt, hcases⟩ :=
        executeOrderPair_step hx hf hB hS hi hj (by omega) (by omega)
      rw [hstep]
      simp only [ok_bind]
      apply ih i' j' t' _ hi' hj' (by linarith)
      · unfold execCount
        rcases hcases with ⟨rfl, rfl, h⟩ | ⟨rfl, rfl, h⟩ | ⟨rfl, rfl, h, h'⟩
        · rw [h, if_neg (lt_irrefl _)]; push_cast; split <;> omega
        · rw [← h, if_neg (lt_irrefl t')]; push_cast; split <;> omega
        · rw [h, ← h', if_neg (lt_irrefl _), if_neg (lt_irrefl t')]; push_cast; omega
      · rcases hcases with ⟨rfl, rfl, h⟩ | ⟨rfl, rfl, h⟩ | ⟨rfl, rfl, h, h'⟩ <;> omega
    · rw [if_neg (by simpa [stateAt] using hcond)]
      refine ⟨i, j, t, rfl, hi, hj, ht, hc, ?_⟩
      have := hi.le_len; have := hj.le_len
      omega

/-- Moving from "first not full" to "last executed". -/
theorem lastExecuted_spec {cap : Order → ℚ} {os : List Order} (hpos : ∀ o ∈ os, 0 < cap o) {t : ℚ} {k : ℕ}
    (h : FrontIdx cap os t k) (ht : 0 ≤ t) :
    ∃ l : ℤ, lastExecuted (fillOrders cap t os) k = .ok l ∧ LastIdx cap os t l ∧ l + 1 = execCount cap os t k := by
  unfold lastExecuted execCount
  have hpre := h.pre_le
  by_cases hk : k < os.length
  · rw [if_pos (by simpa using hk)]
    obtain ⟨o, ho⟩ : ∃ o, os[k]? = some o := ⟨_, List.getElem?_eq_getElem hk⟩
    rw [pyGet_nat (h.getElem? ho)]
    simp only [ok_bind, pure_eq_ok]
    have hn := h.lt_next hk
    by_cases hp : preCap cap os k < t
    · rw [if_pos (show (o.withBuy (t - preCap cap os k)).buy > 0 by rw [withBuy_buy]; linarith), if_pos hp]
      refine ⟨k, rfl, ⟨by omega, by omega, ht, ?_, fun _ => by simpa using hp⟩, rfl⟩
      have : ((k : ℤ) + 1).toNat = k + 1 := by omega
      rw [this]; exact hn.le
    · rw [if_neg (show ¬ (o.withBuy (t - preCap cap os k)).buy > 0 by rw [withBuy_buy]; linarith), if_neg hp]
      have heq : t = preCap cap os k := le_antisymm (not_lt.1 hp) hpre
      refine ⟨(k : ℤ) - 1, rfl, ⟨by omega, by omega, ht, ?_, ?_⟩, by ring⟩
      · have : ((k : ℤ) - 1 + 1).toNat = k := by omega
        rw [this]; exact heq.le
      · intro h0
        have e : k = ((k : ℤ) - 1).toNat + 1 := by omega
        rw [heq]
        conv_rhs => rw [e]
        exact preCap_lt_succ hpos (by omega)
  · rw [if_neg (by simpa using hk)]
    have hke : k = os.length := le_antisymm h.le_len (not_lt.1 hk)
    have hle := h.le_tot
    have heq : t = preCap cap os k := le_antisymm (hke ▸ hle) hpre
    rw [if_neg (by rw [heq]; exact lt_irrefl _)]
    refine ⟨(k : ℤ) - 1, rfl, ⟨by omega, by omega, ht, ?_, ?_⟩, by ring⟩
    · have : ((k : ℤ) - 1 + 1).toNat = k := by omega
      rw [this]; exact heq.le
    · intro h0
      have e : k = ((k : ℤ) - 1).toNat + 1 := by omega
      rw [heq]
      conv_rhs => rw [e]
      exact preCap_lt_succ hpos (by omega)

theorem LastIdx.getElem? {cap : Order → ℚ} {os : List Order} {t : ℚ} {k : ℕ} (h : LastIdx cap os t k)
    {o : Order} (ho : os[k]? = some o) :
    (fillOrders cap t os)[k]? = some (o.withBuy (t - preCap cap os k)) := by
  obtain ⟨_, _, _, h4, h5⟩ := h
  have h5 := h5 (by omega)
  have e : ((k : ℤ) + 1).toNat = k + 1 := by omega
  rw [e, preCap_succ ho] at h4
  simp only [Int.toNat_natCast] at h5
  rw [fillOrders_getElem?, ho]
  simp only [Option.map_some]
  rw [min_eq_right (by linarith), max_eq_right (by linarith)]

theorem LastIdx.bounds {cap : Order → ℚ} {os : List Order} {t : ℚ} {k : ℕ} (h : LastIdx cap os t k) :
    k < os.length ∧ preCap cap os k < t ∧ t ≤ preCap cap os (k + 1) := by
  obtain ⟨_, h2, _, h4, h5⟩ := h
  have h5 := h5 (by omega)
  have e : ((k : ℤ) + 1).toNat = k + 1 := by omega
  rw [e] at h4
  simp only [Int.toNat_natCast] at h5
  exact ⟨by omega, h5, h4⟩

/-- Emptying the last executed order moves to the previous one. -/
theorem LastIdx.pred {cap : Order → ℚ} {os : List Order} (hpos : ∀ o ∈ os, 0 < cap o) {k : ℕ}
    (hk : k < os.length) : LastIdx cap os (preCap cap os k) ((k : ℤ) - 1) := by
  refine ⟨by omega, by omega, preCap_nonneg hpos k, ?_, ?_⟩
  · have : ((k : ℤ) - 1 + 1).toNat = k := by omega
    rw [this]
  · intro h0
    have e : k = ((k : ℤ) - 1).toNat + 1 := by omega
    conv_rhs => rw [e]
    exact preCap_lt_succ hpos (by omega)

theorem LastIdx.same {cap : Order → ℚ} {os : List Order} (hpos : ∀ o ∈ os, 0 < cap o) {t t' : ℚ} {k : ℕ}
    (h : LastIdx cap os t k) (h1 : preCap cap os k < t') (h2 : t' ≤ t) : LastIdx cap os t' k := by
  obtain ⟨a1, a2, a3, a4, a5⟩ := h
  exact ⟨a1, a2, le_trans (preCap_nonneg hpos k) h1.le, le_trans h2 a4, fun _ => by simpa using h1⟩

/-- `undo_order_pair_execution`. -/
theorem undoOrderPair_step (hx : 0 < x) (hf : fee.value < 1)
    (hB : ∀ o ∈ B, 0 < capB x fee o) (hS : ∀ o ∈ S, 0 < capS x fee o) {i j : ℕ} {t : ℚ}
    (hi : LastIdx (capB x fee) B (t * ratio x fee) i) (hj : LastIdx (capS x fee) S t j) :
    ∃ (i' j' : ℤ) (t' : ℚ), undoOrderPair x fee (stateAt x fee B S i j t) = .ok (stateAt x fee B S i' j' t') ∧
      LastIdx (capB x fee) B (t' * ratio x fee) i' ∧ LastIdx (capS x fee) S t' j' ∧ 0 ≤ t' ∧ i' + j' + 1 ≤ (i : ℤ) + j ∧
      preCap (capB x fee) B i ≤ t' * ratio x fee ∧ preCap (capS x fee) S j ≤ t' := by
  have hφ : 0 < 1 - fee.value := by linarith
  have hρ := ratio_pos hx hf
  obtain ⟨hil, hb1, hb2⟩ := hi.bounds
  obtain ⟨hjl, hs1, hs2⟩ := hj.bounds
  obtain ⟨bo, hbo⟩ : ∃ bo, B[i]? = some bo := ⟨_, List.getElem?_eq_getElem hil⟩
  obtain ⟨so, hso⟩ : ∃ so, S[j]? = some so := ⟨_, List.getElem?_eq_getElem hjl⟩
  have gb := pyGet_nat (hi.getElem? hbo)
  have gs := pyGet_nat (hj.getElem? hso)
  have hPB0 := preCap_nonneg (cap := capB x fee) hB i
  have hPS0 := preCap_nonneg (cap := capS x fee) hS j
  set ρ := ratio x fee with hρd
  set PB := preCap (capB x fee) B i with hPB
  set PS := preCap (capS x fee) S j with hPS
  have e1 : ∀ u : ℚ, u / x * (1 - fee.value) = u * ρ := by intro u; rw [hρd]; unfold ratio; ring
  have e2 : ∀ u : ℚ, u * x / (1 - fee.value) = u / ρ := by intro u; rw [hρd]; unfold ratio; field_simp
  generalize hbo' : bo.withBuy (t * ρ - PB) = bo' at gb
  generalize hso' : so.withBuy (t - PS) = so' at gs
  have hbb : bo'.buy = t * ρ - PB := by rw [← hbo', withBuy_buy]
  have hsb : so'.buy = t - PS := by rw [← hso', withBuy_buy]
  simp only [undoOrderPair, stateAt, ← hρd, gb, gs, ok_bind, bBuyFromSBuy, sBuyFromBBuy, pyDiv_of_ne hx.ne',
    pyDiv_of_ne hφ.ne', pure_eq_ok]
  simp only [hbb, hsb, e1, e2]
  rw [pyAssert_of (by constructor <;> linarith)]
  simp only [ok_bind]
  have lenB : i < (fillOrders (capB x fee) (t * ρ) B).length := by simpa using hil
  have lenS : j < (fillOrders (capS x fee) t S).length := by simpa using hjl
  simp only [pyModify_nat _ lenB, pyModify_nat _ lenS, ok_bind]
  set u := t * ρ - PB with hu
  set v := t - PS with hv
  have hupos : 0 < u := by linarith
  have hvpos : 0 < v := by linarith
  have modB : ∀ (t' : ℚ) (g : Order → Order), PB ≤ t' * ρ → t' * ρ ≤ t * ρ →
      (∀ o : Order, g (o.withBuy u) = o.withBuy (t' * ρ - PB)) →
      List.modify (fillOrders (capB x fee) (t * ρ) B) i g = fillOrders (capB x fee) (t' * ρ) B := by
    intro t' g h0 h1 h2
    exact fillOrders_modify hB hb1.le hb2 h0 (by linarith) g (fun o _ => h2 o)
  have modS : ∀ (t' : ℚ) (g : Order → Order), PS ≤ t' → t' ≤ t →
      (∀ o : Order, g (o.withBuy v) = o.withBuy (t' - PS)) →
      List.modify (fillOrders (capS x fee) t S) j g = fillOrders (capS x fee) t' S := by
    intro t' g h0 h1 h2
    exact fillOrders_modify hS hs1.le hs2 h0 (by linarith) g (fun o _ => h2 o)
  by_cases c1 : u < v * ρ
  · rw [if_pos c1]
    have huv : u / ρ < v := by rwa [div_lt_iff₀ hρ]
    have hup : 0 < u / ρ := div_pos hupos hρ
    have ht' : (t - u / ρ) * ρ = PB := by rw [sub_mul, div_mul_cancel₀ _ hρ.ne']; rw [hu]; ring
    rw [modB (t - u / ρ) _ ht'.ge (by linarith) (fun o => by
        simp only [Order.clearBuy, withBuy_withBuy, ht', sub_self]),
      modS (t - u / ρ) _ (by linarith) (by linarith) (fun o => by
        simp only [Order.subBuy, withBuy_withBuy, withBuy_buy]; congr 1; linarith)]
    refine ⟨(i : ℤ) - 1, j, t - u / ρ, rfl, ?_, ?_, by linarith, by omega, ht'.ge, by linarith⟩
    · rw [ht', hPB]; exact LastIdx.pred hB hil
    · exact hj.same hS (by rw [← hPS]; linarith) (by linarith)
  · rw [if_neg c1]
    by_cases c2 : u > v * ρ
    · rw [if_pos c2]
      have hvp : 0 < v * ρ := mul_pos hvpos hρ
      have ht' : (t - v) * ρ = t * ρ - v * ρ := by ring
      rw [modB (t - v) _ (by rw [ht']; linarith) (by rw [ht']; linarith) (fun o => by
          simp only [Order.subBuy, withBuy_withBuy, withBuy_buy, ht']; congr 1; linarith),
        modS (t - v) _ (by linarith) (by linarith) (fun o => by
          simp only [Order.clearBuy, withBuy_withBuy]; congr 1; linarith)]
      refine ⟨i, (j : ℤ) - 1, t - v, rfl, ?_, ?_, by linarith, by omega, by rw [ht']; linarith, by linarith⟩
      · exact hi.same hB (by rw [← hPB, ht']; linarith) (by rw [ht']; linarith)
      · have : t - v = PS := by rw [hv]; ring
        rw [this, hPS]; exact LastIdx.pred hS hjl
    · rw [if_neg c2]
      have huv : u = v * ρ := le_antisymm (not_lt.1 c2) (not_lt.1 c1)
      have ht' : (t - v) * ρ = PB := by rw [sub_mul, ← huv, hu]; ring
      have ht2 : t - v = PS := by rw [hv]; ring
      rw [modB (t - v) _ ht'.ge (by linarith) (fun o => by
          simp only [Order.clearBuy, withBuy_withBuy, ht', sub_self]),
        modS (t - v) _ (by linarith) (by linarith) (fun o => by
          simp only [Order.clearBuy, withBuy_withBuy]; congr 1; linarith)]
      refine ⟨(i : ℤ) - 1, (j : ℤ) - 1, t - v, rfl, ?_, ?_, by linarith, by omega, ht'.ge, ht2.ge⟩
      · rw [ht', hPB]; exact LastIdx.pred hB hil
      · rw [ht2, hPS]; exact LastIdx.pred hS hjl

/-- `remove_buy_amount`. -/
theorem removeBuyLoop_spec {cap : Order → ℚ} {os : List Order} (hpos : ∀ o ∈ os, 0 < cap o) :
    ∀ (fuel : ℕ) (k : ℤ) (t a : ℚ), LastIdx cap os t k → 0 ≤ a → a ≤ t → k + 2 ≤ fuel →
      ∃ k' : ℤ, removeBuyLoop fuel k (fillOrders cap t os) a = .ok (k', fillOrders cap (t - a) os) ∧
        LastIdx cap os (t - a) k' ∧ k' ≤ k := by
  intro fuel
  induction fuel with
  | zero => intro k t a h _ _ hf; have := h.1; push_cast at hf; omega
  | succ fuel ih =>
    intro k t a h ha hat hf
    simp only [removeBuyLoop]
    by_cases hapos : a > 0
    · rw [if_pos hapos]
      have hk : 0 ≤ k := (h.nonneg_iff hpos).2 (by linarith)
      obtain ⟨n, rfl⟩ := Int.eq_ofNat_of_zero_le hk
      obtain ⟨hnl, hb1, hb2⟩ := h.bounds
      obtain ⟨o, ho⟩ : ∃ o, os[n]? = some o := ⟨_, List.getElem?_eq_getElem hnl⟩
      rw [pyAssert_of (by omega), pyGet_nat (h.getElem? ho)]
      simp only [ok_bind, withBuy_buy]
      have len : n < (fillOrders cap t os).length := by simpa using hnl
      rw [pyModify_nat _ len]
      simp only [ok_bind]
      set P := preCap cap os n with hP
      have hmod : (fillOrders cap t os).modify n (Order.subBuy (min (t - P) a)) =
          fillOrders cap (t - min (t - P) a) os := by
        have h1 : min (t - P) a ≤ t - P := min_le_left _ _
        have h2 : 0 < min (t - P) a := lt_min (by linarith) hapos
        apply fillOrders_modify hpos hb1.le hb2 (by linarith) (by linarith)
        intro o _
        simp only [Order.subBuy, withBuy_withBuy, withBuy_buy]
        congr 1; ring
      rw [hmod]
      rcases le_total (t - P) a with hle | hle
      · rw [min_eq_left hle]
        have e : t - (t - P) = P := by ring
        rw [e]
        have hlast := LastIdx.pred (cap := cap) hpos hnl
        have hg : (fillOrders cap P os)[n]? = some (o.withBuy 0) := by
          rw [fillOrders_getElem?, ho]
          simp only [Option.map_some, ← hP, sub_self]
          rw [min_eq_right (hpos o (List.mem_of_getElem? ho)).le, max_self]
        rw [pyGet_nat hg]
        simp only [ok_bind, withBuy_buy, if_true]
        obtain ⟨k', h1, h2, h3⟩ := ih ((n : ℤ) - 1) P (a - (t - P)) hlast (by linarith) (by linarith)
          (by push_cast at hf; omega)
        have e2 : P - (a - (t - P)) = t - a := by ring
        rw [e2] at h1 h2
        exact ⟨k', h1, h2, by omega⟩
      · rw [min_eq_right hle]
        by_cases hze : t - a - P = 0
        · have e : t - a = P := by linarith
          have hg : (fillOrders cap (t - a) os)[n]? = some (o.withBuy 0) := by
            rw [fillOrders_getElem?, ho]
            simp only [Option.map_some, ← hP, hze]
            rw [min_eq_right (hpos o (List.mem_of_getElem? ho)).le, max_self]
          rw [pyGet_nat hg]
          simp only [ok_bind, withBuy_buy, if_true, sub_self]
          have hlast := LastIdx.pred (cap := cap) hpos hnl
          rw [← hP, ← e] at hlast
          obtain ⟨k', h1, h2, h3⟩ := ih ((n : ℤ) - 1) (t - a) 0 hlast le_rfl (by linarith [preCap_nonneg (cap := cap) hpos n])
            (by push_cast at hf; omega)
          simp only [sub_zero] at h1 h2
          exact ⟨k', h1, h2, by omega⟩
        · have hlt : P < t - a := lt_of_le_of_ne (by linarith) (fun hc => hze (by linarith))
          have hs : LastIdx cap os (t - a) (n : ℤ) := h.same hpos hlt (by linarith)
          rw [pyGet_nat (hs.getElem? ho)]
          simp only [ok_bind, withBuy_buy, ← hP, hze, if_false, sub_self]
          cases fuel with
          | zero => push_cast at hf; omega
          | succ fuel =>
            refine ⟨n, ?_, hs, le_rfl⟩
            simp [removeBuyLoop]
    · rw [if_neg hapos]
      have : a = 0 := le_antisymm (not_lt.1 hapos) ha
      subst this
      exact ⟨k, by simp, by simpa using h, le_rfl⟩

theorem removeBuyAmount_spec {cap : Order → ℚ} {os : List Order} (hpos : ∀ o ∈ os, 0 < cap o) {k : ℤ} {t a : ℚ}
    (h : LastIdx cap os t k) (ha : 0 ≤ a) (hat : a ≤ t) :
    ∃ k' : ℤ, removeBuyAmount k (fillOrders cap t os) a = .ok (k', fillOrders cap (t - a) os) ∧
        LastIdx cap os (t - a) k' ∧ k' ≤ k := by
  apply removeBuyLoop_spec hpos _ k t a h ha hat
  have := h.2.1
  simp; omega

/-- Both sides of a fill are empty together. -/
theorem bothOrNone_of {i j : ℤ} {t : ℚ} (hx : 0 < x) (hf : fee.value < 1)
    (hB : ∀ o ∈ B, 0 < capB x fee o) (hS : ∀ o ∈ S, 0 < capS x fee o)
    (hi : LastIdx (capB x fee) B (t * ratio x fee) i) (hj : LastIdx (capS x fee) S t j) : bothOrNone i j := by
  have hρ := ratio_pos hx hf
  have h1 := hi.neg_iff hB
  have h2 := hj.neg_iff hS
  have h3 := hi.1
  have h4 := hj.1
  have e : t * ratio x fee = 0 ↔ t = 0 := by simp [hρ.ne']
  unfold bothOrNone
  by_cases hz : t = 0
  · left; constructor
    · have := h1.2 (e.2 hz); omega
    · have := h2.2 hz; omega
  · right; constructor
    · by_contra hc; exact hz (e.1 (h1.1 (by omega)))
    · by_contra hc; exact hz (h2.1 (by omega))

/-- `undo_b_order_execution`. -/
theorem undoB_step (hx : 0 < x) (hf : fee.value < 1)
    (hB : ∀ o ∈ B, 0 < capB x fee o) (hS : ∀ o ∈ S, 0 < capS x fee o) {i : ℕ} {j : ℤ} {t : ℚ}
    (hi : LastIdx (capB x fee) B (t * ratio x fee) i) (hj : LastIdx (capS x fee) S t j) :
    ∃ (i' j' : ℤ) (t' : ℚ), undoB x fee (stateAt x fee B S i j t) = .ok (stateAt x fee B S i' j' t') ∧
      LastIdx (capB x fee) B (t' * ratio x fee) i' ∧ LastIdx (capS x fee) S t' j' ∧ 0 ≤ t' ∧ t' ≤ t ∧
      i' + 1 = i ∧ j' ≤ j ∧ t' * ratio x fee = preCap (capB x fee) B i := by
  have hφ : 0 < 1 - fee.value := by linarith
  have hρ := ratio_pos hx hf
  obtain ⟨hil, hb1, hb2⟩ := hi.bounds
  obtain ⟨bo, hbo⟩ : ∃ bo, B[i]? = some bo := ⟨_, List.getElem?_eq_getElem hil⟩
  have gb := pyGet_nat (hi.getElem? hbo)
  have hPB0 := preCap_nonneg (cap := capB x fee) hB i
  set ρ := ratio x fee with hρd
  set PB := preCap (capB x fee) B i with hPB
  have e2 : ∀ u : ℚ, u * x / (1 - fee.value) = u / ρ := by intro u; rw [hρd]; unfold ratio; field_simp
  have hpos : 0 < (t * ρ - PB) / ρ := div_pos (by linarith) hρ
  have ht' : (t - (t * ρ - PB) / ρ) * ρ = PB := by rw [sub_mul, div_mul_cancel₀ _ hρ.ne']; ring
  have hle : (t * ρ - PB) / ρ ≤ t := by rw [div_le_iff₀ hρ]; linarith
  obtain ⟨j', hr1, hr2, hr3⟩ := removeBuyAmount_spec hS hj hpos.le hle
  have lenB : i < (fillOrders (capB x fee) (t * ρ) B).length := by simpa using hil
  have hmod : List.modify (fillOrders (capB x fee) (t * ρ) B) i Order.clearBuy =
      fillOrders (capB x fee) ((t - (t * ρ - PB) / ρ) * ρ) B := by
    apply fillOrders_modify hB hb1.le hb2 (by rw [ht']) (by rw [ht']; linarith)
    intro o _
    simp only [Order.clearBuy, withBuy_withBuy, ht', ← hPB, sub_self]
  have hi' : LastIdx (capB x fee) B ((t - (t * ρ - PB) / ρ) * ρ) ((i : ℤ) - 1) := by
    rw [ht', hPB]; exact LastIdx.pred hB hil
  simp only [undoB, stateAt, ← hρd, gb, ok_bind, sBuyFromBBuy, pyDiv_of_ne hφ.ne', withBuy_buy, e2, hr1,
    pyModify_nat _ lenB, hmod]
  rw [pyAssert_of (bothOrNone_of hx hf hB hS hi' hr2)]
  exact ⟨(i : ℤ) - 1, j', _, rfl, hi', hr2, by linarith, by linarith, by ring, hr3, ht'⟩

/-- `undo_s_order_execution`. -/
theorem undoS_step (hx : 0 < x) (hf : fee.value < 1)
    (hB : ∀ o ∈ B, 0 < capB x fee o) (hS : ∀ o ∈ S, 0 < capS x fee o) {i : ℤ} {j : ℕ} {t : ℚ}
    (hi : LastIdx (capB x fee) B (t * ratio x fee) i) (hj : LastIdx (capS x fee) S t j) :
    ∃ (i' j' : ℤ) (t' : ℚ), undoS x fee (stateAt x fee B S i j t) = .ok (stateAt x fee B S i' j' t') ∧
      LastIdx (capB x fee) B (t' * ratio x fee) i' ∧ LastIdx (capS x fee) S t' j' ∧ 0 ≤ t' ∧ t' ≤ t ∧
      i' ≤ i ∧ j' + 1 = j ∧ t' = preCap (capS x fee) S j := by
  have hρ := ratio_pos hx hf
  obtain ⟨hjl, hs1, hs2⟩ := hj.bounds
  obtain ⟨so, hso⟩ : ∃ so, S[j]? = some so := ⟨_, List.getElem?_eq_getElem hjl⟩
  have gs := pyGet_nat (hj.getElem? hso)
  have hPS0 := preCap_nonneg (cap := capS x fee) hS j
  set ρ := ratio x fee with hρd
  set PS := preCap (capS x fee) S j with hPS
  have e1 : ∀ u : ℚ, u / x * (1 - fee.value) = u * ρ := by intro u; rw [hρd]; unfold ratio; ring
  have hpos : 0 < (t - PS) * ρ := mul_pos (by linarith) hρ
  have hle : (t - PS) * ρ ≤ t * ρ := by
    apply mul_le_mul_of_nonneg_right _ hρ.le; linarith
  obtain ⟨i', hr1, hr2, hr3⟩ := removeBuyAmount_spec hB hi hpos.le hle
  have e3 : t * ρ - (t - PS) * ρ = PS * ρ := by ring
  rw [e3] at hr1 hr2
  have lenS : j < (fillOrders (capS x fee) t S).length := by simpa using hjl
  have hmod : List.modify (fillOrders (capS x fee) t S) j Order.clearBuy = fillOrders (capS x fee) PS S := by
    apply fillOrders_modify hS hs1.le hs2 (by rw [hPS]) (by linarith)
    intro o _
    simp only [Order.clearBuy, withBuy_withBuy, ← hPS, sub_self]
  have hj' : LastIdx (capS x fee) S PS ((j : ℤ) - 1) := by
    rw [hPS]; exact LastIdx.pred hS hjl
  simp only [undoS, stateAt, ← hρd, gs, ok_bind, bBuyFromSBuy, pyDiv_of_ne hx.ne', withBuy_buy, pure_eq_ok, e1, hr1,
    pyModify_nat _ lenS, hmod]
  rw [pyAssert_of (bothOrNone_of hx hf hB hS hr2 hj')]
  exact ⟨i', (j : ℤ) - 1, PS, rfl, hr2, hj', hPS0, by linarith, hr3, by ring, rfl⟩

/-- The last executed orders meet the minimum tradable amount (or nothing is executed). -/
def LastOk (cfg : Config) (x : ℚ) (fee : Fee) (B S : List Order) (t : ℚ) : Prop :=
  t = 0 ∨ ∃ i j : ℕ, LastIdx (capB x fee) B (t * ratio x fee) i ∧ LastIdx (capS x fee) S t j ∧
    (cfg.minRationalTradable : ℚ) ≤ t * ratio x fee - preCap (capB x fee) B i ∧
    (cfg.minRationalTradable : ℚ) ≤ (t * ratio x fee - preCap (capB x fee) B i) * x / (1 - fee.value) ∧
    (cfg.minRationalTradable : ℚ) ≤ t - preCap (capS x fee) S j ∧
    (cfg.minRationalTradable : ℚ) ≤ (t - preCap (capS x fee) S j) / x / (1 - fee.value)

theorem LastIdx.unique {cap : Order → ℚ} {os : List Order} (hpos : ∀ o ∈ os, 0 < cap o) {t : ℚ} {k l : ℕ}
    (h : LastIdx cap os t k) (h' : LastIdx cap os t l) : k = l := by
  obtain ⟨_, a1, a2⟩ := h.bounds
  obtain ⟨_, b1, b2⟩ := h'.bounds
  by_contra hne
  rcases Nat.lt_or_gt_of_ne hne with hlt | hlt
  · have := preCap_mono (cap := cap) hpos (show k + 1 ≤ l by omega); linarith
  · have := preCap_mono (cap := cap) hpos (show l + 1 ≤ k by omega); linarith

/-- The last index grows with the amount. -/
theorem LastIdx.le_of_lt {cap : Order → ℚ} {os : List Order} (hpos : ∀ o ∈ os, 0 < cap o) {t : ℚ} {k : ℕ} {a : ℤ}
    (h : LastIdx cap os t a) (hk : preCap cap os k < t) : (k : ℤ) ≤ a := by
  by_contra hc
  have := preCap_mono (cap := cap) hpos (show (a + 1).toNat ≤ k by have := h.1; omega)
  have := h.2.2.2.1
  linarith

/-- A smaller amount that does not reach into the last order fits into the orders before it. -/
theorem LastIdx.le_preCap {cap : Order → ℚ} {os : List Order} (hpos : ∀ o ∈ os, 0 < cap o) {t : ℚ} {k : ℕ} {a : ℤ}
    (h : LastIdx cap os t a) (hk : a < k) : t ≤ preCap cap os k := by
  have := preCap_mono (cap := cap) hpos (show (a + 1).toNat ≤ k by have := h.1; omega)
  exact h.2.2.2.1.trans this

/-- `undo_order_execution_violating_min_tradable_amount_constraint`. -/
theorem undoMinTradable_step (cfg : Config) (hx : 0 < x) (hf : fee.value < 1)
    (hB : ∀ o ∈ B, 0 < capB x fee o) (hS : ∀ o ∈ S, 0 < capS x fee o) {i j : ℤ} {t : ℚ}
    (hi : LastIdx (capB x fee) B (t * ratio x fee) i) (hj : LastIdx (capS x fee) S t j) :
    ∃ (i' j' : ℤ) (t' : ℚ) (undone : Bool),
      undoMinTradable cfg x fee (stateAt x fee B S i j t) = .ok (stateAt x fee B S i' j' t', undone) ∧
      LastIdx (capB x fee) B (t' * ratio x fee) i' ∧ LastIdx (capS x fee) S t' j' ∧ 0 ≤ t' ∧ t' ≤ t ∧
      i' + j' ≤ i + j ∧
      (∀ u, u ≤ t → LastOk cfg x fee B S u → u ≤ t') ∧
      (undone = true → i' + j' + 1 ≤ i + j ∧ ¬ LastOk cfg x fee B S t) ∧
      (undone = false → t' = t ∧ i' = i ∧ j' = j ∧ LastOk cfg x fee B S t) := by
  have hφ : 0 < 1 - fee.value := by linarith
  have ht0 : 0 ≤ t := hj.2.2.1
  unfold undoMinTradable
  by_cases hneg : i < 0
  · rw [if_pos (by simpa [stateAt] using hneg)]
    have hz : t = 0 := by
      have := (hi.neg_iff hB).1 hneg
      simpa [(ratio_pos hx hf).ne'] using this
    exact ⟨i, j, t, false, rfl, hi, hj, ht0, le_rfl, le_rfl, fun _ h _ => h, by simp, fun _ => ⟨rfl, rfl, rfl, .inl hz⟩⟩
  · rw [if_neg (by simpa [stateAt] using hneg)]
    obtain ⟨n, rfl⟩ := Int.eq_ofNat_of_zero_le (not_lt.1 hneg)
    obtain ⟨hil, hb1, hb2⟩ := hi.bounds
    obtain ⟨bo, hbo⟩ : ∃ bo, B[n]? = some bo := ⟨_, List.getElem?_eq_getElem hil⟩
    have gb := pyGet_nat (hi.getElem? hbo)
    -- first half
    have half1 : ∃ (i1 j1 : ℤ) (t1 : ℚ) (u1 : Bool),
        undoMinB cfg x fee (stateAt x fee B S n j t) = .ok (stateAt x fee B S i1 j1 t1, u1) ∧
        LastIdx (capB x fee) B (t1 * ratio x fee) i1 ∧ LastIdx (capS x fee) S t1 j1 ∧ 0 ≤ t1 ∧ t1 ≤ t ∧
        (∀ u, u ≤ t → LastOk cfg x fee B S u → u ≤ t1) ∧
        (u1 = true → i1 + j1 + 1 ≤ (n : ℤ) + j ∧ ¬ LastOk cfg x fee B S t) ∧
        (u1 = false → t1 = t ∧ i1 = n ∧ j1 = j ∧
          (cfg.minRationalTradable : ℚ) ≤ t * ratio x fee - preCap (capB x fee) B n ∧
          (cfg.minRationalTradable : ℚ) ≤ (t * ratio x fee - preCap (capB x fee) B n) * x / (1 - fee.value)) := by
      unfold undoMinB
      have gb' : pyGet (stateAt x fee B S n j t).b (stateAt x fee B S n j t).bi =
        .ok (bo.withBuy (t * ratio x fee - preCap (capB x fee) B n)) := gb
      simp only [gb', ok_bind, bSellFromBBuy, pyDiv_of_ne hφ.ne', withBuy_buy]
      split
      · rename_i hc
        obtain ⟨i1, j1, t1, h1, h2, h3, h4, h5, h6, h7, h8⟩ := undoB_step hx hf hB hS hi hj
        rw [h1]
        refine ⟨i1, j1, t1, true, rfl, h2, h3, h4, h5, ?_, fun _ => ⟨by omega, ?_⟩, by simp⟩
        · rintro u hut (rfl | ⟨k, l, k1, l1, k2, k3, _⟩)
          · exact h4
          have hρ := ratio_pos hx hf
          have hutρ : u * ratio x fee ≤ t * ratio x fee := mul_le_mul_of_nonneg_right hut hρ.le
          rcases lt_or_ge k n with hkn | hkn
          · have := k1.le_preCap hB (show (k : ℤ) < n by omega)
            rw [← h8] at this
            exact le_of_mul_le_mul_right this hρ
          · exfalso
            have hpk := preCap_mono (cap := capB x fee) hB hkn
            have e : (u * ratio x fee - preCap (capB x fee) B k) * x / (1 - fee.value) ≤
                (t * ratio x fee - preCap (capB x fee) B n) * x / (1 - fee.value) :=
              div_le_div_of_nonneg_right (mul_le_mul_of_nonneg_right (by linarith) hx.le) hφ.le
            rcases hc with hc | hc <;> linarith
        rintro (hz | ⟨k, l, k1, l1, k2, k3, _⟩)
        · have := preCap_nonneg (cap := capB x fee) hB n
          rw [hz, zero_mul] at hb1; linarith
        · rw [← hi.unique hB k1] at k2 k3
          rcases hc with hc | hc <;> linarith
      · rename_i hc
        rw [not_or, not_lt, not_lt] at hc
        exact ⟨n, j, t, false, rfl, hi, hj, ht0, le_rfl, fun _ h _ => h, by simp, fun _ => ⟨rfl, rfl, rfl, hc.1, hc.2⟩⟩
    obtain ⟨i1, j1, t1, u1, h1, hi1, hj1, ht1, htt1, hg1, hu1, hu1'⟩ := half1
    rw [h1]
    simp only [ok_bind]
    have hle1 : i1 + j1 ≤ (n : ℤ) + j := by
      cases u1
      · obtain ⟨_, h, h', _⟩ := hu1' rfl; omega
      · have := hu1 rfl; omega
    by_cases hneg1 : j1 < 0
    · rw [if_pos (by simpa [stateAt] using hneg1)]
      refine ⟨i1, j1, t1, u1, rfl, hi1, hj1, ht1, htt1, hle1, hg1, hu1, ?_⟩
      intro hu
      obtain ⟨e1, e2, e3, e4, e5⟩ := hu1' hu
      exfalso
      have hz := (hj1.neg_iff hS).1 hneg1
      rw [e1] at hz
      have := (hi.nonneg_iff hB).1 (by omega)
      rw [hz] at this; simp at this
    · rw [if_neg (by simpa [stateAt] using hneg1)]
      obtain ⟨m, rfl⟩ := Int.eq_ofNat_of_zero_le (not_lt.1 hneg1)
      obtain ⟨hjl, hs1, hs2⟩ := hj1.bounds
      obtain ⟨so, hso⟩ : ∃ so, S[m]? = some so := ⟨_, List.getElem?_eq_getElem hjl⟩
      have gs := pyGet_nat (hj1.getElem? hso)
      unfold undoMinS
      have gs' : pyGet (stateAt x fee B S i1 m t1).s (stateAt x fee B S i1 m t1).si =
        .ok (so.withBuy (t1 - preCap (capS x fee) S m)) := gs
      simp only [gs', ok_bind, sSellFromSBuy, pyDiv_of_ne hφ.ne', pyDiv_of_ne hx.ne', withBuy_buy]
      split
      · rename_i hc
        obtain ⟨i2, j2, t2, g1, g2, g3, g4, g5, g6, g7, g8⟩ := undoS_step hx hf hB hS hi1 hj1
        rw [g1]
        refine ⟨i2, j2, t2, true, rfl, g2, g3, g4, by linarith, by omega, ?_, fun _ => ⟨by omega, ?_⟩, by simp⟩
        · intro u hut huok
          have hut1 := hg1 u hut huok
          rcases huok with rfl | ⟨k, l, k1, l1, _, _, k2, k3⟩
          · exact g4
          rcases lt_or_ge l m with hlm | hlm
          · have := l1.le_preCap hS (show (l : ℤ) < m by omega)
            rwa [← g8] at this
          · exfalso
            have hpl := preCap_mono (cap := capS x fee) hS hlm
            have e : (u - preCap (capS x fee) S l) / x / (1 - fee.value) ≤ (t1 - preCap (capS x fee) S m) / x / (1 - fee.value) :=
              div_le_div_of_nonneg_right (div_le_div_of_nonneg_right (by linarith) hx.le) hφ.le
            rcases hc with hc | hc <;> linarith
        cases u1 with
        | true => exact (hu1 rfl).2
        | false =>
          obtain ⟨e1, e2, e3, e4, e5⟩ := hu1' rfl
          subst e1
          rintro (hz | ⟨k, l, k1, l1, _, _, k2, k3⟩)
          · have := preCap_nonneg (cap := capS x fee) hS m
            rw [hz] at hs1; linarith
          · rw [← hj1.unique hS l1] at k2 k3
            rcases hc with hc | hc <;> linarith
      · rename_i hc
        rw [not_or, not_lt, not_lt] at hc
        refine ⟨i1, m, t1, u1, rfl, hi1, hj1, ht1, htt1, hle1, hg1, hu1, ?_⟩
        intro hu
        obtain ⟨e1, e2, e3, e4, e5⟩ := hu1' hu
        subst e1 e2
        exact ⟨rfl, rfl, e3, .inr ⟨n, m, hi1, hj1, e4, e5, hc.1, hc.2⟩⟩

/-- The undo loop. -/
theorem undoLoop_spec (cfg : Config) (hx : 0 < x) (hf : fee.value < 1)
    (hB : ∀ o ∈ B, 0 < capB x fee o) (hS : ∀ o ∈ S, 0 < capS x fee o) :
    ∀ (fuel : ℕ) (i j : ℤ) (t : ℚ), i + j + 3 ≤ fuel →
      LastIdx (capB x fee) B (t * ratio x fee) i → LastIdx (capS x fee) S t j →
      ∃ (i' j' : ℤ) (t' : ℚ),
        undoLoop cfg x fee fuel (stateAt x fee B S i j t) = .ok (stateAt x fee B S i' j' t') ∧
        LastIdx (capB x fee) B (t' * ratio x fee) i' ∧ LastIdx (capS x fee) S t' j' ∧ 0 ≤ t' ∧ t' ≤ t ∧
        i' + j' ≤ i + j ∧ LastOk cfg x fee B S t' ∧ (LastOk cfg x fee B S t → t' = t) ∧
        (∀ u, u ≤ t → LastOk cfg x fee B S u → u ≤ t') := by
  intro fuel
  induction fuel with
  | zero => intro i j t hfuel hi hj; have := hi.1; have := hj.1; push_cast at hfuel; omega
  | succ fuel ih =>
    intro i j t hfuel hi hj
    obtain ⟨i1, j1, t1, u1, h1, hi1, hj1, ht1, htt, hle, hg, hu, hu'⟩ := undoMinTradable_step cfg hx hf hB hS hi hj
    simp only [undoLoop, h1, ok_bind]
    cases u1 with
    | false =>
      obtain ⟨e1, e2, e3, hok⟩ := hu' rfl
      simp only [Bool.false_eq_true, if_false]
      exact ⟨i1, j1, t1, rfl, hi1, hj1, ht1, htt, hle, e1 ▸ hok, fun _ => e1, hg⟩
    | true =>
      simp only [if_true]
      obtain ⟨hlt, hnok⟩ := hu rfl
      obtain ⟨i2, j2, t2, g1, g2, g3, g4, g5, g6, g7, g8, g9⟩ := ih i1 j1 t1 (by push_cast at hfuel; omega) hi1 hj1
      refine ⟨i2, j2, t2, g1, g2, g3, g4, by linarith, by omega, g7, fun h => absurd h hnok,
        fun u h1 h2 => g9 u (hg u h1 h2) h2⟩

/-- What `compute_buy_amounts` does with the sorted, filtered lists. -/
theorem executeSorted_spec (cfg : Config) (maxNr : ℤ) (hmax : 0 ≤ maxNr) (hx : 0 < x) (hf : fee.value < 1)
    (hB : ∀ o ∈ B, 0 < capB x fee o) (hS : ∀ o ∈ S, 0 < capS x fee o)
    (hBz : ∀ o ∈ B, o.buy = 0) (hSz : ∀ o ∈ S, o.buy = 0) :
    ∃ (i j : ℤ) (t : ℚ), executeSorted cfg x fee maxNr B S =
        .ok (fillOrders (capB x fee) (t * ratio x fee) B, fillOrders (capS x fee) t S) ∧
      LastIdx (capB x fee) B (t * ratio x fee) i ∧ LastIdx (capS x fee) S t j ∧ 0 ≤ t ∧
      i + j + 2 ≤ maxNr ∧ LastOk cfg x fee B S t ∧
      (∀ u : ℚ, (u * ratio x fee = preCap (capB x fee) B B.length ∧ u ≤ preCap (capS x fee) S S.length ∨
          u * ratio x fee ≤ preCap (capB x fee) B B.length ∧ u = preCap (capS x fee) S S.length) →
        LastOk cfg x fee B S u → (B.length : ℤ) + S.length ≤ maxNr → t = u) ∧
      (∀ (u : ℚ) (a c : ℤ), LastIdx (capB x fee) B (u * ratio x fee) a → LastIdx (capS x fee) S u c → a + c + 2 ≤ maxNr →
        LastOk cfg x fee B S u → u ≤ t) := by
  have hρ := ratio_pos hx hf
  have hφ : 0 < 1 - fee.value := by linarith
  have init : (⟨0, 0, B, S⟩ : ExecState) = stateAt x fee B S (0 : ℕ) (0 : ℕ) 0 := by
    simp [stateAt, fillOrders_zero hBz hB, fillOrders_zero hSz hS]
  have f0 : FrontIdx (capB x fee) B (0 * ratio x fee) 0 := FrontIdx.full hB (Nat.zero_le _) (by simp)
  have g0 : FrontIdx (capS x fee) S 0 0 := FrontIdx.full hS (Nat.zero_le _) (by simp)
  obtain ⟨i1, j1, t1, e1, hi1, hj1, ht1, hc1, hex1⟩ := execLoop_spec hx hf hB hS maxNr (B.length + S.length + 1)
    0 0 0 (by omega) f0 g0 le_rfl (by simp [execCount]; omega)
  obtain ⟨i2, l1, hi2, c1⟩ := lastExecuted_spec hB hi1 (mul_nonneg ht1 hρ.le)
  obtain ⟨j2, l2, hj2, c2⟩ := lastExecuted_spec hS hj1 ht1
  have l1' : lastExecuted (stateAt x fee B S i1 j1 t1).b (stateAt x fee B S i1 j1 t1).bi = .ok i2 := l1
  have l2' : lastExecuted (stateAt x fee B S i1 j1 t1).s (stateAt x fee B S i1 j1 t1).si = .ok j2 := l2
  have hst : ({ stateAt x fee B S i1 j1 t1 with bi := i2, si := j2 } : ExecState) = stateAt x fee B S i2 j2 t1 := rfl
  unfold executeSorted
  rw [init, e1]
  simp only [ok_bind, l1', l2']
  rw [hst]
  -- the optional undo of one pair
  have step : ∃ (i3 j3 : ℤ) (t3 : ℚ),
      (∀ k : ExecState → Py (List Order × List Order), (if i2 + j2 + 2 > maxNr then do
        pyAssert (i2 + j2 + 2 = maxNr + 1) "amount.py:367"
        let st ← undoOrderPair x fee (stateAt x fee B S i2 j2 t1)
        k st
      else do
        let st ← pure (stateAt x fee B S i2 j2 t1)
        k st) = k (stateAt x fee B S i3 j3 t3)) ∧
      LastIdx (capB x fee) B (t3 * ratio x fee) i3 ∧ LastIdx (capS x fee) S t3 j3 ∧ i3 + j3 + 2 ≤ maxNr ∧
      ((B.length : ℤ) + S.length ≤ maxNr → t3 = t1) ∧
      (∀ (u : ℚ) (a c : ℤ), LastIdx (capB x fee) B (u * ratio x fee) a → LastIdx (capS x fee) S u c → a + c + 2 ≤ maxNr →
        u ≤ t1 → u ≤ t3) := by
    by_cases hgt : i2 + j2 + 2 > maxNr
    · simp only [if_pos hgt]
      rw [pyAssert_of (by omega)]
      simp only [ok_bind]
      have hb := bothOrNone_of hx hf hB hS hi2 hj2
      have hpos : 0 ≤ i2 ∧ 0 ≤ j2 := by
        unfold bothOrNone at hb; omega
      obtain ⟨n, rfl⟩ := Int.eq_ofNat_of_zero_le hpos.1
      obtain ⟨m, rfl⟩ := Int.eq_ofNat_of_zero_le hpos.2
      obtain ⟨i3, j3, t3, h1, h2, h3, h4, h5, h6, h7⟩ := undoOrderPair_step hx hf hB hS hi2 hj2
      refine ⟨i3, j3, t3, fun k => by rw [h1]; rfl, h2, h3, by omega, fun hbig => by
        have := hi2.2.1; have := hj2.2.1; omega, ?_⟩
      intro u a c ha hc hac _
      by_contra hlt
      have hlt := not_le.1 hlt
      have h8 := ha.le_of_lt hB (k := n) (lt_of_le_of_lt h6 (mul_lt_mul_of_pos_right hlt hρ))
      have h9 := hc.le_of_lt hS (k := m) (lt_of_le_of_lt h7 hlt)
      omega
    · simp only [if_neg hgt]
      exact ⟨i2, j2, t1, fun k => rfl, hi2, hj2, by omega, fun _ => rfl, fun _ _ _ _ _ _ h => h⟩
  obtain ⟨i3, j3, t3, h3, hi3, hj3, hnr, heq3, hgr3⟩ := step
  rw [h3 (fun st => do
    let st ← undoLoop cfg x fee (B.length + S.length + 1) st
    pyAssert ((st.b.map (·.buy)).sum * x = (st.s.map (·.buy)).sum * (1 - fee.value)) "amount.py:382"
    pure (st.b, st.s))]
  obtain ⟨i4, j4, t4, h4, hi4, hj4, ht4, htt, hle, hok, hkeep, hgr4⟩ := undoLoop_spec cfg hx hf hB hS (B.length + S.length + 1) i3 j3 t3
    (by have := hi3.2.1; have := hj3.2.1; push_cast; omega) hi3 hj3
  rw [h4]
  simp only [ok_bind]
  have hsumB : ((fillOrders (capB x fee) (t4 * ratio x fee) B).map (·.buy)).sum = t4 * ratio x fee := by
    apply fillOrders_sum hB hi4.2.2.1
    rw [← preCap_length]
    refine le_trans hi4.2.2.2.1 (preCap_mono hB ?_)
    have := hi4.2.1; omega
  have hsumS : ((fillOrders (capS x fee) t4 S).map (·.buy)).sum = t4 := by
    apply fillOrders_sum hS hj4.2.2.1
    rw [← preCap_length]
    refine le_trans hj4.2.2.2.1 (preCap_mono hS ?_)
    have := hj4.2.1; omega
  rw [pyAssert_of (by
    simp only [stateAt, hsumB, hsumS]
    unfold ratio
    rw [mul_assoc, div_mul_cancel₀ _ hx.ne'])]
  refine ⟨i4, j4, t4, rfl, hi4, hj4, ht4, by omega, hok, ?_, ?_⟩
  swap
  · intro u a c ha hc hac huok
    refine hgr4 u (hgr3 u a c ha hc hac ?_) huok
    by_contra hlt
    have hlt := not_le.1 hlt
    have hltρ := mul_lt_mul_of_pos_right hlt hρ
    have utB : u * ratio x fee ≤ preCap (capB x fee) B B.length :=
      ha.le_preCap hB ha.2.1
    have utS : u ≤ preCap (capS x fee) S S.length := hc.le_preCap hS hc.2.1
    rcases hex1 with h | h | h
    · have := hi1.pre_le; rw [h] at this; linarith
    · have := hj1.pre_le; rw [h] at this; linarith
    · have h8 := ha.le_of_lt hB (k := i1) (lt_of_le_of_lt hi1.pre_le hltρ)
      have h9 := hc.le_of_lt hS (k := j1) (lt_of_le_of_lt hj1.pre_le hlt)
      omega
  intro u hu huok hbig
  have ht1u : t1 = u := by
    have b1 := hi1.le_tot
    have s1 := hj1.le_tot
    have b2 := hi1.le_len
    have s2 := hj1.le_len
    have b3 := hi1.pre_le
    have s3 := hj1.pre_le
    have hcases : i1 = B.length ∨ j1 = S.length := by omega
    have hmul : ∀ p q : ℚ, p * ratio x fee ≤ q * ratio x fee → p ≤ q := fun p q h => le_of_mul_le_mul_right h hρ
    rcases hcases with h | h
    · rw [h] at b3
      have e : t1 * ratio x fee = preCap (capB x fee) B B.length := le_antisymm b1 b3
      rcases hu with ⟨h1, h2⟩ | ⟨h1, h2⟩
      · exact le_antisymm (hmul _ _ (by linarith)) (hmul _ _ (by linarith))
      · exact le_antisymm (by linarith) (hmul _ _ (by linarith))
    · rw [h] at s3
      have e : t1 = preCap (capS x fee) S S.length := le_antisymm s1 s3
      rcases hu with ⟨h1, h2⟩ | ⟨h1, h2⟩
      · exact le_antisymm (hmul _ _ (by linarith)) (by linarith)
      · linarith
  have e3 := heq3 hbig
  rw [hkeep (by rw [e3, ht1u]; exact huok), e3, ht1u]

end

end Dex
