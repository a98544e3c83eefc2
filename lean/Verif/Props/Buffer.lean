import Verif.Proof.Solver

/-! # Property C29: the rounding buffer -/

namespace Dex

namespace Spec

/-- Size of the rounding buffer of an order: the amount of its buy token (price `pb`) worth `maxRoundingVolume` of the fee token
(price `pf`), rounded up, converted to its sell token at rate `x` with the price-estimation slack, rounded up. -/
def bufferSize (cfg : Config) (pf pb x : ℚ) : ℤ :=
  ⌈(⌈(cfg.maxRoundingVolume : ℚ) / (pb / pf)⌉ : ℚ) * x * (cfg.priceEstimationError : ℚ) ^ 2⌉

/-- The order with its maximum sell amount reduced by `d`, but not below zero. -/
def reduced (d : ℤ) (o : Order) : Order := { o with maxSell := max (o.maxSell - d) 0 }

/-- Same order with a maximum sell amount that is not negative, not larger, and strictly smaller if it was positive. -/
structure Tighter (o o' : Order) : Prop where
  same : o' = { o with maxSell := o'.maxSell }
  nonneg : 0 ≤ o'.maxSell
  le : o'.maxSell ≤ o.maxSell
  lt : 0 < o.maxSell → o'.maxSell < o.maxSell

end Spec

open Spec

/-- Inputs of the rounding buffer as the solver uses it: a pair of tokens other than the fee token, positive rate and prices, orders of
the pair whose maximum sell amounts lie between zero and the original ones. -/
structure BufferInput (cfg : Config) (pair : Token × Token) (b s : List Order) (x p : ℚ) (fee : Fee) : Prop where
  rate : 0 < x
  price : 0 < p
  feePrice : 0 < cfg.feeTokenPrice
  volume : 0 < cfg.maxRoundingVolume
  slack : cfg.priceEstimationError ≠ 0
  ne : pair.1 ≠ pair.2
  neF1 : pair.1 ≠ fee.token
  neF2 : pair.2 ≠ fee.token
  clsB : ∀ o ∈ b, o.buyToken = pair.1 ∧ o.sellToken = pair.2
  clsS : ∀ o ∈ s, o.buyToken = pair.2 ∧ o.sellToken = pair.1
  amtB : ∀ o ∈ b, 0 ≤ o.maxSell ∧ o.maxSell ≤ o.origMaxSell
  amtS : ∀ o ∈ s, 0 ≤ o.maxSell ∧ o.maxSell ≤ o.origMaxSell

theorem bufferSize_pos {cfg : Config} {pf pb x : ℚ} (h1 : 0 < cfg.maxRoundingVolume) (h2 : cfg.priceEstimationError ≠ 0) (h3 : 0 < pf)
    (h4 : 0 < pb) (h5 : 0 < x) : 1 ≤ ⌈(cfg.maxRoundingVolume : ℚ) / (pb / pf)⌉ ∧ 1 ≤ bufferSize cfg pf pb x := by
  have hv : (0 : ℚ) < cfg.maxRoundingVolume := by exact_mod_cast h1
  have he : (0 : ℚ) < (cfg.priceEstimationError : ℚ) ^ 2 := by
    have : (cfg.priceEstimationError : ℚ) ≠ 0 := by exact_mod_cast h2
    positivity
  have h6 : 0 < ⌈(cfg.maxRoundingVolume : ℚ) / (pb / pf)⌉ := Int.ceil_pos.2 (by positivity)
  have h7 : (0 : ℚ) < ⌈(cfg.maxRoundingVolume : ℚ) / (pb / pf)⌉ := by exact_mod_cast h6
  exact ⟨h6, Int.ceil_pos.2 (mul_pos (mul_pos h7 h5) he)⟩

/-- C29. Entering the buffer raises nothing and reduces every maximum sell amount by exactly the buffer, to zero at the least. -/
theorem C29_enter_exact {cfg : Config} {pair : Token × Token} {b s : List Order} {x p : ℚ} {fee : Fee}
    (h : BufferInput cfg pair b s x p fee) :
    roundingBufferEnter cfg pair b s x p fee =
      .ok (b.map (reduced (bufferSize cfg cfg.feeTokenPrice p x)), s.map (reduced (bufferSize cfg cfg.feeTokenPrice (p / x) (1 / x)))) := by
  obtain ⟨B, S⟩ := pair
  have hx := h.rate
  have hp := h.price
  have hP : (0 : ℚ) < cfg.feeTokenPrice := by exact_mod_cast h.feePrice
  have hq : 0 < p / x := div_pos hp hx
  have hBS : B ≠ S := h.ne
  have hBF : B ≠ fee.token := h.neF1
  have hSF : S ≠ fee.token := h.neF2
  unfold roundingBufferEnter aggregateOrdersPrices
  simp only [pyDiv_of_ne hx.ne', ok_bind, pure_eq_ok, List.append_nil]
  generalize hpr : dictSet (dictSet [(fee.token, (cfg.feeTokenPrice : ℚ))] B p) S (p / x) = prices
  have gF : dictGet? prices fee.token = some (cfg.feeTokenPrice : ℚ) := by
    rw [← hpr, dictGet?_dictSet, if_neg hSF, dictGet?_dictSet, if_neg hBF]; simp [dictGet?_cons]
  have gB : dictGet? prices B = some p := by
    rw [← hpr, dictGet?_dictSet, if_neg hBS.symm, dictGet?_dictSet, if_pos rfl]
  have gS : dictGet? prices S = some (p / x) := by
    rw [← hpr, dictGet?_dictSet, if_pos rfl]
  obtain ⟨b1, b2⟩ := bufferSize_pos h.volume h.slack hP hp hx
  obtain ⟨s1, s2⟩ := bufferSize_pos h.volume h.slack hP hq (one_div_pos.2 hx)
  have hne1 : p / (cfg.feeTokenPrice : ℚ) ≠ 0 := (div_pos hp hP).ne'
  have hne2 : p / x / (cfg.feeTokenPrice : ℚ) ≠ 0 := (div_pos hq hP).ne'
  have hamt : ∃ amounts, maxRoundingAmounts cfg [B, S] prices fee = .ok amounts ∧
      dictGet? amounts B = some (⌈(cfg.maxRoundingVolume : ℚ) / (p / cfg.feeTokenPrice)⌉ : ℚ) ∧
      dictGet? amounts S = some (⌈(cfg.maxRoundingVolume : ℚ) / (p / x / cfg.feeTokenPrice)⌉ : ℚ) := by
    unfold maxRoundingAmounts
    refine ⟨dictSet (dictSet [] B (⌈(cfg.maxRoundingVolume : ℚ) / (p / cfg.feeTokenPrice)⌉ : ℚ)) S
      (⌈(cfg.maxRoundingVolume : ℚ) / (p / x / cfg.feeTokenPrice)⌉ : ℚ), ?_, ?_, ?_⟩
    rotate_left
    · rw [dictGet?_dictSet, if_neg hBS.symm, dictGet?_dictSet, if_pos rfl]
    · rw [dictGet?_dictSet, if_pos rfl]
    · rw [dictGet_of gF, ok_bind]
      simp only [foldE, gB, gS, Option.isSome_some, dictGet_of gB, dictGet_of gS, ok_bind, pyDiv_of_ne hP.ne', pyDiv_of_ne hne1,
        pyDiv_of_ne hne2, pyAssert_of, ge_iff_le, pyAssert_of b1, pyAssert_of s1, pure_eq_ok]
  obtain ⟨amounts, ea, aB, aS⟩ := hamt
  unfold setupRoundingBuffer
  rw [ea, ok_bind]
  have hstep : ∀ {o : Order} {pb ps amt : ℚ} {d : ℤ}, o.buyToken ∈ [B, S] → o.sellToken ∈ [B, S] → dictGet? prices o.buyToken = some pb →
      dictGet? prices o.sellToken = some ps → ps ≠ 0 → dictGet? amounts o.buyToken = some amt →
      ⌈amt * (pb / ps) * (cfg.priceEstimationError : ℚ) ^ 2⌉ = d → 1 ≤ d → 0 ≤ o.maxSell → o.maxSell ≤ o.origMaxSell →
      bufferOrder cfg [B, S] prices amounts o = .ok (reduced d o) := by
    intro o pb ps amt d m1 m2 g1 g2 g3 g4 g5 g6 g7 g8
    have hd : (1 : ℚ) ≤ d := by exact_mod_cast g6
    have hnew : max (o.maxSell - (d : ℚ)) 0 < o.maxSell ∨ o.maxSell = 0 := by
      rcases g7.eq_or_lt with h0 | h0
      · exact .inr h0.symm
      · left; rw [max_lt_iff]; exact ⟨by linarith, h0⟩
    have hle : max (o.maxSell - (d : ℚ)) 0 ≤ o.origMaxSell := by
      rw [max_le_iff]; exact ⟨by linarith, g7.trans g8⟩
    unfold bufferOrder
    rw [if_pos ⟨m2, m1⟩]
    simp only [dictGet_of g1, dictGet_of g2, dictGet_of g4, ok_bind, pyDiv_of_ne g3, g5, ge_iff_le, pyAssert_of g6, pyAssert_of hnew]
    unfold Order.setMaxSell
    rw [pyAssert_of hle]; rfl
  have hmap : mapE (bufferOrder cfg [B, S] prices amounts) (b ++ s) =
      .ok (b.map (reduced (bufferSize cfg cfg.feeTokenPrice p x)) ++ s.map (reduced (bufferSize cfg cfg.feeTokenPrice (p / x) (1 / x)))) := by
    have h1 : ∀ o ∈ b, bufferOrder cfg [B, S] prices amounts o = .ok (reduced (bufferSize cfg cfg.feeTokenPrice p x) o) := by
      intro o ho
      obtain ⟨c1, c2⟩ := h.clsB o ho
      have c1 : o.buyToken = B := c1
      have c2 : o.sellToken = S := c2
      refine hstep (by simp [c1]) (by simp [c2]) (c1 ▸ gB) (c2 ▸ gS) hq.ne' (c1 ▸ aB) ?_ b2 (h.amtB o ho).1 (h.amtB o ho).2
      unfold bufferSize
      have : p / (p / x) = x := by field_simp
      rw [this]
    have h2 : ∀ o ∈ s, bufferOrder cfg [B, S] prices amounts o = .ok (reduced (bufferSize cfg cfg.feeTokenPrice (p / x) (1 / x)) o) := by
      intro o ho
      obtain ⟨c1, c2⟩ := h.clsS o ho
      have c1 : o.buyToken = S := c1
      have c2 : o.sellToken = B := c2
      refine hstep (by simp [c1]) (by simp [c2]) (c1 ▸ gS) (c2 ▸ gB) hp.ne' (c1 ▸ aS) ?_ s2 (h.amtS o ho).1 (h.amtS o ho).2
      unfold bufferSize
      have : p / x / p = 1 / x := by field_simp
      rw [this]
    have e1 := mapE_eq_ok_forall₂.1 (mapE_of_forall h1)
    have e2 := mapE_eq_ok_forall₂.1 (mapE_of_forall h2)
    exact mapE_eq_ok_forall₂.2 (List.rel_append e1 e2)
  rw [hmap, ok_bind]
  show Except.ok _ = Except.ok _
  congr 1
  rw [Prod.mk.injEq]
  refine ⟨?_, ?_⟩
  · rw [List.take_append_of_le_length (by simp), List.take_of_length_le (by simp)]
  · rw [List.drop_append_of_le_length (by simp), List.drop_of_length_le (by simp), List.nil_append]

/-- C29. Inside the buffer, every positive maximum sell amount is strictly smaller, and none is negative. -/
theorem C29_strictly_smaller {cfg : Config} {pair : Token × Token} {b s b' s' : List Order} {x p : ℚ} {fee : Fee}
    (h : BufferInput cfg pair b s x p fee) (hr : roundingBufferEnter cfg pair b s x p fee = .ok (b', s')) :
    List.Forall₂ Tighter b b' ∧
    List.Forall₂ Tighter s s' := by
  rw [C29_enter_exact h] at hr
  cases hr
  have hP : (0 : ℚ) < cfg.feeTokenPrice := by exact_mod_cast h.feePrice
  have key : ∀ (d : ℤ) (l : List Order), 1 ≤ d → (∀ o ∈ l, 0 ≤ o.maxSell) → List.Forall₂ Tighter l (l.map (reduced d)) := by
    intro d l hd hl
    have hd' : (1 : ℚ) ≤ d := by exact_mod_cast hd
    induction l with
    | nil => exact .nil
    | cons o l ih =>
      refine .cons ⟨rfl, le_max_right _ _, ?_, fun h0 => ?_⟩ (ih (fun a ha => hl a (by simp [ha])))
      · show max (o.maxSell - (d : ℚ)) 0 ≤ o.maxSell
        rw [max_le_iff]; exact ⟨by linarith, hl o (by simp)⟩
      · show max (o.maxSell - (d : ℚ)) 0 < o.maxSell
        rw [max_lt_iff]; exact ⟨by linarith, h0⟩
  exact ⟨key _ b (bufferSize_pos h.volume h.slack hP h.price h.rate).2 (fun o ho => (h.amtB o ho).1),
    key _ s (bufferSize_pos h.volume h.slack hP (div_pos h.price h.rate) (one_div_pos.2 h.rate)).2 (fun o ho => (h.amtS o ho).1)⟩

theorem restoreMaxSell_spec {R : Order → Order → Prop} {b b2 b3 : List Order} (h : List.Forall₂ R b b2)
    (hr : restoreMaxSell b2 (b.map (·.maxSell)) = .ok b3) :
    List.Forall₂ (fun o o3 => ∃ o2 ∈ b2, R o o2 ∧ o3 = { o2 with maxSell := o.maxSell }) b b3 := by
  unfold restoreMaxSell at hr
  rw [mapE_eq_ok_forall₂] at hr
  induction h generalizing b3 with
  | nil => cases hr; exact .nil
  | cons h1 h2 ih =>
    rw [List.map_cons, List.zip_cons_cons] at hr
    cases hr with
    | cons e1 e2 =>
      refine .cons ⟨_, by simp, h1, ?_⟩ ((ih e2).imp ?_)
      · unfold Order.setMaxSell at e1
        rw [bind_eq_ok] at e1
        obtain ⟨_, _, e1⟩ := e1
        cases e1; rfl
      · rintro o o3 ⟨o2, m, h⟩
        exact ⟨o2, by simp [m], h⟩

/-- Rate search and execution inside the buffer. -/
theorem solveBuffered_spec {cfg : Config} {sqrt : ℚ → Py ℚ} {pair : Token × Token} {b s b' s' : List Order} {x p : ℚ} {fee : Fee} {maxNr : ℤ}
    {r : Option ℚ} (h : BufferInput cfg pair b s x p fee) (hs : SearchInput cfg fee b s) (hn : 0 ≤ maxNr) (hb : b ≠ []) (hsn : s ≠ [])
    (hr : solveBuffered cfg sqrt pair b s x p fee maxNr = .ok (r, b', s')) :
    ∃ (y : ℚ) (q : ℤ), r = some y ∧ 0 < y ∧ 1 ≤ q ∧ |(q : ℚ) - p / x| < 1 ∧ y = p / q ∧ PairExec cfg y fee maxNr b s b' s' ∧
      (∀ o ∈ b', 0 < o.buy → o.buy * y / (1 - fee.value) < o.maxSell) ∧ (∀ o ∈ s', 0 < o.buy → o.buy * (1 / y) / (1 - fee.value) < o.maxSell) := by
  unfold solveBuffered at hr
  rw [C29_enter_exact h, ok_bind] at hr
  obtain ⟨hlt1, hlt2⟩ := C29_strictly_smaller h (C29_enter_exact h)
  generalize hb1 : b.map (reduced (bufferSize cfg cfg.feeTokenPrice p x)) = b1 at *
  generalize hs1 : s.map (reduced (bufferSize cfg cfg.feeTokenPrice (p / x) (1 / x))) = s1 at *
  simp only [bind_eq_ok] at hr
  obtain ⟨⟨r', b2, s2⟩, e1, b3, e2, s3, e3, e4⟩ := hr
  cases e4
  have hids : ∀ (d : ℤ) (l : List Order), (l.map (reduced d)).map (·.id) = l.map (·.id) := by
    intro d l; rw [List.map_map]; rfl
  have hin : SearchInput cfg fee b1 s1 := by
    refine ⟨hs.minPos, hs.feeLt, hs.limit, hs.feePrice, ?_, ?_, ?_, ?_⟩
    · rw [← hb1, hids]; exact hs.idsB
    · rw [← hs1, hids]; exact hs.idsS
    · intro o ho
      rw [← hb1] at ho
      obtain ⟨a, ha, rfl⟩ := List.mem_map.1 ho
      exact ⟨(hs.ordB a ha).1, le_max_right _ _⟩
    · intro o ho
      rw [← hs1] at ho
      obtain ⟨a, ha, rfl⟩ := List.mem_map.1 ho
      exact ⟨(hs.ordS a ha).1, le_max_right _ _⟩
  have he : effPrice cfg pair fee (some p) = some p := by unfold effPrice; rw [if_neg h.neF1]
  rcases solveTokenPair_spec hin hn (fun y hy => by cases hy; exact h.rate) (fun q hq => by cases hq; exact h.price) e1 with
    ⟨_, _, _, h0⟩ | ⟨y, x0, rfl, hy, hx0, hxx, _, _, hpr, _, hex⟩
  · exfalso
    rcases h0 with h0 | h0
    · rw [← hb1] at h0; exact hb (List.map_eq_nil_iff.1 h0)
    · rw [← hs1] at h0; exact hsn (List.map_eq_nil_iff.1 h0)
  · obtain ⟨q, _, hq1, hq2, rfl⟩ := hpr p he
    rw [hxx x rfl] at hq2
    have key : ∀ {rate : ℚ} {l l1 l2 l3 : List Order}, List.Forall₂ Tighter l l1 → List.Forall₂ SameButBuy l1 l2 →
        (∀ o ∈ l2, ExactAt cfg rate fee o) → restoreMaxSell l2 (l.map (·.maxSell)) = .ok l3 →
        List.Forall₂ SameButBuy l l3 ∧ (∀ o ∈ l3, ExactAt cfg rate fee o) ∧ (∀ o ∈ l3, 0 < o.buy → o.buy * rate / (1 - fee.value) < o.maxSell) ∧
        l3.map (·.buy) = l2.map (·.buy) := by
      intro rate l l1 l2 l3 h1 h2 h3 h4
      have h12 := forall₂_trans' (R := Tighter) (S := SameButBuy)
        (T := fun o o2 => o2 = { o with maxSell := o2.maxSell, buy := o2.buy } ∧ o2.maxSell ≤ o.maxSell ∧ (0 < o.maxSell → o2.maxSell < o.maxSell))
        (fun o o1 o2 g1 g2 => by
          unfold SameButBuy at g2
          have e : o2.maxSell = o1.maxSell := by rw [g2]
          rw [e]
          refine ⟨?_, g1.le, g1.lt⟩
          rw [g2, g1.same]) h1 h2
      have h5 := restoreMaxSell_spec h12 h4
      have hbuy : l3.map (·.buy) = l2.map (·.buy) := by
        unfold restoreMaxSell at h4
        rw [mapE_eq_ok_forall₂] at h4
        have hlen : l2.length ≤ (l.map (·.maxSell)).length := by rw [List.length_map]; exact h12.length_eq.ge
        have : l2 = (l2.zip (l.map (·.maxSell))).map (·.1) := (List.map_fst_zip hlen).symm
        rw [this, List.map_map]
        have : ∀ {z : List (Order × ℚ)} {l3 : List Order}, List.Forall₂ (fun a b => a.1.setMaxSell a.2 = .ok b) z l3 →
            l3.map (·.buy) = z.map ((·.buy) ∘ (·.1)) := by
          intro z l3 hz
          induction hz with
          | nil => rfl
          | cons e _ ih =>
            rw [List.map_cons, List.map_cons, ih]
            unfold Order.setMaxSell at e
            rw [bind_eq_ok] at e
            obtain ⟨_, _, e⟩ := e
            cases e; rfl
        exact this h4
      refine ⟨h5.imp ?_, ?_, ?_, hbuy⟩
      · rintro o o3 ⟨o2, _, ⟨g1, _⟩, rfl⟩
        unfold SameButBuy
        rw [g1]
      · intro o3 ho3
        obtain ⟨o, ho, o2, ho2, ⟨g1, g2, g3⟩, rfl⟩ := forall₂_mem_r h5 o3 ho3
        exact (h3 o2 ho2).raise rfl rfl g2
      · intro o3 ho3 hpos
        obtain ⟨o, ho, o2, ho2, ⟨g1, g2, g3⟩, rfl⟩ := forall₂_mem_r h5 o3 ho3
        have m1 := (h3 o2 ho2).maxSell hpos
        have m2 := (h3 o2 ho2).minSell hpos
        have m3 : (0 : ℚ) < cfg.minRationalTradable := by exact_mod_cast hs.minPos
        exact m1.trans_lt (g3 (by linarith))
    obtain ⟨k1, k2, k3, k4⟩ := key hlt1 hex.sameB hex.exB e2
    obtain ⟨l1, l2, l3, l4⟩ := key hlt2 hex.sameS hex.exS e3
    have hcount : ∀ {a a' : List Order}, a.map (·.buy) = a'.map (·.buy) → countNrExec a = countNrExec a' := by
      intro a a' h
      have : ∀ l : List Order, countNrExec l = (l.map (·.buy)).countP (fun v => decide (v > 0)) := by
        intro l; rw [List.countP_map]; rfl
      rw [this, this, h]
    have hany : ∀ {a a' : List Order}, a.map (·.buy) = a'.map (·.buy) → ((∃ o ∈ a, 0 < o.buy) ↔ ∃ o ∈ a', 0 < o.buy) := by
      intro a a' h
      have : ∀ l : List Order, (∃ o ∈ l, 0 < o.buy) ↔ ∃ v ∈ l.map (·.buy), 0 < v := by intro l; simp
      rw [this, this, h]
    refine ⟨p / q, q, rfl, hy, hq1, hq2, rfl, ⟨k1, l1, k2, l2, ?_, ?_⟩, k3, l3⟩
    · rw [hcount k4, hcount l4]; exact hex.count
    · rw [hany k4, hany l4]; exact hex.both

/-- C29. On leaving the buffer every order is as before entering it, up to its buy amount; and what was executed inside leaves room below
the order's own maximum sell amount. -/
theorem C29_restored {cfg : Config} {sqrt : ℚ → Py ℚ} {pair : Token × Token} {b s b' s' : List Order} {x p : ℚ} {fee : Fee} {maxNr : ℤ}
    {r : Option ℚ} (h : BufferInput cfg pair b s x p fee) (hs : SearchInput cfg fee b s) (hn : 0 ≤ maxNr) (hb : b ≠ []) (hsn : s ≠ [])
    (hr : solveBuffered cfg sqrt pair b s x p fee maxNr = .ok (r, b', s')) :
    List.Forall₂ SameButBuy b b' ∧ List.Forall₂ SameButBuy s s' ∧ ∃ y, r = some y ∧
      (∀ o ∈ b', 0 < o.buy → soldB y fee o < o.maxSell) ∧ (∀ o ∈ s', 0 < o.buy → soldS y fee o < o.maxSell) := by
  obtain ⟨y, q, h1, h2, _, _, _, h3, h4, h5⟩ := solveBuffered_spec h hs hn hb hsn hr
  refine ⟨h3.sameB, h3.sameS, y, h1, h4, fun o ho hp => ?_⟩
  have e : soldS y fee o = o.buy * (1 / y) / (1 - fee.value) := by unfold soldS; ring
  rw [e]; exact h5 o ho hp

namespace ExBuffer
def fee : Fee := { token := "F", value := 1 / 1000 }
def b : List Order := [Order.mk' "B" "S" (10 ^ 20) 2 none "0", Order.mk' "B" "S" 1000 (3 / 2) none "1"]
def s : List Order := [Order.mk' "S" "B" (10 ^ 20) 1 none "2"]
end ExBuffer

example : BufferInput Config.default ("B", "S") ExBuffer.b ExBuffer.s (5 / 4) (10 ^ 18) ExBuffer.fee ∧
    SearchInput Config.default ExBuffer.fee ExBuffer.b ExBuffer.s := by
  constructor <;> constructor <;> decide +kernel

/-- Entering reduces one capacity by the buffer and the other to zero; the matching inside the buffer succeeds and executes orders. -/
example : ∃ r, roundingBufferEnter Config.default ("B", "S") ExBuffer.b ExBuffer.s (5 / 4) (10 ^ 18) ExBuffer.fee = .ok r ∧
    r.1.map (·.maxSell) = [10 ^ 20 - 12500000000000, 0] :=
  exists_of_pyCheck (p := fun r : List Order × List Order => r.1.map (·.maxSell) = [10 ^ 20 - 12500000000000, 0]) (by decide +kernel)

example : ∃ r, solveBuffered Config.default (fun _ => .error .valueError) ("B", "S") ExBuffer.b ExBuffer.s (5 / 4) (10 ^ 18) ExBuffer.fee 30 = .ok r ∧
    0 < countNrExec r.2.1 :=
  exists_of_pyCheck (p := fun r : Option ℚ × List Order × List Order => 0 < countNrExec r.2.1) (by decide +kernel)

end Dex
