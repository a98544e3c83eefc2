import Verif.Proof.Amount
import Verif.Proof.Sort

/-! # `compute_buy_amounts` -/

namespace Dex

open Spec

/-- Everything the property proofs need about a result of `computeBuyAmounts`. `B`, `S` are the eligible orders by
priority, `t` is the amount of s-token exchanged. -/
structure BuySpec (cfg : Config) (x : ℚ) (fee : Fee) (maxNr : ℤ) (b s b' s' B S : List Order) (i j : ℤ) (t : ℚ) :
    Prop where
  permB : B.Perm ((b.map Order.clearBuy).filter (fun o => decide (EligibleB cfg x fee o)))
  permS : S.Perm ((s.map Order.clearBuy).filter (fun o => decide (EligibleS cfg x fee o)))
  sortB : B.Pairwise (fun a b => ¬ Before b a)
  sortS : S.Pairwise (fun a b => ¬ Before b a)
  posB : ∀ o ∈ B, 0 < capB x fee o
  posS : ∀ o ∈ S, 0 < capS x fee o
  eqB : b' = writeBack (b.map Order.clearBuy) (fillOrders (capB x fee) (t * ratio x fee) B)
  eqS : s' = writeBack (s.map Order.clearBuy) (fillOrders (capS x fee) t S)
  resB : b'.Perm (fillOrders (capB x fee) (t * ratio x fee) B ++
    (b.map Order.clearBuy).filter (fun o => !decide (EligibleB cfg x fee o)))
  resS : s'.Perm (fillOrders (capS x fee) t S ++
    (s.map Order.clearBuy).filter (fun o => !decide (EligibleS cfg x fee o)))
  lastB : LastIdx (capB x fee) B (t * ratio x fee) i
  lastS : LastIdx (capS x fee) S t j
  count : i + j + 2 ≤ maxNr
  ok : LastOk cfg x fee B S t
  maximal : ∀ u : ℚ, (u * ratio x fee = preCap (capB x fee) B B.length ∧ u ≤ preCap (capS x fee) S S.length ∨
          u * ratio x fee ≤ preCap (capB x fee) B B.length ∧ u = preCap (capS x fee) S S.length) →
        LastOk cfg x fee B S u → (B.length : ℤ) + S.length ≤ maxNr → t = u
  greatest : ∀ (u : ℚ) (a c : ℤ), LastIdx (capB x fee) B (u * ratio x fee) a → LastIdx (capS x fee) S u c → a + c + 2 ≤ maxNr →
        LastOk cfg x fee B S u → u ≤ t

theorem filterMaxXrate_eq {x : ℚ} {fee : Fee} (hx : 0 < x) (b s : List Order) :
    filterMaxXrate x b s fee = .ok (b.filter (fun o => decide (x ≤ o.maxXrate * (1 - fee.value))),
      s.filter (fun o => decide (1 / x ≤ o.maxXrate * (1 - fee.value)))) := by
  unfold filterMaxXrate
  rw [filterE_of_forall (q := fun o => decide (1 / x ≤ o.maxXrate * (1 - fee.value)))]
  · rfl
  · intro o _
    rw [pyDiv_of_ne hx.ne']; rfl

theorem filterMinTradable_eq {cfg : Config} {x : ℚ} {fee : Fee} (hx : 0 < x) (b s : List Order) :
    filterMinTradable cfg x b s fee = .ok (
      b.filter (fun o => decide ((cfg.minRationalTradable : ℚ) ≤ o.maxSell ∧
        (cfg.minRationalTradable : ℚ) ≤ o.maxSell / x * (1 - fee.value))),
      s.filter (fun o => decide ((cfg.minRationalTradable : ℚ) ≤ o.maxSell ∧
        (cfg.minRationalTradable : ℚ) ≤ o.maxSell * x * (1 - fee.value)))) := by
  unfold filterMinTradable
  simp only
  rw [filterE_of_forall (q := fun o => decide ((cfg.minRationalTradable : ℚ) ≤ o.maxSell ∧
        (cfg.minRationalTradable : ℚ) ≤ o.maxSell / x * (1 - fee.value)))]
  · simp only [ok_bind]
    rw [filterE_of_forall (q := fun o => decide ((cfg.minRationalTradable : ℚ) ≤ o.maxSell ∧
        (cfg.minRationalTradable : ℚ) ≤ o.maxSell * x * (1 - fee.value)))]
    · rfl
    · intro o _
      simp only [sBuyFromSMaxSell, sBuyFromSSell, ok_bind, pure_eq_ok, ge_iff_le]
      split <;> simp_all
  · intro o _
    simp only [bBuyFromBMaxSell, bBuyFromBSell, pyDiv_of_ne hx.ne', ok_bind, pure_eq_ok, ge_iff_le]
    split <;> simp_all

theorem fillOrders_ids (cap : Order → ℚ) (t : ℚ) (os : List Order) :
    (fillOrders cap t os).map (·.id) = os.map (·.id) := by
  induction os generalizing t with
  | nil => rfl
  | cons o os ih => simp only [fillOrders, List.map_cons, ih]; rfl

theorem clearBuy_ids (os : List Order) : (os.map Order.clearBuy).map (·.id) = os.map (·.id) := by
  rw [List.map_map]; rfl

theorem writeBack_subset {orig u : List Order} (hn : (orig.map (·.id)).Nodup) (hu : ∀ o ∈ u, o ∈ orig) :
    writeBack orig u = orig := by
  unfold writeBack
  conv_rhs => rw [← List.map_id orig]
  apply List.map_congr_left
  intro o ho
  cases hf : u.find? (fun v => decide (v.id = o.id)) with
  | none => rfl
  | some v =>
    have h1 := List.find?_some hf
    have h2 := List.mem_of_find?_eq_some hf
    simp only [decide_eq_true_eq] at h1
    simp only [Option.getD_some, id_eq]
    exact nodup_ids_inj hn (hu v h2) ho h1

theorem capB_pos {cfg : Config} {x : ℚ} {fee : Fee} {o : Order} (hm : 0 < cfg.minRationalTradable)
    (h : EligibleB cfg x fee o) : 0 < capB x fee o := by
  have : (0 : ℚ) < cfg.minRationalTradable := by exact_mod_cast hm
  exact lt_of_lt_of_le this h.2.2

theorem capS_pos {cfg : Config} {x : ℚ} {fee : Fee} {o : Order} (hm : 0 < cfg.minRationalTradable)
    (h : EligibleS cfg x fee o) : 0 < capS x fee o := by
  have : (0 : ℚ) < cfg.minRationalTradable := by exact_mod_cast hm
  exact lt_of_lt_of_le this h.2.2

theorem computeBuyAmounts_spec (cfg : Config) (hm : 0 < cfg.minRationalTradable) {x : ℚ} (hx : 0 < x) {fee : Fee}
    (hf : fee.value < 1) {maxNr : ℤ} (hmax : 0 ≤ maxNr) {b s : List Order} (hb : (b.map (·.id)).Nodup)
    (hs : (s.map (·.id)).Nodup) :
    ∃ (b' s' B S : List Order) (i j : ℤ) (t : ℚ), computeBuyAmounts cfg x b s fee maxNr = .ok (b', s') ∧
      BuySpec cfg x fee maxNr b s b' s' B S i j t := by
  set b0 := b.map Order.clearBuy with hb0
  set s0 := s.map Order.clearBuy with hs0
  set pB : Order → Bool := fun o => decide (EligibleB cfg x fee o) with hpB
  set pS : Order → Bool := fun o => decide (EligibleS cfg x fee o) with hpS
  have hnb : (b0.map (·.id)).Nodup := by rw [hb0, clearBuy_ids]; exact hb
  have hns : (s0.map (·.id)).Nodup := by rw [hs0, clearBuy_ids]; exact hs
  have hzb : ∀ o ∈ b0, o.buy = 0 := by
    intro o ho; rw [hb0] at ho; obtain ⟨o', _, rfl⟩ := List.mem_map.1 ho; rfl
  have hzs : ∀ o ∈ s0, o.buy = 0 := by
    intro o ho; rw [hs0] at ho; obtain ⟨o', _, rfl⟩ := List.mem_map.1 ho; rfl
  set B := sortedByExecPriority (b0.filter pB) with hB
  set S := sortedByExecPriority (s0.filter pS) with hS
  have permB : B.Perm (b0.filter pB) := sortedByExecPriority_perm _
  have permS : S.Perm (s0.filter pS) := sortedByExecPriority_perm _
  have memB : ∀ o ∈ B, o ∈ b0 ∧ EligibleB cfg x fee o := by
    intro o ho
    have := permB.mem_iff.1 ho
    simp only [List.mem_filter, hpB, decide_eq_true_eq] at this
    exact this
  have memS : ∀ o ∈ S, o ∈ s0 ∧ EligibleS cfg x fee o := by
    intro o ho
    have := permS.mem_iff.1 ho
    simp only [List.mem_filter, hpS, decide_eq_true_eq] at this
    exact this
  have posB : ∀ o ∈ B, 0 < capB x fee o := fun o ho => capB_pos hm (memB o ho).2
  have posS : ∀ o ∈ S, 0 < capS x fee o := fun o ho => capS_pos hm (memS o ho).2
  have zB : ∀ o ∈ B, o.buy = 0 := fun o ho => hzb o (memB o ho).1
  have zS : ∀ o ∈ S, o.buy = 0 := fun o ho => hzs o (memS o ho).1
  have hfil : computeBuyAmounts cfg x b s fee maxNr =
      (if (b0.filter pB).length = 0 ∨ (s0.filter pS).length = 0 then pure (b0, s0)
       else do
        let (b, s) ← executeSorted cfg x fee maxNr B S
        pure (writeBack b0 b, writeBack s0 s)) := by
    unfold computeBuyAmounts
    simp only [filterMaxXrate_eq hx, filterMinTradable_eq hx, ok_bind, List.filter_filter]
    have e1 : (fun a : Order => decide ((cfg.minRationalTradable : ℚ) ≤ a.maxSell ∧
        (cfg.minRationalTradable : ℚ) ≤ a.maxSell / x * (1 - fee.value)) &&
        decide (x ≤ a.maxXrate * (1 - fee.value))) = pB := by
      funext o
      rw [Bool.eq_iff_iff, hpB, Bool.and_eq_true, decide_eq_true_eq, decide_eq_true_eq, decide_eq_true_eq]
      unfold EligibleB; tauto
    have e2 : (fun a : Order => decide ((cfg.minRationalTradable : ℚ) ≤ a.maxSell ∧
        (cfg.minRationalTradable : ℚ) ≤ a.maxSell * x * (1 - fee.value)) &&
        decide (1 / x ≤ a.maxXrate * (1 - fee.value))) = pS := by
      funext o
      rw [Bool.eq_iff_iff, hpS, Bool.and_eq_true, decide_eq_true_eq, decide_eq_true_eq, decide_eq_true_eq]
      unfold EligibleS; tauto
    rw [e1, e2]
  have resB : ∀ t : ℚ, (writeBack b0 (fillOrders (capB x fee) t B)).Perm
      (fillOrders (capB x fee) t B ++ b0.filter (fun o => !pB o)) := fun t =>
    writeBack_filter_perm hnb permB (fillOrders_ids _ _ _)
  have resS : ∀ t : ℚ, (writeBack s0 (fillOrders (capS x fee) t S)).Perm
      (fillOrders (capS x fee) t S ++ s0.filter (fun o => !pS o)) := fun t =>
    writeBack_filter_perm hns permS (fillOrders_ids _ _ _)
  rw [hfil]
  by_cases hempty : (b0.filter pB).length = 0 ∨ (s0.filter pS).length = 0
  · rw [if_pos hempty]
    have fz1 : fillOrders (capB x fee) (0 * ratio x fee) B = B := by rw [zero_mul]; exact fillOrders_zero zB posB
    have fz2 : fillOrders (capS x fee) 0 S = S := fillOrders_zero zS posS
    have w1 : writeBack b0 (fillOrders (capB x fee) (0 * ratio x fee) B) = b0 := by
      rw [fz1]; exact writeBack_subset hnb (fun o ho => (memB o ho).1)
    have w2 : writeBack s0 (fillOrders (capS x fee) 0 S) = s0 := by
      rw [fz2]; exact writeBack_subset hns (fun o ho => (memS o ho).1)
    refine ⟨b0, s0, B, S, -1, -1, 0, rfl, ⟨permB, permS, sortedByExecPriority_pairwise _,
      sortedByExecPriority_pairwise _, posB, posS, w1.symm, w2.symm, ?_, ?_, ?_, ?_, by omega, .inl rfl, ?_, ?_⟩⟩
    · have := resB (0 * ratio x fee); rw [w1] at this; exact this
    · have := resS 0; rw [w2] at this; exact this
    · exact ⟨by omega, by omega, by simp, by simp, by omega⟩
    · exact ⟨by omega, by omega, by simp, by simp, by omega⟩
    · intro u hu _ _
      have hρ := ratio_pos hx hf
      have hcases : B.length = 0 ∨ S.length = 0 := by rw [permB.length_eq, permS.length_eq]; exact hempty
      have n1 := preCap_nonneg (cap := capB x fee) posB B.length
      have n2 := preCap_nonneg (cap := capS x fee) posS S.length
      have hmul : ∀ q : ℚ, q * ratio x fee = 0 → q = 0 := fun q h => by simpa [hρ.ne'] using h
      have hmul2 : ∀ q : ℚ, q * ratio x fee ≤ 0 → q ≤ 0 := fun q h =>
        le_of_mul_le_mul_right (by linarith) hρ
      rcases hcases with h | h
      · rw [h, preCap_zero] at hu
        rcases hu with ⟨h1, h2⟩ | ⟨h1, h2⟩
        · exact (hmul u h1).symm
        · exact le_antisymm (by linarith) (hmul2 u h1)
      · rw [h, preCap_zero] at hu
        rcases hu with ⟨h1, h2⟩ | ⟨h1, h2⟩
        · refine le_antisymm ?_ h2
          by_contra hc
          have := mul_neg_of_neg_of_pos (not_le.1 hc) hρ
          linarith
        · exact h2.symm
    · intro u a c ha hc _ _
      have hρ := ratio_pos hx hf
      have hcases : B.length = 0 ∨ S.length = 0 := by rw [permB.length_eq, permS.length_eq]; exact hempty
      rcases hcases with h | h
      · have := ha.le_preCap posB ha.2.1
        rw [h, preCap_zero] at this
        exact le_of_mul_le_mul_right (by linarith) hρ
      · have := hc.le_preCap posS hc.2.1
        rwa [h, preCap_zero] at this
  · rw [if_neg hempty]
    obtain ⟨i, j, t, h1, h2, h3, h4, h5, h6, h7, h8⟩ := executeSorted_spec cfg maxNr hmax hx hf posB posS zB zS
    rw [h1]
    exact ⟨_, _, B, S, i, j, t, rfl, ⟨permB, permS, sortedByExecPriority_pairwise _,
      sortedByExecPriority_pairwise _, posB, posS, rfl, rfl, resB _, resS _, h2, h3, h5, h6, h7, h8⟩⟩

end Dex
