import Verif.Proof.Outcome
import Verif.Props.Room

/-! # Properties C60-C62: the exact outcome of matching a token pair -/

namespace Dex

namespace Spec

/-- The greatest volume of the s-token that can be exchanged. -/
structure Greatest (cfg : Config) (x : ℚ) (fee : Fee) (maxNr : ℤ) (b s : List Order) (t : ℚ) : Prop where
  admissible : Admissible cfg x fee maxNr b s t
  greatest : ∀ u, Admissible cfg x fee maxNr b s u → u ≤ t

/-- What a b-order (an s-order) buys when `t` of the s-token is exchanged. -/
def fillB (cfg : Config) (x : ℚ) (fee : Fee) (b : List Order) (t : ℚ) (o : Order) : ℚ :=
  fillAmount (EligibleB cfg x fee) (maxBuyB x fee) b (t * ((1 - fee.value) / x)) o

@[inherit_doc fillB] def fillS (cfg : Config) (x : ℚ) (fee : Fee) (s : List Order) (t : ℚ) (o : Order) : ℚ :=
  fillAmount (EligibleS cfg x fee) (maxBuyS x fee) s t o

/-- The lists with the buy amounts for the greatest volume `t`. -/
structure Filled (cfg : Config) (x : ℚ) (fee : Fee) (maxNr : ℤ) (b s : List Order) (t : ℚ) (b1 s1 : List Order) : Prop where
  volume : Greatest cfg x fee maxNr b s t
  eqB : b1 = b.map (fun o => o.withBuy (fillB cfg x fee b t o))
  eqS : s1 = s.map (fun o => o.withBuy (fillS cfg x fee s t o))

/-- The orders that can trade with some order of the other list. -/
structure MatchableParts (fee : Fee) (b s b' s' : List Order) : Prop where
  subB : b'.Sublist b
  subS : s'.Sublist s
  memB : ∀ o, o ∈ b' ↔ o ∈ b ∧ ∃ c ∈ s, Matchable fee o c
  memS : ∀ c, c ∈ s' ↔ c ∈ s ∧ ∃ o ∈ b, Matchable fee o c

/-- `x` is the given rate, or the result of the rate search if none is given. -/
def UsedRate (cfg : Config) (ext : Ext) (fee : Fee) (b s : List Order) (xrate : Option ℚ) (x : ℚ) : Prop :=
  0 < x ∧ (∀ y, xrate = some y → x = y) ∧ (xrate = none → ∃ v, findBestXrate cfg ext.sqrt b s fee = .ok (some (x, v)))

end Spec

open Spec

theorem filled_of {cfg : Config} {x : ℚ} {fee : Fee} {maxNr : ℤ} {b s b1 s1 : List Order} (h : ExecInput cfg x fee maxNr b s)
    (hr : computeBuyAmounts cfg x b s fee maxNr = .ok (b1, s1)) :
    ∃ t, Filled cfg x fee maxNr b s t b1 s1 ∧ ((∃ o ∈ s1, 0 < o.buy) ↔ 0 < t) := by
  obtain ⟨g1, g2⟩ := C58_greatest_volume h hr
  have h1 := C58_determined h g1 g2
  rw [hr] at h1
  obtain ⟨e1, e2⟩ := Prod.mk.inj (Except.ok.inj h1)
  exact ⟨_, ⟨⟨g1, g2⟩, e1, e2⟩, (sum_pos_iff (fun o ho => ((C08_max_sell h hr).2 o ho).1)).symm⟩

/-- Pruning and orientation. -/
theorem solveTokenPairAndFee_cases {cfg : Config} {ext : Ext} {pair : Token × Token} {b s f : List Order} {fee : Fee} {xrate : Option ℚ}
    {r : MatchResult} (h : PruneInput fee b s) (hr : solveTokenPairAndFee cfg ext pair b s f fee xrate = .ok r) :
    ((∀ o ∈ b, ∀ c ∈ s, ¬ Matchable fee o c) ∧ r.sol = .trivial) ∨
      ∃ b' s' r', MatchableParts fee b s b' s' ∧ b' ≠ [] ∧ s' ≠ [] ∧ r.sol = r'.sol ∧
        (pair.2 = fee.token → solveOriented cfg ext (pair.2, pair.1) s' b' f fee xrate = .ok r') ∧
        (pair.2 ≠ fee.token → solveOriented cfg ext pair b' s' f fee xrate = .ok r') := by
  obtain ⟨b', s', e, h1, h2, h3, h4⟩ := C14_exact h
  unfold solveTokenPairAndFee at hr
  rw [e, ok_bind] at hr
  dsimp only at hr
  split at hr
  · rename_i h0
    cases hr
    left
    refine ⟨fun o ho c hc hm => ?_, rfl⟩
    rcases h0 with h0 | h0 <;> rw [List.length_eq_zero_iff] at h0 <;> subst h0
    · exact absurd ((h3 o).2 ⟨ho, c, hc, hm⟩) (by simp)
    · exact absurd ((h4 c).2 ⟨hc, o, ho, hm⟩) (by simp)
  · rename_i h0
    push Not at h0
    right
    have hb' : b' ≠ [] := fun h => h0.1 (by rw [h]; rfl)
    have hs' : s' ≠ [] := fun h => h0.2 (by rw [h]; rfl)
    split at hr
    · rename_i hF
      rw [bind_eq_ok] at hr
      obtain ⟨r', e1, hr⟩ := hr
      cases hr
      exact ⟨b', s', r', ⟨h1, h2, h3, h4⟩, hb', hs', rfl, fun _ => e1, fun h => absurd hF h⟩
    · rename_i hF
      rw [bind_eq_ok] at hr
      obtain ⟨r', e1, hr⟩ := hr
      cases hr
      exact ⟨b', s', r', ⟨h1, h2, h3, h4⟩, hb', hs', rfl, fun h => absurd h hF, fun _ => e1⟩

theorem Spec.MatchableParts.search {cfg : Config} {fee : Fee} {b s b' s' : List Order} (h : MatchableParts fee b s b' s') (hs : SearchInput cfg fee b s) :
    SearchInput cfg fee b' s' :=
  ⟨hs.minPos, hs.feeLt, hs.limit, hs.feePrice, hs.idsB.sublist (h.subB.map _), hs.idsS.sublist (h.subS.map _),
    fun o ho => hs.ordB o (h.subB.subset ho), fun o ho => hs.ordS o (h.subS.subset ho)⟩

theorem SearchInput.swap {cfg : Config} {fee : Fee} {b s : List Order} (h : SearchInput cfg fee b s) : SearchInput cfg fee s b :=
  ⟨h.minPos, h.feeLt, h.limit, h.feePrice, h.idsS, h.idsB, h.ordS, h.ordB⟩

namespace Spec

/-- Outcome for orders `b` buying the fee token for `S` and orders `s` buying `S` for the fee token, all of them matchable: a rate `x`, an integer
price `k` of `S` for it, the greatest volume `t` at the integer prices; the solution is trivial if `t` is zero, otherwise it is the rounding of the
exact fills at volume `t`. -/
def FeePairOutcome (cfg : Config) (ext : Ext) (fee : Fee) (S : Token) (b s : List Order) (xrate : Option ℚ) (sol : Solution) : Prop :=
  ∃ (x : ℚ) (k : ℤ) (t : ℚ) (b1 s1 : List Order), UsedRate cfg ext fee b s xrate x ∧ 1 ≤ k ∧
    computeSBuyTokenPrice cfg.feeTokenPrice x b s fee = .ok k ∧
    Filled cfg (cfg.feeTokenPrice / k) fee cfg.maxNrExec b s t b1 s1 ∧
    ((t = 0 ∧ sol = .trivial) ∨
      (0 < t ∧ RoundedTo cfg ext fee [(fee.token, (cfg.feeTokenPrice : ℚ)), (S, (k : ℚ))] (b1 ++ s1) sol))

end Spec

theorem feePairOutcome_of {cfg : Config} {ext : Ext} {pair : Token × Token} {b s f : List Order} {fee : Fee} {xrate : Option ℚ}
    {r : MatchResult} (h : SearchInput cfg fee b s) (hbn : b ≠ []) (hsn : s ≠ []) (hx : ∀ y, xrate = some y → 0 < y) (hF : pair.1 = fee.token)
    (hF2 : pair.2 ≠ fee.token) (hr : solveOriented cfg ext pair b s f fee xrate = .ok r) :
    FeePairOutcome cfg ext fee pair.2 b s xrate r.sol := by
  obtain ⟨x, hx0, e1, e2, k, hk1, hk, b1, s1, e3, _, e4⟩ := solveOriented_fee h hbn hsn hx hF hF2 hr
  have hP : (0 : ℚ) < cfg.feeTokenPrice := by have := h.feePrice; exact_mod_cast this
  have hk0 : (0 : ℚ) < k := by exact_mod_cast (by omega : 0 < k)
  obtain ⟨t, h1, h2⟩ := filled_of ⟨h.minPos, div_pos hP hk0, h.feeLt, h.limit, h.idsB, h.idsS⟩ e3
  refine ⟨x, k, t, b1, s1, ⟨hx0, e1, e2⟩, hk1, hk, h1, ?_⟩
  rcases e4 with ⟨g1, g2⟩ | ⟨g1, g2⟩
  · left
    refine ⟨le_antisymm ?_ h1.volume.admissible.nonneg, g2⟩
    rw [← not_lt, ← h2]
    rintro ⟨o, ho, hp⟩
    exact g1 o ho hp
  · exact .inr ⟨h2.1 g1, g2⟩

/-- C61. A pair whose first token is the fee token: the solution is trivial if no two orders can trade; otherwise it is determined by the matchable
orders: rate, integer price, greatest volume, rounding. -/
theorem C61_fee_pair {cfg : Config} {ext : Ext} {pair : Token × Token} {b s f : List Order} {fee : Fee} {xrate : Option ℚ}
    {r : MatchResult} (h : SearchInput cfg fee b s) (hbn : b ≠ []) (hsn : s ≠ []) (hx : ∀ y, xrate = some y → 0 < y) (hne : pair.1 ≠ pair.2)
    (hF : pair.1 = fee.token) (hr : solveTokenPairAndFee cfg ext pair b s f fee xrate = .ok r) :
    ((∀ o ∈ b, ∀ c ∈ s, ¬ Matchable fee o c) ∧ r.sol = .trivial) ∨
      ∃ b' s', MatchableParts fee b s b' s' ∧ b' ≠ [] ∧ s' ≠ [] ∧ FeePairOutcome cfg ext fee pair.2 b' s' xrate r.sol := by
  rcases solveTokenPairAndFee_cases (h.prune hbn hsn) hr with h1 | ⟨b', s', r', hm, hb', hs', e, _, h2⟩
  · exact .inl h1
  · right
    have hF2 : pair.2 ≠ fee.token := fun h => hne (hF.trans h.symm)
    rw [e]
    exact ⟨b', s', hm, hb', hs', feePairOutcome_of (hm.search h) hb' hs' hx hF hF2 (h2 hF2)⟩

/-- C61. The same for a pair whose second token is the fee token, with the lists exchanged. -/
theorem C61_fee_pair_second {cfg : Config} {ext : Ext} {pair : Token × Token} {b s f : List Order} {fee : Fee} {xrate : Option ℚ}
    {r : MatchResult} (h : SearchInput cfg fee b s) (hbn : b ≠ []) (hsn : s ≠ []) (hx : ∀ y, xrate = some y → 0 < y) (hne : pair.1 ≠ pair.2)
    (hF : pair.2 = fee.token) (hr : solveTokenPairAndFee cfg ext pair b s f fee xrate = .ok r) :
    ((∀ o ∈ b, ∀ c ∈ s, ¬ Matchable fee o c) ∧ r.sol = .trivial) ∨
      ∃ b' s', MatchableParts fee b s b' s' ∧ b' ≠ [] ∧ s' ≠ [] ∧ FeePairOutcome cfg ext fee pair.1 s' b' xrate r.sol := by
  rcases solveTokenPairAndFee_cases (h.prune hbn hsn) hr with h1 | ⟨b', s', r', hm, hb', hs', e, h2, _⟩
  · exact .inl h1
  · right
    rw [e]
    exact ⟨b', s', hm, hb', hs', feePairOutcome_of (pair := (pair.2, pair.1)) (hm.search h).swap hs' hb' hx hF (fun h => hne (h.trans hF.symm)) (h2 hF)⟩

/-- The exact fills of a pair with the fee token for the volume `t`, as input of rounding. -/
structure FeePairFills (cfg : Config) (fee : Fee) (S : Token) (k : ℤ) (t : ℚ) (prices : Prices) (b1 s1 : List Order) : Prop where
  input : RoundInput prices fee (b1 ++ s1)
  feasible : ∀ o ∈ b1 ++ s1, ExactFeasible cfg prices fee o
  clsB : ∀ o ∈ b1, o.buyToken = fee.token ∧ o.sellToken = S
  clsS : ∀ o ∈ s1, o.buyToken = S ∧ o.sellToken = fee.token
  priceF : PriceOf prices fee.token cfg.feeTokenPrice
  priceS : PriceOf prices S k
  balanced : (((b1 ++ s1).filter (fun o => decide (o.sellToken = S))).map (fun o => exactSell cfg.feeTokenPrice k fee o.buy)).sum = bought (b1 ++ s1) S
  nrB : nrExecutedOf (b1 ++ s1) (fun o => decide (o.sellToken = S)) = nrExecuted b1
  nrS : nrExecutedOf (b1 ++ s1) (fun o => decide (o.buyToken = S)) = nrExecuted s1
  boughtS : bought (b1 ++ s1) S = t
  positive : 0 < t → ∃ o ∈ s1, 0 < o.buy

theorem FeePairFills.cls {cfg : Config} {fee : Fee} {S : Token} {k : ℤ} {t : ℚ} {prices : Prices} {b1 s1 : List Order}
    (h : FeePairFills cfg fee S k t prices b1 s1) :
    ∀ o ∈ b1 ++ s1, (o.buyToken = fee.token ∧ o.sellToken = S) ∨ (o.buyToken = S ∧ o.sellToken = fee.token) := by
  intro o ho
  rcases List.mem_append.1 ho with ho | ho
  · exact .inl (h.clsB o ho)
  · exact .inr (h.clsS o ho)

theorem feePairFills_of {cfg : Config} {S : Token} {b s b1 s1 : List Order} {fee : Fee} {k : ℤ} {t : ℚ} (h : SearchInput cfg fee b s) (hSF : S ≠ fee.token)
    (hclsB : ∀ o ∈ b, o.buyToken = fee.token ∧ o.sellToken = S) (hclsS : ∀ o ∈ s, o.buyToken = S ∧ o.sellToken = fee.token)
    (hids : ((b ++ s).map (·.id)).Nodup) (hk : 1 ≤ k) (hfill : Filled cfg (cfg.feeTokenPrice / k) fee cfg.maxNrExec b s t b1 s1) :
    FeePairFills cfg fee S k t [(fee.token, (cfg.feeTokenPrice : ℚ)), (S, (k : ℚ))] b1 s1 := by
  have hP : (0 : ℚ) < cfg.feeTokenPrice := by have := h.feePrice; exact_mod_cast this
  have hk0 : (0 : ℚ) < k := by exact_mod_cast (by omega : 0 < k)
  have hin : ExecInput cfg (cfg.feeTokenPrice / k) fee cfg.maxNrExec b s := ⟨h.minPos, div_pos hP hk0, h.feeLt, h.limit, h.idsB, h.idsS⟩
  have hcb : computeBuyAmounts cfg (cfg.feeTokenPrice / k) b s fee cfg.maxNrExec = .ok (b1, s1) := by
    rw [C58_determined hin hfill.volume.admissible hfill.volume.greatest, hfill.eqB, hfill.eqS]; rfl
  have hex := computeBuyAmounts_exec hin hcb
  have hbal := (C06_balanced hin hcb).1
  have htok : ∀ {l l' : List Order} {o : Order}, List.Forall₂ SameButBuy l l' → o ∈ l' → ∃ a ∈ l, o.buyToken = a.buyToken ∧
      o.sellToken = a.sellToken ∧ o.maxSell = a.maxSell := by
    intro l l' o h ho
    obtain ⟨a, ha, e⟩ := forall₂_mem_r h o ho
    unfold SameButBuy at e
    exact ⟨a, ha, by rw [e], by rw [e], by rw [e]⟩
  have c1 : ∀ o ∈ b1, o.buyToken = fee.token ∧ o.sellToken = S := by
    intro o ho
    obtain ⟨a, ha, g1, g2, _⟩ := htok hex.sameB ho
    rw [g1, g2]; exact hclsB a ha
  have c2 : ∀ o ∈ s1, o.buyToken = S ∧ o.sellToken = fee.token := by
    intro o ho
    obtain ⟨a, ha, g1, g2, _⟩ := htok hex.sameS ho
    rw [g1, g2]; exact hclsS a ha
  have pF : PriceOf [(fee.token, (cfg.feeTokenPrice : ℚ)), (S, (k : ℚ))] fee.token cfg.feeTokenPrice := ⟨(fee.token, (cfg.feeTokenPrice : ℚ)), by simp, rfl⟩
  have pS : PriceOf [(fee.token, (cfg.feeTokenPrice : ℚ)), (S, (k : ℚ))] S k := by
    rw [priceOf_iff]; simp [dictGet?_cons, Ne.symm hSF]
  generalize hpr : ([(fee.token, (cfg.feeTokenPrice : ℚ)), (S, (k : ℚ))] : Prices) = prices at pF pS ⊢
  have hint : IntPrices prices := by
    rw [← hpr]
    intro e he
    simp only [List.mem_cons, List.not_mem_nil, or_false] at he
    rcases he with rfl | rfl
    · exact ⟨hP, isInt_intCast _⟩
    · exact ⟨hk0, isInt_intCast _⟩
  have hcls : ∀ o ∈ b1 ++ s1, (o.buyToken = fee.token ∧ o.sellToken = S) ∨ (o.buyToken = S ∧ o.sellToken = fee.token) := by
    intro o ho
    rcases List.mem_append.1 ho with ho | ho
    · exact .inl (c1 o ho)
    · exact .inr (c2 o ho)
  have hpriced : ∀ o ∈ b1 ++ s1, Priced prices o := by
    intro o ho
    rw [priced_iff]
    rcases hcls o ho with ⟨g1, g2⟩ | ⟨g1, g2⟩ <;> rw [g1, g2]
    · exact ⟨⟨_, pF⟩, _, pS⟩
    · exact ⟨⟨_, pS⟩, _, pF⟩
  have hids1 : ((b1 ++ s1).map (·.id)).Nodup := by
    rw [ids_of_same (List.rel_append (forall₂_exec_of_buy hex.sameB) (forall₂_exec_of_buy hex.sameS))]
    exact hids
  have hfeas : ∀ o ∈ b1 ++ s1, ExactFeasible cfg prices fee o := by
    intro o ho
    rcases List.mem_append.1 ho with ho | ho
    · obtain ⟨a, ha, _, _, g⟩ := htok hex.sameB ho
      obtain ⟨g1, g2⟩ := c1 o ho
      exact exactFeasible_of (by rw [g]; exact (h.ordB a ha).2) (hex.exB o ho) (by rw [g1]; exact pF) (by rw [g2]; exact pS) rfl
    · obtain ⟨a, ha, _, _, g⟩ := htok hex.sameS ho
      obtain ⟨g1, g2⟩ := c2 o ho
      exact exactFeasible_of (by rw [g]; exact (h.ordS a ha).2) (hex.exS o ho) (by rw [g1]; exact pS) (by rw [g2]; exact pF)
        (by rw [one_div_div])
  have hri : RoundInput prices fee (b1 ++ s1) := ⟨hint, h.feeLt, hids1, hpriced⟩
  have fl : ∀ (p : Order → Bool), (∀ o ∈ b1, p o = true) → (∀ o ∈ s1, p o = false) → (b1 ++ s1).filter p = b1 := by
    intro p h1 h2
    rw [List.filter_append, List.filter_eq_self.2 h1, List.filter_eq_nil_iff.2 (fun o ho => by simp [h2 o ho]), List.append_nil]
  have fr : ∀ (p : Order → Bool), (∀ o ∈ b1, p o = false) → (∀ o ∈ s1, p o = true) → (b1 ++ s1).filter p = s1 := by
    intro p h1 h2
    rw [List.filter_append, List.filter_eq_self.2 h2, List.filter_eq_nil_iff.2 (fun o ho => by simp [h1 o ho]), List.nil_append]
  have kB : ∀ o ∈ b1, decide (o.sellToken = S) = true ∧ decide (o.buyToken = S) = false := by
    intro o ho
    obtain ⟨g1, g2⟩ := c1 o ho
    rw [g1, g2]; simp [Ne.symm hSF]
  have kS : ∀ o ∈ s1, decide (o.sellToken = S) = false ∧ decide (o.buyToken = S) = true := by
    intro o ho
    obtain ⟨g1, g2⟩ := c2 o ho
    rw [g1, g2]; simp [Ne.symm hSF]
  have nB : nrExecutedOf (b1 ++ s1) (fun o => decide (o.sellToken = S)) = nrExecuted b1 := by
    unfold nrExecutedOf nrExecuted
    have e : s1.filter (fun o => decide (o.sellToken = S) && decide (0 < o.buy)) = [] :=
      List.filter_eq_nil_iff.2 (fun o ho => by rw [(kS o ho).1]; simp)
    rw [List.filter_append, e, List.append_nil]
    congr 1
    exact List.filter_congr (fun o ho => by dsimp only; rw [(kB o ho).1, Bool.true_and])
  have nS : nrExecutedOf (b1 ++ s1) (fun o => decide (o.buyToken = S)) = nrExecuted s1 := by
    unfold nrExecutedOf nrExecuted
    have e : b1.filter (fun o => decide (o.buyToken = S) && decide (0 < o.buy)) = [] :=
      List.filter_eq_nil_iff.2 (fun o ho => by rw [(kB o ho).2]; simp)
    rw [List.filter_append, e, List.nil_append]
    congr 1
    exact List.filter_congr (fun o ho => by dsimp only; rw [(kS o ho).2, Bool.true_and])
  have hφ : (1 - fee.value) ≠ 0 := by have : 0 < 1 - fee.value := by have := h.feeLt; linarith
                                      exact this.ne'
  have hbal2 : (((b1 ++ s1).filter (fun o => decide (o.sellToken = S))).map (fun o => exactSell cfg.feeTokenPrice k fee o.buy)).sum = bought (b1 ++ s1) S := by
    unfold bought
    rw [fl _ (fun o ho => (kB o ho).1) (fun o ho => (kS o ho).1), fr _ (fun o ho => (kB o ho).2) (fun o ho => (kS o ho).2)]
    have e : (fun o : Order => exactSell cfg.feeTokenPrice k fee o.buy) = fun o => o.buy * ((cfg.feeTokenPrice : ℚ) / k / (1 - fee.value)) := by
      funext o; unfold exactSell; ring
    rw [e, sum_map_mul_right', ← mul_div_assoc, hbal, mul_div_assoc, div_self hφ, mul_one]
  refine ⟨hri, hfeas, c1, c2, pF, pS, hbal2, nB, nS, ?_, fun ht => (C58_executes_iff hin hcb).2 ⟨t, ht, hfill.volume.admissible⟩⟩
  unfold bought
  rw [fr _ (fun o ho => (kB o ho).2) (fun o ho => (kS o ho).2)]
  obtain ⟨v1, v2⟩ := C58_greatest_volume hin hcb
  exact le_antisymm (hfill.volume.greatest _ v1) (v2 _ hfill.volume.admissible)

/-- C61 (liveness). For a pair with the fee token, if some order buying `S` keeps, at the exact fills, the slack of C59, the solution executes orders:
a trivial outcome means zero volume or no slack. -/
theorem C61_not_trivial {cfg : Config} {ext : Ext} {S : Token} {b s b1 s1 : List Order} {fee : Fee} {k : ℤ} {t : ℚ} {sol : Solution}
    (h : SearchInput cfg fee b s) (hcfg : 1 ≤ cfg.minTradable ∧ cfg.minTradable ≤ cfg.minRationalTradable - 1)
    (hbr : ∀ E, Branching E (ext.branch E)) (hSF : S ≠ fee.token)
    (hclsB : ∀ o ∈ b, o.buyToken = fee.token ∧ o.sellToken = S) (hclsS : ∀ o ∈ s, o.buyToken = S ∧ o.sellToken = fee.token)
    (hids : ((b ++ s).map (·.id)).Nodup) (hk : 1 ≤ k)
    (hfill : Filled cfg (cfg.feeTokenPrice / k) fee cfg.maxNrExec b s t b1 s1) (ht : 0 < t)
    (hslack : ∃ o ∈ s1,
      (cfg.minTradable : ℚ) ≤ o.buy - 1 - nrExecuted b1 * (exactSell cfg.feeTokenPrice k fee 1 + 1) ∧
      (cfg.minTradable : ℚ) ≤ exactSell k cfg.feeTokenPrice fee (o.buy - 1 - nrExecuted b1 * (exactSell cfg.feeTokenPrice k fee 1 + 1)) ∧
      exactSell k cfg.feeTokenPrice fee (o.buy + nrExecuted s1) ≤ o.maxSell)
    (hr : RoundedTo cfg ext fee [(fee.token, (cfg.feeTokenPrice : ℚ)), (S, (k : ℚ))] (b1 ++ s1) sol) :
    sol ≠ .trivial ∧ ∃ o ∈ sol.orders, 0 < o.buy := by
  have hff := feePairFills_of h hSF hclsB hclsS hids hk hfill
  obtain ⟨o, ho, g1, g2, g3⟩ := hslack
  obtain ⟨res, e⟩ := C59_succeeds_with_slack hff.input hcfg hff.feasible hbr hSF hff.cls hff.priceF hff.priceS hff.balanced
    ⟨o, List.mem_append_right _ ho, (hff.clsS o ho).1, by rw [hff.nrB]; exact g1, by rw [hff.nrB]; exact g2, by rw [hff.nrS]; exact g3⟩
  obtain ⟨ok, res', e', rfl⟩ := hr
  rw [e] at e'
  cases e'
  rw [if_pos rfl]
  have hpos : ∃ o ∈ res, 0 < o.buy := by
    obtain ⟨h28, _⟩ := C28_same_orders_executed hff.input hcfg hff.feasible e
    obtain ⟨a, ha, hp⟩ := hff.positive ht
    obtain ⟨a', ha', _, g, _⟩ := forall₂_mem_left h28 a (List.mem_append_right _ ha)
    exact ⟨a', ha', g.2 hp⟩
  refine ⟨?_, hpos⟩
  intro hc
  obtain ⟨a, ha, _⟩ := hpos
  have : res = [] := congrArg Solution.orders hc
  rw [this] at ha
  simp at ha

/-! ## C60 -/

namespace Spec

/-- The attempt with `n` fee orders, starting from the exact fills `b1`, `s1` at rate `x`: it has to cover the fees collected in the first token. -/
def attempt (cfg : Config) (ext : Ext) (pair : Token × Token) (fee : Fee) (x : ℚ) (b1 s1 f : List Order) (n : ℕ) : Py GivenResult :=
  givenExecF cfg ext.sqrt n ((s1.map (soldS x fee)).sum - (b1.map (·.buy)).sum) pair
    { b := b1, s := s1, f := (sortedByExecPriority f).map (fun o => (o.withBuy 0).withSell 0) } x fee

/-- Outcome for a pair without the fee token, all orders of `b` and `s` matchable: a rate `x`, the greatest volume `t` at it; trivial if `t` is zero, if
there are no fee orders or fewer than three orders may be executed; otherwise the attempts `ns` are made in increasing order, and the solution
is trivial if none of them gives a price, or else the rounding of the chosen one. -/
def MainPairOutcome (cfg : Config) (ext : Ext) (fee : Fee) (pair : Token × Token) (b s f : List Order) (xrate : Option ℚ) (sol : Solution) : Prop :=
  ∃ (x t : ℚ) (b1 s1 : List Order), UsedRate cfg ext fee b s xrate x ∧ Filled cfg x fee cfg.maxNrExec b s t b1 s1 ∧
    ((t = 0 ∧ sol = .trivial) ∨ ((f = [] ∨ cfg.maxNrExec < 3) ∧ sol = .trivial) ∨
      (0 < t ∧ f ≠ [] ∧ 3 ≤ cfg.maxNrExec ∧ ∃ ns : List ℕ, ns.Pairwise (· < ·) ∧
        (∀ n : ℕ, n ∈ ns ↔ min (cfg.maxNrExec - nrExecuted b1 - nrExecuted s1 + 1) (min (f.length : ℤ) (cfg.maxNrExec - 2)) ≤ n ∧
          (n : ℤ) ≤ min (f.length : ℤ) (cfg.maxNrExec - 2)) ∧
        (((∀ n ∈ ns, NoPrice (attempt cfg ext pair fee x b1 s1 f) n) ∧ sol = .trivial) ∨
          ∃ g p, Chosen (attempt cfg ext pair fee x b1 s1 f) ns g ∧ g.bPrice = some p ∧
            RoundedTo cfg ext fee [(fee.token, (cfg.feeTokenPrice : ℚ)), (pair.1, (p : ℚ)), (pair.2, p / g.xrate)]
              (g.books.b ++ g.books.s ++ g.books.f) sol)))

end Spec

/-- C60. A pair without the fee token: the number of fee orders is chosen by going up through the admissible numbers while the objective does not
fall; each attempt starts from the same exact fills. -/
theorem C60_fee_order_choice {cfg : Config} {ext : Ext} {pair : Token × Token} {b s f : List Order} {fee : Fee} {xrate : Option ℚ}
    {pool : List Order} {r : MatchResult} (hp : Pool pool) (hc : CfgOk cfg) (hfee : fee.value < 1) (hb : BookOf pool pair fee { b, s, f })
    (hne : pair.1 ≠ pair.2) (hF : pair.1 ≠ fee.token) (hF2 : pair.2 ≠ fee.token) (hbn : b ≠ []) (hsn : s ≠ [])
    (hx : ∀ y, xrate = some y → 0 < y) (hr : solveTokenPairAndFee cfg ext pair b s f fee xrate = .ok r) :
    ((∀ o ∈ b, ∀ c ∈ s, ¬ Matchable fee o c) ∧ r.sol = .trivial) ∨
      ∃ b' s', MatchableParts fee b s b' s' ∧ b' ≠ [] ∧ s' ≠ [] ∧ MainPairOutcome cfg ext fee pair b' s' f xrate r.sol := by
  have h : SearchInput cfg fee b s := hb.search hp hc hfee
  rcases solveTokenPairAndFee_cases (h.prune hbn hsn) hr with h1 | ⟨b', s', r', hm, hb', hs', e, _, h2⟩
  · exact .inl h1
  right
  refine ⟨b', s', hm, hb', hs', ?_⟩
  rw [e]
  obtain ⟨x, hx0, e1, e2, b1, s1, e3, _, e4⟩ := solveOriented_main hp hc hfee (hb.sub hm.subB hm.subS (List.Sublist.refl _)) hne hF hF2 hb' hs' hx (h2 hF2)
  obtain ⟨t, g1, g2⟩ := filled_of ((hm.search h).exec hx0) e3
  refine ⟨x, t, b1, s1, ⟨hx0, e1, e2⟩, g1, ?_⟩
  rcases e4 with ⟨a1, a2⟩ | ⟨a1, a2⟩ | ⟨a1, a2, a3, ns, a4, a5, T, hT, a6⟩
  · left
    refine ⟨le_antisymm ?_ g1.volume.admissible.nonneg, a2⟩
    rw [← not_lt, ← g2]
    rintro ⟨o, ho, hp⟩
    exact a1 o ho hp
  · exact .inr (.inl ⟨a1, a2⟩)
  · obtain rfl : T = attempt cfg ext pair fee x b1 s1 f := funext hT
    refine .inr (.inr ⟨g2.1 a1, a2, a3, ns, a4, a5, ?_⟩)
    rcases a6 with a6 | ⟨g, p, c1, c2, _, c3⟩
    · exact .inl a6
    · exact .inr ⟨g, p, c1, c2, c3⟩

/-! ## C62 -/

theorem restoreMaxSell_reduced {d : ℤ} {v : Order → ℚ} {b b' : List Order}
    (h : restoreMaxSell ((b.map (reduced d)).map (fun o => o.withBuy (v o))) (b.map (·.maxSell)) = .ok b') :
    b' = b.map (fun o => o.withBuy (v (reduced d o))) := by
  unfold restoreMaxSell at h
  rw [mapE_eq_ok_forall₂] at h
  induction b generalizing b' with
  | nil => cases h; rfl
  | cons o b ih =>
    simp only [List.map_cons, List.zip_cons_cons] at h
    cases h with
    | cons e1 e2 =>
      rw [ih e2, List.map_cons]
      congr 1
      unfold Order.setMaxSell at e1
      rw [bind_eq_ok] at e1
      obtain ⟨_, _, e1⟩ := e1
      cases e1; rfl

namespace Spec

/-- What an attempt with `n` fee orders gives: the fee orders used are the first `n`; the price `p` covers the imbalance; they are filled at `p` against
a market order for the imbalance, with greatest volume `u`. If `u` is zero there is no price. Otherwise the b- and s-orders, with maximum sell amounts
lowered by the rounding buffers, are filled at the rate of the integer prices `p`, `q`, within the orders left by the limit. -/
def AttemptResult (cfg : Config) (sqrt : ℚ → Py ℚ) (n : ℕ) (imb : ℚ) (pair : Token × Token) (bk : Books) (x : ℚ) (fee : Fee) (r : GivenResult) : Prop :=
  ∃ (p : ℤ) (m : Order) (u : ℚ) (debt fT : List Order), 1 ≤ p ∧ tokenPriceToCoverImbalance cfg sqrt pair.1 fee imb (bk.f.take n) = .ok p ∧
    m ∈ bk.f.take n ∧ (∀ o ∈ bk.f.take n, m.maxXrate ≤ o.maxXrate) ∧
    Filled cfg (cfg.feeTokenPrice / p) fee cfg.maxNrExec
      [Order.mk' fee.token pair.1 (max imb cfg.minRationalTradable) (1 / (m.maxXrate * (9 / 10))) none marketOrderId] (bk.f.take n) u debt fT ∧
    ((u = 0 ∧ r.bPrice = none) ∨
      (0 < u ∧ r.bPrice = some p ∧ r.books.f = fT ++ bk.f.drop n ∧ ∃ (d e q : ℤ) (t : ℚ),
        d = bufferSize cfg cfg.feeTokenPrice p x ∧ e = bufferSize cfg cfg.feeTokenPrice (p / x) (1 / x) ∧ 1 ≤ q ∧
        computeSBuyTokenPrice p x (bk.b.map (reduced d)) (bk.s.map (reduced e)) fee = .ok q ∧ r.xrate = p / q ∧
        Greatest cfg (p / q) fee (cfg.maxNrExec - nrExecuted fT) (bk.b.map (reduced d)) (bk.s.map (reduced e)) t ∧
        r.books.b = bk.b.map (fun o => o.withBuy (fillB cfg (p / q) fee (bk.b.map (reduced d)) t (reduced d o))) ∧
        r.books.s = bk.s.map (fun o => o.withBuy (fillS cfg (p / q) fee (bk.s.map (reduced e)) t (reduced e o))) ∧
        computeObjectiveRational cfg r.books.b r.books.s r.books.f r.xrate p fee = .ok r.objective))

end Spec

theorem solveBFee_exact {cfg : Config} {sqrt : ℚ → Py ℚ} {imb : ℚ} {bTok : Token} {f f' : List Order} {fee : Fee} {p : ℤ} (hc : CfgOk cfg)
    (hfee : fee.value < 1) (hne : f ≠ []) (hids : (f.map (·.id)).Nodup) (hok : ∀ o ∈ f, 0 < o.maxXrate ∧ 0 ≤ o.maxSell)
    (hr : solveBFee cfg sqrt imb bTok f fee = .ok (p, f')) :
    1 ≤ p ∧ tokenPriceToCoverImbalance cfg sqrt bTok fee imb f = .ok p ∧ ∃ m ∈ f, (∀ o ∈ f, m.maxXrate ≤ o.maxXrate) ∧ ∃ (u : ℚ) (debt : List Order),
      Filled cfg (cfg.feeTokenPrice / p) fee cfg.maxNrExec
        [Order.mk' fee.token bTok (max imb cfg.minRationalTradable) (1 / (m.maxXrate * (9 / 10))) none marketOrderId] f u debt f' ∧
      ((∃ o ∈ f', 0 < o.buy) ↔ 0 < u) := by
  obtain ⟨hp1, _, _⟩ := solveBFee_spec hc hfee hne hids hok hr
  unfold solveBFee at hr
  simp only [bind_eq_ok, pyAssert_eq_ok, exists_and_left, exists_const] at hr
  obtain ⟨p', hp, mo, hmo, fx, hfx, ⟨xo, mo', f1⟩, hs, hsome, e⟩ := hr
  obtain ⟨e1, e2⟩ := Prod.mk.inj (Except.ok.inj e)
  subst e1; subst e2
  obtain ⟨hne0, rfl⟩ := pyDiv_eq_ok.1 hfx
  have hP : (0 : ℚ) < cfg.feeTokenPrice := by exact_mod_cast hc.feePrice
  have hpq : (0 : ℚ) < p' := by exact_mod_cast hp1
  obtain ⟨m, hm, hmin', emo⟩ := createMarketOrder_eq (cfg := cfg) (bt := fee.token) (st := bTok) (amt := imb) hne (fun o ho => (hok o ho).1)
  rw [emo] at hmo
  cases hmo
  have hm0 := (hok m hm).1
  have hmin : (0 : ℚ) < cfg.minRationalTradable := by exact_mod_cast hc.minRational
  have hin : SearchInput cfg fee [Order.mk' fee.token bTok (max imb (cfg.minRationalTradable : ℚ)) (1 / (m.maxXrate * (9 / 10))) none marketOrderId] f := by
    refine ⟨hc.minRational, hfee, hc.limit, hc.feePrice, by simp, hids, ?_, hok⟩
    intro o ho
    rw [List.mem_singleton] at ho
    subst ho
    exact ⟨by show (0 : ℚ) < 1 / _; positivity, hmin.le.trans (le_max_right _ _)⟩
  have hfx0 : (0 : ℚ) < cfg.feeTokenPrice / p' := div_pos hP hpq
  rcases solveTokenPair_spec hin hc.limit (fun y hy => by cases hy; exact hfx0) (fun q hq => by cases hq) hs with
    ⟨rfl, _⟩ | ⟨x, x0, rfl, hx, hx0, hxx, _, _, hpr, hcb, hex⟩
  · simp at hsome
  · obtain ⟨q, _, hq1, hq2, rfl⟩ := hpr cfg.feeTokenPrice (by unfold effPrice; rw [if_pos rfl])
    rw [hxx _ rfl] at hq2
    have e1 : (cfg.feeTokenPrice : ℚ) / (cfg.feeTokenPrice / p') = p' := by field_simp
    rw [e1] at hq2
    have hqp : q = p' := by
      have h3 : |q - p'| < 1 := by exact_mod_cast hq2
      rw [Int.abs_lt_one_iff] at h3
      omega
    subst hqp
    obtain ⟨u, g1, g2⟩ := filled_of (hin.exec hx) hcb
    exact ⟨hp1, hp, m, hm, hmin', u, mo', g1, g2⟩

theorem solveBuffered_exact {cfg : Config} {sqrt : ℚ → Py ℚ} {pair : Token × Token} {b s b' s' : List Order} {x p : ℚ} {fee : Fee} {maxNr : ℤ}
    {r : Option ℚ} (h : BufferInput cfg pair b s x p fee) (hs : SearchInput cfg fee b s) (hn : 0 ≤ maxNr) (hb : b ≠ []) (hsn : s ≠ [])
    (hr : solveBuffered cfg sqrt pair b s x p fee maxNr = .ok (r, b', s')) :
    ∃ (d e q : ℤ) (t : ℚ), d = bufferSize cfg cfg.feeTokenPrice p x ∧ e = bufferSize cfg cfg.feeTokenPrice (p / x) (1 / x) ∧ 1 ≤ q ∧
      computeSBuyTokenPrice p x (b.map (reduced d)) (s.map (reduced e)) fee = .ok q ∧ r = some (p / q) ∧
      Greatest cfg (p / q) fee maxNr (b.map (reduced d)) (s.map (reduced e)) t ∧
      b' = b.map (fun o => o.withBuy (fillB cfg (p / q) fee (b.map (reduced d)) t (reduced d o))) ∧
      s' = s.map (fun o => o.withBuy (fillS cfg (p / q) fee (s.map (reduced e)) t (reduced e o))) := by
  refine ⟨bufferSize cfg cfg.feeTokenPrice p x, bufferSize cfg cfg.feeTokenPrice (p / x) (1 / x), ?_⟩
  unfold solveBuffered at hr
  rw [C29_enter_exact h, ok_bind] at hr
  simp only [bind_eq_ok] at hr
  obtain ⟨⟨r', b2, s2⟩, e1, b3, e2, s3, e3, e4⟩ := hr
  cases e4
  have hids : ∀ (d : ℤ) (l : List Order), (l.map (reduced d)).map (·.id) = l.map (·.id) := by
    intro d l; rw [List.map_map]; rfl
  generalize bufferSize cfg cfg.feeTokenPrice p x = d at e1 ⊢
  generalize bufferSize cfg cfg.feeTokenPrice (p / x) (1 / x) = e at e1 ⊢
  have hin : SearchInput cfg fee (b.map (reduced d)) (s.map (reduced e)) := by
    refine ⟨hs.minPos, hs.feeLt, hs.limit, hs.feePrice, ?_, ?_, ?_, ?_⟩
    · rw [hids]; exact hs.idsB
    · rw [hids]; exact hs.idsS
    · intro o ho
      obtain ⟨a, ha, rfl⟩ := List.mem_map.1 ho
      exact ⟨(hs.ordB a ha).1, le_max_right _ _⟩
    · intro o ho
      obtain ⟨a, ha, rfl⟩ := List.mem_map.1 ho
      exact ⟨(hs.ordS a ha).1, le_max_right _ _⟩
  rcases solveTokenPair_spec hin hn (fun y hy => by cases hy; exact h.rate) (fun q hq => by cases hq; exact h.price) e1 with
    ⟨_, _, _, h0⟩ | ⟨y, x0, rfl, hy, hx0, hxx, _, _, hpr, hcb, hex⟩
  · exfalso
    rcases h0 with h0 | h0
    · exact hb (List.map_eq_nil_iff.1 h0)
    · exact hsn (List.map_eq_nil_iff.1 h0)
  · obtain ⟨q, hq, hq1, hq2, rfl⟩ := hpr p (by unfold effPrice; rw [if_neg h.neF1])
    rw [hxx x rfl] at hq
    obtain ⟨t, g1, _⟩ := filled_of ⟨hs.minPos, hy, hs.feeLt, hn, hin.idsB, hin.idsS⟩ hcb
    refine ⟨q, t, rfl, rfl, hq1, hq, rfl, g1.volume, ?_, ?_⟩
    · rw [g1.eqB] at e2; exact restoreMaxSell_reduced e2
    · rw [g1.eqS] at e3; exact restoreMaxSell_reduced e3

/-- C62. The exact result of an attempt with `n` fee orders. -/
theorem C62_attempt {cfg : Config} {sqrt : ℚ → Py ℚ} {n : ℕ} {imb : ℚ} {pair : Token × Token} {bk : Books} {x : ℚ} {fee : Fee}
    {pool : List Order} {r : GivenResult} (hp : Pool pool) (hc : CfgOk cfg) (hfee : fee.value < 1) (hb : BookOf pool pair fee bk)
    (hne : pair.1 ≠ pair.2) (hF1 : pair.1 ≠ fee.token) (hF2 : pair.2 ≠ fee.token) (hx : 0 < x) (hbn : bk.b ≠ []) (hsn : bk.s ≠ [])
    (hfn : bk.f ≠ []) (hn1 : 1 ≤ n) (hn2 : (n : ℤ) ≤ cfg.maxNrExec)
    (hr : givenExecF cfg sqrt n imb pair bk x fee = .ok r) : AttemptResult cfg sqrt n imb pair bk x fee r := by
  unfold givenExecF at hr
  rw [bind_eq_ok] at hr
  obtain ⟨⟨p, fT⟩, h1, hr⟩ := hr
  have htake : bk.f.take n ≠ [] := by
    cases hf : bk.f with
    | nil => exact absurd hf hfn
    | cons o l => obtain ⟨k, rfl⟩ : ∃ k, n = k + 1 := ⟨n - 1, by omega⟩; simp
  have hidsT : ((bk.f.take n).map (·.id)).Nodup := by rw [List.map_take]; exact hb.idsF.sublist (List.take_sublist _ _)
  have hokT : ∀ o ∈ bk.f.take n, 0 < o.maxXrate ∧ 0 ≤ o.maxSell := fun o ho =>
    ⟨((hb.derF o (List.mem_of_mem_take ho)).ok hp).1, ((hb.derF o (List.mem_of_mem_take ho)).ok hp).2.1⟩
  obtain ⟨_, sT, _⟩ := solveBFee_spec hc hfee htake hidsT hokT h1
  obtain ⟨p1, hpr, m, hm, hmin, u, debt, hfill, hu⟩ := solveBFee_exact hc hfee htake hidsT hokT h1
  have hlen := sT.length_eq
  have htk : (fT ++ bk.f.drop n).take n = fT := by
    rw [List.length_take] at hlen
    by_cases hle : n ≤ bk.f.length
    · rw [List.take_append_of_le_length (by omega), List.take_of_length_le (by omega)]
    · rw [List.drop_of_length_le (by omega), List.append_nil, List.take_of_length_le (by omega)]
  have hcnt : countNrExec fT ≤ n := by
    refine (List.countP_le_length).trans ?_
    rw [← hlen, List.length_take]; omega
  refine ⟨p, m, u, debt, fT, p1, hpr, hm, hmin, hfill, ?_⟩
  dsimp only at hr
  rw [htk] at hr
  by_cases h0 : countNrExec fT = 0
  · rw [if_pos h0] at hr
    cases hr
    left
    refine ⟨le_antisymm ?_ hfill.volume.admissible.nonneg, rfl⟩
    rw [← not_lt, ← hu]
    rintro ⟨o, ho, hpos⟩
    exact not_pos_of_countNrExec h0 o ho hpos
  · rw [if_neg h0, bind_eq_ok] at hr
    obtain ⟨⟨xo, b', s'⟩, h2, hr⟩ := hr
    have hpq : (0 : ℚ) < p := by exact_mod_cast p1
    have hbi : BufferInput cfg pair bk.b bk.s x p fee :=
      ⟨hx, hpq, hc.feePrice, hc.volume, hc.error, hne, hF1, hF2, hb.clsB, hb.clsS, fun o ho => ((hb.derB o ho).ok hp).2,
        fun o ho => ((hb.derS o ho).ok hp).2⟩
    obtain ⟨d, e, q, t, hd, he, hq1, hq, rfl, hg, hb', hs'⟩ := solveBuffered_exact hbi (hb.search hp hc hfee) (by omega) hbn hsn h2
    dsimp only at hr
    rw [bind_eq_ok] at hr
    obtain ⟨obj, hobj, hr⟩ := hr
    cases hr
    rw [← nrExecuted_eq] at hg
    exact .inr ⟨hu.1 (exists_of_countNrExec h0), rfl, rfl, d, e, q, t, hd, he, hq1, hq, rfl, hg, hb', hs', hobj⟩

/-! ## Examples -/

namespace ExOut
def fee : Fee := { token := "F", value := 1 / 1000 }
def branch (E : List (Token × Token)) : List (Token × Token) :=
  if ("F", "B") ∈ E then [("F", "B"), ("B", "S")] else if ("F", "S") ∈ E then [("F", "S")] else []
def ext : Ext := { sqrt := ExInst.sqrt, branch, fdiv := fun q n => .ok (q / n) }
/-- Orders of a pair with the fee token. -/
def bF : List Order := [Order.mk' "F" "S" (10 ^ 20) 2 none "0", Order.mk' "F" "S" (10 ^ 19) (19 / 10) none "1"]
@[inherit_doc bF] def sF : List Order := [Order.mk' "S" "F" (10 ^ 20) 1 none "2", Order.mk' "S" "F" (10 ^ 20) (9 / 10) none "3"]
/-- Orders of a pair without it, with two fee orders and a limit of four executed orders. -/
def b : List Order := [Order.mk' "B" "S" (10 ^ 20) 2 none "0", Order.mk' "B" "S" (10 ^ 19) (19 / 10) none "1"]
@[inherit_doc b] def s : List Order := [Order.mk' "S" "B" (5 * 10 ^ 19) 1 none "2", Order.mk' "S" "B" (10 ^ 20) 1 none "3"]
@[inherit_doc b] def f : List Order := [Order.mk' "B" "F" (10 ^ 16) 2 none "4", Order.mk' "B" "F" (10 ^ 18) (19 / 10) none "5"]
@[inherit_doc b] def cfg : Config := { Config.default with maxNrExec := 4 }
end ExOut

open ExOut in
example : SearchInput Config.default fee bF sF ∧ SearchInput Config.default fee sF bF := by
  constructor <;> constructor <;> decide +kernel

/-- Three of the four orders are executed, whichever way round the pair is given. -/
example : ∃ r, solveTokenPairAndFee Config.default ExOut.ext ("F", "S") ExOut.bF ExOut.sF [] ExOut.fee none = .ok r ∧
    nrExecuted r.sol.orders = 3 ∧ r.sol.prices.length = 2 :=
  exists_of_pyCheck (p := fun r : MatchResult => nrExecuted r.sol.orders = 3 ∧ r.sol.prices.length = 2) (by decide +kernel)

example : ∃ r, solveTokenPairAndFee Config.default ExOut.ext ("S", "F") ExOut.sF ExOut.bF [] ExOut.fee none = .ok r ∧
    nrExecuted r.sol.orders = 3 ∧ r.sol.prices.length = 2 :=
  exists_of_pyCheck (p := fun r : MatchResult => nrExecuted r.sol.orders = 3 ∧ r.sol.prices.length = 2) (by decide +kernel)

/-- The hypotheses of `C61_not_trivial`: at the price `9 * 10 ^ 17` of `S` a positive volume is exchanged and the slack is there. -/
example : ∃ t b1 s1, Filled Config.default ((Config.default.feeTokenPrice : ℚ) / (9 * 10 ^ 17 : ℤ)) ExOut.fee Config.default.maxNrExec
      ExOut.bF ExOut.sF t b1 s1 ∧ 0 < t ∧ ∃ o ∈ s1,
    (Config.default.minTradable : ℚ) ≤ o.buy - 1 - nrExecuted b1 * (exactSell Config.default.feeTokenPrice (9 * 10 ^ 17 : ℤ) ExOut.fee 1 + 1) ∧
    (Config.default.minTradable : ℚ) ≤ exactSell (9 * 10 ^ 17 : ℤ) Config.default.feeTokenPrice ExOut.fee
      (o.buy - 1 - nrExecuted b1 * (exactSell Config.default.feeTokenPrice (9 * 10 ^ 17 : ℤ) ExOut.fee 1 + 1)) ∧
    exactSell (9 * 10 ^ 17 : ℤ) Config.default.feeTokenPrice ExOut.fee (o.buy + nrExecuted s1) ≤ o.maxSell := by
  have h : ExecInput Config.default ((Config.default.feeTokenPrice : ℚ) / (9 * 10 ^ 17 : ℤ)) ExOut.fee Config.default.maxNrExec ExOut.bF ExOut.sF := by
    constructor <;> decide +kernel
  obtain ⟨⟨b1, s1⟩, e, h1, h2⟩ := exists_of_pyCheck
    (x := computeBuyAmounts Config.default ((Config.default.feeTokenPrice : ℚ) / (9 * 10 ^ 17 : ℤ)) ExOut.bF ExOut.sF ExOut.fee Config.default.maxNrExec)
    (p := fun r : List Order × List Order => (∃ o ∈ r.2, 0 < o.buy) ∧ ∃ o ∈ r.2,
      (Config.default.minTradable : ℚ) ≤ o.buy - 1 - nrExecuted r.1 * (exactSell Config.default.feeTokenPrice (9 * 10 ^ 17 : ℤ) ExOut.fee 1 + 1) ∧
      (Config.default.minTradable : ℚ) ≤ exactSell (9 * 10 ^ 17 : ℤ) Config.default.feeTokenPrice ExOut.fee
        (o.buy - 1 - nrExecuted r.1 * (exactSell Config.default.feeTokenPrice (9 * 10 ^ 17 : ℤ) ExOut.fee 1 + 1)) ∧
      exactSell (9 * 10 ^ 17 : ℤ) Config.default.feeTokenPrice ExOut.fee (o.buy + nrExecuted r.2) ≤ o.maxSell) (by decide +kernel)
  obtain ⟨t, g1, g2⟩ := filled_of h e
  exact ⟨t, b1, s1, g1, g2.1 h1, h2⟩

open ExOut in
/-- The hypotheses of C60 and C62. -/
example : Pool (b ++ s ++ f) ∧ BookOf (b ++ s ++ f) ("B", "S") fee { b, s, f } ∧ CfgOk cfg := by
  refine ⟨⟨by decide +kernel, by decide +kernel⟩, ⟨fun o h => der_self (by simp_all), fun o h => der_self (by simp_all), fun o h => der_self (by simp_all),
    by decide +kernel, by decide +kernel, by decide +kernel, by decide +kernel, by decide +kernel, by decide +kernel⟩, ?_⟩
  constructor <;> decide +kernel

/-- At the rate found, four orders match, so that one or two fee orders may be tried. Both attempts give a price; the second has the better objective. -/
example : ∃ r, (do
    let (x, b1, s1) ← solveTokenPair ExOut.cfg ExOut.ext.sqrt ("B", "S") ExOut.b ExOut.s ExOut.fee none none ExOut.cfg.maxNrExec
    let y := x.getD 0
    let g1 ← attempt ExOut.cfg ExOut.ext ("B", "S") ExOut.fee y b1 s1 ExOut.f 1
    let g2 ← attempt ExOut.cfg ExOut.ext ("B", "S") ExOut.fee y b1 s1 ExOut.f 2
    pure (nrExecuted b1 + nrExecuted s1, g1, g2)) = .ok r ∧
    r.1 = 4 ∧ r.2.1.bPrice.isSome = true ∧ r.2.2.bPrice.isSome = true ∧ r.2.1.objective < r.2.2.objective :=
  exists_of_pyCheck (p := fun r : ℕ × GivenResult × GivenResult =>
    r.1 = 4 ∧ r.2.1.bPrice.isSome = true ∧ r.2.2.bPrice.isSome = true ∧ r.2.1.objective < r.2.2.objective) (by decide +kernel)

/-- The solution executes two matched orders and two fee orders. -/
example : ∃ r, solveTokenPairAndFee ExOut.cfg ExOut.ext ("B", "S") ExOut.b ExOut.s ExOut.f ExOut.fee none = .ok r ∧
    nrExecuted r.sol.orders = 4 ∧ r.sol.prices.length = 3 :=
  exists_of_pyCheck (p := fun r : MatchResult => nrExecuted r.sol.orders = 4 ∧ r.sol.prices.length = 3) (by decide +kernel)

end Dex
