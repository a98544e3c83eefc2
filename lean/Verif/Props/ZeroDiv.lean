import Verif.Props.Errors
import Verif.Proof.Bounded

/-! # Property C114: when the rate search divides by zero -/

namespace Dex

namespace Spec

/-- Some of the orders, listed by limit rate, are such that the ones before `p`, after the fee, sell more than twice what `p` and the ones after it sell. -/
def Lopsided (fee : Fee) (b : List Order) : Prop :=
  ∃ U p F, (U ++ p :: F).Subperm b ∧ (U ++ p :: F).Pairwise (fun a c => a.maxXrate ≤ c.maxXrate) ∧
    2 * (p.maxSell + (F.map (·.maxSell)).sum) + (1 - fee.value) * (F.map (·.maxSell)).sum < (1 - fee.value) * (U.map (·.maxSell)).sum

end Spec

open Spec

theorem sum_sells_nonneg {l : List Order} (h : ∀ o ∈ l, 0 ≤ o.maxSell) : 0 ≤ (l.map (·.maxSell)).sum :=
  List.sum_nonneg (by simpa using h)

/-- Orders with greater limits: what they sell, at their limits, is worth at most the amount. -/
theorem sum_div_le {π : ℚ} (hπ : 0 < π) {l : List Order} (h : ∀ o ∈ l, 0 ≤ o.maxSell ∧ π ≤ o.maxXrate) :
    ∃ v, sumE (fun o : Order => pyDiv o.maxSell o.maxXrate) l = .ok v ∧ 0 ≤ v ∧ π * v ≤ (l.map (·.maxSell)).sum := by
  induction l with
  | nil => exact ⟨0, rfl, le_refl _, by simp⟩
  | cons o l ih =>
    obtain ⟨v, h1, h2, h3⟩ := ih fun a ha => h a (by simp [ha])
    obtain ⟨k1, k2⟩ := h o (by simp)
    have ho : 0 < o.maxXrate := hπ.trans_le k2
    refine ⟨o.maxSell / o.maxXrate + v, ?_, by positivity, ?_⟩
    · unfold sumE
      rw [pyDiv_of_ne ho.ne', ok_bind, h1]; rfl
    · rw [List.map_cons, List.sum_cons]
      have : π * (o.maxSell / o.maxXrate) ≤ o.maxSell := by
        rw [← mul_div_assoc, div_le_iff₀ ho, mul_comm]
        exact mul_le_mul_of_nonneg_left k2 k1
      linarith

theorem sum_div_ok {l : List Order} (h : ∀ o ∈ l, 0 ≤ o.maxSell ∧ 0 < o.maxXrate) :
    ∃ v, sumE (fun o : Order => pyDiv o.maxSell o.maxXrate) l = .ok v ∧ 0 ≤ v := by
  induction l with
  | nil => exact ⟨0, rfl, le_refl _⟩
  | cons o l ih =>
    obtain ⟨v, h1, h2⟩ := ih fun a ha => h a (by simp [ha])
    obtain ⟨k1, ho⟩ := h o (by simp)
    refine ⟨o.maxSell / o.maxXrate + v, ?_, by positivity⟩
    unfold sumE
    rw [pyDiv_of_ne ho.ne', ok_bind, h1]; rfl

/-- The candidate rates of an interval: without a lopsided side there is no division by zero. -/
theorem only_localOptima_lopsided {cfg : Config} {sqrt : ℚ → Py ℚ} {fee : Fee} {b s : List Order} {d : IntervalData} {E : PyErr → Prop}
    (hP : 0 < cfg.feeTokenPrice) (h0 : 0 ≤ fee.value) (h1 : fee.value < 1) (hb : ∀ o ∈ b, 0 < o.maxXrate ∧ 0 < o.maxSell)
    (hs : ∀ o ∈ s, 0 < o.maxXrate ∧ 0 < o.maxSell) (hd : YieldOk (variants b s fee) d) (hz : Lopsided fee b → E .zeroDivision)
    (hq : ∀ t e, 0 ≤ t → sqrt t = .error e → E e) : Only E (localOptima cfg sqrt fee d) := by
  by_cases hlop : Lopsided fee b
  · exact only_localOptima (hz hlop) hq hd.idxB hd.idxS
  have hf : 0 < 1 - fee.value := by linarith
  obtain ⟨sortB, sortS⟩ := hd.sorted h1 (fun o ho => (hs o ho).1)
  have hB : ∀ o ∈ d.b, 0 < o.maxXrate ∧ 0 < o.maxSell := fun o ho => hb o (hd.subperm.1.subset ho)
  have hS : ∀ o ∈ d.s, 0 < o.maxXrate ∧ 0 < o.maxSell := fun o ho => hs o (hd.subperm.2.subset ho)
  have splitB : d.b = d.b.take d.bPartial ++ d.b[d.bPartial]'hd.idxB :: d.b.drop (d.bPartial + 1) := by
    rw [List.getElem_cons_drop, List.take_append_drop]
  have splitS : d.s = d.s.take d.sPartial ++ d.s[d.sPartial]'hd.idxS :: d.s.drop (d.sPartial + 1) := by
    rw [List.getElem_cons_drop, List.take_append_drop]
  have hbo := hB _ (List.getElem_mem hd.idxB)
  have hso := hS _ (List.getElem_mem hd.idxS)
  have hBU := sum_sells_nonneg (l := d.b.take d.bPartial) fun o ho => (hB o (List.mem_of_mem_take ho)).2.le
  have hBF := sum_sells_nonneg (l := d.b.drop (d.bPartial + 1)) fun o ho => (hB o (List.mem_of_mem_drop ho)).2.le
  have hSF := sum_sells_nonneg (l := d.s.drop (d.sPartial + 1)) fun o ho => (hS o (List.mem_of_mem_drop ho)).2.le
  have key : (1 - fee.value) * ((d.b.take d.bPartial).map (·.maxSell)).sum ≤
      2 * ((d.b[d.bPartial]'hd.idxB).maxSell + ((d.b.drop (d.bPartial + 1)).map (·.maxSell)).sum) +
        (1 - fee.value) * ((d.b.drop (d.bPartial + 1)).map (·.maxSell)).sum := by
    by_contra hc
    exact hlop ⟨_, _, _, splitB ▸ hd.subperm.1, splitB ▸ sortB, not_le.1 hc⟩
  obtain ⟨vF, eF, _, hF⟩ := sum_div_le (l := d.s.drop (d.sPartial + 1)) hso.1 fun o ho => by
    refine ⟨(hS o (List.mem_of_mem_drop ho)).2.le, ?_⟩
    have := sortS
    rw [splitS] at this
    exact (List.pairwise_cons.1 (List.pairwise_append.1 this).2.1).1 o ho
  obtain ⟨vU, eU, hU⟩ := sum_div_ok (l := d.s.take d.sPartial) fun o ho => by
    have := hS o (List.mem_of_mem_take ho)
    exact ⟨this.2.le, this.1⟩
  unfold localOptima computeConstants cConstant
  rw [pyGet_at hd.idxB, ok_bind, pyGet_at hd.idxS, ok_bind]
  simp only [eF, eU, ok_bind, pure_eq_ok]
  have hcp : (0 : ℚ) < cfg.feeTokenPrice := by exact_mod_cast hP
  have hcp1 : (1 : ℚ) ≤ cfg.feeTokenPrice := by exact_mod_cast hP
  generalize (d.b[d.bPartial]'hd.idxB) = bo at *
  generalize (d.s[d.sPartial]'hd.idxS) = so at *
  unfold sumYbF
  generalize ((d.b.take d.bPartial).map (·.maxSell)).sum = bU at *
  generalize ((d.b.drop (d.bPartial + 1)).map (·.maxSell)).sum = bF at *
  generalize ((d.s.drop (d.sPartial + 1)).map (·.maxSell)).sum = sF at *
  have hf1 : 1 - fee.value ≤ 1 := by linarith
  generalize 1 - fee.value = f at *
  obtain ⟨hb1, hb2⟩ := hbo
  obtain ⟨hs1, hs2⟩ := hso
  generalize bo.maxXrate = bπ at *
  generalize bo.maxSell = by0 at *
  generalize so.maxXrate = sπ at *
  generalize so.maxSell = sy at *
  unfold root3
  dsimp only
  generalize (cfg.feeTokenPrice : ℚ) = P at *
  have hff : f ^ 2 ≤ 1 := pow_le_one₀ hf.le hf1
  have d2 : 0 ≤ sπ * (by0 * (1 + f ^ 2 * (2 * P - 1)) + bF * (1 - f ^ 2)) / (2 * P) := by
    have : 0 ≤ 2 * P - 1 := by linarith
    have : 0 ≤ 1 - f ^ 2 := by linarith
    positivity
  have d1 : 0 < f * (sπ * ((f * (bF - bU) - vF + vU) + 2 * (by0 + bF)) + sy + 2 * sF) := by
    apply mul_pos hf
    have e1 : 0 ≤ sπ * (2 * (by0 + bF) + f * bF - f * bU) := mul_nonneg hs1.le (by linarith)
    have e2 : 0 ≤ sπ * vU := mul_nonneg hs1.le hU
    nlinarith [e1, e2, hF, hs2, hSF]
  simp only [pyDiv_of_ne (by positivity : 2 * P ≠ 0), ok_bind]
  rw [pyDiv_of_ne (by positivity : f * (sπ * ((f * (bF - bU) - vF + vU) + 2 * (by0 + bF)) + sy + 2 * sF) +
    sπ * (by0 * (1 + f ^ 2 * (2 * P - 1)) + bF * (1 - f ^ 2)) / (2 * P) ≠ 0), ok_bind]
  have s5 : f * (sy + sF) ≠ 0 := (mul_pos hf (by linarith)).ne'
  have s4 : 2 * f * sπ * (sy + sF) ≠ 0 := by
    have : 0 < sy + sF := by linarith
    positivity
  unfold root4 root5
  simp only [pyDiv_of_ne s4, pyDiv_of_ne s5, ok_bind]
  refine only_bind ?_ fun _ _ => only_ok _
  split
  · rename_i ht
    exact only_bind (fun e he => hq _ e ht he) fun _ _ => only_pure _
  · exact only_pure _

theorem Lopsided.mono {fee : Fee} {b' b : List Order} (h : b'.Subperm b) : Lopsided fee b' → Lopsided fee b
  | ⟨U, p, F, h1, h2, h3⟩ => ⟨U, p, F, h1.trans h, h2, h3⟩

theorem not_lopsided_single {fee : Fee} {o : Order} (ho : 0 ≤ o.maxSell) : ¬ Lopsided fee [o] := by
  rintro ⟨U, p, F, h1, _, h3⟩
  have hlen := h1.length_le
  simp only [List.length_append, List.length_cons, List.length_nil] at hlen
  have hU : U = [] := List.eq_nil_of_length_eq_zero (by omega)
  have hF : F = [] := List.eq_nil_of_length_eq_zero (by omega)
  subst hU hF
  have hp : p ∈ [o] := h1.subset (by simp)
  rw [List.mem_singleton] at hp
  subst hp
  simp at h3
  linarith

/-- Two orders of which none sells more than twice as much as the other. -/
theorem not_lopsided_two {fee : Fee} (h0 : 0 ≤ fee.value) (hf : fee.value < 1) {o c : Order} (ho : 0 ≤ o.maxSell) (hc : 0 ≤ c.maxSell)
    (h1 : o.maxSell ≤ 2 * c.maxSell) (h2 : c.maxSell ≤ 2 * o.maxSell) : ¬ Lopsided fee [o, c] := by
  rintro ⟨U, p, F, g1, _, g3⟩
  have hlen := g1.length_le
  have hmem : ∀ a ∈ U ++ p :: F, a = o ∨ a = c := fun a ha => by simpa using g1.subset ha
  have hnn : ∀ a ∈ U ++ p :: F, 0 ≤ a.maxSell := fun a ha => by rcases hmem a ha with rfl | rfl <;> assumption
  have hp := hnn p (by simp)
  have hF := sum_sells_nonneg (l := F) fun a ha => hnn a (by simp [ha])
  have hφ : 0 < 1 - fee.value := by linarith
  have hFφ := mul_nonneg hφ.le hF
  simp only [List.length_append, List.length_cons, List.length_nil] at hlen
  rcases U with _ | ⟨u, _ | ⟨u', U⟩⟩
  · simp at g3; linarith
  · have hF0 : F = [] := List.eq_nil_of_length_eq_zero (by simp at hlen; omega)
    subst hF0
    have hperm : [u, p].Perm [o, c] := g1.perm_of_length_le (by simp)
    have hu := hnn u (by simp)
    have hup : u.maxSell ≤ 2 * p.maxSell := by
      have hs := (hperm.map (·.maxSell)).sum_eq
      simp at hs
      rcases hmem u (by simp) with rfl | rfl
      · linarith
      · linarith
    have : (1 - fee.value) * u.maxSell ≤ u.maxSell := mul_le_of_le_one_left hu (by linarith)
    simp at g3
    linarith
  · simp at hlen; omega

/-- C114. The rate search with a square root that succeeds on nonnegative numbers fails only in two cases: `ZeroDivisionError`, and then the orders of the first
side are lopsided; or a shape assertion, and then there are at least four orders left and two neighbouring limit rates have equal value. -/
theorem C114_search {cfg : Config} {sqrt : ℚ → Py ℚ} {fee : Fee} {b s : List Order} (h : SearchInput cfg fee b s) (h0 : 0 ≤ fee.value)
    (hb : ∀ o ∈ b, 0 < o.maxSell) (hs : ∀ o ∈ s, 0 < o.maxSell) (hm : ∃ o ∈ b, ∃ c ∈ s, Matchable fee o c)
    (hq : ∀ t, 0 ≤ t → ∃ r, sqrt t = .ok r) {e : PyErr} (he : findBestXrate cfg sqrt b s fee = .error e) :
    (e = .zeroDivision ∧ Lopsided fee b) ∨ ((e = .assertion "xrate.py:439" ∨ e = .assertion "xrate.py:440") ∧
      ∃ b' s', pruneUnrealizable b s fee = .ok (b', s') ∧ 4 ≤ b'.length + s'.length ∧ Tie cfg fee b' s') := by
  refine only_findBestXrate_of (sqrt := sqrt) (E := fun e => (e = .zeroDivision ∧ Lopsided fee b) ∨
    ((e = .assertion "xrate.py:439" ∨ e = .assertion "xrate.py:440") ∧
      ∃ b' s', pruneUnrealizable b s fee = .ok (b', s') ∧ 4 ≤ b'.length + s'.length ∧ Tie cfg fee b' s')) h hm ?_ ?_ e he
  · intro b' s' d hp hd
    obtain ⟨o, ho, c, hc, _⟩ := hm
    obtain ⟨_, _, hp', sb, ss, _, _⟩ := C14_exact (h.prune (List.ne_nil_of_mem ho) (List.ne_nil_of_mem hc))
    rw [hp'] at hp
    cases hp
    exact only_localOptima_lopsided h.feePrice h0 h.feeLt (fun o ho => ⟨(h.ordB o (sb.subset ho)).1, hb o (sb.subset ho)⟩)
      (fun o ho => ⟨(h.ordS o (ss.subset ho)).1, hs o (ss.subset ho)⟩) hd (fun hl => .inl ⟨rfl, Lopsided.mono sb.subperm hl⟩)
      (fun t e ht he => by obtain ⟨r, hr⟩ := hq t ht; rw [hr] at he; cases he)
  · exact fun b' s' hp h4 ht => ⟨.inr ⟨.inl rfl, b', s', hp, h4, ht⟩, .inr ⟨.inr rfl, b', s', hp, h4, ht⟩⟩

/-- C114. So with at most three orders, and on the first side one order, or two of which none sells more than twice as much as the other, the search succeeds. -/
theorem C114_small_book {cfg : Config} {sqrt : ℚ → Py ℚ} {fee : Fee} {b s : List Order} (h : SearchInput cfg fee b s) (h0 : 0 ≤ fee.value)
    (hb : ∀ o ∈ b, 0 < o.maxSell) (hs : ∀ o ∈ s, 0 < o.maxSell) (hm : ∃ o ∈ b, ∃ c ∈ s, Matchable fee o c)
    (hq : ∀ t, 0 ≤ t → ∃ r, sqrt t = .ok r) (hn : b.length + s.length ≤ 3)
    (h2 : ∀ o ∈ b, ∀ c ∈ b, o.maxSell ≤ 2 * c.maxSell) : ∃ x v, findBestXrate cfg sqrt b s fee = .ok (some (x, v)) := by
  have hl : ¬ Lopsided fee b := by
    obtain ⟨_, ho, _, hc, _⟩ := hm
    have hc := List.length_pos_of_mem hc
    rcases b with _ | ⟨o, _ | ⟨c, _ | ⟨d, b⟩⟩⟩
    · simp at ho
    · exact not_lopsided_single (hb o (by simp)).le
    · exact not_lopsided_two h0 h.feeLt (hb o (by simp)).le (hb c (by simp)).le (h2 o (by simp) c (by simp)) (h2 c (by simp) o (by simp))
    · simp only [List.length_cons] at hn; omega
  cases he : findBestXrate cfg sqrt b s fee with
  | ok r =>
    obtain ⟨x, v, _, _, _, _, _, rfl, _⟩ := C16_attained_maximum h he
    exact ⟨x, v, rfl⟩
  | error e =>
    exfalso
    rcases C114_search h h0 hb hs hm hq he with ⟨_, h'⟩ | ⟨_, b', s', hp, h4, _⟩
    · exact hl h'
    · obtain ⟨o, ho, c, hc, _⟩ := hm
      obtain ⟨_, _, hp', sb, ss, _, _⟩ := C14_exact (h.prune (List.ne_nil_of_mem ho) (List.ne_nil_of_mem hc))
      rw [hp'] at hp
      cases hp
      have := sb.length_le
      have := ss.length_le
      omega

/-- C114. The price that connects a token to the fee token is found by a search with one order on the first side: it never raises `ZeroDivisionError`. -/
theorem C114_fee_price {cfg : Config} {sqrt : ℚ → Py ℚ} {imb : ℚ} {bTok : Token} {f : List Order} {fee : Fee} (hc : CfgOk cfg) (h0 : 0 ≤ fee.value)
    (hfee : fee.value < 1) (hφ : 9 / 10 ≤ (1 - fee.value) ^ 2) (hne : f ≠ []) (hids : (f.map (·.id)).Nodup)
    (hok : ∀ o ∈ f, 0 < o.maxXrate ∧ 0 < o.maxSell) (hq : ∀ t, 0 ≤ t → ∃ r, sqrt t = .ok r) :
    tokenPriceToCoverImbalance cfg sqrt bTok fee imb f ≠ .error .zeroDivision := by
  intro he
  obtain ⟨mo, e, h1, _, _, _, hmat, _⟩ := C22_market_order_matchable (cfg := cfg) (bt := fee.token) (st := bTok) (amt := imb * (101 / 100))
    (⟨hfee, hne, fun o ho => (hok o ho).1⟩ : FeeOrders fee f) hφ
  obtain ⟨m, hm, _, e'⟩ := createMarketOrder_eq (cfg := cfg) (bt := fee.token) (st := bTok) (amt := imb * (101 / 100)) hne (fun o ho => (hok o ho).1)
  have hx0 : 0 < mo.maxXrate := by
    rw [e] at e'; cases e'
    have := (hok m hm).1
    show (0 : ℚ) < 1 / _; positivity
  have hmin : (0 : ℚ) < cfg.minRationalTradable := by exact_mod_cast hc.minRational
  have hmo : 0 < mo.maxSell := hmin.trans_le h1
  have si : SearchInput cfg fee [mo] f := ⟨hc.minRational, hfee, hc.limit, hc.feePrice, by simp, hids,
    by simpa using ⟨hx0, hmo.le⟩, fun o ho => ⟨(hok o ho).1, (hok o ho).2.le⟩⟩
  obtain ⟨o, ho⟩ := List.exists_mem_of_ne_nil _ hne
  unfold tokenPriceToCoverImbalance at he
  simp only [e, ok_bind] at he
  cases hr : findBestXrate cfg sqrt [mo] f fee with
  | error e2 =>
    rw [hr, error_bind] at he
    cases he
    rcases C114_search si h0 (by simpa using hmo) (fun o ho => (hok o ho).2) ⟨mo, by simp, o, ho, hmat o ho⟩ hq hr with ⟨_, hl⟩ | ⟨h | h, _⟩
    · exact not_lopsided_single hmo.le hl
    · cases h
    · cases h
  | ok r =>
    obtain ⟨x, v, _, _, _, _, _, rfl, _, _, _, hx, _⟩ := C16_attained_maximum si hr
    rw [hr, ok_bind] at he
    simp only [pyDiv_of_ne hx.ne', ok_bind] at he
    split at he <;> cases he

/-! ### The command for a pair with the fee token -/

theorem limitRate_mono {fee : Fee} {b s b' s' : List Order} (hb : b' ⊆ b) (hs : s' ⊆ s) {x : ℚ} : LimitRate fee b' s' x → LimitRate fee b s x
  | .inl ⟨o, ho, h⟩ => .inl ⟨o, hb ho, h⟩
  | .inr ⟨o, ho, h⟩ => .inr ⟨o, hs ho, h⟩

/-- The rate found is at most the greatest limit rate. -/
theorem best_le_limit {cfg : Config} {sqrt : ℚ → Py ℚ} {fee : Fee} {b s : List Order} {x v M : ℚ} (h : SearchInput cfg fee b s) (hbn : b ≠ []) (hsn : s ≠ [])
    (hM : ∀ y, LimitRate fee b s y → y ≤ M) (hr : findBestXrate cfg sqrt b s fee = .ok (some (x, v))) : x ≤ M := by
  obtain ⟨x', v', b', s', x0, v0, ivs, e, hp, ht, hi, _, _, hx, _⟩ := C16_attained_maximum h hr
  cases e
  rcases hx with hx | ⟨d, hd, _, hx⟩
  · exact hM x hx
  · obtain ⟨_, _, hp', sb, ss, _, _⟩ := C14_exact (h.prune hbn hsn)
    rw [hp'] at hp
    cases hp
    have h' := h.sub sb ss
    have hne : b' ≠ [] ∧ s' ≠ [] := by
      unfold xrateIntervals at hi
      obtain ⟨_, h1, _⟩ := bind_eq_ok.1 hi
      have := pyAssert_eq_ok.1 h1
      exact ⟨List.ne_nil_of_length_pos this.1, List.ne_nil_of_length_pos this.2⟩
    obtain ⟨ivs', ei, hys⟩ := xrateIntervals_spec (opt := some x0) h.feeLt hne.1 hne.2 (fun o ho => (h'.ordB o ho).1) (fun o ho => (h'.ordS o ho).1)
    rw [ei] at hi
    cases hi
    obtain ⟨pre, w, u, post, hall, _, e2, _, _⟩ := (hys d hd).split
    have hw : LimitRate fee b' s' d.ub := by
      rw [e2]
      rcases mem_variants (b := b') (s := s') (fee := fee) (v := w) (by rw [hall]; simp) with ⟨g1, _, g2⟩ | ⟨g1, _, g2⟩
      · exact .inl ⟨_, g1, g2⟩
      · exact .inr ⟨_, g1, g2⟩
    exact hx.le.trans (hM _ (limitRate_mono sb.subset ss.subset hw))

/-- After a successful search the solver does what it does with the rate given. -/
theorem solveOriented_best {cfg : Config} {ext : Ext} {pair : Token × Token} {b s f : List Order} {fee : Fee} {x v : ℚ}
    (hr : findBestXrate cfg ext.sqrt b s fee = .ok (some (x, v))) :
    solveOriented cfg ext pair b s f fee none = solveOriented cfg ext pair b s f fee (some x) := by
  unfold solveOriented solveTokenPair givenOrBestXrate
  rw [hr]
  rfl

/-- C114. The command for a pair with the fee token, without thresholds, with orders on both sides and limit rates of at most `10 ^ 18`: the same two cases. -/
theorem C114_fee_pair {cfg : Config} {ext : Ext} {inst : Instance} {pair : Token × Token} (hi : GoodInstance inst)
    (hset : SolverSetting cfg ext pair inst.fee none) (hF : pair.1 = inst.fee.token) (hq : ∀ t, 0 ≤ t → ∃ r, ext.sqrt t = .ok r)
    {accounts : Accounts} {bk : Books} {fee : Fee} (h : loadPairProblem cfg inst pair = .ok (accounts, bk, fee)) (hbn : bk.b ≠ []) (hsn : bk.s ≠ [])
    (hM : ∀ y, LimitRate fee bk.b bk.s y → y ≤ cfg.feeTokenPrice) {e : PyErr} (he : tokenPairMain cfg ext inst pair none = .error e) :
    (e = .zeroDivision ∧ Lopsided fee bk.b) ∨ ((e = .assertion "xrate.py:439" ∨ e = .assertion "xrate.py:440") ∧
      ∃ b' s', b'.Sublist bk.b ∧ s'.Sublist bk.s ∧ 4 ≤ b'.length + s'.length ∧ Tie cfg fee b' s') := by
  have he' := (C44_token_pair hset.cfgOk hi hset.tokens hset.branch hset.xratePos h).1 e he
  have h0 := h
  unfold loadPairProblem at h0
  simp only [bind_eq_ok, pyAssert_eq_ok, exists_and_left, exists_const] at h0
  obtain ⟨os, h1, os', h2, _, e'⟩ := h0
  cases e'
  have hload : loadProblem cfg inst = .ok (inst.accounts, os', inst.fee) := by
    unfold loadProblem; rw [h1, ok_bind, h2]; rfl
  have hmin : 0 < cfg.minTradable := by have := hset.cfgOk.minPos; omega
  obtain ⟨hp, hk, _, _⟩ := loaded_pool hmin hi.balances hi.ints hi.sell hload
  have hb := bookOf_filter hp (forall₂_same_refl _) pair inst.fee (ordersBuyingSelling os' pair.1 inst.fee.token) (.inl rfl)
  have hpos : ∀ {x y : Token}, ∀ o ∈ ordersBuyingSelling os' x y, 0 < o.maxSell := fun o ho => by
    obtain ⟨_, _, _, _, _, _, _, hm, _⟩ := C02_load_problem hmin hi.balances hi.sell hload (List.mem_of_mem_filter ho)
    exact hm
  rw [C32_validation_never_fails hset hp hk hb, economicLoop_single hset.noThresholds.avg hset.noThresholds.abs hbn] at he'
  dsimp only at hbn hsn hM ⊢
  generalize ordersBuyingSelling os' pair.1 inst.fee.token = f at *
  generalize hbb : ordersBuyingSelling os' pair.1 pair.2 = b at *
  generalize hss : ordersBuyingSelling os' pair.2 pair.1 = s at *
  have hbp : ∀ o ∈ b, 0 < o.maxSell := hbb ▸ hpos
  have hsp : ∀ o ∈ s, 0 < o.maxSell := hss ▸ hpos
  have hsearch := hb.search hp hset.cfgOk hset.feeLt
  obtain ⟨b1, s1, g1, sb, ss, mb, ms⟩ := C14_exact (hsearch.prune hbn hsn)
  have herr : solveTokenPairAndFee cfg ext pair b s f inst.fee none = .error e := by
    cases hr : solveTokenPairAndFee cfg ext pair b s f inst.fee none with
    | error e2 => rw [hr] at he'; cases he'; rfl
    | ok r => rw [hr] at he'; cases he'
  unfold solveTokenPairAndFee at herr
  rw [g1, ok_bind] at herr
  dsimp only at herr
  split at herr
  · cases herr
  rename_i hlen
  have hb0 : b1 ≠ [] := fun h => hlen (.inl (by rw [h]; rfl))
  have hs0 : s1 ≠ [] := fun h => hlen (.inr (by rw [h]; rfl))
  have hb1 := hb.sub sb ss (List.Sublist.refl _)
  have hsearch1 : SearchInput cfg inst.fee b1 s1 := hsearch.sub sb ss
  cases hr : findBestXrate cfg ext.sqrt b1 s1 inst.fee with
  | ok r =>
    exfalso
    obtain ⟨x, v, _, _, _, _, _, rfl, _, _, _, hx0, _⟩ := C16_attained_maximum hsearch1 hr
    have hx := best_le_limit hsearch1 hb0 hs0 (fun y hy => hM y (limitRate_mono sb.subset ss.subset hy)) hr
    rw [solveOriented_best hr] at herr
    obtain ⟨r, hr⟩ := solveOriented_given hp hset.cfgOk hset.feeLt hb1 hset.tokens hset.branch hF hx0 hx hb0 hs0
    rw [hr, ok_bind] at herr
    cases herr
  | error e2 =>
    have hee : e2 = e := by
      unfold solveOriented solveTokenPair givenOrBestXrate at herr
      rw [if_neg (by rintro (h | h) <;> simp_all), hr] at herr
      cases herr; rfl
    subst hee
    obtain ⟨o, ho⟩ := List.exists_mem_of_ne_nil _ hb0
    obtain ⟨hob, c, hc, hoc⟩ := (mb o).1 ho
    rcases C114_search hsearch1 hi.feePos.le (fun o ho => hbp o (sb.subset ho)) (fun o ho => hsp o (ss.subset ho))
      ⟨o, ho, c, (ms c).2 ⟨hc, o, hob, hoc⟩, hoc⟩ hq hr with ⟨k1, k2⟩ | ⟨k1, b', s', k2, k3, k4⟩
    · exact .inl ⟨k1, Lopsided.mono sb.subperm k2⟩
    · obtain ⟨_, _, hp', sb', ss', _, _⟩ := C14_exact (hsearch1.prune hb0 hs0)
      rw [hp'] at k2
      cases k2
      exact .inr ⟨k1, b', s', sb'.trans sb, ss'.trans ss, k3, k4⟩

/-- Three loaded orders, of which those of the first side are of similar size, are not lopsided. -/
theorem not_lopsided_loaded {cfg : Config} {ext : Ext} {inst : Instance} {pair : Token × Token} (hi : GoodInstance inst)
    (hset : SolverSetting cfg ext pair inst.fee none)
    {accounts : Accounts} {bk : Books} {fee : Fee} (h : loadPairProblem cfg inst pair = .ok (accounts, bk, fee)) (hsn : bk.s ≠ [])
    (hn : bk.b.length + bk.s.length ≤ 3) (h2 : ∀ o ∈ bk.b, ∀ c ∈ bk.b, o.maxSell ≤ 2 * c.maxSell) : ¬ Lopsided fee bk.b := by
  have hmin : 0 < cfg.minTradable := by have := hset.cfgOk.minPos; omega
  obtain ⟨hfee, hpos⟩ : fee = inst.fee ∧ ∀ o ∈ bk.b, 0 < o.maxSell := by
    have h0 := h
    unfold loadPairProblem at h0
    simp only [bind_eq_ok, pyAssert_eq_ok, exists_and_left, exists_const] at h0
    obtain ⟨os, g1, os', g2, _, e'⟩ := h0
    cases e'
    have hload : loadProblem cfg inst = .ok (inst.accounts, os', inst.fee) := by
      unfold loadProblem; rw [g1, ok_bind, g2]; rfl
    refine ⟨rfl, fun o ho => ?_⟩
    obtain ⟨_, _, _, _, _, _, _, hm, _⟩ := C02_load_problem hmin hi.balances hi.sell hload (List.mem_of_mem_filter ho)
    exact hm
  subst hfee
  have hs := List.length_pos_of_ne_nil hsn
  generalize bk.b = b at *
  rcases b with _ | ⟨o, _ | ⟨c, _ | ⟨d, b⟩⟩⟩
  · rintro ⟨U, p, F, h1, _⟩
    have := h1.length_le
    simp at this
  · exact not_lopsided_single (hpos o (by simp)).le
  · exact not_lopsided_two hi.feePos.le hset.feeLt (hpos o (by simp)).le (hpos c (by simp)).le (h2 o (by simp) c (by simp)) (h2 c (by simp) o (by simp))
  · simp only [List.length_cons] at hn; omega

/-- C114. So the command succeeds if at most three orders are loaded and no order of the first side sells more than twice as much as another one of that side. -/
theorem C114_small_run {cfg : Config} {ext : Ext} {inst : Instance} {pair : Token × Token} (hi : GoodInstance inst)
    (hset : SolverSetting cfg ext pair inst.fee none) (hF : pair.1 = inst.fee.token) (hq : ∀ t, 0 ≤ t → ∃ r, ext.sqrt t = .ok r)
    {accounts : Accounts} {bk : Books} {fee : Fee} (h : loadPairProblem cfg inst pair = .ok (accounts, bk, fee)) (hbn : bk.b ≠ []) (hsn : bk.s ≠ [])
    (hM : ∀ y, LimitRate fee bk.b bk.s y → y ≤ cfg.feeTokenPrice) (hn : bk.b.length + bk.s.length ≤ 3)
    (h2 : ∀ o ∈ bk.b, ∀ c ∈ bk.b, o.maxSell ≤ 2 * c.maxSell) : ∃ d, tokenPairMain cfg ext inst pair none = .ok d := by
  cases he : tokenPairMain cfg ext inst pair none with
  | ok d => exact ⟨d, rfl⟩
  | error e =>
    exfalso
    rcases C114_fee_pair hi hset hF hq h hbn hsn hM he with ⟨_, hl⟩ | ⟨_, b', s', sb, ss, h4, _⟩
    · exact not_lopsided_loaded hi hset h hsn hn h2 hl
    · have := sb.length_le
      have := ss.length_le
      omega

/-! ### The hypotheses are met -/

theorem limitRates_le {fee : Fee} {b s : List Order} {M : ℚ} (hb : ∀ o ∈ b, o.maxXrate * (1 - fee.value) ≤ M) (hs : ∀ o ∈ s, 1 / (o.maxXrate * (1 - fee.value)) ≤ M) :
    ∀ y, LimitRate fee b s y → y ≤ M
  | _, .inl ⟨o, ho, h⟩ => h ▸ hb o ho
  | _, .inr ⟨o, ho, h⟩ => h ▸ hs o ho

/-- The first case occurs: the book of C57 is lopsided, and the search raises. -/
example : Lopsided ExZero.fee ExZero.b ∧ findBestXrate Config.default ExInst.sqrt ExZero.b ExZero.s ExZero.fee = .error .zeroDivision := by
  refine ⟨⟨[ExZero.b[1]], ExZero.b[0], [], ?_, by decide +kernel, by decide +kernel⟩, C57_search_divides_by_zero fun t ht => ?_⟩
  · exact (List.Perm.swap _ _ _).subperm
  · unfold ExInst.sqrt
    rw [if_pos ht]
    exact ⟨_, rfl⟩

/-- The second side does not matter: with the sides exchanged the book is not lopsided. -/
example : ¬ Lopsided ExZero.fee ExZero.s := not_lopsided_single (by decide +kernel)

/-- Its instance meets the hypotheses of `C114_fee_pair`. -/
example : GoodInstance ExZero.inst ∧ SolverSetting Config.default ExInst.ext ("F", "S") ExZero.inst.fee none ∧
    ∃ r, loadPairProblem Config.default ExZero.inst ("F", "S") = .ok r ∧ r.2.1.b ≠ [] ∧ r.2.1.s ≠ [] ∧
      ∀ y, LimitRate r.2.2 r.2.1.b r.2.1.s y → y ≤ Config.default.feeTokenPrice := by
  refine ⟨by constructor <;> decide +kernel,
    ⟨by constructor <;> decide, by decide +kernel, by decide +kernel, by decide, ExInst.branch_max, by simp, ExInst.setting.noThresholds⟩, ?_⟩
  obtain ⟨r, h1, h2, h3, h4, h5⟩ := exists_of_pyCheck (x := loadPairProblem Config.default ExZero.inst ("F", "S"))
    (p := fun r : Accounts × Books × Fee => r.2.1.b ≠ [] ∧ r.2.1.s ≠ [] ∧ (∀ o ∈ r.2.1.b, o.maxXrate * (1 - r.2.2.value) ≤ Config.default.feeTokenPrice) ∧
      ∀ o ∈ r.2.1.s, 1 / (o.maxXrate * (1 - r.2.2.value)) ≤ Config.default.feeTokenPrice) (by decide +kernel)
  exact ⟨r, h1, h2, h3, limitRates_le h4 h5⟩

namespace ExBalanced

/-- The instance of C57 with the second order halved. -/
def inst : Instance := { ExZero.inst with
  accounts := [("a", [("S", 1996002000000000000000000)]), ("b", [("S", 3992002000000000000001999)]), ("c", [("F", 1998000000000000000000000)])]
  orders := [
    { accountID := "a", buyToken := "F", sellToken := "S", sellAmount := 1996002000000000000000000, buyAmount := 998001000000000000000000 },
    { accountID := "b", buyToken := "F", sellToken := "S", sellAmount := 3992002000000000000000000, buyAmount := 2988006000000000000000000 },
    { accountID := "c", buyToken := "S", sellToken := "F", sellAmount := 1998000000000000000000000, buyAmount := 1998000000000000000000000 }] }

end ExBalanced

/-- There the solver succeeds, by `C114_small_run`. -/
example : ∃ d, tokenPairMain Config.default ExInst.ext ExBalanced.inst ("F", "S") none = .ok d := by
  obtain ⟨⟨acc, bk, fee⟩, h1, h2, h3, h4, h5, h6, h7⟩ := exists_of_pyCheck (x := loadPairProblem Config.default ExBalanced.inst ("F", "S"))
    (p := fun r : Accounts × Books × Fee => r.2.1.b ≠ [] ∧ r.2.1.s ≠ [] ∧ (∀ o ∈ r.2.1.b, o.maxXrate * (1 - r.2.2.value) ≤ Config.default.feeTokenPrice) ∧
      (∀ o ∈ r.2.1.s, 1 / (o.maxXrate * (1 - r.2.2.value)) ≤ Config.default.feeTokenPrice) ∧ r.2.1.b.length + r.2.1.s.length ≤ 3 ∧
      ∀ o ∈ r.2.1.b, ∀ c ∈ r.2.1.b, o.maxSell ≤ 2 * c.maxSell) (by decide +kernel)
  refine C114_small_run (by constructor <;> decide +kernel)
    ⟨by constructor <;> decide, by decide +kernel, by decide +kernel, by decide, ExInst.branch_max, by simp, ExInst.setting.noThresholds⟩
    rfl (fun t ht => ?_) h1 h2 h3 (limitRates_le h4 h5) h6 h7
  show ∃ r, ExInst.sqrt t = .ok r
  unfold ExInst.sqrt
  rw [if_pos ht]
  exact ⟨_, rfl⟩

end Dex
