import Verif.Props.ZeroDiv

/-! # The errors of the solver when prices are large enough

The chain of `Verif.Proof.Errors` for an arbitrary description `E` of the errors, with bounds on the rates: then rounding a rate to integer prices never divides
by zero, and all errors come from the rate searches. -/

namespace Dex

open Spec

theorem only_solveTokenPair_of {E : PyErr → Prop} {cfg : Config} {sqrt : ℚ → Py ℚ} {pair : Token × Token} {b s : List Order} {fee : Fee} {xrate bPrice : Option ℚ}
    {maxNr : ℤ} (h : SearchInput cfg fee b s) (hn : 0 ≤ maxNr) (hx : ∀ y, xrate = some y → 0 < y) (hp : ∀ p, bPrice = some p → 0 < p)
    (hm : xrate = none → Only E (findBestXrate cfg sqrt b s fee))
    (hle : ∀ x p, givenOrBestXrate cfg sqrt b s fee xrate = .ok (some x) → effPrice cfg pair fee bPrice = some p → x ≤ p) :
    Only E (solveTokenPair cfg sqrt pair b s fee xrate bPrice maxNr) := by
  unfold solveTokenPair
  by_cases he : b.length = 0 ∨ s.length = 0
  · rw [if_pos he]; exact only_pure _
  rw [if_neg he]
  change Only _ (givenOrBestXrate cfg sqrt b s fee xrate >>= fun xrate => match xrate with
      | none => pure (none, b, s)
      | some x => roundXrate (effPrice cfg pair fee bPrice) x b s fee >>= fun x => do
          let (b, s) ← computeBuyAmounts cfg x b s fee maxNr
          pure (some x, b, s))
  have hex : ∀ x, 0 < x → Only E (do
          let (b, s) ← computeBuyAmounts cfg x b s fee maxNr
          pure (some x, b, s) : Py _) := by
    intro x hx
    obtain ⟨r, hr⟩ := C05_no_exception (⟨h.minPos, hx, h.feeLt, hn, h.idsB, h.idsS⟩ : ExecInput cfg x fee maxNr b s)
    rw [hr, ok_bind]; exact only_pure _
  have hrest : ∀ x, 0 < x → (∀ p, effPrice cfg pair fee bPrice = some p → x ≤ p) → Only E (roundXrate (effPrice cfg pair fee bPrice) x b s fee >>= fun x => do
          let (b, s) ← computeBuyAmounts cfg x b s fee maxNr
          pure (some x, b, s) : Py _) := by
    intro x hx hle
    cases hep : effPrice cfg pair fee bPrice with
    | none => exact hex x hx
    | some p =>
      have hp0 : 0 < p := by
        unfold effPrice at hep
        split at hep
        · cases hep; have := h.feePrice; exact_mod_cast this
        · exact hp p hep
      unfold roundXrate
      obtain ⟨q, hq⟩ := computeSBuyTokenPrice_ok (b := b) (s := s) (fee := fee) hp0 hx (hle p hep)
      obtain ⟨q1, _⟩ := C20_close hp0 hx hq
      have hq0 : (0 : ℚ) < q := by exact_mod_cast q1
      simp only [hq, ok_bind, pyDiv_of_ne hq0.ne']
      exact hex _ (div_pos hp0 hq0)
  cases xrate with
  | some y => exact hrest y (hx y rfl) fun p hp => hle y p rfl hp
  | none =>
    unfold givenOrBestXrate
    refine only_bind (only_bind (hm rfl) fun _ _ => only_pure _) fun xo hxo => ?_
    rw [bind_eq_ok] at hxo
    obtain ⟨r0, hf, e⟩ := hxo
    obtain ⟨x, v, _, _, _, _, _, rfl, _, _, _, hx0, _⟩ := C16_attained_maximum h hf
    cases e
    refine hrest x hx0 fun p hp => hle x p ?_ hp
    unfold givenOrBestXrate
    rw [hf]; rfl

/-- The price of a token against the fee token is at least the fee token price by the greatest limit rate, rounded down. -/
theorem price_floor_le {cfg : Config} {sqrt : ℚ → Py ℚ} {imb : ℚ} {bTok : Token} {f : List Order} {fee : Fee} {p : ℤ} {Y : ℚ} (hc : CfgOk cfg)
    (h0f : 0 ≤ fee.value) (hfee : fee.value < 1) (hφ : 9 / 10 ≤ (1 - fee.value) ^ 2) (hne : f ≠ []) (hids : (f.map (·.id)).Nodup)
    (hok : ∀ o ∈ f, 0 < o.maxXrate ∧ 0 ≤ o.maxSell) (hY : ∀ o ∈ f, 1 / (o.maxXrate * (9 / 10)) ≤ Y)
    (hr : tokenPriceToCoverImbalance cfg sqrt bTok fee imb f = .ok p) : ⌊(cfg.feeTokenPrice : ℚ) / Y⌋ ≤ p := by
  obtain ⟨mo, x, v, e, hs, hx, _, _, h1, h2⟩ := C21_price ⟨hfee, hne, fun o ho => (hok o ho).1⟩ ⟨hc.minRational, hc.limit, hc.feePrice⟩ hids
    (fun o ho => (hok o ho).2) hr
  obtain ⟨m, hm, _, e'⟩ := createMarketOrder_eq (cfg := cfg) (bt := fee.token) (st := bTok) (amt := imb * (101 / 100)) hne (fun o ho => (hok o ho).1)
  rw [e] at e'
  cases e'
  have hm0 := (hok m hm).1
  have hφ0 : 0 < 1 - fee.value := by linarith
  have hmin : (0 : ℚ) < cfg.minRationalTradable := by exact_mod_cast hc.minRational
  have hin : SearchInput cfg fee [Order.mk' fee.token bTok (max (imb * (101 / 100)) (cfg.minRationalTradable : ℚ)) (1 / (m.maxXrate * (9 / 10))) none marketOrderId] f := by
    refine ⟨hc.minRational, hfee, hc.limit, hc.feePrice, by simp, hids, ?_, hok⟩
    intro o ho
    rw [List.mem_singleton] at ho
    subst ho
    exact ⟨by show (0 : ℚ) < 1 / _; positivity, hmin.le.trans (le_max_right _ _)⟩
  have hmo : (0 : ℚ) < 1 / (m.maxXrate * (9 / 10)) := by positivity
  have hφ1 : 9 / 10 ≤ 1 - fee.value := by nlinarith
  have hxY : x ≤ Y := by
    refine best_le_limit hin (by simp) hne ?_ hs
    rintro y (⟨o, ho, rfl⟩ | ⟨o, ho, rfl⟩)
    · rw [List.mem_singleton] at ho
      subst ho
      exact (mul_le_of_le_one_right hmo.le (by linarith)).trans (hY m hm)
    · have ho0 := (hok o ho).1
      refine le_trans ?_ (hY o ho)
      exact one_div_le_one_div_of_le (by positivity) (mul_le_mul_of_nonneg_left hφ1 ho0.le)
  have hP : (0 : ℚ) < cfg.feeTokenPrice := by exact_mod_cast hc.feePrice
  have hmono : ⌊(cfg.feeTokenPrice : ℚ) / Y⌋ ≤ ⌊(cfg.feeTokenPrice : ℚ) / x⌋ := Int.floor_mono (div_le_div_of_nonneg_left hP.le hx hxY)
  by_cases hxe : x = (1 / (m.maxXrate * (9 / 10))) * (1 - fee.value)
  · rw [(h1 hxe).1]
    exact hmono.trans (Int.floor_le_ceil _)
  · rw [(h2 hxe).1]
    exact hmono

/-- The rate of a solution without a price is the one given or found. -/
theorem solveTokenPair_rate {cfg : Config} {sqrt : ℚ → Py ℚ} {pair : Token × Token} {b s b1 s1 : List Order} {fee : Fee} {xrate : Option ℚ} {maxNr : ℤ} {x : ℚ}
    (hF : pair.1 ≠ fee.token) (h : solveTokenPair cfg sqrt pair b s fee xrate none maxNr = .ok (some x, b1, s1)) :
    givenOrBestXrate cfg sqrt b s fee xrate = .ok (some x) := by
  unfold solveTokenPair at h
  split at h
  · cases h
  · simp only at h
    obtain ⟨r, h1, h⟩ := bind_eq_ok.1 h
    cases r with
    | none => cases h
    | some y =>
      rw [h1]
      unfold roundXrate at h
      obtain ⟨_, e, h⟩ := bind_eq_ok.1 h
      cases e
      obtain ⟨_, _, h⟩ := bind_eq_ok.1 h
      cases h
      rfl

theorem only_tokenPrice_of {E : PyErr → Prop} {cfg : Config} {sqrt : ℚ → Py ℚ} {imb : ℚ} {bTok : Token} {f : List Order} {fee : Fee} (hc : CfgOk cfg)
    (hfee : fee.value < 1) (hφ : 9 / 10 ≤ (1 - fee.value) ^ 2) (hne : f ≠ []) (hids : (f.map (·.id)).Nodup)
    (hok : ∀ o ∈ f, 0 < o.maxXrate ∧ 0 ≤ o.maxSell) (hS : ∀ mo, 0 < mo.maxSell → SearchInput cfg fee [mo] f → (∀ o ∈ f, Matchable fee mo o) → Only E (findBestXrate cfg sqrt [mo] f fee)) :
    Only E (tokenPriceToCoverImbalance cfg sqrt bTok fee imb f) := by
  obtain ⟨mo, e, h1, _, _, _, hmat, _⟩ := C22_market_order_matchable (cfg := cfg) (bt := fee.token) (st := bTok) (amt := imb * (101 / 100))
    (⟨hfee, hne, fun o ho => (hok o ho).1⟩ : FeeOrders fee f) hφ
  obtain ⟨m, hm, _, e'⟩ := createMarketOrder_eq (cfg := cfg) (bt := fee.token) (st := bTok) (amt := imb * (101 / 100)) hne (fun o ho => (hok o ho).1)
  have hx0 : 0 < mo.maxXrate := by
    rw [e] at e'; cases e'
    have := (hok m hm).1
    show (0 : ℚ) < 1 / _; positivity
  have hmin : (0 : ℚ) < cfg.minRationalTradable := by exact_mod_cast hc.minRational
  have si : SearchInput cfg fee [mo] f := ⟨hc.minRational, hfee, hc.limit, hc.feePrice, by simp, hids,
    by simpa using ⟨hx0, hmin.le.trans h1⟩, hok⟩
  unfold tokenPriceToCoverImbalance
  simp only [e, ok_bind]
  refine only_bind (hS mo (hmin.trans_le h1) si hmat) fun r hr => ?_
  obtain ⟨x, v, _, _, _, _, _, rfl, _, _, _, hx, _⟩ := C16_attained_maximum si hr
  simp only [pyDiv_of_ne hx.ne', ok_bind]
  split <;> exact only_pure _

theorem only_solveBFee_of {E : PyErr → Prop} {cfg : Config} {sqrt : ℚ → Py ℚ} {imb : ℚ} {bTok : Token} {f : List Order} {fee : Fee} (hc : CfgOk cfg)
    (h0f : 0 ≤ fee.value) (hfee : fee.value < 1) (hφ : 9 / 10 ≤ (1 - fee.value) ^ 2) (hne : f ≠ []) (hids : (f.map (·.id)).Nodup)
    (hok : ∀ o ∈ f, 0 < o.maxXrate ∧ 0 ≤ o.maxSell) (hS : ∀ mo, 0 < mo.maxSell → SearchInput cfg fee [mo] f → (∀ o ∈ f, Matchable fee mo o) → Only E (findBestXrate cfg sqrt [mo] f fee))
    {Y : ℚ} (hY : ∀ o ∈ f, 1 / (o.maxXrate * (9 / 10)) ≤ Y) (hYP : Y ≤ cfg.feeTokenPrice) : Only E (solveBFee cfg sqrt imb bTok f fee) := by
  unfold solveBFee
  refine only_bind (only_tokenPrice_of hc hfee hφ hne hids hok hS) fun p hp => ?_
  obtain ⟨m, hm, _, emo⟩ := createMarketOrder_eq (cfg := cfg) (bt := fee.token) (st := bTok) (amt := imb) hne (fun o ho => (hok o ho).1)
  rw [emo, ok_bind]
  have hP : (0 : ℚ) < cfg.feeTokenPrice := by exact_mod_cast hc.feePrice
  have hp1 : 1 ≤ p := by
    have := price_floor_le hc h0f hfee hφ hne hids hok hY hp
    refine (Int.le_floor.2 ?_).trans this
    obtain ⟨o, ho⟩ := List.exists_mem_of_ne_nil _ hne
    have hY0 : 0 < Y := by
      have h1 := hY o ho
      have h2 := (hok o ho).1
      exact lt_of_lt_of_le (by positivity) h1
    rw [Int.cast_one, le_div_iff₀ hY0]; linarith
  have hpq : (0 : ℚ) < p := by exact_mod_cast (by omega : 0 < p)
  rw [pyDiv_of_ne hpq.ne', ok_bind]
  have hm0 := (hok m hm).1
  have hmin : (0 : ℚ) < cfg.minRationalTradable := by exact_mod_cast hc.minRational
  have hin : SearchInput cfg fee [Order.mk' fee.token bTok (max imb (cfg.minRationalTradable : ℚ)) (1 / (m.maxXrate * (9 / 10))) none marketOrderId] f := by
    refine ⟨hc.minRational, hfee, hc.limit, hc.feePrice, by simp, hids, ?_, hok⟩
    intro o ho
    rw [List.mem_singleton] at ho
    subst ho
    exact ⟨by show (0 : ℚ) < 1 / _; positivity, hmin.le.trans (le_max_right _ _)⟩
  have hfx0 : (0 : ℚ) < cfg.feeTokenPrice / p := div_pos hP hpq
  refine only_bind (only_solveTokenPair_of hin hc.limit (fun y hy => by cases hy; exact hfx0) (fun q hq => by cases hq) (fun h => by cases h)
    (fun x q hx hq => ?_)) fun r hr => ?_
  · cases hx
    unfold effPrice at hq
    rw [if_pos rfl] at hq
    cases hq
    have : (1 : ℚ) ≤ p := by exact_mod_cast hp1
    exact div_le_self hP.le this
  obtain ⟨xo, mo', f1⟩ := r
  rcases solveTokenPair_spec hin hc.limit (fun y hy => by cases hy; exact hfx0) (fun q hq => by cases hq) hr with
    ⟨_, _, _, h0⟩ | ⟨x, x0, rfl, _⟩
  · exfalso
    rcases h0 with h0 | h0
    · cases h0
    · exact hne h0
  · dsimp only
    rw [pyAssert_of (by simp), ok_bind]; exact only_pure _

theorem only_solveBuffered_of {E : PyErr → Prop} {cfg : Config} {sqrt : ℚ → Py ℚ} {pair : Token × Token} {b s : List Order} {x p : ℚ} {fee : Fee} {maxNr : ℤ}
    (h : BufferInput cfg pair b s x p fee) (hs : SearchInput cfg fee b s) (hn : 0 ≤ maxNr) (hb : b ≠ []) (hsn : s ≠ []) (hxp : x ≤ p) (hF : pair.1 ≠ fee.token) :
    Only E (solveBuffered cfg sqrt pair b s x p fee maxNr) := by
  unfold solveBuffered
  rw [C29_enter_exact h, ok_bind]
  obtain ⟨hlt1, hlt2⟩ := C29_strictly_smaller h (C29_enter_exact h)
  generalize hb1 : b.map (reduced (bufferSize cfg cfg.feeTokenPrice p x)) = b1 at *
  generalize hs1 : s.map (reduced (bufferSize cfg cfg.feeTokenPrice (p / x) (1 / x))) = s1 at *
  have hids : ∀ (d : ℤ) (l : List Order), (l.map (reduced d)).map (·.id) = l.map (·.id) := by
    intro d l; rw [List.map_map]; rfl
  have hin : SearchInput cfg fee b1 s1 := by
    refine ⟨hs.minPos, hs.feeLt, hs.limit, hs.feePrice, ?_, ?_, ?_, ?_⟩
    · rw [← hb1, hids]; exact hs.idsB
    · rw [← hs1, hids]; exact hs.idsS
    · intro o ho
      rw [← hb1] at ho
      obtain ⟨a, ha, rfl⟩ := List.mem_map.1 ho
      exact ⟨(hs.ordB a ha).1, le_max_right _ _⟩
    · intro o ho
      rw [← hs1] at ho
      obtain ⟨a, ha, rfl⟩ := List.mem_map.1 ho
      exact ⟨(hs.ordS a ha).1, le_max_right _ _⟩
  have hx1 : ∀ y, some x = some y → 0 < y := fun y hy => by cases hy; exact h.rate
  have hp1 : ∀ q, some p = some q → 0 < q := fun q hq => by cases hq; exact h.price
  refine only_bind (only_solveTokenPair_of hin hn hx1 hp1 (fun h => by cases h) (fun y q hy hq => ?_)) fun r hr => ?_
  · cases hy
    unfold effPrice at hq
    rw [if_neg hF] at hq
    cases hq
    exact hxp
  obtain ⟨r', b2, s2⟩ := r
  have key : ∀ {l l1 l2 : List Order}, (∀ o ∈ l, 0 ≤ o.maxSell ∧ o.maxSell ≤ o.origMaxSell) → List.Forall₂ Tighter l l1 →
      List.Forall₂ SameButBuy l1 l2 → ∃ l3, restoreMaxSell l2 (l.map (·.maxSell)) = .ok l3 := by
    intro l l1 l2 g0 g1 g2
    refine restoreMaxSell_ok ?_
    have h12 := forall₂_trans' (R := Tighter) (S := SameButBuy) (T := fun o o2 => o2.origMaxSell = o.origMaxSell)
      (fun o o1 o2 e1 e2 => by
        unfold SameButBuy at e2
        rw [e2, e1.same]) g1 g2
    clear g1 g2
    induction h12 with
    | nil => exact .nil
    | cons e _ ih => exact .cons (by rw [e]; exact (g0 _ (by simp)).2) (ih (fun o ho => g0 o (by simp [ho])))
  rcases solveTokenPair_spec hin hn hx1 hp1 hr with ⟨_, _, _, h0⟩ | ⟨y, x0, rfl, hy, hx0, hxx, _, _, hpr, _, hex⟩
  · exfalso
    rcases h0 with h0 | h0
    · rw [← hb1] at h0; exact hb (List.map_eq_nil_iff.1 h0)
    · rw [← hs1] at h0; exact hsn (List.map_eq_nil_iff.1 h0)
  · obtain ⟨l3, e3⟩ := key h.amtB hlt1 hex.sameB
    obtain ⟨l4, e4⟩ := key h.amtS hlt2 hex.sameS
    dsimp only
    rw [e3, ok_bind, e4, ok_bind]
    exact only_pure _

theorem only_givenExecF_of {E : PyErr → Prop} {cfg : Config} {sqrt : ℚ → Py ℚ} {nrF : ℕ} {imb : ℚ} {pair : Token × Token} {bk : Books} {x : ℚ} {fee : Fee}
    {pool : List Order} (hp : Pool pool) (hc : CfgOk cfg) (h0f : 0 ≤ fee.value) (hfee : fee.value < 1) (hφ : 9 / 10 ≤ (1 - fee.value) ^ 2) (hb : BookOf pool pair fee bk)
    (hne : pair.1 ≠ pair.2) (hF1 : pair.1 ≠ fee.token) (hF2 : pair.2 ≠ fee.token) (hx : 0 < x) (hbn : bk.b ≠ []) (hsn : bk.s ≠ [])
    (hfn : bk.f ≠ []) (hn1 : 1 ≤ nrF) (hn2 : (nrF : ℤ) ≤ cfg.maxNrExec)
    (hS : ∀ mo f', (∀ o ∈ f', ∃ a ∈ bk.f, SameButExec a o) → f'.length ≤ bk.f.length → f' ≠ [] → 0 < mo.maxSell → SearchInput cfg fee [mo] f' → (∀ o ∈ f', Matchable fee mo o) → Only E (findBestXrate cfg sqrt [mo] f' fee))
    {Y : ℚ} (hY : ∀ o ∈ bk.f, 1 / (o.maxXrate * (9 / 10)) ≤ Y) (hYP : Y * (x + 1) ≤ cfg.feeTokenPrice) :
    Only E (givenExecF cfg sqrt nrF imb pair bk x fee) := by
  unfold givenExecF
  have htake : bk.f.take nrF ≠ [] := by
    cases hf : bk.f with
    | nil => exact absurd hf hfn
    | cons o l => obtain ⟨k, rfl⟩ : ∃ k, nrF = k + 1 := ⟨nrF - 1, by omega⟩; simp
  have hids : ((bk.f.take nrF).map (·.id)).Nodup := by rw [List.map_take]; exact hb.idsF.sublist (List.take_sublist _ _)
  have hok : ∀ o ∈ bk.f.take nrF, 0 < o.maxXrate ∧ 0 ≤ o.maxSell :=
    fun o ho => ⟨((hb.derF o (List.mem_of_mem_take ho)).ok hp).1, ((hb.derF o (List.mem_of_mem_take ho)).ok hp).2.1⟩
  have hYt : ∀ o ∈ bk.f.take nrF, 1 / (o.maxXrate * (9 / 10)) ≤ Y := fun o ho => hY o (List.mem_of_mem_take ho)
  have hY0 : 0 < Y := by
    obtain ⟨o, ho⟩ := List.exists_mem_of_ne_nil _ htake
    have h1 := hYt o ho
    have h2 := (hok o ho).1
    exact lt_of_lt_of_le (by positivity) h1
  refine only_bind (only_solveBFee_of hc h0f hfee hφ htake hids hok (fun mo h1 h2 h3 => hS mo _ (fun o ho => ⟨o, List.mem_of_mem_take ho, rfl⟩) (by simp) htake h1 h2 h3) hYt
    (by nlinarith)) fun r h1 => ?_
  obtain ⟨p, fT⟩ := r
  obtain ⟨p1, sT, eT⟩ := solveBFee_spec hc hfee htake hids hok h1
  have hlen := sT.length_eq
  have htk : (fT ++ bk.f.drop nrF).take nrF = fT := by
    rw [List.length_take] at hlen
    by_cases hle : nrF ≤ bk.f.length
    · rw [List.take_append_of_le_length (by omega), List.take_of_length_le (by omega)]
    · rw [List.drop_of_length_le (by omega), List.append_nil, List.take_of_length_le (by omega)]
  have hcnt : countNrExec fT ≤ nrF := by
    refine (List.countP_le_length).trans ?_
    rw [← hlen, List.length_take]; omega
  dsimp only
  rw [htk]
  split
  · exact only_pure _
  · have hpq : (0 : ℚ) < p := by exact_mod_cast p1
    have hbi : BufferInput cfg pair bk.b bk.s x p fee :=
      ⟨hx, hpq, hc.feePrice, hc.volume, hc.error, hne, hF1, hF2, hb.clsB, hb.clsS, fun o ho => ((hb.derB o ho).ok hp).2,
        fun o ho => ((hb.derS o ho).ok hp).2⟩
    have hxp : x ≤ p := by
      unfold solveBFee at h1
      obtain ⟨p', e1, h1⟩ := bind_eq_ok.1 h1
      have hpp : p' = p := by
        simp only [bind_eq_ok] at h1
        obtain ⟨_, _, _, _, _, _, _, _, h1⟩ := h1
        cases h1; rfl
      subst hpp
      have h2 := price_floor_le hc h0f hfee hφ htake hids hok hYt e1
      have h3 : x + 1 ≤ cfg.feeTokenPrice / Y := by rw [le_div_iff₀ hY0, mul_comm]; exact hYP
      have h4 := Int.lt_floor_add_one ((cfg.feeTokenPrice : ℚ) / Y)
      have h5 : ((⌊(cfg.feeTokenPrice : ℚ) / Y⌋ : ℤ) : ℚ) ≤ p' := by exact_mod_cast h2
      linarith
    refine only_bind (only_solveBuffered_of hbi (hb.search hp hc hfee) (by omega) hbn hsn hxp hF1) fun r h2 => ?_
    obtain ⟨xo, b', s'⟩ := r
    obtain ⟨y, q, rfl, hy, hq1, _, hyq, hex, _, _⟩ := solveBuffered_spec hbi (hb.search hp hc hfee) (by omega) hbn hsn h2
    dsimp only
    have hm : ∀ {l l' : List Order}, (∀ o ∈ l, Der pool o) → List.Forall₂ SameButExec l l' → ∀ o ∈ l', o.maxXrate ≠ 0 :=
      fun g1 g2 o ho => ((der_forall₂ g1 g2 o ho).ok hp).1.ne'
    have hsf : List.Forall₂ SameButExec bk.f (fT ++ bk.f.drop nrF) := by
      have : List.Forall₂ SameButExec (bk.f.take nrF ++ bk.f.drop nrF) (fT ++ bk.f.drop nrF) :=
        List.rel_append (forall₂_exec_of_buy sT) (forall₂_same_refl (bk.f.drop nrF))
      rwa [List.take_append_drop] at this
    obtain ⟨v, hv⟩ := computeObjectiveRational_ok (cfg := cfg) hfee hy.ne' hpq.ne' hc.feePrice.ne' (hm hb.derB (forall₂_exec_of_buy hex.sameB))
      (hm hb.derS (forall₂_exec_of_buy hex.sameS)) (hm hb.derF hsf)
    rw [hv, ok_bind]
    exact only_pure _

theorem only_fOrdersLoop_of {E : PyErr → Prop} {cfg : Config} {sqrt : ℚ → Py ℚ} {imb : ℚ} {pair : Token × Token} {x : ℚ} {fee : Fee}
    {pool : List Order} (hp : Pool pool) (hc : CfgOk cfg) (h0f : 0 ≤ fee.value) (hfee : fee.value < 1) (hφ : 9 / 10 ≤ (1 - fee.value) ^ 2)
    (hne : pair.1 ≠ pair.2) (hF1 : pair.1 ≠ fee.token) (hF2 : pair.2 ≠ fee.token) (hx : 0 < x)
    {ns : List ℕ} {st : FLoopState} {bk0 : Books} (hb : BookOf pool pair fee bk0) (hbn : bk0.b ≠ []) (hsn : bk0.s ≠ []) (hfn : bk0.f ≠ [])
    (hns : ∀ n ∈ ns, 1 ≤ n ∧ (n : ℤ) ≤ cfg.maxNrExec) (h1 : BooksSame bk0 st.books)
    (hS : ∀ mo f', (∀ o ∈ f', ∃ a ∈ bk0.f, SameButExec a o) → f'.length ≤ bk0.f.length → f' ≠ [] → 0 < mo.maxSell → SearchInput cfg fee [mo] f' → (∀ o ∈ f', Matchable fee mo o) → Only E (findBestXrate cfg sqrt [mo] f' fee))
    {Y : ℚ} (hY : ∀ o ∈ bk0.f, 1 / (o.maxXrate * (9 / 10)) ≤ Y) (hYP : Y * (x + 1) ≤ cfg.feeTokenPrice) :
    Only E (fOrdersLoop cfg sqrt imb pair x fee ns st) := by
  induction ns generalizing st with
  | nil => exact only_ok _
  | cons n ns ih =>
    unfold fOrdersLoop
    have ne_of : ∀ {l l' : List Order}, List.Forall₂ SameButExec l l' → l ≠ [] → l' ≠ [] := by
      intro l l' h hn hc; subst hc; cases h; exact hn rfl
    have hreset : ∀ l : List Order, List.Forall₂ SameButExec l (l.map (fun o => (o.withBuy 0).withSell 0)) := by
      intro l
      induction l with
      | nil => exact .nil
      | cons o l ih => exact .cons rfl ih
    have hsame : BooksSame bk0 { st.books with f := st.books.f.map (fun o => (o.withBuy 0).withSell 0) } :=
      ⟨h1.b, h1.s, forall₂_same_trans h1.f (hreset _)⟩
    dsimp only
    have hmem := forall₂_mem_right hsame.f
    refine only_bind (only_givenExecF_of hp hc h0f hfee hφ (hb.same hsame) hne hF1 hF2 hx (ne_of h1.b hbn) (ne_of h1.s hsn)
      (ne_of hsame.f hfn) (hns n (by simp)).1 (hns n (by simp)).2
      (fun mo f' g1 g2 => hS mo f' (fun o ho => by
        obtain ⟨a, ha, e⟩ := g1 o ho
        obtain ⟨a', ha', e'⟩ := hmem a ha
        exact ⟨a', ha', by unfold SameButExec at *; rw [e, e']⟩) (g2.trans hsame.f.length_eq.ge))
      (fun o ho => by
        obtain ⟨a, ha, e⟩ := hmem o ho
        have := hY a ha
        rwa [e]) hYP) fun r e1 => ?_
    obtain ⟨r1, r2⟩ := givenExecF_spec hp hc hfee (hb.same hsame) hne hF1 hF2 hx (ne_of h1.b hbn) (ne_of h1.s hsn)
      (ne_of hsame.f hfn) (hns n (by simp)).1 (hns n (by simp)).2
      (fun o ho => by obtain ⟨a, _, rfl⟩ := List.mem_map.1 ho; rfl) e1
    have hR := hsame.trans r1
    have hns' : ∀ n ∈ ns, 1 ≤ n ∧ (n : ℤ) ≤ cfg.maxNrExec := fun m hm => hns m (by simp [hm])
    cases hbp : r.bPrice with
    | none => exact ih hns' (st := { st with books := r.books }) hR
    | some p =>
      dsimp only
      cases hbest : st.best with
      | none => exact ih hns' (st := { best := some r, books := r.books }) hR
      | some best =>
        dsimp only
        split
        · exact only_pure _
        · rename_i hlt
          rw [pyAssert_of (not_lt.1 hlt), ok_bind]
          exact ih hns' (st := { best := some r, books := r.books }) hR

theorem only_solveOriented_of {E : PyErr → Prop} {cfg : Config} {ext : Ext} {pair : Token × Token} {b s f : List Order} {fee : Fee} {xrate : Option ℚ}
    {pool : List Order} (hp : Pool pool) (hc : CfgOk cfg) (h0f : 0 ≤ fee.value) (hfee : fee.value < 1) (hφ : 9 / 10 ≤ (1 - fee.value) ^ 2)
    (hb : BookOf pool pair fee { b, s, f }) (hne : pair.1 ≠ pair.2) (hF2 : pair.2 ≠ fee.token) (hbr : ∀ E, MaxBranching E (ext.branch E))
    (hx : ∀ y, xrate = some y → 0 < y) (hm : ∃ o ∈ b, ∃ c ∈ s, Matchable fee o c)
    (hmain : xrate = none → Only E (findBestXrate cfg ext.sqrt b s fee)) {X Y : ℚ}
    (hX : ∀ x, givenOrBestXrate cfg ext.sqrt b s fee xrate = .ok (some x) → x ≤ X) (hXP : pair.1 = fee.token → X ≤ cfg.feeTokenPrice)
    (hS : ∀ mo f', (∀ o ∈ f', ∃ a ∈ f, SameButExec a o) → f'.length ≤ f.length → f' ≠ [] → 0 < mo.maxSell → SearchInput cfg fee [mo] f' → (∀ o ∈ f', Matchable fee mo o) → Only E (findBestXrate cfg ext.sqrt [mo] f' fee))
    (hY : pair.1 ≠ fee.token → (∀ o ∈ f, 1 / (o.maxXrate * (9 / 10)) ≤ Y) ∧ Y * (X + 1) ≤ cfg.feeTokenPrice) :
    Only E (solveOriented cfg ext pair b s f fee xrate) := by
  have hsearch : SearchInput cfg fee b s := hb.search hp hc hfee
  unfold solveOriented
  refine only_bind (only_solveTokenPair_of hsearch hc.limit hx (fun q hq => by cases hq) hmain (fun x p g1 g2 => ?_)) fun r h1 => ?_
  · unfold effPrice at g2
    split at g2
    · cases g2
      exact (hX x g1).trans (hXP (by assumption))
    · cases g2
  obtain ⟨xo, b1, s1⟩ := r
  have hsame : BooksSame { b, s, f } { b := b1, s := s1, f } := by
    rcases solveTokenPair_spec hsearch hc.limit hx (fun q hq => by cases hq) h1 with ⟨_, rfl, rfl, _⟩ | ⟨_, _, _, _, _, _, _, _, _, _, hex⟩
    · exact BooksSame.refl _
    · exact ⟨forall₂_exec_of_buy hex.sameB, forall₂_exec_of_buy hex.sameS, forall₂_same_refl _⟩
  have hb1 := hb.same hsame
  dsimp only
  by_cases h0 : countNrExec b1 = 0
  · rw [if_pos h0]; exact only_pure _
  rw [if_neg h0]
  obtain ⟨o0, ho0, c0, hc0, _⟩ := hm
  obtain ⟨x, x0, e0, hy, _, _, _, _, hpr, _, hex⟩ := (solveTokenPair_spec hsearch hc.limit hx (fun q hq => by cases hq) h1).resolve_left
    (by
      rintro ⟨_, _, _, h | h⟩
      · rw [h] at ho0; simp at ho0
      · rw [h] at hc0; simp at hc0)
  subst e0
  dsimp only
  by_cases hF : pair.1 = fee.token
  · rw [if_pos hF]
    obtain ⟨q, _, hq1, _, hq⟩ := hpr cfg.feeTokenPrice (by unfold effPrice; rw [if_pos hF])
    have hbA : BookOf pool pair fee { b := b1, s := s1, f := [] } :=
      ⟨hb1.derB, hb1.derS, by simp, hb1.idsB, hb1.idsS, by simp, hb1.clsB, hb1.clsS, by simp⟩
    have hgood : GoodMatch cfg fee pair { b := b1, s := s1, f := [] } x cfg.feeTokenPrice := by
      refine ⟨hy, ⟨cfg.feeTokenPrice, hc.feePrice, rfl⟩, ⟨q, hq1, hq⟩, hex.exB, hex.exS, by simp, ?_, hex.both, .inl ⟨hF, rfl, rfl⟩⟩
      have := hex.count
      simpa [countNrExec] using this
    obtain ⟨r, hr⟩ := aggregateAndRound_ok hp hc hfee hbA hne hF2 hbr hgood
    rw [hr, ok_bind]; exact only_pure _
  rw [if_neg hF]
  by_cases hf0 : f.length = 0
  · rw [if_pos hf0]; exact only_pure _
  rw [if_neg hf0]
  obtain ⟨imb, hi⟩ := bBuyTokenImbalance_ok b1 s1 1 hfee hy.ne'
  rw [hi, ok_bind]
  have hcnt : nrFOrders cfg b1 s1 f = .ok (max (min (cfg.maxNrExec - countNrExec b1 - countNrExec s1 + 1) (min (f.length : ℤ) (cfg.maxNrExec - 2))) 1,
      min (f.length : ℤ) (cfg.maxNrExec - 2)) := by
    unfold nrFOrders
    dsimp only
    rw [pyAssert_of hex.count]; rfl
  rw [hcnt, ok_bind]
  generalize hmx : min (f.length : ℤ) (cfg.maxNrExec - 2) = mx
  generalize hmn : max (min (cfg.maxNrExec - countNrExec b1 - countNrExec s1 + 1) mx) 1 = mn
  dsimp only
  split
  · exact only_pure _
  rename_i hle
  have hperm := sortedByExecPriority_perm f
  have hbS : BookOf pool pair fee { b := b1, s := s1, f := sortedByExecPriority f } :=
    ⟨hb1.derB, hb1.derS, fun o ho => hb1.derF o (hperm.mem_iff.1 ho), hb1.idsB, hb1.idsS, (hperm.map _).nodup_iff.2 hb1.idsF, hb1.clsB,
      hb1.clsS, fun h o ho => hb1.clsF h o (hperm.mem_iff.1 ho)⟩
  have hbn : b1 ≠ [] := by rintro rfl; exact h0 rfl
  have hsn : s1 ≠ [] := by
    obtain ⟨o, ho, hpos⟩ := exists_of_countNrExec h0
    obtain ⟨o', ho', _⟩ := hex.both.1 ⟨o, ho, hpos⟩
    rintro rfl; simp at ho'
  have hfn : sortedByExecPriority f ≠ [] := by
    intro h; rw [h] at hperm; rw [← hperm.length_eq] at hf0; simp at hf0
  have hns : ∀ n ∈ (List.range (mx + 1 - mn).toNat).map (· + mn.toNat), 1 ≤ n ∧ (n : ℤ) ≤ cfg.maxNrExec := by
    intro n hn
    obtain ⟨i, hi, rfl⟩ := List.mem_map.1 hn
    rw [List.mem_range] at hi
    omega
  have hxX : x ≤ X := hX x (solveTokenPair_rate hF h1)
  obtain ⟨hY1, hY2⟩ := hY hF
  refine only_bind (only_fOrdersLoop_of hp hc h0f hfee hφ hne hF hF2 hy (bk0 := { b := b1, s := s1, f := sortedByExecPriority f }) hbS hbn hsn hfn
    hns (BooksSame.refl _) (fun mo f' g1 g2 => hS mo f' (fun o ho => by
      obtain ⟨a, ha, e⟩ := g1 o ho
      exact ⟨a, hperm.mem_iff.1 ha, e⟩) (g2.trans hperm.length_eq.le)) (Y := Y) (fun o ho => hY1 o (hperm.mem_iff.1 ho)) ?_) fun st h3 => ?_
  · obtain ⟨o, ho⟩ := List.exists_mem_of_ne_nil _ hfn
    have h1 := hY1 o (hperm.mem_iff.1 ho)
    have h2 := ((hb.derF o (hperm.mem_iff.1 ho)).ok hp).1
    have hY0 : 0 < Y := lt_of_lt_of_le (by positivity) h1
    nlinarith
  obtain ⟨l1, l2⟩ := fOrdersLoop_spec hp hc hfee hne hF hF2 hy (bk0 := { b := b1, s := s1, f := sortedByExecPriority f }) hbS hbn hsn hfn
    hns (BooksSame.refl _) (by intro g hg; cases hg) h3
  cases hbest : st.best with
  | none => exact only_pure _
  | some best =>
    dsimp only
    obtain ⟨g1, g2⟩ := l2 best hbest
    cases hbp : best.bPrice with
    | none => exact only_pure _
    | some p =>
      dsimp only
      obtain ⟨r, hr⟩ := aggregateAndRound_ok hp hc hfee (hbS.same g1) hne hF2 hbr (g2 p hbp)
      rw [hr, ok_bind]; exact only_pure _

end Dex
