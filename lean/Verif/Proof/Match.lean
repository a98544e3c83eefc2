import Verif.Props.Buffer

/-! # Invariants of the matching functions -/

namespace Dex

open Spec

/-! ### Order lists derived from a pool of loaded orders -/

theorem SameButExec.trans2 {a b c : Order} (h1 : SameButExec a b) (h2 : SameButExec b c) : SameButExec a c := by
  unfold SameButExec at *
  rw [h2, h1]

/-- The pool of loaded orders. -/
structure Pool (pool : List Order) : Prop where
  ids : (pool.map (·.id)).Nodup
  ok : ∀ o ∈ pool, 0 < o.maxXrate ∧ 0 ≤ o.maxSell ∧ o.maxSell ≤ o.origMaxSell

/-- The order is one of the pool, up to executed amounts. -/
def Der (pool : List Order) (u : Order) : Prop := ∃ a ∈ pool, SameButExec a u

theorem Der.same {pool : List Order} {u v : Order} (h : Der pool u) (hs : SameButExec u v) : Der pool v := by
  obtain ⟨a, ha, h⟩ := h
  exact ⟨a, ha, SameButExec.trans2 h hs⟩

theorem der_self {pool : List Order} {o : Order} (h : o ∈ pool) : Der pool o := ⟨o, h, rfl⟩

theorem Der.ok {pool : List Order} (hp : Pool pool) {u : Order} (h : Der pool u) :
    0 < u.maxXrate ∧ 0 ≤ u.maxSell ∧ u.maxSell ≤ u.origMaxSell := by
  obtain ⟨a, ha, h⟩ := h
  have := hp.ok a ha
  unfold SameButExec at h
  rw [h]; exact this

theorem Der.eq_of_id {pool : List Order} (hp : Pool pool) {u v : Order} (hu : Der pool u) (hv : Der pool v) (h : u.id = v.id) :
    SameButExec u v := by
  obtain ⟨a, ha, h1⟩ := hu
  obtain ⟨b, hb, h2⟩ := hv
  have e1 : u.id = a.id := by rw [h1]
  have e2 : v.id = b.id := by rw [h2]
  have : a = b := List.inj_on_of_nodup_map hp.ids ha hb (by rw [← e1, ← e2, h])
  subst this
  exact SameButExec.trans2 (SameButExec.symm' h1) h2

theorem der_forall₂ {pool l l' : List Order} (h : ∀ o ∈ l, Der pool o) (hs : List.Forall₂ SameButExec l l') : ∀ o ∈ l', Der pool o := by
  intro o ho
  obtain ⟨a, ha, h1⟩ := forall₂_mem_r hs o ho
  exact (h a ha).same h1

theorem forall₂_same_refl (l : List Order) : List.Forall₂ SameButExec l l := by
  induction l with
  | nil => exact .nil
  | cons o l ih => exact .cons rfl ih

theorem forall₂_same_trans {a b c : List Order} (h1 : List.Forall₂ SameButExec a b) (h2 : List.Forall₂ SameButExec b c) :
    List.Forall₂ SameButExec a c :=
  forall₂_trans' (R := SameButExec) (S := SameButExec) (T := SameButExec) (fun _ _ _ => SameButExec.trans2) h1 h2

theorem forall₂_exec_of_buy {a b : List Order} (h : List.Forall₂ SameButBuy a b) : List.Forall₂ SameButExec a b :=
  h.imp (fun _ _ => sameButExec_of_buy)

theorem writeBack_same {pool orig upd : List Order} (hp : Pool pool) (h1 : ∀ o ∈ orig, Der pool o) (h2 : ∀ o ∈ upd, Der pool o) :
    List.Forall₂ SameButExec orig (writeBack orig upd) := by
  unfold writeBack
  induction orig with
  | nil => exact .nil
  | cons o l ih =>
    rw [List.map_cons]
    refine .cons ?_ (ih (fun a ha => h1 a (by simp [ha])))
    cases hf : upd.find? (fun u => decide (u.id = o.id)) with
    | none => rfl
    | some u =>
      have hm := List.mem_of_find?_eq_some hf
      have he := List.find?_some hf
      simp only [decide_eq_true_eq] at he
      exact (h1 o (by simp)).eq_of_id hp (h2 u hm) he.symm

/-- The three lists of a token pair. -/
structure BookOf (pool : List Order) (pair : Token × Token) (fee : Fee) (bk : Books) : Prop where
  derB : ∀ o ∈ bk.b, Der pool o
  derS : ∀ o ∈ bk.s, Der pool o
  derF : ∀ o ∈ bk.f, Der pool o
  idsB : (bk.b.map (·.id)).Nodup
  idsS : (bk.s.map (·.id)).Nodup
  idsF : (bk.f.map (·.id)).Nodup
  clsB : ∀ o ∈ bk.b, o.buyToken = pair.1 ∧ o.sellToken = pair.2
  clsS : ∀ o ∈ bk.s, o.buyToken = pair.2 ∧ o.sellToken = pair.1
  clsF : pair.1 ≠ fee.token → ∀ o ∈ bk.f, o.buyToken = pair.1 ∧ o.sellToken = fee.token

/-- The lists hold the same orders. -/
structure BooksSame (bk bk' : Books) : Prop where
  b : List.Forall₂ SameButExec bk.b bk'.b
  s : List.Forall₂ SameButExec bk.s bk'.s
  f : List.Forall₂ SameButExec bk.f bk'.f

theorem BooksSame.refl (bk : Books) : BooksSame bk bk := ⟨forall₂_same_refl _, forall₂_same_refl _, forall₂_same_refl _⟩

theorem BooksSame.trans {a b c : Books} (h1 : BooksSame a b) (h2 : BooksSame b c) : BooksSame a c :=
  ⟨forall₂_same_trans h1.b h2.b, forall₂_same_trans h1.s h2.s, forall₂_same_trans h1.f h2.f⟩

theorem forall₂_tokens {l l' : List Order} {bt st : Token} (hs : List.Forall₂ SameButExec l l') (h : ∀ o ∈ l, o.buyToken = bt ∧ o.sellToken = st) :
    ∀ o ∈ l', o.buyToken = bt ∧ o.sellToken = st := by
  intro o ho
  obtain ⟨a, ha, h1⟩ := forall₂_mem_r hs o ho
  unfold SameButExec at h1
  rw [h1]; exact h a ha

theorem BookOf.same {pool : List Order} {pair : Token × Token} {fee : Fee} {bk bk' : Books} (h : BookOf pool pair fee bk)
    (hs : BooksSame bk bk') : BookOf pool pair fee bk' := by
  refine ⟨der_forall₂ h.derB hs.b, der_forall₂ h.derS hs.s, der_forall₂ h.derF hs.f, ?_, ?_, ?_, forall₂_tokens hs.b h.clsB,
    forall₂_tokens hs.s h.clsS, fun hne => forall₂_tokens hs.f (h.clsF hne)⟩
  · rw [ids_of_same hs.b]; exact h.idsB
  · rw [ids_of_same hs.s]; exact h.idsS
  · rw [ids_of_same hs.f]; exact h.idsF

/-- Sizes the solver relies on. -/
structure CfgOk (cfg : Config) : Prop where
  minPos : 1 ≤ cfg.minTradable
  slack : cfg.minTradable ≤ cfg.minRationalTradable - 1
  limit : 0 ≤ cfg.maxNrExec
  feePrice : 0 < cfg.feeTokenPrice
  volume : 0 < cfg.maxRoundingVolume
  error : cfg.priceEstimationError ≠ 0

theorem CfgOk.minRational {cfg : Config} (h : CfgOk cfg) : 0 < cfg.minRationalTradable := by
  have := h.minPos; have := h.slack; omega

theorem BookOf.search {pool : List Order} {pair : Token × Token} {fee : Fee} {bk : Books} {cfg : Config} (h : BookOf pool pair fee bk)
    (hp : Pool pool) (hc : CfgOk cfg) (hf : fee.value < 1) : SearchInput cfg fee bk.b bk.s :=
  ⟨hc.minRational, hf, hc.limit, hc.feePrice, h.idsB, h.idsS, fun o ho => ⟨((h.derB o ho).ok hp).1, ((h.derB o ho).ok hp).2.1⟩,
    fun o ho => ⟨((h.derS o ho).ok hp).1, ((h.derS o ho).ok hp).2.1⟩⟩

/-- An exact matching of a token pair (and the fee token) that can be rounded. -/
structure GoodMatch (cfg : Config) (fee : Fee) (pair : Token × Token) (bk : Books) (x p : ℚ) : Prop where
  ratePos : 0 < x
  price : ∃ k : ℤ, 1 ≤ k ∧ p = k
  sPrice : ∃ q : ℤ, 1 ≤ q ∧ x = p / q
  exB : ∀ o ∈ bk.b, ExactAt cfg x fee o
  exS : ∀ o ∈ bk.s, ExactAt cfg (1 / x) fee o
  exF : ∀ o ∈ bk.f, ExactAt cfg (p / cfg.feeTokenPrice) fee o
  count : (countNrExec bk.b : ℤ) + countNrExec bk.s + countNrExec bk.f ≤ cfg.maxNrExec
  both : (∃ o ∈ bk.b, 0 < o.buy) ↔ ∃ o ∈ bk.s, 0 < o.buy
  feeCase : (pair.1 = fee.token ∧ bk.f = [] ∧ p = cfg.feeTokenPrice) ∨ (pair.1 ≠ fee.token ∧ ∃ o ∈ bk.f, 0 < o.buy)

/-! ### The fee orders -/

theorem solveBFee_spec {cfg : Config} {sqrt : ℚ → Py ℚ} {imb : ℚ} {bTok : Token} {f f' : List Order} {fee : Fee} {p : ℤ} (hc : CfgOk cfg)
    (hfee : fee.value < 1) (hne : f ≠ []) (hids : (f.map (·.id)).Nodup) (hok : ∀ o ∈ f, 0 < o.maxXrate ∧ 0 ≤ o.maxSell)
    (hr : solveBFee cfg sqrt imb bTok f fee = .ok (p, f')) :
    1 ≤ p ∧ List.Forall₂ SameButBuy f f' ∧ (∀ o ∈ f', ExactAt cfg ((p : ℚ) / cfg.feeTokenPrice) fee o) := by
  unfold solveBFee at hr
  simp only [bind_eq_ok, pyAssert_eq_ok, exists_and_left, exists_const] at hr
  obtain ⟨p', hp, mo, hmo, fx, hfx, ⟨xo, mo', f1⟩, hs, hsome, e⟩ := hr
  obtain ⟨e1, e2⟩ := Prod.mk.inj (Except.ok.inj e)
  subst e1; subst e2
  obtain ⟨_, _, _, _, _, _, hp0, _⟩ := C21_price ⟨hfee, hne, fun o ho => (hok o ho).1⟩ ⟨hc.minRational, hc.limit, hc.feePrice⟩ hids
    (fun o ho => (hok o ho).2) hp
  obtain ⟨hne0, rfl⟩ := pyDiv_eq_ok.1 hfx
  have hne0' : p' ≠ 0 := by exact_mod_cast hne0
  have hp1 : 1 ≤ p' := by omega
  have hP : (0 : ℚ) < cfg.feeTokenPrice := by exact_mod_cast hc.feePrice
  have hpq : (0 : ℚ) < p' := by exact_mod_cast hp1
  obtain ⟨m, hm, _, emo⟩ := createMarketOrder_eq (cfg := cfg) (bt := fee.token) (st := bTok) (amt := imb) hne (fun o ho => (hok o ho).1)
  rw [emo] at hmo
  cases hmo
  have hm0 := (hok m hm).1
  have hmin : (0 : ℚ) < cfg.minRationalTradable := by exact_mod_cast hc.minRational
  have hin : SearchInput cfg fee [Order.mk' fee.token bTok (max imb (cfg.minRationalTradable : ℚ)) (1 / (m.maxXrate * (9 / 10))) none marketOrderId] f := by
    refine ⟨hc.minRational, hfee, hc.limit, hc.feePrice, by simp, hids, ?_, hok⟩
    intro o ho
    rw [List.mem_singleton] at ho
    subst ho
    exact ⟨by show (0 : ℚ) < 1 / _; positivity, hmin.le.trans (le_max_right _ _)⟩
  have hfx0 : (0 : ℚ) < cfg.feeTokenPrice / p' := div_pos hP hpq
  rcases solveTokenPair_spec hin hc.limit (fun y hy => by cases hy; exact hfx0) (fun q hq => by cases hq) hs with
    ⟨rfl, _⟩ | ⟨x, x0, rfl, hx, hx0, hxx, _, _, hpr, _, hex⟩
  · simp at hsome
  · obtain ⟨q, _, hq1, hq2, rfl⟩ := hpr cfg.feeTokenPrice (by unfold effPrice; rw [if_pos rfl])
    rw [hxx _ rfl] at hq2
    have e1 : (cfg.feeTokenPrice : ℚ) / (cfg.feeTokenPrice / p') = p' := by field_simp
    rw [e1] at hq2
    have hqp : q = p' := by
      have h3 : |q - p'| < 1 := by exact_mod_cast hq2
      rw [Int.abs_lt_one_iff] at h3
      omega
    subst hqp
    have e2 : 1 / ((cfg.feeTokenPrice : ℚ) / q) = q / cfg.feeTokenPrice := by rw [one_div_div]
    refine ⟨hp1, hex.sameS, ?_⟩
    rw [← e2]; exact hex.exS

theorem countNrExec_append (a b : List Order) : countNrExec (a ++ b) = countNrExec a + countNrExec b := by
  unfold countNrExec; rw [List.countP_append]

theorem countNrExec_zero {l : List Order} (h : ∀ o ∈ l, o.buy = 0) : countNrExec l = 0 := by
  unfold countNrExec
  rw [List.countP_eq_zero]
  intro o ho
  simp [h o ho]

theorem exists_of_countNrExec {l : List Order} (h : countNrExec l ≠ 0) : ∃ o ∈ l, 0 < o.buy := by
  by_contra hc
  push Not at hc
  apply h
  unfold countNrExec
  rw [List.countP_eq_zero]
  intro o ho
  simpa using hc o ho

/-- `solve_token_pair_and_fee_token_given_exec_f_orders`. -/
theorem givenExecF_spec {cfg : Config} {sqrt : ℚ → Py ℚ} {nrF : ℕ} {imb : ℚ} {pair : Token × Token} {bk : Books} {x : ℚ} {fee : Fee}
    {pool : List Order} {r : GivenResult} (hp : Pool pool) (hc : CfgOk cfg) (hfee : fee.value < 1) (hb : BookOf pool pair fee bk)
    (hne : pair.1 ≠ pair.2) (hF1 : pair.1 ≠ fee.token) (hF2 : pair.2 ≠ fee.token) (hx : 0 < x) (hbn : bk.b ≠ []) (hsn : bk.s ≠ [])
    (hfn : bk.f ≠ []) (hn1 : 1 ≤ nrF) (hn2 : (nrF : ℤ) ≤ cfg.maxNrExec) (hz : ∀ o ∈ bk.f, o.buy = 0)
    (hr : givenExecF cfg sqrt nrF imb pair bk x fee = .ok r) :
    BooksSame bk r.books ∧ ∀ p, r.bPrice = some p → GoodMatch cfg fee pair r.books r.xrate p := by
  unfold givenExecF at hr
  rw [bind_eq_ok] at hr
  obtain ⟨⟨p, fT⟩, h1, hr⟩ := hr
  have htake : bk.f.take nrF ≠ [] := by
    cases hf : bk.f with
    | nil => exact absurd hf hfn
    | cons o l => obtain ⟨k, rfl⟩ : ∃ k, nrF = k + 1 := ⟨nrF - 1, by omega⟩; simp
  obtain ⟨p1, sT, eT⟩ := solveBFee_spec hc hfee htake
    (by rw [List.map_take]; exact hb.idsF.sublist (List.take_sublist _ _))
    (fun o ho => ⟨((hb.derF o (List.mem_of_mem_take ho)).ok hp).1, ((hb.derF o (List.mem_of_mem_take ho)).ok hp).2.1⟩) h1
  have hlen := sT.length_eq
  have hsf : List.Forall₂ SameButExec bk.f (fT ++ bk.f.drop nrF) := by
    have : List.Forall₂ SameButExec (bk.f.take nrF ++ bk.f.drop nrF) (fT ++ bk.f.drop nrF) :=
      List.rel_append (forall₂_exec_of_buy sT) (forall₂_same_refl (bk.f.drop nrF))
    rwa [List.take_append_drop] at this
  have htk : (fT ++ bk.f.drop nrF).take nrF = fT := by
    rw [List.length_take] at hlen
    by_cases hle : nrF ≤ bk.f.length
    · rw [List.take_append_of_le_length (by omega), List.take_of_length_le (by omega)]
    · rw [List.drop_of_length_le (by omega), List.append_nil, List.take_of_length_le (by omega)]
  have hcnt : countNrExec fT ≤ nrF := by
    refine (List.countP_le_length).trans ?_
    rw [← hlen, List.length_take]; omega
  dsimp only at hr
  rw [htk] at hr
  by_cases h0 : countNrExec fT = 0
  · rw [if_pos h0] at hr
    cases hr
    exact ⟨⟨forall₂_same_refl _, forall₂_same_refl _, hsf⟩, fun p hp => by cases hp⟩
  · rw [if_neg h0, bind_eq_ok] at hr
    obtain ⟨⟨xo, b', s'⟩, h2, hr⟩ := hr
    have hpq : (0 : ℚ) < p := by exact_mod_cast p1
    have hbi : BufferInput cfg pair bk.b bk.s x p fee :=
      ⟨hx, hpq, hc.feePrice, hc.volume, hc.error, hne, hF1, hF2, hb.clsB, hb.clsS, fun o ho => ((hb.derB o ho).ok hp).2,
        fun o ho => ((hb.derS o ho).ok hp).2⟩
    obtain ⟨y, q, rfl, hy, hq1, _, hyq, hex, _, _⟩ := solveBuffered_spec hbi (hb.search hp hc hfee) (by omega) hbn hsn h2
    dsimp only at hr
    rw [bind_eq_ok] at hr
    obtain ⟨obj, _, hr⟩ := hr
    cases hr
    have hdz : ∀ o ∈ bk.f.drop nrF, o.buy = 0 := fun o ho => hz o (List.mem_of_mem_drop ho)
    refine ⟨⟨forall₂_exec_of_buy hex.sameB, forall₂_exec_of_buy hex.sameS, hsf⟩, fun p' hp' => ?_⟩
    cases hp'
    refine ⟨hy, ⟨p, p1, rfl⟩, ⟨q, hq1, hyq⟩, hex.exB, hex.exS, ?_, ?_, hex.both, .inr ⟨hF1, ?_⟩⟩
    · intro o ho
      rcases List.mem_append.1 ho with ho | ho
      · exact eT o ho
      · exact ExactAt.of_zero (hdz o ho)
    · show (countNrExec b' : ℤ) + countNrExec s' + countNrExec (fT ++ bk.f.drop nrF) ≤ _
      rw [countNrExec_append, countNrExec_zero hdz]
      have := hex.count
      push_cast
      linarith
    · obtain ⟨o, ho, hpos⟩ := exists_of_countNrExec h0
      exact ⟨o, List.mem_append_left _ ho, hpos⟩

/-- The loop over numbers of fee orders. -/
theorem fOrdersLoop_spec {cfg : Config} {sqrt : ℚ → Py ℚ} {imb : ℚ} {pair : Token × Token} {x : ℚ} {fee : Fee}
    {pool : List Order} (hp : Pool pool) (hc : CfgOk cfg) (hfee : fee.value < 1)
    (hne : pair.1 ≠ pair.2) (hF1 : pair.1 ≠ fee.token) (hF2 : pair.2 ≠ fee.token) (hx : 0 < x)
    {ns : List ℕ} {st st' : FLoopState} {bk0 : Books} (hb : BookOf pool pair fee bk0) (hbn : bk0.b ≠ []) (hsn : bk0.s ≠ []) (hfn : bk0.f ≠ [])
    (hns : ∀ n ∈ ns, 1 ≤ n ∧ (n : ℤ) ≤ cfg.maxNrExec) (h1 : BooksSame bk0 st.books)
    (h2 : ∀ g, st.best = some g → BooksSame bk0 g.books ∧ ∀ p, g.bPrice = some p → GoodMatch cfg fee pair g.books g.xrate p)
    (hr : fOrdersLoop cfg sqrt imb pair x fee ns st = .ok st') :
    BooksSame bk0 st'.books ∧ ∀ g, st'.best = some g → BooksSame bk0 g.books ∧
      ∀ p, g.bPrice = some p → GoodMatch cfg fee pair g.books g.xrate p := by
  induction ns generalizing st with
  | nil => cases hr; exact ⟨h1, h2⟩
  | cons n ns ih =>
    unfold fOrdersLoop at hr
    rw [bind_eq_ok] at hr
    obtain ⟨r, e1, hr⟩ := hr
    have ne_of : ∀ {l l' : List Order}, List.Forall₂ SameButExec l l' → l ≠ [] → l' ≠ [] := by
      intro l l' h hn hc; subst hc; cases h; exact hn rfl
    have hreset : ∀ l : List Order, List.Forall₂ SameButExec l (l.map (fun o => (o.withBuy 0).withSell 0)) := by
      intro l
      induction l with
      | nil => exact .nil
      | cons o l ih => exact .cons rfl ih
    have hsame : BooksSame bk0 { st.books with f := st.books.f.map (fun o => (o.withBuy 0).withSell 0) } :=
      ⟨h1.b, h1.s, forall₂_same_trans h1.f (hreset _)⟩
    obtain ⟨r1, r2⟩ := givenExecF_spec hp hc hfee (hb.same hsame) hne hF1 hF2 hx (ne_of h1.b hbn) (ne_of h1.s hsn)
      (ne_of hsame.f hfn) (hns n (by simp)).1 (hns n (by simp)).2
      (fun o ho => by obtain ⟨a, _, rfl⟩ := List.mem_map.1 ho; rfl) e1
    have hR := hsame.trans r1
    have hns' : ∀ n ∈ ns, 1 ≤ n ∧ (n : ℤ) ≤ cfg.maxNrExec := fun m hm => hns m (by simp [hm])
    cases hbp : r.bPrice with
    | none =>
      rw [hbp] at hr
      exact ih hns' (st := { st with books := r.books }) hR h2 hr
    | some p =>
      rw [hbp] at hr
      cases hbest : st.best with
      | none =>
        rw [hbest] at hr
        exact ih hns' (st := { best := some r, books := r.books }) hR (fun g hg => by cases hg; exact ⟨hR, r2⟩) hr
      | some best =>
        rw [hbest] at hr
        dsimp only at hr
        split at hr
        · cases hr
          exact ⟨hR, fun g hg => h2 g (hbest.trans hg)⟩
        · rw [bind_eq_ok] at hr
          obtain ⟨_, _, hr⟩ := hr
          exact ih hns' (st := { best := some r, books := r.books }) hR (fun g hg => by cases hg; exact ⟨hR, r2⟩) hr

end Dex
