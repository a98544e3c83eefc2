import Verif.Props.Dump

/-! # Properties C33, C47 and C51: economic viability -/

namespace Dex

namespace Spec

/-- Traded volume of the order at the prices. -/
def volumeAt (prices : Prices) (o : Order) : ℚ := o.buy * priceAt prices o.buyToken

/-- Fee paid by the order according to its volume, in fee tokens. -/
def feeAt (cfg : Config) (prices : Prices) (fee : Fee) (o : Order) : ℚ := volumeAt prices o * fee.value / cfg.feeTokenPrice

/-- Average fee paid by the orders. -/
def averageFee (cfg : Config) (prices : Prices) (fee : Fee) (os : List Order) : ℚ := (os.map (feeAt cfg prices fee)).sum / os.length

/-- The orders with a positive buy amount. -/
def executed (os : List Order) : List Order := os.filter (fun o => decide (0 < o.buy))

/-- The order is executed and pays the minimum absolute fee or sells the fee token. -/
def Paying (cfg : Config) (prices : Prices) (fee : Fee) (o : Order) : Prop :=
  0 < o.buy ∧ (o.sellToken = fee.token ∨ cfg.minAbsFee ≤ feeAt cfg prices fee o)

instance (cfg : Config) (prices : Prices) (fee : Fee) (o : Order) : Decidable (Paying cfg prices fee o) := by unfold Paying; infer_instance

/-- The orders meet both fee thresholds, by their volumes. -/
def MeetsThresholds (cfg : Config) (prices : Prices) (fee : Fee) (os : List Order) : Prop :=
  (∀ o ∈ os, 0 < o.buy → o.sellToken = fee.token ∨ cfg.minAbsFee ≤ feeAt cfg prices fee o) ∧
    cfg.minAvgFee ≤ (os.map (feeAt cfg prices fee)).sum / nrExecuted os

instance (cfg : Config) (prices : Prices) (fee : Fee) (os : List Order) : Decidable (MeetsThresholds cfg prices fee os) := by
  unfold MeetsThresholds; infer_instance

/-- Every bought token has a price. -/
def BuyPriced (prices : Prices) (os : List Order) : Prop := ∀ o ∈ os, ∃ p, PriceOf prices o.buyToken p

end Spec

open Spec

theorem volume_eq {prices : Prices} {o : Order} (h : ∃ p, PriceOf prices o.buyToken p) : o.volume prices = .ok (volumeAt prices o) := by
  obtain ⟨p, hp⟩ := h
  unfold Order.volume volumeAt
  rw [dictGet_of (priceOf_iff.1 hp), priceAt_of hp]; rfl

theorem feePaid_at {cfg : Config} {prices : Prices} {fee : Fee} {o : Order} (hF : cfg.feeTokenPrice ≠ 0) (h : ∃ p, PriceOf prices o.buyToken p) :
    o.feePaid cfg prices fee = .ok (feeAt cfg prices fee o) := by
  unfold Order.feePaid
  rw [volume_eq h, ok_bind, pyDiv_of_ne (by exact_mod_cast hF)]; rfl

theorem countNrExec_eq (os : List Order) : countNrExec os = nrExecuted os := by
  unfold countNrExec nrExecuted
  rw [List.countP_eq_length_filter]

theorem averageFee_eq {cfg : Config} {prices : Prices} {fee : Fee} {os : List Order} (hF : cfg.feeTokenPrice ≠ 0) (h : BuyPriced prices os)
    (hx : nrExecuted os ≠ 0) : computeAverageOrderFee cfg os prices fee = .ok ((os.map (feeAt cfg prices fee)).sum / nrExecuted os) := by
  unfold computeAverageOrderFee computeTotalFee
  rw [sumE_of_forall (fun o ho => feePaid_at hF (h o ho)), ok_bind, countNrExec_eq, pyDiv_of_ne (by exact_mod_cast hx)]

/-- The viability check accepts exactly the solutions without executed order and those meeting the thresholds (if there are any). -/
theorem viable_iff {cfg : Config} {prices : Prices} {fee : Fee} {os : List Order} (hF : cfg.feeTokenPrice ≠ 0) (h : BuyPriced prices os) :
    isEconomicViable cfg os prices fee = .ok (decide (nrExecuted os = 0 ∨ (cfg.minAvgFee = 0 ∧ cfg.minAbsFee = 0) ∨ MeetsThresholds cfg prices fee os)) := by
  unfold isEconomicViable
  rw [countNrExec_eq]
  by_cases h0 : nrExecuted os = 0
  · rw [if_pos h0]; simp [h0]
  rw [if_neg h0]
  by_cases h1 : cfg.minAvgFee = 0 ∧ cfg.minAbsFee = 0
  · rw [if_pos h1]; simp [h1]
  rw [if_neg h1]
  rw [anyE_of_forall (q := fun o => decide (feeAt cfg prices fee o < cfg.minAbsFee)) (by
    intro o ho
    rw [feePaid_at hF (h o (List.mem_of_mem_filter ho))]; rfl), ok_bind]
  generalize hany : (os.filter (fun o => decide (o.sellToken ≠ fee.token ∧ o.buy > 0))).any (fun o => decide (feeAt cfg prices fee o < cfg.minAbsFee)) = b
  have habs : b = false ↔ ∀ o ∈ os, 0 < o.buy → o.sellToken = fee.token ∨ cfg.minAbsFee ≤ feeAt cfg prices fee o := by
    rw [← hany]
    simp only [List.any_eq_false, List.mem_filter, decide_eq_true_eq, not_lt]
    constructor
    · intro hh o ho hb
      by_cases hs : o.sellToken = fee.token
      · exact .inl hs
      · exact .inr (hh o ⟨ho, hs, hb⟩)
    · rintro hh o ⟨ho, hs, hb⟩
      exact (hh o ho hb).resolve_left hs
  cases b with
  | true =>
    have : ¬ MeetsThresholds cfg prices fee os := fun hm => by cases habs.2 hm.1
    simp only [if_true, pure_eq_ok, Except.ok.injEq]
    simp [h0, h1, this]
  | false =>
    simp only [Bool.false_eq_true, if_false]
    rw [averageFee_eq hF h h0, ok_bind, pure_eq_ok, Except.ok.injEq]
    have : MeetsThresholds cfg prices fee os ↔ cfg.minAvgFee ≤ (os.map (feeAt cfg prices fee)).sum / nrExecuted os :=
      ⟨fun hm => hm.2, fun hm => ⟨habs.1 rfl, hm⟩⟩
    simp only [h0, h1, false_or, this, ge_iff_le]

/-! ## C33 -/

theorem balanced_value {prices : Prices} {orders : List Order} {ft : Token} {pF : ℚ} (hn : (prices.map (·.1)).Nodup) (hF : PriceOf prices ft pF)
    (hbal : ∀ t, t ≠ ft → sold orders t = bought orders t) :
    (prices.map (fun p => p.2 * imbal orders p.1)).sum = pF * (sold orders ft - bought orders ft) := by
  have hz : ∀ t, t ≠ ft → imbal orders t = 0 := fun t ht => sub_eq_zero.2 (hbal t ht)
  have : ∀ {l : Prices}, (l.map (·.1)).Nodup → (l.map (fun p => p.2 * imbal orders p.1)).sum =
      (((l.find? (fun p => decide (p.1 = ft))).map (·.2)).getD 0) * imbal orders ft := by
    intro l
    induction l with
    | nil => intro _; simp
    | cons a l ih =>
      intro hn
      rw [List.map_cons, List.nodup_cons] at hn
      rw [List.map_cons, List.sum_cons, ih hn.2]
      by_cases e : a.1 = ft
      · have : l.find? (fun p => decide (p.1 = ft)) = none := by
          rw [List.find?_eq_none]
          intro p hp he
          refine hn.1 ?_
          rw [e, ← (by simpa using he : p.1 = ft)]
          exact List.mem_map_of_mem hp
        rw [this, List.find?_cons_of_pos (by simpa using e), e]; simp
      · rw [hz _ e, List.find?_cons_of_neg (by simpa using e)]; simp
  rw [this hn]
  obtain ⟨e, h1, rfl⟩ := hF
  rw [h1]; rfl

theorem sum_mul_left (c : ℚ) (f : Order → ℚ) (l : List Order) : (l.map (fun o => c * f o)).sum = c * (l.map f).sum := by
  induction l with
  | nil => simp
  | cons a l ih => rw [List.map_cons, List.sum_cons, List.map_cons, List.sum_cons, ih]; ring

/-- If every executed order sells at least `1 / fee² - 1`, the fee actually collected is at least the fee computed from the volumes. -/
theorem collected_ge {cfg : Config} {prices : Prices} {orders : List Order} {fee : Fee} (hI : IntPrices prices) (hn : (prices.map (·.1)).Nodup)
    (hf0 : 0 < fee.value) (hf : fee.value < 1) (hF : PriceOf prices fee.token cfg.feeTokenPrice)
    (hp : ∀ o ∈ orders, OnClearingPrice prices fee o) (hm : ∀ o ∈ orders, o.buy = 0 ∨ 1 ≤ fee.value ^ 2 * (o.sell + 1))
    (hbal : ∀ t, t ≠ fee.token → sold orders t = bought orders t) :
    (orders.map (feeAt cfg prices fee)).sum ≤ sold orders fee.token - bought orders fee.token := by
  have hF0 := (hI.of hF).1
  have hex : ∀ o ∈ orders, ∃ v, cfg.feeTokenPrice * feeAt cfg prices fee o ≤ v ∧
      ∃ pb ps, PriceOf prices o.buyToken pb ∧ PriceOf prices o.sellToken ps ∧ v = ps * o.sell - pb * o.buy := by
    intro o ho
    obtain ⟨pb, ps, hb, hs, e⟩ := hp o ho
    refine ⟨_, ?_, pb, ps, hb, hs, rfl⟩
    obtain ⟨b1, b2⟩ := hI.of hb
    obtain ⟨s1, s2⟩ := hI.of hs
    have e1 : cfg.feeTokenPrice * feeAt cfg prices fee o = o.buy * pb * fee.value := by
      unfold feeAt volumeAt
      rw [priceAt_of hb]; field_simp
    rw [e1]
    rcases hm o ho with h0 | h1
    · rw [h0, uniformSell_zero] at e
      rw [h0, e]; simp
    · have hφ : 0 < 1 - fee.value := by linarith
      have h2 : o.buy * pb / (1 - fee.value) / ps < o.sell + 1 := by
        rw [e, uniformSell_eq s1 s2]; exact Int.lt_floor_add_one _
      rw [div_div, div_lt_iff₀ (by positivity)] at h2
      have h3 : (1 + fee.value) * (o.buy * pb) ≤ (1 + fee.value) * ((o.sell + 1) * ((1 - fee.value) * ps)) :=
        mul_le_mul_of_nonneg_left h2.le (by linarith)
      have h4 : 0 ≤ ps * (fee.value ^ 2 * (o.sell + 1) - 1) := mul_nonneg s1.le (by linarith)
      nlinarith
  choose! g hg0 hg using hex
  have hv := value_balance hn g hg
  rw [balanced_value hn hF hbal] at hv
  have hle : (orders.map (fun o => cfg.feeTokenPrice * feeAt cfg prices fee o)).sum ≤ (orders.map g).sum := List.sum_le_sum hg0
  rw [sum_mul_left, ← hv] at hle
  exact le_of_mul_le_mul_left hle hF0

/-- C33. If every executed order sells at least `1 / fee² - 1`, a solution the viability check accepts also passes the fee thresholds of the
final check. -/
theorem C33_agree_on_large_amounts {cfg : Config} {prices : Prices} {orders : List Order} {fee : Fee} (hI : IntPrices prices)
    (hn : (prices.map (·.1)).Nodup) (hf0 : 0 < fee.value) (hf : fee.value < 1) (hF : PriceOf prices fee.token cfg.feeTokenPrice)
    (hp : ∀ o ∈ orders, OnClearingPrice prices fee o) (hb : ∀ o ∈ orders, 0 ≤ o.buy) (hm : ∀ o ∈ orders, o.buy = 0 ∨ 1 ≤ fee.value ^ 2 * (o.sell + 1))
    (hbal : ∀ t, t ≠ fee.token → sold orders t = bought orders t) (hx : nrExecuted orders ≠ 0)
    (hv : isEconomicViable cfg orders prices fee = .ok true) :
    cfg.minAvgFee ≤ (sold orders fee.token - bought orders fee.token) / nrExecuted orders ∧
      ∀ o ∈ orders, o.sellToken ≠ fee.token → 0 < o.buy → ∀ p, PriceOf prices o.buyToken p →
        cfg.minAbsFee ≤ o.buy * p * fee.value / cfg.feeTokenPrice := by
  have hF0 := (hI.of hF).1
  have hbp : BuyPriced prices orders := fun o ho => by obtain ⟨pb, ps, h, _⟩ := hp o ho; exact ⟨pb, h⟩
  rw [viable_iff (by exact_mod_cast hF0.ne') hbp] at hv
  simp only [Except.ok.injEq, decide_eq_true_eq] at hv
  have hc := collected_ge hI hn hf0 hf hF hp hm hbal
  have hx' : (0 : ℚ) < nrExecuted orders := by exact_mod_cast Nat.pos_of_ne_zero hx
  have hnn : ∀ o ∈ orders, 0 ≤ feeAt cfg prices fee o := by
    intro o ho
    obtain ⟨pb, h⟩ := hbp o ho
    unfold feeAt volumeAt
    rw [priceAt_of h]
    have := (hI.of h).1
    have := hb o ho
    positivity
  rcases hv with h | h | h
  · exact absurd h hx
  · refine ⟨?_, ?_⟩
    · rw [h.1]
      refine div_nonneg (le_trans (List.sum_nonneg ?_) hc) hx'.le
      intro x hx
      obtain ⟨o, ho, rfl⟩ := List.mem_map.1 hx
      exact hnn o ho
    · intro o ho _ _ p hp'
      rw [h.2]
      have := hnn o ho
      unfold feeAt volumeAt at this
      rwa [priceAt_of hp'] at this
  · refine ⟨le_trans h.2 (div_le_div_of_nonneg_right hc hx'.le), ?_⟩
    intro o ho hs hb p hp'
    have := (h.1 o ho hb).resolve_left hs
    unfold feeAt volumeAt at this
    rwa [priceAt_of hp'] at this

/-- The division of the final check respects the threshold, as a correctly rounded division does for a representable threshold. -/
def Spec.RespectsThreshold (cfg : Config) (ext : Ext) : Prop :=
  ∀ (q : ℚ) (n : ℕ), 0 ≤ q → 0 < n → ∃ r, ext.fdiv q n = .ok r ∧ (cfg.minAvgFee ≤ q / n → cfg.minAvgFee ≤ r)

theorem validate_viable {cfg : Config} {ext : Ext} {fee : Fee} {pool : List Order} {accounts : Accounts} {sol : Solution} (hp : Pool pool)
    (hk : Backed accounts pool) (hc : CfgOk cfg) (hd : RespectsThreshold cfg ext) (hf0 : 0 < fee.value) (hf : fee.value < 1)
    (hfm : 1 ≤ fee.value ^ 2 * (cfg.minTradable + 1)) (hfm' : 1 ≤ fee.value * cfg.minTradable)
    (hg : GoodSolution cfg fee pool sol) (hv : isEconomicViable cfg sol.orders sol.prices fee = .ok true) :
    validate cfg ext.fdiv accounts sol.orders sol.prices fee = .ok () := by
  have hin : ValInput cfg accounts sol.orders sol.prices fee := by
    refine ⟨hg.keys, hg.priced, hg.feePriced, ?_, by have := hc.minPos; omega, hc.feePrice.ne'⟩
    intro o ho
    obtain ⟨a, ha, hs⟩ := hg.der o ho
    have := hk.known a ha
    unfold SameButExec at hs
    rw [hs]; exact this
  refine (C30_validate_iff hin).2 ⟨fun p hp => (hg.intPrices p hp).2, ?_⟩
  rcases Nat.eq_zero_or_pos (nrExecuted sol.orders) with h0 | h0
  · exact .inl h0
  right
  have hft := hg.feeToken hfm'
  have hlarge : ∀ o ∈ sol.orders, o.buy = 0 ∨ 1 ≤ fee.value ^ 2 * (o.sell + 1) := by
    intro o ho
    rcases (hg.constraints o ho).minSell with h | h
    · left
      have h1 : ¬ 0 < o.buy := fun hb => by have := (hg.exec o ho).1 hb; linarith
      exact le_antisymm (not_lt.1 h1) (hg.amounts o ho).2.1
    · right
      have : fee.value ^ 2 * (cfg.minTradable + 1) ≤ fee.value ^ 2 * (o.sell + 1) := mul_le_mul_of_nonneg_left (by linarith) (by positivity)
      linarith
  obtain ⟨h1, h2⟩ := C33_agree_on_large_amounts hg.intPrices hg.keys hf0 hf hg.feePrice hg.onPrice (fun o ho => (hg.amounts o ho).2.1) hlarge
    hg.balanced h0.ne' hv
  refine ⟨hg.count, hg.constraints, hg.balanced, hft, ?_, h2, ?_⟩
  · obtain ⟨r, e, hr⟩ := hd _ _ (sub_nonneg.2 hft) h0
    exact ⟨r, e, hr h1⟩
  · intro o ho a ha t _
    have hb := hk.balances a t
    rw [trunc_of_int hb.1 hb.2]
    unfold gain
    have h1 := sold_le_balance hp hk hg a t
    have h2 : 0 ≤ bought (sol.orders.filter (fun o => decide (o.accountId = some a))) t := by
      unfold bought
      refine List.sum_nonneg ?_
      intro x hx
      obtain ⟨o, ho, rfl⟩ := List.mem_map.1 hx
      exact (hg.amounts o (List.mem_of_mem_filter (List.mem_of_mem_filter ho))).2.1
    linarith

/-- The search returns only trivial or viable solutions. -/
theorem economicLoop_viable {cfg : Config} {ext : Ext} {pair : Token × Token} {fee : Fee} {xrate : Option ℚ} {fuel : ℕ} {bk : Books}
    {gone : List Order} {cur sol : Solution} {objs : List Order} (hne : bk.b.length > 0 ∨ bk.s.length > 0)
    (hr : economicLoop cfg ext pair fee xrate fuel bk gone cur = .ok (sol, objs)) :
    nrExecuted sol.orders = 0 ∨ isEconomicViable cfg sol.orders sol.prices fee = .ok true := by
  induction fuel generalizing bk gone cur with
  | zero => cases hr
  | succ fuel ih =>
    unfold economicLoop at hr
    rw [if_pos hne, bind_eq_ok] at hr
    obtain ⟨r, _, hr⟩ := hr
    dsimp only at hr
    rw [bind_eq_ok] at hr
    obtain ⟨v, hv, hr⟩ := hr
    split at hr
    · rename_i hc
      cases hr
      rcases hc with rfl | hc
      · exact .inr hv
      · left
        unfold isTrivial at hc
        rw [← countNrExec_eq]
        simpa using hc
    · rw [bind_eq_ok] at hr
      obtain ⟨sub, _, hr⟩ := hr
      split at hr
      · cases hr; exact .inl rfl
      · simp only [bind_eq_ok] at hr
        obtain ⟨bm, hbm, sm, hsm, pb, _, ps, _, hr⟩ := hr
        have hb : r.books.b.length > 0 := List.length_pos_of_mem (List.mem_of_mem_filter (pyMinBy_spec hbm).1)
        have hs : r.books.s.length > 0 := List.length_pos_of_mem (List.mem_of_mem_filter (pyMinBy_spec hsm).1)
        split at hr
        · exact ih (by exact .inr hs) hr
        · exact ih (by exact .inl hb) hr

/-- C33. With a minimum tradable amount of at least `1 / fee² - 1` the two checks never disagree: for orders backed by the accounts and any
fee thresholds the solver returns exactly what the search found. -/
theorem C33_never_fails_on_large_amounts {cfg : Config} {ext : Ext} {pair : Token × Token} {accounts : Accounts} {b s f pool : List Order}
    {fee : Fee} {xrate : Option ℚ} (hc : CfgOk cfg) (hf0 : 0 < fee.value) (hf : fee.value < 1)
    (hfm : 1 ≤ fee.value ^ 2 * (cfg.minTradable + 1)) (hfm' : 1 ≤ fee.value * cfg.minTradable) (hne : pair.1 ≠ pair.2)
    (hbr : ∀ E, MaxBranching E (ext.branch E)) (hx : ∀ y, xrate = some y → 0 < y) (hd : RespectsThreshold cfg ext)
    (hp : Pool pool) (hk : Backed accounts pool) (hb : BookOf pool pair fee { b, s, f }) :
    solveEconomicViable cfg ext pair accounts b s f fee xrate =
      economicLoop cfg ext pair fee xrate (b.length + s.length + 1) { b, s, f } [] .trivial := by
  unfold solveEconomicViable
  cases hr : economicLoop cfg ext pair fee xrate (b.length + s.length + 1) { b, s, f } [] .trivial with
  | error e => rfl
  | ok r =>
    obtain ⟨sol, objs⟩ := r
    have hv : validate cfg ext.fdiv accounts sol.orders sol.prices fee = .ok () := by
      obtain ⟨h1, _⟩ := economicLoop_spec hp hc hf hne hbr hx hb (by simp) (.inl rfl) hr
      rcases h1 with rfl | hg
      · exact validate_trivial
      by_cases hlen : b.length > 0 ∨ s.length > 0
      · rcases economicLoop_viable hlen hr with h0 | h0
        · refine validate_viable hp hk hc hd hf0 hf hfm hfm' hg ?_
          unfold isEconomicViable
          rw [countNrExec_eq, if_pos h0]; rfl
        · exact validate_viable hp hk hc hd hf0 hf hfm hfm' hg h0
      · unfold economicLoop at hr
        rw [if_neg hlen] at hr
        cases hr
        exact validate_trivial
    rw [ok_bind]
    dsimp only
    rw [hv]; rfl

namespace ExVia

/-- The graph of the example's matched orders. -/
def graph : List (Token × Token) := [("F", "S")]

noncomputable def branch (E : List (Token × Token)) : List (Token × Token) :=
  if E = graph then [("F", "S")] else (exists_maxBranching E).choose

noncomputable def ext : Ext := { sqrt := ExInst.sqrt, branch, fdiv := fun q n => .ok (q / n) }

/-- Two accounts, two orders on F/S with amounts of 100000 to 200000 units. -/
def inst : Instance where
  accounts := [("A", [("S", 10 ^ 20)]), ("C", [("F", 10 ^ 20)])]
  fee := { token := "F", value := 1 / 1000 }
  orders := [ { accountID := "A", buyToken := "F", sellToken := "S", buyAmount := 100000, sellAmount := 200000 },
    { accountID := "C", buyToken := "S", sellToken := "F", buyAmount := 100000, sellAmount := 100000 } ]

/-- Default configuration except for a minimum average fee of 99.6 fee-token units. -/
def cfg : Config := { Config.default with minAvgFee := 996 / 10 }

theorem branch_max (E : List (Token × Token)) : MaxBranching E (branch E) := by
  unfold branch
  split
  · rename_i h
    subst h
    refine ⟨⟨by decide, by decide, ⟨fun t => if t = "F" then 0 else 1, by decide⟩⟩, ?_⟩
    intro br hb
    have hsub : br ⊆ graph := fun e he => hb.sub e he
    have := ((List.Nodup.of_map _ hb.inDeg).subperm hsub).length_le
    simpa [graph] using this
  · exact (exists_maxBranching E).choose_spec

theorem good : GoodInstance inst := by constructor <;> decide +kernel

end ExVia

/-- C33. The viability check and the final check disagree: on a well-formed instance, with the default configuration except for a minimum
average fee, the search accepts a solution that the final check rejects, so the solver raises `AssertionError`. -/
theorem C33_disagreement : GoodInstance ExVia.inst ∧ CfgOk ExVia.cfg ∧ (∀ E, MaxBranching E (ExVia.ext.branch E)) ∧
    RespectsThreshold ExVia.cfg ExVia.ext ∧
    tokenPairMain ExVia.cfg ExVia.ext ExVia.inst ("F", "S") none = .error (.assertion "validation.py:74") ∧
    bestTokenPairMain ExVia.cfg ExVia.ext ExVia.inst (fun E => E.map (fun p => (p, false))) = .error (.assertion "validation.py:74") :=
  ⟨ExVia.good, by constructor <;> decide, ExVia.branch_max, fun q n _ _ => ⟨q / n, rfl, id⟩,
    eq_error_of_pyRaises (by decide +kernel), eq_error_of_pyRaises (by decide +kernel)⟩

/-- The solution found without threshold: the volumes pay 99.85 per order, but only 99.5 per order are collected. -/
example : ∃ r, (do
      let (accounts, bk, fee) ← loadPairProblem Config.default ExVia.inst ("F", "S")
      let (sol, _) ← solveEconomicViable Config.default ExVia.ext ("F", "S") accounts bk.b bk.s bk.f fee none
      let avg ← computeAverageOrderFee Config.default sol.orders sol.prices fee
      pure (avg, (sold sol.orders "F" - bought sol.orders "F") / nrExecuted sol.orders)) = .ok r ∧ 9984 / 100 < r.1 ∧ r.2 = 995 / 10 :=
  exists_of_pyCheck (p := fun r : ℚ × ℚ => 9984 / 100 < r.1 ∧ r.2 = 995 / 10) (by decide +kernel)

/-- A configuration and fee meeting the hypotheses of `C33_never_fails_on_large_amounts` (fee 0.1 %, amounts from one million). -/
example : CfgOk { Config.default with minTradable := 10 ^ 6, minRationalTradable := 10 ^ 6 + 10, minAvgFee := 1000 } ∧
    (1 : ℚ) ≤ (1 / 1000) ^ 2 * (((10 ^ 6 : ℤ) : ℚ) + 1) := ⟨by constructor <;> decide, by norm_num⟩

/-! ## C47 -/

theorem nrExecuted_of_pos {os : List Order} (h : ∀ o ∈ os, 0 < o.buy) : nrExecuted os = os.length := by
  unfold nrExecuted
  rw [List.filter_eq_self.2 (by simpa using h)]

theorem viablePrefixLoop_spec {cfg : Config} {prices : Prices} {fee : Fee} {os : List Order} (hF : cfg.feeTokenPrice ≠ 0)
    (hpr : BuyPriced prices os) (hpos : ∀ o ∈ os, 0 < o.buy) {fuel i : ℕ} (hi : 1 ≤ i) (hfuel : os.length < fuel + i) (hfuel' : 1 ≤ fuel)
    (hpre : ∀ j, 1 ≤ j → j < i → cfg.minAvgFee ≤ averageFee cfg prices fee (os.take j)) :
    ∃ n, viablePrefixLoop cfg os prices fee fuel i = .ok n ∧ i ≤ n ∧ (n ≤ os.length ∨ n = i) ∧
      (∀ j, 1 ≤ j → j < n → cfg.minAvgFee ≤ averageFee cfg prices fee (os.take j)) ∧
      (n < os.length → averageFee cfg prices fee (os.take n) < cfg.minAvgFee) := by
  induction fuel generalizing i with
  | zero => omega
  | succ fuel ih =>
    unfold viablePrefixLoop
    by_cases hlt : i < os.length
    · rw [if_pos hlt]
      have hpos' : ∀ o ∈ os.take i, 0 < o.buy := fun o ho => hpos o (List.mem_of_mem_take ho)
      have hn := nrExecuted_of_pos hpos'
      have hlen : (os.take i).length = i := by rw [List.length_take]; omega
      have he : computeAverageOrderFee cfg (os.take i) prices fee = .ok (averageFee cfg prices fee (os.take i)) := by
        rw [averageFee_eq hF (fun o ho => hpr o (List.mem_of_mem_take ho)) (by rw [hn, hlen]; omega), hn]; rfl
      rw [he, ok_bind]
      by_cases hav : averageFee cfg prices fee (os.take i) ≥ cfg.minAvgFee
      · rw [if_pos hav]
        obtain ⟨n, h1, h2, h3, h4, h5⟩ := ih (i := i + 1) (by omega) (by omega) (by omega) (by
          intro j hj hji
          rcases Nat.lt_succ_iff_lt_or_eq.1 hji with h | rfl
          · exact hpre j hj h
          · exact hav)
        exact ⟨n, h1, by omega, by omega, h4, h5⟩
      · rw [if_neg hav]
        exact ⟨i, rfl, le_refl _, .inr rfl, hpre, fun _ => lt_of_not_ge hav⟩
    · rw [if_neg hlt]
      exact ⟨i, rfl, le_refl _, .inr rfl, hpre, fun h => absurd h hlt⟩

/-- C47. Without thresholds the approximate viable subset is the whole list. -/
theorem C47_without_thresholds {cfg : Config} {orders : List Order} {prices : Prices} {fee : Fee} (h : cfg.minAvgFee = 0) (h' : cfg.minAbsFee = 0) :
    approxViableSubset cfg orders prices fee = .ok orders := by
  unfold approxViableSubset
  rw [if_pos ⟨h, h'⟩]; rfl

/-- C47. With thresholds: sort the executed orders that pay the absolute fee by decreasing volume; the subset is the shortest non-empty
prefix whose average fee is below the threshold, or everything if there is none, and it is empty if all orders of that prefix buy the
same token. -/
theorem C47_prefix {cfg : Config} {orders : List Order} {prices : Prices} {fee : Fee} (ht : ¬ (cfg.minAvgFee = 0 ∧ cfg.minAbsFee = 0))
    (hF : cfg.feeTokenPrice ≠ 0) (hpr : BuyPriced prices orders) :
    ∃ byVol n, List.Perm byVol (orders.filter (fun o => decide (Paying cfg prices fee o))) ∧
      byVol.Pairwise (fun o o' => volumeAt prices o' ≤ volumeAt prices o) ∧ 1 ≤ n ∧
      (∀ j, 1 ≤ j → j < n → cfg.minAvgFee ≤ averageFee cfg prices fee (byVol.take j)) ∧
      (n < byVol.length → averageFee cfg prices fee (byVol.take n) < cfg.minAvgFee) ∧
      (((∃ t, ∀ o ∈ byVol.take n, o.buyToken = t) ∧ approxViableSubset cfg orders prices fee = .ok []) ∨
        ((¬ ∃ t, ∀ o ∈ byVol.take n, o.buyToken = t) ∧ approxViableSubset cfg orders prices fee = .ok (byVol.take n))) := by
  unfold approxViableSubset
  rw [if_neg ht]
  have h1 : filterE (fun o => if o.sellToken = fee.token then (pure true : Py Bool) else do
        let v ← o.feePaid cfg prices fee
        pure (decide (v ≥ cfg.minAbsFee))) orders =
      .ok (orders.filter (fun o => decide (o.sellToken = fee.token ∨ cfg.minAbsFee ≤ feeAt cfg prices fee o))) := by
    refine filterE_of_forall fun o ho => ?_
    by_cases hs : o.sellToken = fee.token
    · rw [if_pos hs]; simp [hs]
    · rw [if_neg hs, feePaid_at hF (hpr o ho)]; simp [hs]
  rw [h1, ok_bind]
  dsimp only
  rw [List.filter_filter]
  have h2 : orders.filter (fun o => decide (o.buy > 0) && decide (o.sellToken = fee.token ∨ cfg.minAbsFee ≤ feeAt cfg prices fee o)) =
      orders.filter (fun o => decide (Paying cfg prices fee o)) := by
    refine List.filter_congr fun o _ => ?_
    unfold Paying
    rw [← Bool.decide_and]
  rw [h2]
  set kept := orders.filter (fun o => decide (Paying cfg prices fee o)) with hk
  have hkept : ∀ o ∈ kept, o ∈ orders ∧ 0 < o.buy := by
    intro o ho
    rw [hk, List.mem_filter, decide_eq_true_eq] at ho
    exact ⟨ho.1, ho.2.1⟩
  have h3 : mapE (fun o : Order => do
        let v ← o.volume prices
        pure (v, o)) kept = .ok (kept.map (fun o => (volumeAt prices o, o))) := by
    refine mapE_of_forall fun o ho => ?_
    rw [volume_eq (hpr o (hkept o ho).1)]; rfl
  rw [h3, ok_bind]
  set keyed := kept.map (fun o => (volumeAt prices o, o)) with hkd
  set byVol := (pySortByRev (fun x : ℚ × Order => x.1) keyed).map (·.2) with hbv
  have hperm : byVol.Perm kept := by
    have := (pySortByRev_perm (fun x : ℚ × Order => x.1) keyed).map (·.2)
    rw [hkd, List.map_map] at this
    rw [hbv, hkd]
    refine this.trans ?_
    rw [show ((fun x : ℚ × Order => x.2) ∘ fun o => (volumeAt prices o, o)) = id from rfl, List.map_id]
  have hsorted : byVol.Pairwise (fun o o' => volumeAt prices o' ≤ volumeAt prices o) := by
    have h4 := pySortByRev_pairwise (fun x : ℚ × Order => x.1) keyed
    rw [hbv, List.pairwise_map]
    refine h4.imp_of_mem ?_
    intro a b ha hb hab
    have ha' := (pySortByRev_perm (fun x : ℚ × Order => x.1) keyed).mem_iff.1 ha
    have hb' := (pySortByRev_perm (fun x : ℚ × Order => x.1) keyed).mem_iff.1 hb
    rw [hkd, List.mem_map] at ha' hb'
    obtain ⟨_, _, rfl⟩ := ha'
    obtain ⟨_, _, rfl⟩ := hb'
    exact hab
  obtain ⟨n, e, h5, _, h6, h7⟩ := viablePrefixLoop_spec (os := byVol) (fee := fee) hF
    (fun o ho => hpr o (hkept o (hperm.mem_iff.1 ho)).1) (fun o ho => (hkept o (hperm.mem_iff.1 ho)).2) (fuel := byVol.length + 1) (i := 1) (le_refl _)
    (by omega) (by omega) (fun j hj hj' => by omega)
  rw [e, ok_bind]
  refine ⟨byVol, n, hperm, hsorted, h5, h6, h7, ?_⟩
  generalize byVol.take n = os
  by_cases hall : ∃ t, ∀ o ∈ os, o.buyToken = t
  · refine .inl ⟨hall, ?_⟩
    obtain ⟨t, ht⟩ := hall
    cases os with
    | nil => rfl
    | cons o os =>
      have : ((o :: os).map (·.buyToken)).dedup.length = 1 := by
        have hrep : (o :: os).map (·.buyToken) = List.replicate (os.length + 1) t := by
          rw [List.eq_replicate_iff]
          simp only [List.length_map, List.length_cons, true_and]
          intro b hb
          obtain ⟨o', ho', rfl⟩ := List.mem_map.1 hb
          exact ht o' ho'
        rw [hrep, List.replicate_dedup (by omega)]; rfl
      rw [if_pos this]; rfl
  · refine .inr ⟨hall, ?_⟩
    rw [if_neg]
    · rfl
    · intro h1
      obtain ⟨t, ht⟩ := List.length_eq_one_iff.1 h1
      apply hall
      refine ⟨t, fun o ho => ?_⟩
      have : o.buyToken ∈ (os.map (·.buyToken)).dedup := List.mem_dedup.2 (List.mem_map_of_mem ho)
      rw [ht] at this
      simpa using this

/-- C47. The approximate viable subset uses every order at most once, keeps only executed orders that pay the absolute fee or sell the fee
token, and is empty or contains two different bought tokens. -/
theorem C47_subset {cfg : Config} {orders : List Order} {prices : Prices} {fee : Fee} (ht : ¬ (cfg.minAvgFee = 0 ∧ cfg.minAbsFee = 0))
    (hF : cfg.feeTokenPrice ≠ 0) (hpr : BuyPriced prices orders) :
    ∃ os, approxViableSubset cfg orders prices fee = .ok os ∧ List.Subperm os orders ∧ (∀ o ∈ os, Paying cfg prices fee o) ∧
      (os = [] ∨ ∃ o ∈ os, ∃ o' ∈ os, o.buyToken ≠ o'.buyToken) := by
  obtain ⟨byVol, n, hperm, _, _, _, _, ⟨_, e⟩ | ⟨hall, e⟩⟩ := C47_prefix ht hF hpr
  · exact ⟨_, e, List.nil_subperm, by simp, .inl rfl⟩
  · refine ⟨_, e, ((List.take_sublist n byVol).subperm.trans hperm.subperm).trans (List.filter_sublist).subperm, ?_, .inr ?_⟩
    · intro o ho
      have := hperm.mem_iff.1 (List.mem_of_mem_take ho)
      simpa using (List.mem_filter.1 this).2
    · cases hos : byVol.take n with
      | nil => exact absurd ⟨"", by simp [hos]⟩ hall
      | cons o l =>
        by_contra hno
        push Not at hno
        apply hall
        refine ⟨o.buyToken, fun o' ho' => ?_⟩
        rw [hos] at ho'
        exact (hno o (by simp) o' ho').symm

theorem take_sum_le {l : List ℚ} {a : ℚ} (h : ∀ x ∈ l, x ≤ a) (ha : 0 ≤ a) (k : ℕ) : (l.take (k + 1)).sum ≤ a + (l.take k).sum := by
  induction l generalizing k with
  | nil => simpa using ha
  | cons x l ih =>
    have hx := h x (by simp)
    have hl : ∀ y ∈ l, y ≤ a := fun y hy => h y (by simp [hy])
    cases k with
    | zero => simpa using hx
    | succ k =>
      have := ih hl k
      rw [List.take_succ_cons, List.take_succ_cons, List.sum_cons, List.sum_cons]
      linarith

theorem sublist_sum_le {S l : List ℚ} (hsub : S.Sublist l) (hs : l.Pairwise (fun a b => b ≤ a)) (h0 : ∀ x ∈ l, 0 ≤ x) :
    S.sum ≤ (l.take S.length).sum := by
  induction hsub with
  | slnil => simp
  | @cons S l a hsub ih =>
    rw [List.pairwise_cons] at hs
    have h1 := ih hs.2 (fun x hx => h0 x (by simp [hx]))
    cases S with
    | nil => simp
    | cons b S =>
      rw [List.length_cons, List.take_succ_cons, List.sum_cons (a := a)]
      exact h1.trans (take_sum_le hs.1 (h0 a (by simp)) S.length)
  | @cons_cons S l a hsub ih =>
    rw [List.pairwise_cons] at hs
    have h1 := ih hs.2 (fun x hx => h0 x (by simp [hx]))
    rw [List.length_cons, List.take_succ_cons, List.sum_cons, List.sum_cons]
    linarith

theorem prefix_sum_ge {l : List ℚ} (hs : l.Pairwise (fun a b => b ≤ a)) {m : ℚ} {j k : ℕ} (hjk : j ≤ k) (hk : k ≤ l.length)
    (h : k * m ≤ (l.take k).sum) : j * m ≤ (l.take j).sum := by
  by_contra hlt
  rw [not_le] at hlt
  have hex : ∃ x ∈ l.take j, x < m := by
    by_contra hno
    push Not at hno
    have := List.card_nsmul_le_sum (l.take j) m hno
    rw [List.length_take, min_eq_left (by omega), nsmul_eq_mul] at this
    linarith
  obtain ⟨x, hx, hxm⟩ := hex
  have hsplit : l.take k = l.take j ++ (l.drop j).take (k - j) := by
    rw [← List.take_append_drop j (l.take k), List.take_take, min_eq_left hjk, List.drop_take]
  have hrest : ((l.drop j).take (k - j)).sum ≤ ((k - j : ℕ) : ℚ) * m := by
    have := List.sum_le_card_nsmul ((l.drop j).take (k - j)) m (by
      intro y hy
      have hp : (l.take j ++ l.drop j).Pairwise (fun a b => b ≤ a) := by rw [List.take_append_drop]; exact hs
      exact ((List.pairwise_append.1 hp).2.2 x hx y (List.mem_of_mem_take hy)).trans hxm.le)
    rw [List.length_take, List.length_drop, min_eq_left (by omega), nsmul_eq_mul] at this
    exact this
  rw [hsplit, List.sum_append] at h
  have : ((k - j : ℕ) : ℚ) = k - j := by push_cast [hjk]; ring
  rw [this] at hrest
  linarith

/-- C47. The subset bounds the size of viable solutions: no choice of paying orders whose average fee meets the threshold has more
orders, unless the subset is empty because its orders all buy the same token. -/
theorem C47_size {cfg : Config} {orders os : List Order} {prices : Prices} {fee : Fee} (ht : ¬ (cfg.minAvgFee = 0 ∧ cfg.minAbsFee = 0))
    (hF : 0 < cfg.feeTokenPrice) (hpr : BuyPriced prices orders) (hp0 : ∀ o ∈ orders, 0 ≤ priceAt prices o.buyToken) (hf : 0 ≤ fee.value)
    (hr : approxViableSubset cfg orders prices fee = .ok os) (hne : os ≠ []) {S : List Order} (hS : S.Subperm orders)
    (hpay : ∀ o ∈ S, Paying cfg prices fee o) (hav : cfg.minAvgFee ≤ averageFee cfg prices fee S) : S.length ≤ os.length := by
  obtain ⟨byVol, n, hperm, hsort, hn, _, hstop, ⟨_, e⟩ | ⟨_, e⟩⟩ := C47_prefix ht hF.ne' hpr
  · rw [hr, Except.ok.injEq] at e
    exact absurd e hne
  rw [hr, Except.ok.injEq] at e
  subst e
  by_cases hS0 : S = []
  · simp [hS0]
  have hSsub : S.Subperm byVol := by
    refine List.Subperm.trans ?_ hperm.symm.subperm
    have h1 := hS.filter (fun o => decide (Paying cfg prices fee o))
    rwa [List.filter_eq_self.2 (by simpa using hpay)] at h1
  have hSlen := hSsub.length_le
  rw [List.length_take]
  by_contra hcon
  have hnS : n < S.length := by omega
  have hnb : n < byVol.length := by omega
  have h1 := hstop hnb
  have hFq : (0 : ℚ) < cfg.feeTokenPrice := by exact_mod_cast hF
  have hmem : ∀ o ∈ byVol, o ∈ orders ∧ 0 < o.buy := by
    intro o ho
    have := List.mem_filter.1 (hperm.mem_iff.1 ho)
    simp only [decide_eq_true_eq] at this
    exact ⟨this.1, this.2.1⟩
  have hfees : (byVol.map (feeAt cfg prices fee)).Pairwise (fun a b => b ≤ a) := by
    rw [List.pairwise_map]
    refine hsort.imp ?_
    intro a b hab
    unfold feeAt
    exact div_le_div_of_nonneg_right (mul_le_mul_of_nonneg_right hab hf) hFq.le
  have hfee0 : ∀ x ∈ byVol.map (feeAt cfg prices fee), 0 ≤ x := by
    intro x hx
    obtain ⟨o, ho, rfl⟩ := List.mem_map.1 hx
    have h2 := hmem o ho
    unfold feeAt volumeAt
    have := hp0 o h2.1
    have := h2.2.le
    positivity
  have hsum : (S.map (feeAt cfg prices fee)).sum ≤ ((byVol.map (feeAt cfg prices fee)).take S.length).sum := by
    obtain ⟨S', hp', hs'⟩ := hSsub
    have h3 := sublist_sum_le (hs'.map (feeAt cfg prices fee)) hfees hfee0
    rw [List.length_map, hp'.length_eq] at h3
    rw [← (hp'.map (feeAt cfg prices fee)).sum_eq]
    exact h3
  have hk : (S.length : ℚ) * cfg.minAvgFee ≤ ((byVol.map (feeAt cfg prices fee)).take S.length).sum := by
    refine le_trans ?_ hsum
    unfold averageFee at hav
    rw [le_div_iff₀ (by exact_mod_cast List.length_pos_iff.2 hS0)] at hav
    linarith
  have h4 := prefix_sum_ge hfees (j := n) hnS.le (by rw [List.length_map]; exact hSlen) hk
  unfold averageFee at h1
  rw [List.length_take, min_eq_left hnb.le, div_lt_iff₀ (by exact_mod_cast hn), List.map_take] at h1
  linarith

namespace ExSub

/-- An executed order of the given volume (at price 1). -/
def ord (id : String) (t : Token) (v : ℚ) : Order where
  accountId := some "a"
  id := id
  buyToken := t
  sellToken := "S"
  maxSell := v
  origMaxSell := v
  maxXrate := 1
  sell := v
  buy := v

def fee : Fee := ⟨"F", 1⟩
def prices : Prices := [("A", 1), ("B", 1), ("F", 1)]
def orders : List Order := [ord "1" "A" 15, ord "2" "A" 6, ord "3" "A" 6, ord "4" "B" 5]
def cfg : Config := { Config.default with minAvgFee := 10, feeTokenPrice := 1 }

end ExSub

/-- C47. The subset is not an over-approximation: orders 1 and 4 buy different tokens and meet both thresholds, yet the subset is empty. -/
theorem C47_not_overapproximation : approxViableSubset ExSub.cfg ExSub.orders ExSub.prices ExSub.fee = .ok [] ∧
    ∃ S, S.Sublist ExSub.orders ∧ MeetsThresholds ExSub.cfg ExSub.prices ExSub.fee S ∧ ∃ o ∈ S, ∃ o' ∈ S, o.buyToken ≠ o'.buyToken :=
  ⟨by decide +kernel, [ExSub.ord "1" "A" 15, ExSub.ord "4" "B" 5], by decide +kernel, by decide +kernel, by decide +kernel⟩

/-- C47. The subset need not meet the average threshold: it ends with the first order that breaks it. -/
theorem C47_not_viable : ∃ os, approxViableSubset ExSub.cfg [ExSub.ord "1" "A" 12, ExSub.ord "2" "B" 2, ExSub.ord "3" "B" 1] ExSub.prices ExSub.fee =
    .ok os ∧ os.map (·.id) = ["1", "2"] ∧ ¬ MeetsThresholds ExSub.cfg ExSub.prices ExSub.fee os :=
  ⟨[ExSub.ord "1" "A" 12, ExSub.ord "2" "B" 2], by decide +kernel, by decide +kernel, by decide +kernel⟩

example : ¬ (ExSub.cfg.minAvgFee = 0 ∧ ExSub.cfg.minAbsFee = 0) ∧ ExSub.cfg.feeTokenPrice ≠ 0 ∧ BuyPriced ExSub.prices ExSub.orders := by
  refine ⟨by decide, by decide, ?_⟩
  intro o ho
  have h : ∀ o ∈ ExSub.orders, ExSub.prices.find? (fun e => decide (e.1 = o.buyToken)) = some (o.buyToken, 1) := by decide +kernel
  exact ⟨1, _, h o ho, rfl⟩

/-- `C47_size` on the orders of `C47_not_viable`: the first order alone meets the thresholds. -/
example : ∃ os, approxViableSubset ExSub.cfg [ExSub.ord "1" "A" 12, ExSub.ord "2" "B" 2, ExSub.ord "3" "B" 1] ExSub.prices ExSub.fee = .ok os ∧
    os ≠ [] ∧ (∀ o ∈ [ExSub.ord "1" "A" 12], Paying ExSub.cfg ExSub.prices ExSub.fee o) ∧
    ExSub.cfg.minAvgFee ≤ averageFee ExSub.cfg ExSub.prices ExSub.fee [ExSub.ord "1" "A" 12] :=
  ⟨[ExSub.ord "1" "A" 12, ExSub.ord "2" "B" 2], by decide +kernel, by decide +kernel, by decide +kernel, by decide +kernel⟩

/-! ## C51 -/

namespace ExVia
/-- Default configuration except for a minimum average fee of 0.015 fee tokens. -/
def cfgAvg : Config := { Config.default with minAvgFee := 15 * 10 ^ 15 }
end ExVia

/-- C51. A minimum average fee can crash the solver: on the example instance with one order per side and one fee order, removing the
smallest order empties a side, and pruning then takes the maximum of an empty list. -/
theorem C51_threshold_crash : GoodInstance ExInst.inst ∧ CfgOk ExVia.cfgAvg ∧ (∀ E, MaxBranching E (ExInst.ext.branch E)) ∧
    tokenPairMain ExVia.cfgAvg ExInst.ext ExInst.inst ("B", "S") none = .error .valueError ∧
    bestTokenPairMain ExVia.cfgAvg ExInst.ext ExInst.inst (fun E => E.map (fun p => (p, false))) = .error .valueError :=
  ⟨ExInst.good, by constructor <;> decide, ExInst.branch_max, eq_error_of_pyRaises (by decide +kernel), eq_error_of_pyRaises (by decide +kernel)⟩

end Dex
