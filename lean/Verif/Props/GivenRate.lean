import Verif.Props.EconomicRun
import Verif.Model.Cli

/-! # Property C81: the exchange rate given by the user -/

namespace Dex

namespace Spec

/-- The prices of the two tokens are integers, and the second one is less than one unit away from the first one divided by the rate. -/
def RateHonoured (prices : Prices) (t u : Token) (x : ℚ) : Prop :=
  ∃ p q : ℤ, PriceOf prices t p ∧ PriceOf prices u q ∧ |(q : ℚ) - p / x| < 1

end Spec

open Spec

theorem sPrice_near {p x : ℚ} {b s : List Order} {fee : Fee} {q : ℤ} (h : computeSBuyTokenPrice p x b s fee = .ok q) :
    x ≠ 0 ∧ |(q : ℚ) - p / x| < 1 := by
  unfold computeSBuyTokenPrice at h
  simp only [bind_eq_ok, pyDiv_eq_ok] at h
  obtain ⟨_, ⟨hx, rfl⟩, _, _, _, _, _, _, _, _, h⟩ := h
  refine ⟨hx, ?_⟩
  have f1 := Int.floor_le (p / x)
  have f2 := Int.lt_floor_add_one (p / x)
  have c1 := Int.le_ceil (p / x)
  have c2 := Int.ceil_lt_add_one (p / x)
  split at h <;> cases h <;> rw [abs_lt] <;> constructor <;> linarith

/-- The rate used when one is given. -/
theorem solveTokenPair_given {cfg : Config} {sqrt : ℚ → Py ℚ} {pair : Token × Token} {b s b' s' : List Order} {fee : Fee} {x y : ℚ}
    {bp : Option ℚ} {n : ℤ} (h : solveTokenPair cfg sqrt pair b s fee (some x) bp n = .ok (some y, b', s')) :
    roundXrate (if pair.1 = fee.token then some (cfg.feeTokenPrice : ℚ) else bp) x b s fee = .ok y ∧
      computeBuyAmounts cfg y b s fee n = .ok (b', s') := by
  unfold solveTokenPair at h
  split at h
  · cases h
  · simp only [givenOrBestXrate, pure_eq_ok, ok_bind, bind_eq_ok] at h
    obtain ⟨z, h1, ⟨b1, s1⟩, h2, h⟩ := h
    cases h
    exact ⟨h1, h2⟩

theorem roundXrate_some {p x y : ℚ} {b s : List Order} {fee : Fee} (h : roundXrate (some p) x b s fee = .ok y) :
    ∃ q : ℤ, (q : ℚ) ≠ 0 ∧ y = p / q ∧ x ≠ 0 ∧ |(q : ℚ) - p / x| < 1 := by
  unfold roundXrate at h
  simp only [bind_eq_ok, pyDiv_eq_ok] at h
  obtain ⟨q, h1, h2, rfl⟩ := h
  obtain ⟨h3, h4⟩ := sPrice_near h1
  exact ⟨q, h2, rfl, h3, h4⟩

theorem aggregate_honours {cfg : Config} {ext : Ext} {pair : Token × Token} {bk : Books} {fee : Fee} {x : ℚ} {p q : ℤ} {r : Solution × List Order}
    (hne : pair.1 ≠ pair.2) (hq0 : (q : ℚ) ≠ 0) (hq : |(q : ℚ) - p / x| < 1)
    (h : aggregateAndRound cfg ext pair bk ((p : ℚ) / q) p fee = .ok r) : r.1 = .trivial ∨ RateHonoured r.1.prices pair.1 pair.2 x := by
  unfold aggregateAndRound aggregateOrdersPrices at h
  simp only [bind_eq_ok, pyDiv_eq_ok] at h
  obtain ⟨⟨os, ps⟩, ⟨z, ⟨hz, rfl⟩, h1⟩, ⟨ok, os'⟩, _, h2⟩ := h
  cases h1
  dsimp only at h2
  split at h2
  · cases h2
    right
    have e : (p : ℚ) / (p / q) = q := by
      have : (p : ℚ) ≠ 0 := fun e => hz (by rw [e, zero_div])
      field_simp
    refine ⟨p, q, ?_, ?_, hq⟩
    · refine priceOf_iff.2 ?_
      rw [dictGet?_dictSet, if_neg hne.symm, dictGet?_dictSet, if_pos rfl]
    · refine priceOf_iff.2 ?_
      rw [dictGet?_dictSet, if_pos rfl, e]
  · cases h2; exact .inl rfl

theorem givenExecF_rate {cfg : Config} {sqrt : ℚ → Py ℚ} {n : ℕ} {imb : ℚ} {pair : Token × Token} {bk : Books} {x : ℚ} {fee : Fee}
    {r : GivenResult} {p : ℤ} (hF : pair.1 ≠ fee.token) (h : givenExecF cfg sqrt n imb pair bk x fee = .ok r) (hp : r.bPrice = some p) :
    ∃ q : ℤ, (q : ℚ) ≠ 0 ∧ r.xrate = p / q ∧ |(q : ℚ) - p / x| < 1 := by
  unfold givenExecF at h
  rw [bind_eq_ok] at h
  obtain ⟨⟨p', fT⟩, _, h⟩ := h
  dsimp only at h
  split at h
  · cases h; cases hp
  · rw [bind_eq_ok] at h
    obtain ⟨⟨xo, b', s'⟩, h2, h⟩ := h
    cases xo with
    | none => cases h
    | some y =>
      dsimp only at h
      rw [bind_eq_ok] at h
      obtain ⟨obj, _, h⟩ := h
      cases h
      cases hp
      unfold solveBuffered at h2
      simp only [bind_eq_ok] at h2
      obtain ⟨⟨b1, s1⟩, _, ⟨xo, b2, s2⟩, h3, b3, _, s3, _, h4⟩ := h2
      cases h4
      obtain ⟨h5, _⟩ := solveTokenPair_given h3
      rw [if_neg hF] at h5
      obtain ⟨q, q0, e, _, hq⟩ := roundXrate_some h5
      exact ⟨q, q0, e, hq⟩

theorem fOrdersLoop_rate {cfg : Config} {sqrt : ℚ → Py ℚ} {imb : ℚ} {pair : Token × Token} {x : ℚ} {fee : Fee} {ns : List ℕ}
    {st st' : FLoopState} (hF : pair.1 ≠ fee.token)
    (h0 : ∀ g p, st.best = some g → g.bPrice = some p → ∃ q : ℤ, (q : ℚ) ≠ 0 ∧ g.xrate = p / q ∧ |(q : ℚ) - p / x| < 1)
    (h : fOrdersLoop cfg sqrt imb pair x fee ns st = .ok st') :
    ∀ g p, st'.best = some g → g.bPrice = some p → ∃ q : ℤ, (q : ℚ) ≠ 0 ∧ g.xrate = p / q ∧ |(q : ℚ) - p / x| < 1 := by
  induction ns generalizing st with
  | nil => cases h; exact h0
  | cons n ns ih =>
    unfold fOrdersLoop at h
    rw [bind_eq_ok] at h
    obtain ⟨r, hr, h⟩ := h
    have hnew : ∀ g p, some r = some g → g.bPrice = some p → ∃ q : ℤ, (q : ℚ) ≠ 0 ∧ g.xrate = p / q ∧ |(q : ℚ) - p / x| < 1 := by
      rintro g p e hp
      cases e
      exact givenExecF_rate hF hr hp
    split at h
    · exact ih (st := { st with books := r.books }) h0 h
    · split at h
      · split at h
        · cases h; exact h0
        · rw [bind_eq_ok] at h
          obtain ⟨_, _, h⟩ := h
          exact ih hnew h
      · exact ih hnew h

theorem solveOriented_rate {cfg : Config} {ext : Ext} {pair : Token × Token} {b s f : List Order} {fee : Fee} {x : ℚ} {r : MatchResult}
    (hne : pair.1 ≠ pair.2) (h : solveOriented cfg ext pair b s f fee (some x) = .ok r) :
    r.sol = .trivial ∨ RateHonoured r.sol.prices pair.1 pair.2 x := by
  unfold solveOriented at h
  rw [bind_eq_ok] at h
  obtain ⟨⟨xo, b1, s1⟩, h1, h⟩ := h
  dsimp only at h
  split at h
  · cases h; exact .inl rfl
  cases xo with
  | none => cases h
  | some y =>
    obtain ⟨h2, _⟩ := solveTokenPair_given h1
    dsimp only at h
    split at h
    · rename_i hF
      rw [if_pos hF] at h2
      obtain ⟨q, q0, rfl, _, hq⟩ := roundXrate_some h2
      rw [bind_eq_ok] at h
      obtain ⟨⟨sol, os⟩, h3, h⟩ := h
      cases h
      exact aggregate_honours (p := cfg.feeTokenPrice) hne q0 hq h3
    · rename_i hF
      rw [if_neg hF] at h2
      cases h2
      split at h
      · cases h; exact .inl rfl
      rw [bind_eq_ok] at h
      obtain ⟨imb, _, h⟩ := h
      rw [bind_eq_ok] at h
      obtain ⟨⟨mn, mx⟩, _, h⟩ := h
      dsimp only at h
      split at h
      · cases h; exact .inl rfl
      rw [bind_eq_ok] at h
      obtain ⟨st, h3, h⟩ := h
      have h4 := fOrdersLoop_rate hF (fun g p e => by cases e) h3
      split at h
      · cases h; exact .inl rfl
      · rename_i best hb
        split at h
        · cases h; exact .inl rfl
        · rename_i p hp
          obtain ⟨q, q0, e, hq⟩ := h4 best p hb hp
          rw [bind_eq_ok] at h
          obtain ⟨⟨sol, os⟩, h5, h⟩ := h
          cases h
          rw [e] at h5
          exact aggregate_honours hne q0 hq h5

/-- C81. If a rate is given, the prices found honour it: the price of the second token is less than one unit away from the price of the
first one divided by the rate. If the second token of the pair is the fee token the roles of the tokens are exchanged. -/
theorem C81_matching {cfg : Config} {ext : Ext} {pair : Token × Token} {b s f : List Order} {fee : Fee} {x : ℚ} {r : MatchResult}
    (hne : pair.1 ≠ pair.2) (h : solveTokenPairAndFee cfg ext pair b s f fee (some x) = .ok r) :
    r.sol = .trivial ∨ (pair.2 ≠ fee.token ∧ RateHonoured r.sol.prices pair.1 pair.2 x) ∨
      (pair.2 = fee.token ∧ RateHonoured r.sol.prices pair.2 pair.1 x) := by
  unfold solveTokenPairAndFee at h
  rw [bind_eq_ok] at h
  obtain ⟨⟨b', s'⟩, _, h⟩ := h
  dsimp only at h
  split at h
  · cases h; exact .inl rfl
  split at h
  · rename_i hF
    rw [bind_eq_ok] at h
    obtain ⟨r', h1, h⟩ := h
    cases h
    exact (solveOriented_rate (pair := (pair.2, pair.1)) hne.symm h1).imp_right fun h => .inr ⟨hF, h⟩
  · rename_i hF
    rw [bind_eq_ok] at h
    obtain ⟨r', h1, h⟩ := h
    cases h
    exact (solveOriented_rate hne h1).imp_right fun h => .inl ⟨hF, h⟩

/-- What holds of the trivial solution and of every matching holds of the result of the search for an economically viable solution. -/
theorem economicLoop_all {cfg : Config} {ext : Ext} {pair : Token × Token} {fee : Fee} {xrate : Option ℚ} {P : Solution → Prop}
    (h0 : P .trivial) (hP : ∀ b s f r, solveTokenPairAndFee cfg ext pair b s f fee xrate = .ok r → P r.sol) (fuel : ℕ) {bk : Books}
    {gone : List Order} {cur : Solution} (hc : P cur) {res : Solution × List Order}
    (h : economicLoop cfg ext pair fee xrate fuel bk gone cur = .ok res) : P res.1 := by
  induction fuel generalizing bk gone cur with
  | zero => cases h
  | succ n ih =>
    unfold economicLoop at h
    split at h
    · rw [bind_eq_ok] at h
      obtain ⟨r, hr, h⟩ := h
      have hr' := hP _ _ _ _ hr
      simp only [bind_eq_ok] at h
      obtain ⟨v, _, h⟩ := h
      split at h
      · cases h; exact hr'
      · rw [bind_eq_ok] at h
        obtain ⟨sub, _, h⟩ := h
        split at h
        · cases h; exact h0
        · simp only [bind_eq_ok] at h
          obtain ⟨bm, _, sm, _, pb, _, ps, _, h⟩ := h
          split at h
          · exact ih hr' h
          · exact ih hr' h
    · cases h; exact hc

theorem solveEconomicViable_all {cfg : Config} {ext : Ext} {pair : Token × Token} {accounts : Accounts} {b s f : List Order} {fee : Fee}
    {xrate : Option ℚ} {P : Solution → Prop} (h0 : P .trivial)
    (hP : ∀ b s f r, solveTokenPairAndFee cfg ext pair b s f fee xrate = .ok r → P r.sol) {res : Solution × List Order}
    (h : solveEconomicViable cfg ext pair accounts b s f fee xrate = .ok res) : P res.1 := by
  unfold solveEconomicViable at h
  simp only [bind_eq_ok] at h
  obtain ⟨⟨sol, objs⟩, h1, _, _, h⟩ := h
  cases h
  exact economicLoop_all h0 hP _ h0 h1

theorem tokenPairMain_all {cfg : Config} {ext : Ext} {inst : Instance} {pair : Token × Token} {xrate : Option ℚ} {P : Solution → Prop}
    (h0 : P .trivial) (hF : pair.2 ≠ inst.fee.token →
      ∀ b s f r, solveTokenPairAndFee cfg ext pair b s f inst.fee xrate = .ok r → P r.sol) {d : Dump}
    (h : tokenPairMain cfg ext inst pair xrate = .ok d) : ∃ sol, P sol ∧ dumpSolution inst sol = .ok d := by
  unfold tokenPairMain at h
  rw [bind_eq_ok] at h
  obtain ⟨⟨accounts, bk, fee⟩, h1, h⟩ := h
  rw [bind_eq_ok] at h
  obtain ⟨⟨sol, objs⟩, h2, h3⟩ := h
  unfold loadPairProblem at h1
  simp only [bind_eq_ok, pyAssert_eq_ok, exists_and_left, exists_const] at h1
  obtain ⟨_, _, _, _, hf, h1⟩ := h1
  cases h1
  exact ⟨sol, solveEconomicViable_all h0 (hF hf) h2, h3⟩

theorem dump_prices {inst : Instance} {sol : Solution} {d : Dump} (h : dumpSolution inst sol = .ok d) : d.prices = sol.prices := by
  unfold dumpSolution at h
  simp only [bind_eq_ok] at h
  obtain ⟨_, _, _, _, _, _, h⟩ := h
  cases h; rfl

/-- C81. The command `token-pair T U --xrate x` writes no prices or prices that honour the rate `x`. -/
theorem C81_command {base : Config} {ext : Ext} {inst : Instance} {a : Args} {shuffle : List (Token × Token) → List (Token × Token)}
    {elapsed : ℕ → ℚ} {d : Dump} {pair : Token × Token} {x : ℚ} (hne : pair.1 ≠ pair.2) (ha : a.command = some (.tokenPair pair (some x)))
    (h : matchMain base ext inst a shuffle elapsed = .ok d) : d.prices = [] ∨ RateHonoured d.prices pair.1 pair.2 x := by
  unfold matchMain at h
  rw [ha] at h
  obtain ⟨sol, hs, hd⟩ := tokenPairMain_all (P := fun sol => sol = .trivial ∨ RateHonoured sol.prices pair.1 pair.2 x) (.inl rfl)
    (fun hF b s f r hr => (C81_matching hne hr).imp_right fun h => (h.resolve_right fun h => hF h.1).2) h
  rw [dump_prices hd]
  rcases hs with rfl | hs
  · exact .inl rfl
  · exact .inr hs

/-- C81. For a positive rate and positive prices this says how close the rate of the prices is to the given one. -/
theorem C81_close {prices : Prices} {t u : Token} {x : ℚ} (hx : 0 < x) (h : RateHonoured prices t u x) {pt pu : ℚ}
    (ht : PriceOf prices t pt) (hu : PriceOf prices u pu) (h0 : 0 < pu) : |pt / pu - x| < x / pu := by
  obtain ⟨p, q, h1, h2, h3⟩ := h
  obtain rfl := priceOf_unique ht h1
  obtain rfl := priceOf_unique hu h2
  have e : (p : ℚ) / q - x = (p / x - q) * (x / q) := by field_simp
  rw [e, abs_mul, abs_of_pos (div_pos hx h0), abs_sub_comm]
  exact mul_lt_of_lt_one_left (div_pos hx h0) h3

/-! ## Rates that are not positive -/

theorem computeBuyAmounts_neg {cfg : Config} {x : ℚ} {b s b' s' : List Order} {fee : Fee} {n : ℤ} (hm : 0 < cfg.minRationalTradable)
    (hf : fee.value < 1) (hx : x < 0) (h : computeBuyAmounts cfg x b s fee n = .ok (b', s')) : countNrExec b' = 0 := by
  have hm' : (0 : ℚ) < cfg.minRationalTradable := by exact_mod_cast hm
  unfold computeBuyAmounts at h
  rw [bind_eq_ok] at h
  obtain ⟨⟨b1, s1⟩, _, h⟩ := h
  rw [bind_eq_ok] at h
  obtain ⟨⟨b2, s2⟩, h2, h⟩ := h
  have hb2 : b2 = [] := by
    unfold filterMinTradable at h2
    simp only [bind_eq_ok] at h2
    obtain ⟨b3, h3, s3, _, h2⟩ := h2
    cases h2
    rw [List.eq_nil_iff_forall_not_mem]
    intro o ho
    have := ((filterE_mem h3).1 ho).2
    split at this
    · rename_i hge
      unfold bBuyFromBMaxSell bBuyFromBSell at this
      rw [pyDiv_of_ne hx.ne, ok_bind, pure_eq_ok, ok_bind, pure_eq_ok, Except.ok.injEq, decide_eq_true_iff] at this
      have : o.maxSell / x * (1 - fee.value) < 0 :=
        mul_neg_of_neg_of_pos (div_neg_of_pos_of_neg (by linarith) hx) (by linarith)
      linarith
    · cases this
  dsimp only at h
  rw [if_pos (.inl (by rw [hb2]; rfl))] at h
  cases h
  refine countNrExec_zero fun o ho => ?_
  obtain ⟨c, _, rfl⟩ := List.mem_map.1 ho
  rfl

theorem solveOriented_nonpos {cfg : Config} {ext : Ext} {pair : Token × Token} {b s f : List Order} {fee : Fee} {x : ℚ} {r : MatchResult}
    (hm : 0 < cfg.minRationalTradable) (hP : 0 < cfg.feeTokenPrice) (hf : fee.value < 1) (hx : x ≤ 0)
    (h : solveOriented cfg ext pair b s f fee (some x) = .ok r) : r.sol = .trivial := by
  have hP' : (0 : ℚ) < cfg.feeTokenPrice := by exact_mod_cast hP
  unfold solveOriented at h
  rw [bind_eq_ok] at h
  obtain ⟨⟨xo, b1, s1⟩, h1, h⟩ := h
  dsimp only at h
  split at h
  · cases h; rfl
  rename_i hc
  cases xo with
  | none => cases h
  | some y =>
    exfalso
    have hlen : ¬ (b.length = 0 ∨ s.length = 0) := by
      intro hl
      unfold solveTokenPair at h1
      rw [if_pos hl] at h1
      cases h1
    obtain ⟨h2, h3⟩ := solveTokenPair_given h1
    have hy : y < 0 := by
      split at h2
      · obtain ⟨q, q0, rfl, x0, hq⟩ := roundXrate_some h2
        have : (cfg.feeTokenPrice : ℚ) / x < 0 := div_neg_of_pos_of_neg hP' (lt_of_le_of_ne hx x0)
        rw [abs_lt] at hq
        have q1 : (q : ℚ) < 1 := by linarith
        have q2 : q < 1 := by exact_mod_cast q1
        have q3 : q ≠ 0 := by rintro rfl; exact q0 (by simp)
        have q4 : (q : ℚ) < 0 := by exact_mod_cast (by omega : q < 0)
        exact div_neg_of_pos_of_neg hP' q4
      · cases h2
        refine lt_of_le_of_ne hx ?_
        rintro rfl
        unfold computeBuyAmounts filterMaxXrate at h3
        simp only [bind_eq_ok] at h3
        obtain ⟨_, ⟨s2, h4, _⟩, _⟩ := h3
        cases s with
        | nil => exact hlen (.inr rfl)
        | cons o s =>
          simp only [List.map_cons, filterE, bind_eq_ok, pyDiv_eq_ok] at h4
          obtain ⟨_, ⟨_, ⟨h5, _⟩, _⟩, _⟩ := h4
          exact h5 rfl
    exact hc (computeBuyAmounts_neg hm hf hy h3)

/-- C81. A rate that is not positive never leads to a trade. -/
theorem C81_not_positive {base : Config} {ext : Ext} {inst : Instance} {a : Args} {shuffle : List (Token × Token) → List (Token × Token)}
    {elapsed : ℕ → ℚ} {d : Dump} {pair : Token × Token} {x : ℚ} (hm : 0 < base.minRationalTradable) (hP : 0 < base.feeTokenPrice)
    (hf : inst.fee.value < 1) (ha : a.command = some (.tokenPair pair (some x))) (hx : x ≤ 0)
    (h : matchMain base ext inst a shuffle elapsed = .ok d) : d.prices = [] ∧ d.orders = [] ∧ d.accounts = inst.accounts := by
  have hm' : 0 < (a.config base).minRationalTradable := by unfold Args.config; split <;> exact hm
  have hP' : 0 < (a.config base).feeTokenPrice := by unfold Args.config; split <;> exact hP
  unfold matchMain at h
  rw [ha] at h
  obtain ⟨sol, rfl, hd⟩ := tokenPairMain_all (P := fun sol => sol = .trivial) rfl
    (fun _ b s f r hr => by
      unfold solveTokenPairAndFee at hr
      rw [bind_eq_ok] at hr
      obtain ⟨⟨b', s'⟩, _, hr⟩ := hr
      dsimp only at hr
      split at hr
      · cases hr; rfl
      rw [bind_eq_ok] at hr
      obtain ⟨r', h1, hr⟩ := hr
      cases hr
      exact (solveOriented_nonpos hm' hP' hf hx h1 :)) h
  have : dumpSolution inst .trivial = .ok { prices := [], accounts := inst.accounts, objVals := {}, orders := [] } := rfl
  rw [this] at hd
  cases hd
  exact ⟨rfl, rfl, rfl⟩

/-! ## The direct call with the fee token second -/

/-- C81. Called directly with the fee token as second token of the pair, the solver takes the given rate for the reciprocal one: the
price of the fee token divided by the price of the other token comes out as the rate given for the opposite quotient. -/
theorem C81_not_inverted : ∃ (cfg : Config) (ext : Ext) (pair : Token × Token) (b s : List Order) (fee : Fee) (x : ℚ) (r : MatchResult),
    SearchInput cfg fee b s ∧ pair.2 = fee.token ∧ 0 < x ∧ solveTokenPairAndFee cfg ext pair b s [] fee (some x) = .ok r ∧
      0 < nrExecuted r.sol.orders ∧ RateHonoured r.sol.prices pair.2 pair.1 x ∧ ¬ RateHonoured r.sol.prices pair.1 pair.2 x := by
  obtain ⟨r, hr, h1, h2⟩ := exists_of_pyCheck
    (x := solveTokenPairAndFee Config.default ExOut.ext ("S", "F") ExOut.sF ExOut.bF [] ExOut.fee (some (3 / 2)))
    (p := fun r : MatchResult => 0 < nrExecuted r.sol.orders ∧ r.sol.prices = [("F", 10 ^ 18), ("S", 666666666666666666)]) (by decide +kernel)
  refine ⟨Config.default, ExOut.ext, ("S", "F"), ExOut.sF, ExOut.bF, ExOut.fee, 3 / 2, r, by constructor <;> decide +kernel, rfl, by norm_num, hr, h1, ?_, ?_⟩
  · rcases C81_matching (by decide) hr with h | ⟨h, _⟩ | ⟨_, h⟩
    · rw [h] at h1; exact absurd h1 (by decide)
    · exact absurd rfl h
    · exact h
  · rintro ⟨p, q, g1, g2, g3⟩
    rw [h2] at g1 g2
    have e1 : (p : ℚ) = 666666666666666666 := priceOf_unique g1 ⟨("S", 666666666666666666), by decide +kernel, rfl⟩
    have e2 : (q : ℚ) = 10 ^ 18 := priceOf_unique g2 ⟨("F", 10 ^ 18), by decide +kernel, rfl⟩
    rw [e1, e2] at g3
    norm_num at g3

/-- A run with a given rate and executed orders on a pair with the fee token. -/
example : ∃ r, solveTokenPairAndFee Config.default ExOut.ext ("F", "S") ExOut.bF ExOut.sF [] ExOut.fee (some (3 / 2)) = .ok r ∧
    nrExecuted r.sol.orders = 3 :=
  exists_of_pyCheck (p := fun r : MatchResult => nrExecuted r.sol.orders = 3) (by decide +kernel)

/-- The command with a given rate on a pair without the fee token: all three orders are executed and the price of S is rounded. -/
example : ∃ d, matchMain Config.default ExInst.ext ExInst.inst { command := some (.tokenPair ("B", "S") (some (7 / 5))) } id (fun _ => 0) = .ok d ∧
    d.orders.length = 3 ∧ RateHonoured d.prices "B" "S" (7 / 5) ∧ |1998000000000000000 / 1427142857142857142 - (7 / 5 : ℚ)| < 7 / 5 / 1427142857142857142 := by
  obtain ⟨d, h1, h2, h3⟩ := exists_of_pyCheck
    (x := matchMain Config.default ExInst.ext ExInst.inst { command := some (.tokenPair ("B", "S") (some (7 / 5))) } id (fun _ => 0))
    (p := fun d : Dump => d.orders.length = 3 ∧ d.prices = [("F", 1000000000000000000), ("B", 1998000000000000000), ("S", 1427142857142857142)])
    (by decide +kernel)
  have h4 := (C81_command (pair := ("B", "S")) (by decide) rfl h1).resolve_left (by rw [h3]; decide)
  refine ⟨d, h1, h2, h4, ?_⟩
  rw [h3] at h4
  exact C81_close (by norm_num) h4 ⟨("B", 1998000000000000000), by decide +kernel, rfl⟩ ⟨("S", 1427142857142857142), by decide +kernel, rfl⟩ (by norm_num)

/-- For examples that end with an exception. -/
theorem eq_error_of_check {α : Type} {x : Py α} {e : PyErr} (h : (match x with | .ok _ => false | .error e' => decide (e' = e)) = true) : x = .error e := by
  cases x with
  | ok a => cases h
  | error e' => rw [of_decide_eq_true h]

/-- Negative rates are accepted by the command line, and no order is executed; the rate zero raises an exception. -/
example : (∃ d, matchMain Config.default ExInst.ext ExInst.inst { command := some (.tokenPair ("B", "S") (some (-1))) } id (fun _ => 0) = .ok d) ∧
    matchMain Config.default ExInst.ext ExInst.inst { command := some (.tokenPair ("B", "S") (some 0)) } id (fun _ => 0) = .error .zeroDivision := by
  refine ⟨?_, eq_error_of_check (by decide +kernel)⟩
  obtain ⟨d, h, _⟩ := exists_of_pyCheck
    (x := matchMain Config.default ExInst.ext ExInst.inst { command := some (.tokenPair ("B", "S") (some (-1))) } id (fun _ => 0))
    (p := fun _ : Dump => True) (by decide +kernel)
  exact ⟨d, h⟩

end Dex
