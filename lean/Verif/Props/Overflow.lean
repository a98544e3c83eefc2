import Verif.Proof.Bounded
import Verif.Props.Closed

/-! # Property C112: amounts for which no floating-point function fails -/

namespace Dex

namespace Spec

/-- At most `N` orders; each sells a whole number of units, at most `M`, and asks for at most `M`. -/
structure Sized (M : ℚ) (N : ℕ) (inst : Instance) : Prop where
  number : inst.orders.length ≤ N
  whole : ∀ d ∈ inst.orders, IsInt d.sellAmount
  sell : ∀ d ∈ inst.orders, d.sellAmount ≤ M
  buy : ∀ d ∈ inst.orders, d.buyAmount ≤ M

/-- What is left of `CoreFailure` if the square root and the division do not fail. -/
def ShapeFailure (e : PyErr) : Prop := e = .zeroDivision ∨ e = .assertion "xrate.py:439" ∨ e = .assertion "xrate.py:440"

end Spec

open Spec

/-! ### Loading -/

theorem restrict_int {accounts : Accounts} (hb : NonnegBalances accounts) (hi : IntBalances accounts) {orders r : List Order} (ho : ∀ o ∈ orders, IsInt o.maxSell)
    (h : restrictOrderSellAmounts orders accounts = .ok r) : r.length ≤ orders.length ∧ ∀ o ∈ r, IsInt o.maxSell := by
  unfold restrictOrderSellAmounts at h
  obtain ⟨st, h1, h2⟩ := bind_eq_ok.1 h
  cases h2
  have hacc : ∀ o : Order, IsInt (accountBalance accounts o.accountId o.sellToken) := by
    intro o
    rw [accountBalance_eq]
    unfold backing
    split
    · exact isInt_intCast 0
    · exact (balanceOf_int hb hi _ _).2
  have hperm := sortedByExecPriority_perm orders
  have := foldE_invariant (P := fun st l => (∀ o ∈ l, IsInt o.maxSell) ∧ (∀ k v, dictGet? st.1 k = some v → IsInt v) ∧ (∀ o ∈ st.2, IsInt o.maxSell) ∧
      st.2.length + l.length ≤ orders.length) h1
    ⟨fun o h => ho o (hperm.mem_iff.1 h), by simp, by simp, by simp [hperm.length_eq]⟩ ?_
  · exact ⟨by simpa using this.2.2.2, this.2.2.1⟩
  rintro st o l st' ⟨p1, p2, p3, p4⟩ hstep
  rw [List.length_cons] at p4
  have hrem : ∀ k v, dictGet? (initRemaining accounts st.1 o) k = some v → IsInt v := by
    intro k v hv
    unfold initRemaining at hv
    split at hv
    · exact p2 k v hv
    · rw [dictGet?_dictSet] at hv
      split at hv
      · cases hv; exact hacc o
      · exact p2 k v hv
  unfold restrictStep at hstep
  dsimp only at hstep
  obtain ⟨bal, hbal, hstep⟩ := bind_eq_ok.1 hstep
  have hbi := hrem _ _ (dictGet_eq_ok.1 hbal)
  have hmi := p1 o (by simp)
  have hmin : IsInt (min o.maxSell bal) := by rcases min_choice o.maxSell bal with h | h <;> rw [h] <;> assumption
  split at hstep
  · cases hstep
    exact ⟨fun x hx => p1 x (by simp [hx]), hrem, p3, by dsimp only; omega⟩
  · obtain ⟨_, _, hstep⟩ := bind_eq_ok.1 hstep
    obtain ⟨_, _, hstep⟩ := bind_eq_ok.1 hstep
    obtain ⟨o', ho', hstep⟩ := bind_eq_ok.1 hstep
    cases hstep
    unfold Order.setMaxSell at ho'
    obtain ⟨_, _, ho'⟩ := bind_eq_ok.1 ho'
    cases ho'
    refine ⟨fun x hx => p1 x (by simp [hx]), ?_, ?_, by simp; omega⟩
    · intro k v hv
      rw [dictGet?_dictSet] at hv
      split at hv
      · cases hv
        obtain ⟨z1, e1⟩ := isInt_iff.1 hbi
        obtain ⟨z2, e2⟩ := isInt_iff.1 hmin
        exact isInt_iff.2 ⟨z1 - z2, by rw [e2, e1]; push_cast; ring⟩
      · exact hrem k v hv
    · intro x hx
      rcases List.mem_append.1 hx with hx | hx
      · exact p3 x hx
      · rw [List.mem_singleton] at hx; subst hx; exact hmin

theorem loaded_small {cfg : Config} {inst : Instance} {accounts : Accounts} {orders : List Order} {fee : Fee} {M : ℚ} {N : ℕ} (hm : 0 < cfg.minTradable)
    (hM : (cfg.minTradable : ℚ) ≤ M) (hi : GoodInstance inst) (hz : Sized M N inst) (h : loadProblem cfg inst = .ok (accounts, orders, fee)) :
    SmallPool M N orders := by
  have hm1 : (1 : ℚ) ≤ cfg.minTradable := by exact_mod_cast hm
  have h' := h
  unfold loadProblem at h'
  rw [loadOrdersFrom_eq hm, ok_bind] at h'
  obtain ⟨r, hr, h'⟩ := bind_eq_ok.1 h'
  cases h'
  obtain ⟨r1, r2⟩ := restrict_int hi.balances hi.ints (fun o ho => by
    obtain ⟨k, hk, rfl⟩ := List.mem_mapIdx.1 ho
    exact hz.whole _ (List.getElem_mem hk)) hr
  have key : ∀ o ∈ orders, 1 ≤ o.maxSell ∧ o.maxSell ≤ M ∧ 1 / M ≤ o.maxXrate ∧ o.maxXrate ≤ M := by
    intro o ho
    obtain ⟨k, d, hd, _, _, _, _, h1, h2, _, h4, _⟩ := C02_load_problem hm hi.balances hi.sell h ho
    have hd' : d ∈ inst.orders := List.mem_of_getElem? hd
    have h5 := hz.sell d hd'
    have h6 := hz.buy d hd'
    have one : 1 ≤ o.maxSell := by
      obtain ⟨z, e⟩ := isInt_iff.1 (r2 o ho)
      rw [e] at h1 ⊢
      exact_mod_cast h1
    have hmax : 1 ≤ max (cfg.minTradable : ℚ) d.buyAmount := hm1.trans (le_max_left _ _)
    have hmax' : max (cfg.minTradable : ℚ) d.buyAmount ≤ M := max_le hM h6
    refine ⟨one, h2.trans h5, ?_, ?_⟩
    · rw [h4]
      exact div_le_div₀ (by linarith) (by linarith) (by linarith) hmax'
    · rw [h4]
      exact (div_le_self (by linarith) hmax).trans h5
  refine ⟨r1.trans ?_, hm1.trans hM, fun o ho => ⟨(key o ho).1, (key o ho).2.1⟩, fun o ho => (key o ho).2.2⟩
  rw [List.length_mapIdx]; exact hz.number

/-! ### The final check -/

theorem validate_agree {cfg : Config} {fdiv fdiv' : ℚ → ℕ → Py ℚ} {accounts : Accounts} {orders : List Order} {prices : Prices} {fee : Fee} {B : ℚ}
    (h : ValInput cfg accounts orders prices fee) (ha : ∀ q n, 0 ≤ q → q ≤ B → 0 < n → fdiv q n = fdiv' q n) (hB : imbal orders fee.token ≤ B) :
    validate cfg fdiv accounts orders prices fee = validate cfg fdiv' accounts orders prices fee := by
  unfold validate
  refine bind_congr' fun _ _ => ?_
  dsimp only
  by_cases hnr : countNrExec orders = 0
  · rw [if_pos hnr, if_pos hnr]
  rw [if_neg hnr, if_neg hnr]
  obtain ⟨accs, ea, ra, ka⟩ := accountTable_spec (accounts := accounts) (tokens := dictKeys prices) (orders := orders)
    (fun o ho => known_iff.1 (h.known o ho))
  obtain ⟨_, v2⟩ := validateFold (cfg := cfg) (tokens := dictKeys prices) (orders := orders)
    (st := { balances := (dictKeys prices).map (fun t => (t, (0 : ℚ))), accs })
    ⟨DRep_init (dictKeys prices) (fun _ => 0), ra⟩
    (fun o ho => ⟨(priced_keys (h.priced o ho)).1, (priced_keys (h.priced o ho)).2, (ka _).2 ⟨o, ho, rfl⟩⟩)
  have hkey : fee.token ∈ dictKeys prices := by
    obtain ⟨p, hp, e⟩ := h.feePriced; exact List.mem_map.2 ⟨p, hp, e⟩
  refine bind_congr' fun _ _ => ?_
  rw [ea, ok_bind, ok_bind]
  refine bind_congr' fun st hst => bind_congr' fun _ hck => bind_congr' fun total ht => ?_
  obtain ⟨_, hv⟩ := v2 st hst
  rw [checkBalances_iff, hv.bal.forall h.keys (fun t v => (t = fee.token → 0 ≤ v) ∧ (t ≠ fee.token → v = 0))] at hck
  rw [dictGet_eq_ok, hv.bal.2 _ hkey] at ht
  have h0 := (hck _ hkey).1 rfl
  simp only [zero_add, Option.some.injEq] at h0 ht
  subst ht
  rw [ha _ _ h0 hB (Nat.pos_of_ne_zero hnr)]

theorem imbal_le_small {cfg : Config} {M : ℚ} {N : ℕ} {pool : List Order} {fee : Fee} {sol : Solution} (hs : SmallPool M N pool)
    (hg : GoodSolution cfg fee pool sol) (t : Token) : imbal sol.orders t ≤ N * M := by
  unfold imbal
  have h1 : 0 ≤ bought sol.orders t := map_sum_nonneg fun o ho => (hg.amounts o (List.mem_of_mem_filter ho)).2.1
  have h2 : sold sol.orders t ≤ (sol.orders.map (·.sell)).sum :=
    map_sum_subperm List.filter_sublist.subperm fun o ho => (hg.amounts o ho).2.2.2
  have h3 : (sol.orders.map (·.sell)).sum ≤ (sol.orders.map (·.maxSell)).sum :=
    List.sum_le_sum fun o ho => (hg.constraints o ho).maxSell
  have h4 := (hs.sums hg.der hg.ids).1
  linarith

/-! ### The solvers -/

/-- The functions cut off at a bound. -/
def cappedExt (ext : Ext) (T B : ℚ) : Ext :=
  { ext with sqrt := fun t => if t ≤ T then ext.sqrt t else .ok 0, fdiv := fun q n => if q ≤ B then ext.fdiv q n else .ok 0 }

theorem viable_agree {cfg : Config} {M : ℚ} {N : ℕ} {ext : Ext} {pair : Token × Token} {accounts : Accounts} {b s f pool : List Order} {fee : Fee}
    {xrate : Option ℚ} (hc : CfgOk cfg) (h0 : 0 ≤ fee.value) (h1 : fee.value < 1) (hf : FeeOk cfg fee) (hne : pair.1 ≠ pair.2)
    (hbr : ∀ E, MaxBranching E (ext.branch E)) (hx : ∀ y, xrate = some y → 0 < y) (hp : Pool pool) (hk : Backed accounts pool) (hs : SmallPool M N pool)
    (hb : BookOf pool pair fee { b, s, f }) :
    solveEconomicViable cfg ext pair accounts b s f fee xrate =
      solveEconomicViable cfg (cappedExt ext (rootBound cfg M N) (N * M)) pair accounts b s f fee xrate := by
  unfold solveEconomicViable
  have hin : AgreeInput cfg M N pool fee ext.sqrt (cappedExt ext (rootBound cfg M N) (N * M)).sqrt :=
    ⟨fun t _ ht => (if_pos ht).symm, hp, hc, hs, h0, h1, hf.max⟩
  rw [economicLoop_agree (fdiv' := (cappedExt ext (rootBound cfg M N) (N * M)).fdiv) hin hbr hne hx hb]
  refine bind_congr' fun r hr => ?_
  obtain ⟨sol, objs⟩ := r
  dsimp only
  obtain ⟨g, _⟩ := economicLoop_spec (ext := cappedExt ext (rootBound cfg M N) (N * M)) hp hc h1 hne hbr hx hb (by simp) (.inl rfl) hr
  congr 1
  rcases g with rfl | hg
  · rw [validate_trivial, validate_trivial]
  · refine validate_agree (B := N * M) ⟨hg.keys, hg.priced, hg.feePriced, ?_, by have := hc.minPos; omega, hc.feePrice.ne'⟩
      (fun q n _ hq _ => (if_pos hq).symm) (imbal_le_small hs hg _)
    intro o ho
    obtain ⟨a, ha, e⟩ := hg.der o ho
    have := hk.known a ha
    unfold SameButExec at e
    rw [e]; exact this

theorem match_agree {cfg : Config} {M : ℚ} {N : ℕ} {ext : Ext} {pair : Token × Token} {accounts : Accounts} {orders pool : List Order} {fee : Fee}
    (hc : CfgOk cfg) (h0 : 0 ≤ fee.value) (h1 : fee.value < 1) (hf : FeeOk cfg fee) (hne : pair.1 ≠ pair.2)
    (hbr : ∀ E, MaxBranching E (ext.branch E)) (hp : Pool pool) (hk : Backed accounts pool) (hz : SmallPool M N pool)
    (hs : List.Forall₂ SameButExec pool orders) :
    matchTokenPair cfg ext pair accounts orders fee = matchTokenPair cfg (cappedExt ext (rootBound cfg M N) (N * M)) pair accounts orders fee := by
  unfold matchTokenPair
  dsimp only
  rw [show (if pair.1 ≠ fee.token then ordersBuyingSelling orders pair.1 fee.token else []) = feeOrdersFor orders pair fee from rfl,
    viable_agree hc h0 h1 hf hne hbr (by simp) hp hk hz (bookOf_pair hp hs pair fee)]

theorem bestLoop_capped {cfg : Config} {M : ℚ} {N : ℕ} {ext : Ext} {inst : Instance} {pool : List Order} (hc : CfgOk cfg) (hi : GoodInstance inst)
    (hf : FeeOk cfg inst.fee) (hbr : ∀ E, MaxBranching E (ext.branch E)) (hl : LoadedPool cfg inst pool) (hz : SmallPool M N pool)
    {visits : List ((Token × Token) × Bool)} {st : BestState} (hv : ∀ v ∈ visits, v.1.1 ≠ v.1.2) (hs : List.Forall₂ SameButExec pool st.orders) :
    bestLoop cfg ext inst.accounts inst.fee visits st = bestLoop cfg (cappedExt ext (rootBound cfg M N) (N * M)) inst.accounts inst.fee visits st := by
  induction visits generalizing st with
  | nil => rfl
  | cons v visits ih =>
    obtain ⟨pair, stop⟩ := v
    have hne : pair.1 ≠ pair.2 := hv (pair, stop) (by simp)
    unfold bestLoop matchAndEvaluate
    rw [← match_agree hc hi.feePos.le hi.feeLt hf hne hbr hl.wf hl.backed hz hs]
    refine bind_congr' fun r hr => ?_
    obtain ⟨obj, sol, orders'⟩ := r
    dsimp only
    simp only [bind_eq_ok] at hr
    obtain ⟨⟨sol', orders''⟩, h2, acc, _, obj', _, e⟩ := hr
    cases e
    obtain ⟨g1, _⟩ := matchTokenPair_spec hc hi.feeLt hne hbr hl.wf hs h2
    split
    · rfl
    · refine ih (fun v hv' => hv v (by simp [hv'])) ?_
      split <;> exact g1

theorem tokenPairMain_agree {cfg : Config} {M : ℚ} {N : ℕ} {ext : Ext} {inst : Instance} {pair : Token × Token} {xrate : Option ℚ} (hc : CfgOk cfg)
    (hM : (cfg.minTradable : ℚ) ≤ M) (hi : GoodInstance inst) (hz : Sized M N inst) (hf : FeeOk cfg inst.fee) (hne : pair.1 ≠ pair.2)
    (hbr : ∀ E, MaxBranching E (ext.branch E)) (hx : ∀ y, xrate = some y → 0 < y) :
    tokenPairMain cfg ext inst pair xrate = tokenPairMain cfg (cappedExt ext (rootBound cfg M N) (N * M)) inst pair xrate := by
  have hm : 0 < cfg.minTradable := by have := hc.minPos; omega
  obtain ⟨orders, hload, _⟩ := C01_load_problem (cfg := cfg) hm hi.balances hi.sell
  obtain ⟨hp, hk, _, _⟩ := loaded_pool hm hi.balances hi.ints hi.sell hload
  have hs := loaded_small hm hM hi hz hload
  unfold loadProblem at hload
  simp only [bind_eq_ok] at hload
  obtain ⟨os, l1, os', l2, l3⟩ := hload
  cases l3
  unfold tokenPairMain loadPairProblem
  rw [l1, ok_bind, l2, ok_bind]
  refine bind_congr' fun r hr => ?_
  obtain ⟨_, _, hr⟩ := bind_eq_ok.1 hr
  cases hr
  dsimp only
  rw [viable_agree hc hi.feePos.le hi.feeLt hf hne hbr hx hp hk hs (bookOf_filter hp (forall₂_same_refl _) pair inst.fee _ (.inl rfl))]

theorem bestTokenPairMain_agree {cfg : Config} {M : ℚ} {N : ℕ} {ext : Ext} {inst : Instance} {shuffle : List (Token × Token) → List ((Token × Token) × Bool)}
    (hc : CfgOk cfg) (hM : (cfg.minTradable : ℚ) ≤ M) (hi : GoodInstance inst) (hz : Sized M N inst) (hf : FeeOk cfg inst.fee)
    (hbr : ∀ E, MaxBranching E (ext.branch E)) (hsh : ∀ E, ∀ v ∈ shuffle E, v.1 ∈ E) :
    bestTokenPairMain cfg ext inst shuffle = bestTokenPairMain cfg (cappedExt ext (rootBound cfg M N) (N * M)) inst shuffle := by
  have hm : 0 < cfg.minTradable := by have := hc.minPos; omega
  obtain ⟨orders, hload, _⟩ := C01_load_problem (cfg := cfg) hm hi.balances hi.sell
  obtain ⟨hl, _, _⟩ := loadedPool hm hi.balances hi.ints hi.sell hload
  unfold bestTokenPairMain bestTokenPair
  rw [hload, ok_bind, ok_bind]
  dsimp only
  rw [bestLoop_capped hc hi hf hbr hl (loaded_small hm hM hi hz hload) (fun v hv => eligible_ne (hsh _ v hv)) (forall₂_same_refl _)]

/-- With the functions cut off, only the failures of the search are left. -/
theorem coreFailure_capped {ext : Ext} {T B : ℚ} (hs : ∀ t, 0 ≤ t → t ≤ T → ∃ r, ext.sqrt t = .ok r)
    (hd : ∀ q n, 0 ≤ q → q ≤ B → 0 < n → ∃ r, ext.fdiv q n = .ok r) {e : PyErr} (h : CoreFailure (cappedExt ext T B) e) : ShapeFailure e := by
  rcases h with (h | h | h | ⟨t, h1, h2⟩) | ⟨q, n, h1, h2, h3⟩
  · exact .inl h
  · exact .inr (.inl h)
  · exact .inr (.inr h)
  · unfold cappedExt at h2
    dsimp only at h2
    split at h2
    · rename_i ht
      obtain ⟨r, hr⟩ := hs t h1 ht
      rw [hr] at h2; cases h2
    · cases h2
  · unfold cappedExt at h3
    dsimp only at h3
    split at h3
    · rename_i hq
      obtain ⟨r, hr⟩ := hd q n h1 hq h2
      rw [hr] at h3; cases h3
    · cases h3

theorem capped_nonneg {ext : Ext} {T B : ℚ} (hd : ∀ q n r, 0 ≤ q → 0 < n → ext.fdiv q n = .ok r → 0 ≤ r) :
    ∀ q n r, 0 ≤ q → 0 < n → (cappedExt ext T B).fdiv q n = .ok r → 0 ≤ r := by
  intro q n r h1 h2 h3
  unfold cappedExt at h3
  dsimp only at h3
  split at h3
  · exact hd q n r h1 h2 h3
  · cases h3; exact le_refl _

/-- C112. The token-pair command on an instance of bounded size, with a square root and a division that succeed up to the bounds: what is left of C111. -/
theorem C112_token_pair {cfg : Config} {M : ℚ} {N : ℕ} {ext : Ext} {inst : Instance} {pair : Token × Token} {xrate : Option ℚ} (hc : CfgOk cfg)
    (hM : (cfg.minTradable : ℚ) ≤ M) (hi : GoodInstance inst) (hz : Sized M N inst) (hf : FeeOk cfg inst.fee) (hne : pair.1 ≠ pair.2)
    (hbr : ∀ E, MaxBranching E (ext.branch E)) (hd : ∀ q n r, 0 ≤ q → 0 < n → ext.fdiv q n = .ok r → 0 ≤ r) (hx : ∀ y, xrate = some y → 0 < y)
    (hs : ∀ t, 0 ≤ t → t ≤ 2 * M * (2 * (N * M) + cfg.minRationalTradable + N * (M * M)) → ∃ r, ext.sqrt t = .ok r)
    (hq : ∀ q n, 0 ≤ q → q ≤ N * M → 0 < n → ∃ r, ext.fdiv q n = .ok r) {e : PyErr} (he : tokenPairMain cfg ext inst pair xrate = .error e) :
    ShapeFailure e ∨ (pair.2 = inst.fee.token ∧ e = .assertion "token_pair_solver/api.py:35") ∨
      (¬ ZeroThresholds cfg ∧ ThresholdFailure cfg e) ∨ (EmptySide cfg inst pair ∧ e = .valueError) := by
  rw [tokenPairMain_agree hc hM hi hz hf hne hbr hx] at he
  rcases C111_token_pair (ext := cappedExt ext (rootBound cfg M N) (N * M)) hc hi hf hne hbr (capped_nonneg hd) hx he with h | h
  · exact .inl (coreFailure_capped hs hq h)
  · exact .inr h

/-- C112. The same for the best-token-pair command. -/
theorem C112_best_pair {cfg : Config} {M : ℚ} {N : ℕ} {ext : Ext} {inst : Instance} {shuffle : List (Token × Token) → List ((Token × Token) × Bool)}
    (hc : CfgOk cfg) (hM : (cfg.minTradable : ℚ) ≤ M) (hi : GoodInstance inst) (hz : Sized M N inst) (hf : FeeOk cfg inst.fee)
    (hbr : ∀ E, MaxBranching E (ext.branch E)) (hd : ∀ q n r, 0 ≤ q → 0 < n → ext.fdiv q n = .ok r → 0 ≤ r) (hsh : ∀ E, ∀ v ∈ shuffle E, v.1 ∈ E)
    (hs : ∀ t, 0 ≤ t → t ≤ 2 * M * (2 * (N * M) + cfg.minRationalTradable + N * (M * M)) → ∃ r, ext.sqrt t = .ok r)
    (hq : ∀ q n, 0 ≤ q → q ≤ N * M → 0 < n → ∃ r, ext.fdiv q n = .ok r) {e : PyErr} (he : bestTokenPairMain cfg ext inst shuffle = .error e) :
    ShapeFailure e ∨ (¬ ZeroThresholds cfg ∧ ThresholdFailure cfg e) := by
  rw [bestTokenPairMain_agree hc hM hi hz hf hbr hsh] at he
  rcases C111_best_pair (ext := cappedExt ext (rootBound cfg M N) (N * M)) hc hi hf hbr (capped_nonneg hd) hsh he with h | h
  · exact .inl (coreFailure_capped hs hq h)
  · exact .inr h

/-! ### The program -/

theorem pyTrueDiv_total {q : ℚ} {n : ℕ} (h0 : 0 ≤ q) (h : q ≤ 2 ^ (1023 : ℤ)) (hn : 0 < n) : ∃ r, pyTrueDiv q n = .ok r := by
  have n1 : (1 : ℚ) ≤ n := by exact_mod_cast hn
  unfold pyTrueDiv
  rw [if_neg hn.ne']
  cases hx : toDouble (q / n) with
  | ok x => exact ⟨x, rfl⟩
  | error e =>
    have := toDouble_error hx
    subst this
    have := ((C107_float_overflow (div_nonneg h0 (by linarith))).1 hx).trans ((div_le_self h0 n1).trans h)
    exact absurd this (by decide +kernel)

/-- C112. The program as delivered, on a valid instance with at most `2 ^ 64` orders and amounts of at most `2 ^ 256`: it does not end with `OverflowError`. -/
theorem C112_no_overflow {w : World} (h : StdWorld w) {inst : Instance} (hi : GoodInstance inst) (hz : Sized (2 ^ 256) (2 ^ 64) inst)
    (hf : FeeOk Config.default inst.fee) {a : Args} (hg : GoodCommand a) :
    matchMain w.base w.ext inst a w.shuffle w.elapsed ≠ .error .overflow := by
  intro he
  have hw := C111_world h
  have hc : CfgOk (a.config w.base) := Args.config_ok hw.cfg
  have hd : ∀ q n r, 0 ≤ q → 0 < n → w.ext.fdiv q n = .ok r → 0 ≤ r := by
    rw [h.fdiv]; exact fun q n r => pyTrueDiv_nonneg
  have c1 : (a.config w.base).minTradable = 10000 := by rw [h.base]; unfold Args.config; split <;> rfl
  have c2 : (a.config w.base).minRationalTradable = 10009 := by rw [h.base]; unfold Args.config; split <;> rfl
  have hf' : FeeOk (a.config w.base) inst.fee := ⟨by rw [c1]; exact hf.min, hf.max⟩
  have hM : ((a.config w.base).minTradable : ℚ) ≤ 2 ^ 256 := by rw [c1]; decide +kernel
  have hs : ∀ t, 0 ≤ t → t ≤ 2 * (2 ^ 256) * (2 * (((2 ^ 64 : ℕ) : ℚ) * 2 ^ 256) + (a.config w.base).minRationalTradable + ((2 ^ 64 : ℕ) : ℚ) * (2 ^ 256 * 2 ^ 256)) →
      ∃ r, w.ext.sqrt t = .ok r := by
    intro t h0 ht
    rw [h.sqrt]
    rw [c2] at ht
    exact C107_sqrt_total h0 (ht.trans (by decide +kernel))
  have hq : ∀ q n, 0 ≤ q → q ≤ ((2 ^ 64 : ℕ) : ℚ) * 2 ^ 256 → 0 < n → ∃ r, w.ext.fdiv q n = .ok r := by
    intro q n h0 hq hn
    rw [h.fdiv]
    exact pyTrueDiv_total h0 (hq.trans (by decide +kernel)) hn
  unfold matchMain at he
  split at he
  · cases he
  · rename_i pair xrate hn
    obtain ⟨g1, g2⟩ := hg pair xrate hn
    rcases C112_token_pair hc hM hi hz hf' g1 hw.branch hd g2 hs hq he with (h1 | h1 | h1) | ⟨_, h1⟩ | ⟨_, h1 | ⟨_, h1⟩⟩ | ⟨_, h1⟩ <;> cases h1
  · rcases C112_best_pair hc hM hi hz hf' hw.branch hd (timed_subset hw a) hs hq he with (h1 | h1 | h1) | ⟨_, h1 | ⟨_, h1⟩⟩ <;> cases h1

/-- C112. The same for a whole run, from the words of the command line and the files: with the hypotheses of C111 and the bounds on the sizes, the run does not end
with `OverflowError`. -/
theorem C112_run {w : World} (hw : StdWorld w) {files : Files} {gs gs' : List Given} (h : ∀ g ∈ gs ++ gs', g.Ok)
    (ha : ∀ g ∈ gs ++ gs', Acceptable g.option g.text) {f : String} (hf : Plain f) {text : List Char} {t : PyVal} {inst : Instance} (hfile : files f = some text)
    (ht : JsonText text t) (hinst : InstanceOf (pyConv pyFloat) t inst) (hi : GoodInstance inst) (hz : Sized (2 ^ 256) (2 ^ 64) inst)
    (hfee : FeeOk Config.default inst.fee) {sub : Sub} (hsub : sub.Ok) (hx : ∀ g ∈ sub.given, ∃ q, FractionText g.text.toList q) {argv : List String}
    (hargv : argv = gs.flatMap Given.words ++ f :: (gs'.flatMap Given.words ++ sub.words)) (hwr : Writable (pyConv pyFloat) t (solverVal w argv))
    (hcan : w.canWrite ((lastText .solution (gs ++ gs')).getD w.tempFile) = true) :
    ∃ p, Says (gs ++ gs') p ∧ SaysCommand sub p.args.command ∧ (GoodCommand p.args → (program w files argv).1 ≠ .error (.py .overflow)) := by
  rw [← hw.conv] at hinst hwr
  obtain ⟨p, h1, h2, h3⟩ := C103_command_line (C111_world hw) h ha hf hfile ht hinst hi hsub hx hargv
  refine ⟨p, h1, h2, fun hg => ?_⟩
  obtain ⟨h4, h5⟩ := h3 hg
  cases hm : matchMain w.base w.ext inst p.args w.shuffle w.elapsed with
  | error e =>
    rw [h4 e hm]
    intro he
    have he : e = .overflow := by simpa using he
    exact C112_no_overflow hw hi hz hfee hg (he ▸ hm)
  | ok d =>
    obtain ⟨_, _, k3⟩ := h5 d hm
    obtain ⟨k4, _⟩ := k3 hwr hcan
    rw [k4]; simp

/-- The example instance is of this size, and meets the other hypotheses. -/
example : StdWorld ExClosed.world ∧ GoodInstance ExInst.inst ∧ Sized (2 ^ 256) (2 ^ 64) ExInst.inst ∧ FeeOk Config.default ExInst.inst.fee ∧
    GoodCommand { command := some (.tokenPair ("B", "S") none) } :=
  ⟨ExClosed.std, ExInst.good, ⟨by decide +kernel, by decide +kernel, by decide +kernel, by decide +kernel⟩, ⟨by decide +kernel, by decide +kernel⟩,
    fun pair xrate hp => by cases hp; exact ⟨by decide, by simp⟩⟩

/-- The bound on the amounts is needed: the instance with amounts of up to `10 ^ 410` meets all other hypotheses, with two orders, and the run ends with
`OverflowError`. -/
theorem C112_size_needed : ∃ w inst a, StdWorld w ∧ GoodInstance inst ∧ FeeOk Config.default inst.fee ∧ GoodCommand a ∧ Sized (10 ^ 410) 2 inst ∧
    matchMain w.base w.ext inst a w.shuffle w.elapsed = .error .overflow :=
  ⟨ExClosed.world, ExClosed.instHuge, { command := some (.tokenPair ("F", "S") none) }, ExClosed.std,
    ⟨by decide +kernel, by decide +kernel, by decide +kernel, by decide +kernel, by decide +kernel, by decide +kernel, by decide +kernel⟩,
    ⟨by decide +kernel, by decide +kernel⟩, fun pair xrate hp => by cases hp; exact ⟨by decide, by simp⟩,
    ⟨by decide +kernel, by decide +kernel, by decide +kernel, by decide +kernel⟩, eq_error_of_pyRaises (x := ExClosed.run _ _) (by decide +kernel)⟩

end Dex
