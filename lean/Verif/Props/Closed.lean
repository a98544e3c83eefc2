import Verif.Props.FloatText
import Verif.Props.UnitTests
import Verif.Props.Program

/-! # Property C111: how a run with the libraries as modelled can end -/

namespace Dex

namespace Spec

/-- The program as delivered: the values of core/config.py, `Fraction`, `int` and `float` as in Python, `math.sqrt` and `/` in double precision, a maximum
branching from networkx, some permutation from `random.shuffle`, and any times. -/
structure StdWorld (w : World) : Prop where
  base : w.base = Config.default
  conv : w.conv = pyConv pyFloat
  sqrt : w.ext.sqrt = pySqrt
  fdiv : w.ext.fdiv = pyTrueDiv
  branch : ∀ E, MaxBranching E (w.ext.branch E)
  shuffle : ∀ E, (w.shuffle E).Perm E
  runtime : IsJsonLeaf w.runtime

/-- What the solvers can raise whatever the thresholds are: a division by zero, a shape assertion of the binary search, or what the square root or the
floating-point division raise. -/
def CoreFailure (ext : Ext) (e : PyErr) : Prop := SearchFailure ext.sqrt e ∨ ∃ q n, 0 ≤ q ∧ 0 < n ∧ ext.fdiv q n = .error e

/-- What they can raise in addition because of a threshold: `ValueError`, and with a positive minimum average fee the assertion on the average fee. The assertion
on the fee of each order (validation.py:77) is not in the list. -/
def ThresholdFailure (cfg : Config) (e : PyErr) : Prop := e = .valueError ∨ (0 < cfg.minAvgFee ∧ e = .assertion "validation.py:74")

/-- No threshold is set. -/
def ZeroThresholds (cfg : Config) : Prop := cfg.minAvgFee = 0 ∧ cfg.minAbsFee = 0

/-- Exactly one of the lists is empty. -/
def OneEmpty (b s : List Order) : Prop := (b = [] ∧ s ≠ []) ∨ (b ≠ [] ∧ s = [])

/-- Exactly one side of the pair is empty after loading. -/
def EmptySide (cfg : Config) (inst : Instance) (pair : Token × Token) : Prop :=
  ∃ bk, loadPairProblem cfg inst pair = .ok (inst.accounts, bk, inst.fee) ∧ OneEmpty bk.b bk.s

/-- What a caller of the solvers provides: a configuration, and a fee of at most about five percent that amounts to one unit for the least amount traded. -/
structure FeeOk (cfg : Config) (fee : Fee) : Prop where
  min : 1 ≤ fee.value * cfg.minTradable
  max : 9 / 10 ≤ (1 - fee.value) ^ 2

/-- The exceptions of a run on a valid instance. -/
inductive RunError (cfg : Config) (inst : Instance) (a : Args) : PyErr → Prop
  | zeroDivision : RunError cfg inst a .zeroDivision
  | shapeLeft : RunError cfg inst a (.assertion "xrate.py:439")
  | shapeRight : RunError cfg inst a (.assertion "xrate.py:440")
  | overflow : RunError cfg inst a .overflow
  | feeSecond (pair : Token × Token) (xrate : Option ℚ) : a.command = some (.tokenPair pair xrate) → pair.2 = inst.fee.token →
      RunError cfg inst a (.assertion "token_pair_solver/api.py:35")
  | threshold : a.minAvgFee ≠ 0 ∨ absThreshold a ≠ 0 → RunError cfg inst a .valueError
  | average : 0 < a.minAvgFee → RunError cfg inst a (.assertion "validation.py:74")
  | emptySide (pair : Token × Token) (xrate : Option ℚ) : a.command = some (.tokenPair pair xrate) → EmptySide cfg inst pair →
      RunError cfg inst a .valueError

end Spec

open Spec

/-! ### The final check -/

theorem allE_all {α : Type} {p : α → Py Bool} {l : List α} (h : ∀ a ∈ l, p a = .ok true) : allE p l = .ok true := by
  induction l with
  | nil => rfl
  | cons a l ih =>
    unfold allE
    rw [h a (List.mem_cons_self ..), ok_bind, if_pos rfl]
    exact ih fun x hx => h x (List.mem_cons_of_mem _ hx)

theorem anyE_false {α : Type} {p : α → Py Bool} {l : List α} (h : anyE p l = .ok false) : ∀ a ∈ l, p a = .ok false := by
  induction l with
  | nil => simp
  | cons a l ih =>
    unfold anyE at h
    obtain ⟨b, h1, h2⟩ := bind_eq_ok.1 h
    cases b
    · intro x hx
      rcases List.mem_cons.1 hx with rfl | hx
      · exact h1
      · exact ih (by simpa using h2) x hx
    · cases h2

/-- In a solution that the viability check accepts, each order pays the least fee, if the fees are nonnegative. -/
theorem fees_of_viable {cfg : Config} {orders : List Order} {prices : Prices} {fee : Fee} (hn : countNrExec orders ≠ 0)
    (h : isEconomicViable cfg orders prices fee = .ok true) {o : Order} (ho : o ∈ orders.filter (fun o : Order => decide (o.sellToken ≠ fee.token ∧ o.buy > 0)))
    {v : ℚ} (hv : o.feePaid cfg prices fee = .ok v) (h0 : 0 ≤ v) : cfg.minAbsFee ≤ v := by
  unfold isEconomicViable at h
  rw [if_neg hn] at h
  split at h
  · rename_i hz; rw [hz.2]; exact h0
  obtain ⟨bad, h1, h2⟩ := bind_eq_ok.1 h
  cases bad
  · have := anyE_false h1 o ho
    rw [hv, ok_bind] at this
    exact not_lt.1 (of_decide_eq_false (Except.ok.inj this))
  · cases h2

/-- A solution that passes the viability check, and the final check without thresholds and with exact division, fails the final check only in the division or in
the average fee. -/
theorem only_validate_any {cfg : Config} {fdiv : ℚ → ℕ → Py ℚ} {accounts : Accounts} {orders : List Order} {prices : Prices} {fee : Fee}
    (hd : ∀ q n r, 0 ≤ q → 0 < n → fdiv q n = .ok r → 0 ≤ r)
    (h : validate { cfg with minAvgFee := 0, minAbsFee := 0 } (fun q n => .ok (q / n)) accounts orders prices fee = .ok ())
    (hE : countNrExec orders = 0 ∨ isEconomicViable cfg orders prices fee = .ok true) :
    Only (fun e => (∃ q n, 0 ≤ q ∧ 0 < n ∧ fdiv q n = .error e) ∨ (0 < cfg.minAvgFee ∧ e = .assertion "validation.py:74")) (validate cfg fdiv accounts orders prices fee) := by
  unfold validate at h ⊢
  obtain ⟨_, h1, h⟩ := bind_eq_ok.1 h
  rw [h1, ok_bind]
  dsimp only at h ⊢
  by_cases hz : countNrExec orders = 0
  · rw [if_pos hz]; exact only_pure _
  rw [if_neg hz] at h ⊢
  obtain ⟨_, h2, h⟩ := bind_eq_ok.1 h
  obtain ⟨accs, h3, h⟩ := bind_eq_ok.1 h
  obtain ⟨st, h4, h⟩ := bind_eq_ok.1 h
  obtain ⟨_, h5, h⟩ := bind_eq_ok.1 h
  obtain ⟨total, h6, h⟩ := bind_eq_ok.1 h
  rw [ok_bind] at h
  obtain ⟨_, h8, h⟩ := bind_eq_ok.1 h
  obtain ⟨ok, h9, h⟩ := bind_eq_ok.1 h
  obtain ⟨_, h10, h11⟩ := bind_eq_ok.1 h
  have hn : 0 < countNrExec orders := Nat.pos_of_ne_zero hz
  have ht : 0 ≤ total := by
    have h8 := pyAssert_eq_ok.1 h8
    have n0 : (0 : ℚ) < countNrExec orders := by exact_mod_cast hn
    by_contra hc
    exact absurd h8 (not_le.2 (div_neg_of_neg_of_pos (not_le.1 hc) n0))
  have h4' : foldE (validateStep cfg) { balances := (dictKeys prices).map (fun t => (t, (0 : ℚ))), accs } orders = .ok st := h4
  rw [h2, ok_bind, h3, ok_bind, h4', ok_bind, h5, ok_bind, h6, ok_bind]
  refine only_bind (fun e he => .inl ⟨total, _, ht, hn, he⟩) fun avg h7 => ?_
  have ha := hd _ _ _ ht hn h7
  refine only_bind ?_ fun _ _ => ?_
  · intro e he
    unfold pyAssert at he
    split at he
    · cases he
    · rename_i hlt
      cases he
      exact .inr ⟨lt_of_not_ge fun hm => hlt (hm.trans ha), rfl⟩
  rw [pyAssert_eq_ok.1 h10] at h9
  have hv : ∀ o ∈ orders.filter (fun o : Order => decide (o.sellToken ≠ fee.token ∧ o.buy > 0)), ∃ v, o.feePaid cfg prices fee = .ok v ∧ 0 ≤ v := by
    intro o ho
    obtain ⟨v, hv, h0⟩ := bind_eq_ok.1 (allE_true h9 o ho)
    exact ⟨v, hv, of_decide_eq_true (Except.ok.inj h0)⟩
  have hE := hE.resolve_left hz
  rw [allE_all (fun o ho => by
    obtain ⟨v, hv, h0⟩ := hv o ho
    rw [hv, ok_bind]
    exact congrArg Except.ok (decide_eq_true (fees_of_viable hz hE ho hv h0))), ok_bind]
  rw [h11]
  intro e he; cases he

/-! ### The solvers -/

theorem only_viable_any {cfg : Config} {ext : Ext} {pair : Token × Token} {accounts : Accounts} {b s f pool : List Order} {fee : Fee} {xrate : Option ℚ}
    (hc : CfgOk cfg) (h0 : 0 ≤ fee.value) (h1 : fee.value < 1) (hf : FeeOk cfg fee) (hne : pair.1 ≠ pair.2) (hbr : ∀ E, MaxBranching E (ext.branch E))
    (hd : ∀ q n r, 0 ≤ q → 0 < n → ext.fdiv q n = .ok r → 0 ≤ r) (hx : ∀ y, xrate = some y → 0 < y)
    (hp : Pool pool) (hk : Backed accounts pool) (hb : BookOf pool pair fee { b, s, f }) :
    Only (fun e => CoreFailure ext e ∨ (¬ ZeroThresholds cfg ∧ ThresholdFailure cfg e) ∨ (OneEmpty b s ∧ e = .valueError))
      (solveEconomicViable cfg ext pair accounts b s f fee xrate) := by
  have hc0 : CfgOk { cfg with minAvgFee := 0, minAbsFee := 0 } := ⟨hc.minPos, hc.slack, hc.limit, hc.feePrice, hc.volume, hc.error⟩
  unfold solveEconomicViable
  refine only_bind ?_ fun r hr => ?_
  · by_cases hz : ZeroThresholds cfg ∧ b ≠ [] ∧ s ≠ []
    · rw [economicLoop_single hz.1.1 hz.1.2 hz.2.1]
      refine only_bind (fun e he => .inl (.inl ?_)) fun _ _ => only_pure _
      exact only_solveTokenPairAndFee hp hc h1 hf.max hb hne hbr hx hz.2.1 hz.2.2 e he
    · intro e he
      rcases C55_any_thresholds hp hc h1 hf.max hne hbr hx hb he with h | h
      · exact .inl (.inl h)
      · by_cases h0 : ZeroThresholds cfg
        · refine .inr (.inr ⟨?_, h⟩)
          by_cases hb0 : b = [] <;> by_cases hs0 : s = []
          · subst hb0 hs0
            unfold economicLoop at he
            simp only [List.length_nil, lt_self_iff_false, or_self, if_false, gt_iff_lt] at he
            cases he
          · exact .inl ⟨hb0, hs0⟩
          · exact .inr ⟨hb0, hs0⟩
          · exact absurd ⟨h0, hb0, hs0⟩ hz
        · exact .inr (.inl ⟨h0, .inl h⟩)
  obtain ⟨sol, objs⟩ := r
  dsimp only
  refine only_bind (fun e he => ?_) fun _ _ => only_pure _
  obtain ⟨g, _⟩ := economicLoop_spec hp hc h1 hne hbr hx hb (by simp) (.inl rfl) hr
  have hv : validate { cfg with minAvgFee := 0, minAbsFee := 0 } (fun q n => .ok (q / n)) accounts sol.orders sol.prices fee = .ok () := by
    rcases g with rfl | hg
    · exact validate_trivial
    · have hg0 : GoodSolution { cfg with minAvgFee := 0, minAbsFee := 0 } fee pool sol :=
        ⟨hg.keys, hg.intPrices, hg.feePriced, hg.priced, hg.ids, hg.der, hg.onPrice, hg.amounts,
          fun o ho => ⟨(hg.constraints o ho).limit, (hg.constraints o ho).maxSell, (hg.constraints o ho).minBuy, (hg.constraints o ho).minSell⟩,
          hg.balanced, hg.feeToken, hg.count, hg.sellDet, hg.exec, hg.feePrice⟩
      obtain ⟨g1, g2⟩ := validate_good (ext := { ext with fdiv := fun q n => .ok (q / n) }) hp hk hc0
        ⟨rfl, rfl, fun q n h _ => ⟨_, rfl, div_nonneg h (Nat.cast_nonneg _)⟩⟩ h0 hf.min hg0
      exact (C30_validate_iff g1).2 ⟨fun p hp => (hg.intPrices p hp).2, g2⟩
  have hE : countNrExec sol.orders = 0 ∨ isEconomicViable cfg sol.orders sol.prices fee = .ok true := by
    by_cases hlen : b.length > 0 ∨ s.length > 0
    · rw [countNrExec_eq]; exact economicLoop_viable hlen hr
    · unfold economicLoop at hr
      rw [if_neg hlen] at hr
      cases hr
      exact .inl rfl
  rcases only_validate_any hd hv hE e he with h | ⟨h, h'⟩
  · exact .inl (.inr h)
  · exact .inr (.inl ⟨fun hz => absurd hz.1 h.ne', .inr ⟨h, h'⟩⟩)

theorem only_match_any {cfg : Config} {ext : Ext} {pair : Token × Token} {accounts : Accounts} {pool orders : List Order} {fee : Fee}
    (hc : CfgOk cfg) (h0 : 0 ≤ fee.value) (h1 : fee.value < 1) (hf : FeeOk cfg fee) (hne : pair.1 ≠ pair.2) (hbr : ∀ E, MaxBranching E (ext.branch E))
    (hd : ∀ q n r, 0 ≤ q → 0 < n → ext.fdiv q n = .ok r → 0 ≤ r) (hp : Pool pool) (hk : Backed accounts pool)
    (hs : List.Forall₂ SameButExec pool orders) :
    Only (fun e => CoreFailure ext e ∨ (¬ ZeroThresholds cfg ∧ ThresholdFailure cfg e)) (matchTokenPair cfg ext pair accounts orders fee) := by
  unfold matchTokenPair
  dsimp only
  split
  · exact only_pure _
  rename_i e1
  split
  · exact only_pure _
  rename_i e2
  rw [show (if pair.1 ≠ fee.token then ordersBuyingSelling orders pair.1 fee.token else []) = feeOrdersFor orders pair fee from rfl]
  split
  · exact only_pure _
  refine only_bind (fun e he => ?_) fun _ _ => only_pure _
  rcases only_viable_any hc h0 h1 hf hne hbr hd (by simp) hp hk (bookOf_pair hp hs pair fee) e he with h | h | ⟨h | h, _⟩
  · exact .inl h
  · exact .inr h
  · exact absurd (by rw [h.1]; rfl) e1
  · exact absurd (by rw [h.2]; rfl) e2

theorem only_bestLoop_any {cfg : Config} {ext : Ext} {inst : Instance} {pool : List Order} (hc : CfgOk cfg) (hi : GoodInstance inst) (hf : FeeOk cfg inst.fee)
    (hbr : ∀ E, MaxBranching E (ext.branch E)) (hd : ∀ q n r, 0 ≤ q → 0 < n → ext.fdiv q n = .ok r → 0 ≤ r) (hl : LoadedPool cfg inst pool)
    {visits : List ((Token × Token) × Bool)} {st : BestState} (hv : ∀ v ∈ visits, v.1.1 ≠ v.1.2) (hs : List.Forall₂ SameButExec pool st.orders) :
    Only (fun e => CoreFailure ext e ∨ (¬ ZeroThresholds cfg ∧ ThresholdFailure cfg e)) (bestLoop cfg ext inst.accounts inst.fee visits st) := by
  induction visits generalizing st with
  | nil => exact only_ok _
  | cons v visits ih =>
    obtain ⟨pair, stop⟩ := v
    have hne : pair.1 ≠ pair.2 := hv (pair, stop) (by simp)
    unfold bestLoop
    refine only_bind ?_ fun r hr => ?_
    · unfold matchAndEvaluate
      refine only_bind (only_match_any hc hi.feePos.le hi.feeLt hf hne hbr hd hl.wf hl.backed hs) fun r hr => ?_
      obtain ⟨sol, orders'⟩ := r
      obtain ⟨_, g2⟩ := matchTokenPair_spec hc hi.feeLt hne hbr hl.wf hs hr
      have hft : bought sol.orders inst.fee.token ≤ sold sol.orders inst.fee.token := by
        rcases g2 with rfl | hg
        · simp [Solution.trivial, bought, sold]
        · exact hg.feeToken hf.min
      obtain ⟨d, hd, _⟩ := dump_ok hc hi hl g2 hft
      unfold dumpSolution at hd
      simp only [bind_eq_ok] at hd
      obtain ⟨acc, hacc, m, hm, _⟩ := hd
      dsimp only
      rw [hacc, ok_bind]
      obtain ⟨v, hv⟩ := objective_of_metrics hm (os' := sol.orders.filter (fun o => decide (o.buy > 0))) (fun o ho => List.mem_of_mem_filter ho)
      rw [hv, ok_bind]
      exact only_pure _
    obtain ⟨obj, sol, orders'⟩ := r
    dsimp only
    unfold matchAndEvaluate at hr
    simp only [bind_eq_ok] at hr
    obtain ⟨⟨sol', orders''⟩, h2, acc, _, obj', _, e⟩ := hr
    cases e
    obtain ⟨g1, _⟩ := matchTokenPair_spec hc hi.feeLt hne hbr hl.wf hs h2
    split
    · exact only_pure _
    · refine ih (fun v hv' => hv v (by simp [hv'])) ?_
      split <;> exact g1

/-- C111. The token-pair command, with any thresholds and any floating-point functions: it raises an exception of the search, of the square root or of the
division; or the fee token is the second of the pair; or there is a threshold, and it is `ValueError` or a threshold assertion; or exactly one side is without
orders, and it is `ValueError`. -/
theorem C111_token_pair {cfg : Config} {ext : Ext} {inst : Instance} {pair : Token × Token} {xrate : Option ℚ} (hc : CfgOk cfg) (hi : GoodInstance inst)
    (hf : FeeOk cfg inst.fee) (hne : pair.1 ≠ pair.2) (hbr : ∀ E, MaxBranching E (ext.branch E))
    (hd : ∀ q n r, 0 ≤ q → 0 < n → ext.fdiv q n = .ok r → 0 ≤ r) (hx : ∀ y, xrate = some y → 0 < y) {e : PyErr}
    (he : tokenPairMain cfg ext inst pair xrate = .error e) :
    CoreFailure ext e ∨ (pair.2 = inst.fee.token ∧ e = .assertion "token_pair_solver/api.py:35") ∨
      (¬ ZeroThresholds cfg ∧ ThresholdFailure cfg e) ∨ (EmptySide cfg inst pair ∧ e = .valueError) := by
  have hm : 0 < cfg.minTradable := by have := hc.minPos; omega
  obtain ⟨orders, hload, _⟩ := C01_load_problem (cfg := cfg) hm hi.balances hi.sell
  have hload' := hload
  unfold loadProblem at hload'
  simp only [bind_eq_ok] at hload'
  obtain ⟨os, l1, os', l2, l3⟩ := hload'
  cases l3
  by_cases hft : pair.2 = inst.fee.token
  · right; left
    refine ⟨hft, ?_⟩
    unfold tokenPairMain loadPairProblem at he
    rw [l1, ok_bind, l2, ok_bind] at he
    unfold pyAssert at he
    rw [if_neg (not_not.2 hft)] at he
    cases he; rfl
  · have hl : loadPairProblem cfg inst pair = .ok (inst.accounts,
        { b := ordersBuyingSelling orders pair.1 pair.2, s := ordersBuyingSelling orders pair.2 pair.1, f := ordersBuyingSelling orders pair.1 inst.fee.token },
        inst.fee) := by
      unfold loadPairProblem
      rw [l1, ok_bind, l2, ok_bind, pyAssert_of hft, ok_bind]; rfl
    have he' := (C44_token_pair hc hi hne hbr hx hl).1 e he
    obtain ⟨hp, hk, _, _⟩ := loaded_pool hm hi.balances hi.ints hi.sell hload
    rcases only_viable_any hc hi.feePos.le hi.feeLt hf hne hbr hd hx hp hk
      (bookOf_filter hp (forall₂_same_refl _) pair inst.fee _ (.inl rfl)) e he' with h | h | ⟨h, h'⟩
    · exact .inl h
    · exact .inr (.inr (.inl h))
    · exact .inr (.inr (.inr ⟨⟨_, hl, h⟩, h'⟩))

/-- C111. The best-token-pair command, with any thresholds, any floating-point functions, any shuffle and any times. -/
theorem C111_best_pair {cfg : Config} {ext : Ext} {inst : Instance} {shuffle : List (Token × Token) → List ((Token × Token) × Bool)} (hc : CfgOk cfg)
    (hi : GoodInstance inst) (hf : FeeOk cfg inst.fee) (hbr : ∀ E, MaxBranching E (ext.branch E))
    (hd : ∀ q n r, 0 ≤ q → 0 < n → ext.fdiv q n = .ok r → 0 ≤ r) (hsh : ∀ E, ∀ v ∈ shuffle E, v.1 ∈ E) {e : PyErr}
    (he : bestTokenPairMain cfg ext inst shuffle = .error e) : CoreFailure ext e ∨ (¬ ZeroThresholds cfg ∧ ThresholdFailure cfg e) := by
  obtain ⟨orders, hload, h1, _⟩ := C44_best_pair hc hi hbr hsh
  obtain ⟨hl, _, _⟩ := loadedPool (by have := hc.minPos; omega) hi.balances hi.ints hi.sell hload
  exact only_bestLoop_any hc hi hf hbr hd hl (fun v hv => eligible_ne (hsh _ v hv)) (forall₂_same_refl _) e (h1 e he)

/-! ### The program -/

theorem pySqrt_error {t : ℚ} {e : PyErr} (h0 : 0 ≤ t) (h : pySqrt t = .error e) : e = .overflow := by
  unfold pySqrt at h
  rw [if_neg (not_lt.2 h0)] at h
  cases hx : toDouble t with
  | error e' => rw [hx] at h; cases h; exact toDouble_error hx
  | ok x =>
    rw [hx, ok_bind] at h
    split at h <;> cases h

theorem pyTrueDiv_error {q : ℚ} {n : ℕ} {e : PyErr} (hn : 0 < n) (h : pyTrueDiv q n = .error e) : e = .overflow := by
  unfold pyTrueDiv at h
  rw [if_neg hn.ne'] at h
  exact toDouble_error h

theorem toDouble_nonneg {q x : ℚ} (h : 0 ≤ q) (hx : toDouble q = .ok x) : 0 ≤ x :=
  IsDouble_le_toDouble h hx ⟨0, 0, by norm_num, by norm_num, by norm_num, by norm_num⟩ h

theorem pyTrueDiv_nonneg {q : ℚ} {n : ℕ} {r : ℚ} (h : 0 ≤ q) (hn : 0 < n) (hr : pyTrueDiv q n = .ok r) : 0 ≤ r := by
  unfold pyTrueDiv at hr
  rw [if_neg hn.ne'] at hr
  exact toDouble_nonneg (div_nonneg h (Nat.cast_nonneg _)) hr

/-- C111. What the theorems on whole runs assume of the world holds for the program as delivered. -/
theorem C111_world {w : World} (h : StdWorld w) : WorldOk w where
  cfg := by rw [h.base]; constructor <;> decide
  conv := by rw [h.conv]; exact C91_conv _
  branch := h.branch
  shuffle := h.shuffle
  float := by rw [h.conv]; exact C109_float_lib.entry
  runtime := h.runtime

theorem coreFailure_std {w : World} (h : StdWorld w) {e : PyErr} (he : CoreFailure w.ext e) :
    e = .zeroDivision ∨ e = .assertion "xrate.py:439" ∨ e = .assertion "xrate.py:440" ∨ e = .overflow := by
  rcases he with (h1 | h1 | h1 | ⟨t, h1, h2⟩) | ⟨q, n, h1, h2, h3⟩
  · exact .inl h1
  · exact .inr (.inl h1)
  · exact .inr (.inr (.inl h1))
  · rw [h.sqrt] at h2
    exact .inr (.inr (.inr (pySqrt_error h1 h2)))
  · rw [h.fdiv] at h3
    exact .inr (.inr (.inr (pyTrueDiv_error h2 h3)))

/-- C111. The exceptions of the program as delivered, on a valid instance. -/
theorem C111_exceptions {w : World} (h : StdWorld w) {inst : Instance} (hi : GoodInstance inst) (hf : FeeOk Config.default inst.fee) {a : Args}
    (hcmd : a.command ≠ none) (hg : GoodCommand a) {e : PyErr} (he : matchMain w.base w.ext inst a w.shuffle w.elapsed = .error e) :
    RunError (a.config w.base) inst a e := by
  have hw := C111_world h
  have hc : CfgOk (a.config w.base) := Args.config_ok hw.cfg
  have hd : ∀ q n r, 0 ≤ q → 0 < n → w.ext.fdiv q n = .ok r → 0 ≤ r := by
    rw [h.fdiv]; exact fun q n r => pyTrueDiv_nonneg
  have hf' : FeeOk (a.config w.base) inst.fee := by
    have : (a.config w.base).minTradable = Config.default.minTradable := by
      rw [h.base]; unfold Args.config; split <;> rfl
    exact ⟨by rw [this]; exact hf.min, hf.max⟩
  obtain ⟨c1, c2, _⟩ := a.config_abs w.base
  have hth : ¬ ZeroThresholds (a.config w.base) → a.minAvgFee ≠ 0 ∨ absThreshold a ≠ 0 := by
    intro hz
    by_contra hn
    push Not at hn
    exact hz ⟨by rw [c2]; exact hn.1, by rw [c1]; exact hn.2⟩
  have core : CoreFailure w.ext e → RunError (a.config w.base) inst a e := by
    intro hcf
    rcases coreFailure_std h hcf with rfl | rfl | rfl | rfl
    · exact .zeroDivision
    · exact .shapeLeft
    · exact .shapeRight
    · exact .overflow
  have thr : ¬ ZeroThresholds (a.config w.base) → ThresholdFailure (a.config w.base) e → RunError (a.config w.base) inst a e := by
    rintro hz (rfl | ⟨hm, rfl⟩)
    · exact .threshold (hth hz)
    · exact .average (c2 ▸ hm)
  unfold matchMain at he
  split at he
  · rename_i hn; exact absurd hn hcmd
  · rename_i pair xrate hn
    obtain ⟨g1, g2⟩ := hg pair xrate hn
    rcases C111_token_pair hc hi hf' g1 hw.branch hd g2 he with h1 | ⟨h1, rfl⟩ | ⟨h1, h2⟩ | ⟨h1, rfl⟩
    · exact core h1
    · exact .feeSecond pair xrate hn h1
    · exact thr h1 h2
    · exact .emptySide pair xrate hn h1
  · rcases C111_best_pair hc hi hf' hw.branch hd (timed_subset hw a) he with h1 | ⟨h1, h2⟩
    · exact core h1
    · exact thr h1 h2

/-- The average fee in the file, for the division of the program. -/
theorem dump_average {w : World} (h : StdWorld w) {inst : Instance} {a : Args} {d : Dump} (hd : DumpOk (a.config w.base) inst d)
    (ht : ThresholdsMet w.base w.ext inst a d) : a.minAvgFee * d.orders.length ≤ (1 + 1 / 2 ^ 53) * d.objVals.fees ∨ d.orders = [] := by
  by_cases hne : d.orders = []
  · exact .inr hne
  left
  obtain ⟨q, hq, hle⟩ := ht.average hne
  have hn : 0 < d.orders.length := List.length_pos_of_ne_nil hne
  have n0 : (0 : ℚ) < d.orders.length := by exact_mod_cast hn
  rw [h.fdiv] at hq
  unfold pyTrueDiv at hq
  rw [if_neg hn.ne'] at hq
  obtain ⟨ks, _, hks⟩ := hd.orders
  have hint : ∀ e ∈ d.orders, IsInt (execSell e) ∧ IsInt (execBuy e) := by
    intro e he
    obtain ⟨k, _, dd, _, _, _, _, h5, h6, _⟩ := mem_of_forall₂ hks he
    exact ⟨h5, h6⟩
  have hI : IsInt d.objVals.fees := by
    have h1 : IsInt (dumpSold d.orders inst.fee.token) := isInt_sum (fun o ho => (hint o (List.mem_of_mem_filter ho)).1)
    have h2 : IsInt (dumpBought d.orders inst.fee.token) := isInt_sum (fun o ho => (hint o (List.mem_of_mem_filter ho)).2)
    obtain ⟨z1, e1⟩ := isInt_iff.1 h1
    obtain ⟨z2, e2⟩ := isInt_iff.1 h2
    exact isInt_iff.2 ⟨z1 - z2, by rw [hd.fees, e1, e2]; push_cast; ring⟩
  have a0 : 0 ≤ d.objVals.fees := by rw [hd.fees]; exact sub_nonneg.2 hd.feeToken
  have key : q ≤ (1 + 1 / 2 ^ 53) * (d.objVals.fees / d.orders.length) := by
    rcases a0.eq_or_lt with e | a0
    · rw [← e, zero_div] at hq ⊢
      unfold toDouble at hq
      rw [if_pos rfl] at hq
      cases hq; simp
    · have a1 : 1 ≤ d.objVals.fees := by
        obtain ⟨z, ez⟩ := isInt_iff.1 hI
        rw [ez] at a0 ⊢
        exact_mod_cast a0
      have hb : (d.orders.length : ℚ) ≤ 2 ^ (1022 : ℤ) := by
        have h1 : (d.orders.length : ℤ) ≤ 30 := by
          have := hd.count
          rw [h.base] at this
          have e : (a.config Config.default).maxNrExec = 30 := by unfold Args.config; split <;> rfl
          rwa [e] at this
        have h2 : (d.orders.length : ℚ) ≤ 30 := by exact_mod_cast h1
        exact h2.trans (by decide +kernel)
      have := (abs_le.1 (toDouble_close (average_normal a1 hn hb) hq)).2
      linarith
  have := hle.trans key
  rwa [mul_div_assoc', le_div_iff₀ n0] at this

/-- C111. A whole run of the program as delivered, from the words of the command line and the files before to the files after. For a valid instance with a fee
between `1 / 10 ^ 4` and about five percent that can be written, and a place to write to: either the run ends with one of the exceptions listed and no file is
changed, or it ends well, exactly one file is changed, and it holds the json text of a correct solution that pays the fees asked for. -/
theorem C111_run {w : World} (hw : StdWorld w) {files : Files} {gs gs' : List Given} (h : ∀ g ∈ gs ++ gs', g.Ok)
    (ha : ∀ g ∈ gs ++ gs', Acceptable g.option g.text) {f : String} (hf : Plain f) {text : List Char} {t : PyVal} {inst : Instance} (hfile : files f = some text)
    (ht : JsonText text t) (hinst : InstanceOf (pyConv pyFloat) t inst) (hi : GoodInstance inst) (hfee : FeeOk Config.default inst.fee) {sub : Sub} (hsub : sub.Ok)
    (hx : ∀ g ∈ sub.given, ∃ q, FractionText g.text.toList q) {argv : List String} (hargv : argv = gs.flatMap Given.words ++ f :: (gs'.flatMap Given.words ++ sub.words))
    (hwr : Writable (pyConv pyFloat) t (solverVal w argv)) (hcan : w.canWrite ((lastText .solution (gs ++ gs')).getD w.tempFile) = true) :
    ∃ p, Says (gs ++ gs') p ∧ SaysCommand sub p.args.command ∧ (GoodCommand p.args →
      (∃ e, RunError (p.args.config Config.default) inst p.args e ∧ program w files argv = (.error (.py e), files)) ∨
      ∃ d s' file, (program w files argv).1 = .ok () ∧ OnlyWritten files (program w files argv).2 ((lastText .solution (gs ++ gs')).getD w.tempFile) s' ∧
        JsonText s' (reload readLeaf file) ∧ PlainText s' ∧ FileOk (pyConv pyFloat) t (orderObjects t) inst d (solverVal w argv) file ∧
        DumpOk (p.args.config Config.default) inst d ∧
        (∀ e ∈ d.orders, e.sellToken ≠ inst.fee.token → absThreshold p.args ≤ paidFee Config.default d.prices inst.fee e) ∧
        (d.orders = [] ∨ p.args.minAvgFee * d.orders.length ≤ (1 + 1 / 2 ^ 53) * d.objVals.fees)) := by
  rw [← hw.conv] at hinst hwr
  obtain ⟨p, h1, h2, h3⟩ := C103_command_line (C111_world hw) h ha hf hfile ht hinst hi hsub hx hargv
  refine ⟨p, h1, h2, fun hg => ?_⟩
  obtain ⟨h4, h5⟩ := h3 hg
  have hcmd : p.args.command ≠ none := by
    unfold SaysCommand at h2
    split at h2
    · rw [h2]; simp
    · split at h2
      · rw [h2]; simp
      · obtain ⟨q, _, h2⟩ := h2
        rw [h2]; simp
  cases hm : matchMain w.base w.ext inst p.args w.shuffle w.elapsed with
  | error e =>
    have := C111_exceptions hw hi hfee hcmd hg hm
    rw [hw.base] at this
    exact .inl ⟨e, this, h4 e hm⟩
  | ok d =>
    obtain ⟨k1, k2, k3⟩ := h5 d hm
    obtain ⟨k4, s', file, k5, k6, k7, k8⟩ := k3 hwr hcan
    refine .inr ⟨d, s', file, k4, k5, k6, k7, by rw [← hw.conv]; exact k8, by rw [← hw.base]; exact k1, by rw [← hw.base]; exact k2.absolute, ?_⟩
    exact (dump_average hw k1 k2).symm

theorem solverVal_plain (w : World) (argv : List String) : PlainJson (solverVal w argv) := by
  intro p
  unfold solverVal
  rcases p with _ | ⟨i, p⟩
  · intro q; simp [nodeAt]
  · rcases i with _ | _ | _ | _ | i <;> intro q <;> rcases p with _ | ⟨j, p⟩ <;> simp [nodeAt, kids]
    rcases hj : argv[j - 1]? with _ | x <;> rcases j with _ | j <;> rcases p with _ | ⟨k, p⟩ <;> simp_all [nodeAt, kids]

namespace ExClosed

noncomputable def world : World where
  conv := pyConv pyFloat
  base := Config.default
  ext := { sqrt := pySqrt, branch := ExInst.ext.branch, fdiv := pyTrueDiv }
  shuffle := List.reverse
  elapsed := fun _ => 0
  argv0 := "match.py"
  runtime := "0.25"
  tempFile := "/tmp/solution-1.json"
  canWrite := fun _ => true

theorem std : StdWorld world :=
  ⟨rfl, rfl, rfl, rfl, ExInst.branch_max, fun E => List.reverse_perm E, ExText.number_leaf (by decide +kernel) (by decide +kernel)⟩

noncomputable def run (inst : Instance) (a : Args) : Py Dump := matchMain world.base world.ext inst a world.shuffle world.elapsed

theorem writable (argv : List String) : Writable (pyConv pyFloat) (ExJson.tree []) (solverVal world argv) where
  ratio fee r h1 h2 := by
    cases h1
    cases h2
    obtain ⟨x, hx, hb⟩ := exists_of_pyCheck (x := pyFloat (.dec (1 / 1000))) (p := fun x => isJson x = true) (by decide +kernel)
    exact ⟨x, hx, isJson_noDecimal hb⟩
  noDecimal td fd h1 h2 := by
    cases h1
    cases h2
    exact isJson_noDecimal (by decide +kernel)
  orderIDs raw h i hi := by
    have h0 : orderObjects (ExJson.tree []) = [ExJson.order "A" "B" "S" "10000000000000000000" "20000000000000000000" 7,
      ExJson.order "C" "S" "B" "10000000000000000000" "10000000000000000000" 8, ExJson.order "C" "B" "F" "1000000000000000000" "2000000000000000000" 9] := rfl
    rw [h0] at h
    simp only [List.mem_cons, List.not_mem_nil, or_false] at h
    rcases h with rfl | rfl | rfl <;> cases hi
    · exact ⟨7, (C91_conv _).toInt_text 7⟩
    · exact ⟨8, (C91_conv _).toInt_text 8⟩
    · exact ⟨9, (C91_conv _).toInt_text 9⟩
  solver := solverVal_plain _ _

/-- All hypotheses of C111 on the example: the command line, the text, the instance and the fee. The solver succeeds, so the second case holds. -/
example : ∃ d s' file, (program world (ExProgram.files ExText.text) ["--solution", "o.json", "i.json", "token-pair", "B", "S"]).1 = .ok () ∧
    OnlyWritten (ExProgram.files ExText.text) (program world (ExProgram.files ExText.text) ["--solution", "o.json", "i.json", "token-pair", "B", "S"]).2 "o.json" s' ∧
    JsonText s' (reload readLeaf file) ∧ FileOk (pyConv pyFloat) (ExJson.tree []) (orderObjects (ExJson.tree [])) ExInst.inst d
      (solverVal world ["--solution", "o.json", "i.json", "token-pair", "B", "S"]) file := by
  have h : (match program world (ExProgram.files ExText.text) ["--solution", "o.json", "i.json", "token-pair", "B", "S"] with
    | (.ok (), _) => true
    | _ => false) = true := by decide +kernel
  obtain ⟨p, h1, h2, h3⟩ := C111_run std (files := ExProgram.files ExText.text) (gs := [⟨.solution, "--solution", "o.json", false⟩]) (gs' := [])
    (f := "i.json") (sub := .pair "B" "S" [])
    (by
      intro g hg
      simp only [List.append_nil, List.mem_cons, List.not_mem_nil, or_false] at hg
      subst hg
      exact ⟨by decide, .inl rfl, fun _ => .inl (by decide)⟩)
    (by
      intro g hg
      simp only [List.append_nil, List.mem_cons, List.not_mem_nil, or_false] at hg
      subst hg
      trivial)
    (.inl (by decide)) (if_pos rfl) ExText.reads ExFloat.instance_of ExInst.good ⟨by decide +kernel, by decide +kernel⟩
    ⟨.inl (by decide), .inl (by decide), by simp⟩ (by simp [Sub.given]) rfl (writable _) rfl
  have hc : p.args.command = some (.tokenPair ("B", "S") none) := h2
  rcases h3 (fun pair xrate hp => by cases hc.symm.trans hp; exact ⟨by decide, by simp⟩) with ⟨e, _, h4⟩ | ⟨d, s', file, h4, h5, h6, _, h7, _⟩
  · have h4' : program world (ExProgram.files ExText.text) ["--solution", "o.json", "i.json", "token-pair", "B", "S"] = _ := h4
    rw [h4'] at h
    cases h
  · exact ⟨d, s', file, h4, h5, h6, h7⟩

/-- Two orders with limits near 10^400: no double is near the rates, so the square root cannot be taken. -/
def instHuge : Instance where
  accounts := [("a", [("S", 10 ^ 410)]), ("c", [("F", 10 ^ 10)])]
  fee := { token := "F", value := 1 / 1000 }
  orders := [
    { accountID := "a", buyToken := "F", sellToken := "S", sellAmount := 10 ^ 410, buyAmount := 10 ^ 10 },
    { accountID := "c", buyToken := "S", sellToken := "F", sellAmount := 10 ^ 10, buyAmount := 10 ^ 409 }]

end ExClosed

/-- How runs of the program as delivered end: well, and with six failures, one for each kind of exception listed except 439 and the assertions of the thresholds. -/
theorem C111_occur : ∃ w, StdWorld w ∧ ∀ run : Instance → Args → Py Dump, run = (fun inst a => matchMain w.base w.ext inst a w.shuffle w.elapsed) →
    (∃ d, run ExInst.inst { command := some (.tokenPair ("B", "S") none) } = .ok d ∧ d.orders.length = 3) ∧
    run ExZero.inst { command := some (.tokenPair ("F", "S") none) } = .error .zeroDivision ∧
    run ExPlateau.inst { command := some (.tokenPair ("F", "S") none) } = .error (.assertion "xrate.py:440") ∧
    run ExClosed.instHuge { command := some (.tokenPair ("F", "S") none) } = .error .overflow ∧
    run ExInst.inst { command := some (.tokenPair ("B", "F") none) } = .error (.assertion "token_pair_solver/api.py:35") ∧
    run ExInst.inst { command := some (.tokenPair ("F", "B") none) } = .error .valueError ∧
    run ExInst.inst { minAvgFee := ExVia.cfgAvg.minAvgFee, command := some .bestTokenPair } = .error .valueError := by
  refine ⟨ExClosed.world, ExClosed.std, fun run h => ?_⟩
  subst h
  change (∃ d, ExClosed.run _ _ = .ok d ∧ _) ∧ ExClosed.run _ _ = _ ∧ ExClosed.run _ _ = _ ∧ ExClosed.run _ _ = _ ∧ ExClosed.run _ _ = _ ∧
    ExClosed.run _ _ = _ ∧ ExClosed.run _ _ = _
  refine ⟨exists_of_pyCheck (p := fun d : Dump => d.orders.length = 3) (by decide +kernel), eq_error_of_pyRaises (by decide +kernel),
    eq_error_of_pyRaises (by decide +kernel), eq_error_of_pyRaises (by decide +kernel), eq_error_of_pyRaises (by decide +kernel), ?_,
    eq_error_of_pyRaises (by decide +kernel)⟩
  exact eq_error_of_pyRaises (by decide +kernel)

end Dex
