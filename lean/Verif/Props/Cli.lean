import Verif.Props.Objective
import Verif.Model.Cli

/-! # Property C70: the command line -/

namespace Dex

namespace Spec

/-- Fee paid by an executed order by its volume, in fee tokens. -/
def paidFee (cfg : Config) (prices : Prices) (fee : Fee) (e : OrderDict) : ℚ := execBuy e * priceAt prices e.buyToken * fee.value / cfg.feeTokenPrice

/-- The minimum absolute fee in force: as given, or else the minimum average fee. -/
def absThreshold (a : Args) : ℚ := a.minAbsFee.getD a.minAvgFee

/-- The arguments name two different tokens and a positive rate, if they name any. -/
def GoodCommand (a : Args) : Prop := ∀ pair xrate, a.command = some (.tokenPair pair xrate) → pair.1 ≠ pair.2 ∧ ∀ y, xrate = some y → 0 < y

/-- The time limit has not passed before the pair at position `k`. -/
def InTime (a : Args) (elapsed : ℕ → ℚ) (k : ℕ) : Prop := ∀ l, a.timeLimit = some l → ∀ j < k, elapsed j ≤ l

/-- The solution in the file meets the thresholds of the arguments. -/
structure ThresholdsMet (base : Config) (ext : Ext) (inst : Instance) (a : Args) (d : Dump) : Prop where
  absolute : ∀ e ∈ d.orders, e.sellToken ≠ inst.fee.token → absThreshold a ≤ paidFee base d.prices inst.fee e
  average : d.orders ≠ [] → ∃ q, ext.fdiv d.objVals.fees d.orders.length = .ok q ∧ a.minAvgFee ≤ q

end Spec

open Spec

theorem Args.config_ok {a : Args} {base : Config} (h : CfgOk base) : CfgOk (a.config base) := by
  unfold Args.config
  split <;> exact ⟨h.minPos, h.slack, h.limit, h.feePrice, h.volume, h.error⟩

theorem Args.config_abs (a : Args) (base : Config) : (a.config base).minAbsFee = absThreshold a ∧ (a.config base).minAvgFee = a.minAvgFee ∧
    (a.config base).feeTokenPrice = base.feeTokenPrice := by
  unfold Args.config absThreshold
  split
  · rename_i h; rw [h]; exact ⟨rfl, rfl, rfl⟩
  · rename_i h; rw [h]; exact ⟨rfl, rfl, rfl⟩

theorem thresholds_of {cfg : Config} {ext : Ext} {inst : Instance} {pool : List Order} {sol : Solution} {d : Dump} (hc : CfgOk cfg) (hi : GoodInstance inst)
    (hl : LoadedPool cfg inst pool) (hs : SolOk cfg inst.fee pool sol) (hft : bought sol.orders inst.fee.token ≤ sold sol.orders inst.fee.token)
    (hfe : nrExecuted sol.orders = 0 ∨ Feasible cfg ext.fdiv inst.accounts sol.orders sol.prices inst.fee) (hd : dumpSolution inst sol = .ok d) :
    (∀ e ∈ d.orders, e.sellToken ≠ inst.fee.token → cfg.minAbsFee ≤ paidFee cfg d.prices inst.fee e) ∧
      (d.orders ≠ [] → ∃ q, ext.fdiv d.objVals.fees d.orders.length = .ok q ∧ cfg.minAvgFee ≤ q) := by
  obtain ⟨d', hd', hok, hpr, hrel, _⟩ := dump_ok hc hi hl hs hft
  rw [hd] at hd'; cases hd'
  rcases hs with rfl | hg
  · have : d.orders = [] := List.length_eq_zero_iff.1 (hrel.length_eq.symm.trans rfl)
    rw [this]
    simp
  have hlen : d.orders.length = nrExecuted sol.orders := by
    rw [← hrel.length_eq, (dumpList_perm _).length_eq]
    unfold nrExecuted
    congr 1
    exact List.filter_congr fun o ho => by simp [hg.exec o ho]
  have hmem : ∀ o ∈ dumpList sol.orders, o ∈ sol.orders ∧ 0 < o.sell := by
    intro o ho
    have := List.mem_filter.1 ((dumpList_perm sol.orders).mem_iff.1 ho)
    exact ⟨this.1, by simpa using this.2⟩
  rcases hfe with h0 | hfe
  · have : d.orders = [] := List.length_eq_zero_iff.1 (hlen.trans h0)
    rw [this]
    simp
  constructor
  · intro e he hne
    obtain ⟨o, ho, hr⟩ : ∃ o ∈ dumpList sol.orders, DumpRel cfg inst o e := mem_of_forall₂ hrel he
    obtain ⟨r1, r2, _, _, r5⟩ := hr.buyToken
    obtain ⟨h1, h2⟩ := hmem o ho
    obtain ⟨pb, ps, hpb, _, _⟩ := hg.onPrice o h1
    have := hfe.absFee o h1 (by rw [← r2]; exact hne) ((hg.exec o h1).2 h2) pb hpb
    unfold paidFee
    rw [hpr, r1, r5, priceAt_of hpb]
    exact this
  · intro _
    obtain ⟨q, hq, hle⟩ := hfe.avgFee
    refine ⟨q, ?_, hle⟩
    have hex : ∀ o ∈ sol.orders, 0 ≤ o.sell ∧ 0 ≤ o.buy ∧ (0 < o.buy ↔ 0 < o.sell) :=
      fun o ho => ⟨(hg.amounts o ho).2.2.2, (hg.amounts o ho).2.1, hg.exec o ho⟩
    rw [hok.fees, hlen, ((dump_sums hrel).1 _).1, ((dump_sums hrel).1 _).2, (dumpList_sums hex _).1, (dumpList_sums hex _).2]
    exact hq

/-- C70. Whatever the subcommand, shuffle and clock: a written solution is correct for the instance, and meets the fee thresholds of the command line, where
the absolute threshold defaults to the average one. -/
theorem C70_thresholds {base : Config} {ext : Ext} {inst : Instance} {a : Args} {shuffle : List (Token × Token) → List (Token × Token)} {elapsed : ℕ → ℚ}
    {d : Dump} (hc : CfgOk base) (hi : GoodInstance inst) (hbr : ∀ E, MaxBranching E (ext.branch E)) (hsh : ∀ E, (shuffle E).Perm E) (ha : GoodCommand a)
    (h : matchMain base ext inst a shuffle elapsed = .ok d) : DumpOk (a.config base) inst d ∧ ThresholdsMet base ext inst a d := by
  have hc' : CfgOk (a.config base) := Args.config_ok hc
  have hm : 0 < (a.config base).minTradable := by have := hc'.minPos; omega
  obtain ⟨c1, c2, c3⟩ := a.config_abs base
  have fin : ∀ pool sol, LoadedPool (a.config base) inst pool → SolOk (a.config base) inst.fee pool sol →
      bought sol.orders inst.fee.token ≤ sold sol.orders inst.fee.token →
      (nrExecuted sol.orders = 0 ∨ Feasible (a.config base) ext.fdiv inst.accounts sol.orders sol.prices inst.fee) → dumpSolution inst sol = .ok d →
      DumpOk (a.config base) inst d ∧ ThresholdsMet base ext inst a d := by
    intro pool sol hl hs hft hfe hd
    obtain ⟨d', hd', hok, _⟩ := dump_ok hc' hi hl hs hft
    rw [hd] at hd'; cases hd'
    obtain ⟨t1, t2⟩ := thresholds_of hc' hi hl hs hft hfe hd
    refine ⟨hok, ⟨?_, ?_⟩⟩
    · intro e he hne
      have := t1 e he hne
      unfold paidFee at this ⊢
      rwa [c1, c3] at this
    · intro hne
      have := t2 hne
      rwa [c2] at this
  unfold matchMain at h
  split at h
  · cases h
  · rename_i pair xrate hcmd
    obtain ⟨hne, hx⟩ := ha pair xrate hcmd
    unfold tokenPairMain at h
    rw [bind_eq_ok] at h
    obtain ⟨⟨accounts, bk, fee⟩, hload, h⟩ := h
    dsimp only at h
    rw [bind_eq_ok] at h
    obtain ⟨⟨sol, objs⟩, hr, hd⟩ := h
    obtain ⟨rfl, pool, hl, hs, hft⟩ := tokenPair_parts hc' hi hne hbr hx hload hr
    have hacc : accounts = inst.accounts := by
      unfold loadPairProblem at hload
      simp only [bind_eq_ok] at hload
      obtain ⟨_, _, _, _, _, _, e⟩ := hload
      cases e
      rfl
    subst hacc
    refine fin pool sol hl hs hft ?_ hd
    rcases (C31_returned_is_feasible hm.le hc'.feePrice.ne' hr).2.2 with h0 | ⟨_, hf⟩
    · exact .inl h0
    · exact .inr hf
  · unfold bestTokenPairMain at h
    rw [bind_eq_ok] at h
    obtain ⟨⟨accounts, orders, fee⟩, hload, h⟩ := h
    dsimp only at h
    rw [bind_eq_ok] at h
    obtain ⟨st, hr, hd⟩ := h
    have hv : ∀ (E : List (Token × Token)) k, (timedVisits a.timeLimit elapsed k E).map (·.1) = E := by
      intro E
      induction E with
      | nil => intro k; rfl
      | cons p E ih => intro k; unfold timedVisits; rw [List.map_cons, ih]
    obtain ⟨rfl, hl, hs, hft⟩ := bestPair_parts hc' hi hbr hload (fun v hv' => by
      refine (hsh _).mem_iff.1 ?_
      rw [← hv (shuffle _) 0]
      exact List.mem_map.2 ⟨v, hv', rfl⟩) hr
    have hacc : accounts = inst.accounts := by
      unfold loadProblem at hload
      simp only [bind_eq_ok] at hload
      obtain ⟨_, _, _, _, e⟩ := hload
      cases e
      rfl
    subst hacc
    refine fin orders st.sol hl hs hft ?_ hd
    rcases (C31_best_pair_feasible hm.le hc'.feePrice.ne' hr).2.2 with h0 | ⟨_, hf⟩
    · exact .inl h0
    · exact .inr hf

/-- C70. Without subcommand the program fails, whatever the instance. -/
theorem C70_no_subcommand {base : Config} {ext : Ext} {inst : Instance} {a : Args} {shuffle : List (Token × Token) → List (Token × Token)} {elapsed : ℕ → ℚ}
    (h : a.command = none) : matchMain base ext inst a shuffle elapsed = .error .attributeError := by
  unfold matchMain
  rw [h]

theorem timedVisits_fst (limit : Option ℤ) (elapsed : ℕ → ℚ) (E : List (Token × Token)) (k : ℕ) : (timedVisits limit elapsed k E).map (·.1) = E := by
  induction E generalizing k with
  | nil => rfl
  | cons p E ih => unfold timedVisits; rw [List.map_cons, ih]

theorem timedVisits_visited {limit : Option ℤ} {elapsed : ℕ → ℚ} {E : List (Token × Token)} {n k : ℕ} {pair : Token × Token} (hp : E[k]? = some pair)
    (ht : ∀ l, limit = some l → ∀ j < k, elapsed (n + j) ≤ l) : Visited (timedVisits limit elapsed n E) pair := by
  induction E generalizing n k with
  | nil => simp at hp
  | cons p E ih =>
    unfold timedVisits
    cases k with
    | zero =>
      rw [List.getElem?_cons_zero] at hp
      cases hp
      exact ⟨[], _, _, rfl, by simp⟩
    | succ k =>
      rw [List.getElem?_cons_succ] at hp
      obtain ⟨pre, stop, post, e, hpre⟩ := ih (n := n + 1) hp (fun l hl j hj => by
        have := ht l hl (j + 1) (by omega)
        rwa [show n + 1 + j = n + (j + 1) by omega])
      refine ⟨(p, timeUp limit (elapsed n)) :: pre, stop, post, by rw [e]; rfl, ?_⟩
      intro v hv
      rcases List.mem_cons.1 hv with rfl | hv
      · unfold timeUp
        cases hl : limit with
        | none => rfl
        | some l => exact decide_eq_false (not_lt.2 (ht l hl 0 (by omega)))
      · exact hpre v hv

/-- C70. The command over all pairs evaluates the first pair in any case, and each further one if the time limit has not passed after the one before: what it
writes is worth at least what the command for such a pair writes. -/
theorem C70_in_time {base : Config} {ext : Ext} {inst : Instance} {a a' : Args} {shuffle shuffle' : List (Token × Token) → List (Token × Token)}
    {elapsed elapsed' : ℕ → ℚ} {d d' : Dump} (hc : CfgOk base) (hi : GoodInstance inst) (hbr : ∀ E, MaxBranching E (ext.branch E))
    (hsh : ∀ E, (shuffle E).Perm E) {pair : Token × Token} {k : ℕ} (hne : pair.1 ≠ pair.2) (ha : a.command = some .bestTokenPair)
    (ha' : a'.command = some (.tokenPair pair none)) (hth : a'.minAvgFee = a.minAvgFee ∧ absThreshold a' = absThreshold a)
    (hk : ∀ orders, loadProblem (a.config base) inst = .ok (inst.accounts, orders, inst.fee) → (shuffle (eligibleTokenPairs orders inst.fee.token))[k]? = some pair)
    (ht : InTime a elapsed k) (h : matchMain base ext inst a shuffle elapsed = .ok d) (h' : matchMain base ext inst a' shuffle' elapsed' = .ok d') :
    reportedObjective d' ≤ reportedObjective d := by
  have hcfg : a'.config base = a.config base := by
    obtain ⟨x1, x2⟩ := hth
    unfold absThreshold at x2
    unfold Args.config
    cases e1 : a'.minAbsFee <;> cases e2 : a.minAbsFee <;> rw [e1, e2] at x2 <;> simp only [Option.getD_none, Option.getD_some] at x2 <;> simp_all
  unfold matchMain at h h'
  rw [ha] at h
  rw [ha', hcfg] at h'
  dsimp only at h h'
  refine C69_best_of_visited (Args.config_ok hc) hi hbr ?_ hne h h' ?_
  · intro E v hv
    refine (hsh _).mem_iff.1 ?_
    rw [← timedVisits_fst a.timeLimit elapsed (shuffle E) 0]
    exact List.mem_map.2 ⟨v, hv, rfl⟩
  · intro orders hload
    exact timedVisits_visited (hk orders hload) (fun l hl j hj => by rw [Nat.zero_add]; exact ht l hl j hj)

theorem bestLoop_cut {cfg : Config} {ext : Ext} {accounts : Accounts} {fee : Fee} {limit : Option ℤ} {l : ℤ} {elapsed : ℕ → ℚ} {E : List (Token × Token)}
    {n k : ℕ} (hl : limit = some l) (hk : (l : ℚ) < elapsed (n + k)) (st : BestState) :
    bestLoop cfg ext accounts fee (timedVisits limit elapsed n E) st = bestLoop cfg ext accounts fee (timedVisits limit elapsed n (E.take (k + 1))) st := by
  induction E generalizing n k st with
  | nil => rfl
  | cons p E ih =>
    rw [List.take_succ_cons]
    unfold timedVisits bestLoop
    congr 1
    funext r
    obtain ⟨obj, sol, os⟩ := r
    dsimp only
    cases k with
    | zero =>
      have : timeUp limit (elapsed n) = true := by
        unfold timeUp
        rw [hl]
        exact decide_eq_true hk
      rw [this, if_pos rfl, if_pos rfl]
    | succ k =>
      rw [ih (n := n + 1) (k := k) (by rwa [show n + 1 + k = n + (k + 1) by omega])]

/-- C70. Once the time limit has passed no further pair is evaluated: the outcome is that of the list of pairs cut off there. -/
theorem C70_stops {base : Config} {ext : Ext} {inst : Instance} {a : Args} {shuffle : List (Token × Token) → List (Token × Token)} {elapsed : ℕ → ℚ}
    {l : ℤ} {k : ℕ} (hl : a.timeLimit = some l) (hk : (l : ℚ) < elapsed k) :
    matchMain base ext inst a shuffle elapsed = matchMain base ext inst a (fun E => (shuffle E).take (k + 1)) elapsed := by
  unfold matchMain
  split
  · rfl
  · rfl
  · unfold bestTokenPairMain bestTokenPair
    congr 1
    funext r
    obtain ⟨accounts, orders, fee⟩ := r
    dsimp only
    rw [bestLoop_cut (k := k) hl (by rwa [Nat.zero_add])]

/-- With a minimum average fee of 6·10¹⁵ (and, by default, the same absolute one) the example instance still has a solution with three executed orders, and
with one of 6·10¹⁶ none. -/
example : ∃ d d₀, matchMain Config.default ExInst.ext ExInst.inst { minAvgFee := 6 * 10 ^ 15, command := some (.tokenPair ("B", "S") none) } id (fun _ => 0) = .ok d ∧
    d.orders.length = 3 ∧ ThresholdsMet Config.default ExInst.ext ExInst.inst { minAvgFee := 6 * 10 ^ 15, command := some (.tokenPair ("B", "S") none) } d ∧
    matchMain Config.default ExInst.ext ExInst.inst { minAvgFee := 6 * 10 ^ 16, command := some (.tokenPair ("B", "S") none) } id (fun _ => 0) = .ok d₀ ∧
    d₀.orders.length = 0 := by
  obtain ⟨d, h1, h2⟩ := exists_of_pyCheck (x := matchMain Config.default ExInst.ext ExInst.inst
    { minAvgFee := 6 * 10 ^ 15, command := some (.tokenPair ("B", "S") none) } id (fun _ => 0)) (p := fun d => d.orders.length = 3) (by decide +kernel)
  obtain ⟨d₀, h3, h4⟩ := exists_of_pyCheck (x := matchMain Config.default ExInst.ext ExInst.inst
    { minAvgFee := 6 * 10 ^ 16, command := some (.tokenPair ("B", "S") none) } id (fun _ => 0)) (p := fun d => d.orders.length = 0) (by decide +kernel)
  have hc : CfgOk Config.default := by constructor <;> decide
  refine ⟨d, d₀, h1, h2, (C70_thresholds hc ExInst.good ExInst.branch_max (fun _ => List.Perm.refl _) ?_ h1).2, h3, h4⟩
  intro pair xrate e
  cases e
  exact ⟨by decide, by simp⟩

/-- With a time limit of 20 s and 7 s per pair all three pairs of the example instance are evaluated, among them B/S in the last place, and the outcome is worth
more than nothing. -/
example : ∃ d d', matchMain Config.default ExInst.ext ExInst.inst { timeLimit := some 20, command := some .bestTokenPair } List.reverse (fun k => 7 * (k + 1)) = .ok d ∧
    matchMain Config.default ExInst.ext ExInst.inst { command := some (.tokenPair ("B", "S") none) } id (fun _ => 0) = .ok d' ∧
    0 < reportedObjective d' ∧ reportedObjective d' ≤ reportedObjective d := by
  obtain ⟨d, h1, _⟩ := exists_of_pyCheck (x := matchMain Config.default ExInst.ext ExInst.inst { timeLimit := some 20, command := some .bestTokenPair }
    List.reverse (fun k => 7 * (k + 1))) (p := fun _ => True) (by decide +kernel)
  obtain ⟨d', h2, h3⟩ := exists_of_pyCheck (x := matchMain Config.default ExInst.ext ExInst.inst { command := some (.tokenPair ("B", "S") none) } id (fun _ => 0))
    (p := fun d => 0 < reportedObjective d) (by decide +kernel)
  have hc : CfgOk Config.default := by constructor <;> decide
  refine ⟨d, d', h1, h2, h3, ?_⟩
  refine C70_in_time (k := 2) (a := { timeLimit := some 20, command := some .bestTokenPair }) (pair := ("B", "S")) (a' := { command := some (.tokenPair ("B", "S") none) })
    hc ExInst.good ExInst.branch_max (fun _ => List.reverse_perm _) (by decide) rfl rfl ⟨rfl, rfl⟩ ?_ ?_ h1 h2
  · obtain ⟨r, h4, h5⟩ := exists_of_pyCheck (x := loadProblem Config.default ExInst.inst)
      (p := fun r => (eligibleTokenPairs r.2.1 ExInst.inst.fee.token).reverse[2]? = some ("B", "S")) (by decide +kernel)
    intro orders h
    have h' : loadProblem Config.default ExInst.inst = .ok (ExInst.inst.accounts, orders, ExInst.inst.fee) := h
    rw [h4] at h'
    cases h'
    exact h5
  · intro l hl j hj
    cases hl
    have : (j : ℚ) + 1 ≤ 2 := by exact_mod_cast hj
    have h7 : (7 : ℚ) * (j + 1) ≤ 14 := by linarith
    exact h7.trans (by norm_num)

/-- With a time limit of 10 s instead the pair B/S is not evaluated, and nothing is matched. -/
example : ∃ d, matchMain Config.default ExInst.ext ExInst.inst { timeLimit := some 10, command := some .bestTokenPair } List.reverse (fun k => 7 * (k + 1)) = .ok d ∧
    reportedObjective d = 0 :=
  exists_of_pyCheck (p := fun d => reportedObjective d = 0) (by decide +kernel)

end Dex
