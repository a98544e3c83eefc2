import Verif.Props.Errors

/-! # Property C90: without two orders whose limits cross the programs write the empty solution

(tests/e2e/best-token-pair/has-trival-solution, tests/e2e/token-pair/does-not-crash-match-pair/no-match.json,
tests/e2e/best-token-pair/does-not-crash-match-best-pair/almost-empty.json) -/

namespace Dex

namespace Spec

/-- The limits of the two orders cross after fees, the buy amounts being raised to the minimum tradable amount. -/
def Crosses (cfg : Config) (fee : Fee) (d d' : OrderDict) : Prop :=
  max (cfg.minTradable : ℚ) d.buyAmount * max (cfg.minTradable : ℚ) d'.buyAmount ≤ d.sellAmount * d'.sellAmount * (1 - fee.value) ^ 2

instance (cfg : Config) (fee : Fee) (d d' : OrderDict) : Decidable (Crosses cfg fee d d') := by unfold Crosses; infer_instance

/-- No order from the first to the second token crosses an order in the other direction. -/
def NoCross (cfg : Config) (inst : Instance) (pair : Token × Token) : Prop :=
  ∀ d ∈ inst.orders, ∀ d' ∈ inst.orders, d.buyToken = pair.1 → d.sellToken = pair.2 → d'.buyToken = pair.2 → d'.sellToken = pair.1 →
    ¬ Crosses cfg inst.fee d d'

instance (cfg : Config) (inst : Instance) (pair : Token × Token) : Decidable (NoCross cfg inst pair) := by unfold NoCross; infer_instance

/-- The solution file of a run that executes nothing. -/
structure EmptyDump (inst : Instance) (d : Dump) : Prop where
  orders : d.orders = []
  prices : d.prices = []
  accounts : d.accounts = inst.accounts
  objVals : d.objVals = {}

end Spec

open Spec

theorem dump_trivial (inst : Instance) : ∃ d, dumpSolution inst .trivial = .ok d ∧ EmptyDump inst d :=
  ⟨_, rfl, rfl, rfl, rfl, rfl⟩

theorem loadProblem_total {cfg : Config} {inst : Instance} (hm : 0 < cfg.minTradable) (hi : GoodInstance inst) :
    ∃ orders, loadProblem cfg inst = .ok (inst.accounts, orders, inst.fee) := by
  have hl := loadInput_of_instance (cfg := cfg) hi.balances hi.sell
  unfold loadProblem
  rw [loadOrdersFrom_eq hm, ok_bind, restrict_spec hl.bal hl.amounts]
  exact ⟨_, rfl⟩

theorem not_matchable_of_noCross {cfg : Config} {inst : Instance} {pool : List Order} {pair : Token × Token} (hm : 0 < cfg.minTradable)
    (hi : GoodInstance inst) (hl : LoadedPool cfg inst pool) (hn : NoCross cfg inst pair) {o c : Order} (ho : Der pool o) (hc : Der pool c)
    (hoT : o.buyToken = pair.1 ∧ o.sellToken = pair.2) (hcT : c.buyToken = pair.2 ∧ c.sellToken = pair.1) : ¬ Matchable inst.fee o c := by
  have hxo := (ho.ok hl.wf).1
  have hxc := (hc.ok hl.wf).1
  rw [matchable_iff hi.feeLt hxo hxc]
  obtain ⟨a, ha, e1⟩ := ho
  obtain ⟨a', ha', e2⟩ := hc
  obtain ⟨k, d, h1, _, _, h3, h4, _, _, _, h5⟩ := hl.stems a ha
  obtain ⟨k', d', h1', _, _, h3', h4', _, _, _, h5'⟩ := hl.stems a' ha'
  have := hn d (List.mem_of_getElem? h1) d' (List.mem_of_getElem? h1') (by rw [← h3, ← hoT.1, e1]) (by rw [← h4, ← hoT.2, e1])
    (by rw [← h3', ← hcT.1, e2]) (by rw [← h4', ← hcT.2, e2])
  unfold Crosses at this
  have r1 : o.maxXrate = d.sellAmount / max (cfg.minTradable : ℚ) d.buyAmount := by rw [← h5, e1]
  have r2 : c.maxXrate = d'.sellAmount / max (cfg.minTradable : ℚ) d'.buyAmount := by rw [← h5', e2]
  have hm' : (0 : ℚ) < cfg.minTradable := by exact_mod_cast hm
  have p1 : (0 : ℚ) < max (cfg.minTradable : ℚ) d.buyAmount := lt_max_of_lt_left hm'
  have p2 : (0 : ℚ) < max (cfg.minTradable : ℚ) d'.buyAmount := lt_max_of_lt_left hm'
  rw [r1, r2, div_mul_div_comm, div_mul_eq_mul_div, le_div_iff₀ (mul_pos p1 p2), one_mul]
  exact this

/-- Without matchable orders the solver for the pair returns the trivial solution and leaves the orders alone. -/
theorem solve_noMatch {cfg : Config} {ext : Ext} {pair : Token × Token} {accounts : Accounts} {b s f : List Order} {fee : Fee} {xrate : Option ℚ}
    (h : PruneInput fee b s) (hn : ∀ o ∈ b, ∀ c ∈ s, ¬ Matchable fee o c) :
    solveEconomicViable cfg ext pair accounts b s f fee xrate = .ok (.trivial, b ++ s ++ f ++ []) := by
  obtain ⟨b', s', e, _, _, hb, _⟩ := C14_exact h
  have hb' : b' = [] := by
    rw [List.eq_nil_iff_forall_not_mem]
    intro o ho
    obtain ⟨h1, c, hc, hm⟩ := (hb o).1 ho
    exact hn o h1 c hc hm
  have h1 : solveTokenPairAndFee cfg ext pair b s f fee xrate = .ok { sol := .trivial, books := { b, s, f } } := by
    unfold solveTokenPairAndFee
    rw [e, ok_bind]
    dsimp only
    rw [if_pos (.inl (by rw [hb']; rfl))]; rfl
  unfold solveEconomicViable economicLoop
  rw [if_pos (.inl (List.length_pos_of_ne_nil h.neB)), h1, ok_bind]
  dsimp only
  have h2 : isEconomicViable cfg Solution.trivial.orders Solution.trivial.prices fee = .ok true := by
    unfold isEconomicViable; rw [if_pos (by rfl)]; rfl
  rw [h2, ok_bind, if_pos (.inl rfl), pure_eq_ok, ok_bind]
  dsimp only
  rw [validate_trivial, ok_bind]; rfl

/-- C90. The command for a pair, with any thresholds and rate option: if there are orders in both directions (after loading) but no two
cross, it succeeds and writes the empty solution. -/
theorem C90_pair {cfg : Config} {ext : Ext} {inst : Instance} {pair : Token × Token} {xrate : Option ℚ} (hm : 0 < cfg.minTradable)
    (hi : GoodInstance inst) {accounts : Accounts} {bk : Books} {fee : Fee} (h : loadPairProblem cfg inst pair = .ok (accounts, bk, fee))
    (hbn : bk.b ≠ []) (hsn : bk.s ≠ []) (hn : NoCross cfg inst pair) :
    ∃ d, tokenPairMain cfg ext inst pair xrate = .ok d ∧ EmptyDump inst d := by
  have h0 := h
  unfold loadPairProblem at h0
  simp only [bind_eq_ok, pyAssert_eq_ok, exists_and_left, exists_const] at h0
  obtain ⟨os, h1, os', h2, _, e⟩ := h0
  cases e
  have hload : loadProblem cfg inst = .ok (inst.accounts, os', inst.fee) := by
    unfold loadProblem; rw [h1, ok_bind, h2]; rfl
  obtain ⟨hl, _, _⟩ := loadedPool hm hi.balances hi.ints hi.sell hload
  have hbk := bookOf_filter hl.wf (forall₂_same_refl _) pair inst.fee _ (.inl rfl)
  unfold tokenPairMain
  rw [h, ok_bind]
  dsimp only at hbn hsn ⊢
  rw [solve_noMatch ⟨hi.feeLt, hbn, hsn, fun o ho => ((hbk.derB o ho).ok hl.wf).1, fun o ho => ((hbk.derS o ho).ok hl.wf).1⟩
    (fun o ho c hc => not_matchable_of_noCross hm hi hl hn (hbk.derB o ho) (hbk.derS c hc) (hbk.clsB o ho) (hbk.clsS c hc)), ok_bind]
  exact dump_trivial inst

theorem matchTokenPair_noCross {cfg : Config} {ext : Ext} {inst : Instance} {pair : Token × Token} {pool orders : List Order}
    (hm : 0 < cfg.minTradable) (hi : GoodInstance inst) (hl : LoadedPool cfg inst pool) (hn : NoCross cfg inst pair)
    (hs : List.Forall₂ SameButExec pool orders) :
    ∃ orders', matchTokenPair cfg ext pair inst.accounts orders inst.fee = .ok (.trivial, orders') ∧ List.Forall₂ SameButExec pool orders' := by
  have hbk := bookOf_pair hl.wf hs pair inst.fee
  unfold matchTokenPair
  dsimp only
  split
  · exact ⟨_, rfl, hs⟩
  rename_i h1
  split
  · exact ⟨_, rfl, hs⟩
  rename_i h2
  rw [show (if pair.1 ≠ inst.fee.token then ordersBuyingSelling orders pair.1 inst.fee.token else []) = feeOrdersFor orders pair inst.fee from rfl]
  split
  · exact ⟨_, rfl, hs⟩
  rw [solve_noMatch ⟨hi.feeLt, fun h => h1 (List.length_eq_zero_iff.2 h), fun h => h2 (List.length_eq_zero_iff.2 h), fun o ho => ((hbk.derB o ho).ok hl.wf).1,
    fun o ho => ((hbk.derS o ho).ok hl.wf).1⟩
    (fun o ho c hc => not_matchable_of_noCross hm hi hl hn (hbk.derB o ho) (hbk.derS c hc) (hbk.clsB o ho) (hbk.clsS c hc)), ok_bind]
  refine ⟨_, rfl, forall₂_same_trans hs (writeBack_same hl.wf (der_forall₂ (fun o ho => der_self ho) hs) ?_)⟩
  intro o ho
  simp only [List.append_nil, List.mem_append] at ho
  rcases ho with (ho | ho) | ho
  · exact hbk.derB o ho
  · exact hbk.derS o ho
  · exact hbk.derF o ho

theorem bestLoop_noCross {cfg : Config} {ext : Ext} {inst : Instance} {pool : List Order} (hm : 0 < cfg.minTradable) (hi : GoodInstance inst)
    (hl : LoadedPool cfg inst pool) {visits : List ((Token × Token) × Bool)} (hn : ∀ v ∈ visits, NoCross cfg inst v.1) {orders : List Order}
    (hs : List.Forall₂ SameButExec pool orders) :
    ∃ orders', bestLoop cfg ext inst.accounts inst.fee visits { objective := 0, sol := .trivial, orders } =
      .ok { objective := 0, sol := .trivial, orders := orders' } := by
  induction visits generalizing orders with
  | nil => exact ⟨_, rfl⟩
  | cons v visits ih =>
    obtain ⟨pair, stop⟩ := v
    obtain ⟨orders', h1, h2⟩ := matchTokenPair_noCross (ext := ext) hm hi hl (hn (pair, stop) (by simp)) hs
    have h3 : matchAndEvaluate cfg ext pair inst.accounts orders inst.fee = .ok (0, .trivial, orders') := by
      unfold matchAndEvaluate computeObjectiveCore
      rw [h1, ok_bind]
      simp [Solution.trivial, mapE, pure_eq_ok, ok_bind, updateAccounts, foldE]
    unfold bestLoop
    rw [h3, ok_bind]
    dsimp only
    rw [if_neg (lt_irrefl _)]
    split
    · exact ⟨_, rfl⟩
    · exact ih (fun v hv => hn v (by simp [hv])) h2

/-- C90. The command over all pairs, for every order of visiting them, with any thresholds: if no two orders cross, it succeeds and writes
the empty solution. -/
theorem C90_best {cfg : Config} {ext : Ext} {inst : Instance} {shuffle : List (Token × Token) → List ((Token × Token) × Bool)}
    (hm : 0 < cfg.minTradable) (hi : GoodInstance inst) (hn : ∀ pair, NoCross cfg inst pair) :
    ∃ d, bestTokenPairMain cfg ext inst shuffle = .ok d ∧ EmptyDump inst d := by
  obtain ⟨orders, hload⟩ := loadProblem_total hm hi
  obtain ⟨hl, _, _⟩ := loadedPool hm hi.balances hi.ints hi.sell hload
  obtain ⟨orders', h⟩ := bestLoop_noCross (ext := ext) hm hi hl (visits := shuffle (eligibleTokenPairs orders inst.fee.token)) (fun v _ => hn v.1)
    (forall₂_same_refl _)
  unfold bestTokenPairMain bestTokenPair
  rw [hload, ok_bind]
  dsimp only
  rw [h, ok_bind]
  exact dump_trivial inst

/-- Limits that do not cross as the users wrote them do not cross with raised buy amounts. -/
theorem C90_user_limits {cfg : Config} {fee : Fee} {d d' : OrderDict} (hm : 0 ≤ cfg.minTradable) (h' : 0 ≤ d'.buyAmount)
    (hn : d.sellAmount * d'.sellAmount * (1 - fee.value) ^ 2 < d.buyAmount * d'.buyAmount) : ¬ Crosses cfg fee d d' := by
  intro hc
  have hm' : (0 : ℚ) ≤ cfg.minTradable := by exact_mod_cast hm
  have : d.buyAmount * d'.buyAmount ≤ max (cfg.minTradable : ℚ) d.buyAmount * max (cfg.minTradable : ℚ) d'.buyAmount :=
    mul_le_mul (le_max_right _ _) (le_max_right _ _) h' (hm'.trans (le_max_left _ _))
  exact absurd (this.trans hc) (not_le.2 hn)

/-! The two instances of the end-to-end tests. -/

namespace ExNoMatch

/-- tests/e2e/token-pair/does-not-crash-match-pair/no-match.json (what the programs read of it). -/
def inst : Instance where
  accounts := [("A", [("token0", 15000000000000000000), ("token1", 15000000000000000000)]),
    ("B", [("token0", 15000000000000000000), ("token1", 15000000000000000000)])]
  orders :=
    [{ accountID := "A", sellToken := "token1", buyToken := "token0", sellAmount := 400000000000000000, buyAmount := 200000000000000000 },
     { accountID := "B", sellToken := "token0", buyToken := "token1", sellAmount := 100000000000000000, buyAmount := 300000000000000000 }]
  fee := { token := "token0", value := 1 / 1000 }

/-- tests/e2e/best-token-pair/does-not-crash-match-best-pair/almost-empty.json. -/
def almostEmpty : Instance where
  accounts := [("0xe0b3700e0aadcb18ed8d4bff648bc99896a18ad1", [])]
  orders :=
    [{ accountID := "0xe0b3700e0aadcb18ed8d4bff648bc99896a18ad1", sellToken := "token1", buyToken := "token0", sellAmount := 1000000,
       buyAmount := 900000000000000000 }]
  fee := { token := "token0", value := 1 / 1000 }

end ExNoMatch

example (ext : Ext) (xrate : Option ℚ) : ∃ d, tokenPairMain Config.default ext ExNoMatch.inst ("token0", "token1") xrate = .ok d ∧
    EmptyDump ExNoMatch.inst d := by
  obtain ⟨⟨acc, bk, fee⟩, h1, h2, h3⟩ := exists_of_pyCheck (x := loadPairProblem Config.default ExNoMatch.inst ("token0", "token1"))
    (p := fun r : Accounts × Books × Fee => r.2.1.b ≠ [] ∧ r.2.1.s ≠ []) (by decide +kernel)
  exact C90_pair (by decide) (by constructor <;> decide +kernel) h1 h2 h3 (by decide +kernel)

example (ext : Ext) (shuffle : List (Token × Token) → List ((Token × Token) × Bool)) :
    ∃ d, bestTokenPairMain Config.default ext ExNoMatch.almostEmpty shuffle = .ok d ∧ EmptyDump ExNoMatch.almostEmpty d := by
  refine C90_best (by decide) (by constructor <;> decide +kernel) ?_
  intro pair d hd d' hd' h1 h2 h3 h4
  simp only [ExNoMatch.almostEmpty, List.mem_singleton] at hd hd'
  subst hd hd'
  exact absurd (h1.trans h4.symm) (by decide)

/-! The example the source names for root 1 (xrate.py:262). -/

namespace ExRoot1

/-- /repo/data/token_pair-1-1-5.json. -/
def inst : Instance where
  accounts := [("A", [("token0", 15000000000000000000), ("token1", 15000000000000000000)]),
    ("B", [("token0", 15000000000000000000), ("token1", 15000000000000000000)])]
  orders :=
    [{ accountID := "A", sellToken := "token1", buyToken := "token0", sellAmount := 3335000000000000000, buyAmount := 10000000000000000000 },
     { accountID := "B", sellToken := "token0", buyToken := "token1", sellAmount := 3335000000000000000, buyAmount := 1110000000000000000 }]
  fee := { token := "token0", value := 1 / 1000 }

end ExRoot1

/-- The comment at xrate.py:262 names data/token_pair-1-1-5.json as an example where root 1 is the optimum. The two limits of this file do not
cross after fees, so the rate search is not even started: the program writes the empty solution whatever the external functions are. -/
theorem C90_documented_root1 (ext : Ext) (xrate : Option ℚ) : NoCross Config.default ExRoot1.inst ("token0", "token1") ∧
    ∃ d, tokenPairMain Config.default ext ExRoot1.inst ("token0", "token1") xrate = .ok d ∧ EmptyDump ExRoot1.inst d := by
  have hn : NoCross Config.default ExRoot1.inst ("token0", "token1") := by decide +kernel
  obtain ⟨⟨acc, bk, fee⟩, h1, h2, h3⟩ := exists_of_pyCheck (x := loadPairProblem Config.default ExRoot1.inst ("token0", "token1"))
    (p := fun r : Accounts × Books × Fee => r.2.1.b ≠ [] ∧ r.2.1.s ≠ []) (by decide +kernel)
  exact ⟨hn, C90_pair (by decide) (by constructor <;> decide +kernel) h1 h2 h3 hn⟩

end Dex
