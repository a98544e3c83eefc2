import Verif.Props.Dump

/-! # Properties C41 and C42: candidate pairs and the search over all pairs -/

namespace Dex

namespace Spec

/-- The token occurs in the order book. -/
def Occurs (orders : List Order) (t : Token) : Prop := ∃ o ∈ orders, o.buyToken = t ∨ o.sellToken = t

/-- Some order buys `x` and sells `y`. -/
def Offers (orders : List Order) (x y : Token) : Prop := ∃ o ∈ orders, o.buyToken = x ∧ o.sellToken = y

instance (orders : List Order) (x y : Token) : Decidable (Offers orders x y) := by unfold Offers; infer_instance

/-- The pair can be matched at all: orders on both sides, and a way to get the fee token. -/
structure MatchablePair (orders : List Order) (feeToken : Token) (pair : Token × Token) : Prop where
  bSide : Offers orders pair.1 pair.2
  sSide : Offers orders pair.2 pair.1
  feeSide : pair.1 = feeToken ∨ Offers orders pair.1 feeToken

/-- The evaluations made by the search: the pairs are visited in order, each on the order objects the previous one left behind, until the
time-out. -/
inductive Evaluations (cfg : Config) (ext : Ext) (accounts : Accounts) (fee : Fee) :
    List Order → List ((Token × Token) × Bool) → List (ℚ × Solution) → Prop
  | done {os : List Order} : Evaluations cfg ext accounts fee os [] []
  | timeout {os os' : List Order} {pair : Token × Token} {rest : List ((Token × Token) × Bool)} {obj : ℚ} {sol : Solution} :
      matchAndEvaluate cfg ext pair accounts os fee = .ok (obj, sol, os') →
      Evaluations cfg ext accounts fee os ((pair, true) :: rest) [(obj, sol)]
  | next {os os' : List Order} {pair : Token × Token} {rest : List ((Token × Token) × Bool)} {obj : ℚ} {sol : Solution} {l : List (ℚ × Solution)} :
      matchAndEvaluate cfg ext pair accounts os fee = .ok (obj, sol, os') → Evaluations cfg ext accounts fee os' rest l →
      Evaluations cfg ext accounts fee os ((pair, false) :: rest) ((obj, sol) :: l)

end Spec

open Spec

/-! ## C41 -/

/-- C41. The candidate pairs are exactly: a second token that occurs in the book, is not the fee token and differs from the first token;
the first token is the fee token or is bought for the fee token by some order. -/
theorem C41_candidates {orders : List Order} {feeToken : Token} {pair : Token × Token} :
    pair ∈ eligibleTokenPairs orders feeToken ↔ pair.1 ≠ pair.2 ∧ pair.2 ≠ feeToken ∧ Occurs orders pair.2 ∧
      (pair.1 = feeToken ∨ Offers orders pair.1 feeToken) := by
  have hall : ∀ t, t ∈ (orders.flatMap (fun o => [o.buyToken, o.sellToken])).dedup ↔ Occurs orders t := by
    intro t
    simp only [List.mem_dedup, List.mem_flatMap, List.mem_cons, List.not_mem_nil, or_false, Occurs]
    constructor <;> rintro ⟨o, ho, h | h⟩ <;> exact ⟨o, ho, by simp [h]⟩
  have hdir : ∀ t, t ∈ ((orders.filter (fun o => decide (o.sellToken = feeToken))).map (·.buyToken)).dedup ↔ Offers orders t feeToken := by
    intro t
    simp only [List.mem_dedup, List.mem_map, List.mem_filter, decide_eq_true_eq, Offers]
    constructor
    · rintro ⟨o, ⟨h1, h2⟩, h3⟩; exact ⟨o, h1, h3, h2⟩
    · rintro ⟨o, h1, h3, h2⟩; exact ⟨o, ⟨h1, h2⟩, h3⟩
  obtain ⟨x, y⟩ := pair
  unfold eligibleTokenPairs
  simp only [List.mem_append, List.mem_flatMap, List.mem_map, List.mem_filter, decide_eq_true_eq, hall, hdir, Prod.mk.injEq]
  constructor
  · rintro (⟨b, h1, s, ⟨h2, h3, h4⟩, rfl, rfl⟩ | ⟨s, ⟨h2, h3⟩, rfl, rfl⟩)
    · exact ⟨h3.symm, h4, h2, .inr h1⟩
    · exact ⟨h3.symm, h3, h2, .inl rfl⟩
  · rintro ⟨h1, h2, h3, rfl | h4⟩
    · exact .inr ⟨y, ⟨h3, h2⟩, rfl, rfl⟩
    · exact .inl ⟨x, h4, y, ⟨h3, h1.symm, h2⟩, rfl, rfl⟩

/-- C41. No candidate is listed twice if no order buys the token it sells. -/
theorem C41_nodup {orders : List Order} {feeToken : Token} (h : ∀ o ∈ orders, o.buyToken ≠ o.sellToken) :
    (eligibleTokenPairs orders feeToken).Nodup := by
  unfold eligibleTokenPairs
  rw [List.nodup_append]
  refine ⟨?_, ?_, ?_⟩
  · rw [List.nodup_flatMap]
    refine ⟨?_, ?_⟩
    · intro b _
      exact ((List.nodup_dedup _).filter _).map (fun x y h => (Prod.mk.inj h).2)
    · refine (List.nodup_dedup _).imp ?_
      intro b b' hne p hp hp'
      obtain ⟨_, _, rfl⟩ := List.mem_map.1 hp
      obtain ⟨_, _, e⟩ := List.mem_map.1 hp'
      exact hne (Prod.mk.inj e).1.symm
  · exact ((List.nodup_dedup _).filter _).map (fun x y h => (Prod.mk.inj h).2)
  · intro p hp q hq e
    subst e
    obtain ⟨b, hb, h1⟩ := List.mem_flatMap.1 hp
    obtain ⟨_, _, rfl⟩ := List.mem_map.1 h1
    obtain ⟨_, _, e⟩ := List.mem_map.1 hq
    have e1 : feeToken = b := (Prod.mk.inj e).1
    rw [List.mem_dedup, List.mem_map] at hb
    obtain ⟨o, ho, e2⟩ := hb
    obtain ⟨ho, hs⟩ := List.mem_filter.1 ho
    refine h o ho ?_
    rw [e2, ← e1]; exact (by simpa using hs : o.sellToken = feeToken).symm

theorem mem_buyingSelling {orders : List Order} {x y : Token} {o : Order} :
    o ∈ ordersBuyingSelling orders x y ↔ o ∈ orders ∧ o.buyToken = x ∧ o.sellToken = y := by
  unfold ordersBuyingSelling
  simp only [List.mem_filter, decide_eq_true_eq]

theorem length_buyingSelling {orders : List Order} {x y : Token} : (ordersBuyingSelling orders x y).length = 0 ↔ ¬ Offers orders x y := by
  rw [List.length_eq_zero_iff, List.eq_nil_iff_forall_not_mem]
  unfold Offers
  constructor
  · rintro h ⟨o, ho⟩; exact h o (mem_buyingSelling.2 ho)
  · intro h o ho; exact h ⟨o, mem_buyingSelling.1 ho⟩

/-- C41. On a pair that is not matchable the matching returns the trivial solution and changes nothing. -/
theorem C41_unmatchable {cfg : Config} {ext : Ext} {accounts : Accounts} {orders : List Order} {fee : Fee} {pair : Token × Token}
    (h : ¬ MatchablePair orders fee.token pair) : matchTokenPair cfg ext pair accounts orders fee = .ok (.trivial, orders) := by
  unfold matchTokenPair
  dsimp only
  by_cases h1 : Offers orders pair.1 pair.2
  · rw [if_neg (by rw [length_buyingSelling]; exact not_not.2 h1)]
    by_cases h2 : Offers orders pair.2 pair.1
    · rw [if_neg (by rw [length_buyingSelling]; exact not_not.2 h2)]
      have h3 : pair.1 ≠ fee.token ∧ ¬ Offers orders pair.1 fee.token := by
        constructor
        · exact fun e => h ⟨h1, h2, .inl e⟩
        · exact fun e => h ⟨h1, h2, .inr e⟩
      rw [if_pos]
      · rfl
      · refine ⟨h3.1, ?_⟩
        rw [if_pos h3.1, length_buyingSelling]; exact h3.2
    · rw [if_pos (length_buyingSelling.2 h2)]; rfl
  · rw [if_pos (length_buyingSelling.2 h1)]; rfl

/-- C41. Every matchable pair of distinct tokens is a candidate, itself or (when its second token is the fee token) reversed. -/
theorem C41_complete {orders : List Order} {feeToken : Token} {pair : Token × Token} (hne : pair.1 ≠ pair.2) (h : MatchablePair orders feeToken pair) :
    pair ∈ eligibleTokenPairs orders feeToken ∨ (pair.2 = feeToken ∧ (pair.2, pair.1) ∈ eligibleTokenPairs orders feeToken) := by
  rw [C41_candidates, C41_candidates]
  obtain ⟨⟨o, ho, e1, e2⟩, _, h3⟩ := h
  by_cases e : pair.2 = feeToken
  · right
    refine ⟨e, hne.symm, ?_, ⟨o, ho, .inl e1⟩, .inl e⟩
    rw [← e]; exact hne
  · exact .inl ⟨hne, e, ⟨o, ho, .inr e2⟩, h3⟩

namespace ExBest
/-- Orders on B/S, a fee order and an unrelated order. -/
def orders : List Order := [Order.mk' "B" "S" 100 2 (some "x") "0", Order.mk' "S" "B" 100 1 (some "y") "1",
  Order.mk' "B" "F" 100 2 (some "y") "2", Order.mk' "U" "S" 100 2 (some "y") "3"]
end ExBest

example : (eligibleTokenPairs ExBest.orders "F").length = 5 ∧ ("B", "S") ∈ eligibleTokenPairs ExBest.orders "F" ∧
    ("S", "B") ∉ eligibleTokenPairs ExBest.orders "F" := by decide +kernel
example : ∀ o ∈ ExBest.orders, o.buyToken ≠ o.sellToken := by decide +kernel
example : MatchablePair ExBest.orders "F" ("B", "S") ∧ ¬ MatchablePair ExBest.orders "F" ("S", "U") :=
  ⟨⟨by decide +kernel, by decide +kernel, by decide +kernel⟩, fun h => absurd h.bSide (by decide +kernel)⟩

/-! ## C42 -/

theorem bestLoop_evaluations {cfg : Config} {ext : Ext} {accounts : Accounts} {fee : Fee} {visits : List ((Token × Token) × Bool)}
    {st0 st : BestState} (h : bestLoop cfg ext accounts fee visits st0 = .ok st) : ∃ l, Evaluations cfg ext accounts fee st0.orders visits l ∧
      ((st.sol = st0.sol ∧ st.objective = st0.objective ∧ ∀ e ∈ l, e.1 ≤ st0.objective) ∨
        ∃ l1 l2, l = l1 ++ (st.objective, st.sol) :: l2 ∧ st0.objective < st.objective ∧ (∀ e ∈ l1, e.1 < st.objective) ∧
          ∀ e ∈ l2, e.1 ≤ st.objective) := by
  induction visits generalizing st0 with
  | nil => cases h; exact ⟨[], .done, .inl ⟨rfl, rfl, by simp⟩⟩
  | cons v visits ih =>
    obtain ⟨pair, stop⟩ := v
    unfold bestLoop at h
    rw [bind_eq_ok] at h
    obtain ⟨⟨obj, sol, os'⟩, h1, h⟩ := h
    dsimp only at h
    cases stop with
    | true =>
      simp only [if_true] at h
      refine ⟨_, .timeout h1, ?_⟩
      by_cases hc : obj > st0.objective
      · rw [if_pos hc] at h; cases h
        exact .inr ⟨[], [], rfl, hc, by simp, by simp⟩
      · rw [if_neg hc] at h; cases h
        exact .inl ⟨rfl, rfl, by simpa using hc⟩
    | false =>
      simp only [Bool.false_eq_true, if_false] at h
      by_cases hc : obj > st0.objective
      · rw [if_pos hc] at h
        obtain ⟨l, hl, h2⟩ := ih h
        refine ⟨_, .next h1 hl, .inr ?_⟩
        rcases h2 with ⟨e1, e2, h3⟩ | ⟨l1, l2, e, h3, h4, h5⟩
        · refine ⟨[], l, by rw [e1, e2]; rfl, by rw [e2]; exact hc, by simp, by rw [e2]; exact h3⟩
        · refine ⟨(obj, sol) :: l1, l2, by rw [e]; rfl, lt_trans hc h3, ?_, h5⟩
          intro e he
          rcases List.mem_cons.1 he with rfl | he
          · exact h3
          · exact h4 e he
      · rw [if_neg hc] at h
        obtain ⟨l, hl, h2⟩ := ih h
        refine ⟨_, .next h1 hl, ?_⟩
        rcases h2 with ⟨e1, e2, h3⟩ | ⟨l1, l2, e, h3, h4, h5⟩
        · refine .inl ⟨e1, e2, ?_⟩
          intro e he
          rcases List.mem_cons.1 he with rfl | he
          · exact not_lt.1 hc
          · exact h3 e he
        · refine .inr ⟨(obj, sol) :: l1, l2, by rw [e]; rfl, h3, ?_, h5⟩
          intro e he
          rcases List.mem_cons.1 he with rfl | he
          · exact lt_of_le_of_lt (not_lt.1 hc) h3
          · exact h4 e he

/-- C42. For every sequence of visits and every time-out the search returns the first evaluated solution with the highest objective if that
is positive, and the trivial solution otherwise. -/
theorem C42_best_of_evaluated {cfg : Config} {ext : Ext} {accounts : Accounts} {orders : List Order} {fee : Fee}
    {visits : List ((Token × Token) × Bool)} {st : BestState} (h : bestTokenPair cfg ext accounts orders fee visits = .ok st) :
    ∃ l, Evaluations cfg ext accounts fee orders visits l ∧ (∀ e ∈ l, e.1 ≤ st.objective) ∧
      ((st.sol = .trivial ∧ st.objective = 0) ∨
        (0 < st.objective ∧ ∃ l1 l2, l = l1 ++ (st.objective, st.sol) :: l2 ∧ ∀ e ∈ l1, e.1 < st.objective)) := by
  obtain ⟨l, hl, ⟨h1, h2, h3⟩ | ⟨l1, l2, e, h1, h2, h3⟩⟩ := bestLoop_evaluations h
  · exact ⟨l, hl, by rw [h2]; exact h3, .inl ⟨h1, h2⟩⟩
  · refine ⟨l, hl, ?_, .inr ⟨h1, l1, l2, e, h2⟩⟩
    intro e' he
    rw [e] at he
    rcases List.mem_append.1 he with he | he
    · exact (h2 e' he).le
    · rcases List.mem_cons.1 he with rfl | he
      · exact le_refl _
      · exact h3 e' he

/-- C42. Every evaluated objective is the objective of the evaluated solution: its executed orders, at its prices, after its own account
updates. -/
theorem C42_objective_of_solution {cfg : Config} {ext : Ext} {accounts : Accounts} {fee : Fee} {orders : List Order}
    {visits : List ((Token × Token) × Bool)} {l : List (ℚ × Solution)} (h : Evaluations cfg ext accounts fee orders visits l) :
    ∀ e ∈ l, ∃ acc, updateAccounts accounts e.2.orders = .ok acc ∧
      computeObjectiveCore e.2.prices acc (e.2.orders.filter (fun o => decide (o.buy > 0))) fee = .ok e.1 := by
  have key : ∀ {os os' : List Order} {pair : Token × Token} {obj : ℚ} {sol : Solution},
      matchAndEvaluate cfg ext pair accounts os fee = .ok (obj, sol, os') → ∃ acc, updateAccounts accounts sol.orders = .ok acc ∧
      computeObjectiveCore sol.prices acc (sol.orders.filter (fun o => decide (o.buy > 0))) fee = .ok obj := by
    intro os os' pair obj sol h
    unfold matchAndEvaluate at h
    simp only [bind_eq_ok] at h
    obtain ⟨⟨sol', os''⟩, _, acc, h2, obj', h3, e⟩ := h
    cases e
    exact ⟨acc, h2, h3⟩
  induction h with
  | done => simp
  | timeout h1 =>
    intro e he
    rw [List.mem_singleton] at he
    subst he
    exact key h1
  | next h1 _ ih =>
    intro e he
    rcases List.mem_cons.1 he with rfl | he
    · exact key h1
    · exact ih e he

/-- The search on the example instance finds a solution with positive objective. -/
example : ∃ st, (do
      let (accounts, orders, fee) ← loadProblem Config.default ExInst.inst
      bestTokenPair Config.default ExInst.ext accounts orders fee [(("F", "B"), false), (("B", "S"), false), (("F", "S"), true), (("F", "B"), false)]) =
        .ok st ∧ 0 < st.objective ∧ nrExecuted st.sol.orders = 3 :=
  exists_of_pyCheck (p := fun st : BestState => 0 < st.objective ∧ nrExecuted st.sol.orders = 3) (by decide +kernel)

end Dex
