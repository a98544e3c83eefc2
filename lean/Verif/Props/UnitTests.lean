import Verif.Model.Tests
import Verif.Props.Amount
import Verif.Props.Validation
import Verif.Props.Errors
import Verif.Props.ExtraOrder

/-! # Property C88: what the property-based unit tests of the project assert, for all inputs of their generators -/

namespace Dex

namespace Spec

/-- What `random_order_list` can generate (tests/unit/strategies.py): one to four fresh orders on the given tokens, with an integer
maximum sell amount in the range and a limit rate between 1/10 and 10. -/
structure TestOrders (buy sell : Token) (lb ub : ℚ) (os : List Order) : Prop where
  size : 1 ≤ os.length ∧ os.length ≤ 4
  ids : (os.map (·.id)).Nodup
  tokens : ∀ o ∈ os, o.buyToken = buy ∧ o.sellToken = sell
  amount : ∀ o ∈ os, IsInt o.maxSell ∧ lb ≤ o.maxSell ∧ o.maxSell ≤ ub ∧ o.origMaxSell = o.maxSell
  rate : ∀ o ∈ os, 1 / 10 ≤ o.maxXrate ∧ o.maxXrate ≤ 10
  fresh : ∀ o ∈ os, o.buy = 0 ∧ o.sell = 0 ∧ o.accountId = none

instance (buy sell : Token) (lb ub : ℚ) (os : List Order) : Decidable (TestOrders buy sell lb ub os) :=
  decidable_of_iff ((1 ≤ os.length ∧ os.length ≤ 4) ∧ (os.map (·.id)).Nodup ∧ (∀ o ∈ os, o.buyToken = buy ∧ o.sellToken = sell) ∧
    (∀ o ∈ os, IsInt o.maxSell ∧ lb ≤ o.maxSell ∧ o.maxSell ≤ ub ∧ o.origMaxSell = o.maxSell) ∧
    (∀ o ∈ os, 1 / 10 ≤ o.maxXrate ∧ o.maxXrate ≤ 10) ∧ ∀ o ∈ os, o.buy = 0 ∧ o.sell = 0 ∧ o.accountId = none)
    ⟨fun ⟨a, b, c, d, e, f⟩ => ⟨a, b, c, d, e, f⟩, fun ⟨a, b, c, d, e, f⟩ => ⟨a, b, c, d, e, f⟩⟩

/-- The book of the solver tests: orders buying T0, orders selling T0, orders selling the fee token for T0, with distinct ids. -/
structure SolverTestBook (b s f : List Order) : Prop where
  buyers : TestOrders "T0" "T1" (10 ^ 14) (10 ^ 23) b
  sellers : TestOrders "T1" "T0" (10 ^ 14) (10 ^ 23) s
  feeSellers : TestOrders "T0" "F" (10 ^ 14) (10 ^ 23) f
  ids : ((b ++ s ++ f).map (·.id)).Nodup

/-- The input is not discarded by `assume(xrate_lb <= xrate_ub)`: some buyer's limit reaches some seller's. -/
def RatesMeet (fee : Fee) (b s : List Order) : Prop := ∃ o ∈ b, ∃ c ∈ s, 1 / (c.maxXrate * (1 - fee.value)) ≤ o.maxXrate * (1 - fee.value)

instance (fee : Fee) (b s : List Order) : Decidable (RatesMeet fee b s) := by unfold RatesMeet; infer_instance

end Spec

open Spec

/-! ## test_compute_buy_amounts_small -/

theorem mapE_eq_map {α β : Type} {f : α → Py β} {g : α → β} {l : List α} (h : ∀ a ∈ l, f a = .ok (g a)) : mapE f l = .ok (l.map g) := by
  induction l with
  | nil => rfl
  | cons a l ih =>
    unfold mapE
    rw [h a (List.mem_cons_self ..), ok_bind, ih (fun x hx => h x (List.mem_cons_of_mem _ hx)), ok_bind]
    rfl

theorem sold_two_sides {B S : List Order} {u v : Token} (huv : u ≠ v) (hB : ∀ o ∈ B, o.sellToken = v) (hS : ∀ o ∈ S, o.sellToken = u) (t : Token) :
    sold (B ++ S) t = if t = u then (S.map (·.sell)).sum else if t = v then (B.map (·.sell)).sum else 0 := by
  unfold sold
  rw [List.filter_append, List.map_append, List.sum_append]
  have e1 : B.filter (fun o => decide (o.sellToken = t)) = if t = v then B else [] := by
    split
    · rename_i h; exact List.filter_eq_self.2 (fun o ho => by simp [hB o ho, h])
    · rename_i h; exact List.filter_eq_nil_iff.2 (fun o ho => by simp [hB o ho, Ne.symm h])
  have e2 : S.filter (fun o => decide (o.sellToken = t)) = if t = u then S else [] := by
    split
    · rename_i h; exact List.filter_eq_self.2 (fun o ho => by simp [hS o ho, h])
    · rename_i h; exact List.filter_eq_nil_iff.2 (fun o ho => by simp [hS o ho, Ne.symm h])
  rw [e1, e2]
  by_cases h1 : t = u
  · subst h1; simp [huv]
  · by_cases h2 : t = v
    · subst h2; simp [h1]
    · simp [h1, h2]

theorem bought_two_sides {B S : List Order} {u v : Token} (huv : u ≠ v) (hB : ∀ o ∈ B, o.buyToken = u) (hS : ∀ o ∈ S, o.buyToken = v) (t : Token) :
    bought (B ++ S) t = if t = u then (B.map (·.buy)).sum else if t = v then (S.map (·.buy)).sum else 0 := by
  unfold bought
  rw [List.filter_append, List.map_append, List.sum_append]
  have e1 : B.filter (fun o => decide (o.buyToken = t)) = if t = u then B else [] := by
    split
    · rename_i h; exact List.filter_eq_self.2 (fun o ho => by simp [hB o ho, h])
    · rename_i h; exact List.filter_eq_nil_iff.2 (fun o ho => by simp [hB o ho, Ne.symm h])
  have e2 : S.filter (fun o => decide (o.buyToken = t)) = if t = v then S else [] := by
    split
    · rename_i h; exact List.filter_eq_self.2 (fun o ho => by simp [hS o ho, h])
    · rename_i h; exact List.filter_eq_nil_iff.2 (fun o ho => by simp [hS o ho, Ne.symm h])
  rw [e1, e2]
  by_cases h1 : t = u
  · subst h1; simp [huv]
  · by_cases h2 : t = v
    · subst h2; simp [h1]
    · simp [h1, h2]

theorem le_sum_of_mem {l : List ℚ} (h0 : ∀ q ∈ l, 0 ≤ q) {q : ℚ} (hq : q ∈ l) : q ≤ l.sum :=
  List.single_le_sum h0 q hq

/-- C88. `test_compute_buy_amounts_small` for every rate, fee, limit on the number of orders and list of orders on the two tokens, not only
small ones: executing at the rate and selling exactly what the rate asks for passes the final check. -/
theorem C88_amounts_any {cfg : Config} {fee : Fee} {b s : List Order} {x : ℚ} {maxNr : ℤ} (h : ExecInput cfg x fee maxNr b s)
    (hft : fee.token = "T0") (hf0 : 0 ≤ fee.value) (hmt : 0 ≤ cfg.minTradable) (hmm : cfg.minTradable ≤ cfg.minRationalTradable)
    (hfp : 0 < cfg.feeTokenPrice) (ha : cfg.minAvgFee = 0) (hb' : cfg.minAbsFee = 0) (hcap : ∀ o ∈ b ++ s, 0 ≤ o.maxSell)
    (hb : ∀ o ∈ b, o.buyToken = "T0" ∧ o.sellToken = "T1") (hs : ∀ o ∈ s, o.buyToken = "T1" ∧ o.sellToken = "T0") :
    testComputeBuyAmounts cfg fee b s x maxNr = .ok () := by
  obtain ⟨⟨b1, s1⟩, hr⟩ := C05_no_exception h
  have hx := h.ratePos
  have hφ : 0 < 1 - fee.value := by have := h.feeLt; linarith
  obtain ⟨q1, q2⟩ := C13_only_buy_changes h hr
  have tb : ∀ o ∈ b1, o.buyToken = "T0" ∧ o.sellToken = "T1" ∧ 0 ≤ o.maxSell := fun o ho => by
    obtain ⟨a, ha, e⟩ := forall₂_mem_right q1 o ho
    unfold SameButBuy at e
    have := hb a ha
    rw [e]; exact ⟨this.1, this.2, hcap a (List.mem_append_left _ ha)⟩
  have ts : ∀ o ∈ s1, o.buyToken = "T1" ∧ o.sellToken = "T0" ∧ 0 ≤ o.maxSell := fun o ho => by
    obtain ⟨a, ha, e⟩ := forall₂_mem_right q2 o ho
    unfold SameButBuy at e
    have := hs a ha
    rw [e]; exact ⟨this.1, this.2, hcap a (List.mem_append_right _ ha)⟩
  have hnum : (x.num : ℚ) ≠ 0 := by exact_mod_cast (Rat.num_pos.2 hx).ne'
  have hden : (x.den : ℚ) ≠ 0 := by exact_mod_cast x.den_nz
  have hdiv : (x.num : ℚ) / x.den = x := Rat.num_div_den x
  have eb : mapE (fun o => o.setSellRational [("T0", (x.num : ℚ)), ("T1", (x.den : ℚ))] fee) b1 =
      .ok (b1.map (fun o => o.withSell (soldB x fee o))) := mapE_eq_map fun o ho => by
    obtain ⟨h1, h2, _⟩ := tb o ho
    unfold Order.setSellRational
    rw [h1, h2, dictGet_of (v := (x.num : ℚ)) (by simp [dictGet?_cons]), dictGet_of (v := (x.den : ℚ)) (by simp [dictGet?_cons])]
    simp only [ok_bind, hnum, hden, ne_eq, not_false_eq_true, and_self, if_true, pyDiv, if_false, ratSellFromBuy, hφ.ne', hdiv]
    rfl
  have es : mapE (fun o => o.setSellRational [("T0", (x.num : ℚ)), ("T1", (x.den : ℚ))] fee) s1 =
      .ok (s1.map (fun o => o.withSell (soldS x fee o))) := mapE_eq_map fun o ho => by
    obtain ⟨h1, h2, _⟩ := ts o ho
    unfold Order.setSellRational
    rw [h1, h2, dictGet_of (v := (x.den : ℚ)) (by simp [dictGet?_cons]), dictGet_of (v := (x.num : ℚ)) (by simp [dictGet?_cons])]
    have hdiv' : (x.den : ℚ) / x.num = 1 / x := by conv_rhs => rw [← hdiv, one_div, inv_div]
    simp only [ok_bind, hnum, hden, ne_eq, not_false_eq_true, and_self, if_true, pyDiv, if_false, ratSellFromBuy, hφ.ne', hdiv']
    unfold soldS
    rw [mul_one_div]
    rfl
  unfold testComputeBuyAmounts
  rw [hr, ok_bind]
  dsimp only
  rw [eb, ok_bind, es, ok_bind]
  obtain ⟨l1, l2⟩ := C07_limit_rates h hr
  obtain ⟨m1, m2⟩ := C08_max_sell h hr
  obtain ⟨n1, n2⟩ := C09_min_tradable h hr
  obtain ⟨_, bal⟩ := C06_balanced h hr
  have bal1 := (C06_balanced h hr).1
  have cnt := C10_order_count h hr
  have accs : ([("A", [("T0", ((s1.map (fun o => o.withSell (soldS x fee o))).map (·.sell)).sum),
      ("T1", ((b1.map (fun o => o.withSell (soldB x fee o))).map (·.sell)).sum)])] : Accounts) =
      [("A", [("T0", (s1.map (soldS x fee)).sum), ("T1", (b1.map (soldB x fee)).sum)])] := by
    simp only [List.map_map]; rfl
  rw [accs]
  generalize hB : assignA (b1.map (fun o => o.withSell (soldB x fee o))) = B
  generalize hS : assignA (s1.map (fun o => o.withSell (soldS x fee o))) = S
  have mB : ∀ o ∈ B, ∃ a ∈ b1, o = { a with sell := soldB x fee a, accountId := some "A" } := by
    intro o ho
    rw [← hB] at ho
    unfold assignA at ho
    rw [List.map_map] at ho
    obtain ⟨a, ha, rfl⟩ := List.mem_map.1 ho
    exact ⟨a, ha, rfl⟩
  have mS : ∀ o ∈ S, ∃ a ∈ s1, o = { a with sell := soldS x fee a, accountId := some "A" } := by
    intro o ho
    rw [← hS] at ho
    unfold assignA at ho
    rw [List.map_map] at ho
    obtain ⟨a, ha, rfl⟩ := List.mem_map.1 ho
    exact ⟨a, ha, rfl⟩
  have sumB : (B.map (·.buy)).sum = (b1.map (·.buy)).sum := by rw [← hB]; unfold assignA; simp only [List.map_map]; rfl
  have sumS : (S.map (·.buy)).sum = (s1.map (·.buy)).sum := by rw [← hS]; unfold assignA; simp only [List.map_map]; rfl
  have sellB : (B.map (·.sell)).sum = (b1.map (soldB x fee)).sum := by rw [← hB]; unfold assignA; simp only [List.map_map]; rfl
  have sellS : (S.map (·.sell)).sum = (s1.map (soldS x fee)).sum := by rw [← hS]; unfold assignA; simp only [List.map_map]; rfl
  have hBuyB : ∀ o ∈ B, o.buyToken = "T0" := fun o ho => by obtain ⟨a, ha, rfl⟩ := mB o ho; exact (tb a ha).1
  have hBuyS : ∀ o ∈ S, o.buyToken = "T1" := fun o ho => by obtain ⟨a, ha, rfl⟩ := mS o ho; exact (ts a ha).1
  have hSellB : ∀ o ∈ B, o.sellToken = "T1" := fun o ho => by obtain ⟨a, ha, rfl⟩ := mB o ho; exact (tb a ha).2.1
  have hSellS : ∀ o ∈ S, o.sellToken = "T0" := fun o ho => by obtain ⟨a, ha, rfl⟩ := mS o ho; exact (ts a ha).2.1
  have hA : ∀ o ∈ B ++ S, o.accountId = some "A" := fun o ho => by
    rcases List.mem_append.1 ho with ho | ho
    · obtain ⟨a, _, rfl⟩ := mB o ho; rfl
    · obtain ⟨a, _, rfl⟩ := mS o ho; rfl
  have sld := sold_two_sides (u := "T0") (v := "T1") (by decide) hSellB hSellS
  have bgt := bought_two_sides (u := "T0") (v := "T1") (by decide) hBuyB hBuyS
  have hcount : nrExecuted (B ++ S) = ((b1 ++ s1).filter (fun o => decide (0 < o.buy))).length := by
    unfold nrExecuted
    rw [← hB, ← hS]
    unfold assignA
    simp only [List.map_map, List.filter_append, List.length_append, List.filter_map, List.length_map]
    rfl
  have hcons : ∀ o ∈ B ++ S, OrderConstraints { cfg with maxNrExec := maxNr } o := by
    intro o ho
    have hmq : (cfg.minTradable : ℚ) ≤ cfg.minRationalTradable := by exact_mod_cast hmm
    rcases List.mem_append.1 ho with ho | ho
    · obtain ⟨a, ha, rfl⟩ := mB o ho
      rcases (m1 a ha).1.eq_or_lt with hz | hp
      · have hz' : soldB x fee a = 0 := by unfold soldB; rw [← hz]; simp
        exact ⟨fun h' => absurd h' (by simp [← hz]), by simpa [hz'] using (tb a ha).2.2, .inl hz.symm, .inl hz'⟩
      · exact ⟨fun _ => (l1 a ha hp).2, (m1 a ha).2 hp, .inr (hmq.trans (n1 a ha hp).1), .inr (hmq.trans (n1 a ha hp).2)⟩
    · obtain ⟨a, ha, rfl⟩ := mS o ho
      rcases (m2 a ha).1.eq_or_lt with hz | hp
      · have hz' : soldS x fee a = 0 := by unfold soldS; rw [← hz]; simp
        exact ⟨fun h' => absurd h' (by simp [← hz]), by simpa [hz'] using (ts a ha).2.2, .inl hz.symm, .inl hz'⟩
      · exact ⟨fun _ => (l2 a ha hp).2, (m2 a ha).2 hp, .inr (hmq.trans (n2 a ha hp).1), .inr (hmq.trans (n2 a ha hp).2)⟩
  have hb0 : ∀ q ∈ b1.map (·.buy), 0 ≤ q := fun q hq => by obtain ⟨o, ho, rfl⟩ := List.mem_map.1 hq; exact (m1 o ho).1
  have hs0 : ∀ q ∈ s1.map (·.buy), 0 ≤ q := fun q hq => by obtain ⟨o, ho, rfl⟩ := List.mem_map.1 hq; exact (m2 o ho).1
  have hsS : (s1.map (soldS x fee)).sum = (s1.map (·.buy)).sum * (1 / x / (1 - fee.value)) := by
    rw [← sum_map_mul_right']
    congr 1
    apply List.map_congr_left
    intro o _
    unfold soldS; ring
  have hs0' : 0 ≤ (s1.map (·.buy)).sum := List.sum_nonneg hs0
  have hb0' : 0 ≤ (b1.map (·.buy)).sum := List.sum_nonneg hb0
  have hbB : (b1.map (·.buy)).sum = (s1.map (·.buy)).sum * ((1 - fee.value) / x) := by field_simp; linarith
  have hle : (b1.map (·.buy)).sum ≤ (s1.map (soldS x fee)).sum := by
    rw [hbB, hsS]
    refine mul_le_mul_of_nonneg_left ?_ hs0'
    rw [div_div, div_le_div_iff₀ hx (mul_pos hx hφ)]
    have : (1 - fee.value) * (1 - fee.value) ≤ 1 := by nlinarith
    nlinarith
  refine (C30_validate_iff (cfg := { cfg with maxNrExec := maxNr }) ⟨?_, ?_, ?_, ?_, hmt, hfp.ne'⟩).2 ⟨?_, ?_⟩
  · show (["T0", "T1"] : List Token).Nodup
    decide
  · intro o ho
    rcases List.mem_append.1 ho with ho | ho
    · exact ⟨⟨("T0", _), List.mem_cons_self .., (hBuyB o ho).symm⟩, ⟨("T1", _), List.mem_cons_of_mem _ (List.mem_cons_self ..), (hSellB o ho).symm⟩⟩
    · exact ⟨⟨("T1", _), List.mem_cons_of_mem _ (List.mem_cons_self ..), (hBuyS o ho).symm⟩, ⟨("T0", _), List.mem_cons_self .., (hSellS o ho).symm⟩⟩
  · exact ⟨("T0", _), List.mem_cons_self .., hft.symm⟩
  · exact fun o ho => ⟨"A", hA o ho, _, List.mem_singleton.2 rfl, rfl⟩
  · intro p hp
    simp only [List.mem_cons, List.not_mem_nil, or_false] at hp
    rcases hp with rfl | rfl
    · exact isInt_intCast _
    · exact isInt_intCast (x.den : ℤ)
  by_cases hz : nrExecuted (B ++ S) = 0
  · exact .inl hz
  right
  have hpos : 1 ≤ (b1.map (·.buy)).sum := by
    have hmin : (1 : ℚ) ≤ cfg.minRationalTradable := by exact_mod_cast h.minPos
    rw [hcount] at hz
    obtain ⟨o, ho⟩ := List.exists_mem_of_length_pos (Nat.pos_of_ne_zero hz)
    obtain ⟨ho, hop⟩ := List.mem_filter.1 ho
    have hop : 0 < o.buy := by simpa using hop
    rcases List.mem_append.1 ho with ho | ho
    · exact (hmin.trans (n1 o ho hop).1).trans (le_sum_of_mem hb0 (List.mem_map_of_mem ho))
    · have h1 : 0 < (s1.map (·.buy)).sum := hop.trans_le (le_sum_of_mem hs0 (List.mem_map_of_mem ho))
      have h2 : 0 < (b1.map (·.buy)).sum := by rw [hbB]; exact mul_pos h1 (div_pos hφ hx)
      obtain ⟨c, hc, hcp⟩ : ∃ c ∈ b1, 0 < c.buy := by
        by_contra hno
        push Not at hno
        have : (b1.map (·.buy)).sum = 0 := List.sum_eq_zero (fun q hq => by
          obtain ⟨c, hc, rfl⟩ := List.mem_map.1 hq; exact le_antisymm (hno c hc) (m1 c hc).1)
        linarith
      exact (hmin.trans (n1 c hc hcp).1).trans (le_sum_of_mem hb0 (List.mem_map_of_mem hc))
  constructor
  · rw [hcount]; exact cnt
  · exact hcons
  · intro t ht
    rw [hft] at ht
    rw [sld, bgt, if_neg ht, if_neg ht]
    split
    · rw [sellB, sumS, bal]
    · rfl
  · rw [hft, sld, bgt, if_pos rfl, if_pos rfl, sellS, sumB]; exact hle
  · refine ⟨_, rfl, ?_⟩
    show cfg.minAvgFee ≤ _
    rw [ha, hft, sld, bgt, if_pos rfl, if_pos rfl, sellS, sumB]
    exact div_nonneg (by linarith) (Nat.cast_nonneg _)
  · intro o ho hst hop p hp
    show cfg.minAbsFee ≤ _
    rw [hb']
    refine div_nonneg (mul_nonneg (mul_nonneg hop.le ?_) hf0) (by exact_mod_cast hfp.le)
    obtain ⟨e, he, rfl⟩ := hp
    have := List.mem_of_find?_eq_some he
    simp only [List.mem_cons, List.not_mem_nil, or_false] at this
    rcases this with rfl | rfl
    · show (0 : ℚ) ≤ x.num
      exact_mod_cast (Rat.num_pos.2 hx).le
    · exact Nat.cast_nonneg x.den
  · intro o ho a ha t ht
    rw [hA o ho] at ha
    cases ha
    unfold gain
    rw [List.filter_eq_self.2 (fun o ho => by simp [hA o ho])]
    rw [sld, bgt]
    obtain ⟨p, hp, rfl⟩ := ht
    simp only [List.mem_cons, List.not_mem_nil, or_false] at hp
    rcases hp with rfl | rfl
    · have e : balanceOf [("A", [("T0", (s1.map (soldS x fee)).sum), ("T1", (b1.map (soldB x fee)).sum)])] "A" "T0" = (s1.map (soldS x fee)).sum := rfl
      rw [e]
      simp only [if_true]
      rw [sellS, sumB]
      unfold trunc
      rw [if_pos (hb0'.trans hle)]
      have := Int.lt_floor_add_one (s1.map (soldS x fee)).sum
      linarith
    · have e : balanceOf [("A", [("T0", (s1.map (soldS x fee)).sum), ("T1", (b1.map (soldB x fee)).sum)])] "A" "T1" = (b1.map (soldB x fee)).sum := rfl
      rw [e]
      simp only [show ("T1" : Token) ≠ "T0" from by decide, if_false, if_true]
      rw [sellB, sumS, bal]
      unfold trunc
      rw [if_pos hs0']
      have : (0 : ℚ) ≤ ⌊(s1.map (·.buy)).sum⌋ := by exact_mod_cast Int.floor_nonneg.2 hs0'
      linarith

/-- C88. `test_compute_buy_amounts_small` passes on everything its generators can produce. -/
theorem C88_amounts_test {b s : List Order} {x : ℚ} {maxNr : ℤ} (hb : TestOrders "T0" "T1" 9000 200000 b)
    (hs : TestOrders "T1" "T0" 9000 200000 s) (hx : 1 / 10 ≤ x ∧ x ≤ 10) (hn : 2 ≤ maxNr ∧ maxNr ≤ 8) :
    testComputeBuyAmounts Config.default testFee0 b s x maxNr = .ok () :=
  C88_amounts_any ⟨by decide, lt_of_lt_of_le (by norm_num) hx.1, by norm_num [testFee0], by omega, hb.ids, hs.ids⟩ rfl
    (by norm_num [testFee0]) (by decide) (by decide) (by decide) rfl rfl
    (fun o ho => by
      rcases List.mem_append.1 ho with ho | ho
      · exact le_trans (by norm_num) (hb.amount o ho).2.1
      · exact le_trans (by norm_num) (hs.amount o ho).2.1) hb.tokens hs.tokens

namespace ExTests

/-- The first explicit example of the test (tests/unit/amount_test_examples.py:5-17): of the two sellers one is executed. -/
def b1 : List Order := [Order.mk' "T0" "T1" 20019 (3 / 10) none "0"]
def s1 : List Order := [Order.mk' "T1" "T0" 50096 (51 / 10) none "1", Order.mk' "T1" "T0" 50096 (16567 / 3310) none "2"]

example : TestOrders "T0" "T1" 9000 200000 b1 ∧ TestOrders "T1" "T0" 9000 200000 s1 := by decide +kernel

/-- The second (amount_test_examples.py:20-34). -/
def b2 : List Order := [Order.mk' "T0" "T1" 10009 (313 / 330) none "0", Order.mk' "T0" "T1" 136536 1 none "1"]
def s2 : List Order := [Order.mk' "T1" "T0" 9000 (1 / 10) none "2", Order.mk' "T1" "T0" 9000 (1 / 10) none "3",
  Order.mk' "T1" "T0" 21481 (11 / 10) none "4", Order.mk' "T1" "T0" 123177 (11 / 10) none "5"]

example : TestOrders "T0" "T1" 9000 200000 b2 ∧ TestOrders "T1" "T0" 9000 200000 s2 ∧
    ∃ r, computeBuyAmounts Config.default (61144 / 64715) b2 s2 testFee0 4 = .ok r ∧ nrExecuted (r.1 ++ r.2) = 3 :=
  ⟨by decide +kernel, by decide +kernel, exists_of_pyCheck (p := fun r : List Order × List Order => nrExecuted (r.1 ++ r.2) = 3) (by decide +kernel)⟩

end ExTests

/-! ## The solver tests -/

theorem sum_filter_le {l : List Order} {p : Order → Bool} (h : ∀ o ∈ l, 0 ≤ o.maxSell) :
    ((l.filter p).map (·.maxSell)).sum ≤ (l.map (·.maxSell)).sum := by
  induction l with
  | nil => simp
  | cons a l ih =>
    have := ih (fun o ho => h o (List.mem_cons_of_mem _ ho))
    have h0 := h a (List.mem_cons_self ..)
    rw [List.filter_cons]
    split <;> simp only [List.map_cons, List.sum_cons] <;> linarith

theorem sum_filter_none {l : List Order} {p : Order → Bool} (h : ∀ o ∈ l, p o = false) : ((l.filter p).map (·.maxSell)).sum = 0 := by
  rw [List.filter_eq_nil_iff.2 (fun o ho => by simp [h o ho])]; rfl

theorem testOrders_sum {buy sell : Token} {lb ub : ℚ} {os : List Order} (hl : 0 ≤ lb) (h : TestOrders buy sell lb ub os) :
    0 ≤ (os.map (·.maxSell)).sum ∧ IsInt (os.map (·.maxSell)).sum := by
  constructor
  · exact List.sum_nonneg (fun q hq => by obtain ⟨o, ho, rfl⟩ := List.mem_map.1 hq; exact hl.trans (h.amount o ho).2.1)
  · exact isInt_sum fun o ho => (h.amount o ho).1

/-- The accounts of the solver tests back the orders. -/
theorem Spec.SolverTestBook.backed {b s f : List Order} (h : SolverTestBook b s f) :
    Pool (assignA b ++ assignA s ++ assignA f) ∧
    Backed [("A", [("T0", (s.map (·.maxSell)).sum), ("T1", (b.map (·.maxSell)).sum), ("F", (f.map (·.maxSell)).sum)])]
      (assignA b ++ assignA s ++ assignA f) ∧
    BookOf (assignA b ++ assignA s ++ assignA f) ("T0", "T1") testFeeF { b := assignA b, s := assignA s, f := assignA f } := by
  have hids : ∀ l : List Order, (assignA l).map (·.id) = l.map (·.id) := fun l => by unfold assignA; rw [List.map_map]; rfl
  have hmax : ∀ l : List Order, (assignA l).map (·.maxSell) = l.map (·.maxSell) := fun l => by unfold assignA; rw [List.map_map]; rfl
  have hmem : ∀ {l : List Order} {o : Order}, o ∈ assignA l → ∃ a ∈ l, o = { a with accountId := some "A" } := fun ho => by
    obtain ⟨a, ha, rfl⟩ := List.mem_map.1 ho; exact ⟨a, ha, rfl⟩
  have hok : ∀ {l : List Order} {u v : Token}, TestOrders u v (10 ^ 14) (10 ^ 23) l → ∀ o ∈ assignA l,
      (o.buyToken = u ∧ o.sellToken = v) ∧ o.accountId = some "A" ∧ 0 < o.maxXrate ∧ 0 ≤ o.maxSell ∧ o.maxSell ≤ o.origMaxSell := by
    intro l u v hl o ho
    obtain ⟨a, ha, rfl⟩ := hmem ho
    refine ⟨hl.tokens a ha, rfl, lt_of_lt_of_le (by norm_num) (hl.rate a ha).1, le_trans (by norm_num) (hl.amount a ha).2.1, ?_⟩
    exact (hl.amount a ha).2.2.2.ge
  have okB := hok h.buyers
  have okS := hok h.sellers
  have okF := hok h.feeSellers
  have sB := testOrders_sum (by norm_num) h.buyers
  have sS := testOrders_sum (by norm_num) h.sellers
  have sF := testOrders_sum (by norm_num) h.feeSellers
  refine ⟨⟨?_, ?_⟩, ⟨?_, ?_, ?_⟩, ?_⟩
  · rw [List.map_append, List.map_append, hids, hids, hids, ← List.map_append, ← List.map_append]; exact h.ids
  · intro o ho
    rcases List.mem_append.1 ho with ho | ho
    · rcases List.mem_append.1 ho with ho | ho
      · exact (okB o ho).2.2
      · exact (okS o ho).2.2
    · exact (okF o ho).2.2
  · intro o ho
    refine ⟨"A", ?_, _, List.mem_singleton.2 rfl, rfl⟩
    rcases List.mem_append.1 ho with ho | ho
    · rcases List.mem_append.1 ho with ho | ho
      · exact (okB o ho).2.1
      · exact (okS o ho).2.1
    · exact (okF o ho).2.1
  · intro a ts tb
    rw [List.filter_append, List.filter_append, List.map_append, List.map_append, List.sum_append, List.sum_append]
    have lB := sum_filter_le (l := assignA b) (p := fun o => decide (o.accountId = some a ∧ o.sellToken = ts ∧ o.buyToken = tb))
      (fun o ho => (okB o ho).2.2.2.1)
    have lS := sum_filter_le (l := assignA s) (p := fun o => decide (o.accountId = some a ∧ o.sellToken = ts ∧ o.buyToken = tb))
      (fun o ho => (okS o ho).2.2.2.1)
    have lF := sum_filter_le (l := assignA f) (p := fun o => decide (o.accountId = some a ∧ o.sellToken = ts ∧ o.buyToken = tb))
      (fun o ho => (okF o ho).2.2.2.1)
    rw [hmax] at lB lS lF
    have zB : ¬ (a = "A" ∧ ts = "T1") → (((assignA b).filter (fun o => decide (o.accountId = some a ∧ o.sellToken = ts ∧ o.buyToken = tb))).map
        (·.maxSell)).sum = 0 := fun hn => sum_filter_none fun o ho => by
      obtain ⟨⟨_, h2⟩, h3, _⟩ := okB o ho
      simp only [h2, h3, Option.some.injEq, decide_eq_false_iff_not]
      rintro ⟨e1, e2, _⟩; exact hn ⟨e1.symm, e2.symm⟩
    have zS : ¬ (a = "A" ∧ ts = "T0") → (((assignA s).filter (fun o => decide (o.accountId = some a ∧ o.sellToken = ts ∧ o.buyToken = tb))).map
        (·.maxSell)).sum = 0 := fun hn => sum_filter_none fun o ho => by
      obtain ⟨⟨_, h2⟩, h3, _⟩ := okS o ho
      simp only [h2, h3, Option.some.injEq, decide_eq_false_iff_not]
      rintro ⟨e1, e2, _⟩; exact hn ⟨e1.symm, e2.symm⟩
    have zF : ¬ (a = "A" ∧ ts = "F") → (((assignA f).filter (fun o => decide (o.accountId = some a ∧ o.sellToken = ts ∧ o.buyToken = tb))).map
        (·.maxSell)).sum = 0 := fun hn => sum_filter_none fun o ho => by
      obtain ⟨⟨_, h2⟩, h3, _⟩ := okF o ho
      simp only [h2, h3, Option.some.injEq, decide_eq_false_iff_not]
      rintro ⟨e1, e2, _⟩; exact hn ⟨e1.symm, e2.symm⟩
    by_cases hA : a = "A"
    · subst hA
      by_cases h0 : ts = "T0"
      · subst h0
        rw [zB (by simp), zF (by simp)]
        show _ ≤ (s.map (·.maxSell)).sum
        linarith
      by_cases h1 : ts = "T1"
      · subst h1
        rw [zS (by simp), zF (by simp)]
        show _ ≤ (b.map (·.maxSell)).sum
        linarith
      by_cases h2 : ts = "F"
      · subst h2
        rw [zB (by simp), zS (by simp)]
        show _ ≤ (f.map (·.maxSell)).sum
        linarith
      rw [zB (by simp [h1]), zS (by simp [h0]), zF (by simp [h2])]
      simp [balanceOf, Ne.symm h0, Ne.symm h1, Ne.symm h2]
    · rw [zB (by simp [hA]), zS (by simp [hA]), zF (by simp [hA])]
      simp [balanceOf, Ne.symm hA]
  · refine balanceOf_int ?_ ?_
    · intro p hp q hq
      rw [List.mem_singleton.1 hp] at hq
      simp only [List.mem_cons, List.not_mem_nil, or_false] at hq
      rcases hq with rfl | rfl | rfl
      · exact sS.1
      · exact sB.1
      · exact sF.1
    · intro p hp q hq
      rw [List.mem_singleton.1 hp] at hq
      simp only [List.mem_cons, List.not_mem_nil, or_false] at hq
      rcases hq with rfl | rfl | rfl
      · exact sS.2
      · exact sB.2
      · exact sF.2
  · exact ⟨fun o ho => der_self (List.mem_append_left _ (List.mem_append_left _ ho)),
      fun o ho => der_self (List.mem_append_left _ (List.mem_append_right _ ho)), fun o ho => der_self (List.mem_append_right _ ho),
      (hids b).symm ▸ h.buyers.ids, (hids s).symm ▸ h.sellers.ids, (hids f).symm ▸ h.feeSellers.ids, fun o ho => (okB o ho).1,
      fun o ho => (okS o ho).1, fun _ o ho => (okF o ho).1⟩

theorem assignA_ne_nil {buy sell : Token} {lb ub : ℚ} {os : List Order} (h : TestOrders buy sell lb ub os) : assignA os ≠ [] := by
  have := h.size.1
  intro e
  unfold assignA at e
  rw [List.map_eq_nil_iff] at e
  rw [e] at this
  simp at this

/-- C88. `test_solve_token_pair_and_fee_token` on everything its generators can produce: it fails only by one of the failures of the rate
search. No assertion of the final check and no lookup fails. -/
theorem C88_solver_test {ext : Ext} (hbr : ∀ E, MaxBranching E (ext.branch E)) (hd : ∀ q n, 0 ≤ q → 0 < n → ∃ r, ext.fdiv q n = .ok r ∧ 0 ≤ r)
    {b s f : List Order} (h : SolverTestBook b s f) {e : PyErr} (he : testSolver Config.default ext testFeeF 0 0 b s f = .error e) :
    SearchFailure ext.sqrt e := by
  obtain ⟨hp, hk, hb⟩ := h.backed
  have hset : SolverSetting { Config.default with minAvgFee := 0, minAbsFee := 0 } ext ("T0", "T1") testFeeF none :=
    ⟨by constructor <;> decide, by norm_num [testFeeF], by norm_num [testFeeF, Config.default], by decide, hbr, by simp, rfl, rfl, hd⟩
  have hO := only_solveEconomicViable hset (by norm_num [testFeeF]) hp hk hb (assignA_ne_nil h.buyers) (assignA_ne_nil h.sellers)
  exact only_bind hO (fun _ _ => only_pure _) e he

theorem allE_total {α : Type} {p : α → Py Bool} {l : List α} (h : ∀ a ∈ l, ∃ r, p a = .ok r) : ∃ r, allE p l = .ok r := by
  induction l with
  | nil => exact ⟨true, rfl⟩
  | cons a l ih =>
    obtain ⟨r, hr⟩ := h a (List.mem_cons_self ..)
    unfold allE
    rw [hr, ok_bind]
    split
    · exact ih fun x hx => h x (List.mem_cons_of_mem _ hx)
    · exact ⟨false, rfl⟩

theorem allE_true {α : Type} {p : α → Py Bool} {l : List α} (h : allE p l = .ok true) : ∀ a ∈ l, p a = .ok true := by
  induction l with
  | nil => simp
  | cons a l ih =>
    unfold allE at h
    obtain ⟨r, hr, h⟩ := bind_eq_ok.1 h
    cases r with
    | false => simp [pure_eq_ok] at h
    | true =>
      intro x hx
      rcases List.mem_cons.1 hx with rfl | hx
      · exact hr
      · exact ih (by simpa using h) x hx

/-- A solution that passes the final check without thresholds can only fail the two threshold assertions when there are thresholds. -/
theorem only_validate_thresholds {cfg : Config} {fdiv : ℚ → ℕ → Py ℚ} {accounts : Accounts} {orders : List Order} {prices : Prices} {fee : Fee}
    (h : validate { cfg with minAvgFee := 0, minAbsFee := 0 } fdiv accounts orders prices fee = .ok ()) :
    Only (fun e => e = .assertion "validation.py:74" ∨ e = .assertion "validation.py:77") (validate cfg fdiv accounts orders prices fee) := by
  unfold validate at h ⊢
  obtain ⟨_, h1, h⟩ := bind_eq_ok.1 h
  rw [h1, ok_bind]
  dsimp only at h ⊢
  by_cases hz : countNrExec orders = 0
  · rw [if_pos hz]; exact only_pure _
  rw [if_neg hz] at h ⊢
  obtain ⟨_, h2, h⟩ := bind_eq_ok.1 h
  obtain ⟨accs, h3, h⟩ := bind_eq_ok.1 h
  obtain ⟨st, h4, h⟩ := bind_eq_ok.1 h
  obtain ⟨_, h5, h⟩ := bind_eq_ok.1 h
  obtain ⟨total, h6, h⟩ := bind_eq_ok.1 h
  obtain ⟨avg, h7, h⟩ := bind_eq_ok.1 h
  obtain ⟨_, h8, h⟩ := bind_eq_ok.1 h
  obtain ⟨ok, h9, h⟩ := bind_eq_ok.1 h
  obtain ⟨_, h10, h11⟩ := bind_eq_ok.1 h
  have h4' : foldE (validateStep cfg) { balances := (dictKeys prices).map (fun t => (t, (0 : ℚ))), accs } orders = .ok st := h4
  rw [h2, ok_bind, h3, ok_bind, h4', ok_bind, h5, ok_bind, h6, ok_bind, h7, ok_bind]
  refine only_bind ?_ fun _ _ => ?_
  · intro e he
    unfold pyAssert at he
    split at he
    · cases he
    · cases he; exact .inl rfl
  rw [pyAssert_eq_ok.1 h10] at h9
  obtain ⟨r, hr⟩ := allE_total (p := fun o : Order => do
        let v ← o.feePaid cfg prices fee
        pure (decide (v ≥ cfg.minAbsFee))) (l := orders.filter (fun o : Order => decide (o.sellToken ≠ fee.token ∧ o.buy > 0))) (fun o ho => by
      obtain ⟨v, hv, _⟩ := bind_eq_ok.1 (allE_true h9 o ho)
      have hv' : o.feePaid cfg prices fee = .ok v := hv
      rw [hv', ok_bind]; exact ⟨_, rfl⟩)
  rw [hr, ok_bind]
  refine only_bind ?_ fun _ _ => ?_
  · intro e he
    unfold pyAssert at he
    split at he
    · cases he
    · cases he; exact .inr rfl
  rw [h11]
  intro e he; cases he

/-- C88. `test_min_average_order_fee_constraint` and `test_min_absolute_order_fee_constraint` (any thresholds, in fact) on everything their
generators can produce: besides the failures of the rate search only `ValueError` and the two threshold assertions of the final check. -/
theorem C88_threshold_tests {ext : Ext} (hbr : ∀ E, MaxBranching E (ext.branch E))
    (hd : ∀ q n, 0 ≤ q → 0 < n → ∃ r, ext.fdiv q n = .ok r ∧ 0 ≤ r) {minAvg minAbs : ℚ}
    {b s f : List Order} (h : SolverTestBook b s f) {e : PyErr} (he : testSolver Config.default ext testFeeF minAvg minAbs b s f = .error e) :
    SearchFailure ext.sqrt e ∨ e = .valueError ∨ e = .assertion "validation.py:74" ∨ e = .assertion "validation.py:77" := by
  obtain ⟨hp, hk, hb⟩ := h.backed
  have hc0 : CfgOk { Config.default with minAvgFee := 0, minAbsFee := 0 } := by constructor <;> decide
  have hc : CfgOk { Config.default with minAvgFee := minAvg, minAbsFee := minAbs } :=
    ⟨hc0.minPos, hc0.slack, hc0.limit, hc0.feePrice, hc0.volume, hc0.error⟩
  have hf1 : testFeeF.value < 1 := by norm_num [testFeeF]
  unfold testSolver at he
  dsimp only at he
  refine only_bind (E := fun e => SearchFailure ext.sqrt e ∨ e = .valueError ∨ e = .assertion "validation.py:74" ∨
    e = .assertion "validation.py:77") ?_ (fun _ _ => only_pure _) e he
  unfold solveEconomicViable
  refine only_bind (fun e he => ?_) fun r hr => ?_
  · rcases C55_any_thresholds hp hc hf1 (by norm_num [testFeeF]) (by decide) hbr (by simp) hb he with h' | h'
    · exact .inl h'
    · exact .inr (.inl h')
  obtain ⟨sol, objs⟩ := r
  dsimp only
  refine only_bind (fun e he => ?_) fun _ _ => only_pure _
  obtain ⟨h1, _⟩ := economicLoop_spec hp hc hf1 (by decide) hbr (by simp) hb (by simp) (.inl rfl) hr
  refine .inr (.inr (only_validate_thresholds ?_ e he))
  rcases h1 with rfl | hg
  · exact validate_trivial
  · have hg0 : GoodSolution { Config.default with minAvgFee := 0, minAbsFee := 0 } testFeeF _ sol :=
      ⟨hg.keys, hg.intPrices, hg.feePriced, hg.priced, hg.ids, hg.der, hg.onPrice, hg.amounts,
        fun o ho => ⟨(hg.constraints o ho).limit, (hg.constraints o ho).maxSell, (hg.constraints o ho).minBuy, (hg.constraints o ho).minSell⟩,
        hg.balanced, hg.feeToken, hg.count, hg.sellDet, hg.exec, hg.feePrice⟩
    obtain ⟨g1, g2⟩ := validate_good hp hk hc0 ⟨rfl, rfl, hd⟩ (by norm_num [testFeeF]) (by norm_num [testFeeF, Config.default]) hg0
    exact (C30_validate_iff g1).2 ⟨fun p hp => (hg.intPrices p hp).2, g2⟩

namespace ExTests

/-- The graph of the test's matched orders. -/
def graph : List (Token × Token) := [("T1", "T0"), ("T0", "T1"), ("F", "T0")]

noncomputable def branch (E : List (Token × Token)) : List (Token × Token) :=
  if E = graph then [("F", "T0"), ("T0", "T1")] else (exists_maxBranching E).choose

/-- Square roots as Python computes them, a maximum branching, exact division. -/
noncomputable def ext : Ext := { sqrt := ExDouble.sqrt, branch, fdiv := fun q n => .ok (q / n) }

theorem branch_max (E : List (Token × Token)) : MaxBranching E (ext.branch E) := by
  show MaxBranching E (branch E)
  unfold branch
  split
  · rename_i h
    subst h
    refine ⟨⟨by decide, by decide, ⟨fun t => if t = "F" then 0 else if t = "T0" then 1 else 2, by decide⟩⟩, ?_⟩
    intro br hb
    have hsub : br.map (·.2) ⊆ ["T0", "T1"] := by
      intro t ht
      obtain ⟨e, he, rfl⟩ := List.mem_map.1 ht
      have := hb.sub e he
      simp only [graph, List.mem_cons, List.not_mem_nil, or_false] at this
      rcases this with rfl | rfl | rfl <;> decide
    have := (hb.inDeg.subperm hsub).length_le
    simpa using this
  · exact (exists_maxBranching E).choose_spec

def buyer (sell rate : ℚ) (id : String) : Order := Order.mk' "T0" "T1" sell rate none id
def seller (sell rate : ℚ) (id : String) : Order := Order.mk' "T1" "T0" sell rate none id
def feeSeller (sell rate : ℚ) (id : String) : Order := Order.mk' "T0" "F" sell rate none id

/-- A book with two neighbouring limit rates of equal value. -/
def tieB : List Order := [buyer (9688 * 10 ^ 16) 1 "0", buyer (27972 * 10 ^ 16) (11 / 10) "1"]
def tieS : List Order := [seller (15984 * 10 ^ 16) (11 / 10) "2", seller (20979 * 10 ^ 16) (7 / 5) "3"]

end ExTests

/-- C88. `test_solve_token_pair_and_fee_token` can fail: a book within the range of its generators on which the solver raises
`AssertionError`. -/
theorem C88_solver_test_can_fail : SolverTestBook ExTests.tieB ExTests.tieS [ExTests.feeSeller (10 ^ 21) 1 "4"] ∧
    testSolver Config.default ExTests.ext testFeeF 0 0 ExTests.tieB ExTests.tieS [ExTests.feeSeller (10 ^ 21) 1 "4"] =
      .error (.assertion "xrate.py:440") :=
  ⟨⟨by decide +kernel, by decide +kernel, by decide +kernel, by decide +kernel⟩, eq_error_of_pyRaises (by decide +kernel)⟩

/-- C88. `test_min_average_order_fee_constraint` (threshold 10 fee tokens) can fail: one order of 12000 tokens on each side. -/
theorem C88_average_fee_test_can_fail : SolverTestBook [ExTests.buyer (12 * 10 ^ 21) 2 "0"] [ExTests.seller (12 * 10 ^ 21) 2 "1"]
      [ExTests.feeSeller (10 ^ 21) 1 "2"] ∧
    testSolver Config.default ExTests.ext testFeeF (10 ^ 19) 0 [ExTests.buyer (12 * 10 ^ 21) 2 "0"] [ExTests.seller (12 * 10 ^ 21) 2 "1"]
      [ExTests.feeSeller (10 ^ 21) 1 "2"] = .error .valueError :=
  ⟨⟨by decide +kernel, by decide +kernel, by decide +kernel, by decide +kernel⟩, eq_error_of_pyRaises (by decide +kernel)⟩

/-- C88. `test_min_absolute_order_fee_constraint` (threshold 10 fee tokens) can fail: the buyer pays slightly less than the threshold and
the seller slightly more. -/
theorem C88_absolute_fee_test_can_fail : SolverTestBook [ExTests.buyer (10025 * 10 ^ 18) 2 "0"] [ExTests.seller (10025 * 10 ^ 18) 2 "1"]
      [ExTests.feeSeller (10 ^ 21) 1 "2"] ∧
    testSolver Config.default ExTests.ext testFeeF 0 (10 ^ 19) [ExTests.buyer (10025 * 10 ^ 18) 2 "0"] [ExTests.seller (10025 * 10 ^ 18) 2 "1"]
      [ExTests.feeSeller (10 ^ 21) 1 "2"] = .error .valueError :=
  ⟨⟨by decide +kernel, by decide +kernel, by decide +kernel, by decide +kernel⟩, eq_error_of_pyRaises (by decide +kernel)⟩

/-- Without thresholds the last book passes (`C88_solver_test` is not only about failing books). -/
example : testSolver Config.default ExTests.ext testFeeF 0 0 [ExTests.buyer (12 * 10 ^ 21) 2 "0"] [ExTests.seller (12 * 10 ^ 21) 2 "1"]
    [ExTests.feeSeller (10 ^ 21) 1 "2"] = .ok () := by
  obtain ⟨_, h, _⟩ := exists_of_pyCheck (x := testSolver Config.default ExTests.ext testFeeF 0 0 [ExTests.buyer (12 * 10 ^ 21) 2 "0"]
    [ExTests.seller (12 * 10 ^ 21) 2 "1"] [ExTests.feeSeller (10 ^ 21) 1 "2"]) (p := fun _ => True) (by decide +kernel)
  exact h

/-! ## test_find_best_xrate -/

namespace ExTests

/-- A book with a better rate than the one found. -/
def gridB : List Order := [buyer (10 ^ 17) 1 "0"]
def gridS : List Order := [seller (10 ^ 17) 10 "1", seller (10 ^ 14) (5 / 4) "2", seller (10 ^ 14) (31 / 25) "3",
  seller (11 * 10 ^ 15) (123 / 100) "4"]

/-- One order on each side whose limits meet in a single rate. -/
def pointB : List Order := [buyer (10 ^ 17) (1000000 / 998001) "0"]
def pointS : List Order := [seller (10 ^ 17) 1 "1"]

end ExTests

/-- C88. `test_find_best_xrate` can fail: within the range of its generators there is a book with a better rate on the test's grid than the
one the search returns. -/
theorem C88_rate_test_can_fail : TestOrders "T0" "T1" (10 ^ 14) (10 ^ 23) ExTests.gridB ∧ TestOrders "T1" "T0" (10 ^ 14) (10 ^ 23) ExTests.gridS ∧
    RatesMeet testFee0 ExTests.gridB ExTests.gridS ∧
    testFindBestXrate Config.default ExDouble.sqrt 200 ExTests.gridB ExTests.gridS = .error (.assertion "xrate_test.py:58") :=
  ⟨by decide +kernel, by decide +kernel, by decide +kernel, eq_error_of_pyRaises (by decide +kernel)⟩

theorem testGridLoop_stuck {cfg : Config} {fee : Fee} {b s : List Order} {opt ub x v : ℚ} (hx : x ≤ ub) (hv : solverObjective cfg fee b s x = .ok v)
    (ho : v ≤ opt) (fuel : ℕ) : testGridLoop cfg fee b s opt ub 0 fuel x = .error .diverge := by
  induction fuel with
  | zero => rfl
  | succ fuel ih =>
    unfold testGridLoop
    rw [if_pos hx, hv, ok_bind, show pyAssert (v ≤ opt) "xrate_test.py:58" = .ok () from pyAssert_eq_ok.2 ho, ok_bind, add_zero]
    exact ih

/-- C88. `test_find_best_xrate` need not end: if the only acceptable rate is a single one, its grid has step 0. -/
theorem C88_rate_test_may_not_end : TestOrders "T0" "T1" (10 ^ 14) (10 ^ 23) ExTests.pointB ∧
    TestOrders "T1" "T0" (10 ^ 14) (10 ^ 23) ExTests.pointS ∧ RatesMeet testFee0 ExTests.pointB ExTests.pointS ∧
    ∀ fuel, testFindBestXrate Config.default ExDouble.sqrt fuel ExTests.pointB ExTests.pointS = .error .diverge := by
  refine ⟨by decide +kernel, by decide +kernel, by decide +kernel, fun fuel => ?_⟩
  have h1 : mapE (fun o : Order => pyDiv 1 (o.maxXrate * (1 - testFee0.value))) ExTests.pointS = .ok [1000 / 999] := by decide +kernel
  have h2 : pyMaxBy id (ExTests.pointB.map (fun o : Order => o.maxXrate * (1 - testFee0.value))) = .ok (1000 / 999) := by decide +kernel
  have h3 : pyMinBy id [(1000 / 999 : ℚ)] = .ok (1000 / 999) := by decide +kernel
  have h4 : findBestXrate { Config.default with maxNrExec := ((ExTests.pointB.length + ExTests.pointS.length : ℕ) : ℤ), minTradable := 0 }
      ExDouble.sqrt ExTests.pointB ExTests.pointS testFee0 = .ok (some (1000 / 999, 1999 / 20000000)) := by decide +kernel
  have h5 : solverObjective { Config.default with maxNrExec := ((ExTests.pointB.length + ExTests.pointS.length : ℕ) : ℤ), minTradable := 0 }
      testFee0 ExTests.pointB ExTests.pointS (1000 / 999) = .ok (1999 / 20000000) := by decide +kernel
  have h6 : pyDiv ((1000 / 999 : ℚ) - 1000 / 999) 100 = .ok 0 := by decide +kernel
  unfold testFindBestXrate
  dsimp only
  rw [h1, ok_bind, h2, ok_bind, h3, ok_bind, h4, ok_bind]
  dsimp only
  rw [h5, ok_bind, h6, ok_bind]
  exact testGridLoop_stuck (le_refl _) h5 (le_refl _) fuel

/-- The grid ends after as many steps as fit below its upper end, and only its comparison can fail. -/
theorem only_testGridLoop {cfg : Config} {fee : Fee} {b s : List Order} {opt ub step : ℚ} (h : SearchInput cfg fee b s) (hstep : 0 < step) :
    ∀ (n fuel : ℕ) (x : ℚ), 0 < x → ub < x + n * step → n < fuel →
      Only (fun e => e = .assertion "xrate_test.py:58") (testGridLoop cfg fee b s opt ub step fuel x) := by
  intro n
  induction n with
  | zero =>
    intro fuel x _ hub hfuel
    obtain ⟨fuel, rfl⟩ : ∃ k, fuel = k + 1 := ⟨fuel - 1, by omega⟩
    unfold testGridLoop
    rw [if_neg (by push_cast at hub; linarith)]
    exact only_pure _
  | succ n ih =>
    intro fuel x hx hub hfuel
    obtain ⟨fuel, rfl⟩ : ∃ k, fuel = k + 1 := ⟨fuel - 1, by omega⟩
    unfold testGridLoop
    split
    · obtain ⟨v, hv, _⟩ := solverObjective_accepting (h.exec hx) h.feePrice h.ordB h.ordS (List.Perm.refl _) (List.Perm.refl _)
      rw [hv, ok_bind]
      refine only_bind (only_assert rfl) fun _ _ => ?_
      exact ih fuel (x + step) (by linarith) (by push_cast at hub; linarith) (by omega)
    · exact only_pure _

/-- C88. If the limits leave more than a single rate, `test_find_best_xrate` ends, and nothing fails in it but its comparison and what can
fail in the search itself. -/
theorem C88_rate_test {sqrt : ℚ → Py ℚ} {b s : List Order} {fuel : ℕ} (hb : TestOrders "T0" "T1" (10 ^ 14) (10 ^ 23) b)
    (hs : TestOrders "T1" "T0" (10 ^ 14) (10 ^ 23) s)
    (hm : ∃ o ∈ b, ∃ c ∈ s, 1 / (c.maxXrate * (1 - testFee0.value)) < o.maxXrate * (1 - testFee0.value)) (hfuel : 102 ≤ fuel) :
    Only (fun e => SearchFailure sqrt e ∨ e = .assertion "xrate_test.py:58") (testFindBestXrate Config.default sqrt fuel b s) := by
  have hφ : (0 : ℚ) < 1 - testFee0.value := by decide +kernel
  have pos : ∀ {buy sell : Token} {os : List Order}, TestOrders buy sell (10 ^ 14) (10 ^ 23) os → ∀ o ∈ os, 0 < o.maxXrate ∧ 0 ≤ o.maxSell :=
    fun h o ho => ⟨lt_of_lt_of_le (by norm_num) (h.rate o ho).1, le_trans (by norm_num) (h.amount o ho).2.1⟩
  have hin : SearchInput { Config.default with maxNrExec := ((b.length + s.length : ℕ) : ℤ), minTradable := 0 } testFee0 b s :=
    ⟨by show 0 < Config.default.minRationalTradable; decide +kernel, by decide +kernel, by show (0 : ℤ) ≤ ((b.length + s.length : ℕ) : ℤ); omega,
      by show 0 < Config.default.feeTokenPrice; decide +kernel, hb.ids, hs.ids, pos hb, pos hs⟩
  obtain ⟨o, ho, c, hc, hoc⟩ := hm
  have hrates : ∀ a ∈ s, 0 < a.maxXrate * (1 - testFee0.value) := fun a ha => mul_pos (pos hs a ha).1 hφ
  have hmatch : ∃ o ∈ b, ∃ c ∈ s, Matchable testFee0 o c :=
    ⟨o, ho, c, hc, 1 / (c.maxXrate * (1 - testFee0.value)), one_div_pos.2 (hrates c hc), hoc.le, by rw [one_div_one_div]⟩
  unfold testFindBestXrate
  dsimp only
  rw [mapE_eq_map (g := fun o : Order => 1 / (o.maxXrate * (1 - testFee0.value))) (fun a ha => pyDiv_of_ne (hrates a ha).ne'), ok_bind]
  obtain ⟨ub, hub⟩ := pyMaxBy_of_ne_nil id (l := b.map (fun o : Order => o.maxXrate * (1 - testFee0.value)))
    (List.ne_nil_of_mem (List.mem_map_of_mem ho))
  obtain ⟨lb, hlb⟩ := pyMinBy_of_ne_nil id (l := s.map (fun o : Order => 1 / (o.maxXrate * (1 - testFee0.value))))
    (List.ne_nil_of_mem (List.mem_map_of_mem hc))
  have u := (pyMaxBy_spec hub).2 _ (List.mem_map_of_mem ho)
  obtain ⟨l1, l2⟩ := pyMinBy_spec hlb
  have l := l2 _ (List.mem_map_of_mem hc)
  simp only [id] at u l
  have hlt : lb < ub := by linarith
  have hlb0 : 0 < lb := by
    obtain ⟨a, ha, rfl⟩ := List.mem_map.1 l1
    exact one_div_pos.2 (hrates a ha)
  rw [hub, ok_bind, hlb, ok_bind]
  refine only_bind (fun e he => .inl (only_findBestXrate hin hmatch e he)) fun r hr => ?_
  cases r with
  | none => exact absurd hr (findBestXrate_ne_none hin)
  | some p =>
    obtain ⟨x, v⟩ := p
    obtain ⟨x', v', _, _, _, _, _, e, _, _, _, hx, hv, _⟩ := C16_attained_maximum hin hr
    cases e
    dsimp only
    rw [solverObjective_iff.2 hv, ok_bind, pyDiv_of_ne (by norm_num), ok_bind]
    refine fun e he => .inr (only_testGridLoop hin (by linarith) 101 fuel lb hlb0 ?_ (by omega) e he)
    push_cast
    linarith

/-- The test passes on its first explicit example (tests/unit/xrate_test_examples.py:6-14). -/
example : testFindBestXrate Config.default ExDouble.sqrt 200 [ExTests.buyer 5942260566990937138846 (2 / 15) "0", ExTests.buyer (10 ^ 14) (2 / 15) "1"]
    [ExTests.seller 53584344584028329569112 (90059 / 9985) "2"] = .ok () := by decide +kernel

end Dex
