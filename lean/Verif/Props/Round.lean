import Verif.Proof.Round

/-! # Properties C23 to C28: rounding -/

namespace Dex

namespace Spec

/-- Exact sell amount at the uniform clearing price net of fee. -/
def exactSell (pb ps : ℚ) (fee : Fee) (buy : ℚ) : ℚ := buy * (pb / ps) / (1 - fee.value)

/-- An order of a feasible exact (rational) solution, with the slack the solver keeps for rounding: it is not executed, or
it trades at least the increased minimum amount, and it respects its maximum sell amount and its limit at the clearing rate. -/
structure ExactFeasible (cfg : Config) (prices : Prices) (fee : Fee) (o : Order) : Prop where
  nonneg : 0 ≤ o.buy
  maxSell : ∀ pb ps, PriceOf prices o.buyToken pb → PriceOf prices o.sellToken ps → exactSell pb ps fee o.buy ≤ o.maxSell
  limit : ∀ pb ps, PriceOf prices o.buyToken pb → PriceOf prices o.sellToken ps → 0 < o.buy →
    pb / ps ≤ o.maxXrate * (1 - fee.value)
  minBuy : 0 < o.buy → (cfg.minRationalTradable : ℚ) ≤ o.buy
  minSell : ∀ pb ps, PriceOf prices o.buyToken pb → PriceOf prices o.sellToken ps → 0 < o.buy →
    (cfg.minRationalTradable : ℚ) ≤ exactSell pb ps fee o.buy

end Spec

open Spec

/-- Inputs of rounding: positive integer prices for all tokens of the orders, distinct order ids, fee below one. -/
structure RoundInput (prices : Prices) (fee : Fee) (orders : List Order) : Prop where
  intPrices : IntPrices prices
  feeLt : fee.value < 1
  ids : (orders.map (·.id)).Nodup
  priced : ∀ o ∈ orders, Priced prices o

/-- Effect of rounding on one order. -/
structure Rounded (cfg : Config) (prices : Prices) (fee : Fee) (o o' : Order) : Prop where
  same : SameButExec o o'
  int : IsInt o'.buy
  price : OnClearingPrice prices fee o'
  amount : o'.buy = ⌊o.buy⌋ ∨ (⌊o.buy⌋ ≠ 0 ∧ (cfg.minTradable : ℚ) ≤ o'.buy ∧ o'.sell ≤ o.maxSell ∧ (cfg.minTradable : ℚ) ≤ o'.sell)

theorem roundOrder_eq {prices : Prices} {fee : Fee} {o : Order} {pb ps : ℚ} (hI : IntPrices prices) (hf : fee.value < 1)
    (hb : PriceOf prices o.buyToken pb) (hs : PriceOf prices o.sellToken ps) :
    roundOrder prices fee o = .ok ((o.withBuy (⌊o.buy⌋ : ℚ)).withSell (uniformSell pb ps fee (⌊o.buy⌋ : ℚ) : ℚ)) :=
  setSellFromBuy_eq (o := o.withBuy (⌊o.buy⌋ : ℚ)) hI hf hb hs

/-- First pass of rounding: floor the buy amount, put the sell amount on the clearing price. -/
def FirstRound (prices : Prices) (fee : Fee) (o o' : Order) : Prop :=
  SameButExec o o' ∧ o'.buy = ⌊o.buy⌋ ∧ OnClearingPrice prices fee o'

theorem firstPass {prices : Prices} {fee : Fee} {orders : List Order} (h : RoundInput prices fee orders) :
    ∃ os, mapE (roundOrder prices fee) orders = .ok os ∧ List.Forall₂ (FirstRound prices fee) orders os ∧
      RoundInv prices fee os := by
  have key : ∀ {l : List Order}, (∀ o ∈ l, Priced prices o) → ∃ os, mapE (roundOrder prices fee) l = .ok os ∧
      List.Forall₂ (FirstRound prices fee) l os := by
    intro l
    induction l with
    | nil => intro _; exact ⟨[], rfl, .nil⟩
    | cons o l ih =>
      intro hp
      obtain ⟨os, e, hs⟩ := ih (fun a ha => hp a (by simp [ha]))
      obtain ⟨⟨pb, hpb⟩, ps, hps⟩ := priced_iff.1 (hp o (by simp))
      refine ⟨(o.withBuy (⌊o.buy⌋ : ℚ)).withSell (uniformSell pb ps fee (⌊o.buy⌋ : ℚ) : ℚ) :: os, ?_, .cons ⟨?_, ?_, ?_⟩ hs⟩
      · unfold mapE
        rw [roundOrder_eq h.intPrices h.feeLt hpb hps, ok_bind, e, ok_bind]; rfl
      · rfl
      · rfl
      · exact ⟨pb, ps, hpb, hps, rfl⟩
  obtain ⟨os, e, hs⟩ := key h.priced
  refine ⟨os, e, hs, ?_, ?_, ?_, ?_⟩
  · rw [forall₂_map_id (fun o o' (h : FirstRound prices fee o o') => by rw [h.1]) hs]; exact h.ids
  all_goals
    intro o' ho'
    obtain ⟨o, ho, h1, h2, h3⟩ := forall₂_mem_right hs o' ho'
  · have := h.priced o ho
    rw [SameButExec] at h1
    rw [h1]; exact this
  · rw [h2]; exact isInt_intCast _
  · exact h3

theorem rounded_of {cfg : Config} {prices : Prices} {fee : Fee} {a b c : Order} (h1 : FirstRound prices fee a b)
    (h2 : Rerounded cfg prices fee b c) : Rounded cfg prices fee a c := by
  obtain ⟨f1, f2, f3⟩ := h1
  rcases h2 with rfl | ⟨g1, g2, g3, g4, g5, g6, g7⟩
  · exact ⟨f1, by rw [f2]; exact isInt_intCast _, f3, .inl f2⟩
  · refine ⟨SameButExec.trans' f1 g2, g3, g5, .inr ⟨fun h => g1 (by rw [f2, h]; rfl), g4, ?_, g7⟩⟩
    rw [SameButExec] at f1
    rw [f1] at g6
    exact g6

/-- Everything rounding does, for any answer of the graph library. -/
theorem roundSolution_sound {cfg : Config} {branch : List (Token × Token) → List (Token × Token)} {prices : Prices}
    {orders : List Order} {fee : Fee} {ok : Bool} {res : List Order} (h : RoundInput prices fee orders)
    (hr : roundSolution cfg branch prices orders fee = .ok (ok, res)) :
    List.Forall₂ (Rounded cfg prices fee) orders res ∧ RoundInv prices fee res ∧
    ∃ os, List.Forall₂ (FirstRound prices fee) orders os ∧
      (ok = true → ∀ t ∈ (branch (orderEdges (os.filter (fun o => decide (o.sell > 0))) fee)).map (·.2), imbal res t = 0) ∧
      (∀ t, t ∉ (branch (orderEdges (os.filter (fun o => decide (o.sell > 0))) fee)).map (·.2) →
        t ∉ (branch (orderEdges (os.filter (fun o => decide (o.sell > 0))) fee)).map (·.1) → imbal res t = imbal os t) := by
  obtain ⟨os, e, hs, hinv⟩ := firstPass h
  unfold roundSolution at hr
  rw [e, ok_bind] at hr
  obtain ⟨d, e2, k, hv⟩ := hinv.balances
  rw [e2, ok_bind] at hr
  obtain ⟨i1, i2, i3, i4⟩ := roundLoop_sound h.intPrices h.feeLt hinv
    (fun t v htv => by rw [hv t v htv]; exact hinv.isInt_imbal t) hr
  obtain ⟨t1, t2⟩ := arborescence_spec branch (os.filter (fun o => decide (o.sell > 0))) fee
  refine ⟨forall₂_trans' (R := FirstRound prices fee) (S := Rerounded cfg prices fee) (T := Rounded cfg prices fee)
    (fun _ _ _ => rounded_of) hs i1, i2, os, hs, fun hok t ht => i3 hok t ((t1 t).2 ht), fun t h1 h2 => i4 t (fun hc => h1 ((t1 t).1 hc)) ?_⟩
  intro hc
  obtain ⟨p, hp, rfl⟩ := List.mem_map.1 hc
  exact h2 (List.mem_map.2 ⟨_, t2 p hp, rfl⟩)

/-! ## C23 -/

/-- C23. After rounding (successful or not) every amount is an integer, buy amounts of executed orders are non-negative if they
were, and every sell amount is the contract's integer formula at the prices. -/
theorem C23_integer_on_clearing_price {cfg : Config} {branch : List (Token × Token) → List (Token × Token)} {prices : Prices}
    {orders : List Order} {fee : Fee} {ok : Bool} {res : List Order} (h : RoundInput prices fee orders) (hmin : 0 ≤ cfg.minTradable)
    (hpos : ∀ o ∈ orders, 0 ≤ o.buy) (hr : roundSolution cfg branch prices orders fee = .ok (ok, res)) :
    ∀ o ∈ res, IsInt o.buy ∧ 0 ≤ o.buy ∧ IsInt o.sell ∧ 0 ≤ o.sell ∧ OnClearingPrice prices fee o := by
  obtain ⟨h1, h2, _⟩ := roundSolution_sound h hr
  intro o' ho'
  obtain ⟨o, ho, r⟩ := forall₂_mem_right h1 o' ho'
  have hb : 0 ≤ o'.buy := by
    rcases r.amount with e | ⟨_, e, _⟩
    · rw [e]; exact_mod_cast Int.floor_nonneg.2 (hpos o ho)
    · exact le_trans (by exact_mod_cast hmin) e
  obtain ⟨pb, ps, hpb, hps, e⟩ := r.price
  obtain ⟨b1, b2⟩ := h.intPrices.of hpb
  obtain ⟨s1, s2⟩ := h.intPrices.of hps
  refine ⟨r.int, hb, by rw [e]; exact isInt_intCast _, ?_, r.price⟩
  rw [e]
  exact_mod_cast uniformSell_nonneg s1 s2 b1 h.feeLt hb

/-! ## C24 -/

theorem exactSell_eq {pb ps : ℚ} {fee : Fee} (buy : ℚ) : exactSell pb ps fee buy = buy * pb / (1 - fee.value) / ps := by
  unfold exactSell; rw [div_div, mul_div_assoc', div_div, mul_comm ps]

theorem firstRound_minSell {pb ps : ℚ} {fee : Fee} {buy : ℚ} {m : ℤ} (hm : 1 ≤ m) (b1 : 0 < pb) (s1 : 0 < ps) (s2 : IsInt ps)
    (hf : fee.value < 1) (h1 : (m : ℚ) ≤ buy) (h2 : (m : ℚ) ≤ exactSell pb ps fee buy) :
    m - 1 ≤ uniformSell pb ps fee (⌊buy⌋ : ℚ) := by
  have hφ : 0 < 1 - fee.value := by linarith
  have hm' : (1 : ℚ) ≤ m := by exact_mod_cast hm
  rw [uniformSell_eq s1 s2, Int.le_floor]
  set k := pb / (1 - fee.value) / ps with hk
  have hk0 : 0 < k := by positivity
  have e1 : ∀ y : ℚ, y * pb / (1 - fee.value) / ps = y * k := by intro y; rw [hk]; ring
  rw [e1]
  rw [exactSell_eq, e1] at h2
  have hfl : buy - 1 < ⌊buy⌋ := by linarith [Int.lt_floor_add_one buy]
  have h3 : (buy - 1) * k ≤ ⌊buy⌋ * k := mul_le_mul_of_nonneg_right hfl.le hk0.le
  have h4 : (m : ℚ) - 1 ≤ (buy - 1) * k := by
    -- both factors matter: k may exceed one or not
    have hb0 : 0 < buy := by linarith
    have : ((m : ℚ) - 1) * buy ≤ (buy - 1) * k * buy := by
      have h5 : (m : ℚ) * (buy - 1) ≤ buy * k * (buy - 1) := mul_le_mul_of_nonneg_right h2 (by linarith)
      nlinarith
    exact le_of_mul_le_mul_right this hb0
  push_cast
  linarith

theorem rounded_facts {cfg : Config} {prices : Prices} {fee : Fee} {o o' : Order} (hI : IntPrices prices) (hf : fee.value < 1)
    (hcfg : 1 ≤ cfg.minTradable ∧ cfg.minTradable ≤ cfg.minRationalTradable - 1) (hp : ExactFeasible cfg prices fee o)
    (r : Rounded cfg prices fee o o') :
    OrderConstraints cfg o' ∧ (0 < o'.buy ↔ 0 < o.buy) ∧ (0 < o'.sell ↔ 0 < o.buy) ∧
      (o.buy = 0 → o'.buy = 0 ∧ o'.sell = 0) := by
  obtain ⟨pb, ps, hpb, hps, e⟩ := r.price
  obtain ⟨b1, b2⟩ := hI.of hpb
  obtain ⟨s1, s2⟩ := hI.of hps
  have hs := r.same
  have hφ : 0 < 1 - fee.value := by linarith
  have et : o'.buyToken = o.buyToken ∧ o'.sellToken = o.sellToken ∧ o'.maxSell = o.maxSell ∧ o'.maxXrate = o.maxXrate := by
    rw [hs]; exact ⟨rfl, rfl, rfl, rfl⟩
  obtain ⟨et1, et2, et3, et4⟩ := et
  rw [et1] at hpb; rw [et2] at hps
  have hms := hp.maxSell pb ps hpb hps
  have hmt : (1 : ℚ) ≤ cfg.minTradable := by exact_mod_cast hcfg.1
  have hmr : (cfg.minTradable : ℚ) ≤ cfg.minRationalTradable - 1 := by exact_mod_cast hcfg.2
  rcases hp.nonneg.eq_or_lt with hz | hpos
  · -- not executed
    have hfl : ⌊o.buy⌋ = 0 := by rw [← hz]; simp
    have hb : o'.buy = 0 := by
      rcases r.amount with h1 | ⟨h1, _⟩
      · rw [h1, hfl]; simp
      · exact absurd hfl h1
    have hsell : o'.sell = 0 := by rw [e, hb]; simp
    refine ⟨⟨fun h => ?_, ?_, .inl hb, .inl hsell⟩, ?_, ?_, fun _ => ⟨hb, hsell⟩⟩
    · rw [hb] at h; exact absurd h (lt_irrefl _)
    · rw [hsell, et3]
      rw [← hz] at hms; simpa [exactSell] using hms
    · rw [hb, ← hz]
    · rw [hsell, ← hz]
  · have h1 := hp.minBuy hpos
    have h2 := hp.minSell pb ps hpb hps hpos
    have hminB : (cfg.minTradable : ℚ) ≤ o'.buy := by
      rcases r.amount with h3 | ⟨_, h3, _⟩
      · rw [h3]
        have : cfg.minRationalTradable ≤ ⌊o.buy⌋ := Int.le_floor.2 h1
        have : (cfg.minRationalTradable : ℚ) ≤ ⌊o.buy⌋ := by exact_mod_cast this
        linarith
      · exact h3
    have hminS : (cfg.minTradable : ℚ) ≤ o'.sell := by
      rcases r.amount with h3 | ⟨_, _, _, h3⟩
      · rw [e, h3]
        have h4 := firstRound_minSell (pb := pb) (ps := ps) (fee := fee) (buy := o.buy) (m := cfg.minRationalTradable) (by omega) b1 s1 s2 hf h1 h2
        have : cfg.minTradable ≤ uniformSell pb ps fee (⌊o.buy⌋ : ℚ) := by omega
        exact_mod_cast this
      · exact h3
    have hmaxS : o'.sell ≤ o.maxSell := by
      rcases r.amount with h3 | ⟨_, _, h3, _⟩
      · have h4 := uniformSell_le (pb := pb) (fee := fee) s1 s2 (⌊o.buy⌋ : ℚ)
        have h5 : exactSell pb ps fee (⌊o.buy⌋ : ℚ) ≤ exactSell pb ps fee o.buy := by
          unfold exactSell
          have : (0 : ℚ) ≤ pb / ps := by positivity
          exact div_le_div_of_nonneg_right (mul_le_mul_of_nonneg_right (Int.floor_le _) this) hφ.le
        rw [e, h3]
        rw [← exactSell_eq] at h4
        exact h4.trans (h5.trans hms)
      · exact h3
    have hb0 : 0 < o'.buy := by linarith
    refine ⟨⟨fun _ => ?_, by rw [et3]; exact hmaxS, .inr hminB, .inr hminS⟩, ⟨fun _ => hpos, fun _ => hb0⟩,
      ⟨fun _ => hpos, fun _ => by linarith⟩, fun h => absurd h hpos.ne'⟩
    have h4 := uniformSell_le (pb := pb) (fee := fee) s1 s2 o'.buy
    rw [← exactSell_eq] at h4
    rw [e, et4]
    refine h4.trans ?_
    unfold exactSell
    rw [div_le_iff₀ hφ]
    have := mul_le_mul_of_nonneg_left (hp.limit pb ps hpb hps hpos) hb0.le
    linarith

/-- C24. If every order of the exact solution is feasible with the solver's slack, every order of the rounded solution respects
its limit rate, its maximum sell amount and the minimum tradable amount (also when rounding fails). -/
theorem C24_order_constraints {cfg : Config} {branch : List (Token × Token) → List (Token × Token)} {prices : Prices}
    {orders : List Order} {fee : Fee} {ok : Bool} {res : List Order} (h : RoundInput prices fee orders)
    (hcfg : 1 ≤ cfg.minTradable ∧ cfg.minTradable ≤ cfg.minRationalTradable - 1)
    (hfeas : ∀ o ∈ orders, ExactFeasible cfg prices fee o) (hr : roundSolution cfg branch prices orders fee = .ok (ok, res)) :
    ∀ o ∈ res, OrderConstraints cfg o := by
  obtain ⟨h1, _⟩ := roundSolution_sound h hr
  intro o' ho'
  obtain ⟨o, ho, r⟩ := forall₂_mem_right h1 o' ho'
  exact (rounded_facts h.intPrices h.feeLt hcfg (hfeas o ho) r).1

/-- C24. Only the executed amounts change: rounding returns the same orders in the same order. -/
theorem C24_only_amounts_change {cfg : Config} {branch : List (Token × Token) → List (Token × Token)} {prices : Prices}
    {orders : List Order} {fee : Fee} {ok : Bool} {res : List Order} (h : RoundInput prices fee orders)
    (hr : roundSolution cfg branch prices orders fee = .ok (ok, res)) : List.Forall₂ SameButExec orders res := by
  obtain ⟨h1, _⟩ := roundSolution_sound h hr
  exact h1.imp (fun _ _ r => r.same)

/-! ## C28 -/

/-- C28. An order is executed after rounding iff it was executed before; so the number of executed orders is unchanged. -/
theorem C28_same_orders_executed {cfg : Config} {branch : List (Token × Token) → List (Token × Token)} {prices : Prices}
    {orders : List Order} {fee : Fee} {ok : Bool} {res : List Order} (h : RoundInput prices fee orders)
    (hcfg : 1 ≤ cfg.minTradable ∧ cfg.minTradable ≤ cfg.minRationalTradable - 1)
    (hfeas : ∀ o ∈ orders, ExactFeasible cfg prices fee o) (hr : roundSolution cfg branch prices orders fee = .ok (ok, res)) :
    List.Forall₂ (fun o o' => SameButExec o o' ∧ (0 < o'.buy ↔ 0 < o.buy) ∧ (0 < o'.sell ↔ 0 < o.buy)) orders res ∧
    (res.filter (fun o => decide (0 < o.buy))).length = (orders.filter (fun o => decide (0 < o.buy))).length := by
  have h1 := (roundSolution_sound h hr).1
  have h2 : List.Forall₂ (fun o o' => SameButExec o o' ∧ (0 < o'.buy ↔ 0 < o.buy) ∧ (0 < o'.sell ↔ 0 < o.buy)) orders res := by
    have hI := h.intPrices
    have hf := h.feeLt
    clear hr h
    induction h1 with
    | nil => exact .nil
    | cons r _ ih =>
      have := rounded_facts hI hf hcfg (hfeas _ (by simp)) r
      exact .cons ⟨r.same, this.2.1, this.2.2.1⟩ (ih (fun o ho => hfeas o (by simp [ho])))
  refine ⟨h2, ?_⟩
  clear h1 hr hfeas h
  induction h2 with
  | nil => rfl
  | cons h3 _ ih =>
    obtain ⟨_, h4, _⟩ := h3
    simp only [List.filter_cons, decide_eq_true_eq, h4]
    split
    · rw [List.length_cons, List.length_cons, ih]
    · exact ih

/-! ## C25 -/

theorem length_le_one_of_nodup {α : Type} {l : List α} {c : α} (hn : l.Nodup) (h : ∀ a ∈ l, a = c) : l.length ≤ 1 := by
  match l, hn, h with
  | [], _, _ => simp
  | [_], _, _ => simp
  | a :: b :: l, hn, h =>
    rw [h a (by simp), h b (by simp)] at hn
    simp at hn

theorem imbal_eq_zero {orders : List Order} {t : Token} (h1 : ∀ o ∈ orders, o.sellToken = t → o.sell = 0)
    (h2 : ∀ o ∈ orders, o.buyToken = t → o.buy = 0) : imbal orders t = 0 := by
  induction orders with
  | nil => exact imbal_nil t
  | cons o os ih =>
    rw [imbal_cons, ih (fun a ha => h1 a (by simp [ha])) (fun a ha => h2 a (by simp [ha]))]
    have e1 : (if o.sellToken = t then o.sell else 0) = 0 := by split <;> [exact h1 o (by simp) ‹_›; rfl]
    have e2 : (if o.buyToken = t then o.buy else 0) = 0 := by split <;> [exact h2 o (by simp) ‹_›; rfl]
    rw [e1, e2]; norm_num

/-- C25. Whatever branching the graph library returns for the executed orders: when rounding reports success every token that has a
parent in it is balanced. The executed orders are those with a positive sell amount after taking floors. -/
theorem C25_tree_tokens_balanced {cfg : Config} {branch : List (Token × Token) → List (Token × Token)} {prices : Prices}
    {orders : List Order} {fee : Fee} {res : List Order} (h : RoundInput prices fee orders)
    (hr : roundSolution cfg branch prices orders fee = .ok (true, res)) :
    ∃ os, List.Forall₂ (FirstRound prices fee) orders os ∧
      ∀ t ∈ (branch (orderEdges (os.filter (fun o => decide (o.sell > 0))) fee)).map (·.2), sold res t = bought res t := by
  obtain ⟨_, _, os, hos, h3, _⟩ := roundSolution_sound h hr
  exact ⟨os, hos, fun t ht => sub_eq_zero.1 (h3 rfl t ht)⟩

/-- C25. For the orders of a token pair (`b_orders` buy `B` for `S`, `s_orders` buy `S` for `B`, fee orders buy `B` for the fee token) and
any maximum branching: when rounding reports success every non-fee token is balanced. The exact solution before rounding executes an
`s_order` if it executes a `b_order`, and a fee order if it executes an `s_order` and `B` is not the fee token. -/
theorem C25_token_pair_balanced {cfg : Config} {branch : List (Token × Token) → List (Token × Token)} {prices : Prices}
    {orders : List Order} {fee : Fee} {res : List Order} {B S : Token} (h : RoundInput prices fee orders)
    (hcfg : 1 ≤ cfg.minTradable ∧ cfg.minTradable ≤ cfg.minRationalTradable - 1)
    (hfeas : ∀ o ∈ orders, ExactFeasible cfg prices fee o) (hbr : ∀ E, MaxBranching E (branch E))
    (hBS : B ≠ S) (hSF : S ≠ fee.token)
    (hcls : ∀ o ∈ orders, (o.buyToken = B ∧ o.sellToken = S) ∨ (o.buyToken = S ∧ o.sellToken = B) ∨
      (o.buyToken = B ∧ o.sellToken = fee.token))
    (hs : (∃ o ∈ orders, o.buyToken = B ∧ o.sellToken = S ∧ 0 < o.buy) → ∃ o ∈ orders, o.buyToken = S ∧ 0 < o.buy)
    (hf : B ≠ fee.token → (∃ o ∈ orders, o.buyToken = S ∧ 0 < o.buy) → ∃ o ∈ orders, o.sellToken = fee.token ∧ 0 < o.buy)
    (hr : roundSolution cfg branch prices orders fee = .ok (true, res)) :
    ∀ t, t ≠ fee.token → sold res t = bought res t := by
  obtain ⟨h1, _, os, hos, h3, _⟩ := roundSolution_sound h hr
  replace h3 := h3 rfl
  set E := orderEdges (os.filter (fun o => decide (o.sell > 0))) fee with hE
  -- orders with amounts in the result come from executed orders
  have hres : ∀ o' ∈ res, ∃ o ∈ orders, o'.buyToken = o.buyToken ∧ o'.sellToken = o.sellToken ∧
      (o.buy = 0 → o'.buy = 0 ∧ o'.sell = 0) := by
    intro o' ho'
    obtain ⟨o, ho, r⟩ := forall₂_mem_right h1 o' ho'
    have := rounded_facts h.intPrices h.feeLt hcfg (hfeas o ho) r
    have hsame := r.same
    exact ⟨o, ho, by rw [hsame], by rw [hsame], this.2.2.2⟩
  -- executed orders give edges
  have hedge : ∀ o ∈ orders, 0 < o.buy → o.buyToken ≠ fee.token → (o.sellToken, o.buyToken) ∈ E := by
    intro o ho hpos hne
    obtain ⟨o', ho', r⟩ := forall₂_mem_left hos o ho
    have hfact := rounded_facts h.intPrices h.feeLt hcfg (hfeas o ho) (rounded_of r (.inl rfl))
    have hsame := r.1
    refine (mem_orderEdges).2 ⟨o', List.mem_filter.2 ⟨ho', decide_eq_true (hfact.2.2.1.2 hpos)⟩, ?_, ?_⟩
    · rw [hsame]; exact hne
    · rw [hsame]
  have hedge' : ∀ e ∈ E, e.2 ≠ fee.token ∧ (e.2 = B ∨ e.2 = S) := by
    intro e he
    obtain ⟨o', ho', hne, rfl⟩ := (mem_orderEdges).1 he
    obtain ⟨o, ho, r⟩ := forall₂_mem_right hos o' (List.mem_of_mem_filter ho')
    have hsame := r.1
    refine ⟨hne, ?_⟩
    have : o'.buyToken = o.buyToken := by rw [hsame]
    rw [this]
    rcases hcls o ho with ⟨h, _⟩ | ⟨h, _⟩ | ⟨h, _⟩
    · exact .inl h
    · exact .inr h
    · exact .inl h
  obtain ⟨hb1, hb2⟩ := hbr E
  have hchild : ∀ t ∈ (branch E).map (·.2), t ≠ fee.token ∧ (t = B ∨ t = S) := by
    intro t ht
    obtain ⟨e, he, rfl⟩ := List.mem_map.1 ht
    exact hedge' e (hb1.sub e he)
  intro t htF
  rw [← sub_eq_zero]
  change imbal res t = 0
  by_cases hex : ∃ o ∈ orders, o.buyToken = S ∧ 0 < o.buy
  · obtain ⟨o, ho, hoS, hpos⟩ := hex
    have hoB : o.sellToken = B := by
      rcases hcls o ho with ⟨h, _⟩ | ⟨_, h⟩ | ⟨h, _⟩
      · exact absurd (h.symm.trans hoS) hBS
      · exact h
      · exact absurd (h.symm.trans hoS) hBS
    have he1 := hedge o ho hpos (by rw [hoS]; exact hSF)
    rw [hoS, hoB] at he1
    have hmem : ∀ t, t = S ∨ (t = B ∧ B ≠ fee.token) → t ∈ (branch E).map (·.2) := by
      by_cases hBF : B = fee.token
      · have hlen := hb2 [(B, S)] ⟨by simpa using he1, by simp, ⟨fun t => if t = B then 0 else 1, by simp [hBS.symm]⟩⟩
        rw [List.length_singleton] at hlen
        intro t ht
        have ht : t = S := by rcases ht with h | ⟨_, h⟩ <;> [exact h; exact absurd hBF h]
        cases hbe : branch E with
        | nil => rw [hbe] at hlen; simp at hlen
        | cons e l =>
          have := hchild e.2 (by rw [hbe]; simp)
          have : e.2 = S := by
            rcases this.2 with h | h
            · exact absurd (h.trans hBF) this.1
            · exact h
          simp [this, ht]
      · obtain ⟨o2, ho2, ho2F, hpos2⟩ := hf hBF ⟨o, ho, hoS, hpos⟩
        have ho2B : o2.buyToken = B := by
          rcases hcls o2 ho2 with ⟨h, _⟩ | ⟨_, h⟩ | ⟨h, _⟩
          · exact h
          · exact absurd (h.symm.trans ho2F) hBF
          · exact h
        have he2 := hedge o2 ho2 hpos2 (by rw [ho2B]; exact hBF)
        rw [ho2B, ho2F] at he2
        have hlen := hb2 [(fee.token, B), (B, S)] ⟨by simpa using ⟨he2, he1⟩, by simpa using hBS,
          ⟨fun t => if t = fee.token then 0 else if t = B then 1 else 2, by simp [hBF, hBS.symm, hSF]⟩⟩
        intro t ht
        by_contra hc
        -- all children are the other token
        have hall : ∀ c ∈ (branch E).map (·.2), c = (if t = S then B else S) := by
          intro c hcm
          have hct : c ≠ t := fun h => hc (h ▸ hcm)
          rcases ht with rfl | ⟨rfl, _⟩
          · rw [if_pos rfl]
            exact (hchild c hcm).2.resolve_right hct
          · rw [if_neg hBS]
            exact (hchild c hcm).2.resolve_left hct
        have hle : ((branch E).map (·.2)).length ≤ 1 :=
          length_le_one_of_nodup hb1.inDeg hall
        rw [List.length_map] at hle
        simp at hlen
        omega
    by_cases ht : t = S ∨ t = B
    · exact h3 t (hmem t (ht.imp_right fun h => ⟨h, h ▸ htF⟩))
    · push Not at ht
      refine imbal_eq_zero (fun o' ho' hto => ?_) (fun o' ho' hto => ?_) <;> exfalso
      all_goals obtain ⟨o2, ho2, e1, e2, _⟩ := hres o' ho'
      · rw [hto] at e2
        rcases hcls o2 ho2 with ⟨_, g⟩ | ⟨_, g⟩ | ⟨_, g⟩
        · exact ht.1 (e2.trans g)
        · exact ht.2 (e2.trans g)
        · exact htF (e2.trans g)
      · rw [hto] at e1
        rcases hcls o2 ho2 with ⟨g, _⟩ | ⟨g, _⟩ | ⟨g, _⟩
        · exact ht.2 (e1.trans g)
        · exact ht.1 (e1.trans g)
        · exact ht.2 (e1.trans g)
  · have hnb : ∀ o ∈ orders, o.buyToken = S ∨ o.sellToken = S → o.buy = 0 := by
      intro o ho hS
      by_contra hne
      have hpos : 0 < o.buy := lt_of_le_of_ne (hfeas o ho).nonneg (Ne.symm hne)
      rcases hS with hS | hS
      · exact hex ⟨o, ho, hS, hpos⟩
      · refine hex (hs ⟨o, ho, ?_, hS, hpos⟩)
        rcases hcls o ho with ⟨h, _⟩ | ⟨_, h⟩ | ⟨h, _⟩
        · exact h
        · exact absurd (h.symm.trans hS) hBS
        · exact h
    by_cases htc : t ∈ (branch E).map (·.2)
    · exact h3 t htc
    · -- then nothing that trades `t` is executed
      have hzero : ∀ o ∈ orders, o.buyToken = t ∨ o.sellToken = t → o.buy = 0 := by
        intro o ho hot
        by_contra hne
        have hpos : 0 < o.buy := lt_of_le_of_ne (hfeas o ho).nonneg (Ne.symm hne)
        have hnS : ¬ (o.buyToken = S ∨ o.sellToken = S) := fun h => hne (hnb o ho h)
        push Not at hnS
        have hcl : o.buyToken = B ∧ o.sellToken = fee.token := by
          rcases hcls o ho with ⟨_, h⟩ | ⟨h, _⟩ | h
          · exact absurd h hnS.2
          · exact absurd h hnS.1
          · exact h
        have htB : t = B := by
          rcases hot with h | h
          · exact h.symm.trans hcl.1
          · exact absurd (h.symm.trans hcl.2) htF
        have he := hedge o ho hpos (by rw [hcl.1, ← htB]; exact htF)
        have hlen := hb2 [(o.sellToken, o.buyToken)] ⟨by simpa using he, by simp,
          ⟨fun x => if x = fee.token then 0 else 1, by simp [hcl.1, hcl.2, ← htB, htF]⟩⟩
        rw [List.length_singleton] at hlen
        cases hbe : branch E with
        | nil => rw [hbe] at hlen; simp at hlen
        | cons e l =>
          have hmem : e ∈ branch E := by rw [hbe]; simp
          obtain ⟨o', ho', hne', rfl⟩ := (mem_orderEdges).1 (hb1.sub e hmem)
          obtain ⟨o3, ho3, r⟩ := forall₂_mem_right hos o' (List.mem_of_mem_filter ho')
          have hsame := r.1
          have hfact := rounded_facts h.intPrices h.feeLt hcfg (hfeas o3 ho3) (rounded_of r (.inl rfl))
          have hpos3 : 0 < o3.buy := hfact.2.2.1.1 (by simpa using (List.mem_filter.1 ho').2)
          have hb3 : o'.buyToken = o3.buyToken := by rw [hsame]
          rcases (hchild _ (List.mem_map.2 ⟨_, hmem, rfl⟩)).2 with h | h
          · exact htc (List.mem_map.2 ⟨_, hmem, h.trans htB.symm⟩)
          · exact hpos3.ne' (hnb o3 ho3 (.inl (hb3.symm.trans h)))
      refine imbal_eq_zero (fun o' ho' hto => ?_) (fun o' ho' hto => ?_)
      all_goals obtain ⟨o2, ho2, e1, e2, hz⟩ := hres o' ho'
      · exact (hz (hzero o2 ho2 (.inr (e2.symm.trans hto)))).2
      · exact (hz (hzero o2 ho2 (.inl (e1.symm.trans hto)))).1

/-! ## C26 -/

/-- C26. If the graph library returns a branching, rounding terminates and raises nothing. -/
theorem C26_rounding_total {cfg : Config} {branch : List (Token × Token) → List (Token × Token)} {prices : Prices}
    {orders : List Order} {fee : Fee} (h : RoundInput prices fee orders) (hbr : ∀ E, Branching E (branch E)) :
    ∃ ok res, roundSolution cfg branch prices orders fee = .ok (ok, res) := by
  obtain ⟨os, e, hs, hinv⟩ := firstPass h
  unfold roundSolution
  rw [e, ok_bind]
  obtain ⟨d, e2, k, hv⟩ := hinv.balances
  rw [e2, ok_bind]
  obtain ⟨t1, t2⟩ := arborescence_spec branch (os.filter (fun o => decide (o.sell > 0))) fee
  obtain ⟨b1, b2, rank, b3⟩ := hbr (orderEdges (os.filter (fun o => decide (o.sell > 0))) fee)
  refine roundLoop_total h.intPrices h.feeLt (rank := rank) (Nat.lt_succ_self _) ?_ ?_ k hinv
    (fun t v htv => by rw [hv t v htv]; exact hinv.isInt_imbal t)
  · intro p hp
    exact b3 _ (t2 p hp)
  · intro t ht
    obtain ⟨e, he, rfl⟩ := List.mem_map.1 ((t1 t).1 ht)
    obtain ⟨o, ho, _, rfl⟩ := (mem_orderEdges).1 (b1 e he)
    exact (priced_keys (hinv.priced o (List.mem_of_mem_filter ho))).1

/-! ## C27 -/

theorem value_balance {prices : Prices} (hn : (prices.map (·.1)).Nodup) {orders : List Order} (g : Order → ℚ)
    (hg : ∀ o ∈ orders, ∃ pb ps, PriceOf prices o.buyToken pb ∧ PriceOf prices o.sellToken ps ∧ g o = ps * o.sell - pb * o.buy) :
    (prices.map (fun p => p.2 * imbal orders p.1)).sum = (orders.map g).sum := by
  have hdelta : ∀ {l : Prices}, (l.map (·.1)).Nodup → ∀ {t : Token} {q : ℚ} (x : ℚ), PriceOf l t q →
      (l.map (fun p => p.2 * (if t = p.1 then x else 0))).sum = q * x := by
    intro l
    induction l with
    | nil => intro _ t q x h; rw [priceOf_iff] at h; simp [dictGet?] at h
    | cons a l ih =>
      intro hn t q x h
      rw [List.map_cons, List.nodup_cons] at hn
      rw [List.map_cons, List.sum_cons]
      by_cases hat : a.1 = t
      · have hq : a.2 = q := by
          obtain ⟨e, h1, h2⟩ := h
          rw [List.find?_cons_of_pos (by simp [hat])] at h1
          cases h1; exact h2
        have hz : (l.map (fun p => p.2 * (if t = p.1 then x else 0))).sum = 0 := by
          apply List.sum_eq_zero
          intro y hy
          obtain ⟨p, hp, rfl⟩ := List.mem_map.1 hy
          rw [if_neg, mul_zero]
          intro htp
          exact hn.1 (List.mem_map.2 ⟨p, hp, by rw [← htp, hat]⟩)
        rw [hz, if_pos hat.symm, hq, add_zero]
      · have h' : PriceOf l t q := by
          obtain ⟨e, h1, h2⟩ := h
          rw [List.find?_cons_of_neg (by simp [hat])] at h1
          exact ⟨e, h1, h2⟩
        rw [ih hn.2 x h', if_neg (Ne.symm hat), mul_zero, zero_add]
  induction orders with
  | nil => simp [imbal_nil]
  | cons o os ih =>
    obtain ⟨pb, ps, hb, hs, e⟩ := hg o (by simp)
    have h1 := hdelta hn o.sell hs
    have h2 := hdelta hn o.buy hb
    rw [List.map_cons, List.sum_cons, ← ih (fun a ha => hg a (by simp [ha])), e, ← h1, ← h2]
    have hsplit : ∀ l : Prices, (l.map (fun p => p.2 * imbal (o :: os) p.1)).sum =
        (l.map (fun p => p.2 * (if o.sellToken = p.1 then o.sell else 0))).sum -
        (l.map (fun p => p.2 * (if o.buyToken = p.1 then o.buy else 0))).sum + (l.map (fun p => p.2 * imbal os p.1)).sum := by
      intro l
      induction l with
      | nil => simp
      | cons p l ih =>
        simp only [List.map_cons, List.sum_cons, imbal_cons] at ih ⊢
        rw [ih]; ring
    exact hsplit prices

/-- C27. If all non-fee tokens are balanced, the amounts are on the clearing price, executed orders sell at least `minTradable` and
`fee * minTradable ≥ 1`, then at least as much of the fee token is sold as is bought. -/
theorem C27_fees_nonneg {cfg : Config} {prices : Prices} {orders : List Order} {fee : Fee} (hI : IntPrices prices)
    (hn : (prices.map (·.1)).Nodup) (hf : fee.value < 1) (hfee : 1 ≤ fee.value * cfg.minTradable) (hmin : 0 ≤ cfg.minTradable)
    (hp : ∀ o ∈ orders, OnClearingPrice prices fee o) (hm : ∀ o ∈ orders, o.buy = 0 ∨ (cfg.minTradable : ℚ) ≤ o.sell)
    (hbal : ∀ t, t ≠ fee.token → sold orders t = bought orders t) : bought orders fee.token ≤ sold orders fee.token := by
  have hmin' : (0 : ℚ) ≤ cfg.minTradable := by exact_mod_cast hmin
  have hf0 : 0 < fee.value := by
    by_contra h
    push Not at h
    nlinarith
  have hex : ∀ o ∈ orders, ∃ v, 0 ≤ v ∧ ∃ pb ps, PriceOf prices o.buyToken pb ∧ PriceOf prices o.sellToken ps ∧
      v = ps * o.sell - pb * o.buy := by
    intro o ho
    obtain ⟨pb, ps, hb, hs, e⟩ := hp o ho
    refine ⟨_, ?_, pb, ps, hb, hs, rfl⟩
    obtain ⟨b1, b2⟩ := hI.of hb
    obtain ⟨s1, s2⟩ := hI.of hs
    rcases hm o ho with h0 | h1
    · rw [h0, uniformSell_zero] at e
      rw [h0, e]; simp
    · have hφ : 0 < 1 - fee.value := by linarith
      have h2 : o.buy * pb / (1 - fee.value) / ps < o.sell + 1 := by
        rw [e, uniformSell_eq s1 s2]; exact Int.lt_floor_add_one _
      rw [div_div, div_lt_iff₀ (by positivity)] at h2
      have h3 : fee.value * cfg.minTradable ≤ fee.value * o.sell := mul_le_mul_of_nonneg_left h1 hf0.le
      have h4 : 0 ≤ ps * (fee.value * o.sell - 1 + fee.value) := by
        apply mul_nonneg s1.le; linarith
      nlinarith
  choose! g hg0 hg using hex
  have hv := value_balance hn g hg
  have hnn : 0 ≤ (orders.map g).sum := by
    apply List.sum_nonneg
    intro x hx
    obtain ⟨o, ho, rfl⟩ := List.mem_map.1 hx
    exact hg0 o ho
  rw [← hv] at hnn
  by_contra hc
  push Not at hc
  have hneg : imbal orders fee.token < 0 := by unfold imbal; linarith
  have hz : ∀ t, t ≠ fee.token → imbal orders t = 0 := fun t ht => sub_eq_zero.2 (hbal t ht)
  -- the sum is a non-positive multiple of the fee token's balance
  have hsum : ∀ {l : Prices}, (∀ p ∈ l, 0 < p.2) → (l.map (fun p => p.2 * imbal orders p.1)).sum ≤ 0 ∧
      ((∃ p ∈ l, p.1 = fee.token) → (l.map (fun p => p.2 * imbal orders p.1)).sum < 0) := by
    intro l
    induction l with
    | nil => intro _; simp
    | cons a l ih =>
      intro hl
      obtain ⟨i1, i2⟩ := ih (fun p hp => hl p (by simp [hp]))
      have ha := hl a (by simp)
      rw [List.map_cons, List.sum_cons]
      by_cases hat : a.1 = fee.token
      · have := mul_neg_of_pos_of_neg ha (hat ▸ hneg)
        exact ⟨by linarith, fun _ => by linarith⟩
      · rw [hz _ hat, mul_zero, zero_add]
        refine ⟨i1, fun ⟨p, hp, hpt⟩ => i2 ?_⟩
        rcases List.mem_cons.1 hp with rfl | hp
        · exact absurd hpt hat
        · exact ⟨p, hp, hpt⟩
  obtain ⟨_, s2⟩ := hsum (l := prices) (fun p hp => (hI p hp).1)
  by_cases hkey : ∃ p ∈ prices, p.1 = fee.token
  · linarith [s2 hkey]
  · have : imbal orders fee.token = 0 := by
      apply imbal_eq_zero
      all_goals
        intro o ho hto
        exfalso
        obtain ⟨pb, ps, hb, hs, _⟩ := hp o ho
        rw [hto] at *
      · exact hkey ⟨_, dictGet?_mem (priceOf_iff.1 hs), rfl⟩
      · exact hkey ⟨_, dictGet?_mem (priceOf_iff.1 hb), rfl⟩
    linarith

/-! ## The graph library's contract can be met -/

/-- Every finite graph has a maximum branching. -/
theorem exists_maxBranching (E : List (Token × Token)) : ∃ br, MaxBranching E br := by
  have hbound : ∀ br, Branching E br → br.length ≤ E.length := by
    intro br h
    have h1 : br.Nodup := List.Nodup.of_map _ h.inDeg
    exact (h1.subperm (fun e he => h.sub e he)).length_le
  have key : ∀ n, (∃ br, Branching E br ∧ E.length - br.length ≤ n) → ∃ br, MaxBranching E br := by
    intro n
    induction n with
    | zero =>
      rintro ⟨br, h, hl⟩
      exact ⟨br, h, fun br' h' => by have := hbound br' h'; omega⟩
    | succ n ih =>
      rintro ⟨br, h, hl⟩
      by_cases hm : MaxBranching E br
      · exact ⟨br, hm⟩
      · have : ∃ br', Branching E br' ∧ br.length < br'.length := by
          by_contra hc
          push Not at hc
          exact hm ⟨h, fun br' h' => hc br' h'⟩
        obtain ⟨br', h', hlt⟩ := this
        have := hbound br' h'
        exact ih ⟨br', h', by omega⟩
  exact key E.length ⟨[], ⟨by simp, by simp, ⟨fun _ => 0, by simp⟩⟩, by simp⟩

example : ∃ branch : List (Token × Token) → List (Token × Token), ∀ E, MaxBranching E (branch E) :=
  ⟨fun E => (exists_maxBranching E).choose, fun E => (exists_maxBranching E).choose_spec⟩

/-! ## Examples -/

namespace ExRound
def fee : Fee := { token := "F", value := 1 / 1000 }
def prices : Prices := [("F", 2), ("B", 3), ("S", 2)]
def orders : List Order :=
  [ (Order.mk' "B" "S" 20000000 2 none "0").withBuy (19999995 / 2),
    (Order.mk' "S" "B" 20000000 1 none "1").withBuy (3 / 2 * (19999995 / 2) * (1000 / 999)),
    (Order.mk' "B" "F" 100000 2 none "2").withBuy (19999995 / 2 * ((1000 / 999) ^ 2 - 1)),
    Order.mk' "B" "F" 100000 2 none "3" ]
def branch (E : List (Token × Token)) : List (Token × Token) := if E = [("S", "B"), ("B", "S"), ("F", "B")] then [("F", "B"), ("B", "S")] else []
end ExRound

example : RoundInput ExRound.prices ExRound.fee ExRound.orders := by constructor <;> decide +kernel

example : 1 ≤ Config.default.minTradable ∧ Config.default.minTradable ≤ Config.default.minRationalTradable - 1 := by decide +kernel
example : 1 ≤ ExRound.fee.value * Config.default.minTradable ∧ 0 ≤ Config.default.minTradable := by decide +kernel

example : ∀ o ∈ ExRound.orders, ExactFeasible Config.default ExRound.prices ExRound.fee o := by
  intro o ho
  have key : ∀ o ∈ ExRound.orders, ∀ pb ps, dictGet? ExRound.prices o.buyToken = some pb → dictGet? ExRound.prices o.sellToken = some ps →
      exactSell pb ps ExRound.fee o.buy ≤ o.maxSell ∧ (0 < o.buy → pb / ps ≤ o.maxXrate * (1 - ExRound.fee.value) ∧
        (Config.default.minRationalTradable : ℚ) ≤ exactSell pb ps ExRound.fee o.buy) := by
    have h2 : ∀ o ∈ ExRound.orders, (match dictGet? ExRound.prices o.buyToken, dictGet? ExRound.prices o.sellToken with
      | some pb, some ps => decide (exactSell pb ps ExRound.fee o.buy ≤ o.maxSell ∧ (0 < o.buy → pb / ps ≤ o.maxXrate * (1 - ExRound.fee.value) ∧
        (Config.default.minRationalTradable : ℚ) ≤ exactSell pb ps ExRound.fee o.buy))
      | _, _ => true) = true := by decide +kernel
    intro o ho pb ps h1 h3
    have := h2 o ho
    rw [h1, h3] at this
    exact of_decide_eq_true this
  refine ⟨?_, fun pb ps h1 h2 => (key o ho pb ps (priceOf_iff.1 h1) (priceOf_iff.1 h2)).1,
    fun pb ps h1 h2 h3 => ((key o ho pb ps (priceOf_iff.1 h1) (priceOf_iff.1 h2)).2 h3).1, ?_,
    fun pb ps h1 h2 h3 => ((key o ho pb ps (priceOf_iff.1 h1) (priceOf_iff.1 h2)).2 h3).2⟩
  · revert o; decide +kernel
  · revert o; decide +kernel

/-- Rounding succeeds on the example, which uses all three kinds of orders: the fee order and one leaf are adjusted, and the balance is
positive for the fee token only. -/
example : ∃ r, roundSolution Config.default ExRound.branch ExRound.prices ExRound.orders ExRound.fee = .ok r ∧
    r.1 = true ∧ sold r.2 "B" = bought r.2 "B" ∧ sold r.2 "S" = bought r.2 "S" ∧ bought r.2 "F" < sold r.2 "F" ∧
    r.2.map (·.buy) ≠ ExRound.orders.map (fun o => (⌊o.buy⌋ : ℚ)) :=
  exists_of_pyCheck (p := fun r : Bool × List Order => r.1 = true ∧ sold r.2 "B" = bought r.2 "B" ∧ sold r.2 "S" = bought r.2 "S" ∧
    bought r.2 "F" < sold r.2 "F" ∧ r.2.map (·.buy) ≠ ExRound.orders.map (fun o => (⌊o.buy⌋ : ℚ))) (by decide +kernel)

example : Branching [("S", "B"), ("B", "S"), ("F", "B")] (ExRound.branch [("S", "B"), ("B", "S"), ("F", "B")]) :=
  ⟨by decide +kernel, by decide +kernel, ⟨fun t => if t = "F" then 0 else if t = "B" then 1 else 2, by decide +kernel⟩⟩

end Dex
