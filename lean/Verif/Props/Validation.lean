import Verif.Proof.Validation
import Verif.Model.Api

/-! # Properties C30, C31, C33: the final check -/

namespace Dex

open Spec

/-- Inputs for which the final check is characterised: a well-formed price dict that covers the orders and the fee token, and known
accounts. -/
structure ValInput (cfg : Config) (accounts : Accounts) (orders : List Order) (prices : Prices) (fee : Fee) : Prop where
  keys : (prices.map (·.1)).Nodup
  priced : ∀ o ∈ orders, Priced prices o
  feePriced : ∃ p ∈ prices, p.1 = fee.token
  known : ∀ o ∈ orders, ∃ a, o.accountId = some a ∧ ∃ p ∈ accounts, p.1 = a
  minTradable : 0 ≤ cfg.minTradable
  feePrice : cfg.feeTokenPrice ≠ 0

theorem nrExecuted_eq (orders : List Order) : nrExecuted orders = countNrExec orders := by
  unfold nrExecuted countNrExec
  rw [List.countP_eq_length_filter]

theorem known_iff {accounts : Accounts} {o : Order} : (∃ a, o.accountId = some a ∧ ∃ p ∈ accounts, p.1 = a) ↔
    ∃ a acc, o.accountId = some a ∧ dictGet? accounts a = some acc := by
  constructor
  · rintro ⟨a, ha, p, hp, hpa⟩
    obtain ⟨v, hv⟩ := dictGet?_isSome.2 (show a ∈ dictKeys accounts from List.mem_map.2 ⟨p, hp, hpa⟩)
    exact ⟨a, v, ha, hv⟩
  · rintro ⟨a, acc, ha, hacc⟩
    exact ⟨a, ha, _, dictGet?_mem hacc, rfl⟩

theorem feePaid_eq {cfg : Config} {o : Order} {prices : Prices} {fee : Fee} {p : ℚ} (hp : PriceOf prices o.buyToken p)
    (hf : cfg.feeTokenPrice ≠ 0) : o.feePaid cfg prices fee = .ok (o.buy * p * fee.value / cfg.feeTokenPrice) := by
  have : (cfg.feeTokenPrice : ℚ) ≠ 0 := by exact_mod_cast hf
  unfold Order.feePaid Order.volume
  rw [dictGet_of (priceOf_iff.1 hp)]
  simp only [ok_bind, pure_eq_ok, pyDiv_of_ne this]

/-- The fee check of one order, as a Boolean. -/
def absFeeOk (cfg : Config) (prices : Prices) (fee : Fee) (o : Order) : Bool :=
  match dictGet? prices o.buyToken with
  | some p => decide (o.buy * p * fee.value / cfg.feeTokenPrice ≥ cfg.minAbsFee)
  | none => true

/-- C30. For executed solutions: the final check passes iff the prices are integers and the auction rules hold. -/
theorem C30_validate_iff {cfg : Config} {fdiv : ℚ → ℕ → Py ℚ} {accounts : Accounts} {orders : List Order} {prices : Prices} {fee : Fee}
    (h : ValInput cfg accounts orders prices fee) :
    validate cfg fdiv accounts orders prices fee = .ok () ↔
      (∀ p ∈ prices, IsInt p.2) ∧ (nrExecuted orders = 0 ∨ Feasible cfg fdiv accounts orders prices fee) := by
  unfold validate
  rw [bind_eq_ok]
  simp only [pyAssert_eq_ok, exists_and_left, exists_const]
  refine and_congr Iff.rfl ?_
  rw [← nrExecuted_eq]
  by_cases hnr : nrExecuted orders = 0
  · simp [hnr]
  simp only [hnr, if_false, false_or]
  obtain ⟨accs, ea, ra, ka⟩ := accountTable_spec (accounts := accounts) (tokens := dictKeys prices) (orders := orders)
    (fun o ho => known_iff.1 (h.known o ho))
  obtain ⟨v1, v2⟩ := validateFold (cfg := cfg) (tokens := dictKeys prices) (orders := orders)
    (st := { balances := (dictKeys prices).map (fun t => (t, (0 : ℚ))), accs })
    ⟨DRep_init (dictKeys prices) (fun _ => 0), ra⟩
    (fun o ho => ⟨(priced_keys (h.priced o ho)).1, (priced_keys (h.priced o ho)).2, (ka _).2 ⟨o, ho, rfl⟩⟩)
  have hall : allE (fun o : Order => do
        let v ← o.feePaid cfg prices fee
        pure (decide (v ≥ cfg.minAbsFee))) (orders.filter (fun o => decide (o.sellToken ≠ fee.token ∧ o.buy > 0))) =
      .ok ((orders.filter (fun o => decide (o.sellToken ≠ fee.token ∧ o.buy > 0))).all (absFeeOk cfg prices fee)) := by
    refine allE_of_forall (fun o ho => ?_)
    obtain ⟨⟨pb, hpb⟩, _⟩ := priced_iff.1 (h.priced o (List.mem_of_mem_filter ho))
    rw [feePaid_eq hpb h.feePrice, ok_bind]
    unfold absFeeOk
    rw [priceOf_iff.1 hpb]; rfl
  have habs : (orders.filter (fun o => decide (o.sellToken ≠ fee.token ∧ o.buy > 0))).all (absFeeOk cfg prices fee) = true ↔
      ∀ o ∈ orders, o.sellToken ≠ fee.token → 0 < o.buy → ∀ p, PriceOf prices o.buyToken p →
        cfg.minAbsFee ≤ o.buy * p * fee.value / cfg.feeTokenPrice := by
    simp only [List.all_eq_true, List.mem_filter, decide_eq_true_eq, and_imp]
    constructor
    · intro ha o ho h1 h2 p hp
      have := ha o ho h1 h2
      unfold absFeeOk at this
      rw [priceOf_iff.1 hp] at this
      simpa using this
    · intro ha o ho h1 h2
      obtain ⟨⟨pb, hpb⟩, _⟩ := priced_iff.1 (h.priced o ho)
      unfold absFeeOk
      rw [priceOf_iff.1 hpb]
      simpa using ha o ho h1 h2 pb hpb
  simp only [ea, ok_bind, hall]
  simp only [bind_eq_ok, pyAssert_eq_ok, exists_and_left, exists_const, dictGet_eq_ok, habs]
  have hkey : fee.token ∈ dictKeys prices := by
    obtain ⟨p, hp, e⟩ := h.feePriced; exact List.mem_map.2 ⟨p, hp, e⟩
  constructor
  · rintro ⟨c1, st, c2, ⟨⟩, c3, total, c4, q, c5, c6, c7, c8⟩
    obtain ⟨k, hv⟩ := v2 st c2
    have c2' := v1.1 ⟨st, c2⟩
    rw [checkBalances_iff, hv.bal.forall h.keys (fun t v => (t = fee.token → 0 ≤ v) ∧ (t ≠ fee.token → v = 0))] at c3
    rw [hv.bal.2 _ hkey] at c4
    simp only [zero_add, Option.some.injEq] at c3 c4
    rw [hv.acc.forall h.keys] at c8
    refine ⟨c1, fun o ho => (validateOrderConstraints_iff h.minTradable).1 (c2' o ho), ?_, ?_, ⟨q, by rw [← c5, ← c4]; rfl, c6⟩, c7, ?_⟩
    · intro t ht
      rw [← sub_eq_zero]
      by_cases hk : t ∈ dictKeys prices
      · exact (c3 t hk).2 ht
      · have key : ∀ l : List Order, (∀ o ∈ l, Priced prices o) → imbal l t = 0 := by
          intro l
          induction l with
          | nil => intro _; exact imbal_nil t
          | cons o os ih =>
            intro hl
            rw [imbal_cons, ih (fun o ho => hl o (by simp [ho]))]
            obtain ⟨g1, g2⟩ := priced_keys (hl o (by simp))
            rw [if_neg (fun e : o.sellToken = t => hk (e ▸ g2)), if_neg (fun e : o.buyToken = t => hk (e ▸ g1))]; norm_num
        exact key orders h.priced
    · exact sub_nonneg.1 ((c3 _ hkey).1 rfl)
    · intro o ho a ha t ht
      obtain ⟨p, hp, hpt⟩ := ht
      exact c8 (some a) (by rw [k]; exact (ka _).2 ⟨o, ho, ha⟩) t (List.mem_map.2 ⟨p, hp, hpt⟩)
  · intro hF
    obtain ⟨st, c2⟩ := v1.2 (fun o ho => (validateOrderConstraints_iff h.minTradable).2 (hF.constraints o ho))
    obtain ⟨k, hv⟩ := v2 st c2
    obtain ⟨q, c5, c6⟩ := hF.avgFee
    refine ⟨hF.nrOrders, st, c2, (), ?_, _, hv.bal.2 _ hkey, q, ?_, c6, hF.absFee, ?_⟩
    · rw [checkBalances_iff, hv.bal.forall h.keys (fun t v => (t = fee.token → 0 ≤ v) ∧ (t ≠ fee.token → v = 0))]
      intro t _
      simp only [zero_add]
      refine ⟨?_, fun ht => sub_eq_zero.2 (hF.balanced t ht)⟩
      rintro rfl
      exact sub_nonneg.2 hF.feeToken
    · rw [← c5]; simp only [zero_add]; rfl
    · rw [hv.acc.forall h.keys]
      intro a ha t ht
      rw [k, ka] at ha
      obtain ⟨o, ho, rfl⟩ := ha
      obtain ⟨a, ha, _⟩ := h.known o ho
      obtain ⟨p, hp, hpt⟩ := List.mem_map.1 ht
      have := hF.accounts o ho a ha t ⟨p, hp, hpt⟩
      rw [ha]; exact this

theorem accountTable_known {accounts : Accounts} {tokens : List Token} {orders : List Order} {accs : Dict (Option AccountId) (Dict Token ℚ)}
    (ea : accountTable accounts tokens orders = .ok accs) :
    ∀ o ∈ orders, ∃ a acc, o.accountId = some a ∧ dictGet? accounts a = some acc := by
  unfold accountTable at ea
  revert ea
  generalize ([] : Dict (Option AccountId) (Dict Token ℚ)) = d
  induction orders generalizing d with
  | nil => intro _; simp
  | cons o os ih =>
    intro ea
    unfold foldE at ea
    rw [bind_eq_ok] at ea
    obtain ⟨d1, e1, e2⟩ := ea
    have ho : ∃ a acc, o.accountId = some a ∧ dictGet? accounts a = some acc := by
      cases ha : o.accountId with
      | none => rw [ha] at e1; cases e1
      | some a =>
        rw [ha] at e1
        simp only [bind_eq_ok, dictGet_eq_ok] at e1
        obtain ⟨acc, e1, _⟩ := e1
        exact ⟨a, acc, rfl, e1⟩
    intro o' ho'
    rcases List.mem_cons.1 ho' with rfl | ho'
    · exact ho
    · exact ih d1 e2 o' ho'

/-- A passed check implies its own preconditions (for executed solutions over a well-formed price dict). -/
theorem validate_ok_input {cfg : Config} {fdiv : ℚ → ℕ → Py ℚ} {accounts : Accounts} {orders : List Order} {prices : Prices} {fee : Fee}
    (hk : (prices.map (·.1)).Nodup) (hm : 0 ≤ cfg.minTradable) (hp : cfg.feeTokenPrice ≠ 0)
    (h : validate cfg fdiv accounts orders prices fee = .ok ()) (hnr : nrExecuted orders ≠ 0) :
    ValInput cfg accounts orders prices fee := by
  unfold validate at h
  rw [bind_eq_ok] at h
  obtain ⟨_, _, h⟩ := h
  rw [← nrExecuted_eq] at h
  simp only [hnr, if_false] at h
  simp only [bind_eq_ok, pyAssert_eq_ok, exists_and_left, exists_const, dictGet_eq_ok] at h
  obtain ⟨_, accs, ea, st, est, _, _, total, etot, _, _⟩ := h
  have hknown := accountTable_known ea
  have hpr : ∀ {os : List Order} {st st' : ValState}, foldE (validateStep cfg) st os = .ok st' →
      dictKeys st'.balances = dictKeys st.balances ∧ ∀ o ∈ os, o.buyToken ∈ dictKeys st.balances ∧ o.sellToken ∈ dictKeys st.balances := by
    intro os
    induction os with
    | nil => intro st st' h; cases h; simp
    | cons o os ih =>
      intro st st' h
      unfold foldE at h
      rw [bind_eq_ok] at h
      obtain ⟨st1, e1, e2⟩ := h
      obtain ⟨i1, i2⟩ := ih e2
      unfold validateStep at e1
      simp only [bind_eq_ok, dictGet_eq_ok, pure_eq_ok, Except.ok.injEq] at e1
      obtain ⟨_, _, vb, g1, vs, g2, acc, _, _, _, _, _, rfl⟩ := e1
      have m1 : o.buyToken ∈ dictKeys st.balances := dictGet?_isSome.1 ⟨vb, g1⟩
      have m2 : o.sellToken ∈ dictKeys (dictSet st.balances o.buyToken (vb - o.buy)) := dictGet?_isSome.1 ⟨vs, g2⟩
      have k1 : dictKeys (dictSet st.balances o.buyToken (vb - o.buy)) = dictKeys st.balances := by rw [dictKeys_dictSet, if_pos m1]
      simp only [dictKeys_dictSet, if_pos m1, if_pos (k1 ▸ m2)] at i1 i2
      rw [k1] at m2
      refine ⟨i1, fun o' ho' => ?_⟩
      rcases List.mem_cons.1 ho' with rfl | ho'
      · exact ⟨m1, m2⟩
      · exact i2 o' ho'
  obtain ⟨p1, p2⟩ := hpr est
  have hkeys : dictKeys ((dictKeys prices).map (fun t => (t, (0 : ℚ)))) = dictKeys prices := (DRep_init (dictKeys prices) (fun _ => 0)).1
  simp only [hkeys] at p1 p2
  have hmem : ∀ {t : Token}, t ∈ dictKeys prices → ∃ p ∈ prices, p.1 = t := fun ht => by
    obtain ⟨p, hp, e⟩ := List.mem_map.1 ht; exact ⟨p, hp, e⟩
  refine ⟨hk, fun o ho => ⟨hmem (p2 o ho).1, hmem (p2 o ho).2⟩, hmem ?_, fun o ho => known_iff.2 (hknown o ho), hm, hp⟩
  rw [← p1]
  exact dictGet?_isSome.1 ⟨_, etot⟩

/-- C30. A solution that passes the check satisfies the auction rules; nothing is assumed about the orders, their tokens or the accounts. -/
theorem C30_passed_is_feasible {cfg : Config} {fdiv : ℚ → ℕ → Py ℚ} {accounts : Accounts} {orders : List Order} {prices : Prices} {fee : Fee}
    (hk : (prices.map (·.1)).Nodup) (hm : 0 ≤ cfg.minTradable) (hp : cfg.feeTokenPrice ≠ 0)
    (h : validate cfg fdiv accounts orders prices fee = .ok ()) :
    (∀ p ∈ prices, IsInt p.2) ∧ (nrExecuted orders = 0 ∨
      ValInput cfg accounts orders prices fee ∧ Feasible cfg fdiv accounts orders prices fee) := by
  by_cases hnr : nrExecuted orders = 0
  · refine ⟨?_, .inl hnr⟩
    unfold validate at h
    rw [bind_eq_ok] at h
    obtain ⟨_, h, _⟩ := h
    exact pyAssert_eq_ok.1 h
  · have hin := validate_ok_input hk hm hp h hnr
    obtain ⟨h1, h2⟩ := (C30_validate_iff hin).1 h
    exact ⟨h1, .inr ⟨hin, h2.resolve_left hnr⟩⟩

namespace ExVal
def fee : Fee := { token := "F", value := 1 / 1000 }
def prices : Prices := [("F", 2), ("B", 3), ("S", 2)]
def orders : List Order :=
  [ ((Order.mk' "B" "S" 20000000 2 (some "x") "0").withBuy 9999997).withSell 15015010,
    ((Order.mk' "S" "B" 20000000 1 (some "y") "1").withBuy 15015010).withSell 10020026,
    ((Order.mk' "B" "F" 100000 2 (some "z") "2").withBuy 20029).withSell 30073,
    Order.mk' "B" "F" 100000 2 (some "z") "3" ]
def accounts : Accounts := [("x", [("S", 15015010)]), ("y", [("B", 10020026)]), ("z", [("F", 40000)])]
/-- The same with one unit less in an account. -/
def poor : Accounts := [("x", [("S", 15015009)]), ("y", [("B", 10020026)]), ("z", [("F", 40000)])]
def fdiv (q : ℚ) (n : ℕ) : Py ℚ := pyDiv q n
end ExVal

example : ValInput Config.default ExVal.accounts ExVal.orders ExVal.prices ExVal.fee := by
  refine ⟨by decide +kernel, by decide +kernel, by decide +kernel, ?_, by decide +kernel, by decide +kernel⟩
  have : ∀ o ∈ ExVal.orders, o.accountId = some "x" ∨ o.accountId = some "y" ∨ o.accountId = some "z" := by decide +kernel
  intro o ho
  rcases this o ho with h | h | h
  · exact ⟨"x", h, by decide +kernel⟩
  · exact ⟨"y", h, by decide +kernel⟩
  · exact ⟨"z", h, by decide +kernel⟩

/-- The check passes on a solution with three executed orders ... -/
example : validate Config.default ExVal.fdiv ExVal.accounts ExVal.orders ExVal.prices ExVal.fee = .ok () ∧ nrExecuted ExVal.orders = 3 := by
  decide +kernel

/-- ... and fails if one account holds a unit less. -/
example : validate Config.default ExVal.fdiv ExVal.poor ExVal.orders ExVal.prices ExVal.fee = .error (.assertion "validation.py:83") := by
  decide +kernel

end Dex
