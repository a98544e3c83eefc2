import Verif.Proof.Load
import Std.Data.String.ToNat
import Mathlib.Tactic.Positivity

/-! # Properties C01–C04: loading and ordering orders -/

namespace Dex

open Spec

/-! ### C04: execution priority -/

/-- C04. Sorting by execution priority permutes the orders, and no order comes after one it has priority over. -/
theorem C04_sorted (orders : List Order) :
    (sortedByExecPriority orders).Perm orders ∧
    (sortedByExecPriority orders).Pairwise (fun a b => a.maxXrate ≥ b.maxXrate ∧
      (a.maxXrate = b.maxXrate → a.maxSell ≥ b.maxSell ∧ (a.maxSell = b.maxSell → a.id ≤ b.id))) := by
  refine ⟨sortedByExecPriority_perm orders, (sortedByExecPriority_pairwise orders).imp ?_⟩
  intro a b h
  unfold Before at h
  push Not at h
  refine ⟨h.1, fun e => ⟨(h.2 e.symm).1, fun e' => (h.2 e.symm).2 e'.symm⟩⟩

/-- C04. For distinct ids the sorted list does not depend on the order in which the orders are given. -/
theorem C04_deterministic {orders orders' : List Order} (hp : orders.Perm orders')
    (hn : (orders.map (·.id)).Nodup) : sortedByExecPriority orders = sortedByExecPriority orders' :=
  sortedByExecPriority_unique hp hn

/-! ### C03: limit rates -/

/-- C03. The loaded limit rate is at most the user's rate, and equal to it unless the requested buy amount is below the
minimum tradable amount. -/
theorem C03_limit_not_looser {cfg : Config} {d : OrderDict} {id : String} {o : Order}
    (h : Order.loadFromDict cfg d id = .ok o) (hs : 0 ≤ d.sellAmount) (hb : 0 < d.buyAmount) :
    o.maxXrate ≤ d.sellAmount / d.buyAmount ∧
    ((cfg.minTradable : ℚ) ≤ d.buyAmount → o.maxXrate = d.sellAmount / d.buyAmount) := by
  unfold Order.loadFromDict at h
  simp only [bind_eq_ok, pyDiv_eq_ok, pure_eq_ok, Except.ok.injEq] at h
  obtain ⟨r, ⟨hne, rfl⟩, rfl⟩ := h
  constructor
  · exact div_le_div_of_nonneg_left hs hb (le_max_right _ _)
  · intro hm
    simp only [Order.mk']
    rw [max_eq_right hm]

/-- C03. The loaded order exactly: the user's tokens, account and sell amount, nothing executed, and as limit the sell amount over the
requested buy amount raised to the minimum tradable amount. -/
theorem C03_loaded {cfg : Config} {d : OrderDict} {id : String} (h : max (cfg.minTradable : ℚ) d.buyAmount ≠ 0) :
    ∃ o, Order.loadFromDict cfg d id = .ok o ∧ o.id = id ∧ o.buyToken = d.buyToken ∧ o.sellToken = d.sellToken ∧
      o.accountId = some d.accountID ∧ o.maxSell = d.sellAmount ∧ o.origMaxSell = d.sellAmount ∧ o.buy = 0 ∧ o.sell = 0 ∧
      o.maxXrate = d.sellAmount / max (cfg.minTradable : ℚ) d.buyAmount := by
  unfold Order.loadFromDict
  simp only [pyDiv_of_ne h, ok_bind]
  exact ⟨_, rfl, rfl, rfl, rfl, rfl, rfl, rfl, rfl, rfl, rfl⟩

/-- C03. Executing an order within its loaded limit respects the user's amounts. -/
theorem C03_execution {cfg : Config} {d : OrderDict} {id : String} {o : Order} {buy sell : ℚ}
    (h : Order.loadFromDict cfg d id = .ok o) (hs : 0 ≤ d.sellAmount) (hb : 0 ≤ d.buyAmount) (hbuy : 0 ≤ buy)
    (hlim : sell ≤ o.maxXrate * buy) : sell * d.buyAmount ≤ buy * d.sellAmount := by
  unfold Order.loadFromDict at h
  simp only [bind_eq_ok, pyDiv_eq_ok, pure_eq_ok, Except.ok.injEq] at h
  obtain ⟨r, ⟨hne, rfl⟩, rfl⟩ := h
  simp only [Order.mk'] at hlim
  rcases le_total sell 0 with h0 | h0
  · have h1 := mul_nonpos_of_nonpos_of_nonneg h0 hb
    have h2 := mul_nonneg hbuy hs
    linarith
  · have hM : d.buyAmount ≤ max (cfg.minTradable : ℚ) d.buyAmount := le_max_right _ _
    have hpos : 0 < max (cfg.minTradable : ℚ) d.buyAmount := lt_of_le_of_ne (le_trans hb hM) (Ne.symm hne)
    have h1 : sell * max (cfg.minTradable : ℚ) d.buyAmount ≤ d.sellAmount * buy := by
      have := mul_le_mul_of_nonneg_right hlim hpos.le
      calc sell * max (cfg.minTradable : ℚ) d.buyAmount
          ≤ d.sellAmount / max (cfg.minTradable : ℚ) d.buyAmount * buy * max (cfg.minTradable : ℚ) d.buyAmount := this
        _ = d.sellAmount * buy := by field_simp
    have h2 := mul_le_mul_of_nonneg_left hM h0
    linarith

/-! ### C01, C02: capping by balances -/

/-- Orders as they come out of `Order.__init__` for non-negative amounts. -/
structure LoadInput (accounts : Accounts) (orders : List Order) : Prop where
  bal : NonnegBalances accounts
  amounts : ∀ o ∈ orders, 0 ≤ o.maxSell ∧ o.maxSell ≤ o.origMaxSell
  ids : (orders.map (·.id)).Nodup

/-- C01/C02. Capping raises nothing. -/
theorem C01_no_exception {accounts : Accounts} {orders : List Order} (h : LoadInput accounts orders) :
    ∃ r, restrictOrderSellAmounts orders accounts = .ok r := ⟨_, restrict_spec h.bal h.amounts⟩

theorem sum_filter_perm {l l' : List Order} (p : Order → Bool) (h : l.Perm l') :
    ((l.filter p).map (·.maxSell)).sum = ((l'.filter p).map (·.maxSell)).sum :=
  ((h.filter p).map _).sum_eq

/-- C01. Per account and token pair, the kept maximum sell amounts add up to the smaller of the balance and what was asked
for; so they never exceed the balance. -/
theorem C01_total {accounts : Accounts} {orders r : List Order} (h : LoadInput accounts orders)
    (hr : restrictOrderSellAmounts orders accounts = .ok r) (a : AccountId) (ts tb : Token) :
    ((r.filter (fun o => decide (o.accountId = some a ∧ o.sellToken = ts ∧ o.buyToken = tb))).map (·.maxSell)).sum =
      min (balanceOf accounts a ts)
        ((orders.filter (fun o => decide (o.accountId = some a ∧ o.sellToken = ts ∧ o.buyToken = tb))).map (·.maxSell)).sum := by
  rw [restrict_spec h.bal h.amounts] at hr
  cases hr
  let o : Order := Order.mk' tb ts 0 0 (some a) ""
  have e : (fun c : Order => decide (c.accountId = some a ∧ c.sellToken = ts ∧ c.buyToken = tb)) =
    fun c => decide (SamePair c o) := rfl
  rw [e]
  have hsort := sortedByExecPriority_perm orders
  have h1 := used_keepFrom (accounts := accounts) (sortedByExecPriority orders) (P := []) o
    (fun c hc => (h.amounts c (hsort.mem_iff.1 hc)).1) (by simp)
  rw [List.nil_append] at h1
  change used _ o = _
  rw [h1]
  have h2 : used (sortedByExecPriority orders) o = used orders o := sum_filter_perm _ hsort
  rw [h2]
  have hb : backing accounts o = balanceOf accounts a ts := rfl
  have hb0 : 0 ≤ backing accounts o := backing_nonneg h.bal o
  have hu : used [] o = 0 := rfl
  rw [hu, hb] at *
  rw [sub_zero, max_eq_right hb0]
  change balanceOf accounts a ts - max 0 (balanceOf accounts a ts - used orders o) = min (balanceOf accounts a ts) (used orders o)
  rcases le_total (balanceOf accounts a ts) (used orders o) with hle | hle
  · rw [min_eq_left hle, max_eq_left (by linarith)]; ring
  · rw [min_eq_right hle, max_eq_right (by linarith)]; ring

theorem used_take_eq_ahead {orders : List Order} (hn : (orders.map (·.id)).Nodup) {k : ℕ} {o : Order}
    (hk : (sortedByExecPriority orders)[k]? = some o) :
    used ((sortedByExecPriority orders).take k) o = ahead orders o := by
  have hp := sortedByExecPriority_perm orders
  have hn' : ((sortedByExecPriority orders).map (·.id)).Nodup := (hp.map _).nodup_iff.2 hn
  unfold used ahead
  rw [← take_eq_filter_before (sortedByExecPriority_pairwise orders) hn' hk, List.filter_filter]
  have : (fun c : Order => decide (SamePair c o) && decide (Before c o)) = fun c => decide (SamePair c o ∧ Before c o) := by
    funext c; simp
  rw [this]
  exact sum_filter_perm _ hp

/-- C02. Exactly which orders are kept and with which maximum sell amount: an order keeps what the balance allows after the
orders of higher priority of the same account and token pair; it is dropped iff that is zero. Nothing else about it changes,
and no order appears twice. -/
theorem C02_exact {accounts : Accounts} {orders r : List Order} (h : LoadInput accounts orders)
    (hr : restrictOrderSellAmounts orders accounts = .ok r) :
    (∀ o', o' ∈ r ↔ ∃ o ∈ orders, available accounts orders o ≠ 0 ∧ o' = { o with maxSell := available accounts orders o }) ∧
    (r.map (·.id)).Nodup := by
  rw [restrict_spec h.bal h.amounts] at hr
  cases hr
  have hp := sortedByExecPriority_perm orders
  refine ⟨?_, ?_⟩
  · intro o'
    rw [mem_keepFrom]
    have key : ∀ k o, (sortedByExecPriority orders)[k]? = some o →
        capOf accounts ([] ++ (sortedByExecPriority orders).take k) o = available accounts orders o := by
      intro k o hk
      unfold capOf available
      rw [List.nil_append, used_take_eq_ahead h.ids hk]
    constructor
    · rintro ⟨k, o, hk, hne, he⟩
      rw [key k o hk] at hne he
      exact ⟨o, hp.mem_iff.1 (List.mem_of_getElem? hk), hne, he⟩
    · rintro ⟨o, ho, hne, he⟩
      obtain ⟨k, hk⟩ := List.mem_iff_getElem?.1 (hp.mem_iff.2 ho)
      exact ⟨k, o, hk, by rw [key k o hk]; exact hne, by rw [key k o hk]; exact he⟩
  · exact (keepFrom_ids_sublist _).nodup ((hp.map _).nodup_iff.2 h.ids)

/-- C02. Kept orders keep their data, with `0 < new maximum ≤ old maximum`. -/
theorem C02_kept {accounts : Accounts} {orders r : List Order} (h : LoadInput accounts orders)
    (hr : restrictOrderSellAmounts orders accounts = .ok r) {o' : Order} (ho' : o' ∈ r) :
    ∃ o ∈ orders, SameOrder o o' ∧ o'.buy = o.buy ∧ o'.sell = o.sell ∧ 0 < o'.maxSell ∧ o'.maxSell ≤ o.maxSell := by
  obtain ⟨o, ho, hne, rfl⟩ := ((C02_exact h hr).1 o').1 ho'
  refine ⟨o, ho, ⟨rfl, rfl, rfl, rfl, rfl, rfl⟩, rfl, rfl, ?_, min_le_left _ _⟩
  exact lt_of_le_of_ne (le_min (h.amounts o ho).1 (le_max_left _ _)) (Ne.symm hne)

/-- C02. An order is dropped exactly when it offers nothing or its balance is used up by orders of higher priority. -/
theorem C02_dropped {accounts : Accounts} {orders r : List Order} (h : LoadInput accounts orders)
    (hr : restrictOrderSellAmounts orders accounts = .ok r) {o : Order} (ho : o ∈ orders) :
    o.id ∉ r.map (·.id) ↔ o.maxSell = 0 ∨ backing accounts o ≤ ahead orders o := by
  have hx := C02_exact h hr
  have h0 := (h.amounts o ho).1
  have hz : available accounts orders o = 0 ↔ o.maxSell = 0 ∨ backing accounts o ≤ ahead orders o := by
    unfold available
    constructor
    · intro he
      rcases min_choice o.maxSell (max 0 (backing accounts o - ahead orders o)) with hm | hm
      · left; rw [← hm, he]
      · right
        rw [hm] at he
        have := le_max_right 0 (backing accounts o - ahead orders o)
        linarith
    · rintro (he | he)
      · rw [he]; exact min_eq_left (le_max_left _ _)
      · rw [max_eq_left (by linarith)]; exact min_eq_right h0
  rw [← hz]
  constructor
  · intro hnot
    by_contra hne
    apply hnot
    exact List.mem_map.2 ⟨_, (hx.1 _).2 ⟨o, ho, hne, rfl⟩, rfl⟩
  · intro he hmem
    obtain ⟨o', ho', hid⟩ := List.mem_map.1 hmem
    obtain ⟨c, hc, hne, rfl⟩ := (hx.1 o').1 ho'
    have : c = o := nodup_ids_inj h.ids hc ho hid
    subst this
    exact hne he

/-! ### The same for `load_problem` -/

theorem toString_nat_inj {m n : ℕ} (h : toString m = toString n) : m = n := Nat.repr_injective h

/-- The order built from the `k`-th order dict. -/
def loadedOrder (cfg : Config) (k : ℕ) (d : OrderDict) : Order :=
  Order.mk' d.buyToken d.sellToken d.sellAmount (d.sellAmount / max (cfg.minTradable : ℚ) d.buyAmount) (some d.accountID)
    (toString k)

theorem loadOrdersFrom_eq {cfg : Config} (hm : 0 < cfg.minTradable) (ds : List OrderDict) : ∀ i,
    loadOrdersFrom cfg i ds = .ok (ds.mapIdx (fun k d => loadedOrder cfg (i + k) d)) := by
  induction ds with
  | nil => intro i; rfl
  | cons d ds ih =>
    intro i
    have hne : max (cfg.minTradable : ℚ) d.buyAmount ≠ 0 := by
      have : (0 : ℚ) < cfg.minTradable := by exact_mod_cast hm
      have := lt_of_lt_of_le this (le_max_left _ d.buyAmount)
      exact this.ne'
    simp only [loadOrdersFrom, Order.loadFromDict, pyDiv_of_ne hne, ok_bind, pure_eq_ok, ih, List.mapIdx_cons]
    simp [loadedOrder, Nat.add_assoc, Nat.add_comm 1]

theorem loaded_ids_nodup (cfg : Config) (ds : List OrderDict) (i : ℕ) :
    ((ds.mapIdx (fun k d => loadedOrder cfg (i + k) d)).map (·.id)).Nodup := by
  induction ds generalizing i with
  | nil => simp
  | cons d ds ih =>
    rw [List.mapIdx_cons, List.map_cons, List.nodup_cons]
    refine ⟨?_, ?_⟩
    · intro h
      obtain ⟨o, ho, hid⟩ := List.mem_map.1 h
      obtain ⟨k, hk, rfl⟩ := List.mem_mapIdx.1 ho
      have := toString_nat_inj hid
      omega
    · have := ih (i + 1)
      simpa [Nat.add_assoc, Nat.add_comm 1] using this

theorem loadInput_of_instance {cfg : Config} {inst : Instance} (hb : NonnegBalances inst.accounts)
    (hs : ∀ d ∈ inst.orders, 0 ≤ d.sellAmount) :
    LoadInput inst.accounts (inst.orders.mapIdx (fun k d => loadedOrder cfg (0 + k) d)) := by
  refine ⟨hb, ?_, loaded_ids_nodup cfg _ 0⟩
  intro o ho
  obtain ⟨k, hk, rfl⟩ := List.mem_mapIdx.1 ho
  exact ⟨hs _ (List.getElem_mem hk), le_refl _⟩

/-- C01. Loading an instance with non-negative balances and sell amounts raises nothing, and for every account, sell token
and buy token the loaded orders ask for at most the balance. -/
theorem C01_load_problem {cfg : Config} {inst : Instance} (hm : 0 < cfg.minTradable) (hb : NonnegBalances inst.accounts)
    (hs : ∀ d ∈ inst.orders, 0 ≤ d.sellAmount) :
    ∃ orders, loadProblem cfg inst = .ok (inst.accounts, orders, inst.fee) ∧
      (orders.map (·.id)).Nodup ∧
      ∀ a ts tb, ((orders.filter (fun o => decide (o.accountId = some a ∧ o.sellToken = ts ∧ o.buyToken = tb))).map
        (·.maxSell)).sum ≤ balanceOf inst.accounts a ts := by
  have hl := loadInput_of_instance (cfg := cfg) hb hs
  obtain ⟨r, hr⟩ := C01_no_exception hl
  refine ⟨r, ?_, (C02_exact hl hr).2, ?_⟩
  · unfold loadProblem
    rw [loadOrdersFrom_eq hm, ok_bind, hr]; rfl
  · intro a ts tb
    rw [C01_total hl hr]
    exact min_le_left _ _

/-- C02/C03. Every loaded order comes from the order dict its id names, with the dict's tokens and account, a maximum
sell amount in `(0, sellAmount]` and the limit rate of C03. -/
theorem C02_load_problem {cfg : Config} {inst : Instance} {accounts : Accounts} {orders : List Order} {fee : Fee}
    (hm : 0 < cfg.minTradable) (hb : NonnegBalances inst.accounts) (hs : ∀ d ∈ inst.orders, 0 ≤ d.sellAmount)
    (h : loadProblem cfg inst = .ok (accounts, orders, fee)) {o : Order} (ho : o ∈ orders) :
    ∃ (k : ℕ) (d : OrderDict), inst.orders[k]? = some d ∧ o.id = toString k ∧ o.accountId = some d.accountID ∧ o.buyToken = d.buyToken ∧
      o.sellToken = d.sellToken ∧ 0 < o.maxSell ∧ o.maxSell ≤ d.sellAmount ∧ o.origMaxSell = d.sellAmount ∧
      o.maxXrate = d.sellAmount / max (cfg.minTradable : ℚ) d.buyAmount ∧ o.buy = 0 ∧ o.sell = 0 := by
  have hl := loadInput_of_instance (cfg := cfg) hb hs
  unfold loadProblem at h
  rw [loadOrdersFrom_eq hm, ok_bind] at h
  simp only [bind_eq_ok, pure_eq_ok, Except.ok.injEq, Prod.mk.injEq] at h
  obtain ⟨r, hr, _, rfl, _⟩ := h
  obtain ⟨c, hc, hso, h1, h2, h3, h4⟩ := C02_kept hl hr ho
  obtain ⟨k, hk, rfl⟩ := List.mem_mapIdx.1 hc
  refine ⟨k, inst.orders[k], List.getElem?_eq_getElem hk, ?_, hso.2.1, hso.2.2.1, hso.2.2.2.1, h3, h4, hso.2.2.2.2.2,
    hso.2.2.2.2.1, h1, h2⟩
  have := hso.1
  simpa [loadedOrder, Order.mk'] using this

/-! ### Non-vacuity and necessity of the hypotheses -/

namespace ExLoad

/-- Two orders of account A compete for 150 of token T; account B has no balance entry. -/
def orders : List OrderDict :=
  [{ accountID := "A", buyToken := "U", sellToken := "T", sellAmount := 100, buyAmount := 20000 },
   { accountID := "A", buyToken := "U", sellToken := "T", sellAmount := 100, buyAmount := 10000 },
   { accountID := "A", buyToken := "V", sellToken := "T", sellAmount := 100, buyAmount := 1 },
   { accountID := "B", buyToken := "U", sellToken := "T", sellAmount := 5, buyAmount := 10000 }]

def inst : Instance := { accounts := [("A", [("T", 150)])], orders, fee := { token := "F", value := 1/1000 } }

end ExLoad

/-- The example instance meets the hypotheses; capping keeps three orders, caps one and drops one. -/
example : 0 < Config.default.minTradable ∧ NonnegBalances ExLoad.inst.accounts ∧
    (∀ d ∈ ExLoad.inst.orders, 0 ≤ d.sellAmount) ∧
    ∃ r, loadProblem Config.default ExLoad.inst = .ok r ∧
      (r.2.1.map (fun o => (o.id, o.maxSell)) = [("1", 100), ("2", 100), ("0", 50)]) := by
  refine ⟨by decide +kernel, by decide +kernel, by decide +kernel, exists_of_pyCheck (by decide +kernel)⟩

/-- C03 is not vacuous: an order asking for less than the minimum tradable amount gets a strictly tighter limit. -/
example : ∃ o, Order.loadFromDict Config.default ExLoad.orders[2] "2" = .ok o ∧ o.maxXrate = 1 / 100 ∧
    o.maxXrate < 100 / 1 := exists_of_pyCheck (p := fun o : Order => o.maxXrate = 1 / 100 ∧ o.maxXrate < 100 / 1) (by decide +kernel)

/-- C04 on concrete orders: ties in the rate and the amount are broken by id. -/
example : (sortedByExecPriority
    [Order.mk' "U" "T" 10 2 none "b", Order.mk' "U" "T" 10 2 none "a", Order.mk' "U" "T" 20 2 none "c",
     Order.mk' "U" "T" 1 3 none "d"]).map (·.id) = ["d", "c", "a", "b"] := by decide +kernel

/-- The hypothesis of non-negative balances is needed for C02: with a negative balance an order is kept with a negative
maximum sell amount. -/
theorem C02_negative_balance_counterexample :
    ∃ r, restrictOrderSellAmounts [Order.mk' "U" "T" 10 2 (some "A") "0"] [("A", [("T", -5)])] = .ok r ∧
      r.map (·.maxSell) = [-5] := exists_of_pyCheck (by decide +kernel)

end Dex
