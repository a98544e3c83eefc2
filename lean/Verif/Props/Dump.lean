import Verif.Props.Accounts

/-! # Property C44: the dumped solution (and C38 end to end) -/

namespace Dex

namespace Spec

/-- Executed sell amount written into an order dict. -/
def execSell (e : OrderDict) : ℚ := e.execSellAmount.getD 0

/-- Executed buy amount written into an order dict. -/
def execBuy (e : OrderDict) : ℚ := e.execBuyAmount.getD 0

/-- `e` is the `k`-th order of the instance with executed amounts the user accepts: positive integers, at most the user's sell amount, at
a rate at least as good as the user's. -/
def DumpedFrom (inst : Instance) (k : ℕ) (e : OrderDict) : Prop :=
  ∃ d, inst.orders[k]? = some d ∧ e = { d with execSellAmount := e.execSellAmount, execBuyAmount := e.execBuyAmount } ∧
    e.execSellAmount = some (execSell e) ∧ e.execBuyAmount = some (execBuy e) ∧ IsInt (execSell e) ∧ IsInt (execBuy e) ∧
    0 < execSell e ∧ 0 < execBuy e ∧ execSell e ≤ d.sellAmount ∧ execSell e * d.buyAmount ≤ execBuy e * d.sellAmount

/-- Total of token `t` sold in the dump. -/
def dumpSold (es : List OrderDict) (t : Token) : ℚ := ((es.filter (fun e => decide (e.sellToken = t))).map execSell).sum

/-- Total of token `t` bought in the dump. -/
def dumpBought (es : List OrderDict) (t : Token) : ℚ := ((es.filter (fun e => decide (e.buyToken = t))).map execBuy).sum

/-- A correct dump for the instance. -/
structure DumpOk (cfg : Config) (inst : Instance) (d : Dump) : Prop where
  orders : ∃ ks : List ℕ, ks.Nodup ∧ List.Forall₂ (DumpedFrom inst) ks d.orders
  count : (d.orders.length : ℤ) ≤ cfg.maxNrExec
  clearing : ∀ e ∈ d.orders, ∃ pb ps, PriceOf d.prices e.buyToken pb ∧ PriceOf d.prices e.sellToken ps ∧ execSell e = uniformSell pb ps inst.fee (execBuy e)
  prices : IntPrices d.prices
  balanced : ∀ t, t ≠ inst.fee.token → dumpSold d.orders t = dumpBought d.orders t
  feeToken : dumpBought d.orders inst.fee.token ≤ dumpSold d.orders inst.fee.token
  balances : ∀ a t, balanceOf d.accounts a t = balanceOf inst.accounts a t + dumpBought (d.orders.filter (fun e => decide (e.accountID = a))) t -
    dumpSold (d.orders.filter (fun e => decide (e.accountID = a))) t
  nonneg : ∀ a t, 0 ≤ balanceOf d.accounts a t
  touched : d.objVals.ordersTouched = d.orders.length
  disreg : 0 ≤ d.objVals.utilityDisregTouched
  fees : d.objVals.fees = dumpSold d.orders inst.fee.token - dumpBought d.orders inst.fee.token
  minAmounts : ∀ e ∈ d.orders, (cfg.minTradable : ℚ) ≤ execSell e ∧ (cfg.minTradable : ℚ) ≤ execBuy e
  feePrice : d.orders ≠ [] → PriceOf d.prices inst.fee.token cfg.feeTokenPrice

/-- What the solvers need from an instance: non-negative integer balances, non-negative sell amounts, integer buy amounts, orders between
different tokens, a fee between zero and one. -/
structure GoodInstance (inst : Instance) : Prop where
  balances : NonnegBalances inst.accounts
  ints : IntBalances inst.accounts
  sell : ∀ d ∈ inst.orders, 0 ≤ d.sellAmount
  buy : ∀ d ∈ inst.orders, IsInt d.buyAmount
  tokens : ∀ d ∈ inst.orders, d.buyToken ≠ d.sellToken
  feePos : 0 < inst.fee.value
  feeLt : inst.fee.value < 1

end Spec

open Spec

theorem originalOrders_get (ds : List OrderDict) : ∀ i k : ℕ, dictGet? (originalOrdersFrom i ds) (toString (i + k)) = ds[k]? := by
  induction ds with
  | nil => intro i k; rfl
  | cons d ds ih =>
    intro i k
    unfold originalOrdersFrom
    rw [dictGet?_cons]
    cases k with
    | zero => simp
    | succ k =>
      have : ¬ toString i = toString (i + (k + 1)) := fun h => by have := toString_nat_inj h; omega
      rw [if_neg this, show i + (k + 1) = (i + 1) + k by omega, ih (i + 1) k]
      simp

/-- The order stems from the `k`-th order dict of the instance. -/
def StemsFrom (cfg : Config) (inst : Instance) (o : Order) (k : ℕ) (d : OrderDict) : Prop :=
  inst.orders[k]? = some d ∧ o.id = toString k ∧ o.accountId = some d.accountID ∧ o.buyToken = d.buyToken ∧
    o.sellToken = d.sellToken ∧ 0 < o.maxSell ∧ o.maxSell ≤ d.sellAmount ∧ o.origMaxSell = d.sellAmount ∧
    o.maxXrate = d.sellAmount / max (cfg.minTradable : ℚ) d.buyAmount

/-- A loaded instance with the list of loaded orders. -/
structure LoadedPool (cfg : Config) (inst : Instance) (pool : List Order) : Prop where
  wf : Pool pool
  backed : Backed inst.accounts pool
  stems : ∀ o ∈ pool, ∃ k d, StemsFrom cfg inst o k d
  entry : ∀ o ∈ pool, HasEntry inst.accounts o

theorem entry_of_balance {accounts : Accounts} {o : Order} {a : AccountId} (ha : o.accountId = some a) (h : balanceOf accounts a o.sellToken ≠ 0) :
    HasEntry accounts o := by
  unfold balanceOf at h
  split at h
  · exact absurd rfl h
  · rename_i p hp
    split at h
    · exact absurd rfl h
    · rename_i q hq
      exact ⟨a, ha, p, hp, q, List.mem_of_find?_eq_some hq, by simpa using List.find?_some hq⟩

theorem loadedPool {cfg : Config} {inst : Instance} {accounts : Accounts} {orders : List Order} {fee : Fee}
    (hm : 0 < cfg.minTradable) (hb : NonnegBalances inst.accounts) (hi : IntBalances inst.accounts) (hs : ∀ d ∈ inst.orders, 0 ≤ d.sellAmount)
    (h : loadProblem cfg inst = .ok (accounts, orders, fee)) : LoadedPool cfg inst orders ∧ accounts = inst.accounts ∧ fee = inst.fee := by
  obtain ⟨hp, hk, rfl, rfl⟩ := loaded_pool hm hb hi hs h
  refine ⟨⟨hp, hk, ?_, ?_⟩, rfl, rfl⟩
  · intro o ho
    obtain ⟨k, d, a1, a2, a3, a4, a5, a6, a7, a8, a9, _⟩ := C02_load_problem hm hb hs h ho
    exact ⟨k, d, a1, a2, a3, a4, a5, a6, a7, a8, a9⟩
  · intro o ho
    obtain ⟨k, d, _, _, ha, _, _, h1, _⟩ := C02_load_problem hm hb hs h ho
    refine entry_of_balance ha ?_
    have hle := hk.total d.accountID o.sellToken o.buyToken
    have : o.maxSell ≤ ((orders.filter (fun o' => decide (o'.accountId = some d.accountID ∧ o'.sellToken = o.sellToken ∧
        o'.buyToken = o.buyToken))).map (·.maxSell)).sum := by
      refine List.single_le_sum ?_ _ (List.mem_map.2 ⟨o, List.mem_filter.2 ⟨ho, by simp [ha]⟩, rfl⟩)
      intro x hx
      obtain ⟨c, hc, rfl⟩ := List.mem_map.1 hx
      exact (hp.ok c (List.mem_of_mem_filter hc)).2.1
    intro h0
    rw [h0] at hle
    linarith

theorem StemsFrom.same {cfg : Config} {inst : Instance} {o o' : Order} {k : ℕ} {d : OrderDict} (h : StemsFrom cfg inst o k d)
    (hs : SameButExec o o') : StemsFrom cfg inst o' k d := by
  unfold SameButExec at hs
  unfold StemsFrom at h ⊢
  rw [hs]; exact h

theorem HasEntry.same {accounts : Accounts} {o o' : Order} (h : HasEntry accounts o) (hs : SameButExec o o') : HasEntry accounts o' := by
  unfold SameButExec at hs
  unfold HasEntry at h ⊢
  rw [hs]; exact h

theorem mem_of_forall₂ {α β : Type} {R : α → β → Prop} {l : List α} {l' : List β} (h : List.Forall₂ R l l') {b : β} (hb : b ∈ l') :
    ∃ a ∈ l, R a b := by
  induction h with
  | nil => simp at hb
  | cons r _ ih =>
    rcases List.mem_cons.1 hb with rfl | hb
    · exact ⟨_, by simp, r⟩
    · obtain ⟨a, ha, h⟩ := ih hb
      exact ⟨a, by simp [ha], h⟩

/-- Relation between an executed order and its dump. -/
structure DumpRel (cfg : Config) (inst : Instance) (o : Order) (e : OrderDict) : Prop where
  src : ∃ k d, StemsFrom cfg inst o k d ∧ e = { d with execSellAmount := some o.sell, execBuyAmount := some o.buy }

theorem DumpRel.buyToken {cfg : Config} {inst : Instance} {o : Order} {e : OrderDict} (h : DumpRel cfg inst o e) :
    e.buyToken = o.buyToken ∧ e.sellToken = o.sellToken ∧ o.accountId = some e.accountID ∧ execSell e = o.sell ∧ execBuy e = o.buy := by
  obtain ⟨k, d, hs, rfl⟩ := h.src
  exact ⟨hs.2.2.2.1.symm, hs.2.2.2.2.1.symm, hs.2.2.1, rfl, rfl⟩

theorem dump_sums {cfg : Config} {inst : Instance} {L : List Order} {es : List OrderDict} (h : List.Forall₂ (DumpRel cfg inst) L es) :
    (∀ t, dumpSold es t = sold L t ∧ dumpBought es t = bought L t) ∧
    ∀ a, List.Forall₂ (DumpRel cfg inst) (L.filter (fun o => decide (o.accountId = some a))) (es.filter (fun e => decide (e.accountID = a))) := by
  induction h with
  | nil => exact ⟨fun t => ⟨rfl, rfl⟩, fun a => .nil⟩
  | cons r _ ih =>
    obtain ⟨h1, h2, h3, h4, h5⟩ := r.buyToken
    rename_i o e L es _
    refine ⟨fun t => ⟨?_, ?_⟩, fun a => ?_⟩
    · have := (ih.1 t).1
      unfold dumpSold sold at this ⊢
      simp only [List.filter_cons, h2]
      by_cases hs : o.sellToken = t <;> simp [hs, this, h4]
    · have := (ih.1 t).2
      unfold dumpBought bought at this ⊢
      simp only [List.filter_cons, h1]
      by_cases hs : o.buyToken = t <;> simp [hs, this, h5]
    · have := ih.2 a
      simp only [List.filter_cons, h3, Option.some.injEq]
      by_cases hs : e.accountID = a
      · simp only [hs, decide_true, if_true]; exact .cons r this
      · simp only [hs, decide_false]; exact this

theorem sold_cons (o : Order) (L : List Order) (t : Token) : sold (o :: L) t = (if o.sellToken = t then o.sell else 0) + sold L t := by
  unfold sold
  by_cases h : o.sellToken = t <;> simp [h]

theorem bought_cons (o : Order) (L : List Order) (t : Token) : bought (o :: L) t = (if o.buyToken = t then o.buy else 0) + bought L t := by
  unfold bought
  by_cases h : o.buyToken = t <;> simp [h]

theorem sold_filter_pos {L : List Order} (h : ∀ o ∈ L, 0 ≤ o.sell ∧ 0 ≤ o.buy ∧ (0 < o.buy ↔ 0 < o.sell)) (t : Token) :
    sold (L.filter (fun o => decide (o.sell > 0))) t = sold L t ∧ bought (L.filter (fun o => decide (o.sell > 0))) t = bought L t := by
  induction L with
  | nil => exact ⟨rfl, rfl⟩
  | cons o L ih =>
    obtain ⟨h1, h2⟩ := ih (fun o ho => h o (by simp [ho]))
    obtain ⟨a, b, c⟩ := h o (by simp)
    by_cases hs : o.sell > 0
    · rw [List.filter_cons_of_pos (by simpa using hs), sold_cons, sold_cons, bought_cons, bought_cons, h1, h2]
      exact ⟨rfl, rfl⟩
    · have h0 : o.sell = 0 := le_antisymm (not_lt.1 hs) a
      have h0' : o.buy = 0 := le_antisymm (not_lt.1 (fun hb => hs (c.1 hb))) b
      rw [List.filter_cons_of_neg (by simpa using hs), sold_cons, bought_cons, h1, h2, h0, h0']
      simp

theorem sums_perm {L L' : List Order} (h : L.Perm L') (t : Token) : sold L t = sold L' t ∧ bought L t = bought L' t :=
  ⟨((h.filter _).map _).sum_eq, ((h.filter _).map _).sum_eq⟩

/-- The orders that are dumped: the executed ones, sorted by id. -/
def dumpList (L : List Order) : List Order := (L.insertionSort (fun a b => a.id ≤ b.id)).filter (fun o => decide (o.sell > 0))

theorem dumpList_perm (L : List Order) : (dumpList L).Perm (L.filter (fun o => decide (o.sell > 0))) :=
  (List.perm_insertionSort _ L).filter _

theorem dumpList_sums {L : List Order} (h : ∀ o ∈ L, 0 ≤ o.sell ∧ 0 ≤ o.buy ∧ (0 < o.buy ↔ 0 < o.sell)) (t : Token) :
    sold (dumpList L) t = sold L t ∧ bought (dumpList L) t = bought L t := by
  obtain ⟨a, b⟩ := sold_filter_pos h t
  obtain ⟨c, d⟩ := sums_perm (dumpList_perm L) t
  exact ⟨c.trans a, d.trans b⟩

/-- C44. If every order of the solution stems from an order of the instance, dumping lists exactly the orders with positive sell amount,
each once, attached to its own original order, with the executed amounts of the solution. -/
theorem dump_orders {cfg : Config} {inst : Instance} {L : List Order} (h : ∀ o ∈ L, ∃ k d, StemsFrom cfg inst o k d) :
    ∃ es, mapE (dumpOrder (originalOrdersFrom 0 inst.orders)) (dumpList L) = .ok es ∧ List.Forall₂ (DumpRel cfg inst) (dumpList L) es := by
  have hm : ∀ o ∈ dumpList L, o ∈ L := fun o ho => List.mem_of_mem_filter ((dumpList_perm L).mem_iff.1 ho)
  generalize dumpList L = D at hm
  induction D with
  | nil => exact ⟨[], rfl, .nil⟩
  | cons o D ih =>
    obtain ⟨es, h1, h2⟩ := ih (fun o ho => hm o (by simp [ho]))
    obtain ⟨k, d, hs⟩ := h o (hm o (by simp))
    have hg := originalOrders_get inst.orders 0 k
    rw [Nat.zero_add, hs.1, ← hs.2.1] at hg
    have e : dumpOrder (originalOrdersFrom 0 inst.orders) o = .ok { d with execSellAmount := some o.sell, execBuyAmount := some o.buy } := by
      unfold dumpOrder
      rw [dictGet_of hg]; rfl
    refine ⟨_ :: es, ?_, .cons ⟨k, d, hs, rfl⟩ h2⟩
    unfold mapE
    rw [e, ok_bind, h1]; rfl

theorem dump_keys {cfg : Config} {inst : Instance} {L : List Order} {es : List OrderDict} (h : List.Forall₂ (DumpRel cfg inst) L es)
    (hd : ∀ o ∈ L, ∀ k d, StemsFrom cfg inst o k d → DumpedFrom inst k { d with execSellAmount := some o.sell, execBuyAmount := some o.buy }) :
    ∃ ks : List ℕ, L.map (·.id) = ks.map toString ∧ List.Forall₂ (DumpedFrom inst) ks es := by
  induction h with
  | nil => exact ⟨[], rfl, .nil⟩
  | cons r _ ih =>
    obtain ⟨ks, h1, h2⟩ := ih (fun o ho => hd o (by simp [ho]))
    obtain ⟨k, d, hs, rfl⟩ := r.src
    exact ⟨k :: ks, by simp [h1, hs.2.1], .cons (hd _ (by simp) k d hs) h2⟩

theorem StemsFrom.amounts {cfg : Config} {inst : Instance} {o : Order} {k : ℕ} {d : OrderDict} (hm : 0 < cfg.minTradable)
    (h : StemsFrom cfg inst o k d) : 0 < d.sellAmount ∧ 0 < max (cfg.minTradable : ℚ) d.buyAmount ∧ 0 < o.maxXrate ∧
      o.origMaxSell / o.maxXrate = max (cfg.minTradable : ℚ) d.buyAmount := by
  obtain ⟨_, _, _, _, _, h1, h2, h3, h4⟩ := h
  have hs : 0 < d.sellAmount := lt_of_lt_of_le h1 h2
  have hb : 0 < max (cfg.minTradable : ℚ) d.buyAmount := lt_of_lt_of_le (by exact_mod_cast hm) (le_max_left _ _)
  refine ⟨hs, hb, by rw [h4]; positivity, ?_⟩
  rw [h3, h4]; field_simp

theorem priceAt_of {prices : Prices} {t : Token} {p : ℚ} (h : PriceOf prices t p) : priceAt prices t = p := by
  obtain ⟨e, h1, rfl⟩ := h
  unfold priceAt
  rw [h1]; rfl

theorem den_two {q : ℚ} (h0 : 0 < q) (h1 : q < 1) : 2 ≤ q.den := by
  have hd := q.den_pos
  by_contra hc
  have : q.den = 1 := by omega
  obtain ⟨n, rfl⟩ := isInt_iff.1 this
  have a : 0 < n := by exact_mod_cast h0
  have b : n < 1 := by exact_mod_cast h1
  omega

/-- The accounts after a solution, and what the metrics need. -/
theorem good_metricOk {cfg : Config} {inst : Instance} {pool : List Order} {sol : Solution} (hc : CfgOk cfg) (hi : GoodInstance inst)
    (hl : LoadedPool cfg inst pool) (hg : GoodSolution cfg inst.fee pool sol) : ∃ acc, updateAccounts inst.accounts sol.orders = .ok acc ∧
      (∀ a t, balanceOf acc a t = balanceOf inst.accounts a t + gain sol.orders (some a) t) ∧ (∀ a t, 0 ≤ balanceOf acc a t) ∧
      ∀ o ∈ sol.orders, MetricOk sol.prices acc inst.fee o := by
  have hmin : 0 < cfg.minTradable := by have := hc.minPos; omega
  -- facts about the orders
  have hstem : ∀ o ∈ sol.orders, ∃ k d, StemsFrom cfg inst o k d := by
    intro o ho
    obtain ⟨a, ha, h⟩ := hg.der o ho
    obtain ⟨k, d, hkd⟩ := hl.stems a ha
    exact ⟨k, d, hkd.same h⟩
  have hentry : ∀ o ∈ sol.orders, HasEntry inst.accounts o := by
    intro o ho
    obtain ⟨a, ha, h⟩ := hg.der o ho
    exact HasEntry.same (hl.entry a ha) h
  have hint : ∀ o ∈ sol.orders, IsInt o.buy ∧ IsInt o.sell := fun o ho => ⟨(hg.amounts o ho).1, (hg.amounts o ho).2.2.1⟩
  have hex : ∀ o ∈ sol.orders, 0 ≤ o.sell ∧ 0 ≤ o.buy ∧ (0 < o.buy ↔ 0 < o.sell) :=
    fun o ho => ⟨(hg.amounts o ho).2.2.2, (hg.amounts o ho).2.1, hg.exec o ho⟩
  have hbi := balanceOf_int hi.balances hi.ints
  -- updated accounts
  obtain ⟨acc, hacc, hkeys, hbal⟩ := C36_balances hint hentry
  have hbal' : ∀ a t, balanceOf acc a t = balanceOf inst.accounts a t + gain sol.orders (some a) t := by
    intro a t
    rw [hbal]
    unfold balanceAfter
    split
    · rw [trunc_isInt (hbi a t).2]
    · rename_i ht; rw [gain_untraded ht]; simp
  have hnn : ∀ a t, 0 ≤ balanceOf acc a t := by
    intro a t
    rw [hbal']
    have h1 := sold_le_balance hl.wf hl.backed hg a t
    have h2 : 0 ≤ bought (sol.orders.filter (fun o => decide (o.accountId = some a))) t := by
      unfold bought
      refine List.sum_nonneg ?_
      intro x hx
      obtain ⟨o, ho, rfl⟩ := List.mem_map.1 hx
      exact (hg.amounts o (List.mem_of_mem_filter (List.mem_of_mem_filter ho))).2.1
    unfold gain
    linarith
  -- metrics
  have hmet : ∀ o ∈ sol.orders, MetricOk sol.prices acc inst.fee o := by
    intro o ho
    obtain ⟨k, d, hsf⟩ := hstem o ho
    obtain ⟨pb, ps, hpb, hps, hse⟩ := hg.onPrice o ho
    obtain ⟨p1, p2, p3, p4⟩ := hsf.amounts hmin
    have hd : d ∈ inst.orders := List.mem_of_getElem? hsf.1
    have ib := hg.intPrices.of hpb
    have is := hg.intPrices.of hps
    have hle : o.sell ≤ o.origMaxSell := by
      have := (hg.constraints o ho).maxSell
      have h7 := hsf.2.2.2.2.2.2.1
      rw [hsf.2.2.2.2.2.2.2.1]; linarith
    refine ⟨?_, ?_, ?_⟩
    · rw [priceAt_of hpb, priceAt_of hps]
      refine ⟨priceOf_iff.1 hpb, priceOf_iff.1 hps, ib.2, is.2, ib.1, is.1, by rw [hsf.2.2.2.2.2.2.2.1]; exact p1, p3, ?_, ?_⟩
      · rw [p4]; exact (isInt_iff.2 ⟨cfg.minTradable, rfl⟩ : IsInt (cfg.minTradable : ℚ)).max (hi.buy d hd)
      · intro a ha
        obtain ⟨a', acc0, ha', h1, _⟩ := hasEntry_iff.1 (hentry o ho)
        rw [ha] at ha'; cases ha'
        rw [Option.isSome_iff_exists, dictGet?_isSome]
        have : a ∈ dictKeys inst.accounts := dictGet?_isSome.1 ⟨_, h1⟩
        unfold dictKeys at this ⊢
        rw [hkeys]; exact this
    · rw [priceAt_of hpb, priceAt_of hps, ← hse]; exact hle
    · unfold remaining backing
      split
      · exact le_refl _
      · exact hnn _ _
  exact ⟨acc, hacc, hbal', hnn, hmet⟩

/-- Everything the dump of a solution found by the solvers satisfies. -/
theorem dump_ok {cfg : Config} {inst : Instance} {pool : List Order} {sol : Solution} (hc : CfgOk cfg) (hi : GoodInstance inst)
    (hl : LoadedPool cfg inst pool) (hs : SolOk cfg inst.fee pool sol)
    (hft : bought sol.orders inst.fee.token ≤ sold sol.orders inst.fee.token) :
    ∃ d, dumpSolution inst sol = .ok d ∧ DumpOk cfg inst d ∧ d.prices = sol.prices ∧
      List.Forall₂ (DumpRel cfg inst) (dumpList sol.orders) d.orders ∧
      ∃ ks : List ℕ, (dumpList sol.orders).map (·.id) = ks.map toString ∧ ks.Nodup ∧ List.Forall₂ (DumpedFrom inst) ks d.orders := by
  have hmin : 0 < cfg.minTradable := by have := hc.minPos; omega
  rcases hs with rfl | hg
  · obtain ⟨m, e1, e2⟩ : ∃ m, computeSolutionMetrics [] inst.accounts [] inst.fee = .ok m ∧ m.utilityDisregTouched = 0 ∧ m.ordersTouched = 0 ∧ m.fees = 0 :=
      ⟨_, rfl, rfl, rfl, rfl⟩
    refine ⟨{ prices := [], accounts := inst.accounts, objVals := m, orders := [] }, ?_, ?_, rfl, .nil, [], rfl, List.nodup_nil, .nil⟩
    · unfold dumpSolution
      rw [show updateAccounts inst.accounts Solution.trivial.orders = .ok inst.accounts from rfl, ok_bind,
        show computeSolutionMetrics Solution.trivial.prices inst.accounts Solution.trivial.orders inst.fee = .ok m from e1]
      rfl
    · have hb := balanceOf_int hi.balances hi.ints
      refine ⟨⟨[], by simp, .nil⟩, by simpa using hc.limit, by simp, by simp [IntPrices], by simp [dumpSold, dumpBought],
        by simp [dumpSold, dumpBought], by simp [dumpSold, dumpBought], fun a t => (hb a t).1, ?_, ?_, ?_, by simp, by simp⟩
      · simp [e2.2.1]
      · simp [e2.1]
      · simp [e2.2.2, dumpSold, dumpBought]
  -- facts about the orders
  have hstem : ∀ o ∈ sol.orders, ∃ k d, StemsFrom cfg inst o k d := by
    intro o ho
    obtain ⟨a, ha, h⟩ := hg.der o ho
    obtain ⟨k, d, hkd⟩ := hl.stems a ha
    exact ⟨k, d, hkd.same h⟩
  have hentry : ∀ o ∈ sol.orders, HasEntry inst.accounts o := by
    intro o ho
    obtain ⟨a, ha, h⟩ := hg.der o ho
    exact HasEntry.same (hl.entry a ha) h
  have hint : ∀ o ∈ sol.orders, IsInt o.buy ∧ IsInt o.sell := fun o ho => ⟨(hg.amounts o ho).1, (hg.amounts o ho).2.2.1⟩
  have hex : ∀ o ∈ sol.orders, 0 ≤ o.sell ∧ 0 ≤ o.buy ∧ (0 < o.buy ↔ 0 < o.sell) :=
    fun o ho => ⟨(hg.amounts o ho).2.2.2, (hg.amounts o ho).2.1, hg.exec o ho⟩
  have hbi := balanceOf_int hi.balances hi.ints
  obtain ⟨acc, hacc, hbal', hnn, hmet⟩ := good_metricOk hc hi hl hg
  have hd2 := den_two hi.feePos hi.feeLt
  obtain ⟨m, hm, _, _, _, hm4, _⟩ := C38_metrics hi.feeLt hd2 hmet
  have hdist : ∀ o ∈ sol.orders, o.buyToken ≠ o.sellToken := by
    intro o ho
    obtain ⟨k, d, hsf⟩ := hstem o ho
    rw [hsf.2.2.2.1, hsf.2.2.2.2.1]
    exact hi.tokens d (List.mem_of_getElem? hsf.1)
  obtain ⟨_, hm2, hm3⟩ := C40_metrics_add_up hdist hm
  obtain ⟨es, he, hrel⟩ := dump_orders hstem
  obtain ⟨hsum, hfil⟩ := dump_sums hrel
  have hL := dumpList_sums hex
  have hmem : ∀ o ∈ dumpList sol.orders, o ∈ sol.orders ∧ 0 < o.sell := by
    intro o ho
    have := List.mem_filter.1 ((dumpList_perm sol.orders).mem_iff.1 ho)
    exact ⟨this.1, by simpa using this.2⟩
  have hkeys' : ∃ ks : List ℕ, (dumpList sol.orders).map (·.id) = ks.map toString ∧ ks.Nodup ∧ List.Forall₂ (DumpedFrom inst) ks es := by
    obtain ⟨ks, hk1, hk2⟩ := dump_keys hrel (by
      intro o ho k d hsf
      obtain ⟨h1, h2⟩ := hmem o ho
      have hb : 0 < o.buy := (hg.exec o h1).2 h2
      obtain ⟨p1, p2, _, _⟩ := hsf.amounts hmin
      have hc := hg.constraints o h1
      refine ⟨d, hsf.1, rfl, rfl, rfl, (hint o h1).2, (hint o h1).1, h2, hb, le_trans hc.maxSell hsf.2.2.2.2.2.2.1, ?_⟩
      show o.sell * d.buyAmount ≤ o.buy * d.sellAmount
      have hlim := hc.limit hb
      rw [hsf.2.2.2.2.2.2.2.2, div_mul_eq_mul_div, le_div_iff₀ p2] at hlim
      have := mul_le_mul_of_nonneg_left (le_max_right (cfg.minTradable : ℚ) d.buyAmount) h2.le
      linarith)
    refine ⟨ks, hk1, ?_, hk2⟩
    have : ((dumpList sol.orders).map (·.id)).Nodup := by
      rw [((dumpList_perm sol.orders).map _).nodup_iff]
      exact hg.ids.sublist (List.filter_sublist.map _)
    rw [hk1] at this
    exact this.of_map _
  refine ⟨{ prices := sol.prices, accounts := acc, objVals := m, orders := es }, ?_, ?_, rfl, hrel, hkeys'⟩
  · unfold dumpSolution
    rw [hacc, ok_bind, hm, ok_bind]
    show (mapE (dumpOrder (originalOrdersFrom 0 inst.orders)) (dumpList sol.orders) >>= _) = _
    rw [he]; rfl
  have hlen : es.length = (sol.orders.filter (fun o => decide (o.sell > 0))).length := by
    rw [← hrel.length_eq]; exact (dumpList_perm _).length_eq
  refine ⟨?_, ?_, ?_, hg.intPrices, ?_, ?_, ?_, hnn, ?_, hm4, ?_, ?_, fun _ => hg.feePrice⟩
  · obtain ⟨ks, _, h1, h2⟩ := hkeys'
    exact ⟨ks, h1, h2⟩
  · have h1 := hg.count
    unfold nrExecuted at h1
    have : sol.orders.filter (fun o => decide (0 < o.buy)) = sol.orders.filter (fun o => decide (o.sell > 0)) :=
      List.filter_congr (fun o ho => by simp [hg.exec o ho])
    rw [this, ← hlen] at h1
    exact h1
  · intro e he'
    obtain ⟨o, ho, hr⟩ : ∃ o ∈ dumpList sol.orders, DumpRel cfg inst o e := mem_of_forall₂ hrel he'
    obtain ⟨r1, r2, _, r4, r5⟩ := hr.buyToken
    obtain ⟨pb, ps, h1, h2, h3⟩ := hg.onPrice o (hmem o ho).1
    exact ⟨pb, ps, by rw [r1]; exact h1, by rw [r2]; exact h2, by rw [r4, r5]; exact h3⟩
  · intro t ht
    rw [(hsum t).1, (hsum t).2, (hL t).1, (hL t).2]
    exact hg.balanced t ht
  · rw [(hsum _).1, (hsum _).2, (hL _).1, (hL _).2]; exact hft
  · intro a t
    obtain ⟨g1, _⟩ := dump_sums (hfil a)
    rw [hbal', (g1 t).1, (g1 t).2]
    have hp : ((dumpList sol.orders).filter (fun o => decide (o.accountId = some a))).Perm
        ((sol.orders.filter (fun o => decide (o.accountId = some a))).filter (fun o => decide (o.sell > 0))) := by
      have := (dumpList_perm sol.orders).filter (fun o => decide (o.accountId = some a))
      rwa [List.filter_comm] at this
    obtain ⟨s1, s2⟩ := sums_perm hp t
    obtain ⟨s3, s4⟩ := sold_filter_pos (L := sol.orders.filter (fun o => decide (o.accountId = some a)))
      (fun o ho => hex o (List.mem_of_mem_filter ho)) t
    rw [s1, s2, s3, s4]
    unfold gain
    ring
  · show m.ordersTouched = _
    rw [hm2, hlen]
  · show m.fees = _
    rw [hm3, (hsum _).1, (hsum _).2, (hL _).1, (hL _).2]
  · intro e he'
    obtain ⟨o, ho, hr⟩ : ∃ o ∈ dumpList sol.orders, DumpRel cfg inst o e := mem_of_forall₂ hrel he'
    obtain ⟨_, _, _, r4, r5⟩ := hr.buyToken
    obtain ⟨h1, h2⟩ := hmem o ho
    have hk := hg.constraints o h1
    rw [r4, r5]
    exact ⟨hk.minSell.resolve_left h2.ne', hk.minBuy.resolve_left ((hg.exec o h1).2 h2).ne'⟩

theorem unexecuted_sums {cfg : Config} {fee : Fee} {pool : List Order} {sol : Solution} (hs : SolOk cfg fee pool sol)
    (h : nrExecuted sol.orders = 0) (t : Token) : bought sol.orders t = 0 ∧ sold sol.orders t = 0 := by
  rcases hs with rfl | hg
  · exact ⟨rfl, rfl⟩
  have hz : ∀ o ∈ sol.orders, o.buy = 0 ∧ o.sell = 0 := by
    intro o ho
    unfold nrExecuted at h
    rw [List.length_eq_zero_iff, List.filter_eq_nil_iff] at h
    have h1 : ¬ 0 < o.buy := by simpa using h o ho
    have h2 : ¬ 0 < o.sell := fun h => h1 ((hg.exec o ho).2 h)
    have := hg.amounts o ho
    exact ⟨by linarith [not_lt.1 h1], by linarith [not_lt.1 h2]⟩
  unfold bought sold
  constructor <;>
  · refine List.sum_eq_zero ?_
    intro x hx
    obtain ⟨o, ho, rfl⟩ := List.mem_map.1 hx
    simp [hz o (List.mem_of_mem_filter ho)]

/-- What a run of the token-pair solver returns, in terms of the loaded orders. -/
theorem tokenPair_parts {cfg : Config} {ext : Ext} {inst : Instance} {pair : Token × Token} {xrate : Option ℚ} (hc : CfgOk cfg)
    (hi : GoodInstance inst) (hne : pair.1 ≠ pair.2) (hbr : ∀ E, MaxBranching E (ext.branch E)) (hx : ∀ y, xrate = some y → 0 < y)
    {accounts : Accounts} {bk : Books} {fee : Fee} (h : loadPairProblem cfg inst pair = .ok (accounts, bk, fee)) {r : Solution × List Order}
    (hr : solveEconomicViable cfg ext pair accounts bk.b bk.s bk.f fee xrate = .ok r) :
    fee = inst.fee ∧ ∃ pool, LoadedPool cfg inst pool ∧ SolOk cfg inst.fee pool r.1 ∧
      bought r.1.orders inst.fee.token ≤ sold r.1.orders inst.fee.token := by
  have hm : 0 < cfg.minTradable := by have := hc.minPos; omega
  have h0 := h
  unfold loadPairProblem at h0
  simp only [bind_eq_ok, pyAssert_eq_ok, exists_and_left, exists_const] at h0
  obtain ⟨os, h1, os', h2, _, e⟩ := h0
  cases e
  have hload : loadProblem cfg inst = .ok (inst.accounts, os', inst.fee) := by
    unfold loadProblem; rw [h1, ok_bind, h2]; rfl
  obtain ⟨hl, _, _⟩ := loadedPool hm hi.balances hi.ints hi.sell hload
  obtain ⟨sol, objs⟩ := r
  have hfe := C31_returned_is_feasible hm.le hc.feePrice.ne' hr
  have hsol : SolOk cfg inst.fee os' sol := by
    unfold solveEconomicViable at hr
    simp only [bind_eq_ok] at hr
    obtain ⟨⟨sol', objs'⟩, h3, ⟨⟩, _, e⟩ := hr
    cases e
    exact (economicLoop_spec hl.wf hc hi.feeLt hne hbr hx (bookOf_filter hl.wf (forall₂_same_refl _) pair inst.fee _ (.inl rfl))
      (gone := []) (fun _ h => by cases h) (.inl rfl) h3).1
  have hft : bought sol.orders inst.fee.token ≤ sold sol.orders inst.fee.token := by
    rcases hfe.2.2 with h0 | ⟨_, hf⟩
    · rw [(unexecuted_sums hsol h0 _).1, (unexecuted_sums hsol h0 _).2]
    · exact hf.feeToken
  exact ⟨rfl, os', hl, hsol, hft⟩

/-- C44. Token-pair solver, from the instance to the dumped solution: if the search returns, the dump succeeds and is correct, for every
behaviour of the thresholds and of the external functions (a maximum branching is needed). -/
theorem C44_token_pair {cfg : Config} {ext : Ext} {inst : Instance} {pair : Token × Token} {xrate : Option ℚ} (hc : CfgOk cfg)
    (hi : GoodInstance inst) (hne : pair.1 ≠ pair.2) (hbr : ∀ E, MaxBranching E (ext.branch E)) (hx : ∀ y, xrate = some y → 0 < y)
    {accounts : Accounts} {bk : Books} {fee : Fee} (h : loadPairProblem cfg inst pair = .ok (accounts, bk, fee)) :
    (∀ e, tokenPairMain cfg ext inst pair xrate = .error e →
      solveEconomicViable cfg ext pair accounts bk.b bk.s bk.f fee xrate = .error e) ∧
    ∀ d, tokenPairMain cfg ext inst pair xrate = .ok d → DumpOk cfg inst d := by
  unfold tokenPairMain
  rw [h, ok_bind]
  dsimp only
  cases hr : solveEconomicViable cfg ext pair accounts bk.b bk.s bk.f fee xrate with
  | error e => exact ⟨fun e' he => (by cases he; rfl), fun d hd => (by cases hd)⟩
  | ok r =>
    obtain ⟨_, pool, hl, hsol, hft⟩ := tokenPair_parts hc hi hne hbr hx h hr
    obtain ⟨d, hd, hok, _⟩ := dump_ok hc hi hl hsol hft
    rw [ok_bind]
    rw [hd]
    exact ⟨fun e he => (by cases he), fun d' he => by cases he; exact hok⟩

theorem eligible_ne {orders : List Order} {ft : Token} {p : Token × Token} (h : p ∈ eligibleTokenPairs orders ft) : p.1 ≠ p.2 := by
  unfold eligibleTokenPairs at h
  simp only [List.mem_append, List.mem_flatMap, List.mem_map, List.mem_filter, decide_eq_true_eq] at h
  rcases h with ⟨b, _, s, ⟨_, h1, _⟩, rfl⟩ | ⟨s, ⟨_, h1⟩, rfl⟩
  · exact h1.symm
  · exact h1.symm

/-- What a run of the solver that searches all pairs returns, in terms of the loaded orders. -/
theorem bestPair_parts {cfg : Config} {ext : Ext} {inst : Instance} {accounts : Accounts} {orders : List Order} {fee : Fee}
    {visits : List ((Token × Token) × Bool)} (hc : CfgOk cfg) (hi : GoodInstance inst) (hbr : ∀ E, MaxBranching E (ext.branch E))
    (hload : loadProblem cfg inst = .ok (accounts, orders, fee)) (hsh : ∀ v ∈ visits, v.1 ∈ eligibleTokenPairs orders fee.token)
    {st : BestState} (hr : bestTokenPair cfg ext accounts orders fee visits = .ok st) :
    fee = inst.fee ∧ LoadedPool cfg inst orders ∧ SolOk cfg inst.fee orders st.sol ∧
      bought st.sol.orders inst.fee.token ≤ sold st.sol.orders inst.fee.token := by
  have hm : 0 < cfg.minTradable := by have := hc.minPos; omega
  obtain ⟨hl, rfl, rfl⟩ := loadedPool hm hi.balances hi.ints hi.sell hload
  have hfe := C31_best_pair_feasible hm.le hc.feePrice.ne' hr
  obtain ⟨_, hsol⟩ := bestLoop_spec hc hi.feeLt hbr hl.wf (fun v hv => eligible_ne (hsh v hv)) (forall₂_same_refl _) (.inl rfl) hr
  refine ⟨rfl, hl, hsol, ?_⟩
  rcases hfe.2.2 with h0 | ⟨_, hf⟩
  · rw [(unexecuted_sums hsol h0 _).1, (unexecuted_sums hsol h0 _).2]
  · exact hf.feeToken

/-- C44. Solver that searches all pairs, from the instance to the dumped solution, for every shuffle and time-out: if the search returns,
the dump succeeds and is correct. -/
theorem C44_best_pair {cfg : Config} {ext : Ext} {inst : Instance} {shuffle : List (Token × Token) → List ((Token × Token) × Bool)}
    (hc : CfgOk cfg) (hi : GoodInstance inst) (hbr : ∀ E, MaxBranching E (ext.branch E)) (hsh : ∀ E, ∀ v ∈ shuffle E, v.1 ∈ E) :
    ∃ orders, loadProblem cfg inst = .ok (inst.accounts, orders, inst.fee) ∧
    (∀ e, bestTokenPairMain cfg ext inst shuffle = .error e →
      bestTokenPair cfg ext inst.accounts orders inst.fee (shuffle (eligibleTokenPairs orders inst.fee.token)) = .error e) ∧
    ∀ d, bestTokenPairMain cfg ext inst shuffle = .ok d → DumpOk cfg inst d := by
  have hm : 0 < cfg.minTradable := by have := hc.minPos; omega
  obtain ⟨orders, hload, _⟩ := C01_load_problem hm hi.balances hi.sell
  refine ⟨orders, hload, ?_⟩
  unfold bestTokenPairMain
  rw [hload, ok_bind]
  dsimp only
  cases hr : bestTokenPair cfg ext inst.accounts orders inst.fee (shuffle (eligibleTokenPairs orders inst.fee.token)) with
  | error e => exact ⟨fun e' he => (by cases he; rfl), fun d hd => (by cases hd)⟩
  | ok st =>
    obtain ⟨_, hl, hsol, hft⟩ := bestPair_parts hc hi hbr hload (hsh _) hr
    obtain ⟨d, hd, hok, _⟩ := dump_ok hc hi hl hsol hft
    rw [ok_bind, hd]
    exact ⟨fun e he => (by cases he), fun d' he => by cases he; exact hok⟩

/-- C44. The dump of any solution made of loaded orders lists exactly the orders with positive sell amount, each attached to its own
original order, with the executed amounts of the solution. -/
theorem C44_exactly_touched {cfg : Config} {inst : Instance} {sol : Solution} {d : Dump} (h : ∀ o ∈ sol.orders, ∃ k d, StemsFrom cfg inst o k d)
    (hd : dumpSolution inst sol = .ok d) : d.prices = sol.prices ∧ ∃ L, L.Perm (sol.orders.filter (fun o => decide (0 < o.sell))) ∧
      List.Forall₂ (fun (o : Order) (e : OrderDict) => ∃ (k : ℕ) (d0 : OrderDict), inst.orders[k]? = some d0 ∧ o.id = toString k ∧
        e = { d0 with execSellAmount := some o.sell, execBuyAmount := some o.buy }) L d.orders := by
  obtain ⟨es, he, hrel⟩ := dump_orders h
  unfold dumpSolution at hd
  simp only [bind_eq_ok] at hd
  obtain ⟨acc, _, m, _, es', he', e⟩ := hd
  cases e
  have : es' = es := by
    have := he.symm.trans he'
    exact (Except.ok.inj this).symm
  subst this
  refine ⟨rfl, dumpList sol.orders, dumpList_perm _, hrel.imp ?_⟩
  intro o e hr
  obtain ⟨k, d, hs, rfl⟩ := hr.src
  exact ⟨k, d, hs.1, hs.2.1, rfl⟩

theorem ExInst.good : GoodInstance ExInst.inst := by constructor <;> decide +kernel

/-- The hypotheses of C44 hold for the example instance, whose dump has three executed orders. -/
example : ∃ d, tokenPairMain Config.default ExInst.ext ExInst.inst ("B", "S") none = .ok d ∧ d.orders.length = 3 ∧
    DumpOk Config.default ExInst.inst d := by
  obtain ⟨d, h1, _, h3⟩ := ExInst.run
  have hc : CfgOk Config.default := by constructor <;> decide
  obtain ⟨r, hr, _⟩ := exists_of_pyCheck (x := loadPairProblem Config.default ExInst.inst ("B", "S")) (p := fun _ => True) (by decide +kernel)
  refine ⟨d, h1, ?_, (C44_token_pair hc ExInst.good (by decide) ExInst.branch_max (by simp) (accounts := r.1) (bk := r.2.1) (fee := r.2.2) hr).2 d h1⟩
  have := congrArg List.length h3
  simpa using this

/-- The search over all pairs of the example instance (visited in reverse order, without time-out) also executes three orders. -/
theorem ExInst.run_best : ∃ d, bestTokenPairMain Config.default ExInst.ext ExInst.inst (fun E => E.reverse.map (fun p => (p, false))) = .ok d ∧
    d.orders.map (·.execBuyAmount) = [some 9980005004999999966, some 17306065416497044526, some 19989989994994994] :=
  exists_of_pyCheck (p := fun d : Dump => d.orders.map (·.execBuyAmount) =
    [some 9980005004999999966, some 17306065416497044526, some 19989989994994994]) (by decide +kernel)

example : ∃ d, bestTokenPairMain Config.default ExInst.ext ExInst.inst (fun E => E.reverse.map (fun p => (p, false))) = .ok d ∧
    DumpOk Config.default ExInst.inst d := by
  obtain ⟨d, h1, _⟩ := ExInst.run_best
  have hc : CfgOk Config.default := by constructor <;> decide
  obtain ⟨_, _, _, h⟩ := C44_best_pair (ext := ExInst.ext) (shuffle := fun E => E.reverse.map (fun p => (p, false))) hc ExInst.good ExInst.branch_max
    (by intro E v hv; obtain ⟨p, hp, rfl⟩ := List.mem_map.1 hv; exact List.mem_reverse.1 hp)
  exact ⟨d, h1, h d h1⟩

end Dex
