import Verif.Proof.Json

/-! # Properties C65–C67: from the instance json to the solution json -/

namespace Dex

namespace Spec

/-- The order objects of the instance. -/
def orderObjects (t : PyVal) : List PyVal :=
  match field t "orders" with
  | some (.list l) => l
  | some (.tuple l) => l
  | some (.dict d) => d.map (fun p => .str p.1)
  | some (.str s) => s.toList.map (fun ch => .str (String.singleton ch))
  | _ => []

/-- The order object `raw` holds the order `d`. -/
structure OrderOf (c : Conv) (raw : PyVal) (d : OrderDict) : Prop where
  accountID : field raw "accountID" = some (.str d.accountID)
  buyToken : field raw "buyToken" = some (.str d.buyToken)
  sellToken : field raw "sellToken" = some (.str d.sellToken)
  buyAmount : ∃ x, field raw "buyAmount" = some x ∧ c.toF x = .ok d.buyAmount
  sellAmount : ∃ x, field raw "sellAmount" = some x ∧ c.toF x = .ok d.sellAmount
  noExec : d.execBuyAmount = none ∧ d.execSellAmount = none

/-- The json value `t` holds the instance `inst`. -/
structure InstanceOf (c : Conv) (t : PyVal) (inst : Instance) : Prop where
  accounts : ∃ A, field t "accounts" = some (.dict A) ∧ List.Forall₂ (fun p q => p.1 = q.1 ∧ ∃ d, p.2 = .dict d ∧
    List.Forall₂ (fun e r => e.1 = r.1 ∧ c.toF e.2 = .ok r.2 ∧ ∃ n, c.toInt e.2 = .ok n) d q.2) A inst.accounts
  hasOrders : ∃ v, field t "orders" = some v ∧ (∀ n, v ≠ .int n) ∧ (∀ q, v ≠ .frac q) ∧ (∀ q, v ≠ .dec q) ∧ (∀ b, v ≠ .bool b) ∧ ∀ s, v ≠ .other s
  orders : List.Forall₂ (OrderOf c) (orderObjects t) inst.orders
  fee : ∃ f r, field t "fee" = some f ∧ field f "token" = some (.str inst.fee.token) ∧ field f "ratio" = some r ∧ c.toF r = .ok inst.fee.value

/-- A value without `Decimal` in any position. -/
def NoDecimal (v : PyVal) : Prop := ∀ p q, nodeAt v p ≠ some (.dec q)

/-- `v` is the order object `raw` of the instance as it appears in the solution file: executed amounts as decimal text, the order id as an
integer, every other field of `raw` with its numbers as text, and nothing else. -/
structure OrderWritten (c : Conv) (raw : PyVal) (e : OrderDict) (v : PyVal) : Prop where
  sell : ∃ n : ℤ, execSell e = n ∧ field v "execSellAmount" = some (.str (toString n))
  buy : ∃ n : ℤ, execBuy e = n ∧ field v "execBuyAmount" = some (.str (toString n))
  rest : ∀ k, k ≠ "execSellAmount" → k ≠ "execBuyAmount" → k ≠ "orderID" → field v k = (field raw k).map stringifyNumeric
  noID : field raw "orderID" = none → field v "orderID" = none
  orderID : ∀ i, field raw "orderID" = some i → ∃ n, c.toInt (stringifyNumeric i) = .ok n ∧ field v "orderID" = some (.int n)

/-- The balances of the solution file: every listed balance is the decimal text of the new balance, or it is unchanged. Balances of the executed
`orders` are decimal text; balances that no order of the instance (`all`) mentions are unchanged. -/
structure AccountsWritten (c : Conv) (old new : PyVal) (accounts : Accounts) (orders all : List OrderDict) : Prop where
  absent : ∀ a, dictGet? accounts a = none → field new a = none
  absentToken : ∀ a e t, dictGet? accounts a = some e → dictGet? e t = none → entry new a t = none
  present : ∀ a e t q, dictGet? accounts a = some e → dictGet? e t = some q → ∃ v, entry new a t = some v ∧
    ((∃ n : ℤ, q = n ∧ v = .str (toString n)) ∨ ∃ x, entry old a t = some x ∧ c.toF x = .ok q ∧ v = stringifyNumeric x)
  traded : ∀ o ∈ orders, ∀ t, t = o.buyToken ∨ t = o.sellToken →
    ∃ n : ℤ, balanceOf accounts o.accountID t = n ∧ entry new o.accountID t = some (.str (toString n))
  untouched : ∀ a t, (∀ o ∈ all, o.accountID = a → t ≠ o.buyToken ∧ t ≠ o.sellToken) → entry new a t = (entry old a t).map stringifyNumeric

/-- The value written to the solution file, for the instance `t` (with order objects `raws`) and the numbers of the solution `d`. -/
structure FileOk (c : Conv) (t : PyVal) (raws : List PyVal) (inst : Instance) (d : Dump) (solver file : PyVal) : Prop where
  rest : ∀ k, k ∉ ["prices", "accounts", "objVals", "orders", "fee", "solver"] → field file k = (field t k).map stringifyNumeric
  prices : field file "prices" = some (.dict (d.prices.map (fun p => (p.1, .str (decimal p.2)))))
  objVals : field file "objVals" = some (.dict [("volume", .str (decimal d.objVals.volume)), ("utility", .str (decimal d.objVals.utility)),
    ("utility_disreg", .str (decimal d.objVals.utilityDisreg)), ("utility_disreg_touched", .str (decimal d.objVals.utilityDisregTouched)),
    ("fees", .str (decimal d.objVals.fees)), ("orders_touched", .str (toString d.objVals.ordersTouched))])
  orders : ∃ (l : List PyVal) (ks : List ℕ), field file "orders" = some (.list l) ∧ ks.Nodup ∧ List.Forall₂ (DumpedFrom inst) ks d.orders ∧
    List.Forall₂ (fun p v => ∃ raw, raws[p.1]? = some raw ∧ OrderWritten c raw p.2 v) (ks.zip d.orders) l
  accounts : ∃ old new, field t "accounts" = some old ∧ field file "accounts" = some new ∧ AccountsWritten c old new d.accounts d.orders inst.orders
  fee : ∃ old new r x, field t "fee" = some old ∧ field file "fee" = some new ∧ field old "ratio" = some r ∧ c.toFloat r = .ok x ∧
    field new "ratio" = some (stringifyNumeric x) ∧ ∀ k, k ≠ "ratio" → field new k = (field old k).map stringifyNumeric
  solver : field file "solver" = some solver
  noDecimal : NoDecimal file

/-- The value `main` returns: as in the file, but with numbers instead of text. -/
structure ReturnedOk (t : PyVal) (d : Dump) (returned : PyVal) : Prop where
  rest : ∀ k, k ∉ ["prices", "accounts", "objVals", "orders", "fee"] → field returned k = field t k
  prices : field returned "prices" = some (.dict (d.prices.map (fun p => (p.1, .frac p.2))))
  objVals : field returned "objVals" = some (.dict [("volume", .frac d.objVals.volume), ("utility", .frac d.objVals.utility),
    ("utility_disreg", .frac d.objVals.utilityDisreg), ("utility_disreg_touched", .frac d.objVals.utilityDisregTouched),
    ("fees", .frac d.objVals.fees), ("orders_touched", .int d.objVals.ordersTouched)])

end Spec

open Spec

theorem orderObjects_eq {t : PyVal} {raws : List PyVal} (h : ∃ v, field t "orders" = some v ∧ elements v = .ok raws) : orderObjects t = raws := by
  obtain ⟨v, h1, h2⟩ := h
  unfold orderObjects
  rw [h1]
  cases v <;> simp [elements] at h2 ⊢ <;> exact h2

theorem readOrder_iff {c : Conv} {raw : PyVal} {d : OrderDict} : readOrder c raw = .ok d ↔ OrderOf c raw d := by
  unfold readOrder
  simp only [bind_eq_ok, getItem_eq_ok, asText_eq_ok]
  constructor
  · rintro ⟨x, h1, q, h2, y, h3, bt, rfl, z, h4, st, rfl, w, h5, r, h6, a, h7, aid, rfl, e⟩
    cases e
    exact ⟨h7, h3, h4, ⟨x, h1, h2⟩, ⟨w, h5, h6⟩, rfl, rfl⟩
  · rintro ⟨h1, h2, h3, ⟨x, h4, h5⟩, ⟨y, h6, h7⟩, h8, h9⟩
    refine ⟨x, h4, _, h5, _, h2, _, rfl, _, h3, _, rfl, y, h6, _, h7, _, h1, _, rfl, ?_⟩
    obtain ⟨a, b, s, sa, ba, es, eb⟩ := d
    cases h8
    cases h9
    rfl

theorem readAccount_iff {c : Conv} {p : String × PyVal} {q : String × Dict Token ℚ} : readAccount c p = .ok q ↔ p.1 = q.1 ∧ ∃ d, p.2 = .dict d ∧
    List.Forall₂ (fun e r => e.1 = r.1 ∧ c.toF e.2 = .ok r.2 ∧ ∃ n, c.toInt e.2 = .ok n) d q.2 := by
  unfold readAccount readBalance
  simp only [bind_eq_ok, asDict_eq_ok, mapE_eq_ok_forall₂]
  have key : ∀ (e : String × PyVal) (r : String × ℚ), (∃ x, (∃ y, c.toF e.2 = .ok y ∧ ∃ z, c.toInt e.2 = .ok z ∧ (pure y : Py ℚ) = .ok x) ∧
      (pure (e.1, x) : Py (String × ℚ)) = .ok r) ↔ e.1 = r.1 ∧ c.toF e.2 = .ok r.2 ∧ ∃ n, c.toInt e.2 = .ok n := by
    intro e r
    constructor
    · rintro ⟨x, ⟨y, h1, z, h2, e1⟩, e2⟩
      cases e1
      cases e2
      exact ⟨rfl, h1, z, h2⟩
    · rintro ⟨h1, h2, n, h3⟩
      refine ⟨r.2, ⟨_, h2, n, h3, rfl⟩, ?_⟩
      rw [h1]
      rfl
  constructor
  · rintro ⟨d, hd, l, hl, e⟩
    cases e
    exact ⟨rfl, d, hd, hl.imp (fun a b h => (key a b).1 h)⟩
  · rintro ⟨h1, d, hd, hl⟩
    refine ⟨d, hd, q.2, hl.imp (fun a b h => (key a b).2 h), ?_⟩
    rw [h1]
    rfl

theorem elements_iff {v : PyVal} : (∃ l, elements v = .ok l) ↔
    (∀ n, v ≠ .int n) ∧ (∀ q, v ≠ .frac q) ∧ (∀ q, v ≠ .dec q) ∧ (∀ b, v ≠ .bool b) ∧ ∀ s, v ≠ .other s := by
  cases v <;> simp [elements]

/-- C65. What reading an instance means: it succeeds exactly when the json value holds an instance, and then returns it. -/
theorem C65_read {c : Conv} {t : PyVal} {inst : Instance} : readInstance c t = .ok inst ↔ InstanceOf c t inst := by
  unfold readInstance readAccounts readFee
  simp only [bind_eq_ok, getItem_eq_ok, asDict_eq_ok, asText_eq_ok, mapE_eq_ok_forall₂]
  constructor
  · rintro ⟨A, h1, acc, ⟨d, rfl, h2⟩, v, h3, raws, h4, ds, h5, f, h6, fee, ⟨tok, h7, tk, rfl, ratio, h8, val, h9, e1⟩, e2⟩
    cases e1
    cases e2
    refine ⟨⟨d, h1, h2.imp (fun a b h => readAccount_iff.1 h)⟩, ⟨v, h3, elements_iff.1 ⟨_, h4⟩⟩, ?_, f, ratio, h6, h7, h8, h9⟩
    rw [orderObjects_eq ⟨v, h3, h4⟩]
    exact h5.imp (fun a b h => readOrder_iff.1 h)
  · rintro ⟨⟨d, h1, h2⟩, ⟨v, h3, h4⟩, h5, f, ratio, h6, h7, h8, h9⟩
    obtain ⟨raws, hr⟩ := elements_iff.2 h4
    rw [orderObjects_eq ⟨v, h3, hr⟩] at h5
    refine ⟨_, h1, inst.accounts, ⟨d, rfl, h2.imp (fun a b h => readAccount_iff.2 h)⟩, v, h3, raws, hr, inst.orders,
      h5.imp (fun a b h => readOrder_iff.2 h), f, h6, inst.fee, ⟨_, h7, _, rfl, ratio, h8, _, h9, rfl⟩, rfl⟩

/-! ### Values json accepts -/

theorem isJsonList_iff (l : List PyVal) : isJsonList l = true ↔ ∀ v ∈ l, isJson v = true := by
  induction l with
  | nil => simp [isJsonList]
  | cons v l ih => simp [isJsonList, ih]

theorem isJsonDict_iff (l : List (String × PyVal)) : isJsonDict l = true ↔ ∀ p ∈ l, isJson p.2 = true := by
  induction l with
  | nil => simp [isJsonDict]
  | cons v l ih => obtain ⟨k, v⟩ := v; simp [isJsonDict, ih]

theorem isJson_kids {v : PyVal} (h : isJson v = true) : ∀ x ∈ kids v, isJson x = true := by
  cases v with
  | list l => unfold isJson at h; exact (isJsonList_iff l).1 h
  | tuple l => unfold isJson at h; exact (isJsonList_iff l).1 h
  | dict l =>
    unfold isJson at h
    intro x hx
    obtain ⟨p, hp, rfl⟩ := List.mem_map.1 hx
    exact (isJsonDict_iff l).1 h p hp
  | _ => simp [kids]

theorem isJson_noDecimal {v : PyVal} (h : isJson v = true) : NoDecimal v := by
  intro p
  induction p generalizing v with
  | nil =>
    intro q e
    cases e
    simp [isJson] at h
  | cons i p ih =>
    intro q e
    unfold nodeAt at e
    rw [Option.bind_eq_some_iff] at e
    obtain ⟨x, h1, h2⟩ := e
    exact ih (isJson_kids h x (List.mem_of_getElem? h1)) q h2

theorem noDecimal_kid {v x : PyVal} (h : NoDecimal v) (hx : x ∈ kids v) : NoDecimal x := by
  obtain ⟨i, hi⟩ := List.mem_iff_getElem?.1 hx
  intro p q e
  refine h (i :: p) q ?_
  unfold nodeAt
  rw [hi]
  exact e

theorem noDecimal_stringify {v : PyVal} : NoDecimal (stringifyNumeric v) ↔ NoDecimal v := by
  have key : ∀ p q, nodeAt (stringifyNumeric v) p = some (.dec q) ↔ nodeAt v p = some (.dec q) := by
    intro p q
    have h := C45_positions v p
    constructor
    · intro e
      rw [e] at h
      cases hv : nodeAt v p with
      | none => rw [hv] at h; cases h
      | some n =>
        rw [hv] at h
        simp only [Option.map_some, Option.some.injEq] at h
        cases n with
        | dec q' => simp [shell, textual] at h; rw [h]
        | bool b => cases b <;> simp [shell, textual] at h
        | _ => simp [shell, textual] at h
    · intro e
      rw [e] at h
      cases hv : nodeAt (stringifyNumeric v) p with
      | none => rw [hv] at h; cases h
      | some n =>
        rw [hv] at h
        simp only [Option.map_some, Option.some.injEq] at h
        cases n with
        | dec q' => simp [shell, textual] at h; rw [h]
        | _ => simp [shell, textual] at h
  unfold NoDecimal
  exact ⟨fun h p q e => h p q ((key p q).2 e), fun h p q e => h p q ((key p q).1 e)⟩

mutual
theorem isJson_stringify : ∀ v : PyVal, NoDecimal v → isJson (stringifyNumeric v) = true
  | .list l, h => by
    rw [stringify_list]; unfold isJson
    exact isJson_stringify_list l (fun x hx => noDecimal_kid h hx)
  | .tuple l, h => by
    rw [stringify_tuple]; unfold isJson
    exact isJson_stringify_list l (fun x hx => noDecimal_kid h hx)
  | .dict l, h => by
    rw [stringify_dict]; unfold isJson
    exact isJson_stringify_dict l (fun p hp => noDecimal_kid h (List.mem_map.2 ⟨p, hp, rfl⟩))
  | .bool b, _ => by cases b <;> rfl
  | .int _, _ => rfl
  | .frac _, _ => rfl
  | .dec q, h => absurd rfl (h [] q)
  | .str _, _ => rfl
  | .other _, _ => rfl
theorem isJson_stringify_list : ∀ l : List PyVal, (∀ x ∈ l, NoDecimal x) → isJsonList (l.map stringifyNumeric) = true
  | [], _ => rfl
  | v :: l, h => by
    rw [List.map_cons]; unfold isJsonList
    rw [isJson_stringify v (h v (by simp)), isJson_stringify_list l (fun x hx => h x (by simp [hx]))]; rfl
theorem isJson_stringify_dict : ∀ l : List (String × PyVal), (∀ p ∈ l, NoDecimal p.2) →
    isJsonDict (l.map (fun p => (p.1, stringifyNumeric p.2))) = true
  | [], _ => rfl
  | (k, v) :: l, h => by
    rw [List.map_cons]; unfold isJsonDict
    rw [isJson_stringify v (h (k, v) (by simp)), isJson_stringify_dict l (fun x hx => h x (by simp [hx]))]; rfl
end

theorem field_kid {v x : PyVal} {k : String} (h : field v k = some x) : x ∈ kids v := by
  obtain ⟨d, rfl⟩ := field_some_dict h
  rw [field_dict] at h
  exact List.mem_map.2 ⟨_, dictGet?_mem h, rfl⟩

/-! ### The file -/

theorem noDecimal_dict {d : List (String × PyVal)} : NoDecimal (.dict d) ↔ ∀ p ∈ d, NoDecimal p.2 := by
  constructor
  · intro h p hp
    exact noDecimal_kid h (List.mem_map.2 ⟨p, hp, rfl⟩)
  · intro h p
    cases p with
    | nil => intro q e; cases e
    | cons i p =>
      intro q e
      unfold nodeAt at e
      rw [Option.bind_eq_some_iff] at e
      obtain ⟨x, h1, h2⟩ := e
      obtain ⟨r, hr, rfl⟩ := List.mem_map.1 (List.mem_of_getElem? h1)
      exact h r hr p q h2

theorem noDecimal_list {l : List PyVal} : NoDecimal (.list l) ↔ ∀ x ∈ l, NoDecimal x := by
  constructor
  · intro h x hx
    exact noDecimal_kid h hx
  · intro h p
    cases p with
    | nil => intro q e; cases e
    | cons i p =>
      intro q e
      unfold nodeAt at e
      rw [Option.bind_eq_some_iff] at e
      obtain ⟨x, h1, h2⟩ := e
      exact h x (List.mem_of_getElem? h1) p q h2

theorem noDecimal_int (n : ℤ) : NoDecimal (.int n) := by
  intro p; cases p <;> intro q e <;> simp [nodeAt, kids] at e

theorem noDecimal_frac (n : ℚ) : NoDecimal (.frac n) := by
  intro p; cases p <;> intro q e <;> simp [nodeAt, kids] at e

theorem noDecimal_str (n : String) : NoDecimal (.str n) := by
  intro p; cases p <;> intro q e <;> simp [nodeAt, kids] at e

theorem mem_dictSet {d : List (String × PyVal)} {k : String} {v : PyVal} {p : String × PyVal} (h : p ∈ dictSet d k v) : p ∈ d ∨ p.2 = v := by
  induction d with
  | nil => simp [dictSet] at h; right; rw [h]
  | cons e d ih =>
    obtain ⟨k', v'⟩ := e
    unfold dictSet at h
    split at h
    · rcases List.mem_cons.1 h with rfl | h
      · right; rfl
      · left; simp [h]
    · rcases List.mem_cons.1 h with rfl | h
      · left; simp
      · rcases ih h with h | h
        · left; simp [h]
        · right; exact h

/-- Besides the new value, the values after an assignment do not depend on it. -/
theorem mem_dictSet_of {d : List (String × PyVal)} {k : String} {v v' : PyVal} {p : String × PyVal} (h : p ∈ dictSet d k v) :
    p.2 = v ∨ p ∈ dictSet d k v' := by
  induction d with
  | nil => simp [dictSet] at h; left; rw [h]
  | cons e d ih =>
    obtain ⟨k', w⟩ := e
    unfold dictSet at h ⊢
    split at h
    · rename_i hk
      rw [if_pos hk]
      rcases List.mem_cons.1 h with rfl | h
      · left; rfl
      · right; simp [h]
    · rename_i hk
      rw [if_neg hk]
      rcases List.mem_cons.1 h with rfl | h
      · right; simp
      · rcases ih h with h | h
        · left; exact h
        · right; simp [h]

theorem mem_dictSet_swap {d : List (String × PyVal)} {k k1 : String} (hne : k1 ≠ k) {v v1 : PyVal} {p : String × PyVal}
    (h : p ∈ dictSet (dictSet d k1 v1) k v) : p.2 = v1 ∨ p ∈ dictSet d k v := by
  induction d with
  | nil =>
    simp [dictSet, hne] at h
    rcases h with rfl | rfl
    · left; rfl
    · right; simp [dictSet]
  | cons e d ih =>
    obtain ⟨k', w⟩ := e
    by_cases h1 : k' = k1
    · subst h1
      simp only [dictSet, if_pos, if_neg hne, List.mem_cons] at h ⊢
      rcases h with rfl | h
      · left; rfl
      · right; right; exact h
    · by_cases h2 : k' = k
      · subst h2
        simp only [dictSet, if_neg h1, if_true, List.mem_cons] at h ⊢
        rcases h with rfl | h
        · right; left; rfl
        · rcases mem_dictSet h with h | h
          · right; right; exact h
          · left; exact h
      · simp only [dictSet, if_neg h1, if_neg h2, List.mem_cons] at h ⊢
        rcases h with rfl | h
        · right; left; rfl
        · rcases ih h with h | h
          · left; exact h
          · right; right; exact h

theorem noDecimal_set {d : List (String × PyVal)} {k : String} {v : PyVal} (h : NoDecimal (.dict d)) (hv : NoDecimal v) :
    NoDecimal (.dict (dictSet d k v)) := by
  rw [noDecimal_dict] at h ⊢
  intro p hp
  rcases mem_dictSet hp with hp | hp
  · exact h p hp
  · rw [hp]; exact hv

theorem noDecimal_field {v x : PyVal} {k : String} (h : NoDecimal v) (hx : field v k = some x) : NoDecimal x := noDecimal_kid h (field_kid hx)

theorem addNum_noDecimal {v x : PyVal} {q : ℚ} (h : addNum v q = .ok x) : NoDecimal x := by
  cases v <;> simp [addNum] at h <;> subst h <;> exact noDecimal_frac _

theorem updateTreeStep_noDecimal {c : Conv} {A A' : PyVal} {o : Order} (hA : NoDecimal A) (h : updateTreeStep c A o = .ok A') : NoDecimal A' := by
  unfold updateTreeStep at h
  cases ha : o.accountId with
  | none => rw [ha] at h; cases h
  | some a =>
    rw [ha] at h
    dsimp only at h
    simp only [bind_eq_ok, getItem_eq_ok, asDict_eq_ok, setItem_eq_ok] at h
    obtain ⟨acc, h1, d, rfl, vb, _, nb, _, vs, _, ns, _, vb', _, vb2, h2, vs', _, vs2, h3, D, rfl, rfl⟩ := h
    refine noDecimal_set hA ?_
    have h0 : NoDecimal (.dict (ensureVal d o.buyToken)) := by
      have := noDecimal_field hA h1
      unfold ensureVal
      split
      · exact this
      · exact noDecimal_set this (noDecimal_int 0)
    exact noDecimal_set (noDecimal_set (noDecimal_set (noDecimal_set h0 (noDecimal_int _)) (noDecimal_int _)) (addNum_noDecimal h2)) (addNum_noDecimal h3)

theorem updateTree_noDecimal {c : Conv} {os : List Order} {A A' : PyVal} (hA : NoDecimal A) (h : updateTree c A os = .ok A') : NoDecimal A' := by
  induction os generalizing A with
  | nil => cases h; exact hA
  | cons o os ih =>
    unfold updateTree foldE at h
    rw [bind_eq_ok] at h
    obtain ⟨A1, h1, h2⟩ := h
    exact ih (updateTreeStep_noDecimal hA h1) h2

theorem restoreOrderID_spec {c : Conv} {v v' : PyVal} (h : restoreOrderID c v = .ok v') : (∀ k, k ≠ "orderID" → field v' k = field v k) ∧
    (field v "orderID" = none → field v' "orderID" = none) ∧
    ∀ i, field v "orderID" = some i → ∃ n, c.toInt i = .ok n ∧ field v' "orderID" = some (.int n) := by
  unfold restoreOrderID at h
  rw [bind_eq_ok] at h
  obtain ⟨d, hd, h⟩ := h
  rw [asDict_eq_ok] at hd
  subst hd
  cases hi : dictGet? d "orderID" with
  | none =>
    rw [hi] at h
    cases h
    exact ⟨fun _ _ => rfl, fun h => h, fun i e => by rw [field_dict, hi] at e; cases e⟩
  | some i =>
    rw [hi] at h
    dsimp only at h
    rw [bind_eq_ok] at h
    obtain ⟨n, hn, h⟩ := h
    cases h
    refine ⟨fun k hk => (by rw [field_set, if_neg hk.symm]), fun e => (by rw [field_dict, hi] at e; cases e), ?_⟩
    intro j hj
    rw [field_dict, hi] at hj
    cases hj
    exact ⟨n, hn, by rw [field_set, if_pos rfl]⟩

theorem restoreFee_spec {c : Conv} {t t' fee ratio : PyVal} (h1 : field t "fee" = some fee) (h2 : field fee "ratio" = some ratio)
    (h : restoreFee c t = .ok t') : ∃ T F x, t = .dict T ∧ fee = .dict F ∧ c.toFloat ratio = .ok x ∧
      t' = .dict (dictSet T "fee" (.dict (dictSet F "ratio" x))) := by
  obtain ⟨T, rfl⟩ := field_some_dict h1
  obtain ⟨F, rfl⟩ := field_some_dict h2
  unfold restoreFee at h
  rw [getItem_of h1, ok_bind, getItem_of h2, ok_bind, bind_eq_ok] at h
  obtain ⟨x, hx, h⟩ := h
  cases h
  exact ⟨T, F, x, rfl, rfl, hx, rfl⟩

theorem textTree_spec {c : Conv} {t s solver : PyVal} {l : List PyVal} (hl : field t "orders" = some (.list l)) (h : textTree c t solver = .ok s) :
    ∃ D l', stringifyNumeric t = .dict D ∧ mapE (restoreOrderID c) (l.map stringifyNumeric) = .ok l' ∧
      s = .dict (dictSet (dictSet D "orders" (.list l')) "solver" solver) := by
  have h1 : field (stringifyNumeric t) "orders" = some (.list (l.map stringifyNumeric)) := by
    rw [field_stringify, hl, Option.map_some, stringify_list]
  obtain ⟨D, hD⟩ := field_some_dict h1
  unfold textTree at h
  dsimp only at h
  rw [getItem_of h1, ok_bind, show elements (.list (l.map stringifyNumeric)) = .ok (l.map stringifyNumeric) from rfl, ok_bind, bind_eq_ok] at h
  obtain ⟨l', hl', h⟩ := h
  rw [hD] at h
  cases h
  exact ⟨D, l', hD, hl', rfl⟩

theorem pyStrFrac_int {q : ℚ} (h : IsInt q) : ∃ n : ℤ, q = n ∧ pyStrFrac q = toString n := by
  obtain ⟨n, rfl⟩ := isInt_iff.1 h
  refine ⟨n, rfl, ?_⟩
  unfold pyStrFrac
  simp

theorem stringify_prices (prices : Prices) : stringifyNumeric (pricesVal prices) = .dict (prices.map (fun p => (p.1, .str (decimal p.2)))) := by
  unfold pricesVal
  rw [stringify_dict, List.map_map]
  rfl

theorem stringify_metrics (m : Metrics) : stringifyNumeric (metricsVal m) = .dict [("volume", .str (decimal m.volume)),
    ("utility", .str (decimal m.utility)), ("utility_disreg", .str (decimal m.utilityDisreg)),
    ("utility_disreg_touched", .str (decimal m.utilityDisregTouched)), ("fees", .str (decimal m.fees)),
    ("orders_touched", .str (toString m.ordersTouched))] := by
  unfold metricsVal
  rw [stringify_dict]
  rfl

/-- The order objects of the file. -/
theorem orders_written {c : Conv} {cfg : Config} {inst : Instance} {raws : List PyVal} {L : List Order} : ∀ {ks : List ℕ} {es : List OrderDict} {l l' : List PyVal},
    List.Forall₂ (fun p v => WrittenTree raws p.1 p.2 v) (L.zip ks) l → List.Forall₂ (DumpRel cfg inst) L es → L.length = ks.length →
    (∀ o ∈ L, IsInt o.buy ∧ IsInt o.sell) → mapE (restoreOrderID c) (l.map stringifyNumeric) = .ok l' →
    List.Forall₂ (fun p v => ∃ raw, raws[p.1]? = some raw ∧ OrderWritten c raw p.2 v) (ks.zip es) l' := by
  induction L with
  | nil =>
    intro ks es l l' h1 h2 _ _ h3
    cases h2
    simp only [List.zip_nil_left, List.forall₂_nil_left_iff] at h1
    subst h1
    cases h3
    simp
  | cons o L ih =>
    intro ks es l l' h1 h2 hlen hint h3
    cases ks with
    | nil => simp at hlen
    | cons k ks =>
      cases h2 with
      | cons r h2 =>
        rename_i e es
        rw [List.zip_cons_cons] at h1 ⊢
        cases h1 with
        | cons w h1 =>
          rename_i v l
          rw [List.map_cons] at h3
          unfold mapE at h3
          simp only [bind_eq_ok] at h3
          obtain ⟨v', hv, l'', hl, e'⟩ := h3
          cases e'
          refine .cons ?_ (ih h1 h2 (by simpa using hlen) (fun o ho => hint o (by simp [ho])) hl)
          obtain ⟨D, hD, rfl⟩ := w
          obtain ⟨_, _, _, e4, e5⟩ := r.buyToken
          obtain ⟨g1, g2, g3⟩ := restoreOrderID_spec hv
          have hf : ∀ k', field (stringifyNumeric (.dict (dictSet (dictSet D "execSellAmount" (.str (pyStrFrac o.sell))) "execBuyAmount"
              (.str (pyStrFrac o.buy))))) k' = if "execBuyAmount" = k' then some (.str (pyStrFrac o.buy)) else
                if "execSellAmount" = k' then some (.str (pyStrFrac o.sell)) else (field (.dict D) k').map stringifyNumeric := by
            intro k'
            rw [field_stringify, field_set, field_set]
            split
            · rfl
            · split <;> rfl
          refine ⟨_, hD, ?_, ?_, ?_, ?_, ?_⟩
          · obtain ⟨n, hn, ht⟩ := pyStrFrac_int (hint o (by simp)).2
            refine ⟨n, e4.trans hn, ?_⟩
            rw [g1 _ (by decide), hf, if_neg (by decide), if_pos rfl, ht]
          · obtain ⟨n, hn, ht⟩ := pyStrFrac_int (hint o (by simp)).1
            refine ⟨n, e5.trans hn, ?_⟩
            rw [g1 _ (by decide), hf, if_pos rfl, ht]
          · intro k' k1 k2 k3
            rw [g1 _ k3, hf, if_neg k2.symm, if_neg k1.symm]
          · intro hn
            refine g2 ?_
            rw [hf, if_neg (by decide), if_neg (by decide), hn]
            rfl
          · intro i hi
            refine g3 _ ?_
            rw [hf, if_neg (by decide), if_neg (by decide), hi]
            rfl

theorem entry_stringify (A : PyVal) (a t : String) : entry (stringifyNumeric A) a t = (entry A a t).map stringifyNumeric := by
  unfold entry
  rw [field_stringify]
  cases field A a with
  | none => rfl
  | some v => rw [Option.map_some, Option.bind_some, Option.bind_some, field_stringify]

theorem updateTreeStep_entry {c : Conv} {A A' : PyVal} {o : Order} {a t : String} (h : updateTreeStep c A o = .ok A')
    (hn : o.accountId = some a → t ≠ o.buyToken ∧ t ≠ o.sellToken) : entry A' a t = entry A a t := by
  unfold updateTreeStep at h
  cases ha : o.accountId with
  | none => rw [ha] at h; cases h
  | some b =>
    rw [ha] at h hn
    dsimp only at h
    simp only [bind_eq_ok, getItem_eq_ok, asDict_eq_ok, setItem_eq_ok] at h
    obtain ⟨acc, h1, d, rfl, vb, _, nb, _, vs, _, ns, _, vb', _, vb2, h2, vs', _, vs2, h3, D, rfl, rfl⟩ := h
    unfold entry
    rw [field_set]
    split
    · rename_i e
      subst e
      obtain ⟨n1, n2⟩ := hn rfl
      rw [h1, Option.bind_some, Option.bind_some, field_set, if_neg n2.symm, field_set, if_neg n1.symm, field_set, if_neg n2.symm, field_set,
        if_neg n1.symm]
      unfold ensureVal
      split
      · rfl
      · rw [field_set, if_neg n1.symm]
    · rfl

theorem updateTree_entry {c : Conv} {os : List Order} {A A' : PyVal} {a t : String} (h : updateTree c A os = .ok A')
    (hn : ∀ o ∈ os, o.accountId = some a → t ≠ o.buyToken ∧ t ≠ o.sellToken) : entry A' a t = entry A a t := by
  induction os generalizing A with
  | nil => cases h; rfl
  | cons o os ih =>
    unfold updateTree foldE at h
    rw [bind_eq_ok] at h
    obtain ⟨A1, h1, h2⟩ := h
    rw [ih h2 (fun o ho => hn o (by simp [ho])), updateTreeStep_entry h1 (hn o (by simp))]

/-- The balances of the file. -/
theorem accounts_written {c : Conv} {A A' : PyVal} {acc : Accounts} {es all : List OrderDict} (h : AccRel c A A' acc)
    (ht : ∀ o ∈ es, NumEntry A' acc o.accountID o.buyToken ∧ NumEntry A' acc o.accountID o.sellToken)
    (hu : ∀ a t, (∀ o ∈ all, o.accountID = a → t ≠ o.buyToken ∧ t ≠ o.sellToken) → entry A' a t = entry A a t) :
    AccountsWritten c A (stringifyNumeric A') acc es all := by
  refine ⟨?_, ?_, ?_, ?_, fun a t hn => by rw [entry_stringify, hu a t hn]⟩
  · intro a ha
    rw [field_stringify, h.none a ha]
    rfl
  · intro a e t ha he
    obtain ⟨d, hd, hr⟩ := h.some a e ha
    unfold entry
    rw [field_stringify, hd, Option.map_some, Option.bind_some, field_stringify, field_dict, (hr t).1 he]
    rfl
  · intro a e t q ha he
    obtain ⟨d, hd, hr⟩ := h.some a e ha
    obtain ⟨v, hv, h1, h2, h3⟩ := (hr t).2 q he
    refine ⟨stringifyNumeric v, ?_, ?_⟩
    · unfold entry
      rw [field_stringify, hd, Option.map_some, Option.bind_some, field_stringify, field_dict, hv]
      rfl
    · rcases h3 with h3 | h3
      · obtain ⟨n, e1, e2⟩ := h3.text
        exact .inl ⟨n, e1, e2⟩
      · exact .inr ⟨v, h3, h1, rfl⟩
  · intro o ho t hto
    have hn : NumEntry A' acc o.accountID t := by
      rcases hto with rfl | rfl
      · exact (ht o ho).1
      · exact (ht o ho).2
    obtain ⟨d, e, h1, h2, v, q, h3, h4, h5⟩ := hn
    obtain ⟨n, e1, e2⟩ := h5.text
    refine ⟨n, ?_, ?_⟩
    · unfold balanceOf
      unfold dictGet? at h2 h4
      rw [Option.map_eq_some_iff] at h2 h4
      obtain ⟨p, hp, rfl⟩ := h2
      obtain ⟨r, hr, rfl⟩ := h4
      rw [hp]
      dsimp only
      rw [hr]
      exact e1
    · unfold entry
      rw [field_stringify, h1, Option.map_some, Option.bind_some, field_stringify, field_dict, h3, Option.map_some, e2]

/-- What a successful `dump_solution` returns and writes. -/
theorem dumpTree_spec {c : Conv} (hc : ConvOk c) {cfg : Config} (hcfg : CfgOk cfg) {t : PyVal} {inst : Instance} {A : PyVal} {raws : List PyVal}
    {fee ratio : PyVal} (hr : Reads c t inst A raws fee ratio) (hi : GoodInstance inst) {pool : List Order} {sol : Solution}
    (hl : LoadedPool cfg inst pool) (hs : SolOk cfg inst.fee pool sol) (hft : bought sol.orders inst.fee.token ≤ sold sol.orders inst.fee.token)
    (solver : PyVal) : ∃ d, dumpSolution inst sol = .ok d ∧ DumpOk cfg inst d ∧
      (∃ t' ks, solutionTree c t sol inst.fee = .ok t' ∧ SolTree c t A raws sol d ks t' ∧ ∀ k ∈ ks, k < raws.length) ∧
      ∀ out, dumpTree c t sol inst.fee solver = .ok out → FileOk c t raws inst d solver out.file ∧
        ReturnedOk t d out.returned := by
  obtain ⟨d, hd, hok, hp, hrel, ks, hk1, hk2, hk3⟩ := dump_ok hcfg hi hl hs hft
  have hfacts : ∀ o ∈ sol.orders, (IsInt o.buy ∧ IsInt o.sell) ∧ ∃ a, o.accountId = some a := by
    rcases hs with rfl | hg
    · intro o ho; cases ho
    · intro o ho
      refine ⟨⟨(hg.amounts o ho).1, (hg.amounts o ho).2.2.1⟩, ?_⟩
      obtain ⟨a, ha, h⟩ := hg.der o ho
      obtain ⟨k, d, hkd⟩ := hl.stems a ha
      exact ⟨_, (hkd.same h).2.2.1⟩
  have hstems : ∀ o ∈ sol.orders, ∃ k d, StemsFrom cfg inst o k d := by
    rcases hs with rfl | hg
    · intro o ho; cases ho
    · intro o ho
      obtain ⟨a, ha, h⟩ := hg.der o ho
      obtain ⟨k, d, hkd⟩ := hl.stems a ha
      exact ⟨k, d, hkd.same h⟩
  have hlt : ∀ k ∈ ks, k < inst.orders.length := by
    intro k hk
    obtain ⟨e, _, d0, h, _⟩ : ∃ e ∈ d.orders, DumpedFrom inst k e := by
      have := hk3.flip
      exact mem_of_forall₂ this hk
    exact (List.getElem?_eq_some_iff.1 h).1
  obtain ⟨t1, ht1, hs1⟩ := solutionTree_of hc hr hd (fun o ho => (hfacts o ho).1) (fun o ho => (hfacts o ho).2) hk1 hlt
  refine ⟨d, hd, hok, ⟨t1, ks, ht1, hs1, fun k hk => by rw [hr.order.length_eq]; exact hlt k hk⟩, ?_⟩
  intro out hout
  unfold dumpTree at hout
  rw [ht1, ok_bind] at hout
  simp only [bind_eq_ok] at hout
  obtain ⟨t2, h2, s, h3, ⟨⟩, h4, e⟩ := hout
  cases e
  have hfee : field t1 "fee" = some fee := by rw [hs1.rest _ (by decide) (by decide) (by decide) (by decide)]; exact hr.fee
  obtain ⟨T, F, x, rfl, rfl, hx, rfl⟩ := restoreFee_spec hfee hr.ratio h2
  obtain ⟨l, hl1, hl2⟩ := hs1.orders
  have hor : field (.dict (dictSet T "fee" (.dict (dictSet F "ratio" x)))) "orders" = some (.list l) := by
    rw [field_set, if_neg (by decide)]; exact hl1
  obtain ⟨D, l', hD, hl', rfl⟩ := textTree_spec hor h3
  have hmem : ∀ o ∈ dumpList sol.orders, o ∈ sol.orders := fun o ho => List.mem_of_mem_filter ((dumpList_perm sol.orders).mem_iff.1 ho)
  have hfield : ∀ k, field (.dict D) k = if "fee" = k then some (stringifyNumeric (.dict (dictSet F "ratio" x))) else
      (field (.dict T) k).map stringifyNumeric := by
    intro k
    rw [← hD, field_stringify, field_set]
    split <;> rfl
  have hjs : isJson (.dict (dictSet (dictSet D "orders" (.list l')) "solver" solver)) = true := by
    unfold jsonDump at h4
    split at h4
    · assumption
    · cases h4
  refine ⟨⟨?_, ?_, ?_, ?_, ?_, ?_, ?_, isJson_noDecimal hjs⟩, ?_⟩
  · intro k hk
    simp only [List.mem_cons, List.not_mem_nil, or_false, not_or] at hk
    obtain ⟨k1, k2, k3, k4, k5, k6⟩ := hk
    rw [field_set, if_neg (Ne.symm k6), field_set, if_neg (Ne.symm k4), hfield, if_neg (Ne.symm k5), hs1.rest k k1 k2 k3 k4]
  · rw [field_set, if_neg (by decide), field_set, if_neg (by decide), hfield, if_neg (by decide), hs1.prices, Option.map_some, stringify_prices]
  · rw [field_set, if_neg (by decide), field_set, if_neg (by decide), hfield, if_neg (by decide), hs1.objVals, Option.map_some, stringify_metrics]
  · refine ⟨l', ks, ?_, hk2, hk3, ?_⟩
    · rw [field_set, if_neg (by decide), field_set, if_pos rfl]
    · refine orders_written hl2 hrel ?_ (fun o ho => (hfacts o (hmem o ho)).1) hl'
      have := congrArg List.length hk1
      simpa using this
  · obtain ⟨A', hA1, hA2, hA3⟩ := hs1.accounts
    obtain ⟨T0, A0, l0, hT0, hup, hT⟩ := hs1.shape
    have hAA : A0 = A' := by
      rw [hT, field_set, if_neg (by decide), field_set, if_neg (by decide), field_set, if_pos rfl] at hA1
      exact Option.some.inj hA1
    subst hAA
    refine ⟨A, stringifyNumeric A0, hr.accounts, ?_, accounts_written hA2 ?_ ?_⟩
    · rw [field_set, if_neg (by decide), field_set, if_neg (by decide), hfield, if_neg (by decide), hA1, Option.map_some]
    · intro e he
      obtain ⟨o, ho, hre⟩ := mem_of_forall₂ hrel he
      obtain ⟨e1, e2, e3, _⟩ := hre.buyToken
      rw [e1, e2]
      exact ⟨(hA3 o (hmem o ho) _ e3).2, (hA3 o (hmem o ho) _ e3).1⟩
    · intro a tok hn
      refine updateTree_entry hup ?_
      intro o ho hoa
      obtain ⟨k, d0, hst⟩ := hstems o ho
      obtain ⟨g1, _, g2, g3, g4, _⟩ := hst
      rw [g2] at hoa
      rw [g3, g4]
      exact hn d0 (List.mem_of_getElem? g1) (Option.some.inj hoa)
  · refine ⟨_, stringifyNumeric (.dict (dictSet F "ratio" x)), ratio, x, hr.fee, ?_, hr.ratio, hx, ?_, ?_⟩
    · rw [field_set, if_neg (by decide), field_set, if_neg (by decide), hfield, if_pos rfl]
    · rw [field_stringify, field_set, if_pos rfl]; rfl
    · intro k hk
      rw [field_stringify, field_set, if_neg (Ne.symm hk)]
  · rw [field_set, if_pos rfl]
  · refine ⟨?_, ?_, ?_⟩
    · intro k hk
      simp only [List.mem_cons, List.not_mem_nil, or_false, not_or] at hk
      obtain ⟨k1, k2, k3, k4, k5⟩ := hk
      rw [field_set, if_neg (Ne.symm k5), hs1.rest k k1 k2 k3 k4]
    · rw [field_set, if_neg (by decide), hs1.prices]; rfl
    · rw [field_set, if_neg (by decide), hs1.objVals]; rfl

namespace Spec

/-- A value without `Decimal` and `Fraction` in any position. -/
def PlainJson (v : PyVal) : Prop := ∀ p q, nodeAt v p ≠ some (.dec q) ∧ nodeAt v p ≠ some (.frac q)

/-- What an instance needs for its solution to be written: a fee ratio that is a float, no `Decimal` apart from the fee ratio, order ids that are
numbers, and a plain `solver` dict. -/
structure Writable (c : Conv) (t solver : PyVal) : Prop where
  ratio : ∀ fee r, field t "fee" = some fee → field fee "ratio" = some r → ∃ x, c.toFloat r = .ok x ∧ NoDecimal x
  noDecimal : ∀ td fd, t = .dict td → field t "fee" = some (.dict fd) →
    NoDecimal (.dict (dictSet td "fee" (.dict (dictSet fd "ratio" (.int 0)))))
  orderIDs : ∀ raw ∈ orderObjects t, ∀ i, field raw "orderID" = some i → ∃ n, c.toInt (stringifyNumeric i) = .ok n
  solver : PlainJson solver

end Spec

theorem plainJson_kid {v x : PyVal} (h : PlainJson v) (hx : x ∈ kids v) : PlainJson x := by
  obtain ⟨i, hi⟩ := List.mem_iff_getElem?.1 hx
  intro p q
  have := h (i :: p) q
  unfold nodeAt at this
  rw [hi] at this
  exact this

mutual
theorem isJson_of_plain : ∀ v : PyVal, PlainJson v → isJson v = true
  | .list l, h => by
    unfold isJson
    exact isJson_of_plain_list l (fun x hx => plainJson_kid h hx)
  | .tuple l, h => by
    unfold isJson
    exact isJson_of_plain_list l (fun x hx => plainJson_kid h hx)
  | .dict l, h => by
    unfold isJson
    exact isJson_of_plain_dict l (fun p hp => plainJson_kid h (List.mem_map.2 ⟨p, hp, rfl⟩))
  | .bool _, _ => rfl
  | .int _, _ => rfl
  | .frac q, h => absurd rfl (h [] q).2
  | .dec q, h => absurd rfl (h [] q).1
  | .str _, _ => rfl
  | .other _, _ => rfl
theorem isJson_of_plain_list : ∀ l : List PyVal, (∀ x ∈ l, PlainJson x) → isJsonList l = true
  | [], _ => rfl
  | v :: l, h => by
    unfold isJsonList
    rw [isJson_of_plain v (h v (by simp)), isJson_of_plain_list l (fun x hx => h x (by simp [hx]))]; rfl
theorem isJson_of_plain_dict : ∀ l : List (String × PyVal), (∀ p ∈ l, PlainJson p.2) → isJsonDict l = true
  | [], _ => rfl
  | (k, v) :: l, h => by
    unfold isJsonDict
    rw [isJson_of_plain v (h (k, v) (by simp)), isJson_of_plain_dict l (fun x hx => h x (by simp [hx]))]; rfl
end

theorem noDecimal_prices (prices : Prices) : NoDecimal (pricesVal prices) := by
  unfold pricesVal
  rw [noDecimal_dict]
  intro p hp
  obtain ⟨e, _, rfl⟩ := List.mem_map.1 hp
  exact noDecimal_frac _

theorem noDecimal_metrics (m : Metrics) : NoDecimal (metricsVal m) := by
  unfold metricsVal
  rw [noDecimal_dict]
  simp only [List.mem_cons, List.not_mem_nil, or_false]
  rintro p (rfl | rfl | rfl | rfl | rfl | rfl)
  · exact noDecimal_frac _
  · exact noDecimal_frac _
  · exact noDecimal_frac _
  · exact noDecimal_frac _
  · exact noDecimal_frac _
  · exact noDecimal_int _

theorem field_mem_set {d : List (String × PyVal)} {k k' : String} {v x : PyVal} (hne : k' ≠ k) (h : field (.dict d) k' = some x) :
    field (.dict (dictSet d k v)) k' = some x := by
  rw [field_set, if_neg hne.symm]; exact h

theorem isJson_restoreOrderID {c : Conv} {v v' : PyVal} (hv : isJson v = true) (h : restoreOrderID c v = .ok v') : isJson v' = true := by
  unfold restoreOrderID at h
  rw [bind_eq_ok] at h
  obtain ⟨d, hd, h⟩ := h
  rw [asDict_eq_ok] at hd
  subst hd
  cases hi : dictGet? d "orderID" with
  | none => rw [hi] at h; cases h; exact hv
  | some i =>
    rw [hi] at h
    dsimp only at h
    rw [bind_eq_ok] at h
    obtain ⟨n, hn, h⟩ := h
    cases h
    unfold isJson at hv ⊢
    rw [isJsonDict_iff] at hv ⊢
    intro p hp
    rcases mem_dictSet hp with hp | hp
    · exact hv p hp
    · rw [hp]; rfl

/-- A solution of a writable instance is written. -/
theorem dumpTree_writes {c : Conv} {t : PyVal} {inst : Instance} {A : PyVal} {raws : List PyVal} {fee ratio solver : PyVal}
    (hr : Reads c t inst A raws fee ratio) (hw : Writable c t solver) {sol : Solution} {d : Dump} {ks : List ℕ} {t1 : PyVal}
    (ht1 : solutionTree c t sol inst.fee = .ok t1) (hs1 : SolTree c t A raws sol d ks t1) : ∃ out, dumpTree c t sol inst.fee solver = .ok out := by
  obtain ⟨F, rfl⟩ := field_some_dict hr.ratio
  obtain ⟨x, hx, hxd⟩ := hw.ratio _ _ hr.fee hr.ratio
  obtain ⟨T, A', l, rfl, hA, rfl⟩ := hs1.shape
  obtain ⟨l0, hl1, hl2⟩ := hs1.orders
  rw [field_set, if_pos rfl] at hl1
  cases hl1
  have hraws : orderObjects (.dict T) = raws := orderObjects_eq hr.orders
  have hfee : field (.dict (dictSet (dictSet (dictSet (dictSet T "prices" (pricesVal d.prices)) "accounts" A') "objVals" (metricsVal d.objVals)) "orders"
      (.list l))) "fee" = some (.dict F) := by
    rw [hs1.rest _ (by decide) (by decide) (by decide) (by decide)]; exact hr.fee
  have hnd := hw.noDecimal T F rfl hr.fee
  have hraw : ∀ (k : ℕ) (D : List (String × PyVal)), raws[k]? = some (.dict D) → NoDecimal (.dict D) := by
    intro k D hk
    obtain ⟨v, hv1, hv2⟩ := hr.orders
    have hvn := noDecimal_field hnd (field_mem_set (k' := "orders") (by decide) hv1)
    have hmem := List.mem_of_getElem? hk
    cases v with
    | list l => cases hv2; exact noDecimal_kid hvn hmem
    | tuple l => cases hv2; exact noDecimal_kid hvn hmem
    | dict dd =>
      cases hv2
      obtain ⟨p, _, e⟩ := List.mem_map.1 hmem
      cases e
    | str s =>
      cases hv2
      obtain ⟨p, _, e⟩ := List.mem_map.1 hmem
      cases e
    | _ => cases hv2
  have hwritten : ∀ v ∈ l, NoDecimal v ∧ ∃ v', restoreOrderID c (stringifyNumeric v) = .ok v' := by
    intro v hv
    obtain ⟨p, _, D, hD, rfl⟩ := mem_of_forall₂ hl2 hv
    refine ⟨noDecimal_set (noDecimal_set (hraw _ _ hD) (noDecimal_str _)) (noDecimal_str _), ?_⟩
    have hf : field (stringifyNumeric (.dict (dictSet (dictSet D "execSellAmount" (.str (pyStrFrac p.1.sell))) "execBuyAmount"
        (.str (pyStrFrac p.1.buy))))) "orderID" = (field (.dict D) "orderID").map stringifyNumeric := by
      rw [field_stringify, field_set, if_neg (by decide), field_set, if_neg (by decide)]
    rw [stringify_dict] at hf ⊢
    rw [field_dict] at hf
    unfold restoreOrderID
    rw [show asDict (.dict _) = .ok _ from rfl, ok_bind]
    cases hi : field (.dict D) "orderID" with
    | none =>
      rw [hf, hi]
      exact ⟨_, rfl⟩
    | some i =>
      obtain ⟨n, hn⟩ := hw.orderIDs (.dict D) (hraws ▸ List.mem_of_getElem? hD) i hi
      rw [hf, hi]
      dsimp only [Option.map_some]
      rw [hn, ok_bind]
      exact ⟨_, rfl⟩
  unfold dumpTree
  rw [ht1, ok_bind]
  have h2 : restoreFee c (.dict (dictSet (dictSet (dictSet (dictSet T "prices" (pricesVal d.prices)) "accounts" A') "objVals" (metricsVal d.objVals))
      "orders" (.list l))) = .ok (.dict (dictSet (dictSet (dictSet (dictSet (dictSet T "prices" (pricesVal d.prices)) "accounts" A') "objVals"
        (metricsVal d.objVals)) "orders" (.list l)) "fee" (.dict (dictSet F "ratio" x)))) := by
    unfold restoreFee
    rw [getItem_of hfee, ok_bind, getItem_of hr.ratio, ok_bind, hx, ok_bind]
    rfl
  rw [h2, ok_bind]
  have hno : NoDecimal (.dict (dictSet (dictSet (dictSet (dictSet (dictSet T "prices" (pricesVal d.prices)) "accounts" A') "objVals"
        (metricsVal d.objVals)) "orders" (.list l)) "fee" (.dict (dictSet F "ratio" x)))) := by
    have hA' : NoDecimal A' := updateTree_noDecimal (noDecimal_field hnd (field_mem_set (k' := "accounts") (by decide) hr.accounts)) hA
    have hF : NoDecimal (.dict (dictSet F "ratio" x)) := by
      have h0 : NoDecimal (.dict (dictSet F "ratio" (.int 0))) := noDecimal_field hnd (k := "fee") (by rw [field_set, if_pos rfl])
      rw [noDecimal_dict] at h0 ⊢
      intro p hp
      rcases mem_dictSet_of (v' := .int 0) hp with hp | hp
      · rw [hp]; exact hxd
      · exact h0 p hp
    rw [noDecimal_dict]
    intro p hp
    rcases mem_dictSet_of (v' := .dict (dictSet F "ratio" (.int 0))) hp with hp | hp
    · rw [hp]; exact hF
    rcases mem_dictSet_swap (by decide) hp with hp | hp
    · rw [hp, noDecimal_list]; exact fun v hv => (hwritten v hv).1
    rcases mem_dictSet_swap (by decide) hp with hp | hp
    · rw [hp]; exact noDecimal_metrics _
    rcases mem_dictSet_swap (by decide) hp with hp | hp
    · rw [hp]; exact hA'
    rcases mem_dictSet_swap (by decide) hp with hp | hp
    · rw [hp]; exact noDecimal_prices _
    · exact noDecimal_dict.1 hnd p hp
  have hor : field (stringifyNumeric (.dict (dictSet (dictSet (dictSet (dictSet (dictSet T "prices" (pricesVal d.prices)) "accounts" A') "objVals"
        (metricsVal d.objVals)) "orders" (.list l)) "fee" (.dict (dictSet F "ratio" x))))) "orders" = some (.list (l.map stringifyNumeric)) := by
    rw [field_stringify, field_set, if_neg (by decide), field_set, if_pos rfl, Option.map_some, stringify_list]
  obtain ⟨l', hl'⟩ : ∃ l', mapE (restoreOrderID c) (l.map stringifyNumeric) = .ok l' := by
    refine mapE_ok_of ?_
    intro v hv
    obtain ⟨w, hw', rfl⟩ := List.mem_map.1 hv
    exact (hwritten w hw').2
  have hjs := isJson_stringify _ hno
  obtain ⟨D, hD⟩ := field_some_dict hor
  have h3 : ∀ s, textTree c (.dict (dictSet (dictSet (dictSet (dictSet (dictSet T "prices" (pricesVal d.prices)) "accounts" A') "objVals"
        (metricsVal d.objVals)) "orders" (.list l)) "fee" (.dict (dictSet F "ratio" x)))) s =
        .ok (.dict (dictSet (dictSet D "orders" (.list l')) "solver" s)) := by
    intro s
    unfold textTree
    dsimp only
    rw [getItem_of hor, ok_bind, show elements (.list (l.map stringifyNumeric)) = .ok (l.map stringifyNumeric) from rfl, ok_bind, hl', ok_bind, hD]
    rfl
  rw [h3, ok_bind]
  have h4 : isJson (.dict (dictSet (dictSet D "orders" (.list l')) "solver" solver)) = true := by
    rw [hD] at hjs
    unfold isJson at hjs ⊢
    rw [isJsonDict_iff] at hjs ⊢
    intro p hp
    rcases mem_dictSet hp with hp | hp
    · rcases mem_dictSet hp with hp | hp
      · exact hjs p hp
      · rw [hp]
        unfold isJson
        rw [isJsonList_iff]
        intro v' hv'
        obtain ⟨v, hv, hvv⟩ := mem_of_forall₂ (mapE_eq_ok_forall₂.1 hl') hv'
        obtain ⟨w, hw', rfl⟩ := List.mem_map.1 hv
        exact isJson_restoreOrderID (isJson_stringify _ (hwritten w hw').1) hvv
    · rw [hp]; exact isJson_of_plain _ hw.solver
  unfold jsonDump
  rw [if_pos h4]
  exact ⟨_, rfl⟩

/-- C65. A run that succeeds has read an instance. -/
theorem C65_run_reads {c : Conv} {cfg : Config} {ext : Ext} {t : PyVal} {solver : PyVal} {out : JsonOut}
    (h : (∃ pair xrate, tokenPairJson c cfg ext t pair xrate solver = .ok out) ∨ ∃ shuffle, bestTokenPairJson c cfg ext t shuffle solver = .ok out) :
    ∃ inst, InstanceOf c t inst := by
  rcases h with ⟨pair, xrate, h⟩ | ⟨sh, h⟩
  · unfold tokenPairJson at h
    rw [bind_eq_ok] at h
    obtain ⟨inst, hi, _⟩ := h
    exact ⟨inst, C65_read.1 hi⟩
  · unfold bestTokenPairJson at h
    rw [bind_eq_ok] at h
    obtain ⟨inst, hi, _⟩ := h
    exact ⟨inst, C65_read.1 hi⟩

/-- C65. Token-pair solver, from the instance json to the solution json: if a run succeeds, then the solver ran on the numbers of the
instance, its solution is correct (C44), and the file holds exactly that solution: prices, objective values, balances and executed amounts as
decimal text, the touched orders as in the instance (with the id as an integer), and every other key of the instance. -/
theorem C65_token_pair {c : Conv} (hc : ConvOk c) {cfg : Config} {ext : Ext} {t : PyVal} {pair : Token × Token} {xrate : Option ℚ} {solver : PyVal}
    {inst : Instance} {out : JsonOut} (hcfg : CfgOk cfg) (hinst : InstanceOf c t inst) (hi : GoodInstance inst) (hne : pair.1 ≠ pair.2)
    (hbr : ∀ E, MaxBranching E (ext.branch E)) (hx : ∀ y, xrate = some y → 0 < y)
    (h : tokenPairJson c cfg ext t pair xrate solver = .ok out) :
    ∃ d, tokenPairMain cfg ext inst pair xrate = .ok d ∧ DumpOk cfg inst d ∧ FileOk c t (orderObjects t) inst d solver out.file ∧
      ReturnedOk t d out.returned := by
  have hread := C65_read.2 hinst
  obtain ⟨A, raws, fee, ratio, hr⟩ := readInstance_reads hc hread
  rw [orderObjects_eq hr.orders]
  unfold tokenPairJson at h
  rw [hread, ok_bind, bind_eq_ok] at h
  obtain ⟨⟨accounts, bk, fee'⟩, hload, h⟩ := h
  dsimp only at h
  rw [bind_eq_ok] at h
  obtain ⟨⟨sol, rest⟩, hsol, h⟩ := h
  dsimp only at h
  obtain ⟨rfl, pool, hl, hs, hft⟩ := tokenPair_parts hcfg hi hne hbr hx hload hsol
  obtain ⟨d, hd, hok, _, hf⟩ := dumpTree_spec hc hcfg hr hi hl hs hft solver
  refine ⟨d, ?_, hok, hf out h⟩
  unfold tokenPairMain
  rw [hload, ok_bind]
  dsimp only
  rw [hsol, ok_bind]
  exact hd

/-- C65. The same for the solver that searches all pairs, for every shuffle and time-out. -/
theorem C65_best_pair {c : Conv} (hc : ConvOk c) {cfg : Config} {ext : Ext} {t : PyVal} {solver : PyVal}
    {shuffle : List (Token × Token) → List ((Token × Token) × Bool)} {inst : Instance} {out : JsonOut} (hcfg : CfgOk cfg)
    (hinst : InstanceOf c t inst) (hi : GoodInstance inst) (hbr : ∀ E, MaxBranching E (ext.branch E))
    (hsh : ∀ E, ∀ v ∈ shuffle E, v.1 ∈ E) (h : bestTokenPairJson c cfg ext t shuffle solver = .ok out) :
    ∃ d, bestTokenPairMain cfg ext inst shuffle = .ok d ∧ DumpOk cfg inst d ∧ FileOk c t (orderObjects t) inst d solver out.file ∧
      ReturnedOk t d out.returned := by
  have hread := C65_read.2 hinst
  obtain ⟨A, raws, fee, ratio, hr⟩ := readInstance_reads hc hread
  rw [orderObjects_eq hr.orders]
  unfold bestTokenPairJson at h
  rw [hread, ok_bind, bind_eq_ok] at h
  obtain ⟨⟨accounts, orders, fee'⟩, hload, h⟩ := h
  dsimp only at h
  rw [bind_eq_ok] at h
  obtain ⟨st, hst, h⟩ := h
  obtain ⟨rfl, hl, hs, hft⟩ := bestPair_parts hcfg hi hbr hload (hsh _) hst
  obtain ⟨d, hd, hok, _, hf⟩ := dumpTree_spec hc hcfg hr hi hl hs hft solver
  refine ⟨d, ?_, hok, hf out h⟩
  unfold bestTokenPairMain
  rw [hload, ok_bind]
  dsimp only
  rw [hst, ok_bind]
  exact hd

/-- C66. Token-pair solver on a writable instance: it writes a solution file exactly when the solver succeeds on the numbers of the instance, and
otherwise it raises the error of the solver. -/
theorem C66_token_pair {c : Conv} (hc : ConvOk c) {cfg : Config} {ext : Ext} {t : PyVal} {pair : Token × Token} {xrate : Option ℚ} {solver : PyVal}
    {inst : Instance} (hcfg : CfgOk cfg) (hinst : InstanceOf c t inst) (hi : GoodInstance inst) (hne : pair.1 ≠ pair.2)
    (hbr : ∀ E, MaxBranching E (ext.branch E)) (hx : ∀ y, xrate = some y → 0 < y) (hw : Writable c t solver) :
    (∀ d, tokenPairMain cfg ext inst pair xrate = .ok d → ∃ out, tokenPairJson c cfg ext t pair xrate solver = .ok out ∧
      FileOk c t (orderObjects t) inst d solver out.file) ∧
    ∀ e, tokenPairMain cfg ext inst pair xrate = .error e → tokenPairJson c cfg ext t pair xrate solver = .error e := by
  have hread := C65_read.2 hinst
  obtain ⟨A, raws, fee, ratio, hr⟩ := readInstance_reads hc hread
  have hj : ∀ accounts bk fee', loadPairProblem cfg inst pair = .ok (accounts, bk, fee') → ∀ sol rest,
      solveEconomicViable cfg ext pair accounts bk.b bk.s bk.f fee' xrate = .ok (sol, rest) →
      ∃ d out, tokenPairMain cfg ext inst pair xrate = .ok d ∧ tokenPairJson c cfg ext t pair xrate solver = .ok out := by
    intro accounts bk fee' hload sol rest hsol
    obtain ⟨rfl, pool, hl, hs, hft⟩ := tokenPair_parts hcfg hi hne hbr hx hload hsol
    obtain ⟨d, hd, _, ⟨t1, ks, ht1, hs1, _⟩, _⟩ := dumpTree_spec hc hcfg hr hi hl hs hft solver
    obtain ⟨out, hout⟩ := dumpTree_writes hr hw ht1 hs1
    refine ⟨d, out, ?_, ?_⟩
    · unfold tokenPairMain
      rw [hload, ok_bind]
      dsimp only
      rw [hsol, ok_bind]
      exact hd
    · unfold tokenPairJson
      rw [hread, ok_bind, hload, ok_bind]
      dsimp only
      rw [hsol, ok_bind]
      exact hout
  constructor
  · intro d hd
    have hd' := hd
    unfold tokenPairMain at hd'
    rw [bind_eq_ok] at hd'
    obtain ⟨⟨accounts, bk, fee'⟩, hload, hd'⟩ := hd'
    dsimp only at hd'
    rw [bind_eq_ok] at hd'
    obtain ⟨⟨sol, rest⟩, hsol, _⟩ := hd'
    obtain ⟨_, out, _, hout⟩ := hj accounts bk fee' hload sol rest hsol
    obtain ⟨d', h1, _, h2, _⟩ := C65_token_pair hc hcfg hinst hi hne hbr hx hout
    rw [hd] at h1
    cases h1
    exact ⟨out, hout, h2⟩
  · intro e he
    have he' := he
    unfold tokenPairMain at he'
    unfold tokenPairJson
    rw [hread, ok_bind]
    cases hload : loadPairProblem cfg inst pair with
    | error e1 => rw [hload] at he'; cases he'; rfl
    | ok r =>
      obtain ⟨accounts, bk, fee'⟩ := r
      rw [hload, ok_bind] at he'
      rw [ok_bind]
      dsimp only at he' ⊢
      cases hsol : solveEconomicViable cfg ext pair accounts bk.b bk.s bk.f fee' xrate with
      | error e1 => rw [hsol] at he'; cases he'; rfl
      | ok r =>
        obtain ⟨sol, rest⟩ := r
        obtain ⟨d, _, hd, _⟩ := hj accounts bk fee' hload sol rest hsol
        rw [he] at hd
        cases hd

/-- C66. The same for the solver that searches all pairs. -/
theorem C66_best_pair {c : Conv} (hc : ConvOk c) {cfg : Config} {ext : Ext} {t : PyVal} {solver : PyVal}
    {shuffle : List (Token × Token) → List ((Token × Token) × Bool)} {inst : Instance} (hcfg : CfgOk cfg)
    (hinst : InstanceOf c t inst) (hi : GoodInstance inst) (hbr : ∀ E, MaxBranching E (ext.branch E))
    (hsh : ∀ E, ∀ v ∈ shuffle E, v.1 ∈ E) (hw : Writable c t solver) :
    (∀ d, bestTokenPairMain cfg ext inst shuffle = .ok d → ∃ out, bestTokenPairJson c cfg ext t shuffle solver = .ok out ∧
      FileOk c t (orderObjects t) inst d solver out.file) ∧
    ∀ e, bestTokenPairMain cfg ext inst shuffle = .error e → bestTokenPairJson c cfg ext t shuffle solver = .error e := by
  have hread := C65_read.2 hinst
  obtain ⟨A, raws, fee, ratio, hr⟩ := readInstance_reads hc hread
  have hj : ∀ accounts orders fee', loadProblem cfg inst = .ok (accounts, orders, fee') → ∀ st,
      bestTokenPair cfg ext accounts orders fee' (shuffle (eligibleTokenPairs orders fee'.token)) = .ok st →
      ∃ d out, bestTokenPairMain cfg ext inst shuffle = .ok d ∧ bestTokenPairJson c cfg ext t shuffle solver = .ok out := by
    intro accounts orders fee' hload st hst
    obtain ⟨rfl, hl, hs, hft⟩ := bestPair_parts hcfg hi hbr hload (hsh _) hst
    obtain ⟨d, hd, _, ⟨t1, ks, ht1, hs1, _⟩, _⟩ := dumpTree_spec hc hcfg hr hi hl hs hft solver
    obtain ⟨out, hout⟩ := dumpTree_writes hr hw ht1 hs1
    refine ⟨d, out, ?_, ?_⟩
    · unfold bestTokenPairMain
      rw [hload, ok_bind]
      dsimp only
      rw [hst, ok_bind]
      exact hd
    · unfold bestTokenPairJson
      rw [hread, ok_bind, hload, ok_bind]
      dsimp only
      rw [hst, ok_bind]
      exact hout
  constructor
  · intro d hd
    have hd' := hd
    unfold bestTokenPairMain at hd'
    rw [bind_eq_ok] at hd'
    obtain ⟨⟨accounts, orders, fee'⟩, hload, hd'⟩ := hd'
    dsimp only at hd'
    rw [bind_eq_ok] at hd'
    obtain ⟨st, hst, _⟩ := hd'
    obtain ⟨_, out, _, hout⟩ := hj accounts orders fee' hload st hst
    obtain ⟨d', h1, _, h2, _⟩ := C65_best_pair hc hcfg hinst hi hbr hsh hout
    rw [hd] at h1
    cases h1
    exact ⟨out, hout, h2⟩
  · intro e he
    have he' := he
    unfold bestTokenPairMain at he'
    unfold bestTokenPairJson
    rw [hread, ok_bind]
    cases hload : loadProblem cfg inst with
    | error e1 => rw [hload] at he'; cases he'; rfl
    | ok r =>
      obtain ⟨accounts, orders, fee'⟩ := r
      rw [hload, ok_bind] at he'
      rw [ok_bind]
      dsimp only at he' ⊢
      cases hst : bestTokenPair cfg ext accounts orders fee' (shuffle (eligibleTokenPairs orders fee'.token)) with
      | error e1 => rw [hst] at he'; cases he'; rfl
      | ok st =>
        obtain ⟨d, _, hd, _⟩ := hj accounts orders fee' hload st hst
        rw [he] at hd
        cases hd

/-- C67 (negative). A file that is written has no `Decimal` in the instance outside the rewritten keys: an instance with a json float in any other
key, in a field of an executed order, or as a balance that no order mentions is solved, but the solution cannot be written. -/
theorem C67_no_float {c : Conv} {t : PyVal} {raws : List PyVal} {inst : Instance} {d : Dump} {solver file : PyVal}
    (h : FileOk c t raws inst d solver file) :
    (∀ k v, k ∉ ["prices", "accounts", "objVals", "orders", "fee", "solver"] → field t k = some v → NoDecimal v) ∧
    (∀ A a tok x, field t "accounts" = some A → entry A a tok = some x →
      (∀ o ∈ inst.orders, o.accountID = a → tok ≠ o.buyToken ∧ tok ≠ o.sellToken) → NoDecimal x) ∧
    ∃ ks : List ℕ, ks.Nodup ∧ List.Forall₂ (DumpedFrom inst) ks d.orders ∧ ∀ i ∈ ks, ∀ raw, raws[i]? = some raw →
      (∀ k v, k ≠ "execSellAmount" → k ≠ "execBuyAmount" → k ≠ "orderID" → field raw k = some v → NoDecimal v) ∧
      ∀ v, field raw "orderID" = some v → ∃ n, c.toInt (stringifyNumeric v) = .ok n := by
  refine ⟨?_, ?_, ?_⟩
  · intro k v hk hv
    have := h.rest k hk
    rw [hv] at this
    exact noDecimal_stringify.1 (noDecimal_field h.noDecimal this)
  · intro A a tok x hA hx hn
    obtain ⟨old, new, h1, h2, h3⟩ := h.accounts
    rw [hA] at h1
    cases h1
    have hv := h3.untouched a tok hn
    rw [hx, Option.map_some] at hv
    unfold entry at hv
    rw [Option.bind_eq_some_iff] at hv
    obtain ⟨D, hD1, hD2⟩ := hv
    exact noDecimal_stringify.1 (noDecimal_field (noDecimal_field (noDecimal_field h.noDecimal h2) hD1) hD2)
  · obtain ⟨l, ks, h1, h2, h3, h4⟩ := h.orders
    refine ⟨ks, h2, h3, ?_⟩
    intro i hi raw hraw
    obtain ⟨j, hj⟩ := List.mem_iff_getElem?.1 hi
    have hjl : j < ks.length := (List.getElem?_eq_some_iff.1 hj).1
    have hlen : j < (ks.zip d.orders).length := by rw [List.length_zip, ← h3.length_eq, Nat.min_self]; exact hjl
    have hlen' : j < l.length := by rw [← h4.length_eq]; exact hlen
    obtain ⟨raw', e1, hw⟩ := h4.get hlen hlen'
    have hz : (ks.zip d.orders)[j].1 = i := by
      rw [List.getElem_zip]
      exact (List.getElem?_eq_some_iff.1 hj).2
    have e1' : raws[(ks.zip d.orders)[j].1]? = some raw' := e1
    rw [hz, hraw] at e1'
    cases e1'
    refine ⟨?_, ?_⟩
    · intro k v k1 k2 k3 hv
      have := hw.rest k k1 k2 k3
      rw [hv] at this
      exact noDecimal_stringify.1 (noDecimal_field (noDecimal_kid (noDecimal_field h.noDecimal h1) (List.getElem_mem hlen')) this)
    · intro v hv
      obtain ⟨n, hn, _⟩ := hw.orderID v hv
      exact ⟨n, hn⟩

/-- C67 (negative). Token-pair solver: an instance with a `Decimal` in a key that the solver neither uses nor rewrites is never written. -/
theorem C67_token_pair {c : Conv} (hc : ConvOk c) {cfg : Config} {ext : Ext} {t : PyVal} {pair : Token × Token} {xrate : Option ℚ} {solver : PyVal}
    {inst : Instance} (hcfg : CfgOk cfg) (hinst : InstanceOf c t inst) (hi : GoodInstance inst) (hne : pair.1 ≠ pair.2)
    (hbr : ∀ E, MaxBranching E (ext.branch E)) (hx : ∀ y, xrate = some y → 0 < y) {k : String} {v : PyVal}
    (hk : k ∉ ["prices", "accounts", "objVals", "orders", "fee", "solver"]) (hv : field t k = some v) (hd : ¬ NoDecimal v) (out : JsonOut) :
    tokenPairJson c cfg ext t pair xrate solver ≠ .ok out := by
  intro h
  obtain ⟨d, _, _, hf, _⟩ := C65_token_pair hc hcfg hinst hi hne hbr hx h
  exact hd ((C67_no_float hf).1 k v hk hv)

/-- C67 (negative). The same for the solver that searches all pairs. -/
theorem C67_best_pair {c : Conv} (hc : ConvOk c) {cfg : Config} {ext : Ext} {t : PyVal} {solver : PyVal}
    {shuffle : List (Token × Token) → List ((Token × Token) × Bool)} {inst : Instance} (hcfg : CfgOk cfg)
    (hinst : InstanceOf c t inst) (hi : GoodInstance inst) (hbr : ∀ E, MaxBranching E (ext.branch E))
    (hsh : ∀ E, ∀ v ∈ shuffle E, v.1 ∈ E) {k : String} {v : PyVal}
    (hk : k ∉ ["prices", "accounts", "objVals", "orders", "fee", "solver"]) (hv : field t k = some v) (hd : ¬ NoDecimal v) (out : JsonOut) :
    bestTokenPairJson c cfg ext t shuffle solver ≠ .ok out := by
  intro h
  obtain ⟨d, _, _, hf, _⟩ := C65_best_pair hc hcfg hinst hi hbr hsh h
  exact hd ((C67_no_float hf).1 k v hk hv)

/-! ### Examples -/

deriving instance DecidableEq for Instance

namespace ExJson

/-- Texts that are read by comparison (the library function that parses integers is not evaluated by the kernel). -/
def table : List ℤ := [100000000000000000000, 10000000000000000000, 20000000000000000000, 1000000000000000000, 2000000000000000000, 7, 8, 9]

def parse (s : String) : Option ℤ :=
  match table.find? (fun n => toString n = s) with
  | some n => some n
  | none => s.toInt?

theorem parse_text (n : ℤ) : parse (toString n) = some n := by
  unfold parse
  cases h : table.find? (fun m => decide (toString m = toString n)) with
  | none => exact (C45_int_text n).2
  | some m =>
    have h1 := List.find?_some h
    have h2 : toString m = toString n := by simpa using h1
    have h3 := (C45_int_text m).2
    rw [h2, (C45_int_text n).2] at h3
    exact h3.symm

theorem trunc_intCast (m : ℤ) : trunc (m : ℚ) = m := by
  have := trunc_isInt (isInt_iff.2 ⟨m, rfl⟩ : IsInt (m : ℚ))
  exact_mod_cast this

/-- An example of the conversions. -/
def conv : Conv where
  toF
    | .int n => .ok n
    | .frac q => .ok q
    | .dec q => .ok q
    | .bool b => .ok (if b then 1 else 0)
    | .str s => match parse s with
      | some n => .ok n
      | none => .error .valueError
    | _ => .error .typeError
  toInt
    | .int n => .ok n
    | .frac q => .ok (trunc q)
    | .dec q => .ok (trunc q)
    | .bool b => .ok (if b then 1 else 0)
    | .str s => match parse s with
      | some n => .ok n
      | none => .error .valueError
    | _ => .error .typeError
  toFloat
    | .dec q => .ok (.other (pyStrFrac q))
    | v => .ok v

theorem conv_ok : ConvOk conv where
  toF_int _ := rfl
  toF_frac _ := rfl
  toF_text n := by simp only [conv, parse_text]
  toInt_int _ := rfl
  toInt_frac _ := rfl
  toInt_text n := by simp only [conv, parse_text]
  agree v q n h1 h2 := by
    cases v with
    | int m => cases h1; cases h2; exact (trunc_intCast _).symm
    | frac m => cases h1; cases h2; rfl
    | dec m => cases h1; cases h2; rfl
    | bool b => cases h1; cases h2; cases b <;> decide
    | str s =>
      simp only [conv] at h1 h2
      cases hp : parse s with
      | none => rw [hp] at h1; cases h1
      | some m => rw [hp] at h1 h2; cases h1; cases h2; exact (trunc_intCast _).symm
    | _ => cases h1

def order (a b s : String) (x y : String) (id : ℤ) : PyVal :=
  .dict [("accountID", .str a), ("buyToken", .str b), ("sellToken", .str s), ("buyAmount", .str x), ("sellAmount", .str y), ("orderID", .int id)]

def tree (extra : List (String × PyVal)) : PyVal := .dict ([
  ("accounts", .dict [("A", .dict [("S", .str "100000000000000000000"), ("B", .str "100000000000000000000")]),
    ("C", .dict [("F", .str "100000000000000000000"), ("B", .int 100000000000000000000)])]),
  ("orders", .list [order "A" "B" "S" "10000000000000000000" "20000000000000000000" 7,
    order "C" "S" "B" "10000000000000000000" "10000000000000000000" 8,
    order "C" "B" "F" "1000000000000000000" "2000000000000000000" 9]),
  ("fee", .dict [("token", .str "F"), ("ratio", .dec (1 / 1000))])] ++ extra)

theorem reads (extra : List (String × PyVal)) : InstanceOf conv (tree extra) ExInst.inst := by
  rw [← C65_read]
  have h : readInstance conv (tree []) = .ok ExInst.inst := by
    obtain ⟨i, hi, rfl⟩ := exists_of_pyCheck (x := readInstance conv (tree [])) (p := fun i => i = ExInst.inst) (by decide +kernel)
    exact hi
  exact h

def solver : PyVal := .dict [("name", .str "open"), ("args", .list [.str "main.py"]), ("runtime", .other "0.25"), ("exit_status", .str "completed")]

theorem writable : Writable conv (tree []) solver where
  ratio fee r h1 h2 := by
    cases h1
    cases h2
    exact ⟨_, rfl, isJson_noDecimal (by decide)⟩
  noDecimal td fd h1 h2 := by
    cases h1
    cases h2
    exact isJson_noDecimal (by decide +kernel)
  orderIDs raw h i hi := by
    have h0 : orderObjects (tree []) = [order "A" "B" "S" "10000000000000000000" "20000000000000000000" 7,
      order "C" "S" "B" "10000000000000000000" "10000000000000000000" 8, order "C" "B" "F" "1000000000000000000" "2000000000000000000" 9] := rfl
    rw [h0] at h
    simp only [List.mem_cons, List.not_mem_nil, or_false] at h
    rcases h with rfl | rfl | rfl <;> cases hi
    · exact ⟨7, conv_ok.toInt_text 7⟩
    · exact ⟨8, conv_ok.toInt_text 8⟩
    · exact ⟨9, conv_ok.toInt_text 9⟩
  solver := by
    intro p
    unfold solver
    rcases p with _ | ⟨i, p⟩
    · intro q; simp [nodeAt]
    · rcases i with _ | _ | _ | _ | i <;> intro q <;> rcases p with _ | ⟨j, p⟩ <;> simp [nodeAt, kids]
      rcases j with _ | j <;> rcases p with _ | ⟨k, p⟩ <;> simp [nodeAt, kids]

theorem cfg_ok : CfgOk Config.default := by constructor <;> decide

end ExJson

/-- The hypotheses of C65 and C66 hold for the example instance, read from json values: its solution is written. -/
example : ∃ d out, tokenPairMain Config.default ExInst.ext ExInst.inst ("B", "S") none = .ok d ∧ d.orders.length = 3 ∧
    tokenPairJson ExJson.conv Config.default ExInst.ext (ExJson.tree []) ("B", "S") none ExJson.solver = .ok out ∧
    FileOk ExJson.conv (ExJson.tree []) (orderObjects (ExJson.tree [])) ExInst.inst d ExJson.solver out.file := by
  obtain ⟨d, h1, _, h3⟩ := ExInst.run
  obtain ⟨out, h4, h5⟩ := (C66_token_pair ExJson.conv_ok ExJson.cfg_ok (ExJson.reads []) ExInst.good (by decide) ExInst.branch_max (by simp)
    ExJson.writable).1 d h1
  refine ⟨d, out, h1, ?_, h4, h5⟩
  have := congrArg List.length h3
  simpa using this

example : ∃ d out, bestTokenPairMain Config.default ExInst.ext ExInst.inst (fun E => E.reverse.map (fun p => (p, false))) = .ok d ∧
    bestTokenPairJson ExJson.conv Config.default ExInst.ext (ExJson.tree []) (fun E => E.reverse.map (fun p => (p, false))) ExJson.solver = .ok out ∧
    FileOk ExJson.conv (ExJson.tree []) (orderObjects (ExJson.tree [])) ExInst.inst d ExJson.solver out.file := by
  obtain ⟨d, h1, _⟩ := ExInst.run_best
  obtain ⟨out, h4, h5⟩ := (C66_best_pair ExJson.conv_ok ExJson.cfg_ok (ExJson.reads []) ExInst.good ExInst.branch_max
    (by intro E v hv; obtain ⟨p, hp, rfl⟩ := List.mem_map.1 hv; exact List.mem_reverse.1 hp) ExJson.writable).1 d h1
  exact ⟨d, out, h1, h4, h5⟩

/-- Whether a run raises the given exception. -/
def raisesB {α : Type} (e : PyErr) : Py α → Bool
  | .ok _ => false
  | .error e' => decide (e' = e)

theorem raises_of {α : Type} {e : PyErr} {x : Py α} (h : raisesB e x = true) : x = .error e := by
  cases x with
  | ok a => cases h
  | error e' =>
    unfold raisesB at h
    rw [of_decide_eq_true h]

/-- C67 (negative), concrete instance: with a json float `0.5` in a key the solver does not use, all three orders are executed as before, but
writing the solution raises `TypeError`. -/
theorem C67_float_witness : InstanceOf ExJson.conv (ExJson.tree [("metadata", .dict [("version", .dec (1 / 2))])]) ExInst.inst ∧
    (∃ d, tokenPairMain Config.default ExInst.ext ExInst.inst ("B", "S") none = .ok d ∧ d.orders.length = 3) ∧
    tokenPairJson ExJson.conv Config.default ExInst.ext (ExJson.tree [("metadata", .dict [("version", .dec (1 / 2))])]) ("B", "S") none ExJson.solver =
      .error .typeError := by
  refine ⟨ExJson.reads _, ?_, raises_of (by decide +kernel)⟩
  obtain ⟨d, h1, _, h3⟩ := ExInst.run
  refine ⟨d, h1, ?_⟩
  have := congrArg List.length h3
  simpa using this

/-- The example instance with a list as the id of the first order. -/
def ExJson.badID : PyVal := .dict [
  ("accounts", .dict [("A", .dict [("S", .str "100000000000000000000"), ("B", .str "100000000000000000000")]),
    ("C", .dict [("F", .str "100000000000000000000"), ("B", .int 100000000000000000000)])]),
  ("orders", .list [.dict [("accountID", .str "A"), ("buyToken", .str "B"), ("sellToken", .str "S"), ("buyAmount", .str "10000000000000000000"),
      ("sellAmount", .str "20000000000000000000"), ("orderID", .list [])],
    ExJson.order "C" "S" "B" "10000000000000000000" "10000000000000000000" 8,
    ExJson.order "C" "B" "F" "1000000000000000000" "2000000000000000000" 9]),
  ("fee", .dict [("token", .str "F"), ("ratio", .dec (1 / 1000))])]

/-- C67 (negative), concrete instance: an order id that is not a number (here a list) makes writing raise `TypeError`. -/
theorem C67_orderID_witness : InstanceOf ExJson.conv ExJson.badID ExInst.inst ∧
    tokenPairJson ExJson.conv Config.default ExInst.ext ExJson.badID ("B", "S") none ExJson.solver = .error .typeError := by
  refine ⟨C65_read.1 ?_, raises_of (by decide +kernel)⟩
  obtain ⟨i, hi, rfl⟩ := exists_of_pyCheck (x := readInstance ExJson.conv ExJson.badID) (p := fun i => i = ExInst.inst) (by decide +kernel)
  exact hi

end Dex
