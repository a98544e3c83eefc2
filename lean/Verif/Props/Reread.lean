import Verif.Props.Number

/-! # Property C92: the solution file is itself an instance -/

namespace Dex

namespace Spec

/-- What `json.load(file, parse_float=Decimal)` (token_pair_solver/solver.py:501, best_token_pair_solver/solver.py:101) gives for a written value: tuples become lists, and the leaves that are
neither numbers nor text (written with `float.__repr__`, or as `null`) are read by `num`. -/
def reload (num : String → PyVal) (v : PyVal) : PyVal :=
  transform (fun
    | .other s => num s
    | .tuple l => .list l
    | v => v) v

/-- No balance of the instance is a boolean, and none is a `Fraction` (json has none); no amount of an order is a boolean. -/
structure PlainAmounts (t : PyVal) : Prop where
  balances : ∀ A, field t "accounts" = some (.dict A) → ∀ p ∈ A, ∀ d, p.2 = .dict d → ∀ e ∈ d, (∀ b, e.2 ≠ .bool b) ∧ ∀ q, e.2 ≠ .frac q
  amounts : ∀ raw ∈ orderObjects t, ∀ k ∈ ["buyAmount", "sellAmount"], ∀ b, field raw k ≠ some (.bool b)

/-- The fee ratio written as `float` is read back as the same number. -/
def FeeReadsBack (num : String → PyVal) (c : Conv) (t : PyVal) : Prop :=
  ∀ fee r x q, field t "fee" = some fee → field fee "ratio" = some r → c.toFloat r = .ok x → c.toF r = .ok q →
    c.toF (reload num (stringifyNumeric x)) = .ok q

/-- The instance a solution file holds: the executed orders with their original limits, the new balances, the same fee. -/
def nextInstance (inst : Instance) (d : Dump) : Instance :=
  { accounts := d.accounts, orders := d.orders.map (fun e => { e with execBuyAmount := none, execSellAmount := none }), fee := inst.fee }

end Spec

open Spec

theorem reload_dict (num : String → PyVal) (l : List (String × PyVal)) :
    reload num (.dict l) = .dict (l.map (fun p => (p.1, reload num p.2))) := by
  show transform _ _ = _
  unfold transform
  rw [transformDict_eq]; rfl

theorem reload_list (num : String → PyVal) (l : List PyVal) : reload num (.list l) = .list (l.map (reload num)) := by
  show transform _ _ = _
  unfold transform
  rw [transformList_eq]; rfl

theorem reload_str (num : String → PyVal) (s : String) : reload num (.str s) = .str s := by
  show transform _ _ = _
  unfold transform
  rfl

theorem field_reload {num : String → PyVal} {v x : PyVal} {k : String} (h : field v k = some x) : field (reload num v) k = some (reload num x) := by
  obtain ⟨d, rfl⟩ := field_some_dict h
  rw [reload_dict, field_dict, dictGet?_map_snd, ← field_dict, h]
  rfl

/-! ### Balances -/

/-- A balance of the tree and its number. -/
structure BalR (c : Conv) (v : PyVal) (q : ℚ) : Prop where
  toF : c.toF v = .ok q
  toInt : c.toInt v = .ok (pyInt q)
  frac : ∀ q', v = .frac q' → IsInt q'
  bool : ∀ b, v ≠ .bool b

/-- Association lists with the same keys and related values. -/
def KeyR {α β : Type} (R : α → β → Prop) (p : String × α) (q : String × β) : Prop := p.1 = q.1 ∧ R p.2 q.2

theorem keyR_set {α β : Type} {R : α → β → Prop} {d : Dict String α} {e : Dict String β} (h : List.Forall₂ (KeyR R) d e) {v : α} {w : β}
    (hv : R v w) (k : String) : List.Forall₂ (KeyR R) (dictSet d k v) (dictSet e k w) := by
  induction h with
  | nil => exact .cons ⟨rfl, hv⟩ .nil
  | cons r rs ih =>
    rename_i p q d e
    obtain ⟨p1, p2⟩ := p
    obtain ⟨q1, q2⟩ := q
    obtain ⟨rfl, r2⟩ := r
    unfold dictSet
    split
    · exact .cons ⟨rfl, hv⟩ rs
    · exact .cons ⟨rfl, r2⟩ ih

theorem keyR_get {α β : Type} {R : α → β → Prop} {d : Dict String α} {e : Dict String β} (h : List.Forall₂ (KeyR R) d e) {k : String} {x : α} {y : β}
    (hx : dictGet? d k = some x) (hy : dictGet? e k = some y) : R x y := by
  obtain ⟨x', h1, h2⟩ := (forall₂_dict (R := R) h k).2 y hy
  rw [hx] at h1
  cases h1
  exact h2

theorem balR_int {c : Conv} (hc : ConvOk c) (n : ℤ) : BalR c (.int n) n where
  toF := hc.toF_int n
  toInt := by rw [hc.toInt_int]; congr 1; exact (ExJson.trunc_intCast n).symm
  frac q h := by cases h
  bool b h := by cases h

theorem addNum_balR {c : Conv} (hc : ConvOk c) {v v' : PyVal} {q x : ℚ} (h : BalR c v q) (hx : IsInt x) (ha : addNum v x = .ok v') :
    BalR c v' (q + x) := by
  have key : ∀ y : ℚ, IsInt y → BalR c (.frac y) y := fun y hy =>
    ⟨hc.toF_frac y, hc.toInt_frac y, fun q' e => by cases e; exact hy, fun b e => by cases e⟩
  cases v with
  | int n =>
    cases ha
    have : q = n := by have := h.toF; rw [hc.toF_int] at this; cases this; rfl
    subst this
    exact key _ ((isInt_iff.2 ⟨n, rfl⟩ : IsInt (n : ℚ)).add hx)
  | frac y =>
    cases ha
    have : q = y := by have := h.toF; rw [hc.toF_frac] at this; cases this; rfl
    subst this
    exact key _ ((h.frac _ rfl).add hx)
  | _ => cases ha

theorem ensure_balR {c : Conv} (hc : ConvOk c) {d : Dict String PyVal} {e : Dict Token ℚ} (h : List.Forall₂ (KeyR (BalR c)) d e) (t : Token) :
    List.Forall₂ (KeyR (BalR c)) (ensureVal d t) (ensureEntry e t) := by
  obtain ⟨h1, h2⟩ := forall₂_dict (R := BalR c) h t
  unfold ensureVal ensureEntry
  cases he : dictGet? e t with
  | none =>
    rw [h1 he]
    exact keyR_set h (by simpa using balR_int hc 0) t
  | some y =>
    obtain ⟨x, hx, _⟩ := h2 y he
    rw [hx]
    exact h

/-- The accounts of the tree and the accounts as numbers. -/
def AccL (c : Conv) (D : Dict String PyVal) (acc : Accounts) : Prop :=
  List.Forall₂ (KeyR (fun v e => ∃ d, v = .dict d ∧ List.Forall₂ (KeyR (BalR c)) d e)) D acc

theorem updateStep_accL {c : Conv} (hc : ConvOk c) {D : Dict String PyVal} {acc acc' : Accounts} (h : AccL c D acc) {o : Order} (hb : IsInt o.buy)
    (hs : IsInt o.sell) {A' : PyVal} (h1 : updateTreeStep c (.dict D) o = .ok A') (h2 : updateAccountStep acc o = .ok acc') :
    ∃ D', A' = .dict D' ∧ AccL c D' acc' := by
  unfold updateTreeStep at h1
  unfold updateAccountStep at h2
  cases ha : o.accountId with
  | none => rw [ha] at h1; cases h1
  | some a =>
    rw [ha] at h1 h2
    simp only [bind_eq_ok, getItem_eq_ok, asDict_eq_ok, dictGet_eq_ok, setItem_eq_ok, pure_eq_ok, Except.ok.injEq] at h1 h2
    obtain ⟨_, t1, d, rfl, vb, t2, nb, t3, vs, t4, ns, t5, vb', t6, vb2, t7, vs', t8, vs2, t9, D0, e0, rfl⟩ := h1
    cases e0
    obtain ⟨e, n1, wb, n2, ws, n4, wb', n6, ws', n8, rfl⟩ := h2
    refine ⟨_, rfl, keyR_set h ⟨_, rfl, ?_⟩ a⟩
    obtain ⟨_, e1, r0⟩ := keyR_get h t1 n1
    cases e1
    have r1 := ensure_balR hc r0 o.buyToken
    have b1 := keyR_get r1 t2 n2
    have : nb = pyInt wb := by have := b1.toInt; rw [t3] at this; cases this; rfl
    subst this
    have r2 := keyR_set r1 (balR_int hc (pyInt wb)) o.buyToken
    have b2 := keyR_get r2 t4 n4
    have : ns = pyInt ws := by have := b2.toInt; rw [t5] at this; cases this; rfl
    subst this
    have r3 := keyR_set r2 (balR_int hc (pyInt ws)) o.sellToken
    have r4 := keyR_set r3 (addNum_balR hc (keyR_get r3 t6 n6) hb t7) o.buyToken
    have b4 := addNum_balR hc (keyR_get r4 t8 n8) (by simpa [IsInt] using hs) t9
    rw [← sub_eq_add_neg] at b4
    exact keyR_set r4 b4 o.sellToken

theorem update_accL {c : Conv} (hc : ConvOk c) (os : List Order) : ∀ {D : Dict String PyVal} {acc acc' : Accounts}, AccL c D acc →
    (∀ o ∈ os, IsInt o.buy ∧ IsInt o.sell) → ∀ {A' : PyVal}, updateTree c (.dict D) os = .ok A' → updateAccounts acc os = .ok acc' →
    ∃ D', A' = .dict D' ∧ AccL c D' acc' := by
  induction os with
  | nil =>
    intro D acc acc' h _ A' h1 h2
    cases h1
    cases h2
    exact ⟨D, rfl, h⟩
  | cons o os ih =>
    intro D acc acc' h hi A' h1 h2
    unfold updateTree at h1
    unfold updateAccounts at h2
    unfold foldE at h1 h2
    rw [bind_eq_ok] at h1 h2
    obtain ⟨A1, a1, a2⟩ := h1
    obtain ⟨c1, b1, b2⟩ := h2
    obtain ⟨D1, rfl, h3⟩ := updateStep_accL hc h (hi o (by simp)).1 (hi o (by simp)).2 a1 b1
    exact ih h3 (fun o ho => hi o (by simp [ho])) a2 b2

/-- A number or text that the file holds is text, and denotes the same number. -/
theorem text_of {f : PyVal → Py PyVal} {v : PyVal} {q : ℚ} (h : (pyConv f).toF v = .ok q) (hb : ∀ b, v ≠ .bool b) (hd : NoDecimal (stringifyNumeric v)) :
    ∃ s, stringifyNumeric v = .str s ∧ pyFractionText s = .ok q ∧ (∀ n, (pyConv f).toInt v = .ok n → (∀ q', v = .frac q' → IsInt q') →
      ∃ n, pyIntText s = .ok n) := by
  cases v with
  | bool b => exact absurd rfl (hb b)
  | int n => cases h; exact ⟨_, rfl, (C91_int_round_trip n).2, fun m _ _ => ⟨n, (C91_int_round_trip n).1⟩⟩
  | frac y =>
    cases h
    refine ⟨_, rfl, C91_fraction_round_trip _, fun m _ hi => ?_⟩
    obtain ⟨n, e0, e⟩ := pyStrFrac_int (hi _ rfl)
    rw [e]
    exact ⟨n, (C91_int_round_trip n).1⟩
  | dec y => exact absurd rfl (hd [] _)
  | str s => exact ⟨s, rfl, h, fun m hm _ => ⟨m, hm⟩⟩
  | _ => cases h

theorem accL_text {f : PyVal → Py PyVal} {num : String → PyVal} {D : Dict String PyVal} {acc : Accounts} (h : AccL (pyConv f) D acc)
    (hn : NoDecimal (stringifyNumeric (.dict D))) : ∃ B, reload num (stringifyNumeric (.dict D)) = .dict B ∧
      List.Forall₂ (fun p q => p.1 = q.1 ∧ ∃ d, p.2 = .dict d ∧
        List.Forall₂ (fun e r => e.1 = r.1 ∧ (pyConv f).toF e.2 = .ok r.2 ∧ ∃ n, (pyConv f).toInt e.2 = .ok n) d q.2) B acc := by
  rw [stringify_dict] at hn ⊢
  rw [reload_dict, List.map_map]
  refine ⟨_, rfl, ?_⟩
  rw [noDecimal_dict] at hn
  rw [List.forall₂_map_left_iff]
  refine (forall₂_and_mem h).imp ?_
  rintro ⟨k, v⟩ ⟨k', e⟩ ⟨⟨e0, d, rfl, hd⟩, hp, _⟩
  dsimp only at e0
  subst e0
  refine ⟨rfl, ?_⟩
  have hk := hn _ (List.mem_map.2 ⟨_, hp, rfl⟩)
  dsimp only at hk
  rw [stringify_dict, noDecimal_dict] at hk
  dsimp only [Function.comp]
  rw [stringify_dict, reload_dict, List.map_map]
  refine ⟨_, rfl, ?_⟩
  rw [List.forall₂_map_left_iff]
  refine (forall₂_and_mem hd).imp ?_
  rintro ⟨k1, x⟩ ⟨k2, q⟩ ⟨⟨e0, hr⟩, hx, _⟩
  dsimp only at e0 hr
  subst e0
  obtain ⟨s, e1, e2, e3⟩ := text_of hr.toF hr.bool (hk _ (List.mem_map.2 ⟨_, hx, rfl⟩))
  dsimp only [Function.comp]
  rw [e1, reload_str]
  exact ⟨rfl, e2, e3 _ hr.toInt hr.frac⟩

/-! ### Orders and fee -/

theorem order_reread {f : PyVal → Py PyVal} {num : String → PyVal} {raw v : PyVal} {d e : OrderDict} (h : OrderOf (pyConv f) raw d)
    (hw : OrderWritten (pyConv f) raw e v) (hn : NoDecimal v) (hb : ∀ k ∈ ["buyAmount", "sellAmount"], ∀ b, field raw k ≠ some (.bool b)) :
    OrderOf (pyConv f) (reload num v) d := by
  have text : ∀ k s, k ≠ "execSellAmount" → k ≠ "execBuyAmount" → k ≠ "orderID" → field raw k = some (.str s) →
      field (reload num v) k = some (.str s) := by
    intro k s h1 h2 h3 hk
    have := hw.rest k h1 h2 h3
    rw [hk] at this
    rw [field_reload this]
    exact congrArg some (reload_str num s)
  have amount : ∀ k q, k ∈ ["buyAmount", "sellAmount"] → k ≠ "execSellAmount" → k ≠ "execBuyAmount" → k ≠ "orderID" →
      (∃ x, field raw k = some x ∧ (pyConv f).toF x = .ok q) → ∃ x, field (reload num v) k = some x ∧ (pyConv f).toF x = .ok q := by
    rintro k q hk h1 h2 h3 ⟨x, hx, hq⟩
    have := hw.rest k h1 h2 h3
    rw [hx] at this
    obtain ⟨s, e1, e2, _⟩ := text_of hq (fun b e => hb k hk b (by rw [hx, e])) (noDecimal_field hn this)
    rw [Option.map_some, e1] at this
    exact ⟨_, field_reload this, by rw [reload_str]; exact e2⟩
  exact ⟨text _ _ (by decide) (by decide) (by decide) h.accountID, text _ _ (by decide) (by decide) (by decide) h.buyToken,
    text _ _ (by decide) (by decide) (by decide) h.sellToken, amount _ _ (by simp) (by decide) (by decide) (by decide) h.buyAmount,
    amount _ _ (by simp) (by decide) (by decide) (by decide) h.sellAmount, h.noExec⟩

theorem orders_reread {f : PyVal → Py PyVal} {num : String → PyVal} {inst : Instance} {raws : List PyVal}
    (hr : List.Forall₂ (OrderOf (pyConv f)) raws inst.orders) (hb : ∀ raw ∈ raws, ∀ k ∈ ["buyAmount", "sellAmount"], ∀ b, field raw k ≠ some (.bool b))
    {ks : List ℕ} {es : List OrderDict} (h : List.Forall₂ (DumpedFrom inst) ks es) : ∀ {l : List PyVal},
    List.Forall₂ (fun p v => ∃ raw, raws[p.1]? = some raw ∧ OrderWritten (pyConv f) raw p.2 v) (ks.zip es) l → (∀ v ∈ l, NoDecimal v) →
    List.Forall₂ (OrderOf (pyConv f)) (l.map (reload num)) (es.map (fun e => { e with execBuyAmount := none, execSellAmount := none })) := by
  induction h with
  | nil => intro l hl _; cases hl; exact .nil
  | cons r rs ih =>
    rename_i k e ks es
    intro l hl hn
    cases hl with
    | cons w ws =>
      rename_i v l
      refine .cons ?_ (ih ws (fun v hv => hn v (by simp [hv])))
      obtain ⟨raw, h1, h2⟩ := w
      obtain ⟨d, h3, h4, _⟩ := r
      obtain ⟨i1, g1⟩ := List.getElem?_eq_some_iff.1 h1
      obtain ⟨i2, g2⟩ := List.getElem?_eq_some_iff.1 h3
      have ho := hr.get i1 i2
      simp only [List.get_eq_getElem] at ho
      rw [g1, g2] at ho
      have he : ({ e with execBuyAmount := none, execSellAmount := none } : OrderDict) = d := by
        rw [h4]
        obtain ⟨x1, x2⟩ := ho.noExec
        cases d
        dsimp only at x1 x2 ⊢
        rw [x1, x2]
      dsimp only
      rw [he]
      exact order_reread ho h2 (hn v (by simp)) (hb raw (List.mem_of_getElem? h1))

theorem file_reread {f : PyVal → Py PyVal} {num : String → PyVal} {t : PyVal} {inst : Instance} {d : Dump} {solver file : PyVal}
    (hinst : InstanceOf (pyConv f) t inst) (hf : FileOk (pyConv f) t (orderObjects t) inst d solver file) (hp : PlainAmounts t)
    (hfee : FeeReadsBack num (pyConv f) t) {D : Dict String PyVal} (hA : field file "accounts" = some (stringifyNumeric (.dict D)))
    (hD : AccL (pyConv f) D d.accounts) : InstanceOf (pyConv f) (reload num file) (nextInstance inst d) := by
  obtain ⟨B, hB, hB2⟩ := accL_text (num := num) hD (noDecimal_field hf.noDecimal hA)
  obtain ⟨l, ks, hl, _, hl2, hl3⟩ := hf.orders
  have hl4 : field (reload num file) "orders" = some (.list (l.map (reload num))) := by rw [field_reload hl, reload_list]
  refine ⟨⟨B, by rw [field_reload hA, hB], hB2⟩, ⟨_, hl4, by simp⟩, ?_, ?_⟩
  · have : orderObjects (reload num file) = l.map (reload num) := by unfold orderObjects; rw [hl4]
    rw [this]
    exact orders_reread hinst.orders hp.amounts hl2 hl3 (fun v hv => noDecimal_list.1 (noDecimal_field hf.noDecimal hl) v hv)
  · obtain ⟨old, new, r, x, g1, g2, g3, g4, g5, g6⟩ := hf.fee
    obtain ⟨f0, r0, k1, k2, k3, k4⟩ := hinst.fee
    rw [g1] at k1
    cases k1
    rw [g3] at k3
    cases k3
    refine ⟨_, _, field_reload g2, ?_, field_reload g5, hfee _ _ _ _ g1 g3 g4 k4⟩
    have := g6 "token" (by decide)
    rw [k2] at this
    rw [field_reload this]
    exact congrArg some (reload_str num _)

theorem accL_of_instance {c : Conv} (hc : ConvOk c) {t : PyVal} {inst : Instance} (h : InstanceOf c t inst) (hp : PlainAmounts t) :
    ∃ D, field t "accounts" = some (.dict D) ∧ AccL c D inst.accounts := by
  obtain ⟨A, h1, h2⟩ := h.accounts
  refine ⟨A, h1, (forall₂_and_mem h2).imp ?_⟩
  rintro p q ⟨⟨e, d, hd, h3⟩, hm, _⟩
  refine ⟨e, d, hd, (forall₂_and_mem h3).imp ?_⟩
  rintro x y ⟨⟨e', h4, n, h5⟩, hx, _⟩
  have h6 := hp.balances A h1 p hm d hd x hx
  refine ⟨e', h4, ?_, fun q' e => absurd e (h6.2 q'), h6.1⟩
  rw [h5, hc.agree _ _ _ h4 h5]
  rfl

theorem dump_written {f : PyVal → Py PyVal} {cfg : Config} (hcfg : CfgOk cfg) {t : PyVal} {inst : Instance}
    (hinst : InstanceOf (pyConv f) t inst) (hi : GoodInstance inst) {pool : List Order} {sol : Solution} (hl : LoadedPool cfg inst pool)
    (hs : SolOk cfg inst.fee pool sol) (hft : bought sol.orders inst.fee.token ≤ sold sol.orders inst.fee.token) {solver : PyVal} {out : JsonOut}
    (hp : PlainAmounts t) (hout : dumpTree (pyConv f) t sol inst.fee solver = .ok out) :
    ∃ d, dumpSolution inst sol = .ok d ∧ DumpOk cfg inst d ∧ FileOk (pyConv f) t (orderObjects t) inst d solver out.file ∧
      ∃ D, field out.file "accounts" = some (stringifyNumeric (.dict D)) ∧ AccL (pyConv f) D d.accounts := by
  have hc := C91_conv f
  obtain ⟨A, raws, fee, ratio, hr⟩ := readInstance_reads hc (C65_read.2 hinst)
  obtain ⟨d, hd, hok, ⟨t1, ks, ht1, hs1, _⟩, hfile⟩ := dumpTree_spec hc hcfg hr hi hl hs hft solver
  have hf := (hfile out hout).1
  rw [← orderObjects_eq hr.orders] at hf
  obtain ⟨D, hD1, hD2⟩ := accL_of_instance hc hinst hp
  have hAD : A = .dict D := by rw [hr.accounts] at hD1; exact Option.some.inj hD1
  subst hAD
  obtain ⟨T0, A', l0, _, hup, hT⟩ := hs1.shape
  have hA1 : field t1 "accounts" = some A' := by
    rw [hT, field_set, if_neg (by decide), field_set, if_neg (by decide), field_set, if_pos rfl]
  have hints : ∀ o ∈ sol.orders, IsInt o.buy ∧ IsInt o.sell := by
    rcases hs with rfl | hg
    · intro o ho; cases ho
    · exact fun o ho => ⟨(hg.amounts o ho).1, (hg.amounts o ho).2.2.1⟩
  have hacc : updateAccounts inst.accounts sol.orders = .ok d.accounts := by
    unfold dumpSolution at hd
    simp only [bind_eq_ok] at hd
    obtain ⟨acc, h1, m, h2, ds, h3, e⟩ := hd
    cases e
    exact h1
  obtain ⟨D', rfl, hD'⟩ := update_accL hc sol.orders hD2 hints hup hacc
  refine ⟨d, hd, hok, hf, D', ?_, hD'⟩
  unfold dumpTree at hout
  rw [ht1, ok_bind] at hout
  simp only [bind_eq_ok] at hout
  obtain ⟨t2, h2, s, h3, ⟨⟩, h4, e⟩ := hout
  cases e
  have hfee1 : field t1 "fee" = some fee := by rw [hs1.rest _ (by decide) (by decide) (by decide) (by decide)]; exact hr.fee
  obtain ⟨T, F, x, rfl, rfl, hx, rfl⟩ := restoreFee_spec hfee1 hr.ratio h2
  obtain ⟨l, hl1, hl2⟩ := hs1.orders
  have hor : field (.dict (dictSet T "fee" (.dict (dictSet F "ratio" x)))) "orders" = some (.list l) := by
    rw [field_set, if_neg (by decide)]; exact hl1
  obtain ⟨E, l', hE, hl', rfl⟩ := textTree_spec hor h3
  show field (.dict (dictSet (dictSet E "orders" (.list l')) "solver" solver)) "accounts" = _
  rw [field_set, if_neg (by decide), field_set, if_neg (by decide), ← hE, field_stringify, field_set, if_neg (by decide), hA1]
  rfl

theorem dump_reread {f : PyVal → Py PyVal} {num : String → PyVal} {cfg : Config} (hcfg : CfgOk cfg) {t : PyVal} {inst : Instance}
    (hinst : InstanceOf (pyConv f) t inst) (hi : GoodInstance inst) {pool : List Order} {sol : Solution} (hl : LoadedPool cfg inst pool)
    (hs : SolOk cfg inst.fee pool sol) (hft : bought sol.orders inst.fee.token ≤ sold sol.orders inst.fee.token) {solver : PyVal} {out : JsonOut}
    (hp : PlainAmounts t) (hfee : FeeReadsBack num (pyConv f) t) (hout : dumpTree (pyConv f) t sol inst.fee solver = .ok out) :
    ∃ d, dumpSolution inst sol = .ok d ∧ DumpOk cfg inst d ∧ InstanceOf (pyConv f) (reload num out.file) (nextInstance inst d) := by
  obtain ⟨d, hd, hok, hf, D, hA, hD⟩ := dump_written hcfg hinst hi hl hs hft hp hout
  exact ⟨d, hd, hok, file_reread hinst hf hp hfee hA hD⟩

/-! ### The new balances -/

/-- The entries of an association list that lookups do not reach, because an earlier entry has the same key. -/
def shadow {υ : Type} : List String → Dict String υ → Dict String υ
  | _, [] => []
  | seen, p :: l => if p.1 ∈ seen then p :: shadow seen l else shadow (p.1 :: seen) l

theorem shadow_sub {υ : Type} {d : Dict String υ} : ∀ {seen : List String} {p : String × υ}, p ∈ shadow seen d → p ∈ d := by
  induction d with
  | nil => intro _ _ h; cases h
  | cons q d ih =>
    intro seen p h
    unfold shadow at h
    split at h
    · rcases List.mem_cons.1 h with rfl | h
      · simp
      · exact List.mem_cons_of_mem _ (ih h)
    · exact List.mem_cons_of_mem _ (ih h)

theorem shadow_set {υ : Type} {d : Dict String υ} {k : String} {v : υ} : ∀ {seen : List String}, k ∉ seen →
    shadow seen (dictSet d k v) = shadow seen d := by
  induction d with
  | nil => intro seen h; unfold dictSet shadow; rw [if_neg h]; rfl
  | cons q d ih =>
    intro seen h
    obtain ⟨k', v'⟩ := q
    unfold dictSet
    split
    · rename_i e
      subst e
      unfold shadow
      rw [if_neg h, if_neg h]
    · rename_i e
      unfold shadow
      split
      · rw [ih h]
      · exact ih (by simp only [List.mem_cons, not_or]; exact ⟨fun e' => e e'.symm, h⟩)

theorem mem_shadow {υ : Type} {d : Dict String υ} {p : String × υ} : ∀ {seen : List String}, p ∈ d → p.1 ∈ seen → p ∈ shadow seen d := by
  induction d with
  | nil => intro _ h _; cases h
  | cons q d ih =>
    intro seen hp hs
    unfold shadow
    rcases List.mem_cons.1 hp with rfl | hp
    · rw [if_pos hs]; simp
    · split
      · exact List.mem_cons_of_mem _ (ih hp hs)
      · exact ih hp (List.mem_cons_of_mem _ hs)

theorem mem_or_shadow {υ : Type} {d : Dict String υ} {p : String × υ} : ∀ {seen : List String}, p ∈ d → p.1 ∉ seen →
    dictGet? d p.1 = some p.2 ∨ p ∈ shadow seen d := by
  induction d with
  | nil => intro _ h _; cases h
  | cons q d ih =>
    intro seen hp hs
    rw [dictGet?_cons]
    unfold shadow
    rcases List.mem_cons.1 hp with rfl | hp
    · left; rw [if_pos rfl]
    · by_cases e : q.1 = p.1
      · right
        rw [if_neg (by rw [e]; exact hs)]
        exact mem_shadow hp (by rw [e]; simp)
      · rw [if_neg e]
        split
        · rcases ih hp hs with h | h
          · exact .inl h
          · exact .inr (List.mem_cons_of_mem _ h)
        · exact ih hp (by simp only [List.mem_cons, not_or]; exact ⟨fun e' => e e'.symm, hs⟩)

/-- Unreachable entries stay as they are. -/
def SameShadow (acc acc' : Accounts) : Prop :=
  shadow [] acc' = shadow [] acc ∧ ∀ a e', dictGet? acc' a = some e' → ∃ e, dictGet? acc a = some e ∧ shadow [] e' = shadow [] e

theorem updateStep_shadow {acc acc' : Accounts} {o : Order} (h : updateAccountStep acc o = .ok acc') : SameShadow acc acc' := by
  unfold updateAccountStep at h
  cases ha : o.accountId with
  | none => rw [ha] at h; cases h
  | some a =>
    rw [ha] at h
    simp only [bind_eq_ok, dictGet_eq_ok, pure_eq_ok, Except.ok.injEq] at h
    obtain ⟨e, n1, wb, n2, ws, n4, wb', n6, ws', n8, rfl⟩ := h
    refine ⟨shadow_set (by simp), ?_⟩
    intro b e' he'
    rw [dictGet?_dictSet] at he'
    split at he'
    · rename_i hab
      subst hab
      refine ⟨e, n1, ?_⟩
      cases he'
      rw [shadow_set (by simp), shadow_set (by simp), shadow_set (by simp), shadow_set (by simp)]
      unfold ensureEntry
      split
      · rfl
      · exact shadow_set (by simp)
    · exact ⟨e', he', rfl⟩

theorem update_shadow (os : List Order) : ∀ {acc acc' : Accounts}, updateAccounts acc os = .ok acc' → SameShadow acc acc' := by
  induction os with
  | nil => intro acc acc' h; cases h; exact ⟨rfl, fun a e h => ⟨e, h, rfl⟩⟩
  | cons o os ih =>
    intro acc acc' h
    unfold updateAccounts at h
    unfold foldE at h
    rw [bind_eq_ok] at h
    obtain ⟨c1, b1, b2⟩ := h
    obtain ⟨h1, h2⟩ := updateStep_shadow b1
    obtain ⟨h3, h4⟩ := ih b2
    refine ⟨h3.trans h1, fun a e' he' => ?_⟩
    obtain ⟨e1, g1, g2⟩ := h4 a e' he'
    obtain ⟨e, g3, g4⟩ := h2 a e1 g1
    exact ⟨e, g3, g2.trans g4⟩

theorem balances_next {acc acc' : Accounts} (h : SameShadow acc acc') (P : ℚ → Prop) (h0 : ∀ p ∈ acc, ∀ q ∈ p.2, P q.2)
    (h1 : ∀ a t, P (balanceOf acc' a t)) : ∀ p ∈ acc', ∀ q ∈ p.2, P q.2 := by
  intro p hp q hq
  rcases mem_or_shadow (seen := []) hp (by simp) with g | g
  · rcases mem_or_shadow (seen := []) hq (by simp) with g' | g'
    · have := h1 p.1 q.1
      rw [balanceOf_eq g, g'] at this
      exact this
    · obtain ⟨e, g1, g2⟩ := h.2 _ _ g
      rw [g2] at g'
      exact h0 _ (dictGet?_mem g1) q (shadow_sub g')
  · rw [h.1] at g
    exact h0 p (shadow_sub g) q hq

theorem next_good {cfg : Config} {inst : Instance} {d : Dump} {sol : Solution} (hi : GoodInstance inst) (hd : dumpSolution inst sol = .ok d)
    (hok : DumpOk cfg inst d) : GoodInstance (nextInstance inst d) := by
  have hacc : updateAccounts inst.accounts sol.orders = .ok d.accounts := by
    unfold dumpSolution at hd
    simp only [bind_eq_ok] at hd
    obtain ⟨acc, h1, m, h2, ds, h3, e⟩ := hd
    cases e
    exact h1
  have hsh := update_shadow sol.orders hacc
  obtain ⟨ks, _, hks⟩ := hok.orders
  have hfrom : ∀ e ∈ d.orders, ∃ k, DumpedFrom inst k e := fun e he => by
    obtain ⟨k, _, h⟩ := forall₂_mem_r hks e he
    exact ⟨k, h⟩
  have hint : ∀ a t, IsInt (balanceOf d.accounts a t) := by
    intro a t
    rw [hok.balances]
    refine ((balanceOf_int hi.balances hi.ints a t).2.add (isInt_sum ?_)).sub (isInt_sum ?_) <;>
    · intro e he
      obtain ⟨k, d0, _, _, _, _, h1, h2, _⟩ := hfrom e (List.mem_of_mem_filter (List.mem_of_mem_filter he))
      assumption
  refine ⟨balances_next hsh (0 ≤ ·) hi.balances hok.nonneg, balances_next hsh IsInt hi.ints hint, ?_, ?_, ?_, hi.feePos, hi.feeLt⟩ <;>
  · intro e' he'
    obtain ⟨e, he, rfl⟩ := List.mem_map.1 he'
    obtain ⟨k, d0, h1, h2, _⟩ := hfrom e he
    have hm := List.mem_of_getElem? h1
    rw [h2]
    first | exact hi.sell d0 hm | exact hi.buy d0 hm | exact hi.tokens d0 hm

/-- C92. When the program for one pair has written a solution, the solution file is again an instance: it reads as the executed orders with their
original limits, the balances after the trade and the same fee, and it meets the requirements of the solvers. -/
theorem C92_token_pair {toFloat : PyVal → Py PyVal} {num : String → PyVal} {cfg : Config} {ext : Ext} {t : PyVal} {pair : Token × Token}
    {xrate : Option ℚ} {solver : PyVal} {inst : Instance} {out : JsonOut} (hcfg : CfgOk cfg) (hinst : InstanceOf (pyConv toFloat) t inst)
    (hi : GoodInstance inst) (hne : pair.1 ≠ pair.2) (hbr : ∀ E, MaxBranching E (ext.branch E)) (hx : ∀ y, xrate = some y → 0 < y)
    (hp : PlainAmounts t) (hfee : FeeReadsBack num (pyConv toFloat) t) (h : tokenPairJson (pyConv toFloat) cfg ext t pair xrate solver = .ok out) :
    ∃ d, tokenPairMain cfg ext inst pair xrate = .ok d ∧ readInstance (pyConv toFloat) (reload num out.file) = .ok (nextInstance inst d) ∧
      GoodInstance (nextInstance inst d) := by
  unfold tokenPairJson at h
  rw [C65_read.2 hinst, ok_bind, bind_eq_ok] at h
  obtain ⟨⟨accounts, bk, fee'⟩, hload, h⟩ := h
  dsimp only at h
  rw [bind_eq_ok] at h
  obtain ⟨⟨sol, rest⟩, hsol, h⟩ := h
  dsimp only at h
  obtain ⟨rfl, pool, hl, hs, hft⟩ := tokenPair_parts hcfg hi hne hbr hx hload hsol
  obtain ⟨d, hd, hok, hr⟩ := dump_reread hcfg hinst hi hl hs hft hp hfee h
  refine ⟨d, ?_, C65_read.2 hr, next_good hi hd hok⟩
  unfold tokenPairMain
  rw [hload, ok_bind]
  dsimp only
  rw [hsol, ok_bind]
  exact hd

/-- C92. The same for the program that searches all pairs, for every shuffle and time-out. -/
theorem C92_best_pair {toFloat : PyVal → Py PyVal} {num : String → PyVal} {cfg : Config} {ext : Ext} {t : PyVal} {solver : PyVal}
    {shuffle : List (Token × Token) → List ((Token × Token) × Bool)} {inst : Instance} {out : JsonOut} (hcfg : CfgOk cfg)
    (hinst : InstanceOf (pyConv toFloat) t inst) (hi : GoodInstance inst) (hbr : ∀ E, MaxBranching E (ext.branch E))
    (hsh : ∀ E, ∀ v ∈ shuffle E, v.1 ∈ E) (hp : PlainAmounts t) (hfee : FeeReadsBack num (pyConv toFloat) t)
    (h : bestTokenPairJson (pyConv toFloat) cfg ext t shuffle solver = .ok out) :
    ∃ d, bestTokenPairMain cfg ext inst shuffle = .ok d ∧ readInstance (pyConv toFloat) (reload num out.file) = .ok (nextInstance inst d) ∧
      GoodInstance (nextInstance inst d) := by
  unfold bestTokenPairJson at h
  rw [C65_read.2 hinst, ok_bind, bind_eq_ok] at h
  obtain ⟨⟨accounts, orders, fee'⟩, hload, h⟩ := h
  dsimp only at h
  rw [bind_eq_ok] at h
  obtain ⟨st, hst, h⟩ := h
  obtain ⟨rfl, hl, hs, hft⟩ := bestPair_parts hcfg hi hbr hload (hsh _) hst
  obtain ⟨d, hd, hok, hr⟩ := dump_reread hcfg hinst hi hl hs hft hp hfee h
  refine ⟨d, ?_, C65_read.2 hr, next_good hi hd hok⟩
  unfold bestTokenPairMain
  rw [hload, ok_bind]
  dsimp only
  rw [hst, ok_bind]
  exact hd

/-! ### Examples -/

namespace ExReread

/-- `float` and the reading of a float, for the fee ratio of the example. -/
def conv : Conv := pyConv (fun
  | .dec q => .ok (.other (if q = 1 / 1000 then "0.001" else "nan"))
  | v => .ok v)

def num (s : String) : PyVal :=
  match pyFractionText s with
  | .ok q => .dec q
  | .error _ => .other s

theorem plain : PlainAmounts (ExJson.tree []) where
  balances A h p hp d hd e he := by
    cases h
    simp only [List.mem_cons, List.not_mem_nil, or_false] at hp
    rcases hp with rfl | rfl <;> cases hd <;> simp only [List.mem_cons, List.not_mem_nil, or_false] at he <;> rcases he with rfl | rfl <;>
      exact ⟨fun b h => (by cases h), fun q h => (by cases h)⟩
  amounts raw hraw k hk b hb := by
    have h0 : orderObjects (ExJson.tree []) = [ExJson.order "A" "B" "S" "10000000000000000000" "20000000000000000000" 7,
      ExJson.order "C" "S" "B" "10000000000000000000" "10000000000000000000" 8, ExJson.order "C" "B" "F" "1000000000000000000" "2000000000000000000" 9] := rfl
    rw [h0] at hraw
    simp only [List.mem_cons, List.not_mem_nil, or_false] at hraw hk
    rcases hraw with rfl | rfl | rfl <;> rcases hk with rfl | rfl <;> cases hb

theorem fee : FeeReadsBack num conv (ExJson.tree []) := by
  intro fee r x q h1 h2 h3 h4
  cases h1
  cases h2
  cases h3
  cases h4
  decide +kernel

theorem reads : InstanceOf conv (ExJson.tree []) ExInst.inst := by
  rw [← C65_read]
  obtain ⟨i, hi, rfl⟩ := exists_of_pyCheck (x := readInstance conv (ExJson.tree [])) (p := fun i => i = ExInst.inst) (by decide +kernel)
  exact hi

/-- The solution file of the example holds three orders and reads as an instance; the program run on it executes all three again, as their limits do not
record what has been executed. -/
example : ∃ out inst' out', tokenPairJson conv Config.default ExInst.ext (ExJson.tree []) ("B", "S") none ExJson.solver = .ok out ∧
    readInstance conv (reload num out.file) = .ok inst' ∧ GoodInstance inst' ∧ inst'.orders = ExInst.inst.orders ∧ inst'.accounts ≠ ExInst.inst.accounts ∧
    tokenPairJson conv Config.default ExInst.ext (reload num out.file) ("B", "S") none ExJson.solver = .ok out' ∧
    (orderObjects out'.file).length = 3 := by
  obtain ⟨out, h, hb⟩ := exists_of_pyCheck (x := tokenPairJson conv Config.default ExInst.ext (ExJson.tree []) ("B", "S") none ExJson.solver)
    (p := fun out => pyCheck (readInstance conv (reload num out.file)) (fun inst' : Instance => inst'.orders = ExInst.inst.orders ∧ inst'.accounts ≠ ExInst.inst.accounts) = true ∧
      pyCheck (tokenPairJson conv Config.default ExInst.ext (reload num out.file) ("B", "S") none ExJson.solver) (fun out' : JsonOut => (orderObjects out'.file).length = 3) = true) (by decide +kernel)
  obtain ⟨d, _, h2, h3⟩ := C92_token_pair ExJson.cfg_ok reads ExInst.good (by decide) ExInst.branch_max (by simp) plain fee h
  obtain ⟨out', h4, h7⟩ := exists_of_pyCheck hb.2
  obtain ⟨i, h5, h6⟩ := exists_of_pyCheck hb.1
  cases h2.symm.trans h5
  exact ⟨out, _, out', h, h2, h3, h6.1, h6.2, h4, h7⟩

end ExReread

/-- C92 (negative). A boolean as balance or amount is accepted by the loading (`Fraction(True)` is 1) and written as the text `True`, which neither
conversion reads: the solution file is then not an instance. -/
theorem C92_bool_witness (f : PyVal → Py PyVal) : (pyConv f).toF (.bool true) = .ok 1 ∧ stringifyNumeric (.bool true) = .str "True" ∧
    (pyConv f).toF (.str "True") = .error .valueError ∧ (pyConv f).toInt (.str "True") = .error .valueError :=
  ⟨rfl, rfl, by show pyFractionText "True" = _; decide +kernel, by show pyIntText "True" = _; decide +kernel⟩

end Dex
