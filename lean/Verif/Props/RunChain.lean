import Verif.Props.JsonRun
import Verif.Props.FeeShare

/-! # Property C106: running the program again and again on its own output -/

namespace Dex

namespace Spec

/-- What is assumed about `float`: its results are written as json, and a float `≥ 0` that has been written is read back as itself (`pyFloat` of
Model/FloatText.lean meets this, see C109_float_lib). -/
structure FloatLib (f : PyVal → Py PyVal) : Prop where
  entry : ∀ v x, f v = .ok x → EntryOk x
  again : ∀ v q x, pyFraction v = .ok q → 0 ≤ q → f v = .ok x → f (reload readLeaf (stringifyNumeric x)) = .ok x

/-- The text holds the instance, which meets the requirements of the solvers; no balance or amount is `true` or `false` (see C92_bool_witness), and the
fee ratio is one that survives being written as `float`. -/
structure ReadsAs (f : PyVal → Py PyVal) (s : List Char) (t : PyVal) (inst : Instance) : Prop where
  text : JsonText s t
  reads : InstanceOf (pyConv f) t inst
  good : GoodInstance inst
  plain : PlainAmounts t
  fee : FeeReadsBack readLeaf (pyConv f) t

/-- A run of either program, with some configuration, turns the text `s` into the text `s'`. -/
inductive TextRun (f : PyVal → Py PyVal) (P : Config → Prop) (s s' : List Char) : Prop
  | pair (cfg : Config) (ext : Ext) (pair : Token × Token) (xrate : Option ℚ) (solver : PyVal) : P cfg → CfgOk cfg → pair.1 ≠ pair.2 →
      (∀ E, MaxBranching E (ext.branch E)) → (∀ y, xrate = some y → 0 < y) → EntryOk solver →
      tokenPairText (pyConv f) cfg ext s pair xrate solver = .ok s' → TextRun f P s s'
  | best (cfg : Config) (ext : Ext) (shuffle : List (Token × Token) → List ((Token × Token) × Bool)) (solver : PyVal) : P cfg → CfgOk cfg →
      (∀ E, MaxBranching E (ext.branch E)) → (∀ E, ∀ v ∈ shuffle E, v.1 ∈ E) → EntryOk solver →
      bestTokenPairText (pyConv f) cfg ext s shuffle solver = .ok s' → TextRun f P s s'

/-- `n` runs, each on the text the one before has written. -/
inductive TextRuns (f : PyVal → Py PyVal) (P : Config → Prop) : ℕ → List Char → List Char → Prop
  | none (s : List Char) : TextRuns f P 0 s s
  | next {n : ℕ} {s s' s'' : List Char} : TextRuns f P n s s' → TextRun f P s' s'' → TextRuns f P (n + 1) s s''

/-- What later instances keep of an earlier one: the fee, the names of the accounts, some of the orders with their limits, the total of each token but the
fee token, of which nothing is gained. -/
structure Descends (inst inst' : Instance) : Prop where
  fee : inst'.fee = inst.fee
  names : inst'.accounts.map (·.1) = inst.accounts.map (·.1)
  orders : ∃ ks : List ℕ, ks.Nodup ∧ List.Forall₂ (fun k e => inst.orders[k]? = some e) ks inst'.orders
  totals : ∀ t, t ≠ inst.fee.token → totalBalance inst'.accounts t = totalBalance inst.accounts t
  feeTotal : totalBalance inst'.accounts inst.fee.token ≤ totalBalance inst.accounts inst.fee.token

end Spec

open Spec

/-! ### One run -/

theorem forall₂_left_of {α β : Type} {R : α → β → Prop} {l : List α} {l' : List β} (h : List.Forall₂ R l l') : ∀ a ∈ l, ∃ b ∈ l', R a b :=
  forall₂_mem_r h.flip

theorem accL_str {f : PyVal → Py PyVal} {num : String → PyVal} {D : Dict String PyVal} {acc : Accounts} (h : AccL (pyConv f) D acc)
    (hn : NoDecimal (stringifyNumeric (.dict D))) {B : Dict String PyVal} (hB : reload num (stringifyNumeric (.dict D)) = .dict B) :
    ∀ p ∈ B, ∀ d, p.2 = .dict d → ∀ e ∈ d, ∃ s, e.2 = .str s := by
  rw [stringify_dict] at hn hB
  rw [reload_dict, List.map_map] at hB
  cases hB
  rw [noDecimal_dict] at hn
  intro p hp d hd e he
  obtain ⟨⟨k, v⟩, hkv, rfl⟩ := List.mem_map.1 hp
  obtain ⟨⟨k', b⟩, _, _, d0, hv, hd0⟩ := forall₂_left_of h _ hkv
  dsimp only at hv
  subst hv
  have hk := hn _ (List.mem_map.2 ⟨_, hkv, rfl⟩)
  dsimp only [Function.comp] at hk hd
  rw [stringify_dict, noDecimal_dict] at hk
  rw [stringify_dict, reload_dict, List.map_map] at hd
  cases hd
  obtain ⟨⟨k1, x⟩, hx, rfl⟩ := List.mem_map.1 he
  obtain ⟨⟨k2, q⟩, _, _, hr⟩ := forall₂_left_of hd0 _ hx
  dsimp only at hr
  obtain ⟨s, e1, _⟩ := text_of hr.toF hr.bool (hk _ (List.mem_map.2 ⟨_, hx, rfl⟩))
  dsimp only [Function.comp]
  rw [e1, reload_str]
  exact ⟨s, rfl⟩

theorem plain_again {f : PyVal → Py PyVal} {num : String → PyVal} {t : PyVal} {inst : Instance} {d : Dump} {solver file : PyVal}
    (hinst : InstanceOf (pyConv f) t inst) (hf : FileOk (pyConv f) t (orderObjects t) inst d solver file) (hp : PlainAmounts t)
    {D : Dict String PyVal} (hA : field file "accounts" = some (stringifyNumeric (.dict D)))
    (hD : AccL (pyConv f) D d.accounts) : PlainAmounts (reload num file) := by
  constructor
  · intro A h1 p hpA dd hdd e he
    rw [field_reload hA] at h1
    obtain ⟨s, hs⟩ := accL_str hD (noDecimal_field hf.noDecimal hA) (Option.some.inj h1) p hpA dd hdd e he
    rw [hs]
    exact ⟨fun b h => (by cases h), fun q h => (by cases h)⟩
  · obtain ⟨l, ks, hl, _, _, hl3⟩ := hf.orders
    have hl4 : orderObjects (reload num file) = l.map (reload num) := by
      unfold orderObjects
      rw [field_reload hl, reload_list]
    intro raw' hraw k hk b hb
    rw [hl4] at hraw
    obtain ⟨v, hv, rfl⟩ := List.mem_map.1 hraw
    obtain ⟨⟨i, e⟩, _, raw, hr, hw⟩ := forall₂_mem_r hl3 v hv
    have hmem := List.mem_of_getElem? hr
    obtain ⟨o, _, ho⟩ := forall₂_left_of hinst.orders raw hmem
    have hx : ∃ x q, field raw k = some x ∧ (pyConv f).toF x = .ok q := by
      simp only [List.mem_cons, List.not_mem_nil, or_false] at hk
      rcases hk with rfl | rfl
      · obtain ⟨x, h1, h2⟩ := ho.buyAmount; exact ⟨x, _, h1, h2⟩
      · obtain ⟨x, h1, h2⟩ := ho.sellAmount; exact ⟨x, _, h1, h2⟩
    obtain ⟨x, q, hx, hq⟩ := hx
    have hne : k ≠ "execSellAmount" ∧ k ≠ "execBuyAmount" ∧ k ≠ "orderID" := by
      simp only [List.mem_cons, List.not_mem_nil, or_false] at hk
      rcases hk with rfl | rfl <;> decide
    have h3 := hw.rest k hne.1 hne.2.1 hne.2.2
    rw [hx] at h3
    obtain ⟨s, e1, _⟩ := text_of hq (fun b e => hp.amounts raw hmem k hk b (by rw [hx, e]))
      (noDecimal_field (noDecimal_list.1 (noDecimal_field hf.noDecimal hl) v hv) h3)
    rw [Option.map_some, e1] at h3
    rw [field_reload h3, reload_str] at hb
    cases hb

theorem fee_again {f : PyVal → Py PyVal} (hl : FloatLib f) {t : PyVal} {inst : Instance} {d : Dump} {solver file : PyVal}
    (hi : InstanceOf (pyConv f) t inst) (hg : GoodInstance inst) (hf : FileOk (pyConv f) t (orderObjects t) inst d solver file) : FeeReadsBack readLeaf (pyConv f) (reload readLeaf file) := by
  obtain ⟨old, new, r, x, g1, g2, g3, g4, g5, g6⟩ := hf.fee
  intro fee' r' x' q h1 h2 h3 h4
  rw [field_reload g2] at h1
  cases h1
  rw [field_reload g5] at h2
  cases h2
  obtain ⟨fee0, r0, f1, _, f3, f4⟩ := hi.fee
  cases g1.symm.trans f1
  cases g3.symm.trans f3
  have h5 := hl.again r _ x f4 hg.feePos.le g4
  have h6 : f (reload readLeaf (stringifyNumeric x)) = .ok x' := h3
  cases h5.symm.trans h6
  exact h4

theorem names_nodup {f : PyVal → Py PyVal} {t : PyVal} {inst : Instance} (h : InstanceOf (pyConv f) t inst) (he : EntryOk t) :
    (inst.accounts.map (·.1)).Nodup := by
  obtain ⟨A, h1, h2⟩ := h.accounts
  have h3 := (entryOk_dict.1 (entryOk_field he h1)).1
  have : inst.accounts.map (·.1) = A.map (·.1) := by
    clear h1 h3
    generalize inst.accounts = acc at h2
    induction h2 with
    | nil => rfl
    | cons r _ ih => simp only [List.map_cons]; rw [ih, r.1]
  rw [this]
  exact h3

/-- From the dump of one run to the next instance. -/
theorem dump_next {cfg : Config} (hcfg : CfgOk cfg) {inst : Instance} (hi : GoodInstance inst) {pool : List Order} {sol : Solution} (hl : LoadedPool cfg inst pool)
    (hs : SolOk cfg inst.fee pool sol) (hft : bought sol.orders inst.fee.token ≤ sold sol.orders inst.fee.token)
    (hn : (inst.accounts.map (·.1)).Nodup) {d : Dump} (hd : dumpSolution inst sol = .ok d) :
    d.accounts.map (·.1) = inst.accounts.map (·.1) ∧
      ∀ t, totalBalance d.accounts t = totalBalance inst.accounts t + dumpBought d.orders t - dumpSold d.orders t := by
  obtain ⟨d', h1, _, _, hrel, _⟩ := dump_ok hcfg hi hl hs hft
  cases hd.symm.trans h1
  have hacc : updateAccounts inst.accounts sol.orders = .ok d.accounts := by
    unfold dumpSolution at hd
    simp only [bind_eq_ok] at hd
    obtain ⟨acc, g1, m, h2, ds, h3, e⟩ := hd
    cases e
    exact g1
  have hentry : ∀ o ∈ sol.orders, HasEntry inst.accounts o := by
    rcases hs with rfl | hg
    · intro o ho; cases ho
    · intro o ho
      obtain ⟨a, ha, h⟩ := hg.der o ho
      exact HasEntry.same (hl.entry a ha) h
  have hint : ∀ o ∈ sol.orders, IsInt o.buy ∧ IsInt o.sell := by
    rcases hs with rfl | hg
    · intro o ho; cases ho
    · exact fun o ho => ⟨(hg.amounts o ho).1, (hg.amounts o ho).2.2.1⟩
  have hex : ∀ o ∈ sol.orders, 0 ≤ o.sell ∧ 0 ≤ o.buy ∧ (0 < o.buy ↔ 0 < o.sell) := by
    rcases hs with rfl | hg
    · intro o ho; cases ho
    · exact fun o ho => ⟨(hg.amounts o ho).2.2.2, (hg.amounts o ho).2.1, hg.exec o ho⟩
  obtain ⟨r, hr, hk, _⟩ := C36_balances hint hentry
  cases hacc.symm.trans hr
  refine ⟨hk, fun t => ?_⟩
  rw [C37_totals hn hi.ints hint hentry hacc t, ((dump_sums hrel).1 t).1, ((dump_sums hrel).1 t).2, (dumpList_sums hex t).1, (dumpList_sums hex t).2]

/-- What one run does to the instance. -/
structure RunStep (inst : Instance) (d : Dump) : Prop where
  names : d.accounts.map (·.1) = inst.accounts.map (·.1)
  totals : ∀ t, totalBalance d.accounts t = totalBalance inst.accounts t + dumpBought d.orders t - dumpSold d.orders t

theorem text_written {f : PyVal → Py PyVal} (hf : FloatLib f) {s : List Char} {t : PyVal} {inst : Instance} (h : ReadsAs f s t inst) {cfg : Config}
    (hcfg : CfgOk cfg) {pool : List Order} {sol : Solution} (hl : LoadedPool cfg inst pool) (hs : SolOk cfg inst.fee pool sol)
    (hft : bought sol.orders inst.fee.token ≤ sold sol.orders inst.fee.token) {solver : PyVal} {out : JsonOut}
    (hout : dumpTree (pyConv f) t sol inst.fee solver = .ok out) {s' : List Char} (hs' : JsonText s' (reload readLeaf out.file)) :
    ∃ d t', ReadsAs f s' t' (nextInstance inst d) ∧ DumpOk cfg inst d ∧ RunStep inst d := by
  obtain ⟨d, hd, hok, hfile, D, hA, hD⟩ := dump_written hcfg h.reads h.good hl hs hft h.plain hout
  obtain ⟨h1, h2⟩ := dump_next hcfg h.good hl hs hft (names_nodup h.reads (entryOk_text h.text)) hd
  exact ⟨d, _, ⟨hs', file_reread h.reads hfile h.plain h.fee hA hD, next_good h.good hd hok, plain_again h.reads hfile h.plain hA hD, fee_again hf h.reads h.good hfile⟩,
    hok, h1, h2⟩

/-- C106. One run: the text written holds the next instance. -/
theorem C106_run {f : PyVal → Py PyVal} (hf : FloatLib f) {P : Config → Prop} {s s' : List Char} {t : PyVal} {inst : Instance} (h : ReadsAs f s t inst)
    (hr : TextRun f P s s') : ∃ cfg d t', P cfg ∧ CfgOk cfg ∧ ReadsAs f s' t' (nextInstance inst d) ∧ DumpOk cfg inst d ∧ RunStep inst d := by
  have hfl : FloatOk (pyConv f) t := fun fee r x _ _ h => hf.entry r x h
  cases hr with
  | pair cfg ext pair xrate solver hP hcfg hne hbr hx hso hrun =>
    have he := tokenPairText_eq (c := pyConv f) (cfg := cfg) (ext := ext) (pair := pair) (xrate := xrate) (solver := solver) h.text
    obtain ⟨out, hout⟩ := text_ok he hrun
    obtain ⟨s2, h2, h3, _⟩ := (text_run he (fun out ho => tokenPair_entry hcfg (entryOk_text h.text) hso hfl ho)).1 out hout
    cases hrun.symm.trans h2
    unfold tokenPairJson at hout
    rw [C65_read.2 h.reads, ok_bind, bind_eq_ok] at hout
    obtain ⟨⟨accounts, bk, fee'⟩, hload, hout⟩ := hout
    dsimp only at hout
    rw [bind_eq_ok] at hout
    obtain ⟨⟨sol, rest⟩, hsol, hout⟩ := hout
    dsimp only at hout
    obtain ⟨rfl, pool, hl, hs, hft⟩ := tokenPair_parts hcfg h.good hne hbr hx hload hsol
    obtain ⟨d, t', h4⟩ := text_written hf h hcfg hl hs hft hout h3
    exact ⟨cfg, d, t', hP, hcfg, h4⟩
  | best cfg ext shuffle solver hP hcfg hbr hsh hso hrun =>
    have he := bestTokenPairText_eq (c := pyConv f) (cfg := cfg) (ext := ext) (shuffle := shuffle) (solver := solver) h.text
    obtain ⟨out, hout⟩ := text_ok he hrun
    obtain ⟨s2, h2, h3, _⟩ := (text_run he (fun out ho => bestPair_entry hcfg (entryOk_text h.text) hso hfl ho)).1 out hout
    cases hrun.symm.trans h2
    unfold bestTokenPairJson at hout
    rw [C65_read.2 h.reads, ok_bind, bind_eq_ok] at hout
    obtain ⟨⟨accounts, orders, fee'⟩, hload, hout⟩ := hout
    dsimp only at hout
    rw [bind_eq_ok] at hout
    obtain ⟨st, hst, hout⟩ := hout
    obtain ⟨rfl, hl, hs, hft⟩ := bestPair_parts hcfg h.good hbr hload (hsh _) hst
    obtain ⟨d, t', h4⟩ := text_written hf h hcfg hl hs hft hout h3
    exact ⟨cfg, d, t', hP, hcfg, h4⟩

/-! ### Many runs -/

theorem getD_lt {l : List ℕ} {i : ℕ} (h : i < l.length) : l.getD i 0 = l[i] := by simp [List.getD, h]

theorem no_orders {cfg : Config} {inst : Instance} {d : Dump} (h : DumpOk cfg inst d) (h0 : inst.orders = []) : d.orders = [] := by
  obtain ⟨ks, _, hks⟩ := h.orders
  generalize d.orders = es at hks
  cases hks with
  | nil => rfl
  | cons r _ =>
    obtain ⟨d0, hd0, _⟩ := r
    rw [h0] at hd0
    cases hd0

theorem Spec.Descends.refl (inst : Instance) : Descends inst inst := by
  refine ⟨rfl, rfl, ⟨List.range inst.orders.length, List.nodup_range, ?_⟩, fun _ _ => rfl, le_refl _⟩
  rw [List.forall₂_iff_get]
  refine ⟨by simp, fun i h1 h2 => ?_⟩
  simp only [List.get_eq_getElem, List.getElem_range]
  exact List.getElem?_eq_getElem h2

theorem Spec.Descends.trans {a b c : Instance} (h : Descends a b) (h' : Descends b c) : Descends a c := by
  refine ⟨h'.fee.trans h.fee, h'.names.trans h.names, ?_, fun t ht => ?_, ?_⟩
  · obtain ⟨ks, h1, h2⟩ := h.orders
    obtain ⟨js, h3, h4⟩ := h'.orders
    have hlen := h2.length_eq
    have hj : ∀ j ∈ js, j < ks.length := by
      intro j hj
      obtain ⟨e, _, he⟩ := forall₂_left_of h4 j hj
      rw [hlen]
      exact (List.getElem?_eq_some_iff.1 he).1
    refine ⟨js.map (fun j => ks.getD j 0), ?_, ?_⟩
    · refine h3.map_on ?_
      intro x hx y hy e
      rw [getD_lt (hj x hx), getD_lt (hj y hy)] at e
      exact (h1.getElem_inj_iff).1 e
    · rw [List.forall₂_map_left_iff]
      refine (forall₂_and_mem h4).imp ?_
      rintro j e ⟨he, hjm, _⟩
      rw [getD_lt (hj j hjm)]
      obtain ⟨i1, g1⟩ := List.getElem?_eq_some_iff.1 he
      have := h2.get (hj j hjm) i1
      simp only [List.get_eq_getElem] at this
      rw [g1] at this
      exact this
  · rw [h'.totals t (by rw [h.fee]; exact ht), h.totals t ht]
  · have := h'.feeTotal
    rw [h.fee] at this
    exact this.trans h.feeTotal

theorem next_descends {f : PyVal → Py PyVal} {t : PyVal} {cfg : Config} {inst : Instance} {d : Dump} (hin : InstanceOf (pyConv f) t inst) (hok : DumpOk cfg inst d)
    (hr : RunStep inst d) : Descends inst (nextInstance inst d) := by
  refine ⟨rfl, hr.names, ?_, fun t ht => ?_, ?_⟩
  · obtain ⟨ks, h1, h2⟩ := hok.orders
    refine ⟨ks, h1, ?_⟩
    unfold nextInstance
    rw [List.forall₂_map_right_iff]
    refine h2.imp ?_
    rintro k e ⟨d0, h3, h4, _⟩
    rw [h3, h4]
    obtain ⟨raw, _, hraw⟩ := forall₂_mem_r hin.orders d0 (List.mem_of_getElem? h3)
    obtain ⟨x1, x2⟩ := hraw.noExec
    cases d0
    dsimp only at x1 x2 ⊢
    rw [x1, x2]
  · show totalBalance d.accounts t = _
    rw [hr.totals, hok.balanced t ht]
    ring
  · show totalBalance d.accounts _ ≤ _
    rw [hr.totals]
    linarith [hok.feeToken]

/-- C106. However often the programs are run on their own output: every text written holds an instance that the solvers can work with, with the same fee
and accounts, non-negative balances, the same total of every token but the fee token, of which nothing is gained, and orders that are
orders of the first instance with their original limits. -/
theorem C106_chain {f : PyVal → Py PyVal} (hf : FloatLib f) {P : Config → Prop} {n : ℕ} {s s' : List Char} {t : PyVal} {inst : Instance}
    (h : ReadsAs f s t inst) (hr : TextRuns f P n s s') :
    ∃ t' inst', ReadsAs f s' t' inst' ∧ Descends inst inst' := by
  induction hr with
  | none s => exact ⟨t, inst, h, .refl inst⟩
  | next _ hstep ih =>
    obtain ⟨t1, inst1, h1, h2⟩ := ih h
    obtain ⟨cfg, d, t', _, _, h3, h4, h5⟩ := C106_run hf h1 hstep
    exact ⟨t', _, h3, h2.trans (next_descends h1.reads h4 h5)⟩

/-- C106. If one unit is at most the fee on the smallest amount, the trading comes to an end: of all runs in a row, at most as many execute an order as there
are units of the fee token in the accounts of the first instance; after an empty solution nothing is ever executed. -/
theorem C106_ends {f : PyVal → Py PyVal} (hf : FloatLib f) {P : Config → Prop} {n : ℕ} {s s' : List Char} {t : PyVal} {inst : Instance}
    (h : ReadsAs f s t inst) (hP : ∀ cfg, P cfg → 1 ≤ inst.fee.value * cfg.minTradable) (hr : TextRuns f P n s s') :
    ∃ t' inst', ReadsAs f s' t' inst' ∧ Descends inst inst' ∧
      (inst'.orders = [] ∨ (n : ℚ) ≤ totalBalance inst.accounts inst.fee.token - totalBalance inst'.accounts inst.fee.token) := by
  induction hr with
  | none s => exact ⟨t, inst, h, .refl inst, .inr (by simp)⟩
  | next _ hstep ih =>
    obtain ⟨t1, inst1, h1, h2, h6⟩ := ih h
    obtain ⟨cfg, d, t', hc, hcfg, h3, h4, h5⟩ := C106_run hf h1 hstep
    refine ⟨t', _, h3, h2.trans (next_descends h1.reads h4 h5), ?_⟩
    by_cases hd : d.orders = []
    · left
      show d.orders.map _ = []
      rw [hd]
      rfl
    right
    rcases h6 with h6 | h6
    · exact absurd (no_orders h4 h6) hd
    · have h7 := C105_positive hcfg h1.good.feeLt h1.good.feePos (by rw [h2.fee]; exact hP cfg hc) h4 hd
      rw [h4.fees] at h7
      have h8 := h5.totals inst1.fee.token
      rw [h2.fee] at h7 h8
      show _ ≤ _ - totalBalance d.accounts _
      rw [h8]
      push_cast
      linarith

/-- C106. After more runs than there are units of the fee token, the solution is empty. -/
theorem C106_exhausted {f : PyVal → Py PyVal} (hf : FloatLib f) {P : Config → Prop} {n : ℕ} {s s' : List Char} {t : PyVal} {inst : Instance}
    (h : ReadsAs f s t inst) (hP : ∀ cfg, P cfg → 1 ≤ inst.fee.value * cfg.minTradable) (hr : TextRuns f P n s s')
    (hn : totalBalance inst.accounts inst.fee.token < n) : ∃ t' inst', ReadsAs f s' t' inst' ∧ inst'.orders = [] := by
  obtain ⟨t', inst', h1, h2, h3⟩ := C106_ends hf h hP hr
  refine ⟨t', inst', h1, h3.resolve_right ?_⟩
  intro h4
  have : 0 ≤ totalBalance inst'.accounts inst.fee.token := by
    unfold totalBalance
    apply List.sum_nonneg
    intro y hy
    obtain ⟨p, _, rfl⟩ := List.mem_map.1 hy
    exact (balanceOf_int h1.good.balances h1.good.ints _ _).1
  linarith

/-- C106. Runs on an instance without orders leave all balances as they are. -/
theorem C106_idle {f : PyVal → Py PyVal} (hf : FloatLib f) {P : Config → Prop} {n : ℕ} {s s' : List Char} {t : PyVal} {inst : Instance}
    (h : ReadsAs f s t inst) (h0 : inst.orders = []) (hr : TextRuns f P n s s') :
    ∃ t' inst', ReadsAs f s' t' inst' ∧ inst'.orders = [] ∧ ∀ a t, balanceOf inst'.accounts a t = balanceOf inst.accounts a t := by
  induction hr with
  | none s => exact ⟨t, inst, h, h0, fun _ _ => rfl⟩
  | next _ hstep ih =>
    obtain ⟨t1, inst1, h1, h2, h6⟩ := ih h
    obtain ⟨cfg, d, t', hc, hcfg, h3, h4, h5⟩ := C106_run hf h1 hstep
    have hd := no_orders h4 h2
    refine ⟨t', _, h3, ?_, fun a t => ?_⟩
    · show d.orders.map _ = []
      rw [hd]
      rfl
    · show balanceOf d.accounts a t = _
      rw [h4.balances, hd, h6]
      simp [dumpBought, dumpSold]

/-! ### Examples -/

namespace ExChain

/-- `float` for the fee ratio of the example. -/
def float : PyVal → Py PyVal
  | .dec q => if q = 1 / 1000 then .ok (.other "0.001") else .error .valueError
  | _ => .error .typeError

theorem float_ratio : float (.dec (1 / 1000)) = .ok (.other "0.001") := by unfold float; simp

theorem lib : FloatLib float := by
  have key : ∀ v x, float v = .ok x → x = .other "0.001" := by
    intro v x h
    cases v with
    | dec q =>
      unfold float at h
      dsimp only at h
      split at h
      · cases h; rfl
      · cases h
    | _ => cases h
  constructor
  · intro v x h
    rw [key v x h]
    exact entryOk_other (ExText.number_leaf (by decide +kernel) (by decide +kernel))
  · intro v _ x _ _ h
    rw [key v x h]
    have : ExText.sameB (reload readLeaf (stringifyNumeric (.other "0.001"))) (.dec (1 / 1000)) = true := by decide +kernel
    rw [ExText.sameB_eq _ _ this]
    exact float_ratio

theorem reads : ReadsAs float ExText.text (ExJson.tree []) ExInst.inst := by
  refine ⟨ExText.reads, ?_, ExInst.good, ExReread.plain, ?_⟩
  · rw [← C65_read]
    obtain ⟨i, hi, rfl⟩ := exists_of_pyCheck (x := readInstance (pyConv float) (ExJson.tree [])) (p := fun i => i = ExInst.inst) (by decide +kernel)
    exact hi
  · intro fee r x q h1 h2 h3 h4
    cases h1
    cases h2
    have : float (.dec (1 / 1000)) = .ok x := h3
    rw [float_ratio] at this
    cases this
    cases h4
    decide +kernel

/-- Two runs in a row on the text of the example: three orders are executed both times, less of the fee token is left. -/
example : ∃ s' t' inst', TextRuns float (fun cfg => 1 ≤ ExInst.inst.fee.value * cfg.minTradable) 2 ExText.text s' ∧ ReadsAs float s' t' inst' ∧
    inst'.orders = ExInst.inst.orders ∧ totalBalance inst'.accounts "F" < totalBalance ExInst.inst.accounts "F" := by
  have hfl : ∀ t, FloatOk (pyConv float) t := fun t fee r x _ _ h => lib.entry r x h
  have hP : 1 ≤ ExInst.inst.fee.value * Config.default.minTradable := by decide +kernel
  obtain ⟨out, h, hb⟩ := exists_of_pyCheck (x := tokenPairJson (pyConv float) Config.default ExInst.ext (ExJson.tree []) ("B", "S") none ExJson.solver)
    (p := fun out => pyCheck (tokenPairJson (pyConv float) Config.default ExInst.ext (reload readLeaf out.file) ("B", "S") none ExJson.solver)
      (fun out => pyCheck (readInstance (pyConv float) (reload readLeaf out.file)) (fun inst' : Instance => inst'.orders = ExInst.inst.orders ∧
        totalBalance inst'.accounts "F" < totalBalance ExInst.inst.accounts "F") = true) = true) (by decide +kernel)
  obtain ⟨out', h', hb'⟩ := exists_of_pyCheck hb
  obtain ⟨i, h8, h9⟩ := exists_of_pyCheck hb'
  have he := tokenPairText_eq (c := pyConv float) (cfg := Config.default) (ext := ExInst.ext) (pair := ("B", "S")) (xrate := none) (solver := ExJson.solver) reads.text
  obtain ⟨s1, h1, h2, _⟩ := (text_run he (fun out ho => tokenPair_entry ExJson.cfg_ok (entryOk_text reads.text) ExText.solver_ok (hfl _) ho)).1 out h
  have he' := tokenPairText_eq (c := pyConv float) (cfg := Config.default) (ext := ExInst.ext) (pair := ("B", "S")) (xrate := none) (solver := ExJson.solver) h2
  obtain ⟨s2, h3, h4, _⟩ := (text_run he' (fun out ho => tokenPair_entry ExJson.cfg_ok (entryOk_text h2) ExText.solver_ok (hfl _) ho)).1 out' h'
  have hruns : TextRuns float (fun cfg => 1 ≤ ExInst.inst.fee.value * cfg.minTradable) 2 ExText.text s2 :=
    .next (.next (.none _) (.pair Config.default ExInst.ext ("B", "S") none ExJson.solver hP ExJson.cfg_ok (by decide) ExInst.branch_max (by simp) ExText.solver_ok h1))
      (.pair Config.default ExInst.ext ("B", "S") none ExJson.solver hP ExJson.cfg_ok (by decide) ExInst.branch_max (by simp) ExText.solver_ok h3)
  obtain ⟨t', inst', h5, _⟩ := C106_chain lib reads hruns
  have h6 := h5.reads
  rw [C100_unambiguous h5.text h4] at h6
  cases h8.symm.trans (C65_read.2 h6)
  exact ⟨s2, t', _, hruns, h5, h9⟩

end ExChain

/-- C106 (negative). The limits of the orders are not reduced by what has been executed: in two runs, the second on the result of the first, one order of the
example sells more than its sell amount. -/
theorem C106_limit_exceeded : ∃ d d', tokenPairMain Config.default ExInst.ext ExInst.inst ("B", "S") none = .ok d ∧
    tokenPairMain Config.default ExInst.ext (nextInstance ExInst.inst d) ("B", "S") none = .ok d' ∧
    ∃ e ∈ d.orders, ∃ e' ∈ d'.orders, e.accountID = e'.accountID ∧ e.sellToken = e'.sellToken ∧ e.buyToken = e'.buyToken ∧
      e.sellAmount = e'.sellAmount ∧ e.sellAmount < execSell e + execSell e' := by
  obtain ⟨d, h, hb⟩ := exists_of_pyCheck (x := tokenPairMain Config.default ExInst.ext ExInst.inst ("B", "S") none)
    (p := fun d => pyCheck (tokenPairMain Config.default ExInst.ext (nextInstance ExInst.inst d) ("B", "S") none) (fun d' : Dump =>
      ∃ e ∈ d.orders, ∃ e' ∈ d'.orders, e.accountID = e'.accountID ∧ e.sellToken = e'.sellToken ∧ e.buyToken = e'.buyToken ∧
        e.sellAmount = e'.sellAmount ∧ e.sellAmount < execSell e + execSell e') = true) (by decide +kernel)
  obtain ⟨d', h', hb'⟩ := exists_of_pyCheck hb
  exact ⟨d, d', h, h', hb'⟩

end Dex
