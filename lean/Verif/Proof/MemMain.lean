import Verif.Proof.MemSolver
import Std.Data.String.ToNat

/-! # Rounding, the economic loop and the programs on mutable objects -/

namespace Dex

variable {X : Prop}

/-- Reading the objects of a list gives what `writeBack` writes. -/
theorem writeBack_refs {h h' : Heap} {l k : List Ref} (hinj : ∀ r ∈ l, ∀ q ∈ k, (h r).id = (h q).id → r = q)
    (hid : ∀ r ∈ k, (h' r).id = (h r).id) (hsame : ∀ r ∈ l, r ∉ k → h' r = h r) :
    writeBack (l.map h) (k.map h') = l.map h' := by
  unfold writeBack
  rw [List.map_map]
  refine List.map_congr_left (fun r hr => ?_)
  show ((k.map h').find? (fun u => u.id = (h r).id)).getD (h r) = h' r
  by_cases hk : r ∈ k
  · cases hf : (k.map h').find? (fun u => u.id = (h r).id) with
    | none =>
      have := List.find?_eq_none.1 hf (h' r) (List.mem_map_of_mem hk)
      rw [hid r hk] at this
      simp at this
    | some u =>
      have h1 := List.find?_some hf
      obtain ⟨q, hq, rfl⟩ := List.mem_map.1 (List.mem_of_find?_eq_some hf)
      have h2 : (h q).id = (h r).id := by rw [← hid q hq]; simpa using h1
      rw [hinj r hr q hq h2.symm]
      rfl
  · have hf : (k.map h').find? (fun u => u.id = (h r).id) = none := by
      rw [List.find?_eq_none]
      intro u hu
      obtain ⟨q, hq, rfl⟩ := List.mem_map.1 hu
      rw [hid q hq]
      simp only [decide_eq_true_eq]
      intro e
      exact hk (hinj r hr q hq e.symm ▸ hq)
    rw [hf]
    exact (hsame r hr hk).symm

/-! ### Rounding -/

theorem setSellFromBuy_fixed {o o' : Order} {prices : Prices} {fee : Fee} (h : o.setSellFromBuy prices fee = .ok o') : o'.fixed = o.fixed := by
  unfold Order.setSellFromBuy at h
  simp only [bind_eq_ok, pure_eq_ok, Except.ok.injEq] at h
  obtain ⟨_, _, rfl⟩ := h
  rfl

theorem roundOrder_fixed {prices : Prices} {fee : Fee} {o o' : Order} (h : roundOrder prices fee o = .ok o') : o'.fixed = o.fixed := by
  unfold roundOrder at h
  have h' := setSellFromBuy_fixed h
  exact h'

private theorem touch_put {m : Mem} {r : Ref} {o : Order} {l : List Ref} (hr : r ∈ l) (hid : o.fixed = (m.heap r).fixed) :
    Touch l m { m with heap := m.heap.put r o } := by
  refine ⟨rfl, fun q hq => m.heap.put_ne o (fun e => hq (e ▸ hr)), fun q => ?_⟩
  show (m.heap.put r o q).fixed = _
  by_cases e : q = r
  · rw [e, Heap.put_same]; exact hid
  · rw [m.heap.put_ne o e]

theorem sim_roundLeafLoop {cfg : Config} {leaf parent : Token} {prices : Prices} {fee : Fee} : ∀ (rs : List Ref) (bal : ℚ) (m : Mem), rs.Nodup →
    Sim X (heapRoundLeafLoop cfg leaf parent prices fee bal rs m) (roundLeafLoop cfg leaf parent prices fee bal (rs.map m.heap))
      (fun _ m' v => v = rs.map m'.heap ∧ Touch rs m m') := by
  intro rs
  induction rs with
  | nil => intro bal m _; exact ⟨rfl, Touch.refl _ _⟩
  | cons r rs ih =>
    intro bal m hn
    rw [List.nodup_cons] at hn
    rw [List.map_cons]
    have e1 : heapRoundLeafLoop cfg leaf parent prices fee bal (r :: rs) = (do
        let o ← HM.reads fun h => .ok (h r)
        if o.buyToken ≠ leaf ∨ o.sellToken ≠ parent ∨ o.buy = 0 then heapRoundLeafLoop cfg leaf parent prices fee bal rs
        else
          let minDelta := (cfg.minTradable : ℚ) - o.buy
          let delta := max minDelta bal
          let newSell ← HM.reads fun _ => (o.withBuy (o.buy + delta)).getSellFromBuy prices fee
          if newSell > o.maxSell then heapRoundLeafLoop cfg leaf parent prices fee bal rs
          else if newSell < cfg.minTradable then heapRoundLeafLoop cfg leaf parent prices fee bal rs
          else
            HM.reads fun _ => pyAssert (o.buy + delta ≥ cfg.minTradable) "round.py:158"
            let bal := bal - delta
            HM.update r (fun o => .ok (o.withBuy (o.buy + delta)))
            HM.update r (fun o => o.setSellFromBuy prices fee)
            if bal = 0 then pure () else heapRoundLeafLoop cfg leaf parent prices fee bal rs) := rfl
    rw [e1]
    refine Sim.readL rfl ?_
    unfold roundLeafLoop
    -- leaving the order as it is
    have skip : Sim X (heapRoundLeafLoop cfg leaf parent prices fee bal rs m) (do
        let os' ← roundLeafLoop cfg leaf parent prices fee bal (rs.map m.heap)
        pure (m.heap r :: os')) (fun _ m' v => v = (r :: rs).map m'.heap ∧ Touch (r :: rs) m m') := by
      have h := ih bal m hn.2
      cases hv : roundLeafLoop cfg leaf parent prices fee bal (rs.map m.heap) with
      | error e => rw [hv] at h; exact h.bindR_error
      | ok vs =>
        rw [hv] at h
        obtain ⟨u, m', e, rfl, hT⟩ := h.exists_ok
        rw [e]
        refine ⟨?_, hT.mono (fun _ h => List.mem_cons_of_mem _ h)⟩
        rw [List.map_cons, hT.same r hn.1]
    split
    · exact skip
    · dsimp only
      generalize hdel : max ((cfg.minTradable : ℚ) - (m.heap r).buy) bal = delta
      refine Sim.read rfl (fun ns _ => ?_)
      split
      · exact skip
      · split
        · exact skip
        · refine Sim.read rfl (fun _ _ => ?_)
          have e2 : ∀ k : HM Unit, (HM.update r (fun o => .ok (o.withBuy (o.buy + delta))) >>= fun _ =>
              HM.update r (fun o => o.setSellFromBuy prices fee) >>= fun _ => k) =
              (HM.update r (fun o => (o.withBuy (o.buy + delta)).setSellFromBuy prices fee) >>= fun _ => k) := by
            intro k
            have := update_update r (fun o => .ok (o.withBuy (o.buy + delta))) (fun o => o.setSellFromBuy prices fee)
            have e3 : (fun o : Order => (.ok (o.withBuy (o.buy + delta)) : Py Order) >>= fun o => o.setSellFromBuy prices fee) =
              fun o => (o.withBuy (o.buy + delta)).setSellFromBuy prices fee := rfl
            rw [e3] at this
            rw [← this]
            funext m
            rw [HM.bind_apply, HM.bind_apply, HM.bind_apply]
            cases HM.update r (fun o => .ok (o.withBuy (o.buy + delta))) m with
            | error e => rfl
            | ok q => rfl
          rw [e2]
          refine Sim.bind sim_update ?_
          rintro _ _ o rfl _ ho
          have hid : o.fixed = (m.heap r).fixed := by
            have h := setSellFromBuy_fixed ho
            exact h
          have hput : rs.map (m.heap.put r o) = rs.map m.heap := map_put_of_not_mem hn.1
          split
          · refine ⟨?_, touch_put (List.mem_cons_self ..) hid⟩
            show _ = (r :: rs).map (m.heap.put r o)
            rw [List.map_cons, Heap.put_same, hput]
          · have h := ih (bal - delta) { m with heap := m.heap.put r o } hn.2
            dsimp only at h
            rw [hput] at h
            cases hv : roundLeafLoop cfg leaf parent prices fee (bal - delta) (rs.map m.heap) with
            | error e => rw [hv] at h; exact h.bindR_error
            | ok vs =>
              rw [hv] at h
              obtain ⟨u, m', e, rfl, hT⟩ := h.exists_ok
              rw [e]
              refine ⟨?_, (touch_put (List.mem_cons_self ..) hid).trans (hT.mono (fun _ h => List.mem_cons_of_mem _ h))⟩
              rw [List.map_cons, hT.same r hn.1]
              show _ = m.heap.put r o r :: _
              rw [Heap.put_same]

theorem pySortByRev_map {α β : Type} (f : α → β) (key : β → ℚ) (l : List α) :
    pySortByRev key (l.map f) = (pySortByRev (fun a => key (f a)) l).map f := by
  unfold pySortByRev
  symm
  exact List.map_insertionSort _ _ _ _ (fun a _ b _ => Iff.rfl)

theorem sim_roundLeafToken {cfg : Config} {leaf parent : Token} {orders : List Ref} {bal : ℚ} {prices : Prices} {fee : Fee} {m : Mem}
    (hn : orders.Nodup) (hi : IdInj m.heap orders) :
    Sim X (heapRoundLeafToken cfg leaf parent orders bal prices fee m) (roundLeafToken cfg leaf parent (orders.map m.heap) bal prices fee)
      (fun _ m' v => v = orders.map m'.heap ∧ Touch orders m m') := by
  unfold heapRoundLeafToken roundLeafToken
  refine Sim.readL rfl ?_
  rw [pySortByRev_map]
  have pm := pySortByRev_perm (key := fun r : Ref => (m.heap r).buy) orders
  have h := sim_roundLeafLoop (X := X) (cfg := cfg) (leaf := leaf) (parent := parent) (prices := prices) (fee := fee)
    (pySortByRev (fun r => (m.heap r).buy) orders) bal m (pm.nodup_iff.2 hn)
  generalize pySortByRev (fun r => (m.heap r).buy) orders = sorted at *
  cases hv : roundLeafLoop cfg leaf parent prices fee bal (sorted.map m.heap) with
  | error e => rw [hv] at h; exact h.bindR_error
  | ok vs =>
    rw [hv] at h
    obtain ⟨u, m', e, rfl, hT⟩ := h.exists_ok
    rw [e]
    refine ⟨?_, hT.mono (fun r h => pm.mem_iff.1 h)⟩
    exact writeBack_refs (fun r hr q hq e => hi r hr q (pm.mem_iff.1 hq) e) (fun r _ => hT.id r) (fun r _ h => hT.same r h)

theorem sim_roundLoop {cfg : Config} {prices : Prices} {fee : Fee} {orders : List Ref} (hn : orders.Nodup) :
    ∀ (fuel : ℕ) (tree : Dict Token Token) (bals : Dict Token ℚ) (m : Mem), IdInj m.heap orders →
    Sim X (heapRoundLoop cfg prices fee orders fuel tree bals m) (roundLoop cfg prices fee fuel tree bals (orders.map m.heap))
      (fun a m' v => v = (a, orders.map m'.heap) ∧ Touch orders m m') := by
  intro fuel
  induction fuel with
  | zero => intro tree bals m _; exact Sim.raise
  | succ n ih =>
    intro tree bals m hi
    unfold heapRoundLoop roundLoop
    split
    · exact Sim.pure ⟨rfl, Touch.refl _ _⟩
    · dsimp only
      refine Sim.read rfl (fun leaf _ => ?_)
      refine Sim.read rfl (fun parent _ => ?_)
      refine Sim.read rfl (fun bal _ => ?_)
      have h1 : Sim X (heapRoundLeafIfNeeded cfg leaf parent orders bal prices fee m)
          (roundLeafIfNeeded cfg leaf parent (orders.map m.heap) bal prices fee) (fun _ m' v => v = orders.map m'.heap ∧ Touch orders m m') := by
        unfold heapRoundLeafIfNeeded roundLeafIfNeeded
        split
        · exact sim_roundLeafToken hn hi
        · exact Sim.pure ⟨rfl, Touch.refl _ _⟩
      refine Sim.bind h1 ?_
      rintro _ m1 _ ⟨rfl, hT⟩ _ _
      refine Sim.read rfl (fun bals _ => ?_)
      refine Sim.read rfl (fun bal _ => ?_)
      split
      · exact Sim.pure ⟨rfl, hT⟩
      · refine (ih _ _ m1 (hi.touch hT)).mono ?_
        rintro a m' v ⟨e, hT'⟩
        exact ⟨e, hT.trans hT'⟩

theorem sim_roundSolution {cfg : Config} {branch : List (Token × Token) → List (Token × Token)} {prices : Prices} {orders : List Ref} {fee : Fee}
    {m : Mem} (hn : orders.Nodup) (hi : IdInj m.heap orders) :
    Sim X (heapRoundSolution cfg branch prices orders fee m) (roundSolution cfg branch prices (orders.map m.heap) fee)
      (fun a m' v => v = (a, orders.map m'.heap) ∧ Touch orders m m') := by
  unfold heapRoundSolution roundSolution
  have e2 : (fun r : Ref => (do
      HM.update r (fun o => .ok (o.withBuy (⌊o.buy⌋ : ℚ)))
      HM.update r (fun o => o.setSellFromBuy prices fee) : HM Unit)) = fun r => HM.update r (roundOrder prices fee) := by
    funext r
    exact update_update r _ _
  rw [e2]
  have h := sim_forM_update (X := X) (ref := fun r : Ref => r) (g := fun _ => roundOrder prices fee)
    (fun _ o _ h => roundOrder_fixed h) orders m (by rw [List.map_id']; exact hn)
  rw [List.map_id', ← mapE_map (roundOrder prices fee) m.heap] at h
  refine Sim.bind h ?_
  rintro _ m1 _ ⟨rfl, hT⟩ _ _
  refine Sim.read rfl (fun bals _ => ?_)
  refine Sim.readL rfl ?_
  refine (sim_roundLoop hn _ _ _ m1 (hi.touch hT)).mono ?_
  rintro a m' v ⟨e, hT'⟩
  exact ⟨e, hT.trans hT'⟩

/-! ### `solve_token_pair_and_fee_token` -/

theorem sim_aggregateAndRound {cfg : Config} {ext : HeapExt} {pair : Token × Token} {bk : RefBooks} {x p : ℚ} {fee : Fee} {m : Mem}
    (hn : bk.all.Nodup) (hi : IdInj m.heap bk.all) :
    Sim X (heapAggregateAndRound cfg ext pair bk x p fee m) (aggregateAndRound cfg ext.toExt pair (bk.read m.heap) x p fee)
      (fun a m' v => v = (a.read m'.heap, bk.all.map m'.heap) ∧ (∀ r ∈ a.orders, r ∈ bk.all) ∧ Touch bk.all m m') := by
  unfold heapAggregateAndRound aggregateAndRound
  refine Sim.read rfl ?_
  rintro ⟨os, prices⟩ hos
  have eos : os = bk.all.map m.heap := by
    unfold aggregateOrdersPrices at hos
    simp only [bind_eq_ok, pure_eq_ok, Except.ok.injEq, Prod.mk.injEq] at hos
    obtain ⟨_, _, rfl, _⟩ := hos
    unfold RefBooks.all
    rw [List.map_append, List.map_append]
  subst eos
  dsimp only
  refine Sim.bind (sim_roundSolution hn hi) ?_
  rintro a m1 _ ⟨rfl, hT⟩ _ _
  cases a with
  | true => exact Sim.pure ⟨rfl, fun _ h => h, hT⟩
  | false => exact Sim.pure ⟨rfl, by simp [RefSolution.trivial], hT⟩

theorem RefBooks.mem_b {bk : RefBooks} {r : Ref} (h : r ∈ bk.b) : r ∈ bk.all := List.mem_append_left _ (List.mem_append_left _ h)
theorem RefBooks.mem_s {bk : RefBooks} {r : Ref} (h : r ∈ bk.s) : r ∈ bk.all := List.mem_append_left _ (List.mem_append_right _ h)
theorem RefBooks.mem_f {bk : RefBooks} {r : Ref} (h : r ∈ bk.f) : r ∈ bk.all := List.mem_append_right _ h

/-- What the result of a matching function must be. -/
def MatchRel (bk : RefBooks) (m : Mem) (a : RefSolution) (m' : Mem) (v : MatchResult) : Prop :=
  v = { sol := a.read m'.heap, books := bk.read m'.heap } ∧ Keeps bk.all m m' ∧ ∀ r ∈ a.orders, r < m'.next

theorem sim_solveOriented {cfg : Config} {ext : HeapExt} {pair : Token × Token} {bk : RefBooks} {fee : Fee} {x : Option ℚ} {m : Mem}
    (w : Live m bk.all) (hr : Rates X fee m.heap bk.all) :
    Sim X (heapSolveOriented cfg ext pair bk fee x m)
      (solveOriented cfg ext.toExt pair (bk.b.map m.heap) (bk.s.map m.heap) (bk.f.map m.heap) fee x) (MatchRel bk m) := by
  unfold heapSolveOriented solveOriented
  obtain ⟨n1, n2, dj⟩ := RefBooks.disj w.nodup
  refine Sim.bind (sim_solveTokenPair w.bs.books2 (fun _ => hr.sub (fun _ h => List.mem_append_left _ h))) ?_
  rintro y m1 _ ⟨rfl, hs1⟩ _ _
  have hk1 : Keeps bk.all m m1 := hs1.touch.keeps.mono (fun r _ h => List.mem_append_left _ h)
  have ef : bk.f.map m.heap = bk.f.map m1.heap := (hs1.touch.map (fun r hr h => dj r h hr)).symm
  have w1 := w.keeps hk1
  refine Sim.readL rfl ?_
  dsimp only
  rw [ef]
  have triv : MatchRel bk m .trivial m1 { sol := .trivial, books := { b := bk.b.map m1.heap, s := bk.s.map m1.heap, f := bk.f.map m1.heap } } :=
    ⟨rfl, hk1, by simp [RefSolution.trivial]⟩
  split
  · exact Sim.pure triv
  · cases y with
    | none => exact Sim.raise
    | some y =>
      dsimp only
      split
      · have hall : ∀ r ∈ (RefBooks.mk bk.b bk.s []).all, r ∈ bk.b ++ bk.s := fun r hr => by
          unfold RefBooks.all at hr
          rwa [List.append_nil] at hr
        have hsub : ∀ r ∈ (RefBooks.mk bk.b bk.s []).all, r ∈ bk.all := fun r hr => List.mem_append_left _ (hall r hr)
        have hi : IdInj m1.heap (RefBooks.mk bk.b bk.s []).all := w1.ids.mono hsub
        refine Sim.bindR (sim_aggregateAndRound (bk := { bk with f := [] }) (by unfold RefBooks.all; rwa [List.append_nil]) hi) ?_
        rintro a m2 _ ⟨rfl, ho, hT⟩
        have eb : writeBack (bk.b.map m1.heap) ((RefBooks.mk bk.b bk.s []).all.map m2.heap) = bk.b.map m2.heap :=
          writeBack_refs (fun r hr q hq e => w1.ids r (RefBooks.mem_b hr) q (hsub q hq) e) (fun r _ => hT.id r) (fun r _ h => hT.same r h)
        have es : writeBack (bk.s.map m1.heap) ((RefBooks.mk bk.b bk.s []).all.map m2.heap) = bk.s.map m2.heap :=
          writeBack_refs (fun r hr q hq e => w1.ids r (RefBooks.mem_s hr) q (hsub q hq) e) (fun r _ => hT.id r) (fun r _ h => hT.same r h)
        have ef2 : bk.f.map m1.heap = bk.f.map m2.heap := (hT.map (fun r hr h => dj r (hall r h) hr)).symm
        dsimp only
        rw [eb, es, ef2]
        refine Sim.pure (a := a) ⟨rfl, hk1.trans (hT.keeps.mono (fun r _ h => hsub r h)), fun r hr => ?_⟩
        rw [hT.next]
        exact w1.live r (hsub r (ho r hr))
      · rw [List.length_map]
        split
        · exact Sim.pure triv
        · refine Sim.read rfl (fun imb _ => ?_)
          refine Sim.read rfl ?_
          rintro ⟨mn, mx⟩ _
          dsimp only
          split
          · exact Sim.pure triv
          · refine Sim.readL rfl ?_
            have pm := heapSorted_perm m1.heap bk.f
            have esort := heapSorted_map m1.heap bk.f
            rw [← esort]
            generalize heapSorted m1.heap bk.f = fs at *
            have hmem : ∀ r, r ∈ (RefBooks.mk bk.b bk.s fs).all ↔ r ∈ bk.all := fun r => by
              unfold RefBooks.all
              simp only [List.mem_append, pm.mem_iff]
            have w1' : Live m1 (RefBooks.mk bk.b bk.s fs).all := w1.sub (by
              have : ((RefBooks.mk bk.b bk.s fs).all).Perm bk.all := List.Perm.append_left _ pm
              exact this.nodup_iff.2 w1.nodup) (fun r hr => (hmem r).1 hr)
            have hloop := sim_fLoop (X := X) (N := m1.next) (cfg := cfg) (ext := ext) (imb := imb) (pair := pair) (bk := { bk with f := fs }) (x := y) (fee := fee)
              ((List.range (mx + 1 - mn).toNat).map (· + mn.toNat)) none none m1 w1' ((hk1.rates hr w.live).sub (fun r h => RefBooks.mem_f (pm.mem_iff.1 h))) w1'.live (le_refl _) trivial
            refine Sim.bind hloop ?_
            rintro best m2 st ⟨hbk, hb, hk2⟩ _ _
            have hk12 : Keeps bk.all m m2 := hk1.trans (hk2.mono (fun r _ h => (hmem r).1 h))
            have ewf : writeBack (bk.f.map m1.heap) st.books.f = bk.f.map m2.heap := by
              rw [hbk]
              refine writeBack_refs (h := m1.heap) (k := fs) (fun r hr q hq e => w1.ids r (RefBooks.mem_f hr) q (RefBooks.mem_f (pm.mem_iff.1 hq)) e)
                (fun r hr => hk2.id r (w1.live r (RefBooks.mem_f (pm.mem_iff.1 hr)))) (fun r hr h => absurd (pm.mem_iff.2 hr) h)
            have ebk : ({ st.books with f := writeBack (bk.f.map m1.heap) st.books.f } : Books) = bk.read m2.heap := by
              rw [ewf, hbk]; rfl
            have eb' : st.books.b = bk.b.map m2.heap := by rw [hbk]; rfl
            have es' : st.books.s = bk.s.map m2.heap := by rw [hbk]; rfl
            cases best with
            | none =>
              cases hv : st.best with
              | some v => rw [hv] at hb; exact hb.elim
              | none =>
                dsimp only
                rw [ewf, eb', es']
                exact Sim.pure ⟨rfl, hk12, by simp [RefSolution.trivial]⟩
            | some bst =>
              cases hv : st.best with
              | none => rw [hv] at hb; exact hb.elim
              | some v =>
                rw [hv] at hb
                obtain ⟨rfl, wb, hlow⟩ := hb
                dsimp only
                refine Sim.bindR (sim_aggregateAndRound wb.nodup wb.ids) ?_
                rintro a m3 _ ⟨rfl, ho, hT⟩
                dsimp only
                have e3 : ∀ k : List Ref, (∀ r ∈ k, r ∈ bk.all) → k.map m2.heap = k.map m3.heap := fun k hk =>
                  (hT.map (fun r hr h => absurd (w1.live r (hk r hr)) (not_lt.2 (hlow r h)))).symm
                rw [ewf, eb', es', e3 _ (fun _ => RefBooks.mem_b), e3 _ (fun _ => RefBooks.mem_s), e3 _ (fun _ => RefBooks.mem_f)]
                refine Sim.pure (a := a) ⟨rfl, ⟨le_trans hk12.next hT.next.ge, fun r hr h => ?_, fun r hr => (hT.fix r).trans (hk12.fix r hr)⟩,
                  fun r hr => ?_⟩
                · rw [hT.same r (fun hb => absurd (lt_of_lt_of_le hr hk1.next) (not_lt.2 (hlow r hb)))]
                  exact hk12.same r hr h
                · rw [hT.next]; exact wb.live r (ho r hr)

theorem writeBack_sub {m m' : Mem} {l k L : List Ref} (w : Live m l) (hk : ∀ r ∈ k, r ∈ l) (f : Keeps L m m') (hd : ∀ r ∈ l, r ∉ k → r ∉ L) :
    writeBack (l.map m.heap) (k.map m'.heap) = l.map m'.heap :=
  writeBack_refs (fun r hr q hq e => w.ids r hr q (hk q hq) e) (fun r hr => f.id r (w.live r (hk r hr)))
    (fun r hr h => f.same r (w.live r hr) (hd r hr h))

theorem Live.b {m : Mem} {bk : RefBooks} (w : Live m bk.all) : Live m bk.b :=
  w.sub (List.nodup_append.1 (RefBooks.disj w.nodup).1).1 (fun _ => RefBooks.mem_b)

theorem Live.s {m : Mem} {bk : RefBooks} (w : Live m bk.all) : Live m bk.s :=
  w.sub (List.nodup_append.1 (RefBooks.disj w.nodup).1).2.1 (fun _ => RefBooks.mem_s)

theorem sim_solveTokenPairAndFee {cfg : Config} {ext : HeapExt} {pair : Token × Token} {bk : RefBooks} {fee : Fee} {x : Option ℚ} {m : Mem}
    (w : Live m bk.all) (hr : Rates X fee m.heap bk.all) :
    Sim X (heapSolveTokenPairAndFee cfg ext pair bk fee x m)
      (solveTokenPairAndFee cfg ext.toExt pair (bk.b.map m.heap) (bk.s.map m.heap) (bk.f.map m.heap) fee x) (MatchRel bk m) := by
  unfold heapSolveTokenPairAndFee solveTokenPairAndFee
  refine Sim.readMap (g := fun r => (r.1.map m.heap, r.2.map m.heap)) (heapPrune_map bk.b bk.s fee m.heap) ?_
  rintro ⟨b', s'⟩ hp
  obtain ⟨sb, ss⟩ := heapPrune_sublist hp
  obtain ⟨n1, n2, dj⟩ := RefBooks.disj w.nodup
  obtain ⟨nb, ns, dbs⟩ := List.nodup_append.1 n1
  dsimp only at sb ss ⊢
  rw [List.length_map, List.length_map]
  split
  · exact Sim.pure ⟨rfl, Keeps.refl _ _, by simp [RefSolution.trivial]⟩
  · split
    · have hsub : ∀ r ∈ (RefBooks.mk s' b' bk.f).all, r ∈ bk.all := by
        intro r hr
        unfold RefBooks.all at hr ⊢
        simp only [List.mem_append] at hr ⊢
        rcases hr with (hr | hr) | hr
        · exact Or.inl (Or.inr (ss.subset hr))
        · exact Or.inl (Or.inl (sb.subset hr))
        · exact Or.inr hr
      have hnod : (RefBooks.mk s' b' bk.f).all.Nodup := by
        refine List.nodup_append.2 ⟨List.nodup_append.2 ⟨ns.sublist ss, nb.sublist sb, ?_⟩, n2, ?_⟩
        · intro r hr q hq e
          exact dbs q (sb.subset hq) r (ss.subset hr) e.symm
        · intro r hr q hq e
          have : r ∈ bk.b ++ bk.s := by
            rcases List.mem_append.1 hr with h | h
            · exact List.mem_append_right _ (ss.subset h)
            · exact List.mem_append_left _ (sb.subset h)
          exact dj r this (e ▸ hq)
      refine Sim.bindR (sim_solveOriented (bk := { b := s', s := b', f := bk.f }) (w.sub hnod hsub) (hr.sub hsub)) ?_
      rintro a m1 _ ⟨rfl, hk, hl⟩
      have e1 : writeBack (bk.b.map m.heap) (b'.map m1.heap) = bk.b.map m1.heap := by
        refine writeBack_sub w.b (fun r hr => sb.subset hr) hk (fun r hr h => ?_)
        unfold RefBooks.all
        simp only [List.mem_append, not_or]
        exact ⟨⟨fun h' => dbs r hr r (ss.subset h') rfl, h⟩, dj r (List.mem_append_left _ hr)⟩
      have e2 : writeBack (bk.s.map m.heap) (s'.map m1.heap) = bk.s.map m1.heap := by
        refine writeBack_sub w.s (fun r hr => ss.subset hr) hk (fun r hr h => ?_)
        unfold RefBooks.all
        simp only [List.mem_append, not_or]
        exact ⟨⟨h, fun h' => dbs r (sb.subset h') r hr rfl⟩, dj r (List.mem_append_right _ hr)⟩
      unfold RefBooks.read
      dsimp only
      rw [e1, e2]
      exact Sim.pure (a := a) ⟨rfl, hk.mono (fun r _ h => hsub r h), hl⟩
    · have hsub : ∀ r ∈ (RefBooks.mk b' s' bk.f).all, r ∈ bk.all := by
        intro r hr
        unfold RefBooks.all at hr ⊢
        simp only [List.mem_append] at hr ⊢
        rcases hr with (hr | hr) | hr
        · exact Or.inl (Or.inl (sb.subset hr))
        · exact Or.inl (Or.inr (ss.subset hr))
        · exact Or.inr hr
      have hnod : (RefBooks.mk b' s' bk.f).all.Nodup := by
        refine List.nodup_append.2 ⟨List.nodup_append.2 ⟨nb.sublist sb, ns.sublist ss, ?_⟩, n2, ?_⟩
        · intro r hr q hq e
          exact dbs r (sb.subset hr) q (ss.subset hq) e
        · intro r hr q hq e
          have : r ∈ bk.b ++ bk.s := by
            rcases List.mem_append.1 hr with h | h
            · exact List.mem_append_left _ (sb.subset h)
            · exact List.mem_append_right _ (ss.subset h)
          exact dj r this (e ▸ hq)
      refine Sim.bindR (sim_solveOriented (bk := { b := b', s := s', f := bk.f }) (w.sub hnod hsub) (hr.sub hsub)) ?_
      rintro a m1 _ ⟨rfl, hk, hl⟩
      have e1 : writeBack (bk.b.map m.heap) (b'.map m1.heap) = bk.b.map m1.heap := by
        refine writeBack_sub w.b (fun r hr => sb.subset hr) hk (fun r hr h => ?_)
        unfold RefBooks.all
        simp only [List.mem_append, not_or]
        exact ⟨⟨h, fun h' => dbs r hr r (ss.subset h') rfl⟩, dj r (List.mem_append_left _ hr)⟩
      have e2 : writeBack (bk.s.map m.heap) (s'.map m1.heap) = bk.s.map m1.heap := by
        refine writeBack_sub w.s (fun r hr => ss.subset hr) hk (fun r hr h => ?_)
        unfold RefBooks.all
        simp only [List.mem_append, not_or]
        exact ⟨⟨fun h' => dbs r (sb.subset h') r hr rfl, h⟩, dj r (List.mem_append_right _ hr)⟩
      unfold RefBooks.read
      dsimp only
      rw [e1, e2]
      exact Sim.pure (a := a) ⟨rfl, hk.mono (fun r _ h => hsub r h), hl⟩

/-! ### The economic loop -/

theorem pyMinBy_map {α β : Type} (f : α → β) (key : β → ℚ) (l : List α) :
    pyMinBy key (l.map f) = (pyMinBy (fun a => key (f a)) l >>= fun a => .ok (f a)) := by
  cases l with
  | nil => rfl
  | cons a l =>
    have : ∀ (l : List α) (a : α), minByAux key (f a) (l.map f) = f (minByAux (fun a => key (f a)) a l) := by
      intro l
      induction l with
      | nil => intro a; rfl
      | cons c l ih =>
        intro a
        rw [List.map_cons]
        unfold minByAux
        have e : (if key (f c) < key (f a) then f c else f a) = f (if key (f c) < key (f a) then c else a) := by split <;> rfl
        rw [e, ih]
    show Except.ok (minByAux key (f a) (l.map f)) = _
    rw [this]
    rfl

/-- Removing the objects with a given id from a list removes the one that has it. -/
theorem perm_remove {h : Heap} {l : List Ref} {a : Ref} (hn : l.Nodup) (hi : IdInj h l) (ha : a ∈ l) :
    (a :: l.filter (fun r => decide ((h r).id ≠ (h a).id))).Perm l := by
  refine (List.perm_ext_iff_of_nodup ?_ hn).2 (fun r => ?_)
  · rw [List.nodup_cons]
    exact ⟨by simp, hn.filter _⟩
  · simp only [List.mem_cons, List.mem_filter, decide_eq_true_eq]
    constructor
    · rintro (rfl | h)
      · exact ha
      · exact h.1
    · intro hr
      by_cases e : r = a
      · exact Or.inl e
      · exact Or.inr ⟨hr, fun h' => e (hi r hr a ha h')⟩

theorem map_filter_read (h : Heap) (l : List Ref) (p : Order → Bool) : (l.map h).filter p = (l.filter (fun r => p (h r))).map h := by
  rw [List.filter_map]; rfl

/-- What the result of the economic loop must be. -/
def EconRel (all : List Ref) (m : Mem) (a : RefSolution) (m' : Mem) (v : Solution × List Order) : Prop :=
  v.1 = a.read m'.heap ∧ (∃ D : List Ref, v.2 = D.map m'.heap ∧ ∀ r, r ∈ D ↔ r ∈ all) ∧ Keeps all m m' ∧ ∀ r ∈ a.orders, r < m'.next

theorem sim_economicLoop {cfg : Config} {ext : HeapExt} {pair : Token × Token} {fee : Fee} {x : Option ℚ} :
    ∀ (fuel : ℕ) (bk : RefBooks) (gone : List Ref) (cur : RefSolution) (m : Mem), Live m (bk.all ++ gone) → Rates X fee m.heap (bk.all ++ gone) → (∀ r ∈ cur.orders, r < m.next) →
    Sim X (heapEconomicLoop cfg ext pair fee x fuel bk cur m)
      (economicLoop cfg ext.toExt pair fee x fuel (bk.read m.heap) (gone.map m.heap) (cur.read m.heap)) (EconRel (bk.all ++ gone) m) := by
  intro fuel
  induction fuel with
  | zero => intro bk gone cur m _ _ _; exact Sim.raise
  | succ n ih =>
    intro bk gone cur m w hr hcur
    have wb : Live m bk.all := w.sub (List.nodup_append.1 w.nodup).1 (fun _ h => List.mem_append_left _ h)
    have dg : ∀ r ∈ gone, r ∉ bk.all := fun r hr h => (List.nodup_append.1 w.nodup).2.2 r h r hr rfl
    unfold heapEconomicLoop economicLoop
    have lb : (bk.read m.heap).b.length = bk.b.length := List.length_map ..
    have ls : (bk.read m.heap).s.length = bk.s.length := List.length_map ..
    rw [lb, ls]
    have hall : ∀ h : Heap, bk.b.map h ++ bk.s.map h ++ bk.f.map h ++ gone.map h = (bk.all ++ gone).map h := by
      intro h
      unfold RefBooks.all
      simp only [List.map_append]
    split
    · refine Sim.bind (sim_solveTokenPairAndFee wb (hr.sub (fun _ h => List.mem_append_left _ h))) ?_
      rintro sol m1 _ ⟨rfl, hk, hl⟩ _ _
      have hk' : Keeps (bk.all ++ gone) m m1 := hk.mono (fun r _ h => List.mem_append_left _ h)
      have eg : gone.map m.heap = gone.map m1.heap := (hk.map (fun r hr => w.live r (List.mem_append_right _ hr)) dg).symm
      have w1 := w.keeps hk'
      have wb1 := wb.keeps hk'
      rw [eg]
      dsimp only
      refine Sim.read rfl (fun viable _ => ?_)
      refine Sim.readL rfl ?_
      have fin : ∀ a : RefSolution, (∀ r ∈ a.orders, r < m1.next) → EconRel (bk.all ++ gone) m a m1
          (a.read m1.heap, (bk.read m1.heap).b ++ (bk.read m1.heap).s ++ (bk.read m1.heap).f ++ gone.map m1.heap) := fun a ha =>
        ⟨rfl, ⟨bk.all ++ gone, hall m1.heap, fun _ => Iff.rfl⟩, hk', ha⟩
      have es : isTrivial (sol.read m1.heap).orders = isTrivial (sol.orders.map m1.heap) := rfl
      rw [es]
      split
      · exact Sim.pure (fin sol hl)
      · refine Sim.read rfl (fun sub _ => ?_)
        split
        · exact Sim.pure (fin .trivial (by simp [RefSolution.trivial]))
        · have eb : (bk.read m1.heap).b.filter (fun o => decide (o.buy > 0)) = (bk.b.filter (fun r => decide ((m1.heap r).buy > 0))).map m1.heap :=
            map_filter_read _ _ _
          have es : (bk.read m1.heap).s.filter (fun o => decide (o.buy > 0)) = (bk.s.filter (fun r => decide ((m1.heap r).buy > 0))).map m1.heap :=
            map_filter_read _ _ _
          rw [eb, es]
          refine Sim.readMap (g := m1.heap) (pyMinBy_map m1.heap (·.buy) _) (fun bm hbm => ?_)
          refine Sim.readMap (g := m1.heap) (pyMinBy_map m1.heap (·.buy) _) (fun sm hsm => ?_)
          have hbm' : bm ∈ bk.b := List.mem_of_mem_filter (pyMinBy_mem hbm)
          have hsm' : sm ∈ bk.s := List.mem_of_mem_filter (pyMinBy_mem hsm)
          refine Sim.read rfl (fun pb _ => ?_)
          refine Sim.read rfl (fun ps _ => ?_)
          refine Sim.readL rfl ?_
          by_cases hlt : (m1.heap bm).buy * pb < (m1.heap sm).buy * ps
          · rw [if_pos (by simpa using hlt), if_pos hlt]
            refine Sim.readL rfl ?_
            have pm : ((RefBooks.mk (bk.b.filter (fun r => decide ((m1.heap r).id ≠ (m1.heap bm).id))) bk.s bk.f).all ++ (bm :: gone)).Perm
                (bk.all ++ gone) := by
              have h1 := perm_remove wb1.b.nodup wb1.b.ids hbm'
              unfold RefBooks.all
              refine List.perm_middle.trans ?_
              have h2 := ((h1.append_right bk.s).append_right bk.f).append_right gone
              simpa using h2
            have w2 : Live m1 ((RefBooks.mk (bk.b.filter (fun r => decide ((m1.heap r).id ≠ (m1.heap bm).id))) bk.s bk.f).all ++ (bm :: gone)) :=
              w1.sub (pm.nodup_iff.2 w1.nodup) (fun r hr => pm.mem_iff.1 hr)
            have e3 : ({ (bk.read m1.heap) with b := (bk.read m1.heap).b.filter (fun o => decide (o.id ≠ (m1.heap bm).id)) } : Books) =
                (RefBooks.mk (bk.b.filter (fun r => decide ((m1.heap r).id ≠ (m1.heap bm).id))) bk.s bk.f).read m1.heap := by
              unfold RefBooks.read
              dsimp only
              rw [map_filter_read]
            have e4 : m1.heap bm :: gone.map m1.heap = (bm :: gone).map m1.heap := rfl
            rw [e3, e4]
            refine (ih _ _ sol m1 w2 ((hk'.rates hr w.live).sub (fun r h => pm.mem_iff.1 h)) hl).mono ?_
            rintro a m' v ⟨h1, ⟨D, h2, h3⟩, h4, h5⟩
            exact ⟨h1, ⟨D, h2, fun r => (h3 r).trans pm.mem_iff⟩, hk'.trans (h4.mono (fun r _ h => pm.mem_iff.1 h)), h5⟩
          · rw [if_neg (by simpa using hlt), if_neg hlt]
            refine Sim.readL rfl ?_
            have pm : ((RefBooks.mk bk.b (bk.s.filter (fun r => decide ((m1.heap r).id ≠ (m1.heap sm).id))) bk.f).all ++ (sm :: gone)).Perm
                (bk.all ++ gone) := by
              have h1 := perm_remove wb1.s.nodup wb1.s.ids hsm'
              unfold RefBooks.all
              refine List.perm_middle.trans ?_
              have h2 := ((h1.append_left bk.b).append_right bk.f).append_right gone
              refine List.Perm.trans ?_ h2
              simp only [List.append_assoc, List.cons_append]
              exact List.perm_middle.symm
            have w2 : Live m1 ((RefBooks.mk bk.b (bk.s.filter (fun r => decide ((m1.heap r).id ≠ (m1.heap sm).id))) bk.f).all ++ (sm :: gone)) :=
              w1.sub (pm.nodup_iff.2 w1.nodup) (fun r hr => pm.mem_iff.1 hr)
            have e3 : ({ (bk.read m1.heap) with s := (bk.read m1.heap).s.filter (fun o => decide (o.id ≠ (m1.heap sm).id)) } : Books) =
                (RefBooks.mk bk.b (bk.s.filter (fun r => decide ((m1.heap r).id ≠ (m1.heap sm).id))) bk.f).read m1.heap := by
              unfold RefBooks.read
              dsimp only
              rw [map_filter_read]
            have e4 : m1.heap sm :: gone.map m1.heap = (sm :: gone).map m1.heap := rfl
            rw [e3, e4]
            refine (ih _ _ sol m1 w2 ((hk'.rates hr w.live).sub (fun r h => pm.mem_iff.1 h)) hl).mono ?_
            rintro a m' v ⟨h1, ⟨D, h2, h3⟩, h4, h5⟩
            exact ⟨h1, ⟨D, h2, fun r => (h3 r).trans pm.mem_iff⟩, hk'.trans (h4.mono (fun r _ h => pm.mem_iff.1 h)), h5⟩
    · exact Sim.pure ⟨rfl, ⟨bk.all ++ gone, hall m.heap, fun _ => Iff.rfl⟩, Keeps.refl _ _, hcur⟩

theorem sim_solveEconomicViable {cfg : Config} {ext : HeapExt} {pair : Token × Token} {accounts : Accounts} {bk : RefBooks} {fee : Fee} {x : Option ℚ}
    {m : Mem} (w : Live m bk.all) (hr : Rates X fee m.heap bk.all) :
    Sim X (heapSolveEconomicViable cfg ext pair accounts bk fee x m)
      (solveEconomicViable cfg ext.toExt pair accounts (bk.b.map m.heap) (bk.s.map m.heap) (bk.f.map m.heap) fee x) (EconRel bk.all m) := by
  unfold heapSolveEconomicViable solveEconomicViable
  have h := sim_economicLoop (X := X) (cfg := cfg) (ext := ext) (pair := pair) (fee := fee) (x := x) (bk.b.length + bk.s.length + 1) bk [] .trivial m
    (by rw [List.append_nil]; exact w) (by rw [List.append_nil]; exact hr) (by simp [RefSolution.trivial])
  rw [List.append_nil] at h
  rw [List.length_map, List.length_map]
  refine Sim.bind h ?_
  rintro a m1 ⟨sol, objs⟩ hr _ _
  have e : sol = a.read m1.heap := hr.1
  subst e
  dsimp only
  refine Sim.read rfl (fun _ _ => ?_)
  exact Sim.pure hr

/-! ### The best-token-pair solver -/

theorem heapBuyingSelling_map (h : Heap) (l : List Ref) (x y : Token) :
    ordersBuyingSelling (l.map h) x y = (heapBuyingSelling h l x y).map h := map_filter_read _ _ _

theorem mem_heapBuyingSelling {h : Heap} {l : List Ref} {x y : Token} {r : Ref} :
    r ∈ heapBuyingSelling h l x y ↔ r ∈ l ∧ (h r).buyToken = x ∧ (h r).sellToken = y := by
  unfold heapBuyingSelling
  rw [List.mem_filter, decide_eq_true_eq]

/-- The books of a pair of distinct tokens share no object. -/
theorem books_live {m : Mem} {l f : List Ref} {pair : Token × Token} {t : Token} (w : Live m l) (h1 : pair.1 ≠ pair.2) (h2 : pair.2 ≠ t)
    (hf : f = heapBuyingSelling m.heap l pair.1 t ∨ f = []) :
    Live m (RefBooks.mk (heapBuyingSelling m.heap l pair.1 pair.2) (heapBuyingSelling m.heap l pair.2 pair.1) f).all ∧
    ∀ r ∈ (RefBooks.mk (heapBuyingSelling m.heap l pair.1 pair.2) (heapBuyingSelling m.heap l pair.2 pair.1) f).all, r ∈ l := by
  have hf' : ∀ r ∈ f, r ∈ l ∧ (m.heap r).buyToken = pair.1 ∧ (m.heap r).sellToken = t := by
    rcases hf with rfl | rfl
    · exact fun r hr => mem_heapBuyingSelling.1 hr
    · simp
  have hn : f.Nodup := by
    rcases hf with rfl | rfl
    · exact w.nodup.filter _
    · exact List.nodup_nil
  have hs : ∀ r ∈ (RefBooks.mk (heapBuyingSelling m.heap l pair.1 pair.2) (heapBuyingSelling m.heap l pair.2 pair.1) f).all, r ∈ l := by
    intro r hr
    unfold RefBooks.all at hr
    simp only [List.mem_append] at hr
    rcases hr with (hr | hr) | hr
    · exact (mem_heapBuyingSelling.1 hr).1
    · exact (mem_heapBuyingSelling.1 hr).1
    · exact (hf' r hr).1
  refine ⟨w.sub ?_ hs, hs⟩
  unfold RefBooks.all
  refine List.nodup_append.2 ⟨List.nodup_append.2 ⟨w.nodup.filter _, w.nodup.filter _, ?_⟩, hn, ?_⟩
  · rintro r hr q hq rfl
    exact h1 ((mem_heapBuyingSelling.1 hr).2.1.symm.trans (mem_heapBuyingSelling.1 hq).2.1)
  · rintro r hr q hq rfl
    rcases List.mem_append.1 hr with hr | hr
    · exact h2 ((mem_heapBuyingSelling.1 hr).2.2.symm.trans (hf' r hq).2.2)
    · exact h1 ((hf' r hq).2.1.symm.trans (mem_heapBuyingSelling.1 hr).2.1)

/-- Matching a pair out of the list `l` of all orders. -/
def PairRel (l : List Ref) (m : Mem) (a : RefSolution) (m' : Mem) (v : Solution × List Order) : Prop :=
  v.1 = a.read m'.heap ∧ v.2 = l.map m'.heap ∧ Keeps l m m' ∧ ∀ r ∈ a.orders, r < m'.next

theorem sim_matchTokenPair {cfg : Config} {ext : HeapExt} {pair : Token × Token} {accounts : Accounts} {l : List Ref} {fee : Fee} {m : Mem}
    (w : Live m l) (hr : Rates X fee m.heap l) (h1 : pair.1 ≠ pair.2) (h2 : pair.2 ≠ fee.token) :
    Sim X (heapMatchTokenPair cfg ext pair accounts l fee m) (matchTokenPair cfg ext.toExt pair accounts (l.map m.heap) fee) (PairRel l m) := by
  unfold heapMatchTokenPair matchTokenPair
  have triv : PairRel l m .trivial m (.trivial, l.map m.heap) := ⟨rfl, rfl, Keeps.refl _ _, by simp [RefSolution.trivial]⟩
  refine Sim.readL rfl ?_
  dsimp only
  rw [heapBuyingSelling_map, List.length_map]
  split
  · exact Sim.pure triv
  · refine Sim.readL rfl ?_
    rw [heapBuyingSelling_map, List.length_map]
    split
    · exact Sim.pure triv
    · refine Sim.readL rfl ?_
      have ef : (if pair.1 ≠ fee.token then ordersBuyingSelling (l.map m.heap) pair.1 fee.token else []) =
          (if pair.1 ≠ fee.token then heapBuyingSelling m.heap l pair.1 fee.token else []).map m.heap := by
        split
        · exact heapBuyingSelling_map _ _ _ _
        · rfl
      have hf : (if pair.1 ≠ fee.token then heapBuyingSelling m.heap l pair.1 fee.token else []) = heapBuyingSelling m.heap l pair.1 fee.token ∨
          (if pair.1 ≠ fee.token then heapBuyingSelling m.heap l pair.1 fee.token else []) = [] := by split <;> simp
      rw [ef, List.length_map]
      revert hf
      generalize (if pair.1 ≠ fee.token then heapBuyingSelling m.heap l pair.1 fee.token else []) = f
      intro hf
      split
      · exact Sim.pure triv
      · obtain ⟨wb, hs⟩ := books_live w h1 h2 hf
        refine Sim.bindR (sim_solveEconomicViable wb (hr.sub hs)) ?_
        rintro a m1 ⟨sol, objs⟩ ⟨e1, ⟨D, e2, e3⟩, hk, hl⟩
        dsimp only at e1 e2 ⊢
        subst e1 e2
        have hD : ∀ r ∈ D, r ∈ l := fun r hr => hs r ((e3 r).1 hr)
        rw [writeBack_sub w hD hk (fun r _ h h' => h ((e3 r).2 h'))]
        exact Sim.pure (a := a) ⟨rfl, rfl, hk.mono (fun r _ h => hs r h), hl⟩

theorem sim_matchAndEvaluate {cfg : Config} {ext : HeapExt} {pair : Token × Token} {accounts : Accounts} {l : List Ref} {fee : Fee} {m : Mem}
    (w : Live m l) (hr : Rates X fee m.heap l) (h1 : pair.1 ≠ pair.2) (h2 : pair.2 ≠ fee.token) :
    Sim X (heapMatchAndEvaluate cfg ext pair accounts l fee m) (matchAndEvaluate cfg ext.toExt pair accounts (l.map m.heap) fee)
      (fun a m' v => v.1 = a.1 ∧ PairRel l m a.2 m' v.2) := by
  unfold heapMatchAndEvaluate matchAndEvaluate
  refine Sim.bind (sim_matchTokenPair w hr h1 h2) ?_
  rintro a m1 ⟨sol, os⟩ hr _ _
  have e : sol = a.read m1.heap := hr.1
  subst e
  dsimp only
  refine Sim.read rfl (fun acc _ => ?_)
  refine Sim.read rfl (fun obj _ => ?_)
  exact Sim.pure ⟨rfl, hr⟩

theorem sim_bestLoop {cfg : Config} {ext : HeapExt} {accounts : Accounts} {l : List Ref} {fee : Fee} :
    ∀ (visits : List ((Token × Token) × Bool)) (best : ℚ × RefSolution) (m : Mem), Live m l → Rates X fee m.heap l →
    (∀ v ∈ visits, v.1.1 ≠ v.1.2 ∧ v.1.2 ≠ fee.token) → (∀ r ∈ best.2.orders, r < m.next ∧ r ∉ l) →
    Sim X (heapBestLoop cfg ext accounts l fee visits best m)
      (bestLoop cfg ext.toExt accounts fee visits { objective := best.1, sol := best.2.read m.heap, orders := l.map m.heap })
      (fun a m' v => v.sol = a.2.read m'.heap) := by
  intro visits
  induction visits with
  | nil => intro best m _ _ _ _; exact Sim.ok rfl
  | cons v rest ih =>
    intro best m w hr hv hb
    obtain ⟨pair, stop⟩ := v
    unfold heapBestLoop bestLoop
    have hp := hv _ (List.mem_cons_self ..)
    refine Sim.bind (sim_matchAndEvaluate w hr hp.1 hp.2) ?_
    rintro ⟨obj, sol⟩ m1 ⟨obj', solV, os⟩ ⟨e0, e1, e2, hk, hl⟩ _ _
    dsimp only at e0 e1 e2 hl ⊢
    subst e0 e1 e2
    have w1 := w.keeps hk
    have hr1 := hk.rates hr w.live
    by_cases hgt : obj' > best.1
    · rw [if_pos hgt, if_pos hgt]
      obtain ⟨c, m2, ec, c1, c2, c3, c4, c5⟩ := deepcopy_spec sol.orders m1 hl
      have hk2 : Keeps [] m1 m2 := ⟨c2, fun r hr _ => c3 r hr, fun r hr => by rw [c3 r hr]⟩
      have w2 := w1.keeps hk2
      have eo : l.map m1.heap = l.map m2.heap := List.map_congr_left (fun r hr => (c3 r (w1.live r hr)).symm)
      have es : sol.read m1.heap = (RefSolution.mk c sol.prices).read m2.heap := by
        unfold RefSolution.read
        rw [c1]
      rw [eo, es]
      refine Sim.bindL (a := (obj', ({ orders := c, prices := sol.prices } : RefSolution))) (m' := m2) ?_ ?_
      · rw [HM.bind_apply, ec]; rfl
      · cases stop
        · exact ih (obj', ⟨c, sol.prices⟩) m2 w2 (hk2.rates hr1 w1.live) (fun v hv' => hv v (List.mem_cons_of_mem _ hv'))
            (fun r hr => ⟨(c5 r hr).2, fun h => absurd (w1.live r h) (not_lt.2 (c5 r hr).1)⟩)
        · exact Sim.pure (a := (obj', RefSolution.mk c sol.prices)) rfl
    · rw [if_neg hgt, if_neg hgt]
      have es : best.2.read m.heap = best.2.read m1.heap := by
        unfold RefSolution.read
        rw [hk.map (fun r hr => (hb r hr).1) (fun r hr => (hb r hr).2)]
      rw [es]
      refine Sim.bindL (a := best) (m' := m1) rfl ?_
      cases stop
      · exact ih best m1 w1 hr1 (fun v hv' => hv v (List.mem_cons_of_mem _ hv')) (fun r hr => ⟨lt_of_lt_of_le (hb r hr).1 hk.next, (hb r hr).2⟩)
      · exact Sim.pure (a := best) rfl

/-! ### Loading -/

theorem sim_loadOrdersFrom {cfg : Config} : ∀ (ds : List OrderDict) (i : ℕ) (m : Mem),
    Sim X (heapLoadOrdersFrom cfg i ds m) (loadOrdersFrom cfg i ds) (fun a m' v => v = a.map m'.heap ∧ m.next ≤ m'.next ∧
      (∀ r < m.next, m'.heap r = m.heap r) ∧ a.Nodup ∧ ∀ r ∈ a, (m.next ≤ r ∧ r < m'.next)) := by
  intro ds
  induction ds with
  | nil => intro i m; exact Sim.ok ⟨rfl, le_refl _, fun _ _ => rfl, List.nodup_nil, by simp⟩
  | cons d ds ih =>
    intro i m
    unfold heapLoadOrdersFrom loadOrdersFrom
    refine Sim.read rfl (fun o _ => ?_)
    refine Sim.bindL (a := m.next) (m' := { m with heap := m.heap.put m.next o, next := m.next + 1 }) rfl ?_
    refine Sim.bind (ih (i + 1) _) ?_
    rintro rs m1 _ ⟨rfl, h1, h2, h3, h4⟩ _ _
    dsimp only at h1 h2 h4
    have hnew : m1.heap m.next = o := by
      rw [h2 m.next (Nat.lt_succ_self _)]
      exact Heap.put_same ..
    refine Sim.pure ⟨by rw [List.map_cons, hnew], le_trans (Nat.le_succ _) h1, ?_, ?_, ?_⟩
    · intro r hr
      rw [h2 r (Nat.lt_succ_of_lt hr)]
      exact Heap.put_ne _ _ (Nat.ne_of_lt hr)
    · rw [List.nodup_cons]
      exact ⟨fun h => absurd (h4 _ h).1 (Nat.not_succ_le_self _), h3⟩
    · intro r hr
      rcases List.mem_cons.1 hr with rfl | hr
      · exact ⟨le_refl _, h1⟩
      · exact ⟨le_of_lt (h4 r hr).1, (h4 r hr).2⟩

theorem loadOrdersFrom_ids {cfg : Config} : ∀ (ds : List OrderDict) (i : ℕ) {v : List Order}, loadOrdersFrom cfg i ds = .ok v →
    (v.map (·.id)).Nodup ∧ ∀ o ∈ v, ∃ j, i ≤ j ∧ o.id = toString j := by
  intro ds
  induction ds with
  | nil => intro i v h; cases h; simp
  | cons d ds ih =>
    intro i v h
    unfold loadOrdersFrom at h
    obtain ⟨o, ho, h⟩ := bind_eq_ok.1 h
    obtain ⟨os, hos, h⟩ := bind_eq_ok.1 h
    cases h
    obtain ⟨hn, hj⟩ := ih (i + 1) hos
    have hid : o.id = toString i := by
      unfold Order.loadFromDict at ho
      obtain ⟨_, _, ho⟩ := bind_eq_ok.1 ho
      cases ho
      rfl
    refine ⟨?_, ?_⟩
    · rw [List.map_cons, List.nodup_cons]
      refine ⟨?_, hn⟩
      intro h
      obtain ⟨o', ho', e⟩ := List.mem_map.1 h
      obtain ⟨j, hj1, hj2⟩ := hj o' ho'
      have e' : toString j = toString i := hj2.symm.trans (e.trans hid)
      have : j = i := Nat.repr_injective e'
      omega
    · intro o' ho'
      rcases List.mem_cons.1 ho' with rfl | h
      · exact ⟨i, le_refl _, hid⟩
      · obtain ⟨j, hj1, hj2⟩ := hj o' h
        exact ⟨j, by omega, hj2⟩

theorem sim_restrictLoop {accounts : Accounts} : ∀ (rs : List Ref) (rem : Dict BalKey ℚ) (capped : List Ref) (m : Mem), (capped ++ rs).Nodup →
    Sim X (heapRestrictLoop accounts rs rem capped m) (foldE (restrictStep accounts) (rem, capped.map m.heap) (rs.map m.heap))
      (fun a m' v => v.2 = a.map m'.heap ∧ Touch rs m m' ∧ a.Nodup ∧ ∀ r ∈ a, r ∈ capped ++ rs) := by
  intro rs
  induction rs with
  | nil =>
    intro rem capped m hn
    exact Sim.ok ⟨rfl, Touch.refl _ _, by simpa using hn, by simp⟩
  | cons r rs ih =>
    intro rem capped m hn
    have hr : r ∉ capped := fun h => (List.nodup_append.1 hn).2.2 r h r (List.mem_cons_self ..) rfl
    have hr' : r ∉ rs := (List.nodup_cons.1 (List.nodup_append.1 hn).2.1).1
    have hn1 : (capped ++ rs).Nodup := by
      refine List.Nodup.sublist ?_ hn
      exact List.Sublist.append (List.Sublist.refl _) (List.sublist_cons_self ..)
    unfold heapRestrictLoop
    rw [List.map_cons]
    unfold foldE restrictStep
    refine Sim.readL rfl ?_
    dsimp only
    rw [bind_assoc]
    refine Sim.read rfl (fun bal _ => ?_)
    split
    · rw [pure_bind]
      refine (ih _ capped m hn1).mono ?_
      rintro a m' v ⟨e1, e2, e3, e4⟩
      refine ⟨e1, ⟨e2.next, fun q hq => e2.same q (fun h => hq (List.mem_cons_of_mem _ h)), e2.fix⟩, e3, fun q hq => ?_⟩
      rcases List.mem_append.1 (e4 q hq) with h | h
      · exact List.mem_append_left _ h
      · exact List.mem_append_right _ (List.mem_cons_of_mem _ h)
    · simp only [bind_assoc]
      refine Sim.read rfl (fun _ _ => ?_)
      refine Sim.read rfl (fun _ _ => ?_)
      refine Sim.bind sim_update ?_
      rintro _ _ o' rfl _ ho'
      rw [pure_bind]
      have hid : o'.fixed = (m.heap r).fixed := setMaxSell_fixed ho'
      have t1 : Touch [r] m { m with heap := m.heap.put r o' } := by
        refine ⟨rfl, fun q hq => Heap.put_ne _ _ (by simpa using hq), fun q => ?_⟩
        by_cases h : q = r
        · subst h
          show ((m.heap.put q o') q).fixed = _
          rw [Heap.put_same, hid]
        · show ((m.heap.put r o') q).fixed = _
          rw [Heap.put_ne _ _ h]
      have ec : capped.map m.heap ++ [o'] = (capped ++ [r]).map (m.heap.put r o') := by
        rw [List.map_append, map_put_of_not_mem hr, List.map_singleton, Heap.put_same]
      have er : rs.map m.heap = rs.map (m.heap.put r o') := (map_put_of_not_mem hr').symm
      rw [ec, er]
      refine (ih _ (capped ++ [r]) { m with heap := m.heap.put r o' } (by simpa using hn)).mono ?_
      rintro a m' v ⟨e1, e2, e3, e4⟩
      refine ⟨e1, ⟨e2.next.trans t1.next, fun q hq => ?_, fun q => (e2.fix q).trans (t1.fix q)⟩, e3, fun q hq => ?_⟩
      · rw [e2.same q (fun h => hq (List.mem_cons_of_mem _ h)), t1.same q (fun h => hq (by simp at h; simp [h]))]
      · simpa using e4 q hq

/-- What makes both programs raise the same exception. -/
def GoodRates (inst : Instance) : Prop := inst.fee.value < 1 ∧ ∀ d ∈ inst.orders, 0 ≤ d.buyAmount ∧ 0 ≤ d.sellAmount

theorem loadOrdersFrom_rates {cfg : Config} : ∀ (ds : List OrderDict) (i : ℕ) {v : List Order}, loadOrdersFrom cfg i ds = .ok v →
    (∀ d ∈ ds, 0 ≤ d.buyAmount ∧ 0 ≤ d.sellAmount) → ∀ o ∈ v, 0 ≤ o.maxXrate := by
  intro ds
  induction ds with
  | nil => intro i v h; cases h; simp
  | cons d ds ih =>
    intro i v h hd
    unfold loadOrdersFrom at h
    obtain ⟨o, ho, h⟩ := bind_eq_ok.1 h
    obtain ⟨os, hos, h⟩ := bind_eq_ok.1 h
    cases h
    intro o' ho'
    rcases List.mem_cons.1 ho' with rfl | h
    · unfold Order.loadFromDict at ho
      obtain ⟨q, hq, ho⟩ := bind_eq_ok.1 ho
      cases ho
      obtain ⟨_, rfl⟩ := pyDiv_eq_ok.1 hq
      have h1 := hd d (List.mem_cons_self ..)
      exact div_nonneg h1.2 (le_max_of_le_right h1.1)
    · exact ih (i + 1) hos (fun d hd' => hd d (List.mem_cons_of_mem _ hd')) o' h

/-- What loading and capping must give: the live orders, all of them new objects. -/
theorem sim_load {cfg : Config} {inst : Instance} {m : Mem} (hI : X → GoodRates inst) :
    Sim X ((heapLoadOrdersFrom cfg 0 inst.orders >>= fun l => heapRestrict l inst.accounts) m)
      (loadOrdersFrom cfg 0 inst.orders >>= fun os => restrictOrderSellAmounts os inst.accounts)
      (fun a m' v => v = a.map m'.heap ∧ Live m' a ∧ Rates X inst.fee m'.heap a) := by
  refine Sim.bind (sim_loadOrdersFrom _ _ _) ?_
  rintro l m1 _ ⟨rfl, h1, h2, h3, h4⟩ _ hv
  have hids := (loadOrdersFrom_ids _ _ hv).1
  rw [List.map_map] at hids
  have wl : Live m1 l := ⟨h3, fun r hr => (h4 r hr).2, fun r hr q hq e => List.inj_on_of_nodup_map hids hr hq e⟩
  unfold heapRestrict restrictOrderSellAmounts
  refine Sim.readL rfl ?_
  rw [← heapSorted_map]
  have pm := heapSorted_perm m1.heap l
  have h := sim_restrictLoop (X := X) (accounts := inst.accounts) (heapSorted m1.heap l) [] [] m1 (by simpa using pm.nodup_iff.2 h3)
  refine Sim.bindR h ?_
  rintro a m2 ⟨rem, v⟩ ⟨e1, e2, e3, e4⟩
  dsimp only at e1
  subst e1
  refine Sim.pure (a := a) ⟨rfl, ⟨e3, fun r hr => ?_, fun r hr q hq e => ?_⟩, fun hX => ⟨(hI hX).1, fun r hr => ?_⟩⟩
  · rw [e2.next]
    exact wl.live r (pm.mem_iff.1 (by simpa using e4 r hr))
  · rw [e2.id, e2.id] at e
    exact wl.ids r (pm.mem_iff.1 (by simpa using e4 r hr)) q (pm.mem_iff.1 (by simpa using e4 q hq)) e
  · have e5 : (m2.heap r).maxXrate = (m1.heap r).maxXrate := congrArg Prod.snd (e2.fix r)
    rw [e5]
    exact loadOrdersFrom_rates _ _ hv (hI hX).2 _ (List.mem_map_of_mem (pm.mem_iff.1 (by simpa using e4 r hr)))

theorem sim_tokenPairMain {cfg : Config} {ext : HeapExt} {inst : Instance} {pair : Token × Token} {x : Option ℚ} {m : Mem} (h1 : pair.1 ≠ pair.2)
    (hI : X → GoodRates inst) :
    Sim X (heapTokenPairMain cfg ext inst pair x m) (tokenPairMain cfg ext.toExt inst pair x) (fun a _ v => v = a) := by
  have eh : heapTokenPairMain cfg ext inst pair x = ((heapLoadOrdersFrom cfg 0 inst.orders >>= fun l => heapRestrict l inst.accounts) >>= fun orders =>
      HM.reads (fun _ => pyAssert (pair.2 ≠ inst.fee.token) "token_pair_solver/api.py:35") >>= fun _ =>
      HM.reads (fun h => .ok (heapBuyingSelling h orders pair.1 pair.2)) >>= fun b =>
      HM.reads (fun h => .ok (heapBuyingSelling h orders pair.2 pair.1)) >>= fun s =>
      HM.reads (fun h => .ok (heapBuyingSelling h orders pair.1 inst.fee.token)) >>= fun f =>
      heapSolveEconomicViable cfg ext pair inst.accounts { b, s, f } inst.fee x >>= fun sol =>
      HM.reads (fun h => dumpSolution inst (sol.read h))) := by
    funext m
    unfold heapTokenPairMain
    simp only [HM.bind_apply]
    cases heapLoadOrdersFrom cfg 0 inst.orders m <;> rfl
  have ev : tokenPairMain cfg ext.toExt inst pair x =
      ((loadOrdersFrom cfg 0 inst.orders >>= fun os => restrictOrderSellAmounts os inst.accounts) >>= fun orders =>
      pyAssert (pair.2 ≠ inst.fee.token) "token_pair_solver/api.py:35" >>= fun _ =>
      solveEconomicViable cfg ext.toExt pair inst.accounts (ordersBuyingSelling orders pair.1 pair.2) (ordersBuyingSelling orders pair.2 pair.1)
        (ordersBuyingSelling orders pair.1 inst.fee.token) inst.fee x >>= fun r => dumpSolution inst r.1) := by
    unfold tokenPairMain loadPairProblem
    simp only [bind_assoc, pure_bind]
  rw [eh, ev]
  refine Sim.bind (sim_load hI) ?_
  rintro l m1 _ ⟨rfl, w, hr⟩ _ _
  refine Sim.read rfl (fun _ h2 => ?_)
  have h2 := (pyAssert_eq_ok.1 h2)
  refine Sim.readL rfl (Sim.readL rfl (Sim.readL rfl ?_))
  simp only [heapBuyingSelling_map]
  obtain ⟨wb, hs⟩ := books_live (f := heapBuyingSelling m1.heap l pair.1 inst.fee.token) (t := inst.fee.token) w h1 (by simpa using h2) (Or.inl rfl)
  refine Sim.bind (sim_solveEconomicViable wb (hr.sub hs)) ?_
  rintro a m2 ⟨sol, objs⟩ ⟨e1, _, _, _⟩ _ _
  dsimp only at e1 ⊢
  subst e1
  exact Sim.readEnd rfl (fun _ _ => rfl)

theorem eligible_pair_ne {os : List Order} {t : Token} {p : Token × Token} (h : p ∈ eligibleTokenPairs os t) : p.1 ≠ p.2 ∧ p.2 ≠ t := by
  unfold eligibleTokenPairs at h
  simp only [List.mem_append, List.mem_flatMap, List.mem_map, List.mem_filter, decide_eq_true_eq] at h
  rcases h with ⟨b, _, s, ⟨_, h1, h2⟩, rfl⟩ | ⟨s, ⟨_, h2⟩, rfl⟩
  · exact ⟨fun h => h1 h.symm, h2⟩
  · exact ⟨fun h => h2 h.symm, h2⟩

theorem sim_bestMain {cfg : Config} {ext : HeapExt} {inst : Instance} {shuffle : List (Token × Token) → List ((Token × Token) × Bool)} {m : Mem}
    (hsh : ∀ l, ∀ v ∈ shuffle l, v.1 ∈ l) (hI : X → GoodRates inst) :
    Sim X (heapBestMain cfg ext inst shuffle m) (bestTokenPairMain cfg ext.toExt inst shuffle) (fun a _ v => v = a) := by
  have eh : heapBestMain cfg ext inst shuffle = ((heapLoadOrdersFrom cfg 0 inst.orders >>= fun l => heapRestrict l inst.accounts) >>= fun orders =>
      HM.reads (fun h => .ok (eligibleTokenPairs (orders.map h) inst.fee.token)) >>= fun pairs =>
      heapBestLoop cfg ext inst.accounts orders inst.fee (shuffle pairs) (0, .trivial) >>= fun best =>
      HM.reads (fun h => dumpSolution inst (best.2.read h))) := by
    funext m
    unfold heapBestMain
    simp only [HM.bind_apply]
    cases heapLoadOrdersFrom cfg 0 inst.orders m <;> rfl
  have ev : bestTokenPairMain cfg ext.toExt inst shuffle =
      ((loadOrdersFrom cfg 0 inst.orders >>= fun os => restrictOrderSellAmounts os inst.accounts) >>= fun orders =>
      bestTokenPair cfg ext.toExt inst.accounts orders inst.fee (shuffle (eligibleTokenPairs orders inst.fee.token)) >>= fun st =>
      dumpSolution inst st.sol) := by
    unfold bestTokenPairMain loadProblem
    simp only [bind_assoc, pure_bind]
  rw [eh, ev]
  refine Sim.bind (sim_load hI) ?_
  rintro l m1 _ ⟨rfl, w, hr⟩ _ _
  refine Sim.readL rfl ?_
  unfold bestTokenPair
  refine Sim.bind (sim_bestLoop _ (0, .trivial) m1 w hr (fun v hv => eligible_pair_ne (hsh _ v hv)) (by simp [RefSolution.trivial])) ?_
  rintro a m2 v e _ _
  rw [e]
  exact Sim.readEnd rfl (fun _ _ => rfl)

end Dex
