import Verif.Model.Heap
import Verif.Proof.Basic

/-! # The heap version of amount.py computes what the value version does -/

namespace Dex

/-- The state of the value version that a heap state stands for. -/
def HeapState.abs (b s : List Ref) (st : HeapState) : ExecState :=
  { bi := st.bi, si := st.si, b := b.map st.heap, s := s.map st.heap }

/-- Only buy amounts of the listed objects differ. -/
def Heap.Frame (l : List Ref) (h h' : Heap) : Prop :=
  (∀ r, r ∉ l → h' r = h r) ∧ ∀ r, ∃ v, h' r = (h r).withBuy v

theorem Heap.Frame.refl (l : List Ref) (h : Heap) : Heap.Frame l h h :=
  ⟨fun _ _ => rfl, fun r => ⟨(h r).buy, rfl⟩⟩

theorem Heap.Frame.trans {l : List Ref} {h h' h'' : Heap} (a : Heap.Frame l h h') (b : Heap.Frame l h' h'') :
    Heap.Frame l h h'' := by
  refine ⟨fun r hr => (b.1 r hr).trans (a.1 r hr), fun r => ?_⟩
  obtain ⟨v, e⟩ := a.2 r
  obtain ⟨w, e'⟩ := b.2 r
  exact ⟨w, by rw [e', e]; rfl⟩

theorem Heap.Frame.mono {l l' : List Ref} {h h' : Heap} (a : Heap.Frame l h h') (hs : ∀ r ∈ l, r ∈ l') :
    Heap.Frame l' h h' := ⟨fun r hr => a.1 r (fun hl => hr (hs r hl)), a.2⟩

theorem Heap.frame_setBuy {l : List Ref} {r : Ref} (hr : r ∈ l) (h : Heap) (v : ℚ) : Heap.Frame l h (h.setBuy r v) := by
  refine ⟨fun q hq => ?_, fun q => ?_⟩
  · unfold Heap.setBuy
    rw [if_neg (fun e : q = r => hq (e ▸ hr))]
  · unfold Heap.setBuy
    split
    · rename_i e; subst e; exact ⟨v, rfl⟩
    · exact ⟨(h q).buy, rfl⟩

theorem Heap.setBuy_same (h : Heap) (r : Ref) (v : ℚ) : h.setBuy r v r = (h r).withBuy v := by
  unfold Heap.setBuy; rw [if_pos rfl]

theorem Heap.setBuy_ne (h : Heap) {r q : Ref} (v : ℚ) (hne : q ≠ r) : h.setBuy r v q = h q := by
  unfold Heap.setBuy; rw [if_neg hne]

theorem pyGet_map {α β : Type} (f : α → β) (l : List α) (i : ℤ) :
    pyGet (l.map f) i = (pyGet l i >>= fun a => .ok (f a)) := by
  unfold pyGet
  rw [List.length_map]
  cases pyIndex l.length i with
  | error e => rfl
  | ok k =>
    simp only [List.getElem?_map]
    cases l[k]? <;> rfl

theorem map_setBuy_of_not_mem {h : Heap} {l : List Ref} {r : Ref} {v : ℚ} (hr : r ∉ l) : l.map (h.setBuy r v) = l.map h := by
  apply List.map_congr_left
  intro q hq
  exact h.setBuy_ne v (fun e => hr (e ▸ hq))

/-- An assignment through a reference, seen in the list of values. -/
theorem pyModify_heap {h : Heap} {l : List Ref} {i : ℤ} {r : Ref} (hn : l.Nodup) (hg : pyGet l i = .ok r) (f : Order → Order) {v : ℚ}
    (hf : f (h r) = (h r).withBuy v) : pyModify (l.map h) i f = .ok (l.map (h.setBuy r v)) := by
  unfold pyGet at hg
  unfold pyModify
  rw [List.length_map]
  cases hk : pyIndex l.length i with
  | error e => rw [hk] at hg; cases hg
  | ok k =>
    rw [hk] at hg
    simp only at hg ⊢
    cases he : l[k]? with
    | none => rw [he] at hg; cases hg
    | some a =>
      rw [he] at hg
      cases hg
      congr 1
      apply List.ext_getElem?
      intro j
      rw [List.getElem?_modify, List.getElem?_map, List.getElem?_map]
      by_cases hj : k = j
      · subst hj
        rw [he]
        simp only [if_true, Option.map_some, Option.map_eq_map]
        rw [h.setBuy_same, hf]
      · simp only [if_neg hj]
        cases hjj : l[j]? with
        | none => rfl
        | some q =>
          simp only [Option.map_some, Option.map_eq_map]
          rw [h.setBuy_ne]
          rintro rfl
          apply hj
          obtain ⟨hk1, hk2⟩ := List.getElem?_eq_some_iff.1 he
          obtain ⟨hj1, hj2⟩ := List.getElem?_eq_some_iff.1 hjj
          exact (List.Nodup.getElem_inj_iff hn).1 (hk2.trans hj2.symm)

/-- Assignments to one object of each list, seen in the two lists of values. -/
private theorem two_writes {h : Heap} {b s : List Ref} {bi si : ℤ} {rb rs : Ref} (hn : (b ++ s).Nodup)
    (hb : pyGet b bi = .ok rb) (hs : pyGet s si = .ok rs) (f g : Order → Order) {v w : ℚ}
    (hf : f (h rb) = (h rb).withBuy v) (hg : g (h rs) = (h rs).withBuy w) :
    (h.setBuy rb v) rs = h rs ∧
    pyModify (b.map h) bi f = .ok (b.map ((h.setBuy rb v).setBuy rs w)) ∧
    pyModify (s.map h) si g = .ok (s.map ((h.setBuy rb v).setBuy rs w)) := by
  obtain ⟨nb, ns, nd⟩ := List.nodup_append.1 hn
  have mb := pyGet_ok_mem hb
  have ms := pyGet_ok_mem hs
  have h1 : rs ∉ b := fun hc => nd rs hc rs ms rfl
  have h2 : rb ∉ s := fun hc => nd rb mb rb hc rfl
  have hne : rs ≠ rb := fun e => h1 (e ▸ mb)
  have e1 : (h.setBuy rb v) rs = h rs := h.setBuy_ne v hne
  refine ⟨e1, ?_, ?_⟩
  · rw [map_setBuy_of_not_mem h1]
    exact pyModify_heap nb hb f hf
  · rw [← map_setBuy_of_not_mem (h := h) (v := v) h2]
    exact pyModify_heap ns hs g (by rw [e1]; exact hg)

theorem heapExecuteOrderPair_abs {xrate : ℚ} {fee : Fee} {b s : List Ref} (hn : (b ++ s).Nodup) (st : HeapState) :
    executeOrderPair xrate fee (st.abs b s) = (heapExecuteOrderPair xrate fee b s st >>= fun r => .ok (r.abs b s)) ∧
    ∀ st', heapExecuteOrderPair xrate fee b s st = .ok st' → Heap.Frame (b ++ s) st.heap st'.heap := by
  unfold executeOrderPair heapExecuteOrderPair
  simp only [HeapState.abs, pyGet_map]
  cases hb : pyGet b st.bi with
  | error e => exact ⟨rfl, fun _ h => by cases h⟩
  | ok rb =>
    cases hs : pyGet s st.si with
    | error e => exact ⟨rfl, fun _ h => by cases h⟩
    | ok rs =>
      have fr : ∀ v w, Heap.Frame (b ++ s) st.heap ((st.heap.setBuy rb v).setBuy rs w) := fun v w =>
        (Heap.frame_setBuy (List.mem_append_left _ (pyGet_ok_mem hb)) _ _).trans
          (Heap.frame_setBuy (List.mem_append_right _ (pyGet_ok_mem hs)) _ _)
      simp only [ok_bind]
      cases bBuyFromBMaxSell (st.heap rb) xrate fee with
      | error e => exact ⟨rfl, fun _ h => by cases h⟩
      | ok bMax =>
        cases sBuyFromSMaxSell (st.heap rs) xrate fee with
        | error e => exact ⟨rfl, fun _ h => by cases h⟩
        | ok sMax =>
          simp only [ok_bind]
          cases pyAssert (bMax - (st.heap rb).buy ≥ 0 ∧ sMax - (st.heap rs).buy ≥ 0) "amount.py:138" with
          | error e => exact ⟨rfl, fun _ h => by cases h⟩
          | ok _ =>
            simp only [ok_bind]
            cases bBuyFromSBuy (sMax - (st.heap rs).buy) xrate fee with
            | error e => exact ⟨rfl, fun _ h => by cases h⟩
            | ok bFromS =>
              cases sBuyFromBBuy (bMax - (st.heap rb).buy) xrate fee with
              | error e => exact ⟨rfl, fun _ h => by cases h⟩
              | ok sFromB =>
                simp only [ok_bind]
                split_ifs
                · obtain ⟨e1, e2, e3⟩ := two_writes (h := st.heap) hn hb hs (Order.addBuy (bMax - (st.heap rb).buy))
                    (Order.addBuy sFromB) rfl rfl
                  rw [e2, e3, e1]
                  exact ⟨rfl, fun _ h => by cases h; exact fr _ _⟩
                · obtain ⟨e1, e2, e3⟩ := two_writes (h := st.heap) hn hb hs (Order.addBuy bFromS)
                    (Order.addBuy (sMax - (st.heap rs).buy)) rfl rfl
                  rw [e2, e3, e1]
                  exact ⟨rfl, fun _ h => by cases h; exact fr _ _⟩
                · obtain ⟨e1, e2, e3⟩ := two_writes (h := st.heap) hn hb hs (Order.addBuy (bMax - (st.heap rb).buy))
                    (Order.addBuy (sMax - (st.heap rs).buy)) rfl rfl
                  rw [e2, e3, e1]
                  exact ⟨rfl, fun _ h => by cases h; exact fr _ _⟩

theorem heapUndoOrderPair_abs {xrate : ℚ} {fee : Fee} {b s : List Ref} (hn : (b ++ s).Nodup) (st : HeapState) :
    undoOrderPair xrate fee (st.abs b s) = (heapUndoOrderPair xrate fee b s st >>= fun r => .ok (r.abs b s)) ∧
    ∀ st', heapUndoOrderPair xrate fee b s st = .ok st' → Heap.Frame (b ++ s) st.heap st'.heap := by
  unfold undoOrderPair heapUndoOrderPair
  simp only [HeapState.abs, pyGet_map]
  cases hb : pyGet b st.bi with
  | error e => exact ⟨rfl, fun _ h => by cases h⟩
  | ok rb =>
    cases hs : pyGet s st.si with
    | error e => exact ⟨rfl, fun _ h => by cases h⟩
    | ok rs =>
      have fr : ∀ v w, Heap.Frame (b ++ s) st.heap ((st.heap.setBuy rb v).setBuy rs w) := fun v w =>
        (Heap.frame_setBuy (List.mem_append_left _ (pyGet_ok_mem hb)) _ _).trans
          (Heap.frame_setBuy (List.mem_append_right _ (pyGet_ok_mem hs)) _ _)
      simp only [ok_bind]
      cases pyAssert ((st.heap rb).buy ≥ 0 ∧ (st.heap rs).buy ≥ 0) "amount.py:185" with
      | error e => exact ⟨rfl, fun _ h => by cases h⟩
      | ok _ =>
        simp only [ok_bind]
        cases bBuyFromSBuy (st.heap rs).buy xrate fee with
        | error e => exact ⟨rfl, fun _ h => by cases h⟩
        | ok bFromS =>
          cases sBuyFromBBuy (st.heap rb).buy xrate fee with
          | error e => exact ⟨rfl, fun _ h => by cases h⟩
          | ok sFromB =>
            simp only [ok_bind]
            split_ifs
            · obtain ⟨e1, e2, e3⟩ := two_writes (h := st.heap) hn hb hs Order.clearBuy (Order.subBuy sFromB) rfl rfl
              rw [e2, e3, e1]
              exact ⟨rfl, fun _ h => by cases h; exact fr _ _⟩
            · obtain ⟨_, e2, e3⟩ := two_writes (h := st.heap) hn hb hs (Order.subBuy bFromS) Order.clearBuy rfl rfl
              rw [e2, e3]
              exact ⟨rfl, fun _ h => by cases h; exact fr _ _⟩
            · obtain ⟨_, e2, e3⟩ := two_writes (h := st.heap) hn hb hs Order.clearBuy Order.clearBuy rfl rfl
              rw [e2, e3]
              exact ⟨rfl, fun _ h => by cases h; exact fr _ _⟩

theorem heapRemoveBuyLoop_abs {l : List Ref} (hn : l.Nodup) : ∀ (fuel : ℕ) (i : ℤ) (h : Heap) (amt : ℚ),
    removeBuyLoop fuel i (l.map h) amt = (heapRemoveBuyLoop l fuel i h amt >>= fun r => .ok (r.1, l.map r.2)) ∧
    ∀ r, heapRemoveBuyLoop l fuel i h amt = .ok r → Heap.Frame l h r.2 := by
  intro fuel
  induction fuel with
  | zero => intro i h amt; exact ⟨rfl, fun _ h => by cases h⟩
  | succ n ih =>
    intro i h amt
    unfold removeBuyLoop heapRemoveBuyLoop
    split
    · cases pyAssert (i ≥ 0) "amount.py:223" with
      | error e => exact ⟨rfl, fun _ h => by cases h⟩
      | ok _ =>
        simp only [ok_bind, pyGet_map]
        cases hg : pyGet l i with
        | error e => exact ⟨rfl, fun _ h => by cases h⟩
        | ok r =>
          simp only [ok_bind]
          rw [pyModify_heap hn hg (Order.subBuy (min (h r).buy amt)) (v := (h r).buy - min (h r).buy amt) rfl]
          simp only [ok_bind, pyGet_map, hg]
          obtain ⟨e1, e2⟩ := ih (if ((h.setBuy r ((h r).buy - min (h r).buy amt)) r).buy = 0 then i - 1 else i)
            (h.setBuy r ((h r).buy - min (h r).buy amt)) (amt - min (h r).buy amt)
          refine ⟨e1, fun q hq => ?_⟩
          exact (Heap.frame_setBuy (pyGet_ok_mem hg) _ _).trans (e2 q hq)
    · exact ⟨rfl, fun _ h => by cases h; exact Heap.Frame.refl _ _⟩

private theorem map_of_frame {l l' : List Ref} {h h' : Heap} (hf : Heap.Frame l h h') (hd : ∀ r ∈ l', r ∉ l) :
    l'.map h' = l'.map h := List.map_congr_left (fun r hr => hf.1 r (hd r hr))

theorem heapUndoB_abs {xrate : ℚ} {fee : Fee} {b s : List Ref} (hn : (b ++ s).Nodup) (st : HeapState) :
    undoB xrate fee (st.abs b s) = (heapUndoB xrate fee b s st >>= fun r => .ok (r.abs b s)) ∧
    ∀ st', heapUndoB xrate fee b s st = .ok st' → Heap.Frame (b ++ s) st.heap st'.heap := by
  obtain ⟨nb, ns, nd⟩ := List.nodup_append.1 hn
  have e0 : st.abs b s = ⟨st.bi, st.si, b.map st.heap, s.map st.heap⟩ := rfl
  rw [e0]
  unfold undoB heapUndoB removeBuyAmount heapRemoveBuyAmount
  simp only [HeapState.abs, pyGet_map, List.length_map]
  cases hb : pyGet b st.bi with
  | error e => exact ⟨rfl, fun _ h => by cases h⟩
  | ok rb =>
    simp only [ok_bind]
    cases sBuyFromBBuy (st.heap rb).buy xrate fee with
    | error e => exact ⟨rfl, fun _ h => by cases h⟩
    | ok amt =>
      simp only [ok_bind]
      obtain ⟨e1, e2⟩ := heapRemoveBuyLoop_abs ns (s.length + 1) st.si st.heap amt
      rw [e1]
      cases hr : heapRemoveBuyLoop s (s.length + 1) st.si st.heap amt with
      | error e => exact ⟨rfl, fun _ h => by cases h⟩
      | ok q =>
        obtain ⟨si, h⟩ := q
        have fr := e2 _ hr
        dsimp only at fr
        simp only [ok_bind]
        have hmb := pyGet_ok_mem hb
        have hrs : rb ∉ s := fun hc => nd rb hmb rb hc rfl
        rw [← map_of_frame fr (l' := b) (fun r hr hc => nd r hr r hc rfl),
          pyModify_heap nb hb Order.clearBuy (v := 0) rfl]
        simp only [ok_bind]
        by_cases hc : bothOrNone (st.bi - 1) si
        · simp only [pyAssert, if_pos hc]
          refine ⟨?_, fun _ hh => ?_⟩
          · simp only [ok_bind, pure_eq_ok, map_setBuy_of_not_mem hrs]
          · cases hh
            exact (fr.mono (fun r hr => List.mem_append_right _ hr)).trans
              (Heap.frame_setBuy (List.mem_append_left _ hmb) _ _)
        · simp only [pyAssert, if_neg hc]
          exact ⟨rfl, fun _ h => by cases h⟩

theorem heapUndoS_abs {xrate : ℚ} {fee : Fee} {b s : List Ref} (hn : (b ++ s).Nodup) (st : HeapState) :
    undoS xrate fee (st.abs b s) = (heapUndoS xrate fee b s st >>= fun r => .ok (r.abs b s)) ∧
    ∀ st', heapUndoS xrate fee b s st = .ok st' → Heap.Frame (b ++ s) st.heap st'.heap := by
  obtain ⟨nb, ns, nd⟩ := List.nodup_append.1 hn
  have e0 : st.abs b s = ⟨st.bi, st.si, b.map st.heap, s.map st.heap⟩ := rfl
  rw [e0]
  unfold undoS heapUndoS removeBuyAmount heapRemoveBuyAmount
  simp only [HeapState.abs, pyGet_map, List.length_map]
  cases hs : pyGet s st.si with
  | error e => exact ⟨rfl, fun _ h => by cases h⟩
  | ok rs =>
    simp only [ok_bind]
    cases bBuyFromSBuy (st.heap rs).buy xrate fee with
    | error e => exact ⟨rfl, fun _ h => by cases h⟩
    | ok amt =>
      simp only [ok_bind]
      obtain ⟨e1, e2⟩ := heapRemoveBuyLoop_abs nb (b.length + 1) st.bi st.heap amt
      rw [e1]
      cases hr : heapRemoveBuyLoop b (b.length + 1) st.bi st.heap amt with
      | error e => exact ⟨rfl, fun _ h => by cases h⟩
      | ok q =>
        obtain ⟨bi, h⟩ := q
        have fr := e2 _ hr
        dsimp only at fr
        simp only [ok_bind]
        have hms := pyGet_ok_mem hs
        have hrb : rs ∉ b := fun hc => nd rs hc rs hms rfl
        rw [← map_of_frame fr (l' := s) (fun r hr hc => nd r hc r hr rfl),
          pyModify_heap ns hs Order.clearBuy (v := 0) rfl]
        simp only [ok_bind]
        by_cases hc : bothOrNone bi (st.si - 1)
        · simp only [pyAssert, if_pos hc]
          refine ⟨?_, fun _ hh => ?_⟩
          · simp only [ok_bind, pure_eq_ok, map_setBuy_of_not_mem hrb]
          · cases hh
            exact (fr.mono (fun r hr => List.mem_append_left _ hr)).trans
              (Heap.frame_setBuy (List.mem_append_right _ hms) _ _)
        · simp only [pyAssert, if_neg hc]
          exact ⟨rfl, fun _ h => by cases h⟩

theorem heapUndoMinB_abs {cfg : Config} {xrate : ℚ} {fee : Fee} {b s : List Ref} (hn : (b ++ s).Nodup) (st : HeapState) :
    undoMinB cfg xrate fee (st.abs b s) = (heapUndoMinB cfg xrate fee b s st >>= fun r => .ok (r.1.abs b s, r.2)) ∧
    ∀ r, heapUndoMinB cfg xrate fee b s st = .ok r → Heap.Frame (b ++ s) st.heap r.1.heap := by
  obtain ⟨u1, u2⟩ := heapUndoB_abs (xrate := xrate) (fee := fee) hn st
  unfold undoMinB heapUndoMinB
  rw [u1]
  simp only [HeapState.abs, pyGet_map]
  cases hb : pyGet b st.bi with
  | error e => exact ⟨rfl, fun _ h => by cases h⟩
  | ok rb =>
    simp only [ok_bind]
    cases bSellFromBBuy (st.heap rb).buy xrate fee with
    | error e => exact ⟨rfl, fun _ h => by cases h⟩
    | ok q =>
      simp only [ok_bind]
      split
      · cases hu : heapUndoB xrate fee b s st with
        | error e => exact ⟨rfl, fun _ h => by cases h⟩
        | ok st' => exact ⟨rfl, fun _ h => by cases h; exact u2 _ hu⟩
      · exact ⟨rfl, fun _ h => by cases h; exact Heap.Frame.refl _ _⟩

theorem heapUndoMinS_abs {cfg : Config} {xrate : ℚ} {fee : Fee} {b s : List Ref} (hn : (b ++ s).Nodup) (st : HeapState) (u : Bool) :
    undoMinS cfg xrate fee (st.abs b s) u = (heapUndoMinS cfg xrate fee b s st u >>= fun r => .ok (r.1.abs b s, r.2)) ∧
    ∀ r, heapUndoMinS cfg xrate fee b s st u = .ok r → Heap.Frame (b ++ s) st.heap r.1.heap := by
  obtain ⟨u1, u2⟩ := heapUndoS_abs (xrate := xrate) (fee := fee) hn st
  unfold undoMinS heapUndoMinS
  rw [u1]
  simp only [HeapState.abs, pyGet_map]
  cases hs : pyGet s st.si with
  | error e => exact ⟨rfl, fun _ h => by cases h⟩
  | ok rs =>
    simp only [ok_bind]
    cases sSellFromSBuy (st.heap rs).buy xrate fee with
    | error e => exact ⟨rfl, fun _ h => by cases h⟩
    | ok q =>
      simp only [ok_bind]
      split
      · cases hu : heapUndoS xrate fee b s st with
        | error e => exact ⟨rfl, fun _ h => by cases h⟩
        | ok st' => exact ⟨rfl, fun _ h => by cases h; exact u2 _ hu⟩
      · exact ⟨rfl, fun _ h => by cases h; exact Heap.Frame.refl _ _⟩

theorem heapUndoMinTradable_abs {cfg : Config} {xrate : ℚ} {fee : Fee} {b s : List Ref} (hn : (b ++ s).Nodup) (st : HeapState) :
    undoMinTradable cfg xrate fee (st.abs b s) = (heapUndoMinTradable cfg xrate fee b s st >>= fun r => .ok (r.1.abs b s, r.2)) ∧
    ∀ r, heapUndoMinTradable cfg xrate fee b s st = .ok r → Heap.Frame (b ++ s) st.heap r.1.heap := by
  obtain ⟨u1, u2⟩ := heapUndoMinB_abs (cfg := cfg) (xrate := xrate) (fee := fee) hn st
  unfold undoMinTradable heapUndoMinTradable
  rw [u1]
  have hbi : (st.abs b s).bi = st.bi := rfl
  rw [hbi]
  split
  · exact ⟨rfl, fun _ h => by cases h; exact Heap.Frame.refl _ _⟩
  · cases hu : heapUndoMinB cfg xrate fee b s st with
    | error e => exact ⟨rfl, fun _ h => by cases h⟩
    | ok q =>
      obtain ⟨st', u⟩ := q
      obtain ⟨v1, v2⟩ := heapUndoMinS_abs (cfg := cfg) (xrate := xrate) (fee := fee) hn st' u
      simp only [ok_bind]
      have hsi : (st'.abs b s).si = st'.si := rfl
      rw [hsi, v1]
      split
      · exact ⟨rfl, fun _ h => by cases h; exact u2 _ hu⟩
      · exact ⟨rfl, fun r h => (u2 _ hu).trans (v2 r h)⟩

theorem heapExecLoop_abs {xrate : ℚ} {fee : Fee} {maxNr : ℤ} {b s : List Ref} (hn : (b ++ s).Nodup) : ∀ (fuel : ℕ) (st : HeapState),
    execLoop xrate fee maxNr fuel (st.abs b s) = (heapExecLoop xrate fee maxNr b s fuel st >>= fun r => .ok (r.abs b s)) ∧
    ∀ r, heapExecLoop xrate fee maxNr b s fuel st = .ok r → Heap.Frame (b ++ s) st.heap r.heap := by
  intro fuel
  induction fuel with
  | zero => intro st; exact ⟨rfl, fun _ h => by cases h⟩
  | succ n ih =>
    intro st
    obtain ⟨u1, u2⟩ := heapExecuteOrderPair_abs (xrate := xrate) (fee := fee) hn st
    unfold execLoop heapExecLoop
    rw [u1]
    have e1 : (st.abs b s).si = st.si := rfl
    have e2 : (st.abs b s).bi = st.bi := rfl
    have e3 : (st.abs b s).s.length = s.length := List.length_map _
    have e4 : (st.abs b s).b.length = b.length := List.length_map _
    rw [e1, e2, e3, e4]
    split
    · cases hu : heapExecuteOrderPair xrate fee b s st with
      | error e => exact ⟨rfl, fun _ h => by cases h⟩
      | ok st' =>
        obtain ⟨v1, v2⟩ := ih st'
        exact ⟨v1, fun r h => (u2 _ hu).trans (v2 r h)⟩
    · exact ⟨rfl, fun _ h => by cases h; exact Heap.Frame.refl _ _⟩

theorem heapUndoLoop_abs {cfg : Config} {xrate : ℚ} {fee : Fee} {b s : List Ref} (hn : (b ++ s).Nodup) : ∀ (fuel : ℕ) (st : HeapState),
    undoLoop cfg xrate fee fuel (st.abs b s) = (heapUndoLoop cfg xrate fee b s fuel st >>= fun r => .ok (r.abs b s)) ∧
    ∀ r, heapUndoLoop cfg xrate fee b s fuel st = .ok r → Heap.Frame (b ++ s) st.heap r.heap := by
  intro fuel
  induction fuel with
  | zero => intro st; exact ⟨rfl, fun _ h => by cases h⟩
  | succ n ih =>
    intro st
    obtain ⟨u1, u2⟩ := heapUndoMinTradable_abs (cfg := cfg) (xrate := xrate) (fee := fee) hn st
    unfold undoLoop heapUndoLoop
    rw [u1]
    cases hu : heapUndoMinTradable cfg xrate fee b s st with
    | error e => exact ⟨rfl, fun _ h => by cases h⟩
    | ok q =>
      obtain ⟨st', u⟩ := q
      obtain ⟨v1, v2⟩ := ih st'
      simp only [ok_bind]
      split
      · exact ⟨v1, fun r h => (u2 _ hu).trans (v2 r h)⟩
      · exact ⟨rfl, fun _ h => by cases h; exact u2 _ hu⟩

theorem heapLastExecuted_abs (h : Heap) (l : List Ref) (i : ℤ) : lastExecuted (l.map h) i = heapLastExecuted h l i := by
  unfold lastExecuted heapLastExecuted
  rw [List.length_map]
  split
  · rw [pyGet_map]
    cases pyGet l i <;> rfl
  · rfl

theorem heapExecuteSorted_abs {cfg : Config} {xrate : ℚ} {fee : Fee} {maxNr : ℤ} {b s : List Ref} (hn : (b ++ s).Nodup) (h : Heap) :
    executeSorted cfg xrate fee maxNr (b.map h) (s.map h) =
      (heapExecuteSorted cfg xrate fee maxNr b s h >>= fun h' => .ok (b.map h', s.map h')) ∧
    ∀ h', heapExecuteSorted cfg xrate fee maxNr b s h = .ok h' → Heap.Frame (b ++ s) h h' := by
  obtain ⟨u1, u2⟩ := heapExecLoop_abs (xrate := xrate) (fee := fee) (maxNr := maxNr) hn (b.length + s.length + 1)
    { bi := 0, si := 0, heap := h }
  unfold executeSorted heapExecuteSorted
  simp only [List.length_map]
  have e0 : ({ bi := 0, si := 0, b := b.map h, s := s.map h } : ExecState) =
    ({ bi := 0, si := 0, heap := h } : HeapState).abs b s := rfl
  rw [e0, u1]
  cases hx : heapExecLoop xrate fee maxNr b s (b.length + s.length + 1) { bi := 0, si := 0, heap := h } with
  | error e => exact ⟨rfl, fun _ h => by cases h⟩
  | ok st =>
    have f1 := u2 _ hx
    dsimp only at f1
    simp only [ok_bind, HeapState.abs, heapLastExecuted_abs]
    cases heapLastExecuted st.heap b st.bi with
    | error e => exact ⟨rfl, fun _ h => by cases h⟩
    | ok bi =>
      simp only [ok_bind]
      cases heapLastExecuted st.heap s st.si with
      | error e => exact ⟨rfl, fun _ h => by cases h⟩
      | ok si =>
        simp only [ok_bind]
        -- what follows once the count is right
        have fin : ∀ st' : HeapState, Heap.Frame (b ++ s) h st'.heap →
            ((undoLoop cfg xrate fee (b.length + s.length + 1) (st'.abs b s) >>= fun st => do
                pyAssert ((st.b.map (·.buy)).sum * xrate = (st.s.map (·.buy)).sum * (1 - fee.value)) "amount.py:382"
                pure (st.b, st.s)) =
              ((heapUndoLoop cfg xrate fee b s (b.length + s.length + 1) st' >>= fun st => do
                pyAssert ((b.map (fun r => (st.heap r).buy)).sum * xrate =
                  (s.map (fun r => (st.heap r).buy)).sum * (1 - fee.value)) "amount.py:382"
                pure st.heap) >>= fun h' => .ok (b.map h', s.map h'))) ∧
            ∀ h', (heapUndoLoop cfg xrate fee b s (b.length + s.length + 1) st' >>= fun st => do
                pyAssert ((b.map (fun r => (st.heap r).buy)).sum * xrate =
                  (s.map (fun r => (st.heap r).buy)).sum * (1 - fee.value)) "amount.py:382"
                pure st.heap) = .ok h' → Heap.Frame (b ++ s) h h' := by
          intro st' f2
          obtain ⟨v1, v2⟩ := heapUndoLoop_abs (cfg := cfg) (xrate := xrate) (fee := fee) hn (b.length + s.length + 1) st'
          rw [v1]
          cases hy : heapUndoLoop cfg xrate fee b s (b.length + s.length + 1) st' with
          | error e => exact ⟨rfl, fun _ h => by cases h⟩
          | ok st'' =>
            have f3 := f2.trans (v2 _ hy)
            simp only [ok_bind, HeapState.abs, List.map_map, Function.comp_def]
            cases pyAssert ((b.map (fun r => (st''.heap r).buy)).sum * xrate =
                  (s.map (fun r => (st''.heap r).buy)).sum * (1 - fee.value)) "amount.py:382" with
            | error e => exact ⟨rfl, fun _ h => by cases h⟩
            | ok _ => exact ⟨rfl, fun _ h => by cases h; exact f3⟩
        split
        · cases pyAssert (bi + si + 2 = maxNr + 1) "amount.py:367" with
          | error e => exact ⟨rfl, fun _ h => by cases h⟩
          | ok _ =>
            simp only [ok_bind]
            obtain ⟨w1, w2⟩ := heapUndoOrderPair_abs (xrate := xrate) (fee := fee) hn { st with bi := bi, si := si }
            simp only [HeapState.abs] at w1
            rw [w1]
            cases hw : heapUndoOrderPair xrate fee b s { st with bi := bi, si := si } with
            | error e => exact ⟨rfl, fun _ h => by cases h⟩
            | ok st' => exact fin st' (f1.trans (w2 _ hw))
        · exact fin { st with bi := bi, si := si } f1

theorem filterE_map {α β : Type} (f : α → β) (p : β → Py Bool) (l : List α) :
    filterE p (l.map f) = (filterE (fun a => p (f a)) l >>= fun r => .ok (r.map f)) := by
  induction l with
  | nil => rfl
  | cons a l ih =>
    rw [List.map_cons]
    unfold filterE
    rw [ih]
    cases p (f a) with
    | error e => rfl
    | ok c =>
      simp only [ok_bind]
      cases filterE (fun a => p (f a)) l with
      | error e => rfl
      | ok r => cases c <;> rfl

theorem heapSorted_map (h : Heap) (l : List Ref) : (heapSorted h l).map h = sortedByExecPriority (l.map h) := by
  unfold heapSorted sortedByExecPriority
  exact List.map_insertionSort _ _ _ _ (fun a _ b _ => Iff.rfl)

theorem foldl_clear (l : List Ref) : ∀ h : Heap,
    (∀ r ∈ l, (l.foldl (fun h r => h.setBuy r 0) h) r = (h r).clearBuy) ∧
    ∀ r, r ∉ l → (l.foldl (fun h r => h.setBuy r 0) h) r = h r := by
  induction l with
  | nil => intro h; exact ⟨by simp, fun _ _ => rfl⟩
  | cons a l ih =>
    intro h
    obtain ⟨i1, i2⟩ := ih (h.setBuy a 0)
    rw [List.foldl_cons]
    constructor
    · intro r hr
      by_cases hl : r ∈ l
      · rw [i1 r hl]
        by_cases e : r = a
        · subst e; rw [h.setBuy_same]; rfl
        · rw [h.setBuy_ne 0 e]
      · rcases List.mem_cons.1 hr with e | e
        · subst e
          rw [i2 r hl, h.setBuy_same]; rfl
        · exact absurd e hl
    · intro r hr
      rw [List.mem_cons, not_or] at hr
      rw [i2 r hr.2, h.setBuy_ne 0 hr.1]

private theorem heapFilterE_sublist {α : Type} {p : α → Py Bool} : ∀ {l r : List α}, filterE p l = .ok r → r.Sublist l := by
  intro l
  induction l with
  | nil => intro r h; cases h; exact List.Sublist.refl _
  | cons a l ih =>
    intro r h
    unfold filterE at h
    cases hp : p a with
    | error e => rw [hp] at h; cases h
    | ok c =>
      rw [hp] at h
      simp only [ok_bind] at h
      cases hl : filterE p l with
      | error e => rw [hl] at h; cases h
      | ok q =>
        rw [hl] at h
        simp only [ok_bind, pure_eq_ok] at h
        have := ih hl
        cases c
        · cases h; exact this.cons _
        · cases h; exact this.cons_cons _

theorem heapFilterMaxXrate_abs (h : Heap) (xrate : ℚ) (b s : List Ref) (fee : Fee) :
    filterMaxXrate xrate (b.map h) (s.map h) fee =
      (heapFilterMaxXrate h xrate b s fee >>= fun r => .ok (r.1.map h, r.2.map h)) ∧
    ∀ r, heapFilterMaxXrate h xrate b s fee = .ok r → r.1.Sublist b ∧ r.2.Sublist s := by
  unfold filterMaxXrate heapFilterMaxXrate
  simp only [filterE_map, List.filter_map, Function.comp_def]
  cases hf : filterE (fun r => do
    let q ← pyDiv 1 xrate
    pure (decide (q ≤ (h r).maxXrate * (1 - fee.value)))) s with
  | error e => exact ⟨rfl, fun _ h => by cases h⟩
  | ok q => exact ⟨rfl, fun _ hh => by cases hh; exact ⟨List.filter_sublist, heapFilterE_sublist hf⟩⟩

theorem heapFilterMinTradable_abs (cfg : Config) (h : Heap) (xrate : ℚ) (b s : List Ref) (fee : Fee) :
    filterMinTradable cfg xrate (b.map h) (s.map h) fee =
      (heapFilterMinTradable cfg h xrate b s fee >>= fun r => .ok (r.1.map h, r.2.map h)) ∧
    ∀ r, heapFilterMinTradable cfg h xrate b s fee = .ok r → r.1.Sublist b ∧ r.2.Sublist s := by
  unfold filterMinTradable heapFilterMinTradable
  simp only [filterE_map]
  cases hb : filterE (fun r => if (h r).maxSell ≥ cfg.minRationalTradable then do
      let v ← bBuyFromBMaxSell (h r) xrate fee
      pure (decide (v ≥ cfg.minRationalTradable))
    else pure false) b with
  | error e => exact ⟨rfl, fun _ h => by cases h⟩
  | ok p =>
    simp only [ok_bind]
    cases hs : filterE (fun r => if (h r).maxSell ≥ cfg.minRationalTradable then do
        let v ← sBuyFromSMaxSell (h r) xrate fee
        pure (decide (v ≥ cfg.minRationalTradable))
      else pure false) s with
    | error e => exact ⟨rfl, fun _ h => by cases h⟩
    | ok q => exact ⟨rfl, fun _ hh => by cases hh; exact ⟨heapFilterE_sublist hb, heapFilterE_sublist hs⟩⟩

theorem heapSorted_perm (h : Heap) (l : List Ref) : (heapSorted h l).Perm l := List.perm_insertionSort _ _

/-- Reading the objects of the full list gives what `writeBack` writes. -/
theorem writeBack_heap {h h' : Heap} {l m : List Ref} (hid : (l.map (fun r => (h r).id)).Nodup) (hm : ∀ r ∈ m, r ∈ l)
    (hsame : ∀ r ∈ l, r ∉ m → h' r = h r) (hi : ∀ r, (h' r).id = (h r).id) :
    writeBack (l.map h) (m.map h') = l.map h' := by
  unfold writeBack
  rw [List.map_map]
  apply List.map_congr_left
  intro r hr
  simp only [Function.comp]
  have inj : ∀ q ∈ m, (h' q).id = (h r).id → q = r := fun q hq e =>
    List.inj_on_of_nodup_map hid (hm q hq) hr ((hi q).symm.trans e)
  cases hf : (m.map h').find? (fun u => u.id = (h r).id) with
  | none =>
    rw [Option.getD_none]
    have hnm : r ∉ m := by
      intro hrm
      have := List.find?_eq_none.1 hf (h' r) (List.mem_map_of_mem hrm)
      simp [hi r] at this
    exact (hsame r hr hnm).symm
  | some u =>
    rw [Option.getD_some]
    have h1 := List.find?_some hf
    have h2 := List.mem_of_find?_eq_some hf
    obtain ⟨q, hq, rfl⟩ := List.mem_map.1 h2
    rw [inj q hq (by simpa using h1)]

theorem heapComputeBuyAmounts_abs {cfg : Config} {xrate : ℚ} {fee : Fee} {maxNr : ℤ} {b s : List Ref} (hn : (b ++ s).Nodup)
    (h : Heap) (hb : (b.map (fun r => (h r).id)).Nodup) (hs : (s.map (fun r => (h r).id)).Nodup) :
    computeBuyAmounts cfg xrate (b.map h) (s.map h) fee maxNr =
      (heapComputeBuyAmounts cfg xrate b s fee maxNr h >>= fun h' => .ok (b.map h', s.map h')) ∧
    ∀ h', heapComputeBuyAmounts cfg xrate b s fee maxNr h = .ok h' → Heap.Frame (b ++ s) h h' := by
  obtain ⟨nb, ns, nd⟩ := List.nodup_append.1 hn
  unfold computeBuyAmounts heapComputeBuyAmounts
  -- the heap with all buy amounts cleared
  obtain ⟨c1, c2⟩ := foldl_clear b h
  obtain ⟨d1, d2⟩ := foldl_clear s (b.foldl (fun h r => h.setBuy r 0) h)
  generalize hg : s.foldl (fun h r => h.setBuy r 0) (b.foldl (fun h r => h.setBuy r 0) h) = g at *
  generalize b.foldl (fun h r => h.setBuy r 0) h = g1 at *
  have gb : ∀ r ∈ b, g r = (h r).clearBuy := fun r hr => by
    rw [d2 r (fun hc => nd r hr r hc rfl), c1 r hr]
  have gs : ∀ r ∈ s, g r = (h r).clearBuy := fun r hr => by
    rw [d1 r hr, c2 r (fun hc => nd r hc r hr rfl)]
  have go : ∀ r, r ∉ b ++ s → g r = h r := fun r hr => by
    rw [List.mem_append, not_or] at hr
    rw [d2 r hr.2, c2 r hr.1]
  have fg : Heap.Frame (b ++ s) h g := by
    refine ⟨go, fun r => ?_⟩
    by_cases hr : r ∈ b ++ s
    · rcases List.mem_append.1 hr with hr | hr
      · exact ⟨0, gb r hr⟩
      · exact ⟨0, gs r hr⟩
    · exact ⟨(h r).buy, go r hr⟩
  have gid : ∀ r, (g r).id = (h r).id := fun r => by
    obtain ⟨v, e⟩ := fg.2 r
    rw [e]; rfl
  have eb : (b.map h).map Order.clearBuy = b.map g := by
    rw [List.map_map]; exact List.map_congr_left (fun r hr => (gb r hr).symm)
  have es : (s.map h).map Order.clearBuy = s.map g := by
    rw [List.map_map]; exact List.map_congr_left (fun r hr => (gs r hr).symm)
  simp only [eb, es, hg]
  obtain ⟨m1, m2⟩ := heapFilterMaxXrate_abs g xrate b s fee
  rw [m1]
  cases hm : heapFilterMaxXrate g xrate b s fee with
  | error e => exact ⟨rfl, fun _ h => by cases h⟩
  | ok p =>
    obtain ⟨p1, p2⟩ := p
    obtain ⟨sb, ss⟩ := m2 _ hm
    dsimp only at sb ss
    simp only [ok_bind]
    obtain ⟨t1, t2⟩ := heapFilterMinTradable_abs cfg g xrate p1 p2 fee
    rw [t1]
    cases ht : heapFilterMinTradable cfg g xrate p1 p2 fee with
    | error e => exact ⟨rfl, fun _ h => by cases h⟩
    | ok q =>
      obtain ⟨q1, q2⟩ := q
      obtain ⟨sb', ss'⟩ := t2 _ ht
      dsimp only at sb' ss'
      simp only [ok_bind, List.length_map]
      split
      · exact ⟨rfl, fun _ hh => by cases hh; exact fg⟩
      · simp only [← heapSorted_map]
        have pb := heapSorted_perm g q1
        have ps := heapSorted_perm g q2
        have sub1 : ∀ r ∈ heapSorted g q1, r ∈ b := fun r hr => (sb'.trans sb).subset (pb.mem_iff.1 hr)
        have sub2 : ∀ r ∈ heapSorted g q2, r ∈ s := fun r hr => (ss'.trans ss).subset (ps.mem_iff.1 hr)
        have nn : (heapSorted g q1 ++ heapSorted g q2).Nodup := by
          refine List.nodup_append.2 ⟨pb.nodup_iff.2 ((sb'.trans sb).nodup nb), ps.nodup_iff.2 ((ss'.trans ss).nodup ns), ?_⟩
          intro r hr r' hr'
          exact nd r (sub1 r hr) r' (sub2 r' hr')
        obtain ⟨x1, x2⟩ := heapExecuteSorted_abs (cfg := cfg) (xrate := xrate) (fee := fee) (maxNr := maxNr) nn g
        rw [x1]
        cases hx : heapExecuteSorted cfg xrate fee maxNr (heapSorted g q1) (heapSorted g q2) g with
        | error e => exact ⟨rfl, fun _ h => by cases h⟩
        | ok h' =>
          have fx := x2 _ hx
          have fxid : ∀ r, (h' r).id = (g r).id := fun r => by
            obtain ⟨v, e⟩ := fx.2 r
            rw [e]; rfl
          simp only [ok_bind, pure_eq_ok]
          refine ⟨?_, fun _ hh => ?_⟩
          · have o1 : ∀ r ∈ b, r ∉ heapSorted g q1 → h' r = g r := fun r hr hnm => fx.1 r (fun hc => by
              rcases List.mem_append.1 hc with hc | hc
              · exact hnm hc
              · exact nd r hr r (sub2 r hc) rfl)
            have o2 : ∀ r ∈ s, r ∉ heapSorted g q2 → h' r = g r := fun r hr hnm => fx.1 r (fun hc => by
              rcases List.mem_append.1 hc with hc | hc
              · exact nd r (sub1 r hc) r hr rfl
              · exact hnm hc)
            rw [writeBack_heap (by simpa only [gid] using hb) sub1 o1 fxid,
              writeBack_heap (by simpa only [gid] using hs) sub2 o2 fxid]
          · cases hh
            refine fg.trans (fx.mono (fun r hr => ?_))
            rcases List.mem_append.1 hr with hr | hr
            · exact List.mem_append_left _ (sub1 r hr)
            · exact List.mem_append_right _ (sub2 r hr)

end Dex
