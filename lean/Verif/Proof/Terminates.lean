import Verif.Proof.Solver
import Verif.Model.Api

/-! # No modelled loop runs out of fuel -/

namespace Dex

set_option linter.unusedTactic false
set_option linter.unreachableTactic false

open Spec

/-- The computation ends (with a value or an exception). -/
def ND {α : Type} (x : Py α) : Prop := x ≠ .error .diverge

theorem nd_ok {α : Type} (a : α) : ND (.ok a : Py α) := by unfold ND; simp

theorem nd_pure {α : Type} (a : α) : ND (pure a : Py α) := nd_ok a

theorem nd_error {α : Type} {e : PyErr} (h : e ≠ .diverge) : ND (.error e : Py α) := by unfold ND; simpa using h

theorem nd_bind {α β : Type} {x : Py α} {f : α → Py β} (h : ND x) (hf : ∀ a, x = .ok a → ND (f a)) : ND (x >>= f) := by
  cases x with
  | error e => unfold ND at *; rw [error_bind]; simpa using h
  | ok a => rw [ok_bind]; exact hf a rfl

theorem nd_assert (c : Prop) [Decidable c] (s : String) : ND (pyAssert c s) := by unfold ND pyAssert; split <;> simp

theorem nd_div (a b : ℚ) : ND (pyDiv a b) := by unfold ND pyDiv; split <;> simp

theorem nd_floorDiv (a b : ℚ) : ND (pyFloorDiv a b) := by unfold ND pyFloorDiv; split <;> simp

theorem nd_mod (a b : ℚ) : ND (pyMod a b) := by unfold ND pyMod; split <;> simp

theorem nd_index (n : ℕ) (i : ℤ) : ND (pyIndex n i) := by unfold ND pyIndex; split <;> split <;> simp

theorem nd_get {α : Type} (l : List α) (i : ℤ) : ND (pyGet l i) := by
  have := nd_index l.length i
  unfold pyGet
  split
  · rename_i e he; rw [he] at this; unfold ND at *; simpa using this
  · split
    · exact nd_ok _
    · exact nd_error (by simp)

theorem nd_modify {α : Type} (l : List α) (i : ℤ) (f : α → α) : ND (pyModify l i f) := by
  have := nd_index l.length i
  unfold pyModify
  split
  · rename_i e he; rw [he] at this; unfold ND at *; simpa using this
  · exact nd_ok _

theorem nd_mapE {α β : Type} {f : α → Py β} {l : List α} (h : ∀ a ∈ l, ND (f a)) : ND (mapE f l) := by
  induction l with
  | nil => exact nd_ok _
  | cons a l ih =>
    exact nd_bind (h a (by simp)) (fun _ _ => nd_bind (ih (fun a ha => h a (by simp [ha]))) (fun _ _ => nd_pure _))

theorem nd_filterE {α : Type} {f : α → Py Bool} {l : List α} (h : ∀ a ∈ l, ND (f a)) : ND (filterE f l) := by
  induction l with
  | nil => exact nd_ok _
  | cons a l ih =>
    exact nd_bind (h a (by simp)) (fun _ _ => nd_bind (ih (fun a ha => h a (by simp [ha]))) (fun _ _ => nd_pure _))

theorem nd_sumE {α : Type} {f : α → Py ℚ} {l : List α} (h : ∀ a ∈ l, ND (f a)) : ND (sumE f l) := by
  induction l with
  | nil => exact nd_ok _
  | cons a l ih =>
    exact nd_bind (h a (by simp)) (fun _ _ => nd_bind (ih (fun a ha => h a (by simp [ha]))) (fun _ _ => nd_pure _))

theorem nd_allE {α : Type} {f : α → Py Bool} {l : List α} (h : ∀ a ∈ l, ND (f a)) : ND (allE f l) := by
  induction l with
  | nil => exact nd_ok _
  | cons a l ih =>
    refine nd_bind (h a (by simp)) (fun b _ => ?_)
    cases b
    · exact nd_pure _
    · exact ih (fun a ha => h a (by simp [ha]))

theorem nd_anyE {α : Type} {f : α → Py Bool} {l : List α} (h : ∀ a ∈ l, ND (f a)) : ND (anyE f l) := by
  induction l with
  | nil => exact nd_ok _
  | cons a l ih =>
    refine nd_bind (h a (by simp)) (fun b _ => ?_)
    cases b
    · exact ih (fun a ha => h a (by simp [ha]))
    · exact nd_pure _

theorem nd_foldE {α σ : Type} {f : σ → α → Py σ} {l : List α} {st : σ} (h : ∀ st, ∀ a ∈ l, ND (f st a)) : ND (foldE f st l) := by
  induction l generalizing st with
  | nil => exact nd_ok _
  | cons a l ih => exact nd_bind (h st a (by simp)) (fun _ _ => ih (fun st a ha => h st a (by simp [ha])))

theorem nd_maxBy {α : Type} (f : α → ℚ) (l : List α) : ND (pyMaxBy f l) := by
  cases l with
  | nil => exact nd_error (by simp)
  | cons => exact nd_ok _

theorem nd_minBy {α : Type} (f : α → ℚ) (l : List α) : ND (pyMinBy f l) := by
  cases l with
  | nil => exact nd_error (by simp)
  | cons => exact nd_ok _

theorem nd_dictGet {κ υ : Type} [DecidableEq κ] (d : Dict κ υ) (k : κ) : ND (dictGet d k) := by
  unfold dictGet
  split
  · exact nd_ok _
  · exact nd_error (by simp)

/-- Closes a goal `ND x` with a lemma about the head of `x`; extended by `macro_rules`. -/
syntax "nd1" : tactic
macro_rules | `(tactic| nd1) => `(tactic| with_reducible exact nd_pure _)
macro_rules | `(tactic| nd1) => `(tactic| with_reducible exact nd_ok _)
macro_rules | `(tactic| nd1) => `(tactic| (with_reducible refine nd_error ?_; decide))
macro_rules | `(tactic| nd1) => `(tactic| with_reducible exact nd_assert _ _)
macro_rules | `(tactic| nd1) => `(tactic| with_reducible exact nd_div _ _)
macro_rules | `(tactic| nd1) => `(tactic| with_reducible exact nd_floorDiv _ _)
macro_rules | `(tactic| nd1) => `(tactic| with_reducible exact nd_mod _ _)
macro_rules | `(tactic| nd1) => `(tactic| with_reducible exact nd_get _ _)
macro_rules | `(tactic| nd1) => `(tactic| with_reducible exact nd_modify _ _ _)
macro_rules | `(tactic| nd1) => `(tactic| with_reducible exact nd_maxBy _ _)
macro_rules | `(tactic| nd1) => `(tactic| with_reducible exact nd_minBy _ _)
macro_rules | `(tactic| nd1) => `(tactic| with_reducible exact nd_dictGet _ _)
macro_rules | `(tactic| nd1) => `(tactic| with_reducible refine nd_mapE (fun _ _ => ?_))
macro_rules | `(tactic| nd1) => `(tactic| with_reducible refine nd_filterE (fun _ _ => ?_))
macro_rules | `(tactic| nd1) => `(tactic| with_reducible refine nd_sumE (fun _ _ => ?_))
macro_rules | `(tactic| nd1) => `(tactic| with_reducible refine nd_allE (fun _ _ => ?_))
macro_rules | `(tactic| nd1) => `(tactic| with_reducible refine nd_anyE (fun _ _ => ?_))
macro_rules | `(tactic| nd1) => `(tactic| with_reducible refine nd_foldE (fun _ _ _ => ?_))

/-- Proves `ND x` by following the structure of `x`. -/
macro "nd" : tactic => `(tactic| repeat' first | nd1 | with_reducible refine nd_bind ?_ (fun _ _ => ?_) | split | dsimp only)

/-! ### amount.py -/

theorem nd_bBuyFromBSell (a x : ℚ) (fee : Fee) : ND (bBuyFromBSell a x fee) := by unfold bBuyFromBSell; nd
theorem nd_bSellFromBBuy (a x : ℚ) (fee : Fee) : ND (bSellFromBBuy a x fee) := by unfold bSellFromBBuy; nd
theorem nd_bBuyFromBMaxSell (o : Order) (x : ℚ) (fee : Fee) : ND (bBuyFromBMaxSell o x fee) := nd_bBuyFromBSell _ _ _
theorem nd_sBuyFromSSell (a x : ℚ) (fee : Fee) : ND (sBuyFromSSell a x fee) := by unfold sBuyFromSSell; nd
theorem nd_sSellFromSBuy (a x : ℚ) (fee : Fee) : ND (sSellFromSBuy a x fee) := by unfold sSellFromSBuy; nd
theorem nd_sBuyFromSMaxSell (o : Order) (x : ℚ) (fee : Fee) : ND (sBuyFromSMaxSell o x fee) := nd_sBuyFromSSell _ _ _
theorem nd_bBuyFromSBuy (a x : ℚ) (fee : Fee) : ND (bBuyFromSBuy a x fee) := by unfold bBuyFromSBuy; nd
theorem nd_sBuyFromBBuy (a x : ℚ) (fee : Fee) : ND (sBuyFromBBuy a x fee) := by unfold sBuyFromBBuy; nd
macro_rules | `(tactic| nd1) => `(tactic| with_reducible exact nd_bBuyFromBSell _ _ _)
macro_rules | `(tactic| nd1) => `(tactic| with_reducible exact nd_bSellFromBBuy _ _ _)
macro_rules | `(tactic| nd1) => `(tactic| with_reducible exact nd_bBuyFromBMaxSell _ _ _)
macro_rules | `(tactic| nd1) => `(tactic| with_reducible exact nd_sBuyFromSSell _ _ _)
macro_rules | `(tactic| nd1) => `(tactic| with_reducible exact nd_sSellFromSBuy _ _ _)
macro_rules | `(tactic| nd1) => `(tactic| with_reducible exact nd_sBuyFromSMaxSell _ _ _)
macro_rules | `(tactic| nd1) => `(tactic| with_reducible exact nd_bBuyFromSBuy _ _ _)
macro_rules | `(tactic| nd1) => `(tactic| with_reducible exact nd_sBuyFromBBuy _ _ _)

theorem nd_filterMaxXrate (x : ℚ) (b s : List Order) (fee : Fee) : ND (filterMaxXrate x b s fee) := by unfold filterMaxXrate; nd
theorem nd_filterMinTradable (cfg : Config) (x : ℚ) (b s : List Order) (fee : Fee) : ND (filterMinTradable cfg x b s fee) := by
  unfold filterMinTradable; nd
theorem nd_executeOrderPair (x : ℚ) (fee : Fee) (st : ExecState) : ND (executeOrderPair x fee st) := by unfold executeOrderPair; nd
theorem nd_undoOrderPair (x : ℚ) (fee : Fee) (st : ExecState) : ND (undoOrderPair x fee st) := by unfold undoOrderPair; nd
macro_rules | `(tactic| nd1) => `(tactic| with_reducible exact nd_filterMaxXrate _ _ _ _)
macro_rules | `(tactic| nd1) => `(tactic| with_reducible exact nd_filterMinTradable _ _ _ _ _)
macro_rules | `(tactic| nd1) => `(tactic| with_reducible exact nd_executeOrderPair _ _ _)
macro_rules | `(tactic| nd1) => `(tactic| with_reducible exact nd_undoOrderPair _ _ _)

theorem pyModify_length {α : Type} {l l' : List α} {i : ℤ} {f : α → α} (h : pyModify l i f = .ok l') : l'.length = l.length := by
  unfold pyModify at h
  split at h
  · cases h
  · cases h; simp

theorem pyIndex_nonneg {n : ℕ} {i : ℤ} {k : ℕ} (h : pyIndex n i = .ok k) (h0 : 0 ≤ i) : i.toNat = k ∧ k < n := by
  unfold pyIndex at h
  rw [if_pos h0] at h
  split at h
  · cases h; exact ⟨rfl, by assumption⟩
  · cases h

theorem pyGet_lt {α : Type} {l : List α} {i : ℤ} {a : α} (h : pyGet l i = .ok a) (h0 : 0 ≤ i) : i < l.length := by
  unfold pyGet at h
  split at h
  · cases h
  · rename_i k hk
    obtain ⟨e, hl⟩ := pyIndex_nonneg hk h0
    omega

/-- Reading back what was just modified. -/
theorem pyGet_modify {α : Type} {l l' : List α} {i : ℤ} {a b : α} {f : α → α} (h1 : pyGet l i = .ok a) (h2 : pyModify l i f = .ok l')
    (h3 : pyGet l' i = .ok b) : b = f a := by
  unfold pyGet at h1 h3
  unfold pyModify at h2
  cases hk : pyIndex l.length i with
  | error e => rw [hk] at h2; cases h2
  | ok k =>
    rw [hk] at h1 h2
    simp only [Except.ok.injEq] at h2
    subst h2
    rw [List.length_modify, hk] at h3
    simp only [List.getElem?_modify, if_true] at h1 h3
    cases hl : l[k]? with
    | none => rw [hl] at h1; cases h1
    | some c =>
      rw [hl] at h1 h3
      cases h1
      simp at h3
      exact h3.symm

theorem executeOrderPair_progress {x : ℚ} {fee : Fee} {st st' : ExecState} (h : executeOrderPair x fee st = .ok st') :
    (st.bi + st.si + 1 ≤ st'.bi + st'.si ∧ st'.bi ≤ st.bi + 1 ∧ st'.si ≤ st.si + 1) ∧ st'.b.length = st.b.length ∧ st'.s.length = st.s.length := by
  unfold executeOrderPair at h
  simp only [bind_eq_ok] at h
  obtain ⟨_, _, _, _, _, _, _, _, _, _, _, _, _, _, h⟩ := h
  split at h
  · simp only [bind_eq_ok] at h
    obtain ⟨b, h1, s, h2, h⟩ := h
    cases h
    exact ⟨by dsimp only; omega, pyModify_length h1, pyModify_length h2⟩
  split at h
  · simp only [bind_eq_ok] at h
    obtain ⟨b, h1, s, h2, h⟩ := h
    cases h
    exact ⟨by dsimp only; omega, pyModify_length h1, pyModify_length h2⟩
  · simp only [bind_eq_ok] at h
    obtain ⟨b, h1, s, h2, h⟩ := h
    cases h
    exact ⟨by dsimp only; omega, pyModify_length h1, pyModify_length h2⟩

theorem nd_execLoop {x : ℚ} {fee : Fee} {n : ℤ} {fuel : ℕ} {st : ExecState} (h1 : 1 ≤ fuel)
    (h2 : (st.b.length : ℤ) + st.s.length - st.bi - st.si ≤ fuel) : ND (execLoop x fee n fuel st) := by
  induction fuel generalizing st with
  | zero => omega
  | succ fuel ih =>
    unfold execLoop
    split
    · rename_i hc
      refine nd_bind (nd_executeOrderPair _ _ _) (fun st' h => ?_)
      obtain ⟨p1, p2, p3⟩ := executeOrderPair_progress h
      exact ih (by omega) (by rw [p2, p3]; omega)
    · exact nd_pure _

theorem execLoop_inv {x : ℚ} {fee : Fee} {n : ℤ} {fuel : ℕ} {st st' : ExecState} (h : execLoop x fee n fuel st = .ok st') :
    st'.b.length = st.b.length ∧ st'.s.length = st.s.length ∧
      (st.bi ≤ st.b.length → st.si ≤ st.s.length → st'.bi ≤ st.b.length ∧ st'.si ≤ st.s.length) := by
  induction fuel generalizing st with
  | zero => cases h
  | succ fuel ih =>
    unfold execLoop at h
    split at h
    · rw [bind_eq_ok] at h
      obtain ⟨st1, h1, h⟩ := h
      obtain ⟨p1, p2, p3⟩ := executeOrderPair_progress h1
      obtain ⟨q2, q3, q4⟩ := ih h
      rw [p2, p3] at q4
      exact ⟨q2.trans p2, q3.trans p3, fun _ _ => q4 (by omega) (by omega)⟩
    · cases h; exact ⟨rfl, rfl, fun a b => ⟨a, b⟩⟩

theorem nd_removeBuyLoop {fuel : ℕ} {i : ℤ} {orders : List Order} {amt : ℚ} (h1 : 1 ≤ fuel)
    (h : amt ≤ 0 ∨ i + 2 ≤ fuel ∨ (orders.length : ℤ) ≤ i) : ND (removeBuyLoop fuel i orders amt) := by
  induction fuel generalizing i orders amt with
  | zero => omega
  | succ fuel ih =>
    unfold removeBuyLoop
    split
    · rename_i hpos
      refine nd_bind (nd_assert _ _) (fun _ ha => ?_)
      rw [pyAssert_eq_ok] at ha
      refine nd_bind (nd_get _ _) (fun o ho => ?_)
      dsimp only
      refine nd_bind (nd_modify _ _ _) (fun orders' hm => ?_)
      refine nd_bind (nd_get _ _) (fun o' ho' => ?_)
      have e := pyGet_modify ho hm ho'
      have hlt := pyGet_lt ho ha
      have hf : i + 2 ≤ (fuel : ℤ) + 1 := by
        rcases h with h | h | h
        · linarith
        · exact_mod_cast h
        · omega
      refine ih (by omega) ?_
      rcases le_total o.buy amt with hle | hle
      · right; left
        rw [if_pos (by rw [e]; simp [Order.subBuy, Order.withBuy, min_eq_left hle])]
        omega
      · left
        rw [min_eq_right hle]; linarith
    · exact nd_pure _

theorem nd_removeBuyAmount (i : ℤ) (orders : List Order) (amt : ℚ) : ND (removeBuyAmount i orders amt) := by
  unfold removeBuyAmount
  refine nd_removeBuyLoop (by omega) ?_
  right
  rcases lt_or_ge i orders.length with h | h
  · left; push_cast; omega
  · right; exact h
macro_rules | `(tactic| nd1) => `(tactic| with_reducible exact nd_removeBuyAmount _ _ _)

theorem removeBuyLoop_le {fuel : ℕ} {i : ℤ} {orders : List Order} {amt : ℚ} {r : ℤ × List Order}
    (h : removeBuyLoop fuel i orders amt = .ok r) : r.1 ≤ i := by
  induction fuel generalizing i orders amt with
  | zero => cases h
  | succ fuel ih =>
    unfold removeBuyLoop at h
    split at h
    · simp only [bind_eq_ok] at h
      obtain ⟨_, _, _, _, _, _, _, _, h⟩ := h
      have := ih h
      split at this <;> omega
    · cases h; exact le_refl _

theorem nd_undoMinTradable (cfg : Config) (x : ℚ) (fee : Fee) (st : ExecState) : ND (undoMinTradable cfg x fee st) := by
  unfold undoMinTradable undoMinB undoMinS undoB undoS
  nd

theorem undoB_progress {x : ℚ} {fee : Fee} {st st' : ExecState} (h : undoB x fee st = .ok st') :
    -2 ≤ st'.bi + st'.si ∧ st'.bi + st'.si + 1 ≤ st.bi + st.si := by
  unfold undoB at h
  simp only [bind_eq_ok, pyAssert_eq_ok, exists_and_left, exists_const] at h
  obtain ⟨_, _, _, _, ⟨si, s⟩, h1, _, _, h2, h⟩ := h
  cases h
  have := removeBuyLoop_le h1
  dsimp only at *
  unfold bothOrNone at h2
  omega

theorem undoS_progress {x : ℚ} {fee : Fee} {st st' : ExecState} (h : undoS x fee st = .ok st') :
    -2 ≤ st'.bi + st'.si ∧ st'.bi + st'.si + 1 ≤ st.bi + st.si := by
  unfold undoS at h
  simp only [bind_eq_ok, pyAssert_eq_ok, exists_and_left, exists_const] at h
  obtain ⟨_, _, _, _, ⟨bi, b⟩, h1, _, _, h2, h⟩ := h
  cases h
  have := removeBuyLoop_le h1
  dsimp only at *
  unfold bothOrNone at h2
  omega

theorem undoMinTradable_progress {cfg : Config} {x : ℚ} {fee : Fee} {st st' : ExecState} (h : undoMinTradable cfg x fee st = .ok (st', true)) :
    -2 ≤ st'.bi + st'.si ∧ st'.bi + st'.si + 1 ≤ st.bi + st.si := by
  unfold undoMinTradable at h
  split at h
  · cases h
  rw [bind_eq_ok] at h
  obtain ⟨⟨st1, u1⟩, h1, h⟩ := h
  have p1 : (u1 = true → -2 ≤ st1.bi + st1.si ∧ st1.bi + st1.si + 1 ≤ st.bi + st.si) ∧ (u1 = false → st1 = st) := by
    unfold undoMinB at h1
    dsimp only at h1
    simp only [bind_eq_ok] at h1
    obtain ⟨_, _, _, _, h1⟩ := h1
    split at h1
    · rw [bind_eq_ok] at h1
      obtain ⟨st2, h2, e⟩ := h1
      cases e
      exact ⟨fun _ => undoB_progress h2, by simp⟩
    · cases h1; exact ⟨by simp, fun _ => rfl⟩
  dsimp only at h
  split at h
  · cases h; exact p1.1 rfl
  · unfold undoMinS at h
    dsimp only at h
    simp only [bind_eq_ok] at h
    obtain ⟨_, _, _, _, h⟩ := h
    split at h
    · rw [bind_eq_ok] at h
      obtain ⟨st2, h2, e⟩ := h
      cases e
      have q := undoS_progress h2
      cases u1
      · rw [p1.2 rfl] at q; exact q
      · have := p1.1 rfl; omega
    · cases h; exact p1.1 rfl

theorem nd_undoLoop {cfg : Config} {x : ℚ} {fee : Fee} {fuel : ℕ} {st : ExecState} (h1 : 1 ≤ fuel) (h2 : st.bi + st.si + 3 ≤ fuel) :
    ND (undoLoop cfg x fee fuel st) := by
  induction fuel generalizing st with
  | zero => omega
  | succ fuel ih =>
    unfold undoLoop
    refine nd_bind (nd_undoMinTradable _ _ _ _) (fun r hr => ?_)
    obtain ⟨st', u⟩ := r
    cases u
    · exact nd_pure _
    · have := undoMinTradable_progress hr
      exact ih (by omega) (by omega)

theorem lastExecuted_lt {l : List Order} {i k : ℤ} (h : lastExecuted l i = .ok k) (hi : i ≤ l.length) : k < l.length := by
  unfold lastExecuted at h
  split at h
  · rw [bind_eq_ok] at h
    obtain ⟨_, _, h⟩ := h
    cases h
    split <;> omega
  · cases h; omega

theorem nd_lastExecuted (l : List Order) (i : ℤ) : ND (lastExecuted l i) := by unfold lastExecuted; nd
macro_rules | `(tactic| nd1) => `(tactic| with_reducible exact nd_lastExecuted _ _)

theorem undoOrderPair_le {x : ℚ} {fee : Fee} {st st' : ExecState} (h : undoOrderPair x fee st = .ok st') :
    st'.bi + st'.si ≤ st.bi + st.si := by
  unfold undoOrderPair at h
  simp only [bind_eq_ok] at h
  obtain ⟨_, _, _, _, _, _, _, _, _, _, h⟩ := h
  split at h
  · simp only [bind_eq_ok] at h
    obtain ⟨b, h1, s, h2, h⟩ := h
    cases h
    dsimp only; omega
  split at h
  · simp only [bind_eq_ok] at h
    obtain ⟨b, h1, s, h2, h⟩ := h
    cases h
    dsimp only; omega
  · simp only [bind_eq_ok] at h
    obtain ⟨b, h1, s, h2, h⟩ := h
    cases h
    dsimp only; omega

theorem nd_executeSorted (cfg : Config) (x : ℚ) (fee : Fee) (n : ℤ) (b s : List Order) : ND (executeSorted cfg x fee n b s) := by
  unfold executeSorted
  refine nd_bind (nd_execLoop (by omega) (by push_cast; omega)) (fun st h => ?_)
  obtain ⟨e1, e2, e3⟩ := execLoop_inv h
  obtain ⟨l1, l2⟩ := e3 (by dsimp only; omega) (by dsimp only; omega)
  dsimp only at e1 e2 l1 l2
  refine nd_bind (nd_lastExecuted _ _) (fun bi hbi => ?_)
  refine nd_bind (nd_lastExecuted _ _) (fun si hsi => ?_)
  have k1 := lastExecuted_lt hbi (by omega)
  have k2 := lastExecuted_lt hsi (by omega)
  dsimp only
  split
  · refine nd_bind (nd_assert _ _) (fun _ _ => ?_)
    refine nd_bind (nd_undoOrderPair _ _ _) (fun st' h' => ?_)
    have := undoOrderPair_le h'
    dsimp only at this
    refine nd_bind (nd_undoLoop (by omega) (by push_cast; omega)) (fun _ _ => ?_)
    nd
  · rw [pure_eq_ok, ok_bind]
    refine nd_bind (nd_undoLoop (by omega) (by push_cast; omega)) (fun _ _ => ?_)
    nd
macro_rules | `(tactic| nd1) => `(tactic| with_reducible exact nd_executeSorted _ _ _ _ _ _)

theorem nd_computeBuyAmounts (cfg : Config) (x : ℚ) (b s : List Order) (fee : Fee) (n : ℤ) : ND (computeBuyAmounts cfg x b s fee n) := by
  unfold computeBuyAmounts; nd
macro_rules | `(tactic| nd1) => `(tactic| with_reducible exact nd_computeBuyAmounts _ _ _ _ _ _)

/-! ### xrate.py, price.py, orderbook.py -/

theorem nd_ratSellFromBuy (a x : ℚ) (fee : Fee) : ND (ratSellFromBuy a x fee) := by unfold ratSellFromBuy; nd
macro_rules | `(tactic| nd1) => `(tactic| with_reducible exact nd_ratSellFromBuy _ _ _)
theorem nd_ratUtility (o : Order) (x p : ℚ) (fee : Fee) : ND (ratUtility o x p fee) := by unfold ratUtility; nd
macro_rules | `(tactic| nd1) => `(tactic| with_reducible exact nd_ratUtility _ _ _ _)
theorem nd_ratMaxUtility (o : Order) (x p : ℚ) (fee : Fee) : ND (ratMaxUtility o x p fee) := by unfold ratMaxUtility; nd
macro_rules | `(tactic| nd1) => `(tactic| with_reducible exact nd_ratMaxUtility _ _ _ _)
theorem nd_ratObjectiveTerm (o : Order) (x p : ℚ) (fee : Fee) : ND (ratObjectiveTerm o x p fee) := by unfold ratObjectiveTerm; nd
macro_rules | `(tactic| nd1) => `(tactic| with_reducible exact nd_ratObjectiveTerm _ _ _ _)
theorem nd_objectiveForOrders (os : List Order) (x p : ℚ) (fee : Fee) : ND (objectiveForOrders os x p fee) := by unfold objectiveForOrders; nd
macro_rules | `(tactic| nd1) => `(tactic| with_reducible exact nd_objectiveForOrders _ _ _ _)
theorem nd_bBuyTokenImbalance (b s : List Order) (x p : ℚ) (fee : Fee) : ND (bBuyTokenImbalance b s x p fee) := by unfold bBuyTokenImbalance; nd
macro_rules | `(tactic| nd1) => `(tactic| with_reducible exact nd_bBuyTokenImbalance _ _ _ _ _)
theorem nd_computeObjectiveRational (cfg : Config) (b s f : List Order) (x p : ℚ) (fee : Fee) :
    ND (computeObjectiveRational cfg b s f x p fee) := by unfold computeObjectiveRational; nd
macro_rules | `(tactic| nd1) => `(tactic| with_reducible exact nd_computeObjectiveRational _ _ _ _ _ _ _)
theorem nd_solverObjective (cfg : Config) (fee : Fee) (b s : List Order) (x : ℚ) : ND (solverObjective cfg fee b s x) := by
  unfold solverObjective; nd
macro_rules | `(tactic| nd1) => `(tactic| with_reducible exact nd_solverObjective _ _ _ _ _)
theorem nd_pruneUnrealizable (b s : List Order) (fee : Fee) : ND (pruneUnrealizable b s fee) := by unfold pruneUnrealizable; nd
macro_rules | `(tactic| nd1) => `(tactic| with_reducible exact nd_pruneUnrealizable _ _ _)
theorem nd_trivialCandidates (b s : List Order) (fee : Fee) : ND (trivialCandidates b s fee) := by unfold trivialCandidates root2; nd
macro_rules | `(tactic| nd1) => `(tactic| with_reducible exact nd_trivialCandidates _ _ _)

theorem nd_binSearchLoop {f : ℚ → Py ℚ} (hf : ∀ x, ND (f x)) {xs : List ℚ} {fuel : ℕ} {l r : ℤ} (h0 : l ≤ r) (h : r - l + 1 ≤ fuel) :
    ND (binSearchLoop f xs fuel l r) := by
  induction fuel generalizing l r with
  | zero => omega
  | succ fuel ih =>
    unfold binSearchLoop
    dsimp only
    split
    · rename_i hc
      have hslope : ∀ i : ℤ, ND (do
          let x ← pyGet xs i
          let a ← f x
          let y ← pyGet xs (i - 1)
          let b ← f y
          pure (a - b)) := fun i =>
        nd_bind (nd_get _ _) (fun _ _ => nd_bind (hf _) (fun _ _ => nd_bind (nd_get _ _) (fun _ _ => nd_bind (hf _) (fun _ _ => nd_pure _))))
      refine nd_bind (hslope _) (fun _ _ => nd_bind (hslope _) (fun _ _ => nd_bind (hslope _) (fun _ _ => ?_)))
      split
      · exact nd_bind (nd_assert _ _) (fun _ _ => ih (by omega) (by omega))
      · exact nd_bind (nd_assert _ _) (fun _ _ => nd_bind (nd_assert _ _) (fun _ _ => ih (by omega) (by omega)))
    · exact nd_pure _

theorem nd_binSearch {f : ℚ → Py ℚ} (hf : ∀ x, ND (f x)) (xs : List ℚ) : ND (binSearch f xs) := by
  unfold binSearch
  split
  · exact nd_bind (nd_mapE (fun _ _ => nd_bind (hf _) (fun _ _ => nd_pure _))) (fun _ _ => nd_maxBy _ _)
  · rename_i hl
    refine nd_bind (nd_get _ _) (fun _ _ => nd_bind (nd_get _ _) (fun _ _ => nd_bind (hf _) (fun _ _ => nd_bind (hf _) (fun _ _ => ?_))))
    split
    · nd
    refine nd_bind (nd_get _ _) (fun _ _ => nd_bind (nd_get _ _) (fun _ _ => nd_bind (hf _) (fun _ _ => nd_bind (hf _) (fun _ _ => ?_))))
    split
    · nd
    refine nd_bind (nd_binSearchLoop hf (by omega) (by push_cast; omega)) (fun _ _ => nd_bind (nd_get _ _) (fun _ _ => nd_bind (hf _) (fun _ _ => nd_pure _)))

theorem nd_solveTrivial (cfg : Config) (fee : Fee) (b s : List Order) : ND (solveTrivial cfg fee b s) := by
  unfold solveTrivial
  refine nd_bind (nd_trivialCandidates _ _ _) (fun _ _ => ?_)
  split
  · exact nd_pure _
  · exact nd_bind (nd_binSearch (fun _ => nd_solverObjective _ _ _ _ _) _) (fun _ _ => nd_pure _)
macro_rules | `(tactic| nd1) => `(tactic| with_reducible exact nd_solveTrivial _ _ _ _)

theorem nd_intervalUpdate (st : IntervalState) (v : Variant) : ND (intervalUpdate st v) := by
  unfold intervalUpdate
  split
  · exact nd_ok _
  · split <;> nd
macro_rules | `(tactic| nd1) => `(tactic| with_reducible exact nd_intervalUpdate _ _)
theorem nd_intervalYields (st : IntervalState) (l u : ℚ) (fee : Fee) : ND (intervalYields st l u fee) := by unfold intervalYields sPartialIdxs; nd
macro_rules | `(tactic| nd1) => `(tactic| with_reducible exact nd_intervalYields _ _ _ _)

theorem nd_intervalLoop (fee : Fee) (opt : Option ℚ) (st : IntervalState) (vs : List Variant) : ND (intervalLoop fee opt st vs) := by
  induction vs generalizing st with
  | nil => unfold intervalLoop; nd
  | cons v vs ih =>
    cases vs with
    | nil => unfold intervalLoop; nd
    | cons w rest =>
      unfold intervalLoop
      refine nd_bind (nd_intervalUpdate _ _) (fun _ _ => ?_)
      dsimp only
      split
      · exact ih _
      split
      · exact ih _
      split
      · exact nd_pure _
      · exact nd_bind (nd_intervalYields _ _ _ _) (fun _ _ => nd_bind (ih _) (fun _ _ => nd_pure _))
macro_rules | `(tactic| nd1) => `(tactic| with_reducible exact nd_intervalLoop _ _ _ _)

theorem nd_xrateIntervals (b s : List Order) (fee : Fee) (opt : Option ℚ) : ND (xrateIntervals b s fee opt) := by unfold xrateIntervals; nd
macro_rules | `(tactic| nd1) => `(tactic| with_reducible exact nd_xrateIntervals _ _ _ _)

theorem nd_localOptima {cfg : Config} {sqrt : ℚ → Py ℚ} (hs : ∀ q, ND (sqrt q)) {fee : Fee} {d : IntervalData} : ND (localOptima cfg sqrt fee d) := by
  unfold localOptima computeConstants cConstant root3 root4 root5
  repeat' first | with_reducible exact hs _ | nd1 | with_reducible refine nd_bind ?_ (fun _ _ => ?_) | split | dsimp only

theorem nd_solveInterval {cfg : Config} {sqrt : ℚ → Py ℚ} (hs : ∀ q, ND (sqrt q)) {fee : Fee} {d : IntervalData} : ND (solveInterval cfg sqrt fee d) := by
  unfold solveInterval
  refine nd_bind (nd_localOptima hs) (fun _ _ => ?_)
  nd

theorem nd_findBestXrate {cfg : Config} {sqrt : ℚ → Py ℚ} (hs : ∀ q, ND (sqrt q)) {b s : List Order} {fee : Fee} :
    ND (findBestXrate cfg sqrt b s fee) := by
  unfold findBestXrate
  repeat' first | with_reducible exact nd_solveInterval hs | nd1 | with_reducible refine nd_bind ?_ (fun _ _ => ?_) | split | dsimp only

theorem nd_createMarketOrder (cfg : Config) (t u : Token) (a : ℚ) (s : List Order) : ND (createMarketOrder cfg t u a s) := by
  unfold createMarketOrder; nd
macro_rules | `(tactic| nd1) => `(tactic| with_reducible exact nd_createMarketOrder _ _ _ _ _)

theorem nd_tokenPrice {cfg : Config} {sqrt : ℚ → Py ℚ} (hs : ∀ q, ND (sqrt q)) {t : Token} {fee : Fee} {a : ℚ} {f : List Order} :
    ND (tokenPriceToCoverImbalance cfg sqrt t fee a f) := by
  unfold tokenPriceToCoverImbalance
  repeat' first | with_reducible exact nd_findBestXrate hs | nd1 | with_reducible refine nd_bind ?_ (fun _ _ => ?_) | split | dsimp only

/-! ### solver.py and round.py -/

theorem nd_computeSBuyTokenPrice (p x : ℚ) (b s : List Order) (fee : Fee) : ND (computeSBuyTokenPrice p x b s fee) := by
  unfold computeSBuyTokenPrice; nd
macro_rules | `(tactic| nd1) => `(tactic| with_reducible exact nd_computeSBuyTokenPrice _ _ _ _ _)
theorem nd_roundXrate (p : Option ℚ) (x : ℚ) (b s : List Order) (fee : Fee) : ND (roundXrate p x b s fee) := by unfold roundXrate; nd
macro_rules | `(tactic| nd1) => `(tactic| with_reducible exact nd_roundXrate _ _ _ _ _)

theorem nd_solveTokenPair {cfg : Config} {sqrt : ℚ → Py ℚ} (hs : ∀ q, ND (sqrt q)) {pair : Token × Token} {b s : List Order} {fee : Fee}
    {x p : Option ℚ} {n : ℤ} : ND (solveTokenPair cfg sqrt pair b s fee x p n) := by
  have hg : ∀ x, ND (givenOrBestXrate cfg sqrt b s fee x) := by
    intro x
    cases x with
    | none => exact nd_bind (nd_findBestXrate hs) (fun _ _ => nd_pure _)
    | some y => exact nd_pure _
  unfold solveTokenPair
  repeat' first | with_reducible exact hg _ | nd1 | with_reducible refine nd_bind ?_ (fun _ _ => ?_) | split | dsimp only

theorem nd_solveBFee {cfg : Config} {sqrt : ℚ → Py ℚ} (hs : ∀ q, ND (sqrt q)) {a : ℚ} {t : Token} {f : List Order} {fee : Fee} :
    ND (solveBFee cfg sqrt a t f fee) := by
  unfold solveBFee
  repeat' first | with_reducible exact nd_tokenPrice hs | with_reducible exact nd_solveTokenPair hs | nd1 | with_reducible refine nd_bind ?_ (fun _ _ => ?_) | split | dsimp only

theorem nd_setMaxSell (o : Order) (v : ℚ) : ND (o.setMaxSell v) := by unfold Order.setMaxSell; nd
macro_rules | `(tactic| nd1) => `(tactic| with_reducible exact nd_setMaxSell _ _)

theorem nd_aggregateOrdersPrices (cfg : Config) (pair : Token × Token) (b s f : List Order) (x p : ℚ) (fee : Fee) :
    ND (aggregateOrdersPrices cfg pair b s f x p fee) := by unfold aggregateOrdersPrices; nd
macro_rules | `(tactic| nd1) => `(tactic| with_reducible exact nd_aggregateOrdersPrices _ _ _ _ _ _ _ _)

theorem nd_roundingBufferEnter (cfg : Config) (pair : Token × Token) (b s : List Order) (x p : ℚ) (fee : Fee) :
    ND (roundingBufferEnter cfg pair b s x p fee) := by
  unfold roundingBufferEnter setupRoundingBuffer maxRoundingAmounts bufferOrder; nd
macro_rules | `(tactic| nd1) => `(tactic| with_reducible exact nd_roundingBufferEnter _ _ _ _ _ _ _)

theorem nd_solveBuffered {cfg : Config} {sqrt : ℚ → Py ℚ} (hs : ∀ q, ND (sqrt q)) {pair : Token × Token} {b s : List Order} {x p : ℚ} {fee : Fee}
    {n : ℤ} : ND (solveBuffered cfg sqrt pair b s x p fee n) := by
  unfold solveBuffered restoreMaxSell
  repeat' first | with_reducible exact nd_solveTokenPair hs | nd1 | with_reducible refine nd_bind ?_ (fun _ _ => ?_) | split | dsimp only

theorem nd_givenExecF {cfg : Config} {sqrt : ℚ → Py ℚ} (hs : ∀ q, ND (sqrt q)) {n : ℕ} {a : ℚ} {pair : Token × Token} {bk : Books} {x : ℚ}
    {fee : Fee} : ND (givenExecF cfg sqrt n a pair bk x fee) := by
  unfold givenExecF
  repeat' first | with_reducible exact nd_solveBFee hs | with_reducible exact nd_solveBuffered hs | nd1 | with_reducible refine nd_bind ?_ (fun _ _ => ?_) | split | dsimp only

theorem nd_fOrdersLoop {cfg : Config} {sqrt : ℚ → Py ℚ} (hs : ∀ q, ND (sqrt q)) {a : ℚ} {pair : Token × Token} {x : ℚ} {fee : Fee}
    {ns : List ℕ} {st : FLoopState} : ND (fOrdersLoop cfg sqrt a pair x fee ns st) := by
  induction ns generalizing st with
  | nil => exact nd_ok _
  | cons n ns ih =>
    unfold fOrdersLoop
    repeat' first | with_reducible exact nd_givenExecF hs | with_reducible exact ih | nd1 | with_reducible refine nd_bind ?_ (fun _ _ => ?_) | split | dsimp only

theorem nd_intSellFromBuy (a x p : ℚ) (fee : Fee) : ND (intSellFromBuy a x p fee) := by unfold intSellFromBuy; nd
macro_rules | `(tactic| nd1) => `(tactic| with_reducible exact nd_intSellFromBuy _ _ _ _)
theorem nd_getSellFromBuy (o : Order) (p : Prices) (fee : Fee) : ND (o.getSellFromBuy p fee) := by unfold Order.getSellFromBuy; nd
macro_rules | `(tactic| nd1) => `(tactic| with_reducible exact nd_getSellFromBuy _ _ _)
theorem nd_setSellFromBuy (o : Order) (p : Prices) (fee : Fee) : ND (o.setSellFromBuy p fee) := by unfold Order.setSellFromBuy; nd
macro_rules | `(tactic| nd1) => `(tactic| with_reducible exact nd_setSellFromBuy _ _ _)

theorem nd_roundLeafLoop (cfg : Config) (leaf parent : Token) (p : Prices) (fee : Fee) (bal : ℚ) (os : List Order) :
    ND (roundLeafLoop cfg leaf parent p fee bal os) := by
  induction os generalizing bal with
  | nil => exact nd_ok _
  | cons o os ih =>
    unfold roundLeafLoop
    repeat' first | with_reducible exact ih _ | nd1 | with_reducible refine nd_bind ?_ (fun _ _ => ?_) | split | dsimp only
macro_rules | `(tactic| nd1) => `(tactic| with_reducible exact nd_roundLeafLoop _ _ _ _ _ _ _)

theorem nd_roundLeafIfNeeded (cfg : Config) (leaf parent : Token) (os : List Order) (bal : ℚ) (p : Prices) (fee : Fee) :
    ND (roundLeafIfNeeded cfg leaf parent os bal p fee) := by
  unfold roundLeafIfNeeded roundLeafToken; nd
macro_rules | `(tactic| nd1) => `(tactic| with_reducible exact nd_roundLeafIfNeeded _ _ _ _ _ _ _)

theorem nd_computeTokenBalances (ts : List Token) (os : List Order) : ND (computeTokenBalances ts os) := by unfold computeTokenBalances; nd
macro_rules | `(tactic| nd1) => `(tactic| with_reducible exact nd_computeTokenBalances _ _)

theorem nd_roundLoop {cfg : Config} {p : Prices} {fee : Fee} {fuel : ℕ} {tree : Dict Token Token} {bal : Dict Token ℚ} {os : List Order}
    (h : tree.length + 1 ≤ fuel) : ND (roundLoop cfg p fee fuel tree bal os) := by
  induction fuel generalizing tree bal os with
  | zero => omega
  | succ fuel ih =>
    unfold roundLoop
    split
    · exact nd_pure _
    dsimp only
    refine nd_bind (nd_get _ _) (fun leaf hl => nd_bind (nd_dictGet _ _) (fun _ _ => nd_bind (nd_dictGet _ _) (fun _ _ =>
      nd_bind (nd_roundLeafIfNeeded _ _ _ _ _ _ _) (fun _ _ => nd_bind (nd_computeTokenBalances _ _) (fun _ _ => nd_bind (nd_dictGet _ _) (fun _ _ => ?_))))))
    split
    · exact nd_pure _
    · refine ih ?_
      have hm := List.mem_of_mem_filter (pyGet_ok_mem hl)
      obtain ⟨e, he, rfl⟩ := List.mem_map.1 hm
      have : (tree.filter (fun q => decide (q.1 ≠ e.1))).length < tree.length :=
        List.length_filter_lt_length_iff_exists.2 ⟨e, he, by simp⟩
      omega

theorem nd_roundSolution (cfg : Config) (br : List (Token × Token) → List (Token × Token)) (p : Prices) (os : List Order) (fee : Fee) :
    ND (roundSolution cfg br p os fee) := by
  unfold roundSolution roundOrder
  refine nd_bind (by nd) (fun _ _ => nd_bind (nd_computeTokenBalances _ _) (fun _ _ => ?_))
  exact nd_roundLoop (le_refl _)
macro_rules | `(tactic| nd1) => `(tactic| with_reducible exact nd_roundSolution _ _ _ _ _)

theorem nd_aggregateAndRound (cfg : Config) (ext : Ext) (pair : Token × Token) (bk : Books) (x p : ℚ) (fee : Fee) :
    ND (aggregateAndRound cfg ext pair bk x p fee) := by unfold aggregateAndRound; nd
macro_rules | `(tactic| nd1) => `(tactic| with_reducible exact nd_aggregateAndRound _ _ _ _ _ _ _)

theorem nd_nrFOrders (cfg : Config) (b s f : List Order) : ND (nrFOrders cfg b s f) := by unfold nrFOrders; nd
macro_rules | `(tactic| nd1) => `(tactic| with_reducible exact nd_nrFOrders _ _ _ _)

theorem nd_solveOriented {cfg : Config} {ext : Ext} (hs : ∀ q, ND (ext.sqrt q)) {pair : Token × Token} {b s f : List Order} {fee : Fee}
    {x : Option ℚ} : ND (solveOriented cfg ext pair b s f fee x) := by
  unfold solveOriented
  repeat' first | with_reducible exact nd_solveTokenPair hs | with_reducible exact nd_fOrdersLoop hs | nd1 | with_reducible refine nd_bind ?_ (fun _ _ => ?_) | split | dsimp only

theorem nd_solveTokenPairAndFee {cfg : Config} {ext : Ext} (hs : ∀ q, ND (ext.sqrt q)) {pair : Token × Token} {b s f : List Order} {fee : Fee}
    {x : Option ℚ} : ND (solveTokenPairAndFee cfg ext pair b s f fee x) := by
  unfold solveTokenPairAndFee
  repeat' first | with_reducible exact nd_solveOriented hs | nd1 | with_reducible refine nd_bind ?_ (fun _ _ => ?_) | split | dsimp only

theorem nd_feePaid (cfg : Config) (o : Order) (p : Prices) (fee : Fee) : ND (o.feePaid cfg p fee) := by unfold Order.feePaid Order.volume; nd
macro_rules | `(tactic| nd1) => `(tactic| with_reducible exact nd_feePaid _ _ _ _)
theorem nd_avgFee (cfg : Config) (os : List Order) (p : Prices) (fee : Fee) : ND (computeAverageOrderFee cfg os p fee) := by
  unfold computeAverageOrderFee computeTotalFee; nd
macro_rules | `(tactic| nd1) => `(tactic| with_reducible exact nd_avgFee _ _ _ _)
theorem nd_isEconomicViable (cfg : Config) (os : List Order) (p : Prices) (fee : Fee) : ND (isEconomicViable cfg os p fee) := by
  unfold isEconomicViable; nd
macro_rules | `(tactic| nd1) => `(tactic| with_reducible exact nd_isEconomicViable _ _ _ _)

theorem nd_viablePrefixLoop {cfg : Config} {os : List Order} {p : Prices} {fee : Fee} {fuel i : ℕ} (h1 : 1 ≤ fuel) (h : os.length + 1 ≤ fuel + i) :
    ND (viablePrefixLoop cfg os p fee fuel i) := by
  induction fuel generalizing i with
  | zero => omega
  | succ fuel ih =>
    unfold viablePrefixLoop
    split
    · refine nd_bind (nd_avgFee _ _ _ _) (fun _ _ => ?_)
      split
      · rcases Nat.eq_zero_or_pos fuel with h0 | h0
        · omega
        · exact ih h0 (by omega)
      · exact nd_pure _
    · exact nd_pure _

theorem nd_approxViableSubset (cfg : Config) (os : List Order) (p : Prices) (fee : Fee) : ND (approxViableSubset cfg os p fee) := by
  unfold approxViableSubset Order.volume
  repeat' first | exact nd_viablePrefixLoop (by omega) (by omega) | nd1 | with_reducible refine nd_bind ?_ (fun _ _ => ?_) | split | dsimp only
macro_rules | `(tactic| nd1) => `(tactic| with_reducible exact nd_approxViableSubset _ _ _ _)

end Dex
