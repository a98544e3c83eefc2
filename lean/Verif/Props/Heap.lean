import Verif.Proof.Heap

/-! # C76: matching the orders of a pair in place

The other theorems treat a list of orders as a list of values.  Here orders are objects with identity: lists hold
references, an assignment changes the object for everyone who refers to it (`Model/Heap.lean`). -/

namespace Dex

/-- C76. Called on two lists of references, `compute_buy_amounts` leaves in the objects exactly the amounts the model on
values computes from their contents, or raises the same exception. No other object changes, and nothing but the buy amount of the
objects given. Assumed: no object is listed twice, ids are distinct within each list. -/
theorem C76_in_place (cfg : Config) (xrate : ℚ) (fee : Fee) (maxNr : ℤ) {b s : List Ref} (hn : (b ++ s).Nodup) (h : Heap)
    (hb : (b.map (fun r => (h r).id)).Nodup) (hs : (s.map (fun r => (h r).id)).Nodup) :
    (∀ h', heapComputeBuyAmounts cfg xrate b s fee maxNr h = .ok h' →
      computeBuyAmounts cfg xrate (b.map h) (s.map h) fee maxNr = .ok (b.map h', s.map h') ∧
      (∀ r, r ∉ b → r ∉ s → h' r = h r) ∧
      ∀ r, h' r = { h r with buy := (h' r).buy }) ∧
    (∀ e, heapComputeBuyAmounts cfg xrate b s fee maxNr h = .error e ↔
      computeBuyAmounts cfg xrate (b.map h) (s.map h) fee maxNr = .error e) := by
  obtain ⟨h1, h2⟩ := heapComputeBuyAmounts_abs (cfg := cfg) (xrate := xrate) (fee := fee) (maxNr := maxNr) hn h hb hs
  constructor
  · intro h' e
    obtain ⟨f1, f2⟩ := h2 h' e
    refine ⟨by rw [h1, e]; rfl, fun r hrb hrs => f1 r (by simp [hrb, hrs]), fun r => ?_⟩
    obtain ⟨v, ev⟩ := f2 r
    rw [ev]
    rfl
  · intro e
    rw [h1]
    cases heapComputeBuyAmounts cfg xrate b s fee maxNr h with
    | error e' =>
      rw [error_bind]
      constructor <;> (intro he; cases he; rfl)
    | ok h' =>
      constructor <;> (intro he; cases he)

/-! ### Non-vacuity -/

namespace ExHeap

def cfg : Config := Config.default
def fee : Fee := { token := "F", value := 1/1000 }

/-- Four objects; the third one belongs to another pair. All carry left-over amounts. -/
def heap : Heap := fun r =>
  match r with
  | 0 => (Order.mk' "A" "B" (10^20) 2 (some "x") "0").withBuy 7
  | 1 => (Order.mk' "A" "B" (2 * 10^20) 3 (some "y") "1").withBuy 8
  | 2 => (Order.mk' "A" "C" (10^20) 3 (some "y") "2").withBuy 9
  | _ => (Order.mk' "B" "A" (10^20) 2 (some "z") (toString r)).withBuy 10

end ExHeap

/-- The matching changes objects 0, 1 and 3 and not object 2. -/
example : ∃ h', heapComputeBuyAmounts ExHeap.cfg 1 [0, 1] [3] ExHeap.fee 30 ExHeap.heap = .ok h' ∧
    (h' 0).buy = 0 ∧ (h' 1).buy > 10^19 ∧ (h' 3).buy > 10^19 ∧ (h' 2).buy = 9 ∧
    computeBuyAmounts ExHeap.cfg 1 ([0, 1].map ExHeap.heap) ([3].map ExHeap.heap) ExHeap.fee 30 =
      .ok ([0, 1].map h', [3].map h') := by
  obtain ⟨h', e, p⟩ := exists_of_pyCheck (x := heapComputeBuyAmounts ExHeap.cfg 1 [0, 1] [3] ExHeap.fee 30 ExHeap.heap)
    (p := fun h' : Heap => (h' 0).buy = 0 ∧ (h' 1).buy > 10^19 ∧ (h' 3).buy > 10^19 ∧ (h' 2).buy = 9) (by decide +kernel)
  refine ⟨h', e, p.1, p.2.1, p.2.2.1, p.2.2.2, ?_⟩
  exact ((C76_in_place ExHeap.cfg 1 ExHeap.fee 30 (b := [0, 1]) (s := [3]) (by decide) ExHeap.heap (by decide +kernel)
    (by decide +kernel)).1 h' e).1

end Dex
