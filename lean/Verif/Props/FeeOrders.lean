import Verif.Props.Final

/-! # Property C49: the number of fee orders to try -/

namespace Dex

open Spec

/-- C49. The interval: it raises exactly when the matched orders already exceed the limit; otherwise it starts at 1 or more and ends at
the smaller of the number of fee orders and the limit minus two. It starts one above the number of fee orders that are free to execute
(unless that is more than its end). -/
theorem C49_interval (cfg : Config) (b s f : List Order) :
    (nrExecuted b + nrExecuted s ≤ cfg.maxNrExec →
      ∃ mn mx, nrFOrders cfg b s f = .ok (mn, mx) ∧ 1 ≤ mn ∧ mx = min (f.length : ℤ) (cfg.maxNrExec - 2) ∧
        (1 ≤ mx → mn ≤ mx ∧ mn = min (cfg.maxNrExec - nrExecuted b - nrExecuted s + 1) mx) ∧ (mx < 1 → mx < mn)) ∧
    (¬ nrExecuted b + nrExecuted s ≤ cfg.maxNrExec → ∃ site, nrFOrders cfg b s f = .error (.assertion site)) := by
  rw [nrExecuted_eq, nrExecuted_eq]
  unfold nrFOrders
  dsimp only
  constructor
  · intro h
    rw [pyAssert_of h, ok_bind]
    refine ⟨_, _, rfl, le_max_right _ _, rfl, fun h1 => ?_, fun h1 => lt_of_lt_of_le h1 (le_max_right _ _)⟩
    have : 1 ≤ min (cfg.maxNrExec - (countNrExec b : ℤ) - countNrExec s + 1) (min (f.length : ℤ) (cfg.maxNrExec - 2)) :=
      le_min (by omega) h1
    rw [max_eq_left this]
    exact ⟨min_le_right _ _, rfl⟩
  · intro h
    refine ⟨"solver.py:163", ?_⟩
    unfold pyAssert
    rw [if_neg h]; rfl

/-- C49. Trying `n` fee orders: whenever a price results, the b-, s- and fee orders executed together respect the limit, and at least one
fee order is executed. -/
theorem C49_room {cfg : Config} {sqrt : ℚ → Py ℚ} {n : ℕ} {imb : ℚ} {pair : Token × Token} {bk : Books} {x : ℚ} {fee : Fee}
    {pool : List Order} {r : GivenResult} {p : ℤ} (hp : Pool pool) (hc : CfgOk cfg) (hfee : fee.value < 1) (hb : BookOf pool pair fee bk)
    (hne : pair.1 ≠ pair.2) (hF1 : pair.1 ≠ fee.token) (hF2 : pair.2 ≠ fee.token) (hx : 0 < x) (hbn : bk.b ≠ []) (hsn : bk.s ≠ [])
    (hfn : bk.f ≠ []) (hn1 : 1 ≤ n) (hn2 : (n : ℤ) ≤ cfg.maxNrExec) (hz : ∀ o ∈ bk.f, o.buy = 0)
    (hr : givenExecF cfg sqrt n imb pair bk x fee = .ok r) (hpr : r.bPrice = some p) :
    (nrExecuted r.books.b : ℤ) + nrExecuted r.books.s + nrExecuted r.books.f ≤ cfg.maxNrExec ∧ 0 < nrExecuted r.books.f ∧
      (0 < nrExecuted r.books.b ↔ 0 < nrExecuted r.books.s) := by
  obtain ⟨_, h⟩ := givenExecF_spec hp hc hfee hb hne hF1 hF2 hx hbn hsn hfn hn1 hn2 hz hr
  have hg := h p hpr
  have hpos : ∀ l : List Order, 0 < nrExecuted l ↔ ∃ o ∈ l, 0 < o.buy := by
    intro l
    unfold nrExecuted
    rw [List.length_pos_iff_exists_mem]
    simp [List.mem_filter]
  refine ⟨?_, ?_, ?_⟩
  · simp only [nrExecuted_eq]; exact hg.count
  · rcases hg.feeCase with h | h
    · exact absurd h.1 hF1
    · exact (hpos _).2 h.2
  · rw [hpos, hpos]; exact hg.both

namespace ExFeeNr
def fee : Fee := { token := "F", value := 1 / 1000 }
def b : List Order := [Order.mk' "B" "S" (10 ^ 20) 2 none "0", Order.mk' "B" "S" (10 ^ 19) (3 / 2) none "1"]
def s : List Order := [Order.mk' "S" "B" (10 ^ 20) 1 none "2"]
def f : List Order := [Order.mk' "B" "F" (10 ^ 18) 1 none "3", Order.mk' "B" "F" (10 ^ 18) 1 none "4"]
end ExFeeNr

/-- With a limit of 4 and three matched orders: try 2 fee orders; the result executes four orders at most. -/
example : nrFOrders { Config.default with maxNrExec := 4 } [Order.withBuy (Order.mk' "B" "S" 9 2 none "0") 3, Order.withBuy (Order.mk' "B" "S" 9 2 none "1") 3]
    [Order.withBuy (Order.mk' "S" "B" 9 2 none "2") 3] ExFeeNr.f = .ok (2, 2) := by decide +kernel

example : ∃ r, givenExecF Config.default ExInst.sqrt 2 (10 ^ 17) ("B", "S") { b := ExFeeNr.b, s := ExFeeNr.s, f := ExFeeNr.f } (5 / 4) ExFeeNr.fee = .ok r ∧
    r.bPrice.isSome = true ∧ 0 < nrExecuted r.books.b :=
  exists_of_pyCheck (p := fun r : GivenResult => r.bPrice.isSome = true ∧ 0 < nrExecuted r.books.b) (by decide +kernel)

example : Pool (ExFeeNr.b ++ ExFeeNr.s ++ ExFeeNr.f) ∧ BookOf (ExFeeNr.b ++ ExFeeNr.s ++ ExFeeNr.f) ("B", "S") ExFeeNr.fee { b := ExFeeNr.b, s := ExFeeNr.s, f := ExFeeNr.f } ∧
    ∀ o ∈ ExFeeNr.f, o.buy = 0 := by
  refine ⟨⟨by decide +kernel, by decide +kernel⟩, ⟨fun o h => der_self (by simp_all), fun o h => der_self (by simp_all), fun o h => der_self (by simp_all),
    by decide +kernel, by decide +kernel, by decide +kernel, by decide +kernel, by decide +kernel, by decide +kernel⟩, by decide +kernel⟩

end Dex
