import Verif.Props.Local

/-! # C54: the rate found need not be the best rate -/

namespace Dex

open Spec

namespace ExGlobal

def fee : Fee := { token := "F", value := 1 / 1000 }
def b : List Order := [Order.mk' "B" "S" 100000000 1 none "0"]
def s : List Order := [Order.mk' "S" "B" 100000000 10 none "1", Order.mk' "S" "B" 100000 (125/100) none "2",
  Order.mk' "S" "B" 100000 (124/100) none "3", Order.mk' "S" "B" 11000000 (123/100) none "4"]

end ExGlobal

/-- C54. The rate search does not maximise over all rates: for a sane book of five orders and an accurate square root, the
value returned is smaller, by 2000000, than the value of the book at the limit rate of one of its orders. (All the limit
rates are accepted on both sides; the binary search stops at another local maximum.) -/
theorem C54_not_globally_optimal : ∃ (sqrt : ℚ → Py ℚ) (fee : Fee) (b s : List Order) (r obj x v : ℚ),
    SqrtAccurate (1 / 1000) sqrt ∧ SearchInput Config.default fee b s ∧
    findBestXrate Config.default sqrt b s fee = .ok (some (r, obj)) ∧
    LimitRate fee b s x ∧ (∃ o ∈ b, AcceptsB fee x o) ∧ (∃ o ∈ s, AcceptsS fee x o) ∧
    ValueAt Config.default fee b s x v ∧ obj + 2000000 < v := by
  obtain ⟨res, e1, r1⟩ := exists_of_pyCheck
    (x := findBestXrate Config.default ExLocal.sqrt ExGlobal.b ExGlobal.s ExGlobal.fee)
    (p := fun res => ∃ p ∈ res, pyCheck (solverObjective Config.default ExGlobal.fee ExGlobal.b ExGlobal.s (100000 / 122877))
      (fun v => p.2 + 2000000 < v) = true) (by decide +kernel)
  obtain ⟨⟨r, obj⟩, rm, r2⟩ := r1
  obtain ⟨v, e2, hlt⟩ := exists_of_pyCheck r2
  cases rm
  refine ⟨ExLocal.sqrt, ExGlobal.fee, ExGlobal.b, ExGlobal.s, r, obj, 100000 / 122877, v, ExLocal.sqrt_accurate, ?_, e1, ?_,
    by decide +kernel, by decide +kernel, solverObjective_iff.1 e2, hlt⟩
  · constructor <;> decide +kernel
  · unfold LimitRate; decide +kernel

end Dex
