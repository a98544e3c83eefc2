import Verif.Props.EconomicComplete

/-! # Properties C63, C64: examples of the search for a viable solution -/

namespace Dex

open Spec

/-! ### Examples -/

namespace ExRun
/-- The orders of `ExOut` with an account. -/
def b : List Order := [Order.mk' "F" "S" (10 ^ 20) 2 (some "A") "0", Order.mk' "F" "S" (10 ^ 19) (19 / 10) (some "A") "1"]
@[inherit_doc b] def s : List Order := [Order.mk' "S" "F" (10 ^ 20) 1 (some "A") "2", Order.mk' "S" "F" (10 ^ 20) (9 / 10) (some "A") "3"]
def accounts : Accounts := [("A", [("F", 10 ^ 21), ("S", 10 ^ 21)])]
/-- Default configuration except for a minimum fee of 0.02 fee tokens per order. -/
def cfg : Config := { Config.default with minAbsFee := 2 * 10 ^ 16 }
end ExRun

/-- The hypotheses of `C63_run` and `C63_fee_pair_amounts`, for either order of the tokens. -/
example : RunInput ExRun.cfg ExVia.ext ("F", "S") ExOut.fee none (ExRun.b ++ ExRun.s) ∧
    BookOf (ExRun.b ++ ExRun.s) ("F", "S") ExOut.fee { b := ExRun.b, s := ExRun.s, f := [] } ∧ (∀ o ∈ ExRun.b, o.buy = 0) ∧ ∀ o ∈ ExRun.s, o.buy = 0 := by
  refine ⟨⟨⟨by decide +kernel, by decide +kernel⟩, by constructor <;> decide +kernel, by decide +kernel, by decide +kernel, ExVia.branch_max, by simp⟩,
    ⟨fun o h => der_self (by simp_all), fun o h => der_self (by simp_all), by simp,
    by decide +kernel, by decide +kernel, by decide +kernel, by decide +kernel, by decide +kernel, by decide +kernel⟩, by decide +kernel, by decide +kernel⟩

/-- Without thresholds three orders are executed. With them the order of least value, which pays 0.009 fee tokens, is removed, and two are executed. -/
example : ∃ r r', solveEconomicViable Config.default ExVia.ext ("F", "S") ExRun.accounts ExRun.b ExRun.s [] ExOut.fee none = .ok r ∧
    solveEconomicViable ExRun.cfg ExVia.ext ("F", "S") ExRun.accounts ExRun.b ExRun.s [] ExOut.fee none = .ok r' ∧
    r.1.orders.map (fun o => (o.id, o.buy)) = [("0", 90727363636363636281), ("1", 9072736363636363628), ("2", 109999999999999999998), ("3", 0)] ∧
    r'.1.orders.map (fun o => (o.id, o.buy)) = [("0", 99775149975000000000), ("2", 100000000000000000000), ("3", 0)] := by
  obtain ⟨r, e, h⟩ := exists_of_pyCheck (x := solveEconomicViable Config.default ExVia.ext ("F", "S") ExRun.accounts ExRun.b ExRun.s [] ExOut.fee none)
    (p := fun r => r.1.orders.map (fun o => (o.id, o.buy)) =
      [("0", 90727363636363636281), ("1", 9072736363636363628), ("2", 109999999999999999998), ("3", 0)]) (by decide +kernel)
  obtain ⟨r', e', h'⟩ := exists_of_pyCheck (x := solveEconomicViable ExRun.cfg ExVia.ext ("F", "S") ExRun.accounts ExRun.b ExRun.s [] ExOut.fee none)
    (p := fun r => r.1.orders.map (fun o => (o.id, o.buy)) = [("0", 99775149975000000000), ("2", 100000000000000000000), ("3", 0)]) (by decide +kernel)
  exact ⟨r, r', e, e', h, h'⟩

/-- The solution found with thresholds is not the trivial one (`C63_iff`). -/
example : ∃ r, solveEconomicViable ExRun.cfg ExVia.ext ("F", "S") ExRun.accounts ExRun.b ExRun.s [] ExOut.fee none = .ok r ∧ r.1 ≠ .trivial :=
  exists_of_pyCheck (p := fun r : Solution × List Order => r.1 ≠ .trivial) (by decide +kernel)

/-- Both orders of visits succeed with thresholds, with a positive objective (`C43_any_thresholds`; its other hypotheses are those of `C63_run`). -/
example : ∃ r, (do
    let st ← bestTokenPair ExRun.cfg ExVia.ext ExRun.accounts (ExRun.b ++ ExRun.s) ExOut.fee ([("F", "S"), ("S", "F")].map (fun p => (p, false)))
    let st' ← bestTokenPair ExRun.cfg ExVia.ext ExRun.accounts (ExRun.b ++ ExRun.s) ExOut.fee ([("S", "F"), ("F", "S")].map (fun p => (p, false)))
    pure (st.objective, st'.objective)) = .ok r ∧ 0 < r.1 :=
  exists_of_pyCheck (p := fun r : ℚ × ℚ => 0 < r.1) (by decide +kernel)

/-! ## C64 -/

namespace ExLast
def pair : Token × Token := ("B", "S")
/-- Two orders each way on B/S and two fee orders. -/
def inst : Instance where
  accounts := [("A", [("S", 10 ^ 21), ("B", 10 ^ 21), ("F", 10 ^ 21)])]
  fee := { token := "F", value := 1 / 1000 }
  orders := [ { accountID := "A", buyToken := "B", sellToken := "S", buyAmount := 10980 * 10 ^ 15, sellAmount := 24156 * 10 ^ 15 },
    { accountID := "A", buyToken := "B", sellToken := "S", buyAmount := 15675 * 10 ^ 15, sellAmount := 37620 * 10 ^ 15 },
    { accountID := "A", buyToken := "S", sellToken := "B", buyAmount := 29920 * 10 ^ 15, sellAmount := 26928 * 10 ^ 15 },
    { accountID := "A", buyToken := "S", sellToken := "B", buyAmount := 21780 * 10 ^ 15, sellAmount := 17424 * 10 ^ 15 },
    { accountID := "A", buyToken := "B", sellToken := "F", buyAmount := 99 * 10 ^ 14, sellAmount := 1188 * 10 ^ 13 },
    { accountID := "A", buyToken := "B", sellToken := "F", buyAmount := 792 * 10 ^ 14, sellAmount := 10296 * 10 ^ 13 } ]
/-- The instance without the order of least value. -/
def inst' : Instance := { inst with orders := inst.orders.eraseIdx 3 }
/-- Default configuration except for a limit of four executed orders. -/
def cfg0 : Config := { Config.default with maxNrExec := 4 }
/-- The same with a minimum fee of 0.001 fee tokens per order. -/
def cfg : Config := { cfg0 with minAbsFee := 10 ^ 15 }
end ExLast

/-- C64, negative. For a pair without the fee token the order removed need not be the one of least value in the solution, nor need it be among the
orders whose fee is too small. On this instance the first solution executes the orders 1, 2, 3 (and a fee order); order 3 alone misses the minimum fee,
and its value is less than a three-hundredth of that of order 1. The order objects hold the amounts of the last attempt made, in which order 3 is not
executed; so order 1 is removed, and the solver returns the solution for the orders 0, 2, 3. Leaving out order 3 beforehand gives a viable solution
with more volume, more utility and more fees. -/
theorem C64_removes_larger_order : GoodInstance ExLast.inst ∧ GoodInstance ExLast.inst' ∧ CfgOk ExLast.cfg ∧ (∀ E, MaxBranching E (ExInst.ext.branch E)) ∧
    (∃ acc bk fee r r', loadPairProblem ExLast.cfg ExLast.inst ExLast.pair = .ok (acc, bk, fee) ∧
      solveTokenPairAndFee ExLast.cfg ExInst.ext ExLast.pair bk.b bk.s bk.f fee none = .ok r ∧
      solveTokenPairAndFee ExLast.cfg ExInst.ext ExLast.pair (bk.b.filter (fun o => decide (o.id ≠ "1"))) bk.s bk.f fee none = .ok r' ∧
      isEconomicViable ExLast.cfg r.sol.orders r.sol.prices fee = .ok false ∧
      (∃ objs, solveEconomicViable ExLast.cfg ExInst.ext ExLast.pair acc bk.b bk.s bk.f fee none = .ok (r'.sol, objs)) ∧
      r.sol.orders.map (fun o => (o.id, o.buy)) = [("1", 26955230954303410349), ("0", 0), ("2", 37506845483263013191), ("3", 113142845471591740),
        ("5", 53991435557331621), ("4", 0)] ∧
      r.sol.prices = [("F", 1000000000000000000), ("B", 1194601739451991665), ("S", 856805124511566944)] ∧
      (r.books.b ++ r.books.s).map (fun o => (o.id, decide (0 < o.buy))) = [("1", true), ("0", false), ("2", true), ("3", false)] ∧
      r'.sol.orders.map (fun o => (o.id, o.buy)) = [("0", 21696933248092307599), ("2", 24155991435871760537), ("3", 0), ("5", 43459044192276884), ("4", 0)]) ∧
    ∃ d d', tokenPairMain ExLast.cfg ExInst.ext ExLast.inst ExLast.pair none = .ok d ∧ tokenPairMain ExLast.cfg ExInst.ext ExLast.inst' ExLast.pair none = .ok d' ∧
      d.objVals.volume < d'.objVals.volume ∧ d.objVals.utility < d'.objVals.utility ∧ d.objVals.fees < d'.objVals.fees := by
  refine ⟨by constructor <;> decide +kernel, by constructor <;> decide +kernel, by constructor <;> decide +kernel, ExInst.branch_max, ?_, ?_⟩
  · obtain ⟨⟨⟨acc, bk, fee⟩, r, r', v, sol, objs⟩, e, h⟩ := exists_of_pyCheck (x := do
        let (acc, bk, fee) ← loadPairProblem ExLast.cfg ExLast.inst ExLast.pair
        let r ← solveTokenPairAndFee ExLast.cfg ExInst.ext ExLast.pair bk.b bk.s bk.f fee none
        let r' ← solveTokenPairAndFee ExLast.cfg ExInst.ext ExLast.pair (bk.b.filter (fun o => decide (o.id ≠ "1"))) bk.s bk.f fee none
        let v ← isEconomicViable ExLast.cfg r.sol.orders r.sol.prices fee
        let (sol, objs) ← solveEconomicViable ExLast.cfg ExInst.ext ExLast.pair acc bk.b bk.s bk.f fee none
        pure ((acc, bk, fee), r, r', v, sol, objs))
      (p := fun q => q.2.2.2.1 = false ∧ q.2.2.2.2.1 = q.2.2.1.sol ∧
        q.2.1.sol.orders.map (fun o => (o.id, o.buy)) = [("1", 26955230954303410349), ("0", 0), ("2", 37506845483263013191), ("3", 113142845471591740),
          ("5", 53991435557331621), ("4", 0)] ∧
        q.2.1.sol.prices = [("F", 1000000000000000000), ("B", 1194601739451991665), ("S", 856805124511566944)] ∧
        (q.2.1.books.b ++ q.2.1.books.s).map (fun o => (o.id, decide (0 < o.buy))) = [("1", true), ("0", false), ("2", true), ("3", false)] ∧
        q.2.2.1.sol.orders.map (fun o => (o.id, o.buy)) =
          [("0", 21696933248092307599), ("2", 24155991435871760537), ("3", 0), ("5", 43459044192276884), ("4", 0)]) (by decide +kernel)
    rw [bind_eq_ok] at e
    obtain ⟨⟨acc0, bk0, fee0⟩, e1, e⟩ := e
    dsimp only at e
    rw [bind_eq_ok] at e
    obtain ⟨r0, e2, e⟩ := e
    rw [bind_eq_ok] at e
    obtain ⟨r0', e3, e⟩ := e
    rw [bind_eq_ok] at e
    obtain ⟨v0, e4, e⟩ := e
    rw [bind_eq_ok] at e
    obtain ⟨⟨sol0, objs0⟩, e5, e⟩ := e
    cases e
    obtain ⟨h1, h2, h3, h4, h5, h6⟩ := h
    dsimp only at h1 h2 h3 h4 h5 h6
    subst h1; subst h2
    exact ⟨_, _, _, _, _, e1, e2, e3, e4, ⟨_, e5⟩, h3, h4, h5, h6⟩
  · obtain ⟨⟨d, d'⟩, e, h⟩ := exists_of_pyCheck (x := do
        let d ← tokenPairMain ExLast.cfg ExInst.ext ExLast.inst ExLast.pair none
        let d' ← tokenPairMain ExLast.cfg ExInst.ext ExLast.inst' ExLast.pair none
        pure (d, d'))
      (p := fun q : Dump × Dump => q.1.objVals.volume < q.2.objVals.volume ∧ q.1.objVals.utility < q.2.objVals.utility ∧
        q.1.objVals.fees < q.2.objVals.fees) (by decide +kernel)
    rw [bind_eq_ok] at e
    obtain ⟨d0, e1, e⟩ := e
    rw [bind_eq_ok] at e
    obtain ⟨d0', e2, e⟩ := e
    cases e
    exact ⟨_, _, e1, e2, h⟩

end Dex
