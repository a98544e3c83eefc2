import Verif.Props.Best
import Verif.Proof.RelMatch

/-! # Property C43: the best-pair search does not depend on the order of visits -/

namespace Dex

open Spec

/-- C43. Evaluating a pair reads no executed amounts: without thresholds, on order objects already used by other evaluations, it raises
the same exception or finds the same objective and solution as on fresh orders. -/
theorem C43_no_stale_amounts {cfg : Config} {ext : Ext} {pair : Token × Token} {accounts : Accounts} {orders used : List Order} {fee : Fee}
    (hn1 : cfg.minAvgFee = 0) (hn2 : cfg.minAbsFee = 0) (h : List.Forall₂ SameButExec orders used) :
    (matchAndEvaluate cfg ext pair accounts used fee).map (fun r => (r.1, r.2.1)) =
      (matchAndEvaluate cfg ext pair accounts orders fee).map (fun r => (r.1, r.2.1)) := by
  have hr := matchAndEvaluate_rel (ext := ext) (pair := pair) (accounts := accounts) (fee := fee) hn1 hn2 h
  cases h1 : matchAndEvaluate cfg ext pair accounts orders fee with
  | error e => cases h2 : matchAndEvaluate cfg ext pair accounts used fee with
    | error e' => rw [h1, h2] at hr; cases hr; rfl
    | ok r' => rw [h1, h2] at hr; exact hr.elim
  | ok r => cases h2 : matchAndEvaluate cfg ext pair accounts used fee with
    | error e' => rw [h1, h2] at hr; exact hr.elim
    | ok r' =>
      rw [h1, h2] at hr
      obtain ⟨e1, e2⟩ := hr
      show Except.ok (r'.1, r'.2.1) = Except.ok (r.1, r.2.1)
      rw [e1, e2]

namespace Spec

/-- Objective of a pair evaluated on fresh orders (0 if the evaluation raises). -/
def freshObjective (cfg : Config) (ext : Ext) (accounts : Accounts) (orders : List Order) (fee : Fee) (pair : Token × Token) : ℚ :=
  match matchAndEvaluate cfg ext pair accounts orders fee with
  | .ok r => r.1
  | .error _ => 0

/-- Evaluating every visited pair on fresh orders succeeds. -/
def AllEvaluate (cfg : Config) (ext : Ext) (accounts : Accounts) (orders : List Order) (fee : Fee) (pairs : List (Token × Token)) : Prop :=
  ∀ p ∈ pairs, ∃ r, matchAndEvaluate cfg ext p accounts orders fee = .ok r

end Spec

theorem bestLoop_fresh {cfg : Config} {ext : Ext} {accounts : Accounts} {orders : List Order} {fee : Fee} (hc : CfgOk cfg) (hf : fee.value < 1)
    (hn1 : cfg.minAvgFee = 0) (hn2 : cfg.minAbsFee = 0) (hbr : ∀ E, MaxBranching E (ext.branch E)) (hp : Pool orders)
    {pairs : List (Token × Token)} (hv : ∀ p ∈ pairs, p.1 ≠ p.2) {st0 : BestState} (hs : List.Forall₂ SameButExec orders st0.orders) :
    ((∃ st, bestLoop cfg ext accounts fee (pairs.map (fun p => (p, false))) st0 = .ok st) ↔ AllEvaluate cfg ext accounts orders fee pairs) ∧
      ∀ st, bestLoop cfg ext accounts fee (pairs.map (fun p => (p, false))) st0 = .ok st →
        st.objective = (pairs.map (freshObjective cfg ext accounts orders fee)).foldl max st0.objective := by
  induction pairs generalizing st0 with
  | nil => exact ⟨⟨fun _ => by simp [AllEvaluate], fun _ => ⟨st0, rfl⟩⟩, fun st h => by cases h; rfl⟩
  | cons p pairs ih =>
    have hr := matchAndEvaluate_rel (ext := ext) (pair := p) (accounts := accounts) (fee := fee) hn1 hn2 hs
    rw [List.map_cons]
    unfold bestLoop
    dsimp only
    cases h1 : matchAndEvaluate cfg ext p accounts orders fee with
    | error e =>
      rw [h1] at hr
      cases h2 : matchAndEvaluate cfg ext p accounts st0.orders fee with
      | ok r' => rw [h2] at hr; exact hr.elim
      | error e' =>
        rw [error_bind]
        refine ⟨⟨fun ⟨_, h⟩ => (by cases h), fun h => ?_⟩, fun _ h => (by cases h)⟩
        obtain ⟨r, e⟩ := h p (by simp)
        rw [h1] at e; cases e
    | ok r =>
      rw [h1] at hr
      cases h2 : matchAndEvaluate cfg ext p accounts st0.orders fee with
      | error e' => rw [h2] at hr; exact hr.elim
      | ok r' =>
        rw [h2] at hr
        obtain ⟨obj, sol, os⟩ := r
        obtain ⟨obj', sol', os'⟩ := r'
        obtain ⟨e1, e2⟩ := hr
        dsimp only at e1 e2
        subst e1; subst e2
        have hos : List.Forall₂ SameButExec orders os' := by
          unfold matchAndEvaluate at h2
          simp only [bind_eq_ok] at h2
          obtain ⟨⟨sol'', os''⟩, h3, acc, _, obj'', _, e⟩ := h2
          cases e
          exact (matchTokenPair_spec hc hf (hv p (by simp)) hbr hp hs h3).1
        rw [ok_bind]
        simp only [Bool.false_eq_true, if_false]
        have hval : freshObjective cfg ext accounts orders fee p = obj := by unfold freshObjective; rw [h1]
        rw [List.map_cons, List.foldl_cons, hval]
        have hmax : (if obj > st0.objective then ({ objective := obj, sol, orders := os' } : BestState) else { st0 with orders := os' }).objective =
            max st0.objective obj := by
          split
          · rename_i h; exact (max_eq_right (le_of_lt h)).symm
          · rename_i h; exact (max_eq_left (not_lt.1 h)).symm
        have hord : List.Forall₂ SameButExec orders
            (if obj > st0.objective then ({ objective := obj, sol, orders := os' } : BestState) else { st0 with orders := os' }).orders := by
          split <;> exact hos
        have := ih (fun q hq => hv q (by simp [hq])) hord
        rw [hmax] at this
        refine ⟨this.1.trans ⟨fun h q hq => ?_, fun h q hq => h q (by simp [hq])⟩, this.2⟩
        rcases List.mem_cons.1 hq with rfl | hq
        · exact ⟨_, h1⟩
        · exact h q hq

theorem foldl_max_perm {l l' : List ℚ} (h : l.Perm l') (a : ℚ) : l.foldl max a = l'.foldl max a :=
  h.foldl_eq (rcomm := ⟨fun a b c => by rw [max_assoc, max_comm b c, ← max_assoc]⟩) a

/-- C43. Without thresholds and time-out, on well-formed orders: the search succeeds for one order of visits iff it does for another, and
the best objective is the same. -/
theorem C43_shuffle_independent {cfg : Config} {ext : Ext} {accounts : Accounts} {orders : List Order} {fee : Fee} (hc : CfgOk cfg)
    (hf : fee.value < 1) (hn1 : cfg.minAvgFee = 0) (hn2 : cfg.minAbsFee = 0) (hbr : ∀ E, MaxBranching E (ext.branch E)) (hp : Pool orders)
    {pairs pairs' : List (Token × Token)} (hperm : pairs.Perm pairs') (hv : ∀ p ∈ pairs, p.1 ≠ p.2) {st : BestState}
    (h : bestTokenPair cfg ext accounts orders fee (pairs.map (fun p => (p, false))) = .ok st) :
    ∃ st', bestTokenPair cfg ext accounts orders fee (pairs'.map (fun p => (p, false))) = .ok st' ∧ st'.objective = st.objective := by
  unfold bestTokenPair at h ⊢
  obtain ⟨h1, h2⟩ := bestLoop_fresh (accounts := accounts) hc hf hn1 hn2 hbr hp hv
    (st0 := { objective := 0, sol := .trivial, orders }) (forall₂_same_refl _)
  obtain ⟨h3, h4⟩ := bestLoop_fresh (accounts := accounts) hc hf hn1 hn2 hbr hp (fun p hp => hv p (hperm.mem_iff.2 hp))
    (st0 := { objective := 0, sol := .trivial, orders }) (forall₂_same_refl _)
  have hall := h1.1 ⟨st, h⟩
  obtain ⟨st', h'⟩ := h3.2 (fun p hp => hall p (hperm.mem_iff.2 hp))
  refine ⟨st', h', ?_⟩
  rw [h2 _ h, h4 _ h']
  exact (foldl_max_perm (hperm.map _) _).symm

/-- C43. For a well-formed instance and any two shuffles of the candidate pairs, the search finds the same best objective. -/
theorem C43_instance {cfg : Config} {ext : Ext} {inst : Instance} (hc : CfgOk cfg) (hi : GoodInstance inst) (hn1 : cfg.minAvgFee = 0)
    (hn2 : cfg.minAbsFee = 0) (hbr : ∀ E, MaxBranching E (ext.branch E)) {accounts : Accounts} {orders : List Order} {fee : Fee}
    (hl : loadProblem cfg inst = .ok (accounts, orders, fee)) {pairs pairs' : List (Token × Token)}
    (h1 : pairs.Perm (eligibleTokenPairs orders fee.token)) (h2 : pairs'.Perm (eligibleTokenPairs orders fee.token)) {st : BestState}
    (h : bestTokenPair cfg ext accounts orders fee (pairs.map (fun p => (p, false))) = .ok st) :
    ∃ st', bestTokenPair cfg ext accounts orders fee (pairs'.map (fun p => (p, false))) = .ok st' ∧ st'.objective = st.objective := by
  obtain ⟨hp, rfl, rfl⟩ := loadedPool hc.minPos hi.balances hi.ints hi.sell hl
  exact C43_shuffle_independent hc hi.feeLt hn1 hn2 hbr hp.wf (h1.trans h2.symm)
    (fun p hm => (C41_candidates.1 (h1.mem_iff.1 hm)).1) h

/-- The example instance: the search succeeds with a positive objective (so does every other shuffle). -/
example : CfgOk Config.default ∧ GoodInstance ExInst.inst ∧ (∀ E, MaxBranching E (ExInst.ext.branch E)) ∧
    ∃ r, (do
      let (accounts, orders, fee) ← loadProblem Config.default ExInst.inst
      let st ← bestTokenPair Config.default ExInst.ext accounts orders fee ((eligibleTokenPairs orders fee.token).map (fun p => (p, false)))
      pure ((eligibleTokenPairs orders fee.token).length, st.objective)) = .ok r ∧ 2 < r.1 ∧ 0 < r.2 :=
  ⟨by constructor <;> decide, ExInst.good, ExInst.branch_max, exists_of_pyCheck (p := fun r : ℕ × ℚ => 2 < r.1 ∧ 0 < r.2) (by decide +kernel)⟩

end Dex
