import Verif.Proof.IdMain

/-! # Validating and reporting commute with renumbering orders -/

namespace Dex

open Spec

variable {σ : Renumbering} {I J K : String → Prop}

theorem updateAccounts_idm {a : Accounts} {l l' : List Order} (h : IdL σ I l l') : updateAccounts a l = updateAccounts a l' := by
  refine RelE.to_eq ?_
  unfold updateAccounts
  refine foldE_rel (Q := Eq) h ?_ rfl
  rintro c _ o _ rfl ⟨_, rfl⟩
  exact RelE.of_eq rfl

theorem computeSolutionMetrics_idm {p : Prices} {a : Accounts} {l l' : List Order} {fee : Fee} (h : IdL σ I l l') :
    computeSolutionMetrics p a l fee = computeSolutionMetrics p a l' fee := by
  refine RelE.to_eq ?_
  unfold computeSolutionMetrics
  refine foldE_rel (Q := Eq) h ?_ rfl
  rintro m _ o _ rfl ⟨_, rfl⟩
  exact RelE.of_eq rfl

theorem computeObjectiveCore_idm {p : Prices} {a : Accounts} {l l' : List Order} {fee : Fee} (h : IdL σ I l l') :
    computeObjectiveCore p a l fee = computeObjectiveCore p a l' fee := by
  refine RelE.to_eq ?_
  unfold computeObjectiveCore
  refine RelE.bind (mapE_rel (Q := Eq) h ?_) fun ts ts' e => ?_
  · rintro o _ ⟨_, rfl⟩
    exact RelE.of_eq rfl
  · rw [List.forall₂_eq_eq_eq] at e
    subst e
    exact RelE.of_eq rfl

theorem accountTable_idm {a : Accounts} {tokens : List Token} {l l' : List Order} (h : IdL σ I l l') :
    accountTable a tokens l = accountTable a tokens l' := by
  refine RelE.to_eq ?_
  unfold accountTable
  refine foldE_rel (Q := Eq) h ?_ rfl
  rintro c _ o _ rfl ⟨_, rfl⟩
  exact RelE.of_eq rfl

theorem validate_idm {cfg : Config} {fdiv : ℚ → ℕ → Py ℚ} {a : Accounts} {l l' : List Order} {p : Prices} {fee : Fee} (h : IdL σ I l l') :
    validate cfg fdiv a l p fee = validate cfg fdiv a l' p fee := by
  refine RelE.to_eq ?_
  unfold validate
  refine RelE.bind_same fun _ => ?_
  dsimp only
  rw [← countNrExec_idm h, accountTable_idm h]
  refine RelE.ite Iff.rfl (fun _ => rfl) (fun _ => RelE.bind_same fun _ => RelE.bind_same fun tab => ?_)
  refine RelE.bind (foldE_rel (Q := Eq) h ?_ rfl) fun st st' hst => ?_
  · rintro s _ o _ rfl ⟨_, rfl⟩
    exact RelE.of_eq rfl
  subst hst
  refine RelE.bind_same fun _ => RelE.bind_same fun total => RelE.bind_same fun avg => RelE.bind_same fun _ => ?_
  refine RelE.bind (R := Eq) (RelE.of_eq (allE_rel (R := IdO σ I) (filter_rel h ?_) ?_)) fun ok ok' e => ?_
  · rintro o _ ⟨_, rfl⟩
    rfl
  · rintro o _ ⟨_, rfl⟩
    rfl
  · subst e
    exact RelE.of_eq rfl

theorem solveEconomicViable_idm [TiesKept σ I] [TiesKept σ J] [TiesKept σ K] {cfg : Config} {ext : Ext} {pair : Token × Token} {a : Accounts}
    {b b' s s' f f' : List Order} {fee : Fee} {xrate : Option ℚ} (hb : IdL σ I b b') (hs : IdL σ J s s') (hf : IdL σ K f f') :
    RelE (IdE2 σ) (solveEconomicViable cfg ext pair a b s f fee xrate) (solveEconomicViable cfg ext pair a b' s' f' fee xrate) := by
  unfold solveEconomicViable
  rw [hb.length_eq, hs.length_eq]
  refine RelE.bind (economicLoop_idm ⟨hb, hs, hf⟩ List.Forall₂.nil trivial_idm) fun r r' hr => ?_
  obtain ⟨sol, objs⟩ := r
  obtain ⟨sol', objs'⟩ := r'
  obtain ⟨hsol, ho⟩ := hr
  dsimp only at hsol ⊢
  rw [← hsol.prices, ← validate_idm hsol.orders]
  exact RelE.bind_same fun _ => ⟨hsol, ho⟩

end Dex
