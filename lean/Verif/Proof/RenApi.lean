import Verif.Proof.RenMain

/-! # Loading, validating, reporting and the two `main`s commute with renaming -/

namespace Dex

open Spec

variable {ρ : Renaming}

/-! ### Accounts -/

theorem acc_get? (a : Accounts) (i : AccountId) : dictGet? (ρ.accounts a) (ρ.acc i) = (dictGet? a i).map ρ.amounts :=
  dictGet?_mapKV ρ.acc_inj ρ.amounts a i

theorem acc_get (a : Accounts) (i : AccountId) : RelE (RenA ρ) (dictGet a i) (dictGet (ρ.accounts a) (ρ.acc i)) := by
  unfold dictGet
  rw [acc_get?]
  cases dictGet? a i <;> rfl

theorem acc_set (a : Accounts) (i : AccountId) (d : Dict Token ℚ) :
    dictSet (ρ.accounts a) (ρ.acc i) (ρ.amounts d) = ρ.accounts (dictSet a i d) := dictSet_mapKV ρ.acc_inj ρ.amounts a i d

/-- Renamed accounts. -/
abbrev RenAcc (ρ : Renaming) (a a' : Accounts) : Prop := a' = ρ.accounts a

theorem ensureEntry_ren (d : Dict Token ℚ) (t : Token) : ensureEntry (ρ.amounts d) (ρ.tok t) = ρ.amounts (ensureEntry d t) := by
  unfold ensureEntry
  rw [ren_get?]
  cases dictGet? d t with
  | none => exact ren_set _ _ _
  | some v => rfl

theorem updateAccountStep_ren (a : Accounts) (o : Order) : RelE (RenAcc ρ) (updateAccountStep a o) (updateAccountStep (ρ.accounts a) (ρ.order o)) := by
  obtain ⟨id, acc, bt, st, ms, oms, mx, buy, sell⟩ := o
  unfold updateAccountStep Renaming.order
  dsimp only
  cases acc with
  | none => rfl
  | some i =>
    dsimp only [Option.map_some]
    refine RelE.bind (acc_get a i) ?_
    rintro d _ rfl
    rw [ensureEntry_ren, ren_get]
    refine RelE.bind_same fun vb => ?_
    rw [ren_set, ren_get]
    refine RelE.bind_same fun vs => ?_
    rw [ren_set, ren_get]
    refine RelE.bind_same fun vb => ?_
    rw [ren_set, ren_get]
    refine RelE.bind_same fun vs => ?_
    rw [ren_set]
    exact acc_set _ _ _

theorem updateAccounts_ren {a : Accounts} {l l' : List Order} (h : RenL ρ l l') :
    RelE (RenAcc ρ) (updateAccounts a l) (updateAccounts (ρ.accounts a) l') := by
  unfold updateAccounts
  refine foldE_rel (Q := RenAcc ρ) h ?_ rfl
  rintro c _ o _ rfl rfl
  exact updateAccountStep_ren c o

theorem balanceUpdated_ren (a : Accounts) (o : Order) : balanceUpdated (ρ.accounts a) (ρ.order o) = balanceUpdated a o := by
  obtain ⟨id, acc, bt, st, ms, oms, mx, buy, sell⟩ := o
  unfold balanceUpdated Renaming.order
  dsimp only
  cases acc with
  | none => rfl
  | some i =>
    refine (RelE.to_eq ?_).symm
    refine RelE.bind (acc_get a i) ?_
    rintro d _ rfl
    rw [ren_get?]
    exact RelE.of_eq rfl

theorem computeSolutionMetrics_ren {p : Prices} {a : Accounts} {l l' : List Order} {fee : Fee} (h : RenL ρ l l') :
    computeSolutionMetrics p a l fee = computeSolutionMetrics (ρ.amounts p) (ρ.accounts a) l' (ρ.fee fee) := by
  refine RelE.to_eq ?_
  unfold computeSolutionMetrics
  refine foldE_rel (Q := Eq) h ?_ rfl
  rintro m _ o _ rfl rfl
  unfold metricsStep
  rw [balanceUpdated_ren, show (ρ.order o).buyToken = ρ.tok o.buyToken from rfl, show (ρ.order o).sellToken = ρ.tok o.sellToken from rfl, ren_get, ren_get]
  refine RelE.bind_same fun pb => RelE.bind_same fun ps => RelE.bind_same fun x => RelE.bind_same fun u => RelE.bind_same fun bal =>
    RelE.bind_same fun um => RelE.ite Iff.rfl (fun _ => rfl) (fun _ => RelE.of_eq ?_)
  dsimp only
  congr 1
  exact if_congr (tok_iff _ _) rfl (if_congr (tok_iff _ _) rfl rfl)

theorem computeObjectiveCore_ren {p : Prices} {a : Accounts} {l l' : List Order} {fee : Fee} (h : RenL ρ l l') :
    computeObjectiveCore p a l fee = computeObjectiveCore (ρ.amounts p) (ρ.accounts a) l' (ρ.fee fee) := by
  refine RelE.to_eq ?_
  unfold computeObjectiveCore
  refine RelE.bind (mapE_rel (Q := Eq) h ?_) fun ts ts' e => ?_
  · rintro o _ rfl
    unfold objectiveTerms
    rw [balanceUpdated_ren, show (ρ.order o).buyToken = ρ.tok o.buyToken from rfl, show (ρ.order o).sellToken = ρ.tok o.sellToken from rfl, ren_get,
      ren_get]
    exact RelE.of_eq rfl
  · rw [List.forall₂_eq_eq_eq] at e
    subst e
    exact RelE.of_eq rfl

/-! ### Validation -/

/-- A renamed table of balances per account. -/
abbrev RenTab (ρ : Renaming) (d d' : Dict (Option AccountId) (Dict Token ℚ)) : Prop := d' = d.map fun p => (p.1.map ρ.acc, ρ.amounts p.2)

theorem optAcc_inj : Function.Injective (Option.map ρ.acc) := Option.map_injective ρ.acc_inj

theorem accountTable_ren {a : Accounts} {tokens : List Token} {l l' : List Order} (h : RenL ρ l l') :
    RelE (RenTab ρ) (accountTable a tokens l) (accountTable (ρ.accounts a) (tokens.map ρ.tok) l') := by
  unfold accountTable
  refine foldE_rel (Q := RenTab ρ) h ?_ rfl
  rintro d _ o _ rfl rfl
  obtain ⟨id, acc, bt, st, ms, oms, mx, buy, sell⟩ := o
  unfold Renaming.order
  dsimp only
  cases acc with
  | none => rfl
  | some i =>
    dsimp only [Option.map_some]
    refine RelE.bind (acc_get a i) ?_
    rintro d1 _ rfl
    have e : (tokens.map ρ.tok).map (fun t => (t, (pyInt ((dictGet? (ρ.amounts d1) t).getD 0) : ℚ))) =
        ρ.amounts (tokens.map (fun t => (t, (pyInt ((dictGet? d1 t).getD 0) : ℚ)))) := by
      unfold Renaming.amounts
      rw [List.map_map, List.map_map]
      refine List.map_congr_left fun t _ => ?_
      have := ren_get? (ρ := ρ) d1 t
      unfold Renaming.amounts at this
      simp only [Function.comp, this]
    rw [e]
    exact dictSet_mapKV optAcc_inj ρ.amounts d (some i) _

/-- Renamed states of the validation. -/
structure RenVal (ρ : Renaming) (s s' : ValState) : Prop where
  balances : RenA ρ s.balances s'.balances
  accs : RenTab ρ s.accs s'.accs

theorem tab_get (d : Dict (Option AccountId) (Dict Token ℚ)) (i : Option AccountId) :
    RelE (RenA ρ) (dictGet d i) (dictGet (d.map fun p => (p.1.map ρ.acc, ρ.amounts p.2)) (i.map ρ.acc)) := by
  unfold dictGet
  rw [dictGet?_mapKV optAcc_inj ρ.amounts d i]
  cases dictGet? d i <;> rfl

theorem validateStep_ren {cfg : Config} {s s' : ValState} (o : Order) (h : RenVal ρ s s') :
    RelE (RenVal ρ) (validateStep cfg s o) (validateStep cfg s' (ρ.order o)) := by
  obtain ⟨bal, accs⟩ := s
  obtain ⟨bal', accs'⟩ := s'
  obtain ⟨rfl, rfl⟩ := h
  unfold validateStep
  refine RelE.bind_same fun _ => ?_
  dsimp only
  rw [show (ρ.order o).buyToken = ρ.tok o.buyToken from rfl, show (ρ.order o).sellToken = ρ.tok o.sellToken from rfl,
    show (ρ.order o).accountId = o.accountId.map ρ.acc from rfl, ren_get]
  refine RelE.bind_same fun vb => ?_
  rw [show (ρ.order o).buy = o.buy from rfl, show (ρ.order o).sell = o.sell from rfl, ren_set, ren_get]
  refine RelE.bind_same fun vs => RelE.bind (tab_get accs o.accountId) ?_
  rintro acc _ rfl
  rw [ren_get]
  refine RelE.bind_same fun vb => ?_
  rw [ren_set, ren_get]
  refine RelE.bind_same fun vs => ⟨ren_set _ _ _, ?_⟩
  dsimp only
  rw [ren_set]
  exact dictSet_mapKV optAcc_inj ρ.amounts accs o.accountId _

theorem validate_ren {cfg : Config} {fdiv : ℚ → ℕ → Py ℚ} {a : Accounts} {l l' : List Order} {p : Prices} {fee : Fee} (h : RenL ρ l l') :
    validate cfg fdiv a l p fee = validate cfg fdiv (ρ.accounts a) l' (ρ.amounts p) (ρ.fee fee) := by
  refine RelE.to_eq ?_
  unfold validate
  have e0 : (∀ q ∈ p, q.2.den = 1) ↔ ∀ q ∈ ρ.amounts p, q.2.den = 1 := by
    unfold Renaming.amounts
    rw [List.forall_mem_map]
  refine RelE.bind (R := Eq) ?_ fun _ _ _ => ?_
  · unfold pyAssert
    exact RelE.of_eq (if_congr e0 rfl rfl)
  dsimp only
  rw [← countNrExec_ren h]
  refine RelE.ite Iff.rfl (fun _ => rfl) (fun _ => RelE.bind_same fun _ => ?_)
  rw [ren_keys]
  refine RelE.bind (accountTable_ren h) ?_
  rintro tab _ rfl
  refine RelE.bind (foldE_rel (Q := RenVal ρ) h ?_ (RenVal.mk ?_ rfl)) fun st st' hst => ?_
  · rintro s s' o _ hs rfl
    exact validateStep_ren o hs
  · unfold RenA Renaming.amounts
    dsimp only
    rw [List.map_map, List.map_map]
    rfl
  obtain ⟨bal, accs⟩ := st
  obtain ⟨bal', accs'⟩ := st'
  obtain ⟨e1, e2⟩ := hst
  dsimp only at e1 e2
  subst e1 e2
  dsimp only
  have ec : checkBalances bal fee = checkBalances (ρ.amounts bal) (ρ.fee fee) := by
    refine RelE.to_eq ?_
    unfold checkBalances
    refine foldE_rel (Q := Eq) (forall₂_map_fun _ bal) ?_ rfl
    rintro _ _ q _ _ rfl
    exact RelE.ite (tok_iff _ _) (fun _ => RelE.of_eq rfl) (fun _ => RelE.of_eq rfl)
  rw [ec]
  refine RelE.bind_same fun _ => ?_
  rw [show (ρ.fee fee).token = ρ.tok fee.token from rfl, ren_get]
  refine RelE.bind_same fun total => RelE.bind_same fun avg => RelE.bind_same fun _ => ?_
  refine RelE.bind (R := Eq) (RelE.of_eq (allE_rel (R := RenO ρ) (filter_rel h ?_) ?_)) fun ok ok' e => ?_
  · rintro o _ rfl
    exact decide_eq_decide.2 (and_congr (not_congr (tok_iff _ _)) Iff.rfl)
  · rintro o _ rfl
    rw [feePaid_ren]
  · subst e
    refine RelE.bind_same fun _ => ?_
    unfold pyAssert
    refine RelE.of_eq (if_congr ?_ rfl rfl)
    unfold Renaming.amounts
    simp only [List.forall_mem_map]

theorem solveEconomicViable_ren {cfg : Config} {ext ext' : Ext} (hx : ρ.Ext ext ext') {pair : Token × Token} {a : Accounts} {b b' s s' f f' : List Order}
    {fee : Fee} {xrate : Option ℚ} (hb : RenL ρ b b') (hs : RenL ρ s s') (hf : RenL ρ f f') :
    RelE (RenE2 ρ) (solveEconomicViable cfg ext pair a b s f fee xrate)
      (solveEconomicViable cfg ext' (ρ.pair pair) (ρ.accounts a) b' s' f' (ρ.fee fee) xrate) := by
  unfold solveEconomicViable
  rw [hb.length_eq, hs.length_eq]
  refine RelE.bind (economicLoop_ren hx ⟨hb, hs, hf⟩ List.Forall₂.nil rfl) fun r r' hr => ?_
  obtain ⟨sol, objs⟩ := r
  obtain ⟨sol', objs'⟩ := r'
  obtain ⟨rfl, ho⟩ := hr
  dsimp only
  rw [hx.fdiv, show validate cfg ext.fdiv (ρ.accounts a) (ρ.sol sol).orders (ρ.sol sol).prices (ρ.fee fee) =
    validate cfg ext.fdiv a sol.orders sol.prices fee from (validate_ren (renL_map _)).symm]
  exact RelE.bind_same fun _ => ⟨rfl, ho⟩

/-! ### Loading -/

theorem loadOrdersFrom_ren {cfg : Config} {i : ℕ} (ds : List OrderDict) :
    RelE (RenL ρ) (loadOrdersFrom cfg i ds) (loadOrdersFrom cfg i (ds.map ρ.dict)) := by
  induction ds generalizing i with
  | nil => exact List.Forall₂.nil
  | cons d ds ih =>
    unfold loadOrdersFrom
    refine RelE.bind (R := RenO ρ) ?_ fun o o' ho => RelE.bind ih fun os os' hos => List.Forall₂.cons ho hos
    unfold Order.loadFromDict
    exact RelE.bind_same fun _ => rfl

/-- The new name of a key of the remaining balances. -/
def renKey (ρ : Renaming) (k : BalKey) : BalKey := (k.1.map ρ.acc, ρ.tok k.2.1, ρ.tok k.2.2)

theorem renKey_inj : Function.Injective (renKey ρ) := by
  rintro ⟨a, b, c⟩ ⟨a', b', c'⟩ h
  unfold renKey at h
  simp only [Prod.mk.injEq] at h
  rw [optAcc_inj h.1, ρ.tok_inj h.2.1, ρ.tok_inj h.2.2]

/-- Renamed remaining balances. -/
abbrev RenRem (ρ : Renaming) (d d' : Dict BalKey ℚ) : Prop := d' = d.map fun p => (renKey ρ p.1, id p.2)

theorem rem_get? (d : Dict BalKey ℚ) (k : BalKey) : dictGet? (d.map fun p => (renKey ρ p.1, id p.2)) (renKey ρ k) = dictGet? d k := by
  rw [dictGet?_mapKV renKey_inj]
  simp

theorem accountBalance_ren (a : Accounts) (o : Order) :
    accountBalance (ρ.accounts a) (ρ.order o).accountId (ρ.order o).sellToken = accountBalance a o.accountId o.sellToken := by
  unfold accountBalance Renaming.order
  dsimp only
  cases o.accountId with
  | none => rfl
  | some i =>
    dsimp only [Option.map_some]
    rw [acc_get?]
    cases dictGet? a i with
    | none => rfl
    | some d =>
      dsimp only [Option.map_some, Option.bind_some]
      rw [ren_get?]

theorem initRemaining_ren {a : Accounts} {d : Dict BalKey ℚ} (o : Order) :
    RenRem ρ (initRemaining a d o) (initRemaining (ρ.accounts a) (d.map fun p => (renKey ρ p.1, id p.2)) (ρ.order o)) := by
  unfold initRemaining
  rw [show ((ρ.order o).accountId, (ρ.order o).sellToken, (ρ.order o).buyToken) = renKey ρ (o.accountId, o.sellToken, o.buyToken) from rfl, rem_get?]
  cases dictGet? d (o.accountId, o.sellToken, o.buyToken) with
  | some v => rfl
  | none =>
    dsimp only
    rw [accountBalance_ren]
    exact dictSet_mapKV renKey_inj (id : ℚ → ℚ) d _ _

theorem restrictStep_ren {a : Accounts} {st st' : Dict BalKey ℚ × List Order} (o : Order) (h : RenRem ρ st.1 st'.1 ∧ RenL ρ st.2 st'.2) :
    RelE (fun r r' => RenRem ρ r.1 r'.1 ∧ RenL ρ r.2 r'.2) (restrictStep a st o) (restrictStep (ρ.accounts a) st' (ρ.order o)) := by
  obtain ⟨d, l⟩ := st
  obtain ⟨d', l'⟩ := st'
  obtain ⟨rfl, h⟩ := h
  dsimp only at h
  unfold restrictStep
  dsimp only
  rw [initRemaining_ren o, show ((ρ.order o).accountId, (ρ.order o).sellToken, (ρ.order o).buyToken) = renKey ρ (o.accountId, o.sellToken, o.buyToken) from rfl,
    show dictGet ((initRemaining a d o).map fun p => (renKey ρ p.1, id p.2)) (renKey ρ (o.accountId, o.sellToken, o.buyToken)) =
      dictGet (initRemaining a d o) (o.accountId, o.sellToken, o.buyToken) by unfold dictGet; rw [rem_get?]]
  refine RelE.bind_same fun bal => RelE.ite Iff.rfl (fun _ => ⟨rfl, h⟩) (fun _ => ?_)
  refine RelE.bind_same fun _ => RelE.bind_same fun _ => RelE.bind (setMaxSell_ren rfl) fun o1 o2 ho => ⟨?_, ?_⟩
  · exact dictSet_mapKV renKey_inj (id : ℚ → ℚ) _ _ _
  · exact append_rel h (List.Forall₂.cons ho List.Forall₂.nil)

theorem restrict_ren {a : Accounts} {l l' : List Order} (h : RenL ρ l l') :
    RelE (RenL ρ) (restrictOrderSellAmounts l a) (restrictOrderSellAmounts l' (ρ.accounts a)) := by
  unfold restrictOrderSellAmounts
  refine RelE.bind (foldE_rel (Q := fun r r' : Dict BalKey ℚ × List Order => RenRem ρ r.1 r'.1 ∧ RenL ρ r.2 r'.2) (sorted_ren h) ?_
    ⟨rfl, List.Forall₂.nil⟩) fun r r' hr => hr.2
  rintro st st' o _ hst rfl
  exact restrictStep_ren o hst

theorem buyingSelling_ren {l l' : List Order} {x y : Token} (h : RenL ρ l l') :
    RenL ρ (ordersBuyingSelling l x y) (ordersBuyingSelling l' (ρ.tok x) (ρ.tok y)) :=
  filter_rel h (by
    rintro a _ rfl
    exact decide_eq_decide.2 (and_congr (tok_iff _ _) (tok_iff _ _)))

/-! ### Reporting -/

/-- Renamed reports. -/
abbrev RenD (ρ : Renaming) (d d' : Dump) : Prop := d' = ρ.dump d

theorem originalOrdersFrom_ren (i : ℕ) (ds : List OrderDict) :
    originalOrdersFrom i (ds.map ρ.dict) = (originalOrdersFrom i ds).map fun p => (id p.1, ρ.dict p.2) := by
  induction ds generalizing i with
  | nil => rfl
  | cons d ds ih => simp only [List.map_cons, originalOrdersFrom, ih]; rfl

theorem dumpSolution_ren {inst : Instance} {sol sol' : Solution} (h : RenS ρ sol sol') :
    RelE (RenD ρ) (dumpSolution inst sol) (dumpSolution (ρ.inst inst) sol') := by
  cases h
  have ho : RenL ρ sol.orders (ρ.sol sol).orders := renL_map _
  unfold dumpSolution
  refine RelE.bind (updateAccounts_ren ho) ?_
  rintro acc _ rfl
  rw [computeSolutionMetrics_ren ho]
  refine RelE.bind_same fun m => ?_
  dsimp only
  have hs : RenL ρ ((sol.orders.insertionSort (fun a b => a.id ≤ b.id)).filter (fun o => decide (o.sell > 0)))
      (((ρ.sol sol).orders.insertionSort (fun a b => a.id ≤ b.id)).filter (fun o => decide (o.sell > 0))) :=
    filter_rel (insertionSort_rel ho (by rintro a _ b _ rfl rfl; exact Iff.rfl)) (by rintro a _ rfl; rfl)
  refine RelE.bind (mapE_rel (Q := fun a b => b = ρ.dict a) hs ?_) fun ds ds' hds => ?_
  · rintro o _ rfl
    unfold dumpOrder
    refine RelE.bind (R := fun a b => b = ρ.dict a) ?_ ?_
    · unfold dictGet
      rw [show (ρ.inst inst).orders = inst.orders.map ρ.dict from rfl, originalOrdersFrom_ren, show (ρ.order o).id = id o.id from rfl,
        dictGet?_mapKV Function.injective_id]
      cases dictGet? (originalOrdersFrom 0 inst.orders) o.id <;> rfl
    · rintro d _ rfl
      rfl
  · rw [forall₂_fun_iff hds]
    rfl

/-! ### The two programs -/

theorem tokenPairMain_ren {cfg : Config} {ext ext' : Ext} (hx : ρ.Ext ext ext') {inst : Instance} {pair : Token × Token} {xrate : Option ℚ} :
    RelE (RenD ρ) (tokenPairMain cfg ext inst pair xrate) (tokenPairMain cfg ext' (ρ.inst inst) (ρ.pair pair) xrate) := by
  unfold tokenPairMain
  refine RelE.bind (R := fun r r' : Accounts × Books × Fee => RenAcc ρ r.1 r'.1 ∧ RenBk ρ r.2.1 r'.2.1 ∧ r'.2.2 = ρ.fee r.2.2) ?_ fun r r' hr => ?_
  · unfold loadPairProblem
    refine RelE.bind (loadOrdersFrom_ren inst.orders) fun l l' hl => RelE.bind (restrict_ren hl) fun k k' hk => ?_
    refine RelE.bind (R := Eq) ?_ fun _ _ _ => ⟨rfl, ⟨buyingSelling_ren hk, buyingSelling_ren hk, buyingSelling_ren hk⟩, rfl⟩
    unfold pyAssert
    exact RelE.of_eq (if_congr (not_congr (tok_iff _ _)) rfl rfl)
  · obtain ⟨a, bk, fee⟩ := r
    obtain ⟨a', bk', fee'⟩ := r'
    obtain ⟨rfl, hbk, rfl⟩ := hr
    exact RelE.bind (solveEconomicViable_ren hx hbk.b hbk.s hbk.f) fun r r' hr => dumpSolution_ren hr.1

theorem matchTokenPair_ren {cfg : Config} {ext ext' : Ext} (hx : ρ.Ext ext ext') {pair : Token × Token} {a : Accounts} {l l' : List Order} {fee : Fee}
    (h : RenL ρ l l') :
    RelE (RenE2 ρ) (matchTokenPair cfg ext pair a l fee) (matchTokenPair cfg ext' (ρ.pair pair) (ρ.accounts a) l' (ρ.fee fee)) := by
  have hsel : ∀ x y, RenL ρ (ordersBuyingSelling l x y) (ordersBuyingSelling l' (ρ.tok x) (ρ.tok y)) := fun x y => buyingSelling_ren h
  unfold matchTokenPair
  dsimp only
  have hf : RenL ρ (if pair.1 ≠ fee.token then ordersBuyingSelling l pair.1 fee.token else [])
      (if (ρ.pair pair).1 ≠ (ρ.fee fee).token then ordersBuyingSelling l' (ρ.pair pair).1 (ρ.fee fee).token else []) := by
    by_cases hc : pair.1 = fee.token
    · have hc' : (ρ.pair pair).1 = (ρ.fee fee).token := (tok_iff _ _).1 hc
      rw [if_neg (not_not.2 hc), if_neg (not_not.2 hc')]
      exact List.Forall₂.nil
    · have hc' : (ρ.pair pair).1 ≠ (ρ.fee fee).token := fun h => hc ((tok_iff (ρ := ρ) _ _).2 h)
      rw [if_pos hc, if_pos hc']
      exact hsel _ _
  refine RelE.ite (by rw [(hsel _ _).length_eq]; rfl) (fun _ => ⟨rfl, h⟩) (fun _ => ?_)
  refine RelE.ite (by rw [(hsel _ _).length_eq]; rfl) (fun _ => ⟨rfl, h⟩) (fun _ => ?_)
  refine RelE.ite (and_congr (not_congr (tok_iff _ _)) (by rw [hf.length_eq])) (fun _ => ⟨rfl, h⟩) (fun _ => ?_)
  exact RelE.bind (solveEconomicViable_ren hx (hsel _ _) (hsel _ _) hf) fun r r' hr => ⟨hr.1, writeBack_rel id_ren h hr.2⟩

theorem matchAndEvaluate_ren {cfg : Config} {ext ext' : Ext} (hx : ρ.Ext ext ext') {pair : Token × Token} {a : Accounts} {l l' : List Order} {fee : Fee}
    (h : RenL ρ l l') :
    RelE (fun r r' => r.1 = r'.1 ∧ RenE2 ρ r.2 r'.2) (matchAndEvaluate cfg ext pair a l fee)
      (matchAndEvaluate cfg ext' (ρ.pair pair) (ρ.accounts a) l' (ρ.fee fee)) := by
  unfold matchAndEvaluate
  refine RelE.bind (matchTokenPair_ren hx h) fun r r' hr => ?_
  obtain ⟨sol, os⟩ := r
  obtain ⟨sol', os'⟩ := r'
  obtain ⟨rfl, hos⟩ := hr
  have ho : RenL ρ sol.orders (ρ.sol sol).orders := renL_map _
  refine RelE.bind (updateAccounts_ren ho) ?_
  rintro acc _ rfl
  dsimp only
  rw [show computeObjectiveCore (ρ.sol sol).prices (ρ.accounts acc) ((ρ.sol sol).orders.filter (fun o => decide (o.buy > 0))) (ρ.fee fee) =
    computeObjectiveCore sol.prices acc (sol.orders.filter (fun o => decide (o.buy > 0))) fee from
    (computeObjectiveCore_ren (filter_rel ho (by rintro a _ rfl; rfl))).symm]
  exact RelE.bind_same fun _ => ⟨rfl, rfl, hos⟩

/-- Renamed states of the search over all pairs. -/
structure RenB (ρ : Renaming) (s s' : BestState) : Prop where
  objective : s.objective = s'.objective
  sol : RenS ρ s.sol s'.sol
  orders : RenL ρ s.orders s'.orders

theorem bestLoop_ren {cfg : Config} {ext ext' : Ext} (hx : ρ.Ext ext ext') {a : Accounts} {fee : Fee} {vs : List ((Token × Token) × Bool)}
    {st st' : BestState} (h : RenB ρ st st') :
    RelE (RenB ρ) (bestLoop cfg ext a fee vs st) (bestLoop cfg ext' (ρ.accounts a) (ρ.fee fee) (vs.map fun v => (ρ.pair v.1, v.2)) st') := by
  induction vs generalizing st st' with
  | nil => exact h
  | cons v vs ih =>
    obtain ⟨pair, stop⟩ := v
    rw [List.map_cons]
    unfold bestLoop
    refine RelE.bind (matchAndEvaluate_ren hx h.orders) fun r r' hr => ?_
    obtain ⟨obj, sol, os⟩ := r
    obtain ⟨obj', sol', os'⟩ := r'
    obtain ⟨e, hs, ho⟩ := hr
    dsimp only at e hs ho ⊢
    subst e
    have hst : RenB ρ (if obj > st.objective then { objective := obj, sol := sol, orders := os } else { st with orders := os })
        (if obj > st'.objective then { objective := obj, sol := sol', orders := os' } else { st' with orders := os' }) := by
      rw [← h.objective]
      split
      · exact ⟨rfl, hs, ho⟩
      · exact ⟨rfl, h.sol, ho⟩
    exact RelE.ite Iff.rfl (fun _ => hst) (fun _ => ih hst)

theorem eligible_ren {l l' : List Order} {t : Token} (h : RenL ρ l l') : eligibleTokenPairs l' (ρ.tok t) = (eligibleTokenPairs l t).map ρ.pair := by
  have h1 : ((l'.filter (fun o => decide (o.sellToken = ρ.tok t))).map (·.buyToken)).dedup =
      (((l.filter (fun o => decide (o.sellToken = t))).map (·.buyToken)).dedup).map ρ.tok := by
    rw [← List.dedup_map_of_injective ρ.tok_inj, List.map_map]
    refine congrArg List.dedup (map_rel (R := RenO ρ) (filter_rel h ?_) ?_).symm
    · rintro a _ rfl
      exact decide_eq_decide.2 (tok_iff _ _)
    · rintro a _ rfl
      rfl
  have h2 : (l'.flatMap (fun o => [o.buyToken, o.sellToken])).dedup = ((l.flatMap (fun o => [o.buyToken, o.sellToken])).dedup).map ρ.tok := by
    rw [← List.dedup_map_of_injective ρ.tok_inj, List.map_flatMap]
    refine congrArg List.dedup ?_
    rw [renL_iff] at h
    rw [h, List.flatMap_map]
    rfl
  have hfil : ∀ (m : List Token) (q q' : Token → Bool), (∀ a, q' (ρ.tok a) = q a) → (m.map ρ.tok).filter q' = (m.filter q).map ρ.tok := by
    intro m q q' hq
    rw [List.filter_map]
    exact congrArg (List.map ρ.tok) (List.filter_congr fun a _ => hq a)
  unfold eligibleTokenPairs
  dsimp only
  rw [h1, h2, List.map_append, List.map_flatMap, List.flatMap_map]
  congr 1
  · refine List.flatMap_congr fun b _ => ?_
    rw [hfil _ (fun s => decide (s ≠ b ∧ s ≠ t)), List.map_map, List.map_map]
    · rfl
    · exact fun a => decide_eq_decide.2 (and_congr (not_congr (tok_iff _ _).symm) (not_congr (tok_iff _ _).symm))
  · rw [hfil _ (fun s => decide (s ≠ t)), List.map_map, List.map_map]
    · rfl
    · exact fun a => decide_eq_decide.2 (not_congr (tok_iff _ _).symm)

theorem bestTokenPairMain_ren {cfg : Config} {ext ext' : Ext} (hx : ρ.Ext ext ext') {inst : Instance}
    {shuffle shuffle' : List (Token × Token) → List ((Token × Token) × Bool)}
    (hsh : ∀ E, shuffle' (E.map ρ.pair) = (shuffle E).map fun v => (ρ.pair v.1, v.2)) :
    RelE (RenD ρ) (bestTokenPairMain cfg ext inst shuffle) (bestTokenPairMain cfg ext' (ρ.inst inst) shuffle') := by
  unfold bestTokenPairMain
  refine RelE.bind (R := fun r r' : Accounts × List Order × Fee => RenAcc ρ r.1 r'.1 ∧ RenL ρ r.2.1 r'.2.1 ∧ r'.2.2 = ρ.fee r.2.2) ?_ fun r r' hr => ?_
  · unfold loadProblem
    exact RelE.bind (loadOrdersFrom_ren inst.orders) fun l l' hl => RelE.bind (restrict_ren hl) fun k k' hk => ⟨rfl, hk, rfl⟩
  · obtain ⟨a, l, fee⟩ := r
    obtain ⟨a', l', fee'⟩ := r'
    obtain ⟨rfl, hl, rfl⟩ := hr
    dsimp only at hl ⊢
    rw [show (ρ.fee fee).token = ρ.tok fee.token from rfl, eligible_ren hl, hsh]
    unfold bestTokenPair
    exact RelE.bind (bestLoop_ren hx ⟨rfl, rfl, hl⟩) fun st st' h => dumpSolution_ren h.sol

end Dex
