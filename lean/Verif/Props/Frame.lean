import Verif.Props.Objective

/-! # Property C71: orders that do not concern a pair have no influence -/

namespace Dex

namespace Spec

/-- An order buying `buy` for `sell` concerns the pair: it is on one of its sides, or buys the first token for the fee token. -/
def Concerns (pair : Token × Token) (feeToken buy sell : Token) : Prop :=
  (buy = pair.1 ∧ sell = pair.2) ∨ (buy = pair.2 ∧ sell = pair.1) ∨ (buy = pair.1 ∧ sell = feeToken)

instance (pair : Token × Token) (feeToken buy sell : Token) : Decidable (Concerns pair feeToken buy sell) := by unfold Concerns; infer_instance

/-- The instances have the same accounts and fee, and the same orders concerning the pair at the same positions. Other orders may be anything, and any
number. -/
structure AgreeOn (pair : Token × Token) (inst inst' : Instance) : Prop where
  accounts : inst'.accounts = inst.accounts
  fee : inst'.fee = inst.fee
  orders : ∀ (k : ℕ) (d : OrderDict), Concerns pair inst.fee.token d.buyToken d.sellToken → (inst.orders[k]? = some d ↔ inst'.orders[k]? = some d)

/-- The second instance has further orders, each with a token that is new: not the fee token and in no order of the first instance. -/
structure NewTokens (inst inst' : Instance) : Prop where
  accounts : inst'.accounts = inst.accounts
  fee : inst'.fee = inst.fee
  orders : ∃ more, inst'.orders = inst.orders ++ more ∧ ∀ e ∈ more, ∃ t, (t = e.buyToken ∨ t = e.sellToken) ∧ t ≠ inst.fee.token ∧
    ∀ d ∈ inst.orders, t ≠ d.buyToken ∧ t ≠ d.sellToken

end Spec

open Spec

/-- The orders concerning a pair. -/
def concerning (pair : Token × Token) (feeToken : Token) (os : List Order) : List Order :=
  os.filter (fun o => decide (Concerns pair feeToken o.buyToken o.sellToken))

theorem mapIdx_concerning {cfg : Config} {pair : Token × Token} {ft : Token} (ds ds' : List OrderDict) (i : ℕ)
    (h : ∀ (k : ℕ) (d : OrderDict), Concerns pair ft d.buyToken d.sellToken → (ds[k]? = some d ↔ ds'[k]? = some d)) :
    concerning pair ft (ds.mapIdx (fun k d => loadedOrder cfg (i + k) d)) = concerning pair ft (ds'.mapIdx (fun k d => loadedOrder cfg (i + k) d)) := by
  have hnil : ∀ (l : List OrderDict) (i : ℕ), (∀ (k : ℕ) (d : OrderDict), Concerns pair ft d.buyToken d.sellToken → ¬ l[k]? = some d) →
      concerning pair ft (l.mapIdx (fun k d => loadedOrder cfg (i + k) d)) = [] := by
    intro l i hl
    unfold concerning
    rw [List.filter_eq_nil_iff]
    intro o ho
    obtain ⟨k, hk, rfl⟩ := List.mem_mapIdx.1 ho
    rw [decide_eq_true_eq]
    intro hc
    exact hl k _ hc (List.getElem?_eq_getElem hk)
  induction ds generalizing ds' i with
  | nil =>
    rw [hnil ds' i (fun k d hc e => by have := (h k d hc).2 e; simp at this)]
    rfl
  | cons d ds ih =>
    cases ds' with
    | nil =>
      rw [hnil (d :: ds) i (fun k e hc h' => by have := (h k e hc).1 h'; simp at this)]
      rfl
    | cons d' ds' =>
      have ih := ih ds' (i + 1) (fun k e hc => by have := h (k + 1) e hc; simpa using this)
      have e : ∀ (l : List OrderDict), l.mapIdx (fun k d => loadedOrder cfg (i + (k + 1)) d) = l.mapIdx (fun k d => loadedOrder cfg (i + 1 + k) d) := by
        intro l; congr 1; funext k d; rw [show i + (k + 1) = i + 1 + k by omega]
      rw [List.mapIdx_cons, List.mapIdx_cons, e, e]
      have h0 := h 0
      simp only [List.getElem?_cons_zero, Option.some.injEq] at h0
      unfold concerning at ih ⊢
      by_cases hc : Concerns pair ft d.buyToken d.sellToken
      · obtain rfl := (h0 d hc).1 rfl
        rw [List.filter_cons_of_pos (by simpa [loadedOrder, Order.mk'] using hc), List.filter_cons_of_pos (by simpa [loadedOrder, Order.mk'] using hc), ih]
      · have hc' : ¬ Concerns pair ft d'.buyToken d'.sellToken := fun h' => hc (by rw [(h0 d' h').2 rfl]; exact h')
        rw [List.filter_cons_of_neg (by simpa [loadedOrder, Order.mk'] using hc), List.filter_cons_of_neg (by simpa [loadedOrder, Order.mk'] using hc'), ih]

theorem sorted_concerning {pair : Token × Token} {ft : Token} {os : List Order} (hn : (os.map (·.id)).Nodup) :
    concerning pair ft (sortedByExecPriority os) = sortedByExecPriority (concerning pair ft os) := by
  have hp : (concerning pair ft (sortedByExecPriority os)).Perm (sortedByExecPriority (concerning pair ft os)) :=
    ((sortedByExecPriority_perm os).filter _).trans (sortedByExecPriority_perm _).symm
  refine hp.eq_of_pairwise ?_ ((sortedByExecPriority_pairwise os).sublist List.filter_sublist) (sortedByExecPriority_pairwise _)
  intro a b ha hb h1 h2
  have ha' : a ∈ os := by simpa using List.mem_of_mem_filter ha
  have hb' : b ∈ os := by simpa using List.mem_of_mem_filter (hp.mem_iff.2 hb)
  by_contra hne
  have hid : a.id ≠ b.id := fun h => hne (nodup_ids_inj hn ha' hb' h)
  rcases Spec.Before.total hid with h | h
  · exact h2 h
  · exact h1 h

theorem used_concerning {pair : Token × Token} {ft : Token} {P : List Order} {o : Order} (ho : Concerns pair ft o.buyToken o.sellToken) :
    used (concerning pair ft P) o = used P o := by
  unfold used concerning
  rw [List.filter_filter]
  congr 2
  apply List.filter_congr
  intro c _
  by_cases h : SamePair c o
  · have : Concerns pair ft c.buyToken c.sellToken := by rw [h.2.1, h.2.2]; exact ho
    simp [h, this]
  · simp [h]

theorem keepFrom_concerning {pair : Token × Token} {ft : Token} {accounts : Accounts} (L : List Order) (P : List Order) :
    concerning pair ft (keepFrom accounts P L) = keepFrom accounts (concerning pair ft P) (concerning pair ft L) := by
  induction L generalizing P with
  | nil => rfl
  | cons o L ih =>
    have ih := ih (P ++ [o])
    have happ : concerning pair ft (P ++ [o]) = concerning pair ft P ++ concerning pair ft [o] := List.filter_append ..
    have hk : ∀ Q c M, keepFrom accounts Q (c :: M) =
        (if capOf accounts Q c = 0 then [] else [{ c with maxSell := capOf accounts Q c }]) ++ keepFrom accounts (Q ++ [c]) M := fun _ _ _ => rfl
    rw [hk, show ∀ A B, concerning pair ft (A ++ B) = concerning pair ft A ++ concerning pair ft B from fun A B => List.filter_append .., ih, happ]
    by_cases hc : Concerns pair ft o.buyToken o.sellToken
    · have hcap : capOf accounts (concerning pair ft P) o = capOf accounts P o := by
        unfold capOf
        rw [used_concerning hc]
      have e1 : concerning pair ft (o :: L) = o :: concerning pair ft L := List.filter_cons_of_pos (by simpa using hc)
      have e2 : concerning pair ft [o] = [o] := List.filter_cons_of_pos (by simpa using hc)
      rw [e1, e2, hk, hcap]
      congr 1
      split
      · rfl
      · exact List.filter_cons_of_pos (by simpa using hc)
    · have e1 : concerning pair ft (o :: L) = concerning pair ft L := List.filter_cons_of_neg (by simpa using hc)
      have e2 : concerning pair ft [o] = [] := List.filter_cons_of_neg (by simpa using hc)
      rw [e1, e2, List.append_nil]
      have : concerning pair ft (if capOf accounts P o = 0 then [] else [{ o with maxSell := capOf accounts P o }]) = [] := by
        split
        · rfl
        · exact List.filter_cons_of_neg (by simpa using hc)
      rw [this, List.nil_append]

theorem buyingSelling_concerning {pair : Token × Token} {ft : Token} (os : List Order) {x y : Token} (h : Concerns pair ft x y) :
    ordersBuyingSelling (concerning pair ft os) x y = ordersBuyingSelling os x y := by
  unfold ordersBuyingSelling concerning
  rw [List.filter_filter]
  apply List.filter_congr
  intro o _
  by_cases e : o.buyToken = x ∧ o.sellToken = y
  · simp [e, h]
  · simp [e]

/-- The loaded orders, and those concerning the pair are the same in both instances. -/
theorem load_concerning {cfg : Config} {inst inst' : Instance} {pair : Token × Token} (hc : CfgOk cfg) (hi : GoodInstance inst) (hi' : GoodInstance inst')
    (ha : AgreeOn pair inst inst') : ∃ os os', loadProblem cfg inst = .ok (inst.accounts, os, inst.fee) ∧
      loadProblem cfg inst' = .ok (inst.accounts, os', inst.fee) ∧ concerning pair inst.fee.token os = concerning pair inst.fee.token os' ∧
      ∀ p, loadPairProblem cfg inst p = (do
        pyAssert (p.2 ≠ inst.fee.token) "token_pair_solver/api.py:35"
        pure (inst.accounts, { b := ordersBuyingSelling os p.1 p.2, s := ordersBuyingSelling os p.2 p.1, f := ordersBuyingSelling os p.1 inst.fee.token }, inst.fee)) ∧
      loadPairProblem cfg inst' p = (do
        pyAssert (p.2 ≠ inst.fee.token) "token_pair_solver/api.py:35"
        pure (inst.accounts, { b := ordersBuyingSelling os' p.1 p.2, s := ordersBuyingSelling os' p.2 p.1, f := ordersBuyingSelling os' p.1 inst.fee.token }, inst.fee)) := by
  have hm : 0 < cfg.minTradable := by have := hc.minPos; omega
  have hl := loadInput_of_instance (cfg := cfg) hi.balances hi.sell
  have hl' := loadInput_of_instance (cfg := cfg) hi'.balances hi'.sell
  have r1 := restrict_spec hl.bal hl.amounts
  have r2 := restrict_spec hl'.bal hl'.amounts
  rw [ha.accounts] at r2
  refine ⟨keepFrom inst.accounts [] (sortedByExecPriority (inst.orders.mapIdx (fun k d => loadedOrder cfg (0 + k) d))),
    keepFrom inst.accounts [] (sortedByExecPriority (inst'.orders.mapIdx (fun k d => loadedOrder cfg (0 + k) d))), ?_, ?_, ?_, ?_⟩
  · unfold loadProblem
    rw [loadOrdersFrom_eq hm, ok_bind, r1]; rfl
  · unfold loadProblem
    rw [loadOrdersFrom_eq hm, ok_bind, ha.accounts, r2, ha.fee]; rfl
  · rw [keepFrom_concerning, keepFrom_concerning, sorted_concerning hl.ids, sorted_concerning hl'.ids, mapIdx_concerning _ _ 0 ha.orders]
  · intro p
    constructor
    · unfold loadPairProblem
      rw [loadOrdersFrom_eq hm, ok_bind, r1]; rfl
    · unfold loadPairProblem
      rw [loadOrdersFrom_eq hm, ok_bind, ha.accounts, r2, ha.fee]; rfl

theorem pool_concerning {pool : List Order} (h : Pool pool) (pair : Token × Token) (ft : Token) : Pool (concerning pair ft pool) :=
  ⟨h.ids.sublist (List.filter_sublist.map _), fun o ho => h.ok o (List.mem_of_mem_filter ho)⟩

theorem mapE_congr {α β : Type} {f g : α → Py β} {l : List α} (h : ∀ x ∈ l, f x = g x) : mapE f l = mapE g l := by
  induction l with
  | nil => rfl
  | cons x l ih =>
    unfold mapE
    rw [h x (by simp), ih (fun y hy => h y (by simp [hy]))]

/-- C71. The command for a pair: orders that do not concern the pair have no influence on anything in the outcome, be it a solution or an exception. -/
theorem C71_other_orders {cfg : Config} {ext : Ext} {inst inst' : Instance} {pair : Token × Token} {xrate : Option ℚ} (hc : CfgOk cfg)
    (hi : GoodInstance inst) (hi' : GoodInstance inst') (hne : pair.1 ≠ pair.2) (hbr : ∀ E, MaxBranching E (ext.branch E))
    (hx : ∀ y, xrate = some y → 0 < y) (ha : AgreeOn pair inst inst') :
    tokenPairMain cfg ext inst' pair xrate = tokenPairMain cfg ext inst pair xrate := by
  have hm : 0 < cfg.minTradable := by have := hc.minPos; omega
  obtain ⟨os, os', l1, l2, hcon, hlp⟩ := load_concerning hc hi hi' ha
  obtain ⟨hp, _, _⟩ := loadedPool hm hi.balances hi.ints hi.sell l1
  have hbs : ∀ x y, Concerns pair inst.fee.token x y → ordersBuyingSelling os' x y = ordersBuyingSelling os x y := by
    intro x y h
    rw [← buyingSelling_concerning os h, ← buyingSelling_concerning os' h, hcon]
  obtain ⟨q1, q2⟩ := hlp pair
  rw [hbs _ _ (.inl ⟨rfl, rfl⟩), hbs _ _ (.inr (.inl ⟨rfl, rfl⟩)), hbs _ _ (.inr (.inr ⟨rfl, rfl⟩)), ← q1] at q2
  unfold tokenPairMain
  rw [q2]
  cases hload : loadPairProblem cfg inst pair with
  | error e => rfl
  | ok r =>
    rw [hload] at q1
    obtain ⟨accounts, bk, fee⟩ := r
    rw [ok_bind, ok_bind]
    dsimp only
    have q1 := q1.symm
    simp only [bind_eq_ok, pyAssert_eq_ok, exists_and_left, exists_const] at q1
    obtain ⟨_, e⟩ := q1
    cases e
    cases hr : solveEconomicViable cfg ext pair inst.accounts (ordersBuyingSelling os pair.1 pair.2) (ordersBuyingSelling os pair.2 pair.1)
        (ordersBuyingSelling os pair.1 inst.fee.token) inst.fee xrate with
    | error e => rfl
    | ok r =>
      obtain ⟨sol, objs⟩ := r
      rw [ok_bind, ok_bind]
      dsimp only
      have hsol : SolOk cfg inst.fee (concerning pair inst.fee.token os) sol := by
        rw [← buyingSelling_concerning os (.inl ⟨rfl, rfl⟩ : Concerns pair inst.fee.token pair.1 pair.2),
          ← buyingSelling_concerning os (.inr (.inl ⟨rfl, rfl⟩) : Concerns pair inst.fee.token pair.2 pair.1),
          ← buyingSelling_concerning os (.inr (.inr ⟨rfl, rfl⟩) : Concerns pair inst.fee.token pair.1 inst.fee.token)] at hr
        have hp' := pool_concerning hp.wf pair inst.fee.token
        unfold solveEconomicViable at hr
        simp only [bind_eq_ok] at hr
        obtain ⟨⟨sol', objs'⟩, h3, ⟨⟩, _, e⟩ := hr
        cases e
        exact (economicLoop_spec hp' hc hi.feeLt hne hbr hx (bookOf_filter hp' (forall₂_same_refl _) pair inst.fee _ (.inl rfl))
          (gone := []) (fun _ h => by cases h) (.inl rfl) h3).1
      unfold dumpSolution
      rw [ha.accounts, ha.fee]
      have hd : mapE (dumpOrder (originalOrdersFrom 0 inst'.orders)) ((sol.orders.insertionSort (fun a b => a.id ≤ b.id)).filter (fun o => decide (o.sell > 0))) =
          mapE (dumpOrder (originalOrdersFrom 0 inst.orders)) ((sol.orders.insertionSort (fun a b => a.id ≤ b.id)).filter (fun o => decide (o.sell > 0))) := by
        refine mapE_congr fun o ho => ?_
        have ho : o ∈ sol.orders := (List.perm_insertionSort _ _).mem_iff.1 (List.mem_of_mem_filter ho)
        rcases hsol with rfl | hg
        · cases ho
        obtain ⟨a, hao, hs⟩ := hg.der o ho
        obtain ⟨hao, hcn⟩ := List.mem_filter.1 hao
        obtain ⟨k, d, hst⟩ := hp.stems a hao
        have hcn' : Concerns pair inst.fee.token d.buyToken d.sellToken := by
          rw [← hst.2.2.2.1, ← hst.2.2.2.2.1]
          simpa using hcn
        have g1 : dictGet? (originalOrdersFrom 0 inst.orders) o.id = some d := by
          rw [← hst.1, (hst.same hs).2.1]
          simpa using originalOrders_get inst.orders 0 k
        have g2 : dictGet? (originalOrdersFrom 0 inst'.orders) o.id = some d := by
          rw [← (ha.orders k d hcn').1 hst.1, (hst.same hs).2.1]
          simpa using originalOrders_get inst'.orders 0 k
        unfold dumpOrder
        rw [dictGet_of g1, dictGet_of g2]
      dsimp only
      rw [hd]

theorem bestLoop_attained {cfg : Config} {ext : Ext} {accounts : Accounts} {orders : List Order} {fee : Fee} (hc : CfgOk cfg) (hf : fee.value < 1)
    (hbr : ∀ E, MaxBranching E (ext.branch E)) (hp : Pool orders) {visits : List ((Token × Token) × Bool)}
    (hv : ∀ v ∈ visits, v.1.1 ≠ v.1.2) {st0 st : BestState} (hs : List.Forall₂ SameButExec orders st0.orders)
    (h : bestLoop cfg ext accounts fee visits st0 = .ok st) :
    st.objective = st0.objective ∨ ∃ v ∈ visits, ∃ u os, List.Forall₂ SameButExec orders u ∧
      matchAndEvaluate cfg ext v.1 accounts u fee = .ok (st.objective, st.sol, os) := by
  induction visits generalizing st0 with
  | nil => cases h; exact .inl rfl
  | cons v visits ih =>
    obtain ⟨q, stop⟩ := v
    unfold bestLoop at h
    dsimp only at h
    rw [bind_eq_ok] at h
    obtain ⟨⟨obj, sol, os⟩, e, h⟩ := h
    dsimp only at h
    have hos : List.Forall₂ SameButExec orders os := by
      have e := e
      unfold matchAndEvaluate at e
      simp only [bind_eq_ok] at e
      obtain ⟨⟨sol'', os''⟩, h3, acc, _, obj'', _, e⟩ := e
      cases e
      exact (matchTokenPair_spec hc hf (hv (q, stop) (by simp)) hbr hp hs h3).1
    have key : ∀ st1 : BestState, bestLoop cfg ext accounts fee visits st1 = .ok st ∨ st1 = st → List.Forall₂ SameButExec orders st1.orders →
        (st.objective = st1.objective ∧ st.sol = st1.sol) ∨ ∃ v ∈ visits, ∃ u os, List.Forall₂ SameButExec orders u ∧
          matchAndEvaluate cfg ext v.1 accounts u fee = .ok (st.objective, st.sol, os) := by
      intro st1 h1 hs1
      rcases h1 with h1 | rfl
      · obtain ⟨l, hl, ⟨g1, g2, _⟩ | ⟨l1, l2, e1, g1, _⟩⟩ := bestLoop_evaluations h1
        · exact .inl ⟨g2, g1⟩
        · rcases ih (fun v hv' => hv v (by simp [hv'])) hs1 h1 with h2 | h2
          · exact absurd h2 g1.ne'
          · exact .inr h2
      · exact .inl ⟨rfl, rfl⟩
    have h' : bestLoop cfg ext accounts fee visits (if obj > st0.objective then ({ objective := obj, sol, orders := os } : BestState) else { st0 with orders := os }) = .ok st ∨
        (if obj > st0.objective then ({ objective := obj, sol, orders := os } : BestState) else { st0 with orders := os }) = st := by
      cases stop with
      | true => simp only [if_true] at h; cases h; exact .inr rfl
      | false => simp only [Bool.false_eq_true, if_false] at h; exact .inl h
    rcases key _ h' (by split <;> exact hos) with ⟨g1, g2⟩ | ⟨v, hv', g⟩
    · split at g1
      · rename_i hgt
        rw [if_pos hgt] at g2
        exact .inr ⟨(q, stop), by simp, st0.orders, os, hs, by rw [g1, g2]; exact e⟩
      · exact .inl g1
    · exact .inr ⟨v, by simp [hv'], g⟩

/-- The evaluation of a pair only looks at the orders concerning it. -/
theorem evaluate_concerning {cfg : Config} {ext : Ext} {pair : Token × Token} {accounts : Accounts} {fee : Fee} {u os : List Order} {obj : ℚ} {sol : Solution}
    (h : matchAndEvaluate cfg ext pair accounts u fee = .ok (obj, sol, os)) :
    ∃ os', matchAndEvaluate cfg ext pair accounts (concerning pair fee.token u) fee = .ok (obj, sol, os') := by
  unfold matchAndEvaluate at h ⊢
  rw [bind_eq_ok] at h
  obtain ⟨⟨sol', os'⟩, h1, h2⟩ := h
  dsimp only at h2
  have hm : ∃ os'', matchTokenPair cfg ext pair accounts (concerning pair fee.token u) fee = .ok (sol', os'') := by
    unfold matchTokenPair at h1 ⊢
    rw [buyingSelling_concerning u (.inl ⟨rfl, rfl⟩ : Concerns pair fee.token pair.1 pair.2),
      buyingSelling_concerning u (.inr (.inl ⟨rfl, rfl⟩) : Concerns pair fee.token pair.2 pair.1),
      buyingSelling_concerning u (.inr (.inr ⟨rfl, rfl⟩) : Concerns pair fee.token pair.1 fee.token)]
    dsimp only at h1 ⊢
    generalize (if pair.1 ≠ fee.token then ordersBuyingSelling u pair.1 fee.token else []) = f at h1 ⊢
    split at h1
    · rename_i h; rw [if_pos h]; cases h1; exact ⟨_, rfl⟩
    · rename_i h; rw [if_neg h]
      split at h1
      · rename_i h; rw [if_pos h]; cases h1; exact ⟨_, rfl⟩
      · rename_i h; rw [if_neg h]
        split at h1
        · rename_i h; rw [if_pos h]; cases h1; exact ⟨_, rfl⟩
        · rename_i h; rw [if_neg h]
          rw [bind_eq_ok] at h1
          obtain ⟨r, h3, h4⟩ := h1
          rw [h3, ok_bind]
          cases h4
          exact ⟨_, rfl⟩
  obtain ⟨os'', hm⟩ := hm
  rw [hm, ok_bind]
  dsimp only
  simp only [bind_eq_ok] at h2
  obtain ⟨acc, a1, v, a2, e⟩ := h2
  cases e
  rw [a1, ok_bind, a2]
  exact ⟨_, rfl⟩

theorem forall₂_concerning {pair : Token × Token} {ft : Token} {a b : List Order} (h : List.Forall₂ SameButExec a b) :
    List.Forall₂ SameButExec (concerning pair ft a) (concerning pair ft b) := by
  induction h with
  | nil => exact .nil
  | @cons x y a b hxy _ ih =>
    obtain ⟨_, _, e⟩ := sameButExec_iff.1 hxy
    have e1 : y.buyToken = x.buyToken ∧ y.sellToken = x.sellToken := by rw [e]; exact ⟨rfl, rfl⟩
    unfold concerning at ih ⊢
    by_cases hc : Concerns pair ft x.buyToken x.sellToken
    · rw [List.filter_cons_of_pos (by simpa using hc), List.filter_cons_of_pos (by rw [e1.1, e1.2]; simpa using hc)]
      exact .cons hxy ih
    · rw [List.filter_cons_of_neg (by simpa using hc), List.filter_cons_of_neg (by rw [e1.1, e1.2]; simpa using hc)]
      exact ih

/-- C71. The command over all pairs: further orders with new tokens never make the result worse. (Both runs without time-out.) -/
theorem C71_new_tokens {cfg : Config} {ext : Ext} {inst inst' : Instance} {shuffle shuffle' : List (Token × Token) → List ((Token × Token) × Bool)}
    (hc : CfgOk cfg) (hi : GoodInstance inst) (hi' : GoodInstance inst') (hbr : ∀ E, MaxBranching E (ext.branch E))
    (hsh : ∀ E, ∀ v ∈ shuffle E, v.1 ∈ E) (hsh' : ∀ E, ((shuffle' E).map (·.1)).Perm E) (hto : ∀ E, ∀ v ∈ shuffle' E, v.2 = false) (hn : NewTokens inst inst')
    {d d' : Dump} (h : bestTokenPairMain cfg ext inst shuffle = .ok d) (h' : bestTokenPairMain cfg ext inst' shuffle' = .ok d') :
    reportedObjective d ≤ reportedObjective d' := by
  have hm : 0 < cfg.minTradable := by have := hc.minPos; omega
  have hsh1 : ∀ E, ∀ v ∈ shuffle' E, v.1 ∈ E := fun E v hv => (hsh' E).mem_iff.1 (List.mem_map.2 ⟨v, hv, rfl⟩)
  have hpos := (C69_worth hc hi' hbr hsh1 h').1
  -- agreement on every candidate of the first instance
  have hagree : ∀ orders, LoadedPool cfg inst orders → ∀ p ∈ eligibleTokenPairs orders inst.fee.token, AgreeOn p inst inst' := by
    intro orders hl p hp
    obtain ⟨more, hmore, hnew⟩ := hn.orders
    obtain ⟨_, _, ⟨o, ho, ho2⟩, h1⟩ := C41_candidates.1 hp
    have htok : ∀ t, (t = p.1 ∨ t = p.2 ∨ t = inst.fee.token) → t = inst.fee.token ∨ ∃ d ∈ inst.orders, t = d.buyToken ∨ t = d.sellToken := by
      have hocc : ∀ o ∈ orders, ∃ d ∈ inst.orders, o.buyToken = d.buyToken ∧ o.sellToken = d.sellToken := by
        intro o ho
        obtain ⟨k, d, hst⟩ := hl.stems o ho
        exact ⟨d, List.mem_of_getElem? hst.1, hst.2.2.2.1, hst.2.2.2.2.1⟩
      rintro t (rfl | rfl | rfl)
      · rcases h1 with h1 | ⟨c, hc', e1, e2⟩
        · exact .inl h1
        · obtain ⟨d, hd, f1, f2⟩ := hocc c hc'
          exact .inr ⟨d, hd, .inl (by rw [← e1, f1])⟩
      · obtain ⟨d, hd, f1, f2⟩ := hocc o ho
        rcases ho2 with e | e
        · exact .inr ⟨d, hd, .inl (by rw [← f1, e])⟩
        · exact .inr ⟨d, hd, .inr (by rw [← f2, e])⟩
      · exact .inl rfl
    refine ⟨hn.accounts, hn.fee, fun k d hcn => ?_⟩
    rw [hmore, List.getElem?_append]
    split
    · rfl
    · rename_i hk
      rw [List.getElem?_eq_none (by omega)]
      refine ⟨fun h => (by cases h), fun h => ?_⟩
      exfalso
      obtain ⟨t, ht, hf, hall⟩ := hnew d (List.mem_of_getElem? h)
      have : t = p.1 ∨ t = p.2 ∨ t = inst.fee.token := by
        rcases hcn with ⟨e1, e2⟩ | ⟨e1, e2⟩ | ⟨e1, e2⟩ <;> rcases ht with rfl | rfl <;> simp [e1, e2]
      rcases htok t this with e | ⟨d', hd', e⟩
      · exact hf e
      · rcases e with e | e
        · exact (hall d' hd').1 e
        · exact (hall d' hd').2 e
  unfold bestTokenPairMain at h
  rw [bind_eq_ok] at h
  obtain ⟨⟨accounts, orders, fee⟩, hload, h⟩ := h
  dsimp only at h
  rw [bind_eq_ok] at h
  obtain ⟨st, hst, hd⟩ := h
  obtain ⟨hl, rfl, rfl⟩ := loadedPool hm hi.balances hi.ints hi.sell hload
  rw [reported_best hc hi hbr hload (hsh _) hst hd]
  rcases bestLoop_attained hc hi.feeLt hbr hl.wf (fun v hv => eligible_ne (hsh _ v hv)) (forall₂_same_refl _) hst with h0 | ⟨v, hv, u, os, hu, hev⟩
  · rw [h0]; exact hpos
  have hel := hsh _ v hv
  have hag := hagree orders hl _ hel
  obtain ⟨os1, os2, l1, l2, hcon, _⟩ := load_concerning hc hi hi' hag
  rw [hload] at l1
  cases l1
  by_cases hM : MatchablePair orders inst.fee.token v.1
  · unfold bestTokenPairMain at h'
    rw [l2, ok_bind] at h'
    dsimp only at h'
    rw [bind_eq_ok] at h'
    obtain ⟨st', hst', hd'⟩ := h'
    have l2' : loadProblem cfg inst' = .ok (inst'.accounts, os2, inst'.fee) := by rw [l2, hn.accounts, hn.fee]
    obtain ⟨hl', _, _⟩ := loadedPool hm hi'.balances hi'.ints hi'.sell l2'
    rw [← hn.accounts, ← hn.fee] at hst'
    rw [reported_best hc hi' hbr l2' (hsh1 _) hst' hd']
    have hoff : ∀ x y, Concerns v.1 inst.fee.token x y → Offers orders x y → Offers os2 x y := by
      rintro x y hcn ⟨o, ho, e1, e2⟩
      have : o ∈ concerning v.1 inst.fee.token orders := List.mem_filter.2 ⟨ho, by rw [e1, e2]; simpa using hcn⟩
      rw [hcon] at this
      exact ⟨o, List.mem_of_mem_filter this, e1, e2⟩
    have hM' : MatchablePair os2 inst'.fee.token v.1 := by
      rw [hn.fee]
      exact ⟨hoff _ _ (.inl ⟨rfl, rfl⟩) hM.bSide, hoff _ _ (.inr (.inl ⟨rfl, rfl⟩)) hM.sSide, hM.feeSide.imp id (hoff _ _ (.inr (.inr ⟨rfl, rfl⟩)))⟩
    have hne := eligible_ne hel
    have hel' : v.1 ∈ eligibleTokenPairs os2 inst'.fee.token := by
      rcases C41_complete hne hM' with hel' | ⟨e, _⟩
      · exact hel'
      · rw [hn.fee] at e
        exact absurd e (C41_candidates.1 hel).2.1
    have hvis : Visited (shuffle' (eligibleTokenPairs os2 inst'.fee.token)) v.1 := by
      obtain ⟨w, hw, e⟩ := List.mem_map.1 ((hsh' _).mem_iff.2 hel')
      obtain ⟨pre, post, e2⟩ := List.append_of_mem hw
      exact ⟨pre, w.2, post, by rw [e2, ← e], fun x hx => hto _ x (by rw [e2]; simp [hx])⟩
    obtain ⟨u', obj', sol', os', hu', hev', hle⟩ := bestLoop_visited hc hi'.feeLt hbr hl'.wf (fun v hv => eligible_ne (hsh1 _ v hv)) (forall₂_same_refl _) hst' hvis
    rw [hn.accounts, hn.fee] at hev'
    obtain ⟨_, c1⟩ := evaluate_concerning hev
    obtain ⟨_, c2⟩ := evaluate_concerning hev'
    have := (C43_evaluations_agree hc hi.feeLt hne hbr (pool_concerning hl.wf v.1 inst.fee.token) (forall₂_concerning hu)
      (by rw [hcon]; exact forall₂_concerning hu') c1 c2).1
    rw [this]
    exact hle
  · refine le_trans (le_of_eq ?_) hpos
    have hM' : ¬ MatchablePair u inst.fee.token v.1 := by
      have hoff : ∀ x y, Offers u x y → Offers orders x y := by
        rintro x y ⟨o, ho, e1, e2⟩
        obtain ⟨a, ha, hs⟩ := forall₂_mem_right hu _ ho
        obtain ⟨_, _, e⟩ := sameButExec_iff.1 hs
        exact ⟨a, ha, by rw [← e1, e], by rw [← e2, e]⟩
      exact fun h => hM ⟨hoff _ _ h.bSide, hoff _ _ h.sSide, h.feeSide.imp id (hoff _ _)⟩
    unfold matchAndEvaluate at hev
    rw [C41_unmatchable hM', ok_bind] at hev
    simp only [bind_eq_ok] at hev
    obtain ⟨acc, _, w, hw, e⟩ := hev
    have e1 : w = 0 := by
      unfold computeObjectiveCore at hw
      simpa [Solution.trivial, mapE, pure_eq_ok, ok_bind] using hw.symm
    have e2 : (w, Solution.trivial, u) = (st.objective, st.sol, os) := Except.ok.inj e
    rw [← (Prod.mk.inj e2).1]
    exact e1

namespace ExFrame

/-- The graph of a match between the fee token F and S. -/
def graph : List (Token × Token) := [("F", "S")]

noncomputable def branch (E : List (Token × Token)) : List (Token × Token) :=
  if E = graph then [("F", "S")] else (exists_maxBranching E).choose

noncomputable def ext : Ext := { sqrt := ExInst.sqrt, branch, fdiv := fun q n => .ok (q / n) }

def other : OrderDict := { accountID := "x", buyToken := "X", sellToken := "Y", buyAmount := 20000, sellAmount := 20000 }
def sameOrder (u : AccountId) : OrderDict := { accountID := u, buyToken := "F", sellToken := "S", buyAmount := 10 ^ 19, sellAmount := 2 * 10 ^ 19 }
def counter : OrderDict := { accountID := "s", buyToken := "S", sellToken := "F", buyAmount := 10 ^ 19, sellAmount := 10 ^ 19 }

/-- `n` orders on another pair, then equal orders of u and v, and one order that can be matched with either. -/
def inst (n : ℕ) : Instance where
  accounts := [("u", [("S", 2 * 10 ^ 19)]), ("v", [("S", 2 * 10 ^ 19)]), ("s", [("F", 10 ^ 19)]), ("x", [("Y", 10 ^ 19)])]
  fee := { token := "F", value := 1 / 1000 }
  orders := List.replicate n other ++ [sameOrder "u", sameOrder "v", counter]

theorem branch_max (E : List (Token × Token)) : MaxBranching E (branch E) := by
  unfold branch
  split
  · rename_i h
    subst h
    refine ⟨⟨by decide, by decide, ⟨fun t => if t = "F" then 0 else 1, by decide⟩⟩, ?_⟩
    intro br hb
    have hsub : br.map (·.2) ⊆ ["S"] := by
      intro t ht
      obtain ⟨e, he, rfl⟩ := List.mem_map.1 ht
      have := hb.sub e he
      simp only [graph, List.mem_cons, List.not_mem_nil, or_false] at this
      rcases this with rfl; decide
    have := (hb.inDeg.subperm hsub).length_le
    simpa using this
  · exact (exists_maxBranching E).choose_spec

theorem good8 : GoodInstance (inst 8) := by constructor <;> decide +kernel
theorem good9 : GoodInstance (inst 9) := by constructor <;> decide +kernel

end ExFrame

/-- C71, the limit of the claim: positions matter. The order ids are positions as text, and equal orders are served by id, so one more order on another pair in
front (position 9 becomes "10", which is before "9") decides who of two users with equal orders is served. -/
theorem C71_position_matters : CfgOk Config.default ∧ (∀ E, MaxBranching E (ExFrame.ext.branch E)) ∧ GoodInstance (ExFrame.inst 8) ∧ GoodInstance (ExFrame.inst 9) ∧
    (ExFrame.inst 9).orders = ExFrame.other :: (ExFrame.inst 8).orders ∧ (ExFrame.inst 9).accounts = (ExFrame.inst 8).accounts ∧
    ¬ Concerns ("F", "S") "F" ExFrame.other.buyToken ExFrame.other.sellToken ∧
    ∃ d d', tokenPairMain Config.default ExFrame.ext (ExFrame.inst 8) ("F", "S") none = .ok d ∧
      tokenPairMain Config.default ExFrame.ext (ExFrame.inst 9) ("F", "S") none = .ok d' ∧
      d.orders.map (·.accountID) = ["s", "u"] ∧ d'.orders.map (·.accountID) = ["v", "s"] := by
  obtain ⟨d, h1, h2⟩ := exists_of_pyCheck (x := tokenPairMain Config.default ExFrame.ext (ExFrame.inst 8) ("F", "S") none)
    (p := fun d => d.orders.map (·.accountID) = ["s", "u"]) (by decide +kernel)
  obtain ⟨d', h3, h4⟩ := exists_of_pyCheck (x := tokenPairMain Config.default ExFrame.ext (ExFrame.inst 9) ("F", "S") none)
    (p := fun d => d.orders.map (·.accountID) = ["v", "s"]) (by decide +kernel)
  exact ⟨by constructor <;> decide, ExFrame.branch_max, ExFrame.good8, ExFrame.good9, rfl, rfl, by decide, d, d', h1, h3, h2, h4⟩

/-- Replacing the other orders of the example by a longer list with more orders behind has no influence. -/
example : let inst' : Instance := { ExFrame.inst 8 with orders := List.replicate 8 { ExFrame.other with sellToken := "F" } ++
      [ExFrame.sameOrder "u", ExFrame.sameOrder "v", ExFrame.counter, ExFrame.other, ExFrame.other] }
    (∃ d, tokenPairMain Config.default ExFrame.ext inst' ("F", "S") none = .ok d ∧ d.orders.map (·.accountID) = ["s", "u"]) ∧
    tokenPairMain Config.default ExFrame.ext inst' ("F", "S") none = tokenPairMain Config.default ExFrame.ext (ExFrame.inst 8) ("F", "S") none := by
  intro inst'
  have e : tokenPairMain Config.default ExFrame.ext inst' ("F", "S") none = tokenPairMain Config.default ExFrame.ext (ExFrame.inst 8) ("F", "S") none := by
    refine C71_other_orders (by constructor <;> decide) (ExFrame.good8) (by constructor <;> decide +kernel) (by decide) ExFrame.branch_max (by simp) ⟨rfl, rfl, ?_⟩
    intro k d hcn
    have hl : (ExFrame.inst 8).orders.length = 11 := rfl
    have hl' : inst'.orders.length = 13 := rfl
    by_cases hk : k < 13
    · have hf : ∀ k < 13, ((ExFrame.inst 8).orders[k]?).filter (fun d => decide (Concerns ("F", "S") "F" d.buyToken d.sellToken)) =
          (inst'.orders[k]?).filter (fun d => decide (Concerns ("F", "S") "F" d.buyToken d.sellToken)) := by decide +kernel
      have hf := hf k hk
      have hcn : decide (Concerns ("F", "S") "F" d.buyToken d.sellToken) = true := decide_eq_true hcn
      constructor
      · intro h
        exact (Option.filter_eq_some_iff.1 (hf ▸ Option.filter_eq_some_iff.2 ⟨h, hcn⟩)).1
      · intro h
        exact (Option.filter_eq_some_iff.1 (hf.symm ▸ Option.filter_eq_some_iff.2 ⟨h, hcn⟩)).1
    · rw [List.getElem?_eq_none (by omega), List.getElem?_eq_none (by omega)]
  obtain ⟨_, _, _, _, _, _, _, d, _, h1, _, h2, _⟩ := C71_position_matters
  exact ⟨⟨d, by rw [e]; exact h1, h2⟩, e⟩

/-- An order on X/Y is new in the example instance; the command over all pairs is worth more than nothing on both. -/
example : let inst' : Instance := { ExInst.inst with orders := ExInst.inst.orders ++ [{ ExFrame.other with accountID := "A" }] }
    NewTokens ExInst.inst inst' ∧ GoodInstance inst' ∧
    ∃ d d', bestTokenPairMain Config.default ExInst.ext ExInst.inst (fun E => E.map (fun p => (p, false))) = .ok d ∧
      bestTokenPairMain Config.default ExInst.ext inst' (fun E => E.map (fun p => (p, false))) = .ok d' ∧ 0 < reportedObjective d ∧
      reportedObjective d ≤ reportedObjective d' := by
  intro inst'
  have hn : NewTokens ExInst.inst inst' := by
    refine ⟨rfl, rfl, _, rfl, ?_⟩
    intro e he
    obtain rfl := List.mem_singleton.1 he
    exact ⟨"X", .inl rfl, by decide, by decide⟩
  have hg : GoodInstance inst' := by constructor <;> decide +kernel
  obtain ⟨d, h1, h2⟩ := exists_of_pyCheck (x := bestTokenPairMain Config.default ExInst.ext ExInst.inst (fun E => E.map (fun p => (p, false))))
    (p := fun d => 0 < reportedObjective d) (by decide +kernel)
  obtain ⟨d', h3, _⟩ := exists_of_pyCheck (x := bestTokenPairMain Config.default ExInst.ext inst' (fun E => E.map (fun p => (p, false))))
    (p := fun _ => True) (by decide +kernel)
  refine ⟨hn, hg, d, d', h1, h3, h2, C71_new_tokens (by constructor <;> decide) ExInst.good hg ExInst.branch_max ?_ ?_ ?_ hn h1 h3⟩
  · intro E v hv
    obtain ⟨p, hp, rfl⟩ := List.mem_map.1 hv
    exact hp
  · intro E
    rw [List.map_map]
    simp [Function.comp_def]
  · intro E v hv
    obtain ⟨p, _, rfl⟩ := List.mem_map.1 hv
    rfl

end Dex
