import Verif.Proof.Branch
import Verif.Props.Rename

/-! # Property C86: the outcome does not depend on which maximum branching the graph library returns -/

namespace Dex

open Spec

/-- C86. The token-pair solver gives the same result, or raises the same exception, for any two ways of choosing a maximum branching. -/
theorem C86_pair_solver {cfg : Config} {ext : Ext} {br : List (Token × Token) → List (Token × Token)} {inst : Instance} {pair : Token × Token}
    {xrate : Option ℚ} (hc : CfgOk cfg) (hi : GoodInstance inst) (hne : pair.1 ≠ pair.2) (hbr : ∀ E, MaxBranching E (ext.branch E))
    (hbr' : ∀ E, MaxBranching E (br E)) (hx : ∀ y, xrate = some y → 0 < y) :
    tokenPairMain cfg { ext with branch := br } inst pair xrate = tokenPairMain cfg ext inst pair xrate := by
  have hm : 0 < cfg.minTradable := by have := hc.minPos; omega
  unfold tokenPairMain
  refine bind_congr' fun r h => ?_
  obtain ⟨accounts, bk, fee⟩ := r
  unfold loadPairProblem at h
  simp only [bind_eq_ok, pyAssert_eq_ok, exists_and_left, exists_const] at h
  obtain ⟨os, h1, os', h2, _, e⟩ := h
  cases e
  have hload : loadProblem cfg inst = .ok (inst.accounts, os', inst.fee) := by
    unfold loadProblem; rw [h1, ok_bind, h2]; rfl
  obtain ⟨hl, _, _⟩ := loadedPool hm hi.balances hi.ints hi.sell hload
  dsimp only
  rw [← solveEconomicViable_branch hl.wf hc hi.feeLt hne hbr hbr' hx
    (bookOf_filter hl.wf (forall₂_same_refl _) pair inst.fee _ (.inl rfl))]

theorem matchAndEvaluate_branch {cfg : Config} {ext : Ext} {br : List (Token × Token) → List (Token × Token)} {pair : Token × Token}
    {accounts : Accounts} {pool orders : List Order} {fee : Fee} (hc : CfgOk cfg) (hf : fee.value < 1) (hne : pair.1 ≠ pair.2)
    (hbr : ∀ E, MaxBranching E (ext.branch E)) (hbr' : ∀ E, MaxBranching E (br E)) (hp : Pool pool) (hs : List.Forall₂ SameButExec pool orders) :
    matchAndEvaluate cfg { ext with branch := br } pair accounts orders fee = matchAndEvaluate cfg ext pair accounts orders fee := by
  have : matchTokenPair cfg { ext with branch := br } pair accounts orders fee = matchTokenPair cfg ext pair accounts orders fee := by
    unfold matchTokenPair
    have := solveEconomicViable_branch (accounts := accounts) (xrate := none) hp hc hf hne hbr hbr' (by simp) (bookOf_pair hp hs pair fee)
    unfold feeOrdersFor at this
    dsimp only
    rw [← this]
  unfold matchAndEvaluate
  rw [this]

theorem bestLoop_branch {cfg : Config} {ext : Ext} {br : List (Token × Token) → List (Token × Token)} {accounts : Accounts} {pool : List Order} {fee : Fee}
    (hc : CfgOk cfg) (hf : fee.value < 1) (hbr : ∀ E, MaxBranching E (ext.branch E)) (hbr' : ∀ E, MaxBranching E (br E)) (hp : Pool pool)
    {visits : List ((Token × Token) × Bool)} (hv : ∀ v ∈ visits, v.1.1 ≠ v.1.2) {st : BestState} (hs : List.Forall₂ SameButExec pool st.orders) :
    bestLoop cfg { ext with branch := br } accounts fee visits st = bestLoop cfg ext accounts fee visits st := by
  induction visits generalizing st with
  | nil => rfl
  | cons v visits ih =>
    obtain ⟨pair, stop⟩ := v
    have hne : pair.1 ≠ pair.2 := hv (pair, stop) (by simp)
    unfold bestLoop
    rw [matchAndEvaluate_branch hc hf hne hbr hbr' hp hs]
    refine bind_congr' fun r hr => ?_
    obtain ⟨obj, sol, orders'⟩ := r
    unfold matchAndEvaluate at hr
    simp only [bind_eq_ok] at hr
    obtain ⟨⟨sol', orders''⟩, h2, acc, _, obj', _, e⟩ := hr
    cases e
    obtain ⟨g1, _⟩ := matchTokenPair_spec hc hf hne hbr hp hs h2
    dsimp only
    split
    · rfl
    · refine ih (fun v hv' => hv v (by simp [hv'])) ?_
      split <;> exact g1

/-- C86 for the search over all pairs, for every shuffle and time-out. -/
theorem C86_best_pair_solver {cfg : Config} {ext : Ext} {br : List (Token × Token) → List (Token × Token)} {inst : Instance}
    {shuffle : List (Token × Token) → List ((Token × Token) × Bool)} (hc : CfgOk cfg) (hi : GoodInstance inst)
    (hbr : ∀ E, MaxBranching E (ext.branch E)) (hbr' : ∀ E, MaxBranching E (br E)) (hsh : ∀ E, ∀ v ∈ shuffle E, v.1 ∈ E) :
    bestTokenPairMain cfg { ext with branch := br } inst shuffle = bestTokenPairMain cfg ext inst shuffle := by
  have hm : 0 < cfg.minTradable := by have := hc.minPos; omega
  unfold bestTokenPairMain
  refine bind_congr' fun r h => ?_
  obtain ⟨accounts, orders, fee⟩ := r
  obtain ⟨hl, rfl, rfl⟩ := loadedPool hm hi.balances hi.ints hi.sell h
  dsimp only
  unfold bestTokenPair
  rw [bestLoop_branch hc hi.feeLt hbr hbr' hl.wf (fun v hv => eligible_ne (hsh _ v hv)) (forall₂_same_refl _)]

/-! ### With renaming -/

theorem Branching.rename (ρ : Renaming) {E br : List (Token × Token)} : Branching (E.map ρ.pair) (br.map ρ.pair) ↔ Branching E br := by
  have hinj : Function.Injective ρ.pair := fun p q h => Prod.ext (ρ.tok_inj (congrArg Prod.fst h)) (ρ.tok_inj (congrArg Prod.snd h))
  have hmap : (br.map ρ.pair).map (·.2) = (br.map (·.2)).map ρ.tok := by rw [List.map_map, List.map_map]; rfl
  constructor
  · rintro ⟨h1, h2, rank, h3⟩
    refine ⟨fun e he => ?_, ?_, fun t => rank (ρ.tok t), fun e he => h3 (ρ.pair e) (List.mem_map_of_mem he)⟩
    · exact (List.mem_map_of_injective hinj).1 (h1 _ (List.mem_map_of_mem he))
    · rw [hmap] at h2; exact h2.of_map
  · rintro ⟨h1, h2, rank, h3⟩
    refine ⟨fun e he => ?_, ?_, Function.extend ρ.tok rank (fun _ => 0), fun e he => ?_⟩
    · obtain ⟨d, hd, rfl⟩ := List.mem_map.1 he
      exact List.mem_map_of_mem (h1 d hd)
    · rw [hmap]; exact h2.map ρ.tok_inj
    · obtain ⟨d, hd, rfl⟩ := List.mem_map.1 he
      show Function.extend ρ.tok rank _ (ρ.tok d.1) < Function.extend ρ.tok rank _ (ρ.tok d.2)
      rw [ρ.tok_inj.extend_apply, ρ.tok_inj.extend_apply]
      exact h3 d hd

/-- A maximum branching of the renamed graph, under the old names. -/
theorem maxBranching_pull (ρ : Renaming) {E br' : List (Token × Token)} (h : MaxBranching (E.map ρ.pair) br') :
    ∃ br : List (Token × Token), br.map ρ.pair = br' ∧ MaxBranching E br := by
  have hex : ∃ br : List (Token × Token), br.map ρ.pair = br' := by
    have hsub := h.1.sub
    clear h
    induction br' with
    | nil => exact ⟨[], rfl⟩
    | cons e l ih =>
      obtain ⟨d, _, hd⟩ := List.mem_map.1 (hsub e (by simp))
      obtain ⟨br, hbr⟩ := ih fun e he => hsub e (by simp [he])
      exact ⟨d :: br, by rw [List.map_cons, hd, hbr]⟩
  obtain ⟨br, rfl⟩ := hex
  refine ⟨br, rfl, (Branching.rename ρ).1 h.1, fun b hb => ?_⟩
  have := h.2 (b.map ρ.pair) ((Branching.rename ρ).2 hb)
  simpa using this

/-- For every choice of maximum branchings on the renamed graphs there is a corresponding one on the graphs themselves. -/
theorem ext_pull (ρ : Renaming) {ext ext' : Ext} (h1 : ext'.sqrt = ext.sqrt) (h2 : ext'.fdiv = ext.fdiv) (hbr' : ∀ E, MaxBranching E (ext'.branch E)) :
    ∃ br, (∀ E, MaxBranching E (br E)) ∧ ρ.Ext { ext with branch := br } ext' := by
  have h := fun E : List (Token × Token) => maxBranching_pull ρ (hbr' (E.map ρ.pair))
  exact ⟨fun E => (h E).choose, fun E => (h E).choose_spec.2, h1, h2, fun E => (h E).choose_spec.1.symm⟩

/-- C86 with C85: renaming tokens and accounts renames the result and changes nothing else, whichever maximum branchings the graph library
returns before and after. -/
theorem C86_renamed {ρ : Renaming} {cfg : Config} {ext ext' : Ext} {inst : Instance} {pair : Token × Token} {xrate : Option ℚ} (hc : CfgOk cfg)
    (hi : GoodInstance inst) (hne : pair.1 ≠ pair.2) (h1 : ext'.sqrt = ext.sqrt) (h2 : ext'.fdiv = ext.fdiv)
    (hbr : ∀ E, MaxBranching E (ext.branch E)) (hbr' : ∀ E, MaxBranching E (ext'.branch E)) (hx : ∀ y, xrate = some y → 0 < y) :
    tokenPairMain cfg ext' (ρ.inst inst) (ρ.pair pair) xrate = (tokenPairMain cfg ext inst pair xrate).map ρ.dump := by
  obtain ⟨br, hm, he⟩ := ext_pull ρ h1 h2 hbr'
  rw [C85_pair_solver he, C86_pair_solver hc hi hne hbr hm hx]

/-- The same for the search over all pairs, visited in the corresponding order. -/
theorem C86_renamed_best {ρ : Renaming} {cfg : Config} {ext ext' : Ext} {inst : Instance} {shuffle shuffle' : List (Token × Token) → List ((Token × Token) × Bool)}
    (hc : CfgOk cfg) (hi : GoodInstance inst) (h1 : ext'.sqrt = ext.sqrt) (h2 : ext'.fdiv = ext.fdiv)
    (hbr : ∀ E, MaxBranching E (ext.branch E)) (hbr' : ∀ E, MaxBranching E (ext'.branch E)) (hsh : ∀ E, ∀ v ∈ shuffle E, v.1 ∈ E)
    (hsh' : ∀ E, shuffle' (E.map ρ.pair) = (shuffle E).map fun v => (ρ.pair v.1, v.2)) :
    bestTokenPairMain cfg ext' (ρ.inst inst) shuffle' = (bestTokenPairMain cfg ext inst shuffle).map ρ.dump := by
  obtain ⟨br, hm, he⟩ := ext_pull ρ h1 h2 hbr'
  rw [C85_best_pair_solver he inst hsh', C86_best_pair_solver hc hi hbr hm hsh]

/-- The example of C85 with a graph library that is only known to return maximum branchings. -/
example : ∃ ext' d, (∀ E, MaxBranching E (ext'.branch E)) ∧ (ExRen.ρ.inst ExInst.inst).fee.token = "B" ∧
    tokenPairMain Config.default ext' (ExRen.ρ.inst ExInst.inst) ("F", "S") none = .ok d ∧
    d.orders.map (·.execBuyAmount) = [some 9980005004999999966, some 17306065416497044526, some 19989989994994994] := by
  have hbr' := fun E => (exists_maxBranching E).choose_spec
  have := C86_renamed (ρ := ExRen.ρ) (ext := ExInst.ext) (ext' := { ExInst.ext with branch := fun E => (exists_maxBranching E).choose })
    (cfg := Config.default) (by constructor <;> decide) ExInst.good (pair := ("B", "S")) (by decide) rfl rfl ExInst.branch_max hbr' (xrate := none) (by simp)
  obtain ⟨d, h, _, hp⟩ := ExInst.run
  rw [h] at this
  refine ⟨_, _, hbr', by decide +kernel, this, ?_⟩
  dsimp only [Renaming.dump]
  rw [List.map_map]
  exact hp

/-! ### Rounding as such does depend on the choice -/

namespace ExTwo

def fee : Fee := { token := "F", value := 1 / 1000 }

/-- Two orders facing each other, and no order paying with the fee token. -/
def orders : List Order :=
  [ { id := "0", accountId := some "A", buyToken := "B", sellToken := "S", maxSell := 200000, origMaxSell := 200000, maxXrate := 2, buy := 100000, sell := 0 },
    { id := "1", accountId := some "C", buyToken := "S", sellToken := "B", maxSell := 200000, origMaxSell := 200000, maxXrate := 2, buy := 100000, sell := 0 } ]

def prices : Prices := [("F", 10 ^ 18), ("B", 10 ^ 18), ("S", 10 ^ 18)]

def graph : List (Token × Token) := [("S", "B"), ("B", "S")]

/-- The library returns the given branching on the cycle. -/
noncomputable def branch (b : List (Token × Token)) (E : List (Token × Token)) : List (Token × Token) :=
  if E = graph then b else (exists_maxBranching E).choose

theorem branch_max {e : Token × Token} (he : e ∈ graph) (E : List (Token × Token)) : MaxBranching E (branch [e] E) := by
  unfold branch
  split
  · rename_i h
    subst h
    have hne : e.1 ≠ e.2 := by revert e; decide
    refine ⟨⟨by simpa using he, by simp, fun t => if t = e.1 then 0 else 1, by simp [hne.symm]⟩, ?_⟩
    intro br hb
    have hnd : br.Nodup := List.Nodup.of_map _ hb.inDeg
    have hcase : ∃ d, ∀ c ∈ br, c = d := by
      by_cases h1 : ("S", "B") ∈ br
      · refine ⟨("S", "B"), fun c hc => ?_⟩
        have := hb.sub c hc
        simp only [graph, List.mem_cons, List.not_mem_nil, or_false] at this
        rcases this with h | h
        · exact h
        · subst h
          obtain ⟨rank, hr⟩ := hb.acyclic
          have a := hr _ h1
          have b := hr _ hc
          simp only at a b
          omega
      · refine ⟨("B", "S"), fun c hc => ?_⟩
        have := hb.sub c hc
        simp only [graph, List.mem_cons, List.not_mem_nil, or_false] at this
        rcases this with h | h
        · subst h; exact absurd hc h1
        · exact h
    obtain ⟨d, hd⟩ := hcase
    have := (hnd.subperm (l₂ := [d]) (fun c hc => by rw [hd c hc]; simp)).length_le
    simpa using this
  · exact (exists_maxBranching E).choose_spec

end ExTwo

/-- The independence is due to the orders that the matching hands to the rounding. `round_solution` itself depends on the choice: for two orders facing each
other, without an order paying with the fee token, the one or the other is adjusted, and success is reported in both cases. -/
theorem C86_rounding_depends : ∃ (br br' : List (Token × Token) → List (Token × Token)) (res res' : List Order),
    (∀ E, MaxBranching E (br E)) ∧ (∀ E, MaxBranching E (br' E)) ∧
    roundSolution Config.default br ExTwo.prices ExTwo.orders ExTwo.fee = .ok (true, res) ∧
    roundSolution Config.default br' ExTwo.prices ExTwo.orders ExTwo.fee = .ok (true, res') ∧
    res.map (·.buy) = [100100, 100000] ∧ res'.map (·.buy) = [100000, 100100] := by
  obtain ⟨⟨ok, res⟩, h1, rfl, h2⟩ := exists_of_pyCheck (x := roundSolution Config.default (ExTwo.branch [("S", "B")]) ExTwo.prices ExTwo.orders ExTwo.fee)
    (p := fun r => r.1 = true ∧ r.2.map (·.buy) = [100100, 100000]) (by decide +kernel)
  obtain ⟨⟨ok', res'⟩, h3, rfl, h4⟩ := exists_of_pyCheck (x := roundSolution Config.default (ExTwo.branch [("B", "S")]) ExTwo.prices ExTwo.orders ExTwo.fee)
    (p := fun r => r.1 = true ∧ r.2.map (·.buy) = [100000, 100100]) (by decide +kernel)
  exact ⟨_, _, res, res', ExTwo.branch_max (by decide), ExTwo.branch_max (by decide), h1, h3, h2, h4⟩

end Dex
