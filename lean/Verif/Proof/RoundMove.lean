import Verif.Props.Room

/-! # By how much rounding moves the amounts -/

namespace Dex

open Spec

/-- An order whose buy amount only moved in the direction of `bal`. -/
def MovedBy (bal : ℚ) (o o' : Order) : Prop := o'.id = o.id ∧ (0 ≤ bal → o.buy ≤ o'.buy) ∧ (bal ≤ 0 → o'.buy ≤ o.buy)

theorem MovedBy.same (bal : ℚ) (o : Order) : MovedBy bal o o := ⟨rfl, fun _ => le_rfl, fun _ => le_rfl⟩

/-- The loop over the orders moves all amounts in the direction of the imbalance. -/
theorem roundLeafLoop_moved {cfg : Config} {leaf parent : Token} {prices : Prices} {fee : Fee} (hI : IntPrices prices)
    (hf : fee.value < 1) : ∀ {l l' : List Order} {bal : ℚ}, (∀ o ∈ l, Bounded cfg o ∧ OnClearingPrice prices fee o) →
    roundLeafLoop cfg leaf parent prices fee bal l = .ok l' → List.Forall₂ (MovedBy bal) l l' := by
  intro l
  induction l with
  | nil => intro l' bal _ h; cases h; exact .nil
  | cons o os ih =>
    intro l' bal hall h
    have hall' : ∀ o ∈ os, Bounded cfg o ∧ OnClearingPrice prices fee o := fun a ha => hall a (by simp [ha])
    by_cases ho : OnEdge leaf parent o
    · obtain ⟨hbo, pb, ps, hpb, hps, _⟩ := hall o (by simp)
      have hmin := (hbo ho.2.2).1
      rw [ho.1] at hpb
      rw [ho.2.1] at hps
      rw [roundLeafLoop_cons hI hf ho hpb hps] at h
      dsimp only at h
      have hup : 0 ≤ bal → max ((cfg.minTradable : ℚ) - o.buy) bal = bal := fun hb => max_eq_right (by linarith)
      have hdown : bal ≤ 0 → max ((cfg.minTradable : ℚ) - o.buy) bal ≤ 0 := fun hb => max_le (by linarith) hb
      have hle := le_max_right ((cfg.minTradable : ℚ) - o.buy) bal
      have hmv : ∀ s, MovedBy bal o ((o.withBuy (o.buy + max ((cfg.minTradable : ℚ) - o.buy) bal)).withSell s) := by
        intro s
        refine ⟨rfl, fun hb => ?_, fun hb => ?_⟩
        · change o.buy ≤ o.buy + _
          rw [hup hb]; linarith
        · change o.buy + _ ≤ o.buy
          linarith [hdown hb]
      split at h
      · obtain ⟨os', e, h⟩ := bind_eq_ok.1 h
        cases h
        exact .cons (MovedBy.same _ _) (ih hall' e)
      · split at h
        · cases h
          exact .cons (hmv _) (forall₂_refl' (MovedBy.same bal) _)
        · rename_i hz
          obtain ⟨os', e, h⟩ := bind_eq_ok.1 h
          cases h
          refine .cons (hmv _) ((ih hall' e).imp fun a a' hm => ⟨hm.1, fun hb => ?_, fun hb => hm.2.2 (by linarith)⟩)
          rw [hup hb, sub_self] at hz
          exact absurd rfl hz
    · rw [roundLeafLoop_skip ho] at h
      obtain ⟨os', e, h⟩ := bind_eq_ok.1 h
      cases h
      exact .cons (MovedBy.same _ _) (ih hall' e)

/-- The same for the step of the main loop. -/
theorem roundLeafIfNeeded_moved {cfg : Config} {leaf parent : Token} {prices : Prices} {fee : Fee} (hI : IntPrices prices)
    (hf : fee.value < 1) {orders res : List Order} {bal : ℚ} (hinv : RoundInv prices fee orders) (hb : ∀ o ∈ orders, Bounded cfg o)
    (h : roundLeafIfNeeded cfg leaf parent orders bal prices fee = .ok res) : List.Forall₂ (MovedBy bal) orders res := by
  unfold roundLeafIfNeeded at h
  split at h
  · unfold roundLeafToken at h
    obtain ⟨l', e, h⟩ := bind_eq_ok.1 h
    cases h
    have hperm := pySortByRev_perm (fun o : Order => o.buy) orders
    exact writeBack_forall₂ (fun _ _ h => h.1) hinv.ids hperm
      (roundLeafLoop_moved hI hf (fun o h => ⟨hb o (hperm.mem_iff.1 h), hinv.price o (hperm.mem_iff.1 h)⟩) e)
  · cases h
    exact forall₂_refl' (MovedBy.same bal) _

theorem forall₂_both {α : Type} {R S : α → α → Prop} {l l' : List α} (h1 : List.Forall₂ R l l') (h2 : List.Forall₂ S l l') :
    List.Forall₂ (fun a b => R a b ∧ S a b) l l' := by
  induction h1 with
  | nil => exact .nil
  | cons r _ ih => cases h2 with | cons s ss => exact .cons ⟨r, s⟩ (ih ss)

/-- The main loop moves all amounts bought of a token in one direction, and none of a token that is no child in the tree. -/
theorem roundLoop_moved {cfg : Config} {prices : Prices} {fee : Fee} (hI : IntPrices prices) (hf : fee.value < 1) :
    ∀ {fuel : ℕ} {tree : Dict Token Token} {balances : Dict Token ℚ} {orders res : List Order} {ok : Bool},
    RoundInv prices fee orders → (∀ o ∈ orders, Bounded cfg o) →
    (∀ t v, dictGet? balances t = some v → v = imbal orders t) →
    roundLoop cfg prices fee fuel tree balances orders = .ok (ok, res) →
    (∀ t, t ∉ dictKeys tree → List.Forall₂ (fun o o' => SameButExec o o' ∧ (o.buyToken = t → o' = o)) orders res) ∧
    (∀ t, List.Forall₂ (fun o o' => SameButExec o o' ∧ (o.buyToken = t → o.buy ≤ o'.buy)) orders res ∨
      List.Forall₂ (fun o o' => SameButExec o o' ∧ (o.buyToken = t → o'.buy ≤ o.buy)) orders res) := by
  intro fuel
  induction fuel with
  | zero => intro _ _ _ _ _ _ _ _ h; cases h
  | succ fuel ih =>
    intro tree balances orders res ok hinv hb hbal h
    unfold roundLoop at h
    split at h
    · cases h
      exact ⟨fun t _ => forall₂_refl' (fun o => ⟨rfl, fun _ => rfl⟩) _, fun t => .inl (forall₂_refl' (fun o => ⟨rfl, fun _ => le_rfl⟩) _)⟩
    · simp only [bind_eq_ok] at h
      obtain ⟨leaf, hleaf, parent, hpar, bal, hb1, h⟩ := h
      have hpm : (leaf, parent) ∈ tree := dictGet?_mem (dictGet_eq_ok.1 hpar)
      have hbal1 := hbal _ _ (dictGet_eq_ok.1 hb1)
      obtain ⟨os, e1, hstep⟩ := roundStep_orders (cfg := cfg) (leaf := leaf) (parent := parent) (bal := bal) hI hf hinv
        (by rw [hbal1]; exact hinv.isInt_imbal leaf)
      obtain ⟨os', e2, h⟩ := h
      have hmv := roundLeafIfNeeded_moved hI hf hinv hb e2
      rw [e1] at e2
      cases e2
      have hinv2 := hinv.leafStep hstep
      obtain ⟨d, e3, k3, hv⟩ := hinv2.balances
      obtain ⟨d', e4, bal2, hb2, h⟩ := h
      rw [e3] at e4
      cases e4
      -- the step
      have hoff : ∀ t, t ≠ leaf → List.Forall₂ (fun o o' => SameButExec o o' ∧ (o.buyToken = t → o' = o)) orders os := by
        intro t ht
        refine hstep.imp fun o o' hs => ?_
        rcases hs with rfl | hs
        · exact ⟨rfl, fun _ => rfl⟩
        · exact ⟨hs.same, fun e => absurd (e.symm.trans hs.buyTok) ht⟩
      have hon : List.Forall₂ (fun o o' => SameButExec o o' ∧ (o.buyToken = leaf → o.buy ≤ o'.buy)) orders os ∨
          List.Forall₂ (fun o o' => SameButExec o o' ∧ (o.buyToken = leaf → o'.buy ≤ o.buy)) orders os := by
        have hboth := forall₂_both hstep hmv
        have hsame : ∀ o o', LeafStep cfg prices fee leaf parent o o' → SameButExec o o' := by
          intro o o' hs
          rcases hs with rfl | hs
          · exact rfl
          · exact hs.same
        rcases le_total 0 bal with hp | hn
        · exact .inl (hboth.imp fun o o' hs => ⟨hsame _ _ hs.1, fun _ => hs.2.2.1 hp⟩)
        · exact .inr (hboth.imp fun o o' hs => ⟨hsame _ _ hs.1, fun _ => hs.2.2.2 hn⟩)
      have hleq : ∀ t, t ∉ dictKeys tree → t ≠ leaf := fun t ht e => ht (e ▸ List.mem_map.2 ⟨_, hpm, rfl⟩)
      have wk1 : ∀ {t : Token} {l l' : List Order}, List.Forall₂ (fun o o' => SameButExec o o' ∧ (o.buyToken = t → o' = o)) l l' →
          List.Forall₂ (fun o o' => SameButExec o o' ∧ (o.buyToken = t → o.buy ≤ o'.buy)) l l' :=
        fun hh => hh.imp fun o o' r => ⟨r.1, fun e => (congrArg Order.buy (r.2 e)).ge⟩
      split at h
      · cases h
        refine ⟨fun t ht => hoff t (hleq t ht), fun t => ?_⟩
        by_cases ht : t = leaf
        · subst ht; exact hon
        · exact .inl (wk1 (hoff t ht))
      · obtain ⟨i1, i2⟩ := ih hinv2 (Bounded.leafStep hb hstep) hv h
        have hkeys : ∀ t, t ∈ dictKeys (tree.filter (fun p => decide (p.1 ≠ leaf))) → t ∈ dictKeys tree ∧ t ≠ leaf := by
          intro t ht
          obtain ⟨p, hp, rfl⟩ := List.mem_map.1 ht
          rw [List.mem_filter, decide_eq_true_eq] at hp
          exact ⟨List.mem_map.2 ⟨p, hp.1, rfl⟩, hp.2⟩
        have htok : ∀ {o o' : Order}, SameButExec o o' → o'.buyToken = o.buyToken := fun h => by rw [h]
        refine ⟨fun t ht => forall₂_trans' ?_ (hoff t (hleq t ht)) (i1 t fun hc => ht (hkeys t hc).1), fun t => ?_⟩
        · intro a b c r s
          exact ⟨SameButExec.trans' r.1 s.1, fun e => (s.2 ((htok r.1).trans e)).trans (r.2 e)⟩
        · by_cases ht : t = leaf
          · subst ht
            have i1' := i1 t (fun hc => (hkeys t hc).2 rfl)
            refine hon.imp (fun g => forall₂_trans' ?_ g i1') (fun g => forall₂_trans' ?_ g i1')
            · intro a b c r s
              refine ⟨SameButExec.trans' r.1 s.1, fun e => ?_⟩
              rw [s.2 ((htok r.1).trans e)]
              exact r.2 e
            · intro a b c r s
              refine ⟨SameButExec.trans' r.1 s.1, fun e => ?_⟩
              rw [s.2 ((htok r.1).trans e)]
              exact r.2 e
          · refine (i2 t).imp (fun g => forall₂_trans' ?_ (hoff t ht) g) (fun g => forall₂_trans' ?_ (hoff t ht) g)
            · intro a b c r s
              refine ⟨SameButExec.trans' r.1 s.1, fun e => ?_⟩
              have := s.2 ((htok r.1).trans e)
              rwa [r.2 e] at this
            · intro a b c r s
              refine ⟨SameButExec.trans' r.1 s.1, fun e => ?_⟩
              have := s.2 ((htok r.1).trans e)
              rwa [r.2 e] at this

end Dex
