import Verif.Model.Messages
import Verif.Proof.Errors

/-! # Messages do not change what a run does -/

namespace Dex

open Said

theorem said_bind_snd {α β : Type} (x : Said α) (f : α → Said β) : (x >>= f).2 = x.2 >>= fun a => (f a).2 := by
  show (Said.andThen x f).2 = _
  unfold Said.andThen
  cases x.2 <;> rfl

theorem said_pure_snd {α : Type} (a : α) : (pure a : Said α).2 = pure a := rfl

theorem quiet_snd {α : Type} (x : Py α) : (quiet x).2 = x := rfl

theorem say_bind_snd {β : Type} (m : Message) (f : Unit → Said β) : (say m >>= f).2 = (f ()).2 := rfl

/-- A rate adjusted to integer prices is not zero: the computation of the price inverts it. -/
theorem roundXrate_ne_zero {p x x' : ℚ} {b s : List Order} {fee : Fee} (h : roundXrate (some p) x b s fee = .ok x') : x' ≠ 0 := by
  unfold roundXrate computeSBuyTokenPrice at h
  simp only [bind_eq_ok] at h
  obtain ⟨ps, ⟨q, h1, u, h2, d, h3, iu, h4, _⟩, h5⟩ := h
  have hu : u ≠ 0 := by
    rintro rfl
    simp [pyDiv] at h4
  have hp : p ≠ 0 := by
    rintro rfl
    unfold pyDiv at h2
    split at h2
    · cases h2
    · cases h2; simp at hu
  unfold pyDiv at h5
  split at h5
  · cases h5
  · rename_i hps
    cases h5
    exact div_ne_zero hp hps

theorem givenExecF_xrate {cfg : Config} {sqrt : ℚ → Py ℚ} {n : ℕ} {imb : ℚ} {pair : Token × Token} {bk : Books} {x : ℚ} {fee : Fee} {r : GivenResult}
    (h : givenExecF cfg sqrt n imb pair bk x fee = .ok r) {p : ℤ} (hp : r.bPrice = some p) : r.xrate ≠ 0 := by
  unfold givenExecF at h
  simp only [bind_eq_ok] at h
  obtain ⟨⟨q, ft⟩, _, h⟩ := h
  dsimp only at h
  split at h
  · cases h; cases hp
  simp only [bind_eq_ok] at h
  obtain ⟨⟨x', b, s⟩, h1, h⟩ := h
  dsimp only at h
  split at h
  · cases h
  rename_i x'' e
  cases e
  simp only [bind_eq_ok] at h
  obtain ⟨obj, _, h⟩ := h
  cases h
  unfold solveBuffered at h1
  simp only [bind_eq_ok] at h1
  obtain ⟨⟨b1, s1⟩, _, ⟨x2, b2, s2⟩, h2, _, _, _, _, e⟩ := h1
  cases e
  unfold solveTokenPair at h2
  split at h2
  · cases h2
  simp only [bind_eq_ok] at h2
  obtain ⟨y, _, h2⟩ := h2
  split at h2
  · cases h2
  simp only [bind_eq_ok] at h2
  obtain ⟨z, h3, _, _, e⟩ := h2
  cases e
  split at h3 <;> exact roundXrate_ne_zero h3

theorem fOrdersLoop_xrate {cfg : Config} {sqrt : ℚ → Py ℚ} {imb : ℚ} {pair : Token × Token} {x : ℚ} {fee : Fee} (ns : List ℕ) {st st' : FLoopState}
    (h0 : ∀ g, st.best = some g → ∀ p, g.bPrice = some p → g.xrate ≠ 0) (h : fOrdersLoop cfg sqrt imb pair x fee ns st = .ok st') :
    ∀ g, st'.best = some g → ∀ p, g.bPrice = some p → g.xrate ≠ 0 := by
  induction ns generalizing st with
  | nil => cases h; exact h0
  | cons n ns ih =>
    unfold fOrdersLoop at h
    simp only [bind_eq_ok] at h
    obtain ⟨r, hr, h⟩ := h
    have hr' : ∀ g, some r = some g → ∀ p, g.bPrice = some p → g.xrate ≠ 0 := by
      intro g e p hp
      cases e
      exact givenExecF_xrate hr hp
    split at h
    · exact ih (st := { st with books := r.books }) h0 h
    · split at h
      · split at h
        · cases h; exact h0
        · simp only [bind_eq_ok] at h
          obtain ⟨_, _, h⟩ := h
          exact ih hr' h
      · exact ih hr' h

theorem aggregateAndRoundSaid_snd (cfg : Config) (ext : Ext) (pair : Token × Token) (bk : Books) (x p : ℚ) (fee : Fee) :
    (aggregateAndRoundSaid cfg ext pair bk x p fee).2 = aggregateAndRound cfg ext pair bk x p fee := by
  unfold aggregateAndRoundSaid aggregateAndRound
  rw [said_bind_snd, quiet_snd]
  refine bind_congr fun r => ?_
  dsimp only
  rw [said_bind_snd, quiet_snd]
  refine bind_congr fun q => ?_
  split <;> rfl

theorem solveOrientedSaid_snd (cfg : Config) (ext : Ext) (pair : Token × Token) (b s f : List Order) (fee : Fee) (xrate : Option ℚ) :
    (solveOrientedSaid cfg ext pair b s f fee xrate).2 = solveOriented cfg ext pair b s f fee xrate := by
  unfold solveOrientedSaid solveOriented
  rw [said_bind_snd, quiet_snd]
  refine bind_congr fun r => ?_
  obtain ⟨x, b, s⟩ := r
  dsimp only
  split
  · rfl
  cases x with
  | none => rfl
  | some x =>
    dsimp only
    split
    · rw [said_bind_snd, aggregateAndRoundSaid_snd]; rfl
    split
    · rfl
    rw [said_bind_snd, quiet_snd]
    refine bind_congr fun imb => ?_
    rw [said_bind_snd, quiet_snd]
    refine bind_congr fun q => ?_
    obtain ⟨mn, mx⟩ := q
    dsimp only
    split
    · rfl
    rw [said_bind_snd, quiet_snd]
    generalize hL : fOrdersLoop cfg ext.sqrt imb pair x fee _ _ = L
    cases L with
    | error e => rfl
    | ok st =>
      rw [ok_bind, ok_bind]
      have hx := fOrdersLoop_xrate _ (by intro g e; cases e) hL
      cases hb : st.best with
      | none => rfl
      | some best =>
        dsimp only
        cases hp : best.bPrice with
        | none => rfl
        | some p =>
          dsimp only
          rw [said_bind_snd, quiet_snd, pyDiv_of_ne (hx best hb p hp), ok_bind, said_bind_snd, aggregateAndRoundSaid_snd]
          rfl

theorem solveTokenPairAndFeeSaid_snd (cfg : Config) (ext : Ext) (pair : Token × Token) (b s f : List Order) (fee : Fee) (xrate : Option ℚ) :
    (solveTokenPairAndFeeSaid cfg ext pair b s f fee xrate).2 = solveTokenPairAndFee cfg ext pair b s f fee xrate := by
  unfold solveTokenPairAndFeeSaid solveTokenPairAndFee
  rw [said_bind_snd, quiet_snd]
  refine bind_congr fun r => ?_
  dsimp only
  split
  · rfl
  split <;> (rw [said_bind_snd, solveOrientedSaid_snd]; rfl)

theorem economicLoopSaid_snd (cfg : Config) (ext : Ext) (pair : Token × Token) (fee : Fee) (xrate : Option ℚ) (fuel : ℕ) (bk : Books)
    (gone : List Order) (cur : Solution) :
    (economicLoopSaid cfg ext pair fee xrate fuel bk gone cur).2 = economicLoop cfg ext pair fee xrate fuel bk gone cur := by
  induction fuel generalizing bk gone cur with
  | zero => rfl
  | succ n ih =>
    unfold economicLoopSaid economicLoop
    split
    · rw [said_bind_snd, solveTokenPairAndFeeSaid_snd]
      refine bind_congr fun r => ?_
      dsimp only
      rw [said_bind_snd, quiet_snd]
      refine bind_congr fun v => ?_
      split
      · rfl
      rw [said_bind_snd, quiet_snd]
      refine bind_congr fun sub => ?_
      split
      · rfl
      rw [said_bind_snd, quiet_snd]
      refine bind_congr fun bm => ?_
      rw [said_bind_snd, quiet_snd]
      refine bind_congr fun sm => ?_
      rw [said_bind_snd, quiet_snd]
      refine bind_congr fun pb => ?_
      rw [said_bind_snd, quiet_snd]
      refine bind_congr fun ps => ?_
      split <;> exact ih _ _ _
    · rfl

theorem solveEconomicViableSaid_snd (cfg : Config) (ext : Ext) (pair : Token × Token) (accounts : Accounts) (b s f : List Order) (fee : Fee)
    (xrate : Option ℚ) : (solveEconomicViableSaid cfg ext pair accounts b s f fee xrate).2 = solveEconomicViable cfg ext pair accounts b s f fee xrate := by
  unfold solveEconomicViableSaid solveEconomicViable
  rw [said_bind_snd, economicLoopSaid_snd]
  refine bind_congr fun r => ?_
  dsimp only
  rw [said_bind_snd, quiet_snd]
  rfl

theorem matchTokenPairSaid_snd (cfg : Config) (ext : Ext) (pair : Token × Token) (accounts : Accounts) (orders : List Order) (fee : Fee) :
    (matchTokenPairSaid cfg ext pair accounts orders fee).2 = matchTokenPair cfg ext pair accounts orders fee := by
  unfold matchTokenPairSaid matchTokenPair
  dsimp only
  generalize (if pair.1 ≠ fee.token then ordersBuyingSelling orders pair.1 fee.token else []) = f
  split
  · rfl
  split
  · rfl
  split
  · rfl
  rw [said_bind_snd, solveEconomicViableSaid_snd]
  rfl

theorem matchAndEvaluateSaid_snd (cfg : Config) (ext : Ext) (pair : Token × Token) (accounts : Accounts) (orders : List Order) (fee : Fee) :
    (matchAndEvaluateSaid cfg ext pair accounts orders fee).2 = matchAndEvaluate cfg ext pair accounts orders fee := by
  unfold matchAndEvaluateSaid matchAndEvaluate
  rw [said_bind_snd, matchTokenPairSaid_snd]
  refine bind_congr fun r => ?_
  dsimp only
  rw [said_bind_snd, quiet_snd]
  refine bind_congr fun acc => ?_
  rw [said_bind_snd, quiet_snd]
  rfl

theorem bestLoopSaid_snd (cfg : Config) (ext : Ext) (accounts : Accounts) (fee : Fee) (visits : List ((Token × Token) × Bool)) (st : BestState) :
    (bestLoopSaid cfg ext accounts fee visits st).2 = bestLoop cfg ext accounts fee visits st := by
  induction visits generalizing st with
  | nil => rfl
  | cons v visits ih =>
    obtain ⟨pair, stop⟩ := v
    unfold bestLoopSaid bestLoop
    rw [said_bind_snd, matchAndEvaluateSaid_snd]
    refine bind_congr fun r => ?_
    dsimp only
    split
    · rfl
    · exact ih _

theorem commandValSaid_snd (w : World) (a : Args) (cmd : Command) (t solver : PyVal) : (commandValSaid w a cmd t solver).2 = commandVal w a cmd t solver := by
  unfold commandValSaid commandVal
  rw [said_bind_snd, quiet_snd]
  refine bind_congr fun inst => ?_
  cases cmd with
  | tokenPair pair xrate =>
    rw [said_bind_snd, quiet_snd]
    refine bind_congr fun r => ?_
    dsimp only
    rw [said_bind_snd, solveEconomicViableSaid_snd]
    rfl
  | bestTokenPair =>
    rw [said_bind_snd, quiet_snd]
    refine bind_congr fun r => ?_
    dsimp only
    rw [said_bind_snd, bestLoopSaid_snd]
    rfl

end Dex
