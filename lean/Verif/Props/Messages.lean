import Verif.Proof.Messages
import Verif.Props.NoCross
import Verif.Props.TwoOrders
import Verif.Props.Program
import Verif.Props.ExtraOrder

/-! # C116: the messages of a run -/

namespace Dex

open Said

namespace Spec

/-- The messages with which the solver of a pair announces that it has no solution; "No matching orders" names the pair with the fee token first. -/
def Announces (fee : Fee) (pair : Token × Token) (m : Message) : Prop :=
  m = .noRound ∨ m = if pair.2 = fee.token then .noMatch pair.2 pair.1 else .noMatch pair.1 pair.2

/-- A part of a run that writes nothing, or one announcement and then ends with a result as described. -/
def OneWord {α : Type} (K : Message → Prop) (Q : α → Prop) (x : Said α) : Prop :=
  x.1 = [] ∨ ∃ m, x.1 = [m] ∧ K m ∧ ∃ a, x.2 = .ok a ∧ Q a

end Spec

open Spec

theorem said_bind_ok {α β : Type} {x : Said α} {f : α → Said β} {a : α} (h : x.2 = .ok a) : (x >>= f).1 = x.1 ++ (f a).1 := by
  show (Said.andThen x f).1 = _
  unfold Said.andThen
  rw [h]

theorem said_bind_error {α β : Type} {x : Said α} {f : α → Said β} {e : PyErr} (h : x.2 = .error e) : (x >>= f).1 = x.1 := by
  show (Said.andThen x f).1 = _
  unfold Said.andThen
  rw [h]

theorem quiet_bind_ok {α β : Type} (a : α) (f : α → Said β) : (quiet (.ok a) >>= f) = f a := rfl

theorem quiet_bind_error {α β : Type} (e : PyErr) (f : α → Said β) : (quiet (.error e) >>= f) = quiet (.error e) := rfl

theorem oneWord_quiet {α : Type} {K : Message → Prop} {Q : α → Prop} (x : Py α) : OneWord K Q (quiet x) := .inl rfl

theorem oneWord_quiet_bind {α β : Type} {K : Message → Prop} {Q : β → Prop} {x : Py α} {f : α → Said β} (h : ∀ a, x = .ok a → OneWord K Q (f a)) :
    OneWord K Q (quiet x >>= f) := by
  cases hx : x with
  | error e => exact .inl rfl
  | ok a =>
    have := h a hx
    exact this

theorem oneWord_bind {α β : Type} {K : Message → Prop} {Q : α → Prop} {R : β → Prop} {x : Said α} {f : α → Said β} (h : OneWord K Q x)
    (h1 : ∀ a, x.1 = [] → x.2 = .ok a → OneWord K R (f a)) (h2 : ∀ a, Q a → (f a).1 = [] ∧ ∃ b, (f a).2 = .ok b ∧ R b) : OneWord K R (x >>= f) := by
  rcases h with h | ⟨m, e, hm, a, ha, hq⟩
  · cases hx : x.2 with
    | error e => left; rw [said_bind_error hx, h]
    | ok a =>
      rcases h1 a h hx with h3 | ⟨m, e, hm, b, hb, hr⟩
      · left; rw [said_bind_ok hx, h, h3]; rfl
      · right
        refine ⟨m, by rw [said_bind_ok hx, h, e]; rfl, hm, b, ?_, hr⟩
        rw [said_bind_snd, hx, ok_bind, hb]
  · right
    obtain ⟨h3, b, hb, hr⟩ := h2 a hq
    refine ⟨m, by rw [said_bind_ok ha, e, h3]; rfl, hm, b, ?_, hr⟩
    rw [said_bind_snd, ha, ok_bind, hb]

theorem oneWord_aggregate {K : Message → Prop} (hK : K .noRound) (cfg : Config) (ext : Ext) (pair : Token × Token) (bk : Books) (x p : ℚ) (fee : Fee) :
    OneWord K (fun r => r.1 = .trivial) (aggregateAndRoundSaid cfg ext pair bk x p fee) := by
  unfold aggregateAndRoundSaid
  refine oneWord_quiet_bind fun r _ => ?_
  refine oneWord_quiet_bind fun q _ => ?_
  obtain ⟨done, os⟩ := q
  cases done with
  | true => exact oneWord_quiet _
  | false => exact .inr ⟨.noRound, rfl, hK, _, rfl, rfl⟩

theorem oneWord_oriented {K : Message → Prop} (hK : K .noRound) (cfg : Config) (ext : Ext) {pair : Token × Token} (hp : K (.noMatch pair.1 pair.2))
    (b s f : List Order) (fee : Fee) (xrate : Option ℚ) : OneWord K (fun r => r.sol = .trivial) (solveOrientedSaid cfg ext pair b s f fee xrate) := by
  unfold solveOrientedSaid
  refine oneWord_quiet_bind fun r _ => ?_
  obtain ⟨x, b, s⟩ := r
  dsimp only
  split
  · exact .inr ⟨_, rfl, hp, _, rfl, rfl⟩
  cases x with
  | none => exact oneWord_quiet _
  | some x =>
    dsimp only
    split
    · exact oneWord_bind (oneWord_aggregate hK ..) (fun a _ _ => oneWord_quiet _) (fun a ha => ⟨rfl, _, rfl, ha⟩)
    split
    · exact oneWord_quiet _
    refine oneWord_quiet_bind fun imb _ => ?_
    refine oneWord_quiet_bind fun q _ => ?_
    obtain ⟨mn, mx⟩ := q
    dsimp only
    split
    · exact oneWord_quiet _
    refine oneWord_quiet_bind fun st _ => ?_
    cases st.best with
    | none => exact oneWord_quiet _
    | some best =>
      dsimp only
      cases best.bPrice with
      | none => exact oneWord_quiet _
      | some p =>
        dsimp only
        refine oneWord_quiet_bind fun _ _ => ?_
        exact oneWord_bind (oneWord_aggregate hK ..) (fun a _ _ => oneWord_quiet _) (fun a ha => ⟨rfl, _, rfl, ha⟩)

theorem oneWord_solve (cfg : Config) (ext : Ext) (pair : Token × Token) (b s f : List Order) (fee : Fee) (xrate : Option ℚ) :
    OneWord (Announces fee pair) (fun r => r.sol = .trivial) (solveTokenPairAndFeeSaid cfg ext pair b s f fee xrate) := by
  unfold solveTokenPairAndFeeSaid
  refine oneWord_quiet_bind fun r _ => ?_
  dsimp only
  split
  · exact oneWord_quiet _
  split
  · rename_i h
    exact oneWord_bind (oneWord_oriented (.inl rfl) cfg ext (.inr (by rw [if_pos h])) ..) (fun a _ _ => oneWord_quiet _) (fun a ha => ⟨rfl, _, rfl, ha⟩)
  · rename_i h
    exact oneWord_bind (oneWord_oriented (.inl rfl) cfg ext (.inr (by rw [if_neg h])) ..) (fun a _ _ => oneWord_quiet _) (fun a ha => ⟨rfl, _, rfl, ha⟩)

theorem viable_trivial (cfg : Config) (fee : Fee) : isEconomicViable cfg Solution.trivial.orders Solution.trivial.prices fee = .ok true := by
  unfold isEconomicViable; rw [if_pos (by rfl)]; rfl

theorem oneWord_economic (cfg : Config) (ext : Ext) (pair : Token × Token) (fee : Fee) (xrate : Option ℚ) (fuel : ℕ) (bk : Books) (gone : List Order)
    (cur : Solution) : OneWord (Announces fee pair) (fun r => r.1 = .trivial) (economicLoopSaid cfg ext pair fee xrate fuel bk gone cur) := by
  induction fuel generalizing bk gone cur with
  | zero => exact oneWord_quiet _
  | succ n ih =>
    unfold economicLoopSaid
    split
    · refine oneWord_bind (oneWord_solve ..) (fun r _ _ => ?_) (fun r hr => ?_)
      · dsimp only
        refine oneWord_quiet_bind fun v _ => ?_
        split
        · exact oneWord_quiet _
        refine oneWord_quiet_bind fun sub _ => ?_
        split
        · exact oneWord_quiet _
        refine oneWord_quiet_bind fun bm _ => ?_
        refine oneWord_quiet_bind fun sm _ => ?_
        refine oneWord_quiet_bind fun pb _ => ?_
        refine oneWord_quiet_bind fun ps _ => ?_
        split <;> exact ih _ _ _
      · have : isEconomicViable cfg r.sol.orders r.sol.prices fee = .ok true := by rw [hr]; exact viable_trivial cfg fee
        dsimp only
        rw [this]
        exact ⟨rfl, _, rfl, hr⟩
    · exact oneWord_quiet _

/-- C116. Writing messages, at any level, changes neither how a run of the program ends nor the files it leaves. (The division among the arguments of a message,
token_pair_solver/solver.py:387, never fails.) -/
theorem C116_same (w : World) (files : Files) (argv : List String) : (programSaid w files argv).2 = program w files argv := by
  unfold programSaid program
  cases parseArgs (fun f => (files f).isSome) argv with
  | error e => rfl
  | ok p =>
    dsimp only
    cases p.args.command with
    | none => rfl
    | some cmd =>
      dsimp only
      cases jsonLoads ((files p.instanceFile).getD []) with
      | error e => rfl
      | ok t =>
        dsimp only
        rw [commandValSaid_snd]
        cases commandVal w p.args cmd t (solverVal w argv) with
        | error e => rfl
        | ok v =>
          dsimp only
          unfold writeSolutionSaid
          dsimp only
          split <;> rfl

/-- C116. The solver for a pair writes at most one message above level DEBUG, and if it writes one, it returns the empty solution without an error. -/
theorem C116_pair (cfg : Config) (ext : Ext) (pair : Token × Token) (accounts : Accounts) (b s f : List Order) (fee : Fee) (xrate : Option ℚ) :
    (solveEconomicViableSaid cfg ext pair accounts b s f fee xrate).1 = [] ∨
      ∃ m, (solveEconomicViableSaid cfg ext pair accounts b s f fee xrate).1 = [m] ∧ Announces fee pair m ∧
        ∃ objs, solveEconomicViable cfg ext pair accounts b s f fee xrate = .ok (.trivial, objs) := by
  have h : OneWord (Announces fee pair) (fun r => r.1 = Solution.trivial) (solveEconomicViableSaid cfg ext pair accounts b s f fee xrate) := by
    unfold solveEconomicViableSaid
    refine oneWord_bind (oneWord_economic ..) (fun r _ _ => ?_) (fun r hr => ?_)
    · exact oneWord_quiet_bind fun _ _ => oneWord_quiet _
    · obtain ⟨sol, objs⟩ := r
      cases hr
      dsimp only
      rw [show validate cfg ext.fdiv accounts [] [] fee = .ok () from validate_trivial ..]
      exact ⟨rfl, _, rfl, rfl⟩
  rcases h with h | ⟨m, e, hm, ⟨sol, objs⟩, ha, hq⟩
  · exact .inl h
  · cases hq
    rw [solveEconomicViableSaid_snd] at ha
    exact .inr ⟨m, e, hm, objs, ha⟩

theorem matchTokenPair_messages (cfg : Config) (ext : Ext) (pair : Token × Token) (accounts : Accounts) (orders : List Order) (fee : Fee) :
    (matchTokenPairSaid cfg ext pair accounts orders fee).1 = [] ∨ ∃ m, (matchTokenPairSaid cfg ext pair accounts orders fee).1 = [m] ∧ Announces fee pair m := by
  unfold matchTokenPairSaid
  dsimp only
  generalize (if pair.1 ≠ fee.token then ordersBuyingSelling orders pair.1 fee.token else []) = f
  split
  · exact .inl rfl
  split
  · exact .inl rfl
  split
  · exact .inl rfl
  generalize hx : solveEconomicViableSaid cfg ext pair accounts (ordersBuyingSelling orders pair.1 pair.2) (ordersBuyingSelling orders pair.2 pair.1) f fee none = x
  have h := C116_pair cfg ext pair accounts (ordersBuyingSelling orders pair.1 pair.2) (ordersBuyingSelling orders pair.2 pair.1) f fee none
  rw [hx] at h
  have e : (x >>= fun (r : Solution × List Order) => (pure (r.1, writeBack orders r.2) : Said _)).1 = x.1 := by
    cases hy : x.2 with
    | error e => rw [said_bind_error hy]
    | ok a => rw [said_bind_ok hy]; exact List.append_nil _
  change (x >>= fun (r : Solution × List Order) => (pure (r.1, writeBack orders r.2) : Said _)).1 = [] ∨ _
  rcases h with h | ⟨m, h, hm, _⟩
  · exact .inl (e.trans h)
  · exact .inr ⟨m, e.trans h, hm⟩

theorem matchAndEvaluate_messages (cfg : Config) (ext : Ext) (pair : Token × Token) (accounts : Accounts) (orders : List Order) (fee : Fee) :
    (matchAndEvaluateSaid cfg ext pair accounts orders fee).1 = [] ∨
      ∃ m, (matchAndEvaluateSaid cfg ext pair accounts orders fee).1 = [m] ∧ Announces fee pair m := by
  have e : (matchAndEvaluateSaid cfg ext pair accounts orders fee).1 = (matchTokenPairSaid cfg ext pair accounts orders fee).1 := by
    unfold matchAndEvaluateSaid
    cases hy : (matchTokenPairSaid cfg ext pair accounts orders fee).2 with
    | error e => rw [said_bind_error hy]
    | ok a =>
      rw [said_bind_ok hy]
      dsimp only
      cases hz : updateAccounts accounts a.1.orders with
      | error e => exact List.append_nil _
      | ok acc =>
        rw [said_bind_ok (a := acc) rfl]
        cases hz : computeObjectiveCore a.1.prices acc (a.1.orders.filter (fun o => decide (o.buy > 0))) fee with
        | error e => exact List.append_nil _
        | ok obj => exact List.append_nil _
  rw [e]
  exact matchTokenPair_messages ..

/-- C116. The command over all pairs writes at most one message per pair visited, naming that pair, in the order of the visits, and "Time limit reached" only as
the last one; after a run of the loop without error it is there exactly if the time limit was found exceeded after one of the pairs. -/
theorem C116_best (cfg : Config) (ext : Ext) (accounts : Accounts) (fee : Fee) (visits : List ((Token × Token) × Bool)) (st : BestState) :
    ∃ (vs : List (Token × Token)) (ms tl : List Message), (bestLoopSaid cfg ext accounts fee visits st).1 = ms ++ tl ∧
      vs.Sublist (visits.map (·.1)) ∧ List.Forall₂ (Announces fee) vs ms ∧ (tl = [] ∨ tl = [.timeLimit]) ∧
      ∀ st', bestLoop cfg ext accounts fee visits st = .ok st' → (tl = [.timeLimit] ↔ ∃ v ∈ visits, v.2 = true) := by
  induction visits generalizing st with
  | nil => exact ⟨[], [], [], rfl, List.Sublist.refl _, .nil, .inl rfl, fun _ _ => by simp⟩
  | cons v visits ih =>
    obtain ⟨pair, stop⟩ := v
    have hm := matchAndEvaluate_messages cfg ext pair accounts st.orders fee
    have hs := matchAndEvaluateSaid_snd cfg ext pair accounts st.orders fee
    unfold bestLoopSaid bestLoop
    generalize matchAndEvaluateSaid cfg ext pair accounts st.orders fee = x at hm hs
    rw [← hs]
    obtain ⟨vs0, hv0, h0⟩ : ∃ vs0 : List (Token × Token), vs0.Sublist [pair] ∧ List.Forall₂ (Announces fee) vs0 x.1 := by
      rcases hm with h | ⟨m, h, hm⟩
      · exact ⟨[], by simp, h ▸ .nil⟩
      · exact ⟨[pair], List.Sublist.refl _, h ▸ .cons hm .nil⟩
    have hcons : ∀ {l : List (Token × Token)}, (vs0 ++ l).Sublist (pair :: visits.map (·.1)) ∨ ¬ l.Sublist (visits.map (·.1)) := by
      intro l
      by_cases hl : l.Sublist (visits.map (·.1))
      · exact .inl (hv0.append hl)
      · exact .inr hl
    cases hx : x.2 with
    | error e =>
      refine ⟨vs0, x.1, [], ?_, ?_, h0, .inl rfl, fun st' h => by cases h⟩
      · rw [said_bind_error hx, List.append_nil]
      · simpa using (hcons (l := [])).resolve_right (by simp)
    | ok r =>
      rw [said_bind_ok hx, ok_bind]
      dsimp only
      cases stop with
      | true =>
        refine ⟨vs0, x.1, [.timeLimit], rfl, ?_, h0, .inr rfl, fun st' h => by simp⟩
        simpa using (hcons (l := [])).resolve_right (by simp)
      | false =>
        obtain ⟨vs, ms, tl, e, h1, h2, h3, h4⟩ := ih (if r.1 > st.objective then { objective := r.1, sol := r.2.1, orders := r.2.2 } else { st with orders := r.2.2 })
        refine ⟨vs0 ++ vs, x.1 ++ ms, tl, ?_, (hcons (l := vs)).resolve_right (not_not.2 h1), List.rel_append h0 h2, h3, fun st' h => ?_⟩
        · rw [if_neg (by simp), e, List.append_assoc]
        · rw [if_neg (by simp)] at h
          rw [h4 st' h]
          simp

theorem announces_not_file {fee : Fee} {pair : Token × Token} {m : Message} (h : Announces fee pair m) (f : String) : m ≠ .solutionFile f := by
  rcases h with rfl | rfl
  · simp
  · split <;> simp

theorem announced {fee : Fee} {vs : List (Token × Token)} {ms : List Message} (h : List.Forall₂ (Announces fee) vs ms) {m : Message} (hm : m ∈ ms) :
    ∃ v, Announces fee v m := by
  induction h with
  | nil => cases hm
  | cons h _ ih =>
    rcases List.mem_cons.1 hm with rfl | hm
    · exact ⟨_, h⟩
    · exact ih hm

theorem commandVal_no_file (w : World) (a : Args) (cmd : Command) (t solver : PyVal) (f : String) : .solutionFile f ∉ (commandValSaid w a cmd t solver).1 := by
  unfold commandValSaid
  cases hi : readInstance w.conv t with
  | error e => exact List.not_mem_nil
  | ok inst =>
    rw [quiet_bind_ok]
    cases cmd with
    | tokenPair pair xrate =>
      change _ ∉ (quiet (loadPairProblem (a.config w.base) inst pair) >>= fun (r : Accounts × Books × Fee) =>
        (solveEconomicViableSaid (a.config w.base) w.ext pair r.1 r.2.1.b r.2.1.s r.2.1.f r.2.2 xrate >>= fun (q : Solution × List Order) =>
          quiet (dumpVal w.conv t q.1 r.2.2 solver) : Said _)).1
      cases hl : loadPairProblem (a.config w.base) inst pair with
      | error e => exact List.not_mem_nil
      | ok r =>
        rw [quiet_bind_ok]
        have h := C116_pair (a.config w.base) w.ext pair r.1 r.2.1.b r.2.1.s r.2.1.f r.2.2 xrate
        generalize solveEconomicViableSaid (a.config w.base) w.ext pair r.1 r.2.1.b r.2.1.s r.2.1.f r.2.2 xrate = x at h
        have hx : .solutionFile f ∉ x.1 := by
          rcases h with h | ⟨m, h, hm, _⟩
          · simp [h]
          · rw [h]; simpa using (announces_not_file hm f).symm
        cases hy : x.2 with
        | error e => rw [said_bind_error hy]; exact hx
        | ok q => rw [said_bind_ok hy]; simpa [quiet] using hx
    | bestTokenPair =>
      cases hl : loadProblem (a.config w.base) inst with
      | error e => exact List.not_mem_nil
      | ok r =>
        rw [quiet_bind_ok]
        dsimp only
        obtain ⟨vs, ms, tl, e, _, h1, h2, _⟩ := C116_best (a.config w.base) w.ext r.1 r.2.2
          (timedVisits a.timeLimit w.elapsed 0 (w.shuffle (eligibleTokenPairs r.2.1 r.2.2.token))) { objective := 0, sol := .trivial, orders := r.2.1 }
        generalize bestLoopSaid (a.config w.base) w.ext r.1 r.2.2 (timedVisits a.timeLimit w.elapsed 0 (w.shuffle (eligibleTokenPairs r.2.1 r.2.2.token)))
          { objective := 0, sol := .trivial, orders := r.2.1 } = x at e
        have hx : .solutionFile f ∉ x.1 := by
          rw [e, List.mem_append]
          rintro (h | h)
          · obtain ⟨v, hv⟩ := announced h1 h
            exact announces_not_file hv f rfl
          · rcases h2 with h2 | h2 <;> simp [h2] at h
        cases hy : x.2 with
        | error e => rw [said_bind_error hy]; exact hx
        | ok q => rw [said_bind_ok hy]; simpa [quiet] using hx

/-- C116. "Solution file is …" is written exactly by the runs that end without an error, at the levels DEBUG and INFO; it is then the last message and names the
file that was written. -/
theorem C116_file {w : World} {files : Files} {argv : List String} {p : Parsed} (hp : parseArgs (fun f => (files f).isSome) argv = .ok p) :
    ((∃ f, .solutionFile f ∈ (programSaid w files argv).1) ↔ (program w files argv).1 = .ok () ∧ (p.logging = "DEBUG" ∨ p.logging = "INFO")) ∧
    ∀ f, .solutionFile f ∈ (programSaid w files argv).1 →
      f = p.solution.getD w.tempFile ∧ (programSaid w files argv).1.getLast? = some (.solutionFile f) := by
  rw [← C116_same]
  unfold programSaid
  rw [hp]
  dsimp only
  cases p.args.command with
  | none => simp
  | some cmd =>
    dsimp only
    cases jsonLoads ((files p.instanceFile).getD []) with
    | error e => simp
    | ok t =>
      dsimp only
      have hc := commandVal_no_file w p.args cmd t (solverVal w argv)
      generalize commandValSaid w p.args cmd t (solverVal w argv) = c at hc
      obtain ⟨ms, r⟩ := c
      cases r with
      | error e => simp only [List.mem_filter, hc]; simp
      | ok v =>
        dsimp only at hc ⊢
        unfold writeSolutionSaid
        dsimp only
        cases hw : (writeSolution w files p.solution v).1 with
        | error e => simp only [List.append_nil, List.mem_filter, hc, hw]; simp
        | ok u =>
          simp only [List.mem_filter, List.mem_append, hc, List.mem_singleton, false_and, false_or, hw, true_and, List.filter_append, Message.solutionFile.injEq]
          by_cases hl : p.logging = "DEBUG" ∨ p.logging = "INFO"
          · have : Message.shown p.logging (.solutionFile (p.solution.getD w.tempFile)) = true := by simpa [Message.shown] using hl
            refine ⟨⟨fun _ => hl, fun _ => ⟨_, rfl, this⟩⟩, ?_⟩
            rintro f ⟨rfl, _⟩
            exact ⟨rfl, by simp [this]⟩
          · have : ∀ f, Message.shown p.logging (.solutionFile f) = false := fun f => by simpa [Message.shown] using hl
            simp [this, hl]

/-- C116. If no two orders of the pair cross, the solver for the pair writes no message: "No matching orders" is not written when there are no matching orders. -/
theorem C116_no_cross {cfg : Config} {ext : Ext} {inst : Instance} {pair : Token × Token} {xrate : Option ℚ} (hm : 0 < cfg.minTradable)
    (hi : GoodInstance inst) {accounts : Accounts} {bk : Books} {fee : Fee} (h : loadPairProblem cfg inst pair = .ok (accounts, bk, fee))
    (hbn : bk.b ≠ []) (hsn : bk.s ≠ []) (hn : NoCross cfg inst pair) :
    (solveEconomicViableSaid cfg ext pair accounts bk.b bk.s bk.f fee xrate).1 = [] := by
  have h0 := h
  unfold loadPairProblem at h0
  simp only [bind_eq_ok, pyAssert_eq_ok, exists_and_left, exists_const] at h0
  obtain ⟨os, h1, os', h2, _, e⟩ := h0
  cases e
  have hload : loadProblem cfg inst = .ok (inst.accounts, os', inst.fee) := by
    unfold loadProblem; rw [h1, ok_bind, h2]; rfl
  obtain ⟨hl, _, _⟩ := loadedPool hm hi.balances hi.ints hi.sell hload
  have hbk := bookOf_filter hl.wf (forall₂_same_refl _) pair inst.fee _ (.inl rfl)
  dsimp only at hbn hsn ⊢
  obtain ⟨b', s', e, _, _, hb, _⟩ := C14_exact ⟨hi.feeLt, hbn, hsn, fun o ho => ((hbk.derB o ho).ok hl.wf).1, fun o ho => ((hbk.derS o ho).ok hl.wf).1⟩
  have hb' : b' = [] := by
    rw [List.eq_nil_iff_forall_not_mem]
    intro o ho
    obtain ⟨h1, c, hc, hmt⟩ := (hb o).1 ho
    exact not_matchable_of_noCross hm hi hl hn (hbk.derB o h1) (hbk.derS c hc) (hbk.clsB o h1) (hbk.clsS c hc) hmt
  have e1 : solveTokenPairAndFeeSaid cfg ext pair (ordersBuyingSelling os' pair.1 pair.2) (ordersBuyingSelling os' pair.2 pair.1)
      (ordersBuyingSelling os' pair.1 inst.fee.token) inst.fee xrate = quiet (.ok { sol := .trivial, books :=
        ⟨ordersBuyingSelling os' pair.1 pair.2, ordersBuyingSelling os' pair.2 pair.1, ordersBuyingSelling os' pair.1 inst.fee.token⟩ }) := by
    unfold solveTokenPairAndFeeSaid
    rw [e, quiet_bind_ok]
    dsimp only
    rw [if_pos (.inl (by rw [hb']; rfl))]
    rfl
  unfold solveEconomicViableSaid economicLoopSaid
  rw [if_pos (.inl (List.length_pos_of_ne_nil hbn))]
  dsimp only
  rw [e1, quiet_bind_ok]
  dsimp only
  rw [viable_trivial, quiet_bind_ok, if_pos (.inl rfl)]
  rw [show ∀ a : Solution × List Order, (pure a : Said _) = quiet (.ok a) from fun _ => rfl, quiet_bind_ok]
  dsimp only
  rw [validate_trivial]
  rfl

/-- C116 (negative). "No matching orders" is written although there are orders that cross, two of them tradable on their own (C89): with the four orders of
`C89_more_orders_no_trade`. -/
theorem C116_no_match_although_cross : GoodInstance (ExLost.inst [ExLost.b0, ExLost.c, ExLost.b1 "b1", ExLost.b1 "b2"]) ∧
    ¬ NoCross Config.default (ExLost.inst [ExLost.b0, ExLost.c, ExLost.b1 "b1", ExLost.b1 "b2"]) ("F", "S") ∧
    ∃ r, loadPairProblem Config.default (ExLost.inst [ExLost.b0, ExLost.c, ExLost.b1 "b1", ExLost.b1 "b2"]) ("F", "S") = .ok r ∧
      (solveEconomicViableSaid Config.default ExFrame.ext ("F", "S") r.1 r.2.1.b r.2.1.s r.2.1.f r.2.2 none).1 = [.noMatch "F" "S"] :=
  ⟨ExLost.good4, by decide +kernel, exists_of_pyCheck (p := fun r : Accounts × Books × Fee =>
    (solveEconomicViableSaid Config.default ExFrame.ext ("F", "S") r.1 r.2.1.b r.2.1.s r.2.1.f r.2.2 none).1 = [.noMatch "F" "S"]) (by decide +kernel)⟩

/-- C116. All messages of a run of the command over all pairs whose instance loads: those of the loop, also if it raises, and then the name of the file if the run
ends without an error; at the level given. -/
theorem C116_messages {w : World} {files : Files} {argv : List String} {p : Parsed} (hp : parseArgs (fun f => (files f).isSome) argv = .ok p)
    (hc : p.args.command = some .bestTokenPair) {t : PyVal} (ht : jsonLoads ((files p.instanceFile).getD []) = .ok t) {inst : Instance}
    (hi : readInstance w.conv t = .ok inst) {accounts : Accounts} {orders : List Order} {fee : Fee}
    (hl : loadProblem (p.args.config w.base) inst = .ok (accounts, orders, fee)) :
    (programSaid w files argv).1 = ((bestLoopSaid (p.args.config w.base) w.ext accounts fee
        (timedVisits p.args.timeLimit w.elapsed 0 (w.shuffle (eligibleTokenPairs orders fee.token))) { objective := 0, sol := .trivial, orders }).1 ++
      match (program w files argv).1 with
      | .ok _ => [.solutionFile (p.solution.getD w.tempFile)]
      | .error _ => []).filter (Message.shown p.logging) := by
  rw [← C116_same]
  unfold programSaid
  rw [hp]
  dsimp only
  rw [hc]
  dsimp only
  rw [ht]
  dsimp only
  have e : (commandValSaid w p.args .bestTokenPair t (solverVal w argv)).1 = (bestLoopSaid (p.args.config w.base) w.ext accounts fee
        (timedVisits p.args.timeLimit w.elapsed 0 (w.shuffle (eligibleTokenPairs orders fee.token))) { objective := 0, sol := .trivial, orders }).1 := by
    unfold commandValSaid
    rw [hi, quiet_bind_ok]
    dsimp only
    rw [hl, quiet_bind_ok]
    dsimp only
    cases h : (bestLoopSaid (p.args.config w.base) w.ext accounts fee
        (timedVisits p.args.timeLimit w.elapsed 0 (w.shuffle (eligibleTokenPairs orders fee.token))) { objective := 0, sol := .trivial, orders }).2 with
    | error e => rw [said_bind_error h]
    | ok st => rw [said_bind_ok h]; exact List.append_nil _
  rw [← e]
  cases (commandValSaid w p.args .bestTokenPair t (solverVal w argv)).2 with
  | error e => simp
  | ok v =>
    dsimp only
    unfold writeSolutionSaid
    dsimp only
    cases h : (writeSolution w files p.solution v).1 with
    | error e => simp [h]
    | ok u => simp [h]

namespace ExKept

/-- The orders of `C116_no_match_although_cross`, and those of `C57_search_divides_by_zero` with another token. -/
def inst : Instance where
  accounts := (ExLost.inst []).accounts ++ [("x", [("T", 1996002000000000000000000)]), ("y", [("T", 7992002000000000000001999)]),
    ("z", [("F", 1998000000000000000000000)])]
  fee := ExZero.fee
  orders := [ExLost.b0, ExLost.c, ExLost.b1 "b1", ExLost.b1 "b2",
    { accountID := "x", buyToken := "F", sellToken := "T", sellAmount := 1996002000000000000000000, buyAmount := 998001000000000000000000 },
    { accountID := "y", buyToken := "F", sellToken := "T", sellAmount := 7992002000000000000001999, buyAmount := 5988006000000000000000000 },
    { accountID := "z", buyToken := "T", sellToken := "F", sellAmount := 1998000000000000000000000, buyAmount := 1998000000000000000000000 }]

end ExKept

/-- A message written for one pair stays written although the run ends with an exception at a later pair. -/
theorem C116_before_exception : GoodInstance ExKept.inst ∧ ∃ r, loadProblem Config.default ExKept.inst = .ok r ∧
    bestLoopSaid Config.default ExFrame.ext r.1 r.2.2 [(("F", "S"), false), (("F", "T"), false)] { objective := 0, sol := .trivial, orders := r.2.1 } =
      ([.noMatch "F" "S"], .error .zeroDivision) := by
  refine ⟨by constructor <;> decide +kernel, ?_⟩
  obtain ⟨r, hr, h⟩ := exists_of_pyCheck (x := loadProblem Config.default ExKept.inst) (p := fun r : Accounts × List Order × Fee =>
    (bestLoopSaid Config.default ExFrame.ext r.1 r.2.2 [(("F", "S"), false), (("F", "T"), false)] { objective := 0, sol := .trivial, orders := r.2.1 }).1 =
      [.noMatch "F" "S"] ∧ pyRaises (bestLoopSaid Config.default ExFrame.ext r.1 r.2.2 [(("F", "S"), false), (("F", "T"), false)]
        { objective := 0, sol := .trivial, orders := r.2.1 }).2 .zeroDivision = true) (by decide +kernel)
  exact ⟨r, hr, Prod.ext h.1 (eq_error_of_pyRaises h.2)⟩

/-- "Could not round solution." is written for the larger instance of `C72_extra_order`. -/
example : ∃ r, loadPairProblem Config.default (ExExtra.add (ExExtra.small (10 ^ 24)) ExExtra.extra) ("B", "S") = .ok r ∧
    (solveEconomicViableSaid Config.default ExDouble.ext ("B", "S") r.1 r.2.1.b r.2.1.s r.2.1.f r.2.2 none).1 = [.noRound] :=
  exists_of_pyCheck (p := fun r : Accounts × Books × Fee =>
    (solveEconomicViableSaid Config.default ExDouble.ext ("B", "S") r.1 r.2.1.b r.2.1.s r.2.1.f r.2.2 none).1 = [.noRound]) (by decide +kernel)

/-- The hypotheses of `C116_no_cross`: an instance of the end-to-end tests. -/
example (ext : Ext) (xrate : Option ℚ) : ∃ r, loadPairProblem Config.default ExNoMatch.inst ("token0", "token1") = .ok r ∧
    (solveEconomicViableSaid Config.default ext ("token0", "token1") r.1 r.2.1.b r.2.1.s r.2.1.f r.2.2 xrate).1 = [] := by
  obtain ⟨⟨acc, bk, fee⟩, h1, h2, h3⟩ := exists_of_pyCheck (x := loadPairProblem Config.default ExNoMatch.inst ("token0", "token1"))
    (p := fun r : Accounts × Books × Fee => r.2.1.b ≠ [] ∧ r.2.1.s ≠ []) (by decide +kernel)
  exact ⟨_, h1, C116_no_cross (by decide) (by constructor <;> decide +kernel) h1 h2 h3 (by decide +kernel)⟩

open ExProgram in
/-- The run of the example of C103 writes one message: the name of the solution file; with `--logging ERROR` it writes none. -/
example : (programSaid world (files ExText.text) ["--solution", "o.json", "i.json", "token-pair", "B", "S"]).1 = [.solutionFile "o.json"] ∧
    (programSaid world (files ExText.text) ["--logging", "ERROR", "--solution", "o.json", "i.json", "token-pair", "B", "S"]).1 = [] := by
  constructor <;> decide +kernel

open ExProgram in
/-- The hypotheses of `C116_messages`. -/
example : ∃ p t inst r, parseArgs (fun f => (files ExText.text f).isSome) ["i.json", "best-token-pair"] = .ok p ∧
    p.args.command = some .bestTokenPair ∧ jsonLoads ((files ExText.text p.instanceFile).getD []) = .ok t ∧ readInstance world.conv t = .ok inst ∧
    loadProblem (p.args.config world.base) inst = .ok r ∧ r.2.1.length = 3 := by
  have h : (match parseArgs (fun f => (files ExText.text f).isSome) ["i.json", "best-token-pair"] with
    | .error _ => false
    | .ok p => match p.args.command, jsonLoads ((files ExText.text p.instanceFile).getD []) with
      | some .bestTokenPair, .ok t => match readInstance world.conv t with
        | .error _ => false
        | .ok inst => pyCheck (loadProblem (p.args.config world.base) inst) (fun r => r.2.1.length = 3)
      | _, _ => false) = true := by decide +kernel
  split at h
  · cases h
  · rename_i p hp
    split at h
    · rename_i t hc ht
      split at h
      · cases h
      · rename_i inst hi
        obtain ⟨r, hr, hn⟩ := exists_of_pyCheck h
        exact ⟨p, t, inst, r, hp, hc, ht, hi, hr, hn⟩
    · cases h

end Dex
