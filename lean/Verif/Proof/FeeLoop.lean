import Verif.Proof.Match
import Verif.Proof.RelMatch

/-! # The loop over numbers of fee orders reads nothing from earlier rounds -/

namespace Dex

open Spec

theorem setMaxSell_relB {o o' : Order} {v : ℚ} (h : SameButExec o o') : RelE SameButExec (o.setMaxSell v) (o'.setMaxSell v) := by
  obtain ⟨_, _, rfl⟩ := sameButExec_iff.1 h
  unfold Order.setMaxSell
  exact RelE.bind_same fun _ => rfl

theorem roundingBufferEnter_relB {cfg : Config} {pair : Token × Token} {b b' s s' : List Order} {x p : ℚ} {fee : Fee} (hb : RelB b b') (hs : RelB s s') :
    RelE (fun r r' => RelB2 r r' ∧ r.1.length = b.length ∧ r.2.length = s.length)
      (roundingBufferEnter cfg pair b s x p fee) (roundingBufferEnter cfg pair b' s' x p fee) := by
  unfold roundingBufferEnter
  refine RelE.bind (R := fun r r' => RelB r.1 r'.1 ∧ r.2 = r'.2 ∧ r.1.length = b.length + s.length) ?_ fun r r' h => ?_
  · unfold aggregateOrdersPrices
    exact RelE.bind_same fun _ => ⟨append_rel (append_rel hb hs) List.Forall₂.nil, rfl, by simp⟩
  obtain ⟨os, prices⟩ := r
  obtain ⟨os', prices'⟩ := r'
  obtain ⟨h, rfl, hl⟩ := h
  refine RelE.bind (R := fun l l' => RelB l l' ∧ l.length = os.length) ?_ fun l l' hl => ?_
  · have : RelE RelB (setupRoundingBuffer cfg os [pair.1, pair.2] prices fee) (setupRoundingBuffer cfg os' [pair.1, pair.2] prices fee) := by
      unfold setupRoundingBuffer
      refine RelE.bind_same fun amounts => mapE_rel h fun a b hab => ?_
      obtain ⟨_, _, rfl⟩ := sameButExec_iff.1 hab
      unfold bufferOrder
      refine RelE.ite Iff.rfl (fun _ => ?_) (fun _ => hab)
      refine RelE.bind_same fun _ => RelE.bind_same fun _ => RelE.bind_same fun _ => RelE.bind_same fun _ => ?_
      exact RelE.bind_same fun _ => RelE.bind_same fun _ => setMaxSell_relB hab
    have hlen : ∀ l, setupRoundingBuffer cfg os [pair.1, pair.2] prices fee = .ok l → l.length = os.length := by
      intro l hl
      unfold setupRoundingBuffer at hl
      obtain ⟨_, _, hl⟩ := bind_eq_ok.1 hl
      exact mapE_length hl
    cases hx : setupRoundingBuffer cfg os [pair.1, pair.2] prices fee with
    | error e =>
      rw [hx] at this
      cases hy : setupRoundingBuffer cfg os' [pair.1, pair.2] prices fee with
      | error e' => rw [hy] at this; exact this
      | ok l' => rw [hy] at this; exact this.elim
    | ok l =>
      rw [hx] at this
      cases hy : setupRoundingBuffer cfg os' [pair.1, pair.2] prices fee with
      | error e => rw [hy] at this; exact this.elim
      | ok l' => rw [hy] at this; exact ⟨this, hlen l hx⟩
  · rw [hb.length_eq] at *
    dsimp only at *
    obtain ⟨h1, h2⟩ := hl
    refine ⟨⟨List.forall₂_take _ h1, List.forall₂_drop _ h1⟩, ?_, ?_⟩
    · rw [List.length_take]; omega
    · rw [List.length_drop]; omega

theorem solveBuffered_relB {cfg : Config} {sqrt : ℚ → Py ℚ} {pair : Token × Token} {b b' s s' : List Order} {x p : ℚ} {fee : Fee} {maxNr : ℤ}
    (hb : RelB b b') (hs : RelB s s') (hbn : b ≠ []) (hsn : s ≠ []) :
    RelE RelR (solveBuffered cfg sqrt pair b s x p fee maxNr) (solveBuffered cfg sqrt pair b' s' x p fee maxNr) := by
  unfold solveBuffered
  refine RelE.bind (roundingBufferEnter_relB hb hs) fun r r' hr => ?_
  obtain ⟨⟨h1, h2⟩, l1, l2⟩ := hr
  refine RelE.bind (solveTokenPair_rel h1 h2 (.inl ?_)) fun t t' ht => ?_
  · rw [l1, l2, List.length_eq_zero_iff, List.length_eq_zero_iff]
    exact fun h => h.elim hbn hsn
  obtain ⟨x, b1, s1⟩ := t
  obtain ⟨x', b2, s2⟩ := t'
  obtain ⟨rfl, h1, h2⟩ := ht
  dsimp only
  rw [maxSells_rel hb, maxSells_rel hs]
  refine RelE.bind (restoreMaxSell_rel h1) fun b3 b4 h3 => RelE.bind (restoreMaxSell_rel h2) fun s3 s4 h4 => ?_
  exact ⟨rfl, h3, h4⟩

/-- Related results when the lists on entry agree up to executed amounts: the same except for the books of an attempt that executes no
fee order. -/
structure RelT (r r' : GivenResult) : Prop where
  objective : r.objective = r'.objective
  xrate : r.xrate = r'.xrate
  bPrice : r.bPrice = r'.bPrice
  books : r.bPrice ≠ none → RelK r.books r'.books

theorem givenExecF_relB {cfg : Config} {sqrt : ℚ → Py ℚ} {n : ℕ} {imb : ℚ} {pair : Token × Token} {b b' s s' f : List Order} {x : ℚ} {fee : Fee}
    (hb : RelB b b') (hs : RelB s s') (hbn : b ≠ []) (hsn : s ≠ []) :
    RelE RelT (givenExecF cfg sqrt n imb pair ⟨b, s, f⟩ x fee) (givenExecF cfg sqrt n imb pair ⟨b', s', f⟩ x fee) := by
  unfold givenExecF
  refine RelE.bind_same fun pf => ?_
  dsimp only
  refine RelE.ite Iff.rfl (fun _ => ⟨rfl, rfl, rfl, fun h => absurd rfl h⟩) (fun _ => ?_)
  refine RelE.bind (solveBuffered_relB hb hs hbn hsn) fun r r' hr => ?_
  obtain ⟨y, b1, s1⟩ := r
  obtain ⟨y', b2, s2⟩ := r'
  obtain ⟨rfl, h1, h2⟩ := hr
  cases y with
  | none => rfl
  | some y =>
    dsimp only
    rw [objectiveRational_rel h1 h2 (relS_refl _)]
    exact RelE.bind_same fun _ => ⟨rfl, rfl, rfl, fun _ => ⟨h1, h2, rfl⟩⟩

namespace Spec

/-- Going through the attempts, keeping the best so far, until one is worse. `T n` is the result of the attempt with `n` fee orders; attempts
without a price (no fee order executed) do not count. -/
inductive Tries (T : ℕ → Py GivenResult) : Option GivenResult → List ℕ → Option GivenResult → Prop
  | done (best : Option GivenResult) : Tries T best [] best
  | skip {best best' : Option GivenResult} {n : ℕ} {ns : List ℕ} {r : GivenResult} : T n = .ok r → r.bPrice = none → Tries T best ns best' →
      Tries T best (n :: ns) best'
  | first {best' : Option GivenResult} {n : ℕ} {ns : List ℕ} {r : GivenResult} : T n = .ok r → r.bPrice ≠ none → Tries T (some r) ns best' →
      Tries T none (n :: ns) best'
  | better {best' : Option GivenResult} {g : GivenResult} {n : ℕ} {ns : List ℕ} {r : GivenResult} : T n = .ok r → r.bPrice ≠ none →
      g.objective ≤ r.objective → Tries T (some r) ns best' → Tries T (some g) (n :: ns) best'
  | stop {g : GivenResult} {n : ℕ} {ns : List ℕ} {r : GivenResult} : T n = .ok r → r.bPrice ≠ none → r.objective < g.objective →
      Tries T (some g) (n :: ns) (some g)

end Spec

theorem reset_same {l l' : List Order} (h : List.Forall₂ SameButExec l l') :
    l'.map (fun o => (o.withBuy 0).withSell 0) = l.map (fun o => (o.withBuy 0).withSell 0) := by
  induction h with
  | nil => rfl
  | cons h _ ih =>
    obtain ⟨_, _, rfl⟩ := sameButExec_iff.1 h
    rw [List.map_cons, List.map_cons, ih]
    rfl

/-- The loop goes through the attempts, each of which gives the result it gives on the lists at the start of the loop. -/
theorem fOrdersLoop_tries {cfg : Config} {sqrt : ℚ → Py ℚ} {imb : ℚ} {pair : Token × Token} {x : ℚ} {fee : Fee}
    {pool : List Order} (hp : Pool pool) (hc : CfgOk cfg) (hfee : fee.value < 1)
    (hne : pair.1 ≠ pair.2) (hF1 : pair.1 ≠ fee.token) (hF2 : pair.2 ≠ fee.token) (hx : 0 < x)
    {ns : List ℕ} {st st' : FLoopState} {bk0 : Books} (hb : BookOf pool pair fee bk0) (hbn : bk0.b ≠ []) (hsn : bk0.s ≠ []) (hfn : bk0.f ≠ [])
    (hns : ∀ n ∈ ns, 1 ≤ n ∧ (n : ℤ) ≤ cfg.maxNrExec) (h1 : BooksSame bk0 st.books) {best : Option GivenResult} (h2 : RelO best st.best)
    (hr : fOrdersLoop cfg sqrt imb pair x fee ns st = .ok st') :
    ∃ best', Tries (fun n => givenExecF cfg sqrt n imb pair { bk0 with f := bk0.f.map (fun o => (o.withBuy 0).withSell 0) } x fee) best ns best' ∧
      RelO best' st'.best := by
  induction ns generalizing st best with
  | nil => cases hr; exact ⟨best, .done _, h2⟩
  | cons n ns ih =>
    unfold fOrdersLoop at hr
    rw [bind_eq_ok] at hr
    obtain ⟨r, e1, hr⟩ := hr
    have ne_of : ∀ {l l' : List Order}, List.Forall₂ SameButExec l l' → l ≠ [] → l' ≠ [] := by
      intro l l' h hn hc; subst hc; cases h; exact hn rfl
    have hreset : ∀ l : List Order, List.Forall₂ SameButExec l (l.map (fun o => (o.withBuy 0).withSell 0)) := by
      intro l
      induction l with
      | nil => exact .nil
      | cons o l ih => exact .cons rfl ih
    have hsame : BooksSame bk0 { st.books with f := st.books.f.map (fun o => (o.withBuy 0).withSell 0) } :=
      ⟨h1.b, h1.s, forall₂_same_trans h1.f (hreset _)⟩
    obtain ⟨r1, _⟩ := givenExecF_spec hp hc hfee (hb.same hsame) hne hF1 hF2 hx (ne_of h1.b hbn) (ne_of h1.s hsn)
      (ne_of hsame.f hfn) (hns n (by simp)).1 (hns n (by simp)).2
      (fun o ho => by obtain ⟨a, _, rfl⟩ := List.mem_map.1 ho; rfl) e1
    have hR := hsame.trans r1
    have hns' : ∀ n ∈ ns, 1 ≤ n ∧ (n : ℤ) ≤ cfg.maxNrExec := fun m hm => hns m (by simp [hm])
    -- the attempt from the start
    have hrel := givenExecF_relB (cfg := cfg) (sqrt := sqrt) (n := n) (imb := imb) (pair := pair) (x := x) (fee := fee)
      (f := bk0.f.map (fun o => (o.withBuy 0).withSell 0)) h1.b h1.s hbn hsn
    have e2 : givenExecF cfg sqrt n imb pair ⟨st.books.b, st.books.s, bk0.f.map (fun o => (o.withBuy 0).withSell 0)⟩ x fee = .ok r := by
      rw [← reset_same h1.f]; exact e1
    rw [e2] at hrel
    cases h0 : givenExecF cfg sqrt n imb pair ⟨bk0.b, bk0.s, bk0.f.map (fun o => (o.withBuy 0).withSell 0)⟩ x fee with
    | error e => rw [h0] at hrel; exact hrel.elim
    | ok r0 =>
      rw [h0] at hrel
      have hrel : RelT r0 r := hrel
      cases hbp : r.bPrice with
      | none =>
        rw [hbp] at hr
        obtain ⟨best', t, o⟩ := ih hns' (st := { st with books := r.books }) hR h2 hr
        exact ⟨best', .skip h0 (hrel.bPrice.trans hbp) t, o⟩
      | some p =>
        rw [hbp] at hr
        have hn0 : r0.bPrice ≠ none := by rw [hrel.bPrice, hbp]; simp
        have hG : RelG r0 r := ⟨hrel.objective, hrel.xrate, hrel.bPrice, hrel.books hn0⟩
        rcases h2 with ⟨rfl, hbest⟩ | ⟨g, g', rfl, hbest, hg⟩
        · rw [hbest] at hr
          obtain ⟨best', t, o⟩ := ih hns' (st := { best := some r, books := r.books }) hR (.inr ⟨r0, r, rfl, rfl, hG⟩) hr
          exact ⟨best', .first h0 hn0 t, o⟩
        · rw [hbest] at hr
          dsimp only at hr
          split at hr
          · rename_i hlt
            cases hr
            rw [← hrel.objective, ← hg.objective] at hlt
            exact ⟨some g, .stop h0 hn0 hlt, .inr ⟨g, g', rfl, rfl, hg⟩⟩
          · rename_i hge
            rw [bind_eq_ok] at hr
            obtain ⟨_, _, hr⟩ := hr
            obtain ⟨best', t, o⟩ := ih hns' (st := { best := some r, books := r.books }) hR (.inr ⟨r0, r, rfl, rfl, hG⟩) hr
            rw [← hrel.objective, ← hg.objective, not_lt] at hge
            exact ⟨best', .better h0 hn0 hge t, o⟩

end Dex
