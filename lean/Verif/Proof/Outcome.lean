import Verif.Proof.FeeLoop
import Verif.Props.Volume
import Verif.Props.FeeOrders

/-! # What the matching of a token pair returns -/

namespace Dex

namespace Spec

/-- `sol` is what remains after rounding the exact solution `orders` at `prices`: the rounded orders if rounding succeeds, otherwise the
trivial solution. -/
def RoundedTo (cfg : Config) (ext : Ext) (fee : Fee) (prices : Prices) (orders : List Order) (sol : Solution) : Prop :=
  ∃ ok res, roundSolution cfg ext.branch prices orders fee = .ok (ok, res) ∧
    sol = if ok then { orders := res, prices := prices } else .trivial

/-- The attempt gives no price (it executes no fee order). -/
def NoPrice (T : ℕ → Py GivenResult) (n : ℕ) : Prop := ∃ r, T n = .ok r ∧ r.bPrice = none

/-- After the attempt with result `g` the attempts `ns` are not taken: none of them gives a price, or the first one that does is worse. -/
def Stops (T : ℕ → Py GivenResult) (g : GivenResult) (ns : List ℕ) : Prop :=
  (∀ n ∈ ns, NoPrice T n) ∨
    ∃ skip m rest r, ns = skip ++ m :: rest ∧ (∀ n ∈ skip, NoPrice T n) ∧ T m = .ok r ∧ r.bPrice ≠ none ∧ r.objective < g.objective

/-- `g` is the chosen result among the attempts `ns`: among those that give a price, the objective does not fall until `g`, and falls right after `g`
(or there are no more). -/
def Chosen (T : ℕ → Py GivenResult) (ns : List ℕ) (g : GivenResult) : Prop :=
  ∃ pre n post, ns = pre ++ n :: post ∧ T n = .ok g ∧ g.bPrice ≠ none ∧ (∀ m ∈ pre, ∃ r, T m = .ok r) ∧
    (pre ++ [n]).Pairwise (fun m m' => ∀ r r', T m = .ok r → T m' = .ok r' → r.bPrice ≠ none → r'.bPrice ≠ none → r.objective ≤ r'.objective) ∧
    Stops T g post

end Spec

open Spec

theorem tries_some {T : ℕ → Py GivenResult} {ns : List ℕ} {best best' : Option GivenResult} (h : Tries T best ns best') :
    ∀ g, best = some g → ∃ g', best' = some g' ∧ ((g' = g ∧ Stops T g ns) ∨
      (Chosen T ns g' ∧ ∃ pre n post, ns = pre ++ n :: post ∧ T n = .ok g' ∧ g'.bPrice ≠ none ∧ (∀ m ∈ pre, ∃ r, T m = .ok r) ∧
        (pre ++ [n]).Pairwise (fun m m' => ∀ r r', T m = .ok r → T m' = .ok r' → r.bPrice ≠ none → r'.bPrice ≠ none → r.objective ≤ r'.objective) ∧
        Stops T g' post ∧ ∀ m ∈ pre ++ [n], ∀ r, T m = .ok r → r.bPrice ≠ none → g.objective ≤ r.objective)) := by
  induction h with
  | done best => rintro g rfl; exact ⟨g, rfl, .inl ⟨rfl, .inl (by simp)⟩⟩
  | @skip best best' n ns r h1 h2 _ ih =>
    intro g hg
    obtain ⟨g', e, h⟩ := ih g hg
    have hvac : ∀ {r'}, T n = .ok r' → r'.bPrice ≠ none → False := by
      intro r' e1 e2; rw [h1] at e1; cases e1; exact e2 h2
    refine ⟨g', e, ?_⟩
    rcases h with ⟨rfl, hs⟩ | ⟨_, pre, m, post, rfl, a1, a2, a3, a4, a5, a6⟩
    · left
      refine ⟨rfl, ?_⟩
      rcases hs with hs | ⟨skip, m, rest, r', rfl, b1, b2⟩
      · left
        intro k hk
        rcases List.mem_cons.1 hk with rfl | hk
        · exact ⟨r, h1, h2⟩
        · exact hs k hk
      · right
        refine ⟨n :: skip, m, rest, r', rfl, ?_, b2⟩
        intro k hk
        rcases List.mem_cons.1 hk with rfl | hk
        · exact ⟨r, h1, h2⟩
        · exact b1 k hk
    · right
      have p3 : ∀ k ∈ n :: pre, ∃ r, T k = .ok r := by
        intro k hk
        rcases List.mem_cons.1 hk with rfl | hk
        · exact ⟨r, h1⟩
        · exact a3 k hk
      have p4 : (n :: pre ++ [m]).Pairwise (fun m m' => ∀ r r', T m = .ok r → T m' = .ok r' → r.bPrice ≠ none → r'.bPrice ≠ none →
          r.objective ≤ r'.objective) := by
        rw [List.cons_append]
        exact .cons (fun k _ r' r'' e1 _ e2 _ => (hvac e1 e2).elim) a4
      refine ⟨⟨n :: pre, m, post, rfl, a1, a2, p3, p4, a5⟩, n :: pre, m, post, rfl, a1, a2, p3, p4, a5, ?_⟩
      intro k hk r' e1 e2
      rcases List.mem_cons.1 hk with rfl | hk
      · exact (hvac e1 e2).elim
      · exact a6 k hk r' e1 e2
  | first => intro g hg; cases hg
  | @better best' g0 n ns r h1 h2 h3 _ ih =>
    intro g hg
    cases hg
    obtain ⟨g', e, h⟩ := ih r rfl
    refine ⟨g', e, .inr ?_⟩
    rcases h with ⟨rfl, hs⟩ | ⟨_, pre, m, post, rfl, a1, a2, a3, a4, a5, a6⟩
    · have p4 : (([] : List ℕ) ++ [n]).Pairwise (fun m m' => ∀ r r' : GivenResult, T m = .ok r → T m' = .ok r' → r.bPrice ≠ none → r'.bPrice ≠ none →
          r.objective ≤ r'.objective) := by simp
      refine ⟨⟨[], n, ns, rfl, h1, h2, by simp, p4, hs⟩, [], n, ns, rfl, h1, h2, by simp, p4, hs, ?_⟩
      intro k hk r' e1 e2
      simp only [List.nil_append, List.mem_singleton] at hk
      subst hk
      rw [h1] at e1; cases e1; exact h3
    · have p3 : ∀ k ∈ n :: pre, ∃ r, T k = .ok r := by
        intro k hk
        rcases List.mem_cons.1 hk with rfl | hk
        · exact ⟨r, h1⟩
        · exact a3 k hk
      have p4 : (n :: pre ++ [m]).Pairwise (fun m m' => ∀ r r', T m = .ok r → T m' = .ok r' → r.bPrice ≠ none → r'.bPrice ≠ none →
          r.objective ≤ r'.objective) := by
        rw [List.cons_append]
        refine .cons (fun k hk r' r'' e1 e2 _ e4 => ?_) a4
        rw [h1] at e1; cases e1
        exact a6 k hk r'' e2 e4
      refine ⟨⟨n :: pre, m, post, rfl, a1, a2, p3, p4, a5⟩, n :: pre, m, post, rfl, a1, a2, p3, p4, a5, ?_⟩
      intro k hk r' e1 e2
      rcases List.mem_cons.1 hk with rfl | hk
      · rw [h1] at e1; cases e1; exact h3
      · exact h3.trans (a6 k hk r' e1 e2)
  | @stop g0 n ns r h1 h2 h3 =>
    intro g hg
    cases hg
    exact ⟨_, rfl, .inl ⟨rfl, .inr ⟨[], n, ns, r, rfl, by simp, h1, h2, h3⟩⟩⟩

/-- What the loop over the attempts returns. -/
theorem tries_none {T : ℕ → Py GivenResult} {ns : List ℕ} {best best' : Option GivenResult} (h : Tries T best ns best') (h0 : best = none) :
    (best' = none ∧ ∀ n ∈ ns, NoPrice T n) ∨ ∃ g, best' = some g ∧ Chosen T ns g := by
  induction h with
  | done best => subst h0; exact .inl ⟨rfl, by simp⟩
  | @skip best best' n ns r h1 h2 _ ih =>
    rcases ih h0 with ⟨e, h⟩ | ⟨g, e, pre, m, post, rfl, a1, a2, a3, a4, a5⟩
    · left
      refine ⟨e, fun k hk => ?_⟩
      rcases List.mem_cons.1 hk with rfl | hk
      · exact ⟨r, h1, h2⟩
      · exact h k hk
    · right
      refine ⟨g, e, n :: pre, m, post, rfl, a1, a2, ?_, ?_, a5⟩
      · intro k hk
        rcases List.mem_cons.1 hk with rfl | hk
        · exact ⟨r, h1⟩
        · exact a3 k hk
      · rw [List.cons_append]
        refine .cons (fun k _ r' r'' e1 _ e2 _ => ?_) a4
        rw [h1] at e1; cases e1; exact absurd h2 e2
  | @first best' n ns r h1 h2 h3 _ =>
    right
    obtain ⟨g', e, h⟩ := tries_some h3 r rfl
    refine ⟨g', e, ?_⟩
    rcases h with ⟨rfl, hs⟩ | ⟨_, pre, m, post, rfl, a1, a2, a3, a4, a5, a6⟩
    · exact ⟨[], n, ns, rfl, h1, h2, by simp, by simp, hs⟩
    · refine ⟨n :: pre, m, post, rfl, a1, a2, ?_, ?_, a5⟩
      · intro k hk
        rcases List.mem_cons.1 hk with rfl | hk
        · exact ⟨r, h1⟩
        · exact a3 k hk
      · rw [List.cons_append]
        refine .cons (fun k hk r' r'' e1 e2 _ e4 => ?_) a4
        rw [h1] at e1; cases e1
        exact a6 k hk r'' e2 e4
  | better => cases h0
  | stop => cases h0

theorem aggregateAndRound_roundedTo {cfg : Config} {ext : Ext} {pair : Token × Token} {bk : Books} {x p : ℚ} {fee : Fee} {sol : Solution}
    {os : List Order} (hx : x ≠ 0) (h : aggregateAndRound cfg ext pair bk x p fee = .ok (sol, os)) :
    RoundedTo cfg ext fee (dictSet (dictSet [(fee.token, (cfg.feeTokenPrice : ℚ))] pair.1 p) pair.2 (p / x)) (bk.b ++ bk.s ++ bk.f) sol := by
  unfold aggregateAndRound aggregateOrdersPrices at h
  simp only [pyDiv_of_ne hx, ok_bind, pure_eq_ok] at h
  rw [bind_eq_ok] at h
  obtain ⟨⟨ok, res⟩, e, h⟩ := h
  refine ⟨ok, res, e, ?_⟩
  cases ok <;> · simp only [Bool.false_eq_true, if_false, if_true] at h ⊢; cases h; rfl

theorem bBuyTokenImbalance_eq (b s : List Order) {x : ℚ} (p : ℚ) {fee : Fee} (hf : fee.value < 1) (hx : x ≠ 0) :
    bBuyTokenImbalance b s x p fee = .ok ((s.map (soldS x fee)).sum - (b.map (·.buy)).sum) := by
  have hφ : (1 - fee.value) ≠ 0 := by have : 0 < 1 - fee.value := by linarith
                                      exact this.ne'
  unfold bBuyTokenImbalance
  simp only [pyDiv_of_ne hx, ok_bind]
  rw [sumE_of_forall (g := soldS x fee) (fun o _ => by unfold ratSellFromBuy soldS; rw [pyDiv_of_ne hφ]; congr 1; ring)]
  rfl

theorem not_pos_of_countNrExec {l : List Order} (h : countNrExec l = 0) : ∀ o ∈ l, ¬ 0 < o.buy := by
  intro o ho hp
  unfold countNrExec at h
  rw [List.countP_eq_zero] at h
  exact h o ho (by simpa using hp)

/-- A pair with the fee token. -/
theorem solveOriented_fee {cfg : Config} {ext : Ext} {pair : Token × Token} {b s f : List Order} {fee : Fee} {xrate : Option ℚ}
    {r : MatchResult} (h : SearchInput cfg fee b s) (hbn : b ≠ []) (hsn : s ≠ []) (hx : ∀ y, xrate = some y → 0 < y) (hF : pair.1 = fee.token)
    (hF2 : pair.2 ≠ fee.token) (hr : solveOriented cfg ext pair b s f fee xrate = .ok r) :
    ∃ x0 : ℚ, 0 < x0 ∧ (∀ y, xrate = some y → x0 = y) ∧ (xrate = none → ∃ v, findBestXrate cfg ext.sqrt b s fee = .ok (some (x0, v))) ∧
      ∃ k : ℤ, 1 ≤ k ∧ computeSBuyTokenPrice cfg.feeTokenPrice x0 b s fee = .ok k ∧
        ∃ b1 s1, computeBuyAmounts cfg (cfg.feeTokenPrice / k) b s fee cfg.maxNrExec = .ok (b1, s1) ∧
          PairExec cfg (cfg.feeTokenPrice / k) fee cfg.maxNrExec b s b1 s1 ∧
          (((∀ o ∈ s1, ¬ 0 < o.buy) ∧ r.sol = .trivial) ∨
            ((∃ o ∈ s1, 0 < o.buy) ∧ RoundedTo cfg ext fee [(fee.token, (cfg.feeTokenPrice : ℚ)), (pair.2, (k : ℚ))] (b1 ++ s1) r.sol)) := by
  unfold solveOriented at hr
  rw [bind_eq_ok] at hr
  obtain ⟨⟨xo, b1, s1⟩, h1, hr⟩ := hr
  obtain ⟨x, x0, rfl, hx', hx0, e1, e2, _, e3, e4, e5⟩ := (solveTokenPair_spec h h.limit hx (fun q hq => by cases hq) h1).resolve_left
    (by rintro ⟨_, _, _, h | h⟩ <;> contradiction)
  obtain ⟨k, hk, hk1, _, rfl⟩ := e3 cfg.feeTokenPrice (by unfold effPrice; rw [if_pos hF])
  refine ⟨x0, hx0, e1, e2, k, hk1, hk, b1, s1, e4, e5, ?_⟩
  dsimp only at hr
  by_cases h0 : countNrExec b1 = 0
  · rw [if_pos h0] at hr
    cases hr
    left
    refine ⟨fun o ho hp => ?_, rfl⟩
    obtain ⟨o', ho', hp'⟩ := e5.both.2 ⟨o, ho, hp⟩
    exact not_pos_of_countNrExec h0 o' ho' hp'
  · rw [if_neg h0, if_pos hF, bind_eq_ok] at hr
    obtain ⟨⟨sol, os⟩, h2, hr⟩ := hr
    cases hr
    right
    refine ⟨e5.both.1 (exists_of_countNrExec h0), ?_⟩
    have := aggregateAndRound_roundedTo hx'.ne' h2
    have hP : (cfg.feeTokenPrice : ℚ) ≠ 0 := by have := h.feePrice; exact_mod_cast this.ne'
    have hk0 : (k : ℚ) ≠ 0 := by exact_mod_cast (by omega : k ≠ 0)
    have e : (cfg.feeTokenPrice : ℚ) / (cfg.feeTokenPrice / k) = k := by field_simp
    rw [e, hF] at this
    simpa [dictSet, Ne.symm hF2] using this

/-- A pair without the fee token. -/
theorem solveOriented_main {cfg : Config} {ext : Ext} {pair : Token × Token} {b s f : List Order} {fee : Fee} {xrate : Option ℚ}
    {pool : List Order} {r : MatchResult} (hp : Pool pool) (hc : CfgOk cfg) (hfee : fee.value < 1) (hb : BookOf pool pair fee { b, s, f })
    (hne : pair.1 ≠ pair.2) (hF : pair.1 ≠ fee.token) (hF2 : pair.2 ≠ fee.token) (hbn : b ≠ []) (hsn : s ≠ [])
    (hx : ∀ y, xrate = some y → 0 < y) (hr : solveOriented cfg ext pair b s f fee xrate = .ok r) :
    ∃ x : ℚ, 0 < x ∧ (∀ y, xrate = some y → x = y) ∧ (xrate = none → ∃ v, findBestXrate cfg ext.sqrt b s fee = .ok (some (x, v))) ∧
      ∃ b1 s1, computeBuyAmounts cfg x b s fee cfg.maxNrExec = .ok (b1, s1) ∧ PairExec cfg x fee cfg.maxNrExec b s b1 s1 ∧
        (((∀ o ∈ s1, ¬ 0 < o.buy) ∧ r.sol = .trivial) ∨ ((f = [] ∨ cfg.maxNrExec < 3) ∧ r.sol = .trivial) ∨
          ((∃ o ∈ s1, 0 < o.buy) ∧ f ≠ [] ∧ 3 ≤ cfg.maxNrExec ∧ ∃ ns : List ℕ, ns.Pairwise (· < ·) ∧
            (∀ n : ℕ, n ∈ ns ↔ min (cfg.maxNrExec - nrExecuted b1 - nrExecuted s1 + 1) (min (f.length : ℤ) (cfg.maxNrExec - 2)) ≤ n ∧
              (n : ℤ) ≤ min (f.length : ℤ) (cfg.maxNrExec - 2)) ∧
            ∃ T : ℕ → Py GivenResult, (∀ n, T n = givenExecF cfg ext.sqrt n ((s1.map (soldS x fee)).sum - (b1.map (·.buy)).sum) pair
                { b := b1, s := s1, f := (sortedByExecPriority f).map (fun o => (o.withBuy 0).withSell 0) } x fee) ∧
              (((∀ n ∈ ns, NoPrice T n) ∧ r.sol = .trivial) ∨
                ∃ g p, Chosen T ns g ∧ g.bPrice = some p ∧ GoodMatch cfg fee pair g.books g.xrate p ∧
                  RoundedTo cfg ext fee [(fee.token, (cfg.feeTokenPrice : ℚ)), (pair.1, (p : ℚ)), (pair.2, p / g.xrate)]
                    (g.books.b ++ g.books.s ++ g.books.f) r.sol))) := by
  have h : SearchInput cfg fee b s := hb.search hp hc hfee
  unfold solveOriented at hr
  rw [bind_eq_ok] at hr
  obtain ⟨⟨xo, b1, s1⟩, h1, hr⟩ := hr
  obtain ⟨x, x0, rfl, hy, hx0, e1, e2, e3, _, e4, hex⟩ := (solveTokenPair_spec h h.limit hx (fun q hq => by cases hq) h1).resolve_left
    (by rintro ⟨_, _, _, h | h⟩ <;> contradiction)
  obtain rfl := e3 (by unfold effPrice; rw [if_neg hF])
  refine ⟨x, hy, e1, e2, b1, s1, e4, hex, ?_⟩
  have hsame : BooksSame { b, s, f } { b := b1, s := s1, f } :=
    ⟨forall₂_exec_of_buy hex.sameB, forall₂_exec_of_buy hex.sameS, forall₂_same_refl _⟩
  have hb1 := hb.same hsame
  dsimp only at hr
  by_cases h0 : countNrExec b1 = 0
  · rw [if_pos h0] at hr
    cases hr
    left
    refine ⟨fun o ho hp => ?_, rfl⟩
    obtain ⟨o', ho', hp'⟩ := hex.both.2 ⟨o, ho, hp⟩
    exact not_pos_of_countNrExec h0 o' ho' hp'
  right
  rw [if_neg h0, if_neg hF] at hr
  by_cases hf0 : f.length = 0
  · rw [if_pos hf0] at hr
    cases hr
    exact .inl ⟨.inl (List.length_eq_zero_iff.1 hf0), rfl⟩
  rw [if_neg hf0, bBuyTokenImbalance_eq b1 s1 1 hfee hy.ne', ok_bind, bind_eq_ok] at hr
  obtain ⟨⟨mn, mx⟩, h2, hr⟩ := hr
  obtain ⟨n1, n2, n3⟩ := nrFOrders_spec h2
  dsimp only at hr
  by_cases hm : mn > mx
  · rw [if_pos hm] at hr
    cases hr
    exact .inl ⟨.inr (by omega), rfl⟩
  rw [if_neg hm, bind_eq_ok] at hr
  obtain ⟨st, h3, hr⟩ := hr
  have hperm := sortedByExecPriority_perm f
  have hbS : BookOf pool pair fee { b := b1, s := s1, f := sortedByExecPriority f } :=
    ⟨hb1.derB, hb1.derS, fun o ho => hb1.derF o (hperm.mem_iff.1 ho), hb1.idsB, hb1.idsS, (hperm.map _).nodup_iff.2 hb1.idsF, hb1.clsB,
      hb1.clsS, fun h o ho => hb1.clsF h o (hperm.mem_iff.1 ho)⟩
  have hbn1 : b1 ≠ [] := by rintro rfl; exact h0 rfl
  have hex1 : ∃ o ∈ s1, 0 < o.buy := hex.both.1 (exists_of_countNrExec h0)
  have hsn1 : s1 ≠ [] := by
    obtain ⟨o', ho', _⟩ := hex1
    rintro rfl; simp at ho'
  have hfn : sortedByExecPriority f ≠ [] := by
    intro h; rw [h] at hperm; rw [← hperm.length_eq] at hf0; simp at hf0
  have hns : ∀ n ∈ (List.range (mx + 1 - mn).toNat).map (· + mn.toNat), 1 ≤ n ∧ (n : ℤ) ≤ cfg.maxNrExec := by
    intro n hn
    obtain ⟨i, hi, rfl⟩ := List.mem_map.1 hn
    rw [List.mem_range] at hi
    omega
  obtain ⟨best', ht, ho⟩ := fOrdersLoop_tries hp hc hfee hne hF hF2 hy (bk0 := { b := b1, s := s1, f := sortedByExecPriority f }) hbS hbn1 hsn1 hfn
    hns (BooksSame.refl _) (best := none) (.inl ⟨rfl, rfl⟩) h3
  refine .inr ⟨hex1, by rintro rfl; exact hf0 rfl, by omega, (List.range (mx + 1 - mn).toNat).map (· + mn.toNat), ?_, ?_, _, fun n => rfl, ?_⟩
  · rw [List.pairwise_map]
    exact List.pairwise_lt_range.imp (by intro a b h; omega)
  · intro n
    rw [nrExecuted_eq, nrExecuted_eq, ← n2, List.mem_map]
    constructor
    · rintro ⟨i, hi, rfl⟩
      rw [List.mem_range] at hi
      omega
    · rintro ⟨g1, g2⟩
      exact ⟨n - mn.toNat, by rw [List.mem_range]; omega, by omega⟩
  rcases tries_none ht rfl with ⟨rfl, hno⟩ | ⟨g, rfl, hch⟩
  · left
    rcases ho with ⟨_, e⟩ | ⟨_, _, e, _⟩
    · rw [e] at hr
      cases hr
      exact ⟨hno, rfl⟩
    · cases e
  · right
    rcases ho with ⟨e, _⟩ | ⟨_, g', e, e', hg⟩
    · cases e
    cases e
    have hch' := hch
    obtain ⟨_, n, _, hn, hT, hp0, _⟩ := hch'
    obtain ⟨p, hbp⟩ := Option.ne_none_iff_exists'.1 hp0
    have hnm : n ∈ (List.range (mx + 1 - mn).toNat).map (· + mn.toNat) := by rw [hn]; simp
    have hreset : List.Forall₂ SameButExec (sortedByExecPriority f) ((sortedByExecPriority f).map (fun o => (o.withBuy 0).withSell 0)) := by
      generalize sortedByExecPriority f = l
      induction l with
      | nil => exact .nil
      | cons o l ih => exact .cons rfl ih
    have hgood := (givenExecF_spec hp hc hfee (hbS.same (bk' := { b := b1, s := s1, f := (sortedByExecPriority f).map (fun o => (o.withBuy 0).withSell 0) })
      ⟨forall₂_same_refl _, forall₂_same_refl _, hreset⟩) hne hF hF2 hy hbn1 hsn1 (by simpa using hfn)
      (hns n hnm).1 (hns n hnm).2 (fun o ho => by obtain ⟨a, _, rfl⟩ := List.mem_map.1 ho; rfl) hT).2 p hbp
    rw [e'] at hr
    dsimp only at hr
    rw [← hg.bPrice, hbp] at hr
    dsimp only at hr
    rw [bind_eq_ok] at hr
    obtain ⟨⟨sol, os⟩, h4, hr⟩ := hr
    cases hr
    rw [← hg.xrate, ← aggregateAndRound_rel (bk := g.books) hg.books.b hg.books.s (hg.books.f ▸ relS_refl _)] at h4
    have := aggregateAndRound_roundedTo hgood.ratePos.ne' h4
    refine ⟨g, p, hch, hbp, hgood, ?_⟩
    simpa [dictSet, Ne.symm hF2, Ne.symm hF, hne] using this

end Dex
