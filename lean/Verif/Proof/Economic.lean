import Verif.Proof.MatchRound

/-! # The matching step and the economic-viability loop -/

namespace Dex

open Spec

/-- The solution is trivial or meets the auction rules up to fees and accounts. -/
def SolOk (cfg : Config) (fee : Fee) (pool : List Order) (sol : Solution) : Prop := sol = .trivial ∨ GoodSolution cfg fee pool sol

theorem nrFOrders_spec {cfg : Config} {b s f : List Order} {mn mx : ℤ} (h : nrFOrders cfg b s f = .ok (mn, mx)) :
    (countNrExec b : ℤ) + countNrExec s ≤ cfg.maxNrExec ∧ mx = min (f.length : ℤ) (cfg.maxNrExec - 2) ∧
      mn = max (min (cfg.maxNrExec - countNrExec b - countNrExec s + 1) mx) 1 := by
  unfold nrFOrders at h
  simp only [bind_eq_ok, pyAssert_eq_ok, exists_and_left, exists_const] at h
  obtain ⟨h1, h2⟩ := h
  cases h2
  exact ⟨h1, rfl, rfl⟩

theorem solveOriented_spec {cfg : Config} {ext : Ext} {pair : Token × Token} {b s f : List Order} {fee : Fee} {xrate : Option ℚ}
    {pool : List Order} {r : MatchResult} (hp : Pool pool) (hc : CfgOk cfg) (hfee : fee.value < 1) (hb : BookOf pool pair fee { b, s, f })
    (hne : pair.1 ≠ pair.2) (hF2 : pair.2 ≠ fee.token) (hbr : ∀ E, MaxBranching E (ext.branch E)) (hx : ∀ y, xrate = some y → 0 < y)
    (hr : solveOriented cfg ext pair b s f fee xrate = .ok r) :
    BooksSame { b, s, f } r.books ∧ SolOk cfg fee pool r.sol := by
  unfold solveOriented at hr
  rw [bind_eq_ok] at hr
  obtain ⟨⟨xo, b1, s1⟩, h1, hr⟩ := hr
  have hsearch : SearchInput cfg fee b s := hb.search hp hc hfee
  have hsame : BooksSame { b, s, f } { b := b1, s := s1, f } := by
    rcases solveTokenPair_spec hsearch hc.limit hx (fun q hq => by cases hq) h1 with ⟨_, rfl, rfl, _⟩ | ⟨_, _, _, _, _, _, _, _, _, _, hex⟩
    · exact BooksSame.refl _
    · exact ⟨forall₂_exec_of_buy hex.sameB, forall₂_exec_of_buy hex.sameS, forall₂_same_refl _⟩
  have hb1 := hb.same hsame
  dsimp only at hr
  by_cases h0 : countNrExec b1 = 0
  · rw [if_pos h0] at hr
    cases hr
    exact ⟨hsame, .inl rfl⟩
  rw [if_neg h0] at hr
  cases xo with
  | none => cases hr
  | some x =>
    dsimp only at hr
    obtain ⟨y, x0, e0, hy, _, _, _, _, hpr, _, hex⟩ := (solveTokenPair_spec hsearch hc.limit hx (fun q hq => by cases hq) h1).resolve_left
      (by rintro ⟨h, _⟩; cases h)
    cases e0
    by_cases hF : pair.1 = fee.token
    · rw [if_pos hF, bind_eq_ok] at hr
      obtain ⟨⟨sol, os⟩, h2, hr⟩ := hr
      cases hr
      obtain ⟨q, _, hq1, _, hq⟩ := hpr cfg.feeTokenPrice (by unfold effPrice; rw [if_pos hF])
      have hbA : BookOf pool pair fee { b := b1, s := s1, f := [] } :=
        ⟨hb1.derB, hb1.derS, by simp, hb1.idsB, hb1.idsS, by simp, hb1.clsB, hb1.clsS, by simp⟩
      have hgood : GoodMatch cfg fee pair { b := b1, s := s1, f := [] } x cfg.feeTokenPrice := by
        refine ⟨hy, ⟨cfg.feeTokenPrice, hc.feePrice, rfl⟩, ⟨q, hq1, hq⟩, hex.exB, hex.exS, by simp, ?_, hex.both, .inl ⟨hF, rfl, rfl⟩⟩
        have := hex.count
        simpa [countNrExec] using this
      obtain ⟨g1, g2⟩ := aggregateAndRound_spec hp hc hfee hbA hne hF2 hbr hgood h2
      simp only [List.append_nil] at g1
      have hos : ∀ o ∈ os, Der pool o := der_forall₂ (by
        intro o ho
        rcases List.mem_append.1 ho with h | h
        · exact hb1.derB o h
        · exact hb1.derS o h) g1
      exact ⟨hsame.trans ⟨writeBack_same hp hb1.derB hos, writeBack_same hp hb1.derS hos, forall₂_same_refl _⟩, g2⟩
    rw [if_neg hF] at hr
    by_cases hf0 : f.length = 0
    · rw [if_pos hf0] at hr
      cases hr
      exact ⟨hsame, .inl rfl⟩
    rw [if_neg hf0, bind_eq_ok] at hr
    obtain ⟨imb, _, hr⟩ := hr
    rw [bind_eq_ok] at hr
    obtain ⟨⟨mn, mx⟩, h2, hr⟩ := hr
    obtain ⟨n1, n2, n3⟩ := nrFOrders_spec h2
    dsimp only at hr
    by_cases hm : mn > mx
    · rw [if_pos hm] at hr
      cases hr
      exact ⟨hsame, .inl rfl⟩
    rw [if_neg hm, bind_eq_ok] at hr
    obtain ⟨st, h3, hr⟩ := hr
    have hperm := sortedByExecPriority_perm f
    have hbS : BookOf pool pair fee { b := b1, s := s1, f := sortedByExecPriority f } :=
      ⟨hb1.derB, hb1.derS, fun o ho => hb1.derF o (hperm.mem_iff.1 ho), hb1.idsB, hb1.idsS, (hperm.map _).nodup_iff.2 hb1.idsF, hb1.clsB,
        hb1.clsS, fun h o ho => hb1.clsF h o (hperm.mem_iff.1 ho)⟩
    have hbn : b1 ≠ [] := by rintro rfl; exact h0 rfl
    have hsn : s1 ≠ [] := by
      obtain ⟨o, ho, hpos⟩ := exists_of_countNrExec h0
      obtain ⟨o', ho', _⟩ := hex.both.1 ⟨o, ho, hpos⟩
      rintro rfl; simp at ho'
    have hfn : sortedByExecPriority f ≠ [] := by
      intro h; rw [h] at hperm; rw [← hperm.length_eq] at hf0; simp at hf0
    obtain ⟨l1, l2⟩ := fOrdersLoop_spec hp hc hfee hne hF hF2 hy (bk0 := { b := b1, s := s1, f := sortedByExecPriority f }) hbS hbn hsn hfn
      (by
        intro n hn
        obtain ⟨i, hi, rfl⟩ := List.mem_map.1 hn
        rw [List.mem_range] at hi
        omega) (BooksSame.refl _) (by intro g hg; cases hg) h3
    have hbst := hbS.same l1
    have hbooks : BooksSame { b, s, f } { st.books with f := writeBack f st.books.f } :=
      hsame.trans ⟨l1.b, l1.s, writeBack_same hp hb1.derF hbst.derF⟩
    cases hbest : st.best with
    | none =>
      rw [hbest] at hr
      cases hr
      exact ⟨hbooks, .inl rfl⟩
    | some best =>
      rw [hbest] at hr
      dsimp only at hr
      obtain ⟨g1, g2⟩ := l2 best hbest
      cases hbp : best.bPrice with
      | none =>
        rw [hbp] at hr
        cases hr
        exact ⟨hbooks, .inl rfl⟩
      | some p =>
        rw [hbp] at hr
        dsimp only at hr
        rw [bind_eq_ok] at hr
        obtain ⟨⟨sol, os⟩, h4, hr⟩ := hr
        cases hr
        exact ⟨hbooks, (aggregateAndRound_spec hp hc hfee (hbS.same g1) hne hF2 hbr (g2 p hbp) h4).2⟩

theorem prune_sublist {b s b' s' : List Order} {fee : Fee} (h : pruneUnrealizable b s fee = .ok (b', s')) : b'.Sublist b ∧ s'.Sublist s := by
  unfold pruneUnrealizable at h
  simp only [bind_eq_ok] at h
  obtain ⟨_, _, _, _, b1, h1, s1, h2, e⟩ := h
  cases e
  exact ⟨filterE_sublist h1, filterE_sublist h2⟩

theorem BookOf.sub {pool : List Order} {pair : Token × Token} {fee : Fee} {bk : Books} {b s f : List Order} (h : BookOf pool pair fee bk)
    (h1 : b.Sublist bk.b) (h2 : s.Sublist bk.s) (h3 : f.Sublist bk.f) : BookOf pool pair fee { b, s, f } :=
  ⟨fun o ho => h.derB o (h1.subset ho), fun o ho => h.derS o (h2.subset ho), fun o ho => h.derF o (h3.subset ho),
    h.idsB.sublist (h1.map _), h.idsS.sublist (h2.map _), h.idsF.sublist (h3.map _), fun o ho => h.clsB o (h1.subset ho),
    fun o ho => h.clsS o (h2.subset ho), fun hne o ho => h.clsF hne o (h3.subset ho)⟩

/-- `solve_token_pair_and_fee_token`. -/
theorem solveTokenPairAndFee_spec {cfg : Config} {ext : Ext} {pair : Token × Token} {b s f : List Order} {fee : Fee} {xrate : Option ℚ}
    {pool : List Order} {r : MatchResult} (hp : Pool pool) (hc : CfgOk cfg) (hfee : fee.value < 1) (hb : BookOf pool pair fee { b, s, f })
    (hne : pair.1 ≠ pair.2) (hbr : ∀ E, MaxBranching E (ext.branch E)) (hx : ∀ y, xrate = some y → 0 < y)
    (hr : solveTokenPairAndFee cfg ext pair b s f fee xrate = .ok r) :
    BooksSame { b, s, f } r.books ∧ SolOk cfg fee pool r.sol := by
  unfold solveTokenPairAndFee at hr
  rw [bind_eq_ok] at hr
  obtain ⟨⟨b1, s1⟩, h1, hr⟩ := hr
  obtain ⟨sb, ss⟩ := prune_sublist h1
  have hb1 := hb.sub sb ss (List.Sublist.refl _)
  dsimp only at hr
  split at hr
  · cases hr
    exact ⟨BooksSame.refl _, .inl rfl⟩
  split at hr
  · rename_i hF
    rw [bind_eq_ok] at hr
    obtain ⟨r1, h2, hr⟩ := hr
    cases hr
    have hsw : BookOf pool (pair.2, pair.1) fee { b := s1, s := b1, f } :=
      ⟨hb1.derS, hb1.derB, hb1.derF, hb1.idsS, hb1.idsB, hb1.idsF, hb1.clsS, hb1.clsB, fun h => absurd hF h⟩
    obtain ⟨g1, g2⟩ := solveOriented_spec hp hc hfee hsw (Ne.symm hne) (by rw [← hF]; exact hne) hbr hx h2
    have hbr := hsw.same g1
    exact ⟨⟨writeBack_same hp hb.derB hbr.derS, writeBack_same hp hb.derS hbr.derB, g1.f⟩, g2⟩
  · rename_i hF
    rw [bind_eq_ok] at hr
    obtain ⟨r1, h2, hr⟩ := hr
    cases hr
    obtain ⟨g1, g2⟩ := solveOriented_spec hp hc hfee hb1 hne hF hbr hx h2
    have hbr := hb1.same g1
    exact ⟨⟨writeBack_same hp hb.derB hbr.derB, writeBack_same hp hb.derS hbr.derS, g1.f⟩, g2⟩

/-- The `while` loop. -/
theorem economicLoop_spec {cfg : Config} {ext : Ext} {pair : Token × Token} {fee : Fee} {xrate : Option ℚ}
    {pool : List Order} (hp : Pool pool) (hc : CfgOk cfg) (hfee : fee.value < 1)
    (hne : pair.1 ≠ pair.2) (hbr : ∀ E, MaxBranching E (ext.branch E)) (hx : ∀ y, xrate = some y → 0 < y)
    {fuel : ℕ} {bk : Books} {gone : List Order} {cur sol : Solution} {objs : List Order} (hb : BookOf pool pair fee bk)
    (hg : ∀ o ∈ gone, Der pool o) (hcur : SolOk cfg fee pool cur)
    (hr : economicLoop cfg ext pair fee xrate fuel bk gone cur = .ok (sol, objs)) :
    SolOk cfg fee pool sol ∧ ∀ o ∈ objs, Der pool o := by
  have hall : ∀ {bk : Books} {gone : List Order}, BookOf pool pair fee bk → (∀ o ∈ gone, Der pool o) →
      ∀ o ∈ bk.b ++ bk.s ++ bk.f ++ gone, Der pool o := by
    intro bk gone h hg o ho
    simp only [List.mem_append] at ho
    rcases ho with ((ho | ho) | ho) | ho
    · exact h.derB o ho
    · exact h.derS o ho
    · exact h.derF o ho
    · exact hg o ho
  induction fuel generalizing bk gone cur with
  | zero => cases hr
  | succ fuel ih =>
    unfold economicLoop at hr
    split at hr
    · rw [bind_eq_ok] at hr
      obtain ⟨r, h1, hr⟩ := hr
      obtain ⟨g1, g2⟩ := solveTokenPairAndFee_spec hp hc hfee (b := bk.b) (s := bk.s) (f := bk.f) hb hne hbr hx h1
      have hbk : BookOf pool pair fee r.books := BookOf.same (bk := { b := bk.b, s := bk.s, f := bk.f }) hb g1
      dsimp only at hr
      rw [bind_eq_ok] at hr
      obtain ⟨v, _, hr⟩ := hr
      split at hr
      · cases hr
        exact ⟨g2, hall hbk hg⟩
      · rw [bind_eq_ok] at hr
        obtain ⟨sub, _, hr⟩ := hr
        split at hr
        · cases hr
          exact ⟨.inl rfl, hall hbk hg⟩
        · simp only [bind_eq_ok] at hr
          obtain ⟨bm, hbm, sm, hsm, pb, _, ps, _, hr⟩ := hr
          have mb : bm ∈ r.books.b := List.mem_of_mem_filter (pyMinBy_spec hbm).1
          have ms : sm ∈ r.books.s := List.mem_of_mem_filter (pyMinBy_spec hsm).1
          split at hr
          · refine ih (hbk.sub List.filter_sublist (List.Sublist.refl _) (List.Sublist.refl _)) ?_ g2 hr
            intro o ho
            rcases List.mem_cons.1 ho with rfl | ho
            · exact hbk.derB _ mb
            · exact hg o ho
          · refine ih (hbk.sub (List.Sublist.refl _) List.filter_sublist (List.Sublist.refl _)) ?_ g2 hr
            intro o ho
            rcases List.mem_cons.1 ho with rfl | ho
            · exact hbk.derS _ ms
            · exact hg o ho
    · cases hr
      exact ⟨hcur, hall hb hg⟩

end Dex
