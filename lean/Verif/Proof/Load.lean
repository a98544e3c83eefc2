import Verif.Proof.ClosedForm
import Verif.Spec.Accounts
import Verif.Model.Api

/-! # Lemmas about loading: `restrict_order_sell_amounts_by_balances` -/

namespace Dex

open Spec

theorem accountBalance_eq (accounts : Accounts) (o : Order) :
    accountBalance accounts o.accountId o.sellToken = backing accounts o := by
  unfold accountBalance backing balanceOf
  cases o.accountId with
  | none => rfl
  | some a =>
    simp only [dictGet?]
    cases List.find? (fun p => decide (p.1 = a)) accounts with
    | none => rfl
    | some p =>
      simp only [Option.map_some, Option.bind_some]
      cases List.find? (fun q => decide (q.1 = o.sellToken)) p.2 <;> rfl

theorem backing_nonneg {accounts : Accounts} (h : NonnegBalances accounts) (o : Order) : 0 ≤ backing accounts o := by
  unfold backing
  cases o.accountId with
  | none => exact le_refl _
  | some a =>
    unfold balanceOf
    simp only
    split
    · exact le_refl _
    · rename_i p hp
      split
      · exact le_refl _
      · rename_i q hq
        exact h p (List.mem_of_find?_eq_some hp) q (List.mem_of_find?_eq_some hq)

/-- Key of an order in `remaining_balances`. -/
def balKey (o : Order) : BalKey := (o.accountId, o.sellToken, o.buyToken)

theorem balKey_eq_iff (a b : Order) : balKey a = balKey b ↔ SamePair a b := by
  unfold balKey SamePair; simp

/-- Total maximum sell amount in `P` of the orders with `o`'s key. -/
def used (P : List Order) (o : Order) : ℚ := ((P.filter (fun c => decide (SamePair c o))).map (·.maxSell)).sum

def capOf (accounts : Accounts) (P : List Order) (o : Order) : ℚ :=
  min o.maxSell (max 0 (backing accounts o - used P o))

theorem used_append (P : List Order) (c o : Order) :
    used (P ++ [c]) o = used P o + if SamePair c o then c.maxSell else 0 := by
  unfold used
  rw [List.filter_append, List.map_append, List.sum_append, List.filter_singleton]
  by_cases h : SamePair c o <;> simp [h]

theorem used_nonneg {P : List Order} (h : ∀ o ∈ P, 0 ≤ o.maxSell) (o : Order) : 0 ≤ used P o := by
  unfold used
  apply List.sum_nonneg
  intro x hx
  obtain ⟨c, hc, rfl⟩ := List.mem_map.1 hx
  exact h c (List.mem_filter.1 hc).1

/-- The orders kept from `L` after `P` has been processed. -/
def keepFrom (accounts : Accounts) : List Order → List Order → List Order
  | _, [] => []
  | P, o :: L =>
    (if capOf accounts P o = 0 then [] else [{ o with maxSell := capOf accounts P o }]) ++ keepFrom accounts (P ++ [o]) L

/-- Loop invariant: the remaining balance of every key. -/
def RemOk (accounts : Accounts) (P : List Order) (rem : Dict BalKey ℚ) : Prop :=
  ∀ o : Order, (dictGet? rem (balKey o)).getD (backing accounts o) = max 0 (backing accounts o - used P o)

theorem backing_congr {accounts : Accounts} {a b : Order} (h : SamePair a b) : backing accounts a = backing accounts b := by
  unfold backing; rw [h.1, h.2.1]

theorem Spec.SamePair.symm {a b : Order} (h : SamePair a b) : SamePair b a := ⟨h.1.symm, h.2.1.symm, h.2.2.symm⟩
theorem Spec.SamePair.trans {a b c : Order} (h : SamePair a b) (h' : SamePair b c) : SamePair a c :=
  ⟨h.1.trans h'.1, h.2.1.trans h'.2.1, h.2.2.trans h'.2.2⟩

theorem used_congr {P : List Order} {a b : Order} (h : SamePair a b) : used P a = used P b := by
  unfold used
  congr 2
  apply List.filter_congr
  intro c _
  exact decide_eq_decide.2 ⟨fun h' => h'.trans h, fun h' => h'.trans h.symm⟩

theorem restrictStep_spec {accounts : Accounts} {P out : List Order} {rem : Dict BalKey ℚ} {o : Order}
    (hi : RemOk accounts P rem) (h0 : 0 ≤ o.maxSell) (h1 : o.maxSell ≤ o.origMaxSell) :
    ∃ rem', restrictStep accounts (rem, out) o =
        .ok (rem', out ++ (if capOf accounts P o = 0 then [] else [{ o with maxSell := capOf accounts P o }])) ∧
      RemOk accounts (P ++ [o]) rem' := by
  -- the dict after the lookup
  have hr : ∃ rem1 : Dict BalKey ℚ, initRemaining accounts rem o = rem1 ∧
      RemOk accounts P rem1 ∧ dictGet? rem1 (balKey o) = some (max 0 (backing accounts o - used P o)) := by
    refine ⟨_, rfl, ?_⟩
    unfold initRemaining
    have hkey : ((o.accountId, o.sellToken, o.buyToken) : BalKey) = balKey o := rfl
    rw [hkey]
    cases hk : dictGet? rem (balKey o) with
    | some v =>
      refine ⟨hi, ?_⟩
      have := hi o
      rw [hk] at this
      simp only [Option.getD_some] at this
      simp only; rw [hk, this]
    | none =>
      have ho := hi o
      rw [hk] at ho
      simp only [Option.getD_none] at ho
      simp only [accountBalance_eq]
      refine ⟨?_, ?_⟩
      · intro c
        rw [dictGet?_dictSet]
        split
        · rename_i hc
          have hs := (balKey_eq_iff _ _).1 hc
          simp only [Option.getD_some]
          rw [ho, backing_congr hs, used_congr hs]
        · exact hi c
      · rw [dictGet?_dictSet, if_pos rfl, ← ho]
  obtain ⟨rem1, e1, hi1, hg⟩ := hr
  unfold restrictStep
  have hkey : ((o.accountId, o.sellToken, o.buyToken) : BalKey) = balKey o := rfl
  simp only [hkey, e1]
  rw [dictGet_of hg, ok_bind]
  have hc : min o.maxSell (max 0 (backing accounts o - used P o)) = capOf accounts P o := rfl
  have hm : max 0 (backing accounts o - used P o) - capOf accounts P o =
      max 0 (backing accounts o - used (P ++ [o]) o) := by
    rw [used_append, if_pos ⟨rfl, rfl, rfl⟩, ← hc]
    rcases le_total (backing accounts o - used P o) 0 with h | h
    · rw [max_eq_left h, min_eq_right h0, max_eq_left (by linarith)]; ring
    · rw [max_eq_right h]
      rcases le_total o.maxSell (backing accounts o - used P o) with h' | h'
      · rw [min_eq_left h', max_eq_right (by linarith)]; ring
      · rw [min_eq_right h', max_eq_left (by linarith)]; ring
  split
  · rename_i hz
    rw [hc] at hz
    refine ⟨rem1, by rw [if_pos hz]; simp, ?_⟩
    intro c
    rw [used_append]
    by_cases hs : SamePair o c
    · rw [if_pos hs, ← backing_congr hs, ← used_congr hs, ← (balKey_eq_iff _ _).2 hs, hg]
      simp only [Option.getD_some]
      rw [hz, used_append, if_pos ⟨rfl, rfl, rfl⟩] at hm
      linarith
    · rw [if_neg hs, add_zero]; exact hi1 c
  · rename_i hz
    rw [hc] at hz
    rw [if_neg hz]
    have hpos : o.maxSell > 0 := by
      rcases h0.lt_or_eq with h | h
      · exact h
      · exfalso; apply hz; rw [← hc, ← h]; exact min_eq_left (le_max_left _ _)
    simp only [hc]
    rw [pyAssert_of hpos, ok_bind, pyAssert_of (by rw [hm]; exact le_max_left _ _), ok_bind]
    unfold Order.setMaxSell
    rw [pyAssert_of (le_trans (by rw [← hc]; exact min_le_left _ _) h1)]
    refine ⟨_, rfl, ?_⟩
    intro c
    rw [dictGet?_dictSet]
    by_cases hs : SamePair o c
    · rw [if_pos ((balKey_eq_iff _ _).2 hs), Option.getD_some, hm, backing_congr hs, used_congr hs]
    · rw [if_neg (fun h => hs ((balKey_eq_iff _ _).1 h)), used_append, if_neg hs, add_zero]
      exact hi1 c

theorem restrictLoop_spec {accounts : Accounts} (L : List Order) : ∀ {P out : List Order} {rem : Dict BalKey ℚ},
    RemOk accounts P rem → (∀ o ∈ L, 0 ≤ o.maxSell ∧ o.maxSell ≤ o.origMaxSell) →
    ∃ rem', foldE (restrictStep accounts) (rem, out) L = .ok (rem', out ++ keepFrom accounts P L) := by
  induction L with
  | nil => intro P out rem _ _; exact ⟨rem, by simp [foldE, keepFrom]⟩
  | cons o L ih =>
    intro P out rem hi hL
    obtain ⟨rem1, e1, hi1⟩ := restrictStep_spec (out := out) hi (hL o (by simp)).1 (hL o (by simp)).2
    obtain ⟨rem2, e2⟩ := ih (out := out ++ (if capOf accounts P o = 0 then [] else
      [{ o with maxSell := capOf accounts P o }])) hi1 (fun c hc => hL c (List.mem_cons_of_mem _ hc))
    refine ⟨rem2, ?_⟩
    simp only [foldE]
    rw [e1, ok_bind, e2, keepFrom, List.append_assoc]

theorem restrict_spec {accounts : Accounts} {orders : List Order} (hb : NonnegBalances accounts)
    (h : ∀ o ∈ orders, 0 ≤ o.maxSell ∧ o.maxSell ≤ o.origMaxSell) :
    restrictOrderSellAmounts orders accounts = .ok (keepFrom accounts [] (sortedByExecPriority orders)) := by
  have hi : RemOk accounts [] [] := by
    intro o
    simp only [dictGet?_nil, Option.getD_none, used, List.filter_nil, List.map_nil, List.sum_nil, sub_zero]
    rw [max_eq_right (backing_nonneg hb o)]
  obtain ⟨rem, e⟩ := restrictLoop_spec (accounts := accounts) (sortedByExecPriority orders) (out := []) hi
    (fun o ho => h o ((sortedByExecPriority_perm orders).mem_iff.1 ho))
  unfold restrictOrderSellAmounts
  rw [e]; rfl

theorem mem_keepFrom {accounts : Accounts} (L : List Order) : ∀ {P : List Order} {o' : Order},
    o' ∈ keepFrom accounts P L ↔ ∃ k o, L[k]? = some o ∧ capOf accounts (P ++ L.take k) o ≠ 0 ∧
      o' = { o with maxSell := capOf accounts (P ++ L.take k) o } := by
  induction L with
  | nil => intro P o'; simp [keepFrom]
  | cons c L ih =>
    intro P o'
    rw [keepFrom, List.mem_append, ih]
    constructor
    · rintro (h | ⟨k, o, hk, hne, he⟩)
      · split at h
        · simp at h
        · rename_i hne
          simp only [List.mem_singleton] at h
          exact ⟨0, c, rfl, by simpa using hne, by simpa using h⟩
      · exact ⟨k + 1, o, hk, by simpa using hne, by simpa using he⟩
    · rintro ⟨k, o, hk, hne, he⟩
      cases k with
      | zero =>
        simp only [List.getElem?_cons_zero, Option.some.injEq] at hk
        subst hk
        left
        simp only [List.take_zero, List.append_nil] at hne he
        rw [if_neg hne]; simpa using he
      | succ k =>
        right
        exact ⟨k, o, hk, by simpa using hne, by simpa using he⟩

theorem keepFrom_ids_sublist {accounts : Accounts} (L : List Order) : ∀ {P : List Order},
    ((keepFrom accounts P L).map (·.id)).Sublist (L.map (·.id)) := by
  induction L with
  | nil => intro P; simp [keepFrom]
  | cons c L ih =>
    intro P
    rw [keepFrom, List.map_append]
    split
    · simpa using List.Sublist.cons _ (ih (P := P ++ [c]))
    · simpa using ih (P := P ++ [c])

/-- Total kept for a key. -/
theorem used_keepFrom {accounts : Accounts} (L : List Order) : ∀ {P : List Order} (o : Order),
    (∀ c ∈ L, 0 ≤ c.maxSell) → (∀ c ∈ P, 0 ≤ c.maxSell) →
    used (keepFrom accounts P L) o = max 0 (backing accounts o - used P o) - max 0 (backing accounts o - used (P ++ L) o) := by
  induction L with
  | nil => intro P o _ _; simp [keepFrom, used]
  | cons c L ih =>
    intro P o hL hP
    have hc0 := hL c (by simp)
    have h2 := ih (P := P ++ [c]) o (fun d hd => hL d (List.mem_cons_of_mem _ hd))
      (by intro d hd; rcases List.mem_append.1 hd with hd | hd
          · exact hP d hd
          · rw [List.mem_singleton.1 hd]; exact hc0)
    rw [List.append_assoc, List.singleton_append] at h2
    have hsplit : used (keepFrom accounts P (c :: L)) o =
        (if SamePair c o then capOf accounts P c else 0) + used (keepFrom accounts (P ++ [c]) L) o := by
      rw [keepFrom]
      unfold used
      rw [List.filter_append, List.map_append, List.sum_append]
      congr 1
      split
      · rename_i hz; rw [hz]; simp
      · by_cases hs : SamePair c o
        · have hs' : SamePair ({ c with maxSell := capOf accounts P c } : Order) o := hs
          simp [hs, hs']
        · have hs' : ¬ SamePair ({ c with maxSell := capOf accounts P c } : Order) o := hs
          simp [hs, hs']
    rw [hsplit, h2, used_append]
    by_cases hs : SamePair c o
    · rw [if_pos hs, if_pos hs]
      unfold capOf
      rw [backing_congr hs, used_congr hs]
      rcases le_total (backing accounts o - used P o) 0 with h | h
      · rw [max_eq_left h, min_eq_right hc0, max_eq_left (by linarith : backing accounts o - (used P o + c.maxSell) ≤ 0)]
        ring
      · rw [max_eq_right h]
        rcases le_total c.maxSell (backing accounts o - used P o) with h' | h'
        · rw [min_eq_left h', max_eq_right (by linarith : 0 ≤ backing accounts o - (used P o + c.maxSell))]; ring
        · rw [min_eq_right h', max_eq_left (by linarith : backing accounts o - (used P o + c.maxSell) ≤ 0)]; ring
    · rw [if_neg hs, if_neg hs]; ring_nf

end Dex
