import Verif.Model.OrderText
import Verif.Model.Api
import Verif.Props.Number

/-! # C117: what the text of an order tells -/

namespace Dex

theorem cut_at {c : Char} {a a' r r' : List Char} (h : c ∉ a) (h' : c ∉ a') (e : a ++ c :: r = a' ++ c :: r') : a = a' ∧ r = r' := by
  induction a generalizing a' with
  | nil =>
    cases a' with
    | nil => simpa using e
    | cons x a' =>
      simp only [List.nil_append, List.cons_append, List.cons.injEq] at e
      exact absurd (by simp [e.1]) h'
  | cons x a ih =>
    cases a' with
    | nil =>
      simp only [List.nil_append, List.cons_append, List.cons.injEq] at e
      exact absurd (by simp [e.1]) h
    | cons y a' =>
      simp only [List.cons_append, List.cons.injEq] at e
      obtain ⟨h1, h2⟩ := ih (fun m => h (List.mem_cons_of_mem _ m)) (fun m => h' (List.mem_cons_of_mem _ m)) e.2
      exact ⟨by rw [e.1, h1], h2⟩

theorem mem_toString_int {n : ℤ} {c : Char} (h : c ∈ (toString n).toList) : c.isDigit ∨ c = '-' := by
  have e : toString n = n.repr := rfl
  rw [e, Int.repr_eq_if] at h
  split at h
  · rw [Nat.toList_repr] at h
    exact .inl (Nat.isDigit_of_mem_toDigits (by decide) (by decide) h)
  · rw [String.toList_append, Nat.toList_repr] at h
    rcases List.mem_append.1 h with h | h
    · exact .inr (by simpa using h)
    · exact .inl (Nat.isDigit_of_mem_toDigits (by decide) (by decide) h)

theorem mem_pyStrFrac {q : ℚ} {c : Char} (h : c ∈ (pyStrFrac q).toList) : c.isDigit ∨ c = '-' ∨ c = '/' := by
  unfold pyStrFrac at h
  split at h
  · rcases mem_toString_int h with h | h
    · exact .inl h
    · exact .inr (.inl h)
  · rw [String.toList_append, String.toList_append, toList_nat] at h
    rcases List.mem_append.1 h with h | h
    · rcases List.mem_append.1 h with h | h
      · rcases mem_toString_int h with h | h
        · exact .inl h
        · exact .inr (.inl h)
      · exact .inr (.inr (by simpa using h))
    · exact .inl (Nat.isDigit_of_mem_toDigits (by decide) (by decide) h)

theorem notMem_pyStrFrac {c : Char} (hc : c.isDigit = false) (h1 : c ≠ '-') (h2 : c ≠ '/') (q : ℚ) : c ∉ (pyStrFrac q).toList := by
  intro h
  rcases mem_pyStrFrac h with h | h | h
  · rw [hc] at h; cases h
  · exact h1 h
  · exact h2 h

theorem pyStrFrac_injective {q r : ℚ} (h : (pyStrFrac q).toList = (pyStrFrac r).toList) : q = r := by
  have h1 := C91_fraction_round_trip q
  rw [String.toList_injective h, C91_fraction_round_trip] at h1
  exact (Except.ok.inj h1).symm

/-- The text as characters, grouped for reading from the left. -/
theorem text_toList (o : Order) : o.text.toList = '(' :: (o.buyToken.toList ++ ',' :: ' ' :: (o.sellToken.toList ++ ',' :: ' ' ::
    ((pyStrFrac o.maxSell).toList ++ ',' :: ' ' :: ((pyStrFrac o.maxXrate).toList ++ ')' ::
      if o.sell > 0 then ' ' :: '[' :: ((pyStrFrac o.buy).toList ++ ',' :: ' ' :: ((pyStrFrac o.sell).toList ++ [']'])) else [])))) := by
  unfold Order.text
  split <;> simp [String.toList_append]

/-- C117. If no token has a comma in its name, the text of an order tells its tokens, its limits, whether it is executed, and the executed amounts. -/
theorem C117_tells {o o' : Order} (hb : ',' ∉ o.buyToken.toList) (hs : ',' ∉ o.sellToken.toList) (hb' : ',' ∉ o'.buyToken.toList)
    (hs' : ',' ∉ o'.sellToken.toList) (h : o.text = o'.text) :
    o.buyToken = o'.buyToken ∧ o.sellToken = o'.sellToken ∧ o.maxSell = o'.maxSell ∧ o.maxXrate = o'.maxXrate ∧ (0 < o.sell ↔ 0 < o'.sell) ∧
      (0 < o.sell → o.buy = o'.buy ∧ o.sell = o'.sell) := by
  have e := congrArg String.toList h
  rw [text_toList, text_toList] at e
  obtain ⟨e1, e⟩ := cut_at hb hb' (List.cons.inj e).2
  obtain ⟨e2, e⟩ := cut_at hs hs' (List.cons.inj e).2
  obtain ⟨e3, e⟩ := cut_at (notMem_pyStrFrac (by decide) (by decide) (by decide) _) (notMem_pyStrFrac (by decide) (by decide) (by decide) _) (List.cons.inj e).2
  obtain ⟨e4, e⟩ := cut_at (notMem_pyStrFrac (by decide) (by decide) (by decide) _) (notMem_pyStrFrac (by decide) (by decide) (by decide) _) (List.cons.inj e).2
  refine ⟨String.toList_injective e1, String.toList_injective e2, pyStrFrac_injective e3, pyStrFrac_injective e4, ?_, fun hp => ?_⟩
  · by_cases h1 : 0 < o.sell <;> by_cases h2 : 0 < o'.sell <;> simp [h1, h2] at e ⊢
  · by_cases h2 : 0 < o'.sell
    · rw [if_pos hp, if_pos h2] at e
      obtain ⟨e5, e⟩ := cut_at (notMem_pyStrFrac (by decide) (by decide) (by decide) _) (notMem_pyStrFrac (by decide) (by decide) (by decide) _)
        (List.cons.inj (List.cons.inj e).2).2
      exact ⟨pyStrFrac_injective e5, pyStrFrac_injective (List.append_cancel_right (List.cons.inj e).2)⟩
    · rw [if_pos hp, if_neg h2] at e
      cases e

/-- C117. It tells nothing else: orders that agree in these have the same text, whatever their ids, accounts and original limits. -/
theorem C117_only {o o' : Order} (h1 : o.buyToken = o'.buyToken) (h2 : o.sellToken = o'.sellToken) (h3 : o.maxSell = o'.maxSell) (h4 : o.maxXrate = o'.maxXrate)
    (h5 : 0 < o.sell ∨ 0 < o'.sell → o.buy = o'.buy ∧ o.sell = o'.sell) : o.text = o'.text := by
  unfold Order.text
  rw [h1, h2, h3, h4]
  congr 1
  by_cases hp : 0 < o.sell
  · obtain ⟨hb, hs⟩ := h5 (.inl hp)
    rw [hb, hs]
  · by_cases hq : 0 < o'.sell
    · obtain ⟨hb, hs⟩ := h5 (.inr hq)
      rw [hb, hs]
    · rw [if_neg hp, if_neg hq]

/-- C117 (negative). With commas in the names the text is ambiguous. -/
theorem C117_comma : (Order.mk' "A, B" "C" 5 1 none "0").text = (Order.mk' "A" "B, C" 5 1 none "0").text := by decide +kernel

/-- The text of an executed order. -/
example : ((Order.mk' "A" "B" 5 (7 / 2) none "0").withBuy 1).text = "(A, B, 5, 7/2)" ∧
    { (Order.mk' "A" "B" 5 (7 / 2) none "0") with buy := 1, sell := 3 }.text = "(A, B, 5, 7/2) [1, 3]" := by
  constructor <;> decide +kernel

/-- Two orders of an instance with the same text. -/
example : ∃ os, loadOrdersFrom Config.default 0
    [{ accountID := "a", buyToken := "A", sellToken := "B", buyAmount := 10 ^ 18, sellAmount := 10 ^ 18 },
      { accountID := "b", buyToken := "A", sellToken := "B", buyAmount := 10 ^ 18, sellAmount := 10 ^ 18 }] = .ok os ∧
      ∃ o o', os = [o, o'] ∧ o ≠ o' ∧ o.text = o'.text := by
  refine ⟨_, rfl, _, _, rfl, ?_, ?_⟩ <;> decide +kernel

end Dex
