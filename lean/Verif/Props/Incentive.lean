import Verif.Props.Volume
import Verif.Props.Units
import Verif.Props.Viability

/-! # C99: offering more, or accepting a worse rate -/

namespace Dex

namespace Spec

/-- The same order with a limit that is not stricter and an offer that is not smaller. -/
structure Improves (o o' : Order) : Prop where
  id : o'.id = o.id
  rate : o.maxXrate ≤ o'.maxXrate
  offer : o.maxSell ≤ o'.maxSell

/-- The same order with an offer that is not smaller. -/
structure OffersMore (o o' : Order) : Prop where
  id : o'.id = o.id
  rate : o'.maxXrate = o.maxXrate
  offer : o.maxSell ≤ o'.maxSell

end Spec

open Spec

theorem before_improves {o o' a : Order} (h : Improves o o') (hb : Before a o') : Before a o := by
  obtain ⟨h1, h2, h3⟩ := h
  rcases hb with hb | ⟨e, hb⟩
  · exact .inl (lt_of_le_of_lt h2 hb)
  · rcases lt_or_eq_of_le h2 with h4 | h4
    · exact .inl (by rw [gt_iff_lt, e]; exact h4)
    · refine .inr ⟨e.trans h4.symm, ?_⟩
      rcases hb with hb | ⟨hb, hi⟩
      · exact .inl (lt_of_le_of_lt h3 hb)
      · rcases lt_or_eq_of_le h3 with h5 | h5
        · exact .inl (by rw [gt_iff_lt, hb]; exact h5)
        · exact .inr ⟨hb.trans h5.symm, by rw [← h1]; exact hi⟩

theorem not_before_self (o : Order) : ¬ Before o o := by
  rintro (h | ⟨_, h | ⟨_, h⟩⟩)
  · exact lt_irrefl _ h
  · exact lt_irrefl _ h
  · exact absurd h (lt_irrefl _)

section fill

variable {elig : Order → Prop} [DecidablePred elig] {cap : Order → ℚ}

/-- What the orders before `o` take at most. -/
def ahead (elig : Order → Prop) [DecidablePred elig] (cap : Order → ℚ) (l : List Order) (o : Order) : ℚ :=
  ((l.filter (fun a => decide (elig a ∧ Before a o))).map cap).sum

theorem ahead_append (l m : List Order) (o : Order) : ahead elig cap (l ++ m) o = ahead elig cap l o + ahead elig cap m o := by
  unfold ahead; rw [List.filter_append, List.map_append, List.sum_append]

theorem ahead_cons (a : Order) (l : List Order) (o : Order) : ahead elig cap (a :: l) o = (if elig a ∧ Before a o then cap a else 0) + ahead elig cap l o := by
  unfold ahead
  by_cases h : elig a ∧ Before a o
  · rw [List.filter_cons_of_pos (by simpa using h), if_pos h]; simp
  · rw [List.filter_cons_of_neg (by simpa using h), if_neg h]; simp

theorem ahead_le (hcap : ∀ a, elig a → 0 ≤ cap a) {o o' : Order} (l : List Order) (h : ∀ a ∈ l, elig a → Before a o' → Before a o) :
    ahead elig cap l o' ≤ ahead elig cap l o := by
  induction l with
  | nil => exact le_rfl
  | cons a l ih =>
    rw [ahead_cons, ahead_cons]
    have := ih (fun a ha => h a (by simp [ha]))
    by_cases h1 : elig a ∧ Before a o'
    · rw [if_pos h1, if_pos ⟨h1.1, h a (by simp) h1.1 h1.2⟩]; linarith
    · rw [if_neg h1]
      split
      · rename_i h2; have := hcap a h2.1; linarith
      · linarith

theorem ahead_nonneg (hcap : ∀ a, elig a → 0 ≤ cap a) (l : List Order) (o : Order) : 0 ≤ ahead elig cap l o := by
  induction l with
  | nil => exact le_rfl
  | cons a l ih =>
    rw [ahead_cons]
    split
    · rename_i h; have := hcap a h.1; linarith
    · linarith

theorem fillAmount_eq (l : List Order) (t : ℚ) (o : Order) : fillAmount elig cap l t o = if elig o then max 0 (min (cap o) (t - ahead elig cap l o)) else 0 := rfl

/-- At a volume that is not smaller an improved order gets no less. -/
theorem fill_improves (hcap : ∀ a, elig a → 0 ≤ cap a) {o o' : Order} (h : Improves o o') (hel : elig o → elig o') (hc : cap o ≤ cap o') (pre post : List Order)
    {t t' : ℚ} (ht : t ≤ t') : fillAmount elig cap (pre ++ o :: post) t o ≤ fillAmount elig cap (pre ++ o' :: post) t' o' := by
  rw [fillAmount_eq, fillAmount_eq]
  by_cases h1 : elig o
  · rw [if_pos h1, if_pos (hel h1)]
    have e : ahead elig cap (pre ++ o' :: post) o' ≤ ahead elig cap (pre ++ o :: post) o := by
      rw [ahead_append, ahead_append, ahead_cons, ahead_cons, if_neg (fun h => not_before_self _ h.2), if_neg (fun h => not_before_self _ h.2)]
      have h2 := ahead_le hcap (o := o) (o' := o') pre (fun a _ _ hb => before_improves h hb)
      have h3 := ahead_le hcap (o := o) (o' := o') post (fun a _ _ hb => before_improves h hb)
      linarith
    exact max_le_max le_rfl (min_le_min hc (by linarith))
  · rw [if_neg h1]
    split
    · exact le_max_left _ _
    · exact le_rfl

end fill

theorem capB_nonneg {cfg : Config} {x : ℚ} {fee : Fee} (hm : 0 < cfg.minRationalTradable) {o : Order} (h : EligibleB cfg x fee o) : 0 ≤ maxBuyB x fee o := by
  have := h.2.2
  have h2 : (0 : ℚ) < cfg.minRationalTradable := by exact_mod_cast hm
  unfold maxBuyB; linarith

theorem capS_nonneg {cfg : Config} {x : ℚ} {fee : Fee} (hm : 0 < cfg.minRationalTradable) {o : Order} (h : EligibleS cfg x fee o) : 0 ≤ maxBuyS x fee o := by
  have := h.2.2
  have h2 : (0 : ℚ) < cfg.minRationalTradable := by exact_mod_cast hm
  unfold maxBuyS; linarith

theorem improves_B {cfg : Config} {x : ℚ} {fee : Fee} (hx : 0 < x) (hf : fee.value < 1) {o o' : Order} (h : Improves o o') :
    (EligibleB cfg x fee o → EligibleB cfg x fee o') ∧ maxBuyB x fee o ≤ maxBuyB x fee o' := by
  have hφ : 0 ≤ 1 - fee.value := by linarith
  have h1 : o.maxXrate * (1 - fee.value) ≤ o'.maxXrate * (1 - fee.value) := mul_le_mul_of_nonneg_right h.rate hφ
  have h2 : o.maxSell / x * (1 - fee.value) ≤ o'.maxSell / x * (1 - fee.value) := mul_le_mul_of_nonneg_right (div_le_div_of_nonneg_right h.offer hx.le) hφ
  exact ⟨fun e => ⟨e.1.trans h1, e.2.1.trans h.offer, e.2.2.trans h2⟩, h2⟩

theorem improves_S {cfg : Config} {x : ℚ} {fee : Fee} (hx : 0 < x) (hf : fee.value < 1) {o o' : Order} (h : Improves o o') :
    (EligibleS cfg x fee o → EligibleS cfg x fee o') ∧ maxBuyS x fee o ≤ maxBuyS x fee o' := by
  have hφ : 0 ≤ 1 - fee.value := by linarith
  have h1 : o.maxXrate * (1 - fee.value) ≤ o'.maxXrate * (1 - fee.value) := mul_le_mul_of_nonneg_right h.rate hφ
  have h2 : o.maxSell * x * (1 - fee.value) ≤ o'.maxSell * x * (1 - fee.value) := mul_le_mul_of_nonneg_right (mul_le_mul_of_nonneg_right h.offer hx.le) hφ
  exact ⟨fun e => ⟨e.1.trans h1, e.2.1.trans h.offer, e.2.2.trans h2⟩, h2⟩

theorem ExecInput.replaceS {cfg : Config} {x : ℚ} {fee : Fee} {n : ℤ} {b pre post : List Order} {o o' : Order} (h : ExecInput cfg x fee n b (pre ++ o :: post))
    (hid : o'.id = o.id) : ExecInput cfg x fee n b (pre ++ o' :: post) :=
  ⟨h.minPos, h.ratePos, h.feeLt, h.limit, h.idsB, by have := h.idsS; simpa [hid] using this⟩

theorem ExecInput.replaceB {cfg : Config} {x : ℚ} {fee : Fee} {n : ℤ} {s pre post : List Order} {o o' : Order} (h : ExecInput cfg x fee n (pre ++ o :: post) s)
    (hid : o'.id = o.id) : ExecInput cfg x fee n (pre ++ o' :: post) s :=
  ⟨h.minPos, h.ratePos, h.feeLt, h.limit, by have := h.idsB; simpa [hid] using this, h.idsS⟩

/-- The order with a given id in the result. -/
theorem mem_map_id {l : List Order} {f : Order → ℚ} (hn : (l.map (·.id)).Nodup) {o r : Order} (ho : o ∈ l) (hr : r ∈ l.map (fun o => o.withBuy (f o)))
    (hid : r.id = o.id) : r.buy = f o := by
  obtain ⟨a, ha, rfl⟩ := List.mem_map.1 hr
  have : a = o := List.inj_on_of_nodup_map hn ha ho hid
  subst this; rfl

/-- C99. If an order accepts a worse rate or offers more, and the volume executed at the given rate does not go down, the order buys no less. -/
theorem C99_improved_s {cfg : Config} {x : ℚ} {fee : Fee} {n : ℤ} {b pre post b₁ s₁ b₂ s₂ : List Order} {o o' r r' : Order}
    (h : ExecInput cfg x fee n b (pre ++ o :: post)) (hi : Improves o o')
    (h₁ : computeBuyAmounts cfg x b (pre ++ o :: post) fee n = .ok (b₁, s₁)) (h₂ : computeBuyAmounts cfg x b (pre ++ o' :: post) fee n = .ok (b₂, s₂))
    (hv : (s₁.map (·.buy)).sum ≤ (s₂.map (·.buy)).sum) (hr : r ∈ s₁) (hr' : r' ∈ s₂) (hid : r.id = o.id) (hid' : r'.id = o.id) : r.buy ≤ r'.buy := by
  have h' := h.replaceS hi.id
  obtain ⟨t, _, ht, _, e⟩ := C11_closed_form h h₁
  obtain ⟨t', _, ht', _, e'⟩ := C11_closed_form h' h₂
  rw [e] at hr; rw [e'] at hr'
  rw [mem_map_id h.idsS (by simp) hr hid, mem_map_id h'.idsS (by simp) hr' (hid'.trans hi.id.symm)]
  obtain ⟨i1, i2⟩ := improves_S (cfg := cfg) h.ratePos h.feeLt hi
  exact fill_improves (fun a => capS_nonneg h.minPos) hi i1 i2 pre post (by rw [← ht, ← ht']; exact hv)

/-- C99. The same for an order on the other side. -/
theorem C99_improved_b {cfg : Config} {x : ℚ} {fee : Fee} {n : ℤ} {s pre post b₁ s₁ b₂ s₂ : List Order} {o o' r r' : Order}
    (h : ExecInput cfg x fee n (pre ++ o :: post) s) (hi : Improves o o')
    (h₁ : computeBuyAmounts cfg x (pre ++ o :: post) s fee n = .ok (b₁, s₁)) (h₂ : computeBuyAmounts cfg x (pre ++ o' :: post) s fee n = .ok (b₂, s₂))
    (hv : (s₁.map (·.buy)).sum ≤ (s₂.map (·.buy)).sum) (hr : r ∈ b₁) (hr' : r' ∈ b₂) (hid : r.id = o.id) (hid' : r'.id = o.id) : r.buy ≤ r'.buy := by
  have h' := h.replaceB hi.id
  obtain ⟨t, _, ht, e, _⟩ := C11_closed_form h h₁
  obtain ⟨t', _, ht', e', _⟩ := C11_closed_form h' h₂
  rw [e] at hr; rw [e'] at hr'
  rw [mem_map_id h.idsB (by simp) hr hid, mem_map_id h'.idsB (by simp) hr' (hid'.trans hi.id.symm)]
  obtain ⟨i1, i2⟩ := improves_B (cfg := cfg) h.ratePos h.feeLt hi
  have hφ : 0 ≤ (1 - fee.value) / x := div_nonneg (by have := h.feeLt; linarith) h.ratePos.le
  exact fill_improves (fun a => capB_nonneg h.minPos) hi i1 i2 pre post (mul_le_mul_of_nonneg_right (by rw [← ht, ← ht']; exact hv) hφ)

/-! ### An order that is not filled -/

section partial_fill

variable {elig : Order → Prop} [DecidablePred elig] {cap : Order → ℚ}

theorem before_trans {a b c : Order} (h : Before a b) (h' : Before b c) : Before a c := by
  rcases h with h | ⟨e, h⟩ <;> rcases h' with h' | ⟨e', h'⟩
  · exact .inl (lt_trans h' h)
  · exact .inl (by rw [gt_iff_lt, ← e']; exact h)
  · exact .inl (by rw [gt_iff_lt, e]; exact h')
  · refine .inr ⟨e.trans e', ?_⟩
    rcases h with h | ⟨f, h⟩ <;> rcases h' with h' | ⟨f', h'⟩
    · exact .inl (lt_trans h' h)
    · exact .inl (by rw [gt_iff_lt, ← f']; exact h)
    · exact .inl (by rw [gt_iff_lt, f]; exact h')
    · exact .inr ⟨f.trans f', lt_trans h h'⟩

/-- At the same volume, a larger offer of an order that is partially filled changes no amount. -/
theorem fill_more (hcap : ∀ a, elig a → 0 ≤ cap a) {o o' : Order} (h : OffersMore o o') (hel : elig o → elig o') (hc : cap o ≤ cap o') {pre post : List Order}
    (hne : ∀ a ∈ pre ++ post, a.maxXrate ≠ o.maxXrate) {t : ℚ} (hpos : 0 < fillAmount elig cap (pre ++ o :: post) t o)
    (hpart : fillAmount elig cap (pre ++ o :: post) t o < cap o) :
    (∀ a ∈ pre ++ post, fillAmount elig cap (pre ++ o' :: post) t a = fillAmount elig cap (pre ++ o :: post) t a) ∧
      fillAmount elig cap (pre ++ o' :: post) t o' = fillAmount elig cap (pre ++ o :: post) t o := by
  have he : elig o := by
    by_contra he
    rw [fillAmount_eq, if_neg he] at hpos
    exact lt_irrefl _ hpos
  rw [fillAmount_eq, if_pos he] at hpart
  have hlt : t - ahead elig cap (pre ++ o :: post) o < cap o := by
    by_contra hge
    rw [not_lt] at hge
    rw [min_eq_left hge] at hpart
    exact absurd (le_max_right 0 (cap o)) (not_le.2 hpart)
  have hso : ∀ a ∈ pre ++ post, (Before o' a ↔ Before o a) ∧ (Before a o' ↔ Before a o) := by
    intro a ha
    have := hne a ha
    unfold Before
    rw [h.rate]
    constructor
    · constructor <;> rintro (h | ⟨h, _⟩)
      · exact .inl h
      · exact absurd h.symm this
      · exact .inl h
      · exact absurd h.symm this
    · constructor <;> rintro (h | ⟨h, _⟩)
      · exact .inl h
      · exact absurd h this
      · exact .inl h
      · exact absurd h this
  have hcongr : ∀ l : List Order, (∀ a ∈ l, a ∈ pre ++ post) → ahead elig cap l o' = ahead elig cap l o := by
    intro l hl
    unfold ahead
    congr 2
    apply List.filter_congr
    intro a ha
    rw [decide_eq_decide, (hso a (hl a ha)).2]
  have hself : ahead elig cap (pre ++ o' :: post) o' = ahead elig cap (pre ++ o :: post) o := by
    rw [ahead_append, ahead_append, ahead_cons, ahead_cons, if_neg (fun h => not_before_self _ h.2), if_neg (fun h => not_before_self _ h.2),
      hcongr pre (fun a ha => by simp [ha]), hcongr post (fun a ha => by simp [ha])]
  constructor
  · intro a ha
    rw [fillAmount_eq, fillAmount_eq]
    by_cases hea : elig a
    · rw [if_pos hea, if_pos hea]
      by_cases hb : Before o a
      · have key : ahead elig cap (pre ++ o :: post) o + cap o ≤ ahead elig cap (pre ++ o :: post) a := by
          rw [ahead_append, ahead_append, ahead_cons, ahead_cons, if_neg (fun h => not_before_self _ h.2), if_pos ⟨he, hb⟩]
          have h1 := ahead_le hcap (o := a) (o' := o) pre (fun c _ _ hc => before_trans hc hb)
          have h2 := ahead_le hcap (o := a) (o' := o) post (fun c _ _ hc => before_trans hc hb)
          linarith
        have key2 : ahead elig cap (pre ++ o :: post) a ≤ ahead elig cap (pre ++ o' :: post) a := by
          rw [ahead_append, ahead_append, ahead_cons, ahead_cons, if_pos ⟨he, hb⟩, if_pos ⟨hel he, (hso a ha).1.2 hb⟩]
          linarith
        rw [max_eq_left ((min_le_right _ _).trans (by linarith)), max_eq_left ((min_le_right _ _).trans (by linarith))]
      · have : ahead elig cap (pre ++ o' :: post) a = ahead elig cap (pre ++ o :: post) a := by
          rw [ahead_append, ahead_append, ahead_cons, ahead_cons, if_neg (fun h => hb ((hso a ha).1.1 h.2)), if_neg (fun h => hb h.2)]
        rw [this]
    · rw [if_neg hea, if_neg hea]
  · rw [fillAmount_eq, fillAmount_eq, if_pos he, if_pos (hel he), hself, min_eq_right hlt.le, min_eq_right (hlt.le.trans hc)]

end partial_fill

theorem sum_elig_replace {elig : Order → Prop} [DecidablePred elig] {cap : Order → ℚ} {o o' : Order} (pre post : List Order) (he : elig o) (he' : elig o')
    (hc : cap o ≤ cap o') : (((pre ++ o :: post).filter (fun a => decide (elig a))).map cap).sum ≤ (((pre ++ o' :: post).filter (fun a => decide (elig a))).map cap).sum := by
  rw [List.filter_append, List.filter_append, List.filter_cons_of_pos (by simpa using he), List.filter_cons_of_pos (by simpa using he')]
  simp only [List.map_append, List.map_cons, List.sum_append, List.sum_cons]
  linarith

theorem count_replace {f g : Order → ℚ} {o o' : Order} {pre post : List Order} (h : ∀ a ∈ pre ++ post, g a = f a) (ho : g o' = f o) :
    ((pre ++ o' :: post).filter (fun a => decide (0 < g a))).length = ((pre ++ o :: post).filter (fun a => decide (0 < f a))).length := by
  have e : ∀ l : List Order, (∀ a ∈ l, a ∈ pre ++ post) → (l.filter (fun a => decide (0 < g a))) = l.filter (fun a => decide (0 < f a)) := by
    intro l hl
    apply List.filter_congr
    intro a ha
    rw [h a (hl a ha)]
  rw [List.filter_append, List.filter_append, e pre (fun a ha => by simp [ha]), List.length_append, List.length_append, List.filter_cons, List.filter_cons, ho,
    e post (fun a ha => by simp [ha])]
  split <;> simp

/-- C99. If an order was not filled and no other order of its side has the same limit, then it buys no less when it offers more, and no less is exchanged in
all if it bought something. -/
theorem C99_unfilled_s {cfg : Config} {x : ℚ} {fee : Fee} {n : ℤ} {b pre post b₁ s₁ b₂ s₂ : List Order} {o o' r r' : Order}
    (h : ExecInput cfg x fee n b (pre ++ o :: post)) (hi : OffersMore o o') (hne : ∀ a ∈ pre ++ post, a.maxXrate ≠ o.maxXrate)
    (h₁ : computeBuyAmounts cfg x b (pre ++ o :: post) fee n = .ok (b₁, s₁)) (h₂ : computeBuyAmounts cfg x b (pre ++ o' :: post) fee n = .ok (b₂, s₂))
    (hr : r ∈ s₁) (hr' : r' ∈ s₂) (hid : r.id = o.id) (hid' : r'.id = o.id) (hun : r.buy < maxBuyS x fee o) :
    r.buy ≤ r'.buy ∧ (0 < r.buy → (s₁.map (·.buy)).sum ≤ (s₂.map (·.buy)).sum) := by
  have h' := h.replaceS hi.id
  have him : Improves o o' := ⟨hi.id, hi.rate.ge, hi.offer⟩
  have hnn : 0 ≤ r'.buy := ((C08_max_sell h' h₂).2 r' hr').1
  have hvol : 0 < r.buy → (s₁.map (·.buy)).sum ≤ (s₂.map (·.buy)).sum := by
    intro hpos
    obtain ⟨g1, _⟩ := C58_greatest_volume h h₁
    obtain ⟨_, g2⟩ := C58_greatest_volume h' h₂
    obtain ⟨t, _, ht, _, e⟩ := C11_closed_form h h₁
    rw [e] at hr
    have hrb := mem_map_id h.idsS (by simp) hr hid
    obtain ⟨i1, i2⟩ := improves_S (cfg := cfg) h.ratePos h.feeLt him
    rw [hrb] at hpos hun
    obtain ⟨f1, f2⟩ := fill_more (fun a => capS_nonneg h.minPos) hi i1 i2 hne hpos hun
    have he : EligibleS cfg x fee o := by
      by_contra he
      rw [fillAmount_eq, if_neg he] at hpos
      exact lt_irrefl _ hpos
    rw [ht] at g1 ⊢
    refine g2 _ ⟨g1.nonneg, g1.fitB, g1.fitS.trans (sum_elig_replace pre post he (i1 he) i2), ?_, g1.minB, ?_⟩
    · rw [count_replace f1 f2]; exact g1.count
    · intro a ha q hq hq0
      rw [List.mem_append, List.mem_cons] at ha
      by_cases hao : a = o'
      · subst hao
        exact g1.minS o (by simp) q (by rw [hq, f2]) hq0
      · have ha' : a ∈ pre ++ post := by rw [List.mem_append]; tauto
        exact g1.minS a (by rw [List.mem_append, List.mem_cons]; rw [List.mem_append] at ha'; tauto) q (by rw [hq, f1 a ha']) hq0
  refine ⟨?_, hvol⟩
  by_cases hpos : 0 < r.buy
  · exact C99_improved_s h him h₁ h₂ (hvol hpos) hr hr' hid hid'
  · exact (not_lt.1 hpos).trans hnn

/-- C99. The same for an order on the other side. -/
theorem C99_unfilled_b {cfg : Config} {x : ℚ} {fee : Fee} {n : ℤ} {s pre post b₁ s₁ b₂ s₂ : List Order} {o o' r r' : Order}
    (h : ExecInput cfg x fee n (pre ++ o :: post) s) (hi : OffersMore o o') (hne : ∀ a ∈ pre ++ post, a.maxXrate ≠ o.maxXrate)
    (h₁ : computeBuyAmounts cfg x (pre ++ o :: post) s fee n = .ok (b₁, s₁)) (h₂ : computeBuyAmounts cfg x (pre ++ o' :: post) s fee n = .ok (b₂, s₂))
    (hr : r ∈ b₁) (hr' : r' ∈ b₂) (hid : r.id = o.id) (hid' : r'.id = o.id) (hun : r.buy < maxBuyB x fee o) :
    r.buy ≤ r'.buy ∧ (0 < r.buy → (s₁.map (·.buy)).sum ≤ (s₂.map (·.buy)).sum) := by
  have h' := h.replaceB hi.id
  have him : Improves o o' := ⟨hi.id, hi.rate.ge, hi.offer⟩
  have hnn : 0 ≤ r'.buy := ((C08_max_sell h' h₂).1 r' hr').1
  have hvol : 0 < r.buy → (s₁.map (·.buy)).sum ≤ (s₂.map (·.buy)).sum := by
    intro hpos
    obtain ⟨g1, _⟩ := C58_greatest_volume h h₁
    obtain ⟨_, g2⟩ := C58_greatest_volume h' h₂
    obtain ⟨t, _, ht, e, _⟩ := C11_closed_form h h₁
    rw [e] at hr
    have hrb := mem_map_id h.idsB (by simp) hr hid
    obtain ⟨i1, i2⟩ := improves_B (cfg := cfg) h.ratePos h.feeLt him
    rw [hrb] at hpos hun
    obtain ⟨f1, f2⟩ := fill_more (fun a => capB_nonneg h.minPos) hi i1 i2 hne hpos hun
    have he : EligibleB cfg x fee o := by
      by_contra he
      rw [fillAmount_eq, if_neg he] at hpos
      exact lt_irrefl _ hpos
    rw [ht] at g1 ⊢
    refine g2 _ ⟨g1.nonneg, g1.fitB.trans (sum_elig_replace pre post he (i1 he) i2), g1.fitS, ?_, ?_, g1.minS⟩
    · rw [count_replace f1 f2]; exact g1.count
    · intro a ha q hq hq0
      rw [List.mem_append, List.mem_cons] at ha
      by_cases hao : a = o'
      · subst hao
        exact g1.minB o (by simp) q (by rw [hq, f2]) hq0
      · have ha' : a ∈ pre ++ post := by rw [List.mem_append]; tauto
        exact g1.minB a (by rw [List.mem_append, List.mem_cons]; rw [List.mem_append] at ha'; tauto) q (by rw [hq, f1 a ha']) hq0
  refine ⟨?_, hvol⟩
  by_cases hpos : 0 < r.buy
  · exact C99_improved_b h him h₁ h₂ (hvol hpos) hr hr' hid hid'
  · exact (not_lt.1 hpos).trans hnn

/-! ### Orders that get less -/

namespace ExIncentive

/-- Two users on the other side. -/
def bs : List Order := [Order.mk' "B" "S" 11110 2 (some "a") "0", Order.mk' "B" "S" 11110 (3 / 2) (some "b") "1"]

/-- The user in question, offering `m` at the limit `l`. -/
def o (m l : ℚ) : Order := Order.mk' "S" "B" m l (some "c") "2"

/-- Another user on the same side. -/
def other : Order := Order.mk' "S" "B" 10100 (3 / 2) (some "d") "3"

/-- A market for S and the fee token: two users offer 11110 S, user `d` offers 10100 F, and user `c` offers `sell` F for at least `buy` S. -/
def inst (sell buy : ℚ) : Instance where
  accounts := [("a", [("S", 10 ^ 9)]), ("b", [("S", 10 ^ 9)]), ("c", [("F", 10 ^ 9)]), ("d", [("F", 10 ^ 9)])]
  fee := { token := "F", value := 1 / 1000 }
  orders := [ { accountID := "a", buyToken := "F", sellToken := "S", buyAmount := 10000, sellAmount := 11110 },
    { accountID := "b", buyToken := "F", sellToken := "S", buyAmount := 10000, sellAmount := 11110 },
    { accountID := "c", buyToken := "S", sellToken := "F", buyAmount := buy, sellAmount := sell },
    { accountID := "d", buyToken := "S", sellToken := "F", buyAmount := 10000, sellAmount := 10100 } ]

noncomputable def ext : Ext := { ExVia.ext with sqrt := ExDouble.sqrt }

/-- What a user buys and sells in the solution. -/
def trades (d : Dump) (u : AccountId) : List (Option ℚ × Option ℚ) := (d.orders.filter (fun o => o.accountID = u)).map (fun o => (o.execBuyAmount, o.execSellAmount))

end ExIncentive

/-- C99. In general an order that offers more can sell less: offering 12120 it is filled together with the other order; offering 13130 it buys 11110. The
other order would then be left with less than the minimum, and without it so would one of the other side. -/
theorem C99_more_offered_sells_less : let o := ExIncentive.o 12120 2; let o' := ExIncentive.o 13130 2
    OffersMore o o' ∧ ExecInput Config.default 1 Ex.fee 30 ExIncentive.bs ([] ++ o :: [ExIncentive.other]) ∧ ∃ r r',
      computeBuyAmounts Config.default 1 ExIncentive.bs ([] ++ o :: [ExIncentive.other]) Ex.fee 30 = .ok r ∧
      computeBuyAmounts Config.default 1 ExIncentive.bs ([] ++ o' :: [ExIncentive.other]) Ex.fee 30 = .ok r' ∧
      r.2.map (fun o => (o.id, o.buy)) = [("2", 12107.88), ("3", 10089.9)] ∧ r'.2.map (fun o => (o.id, o.buy)) = [("2", 11110), ("3", 0)] := by
  intro o o'
  obtain ⟨r, h1, h2⟩ := exists_of_pyCheck (x := computeBuyAmounts Config.default 1 ExIncentive.bs ([] ++ o :: [ExIncentive.other]) Ex.fee 30)
    (p := fun r : List Order × List Order => r.2.map (fun o => (o.id, o.buy)) = [("2", 12107.88), ("3", 10089.9)]) (by decide +kernel)
  obtain ⟨r', h3, h4⟩ := exists_of_pyCheck (x := computeBuyAmounts Config.default 1 ExIncentive.bs ([] ++ o' :: [ExIncentive.other]) Ex.fee 30)
    (p := fun r : List Order × List Order => r.2.map (fun o => (o.id, o.buy)) = [("2", 11110), ("3", 0)]) (by decide +kernel)
  exact ⟨by constructor <;> decide +kernel, by constructor <;> decide +kernel, r, r', h1, h3, h2, h4⟩

/-- C99. Nor does accepting a worse rate always help: with the lower priority the order is partially filled after the other one, with the higher priority it
sells less. -/
theorem C99_better_limit_sells_less : let o := ExIncentive.o 20200 (5 / 4); let o' := ExIncentive.o 20200 2
    Improves o o' ∧ ExecInput Config.default 1 Ex.fee 30 ExIncentive.bs ([] ++ o :: [ExIncentive.other]) ∧ ∃ r r',
      computeBuyAmounts Config.default 1 ExIncentive.bs ([] ++ o :: [ExIncentive.other]) Ex.fee 30 = .ok r ∧
      computeBuyAmounts Config.default 1 ExIncentive.bs ([] ++ o' :: [ExIncentive.other]) Ex.fee 30 = .ok r' ∧
      r.2.map (fun o => (o.id, o.buy)) = [("2", 12130.1), ("3", 10089.9)] ∧ r'.2.map (fun o => (o.id, o.buy)) = [("2", 11110), ("3", 0)] := by
  intro o o'
  obtain ⟨r, h1, h2⟩ := exists_of_pyCheck (x := computeBuyAmounts Config.default 1 ExIncentive.bs ([] ++ o :: [ExIncentive.other]) Ex.fee 30)
    (p := fun r : List Order × List Order => r.2.map (fun o => (o.id, o.buy)) = [("2", 12130.1), ("3", 10089.9)]) (by decide +kernel)
  obtain ⟨r', h3, h4⟩ := exists_of_pyCheck (x := computeBuyAmounts Config.default 1 ExIncentive.bs ([] ++ o' :: [ExIncentive.other]) Ex.fee 30)
    (p := fun r : List Order × List Order => r.2.map (fun o => (o.id, o.buy)) = [("2", 11110), ("3", 0)]) (by decide +kernel)
  exact ⟨by constructor <;> decide +kernel, by constructor <;> decide +kernel, r, r', h1, h3, h2, h4⟩

/-- C99. It also happens to the programs with the default configuration, with the rate they find: user `c` gets 12118 S for 12118 F when offering 12120 F, and
11109 S for 11220 F, less and at a worse rate, when offering 13332 F with the same limit. -/
theorem C99_program : let i := ExIncentive.inst 12120 10000; let i' := ExIncentive.inst 13332 11000
    CfgOk Config.default ∧ (∀ E, MaxBranching E (ExIncentive.ext.branch E)) ∧ GoodInstance i ∧ GoodInstance i' ∧ (12120 / 10000 : ℚ) = 13332 / 11000 ∧
    ∃ d d', tokenPairMain Config.default ExIncentive.ext i ("F", "S") none = .ok d ∧ tokenPairMain Config.default ExIncentive.ext i' ("F", "S") none = .ok d' ∧
      ExIncentive.trades d "c" = [(some 12118, some 12118)] ∧ ExIncentive.trades d' "c" = [(some 11109, some 11220)] := by
  intro i i'
  obtain ⟨d, h1, h2⟩ := exists_of_pyCheck (x := tokenPairMain Config.default ExIncentive.ext i ("F", "S") none)
    (p := fun d : Dump => ExIncentive.trades d "c" = [(some 12118, some 12118)]) (by decide +kernel)
  obtain ⟨d', h3, h4⟩ := exists_of_pyCheck (x := tokenPairMain Config.default ExIncentive.ext i' ("F", "S") none)
    (p := fun d : Dump => ExIncentive.trades d "c" = [(some 11109, some 11220)]) (by decide +kernel)
  exact ⟨by constructor <;> decide, ExVia.branch_max, by constructor <;> decide +kernel, by constructor <;> decide +kernel, by norm_num, d, d', h1, h3, h2, h4⟩

/-- Non-vacuity: an order that is not filled, offering more, alone on its side. -/
example : let o := ExIncentive.o 20200 (5 / 4); let o' := ExIncentive.o 30300 (5 / 4)
    OffersMore o o' ∧ Improves o o' ∧ ExecInput Config.default 1 Ex.fee 30 ExIncentive.bs ([ExIncentive.other] ++ o :: []) ∧
      (∀ a ∈ [ExIncentive.other] ++ [], a.maxXrate ≠ o.maxXrate) ∧ ∃ r, computeBuyAmounts Config.default 1 ExIncentive.bs ([ExIncentive.other] ++ o :: []) Ex.fee 30 = .ok r ∧
      ∃ c ∈ r.2, c.id = o.id ∧ 0 < c.buy ∧ c.buy < maxBuyS 1 Ex.fee o := by
  intro o o'
  obtain ⟨r, h1, h2⟩ := exists_of_pyCheck (x := computeBuyAmounts Config.default 1 ExIncentive.bs ([ExIncentive.other] ++ o :: []) Ex.fee 30)
    (p := fun r : List Order × List Order => ∃ c ∈ r.2, c.id = o.id ∧ 0 < c.buy ∧ c.buy < maxBuyS 1 Ex.fee o) (by decide +kernel)
  exact ⟨by constructor <;> decide +kernel, by constructor <;> decide +kernel, by constructor <;> decide +kernel, by decide +kernel, r, h1, h2⟩

end Dex
