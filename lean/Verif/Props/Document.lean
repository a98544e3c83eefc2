import Verif.Props.Volume
import Verif.Props.Global

/-! # C74: what the project's own description of the algorithm claims (doc/token_pair/token_pair.lyx) -/

namespace Dex

open Spec

/-! ### Greedy fills of one side at two volumes -/

private theorem sum_ite_mono {l : List Order} {cap : Order → ℚ} {P Q : Order → Prop} [DecidablePred P] [DecidablePred Q]
    (hpos : ∀ c ∈ l, Q c → 0 ≤ cap c) (hsub : ∀ c ∈ l, P c → Q c) :
    ((l.filter (fun c => decide (P c))).map cap).sum ≤ ((l.filter (fun c => decide (Q c))).map cap).sum := by
  induction l with
  | nil => simp
  | cons c l ih =>
    have ih := ih (fun d hd => hpos d (List.mem_cons_of_mem _ hd)) (fun d hd => hsub d (List.mem_cons_of_mem _ hd))
    have h1 := hpos c List.mem_cons_self
    have h2 := hsub c List.mem_cons_self
    by_cases hq : Q c
    · have := h1 hq
      by_cases hp : P c
      · simp only [List.filter_cons, hq, hp, decide_true, if_true, List.map_cons, List.sum_cons]; linarith
      · simp only [List.filter_cons, hq, hp, decide_true, decide_false, if_true, List.map_cons, List.sum_cons,
          Bool.false_eq_true, if_false]; linarith
    · have hp : ¬ P c := fun hp => hq (h2 hp)
      simp only [List.filter_cons, hq, hp, decide_false, Bool.false_eq_true, if_false]; exact ih

private theorem sum_ite_add {l : List Order} {cap : Order → ℚ} {P Q : Order → Prop} [DecidablePred P] [DecidablePred Q]
    {a : Order} (ha : a ∈ l) (hpos : ∀ c ∈ l, Q c → 0 ≤ cap c) (hsub : ∀ c ∈ l, P c → Q c) (hP : ¬ P a) (hQ : Q a) :
    ((l.filter (fun c => decide (P c))).map cap).sum + cap a ≤ ((l.filter (fun c => decide (Q c))).map cap).sum := by
  induction l with
  | nil => simp at ha
  | cons c l ih =>
    have p' : ∀ d ∈ l, Q d → 0 ≤ cap d := fun d hd => hpos d (List.mem_cons_of_mem _ hd)
    have s' : ∀ d ∈ l, P d → Q d := fun d hd => hsub d (List.mem_cons_of_mem _ hd)
    rcases List.mem_cons.1 ha with rfl | ha'
    · have := sum_ite_mono (cap := cap) p' s'
      simp only [List.filter_cons, hQ, hP, decide_true, decide_false, if_true, List.map_cons, List.sum_cons,
          Bool.false_eq_true, if_false]; linarith
    · have ih := ih ha' p' s'
      have h1 := hpos c List.mem_cons_self
      have h2 := hsub c List.mem_cons_self
      by_cases hq : Q c
      · have := h1 hq
        by_cases hp : P c
        · simp only [List.filter_cons, hq, hp, decide_true, if_true, List.map_cons, List.sum_cons]; linarith
        · simp only [List.filter_cons, hq, hp, decide_true, decide_false, if_true, List.map_cons, List.sum_cons,
            Bool.false_eq_true, if_false]; linarith
      · have hp : ¬ P c := fun hp => hq (h2 hp)
        simp only [List.filter_cons, hq, hp, decide_false, Bool.false_eq_true, if_false]; exact ih

private theorem not_before_self (a : Order) : ¬ Before a a := fun h => h.asymm h

/-- Raising the volume up to the end of an order that is being filled executes the same orders, none of them less. -/
private theorem fill_raise {elig : Order → Prop} [DecidablePred elig] {cap : Order → ℚ} {l : List Order} {T T' : ℚ} {a : Order}
    (hpos : ∀ c ∈ l, elig c → 0 < cap c) (hn : (l.map (·.id)).Nodup) (ha : a ∈ l) (hel : elig a)
    (hT : 0 < fillAmount elig cap l T a) (hle : T ≤ T')
    (hT' : T' ≤ ((l.filter (fun c => decide (elig c ∧ Before c a))).map cap).sum + cap a) :
    T' ≤ ((l.filter (fun c => decide (elig c))).map cap).sum ∧
    ∀ o ∈ l, fillAmount elig cap l T o ≤ fillAmount elig cap l T' o ∧
      (0 < fillAmount elig cap l T' o ↔ 0 < fillAmount elig cap l T o) := by
  constructor
  · exact hT'.trans (sum_ite_add ha (fun c hc hq => (hpos c hc hq).le) (fun c _ hc => hc.1)
      (fun hc => not_before_self a hc.2) hel)
  · intro o ho
    have hmono : fillAmount elig cap l T o ≤ fillAmount elig cap l T' o := by
      unfold fillAmount
      split
      · exact max_le_max le_rfl (min_le_min le_rfl (by linarith))
      · exact le_rfl
    refine ⟨hmono, ?_, fun hp => lt_of_lt_of_le hp hmono⟩
    intro hp
    have hTa : ((l.filter (fun c => decide (elig c ∧ Before c a))).map cap).sum < T := by
      unfold fillAmount at hT
      rw [if_pos hel] at hT
      have := lt_max_iff.1 hT
      rcases this with h | h
      · exact absurd h (lt_irrefl _)
      · have := (lt_min_iff.1 h).2; linarith
    have heo : elig o := by
      by_contra hno
      unfold fillAmount at hp
      rw [if_neg hno] at hp
      exact lt_irrefl _ hp
    have hTo : ((l.filter (fun c => decide (elig c ∧ Before c o))).map cap).sum < T' := by
      unfold fillAmount at hp
      rw [if_pos heo] at hp
      rcases lt_max_iff.1 hp with h | h
      · exact absurd h (lt_irrefl _)
      · have := (lt_min_iff.1 h).2; linarith
    unfold fillAmount
    rw [if_pos heo]
    refine lt_max_of_lt_right (lt_min (hpos o ho heo) ?_)
    by_cases hid : a.id = o.id
    · have : a = o := List.inj_on_of_nodup_map hn ha ho hid
      subst this
      linarith
    · rcases Before.total hid with hb | hb
      · have := sum_ite_add (cap := cap) (P := fun c => elig c ∧ Before c a) (Q := fun c => elig c ∧ Before c o) ha
          (fun c hc hq => (hpos c hc hq.1).le) (fun c _ hc => ⟨hc.1, hc.2.trans hb⟩)
          (fun hc => not_before_self a hc.2) ⟨hel, hb⟩
        linarith
      · have := sum_ite_add (cap := cap) (P := fun c => elig c ∧ Before c o) (Q := fun c => elig c ∧ Before c a) ho
          (fun c hc hq => (hpos c hc hq.1).le) (fun c _ hc => ⟨hc.1, hc.2.trans hb⟩)
          (fun hc => not_before_self o hc.2) ⟨heo, hb⟩
        have := hpos o ho heo
        linarith

private theorem filter_length_congr {l : List Order} {P Q : Order → Prop} [DecidablePred P] [DecidablePred Q]
    (h : ∀ o ∈ l, P o ↔ Q o) :
    (l.filter (fun o => decide (P o))).length = (l.filter (fun o => decide (Q o))).length := by
  congr 1
  apply List.filter_congr
  intro o ho
  simp only [h o ho]

/-- A fill that is positive but below the capacity leaves room. -/
private theorem room_of_partial {elig : Order → Prop} [DecidablePred elig] {cap : Order → ℚ} {l : List Order} {T : ℚ} {a : Order}
    (hp : 0 < fillAmount elig cap l T a) (hne : fillAmount elig cap l T a ≠ cap a) :
    elig a ∧ T < ((l.filter (fun c => decide (elig c ∧ Before c a))).map cap).sum + cap a := by
  have hel : elig a := by
    by_contra hno
    unfold fillAmount at hp
    rw [if_neg hno] at hp
    exact lt_irrefl _ hp
  refine ⟨hel, ?_⟩
  by_contra hc
  push Not at hc
  apply hne
  unfold fillAmount at hp ⊢
  rw [if_pos hel] at hp ⊢
  rw [min_eq_left (by linarith)] at hp ⊢
  rcases lt_max_iff.1 hp with h | h
  · exact absurd h (lt_irrefl _)
  · exact max_eq_right h.le

/-- C74. At any rate, at most one order of the whole pair is partially filled: not both a b_order and an s_order, and not
two orders of one side. The limit on the number of orders and the minimum tradable amount do not change this. -/
theorem C74_at_most_one_partial {cfg : Config} {x : ℚ} {fee : Fee} {maxNr : ℤ} {b s b' s' : List Order}
    (h : ExecInput cfg x fee maxNr b s) (hr : computeBuyAmounts cfg x b s fee maxNr = .ok (b', s')) :
    (∀ a ∈ b', ∀ o ∈ s', 0 < a.buy → 0 < o.buy → soldB x fee a = a.maxSell ∨ soldS x fee o = o.maxSell) ∧
    (∀ a ∈ b', ∀ o ∈ b', 0 < a.buy → 0 < o.buy → soldB x fee a ≠ a.maxSell → soldB x fee o ≠ o.maxSell → a = o) ∧
    (∀ a ∈ s', ∀ o ∈ s', 0 < a.buy → 0 < o.buy → soldS x fee a ≠ a.maxSell → soldS x fee o ≠ o.maxSell → a = o) := by
  refine ⟨?_, C11_one_partial h hr⟩
  intro a ha o ho hpa hpo
  by_contra hcon
  push Not at hcon
  obtain ⟨na, no⟩ := hcon
  obtain ⟨g1, g2⟩ := C58_greatest_volume h hr
  obtain ⟨t, ht0, ht, eb, es⟩ := C11_closed_form h hr
  rw [ht] at g1 g2
  have hφ : 0 < 1 - fee.value := by have := h.feeLt; linarith
  have hx := h.ratePos
  have hm : (0 : ℚ) < cfg.minRationalTradable := by exact_mod_cast h.minPos
  have hρ : 0 < (1 - fee.value) / x := div_pos hφ hx
  rw [eb] at ha
  rw [es] at ho
  obtain ⟨a0, ha0, rfl⟩ := List.mem_map.1 ha
  obtain ⟨o0, ho0, rfl⟩ := List.mem_map.1 ho
  set T := t * ((1 - fee.value) / x) with hT
  have hpa' : 0 < fillAmount (EligibleB cfg x fee) (maxBuyB x fee) b T a0 := hpa
  have hpo' : 0 < fillAmount (EligibleS cfg x fee) (maxBuyS x fee) s t o0 := hpo
  have pb : ∀ c ∈ b, EligibleB cfg x fee c → 0 < maxBuyB x fee c := fun c _ hc => lt_of_lt_of_le hm hc.2.2
  have ps : ∀ c ∈ s, EligibleS cfg x fee c → 0 < maxBuyS x fee c := fun c _ hc => lt_of_lt_of_le hm hc.2.2
  have na' : fillAmount (EligibleB cfg x fee) (maxBuyB x fee) b T a0 ≠ maxBuyB x fee a0 := by
    intro e
    apply na
    unfold soldB
    show fillAmount (EligibleB cfg x fee) (maxBuyB x fee) b T a0 * x / (1 - fee.value) = a0.maxSell
    rw [e]; unfold maxBuyB; field_simp
  have no' : fillAmount (EligibleS cfg x fee) (maxBuyS x fee) s t o0 ≠ maxBuyS x fee o0 := by
    intro e
    apply no
    unfold soldS
    show fillAmount (EligibleS cfg x fee) (maxBuyS x fee) s t o0 / x / (1 - fee.value) = o0.maxSell
    rw [e]; unfold maxBuyS; field_simp
  obtain ⟨ela, rooma⟩ := room_of_partial hpa' na'
  obtain ⟨elo, roomo⟩ := room_of_partial hpo' no'
  set ra := ((b.filter (fun c => decide (EligibleB cfg x fee c ∧ Before c a0))).map (maxBuyB x fee)).sum + maxBuyB x fee a0
  set ro := ((s.filter (fun c => decide (EligibleS cfg x fee c ∧ Before c o0))).map (maxBuyS x fee)).sum + maxBuyS x fee o0
  -- a larger volume that ends within both partial orders
  obtain ⟨u, hut, hua, huo⟩ : ∃ u, t < u ∧ u * ((1 - fee.value) / x) ≤ ra ∧ u ≤ ro := by
    refine ⟨min (ra / ((1 - fee.value) / x)) ro, lt_min ((lt_div_iff₀ hρ).2 rooma) roomo, ?_, min_le_right _ _⟩
    exact (le_div_iff₀ hρ).1 (min_le_left _ _)
  have hTU : T ≤ u * ((1 - fee.value) / x) := mul_le_mul_of_nonneg_right hut.le hρ.le
  obtain ⟨fb, kb⟩ := fill_raise pb h.idsB ha0 ela hpa' hTU hua
  obtain ⟨fs, ks⟩ := fill_raise ps h.idsS ho0 elo hpo' hut.le huo
  refine absurd (g2 u ⟨ht0.trans hut.le, fb, fs, ?_, ?_, ?_⟩) (not_le.2 hut)
  · have := g1.count
    rw [filter_length_congr (fun c hc => (kb c hc).2), filter_length_congr (fun c hc => (ks c hc).2)]
    exact this
  · rintro c hc q rfl hq
    obtain ⟨m1, m2⟩ := g1.minB c hc _ rfl ((kb c hc).2.1 hq)
    have hle := (kb c hc).1
    refine ⟨m1.trans hle, m2.trans ?_⟩
    exact div_le_div_of_nonneg_right (mul_le_mul_of_nonneg_right hle hx.le) hφ.le
  · rintro c hc q rfl hq
    obtain ⟨m1, m2⟩ := g1.minS c hc _ rfl ((ks c hc).2.1 hq)
    have hle := (ks c hc).1
    refine ⟨m1.trans hle, m2.trans ?_⟩
    exact div_le_div_of_nonneg_right (div_le_div_of_nonneg_right hle hx.le) hφ.le

private theorem exists_pos_of_sum_pos {l : List Order} (h : 0 < (l.map (·.buy)).sum) : ∃ o ∈ l, 0 < o.buy := by
  by_contra hc
  push Not at hc
  have : (l.map (·.buy)).sum ≤ 0 := by
    clear h
    induction l with
    | nil => simp
    | cons c l ih =>
      have h1 := hc c List.mem_cons_self
      have h2 := ih (fun d hd => hc d (List.mem_cons_of_mem _ hd))
      rw [List.map_cons, List.sum_cons]; linarith
  linarith

private theorem sum_pos_of_exists {l : List Order} (hnn : ∀ o ∈ l, 0 ≤ o.buy) {o : Order} (ho : o ∈ l) (hp : 0 < o.buy) :
    0 < (l.map (·.buy)).sum := by
  refine lt_of_lt_of_le hp (List.single_le_sum ?_ _ (List.mem_map.2 ⟨o, ho, rfl⟩))
  intro y hy
  obtain ⟨c, hc, rfl⟩ := List.mem_map.1 hy
  exact hnn c hc

/-- C74. If anything is executed, then orders of both sides are, and at least one executed order is completely filled. -/
theorem C74_some_filled {cfg : Config} {x : ℚ} {fee : Fee} {maxNr : ℤ} {b s b' s' : List Order}
    (h : ExecInput cfg x fee maxNr b s) (hr : computeBuyAmounts cfg x b s fee maxNr = .ok (b', s'))
    (hex : ∃ o ∈ b' ++ s', 0 < o.buy) :
    (∃ a ∈ b', 0 < a.buy) ∧ (∃ o ∈ s', 0 < o.buy) ∧
    ((∃ a ∈ b', 0 < a.buy ∧ soldB x fee a = a.maxSell) ∨ (∃ o ∈ s', 0 < o.buy ∧ soldS x fee o = o.maxSell)) := by
  have hφ : 0 < 1 - fee.value := by have := h.feeLt; linarith
  have hx := h.ratePos
  have hbal := (C06_balanced h hr).1
  obtain ⟨nb, ns⟩ := C08_max_sell h hr
  have hB : ∃ a ∈ b', 0 < a.buy := by
    obtain ⟨o, ho, hp⟩ := hex
    rcases List.mem_append.1 ho with ho | ho
    · exact ⟨o, ho, hp⟩
    · apply exists_pos_of_sum_pos
      have := sum_pos_of_exists (fun c hc => (ns c hc).1) ho hp
      have : 0 < (b'.map (·.buy)).sum * x := by rw [hbal]; exact mul_pos this hφ
      exact pos_of_mul_pos_left this hx.le
  have hS : ∃ o ∈ s', 0 < o.buy := by
    obtain ⟨o, ho, hp⟩ := hB
    apply exists_pos_of_sum_pos
    have := sum_pos_of_exists (fun c hc => (nb c hc).1) ho hp
    have : 0 < (s'.map (·.buy)).sum * (1 - fee.value) := by rw [← hbal]; exact mul_pos this hx
    exact pos_of_mul_pos_left this hφ.le
  refine ⟨hB, hS, ?_⟩
  obtain ⟨a, ha, hpa⟩ := hB
  obtain ⟨o, ho, hpo⟩ := hS
  rcases (C74_at_most_one_partial h hr).1 a ha o ho hpa hpo with h1 | h1
  · exact .inl ⟨a, ha, hpa, h1⟩
  · exact .inr ⟨o, ho, hpo, h1⟩

/-- C74. Orders are executed only at rates between the lowest rate an s_order accepts and the highest a b_order accepts. -/
theorem C74_rate_domain {cfg : Config} {x : ℚ} {fee : Fee} {maxNr : ℤ} {b s b' s' : List Order}
    (h : ExecInput cfg x fee maxNr b s) (hr : computeBuyAmounts cfg x b s fee maxNr = .ok (b', s'))
    (hex : ∃ o ∈ b' ++ s', 0 < o.buy) :
    (∃ i ∈ b, x ≤ i.maxXrate * (1 - fee.value)) ∧ (∃ j ∈ s, 1 / (j.maxXrate * (1 - fee.value)) ≤ x) := by
  obtain ⟨⟨a, ha, hpa⟩, ⟨o, ho, hpo⟩, _⟩ := C74_some_filled h hr hex
  obtain ⟨l1, l2⟩ := C07_limit_rates h hr
  obtain ⟨t, _, _, eb, es⟩ := C11_closed_form h hr
  have hx := h.ratePos
  constructor
  · have := (l1 a ha hpa).1
    rw [eb] at ha
    obtain ⟨a0, ha0, rfl⟩ := List.mem_map.1 ha
    exact ⟨a0, ha0, this⟩
  · have := (l2 o ho hpo).1
    rw [es] at ho
    obtain ⟨o0, ho0, rfl⟩ := List.mem_map.1 ho
    refine ⟨o0, ho0, ?_⟩
    have h1 : 0 < o0.maxXrate * (1 - fee.value) := lt_of_lt_of_le (by positivity) this
    rw [div_le_iff₀ h1]
    rw [div_le_iff₀ hx] at this
    show 1 ≤ x * (o0.maxXrate * (1 - fee.value))
    have h2 : 1 ≤ o0.maxXrate * (1 - fee.value) * x := this
    linarith

/-- C74. What the b_orders buy is what the s_orders sell, less the fee twice. -/
theorem C74_imbalance {cfg : Config} {x : ℚ} {fee : Fee} {maxNr : ℤ} {b s b' s' : List Order}
    (h : ExecInput cfg x fee maxNr b s) (hr : computeBuyAmounts cfg x b s fee maxNr = .ok (b', s')) :
    (b'.map (·.buy)).sum = (1 - fee.value) ^ 2 * (s'.map (soldS x fee)).sum := by
  have hφ : 1 - fee.value ≠ 0 := by have := h.feeLt; linarith
  have hx := h.ratePos.ne'
  have hbal := (C06_balanced h hr).1
  have : (s'.map (soldS x fee)).sum = (s'.map (·.buy)).sum / x / (1 - fee.value) := by
    clear hbal hr
    induction s' with
    | nil => simp
    | cons c l ih =>
      simp only [List.map_cons, List.sum_cons, ih]
      unfold soldS
      ring
  rw [this]
  field_simp
  linarith

/-! ### The open question -/

namespace ExDocument

def fee : Fee := { token := "F", value := 0 }

end ExDocument

/-- C74. The document asks whether there is always exactly one local optimum, and the source relies on it (xrate.py:399).
There is not: without a fee, and with the limit on the number of orders and the minimum tradable amount not in force, the
objective value of a book of five orders is smaller at a rate than at one rate below and at one rate above it. All three
rates are in the domain of the search, accepted by an order of each side. -/
theorem C74_open_question : ∃ (b s : List Order) (x₁ x₂ x₃ v₁ v₂ v₃ : ℚ),
    SearchInput Config.default ExDocument.fee b s ∧ x₁ < x₂ ∧ x₂ < x₃ ∧
    (∀ x ∈ [x₁, x₂, x₃], (∃ o ∈ b, AcceptsB ExDocument.fee x o) ∧ (∃ o ∈ s, AcceptsS ExDocument.fee x o) ∧
      ∃ u, 0 < u ∧ Unconstrained Config.default x ExDocument.fee Config.default.maxNrExec b s u) ∧
    ValueAt Config.default ExDocument.fee b s x₁ v₁ ∧ ValueAt Config.default ExDocument.fee b s x₂ v₂ ∧
    ValueAt Config.default ExDocument.fee b s x₃ v₃ ∧ v₂ < v₁ ∧ v₂ < v₃ := by
  obtain ⟨v₂, e₂, h⟩ := exists_of_pyCheck
    (x := solverObjective Config.default ExDocument.fee ExGlobal.b ExGlobal.s (25 / 31))
    (p := fun v => pyCheck (solverObjective Config.default ExDocument.fee ExGlobal.b ExGlobal.s (7 / 10))
      (fun w => v < w) = true ∧
      pyCheck (solverObjective Config.default ExDocument.fee ExGlobal.b ExGlobal.s (100 / 123)) (fun w => v < w) = true)
    (by decide +kernel)
  obtain ⟨v₁, e₁, l₁⟩ := exists_of_pyCheck h.1
  obtain ⟨v₃, e₃, l₃⟩ := exists_of_pyCheck h.2
  have un : ∀ x u : ℚ, (u * ((1 - ExDocument.fee.value) / x) ≤ ((ExGlobal.b.filter (fun o => decide
        (EligibleB Config.default x ExDocument.fee o))).map (maxBuyB x ExDocument.fee)).sum ∧
      u = ((ExGlobal.s.filter (fun o => decide (EligibleS Config.default x ExDocument.fee o))).map
        (maxBuyS x ExDocument.fee)).sum) →
      (∀ o ∈ ExGlobal.b, (10009 : ℚ) ≤ fillAmount (EligibleB Config.default x ExDocument.fee) (maxBuyB x ExDocument.fee)
        ExGlobal.b (u * ((1 - ExDocument.fee.value) / x)) o ∧
        (10009 : ℚ) ≤ fillAmount (EligibleB Config.default x ExDocument.fee) (maxBuyB x ExDocument.fee)
          ExGlobal.b (u * ((1 - ExDocument.fee.value) / x)) o * x / (1 - ExDocument.fee.value)) →
      (∀ o ∈ ExGlobal.s, 0 < fillAmount (EligibleS Config.default x ExDocument.fee) (maxBuyS x ExDocument.fee)
        ExGlobal.s u o → (10009 : ℚ) ≤ fillAmount (EligibleS Config.default x ExDocument.fee) (maxBuyS x ExDocument.fee)
        ExGlobal.s u o ∧ (10009 : ℚ) ≤ fillAmount (EligibleS Config.default x ExDocument.fee) (maxBuyS x ExDocument.fee)
        ExGlobal.s u o / x / (1 - ExDocument.fee.value)) →
      Unconstrained Config.default x ExDocument.fee Config.default.maxNrExec ExGlobal.b ExGlobal.s u := by
    intro x u h1 h2 h3
    refine ⟨.inr h1, ?_, ?_, ?_⟩
    · have l1 := List.length_filter_le (fun o => decide (EligibleB Config.default x ExDocument.fee o)) ExGlobal.b
      have l2 := List.length_filter_le (fun o => decide (EligibleS Config.default x ExDocument.fee o)) ExGlobal.s
      have l3 : ExGlobal.b.length = 1 := rfl
      have l4 : ExGlobal.s.length = 4 := rfl
      have l5 : Config.default.maxNrExec = 30 := rfl
      omega
    · rintro o ho q rfl _
      exact_mod_cast h2 o ho
    · rintro o ho q rfl hq
      exact_mod_cast h3 o ho hq
  refine ⟨ExGlobal.b, ExGlobal.s, 7 / 10, 25 / 31, 100 / 123, v₁, v₂, v₃, ?_, by norm_num, by norm_num, ?_,
    solverObjective_iff.1 e₁, solverObjective_iff.1 e₂, solverObjective_iff.1 e₃, l₁, l₃⟩
  · constructor <;> decide +kernel
  · intro x hx
    simp only [List.mem_cons, List.not_mem_nil, or_false] at hx
    rcases hx with rfl | rfl | rfl
    · exact ⟨by decide +kernel, by decide +kernel, 70000000, by norm_num,
        un _ _ (by decide +kernel) (by decide +kernel) (by decide +kernel)⟩
    · exact ⟨by decide +kernel, by decide +kernel, 100200000 * 25 / 31, by norm_num,
        un _ _ (by decide +kernel) (by decide +kernel) (by decide +kernel)⟩
    · exact ⟨by decide +kernel, by decide +kernel, 111200000 * 100 / 123, by norm_num,
        un _ _ (by decide +kernel) (by decide +kernel) (by decide +kernel)⟩

/-! ### Non-vacuity -/

/-- In the book of `Props/Amount.lean` with at most three orders, orders are executed. -/
example : ∃ r, computeBuyAmounts Config.default 1 Ex.bs Ex.ss Ex.fee 3 = .ok r ∧ ∃ o ∈ r.1 ++ r.2, 0 < o.buy := by
  obtain ⟨r, e, hr⟩ := exists_of_pyCheck (x := computeBuyAmounts Config.default 1 Ex.bs Ex.ss Ex.fee 3)
    (p := fun r => ∃ o ∈ r.1 ++ r.2, 0 < o.buy) (by decide +kernel)
  exact ⟨r, e, hr⟩

end Dex
