import Verif.Props.EconomicExample
import Verif.Props.RoundMove
import Verif.Props.Objective

/-! # Property C82: no order of lower priority is served first -/

namespace Dex

namespace Spec

/-- The solution executes the order. -/
def ExecutedIn (sol : Solution) (o : Order) : Prop := ∃ o' ∈ sol.orders, o'.id = o.id ∧ 0 < o'.buy

/-- At the prices, the order would sell and buy at least the minimum amounts if it sold all but `d` of what it may sell. -/
def LargeEnough (cfg : Config) (prices : Prices) (fee : Fee) (d : ℚ) (o : Order) : Prop :=
  (cfg.minRationalTradable : ℚ) ≤ o.maxSell - d ∧
    ∀ pb ps, PriceOf prices o.buyToken pb → PriceOf prices o.sellToken ps → (cfg.minRationalTradable : ℚ) ≤ (o.maxSell - d) * (ps / pb * (1 - fee.value))

/-- If an order of the list is executed, then so are all orders of the list with higher priority that are large enough. -/
def QueueKept (cfg : Config) (fee : Fee) (sol : Solution) (d : ℚ) (l : List Order) : Prop :=
  ∀ a ∈ l, ∀ o ∈ l, Before a o → ExecutedIn sol o → LargeEnough cfg sol.prices fee d a → ExecutedIn sol a

/-- Orders of the lists are served by priority in the solution. In a pair without the fee token the maximum sell amounts are lowered by rounding buffers,
which depend on the price `p` of the first token and on the rate `x`; the fee orders have no buffer. -/
def QueueOutcome (cfg : Config) (ext : Ext) (pair : Token × Token) (fee : Fee) (xrate : Option ℚ) (b s f : List Order) (sol : Solution) : Prop :=
  ((pair.1 = fee.token ∨ pair.2 = fee.token) → QueueKept cfg fee sol 0 b ∧ QueueKept cfg fee sol 0 s) ∧
    (pair.1 ≠ fee.token → pair.2 ≠ fee.token → sol = .trivial ∨
      ∃ (b' s' : List Order) (x : ℚ) (p : ℤ), MatchableParts fee b s b' s' ∧ UsedRate cfg ext fee b' s' xrate x ∧ PriceOf sol.prices pair.1 p ∧
        QueueKept cfg fee sol (bufferSize cfg cfg.feeTokenPrice p x) b ∧ QueueKept cfg fee sol (bufferSize cfg cfg.feeTokenPrice (p / x) (1 / x)) s ∧
        QueueKept cfg fee sol 0 f)

end Spec

open Spec

/-! ### Fills -/

theorem before_sum_le {elig : Order → Prop} [DecidablePred elig] {cap : Order → ℚ} {a o : Order} (hb : Before a o) (he : elig a) :
    ∀ {l : List Order}, a ∈ l → (∀ u ∈ l, 0 ≤ cap u) →
      ((l.filter (fun u => decide (elig u ∧ Before u a))).map cap).sum + cap a ≤ ((l.filter (fun u => decide (elig u ∧ Before u o))).map cap).sum := by
  have hle : ∀ {l : List Order}, (∀ u ∈ l, 0 ≤ cap u) →
      ((l.filter (fun u => decide (elig u ∧ Before u a))).map cap).sum ≤ ((l.filter (fun u => decide (elig u ∧ Before u o))).map cap).sum := by
    intro l hl
    induction l with
    | nil => exact le_refl _
    | cons u l ih =>
      have ih := ih (fun v hv => hl v (by simp [hv]))
      have h0 := hl u (by simp)
      simp only [List.filter_cons]
      by_cases h1 : elig u ∧ Before u a
      · rw [if_pos (by simpa using h1), if_pos (by simpa using ⟨h1.1, h1.2.trans hb⟩)]
        simp only [List.map_cons, List.sum_cons]; linarith
      · rw [if_neg (by simpa using h1)]
        split
        · simp only [List.map_cons, List.sum_cons]; linarith
        · exact ih
  intro l hm hl
  induction l with
  | nil => cases hm
  | cons u l ih =>
    have h0 := hl u (by simp)
    have hl' : ∀ v ∈ l, 0 ≤ cap v := fun v hv => hl v (by simp [hv])
    simp only [List.filter_cons]
    by_cases hu : u = a
    · subst hu
      have h1 : ¬ (elig u ∧ Before u u) := fun h => h.2.asymm h.2
      rw [if_neg (by simpa using h1), if_pos (by simpa using ⟨he, hb⟩)]
      simp only [List.map_cons, List.sum_cons]
      have := hle hl'
      linarith
    · have ih := ih ((List.mem_cons.1 hm).resolve_left (Ne.symm hu)) hl'
      by_cases h1 : elig u ∧ Before u a
      · rw [if_pos (by simpa using h1), if_pos (by simpa using ⟨h1.1, h1.2.trans hb⟩)]
        simp only [List.map_cons, List.sum_cons]; linarith
      · rw [if_neg (by simpa using h1)]
        split
        · simp only [List.map_cons, List.sum_cons]; linarith
        · exact ih

theorem fillAmount_before {elig : Order → Prop} [DecidablePred elig] {cap : Order → ℚ} {l : List Order} {t : ℚ} {a o : Order} (ha : a ∈ l)
    (he : elig a) (hc : ∀ u ∈ l, 0 ≤ cap u) (hb : Before a o) (ho : 0 < fillAmount elig cap l t o) : fillAmount elig cap l t a = cap a := by
  have hs := before_sum_le hb he ha hc
  unfold fillAmount at ho ⊢
  split at ho
  · rw [if_pos he]
    rw [lt_max_iff, lt_min_iff] at ho
    have h1 := (ho.resolve_left (lt_irrefl _)).2
    rw [min_eq_left (by linarith), max_eq_right (hc a ha)]
  · exact absurd ho (lt_irrefl _)

/-- Fills with maximum sell amounts lowered by `d`. -/
theorem fill_queue {elig : Order → Prop} [DecidablePred elig] {cap : Order → ℚ} {rate c m φ : ℚ} (hφ : 0 < φ) (hm : 0 < m) (hc : 0 < c)
    (he : ∀ o, elig o ↔ rate ≤ o.maxXrate * φ ∧ m ≤ o.maxSell ∧ m ≤ cap o) (hcap : ∀ o, cap o = o.maxSell * c) {l : List Order} {d : ℤ} {t : ℚ}
    {a o : Order} (ha : a ∈ l) (hb : Before a o) (ho : 0 < fillAmount elig cap (l.map (reduced d)) t (reduced d o)) (h1 : m ≤ a.maxSell - d)
    (h2 : m ≤ (a.maxSell - d) * c) : fillAmount elig cap (l.map (reduced d)) t (reduced d a) = (a.maxSell - d) * c := by
  have ea : (reduced d a).maxSell = a.maxSell - d := max_eq_left (by linarith)
  have heo : elig (reduced d o) := by
    by_contra h
    unfold fillAmount at ho
    rw [if_neg h] at ho
    exact lt_irrefl _ ho
  obtain ⟨o1, o2, _⟩ := (he _).1 heo
  have eo : (reduced d o).maxSell = o.maxSell - d := by
    refine max_eq_left (le_of_not_gt fun h => ?_)
    have : (reduced d o).maxSell = 0 := max_eq_right h.le
    linarith
  have hb' : Before (reduced d a) (reduced d o) := by
    rcases hb with h | ⟨h, h' | ⟨h', h''⟩⟩
    · exact .inl h
    · exact .inr ⟨h, .inl (by rw [ea, eo]; linarith)⟩
    · exact .inr ⟨h, .inr ⟨by rw [ea, eo, h'], h''⟩⟩
  have hx : o.maxXrate ≤ a.maxXrate := by
    rcases hb with h | ⟨h, _⟩
    · exact h.le
    · exact h.ge
  have hea : elig (reduced d a) := by
    refine (he _).2 ⟨o1.trans (mul_le_mul_of_nonneg_right hx hφ.le), by rw [ea]; exact h1, by rw [hcap, ea]; exact h2⟩
  rw [fillAmount_before (List.mem_map_of_mem ha) hea ?_ hb' ho, hcap, ea]
  intro u hu
  obtain ⟨v, _, rfl⟩ := List.mem_map.1 hu
  rw [hcap]
  exact mul_nonneg (le_max_right _ _) hc.le

theorem fillB_queue {cfg : Config} {x : ℚ} {fee : Fee} {l : List Order} {d : ℤ} {t : ℚ} {a o : Order} (hm : 0 < cfg.minRationalTradable) (hx : 0 < x)
    (hf : fee.value < 1) (ha : a ∈ l) (hb : Before a o) (ho : 0 < fillB cfg x fee (l.map (reduced d)) t (reduced d o))
    (h1 : (cfg.minRationalTradable : ℚ) ≤ a.maxSell - d) (h2 : (cfg.minRationalTradable : ℚ) ≤ (a.maxSell - d) * (1 / x * (1 - fee.value))) :
    fillB cfg x fee (l.map (reduced d)) t (reduced d a) = (a.maxSell - d) * (1 / x * (1 - fee.value)) := by
  have hφ : 0 < 1 - fee.value := by linarith
  exact fill_queue hφ (by exact_mod_cast hm) (by positivity) (fun o => Iff.rfl) (fun o => by ring) ha hb ho h1 h2

theorem fillS_queue {cfg : Config} {x : ℚ} {fee : Fee} {l : List Order} {d : ℤ} {t : ℚ} {a o : Order} (hm : 0 < cfg.minRationalTradable) (hx : 0 < x)
    (hf : fee.value < 1) (ha : a ∈ l) (hb : Before a o) (ho : 0 < fillS cfg x fee (l.map (reduced d)) t (reduced d o))
    (h1 : (cfg.minRationalTradable : ℚ) ≤ a.maxSell - d) (h2 : (cfg.minRationalTradable : ℚ) ≤ (a.maxSell - d) * (x * (1 - fee.value))) :
    fillS cfg x fee (l.map (reduced d)) t (reduced d a) = (a.maxSell - d) * (x * (1 - fee.value)) := by
  have hφ : 0 < 1 - fee.value := by linarith
  exact fill_queue hφ (by exact_mod_cast hm) (by positivity) (fun o => Iff.rfl) (fun o => by ring) ha hb ho h1 h2

theorem reduced_zero {l : List Order} (h : ∀ o ∈ l, 0 ≤ o.maxSell) : l.map (reduced 0) = l := by
  conv_rhs => rw [← List.map_id l]
  refine List.map_congr_left fun o ho => ?_
  unfold reduced
  rw [Int.cast_zero, sub_zero, max_eq_left (h o ho)]
  rfl

/-! ### Rounding -/

/-- Rounding executes the orders that are executed before. -/
theorem executedIn_iff {cfg : Config} {branch : List (Token × Token) → List (Token × Token)} {prices : Prices} {orders res : List Order} {fee : Fee}
    {ok : Bool} (hc : CfgOk cfg) (h : RoundInput prices fee orders) (hfeas : ∀ o ∈ orders, ExactFeasible cfg prices fee o)
    (hr : roundSolution cfg branch prices orders fee = .ok (ok, res)) {ps : Prices} {u : Order} (hu : u ∈ orders) :
    ExecutedIn { orders := res, prices := ps } u ↔ 0 < u.buy := by
  obtain ⟨h28, _⟩ := C28_same_orders_executed h ⟨hc.minPos, hc.slack⟩ hfeas hr
  constructor
  · rintro ⟨o', ho', hid, hpos⟩
    obtain ⟨v, hv, hs, g, _⟩ := forall₂_mem_right h28 o' ho'
    have : v.id = u.id := by rw [← hid, hs]
    rw [nodup_ids_inj h.ids hv hu this] at g
    exact g.1 hpos
  · intro hpos
    obtain ⟨u', hu', hs, g, _⟩ := forall₂_mem_left h28 u hu
    exact ⟨u', hu', by rw [hs], g.2 hpos⟩

/-- The executed order is one of those rounded. -/
theorem executedIn_mem {cfg : Config} {branch : List (Token × Token) → List (Token × Token)} {prices : Prices} {orders res : List Order} {fee : Fee}
    {ok : Bool} (hc : CfgOk cfg) (h : RoundInput prices fee orders) (hfeas : ∀ o ∈ orders, ExactFeasible cfg prices fee o)
    (hr : roundSolution cfg branch prices orders fee = .ok (ok, res)) {ps : Prices} {o : Order} (ho : ExecutedIn { orders := res, prices := ps } o) :
    ∃ u ∈ orders, u.id = o.id := by
  obtain ⟨h28, _⟩ := C28_same_orders_executed h ⟨hc.minPos, hc.slack⟩ hfeas hr
  obtain ⟨o', ho', hid, _⟩ := ho
  obtain ⟨v, hv, hs, _⟩ := forall₂_mem_right h28 o' ho'
  exact ⟨v, hv, by rw [← hid, hs]⟩

theorem matchable_mono {fee : Fee} {a o c : Order} (hf : fee.value < 1) (h : Before a o) (hm : Matchable fee o c) : Matchable fee a c := by
  obtain ⟨x, h0, h1, h2⟩ := hm
  refine ⟨x, h0, h1.trans (mul_le_mul_of_nonneg_right ?_ (by linarith)), h2⟩
  rcases h with h | ⟨h, _⟩
  · exact h.le
  · exact h.ge

theorem matchable_mono_right {fee : Fee} {a o c : Order} (hf : fee.value < 1) (h : Before a o) (hm : Matchable fee c o) : Matchable fee c a := by
  obtain ⟨x, h0, h1, h2⟩ := hm
  refine ⟨x, h0, h1, h2.trans (mul_le_mul_of_nonneg_right ?_ (by linarith))⟩
  rcases h with h | ⟨h, _⟩
  · exact h.le
  · exact h.ge

theorem queueKept_trivial {cfg : Config} {fee : Fee} {d : ℚ} {l : List Order} : QueueKept cfg fee .trivial d l := by
  rintro a _ o _ _ ⟨o', h, _⟩ _
  exact absurd h (by simp [Solution.trivial])

/-- From exact fills to the rounded solution. -/
theorem queueKept_of {cfg : Config} {ext : Ext} {prices : Prices} {fee : Fee} {orders l l' : List Order} {sol : Solution} {d : ℚ} {v : Order → ℚ}
    (hc : CfgOk cfg) (h : RoundInput prices fee orders) (hfeas : ∀ o ∈ orders, ExactFeasible cfg prices fee o)
    (hr : RoundedTo cfg ext fee prices orders sol) (hup : ∀ a ∈ l, ∀ o ∈ l', Before a o → a ∈ l')
    (hmem : ∀ o ∈ l, (∃ u ∈ orders, u.id = o.id) → o ∈ l') (hv : ∀ o ∈ l', ∃ u ∈ orders, u.id = o.id ∧ u.buy = v o)
    (hkey : ∀ a ∈ l', ∀ o ∈ l', Before a o → 0 < v o → LargeEnough cfg prices fee d a → 0 < v a) : QueueKept cfg fee sol d l := by
  obtain ⟨ok, res, e, hsol⟩ := hr
  cases ok with
  | false =>
    rw [if_neg (by simp)] at hsol
    rw [hsol]; exact queueKept_trivial
  | true =>
    rw [if_pos rfl] at hsol
    subst hsol
    intro a ha o ho hb hex hl
    have ho' := hmem o ho (executedIn_mem hc h hfeas e hex)
    have ha' := hup a ha o ho' hb
    have key : ∀ c ∈ l', ExecutedIn { orders := res, prices := prices } c ↔ 0 < v c := by
      intro c hc'
      obtain ⟨u, hu, hid, hbuy⟩ := hv c hc'
      rw [← hbuy, ← executedIn_iff hc h hfeas e (ps := prices) hu]
      unfold ExecutedIn
      rw [hid]
    exact (key a ha').2 (hkey a ha' o ho' hb ((key o ho').1 hex) hl)

/-! ### A pair with the fee token -/

theorem mem_of_id {l l' L : List Order} (hids : (L.map (·.id)).Nodup) (h1 : l ⊆ L) (h2 : l' ⊆ L) {o u : Order} (ho : o ∈ l) (hu : u ∈ l') (hid : u.id = o.id) : o ∈ l' := by
  rw [← nodup_ids_inj hids (h2 hu) (h1 ho) hid]; exact hu

/-- The lists as oriented by the solver: `b` buys the fee token. -/
theorem queue_fee {cfg : Config} {ext : Ext} {S : Token} {b s b' s' : List Order} {fee : Fee} {xrate : Option ℚ} {sol : Solution} (hc : CfgOk cfg)
    (h : SearchInput cfg fee b s) (hSF : S ≠ fee.token) (hclsB : ∀ o ∈ b, o.buyToken = fee.token ∧ o.sellToken = S)
    (hclsS : ∀ o ∈ s, o.buyToken = S ∧ o.sellToken = fee.token) (hids : ((b ++ s).map (·.id)).Nodup) (hsubB : b'.Sublist b) (hsubS : s'.Sublist s)
    (hupB : ∀ a ∈ b, ∀ o ∈ b', Before a o → a ∈ b') (hupS : ∀ a ∈ s, ∀ o ∈ s', Before a o → a ∈ s')
    (ho : FeePairOutcome cfg ext fee S b' s' xrate sol) : QueueKept cfg fee sol 0 b ∧ QueueKept cfg fee sol 0 s := by
  obtain ⟨x, k, t, b1, s1, _, hk, _, hfill, ho⟩ := ho
  rcases ho with ⟨_, rfl⟩ | ⟨ht, hro⟩
  · exact ⟨queueKept_trivial, queueKept_trivial⟩
  have hin : SearchInput cfg fee b' s' :=
    ⟨h.minPos, h.feeLt, h.limit, h.feePrice, h.idsB.sublist (hsubB.map _), h.idsS.sublist (hsubS.map _), fun o ho => h.ordB o (hsubB.subset ho),
      fun o ho => h.ordS o (hsubS.subset ho)⟩
  have hff := feePairFills_of hin hSF (fun o ho => hclsB o (hsubB.subset ho)) (fun o ho => hclsS o (hsubS.subset ho))
    (hids.sublist ((hsubB.append hsubS).map _)) hk hfill
  have hP : (0 : ℚ) < cfg.feeTokenPrice := by exact_mod_cast hc.feePrice
  have hk0 : (0 : ℚ) < k := by exact_mod_cast (by omega : 0 < k)
  have hx0 := div_pos hP hk0
  have zB : b'.map (reduced 0) = b' := reduced_zero fun o ho => (hin.ordB o ho).2
  have zS : s'.map (reduced 0) = s' := reduced_zero fun o ho => (hin.ordS o ho).2
  have rB : ∀ o ∈ b', reduced 0 o = o := fun o ho => by
    have := reduced_zero (l := [o]) (fun c hc => by rw [List.mem_singleton.1 hc]; exact (hin.ordB o ho).2)
    simpa using this
  have rS : ∀ o ∈ s', reduced 0 o = o := fun o ho => by
    have := reduced_zero (l := [o]) (fun c hc => by rw [List.mem_singleton.1 hc]; exact (hin.ordS o ho).2)
    simpa using this
  have hmin : (0 : ℚ) < cfg.minRationalTradable := by exact_mod_cast hc.minRational
  have horig : ∀ u ∈ b1 ++ s1, ∃ w, w.id = u.id ∧ ((u ∈ b1 ∧ w ∈ b') ∨ (u ∈ s1 ∧ w ∈ s')) := by
    intro u hu
    rcases List.mem_append.1 hu with hu | hu
    · have hu' := hu
      rw [hfill.eqB] at hu'
      obtain ⟨w, hw, rfl⟩ := List.mem_map.1 hu'
      exact ⟨w, rfl, .inl ⟨hu, hw⟩⟩
    · have hu' := hu
      rw [hfill.eqS] at hu'
      obtain ⟨w, hw, rfl⟩ := List.mem_map.1 hu'
      exact ⟨w, rfl, .inr ⟨hu, hw⟩⟩
  have subB : b ⊆ b ++ s := List.subset_append_left _ _
  have subS : s ⊆ b ++ s := List.subset_append_right _ _
  constructor
  · refine queueKept_of (l' := b') (v := fillB cfg (cfg.feeTokenPrice / k) fee b' t) hc hff.input hff.feasible hro hupB ?_ ?_ ?_
    · rintro o ho ⟨u, hu, hid⟩
      obtain ⟨w, hw, ⟨_, h1⟩ | ⟨_, h1⟩⟩ := horig u hu
      · exact mem_of_id hids subB (fun _ h => subB (hsubB.subset h)) ho h1 (hw.trans hid)
      · have := mem_of_id hids subB (fun _ h => subS (hsubS.subset h)) ho h1 (hw.trans hid)
        exact absurd ((hclsS o (hsubS.subset this)).1.symm.trans (hclsB o ho).1) hSF
    · intro o ho
      exact ⟨o.withBuy (fillB cfg (cfg.feeTokenPrice / k) fee b' t o), List.mem_append_left _ (by rw [hfill.eqB]; exact List.mem_map.2 ⟨o, ho, rfl⟩), rfl, rfl⟩
    · intro a ha o ho hb hpos hl
      obtain ⟨l1, l2⟩ := hl
      obtain ⟨c1, c2⟩ := hclsB a (hsubB.subset ha)
      have l2 := l2 cfg.feeTokenPrice k (by rw [c1]; exact hff.priceF) (by rw [c2]; exact hff.priceS)
      rw [← one_div_div (cfg.feeTokenPrice : ℚ) (k : ℚ)] at l2
      have := fillB_queue (l := b') (d := 0) (t := t) hc.minRational hx0 h.feeLt ha hb (by rw [zB, rB o ho]; exact hpos)
        (by simpa using l1) (by simpa using l2)
      rw [zB, rB a ha] at this
      rw [this]
      refine lt_of_lt_of_le hmin ?_
      simpa using l2
  · refine queueKept_of (l' := s') (v := fillS cfg (cfg.feeTokenPrice / k) fee s' t) hc hff.input hff.feasible hro hupS ?_ ?_ ?_
    · rintro o ho ⟨u, hu, hid⟩
      obtain ⟨w, hw, ⟨_, h1⟩ | ⟨_, h1⟩⟩ := horig u hu
      · have := mem_of_id hids subS (fun _ h => subB (hsubB.subset h)) ho h1 (hw.trans hid)
        exact absurd ((hclsS o ho).1.symm.trans (hclsB o (hsubB.subset this)).1) hSF
      · exact mem_of_id hids subS (fun _ h => subS (hsubS.subset h)) ho h1 (hw.trans hid)
    · intro o ho
      exact ⟨o.withBuy (fillS cfg (cfg.feeTokenPrice / k) fee s' t o), List.mem_append_right _ (by rw [hfill.eqS]; exact List.mem_map.2 ⟨o, ho, rfl⟩), rfl, rfl⟩
    · intro a ha o ho hb hpos hl
      obtain ⟨l1, l2⟩ := hl
      obtain ⟨c1, c2⟩ := hclsS a (hsubS.subset ha)
      have l2 := l2 k cfg.feeTokenPrice (by rw [c1]; exact hff.priceS) (by rw [c2]; exact hff.priceF)
      have := fillS_queue (l := s') (d := 0) (t := t) hc.minRational hx0 h.feeLt ha hb (by rw [zS, rS o ho]; exact hpos)
        (by simpa using l1) (by simpa using l2)
      rw [zS, rS a ha] at this
      rw [this]
      refine lt_of_lt_of_le hmin ?_
      simpa using l2

theorem Spec.MatchableParts.upB {fee : Fee} {b s b' s' : List Order} (h : MatchableParts fee b s b' s') (hf : fee.value < 1) :
    ∀ a ∈ b, ∀ o ∈ b', Before a o → a ∈ b' := by
  intro a ha o ho hb
  obtain ⟨_, c, hc, hm⟩ := (h.memB o).1 ho
  exact (h.memB a).2 ⟨ha, c, hc, matchable_mono hf hb hm⟩

theorem Spec.MatchableParts.upS {fee : Fee} {b s b' s' : List Order} (h : MatchableParts fee b s b' s') (hf : fee.value < 1) :
    ∀ a ∈ s, ∀ o ∈ s', Before a o → a ∈ s' := by
  intro a ha o ho hb
  obtain ⟨_, c, hc, hm⟩ := (h.memS o).1 ho
  exact (h.memS a).2 ⟨ha, c, hc, matchable_mono_right hf hb hm⟩

theorem BookOf.idsBS {pool : List Order} {pair : Token × Token} {fee : Fee} {bk : Books} (h : BookOf pool pair fee bk) (hp : Pool pool) (hne : pair.1 ≠ pair.2) :
    ((bk.b ++ bk.s).map (·.id)).Nodup :=
  nodup_ids_append hp h.derB h.derS h.idsB h.idsS fun o ho o' ho' e => hne (by rw [← (h.clsB o ho).1, e.1, (h.clsS o' ho').1])

theorem BookOf.idsAll {pool : List Order} {pair : Token × Token} {fee : Fee} {bk : Books} (h : BookOf pool pair fee bk) (hp : Pool pool) (hne : pair.1 ≠ pair.2)
    (hF1 : pair.1 ≠ fee.token) (hF2 : pair.2 ≠ fee.token) : ((bk.b ++ bk.s ++ bk.f).map (·.id)).Nodup := by
  refine nodup_ids_append hp ?_ h.derF (h.idsBS hp hne) h.idsF ?_
  · intro o ho
    rcases List.mem_append.1 ho with h' | h'
    · exact h.derB o h'
    · exact h.derS o h'
  · intro o ho o' ho' e
    obtain ⟨h1, h2⟩ := h.clsF hF1 o' ho'
    rcases List.mem_append.1 ho with h' | h'
    · exact hF2 (by rw [← (h.clsB o h').2, e.2, h2])
    · exact hne (by rw [← h1, ← e.1, (h.clsS o h').1])

/-- C82. A pair with the fee token: if an order is executed, so is every order of the same list with higher priority that can trade the minimum amounts. -/
theorem C82_fee_pair {cfg : Config} {ext : Ext} {pair : Token × Token} {b s f : List Order} {fee : Fee} {xrate : Option ℚ}
    {pool : List Order} {r : MatchResult} (hp : Pool pool) (hc : CfgOk cfg) (hfee : fee.value < 1) (hb : BookOf pool pair fee { b, s, f })
    (hne : pair.1 ≠ pair.2) (hF : pair.1 = fee.token ∨ pair.2 = fee.token) (hx : ∀ y, xrate = some y → 0 < y)
    (hr : solveTokenPairAndFee cfg ext pair b s f fee xrate = .ok r) : QueueKept cfg fee r.sol 0 b ∧ QueueKept cfg fee r.sol 0 s := by
  have h : SearchInput cfg fee b s := hb.search hp hc hfee
  obtain ⟨hbn, hsn⟩ := solve_ne hr
  have hids : ((b ++ s).map (·.id)).Nodup := hb.idsBS hp hne
  rcases hF with hF | hF
  · have hSF : pair.2 ≠ fee.token := fun h => hne (hF.trans h.symm)
    rcases C61_fee_pair h hbn hsn hx hne hF hr with ⟨_, e⟩ | ⟨b', s', hm, _, _, ho⟩
    · rw [e]; exact ⟨queueKept_trivial, queueKept_trivial⟩
    · exact queue_fee hc h hSF (fun o ho => by rw [← hF]; exact hb.clsB o ho) (fun o ho => by rw [← hF]; exact hb.clsS o ho) hids hm.subB hm.subS
        (hm.upB hfee) (hm.upS hfee) ho
  · have hSF : pair.1 ≠ fee.token := fun h => hne (h.trans hF.symm)
    rcases C61_fee_pair_second h hbn hsn hx hne hF hr with ⟨_, e⟩ | ⟨b', s', hm, _, _, ho⟩
    · rw [e]; exact ⟨queueKept_trivial, queueKept_trivial⟩
    · exact (queue_fee hc h.swap hSF (fun o ho => by rw [← hF]; exact hb.clsS o ho) (fun o ho => by rw [← hF]; exact hb.clsB o ho)
        (by rw [List.map_append] at hids ⊢; exact List.nodup_append_comm.1 hids) hm.subS hm.subB (hm.upS hfee) (hm.upB hfee) ho).symm

/-! ### A pair without the fee token -/

theorem nrExecuted_append (a b : List Order) : nrExecuted (a ++ b) = nrExecuted a + nrExecuted b := by
  unfold nrExecuted; rw [List.filter_append, List.length_append]

theorem filled_count {cfg : Config} {x : ℚ} {fee : Fee} {n : ℤ} {b s b1 s1 : List Order} {t : ℚ} (h : Filled cfg x fee n b s t b1 s1) :
    (nrExecuted b1 : ℤ) + nrExecuted s1 ≤ n := by
  have := h.volume.admissible.count
  rw [h.eqB, h.eqS]
  unfold nrExecuted
  rw [List.filter_map, List.length_map, List.filter_map, List.length_map]
  exact this

theorem before_take {l : List Order} (hl : l.Pairwise (fun a b => ¬ Before b a)) {n : ℕ} {a o : Order} (ha : a ∈ l) (ho : o ∈ l.take n) (hb : Before a o) :
    a ∈ l.take n := by
  rw [← List.take_append_drop n l, List.mem_append] at ha
  rcases ha with ha | ha
  · exact ha
  · rw [← List.take_append_drop n l, List.pairwise_append] at hl
    exact absurd hb (hl.2.2 o ho a ha)

/-- C82. A pair without the fee token, with a solution that is not trivial: the same for the three lists, where the maximum sell amounts of the first two
are lowered by the rounding buffers. -/
theorem C82_main_pair {cfg : Config} {ext : Ext} {pair : Token × Token} {b s f : List Order} {fee : Fee} {xrate : Option ℚ}
    {pool : List Order} {r : MatchResult} (hp : Pool pool) (hc : CfgOk cfg) (hfee : fee.value < 1) (hb : BookOf pool pair fee { b, s, f })
    (hne : pair.1 ≠ pair.2) (hF1 : pair.1 ≠ fee.token) (hF2 : pair.2 ≠ fee.token) (hx : ∀ y, xrate = some y → 0 < y)
    (hr : solveTokenPairAndFee cfg ext pair b s f fee xrate = .ok r) (hnt : r.sol ≠ .trivial) :
    ∃ (b' s' : List Order) (x : ℚ) (p : ℤ), MatchableParts fee b s b' s' ∧ UsedRate cfg ext fee b' s' xrate x ∧ PriceOf r.sol.prices pair.1 p ∧
      QueueKept cfg fee r.sol (bufferSize cfg cfg.feeTokenPrice p x) b ∧ QueueKept cfg fee r.sol (bufferSize cfg cfg.feeTokenPrice (p / x) (1 / x)) s ∧
      QueueKept cfg fee r.sol 0 f := by
  obtain ⟨hbn, hsn⟩ := solve_ne hr
  rcases C60_fee_order_choice hp hc hfee hb hne hF1 hF2 hbn hsn hx hr with ⟨_, e⟩ | ⟨b', s', hm, hbn', hsn', x, t0, b1, s1, hu, hfill, ho⟩
  · exact absurd e hnt
  rcases ho with ⟨_, e⟩ | ⟨_, e⟩ | ⟨_, hfn, hmax, ns, _, hns, ho⟩
  · exact absurd e hnt
  · exact absurd e hnt
  rcases ho with ⟨_, e⟩ | ⟨g, p, hch, hgp, hro⟩
  · exact absurd e hnt
  obtain ⟨pre, n, post, hnn, hT, _⟩ := hch
  have hnm : n ∈ ns := by rw [hnn]; simp
  obtain ⟨n1, n2⟩ := (hns n).1 hnm
  have hcnt := filled_count hfill
  have hlen : 0 < f.length := List.length_pos_iff.2 hfn
  have hn1 : 1 ≤ n := by omega
  have hn2 : (n : ℤ) ≤ cfg.maxNrExec := by omega
  generalize hf0 : (sortedByExecPriority f).map (fun o => (o.withBuy 0).withSell 0) = f0 at *
  unfold attempt at hT
  rw [hf0] at hT
  have memF : ∀ o, o ∈ f0 ↔ ∃ c ∈ f, (c.withBuy 0).withSell 0 = o := by
    intro o; rw [← hf0, List.mem_map]; simp only [sortedByExecPriority_mem]
  have idsF0 : (f0.map (·.id)).Nodup := by
    rw [← hf0, List.map_map]
    exact ((sortedByExecPriority_perm f).map (·.id)).nodup_iff.2 hb.idsF
  have hbk : BookOf pool pair fee { b := b1, s := s1, f := f0 } := by
    have h1 := hb.sub hm.subB hm.subS (List.Sublist.refl f)
    have e1 : ∀ {l : List Order} {v : Order → ℚ}, List.Forall₂ SameButExec l (l.map (fun o => o.withBuy (v o))) := by
      intro l v
      rw [List.forall₂_map_right_iff]
      exact List.forall₂_same.2 fun o _ => sameButExec_iff.2 ⟨_, _, rfl⟩
    have h2 : BookOf pool pair fee { b := b1, s := s1, f } := h1.same ⟨by rw [hfill.eqB]; exact e1, by rw [hfill.eqS]; exact e1, forall₂_same_refl _⟩
    refine ⟨h2.derB, h2.derS, ?_, h2.idsB, h2.idsS, idsF0, h2.clsB, h2.clsS, ?_⟩
    · intro o ho
      obtain ⟨c, hc', rfl⟩ := (memF o).1 ho
      exact der_forall₂ (l := [c]) (fun o ho => by rw [List.mem_singleton.1 ho]; exact hb.derF c hc')
        (.cons (sameButExec_iff.2 ⟨_, _, rfl⟩) .nil) _ (List.mem_singleton.2 rfl)
    · intro _ o ho
      obtain ⟨c, hc', rfl⟩ := (memF o).1 ho
      exact hb.clsF hF1 c hc'
  have b1n : b1 ≠ [] := by rw [hfill.eqB]; simpa using hbn'
  have s1n : s1 ≠ [] := by rw [hfill.eqS]; simpa using hsn'
  have f0n : f0 ≠ [] := by
    obtain ⟨c, hc'⟩ := List.exists_mem_of_ne_nil f hfn
    exact List.ne_nil_of_mem ((memF _).2 ⟨c, hc', rfl⟩)
  have hz : ∀ o ∈ f0, o.buy = 0 := by
    intro o ho
    obtain ⟨c, _, rfl⟩ := (memF o).1 ho
    rfl
  obtain ⟨hsame, hgm⟩ := givenExecF_spec hp hc hfee hbk hne hF1 hF2 hu.1 b1n s1n f0n hn1 hn2 hz hT
  have hgm := hgm p hgp
  have hat := C62_attempt hp hc hfee hbk hne hF1 hF2 hu.1 b1n s1n f0n hn1 hn2 hT
  obtain ⟨p', m, u, debt, fT, hp1, _, _, _, hfillF, hat⟩ := hat
  rcases hat with ⟨_, e⟩ | ⟨_, e, gf, d, e', q, t, hd, he, hq1, _, hxr, _, gb, gs, _⟩
  · rw [e] at hgp; cases hgp
  rw [e] at hgp
  cases hgp
  generalize hpr : ([(fee.token, (cfg.feeTokenPrice : ℚ)), (pair.1, (p : ℚ)), (pair.2, p / g.xrate)] : Prices) = prices at hro
  obtain ⟨hin, hfeas, _, pF, pB, pS⟩ := chain_input hp hc hfee (hbk.same hsame) hne hF1 hF2 hgm hpr.symm
  have hpq : (0 : ℚ) < p := by exact_mod_cast hp1
  have hqq : (0 : ℚ) < q := by exact_mod_cast hq1
  have hP : (0 : ℚ) < cfg.feeTokenPrice := by exact_mod_cast hc.feePrice
  have hx0 : (0 : ℚ) < p / q := div_pos hpq hqq
  have hpxq : (p : ℚ) / g.xrate = q := by rw [hxr]; field_simp
  rw [hpxq] at pS
  have hmin : (0 : ℚ) < cfg.minRationalTradable := by exact_mod_cast hc.minRational
  have hidsA : ((b ++ s ++ f).map (·.id)).Nodup := hb.idsAll hp hne hF1 hF2
  have iB : b ⊆ b ++ s ++ f := fun o h => by simp [h]
  have iS : s ⊆ b ++ s ++ f := fun o h => by simp [h]
  have iF : f ⊆ b ++ s ++ f := fun o h => by simp [h]
  -- every order given to rounding stems from one of the lists
  have oB : ∀ u ∈ g.books.b, ∃ w ∈ b', w.id = u.id := by
    intro u hu
    rw [gb, hfill.eqB, List.map_map] at hu
    obtain ⟨w, hw, rfl⟩ := List.mem_map.1 hu
    exact ⟨w, hw, rfl⟩
  have oS : ∀ u ∈ g.books.s, ∃ w ∈ s', w.id = u.id := by
    intro u hu
    rw [gs, hfill.eqS, List.map_map] at hu
    obtain ⟨w, hw, rfl⟩ := List.mem_map.1 hu
    exact ⟨w, hw, rfl⟩
  have oF : ∀ u ∈ g.books.f, ∃ w ∈ f, w.id = u.id := by
    intro u hu
    obtain ⟨a, ha, hs⟩ := forall₂_mem_r hsame.f u hu
    obtain ⟨c, hc', rfl⟩ := (memF a).1 ha
    exact ⟨c, hc', (id_same _ _ hs).symm ▸ rfl⟩
  have hmemO : ∀ {u : Order}, u ∈ g.books.b ++ g.books.s ++ g.books.f ↔ u ∈ g.books.b ∨ u ∈ g.books.s ∨ u ∈ g.books.f := by
    intro u; simp
  have cB : ∀ o ∈ b, o.buyToken = pair.1 ∧ o.sellToken = pair.2 := hb.clsB
  have cS : ∀ o ∈ s, o.buyToken = pair.2 ∧ o.sellToken = pair.1 := hb.clsS
  have cF : ∀ o ∈ f, o.buyToken = pair.1 ∧ o.sellToken = fee.token := hb.clsF hF1
  refine ⟨b', s', x, p, hm, hu, ?_, ?_, ?_, ?_⟩
  · obtain ⟨ok, res, _, hsol⟩ := hro
    cases ok with
    | false => exact absurd hsol hnt
    | true => rw [hsol]; exact pB
  · rw [← hd]
    refine queueKept_of (l' := b') (v := fun o => fillB cfg (p / q) fee (b1.map (reduced d)) t
      (reduced d (o.withBuy (fillB cfg x fee b' t0 o)))) hc hin hfeas hro (hm.upB hfee) ?_ ?_ ?_
    · rintro o ho ⟨u, hu, hid⟩
      rcases hmemO.1 hu with h | h | h
      · obtain ⟨w, hw, e⟩ := oB u h
        exact mem_of_id hidsA iB (fun _ h => iB (hm.subB.subset h)) ho hw (e.trans hid)
      · obtain ⟨w, hw, e⟩ := oS u h
        have := mem_of_id hidsA iB (fun _ h => iS (hm.subS.subset h)) ho hw (e.trans hid)
        exact absurd ((cB o ho).1.symm.trans (cS o (hm.subS.subset this)).1) hne
      · obtain ⟨w, hw, e⟩ := oF u h
        have := mem_of_id hidsA iB iF ho hw (e.trans hid)
        exact absurd ((cB o ho).2.symm.trans (cF o this).2) hF2
    · intro o ho
      refine ⟨(o.withBuy (fillB cfg x fee b' t0 o)).withBuy (fillB cfg (p / q) fee (b1.map (reduced d)) t
        (reduced d (o.withBuy (fillB cfg x fee b' t0 o)))), hmemO.2 (.inl ?_), rfl, rfl⟩
      rw [gb]
      exact List.mem_map.2 ⟨o.withBuy (fillB cfg x fee b' t0 o), by rw [hfill.eqB]; exact List.mem_map.2 ⟨o, ho, rfl⟩, rfl⟩
    · intro a ha o ho hba hpos hl
      obtain ⟨l1, l2⟩ := hl
      obtain ⟨c1, c2⟩ := cB a (hm.subB.subset ha)
      have l2 := l2 p q (by rw [c1]; exact pB) (by rw [c2]; exact pS)
      rw [← one_div_div (p : ℚ) (q : ℚ)] at l2
      have := fillB_queue (l := b1) (d := d) (t := t) (a := a.withBuy (fillB cfg x fee b' t0 a)) (o := o.withBuy (fillB cfg x fee b' t0 o))
        hc.minRational hx0 hfee (by rw [hfill.eqB]; exact List.mem_map.2 ⟨a, ha, rfl⟩) hba hpos l1 l2
      rw [this]
      exact hmin.trans_le l2
  · rw [← he]
    refine queueKept_of (l' := s') (v := fun o => fillS cfg (p / q) fee (s1.map (reduced e')) t
      (reduced e' (o.withBuy (fillS cfg x fee s' t0 o)))) hc hin hfeas hro (hm.upS hfee) ?_ ?_ ?_
    · rintro o ho ⟨u, hu, hid⟩
      rcases hmemO.1 hu with h | h | h
      · obtain ⟨w, hw, e⟩ := oB u h
        have := mem_of_id hidsA iS (fun _ h => iB (hm.subB.subset h)) ho hw (e.trans hid)
        exact absurd ((cB o (hm.subB.subset this)).1.symm.trans (cS o ho).1) hne
      · obtain ⟨w, hw, e⟩ := oS u h
        exact mem_of_id hidsA iS (fun _ h => iS (hm.subS.subset h)) ho hw (e.trans hid)
      · obtain ⟨w, hw, e⟩ := oF u h
        have := mem_of_id hidsA iS iF ho hw (e.trans hid)
        exact absurd ((cS o ho).2.symm.trans (cF o this).2) hF1
    · intro o ho
      refine ⟨(o.withBuy (fillS cfg x fee s' t0 o)).withBuy (fillS cfg (p / q) fee (s1.map (reduced e')) t
        (reduced e' (o.withBuy (fillS cfg x fee s' t0 o)))), hmemO.2 (.inr (.inl ?_)), rfl, rfl⟩
      rw [gs]
      exact List.mem_map.2 ⟨o.withBuy (fillS cfg x fee s' t0 o), by rw [hfill.eqS]; exact List.mem_map.2 ⟨o, ho, rfl⟩, rfl⟩
    · intro a ha o ho hba hpos hl
      obtain ⟨l1, l2⟩ := hl
      obtain ⟨c1, c2⟩ := cS a (hm.subS.subset ha)
      have l2 := l2 q p (by rw [c1]; exact pS) (by rw [c2]; exact pB)
      have := fillS_queue (l := s1) (d := e') (t := t) (a := a.withBuy (fillS cfg x fee s' t0 a)) (o := o.withBuy (fillS cfg x fee s' t0 o))
        hc.minRational hx0 hfee (by rw [hfill.eqS]; exact List.mem_map.2 ⟨a, ha, rfl⟩) hba hpos l1 l2
      rw [this]
      exact hmin.trans_le l2
  · have hsort : f0.Pairwise (fun a b => ¬ Before b a) := by
      rw [← hf0, List.pairwise_map]
      exact (sortedByExecPriority_pairwise f).imp fun h => h
    have hpF : (0 : ℚ) < cfg.feeTokenPrice / p := div_pos hP hpq
    have okF : ∀ o ∈ f0.take n, 0 ≤ o.maxSell := fun o ho => ((hbk.derF o (List.mem_of_mem_take ho)).ok hp).2.1
    have zF : (f0.take n).map (reduced 0) = f0.take n := reduced_zero okF
    have rF : ∀ o ∈ f0.take n, reduced 0 o = o := fun o ho => by
      have := reduced_zero (l := [o]) (fun c hc => by rw [List.mem_singleton.1 hc]; exact okF o ho)
      simpa using this
    classical
    refine queueKept_of (l' := f) (v := fun o => if (o.withBuy 0).withSell 0 ∈ f0.take n then
      fillS cfg (cfg.feeTokenPrice / p) fee (f0.take n) u ((o.withBuy 0).withSell 0) else 0) hc hin hfeas hro (fun a ha _ _ _ => ha)
      (fun o ho _ => ho) ?_ ?_
    · intro o ho
      have ho0 := (memF _).2 ⟨o, ho, rfl⟩
      by_cases h : (o.withBuy 0).withSell 0 ∈ f0.take n
      · refine ⟨((o.withBuy 0).withSell 0).withBuy (fillS cfg (cfg.feeTokenPrice / p) fee (f0.take n) u ((o.withBuy 0).withSell 0)), hmemO.2 (.inr (.inr ?_)), rfl, ?_⟩
        · rw [gf]
          exact List.mem_append_left _ (by rw [hfillF.eqS]; exact List.mem_map.2 ⟨_, h, rfl⟩)
        · rw [if_pos h]; rfl
      · refine ⟨(o.withBuy 0).withSell 0, hmemO.2 (.inr (.inr ?_)), rfl, ?_⟩
        · rw [gf]
          rw [← List.take_append_drop n f0, List.mem_append] at ho0
          exact List.mem_append_right _ (ho0.resolve_left h)
        · rw [if_neg h]; rfl
    · intro a ha o ho hba hpos hl
      obtain ⟨l1, l2⟩ := hl
      obtain ⟨c1, c2⟩ := cF a ha
      have l2 := l2 p cfg.feeTokenPrice (by rw [c1]; exact pB) (by rw [c2]; exact pF)
      split at hpos
      · rename_i ho'
        have ha' := before_take hsort ((memF _).2 ⟨a, ha, rfl⟩) ho' (show Before ((a.withBuy 0).withSell 0) ((o.withBuy 0).withSell 0) from hba)
        rw [if_pos ha']
        have := fillS_queue (l := f0.take n) (d := 0) (t := u) (a := (a.withBuy 0).withSell 0) (o := (o.withBuy 0).withSell 0)
          hc.minRational hpF hfee ha' hba (by rw [zF, rF _ ho']; exact hpos) (by rw [Int.cast_zero]; exact l1) (by rw [Int.cast_zero]; exact l2)
        rw [zF, rF _ ha', Int.cast_zero] at this
        rw [this]
        exact hmin.trans_le l2
      · exact absurd hpos (lt_irrefl _)

/-- Both cases. -/
theorem queueOutcome_of {cfg : Config} {ext : Ext} {pair : Token × Token} {b s f : List Order} {fee : Fee} {xrate : Option ℚ}
    {pool : List Order} {r : MatchResult} (h : RunInput cfg ext pair fee xrate pool) (hb : BookOf pool pair fee { b, s, f })
    (hr : solveTokenPairAndFee cfg ext pair b s f fee xrate = .ok r) : QueueOutcome cfg ext pair fee xrate b s f r.sol := by
  refine ⟨fun hF => C82_fee_pair h.pool h.cfg h.feeLt hb h.ne hF h.rate hr, fun h1 h2 => ?_⟩
  by_cases hnt : r.sol = .trivial
  · exact .inl hnt
  · exact .inr (C82_main_pair h.pool h.cfg h.feeLt hb h.ne h1 h2 h.rate hr hnt)

theorem queueOutcome_trivial {cfg : Config} {ext : Ext} {pair : Token × Token} {b s f : List Order} {fee : Fee} {xrate : Option ℚ} :
    QueueOutcome cfg ext pair fee xrate b s f .trivial :=
  ⟨fun _ => ⟨queueKept_trivial, queueKept_trivial⟩, fun _ _ => .inl rfl⟩

/-! ### The search for a viable solution -/

theorem run_queue {cfg : Config} {ext : Ext} {pair : Token × Token} {fee : Fee} {xrate : Option ℚ} {pool f b s : List Order} {sol : Solution}
    (h : RunInput cfg ext pair fee xrate pool) (hb : BookOf pool pair fee { b, s, f })
    (hr : ViabilityRun cfg fee pair (fun b s => solveTokenPairAndFee cfg ext pair b s f fee xrate) b s sol) :
    ∃ b' s', b'.Sublist b ∧ s'.Sublist s ∧ (cfg.minAvgFee = 0 → cfg.minAbsFee = 0 → b' = b ∧ s' = s) ∧ QueueOutcome cfg ext pair fee xrate b' s' f sol := by
  induction hr with
  | empty => exact ⟨[], [], .slnil, .slnil, fun _ _ => ⟨rfl, rfl⟩, queueOutcome_trivial⟩
  | stop h1 _ => exact ⟨_, _, List.Sublist.refl _, List.Sublist.refl _, fun _ _ => ⟨rfl, rfl⟩, queueOutcome_of h hb h1⟩
  | hopeless _ _ _ => exact ⟨_, _, List.Sublist.refl _, List.Sublist.refl _, fun _ _ => ⟨rfl, rfl⟩, queueOutcome_trivial⟩
  | dropB _ hnv _ _ _ _ _ _ _ _ ih =>
    obtain ⟨b', s', g1, g2, _, g3⟩ := ih (hb.sub (without_sub _ _) (List.Sublist.refl _) (List.Sublist.refl _))
    exact ⟨b', s', g1.trans (without_sub _ _), g2, fun e1 e2 => absurd (.inr (.inl ⟨e1, e2⟩)) hnv, g3⟩
  | dropS _ hnv _ _ _ _ _ _ _ _ ih =>
    obtain ⟨b', s', g1, g2, _, g3⟩ := ih (hb.sub (List.Sublist.refl _) (without_sub _ _) (List.Sublist.refl _))
    exact ⟨b', s', g1, g2.trans (without_sub _ _), fun e1 e2 => absurd (.inr (.inl ⟨e1, e2⟩)) hnv, g3⟩

theorem fresh_rel (l : List Order) : List.Forall₂ SameButExec l (l.map fresh) := by
  rw [List.forall₂_map_right_iff]
  exact List.forall₂_same.2 fun o _ => sameButExec_iff.2 ⟨0, 0, rfl⟩

/-- C82. The search for a viable solution: orders are served by priority among those that are left, and none is removed if there are no fee thresholds. -/
theorem C82_search {cfg : Config} {ext : Ext} {pair : Token × Token} {fee : Fee} {xrate : Option ℚ} {pool : List Order} {accounts : Accounts}
    {b s f objs : List Order} {sol : Solution} (h : RunInput cfg ext pair fee xrate pool) (hb : BookOf pool pair fee { b, s, f })
    (hr : solveEconomicViable cfg ext pair accounts b s f fee xrate = .ok (sol, objs)) :
    ∃ b' s', b'.Sublist (b.map fresh) ∧ s'.Sublist (s.map fresh) ∧ (cfg.minAvgFee = 0 → cfg.minAbsFee = 0 → b' = b.map fresh ∧ s' = s.map fresh) ∧
      QueueOutcome cfg ext pair fee xrate b' s' (f.map fresh) sol :=
  run_queue h (hb.same ⟨fresh_rel b, fresh_rel s, fresh_rel f⟩) (C63_run h hb hr)

/-- C82. The token-pair program without fee thresholds: what it writes is a solution in which the orders of the instance are served by priority. -/
theorem C82_program {cfg : Config} {ext : Ext} {inst : Instance} {pair : Token × Token} {xrate : Option ℚ} {d : Dump} (hc : CfgOk cfg)
    (hi : GoodInstance inst) (hne : pair.1 ≠ pair.2) (hbr : ∀ E, MaxBranching E (ext.branch E)) (hx : ∀ y, xrate = some y → 0 < y)
    (h1 : cfg.minAvgFee = 0) (h2 : cfg.minAbsFee = 0) (h : tokenPairMain cfg ext inst pair xrate = .ok d) :
    ∃ orders sol, loadProblem cfg inst = .ok (inst.accounts, orders, inst.fee) ∧ dumpSolution inst sol = .ok d ∧
      QueueOutcome cfg ext pair inst.fee xrate ((ordersBuyingSelling orders pair.1 pair.2).map fresh) ((ordersBuyingSelling orders pair.2 pair.1).map fresh)
        ((ordersBuyingSelling orders pair.1 inst.fee.token).map fresh) sol := by
  have hm : 0 < cfg.minTradable := by have := hc.minPos; omega
  unfold tokenPairMain at h
  rw [bind_eq_ok] at h
  obtain ⟨⟨accounts, bk, fee⟩, hload, h⟩ := h
  dsimp only at h
  rw [bind_eq_ok] at h
  obtain ⟨⟨sol, objs⟩, hr, hd⟩ := h
  unfold loadPairProblem at hload
  simp only [bind_eq_ok, pyAssert_eq_ok, exists_and_left, exists_const] at hload
  obtain ⟨os0, e1, orders, e2, _, e⟩ := hload
  cases e
  have hload : loadProblem cfg inst = .ok (inst.accounts, orders, inst.fee) := by
    unfold loadProblem; rw [e1, ok_bind, e2]; rfl
  obtain ⟨hl, _, _⟩ := loadedPool hm hi.balances hi.ints hi.sell hload
  obtain ⟨b', s', _, _, g, ho⟩ := C82_search ⟨hl.wf, hc, hi.feeLt, hne, hbr, hx⟩ (bookOf_filter hl.wf (forall₂_same_refl _) pair inst.fee _ (.inl rfl)) hr
  obtain ⟨rfl, rfl⟩ := g h1 h2
  exact ⟨orders, sol, hload, hd, ho⟩

/-! ### The search over all pairs -/

/-- A property of every solution that a visited pair can have holds for the result of the search. -/
theorem bestLoop_all {cfg : Config} {ext : Ext} {accounts : Accounts} {fee : Fee} {pool : List Order} (hc : CfgOk cfg) (hf : fee.value < 1)
    (hbr : ∀ E, MaxBranching E (ext.branch E)) (hp : Pool pool) {P : Solution → Prop} {visits : List ((Token × Token) × Bool)}
    (hv : ∀ v ∈ visits, v.1.1 ≠ v.1.2)
    (hP : ∀ v ∈ visits, ∀ u sol os, List.Forall₂ SameButExec pool u → matchTokenPair cfg ext v.1 accounts u fee = .ok (sol, os) → P sol)
    {st0 st : BestState} (hs : List.Forall₂ SameButExec pool st0.orders) (h0 : P st0.sol) (h : bestLoop cfg ext accounts fee visits st0 = .ok st) : P st.sol := by
  induction visits generalizing st0 with
  | nil => cases h; exact h0
  | cons v visits ih =>
    obtain ⟨q, stop⟩ := v
    unfold bestLoop at h
    dsimp only at h
    rw [bind_eq_ok] at h
    obtain ⟨⟨obj, sol, os⟩, e, h⟩ := h
    dsimp only at h
    unfold matchAndEvaluate at e
    simp only [bind_eq_ok] at e
    obtain ⟨⟨sol', os'⟩, h3, _, _, obj', _, e⟩ := e
    obtain ⟨rfl, rfl, rfl⟩ : obj' = obj ∧ sol' = sol ∧ os' = os := by cases e; exact ⟨rfl, rfl, rfl⟩
    have hos := (matchTokenPair_spec hc hf (hv (q, stop) (by simp)) hbr hp hs h3).1
    have hsol := hP (q, stop) (by simp) _ _ _ hs h3
    have hord : List.Forall₂ SameButExec pool
        (if obj' > st0.objective then ({ objective := obj', sol := sol', orders := os' } : BestState) else { st0 with orders := os' }).orders := by
      split <;> exact hos
    have hst : P (if obj' > st0.objective then ({ objective := obj', sol := sol', orders := os' } : BestState) else { st0 with orders := os' }).sol := by
      split
      · exact hsol
      · exact h0
    split at h
    · cases h; exact hst
    · exact ih (fun v hv' => hv v (by simp [hv'])) (fun v hv' => hP v (by simp [hv'])) hord hst h

theorem fresh_buyingSelling {pool u : List Order} (h : List.Forall₂ SameButExec pool u) (x y : Token) :
    (ordersBuyingSelling u x y).map fresh = (ordersBuyingSelling pool x y).map fresh := by
  induction h with
  | nil => rfl
  | @cons a b l l' hab _ ih =>
    unfold ordersBuyingSelling at ih ⊢
    obtain ⟨hb, hfr⟩ : (b.buyToken = a.buyToken ∧ b.sellToken = a.sellToken) ∧ fresh b = fresh a := by
      obtain ⟨_, _, rfl⟩ := sameButExec_iff.1 hab
      exact ⟨⟨rfl, rfl⟩, rfl⟩
    simp only [List.filter_cons, hb.1, hb.2]
    split
    · simp only [List.map_cons, ih, hfr]
    · exact ih

/-- C82. The program over all pairs without fee thresholds, for every shuffle and time-out: what it writes is nothing, or a solution for an eligible pair in which
the orders of the instance are served by priority. -/
theorem C82_best_pair {cfg : Config} {ext : Ext} {inst : Instance} {shuffle : List (Token × Token) → List ((Token × Token) × Bool)} {d : Dump} (hc : CfgOk cfg)
    (hi : GoodInstance inst) (hbr : ∀ E, MaxBranching E (ext.branch E)) (hsh : ∀ E, ∀ v ∈ shuffle E, v.1 ∈ E)
    (h1 : cfg.minAvgFee = 0) (h2 : cfg.minAbsFee = 0) (h : bestTokenPairMain cfg ext inst shuffle = .ok d) :
    ∃ orders sol, loadProblem cfg inst = .ok (inst.accounts, orders, inst.fee) ∧ dumpSolution inst sol = .ok d ∧
      (sol = .trivial ∨ ∃ pair ∈ eligibleTokenPairs orders inst.fee.token,
        QueueOutcome cfg ext pair inst.fee none ((ordersBuyingSelling orders pair.1 pair.2).map fresh) ((ordersBuyingSelling orders pair.2 pair.1).map fresh)
          ((ordersBuyingSelling orders pair.1 inst.fee.token).map fresh) sol) := by
  have hm : 0 < cfg.minTradable := by have := hc.minPos; omega
  unfold bestTokenPairMain at h
  simp only [bind_eq_ok] at h
  obtain ⟨⟨accounts, orders, fee⟩, hload, st, hst, hd⟩ := h
  dsimp only at hst hd
  obtain ⟨hl, rfl, rfl⟩ := loadedPool hm hi.balances hi.ints hi.sell hload
  refine ⟨orders, st.sol, hload, hd, ?_⟩
  refine bestLoop_all hc hi.feeLt hbr hl.wf (P := fun sol => sol = .trivial ∨ ∃ pair ∈ eligibleTokenPairs orders inst.fee.token,
        QueueOutcome cfg ext pair inst.fee none ((ordersBuyingSelling orders pair.1 pair.2).map fresh) ((ordersBuyingSelling orders pair.2 pair.1).map fresh)
          ((ordersBuyingSelling orders pair.1 inst.fee.token).map fresh) sol) (fun v hv => eligible_ne (hsh _ v hv)) ?_ (forall₂_same_refl _) (.inl rfl) hst
  intro v hv u sol os hu hmt
  have hmem := hsh _ v hv
  have hne := eligible_ne hmem
  have hB := bookOf_pair hl.wf hu v.1 inst.fee
  unfold matchTokenPair at hmt
  dsimp only at hmt
  split at hmt
  · cases hmt; exact .inl rfl
  split at hmt
  · cases hmt; exact .inl rfl
  rw [show (if v.1.1 ≠ inst.fee.token then ordersBuyingSelling u v.1.1 inst.fee.token else []) = feeOrdersFor u v.1 inst.fee from rfl] at hmt
  split at hmt
  · cases hmt; exact .inl rfl
  rw [bind_eq_ok] at hmt
  obtain ⟨⟨sol', objs⟩, hr, e⟩ := hmt
  cases e
  obtain ⟨b', s', _, _, g, ho⟩ := C82_search ⟨hl.wf, hc, hi.feeLt, hne, hbr, by simp⟩ hB hr
  obtain ⟨rfl, rfl⟩ := g h1 h2
  refine .inr ⟨v.1, hmem, ?_⟩
  rw [fresh_buyingSelling hu, fresh_buyingSelling hu] at ho
  by_cases hF : v.1.1 = inst.fee.token
  · exact ⟨ho.1, fun h => absurd hF h⟩
  · unfold feeOrdersFor at ho
    rw [if_pos hF, fresh_buyingSelling hu] at ho
    exact ho

/-! ### Amounts -/

theorem largeEnough_of {cfg : Config} {prices : Prices} {fee : Fee} {d pb ps : ℚ} {o : Order} (h1 : PriceOf prices o.buyToken pb)
    (h2 : PriceOf prices o.sellToken ps) (h3 : (cfg.minRationalTradable : ℚ) ≤ o.maxSell - d)
    (h4 : (cfg.minRationalTradable : ℚ) ≤ (o.maxSell - d) * (ps / pb * (1 - fee.value))) : LargeEnough cfg prices fee d o := by
  refine ⟨h3, fun qb qs g1 g2 => ?_⟩
  rw [priceOf_unique g1 h1, priceOf_unique g2 h2]
  exact h4

/-- C82. A pair whose first token is the fee token: if an order that buys the fee token is executed, then every order with higher priority that buys it and
can trade the minimum amounts buys all it can, up to rounding down. -/
theorem C82_fee_pair_full {cfg : Config} {ext : Ext} {pair : Token × Token} {b s f : List Order} {fee : Fee} {xrate : Option ℚ}
    {pool : List Order} {r : MatchResult} (h : RunInput cfg ext pair fee xrate pool) (hb : BookOf pool pair fee { b, s, f }) (hF : pair.1 = fee.token)
    (hr : solveTokenPairAndFee cfg ext pair b s f fee xrate = .ok r) {a o : Order} (ha : a ∈ b) (ho : o ∈ b) (hbf : Before a o)
    (hex : ExecutedIn r.sol o) (hl : LargeEnough cfg r.sol.prices fee 0 a) {pb ps : ℚ} (hpb : PriceOf r.sol.prices a.buyToken pb)
    (hps : PriceOf r.sol.prices a.sellToken ps) :
    ∃ a' ∈ r.sol.orders, a'.id = a.id ∧ a'.buy = (⌊a.maxSell * (ps / pb * (1 - fee.value))⌋ : ℤ) := by
  have hs : SearchInput cfg fee b s := hb.search h.pool h.cfg h.feeLt
  obtain ⟨hbn, hsn⟩ := solve_ne hr
  have hids : ((b ++ s).map (·.id)).Nodup := hb.idsBS h.pool h.ne
  have cB : ∀ o ∈ b, o.buyToken = fee.token ∧ o.sellToken = pair.2 := fun o ho => by rw [← hF]; exact hb.clsB o ho
  have cS : ∀ o ∈ s, o.buyToken = pair.2 ∧ o.sellToken = fee.token := fun o ho => by rw [← hF]; exact hb.clsS o ho
  have hSF : pair.2 ≠ fee.token := fun e => h.ne (hF.trans e.symm)
  obtain ⟨o', ho', hid, hpos⟩ := hex
  have hnt : r.sol ≠ .trivial := by
    intro e
    rw [e] at ho'
    simp [Solution.trivial] at ho'
  obtain ⟨b', s', x, k, t, hm, _, hk, _, hpr, _, _, hall⟩ := C78_fee_pair_program hs ⟨h.cfg.minPos, h.cfg.slack⟩ h.branch hbn hsn h.rate h.ne hF cB cS hids hr hnt
  obtain ⟨⟨rb, rs, e, fB, fS⟩, _⟩ := hall _ _ _ rfl rfl rfl
  have hP : (0 : ℚ) < cfg.feeTokenPrice := by exact_mod_cast h.cfg.feePrice
  have hk0 : (0 : ℚ) < k := by exact_mod_cast (by omega : 0 < k)
  rw [e] at ho'
  have hob : o ∈ b' ∧ 0 < fillB cfg (cfg.feeTokenPrice / k) fee b' t o := by
    rcases List.mem_append.1 ho' with h' | h'
    · obtain ⟨w, hw, hs', hv⟩ := forall₂_mem_right fB o' h'
      have hwo : w = o := nodup_ids_inj hids (List.mem_append_left _ (hm.subB.subset hw)) (List.mem_append_left _ ho) ((id_same _ _ hs').trans hid)
      subst hwo
      refine ⟨hw, ?_⟩
      rw [hv] at hpos
      exact hpos.trans_le (Int.floor_le _)
    · obtain ⟨w, hw, hs', _⟩ := forall₂_mem_right fS o' h'
      have hwo : w = o := nodup_ids_inj hids (List.mem_append_right _ (hm.subS.subset hw)) (List.mem_append_left _ ho) ((id_same _ _ hs').trans hid)
      subst hwo
      exact absurd ((cS w (hm.subS.subset hw)).1.symm.trans (cB w ho).1) hSF
  have ha' := hm.upB h.feeLt a ha o hob.1 hbf
  obtain ⟨a', ha1, hs', hv⟩ := forall₂_mem_left fB a ha'
  refine ⟨a', by rw [e]; exact List.mem_append_left _ ha1, (id_same _ _ hs').symm, ?_⟩
  have pF : PriceOf r.sol.prices a.buyToken cfg.feeTokenPrice := by
    rw [(cB a ha).1, hpr, priceOf_iff]; simp [dictGet?_cons]
  have pS : PriceOf r.sol.prices a.sellToken k := by
    rw [(cB a ha).2, hpr, priceOf_iff]; simp [dictGet?_cons, Ne.symm hSF]
  obtain ⟨l1, l2⟩ := hl
  have l2 := l2 _ _ pF pS
  rw [priceOf_unique hpb pF, priceOf_unique hps pS]
  rw [← one_div_div (cfg.feeTokenPrice : ℚ) (k : ℚ)] at l2 ⊢
  have hin := hm.search hs
  have zB : b'.map (reduced 0) = b' := reduced_zero fun o ho => (hin.ordB o ho).2
  have rB : ∀ o ∈ b', reduced 0 o = o := fun o ho => by
    have := reduced_zero (l := [o]) (fun c hc => by rw [List.mem_singleton.1 hc]; exact (hin.ordB o ho).2)
    simpa using this
  have := fillB_queue (l := b') (d := 0) (t := t) h.cfg.minRational (div_pos hP hk0) h.feeLt ha' hbf (by rw [zB, rB o hob.1]; exact hob.2)
    (by rw [Int.cast_zero]; exact l1) (by rw [Int.cast_zero]; exact l2)
  rw [zB, rB a ha', Int.cast_zero, sub_zero] at this
  rw [hv, this]

/-- C82, negative. With a fee threshold an order may be executed although one of the same list with higher priority, which could trade the minimum amounts
twice over, is not: the search has removed it. -/
theorem C82_not_with_thresholds : ∃ (cfg : Config) (ext : Ext) (inst : Instance) (pair : Token × Token) (acc : Accounts) (bk : Books) (fee : Fee) (sol : Solution)
    (objs : List Order) (a o : Order), CfgOk cfg ∧ GoodInstance inst ∧ (∀ E, MaxBranching E (ext.branch E)) ∧ loadPairProblem cfg inst pair = .ok (acc, bk, fee) ∧
    solveEconomicViable cfg ext pair acc bk.b bk.s bk.f fee none = .ok (sol, objs) ∧ a ∈ bk.b ∧ o ∈ bk.b ∧ Before a o ∧ ExecutedIn sol o ∧
    LargeEnough cfg sol.prices fee (a.maxSell / 2) a ∧ ¬ ExecutedIn sol a := by
  obtain ⟨⟨⟨acc, bk, fee⟩, sol, objs⟩, e, h⟩ := exists_of_pyCheck (x := do
      let (acc, bk, fee) ← loadPairProblem ExLast.cfg ExLast.inst ExLast.pair
      let (sol, objs) ← solveEconomicViable ExLast.cfg ExInst.ext ExLast.pair acc bk.b bk.s bk.f fee none
      pure ((acc, bk, fee), sol, objs))
    (p := fun q => ∃ a ∈ q.1.2.1.b, ∃ o ∈ q.1.2.1.b, orderLt a o = true ∧ (∃ o' ∈ q.2.1.orders, o'.id = o.id ∧ 0 < o'.buy) ∧
      (¬ ∃ o' ∈ q.2.1.orders, o'.id = a.id ∧ 0 < o'.buy) ∧
      (∃ e ∈ q.2.1.prices, ∃ e' ∈ q.2.1.prices, dictGet? q.2.1.prices a.buyToken = some e.2 ∧ dictGet? q.2.1.prices a.sellToken = some e'.2 ∧
        (ExLast.cfg.minRationalTradable : ℚ) ≤ a.maxSell - a.maxSell / 2 ∧
        (ExLast.cfg.minRationalTradable : ℚ) ≤ (a.maxSell - a.maxSell / 2) * (e'.2 / e.2 * (1 - q.1.2.2.value)))) (by decide +kernel)
  rw [bind_eq_ok] at e
  obtain ⟨⟨acc0, bk0, fee0⟩, e1, e⟩ := e
  dsimp only at e
  rw [bind_eq_ok] at e
  obtain ⟨⟨sol0, objs0⟩, e2, e⟩ := e
  cases e
  obtain ⟨a, ha, o, ho, h1, h2, h3, ep, _, ep', _, g1, g2, g3, g4⟩ := h
  exact ⟨ExLast.cfg, ExInst.ext, ExLast.inst, ExLast.pair, _, _, _, _, _, a, o, by constructor <;> decide +kernel, by constructor <;> decide +kernel,
    ExInst.branch_max, e1, e2, ha, ho, (orderLt_iff _ _).1 h1, h2, largeEnough_of (priceOf_iff.2 g1) (priceOf_iff.2 g2) g3 g4, h3⟩

/-! ## Examples -/

/-- `C82_fee_pair` and `C82_fee_pair_full`: the second order is executed, so the first is too, and buys all it can. -/
example : RunInput Config.default ExVia.ext ("F", "S") ExOut.fee none (ExRun.b ++ ExRun.s) ∧
    BookOf (ExRun.b ++ ExRun.s) ("F", "S") ExOut.fee { b := ExRun.b, s := ExRun.s, f := [] } := by
  refine ⟨⟨⟨by decide +kernel, by decide +kernel⟩, by constructor <;> decide +kernel, by decide +kernel, by decide +kernel, ExVia.branch_max, by simp⟩,
    ⟨fun o h => der_self (by simp_all), fun o h => der_self (by simp_all), by simp,
    by decide +kernel, by decide +kernel, by decide +kernel, by decide +kernel, by decide +kernel, by decide +kernel⟩⟩

example : ∃ r, solveTokenPairAndFee Config.default ExVia.ext ("F", "S") ExRun.b ExRun.s [] ExOut.fee none = .ok r ∧
    ∃ a ∈ ExRun.b, ∃ o ∈ ExRun.b, Before a o ∧ ExecutedIn r.sol o ∧ LargeEnough Config.default r.sol.prices ExOut.fee 0 a := by
  obtain ⟨r, e, a, ha, o, ho, h1, h2, p, _, p', _, h3⟩ := exists_of_pyCheck
    (x := solveTokenPairAndFee Config.default ExVia.ext ("F", "S") ExRun.b ExRun.s [] ExOut.fee none)
    (p := fun r : MatchResult => ∃ a ∈ ExRun.b, ∃ o ∈ ExRun.b, orderLt a o = true ∧ (∃ o' ∈ r.sol.orders, o'.id = o.id ∧ 0 < o'.buy) ∧
      ∃ e ∈ r.sol.prices, ∃ e' ∈ r.sol.prices, dictGet? r.sol.prices a.buyToken = some e.2 ∧ dictGet? r.sol.prices a.sellToken = some e'.2 ∧
        (Config.default.minRationalTradable : ℚ) ≤ a.maxSell - 0 ∧
        (Config.default.minRationalTradable : ℚ) ≤ (a.maxSell - 0) * (e'.2 / e.2 * (1 - ExOut.fee.value))) (by decide +kernel)
  exact ⟨r, e, a, ha, o, ho, (orderLt_iff _ _).1 h1, h2, largeEnough_of (priceOf_iff.2 h3.1) (priceOf_iff.2 h3.2.1) h3.2.2.1 h3.2.2.2⟩

namespace ExQueue
/-- The orders of `ExOut` for a pair without the fee token, with an account. -/
def b : List Order := [Order.mk' "B" "S" (10 ^ 20) 2 (some "A") "0", Order.mk' "B" "S" (10 ^ 19) (19 / 10) (some "A") "1"]
@[inherit_doc b] def s : List Order := [Order.mk' "S" "B" (5 * 10 ^ 19) 1 (some "A") "2", Order.mk' "S" "B" (10 ^ 20) 1 (some "A") "3"]
@[inherit_doc b] def f : List Order := [Order.mk' "B" "F" (10 ^ 16) 2 (some "A") "4", Order.mk' "B" "F" (10 ^ 18) (19 / 10) (some "A") "5"]
/-- An order of the list is executed that has a large order before it. -/
def Jump (sol : Solution) (l : List Order) : Prop :=
  ∃ a ∈ l, ∃ o ∈ l, orderLt a o = true ∧ (∃ o' ∈ sol.orders, o'.id = o.id ∧ 0 < o'.buy) ∧
    ∃ e ∈ sol.prices, ∃ e' ∈ sol.prices, dictGet? sol.prices a.buyToken = some e.2 ∧ dictGet? sol.prices a.sellToken = some e'.2 ∧
      (Config.default.minRationalTradable : ℚ) ≤ a.maxSell - a.maxSell / 10 ∧
      (Config.default.minRationalTradable : ℚ) ≤ (a.maxSell - a.maxSell / 10) * (e'.2 / e.2 * (1 - ExOut.fee.value))
instance (sol : Solution) (l : List Order) : Decidable (Jump sol l) := by unfold Jump; infer_instance
end ExQueue

open ExQueue in
/-- `C82_main_pair`: in each of the three lists an order is executed with one of higher priority, which stays large if lowered by a tenth. -/
example : Pool (b ++ s ++ f) ∧ CfgOk Config.default ∧ BookOf (b ++ s ++ f) ("B", "S") ExOut.fee { b, s, f } ∧
    ∃ r, solveTokenPairAndFee Config.default ExInst.ext ("B", "S") b s f ExOut.fee none = .ok r ∧ r.sol ≠ .trivial ∧
      ∀ l ∈ [b, s, f], ∃ a ∈ l, ∃ o ∈ l, Before a o ∧ ExecutedIn r.sol o ∧ LargeEnough Config.default r.sol.prices ExOut.fee (a.maxSell / 10) a := by
  refine ⟨⟨by decide +kernel, by decide +kernel⟩, by constructor <;> decide +kernel,
    ⟨fun o h => der_self (by simp_all), fun o h => der_self (by simp_all), fun o h => der_self (by simp_all),
      by decide +kernel, by decide +kernel, by decide +kernel, by decide +kernel, by decide +kernel, by decide +kernel⟩, ?_⟩
  obtain ⟨r, e, hn, h⟩ := exists_of_pyCheck (x := solveTokenPairAndFee Config.default ExInst.ext ("B", "S") b s f ExOut.fee none)
    (p := fun r : MatchResult => r.sol ≠ .trivial ∧ ∀ l ∈ [b, s, f], Jump r.sol l) (by decide +kernel)
  refine ⟨r, e, hn, fun l hl => ?_⟩
  obtain ⟨a, ha, o, ho, h1, h2, p, _, p', _, h3⟩ := h l hl
  exact ⟨a, ha, o, ho, (orderLt_iff _ _).1 h1, h2, largeEnough_of (priceOf_iff.2 h3.1) (priceOf_iff.2 h3.2.1) h3.2.2.1 h3.2.2.2⟩

/-- The hypotheses of `C82_program` (and of `C82_search`, through it). -/
example : CfgOk ExLast.cfg0 ∧ GoodInstance ExLast.inst ∧ (∀ E, MaxBranching E (ExInst.ext.branch E)) ∧ ExLast.cfg0.minAvgFee = 0 ∧ ExLast.cfg0.minAbsFee = 0 ∧
    ∃ d, tokenPairMain ExLast.cfg0 ExInst.ext ExLast.inst ExLast.pair none = .ok d ∧ d.orders.length = 4 :=
  ⟨by constructor <;> decide +kernel, by constructor <;> decide +kernel, ExInst.branch_max, by decide +kernel, by decide +kernel,
    exists_of_pyCheck (p := fun d : Dump => d.orders.length = 4) (by decide +kernel)⟩

/-- The hypotheses of `C82_best_pair`. -/
example : CfgOk ExLast.cfg0 ∧ GoodInstance ExInst.inst ∧ (∀ E, MaxBranching E (ExInst.ext.branch E)) ∧ ExLast.cfg0.minAvgFee = 0 ∧ ExLast.cfg0.minAbsFee = 0 ∧
    ∃ d, bestTokenPairMain ExLast.cfg0 ExInst.ext ExInst.inst (fun E => E.map (fun p => (p, false))) = .ok d ∧ d.orders.length = 3 :=
  ⟨by constructor <;> decide +kernel, by constructor <;> decide +kernel, ExInst.branch_max, by decide +kernel, by decide +kernel,
    exists_of_pyCheck (p := fun d : Dump => d.orders.length = 3) (by decide +kernel)⟩

end Dex
