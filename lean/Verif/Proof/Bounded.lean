import Verif.Proof.Errors
import Verif.Proof.Branch
import Verif.Props.Frame

/-! # Bounds on the arguments of the square root

The solver with two square roots that agree up to a bound gives the same result if the amounts and limit rates of the orders are not too large. -/

namespace Dex

open Spec

/-- Two functions agree on the numbers from zero to a bound. -/
def Agree (T : ℚ) (sqrt sqrt' : ℚ → Py ℚ) : Prop := ∀ t, 0 ≤ t → t ≤ T → sqrt t = sqrt' t

theorem map_sum_nonneg {l : List Order} {g : Order → ℚ} (h : ∀ o ∈ l, 0 ≤ g o) : 0 ≤ (l.map g).sum := by
  refine List.sum_nonneg ?_
  intro x hx
  obtain ⟨o, ho, rfl⟩ := List.mem_map.1 hx
  exact h o ho

theorem map_sum_split {l : List Order} (g : Order → ℚ) {i : ℕ} (h : i < l.length) :
    (l.map g).sum = ((l.take i).map g).sum + g l[i] + ((l.drop (i + 1)).map g).sum := by
  conv_lhs => rw [← List.take_append_drop i l, List.drop_eq_getElem_cons h]
  rw [List.map_append, List.sum_append, List.map_cons, List.sum_cons]; ring

theorem map_sum_subperm {l l' : List Order} {g : Order → ℚ} (h : l.Subperm l') (h0 : ∀ o ∈ l', 0 ≤ g o) : (l.map g).sum ≤ (l'.map g).sum := by
  obtain ⟨l1, hp, hs⟩ := h
  rw [← (hp.map g).sum_eq]
  clear hp
  induction hs with
  | slnil => exact le_refl _
  | cons a _ ih =>
    rw [List.map_cons, List.sum_cons]
    have := ih fun o ho => h0 o (List.mem_cons_of_mem _ ho)
    have := h0 a (List.mem_cons_self ..)
    linarith
  | cons_cons a _ ih =>
    rw [List.map_cons, List.map_cons, List.sum_cons, List.sum_cons]
    have := ih fun o ho => h0 o (List.mem_cons_of_mem _ ho)
    linarith

theorem map_sum_le_length {l : List Order} {g : Order → ℚ} {M : ℚ} (h : ∀ o ∈ l, g o ≤ M) : (l.map g).sum ≤ l.length * M := by
  induction l with
  | nil => simp
  | cons a l ih =>
    rw [List.map_cons, List.sum_cons, List.length_cons]
    have := ih fun o ho => h o (List.mem_cons_of_mem _ ho)
    have := h a (List.mem_cons_self ..)
    push_cast; linarith

/-! ### The rate search -/

theorem localOptima_agree {cfg : Config} {sqrt sqrt' : ℚ → Py ℚ} {fee : Fee} {d : IntervalData} {P T : ℚ} (ha : Agree T sqrt sqrt')
    (hf1 : 1 / 2 ≤ 1 - fee.value) (hf2 : 0 ≤ fee.value) (ib : d.bPartial < d.b.length) (is : d.sPartial < d.s.length)
    (hb : ∀ o ∈ d.b, 0 ≤ o.maxSell ∧ 0 < o.maxXrate ∧ o.maxXrate ≤ P) (hs : ∀ o ∈ d.s, 1 ≤ o.maxSell ∧ 0 < o.maxXrate)
    (hT : P * ((d.b.map (·.maxSell)).sum + (d.s.map fun o => o.maxSell / o.maxXrate).sum) ≤ T) :
    localOptima cfg sqrt fee d = localOptima cfg sqrt' fee d := by
  have hsum : ∀ l : List Order, (∀ o ∈ l, o ∈ d.s) →
      sumE (fun o => pyDiv o.maxSell o.maxXrate) l = .ok (l.map fun o => o.maxSell / o.maxXrate).sum :=
    fun l hl => sumE_of_forall fun o ho => pyDiv_of_ne (hs o (hl o ho)).2.ne'
  have hc : computeConstants d fee = .ok
      { bPi := d.b[d.bPartial].maxXrate, sPi := d.s[d.sPartial].maxXrate, bYb := d.b[d.bPartial].maxSell, sYb := d.s[d.sPartial].maxSell
        bYbF := sumYbF d.b d.bPartial, sYbF := sumYbF d.s d.sPartial
        c := (1 - fee.value) * (((d.b.drop (d.bPartial + 1)).map (·.maxSell)).sum - ((d.b.take d.bPartial).map (·.maxSell)).sum) -
          ((d.s.drop (d.sPartial + 1)).map fun o => o.maxSell / o.maxXrate).sum + ((d.s.take d.sPartial).map fun o => o.maxSell / o.maxXrate).sum
        f := 1 - fee.value } := by
    unfold computeConstants cConstant
    rw [pyGet_at ib, ok_bind, pyGet_at is, ok_bind, hsum _ (fun o ho => List.mem_of_mem_drop ho), ok_bind, hsum _ (fun o ho => List.mem_of_mem_take ho)]
    rfl
  unfold localOptima
  rw [hc, ok_bind, ok_bind]
  refine bind_congr' fun r3 _ => ?_
  congr 1
  unfold root4 sumYbF
  dsimp only
  refine bind_congr' fun t ht => ?_
  split
  swap
  · rfl
  rename_i h0
  rw [ha t h0]
  obtain ⟨hne, rfl⟩ := pyDiv_eq_ok.1 ht
  rw [map_sum_split _ ib, map_sum_split (fun o => o.maxSell / o.maxXrate) is] at hT
  have q1 := map_sum_nonneg (l := d.b.take d.bPartial) (g := (·.maxSell)) fun o ho => (hb o (List.mem_of_mem_take ho)).1
  have q2 := map_sum_nonneg (l := d.b.drop (d.bPartial + 1)) (g := (·.maxSell)) fun o ho => (hb o (List.mem_of_mem_drop ho)).1
  have sdiv : ∀ o ∈ d.s, 0 ≤ o.maxSell / o.maxXrate := fun o ho => div_nonneg (by linarith [(hs o ho).1]) (hs o ho).2.le
  have q3 := map_sum_nonneg (l := d.s.take d.sPartial) (g := fun o => o.maxSell / o.maxXrate) fun o ho => sdiv o (List.mem_of_mem_take ho)
  have q4 := map_sum_nonneg (l := d.s.drop (d.sPartial + 1)) (g := fun o => o.maxSell / o.maxXrate) fun o ho => sdiv o (List.mem_of_mem_drop ho)
  have q5 := map_sum_nonneg (l := d.s.drop (d.sPartial + 1)) (g := (·.maxSell)) fun o ho => by linarith [(hs o (List.mem_of_mem_drop ho)).1]
  obtain ⟨b1, b2, b3⟩ := hb _ (List.getElem_mem ib)
  obtain ⟨s1, s2⟩ := hs _ (List.getElem_mem is)
  refine le_trans ?_ hT
  generalize ((d.b.take d.bPartial).map (·.maxSell)).sum = bU at *
  generalize ((d.b.drop (d.bPartial + 1)).map (·.maxSell)).sum = bF at *
  generalize ((d.s.take d.sPartial).map fun o => o.maxSell / o.maxXrate).sum = sU at *
  generalize ((d.s.drop (d.sPartial + 1)).map fun o => o.maxSell / o.maxXrate).sum = sF at *
  generalize ((d.s.drop (d.sPartial + 1)).map (·.maxSell)).sum = sM at *
  generalize d.b[d.bPartial].maxSell = bY at *
  generalize d.b[d.bPartial].maxXrate = bP at *
  generalize d.s[d.sPartial].maxSell = sY at *
  generalize d.s[d.sPartial].maxXrate = sP at *
  have hf3 : 1 - fee.value ≤ 1 := by linarith
  generalize 1 - fee.value = f at *
  have hd : sP ≤ 2 * f * sP * (sY + sM) := by
    have h1 : 1 ≤ 2 * f := by linarith
    have h2 : 1 ≤ sY + sM := by linarith
    calc sP = 1 * sP * 1 := by ring
      _ ≤ 2 * f * sP * (sY + sM) := by gcongr
  rw [div_le_iff₀ (s2.trans_le hd)]
  have hA : 0 ≤ bU + bY + bF := by linarith
  have hS : 0 ≤ sU + sY / sP + sF := by have : 0 ≤ sY / sP := div_nonneg (by linarith) s2.le; linarith
  have hn : bP * (sP * (-(f * (bF - bU) - sF + sU) + f * bY + 2 * f * bF) + sY) ≤ bP * (bU + bY + bF + (sU + sY / sP + sF)) * sP := by
    have e : sP * (-(f * (bF - bU) - sF + sU) + f * bY + 2 * f * bF) + sY = sP * (f * (bU + bY + bF) + (sF - sU + sY / sP)) := by
      field_simp; ring
    rw [e]
    have : f * (bU + bY + bF) + (sF - sU + sY / sP) ≤ bU + bY + bF + (sU + sY / sP + sF) := by
      have : f * (bU + bY + bF) ≤ 1 * (bU + bY + bF) := by gcongr
      linarith
    calc bP * (sP * (f * (bU + bY + bF) + (sF - sU + sY / sP))) ≤ bP * (sP * (bU + bY + bF + (sU + sY / sP + sF))) := by gcongr
      _ = _ := by ring
  refine hn.trans ?_
  have hP : 0 ≤ P := by linarith
  gcongr

theorem YieldOk.subperm {b s : List Order} {fee : Fee} {d : IntervalData} (h : YieldOk (variants b s fee) d) : d.b.Subperm b ∧ d.s.Subperm s := by
  obtain ⟨pre, v, w, post, hall, _, _, eb, es⟩ := h.split
  have hp := pySortByRev_perm (fun v : Variant => v.xrate)
    (b.map (fun o => { isB := true, xrate := o.maxXrate * (1 - fee.value), data := o : Variant }) ++
      s.map (fun o => { isB := false, xrate := 1 / (o.maxXrate * (1 - fee.value)), data := o : Variant }))
  change (variants b s fee).Perm _ at hp
  have fb : (((variants b s fee).filter (·.isB)).map (·.data)).Perm b := by
    refine ((hp.filter _).map _).trans ?_
    rw [List.filter_append, List.filter_eq_self.2 (by simp), List.filter_eq_nil_iff.2 (by simp), List.append_nil, List.map_map]
    exact List.Perm.of_eq (List.map_id _)
  have fs : (((variants b s fee).filter (fun v => !v.isB)).map (·.data)).Perm s := by
    refine ((hp.filter _).map _).trans ?_
    rw [List.filter_append, List.filter_eq_nil_iff.2 (by simp), List.filter_eq_self.2 (by simp), List.nil_append, List.map_map]
    exact List.Perm.of_eq (List.map_id _)
  have hall' : variants b s fee = (pre ++ [v]) ++ (w :: post) := by rw [hall]; simp
  constructor
  · rw [eb]
    refine (List.reverse_perm _).subperm.trans (List.Subperm.trans (List.Sublist.subperm ?_) fb.subperm)
    rw [hall']
    exact ((List.sublist_append_left _ _).filter _).map _
  · rw [es]
    refine List.Subperm.trans (List.Sublist.subperm ?_) fs.subperm
    rw [hall']
    exact ((List.sublist_append_right _ _).filter _).map _

theorem findBestXrate_agree {cfg : Config} {sqrt sqrt' : ℚ → Py ℚ} {fee : Fee} {b s : List Order} {P T : ℚ} (ha : Agree T sqrt sqrt')
    (hf1 : 1 / 2 ≤ 1 - fee.value) (hf2 : 0 ≤ fee.value) (hin : SearchInput cfg fee b s)
    (hb : ∀ o ∈ b, o.maxXrate ≤ P) (hs : ∀ o ∈ s, 1 ≤ o.maxSell) (h0 : 0 ≤ P)
    (hT : P * ((b.map (·.maxSell)).sum + (s.map fun o => o.maxSell / o.maxXrate).sum) ≤ T) :
    findBestXrate cfg sqrt b s fee = findBestXrate cfg sqrt' b s fee := by
  unfold findBestXrate
  refine bind_congr' fun r hr => ?_
  obtain ⟨b', s'⟩ := r
  have hne : b ≠ [] ∧ s ≠ [] := by
    unfold pruneUnrealizable at hr
    simp only [bind_eq_ok] at hr
    obtain ⟨_, h1, _, h2, _⟩ := hr
    constructor <;> rintro rfl
    · cases h1
    · cases h2
  obtain ⟨b1, s1, hp, sb, ss, _, _⟩ := C14_exact (hin.prune hne.1 hne.2)
  cases hr.symm.trans hp
  dsimp only
  refine bind_congr' fun triv _ => bind_congr' fun ivs hi => ?_
  have hne' : b' ≠ [] ∧ s' ≠ [] := by
    unfold xrateIntervals at hi
    rw [bind_eq_ok] at hi
    obtain ⟨_, h1, _⟩ := hi
    obtain ⟨h1, h2⟩ := pyAssert_eq_ok.1 h1
    exact ⟨List.ne_nil_of_length_pos h1, List.ne_nil_of_length_pos h2⟩
  obtain ⟨ivs', ei, hys⟩ := xrateIntervals_spec (opt := triv.map (·.1)) hin.feeLt hne'.1 hne'.2 (fun o ho => (hin.ordB o (sb.subset ho)).1)
    (fun o ho => (hin.ordS o (ss.subset ho)).1)
  cases hi.symm.trans ei
  rw [mapE_congr (g := solveInterval cfg sqrt' fee)]
  intro d hd
  have hy := hys d hd
  obtain ⟨pb, ps⟩ := hy.subperm
  have pb' := pb.trans sb.subperm
  have ps' := ps.trans ss.subperm
  have e : localOptima cfg sqrt fee d = localOptima cfg sqrt' fee d := by
    refine localOptima_agree (P := P) ha hf1 hf2 hy.idxB hy.idxS (fun o ho => ?_) (fun o ho => ?_) (le_trans ?_ hT)
    · have := pb'.subset ho
      exact ⟨(hin.ordB o this).2, (hin.ordB o this).1, hb o this⟩
    · have := ps'.subset ho
      exact ⟨hs o this, (hin.ordS o this).1⟩
    · refine mul_le_mul_of_nonneg_left (add_le_add ?_ ?_) h0
      · exact map_sum_subperm pb' fun o ho => (hin.ordB o ho).2
      · exact map_sum_subperm ps' fun o ho => div_nonneg (hin.ordS o ho).2 (hin.ordS o ho).1.le
  unfold solveInterval
  rw [e]

/-! ### The solver -/

/-- Bounds on the orders of the instance: at most `N` orders, each sells between one and `M` units, with a limit rate between `1 / M` and `M`. -/
structure SmallPool (M : ℚ) (N : ℕ) (pool : List Order) : Prop where
  length : pool.length ≤ N
  one : 1 ≤ M
  sell : ∀ o ∈ pool, 1 ≤ o.maxSell ∧ o.maxSell ≤ M
  rate : ∀ o ∈ pool, 1 / M ≤ o.maxXrate ∧ o.maxXrate ≤ M

/-- A bound on the arguments of the square root. -/
def rootBound (cfg : Config) (M : ℚ) (N : ℕ) : ℚ := 2 * M * (2 * (N * M) + cfg.minRationalTradable + N * (M * M))

theorem SmallPool.der {M : ℚ} {N : ℕ} {pool : List Order} (h : SmallPool M N pool) {o : Order} (ho : Der pool o) :
    1 ≤ o.maxSell ∧ o.maxSell ≤ M ∧ 1 / M ≤ o.maxXrate ∧ o.maxXrate ≤ M := by
  obtain ⟨a, ha, e⟩ := ho
  unfold SameButExec at e
  rw [e]
  exact ⟨(h.sell a ha).1, (h.sell a ha).2, h.rate a ha⟩

theorem der_length {pool l : List Order} (h : ∀ o ∈ l, Der pool o) (hn : (l.map (·.id)).Nodup) : l.length ≤ pool.length := by
  have hsub : l.map (·.id) ⊆ pool.map (·.id) := by
    intro i hi
    obtain ⟨o, ho, rfl⟩ := List.mem_map.1 hi
    obtain ⟨a, ha, e⟩ := h o ho
    refine List.mem_map.2 ⟨a, ha, ?_⟩
    unfold SameButExec at e
    rw [e]
  have := (hn.subperm hsub).length_le
  simpa using this

theorem SmallPool.sums {M : ℚ} {N : ℕ} {pool l : List Order} (h : SmallPool M N pool) (hd : ∀ o ∈ l, Der pool o) (hn : (l.map (·.id)).Nodup) :
    (l.map (·.maxSell)).sum ≤ N * M ∧ (l.map fun o => o.maxSell / o.maxXrate).sum ≤ N * (M * M) := by
  have hM : (0 : ℚ) < M := by linarith [h.one]
  have hN : (l.length : ℚ) ≤ N := by exact_mod_cast (der_length hd hn).trans h.length
  constructor
  · refine (map_sum_le_length fun o ho => (h.der (hd o ho)).2.1).trans ?_
    gcongr
  · refine (map_sum_le_length (M := M * M) fun o ho => ?_).trans ?_
    · obtain ⟨h1, h2, h3, _⟩ := h.der (hd o ho)
      have h4 : 0 < o.maxXrate := (one_div_pos.2 hM).trans_le h3
      rw [div_le_iff₀ h4]
      have : 1 ≤ M * o.maxXrate := by
        have := mul_le_mul_of_nonneg_left h3 hM.le
        rwa [mul_one_div_cancel hM.ne'] at this
      calc o.maxSell ≤ M * 1 := by linarith
        _ ≤ M * (M * o.maxXrate) := by gcongr
        _ = _ := by ring
    · gcongr

theorem solveTokenPair_agree {cfg : Config} {sqrt sqrt' : ℚ → Py ℚ} {pair : Token × Token} {b s : List Order} {fee : Fee} {xrate bPrice : Option ℚ} {maxNr : ℤ}
    (h : xrate = none → findBestXrate cfg sqrt b s fee = findBestXrate cfg sqrt' b s fee) :
    solveTokenPair cfg sqrt pair b s fee xrate bPrice maxNr = solveTokenPair cfg sqrt' pair b s fee xrate bPrice maxNr := by
  have e : givenOrBestXrate cfg sqrt b s fee xrate = givenOrBestXrate cfg sqrt' b s fee xrate := by
    cases xrate with
    | some x => rfl
    | none => unfold givenOrBestXrate; rw [h rfl]
  unfold solveTokenPair
  rw [e]

/-- What the comparison of two runs needs. -/
structure AgreeInput (cfg : Config) (M : ℚ) (N : ℕ) (pool : List Order) (fee : Fee) (sqrt sqrt' : ℚ → Py ℚ) : Prop where
  agree : Agree (rootBound cfg M N) sqrt sqrt'
  isPool : Pool pool
  isCfg : CfgOk cfg
  small : SmallPool M N pool
  fee0 : 0 ≤ fee.value
  fee1 : fee.value < 1
  fee2 : 9 / 10 ≤ (1 - fee.value) ^ 2

theorem AgreeInput.half {cfg : Config} {M : ℚ} {N : ℕ} {pool : List Order} {fee : Fee} {sqrt sqrt' : ℚ → Py ℚ} (h : AgreeInput cfg M N pool fee sqrt sqrt') :
    1 / 2 ≤ 1 - fee.value := by
  by_contra hc
  nlinarith [h.fee1, h.fee2, h.fee0]

theorem AgreeInput.find {cfg : Config} {M : ℚ} {N : ℕ} {pool : List Order} {fee : Fee} {sqrt sqrt' : ℚ → Py ℚ} (h : AgreeInput cfg M N pool fee sqrt sqrt')
    {b s : List Order} (db : ∀ o ∈ b, Der pool o) (ds : ∀ o ∈ s, Der pool o) (ib : (b.map (·.id)).Nodup) (is : (s.map (·.id)).Nodup) :
    findBestXrate cfg sqrt b s fee = findBestXrate cfg sqrt' b s fee := by
  have hM := h.small.one
  have hR : (0 : ℚ) < cfg.minRationalTradable := by exact_mod_cast h.isCfg.minRational
  refine findBestXrate_agree (P := M) h.agree h.half h.fee0
    ⟨h.isCfg.minRational, h.fee1, h.isCfg.limit, h.isCfg.feePrice, ib, is, fun o ho => ⟨((db o ho).ok h.isPool).1, ((db o ho).ok h.isPool).2.1⟩,
      fun o ho => ⟨((ds o ho).ok h.isPool).1, ((ds o ho).ok h.isPool).2.1⟩⟩
    (fun o ho => (h.small.der (db o ho)).2.2.2) (fun o ho => (h.small.der (ds o ho)).1) (by linarith) ?_
  have h1 := (h.small.sums db ib).1
  have h2 := (h.small.sums ds is).2
  unfold rootBound
  have hN : (0 : ℚ) ≤ N := Nat.cast_nonneg _
  have hNM : 0 ≤ N * M := by positivity
  calc M * ((b.map (·.maxSell)).sum + (s.map fun o => o.maxSell / o.maxXrate).sum) ≤ M * (N * M + N * (M * M)) := by gcongr
    _ ≤ M * (2 * (N * M) + cfg.minRationalTradable + N * (M * M)) := by gcongr; linarith
    _ ≤ 2 * M * (2 * (N * M) + cfg.minRationalTradable + N * (M * M)) := by gcongr; linarith

theorem tokenPrice_agree {cfg : Config} {M : ℚ} {N : ℕ} {pool : List Order} {fee : Fee} {sqrt sqrt' : ℚ → Py ℚ} (h : AgreeInput cfg M N pool fee sqrt sqrt')
    {f : List Order} (df : ∀ o ∈ f, Der pool o) (jf : (f.map (·.id)).Nodup) (hne : f ≠ []) {imb : ℚ} (hi : imb ≤ N * M) (bTok : Token) :
    tokenPriceToCoverImbalance cfg sqrt bTok fee imb f = tokenPriceToCoverImbalance cfg sqrt' bTok fee imb f := by
  have hM := h.small.one
  have hM0 : 0 < M := by linarith
  have hR : (0 : ℚ) < cfg.minRationalTradable := by exact_mod_cast h.isCfg.minRational
  have hN : (0 : ℚ) ≤ N := Nat.cast_nonneg _
  have hNM : 0 ≤ N * M := by positivity
  obtain ⟨m, hm, _, e⟩ := createMarketOrder_eq (cfg := cfg) (bt := fee.token) (st := bTok) (amt := imb * (101 / 100)) hne
    (fun o ho => ((df o ho).ok h.isPool).1)
  have hm0 := ((df m hm).ok h.isPool).1
  have hx0 : 0 < 1 / (m.maxXrate * (9 / 10)) := by positivity
  unfold tokenPriceToCoverImbalance
  simp only [e, ok_bind]
  congr 1
  have hmx : max (imb * (101 / 100)) (cfg.minRationalTradable : ℚ) ≤ 2 * (N * M) + cfg.minRationalTradable :=
    max_le (by linarith) (by linarith)
  refine findBestXrate_agree (P := 2 * M) h.agree h.half h.fee0
    ⟨h.isCfg.minRational, h.fee1, h.isCfg.limit, h.isCfg.feePrice, by simp, jf, ?_, fun o ho => ⟨((df o ho).ok h.isPool).1, ((df o ho).ok h.isPool).2.1⟩⟩
    ?_ (fun o ho => (h.small.der (df o ho)).1) (by linarith) ?_
  · intro o ho
    rw [List.mem_singleton] at ho
    subst ho
    exact ⟨hx0, hR.le.trans (le_max_right _ _)⟩
  · intro o ho
    rw [List.mem_singleton] at ho
    subst ho
    show 1 / (m.maxXrate * (9 / 10)) ≤ 2 * M
    have h3 := (h.small.der (df m hm)).2.2.1
    rw [div_le_iff₀ (by positivity)]
    have : 1 ≤ M * m.maxXrate := by
      have := mul_le_mul_of_nonneg_left h3 hM0.le
      rwa [mul_one_div_cancel hM0.ne'] at this
    linarith
  · have h2 := (h.small.sums df jf).2
    simp only [List.map_cons, List.map_nil, List.sum_cons, List.sum_nil, add_zero]
    unfold rootBound
    gcongr
    exact hmx

theorem solveBFee_agree {cfg : Config} {M : ℚ} {N : ℕ} {pool : List Order} {fee : Fee} {sqrt sqrt' : ℚ → Py ℚ} (h : AgreeInput cfg M N pool fee sqrt sqrt')
    {f : List Order} (df : ∀ o ∈ f, Der pool o) (jf : (f.map (·.id)).Nodup) (hne : f ≠ []) {imb : ℚ} (hi : imb ≤ N * M) (bTok : Token) :
    solveBFee cfg sqrt imb bTok f fee = solveBFee cfg sqrt' imb bTok f fee := by
  unfold solveBFee
  rw [tokenPrice_agree h df jf hne hi]
  refine bind_congr' fun p _ => bind_congr' fun debt _ => bind_congr' fun fx _ => ?_
  rw [solveTokenPair_agree (sqrt' := sqrt') (fun h => by cases h)]

theorem givenExecF_agree {cfg : Config} {M : ℚ} {N : ℕ} {pool : List Order} {fee : Fee} {sqrt sqrt' : ℚ → Py ℚ} (h : AgreeInput cfg M N pool fee sqrt sqrt')
    {bk : Books} {pair : Token × Token} (hb : BookOf pool pair fee bk) (hfn : bk.f ≠ []) {nrF : ℕ} (hn : 1 ≤ nrF) {imb : ℚ} (hi : imb ≤ N * M) {x : ℚ} :
    givenExecF cfg sqrt nrF imb pair bk x fee = givenExecF cfg sqrt' nrF imb pair bk x fee := by
  unfold givenExecF
  have htake : bk.f.take nrF ≠ [] := by
    cases hf : bk.f with
    | nil => exact absurd hf hfn
    | cons o l => obtain ⟨k, rfl⟩ : ∃ k, nrF = k + 1 := ⟨nrF - 1, by omega⟩; simp
  rw [solveBFee_agree h (fun o ho => hb.derF o (List.mem_of_mem_take ho)) (by rw [List.map_take]; exact hb.idsF.sublist (List.take_sublist _ _)) htake hi]
  refine bind_congr' fun r _ => ?_
  obtain ⟨p, fT⟩ := r
  dsimp only
  split
  · rfl
  · unfold solveBuffered
    congr 1

theorem fOrdersLoop_agree {cfg : Config} {M : ℚ} {N : ℕ} {pool : List Order} {fee : Fee} {sqrt sqrt' : ℚ → Py ℚ} (h : AgreeInput cfg M N pool fee sqrt sqrt')
    {imb : ℚ} (hi : imb ≤ N * M) {pair : Token × Token} {x : ℚ} (hne : pair.1 ≠ pair.2) (hF1 : pair.1 ≠ fee.token) (hF2 : pair.2 ≠ fee.token) (hx : 0 < x)
    {ns : List ℕ} {st : FLoopState} {bk0 : Books} (hb : BookOf pool pair fee bk0) (hbn : bk0.b ≠ []) (hsn : bk0.s ≠ []) (hfn : bk0.f ≠ [])
    (hns : ∀ n ∈ ns, 1 ≤ n ∧ (n : ℤ) ≤ cfg.maxNrExec) (h1 : BooksSame bk0 st.books) :
    fOrdersLoop cfg sqrt imb pair x fee ns st = fOrdersLoop cfg sqrt' imb pair x fee ns st := by
  induction ns generalizing st with
  | nil => rfl
  | cons n ns ih =>
    unfold fOrdersLoop
    have ne_of : ∀ {l l' : List Order}, List.Forall₂ SameButExec l l' → l ≠ [] → l' ≠ [] := by
      intro l l' h hn hc; subst hc; cases h; exact hn rfl
    have hreset : ∀ l : List Order, List.Forall₂ SameButExec l (l.map (fun o => (o.withBuy 0).withSell 0)) := by
      intro l
      induction l with
      | nil => exact .nil
      | cons o l ih => exact .cons rfl ih
    have hsame : BooksSame bk0 { st.books with f := st.books.f.map (fun o => (o.withBuy 0).withSell 0) } :=
      ⟨h1.b, h1.s, forall₂_same_trans h1.f (hreset _)⟩
    dsimp only
    rw [givenExecF_agree h (hb.same hsame) (ne_of hsame.f hfn) (hns n (by simp)).1 hi]
    refine bind_congr' fun r e1 => ?_
    obtain ⟨r1, r2⟩ := givenExecF_spec h.isPool h.isCfg h.fee1 (hb.same hsame) hne hF1 hF2 hx (ne_of h1.b hbn) (ne_of h1.s hsn)
      (ne_of hsame.f hfn) (hns n (by simp)).1 (hns n (by simp)).2
      (fun o ho => by obtain ⟨a, _, rfl⟩ := List.mem_map.1 ho; rfl) e1
    have hR := hsame.trans r1
    have hns' : ∀ n ∈ ns, 1 ≤ n ∧ (n : ℤ) ≤ cfg.maxNrExec := fun m hm => hns m (by simp [hm])
    cases hbp : r.bPrice with
    | none => exact ih hns' (st := { st with books := r.books }) hR
    | some p =>
      dsimp only
      cases hbest : st.best with
      | none => exact ih hns' (st := { best := some r, books := r.books }) hR
      | some best =>
        dsimp only
        rw [ih hns' (st := { best := some r, books := r.books }) hR]

/-- The imbalance to be covered is at most the total of the amounts the s orders may sell. -/
theorem imbalance_le {cfg : Config} {b s : List Order} {x p : ℚ} {fee : Fee} {v : ℚ} (hf : fee.value < 1) (hx : 0 < x) (hb : ∀ o ∈ b, 0 ≤ o.buy)
    (hs : ∀ o ∈ s, ExactAt cfg (1 / x) fee o ∧ 0 ≤ o.maxSell) (h : bBuyTokenImbalance b s x p fee = .ok v) : v ≤ (s.map (·.maxSell)).sum := by
  have hφ : 0 < 1 - fee.value := by linarith
  unfold bBuyTokenImbalance at h
  simp only [pyDiv_of_ne hx.ne', ok_bind] at h
  rw [sumE_of_forall (g := fun o => o.buy * (1 / x) / (1 - fee.value)) (fun o _ => by unfold ratSellFromBuy; rw [pyDiv_of_ne hφ.ne'])] at h
  cases h
  have h1 := map_sum_nonneg hb
  have h2 : (s.map fun o => o.buy * (1 / x) / (1 - fee.value)).sum ≤ (s.map (·.maxSell)).sum := by
    refine List.sum_le_sum fun o ho => ?_
    obtain ⟨h3, h4⟩ := hs o ho
    rcases h3.nonneg.lt_or_eq with h5 | h5
    · exact h3.maxSell h5
    · rw [← h5, zero_mul, zero_div]; exact h4
  linarith

theorem solveOriented_agree {cfg : Config} {M : ℚ} {N : ℕ} {pool : List Order} {fee : Fee} {ext : Ext} {sqrt' : ℚ → Py ℚ} {fdiv' : ℚ → ℕ → Py ℚ}
    (h : AgreeInput cfg M N pool fee ext.sqrt sqrt') {pair : Token × Token} {b s f : List Order} {xrate : Option ℚ}
    (hb : BookOf pool pair fee { b, s, f }) (hne : pair.1 ≠ pair.2) (hF2 : pair.2 ≠ fee.token) (hx : ∀ y, xrate = some y → 0 < y) :
    solveOriented cfg ext pair b s f fee xrate = solveOriented cfg { ext with sqrt := sqrt', fdiv := fdiv' } pair b s f fee xrate := by
  have hsearch : SearchInput cfg fee b s := hb.search h.isPool h.isCfg h.fee1
  unfold solveOriented
  rw [← solveTokenPair_agree (sqrt := ext.sqrt) (fun _ => h.find hb.derB hb.derS hb.idsB hb.idsS)]
  refine bind_congr' fun r h1 => ?_
  obtain ⟨xo, b1, s1⟩ := r
  dsimp only
  by_cases h0 : countNrExec b1 = 0
  · rw [if_pos h0, if_pos h0]
  rw [if_neg h0, if_neg h0]
  cases xo with
  | none => rfl
  | some x =>
    dsimp only
    obtain ⟨x', x0, e0, hy, _, _, _, _, hpr, _, hex⟩ := (solveTokenPair_spec hsearch h.isCfg.limit hx (fun q hq => by cases hq) h1).resolve_left
      (by rintro ⟨h, _⟩; cases h)
    cases e0
    have hsame : BooksSame { b, s, f } { b := b1, s := s1, f } :=
      ⟨forall₂_exec_of_buy hex.sameB, forall₂_exec_of_buy hex.sameS, forall₂_same_refl _⟩
    have hb1 := hb.same hsame
    split
    · rfl
    rename_i hF
    split
    · rfl
    rename_i hf0
    refine bind_congr' fun imb hi => bind_congr' fun r hn => ?_
    have himb : imb ≤ N * M := by
      refine (imbalance_le h.fee1 hy (fun o ho => (hex.exB o ho).nonneg) (fun o ho => ⟨hex.exS o ho, ?_⟩) hi).trans ?_
      · exact ((hb1.derS o ho).ok h.isPool).2.1
      · exact (h.small.sums hb1.derS hb1.idsS).1
    obtain ⟨mn, mx⟩ := r
    have hcnt : nrFOrders cfg b1 s1 f = .ok (max (min (cfg.maxNrExec - countNrExec b1 - countNrExec s1 + 1) (min (f.length : ℤ) (cfg.maxNrExec - 2))) 1,
        min (f.length : ℤ) (cfg.maxNrExec - 2)) := by
      unfold nrFOrders
      dsimp only
      rw [pyAssert_of hex.count]; rfl
    cases hn.symm.trans hcnt
    generalize hmx : min (f.length : ℤ) (cfg.maxNrExec - 2) = mx
    generalize hmn : max (min (cfg.maxNrExec - countNrExec b1 - countNrExec s1 + 1) mx) 1 = mn
    dsimp only
    split
    · rfl
    rename_i hle
    have hperm := sortedByExecPriority_perm f
    have hbS : BookOf pool pair fee { b := b1, s := s1, f := sortedByExecPriority f } :=
      ⟨hb1.derB, hb1.derS, fun o ho => hb1.derF o (hperm.mem_iff.1 ho), hb1.idsB, hb1.idsS, (hperm.map _).nodup_iff.2 hb1.idsF, hb1.clsB,
        hb1.clsS, fun h o ho => hb1.clsF h o (hperm.mem_iff.1 ho)⟩
    have hbn : b1 ≠ [] := by rintro rfl; exact h0 rfl
    have hsn : s1 ≠ [] := by
      obtain ⟨o, ho, hpos⟩ := exists_of_countNrExec h0
      obtain ⟨o', ho', _⟩ := hex.both.1 ⟨o, ho, hpos⟩
      rintro rfl; simp at ho'
    have hfn : sortedByExecPriority f ≠ [] := by
      intro h; rw [h] at hperm; rw [← hperm.length_eq] at hf0; simp at hf0
    have hns : ∀ n ∈ (List.range (mx + 1 - mn).toNat).map (· + mn.toNat), 1 ≤ n ∧ (n : ℤ) ≤ cfg.maxNrExec := by
      intro n hn
      obtain ⟨i, hi, rfl⟩ := List.mem_map.1 hn
      rw [List.mem_range] at hi
      omega
    rw [fOrdersLoop_agree h himb hne hF hF2 hy (bk0 := { b := b1, s := s1, f := sortedByExecPriority f }) hbS hbn hsn hfn hns (BooksSame.refl _)]
    rfl

theorem solveTokenPairAndFee_agree {cfg : Config} {M : ℚ} {N : ℕ} {pool : List Order} {fee : Fee} {ext : Ext} {sqrt' : ℚ → Py ℚ} {fdiv' : ℚ → ℕ → Py ℚ}
    (h : AgreeInput cfg M N pool fee ext.sqrt sqrt') {pair : Token × Token} {b s f : List Order} {xrate : Option ℚ}
    (hb : BookOf pool pair fee { b, s, f }) (hne : pair.1 ≠ pair.2) (hx : ∀ y, xrate = some y → 0 < y) :
    solveTokenPairAndFee cfg ext pair b s f fee xrate = solveTokenPairAndFee cfg { ext with sqrt := sqrt', fdiv := fdiv' } pair b s f fee xrate := by
  unfold solveTokenPairAndFee
  refine bind_congr' fun r hr => ?_
  obtain ⟨b1, s1⟩ := r
  have hne' : b ≠ [] ∧ s ≠ [] := by
    unfold pruneUnrealizable at hr
    simp only [bind_eq_ok] at hr
    obtain ⟨_, h1, _, h2, _⟩ := hr
    constructor <;> rintro rfl
    · cases h1
    · cases h2
  obtain ⟨b1', s1', hp, sb, ss, _, _⟩ := C14_exact (SearchInput.prune (hb.search h.isPool h.isCfg h.fee1) hne'.1 hne'.2)
  cases hr.symm.trans hp
  have hb1 := hb.sub sb ss (List.Sublist.refl _)
  dsimp only
  split
  · rfl
  split
  · rename_i hF
    have hsw : BookOf pool (pair.2, pair.1) fee { b := s1, s := b1, f } :=
      ⟨hb1.derS, hb1.derB, hb1.derF, hb1.idsS, hb1.idsB, hb1.idsF, hb1.clsS, hb1.clsB, fun h => absurd hF h⟩
    rw [solveOriented_agree h hsw (Ne.symm hne) (by rw [← hF]; exact hne) hx]
  · rename_i hF
    rw [solveOriented_agree h hb1 hne hF hx]

theorem economicLoop_agree {cfg : Config} {M : ℚ} {N : ℕ} {pool : List Order} {fee : Fee} {ext : Ext} {sqrt' : ℚ → Py ℚ} {fdiv' : ℚ → ℕ → Py ℚ}
    (h : AgreeInput cfg M N pool fee ext.sqrt sqrt') {pair : Token × Token} {xrate : Option ℚ} (hbr : ∀ E, MaxBranching E (ext.branch E))
    (hne : pair.1 ≠ pair.2) (hx : ∀ y, xrate = some y → 0 < y) {fuel : ℕ} {bk : Books} {gone : List Order} {cur : Solution} (hb : BookOf pool pair fee bk) :
    economicLoop cfg ext pair fee xrate fuel bk gone cur =
      economicLoop cfg { ext with sqrt := sqrt', fdiv := fdiv' } pair fee xrate fuel bk gone cur := by
  induction fuel generalizing bk gone cur with
  | zero => rfl
  | succ fuel ih =>
    unfold economicLoop
    split
    swap
    · rfl
    rw [← solveTokenPairAndFee_agree h (f := bk.f) hb hne hx]
    refine bind_congr' fun r h1 => ?_
    obtain ⟨g1, _⟩ := solveTokenPairAndFee_spec h.isPool h.isCfg h.fee1 (b := bk.b) (s := bk.s) (f := bk.f) hb hne hbr hx h1
    have hbk : BookOf pool pair fee r.books := BookOf.same (bk := { b := bk.b, s := bk.s, f := bk.f }) hb g1
    dsimp only
    refine bind_congr' fun v _ => ?_
    split
    · rfl
    refine bind_congr' fun sub _ => ?_
    split
    · rfl
    refine bind_congr' fun bm _ => bind_congr' fun sm _ => bind_congr' fun pb _ => bind_congr' fun ps _ => ?_
    split
    · exact ih (hbk.sub List.filter_sublist (List.Sublist.refl _) (List.Sublist.refl _))
    · exact ih (hbk.sub (List.Sublist.refl _) List.filter_sublist (List.Sublist.refl _))

end Dex
