import Verif.Lemmas.Law
import Verif.Lemmas.RealDisc
import Verif.Props.C18
import Verif.Lemmas.FairInst

/-!
# C29, C30: laws of the generators by inversion and of the generators of 0/1 variates

Exact arithmetic, an ideal engine (`FairEngine`), and `nextafter(0,1)` idealised to 0.
-/

set_option linter.unusedSectionVars false
open MeasureTheory Set
open scoped ENNReal

namespace Stats
open Fl Spec

section
variable [Lib] [Ideal] {S : Type*} [MeasurableSpace S] [Engine S] {P : Measure S}

theorem C29_runif (hP : FairEngine P) {a b : ℝ} (h : Lib.next a b < b) (hab : a < b) :
    HasLaw P (fun s => some (runif (fin a) (fin b) s)) (densLaw (unifPdf (Lib.next a b) b)) := by
  refine HasLaw.congr (hP.unif _ _ h) (.of_forall fun s => ?_)
  rw [runif, if_neg (by simp [unif_ok, hab])]
  rfl

theorem C29_rexp (hP : FairEngine P) (hn : Lib.next 0 1 = 0) {rate : ℝ} (h : 0 < rate) :
    HasLaw P (fun s => some (rexp (fin rate) s)) (densLaw (expPdf rate)) :=
  inversion_law hP hn (isCdf_exp h) (qexp_inv h) fun s => by
    rw [rexp, if_neg (by simp [exp_ok, h.le]), zero_eq, one_eq]

theorem C29_rcauchy (hP : FairEngine P) (hn : Lib.next 0 1 = 0) (mu : ℝ) {sigma : ℝ} (h : 0 < sigma) :
    HasLaw P (fun s => some (rcauchy (fin mu) (fin sigma) s)) (densLaw (cauchyPdf mu sigma)) :=
  inversion_law hP hn (isCdf_cauchy mu h) (qcauchy_inv mu h) fun s => by
    rw [rcauchy, if_neg (by simp [cauchy_ok, h.le]), zero_eq, one_eq]

theorem C29_rlaplace (hP : FairEngine P) (hn : Lib.next 0 1 = 0) (mu : ℝ) {sigma : ℝ} (h : 0 < sigma) :
    HasLaw P (fun s => some (rlaplace (fin mu) (fin sigma) s)) (densLaw (laplacePdf mu sigma)) :=
  inversion_law hP hn (isCdf_laplace mu h) (qlaplace_inv mu h) fun s => by
    rw [rlaplace, if_neg (by simp [laplace_ok, h.le]), zero_eq, one_eq]

theorem C29_rlogis (hP : FairEngine P) (hn : Lib.next 0 1 = 0) (mu : ℝ) {sigma : ℝ} (h : 0 < sigma) :
    HasLaw P (fun s => some (rlogis (fin mu) (fin sigma) s)) (densLaw (logisPdf mu sigma)) :=
  inversion_law hP hn (isCdf_logis mu h) (qlogis_inv mu h) fun s => by
    rw [rlogis, if_neg (by simp [logis_ok, h.le]), zero_eq, one_eq]

theorem C29_rweibull (hP : FairEngine P) (hn : Lib.next 0 1 = 0) {k θ : ℝ} (hk : Lib.eps ≤ k) (hθ : Lib.eps ≤ θ) :
    HasLaw P (fun s => some (rweibull (fin k) (fin θ) s)) (densLaw (weibullPdf k θ)) :=
  inversion_law hP hn (isCdf_weibull (Lib.eps_pos.trans_le hk) (Lib.eps_pos.trans_le hθ)) (qweibull_inv hk hθ)
    fun s => by rw [rweibull, if_neg (by simp [weibull_ok, eps, hk, hθ]), zero_eq, one_eq]

end

/-! ### two-valued variates -/

theorem map_threshold {p : ℝ} (h0 : 0 ≤ p) (h1 : p ≤ 1) {α : Type*} [MeasurableSpace α] (a b : α) :
    (volume.restrict (Ioo (0 : ℝ) 1)).map (fun u => if u ≤ p then a else b) =
      ENNReal.ofReal p • Measure.dirac a + ENNReal.ofReal (1 - p) • Measure.dirac b := by
  have hm : Measurable fun u : ℝ => if u ≤ p then a else b :=
    Measurable.ite measurableSet_Iic measurable_const measurable_const
  have v1 : volume (Ioo (0 : ℝ) 1 ∩ Iic p) = ENNReal.ofReal p := by
    rcases h1.lt_or_eq with h | rfl
    · rw [show Ioo (0 : ℝ) 1 ∩ Iic p = Ioc 0 p by
        ext u; simp only [mem_inter_iff, mem_Ioo, mem_Iic, mem_Ioc]
        exact ⟨fun h => ⟨h.1.1, h.2⟩, fun h' => ⟨⟨h'.1, h'.2.trans_lt h⟩, h'.2⟩⟩, Real.volume_Ioc, sub_zero]
    · rw [inter_eq_left.2 fun u hu => hu.2.le, Real.volume_Ioo, sub_zero]
  have v2 : volume (Ioo (0 : ℝ) 1 ∩ (Iic p)ᶜ) = ENNReal.ofReal (1 - p) := by
    rw [show Ioo (0 : ℝ) 1 ∩ (Iic p)ᶜ = Ioo p 1 by
        ext u; simp only [mem_inter_iff, mem_Ioo, mem_compl_iff, mem_Iic, not_le]
        exact ⟨fun h => ⟨h.2, h.1.2⟩, fun h => ⟨⟨h0.trans_lt h.1, h.2⟩, h.1⟩⟩, Real.volume_Ioo]
  refine Measure.ext fun s hs => ?_
  rw [Measure.map_apply hm hs, Measure.restrict_apply (hm hs), inter_comm]
  simp only [Measure.add_apply, Measure.smul_apply, Measure.dirac_apply' _ hs, smul_eq_mul]
  have e : Ioo (0 : ℝ) 1 ∩ (fun u => if u ≤ p then a else b) ⁻¹' s =
      (Ioo (0 : ℝ) 1 ∩ Iic p) ∩ {_u | a ∈ s} ∪ (Ioo (0 : ℝ) 1 ∩ (Iic p)ᶜ) ∩ {_u | b ∈ s} := by
    ext u
    simp only [mem_inter_iff, mem_preimage, mem_union, mem_ofPred_eq, mem_Iic, mem_compl_iff]
    by_cases hu : u ≤ p <;> simp [hu]
  rw [e, measure_union]
  · by_cases ha : a ∈ s <;> by_cases hb : b ∈ s <;>
      simp only [ha, hb, Set.ofPred_true, Set.ofPred_false, inter_univ, inter_empty, v1, v2, measure_empty, indicator_of_mem,
        indicator_of_notMem, Pi.one_apply, mul_one, mul_zero, not_false_eq_true]
  · refine Set.disjoint_left.2 fun u h1 h2 => h2.1.2 h1.1.2
  · exact (measurableSet_Ioo.inter measurableSet_Iic.compl).inter (MeasurableSet.const _)

/-- the law of an integer, on the integers -/
noncomputable def massZ (p : ℤ → ℝ) : Measure ℤ := Measure.sum fun k : ℤ => ENNReal.ofReal (p k) • Measure.dirac k

theorem massZ_singleton (p : ℤ → ℝ) (k : ℤ) : massZ p {k} = ENNReal.ofReal (p k) := by
  rw [massZ, Measure.sum_apply _ (measurableSet_singleton k), tsum_eq_single k]
  · simp
  · intro j hj
    simp [hj]

theorem massZ_map (p : ℤ → ℝ) : (massZ p).map (fun k : ℤ => (k : ℝ)) = massLaw p := by
  have hm : Measurable fun k : ℤ => (k : ℝ) := measurable_of_countable _
  rw [massZ, massLaw, Measure.map_sum hm.aemeasurable]
  congr 1
  funext k
  rw [Measure.map_smul, Measure.map_dirac' hm]

instance (p : ℤ → ℝ) : SFinite (massZ p) := by rw [massZ]; infer_instance
instance (p : ℤ → ℝ) : SFinite (massLaw p) := by rw [massLaw]; infer_instance

theorem massZ_bern {p : ℝ} : massZ (bernPmf p) = ENNReal.ofReal p • Measure.dirac 1 + ENNReal.ofReal (1 - p) • Measure.dirac 0 := by
  refine Measure.ext_of_singleton fun k => ?_
  rw [massZ_singleton]
  simp only [Measure.add_apply, Measure.smul_apply, Measure.dirac_apply, smul_eq_mul, bernPmf, indicator, mem_singleton_iff,
    Pi.one_apply, eq_comm (b := k)]
  split_ifs with h1 h2 <;> simp
  omega

theorem massZ_radem {p : ℝ} :
    massZ (rademPmf p) = ENNReal.ofReal p • Measure.dirac 1 + ENNReal.ofReal (1 - p) • Measure.dirac (-1) := by
  refine Measure.ext_of_singleton fun k => ?_
  rw [massZ_singleton]
  simp only [Measure.add_apply, Measure.smul_apply, Measure.dirac_apply, smul_eq_mul, rademPmf, indicator, mem_singleton_iff,
    Pi.one_apply, eq_comm (b := k)]
  split_ifs with h1 h2 <;> simp
  omega

/-- one more trial -/
theorem massZ_binom_succ {p : ℝ} (h0 : 0 ≤ p) (h1 : p ≤ 1) (n : ℕ) :
    ((massZ (bernPmf p)).prod (massZ (binomPmf n p))).map (fun x => x.1 + x.2) = massZ (binomPmf (n + 1) p) := by
  have hm : Measurable fun x : ℤ × ℤ => x.1 + x.2 := measurable_of_countable _
  have hq : 0 ≤ 1 - p := by linarith
  refine Measure.ext_of_singleton fun k => ?_
  rw [massZ_singleton, massZ_bern, Measure.add_prod, Measure.prod_smul_left, Measure.prod_smul_left,
    Measure.dirac_prod, Measure.dirac_prod, Measure.map_add _ _ hm, Measure.map_smul, Measure.map_smul,
    Measure.map_map hm (measurable_of_countable _), Measure.map_map hm (measurable_of_countable _)]
  simp only [Measure.add_apply, Measure.smul_apply, smul_eq_mul]
  rw [Measure.map_apply (measurable_of_countable _) (measurableSet_singleton k),
    Measure.map_apply (measurable_of_countable _) (measurableSet_singleton k)]
  have e1 : (((fun x : ℤ × ℤ => x.1 + x.2) ∘ Prod.mk 1) ⁻¹' {k}) = {k - 1} := by
    ext j; simp only [mem_preimage, Function.comp, mem_singleton_iff]; omega
  have e2 : (((fun x : ℤ × ℤ => x.1 + x.2) ∘ Prod.mk 0) ⁻¹' {k}) = {k} := by
    ext j; simp only [mem_preimage, Function.comp, mem_singleton_iff]; omega
  rw [e1, e2, massZ_singleton, massZ_singleton, ← ENNReal.ofReal_mul h0, ← ENNReal.ofReal_mul hq,
    ← ENNReal.ofReal_add (mul_nonneg h0 (binomPmf_nonneg h0 h1 _)) (mul_nonneg hq (binomPmf_nonneg h0 h1 _))]
  congr 1
  rcases lt_trichotomy k 0 with hk | rfl | hk
  · rw [binomPmf_neg hk, binomPmf_neg hk, binomPmf_neg (by omega)]; ring
  · have : (0 : ℤ) ≤ n + 1 := by omega
    simp [binomPmf, this]; ring
  · obtain ⟨j, rfl⟩ : ∃ j : ℕ, k = j + 1 := ⟨(k - 1).toNat, by omega⟩
    rw [add_sub_cancel_right]
    rcases lt_trichotomy j n with hj | rfl | hj
    · have a1 : (0 : ℤ) ≤ j ∧ (j : ℤ) ≤ n := by omega
      have a2 : (0 : ℤ) ≤ j + 1 ∧ (j : ℤ) + 1 ≤ n := by omega
      have a3 : (0 : ℤ) ≤ j + 1 ∧ (j : ℤ) + 1 ≤ (n + 1 : ℕ) := by omega
      have t : ((j : ℤ) + 1).toNat = j + 1 := by omega
      simp only [binomPmf, if_pos a1, if_pos a2, if_pos a3, t, Int.toNat_natCast, Nat.choose_succ_succ]
      obtain ⟨m, rfl⟩ : ∃ m, n = j + m + 1 := ⟨n - j - 1, by omega⟩
      rw [show j + m + 1 - j = m + 1 by omega, show j + m + 1 - (j + 1) = m by omega,
        show j + m + 1 + 1 - (j + 1) = m + 1 by omega]
      push_cast; ring
    · have a1 : (0 : ℤ) ≤ j ∧ (j : ℤ) ≤ j := by omega
      have a2 : ¬ ((0 : ℤ) ≤ j + 1 ∧ (j : ℤ) + 1 ≤ j) := by omega
      have a3 : (0 : ℤ) ≤ j + 1 ∧ (j : ℤ) + 1 ≤ (j + 1 : ℕ) := by omega
      have t : ((j : ℤ) + 1).toNat = j + 1 := by omega
      simp only [binomPmf, if_pos a1, if_neg a2, if_pos a3, t, Int.toNat_natCast, Nat.choose_self, Nat.sub_self]
      push_cast; ring
    · rw [binomPmf_gt (by omega), binomPmf_gt (by omega), binomPmf_gt (by push_cast; omega)]; ring

theorem massZ_binom_zero (p : ℝ) : massZ (binomPmf 0 p) = Measure.dirac 0 := by
  refine Measure.ext_of_singleton fun k => ?_
  rw [massZ_singleton, Measure.dirac_apply]
  by_cases hk : k = 0
  · subst hk; simp [binomPmf]
  · rw [indicator_of_notMem (by simpa using Ne.symm hk), binomPmf, if_neg (by omega), ENNReal.ofReal_zero]

section
variable [Lib] [Ideal] {S : Type*} [MeasurableSpace S] [Engine S] {P : Measure S}

theorem rbern_draw (hP : FairEngine P) (hn : Lib.next 0 1 = 0) {p : ℝ} (h0 : 0 ≤ p) (h1 : p ≤ 1) :
    ∃ K N, Draw P K N (massZ (bernPmf p)) ∧ ∀ᵐ s ∂P, rbern (fin p) s = (fin (K s : ℤ), N s) := by
  have := hP.prob
  obtain ⟨U, N, hd, h⟩ := fair_runif hP hn
  have hd' := hd.map (f := fun u => if u ≤ p then (1 : ℤ) else 0)
    (Measurable.ite measurableSet_Iic measurable_const measurable_const)
  rw [map_threshold h0 h1, ← massZ_bern] at hd'
  refine ⟨_, N, hd', ?_⟩
  filter_upwards [h] with s hs
  rw [rbern, if_neg (by simp [bern_ok, h0, h1]), zero_eq, one_eq]
  simp only [hs.1, fin_le_fin]
  split_ifs <;> simp

theorem C29_rbern (hP : FairEngine P) (hn : Lib.next 0 1 = 0) {p : ℝ} (h0 : 0 ≤ p) (h1 : p ≤ 1) :
    HasLaw P (fun s => some (rbern (fin p) s)) (massLaw (bernPmf p)) := by
  have := hP.prob
  obtain ⟨K, N, hd, h⟩ := rbern_draw hP hn h0 h1
  rw [hasLaw_iff, ← massZ_map]
  exact ⟨_, N, hd.map (measurable_of_countable _), h.mono fun s hs => by rw [hs]⟩

theorem C29_rradem (hP : FairEngine P) (hn : Lib.next 0 1 = 0) {p : ℝ} (h0 : 0 ≤ p) (h1 : p ≤ 1) :
    HasLaw P (fun s => some (rradem (fin p) s)) (massLaw (rademPmf p)) := by
  have := hP.prob
  obtain ⟨U, N, hd, h⟩ := fair_runif hP hn
  have hd' := hd.map (f := fun u => if u ≤ p then (1 : ℤ) else -1)
    (Measurable.ite measurableSet_Iic measurable_const measurable_const)
  rw [map_threshold h0 h1, ← massZ_radem] at hd'
  rw [hasLaw_iff, ← massZ_map]
  refine ⟨_, N, hd'.map (measurable_of_countable _), ?_⟩
  filter_upwards [h] with s hs
  rw [rradem, if_neg (by simp [radem_ok, h0, h1]), zero_eq, one_eq]
  simp only [hs.1, fin_le_fin]
  split_ifs <;> simp

theorem rbinom_draw (hP : FairEngine P) (hn : Lib.next 0 1 = 0) {p : ℝ} (h0 : 0 ≤ p) (h1 : p ≤ 1) (n : ℕ) :
    ∃ K N, Draw P K N (massZ (binomPmf n p)) ∧
      ∀ᵐ s ∂P, ∀ m : ℝ, rbinom_loop (fin p) n (fin m) s = (fin (m + (K s : ℤ)), N s) := by
  have := hP.prob
  induction n with
  | zero =>
    refine ⟨fun _ => 0, id, ⟨measurable_const, measurable_id, ?_⟩, .of_forall fun s m => ?_⟩
    · rw [massZ_binom_zero, Measure.dirac_prod]; rfl
    · simp [rbinom_loop]
  | succ n ih =>
    obtain ⟨K, N, hd, h⟩ := ih
    obtain ⟨B, M, hb, h'⟩ := rbern_draw hP hn h0 h1
    have := hb.isProb
    have hd' := (hb.comp hd).map (f := fun x : ℤ × ℤ => x.1 + x.2) (measurable_of_countable _)
    rw [massZ_binom_succ h0 h1] at hd'
    refine ⟨_, _, hd', ?_⟩
    filter_upwards [h', hb.ae h] with s hs hs' m
    rw [rbinom_loop]
    simp only [hs, ideal]
    rw [hs' _]
    push_cast
    rw [add_assoc]

theorem C30_rbinom (hP : FairEngine P) (hn : Lib.next 0 1 = 0) {p : ℝ} (h0 : 0 ≤ p) (h1 : p ≤ 1) (n : ℕ) :
    HasLaw P (fun s => some (rbinom n (fin p) s)) (massLaw (binomPmf n p)) := by
  have := hP.prob
  obtain ⟨K, N, hd, h⟩ := rbinom_draw hP hn h0 h1 n
  rw [hasLaw_iff, ← massZ_map]
  refine ⟨_, N, hd.map (measurable_of_countable _), ?_⟩
  filter_upwards [h] with s hs
  rw [rbinom, if_neg (by simp [binom_ok, h0, h1]), zero_eq, Int.toNat_natCast, hs 0, zero_add]

/-! ### Poisson -/

theorem pois_level (rate : ℝ) (k : ℤ) (hk : 0 ≤ k) :
    cumZ (poisPmf rate) k - cumZ (poisPmf rate) (k - 1) = poisPmf rate k := by
  obtain ⟨k, rfl⟩ := Int.eq_ofNat_of_zero_le hk
  rcases Nat.eq_zero_or_pos k with rfl | h
  · rw [cumZ_nat, cumZ_neg (by simp)]; simp
  · obtain ⟨j, rfl⟩ : ∃ j, k = j + 1 := ⟨k - 1, by omega⟩
    rw [show ((j + 1 : ℕ) : ℤ) - 1 = (j : ℕ) by push_cast; ring, cumZ_nat, cumZ_nat, Finset.sum_range_succ _ (j + 1)]
    ring

/-- the Poisson quantile of a uniform variate has the Poisson law -/
theorem qpois_measurable {rate : ℝ} (hr : Lib.eps ≤ rate) :
    ∃ K : ℝ → ℤ, Measurable K ∧ (∀ u, 0 < u → u < 1 → qpois (fin u) (fin rate) = some (fin (K u))) ∧
      (volume.restrict (Ioo (0 : ℝ) 1)).map K = massZ (poisPmf rate) := by
  classical
  have hr0 : 0 ≤ rate := Lib.eps_pos.le.trans hr
  have hmono := cumZ_mono (poisPmf_nonneg hr0)
  have hex : ∀ u : ℝ, ∃ k : ℤ, 0 < u → u < 1 → qpois (fin u) (fin rate) = some (fin k) ∧ 0 ≤ k ∧
      u < cumZ (poisPmf rate) k ∧ cumZ (poisPmf rate) (k - 1) ≤ u := by
    intro u
    by_cases hu : 0 < u ∧ u < 1
    · obtain ⟨k, hk, hk0, ha, hb⟩ := C19_qpois_above_partial hr hu.1 hu.2
      simp only [ppois_fin hr0, fin_lt_fin, fin_le_fin] at ha hb
      refine ⟨k, fun _ _ => ⟨hk, hk0, ha, ?_⟩⟩
      rcases (show (0 : ℤ) ≤ k from hk0).eq_or_lt with rfl | hk
      · rw [cumZ_neg (by omega)]; exact hu.1.le
      · exact hb (k - 1) (by simp only [mem_Ici]; omega) (by omega)
    · exact ⟨0, fun a b => absurd ⟨a, b⟩ hu⟩
  choose Y hY using hex
  set K : ℝ → ℤ := fun u => if u ∈ Ioo (0 : ℝ) 1 then Y u else 0 with hK
  have e : ∀ u, 0 < u → u < 1 → K u = Y u := fun u a b => if_pos ⟨a, b⟩
  have hpre : ∀ k : ℤ, K ⁻¹' {k} ∩ Ioo 0 1 =
      if 0 ≤ k then Ioo 0 1 ∩ Ico (cumZ (poisPmf rate) (k - 1)) (cumZ (poisPmf rate) k) else ∅ := by
    intro k
    ext u
    by_cases hu : u ∈ Ioo (0 : ℝ) 1
    · obtain ⟨-, y1, y2, y3⟩ := hY u hu.1 hu.2
      simp only [mem_inter_iff, mem_preimage, mem_singleton_iff, hu, and_true]
      rw [e u hu.1 hu.2]
      constructor
      · rintro rfl
        rw [if_pos y1]; exact ⟨hu, y3, y2⟩
      · split_ifs with hk
        · rintro ⟨-, a, b⟩
          by_contra hne
          rcases lt_or_gt_of_ne hne with hlt | hlt
          · exact absurd (hmono (show Y u ≤ k - 1 by omega)) (not_le.2 (a.trans_lt y2))
          · exact absurd (hmono (show k ≤ Y u - 1 by omega)) (not_le.2 (y3.trans_lt b))
        · exact fun hc => hc.elim
    · constructor
      · exact fun hc => absurd hc.2 hu
      · split_ifs with hk
        · exact fun hc => absurd hc.1 hu
        · exact fun hc => hc.elim
  have hmeas : ∀ k : ℤ, MeasurableSet (K ⁻¹' {k} ∩ Ioo 0 1) := by
    intro k; rw [hpre]; split_ifs
    · exact measurableSet_Ioo.inter measurableSet_Ico
    · exact MeasurableSet.empty
  have hKm : Measurable K := by
    refine measurable_to_countable' fun k => ?_
    have : K ⁻¹' {k} = (K ⁻¹' {k} ∩ Ioo 0 1) ∪ ((Ioo 0 1)ᶜ ∩ {_u | k = 0}) := by
      ext u
      by_cases hu : u ∈ Ioo (0 : ℝ) 1
      · simp [hu]
      · have : K u = 0 := if_neg hu
        simp only [mem_preimage, mem_singleton_iff, this, mem_union, mem_inter_iff, hu, and_false, false_or,
          mem_compl_iff, not_false_eq_true, true_and, mem_ofPred_eq, eq_comm]
    rw [this]
    exact (hmeas k).union (measurableSet_Ioo.compl.inter (MeasurableSet.const _))
  have hlaw : (volume.restrict (Ioo (0 : ℝ) 1)).map K = massZ (poisPmf rate) := by
    refine Measure.ext_of_singleton fun k => ?_
    rw [Measure.map_apply hKm (measurableSet_singleton k), Measure.restrict_apply (hKm (measurableSet_singleton k)), hpre,
      massZ_singleton]
    split_ifs with hk
    · have hlo := cumZ_nonneg (poisPmf_nonneg hr0) (k - 1)
      have hhi := cumZ_le (poisPmf_nonneg hr0) (hasSum_pois rate) k
      have : volume (Ioo (0 : ℝ) 1 ∩ Ico (cumZ (poisPmf rate) (k - 1)) (cumZ (poisPmf rate) k)) =
          volume (Ico (cumZ (poisPmf rate) (k - 1)) (cumZ (poisPmf rate) k)) := by
        have h1 : Ioo (cumZ (poisPmf rate) (k - 1)) (cumZ (poisPmf rate) k) ⊆
            Ioo (0 : ℝ) 1 ∩ Ico (cumZ (poisPmf rate) (k - 1)) (cumZ (poisPmf rate) k) :=
          fun u hu => ⟨⟨hlo.trans_lt hu.1, hu.2.trans_le hhi⟩, hu.1.le, hu.2⟩
        refine le_antisymm (measure_mono inter_subset_right) ?_
        calc _ = volume (Ioo (cumZ (poisPmf rate) (k - 1)) (cumZ (poisPmf rate) k)) := by
              rw [Real.volume_Ico, Real.volume_Ioo]
          _ ≤ _ := measure_mono h1
      rw [this, Real.volume_Ico, pois_level rate k hk]
    · rw [measure_empty, poisPmf_neg (by omega), ENNReal.ofReal_zero]
  exact ⟨K, hKm, fun u a b => by rw [e u a b]; exact (hY u a b).1, hlaw⟩

/-- The Poisson generator (its quantile search returns the smallest count whose distribution function exceeds the
uniform variate). -/
theorem C29_rpois (hP : FairEngine P) (hn : Lib.next 0 1 = 0) {rate : ℝ} (hr : Lib.eps ≤ rate) :
    HasLaw P (rpois (fin rate)) (massLaw (poisPmf rate)) := by
  have := hP.prob
  have hr0 : 0 ≤ rate := Lib.eps_pos.le.trans hr
  obtain ⟨U, N, hd, h⟩ := fair_runif hP hn
  obtain ⟨K, hKm, hK, hlaw⟩ := qpois_measurable hr
  have hd' := hd.map hKm
  rw [hlaw] at hd'
  rw [hasLaw_iff, ← massZ_map]
  refine ⟨_, N, hd'.map (measurable_of_countable _), ?_⟩
  filter_upwards [h] with s hs
  rw [rpois, if_neg (by simp [pois_ok, hr0]), zero_eq, one_eq]
  simp only [hs.1]
  rw [hK (U s) hs.2.1 hs.2.2]
  rfl

end
end Stats

namespace Stats.ExamplesC29
open Fl Spec MeasureTheory
open scoped Stats.Fair

example : HasLaw Tape.tapeLaw (fun s => some (rexp (fin 3) s)) (densLaw (expPdf 3)) :=
  C29_rexp Tape.fair Fair.next (by norm_num)
example : HasLaw Tape.tapeLaw (fun s => some (rweibull (fin 3) (fin 2) s)) (densLaw (weibullPdf 3 2)) :=
  C29_rweibull Tape.fair Fair.next (Fair.eps_le (by norm_num)) (Fair.eps_le (by norm_num))
example : HasLaw Tape.tapeLaw (fun s => some (rbern (fin (1 / 3)) s)) (massLaw (bernPmf (1 / 3))) :=
  C29_rbern Tape.fair Fair.next (by norm_num) (by norm_num)
example : HasLaw Tape.tapeLaw (fun s => some (rbinom (7 : ℕ) (fin (1 / 3)) s)) (massLaw (binomPmf 7 (1 / 3))) :=
  C30_rbinom Tape.fair Fair.next (by norm_num) (by norm_num) 7
example : HasLaw Tape.tapeLaw (rpois (fin 5)) (massLaw (poisPmf 5)) :=
  C29_rpois Tape.fair Fair.next (Fair.eps_le (by norm_num))

end Stats.ExamplesC29
