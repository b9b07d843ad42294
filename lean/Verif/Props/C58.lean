import Verif.Lemmas.Sample
import Verif.Props.C12
import Verif.Props.C17
import Verif.Props.C50B
import Verif.Props.C52B

/-!
# C58: draws, samples and distribution functions fit together

For every scalar generator: the probability that a draw is at most `x` is what the distribution function of the same
family returns, up to the offset of `runif`. In a vector filled by the generator, the share of the elements up to `x` is
then close to that number except with an exponentially small probability: at a given point, and at all points at once.
The mean of the vector is close to the mean of the distribution.
-/

set_option linter.unusedSectionVars false
open MeasureTheory Classical

namespace Stats
open Fl Spec Vec MatOps

section
variable [Lib] {S : Type*} [MeasurableSpace S] {P : Measure S} [IsProbabilityMeasure P]

theorem share_eq {num : ℕ} {X : Fin num → ℝ} {o out : ℕ → Option Fl}
    (ho : ∀ i, o i = if h : i < num then some (fin (X ⟨i, h⟩)) else out i) (x : ℝ) :
    share o num x = shareIn (Set.Iic x) X := by
  rw [share, shareIn, Finset.card_filter, Nat.cast_sum, Finset.sum_range]
  congr 1
  refine Finset.sum_congr rfl fun i _ => ?_
  rw [Set.indicator_apply]
  have : (∃ v, o i = some (fin v) ∧ v ≤ x) ↔ X i ∈ Set.Iic x := by
    rw [ho i, dif_pos i.2]
    constructor
    · rintro ⟨v, e, h⟩
      simp only [Option.some.injEq, fin.injEq] at e
      rw [← e] at h; exact h
    · intro h; exact ⟨_, rfl, h⟩
  simp only [this]
  split_ifs <;> simp

/-- the shares of independent numbers -/
theorem shareNear_of {call : S → S → (ℕ → Option Fl) → Prop} {num : ℕ} {out : ℕ → Option Fl} {D : Measure ℝ}
    [IsProbabilityMeasure D] (h : IidFill P call num out D) {F : ℝ → Fl} {dom : Set ℝ} {δ : ℝ}
    (hF : ∀ x ∈ dom, ∃ y, F x = fin y ∧ |D.real (Set.Iic x) - y| ≤ δ) {ε : ℝ} (hε : 0 ≤ ε) :
    (∀ x ∈ dom, ShareNear P call num F {x} (ε + δ) (2 * Real.exp (-(2 * num * ε ^ 2)))) ∧
    ∀ m : ℕ, 0 < m → ShareNear P call num F dom (ε + 1 / m + δ) (4 * m * Real.exp (-(2 * num * ε ^ 2))) := by
  obtain ⟨X, N, mX, mN, e, hl⟩ := h
  have hX : P.map X = Measure.pi fun _ : Fin num => D := by
    have : P.map X = (P.map fun s => (X s, N s)).map Prod.fst := by
      rw [Measure.map_map measurable_fst (mX.prodMk mN)]; rfl
    rw [this, hl, Measure.map_fst_prod, measure_univ, one_smul]
  -- what can go wrong
  have key : ∀ (B : Set (Fin num → ℝ)) (A : Set ℝ) (r : ℝ), A ⊆ dom →
      (∀ x, (∃ t ∈ A, r ≤ |shareIn (Set.Iic t) x - D.real (Set.Iic t)|) → x ∈ B) →
      P.real {s | ¬ ((∃ s' o, call s s' o) ∧ ∀ s' o, call s s' o → ∀ x ∈ A, ∃ y, F x = fin y ∧ |share o num x - y| < r + δ)} ≤
        (Measure.pi fun _ : Fin num => D).real B := by
    intro B A r hA hB
    rw [← hX]
    refine ENNReal.toReal_mono (measure_ne_top _ _) ((measure_mono_ae ?_).trans (Measure.le_map_apply mX.aemeasurable B))
    filter_upwards [e] with s hs hbad
    by_contra hgood
    refine hbad ⟨⟨_, _, (hs (N s) (fun i => if h : i < num then some (fin (X s ⟨i, h⟩)) else out i)).2 ⟨rfl, fun i => rfl⟩⟩,
      fun s' o hc x hx => ?_⟩
    obtain ⟨y, ey, hy⟩ := hF x (hA hx)
    refine ⟨y, ey, ?_⟩
    rw [share_eq ((hs s' o).1 hc).2]
    have h1 : |shareIn (Set.Iic x) (X s) - D.real (Set.Iic x)| < r := by
      by_contra hc
      exact hgood (hB (X s) ⟨x, hx, not_lt.1 hc⟩)
    calc |shareIn (Set.Iic x) (X s) - y|
        ≤ |shareIn (Set.Iic x) (X s) - D.real (Set.Iic x)| + |D.real (Set.Iic x) - y| := abs_sub_le _ _ _
      _ < r + δ := by linarith
  refine ⟨fun x hx => ?_, fun m hm => ?_⟩
  · refine (key {z | ε ≤ |shareIn (Set.Iic x) z - D.real (Set.Iic x)|} {x} ε (Set.singleton_subset_iff.2 hx) ?_).trans
      (share_hoeffding measurableSet_Iic hε)
    rintro z ⟨t, rfl, ht⟩
    exact ht
  · exact (key {z | ∃ t : ℝ, ε + 1 / m ≤ |shareIn (Set.Iic t) z - D.real (Set.Iic t)|} dom (ε + 1 / m) le_rfl
      (fun z ⟨t, _, ht⟩ => ⟨t, ht⟩)).trans (share_uniform hε hm)

variable [Engine S]

theorem reproduces {r : S → Option (Fl × S)} {D : Measure ℝ} {δ : ℝ} (hr : NearLaw P r D δ) {F : ℝ → Fl} {dom : Set ℝ}
    (hF : ∀ x ∈ dom, F x = fin (D.real (Set.Iic x))) (out : ℕ → Option Fl) :
    Reproduces P r (fun num s s' o => RandVecSerial (Gen.ofFun r) num s out s' o) F dom δ := by
  obtain ⟨D', hp, hl, hA⟩ := hr
  have hF' : ∀ x ∈ dom, ∃ y, F x = fin y ∧ |D'.real (Set.Iic x) - y| ≤ δ := fun x hx =>
    ⟨_, hF x hx, hA _ measurableSet_Iic⟩
  refine ⟨fun x hx => ?_, fun num ε hε => (shareNear_of (C46_noomp hl num out) hF' hε).1,
    fun num ε hε => (shareNear_of (C46_noomp hl num out) hF' hε).2⟩
  obtain ⟨y, ey, hy⟩ := hF' x hx
  refine ⟨y, ey, ?_⟩
  obtain ⟨X, N, mX, mN, e, hm⟩ := hl
  have hX : P.map X = D' := by
    have : P.map X = (P.map fun s => (X s, N s)).map Prod.fst := by
      rw [Measure.map_map measurable_fst (mX.prodMk mN)]; rfl
    rw [this, hm, Measure.map_fst_prod, measure_univ, one_smul]
  have : P.real {s | ∃ v s', r s = some (fin v, s') ∧ v ≤ x} = D'.real (Set.Iic x) := by
    rw [← hX, measureReal_def, measureReal_def, Measure.map_apply mX measurableSet_Iic]
    congr 1
    refine measure_congr ?_
    filter_upwards [e] with s hs
    refine propext ?_
    show (∃ v s', r s = some (fin v, s') ∧ v ≤ x) ↔ X s ≤ x
    rw [hs]
    constructor
    · rintro ⟨v, s', h1, h2⟩
      simp only [Option.some.injEq, Prod.mk.injEq, fin.injEq] at h1
      rw [h1.1]; exact h2
    · intro h; exact ⟨_, _, rfl, h⟩
  rw [this]; exact hy

/-- The shares for any number of threads, as long as the vector is too short for a parallel region. What is missing:
longer vectors with OpenMP, whose numbers are not independent (`C46_parallel_violated`). -/
theorem C58_openmp_partial {r : S → Option (Fl × S)} {D : Measure ℝ} {δ : ℝ} (hr : NearLaw P r D δ) {F : ℝ → Fl}
    {dom : Set ℝ} (hF : ∀ x ∈ dom, F x = fin (D.real (Set.Iic x))) {num T : ℕ} (hb : ¬ minPerBlock < perBlock num T)
    (out : ℕ → Option Fl) {ε : ℝ} (hε : 0 ≤ ε) :
    (∀ x ∈ dom, ShareNear P (fun s s' o => ∃ tr, RandVec (Gen.ofFun r) num T s out tr s' o) num F {x} (ε + δ)
      (2 * Real.exp (-(2 * num * ε ^ 2)))) ∧
    ∀ m : ℕ, 0 < m → ShareNear P (fun s s' o => ∃ tr, RandVec (Gen.ofFun r) num T s out tr s' o) num F dom
      (ε + 1 / m + δ) (4 * m * Real.exp (-(2 * num * ε ^ 2))) := by
  obtain ⟨D', hp, hl, hA⟩ := hr
  exact shareNear_of (C46_openmp_partial hl hb out) (fun x hx => ⟨_, hF x hx, hA _ measurableSet_Iic⟩) hε

theorem reproduces_dens {r : S → Option (Fl × S)} {f G : ℝ → ℝ} {δ : ℝ} (hr : NearLaw P r (densLaw f) δ) (hG : IsCdf G f)
    {F : ℝ → Fl} {dom : Set ℝ} (hF : ∀ x ∈ dom, F x = fin (G x)) (out : ℕ → Option Fl) :
    Reproduces P r (fun num s s' o => RandVecSerial (Gen.ofFun r) num s out s' o) F dom δ := by
  refine reproduces hr (fun x hx => ?_) out
  rw [hF x hx, measureReal_def, hG.densLaw_Iic, ENNReal.toReal_ofReal (hG.nonneg' x)]

theorem massLaw_Iic {f : ℤ → ℝ} (h0 : ∀ k, 0 ≤ f k) {x c : ℝ} (h : HasSum (fun j : ℤ => if j ≤ ⌊x⌋ then f j else 0) c) :
    (massLaw f).real (Set.Iic x) = c := by
  have e : ∀ j : ℤ, ENNReal.ofReal (f j) * (Set.Iic x).indicator (1 : ℝ → ENNReal) (j : ℝ) =
      ENNReal.ofReal (if j ≤ ⌊x⌋ then f j else 0) := fun j => by
    by_cases hj : j ≤ ⌊x⌋
    · rw [if_pos hj, Set.indicator_of_mem (show (j : ℝ) ∈ Set.Iic x from Int.le_floor.1 hj)]; simp
    · rw [if_neg hj, Set.indicator_of_notMem (show (j : ℝ) ∉ Set.Iic x from fun hc => hj (Int.le_floor.2 hc))]; simp
  have hn : ∀ j : ℤ, 0 ≤ if j ≤ ⌊x⌋ then f j else 0 := fun j => by split_ifs <;> simp [h0]
  rw [measureReal_def, massLaw, Measure.sum_apply _ measurableSet_Iic]
  simp only [Measure.smul_apply, Measure.dirac_apply, smul_eq_mul, e]
  rw [← ENNReal.ofReal_tsum_of_nonneg hn h.summable, h.tsum_eq, ENNReal.toReal_ofReal (h.nonneg hn)]

theorem reproduces_mass {r : S → Option (Fl × S)} {f : ℤ → ℝ} {δ : ℝ} (hr : NearLaw P r (massLaw f) δ)
    (h0 : ∀ k, 0 ≤ f k) {F : ℤ → Fl} {c : ℤ → ℝ} (hF : ∀ k, F k = fin (c k))
    (hc : ∀ k, HasSum (fun j : ℤ => if j ≤ k then f j else 0) (c k)) (out : ℕ → Option Fl) :
    Reproduces P r (fun num s s' o => RandVecSerial (Gen.ofFun r) num s out s' o) (fun x => F ⌊x⌋) Set.univ δ :=
  reproduces hr (fun x _ => by rw [hF, massLaw_Iic h0 (hc ⌊x⌋)]) out

/-- A statistic with expectation `m` and variance `v` (Chebyshev). -/
theorem statNear_of {call : S → S → (ℕ → Option Fl) → Prop} {num : ℕ} {stat : List Fl → Fl} {m v : ℝ}
    (h : FillMoments P call num stat m v) {ε : ℝ} (hε : 0 < ε) : StatNear P call num stat m ε (v / ε ^ 2) := by
  obtain ⟨M, e, i1, i2, hm, hv⟩ := h
  have iv : Integrable (fun s => (M s - m) ^ 2) P := by
    refine ((i2.sub (i1.const_mul (2 * m))).add (integrable_const (m ^ 2))).congr (.of_forall fun x => ?_)
    simp only [Pi.add_apply, Pi.sub_apply]
    ring
  have h1 := mul_meas_ge_le_integral_of_nonneg (μ := P) (.of_forall fun s => sq_nonneg (M s - m)) iv (ε ^ 2)
  rw [hv] at h1
  rw [StatNear, le_div_iff₀ (by positivity), mul_comm]
  refine le_trans (mul_le_mul_of_nonneg_left ?_ (by positivity)) h1
  refine ENNReal.toReal_mono (measure_ne_top _ _) (measure_mono_ae ?_)
  filter_upwards [e] with s hs hbad
  by_contra hgood
  refine hbad ⟨hs.1, fun s' o hc => ?_⟩
  obtain ⟨L, l1, l2, l3⟩ := hs.2 s' o hc
  refine ⟨L, l1, l2, M s, l3, ?_⟩
  have : ¬ ε ^ 2 ≤ (M s - m) ^ 2 := hgood
  rw [not_le, ← sq_abs (M s - m)] at this
  exact lt_of_pow_lt_pow_left₀ 2 hε.le this

variable [Ideal]

/-- The mean of the generated numbers, for every generator whose law has the mean `m` and the variance `v`. -/
theorem C58_mean {call : S → S → (ℕ → Option Fl) → Prop} {num : ℕ} {out : ℕ → Option Fl} {D : Measure ℝ}
    [IsProbabilityMeasure D] (h : IidFill P call num out D) {m v : ℝ} (hD : Moments D m v) (hn : 0 < num) {ε : ℝ}
    (hε : 0 < ε) : StatNear P call num mean m ε (v / (num * ε ^ 2)) := by
  have := statNear_of (C52_mean h hD hn) hε
  rwa [div_div] at this

omit [Engine S] [Ideal] in
theorem nearLaw_of_hasLaw {r : S → Option (Fl × S)} {D : Measure ℝ} [IsProbabilityMeasure D] (h : HasLaw P r D) : NearLaw P r D 0 :=
  ⟨D, inferInstance, h, fun A _ => by rw [sub_self, abs_zero]⟩

end

/-! ### the generators -/

theorem bernPmf_nonneg {p : ℝ} (h0 : 0 ≤ p) (h1 : p ≤ 1) (k : ℤ) : 0 ≤ bernPmf p k := by
  unfold bernPmf; split_ifs <;> linarith

theorem rademPmf_nonneg {p : ℝ} (h0 : 0 ≤ p) (h1 : p ≤ 1) (k : ℤ) : 0 ≤ rademPmf p k := by
  unfold rademPmf; split_ifs <;> linarith

section
variable [Lib] [Ideal]

theorem hasSum_bern_cum (p : ℝ) (k : ℤ) : HasSum (fun j : ℤ => if j ≤ k then bernPmf p j else 0) (bernCdf p k) := by
  have := hasSum_two_cum (f := bernPmf p) (a := 0) (b := 1) (by norm_num) (by
    intro j h1 h2; simp [bernPmf, h1, h2]) k
  have e : bernCdf p k = (if 0 ≤ k then bernPmf p 0 else 0) + (if 1 ≤ k then bernPmf p 1 else 0) := by
    rw [bernCdf]
    split_ifs <;> first | omega | simp [bernPmf]
  rw [e]; exact this

theorem hasSum_radem_cum (p : ℝ) (k : ℤ) : HasSum (fun j : ℤ => if j ≤ k then rademPmf p j else 0) (rademCdf p k) := by
  have := hasSum_two_cum (f := rademPmf p) (a := -1) (b := 1) (by norm_num) (by
    intro j h1 h2; simp [rademPmf, h1, h2]) k
  have e : rademCdf p k = (if -1 ≤ k then rademPmf p (-1) else 0) + (if 1 ≤ k then rademPmf p 1 else 0) := by
    rw [rademCdf]
    split_ifs <;> first | omega | simp [rademPmf]
  rw [e]; exact this

end

section
variable [Lib] [Ideal] {S : Type*} [MeasurableSpace S] {P : Measure S} [IsProbabilityMeasure P] [Engine S]
variable (hP : FairEngine P) (out : ℕ → Option Fl)
include hP

theorem C58_runif {a b : ℝ} (h : Lib.next a b < b) (hab : a < b) :
    Reproduces P (fun s => some (runif (fin a) (fin b) s)) (fun num s s' o => RandVecSerial (Gen.ofFun (fun s => some (runif (fin a) (fin b) s))) num s out s' o)
      (fun x => punif (fin x) (fin a) (fin b) false) Set.univ ((Lib.next a b - a) / (b - a)) := 
  reproduces_dens (r := fun s => some (runif (fin a) (fin b) s)) (C50_runif hP h hab) (isCdf_unif hab) (fun x _ => punif_fin hab x) out

theorem C58_rexp (hδ : Lib.next 0 1 < 1) {rate : ℝ} (h : 0 < rate) :
    Reproduces P (fun s => some (rexp (fin rate) s)) (fun num s s' o => RandVecSerial (Gen.ofFun (fun s => some (rexp (fin rate) s))) num s out s' o)
      (fun x => pexp (fin x) (fin rate) false) Set.univ (Lib.next 0 1) := 
  reproduces_dens (r := fun s => some (rexp (fin rate) s)) (C50_rexp hP hδ h) (isCdf_exp h) (fun x _ => pexp_fin h x) out

theorem C58_rnorm (mu : ℝ) {sigma : ℝ} (h : 0 < sigma) :
    Reproduces P (fun s => some (rnorm (fin mu) (fin sigma) s)) (fun num s s' o => RandVecSerial (Gen.ofFun (fun s => some (rnorm (fin mu) (fin sigma) s))) num s out s' o)
      (fun x => pnorm (fin x) (fin mu) (fin sigma) false) Set.univ 0 := by
  have := (isCdf_norm mu h).isProb
  exact reproduces_dens (r := fun s => some (rnorm (fin mu) (fin sigma) s)) (nearLaw_of_hasLaw (C32_rnorm hP mu h)) (isCdf_norm mu h) (fun x _ => pnorm_fin mu h x) out

/-- Outside the zone where the code treats its argument as 0. -/
theorem C58_rlnorm_partial (mu : ℝ) {sigma : ℝ} (h : 0 < sigma) :
    Reproduces P (fun s => some (rlnorm (fin mu) (fin sigma) s)) (fun num s s' o => RandVecSerial (Gen.ofFun (fun s => some (rlnorm (fin mu) (fin sigma) s))) num s out s' o)
      (fun x => plnorm (fin x) (fin mu) (fin sigma) false) noCut 0 := by
  have := (isCdf_lnorm mu h).isProb
  exact reproduces_dens (r := fun s => some (rlnorm (fin mu) (fin sigma) s)) (nearLaw_of_hasLaw (C32_rlnorm hP mu h)) (isCdf_lnorm mu h) (fun x hx => plnorm_fin mu h x hx) out

theorem C58_rcauchy (hδ : Lib.next 0 1 < 1) (mu : ℝ) {sigma : ℝ} (h : 0 < sigma) :
    Reproduces P (fun s => some (rcauchy (fin mu) (fin sigma) s)) (fun num s s' o => RandVecSerial (Gen.ofFun (fun s => some (rcauchy (fin mu) (fin sigma) s))) num s out s' o)
      (fun x => pcauchy (fin x) (fin mu) (fin sigma) false) Set.univ (Lib.next 0 1) := 
  reproduces_dens (r := fun s => some (rcauchy (fin mu) (fin sigma) s)) (C50_rcauchy hP hδ mu h) (isCdf_cauchy mu h) (fun x _ => pcauchy_fin mu h x) out

theorem C58_rlaplace (hδ : Lib.next 0 1 < 1) (mu : ℝ) {sigma : ℝ} (h : 0 < sigma) :
    Reproduces P (fun s => some (rlaplace (fin mu) (fin sigma) s)) (fun num s s' o => RandVecSerial (Gen.ofFun (fun s => some (rlaplace (fin mu) (fin sigma) s))) num s out s' o)
      (fun x => plaplace (fin x) (fin mu) (fin sigma) false) Set.univ (Lib.next 0 1) := 
  reproduces_dens (r := fun s => some (rlaplace (fin mu) (fin sigma) s)) (C50_rlaplace hP hδ mu h) (isCdf_laplace mu h) (fun x _ => plaplace_fin mu h x) out

theorem C58_rlogis (hδ : Lib.next 0 1 < 1) (mu : ℝ) {sigma : ℝ} (h : 0 < sigma) :
    Reproduces P (fun s => some (rlogis (fin mu) (fin sigma) s)) (fun num s s' o => RandVecSerial (Gen.ofFun (fun s => some (rlogis (fin mu) (fin sigma) s))) num s out s' o)
      (fun x => plogis (fin x) (fin mu) (fin sigma) false) Set.univ (Lib.next 0 1) := 
  reproduces_dens (r := fun s => some (rlogis (fin mu) (fin sigma) s)) (C50_rlogis hP hδ mu h) (isCdf_logis mu h) (fun x _ => plogis_fin mu h x) out

/-- Outside the zone where the code treats its argument as 0. -/
theorem C58_rweibull_partial (hδ : Lib.next 0 1 < 1) {k θ : ℝ} (hk : Lib.eps ≤ k) (hθ : Lib.eps ≤ θ) :
    Reproduces P (fun s => some (rweibull (fin k) (fin θ) s)) (fun num s s' o => RandVecSerial (Gen.ofFun (fun s => some (rweibull (fin k) (fin θ) s))) num s out s' o)
      (fun x => pweibull (fin x) (fin k) (fin θ) false) noCut (Lib.next 0 1) := 
  reproduces_dens (r := fun s => some (rweibull (fin k) (fin θ) s)) (C50_rweibull hP hδ hk hθ) (isCdf_weibull (Lib.eps_pos.trans_le hk) (Lib.eps_pos.trans_le hθ)) (fun x hx => pweibull_fin hk hθ x hx) out

/-- Outside the zone where the code treats its argument as 0. -/
theorem C58_rgamma_partial (hδ : Lib.next 0 1 ≤ 1 / 30) {a θ : ℝ} (ha : 0 < a) (hθ : Lib.eps ≤ θ) :
    Reproduces P (rgamma (fin a) (fin θ)) (fun num s s' o => RandVecSerial (Gen.ofFun (rgamma (fin a) (fin θ))) num s out s' o)
      (fun x => pgamma (fin x) (fin a) (fin θ) false) noCut (7 * Lib.next 0 1) := 
  reproduces_dens (r := rgamma (fin a) (fin θ)) (C50_rgamma hP hδ ha hθ) (isCdf_gamma ha (Lib.eps_pos.trans_le hθ)) (fun x hx => pgamma_fin ha hθ x hx) out

/-- Outside the zone where the code treats its argument as 0. -/
theorem C58_rchisq_partial (hδ : Lib.next 0 1 ≤ 1 / 30) {k : ℝ} (hk : 0 < k) :
    Reproduces P (rchisq (fin k)) (fun num s s' o => RandVecSerial (Gen.ofFun (rchisq (fin k))) num s out s' o)
      (fun x => pchisq (fin x) (fin k) false) noCut (7 * Lib.next 0 1) := 
  reproduces_dens (r := rchisq (fin k)) (C50_rchisq hP hδ hk) (isCdf_chisq hk) (fun x hx => pchisq_fin hk x hx) out

/-- Outside the zone where the code treats its argument as 0. -/
theorem C58_rinvgamma_partial (hδ : Lib.next 0 1 ≤ 1 / 30) {α β : ℝ} (ha : 0 < α) (hb0 : 0 < β) (hb1 : Lib.eps ≤ 1 / β) :
    Reproduces P (rinvgamma (fin α) (fin β)) (fun num s s' o => RandVecSerial (Gen.ofFun (rinvgamma (fin α) (fin β))) num s out s' o)
      (fun x => pinvgamma (fin x) (fin α) (fin β) false) {x | Lib.eps ≤ 1 / x ∨ x ≤ 0} (7 * Lib.next 0 1) := 
  reproduces_dens (r := rinvgamma (fin α) (fin β)) (C50_rinvgamma_partial hP hδ ha hb0 hb1) (isCdf_invgamma ha hb0) (fun x hx => pinvgamma_fin ha hb0 hb1 x hx) out

theorem C58_rbeta (hδ : Lib.next 0 1 ≤ 1 / 30) {a b : ℝ} (ha : 0 < a) (hb : 0 < b) :
    Reproduces P (rbeta (fin a) (fin b)) (fun num s s' o => RandVecSerial (Gen.ofFun (rbeta (fin a) (fin b))) num s out s' o)
      (fun x => pbeta (fin x) (fin a) (fin b) false) Set.univ (14 * Lib.next 0 1) := 
  reproduces_dens (r := rbeta (fin a) (fin b)) (C50_rbeta hP hδ ha hb) (isCdf_beta ha hb) (fun x _ => pbeta_fin ha hb x) out

/-- Outside the zone where the code treats its argument as 0. -/
theorem C58_rf_partial (hδ : Lib.next 0 1 ≤ 1 / 30) {d₁ d₂ : ℝ} (h1 : Lib.eps ≤ d₁) (h2 : Lib.eps ≤ d₂) :
    Reproduces P (rf (fin d₁) (fin d₂)) (fun num s s' o => RandVecSerial (Gen.ofFun (rf (fin d₁) (fin d₂))) num s out s' o)
      (fun x => pf (fin x) (fin d₁) (fin d₂) false) noCut (14 * Lib.next 0 1) := 
  reproduces_dens (r := rf (fin d₁) (fin d₂)) (C50_rf hP hδ h1 h2) (isCdf_f (Lib.eps_pos.trans_le h1) (Lib.eps_pos.trans_le h2)) (fun x hx => pf_fin h1 h2 x hx) out

theorem C58_rt (hδ : Lib.next 0 1 ≤ 1 / 30) {ν : ℝ} (h : Lib.eps ≤ ν) :
    Reproduces P (rt (fin ν)) (fun num s s' o => RandVecSerial (Gen.ofFun (rt (fin ν))) num s out s' o)
      (fun x => pt (fin x) (fin ν) false) Set.univ (7 * Lib.next 0 1) := 
  reproduces_dens (r := rt (fin ν)) (C50_rt hP hδ h) (isCdf_t (Lib.eps_pos.trans_le h)) (fun x _ => pt_fin h x) out

theorem C58_rinvgauss (hδ : Lib.next 0 1 < 1) {mu lambda : ℝ} (hm : 0 < mu) (hl : 0 < lambda) :
    Reproduces P (fun s => some (rinvgauss (fin mu) (fin lambda) s)) (fun num s s' o => RandVecSerial (Gen.ofFun (fun s => some (rinvgauss (fin mu) (fin lambda) s))) num s out s' o)
      (fun x => pinvgauss (fin x) (fin mu) (fin lambda) false) Set.univ (Lib.next 0 1) := 
  reproduces_dens (r := fun s => some (rinvgauss (fin mu) (fin lambda) s)) (C50_rinvgauss hP hδ hm hl) (isCdf_invgauss hm hl) (fun x _ => pinvgauss_fin hm hl x) out

theorem C58_rbern (hδ : Lib.next 0 1 < 1) {p : ℝ} (h0 : 0 ≤ p) (h1 : p ≤ 1) :
    Reproduces P (fun s => some (rbern (fin p) s)) (fun num s s' o => RandVecSerial (Gen.ofFun (fun s => some (rbern (fin p) s))) num s out s' o)
      (fun x => pbern ⌊x⌋ (fin p) false) Set.univ (Lib.next 0 1) :=
  reproduces_mass (r := fun s => some (rbern (fin p) s)) (C50_rbern hP hδ h0 h1) (bernPmf_nonneg h0 h1) (F := fun k => pbern k (fin p) false) (pbern_fin h0 h1) (hasSum_bern_cum p) out

theorem C58_rradem (hδ : Lib.next 0 1 < 1) {p : ℝ} (h0 : 0 ≤ p) (h1 : p ≤ 1) :
    Reproduces P (fun s => some (rradem (fin p) s)) (fun num s s' o => RandVecSerial (Gen.ofFun (fun s => some (rradem (fin p) s))) num s out s' o)
      (fun x => pradem ⌊x⌋ (fin p) false) Set.univ (Lib.next 0 1) :=
  reproduces_mass (r := fun s => some (rradem (fin p) s)) (C50_rradem hP hδ h0 h1) (rademPmf_nonneg h0 h1) (F := fun k => pradem k (fin p) false) (pradem_fin h0 h1) (hasSum_radem_cum p) out

theorem C58_rbinom (hδ : Lib.next 0 1 < 1) {p : ℝ} (h0 : 0 ≤ p) (h1 : p ≤ 1) (n : ℕ) :
    Reproduces P (fun s => some (rbinom n (fin p) s)) (fun num s s' o => RandVecSerial (Gen.ofFun (fun s => some (rbinom n (fin p) s))) num s out s' o)
      (fun x => pbinom ⌊x⌋ n (fin p) false) Set.univ (n * Lib.next 0 1) :=
  reproduces_mass (r := fun s => some (rbinom n (fin p) s)) (C50_rbinom hP hδ h0 h1 n) (binomPmf_nonneg h0 h1) (F := fun k => pbinom k n (fin p) false) (pbinom_fin n h0 h1) (hasSum_cumZ fun _ hk => binomPmf_neg hk) out

theorem C58_rpois (hδ : Lib.next 0 1 < 1) {rate : ℝ} (hr : Lib.eps ≤ rate) :
    Reproduces P (rpois (fin rate)) (fun num s s' o => RandVecSerial (Gen.ofFun (rpois (fin rate))) num s out s' o)
      (fun x => ppois ⌊x⌋ (fin rate) false) Set.univ (Lib.next 0 1) :=
  reproduces_mass (r := rpois (fin rate)) (C50_rpois hP hδ hr) (poisPmf_nonneg (Lib.eps_pos.le.trans hr)) (F := fun k => ppois k (fin rate) false) (ppois_fin (Lib.eps_pos.le.trans hr)) (hasSum_cumZ fun _ hk => poisPmf_neg hk) out

theorem C58_rpois_small (hδ : Lib.next 0 1 < 1) {rate : ℝ} (h0 : 0 ≤ rate) (hr : rate < Lib.eps) :
    Reproduces P (rpois (fin rate)) (fun num s s' o => RandVecSerial (Gen.ofFun (rpois (fin rate))) num s out s' o)
      (fun x => ppois ⌊x⌋ (fin rate) false) Set.univ rate :=
  reproduces_mass (r := rpois (fin rate)) (C50_rpois_small hP hδ h0 hr) (poisPmf_nonneg h0) (F := fun k => ppois k (fin rate) false) (ppois_fin h0) (hasSum_cumZ fun _ hk => poisPmf_neg hk) out

end

end Stats

namespace Stats.ExamplesC58
open Fl Spec MeasureTheory Vec MatOps
open scoped Stats.Low

example :
    Reproduces Tape.tapeLaw (fun s => some (rexp (fin 3) s)) (fun num s s' o => RandVecSerial (Gen.ofFun (fun s => some (rexp (fin 3) s))) num s (fun _ => none) s' o)
      (fun x => pexp (fin x) (fin 3) false) Set.univ (Lib.next 0 1) :=
  C58_rexp Tape.fair _ Low.next_lt (by norm_num)
example :
    Reproduces Tape.tapeLaw (fun s => some (rnorm (fin 3) (fin 2) s)) (fun num s s' o => RandVecSerial (Gen.ofFun (fun s => some (rnorm (fin 3) (fin 2) s))) num s (fun _ => none) s' o)
      (fun x => pnorm (fin x) (fin 3) (fin 2) false) Set.univ 0 :=
  C58_rnorm Tape.fair _ 3 (by norm_num)
example :
    Reproduces Tape.tapeLaw (fun s => some (rlnorm (fin 3) (fin 2) s)) (fun num s s' o => RandVecSerial (Gen.ofFun (fun s => some (rlnorm (fin 3) (fin 2) s))) num s (fun _ => none) s' o)
      (fun x => plnorm (fin x) (fin 3) (fin 2) false) noCut 0 :=
  C58_rlnorm_partial Tape.fair _ 3 (by norm_num)
example :
    Reproduces Tape.tapeLaw (fun s => some (rcauchy (fin 3) (fin 2) s)) (fun num s s' o => RandVecSerial (Gen.ofFun (fun s => some (rcauchy (fin 3) (fin 2) s))) num s (fun _ => none) s' o)
      (fun x => pcauchy (fin x) (fin 3) (fin 2) false) Set.univ (Lib.next 0 1) :=
  C58_rcauchy Tape.fair _ Low.next_lt 3 (by norm_num)
example :
    Reproduces Tape.tapeLaw (fun s => some (rlaplace (fin 3) (fin 2) s)) (fun num s s' o => RandVecSerial (Gen.ofFun (fun s => some (rlaplace (fin 3) (fin 2) s))) num s (fun _ => none) s' o)
      (fun x => plaplace (fin x) (fin 3) (fin 2) false) Set.univ (Lib.next 0 1) :=
  C58_rlaplace Tape.fair _ Low.next_lt 3 (by norm_num)
example :
    Reproduces Tape.tapeLaw (fun s => some (rlogis (fin 3) (fin 2) s)) (fun num s s' o => RandVecSerial (Gen.ofFun (fun s => some (rlogis (fin 3) (fin 2) s))) num s (fun _ => none) s' o)
      (fun x => plogis (fin x) (fin 3) (fin 2) false) Set.univ (Lib.next 0 1) :=
  C58_rlogis Tape.fair _ Low.next_lt 3 (by norm_num)
example :
    Reproduces Tape.tapeLaw (fun s => some (rweibull (fin 3) (fin 2) s)) (fun num s s' o => RandVecSerial (Gen.ofFun (fun s => some (rweibull (fin 3) (fin 2) s))) num s (fun _ => none) s' o)
      (fun x => pweibull (fin x) (fin 3) (fin 2) false) noCut (Lib.next 0 1) :=
  C58_rweibull_partial Tape.fair _ Low.next_lt (Low.eps_le (by norm_num)) (Low.eps_le (by norm_num))
example :
    Reproduces Tape.tapeLaw (rgamma (fin (1 / 2)) (fin 3)) (fun num s s' o => RandVecSerial (Gen.ofFun (rgamma (fin (1 / 2)) (fin 3))) num s (fun _ => none) s' o)
      (fun x => pgamma (fin x) (fin (1 / 2)) (fin 3) false) noCut (7 * Lib.next 0 1) :=
  C58_rgamma_partial Tape.fair _ Low.next_le (by norm_num) (Low.eps_le (by norm_num))
example :
    Reproduces Tape.tapeLaw (rchisq (fin 5)) (fun num s s' o => RandVecSerial (Gen.ofFun (rchisq (fin 5))) num s (fun _ => none) s' o)
      (fun x => pchisq (fin x) (fin 5) false) noCut (7 * Lib.next 0 1) :=
  C58_rchisq_partial Tape.fair _ Low.next_le (by norm_num)
example :
    Reproduces Tape.tapeLaw (rinvgamma (fin 2) (fin 3)) (fun num s s' o => RandVecSerial (Gen.ofFun (rinvgamma (fin 2) (fin 3))) num s (fun _ => none) s' o)
      (fun x => pinvgamma (fin x) (fin 2) (fin 3) false) {x | Lib.eps ≤ 1 / x ∨ x ≤ 0} (7 * Lib.next 0 1) :=
  C58_rinvgamma_partial Tape.fair _ Low.next_le (by norm_num) (by norm_num) (Low.eps_le (by norm_num))
example :
    Reproduces Tape.tapeLaw (rbeta (fin 2) (fin 3)) (fun num s s' o => RandVecSerial (Gen.ofFun (rbeta (fin 2) (fin 3))) num s (fun _ => none) s' o)
      (fun x => pbeta (fin x) (fin 2) (fin 3) false) Set.univ (14 * Lib.next 0 1) :=
  C58_rbeta Tape.fair _ Low.next_le (by norm_num) (by norm_num)
example :
    Reproduces Tape.tapeLaw (rf (fin 2) (fin 3)) (fun num s s' o => RandVecSerial (Gen.ofFun (rf (fin 2) (fin 3))) num s (fun _ => none) s' o)
      (fun x => pf (fin x) (fin 2) (fin 3) false) noCut (14 * Lib.next 0 1) :=
  C58_rf_partial Tape.fair _ Low.next_le (Low.eps_le (by norm_num)) (Low.eps_le (by norm_num))
example :
    Reproduces Tape.tapeLaw (rt (fin 4)) (fun num s s' o => RandVecSerial (Gen.ofFun (rt (fin 4))) num s (fun _ => none) s' o)
      (fun x => pt (fin x) (fin 4) false) Set.univ (7 * Lib.next 0 1) :=
  C58_rt Tape.fair _ Low.next_le (Low.eps_le (by norm_num))
example :
    Reproduces Tape.tapeLaw (fun s => some (rinvgauss (fin 2) (fin 3) s)) (fun num s s' o => RandVecSerial (Gen.ofFun (fun s => some (rinvgauss (fin 2) (fin 3) s))) num s (fun _ => none) s' o)
      (fun x => pinvgauss (fin x) (fin 2) (fin 3) false) Set.univ (Lib.next 0 1) :=
  C58_rinvgauss Tape.fair _ Low.next_lt (by norm_num) (by norm_num)
example :
    Reproduces Tape.tapeLaw (fun s => some (rbern (fin (1 / 3)) s)) (fun num s s' o => RandVecSerial (Gen.ofFun (fun s => some (rbern (fin (1 / 3)) s))) num s (fun _ => none) s' o)
      (fun x => pbern ⌊x⌋ (fin (1 / 3)) false) Set.univ (Lib.next 0 1) :=
  C58_rbern Tape.fair _ Low.next_lt (by norm_num) (by norm_num)
example :
    Reproduces Tape.tapeLaw (fun s => some (rradem (fin (1 / 3)) s)) (fun num s s' o => RandVecSerial (Gen.ofFun (fun s => some (rradem (fin (1 / 3)) s))) num s (fun _ => none) s' o)
      (fun x => pradem ⌊x⌋ (fin (1 / 3)) false) Set.univ (Lib.next 0 1) :=
  C58_rradem Tape.fair _ Low.next_lt (by norm_num) (by norm_num)
example :
    Reproduces Tape.tapeLaw (fun s => some (rbinom (7 : ℕ) (fin (1 / 3)) s)) (fun num s s' o => RandVecSerial (Gen.ofFun (fun s => some (rbinom (7 : ℕ) (fin (1 / 3)) s))) num s (fun _ => none) s' o)
      (fun x => pbinom ⌊x⌋ (7 : ℕ) (fin (1 / 3)) false) Set.univ ((7 : ℕ) * Lib.next 0 1) :=
  C58_rbinom Tape.fair _ Low.next_lt (by norm_num) (by norm_num) 7
example :
    Reproduces Tape.tapeLaw (rpois (fin 5)) (fun num s s' o => RandVecSerial (Gen.ofFun (rpois (fin 5))) num s (fun _ => none) s' o)
      (fun x => ppois ⌊x⌋ (fin 5) false) Set.univ (Lib.next 0 1) :=
  C58_rpois Tape.fair _ Low.next_lt (Low.eps_le (by norm_num))
example :
    Reproduces Tape.tapeLaw (rpois (fin (Lib.eps / 2))) (fun num s s' o => RandVecSerial (Gen.ofFun (rpois (fin (Lib.eps / 2)))) num s (fun _ => none) s' o)
      (fun x => ppois ⌊x⌋ (fin (Lib.eps / 2)) false) Set.univ (Lib.eps / 2) :=
  C58_rpois_small Tape.fair _ Low.next_lt (half_pos Lib.eps_pos).le (half_lt_self Lib.eps_pos)

example : Reproduces Tape.tapeLaw (fun s => some (runif (fin (-1)) (fin 2) s))
    (fun num s s' o => RandVecSerial (Gen.ofFun (fun s => some (runif (fin (-1)) (fin 2) s))) num s (fun _ => none) s' o)
    (fun x => punif (fin x) (fin (-1)) (fin 2) false) Set.univ ((Lib.next (-1) 2 - -1) / (2 - -1)) := by
  have e : Lib.next (-1) 2 = -1 + (2 - -1) / 2 ^ 1074 := rfl
  have h : (3 : ℝ) / 2 ^ 1074 < 3 := div_lt_self (by norm_num) (one_lt_pow₀ (by norm_num) (by norm_num))
  exact C58_runif Tape.fair _ (a := -1) (b := 2)
    (by rw [e]; linarith [show (2 : ℝ) - -1 = 3 by norm_num])
    (by norm_num)

/-- the first 1000000 exponential numbers: all shares at once are within 1/50 of `pexp`, except with probability
`400 exp (-200)` -/
example : ShareNear Tape.tapeLaw
    (fun s s' o => RandVecSerial (Gen.ofFun fun s => some (rexp (fin 3) s)) 1000000 s (fun _ => none) s' o) 1000000
    (fun x => pexp (fin x) (fin 3) false) Set.univ (1 / 100 + 1 / (100 : ℕ) + Lib.next 0 1) (4 * (100 : ℕ) * Real.exp (-200)) := by
  have := (C58_rexp Tape.fair (fun _ => none) Low.next_lt (rate := 3) (by norm_num)).all 1000000 (1 / 100) (by norm_num) 100
    (by norm_num)
  convert this using 3
  norm_num

/-- a vector of 10 numbers is short enough for any number of threads -/
example : ShareNear Tape.tapeLaw
    (fun s s' o => ∃ tr, RandVec (Gen.ofFun fun s => some (rexp (fin 3) s)) 10 4 s (fun _ => none) tr s' o) 10
    (fun x => pexp (fin x) (fin 3) false) {2} (1 / 2 + Lib.next 0 1) (2 * Real.exp (-(2 * (10 : ℕ) * (1 / 2) ^ 2))) := by
  refine (C58_openmp_partial (r := fun s => some (rexp (fin 3) s)) (C50_rexp Tape.fair Low.next_lt (rate := 3) (by norm_num))
    (dom := Set.univ) (F := fun x => pexp (fin x) (fin 3) false) (fun x _ => ?_) (by decide) _ (by norm_num)).1 2 trivial
  rw [pexp_fin (by norm_num) x, measureReal_def, (isCdf_exp (by norm_num)).densLaw_Iic,
    ENNReal.toReal_ofReal ((isCdf_exp (by norm_num)).nonneg' x)]

/-- the mean of 10000 normal numbers is within 1/10 of 3 except with probability 1/25 -/
example : StatNear Tape.tapeLaw
    (fun s s' o => RandVecSerial (Gen.ofFun fun s => some (rnorm (fin 3) (fin 2) s)) 10000 s (fun _ => none) s' o) 10000 mean
    3 (1 / 10) (1 / 25) := by
  have := (isCdf_norm 3 (sigma := 2) (by norm_num)).isProb
  have := C58_mean (C46_noomp (C32_rnorm Tape.fair 3 (sigma := 2) (by norm_num)) 10000 fun _ => none)
    (moments_norm 3 (sigma := 2) (by norm_num)) (by norm_num) (ε := 1 / 10) (by norm_num)
  convert this using 1
  norm_num

end Stats.ExamplesC58
