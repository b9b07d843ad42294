import Verif.Props.C52
import Verif.Props.C46
import Verif.Props.C37
import Mathlib.Probability.Moments.Variance

/-!
# C52: the sample mean and the sample variance of a generated vector

The `mean` of a generated vector of `n` numbers has the expectation `m` and the variance `v / n`, where `m` and `v` are
the mean and the variance of the distribution. `var` has the expectation `(n - 1) / n * v` (the biased estimate), with
Armadillo `v`.
-/

set_option linter.unusedSectionVars false
open MeasureTheory Classical
open ProbabilityTheory (variance)

namespace Stats
open Fl Spec Vec MatOps

/-! ### independent numbers -/

section
variable {D : Measure ℝ} [IsProbabilityMeasure D] {m v : ℝ} {n : ℕ}

theorem pi_integral (g : ℝ → ℝ) (hg : Integrable g D) (i : Fin n) :
    Integrable (fun x : Fin n → ℝ => g (x i)) (Measure.pi fun _ : Fin n => D) ∧
      ∫ x : Fin n → ℝ, g (x i) ∂(Measure.pi fun _ : Fin n => D) = ∫ x, g x ∂D := by
  have h := measurePreserving_eval (fun _ : Fin n => D) i
  have hg' : AEStronglyMeasurable g ((Measure.pi fun _ : Fin n => D).map (Function.eval i)) := by
    rw [h.map_eq]; exact hg.aestronglyMeasurable
  refine ⟨?_, ?_⟩
  · exact h.integrable_comp_of_integrable hg
  · have := integral_map (μ := Measure.pi fun _ : Fin n => D) h.measurable.aemeasurable hg'
    rw [h.map_eq] at this
    exact this.symm

theorem sample_mean (h : Moments D m v) (hn : 0 < n) :
    let Q := Measure.pi fun _ : Fin n => D
    Integrable (fun x : Fin n → ℝ => (∑ i, x i) / n) Q ∧ Integrable (fun x : Fin n → ℝ => ((∑ i, x i) / n) ^ 2) Q ∧
      ∫ x : Fin n → ℝ, (∑ i, x i) / n ∂Q = m ∧ ∫ x : Fin n → ℝ, ((∑ i, x i) / n - m) ^ 2 ∂Q = v / n := by
  intro Q
  have hn0 : (n : ℝ) ≠ 0 := by positivity
  have hL : MemLp (fun x : ℝ => x) 2 D := (memLp_two_iff_integrable_sq (by fun_prop)).2 h.int2
  have i1 : Integrable (fun x : Fin n → ℝ => ∑ i, x i) Q := integrable_finsetSum _ fun i _ => (pi_integral _ h.int1 i).1
  have e1 : ∫ x : Fin n → ℝ, ∑ i, x i ∂Q = n * m := by
    rw [integral_finsetSum _ fun i _ => (pi_integral _ h.int1 i).1]
    have : ∀ i : Fin n, ∫ x : Fin n → ℝ, x i ∂Q = m := fun i => (pi_integral _ h.int1 i).2.trans h.mean
    rw [Finset.sum_congr rfl fun i _ => this i]
    simp
  have hV := ProbabilityTheory.variance_sum_pi (ι := Fin n) (Ω := fun _ => ℝ) (μ := fun _ => D)
    (X := fun _ x => x) fun _ => hL
  have hvD : variance (fun x : ℝ => x) D = v := by
    rw [ProbabilityTheory.variance_eq_integral (by fun_prop), h.mean, h.var]
  have hS : (∑ i : Fin n, fun ω : Fin n → ℝ => ω i) = fun ω => ∑ i, ω i := by
    funext ω; simp
  rw [hS] at hV
  simp only [hvD, Finset.sum_const, Finset.card_univ, Fintype.card_fin, nsmul_eq_mul] at hV
  rw [ProbabilityTheory.variance_eq_integral (by fun_prop)] at hV
  have e1' : ∫ x : Fin n → ℝ, ∑ i, x i ∂(Measure.pi fun _ : Fin n => D) = n * m := e1
  rw [e1'] at hV
  have L2 : MemLp (fun x : Fin n → ℝ => ∑ i, x i) 2 Q :=
    memLp_finsetSum _ fun i _ => hL.comp_measurePreserving (measurePreserving_eval (fun _ : Fin n => D) i)
  refine ⟨i1.div_const _, ?_, ?_, ?_⟩
  · simp only [div_pow]
    exact L2.integrable_sq.div_const _
  · rw [integral_div, e1]
    field_simp
  · have e : ∀ x : Fin n → ℝ, ((∑ i, x i) / n - m) ^ 2 = (∑ i, x i - n * m) ^ 2 / n ^ 2 := fun x => by
      field_simp
    simp only [e]
    rw [integral_div, hV]
    field_simp

/-- the sum of the squared deviations from the sample mean -/
theorem sample_dev (h : Moments D m v) (hn : 0 < n) :
    let Q := Measure.pi fun _ : Fin n => D
    Integrable (fun x : Fin n → ℝ => ∑ i, (x i - (∑ j, x j) / n) ^ 2) Q ∧
      ∫ x : Fin n → ℝ, ∑ i, (x i - (∑ j, x j) / n) ^ 2 ∂Q = (n - 1) * v := by
  intro Q
  have hn0 : (n : ℝ) ≠ 0 := by positivity
  obtain ⟨a1, a2, a3, a4⟩ := sample_mean h hn
  have e : ∀ x : Fin n → ℝ, ∑ i, (x i - (∑ j, x j) / n) ^ 2 = ∑ i, (x i - m) ^ 2 - n * ((∑ j, x j) / n - m) ^ 2 := by
    intro x
    have e1 : ∀ i, (x i - (∑ j, x j) / n) ^ 2 = x i ^ 2 - 2 * ((∑ j, x j) / n) * x i + ((∑ j, x j) / n) ^ 2 := fun i => by ring
    have e2 : ∀ i, (x i - m) ^ 2 = x i ^ 2 - 2 * m * x i + m ^ 2 := fun i => by ring
    simp only [e1, e2, Finset.sum_add_distrib, Finset.sum_sub_distrib, ← Finset.mul_sum, Finset.sum_const,
      Finset.card_univ, Fintype.card_fin, nsmul_eq_mul]
    field_simp
    ring
  have iv : Integrable (fun x : ℝ => (x - m) ^ 2) D := by
    refine ((h.int2.sub (h.int1.const_mul (2 * m))).add (integrable_const (m ^ 2))).congr (.of_forall fun x => ?_)
    simp only [Pi.add_apply, Pi.sub_apply]
    ring
  have b1 : Integrable (fun x : Fin n → ℝ => ∑ i, (x i - m) ^ 2) Q :=
    integrable_finsetSum _ fun i _ => (pi_integral _ iv i).1
  have b2 : Integrable (fun x : Fin n → ℝ => n * ((∑ j, x j) / n - m) ^ 2) Q := by
    refine Integrable.const_mul ?_ _
    refine ((a2.sub (a1.const_mul (2 * m))).add (integrable_const (m ^ 2))).congr (.of_forall fun x => ?_)
    simp only [Pi.add_apply, Pi.sub_apply]
    ring
  simp only [e]
  refine ⟨b1.sub b2, ?_⟩
  rw [integral_sub b1 b2, integral_const_mul, a4, integral_finsetSum _ fun i _ => (pi_integral _ iv i).1]
  have : ∀ i : Fin n, ∫ x : Fin n → ℝ, (x i - m) ^ 2 ∂Q = v := fun i => (pi_integral _ iv i).2.trans h.var
  rw [Finset.sum_congr rfl fun i _ => this i]
  simp only [Finset.sum_const, Finset.card_univ, Fintype.card_fin, nsmul_eq_mul]
  field_simp
end

/-! ### the generated vector -/

section
variable [Lib] [Ideal] {S : Type*} [MeasurableSpace S] {P : Measure S} [IsProbabilityMeasure P]
  {call : S → S → (ℕ → Option Fl) → Prop} {num : ℕ} {out : ℕ → Option Fl} {D : Measure ℝ} [IsProbabilityMeasure D]

/-- what a filled buffer holds -/
theorem IidFill.list (h : IidFill P call num out D) : ∃ X : S → Fin num → ℝ, Measurable X ∧
    P.map X = (Measure.pi fun _ : Fin num => D) ∧
    ∀ᵐ s ∂P, (∃ s' o, call s s' o) ∧ ∀ s' o, call s s' o →
      ((List.ofFn (X s)).map fin).length = num ∧ ∀ i < num, o i = ((List.ofFn (X s)).map fin)[i]? := by
  obtain ⟨X, N, mX, mN, e, hl⟩ := h
  refine ⟨X, mX, ?_, ?_⟩
  · have : P.map X = (P.map fun s => (X s, N s)).map Prod.fst := by
      rw [Measure.map_map measurable_fst (mX.prodMk mN)]; rfl
    rw [this, hl, Measure.map_fst_prod, measure_univ, one_smul]
  · filter_upwards [e] with s hs
    refine ⟨⟨_, _, (hs (N s) (fun i => if h : i < num then some (fin (X s ⟨i, h⟩)) else out i)).2 ⟨rfl, fun i => rfl⟩⟩,
      fun s' o hc => ⟨by simp, fun i hi => ?_⟩⟩
    rw [((hs s' o).1 hc).2 i, dif_pos hi]
    simp [hi]

theorem C52_mean (h : IidFill P call num out D) {m v : ℝ} (hD : Moments D m v) (hn : 0 < num) :
    FillMoments P call num mean m (v / num) := by
  obtain ⟨X, mX, hl, e⟩ := IidFill.list h
  obtain ⟨a1, a2, a3, a4⟩ := sample_mean hD hn
  rw [← hl] at a1 a2 a3 a4
  have hm : Measurable fun x : Fin num → ℝ => (∑ i, x i) / (num : ℝ) := by fun_prop
  refine ⟨fun s => (∑ i, X s i) / num, ?_, (integrable_map_measure (by fun_prop) mX.aemeasurable).1 a1,
    (integrable_map_measure (by fun_prop) mX.aemeasurable).1 a2, ?_, ?_⟩
  · filter_upwards [e] with s hs
    refine ⟨hs.1, fun s' o hc => ⟨_, (hs.2 s' o hc).1, (hs.2 s' o hc).2, ?_⟩⟩
    rw [C37_mean _ (by intro hc; have := congrArg List.length hc; simp at this; omega), List.sum_ofFn, List.length_ofFn]
  · rw [integral_map mX.aemeasurable (by fun_prop)] at a3
    exact a3
  · rw [integral_map mX.aemeasurable (by fun_prop)] at a4
    exact a4

theorem sum_map_ofFn {n : ℕ} (f : Fin n → ℝ) (g : ℝ → ℝ) : ((List.ofFn f).map g).sum = ∑ i, g (f i) := by
  rw [List.map_ofFn, List.sum_ofFn]; rfl

/-- `var` divides by the number of elements: its expectation is below the variance of the distribution. -/
theorem C52_var (h : IidFill P call num out D) {m v : ℝ} (hD : Moments D m v) (hn : 0 < num) :
    FillMean P call num var ((num - 1) / num * v) := by
  obtain ⟨X, mX, hl, e⟩ := IidFill.list h
  obtain ⟨a1, a2⟩ := sample_dev hD hn
  rw [← hl] at a1 a2
  have hn0 : (num : ℝ) ≠ 0 := by positivity
  refine ⟨fun s => (∑ i, (X s i - (∑ j, X s j) / num) ^ 2) / num, ?_,
    ((integrable_map_measure (by fun_prop) mX.aemeasurable).1 a1).div_const _, ?_⟩
  · filter_upwards [e] with s hs
    refine ⟨hs.1, fun s' o hc => ⟨_, (hs.2 s' o hc).1, (hs.2 s' o hc).2, ?_⟩⟩
    rw [C37_var _ (by intro hc; have := congrArg List.length hc; simp at this; omega), List.sum_ofFn, List.length_ofFn,
      sum_map_ofFn]
  · rw [integral_map mX.aemeasurable (by fun_prop)] at a2
    rw [integral_div, a2]
    ring

omit [IsProbabilityMeasure P] in
theorem fillMean_unique {stat : List Fl → Fl} {m m' : ℝ} (h : FillMean P call num stat m) (h' : FillMean P call num stat m') :
    m = m' := by
  obtain ⟨M, e, -, rfl⟩ := h
  obtain ⟨M', e', -, rfl⟩ := h'
  refine integral_congr_ae ?_
  filter_upwards [e, e'] with s hs hs'
  obtain ⟨s1, o, hc⟩ := hs.1
  obtain ⟨L, l1, l2, l3⟩ := hs.2 _ _ hc
  obtain ⟨L', l1', l2', l3'⟩ := hs'.2 _ _ hc
  have : L = L' := List.ext_getElem? fun i => by
    by_cases hi : i < num
    · rw [← l2 i hi, ← l2' i hi]
    · rw [List.getElem?_eq_none (by omega), List.getElem?_eq_none (by omega)]
  rw [← this, l3] at l3'
  exact Fl.fin.inj l3'

/-- So the expectation of `var` is not the variance of the distribution, whatever the length of the vector. -/
theorem C52_var_violated (h : IidFill P call num out D) {m v : ℝ} (hD : Moments D m v) (hn : 0 < num) (hv : v ≠ 0) :
    ¬ FillMean P call num var v := by
  intro hc
  have h1 := fillMean_unique hc (C52_var h hD hn)
  have hn0 : (num : ℝ) ≠ 0 := by positivity
  field_simp at h1
  linarith

/-- `arma::var` divides by one less: its expectation is the variance of the distribution. -/
theorem C52_var_arma (h : IidFill P call num out D) {m v : ℝ} (hD : Moments D m v) (hn : 2 ≤ num) :
    FillMean P call num var_arma v := by
  obtain ⟨X, mX, hl, e⟩ := IidFill.list h
  obtain ⟨a1, a2⟩ := sample_dev hD (n := num) (by omega)
  rw [← hl] at a1 a2
  have hn0 : (num : ℝ) - 1 ≠ 0 := by
    have : (2 : ℝ) ≤ num := by exact_mod_cast hn
    linarith
  refine ⟨fun s => (∑ i, (X s i - (∑ j, X s j) / num) ^ 2) / (num - 1), ?_,
    ((integrable_map_measure (by fun_prop) mX.aemeasurable).1 a1).div_const _, ?_⟩
  · filter_upwards [e] with s hs
    refine ⟨hs.1, fun s' o hc => ⟨_, (hs.2 s' o hc).1, (hs.2 s' o hc).2, ?_⟩⟩
    rw [C37_var_arma _ (by simpa using hn), List.sum_ofFn, List.length_ofFn, sum_map_ofFn]
  · rw [integral_map mX.aemeasurable (by fun_prop)] at a2
    rw [integral_div, a2]
    field_simp
end

end Stats

namespace Stats.ExamplesC52B
open Fl Spec Vec MatOps
open scoped Stats.Fair

/-- a thousand normal numbers with mean 3 and variance 4 -/
theorem thousand (out : ℕ → Option Fl) : IidFill Tape.tapeLaw
    (fun s s' o => RandVecSerial (Gen.ofFun fun s => some (rnorm (fin 3) (fin 2) s)) 1000 s out s' o) 1000 out
    (densLaw (normPdf 3 2)) := by
  have : SFinite (densLaw (normPdf 3 2)) := by rw [densLaw]; infer_instance
  exact C46_noomp (C32_rnorm Tape.fair 3 (by norm_num)) 1000 out

example (out : ℕ → Option Fl) : FillMoments Tape.tapeLaw
    (fun s s' o => RandVecSerial (Gen.ofFun fun s => some (rnorm (fin 3) (fin 2) s)) 1000 s out s' o) 1000 mean 3
    (2 ^ 2 / (1000 : ℕ)) := by
  have := (isCdf_norm 3 (two_pos (α := ℝ))).isProb
  exact C52_mean (thousand out) (moments_norm 3 two_pos) (by norm_num)

example (out : ℕ → Option Fl) : FillMean Tape.tapeLaw
    (fun s s' o => RandVecSerial (Gen.ofFun fun s => some (rnorm (fin 3) (fin 2) s)) 1000 s out s' o) 1000 var
    (((1000 : ℕ) - 1) / (1000 : ℕ) * 2 ^ 2) := by
  have := (isCdf_norm 3 (two_pos (α := ℝ))).isProb
  exact C52_var (thousand out) (moments_norm 3 two_pos) (by norm_num)

example (out : ℕ → Option Fl) : ¬ FillMean Tape.tapeLaw
    (fun s s' o => RandVecSerial (Gen.ofFun fun s => some (rnorm (fin 3) (fin 2) s)) 1000 s out s' o) 1000 var (2 ^ 2) := by
  have := (isCdf_norm 3 (two_pos (α := ℝ))).isProb
  exact C52_var_violated (thousand out) (moments_norm 3 two_pos) (by norm_num) (by norm_num)

example (out : ℕ → Option Fl) : FillMean Tape.tapeLaw
    (fun s s' o => RandVecSerial (Gen.ofFun fun s => some (rnorm (fin 3) (fin 2) s)) 1000 s out s' o) 1000 var_arma (2 ^ 2) := by
  have := (isCdf_norm 3 (two_pos (α := ℝ))).isProb
  exact C52_var_arma (thousand out) (moments_norm 3 two_pos) (by norm_num)

end Stats.ExamplesC52B
