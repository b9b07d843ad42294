import Verif.Lemmas.WishSum
import Mathlib.MeasureTheory.Constructions.Pi

/-! The mean and the squared deviations of a normal sample. -/

open Classical
open MeasureTheory Set Matrix
open scoped ENNReal

namespace Stats
open Spec

/-! ### reflections -/

section house
variable {n m : ℕ}

/-- the reflection that exchanges two unit vectors -/
noncomputable def house (p q : Fin n → ℝ) : Matrix (Fin n) (Fin n) ℝ :=
  1 - (2 / ((p - q) ⬝ᵥ (p - q))) • vecMulVec (p - q) (p - q)

variable (p q : Fin n → ℝ)

theorem house_sym : (house p q)ᵀ = house p q := by
  rw [house, transpose_sub, transpose_one, transpose_smul, transpose_vecMulVec]

theorem house_mulVec (x : Fin n → ℝ) :
    house p q *ᵥ x = x - (2 / ((p - q) ⬝ᵥ (p - q)) * ((p - q) ⬝ᵥ x)) • (p - q) := by
  rw [house, sub_mulVec, one_mulVec, smul_mulVec, vecMulVec_mulVec]
  congr 1
  ext i
  simp only [Pi.smul_apply, op_smul_eq_smul, smul_eq_mul]
  ring

theorem house_house (x : Fin n → ℝ) : house p q *ᵥ (house p q *ᵥ x) = x := by
  rw [house_mulVec, house_mulVec]
  generalize p - q = v
  rcases eq_or_ne (v ⬝ᵥ v) 0 with h | h
  · rw [h, div_zero, zero_mul, zero_mul, zero_smul, sub_zero, sub_zero]
  · rw [dotProduct_sub, dotProduct_smul, smul_eq_mul, sub_sub, ← add_smul]
    have : 2 / (v ⬝ᵥ v) * (v ⬝ᵥ x) + 2 / (v ⬝ᵥ v) * (v ⬝ᵥ x - 2 / (v ⬝ᵥ v) * (v ⬝ᵥ x) * (v ⬝ᵥ v)) = 0 := by
      field_simp; ring
    rw [this, zero_smul, sub_zero]

theorem house_mul : house p q * house p q = 1 := by
  refine ext_of_mulVec_single fun i => ?_
  rw [← mulVec_mulVec, house_house, one_mulVec]

theorem house_dot (x y : Fin n → ℝ) : (house p q *ᵥ x) ⬝ᵥ (house p q *ᵥ y) = x ⬝ᵥ y := by
  rw [dotProduct_mulVec, ← mulVec_transpose, house_sym, house_house]

variable {p q} in
theorem house_swap (h : p ⬝ᵥ p = q ⬝ᵥ q) : house p q *ᵥ q = p := by
  have hd : (p - q) ⬝ᵥ q = -((p - q) ⬝ᵥ (p - q)) / 2 := by
    rw [sub_dotProduct, sub_dotProduct, dotProduct_sub, dotProduct_sub, h, dotProduct_comm q p]; ring
  rw [house_mulVec, hd]
  rcases eq_or_ne ((p - q) ⬝ᵥ (p - q)) 0 with h | h
  · have h0 : p - q = 0 := dotProduct_self_eq_zero.1 h
    rw [h0, smul_zero, sub_zero]
    exact (sub_eq_zero.1 h0).symm
  · have : 2 / ((p - q) ⬝ᵥ (p - q)) * (-((p - q) ⬝ᵥ (p - q)) / 2) = -1 := by field_simp
    rw [this, neg_one_smul, sub_neg_eq_add]; abel

/-- the direction of the mean -/
noncomputable def meanDir (m : ℕ) : Fin (m + 1) → ℝ := fun _ => 1 / √(m + 1)

theorem meanDir_sq : meanDir m ⬝ᵥ meanDir m = 1 := by
  have h : (0 : ℝ) < m + 1 := by positivity
  have : √((m : ℝ) + 1) ^ 2 = m + 1 := Real.sq_sqrt h.le
  have h2 := (Real.sqrt_pos.2 h).ne'
  simp only [dotProduct, meanDir, Finset.sum_const, Finset.card_univ, Fintype.card_fin, nsmul_eq_mul]
  push_cast
  field_simp
  rw [this]

theorem single_sq (i : Fin n) : (Pi.single i 1 : Fin n → ℝ) ⬝ᵥ Pi.single i 1 = 1 := by
  rw [single_dotProduct, one_mul, Pi.single_eq_same]

/-- takes the direction of the mean to the first coordinate -/
noncomputable def turn (m : ℕ) : Matrix (Fin (m + 1)) (Fin (m + 1)) ℝ := house (Pi.single 0 1) (meanDir m)

theorem turn_sym : (turn m)ᵀ = turn m := house_sym _ _

theorem turn_mul : turn m * turn m = 1 := house_mul _ _

theorem turn_zero (j : Fin (m + 1)) : turn m 0 j = 1 / √(m + 1) := by
  have : turn m *ᵥ Pi.single 0 1 = meanDir m := by
    conv_lhs => rw [← house_swap (p := Pi.single 0 1) (q := meanDir m) (by rw [single_sq, meanDir_sq])]
    exact house_house _ _ _
  have := congrFun this j
  rw [mulVec_single_one] at this
  rw [← turn_sym, transpose_apply]
  exact this

theorem turn_row (x : Fin (m + 1) → ℝ) : (turn m *ᵥ x) 0 = (∑ k, x k) / √(m + 1) := by
  simp only [mulVec, dotProduct, turn_zero, Finset.sum_div]
  exact Finset.sum_congr rfl fun i _ => by ring

theorem turn_dot (x y : Fin (m + 1) → ℝ) : (turn m *ᵥ x) ⬝ᵥ (turn m *ᵥ y) = x ⬝ᵥ y := house_dot _ _ _ _

end house

/-! ### scalar samples -/

theorem pi_norm (n : ℕ) : (Measure.pi fun _ : Fin n => densLaw (normPdf 0 1)) = densLawV (mvnPdf 0 (1 : Matrix (Fin n) (Fin n) ℝ)) := by
  have := mvn_law (0 : Fin n → ℝ) (L := 1) (Sigma := 1) (by simp) (by simp)
  rw [← this]
  simp only [one_mulVec, zero_add, Measure.map_id']

theorem dev_sq {n : ℕ} (x : Fin n → ℝ) (hn : 0 < n) :
    ∑ i, (x i - (∑ j, x j) / n) ^ 2 = ∑ i, x i ^ 2 - (∑ j, x j) ^ 2 / n := by
  have hn0 : (n : ℝ) ≠ 0 := by positivity
  simp only [sub_sq, Finset.sum_add_distrib, Finset.sum_sub_distrib, Finset.sum_const, Finset.card_univ, Fintype.card_fin,
    nsmul_eq_mul, ← Finset.sum_mul, ← Finset.mul_sum]
  field_simp
  ring

theorem dev_mul {n : ℕ} (x y : Fin n → ℝ) (hn : 0 < n) :
    ∑ i, (x i - (∑ j, x j) / n) * (y i - (∑ j, y j) / n) = ∑ i, x i * y i - (∑ j, x j) * (∑ j, y j) / n := by
  have hn0 : (n : ℝ) ≠ 0 := by positivity
  simp only [sub_mul, mul_sub, Finset.sum_sub_distrib, Finset.sum_const, Finset.card_univ, Fintype.card_fin,
    nsmul_eq_mul, ← Finset.sum_mul, ← Finset.mul_sum]
  field_simp
  ring

/-- sums of squares of independent standard normal numbers -/
theorem sum_sq_chisq {m : ℕ} (hm : 0 < m) :
    (Measure.pi fun _ : Fin m => densLaw (normPdf 0 1)).map (fun z => ∑ i, z i ^ 2) = densLaw (chisqPdf m) := by
  rw [pi_norm, ← mvn_mahal hm 0 (PosDef.one (n := Fin m) (R := ℝ))]
  congr 1; funext z
  rw [sub_zero, inv_one, one_mulVec, dotProduct]
  exact Finset.sum_congr rfl fun i _ => pow_two _

/-- Mean and squared deviations of a standard normal sample are independent. -/
theorem student_std {m : ℕ} (hm : 0 < m) :
    (Measure.pi fun _ : Fin (m + 1) => densLaw (normPdf 0 1)).map
      (fun z => ((∑ j, z j) / √((m : ℝ) + 1), ∑ i, (z i - (∑ j, z j) / ((m + 1 : ℕ) : ℝ)) ^ 2)) =
      (densLaw (normPdf 0 1)).prod (densLaw (chisqPdf m)) := by
  have := (isCdf_norm 0 one_pos).isProb
  have hq : (Measure.pi fun _ : Fin (m + 1) => densLaw (normPdf 0 1)).map (fun z => turn m *ᵥ z) =
      Measure.pi fun _ : Fin (m + 1) => densLaw (normPdf 0 1) := by
    have hpd : (turn m * 1 * (turn m)ᵀ).PosDef := by
      rw [Matrix.mul_one, turn_sym, turn_mul]; exact PosDef.one
    have := mvn_affine 0 (PosDef.one (n := Fin (m + 1)) (R := ℝ)) 0 hpd
    rw [Matrix.mul_one, turn_sym, turn_mul] at this
    simp only [zero_add, mulVec_zero] at this
    rw [pi_norm]
    exact this
  have hs := measurePreserving_piFinSuccAbove (fun _ : Fin (m + 1) => densLaw (normPdf 0 1)) 0
  have hg : Measurable fun p : ℝ × (Fin m → ℝ) => (p.1, ∑ i, p.2 i ^ 2) := by fun_prop
  have hh : Measurable fun z : Fin (m + 1) → ℝ => turn m *ᵥ z := measurable_mulVec' _
  have e : (fun z : Fin (m + 1) → ℝ => ((∑ j, z j) / √((m : ℝ) + 1), ∑ i, (z i - (∑ j, z j) / ((m + 1 : ℕ) : ℝ)) ^ 2)) =
      (fun p : ℝ × (Fin m → ℝ) => (p.1, ∑ i, p.2 i ^ 2)) ∘
        (MeasurableEquiv.piFinSuccAbove (fun _ : Fin (m + 1) => ℝ) 0) ∘ fun z => turn m *ᵥ z := by
    funext z
    have hz := turn_dot z z
    rw [dotProduct, Fin.sum_univ_succ, turn_row] at hz
    refine Prod.ext (turn_row z).symm ?_
    show _ = ∑ i : Fin m, (turn m *ᵥ z) (Fin.succAbove 0 i) ^ 2
    rw [dev_sq z (Nat.succ_pos m)]
    have h1 : ∑ i, z i ^ 2 = z ⬝ᵥ z := Finset.sum_congr rfl fun i _ => pow_two _
    have h2 : ∑ i : Fin m, (turn m *ᵥ z) (Fin.succAbove 0 i) ^ 2 = ∑ i : Fin m, (turn m *ᵥ z) i.succ * (turn m *ᵥ z) i.succ :=
      Finset.sum_congr rfl fun i _ => by rw [Fin.zero_succAbove, pow_two]
    have h3 : (∑ j, z j) / √((m : ℝ) + 1) * ((∑ j, z j) / √((m : ℝ) + 1)) = (∑ j, z j) ^ 2 / ((m + 1 : ℕ) : ℝ) := by
      rw [div_mul_div_comm, Real.mul_self_sqrt (by positivity), ← pow_two]; push_cast; rfl
    rw [h1, h2, ← h3]
    linarith
  rw [e, ← Measure.map_map hg ((MeasurableEquiv.measurable _).comp hh), ← Measure.map_map (MeasurableEquiv.measurable _) hh, hq,
    hs.map_eq]
  have hsq : Measurable fun p : Fin m → ℝ => ∑ i, p i ^ 2 := by fun_prop
  refine (Measure.map_prod_map (densLaw (normPdf 0 1)) (Measure.pi fun _ : Fin m => densLaw (normPdf 0 1)) measurable_id hsq).symm.trans ?_
  rw [Measure.map_id, sum_sq_chisq hm]

/-- the same for any normal sample -/
theorem student_law {n : ℕ} (hn : 2 ≤ n) (mu : ℝ) {sigma : ℝ} (h : 0 < sigma) :
    (Measure.pi fun _ : Fin n => densLaw (normPdf mu sigma)).map
      (fun x => (((∑ j, x j) / (n : ℝ) - mu) / (sigma / √(n : ℝ)), (∑ i, (x i - (∑ j, x j) / (n : ℝ)) ^ 2) / sigma ^ 2)) =
      (densLaw (normPdf 0 1)).prod (densLaw (chisqPdf (n - 1))) := by
  obtain ⟨m, rfl⟩ : ∃ m, n = m + 1 := ⟨n - 1, by omega⟩
  have hm : 0 < m := by omega
  have := (isCdf_norm 0 one_pos).isProb
  have := (isCdf_norm mu h).isProb
  have e1 : (densLaw (normPdf 0 1)).map (fun z => mu + sigma * z) = densLaw (normPdf mu sigma) := by
    rw [densLaw_norm mu h, densLaw_norm 0 one_pos]
    have h1 := ProbabilityTheory.gaussianReal_map_const_mul (μ := 0) (v := ⟨1 ^ 2, sq_nonneg _⟩) sigma
    have h2 := ProbabilityTheory.gaussianReal_map_const_add (μ := sigma * 0) (v := NNReal.mk (sigma ^ 2) (sq_nonneg _) * ⟨1 ^ 2, sq_nonneg _⟩) mu
    rw [← h1, Measure.map_map (by fun_prop) (by fun_prop)] at h2
    refine h2.trans ?_
    congr 1
    · ring
    · exact NNReal.eq (show sigma ^ 2 * 1 ^ 2 = sigma ^ 2 by ring)
  have hz : Measurable fun z : ℝ => mu + sigma * z := by fun_prop
  have e2 := Measure.pi_map_pi (μ := fun _ : Fin (m + 1) => densLaw (normPdf 0 1)) (f := fun _ z => mu + sigma * z)
    fun _ => hz.aemeasurable
  simp only [e1] at e2
  have hst := student_std hm
  rw [← e2, Measure.map_map (by fun_prop) (by fun_prop)]
  push_cast
  rw [add_sub_cancel_right, ← hst]
  congr 1; funext z
  have hn0 : (m : ℝ) + 1 ≠ 0 := by positivity
  have hs : √((m : ℝ) + 1) ^ 2 = m + 1 := Real.sq_sqrt (by positivity)
  have hs0 : √((m : ℝ) + 1) ≠ 0 := (Real.sqrt_pos.2 (by positivity)).ne'
  have em : (∑ j, (mu + sigma * z j)) / ((m : ℝ) + 1) = mu + sigma * ((∑ j, z j) / ((m : ℝ) + 1)) := by
    rw [Finset.sum_add_distrib, ← Finset.mul_sum, Finset.sum_const, Finset.card_univ, Fintype.card_fin, nsmul_eq_mul]
    push_cast
    field_simp
  refine Prod.ext ?_ ?_
  · show ((∑ j, (mu + sigma * z j)) / ((m : ℝ) + 1) - mu) / (sigma / √((m : ℝ) + 1)) = _
    rw [em]
    field_simp
    rw [hs]
    field_simp
    ring
  · show (∑ i, ((mu + sigma * z i) - (∑ j, (mu + sigma * z j)) / ((m : ℝ) + 1)) ^ 2) / sigma ^ 2 = _
    rw [em, Finset.sum_div]
    refine Finset.sum_congr rfl fun i _ => ?_
    push_cast
    field_simp
    ring

/-! ### samples of vectors -/

variable {K : ℕ}

/-- A reflection of the rows does not change the law of a centred sample. -/
theorem mix_law {n : ℕ} {Q : Matrix (Fin n) (Fin n) ℝ} (hQ : Q * Qᵀ = 1) {Sigma : Matrix (Fin K) (Fin K) ℝ} (h : Sigma.PosDef) :
    (Measure.pi fun _ : Fin n => densLawV (mvnPdf 0 Sigma)).map (fun x j i => ∑ k, Q j k * x k i) =
      Measure.pi fun _ : Fin n => densLawV (mvnPdf 0 Sigma) := by
  obtain ⟨L, hL, hd⟩ := posDef_factor h
  have := (isCdf_norm 0 one_pos).isProb
  have hml : Measurable fun z : Fin K → ℝ => 0 + L *ᵥ z := (measurable_mulVec' L).const_add 0
  have hLm : Measurable fun (z : Fin n → Fin K → ℝ) k => 0 + L *ᵥ z k :=
    measurable_pi_iff.2 fun k => hml.comp (measurable_pi_apply k)
  have e1 : (Measure.pi fun _ : Fin n => densLawV (mvnPdf 0 Sigma)) =
      (Measure.pi fun _ : Fin n => Measure.pi fun _ : Fin K => densLaw (normPdf 0 1)).map fun z k => 0 + L *ᵥ z k := by
    have hl := mvn_law 0 hL hd
    have : IsProbabilityMeasure ((Measure.pi fun _ : Fin K => densLaw (normPdf 0 1)).map fun z => 0 + L *ᵥ z) :=
      Measure.isProbabilityMeasure_map hml.aemeasurable
    have := Measure.pi_map_pi (μ := fun _ : Fin n => Measure.pi fun _ : Fin K => densLaw (normPdf 0 1))
      (f := fun _ z => 0 + L *ᵥ z) fun _ => hml.aemeasurable
    simp only [hl] at this
    exact this.symm
  have hmix : Measurable fun (x : Fin n → Fin K → ℝ) (j : Fin n) (i : Fin K) => ∑ k, Q j k * x k i :=
    measurable_pi_iff.2 fun j => measurable_pi_iff.2 fun i => by fun_prop
  -- one long vector
  let pos : Fin n × Fin K ≃ Fin (n * K) := finProdFinEquiv
  let B : Matrix (Fin (n * K)) (Fin (n * K)) ℝ := of fun a b =>
    Q (pos.symm a).1 (pos.symm b).1 * if (pos.symm a).2 = (pos.symm b).2 then 1 else 0
  have sp : ∀ f : Fin (n * K) → ℝ, ∑ b, f b = ∑ k, ∑ i, f (pos (k, i)) := fun f => by
    rw [← pos.sum_comp, Fintype.sum_prod_type]
  have hB : B * Bᵀ = 1 := by
    ext a b
    have := congrFun (congrFun hQ (pos.symm a).1) (pos.symm b).1
    simp only [Matrix.mul_apply, transpose_apply, one_apply] at this
    simp only [Matrix.mul_apply, transpose_apply, one_apply, B, of_apply, sp, Equiv.symm_apply_apply]
    have e : ∀ k : Fin n, (∑ i : Fin K, Q (pos.symm a).1 k * (if (pos.symm a).2 = i then 1 else 0) *
        (Q (pos.symm b).1 k * if (pos.symm b).2 = i then 1 else 0)) =
        Q (pos.symm a).1 k * Q (pos.symm b).1 k * if (pos.symm a).2 = (pos.symm b).2 then 1 else 0 := fun k => by
      rw [Finset.sum_eq_single (pos.symm a).2]
      · simp only [if_true, mul_one, eq_comm]; ring
      · intro i _ hi; rw [if_neg hi.symm]; ring
      · simp
    simp only [e]
    rw [← Finset.sum_mul, this]
    by_cases hab : a = b
    · subst hab; simp
    · have : pos.symm a ≠ pos.symm b := fun h => hab (pos.symm.injective h)
      rw [if_neg hab]
      by_cases h1 : (pos.symm a).1 = (pos.symm b).1
      · rw [if_neg fun h2 => this (Prod.ext h1 h2), mul_zero]
      · rw [if_neg h1, zero_mul]
  have hpd : (B * 1 * Bᵀ).PosDef := by rw [Matrix.mul_one, hB]; exact PosDef.one
  have e2 := mvn_affine 0 (PosDef.one (n := Fin (n * K)) (R := ℝ)) 0 hpd
  rw [Matrix.mul_one, hB] at e2
  simp only [zero_add, mulVec_zero] at e2
  rw [← pi_norm] at e2
  have hsp : Measurable fun (z : Fin (n * K) → ℝ) (r : Fin n) (j : Fin K) => z (pos (r, j)) :=
    measurable_pi_iff.2 fun r => measurable_pi_iff.2 fun j => measurable_pi_apply _
  have e3 : (Measure.pi fun _ : Fin n => Measure.pi fun _ : Fin K => densLaw (normPdf 0 1)).map (fun x j i => ∑ k, Q j k * x k i) =
      Measure.pi fun _ : Fin n => Measure.pi fun _ : Fin K => densLaw (normPdf 0 1) := by
    have hs := pi_split pos (densLaw (normPdf 0 1))
    conv_rhs => rw [← hs, ← e2]
    rw [← hs, Measure.map_map hmix hsp, Measure.map_map hsp (measurable_mulVec' B)]
    congr 1; funext z j i
    show ∑ k, Q j k * z (pos (k, i)) = (B *ᵥ z) (pos (j, i))
    simp only [Matrix.mulVec, dotProduct, sp, B, of_apply, Equiv.symm_apply_apply]
    refine Finset.sum_congr rfl fun k _ => ?_
    rw [Finset.sum_eq_single i]
    · simp
    · intro l _ hl; rw [if_neg hl.symm]; ring
    · simp
  rw [e1, Measure.map_map hmix hLm]
  conv_rhs => rw [← e3, Measure.map_map hLm hmix]
  congr 1; funext z j i
  show ∑ k, Q j k * (0 + L *ᵥ z k) i = (0 + L *ᵥ fun i => ∑ k, Q j k * z k i) i
  simp only [zero_add, Matrix.mulVec, dotProduct, Finset.mul_sum]
  rw [Finset.sum_comm]
  exact Finset.sum_congr rfl fun k _ => Finset.sum_congr rfl fun i _ => by ring

/-- Mean and scatter matrix of a sample of normal vectors are independent. -/
theorem student_vec {n : ℕ} (hn : K + 1 ≤ n) (mu : Fin K → ℝ) {Sigma : Matrix (Fin K) (Fin K) ℝ} (h : Sigma.PosDef) :
    (Measure.pi fun _ : Fin n => densLawV (mvnPdf mu Sigma)).map
      (fun x => (fun i => √(n : ℝ) * ((∑ k, x k i) / (n : ℝ) - mu i),
        fun i j => ∑ k, (x k i - (∑ l, x l i) / (n : ℝ)) * (x k j - (∑ l, x l j) / (n : ℝ)))) =
      (densLawV (mvnPdf 0 Sigma)).prod (posDefLaw (wishPdf Sigma (n - 1))) := by
  obtain ⟨m, rfl⟩ : ∃ m, n = m + 1 := ⟨n - 1, by omega⟩
  have hm : K ≤ m := by omega
  have := mvn_prob mu h
  have := mvn_prob 0 h
  have hsh : Measurable fun x : Fin K → ℝ => mu + x := by fun_prop
  have : IsProbabilityMeasure ((densLawV (mvnPdf 0 Sigma)).map fun x => mu + x) := Measure.isProbabilityMeasure_map hsh.aemeasurable
  have e2 := Measure.pi_map_pi (μ := fun _ : Fin (m + 1) => densLawV (mvnPdf 0 Sigma)) (f := fun _ x => mu + x)
    fun _ => hsh.aemeasurable
  simp only [mvn_shift mu h] at e2
  have hmix := mix_law (n := m + 1) (Q := turn m) (by rw [turn_sym, turn_mul]) h
  have hs := measurePreserving_piFinSuccAbove (fun _ : Fin (m + 1) => densLawV (mvnPdf 0 Sigma)) 0
  have mg : Measurable fun x : Fin m → Fin K → ℝ => fun i j => ∑ k, x k i * x k j :=
    measurable_pi_iff.2 fun i => measurable_pi_iff.2 fun j => by fun_prop
  have mh : Measurable fun p : (Fin K → ℝ) × (Fin m → Fin K → ℝ) => (p.1, fun i j => ∑ k, p.2 k i * p.2 k j) :=
    measurable_fst.prodMk (mg.comp measurable_snd)
  have mt : Measurable fun (x : Fin (m + 1) → Fin K → ℝ) (j : Fin (m + 1)) (i : Fin K) => ∑ k, turn m j k * x k i :=
    measurable_pi_iff.2 fun j => measurable_pi_iff.2 fun i => by fun_prop
  have mf : Measurable fun x : Fin (m + 1) → Fin K → ℝ => ((fun i => √((m + 1 : ℕ) : ℝ) * ((∑ k, x k i) / ((m + 1 : ℕ) : ℝ) - mu i),
        fun i j => ∑ k, (x k i - (∑ l, x l i) / ((m + 1 : ℕ) : ℝ)) * (x k j - (∑ l, x l j) / ((m + 1 : ℕ) : ℝ))) :
          (Fin K → ℝ) × (Fin K → Fin K → ℝ)) := by
    refine Measurable.prodMk (measurable_pi_iff.2 fun i => by fun_prop) (measurable_pi_iff.2 fun i => measurable_pi_iff.2 fun j => ?_)
    fun_prop
  have mc : Measurable fun (x : Fin (m + 1) → Fin K → ℝ) k => mu + x k := by fun_prop
  have e : (fun x : Fin (m + 1) → Fin K → ℝ => ((fun i => √((m + 1 : ℕ) : ℝ) * ((∑ k, x k i) / ((m + 1 : ℕ) : ℝ) - mu i),
        fun i j => ∑ k, (x k i - (∑ l, x l i) / ((m + 1 : ℕ) : ℝ)) * (x k j - (∑ l, x l j) / ((m + 1 : ℕ) : ℝ))) :
          (Fin K → ℝ) × (Fin K → Fin K → ℝ))) ∘ (fun (x : Fin (m + 1) → Fin K → ℝ) k => mu + x k) =
      (fun p : (Fin K → ℝ) × (Fin m → Fin K → ℝ) => (p.1, fun i j => ∑ k, p.2 k i * p.2 k j)) ∘
        (MeasurableEquiv.piFinSuccAbove (fun _ : Fin (m + 1) => Fin K → ℝ) 0) ∘ fun (x : Fin (m + 1) → Fin K → ℝ) j i => ∑ k, turn m j k * x k i := by
    funext z
    have hn0 : (m : ℝ) + 1 ≠ 0 := by positivity
    have hsq : √((m : ℝ) + 1) ^ 2 = m + 1 := Real.sq_sqrt (by positivity)
    have hs0 : √((m : ℝ) + 1) ≠ 0 := (Real.sqrt_pos.2 (by positivity)).ne'
    have em : ∀ i, (∑ k, (mu + z k) i) / ((m + 1 : ℕ) : ℝ) = mu i + (∑ k, z k i) / ((m + 1 : ℕ) : ℝ) := fun i => by
      simp only [Pi.add_apply]
      rw [Finset.sum_add_distrib, Finset.sum_const, Finset.card_univ, Fintype.card_fin, nsmul_eq_mul]
      push_cast
      field_simp
    refine Prod.ext ?_ ?_
    · funext i
      show √((m + 1 : ℕ) : ℝ) * ((∑ k, (mu + z k) i) / ((m + 1 : ℕ) : ℝ) - mu i) = (turn m *ᵥ fun k => z k i) 0
      rw [em, turn_row]
      push_cast
      field_simp
      rw [hsq]
      ring
    · funext i j
      show ∑ k, ((mu + z k) i - (∑ l, (mu + z l) i) / ((m + 1 : ℕ) : ℝ)) * ((mu + z k) j - (∑ l, (mu + z l) j) / ((m + 1 : ℕ) : ℝ)) =
        ∑ k : Fin m, (turn m *ᵥ fun l => z l i) (Fin.succAbove 0 k) * (turn m *ᵥ fun l => z l j) (Fin.succAbove 0 k)
      have hz := turn_dot (fun k => z k i) (fun k => z k j)
      rw [dotProduct, Fin.sum_univ_succ, turn_row, turn_row, dotProduct] at hz
      simp only [Fin.zero_succAbove]
      have h3 : (∑ k, z k i) / √((m : ℝ) + 1) * ((∑ k, z k j) / √((m : ℝ) + 1)) = (∑ k, z k i) * (∑ k, z k j) / ((m + 1 : ℕ) : ℝ) := by
        rw [div_mul_div_comm, Real.mul_self_sqrt (by positivity)]; push_cast; rfl
      rw [h3] at hz
      have h4 := dev_mul (fun k => z k i) (fun k => z k j) (Nat.succ_pos m)
      simp only [em]
      simp only [Pi.add_apply, add_sub_add_left_eq_sub]
      rw [h4]
      linarith
  rw [← e2, Measure.map_map mf mc, e, ← Measure.map_map mh ((MeasurableEquiv.measurable _).comp mt),
    ← Measure.map_map (MeasurableEquiv.measurable _) mt, hmix, hs.map_eq]
  refine (Measure.map_prod_map (densLawV (mvnPdf 0 Sigma)) (Measure.pi fun _ : Fin m => densLawV (mvnPdf 0 Sigma)) measurable_id mg).symm.trans ?_
  rw [Measure.map_id, wish_scatter h hm]
  push_cast
  rw [add_sub_cancel_right]

/-- The quadratic form of the inverse of a Wishart matrix. -/
theorem wish_inv_quad {Psi : Matrix (Fin K) (Fin K) ℝ} (h : Psi.PosDef) {ν : ℝ} (hν : (K : ℝ) - 1 < ν) {a : Fin K → ℝ} (ha : a ≠ 0) :
    (posDefLaw (wishPdf Psi ν)).map (fun X => (a ⬝ᵥ Psi⁻¹ *ᵥ a) / (a ⬝ᵥ (of X)⁻¹ *ᵥ a)) = densLaw (chisqPdf (ν - K + 1)) := by
  obtain ⟨k, rfl⟩ : ∃ k, K = k + 1 := by
    rcases K with _ | k
    · exact absurd (Subsingleton.elim _ _) ha
    · exact ⟨k, rfl⟩
  obtain ⟨L₀, hL₀, hd₀⟩ := posDef_factor h
  have hu₀ : IsUnit L₀.det := isUnit_iff_ne_zero.2 hd₀
  -- a factor whose last column is a multiple of `a`
  set b := L₀⁻¹ *ᵥ a with hb
  have hba : L₀ *ᵥ b = a := by rw [hb, mulVec_mulVec, mul_nonsing_inv _ hu₀, one_mulVec]
  have hb0 : b ≠ 0 := fun h0 => ha (by rw [← hba, h0, mulVec_zero])
  have hbb : 0 < b ⬝ᵥ b := by
    have := quad_pos (PosDef.one (n := Fin (k + 1)) (R := ℝ)) hb0
    rwa [one_mulVec] at this
  set c := √(b ⬝ᵥ b) with hc
  have hc0 : 0 < c := Real.sqrt_pos.2 hbb
  have hcc : c ^ 2 = b ⬝ᵥ b := Real.sq_sqrt hbb.le
  set l : Fin (k + 1) := Fin.last k
  set Q := house (Pi.single l c) b with hQ
  have hQb : Q *ᵥ b = Pi.single l c := house_swap (by
    rw [single_dotProduct, Pi.single_eq_same, ← pow_two, hcc])
  set L := L₀ * Q with hLdef
  have hL : L * Lᵀ = Psi := by
    rw [hLdef, transpose_mul, house_sym, Matrix.mul_assoc, ← Matrix.mul_assoc Q, house_mul, Matrix.one_mul, hL₀]
  have hd : L.det ≠ 0 := fun h0 => by
    have := h.det_pos
    rw [← hL, det_mul, h0, zero_mul] at this
    exact lt_irrefl _ this
  have hu : IsUnit L.det := isUnit_iff_ne_zero.2 hd
  have hLa : L⁻¹ *ᵥ a = Pi.single l c := by
    have : L *ᵥ Pi.single l c = a := by
      rw [hLdef, ← mulVec_mulVec, ← hQb, hQ, house_house, hba]
    rw [← this, mulVec_mulVec, nonsing_inv_mul _ hu, one_mulVec]
  have hPsi : a ⬝ᵥ Psi⁻¹ *ᵥ a = c ^ 2 := by
    rw [← hL, Matrix.mul_inv_rev, ← transpose_nonsing_inv, ← mulVec_mulVec, dotProduct_mulVec, vecMul_transpose, hLa,
      single_dotProduct, Pi.single_eq_same, pow_two]
  have hprob : ∀ p : Low (k + 1), IsProbabilityMeasure (densLaw (bartPdf ν p)) := fun p => by
    rw [bartPdf]
    split
    · exact chi_prob (df_pos hν p.1.1)
    · exact (isCdf_norm 0 one_pos).isProb
  have hs : Measurable (sqr (K := k + 1)) :=
    (continuous_iff_continuousAt.2 fun u => (sqr_hasFDerivAt u).continuousAt).measurable
  have hcm : Measurable (congr L) := (LinearMap.continuous_of_finiteDimensional _).measurable
  have e1 : densLawV (fun x : Low (k + 1) → ℝ => if (sym x).PosDef then wishPdf Psi ν (sym x) else 0) =
      ((Measure.pi fun p : Low (k + 1) => densLaw (bartPdf ν p)).map sqr).map (congr L) := by
    rw [bart_law hν, posDef_congr_law hd]
    congr 1; funext x
    split_ifs with hx
    · rw [wish_scale hd hx ν, hL]
    · rfl
  have hf : Measurable fun X : Fin (k + 1) → Fin (k + 1) → ℝ => (a ⬝ᵥ Psi⁻¹ *ᵥ a) / (a ⬝ᵥ (of X)⁻¹ *ᵥ a) := by
    have : Measurable fun X : Fin (k + 1) → Fin (k + 1) → ℝ => a ⬝ᵥ (of X)⁻¹ *ᵥ a := by
      have hq : Measurable fun Y : Fin (k + 1) → Fin (k + 1) → ℝ => a ⬝ᵥ of Y *ᵥ a := by
        simp only [dotProduct, Matrix.mulVec, of_apply]; fun_prop
      exact hq.comp measurable_inv_entries
    exact measurable_const.div this
  have hl1 := (measurePreserving_eval (fun p : Low (k + 1) => densLaw (bartPdf ν p)) ⟨(l, l), le_rfl⟩).map_eq
  have hl2 := Measure.map_map (μ := Measure.pi fun p : Low (k + 1) => densLaw (bartPdf ν p)) (g := fun x : ℝ => x ^ 2)
    (f := Function.eval (⟨(l, l), le_rfl⟩ : Low (k + 1))) (by fun_prop) (measurable_pi_apply _)
  rw [hl1, bartPdf, if_pos rfl, chi_sq] at hl2
  have hll : (ν - ((l : Fin (k + 1)) : ℕ) : ℝ) = ν - ((k + 1 : ℕ) : ℝ) + 1 := by
    show ν - ((Fin.last k : Fin (k + 1)) : ℕ) = _
    rw [Fin.val_last]; push_cast; ring
  rw [← hll]
  refine Eq.trans ?_ hl2.symm
  rw [posDefLaw, e1, Measure.map_map hf measurable_sym, Measure.map_map (hf.comp measurable_sym) hcm,
    Measure.map_map ((hf.comp measurable_sym).comp hcm) hs]
  refine Measure.map_congr ?_
  have hpos : ∀ᵐ u ∂(Measure.pi fun p : Low (k + 1) => densLaw (bartPdf ν p)), ∀ i : Fin (k + 1), 0 < u ⟨(i, i), le_rfl⟩ := by
    refine ae_all_iff.2 fun i => ?_
    have hi := (measurePreserving_eval (fun p : Low (k + 1) => densLaw (bartPdf ν p)) ⟨(i, i), le_rfl⟩).map_eq
    have h0 : ∀ᵐ x ∂densLaw (bartPdf ν (⟨(i, i), le_rfl⟩ : Low (k + 1))), 0 < x := by
      rw [bartPdf, if_pos rfl, ← chi_law, ae_map_iff (by fun_prop) measurableSet_Ioi]
      filter_upwards [densLaw_chisq_pos (ν - (i : ℕ))] with x hx using Real.sqrt_pos.2 hx
    rw [← hi] at h0
    exact ae_of_ae_map (measurable_pi_apply _).aemeasurable h0
  filter_upwards [hpos] with u hu
  show (a ⬝ᵥ Psi⁻¹ *ᵥ a) / (a ⬝ᵥ (sym (congr L (sqr u)))⁻¹ *ᵥ a) = u ⟨(l, l), le_rfl⟩ ^ 2
  have htu : IsUnit (tri u).det := isUnit_iff_ne_zero.2 (tri_det_pos hu).ne'
  have hul := (hu l).ne'
  have hte : tri u *ᵥ Pi.single l c = u ⟨(l, l), le_rfl⟩ • Pi.single l c := by
    funext i
    rw [mulVec_single, Pi.smul_apply, Pi.smul_apply, col_apply, smul_eq_mul, op_smul_eq_smul, smul_eq_mul]
    rcases (Fin.le_last i).eq_or_lt with hi | hi
    · subst hi
      rw [show (Fin.last k) = l from rfl, Pi.single_eq_same, tri, of_apply, dif_pos le_rfl, mul_comm]
    · rw [tri_zero u hi, Pi.single_eq_of_ne hi.ne, mul_zero, mul_zero]
  have hti : (tri u)⁻¹ *ᵥ Pi.single l c = (u ⟨(l, l), le_rfl⟩)⁻¹ • Pi.single l c := by
    have : Pi.single l c = tri u *ᵥ ((u ⟨(l, l), le_rfl⟩)⁻¹ • Pi.single l c) := by
      rw [mulVec_smul, hte, smul_smul, inv_mul_cancel₀ hul, one_smul]
    conv_lhs => rw [this]
    rw [mulVec_mulVec, nonsing_inv_mul _ htu, one_mulVec]
  have hX : a ⬝ᵥ (sym (congr L (sqr u)))⁻¹ *ᵥ a = ((u ⟨(l, l), le_rfl⟩)⁻¹ * c) ^ 2 := by
    have : L * (tri u * (tri u)ᵀ) * Lᵀ = (L * tri u) * (L * tri u)ᵀ := by
      rw [transpose_mul L (tri u)]; simp only [Matrix.mul_assoc]
    rw [sym_congr, sym_sqr, this, Matrix.mul_inv_rev, ← transpose_nonsing_inv, ← mulVec_mulVec, dotProduct_mulVec, vecMul_transpose,
      Matrix.mul_inv_rev, ← mulVec_mulVec, hLa, hti, smul_dotProduct, dotProduct_smul, single_dotProduct, Pi.single_eq_same, smul_eq_mul,
      smul_eq_mul]
    ring
  rw [hPsi, hX]
  field_simp

/-- Hotelling's statistic -/
theorem hotelling_law {n : ℕ} (hK : 0 < K) (hn : K + 1 ≤ n) (mu : Fin K → ℝ) {Sigma : Matrix (Fin K) (Fin K) ℝ} (h : Sigma.PosDef) :
    (Measure.pi fun _ : Fin n => densLawV (mvnPdf mu Sigma)).map
      (fun x => ((n : ℝ) - K) / K * ((fun i => √(n : ℝ) * ((∑ k, x k i) / (n : ℝ) - mu i)) ⬝ᵥ
        (of fun i j => ∑ k, (x k i - (∑ l, x l i) / (n : ℝ)) * (x k j - (∑ l, x l j) / (n : ℝ)))⁻¹ *ᵥ
          fun i => √(n : ℝ) * ((∑ k, x k i) / (n : ℝ) - mu i))) = densLaw (fPdf K (n - K)) := by
  have hK0 : (0 : ℝ) < K := by exact_mod_cast hK
  have hnK : (K : ℝ) + 1 ≤ n := by exact_mod_cast hn
  have hν : (K : ℝ) - 1 < (n : ℝ) - 1 := by linarith
  have hnk0 : (0 : ℝ) < n - K := by linarith
  have := mvn_prob mu h
  have := mvn_prob 0 h
  have := wish_prob h hν
  have := (isCdf_chisq hK0).isProb
  have := (isCdf_chisq hnk0).isProb
  have mq : Measurable fun y : Fin K → ℝ => y ⬝ᵥ Sigma⁻¹ *ᵥ y := measurable_quad _
  have mi : Measurable fun p : (Fin K → ℝ) × (Fin K → Fin K → ℝ) => p.1 ⬝ᵥ (of p.2)⁻¹ *ᵥ p.1 := by
    have h1 : Measurable fun p : (Fin K → ℝ) × (Fin K → Fin K → ℝ) => p.1 ⬝ᵥ of p.2 *ᵥ p.1 := by
      simp only [dotProduct, Matrix.mulVec, of_apply]; fun_prop
    exact h1.comp (measurable_fst.prodMk (measurable_inv_entries.comp measurable_snd))
  have mr : Measurable fun p : (Fin K → ℝ) × (Fin K → Fin K → ℝ) => (p.1 ⬝ᵥ Sigma⁻¹ *ᵥ p.1) / (p.1 ⬝ᵥ (of p.2)⁻¹ *ᵥ p.1) :=
    (mq.comp measurable_fst).div mi
  have mp : Measurable fun p : (Fin K → ℝ) × (Fin K → Fin K → ℝ) =>
      (p.1 ⬝ᵥ Sigma⁻¹ *ᵥ p.1, (p.1 ⬝ᵥ Sigma⁻¹ *ᵥ p.1) / (p.1 ⬝ᵥ (of p.2)⁻¹ *ᵥ p.1)) := (mq.comp measurable_fst).prodMk mr
  have hq : (densLawV (mvnPdf 0 Sigma)).map (fun y => y ⬝ᵥ Sigma⁻¹ *ᵥ y) = densLaw (chisqPdf K) := by
    rw [← mvn_mahal hK 0 h]; simp only [sub_zero]
  have hpos : ∀ᵐ y ∂densLawV (mvnPdf 0 Sigma), 0 < y ⬝ᵥ Sigma⁻¹ *ᵥ y := by
    have := densLaw_chisq_pos (K : ℝ)
    rw [← hq] at this
    exact ae_of_ae_map mq.aemeasurable this
  have key : ((densLawV (mvnPdf 0 Sigma)).prod (posDefLaw (wishPdf Sigma (n - 1)))).map
      (fun p => (p.1 ⬝ᵥ Sigma⁻¹ *ᵥ p.1, (p.1 ⬝ᵥ Sigma⁻¹ *ᵥ p.1) / (p.1 ⬝ᵥ (of p.2)⁻¹ *ᵥ p.1))) =
      (densLaw (chisqPdf K)).prod (densLaw (chisqPdf (n - K))) := by
    symm
    refine Measure.prod_eq fun A B hA hB => ?_
    rw [Measure.map_apply mp (hA.prod hB), Measure.prod_apply (mp (hA.prod hB)), ← hq, Measure.map_apply mq hA, mul_comm,
      ← setLIntegral_const, ← lintegral_indicator (mq hA)]
    refine lintegral_congr_ae ?_
    filter_upwards [hpos] with y hy
    have hy0 : y ≠ 0 := fun h0 => by rw [h0] at hy; simp at hy
    have hw := wish_inv_quad h hν hy0
    rw [show (n : ℝ) - 1 - K + 1 = n - K by ring] at hw
    have mw : Measurable fun X : Fin K → Fin K → ℝ => (y ⬝ᵥ Sigma⁻¹ *ᵥ y) / (y ⬝ᵥ (of X)⁻¹ *ᵥ y) :=
      mr.comp (measurable_const.prodMk measurable_id)
    by_cases hyA : y ⬝ᵥ Sigma⁻¹ *ᵥ y ∈ A
    · rw [indicator_of_mem (show y ∈ (fun y : Fin K → ℝ => y ⬝ᵥ Sigma⁻¹ *ᵥ y) ⁻¹' A from hyA), ← hw, Measure.map_apply mw hB]
      congr 1
      ext X
      exact ⟨fun hx => hx.2, fun hx => ⟨hyA, hx⟩⟩
    · rw [indicator_of_notMem (show y ∉ (fun y : Fin K → ℝ => y ⬝ᵥ Sigma⁻¹ *ᵥ y) ⁻¹' A from hyA)]
      refine measure_mono_null (t := ∅) (fun X hx => hyA hx.1) measure_empty
  have mz : Measurable fun p : (Fin K → ℝ) × (Fin K → Fin K → ℝ) => ((n : ℝ) - K) / K * (p.1 ⬝ᵥ (of p.2)⁻¹ *ᵥ p.1) := mi.const_mul _
  have mf : Measurable fun x : Fin n → Fin K → ℝ => ((fun i => √(n : ℝ) * ((∑ k, x k i) / (n : ℝ) - mu i),
        fun i j => ∑ k, (x k i - (∑ l, x l i) / (n : ℝ)) * (x k j - (∑ l, x l j) / (n : ℝ))) :
          (Fin K → ℝ) × (Fin K → Fin K → ℝ)) := by
    refine Measurable.prodMk (measurable_pi_iff.2 fun i => by fun_prop) (measurable_pi_iff.2 fun i => measurable_pi_iff.2 fun j => ?_)
    fun_prop
  have e1 := Measure.map_map (μ := Measure.pi fun _ : Fin n => densLawV (mvnPdf mu Sigma)) mz mf
  rw [student_vec hn mu h] at e1
  refine e1.symm.trans ?_
  rw [← f_ratio hK0 hnk0, ← key, Measure.map_map (by fun_prop) mp]
  refine Measure.map_congr ?_
  have hp2 : ∀ᵐ p ∂(densLawV (mvnPdf 0 Sigma)).prod (posDefLaw (wishPdf Sigma ((n : ℝ) - 1))), 0 < p.1 ⬝ᵥ Sigma⁻¹ *ᵥ p.1 :=
    Measure.quasiMeasurePreserving_fst.ae hpos
  filter_upwards [hp2] with p hp
  show ((n : ℝ) - K) / K * (p.1 ⬝ᵥ (of p.2)⁻¹ *ᵥ p.1) =
    (n - K) / K * (p.1 ⬝ᵥ Sigma⁻¹ *ᵥ p.1) / ((p.1 ⬝ᵥ Sigma⁻¹ *ᵥ p.1) / (p.1 ⬝ᵥ (of p.2)⁻¹ *ᵥ p.1))
  rcases eq_or_ne (p.1 ⬝ᵥ (of p.2)⁻¹ *ᵥ p.1) 0 with h0 | h0
  · rw [h0, div_zero, div_zero, mul_zero]
  · have := hp.ne'
    field_simp

end Stats
