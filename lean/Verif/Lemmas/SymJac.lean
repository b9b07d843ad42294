import Verif.Spec.Sym
import Mathlib.LinearAlgebra.Matrix.Transvection
import Mathlib.LinearAlgebra.Matrix.Block
import Mathlib.MeasureTheory.Function.Jacobian
import Mathlib.Analysis.Matrix.Normed
import Mathlib.Analysis.Calculus.FDeriv.Mul
import Mathlib.Order.Interval.Finset.Fin
import Mathlib.Data.Prod.Lex

/-! Jacobians on symmetric matrices: congruence, the Cholesky factor, the inverse. -/

open Matrix MeasureTheory Set
open scoped ENNReal

namespace Stats
open Spec
variable {K : ℕ}

/-- the lower triangle -/
def low (X : Matrix (Fin K) (Fin K) ℝ) : Low K → ℝ := fun p => X p.1.1 p.1.2

theorem low_sym (x : Low K → ℝ) : low (sym x) = x := by
  funext p
  simp only [low, sym, of_apply, dif_pos p.2]

theorem sym_low {X : Matrix (Fin K) (Fin K) ℝ} (h : Xᵀ = X) : sym (low X) = X := by
  ext i j
  simp only [low, sym, of_apply]
  split
  · rfl
  · exact congrFun (congrFun h i) j

theorem sym_transpose (x : Low K → ℝ) : (sym x)ᵀ = sym x := by
  ext i j
  simp only [sym, transpose_apply, of_apply]
  rcases lt_trichotomy i j with h | rfl | h
  · rw [dif_pos h.le, dif_neg (not_le.2 h)]
  · rfl
  · rw [dif_neg (not_le.2 h), dif_pos h.le]

theorem sym_injective : Function.Injective (sym (K := K)) := fun x y h => by rw [← low_sym x, h, low_sym]

theorem sym_add (x y : Low K → ℝ) : sym (x + y) = sym x + sym y := by
  ext i j; simp only [sym, of_apply, Matrix.add_apply]; split <;> rfl

theorem sym_smul (c : ℝ) (x : Low K → ℝ) : sym (c • x) = c • sym x := by
  ext i j; simp only [sym, of_apply, Matrix.smul_apply]; split <;> rfl

/-- the congruence `X ↦ P X P'` on lower triangles -/
def congr (P : Matrix (Fin K) (Fin K) ℝ) : (Low K → ℝ) →ₗ[ℝ] (Low K → ℝ) where
  toFun x := low (P * sym x * Pᵀ)
  map_add' x y := by funext p; simp [low, sym_add, Matrix.mul_add, Matrix.add_mul]
  map_smul' c x := by funext p; simp [low, sym_smul]

theorem sym_congr (P : Matrix (Fin K) (Fin K) ℝ) (x : Low K → ℝ) : sym (congr P x) = P * sym x * Pᵀ := by
  show sym (low (P * sym x * Pᵀ)) = _
  rw [sym_low]
  rw [transpose_mul, transpose_mul, transpose_transpose, sym_transpose, Matrix.mul_assoc]

theorem congr_mul (P Q : Matrix (Fin K) (Fin K) ℝ) : congr (P * Q) = congr P ∘ₗ congr Q := by
  ext1 x
  apply LinearMap.ext
  intro y
  apply sym_injective
  rw [LinearMap.comp_apply, LinearMap.comp_apply, LinearMap.comp_apply]
  simp only [sym_congr, transpose_mul, Matrix.mul_assoc]

theorem sym_single (q : Low K) (a b : Fin K) :
    sym (Pi.single q 1) a b = if (max a b, min a b) = q.1 then 1 else 0 := by
  simp only [sym, of_apply]
  have hs : ∀ p : Low K, (Pi.single q 1 : Low K → ℝ) p = if p.1 = q.1 then 1 else 0 := by
    intro p
    by_cases h : p = q
    · subst h; simp
    · rw [Pi.single_eq_of_ne h, if_neg fun e => h (Subtype.ext e)]
  split
  · rename_i h; rw [hs, max_eq_left h, min_eq_right h]
  · rename_i h
    have h := (not_le.1 h).le
    rw [hs, max_eq_right h, min_eq_left h]

theorem fin_max (a b : Fin K) : ((max a b : Fin K) : ℕ) = max (a : ℕ) b := by
  rcases le_total a b with h | h
  · rw [max_eq_right h, max_eq_right (by exact_mod_cast h)]
  · rw [max_eq_left h, max_eq_left (by exact_mod_cast h)]

theorem fin_min (a b : Fin K) : ((min a b : Fin K) : ℕ) = min (a : ℕ) b := by
  rcases le_total a b with h | h
  · rw [min_eq_left h, min_eq_left (by exact_mod_cast h)]
  · rw [min_eq_right h, min_eq_right (by exact_mod_cast h)]

theorem congr_entry (P : Matrix (Fin K) (Fin K) ℝ) (p q : Low K) :
    LinearMap.toMatrix' (congr P) p q =
      ∑ b, ∑ a, P p.1.1 a * (if (max a b, min a b) = q.1 then 1 else 0) * P p.1.2 b := by
  rw [LinearMap.toMatrix'_apply]
  show low (P * sym _ * Pᵀ) p = _
  simp only [low, mul_apply, transpose_apply, Finset.sum_mul]
  refine Finset.sum_congr rfl fun b _ => Finset.sum_congr rfl fun a _ => ?_
  rw [sym_single]

/-- lexicographic order of the places -/
@[implicit_reducible] def lowOrder (K : ℕ) : LinearOrder (Low K) :=
  LinearOrder.lift' (fun p : Low K => toLex p.1) fun _ _ h => Subtype.ext (toLex.injective h)

theorem lowOrder_lt (p q : Low K) :
    (lowOrder K).lt p q ↔ p.1.1 < q.1.1 ∨ p.1.1 = q.1.1 ∧ p.1.2 < q.1.2 := by
  show toLex p.1 < toLex q.1 ↔ _
  rw [Prod.Lex.lt_iff]; rfl

theorem prod_low {M : Type*} [CommMonoid M] (g : Fin K → Fin K → M) :
    ∏ p : Low K, g p.1.1 p.1.2 = ∏ i, ∏ j ∈ Finset.Iic i, g i j := by
  have h1 : ∏ p : Low K, g p.1.1 p.1.2 = ∏ p : Fin K × Fin K, if p.2 ≤ p.1 then g p.1 p.2 else 1 := by
    rw [← Finset.prod_filter, ← Finset.prod_subtype_eq_prod_filter]
    rw [Finset.subtype_univ]
  rw [h1, Fintype.prod_prod_type]
  refine Finset.prod_congr rfl fun i _ => ?_
  rw [← Finset.prod_filter]
  refine Finset.prod_congr ?_ fun _ _ => rfl
  ext j; simp

theorem prod_low' {M : Type*} [CommMonoid M] (g : Fin K → Fin K → M) :
    ∏ p : Low K, g p.1.1 p.1.2 = ∏ j, ∏ i ∈ Finset.Ici j, g i j := by
  have h1 : ∏ p : Low K, g p.1.1 p.1.2 = ∏ p : Fin K × Fin K, if p.2 ≤ p.1 then g p.1 p.2 else 1 := by
    rw [← Finset.prod_filter, ← Finset.prod_subtype_eq_prod_filter]
    rw [Finset.subtype_univ]
  rw [h1, Fintype.prod_prod_type_right]
  refine Finset.prod_congr rfl fun i _ => ?_
  rw [← Finset.prod_filter]
  refine Finset.prod_congr ?_ fun _ _ => rfl
  ext j; simp

theorem prod_low_pair (f : Fin K → ℝ) : ∏ p : Low K, f p.1.1 * f p.1.2 = (∏ i, f i) ^ (K + 1) := by
  rw [Finset.prod_mul_distrib, prod_low (fun i _ => f i), prod_low' (fun _ j => f j), ← Finset.prod_mul_distrib,
    ← Finset.prod_pow]
  refine Finset.prod_congr rfl fun i _ => ?_
  rw [Finset.prod_const, Finset.prod_const, ← pow_add, Fin.card_Iic, Fin.card_Ici]
  congr 1; omega

theorem det_congr_lower {P : Matrix (Fin K) (Fin K) ℝ} (h : ∀ i j, i < j → P i j = 0) :
    LinearMap.det (congr P) = P.det ^ (K + 1) := by
  let := lowOrder K
  have hz : ∀ {i j}, P i j ≠ 0 → j ≤ i := fun {i j} hp => le_of_not_gt fun hc => hp (h _ _ hc)
  rw [← LinearMap.det_toMatrix', det_of_isLowerTriangular (LinearMap.toMatrix' (congr P)), det_of_isLowerTriangular P fun i j hij => h i j hij,
    ← prod_low_pair]
  · refine Finset.prod_congr rfl fun p _ => ?_
    obtain ⟨⟨i, j⟩, hp⟩ := p
    rw [congr_entry]
    dsimp only at hp ⊢
    rw [Finset.sum_eq_single j, Finset.sum_eq_single i]
    · rw [max_eq_left hp, min_eq_right hp, if_pos rfl, mul_one]
    · intro a _ ha
      by_cases e : (max a j, min a j) = (i, j)
      · by_contra hne
        have h1 := hz (left_ne_zero_of_mul (left_ne_zero_of_mul hne))
        have := congrArg Prod.fst e
        dsimp only at this
        rcases max_choice a j with hm | hm
        · exact ha (hm ▸ this)
        · rw [hm] at this
          subst this
          have := congrArg Prod.snd e
          dsimp only at this
          rw [min_eq_left h1] at this
          exact ha this
      · simp [e]
    · simp
    · intro b _ hb
      refine Finset.sum_eq_zero fun a _ => ?_
      by_cases e : (max a b, min a b) = (i, j)
      · by_contra hne
        have h1 := hz (left_ne_zero_of_mul (left_ne_zero_of_mul hne))
        have h2 := hz (right_ne_zero_of_mul hne)
        have e1 := congrArg Prod.fst e
        have e2 := congrArg Prod.snd e
        dsimp only at e1 e2
        have := fin_max a b
        have := fin_min a b
        omega
      · simp [e]
    · simp
  · intro p q hpq
    have hpq : (lowOrder K).lt p q := hpq
    rw [congr_entry]
    refine Finset.sum_eq_zero fun b _ => Finset.sum_eq_zero fun a _ => ?_
    by_cases e : (max a b, min a b) = q.1
    · by_contra hne
      have h1 := hz (left_ne_zero_of_mul (left_ne_zero_of_mul hne))
      have h2 := hz (right_ne_zero_of_mul hne)
      have hp := p.2
      rw [lowOrder_lt, ← e] at hpq
      dsimp only at hpq
      have := fin_max a b
      have := fin_min a b
      omega
    · simp [e]

theorem det_congr_upper {P : Matrix (Fin K) (Fin K) ℝ} (h : ∀ i j, j < i → P i j = 0) :
    LinearMap.det (congr P) = P.det ^ (K + 1) := by
  let := lowOrder K
  have hz : ∀ {i j}, P i j ≠ 0 → i ≤ j := fun {i j} hp => le_of_not_gt fun hc => hp (h _ _ hc)
  rw [← LinearMap.det_toMatrix', det_of_isUpperTriangular (M := LinearMap.toMatrix' (congr P)), det_of_isUpperTriangular (M := P) fun i j hij => h i j hij,
    ← prod_low_pair]
  · refine Finset.prod_congr rfl fun p _ => ?_
    obtain ⟨⟨i, j⟩, hp⟩ := p
    rw [congr_entry]
    dsimp only at hp ⊢
    rw [Finset.sum_eq_single j, Finset.sum_eq_single i]
    · rw [max_eq_left hp, min_eq_right hp, if_pos rfl, mul_one]
    · intro a _ ha
      by_cases e : (max a j, min a j) = (i, j)
      · by_contra hne
        have h1 := hz (left_ne_zero_of_mul (left_ne_zero_of_mul hne))
        have e1 := congrArg Prod.fst e
        have e2 := congrArg Prod.snd e
        dsimp only at e1 e2
        have := fin_max a j
        have := fin_min a j
        omega
      · simp [e]
    · simp
    · intro b _ hb
      refine Finset.sum_eq_zero fun a _ => ?_
      by_cases e : (max a b, min a b) = (i, j)
      · by_contra hne
        have h1 := hz (left_ne_zero_of_mul (left_ne_zero_of_mul hne))
        have h2 := hz (right_ne_zero_of_mul hne)
        have e1 := congrArg Prod.fst e
        have e2 := congrArg Prod.snd e
        dsimp only at e1 e2
        have := fin_max a b
        have := fin_min a b
        omega
      · simp [e]
    · simp
  · intro p q hpq
    have hpq : (lowOrder K).lt q p := hpq
    rw [congr_entry]
    refine Finset.sum_eq_zero fun b _ => Finset.sum_eq_zero fun a _ => ?_
    by_cases e : (max a b, min a b) = q.1
    · by_contra hne
      have h1 := hz (left_ne_zero_of_mul (left_ne_zero_of_mul hne))
      have h2 := hz (right_ne_zero_of_mul hne)
      have hp := p.2
      rw [lowOrder_lt, ← e] at hpq
      dsimp only at hpq
      have := fin_max a b
      have := fin_min a b
      omega
    · simp [e]

/-- The determinant of `X ↦ P X P'` on symmetric matrices. -/
theorem det_congr {P : Matrix (Fin K) (Fin K) ℝ} (h : P.det ≠ 0) : LinearMap.det (congr P) = P.det ^ (K + 1) := by
  refine diagonal_transvection_induction_of_det_ne_zero (fun P => LinearMap.det (congr P) = P.det ^ (K + 1)) P h
    (fun D _ => det_congr_lower fun i j hij => diagonal_apply_ne _ hij.ne) (fun t => ?_) fun A B _ _ hA hB => ?_
  · rcases lt_or_gt_of_ne t.hij with hij | hij
    · refine det_congr_upper fun a b hab => ?_
      rw [TransvectionStruct.toMatrix, transvection, Matrix.add_apply, one_apply_ne hab.ne', zero_add, single_apply,
        if_neg]
      rintro ⟨rfl, rfl⟩; exact absurd hab hij.not_gt
    · refine det_congr_lower fun a b hab => ?_
      rw [TransvectionStruct.toMatrix, transvection, Matrix.add_apply, one_apply_ne hab.ne, zero_add, single_apply,
        if_neg]
      rintro ⟨rfl, rfl⟩; exact absurd hab hij.not_gt
  · rw [congr_mul, LinearMap.det_comp, hA, hB, det_mul, mul_pow]

end Stats
