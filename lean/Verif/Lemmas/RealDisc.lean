import Verif.Lemmas.Special
import Verif.Spec.Densities
import Mathlib.Analysis.Normed.Algebra.Exponential
import Mathlib.Analysis.SpecialFunctions.Exponential
import Mathlib.Topology.Algebra.InfiniteSum.Basic
import Mathlib.Topology.Algebra.InfiniteSum.NatInt
import Mathlib.Data.Nat.Choose.Sum
import Mathlib.Analysis.Calculus.MeanValue

/-! Sums of the discrete point probabilities (real analysis). -/

open Set Filter Topology Finset
namespace Stats
open Spec

theorem hasSum_int_of_nat {f : ℤ → ℝ} (h : ∀ k : ℤ, k < 0 → f k = 0) {s : ℝ}
    (hs : HasSum (fun n : ℕ => f n) s) : HasSum f s := by
  refine (Function.Injective.hasSum_iff (g := fun n : ℕ => (n : ℤ)) Nat.cast_injective ?_).1 hs
  intro k hk
  apply h
  by_contra hc
  exact hk ⟨k.toNat, by simp; omega⟩

/-- sum of the first `k + 1` terms, `k : ℤ` -/
noncomputable def cumZ (f : ℤ → ℝ) (k : ℤ) : ℝ := ∑ i ∈ range (k + 1).toNat, f i

theorem hasSum_cumZ {f : ℤ → ℝ} (h : ∀ k : ℤ, k < 0 → f k = 0) (k : ℤ) :
    HasSum (fun j : ℤ => if j ≤ k then f j else 0) (cumZ f k) := by
  apply hasSum_int_of_nat
  · intro j hj
    rw [h j hj]; simp
  · have e : cumZ f k = ∑ i ∈ range (k + 1).toNat, (fun n : ℕ => if (n : ℤ) ≤ k then f n else 0) i := by
      apply Finset.sum_congr rfl
      intro i hi
      have : (i : ℤ) ≤ k := by have := Finset.mem_range.1 hi; omega
      simp [this]
    rw [e]
    apply hasSum_sum_of_ne_finset_zero
    intro i hi
    have : ¬ (i : ℤ) ≤ k := by
      intro hc; exact hi (Finset.mem_range.2 (by omega))
    simp [this]

theorem cumZ_neg {f : ℤ → ℝ} {k : ℤ} (hk : k < 0) : cumZ f k = 0 := by
  rw [cumZ, show (k + 1).toNat = 0 by omega]; simp

theorem cumZ_nat (f : ℤ → ℝ) (k : ℕ) : cumZ f k = ∑ i ∈ range (k + 1), f i := by
  rw [cumZ]; congr 1

theorem cumZ_mono {f : ℤ → ℝ} (h : ∀ k, 0 ≤ f k) : Monotone (cumZ f) := by
  intro a b hab
  apply Finset.sum_le_sum_of_subset_of_nonneg
  · intro i hi; have := Finset.mem_range.1 hi; exact Finset.mem_range.2 (by omega)
  · intro i _ _; exact h i

theorem cumZ_le {f : ℤ → ℝ} (h0 : ∀ k, 0 ≤ f k) {s : ℝ} (hs : HasSum f s) (k : ℤ) : cumZ f k ≤ s := by
  have hinj : Function.Injective (fun n : ℕ => (n : ℤ)) := Nat.cast_injective
  rw [cumZ]
  have := sum_le_hasSum ((range (k + 1).toNat).map ⟨fun n : ℕ => (n : ℤ), hinj⟩) (fun i _ => h0 i) hs
  simpa using this

theorem cumZ_nonneg {f : ℤ → ℝ} (h0 : ∀ k, 0 ≤ f k) (k : ℤ) : 0 ≤ cumZ f k :=
  Finset.sum_nonneg fun i _ => h0 i

/-! ### binomial -/

theorem binomPmf_nonneg {n : ℕ} {p : ℝ} (h0 : 0 ≤ p) (h1 : p ≤ 1) (x : ℤ) : 0 ≤ binomPmf n p x := by
  have : 0 ≤ 1 - p := by linarith
  unfold binomPmf; split_ifs <;> positivity

theorem binomPmf_neg {n : ℕ} {p : ℝ} {x : ℤ} (h : x < 0) : binomPmf n p x = 0 := by
  unfold binomPmf; rw [if_neg (by omega)]

theorem binomPmf_gt {n : ℕ} {p : ℝ} {x : ℤ} (h : n < x) : binomPmf n p x = 0 := by
  unfold binomPmf; rw [if_neg (by omega)]

theorem cumZ_binom {n : ℕ} {p : ℝ} {k : ℤ} (h : n ≤ k) : cumZ (binomPmf n p) k = 1 := by
  have e : cumZ (binomPmf n p) k = ∑ i ∈ range (n + 1), binomPmf n p i := by
    symm
    apply Finset.sum_subset
    · intro i hi; have := Finset.mem_range.1 hi; exact Finset.mem_range.2 (by omega)
    · intro i _ hi
      apply binomPmf_gt
      have : ¬ i < n + 1 := fun hc => hi (Finset.mem_range.2 hc)
      omega
  rw [e]
  have h2 : (p + (1 - p)) ^ n = 1 := by simp
  rw [← h2, add_pow]
  apply Finset.sum_congr rfl
  intro i hi
  have : i ≤ n := by have := Finset.mem_range.1 hi; omega
  rw [binomPmf, if_pos (by omega)]
  simp only [Int.toNat_natCast]
  ring

theorem hasSum_binom (n : ℕ) (p : ℝ) : HasSum (binomPmf n p) 1 := by
  rw [← cumZ_binom (n := n) (p := p) (k := n) le_rfl]
  have h := hasSum_cumZ (f := binomPmf n p) (fun k hk => binomPmf_neg hk) n
  have e : (fun j : ℤ => if j ≤ n then binomPmf n p j else 0) = binomPmf n p := by
    funext j
    split_ifs with hj
    · rfl
    · rw [binomPmf_gt (not_le.1 hj)]
  rwa [e] at h

/-! ### Poisson -/

theorem poisPmf_nonneg {rate : ℝ} (h0 : 0 ≤ rate) (x : ℤ) : 0 ≤ poisPmf rate x := by
  unfold poisPmf; split_ifs <;> positivity

theorem poisPmf_neg {rate : ℝ} {x : ℤ} (h : x < 0) : poisPmf rate x = 0 := by
  unfold poisPmf; rw [if_neg (by omega)]

theorem poisPmf_nat (rate : ℝ) (n : ℕ) :
    poisPmf rate n = rate ^ n * Real.exp (-rate) / n.factorial := by
  simp [poisPmf]

theorem hasSum_pois (rate : ℝ) : HasSum (poisPmf rate) 1 := by
  apply hasSum_int_of_nat (fun k hk => poisPmf_neg hk)
  have h := (NormedSpace.expSeries_div_hasSum_exp rate).mul_left (Real.exp (-rate))
  rw [← Real.exp_eq_exp_ℝ, ← Real.exp_add] at h
  simp only [neg_add_cancel, Real.exp_zero] at h
  have e : (fun n : ℕ => poisPmf rate n) = fun n : ℕ => Real.exp (-rate) * (rate ^ n / n.factorial) := by
    funext n; rw [poisPmf_nat]; ring
  rw [e]; exact h

theorem hasDerivAt_poisSum (n : ℕ) (z : ℝ) :
    HasDerivAt (fun z => ∑ i ∈ range (n + 1), z ^ i * Real.exp (-z) / i.factorial)
      (-(z ^ n * Real.exp (-z) / n.factorial)) z := by
  induction n with
  | zero =>
    have h : HasDerivAt (fun z : ℝ => Real.exp (-z)) (Real.exp (-z) * (-1)) z :=
      (hasDerivAt_neg z).exp
    refine (h.congr_deriv ?_).congr_of_eventuallyEq ?_
    · simp
    · exact Eventually.of_forall fun w => by simp
  | succ n ih =>
    have h2 : HasDerivAt (fun z : ℝ => z ^ (n + 1) * Real.exp (-z) / (n + 1).factorial)
        ((((n + 1 : ℕ) : ℝ) * z ^ n * Real.exp (-z) + z ^ (n + 1) * (Real.exp (-z) * (-1))) /
          (n + 1).factorial) z :=
      ((hasDerivAt_pow (n + 1) z).mul (hasDerivAt_neg z).exp).div_const _
    have h3 := ih.add h2
    refine (h3.congr_deriv ?_).congr_of_eventuallyEq ?_
    · have hf : ((n.factorial : ℕ) : ℝ) ≠ 0 := by positivity
      rw [Nat.factorial_succ]
      push_cast
      field_simp
      ring
    · exact Eventually.of_forall fun w => Finset.sum_range_succ (fun i => w ^ i * Real.exp (-w) / (i.factorial : ℝ)) (n + 1)

/-- The incomplete gamma function with integral shape is a Poisson tail. -/
theorem gammaP_nat (n : ℕ) {z : ℝ} (hz : 0 ≤ z) :
    gammaP (n + 1) z = 1 - ∑ i ∈ range (n + 1), z ^ i * Real.exp (-z) / i.factorial := by
  have hp : (0 : ℝ) < (n : ℝ) + 1 := by positivity
  have hc : ContinuousOn (fun z => gammaP (n + 1) z +
      ∑ i ∈ range (n + 1), z ^ i * Real.exp (-z) / i.factorial) (Icc 0 z) := by
    apply ContinuousOn.add
    · exact (continuousOn_gammaP hp).mono Icc_subset_Ici_self
    · fun_prop
  have hd : ∀ x ∈ Ico 0 z, x ∈ Ioo 0 z → HasDerivAt (fun z => gammaP (n + 1) z +
      ∑ i ∈ range (n + 1), z ^ i * Real.exp (-z) / i.factorial) 0 x := by
    intro x _ hx
    refine ((hasDerivAt_gammaP hp hx.1).add (hasDerivAt_poisSum n x)).congr_deriv ?_
    rw [Real.Gamma_nat_eq_factorial]
    have : x ^ ((n : ℝ) + 1 - 1) = x ^ n := by
      rw [add_sub_cancel_right, Real.rpow_natCast]
    rw [this]; ring
  rcases hz.eq_or_lt with rfl | hz0
  · rw [gammaP_zero, Finset.sum_range_succ']
    simp
  · obtain ⟨c, hcm, h⟩ := exists_hasDerivAt_eq_slope _ _ hz0 hc
      (fun x hx => hd x ⟨hx.1.le, hx.2⟩ hx)
    have h0 : ∑ i ∈ range (n + 1), (0 : ℝ) ^ i * Real.exp (-0) / i.factorial = 1 := by
      rw [Finset.sum_range_succ']; simp
    have : (0 : ℝ) = _ := h
    rw [eq_div_iff (by linarith)] at this
    simp only [gammaP_zero, h0] at this
    linarith

theorem cumZ_pois {rate : ℝ} (h : 0 ≤ rate) (k : ℕ) : cumZ (poisPmf rate) k = 1 - gammaP (k + 1) rate := by
  rw [gammaP_nat k h, cumZ_nat, sub_sub_cancel]
  exact Finset.sum_congr rfl fun i _ => poisPmf_nat rate i

end Stats
