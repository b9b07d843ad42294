import Verif.Lemmas.Law
import Verif.Instances
import Mathlib.Probability.ProductMeasure

/-!
An ideal engine exists: the state is an infinite tape of independent pairs of a uniform and a normal variate.
-/

set_option warn.classDefReducibility false
open MeasureTheory Set
open scoped ENNReal

namespace Stats
open Fl Spec

/-- Exact arithmetic with `nextafter` idealised to the identity. -/
noncomputable def fairLib : Lib :=
  { exactLib with
    next := fun a _ => a
    next_ge := fun _ _ _ => le_rfl
    next_le := fun _ _ h => h.le }

theorem fairLib_ideal : @Ideal fairLib :=
  let i := exactLib_ideal
  letI := fairLib
  { rnd := i.rnd, exp := i.exp, log := i.log, expm1 := i.expm1, log1p := i.log1p, sqrt := i.sqrt, tan := i.tan
    atan := i.atan, tanh := i.tanh, pow := i.pow, powi := i.powi, lgamma := i.lgamma, lgamma_zero := i.lgamma_zero
    erf := i.erf, erfInv := i.erfInv, igamma := i.igamma, igammaInv := i.igammaInv, ibeta := i.ibeta
    ibetaInv := i.ibetaInv, lbinom := i.lbinom, lmgamma := i.lmgamma, pi := i.pi, log2 := i.log2
    log2pi := i.log2pi, logpi := i.logpi, sqrt2 := i.sqrt2, sqrtHalfPi := i.sqrtHalfPi }

/-- Exact arithmetic with a `nextafter` that moves: from 0 towards 1 it goes to the least binary64 number above 0. -/
noncomputable def lowLib : Lib :=
  { exactLib with
    next := fun a b => a + (b - a) / 2 ^ 1074
    next_ge := fun a b h => le_add_of_nonneg_right (div_nonneg (sub_nonneg.2 h.le) (by positivity))
    next_le := fun a b h => by
      have : (b - a) / 2 ^ 1074 ≤ b - a := div_le_self (sub_nonneg.2 h.le) (one_le_pow₀ (by norm_num))
      linarith }

theorem lowLib_ideal : @Ideal lowLib :=
  let i := exactLib_ideal
  letI := lowLib
  { rnd := i.rnd, exp := i.exp, log := i.log, expm1 := i.expm1, log1p := i.log1p, sqrt := i.sqrt, tan := i.tan
    atan := i.atan, tanh := i.tanh, pow := i.pow, powi := i.powi, lgamma := i.lgamma, lgamma_zero := i.lgamma_zero
    erf := i.erf, erfInv := i.erfInv, igamma := i.igamma, igammaInv := i.igammaInv, ibeta := i.ibeta
    ibetaInv := i.ibetaInv, lbinom := i.lbinom, lmgamma := i.lmgamma, pi := i.pi, log2 := i.log2
    log2pi := i.log2pi, logpi := i.logpi, sqrt2 := i.sqrt2, sqrtHalfPi := i.sqrtHalfPi }

/-- infinitely many pairs -/
def Tape : Type := ℕ → ℝ × ℝ

namespace Tape
instance : MeasurableSpace Tape := inferInstanceAs (MeasurableSpace (ℕ → ℝ × ℝ))

def tail (s : Tape) : Tape := fun n => s (n + 1)

noncomputable def clamp (u : ℝ) : ℝ := by classical exact if u ∈ Ioo (0 : ℝ) 1 then u else 1 / 2

theorem clamp_mem (u : ℝ) : 0 < clamp u ∧ clamp u < 1 := by
  rw [clamp]; split_ifs with h
  · exact h
  · norm_num

theorem measurable_clamp : Measurable clamp := by
  classical
  exact Measurable.ite measurableSet_Ioo measurable_id measurable_const

noncomputable instance : Engine Tape where
  unif a b s := (match a, b with
    | fin a, fin b => fin (a + (b - a) * clamp (s 0).1)
    | _, _ => nan, s.tail)
  unif_mem a b s h := by
    obtain ⟨h0, h1⟩ := clamp_mem (s 0).1
    refine ⟨_, rfl, ?_, ?_⟩
    · have := mul_nonneg (sub_nonneg.2 h.le) h0.le; linarith
    · have := mul_lt_mul_of_pos_left h1 (sub_pos.2 h); linarith
  norm s := ((s 0).2, s.tail)
  seed k := fun n => (if k.testBit n then 3 / 4 else 1 / 4, k)

noncomputable def pairLaw : Measure (ℝ × ℝ) := (volume.restrict (Ioo (0 : ℝ) 1)).prod (densLaw (normPdf 0 1))

instance : IsProbabilityMeasure (volume.restrict (Ioo (0 : ℝ) 1)) := ⟨by simp⟩
instance : IsProbabilityMeasure (densLaw (normPdf 0 1)) := (isCdf_norm 0 one_pos).isProb
instance : IsProbabilityMeasure pairLaw := by rw [pairLaw]; infer_instance

noncomputable def tapeLaw : Measure Tape := Measure.infinitePi (X := fun _ : ℕ => ℝ × ℝ) fun _ => pairLaw

instance : IsProbabilityMeasure tapeLaw :=
  inferInstanceAs (IsProbabilityMeasure (Measure.infinitePi (X := fun _ : ℕ => ℝ × ℝ) fun _ => pairLaw))

def cons (x : (ℝ × ℝ) × Tape) : Tape := fun n => match n with
  | 0 => x.1
  | n + 1 => x.2 n

theorem measurable_cons : Measurable cons := by
  refine measurable_pi_iff.2 fun n => ?_
  cases n with
  | zero => exact measurable_fst
  | succ n => exact (measurable_pi_apply n).comp measurable_snd

theorem measurable_tail : Measurable tail := measurable_pi_iff.2 fun n => measurable_pi_apply (n + 1)

theorem cons_law : (pairLaw.prod tapeLaw).map cons = tapeLaw := by
  classical
  refine Measure.eq_infinitePi (X := fun _ : ℕ => ℝ × ℝ) (fun _ => pairLaw) fun I t ht => ?_
  obtain ⟨n, hn⟩ : ∃ n, I ⊆ Finset.range (n + 1) := by
    refine ⟨I.sup id, fun i hi => Finset.mem_range.2 (Nat.lt_succ_of_le (Finset.le_sup (f := id) hi))⟩
  set t' : ℕ → Set (ℝ × ℝ) := fun i => if i ∈ I then t i else univ with ht'
  have mt' : ∀ i, MeasurableSet (t' i) := by
    intro i; simp only [ht']; split_ifs
    · exact ht i
    · exact MeasurableSet.univ
  have e1 : Set.pi (I : Set ℕ) t = Set.pi (Finset.range (n + 1) : Set ℕ) t' := by
    ext x
    simp only [Set.mem_pi, Finset.mem_coe, ht']
    constructor
    · intro h i _
      split_ifs with hi
      · exact h i hi
      · trivial
    · intro h i hi
      have := h i (hn hi)
      rwa [if_pos hi] at this
  have e2 : ∏ i ∈ I, pairLaw (t i) = ∏ i ∈ Finset.range (n + 1), pairLaw (t' i) := by
    rw [← Finset.prod_subset hn]
    · exact Finset.prod_congr rfl fun i hi => by simp only [ht', if_pos hi]
    · intro i _ hi; simp only [ht', if_neg hi, measure_univ]
  rw [e1, e2]
  refine (Measure.map_apply measurable_cons (MeasurableSet.pi (Finset.countable_toSet _) fun i _ => mt' i)).trans ?_
  have e3 : cons ⁻¹' (Set.pi (Finset.range (n + 1) : Set ℕ) t') =
      t' 0 ×ˢ (Set.pi (Finset.range n : Set ℕ) fun i => t' (i + 1) : Set Tape) := by
    ext x
    constructor
    · intro h
      exact ⟨h 0 (by simp), fun i hi => h (i + 1) (by simpa using hi)⟩
    · rintro ⟨h1, h2⟩ i hi
      cases i with
      | zero => exact h1
      | succ i => exact h2 i (by simpa using hi)
  refine (congrArg _ e3).trans ((Measure.prod_prod _ _).trans ?_)
  rw [Finset.prod_range_succ', mul_comm]
  congr 1
  exact Measure.infinitePi_pi _ (fun i _ => mt' (i + 1))

/-- the first pair and the rest of the tape -/
theorem draw_head : Draw tapeLaw (fun s : Tape => s 0) tail pairLaw := by
  have m0 : Measurable fun s : Tape => s 0 := measurable_pi_apply (X := fun _ : ℕ => ℝ × ℝ) 0
  refine ⟨m0, measurable_tail, ?_⟩
  conv_lhs => rw [← cons_law]
  rw [Measure.map_map (m0.prodMk measurable_tail) measurable_cons]
  exact Measure.map_id

theorem unif_law {a b : ℝ} (h : a < b) :
    (volume.restrict (Ioo (0 : ℝ) 1)).map (fun u => a + (b - a) * clamp u) = densLaw (unifPdf a b) := by
  have hb : 0 < b - a := by linarith
  refine inversion (isCdf_unif h) ?_ ?_ (by have := measurable_clamp; fun_prop)
  · intro u h0 h1
    have e : clamp u = u := by rw [clamp, if_pos ⟨h0, h1⟩]
    have : 0 < (b - a) * u := mul_pos hb h0
    have : (b - a) * u < b - a := by nlinarith
    rw [e, unifCdf, if_neg (by linarith), if_neg (by linarith)]
    field_simp
    ring
  · intro x h0 h1
    have e : unifCdf a b x = (x - a) / (b - a) := by
      rw [unifCdf] at h0 h1 ⊢
      split_ifs at h0 h1 ⊢
      · exact absurd h0 (lt_irrefl _)
      · exact absurd h1 (lt_irrefl _)
      · rfl
    rw [clamp, if_pos ⟨h0, h1⟩, e]
    field_simp
    ring

theorem fair : FairEngine tapeLaw where
  prob := inferInstance
  unif a b h := by
    rw [hasLaw_iff]
    have h1 := draw_head.map (measurable_fst (α := ℝ) (β := ℝ))
    rw [← Measure.fst, pairLaw, Measure.fst_prod] at h1
    have h2 := h1.map (f := fun u => a + (b - a) * clamp u) (by have := measurable_clamp; fun_prop)
    rw [unif_law h] at h2
    exact ⟨_, _, h2, .of_forall fun s => rfl⟩
  norm := by
    rw [hasLaw_iff]
    have h1 := draw_head.map (measurable_snd (α := ℝ) (β := ℝ))
    rw [← Measure.snd, pairLaw, Measure.snd_prod] at h1
    exact ⟨_, _, h1, .of_forall fun s => rfl⟩

end Tape

namespace Fair
noncomputable scoped instance (priority := high) lib : Lib := fairLib
scoped instance (priority := high) ideal : Ideal := fairLib_ideal
theorem next : Lib.next 0 1 = 0 := rfl
theorem eps_le {r : ℝ} (h : 1 / 1024 ≤ r) : Lib.eps ≤ r := Lib.eps_le.trans h
end Fair

namespace Low
noncomputable scoped instance (priority := high) lib : Lib := lowLib
scoped instance (priority := high) ideal : Ideal := lowLib_ideal
theorem next : Lib.next 0 1 = 1 / 2 ^ 1074 := by
  change (0 : ℝ) + (1 - 0) / 2 ^ 1074 = 1 / 2 ^ 1074
  rw [sub_zero, zero_add]
theorem next_pos : 0 < Lib.next 0 1 := by rw [next]; positivity
theorem next_le : Lib.next 0 1 ≤ 1 / 30 := by
  rw [next]
  exact one_div_le_one_div_of_le (by norm_num)
    ((by norm_num : (30 : ℝ) ≤ 2 ^ 5).trans (pow_le_pow_right₀ (by norm_num) (by norm_num)))
theorem next_lt : Lib.next 0 1 < 1 := next_le.trans_lt (by norm_num)
theorem eps_le {r : ℝ} (h : 1 / 1024 ≤ r) : Lib.eps ≤ r := Lib.eps_le.trans h
end Low
end Stats
