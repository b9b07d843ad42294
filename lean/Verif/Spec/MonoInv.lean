import Verif.Double
import Verif.Lemmas.DoubleCalc

/-!
# Libraries whose inverse functions are monotone

What the quantile functions need of the arithmetic beyond `MonoLib`. Correctly rounded functions have it
(`mkLib_inv`, `doubleLib_inv`, `doubleLib_tan`).
-/

set_option warn.classDefReducibility false
open Classical Set
namespace Stats
open Spec

/-- The inverse functions of the library are monotone, and `log1p` is 0 at 0. -/
class MonoInv [Lib] : Prop where
  erfInv_mono : MonotoneOn Lib.erfInv (Ioo (-1) 1)
  igammaInv_mono : ∀ a, 0 < a → MonotoneOn (Lib.igammaInv a) (Ico 0 1)
  ibetaInv_mono : ∀ a b, 0 < a → 0 < b → MonotoneOn (Lib.ibetaInv a b) (Icc 0 1)
  log1p_zero : Lib.log1p 0 = 0

/-- The tangent of the library is monotone between minus and plus half of the library's π. -/
class MonoTan [Lib] : Prop where
  tan_mono : MonotoneOn Lib.tan (Icc (-(Lib.pi / 2)) (Lib.pi / 2))

theorem invOn_mono {f : ℝ → ℝ} {s t : Set ℝ} (hf : StrictMonoOn f s) (hs : ∀ y ∈ t, ∃ x ∈ s, f x = y) :
    MonotoneOn (invOn f s) t := by
  intro y hy z hz h
  obtain ⟨a, ha, rfl⟩ := hs y hy
  obtain ⟨b, hb, rfl⟩ := hs z hz
  rw [invOn_apply hf.injOn ha, invOn_apply hf.injOn hb]
  exact (hf.le_iff_le ha hb).1 h

theorem mkLib_inv (r : Rounding) : @MonoInv (mkLib r) :=
  letI := mkLib r
  { erfInv_mono := fun x hx y hy h => r.mono (invOn_mono (t := Ioo (-1) 1) (strictMono_erf.strictMonoOn univ)
      (fun y hy => by obtain ⟨z, hz⟩ := exists_erf hy.1 hy.2; exact ⟨z, mem_univ z, hz⟩) hx hy h)
    igammaInv_mono := fun a ha x hx y hy h => r.mono (invOn_mono (t := Ico 0 1) (strictMonoOn_gammaP ha)
      (fun y hy => by obtain ⟨z, hz, h'⟩ := exists_gammaP ha hy.1 hy.2; exact ⟨z, hz, h'⟩) hx hy h)
    ibetaInv_mono := fun a b ha hb x hx y hy h => r.mono (invOn_mono (t := Icc 0 1) (strictMonoOn_betaI ha hb)
      (fun y hy => by obtain ⟨z, hz, h'⟩ := exists_betaI ha hb hy; exact ⟨z, hz, h'⟩) hx hy h)
    log1p_zero := by
      show r.R (Real.log (1 + 0)) = 0
      rw [add_zero, Real.log_one, r.zero] }

theorem doubleLib_inv : @MonoInv doubleLib := mkLib_inv _

/-- π in binary64 is 884279719003555/2^48, below π. -/
theorem double_pi : doubleLib.pi = 884279719003555 / 2 ^ 48 := by
  have h := Double.R_near (x := Real.pi) 1 7074237752028440 (by norm_num; linarith [Real.pi_gt_three])
    (by norm_num; linarith [Real.pi_lt_four]) (by norm_num) (by norm_num) (by
      have a := Real.pi_gt_d20
      have b := Real.pi_lt_d20
      have e : ((2 : ℝ) ^ ((1 : ℤ) - 52)) = 1 / 2251799813685248 := by norm_num
      rw [e, abs_lt]
      push_cast
      constructor <;> linarith)
  show (Double.R Real.pi).toReal = _
  rw [h, EReal.toReal_coe]; norm_num

theorem double_pi_lt : doubleLib.pi < Real.pi := by
  rw [double_pi]
  have a := Real.pi_gt_d20
  refine lt_trans ?_ a
  norm_num

theorem doubleLib_tan : @MonoTan doubleLib :=
  letI := doubleLib
  { tan_mono := fun x hx y hy h => Double.R_mono (by
      have := double_pi_lt
      have a : -(doubleLib.pi / 2) ≤ x := hx.1
      have b : y ≤ doubleLib.pi / 2 := hy.2
      exact Real.strictMonoOn_tan.monotoneOn ⟨by linarith, by linarith⟩ ⟨by linarith, by linarith⟩ h) }

end Stats
