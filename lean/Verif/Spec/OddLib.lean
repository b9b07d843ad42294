import Verif.Double

/-!
# Libraries with odd functions

The tangent, its inverse, the hyperbolic tangent, the error function and its inverse change sign with their argument.
Correctly rounded functions have it (`mkLib_odd`).
-/

set_option warn.classDefReducibility false
open Classical Set
namespace Stats
open Spec

class OddLib [Lib] : Prop where
  tan_neg : ∀ x, Lib.tan (-x) = -Lib.tan x
  atan_neg : ∀ x, Lib.atan (-x) = -Lib.atan x
  tanh_neg : ∀ x, Lib.tanh (-x) = -Lib.tanh x
  erf_neg : ∀ x, Lib.erf (-x) = -Lib.erf x
  erfInv_neg : ∀ x, -1 < x → x < 1 → Lib.erfInv (-x) = -Lib.erfInv x

theorem ereal_clip_neg {c : ℝ} (hc : 0 ≤ c) (e : EReal) :
    Max.max ((-c : ℝ) : EReal) (Min.min (-e) (c : EReal)) = -Max.max ((-c : ℝ) : EReal) (Min.min e (c : EReal)) := by
  have h : ((-c : ℝ) : EReal) ≤ (c : EReal) := by exact_mod_cast (by linarith : -c ≤ c)
  have hn : -(c : EReal) = ((-c : ℝ) : EReal) := (EReal.coe_neg c).symm
  have hn' : -((-c : ℝ) : EReal) = (c : EReal) := by rw [← EReal.coe_neg, neg_neg]
  rcases le_total e ((-c : ℝ) : EReal) with h1 | h1
  · have h2 : (c : EReal) ≤ -e := by rw [← hn']; exact EReal.neg_le_neg_iff.2 h1
    rw [min_eq_right h2, min_eq_left (h1.trans h), max_eq_right h, max_eq_left h1, hn']
  · rcases le_total e (c : EReal) with h3 | h3
    · have h4 : -e ≤ (c : EReal) := by rw [← hn']; exact EReal.neg_le_neg_iff.2 h1
      have h5 : ((-c : ℝ) : EReal) ≤ -e := by rw [← hn]; exact EReal.neg_le_neg_iff.2 h3
      rw [min_eq_left h4, min_eq_left h3, max_eq_right h5, max_eq_right h1]
    · have h4 : -e ≤ ((-c : ℝ) : EReal) := by rw [← hn]; exact EReal.neg_le_neg_iff.2 h3
      rw [min_eq_left (h4.trans h), min_eq_right h3, max_eq_left h4, max_eq_right h, hn]

theorem mkLib_odd (r : Rounding) : @OddLib (mkLib r) :=
  letI := mkLib r
  { tan_neg := fun x => by show r.R (Real.tan (-x)) = -r.R (Real.tan x); rw [Real.tan_neg, r.neg]
    atan_neg := fun x => by
      show Max.max _ (Min.min (r.R (Real.arctan (-x))) _) = -Max.max _ (Min.min (r.R (Real.arctan x)) _)
      rw [Real.arctan_neg, r.neg]
      exact ereal_clip_neg (half_pos r.pi_pos).le _
    tanh_neg := fun x => by show r.R (Real.tanh (-x)) = -r.R (Real.tanh x); rw [Real.tanh_neg, r.neg]
    erf_neg := fun x => by show r.R (Spec.erf (-x)) = -r.R (Spec.erf x); rw [erf_neg, r.neg]
    erfInv_neg := fun x h1 h2 => by
      obtain ⟨z, rfl⟩ := exists_erf h1 h2
      have inj : InjOn Spec.erf univ := strictMono_erf.injective.injOn
      show r.R (invOn Spec.erf univ (-Spec.erf z)) = -r.R (invOn Spec.erf univ (Spec.erf z))
      rw [← erf_neg, invOn_apply inj (mem_univ _), invOn_apply inj (mem_univ _), r.neg] }

theorem doubleLib_odd : @OddLib doubleLib := mkLib_odd _

end Stats
