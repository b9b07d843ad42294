import Verif.Props.C12
import Verif.Props.C04

/-!
# C13: where `pinvgamma` is not the integral of `dinvgamma`
-/

namespace Stats
open Fl Spec
variable [Lib] [Ideal]

/-- Rates above `1 / eps` are valid, but the distribution function is NaN at every point of the support. -/
theorem C13_pinvgamma_violated {shape rate x : ℝ} (hk : 0 < shape) (hr : 1 < rate * Lib.eps) (hx : 0 ≤ x) :
    ¬ RunningIntegralOn (fun x => dinvgamma x (fin shape) (fin rate)) (fun x => pinvgamma x (fin shape) (fin rate)) {x} := by
  intro h
  have := h x rfl
  simp only [C04_pinvgamma_violated hk.le hr x hx false] at this
  exact Fl.noConfusion this

example : ¬ RunningIntegralOn (fun x => dinvgamma x (fin 3) (fin (2 / Lib.eps)))
    (fun x => pinvgamma x (fin 3) (fin (2 / Lib.eps))) {1} :=
  C13_pinvgamma_violated (by norm_num) (by rw [div_mul_cancel₀ _ Lib.eps_pos.ne']; norm_num) zero_le_one

end Stats
