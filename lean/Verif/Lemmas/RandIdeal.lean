import Verif.Model.Rand
import Verif.Lemmas.QuantIdeal
import Verif.Lemmas.Fuel

/-! The generators in exact arithmetic as real functions of the draws taken from the engine. -/

set_option linter.unusedSectionVars false
open Classical
namespace Stats
open Fl Spec
variable [Lib] [Ideal] {S : Type*} [Engine S]

/-- a quantile function that inverts a continuous distribution function, as a real function -/
theorem IsInv.exists_real {q : Fl → Fl} {F f : ℝ → ℝ} (hF : IsCdf F f) (hq : IsInv q F) {u : ℝ} (h0 : 0 < u)
    (h1 : u < 1) : ∃ x, F x = u ∧ q (fin u) = fin x := by
  obtain ⟨x, rfl⟩ := hF.exists_eq h0 h1
  exact ⟨x, rfl, hq x h0 h1⟩

theorem rnorm_fin (mu : ℝ) {sigma : ℝ} (h : 0 ≤ sigma) {s s1 : S} {z : ℝ} (hz : Engine.norm s = (z, s1)) :
    rnorm (fin mu) (fin sigma) s = (fin (mu + sigma * z), s1) := by
  rw [rnorm, if_neg (by simp [norm_ok, h])]
  simp only [hz, ideal]

theorem rnorm01 {s s1 : S} {z : ℝ} (hz : Engine.norm s = (z, s1)) : rnorm (fin 0) (fin 1) s = (fin z, s1) := by
  rw [rnorm_fin 0 zero_le_one hz, zero_add, one_mul]

/-- the test of the rejection loop, rand/rgamma.ipp:58-60 -/
noncomputable def gammaCheck (d c z : ℝ) : ℝ :=
  1 / 2 * z * z + d * (1 - (1 + c * z) ^ 3 + Real.log ((1 + c * z) ^ 3))

theorem rgamma_loop_reject1 {d c : ℝ} (hc : 0 < c) (k : ℕ) {s s1 : S} {z : ℝ} (hz : Engine.norm s = (z, s1))
    (h : z ≤ -1 / c) : rgamma_loop (fin d) (fin c) (k + 1) s = rgamma_loop (fin d) (fin c) k s1 := by
  rw [rgamma_loop]
  simp only [rnorm01 hz, ideal, ifin_div _ hc.ne', gt_iff_lt, fin_lt_fin, not_lt.2 h, if_false]

theorem rgamma_loop_step {d c : ℝ} (hc : 0 < c) (k : ℕ) {s s1 s2 : S} {z u : ℝ} (hz : Engine.norm s = (z, s1))
    (h : -1 / c < z) (hu : runif (fin 0) (fin 1) s1 = (fin u, s2)) (h0 : 0 < u) :
    rgamma_loop (fin d) (fin c) (k + 1) s =
      if Real.log u < gammaCheck d c z then some (fin ((1 + c * z) ^ 3), s2)
      else rgamma_loop (fin d) (fin c) k s2 := by
  have hx : 0 < 1 + c * z := by
    rw [div_lt_iff₀ hc] at h; linarith
  rw [rgamma_loop]
  simp only [rnorm01 hz, ideal, ifin_div _ hc.ne', gt_iff_lt, fin_lt_fin, h, if_true, hu, ilog h0,
    ilog (pow_pos hx 3), gammaCheck]
  exact if_congr Iff.rfl rfl rfl

/-- `d` and `c` of rand/rgamma.ipp:47-48 for a shape above 1 -/
theorem rgamma_rec_big {a θ : ℝ} (ha : 1 < a) (hθ : Lib.eps ≤ θ) (n : ℕ) (s : S) :
    rgamma_rec (n + 1) (fin a) (fin θ) s =
      (runFuel (fun k => rgamma_loop (fin (a - 1 / 3)) (fin (1 / 3 / √(a - 1 / 3))) k s)).map
        (fun vs => (fin (a - 1 / 3) * vs.1 * fin θ, vs.2)) := by
  have h1 : ¬ a < 0 := by linarith
  have h3 : (0 : ℝ) ≤ a - 1 / 3 := by linarith
  have h4 : √(a - 1 / 3) ≠ 0 := (Real.sqrt_pos.2 (by linarith)).ne'
  rw [rgamma_rec, if_neg (by simp [gamma_ok, h1, eps, hθ]), if_pos (by simpa using ha)]
  simp only [ideal, ifin_div _ (show (3 : ℝ) ≠ 0 by norm_num), isqrt h3, ifin_div _ h4]

theorem rgamma_rec_small {a θ : ℝ} (ha : 0 < a) (ha1 : a ≤ 1) (hθ : Lib.eps ≤ θ) (n : ℕ) {s s1 : S} {u : ℝ}
    (hu : runif (fin 0) (fin 1) s = (fin u, s1)) (h0 : 0 < u) :
    rgamma_rec (n + 1) (fin a) (fin θ) s =
      (rgamma_rec n (fin (1 + a)) (fin θ) s1).map (fun gs => (gs.1 * fin (u ^ (1 / a)), gs.2)) := by
  have h1 : ¬ a < 0 := by linarith
  rw [rgamma_rec, if_neg (by simp [gamma_ok, h1, eps, hθ]), if_neg (by simpa using ha1)]
  simp only [ideal, hu, ifin_div _ ha.ne', ipow _ h0]

theorem rgamma_loop_mono (d c : Fl) (s : S) : FuelMono (fun k => rgamma_loop d c k s) := by
  intro k
  simp only
  induction k generalizing s with
  | zero => intro v hv; simp [rgamma_loop] at hv
  | succ k ih =>
    intro v hv
    rw [rgamma_loop] at hv ⊢
    dsimp only at hv ⊢
    split_ifs at hv ⊢ with h1 h2
    · exact hv
    · exact ih _ _ hv
    · exact ih _ _ hv

theorem rgamma_rec_mono (shape scale : Fl) (s : S) : FuelMono (fun n => rgamma_rec n shape scale s) := by
  intro n
  simp only
  induction n generalizing shape s with
  | zero => intro v hv; simp [rgamma_rec] at hv
  | succ n ih =>
    intro v hv
    rw [rgamma_rec] at hv ⊢
    split_ifs at hv ⊢ with h1 h2
    · exact hv
    · dsimp only at hv ⊢
      rw [Option.map_eq_some_iff] at hv ⊢
      obtain ⟨g, hg, rfl⟩ := hv
      exact ⟨g, ih _ _ _ hg, rfl⟩
    · exact hv

end Stats
