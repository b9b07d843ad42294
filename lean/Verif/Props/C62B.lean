import Verif.Props.C62
import Verif.Props.C63B

/-!
# C62: the interval for the mean with the coded Student-t quantile, large samples

For samples of more than three numbers `qt` returns an approximation. The coverage of the interval made with it is still the
stated one up to an error of the order of `n^-4`.
-/

set_option linter.unusedSectionVars false
open Classical
open MeasureTheory Set Filter

namespace Stats
open Fl MatOps Spec Vec
variable [Lib] [Ideal]

/-- The interval for the mean with unknown deviation: the coverage differs from the stated one by at most `C / n^4`, with a `C` that
depends on the stated coverage only, not on the engine, the parameters or the library. -/
theorem C62_t_interval_large {α : ℝ} (h0 : 0 < α) (h1 : α < 1) :
    ∃ C : ℝ, ∀ᶠ n : ℕ in atTop, ∃ c : ℝ, |c - (1 - α)| ≤ C / (n : ℝ) ^ 4 ∧
      ∀ (S : Type) [MeasurableSpace S] [Engine S] (P : Measure S) (_ : FairEngine P) (be : Backend) (mu sigma : ℝ) (_ : 0 < sigma) (out : ℕ → Option Fl),
        StatProb P (Sample (fillNorm mu sigma n out) n)
          (fun L => Fl.abs ((mean L - fin mu) / sqrt (s2 be L / size L)) ≤ qt (fin (1 - α / 2)) (ofInt (n - 1))) c := by
  obtain ⟨C, hC⟩ := C63_qt_order (p := 1 - α / 2) (by linarith) (by linarith)
  obtain ⟨x, hx⟩ : ∃ x, Phi x = 1 - α / 2 := by
    have := (isCdf_norm 0 one_pos).exists_eq (u := 1 - α / 2) (by linarith) (by linarith)
    simpa using this
  have hx0 : 0 < x := by
    have hhalf : Phi 0 = 1 / 2 := by have := Phi_neg 0; rw [neg_zero] at this; linarith
    by_contra hc
    have := strictMono_Phi.monotone (not_lt.1 hc)
    linarith
  have hpos := (hillW_tendsto x).eventually_const_lt hx0
  have hval := qt_centre x
  rw [hx] at hval
  have hsub : Tendsto (fun n : ℕ => (n : ℝ) - 1) atTop atTop := tendsto_atTop_add_const_right _ _ tendsto_natCast_atTop_atTop
  refine ⟨2 * |C| * 16, ?_⟩
  filter_upwards [hsub.eventually hC, hsub.eventually hval, hsub.eventually hpos, eventually_ge_atTop 2] with n ⟨w, hw, herr⟩ hv hp hn
  have hn2 : (2 : ℝ) ≤ n := by exact_mod_cast hn
  have hn1 : 0 < (n : ℝ) - 1 := by linarith
  have hc : ofInt ((n : ℤ) - 1) = fin ((n : ℝ) - 1) := by rw [ofInt_eq]; push_cast; rfl
  have hF := isCdf_t hn1
  have hz0 : 0 < w := by
    rw [hw] at hv
    injection hv with hv
    rw [hv]; exact hp
  have hs := tCdf_symm hn1 w
  simp only [zero_sub, zero_add] at hs
  refine ⟨tCdf ((n : ℝ) - 1) w - tCdf ((n : ℝ) - 1) (-w), ?_, fun S _ _ P hP be mu sigma h out => ?_⟩
  · rw [hF.running] at herr
    have e : tCdf ((n : ℝ) - 1) w - tCdf ((n : ℝ) - 1) (-w) - (1 - α) = 2 * (tCdf ((n : ℝ) - 1) w - (1 - α / 2)) := by linarith
    rw [e, abs_mul, abs_two]
    have h4 : C / ((n : ℝ) - 1) ^ 4 ≤ |C| * 16 / (n : ℝ) ^ 4 := by
      have hle : (n : ℝ) / 2 ≤ n - 1 := by linarith
      have h5 : ((n : ℝ) / 2) ^ 4 ≤ ((n : ℝ) - 1) ^ 4 := pow_le_pow_left₀ (by linarith) hle 4
      calc C / ((n : ℝ) - 1) ^ 4 ≤ |C| / ((n : ℝ) / 2) ^ 4 := div_le_div₀ (abs_nonneg C) (le_abs_self C) (by positivity) h5
        _ = _ := by rw [div_pow]; field_simp; norm_num
    calc 2 * |tCdf ((n : ℝ) - 1) w - (1 - α / 2)| ≤ 2 * (|C| * 16 / (n : ℝ) ^ 4) := mul_le_mul_of_nonneg_left (herr.trans h4) two_pos.le
      _ = _ := by ring
  · have := hP.prob
    rw [hc, hw]
    refine (C62_t hP be hn mu h out).prob (ok := fun y => Fl.abs y ≤ fin w) (B := Icc (-w) w) measurableSet_Icc (fun y => ?_) ?_
    · show Fl.abs (fin y) ≤ fin w ↔ _
      rw [Fl.abs, fin_le_fin, abs_le]; rfl
    · rw [hF.real_Icc (by linarith)]

end Stats

namespace Stats.ExamplesC62
open scoped Stats.Low

example := C62_t_interval_large (α := 1 / 20) (by norm_num) (by norm_num)

end Stats.ExamplesC62
