import Verif.Double
import Verif.Lemmas.Fl

/-! Evaluation of binary64 rounding at concrete numbers. -/

open Classical Set
namespace Stats
namespace Double

theorem rne_near {z : ℝ} {n : ℤ} (h : |z - n| < 1 / 2) : rne z = n := by
  obtain ⟨h1, h2⟩ := abs_lt.1 h
  rcases le_or_gt (n : ℝ) z with h0 | h0
  · have hf : ⌊z⌋ = n := Int.floor_eq_iff.2 ⟨h0, by linarith⟩
    have : Int.fract z < 1 / 2 := by rw [Int.fract, hf]; exact h2
    rw [rne, if_pos this, hf]
  · have hf : ⌊z⌋ = n - 1 := Int.floor_eq_iff.2 ⟨by push_cast; linarith, by push_cast; linarith⟩
    have h3 : 1 / 2 < Int.fract z := by rw [Int.fract, hf]; push_cast; linarith
    rw [rne, if_neg (by linarith), if_pos h3, hf]; omega

theorem rne_tie {z : ℝ} {n : ℤ} (hn : Even n) (h : |z - n| = 1 / 2) : rne z = n := by
  rcases le_or_gt (n : ℝ) z with h0 | h0
  · rw [abs_of_nonneg (by linarith)] at h
    have hf : ⌊z⌋ = n := Int.floor_eq_iff.2 ⟨h0, by linarith⟩
    have : Int.fract z = 1 / 2 := by rw [Int.fract, hf]; exact h
    rw [rne, if_neg this.not_lt, if_neg this.not_gt, hf, if_pos hn]
  · rw [abs_of_neg (by linarith)] at h
    have hf : ⌊z⌋ = n - 1 := Int.floor_eq_iff.2 ⟨by push_cast; linarith, by push_cast; linarith⟩
    have h3 : Int.fract z = 1 / 2 := by rw [Int.fract, hf]; push_cast; linarith
    have hodd : ¬ Even (n - 1) := by
      rw [Int.not_even_iff_odd]; exact hn.sub_odd odd_one
    rw [rne, if_neg h3.not_lt, if_neg h3.not_gt, hf, if_neg hodd]; omega

theorem q_eq {x : ℝ} {e : ℤ} (h1 : 2 ^ e ≤ x) (h2 : x < 2 ^ (e + 1)) (he : -1022 ≤ e) : q x = e - 52 := by
  have hx : 0 < x := (zpow_pos' e).trans_le h1
  have a : Int.log 2 x < e + 1 := (Int.lt_zpow_iff_log_lt (b := 2) (by norm_num) hx).1 (by exact_mod_cast h2)
  have b : e ≤ Int.log 2 x := (Int.zpow_le_iff_le_log (b := 2) (by norm_num) hx).1 (by exact_mod_cast h1)
  rw [q]; omega

/-- Rounding to a neighbour `n * 2^(e-52)`, `x` in the binade of `2^e`. -/
theorem R_of_rne {x : ℝ} {e n : ℤ} (h1 : 2 ^ e ≤ x) (h2 : x < 2 ^ (e + 1)) (he : -1022 ≤ e) (he' : e ≤ 1022)
    (hn : rne (x / 2 ^ (e - 52)) = n) : R x = ((n * 2 ^ (e - 52) : ℝ) : EReal) := by
  have hx : 0 < x := (zpow_pos' e).trans_le h1
  have hm : mag x = n * 2 ^ (e - 52) := by
    rw [mag, if_neg hx.not_ge, q_eq h1 h2 he, hn]
  have hle : mag x ≤ 2 ^ (e + 1) := mag_le_pow h2.le (fun _ => by rw [q_eq h1 h2 he]; omega)
  have : mag x < 2 ^ 1024 := by
    refine hle.trans_lt ?_
    rw [← zpow_natCast]
    exact zpow_lt_zpow_right₀ (by norm_num) (by norm_num; omega)
  rw [R, if_pos hx.le, over, if_neg this.not_ge, hm]

theorem R_near {x : ℝ} (e n : ℤ) (h1 : 2 ^ e ≤ x) (h2 : x < 2 ^ (e + 1)) (he : -1022 ≤ e) (he' : e ≤ 1022)
    (hn : |x / 2 ^ (e - 52) - n| < 1 / 2) : R x = ((n * 2 ^ (e - 52) : ℝ) : EReal) :=
  R_of_rne h1 h2 he he' (rne_near hn)

theorem R_tie {x : ℝ} (e n : ℤ) (h1 : 2 ^ e ≤ x) (h2 : x < 2 ^ (e + 1)) (he : -1022 ≤ e) (he' : e ≤ 1022)
    (h : Even n) (hn : |x / 2 ^ (e - 52) - n| = 1 / 2) : R x = ((n * 2 ^ (e - 52) : ℝ) : EReal) :=
  R_of_rne h1 h2 he he' (rne_tie h hn)

/-- overflow -/
theorem R_big {x : ℝ} (h : 2 ^ 1024 ≤ x) : R x = ⊤ := by
  have key : (2 : ℝ) ^ 1024 = 2 ^ (1024 : ℤ) := (zpow_ofNat 2 1024).symm
  have h2 : R (2 ^ 1024) = ⊤ := by
    rw [key]
    have hq : q (2 ^ (1024 : ℤ)) = 1024 - 52 :=
      q_eq le_rfl (zpow_lt_zpow_right₀ (by norm_num) (by norm_num)) (by norm_num)
    have := mag_of_mul (zpow_pos' 1024) (k := 1) (j := 1024) (by rw [Int.cast_one, one_mul]) (by rw [hq]; norm_num)
    rw [R, if_pos (zpow_pos' 1024).le, this, over, if_pos key.le]
  exact top_le_iff.1 (h2 ▸ R_mono h)

end Double
end Stats

/-! Arithmetic of `doubleLib` unfolded to `Double.R`. -/
namespace Stats.DoubleArith
open Fl

set_option warn.classDefReducibility false in
attribute [local instance] doubleLib

theorem dmul (a b : ℝ) : fin a * fin b = ofE (Double.R (a * b)) := rfl
theorem dadd (a b : ℝ) : fin a + fin b = ofE (Double.R (a + b)) := rfl
theorem dsub (a b : ℝ) : fin a - fin b = ofE (Double.R (a - b)) := rfl
theorem ddiv (a : ℝ) {b : ℝ} (h : b ≠ 0) : fin a / fin b = ofE (Double.R (a / b)) := if_neg h
theorem deps : Lib.eps = (1 / 2 ^ 52 : ℝ) := rfl

end Stats.DoubleArith
