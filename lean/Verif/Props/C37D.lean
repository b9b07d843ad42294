import Verif.Props.C37
import Verif.Lemmas.Round
import Verif.Lemmas.RoundInst
import Verif.Lemmas.DoubleCalc

/-!
# C37 and C49: sums, means and variances under rounding

The variance as mean square minus squared mean is computed with an error of a few units of the mean square. That can
exceed the variance: in binary64 the variance of `(1.6, 1.6, 1.6)` is negative. The form Armadillo uses is never negative.
-/

set_option linter.unusedSectionVars false
open Classical
namespace Stats
open Fl Spec MatOps

section every
variable [Lib]

theorem add_not_neg {a b : Fl} (ha : ¬ a < 0) (hb : ¬ b < 0) : ¬ a + b < 0 := by
  rw [zero_eq] at *
  cases a <;> cases b <;> simp at ha hb ⊢
  rw [fin_add_fin]
  simp [rnd_nonneg (add_nonneg ha hb)]

theorem sq_not_neg (d : Fl) : ¬ d * d < 0 := by
  rw [zero_eq]
  cases d with
  | nan => simp
  | ninf => exact fun h => by simp [show (ninf * ninf : Fl) = pinf from rfl] at h
  | pinf => exact fun h => by simp [show (pinf * pinf : Fl) = pinf from rfl] at h
  | fin r => rw [fin_mul_fin]; simp [rnd_nonneg (mul_self_nonneg r)]

/-- A sum of squares is never negative, whatever the arithmetic. -/
theorem sum_sq_not_neg (X : List Fl) (c s : Fl) (hs : ¬ s < 0) :
    ¬ X.foldl (fun s x => s + (x - c) * (x - c)) s < 0 := by
  induction X generalizing s with
  | nil => exact hs
  | cons x X ih => exact ih _ (add_not_neg hs (sq_not_neg _))

/-- The variance in the form of Armadillo is never negative: for every vector of floating-point numbers and every
arithmetic. -/
theorem C37_var_arma_nonneg (X : List Fl) : ¬ var_arma X < 0 := by
  rw [var_arma]
  split_ifs with h
  · rw [zero_eq]; simp
  have hs := sum_sq_not_neg X (mean X) 0 (by rw [zero_eq]; simp)
  have hd : ofInt (X.length - 1) = pinf ∨ ∃ n : ℝ, 1 ≤ n ∧ ofInt (X.length - 1) = fin n := by
    have h2 : (1 : ℝ) ≤ (((X.length : ℤ) - 1 : ℤ) : ℝ) := by
      have : (1 : ℤ) ≤ (X.length : ℤ) - 1 := by omega
      exact_mod_cast this
    have := Lib.rnd_mono h2
    rw [rnd_one] at this
    rw [ofInt]
    generalize Lib.rnd (((X.length : ℤ) - 1 : ℤ) : ℝ) = e at this
    induction e using EReal.rec with
    | bot => exact absurd this (by rw [le_bot_iff]; exact EReal.coe_ne_bot 1)
    | top => left; simp
    | coe n => right; exact ⟨n, by exact_mod_cast this, by simp⟩
  generalize X.foldl (fun s x => s + (x - mean X) * (x - mean X)) 0 = a at hs
  rw [zero_eq] at *
  rcases hd with hd | ⟨n, hn, hd⟩ <;> rw [hd]
  · cases a <;> simp at hs ⊢
  · cases a with
    | nan => simp
    | ninf => simp at hs
    | pinf =>
      have : (pinf / fin n : Fl) = if 0 ≤ n then pinf else ninf := rfl
      rw [this, if_pos (by linarith)]; simp
    | fin r =>
      have : (fin r / fin n : Fl) = ofE (Lib.rnd (r / n)) := if_neg (by linarith)
      rw [this]
      have hr : 0 ≤ r := by simpa using hs
      simp [rnd_nonneg (div_nonneg hr (by linarith : 0 ≤ n))]

end every

theorem sum_dev_sq (X : List ℝ) (m : ℝ) :
    (X.map (fun x => (x - m) ^ 2)).sum = (X.map (fun x => x * x)).sum - 2 * m * X.sum + X.length * m ^ 2 := by
  induction X with
  | nil => simp
  | cons x X ih => simp only [List.map_cons, List.sum_cons, List.length_cons, ih]; push_cast; ring

section rel
variable [Lib] {u : ℝ} [R : RelLib u]

theorem accu_offF (X : List ℝ) : OffF u X.length (X.map fun x => |x|).sum X.sum (accu (X.map fin)) := by
  suffices h : ∀ (X : List ℝ) (k m x : ℝ) (f : Fl), OffF u k m x f →
      OffF u (k + X.length) (m + (X.map fun x => |x|).sum) (x + X.sum) ((X.map fin).foldl (fun s x => s + x) f) by
    have := h X 0 0 0 0 ⟨le_rfl, by simp, 0, by rw [zero_eq], by simp [Off]⟩
    simpa [accu] using this
  intro X
  induction X with
  | nil => intro k m x f h; simpa using h
  | cons a X ih =>
    intro k m x f h
    have h1 := h.add ((RelF.lift (u := u) a).off)
    rw [max_eq_left h.1] at h1
    have := ih _ _ _ _ h1
    simp only [List.map_cons, List.sum_cons, List.foldl_cons, List.length_cons] at this ⊢
    convert this using 1 <;> push_cast <;> ring

theorem sqaccu_relF (X : List ℝ) : RelF u (X.length + 1) (X.map fun x => x * x).sum (sqaccu (X.map fin)) := by
  suffices h : ∀ (X : List ℝ) (k x : ℝ) (f : Fl), 1 ≤ k → 0 ≤ x → RelF u k x f →
      RelF u (k + X.length) (x + (X.map fun x => x * x).sum) ((X.map fin).foldl (fun s x => s + x * x) f) by
    have := h X 1 0 0 le_rfl le_rfl ⟨by norm_num, 0, by rw [zero_eq], (Rel.refl 0).mono R.u_nonneg R.u_lt (by norm_num)⟩
    rw [zero_add, add_comm (1 : ℝ)] at this
    exact this
  intro X
  induction X with
  | nil => intro k x f _ _ h; simpa using h
  | cons a X ih =>
    intro k x f hk hx h
    have h2 := ((RelF.lift (u := u) a).mul (RelF.lift (u := u) a)).mono (l := k) (by linarith)
    have h1 := h.add h2 hx (mul_self_nonneg a)
    have := ih _ _ _ (by linarith) (add_nonneg hx (mul_self_nonneg a)) h1
    simp only [List.map_cons, List.sum_cons, List.foldl_cons, List.length_cons] at this ⊢
    convert this using 1 <;> push_cast <;> ring

theorem ofInt_relF (n : ℤ) : RelF u 1 n (ofInt n) := by
  have := relF_rnd (u := u) le_rfl (Rel.refl (u := u) (n : ℝ))
  rwa [zero_add] at this

/-- The sum of `n` numbers is off by at most `n` roundings of the sum of their absolute values. -/
theorem C49_accu (X : List ℝ) : AbsAcc u X.length (X.map fun x => |x|).sum (accu (X.map fin)) X.sum := (accu_offF X).2.2

/-- The sum of the squares has a relative error of `n + 1` roundings. -/
theorem C49_sqaccu (X : List ℝ) : RelAcc u (X.length + 1) (sqaccu (X.map fin)) (X.map (· ^ 2)).sum := by
  have := (sqaccu_relF (u := u) X).2
  simp only [sq]; exact this

theorem mean_offF (X : List ℝ) (h : X ≠ []) :
    OffF u (X.length + 2) ((X.map fun x => |x|).sum / X.length) (X.sum / X.length) (mean (X.map fin)) := by
  have h0 : (X.length : ℝ) ≠ 0 := by
    have := List.length_pos_iff.2 h
    exact_mod_cast this.ne'
  have := (accu_offF (u := u) X).div (ofInt_relF (u := u) X.length) (by exact_mod_cast h0)
  rw [mean, List.length_map]
  convert this using 1
  · ring
  · rw [Int.cast_natCast, abs_of_nonneg (Nat.cast_nonneg _)]
  · rw [Int.cast_natCast]

/-- The mean is off by at most `n + 2` roundings of the mean absolute value. -/
theorem C49_mean (X : List ℝ) (h : X ≠ []) :
    AbsAcc u (X.length + 2) ((X.map fun x => |x|).sum / X.length) (mean (X.map fin)) (X.sum / X.length) := (mean_offF X h).2.2

/-- The variance is off by at most `2n + 6` roundings of twice the mean square. -/
theorem C49_var (X : List ℝ) (h : X ≠ []) :
    AbsAcc u (2 * X.length + 6) (2 * ((X.map (· ^ 2)).sum / X.length)) (var (X.map fin))
      ((X.map (fun x => (x - X.sum / X.length) ^ 2)).sum / X.length) := by
  have hn := List.length_pos_iff.2 h
  have h0 : (X.length : ℝ) ≠ 0 := by exact_mod_cast hn.ne'
  have hm := mean_offF (u := u) X h
  have hmm := hm.mul hm
  have hq := ((sqaccu_relF (u := u) X).div (ofInt_relF (u := u) X.length) (by exact_mod_cast h0)).off
  have hs := hq.sub hmm
  rw [Int.cast_natCast] at hs
  set n : ℝ := (X.length : ℝ)
  have hnp : 0 < n := lt_of_le_of_ne (Nat.cast_nonneg _) (Ne.symm h0)
  have hS0 : 0 ≤ (X.map fun x => x * x).sum := List.sum_nonneg (by
    simp only [List.mem_map]; rintro _ ⟨x, -, rfl⟩; exact mul_self_nonneg x)
  -- the square of the mean absolute value is at most the mean square
  have hcs : (X.map fun x => |x|).sum / n * ((X.map fun x => |x|).sum / n) ≤ (X.map fun x => x * x).sum / n := by
    have := sum_dev_sq (X.map fun x => |x|) ((X.map fun x => |x|).sum / n)
    rw [List.map_map, List.map_map, List.length_map] at this
    have hp : 0 ≤ (X.map ((fun y => (y - (X.map fun x => |x|).sum / n) ^ 2) ∘ fun x => |x|)).sum :=
      List.sum_nonneg (by simp only [List.mem_map]; rintro _ ⟨x, -, rfl⟩; exact sq_nonneg _)
    have e : (fun y : ℝ => y * y) ∘ (fun x : ℝ => |x|) = fun x => x * x := by funext x; simp
    rw [this, e] at hp
    set S := (X.map fun x => |x|).sum
    rw [le_div_iff₀ hnp]
    have h1 : S / n * n = S := div_mul_cancel₀ S h0
    have h2 : S / n * (S / n) * n = S / n * S := by rw [mul_assoc, h1]
    have h3 : n * (S / n) ^ 2 = S / n * S := by rw [sq, mul_comm, mul_assoc, h1]
    rw [h2]
    change 0 ≤ (X.map fun x => x * x).sum - 2 * (S / n) * S + n * (S / n) ^ 2 at hp
    linarith
  have hv : (X.map (fun x => (x - X.sum / n) ^ 2)).sum / n = (X.map fun x => x * x).sum / n - X.sum / n * (X.sum / n) := by
    rw [sum_dev_sq]
    field_simp
    ring
  have hsq : (X.map (· ^ 2)).sum = (X.map fun x => x * x).sum := by simp only [sq]
  rw [hv, hsq]
  have hk : Max.max (n + 1 + 1 + 1) (n + 2 + (n + 2) + 1) + 1 ≤ 2 * n + 6 := by
    rw [max_eq_right (by linarith)]; linarith
  have hle : |(X.map fun x => x * x).sum / n| + (X.map fun x => |x|).sum / n * ((X.map fun x => |x|).sum / n) ≤
      2 * ((X.map fun x => x * x).sum / n) := by
    rw [abs_of_nonneg (div_nonneg hS0 hnp.le)]; linarith
  have := (hs.mono hk hle).2.2
  rw [var, List.length_map]
  exact this

end rel
end Stats

namespace Stats.VarDouble
open Fl Double MatOps DoubleArith

set_option warn.classDefReducibility false in
attribute [local instance] doubleLib

theorem w1 : R (3602879701896397 / 2251799813685248) = ((3602879701896397 / 2251799813685248 : ℝ) : EReal) := by
  rw [R_near (0) 7205759403792794 (by norm_num) (by norm_num) (by norm_num) (by norm_num) (by norm_num [abs_lt])]; norm_num

theorem w2 : R (3602879701896397 / 1125899906842624) = ((3602879701896397 / 1125899906842624 : ℝ) : EReal) := by
  rw [R_near (1) 7205759403792794 (by norm_num) (by norm_num) (by norm_num) (by norm_num) (by norm_num [abs_lt])]; norm_num

theorem w3 : R (10808639105689191 / 2251799813685248) = ((1351079888211149 / 281474976710656 : ℝ) : EReal) := by
  rw [R_tie (2) 5404319552844596 (by norm_num) (by norm_num) (by norm_num) (by norm_num) (by decide) (by norm_num [abs_of_pos, abs_of_neg])]; norm_num

theorem wm : R (1351079888211149 / 844424930131968) = ((7205759403792795 / 4503599627370496 : ℝ) : EReal) := by
  rw [R_near (0) 7205759403792795 (by norm_num) (by norm_num) (by norm_num) (by norm_num) (by norm_num [abs_lt])]; norm_num

theorem v1 : R (12980742146337070512478121581609 / 5070602400912917605986812821504) = ((1441151880758559 / 562949953421312 : ℝ) : EReal) := by
  rw [R_near (1) 5764607523034236 (by norm_num) (by norm_num) (by norm_num) (by norm_num) (by norm_num [abs_lt])]; norm_num

theorem v2 : R (1441151880758559 / 281474976710656) = ((1441151880758559 / 281474976710656 : ℝ) : EReal) := by
  rw [R_near (2) 5764607523034236 (by norm_num) (by norm_num) (by norm_num) (by norm_num) (by norm_num [abs_lt])]; norm_num

theorem v3 : R (4323455642275677 / 562949953421312) = ((4323455642275677 / 562949953421312 : ℝ) : EReal) := by
  rw [R_near (2) 8646911284551354 (by norm_num) (by norm_num) (by norm_num) (by norm_num) (by norm_num [abs_lt])]; norm_num

theorem vq : R (1441151880758559 / 562949953421312) = ((1441151880758559 / 562949953421312 : ℝ) : EReal) := by
  rw [R_near (1) 5764607523034236 (by norm_num) (by norm_num) (by norm_num) (by norm_num) (by norm_num [abs_lt])]; norm_num

theorem wmm : R (51922968585348296461431293912025 / 20282409603651670423947251286016) = ((5764607523034237 / 2251799813685248 : ℝ) : EReal) := by
  rw [R_near (1) 5764607523034237 (by norm_num) (by norm_num) (by norm_num) (by norm_num) (by norm_num [abs_lt])]; norm_num

end Stats.VarDouble

namespace Stats
open Fl MatOps DoubleArith VarDouble
set_option warn.classDefReducibility false in
attribute [local instance] doubleLib

/-- In binary64 the variance of three times 1.6 (the double nearest to it) is `-2^(-51)`. -/
theorem C37_var_double_violated :
    var ((List.replicate 3 (3602879701896397 / 2 ^ 51)).map fin) = fin (-(1 / 2 ^ 51)) := by
  have t3 : (3 : ℝ) ≠ 0 := by norm_num
  have e0 : ofInt 3 = fin 3 := by
    have := doubleRounding.int 3 (by norm_num)
    show ofE (doubleRounding.R _) = _
    rw [this]; norm_num
  have hacc : accu ((List.replicate 3 (3602879701896397 / 2 ^ 51)).map fin) = fin (1351079888211149 / 2 ^ 48) := by
    simp only [accu, List.replicate, List.map, List.foldl, zero_eq, dadd]
    norm_num only [w1, ofE_coe, dadd, w2, w3]
  have hsq : sqaccu ((List.replicate 3 (3602879701896397 / 2 ^ 51)).map fin) = fin (4323455642275677 / 2 ^ 49) := by
    simp only [sqaccu, List.replicate, List.map, List.foldl, zero_eq, dmul]
    norm_num only [v1, vq, ofE_coe, dadd, v2, v3]
  rw [var, mean, hacc, hsq]
  simp only [List.length_map, List.length_replicate]
  norm_num only [e0, ddiv _ t3, wm, vq, ofE_coe, dmul, wmm, dsub, Nat.cast_ofNat]
  have := Double.R_pow 51 (by norm_num)
  norm_num at this
  rw [Double.R_neg]
  norm_num
  rw [this, ← EReal.coe_neg, ofE_coe]

end Stats

namespace Stats.ExamplesC49
open Fl MatOps
set_option warn.classDefReducibility false in
attribute [local instance] wideLib
attribute [local instance] wideLib_rel

example := C49_accu (u := 1 / 2 ^ 53) [1, -2, 1 / 10]
example := C49_sqaccu (u := 1 / 2 ^ 53) [1, -2, 1 / 10]
example := C49_mean (u := 1 / 2 ^ 53) [1, -2, 1 / 10] (by simp)
example := C49_var (u := 1 / 2 ^ 53) [1, -2, 1 / 10] (by simp)
/-- also with an infinite entry -/
example : ¬ var_arma [fin 1, pinf, fin (-3)] < 0 := C37_var_arma_nonneg _

end Stats.ExamplesC49
