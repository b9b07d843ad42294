import Verif.Model.Quant

/-! Basic lemmas about `Fl`. -/

set_option linter.unusedSectionVars false
open Classical

namespace Stats
namespace Fl

@[simp] theorem ofE_coe (r : ℝ) : ofE (r : EReal) = fin r := by simp [ofE]
@[simp] theorem ofE_zero : ofE 0 = fin 0 := by simpa using ofE_coe 0
@[simp] theorem ofE_one : ofE 1 = fin 1 := by simpa using ofE_coe 1
@[simp] theorem ofE_top : ofE ⊤ = pinf := by simp [ofE]
@[simp] theorem ofE_bot : ofE ⊥ = ninf := by simp [ofE]

theorem ofE_ne_nan (x : EReal) : ofE x ≠ nan := by
  induction x using EReal.rec <;> simp

@[simp] theorem toE_ofE (x : EReal) : toE (ofE x) = x := by
  induction x using EReal.rec <;> simp [toE]

@[simp] theorem toE_fin (r : ℝ) : toE (fin r) = r := rfl
@[simp] theorem toE_pinf : toE pinf = ⊤ := rfl
@[simp] theorem toE_ninf : toE ninf = ⊥ := rfl
@[simp] theorem toR_fin (r : ℝ) : toR (fin r) = r := rfl

theorem ofE_toE {x : Fl} (h : x ≠ nan) : ofE (toE x) = x := by
  cases x <;> simp_all

/-- A number is the image of an extended real. -/
theorem exists_ofE {x : Fl} (h : x ≠ nan) : ∃ e, x = ofE e := ⟨_, (ofE_toE h).symm⟩

@[simp] theorem ofNat_eq (n : ℕ) [n.AtLeastTwo] : (OfNat.ofNat n : Fl) = fin (OfNat.ofNat n : ℝ) := rfl
@[simp] theorem zero_eq : (0 : Fl) = fin 0 := by
  show fin ((0 : ℕ) : ℝ) = _; simp
@[simp] theorem one_eq : (1 : Fl) = fin 1 := by
  show fin ((1 : ℕ) : ℝ) = _; simp
@[simp] theorem half_eq : half = fin (1 / 2) := rfl

/-! ### negation -/
@[simp] theorem neg_nan : -nan = nan := rfl
@[simp] theorem neg_pinf : -pinf = ninf := rfl
@[simp] theorem neg_ninf : -ninf = pinf := rfl
@[simp] theorem neg_fin (r : ℝ) : -(fin r) = fin (-r) := rfl

/-! ### order -/
@[simp] theorem nan_lt (x : Fl) : ¬ nan < x := by cases x <;> exact id
@[simp] theorem lt_nan (x : Fl) : ¬ x < nan := by cases x <;> exact id
@[simp] theorem nan_le (x : Fl) : ¬ nan ≤ x := by cases x <;> exact id
@[simp] theorem le_nan (x : Fl) : ¬ x ≤ nan := by cases x <;> exact id
@[simp] theorem fin_lt_fin {a b : ℝ} : fin a < fin b ↔ a < b := Iff.rfl
@[simp] theorem fin_le_fin {a b : ℝ} : fin a ≤ fin b ↔ a ≤ b := Iff.rfl
@[simp] theorem fin_lt_pinf {a : ℝ} : fin a < pinf := trivial
@[simp] theorem ninf_lt_fin {a : ℝ} : ninf < fin a := trivial
@[simp] theorem ninf_lt_pinf : ninf < pinf := trivial
@[simp] theorem pinf_lt (x : Fl) : ¬ pinf < x := by cases x <;> exact id
@[simp] theorem lt_ninf (x : Fl) : ¬ x < ninf := by cases x <;> exact id
@[simp] theorem fin_le_pinf {a : ℝ} : fin a ≤ pinf := trivial
@[simp] theorem ninf_le_fin {a : ℝ} : ninf ≤ fin a := trivial
@[simp] theorem ninf_le_pinf : ninf ≤ pinf := trivial
@[simp] theorem ninf_le_ninf : ninf ≤ ninf := trivial
@[simp] theorem pinf_le_pinf : pinf ≤ pinf := trivial
@[simp] theorem not_pinf_le_fin {a : ℝ} : ¬ pinf ≤ fin a := id
@[simp] theorem not_pinf_le_ninf : ¬ pinf ≤ ninf := id
@[simp] theorem not_fin_le_ninf {a : ℝ} : ¬ fin a ≤ ninf := id

theorem le_iff_toE {x y : Fl} (hx : x ≠ nan) (hy : y ≠ nan) : x ≤ y ↔ toE x ≤ toE y := by
  cases x <;> cases y <;> simp_all

theorem lt_iff_toE {x y : Fl} (hx : x ≠ nan) (hy : y ≠ nan) : x < y ↔ toE x < toE y := by
  cases x <;> cases y <;> simp_all [EReal.bot_lt_coe]

@[simp] theorem ofE_le_ofE {x y : EReal} : ofE x ≤ ofE y ↔ x ≤ y := by
  rw [le_iff_toE (ofE_ne_nan _) (ofE_ne_nan _)]; simp
@[simp] theorem ofE_lt_ofE {x y : EReal} : ofE x < ofE y ↔ x < y := by
  rw [lt_iff_toE (ofE_ne_nan _) (ofE_ne_nan _)]; simp
@[simp] theorem fin_le_ofE {x : ℝ} {y : EReal} : fin x ≤ ofE y ↔ (x : EReal) ≤ y := by
  rw [← ofE_coe, ofE_le_ofE]
@[simp] theorem ofE_le_fin {x : EReal} {y : ℝ} : ofE x ≤ fin y ↔ x ≤ (y : EReal) := by
  rw [← ofE_coe, ofE_le_ofE]
@[simp] theorem fin_lt_ofE {x : ℝ} {y : EReal} : fin x < ofE y ↔ (x : EReal) < y := by
  rw [← ofE_coe, ofE_lt_ofE]
@[simp] theorem ofE_lt_fin {x : EReal} {y : ℝ} : ofE x < fin y ↔ x < (y : EReal) := by
  rw [← ofE_coe, ofE_lt_ofE]

theorem le_refl' {x : Fl} (h : x ≠ nan) : x ≤ x := by cases x <;> simp_all

theorem le_trans' {x y z : Fl} (h : x ≤ y) (h' : y ≤ z) : x ≤ z := by
  cases x <;> cases y <;> cases z <;> simp_all
  exact h.trans h'

theorem ne_nan_of_le_left {x y : Fl} (h : x ≤ y) : x ≠ nan := by rintro rfl; simp at h
theorem ne_nan_of_le_right {x y : Fl} (h : x ≤ y) : y ≠ nan := by rintro rfl; simp at h

/-! ### `==` -/
@[simp] theorem nan_feq (x : Fl) : ¬ nan ==. x := by cases x <;> exact id
@[simp] theorem feq_nan (x : Fl) : ¬ x ==. nan := by cases x <;> exact id
@[simp] theorem fin_feq_fin {a b : ℝ} : fin a ==. fin b ↔ a = b := Iff.rfl
@[simp] theorem pinf_feq_pinf : pinf ==. pinf := trivial
@[simp] theorem ninf_feq_ninf : ninf ==. ninf := trivial
@[simp] theorem pinf_feq_fin {a : ℝ} : ¬ pinf ==. fin a := id
@[simp] theorem ninf_feq_fin {a : ℝ} : ¬ ninf ==. fin a := id
@[simp] theorem fin_feq_pinf {a : ℝ} : ¬ fin a ==. pinf := id
@[simp] theorem fin_feq_ninf {a : ℝ} : ¬ fin a ==. ninf := id
@[simp] theorem pinf_feq_ninf : ¬ pinf ==. ninf := id
@[simp] theorem ninf_feq_pinf : ¬ ninf ==. pinf := id

theorem feq_iff {x y : Fl} (hx : x ≠ nan) : x ==. y ↔ x = y := by
  cases x <;> cases y <;> simp_all

/-! ### predicates -/
@[simp] theorem isNan_iff (x : Fl) : isNan x ↔ x = nan := Iff.rfl
@[simp] theorem isPosinf_iff (x : Fl) : isPosinf x ↔ x = pinf := Iff.rfl
@[simp] theorem isNeginf_iff (x : Fl) : isNeginf x ↔ x = ninf := Iff.rfl
@[simp] theorem isInf_iff (x : Fl) : isInf x ↔ x = pinf ∨ x = ninf := Iff.rfl
@[simp] theorem isFinite_fin (r : ℝ) : isFinite (fin r) := ⟨r, rfl⟩
@[simp] theorem isFinite_pinf : ¬ isFinite pinf := by rintro ⟨r, h⟩; cases h
@[simp] theorem isFinite_ninf : ¬ isFinite ninf := by rintro ⟨r, h⟩; cases h
@[simp] theorem isFinite_nan : ¬ isFinite nan := by rintro ⟨r, h⟩; cases h

@[simp] theorem abs_nan : abs nan = nan := rfl
@[simp] theorem abs_pinf : abs pinf = pinf := rfl
@[simp] theorem abs_ninf : abs ninf = pinf := rfl
@[simp] theorem abs_fin (r : ℝ) : abs (fin r) = fin |r| := rfl
@[simp] theorem sgn_nan : sgn nan = fin 0 := rfl
@[simp] theorem sgn_pinf : sgn pinf = fin 1 := rfl
@[simp] theorem sgn_ninf : sgn ninf = fin (-1) := rfl
theorem sgn_fin (r : ℝ) : sgn (fin r) = if 0 < r then fin 1 else if r < 0 then fin (-1) else fin 0 := rfl

section
variable [Lib]

/-! ### arithmetic -/
@[simp] theorem nan_add (x : Fl) : nan + x = nan := by cases x <;> rfl
@[simp] theorem add_nan (x : Fl) : x + nan = nan := by cases x <;> rfl
@[simp] theorem pinf_add_pinf : pinf + pinf = pinf := rfl
@[simp] theorem ninf_add_ninf : ninf + ninf = ninf := rfl
@[simp] theorem pinf_add_ninf : pinf + ninf = nan := rfl
@[simp] theorem ninf_add_pinf : ninf + pinf = nan := rfl
@[simp] theorem pinf_add_fin (r : ℝ) : pinf + fin r = pinf := rfl
@[simp] theorem fin_add_pinf (r : ℝ) : fin r + pinf = pinf := rfl
@[simp] theorem ninf_add_fin (r : ℝ) : ninf + fin r = ninf := rfl
@[simp] theorem fin_add_ninf (r : ℝ) : fin r + ninf = ninf := rfl
theorem fin_add_fin (a b : ℝ) : fin a + fin b = ofE (Lib.rnd (a + b)) := rfl
theorem sub_def (x y : Fl) : x - y = x + -y := rfl
@[simp] theorem nan_sub (x : Fl) : nan - x = nan := by simp [sub_def]
@[simp] theorem sub_nan (x : Fl) : x - nan = nan := by simp [sub_def]
@[simp] theorem pinf_sub_fin (r : ℝ) : pinf - fin r = pinf := rfl
@[simp] theorem fin_sub_pinf (r : ℝ) : fin r - pinf = ninf := rfl
@[simp] theorem ninf_sub_fin (r : ℝ) : ninf - fin r = ninf := rfl
@[simp] theorem fin_sub_ninf (r : ℝ) : fin r - ninf = pinf := rfl
@[simp] theorem pinf_sub_pinf : pinf - pinf = nan := rfl
@[simp] theorem ninf_sub_ninf : ninf - ninf = nan := rfl
@[simp] theorem pinf_sub_ninf : pinf - ninf = pinf := rfl
@[simp] theorem ninf_sub_pinf : ninf - pinf = ninf := rfl
theorem fin_sub_fin (a b : ℝ) : fin a - fin b = ofE (Lib.rnd (a - b)) := by
  rw [sub_def, neg_fin, fin_add_fin, sub_eq_add_neg]

@[simp] theorem nan_mul (x : Fl) : nan * x = nan := by cases x <;> rfl
@[simp] theorem mul_nan (x : Fl) : x * nan = nan := by cases x <;> rfl
@[simp] theorem pinf_mul_pinf : pinf * pinf = pinf := rfl
@[simp] theorem pinf_mul_ninf : pinf * ninf = ninf := rfl
@[simp] theorem ninf_mul_pinf : ninf * pinf = ninf := rfl
@[simp] theorem ninf_mul_ninf : ninf * ninf = pinf := rfl
theorem pinf_mul_fin (r : ℝ) : pinf * fin r = if r = 0 then nan else if 0 < r then pinf else ninf := rfl
theorem fin_mul_pinf (r : ℝ) : fin r * pinf = if r = 0 then nan else if 0 < r then pinf else ninf := rfl
theorem ninf_mul_fin (r : ℝ) : ninf * fin r = if r = 0 then nan else if 0 < r then ninf else pinf := rfl
theorem fin_mul_ninf (r : ℝ) : fin r * ninf = if r = 0 then nan else if 0 < r then ninf else pinf := rfl
theorem fin_mul_fin (a b : ℝ) : fin a * fin b = ofE (Lib.rnd (a * b)) := rfl

@[simp] theorem nan_div (x : Fl) : nan / x = nan := by cases x <;> rfl
@[simp] theorem div_nan (x : Fl) : x / nan = nan := by cases x <;> rfl
@[simp] theorem fin_div_pinf (r : ℝ) : fin r / pinf = fin 0 := rfl
@[simp] theorem fin_div_ninf (r : ℝ) : fin r / ninf = fin 0 := rfl
@[simp] theorem pinf_div_pinf : pinf / pinf = nan := rfl
@[simp] theorem pinf_div_ninf : pinf / ninf = nan := rfl
@[simp] theorem ninf_div_pinf : ninf / pinf = nan := rfl
@[simp] theorem ninf_div_ninf : ninf / ninf = nan := rfl
theorem pinf_div_fin (r : ℝ) : pinf / fin r = if 0 ≤ r then pinf else ninf := rfl
theorem ninf_div_fin (r : ℝ) : ninf / fin r = if 0 ≤ r then ninf else pinf := rfl
theorem fin_div_fin (a b : ℝ) : fin a / fin b =
    if b = 0 then (if a = 0 then nan else if 0 < a then pinf else ninf)
    else ofE (Lib.rnd (a / b)) := rfl

/-! ### rounding -/
theorem rnd_int {n : ℤ} (h : |n| ≤ 2 ^ 19) : Lib.rnd (n : ℝ) = ((n : ℝ) : EReal) := by
  have h1 : |2 * n| ≤ 2 ^ 20 := by rw [abs_mul]; norm_num at *; linarith
  have := Lib.rnd_half (2 * n) h1
  push_cast at this
  rwa [mul_div_cancel_left₀ _ (two_ne_zero)] at this

@[simp] theorem rnd_zero : Lib.rnd 0 = 0 := by simpa using rnd_int (n := 0) (by norm_num)
@[simp] theorem rnd_one : Lib.rnd 1 = 1 := by simpa using rnd_int (n := 1) (by norm_num)
@[simp] theorem rnd_neg_one : Lib.rnd (-1) = -1 := by rw [Lib.rnd_neg]; simp
@[simp] theorem rnd_two : Lib.rnd 2 = ((2 : ℝ) : EReal) := by
  simpa using rnd_int (n := 2) (by norm_num)
@[simp] theorem rnd_onehalf : Lib.rnd (1 / 2) = ((1 / 2 : ℝ) : EReal) := by
  simpa using Lib.rnd_half 1 (by norm_num)

@[simp] theorem rnd_inv_two : Lib.rnd 2⁻¹ = ((2⁻¹ : ℝ) : EReal) := by
  rw [inv_eq_one_div]; exact rnd_onehalf

theorem rnd_nonneg {x : ℝ} (h : 0 ≤ x) : 0 ≤ Lib.rnd x := by
  simpa using Lib.rnd_mono h
theorem rnd_nonpos {x : ℝ} (h : x ≤ 0) : Lib.rnd x ≤ 0 := by
  simpa using Lib.rnd_mono h
theorem rnd_le_one {x : ℝ} (h : x ≤ 1) : Lib.rnd x ≤ 1 := by
  simpa using Lib.rnd_mono h

/-! ### library calls at special values -/
@[simp] theorem exp_nan : exp nan = nan := rfl
@[simp] theorem exp_ninf : exp ninf = fin 0 := rfl
@[simp] theorem exp_pinf : exp pinf = pinf := rfl
theorem exp_fin (r : ℝ) : exp (fin r) = ofE (Lib.exp r) := rfl
@[simp] theorem log_nan : log nan = nan := rfl
@[simp] theorem log_ninf : log ninf = nan := rfl
@[simp] theorem log_pinf : log pinf = pinf := rfl
theorem log_fin (r : ℝ) : log (fin r) = if r < 0 then nan else if r = 0 then ninf else ofE (Lib.log r) := rfl
@[simp] theorem log_fin_zero : log (fin 0) = ninf := by simp [log_fin]
@[simp] theorem log_fin_one : log (fin 1) = fin 0 := by
  have : ¬ (1 : ℝ) < 0 := by norm_num
  simp [log_fin, this, Lib.log_one]
theorem log_fin_pos {r : ℝ} (h : 0 < r) : log (fin r) = ofE (Lib.log r) := by
  rw [log_fin, if_neg h.le.not_gt, if_neg h.ne']

end
end Fl

section
open Fl
variable [Lib]
@[simp] theorem exp_if_true (x : Fl) : exp_if x true = exp x := rfl
@[simp] theorem exp_if_false (x : Fl) : exp_if x false = x := rfl
@[simp] theorem log_if_false (x : Fl) : log_if x false = x := rfl
@[simp] theorem log_if_true (x : Fl) : log_if x true = log x := rfl
@[simp] theorem log_zero_if_false : log_zero_if false = fin 0 := by simp [log_zero_if]
@[simp] theorem log_zero_if_true : log_zero_if true = ninf := by simp [log_zero_if]
@[simp] theorem log_one_if_false : log_one_if false = fin 1 := by simp [log_one_if]
@[simp] theorem log_one_if_true : log_one_if true = fin 0 := by simp [log_one_if]
end
end Stats
