import Verif.Lemmas.Fl

/-! Ranges of rounded results. -/

set_option linter.unusedSectionVars false
open Classical
namespace Stats
open Fl
variable [Lib]

/-- a finite value between two real bounds -/
def Btw (a b : ℝ) (x : Fl) : Prop := ∃ r, x = fin r ∧ a ≤ r ∧ r ≤ b

/-- a bound that rounding keeps -/
def Rep (a : ℝ) : Prop := Lib.rnd a = (a : EReal)

theorem rep_half (n : ℤ) (h : |n| ≤ 2 ^ 20) : Rep ((n : ℝ) / 2) := Lib.rnd_half n h
theorem rep_int (n : ℤ) (h : |n| ≤ 2 ^ 19) : Rep (n : ℝ) := rnd_int h
@[simp] theorem rep_zero : Rep 0 := by simp [Rep]
@[simp] theorem rep_one : Rep 1 := by simp [Rep]
@[simp] theorem rep_two : Rep 2 := by simp [Rep]
theorem rep_oh : Rep (1 / 2) := rnd_onehalf
@[simp] theorem rep_oh' : Rep 2⁻¹ := by rw [inv_eq_one_div]; exact rep_oh
theorem rep_neg {a : ℝ} (h : Rep a) : Rep (-a) := by
  rw [Rep, Lib.rnd_neg, h]; rfl

theorem btw_ofE {a b : ℝ} {e : EReal} (h1 : (a : EReal) ≤ e) (h2 : e ≤ b) : Btw a b (ofE e) := by
  induction e using EReal.rec with
  | bot => simp at h1
  | top => simp at h2
  | coe r => exact ⟨r, by simp, by simpa using h1, by simpa using h2⟩

theorem btw_rnd {a b r : ℝ} (ha : Rep a) (hb : Rep b) (h1 : a ≤ r) (h2 : r ≤ b) :
    Btw a b (ofE (Lib.rnd r)) := by
  apply btw_ofE
  · rw [← ha]; exact Lib.rnd_mono h1
  · rw [← hb]; exact Lib.rnd_mono h2

theorem Btw.add {a b c d : ℝ} {x y : Fl} (h : Btw a b x) (h' : Btw c d y) (hl : Rep (a + c))
    (hu : Rep (b + d)) : Btw (a + c) (b + d) (x + y) := by
  obtain ⟨r, rfl, h1, h2⟩ := h
  obtain ⟨q, rfl, h3, h4⟩ := h'
  rw [fin_add_fin]
  exact btw_rnd hl hu (add_le_add h1 h3) (add_le_add h2 h4)

theorem Btw.sub {a b c d : ℝ} {x y : Fl} (h : Btw a b x) (h' : Btw c d y) (hl : Rep (a - d))
    (hu : Rep (b - c)) : Btw (a - d) (b - c) (x - y) := by
  obtain ⟨r, rfl, h1, h2⟩ := h
  obtain ⟨q, rfl, h3, h4⟩ := h'
  rw [fin_sub_fin]
  exact btw_rnd hl hu (by linarith) (by linarith)

theorem Btw.neg {a b : ℝ} {x : Fl} (h : Btw a b x) : Btw (-b) (-a) (-x) := by
  obtain ⟨r, rfl, h1, h2⟩ := h
  exact ⟨-r, rfl, by linarith, by linarith⟩

theorem Btw.mono {a b c d : ℝ} {x : Fl} (h : Btw a b x) (h1 : c ≤ a) (h2 : b ≤ d) : Btw c d x := by
  obtain ⟨r, rfl, h3, h4⟩ := h
  exact ⟨r, rfl, by linarith, by linarith⟩

theorem btw_fin {a b r : ℝ} (h1 : a ≤ r) (h2 : r ≤ b) : Btw a b (fin r) := ⟨r, rfl, h1, h2⟩

/-- `1 - p` -/
theorem Btw.one_sub {x : Fl} (h : Btw 0 1 x) : Btw 0 1 (1 - x) := by
  have := (btw_fin (a := 1) (b := 1) le_rfl le_rfl).sub h (by simp) (by simp)
  simpa using this

/-- `half * x` -/
theorem Btw.half_mul {x : Fl} (h : Btw 0 2 x) : Btw 0 1 (half * x) := by
  obtain ⟨r, rfl, h1, h2⟩ := h
  rw [half_eq, fin_mul_fin]
  exact btw_rnd (by simp) (by simp) (by linarith) (by linarith)

/-- half of a probability -/
theorem Btw.div_two {x : Fl} (h : Btw 0 1 x) : Btw 0 (1 / 2) (x / 2) := by
  obtain ⟨r, rfl, h1, h2⟩ := h
  rw [ofNat_eq, fin_div_fin, if_neg (by norm_num)]
  exact btw_rnd (by simp) (by simp) (by linarith) (by linarith)

/-! ### "not a negative number" -/

/-- NaN or at least 0 -/
def NN (x : Fl) : Prop := ¬ x < 0

theorem nn_iff {x : Fl} : NN x ↔ x = nan ∨ x = pinf ∨ ∃ r, x = fin r ∧ 0 ≤ r := by
  cases x <;> simp [NN]

theorem nn_ofE {e : EReal} (h : 0 ≤ e) : NN (ofE e) := by simpa [NN] using h

theorem nn_exp (x : Fl) : NN (exp x) := by
  cases x with
  | fin r => exact nn_ofE (Lib.exp_nonneg r)
  | _ => simp [NN]

theorem NN.mul {x y : Fl} (hx : NN x) (hy : NN y) : NN (x * y) := by
  rcases nn_iff.1 hx with rfl | rfl | ⟨r, rfl, hr⟩ <;>
  rcases nn_iff.1 hy with rfl | rfl | ⟨q, rfl, hq⟩
  any_goals simp [NN]
  · rw [pinf_mul_fin]; split_ifs <;> simp_all
    rename_i h1 h2; exact h1 (le_antisymm h2 hq)
  · rw [fin_mul_pinf]; split_ifs <;> simp_all
    rename_i h1 h2; exact h1 (le_antisymm h2 hr)
  · rw [fin_mul_fin]; simpa [NN] using rnd_nonneg (mul_nonneg hr hq)

theorem NN.add {x y : Fl} (hx : NN x) (hy : NN y) : NN (x + y) := by
  rcases nn_iff.1 hx with rfl | rfl | ⟨r, rfl, hr⟩ <;>
  rcases nn_iff.1 hy with rfl | rfl | ⟨q, rfl, hq⟩
  any_goals simp [NN]
  · rw [fin_add_fin]; simpa [NN] using rnd_nonneg (add_nonneg hr hq)

theorem NN.div {x y : Fl} (hx : NN x) (hy : NN y) : NN (x / y) := by
  rcases nn_iff.1 hx with rfl | rfl | ⟨r, rfl, hr⟩ <;>
  rcases nn_iff.1 hy with rfl | rfl | ⟨q, rfl, hq⟩
  any_goals simp [NN]
  · rw [pinf_div_fin, if_pos hq]; simp
  · rw [fin_div_fin]; split_ifs with h1 h2 h3
    · simp
    · simp
    · exact absurd (lt_of_le_of_ne hr (Ne.symm h2)) h3
    · simpa [NN] using rnd_nonneg (div_nonneg hr hq)

theorem nn_sq (x : Fl) : NN (x * x) := by
  cases x <;> simp [NN]
  rw [fin_mul_fin]; simpa using rnd_nonneg (mul_self_nonneg _)

@[simp] theorem nn_zero : NN (fin 0) := by simp [NN]
@[simp] theorem nn_pinf : NN pinf := by simp [NN]
@[simp] theorem nn_nan : NN nan := by simp [NN]
theorem nn_fin {r : ℝ} (h : 0 ≤ r) : NN (fin r) := by simpa [NN] using h

/-! ### probability or NaN -/

/-- NaN or a number in `[0,1]` -/
def PN (x : Fl) : Prop := x = nan ∨ Btw 0 1 x

@[simp] theorem pn_nan : PN nan := Or.inl rfl
@[simp] theorem pn_zero : PN (fin 0) := Or.inr (btw_fin le_rfl zero_le_one)
@[simp] theorem pn_one : PN (fin 1) := Or.inr (btw_fin zero_le_one le_rfl)
@[simp] theorem pn_half : PN (fin (1 / 2)) := Or.inr (btw_fin (by norm_num) (by norm_num))
@[simp] theorem pn_half' : PN (fin 2⁻¹) := Or.inr (btw_fin (by norm_num) (by norm_num))

theorem pn_ofE {e : EReal} (h : 0 ≤ e) (h' : e ≤ 1) : PN (ofE e) :=
  Or.inr (btw_ofE (by simpa using h) (by simpa using h'))

theorem PN.one_sub {x : Fl} (h : PN x) : PN (1 - x) := by
  rcases h with rfl | h
  · simp
  · exact Or.inr h.one_sub

/-- the log of a probability is not positive -/
theorem pn_log {x : Fl} (h : PN x) : ¬ 0 < log x := by
  rcases h with rfl | ⟨r, rfl, h0, h1⟩
  · simp
  · rcases h0.eq_or_lt with rfl | h0
    · simp
    · rw [log_fin_pos h0]; simpa using Lib.log_nonpos r h0 h1

end Stats
