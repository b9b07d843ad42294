import Verif.Lemmas.Range

/-! Monotonicity of rounded operations and library calls. `x ≤ y` on `Fl` includes "neither is NaN". -/

set_option linter.unusedSectionVars false
open Classical
namespace Stats
open Fl
variable [Lib]

theorem le_pinf {x : Fl} (h : x ≠ nan) : x ≤ pinf := by cases x <;> simp_all
theorem ninf_le {x : Fl} (h : x ≠ nan) : ninf ≤ x := by cases x <;> simp_all
@[simp] theorem ofE_le_pinf (e : EReal) : ofE e ≤ pinf := le_pinf (ofE_ne_nan e)
@[simp] theorem ninf_le_ofE (e : EReal) : ninf ≤ ofE e := ninf_le (ofE_ne_nan e)

theorem add_mono {x y : Fl} (c : ℝ) (h : x ≤ y) : fin c + x ≤ fin c + y := by
  cases x <;> cases y <;> simp_all [fin_add_fin]
  exact Lib.rnd_mono (by linarith)

theorem sub_mono {x y : Fl} (c : ℝ) (h : x ≤ y) : x - fin c ≤ y - fin c := by
  cases x <;> cases y <;> simp_all [fin_sub_fin]
  exact Lib.rnd_mono (by linarith)

theorem neg_anti {x y : Fl} (h : x ≤ y) : -y ≤ -x := by
  cases x <;> cases y <;> simp_all

theorem const_sub_anti {x y : Fl} (c : ℝ) (h : x ≤ y) : fin c - y ≤ fin c - x := by
  rw [sub_def, sub_def]; exact add_mono c (neg_anti h)

theorem div_mono {x y : Fl} {c : ℝ} (hc : 0 < c) (h : x ≤ y) : x / fin c ≤ y / fin c := by
  cases x <;> cases y <;> simp_all [fin_div_fin, pinf_div_fin, ninf_div_fin, hc.le, hc.ne']
  exact Lib.rnd_mono (by gcongr)

theorem mul_mono {x y : Fl} {c : ℝ} (hc : 0 < c) (h : x ≤ y) : fin c * x ≤ fin c * y := by
  cases x <;> cases y <;> simp_all [fin_mul_fin, fin_mul_pinf, fin_mul_ninf, hc.le, hc.ne']
  exact Lib.rnd_mono (by gcongr)

theorem exp_mono [MonoLib] {x y : Fl} (h : x ≤ y) : exp x ≤ exp y := by
  cases x <;> cases y <;> simp_all [exp_fin]
  · exact Lib.exp_nonneg _
  · exact MonoLib.exp_mono h

theorem expm1_fin (r : ℝ) : expm1 (fin r) = ofE (Lib.expm1 r) := rfl
theorem expm1_mono [MonoLib] {x y : Fl} (h : x ≤ y) : expm1 x ≤ expm1 y := by
  cases x <;> cases y <;> simp_all [expm1, expm1_fin]
  · exact Lib.expm1_ge _
  · exact MonoLib.expm1_mono h

theorem erf_mono [MonoLib] {x y : Fl} (h : x ≤ y) : erf x ≤ erf y := by
  cases x <;> cases y <;> simp_all [erf]
  · exact Lib.erf_ge _
  · exact MonoLib.erf_mono h
  · exact Lib.erf_le _

theorem tanh_mono [MonoLib] {x y : Fl} (h : x ≤ y) : tanh x ≤ tanh y := by
  cases x <;> cases y <;> simp_all [tanh]
  · exact Lib.tanh_ge _
  · exact MonoLib.tanh_mono h
  · exact Lib.tanh_le _

theorem atan_mono [MonoLib] {x y : Fl} (h : x ≤ y) : atan x ≤ atan y := by
  have := Lib.pi_pos
  cases x <;> cases y <;> simp_all [atan]
  · simpa using Lib.atan_ge _
  · linarith
  · exact MonoLib.atan_mono h
  · simpa using Lib.atan_le _

theorem log_mono' (hl : MonotoneOn Lib.log (Set.Ioi 0)) {x y : Fl} (h0 : fin 0 ≤ x) (h : x ≤ y) :
    log x ≤ log y := by
  cases x <;> cases y <;> simp_all
  · rename_i a b
    have hb : 0 ≤ b := h0.trans h
    rcases hb.eq_or_lt with rfl | hb
    · rw [le_antisymm h h0]; simp
    · rcases h0.eq_or_lt with rfl | h0
      · simp [log_fin_pos hb]
      · rw [log_fin_pos h0, log_fin_pos hb]; simpa using hl h0 hb h
  · rename_i a
    rcases h0.eq_or_lt with rfl | h0
    · simp
    · simp [log_fin_pos h0]

theorem log_mono [MonoLib] {x y : Fl} (h0 : fin 0 ≤ x) (h : x ≤ y) : log x ≤ log y :=
  log_mono' MonoLib.log_mono h0 h

theorem igamma_mono [MonoLib] {a : ℝ} (ha : 0 < a) {x y : Fl} (h0 : fin 0 ≤ x) (h : x ≤ y) :
    igamma (fin a) x ≤ igamma (fin a) y := by
  cases x <;> cases y <;> simp at h0 h
  · rename_i r q
    have h2 : ¬ (a < 0 ∨ r < 0) := by push Not; exact ⟨ha.le, h0⟩
    have h3 : ¬ (a < 0 ∨ q < 0) := by push Not; exact ⟨ha.le, h0.trans h⟩
    simp only [igamma, if_neg h2, if_neg h3, ofE_le_ofE]
    exact MonoLib.igamma_mono a ha h0 (h0.trans h) h
  · rename_i r
    have h2 : ¬ (a < 0 ∨ r < 0) := by push Not; exact ⟨ha.le, h0⟩
    simp only [igamma, if_neg h2, if_neg ha.le.not_gt]
    simpa using Lib.igamma_le _ _
  · simp [igamma, ha.le.not_gt]

theorem ibeta_mono [MonoLib] {a b : ℝ} (ha : 0 < a) (hb : 0 < b) {x y : ℝ} (h0 : 0 ≤ x) (h : x ≤ y)
    (h1 : y ≤ 1) : ibeta (fin a) (fin b) (fin x) ≤ ibeta (fin a) (fin b) (fin y) := by
  have c1 : ¬ a < 0 := by linarith
  have c2 : ¬ b < 0 := by linarith
  have c3 : ¬ x < 0 := by linarith
  have c4 : ¬ 1 < x := by linarith
  have c5 : ¬ y < 0 := by linarith
  have c6 : ¬ 1 < y := by linarith
  simp only [ibeta, c1, c2, c3, c4, c5, c6, or_self, if_false]
  rw [ofE_le_ofE]
  exact MonoLib.ibeta_mono a b ha hb ⟨h0, h.trans h1⟩ ⟨h0.trans h, h1⟩ h

theorem pow_mono [MonoLib] {k : ℝ} (hk : 0 < k) {x y : Fl} (h0 : fin 0 ≤ x) (h : x ≤ y) :
    pow x (fin k) ≤ pow y (fin k) := by
  cases x <;> cases y <;> simp_all [pow, hk.ne']
  · rename_i r q
    have h2 : ¬ r < 0 := by linarith
    have h3 : ¬ q < 0 := by linarith
    rw [if_neg h2, if_neg h3]
    rcases h0.eq_or_lt with rfl | h0
    · simp
      split_ifs with h4
      · simp
      · simpa using Lib.pow_nonneg q k (lt_of_le_of_ne h (Ne.symm h4))
    · have h5 : 0 < q := by linarith
      rw [if_neg h0.ne', if_neg h5.ne']
      simpa using MonoLib.pow_mono k hk.le h0 h5 h
  · rename_i r
    have h2 : ¬ r < 0 := by linarith
    rw [if_neg h2]; split_ifs <;> simp

theorem one_div_anti {x y : ℝ} (h0 : 0 < x) (h : x ≤ y) : fin 1 / fin y ≤ fin 1 / fin x := by
  have hy : 0 < y := by linarith
  rw [fin_div_fin, fin_div_fin, if_neg hy.ne', if_neg h0.ne']
  simpa using Lib.rnd_mono (one_div_le_one_div_of_le h0 h)

theorem nn_le {x : Fl} : fin 0 ≤ x ↔ x ≠ nan ∧ NN x := by
  cases x <;> simp [NN]

end Stats
