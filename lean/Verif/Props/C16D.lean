import Verif.Props.C18
import Verif.Props.C42
import Verif.Lemmas.Meets

/-!
# C16 for the discrete families and for Student's t with one, two and infinitely many degrees of freedom
-/

set_option linter.unusedSectionVars false
open Classical
namespace Stats
open Fl Spec
variable [Lib] [Ideal]

/-- The smallest point reaching a probability grows with the probability. -/
theorem isSmallest_mono {p : ℤ → Bool → Fl} {s : Set ℤ} {u v : ℝ} {j k : ℤ} (huv : u ≤ v)
    (hj : IsSmallest p s (fin u) j) (hk : IsSmallest p s (fin v) k) : j ≤ k := by
  by_contra hc
  have h1 := hj.2.2 k hk.1 (not_le.1 hc)
  have h2 := hk.2.1
  revert h1 h2
  cases p k false <;> simp
  intro a; linarith

theorem isSmallestAbove_mono {p : ℤ → Bool → Fl} {s : Set ℤ} {u v : ℝ} {j k : ℤ} (huv : u ≤ v)
    (hj : IsSmallestAbove p s (fin u) j) (hk : IsSmallestAbove p s (fin v) k) : j ≤ k := by
  by_contra hc
  have h1 := hj.2.2 k hk.1 (not_le.1 hc)
  have h2 := hk.2.1
  revert h1 h2
  cases p k false <;> simp
  intro a; linarith

theorem fin_int_le {j k : ℤ} (h : j ≤ k) : fin (j : ℝ) ≤ fin (k : ℝ) := by
  rw [fin_le_fin]; exact_mod_cast h

/-- Lower end 0 and upper end 1; a success probability of 0 moves the upper end to 0. -/
theorem C16_qbern {prob : ℝ} (h0 : 0 < prob) (h1 : prob ≤ 1) :
    MonoQuant (fun u => qbern u (fin prob)) (fin 0) (fin 1) := by
  have a : bern_ok (fin prob) := by simp [bern_ok, h0.le, h1]
  refine ⟨?_, ?_, ?_⟩
  · simp only [qbern, if_neg (not_not.2 a), ideal]; simp [prob_val_ok, h1]
  · simp only [qbern, if_neg (not_not.2 a), ideal]; simp [prob_val_ok, h0]
  · intro u v hu huv hv
    obtain ⟨j, hj, hj'⟩ := C18_qbern hu (huv.trans hv) h0.le h1
    obtain ⟨k, hk, hk'⟩ := C18_qbern (hu.trans huv) hv h0.le h1
    simp only [hj, hk]
    exact fin_int_le (isSmallest_mono huv hj' hk')
example : MonoQuant (fun u => qbern u (fin (1 / 3))) (fin 0) (fin 1) :=
  C16_qbern (prob := 1 / 3) (h0 := by meets) (h1 := by meets)

theorem C16_qradem {prob : ℝ} (h0 : 0 < prob) (h1 : prob ≤ 1) :
    MonoQuant (fun u => qradem u (fin prob)) (fin (-1)) (fin 1) := by
  have a : radem_ok (fin prob) := by simp [radem_ok, h0.le, h1]
  refine ⟨?_, ?_, ?_⟩
  · simp only [qradem, if_neg (not_not.2 a), ideal]; simp [prob_val_ok, h1]
  · simp only [qradem, if_neg (not_not.2 a), ideal]; simp [prob_val_ok, h0]
  · intro u v hu huv hv
    obtain ⟨j, hj, hj'⟩ := C18_qradem hu (huv.trans hv) h0.le h1
    obtain ⟨k, hk, hk'⟩ := C18_qradem (hu.trans huv) hv h0.le h1
    simp only [hj, hk]
    exact fin_int_le (isSmallest_mono huv hj' hk')
example : MonoQuant (fun u => qradem u (fin (1 / 3))) (fin (-1)) (fin 1) :=
  C16_qradem (prob := 1 / 3) (h0 := by meets) (h1 := by meets)

theorem C16_qbinom (n : ℕ) {prob : ℝ} (h0 : 0 ≤ prob) (h1 : prob ≤ 1) :
    MonoQuantO (fun u => qbinom u n (fin prob)) (fin 0) (fin n) := by
  have a : binom_ok n (fin prob) := by simp [binom_ok, h0, h1]
  have q1 : qbinom (fin 1) n (fin prob) = some (fin n) := by
    rw [qbinom, if_neg (not_not.2 a)]; simp [ideal, prob_val_ok]
  refine ⟨?_, q1, ?_⟩
  · simp only
    rw [qbinom, if_neg (not_not.2 a)]; simp [prob_val_ok]
  · intro u v hu huv hv
    rcases hv.eq_or_lt with rfl | hv
    · rcases huv.eq_or_lt with rfl | hu1
      · exact ⟨_, _, q1, q1, le_refl' (by simp)⟩
      · obtain ⟨j, hj, hj'⟩ := C18_qbinom_partial n hu hu1 h0 h1
        exact ⟨_, _, hj, q1, by simpa using fin_int_le hj'.1.2⟩
    · obtain ⟨j, hj, hj'⟩ := C18_qbinom_partial n hu (huv.trans_lt hv) h0 h1
      obtain ⟨k, hk, hk'⟩ := C18_qbinom_partial n (hu.trans huv) hv h0 h1
      exact ⟨_, _, hj, hk, fin_int_le (isSmallest_mono huv hj' hk')⟩
example : MonoQuantO (fun u => qbinom u 5 (fin (1 / 3))) (fin 0) (fin 5) :=
  C16_qbinom (n := 5) (prob := 1 / 3) (h0 := by meets) (h1 := by meets)

theorem C16_qpois_partial {rate : ℝ} (hr : Lib.eps ≤ rate) :
    MonoQuantO (fun u => qpois u (fin rate)) (fin 0) pinf := by
  have hr0 : 0 < rate := lt_of_lt_of_le Lib.eps_pos hr
  have a : pois_ok (fin rate) := by simp [pois_ok, hr0.le]
  have q0 : qpois (fin 0) (fin rate) = some (fin 0) := by
    rw [qpois, if_neg (not_not.2 a)]; simp [prob_val_ok]
  have q1 : qpois (fin 1) (fin rate) = some pinf := by
    rw [qpois, if_neg (not_not.2 a)]; simp [prob_val_ok, eps, not_lt.2 hr]
  refine ⟨q0, q1, ?_⟩
  intro u v hu huv hv
  rcases hv.eq_or_lt with rfl | hv
  · rcases huv.eq_or_lt with rfl | hu1
    · exact ⟨_, _, q1, q1, by simp⟩
    · obtain ⟨k, hk⟩ := C20_qpois hr0.le hu hu1
      exact ⟨_, _, hk, q1, by simp⟩
  · rcases hu.eq_or_lt with rfl | hu
    · obtain ⟨k, hk⟩ := C20_qpois hr0.le huv hv
      exact ⟨_, _, q0, hk, by simp⟩
    · obtain ⟨j, hj, hj'⟩ := C19_qpois_above_partial hr hu (huv.trans_lt hv)
      obtain ⟨k, hk, hk'⟩ := C19_qpois_above_partial hr (hu.trans_le huv) hv
      exact ⟨_, _, hj, hk, fin_int_le (isSmallestAbove_mono huv hj' hk')⟩
example : MonoQuantO (fun u => qpois u (fin 2)) (fin 0) pinf := C16_qpois_partial (rate := 2) (hr := by meets)

/-- A positive rate below epsilon: the upper end of the support is infinite, but `qpois(1, rate) = 0`. -/
theorem C16_qpois_violated {rate : ℝ} (h0 : 0 < rate) (hr : rate < Lib.eps) :
    qpois (fin 1) (fin rate) = some (fin 0) := by
  have a : pois_ok (fin rate) := by simp [pois_ok, h0.le]
  rw [qpois, if_neg (not_not.2 a)]; simp [prob_val_ok, eps, hr]

theorem qt_zero_one {dof : ℝ} (h : Lib.eps ≤ dof) : qt (fin 0) (fin dof) = ninf ∧ qt (fin 1) (fin dof) = pinf := by
  have a : t_ok (fin dof) := by simp [t_ok, eps, h]
  constructor <;> rw [qt, if_neg (not_not.2 a)] <;> simp [prob_val_ok]

theorem C16_qt_one : MonoQuant (fun u => qt u (fin 1)) ninf pinf :=
  monoQuant_of (isCdf_tCoded one_pos) qt_one_inv (qt_zero_one eps_le_one).1 (qt_zero_one eps_le_one).2
    (by simp) (by simp) (by simp)

theorem C16_qt_two : MonoQuant (fun u => qt u (fin 2)) ninf pinf :=
  monoQuant_of (isCdf_tCoded two_pos) qt_two_inv (qt_zero_one eps_le_two).1 (qt_zero_one eps_le_two).2
    (by simp) (by simp) (by simp)

end Stats

namespace Stats.ExamplesC16D
open Fl Spec
open scoped Stats.Exact

example : ∃ x y, qbinom (fin (1 / 3)) 7 (fin (1 / 4)) = some x ∧ qbinom (fin (1 / 2)) 7 (fin (1 / 4)) = some y ∧ x ≤ y :=
  (C16_qbinom 7 (by norm_num) (by norm_num)).2.2 _ _ (by norm_num) (by norm_num) (by norm_num)
example : qt (fin (1 / 3)) (fin 2) ≤ qt (fin (1 / 2)) (fin 2) :=
  C16_qt_two.2.2 _ _ (by norm_num) (by norm_num) (by norm_num)

end Stats.ExamplesC16D
