import Verif.Model.Quant

/-! Recursions run with fuel. -/

open Classical
namespace Stats
open Fl

/-- Adding fuel does not change a result. -/
def FuelMono {α : Type*} (f : ℕ → Option α) : Prop := ∀ n v, f n = some v → f (n + 1) = some v

theorem FuelMono.le {α : Type*} {f : ℕ → Option α} (h : FuelMono f) {m n : ℕ} (hmn : m ≤ n) {v : α}
    (hv : f m = some v) : f n = some v := by
  induction n, hmn using Nat.le_induction with
  | base => exact hv
  | succ n _ ih => exact h n v ih

theorem runFuel_eq {α : Type*} {f : ℕ → Option α} (h : FuelMono f) {n : ℕ} {v : α} (hv : f n = some v) :
    runFuel f = some v := by
  have hex : ∃ n, (f n).isSome := ⟨n, by rw [hv]; rfl⟩
  rw [runFuel, dif_pos hex]
  have hs := Nat.find_spec hex
  obtain ⟨w, hw⟩ := Option.isSome_iff_exists.1 hs
  rw [hw]
  rcases le_total n (Nat.find hex) with hle | hle
  · rw [h.le hle hv] at hw; exact hw.symm
  · rw [h.le hle hw] at hv; exact hv

theorem runFuel_eq_some {α : Type*} {f : ℕ → Option α} {v : α} (h : runFuel f = some v) : ∃ n, f n = some v := by
  rw [runFuel] at h
  split_ifs at h with hex
  exact ⟨_, h⟩

theorem runFuel_eq_none {α : Type*} {f : ℕ → Option α} (h : ∀ n, f n = none) : runFuel f = none := by
  rw [runFuel, dif_neg]
  rintro ⟨n, hn⟩
  rw [h n] at hn; exact absurd hn (by simp)

variable [Lib]

theorem qbinom_recur_mono (p : Fl) (n : ℤ) (prob value : Fl) (count : ℤ) :
    FuelMono (fun fuel => qbinom_recur p n prob fuel value count) := by
  intro fuel
  simp only
  induction fuel generalizing value count with
  | zero => intro v hv; simp [qbinom_recur] at hv
  | succ k ih =>
    intro v hv
    rw [qbinom_recur] at hv ⊢
    split_ifs at hv ⊢ with h
    · exact ih _ _ v hv
    · exact hv

theorem qpois_search_mono (p rate value : Fl) (count : ℤ) :
    FuelMono (fun fuel => qpois_compute_right_search p rate fuel value count) := by
  intro fuel
  simp only
  induction fuel generalizing value count with
  | zero => intro v hv; simp [qpois_compute_right_search] at hv
  | succ k ih =>
    intro v hv
    rw [qpois_compute_right_search] at hv ⊢
    split_ifs at hv ⊢ with h
    · exact ih _ _ v hv
    all_goals exact hv

/-- The search of `qbinom`: started at a value below `p` it stops at the first count whose distribution
function is not below `p`. -/
theorem qbinom_recur_stops (p : Fl) (n : ℤ) (prob : Fl) (d : ℕ) (value : Fl) (c : ℤ) (hv : value < p)
    (h : ∀ j : ℕ, j < d → pbinom (c + j) n prob false < p) (hk : ¬ pbinom (c + d) n prob false < p) :
    qbinom_recur p n prob (d + 2) value c = some (ofInt (c + d)) := by
  induction d generalizing value c with
  | zero =>
    simp only [Nat.cast_zero, add_zero] at hk
    rw [qbinom_recur, if_pos hv, qbinom_recur, if_neg hk]; simp
  | succ d ih =>
    rw [qbinom_recur, if_pos hv]
    have h0 := h 0 (Nat.succ_pos d)
    simp only [Nat.cast_zero, add_zero] at h0
    rw [show d + 1 + 1 = d + 2 by ring, ih _ (c + 1) h0 ?_ ?_]
    · congr 2; push_cast; ring
    · intro j hj
      have := h (j + 1) (by omega)
      rwa [show c + 1 + (j : ℤ) = c + ((j + 1 : ℕ) : ℤ) by push_cast; ring]
    · rwa [show c + 1 + (d : ℤ) = c + ((d + 1 : ℕ) : ℤ) by push_cast; ring]

/-- The search of `qpois`: started at a value of at most `p` it stops at the first count whose distribution
function is not at most `p`. -/
theorem qpois_search_stops (p rate : Fl) (d : ℕ) (value : Fl) (c : ℤ) (hc : 0 ≤ c) (hv : value ≤ p)
    (h : ∀ j : ℕ, j < d → ppois (c + j) rate false ≤ p) (hk : ¬ ppois (c + d) rate false ≤ p) :
    qpois_compute_right_search p rate (d + 2) value c = some (ofInt (c + d)) := by
  induction d generalizing value c with
  | zero =>
    simp only [Nat.cast_zero, add_zero] at hk
    rw [qpois_compute_right_search, if_pos hv, qpois_compute_right_search, if_neg hk, if_pos (by omega)]; simp
  | succ d ih =>
    rw [qpois_compute_right_search, if_pos hv]
    have h0 := h 0 (Nat.succ_pos d)
    simp only [Nat.cast_zero, add_zero] at h0
    rw [show d + 1 + 1 = d + 2 by ring, ih _ (c + 1) (by omega) h0 ?_ ?_]
    · congr 2; push_cast; ring
    · intro j hj
      have := h (j + 1) (by omega)
      rwa [show c + 1 + (j : ℤ) = c + ((j + 1 : ℕ) : ℤ) by push_cast; ring]
    · rwa [show c + 1 + (d : ℤ) = c + ((d + 1 : ℕ) : ℤ) by push_cast; ring]

/-- The search of `qpois` does not return while the distribution function stays at most `p`. -/
theorem qpois_search_none (p rate : Fl) (fuel : ℕ) (value : Fl) (c : ℤ) (hv : value ≤ p)
    (h : ∀ j : ℕ, ppois (c + j) rate false ≤ p) : qpois_compute_right_search p rate fuel value c = none := by
  induction fuel generalizing value c with
  | zero => rfl
  | succ d ih =>
    rw [qpois_compute_right_search, if_pos hv]
    apply ih
    · have := h 0; simpa using this
    · intro j
      have := h (j + 1)
      rwa [show c + 1 + (j : ℤ) = c + ((j + 1 : ℕ) : ℤ) by push_cast; ring]

end Stats
