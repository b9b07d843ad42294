import Verif.Model.Trace

/-!
# Lemmas about outcomes with undefined behaviour and call counts
-/

set_option linter.unusedSectionVars false
open Classical
namespace Stats
open Fl Out

namespace Out
variable {α β : Type}

@[simp] theorem done_andThen (a : α) (f : α → Out β) : (done a).andThen f = f a := by
  simp only [done, andThen]
  cases f a <;> simp

@[simp] theorem ret_andThen_done (a : α) (w d : ℕ) (f : α → β) :
    (ret a w d).andThen (fun x => done (f x)) = ret (f a) w d := by simp [andThen, done]

theorem ret_andThen_ret {a : α} {w d : ℕ} {f : α → Out β} {b : β} {w' d' : ℕ} (h : f a = ret b w' d') :
    (ret a w d).andThen f = ret b (w + w') (max d d') := by simp [andThen, h]

theorem ret_andThen_ub {a : α} {w d : ℕ} {f : α → Out β} (h : f a = ub) : (ret a w d).andThen f = ub := by
  simp [andThen, h]

@[simp] theorem call_ret (a : α) (w d : ℕ) : call (ret a w d) = ret a (w + 1) (d + 1) := rfl
@[simp] theorem call_done (a : α) : call (done a) = ret a 1 1 := rfl
@[simp] theorem call_ub : call (ub : Out α) = ub := rfl
@[simp] theorem call_more : call (more : Out α) = more := rfl
@[simp] theorem ub_andThen (f : α → Out β) : ub.andThen f = ub := rfl
@[simp] theorem more_andThen (f : α → Out β) : more.andThen f = more := rfl

theorem call_ne_more {o : Out α} (h : call o ≠ more) : o ≠ more := by
  rintro rfl; exact h rfl

theorem andThen_ne_more {o : Out α} {f : α → Out β} (h : o.andThen f ≠ more) :
    o = ub ∨ ∃ a w d, o = ret a w d ∧ f a ≠ more := by
  cases o with
  | ub => exact Or.inl rfl
  | more => exact absurd rfl h
  | ret a w d => exact Or.inr ⟨a, w, d, rfl, fun hf => h (by simp [andThen, hf])⟩

/-- If the runs agree from some fuel on with an outcome, that is the outcome, provided that more fuel never changes
an outcome. -/
theorem run_eq {f : ℕ → Out α} {o : Out α} (hm : ∀ n, f n ≠ more → f (n + 1) = f n) {n : ℕ} (h : f n = o)
    (ho : o ≠ more) : run f = o := by
  have hmono : ∀ k, f (n + k) = o := by
    intro k
    induction k with
    | zero => exact h
    | succ k ih => rw [← add_assoc, hm _ (by rw [ih]; exact ho), ih]
  have hex : ∃ n, f n ≠ more := ⟨n, by rw [h]; exact ho⟩
  rw [run, dif_pos hex]
  have hs := Nat.find_spec hex
  have hle : Nat.find hex ≤ n := Nat.find_min' hex (by rw [h]; exact ho)
  have : ∀ k, f (Nat.find hex + k) = f (Nat.find hex) := by
    intro k
    induction k with
    | zero => rfl
    | succ k ih => rw [← add_assoc, hm _ (by rw [ih]; exact hs), ih]
  obtain ⟨k, hk⟩ := Nat.exists_eq_add_of_le hle
  rw [← this k, ← hk, h]

theorem run_more {f : ℕ → Out α} (h : ∀ n, f n = more) : run f = more := by
  rw [run, dif_neg]; simp [h]

end Out

theorem llOp_of {n : ℤ} (h : InLL n) : llOp n = done n := if_pos h
theorem llOp_not {n : ℤ} (h : ¬ InLL n) : llOp n = ub := if_neg h

section
variable [Lib]

/-! ### More fuel does not change an outcome -/

theorem pbinom_computeT_mono (x n : ℤ) (prob : Fl) (fuel : ℕ) (count : ℤ)
    (h : pbinom_computeT x n prob fuel count ≠ more) :
    pbinom_computeT x n prob (fuel + 1) count = pbinom_computeT x n prob fuel count := by
  induction fuel generalizing count with
  | zero => exact absurd rfl h
  | succ m ih =>
    rw [pbinom_computeT] at h
    rw [pbinom_computeT.eq_2 (fuel := m), pbinom_computeT.eq_2 (fuel := m + 1)]
    split_ifs at h ⊢ with hx
    · rfl
    · rcases andThen_ne_more (call_ne_more h) with h1 | ⟨d, w, e, h1, h2⟩
      · rw [h1]; rfl
      rcases andThen_ne_more h2 with h3 | ⟨c, w', e', h3, h4⟩
      · simp only [h3, ub_andThen]
      rcases andThen_ne_more h4 with h5 | ⟨r, w'', e'', h5, -⟩
      · simp only [h3, andThen, ih c (by rw [h5]; simp), h5]
      · simp only [h3, andThen, ih c (by rw [h5]; simp), h5]

theorem ppois_compute_recurT_mono (x : ℤ) (rate : Fl) (fuel : ℕ) (r : ℤ)
    (h : ppois_compute_recurT x rate fuel r ≠ more) :
    ppois_compute_recurT x rate (fuel + 1) r = ppois_compute_recurT x rate fuel r := by
  induction fuel generalizing r with
  | zero => exact absurd rfl h
  | succ m ih =>
    rw [ppois_compute_recurT] at h
    rw [ppois_compute_recurT.eq_2 (fuel := m), ppois_compute_recurT.eq_2 (fuel := m + 1)]
    split_ifs at h ⊢ with h1 h2 h3 h4
    · rfl
    · rfl
    · rcases andThen_ne_more (call_ne_more h) with h5 | ⟨c, w, e, h5, h6⟩
      · rw [h5]; rfl
      rcases andThen_ne_more h6 with h7 | ⟨c', w', e', h7, -⟩
      · simp only [h5, andThen, ih c (by rw [h7]; simp), h7]
      · simp only [h5, andThen, ih c (by rw [h7]; simp), h7]
    · rcases andThen_ne_more (call_ne_more h) with h5 | ⟨c, w, e, h5, h6⟩
      · rw [h5]; rfl
      rcases andThen_ne_more h6 with h7 | ⟨c', w', e', h7, h8⟩
      · simp only [h5, h7, andThen]
      rcases andThen_ne_more h8 with h9 | ⟨c'', w'', e'', h9, -⟩
      · simp only [h5, h7, andThen, ih c' (by rw [h9]; simp), h9]
      · simp only [h5, h7, andThen, ih c' (by rw [h9]; simp), h9]
    · rfl

theorem qbinom_recurT_mono (p : Fl) (n : ℤ) (prob : Fl) (value : Fl) (count : ℤ) (fuel : ℕ)
    (h : qbinom_recurT p n prob fuel value count ≠ more) :
    qbinom_recurT p n prob (fuel + 1) value count = qbinom_recurT p n prob fuel value count := by
  induction fuel generalizing value count with
  | zero => exact absurd rfl h
  | succ m ih =>
    rw [qbinom_recurT] at h
    rw [qbinom_recurT.eq_2 (fuel := m), qbinom_recurT.eq_2 (fuel := m + 1)]
    split_ifs at h ⊢ with h1
    · rcases andThen_ne_more (call_ne_more h) with h5 | ⟨c, w, e, h5, h6⟩
      · rw [h5]; rfl
      rcases andThen_ne_more h6 with h7 | ⟨c', w', e', h7, h8⟩
      · simp only [h5, h7, andThen]
      · simp only [h5, h7, andThen, ih c c' h8]
    · rfl

theorem qpois_right_searchT_mono (p rate : Fl) (value : Fl) (count : ℤ) (fuel : ℕ)
    (h : qpois_right_searchT p rate fuel value count ≠ more) :
    qpois_right_searchT p rate (fuel + 1) value count = qpois_right_searchT p rate fuel value count := by
  induction fuel generalizing value count with
  | zero => exact absurd rfl h
  | succ m ih =>
    rw [qpois_right_searchT] at h
    rw [qpois_right_searchT.eq_2 (fuel := m), qpois_right_searchT.eq_2 (fuel := m + 1)]
    split_ifs at h ⊢ with h1 h2
    · rcases andThen_ne_more (call_ne_more h) with h5 | ⟨c, w, e, h5, h6⟩
      · rw [h5]; rfl
      rcases andThen_ne_more h6 with h7 | ⟨c', w', e', h7, h8⟩
      · simp only [h5, h7, andThen]
      · simp only [h5, h7, andThen, ih c c' h8]
    · rfl
    · rfl

theorem qinvgauss_iterT_mono (p mu lambda : Fl) (qn : Fl) (count : ℤ) (fuel : ℕ)
    (h : qinvgauss_iterT p mu lambda fuel qn count ≠ more) :
    qinvgauss_iterT p mu lambda (fuel + 1) qn count = qinvgauss_iterT p mu lambda fuel qn count := by
  induction fuel generalizing qn count with
  | zero => exact absurd rfl h
  | succ m ih =>
    rw [qinvgauss_iterT] at h
    rw [qinvgauss_iterT.eq_2 (fuel := m), qinvgauss_iterT.eq_2 (fuel := m + 1)]
    simp only [call_done, andThen] at h ⊢
    by_cases h1 : abs (p - pinvgauss qn mu lambda false) < minpos
    · simp only [h1, if_true]
    by_cases h2 : count < QINVGAUSS_MAX_ITER
    · simp only [h1, h2, if_true, if_false] at h ⊢
      cases hc : intOp (count + 1) with
      | ub => rfl
      | more => rfl
      | ret c w d =>
        rw [hc] at h
        simp only at h ⊢
        rw [ih]
        intro hm
        simp [hm, call] at h
    · simp only [h1, h2, if_false]

end

end Stats
