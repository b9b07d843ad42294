import Verif.Spec.Params
import Verif.Lemmas.Fl

/-! The sanity checks against the documented domains. -/

set_option linter.unusedSectionVars false
open Classical
namespace Stats
open Fl Spec

theorem nonNeg_iff (x : Fl) : NonNeg x ↔ x ≠ nan ∧ ¬ x < 0 := by
  constructor
  · rintro ⟨e, h, rfl⟩
    refine ⟨ofE_ne_nan _, ?_⟩
    simpa using h
  · rintro ⟨h, h'⟩
    obtain ⟨e, rfl⟩ := exists_ofE h
    exact ⟨e, by simpa using h', rfl⟩

theorem pos_iff (x : Fl) : Pos x ↔ 0 < x := by
  constructor
  · rintro ⟨e, h, rfl⟩
    simpa using h
  · intro h'
    have h : x ≠ nan := by rintro rfl; simp at h'
    obtain ⟨e, rfl⟩ := exists_ofE h
    exact ⟨e, by simpa using h', rfl⟩

theorem prob_iff (x : Fl) : Prob x ↔ x ≠ nan ∧ ¬ x < 0 ∧ ¬ x > 1 := by
  constructor
  · rintro ⟨r, h, h1, rfl⟩
    simpa [h]  using h1
  · rintro ⟨h, h', h1⟩
    cases x <;> simp_all [Prob]

theorem ends_iff (a b : Fl) : Ends a b ↔ a < b := by
  constructor
  · rintro ⟨e, f, h, rfl, rfl⟩; simpa using h
  · intro h
    have ha : a ≠ nan := by rintro rfl; simp at h
    have hb : b ≠ nan := by rintro rfl; simp at h
    obtain ⟨e, rfl⟩ := exists_ofE ha
    obtain ⟨f, rfl⟩ := exists_ofE hb
    exact ⟨e, f, by simpa using h, rfl, rfl⟩

variable [Lib]

/-- a number that is at least `c` -/
def AtLeast (c : ℝ) (x : Fl) : Prop := ∃ e : EReal, (c : EReal) ≤ e ∧ x = ofE e

theorem atLeast_iff (c : ℝ) (x : Fl) : AtLeast c x ↔ x ≠ nan ∧ ¬ fin c > x := by
  constructor
  · rintro ⟨e, h, rfl⟩
    refine ⟨ofE_ne_nan _, ?_⟩
    simpa using h
  · rintro ⟨h, h'⟩
    obtain ⟨e, rfl⟩ := exists_ofE h
    exact ⟨e, by simpa using h', rfl⟩

theorem eps_lt_pos {x : Fl} (h : x ≠ nan) (h' : ¬ eps > x) : Pos x := by
  rw [pos_iff]
  have := Lib.eps_pos
  cases x <;> simp_all [eps]
  linarith

theorem bern_ok_iff (p : Fl) : bern_ok p ↔ Prob p := by
  rw [prob_iff, bern_ok]
  cases p <;> simp
theorem radem_ok_iff (p : Fl) : radem_ok p ↔ Prob p := bern_ok_iff p
theorem prob_val_ok_iff (p : Fl) : prob_val_ok p ↔ Prob p := by
  rw [prob_iff, prob_val_ok]; rfl
theorem norm_ok_iff (mu sigma : Fl) : norm_ok mu sigma ↔ LocScale mu sigma := by
  rw [LocScale, nonNeg_iff, norm_ok, Num]; simp only [isNan_iff]; tauto
theorem cauchy_ok_iff (mu sigma : Fl) : cauchy_ok mu sigma ↔ LocScale mu sigma := norm_ok_iff _ _
theorem laplace_ok_iff (mu sigma : Fl) : laplace_ok mu sigma ↔ LocScale mu sigma := norm_ok_iff _ _
theorem lnorm_ok_iff (mu sigma : Fl) : lnorm_ok mu sigma ↔ LocScale mu sigma := norm_ok_iff _ _
theorem logis_ok_iff (mu sigma : Fl) : logis_ok mu sigma ↔ LocScale mu sigma := norm_ok_iff _ _
theorem beta_ok_iff (a b : Fl) : beta_ok a b ↔ TwoNonNeg a b := by
  rw [TwoNonNeg, nonNeg_iff, nonNeg_iff, beta_ok]; simp only [isNan_iff]; tauto
theorem invgamma_ok_iff (a b : Fl) : invgamma_ok a b ↔ TwoNonNeg a b := beta_ok_iff a b
theorem invgauss_ok_iff (a b : Fl) : invgauss_ok a b ↔ TwoNonNeg a b := beta_ok_iff a b
theorem exp_ok_iff (a : Fl) : exp_ok a ↔ NonNeg a := by
  rw [nonNeg_iff, exp_ok]; rfl
theorem pois_ok_iff (a : Fl) : pois_ok a ↔ NonNeg a := exp_ok_iff a
theorem chisq_ok_iff (a : Fl) : chisq_ok a ↔ NonNeg a := exp_ok_iff a
theorem binom_ok_iff (n : ℤ) (p : Fl) : binom_ok n p ↔ Trials n p := by
  rw [Trials, prob_iff, binom_ok]
  cases p <;> simp
theorem unif_ok_iff (a b : Fl) : unif_ok a b ↔ Ends a b := by
  rw [ends_iff, unif_ok]
  cases a <;> cases b <;> simp
/-! For these the code asks for at least machine epsilon; only one direction holds. -/
theorem f_ok_imp {a b : Fl} (h : f_ok a b) : TwoPos a b :=
  ⟨eps_lt_pos (fun e => h.1 (Or.inl e)) h.2.1, eps_lt_pos (fun e => h.1 (Or.inr e)) h.2.2⟩
theorem weibull_ok_imp {a b : Fl} (h : weibull_ok a b) : TwoPos a b :=
  ⟨eps_lt_pos (fun e => h.1 (Or.inl e)) h.2.1, eps_lt_pos (fun e => h.1 (Or.inr e)) h.2.2⟩
theorem gamma_ok_imp {a b : Fl} (h : gamma_ok a b) : ShapeScale a b :=
  ⟨(nonNeg_iff a).2 ⟨fun e => h.1 (Or.inl e), h.2.1⟩,
    eps_lt_pos (fun e => h.1 (Or.inr e)) h.2.2⟩
theorem t_ok_imp {a : Fl} (h : t_ok a) : Pos a := eps_lt_pos h.1 h.2


theorem gamma_ok_iff (a b : Fl) : gamma_ok a b ↔ NonNeg a ∧ AtLeast Lib.eps b := by
  rw [nonNeg_iff, atLeast_iff, gamma_ok]; simp only [isNan_iff, eps]; tauto
theorem f_ok_iff (a b : Fl) : f_ok a b ↔ AtLeast Lib.eps a ∧ AtLeast Lib.eps b := by
  rw [atLeast_iff, atLeast_iff, f_ok]; simp only [isNan_iff, eps]; tauto
theorem weibull_ok_iff (a b : Fl) : weibull_ok a b ↔ AtLeast Lib.eps a ∧ AtLeast Lib.eps b :=
  f_ok_iff a b
theorem t_ok_iff (a : Fl) : t_ok a ↔ AtLeast Lib.eps a := by
  rw [atLeast_iff, t_ok]; rfl

end Stats
