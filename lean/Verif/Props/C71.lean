import Verif.Props.C70
import Mathlib.Analysis.Convex.SpecificFunctions.Basic
import Mathlib.Analysis.Convex.SpecificFunctions.Deriv
import Mathlib.Analysis.SpecialFunctions.Log.Deriv

/-!
# C71: log-concave densities
-/

set_option linter.unusedSectionVars false
open Classical
namespace Stats
open Fl Spec

section
variable [Lib] [Ideal]

theorem logConcave_of {d : Fl → Bool → Fl} {f : ℝ → ℝ} {s : Set ℝ} (h : IsDensityOn d f s) {c : ℝ} {g : ℝ → ℝ}
    (e : ∀ x ∈ s, f x = c * Real.exp (g x)) (hg : ConcaveOn ℝ s g) : LogConcave d s := by
  intro x hx y hy r t hr ht hrt
  have hz : r * x + t * y ∈ s := hg.1 hx hy hr ht hrt
  refine ⟨_, _, _, dens_both h hx, dens_both h hy, dens_both h hz, ?_⟩
  have c0 : 0 < c := by
    have a := (h x hx).1
    rw [e x hx] at a
    exact pos_of_mul_pos_left a (Real.exp_pos _).le
  have l : ∀ z ∈ s, Real.log (f z) = Real.log c + g z := fun z hz => by
    rw [e z hz, Real.log_mul c0.ne' (Real.exp_pos _).ne', Real.log_exp]
  rw [l x hx, l y hy, l _ hz]
  have := hg.2 hx hy hr ht hrt
  simp only [smul_eq_mul] at this
  have e1 : r * (Real.log c + g x) + t * (Real.log c + g y) = (r + t) * Real.log c + (r * g x + t * g y) := by ring
  rw [e1, hrt]; linarith

theorem concave_neg_sq (mu : ℝ) {v : ℝ} (h : 0 < v) : ConcaveOn ℝ Set.univ fun x : ℝ => -((x - mu) ^ 2) / v := by
  refine ⟨convex_univ, fun x _ y _ a b ha hb hab => ?_⟩
  simp only [smul_eq_mul]
  have e : a * (-((x - mu) ^ 2) / v) + b * (-((y - mu) ^ 2) / v) = (a * (-((x - mu) ^ 2)) + b * (-((y - mu) ^ 2))) / v := by ring
  rw [e]
  refine div_le_div_of_nonneg_right ?_ h.le
  obtain rfl : b = 1 - a := by linarith
  nlinarith [mul_nonneg (mul_nonneg ha hb) (sq_nonneg (x - y))]

theorem C71_norm (mu : ℝ) {sigma : ℝ} (h : 0 < sigma) : LogConcave (fun x => dnorm x (fin mu) (fin sigma)) Set.univ :=
  logConcave_of (C08_dnorm mu h) (fun x _ => rfl) (concave_neg_sq mu (by positivity))
example : LogConcave (fun x => dnorm x (fin 1) (fin 2)) Set.univ := C71_norm 1 (by norm_num)

theorem C71_laplace (mu : ℝ) {sigma : ℝ} (h : 0 < sigma) : LogConcave (fun x => dlaplace x (fin mu) (fin sigma)) Set.univ := by
  refine logConcave_of (C08_dlaplace mu h) (fun x _ => rfl) ⟨convex_univ, fun x _ y _ a b ha hb hab => ?_⟩
  simp only [smul_eq_mul]
  have e : a * (-|x - mu| / sigma) + b * (-|y - mu| / sigma) = (-(|a * (x - mu)| + |b * (y - mu)|)) / sigma := by
    rw [abs_mul, abs_mul, abs_of_nonneg ha, abs_of_nonneg hb]; ring
  rw [e]
  refine div_le_div_of_nonneg_right (neg_le_neg ?_) h.le
  have e2 : a * x + b * y - mu = a * (x - mu) + b * (y - mu) := by
    obtain rfl : b = 1 - a := by linarith
    ring
  rw [e2]
  exact abs_add_le _ _
example : LogConcave (fun x => dlaplace x (fin 1) (fin 2)) Set.univ := C71_laplace 1 (by norm_num)

/-- the softplus function is convex -/
theorem convex_softplus : ConvexOn ℝ Set.univ fun x : ℝ => Real.log (1 + Real.exp x) := by
  have hd : ∀ x : ℝ, HasDerivAt (fun x : ℝ => Real.log (1 + Real.exp x)) (Real.exp x / (1 + Real.exp x)) x := fun x =>
    ((Real.hasDerivAt_exp x).const_add 1).log (by positivity)
  refine MonotoneOn.convexOn_of_deriv convex_univ (fun x _ => (hd x).continuousAt.continuousWithinAt)
    (fun x _ => (hd x).differentiableAt.differentiableWithinAt) fun x _ y _ hxy => ?_
  rw [(hd x).deriv, (hd y).deriv, div_le_div_iff₀ (by positivity) (by positivity)]
  nlinarith [Real.exp_le_exp.2 hxy]

theorem C71_logis (mu : ℝ) {sigma : ℝ} (h : 0 < sigma) : LogConcave (fun x => dlogis x (fin mu) (fin sigma)) Set.univ := by
  refine logConcave_of (C08_dlogis mu h) (c := 1 / sigma)
    (g := fun x => -((x - mu) / sigma) - 2 * Real.log (1 + Real.exp (-((x - mu) / sigma)))) (fun x _ => ?_)
    ⟨convex_univ, fun x _ y _ a b ha hb hab => ?_⟩
  · have p : 0 < 1 + Real.exp (-((x - mu) / sigma)) := by positivity
    rw [logisPdf, Real.exp_sub, show 2 * Real.log (1 + Real.exp (-((x - mu) / sigma))) =
      Real.log ((1 + Real.exp (-((x - mu) / sigma))) ^ 2) by rw [Real.log_pow]; norm_num, Real.exp_log (by positivity)]
    field_simp
  · have e : -((a * x + b * y - mu) / sigma) = a * (-((x - mu) / sigma)) + b * (-((y - mu) / sigma)) := by
      obtain rfl : b = 1 - a := by linarith
      field_simp; ring
    have := convex_softplus.2 (Set.mem_univ (-((x - mu) / sigma))) (Set.mem_univ (-((y - mu) / sigma))) ha hb hab
    simp only [smul_eq_mul] at this ⊢
    rw [e]
    linarith
example : LogConcave (fun x => dlogis x (fin 1) (fin 2)) Set.univ := C71_logis 1 (by norm_num)

theorem C71_exp {rate : ℝ} (h : 0 < rate) : LogConcave (fun x => dexp x (fin rate)) (Set.Ici 0) := by
  refine logConcave_of (C08_dexp h) (fun x hx => if_pos hx) ⟨convex_Ici 0, fun x _ y _ a b ha hb hab => ?_⟩
  simp only [smul_eq_mul]
  nlinarith
example : LogConcave (fun x => dexp x (fin 2)) (Set.Ici 0) := C71_exp (by norm_num)

theorem C71_unif {a b : ℝ} (h : a < b) : LogConcave (fun x => dunif x (fin a) (fin b)) (Set.Icc a b) := by
  refine logConcave_of (C08_dunif h) (c := 1 / (b - a)) (g := fun _ => 0) (fun x hx => ?_) (concaveOn_const 0 (convex_Icc a b))
  rw [unifPdf, if_pos ⟨hx.1, hx.2⟩, Real.exp_zero, mul_one]
example : LogConcave (fun x => dunif x (fin 1) (fin 2)) (Set.Icc 1 2) := C71_unif (by norm_num)

theorem concave_mul_log {k : ℝ} (h : 0 ≤ k) : ConcaveOn ℝ (Set.Ioi 0) fun x : ℝ => k * Real.log x :=
  strictConcaveOn_log_Ioi.concaveOn.smul h

theorem concave_neg_div (θ : ℝ) : ConcaveOn ℝ (Set.Ioi 0) fun x : ℝ => -(x / θ) :=
  ⟨convex_Ioi 0, fun x _ y _ a b _ _ _ => le_of_eq (by simp only [smul_eq_mul]; ring)⟩

theorem C71_gamma {shape scale : ℝ} (hk : 1 ≤ shape) (hs : Lib.eps ≤ scale) :
    LogConcave (fun x => dgamma x (fin shape) (fin scale)) (Set.Ioi 0) :=
  logConcave_of (C08_dgamma (by linarith) hs) (gammaPdf_exp _ _) ((concave_mul_log (by linarith)).add (concave_neg_div scale))
example : LogConcave (fun x => dgamma x (fin 3) (fin 2)) (Set.Ioi 0) := C71_gamma (by norm_num) (by meets)

theorem C71_chisq {dof : ℝ} (hk : 2 ≤ dof) : LogConcave (fun x => dchisq x (fin dof)) (Set.Ioi 0) := by
  refine logConcave_of (C08_dchisq (by linarith)) (c := 1 / (2 ^ (dof / 2) * Real.Gamma (dof / 2)))
    (g := fun x => (dof / 2 - 1) * Real.log x - x / 2) (fun x hx => ?_)
    ((concave_mul_log (by linarith)).add (concave_neg_div 2))
  rw [← gammaPdf_exp (dof / 2) 2 x hx, chisqPdf, gammaPdf]
example : LogConcave (fun x => dchisq x (fin 3)) (Set.Ioi 0) := C71_chisq (by norm_num)

theorem C71_beta {a b : ℝ} (ha : 1 ≤ a) (hb : 1 ≤ b) : LogConcave (fun x => dbeta x (fin a) (fin b)) (Set.Ioo 0 1) := by
  refine logConcave_of (C08_dbeta (by linarith) (by linarith)) (betaPdf_exp a b) (ConcaveOn.add ?_ ?_)
  · exact (concave_mul_log (k := a - 1) (by linarith)).subset (fun x hx => hx.1) (convex_Ioo 0 1)
  · refine ⟨convex_Ioo 0 1, fun x hx y hy r t hr ht hrt => ?_⟩
    have := (concave_mul_log (k := b - 1) (by linarith)).2 (show 1 - x ∈ Set.Ioi (0 : ℝ) from by have := hx.2; simp; linarith)
      (show 1 - y ∈ Set.Ioi (0 : ℝ) from by have := hy.2; simp; linarith) hr ht hrt
    simp only [smul_eq_mul] at this ⊢
    rwa [show r * (1 - x) + t * (1 - y) = 1 - (r * x + t * y) by
      obtain rfl : t = 1 - r := by linarith
      ring] at this
example : LogConcave (fun x => dbeta x (fin 3) (fin 2)) (Set.Ioo 0 1) := C71_beta (by norm_num) (by norm_num)

theorem C71_weibull {shape scale : ℝ} (hk : 1 ≤ shape) (hs : Lib.eps ≤ scale) :
    LogConcave (fun x => dweibull x (fin shape) (fin scale)) (Set.Ioi 0) := by
  have s0 := Lib.eps_pos.trans_le hs
  have e1 : Lib.eps ≤ shape := by have := Lib.eps_le; norm_num at this; linarith
  refine logConcave_of (C08_dweibull e1 hs) (c := shape / scale * (1 / scale) ^ (shape - 1))
    (g := fun x => (shape - 1) * Real.log x + -((1 / scale) ^ shape * x ^ shape)) (fun x hx => ?_)
    ((concave_mul_log (by linarith)).add ?_)
  · have hx : 0 < x := hx
    rw [weibullPdf, if_pos hx, div_eq_mul_one_div x scale, Real.mul_rpow hx.le (by positivity), Real.mul_rpow hx.le (by positivity),
      Real.exp_add, mul_comm (shape - 1) (Real.log x), ← Real.rpow_def_of_pos hx, mul_comm ((1 / scale) ^ shape)]
    ring
  · have := ((convexOn_rpow hk).subset Set.Ioi_subset_Ici_self (convex_Ioi 0)).smul (show 0 ≤ (1 / scale) ^ shape by positivity)
    exact this.neg
example : LogConcave (fun x => dweibull x (fin 3) (fin 2)) (Set.Ioi 0) := C71_weibull (by norm_num) (by meets)

/-! ### discrete families -/

theorem logConcaveInt_of {d : ℤ → Bool → Fl} {f : ℤ → ℝ} (h : ∀ x, IsValue (d x) (f x))
    (hf : ∀ x, f (x - 1) * f (x + 1) ≤ f x ^ 2) : LogConcaveInt d := fun x =>
  ⟨_, _, _, (h (x - 1)).2.1, (h x).2.1, (h (x + 1)).2.1, hf x⟩

theorem C71_pois {rate : ℝ} (h0 : 0 ≤ rate) : LogConcaveInt (fun x => dpois x (fin rate)) := by
  refine logConcaveInt_of (C08_dpois h0) fun x => ?_
  by_cases c : 0 ≤ x - 1
  · obtain ⟨k, hk⟩ : ∃ k : ℕ, x = k + 1 := ⟨(x - 1).toNat, by omega⟩
    subst hk
    simp only [poisPmf]
    rw [if_pos (by omega), if_pos (by omega), if_pos (by omega), show ((k : ℤ) + 1 - 1).toNat = k by omega,
      show ((k : ℤ) + 1 + 1).toNat = k + 2 by omega, show ((k : ℤ) + 1).toNat = k + 1 by omega]
    have e : ((k + 2).factorial : ℝ) = (k + 2) * ((k + 1) * k.factorial) := by
      rw [Nat.factorial_succ, Nat.factorial_succ]; push_cast; ring
    have e' : ((k + 1).factorial : ℝ) = (k + 1) * k.factorial := by rw [Nat.factorial_succ]; push_cast; ring
    rw [e, e', div_mul_div_comm, div_pow, div_le_div_iff₀ (by positivity) (by positivity)]
    have hp : 0 ≤ rate ^ (2 * k + 2) * Real.exp (-rate) ^ 2 * (k.factorial : ℝ) ^ 2 * (k + 1) := by positivity
    have e3 : rate ^ k * Real.exp (-rate) * (rate ^ (k + 2) * Real.exp (-rate)) * ((k + 1) * (k.factorial : ℝ)) ^ 2 =
      rate ^ (2 * k + 2) * Real.exp (-rate) ^ 2 * (k.factorial : ℝ) ^ 2 * (k + 1) * (k + 1) := by ring
    have e4 : (rate ^ (k + 1) * Real.exp (-rate)) ^ 2 * ((k.factorial : ℝ) * ((k + 2) * ((k + 1) * k.factorial))) =
      rate ^ (2 * k + 2) * Real.exp (-rate) ^ 2 * (k.factorial : ℝ) ^ 2 * (k + 1) * (k + 2) := by ring
    rw [e3, e4]
    exact mul_le_mul_of_nonneg_left (by linarith) hp
  · have : poisPmf rate (x - 1) = 0 := if_neg c
    rw [this, zero_mul]; positivity
example : LogConcaveInt (fun x => dpois x (fin 2)) := C71_pois (by norm_num)

theorem choose_logconcave (n k : ℕ) : n.choose k * n.choose (k + 2) ≤ n.choose (k + 1) ^ 2 := by
  have h1 := Nat.choose_succ_right_eq n k
  have h2 := Nat.choose_succ_right_eq n (k + 1)
  -- C(n,k+1)(k+1) = C(n,k)(n-k), C(n,k+2)(k+2) = C(n,k+1)(n-k-1)
  rcases Nat.lt_or_ge n (k + 2) with h | h
  · rw [Nat.choose_eq_zero_of_lt h, mul_zero]; exact Nat.zero_le _
  have hpos : 0 < (n - k) * (k + 2) := Nat.mul_pos (by omega) (by omega)
  refine Nat.le_of_mul_le_mul_right ?_ hpos
  calc n.choose k * n.choose (k + 2) * ((n - k) * (k + 2)) = (n.choose k * (n - k)) * (n.choose (k + 2) * (k + 2)) := by ring
    _ = (n.choose (k + 1) * (k + 1)) * (n.choose (k + 1) * (n - (k + 1))) := by rw [← h1, ← h2]
    _ = n.choose (k + 1) ^ 2 * ((n - (k + 1)) * (k + 1)) := by ring
    _ ≤ n.choose (k + 1) ^ 2 * ((n - k) * (k + 2)) := by gcongr <;> omega

theorem C71_binom (n : ℕ) {p : ℝ} (h0 : 0 ≤ p) (h1 : p ≤ 1) : LogConcaveInt (fun x => dbinom x n (fin p)) := by
  refine logConcaveInt_of (C08_dbinom n h0 h1) fun x => ?_
  have q0 : 0 ≤ 1 - p := by linarith
  by_cases c : 0 ≤ x - 1 ∧ x + 1 ≤ n
  · obtain ⟨k, hk⟩ : ∃ k : ℕ, x = k + 1 := ⟨(x - 1).toNat, by omega⟩
    subst hk
    obtain ⟨m, rfl⟩ : ∃ m, n = k + 2 + m := ⟨n - (k + 2), by omega⟩
    simp only [binomPmf]
    rw [if_pos (by omega), if_pos (by omega), if_pos (by omega), show ((k : ℤ) + 1 - 1).toNat = k by omega,
      show ((k : ℤ) + 1 + 1).toNat = k + 2 by omega, show ((k : ℤ) + 1).toNat = k + 1 by omega,
      show k + 2 + m - k = m + 2 by omega, show k + 2 + m - (k + 2) = m by omega, show k + 2 + m - (k + 1) = m + 1 by omega]
    have h : ((k + 2 + m).choose k : ℝ) * (k + 2 + m).choose (k + 2) ≤ (k + 2 + m).choose (k + 1) ^ 2 := by
      exact_mod_cast choose_logconcave (k + 2 + m) k
    have hp : 0 ≤ p ^ (2 * k + 2) * (1 - p) ^ (2 * m + 2) := by positivity
    calc _ = ((k + 2 + m).choose k : ℝ) * (k + 2 + m).choose (k + 2) * (p ^ (2 * k + 2) * (1 - p) ^ (2 * m + 2)) := by ring
      _ ≤ _ := mul_le_mul_of_nonneg_right h hp
      _ = _ := by ring
  · rcases not_and_or.1 c with c | c
    · have : binomPmf n p (x - 1) = 0 := if_neg (by omega)
      rw [this, zero_mul]; positivity
    · have : binomPmf n p (x + 1) = 0 := if_neg (by omega)
      rw [this, mul_zero]; positivity
example : LogConcaveInt (fun x => dbinom x (5 : ℕ) (fin (1 / 3))) := C71_binom 5 (by norm_num) (by norm_num)

/-! ### where it fails -/

/-- A gamma density with shape below 1 is not log-concave, so the restriction is needed. -/
theorem C71_gamma_not : ¬ LogConcave (fun x => dgamma x (fin (1 / 2)) (fin 1)) (Set.Ioi 0) := by
  intro h
  obtain ⟨a, b, c, h1, h2, h3, h4⟩ := h 1 (by simp) 4 (by simp) (1 / 2) (1 / 2) (by norm_num) (by norm_num) (by norm_num)
  have e1 : Lib.eps ≤ 1 := by have := Lib.eps_le; norm_num at this ⊢; linarith
  have hd := C08_dgamma (shape := 1 / 2) (scale := 1) (by norm_num) e1
  have e : ∀ x : ℝ, 0 < x → ∀ r, Both (dgamma (fin x) (fin (1 / 2)) (fin 1)) r →
      Real.log r = Real.log (gammaPdf (1 / 2) 1 x) := fun x hx r h => by
    have := h.2.2
    have e : dgamma (fin x) (fin (1 / 2)) (fin 1) true = fin (Real.log (gammaPdf (1 / 2) 1 x)) := (hd x hx).2.2
    rw [e] at this
    exact (fin.inj this).symm
  rw [e _ (by norm_num) _ h1, e _ (by norm_num) _ h2, e _ (by norm_num) _ h3] at h4
  have l : ∀ x : ℝ, 0 < x → Real.log (gammaPdf (1 / 2) 1 x) = Real.log (1 / ((1 : ℝ) ^ (1 / 2 : ℝ) * Real.Gamma (1 / 2))) +
      ((1 / 2 - 1) * Real.log x - x / 1) := fun x hx => by
    have hG := Real.Gamma_pos_of_pos (show (0 : ℝ) < 1 / 2 by norm_num)
    rw [gammaPdf_exp _ _ x hx, Real.log_mul (by positivity) (Real.exp_pos _).ne', Real.log_exp]
  rw [l _ (by norm_num), l _ (by norm_num), l _ (by norm_num)] at h4
  have e2 : (1 : ℝ) / 2 * 1 + 1 / 2 * 4 = 5 / 2 := by norm_num
  rw [e2, Real.log_one, show Real.log 4 = 2 * Real.log 2 by rw [show (4 : ℝ) = 2 ^ 2 by norm_num, Real.log_pow]; norm_num] at h4
  have h5 : Real.log 2 < Real.log (5 / 2) := Real.log_lt_log (by norm_num) (by norm_num)
  linarith

end
end Stats
