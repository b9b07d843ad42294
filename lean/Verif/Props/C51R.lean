import Verif.Props.C28
import Verif.Props.C51
import Verif.Lemmas.Meets

/-!
# C51: the generators scale draw by draw

From every engine state the generator with the scaled parameters returns the scaled variate and leaves the same state;
exact arithmetic.
-/

set_option linter.unusedSectionVars false
open Classical
namespace Stats
open Fl Spec
variable [Lib] [Ideal] {S : Type*} [Engine S] [NextLib]

theorem scaledRand_inv {q₀ q : Fl → Fl} {r₀ r : S → Fl × S} {mu sigma : ℝ} (hq : ScaledQuant q₀ q mu sigma)
    (h0 : ∀ s, r₀ s = (q₀ (runif 0 1 s).1, (runif 0 1 s).2)) (h : ∀ s, r s = (q (runif 0 1 s).1, (runif 0 1 s).2)) :
    ScaledRand r₀ r mu sigma := by
  intro s
  obtain ⟨u, s1, e, hu0, hu1⟩ := runif_cases s
  obtain ⟨x, h2, h3⟩ := hq u hu0 hu1
  refine ⟨x, s1, ?_, ?_⟩
  · rw [h0, zero_eq, one_eq, e]; simp only [h2]
  · rw [h, zero_eq, one_eq, e]; simp only [h3]

theorem C51_rnorm (mu : ℝ) {sigma : ℝ} (h : 0 ≤ sigma) :
    ScaledRand (S := S) (rnorm (fin 0) (fin 1)) (rnorm (fin mu) (fin sigma)) mu sigma := by
  intro s
  refine ⟨(Engine.norm s).1, (Engine.norm s).2, ?_, ?_⟩
  · rw [rnorm_fin 0 zero_le_one (show Engine.norm s = ((Engine.norm s).1, (Engine.norm s).2) from rfl)]
    simp
  · rw [rnorm_fin mu h (show Engine.norm s = ((Engine.norm s).1, (Engine.norm s).2) from rfl)]
example : ScaledRand (S := S) (rnorm (fin 0) (fin 1)) (rnorm (fin 3) (fin 2)) 3 2 :=
  C51_rnorm (mu := 3) (sigma := 2) (h := by meets)

theorem C51_rcauchy (mu : ℝ) {sigma : ℝ} (h : 0 < sigma) :
    ScaledRand (S := S) (rcauchy (fin 0) (fin 1)) (rcauchy (fin mu) (fin sigma)) mu sigma :=
  scaledRand_inv (C40_qcauchy_scale mu h) (fun s => by rw [rcauchy, if_neg (by simp [cauchy_ok])])
    fun s => by rw [rcauchy, if_neg (by simp [cauchy_ok, h.le])]
example : ScaledRand (S := S) (rcauchy (fin 0) (fin 1)) (rcauchy (fin 3) (fin 2)) 3 2 :=
  C51_rcauchy (mu := 3) (sigma := 2) (h := by meets)

theorem C51_rlaplace (mu : ℝ) {sigma : ℝ} (h : 0 < sigma) :
    ScaledRand (S := S) (rlaplace (fin 0) (fin 1)) (rlaplace (fin mu) (fin sigma)) mu sigma :=
  scaledRand_inv (C40_qlaplace_scale mu h) (fun s => by rw [rlaplace, if_neg (by simp [laplace_ok])])
    fun s => by rw [rlaplace, if_neg (by simp [laplace_ok, h.le])]
example : ScaledRand (S := S) (rlaplace (fin 0) (fin 1)) (rlaplace (fin 3) (fin 2)) 3 2 :=
  C51_rlaplace (mu := 3) (sigma := 2) (h := by meets)

theorem C51_rlogis (mu : ℝ) {sigma : ℝ} (h : 0 < sigma) :
    ScaledRand (S := S) (rlogis (fin 0) (fin 1)) (rlogis (fin mu) (fin sigma)) mu sigma :=
  scaledRand_inv (C40_qlogis_scale mu h) (fun s => by rw [rlogis, if_neg (by simp [logis_ok])])
    fun s => by rw [rlogis, if_neg (by simp [logis_ok, h.le])]
example : ScaledRand (S := S) (rlogis (fin 0) (fin 1)) (rlogis (fin 3) (fin 2)) 3 2 :=
  C51_rlogis (mu := 3) (sigma := 2) (h := by meets)

theorem C51_rexp {rate c : ℝ} (h : 0 < rate) (hc : 0 < c) :
    ScaledRand (S := S) (rexp (fin rate)) (rexp (fin (rate / c))) 0 c :=
  scaledRand_inv (C51_qexp h hc) (fun s => by rw [rexp, if_neg (by simp [exp_ok, h.le])])
    fun s => by rw [rexp, if_neg (by simp [exp_ok, (div_pos h hc).le])]
example : ScaledRand (S := S) (rexp (fin 2)) (rexp (fin (2 / 2))) 0 2 :=
  C51_rexp (rate := 2) (c := 2) (h := by meets) (hc := by meets)

theorem C51_rweibull {shape scale c : ℝ} (hk : Lib.eps ≤ shape) (hs : Lib.eps ≤ scale) (hc : 0 < c)
    (hs' : Lib.eps ≤ c * scale) :
    ScaledRand (S := S) (rweibull (fin shape) (fin scale)) (rweibull (fin shape) (fin (c * scale))) 0 c :=
  scaledRand_inv (C51_qweibull hk hs hc hs') (fun s => by rw [rweibull, if_neg (by simp [weibull_ok, eps, hk, hs])])
    fun s => by rw [rweibull, if_neg (by simp [weibull_ok, eps, hk, hs'])]
example : ScaledRand (S := S) (rweibull (fin 3) (fin 2)) (rweibull (fin 3) (fin (2 * 2))) 0 2 :=
  C51_rweibull (shape := 3) (scale := 2) (c := 2) (hk := by meets) (hs := by meets) (hc := by meets) (hs' := by meets)

theorem C51_rlnorm (mu : ℝ) {sigma c : ℝ} (h : 0 ≤ sigma) (hc : 0 < c) :
    ScaledRand (S := S) (rlnorm (fin mu) (fin sigma)) (rlnorm (fin (mu + Real.log c)) (fin sigma)) 0 c := by
  intro s
  have e := fun m => rnorm_fin m h (show Engine.norm s = ((Engine.norm s).1, (Engine.norm s).2) from rfl)
  refine ⟨Real.exp (mu + sigma * (Engine.norm s).1), (Engine.norm s).2, ?_, ?_⟩
  · rw [rlnorm, if_neg (by simp [lnorm_ok, h])]
    simp only [e, ideal]
  · rw [rlnorm, if_neg (by simp [lnorm_ok, h])]
    simp only [e, ideal, zero_add]
    rw [show mu + Real.log c + sigma * (Engine.norm s).1 = mu + sigma * (Engine.norm s).1 + Real.log c by ring,
      Real.exp_add, Real.exp_log hc, mul_comm]
example : ScaledRand (S := S) (rlnorm (fin 3) (fin 2)) (rlnorm (fin (3 + Real.log 2)) (fin 2)) 0 2 :=
  C51_rlnorm (mu := 3) (sigma := 2) (c := 2) (h := by meets) (hc := by meets)

/-! ### gamma -/

theorem rgamma_rec_scale {shape scale c : ℝ} (hk : 0 < shape) (hs : Lib.eps ≤ scale) (hs' : Lib.eps ≤ c * scale)
    (n : ℕ) (s : S) {v : Fl × S} (h : rgamma_rec n (fin shape) (fin scale) s = some v) :
    ∃ x : ℝ, v.1 = fin x ∧ rgamma_rec n (fin shape) (fin (c * scale)) s = some (fin (c * x), v.2) := by
  induction n generalizing shape s v with
  | zero => simp [rgamma_rec] at h
  | succ n ih =>
    rcases le_or_gt shape 1 with h1 | h1
    · obtain ⟨u, s1, e, h0, -⟩ := runif_cases s
      rw [rgamma_rec_small hk h1 hs n e h0, Option.map_eq_some_iff] at h
      obtain ⟨g, hg, rfl⟩ := h
      obtain ⟨x, hx, hx'⟩ := ih (by linarith) _ hg
      refine ⟨x * u ^ (1 / shape), by simp only [hx, ideal], ?_⟩
      rw [rgamma_rec_small hk h1 hs' n e h0, hx']
      simp only [Option.map_some, ideal, mul_assoc]
    · rw [rgamma_rec_big h1 hs, Option.map_eq_some_iff] at h
      obtain ⟨g, hg, rfl⟩ := h
      obtain ⟨k, hk⟩ := runFuel_eq_some hg
      have hd : 0 < shape - 1 / 3 := by linarith
      obtain ⟨r, hr, e⟩ := rgamma_loop_real (by have := Real.sqrt_pos.2 hd; positivity) k s hk
      refine ⟨(shape - 1 / 3) * r * scale, by simp only [e, ideal], ?_⟩
      rw [rgamma_rec_big h1 hs', hg]
      simp only [Option.map_some, e, ideal]
      rw [show (shape - 1 / 3) * r * (c * scale) = c * ((shape - 1 / 3) * r * scale) by ring]

theorem C51_rgamma {shape scale c : ℝ} (hk : 0 < shape) (hs : Lib.eps ≤ scale) (hc : 0 < c)
    (hs' : Lib.eps ≤ c * scale) :
    ScaledRandO (S := S) (rgamma (fin shape) (fin scale)) (rgamma (fin shape) (fin (c * scale))) c := by
  intro s
  cases h : rgamma (fin shape) (fin scale) s with
  | none =>
    refine Or.inl ⟨rfl, ?_⟩
    by_contra hn
    obtain ⟨w, hw⟩ := Option.ne_none_iff_exists'.1 hn
    obtain ⟨n, hn⟩ := runFuel_eq_some hw
    have e : c⁻¹ * (c * scale) = scale := by field_simp
    obtain ⟨x, -, hx⟩ := rgamma_rec_scale (c := c⁻¹) hk hs' (by rwa [e]) n s hn
    rw [e] at hx
    have := runFuel_eq (rgamma_rec_mono (fin shape) (fin scale) s) hx
    rw [rgamma, this] at h
    cases h
  | some v =>
    obtain ⟨n, hn⟩ := runFuel_eq_some h
    obtain ⟨x, hx, hx'⟩ := rgamma_rec_scale hk hs hs' n s hn
    exact Or.inr ⟨x, v.2, by rw [← hx], runFuel_eq (rgamma_rec_mono _ _ s) hx'⟩
example : ScaledRandO (S := S) (rgamma (fin 3) (fin 2)) (rgamma (fin 3) (fin (2 * 2))) 2 :=
  C51_rgamma (shape := 3) (scale := 2) (c := 2) (hk := by meets) (hs := by meets) (hc := by meets) (hs' := by meets)

theorem C51_rinvgamma {shape rate c : ℝ} (hk : 0 < shape) (hr : 0 < rate) (hc : 0 < c) (h1 : Lib.eps ≤ 1 / rate)
    (h2 : Lib.eps ≤ 1 / (c * rate)) :
    ScaledRandO (S := S) (rinvgamma (fin shape) (fin rate)) (rinvgamma (fin shape) (fin (c * rate))) c := by
  intro s
  have hcr : 0 < c * rate := by positivity
  have e : c⁻¹ * (1 / rate) = 1 / (c * rate) := by field_simp
  have key := C51_rgamma (S := S) hk h1 (inv_pos.2 hc) (by rwa [e]) s
  rw [e] at key
  have o1 : ¬ ¬ invgamma_ok (fin shape) (fin rate) := by simp [invgamma_ok, hk.le, hr.le]
  have o2 : ¬ ¬ invgamma_ok (fin shape) (fin (c * rate)) := by simp [invgamma_ok, hk.le, hcr.le]
  rw [rinvgamma, rinvgamma, if_neg o1, if_neg o2]
  simp only [ideal, ifin_div _ hr.ne', ifin_div _ hcr.ne']
  rcases key with ⟨k1, k2⟩ | ⟨x, s', k1, k2⟩
  · exact Or.inl (by rw [k1, k2]; exact ⟨rfl, rfl⟩)
  · have hx : 0 < x := by
      obtain ⟨r, hr, e⟩ := C28_rgamma hk h1 s k1
      cases e; exact hr
    have hx' : 0 < c⁻¹ * x := by positivity
    refine Or.inr ⟨1 / x, s', ?_, ?_⟩
    · rw [k1]; simp only [Option.map_some, ifin_div _ hx.ne']
    · rw [k2]; simp only [Option.map_some, ifin_div _ hx'.ne']
      rw [show 1 / (c⁻¹ * x) = c * (1 / x) by field_simp]
example : ScaledRandO (S := S) (rinvgamma (fin 3) (fin 2)) (rinvgamma (fin 3) (fin (2 * 2))) 2 :=
  C51_rinvgamma (shape := 3) (rate := 2) (c := 2) (hk := by meets) (hr := by meets) (hc := by meets) (h1 := by meets) (h2 := by meets)

/-! ### inverse Gaussian -/

theorem C51_rinvgauss {mu lambda c : ℝ} (hm : 0 < mu) (hl : 0 < lambda) (hc : 0 < c) :
    ScaledRand (S := S) (rinvgauss (fin mu) (fin lambda)) (rinvgauss (fin (c * mu)) (fin (c * lambda))) 0 c := by
  intro s
  obtain ⟨z, -, hz⟩ := C28_rnorm 0 zero_le_one s
  obtain ⟨u, s1, hu, h0, h1⟩ := runif_cases (rnorm (fin 0) (fin 1) s).2
  have key : ∀ {mu lambda : ℝ}, 0 < mu → 0 < lambda → rinvgauss (fin mu) (fin lambda) s =
      (fin (let x := mu + (mu * mu * (z * z) - mu * √(4 * mu * lambda * (z * z) + mu * mu * (z * z) * (z * z))) /
        (2 * lambda); if u ≤ mu / (mu + x) then x else mu * mu / x), s1) := by
    intro mu lambda hm hl
    have hp := invgaussRoot_pos hm hl (mul_self_nonneg z)
    rw [rinvgauss]
    have h2 : 2 * lambda ≠ 0 := by linarith
    have h3 : 0 ≤ 4 * mu * lambda * (z * z) + mu * mu * (z * z) * (z * z) := by
      have := mul_self_nonneg z; positivity
    simp only [zero_eq, one_eq, ofNat_eq, hz, hu, ideal, isqrt h3, ifin_div _ h2, ifin_div _ hp.ne',
      ifin_div _ (add_pos hm hp).ne', fin_le_fin]
    split_ifs <;> rfl
  have hp := invgaussRoot_pos hm hl (mul_self_nonneg z)
  refine ⟨_, s1, key hm hl, ?_⟩
  rw [key (by positivity) (by positivity)]
  have e1 : √(4 * (c * mu) * (c * lambda) * (z * z) + c * mu * (c * mu) * (z * z) * (z * z)) =
      c * √(4 * mu * lambda * (z * z) + mu * mu * (z * z) * (z * z)) := by
    rw [show 4 * (c * mu) * (c * lambda) * (z * z) + c * mu * (c * mu) * (z * z) * (z * z) =
      c ^ 2 * (4 * mu * lambda * (z * z) + mu * mu * (z * z) * (z * z)) by ring,
      Real.sqrt_mul (by positivity), Real.sqrt_sq hc.le]
  have e2 : c * mu + (c * mu * (c * mu) * (z * z) - c * mu * (c * √(4 * mu * lambda * (z * z) + mu * mu * (z * z) *
      (z * z)))) / (2 * (c * lambda)) = c * (mu + (mu * mu * (z * z) - mu * √(4 * mu * lambda * (z * z) +
      mu * mu * (z * z) * (z * z))) / (2 * lambda)) := by
    field_simp
  simp only [e1, e2, zero_add]
  set x := mu + (mu * mu * (z * z) - mu * √(4 * mu * lambda * (z * z) + mu * mu * (z * z) * (z * z))) / (2 * lambda)
  have e3 : c * mu / (c * mu + c * x) = mu / (mu + x) := by rw [← mul_add, mul_div_mul_left _ _ hc.ne']
  have e4 : c * mu * (c * mu) / (c * x) = c * (mu * mu / x) := by field_simp
  rw [e3, e4]
  split_ifs <;> rfl
example : ScaledRand (S := S) (rinvgauss (fin 3) (fin 2)) (rinvgauss (fin (2 * 3)) (fin (2 * 2))) 0 2 :=
  C51_rinvgauss (mu := 3) (lambda := 2) (c := 2) (hm := by meets) (hl := by meets) (hc := by meets)

end Stats
