import Mathlib.RingTheory.Polynomial.Bernstein
import Mathlib.Analysis.Calculus.Deriv.Polynomial
import Verif.Props.C51
import Verif.Props.C08D
import Verif.Props.C21B
import Verif.Lemmas.Meets

/-!
# C51: reflections of the beta, F and finite discrete distributions, and the beta and gamma forms of the binomial and
Poisson distribution functions; exact arithmetic
-/

set_option linter.unusedSectionVars false
open Classical
namespace Stats
open Fl Spec
variable [Lib] [Ideal]

/-! ### beta: `x` to `1 - x` -/

theorem C51_dbeta_mirror {a b : ℝ} (ha : 0 < a) (hb : 0 < b) :
    MirrorDensOn (fun x => dbeta x (fin a) (fin b)) (fun x => dbeta x (fin b) (fin a)) (fun x => 1 - x) (fun _ => 1)
      (Set.Ioo 0 1) := by
  intro x hx
  have hx' : 1 - x ∈ Set.Ioo (0 : ℝ) 1 := ⟨by linarith [hx.2], by linarith [hx.1]⟩
  obtain ⟨-, h1, h2⟩ := C08_dbeta ha hb x hx
  obtain ⟨hp, h3, h4⟩ := C08_dbeta hb ha _ hx'
  rw [Lim.betaPdf_flip] at h1 h2
  exact ⟨_, hp, by rw [mul_one]; exact h1, h3, by rw [Real.log_one, add_zero]; exact h2, h4⟩
example : MirrorDensOn (fun x => dbeta x (fin 1) (fin 4)) (fun x => dbeta x (fin 4) (fin 1)) (fun x => 1 - x) (fun _ => 1)
      (Set.Ioo 0 1) :=
  C51_dbeta_mirror (a := 1) (b := 4) (ha := by meets) (hb := by meets)

theorem betaCdf_flip {a b : ℝ} (ha : 0 < a) (hb : 0 < b) (x : ℝ) : betaCdf b a (1 - x) = 1 - betaCdf a b x := by
  rw [betaCdf, betaCdf]
  rcases le_or_gt x 0 with h | h
  · rw [if_pos h, if_neg (by linarith), if_pos (by linarith), sub_zero]
  · rcases le_or_gt 1 x with h' | h'
    · rw [if_pos (by linarith), if_neg (by linarith), if_pos h']; ring
    · rw [if_neg (by linarith), if_neg (by linarith), if_neg (by linarith), if_neg (by linarith),
        betaI_symm ha hb ⟨h.le, h'.le⟩]
      ring

theorem C51_pbeta_mirror {a b : ℝ} (ha : 0 < a) (hb : 0 < b) :
    MirrorCdfOn (fun x => pbeta x (fin a) (fin b)) (fun x => pbeta x (fin b) (fin a)) (fun x => 1 - x) Set.univ :=
  fun x _ => ⟨_, pbeta_fin ha hb x, by rw [← betaCdf_flip ha hb]; exact pbeta_fin hb ha _⟩
example : MirrorCdfOn (fun x => pbeta x (fin 1) (fin 4)) (fun x => pbeta x (fin 4) (fin 1)) (fun x => 1 - x) Set.univ :=
  C51_pbeta_mirror (a := 1) (b := 4) (ha := by meets) (hb := by meets)

theorem C51_qbeta_mirror {a b : ℝ} (ha : 0 < a) (hb : 0 < b) :
    MirrorQuant (fun u => qbeta u (fin a) (fin b)) (fun u => qbeta u (fin b) (fin a)) fun x => 1 - x := by
  intro u h0 h1
  obtain ⟨x, hx⟩ := (isCdf_beta ha hb).exists_eq h0 h1
  have e : betaCdf b a (1 - x) = 1 - u := by rw [betaCdf_flip ha hb, hx]
  refine ⟨x, ?_, ?_⟩
  · rw [← hx]; exact qbeta_inv ha hb x (by rwa [hx]) (by rwa [hx])
  · rw [← e]; exact qbeta_inv hb ha _ (by rw [e]; linarith) (by rw [e]; linarith)
example : MirrorQuant (fun u => qbeta u (fin 1) (fin 4)) (fun u => qbeta u (fin 4) (fin 1)) fun x => 1 - x :=
  C51_qbeta_mirror (a := 1) (b := 4) (ha := by meets) (hb := by meets)

/-! ### F: `x` to `1 / x` -/

theorem fCdf_flip {d₁ d₂ x : ℝ} (h1 : 0 < d₁) (h2 : 0 < d₂) (hx : 0 < x) : fCdf d₂ d₁ (1 / x) = 1 - fCdf d₁ d₂ x := by
  rw [fCdf, fCdf]
  have hw : 0 < d₁ * x / d₂ := by positivity
  have := div_one_add_mem hw
  rw [betaI_symm (half_pos h1) (half_pos h2) ⟨this.1.le, this.2.le⟩, sub_sub_cancel]
  congr 1
  field_simp
  ring

theorem fPdf_flip {d₁ d₂ x : ℝ} (h1 : 0 < d₁) (h2 : 0 < d₂) (hx : 0 < x) :
    fPdf d₁ d₂ x = fPdf d₂ d₁ (1 / x) * (1 / x ^ 2) := by
  rw [fPdf, fPdf, if_pos hx, if_pos (by positivity), beta_comm (d₂ / 2)]
  have e : 1 + d₂ / d₁ * (1 / x) = (1 + d₁ / d₂ * x) / (d₁ / d₂ * x) := by field_simp; ring
  have hw : 0 < d₁ / d₂ := by positivity
  have hv : 0 < 1 + d₁ / d₂ * x := by positivity
  rw [e, Real.div_rpow hv.le (by positivity), Real.mul_rpow hw.le hx.le, add_comm d₂ d₁, one_div x,
    Real.inv_rpow hx.le, show d₂ / d₁ = (d₁ / d₂)⁻¹ by rw [inv_div], Real.inv_rpow hw.le]
  have e1 : ∀ y : ℝ, 0 < y → y ^ (-((d₁ + d₂) / 2)) = (y ^ (d₁ / 2))⁻¹ * (y ^ (d₂ / 2))⁻¹ := fun y hy => by
    rw [← Real.rpow_neg hy.le, ← Real.rpow_neg hy.le, ← Real.rpow_add hy]; congr 1; ring
  rw [e1 _ hw, e1 _ hx, Real.rpow_sub_one hx.ne', Real.rpow_sub_one hx.ne']
  have := Real.rpow_pos_of_pos hw (d₁ / 2)
  have := Real.rpow_pos_of_pos hw (d₂ / 2)
  have := Real.rpow_pos_of_pos hx (d₁ / 2)
  have := Real.rpow_pos_of_pos hx (d₂ / 2)
  field_simp

theorem C51_df_mirror {d₁ d₂ : ℝ} (h1 : Lib.eps ≤ d₁) (h2 : Lib.eps ≤ d₂) :
    MirrorDensOn (fun x => df x (fin d₁) (fin d₂)) (fun x => df x (fin d₂) (fin d₁)) (fun x => 1 / x)
      (fun x => 1 / x ^ 2) (Set.Ioi 0) := by
  intro x hx
  have hx : 0 < x := hx
  obtain ⟨-, h3, h4⟩ := C08_df h1 h2 x hx
  obtain ⟨hp, h5, h6⟩ := C08_df h2 h1 (1 / x) (one_div_pos.2 hx)
  rw [fPdf_flip (Lib.eps_pos.trans_le h1) (Lib.eps_pos.trans_le h2) hx] at h3 h4
  rw [Real.log_mul hp.ne' (by positivity)] at h4
  exact ⟨_, hp, h3, h5, h4, h6⟩
example : MirrorDensOn (fun x => df x (fin 3) (fin 3)) (fun x => df x (fin 3) (fin 3)) (fun x => 1 / x)
      (fun x => 1 / x ^ 2) (Set.Ioi 0) :=
  C51_df_mirror (d₁ := 3) (d₂ := 3) (h1 := by meets) (h2 := by meets)

/-- below `eps` and above `1 / eps` the code replaces one side by 0 -/
theorem C51_pf_mirror_partial {d₁ d₂ : ℝ} (h1 : Lib.eps ≤ d₁) (h2 : Lib.eps ≤ d₂) :
    MirrorCdfOn (fun x => pf x (fin d₁) (fin d₂)) (fun x => pf x (fin d₂) (fin d₁)) (fun x => 1 / x)
      (Set.Icc Lib.eps (1 / Lib.eps)) := by
  intro x hx
  have he := Lib.eps_pos
  have hx0 : 0 < x := he.trans_le hx.1
  have hx1 : Lib.eps ≤ 1 / x := by
    rw [le_div_iff₀ hx0]; have := hx.2; rw [le_div_iff₀ he] at this; linarith
  have a := pf_fin h1 h2 x (Or.inl hx.1)
  have b := pf_fin h2 h1 (1 / x) (Or.inl hx1)
  rw [if_pos hx0] at a
  rw [if_pos (by positivity), fCdf_flip (he.trans_le h1) (he.trans_le h2) hx0] at b
  exact ⟨_, a, b⟩
example : MirrorCdfOn (fun x => pf x (fin 3) (fin 3)) (fun x => pf x (fin 3) (fin 3)) (fun x => 1 / x)
      (Set.Icc Lib.eps (1 / Lib.eps)) :=
  C51_pf_mirror_partial (d₁ := 3) (d₂ := 3) (h1 := by meets) (h2 := by meets)

theorem C51_qf_mirror {d₁ d₂ : ℝ} (h1 : Lib.eps ≤ d₁) (h2 : Lib.eps ≤ d₂) :
    MirrorQuant (fun u => qf u (fin d₁) (fin d₂)) (fun u => qf u (fin d₂) (fin d₁)) fun x => 1 / x := by
  intro u h0 h1'
  have p1 := Lib.eps_pos.trans_le h1
  have p2 := Lib.eps_pos.trans_le h2
  obtain ⟨x, hx⟩ := (isCdf_f p1 p2).exists_eq h0 h1'
  have hx0 : 0 < x := by by_contra hc; simp only [if_neg hc] at hx; exact h0.ne hx
  have hx' := hx
  simp only [if_pos hx0] at hx'
  have e : (if 0 < 1 / x then fCdf d₂ d₁ (1 / x) else 0) = 1 - u := by
    rw [if_pos (by positivity), fCdf_flip p1 p2 hx0, hx']
  refine ⟨x, ?_, ?_⟩
  · rw [← hx]; exact qf_inv h1 h2 x (by simpa only [hx] using h0) (by simpa only [hx] using h1')
  · rw [← e]; exact qf_inv h2 h1 _ (by simp only [e]; linarith) (by simp only [e]; linarith)
example : MirrorQuant (fun u => qf u (fin 3) (fin 3)) (fun u => qf u (fin 3) (fin 3)) fun x => 1 / x :=
  C51_qf_mirror (d₁ := 3) (d₂ := 3) (h1 := by meets) (h2 := by meets)

/-! ### binomial, Bernoulli, Rademacher: failures for successes -/

theorem binomPmf_flip (n : ℕ) (p : ℝ) (x : ℤ) : binomPmf n (1 - p) (n - x) = binomPmf n p x := by
  rw [binomPmf, binomPmf]
  by_cases h : 0 ≤ x ∧ x ≤ n
  · rw [if_pos h, if_pos (by omega)]
    obtain ⟨k, rfl⟩ := Int.eq_ofNat_of_zero_le h.1
    have hk : k ≤ n := by exact_mod_cast h.2
    have e : ((n : ℤ) - (k : ℤ)).toNat = n - k := by omega
    rw [e, Int.toNat_natCast, Nat.choose_symm hk, Nat.sub_sub_self hk]
    ring
  · rw [if_neg h, if_neg (by omega)]

theorem C51_dbinom_mirror (n : ℕ) {p : ℝ} (h0 : 0 ≤ p) (h1 : p ≤ 1) (k : ℤ) (b : Bool) :
    dbinom (n - k) n (fin (1 - p)) b = dbinom k n (fin p) b := by
  have a := C08_dbinom n h0 h1 k
  have c := C08_dbinom n (p := 1 - p) (by linarith) (by linarith) (n - k)
  rw [binomPmf_flip] at c
  cases b
  · exact c.2.1.trans a.2.1.symm
  · exact c.2.2.trans a.2.2.symm
example : dbinom (5 - 2) 5 (fin (1 - (1 / 3))) true = dbinom 2 5 (fin (1 / 3)) true :=
  C51_dbinom_mirror (n := 5) (p := 1 / 3) (h0 := by meets) (h1 := by meets) (k := 2) (b := true)

theorem cumZ_binom_flip (n : ℕ) (p : ℝ) (k : ℤ) :
    cumZ (binomPmf n (1 - p)) (n - k - 1) = 1 - cumZ (binomPmf n p) k := by
  have a := hasSum_cumZ (f := binomPmf n p) (fun _ hk => binomPmf_neg hk) k
  have b := hasSum_cumZ (f := binomPmf n (1 - p)) (fun _ hk => binomPmf_neg hk) (n - k - 1)
  have c := (Equiv.subLeft (n : ℤ)).hasSum_iff.2 b
  have d := a.add c
  have e : (fun j : ℤ => (if j ≤ k then binomPmf n p j else 0) +
      ((fun j : ℤ => if j ≤ n - k - 1 then binomPmf n (1 - p) j else 0) ∘ Equiv.subLeft (n : ℤ)) j) = binomPmf n p := by
    funext j
    simp only [Function.comp_apply, Equiv.subLeft_apply, binomPmf_flip]
    by_cases h : j ≤ k
    · rw [if_pos h, if_neg (by omega), add_zero]
    · rw [if_neg h, if_pos (by omega), zero_add]
  rw [e] at d
  linarith [d.unique (hasSum_binom n p)]

theorem C51_pbinom_mirror (n : ℕ) {p : ℝ} (h0 : 0 ≤ p) (h1 : p ≤ 1) (k : ℤ) :
    ∃ r : ℝ, pbinom k n (fin p) false = fin r ∧ pbinom (n - k - 1) n (fin (1 - p)) false = fin (1 - r) :=
  ⟨_, pbinom_fin n h0 h1 k, by rw [pbinom_fin n (by linarith) (by linarith), cumZ_binom_flip]⟩
example : ∃ r : ℝ, pbinom 2 5 (fin (1 / 3)) false = fin r ∧ pbinom (5 - 2 - 1) 5 (fin (1 - (1 / 3))) false = fin (1 - r) :=
  C51_pbinom_mirror (n := 5) (p := 1 / 3) (h0 := by meets) (h1 := by meets) (k := 2)

theorem C51_dbern_mirror {p : ℝ} (h0 : 0 ≤ p) (h1 : p ≤ 1) (k : ℤ) (b : Bool) :
    dbern (1 - k) (fin (1 - p)) b = dbern k (fin p) b := by
  have a := C08_dbern h0 h1 k
  have c := C08_dbern (p := 1 - p) (by linarith) (by linarith) (1 - k)
  have e : bernPmf (1 - p) (1 - k) = bernPmf p k := by
    rw [bernPmf, bernPmf]; split_ifs <;> first | omega | ring
  rw [e] at c
  cases b
  · exact c.2.1.trans a.2.1.symm
  · exact c.2.2.trans a.2.2.symm
example : dbern (1 - 2) (fin (1 - (1 / 3))) true = dbern 2 (fin (1 / 3)) true :=
  C51_dbern_mirror (p := 1 / 3) (h0 := by meets) (h1 := by meets) (k := 2) (b := true)

theorem C51_pbern_mirror {p : ℝ} (h0 : 0 ≤ p) (h1 : p ≤ 1) (k : ℤ) :
    ∃ r : ℝ, pbern k (fin p) false = fin r ∧ pbern (-k) (fin (1 - p)) false = fin (1 - r) := by
  refine ⟨_, pbern_fin h0 h1 k, ?_⟩
  rw [pbern_fin (by linarith) (by linarith), bernCdf, bernCdf]
  congr 1
  split_ifs <;> first | omega | ring
example : ∃ r : ℝ, pbern 2 (fin (1 / 3)) false = fin r ∧ pbern (-2) (fin (1 - (1 / 3))) false = fin (1 - r) :=
  C51_pbern_mirror (p := 1 / 3) (h0 := by meets) (h1 := by meets) (k := 2)

theorem C51_dradem_mirror {p : ℝ} (h0 : 0 ≤ p) (h1 : p ≤ 1) (k : ℤ) (b : Bool) :
    dradem (-k) (fin (1 - p)) b = dradem k (fin p) b := by
  have a := C08_dradem h0 h1 k
  have c := C08_dradem (p := 1 - p) (by linarith) (by linarith) (-k)
  have e : rademPmf (1 - p) (-k) = rademPmf p k := by
    rw [rademPmf, rademPmf]; split_ifs <;> first | omega | ring
  rw [e] at c
  cases b
  · exact c.2.1.trans a.2.1.symm
  · exact c.2.2.trans a.2.2.symm
example : dradem (-2) (fin (1 - (1 / 3))) true = dradem 2 (fin (1 / 3)) true :=
  C51_dradem_mirror (p := 1 / 3) (h0 := by meets) (h1 := by meets) (k := 2) (b := true)

theorem C51_pradem_mirror {p : ℝ} (h0 : 0 ≤ p) (h1 : p ≤ 1) (k : ℤ) :
    ∃ r : ℝ, pradem k (fin p) false = fin r ∧ pradem (-k - 1) (fin (1 - p)) false = fin (1 - r) := by
  refine ⟨_, pradem_fin h0 h1 k, ?_⟩
  rw [pradem_fin (by linarith) (by linarith), rademCdf, rademCdf]
  congr 1
  split_ifs <;> first | omega | ring
example : ∃ r : ℝ, pradem 2 (fin (1 / 3)) false = fin r ∧ pradem (-2 - 1) (fin (1 - (1 / 3))) false = fin (1 - r) :=
  C51_pradem_mirror (p := 1 / 3) (h0 := by meets) (h1 := by meets) (k := 2)

/-! ### the inverse Gaussian quantile: the iteration itself scales -/

theorem invgaussPdf_scale {mu lambda c : ℝ} (hc : 0 < c) (x : ℝ) :
    invgaussPdf (c * mu) (c * lambda) (c * x) = invgaussPdf mu lambda x / c := by
  have := Real.pi_pos
  rw [invgaussPdf, invgaussPdf]
  simp only [mul_pos_iff_left hc]
  split_ifs with hx
  · rw [show -(c * lambda * (c * x - c * mu) ^ 2) / (2 * (c * mu) ^ 2 * (c * x)) =
        -(lambda * (x - mu) ^ 2) / (2 * mu ^ 2 * x) by
        rw [show -(c * lambda * (c * x - c * mu) ^ 2) = c ^ 3 * -(lambda * (x - mu) ^ 2) by ring,
          show 2 * (c * mu) ^ 2 * (c * x) = c ^ 3 * (2 * mu ^ 2 * x) by ring, mul_div_mul_left _ _ (by positivity)],
      show c * lambda / (2 * Real.pi * (c * x) ^ 3) = lambda / (2 * Real.pi * x ^ 3) / c ^ 2 by field_simp,
      Real.sqrt_div' _ (by positivity), Real.sqrt_sq hc.le]
    ring
  · rw [zero_div]

theorem igF_scale {mu lambda c : ℝ} (hc : 0 < c) (x : ℝ) : igF (c * mu) (c * lambda) (c * x) = igF mu lambda x := by
  have e : 2 * (c * lambda) / (c * mu) = 2 * lambda / mu := by
    rw [show 2 * (c * lambda) = c * (2 * lambda) by ring, mul_div_mul_left _ _ hc.ne']
  simp only [igF, mul_pos_iff_left hc, invgaussCdf, mul_div_mul_left _ _ hc.ne', e]

theorem igA_scale {mu lambda c : ℝ} (hc : 0 < c) (u : ℝ) (n : ℕ) :
    igA (c * mu) (c * lambda) u n = c * igA mu lambda u n := by
  induction n with
  | zero => simp only [igA, Function.iterate_zero, id, igMode, mul_div_mul_left _ _ hc.ne', mul_assoc]
  | succ n ih =>
    rw [igA_succ, igA_succ, ih, igN, igN, igF_scale hc, invgaussPdf_scale hc, mul_add]
    congr 1
    rw [div_div_eq_mul_div]; ring

/-- The value of `qinvgauss` is in general not the quantile (C21), but it scales as the quantile does. -/
theorem C51_qinvgauss {mu lambda c : ℝ} (hm : 0 < mu) (hl : 0 < lambda) (hc : 0 < c) :
    ScaledQuant (fun u => qinvgauss u (fin mu) (fin lambda)) (fun u => qinvgauss u (fin (c * mu)) (fin (c * lambda)))
      0 c := by
  intro u h0 h1
  obtain ⟨n, hn, e, h2, h3⟩ := qinvgauss_igA hm hl h0 h1
  obtain ⟨n', hn', e', h2', h3'⟩ := qinvgauss_igA (mul_pos hc hm) (mul_pos hc hl) h0 h1
  simp only [igA_scale hc, igF_scale hc] at h2' h3' e'
  have : n = n' := by
    rcases lt_trichotomy n n' with h | h | h
    · have := h2' n h
      rcases h3 with h3 | h3
      · omega
      · linarith
    · exact h
    · have := h2 n' h
      rcases h3' with h3 | h3
      · omega
      · linarith
  subst this
  exact ⟨_, e, by rw [zero_add]; exact e'⟩
example : ScaledQuant (fun u => qinvgauss u (fin 3) (fin 2)) (fun u => qinvgauss u (fin (2 * 3)) (fin (2 * 2))) 0 2 :=
  C51_qinvgauss (mu := 3) (lambda := 2) (c := 2) (hm := by meets) (hl := by meets) (hc := by meets)

/-! ### power and duality -/

/-- missing: `0 < x < eps`, where `pweibull` gives 0 (`C51_cut_violated`). The `shape`-th power of a Weibull variable over its scale is exponential. -/
theorem C51_pweibull_exp_partial {shape scale x : ℝ} (hk : Lib.eps ≤ shape) (hs : Lib.eps ≤ scale) (hx : Lib.eps ≤ x) :
    pweibull (fin x) (fin shape) (fin scale) false = pexp (fin ((x / scale) ^ shape)) 1 false := by
  have h0 := Lib.eps_pos.trans_le hx
  have hs0 := Lib.eps_pos.trans_le hs
  rw [pweibull_fin hk hs x (Or.inl hx), one_eq, pexp_fin one_pos, if_pos h0,
    if_pos (Real.rpow_pos_of_pos (by positivity) _), neg_one_mul]

example : pweibull (fin 2) (fin 3) (fin 4) false = pexp (fin ((2 / 4) ^ (3 : ℝ))) 1 false :=
  C51_pweibull_exp_partial (by meets) (by meets) (by meets)

/-- missing: rates below `eps`, where `pgamma` gives 0. A Poisson count is at most `k` exactly when `k + 1` unit exponential waiting times exceed the rate. -/
theorem C51_ppois_gamma_partial {rate : ℝ} (h : Lib.eps ≤ rate) (k : ℕ) :
    ∃ r : ℝ, pgamma (fin rate) (fin (k + 1)) 1 false = fin r ∧ ppois k (fin rate) false = fin (1 - r) := by
  have h0 := Lib.eps_pos.trans_le h
  refine ⟨gammaP (k + 1) rate, ?_, ?_⟩
  · rw [one_eq, pgamma_fin (by positivity) eps_le_one rate (Or.inl h), if_pos h0, div_one]
  · rw [ppois_fin h0.le, cumZ_pois h0.le]
example : ∃ r : ℝ, pgamma (fin 2) (fin (2 + 1)) 1 false = fin r ∧ ppois 2 (fin 2) false = fin (1 - r) :=
  C51_ppois_gamma_partial (rate := 2) (h := by meets) (k := 2)

omit [Lib] [Ideal] in
theorem hasDerivAt_binomSum (m k : ℕ) (z : ℝ) :
    HasDerivAt (fun p : ℝ => ∑ i ∈ Finset.range (k + 1), ((m + 1).choose i : ℝ) * p ^ i * (1 - p) ^ (m + 1 - i))
      (-((m + 1) * (m.choose k * z ^ k * (1 - z) ^ (m - k)))) z := by
  have hd : Polynomial.derivative (∑ i ∈ Finset.range (k + 1), bernsteinPolynomial ℝ (m + 1) i) =
      -((m + 1 : Polynomial ℝ) * bernsteinPolynomial ℝ m k) := by
    induction k with
    | zero => simp [bernsteinPolynomial.derivative_zero]; ring
    | succ k ih =>
      rw [Finset.sum_range_succ, Polynomial.derivative_add, ih, bernsteinPolynomial.derivative_succ]
      simp only [Nat.add_sub_cancel]
      push_cast
      ring
  have h := (∑ i ∈ Finset.range (k + 1), bernsteinPolynomial ℝ (m + 1) i).hasDerivAt z
  rw [hd] at h
  refine (h.congr_deriv ?_).congr_of_eventuallyEq (Filter.Eventually.of_forall fun p => ?_)
  · simp [bernsteinPolynomial]
  · simp [bernsteinPolynomial, Polynomial.eval_finsetSum]

omit [Lib] [Ideal] in
theorem binomSum_beta (m k : ℕ) (hk : k ≤ m) {p : ℝ} (h0 : 0 ≤ p) (h1 : p ≤ 1) :
    ∑ i ∈ Finset.range (k + 1), ((m + 1).choose i : ℝ) * p ^ i * (1 - p) ^ (m + 1 - i) =
      1 - betaI (k + 1) ((m : ℝ) - k + 1) p := by
  obtain ⟨j, rfl⟩ := Nat.exists_eq_add_of_le hk
  have ha : (0 : ℝ) < (k : ℝ) + 1 := by positivity
  have hb : (0 : ℝ) < ((k + j : ℕ) : ℝ) - k + 1 := by push_cast; linarith [(Nat.cast_nonneg j : (0 : ℝ) ≤ j)]
  set f : ℝ → ℝ := fun p => ∑ i ∈ Finset.range (k + 1), ((k + j + 1).choose i : ℝ) * p ^ i * (1 - p) ^ (k + j + 1 - i)
  have hf0 : f 0 = 1 := by
    simp only [f]; rw [Finset.sum_range_succ']; simp
  have hc : ContinuousOn (fun p => f p + betaI (k + 1) (((k + j : ℕ) : ℝ) - k + 1) p) (Set.Icc 0 p) :=
    ContinuousOn.add (by fun_prop) ((continuousOn_betaI ha hb).mono (Set.Icc_subset_Icc_right h1))
  rcases h0.eq_or_lt with rfl | hp
  · show f 0 = _
    rw [hf0, betaI_zero, sub_zero]
  · have hd : ∀ x ∈ Set.Ioo 0 p, HasDerivAt (fun p => f p + betaI (k + 1) (((k + j : ℕ) : ℝ) - k + 1) p) 0 x := by
      intro x hx
      have hx1 : x < 1 := hx.2.trans_le h1
      refine ((hasDerivAt_binomSum (k + j) k x).add (hasDerivAt_betaI ha hb hx.1 hx1)).congr_deriv ?_
      have e1 : ((k + j : ℕ) : ℝ) - k + 1 = j + 1 := by push_cast; ring
      rw [e1, add_sub_cancel_right, add_sub_cancel_right, Real.rpow_natCast, Real.rpow_natCast, beta,
        show ((k : ℝ) + 1 + (j + 1)) = ((k + j + 1 : ℕ) : ℝ) + 1 by push_cast; ring,
        Real.Gamma_nat_eq_factorial, Real.Gamma_nat_eq_factorial, Real.Gamma_nat_eq_factorial,
        Nat.add_sub_cancel_left]
      have hch : ((k + j).choose k : ℝ) * (k.factorial * j.factorial) = (k + j).factorial := by
        rw [← mul_assoc, Nat.choose_symm_add]; exact_mod_cast Nat.add_choose_mul_factorial_mul_factorial k j
      have : (k.factorial : ℝ) ≠ 0 := by positivity
      have : (j.factorial : ℝ) ≠ 0 := by positivity
      have : ((k + j).factorial : ℝ) ≠ 0 := by positivity
      rw [Nat.factorial_succ]
      push_cast
      rw [← hch]
      field_simp
      ring
    obtain ⟨c, -, h⟩ := exists_hasDerivAt_eq_slope _ _ hp hc hd
    rw [eq_comm, div_eq_zero_iff] at h
    rcases h with h | h
    · simp only [hf0, betaI_zero] at h
      show f p = _
      linarith
    · linarith

omit [Lib] [Ideal] in
theorem cumZ_binom_beta {n k : ℕ} (hk : k < n) {p : ℝ} (h0 : 0 ≤ p) (h1 : p ≤ 1) :
    cumZ (binomPmf n p) k = 1 - betaI (k + 1) ((n : ℝ) - k) p := by
  obtain ⟨m, rfl⟩ : ∃ m, n = m + 1 := ⟨n - 1, by omega⟩
  rw [show ((m + 1 : ℕ) : ℝ) - k = m - k + 1 by push_cast; ring, ← binomSum_beta m k (by omega) h0 h1, cumZ_nat]
  refine Finset.sum_congr rfl fun i hi => ?_
  have := Finset.mem_range.1 hi
  rw [binomPmf, if_pos (by constructor <;> push_cast <;> omega), Int.toNat_natCast]

/-- At most `k` successes in `n` trials: the tail of the beta distribution with parameters `k + 1` and `n - k`. -/
theorem C51_pbinom_beta {n k : ℕ} (hk : k < n) {p : ℝ} (h0 : 0 ≤ p) (h1 : p ≤ 1) :
    ∃ r : ℝ, pbeta (fin p) (fin (k + 1)) (fin (n - k)) false = fin r ∧ pbinom k n (fin p) false = fin (1 - r) := by
  have ha : (0 : ℝ) < (k : ℝ) + 1 := by positivity
  have hb : (0 : ℝ) < (n : ℝ) - k := by rw [sub_pos]; exact_mod_cast hk
  refine ⟨betaI (k + 1) (n - k) p, ?_, by rw [pbinom_fin n h0 h1, cumZ_binom_beta hk h0 h1]⟩
  rw [pbeta_fin ha hb, betaCdf]
  split_ifs with e1 e2
  · rw [le_antisymm e1 h0, betaI_zero]
  · rw [le_antisymm h1 e2, betaI_one ha hb]
  · rfl
example : ∃ r : ℝ, pbeta (fin (1 / 3)) (fin (2 + 1)) (fin (5 - 2)) false = fin r ∧ pbinom 2 5 (fin (1 / 3)) false = fin (1 - r) :=
  C51_pbinom_beta (n := 5) (k := 2) (hk := by meets) (p := 1 / 3) (h0 := by meets) (h1 := by meets)

end Stats
