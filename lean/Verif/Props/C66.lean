import Verif.Props.C08D
import Verif.Spec.Conj
import Verif.Lemmas.Meets

/-! # C66: conjugate families

The density of the prior, times the densities of the observations, is a multiple of the density of the posterior. This ties
together the parametrisations of different functions (shape and scale in `dgamma`, shape and rate in `dinvgamma`, rate in
`dexp`, standard deviation in `dnorm`, ...). -/

set_option linter.unusedSectionVars false
open Classical
namespace Stats
open Fl Spec
variable [Lib] [Ideal]

/-- A positive value in both forms. -/
def PosValue (v : Bool → Fl) (r : ℝ) : Prop := 0 < r ∧ v false = fin r ∧ v true = fin (Real.log r)

theorem IsValue.posValue {v : Bool → Fl} {r : ℝ} (h : IsValue v r) (hr : 0 < r) : PosValue v r := by
  obtain ⟨-, h1, h2⟩ := h
  rw [if_neg hr.ne'] at h2
  exact ⟨hr, h1, h2⟩

theorem foldl_value {D Θ : Type*} {S : Set Θ} {lik : D → Θ → Bool → Fl} {L : D → Θ → ℝ} {θ : Θ} (hθ : θ ∈ S) (xs : List D)
    (hl : ∀ x ∈ xs, ∀ θ ∈ S, PosValue (lik x θ) (L x θ)) : ∀ a : ℝ, 0 < a →
    0 < (xs.map fun x => L x θ).prod ∧
    xs.foldl (fun a x => a * lik x θ false) (fin a) = fin (a * (xs.map fun x => L x θ).prod) ∧
    xs.foldl (fun a x => a + lik x θ true) (fin (Real.log a)) = fin (Real.log (a * (xs.map fun x => L x θ).prod)) := by
  induction xs with
  | nil => intro a _; simp
  | cons x xs ih =>
    intro a ha
    obtain ⟨h1, h2, h3⟩ := hl x (by simp) θ hθ
    obtain ⟨i1, i2, i3⟩ := ih (fun y hy => hl y (by simp [hy])) (a * L x θ) (by positivity)
    rw [Real.log_mul ha.ne' h1.ne'] at i3
    refine ⟨by simpa using mul_pos h1 i1, ?_, ?_⟩
    · simp only [List.foldl_cons, h2, ifin_mul, i2, List.map_cons, List.prod_cons, mul_assoc]
    · simp only [List.foldl_cons, h3, ifin_add, i3, List.map_cons, List.prod_cons, mul_assoc]

theorem updates_of {D Θ : Type*} {S : Set Θ} {prior post : Θ → Bool → Fl} {lik : D → Θ → Bool → Fl} {xs : List D}
    {f p : Θ → ℝ} {L : D → Θ → ℝ} {m : ℝ} (hm : 0 < m) (hf : ∀ θ ∈ S, PosValue (prior θ) (f θ))
    (hl : ∀ x ∈ xs, ∀ θ ∈ S, PosValue (lik x θ) (L x θ)) (hp : ∀ θ ∈ S, PosValue (post θ) (p θ))
    (h : ∀ θ ∈ S, f θ * (xs.map fun x => L x θ).prod = m * p θ) : Updates S prior lik xs post := by
  refine ⟨m, hm, fun θ hθ => ?_⟩
  obtain ⟨f1, f2, f3⟩ := hf θ hθ
  obtain ⟨p1, p2, p3⟩ := hp θ hθ
  obtain ⟨-, l2, l3⟩ := foldl_value hθ xs hl _ f1
  refine ⟨⟨p θ, p1, p2⟩, ?_, ?_⟩
  · rw [f2, l2, p2, ifin_mul, h θ hθ]
  · rw [f3, l3, p3, ifin_add, h θ hθ, Real.log_mul hm.ne' p1.ne']

/-! ### Likelihoods of exponential type, and their products -/

/-- `∏ C x * θ^(s x) * exp (-t x θ)` -/
theorem prod_gammaType {D : Type*} (C s t : D → ℝ) (xs : List D) {θ : ℝ} (hθ : 0 < θ) :
    (xs.map fun x => C x * θ ^ s x * Real.exp (-(t x * θ))).prod =
      (xs.map C).prod * θ ^ (xs.map s).sum * Real.exp (-((xs.map t).sum * θ)) := by
  induction xs with
  | nil => simp
  | cons x xs ih =>
    simp only [List.map_cons, List.prod_cons, List.sum_cons, ih, Real.rpow_add hθ, add_mul, neg_add, Real.exp_add]
    ring

theorem prod_map_pos {D : Type*} {C : D → ℝ} {xs : List D} (h : ∀ x ∈ xs, 0 < C x) : 0 < (xs.map C).prod := by
  induction xs with
  | nil => simp
  | cons x xs ih =>
    simp only [List.map_cons, List.prod_cons]
    exact mul_pos (h x (by simp)) (ih fun y hy => h y (by simp [hy]))

theorem sum_map_nonneg {D : Type*} {C : D → ℝ} {xs : List D} (h : ∀ x ∈ xs, 0 ≤ C x) : 0 ≤ (xs.map C).sum := by
  induction xs with
  | nil => simp
  | cons x xs ih =>
    simp only [List.map_cons, List.sum_cons]
    exact add_nonneg (h x (by simp)) (ih fun y hy => h y (by simp [hy]))

/-- Gamma prior: the likelihood is `C θ^s e^(-tθ)` as function of the parameter. -/
theorem gamma_real {k b s t C : ℝ} (hk : 0 < k) (hb : 0 < b) (hs : 0 ≤ s) (ht : 0 ≤ t) (hC : 0 < C) :
    ∃ m : ℝ, 0 < m ∧ ∀ θ : ℝ, 0 < θ → gammaPdf k b θ * (C * θ ^ s * Real.exp (-(t * θ))) =
      m * gammaPdf (k + s) (b / (1 + b * t)) θ := by
  have h1 := Real.Gamma_pos_of_pos hk
  have h2 := Real.Gamma_pos_of_pos (by linarith : 0 < k + s)
  have hd : 0 < 1 + b * t := by positivity
  refine ⟨C * ((b / (1 + b * t)) ^ (k + s) * Real.Gamma (k + s)) / (b ^ k * Real.Gamma k), by positivity, fun θ hθ => ?_⟩
  have e1 : θ ^ (k + s - 1) = θ ^ (k - 1) * θ ^ s := by rw [← Real.rpow_add hθ]; congr 1; ring
  have e2 : Real.exp (-θ / (b / (1 + b * t))) = Real.exp (-θ / b) * Real.exp (-(t * θ)) := by
    rw [← Real.exp_add]; congr 1; field_simp; ring
  rw [gammaPdf, gammaPdf, if_pos hθ, if_pos hθ, e1, e2]
  have h3 : (b / (1 + b * t)) ^ (k + s) ≠ 0 := by positivity
  have h4 : b ^ k ≠ 0 := by positivity
  field_simp

theorem gamma_updates {D : Type*} {lik : D → ℝ → Bool → Fl} {C s t : D → ℝ} {k b : ℝ} {xs : List D} {S : Set ℝ}
    (hS : S ⊆ Set.Ioi 0) (hk : 0 < k) (hb : Lib.eps ≤ b) (hC : ∀ x ∈ xs, 0 < C x) (hs : ∀ x ∈ xs, 0 ≤ s x)
    (ht : ∀ x ∈ xs, 0 ≤ t x)
    (hl : ∀ x ∈ xs, ∀ θ ∈ S, PosValue (lik x θ) (C x * θ ^ s x * Real.exp (-(t x * θ))))
    (hpost : Lib.eps ≤ b / (1 + b * (xs.map t).sum)) :
    Updates S (fun θ => dgamma (fin θ) (fin k) (fin b)) lik xs
      (fun θ => dgamma (fin θ) (fin (k + (xs.map s).sum)) (fin (b / (1 + b * (xs.map t).sum)))) := by
  have hb0 : 0 < b := Lib.eps_pos.trans_le hb
  have hs0 := sum_map_nonneg hs
  obtain ⟨m, hm, h⟩ := gamma_real hk hb0 hs0 (sum_map_nonneg ht) (prod_map_pos hC)
  refine updates_of hm (fun θ hθ => C08_dgamma hk hb θ (hS hθ)) hl
    (fun θ hθ => C08_dgamma (by linarith) hpost θ (hS hθ)) fun θ hθ => ?_
  rw [prod_gammaType C s t xs (hS hθ)]
  exact h θ (hS hθ)

/-- Inverse gamma prior: the likelihood is `C θ^(-s) e^(-t/θ)`. -/
theorem invgamma_real {a b s t C : ℝ} (ha : 0 < a) (hb : 0 < b) (hs : 0 ≤ s) (ht : 0 ≤ t) (hC : 0 < C) :
    ∃ m : ℝ, 0 < m ∧ ∀ θ : ℝ, 0 < θ → invgammaPdf a b θ * (C * θ⁻¹ ^ s * Real.exp (-(t * θ⁻¹))) =
      m * invgammaPdf (a + s) (b + t) θ := by
  have h1 := Real.Gamma_pos_of_pos ha
  have h2 := Real.Gamma_pos_of_pos (by linarith : 0 < a + s)
  have hd : 0 < b + t := by positivity
  refine ⟨C * (b ^ a / Real.Gamma a) / ((b + t) ^ (a + s) / Real.Gamma (a + s)), by positivity, fun θ hθ => ?_⟩
  have e1 : θ ^ (-(a + s) - 1) = θ ^ (-a - 1) * θ⁻¹ ^ s := by
    rw [Real.inv_rpow hθ.le, ← Real.rpow_neg hθ.le, ← Real.rpow_add hθ]; congr 1; ring
  have e2 : Real.exp (-(b + t) / θ) = Real.exp (-b / θ) * Real.exp (-(t * θ⁻¹)) := by
    rw [← Real.exp_add]; congr 1; field_simp; ring
  rw [invgammaPdf, invgammaPdf, if_pos hθ, if_pos hθ, e1, e2]
  have h3 : (b + t) ^ (a + s) ≠ 0 := by positivity
  have h4 : b ^ a ≠ 0 := by positivity
  field_simp

theorem invgamma_updates {D : Type*} {lik : D → ℝ → Bool → Fl} {C s t : D → ℝ} {a b : ℝ} {xs : List D} {S : Set ℝ}
    (hS : S ⊆ Set.Ioi 0) (ha : 0 < a) (hb : 0 < b) (hC : ∀ x ∈ xs, 0 < C x) (hs : ∀ x ∈ xs, 0 ≤ s x)
    (ht : ∀ x ∈ xs, 0 ≤ t x)
    (hl : ∀ x ∈ xs, ∀ θ ∈ S, PosValue (lik x θ) (C x * θ⁻¹ ^ s x * Real.exp (-(t x * θ⁻¹)))) :
    Updates S (fun θ => dinvgamma (fin θ) (fin a) (fin b)) lik xs
      (fun θ => dinvgamma (fin θ) (fin (a + (xs.map s).sum)) (fin (b + (xs.map t).sum))) := by
  have hs0 := sum_map_nonneg hs
  have ht0 := sum_map_nonneg ht
  obtain ⟨m, hm, h⟩ := invgamma_real ha hb hs0 ht0 (prod_map_pos hC)
  refine updates_of hm (fun θ hθ => C08_dinvgamma ha hb θ (hS hθ)) hl
    (fun θ hθ => C08_dinvgamma (by linarith) (by linarith) θ (hS hθ)) fun θ hθ => ?_
  have hθ' : 0 < θ⁻¹ := inv_pos.2 (hS hθ)
  rw [prod_gammaType C s t xs hθ']
  exact h θ (hS hθ)

/-! ### Gamma prior -/

theorem sum_map_const {D : Type*} (xs : List D) (c : ℝ) : (xs.map fun _ => c).sum = xs.length * c := by
  simp

/-- Poisson counts. -/
theorem C66_gamma_pois_partial {k b : ℝ} (hk : 0 < k) (hb : Lib.eps ≤ b) (xs : List ℕ)
    (hpost : Lib.eps ≤ b / (1 + b * xs.length)) :
    Updates (Set.Ioi 0) (fun θ => dgamma (fin θ) (fin k) (fin b)) (fun (x : ℕ) θ => dpois (x : ℤ) (fin θ)) xs
      (fun θ => dgamma (fin θ) (fin (k + (xs.map fun (x : ℕ) => (x : ℝ)).sum)) (fin (b / (1 + b * xs.length)))) := by
  have e : (xs.map fun _ => (1 : ℝ)).sum = xs.length := by simp
  have := gamma_updates (lik := fun (x : ℕ) θ => dpois (x : ℤ) (fin θ)) (C := fun x => 1 / (x.factorial : ℝ))
    (s := fun x => (x : ℝ)) (t := fun _ => 1) (xs := xs) (k := k) (b := b) (S := Set.Ioi 0) le_rfl hk hb
    (fun x _ => by positivity) (fun x _ => by positivity) (fun x _ => by positivity) (fun x _ θ hθ => by
      have hθ' : 0 < θ := hθ
      have h : poisPmf θ (x : ℤ) = 1 / (x.factorial : ℝ) * θ ^ (x : ℝ) * Real.exp (-(1 * θ)) := by
        rw [poisPmf, if_pos (by omega), Int.toNat_natCast, Real.rpow_natCast, one_mul]; ring
      rw [← h]
      exact IsValue.posValue (C08_dpois hθ'.le x) (by rw [h]; positivity)) (by rwa [e])
  rwa [e] at this

/-- Exponential observations: gamma prior of the rate. -/
theorem C66_gamma_exp_partial {k b : ℝ} (hk : 0 < k) (hb : Lib.eps ≤ b) (xs : List ℝ) (hx : ∀ x ∈ xs, 0 ≤ x)
    (hpost : Lib.eps ≤ b / (1 + b * xs.sum)) :
    Updates (Set.Ioi 0) (fun θ => dgamma (fin θ) (fin k) (fin b)) (fun x θ => dexp (fin x) (fin θ)) xs
      (fun θ => dgamma (fin θ) (fin (k + xs.length)) (fin (b / (1 + b * xs.sum)))) := by
  have e : (xs.map fun _ => (1 : ℝ)).sum = xs.length := by simp
  have e' : (xs.map fun x => x).sum = xs.sum := by simp
  have := gamma_updates (lik := fun (x : ℝ) θ => dexp (fin x) (fin θ)) (C := fun _ => 1)
    (s := fun _ => 1) (t := fun x => x) (xs := xs) (k := k) (b := b) (S := Set.Ioi 0) le_rfl hk hb
    (fun x _ => by positivity) (fun x _ => by positivity) hx (fun x hxs θ hθ => by
      have hθ' : 0 < θ := hθ
      have h : expPdf θ x = 1 * θ ^ (1 : ℝ) * Real.exp (-(x * θ)) := by
        rw [expPdf, if_pos (hx x hxs), Real.rpow_one, one_mul]; ring_nf
      rw [← h]
      exact C08_dexp hθ' x (hx x hxs)) (by rwa [e'])
  rwa [e, e'] at this

/-- Gamma observations with a known shape `α` and rate `θ`, that is scale `1/θ`. -/
theorem C66_gamma_gamma_partial {k b α : ℝ} (hk : 0 < k) (hb : Lib.eps ≤ b) (hα : 0 < α) (xs : List ℝ) (hx : ∀ x ∈ xs, 0 < x)
    (hpost : Lib.eps ≤ b / (1 + b * xs.sum)) :
    Updates (Set.Ioc 0 (1 / Lib.eps)) (fun θ => dgamma (fin θ) (fin k) (fin b))
      (fun x θ => dgamma (fin x) (fin α) (fin (1 / θ))) xs
      (fun θ => dgamma (fin θ) (fin (k + xs.length * α)) (fin (b / (1 + b * xs.sum)))) := by
  have e : (xs.map fun _ => α).sum = xs.length * α := sum_map_const xs α
  have e' : (xs.map fun x => x).sum = xs.sum := by simp
  have := gamma_updates (lik := fun (x : ℝ) θ => dgamma (fin x) (fin α) (fin (1 / θ)))
    (C := fun x => x ^ (α - 1) / Real.Gamma α) (s := fun _ => α) (t := fun x => x) (xs := xs) (k := k) (b := b)
    (S := Set.Ioc 0 (1 / Lib.eps)) (fun θ h => h.1) hk hb
    (fun x h => by have := hx x h; have := Real.Gamma_pos_of_pos hα; positivity) (fun x _ => hα.le)
    (fun x h => (hx x h).le) (fun x hxs θ hθ => by
      have hθ' : 0 < θ := hθ.1
      have hs : Lib.eps ≤ 1 / θ := by
        rw [le_div_iff₀ hθ', mul_comm, ← le_div_iff₀ Lib.eps_pos]; exact hθ.2
      have := Real.Gamma_pos_of_pos hα
      have h : gammaPdf α (1 / θ) x = x ^ (α - 1) / Real.Gamma α * θ ^ α * Real.exp (-(x * θ)) := by
        rw [gammaPdf, if_pos (hx x hxs), one_div, Real.inv_rpow hθ'.le]
        have e : -x / θ⁻¹ = -(x * θ) := by field_simp
        rw [e]; field_simp
      rw [← h]
      exact C08_dgamma hα hs x (hx x hxs)) (by rwa [e'])
  rwa [e, e'] at this

/-- Inverse gamma observations with a known shape `α` and rate `θ`. -/
theorem C66_gamma_invgamma_partial {k b α : ℝ} (hk : 0 < k) (hb : Lib.eps ≤ b) (hα : 0 < α) (xs : List ℝ)
    (hx : ∀ x ∈ xs, 0 < x) (hpost : Lib.eps ≤ b / (1 + b * (xs.map fun x => 1 / x).sum)) :
    Updates (Set.Ioi 0) (fun θ => dgamma (fin θ) (fin k) (fin b))
      (fun x θ => dinvgamma (fin x) (fin α) (fin θ)) xs
      (fun θ => dgamma (fin θ) (fin (k + xs.length * α)) (fin (b / (1 + b * (xs.map fun x => 1 / x).sum)))) := by
  have e : (xs.map fun _ => α).sum = xs.length * α := sum_map_const xs α
  have := gamma_updates (lik := fun (x : ℝ) θ => dinvgamma (fin x) (fin α) (fin θ))
    (C := fun x => x ^ (-α - 1) / Real.Gamma α) (s := fun _ => α) (t := fun x => 1 / x) (xs := xs) (k := k) (b := b)
    (S := Set.Ioi 0) le_rfl hk hb
    (fun x h => by have := hx x h; have := Real.Gamma_pos_of_pos hα; positivity) (fun x _ => hα.le)
    (fun x h => by have := hx x h; positivity) (fun x hxs θ hθ => by
      have hθ' : 0 < θ := hθ
      have hx' := hx x hxs
      have := Real.Gamma_pos_of_pos hα
      have h : invgammaPdf α θ x = x ^ (-α - 1) / Real.Gamma α * θ ^ α * Real.exp (-(1 / x * θ)) := by
        rw [invgammaPdf, if_pos hx']
        have e : -θ / x = -(1 / x * θ) := by field_simp
        rw [e]; ring
      rw [← h]
      exact C08_dinvgamma hα hθ' x hx') hpost
  rwa [e] at this

/-- Inverse Gaussian observations with a known mean: gamma prior of `lambda`. -/
theorem C66_gamma_invgauss_partial {k b μ : ℝ} (hk : 0 < k) (hb : Lib.eps ≤ b) (hμ : 0 < μ) (xs : List ℝ) (hx : ∀ x ∈ xs, 0 < x)
    (hpost : Lib.eps ≤ b / (1 + b * (xs.map fun x => (x - μ) ^ 2 / (2 * μ ^ 2 * x)).sum)) :
    Updates (Set.Ioi 0) (fun θ => dgamma (fin θ) (fin k) (fin b))
      (fun x θ => dinvgauss (fin x) (fin μ) (fin θ)) xs
      (fun θ => dgamma (fin θ) (fin (k + xs.length * (1 / 2)))
        (fin (b / (1 + b * (xs.map fun x => (x - μ) ^ 2 / (2 * μ ^ 2 * x)).sum)))) := by
  have e : (xs.map fun _ => (1 / 2 : ℝ)).sum = xs.length * (1 / 2) := sum_map_const xs _
  have := gamma_updates (lik := fun (x : ℝ) θ => dinvgauss (fin x) (fin μ) (fin θ))
    (C := fun x => √(1 / (2 * Real.pi * x ^ 3))) (s := fun _ => 1 / 2) (t := fun x => (x - μ) ^ 2 / (2 * μ ^ 2 * x))
    (xs := xs) (k := k) (b := b) (S := Set.Ioi 0) le_rfl hk hb
    (fun x h => by have := hx x h; positivity) (fun x _ => by positivity)
    (fun x h => by have := hx x h; positivity) (fun x hxs θ hθ => by
      have hθ' : 0 < θ := hθ
      have hx' := hx x hxs
      have h : invgaussPdf μ θ x = √(1 / (2 * Real.pi * x ^ 3)) * θ ^ (1 / 2 : ℝ) *
          Real.exp (-((x - μ) ^ 2 / (2 * μ ^ 2 * x) * θ)) := by
        rw [invgaussPdf, if_pos hx', ← Real.sqrt_eq_rpow, ← Real.sqrt_mul (by positivity)]
        congr 2 <;> ring
      rw [← h]
      exact C08_dinvgauss hμ hθ' x hx') hpost
  rwa [e] at this

/-! ### Inverse gamma prior -/

theorem inv_rpow_half {v : ℝ} (hv : 0 < v) : v⁻¹ ^ (1 / 2 : ℝ) = 1 / √v := by
  rw [← Real.sqrt_eq_rpow, Real.sqrt_inv, one_div]

/-- Normal observations with a known mean: inverse gamma prior of the variance. -/
theorem C66_invgamma_norm {a b : ℝ} (ha : 0 < a) (hb : 0 < b) (μ : ℝ) (xs : List ℝ) :
    Updates (Set.Ioi 0) (fun v => dinvgamma (fin v) (fin a) (fin b)) (fun x v => dnorm (fin x) (fin μ) (fin (√v))) xs
      (fun v => dinvgamma (fin v) (fin (a + xs.length * (1 / 2))) (fin (b + (xs.map fun x => (x - μ) ^ 2 / 2).sum))) := by
  have e : (xs.map fun _ => (1 / 2 : ℝ)).sum = xs.length * (1 / 2) := sum_map_const xs _
  have := invgamma_updates (lik := fun (x : ℝ) v => dnorm (fin x) (fin μ) (fin (√v)))
    (C := fun x => 1 / √(2 * Real.pi)) (s := fun _ => 1 / 2) (t := fun x => (x - μ) ^ 2 / 2)
    (xs := xs) (S := Set.Ioi 0) le_rfl ha hb
    (fun x h => by positivity) (fun x _ => by positivity) (fun x h => by positivity) (fun x hxs v hv => by
      have hv' : 0 < v := hv
      have h : normPdf μ (√v) x = 1 / √(2 * Real.pi) * v⁻¹ ^ (1 / 2 : ℝ) * Real.exp (-((x - μ) ^ 2 / 2 * v⁻¹)) := by
        rw [normPdf, inv_rpow_half hv', Real.sq_sqrt hv'.le]
        have e : -((x - μ) ^ 2) / (2 * v) = -((x - μ) ^ 2 / 2 * v⁻¹) := by field_simp
        rw [e]; field_simp
      rw [← h]
      exact C08_dnorm μ (Real.sqrt_pos.2 hv') x trivial)
  rwa [e] at this

/-- Log-normal observations with a known `mu`: inverse gamma prior of the variance on the log scale. -/
theorem C66_invgamma_lnorm {a b : ℝ} (ha : 0 < a) (hb : 0 < b) (μ : ℝ) (xs : List ℝ) (hx : ∀ x ∈ xs, 0 < x) :
    Updates (Set.Ioi 0) (fun v => dinvgamma (fin v) (fin a) (fin b)) (fun x v => dlnorm (fin x) (fin μ) (fin (√v))) xs
      (fun v => dinvgamma (fin v) (fin (a + xs.length * (1 / 2)))
        (fin (b + (xs.map fun x => (Real.log x - μ) ^ 2 / 2).sum))) := by
  have e : (xs.map fun _ => (1 / 2 : ℝ)).sum = xs.length * (1 / 2) := sum_map_const xs _
  have := invgamma_updates (lik := fun (x : ℝ) v => dlnorm (fin x) (fin μ) (fin (√v)))
    (C := fun x => 1 / x * (1 / √(2 * Real.pi))) (s := fun _ => 1 / 2) (t := fun x => (Real.log x - μ) ^ 2 / 2)
    (xs := xs) (S := Set.Ioi 0) le_rfl ha hb
    (fun x h => by have := hx x h; positivity) (fun x _ => by positivity) (fun x h => by positivity) (fun x hxs v hv => by
      have hv' : 0 < v := hv
      have hx' := hx x hxs
      have h : lnormPdf μ (√v) x = 1 / x * (1 / √(2 * Real.pi)) * v⁻¹ ^ (1 / 2 : ℝ) *
          Real.exp (-((Real.log x - μ) ^ 2 / 2 * v⁻¹)) := by
        rw [lnormPdf, if_pos hx', inv_rpow_half hv', Real.sq_sqrt hv'.le]
        have e : -((Real.log x - μ) ^ 2) / (2 * v) = -((Real.log x - μ) ^ 2 / 2 * v⁻¹) := by field_simp
        rw [e]; field_simp
      rw [← h]
      exact C08_dlnorm μ (Real.sqrt_pos.2 hv') x hx')
  rwa [e] at this

/-- Exponential observations: inverse gamma prior of the mean. -/
theorem C66_invgamma_exp {a b : ℝ} (ha : 0 < a) (hb : 0 < b) (xs : List ℝ) (hx : ∀ x ∈ xs, 0 ≤ x) :
    Updates (Set.Ioi 0) (fun v => dinvgamma (fin v) (fin a) (fin b)) (fun x v => dexp (fin x) (fin (1 / v))) xs
      (fun v => dinvgamma (fin v) (fin (a + xs.length)) (fin (b + xs.sum))) := by
  have e : (xs.map fun _ => (1 : ℝ)).sum = xs.length := by simp
  have e' : (xs.map fun x => x).sum = xs.sum := by simp
  have := invgamma_updates (lik := fun (x : ℝ) v => dexp (fin x) (fin (1 / v)))
    (C := fun x => 1) (s := fun _ => 1) (t := fun x => x)
    (xs := xs) (S := Set.Ioi 0) le_rfl ha hb
    (fun x h => by positivity) (fun x _ => by positivity) hx (fun x hxs v hv => by
      have hv' : 0 < v := hv
      have h : expPdf (1 / v) x = 1 * v⁻¹ ^ (1 : ℝ) * Real.exp (-(x * v⁻¹)) := by
        rw [expPdf, if_pos (hx x hxs), Real.rpow_one, one_div]; ring_nf
      rw [← h]
      exact C08_dexp (by positivity) x (hx x hxs))
  rwa [e, e'] at this

/-- Gamma observations with a known shape: inverse gamma prior of the scale, as far as `dgamma` accepts the scale. -/
theorem C66_invgamma_gamma_partial {a b α : ℝ} (ha : 0 < a) (hb : 0 < b) (hα : 0 < α) (xs : List ℝ) (hx : ∀ x ∈ xs, 0 < x) :
    Updates (Set.Ici Lib.eps) (fun v => dinvgamma (fin v) (fin a) (fin b)) (fun x v => dgamma (fin x) (fin α) (fin v)) xs
      (fun v => dinvgamma (fin v) (fin (a + xs.length * α)) (fin (b + xs.sum))) := by
  have e : (xs.map fun _ => α).sum = xs.length * α := sum_map_const xs _
  have e' : (xs.map fun x => x).sum = xs.sum := by simp
  have := invgamma_updates (lik := fun (x : ℝ) v => dgamma (fin x) (fin α) (fin v))
    (C := fun x => x ^ (α - 1) / Real.Gamma α) (s := fun _ => α) (t := fun x => x)
    (xs := xs) (S := Set.Ici Lib.eps) (fun v h => Lib.eps_pos.trans_le h) ha hb
    (fun x h => by have := hx x h; have := Real.Gamma_pos_of_pos hα; positivity) (fun x _ => hα.le)
    (fun x h => (hx x h).le) (fun x hxs v hv => by
      have hv' : 0 < v := Lib.eps_pos.trans_le hv
      have := Real.Gamma_pos_of_pos hα
      have h : gammaPdf α v x = x ^ (α - 1) / Real.Gamma α * v⁻¹ ^ α * Real.exp (-(x * v⁻¹)) := by
        rw [gammaPdf, if_pos (hx x hxs), Real.inv_rpow hv'.le]
        have e : -x / v = -(x * v⁻¹) := by ring
        rw [e]; field_simp
      rw [← h]
      exact C08_dgamma hα hv x (hx x hxs))
  rwa [e, e'] at this

/-- Laplace observations with a known location: inverse gamma prior of the scale. -/
theorem C66_invgamma_laplace {a b : ℝ} (ha : 0 < a) (hb : 0 < b) (μ : ℝ) (xs : List ℝ) :
    Updates (Set.Ioi 0) (fun v => dinvgamma (fin v) (fin a) (fin b)) (fun x v => dlaplace (fin x) (fin μ) (fin v)) xs
      (fun v => dinvgamma (fin v) (fin (a + xs.length)) (fin (b + (xs.map fun x => |x - μ|).sum))) := by
  have e : (xs.map fun _ => (1 : ℝ)).sum = xs.length := by simp
  have := invgamma_updates (lik := fun (x : ℝ) v => dlaplace (fin x) (fin μ) (fin v))
    (C := fun x => 1 / 2) (s := fun _ => 1) (t := fun x => |x - μ|)
    (xs := xs) (S := Set.Ioi 0) le_rfl ha hb
    (fun x h => by positivity) (fun x _ => by positivity) (fun x h => abs_nonneg _) (fun x hxs v hv => by
      have hv' : 0 < v := hv
      have h : laplacePdf μ v x = 1 / 2 * v⁻¹ ^ (1 : ℝ) * Real.exp (-(|x - μ| * v⁻¹)) := by
        rw [laplacePdf, Real.rpow_one]
        have e : -|x - μ| / v = -(|x - μ| * v⁻¹) := by ring
        rw [e]; field_simp
      rw [← h]
      exact C08_dlaplace μ hv' x trivial)
  rwa [e] at this

/-- Weibull observations with a known shape: inverse gamma prior of `scale ^ shape`. -/
theorem C66_invgamma_weibull_partial {a b k : ℝ} (ha : 0 < a) (hb : 0 < b) (hk : Lib.eps ≤ k) (xs : List ℝ)
    (hx : ∀ x ∈ xs, 0 < x) :
    Updates (Set.Ici (Lib.eps ^ k)) (fun v => dinvgamma (fin v) (fin a) (fin b))
      (fun x v => dweibull (fin x) (fin k) (fin (v ^ (1 / k)))) xs
      (fun v => dinvgamma (fin v) (fin (a + xs.length)) (fin (b + (xs.map fun x => x ^ k).sum))) := by
  have e : (xs.map fun _ => (1 : ℝ)).sum = xs.length := by simp
  have he : 0 < Lib.eps := Lib.eps_pos
  have hk0 : 0 < k := he.trans_le hk
  have := invgamma_updates (lik := fun (x : ℝ) v => dweibull (fin x) (fin k) (fin (v ^ (1 / k))))
    (C := fun x => k * x ^ (k - 1)) (s := fun _ => 1) (t := fun x => x ^ k)
    (xs := xs) (S := Set.Ici (Lib.eps ^ k)) (fun v h => (Real.rpow_pos_of_pos he k).trans_le h) ha hb
    (fun x h => by have := hx x h; positivity) (fun x _ => by positivity)
    (fun x h => by have := hx x h; positivity) (fun x hxs v hv => by
      have hv' : 0 < v := (Real.rpow_pos_of_pos he k).trans_le hv
      have hx' := hx x hxs
      have hs : Lib.eps ≤ v ^ (1 / k) := by
        have := Real.rpow_le_rpow (by positivity) (show Lib.eps ^ k ≤ v from hv) (by positivity : 0 ≤ 1 / k)
        rwa [← Real.rpow_mul he.le, mul_one_div_cancel hk0.ne', Real.rpow_one] at this
      have h0 : 0 < v ^ (1 / k) := by positivity
      have hvk : (v ^ (1 / k)) ^ k = v := by
        rw [← Real.rpow_mul hv'.le, one_div_mul_cancel hk0.ne', Real.rpow_one]
      have h : weibullPdf k (v ^ (1 / k)) x = k * x ^ (k - 1) * v⁻¹ ^ (1 : ℝ) * Real.exp (-(x ^ k * v⁻¹)) := by
        rw [weibullPdf, if_pos hx', Real.rpow_one, Real.div_rpow hx'.le h0.le, Real.div_rpow hx'.le h0.le, hvk,
          Real.rpow_sub h0, hvk, Real.rpow_one, div_eq_mul_inv (x ^ k)]
        field_simp
      rw [← h]
      exact C08_dweibull hk hs x hx')
  rwa [e] at this

/-! ### Beta prior -/

theorem prod_betaType {D : Type*} (C s t : D → ℝ) (xs : List D) {θ : ℝ} (h0 : 0 < θ) (h1 : 0 < 1 - θ) :
    (xs.map fun x => C x * θ ^ s x * (1 - θ) ^ t x).prod =
      (xs.map C).prod * θ ^ (xs.map s).sum * (1 - θ) ^ (xs.map t).sum := by
  induction xs with
  | nil => simp
  | cons x xs ih =>
    simp only [List.map_cons, List.prod_cons, List.sum_cons, ih, Real.rpow_add h0, Real.rpow_add h1]
    ring

theorem beta_updates {D : Type*} {lik : D → ℝ → Bool → Fl} {C s t : D → ℝ} {a b : ℝ} {xs : List D}
    (ha : 0 < a) (hb : 0 < b) (hC : ∀ x ∈ xs, 0 < C x) (hs : ∀ x ∈ xs, 0 ≤ s x) (ht : ∀ x ∈ xs, 0 ≤ t x)
    (hl : ∀ x ∈ xs, ∀ θ ∈ Set.Ioo (0 : ℝ) 1, PosValue (lik x θ) (C x * θ ^ s x * (1 - θ) ^ t x)) :
    Updates (Set.Ioo 0 1) (fun θ => dbeta (fin θ) (fin a) (fin b)) lik xs
      (fun θ => dbeta (fin θ) (fin (a + (xs.map s).sum)) (fin (b + (xs.map t).sum))) := by
  have hs0 := sum_map_nonneg hs
  have ht0 := sum_map_nonneg ht
  have hC0 := prod_map_pos hC
  have b1 := beta_pos ha hb
  have b2 := beta_pos (by linarith : 0 < a + (xs.map s).sum) (by linarith : 0 < b + (xs.map t).sum)
  refine updates_of (m := (xs.map C).prod * Spec.beta (a + (xs.map s).sum) (b + (xs.map t).sum) /
    Spec.beta a b) (by positivity) (fun θ hθ => C08_dbeta ha hb θ hθ) hl
    (fun θ hθ => C08_dbeta (by linarith) (by linarith) θ hθ) fun θ hθ => ?_
  have h0 : 0 < θ := hθ.1
  have h1 : 0 < 1 - θ := by linarith [hθ.2]
  have hI : 0 < θ ∧ θ < 1 := hθ
  rw [prod_betaType C s t xs h0 h1, betaPdf, betaPdf, if_pos hI, if_pos hI]
  have e1 : θ ^ (a + (xs.map s).sum - 1) = θ ^ (a - 1) * θ ^ (xs.map s).sum := by
    rw [← Real.rpow_add h0]; congr 1; ring
  have e2 : (1 - θ) ^ (b + (xs.map t).sum - 1) = (1 - θ) ^ (b - 1) * (1 - θ) ^ (xs.map t).sum := by
    rw [← Real.rpow_add h1]; congr 1; ring
  rw [e1, e2]
  field_simp

/-- Binomial counts out of `n`. -/
theorem C66_beta_binom {a b : ℝ} (ha : 0 < a) (hb : 0 < b) (n : ℕ) (xs : List ℕ) (hx : ∀ x ∈ xs, x ≤ n) :
    Updates (Set.Ioo 0 1) (fun θ => dbeta (fin θ) (fin a) (fin b)) (fun (x : ℕ) θ => dbinom (x : ℤ) n (fin θ)) xs
      (fun θ => dbeta (fin θ) (fin (a + (xs.map fun (x : ℕ) => (x : ℝ)).sum))
        (fin (b + (xs.map fun (x : ℕ) => ((n - x : ℕ) : ℝ)).sum))) := by
  refine beta_updates (C := fun x => (n.choose x : ℝ)) ha hb
    (fun x h => by have := Nat.choose_pos (hx x h); positivity) (fun x _ => by positivity) (fun x _ => by positivity)
    fun x hxs θ hθ => ?_
  have h0 : 0 < θ := hθ.1
  have h1 : 0 < 1 - θ := by linarith [hθ.2]
  have hc := Nat.choose_pos (hx x hxs)
  have h : binomPmf n θ (x : ℤ) = (n.choose x : ℝ) * θ ^ (x : ℝ) * (1 - θ) ^ (((n - x : ℕ) : ℝ)) := by
    have := hx x hxs
    rw [binomPmf, if_pos ⟨by omega, by omega⟩, Int.toNat_natCast, Real.rpow_natCast, Real.rpow_natCast]
  rw [← h]
  exact IsValue.posValue (C08_dbinom n h0.le hθ.2.le x) (by rw [h]; positivity)

theorem sum_true (xs : List Bool) : (xs.map fun x => if x then (1 : ℝ) else 0).sum = xs.count true := by
  induction xs with
  | nil => simp
  | cons x xs ih => cases x <;> simp [ih, List.count_cons] <;> ring

theorem sum_false (xs : List Bool) : (xs.map fun x => if x then (0 : ℝ) else 1).sum = xs.count false := by
  induction xs with
  | nil => simp
  | cons x xs ih => cases x <;> simp [ih, List.count_cons] <;> ring

/-- Bernoulli observations: success is coded 1, failure 0. -/
theorem C66_beta_bern {a b : ℝ} (ha : 0 < a) (hb : 0 < b) (xs : List Bool) :
    Updates (Set.Ioo 0 1) (fun θ => dbeta (fin θ) (fin a) (fin b)) (fun (x : Bool) θ => dbern (if x then 1 else 0) (fin θ)) xs
      (fun θ => dbeta (fin θ) (fin (a + xs.count true)) (fin (b + xs.count false))) := by
  have e1 := sum_true xs
  have e2 := sum_false xs
  have := beta_updates (lik := fun (x : Bool) θ => dbern (if x then 1 else 0) (fin θ)) (C := fun _ => 1)
    (s := fun x => if x then (1 : ℝ) else 0) (t := fun x => if x then (0 : ℝ) else 1) (xs := xs) ha hb
    (fun x h => by positivity) (fun x _ => by split <;> norm_num) (fun x _ => by split <;> norm_num)
    fun x hxs θ hθ => by
      have h0 : 0 < θ := hθ.1
      have h1 : 0 < 1 - θ := by linarith [hθ.2]
      have h : bernPmf θ (if x then 1 else 0) = 1 * θ ^ (if x then (1 : ℝ) else 0) * (1 - θ) ^ (if x then (0 : ℝ) else 1) := by
        cases x <;> simp [bernPmf]
      rw [← h]
      exact IsValue.posValue (C08_dbern h0.le hθ.2.le _) (by rw [h]; positivity)
  rwa [e1, e2] at this

/-- Rademacher observations: success is coded 1, failure -1. -/
theorem C66_beta_radem {a b : ℝ} (ha : 0 < a) (hb : 0 < b) (xs : List Bool) :
    Updates (Set.Ioo 0 1) (fun θ => dbeta (fin θ) (fin a) (fin b)) (fun (x : Bool) θ => dradem (if x then 1 else -1) (fin θ)) xs
      (fun θ => dbeta (fin θ) (fin (a + xs.count true)) (fin (b + xs.count false))) := by
  have e1 := sum_true xs
  have e2 := sum_false xs
  have := beta_updates (lik := fun (x : Bool) θ => dradem (if x then 1 else -1) (fin θ)) (C := fun _ => 1)
    (s := fun x => if x then (1 : ℝ) else 0) (t := fun x => if x then (0 : ℝ) else 1) (xs := xs) ha hb
    (fun x h => by positivity) (fun x _ => by split <;> norm_num) (fun x _ => by split <;> norm_num)
    fun x hxs θ hθ => by
      have h0 : 0 < θ := hθ.1
      have h1 : 0 < 1 - θ := by linarith [hθ.2]
      have h : rademPmf θ (if x then 1 else -1) =
          1 * θ ^ (if x then (1 : ℝ) else 0) * (1 - θ) ^ (if x then (0 : ℝ) else 1) := by
        cases x <;> simp [rademPmf]
      rw [← h]
      exact IsValue.posValue (C08_dradem h0.le hθ.2.le _) (by rw [h]; positivity)
  rwa [e1, e2] at this

/-! ### Normal prior -/

/-- `∏ C x * exp (-(A x θ²)/2 + B x θ)` -/
theorem prod_normType {D : Type*} (C A B : D → ℝ) (xs : List D) (θ : ℝ) :
    (xs.map fun x => C x * Real.exp (-(A x * θ ^ 2) / 2 + B x * θ)).prod =
      (xs.map C).prod * Real.exp (-((xs.map A).sum * θ ^ 2) / 2 + (xs.map B).sum * θ) := by
  induction xs with
  | nil => simp
  | cons x xs ih =>
    simp only [List.map_cons, List.prod_cons, List.sum_cons, ih]
    have : -((A x + (xs.map A).sum) * θ ^ 2) / 2 + (B x + (xs.map B).sum) * θ =
      (-(A x * θ ^ 2) / 2 + B x * θ) + (-((xs.map A).sum * θ ^ 2) / 2 + (xs.map B).sum * θ) := by ring
    rw [this, Real.exp_add (-(A x * θ ^ 2) / 2 + B x * θ)]
    ac_rfl

theorem norm_updates {D : Type*} {lik : D → ℝ → Bool → Fl} {C A B : D → ℝ} {m s : ℝ} {xs : List D}
    (hs : 0 < s) (hC : ∀ x ∈ xs, 0 < C x) (hA : ∀ x ∈ xs, 0 ≤ A x)
    (hl : ∀ x ∈ xs, ∀ θ ∈ (Set.univ : Set ℝ), PosValue (lik x θ) (C x * Real.exp (-(A x * θ ^ 2) / 2 + B x * θ))) :
    Updates Set.univ (fun θ => dnorm (fin θ) (fin m) (fin s)) lik xs
      (fun θ => dnorm (fin θ) (fin ((m / s ^ 2 + (xs.map B).sum) / (1 / s ^ 2 + (xs.map A).sum)))
        (fin (1 / √(1 / s ^ 2 + (xs.map A).sum)))) := by
  have hA0 := sum_map_nonneg hA
  have hC0 := prod_map_pos hC
  generalize hP : 1 / s ^ 2 + (xs.map A).sum = P
  have hP0 : 0 < P := by rw [← hP]; positivity
  have hs' : 0 < 1 / √P := by positivity
  have hsq : √P ^ 2 = P := Real.sq_sqrt hP0.le
  generalize hM : (m / s ^ 2 + (xs.map B).sum) / P = M
  have hM' : (xs.map B).sum = M * P - m / s ^ 2 := by rw [← hM]; field_simp; ring
  have hA' : (xs.map A).sum = P - 1 / s ^ 2 := by rw [← hP]; ring
  refine updates_of (m := (xs.map C).prod * (1 / (√P * s)) * Real.exp (M ^ 2 * P / 2 - m ^ 2 / s ^ 2 / 2)) (by positivity)
    (fun θ hθ => C08_dnorm m hs θ hθ) hl (fun θ hθ => C08_dnorm M hs' θ hθ) fun θ _ => ?_
  rw [prod_normType C A B xs θ, normPdf, normPdf, hA', hM']
  have e : Real.exp (-((θ - m) ^ 2) / (2 * s ^ 2)) * Real.exp (-((P - 1 / s ^ 2) * θ ^ 2) / 2 + (M * P - m / s ^ 2) * θ) =
      Real.exp (M ^ 2 * P / 2 - m ^ 2 / s ^ 2 / 2) * Real.exp (-((θ - M) ^ 2) / (2 * (1 / √P) ^ 2)) := by
    rw [← Real.exp_add, ← Real.exp_add]
    congr 1
    rw [div_pow, hsq]
    field_simp
    ring
  have e' : 1 / (√(2 * Real.pi) * s) = 1 / (√P * s) * (1 / (√(2 * Real.pi) * (1 / √P))) := by
    have : 0 < √P := by positivity
    field_simp
  calc _ = (xs.map C).prod * (1 / (√(2 * Real.pi) * s)) * (Real.exp (-((θ - m) ^ 2) / (2 * s ^ 2)) *
        Real.exp (-((P - 1 / s ^ 2) * θ ^ 2) / 2 + (M * P - m / s ^ 2) * θ)) := by ring
    _ = _ := by rw [e, e']; ring

/-- Normal observations with a known standard deviation: normal prior of the mean. -/
theorem C66_norm_norm (m : ℝ) {s σ : ℝ} (hs : 0 < s) (hσ : 0 < σ) (xs : List ℝ) :
    Updates Set.univ (fun θ => dnorm (fin θ) (fin m) (fin s)) (fun x θ => dnorm (fin x) (fin θ) (fin σ)) xs
      (fun θ => dnorm (fin θ) (fin ((m / s ^ 2 + xs.sum / σ ^ 2) / (1 / s ^ 2 + xs.length / σ ^ 2)))
        (fin (1 / √(1 / s ^ 2 + xs.length / σ ^ 2)))) := by
  have e1 : (xs.map fun _ => 1 / σ ^ 2).sum = xs.length / σ ^ 2 := by rw [sum_map_const]; ring
  have e2 : (xs.map fun x => x / σ ^ 2).sum = xs.sum / σ ^ 2 := by
    simp only [div_eq_mul_inv, List.sum_map_mul_right, List.map_id']
  have := norm_updates (lik := fun (x : ℝ) θ => dnorm (fin x) (fin θ) (fin σ))
    (C := fun x => 1 / (√(2 * Real.pi) * σ) * Real.exp (-(x ^ 2) / (2 * σ ^ 2))) (A := fun _ => 1 / σ ^ 2)
    (B := fun x => x / σ ^ 2) (m := m) (xs := xs) hs (fun x _ => by positivity) (fun x _ => by positivity)
    fun x _ θ _ => by
      have h : normPdf θ σ x = 1 / (√(2 * Real.pi) * σ) * Real.exp (-(x ^ 2) / (2 * σ ^ 2)) *
          Real.exp (-(1 / σ ^ 2 * θ ^ 2) / 2 + x / σ ^ 2 * θ) := by
        rw [normPdf, mul_assoc, ← Real.exp_add]
        congr 2
        field_simp
        ring
      rw [← h]
      exact C08_dnorm θ hσ x trivial
  rwa [e1, e2] at this

/-- Log-normal observations with a known `sigma`: normal prior of `mu`. -/
theorem C66_norm_lnorm (m : ℝ) {s σ : ℝ} (hs : 0 < s) (hσ : 0 < σ) (xs : List ℝ) (hx : ∀ x ∈ xs, 0 < x) :
    Updates Set.univ (fun θ => dnorm (fin θ) (fin m) (fin s)) (fun x θ => dlnorm (fin x) (fin θ) (fin σ)) xs
      (fun θ => dnorm (fin θ) (fin ((m / s ^ 2 + (xs.map Real.log).sum / σ ^ 2) / (1 / s ^ 2 + xs.length / σ ^ 2)))
        (fin (1 / √(1 / s ^ 2 + xs.length / σ ^ 2)))) := by
  have e1 : (xs.map fun _ => 1 / σ ^ 2).sum = xs.length / σ ^ 2 := by rw [sum_map_const]; ring
  have e2 : (xs.map fun x => Real.log x / σ ^ 2).sum = (xs.map Real.log).sum / σ ^ 2 := by
    simp only [div_eq_mul_inv, List.sum_map_mul_right]
  have := norm_updates (lik := fun (x : ℝ) θ => dlnorm (fin x) (fin θ) (fin σ))
    (C := fun x => 1 / x * (1 / (√(2 * Real.pi) * σ) * Real.exp (-(Real.log x ^ 2) / (2 * σ ^ 2)))) (A := fun _ => 1 / σ ^ 2)
    (B := fun x => Real.log x / σ ^ 2) (m := m) (xs := xs) hs (fun x h => by have := hx x h; positivity)
    (fun x _ => by positivity) fun x hxs θ _ => by
      have h : lnormPdf θ σ x = 1 / x * (1 / (√(2 * Real.pi) * σ) * Real.exp (-(Real.log x ^ 2) / (2 * σ ^ 2))) *
          Real.exp (-(1 / σ ^ 2 * θ ^ 2) / 2 + Real.log x / σ ^ 2 * θ) := by
        rw [lnormPdf, if_pos (hx x hxs), mul_assoc (1 / x), mul_assoc (1 / x), mul_assoc (1 / (√(2 * Real.pi) * σ)), ← Real.exp_add]
        congr 3
        field_simp
        ring
      rw [← h]
      exact C08_dlnorm θ hσ x (hx x hxs)
  rwa [e1, e2] at this

/-! ### Where the sanity check rejects the posterior -/

/-- A gamma prior with the smallest accepted scale: after one Poisson count the scale of the posterior is below the
threshold of the sanity check, and `dgamma` answers NaN. -/
theorem C66_gamma_pois_violated {k : ℝ} (hk : 0 < k) (x : ℕ) :
    (∀ θ : ℝ, 0 < θ → ∃ r l : ℝ, 0 < r ∧ 0 < l ∧ dgamma (fin θ) (fin k) (fin Lib.eps) false = fin r ∧
      dpois (x : ℤ) (fin θ) false = fin l) ∧
    ∀ (θ : ℝ) (log_form : Bool), dgamma (fin θ) (fin (k + x)) (fin (Lib.eps / (1 + Lib.eps))) log_form = nan := by
  constructor
  · intro θ hθ
    obtain ⟨h1, h2, -⟩ := C08_dgamma hk le_rfl θ hθ
    have hp : 0 < poisPmf θ (x : ℤ) := by rw [poisPmf, if_pos (by omega)]; positivity
    obtain ⟨h3, h4, -⟩ := IsValue.posValue (C08_dpois hθ.le (x : ℤ)) hp
    exact ⟨_, _, h1, h3, h2, h4⟩
  · intro θ lf
    have he := Lib.eps_pos
    have : Lib.eps / (1 + Lib.eps) < Lib.eps := by rw [div_lt_iff₀ (by linarith)]; nlinarith
    simp [dgamma, gamma_ok', gamma_ok, eps, this]

/-! ### Concrete cases -/

example : Updates (Set.Ioi 0) (fun θ => dgamma (fin θ) (fin 2) (fin 3)) (fun (x : ℕ) θ => dpois (x : ℤ) (fin θ)) [4, 0, 1]
      (fun θ => dgamma (fin θ) (fin (2 + ([4, 0, 1].map fun (x : ℕ) => (x : ℝ)).sum))
        (fin (3 / (1 + 3 * ([4, 0, 1] : List ℕ).length)))) :=
  C66_gamma_pois_partial (k := 2) (b := 3) (by meets) (by meets) [4, 0, 1] (by meets)

example : Updates (Set.Ioi 0) (fun θ => dgamma (fin θ) (fin 2) (fin 3)) (fun x θ => dexp (fin x) (fin θ)) [1, 5]
      (fun θ => dgamma (fin θ) (fin (2 + ([1, 5] : List ℝ).length)) (fin (3 / (1 + 3 * [1, 5].sum)))) :=
  C66_gamma_exp_partial (k := 2) (b := 3) (by meets) (by meets) [1, 5] (by simp) (by simp; meets)

example : Updates (Set.Ioc 0 (1 / Lib.eps)) (fun θ => dgamma (fin θ) (fin 2) (fin 3))
      (fun x θ => dgamma (fin x) (fin 4) (fin (1 / θ))) [1, 5]
      (fun θ => dgamma (fin θ) (fin (2 + ([1, 5] : List ℝ).length * 4)) (fin (3 / (1 + 3 * [1, 5].sum)))) :=
  C66_gamma_gamma_partial (k := 2) (b := 3) (α := 4) (by meets) (by meets) (by meets) [1, 5] (by simp) (by simp; meets)

example : Updates (Set.Ioi 0) (fun θ => dgamma (fin θ) (fin 2) (fin 3)) (fun x θ => dinvgamma (fin x) (fin 4) (fin θ)) [1, 5]
      (fun θ => dgamma (fin θ) (fin (2 + ([1, 5] : List ℝ).length * 4))
        (fin (3 / (1 + 3 * ([1, 5].map fun x : ℝ => 1 / x).sum)))) :=
  C66_gamma_invgamma_partial (k := 2) (b := 3) (α := 4) (by meets) (by meets) (by meets) [1, 5] (by simp) (by simp; meets)

example : Updates (Set.Ioi 0) (fun θ => dgamma (fin θ) (fin 2) (fin 3)) (fun x θ => dinvgauss (fin x) (fin 4) (fin θ)) [1, 5]
      (fun θ => dgamma (fin θ) (fin (2 + ([1, 5] : List ℝ).length * (1 / 2)))
        (fin (3 / (1 + 3 * ([1, 5].map fun x : ℝ => (x - 4) ^ 2 / (2 * 4 ^ 2 * x)).sum)))) :=
  C66_gamma_invgauss_partial (k := 2) (b := 3) (μ := 4) (by meets) (by meets) (by meets) [1, 5] (by simp) (by simp; meets)

example : Updates (Set.Ioi 0) (fun v => dinvgamma (fin v) (fin 2) (fin 3)) (fun x v => dnorm (fin x) (fin 7) (fin (√v))) [1, 5]
      (fun v => dinvgamma (fin v) (fin (2 + ([1, 5] : List ℝ).length * (1 / 2)))
        (fin (3 + ([1, 5].map fun x : ℝ => (x - 7) ^ 2 / 2).sum))) :=
  C66_invgamma_norm (a := 2) (b := 3) (by meets) (by meets) 7 [1, 5]

example : Updates (Set.Ioi 0) (fun v => dinvgamma (fin v) (fin 2) (fin 3)) (fun x v => dlnorm (fin x) (fin 7) (fin (√v))) [1, 5]
      (fun v => dinvgamma (fin v) (fin (2 + ([1, 5] : List ℝ).length * (1 / 2)))
        (fin (3 + ([1, 5].map fun x : ℝ => (Real.log x - 7) ^ 2 / 2).sum))) :=
  C66_invgamma_lnorm (a := 2) (b := 3) (by meets) (by meets) 7 [1, 5] (by simp)

example : Updates (Set.Ioi 0) (fun v => dinvgamma (fin v) (fin 2) (fin 3)) (fun x v => dexp (fin x) (fin (1 / v))) [1, 5]
      (fun v => dinvgamma (fin v) (fin (2 + ([1, 5] : List ℝ).length)) (fin (3 + [1, 5].sum))) :=
  C66_invgamma_exp (a := 2) (b := 3) (by meets) (by meets) [1, 5] (by simp)

example : Updates (Set.Ici Lib.eps) (fun v => dinvgamma (fin v) (fin 2) (fin 3)) (fun x v => dgamma (fin x) (fin 4) (fin v)) [1, 5]
      (fun v => dinvgamma (fin v) (fin (2 + ([1, 5] : List ℝ).length * 4)) (fin (3 + [1, 5].sum))) :=
  C66_invgamma_gamma_partial (a := 2) (b := 3) (α := 4) (by meets) (by meets) (by meets) [1, 5] (by simp)

example : Updates (Set.Ioi 0) (fun v => dinvgamma (fin v) (fin 2) (fin 3)) (fun x v => dlaplace (fin x) (fin 7) (fin v)) [1, 5]
      (fun v => dinvgamma (fin v) (fin (2 + ([1, 5] : List ℝ).length)) (fin (3 + ([1, 5].map fun x : ℝ => |x - 7|).sum))) :=
  C66_invgamma_laplace (a := 2) (b := 3) (by meets) (by meets) 7 [1, 5]

example : Updates (Set.Ici (Lib.eps ^ (4 : ℝ))) (fun v => dinvgamma (fin v) (fin 2) (fin 3))
      (fun x v => dweibull (fin x) (fin 4) (fin (v ^ (1 / 4 : ℝ)))) [1, 5]
      (fun v => dinvgamma (fin v) (fin (2 + ([1, 5] : List ℝ).length)) (fin (3 + ([1, 5].map fun x : ℝ => x ^ (4 : ℝ)).sum))) :=
  C66_invgamma_weibull_partial (a := 2) (b := 3) (k := 4) (by meets) (by meets) (by meets) [1, 5] (by simp)

example : Updates (Set.Ioo 0 1) (fun θ => dbeta (fin θ) (fin 2) (fin 3)) (fun (x : ℕ) θ => dbinom (x : ℤ) 6 (fin θ)) [4, 0, 6]
      (fun θ => dbeta (fin θ) (fin (2 + ([4, 0, 6].map fun (x : ℕ) => (x : ℝ)).sum))
        (fin (3 + ([4, 0, 6].map fun (x : ℕ) => ((6 - x : ℕ) : ℝ)).sum))) :=
  C66_beta_binom (a := 2) (b := 3) (by meets) (by meets) 6 [4, 0, 6] (by simp)

example : Updates (Set.Ioo 0 1) (fun θ => dbeta (fin θ) (fin 2) (fin 3))
      (fun (x : Bool) θ => dbern (if x then 1 else 0) (fin θ)) [true, false, true]
      (fun θ => dbeta (fin θ) (fin (2 + [true, false, true].count true)) (fin (3 + [true, false, true].count false))) :=
  C66_beta_bern (a := 2) (b := 3) (by meets) (by meets) _

example : Updates (Set.Ioo 0 1) (fun θ => dbeta (fin θ) (fin 2) (fin 3))
      (fun (x : Bool) θ => dradem (if x then 1 else -1) (fin θ)) [true, false, true]
      (fun θ => dbeta (fin θ) (fin (2 + [true, false, true].count true)) (fin (3 + [true, false, true].count false))) :=
  C66_beta_radem (a := 2) (b := 3) (by meets) (by meets) _

example : Updates Set.univ (fun θ => dnorm (fin θ) (fin 1) (fin 2)) (fun x θ => dnorm (fin x) (fin θ) (fin 3)) [1, 5]
      (fun θ => dnorm (fin θ) (fin ((1 / 2 ^ 2 + [1, 5].sum / 3 ^ 2) / (1 / 2 ^ 2 + ([1, 5] : List ℝ).length / 3 ^ 2)))
        (fin (1 / √(1 / 2 ^ 2 + ([1, 5] : List ℝ).length / 3 ^ 2)))) :=
  C66_norm_norm 1 (s := 2) (σ := 3) (by meets) (by meets) [1, 5]

example : Updates Set.univ (fun θ => dnorm (fin θ) (fin 1) (fin 2)) (fun x θ => dlnorm (fin x) (fin θ) (fin 3)) [1, 5]
      (fun θ => dnorm (fin θ)
        (fin ((1 / 2 ^ 2 + (([1, 5] : List ℝ).map Real.log).sum / 3 ^ 2) / (1 / 2 ^ 2 + ([1, 5] : List ℝ).length / 3 ^ 2)))
        (fin (1 / √(1 / 2 ^ 2 + ([1, 5] : List ℝ).length / 3 ^ 2)))) :=
  C66_norm_lnorm 1 (s := 2) (σ := 3) (by meets) (by meets) [1, 5] (by simp)

example : (∀ θ : ℝ, 0 < θ → ∃ r l : ℝ, 0 < r ∧ 0 < l ∧ dgamma (fin θ) (fin 2) (fin Lib.eps) false = fin r ∧
      dpois ((3 : ℕ) : ℤ) (fin θ) false = fin l) ∧
    ∀ (θ : ℝ) (log_form : Bool), dgamma (fin θ) (fin (2 + (3 : ℕ))) (fin (Lib.eps / (1 + Lib.eps))) log_form = nan :=
  C66_gamma_pois_violated (k := 2) (by meets) 3

end Stats
