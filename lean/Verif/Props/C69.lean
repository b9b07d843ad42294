import Verif.Props.C66
import Verif.Props.C37
import Verif.Spec.Mle

/-! # C69: maximum likelihood

The likelihood of a sample, computed with the density functions (product of the plain forms, sum of the log forms), is
greatest at the textbook estimate, computed with `mean`, `var` and `sum_absdiff`. This ties the parametrisation of each
density to the matrix helpers, and needs `var` to divide by `n`. -/

set_option linter.unusedSectionVars false
open Classical
namespace Stats
open Fl Spec MatOps
variable [Lib] [Ideal]

theorem maximises_of {D Θ : Type*} {S : Set Θ} {lik : D → Θ → Bool → Fl} {xs : List D} {L : D → Θ → ℝ} {est : Θ}
    (he : est ∈ S) (hl : ∀ x ∈ xs, ∀ θ ∈ S, PosValue (lik x θ) (L x θ))
    (h : ∀ θ ∈ S, θ ≠ est → (xs.map fun x => L x θ).prod < (xs.map fun x => L x est).prod) : Maximises S lik xs est := by
  have key : ∀ θ ∈ S, 0 < (xs.map fun x => L x θ).prod ∧ likelihood lik xs θ = fin (xs.map fun x => L x θ).prod ∧
      logLikelihood lik xs θ = fin (Real.log (xs.map fun x => L x θ).prod) := by
    intro θ hθ
    obtain ⟨a, b, c⟩ := foldl_value hθ xs hl 1 one_pos
    rw [Real.log_one, one_mul] at c
    rw [one_mul] at b
    exact ⟨a, b, c⟩
  obtain ⟨a, b, c⟩ := key est he
  refine ⟨he, _, a, b, c, fun θ hθ hne => ?_⟩
  obtain ⟨a', b', c'⟩ := key θ hθ
  rw [b', c']
  exact ⟨by simpa using h θ hθ hne, by simpa using Real.log_lt_log a' (h θ hθ hne)⟩

/-- `θ^s e^(-tθ)` is greatest at `s/t`, and decreases in `t` -/
theorem gammaType_lt {s t t' θ : ℝ} (hs : 0 < s) (ht : 0 < t) (htt : t ≤ t') (hθ : 0 < θ) (h : t < t' ∨ θ ≠ s / t) :
    θ ^ s * Real.exp (-(t' * θ)) < (s / t) ^ s * Real.exp (-(t * (s / t))) := by
  have hq : 0 < s / t := by positivity
  have e : ∀ z : ℝ, 0 < z → z ^ s = Real.exp (s * Real.log z) := fun z hz => by rw [Real.rpow_def_of_pos hz, mul_comm]
  rw [e θ hθ, e _ hq, ← Real.exp_add, ← Real.exp_add, Real.exp_lt_exp]
  have hl : Real.log θ = Real.log (θ / (s / t)) + Real.log (s / t) := by
    rw [← Real.log_mul (by positivity) (by positivity)]; congr 1; field_simp
  have hw : Real.log (θ / (s / t)) ≤ θ / (s / t) - 1 := Real.log_le_sub_one_of_pos (by positivity)
  have hts : s * (θ / (s / t) - 1) = t * θ - s := by field_simp
  have ht2 : t * (s / t) = s := by field_simp
  have h3 : t * θ ≤ t' * θ := mul_le_mul_of_nonneg_right htt hθ.le
  rcases h with h | h
  · have h4 : t * θ < t' * θ := mul_lt_mul_of_pos_right h hθ
    have := mul_le_mul_of_nonneg_left hw hs.le
    rw [hts] at this
    rw [hl, mul_add, ht2]; linarith
  · have hne : θ / (s / t) ≠ 1 := by rwa [Ne, div_eq_one_iff_eq hq.ne']
    have := mul_lt_mul_of_pos_left (Real.log_lt_sub_one_of_pos (by positivity) hne) hs
    rw [hts] at this
    rw [hl, mul_add, ht2]; linarith

/-- A scale-type parameter `φ θ` and a nuisance parameter: likelihoods `C φ^s e^(-t φ)`. -/
theorem gammaType_maximises {D Θ : Type*} {S : Set Θ} {lik : D → Θ → Bool → Fl} {C s : D → ℝ} {t : D → Θ → ℝ} {φ : Θ → ℝ}
    {xs : List D} {est : Θ} (he : est ∈ S) (hφ : ∀ θ ∈ S, 0 < φ θ)
    (hC : ∀ x ∈ xs, 0 < C x)
    (hl : ∀ x ∈ xs, ∀ θ ∈ S, PosValue (lik x θ) (C x * φ θ ^ s x * Real.exp (-(t x θ * φ θ))))
    (hs : 0 < (xs.map s).sum) (ht : 0 < (xs.map fun x => t x est).sum)
    (hest : φ est = (xs.map s).sum / (xs.map fun x => t x est).sum)
    (hmin : ∀ θ ∈ S, θ ≠ est → (xs.map fun x => t x est).sum ≤ (xs.map fun x => t x θ).sum ∧
      ((xs.map fun x => t x est).sum < (xs.map fun x => t x θ).sum ∨ φ θ ≠ φ est)) : Maximises S lik xs est := by
  refine maximises_of he hl fun θ hθ hne => ?_
  rw [prod_gammaType C s (fun x => t x θ) xs (hφ θ hθ), prod_gammaType C s (fun x => t x est) xs (hφ est he), mul_assoc,
    mul_assoc]
  refine mul_lt_mul_of_pos_left ?_ (prod_map_pos hC)
  obtain ⟨h1, h2⟩ := hmin θ hθ hne
  rw [hest] at h2 ⊢
  exact gammaType_lt hs ht h1 (hφ θ hθ) h2

/-- `p^s (1-p)^r` is greatest at `s/(s+r)` -/
theorem betaType_lt {s r p : ℝ} (hs : 0 < s) (hr : 0 < r) (h0 : 0 < p) (h1 : p < 1) (h : p ≠ s / (s + r)) :
    p ^ s * (1 - p) ^ r < (s / (s + r)) ^ s * (1 - s / (s + r)) ^ r := by
  have hq : 0 < s / (s + r) := by positivity
  have hq' : 1 - s / (s + r) = r / (s + r) := by field_simp; ring
  have hr' : 0 < r / (s + r) := by positivity
  have p1 : 0 < 1 - p := by linarith
  rw [hq', Real.rpow_def_of_pos h0, Real.rpow_def_of_pos p1, Real.rpow_def_of_pos hq, Real.rpow_def_of_pos hr', ← Real.exp_add,
    ← Real.exp_add, Real.exp_lt_exp]
  have e1 : Real.log p = Real.log (p / (s / (s + r))) + Real.log (s / (s + r)) := by
    rw [← Real.log_mul (by positivity) (by positivity)]; congr 1; field_simp
  have e2 : Real.log (1 - p) = Real.log ((1 - p) / (r / (s + r))) + Real.log (r / (s + r)) := by
    rw [← Real.log_mul (by positivity) (by positivity)]; congr 1; field_simp
  have hne : p / (s / (s + r)) ≠ 1 := by rwa [Ne, div_eq_one_iff_eq hq.ne']
  have a := mul_lt_mul_of_pos_right (Real.log_lt_sub_one_of_pos (by positivity) hne) hs
  have b := mul_le_mul_of_nonneg_right (Real.log_le_sub_one_of_pos (by positivity : 0 < (1 - p) / (r / (s + r)))) hr.le
  have e : (p / (s / (s + r)) - 1) * s + ((1 - p) / (r / (s + r)) - 1) * r = 0 := by field_simp; ring
  rw [e1, e2]
  linarith

theorem betaType_maximises {D : Type*} {lik : D → ℝ → Bool → Fl} {C s t : D → ℝ} {xs : List D} {p : ℝ}
    (hC : ∀ x ∈ xs, 0 < C x)
    (hl : ∀ x ∈ xs, ∀ θ ∈ Set.Ioo (0 : ℝ) 1, PosValue (lik x θ) (C x * θ ^ s x * (1 - θ) ^ t x))
    (hs : 0 < (xs.map s).sum) (ht : 0 < (xs.map t).sum) (hp : p = (xs.map s).sum / ((xs.map s).sum + (xs.map t).sum)) :
    Maximises (Set.Ioo 0 1) lik xs p := by
  have he : p ∈ Set.Ioo (0 : ℝ) 1 := by
    rw [hp]; exact ⟨by positivity, by rw [div_lt_one (by positivity)]; linarith⟩
  refine maximises_of he hl fun θ hθ hne => ?_
  have h0 : 0 < θ := hθ.1
  have h1 : 0 < 1 - θ := by linarith [hθ.2]
  rw [prod_betaType C s t xs h0 h1, prod_betaType C s t xs he.1 (by linarith [he.2]), mul_assoc, mul_assoc]
  refine mul_lt_mul_of_pos_left ?_ (prod_map_pos hC)
  rw [hp] at hne ⊢
  exact betaType_lt hs ht h0 hθ.2 hne

/-! ### sums -/

theorem sum_map_const' {D : Type*} (xs : List D) (c : ℝ) : (xs.map fun _ => c).sum = xs.length * c := by simp

/-- squared distances from a point: least at the mean -/
theorem sum_sq_shift (xs : List ℝ) (hne : xs ≠ []) (μ : ℝ) :
    (xs.map fun x => (x - μ) ^ 2).sum =
      (xs.map fun x => (x - xs.sum / xs.length) ^ 2).sum + xs.length * (xs.sum / xs.length - μ) ^ 2 := by
  have hn : (xs.length : ℝ) ≠ 0 := by
    have := List.length_pos_iff.2 hne
    exact_mod_cast this.ne'
  have key : ∀ c : ℝ, (xs.map fun x => (x - c) ^ 2).sum = (xs.map fun x => x ^ 2).sum - 2 * c * xs.sum + xs.length * c ^ 2 := by
    intro c
    clear hne hn
    induction xs with
    | nil => simp
    | cons x xs ih => simp only [List.map_cons, List.sum_cons, ih, List.length_cons]; push_cast; ring
  rw [key, key]
  field_simp
  ring

theorem sum_map_pos_of {D : Type*} {f : D → ℝ} {xs : List D} (h : ∀ x ∈ xs, 0 ≤ f x) {a : D} (ha : a ∈ xs) (hpos : 0 < f a) :
    0 < (xs.map f).sum := by
  induction xs with
  | nil => simp at ha
  | cons x xs ih =>
    simp only [List.map_cons, List.sum_cons]
    have h1 := h x (by simp)
    have h2 := sum_map_nonneg (C := f) (xs := xs) fun y hy => h y (by simp [hy])
    rcases List.mem_cons.1 ha with rfl | ha
    · linarith
    · have := ih (fun y hy => h y (by simp [hy])) ha; linarith

theorem sum_dev_pos {xs : List ℝ} {f : ℝ → ℝ} (hf : ∀ x ∈ xs, 0 < f x) (h : ∃ a ∈ xs, ∃ b ∈ xs, a ≠ b) (c : ℝ) :
    0 < (xs.map fun x => (x - c) ^ 2 * f x).sum := by
  obtain ⟨a, ha, b, hb, hab⟩ := h
  have hn : ∀ x ∈ xs, 0 ≤ (x - c) ^ 2 * f x := fun x hx => mul_nonneg (sq_nonneg _) (hf x hx).le
  by_cases hac : a = c
  · refine sum_map_pos_of hn hb (mul_pos (pow_pos_of_ne (sub_ne_zero.2 ?_)) (hf b hb))
    rintro rfl; exact hab hac
  · exact sum_map_pos_of hn ha (mul_pos (pow_pos_of_ne (sub_ne_zero.2 hac)) (hf a ha))
where
  pow_pos_of_ne {z : ℝ} (h : z ≠ 0) : 0 < z ^ 2 := by positivity

/-! ### Location and scale -/

/-- The normal sample: the mean and the root of `var`. -/
theorem norm_max (xs : List ℝ) (h : ∃ a ∈ xs, ∃ b ∈ xs, a ≠ b) {D : Type*} {g : D → ℝ} {ys : List D} (hg : ys.map g = xs)
    {lik : D → ℝ × ℝ → Bool → Fl} {C : D → ℝ} (hC : ∀ y ∈ ys, 0 < C y)
    (hl : ∀ y ∈ ys, ∀ θ ∈ {θ : ℝ × ℝ | 0 < θ.2}, PosValue (lik y θ) (C y * normPdf θ.1 θ.2 (g y))) :
    ∃ m s : ℝ, mean (xs.map fin) = fin m ∧ sqrt (var (xs.map fin)) = fin s ∧ Maximises {θ : ℝ × ℝ | 0 < θ.2} lik ys (m, s) := by
  have hne : xs ≠ [] := by rintro rfl; obtain ⟨a, ha, -⟩ := h; simp at ha
  have hn : (0 : ℝ) < xs.length := by exact_mod_cast List.length_pos_iff.2 hne
  have hv : 0 < (xs.map fun x => (x - xs.sum / xs.length) ^ 2).sum := by
    have := sum_dev_pos (f := fun _ => 1) (fun _ _ => one_pos) h (xs.sum / xs.length)
    simpa using this
  set m := xs.sum / xs.length with hm
  set V := (xs.map fun x => (x - m) ^ 2).sum with hV
  have hw : 0 < V / xs.length := by positivity
  have hlen : (ys.length : ℝ) = xs.length := by rw [← hg, List.length_map]
  have es : ∀ c : ℝ, (ys.map fun y => (g y - c) ^ 2 / 2).sum = (xs.map fun x => (x - c) ^ 2).sum / 2 := by
    intro c
    rw [← hg, List.map_map]
    clear hC hl hg hlen
    induction ys with
    | nil => simp
    | cons y ys ih => simp only [List.map_cons, List.sum_cons, ih, Function.comp]; ring
  refine ⟨m, √(V / xs.length), C37_mean xs hne, ?_, ?_⟩
  · rw [C37_var xs hne, isqrt hw.le]
  · refine gammaType_maximises (φ := fun θ => (θ.2 ^ 2)⁻¹) (C := fun y => C y * (1 / √(2 * Real.pi))) (s := fun _ => 1 / 2)
      (t := fun y θ => (g y - θ.1) ^ 2 / 2) (Real.sqrt_pos.2 hw) (fun θ hθ => by have : 0 < θ.2 := hθ; positivity)
      (fun y hy => by have := hC y hy; positivity) (fun y hy θ hθ => ?_) ?_ ?_ ?_ fun θ hθ hne' => ?_
    · have hθ' : 0 < θ.2 := hθ
      have e : C y * normPdf θ.1 θ.2 (g y) = C y * (1 / √(2 * Real.pi)) * (θ.2 ^ 2)⁻¹ ^ (1 / 2 : ℝ) *
          Real.exp (-((g y - θ.1) ^ 2 / 2 * (θ.2 ^ 2)⁻¹)) := by
        rw [normPdf, Real.inv_rpow (by positivity), ← Real.sqrt_eq_rpow, Real.sqrt_sq hθ'.le]
        have e : -((g y - θ.1) ^ 2) / (2 * θ.2 ^ 2) = -((g y - θ.1) ^ 2 / 2 * (θ.2 ^ 2)⁻¹) := by field_simp
        rw [e]; field_simp
      rw [← e]
      exact hl y hy θ hθ
    · rw [sum_map_const', hlen]; positivity
    · rw [es]; positivity
    · rw [es, sum_map_const', hlen, Real.sq_sqrt hw.le]
      show _ = _ / (V / 2)
      field_simp
    · simp only [es, sum_sq_shift xs hne θ.1, ← hm]
      show V / 2 ≤ (V + _) / 2 ∧ (V / 2 < (V + _) / 2 ∨ _)
      have hθ' : 0 < θ.2 := hθ
      by_cases h1 : θ.1 = m
      · rw [h1]
        refine ⟨by simp, .inr fun e => hne' ?_⟩
        rw [inv_inj] at e
        have := (pow_left_inj₀ hθ'.le (Real.sqrt_nonneg _) two_ne_zero).1 e
        exact Prod.ext h1 this
      · have : 0 < xs.length * (m - θ.1) ^ 2 := by
          have : m - θ.1 ≠ 0 := sub_ne_zero.2 (Ne.symm h1)
          positivity
        exact ⟨by linarith, .inl (by linarith)⟩

/-- Normal observations, not all equal: `mean` and the root of `var` (the one that divides by `n`). -/
theorem C69_norm (xs : List ℝ) (h : ∃ a ∈ xs, ∃ b ∈ xs, a ≠ b) :
    ∃ m s : ℝ, mean (xs.map fin) = fin m ∧ sqrt (var (xs.map fin)) = fin s ∧
      Maximises {θ : ℝ × ℝ | 0 < θ.2} (fun x θ => dnorm (fin x) (fin θ.1) (fin θ.2)) xs (m, s) :=
  norm_max xs h (g := id) (by simp) (C := fun _ => 1) (fun _ _ => one_pos) fun x _ θ hθ => by
    rw [one_mul]; exact C08_dnorm θ.1 hθ x trivial

/-- Log-normal observations: mean and root of the variance of the logarithms. -/
theorem C69_lnorm (xs : List ℝ) (hx : ∀ x ∈ xs, 0 < x) (h : ∃ a ∈ xs, ∃ b ∈ xs, a ≠ b) :
    ∃ m s : ℝ, mean (xs.map fun x => log (fin x)) = fin m ∧ sqrt (var (xs.map fun x => log (fin x))) = fin s ∧
      Maximises {θ : ℝ × ℝ | 0 < θ.2} (fun x θ => dlnorm (fin x) (fin θ.1) (fin θ.2)) xs (m, s) := by
  have e : (xs.map fun x => log (fin x)) = (xs.map Real.log).map fin := by
    rw [List.map_map]
    exact List.map_congr_left fun x hx' => ilog (hx x hx')
  rw [e]
  obtain ⟨a, ha, b, hb, hab⟩ := h
  refine norm_max (xs.map Real.log) ⟨_, List.mem_map_of_mem ha, _, List.mem_map_of_mem hb, fun e => hab ?_⟩ (g := Real.log) rfl
    (C := fun x => 1 / x) (fun x h => by have := hx x h; positivity) fun x h θ hθ => ?_
  · exact Real.log_injOn_pos (hx a ha) (hx b hb) e
  · have := C08_dlnorm θ.1 hθ x (hx x h)
    rw [lnormPdf, if_pos (hx x h), mul_assoc] at this
    exact this

/-- Laplace observations with a known location, not all equal to it. -/
theorem C69_laplace {n : ℕ} (x : Fin n → ℝ) (μ : ℝ) (h : ∃ i, x i ≠ μ) :
    ∃ t s : ℝ, sum_absdiff ((List.ofFn x).map fin) ((List.ofFn fun _ : Fin n => μ).map fin) = some (fin t) ∧
      fin t / ofInt n = fin s ∧ Maximises (Set.Ioi 0) (fun x s => dlaplace (fin x) (fin μ) (fin s)) (List.ofFn x) s := by
  obtain ⟨i, hi⟩ := h
  have hn : (0 : ℝ) < n := by exact_mod_cast i.pos
  have ht : 0 < ∑ i, |x i - μ| :=
    Finset.sum_pos' (fun _ _ => abs_nonneg _) ⟨i, Finset.mem_univ _, abs_pos.2 (sub_ne_zero.2 hi)⟩
  have es : ((List.ofFn x).map fun y => |y - μ|).sum = ∑ i, |x i - μ| := by
    rw [List.map_ofFn, List.sum_ofFn]; rfl
  refine ⟨_, (∑ i, |x i - μ|) / n, C37_sum_absdiff x fun _ => μ, ?_, ?_⟩
  · rw [ofInt_eq, ifin_div _ (by exact_mod_cast hn.ne')]; push_cast; rfl
  · have hs : 0 < (∑ i, |x i - μ|) / n := by positivity
    refine gammaType_maximises (φ := fun v => v⁻¹) (C := fun _ => 1 / 2) (s := fun _ => 1) (t := fun x _ => |x - μ|) hs
      (fun v hv => inv_pos.2 hv) (fun _ _ => by norm_num) (fun y _ v hv => ?_) ?_ ?_ ?_ fun v hv hne => ?_
    · have hv' : 0 < v := hv
      have h : laplacePdf μ v y = 1 / 2 * v⁻¹ ^ (1 : ℝ) * Real.exp (-(|y - μ| * v⁻¹)) := by
        rw [laplacePdf, Real.rpow_one]
        have e : -|y - μ| / v = -(|y - μ| * v⁻¹) := by ring
        rw [e]; field_simp
      rw [← h]
      exact C08_dlaplace μ hv' y trivial
    · rw [sum_map_const', List.length_ofFn]; linarith
    · rw [es]; exact ht
    · rw [es, sum_map_const', List.length_ofFn, mul_one, inv_div]
    · exact ⟨le_rfl, .inr fun e => hne (inv_injective e)⟩

/-! ### Scale alone -/

/-- Exponential observations, not all zero: one over the mean. -/
theorem C69_exp (xs : List ℝ) (hx : ∀ x ∈ xs, 0 ≤ x) (h : ∃ a ∈ xs, 0 < a) :
    ∃ r : ℝ, 1 / mean (xs.map fin) = fin r ∧ Maximises (Set.Ioi 0) (fun x r => dexp (fin x) (fin r)) xs r := by
  obtain ⟨a, ha, h0⟩ := h
  have hne : xs ≠ [] := by rintro rfl; simp at ha
  have hn : (0 : ℝ) < xs.length := by exact_mod_cast List.length_pos_iff.2 hne
  have hsum : 0 < xs.sum := by simpa using sum_map_pos_of (f := id) hx ha h0
  refine ⟨1 / (xs.sum / xs.length), ?_, ?_⟩
  · rw [C37_mean xs hne, one_eq, ifin_div _ (by positivity)]
  · refine gammaType_maximises (φ := fun r => r) (C := fun _ => 1) (s := fun _ => 1) (t := fun x _ => x)
      (show (0 : ℝ) < _ by positivity) (fun r hr => hr) (fun _ _ => one_pos) (fun x hxs r hr => ?_) ?_ ?_ ?_
      fun r hr hne => ⟨le_rfl, .inr hne⟩
    · have h : expPdf r x = 1 * r ^ (1 : ℝ) * Real.exp (-(x * r)) := by
        rw [expPdf, if_pos (hx x hxs), Real.rpow_one, one_mul]; ring_nf
      rw [← h]
      exact C08_dexp hr x (hx x hxs)
    · rw [sum_map_const']; linarith
    · rwa [List.map_id']
    · rw [List.map_id', sum_map_const', one_div_div, mul_one]

/-- Gamma observations with a known shape: the mean over the shape, if `dgamma` accepts it as a scale. -/
theorem C69_gamma {k : ℝ} (hk : 0 < k) (xs : List ℝ) (hne : xs ≠ []) (hx : ∀ x ∈ xs, 0 < x)
    (he : Lib.eps * (k * xs.length) ≤ xs.sum) :
    ∃ θ : ℝ, mean (xs.map fin) / fin k = fin θ ∧
      Maximises (Set.Ici Lib.eps) (fun x θ => dgamma (fin x) (fin k) (fin θ)) xs θ := by
  have hn : (0 : ℝ) < xs.length := by exact_mod_cast List.length_pos_iff.2 hne
  obtain ⟨a, ha⟩ := List.exists_mem_of_ne_nil xs hne
  have hsum : 0 < xs.sum := by simpa using sum_map_pos_of (f := id) (fun x h => (hx x h).le) ha (hx a ha)
  have hpos : ∀ θ ∈ Set.Ici (Lib.eps : ℝ), 0 < θ := fun θ h => Lib.eps_pos.trans_le h
  refine ⟨xs.sum / xs.length / k, ?_, ?_⟩
  · rw [C37_mean xs hne, ifin_div _ hk.ne']
  · have hmem : xs.sum / xs.length / k ∈ Set.Ici (Lib.eps : ℝ) := by
      rw [Set.mem_Ici, div_div, le_div_iff₀ (by positivity), mul_comm (xs.length : ℝ)]; exact he
    refine gammaType_maximises (φ := fun v => v⁻¹) (C := fun x => x ^ (k - 1) / Real.Gamma k) (s := fun _ => k)
      (t := fun x _ => x) hmem (fun v hv => inv_pos.2 (hpos v hv))
      (fun x h => by have := hx x h; have := Real.Gamma_pos_of_pos hk; positivity) (fun x hxs v hv => ?_) ?_ ?_ ?_
      fun v hv hne => ⟨le_rfl, .inr fun e => hne (inv_injective e)⟩
    · have hv' := hpos v hv
      have := Real.Gamma_pos_of_pos hk
      have h : gammaPdf k v x = x ^ (k - 1) / Real.Gamma k * v⁻¹ ^ k * Real.exp (-(x * v⁻¹)) := by
        rw [gammaPdf, if_pos (hx x hxs), Real.inv_rpow hv'.le]
        have e : -x / v = -(x * v⁻¹) := by ring
        rw [e]; field_simp
      rw [← h]
      exact C08_dgamma hk hv x (hx x hxs)
    · rw [sum_map_const']; positivity
    · rwa [List.map_id']
    · rw [List.map_id', sum_map_const', inv_div, div_div_eq_mul_div, mul_comm]

/-- Inverse gamma observations with a known shape: the shape over the mean of the reciprocals. -/
theorem C69_invgamma {k : ℝ} (hk : 0 < k) (xs : List ℝ) (hne : xs ≠ []) (hx : ∀ x ∈ xs, 0 < x) :
    ∃ r : ℝ, fin k / mean (xs.map fun x => 1 / fin x) = fin r ∧
      Maximises (Set.Ioi 0) (fun x r => dinvgamma (fin x) (fin k) (fin r)) xs r := by
  have hn : (0 : ℝ) < xs.length := by exact_mod_cast List.length_pos_iff.2 hne
  obtain ⟨a, ha⟩ := List.exists_mem_of_ne_nil xs hne
  have hi : ∀ x ∈ xs, 0 < 1 / x := fun x h => by have := hx x h; positivity
  have hsum : 0 < (xs.map fun x => 1 / x).sum := sum_map_pos_of (fun x h => (hi x h).le) ha (hi a ha)
  have e : (xs.map fun x => 1 / fin x) = (xs.map fun x => 1 / x).map fin := by
    rw [List.map_map]
    exact List.map_congr_left fun x h => by rw [one_eq, ifin_div _ (hx x h).ne']; rfl
  refine ⟨k / ((xs.map fun x => 1 / x).sum / xs.length), ?_, ?_⟩
  · rw [e, C37_mean _ (by simpa using hne), List.length_map, ifin_div _ (by positivity)]
  · have hG := Real.Gamma_pos_of_pos hk
    refine gammaType_maximises (φ := fun r => r) (C := fun x => x ^ (-k - 1) / Real.Gamma k) (s := fun _ => k)
      (t := fun x _ => 1 / x) (show (0 : ℝ) < _ by positivity) (fun r hr => hr)
      (fun x h => by have := hx x h; positivity) (fun x hxs r hr => ?_) ?_ hsum ?_ fun r hr hne => ⟨le_rfl, .inr hne⟩
    · have hr' : 0 < r := hr
      have h : invgammaPdf k r x = x ^ (-k - 1) / Real.Gamma k * r ^ k * Real.exp (-(1 / x * r)) := by
        rw [invgammaPdf, if_pos (hx x hxs)]
        have e : -r / x = -(1 / x * r) := by ring
        rw [e]; field_simp
      rw [← h]
      exact C08_dinvgamma hk hr' x (hx x hxs)
    · rw [sum_map_const']; positivity
    · rw [sum_map_const', div_div_eq_mul_div, mul_comm]

/-- Weibull observations with a known shape. -/
theorem C69_weibull {k : ℝ} (hk : Lib.eps ≤ k) (xs : List ℝ) (hne : xs ≠ []) (hx : ∀ x ∈ xs, 0 < x)
    (he : Lib.eps ^ k * xs.length ≤ (xs.map fun x => x ^ k).sum) :
    ∃ θ : ℝ, pow (mean (xs.map fun x => pow (fin x) (fin k))) (1 / fin k) = fin θ ∧
      Maximises (Set.Ici Lib.eps) (fun x θ => dweibull (fin x) (fin k) (fin θ)) xs θ := by
  have hn : (0 : ℝ) < xs.length := by exact_mod_cast List.length_pos_iff.2 hne
  have hk0 : 0 < k := Lib.eps_pos.trans_le hk
  obtain ⟨a, ha⟩ := List.exists_mem_of_ne_nil xs hne
  have hi : ∀ x ∈ xs, 0 < x ^ k := fun x h => by have := hx x h; positivity
  have hsum : 0 < (xs.map fun x => x ^ k).sum := sum_map_pos_of (fun x h => (hi x h).le) ha (hi a ha)
  have e : (xs.map fun x => pow (fin x) (fin k)) = (xs.map fun x => x ^ k).map fin := by
    rw [List.map_map]
    exact List.map_congr_left fun x h => ipow k (hx x h)
  set T := (xs.map fun x => x ^ k).sum with hT
  have hq : 0 < T / xs.length := by positivity
  have hpos : ∀ θ ∈ Set.Ici (Lib.eps : ℝ), 0 < θ := fun θ h => Lib.eps_pos.trans_le h
  have hpk : ((T / xs.length) ^ (1 / k)) ^ k = T / xs.length := by
    rw [← Real.rpow_mul hq.le, one_div_mul_cancel hk0.ne', Real.rpow_one]
  refine ⟨(T / xs.length) ^ (1 / k), ?_, ?_⟩
  · rw [e, C37_mean _ (by simpa using hne), List.length_map, ← hT, one_eq, ifin_div _ hk0.ne', ipow _ hq]
  · have hmem : (T / xs.length) ^ (1 / k) ∈ Set.Ici (Lib.eps : ℝ) := by
      have h1 : Lib.eps ^ k ≤ T / xs.length := by rw [le_div_iff₀ hn]; exact he
      have := Real.rpow_le_rpow (Real.rpow_nonneg Lib.eps_pos.le k) h1 (by positivity : 0 ≤ 1 / k)
      rwa [← Real.rpow_mul Lib.eps_pos.le, mul_one_div_cancel hk0.ne', Real.rpow_one] at this
    refine gammaType_maximises (φ := fun v => (v ^ k)⁻¹) (C := fun x => k * x ^ (k - 1)) (s := fun _ => 1)
      (t := fun x _ => x ^ k) hmem (fun v hv => by have := hpos v hv; positivity)
      (fun x h => by have := hx x h; positivity) (fun x hxs v hv => ?_) ?_ hsum ?_
      fun v hv hne => ⟨le_rfl, .inr fun e => hne ?_⟩
    · have h0 := hpos v hv
      have hx' := hx x hxs
      have h : weibullPdf k v x = k * x ^ (k - 1) * (v ^ k)⁻¹ ^ (1 : ℝ) * Real.exp (-(x ^ k * (v ^ k)⁻¹)) := by
        rw [weibullPdf, if_pos hx', Real.rpow_one, Real.div_rpow hx'.le h0.le, Real.div_rpow hx'.le h0.le,
          Real.rpow_sub h0, Real.rpow_one, div_eq_mul_inv (x ^ k)]
        field_simp
      rw [← h]
      exact C08_dweibull hk hv x hx'
    · rw [sum_map_const']; linarith
    · rw [hpk, sum_map_const', mul_one, inv_div]
    · rw [inv_inj] at e
      exact Real.rpow_left_injOn hk0.ne' (hpos v hv).le (hpos _ hmem).le e

/-- Inverse Gaussian observations, not all equal: the mean, and one over the mean of the reciprocals less the reciprocal of the
mean. -/
theorem C69_invgauss (xs : List ℝ) (hx : ∀ x ∈ xs, 0 < x) (h : ∃ a ∈ xs, ∃ b ∈ xs, a ≠ b) :
    ∃ m l : ℝ, mean (xs.map fin) = fin m ∧
      1 / (mean (xs.map fun x => 1 / fin x) - 1 / mean (xs.map fin)) = fin l ∧
      Maximises {θ : ℝ × ℝ | 0 < θ.1 ∧ 0 < θ.2} (fun x θ => dinvgauss (fin x) (fin θ.1) (fin θ.2)) xs (m, l) := by
  have hne : xs ≠ [] := by rintro rfl; obtain ⟨a, ha, -⟩ := h; simp at ha
  have hn : (0 : ℝ) < xs.length := by exact_mod_cast List.length_pos_iff.2 hne
  obtain ⟨a, ha, -⟩ := id h
  have hsum : 0 < xs.sum := by simpa using sum_map_pos_of (f := id) (fun x h => (hx x h).le) ha (hx a ha)
  have e : (xs.map fun x => 1 / fin x) = (xs.map fun x => 1 / x).map fin := by
    rw [List.map_map]
    exact List.map_congr_left fun x h => by rw [one_eq, ifin_div _ (hx x h).ne']; rfl
  set m := xs.sum / xs.length with hm
  set q : ℝ := (xs.map fun x : ℝ => 1 / x).sum / xs.length with hq
  have hm0 : 0 < m := by positivity
  -- the sum in the exponent
  have es : ∀ μ : ℝ, 0 < μ → (xs.map fun x => (x - μ) ^ 2 / (2 * μ ^ 2 * x)).sum =
      xs.length / 2 * (q - 1 / m) + xs.length * m / 2 * (1 / μ - 1 / m) ^ 2 := by
    intro μ hμ
    have : ∀ ys : List ℝ, (∀ x ∈ ys, 0 < x) → (ys.map fun x => (x - μ) ^ 2 / (2 * μ ^ 2 * x)).sum =
        ys.sum / (2 * μ ^ 2) - ys.length / μ + (ys.map fun x => 1 / x).sum / 2 := by
      intro ys
      induction ys with
      | nil => intro _; simp
      | cons y ys ih =>
        intro hy
        have hy0 := hy y (by simp)
        simp only [List.map_cons, List.sum_cons, List.length_cons, ih fun x hx => hy x (by simp [hx])]
        push_cast; field_simp; ring
    rw [this xs hx]
    have e1 : xs.sum = xs.length * m := by rw [hm]; field_simp
    have e2 : (xs.map fun x => 1 / x).sum = xs.length * q := by rw [hq]; field_simp
    rw [e1, e2]; field_simp; ring
  have hd : 0 < q - 1 / m := by
    have h1 := es m hm0
    have h2 := sum_dev_pos (f := fun x => 1 / (2 * m ^ 2 * x)) (fun x h => by have := hx x h; positivity) h m
    simp only [mul_one_div] at h2
    rw [h1, sub_self] at h2
    have h3 : 0 < xs.length / 2 * (q - 1 / m) := by linarith
    exact (pos_iff_pos_of_mul_pos h3).1 (by positivity)
  refine ⟨m, 1 / (q - 1 / m), C37_mean xs hne, ?_, ?_⟩
  · rw [e, C37_mean _ (by simpa using hne), C37_mean xs hne, List.length_map, one_eq, ← hm, ← hq, ifin_div _ hm0.ne', ifin_sub,
      ifin_div _ hd.ne']
  · refine gammaType_maximises (φ := fun θ => θ.2) (C := fun x => √(1 / (2 * Real.pi * x ^ 3))) (s := fun _ => 1 / 2)
      (t := fun x θ => (x - θ.1) ^ 2 / (2 * θ.1 ^ 2 * x)) ⟨hm0, by positivity⟩ (fun θ hθ => hθ.2)
      (fun x h => by have := hx x h; have := Real.pi_pos; positivity) (fun x hxs θ hθ => ?_) ?_ ?_ ?_ fun θ hθ hne' => ?_
    · have hx' := hx x hxs
      have hpi := Real.pi_pos
      have h1 : 0 < θ.1 := hθ.1
      have h2 : 0 < θ.2 := hθ.2
      have h : invgaussPdf θ.1 θ.2 x = √(1 / (2 * Real.pi * x ^ 3)) * θ.2 ^ (1 / 2 : ℝ) *
          Real.exp (-((x - θ.1) ^ 2 / (2 * θ.1 ^ 2 * x) * θ.2)) := by
        rw [invgaussPdf, if_pos hx', ← Real.sqrt_eq_rpow, ← Real.sqrt_mul (by positivity)]
        congr 2 <;> ring
      rw [← h]
      exact C08_dinvgauss h1 h2 x hx'
    · rw [sum_map_const']; positivity
    · rw [es m hm0, sub_self]; positivity
    · show 1 / (q - 1 / m) = _ / (xs.map fun x => (x - m) ^ 2 / (2 * m ^ 2 * x)).sum
      rw [es m hm0, sub_self, sum_map_const']; field_simp; ring
    · show (xs.map fun x => (x - m) ^ 2 / (2 * m ^ 2 * x)).sum ≤ _ ∧
        ((xs.map fun x => (x - m) ^ 2 / (2 * m ^ 2 * x)).sum < _ ∨ _)
      rw [es m hm0, es θ.1 hθ.1, sub_self]
      by_cases h1 : θ.1 = m
      · rw [h1, sub_self]
        exact ⟨le_rfl, .inr fun e => hne' (Prod.ext h1 e)⟩
      · have h2 : 1 / θ.1 - 1 / m ≠ 0 := fun e => h1 (by
          have := sub_eq_zero.1 e
          rwa [one_div, one_div, inv_inj] at this)
        have h3 : 0 < xs.length * m / 2 * (1 / θ.1 - 1 / m) ^ 2 := by positivity
        exact ⟨by linarith, .inl (by linarith)⟩

/-! ### Counts -/

theorem ofInt_list (xs : List ℕ) : (xs.map fun x : ℕ => ofInt x) = (xs.map fun x : ℕ => (x : ℝ)).map fin := by
  rw [List.map_map]
  exact List.map_congr_left fun x _ => by rw [ofInt_eq]; simp

/-- Poisson counts, not all zero: the mean. -/
theorem C69_pois (xs : List ℕ) (h : ∃ a ∈ xs, a ≠ 0) :
    ∃ r : ℝ, mean (xs.map fun x : ℕ => ofInt x) = fin r ∧
      Maximises (Set.Ioi 0) (fun (x : ℕ) r => dpois (x : ℤ) (fin r)) xs r := by
  obtain ⟨a, ha, h0⟩ := h
  have hne : xs ≠ [] := by rintro rfl; simp at ha
  have hn : (0 : ℝ) < xs.length := by exact_mod_cast List.length_pos_iff.2 hne
  have hsum : 0 < (xs.map fun x : ℕ => (x : ℝ)).sum :=
    sum_map_pos_of (fun x _ => Nat.cast_nonneg x) ha (by exact_mod_cast Nat.pos_of_ne_zero h0)
  refine ⟨(xs.map fun x : ℕ => (x : ℝ)).sum / xs.length, ?_, ?_⟩
  · rw [ofInt_list, C37_mean _ (by simpa using hne), List.length_map]
  · refine gammaType_maximises (φ := fun r => r) (C := fun x : ℕ => 1 / (x.factorial : ℝ)) (s := fun x : ℕ => (x : ℝ))
      (t := fun _ _ => 1)
      (show (0 : ℝ) < _ by positivity) (fun r hr => hr) (fun _ _ => by positivity) (fun x hxs r hr => ?_) hsum ?_ ?_
      fun r hr hne => ⟨le_rfl, .inr hne⟩
    · have hr' : 0 < r := hr
      have h : poisPmf r (x : ℤ) = 1 / (x.factorial : ℝ) * r ^ (x : ℝ) * Real.exp (-(1 * r)) := by
        rw [poisPmf, if_pos (by omega), Int.toNat_natCast, Real.rpow_natCast, one_mul]; ring
      rw [← h]
      exact IsValue.posValue (C08_dpois hr'.le x) (by rw [h]; positivity)
    · rw [sum_map_const']; linarith
    · rw [sum_map_const', mul_one]

/-- Binomial counts out of `n`, neither all 0 nor all `n`: the mean over `n`. -/
theorem C69_binom (n : ℕ) (xs : List ℕ) (hx : ∀ x ∈ xs, x ≤ n) (h0 : ∃ a ∈ xs, a ≠ 0) (h1 : ∃ a ∈ xs, a ≠ n) :
    ∃ p : ℝ, mean (xs.map fun x : ℕ => ofInt x) / ofInt n = fin p ∧
      Maximises (Set.Ioo 0 1) (fun (x : ℕ) p => dbinom (x : ℤ) n (fin p)) xs p := by
  obtain ⟨a, ha, ha0⟩ := h0
  obtain ⟨b, hb, hbn⟩ := h1
  have hne : xs ≠ [] := by rintro rfl; simp at ha
  have hl : (0 : ℝ) < xs.length := by exact_mod_cast List.length_pos_iff.2 hne
  have hn : (0 : ℝ) < n := by
    have := hx a ha
    exact_mod_cast (by omega : 0 < n)
  have hs : 0 < (xs.map fun x : ℕ => (x : ℝ)).sum :=
    sum_map_pos_of (fun x _ => Nat.cast_nonneg x) ha (by exact_mod_cast Nat.pos_of_ne_zero ha0)
  have ht : 0 < (xs.map fun x : ℕ => ((n - x : ℕ) : ℝ)).sum :=
    sum_map_pos_of (fun x _ => Nat.cast_nonneg _) hb (by
      have := hx b hb
      exact_mod_cast (by omega : 0 < n - b))
  have hst : ∀ ys : List ℕ, (∀ x ∈ ys, x ≤ n) →
      (ys.map fun x : ℕ => (x : ℝ)).sum + (ys.map fun x : ℕ => ((n - x : ℕ) : ℝ)).sum = n * ys.length := by
    intro ys
    induction ys with
    | nil => intro _; simp
    | cons y ys ih =>
      intro hy
      have h1 := ih fun x hx => hy x (by simp [hx])
      simp only [List.map_cons, List.sum_cons, List.length_cons, Nat.cast_sub (hy y (by simp))]
      push_cast; linarith
  refine ⟨(xs.map fun x : ℕ => (x : ℝ)).sum / xs.length / n, ?_, ?_⟩
  · rw [ofInt_list, C37_mean _ (by simpa using hne), List.length_map, ofInt_eq, ifin_div _ (by exact_mod_cast hn.ne')]
    push_cast; rfl
  · refine betaType_maximises (C := fun x : ℕ => (n.choose x : ℝ)) (s := fun x : ℕ => (x : ℝ)) (t := fun x : ℕ => ((n - x : ℕ) : ℝ))
      (fun x h => by exact_mod_cast Nat.choose_pos (hx x h)) (fun x h p hp => ?_) hs ht ?_
    · have h0 : 0 < p := hp.1
      have h1 : 0 < 1 - p := by linarith [hp.2]
      have e : binomPmf n p (x : ℤ) = (n.choose x : ℝ) * p ^ (x : ℝ) * (1 - p) ^ ((n - x : ℕ) : ℝ) := by
        have := hx x h
        rw [binomPmf, if_pos (by omega), Int.toNat_natCast, Real.rpow_natCast, Real.rpow_natCast]
      rw [← e]
      have hc : (0 : ℝ) < n.choose x := by exact_mod_cast Nat.choose_pos (hx x h)
      exact IsValue.posValue (C08_dbinom n h0.le hp.2.le x) (by rw [e]; positivity)
    · rw [hst xs hx, div_div, mul_comm (n : ℝ)]

theorem bool_max {lik : Bool → ℝ → Bool → Fl} (xs : List Bool) (h1 : true ∈ xs) (h0 : false ∈ xs)
    (hl : ∀ x ∈ xs, ∀ θ ∈ Set.Ioo (0 : ℝ) 1, PosValue (lik x θ) (if x then θ else 1 - θ)) :
    Maximises (Set.Ioo 0 1) lik xs ((xs.count true : ℝ) / xs.length) := by
  have e1 := sum_true xs
  have e2 := sum_false xs
  have hc : ∀ ys : List Bool, ys.count true + ys.count false = ys.length := by
    intro ys
    induction ys with
    | nil => rfl
    | cons y ys ih => cases y <;> simp [← ih] <;> omega
  refine betaType_maximises (C := fun _ => 1) (s := fun x => if x then (1 : ℝ) else 0) (t := fun x => if x then (0 : ℝ) else 1)
    (fun _ _ => one_pos) (fun x hx θ hθ => ?_) ?_ ?_ ?_
  · have h : (if x then θ else 1 - θ) = 1 * θ ^ (if x then (1 : ℝ) else 0) * (1 - θ) ^ (if x then (0 : ℝ) else 1) := by
      cases x <;> simp
    rw [← h]; exact hl x hx θ hθ
  · rw [e1]; exact_mod_cast List.count_pos_iff.2 h1
  · rw [e2]; exact_mod_cast List.count_pos_iff.2 h0
  · rw [e1, e2, ← hc xs]; push_cast; rfl

/-- Bernoulli observations of both kinds: the mean. -/
theorem C69_bern (xs : List Bool) (h1 : true ∈ xs) (h0 : false ∈ xs) :
    ∃ p : ℝ, mean (xs.map fun x => ofInt (if x then 1 else 0)) = fin p ∧
      Maximises (Set.Ioo 0 1) (fun (x : Bool) p => dbern (if x then 1 else 0) (fin p)) xs p := by
  have hne : xs ≠ [] := by rintro rfl; simp at h1
  have e : (xs.map fun x => ofInt (if x then 1 else 0)) = (xs.map fun x => if x then (1 : ℝ) else 0).map fin := by
    rw [List.map_map]
    exact List.map_congr_left fun x _ => by rw [ofInt_eq]; cases x <;> simp
  refine ⟨xs.count true / xs.length, ?_, bool_max xs h1 h0 fun x _ p hp => ?_⟩
  · rw [e, C37_mean _ (by simpa using hne), List.length_map, sum_true]
  · have h : bernPmf p (if x then 1 else 0) = if x then p else 1 - p := by cases x <;> simp [bernPmf]
    rw [← h]
    refine IsValue.posValue (C08_dbern hp.1.le hp.2.le _) ?_
    have := hp.1
    have := hp.2
    rw [h]; split <;> linarith

/-- Rademacher observations of both kinds: half of one plus the mean. -/
theorem C69_radem (xs : List Bool) (h1 : true ∈ xs) (h0 : false ∈ xs) :
    ∃ p : ℝ, (1 + mean (xs.map fun x => ofInt (if x then 1 else -1))) / 2 = fin p ∧
      Maximises (Set.Ioo 0 1) (fun (x : Bool) p => dradem (if x then 1 else -1) (fin p)) xs p := by
  have hne : xs ≠ [] := by rintro rfl; simp at h1
  have hn : (0 : ℝ) < xs.length := by exact_mod_cast List.length_pos_iff.2 hne
  have e : (xs.map fun x => ofInt (if x then 1 else -1)) = (xs.map fun x => if x then (1 : ℝ) else -1).map fin := by
    rw [List.map_map]
    exact List.map_congr_left fun x _ => by rw [ofInt_eq]; cases x <;> simp
  have es : ∀ ys : List Bool, (ys.map fun x => if x then (1 : ℝ) else -1).sum = 2 * ys.count true - ys.length := by
    intro ys
    induction ys with
    | nil => simp
    | cons y ys ih =>
      simp only [List.map_cons, List.sum_cons, ih, List.length_cons]
      cases y <;> simp <;> ring
  refine ⟨xs.count true / xs.length, ?_, bool_max xs h1 h0 fun x _ p hp => ?_⟩
  · rw [e, C37_mean _ (by simpa using hne), List.length_map, es, one_eq, ofNat_eq, ifin_add, ifin_div _ (by norm_num)]
    congr 1; field_simp; ring
  · have h : rademPmf p (if x then 1 else -1) = if x then p else 1 - p := by cases x <;> simp [rademPmf]
    rw [← h]
    refine IsValue.posValue (C08_dradem hp.1.le hp.2.le _) ?_
    have := hp.1
    have := hp.2
    rw [h]; split <;> linarith

/-! ### Armadillo -/

theorem Spec.Maximises.unique {D Θ : Type*} {S : Set Θ} {lik : D → Θ → Bool → Fl} {xs : List D} {a b : Θ}
    (ha : Maximises S lik xs a) (hb : Maximises S lik xs b) : a = b := by
  obtain ⟨ma, La, -, ea, -, ha⟩ := ha
  obtain ⟨mb, Lb, -, eb, -, hb⟩ := hb
  by_contra hne
  have h1 := (ha b mb (Ne.symm hne)).1
  have h2 := (hb a ma hne).1
  rw [eb] at h1
  rw [ea] at h2
  simp only [fin_lt_fin] at h1 h2
  linarith

/-- `arma::var` divides by `n-1`: with Armadillo the root of `var` is not the maximum likelihood estimate, for any sample. -/
theorem C69_norm_arma_violated (xs : List ℝ) (h : ∃ a ∈ xs, ∃ b ∈ xs, a ≠ b) (m s : ℝ)
    (hs : sqrt (var_arma (xs.map fin)) = fin s) :
    ¬ Maximises {θ : ℝ × ℝ | 0 < θ.2} (fun x θ => dnorm (fin x) (fin θ.1) (fin θ.2)) xs (m, s) := by
  intro hm
  obtain ⟨m', s', -, e2, h'⟩ := C69_norm xs h
  have e := Spec.Maximises.unique hm h'
  have hss : s = s' := congrArg Prod.snd e
  have hne : xs ≠ [] := by rintro rfl; obtain ⟨a, ha, -⟩ := h; simp at ha
  have hl : 2 ≤ xs.length := by
    obtain ⟨a, ha, b, hb, hab⟩ := h
    by_contra hc
    match xs, hc with
    | [], _ => simp at ha
    | [x], _ => rw [List.mem_singleton] at ha hb; exact hab (ha.trans hb.symm)
    | _ :: _ :: _, hc => simp at hc
  have hn : (2 : ℝ) ≤ xs.length := by exact_mod_cast hl
  have hv : 0 < (xs.map fun x => (x - xs.sum / xs.length) ^ 2).sum := by
    have := sum_dev_pos (f := fun _ => 1) (fun _ _ => one_pos) h (xs.sum / xs.length)
    simpa using this
  rw [C37_var_arma xs hl, isqrt (div_nonneg hv.le (by linarith)), fin.injEq] at hs
  rw [C37_var xs hne, isqrt (div_nonneg hv.le (by linarith)), fin.injEq, ← hss, ← hs,
    Real.sqrt_inj (div_nonneg hv.le (by linarith)) (div_nonneg hv.le (by linarith)), div_eq_div_iff (by linarith) (by linarith)] at e2
  have := mul_left_cancel₀ hv.ne' e2
  linarith

end Stats

namespace Stats.ExamplesC69
open Fl Spec MatOps
open scoped Stats.Exact

example := C69_norm [1, 4, 2] ⟨1, by simp, 4, by simp, by norm_num⟩
example := C69_lnorm [1, 4, 2] (by simp) ⟨1, by simp, 4, by simp, by norm_num⟩
example := C69_laplace ![1, 4, 2] 2 ⟨0, by norm_num⟩
example := C69_exp [1, 0, 2] (by simp) ⟨1, by simp, by norm_num⟩
example := C69_invgamma (k := 3) (by norm_num) [1, 4, 2] (by simp) (by simp)
example := C69_gamma (k := 1 / 2) (by norm_num) [1, 4, 2] (by simp) (by simp) (by
  have := (Lib.eps_le : Lib.eps ≤ _)
  norm_num at this ⊢; linarith)
example := C69_weibull (k := 1) (by have := (Lib.eps_le : Lib.eps ≤ _); norm_num at this ⊢; linarith) [1, 4, 2] (by simp) (by simp) (by
  have := (Lib.eps_le : Lib.eps ≤ _)
  norm_num at this ⊢; linarith)
example := C69_norm_arma_violated [1, 4, 2] ⟨1, by simp, 4, by simp, by norm_num⟩
example := C69_invgauss [1, 4, 2] (by simp) ⟨1, by simp, 4, by simp, by norm_num⟩
example := C69_pois [0, 3, 1] ⟨3, by simp, by simp⟩
example := C69_binom 3 [0, 3, 1] (by simp) ⟨3, by simp, by simp⟩ ⟨0, by simp, by simp⟩
example := C69_bern [true, true, false] (by simp) (by simp)
example := C69_radem [true, true, false] (by simp) (by simp)

end Stats.ExamplesC69
