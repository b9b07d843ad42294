import Verif.Props.C14

/-!
# C42: Student-t quantile

Closed forms at 1, 2 and infinitely many degrees of freedom; elsewhere `qt_int_main` (Hill's algorithm) is an
approximation. The code passes `2p` to Hill's algorithm instead of `2 min(p, 1-p)`, so the result is not
antisymmetric, and it returns NaN for every `dof < 1/2`.
-/

set_option linter.unusedSectionVars false
open Classical
namespace Stats
open Fl Spec
variable [Lib] [Ideal]

theorem eps_le_one : Lib.eps ≤ (1 : ℝ) := Lib.eps_le.trans (by norm_num)
theorem eps_le_two : Lib.eps ≤ (2 : ℝ) := Lib.eps_le.trans (by norm_num)

theorem qt_one_inv : IsInv (fun u => qt u (fin 1)) (tCdfCoded 1) := by
  intro x h0 h1
  have e : tCdfCoded 1 x = 1 / 2 + Real.arctan x / Real.pi := if_pos rfl
  have hpi := Real.pi_ne_zero
  rw [e] at h0 h1 ⊢
  have e2 : Real.pi * (1 / 2 + Real.arctan x / Real.pi - 1 / 2) = Real.arctan x := by field_simp; ring
  simp only [qt, t_ok, prob_val_ok, ideal, e2, Real.tan_arctan, fin_feq_fin, h0.ne', h1.ne, gt_iff_lt, fin_lt_fin,
    not_lt.2 h0.le, not_lt.2 h1.le, eps, not_lt.2 eps_le_one]
  simp

theorem qt_two_inv : IsInv (fun u => qt u (fin 2)) (tCdfCoded 2) := by
  intro x h0 h1
  have e : tCdfCoded 2 x = 1 / 2 + x / (2 * √(x * x + 2)) := by
    rw [tCdfCoded, if_neg (by norm_num), if_pos rfl]
  rw [e] at h0 h1 ⊢
  have hs : 0 < x * x + 2 := by nlinarith [mul_self_nonneg x]
  have hr := Real.sqrt_pos.2 hs
  have hr2 : √(x * x + 2) * √(x * x + 2) = x * x + 2 := Real.mul_self_sqrt hs.le
  have e2 : 2 * (1 / 2 + x / (2 * √(x * x + 2))) - 1 = x / √(x * x + 2) := by field_simp; ring
  have e3 : 2 * (1 / 2 + x / (2 * √(x * x + 2))) * (1 - (1 / 2 + x / (2 * √(x * x + 2)))) = 1 / (x * x + 2) := by
    have : x / (2 * √(x * x + 2)) * (x / (2 * √(x * x + 2))) = x * x / (4 * (x * x + 2)) := by
      rw [div_mul_div_comm]; congr 1; nlinarith
    have h3 : 2 * (1 / 2 + x / (2 * √(x * x + 2))) * (1 - (1 / 2 + x / (2 * √(x * x + 2)))) =
      1 / 2 - 2 * (x / (2 * √(x * x + 2)) * (x / (2 * √(x * x + 2)))) := by ring
    rw [h3, this]; field_simp; ring
  have h3 : (0 : ℝ) ≤ 1 / (x * x + 2) := by positivity
  have h4 : √(1 / (x * x + 2)) ≠ 0 := by positivity
  simp only [qt, t_ok, prob_val_ok, ideal, e2, e3, isqrt h3, ifin_div _ h4, fin_feq_fin, h0.ne', h1.ne, gt_iff_lt,
    fin_lt_fin, not_lt.2 h0.le, not_lt.2 h1.le, eps, not_lt.2 eps_le_two]
  simp
  field_simp

theorem tCdf_mem {ν : ℝ} (h : ν = 1 ∨ ν = 2) (x : ℝ) : 0 < tCdfCoded ν x ∧ tCdfCoded ν x < 1 := by
  rcases h with rfl | rfl
  · have e : tCdfCoded 1 x = 1 / 2 + Real.arctan x / Real.pi := if_pos rfl
    rw [e]; exact cauchy_mem x
  · have e : tCdfCoded 2 x = 1 / 2 + x / (2 * √(x * x + 2)) := by
      rw [tCdfCoded, if_neg (by norm_num), if_pos rfl]
    have hr := Real.sqrt_pos.2 (show 0 < x * x + 2 by nlinarith [mul_self_nonneg x])
    have h1 : |x| < √(x * x + 2) := by
      rw [← Real.sqrt_mul_self_eq_abs]; exact Real.sqrt_lt_sqrt (mul_self_nonneg x) (by linarith)
    obtain ⟨a, b⟩ := abs_lt.1 h1
    rw [e]
    constructor
    · have : -(1 / 2) < x / (2 * √(x * x + 2)) := by rw [lt_div_iff₀ (by positivity)]; linarith
      linarith
    · have : x / (2 * √(x * x + 2)) < 1 / 2 := by rw [div_lt_iff₀ (by positivity)]; linarith
      linarith

theorem pt_coded {ν : ℝ} (h : Lib.eps ≤ ν) (x : ℝ) : pt (fin x) (fin ν) false = fin (tCdfCoded ν x) := by
  rw [tCdfCoded_eq (Lib.eps_pos.trans_le h), pt_fin h]

/-- one degree of freedom: `pt` and `qt` are inverse to each other -/
theorem C42_qt_one : QuantOfCdfOn (fun x => pt x (fin 1)) (fun u => qt u (fin 1)) Set.univ ∧
    CdfOfQuant (fun x => pt x (fin 1)) (fun u => qt u (fin 1)) :=
  ⟨quantOfCdfOn_of qt_one_inv (fun x _ => tCdf_mem (Or.inl rfl) x) (fun x _ => pt_coded eps_le_one x),
   cdfOfQuant_of (isCdf_tCoded one_pos) qt_one_inv (pt_coded eps_le_one)⟩

/-- two degrees of freedom -/
theorem C42_qt_two : QuantOfCdfOn (fun x => pt x (fin 2)) (fun u => qt u (fin 2)) Set.univ ∧
    CdfOfQuant (fun x => pt x (fin 2)) (fun u => qt u (fin 2)) :=
  ⟨quantOfCdfOn_of qt_two_inv (fun x _ => tCdf_mem (Or.inr rfl) x) (fun x _ => pt_coded eps_le_two x),
   cdfOfQuant_of (isCdf_tCoded two_pos) qt_two_inv (pt_coded eps_le_two)⟩

theorem C42_qt_inf : QuantOfCdfOn (fun x => pt x pinf) (fun u => qt u pinf) Set.univ ∧
    CdfOfQuant (fun x => pt x pinf) (fun u => qt u pinf) := by
  have hq : ∀ r : ℝ, 0 < r → r < 1 → qt (fin r) pinf = qnorm (fin r) (fin 0) (fin 1) := by
    intro r h0 h1
    simp [qt, t_ok, prob_val_ok, h0.ne', h1.ne, not_lt.2 h0.le, not_lt.2 h1.le]
  have hp : ∀ x : ℝ, pt (fin x) pinf false = pnorm (fin x) (fin 0) (fin 1) false := by
    intro x; simp [pt, t_ok', t_ok]
  constructor
  · intro x _
    have := C14_norm 0 one_pos x trivial
    simp only [pnorm_fin 0 one_pos] at this
    simp only [hp, pnorm_fin 0 one_pos, hq _ (Phi_pos _) (Phi_lt_one _), this]
  · intro u h0 h1
    obtain ⟨x, hx⟩ := (isCdf_norm 0 one_pos).exists_eq h0 h1
    have h2 := qnorm_inv 0 one_pos x (Phi_pos _) (Phi_lt_one _)
    simp only [hx] at h2
    simp only [hq u h0 h1, h2, hp, pnorm_fin 0 one_pos, hx]

/-- antisymmetry holds for the closed forms -/
theorem C42_qt_symm_partial {ν u : ℝ} (hν : ν = 1 ∨ ν = 2) (h0 : 0 < u) (h1 : u < 1) :
    qt (fin (1 - u)) (fin ν) = -qt (fin u) (fin ν) := by
  have a0 : ¬ u - 1 / 2 = 1 := by linarith
  rcases hν with rfl | rfl
  · have e : Real.pi * (1 - u - 1 / 2) = -(Real.pi * (u - 1 / 2)) := by ring
    have l0 : (0 : ℝ) < 1 - u := by linarith
    have l1 : (1 : ℝ) - u < 1 := by linarith
    simp only [qt, t_ok, prob_val_ok, ideal, e, Real.tan_neg, fin_feq_fin, h0.ne', h1.ne, gt_iff_lt, fin_lt_fin,
      not_lt.2 h0.le, not_lt.2 h1.le, eps, not_lt.2 eps_le_one, l0.ne', l1.ne, not_lt.2 l0.le, not_lt.2 l1.le]
    simp
  · have l0 : (0 : ℝ) < 1 - u := by linarith
    have l1 : (1 : ℝ) - u < 1 := by linarith
    have e : 2 * (1 - u) * (1 - (1 - u)) = 2 * u * (1 - u) := by ring
    have hp : 0 < 2 * u * (1 - u) := by positivity
    have hs : √(2 * u * (1 - u)) ≠ 0 := (Real.sqrt_pos.2 hp).ne'
    simp only [qt, t_ok, prob_val_ok, ideal, e, isqrt hp.le, ifin_div _ hs, fin_feq_fin, h0.ne', h1.ne, gt_iff_lt,
      fin_lt_fin, not_lt.2 h0.le, not_lt.2 h1.le, eps, not_lt.2 eps_le_two, l0.ne', l1.ne, not_lt.2 l0.le, not_lt.2 l1.le]
    simp
    ring

/-- NaN for every number of degrees of freedom below 1/2, although the t distribution exists there -/
theorem C42_qt_nan_violated {ν u : ℝ} (h : Lib.eps ≤ ν) (hν : ν < 1 / 2) (h0 : 0 < u) (h1 : u < 1) :
    qt (fin u) (fin ν) = nan := by
  have hpos := Lib.eps_pos.trans_le h
  have hd : ν - 1 / 2 ≠ 0 := by linarith
  have ha : 1 / (ν - 1 / 2) < 0 := div_neg_of_pos_of_neg one_pos (by linarith)
  have hsq : sqrt (fin (1 / (ν - 1 / 2))) = nan := by rw [sqrt, if_pos ha]
  have hmain : ∀ p : Fl, qt_int_main_iter p (fin ν) = nan := by
    intro p
    have hA : qt_int_coef_a (fin ν) = fin (1 / (ν - 1 / 2)) := by
      simp only [qt_int_coef_a, ideal, ifin_div _ hd]
    have hD : ∀ b c, qt_int_coef_d (fin ν) (fin (1 / (ν - 1 / 2))) b c = nan := by
      intro b c; rw [qt_int_coef_d, hsq]; simp
    simp only [qt_int_main_iter, hA, hD, qt_int_choose, qt_int_y_init]
    have hloop : ∀ (n : ℕ) (q x : Fl), qt_int_y_2_iter_loop q (fin ν) n nan x = nan := by
      intro n
      induction n with
      | zero => intro q x; simp [qt_int_y_2_iter_loop, qt_int_y_2_iter_val_update]
      | succ n ih => intro q x; simp [qt_int_y_2_iter_loop, qt_int_y_2_iter_val_update, ih]
    simp [pow, qt_int_y_2, qt_int_y_2_iter_begin, sqrt, hloop]
  have e1 : ¬ ν = 1 := by linarith
  have e2 : ¬ ν = 2 := by linarith
  simp only [qt, t_ok, prob_val_ok, ideal, qt_int_main, hmain, fin_feq_fin, h0.ne', h1.ne, gt_iff_lt, fin_lt_fin,
      not_lt.2 h0.le, not_lt.2 h1.le, eps, not_lt.2 h, e1, e2]
  simp

/-! ### five degrees of freedom: no antisymmetry -/

theorem Phi_one_lt : Phi 1 ≤ 9 / 10 := by
  have h0 : Phi 0 = 1 / 2 := by have := Phi_neg 0; rw [neg_zero] at this; linarith
  have hpi := Real.pi_gt_three
  have h1 : ∀ x : ℝ, deriv Phi x ≤ 2 / 5 := by
    intro x
    rw [(hasDerivAt_Phi x).deriv, normPdf]
    have hs : 5 / 2 ≤ √(2 * Real.pi) := by
      apply Real.le_sqrt_of_sq_le
      have := Real.pi_gt_d2
      norm_num at *
      linarith
    have he : Real.exp (-(x - 0) ^ 2 / (2 * 1 ^ 2)) ≤ 1 := Real.exp_le_one_iff.2 (by
      have := sq_nonneg (x - 0)
      have : 0 ≤ (x - 0) ^ 2 / (2 * 1 ^ 2) := by positivity
      rw [neg_div]; linarith)
    have h2 : 1 / (√(2 * Real.pi) * 1) ≤ 2 / 5 := by
      rw [div_le_div_iff₀ (by linarith) (by norm_num)]; linarith
    calc _ ≤ 2 / 5 * 1 := mul_le_mul h2 he (Real.exp_pos _).le (by norm_num)
      _ = 2 / 5 := mul_one _
  have := Convex.image_sub_le_mul_sub_of_deriv_le convex_univ
    (fun x _ => (hasDerivAt_Phi x).continuousAt.continuousWithinAt)
    (fun x _ => (hasDerivAt_Phi x).differentiableAt.differentiableWithinAt) (fun x _ => h1 x) 0 trivial 1 trivial zero_le_one
  rw [h0] at this
  linarith

/-- Hill's coefficients for five degrees of freedom -/
noncomputable def hillC : ℝ := 96.36 + 2 / 9 * (-16 + 2 / 9 * (-98 + 20700 * (2 / 9) / 972))
noncomputable def hillD : ℝ :=
  5 * √(2 / 9) * √(Real.pi / 2) * (1 + (-3 + 94.5 / (972 + hillC)) / 972)
noncomputable def hillC2 (x : ℝ) : ℝ := 972 + hillC + x * (-2 + x * (-7 + x * (-5 + 0.05 * x * hillD)))
noncomputable def hillY (c : ℝ) : ℝ := 1 + ((1 * (36 + 1 * (6.3 + 1 * 0.4)) + 94.5) / c - 1 - 3) / 972

theorem hillC_bounds : 80 < hillC ∧ hillC < 100 := by
  rw [hillC]; constructor <;> norm_num

theorem hillD_bounds : 14 / 5 < hillD ∧ hillD < 4 := by
  have hpi := Real.pi_gt_d2
  have hpi' := Real.pi_lt_d2
  have e : √(2 / 9) * √(Real.pi / 2) = √(Real.pi / 9) := by
    rw [← Real.sqrt_mul (by norm_num)]; congr 1; ring
  have l : 58 / 100 < √(Real.pi / 9) := by
    apply Real.lt_sqrt_of_sq_lt; norm_num at *; linarith
  have u : √(Real.pi / 9) < 6 / 10 := by
    rw [Real.sqrt_lt' (by norm_num)]; norm_num at *; linarith
  have m1 : 99 / 100 < 1 + (-3 + 94.5 / (972 + hillC)) / 972 ∧ 1 + (-3 + 94.5 / (972 + hillC)) / 972 < 1 := by
    obtain ⟨h1, h2⟩ := hillC_bounds
    have h3 : 0 < 94.5 / (972 + hillC) := by apply div_pos <;> linarith
    have h4 : 94.5 / (972 + hillC) < 1 := by rw [div_lt_one (by linarith)]; linarith
    constructor <;> linarith
  have e2 : hillD = 5 * √(Real.pi / 9) * (1 + (-3 + 94.5 / (972 + hillC)) / 972) := by
    rw [← e, hillD]; ring
  rw [e2]
  constructor <;> nlinarith [m1.1, m1.2]

theorem hillC2_bounds {x : ℝ} (h : x = 1 ∨ x = -1) : 1000 < hillC2 x := by
  obtain ⟨h1, h2⟩ := hillC_bounds
  obtain ⟨h3, h4⟩ := hillD_bounds
  rw [hillC2]
  rcases h with rfl | rfl <;> linarith

theorem hillY_bounds {c : ℝ} (h : 1000 < c) : 99 / 100 < hillY c ∧ hillY c < 2 := by
  have h3 : 0 < (1 * (36 + 1 * (6.3 + 1 * 0.4)) + 94.5 : ℝ) / c := by apply div_pos <;> linarith
  have h4 : (1 * (36 + 1 * (6.3 + 1 * 0.4)) + 94.5 : ℝ) / c < 1 := by rw [div_lt_one (by linarith)]; linarith
  rw [hillY]; constructor <;> linarith

theorem hill_value {x : ℝ} (h : x = 1 ∨ x = -1) : qt_int_main_iter (fin (2 * Phi x)) (fin 5) =
    fin √(5 * (Real.exp (2 / 9 * (x * hillY (hillC2 x)) * (x * hillY (hillC2 x))) - 1)) := by
  have hc := hillC_bounds
  have hd := hillD_bounds
  have hc2 := hillC2_bounds h
  have hy := hillY_bounds hc2
  have eA : qt_int_coef_a (fin 5) = fin (2 / 9) := by
    simp only [qt_int_coef_a, ideal, ifin_div _ (show (5 : ℝ) - 1 / 2 ≠ 0 by norm_num)]
    norm_num
  have eB : qt_int_coef_b (fin (2 / 9)) = fin 972 := by
    simp only [qt_int_coef_b, ideal, ifin_div _ (show (2 / 9 : ℝ) * (2 / 9) ≠ 0 by norm_num)]
    norm_num
  have eC : qt_int_coef_c (fin (2 / 9)) (fin 972) = fin hillC := by
    simp only [qt_int_coef_c, ideal, ifin_div _ (show (972 : ℝ) ≠ 0 by norm_num), hillC]
  have eD : qt_int_coef_d (fin 5) (fin (2 / 9)) (fin 972) (fin hillC) = fin hillD := by
    simp only [qt_int_coef_d, SQRTHALFPI, Ideal.sqrtHalfPi, ideal, isqrt (show (0 : ℝ) ≤ 2 / 9 by norm_num),
      ifin_div _ (show (972 : ℝ) + hillC ≠ 0 by linarith), ifin_div _ (show (972 : ℝ) ≠ 0 by norm_num), hillD]
  have hP : 1 / 5 ≤ 2 * Phi x := by
    have h1 := Phi_one_lt
    have h2 := Phi_neg 1
    have h3 : Phi 0 = 1 / 2 := by have := Phi_neg 0; rw [neg_zero] at this; linarith
    rcases h with rfl | rfl
    · have := strictMono_Phi (show (0 : ℝ) < 1 by norm_num); linarith
    · linarith
  have hz : 1 / 2 < hillD * (2 * Phi x) := by nlinarith
  have eY : qt_int_y_init (fin (2 * Phi x)) (fin 5) (fin hillD) = fin ((hillD * (2 * Phi x)) ^ (2 / 5 : ℝ)) := by
    simp only [qt_int_y_init, ideal, ifin_div _ (show (5 : ℝ) ≠ 0 by norm_num), ipow _ (show 0 < hillD * (2 * Phi x) by linarith)]
  have hY : 0.05 + 2 / 9 < (hillD * (2 * Phi x)) ^ (2 / 5 : ℝ) := by
    have : (1 / 2 : ℝ) ≤ (hillD * (2 * Phi x)) ^ (2 / 5 : ℝ) := by
      calc (1 / 2 : ℝ) = (1 / 2) ^ (1 : ℝ) := (Real.rpow_one _).symm
        _ ≤ (1 / 2) ^ (2 / 5 : ℝ) := Real.rpow_le_rpow_of_exponent_ge (by norm_num) (by norm_num) (by norm_num)
        _ ≤ _ := Real.rpow_le_rpow (by norm_num) hz.le (by norm_num)
    norm_num at this ⊢
    linarith
  have eQ : qnorm1 (half * fin (2 * Phi x)) = fin x := by
    have := qnorm_inv 0 one_pos x (Phi_pos _) (Phi_lt_one _)
    simp only [sub_zero, div_one] at this
    have e : 1 / 2 * (2 * Phi x) = Phi x := by ring
    simp only [ideal, e, qnorm1] at this ⊢
    rw [this]
  have hxx : x * x = 1 := by rcases h with rfl | rfl <;> norm_num
  have e1 : qt_int_y_1 (fin x) (fin 5) (fin (2 / 9)) (fin 972) (fin hillC) (fin hillD) =
      fin (Real.exp (2 / 9 * (x * hillY (hillC2 x)) * (x * hillY (hillC2 x))) - 1) := by
    have hsq : (x * hillY (hillC2 x)) * (x * hillY (hillC2 x)) = hillY (hillC2 x) * hillY (hillC2 x) := by
      rw [mul_mul_mul_comm, hxx, one_mul]
    have h01 : (0.1 : ℝ) < 2 / 9 * (x * hillY (hillC2 x)) * (x * hillY (hillC2 x)) := by
      rw [mul_assoc, hsq]; nlinarith [hy.1]
    have e5 : ¬ (5 : ℝ) < 5 := lt_irrefl _
    have i1 : ∀ (g : Fl), qt_int_coef_c_update (fin x) (fin 5) g = g := by
      intro g; simp [qt_int_coef_c_update]
    have f1 : 972 + hillC + x * (-2 + x * (-7 + x * (-5 + 0.05 * x * hillD))) = hillC2 x := rfl
    have f2 : ∀ c : ℝ, 1 + ((1 * (36 + 1 * (6.3 + 1 * 0.4)) + 94.5) / c - 1 - 3) / 972 = hillY c := fun _ => rfl
    simp only [qt_int_y_1, i1, qt_int_y_1_stage2, qt_int_y_1_stage4, ideal, f1, hxx,
      ifin_div _ (show hillC2 x ≠ 0 by linarith), ifin_div _ (show (972 : ℝ) ≠ 0 by norm_num), f2, gt_iff_lt,
      fin_lt_fin, if_pos h01]
  have e2 : 0 ≤ 5 * (Real.exp (2 / 9 * (x * hillY (hillC2 x)) * (x * hillY (hillC2 x))) - 1) := by
    have := Real.add_one_le_exp (2 / 9 * (x * hillY (hillC2 x)) * (x * hillY (hillC2 x)))
    have h0 : 0 ≤ 2 / 9 * (x * hillY (hillC2 x)) * (x * hillY (hillC2 x)) := by
      rw [mul_assoc]; exact mul_nonneg (by norm_num) (mul_self_nonneg _)
    linarith
  have e05 : lit 0.05 + fin (2 / 9) = fin (0.05 + 2 / 9) := by simp only [ideal]
  simp only [qt_int_main_iter, eA, eB, eC, eD, eY, qt_int_choose, e05, gt_iff_lt, fin_lt_fin, if_pos hY, eQ, e1]
  simp only [ideal, isqrt e2]

/-- With five degrees of freedom `qt(1-p) ≠ -qt(p)`, at `p = Φ(1)`; both are numbers. -/
theorem C42_qt_symm_violated : ∃ u r s : ℝ, 0 < u ∧ u < 1 ∧ qt (fin u) (fin 5) = fin r ∧
    qt (fin (1 - u)) (fin 5) = fin s ∧ s ≠ -r := by
  have h1 := hill_value (Or.inl rfl : (1 : ℝ) = 1 ∨ (1 : ℝ) = -1)
  have h2 := hill_value (Or.inr rfl : (-1 : ℝ) = 1 ∨ (-1 : ℝ) = -1)
  have hP0 : Phi 0 = 1 / 2 := by have := Phi_neg 0; rw [neg_zero] at this; linarith
  have hP1 := strictMono_Phi (show (0 : ℝ) < 1 by norm_num)
  have hu0 := Phi_pos 1
  have hu1 := Phi_lt_one 1
  have l0 : 0 < 1 - Phi 1 := by linarith
  have l1 : 1 - Phi 1 < 1 := by linarith
  have he5 : Lib.eps ≤ (5 : ℝ) := Lib.eps_le.trans (by norm_num)
  have g1 : qt (fin (Phi 1)) (fin 5) = qt_int_main_iter (fin (2 * Phi 1)) (fin 5) := by
    have : ¬ Phi 1 < 1 / 2 := by linarith
    simp only [qt, t_ok, prob_val_ok, ideal, qt_int_main, fin_feq_fin, hu0.ne', hu1.ne, gt_iff_lt, fin_lt_fin,
      not_lt.2 hu0.le, not_lt.2 hu1.le, eps, not_lt.2 he5, this]
    norm_num [show (fin 5 : Fl) ≠ nan from Fl.noConfusion, show ∀ r, (fin r : Fl) ≠ nan from fun _ => Fl.noConfusion]
  have g2 : qt (fin (1 - Phi 1)) (fin 5) = -qt_int_main_iter (fin (2 * Phi (-1))) (fin 5) := by
    have : 1 - Phi 1 < 1 / 2 := by linarith
    rw [Phi_neg]
    simp only [qt, t_ok, prob_val_ok, ideal, qt_int_main, fin_feq_fin, l0.ne', l1.ne, gt_iff_lt, fin_lt_fin,
      not_lt.2 l0.le, not_lt.2 l1.le, eps, not_lt.2 he5, this]
    norm_num [show (fin 5 : Fl) ≠ nan from Fl.noConfusion, show ∀ r, (fin r : Fl) ≠ nan from fun _ => Fl.noConfusion]
  rw [h1] at g1
  rw [h2, neg_fin] at g2
  refine ⟨Phi 1, _, _, hu0, hu1, g1, g2, ?_⟩
  intro hc
  have hb1 := hillC2_bounds (Or.inl rfl : (1 : ℝ) = 1 ∨ (1 : ℝ) = -1)
  have hb2 := hillC2_bounds (Or.inr rfl : (-1 : ℝ) = 1 ∨ (-1 : ℝ) = -1)
  have y1 := hillY_bounds hb1
  have y2 := hillY_bounds hb2
  have hlt : hillC2 1 < hillC2 (-1) := by rw [hillC2, hillC2]; linarith
  have hylt : hillY (hillC2 (-1)) < hillY (hillC2 1) := by
    have : (1 * (36 + 1 * (6.3 + 1 * 0.4)) + 94.5 : ℝ) / hillC2 (-1) <
        (1 * (36 + 1 * (6.3 + 1 * 0.4)) + 94.5 : ℝ) / hillC2 1 :=
      div_lt_div_of_pos_left (by norm_num) (by linarith) hlt
    rw [hillY, hillY]; linarith
  have hneg := neg_injective hc
  have hexp : Real.exp (2 / 9 * (-1 * hillY (hillC2 (-1))) * (-1 * hillY (hillC2 (-1)))) <
      Real.exp (2 / 9 * (1 * hillY (hillC2 1)) * (1 * hillY (hillC2 1))) := Real.exp_lt_exp.2 (by nlinarith [y1.1, y2.1])
  have hge : 1 ≤ Real.exp (2 / 9 * (-1 * hillY (hillC2 (-1))) * (-1 * hillY (hillC2 (-1)))) :=
    Real.one_le_exp (by nlinarith [y2.1])
  have := Real.sqrt_lt_sqrt (by linarith) (show 5 * (Real.exp (2 / 9 * (-1 * hillY (hillC2 (-1))) * (-1 * hillY (hillC2 (-1)))) - 1) <
    5 * (Real.exp (2 / 9 * (1 * hillY (hillC2 1)) * (1 * hillY (hillC2 1))) - 1) by linarith)
  exact this.ne hneg

end Stats

namespace Stats.ExamplesC42
open Fl Spec
open scoped Stats.Exact

example : pt (qt (fin (1 / 3)) (fin 2)) (fin 2) false = fin (1 / 3) := C42_qt_two.2 _ (by norm_num) (by norm_num)
example : qt (fin (1 / 3)) (fin (1 / 4)) = nan :=
  C42_qt_nan_violated (Exact.eps_le (by norm_num)) (by norm_num) (by norm_num) (by norm_num)

end Stats.ExamplesC42
