import Verif.Props.C16F
import Verif.Props.C49F
import Verif.Lemmas.PoisTail

/-!
# C16: the Poisson quantile falls in binary64

The search of `qpois` returns the predecessor of its starting point when the starting point is its target already. The starting point is a
normal quantile less 3; for probabilities near `2^-53` the argument `2p - 1` of the inverse error function has lost most of `p`. With rate
31684 = 178² the search for `7 * 2^-56` starts exactly at its target 30219 and returns 30218. The search for `2^-60` starts at 0 and
returns 30219.
-/

set_option linter.unusedSectionVars false
open Classical
namespace Stats
open Fl Spec

namespace C16Fall
open PoisDouble Double PoisTail
set_option warn.classDefReducibility false in
attribute [local instance] doubleLib doubleLib_mono doubleLib_inv

theorem one_R : R 1 = ((1 : ℝ) : EReal) := by simpa using R_two_pow 0 (by norm_num)

theorem zero_R : R 0 = ((0 : ℝ) : EReal) := by rw [EReal.coe_zero]; exact doubleRounding.zero

theorem int_R (n : ℤ) (h : |n| ≤ 2 ^ 19) : R n = ((n : ℝ) : EReal) := doubleRounding.int n h

/-- the computed distribution function, from the incomplete gamma function -/
theorem ppois_eq {n : ℕ} (hn : n ≤ 2 ^ 18) {g : ℝ} (hg : R (gammaP (n + 1) 31684) = (g : EReal)) :
    ppois n (fin 31684) false = ofE (R (1 - g)) := by
  have hok : pois_ok (fin 31684) := by simp [pois_ok]
  have hp : (0 : ℝ) < n + 1 := by positivity
  have hof : ofInt (n + 1) = fin (n + 1) := by
    show ofE (R _) = _
    rw [int_R _ (by rw [abs_of_nonneg (by omega)]; norm_num at hn ⊢; omega), ofE_coe]; push_cast; rfl
  have hig : igamma (fin (n + 1)) (fin 31684) = fin g := by
    show (if (n : ℝ) + 1 < 0 ∨ (31684 : ℝ) < 0 then nan else
      ofE (if (0 : ℝ) < n + 1 ∧ (0 : ℝ) ≤ 31684 then R (gammaP (n + 1) 31684) else if (31684 : ℝ) < 0 then 0 else 1)) = _
    rw [if_neg (by rintro (h | h) <;> linarith), if_pos ⟨hp, by norm_num⟩, hg, ofE_coe]
  rw [ppois, if_neg (not_not.2 hok), if_neg (by omega), if_neg (by simp), log_if_false, ppois_compute,
    if_pos (Or.inl (by rw [ofNat_eq]; norm_num)), hof, hig, one_eq, DoubleArith.dsub]

/-- before the target -/
theorem ppois_before {n : ℕ} (hn : n ≤ 30218) : ppois n (fin 31684) false = fin 0 := by
  have hF : ∑ i ∈ Finset.range (n + 1), (31684 : ℝ) ^ i * Real.exp (-31684) / i.factorial ≤ 99 / 100 / 2 ^ 54 :=
    (Finset.sum_le_sum_of_subset_of_nonneg (Finset.range_mono (by omega)) fun i _ _ => by positivity).trans PoisTail.below
  have hlo : R (1 - 99 / 100 / 2 ^ 54) = ((1 : ℝ) : EReal) := by
    have := R_near (x := 1 - 99 / 100 / 2 ^ 54) (-1) (2 ^ 53) (by norm_num) (by norm_num) (by norm_num) (by norm_num) (by norm_num)
    rw [this]; norm_num
  have h1 : R (gammaP (n + 1) 31684) = ((1 : ℝ) : EReal) :=
    le_antisymm (one_R ▸ R_mono (gammaP_lt_one (by positivity) (by norm_num)).le)
      (hlo ▸ R_mono (by rw [gammaP_nat n (by norm_num)]; linarith))
  rw [ppois_eq (hn.trans (by norm_num)) h1, sub_self, zero_R, ofE_coe]

/-- at the target -/
theorem ppois_at : ∃ g : ℝ, 1 / 2 ^ 53 ≤ g ∧ ppois 30219 (fin 31684) false = fin g := by
  have hB : R (1 - 1 / 2 ^ 53) = ((1 - 1 / 2 ^ 53 : ℝ) : EReal) := by
    have := R_near (x := 1 - 1 / 2 ^ 53) (-1) (2 ^ 53 - 1) (by norm_num) (by norm_num) (by norm_num) (by norm_num) (by norm_num)
    rw [this]; norm_num
  have hhi : R (1 - 1005 / 1000 / 2 ^ 54) = ((1 - 1 / 2 ^ 53 : ℝ) : EReal) := by
    have := R_near (x := 1 - 1005 / 1000 / 2 ^ 54) (-1) (2 ^ 53 - 1) (by norm_num) (by norm_num) (by norm_num) (by norm_num)
      (by norm_num [abs_lt])
    rw [this]; norm_num
  have h1 : R (gammaP ((30219 : ℕ) + 1) 31684) ≤ ((1 - 1 / 2 ^ 53 : ℝ) : EReal) :=
    hhi ▸ R_mono (by rw [gammaP_nat 30219 (by norm_num)]; linarith [PoisTail.above])
  have h0 : 0 ≤ R (gammaP ((30219 : ℕ) + 1) 31684) := R_nonneg (gammaP_nonneg (by positivity) (by norm_num))
  generalize hG : R (gammaP ((30219 : ℕ) + 1) 31684) = G at h0 h1
  induction G using EReal.rec with
  | bot => simp at h0
  | top => exact absurd h1 (not_le.2 (EReal.coe_lt_top _))
  | coe g =>
    have g0 : 0 ≤ g := by exact_mod_cast h0
    have g1 : g ≤ 1 - 1 / 2 ^ 53 := by exact_mod_cast h1
    have e := ppois_eq (n := 30219) (by norm_num) hG
    have lo := R_mono (show 1 / 2 ^ 53 ≤ 1 - g by linarith)
    have hi := R_mono (show 1 - g ≤ 1 by linarith)
    rw [R_pow 53 (by norm_num)] at lo
    rw [one_R] at hi
    generalize R (1 - g) = H at e lo hi
    induction H using EReal.rec with
    | bot => simp at lo
    | top => exact absurd hi (not_le.2 (EReal.coe_lt_top _))
    | coe h =>
      refine ⟨h, by exact_mod_cast lo, ?_⟩
      rw [ofE_coe] at e
      exact_mod_cast e

theorem sigma : sqrt (fin 31684) = fin 178 := by
  show (if (31684 : ℝ) < 0 then nan else ofE (R √31684)) = _
  rw [if_neg (by norm_num), show √(31684 : ℝ) = 178 by rw [show (31684 : ℝ) = 178 ^ 2 by norm_num, Real.sqrt_sq (by norm_num)]]
  have := int_R 178 (by norm_num)
  push_cast at this
  rw [this, ofE_coe]

theorem normal {p : ℝ} (p0 : 0 < p) (p1 : p < 1) :
    qnorm (fin p) (fin 31684) (fin 178) = fin 31684 + SQRT2 * fin 178 * erfInv (2 * fin p - 1) := by
  rw [qnorm, if_neg (by simp [norm_ok]), if_neg (by simp [prob_val_ok, p0.le, p1.le]), if_neg (by simp),
    if_neg (by simp), if_neg (by simp [p0.ne']), if_neg (by simp [p1.ne]), qnorm_compute]

/-- the scale of the normal quantile -/
theorem scale : ∃ t : ℝ, SQRT2 * fin 178 = fin t ∧ 251.73 ≤ t ∧ t ≤ 251.732 := by
  obtain ⟨a, b⟩ := ExamplesC49.sqrt2_near
  obtain ⟨t, e, h1, h2⟩ := ExamplesC49.R_pos (x := Lib.sqrt2 * 178) (by norm_num; linarith) (ExamplesC49.le_big (by norm_num; linarith))
  exact ⟨t, by rw [SQRT2, DoubleArith.dmul, e, ofE_coe], by norm_num at h1 ⊢; linarith, by norm_num at h2 ⊢; linarith⟩

/-- the search for `2^-60` starts at 0 -/
theorem start_u : qpois_trunc_normal_approx (fin (1 / 2 ^ 60)) (fin 31684) = 0 := by
  obtain ⟨t, et, t1, -⟩ := scale
  have t0 : 0 < t := lt_of_lt_of_le (by norm_num) t1
  have arg : 2 * fin (1 / 2 ^ 60) - 1 = fin (-1) := by
    have h1 : (2 : Fl) * fin (1 / 2 ^ 60) = fin (1 / 2 ^ 59) := by
      rw [ofNat_eq 2, DoubleArith.dmul, show (OfNat.ofNat 2 : ℝ) * (1 / 2 ^ 60) = 1 / 2 ^ 59 by norm_num, R_pow 59 (by norm_num), ofE_coe]
    rw [h1, one_eq, DoubleArith.dsub, show (1 : ℝ) / 2 ^ 59 - 1 = -(1 - 1 / 2 ^ 59) by ring, R_neg,
      R_near (x := 1 - 1 / 2 ^ 59) (-1) (2 ^ 53) (by norm_num) (by norm_num) (by norm_num) (by norm_num) (by norm_num), ← EReal.coe_neg, ofE_coe]
    norm_num
  have inv : erfInv (2 * fin (1 / 2 ^ 60) - 1) = ninf := by rw [arg, erfInv]; norm_num
  have hq := normal (p := 1 / 2 ^ 60) (by norm_num) (by norm_num)
  rw [inv, et, fin_mul_ninf, if_neg t0.ne', if_pos t0] at hq
  rw [qpois_trunc_normal_approx, sigma, hq]
  simp [Fl.max, sub_def, ofNat_eq, zero_eq, toR]

/-- the inverse error function at the argument of the second search -/
theorem quantile {x : ℝ} (hx : Spec.erf x = 1 - 1 / 2 ^ 52) : 5.8045 ≤ x ∧ x ≤ 5.8068 := by
  have p0 : 0 < √Real.pi := Real.sqrt_pos.2 Real.pi_pos
  constructor
  · by_contra hc
    have h := strictMono_erf (not_le.1 hc)
    have b := le_erfc (y := 5.8045) (by norm_num)
    have p : √Real.pi ≤ 1.77246 := Real.sqrt_le_iff.2 ⟨by norm_num, by have := Real.pi_lt_d6; norm_num at this ⊢; linarith⟩
    have a : (2 * 5.8045 / (1.77246 * (1 + 2 * 5.8045 ^ 2)) : ℝ) ≤ 2 * 5.8045 / (√Real.pi * (1 + 2 * 5.8045 ^ 2)) :=
      div_le_div_of_nonneg_left (by norm_num) (by positivity) (mul_le_mul_of_nonneg_right p (by norm_num))
    have e : (1.3597 / 2.718281829 ^ 34 : ℝ) ≤ Real.exp (-5.8045 ^ 2) := by
      rw [show (-5.8045 ^ 2 : ℝ) = 0.30777975 - 34 by norm_num, Real.exp_sub]
      refine div_le_div₀ (Real.exp_pos _).le ?_ (Real.exp_pos _) e34.2
      exact le_trans (by norm_num) (le_exp_taylor (x := 0.30777975) (by norm_num))
    have := mul_le_mul a e (by norm_num) (by positivity)
    norm_num at this h b hx
    linarith
  · by_contra hc
    have h := strictMono_erf (not_le.1 hc)
    have b := erfc_le (y := 5.8068) (by norm_num)
    have p : (1.77245 : ℝ) ≤ √Real.pi := Real.le_sqrt_of_sq_le (by have := Real.pi_gt_d6; norm_num at this ⊢; linarith)
    have e : Real.exp (-5.8068 ^ 2) ≤ (1.3247 / 2.718281828 ^ 34 : ℝ) := by
      rw [show (-5.8068 ^ 2 : ℝ) = 0.28107376 - 34 by norm_num, Real.exp_sub]
      refine div_le_div₀ (by norm_num) ?_ (by norm_num) e34.1
      exact (exp_taylor_le (x := 0.28107376) (by norm_num) (by norm_num)).trans (by norm_num)
    have := div_le_div₀ (by norm_num) e (by norm_num) (mul_le_mul_of_nonneg_right p (by norm_num : (0 : ℝ) ≤ 5.8068))
    norm_num at this h b hx
    linarith

/-- the search for `7 * 2^-56` starts at its target -/
theorem start_v : qpois_trunc_normal_approx (fin (7 / 2 ^ 56)) (fin 31684) = 30219 := by
  obtain ⟨t, et, t1, t2⟩ := scale
  have arg : 2 * fin (7 / 2 ^ 56) - 1 = fin (-(1 - 1 / 2 ^ 52)) := by
    have h1 : (2 : Fl) * fin (7 / 2 ^ 56) = fin (7 / 2 ^ 55) := by
      rw [ofNat_eq 2, DoubleArith.dmul, show (OfNat.ofNat 2 : ℝ) * (7 / 2 ^ 56) = 7 / 2 ^ 55 by norm_num,
        R_near (x := 7 / 2 ^ 55) (-53) (7 * 2 ^ 50) (by norm_num) (by norm_num) (by norm_num) (by norm_num) (by norm_num), ofE_coe]
      norm_num
    rw [h1, one_eq, DoubleArith.dsub, show (7 : ℝ) / 2 ^ 55 - 1 = -(1 - 7 / 2 ^ 55) by ring, R_neg,
      R_near (x := 1 - 7 / 2 ^ 55) (-1) (2 ^ 53 - 2) (by norm_num) (by norm_num) (by norm_num) (by norm_num) (by norm_num [abs_lt]),
      ← EReal.coe_neg, ofE_coe]
    norm_num
  obtain ⟨x, hx⟩ := exists_erf (y := 1 - 1 / 2 ^ 52) (by norm_num) (by norm_num)
  obtain ⟨x1, x2⟩ := quantile hx
  obtain ⟨w, ew, w1, w2⟩ := ExamplesC49.R_pos (x := x) (le_trans (by norm_num) x1) (ExamplesC49.le_big (x2.trans (by norm_num)))
  have inv : erfInv (2 * fin (7 / 2 ^ 56) - 1) = fin (-w) := by
    rw [arg, erfInv, if_neg (by norm_num), if_neg (by norm_num), if_neg (by norm_num)]
    show ofE (R (invOn Spec.erf Set.univ (-(1 - 1 / 2 ^ 52)))) = _
    rw [← hx, ← erf_neg, invOn_apply strictMono_erf.injective.injOn (Set.mem_univ (-x)), R_neg, ew, ← EReal.coe_neg, ofE_coe]
  have w1' : 5.8044 ≤ w := by norm_num at w1 x1 ⊢; linarith
  have w2' : w ≤ 5.8069 := by norm_num at w2 x2 ⊢; linarith
  obtain ⟨m, em, m1, m2⟩ := ExamplesC49.R_pos (x := t * w) (le_trans (by norm_num) (mul_le_mul t1 w1' (by norm_num) (by linarith)))
    (ExamplesC49.le_big (le_trans (mul_le_mul t2 w2' (by linarith) (by norm_num)) (by norm_num)))
  have tw1 : 251.73 * 5.8044 ≤ t * w := mul_le_mul t1 w1' (by norm_num) (by linarith)
  have tw2 : t * w ≤ 251.732 * 5.8069 := mul_le_mul t2 w2' (by linarith) (by norm_num)
  have m1' : 1461.1 ≤ m := by norm_num at m1 tw1 ⊢; linarith
  have m2' : m ≤ 1461.8 := by norm_num at m2 tw2 ⊢; linarith
  obtain ⟨a, ea, a1, a2⟩ := ExamplesC49.R_pos (x := 31684 + -m) (by norm_num at m2' ⊢; linarith) (ExamplesC49.le_big (by norm_num at m1' ⊢; linarith))
  have a1' : 30222.1 ≤ a := by norm_num at a1 m2' ⊢; linarith
  have a2' : a ≤ 30222.95 := by norm_num at a2 m1' ⊢; linarith
  obtain ⟨b, eb, b1, b2⟩ := ExamplesC49.R_pos (x := a - 3) (by norm_num at a1' ⊢; linarith) (ExamplesC49.le_big (by norm_num at a2' ⊢; linarith))
  have b1' : 30219 ≤ b := by norm_num at b1 a1' ⊢; linarith
  have b2' : b < 30220 := by norm_num at b2 a2' ⊢; linarith
  have hq := normal (p := 7 / 2 ^ 56) (by norm_num) (by norm_num)
  rw [inv, et, DoubleArith.dmul, mul_neg, R_neg, em, ← EReal.coe_neg, ofE_coe, DoubleArith.dadd, ea, ofE_coe] at hq
  have h3 : fin a - 3 = fin b := by
    rw [ofNat_eq 3, DoubleArith.dsub, show a - (OfNat.ofNat 3 : ℝ) = a - 3 from rfl, eb, ofE_coe]
  rw [qpois_trunc_normal_approx, sigma, hq, h3, Fl.max, if_pos (by simp [zero_eq]; linarith)]
  show ⌊b⌋ = 30219
  rw [Int.floor_eq_iff]
  push_cast
  exact ⟨b1', by linarith⟩

theorem run {p : ℝ} (p0 : 0 < p) (p1 : p < 1) : qpois (fin p) (fin 31684) =
    qpois_compute_search_begin (fin p) (fin 31684) (qpois_trunc_normal_approx (fin p) (fin 31684)) := by
  have hr1 : Lib.eps ≤ (31684 : ℝ) := Lib.eps_le.trans (by norm_num)
  have a : pois_ok (fin 31684) := by simp [pois_ok]
  have b : prob_val_ok (fin p) := by simp [prob_val_ok, p0.le, p1.le]
  rw [qpois, if_neg (not_not.2 a), if_neg (not_not.2 b), if_neg (by simp [p0.ne']), if_neg (by simp [eps, hr1]),
    if_neg (by simp [p1.ne]), if_neg (by rw [ofNat_eq]; norm_num)]

/-- Binary64: of two probabilities the smaller has the larger quantile. -/
theorem C16_qpois_double_violated : qpois (fin (1 / 2 ^ 60)) (fin 31684) = some (fin 30219) ∧
    qpois (fin (7 / 2 ^ 56)) (fin 31684) = some (fin 30218) := by
  obtain ⟨g, hg, eg⟩ := ppois_at
  have of : ∀ n : ℤ, |n| ≤ 2 ^ 19 → ofInt n = fin n := fun n h => by
    show ofE (R _) = _
    rw [int_R n h, ofE_coe]
  constructor
  · obtain ⟨k', -, ek, -⟩ := C20_qpois_double_partial (rate := 31684) (by norm_num) (by norm_num) (u := 1 / 2 ^ 60)
      (by norm_num) (by norm_num)
    have hs := ek
    rw [run (by norm_num) (by norm_num), start_u] at hs
    obtain ⟨m, hx⟩ := runFuel_eq_some hs
    cases m with
    | zero => simp [qpois_compute_right_search] at hx
    | succ m =>
      have z : ppois 0 (fin 31684) false = fin 0 := by exact_mod_cast ppois_before (n := 0) (by norm_num)
      rw [qpois_compute_right_search, if_pos (by rw [z]; norm_num)] at hx
      obtain ⟨k, hk, ex, stop, before⟩ := qpois_search_found _ _ m 0 _ le_rfl hx
      rw [ek, ex]
      have k1 : 30219 ≤ k := by
        by_contra hc
        obtain ⟨n, rfl⟩ := Int.eq_ofNat_of_zero_le hk
        apply stop
        have := ppois_before (n := n) (by omega)
        rw [show ((n : ℕ) : ℤ) = Int.ofNat n from rfl] at this
        erw [this]
        norm_num
      have k2 : k ≤ 30219 := by
        by_contra hc
        have := before 30219 (by norm_num) (by omega)
        rw [eg] at this
        simp at this
        norm_num at this hg
        linarith
      rw [le_antisymm k2 k1, of _ (by norm_num)]
      norm_num
  · rw [run (by norm_num) (by norm_num), start_v, qpois_compute_search_begin]
    refine runFuel_eq (n := 1) (qpois_search_mono _ _ _ _) ?_
    rw [qpois_compute_right_search, if_neg, if_pos (by norm_num), of _ (by norm_num)]
    · norm_num
    · rw [eg]
      simp
      norm_num at hg ⊢
      linarith

/-- Binary64: the integer returned is not even a quantile of the Poisson distribution, whose distribution function is below the
probability there. -/
theorem C19_qpois_double_violated : qpois (fin (7 / 2 ^ 56)) (fin 31684) = some (fin 30218) ∧
    cumZ (poisPmf 31684) (30218 : ℕ) < 7 / 2 ^ 56 := by
  refine ⟨C16_qpois_double_violated.2, ?_⟩
  rw [cumZ_pois (by norm_num), gammaP_nat _ (by norm_num), sub_sub_cancel]
  refine PoisTail.below.trans_lt ?_
  norm_num

end C16Fall
end Stats
