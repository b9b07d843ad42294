import Verif.Props.C59B
import Verif.Props.C49H
import Mathlib.Analysis.Calculus.MeanValue

/-!
# C49 and C59 for the Weibull family with any shape

`1/shape` is rounded, so `qweibull` computes the quantile of a slightly different shape. Seen from the shape that was
asked for, this is the quantile of a probability off by at most `gam u 2`.
-/

set_option linter.unusedSectionVars false
open Classical MeasureTheory
namespace Stats
open Fl Spec

theorem ylogy_le {y : ℝ} (hy : 0 < y) : Real.exp (-y) * (y * |Real.log y|) ≤ 1 := by
  have he : 1 + y + y ^ 2 / 2 + y ^ 3 / 6 ≤ Real.exp y := by
    have := Real.sum_le_exp_of_nonneg hy.le 4
    simp [Finset.sum_range_succ, Nat.factorial] at this
    linarith
  have key : y * |Real.log y| ≤ Real.exp y := by
    rcases le_total y 1 with h | h
    · rw [abs_of_nonpos (Real.log_nonpos hy.le h)]
      have := Real.one_sub_inv_le_log_of_pos hy
      have h2 : y * (-Real.log y) ≤ y * (y⁻¹ - 1) := by gcongr; linarith
      rw [mul_sub, mul_inv_cancel₀ hy.ne'] at h2
      nlinarith
    · rw [abs_of_nonneg (Real.log_nonneg h)]
      have := Real.log_le_sub_one_of_pos hy
      have h2 : y * Real.log y ≤ y * (y - 1) := by gcongr
      nlinarith [mul_nonneg hy.le (sq_nonneg (y - 3 / 2 - 1)), sq_nonneg (y - 2)]
  rw [Real.exp_neg, inv_mul_le_iff₀ (Real.exp_pos y), mul_one]
  exact key

/-- changing the exponent of `L` moves `exp (-L)` by at most the relative change -/
theorem exp_rpow_le {L t a : ℝ} (hL : 0 < L) (ha : 0 < a) (ha1 : a ≤ 1) (ht : a ≤ t) :
    |Real.exp (-L ^ t) - Real.exp (-L)| ≤ |t - 1| / a := by
  have h : ∀ s ∈ Set.Ici a, HasDerivWithinAt (fun s => Real.exp (-L ^ s)) (Real.exp (-L ^ s) * -(L ^ s * Real.log L)) (Set.Ici a) s :=
    fun s _ => ((Real.hasStrictDerivAt_const_rpow hL s).hasDerivAt.neg.exp).hasDerivWithinAt
  have hb : ∀ s ∈ Set.Ici a, ‖Real.exp (-L ^ s) * -(L ^ s * Real.log L)‖ ≤ 1 / a := by
    intro s hs
    have s0 : 0 < s := ha.trans_le hs
    have y0 : 0 < L ^ s := Real.rpow_pos_of_pos hL s
    have := ylogy_le y0
    rw [Real.log_rpow hL, abs_mul, abs_of_pos s0] at this
    rw [Real.norm_eq_abs, abs_mul, abs_of_pos (Real.exp_pos _), abs_neg, abs_mul, abs_of_pos y0, le_div_iff₀ ha]
    have h1 : 0 ≤ Real.exp (-L ^ s) * (L ^ s * |Real.log L|) := by positivity
    have hs' : a ≤ s := hs
    nlinarith
  have := (convex_Ici a).norm_image_sub_le_of_norm_hasDerivWithin_le h hb (x := 1) (y := t) ha1 ht
  rw [Real.rpow_one, Real.norm_eq_abs, Real.norm_eq_abs] at this
  rwa [div_eq_mul_one_div, mul_comm]

section exact
variable [Lib] [NextLib] [Ideal] {S : Type*} [MeasurableSpace S] {P : Measure S} [IsProbabilityMeasure P] [Engine S] {η : ℝ}

/-- `rweibull` against the Weibull distribution function at every point (`pweibull` cuts off small arguments) -/
theorem C59_rweibull (hP : UnifNear P η) {k θ : ℝ} (hk : Lib.eps ≤ k) (hθ : Lib.eps ≤ θ) :
    DrawCdf P (fun s => some (rweibull (fin k) (fin θ) s)) (fun x => fin (∫ t in Set.Iic x, weibullPdf k θ t)) Set.univ
      (η + Lib.next 0 1) :=
  drawCdf_inv hP (fun s => by rw [rweibull, if_neg (by simp [weibull_ok, eps, hk, hθ]), zero_eq, one_eq])
    (isCdf_weibull (Lib.eps_pos.trans_le hk) (Lib.eps_pos.trans_le hθ)) (qweibull_inv hk hθ)
    fun x _ => congrArg fin ((isCdf_weibull (Lib.eps_pos.trans_le hk) (Lib.eps_pos.trans_le hθ)).running x)

/-- `rlnorm` against the log-normal distribution function at every point -/
theorem C59_rlnorm (hP : NormNear P η) (mu : ℝ) {sigma : ℝ} (h : 0 < sigma) :
    DrawCdf P (fun s => some (rlnorm (fin mu) (fin sigma) s)) 
      (fun x => fin (∫ t in Set.Iic x, lnormPdf mu sigma t)) Set.univ η := by
  intro x _
  refine ⟨_, congrArg fin ((isCdf_lnorm mu h).running x), ?_⟩
  have er : ∀ s : S, rlnorm (fin mu) (fin sigma) s = (fin (Real.exp (mu + sigma * (Engine.norm s).1)), (Engine.norm s).2) := by
    intro s
    simp [rlnorm, lnorm_ok, rnorm, norm_ok, h.le, ideal]
  simp only [er]
  by_cases h0 : 0 < x
  · have hx := hP.2 ((Real.log x - mu) / sigma)
    rw [(isCdf_norm 0 one_pos).running, sub_zero, div_one] at hx
    rw [if_pos h0]
    convert hx using 4
    ext s
    simp only [Set.mem_ofPred_eq]
    rw [le_div_iff₀ h]
    constructor
    · rintro ⟨v, s', h1, h2⟩
      simp only [Option.some.injEq, Prod.mk.injEq, fin.injEq] at h1
      rw [← h1.1, ← Real.le_log_iff_exp_le h0] at h2
      linarith
    · exact fun h => ⟨_, _, rfl, by rw [← Real.le_log_iff_exp_le h0]; linarith⟩
  · rw [if_neg h0]
    have hη : 0 ≤ η := (abs_nonneg _).trans (hP.2 0)
    have e0 : {s : S | ∃ v s', some (fin (Real.exp (mu + sigma * (Engine.norm s).1)), (Engine.norm s).2) = some (fin v, s') ∧ v ≤ x} = ∅ :=
      Set.eq_empty_of_forall_notMem fun s => by
        rintro ⟨v, s', h1, h2⟩
        simp only [Option.some.injEq, Prod.mk.injEq, fin.injEq] at h1
        have := Real.exp_pos (mu + sigma * (Engine.norm s).1)
        rw [h1.1] at this
        linarith
    rw [e0, measureReal_empty, sub_self, abs_zero]
    exact hη

end exact

variable [Lib] {u : ℝ} [R : RelLib u]

theorem C49_qweibull_any {shape scale p : ℝ} (hk : Lib.eps ≤ shape) (hs : Lib.eps ≤ scale) (h0 : 0 < p) (h1 : p < 1) :
    ∃ p' q, 0 < q ∧ |p' - p| ≤ gam u 2 ∧ (∫ t in Set.Iic q, weibullPdf shape scale t) = p' ∧
      RelAcc u (1 / (shape * (1 - u)) + 2) (qweibull (fin p) (fin shape) (fin scale)) q := by
  have pk := Lib.eps_pos.trans_le hk
  have ps := Lib.eps_pos.trans_le hs
  have hu : 0 < 1 - u := by linarith [R.u_lt]
  have u0 := R.u_nonneg
  have hl : 0 < -Real.log (1 - p) := by
    have := Real.log_neg (by linarith : 0 < 1 - p) (by linarith); linarith
  obtain ⟨r, er, t, t1, t2, rfl⟩ := R.rnd (1 / shape)
  rw [Real.rpow_one] at t1
  rw [Real.rpow_neg hu.le, Real.rpow_one] at t2
  have t0 : 0 < t := hu.trans_le t1
  have hr0 : 0 < 1 / shape * t := by positivity
  have hq : 0 < scale * (-Real.log (1 - p)) ^ (1 / shape * t) := by positivity
  refine ⟨1 - Real.exp (-(-Real.log (1 - p)) ^ t), scale * (-Real.log (1 - p)) ^ (1 / shape * t), hq, ?_, ?_, ?_⟩
  · have h := exp_rpow_le hl hu (by linarith) t1
    rw [neg_neg, Real.exp_log (by linarith)] at h
    rw [show 1 - Real.exp (-(-Real.log (1 - p)) ^ t) - p = -(Real.exp (-(-Real.log (1 - p)) ^ t) - (1 - p)) by ring, abs_neg]
    refine h.trans ?_
    have ht : |t - 1| ≤ u / (1 - u) := by
      have e : (1 - u)⁻¹ = 1 + u / (1 - u) := by field_simp; ring
      have e2 : u ≤ u / (1 - u) := by rw [le_div_iff₀ hu]; nlinarith
      rw [e] at t2
      exact abs_le.2 ⟨by linarith, by linarith⟩
    rw [gam, Real.rpow_neg hu.le, show (2 : ℝ) = ((2 : ℕ) : ℝ) by norm_num, Real.rpow_natCast]
    calc |t - 1| / (1 - u) ≤ u / (1 - u) / (1 - u) := by gcongr
      _ ≤ ((1 - u) ^ 2)⁻¹ - 1 := by
        rw [div_div, ← sq, le_sub_iff_add_le, div_add_one (by positivity), inv_eq_one_div]
        gcongr
        nlinarith
  · rw [(isCdf_weibull pk ps).running, if_pos hq]
    rw [mul_div_cancel_left₀ _ ps.ne', ← Real.rpow_mul hl.le, mul_right_comm, one_div_mul_cancel pk.ne', one_mul]
  · have e1 : (1 : Fl) / fin shape = fin (1 / shape * t) := by
      have : (1 : Fl) = fin 1 := by show fin ((1 : ℕ) : ℝ) = _; norm_num
      rw [this]
      show (if shape = 0 then _ else ofE (Lib.rnd (1 / shape))) = _
      rw [if_neg pk.ne', er, ofE_coe]
    obtain ⟨w, ew, hw⟩ := R.log1p (-p) (by linarith)
    have l : RelF u 1 (-Real.log (1 - p)) (-log1p (-fin p)) := by
      refine ⟨zero_le_one, -w, ?_, ?_⟩
      · have : (-fin p : Fl) = fin (-p) := rfl
        rw [this, log1p, if_neg (by linarith), if_neg (by linarith), ew, ofE_coe]; rfl
      · have := hw.neg; rwa [← sub_eq_add_neg] at this
    have r := (RelF.lift (u := u) scale).mul (l.pow hl hr0.le)
    have hv : qweibull (fin p) (fin shape) (fin scale) = fin scale * pow (-log1p (-fin p)) (fin (1 / shape * t)) := by
      have n1 : ¬ shape < Lib.eps := by linarith
      have n2 : ¬ scale < Lib.eps := by linarith
      have n3 : ¬ p < 0 := by linarith
      have n4 : ¬ 1 < p := by linarith
      have n5 : ¬ p = 1 := by linarith
      have n6 : ¬ shape = 0 := by linarith
      rw [← e1]
      simp [qweibull, qweibull_compute, weibull_ok, prob_val_ok, eps, n1, n2, n3, n4, n5, n6, h0.ne']
    rw [hv]
    refine (r.mono ?_).relAcc
    have : 1 / shape * t ≤ 1 / (shape * (1 - u)) := by
      rw [one_div (shape * (1 - u)), mul_inv, ← one_div shape]; gcongr
    linarith

variable [NextLib] {S : Type*} [MeasurableSpace S] {P : Measure S} [IsProbabilityMeasure P] [Engine S] {η : ℝ}

theorem C59_rweibull_round (hP : UnifNear P η) {k θ : ℝ} (hk : Lib.eps ≤ k) (hθ : Lib.eps ≤ θ) :
    Sandwich P (fun s => some (rweibull (fin k) (fin θ) s)) (weibullPdf k θ)
      (fun x => x - gam u (1 / (k * (1 - u)) + 2) * |x|) (fun x => x + gam u (1 / (k * (1 - u)) + 2) * |x|)
      (gam u 2 + η + Lib.next 0 1) := by
  have pk := Lib.eps_pos.trans_le hk
  have pθ := Lib.eps_pos.trans_le hθ
  have hb : 0 < 1 - u := by linarith [R.u_lt]
  have g0 := gam_nonneg R.u_nonneg R.u_lt (by positivity : (0 : ℝ) ≤ 1 / (k * (1 - u)) + 2)
  have g2 := gam_nonneg R.u_nonneg R.u_lt (by positivity : (0 : ℝ) ≤ 2)
  have hF := isCdf_weibull pk pθ
  generalize hm : 1 / (k * (1 - u)) + 2 = m at *
  have := sandwich_of (P := P) hP (g := fun s => some (rweibull (fin k) (fin θ) s))
    (val := fun p => some (qweibull p (fin k) (fin θ)))
    (fun s => by rw [rweibull, if_neg (by simp [weibull_ok, eps, hk, hθ]), zero_eq, one_eq]; rfl) hF
    (lo := fun x => x - gam u m * |x|) (hi := fun x => x + gam u m * |x|)
    (κ := gam u 2) (β := 0) (B := ∅) (fun U _ _ _ _ => by simp) g2 (fun p h0 h1 _ => by
      obtain ⟨p', q, q0, hp', hq, v, ev, t, t1, t2, rfl⟩ := C49_qweibull_any (u := u) hk hθ h0 h1
      rw [hm] at t1 t2
      rw [hF.running] at hq
      have t0 : 0 < t := (Real.rpow_pos_of_pos hb _).trans_le t1
      have t1' : 1 ≤ t * (1 + gam u m) := by
        rw [gam, add_sub_cancel, Real.rpow_neg hb.le, ← div_eq_mul_inv, one_le_div (Real.rpow_pos_of_pos hb _)]
        exact t1
      have t2' : t ≤ 1 + gam u m := by rw [gam]; linarith
      refine ⟨q * t, q, congrArg some ev, ?_, fun x hx => ?_, fun x hx => ?_⟩
      · show |(if 0 < q then 1 - Real.exp (-(q / θ) ^ k) else 0) - p| ≤ _
        rw [hq]; exact hp'
      · have x0 : 0 < x := (mul_pos q0 t0).trans_le hx
        show q ≤ x + _ * |x|
        rw [abs_of_pos x0]
        nlinarith
      · have hx' : q ≤ x - gam u m * |x| := hx
        have x0 : 0 < x := by
          have := mul_nonneg g0 (abs_nonneg x)
          linarith
        rw [abs_of_pos x0] at hx'
        generalize gam u m = g at *
        have : q * t ≤ (x - g * x) * (1 + g) := mul_le_mul hx' t2' t0.le (q0.le.trans hx')
        nlinarith [mul_nonneg (mul_nonneg g0 g0) x0.le])
  convert this using 1
  ring

/-- `rpois` with a rate below 11: the counter starts at 0, and each probability `P(X ≤ K)` is off by the error of `ppois`
and of the engine only. -/
theorem C59_rpois_round (hP : UnifNear P η) {rate : ℝ} (hr : Lib.eps ≤ rate) (hr' : rate < 11) {K : ℕ} (hK : K < 2 ^ 19) :
    |P.real {s | ∃ v s', rpois (fin rate) s = some (fin v, s') ∧ v ≤ K} - ∑ i ∈ Finset.range (K + 1), poisPmf rate i| ≤
      2 * gam u 35 + η + Lib.next 0 1 := by
  have rpos := Lib.eps_pos.trans_le hr
  have g := gam_nonneg R.u_nonneg R.u_lt (by norm_num : (0 : ℝ) ≤ 35)
  have hδ0 : 0 < Lib.next 0 1 := NextLib.next_gt 0 1 one_pos
  obtain ⟨U, mU, eU, hU, h1, h2⟩ := unit_near hP
  have er : ∀ s, rpois (fin rate) s = (qpois (fin (U s)) (fin rate)).map fun v => (v, (runif (fin 0) (fin 1) s).2) := fun s => by
    rw [rpois, if_neg (by simp [pois_ok, rpos.le]), zero_eq, one_eq]
    simp only [eU]
  set F := ∑ i ∈ Finset.range (K + 1), poisPmf rate i with hF
  have F0 : 0 ≤ F := Finset.sum_nonneg fun i _ => poisPmf_nonneg rpos.le (i : ℤ)
  have F1 : F ≤ 1 := by
    have := sum_le_hasSum ((Finset.range (K + 1)).map ⟨Nat.cast, Nat.cast_injective⟩) (fun i _ => poisPmf_nonneg rpos.le i)
      (hasSum_pois rate)
    simpa [Finset.sum_map] using this
  have hint : ∀ n : ℕ, n ≤ 2 ^ 19 → Lib.rnd (n : ℝ) = ((n : ℝ) : EReal) := fun n hn => by
    have := Lib.rnd_half (2 * (n : ℤ)) (by rw [abs_of_nonneg (by positivity)]; norm_num; omega)
    push_cast at this
    rwa [mul_div_cancel_left₀ _ two_ne_zero] at this
  have lower : {s | U s < F - gam u 35 * 2} ⊆ {s | ∃ v s', rpois (fin rate) s = some (fin v, s') ∧ v ≤ K} := by
    intro s hs
    have hs : U s < F - gam u 35 * 2 := hs
    obtain ⟨k, hk, e, -, -⟩ := C49_qpois_partial (u := u) (hU s).1 (hU s).2 hr hr' hK (by rw [← hF]; linarith)
    have ek : ofInt (k : ℤ) = fin (k : ℝ) := by
      rw [ofInt, Int.cast_natCast, hint k (by omega), ofE_coe]
    exact ⟨k, _, by rw [er, e, ek]; rfl, by exact_mod_cast hk⟩
  have upper : {s | ∃ v s', rpois (fin rate) s = some (fin v, s') ∧ v ≤ K} ⊆ {s | U s ≤ F + gam u 35 * 2} := by
    rintro s ⟨v, s', e, hv⟩
    rw [er] at e
    have hu := hU s
    have hq : qpois (fin (U s)) (fin rate) =
        runFuel (fun fuel => qpois_compute_right_search (fin (U s)) (fin rate) fuel 0 0) := by
      have n1 : ¬ rate < 0 := by linarith
      have n2 : ¬ U s < 0 := by linarith
      have n3 : ¬ 1 < U s := by linarith
      have n4 : ¬ rate < Lib.eps := by linarith
      have h11 : (fin rate : Fl) < 11 := by rw [ofNat_eq]; exact hr'
      rw [qpois, if_neg (by simp [pois_ok, n1]), if_neg (by simp [prob_val_ok, n2, n3]), if_neg (by simp [hu.1.ne']),
        if_neg (by simp [eps, n4]), if_neg (by simp [hu.2.ne]), if_pos h11]
    have hz : (0 : Fl) ≤ fin (U s) := by rw [zero_eq]; exact hu.1.le
    by_cases hex : ∃ d : ℕ, ¬ ppois (0 + (d : ℤ)) (fin rate) false ≤ fin (U s)
    · have hrun := qpois_search_stops (fin (U s)) (fin rate) (Nat.find hex) 0 0 le_rfl hz
        (fun j hj => not_not.1 (Nat.find_min hex hj)) (Nat.find_spec hex)
      have hspec := Nat.find_spec hex
      generalize Nat.find hex = d at hrun hspec
      rw [hq, runFuel_eq (qpois_search_mono _ _ 0 0) hrun, zero_add] at e
      have ev : ofInt (d : ℤ) = fin v := by simpa using (by simpa using e : ofInt (d : ℤ) = fin v ∧ _).1
      have hd : d ≤ K := by
        by_contra hc
        have h := Lib.rnd_mono (show ((K + 1 : ℕ) : ℝ) ≤ d by exact_mod_cast (not_le.1 hc))
        rw [hint (K + 1) (by omega)] at h
        rw [ofInt, Int.cast_natCast] at ev
        obtain ⟨y, ey, -⟩ := R.rnd (d : ℝ)
        rw [ey] at ev h
        have : y = v := by simpa using ev
        have h3 : ((K + 1 : ℕ) : ℝ) ≤ y := by exact_mod_cast h
        push_cast at h3
        linarith
      obtain ⟨y, ey, hy⟩ := ppois_acc (u := u) rpos (hd.trans_lt hK)
      rw [zero_add, ey] at hspec
      have h3 : U s < y := not_le.1 hspec
      have h4 : ∑ i ∈ Finset.range (d + 1), poisPmf rate i ≤ F :=
        Finset.sum_le_sum_of_subset_of_nonneg (Finset.range_mono (by omega)) fun i _ _ => poisPmf_nonneg rpos.le (i : ℤ)
      have := (abs_le.1 hy).2
      show U s ≤ _
      linarith
    · push Not at hex
      rw [hq, runFuel_eq_none fun n => qpois_search_none _ _ n _ 0 hz hex] at e
      simp at e
  have a := h1 (F - gam u 35 * 2) (by linarith)
  have a' := measureReal_mono (μ := P) lower
  have b := h2 (F + gam u 35 * 2) (by positivity)
  have b' := measureReal_mono (μ := P) upper
  exact abs_le.2 ⟨by linarith, by linarith⟩

end Stats

/-! ### Instances -/

namespace Stats.ExamplesC59
open Fl Spec Coarse

section low
open scoped Low
attribute [local instance] lowLib_next

example : DrawCdf law (fun s => some (rweibull (fin 3) (fin 2) s)) (fun x => fin (∫ t in Set.Iic x, weibullPdf 3 2 t))
    Set.univ (1 / fine + Lib.next 0 1) := C59_rweibull unifNear (Low.eps_le (by norm_num)) (Low.eps_le (by norm_num))
example : DrawCdf law (fun s => some (rlnorm (fin 1) (fin 2) s)) (fun x => fin (∫ t in Set.Iic x, lnormPdf 1 2 t))
    Set.univ (1 / fine) := C59_rlnorm normNear 1 (by norm_num)
end low

section wide
set_option warn.classDefReducibility false in
attribute [local instance] wideLib
attribute [local instance] wideLib_rel
attribute [local instance] wideLib_next

/-- shape 3, whose reciprocal is not a binary fraction -/
example := C49_qweibull_any (u := 1 / 2 ^ 53) (shape := 3) (scale := 2) (p := 1 / 4) (Lib.eps_le.trans (by norm_num))
  (Lib.eps_le.trans (by norm_num)) (by norm_num) (by norm_num)
example : Sandwich law (fun s => some (rweibull (fin 3) (fin 2) s)) (weibullPdf 3 2)
    (fun x => x - gam (1 / 2 ^ 53) (1 / (3 * (1 - 1 / 2 ^ 53)) + 2) * |x|)
    (fun x => x + gam (1 / 2 ^ 53) (1 / (3 * (1 - 1 / 2 ^ 53)) + 2) * |x|)
    (gam (1 / 2 ^ 53) 2 + 1 / fine + Lib.next 0 1) :=
  C59_rweibull_round unifNear (Lib.eps_le.trans (by norm_num)) (Lib.eps_le.trans (by norm_num))
example : |law.real {s | ∃ v s', rpois (fin 3) s = some (fin v, s') ∧ v ≤ (4 : ℕ)} - ∑ i ∈ Finset.range (4 + 1), poisPmf 3 i| ≤
    2 * gam (1 / 2 ^ 53) 35 + 1 / fine + Lib.next 0 1 :=
  C59_rpois_round unifNear (Lib.eps_le.trans (by norm_num)) (by norm_num) (by norm_num)
end wide

end Stats.ExamplesC59
