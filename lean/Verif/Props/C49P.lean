import Verif.Props.C49H
import Verif.Props.C56
import Verif.Lemmas.PoisNorm
import Mathlib.Analysis.Real.Pi.Bounds

/-!
# C49: `qpois` for rates of at least 11

The search begins at the normal approximation minus 3. The Poisson distribution function is below the normal one
shifted by 3/2 (`cumZ_pois_le_Phi`), so one and a half counts are left for rounding errors of the approximation. One of
them makes the distribution function at the start smaller than the probability by more than the error of `ppois`; then
the search cannot stop at its first test, which would return a count that is one too small.
-/

set_option linter.unusedSectionVars false
open Classical Finset
namespace Stats
open Fl Spec
variable [Lib] {u : ℝ} [R : RelLib u]

omit [Lib] R in
/-- the normal distribution function grows by at least the density further out -/
theorem Phi_step {z Z h : ℝ} (hz : |z| ≤ Z) (h0 : 0 < h) (h1 : h ≤ 1) :
    h * normPdf 0 1 (Z + 1) ≤ Phi z - Phi (z - h) := by
  obtain ⟨x, ⟨a, b⟩, e⟩ := exists_hasDerivAt_eq_slope Phi (normPdf 0 1) (show z - h < z by linarith)
    (continuous_iff_continuousAt.2 fun z => (hasDerivAt_Phi z).continuousAt).continuousOn fun x _ => hasDerivAt_Phi x
  rw [sub_sub_cancel, eq_div_iff h0.ne'] at e
  rw [← e, mul_comm]
  refine mul_le_mul_of_nonneg_right ?_ h0.le
  obtain ⟨c, d⟩ := abs_le.1 hz
  have hx : (x - 0) ^ 2 ≤ (Z + 1 - 0) ^ 2 := by
    rw [sub_zero, sub_zero, sq_le_sq, abs_of_nonneg (by linarith : 0 ≤ Z + 1)]
    exact abs_le.2 ⟨by linarith, by linarith⟩
  unfold normPdf
  refine mul_le_mul_of_nonneg_left (Real.exp_le_exp.2 ?_) (by positivity)
  norm_num at hx ⊢
  linarith

omit [Lib] R in
theorem cumZ_range (rate : ℝ) (k : ℕ) : cumZ (poisPmf rate) k = ∑ i ∈ range (k + 1), poisPmf rate i := by
  rw [cumZ_nat]

/-- the start of the search under rounding: 0, or a count where the distribution function is smaller than the
probability by the given margin -/
theorem qpois_start_near {p rate Z : ℝ} (hr : 1 ≤ rate) (hp : Lib.rnd p = p)
    (hlo : Phi (-Z) + gam u 1 * |p - 1 / 2| ≤ p) (hhi : p + gam u 1 * |p - 1 / 2| ≤ Phi Z)
    (hg : gam u 6 * (rate + 4 * (√rate * Z) + 3) ≤ 1 / 2) :
    ∃ c : ℕ, qpois_trunc_normal_approx (fin p) (fin rate) = c ∧ (c = 0 ∨
      ∑ i ∈ range (c + 1), poisPmf rate i + normPdf 0 1 (Z + 1) / √rate ≤ p + gam u 1 * |p - 1 / 2|) := by
  have hs : 1 ≤ √rate := Real.one_le_sqrt.2 hr
  have hs0 : 0 < √rate := by linarith
  have g6 := gam_nonneg R.u_nonneg R.u_lt (by norm_num : (0 : ℝ) ≤ 6)
  have g1 := gam_nonneg R.u_nonneg R.u_lt (by norm_num : (0 : ℝ) ≤ 1)
  have g16 : gam u 1 ≤ gam u 6 := gam_mono R.u_nonneg R.u_lt (by norm_num)
  obtain ⟨s, es, hsr⟩ := R.sqrt rate (by linarith)
  have s0 : 0 < s := hsr.pos R.u_lt hs0
  obtain ⟨p', q, hpp, hq, -, -, y, ey, hy⟩ := qnorm_offF (u := u) rate s0 hp
    (by linarith [Phi_pos (-Z)]) (by linarith [Phi_lt_one Z])
  obtain ⟨pa, pb⟩ := abs_le.1 hpp
  set z := (q - rate) / s with hz
  have hqz : q - rate = s * z := by rw [hz]; field_simp
  have zlo : -Z ≤ z := by
    by_contra hc
    have := strictMono_Phi (not_le.1 hc); linarith
  have zhi : z ≤ Z := by
    by_contra hc
    have := strictMono_Phi (not_le.1 hc); linarith
  have hzZ : |z| ≤ Z := abs_le.2 ⟨zlo, zhi⟩
  have Z0 : 0 ≤ Z := (abs_nonneg z).trans hzZ
  have hse : |s - √rate| ≤ gam u 1 * √rate := by
    have := hsr.err R.u_lt; rwa [abs_of_pos hs0] at this
  have g6' : gam u 6 ≤ 1 / 2 := by
    have : 0 ≤ √rate * Z := by positivity
    nlinarith
  have hs2 : s ≤ 2 * √rate := by
    have := (abs_le.1 hse).2
    nlinarith
  have hqr : |q - rate| ≤ 2 * (√rate * Z) := by
    rw [hqz, abs_mul, abs_of_pos s0]
    calc s * |z| ≤ 2 * √rate * Z := mul_le_mul hs2 hzZ (abs_nonneg _) (by positivity)
      _ = _ := by ring
  -- the approximation, computed
  have h3 : (3 : Fl) = fin 3 := by show fin ((3 : ℕ) : ℝ) = _; norm_num
  have hsq : Fl.sqrt (fin rate) = fin s := by rw [Fl.sqrt, if_neg (by linarith), es, ofE_coe]
  obtain ⟨w, ew, hw⟩ : ∃ w, qnorm (fin p) (fin rate) (Fl.sqrt (fin rate)) - 3 = fin w ∧
      |w - (q - 3)| ≤ gam u 6 * (rate + 2 * (√rate * Z) + 3) := by
    have o : OffF u 5 (rate + 2 * (√rate * Z)) q (fin y) := by
      refine ⟨by norm_num, ?_, y, rfl, ?_⟩
      · have := abs_add_le rate (q - rate)
        rw [add_sub_cancel, abs_of_pos (by linarith : 0 < rate)] at this
        linarith
      · refine hy.trans (mul_le_mul_of_nonneg_left ?_ (gam_nonneg R.u_nonneg R.u_lt (by norm_num)))
        rw [abs_of_pos (by linarith : 0 < rate)]; linarith
    have o3 := (o.sub (RelF.lift (u := u) 3).off).mono (l := 6) (n := rate + 2 * (√rate * Z) + 3) (by norm_num) (by norm_num)
    obtain ⟨-, -, w, ew, hw⟩ := o3
    exact ⟨w, by rw [hsq, ey, h3, ew], hw⟩
  have hstart : qpois_trunc_normal_approx (fin p) (fin rate) = ⌊Max.max 0 w⌋ := by
    rw [qpois_trunc_normal_approx, ew, zero_eq]
    simp only [Fl.max, fin_lt_fin]
    split_ifs with h
    · rw [toR_fin, max_eq_right h.le]
    · rw [toR_fin, max_eq_left (not_lt.1 h)]
  obtain ⟨c, hc⟩ := Int.eq_ofNat_of_zero_le (Int.floor_nonneg.2 (le_max_left 0 w))
  refine ⟨c, hstart.trans hc, ?_⟩
  rcases le_or_gt w 0 with hw0 | hw0
  · left; rw [max_eq_left hw0, Int.floor_zero] at hc; exact_mod_cast hc.symm
  right
  rw [max_eq_right hw0.le] at hc
  have hcw : (c : ℝ) ≤ w := by
    have := Int.floor_le w
    rw [hc] at this; exact_mod_cast this
  have hle := cumZ_pois_le_Phi c (show 0 < rate by linarith)
  rw [cumZ_range] at hle
  have harg : (c + 3 / 2 - rate) / √rate ≤ z - 1 / √rate := by
    rw [div_le_iff₀ hs0, sub_mul, div_mul_cancel₀ _ hs0.ne']
    have a1 := (abs_le.1 hw).2
    have a2 : s * z ≤ z * √rate + gam u 1 * (√rate * Z) := by
      have : (s - √rate) * z ≤ gam u 1 * √rate * Z := (le_abs_self _).trans (by
        rw [abs_mul]; exact mul_le_mul hse hzZ (abs_nonneg _) (by positivity))
      linarith
    have a3 : gam u 1 * (√rate * Z) ≤ gam u 6 * (√rate * Z) := mul_le_mul_of_nonneg_right g16 (by positivity)
    have a4 : 0 ≤ gam u 6 * (√rate * Z) := by positivity
    nlinarith
  have hstep := Phi_step hzZ (h := 1 / √rate) (by positivity) (by rw [div_le_one hs0]; exact hs)
  have hmono := strictMono_Phi.monotone harg
  rw [one_div_mul_eq_div] at hstep
  rw [hq] at hstep
  linarith

/-- `qpois` from rate 11 on. `Z` bounds the standard normal quantile of the probability. If the count is small enough for
the normal approximation to be off by less than half, and the density at `Z + 1` large enough against the rounding
error, the value is the quantile up to the error of `ppois`. -/
theorem C49_qpois_large_partial {p rate Z : ℝ} (hr : 11 ≤ rate) (hp : Lib.rnd p = p)
    (hlo : (∫ t in Set.Iic (-Z), normPdf 0 1 t) + gam u 1 * |p - 1 / 2| ≤ p)
    (hhi : p + gam u 1 * |p - 1 / 2| ≤ ∫ t in Set.Iic Z, normPdf 0 1 t)
    (hg : gam u 6 * (rate + 4 * (√rate * Z) + 3) ≤ 1 / 2)
    (hm : gam u 1 * |p - 1 / 2| + gam u 35 * 2 ≤ normPdf 0 1 (Z + 1) / √rate) {K : ℕ}
    (hK : K < 2 ^ 19) (hpK : p + gam u 35 * 2 < ∑ i ∈ range (K + 1), poisPmf rate i) :
    ∃ k : ℕ, k ≤ K ∧ qpois (fin p) (fin rate) = some (ofInt k) ∧
      (∀ j : ℕ, j < k → ∑ i ∈ range (j + 1), poisPmf rate i ≤ p + gam u 35 * 2) ∧
      p < ∑ i ∈ range (k + 1), poisPmf rate i + gam u 35 * 2 := by
  rw [(isCdf_norm 0 one_pos).running] at hlo hhi
  simp only [sub_zero, div_one] at hlo hhi
  have rpos : 0 < rate := by linarith
  have g1 := gam_nonneg R.u_nonneg R.u_lt (by norm_num : (0 : ℝ) ≤ 1)
  have g35 := gam_nonneg R.u_nonneg R.u_lt (by norm_num : (0 : ℝ) ≤ 35)
  have ge : 0 ≤ gam u 1 * |p - 1 / 2| := by positivity
  have h0 : 0 < p := by linarith [Phi_pos (-Z)]
  have h1 : p < 1 := by linarith [Phi_lt_one Z]
  obtain ⟨c, hc, hcc⟩ := qpois_start_near (u := u) (by linarith) hp hlo hhi hg
  have hmono : ∀ {a b : ℕ}, a ≤ b → ∑ i ∈ range (a + 1), poisPmf rate i ≤ ∑ i ∈ range (b + 1), poisPmf rate i :=
    fun {a b} h => sum_le_sum_of_subset_of_nonneg (range_mono (by omega)) fun i _ _ => poisPmf_nonneg rpos.le _
  have hcK : c ≤ K := by
    rcases hcc with h | h
    · omega
    · by_contra hlt
      have := hmono (a := K) (b := c) (by omega)
      linarith
  have hq : qpois (fin p) (fin rate) =
      runFuel (fun fuel => qpois_compute_right_search (fin p) (fin rate) fuel (ppois c (fin rate) false) c) := by
    have n1 : ¬ rate < 0 := by linarith
    have n2 : ¬ p < 0 := by linarith
    have n3 : ¬ 1 < p := by linarith
    have n4 : ¬ rate < Lib.eps := by
      have := Lib.eps_le (self := ‹Lib›); linarith
    have h11 : ¬ (fin rate : Fl) < 11 := by rw [ofNat_eq]; exact not_lt.2 (show (11 : ℝ) ≤ rate from hr)
    rw [qpois, if_neg (by simp [pois_ok, n1]), if_neg (by simp [prob_val_ok, n2, n3]), if_neg (by simp [h0.ne']),
      if_neg (by simp [eps, n4]), if_neg (by simp [h1.ne]), if_neg h11, qpois_compute_search_begin, hc]
  obtain ⟨y, ey, hy⟩ := ppois_acc (u := u) rpos (hcK.trans_lt hK)
  obtain ⟨ya, yb⟩ := abs_le.1 hy
  by_cases hle : ppois c (fin rate) false ≤ fin p
  · have hKp : ¬ ppois ((c : ℤ) + ((K - c : ℕ) : ℤ)) (fin rate) false ≤ fin p := by
      rw [show (c : ℤ) + ((K - c : ℕ) : ℤ) = (K : ℤ) by omega]
      obtain ⟨y, ey, hy⟩ := ppois_acc (u := u) rpos hK
      rw [ey]
      refine not_le.2 (show p < y from ?_)
      linarith [(abs_le.1 hy).1]
    have hex : ∃ d : ℕ, ¬ ppois ((c : ℤ) + (d : ℤ)) (fin rate) false ≤ fin p := ⟨K - c, hKp⟩
    have hspec := Nat.find_spec hex
    have hmin : ∀ j : ℕ, j < Nat.find hex → ppois ((c : ℤ) + (j : ℤ)) (fin rate) false ≤ fin p := fun j hj =>
      not_not.1 (Nat.find_min hex hj)
    have hfle : Nat.find hex ≤ K - c := Nat.find_min' hex hKp
    have hrun := qpois_search_stops (fin p) (fin rate) (Nat.find hex) _ c (by omega) hle hmin hspec
    refine ⟨c + Nat.find hex, by omega, ?_, fun j hj => ?_, ?_⟩
    · rw [hq, runFuel_eq (qpois_search_mono (fin p) (fin rate) _ _) hrun]; push_cast; rfl
    · rcases lt_or_ge j c with hjc | hjc
      · rcases hcc with h | h
        · omega
        · linarith [hmono hjc.le]
      · obtain ⟨y, ey, hy⟩ := ppois_acc (u := u) rpos (show j < 2 ^ 19 by omega)
        have := hmin (j - c) (by omega)
        rw [show (c : ℤ) + ((j - c : ℕ) : ℤ) = (j : ℤ) by omega, ey] at this
        have : y ≤ p := this
        linarith [(abs_le.1 hy).1]
    · obtain ⟨y, ey, hy⟩ := ppois_acc (u := u) rpos (show c + Nat.find hex < 2 ^ 19 by omega)
      push_cast at ey
      rw [ey] at hspec
      have : p < y := not_le.1 hspec
      linarith [(abs_le.1 hy).2]
  · have hpy : p < y := by rw [ey] at hle; exact not_le.1 hle
    have hc0 : c = 0 := by
      rcases hcc with h | h
      · exact h
      · exfalso; linarith
    subst hc0
    refine ⟨0, Nat.zero_le _, ?_, fun j hj => absurd hj (Nat.not_lt_zero j), by linarith⟩
    rw [hq]
    refine runFuel_eq (n := 1) (qpois_search_mono _ _ _ _) ?_
    rw [qpois_compute_right_search, if_neg hle, if_neg (by simp)]
    have hz := Lib.rnd_half 0 (by norm_num)
    simp only [Int.cast_zero, zero_div] at hz
    simp [ofInt, hz, ofE_coe]

end Stats

namespace Stats.ExamplesC49
open Fl Spec

set_option warn.classDefReducibility false in
attribute [local instance] wideLib
attribute [local instance] wideLib_rel

theorem gam35 : gam (1 / 2 ^ 53) 35 ≤ 1 / 10 ^ 6 := by
  have h : (1 - 1 / 2 ^ 53 : ℝ) ^ (-(35 : ℝ)) = ((1 - 1 / 2 ^ 53) ^ 35)⁻¹ := by
    rw [Real.rpow_neg (by norm_num), show (35 : ℝ) = ((35 : ℕ) : ℝ) by norm_num, Real.rpow_natCast]
  rw [gam, h, sub_le_iff_le_add, inv_le_comm₀ (by norm_num) (by norm_num)]
  refine le_trans ?_ (one_add_mul_le_pow (a := -(1 / 2 ^ 53)) (by norm_num) 35)
  norm_num

/-- the median of the Poisson distribution with rate 10000 -/
example := C49_qpois_large_partial (u := 1 / 2 ^ 53) (p := 1 / 2) (rate := 10000) (Z := 1) (K := 20000) (by norm_num)
  (by have := Lib.rnd_half 1 (by norm_num); norm_num at this ⊢)
  (by
    rw [(isCdf_norm 0 one_pos).running]
    have := strictMono_Phi (show (-1 : ℝ) < 0 by norm_num)
    have h0 : Phi 0 = 1 / 2 := by simp [Phi]
    norm_num at this ⊢; linarith)
  (by
    rw [(isCdf_norm 0 one_pos).running]
    have := strictMono_Phi (show (0 : ℝ) < 1 by norm_num)
    have h0 : Phi 0 = 1 / 2 := by simp [Phi]
    norm_num at this ⊢; linarith)
  (by
    rw [show (10000 : ℝ) = 100 ^ 2 by norm_num, Real.sqrt_sq (by norm_num)]
    have := (gam_mono (u := 1 / 2 ^ 53) (k := 6) (l := 35) (by positivity) (by norm_num) (by norm_num)).trans gam35
    norm_num at this ⊢; linarith)
  (by
    rw [show (10000 : ℝ) = 100 ^ 2 by norm_num, Real.sqrt_sq (by norm_num)]
    have g := gam35
    have e : (1 / 9 : ℝ) ≤ Real.exp (-2) := by
      rw [Real.exp_neg, one_div]
      refine inv_anti₀ (Real.exp_pos 2) ?_
      rw [show (2 : ℝ) = 1 + 1 by norm_num, Real.exp_add]
      have := Real.exp_one_lt_d9
      have := Real.exp_pos 1
      nlinarith
    have hp : √(2 * Real.pi) ≤ 3 := by
      rw [Real.sqrt_le_left (by norm_num)]; have := Real.pi_lt_d2; linarith
    have hp0 : 0 < √(2 * Real.pi) := by positivity
    have e2 : (1 / 27 : ℝ) ≤ normPdf 0 1 (1 + 1) := by
      have : (1 / 3 : ℝ) ≤ 1 / √(2 * Real.pi) := one_div_le_one_div_of_le hp0 hp
      unfold normPdf
      norm_num at this e ⊢
      nlinarith
    norm_num at g e2 ⊢; linarith)
  (by norm_num)
  (by
    have g := gam35
    have ht := (massMom_pois (rate := 10000) (by norm_num)).tail (fun k hk => poisPmf_neg hk) ((20000 : ℕ) : ℤ)
      (by norm_num)
    rw [cumZ_range] at ht
    norm_num at ht g ⊢
    linarith)

end Stats.ExamplesC49
