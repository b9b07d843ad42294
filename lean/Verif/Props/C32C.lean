import Verif.Props.C32B

/-!
# C32 in binary64: beta and F draws with small shapes

With an ideal engine `rbeta(2^-11, 2^-11)` and `rf(2^-10, 2^-10)` are NaN with positive probability: both gamma draws underflow to 0.
-/

set_option linter.unusedSectionVars false
open Classical MeasureTheory
namespace Stats
open Fl Spec

namespace C32Double
open Double DoubleArith C28Double
set_option warn.classDefReducibility false in
attribute [local instance] doubleLib

theorem btwR {a b x : ℝ} (ha : R a = (a : EReal)) (hb : R b = (b : EReal)) (h1 : a ≤ x) (h2 : x ≤ b) :
    ∃ y : ℝ, ofE (R x) = fin y ∧ a ≤ y ∧ y ≤ b := by
  have h1 := R_mono h1
  have h2 := R_mono h2
  rw [ha] at h1
  rw [hb] at h2
  generalize R x = z at h1 h2
  induction z using EReal.rec with
  | bot => exact absurd h1 (not_le.2 (EReal.bot_lt_coe _))
  | top => exact absurd h2 (not_le.2 (EReal.coe_lt_top _))
  | coe r => exact ⟨r, ofE_coe _, EReal.coe_le_coe_iff.1 h1, EReal.coe_le_coe_iff.1 h2⟩

theorem R0 : R 0 = ((0 : ℝ) : EReal) := doubleRounding.zero
theorem Rz (n : ℤ) (h : |n| ≤ 2 ^ 19) : R (n : ℝ) = ((n : ℝ) : EReal) := doubleRounding.int n h
theorem R1 : R 1 = ((1 : ℝ) : EReal) := by exact_mod_cast Rz 1 (by norm_num)
theorem R2 : R 2 = ((2 : ℝ) : EReal) := by exact_mod_cast Rz 2 (by norm_num)
theorem R4 : R 4 = ((4 : ℝ) : EReal) := by exact_mod_cast Rz 4 (by norm_num)
theorem R64 : R (1 / 64) = ((1 / 64 : ℝ) : EReal) := by
  have := R_pow (e := 6) (by norm_num); norm_num at this ⊢; exact this
theorem R65 : R (65 / 64) = ((65 / 64 : ℝ) : EReal) := by
  rw [R_near 0 (65 * 2 ^ 46) (by norm_num) (by norm_num) (by norm_num) (by norm_num) (by norm_num)]; norm_num
theorem R17 : R (17 / 16) = ((17 / 16 : ℝ) : EReal) := by
  rw [R_near 0 (17 * 2 ^ 48) (by norm_num) (by norm_num) (by norm_num) (by norm_num) (by norm_num)]; norm_num
theorem Rn16 : R (-(1 / 16)) = ((-(1 / 16) : ℝ) : EReal) := by
  have := R_pow (e := 4) (by norm_num); norm_num at this
  rw [R_neg]; norm_num; exact this
theorem Rn8 : R (-(1 / 8)) = ((-(1 / 8) : ℝ) : EReal) := by
  have := R_pow (e := 3) (by norm_num); norm_num at this
  rw [R_neg]; norm_num; exact this

theorem log_half {u : ℝ} (u0 : 0 < u) (u1 : u ≤ 1 / 2) {y : ℝ} (hy : -(1 / 8) ≤ y) : log (fin u) < fin y := by
  rw [log_fin, if_neg (by linarith), if_neg u0.ne']
  show ofE (R (Real.log u)) < fin y
  have hl : Real.log u ≤ -(1 / 2) := by
    have := Real.log_le_sub_one_of_pos u0
    linarith
  have hr := R_mono hl
  rw [R_neg, show (1 / 2 : ℝ) = 1 / 2 ^ 1 by norm_num, R_pow (e := 1) (by norm_num)] at hr
  generalize R (Real.log u) = z at hr
  induction z using EReal.rec with
  | bot => exact trivial
  | top => exact absurd hr (not_le.2 (by rw [← EReal.coe_neg]; exact EReal.coe_lt_top _))
  | coe r =>
    rw [← EReal.coe_neg, EReal.coe_le_coe_iff] at hr
    rw [ofE_coe, fin_lt_fin]; norm_num at hr; linarith

section
variable {S : Type*} [Engine S]

/-- The first attempt is accepted for normal variates in `[0, 1/64]` and uniform variates up to 1/2. -/
theorem loop_accept {d c z u : ℝ} (d1 : 1 / 2 ≤ d) (d2 : d ≤ 2) (c1 : 1 / 8 ≤ c) (c2 : c ≤ 1) {s s1 s2 : S}
    (hz : rnorm 0 1 s = (fin z, s1)) (z0 : 0 ≤ z) (z1 : z ≤ 1 / 64) (hu : runif 0 1 s1 = (fin u, s2)) (u0 : 0 < u) (u1 : u ≤ 1 / 2) :
    ∃ V, rgamma_loop (fin d) (fin c) 1 s = some (V, s2) := by
  have c0 : 0 < c := by linarith
  have a1 : (fin z : Fl) > -1 / fin c := by
    obtain ⟨w, ew, w1, -⟩ := R_range (x := 1 / c) (j := 0) (k := 3) (by norm_num) (by norm_num)
      (by rw [pow_zero, le_div_iff₀ c0]; linarith) (by rw [div_le_iff₀ c0]; linarith)
    rw [one_eq, neg_fin, ddiv _ c0.ne', neg_div, R_neg, ew, ← EReal.coe_neg, ofE_coe]
    norm_num at w1
    simp; linarith
  obtain ⟨p, ep, p0, p1⟩ := btwR (x := c * z) R0 R64 (by positivity) (by nlinarith)
  obtain ⟨q, eq, q0, q1⟩ := btwR (x := 1 + p) R1 R65 (by linarith) (by linarith)
  obtain ⟨v, ev, v0, v1⟩ := btwR (x := q ^ 3) R1 R17 (one_le_pow₀ q0)
    ((pow_le_pow_left₀ (by linarith) q1 3).trans (by norm_num))
  have a2 : powi (1 + fin c * fin z) 3 = fin v := by
    rw [dmul, ep, one_eq, dadd, eq]
    show ofE (R (q ^ 3)) = _
    rw [ev]
  obtain ⟨l, el, l0, l1⟩ := btwR (x := Real.log v) R0 R1 (Real.log_nonneg v0)
    (by have := Real.log_le_sub_one_of_pos (show 0 < v by linarith); linarith)
  have a3 : log (fin v) = fin l := by
    rw [log_fin, if_neg (by linarith), if_neg (by linarith)]
    show ofE (R (Real.log v)) = _
    rw [el]
  obtain ⟨m, em, m0, m1⟩ := btwR (x := 1 - v) Rn16 R0 (by linarith) (by linarith)
  obtain ⟨n, en, n0, n1⟩ := btwR (x := m + l) Rn16 R1 (by linarith) (by linarith)
  obtain ⟨g, eg, g0, g1⟩ := btwR (x := d * n) Rn8 R2 (by nlinarith) (by nlinarith)
  obtain ⟨h, eh, h0, h1⟩ := btwR (x := 1 / 2 * z) R0 R1 (by linarith) (by linarith)
  obtain ⟨k, ek, k0, k1⟩ := btwR (x := h * z) R0 R1 (by positivity) (by nlinarith)
  obtain ⟨y, ey, y0, y1⟩ := btwR (x := k + g) Rn8 R4 (by linarith) (by linarith)
  have a4 : half * fin z * fin z + fin d * (1 - fin v + log (fin v)) = fin y := by
    have hh : half = fin (1 / 2) := rfl
    rw [a3, hh, dmul, eh, dmul, ek, one_eq, dsub, em, dadd, en, dmul, eg, dadd, ey]
  refine ⟨fin v, ?_⟩
  simp only [rgamma_loop]
  rw [hz]
  simp only [if_pos a1, a2, hu, a4, if_pos (log_half u0 u1 y0)]

/-- One gamma draw with shape `2^-11`, accepted at the first attempt. -/
theorem gamma_accept {θ z u w : ℝ} (hθ : 1 ≤ θ) {s s0 s1 s2 : S} (hw : runif 0 1 s = (fin w, s0))
    (hz : rnorm 0 1 s0 = (fin z, s1)) (z0 : 0 ≤ z) (z1 : z ≤ 1 / 64) (hu : runif 0 1 s1 = (fin u, s2)) (u0 : 0 < u) (u1 : u ≤ 1 / 2) :
    ∃ g : Fl, rgamma (fin (1 / 2 ^ 11)) (fin θ) s = some (g, s2) := by
  have e1 : (1 : Fl) + fin (1 / 2 ^ 11) = fin (1 + 1 / 2 ^ 11) := by
    rw [one_eq, dadd, R_near 0 (2 ^ 52 + 2 ^ 41) (by norm_num) (by norm_num) (by norm_num) (by norm_num) (by norm_num), ofE_coe]
    norm_num
  have e2 : ∃ t : ℝ, (1 : Fl) / 3 = fin t ∧ 1 / 4 ≤ t ∧ t ≤ 1 / 2 := by
    have h := R_near (x := 1 / 3) (-2) 6004799503160661 (by norm_num) (by norm_num) (by norm_num) (by norm_num) (by norm_num [abs_lt])
    refine ⟨_, by rw [one_eq, ofNat_eq 3, ddiv _ (by norm_num), show (1 / OfNat.ofNat 3 : ℝ) = 1 / 3 from rfl, h, ofE_coe], by norm_num, by norm_num⟩
  obtain ⟨t, et, t1, t2⟩ := e2
  obtain ⟨d, ed, d1, d2⟩ := fin_range (x := 1 + 1 / 2 ^ 11 - t) (i := 1) (k := 1) (by norm_num) (by norm_num) (by norm_num; linarith) (by norm_num; linarith)
  have ed : fin (1 + 1 / 2 ^ 11) - fin t = fin d := by rw [dsub, ed]
  norm_num at d1 d2
  obtain ⟨r, er, r1, r2⟩ := fin_range (x := √d) (i := 1) (k := 1) (by norm_num) (by norm_num)
    (Real.le_sqrt_of_sq_le (by norm_num; linarith)) (Real.sqrt_le_iff.2 ⟨by norm_num, by norm_num; linarith⟩)
  have er : sqrt (fin d) = fin r := by
    show (if d < 0 then nan else ofE (R √d)) = _
    rw [if_neg (by linarith), er]
  norm_num at r1 r2
  have r0 : 0 < r := by linarith
  obtain ⟨c, ec, c1, c2⟩ := fin_range (x := t / r) (i := 3) (k := 0) (by norm_num) (by norm_num)
    (by rw [le_div_iff₀ r0]; linarith) (by rw [div_le_iff₀ r0]; linarith)
  have ec : fin t / fin r = fin c := by rw [ddiv _ r0.ne', ec]
  norm_num at c1 c2
  obtain ⟨V, hV⟩ := loop_accept (by linarith) d2 (by linarith) c2 hz z0 z1 hu u0 u1
  have hl := runFuel_eq (gloop_mono (fin d) (fin c) s0) hV
  have ok (a : ℝ) (ha : 0 ≤ a) : gamma_ok (fin a) (fin θ) := by
    have : ¬ θ < 1 / 2 ^ 52 := by norm_num; linarith
    simp [gamma_ok, eps, deps, ha]; norm_num at this ⊢; exact this
  have h1 : rgamma_rec 1 (fin (1 + 1 / 2 ^ 11)) (fin θ) s0 = some (fin d * V * fin θ, s2) := by
    rw [rgamma_rec, if_neg (not_not.2 (ok _ (by positivity))), if_pos (by rw [one_eq]; simp)]
    simp only [et, ed, er, ec, hl]
    rfl
  refine ⟨fin d * V * fin θ * pow (fin w) (1 / fin (1 / 2 ^ 11)), runFuel_eq (grec_mono _ _ _) (n := 2) ?_⟩
  rw [rgamma_rec, if_neg (not_not.2 (ok _ (by positivity))), if_neg (by rw [one_eq, gt_iff_lt, fin_lt_fin]; norm_num)]
  simp only [hw, e1, h1]
  rfl
end

theorem rnorm_draw {S : Type*} [Engine S] {s s1 : S} {x : ℝ} (h : Engine.norm s = (x, s1)) (h0 : 0 ≤ x) (h1 : x ≤ 1 / 64) :
    ∃ z : ℝ, rnorm 0 1 s = (fin z, s1) ∧ 0 ≤ z ∧ z ≤ 1 / 64 := by
  obtain ⟨y, ey, y0, y1⟩ := btwR (x := x) R0 R64 h0 h1
  obtain ⟨z, ez, z0, z1⟩ := btwR (x := y) R0 R64 y0 y1
  refine ⟨z, ?_, z0, z1⟩
  simp only [rnorm]
  rw [if_neg (by simp [norm_ok, zero_eq, one_eq]), h, zero_eq, one_eq, dmul, one_mul, ey, dadd, zero_add, ez]

variable {S : Type*} [MeasurableSpace S] [Engine S] {P : Measure S}

/-- With positive probability both gamma draws are accepted at once and both of their uniform variates are at most 5/8. -/
theorem both_low (hP : FairEngine P) {θ : ℝ} (hθ : 1 ≤ θ) {Q : S → Prop} (hQ : ∀ᵐ s ∂P, Q s)
    (h : ∀ s, Q s → ∀ (u w : ℝ) (x : Fl × S), (runif 0 1 s).1 = fin u → u ≤ 5 / 8 → rgamma (fin (1 / 2 ^ 11)) (fin θ) s = some x →
      (runif 0 1 x.2).1 = fin w → w ≤ 5 / 8 → False) : False := by
  have := hP.prob
  obtain ⟨n1, n2⟩ := next_small
  obtain ⟨U, M, d, eu⟩ := unif_draw hP
  obtain ⟨Z, K, dz, ez⟩ := hasLaw_iff.1 hP.norm
  have hs : SFinite (densLaw (unifPdf (Lib.next 0 1) 1)) := by unfold densLaw; infer_instance
  have pu := d.isProb
  have d2 := d.comp dz
  have d3 := d2.comp d
  have d4 := d3.comp d
  have hU : densLaw (unifPdf (Lib.next 0 1) 1) (Set.Icc (1 / 8) (1 / 2)) ≠ 0 := by
    have hm : Measurable (unifPdf (Lib.next 0 1) 1) := by
      unfold unifPdf
      exact Measurable.ite measurableSet_Icc measurable_const measurable_const
    rw [densLaw, Ne, withDensity_apply_eq_zero' hm.ennreal_ofReal.aemeasurable]
    have h4 : {x | ENNReal.ofReal (unifPdf (Lib.next 0 1) 1 x) ≠ 0} ∩ Set.Icc (1 / 8) (1 / 2) = Set.Icc (1 / 8 : ℝ) (1 / 2) := by
      refine Set.inter_eq_right.2 fun x hx => ?_
      have : 0 < unifPdf (Lib.next 0 1) 1 x := by
        rw [unifPdf, if_pos ⟨by linarith [hx.1], by linarith [hx.2]⟩]
        have : 0 < 1 - Lib.next 0 1 := by linarith
        positivity
      simpa using this
    rw [h4, Real.volume_Icc]
    norm_num
  have hN : densLaw (normPdf 0 1) (Set.Icc 0 (1 / 64)) ≠ 0 := by
    rw [densLaw, Ne, withDensity_apply_eq_zero' (Measurable.aemeasurable (by unfold normPdf; fun_prop))]
    have h3 : {x | ENNReal.ofReal (normPdf 0 1 x) ≠ 0} ∩ Set.Icc 0 (1 / 64) = Set.Icc (0 : ℝ) (1 / 64) :=
      Set.inter_eq_right.2 fun x _ => by simpa using normPdf_pos' one_pos x
    rw [h3, Real.volume_Icc]
    norm_num
  set B := ((Set.Icc (1 / 8 : ℝ) (1 / 2) ×ˢ Set.Icc (0 : ℝ) (1 / 64)) ×ˢ Set.Icc (1 / 8 : ℝ) (1 / 2)) ×ˢ Set.Icc (1 / 8 : ℝ) (1 / 2) with hB
  have mB : MeasurableSet B := ((measurableSet_Icc.prod measurableSet_Icc).prod measurableSet_Icc).prod measurableSet_Icc
  have key : ∀ᵐ s ∂P, (((U s, Z (M s)), U (K (M s))), U (M (K (M s)))) ∉ B := by
    filter_upwards [hQ, eu, d.ae ez, d2.ae eu, d3.ae eu] with s q h1 h2 h3 h4 hm
    obtain ⟨⟨⟨b1, b2⟩, b3⟩, b4⟩ := hm
    simp only at b1 b2 b3 b4
    have hz : Engine.norm (M s) = (Z (M s), K (M s)) := by
      have := Option.some.inj h2
      simp only [Prod.mk.injEq, Fl.fin.injEq] at this
      exact Prod.ext this.1 this.2
    obtain ⟨z, ez, z0, z1⟩ := rnorm_draw hz b2.1 b2.2
    obtain ⟨g, hg⟩ := gamma_accept hθ h1 ez z0 z1 h3 (by linarith [b3.1]) b3.2
    exact h s q (U s) (U (M (K (M s)))) _ (by rw [h1]) (by linarith [b1.2]) hg (by rw [h4]) (by linarith [b4.2])
  have h2 : P.map (fun s => (((U s, Z (M s)), U (K (M s))), U (M (K (M s))))) B = 0 := by
    rw [Measure.map_apply d4.mX mB]
    exact measure_eq_zero_iff_ae_notMem.2 key
  rw [d4.fst, hB, Measure.prod_prod, Measure.prod_prod, Measure.prod_prod] at h2
  simp only [mul_eq_zero, hU, hN, or_self] at h2

/-- C32 fails in binary64 for `rbeta(2^-11, 2^-11)`: it is NaN with positive probability. -/
theorem C32_rbeta_double_violated (hP : FairEngine P) (D : Measure ℝ) : ¬ HasLaw P (rbeta (fin (1 / 2 ^ 11)) (fin (1 / 2 ^ 11))) D := by
  rintro ⟨X, N, -, -, e, -⟩
  refine both_low hP le_rfl e fun s hs u w x hu u1 hx hw w1 => ?_
  have := C28_rbeta_double_violated (by rw [one_eq]; exact hx) hs hu u1 hw w1
  exact absurd this (by simp)

/-- C32 fails in binary64 for `rf(2^-10, 2^-10)`: it is NaN with positive probability. -/
theorem C32_rf_double_violated (hP : FairEngine P) (D : Measure ℝ) : ¬ HasLaw P (rf (fin (1 / 2 ^ 10)) (fin (1 / 2 ^ 10))) D := by
  rintro ⟨X, N, -, -, e, -⟩
  refine both_low hP one_le_two e fun s hs u w x hu u1 hx hw w1 => ?_
  have hc : rchisq (fin (1 / 2 ^ 10)) s = some x := by
    rw [rchisq, if_neg (by simp [chisq_ok]), half_dof, ofNat_eq 2]; exact hx
  have := C28_rf_double_violated hc hs hu u1 hw w1
  exact absurd this (by simp)

example : ¬ HasLaw Tape.tapeLaw (rbeta (fin (1 / 2 ^ 11)) (fin (1 / 2 ^ 11))) (densLaw (betaPdf (1 / 2 ^ 11) (1 / 2 ^ 11))) :=
  C32_rbeta_double_violated Tape.fair _

end C32Double
end Stats
