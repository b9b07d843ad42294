import Verif.Lemmas.Round
import Verif.Double

/-!
# A 53-bit instance of the standard model

`wideLib`: round-to-nearest-even with 53 significant bits and no bounds on the exponent, library functions
correctly rounded. It meets `RelLib (2^-53)`, and its rounding is that of binary64 (`Verif/Double.lean`) for all
numbers of size `2^-1022` to `2^1023`.
-/

set_option warn.classDefReducibility false

open Classical Set
namespace Stats
namespace Wide
open Double (rne rne_mono rne_int le_rne rne_le_int floor_le_rne rne_le zpow_pos')

noncomputable def q (x : ℝ) : ℤ := Int.log 2 x - 52

noncomputable def mag (x : ℝ) : ℝ := if x ≤ 0 then 0 else rne (x / 2 ^ q x) * 2 ^ q x

noncomputable def R (x : ℝ) : ℝ := if 0 ≤ x then mag x else -mag (-x)

theorem log_le {x : ℝ} (hx : 0 < x) : (2 : ℝ) ^ Int.log 2 x ≤ x := by
  exact_mod_cast Int.zpow_log_le_self (b := 2) (by norm_num) hx

theorem lt_log (x : ℝ) : x < 2 ^ (Int.log 2 x + 1) := by
  exact_mod_cast Int.lt_zpow_succ_log_self (b := 2) (by norm_num) x

theorem rne_err (z : ℝ) : |(rne z : ℝ) - z| ≤ 1 / 2 := by
  have h1 := Int.fract_nonneg z
  have h2 := (Int.fract_lt_one z).le
  have h3 : z = ⌊z⌋ + Int.fract z := (Int.floor_add_fract z).symm
  rw [rne]
  split_ifs with a b c <;> rw [abs_le] <;> push_cast <;> constructor <;> linarith

/-- relative error of the rounding -/
theorem mag_err {x : ℝ} (hx : 0 < x) : |mag x - x| ≤ x / 2 ^ 53 := by
  have p := zpow_pos' (q x)
  have e : mag x - x = (rne (x / 2 ^ q x) - x / 2 ^ q x) * 2 ^ q x := by
    rw [mag, if_neg hx.not_ge]; field_simp
  have h := rne_err (x / 2 ^ q x)
  have h2 : (2 : ℝ) ^ q x * 2 ^ 52 ≤ x := by
    have : (2 : ℝ) ^ q x * 2 ^ 52 = 2 ^ Int.log 2 x := by
      rw [← zpow_natCast, ← zpow_add₀ (by norm_num), q]; congr 1; push_cast; ring
    rw [this]; exact log_le hx
  rw [e, abs_mul, abs_of_pos p]
  calc _ ≤ 1 / 2 * 2 ^ q x := mul_le_mul_of_nonneg_right h p.le
    _ ≤ x / 2 ^ 53 := by
      rw [le_div_iff₀ (by positivity)]; nlinarith

theorem mag_of_mul {x : ℝ} (hx : 0 < x) {k j : ℤ} (hk : x = k * 2 ^ j) (hj : q x ≤ j) : mag x = x := by
  rw [mag, if_neg hx.not_ge]
  obtain ⟨n, hn⟩ := Int.eq_ofNat_of_zero_le (sub_nonneg.2 hj)
  have h2 : x / 2 ^ q x = ((k * 2 ^ n : ℤ) : ℝ) := by
    have : j = q x + n := by omega
    rw [div_eq_iff (zpow_pos' _).ne']
    calc x = k * 2 ^ j := hk
      _ = k * 2 ^ (q x + n) := by rw [← this]
      _ = _ := by
        rw [zpow_add₀ (by norm_num)]
        push_cast
        simp only [zpow_natCast]
        ring
  rw [h2, rne_int, ← h2, div_mul_cancel₀ _ (zpow_pos' _).ne']

theorem mag_pow (e : ℤ) : mag (2 ^ e) = 2 ^ e := by
  refine mag_of_mul (zpow_pos' e) (k := 1) (j := e) (by simp) ?_
  have : Int.log 2 ((2 : ℝ) ^ e) = e := by
    have := Int.log_zpow (R := ℝ) (b := 2) (by norm_num) e
    exact_mod_cast this
  rw [q, this]; omega

theorem mag_nonneg (x : ℝ) : 0 ≤ mag x := by
  rw [mag]; split_ifs with h
  · exact le_rfl
  · have h1 : (0 : ℤ) ≤ rne (x / 2 ^ q x) := le_rne (by
      have := zpow_pos' (q x)
      have : 0 < x := not_le.1 h
      push_cast; positivity)
    have h2 : (0 : ℝ) ≤ rne (x / 2 ^ q x) := by exact_mod_cast h1
    have := zpow_pos' (q x)
    positivity

theorem mag_mono_aux {x y : ℝ} (hx : 0 < x) (h : x ≤ y) (hq : q x = q y) : mag x ≤ mag y := by
  have hy := hx.trans_le h
  rw [mag, mag, if_neg hx.not_ge, if_neg hy.not_ge, hq]
  have : rne (x / 2 ^ q y) ≤ rne (y / 2 ^ q y) :=
    rne_mono (div_le_div_of_nonneg_right h (zpow_pos' _).le)
  have h' : (rne (x / 2 ^ q y) : ℝ) ≤ rne (y / 2 ^ q y) := by exact_mod_cast this
  exact mul_le_mul_of_nonneg_right h' (zpow_pos' _).le

theorem mag_le_next {x : ℝ} (hx : 0 < x) : mag x ≤ 2 ^ (Int.log 2 x + 1) := by
  have e : (2 : ℝ) ^ (Int.log 2 x + 1) = ((2 ^ 53 : ℤ) : ℝ) * 2 ^ q x := by
    have : Int.log 2 x + 1 = 53 + q x := by rw [q]; ring
    rw [this, zpow_add₀ (by norm_num)]; norm_num
  rw [mag, if_neg hx.not_ge, e]
  refine mul_le_mul_of_nonneg_right ?_ (zpow_pos' _).le
  have : rne (x / 2 ^ q x) ≤ 2 ^ 53 := rne_le_int (by
    rw [div_le_iff₀ (zpow_pos' _), ← e]; exact (lt_log x).le)
  exact_mod_cast this

theorem le_mag {x : ℝ} (hx : 0 < x) : 2 ^ Int.log 2 x ≤ mag x := by
  have e : (2 : ℝ) ^ Int.log 2 x = ((2 ^ 52 : ℤ) : ℝ) * 2 ^ q x := by
    have : Int.log 2 x = 52 + q x := by rw [q]; ring
    rw [this, zpow_add₀ (by norm_num)]; norm_num
  rw [mag, if_neg hx.not_ge, e]
  refine mul_le_mul_of_nonneg_right ?_ (zpow_pos' _).le
  have : 2 ^ 52 ≤ rne (x / 2 ^ q x) := le_rne (by
    rw [le_div_iff₀ (zpow_pos' _), ← e]; exact log_le hx)
  exact_mod_cast this

theorem mag_mono : Monotone mag := by
  intro x y h
  by_cases hx : x ≤ 0
  · have : mag x = 0 := if_pos hx
    rw [this]; exact mag_nonneg y
  have hx := not_le.1 hx
  have hy := hx.trans_le h
  rcases (Int.log_mono_right (b := 2) hx h).eq_or_lt with he | hl
  · exact mag_mono_aux hx h (by rw [q, q, he])
  · exact (mag_le_next hx).trans ((zpow_le_zpow_right₀ (by norm_num) (by omega)).trans (le_mag hy))

theorem mag_zero : mag 0 = 0 := by simp [mag]

theorem R_neg (x : ℝ) : R (-x) = -R x := by
  rw [R, R]
  rcases lt_trichotomy x 0 with h | rfl | h
  · rw [if_pos (by linarith), if_neg (by linarith), neg_neg]
  · simp [mag_zero]
  · rw [if_neg (by linarith), if_pos (by linarith), neg_neg]

theorem R_mono : Monotone R := by
  intro x y h
  rw [R, R]
  split_ifs with h1 h2 h2
  · exact mag_mono h
  · linarith
  · linarith [mag_nonneg (-x), mag_nonneg y]
  · exact neg_le_neg (mag_mono (by linarith))

theorem R_zero : R 0 = 0 := by simp [R, mag_zero]

theorem R_err (x : ℝ) : |R x - x| ≤ |x| / 2 ^ 53 := by
  suffices h : ∀ x, 0 < x → |R x - x| ≤ |x| / 2 ^ 53 by
    rcases lt_trichotomy x 0 with hx | rfl | hx
    · have := h (-x) (by linarith)
      rw [R_neg, abs_neg] at this
      rwa [← abs_neg, neg_sub, ← neg_sub_neg]
    · simp [R_zero]
    · exact h x hx
  intro x hx
  rw [R, if_pos hx.le, abs_of_pos hx]
  exact mag_err hx

theorem R_of_mul {x : ℝ} (hx : 0 < x) {k j : ℤ} (hk : x = k * 2 ^ j) (hj : q x ≤ j) : R x = x := by
  rw [R, if_pos hx.le, mag_of_mul hx hk hj]

theorem q_le {x : ℝ} (hx : 0 < x) {e : ℤ} (h : x < 2 ^ (e + 1)) : q x ≤ e - 52 := by
  have h1 : Int.log 2 x ≤ e := by
    have := (Int.lt_zpow_iff_log_lt (b := 2) (by norm_num) hx (x := e + 1)).1 (by exact_mod_cast h)
    omega
  rw [q]; omega

theorem R_half (n : ℤ) (h : |n| ≤ 2 ^ 20) : R ((n : ℝ) / 2) = (n : ℝ) / 2 := by
  suffices hp : ∀ n : ℤ, 0 < n → n ≤ 2 ^ 20 → R ((n : ℝ) / 2) = (n : ℝ) / 2 by
    rcases lt_trichotomy n 0 with h0 | rfl | h0
    · have := hp (-n) (by omega) (by rw [abs_of_neg h0] at h; exact h)
      have e : ((-n : ℤ) : ℝ) / 2 = -((n : ℝ) / 2) := by push_cast; ring
      rw [e, R_neg] at this
      linarith
    · simp [R_zero]
    · exact hp n h0 (by rw [abs_of_pos h0] at h; exact h)
  intro n h0 h1
  have hn : (0 : ℝ) < n := by exact_mod_cast h0
  have hn1 : (n : ℝ) ≤ 2 ^ 20 := by exact_mod_cast h1
  have hx : (0 : ℝ) < n / 2 := by positivity
  have hq := q_le hx (e := 20) (by norm_num; linarith)
  exact R_of_mul hx (k := n) (j := -1) (by rw [zpow_neg_one]; ring) (by omega)

theorem log_half {x : ℝ} (hx : 0 < x) : Int.log 2 (1 / 2 * x) = Int.log 2 x - 1 := by
  have h1 := log_le hx
  have h2 := lt_log x
  have hh : 0 < 1 / 2 * x := by positivity
  apply le_antisymm
  · have : Int.log 2 (1 / 2 * x) < Int.log 2 x - 1 + 1 := by
      refine (Int.lt_zpow_iff_log_lt (b := 2) (by norm_num) hh).1 ?_
      push_cast
      rw [sub_add_cancel]
      rw [zpow_add₀ (by norm_num), zpow_one] at h2
      linarith
    omega
  · refine (Int.zpow_le_iff_le_log (b := 2) (by norm_num) hh).1 ?_
    push_cast
    rw [zpow_sub₀ (by norm_num), zpow_one]
    linarith

theorem R_halve (x : ℝ) : R (1 / 2 * x) = 1 / 2 * R x := by
  have h : ∀ x, 0 < x → R (1 / 2 * x) = 1 / 2 * R x := fun x hx => by
    have hh : 0 < 1 / 2 * x := by positivity
    have hq : q (1 / 2 * x) = q x - 1 := by rw [q, q, log_half hx]; ring
    have e : 1 / 2 * x / 2 ^ (q x - 1) = x / 2 ^ q x := by
      rw [zpow_sub₀ (by norm_num), zpow_one]; field_simp
    rw [R, R, if_pos hh.le, if_pos hx.le, mag, mag, if_neg hh.not_ge, if_neg hx.not_ge, hq, e,
      zpow_sub₀ (by norm_num), zpow_one]
    ring
  rcases lt_trichotomy x 0 with hx | rfl | hx
  · have := h (-x) (by linarith)
    rw [R_neg, mul_neg, R_neg, mul_neg] at this
    linarith
  · simp [R_zero]
  · exact h x hx

/-- away from the ends of the exponent range this is binary64 -/
theorem R_double {x : ℝ} (h1 : (2 : ℝ) ^ (-1022 : ℤ) ≤ |x|) (h2 : |x| ≤ 2 ^ 1023) :
    Double.R x = ((R x : ℝ) : EReal) := by
  suffices h : ∀ x : ℝ, (2 : ℝ) ^ (-1022 : ℤ) ≤ x → x ≤ 2 ^ 1023 → Double.R x = ((R x : ℝ) : EReal) by
    rcases le_total 0 x with hx | hx
    · rw [abs_of_nonneg hx] at h1 h2; exact h x h1 h2
    · rw [abs_of_nonpos hx] at h1 h2
      have := h (-x) h1 h2
      rw [Double.R_neg, R_neg, EReal.coe_neg] at this
      exact neg_inj.1 this
  intro x h1 h2
  have hx : 0 < x := (zpow_pos' _).trans_le h1
  have hl : -1022 ≤ Int.log 2 x := (Int.zpow_le_iff_le_log (b := 2) (by norm_num) hx).1 (by exact_mod_cast h1)
  have hq : Double.q x = q x := by rw [Double.q, q]; omega
  have hm : Double.mag x = mag x := by rw [Double.mag, mag, hq]
  rw [Double.R, R, if_pos hx.le, if_pos hx.le, hm, Double.over, if_neg]
  have a : mag x ≤ mag (2 ^ (1023 : ℤ)) := mag_mono (by exact_mod_cast h2)
  rw [mag_pow] at a
  rw [not_le]
  refine a.trans_lt ?_
  rw [zpow_ofNat]
  exact pow_lt_pow_right₀ (by norm_num) (by norm_num)

end Wide

/-- 53 significant bits, unbounded exponent -/
noncomputable def wideRounding : Rounding where
  R := fun x => (Wide.R x : EReal)
  mono := fun x y h => EReal.coe_le_coe_iff.2 (Wide.R_mono h)
  neg := fun x => by rw [Wide.R_neg, EReal.coe_neg]
  half := fun n h => by rw [Wide.R_half n h]
  eps := 1 / 2 ^ 52
  eps_pos := by positivity
  eps_le := by norm_num
  rnd_eps := by
    have h : (1 : ℝ) / 2 ^ 52 = 2 ^ (-52 : ℤ) := by norm_num
    rw [h, Wide.R, if_pos (by positivity), Wide.mag_pow]
  minpos := 1 / 2 ^ 1022
  minpos_pos := by positivity
  next := fun a b => min b (a + Double.gap a)
  next_gt := fun a b h => by simp [h, Double.gap_pos]
  next_le := fun a b _ => min_le_left _ _

noncomputable def wideLib : Lib := mkLib wideRounding

open Spec

theorem rel_of_err {u x y : ℝ} (h0 : 0 ≤ u) (hu : u < 1) (h : |y - x| ≤ |x| * u) : Rel u 1 x y := by
  by_cases hx : x = 0
  · subst hx
    simp at h
    refine ⟨1, ?_, ?_, by simp [h]⟩
    · rw [Real.rpow_one]; linarith
    · rw [Real.rpow_neg_one]; exact (one_le_inv₀ (by linarith)).2 (by linarith)
  · refine ⟨y / x, ?_, ?_, by field_simp⟩
    all_goals
      have e : y / x - 1 = (y - x) / x := by field_simp
      have h2 : |y / x - 1| ≤ u := by
        rw [e, abs_div, div_le_iff₀ (abs_pos.2 hx), mul_comm]; exact h
      obtain ⟨a, b⟩ := abs_le.1 h2
    · rw [Real.rpow_one]; linarith
    · rw [Real.rpow_neg_one, ← one_div, le_div_iff₀ (by linarith)]
      nlinarith

theorem wide_rel (x : ℝ) : Rel (1 / 2 ^ 53) 1 x (Wide.R x) :=
  rel_of_err (by positivity) (by norm_num) (by have := Wide.R_err x; rw [mul_one_div]; exact this)

theorem wide_off (x : ℝ) : |Wide.R x - x| ≤ 1 / 2 ^ 53 * (|x| + 1) := by
  have := Wide.R_err x
  have h : |x| / 2 ^ 53 ≤ 1 / 2 ^ 53 * (|x| + 1) := by
    rw [div_eq_mul_one_div, mul_comm]
    exact mul_le_mul_of_nonneg_left (by linarith) (by positivity)
  linarith

theorem wide_atan (x : ℝ) : ∃ y : ℝ, wideLib.atan x = y ∧ Rel (1 / 2 ^ 53) 1 (Real.arctan x) y := by
  set c : ℝ := Wide.R Real.pi / 2 with hc
  refine ⟨max (-c) (min (Wide.R (Real.arctan x)) c), ?_, ?_⟩
  · show max _ (min _ _) = _
    have : ((wideRounding.R Real.pi).toReal / 2 : ℝ) = c := by rw [hc]; rfl
    rw [this, EReal.coe_strictMono.monotone.map_max, EReal.coe_strictMono.monotone.map_min]
    rfl
  · have hp := Real.pi_pos
    have h1 : c ≥ Real.pi / 2 * (1 - 1 / 2 ^ 53) := by
      have := (abs_le.1 (Wide.R_err Real.pi)).1
      rw [abs_of_pos hp] at this
      rw [hc]; linarith
    have h2 := Real.arctan_lt_pi_div_two x
    have h3 := Real.neg_pi_div_two_lt_arctan x
    have h4 := abs_le.1 (Wide.R_err (Real.arctan x))
    refine rel_of_err (by positivity) (by norm_num) ?_
    rw [abs_le]
    rcases le_total 0 (Real.arctan x) with h | h
    · rw [abs_of_nonneg h] at h4 ⊢
      constructor
      · refine le_trans ?_ (sub_le_sub_right (le_max_right _ _) _)
        rcases min_choice (Wide.R (Real.arctan x)) c with hm | hm <;> rw [hm] <;> nlinarith
      · have : max (-c) (min (Wide.R (Real.arctan x)) c) ≤ max (-c) (Wide.R (Real.arctan x)) :=
          max_le_max_left _ (min_le_left _ _)
        have h5 : max (-c) (Wide.R (Real.arctan x)) = Wide.R (Real.arctan x) := by
          apply max_eq_right
          have : (0 : ℝ) ≤ Wide.R (Real.arctan x) := by
            have := Wide.R_mono h; rwa [Wide.R_zero] at this
          nlinarith
        rw [h5] at this
        linarith [h4.2]
    · rw [abs_of_nonpos h] at h4 ⊢
      have h6 : Wide.R (Real.arctan x) ≤ 0 := by
        have := Wide.R_mono h; rwa [Wide.R_zero] at this
      have h7 : 0 ≤ c := by nlinarith
      rw [min_eq_left (h6.trans h7)]
      constructor
      · have := le_max_right (-c) (Wide.R (Real.arctan x))
        linarith [h4.1]
      · rcases max_choice (-c) (Wide.R (Real.arctan x)) with hm | hm <;> rw [hm] <;> nlinarith

theorem wideLib_rel : @RelLib wideLib (1 / 2 ^ 53) :=
  letI := wideLib
  { u_nonneg := by positivity
    u_lt := by norm_num
    rnd := fun x => ⟨_, rfl, wide_rel x⟩
    rnd_halve := fun x h => by
      have h : ((Wide.R x : ℝ) : EReal) = x := h
      show ((Wide.R (1 / 2 * x) : ℝ) : EReal) = _
      rw [Wide.R_halve, EReal.coe_eq_coe_iff.1 h]
    rnd_double := fun x h => by
      have h : ((Wide.R x : ℝ) : EReal) = x := h
      show ((Wide.R (2 * x) : ℝ) : EReal) = _
      have h2 := Wide.R_halve (2 * x)
      rw [show 1 / 2 * (2 * x) = x by ring, EReal.coe_eq_coe_iff.1 h] at h2
      rw [show Wide.R (2 * x) = 2 * x by linarith]
    exp := fun x => ⟨_, rfl, wide_rel _⟩
    expm1 := fun x => ⟨_, rfl, wide_rel _⟩
    log := fun x _ => ⟨_, rfl, wide_off _⟩
    log1p := fun x _ => ⟨_, rfl, wide_rel _⟩
    sqrt := fun x _ => ⟨_, rfl, wide_rel _⟩
    tan := fun x _ => ⟨_, rfl, wide_rel _⟩
    atan := wide_atan
    tanh := fun x => ⟨_, rfl, wide_rel _⟩
    erf := fun x => ⟨_, rfl, wide_rel _⟩
    erfInv := fun x h0 h1 => by
      obtain ⟨z, rfl⟩ := exists_erf h0 h1
      refine ⟨z, _, rfl, rfl, ?_⟩
      rw [show invOn Spec.erf univ (Spec.erf z) = z from invOn_apply strictMono_erf.injective.injOn (mem_univ z)]
      exact wide_rel _
    pow := fun x y _ => ⟨_, rfl, wide_rel _⟩
    powi := fun x n _ => by
      refine ⟨_, rfl, ?_⟩
      show Rel _ _ _ (Wide.R (x ^ n))
      rcases Nat.eq_zero_or_pos n with rfl | hn
      · have h1 : Wide.R (1 : ℝ) = 1 := by
          have h := Lib.rnd_half 2 (by norm_num)
          rw [show (((2 : ℤ) : ℝ) / 2) = 1 by norm_num] at h
          exact EReal.coe_eq_coe_iff.1 h
        rw [pow_zero, h1]
        exact_mod_cast Rel.refl _
      · exact (wide_rel _).mono (by positivity) (by norm_num) (by exact_mod_cast hn)
    lgamma := fun x hx => ⟨_, if_neg hx.ne', wide_off _⟩
    lbinom := fun n k _ => ⟨_, rfl, by simpa using wide_off (Real.log (n.choose k))⟩
    igamma := fun a z ha hz => ⟨_, if_pos ⟨ha, hz.le⟩, wide_rel _⟩
    ibeta := fun a b z ha hb hz h1 => ⟨_, if_pos ⟨⟨ha, hb⟩, hz.le, h1⟩, wide_rel _⟩
    igammaInv := fun a p ha h0 h1 => by
      obtain ⟨z, hz, hp⟩ := exists_gammaP ha h0.le h1
      have hz0 : 0 < z := hz.lt_of_ne (by rintro rfl; rw [gammaP_zero] at hp; exact h0.ne hp)
      refine ⟨z, _, hz0, hp, rfl, ?_⟩
      rw [show invOn (gammaP a) (Ici 0) p = z by
        rw [← hp]; exact invOn_apply (strictMonoOn_gammaP ha).injOn hz]
      exact wide_rel _
    ibetaInv := fun a b p ha hb h0 h1 => by
      obtain ⟨z, hz, hp⟩ := exists_betaI ha hb ⟨h0.le, h1.le⟩
      have hz0 : 0 < z := hz.1.lt_of_ne (by rintro rfl; rw [betaI_zero] at hp; exact h0.ne hp)
      have hz1 : z < 1 := hz.2.lt_of_ne (by rintro rfl; rw [betaI_one ha hb] at hp; exact h1.ne' hp)
      refine ⟨z, _, hz0, hz1, hp, rfl, ?_⟩
      rw [show invOn (betaI a b) (Icc 0 1) p = z by
        rw [← hp]; exact invOn_apply (strictMonoOn_betaI ha hb).injOn hz]
      exact wide_rel _
    pi := wide_rel _
    sqrt2 := wide_rel _
    log2 := wide_rel _
    log2pi := wide_rel _
    logpi := wide_rel _ }

end Stats
