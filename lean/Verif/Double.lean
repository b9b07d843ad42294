import Verif.Instances
import Mathlib.Data.Int.Log

/-!
# IEEE 754 binary64

Round-to-nearest, ties-to-even, 53-bit significand, subnormals below `2^-1022`, overflow at `2^1024`.
`doubleLib` is a `Lib`: double precision arithmetic with correctly rounded library functions. It is not used
to prove anything general; it shows that the contract assumed of the arithmetic is met by real hardware.
-/

set_option warn.classDefReducibility false

open Classical Set
namespace Stats
namespace Double

/-- nearest integer, ties to even -/
noncomputable def rne (z : ℝ) : ℤ :=
  if Int.fract z < 1 / 2 then ⌊z⌋
  else if 1 / 2 < Int.fract z then ⌊z⌋ + 1
  else if Even ⌊z⌋ then ⌊z⌋ else ⌊z⌋ + 1

theorem floor_le_rne (z : ℝ) : ⌊z⌋ ≤ rne z := by
  rw [rne]; split_ifs <;> omega

theorem rne_le (z : ℝ) : rne z ≤ ⌊z⌋ + 1 := by
  rw [rne]; split_ifs <;> omega

theorem rne_mono : Monotone rne := by
  intro z w h
  rcases (Int.floor_mono h).eq_or_lt with he | hl
  · have hf : Int.fract z ≤ Int.fract w := by
      rw [Int.fract, Int.fract, he]; linarith
    rw [rne, rne, he]
    split_ifs <;> first | omega | (exfalso; linarith)
  · have := rne_le z
    have := floor_le_rne w
    omega

theorem rne_int (n : ℤ) : rne n = n := by simp [rne]

theorem le_rne {n : ℤ} {z : ℝ} (h : (n : ℝ) ≤ z) : n ≤ rne z := by
  have := rne_mono h; rwa [rne_int] at this

theorem rne_le_int {n : ℤ} {z : ℝ} (h : z ≤ n) : rne z ≤ n := by
  have := rne_mono h; rwa [rne_int] at this

/-- exponent of the last significand bit of a number of size `x > 0` -/
noncomputable def q (x : ℝ) : ℤ := max (Int.log 2 x - 52) (-1074)

/-- rounding of a non-negative number, without overflow -/
noncomputable def mag (x : ℝ) : ℝ := if x ≤ 0 then 0 else rne (x / 2 ^ q x) * 2 ^ q x

theorem zpow_pos' (e : ℤ) : (0 : ℝ) < 2 ^ e := by positivity

theorem q_mono {x y : ℝ} (hx : 0 < x) (h : x ≤ y) : q x ≤ q y := by
  have := Int.log_mono_right (b := 2) hx h
  rw [q, q]; omega

theorem mag_nonneg (x : ℝ) : 0 ≤ mag x := by
  rw [mag]; split_ifs with h
  · exact le_rfl
  · have h1 : (0 : ℤ) ≤ rne (x / 2 ^ q x) := le_rne (by
      have := zpow_pos' (q x)
      have : 0 < x := not_le.1 h
      push_cast; positivity)
    have h2 : (0 : ℝ) ≤ rne (x / 2 ^ q x) := by exact_mod_cast h1
    have := zpow_pos' (q x)
    positivity

/-- a multiple of `2^j` with `j` at least the last bit stays -/
theorem mag_of_mul {x : ℝ} (hx : 0 < x) {k j : ℤ} (hk : x = k * 2 ^ j) (hj : q x ≤ j) : mag x = x := by
  rw [mag, if_neg hx.not_ge]
  obtain ⟨n, hn⟩ := Int.eq_ofNat_of_zero_le (sub_nonneg.2 hj)
  have h2 : x / 2 ^ q x = ((k * 2 ^ n : ℤ) : ℝ) := by
    have : j = q x + n := by omega
    rw [div_eq_iff (zpow_pos' _).ne']
    calc x = k * 2 ^ j := hk
      _ = k * 2 ^ (q x + n) := by rw [← this]
      _ = _ := by
        rw [zpow_add₀ (by norm_num)]
        push_cast
        simp only [zpow_natCast]
        ring
  rw [h2, rne_int, ← h2, div_mul_cancel₀ _ (zpow_pos' _).ne']

theorem mag_le_pow {x : ℝ} {e : ℤ} (h : x ≤ 2 ^ e) (he : 0 < x → q x ≤ e) : mag x ≤ 2 ^ e := by
  rw [mag]; split_ifs with h0
  · exact (zpow_pos' _).le
  · have he := he (not_le.1 h0)
    obtain ⟨n, hn⟩ := Int.eq_ofNat_of_zero_le (sub_nonneg.2 he)
    have e1 : (2 : ℝ) ^ e = ((2 ^ n : ℤ) : ℝ) * 2 ^ q x := by
      have : e = n + q x := by omega
      rw [this, zpow_add₀ (by norm_num)]; push_cast; simp only [zpow_natCast]
    rw [e1]
    have : rne (x / 2 ^ q x) ≤ 2 ^ n := rne_le_int (by
      rw [div_le_iff₀ (zpow_pos' _), ← e1]; exact h)
    have h' : (rne (x / 2 ^ q x) : ℝ) ≤ ((2 ^ n : ℤ) : ℝ) := by exact_mod_cast this
    exact mul_le_mul_of_nonneg_right h' (zpow_pos' _).le

theorem pow_le_mag {x : ℝ} (h0 : 0 < x) {e : ℤ} (h : 2 ^ e ≤ x) (he : q x ≤ e) : 2 ^ e ≤ mag x := by
  rw [mag, if_neg h0.not_ge]
  obtain ⟨n, hn⟩ := Int.eq_ofNat_of_zero_le (sub_nonneg.2 he)
  have e1 : (2 : ℝ) ^ e = ((2 ^ n : ℤ) : ℝ) * 2 ^ q x := by
    have : e = n + q x := by omega
    rw [this, zpow_add₀ (by norm_num)]; push_cast; simp only [zpow_natCast]
  rw [e1]
  have : 2 ^ n ≤ rne (x / 2 ^ q x) := le_rne (by
    rw [le_div_iff₀ (zpow_pos' _), ← e1]; exact h)
  have h' : ((2 ^ n : ℤ) : ℝ) ≤ (rne (x / 2 ^ q x) : ℝ) := by exact_mod_cast this
  exact mul_le_mul_of_nonneg_right h' (zpow_pos' _).le

theorem mag_mono : Monotone mag := by
  intro x y h
  by_cases hx : x ≤ 0
  · have : mag x = 0 := if_pos hx
    rw [this]; exact mag_nonneg y
  have hx := not_le.1 hx
  have hy := hx.trans_le h
  rcases (q_mono hx h).eq_or_lt with he | hl
  · rw [mag, mag, if_neg hx.not_ge, if_neg hy.not_ge, he]
    have : rne (x / 2 ^ q y) ≤ rne (y / 2 ^ q y) :=
      rne_mono (div_le_div_of_nonneg_right h (zpow_pos' _).le)
    have h' : (rne (x / 2 ^ q y) : ℝ) ≤ rne (y / 2 ^ q y) := by exact_mod_cast this
    exact mul_le_mul_of_nonneg_right h' (zpow_pos' _).le
  · -- different binades
    have h1 : q y = Int.log 2 y - 52 := by
      have : -1074 ≤ q x := le_max_right _ _
      have : q y = max (Int.log 2 y - 52) (-1074) := rfl
      omega
    have h2 : Int.log 2 x < Int.log 2 y := by
      have : Int.log 2 x - 52 ≤ q x := le_max_left _ _
      omega
    have h3 : x ≤ 2 ^ Int.log 2 y := by
      have a := (Int.lt_zpow_succ_log_self (b := 2) (by norm_num) x).le
      refine a.trans ?_
      push_cast
      exact zpow_le_zpow_right₀ (by norm_num) (by omega)
    have h4 : (2 : ℝ) ^ Int.log 2 y ≤ y := by
      have := Int.zpow_log_le_self (b := 2) (by norm_num) hy
      exact_mod_cast this
    exact (mag_le_pow h3 (fun _ => by omega)).trans (pow_le_mag hy h4 (by omega))

/-- overflow -/
noncomputable def over (y : ℝ) : EReal := if 2 ^ 1024 ≤ y then ⊤ else (y : EReal)

theorem over_mono : Monotone over := by
  intro x y h
  rw [over, over]
  split_ifs with h1 h2 h2
  · exact le_rfl
  · exact absurd (h1.trans h) h2
  · exact le_top
  · exact_mod_cast h

/-- binary64 rounding -/
noncomputable def R (x : ℝ) : EReal := if 0 ≤ x then over (mag x) else -over (mag (-x))

theorem mag_zero : mag 0 = 0 := by simp [mag]
theorem over_zero : over 0 = 0 := by simp [over]
theorem over_nonneg {x : ℝ} (h : 0 ≤ x) : 0 ≤ over x := by rw [← over_zero]; exact over_mono h

theorem R_neg (x : ℝ) : R (-x) = -R x := by
  rw [R, R]
  rcases lt_trichotomy x 0 with h | rfl | h
  · rw [if_pos (by linarith), if_neg (by linarith), neg_neg]
  · simp [mag_zero, over_zero]
  · rw [if_neg (by linarith), if_pos (by linarith), neg_neg]

theorem R_mono : Monotone R := by
  intro x y h
  rw [R, R]
  split_ifs with h1 h2 h2
  · exact over_mono (mag_mono h)
  · linarith
  · have a := over_nonneg (mag_nonneg (-x))
    have b := over_nonneg (mag_nonneg y)
    exact le_trans (by simpa using EReal.neg_le_neg_iff.2 a) b
  · exact EReal.neg_le_neg_iff.2 (over_mono (mag_mono (by linarith)))

theorem R_of_mul {x : ℝ} (hx : 0 < x) {k j : ℤ} (hk : x = k * 2 ^ j) (hj : q x ≤ j) (hx1 : x < 2 ^ 1024) :
    R x = (x : EReal) := by
  rw [R, if_pos hx.le, mag_of_mul hx hk hj, over, if_neg hx1.not_ge]

theorem q_le {x : ℝ} (hx : 0 < x) {e : ℤ} (h : x < 2 ^ (e + 1)) (he : -1022 ≤ e) : q x ≤ e - 52 := by
  have h1 : Int.log 2 x ≤ e := by
    have := (Int.lt_zpow_iff_log_lt (b := 2) (by norm_num) hx (x := e + 1)).1 (by exact_mod_cast h)
    omega
  rw [q]; omega

theorem R_half (n : ℤ) (h : |n| ≤ 2 ^ 20) : R ((n : ℝ) / 2) = (((n : ℝ) / 2 : ℝ) : EReal) := by
  suffices hp : ∀ n : ℤ, 0 < n → n ≤ 2 ^ 20 → R ((n : ℝ) / 2) = (((n : ℝ) / 2 : ℝ) : EReal) by
    rcases lt_trichotomy n 0 with h0 | rfl | h0
    · have := hp (-n) (by omega) (by rw [abs_of_neg h0] at h; exact h)
      have e : ((-n : ℤ) : ℝ) / 2 = -((n : ℝ) / 2) := by push_cast; ring
      rw [e, R_neg] at this
      have := congrArg Neg.neg this
      rw [neg_neg] at this
      rw [this]
      rw [← EReal.coe_neg, neg_neg]
    · simp [R, mag_zero, over_zero]
    · exact hp n h0 (by rw [abs_of_pos h0] at h; exact h)
  intro n h0 h1
  have hn : (0 : ℝ) < n := by exact_mod_cast h0
  have hn1 : (n : ℝ) ≤ 2 ^ 20 := by exact_mod_cast h1
  have hx : (0 : ℝ) < n / 2 := by positivity
  have hq := q_le hx (e := 20) (by norm_num; linarith) (by norm_num)
  refine R_of_mul hx (k := n) (j := -1) (by rw [zpow_neg_one]; ring) (by omega) ?_
  calc (n : ℝ) / 2 ≤ 2 ^ 20 := by linarith
    _ < 2 ^ 1024 := by gcongr <;> norm_num

theorem R_pow (e : ℕ) (he : e ≤ 1000) : R (1 / 2 ^ e) = ((1 / 2 ^ e : ℝ) : EReal) := by
  have hx : (0 : ℝ) < 1 / 2 ^ e := by positivity
  have e1 : (1 : ℝ) / 2 ^ e = ((1 : ℤ) : ℝ) * 2 ^ (-(e : ℤ)) := by simp
  have hq := q_le hx (e := -(e : ℤ)) (by
    rw [e1, zpow_add₀ (by norm_num)]
    have := zpow_pos' (-(e : ℤ))
    norm_num) (by omega)
  refine R_of_mul hx e1 (by omega) ?_
  calc (1 : ℝ) / 2 ^ e ≤ 1 := by
        rw [div_le_one (by positivity)]; exact one_le_pow₀ (by norm_num)
    _ < 2 ^ 1024 := one_lt_pow₀ (by norm_num) (by norm_num)

/-- distance to the next larger double -/
noncomputable def gap (a : ℝ) : ℝ :=
  if a = 0 then 2 ^ (-1074 : ℤ)
  else if 0 < a then 2 ^ q a
  else if -a = 2 ^ Int.log 2 (-a) then 2 ^ max (Int.log 2 (-a) - 53) (-1074) else 2 ^ q (-a)

theorem gap_pos (a : ℝ) : 0 < gap a := by
  rw [gap]; split_ifs <;> exact zpow_pos' _

end Double

/-- IEEE 754 double precision -/
noncomputable def doubleRounding : Rounding where
  R := Double.R
  mono := Double.R_mono
  neg := Double.R_neg
  half := Double.R_half
  eps := 1 / 2 ^ 52
  eps_pos := by positivity
  eps_le := by norm_num
  rnd_eps := Double.R_pow 52 (by norm_num)
  minpos := 1 / 2 ^ 1022
  minpos_pos := by positivity
  next := fun a b => min b (a + Double.gap a)
  next_gt := fun a b h => by simp [h, Double.gap_pos]
  next_le := fun a b _ => min_le_left _ _

/-- Double precision arithmetic with correctly rounded library functions. -/
noncomputable def doubleLib : Lib := mkLib doubleRounding

theorem doubleLib_mono : @MonoLib doubleLib := mkLib_mono _

end Stats
