import Verif.Spec.Round
import Verif.Lemmas.Fl
import Verif.Lemmas.Special
import Verif.Lemmas.Elem
import Mathlib.Analysis.Convex.Deriv
import Mathlib.Analysis.SpecialFunctions.Trigonometric.DerivHyp

/-! Calculus of rounding errors. -/

open Classical
namespace Stats
open Real Spec

namespace Spec
variable {u k l m n x y z w : ℝ}

theorem gam_add (hu : u < 1) : (1 + gam u k) * (1 + gam u l) = 1 + gam u (k + l) := by
  simp only [gam, add_sub_cancel, neg_add]
  rw [rpow_add (by linarith)]

theorem gam_nonneg (h0 : 0 ≤ u) (hu : u < 1) (hk : 0 ≤ k) : 0 ≤ gam u k := by
  have := one_le_rpow_of_pos_of_le_one_of_nonpos (x := 1 - u) (z := -k) (by linarith) (by linarith) (by linarith)
  rw [gam]; linarith

theorem gam_mono (h0 : 0 ≤ u) (hu : u < 1) (h : k ≤ l) : gam u k ≤ gam u l := by
  have := rpow_le_rpow_of_exponent_ge (x := 1 - u) (y := -k) (z := -l) (by linarith) (by linarith) (by linarith)
  rw [gam, gam]; linarith

theorem gam_one (h0 : 0 ≤ u) (hu : u < 1) : u ≤ gam u 1 := by
  rw [gam, rpow_neg_one]
  have h : 1 - u ≠ 0 := by linarith
  have : (1 - u)⁻¹ - 1 = u / (1 - u) := by field_simp; ring
  rw [this, le_div_iff₀ (by linarith)]
  nlinarith

theorem gam_zero : gam u 0 = 0 := by simp [gam]

theorem Rel.mono (h0 : 0 ≤ u) (hu : u < 1) (h : Rel u k x y) (hkl : k ≤ l) : Rel u l x y := by
  obtain ⟨t, h1, h2, e⟩ := h
  exact ⟨t, (rpow_le_rpow_of_exponent_ge (by linarith) (by linarith) hkl).trans h1,
    h2.trans (rpow_le_rpow_of_exponent_ge (by linarith) (by linarith) (by linarith)), e⟩

theorem Rel.refl (x : ℝ) : Rel u 0 x x := ⟨1, by simp⟩

theorem Rel.neg (h : Rel u k x y) : Rel u k (-x) (-y) := by
  obtain ⟨t, h1, h2, e⟩ := h
  exact ⟨t, h1, h2, by rw [e]; ring⟩

theorem Rel.abs (hu : u < 1) (h : Rel u k x y) : Rel u k |x| |y| := by
  obtain ⟨t, h1, h2, e⟩ := h
  have : 0 < t := (rpow_pos_of_pos (by linarith) _).trans_le h1
  exact ⟨t, h1, h2, by rw [e, abs_mul, abs_of_pos this]⟩

theorem Rel.mul (hu : u < 1) (h : Rel u k x y) (h' : Rel u l z w) : Rel u (k + l) (x * z) (y * w) := by
  obtain ⟨t, h1, h2, e⟩ := h
  obtain ⟨s, g1, g2, e'⟩ := h'
  have p : 0 < 1 - u := by linarith
  have pt : 0 < t := (rpow_pos_of_pos p _).trans_le h1
  have ps : 0 < s := (rpow_pos_of_pos p _).trans_le g1
  refine ⟨t * s, ?_, ?_, by rw [e, e']; ring⟩
  · rw [rpow_add p]; exact mul_le_mul h1 g1 (rpow_pos_of_pos p _).le pt.le
  · rw [neg_add, rpow_add p]; exact mul_le_mul h2 g2 ps.le (rpow_pos_of_pos p _).le

theorem Rel.inv (hu : u < 1) (h : Rel u k x y) : Rel u k x⁻¹ y⁻¹ := by
  obtain ⟨t, h1, h2, e⟩ := h
  have p : 0 < 1 - u := by linarith
  have pt : 0 < t := (rpow_pos_of_pos p _).trans_le h1
  refine ⟨t⁻¹, ?_, ?_, by rw [e, mul_inv]⟩
  · have := inv_anti₀ pt h2
    rwa [rpow_neg p.le, inv_inv] at this
  · rw [rpow_neg p.le]; exact inv_anti₀ (rpow_pos_of_pos p _) h1

theorem Rel.div (hu : u < 1) (h : Rel u k x y) (h' : Rel u l z w) : Rel u (k + l) (x / z) (y / w) := by
  rw [div_eq_mul_inv, div_eq_mul_inv]
  exact h.mul hu (h'.inv hu)

theorem Rel.trans (hu : u < 1) (h : Rel u k x y) (h' : Rel u l y z) : Rel u (k + l) x z := by
  obtain ⟨t, h1, h2, e⟩ := h
  obtain ⟨s, g1, g2, e'⟩ := h'
  have a : Rel u k 1 t := ⟨t, h1, h2, (one_mul t).symm⟩
  have b : Rel u l 1 s := ⟨s, g1, g2, (one_mul s).symm⟩
  have := a.mul hu b
  obtain ⟨r, a, b, c⟩ := this
  exact ⟨r, a, b, by rw [e', e, mul_assoc, c]; ring⟩

/-- sums of numbers of one sign do not cancel -/
theorem Rel.add (h : Rel u k x y) (h' : Rel u k z w) (hx : 0 ≤ x) (hz : 0 ≤ z) : Rel u k (x + z) (y + w) := by
  obtain ⟨t, h1, h2, e⟩ := h
  obtain ⟨s, g1, g2, e'⟩ := h'
  rcases (add_nonneg hx hz).eq_or_lt with h0 | h0
  · have a : x = 0 := by linarith
    have b : z = 0 := by linarith
    exact ⟨t, h1, h2, by rw [e, e', a, b]; simp⟩
  · refine ⟨(x * t + z * s) / (x + z), ?_, ?_, ?_⟩
    · rw [le_div_iff₀ h0]; nlinarith
    · rw [div_le_iff₀ h0]; nlinarith
    · rw [mul_div_cancel₀ _ h0.ne', e, e']

theorem Rel.pos (hu : u < 1) (h : Rel u k x y) (hx : 0 < x) : 0 < y := by
  obtain ⟨t, h1, h2, e⟩ := h
  have : 0 < t := (rpow_pos_of_pos (by linarith) _).trans_le h1
  rw [e]; positivity

theorem Rel.ne (hu : u < 1) (h : Rel u k x y) (hx : x ≠ 0) : y ≠ 0 := by
  obtain ⟨t, h1, h2, e⟩ := h
  have : 0 < t := (rpow_pos_of_pos (by linarith) _).trans_le h1
  rw [e]; positivity

theorem Rel.off (hu : u < 1) (h : Rel u k x y) : Off u k |x| x y := by
  obtain ⟨t, h1, h2, e⟩ := h
  have p : 0 < 1 - u := by linarith
  have hk : (0 : ℝ) < (1 - u) ^ k := rpow_pos_of_pos p _
  have e1 : (1 - u) ^ (-k) = ((1 - u) ^ k)⁻¹ := rpow_neg p.le _
  have : y - x = (t - 1) * x := by rw [e]; ring
  rw [Off, this, abs_mul]
  refine mul_le_mul_of_nonneg_right (abs_le.2 ⟨?_, by rw [gam]; linarith⟩) (abs_nonneg _)
  rw [gam]
  have : 2 ≤ (1 - u) ^ k + ((1 - u) ^ k)⁻¹ := by
    have h4 : (1 - u) ^ k * ((1 - u) ^ k)⁻¹ = 1 := mul_inv_cancel₀ hk.ne'
    nlinarith [sq_nonneg ((1 - u) ^ k - 1), inv_pos.2 hk, sq_nonneg ((1 - u) ^ k - ((1 - u) ^ k)⁻¹)]
  linarith

theorem Rel.log (hu : u < 1) (h : Rel u k x y) (hx : 0 < x) :
    |Real.log y - Real.log x| ≤ gam u k := by
  obtain ⟨t, h1, h2, e⟩ := h
  have p : 0 < 1 - u := by linarith
  have pt : 0 < t := (rpow_pos_of_pos p _).trans_le h1
  have e2 : Real.log y - Real.log x = Real.log t := by rw [e, Real.log_mul hx.ne' pt.ne']; ring
  have g : ∀ s, 0 < s → s ≤ (1 - u) ^ (-k) → Real.log s ≤ gam u k := fun s hs h => by
    have := Real.log_le_sub_one_of_pos hs
    rw [gam]; linarith
  rw [e2, abs_le]
  refine ⟨?_, g t pt h2⟩
  have := g t⁻¹ (inv_pos.2 pt) (by rw [rpow_neg p.le]; exact inv_anti₀ (rpow_pos_of_pos p _) h1)
  rw [Real.log_inv] at this
  linarith

/-- powers multiply the number of roundings -/
theorem Rel.rpow (hu : u < 1) (h : Rel u k x y) (hx : 0 < x) {s : ℝ} (hs : 0 ≤ s) :
    Rel u (k * s) (x ^ s) (y ^ s) := by
  obtain ⟨t, h1, h2, e⟩ := h
  have p : 0 < 1 - u := by linarith
  have pt : 0 < t := (rpow_pos_of_pos p _).trans_le h1
  refine ⟨t ^ s, ?_, ?_, by rw [e, Real.mul_rpow hx.le pt.le]⟩
  · rw [rpow_mul p.le]; exact Real.rpow_le_rpow (rpow_pos_of_pos p _).le h1 hs
  · rw [← neg_mul, rpow_mul p.le]; exact Real.rpow_le_rpow pt.le h2 hs

/-- an increasing function with `f 0 = 0`, concave on the positive half line, does not amplify relative errors -/
theorem Rel.concave (h0 : 0 ≤ u) (hu : u < 1) (hk : 0 ≤ k) {f : ℝ → ℝ} (hf : ConcaveOn ℝ (Set.Ici 0) f)
    (hm : MonotoneOn f (Set.Ici 0)) (hz : f 0 = 0) (h : Rel u k x y) (hx : 0 ≤ x) : Rel u k (f x) (f y) := by
  obtain ⟨t, h1, h2, e⟩ := h
  have p : 0 < 1 - u := by linarith
  have pt : 0 < t := (rpow_pos_of_pos p _).trans_le h1
  have hfx : ∀ z, 0 ≤ z → 0 ≤ f z := fun z hz' => by
    have := hm (Set.mem_Ici.2 le_rfl) (Set.mem_Ici.2 hz') hz'
    rwa [hz] at this
  have key : ∀ z, 0 ≤ z → ∀ s, 0 ≤ s → s ≤ 1 → s * f z ≤ f (z * s) := fun z hz' s hs hs1 => by
    have := hf.2 (Set.mem_Ici.2 hz') (Set.mem_Ici.2 (le_refl (0 : ℝ))) hs (sub_nonneg.2 hs1) (by ring)
    simpa [hz, mul_comm z s] using this
  have lo1 : (1 - u) ^ k ≤ 1 := rpow_le_one p.le (by linarith) hk
  have hi1 : 1 ≤ (1 - u) ^ (-k) := one_le_rpow_of_pos_of_le_one_of_nonpos p (by linarith) (by linarith)
  have hlo : (1 - u) ^ k * f x ≤ f y := by
    rcases le_total t 1 with ht | ht
    · have := key x hx t pt.le ht
      rw [e]
      exact (mul_le_mul_of_nonneg_right h1 (hfx x hx)).trans this
    · have : f x ≤ f y := hm (Set.mem_Ici.2 hx) (Set.mem_Ici.2 (by rw [e]; positivity)) (by rw [e]; nlinarith)
      exact (mul_le_of_le_one_left (hfx x hx) lo1).trans this
  have hhi : f y ≤ f x * (1 - u) ^ (-k) := by
    rcases le_total t 1 with ht | ht
    · have : f y ≤ f x := hm (Set.mem_Ici.2 (by rw [e]; positivity)) (Set.mem_Ici.2 hx) (by rw [e]; nlinarith)
      exact this.trans (le_mul_of_one_le_right (hfx x hx) hi1)
    · have hy : 0 ≤ y := by rw [e]; positivity
      have := key y hy t⁻¹ (by positivity) (inv_le_one_of_one_le₀ ht)
      have e2 : y * t⁻¹ = x := by rw [e]; field_simp
      rw [e2, inv_mul_le_iff₀ pt] at this
      refine this.trans ?_
      rw [mul_comm]
      exact mul_le_mul_of_nonneg_left h2 (hfx x hx)
  rcases (hfx x hx).eq_or_lt with h3 | h3
  · refine ⟨1, lo1, hi1, ?_⟩
    rw [← h3, zero_mul] at hhi
    rw [← h3, zero_mul]
    rw [← h3, mul_zero] at hlo
    exact le_antisymm hhi hlo
  · exact ⟨f y / f x, by rwa [le_div_iff₀ h3], by rwa [div_le_iff₀ h3, mul_comm], by field_simp⟩

theorem Rel.concave_odd (h0 : 0 ≤ u) (hu : u < 1) (hk : 0 ≤ k) {f : ℝ → ℝ} (hf : ConcaveOn ℝ (Set.Ici 0) f)
    (hm : MonotoneOn f (Set.Ici 0)) (ho : ∀ x, f (-x) = -f x) (h : Rel u k x y) : Rel u k (f x) (f y) := by
  have hz : f 0 = 0 := by have := ho 0; rw [neg_zero] at this; linarith
  rcases le_total 0 x with hx | hx
  · exact h.concave h0 hu hk hf hm hz hx
  · have := (h.neg.concave h0 hu hk hf hm hz (by linarith)).neg
    rwa [ho, ho, neg_neg, neg_neg] at this

theorem Off.mono (h0 : 0 ≤ u) (hu : u < 1) (hk : 0 ≤ k) (h : Off u k m x y) (hkl : k ≤ l) (hm : 0 ≤ m) (hmn : m ≤ n) :
    Off u l n x y :=
  h.trans (mul_le_mul (gam_mono h0 hu hkl) hmn hm (gam_nonneg h0 hu (hk.trans hkl)))

theorem Off.add (h : Off u k m x y) (h' : Off u k n z w) : Off u k (m + n) (x + z) (y + w) := by
  have : y + w - (x + z) = (y - x) + (w - z) := by ring
  rw [Off, this, mul_add]
  exact (abs_add_le _ _).trans (add_le_add h h')

theorem Off.neg (h : Off u k m x y) : Off u k m (-x) (-y) := by
  have : -y - -x = -(y - x) := by ring
  rw [Off, this, abs_neg]; exact h

theorem Off.abs (h : Off u k m x y) : Off u k m |x| |y| := (abs_abs_sub_abs_le y x).trans h

theorem Off.mul (h0 : 0 ≤ u) (hu : u < 1) (hk : 0 ≤ k) (hl : 0 ≤ l) (h : Off u k m x y) (h' : Off u l n z w)
    (hx : |x| ≤ m) (hz : |z| ≤ n) : Off u (k + l) (m * n) (x * z) (y * w) := by
  have e : y * w - x * z = (y - x) * (w - z) + (y - x) * z + x * (w - z) := by ring
  have g : gam u (k + l) = gam u k * gam u l + gam u k + gam u l := by
    have := gam_add (k := k) (l := l) hu; linarith
  have gk := gam_nonneg h0 hu hk
  have gl := gam_nonneg h0 hu hl
  have hm : 0 ≤ m := (abs_nonneg _).trans hx
  have hn : 0 ≤ n := (abs_nonneg _).trans hz
  have a : |(y - x) * (w - z)| ≤ (gam u k * m) * (gam u l * n) := by
    rw [abs_mul]; exact mul_le_mul h h' (abs_nonneg _) (by positivity)
  have b : |(y - x) * z| ≤ (gam u k * m) * n := by
    rw [abs_mul]; exact mul_le_mul h hz (abs_nonneg _) (by positivity)
  have c : |x * (w - z)| ≤ m * (gam u l * n) := by
    rw [abs_mul]; exact mul_le_mul hx h' (abs_nonneg _) hm
  rw [Off, e, g]
  calc _ ≤ |(y - x) * (w - z)| + |(y - x) * z| + |x * (w - z)| :=
        (abs_add_le _ _).trans (by gcongr; exact abs_add_le _ _)
    _ ≤ _ := by linarith

/-- one more rounding -/
theorem Off.rnd (h0 : 0 ≤ u) (hu : u < 1) (hk : 0 ≤ k) (h : Off u k m x y) (hx : |x| ≤ m) (h' : Rel u 1 y z) :
    Off u (k + 1) m x z := by
  obtain ⟨t, h1, h2, e⟩ := h'
  have a : Rel u 1 1 t := ⟨t, h1, h2, (one_mul t).symm⟩
  have := h.mul h0 hu hk zero_le_one (a.off hu) hx le_rfl
  simpa [e] using this

/-- a rounding with an error of `u (|y| + 1)` -/
theorem Off.rnd' (h0 : 0 ≤ u) (hu : u < 1) (hk : 0 ≤ k) (h : Off u k m x y) (hx : |x| ≤ m)
    (h' : |z - y| ≤ u * (|y| + 1)) : Off u (k + 1) (m + 1) x z := by
  have hy : |y| ≤ m + gam u k * m := by
    have : |y| ≤ |y - x| + |x| := by simpa using abs_add_le (y - x) x
    have := (show |y - x| ≤ _ from h)
    linarith
  have hm : 0 ≤ m := (abs_nonneg _).trans hx
  have gk := gam_nonneg h0 hu hk
  have g : gam u (k + 1) = gam u k * gam u 1 + gam u k + gam u 1 := by
    have := gam_add (k := k) (l := 1) hu; linarith
  have g1 := gam_one h0 hu
  have e : z - x = (z - y) + (y - x) := by ring
  rw [Off, e, g]
  have h1 : |z - y| ≤ gam u 1 * (m + gam u k * m + 1) :=
    h'.trans (mul_le_mul g1 (by linarith) (by positivity) (by linarith))
  have h2 : |y - x| ≤ gam u k * m := h
  have := abs_add_le (z - y) (y - x)
  nlinarith [mul_nonneg gk (h0.trans g1)]

end Spec

/-! ### Floating-point expressions -/

variable [Lib] {u : ℝ}

/-- finite, with a small relative error -/
def RelF (u k x : ℝ) (f : Fl) : Prop := 0 ≤ k ∧ ∃ y, f = Fl.fin y ∧ Rel u k x y

/-- finite, with an error small compared with `m` -/
def OffF (u k m x : ℝ) (f : Fl) : Prop := 0 ≤ k ∧ |x| ≤ m ∧ ∃ y, f = Fl.fin y ∧ Off u k m x y

variable [R : RelLib u] {k l m n x y z : ℝ} {f g : Fl}

theorem RelF.mono (h : RelF u k x f) (hkl : k ≤ l) : RelF u l x f := by
  obtain ⟨hk, y, e, h⟩ := h
  exact ⟨hk.trans hkl, y, e, h.mono R.u_nonneg R.u_lt hkl⟩

omit [Lib] R in
theorem RelF.lift (x : ℝ) : RelF u 0 x (Fl.fin x) := ⟨le_rfl, x, rfl, Rel.refl x⟩

theorem RelF.off (h : RelF u k x f) : OffF u k |x| x f := by
  obtain ⟨hk, y, e, h⟩ := h
  exact ⟨hk, le_rfl, y, e, h.off R.u_lt⟩

theorem relF_rnd (hk : 0 ≤ k) (h : Rel u k x y) : RelF u (k + 1) x (Fl.ofE (Lib.rnd y)) := by
  obtain ⟨w, e, h'⟩ := R.rnd y
  exact ⟨by linarith, w, by rw [e, Fl.ofE_coe], h.trans R.u_lt h'⟩

theorem offF_rnd (hk : 0 ≤ k) (h : Off u k m x y) (hx : |x| ≤ m) : OffF u (k + 1) m x (Fl.ofE (Lib.rnd y)) := by
  obtain ⟨w, e, h'⟩ := R.rnd y
  exact ⟨by linarith, hx, w, by rw [e, Fl.ofE_coe], h.rnd R.u_nonneg R.u_lt hk hx h'⟩

omit [Lib] R in
theorem RelF.neg (h : RelF u k x f) : RelF u k (-x) (-f) := by
  obtain ⟨hk, y, rfl, h⟩ := h
  exact ⟨hk, -y, rfl, h.neg⟩

theorem RelF.abs (h : RelF u k x f) : RelF u k |x| (Fl.abs f) := by
  obtain ⟨hk, y, rfl, h⟩ := h
  exact ⟨hk, |y|, rfl, h.abs R.u_lt⟩

theorem RelF.mul (h : RelF u k x f) (h' : RelF u l z g) : RelF u (k + l + 1) (x * z) (f * g) := by
  obtain ⟨hk, y, rfl, h⟩ := h
  obtain ⟨hl, w, rfl, h'⟩ := h'
  exact relF_rnd (by linarith) (h.mul R.u_lt h')

theorem RelF.div (h : RelF u k x f) (h' : RelF u l z g) (hz : z ≠ 0) : RelF u (k + l + 1) (x / z) (f / g) := by
  obtain ⟨hk, y, rfl, h⟩ := h
  obtain ⟨hl, w, rfl, h'⟩ := h'
  have : (Fl.fin y / Fl.fin w) = Fl.ofE (Lib.rnd (y / w)) := if_neg (h'.ne R.u_lt hz)
  rw [this]
  exact relF_rnd (by linarith) (h.div R.u_lt h')

theorem RelF.add (h : RelF u k x f) (h' : RelF u k z g) (hx : 0 ≤ x) (hz : 0 ≤ z) :
    RelF u (k + 1) (x + z) (f + g) := by
  obtain ⟨hk, y, rfl, h⟩ := h
  obtain ⟨hl, w, rfl, h'⟩ := h'
  exact relF_rnd hk (h.add h' hx hz)

/-- difference of two exact numbers -/
theorem relF_sub (x z : ℝ) : RelF u 1 (x - z) (Fl.fin x - Fl.fin z) := by
  have := relF_rnd (u := u) le_rfl (Rel.refl (u := u) (x - z))
  rwa [zero_add, sub_eq_add_neg] at this

omit [Lib] R in
theorem OffF.neg (h : OffF u k m x f) : OffF u k m (-x) (-f) := by
  obtain ⟨hk, hx, y, rfl, h⟩ := h
  exact ⟨hk, by rwa [abs_neg], -y, rfl, h.neg⟩

omit [Lib] R in
theorem OffF.abs (h : OffF u k m x f) : OffF u k m |x| (Fl.abs f) := by
  obtain ⟨hk, hx, y, rfl, h⟩ := h
  exact ⟨hk, by rwa [abs_abs], |y|, rfl, h.abs⟩

theorem OffF.mono (h : OffF u k m x f) (hkl : k ≤ l) (hmn : m ≤ n) : OffF u l n x f := by
  obtain ⟨hk, hx, y, rfl, h⟩ := h
  exact ⟨hk.trans hkl, hx.trans hmn, y, rfl, h.mono R.u_nonneg R.u_lt hk hkl ((abs_nonneg _).trans hx) hmn⟩

theorem OffF.add (h : OffF u k m x f) (h' : OffF u l n z g) : OffF u (max k l + 1) (m + n) (x + z) (f + g) := by
  obtain ⟨hk, hx, y, rfl, h₁⟩ := h.mono (le_max_left k l) le_rfl
  obtain ⟨hl, hz, w, rfl, h₂⟩ := h'.mono (le_max_right k l) le_rfl
  exact offF_rnd hk (h₁.add h₂) ((abs_add_le _ _).trans (add_le_add hx hz))

theorem OffF.sub (h : OffF u k m x f) (h' : OffF u l n z g) : OffF u (max k l + 1) (m + n) (x - z) (f - g) := by
  have := h.add h'.neg
  rwa [← sub_eq_add_neg] at this

theorem OffF.mul (h : OffF u k m x f) (h' : OffF u l n z g) : OffF u (k + l + 1) (m * n) (x * z) (f * g) := by
  obtain ⟨hk, hx, y, rfl, h⟩ := h
  obtain ⟨hl, hz, w, rfl, h'⟩ := h'
  refine offF_rnd (by linarith) (h.mul R.u_nonneg R.u_lt hk hl h' hx hz) ?_
  rw [abs_mul]
  exact mul_le_mul hx hz (abs_nonneg _) ((abs_nonneg _).trans hx)

theorem OffF.div (h : OffF u k m x f) (h' : RelF u l z g) (hz : z ≠ 0) :
    OffF u (k + l + 1) (m / |z|) (x / z) (f / g) := by
  obtain ⟨hk, hx, y, rfl, h⟩ := h
  obtain ⟨hl, w, rfl, h'⟩ := h'
  have e : (Fl.fin y / Fl.fin w) = Fl.ofE (Lib.rnd (y / w)) := if_neg (h'.ne R.u_lt hz)
  rw [e]
  have hi := (h'.inv R.u_lt).off R.u_lt
  have := h.mul R.u_nonneg R.u_lt hk hl hi hx le_rfl
  simp only [div_eq_mul_inv, ← abs_inv]
  refine offF_rnd (by linarith) this ?_
  rw [abs_mul]
  exact mul_le_mul hx le_rfl (abs_nonneg _) ((abs_nonneg _).trans hx)

theorem RelF.log (h : RelF u k x f) (hx : 0 < x) : OffF u (k + 1) (|Real.log x| + 1) (Real.log x) (Fl.log f) := by
  obtain ⟨hk, y, rfl, h⟩ := h
  have hy := h.pos R.u_lt hx
  obtain ⟨w, e, h'⟩ := R.log y hy
  have e' : Fl.log (Fl.fin y) = Fl.fin w := by
    rw [Fl.log, if_neg hy.not_gt, if_neg hy.ne', e, Fl.ofE_coe]
  have hl := h.log R.u_lt hx
  refine ⟨by linarith, by linarith, w, e', ?_⟩
  have h0 := R.u_nonneg
  have gk := gam_nonneg h0 R.u_lt hk
  have g1 := gam_one h0 R.u_lt
  have g : gam u (k + 1) = gam u k * gam u 1 + gam u k + gam u 1 := by
    have := gam_add (k := k) (l := 1) R.u_lt; linarith
  have hy' : |Real.log y| ≤ |Real.log x| + gam u k := by
    have := abs_add_le (Real.log y - Real.log x) (Real.log x)
    rw [sub_add_cancel] at this; linarith
  have h1 : |w - Real.log y| ≤ gam u 1 * (|Real.log x| + gam u k + 1) :=
    h'.trans (mul_le_mul g1 (by linarith) (by positivity) (by linarith))
  have h2 := abs_add_le (w - Real.log y) (Real.log y - Real.log x)
  rw [sub_add_sub_cancel] at h2
  rw [Off, g]
  nlinarith [mul_nonneg gk (h0.trans g1), abs_nonneg (Real.log x), mul_nonneg gk (abs_nonneg (Real.log x)),
    mul_nonneg (mul_nonneg gk (h0.trans g1)) (abs_nonneg (Real.log x))]

theorem offF_lgamma (hx : 0 < x) : OffF u 1 (|Real.log (Real.Gamma x)| + 1) (Real.log (Real.Gamma x))
    (Fl.lgamma (Fl.fin x)) := by
  obtain ⟨w, e, h⟩ := R.lgamma x hx
  refine ⟨zero_le_one, by linarith, w, by rw [Fl.lgamma, e, Fl.ofE_coe], ?_⟩
  exact h.trans (mul_le_mul_of_nonneg_right (gam_one R.u_nonneg R.u_lt) (by positivity))

/-- the exponential turns absolute into relative errors -/
theorem OffF.exp (h : OffF u k m x f) : ∃ y, Fl.exp f = Fl.fin y ∧
    Real.exp x * Real.exp (-(gam u k * m)) * (1 - u) ≤ y ∧
    y ≤ Real.exp x * Real.exp (gam u k * m) / (1 - u) := by
  obtain ⟨hk, hx, y, rfl, h⟩ := h
  obtain ⟨w, e, t, h1, h2, h'⟩ := R.exp y
  refine ⟨w, by rw [Fl.exp, e, Fl.ofE_coe], ?_, ?_⟩
  all_goals
    have p : 0 < 1 - u := by linarith [R.u_lt]
    obtain ⟨a, b⟩ := abs_le.1 h
    rw [rpow_one] at h1
    rw [rpow_neg_one] at h2
    rw [h', ← Real.exp_add]
  · exact mul_le_mul (Real.exp_le_exp.2 (by linarith)) h1 p.le (Real.exp_pos _).le
  · rw [div_eq_mul_inv]
    exact mul_le_mul (Real.exp_le_exp.2 (by linarith)) h2 (p.le.trans h1) (Real.exp_pos _).le

/-! ### Functions that do not amplify relative errors -/

omit [Lib] R in
theorem concave_of_deriv {f f' : ℝ → ℝ} (h : ∀ x, HasDerivAt f (f' x) x)
    (ha : ∀ x y, 0 < x → x ≤ y → f' y ≤ f' x) : ConcaveOn ℝ (Set.Ici 0) f := by
  have hd : deriv f = f' := funext fun x => (h x).deriv
  refine AntitoneOn.concaveOn_of_deriv (convex_Ici 0) (fun x _ => (h x).continuousAt.continuousWithinAt)
    (fun x _ => (h x).differentiableAt.differentiableWithinAt) ?_
  rw [hd, interior_Ici]
  intro x hx y _ hxy
  exact ha x y hx hxy

omit [Lib] R in
theorem concave_arctan : ConcaveOn ℝ (Set.Ici 0) Real.arctan :=
  concave_of_deriv Real.hasDerivAt_arctan fun x y hx h => by
    apply one_div_le_one_div_of_le (by positivity); nlinarith

omit [Lib] R in
theorem concave_erf : ConcaveOn ℝ (Set.Ici 0) Spec.erf :=
  concave_of_deriv hasDerivAt_erf fun x y hx h => by
    have : (0 : ℝ) ≤ 2 / √π := by positivity
    exact mul_le_mul_of_nonneg_left (Real.exp_le_exp.2 (by nlinarith)) this

omit [Lib] R in
theorem concave_one_sub_exp : ConcaveOn ℝ (Set.Ici 0) fun x => 1 - Real.exp (-x) :=
  concave_of_deriv (f' := fun x => Real.exp (-x)) (fun x => by
    simpa using ((Real.hasDerivAt_exp (-x)).comp x (hasDerivAt_neg x)).const_sub 1)
    fun x y hx h => Real.exp_le_exp.2 (by linarith)

omit [Lib] R in
theorem concave_tanh : ConcaveOn ℝ (Set.Ici 0) Real.tanh := by
  have h : ∀ x, HasDerivAt Real.tanh (4 / (Real.exp x + Real.exp (-x)) ^ 2) x := fun x => by
    have h1 : HasDerivAt (fun x => Real.sinh x / Real.cosh x) _ x :=
      (Real.hasDerivAt_sinh x).div (Real.hasDerivAt_cosh x) (Real.cosh_pos x).ne'
    have e : (fun x => Real.sinh x / Real.cosh x) = Real.tanh := by ext x; rw [Real.tanh_eq_sinh_div_cosh]
    rw [e] at h1
    convert h1 using 1
    have := Real.cosh_sq x
    have e2 : Real.cosh x * Real.cosh x - Real.sinh x * Real.sinh x = 1 := by nlinarith
    rw [e2, Real.cosh_eq]
    field_simp
    norm_num
  refine concave_of_deriv h fun x y hx hxy => ?_
  have h1 : Real.exp x + Real.exp (-x) ≤ Real.exp y + Real.exp (-y) := by
    have := Real.cosh_le_cosh.2 (by rwa [abs_of_pos hx, abs_of_pos (hx.trans_le hxy)] : |x| ≤ |y|)
    rw [Real.cosh_eq, Real.cosh_eq] at this; linarith
  have h2 := Real.exp_pos x
  have h3 := Real.exp_pos (-x)
  apply div_le_div_of_nonneg_left (by norm_num) (by positivity)
  gcongr

theorem RelF.atan (h : RelF u k x f) : RelF u (k + 1) (Real.arctan x) (Fl.atan f) := by
  obtain ⟨hk, y, rfl, h⟩ := h
  obtain ⟨w, e, h'⟩ := R.atan y
  exact ⟨by linarith, w, by rw [Fl.atan, e, Fl.ofE_coe],
    (h.concave_odd R.u_nonneg R.u_lt hk concave_arctan (Real.arctan_mono.monotoneOn _) Real.arctan_neg).trans R.u_lt h'⟩

theorem RelF.tanh (h : RelF u k x f) : RelF u (k + 1) (Real.tanh x) (Fl.tanh f) := by
  obtain ⟨hk, y, rfl, h⟩ := h
  obtain ⟨w, e, h'⟩ := R.tanh y
  exact ⟨by linarith, w, by rw [Fl.tanh, e, Fl.ofE_coe],
    (h.concave_odd R.u_nonneg R.u_lt hk concave_tanh (monotone_tanh.monotoneOn _) Real.tanh_neg).trans R.u_lt h'⟩

theorem RelF.erf (h : RelF u k x f) : RelF u (k + 1) (Spec.erf x) (Fl.erf f) := by
  obtain ⟨hk, y, rfl, h⟩ := h
  obtain ⟨w, e, h'⟩ := R.erf y
  exact ⟨by linarith, w, by rw [Fl.erf, e, Fl.ofE_coe],
    (h.concave_odd R.u_nonneg R.u_lt hk concave_erf (strictMono_erf.monotone.monotoneOn _) erf_neg).trans R.u_lt h'⟩

/-- `-expm1(-x)` for positive `x` -/
theorem RelF.neg_expm1 (h : RelF u k (-x) f) (hx : 0 ≤ x) : RelF u (k + 1) (1 - Real.exp (-x)) (-Fl.expm1 f) := by
  obtain ⟨hk, y, rfl, h⟩ := h
  obtain ⟨w, e, h'⟩ := R.expm1 y
  have hn := h.neg
  rw [neg_neg] at hn
  have h2 := hn.concave R.u_nonneg R.u_lt hk concave_one_sub_exp
    (fun a _ b _ hab => by have := Real.exp_le_exp.2 (neg_le_neg hab); linarith) (by simp) hx
  rw [neg_neg] at h2
  refine ⟨by linarith, -w, by rw [Fl.expm1, e, Fl.ofE_coe]; rfl, h2.trans R.u_lt ?_⟩
  have := h'.neg
  rwa [neg_sub] at this

theorem RelF.pow (h : RelF u k x f) (hx : 0 < x) {s : ℝ} (hs : 0 ≤ s) :
    RelF u (k * s + 1) (x ^ s) (Fl.pow f (Fl.fin s)) := by
  obtain ⟨hk, y, rfl, h⟩ := h
  have hy := h.pos R.u_lt hx
  obtain ⟨w, e, h'⟩ := R.pow y s hy
  refine ⟨by positivity, w, ?_, (h.rpow R.u_lt hx hs).trans R.u_lt h'⟩
  simp only [Fl.pow]
  rw [if_neg hy.not_gt, if_neg hy.ne', e, Fl.ofE_coe]

end Stats
