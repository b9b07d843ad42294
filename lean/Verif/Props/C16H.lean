import Verif.Props.C16B
import Verif.Props.C42

/-!
# C16 for `qt` with rounding

With 1 degree of freedom or infinitely many the quantile is monotone in every arithmetic whose library functions are. With 2 it falls in
binary64: between two neighbouring doubles near 1/8 the rounded `1 - p` falls by more than `2p` rises, while the rounded `2p - 1` stays.
-/

set_option linter.unusedSectionVars false
open Classical
namespace Stats
open Fl Spec

section
variable [Lib]

/-- 1 degree of freedom -/
theorem C16_qt_one_rounded [MonoTan] (hp : Rep (Lib.pi / 2)) : MonoQuant (fun u => qt u (fin 1)) ninf pinf := by
  have ok : t_ok (fin 1) := by
    have : Lib.eps ≤ 1 := Lib.eps_le.trans (by norm_num)
    simp [t_ok, eps, this]
  refine monoQuant_line (fun u => tan (PI * (fin u - half))) ?_ ?_ ?_ ?_
  · simp [qt, ok, prob_val_ok]
  · simp [qt, ok, prob_val_ok]
  · intro u h0 h1
    simp [qt, ok, prob_val_ok, h0.le, h1.le, h0.ne', h1.ne]
  · intro u v h0 huv h1
    have pp := Lib.pi_pos
    have key : ∀ u : ℝ, 0 < u → u < 1 → Btw (-(Lib.pi / 2)) (Lib.pi / 2) (PI * (fin u - half)) := by
      intro u h0 h1
      have : Btw (-(1 / 2)) (1 / 2) (fin u - half) := by
        rw [half, fin_sub_fin]
        exact btw_rnd (rep_neg rep_oh) rep_oh (by linarith) (by linarith)
      obtain ⟨d, hd, h2, h3⟩ := this
      rw [hd, PI, fin_mul_fin]
      exact btw_rnd (rep_neg hp) hp (by nlinarith) (by nlinarith)
    obtain ⟨x, hx, hx1, hx2⟩ := key u h0 (huv.trans_lt h1)
    obtain ⟨y, hy, hy0, hy1⟩ := key v (h0.trans_le huv) h1
    have hxy : x ≤ y := by
      have := mul_mono pp (sub_mono (1 / 2) (fin_le_fin.2 huv))
      rw [PI, half] at hx hy
      rwa [hx, hy, fin_le_fin] at this
    simp only [hx, hy]
    rw [tan, tan, ofE_le_ofE]
    exact MonoTan.tan_mono ⟨hx1, hx2⟩ ⟨hy0, hy1⟩ hxy

/-- infinitely many degrees of freedom -/
theorem C16_qt_inf_rounded [MonoInv] {s : ℝ} (h2 : 0 < s) (hs : Lib.rnd (Lib.sqrt2 * 1) = s) :
    MonoQuant (fun u => qt u pinf) ninf pinf := by
  have ok : t_ok pinf := by simp [t_ok, eps]
  have e : ∀ u : ℝ, 0 ≤ u → u ≤ 1 → qt (fin u) pinf = qnorm (fin u) (fin 0) (fin 1) := fun u h0 h1 => by
    rcases h0.eq_or_lt with rfl | h0
    · simp [qt, ok, prob_val_ok, qnorm, norm_ok]
    rcases h1.eq_or_lt with rfl | h1
    · simp [qt, ok, prob_val_ok, qnorm, norm_ok]
    simp [qt, ok, prob_val_ok, h0.le, h1.le, h0.ne', h1.ne, zero_eq, one_eq]
  obtain ⟨n0, n1, nm⟩ := C16_norm_rounded 0 one_pos h2 hs
  refine ⟨?_, ?_, fun u v h0 huv h1 => ?_⟩
  · show qt (fin 0) pinf = _
    rw [e 0 le_rfl zero_le_one]; exact n0
  · show qt (fin 1) pinf = _
    rw [e 1 zero_le_one le_rfl]; exact n1
  · show qt (fin u) pinf ≤ qt (fin v) pinf
    rw [e u h0 (huv.trans h1), e v (h0.trans huv) h1]
    exact nm u v h0 huv h1

end

namespace C16QtDouble
open Double
set_option warn.classDefReducibility false in
attribute [local instance] doubleLib doubleLib_mono doubleLib_inv doubleLib_tan

example : MonoQuant (fun u => qt u (fin 1)) ninf pinf := by
  refine C16_qt_one_rounded ?_
  rw [Rep, double_pi]
  refine R_of_mul (by norm_num) (k := 884279719003555) (j := -49) (by norm_num) ?_
    (lt_of_lt_of_le (by norm_num : _ < (2 : ℝ) ^ 2) (pow_le_pow_right₀ (by norm_num) (by norm_num)))
  have := q_le (x := 884279719003555 / 2 ^ 48 / 2) (by norm_num) (e := 0) (by norm_num) (by norm_num)
  omega
example : MonoQuant (fun u => qt u pinf) ninf pinf := by
  obtain ⟨s, s0, es⟩ := C16Double.R_pos (x := doubleLib.sqrt2 * 1) (e := 0) (by norm_num) (by simpa using C16Double.sqrt2_ge) (by
    have := PoisDouble.sqrt2_le.trans (by norm_num : (3 : ℝ) / 2 ≤ 2)
    rw [mul_one]
    exact this.trans (le_self_pow₀ (by norm_num) (by norm_num)))
  exact C16_qt_inf_rounded s0 es

theorem two {p : ℝ} (p0 : 0 < p) (p1 : p < 1) : qt (fin p) (fin 2) = (2 * fin p - 1) / sqrt (2 * fin p * (1 - fin p)) := by
  have ok : t_ok (fin 2) := by simp [t_ok, eps, DoubleArith.deps]; norm_num
  rw [qt, if_neg (not_not.2 ok), if_neg (by simp [prob_val_ok, p0.le, p1.le]), if_neg (by simp [p0.ne']), if_neg (by simp [p1.ne]),
    if_neg (by simp), if_pos (by simp [ofNat_eq])]

theorem value_u : qt (fin (9000875546571115 / 2 ^ 56)) (fin 2) = fin (-(7225690566250164 / 2 ^ 52)) := by
  have ha : (2 : Fl) * fin (9000875546571115 / 2 ^ 56) = fin (9000875546571115 / 2 ^ 55) := by
    have := R_near (x := 2 * (9000875546571115 / 2 ^ 56)) (-3) 9000875546571115 (by norm_num) (by norm_num) (by norm_num) (by norm_num)
      (by norm_num [abs_lt])
    rw [ofNat_eq 2, DoubleArith.dmul, show (OfNat.ofNat 2 : ℝ) = 2 from rfl, this, ofE_coe]; norm_num
  have hb : (1 : Fl) - fin (9000875546571115 / 2 ^ 56) = fin (7882089811419603 / 2 ^ 53) := by
    have := R_near (x := 1 - (9000875546571115 / 2 ^ 56)) (-1) 7882089811419603 (by norm_num) (by norm_num) (by norm_num) (by norm_num)
      (by norm_num [abs_lt])
    rw [one_eq, DoubleArith.dsub, this, ofE_coe]; norm_num
  have hc : fin (9000875546571115 / 2 ^ 55) * fin (7882089811419603 / 2 ^ 53) = fin (7876556011808149 / 2 ^ 55) := by
    have := R_near (x := (9000875546571115 / 2 ^ 55) * (7882089811419603 / 2 ^ 53)) (-3) 7876556011808149 (by norm_num) (by norm_num) (by norm_num) (by norm_num)
      (by norm_num [abs_lt])
    rw [DoubleArith.dmul, this, ofE_coe]; norm_num
  have hd : sqrt (fin (7876556011808149 / 2 ^ 55)) = fin (8422927605024517 / 2 ^ 54) := by
    have l : (16845855210049033 / 2 ^ 55 : ℝ) < √(7876556011808149 / 2 ^ 55) := Real.lt_sqrt_of_sq_lt (by norm_num)
    have h : √(7876556011808149 / 2 ^ 55) < (16845855210049035 / 2 ^ 55 : ℝ) := (Real.sqrt_lt' (by norm_num)).2 (by norm_num)
    have := R_near (x := √(7876556011808149 / 2 ^ 55)) (-2) 8422927605024517 (le_trans (by norm_num) l.le) (h.trans_le (by norm_num)) (by norm_num) (by norm_num)
      (by rw [abs_lt]; norm_num at l h ⊢; constructor <;> linarith)
    show (if ((7876556011808149 / 2 ^ 55) : ℝ) < 0 then nan else ofE (R √(7876556011808149 / 2 ^ 55))) = _
    rw [if_neg (by norm_num), this, ofE_coe]; norm_num
  have hn : fin (9000875546571115 / 2 ^ 55) - 1 = fin (-(6756980368098213 / 2 ^ 53)) := by
    have := R_near (x := 1 - (9000875546571115 / 2 ^ 55)) (-1) 6756980368098213 (by norm_num) (by norm_num) (by norm_num) (by norm_num)
      (by norm_num [abs_lt])
    rw [one_eq, DoubleArith.dsub, show ((9000875546571115 / 2 ^ 55) : ℝ) - 1 = -(1 - (9000875546571115 / 2 ^ 55)) by ring, R_neg, this, ← EReal.coe_neg, ofE_coe]; norm_num
  have hr : fin (-(6756980368098213 / 2 ^ 53)) / fin (8422927605024517 / 2 ^ 54) = fin (-(7225690566250164 / 2 ^ 52)) := by
    have := R_near (x := (6756980368098213 / 2 ^ 53) / (8422927605024517 / 2 ^ 54)) (0) 7225690566250164 (by norm_num) (by norm_num) (by norm_num) (by norm_num)
      (by norm_num [abs_lt])
    rw [DoubleArith.ddiv _ (by norm_num), neg_div, R_neg, this, ← EReal.coe_neg, ofE_coe]; norm_num
  rw [two (by norm_num) (by norm_num), ha, hb, hc, hd, hn, hr]

theorem value_v : qt (fin (9000875546571116 / 2 ^ 56)) (fin 2) = fin (-(7225690566250165 / 2 ^ 52)) := by
  have ha : (2 : Fl) * fin (9000875546571116 / 2 ^ 56) = fin (9000875546571116 / 2 ^ 55) := by
    have := R_near (x := 2 * (9000875546571116 / 2 ^ 56)) (-3) 9000875546571116 (by norm_num) (by norm_num) (by norm_num) (by norm_num)
      (by norm_num [abs_lt])
    rw [ofNat_eq 2, DoubleArith.dmul, show (OfNat.ofNat 2 : ℝ) = 2 from rfl, this, ofE_coe]; norm_num
  have hb : (1 : Fl) - fin (9000875546571116 / 2 ^ 56) = fin (7882089811419602 / 2 ^ 53) := by
    have := R_tie (x := 1 - (9000875546571116 / 2 ^ 56)) (-1) 7882089811419602 (by norm_num) (by norm_num) (by norm_num) (by norm_num) ⟨3941044905709801, by norm_num⟩
      (by norm_num)
    rw [one_eq, DoubleArith.dsub, this, ofE_coe]; norm_num
  have hc : fin (9000875546571116 / 2 ^ 55) * fin (7882089811419602 / 2 ^ 53) = fin (7876556011808148 / 2 ^ 55) := by
    have := R_near (x := (9000875546571116 / 2 ^ 55) * (7882089811419602 / 2 ^ 53)) (-3) 7876556011808148 (by norm_num) (by norm_num) (by norm_num) (by norm_num)
      (by norm_num [abs_lt])
    rw [DoubleArith.dmul, this, ofE_coe]; norm_num
  have hd : sqrt (fin (7876556011808148 / 2 ^ 55)) = fin (8422927605024516 / 2 ^ 54) := by
    have l : (16845855210049031 / 2 ^ 55 : ℝ) < √(7876556011808148 / 2 ^ 55) := Real.lt_sqrt_of_sq_lt (by norm_num)
    have h : √(7876556011808148 / 2 ^ 55) < (16845855210049033 / 2 ^ 55 : ℝ) := (Real.sqrt_lt' (by norm_num)).2 (by norm_num)
    have := R_near (x := √(7876556011808148 / 2 ^ 55)) (-2) 8422927605024516 (le_trans (by norm_num) l.le) (h.trans_le (by norm_num)) (by norm_num) (by norm_num)
      (by rw [abs_lt]; norm_num at l h ⊢; constructor <;> linarith)
    show (if ((7876556011808148 / 2 ^ 55) : ℝ) < 0 then nan else ofE (R √(7876556011808148 / 2 ^ 55))) = _
    rw [if_neg (by norm_num), this, ofE_coe]; norm_num
  have hn : fin (9000875546571116 / 2 ^ 55) - 1 = fin (-(6756980368098213 / 2 ^ 53)) := by
    have := R_near (x := 1 - (9000875546571116 / 2 ^ 55)) (-1) 6756980368098213 (by norm_num) (by norm_num) (by norm_num) (by norm_num)
      (by norm_num [abs_lt])
    rw [one_eq, DoubleArith.dsub, show ((9000875546571116 / 2 ^ 55) : ℝ) - 1 = -(1 - (9000875546571116 / 2 ^ 55)) by ring, R_neg, this, ← EReal.coe_neg, ofE_coe]; norm_num
  have hr : fin (-(6756980368098213 / 2 ^ 53)) / fin (8422927605024516 / 2 ^ 54) = fin (-(7225690566250165 / 2 ^ 52)) := by
    have := R_near (x := (6756980368098213 / 2 ^ 53) / (8422927605024516 / 2 ^ 54)) (0) 7225690566250165 (by norm_num) (by norm_num) (by norm_num) (by norm_num)
      (by norm_num [abs_lt])
    rw [DoubleArith.ddiv _ (by norm_num), neg_div, R_neg, this, ← EReal.coe_neg, ofE_coe]; norm_num
  rw [two (by norm_num) (by norm_num), ha, hb, hc, hd, hn, hr]

/-- Binary64, 2 degrees of freedom: two neighbouring doubles near 1/8 with falling quantiles. -/
theorem C16_qt_two_double_violated : ∃ u v r s : ℝ, 0 < u ∧ u < v ∧ v < 1 ∧ qt (fin u) (fin 2) = fin r ∧ qt (fin v) (fin 2) = fin s ∧ s < r :=
  ⟨_, _, _, _, by norm_num, by norm_num, by norm_num, value_u, value_v, by norm_num⟩

end C16QtDouble
end Stats
