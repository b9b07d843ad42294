import Verif.Props.C16E
import Verif.Props.C16B
import Verif.Props.C20D
import Verif.Lemmas.Mills

/-!
# C16 for `qpois` with rounding

The search stops at the first count whose computed distribution function exceeds the probability. Below rate 11 it starts at 0, and
a larger probability never stops earlier, however the distribution function is rounded. From rate 11 on it starts from a rounded
normal quantile; the same holds as long as the search for the larger probability does not start beyond its target, and in any case up to one count.
-/

set_option linter.unusedSectionVars false
open Classical
namespace Stats
open Fl Spec

section
variable [Lib]

/-- where a search that has begun stops -/
theorem qpois_search_found (p rate : Fl) : ∀ (fuel : ℕ) (c : ℤ) (x : Fl), 0 ≤ c →
    qpois_compute_right_search p rate fuel (ppois c rate false) (c + 1) = some x →
    ∃ k : ℤ, c ≤ k ∧ x = ofInt k ∧ ¬ ppois k rate false ≤ p ∧ ∀ j, c ≤ j → j < k → ppois j rate false ≤ p
  | 0, _, _, _, h => by simp [qpois_compute_right_search] at h
  | fuel + 1, c, x, hc, h => by
    rw [qpois_compute_right_search] at h
    by_cases hle : ppois c rate false ≤ p
    · rw [if_pos hle] at h
      obtain ⟨k, hk, e, n, b⟩ := qpois_search_found p rate fuel (c + 1) x (by omega) h
      refine ⟨k, by omega, e, n, fun j h1 h2 => ?_⟩
      rcases h1.eq_or_lt with rfl | h1
      · exact hle
      · exact b j h1 h2
    · rw [if_neg hle, if_pos (by omega), add_sub_cancel_right] at h
      exact ⟨c, le_rfl, (Option.some.inj h).symm, hle, fun j h1 h2 => absurd h2 (not_lt.2 h1)⟩

theorem not_le_of_le {y : Fl} {u v : ℝ} (huv : u ≤ v) (h : ¬ y ≤ fin v) : ¬ y ≤ fin u := fun h' => h (by
  revert h'
  cases y <;> simp
  intro; linarith)

/-- a search for a larger probability that starts no earlier and not beyond its target ends no earlier -/
theorem qpois_search_later {u v : ℝ} (huv : u ≤ v) (rate : Fl) {c d : ℤ} (hc : 0 ≤ c) (hcd : c ≤ d)
    (hd : d = 0 ∨ ppois d rate false ≤ fin v) {x y : Fl} (hx : qpois_compute_search_begin (fin u) rate c = some x)
    (hy : qpois_compute_search_begin (fin v) rate d = some y) : x ≤ y := by
  obtain ⟨n, hy⟩ := runFuel_eq_some hy
  obtain ⟨m, hx⟩ := runFuel_eq_some hx
  cases n with
  | zero => simp [qpois_compute_right_search] at hy
  | succ n =>
    cases m with
    | zero => simp [qpois_compute_right_search] at hx
    | succ m =>
      rw [qpois_compute_right_search] at hx hy
      by_cases hle : ppois d rate false ≤ fin v
      swap
      · -- both searches stop at 0
        have h0 : d = 0 := hd.resolve_right hle
        have c0 : c = 0 := by omega
        rw [if_neg hle, h0] at hy
        rw [c0, ← h0, if_neg (not_le_of_le huv hle), h0] at hx
        rw [← Option.some.inj (by simpa using hx : some (0 : Fl) = some x), ← Option.some.inj (by simpa using hy : some (0 : Fl) = some y)]
        simp
      rw [if_pos hle] at hy
      obtain ⟨k, hk, rfl, stop, -⟩ := qpois_search_found _ _ n d y (hc.trans hcd) hy
      split_ifs at hx with h1 h2
      · obtain ⟨j, hj, rfl, -, before⟩ := qpois_search_found _ _ m c x hc hx
        apply ofInt_mono
        by_contra hn
        exact not_le_of_le huv stop (before k (hcd.trans hk) (not_le.1 hn))
      · rw [← Option.some.inj hx]
        exact ofInt_mono (by omega)
      · rw [← Option.some.inj hx]
        have := ofInt_mono (hc.trans (hcd.trans hk))
        rwa [show ofInt 0 = 0 by simp [ofInt]] at this

/-- Every arithmetic, rates below 11: whatever the two searches return is ordered. -/
theorem C16_qpois_small_rounded {rate : ℝ} (hr : Lib.eps ≤ rate) (h11 : rate < 11) {u v : ℝ} (h0 : 0 ≤ u) (huv : u ≤ v) (h1 : v ≤ 1)
    {x y : Fl} (hx : qpois (fin u) (fin rate) = some x) (hy : qpois (fin v) (fin rate) = some y) : x ≤ y := by
  have r0 : 0 < rate := Lib.eps_pos.trans_le hr
  have a : pois_ok (fin rate) := by simp [pois_ok, r0.le]
  have run : ∀ p : ℝ, 0 < p → p < 1 → ∀ z, qpois (fin p) (fin rate) = some z →
      ∃ k : ℤ, 0 ≤ k ∧ z = ofInt k ∧ ¬ ppois k (fin rate) false ≤ fin p ∧ ∀ j, 0 ≤ j → j < k → ppois j (fin rate) false ≤ fin p :=
    fun p p0 p1 z hz => by
      have b : prob_val_ok (fin p) := by simp [prob_val_ok, p0.le, p1.le]
      rw [qpois, if_neg (not_not.2 a), if_neg (not_not.2 b), if_neg (by simp [p0.ne']), if_neg (by simp [eps, hr]),
        if_neg (by simp [p1.ne]), if_pos (by simpa using h11)] at hz
      obtain ⟨n, hz⟩ := runFuel_eq_some hz
      cases n with
      | zero => simp [qpois_compute_right_search] at hz
      | succ n =>
        rw [qpois_compute_right_search, if_pos (by simpa using p0.le)] at hz
        exact qpois_search_found _ _ n 0 z le_rfl hz
  have zero : qpois (fin 0) (fin rate) = some (fin 0) := by
    rw [qpois, if_neg (not_not.2 a)]; simp [prob_val_ok]
  have one : qpois (fin 1) (fin rate) = some pinf := by
    rw [qpois, if_neg (not_not.2 a)]; simp [prob_val_ok, eps, not_lt.2 hr]
  have nn : ∀ k : ℤ, 0 ≤ k → fin 0 ≤ ofInt k := fun k hk => by
    have := ofInt_mono hk
    rwa [show ofInt 0 = fin 0 by simp [ofInt]] at this
  have top : ∀ k : ℤ, ofInt k ≤ pinf := fun k => by
    rw [ofInt]
    cases Lib.rnd (k : ℝ) <;> simp [ofE]
  rcases h0.eq_or_lt with rfl | h0
  · rw [zero] at hx
    rw [← Option.some.inj hx]
    rcases huv.eq_or_lt with rfl | hv
    · rw [zero] at hy; rw [← Option.some.inj hy]; simp
    rcases h1.eq_or_lt with rfl | h1
    · rw [one] at hy; rw [← Option.some.inj hy]; simp
    · obtain ⟨k, hk, rfl, -, -⟩ := run v hv h1 y hy
      exact nn k hk
  rcases h1.eq_or_lt with rfl | h1
  · rw [one] at hy
    rw [← Option.some.inj hy]
    rcases huv.eq_or_lt with rfl | hu
    · rw [one] at hx; rw [← Option.some.inj hx]; simp
    · obtain ⟨k, hk, rfl, -, -⟩ := run u h0 hu x hx
      exact top k
  obtain ⟨j, hj, rfl, -, before⟩ := run u h0 (huv.trans_lt h1) x hx
  obtain ⟨k, hk, rfl, stop, -⟩ := run v (h0.trans_le huv) h1 y hy
  apply ofInt_mono
  by_contra hn
  exact not_le_of_le huv stop (before k hk (not_le.1 hn))

/-- a search that starts no earlier for a larger probability, wherever it starts, ends at most one count earlier -/
theorem qpois_search_near {u v : ℝ} (huv : u ≤ v) (rate : Fl) {c d : ℤ} (hc : 0 ≤ c) (hcd : c ≤ d)
    {x y : Fl} (hx : qpois_compute_search_begin (fin u) rate c = some x)
    (hy : qpois_compute_search_begin (fin v) rate d = some y) :
    ∃ j k : ℤ, x = ofInt j ∧ y = ofInt k ∧ 0 ≤ j ∧ 0 ≤ k ∧ (j ≤ k ∨ j = k + 1 ∧ k + 1 = d) := by
  obtain ⟨n, hy⟩ := runFuel_eq_some hy
  obtain ⟨m, hx⟩ := runFuel_eq_some hx
  have zero : (0 : Fl) = ofInt 0 := by simp [ofInt]
  cases n with
  | zero => simp [qpois_compute_right_search] at hy
  | succ n =>
    cases m with
    | zero => simp [qpois_compute_right_search] at hx
    | succ m =>
      rw [qpois_compute_right_search] at hx hy
      by_cases hle : ppois d rate false ≤ fin v
      · rw [if_pos hle] at hy
        obtain ⟨k, hk, rfl, stop, -⟩ := qpois_search_found _ _ n d y (hc.trans hcd) hy
        split_ifs at hx with h1 h2
        · obtain ⟨j, hj, rfl, -, before⟩ := qpois_search_found _ _ m c x hc hx
          refine ⟨j, k, rfl, rfl, by omega, by omega, Or.inl ?_⟩
          by_contra hn
          exact not_le_of_le huv stop (before k (hcd.trans hk) (not_le.1 hn))
        · exact ⟨c - 1, k, (Option.some.inj hx).symm, rfl, by omega, by omega, Or.inl (by omega)⟩
        · exact ⟨0, k, by rw [← Option.some.inj hx, zero], rfl, le_rfl, by omega, Or.inl (by omega)⟩
      · rw [if_neg hle] at hy
        -- the first search stops at `d` or before
        have near : ∃ j : ℤ, x = ofInt j ∧ 0 ≤ j ∧ j ≤ d ∧ (d = 0 → j = 0) := by
          split_ifs at hx with h1 h2
          · obtain ⟨j, hj, rfl, -, before⟩ := qpois_search_found _ _ m c x hc hx
            have : j ≤ d := by
              by_contra hn
              exact not_le_of_le huv hle (before d hcd (not_le.1 hn))
            exact ⟨j, rfl, by omega, this, by omega⟩
          · exact ⟨c - 1, (Option.some.inj hx).symm, by omega, by omega, by omega⟩
          · exact ⟨0, by rw [← Option.some.inj hx, zero], le_rfl, by omega, by omega⟩
        obtain ⟨j, rfl, j0, jd, jz⟩ := near
        split_ifs at hy with h2
        · exact ⟨j, d - 1, rfl, (Option.some.inj hy).symm, j0, by omega, by omega⟩
        · exact ⟨j, 0, rfl, by rw [← Option.some.inj hy, zero], j0, le_rfl, Or.inl (by omega)⟩

/-- from rate 11 on, the search and the order of the starting points -/
theorem qpois_starts [MonoInv] {rate sigma s : ℝ} (hr : 11 ≤ rate) (hs : sqrt (fin rate) = fin sigma) (h : 0 < sigma)
    (h2 : 0 < s) (hs' : Lib.rnd (Lib.sqrt2 * sigma) = s) {u v : ℝ} (h0 : 0 < u) (huv : u ≤ v) (h1 : v < 1)
    (hf : qnorm (fin v) (fin rate) (fin sigma) - 3 ≠ pinf) :
    (∀ p : ℝ, 0 < p → p < 1 → qpois (fin p) (fin rate) =
      qpois_compute_search_begin (fin p) (fin rate) (qpois_trunc_normal_approx (fin p) (fin rate))) ∧
    0 ≤ qpois_trunc_normal_approx (fin u) (fin rate) ∧
    qpois_trunc_normal_approx (fin u) (fin rate) ≤ qpois_trunc_normal_approx (fin v) (fin rate) := by
  have hr1 : Lib.eps ≤ rate := Lib.eps_le.trans (by norm_num; linarith)
  have a : pois_ok (fin rate) := by simp [pois_ok]; linarith
  have m : qnorm (fin u) (fin rate) (fin sigma) - 3 ≤ qnorm (fin v) (fin rate) (fin sigma) - 3 :=
    sub_mono 3 ((C16_norm_rounded rate h h2 hs').2.2 u v h0.le huv h1.le)
  refine ⟨fun p p0 p1 => ?_, ?_, ?_⟩
  · have b : prob_val_ok (fin p) := by simp [prob_val_ok, p0.le, p1.le]
    rw [qpois, if_neg (not_not.2 a), if_neg (not_not.2 b), if_neg (by simp [p0.ne']), if_neg (by simp [eps, hr1]),
      if_neg (by simp [p1.ne]), if_neg (by simpa using hr)]
  · rw [qpois_trunc_normal_approx, hs]
    apply Int.floor_nonneg.2
    rw [Fl.max]
    split_ifs with hp
    · revert hp
      generalize qnorm (fin u) (fin rate) (fin sigma) - 3 = w
      cases w <;> simp [zero_eq, toR]
      intro h; exact h.le
    · simp [zero_eq]
  · rw [qpois_trunc_normal_approx, qpois_trunc_normal_approx, hs]
    apply Int.floor_le_floor
    revert m hf
    generalize qnorm (fin u) (fin rate) (fin sigma) - 3 = w
    generalize qnorm (fin v) (fin rate) (fin sigma) - 3 = z
    intro hz m
    rw [Fl.max, Fl.max]
    cases w <;> cases z <;> simp [zero_eq, toR] at m hz ⊢
    all_goals first
      | (split_ifs <;> simp [toR] <;> linarith)
      | simp [toR]

/-- Rates from 11 on. `hf`, `ht`: the starting point of the larger probability is finite, and it is 0 or its distribution function does not
exceed that probability. Missing: starting points beyond the target (exact arithmetic has none, `qpois_start`; binary64 has, `C16_qpois_double_violated`). -/
theorem C16_qpois_rounded_partial [MonoInv] {rate sigma s : ℝ} (hr : 11 ≤ rate) (hs : sqrt (fin rate) = fin sigma) (h : 0 < sigma)
    (h2 : 0 < s) (hs' : Lib.rnd (Lib.sqrt2 * sigma) = s) {u v : ℝ} (h0 : 0 < u) (huv : u ≤ v) (h1 : v < 1)
    (hf : qnorm (fin v) (fin rate) (fin sigma) - 3 ≠ pinf)
    (ht : qpois_trunc_normal_approx (fin v) (fin rate) = 0 ∨
      ppois (qpois_trunc_normal_approx (fin v) (fin rate)) (fin rate) false ≤ fin v)
    {x y : Fl} (hx : qpois (fin u) (fin rate) = some x) (hy : qpois (fin v) (fin rate) = some y) : x ≤ y := by
  obtain ⟨run, c0, cd⟩ := qpois_starts hr hs h h2 hs' h0 huv h1 hf
  rw [run u h0 (huv.trans_lt h1)] at hx
  rw [run v (h0.trans_le huv) h1] at hy
  exact qpois_search_later huv _ c0 cd ht hx hy

/-- Rates from 11 on, wherever the searches start: the counts are in order up to one. -/
theorem C16_qpois_near_rounded_partial [MonoInv] {rate sigma s : ℝ} (hr : 11 ≤ rate) (hs : sqrt (fin rate) = fin sigma) (h : 0 < sigma)
    (h2 : 0 < s) (hs' : Lib.rnd (Lib.sqrt2 * sigma) = s) {u v : ℝ} (h0 : 0 < u) (huv : u ≤ v) (h1 : v < 1)
    (hf : qnorm (fin v) (fin rate) (fin sigma) - 3 ≠ pinf)
    {x y : Fl} (hx : qpois (fin u) (fin rate) = some x) (hy : qpois (fin v) (fin rate) = some y) :
    ∃ j k : ℤ, x = ofInt j ∧ y = ofInt k ∧ 0 ≤ j ∧ 0 ≤ k ∧
      (j ≤ k ∨ j = k + 1 ∧ k + 1 = qpois_trunc_normal_approx (fin v) (fin rate)) := by
  obtain ⟨run, c0, cd⟩ := qpois_starts hr hs h h2 hs' h0 huv h1 hf
  rw [run u h0 (huv.trans_lt h1)] at hx
  rw [run v (h0.trans_le huv) h1] at hy
  exact qpois_search_near huv _ c0 cd hx hy

end

/-! ### binary64 -/

namespace C16Double
open PoisDouble Double
set_option warn.classDefReducibility false in
attribute [local instance] doubleLib doubleLib_mono doubleLib_inv

/-- Binary64, all rates below 11 (and not below epsilon), all pairs of doubles in `[0, 1]`. -/
theorem C16_qpois_double {rate : ℝ} (hr : Lib.eps ≤ rate) (h11 : rate < 11) {u v : ℝ} (h0 : 0 ≤ u) (huv : u ≤ v)
    (h1 : v ≤ 1 - 1 / 2 ^ 53 ∨ v = 1) (hu : u ≤ 1 - 1 / 2 ^ 53 ∨ u = 1) :
    ∃ x y, qpois (fin u) (fin rate) = some x ∧ qpois (fin v) (fin rate) = some y ∧ x ≤ y := by
  have r0 : 0 < rate := Lib.eps_pos.trans_le hr
  have a : pois_ok (fin rate) := by simp [pois_ok, r0.le]
  have ex : ∀ p : ℝ, 0 ≤ p → (p ≤ 1 - 1 / 2 ^ 53 ∨ p = 1) → ∃ x, qpois (fin p) (fin rate) = some x := fun p p0 hp => by
    rcases hp with hp | rfl
    · obtain ⟨k, -, e, -⟩ := C20_qpois_double_partial r0.le (h11.le.trans (by norm_num)) p0 hp
      exact ⟨_, e⟩
    · refine ⟨pinf, ?_⟩
      rw [qpois, if_neg (not_not.2 a)]; simp [prob_val_ok, eps, not_lt.2 hr]
  obtain ⟨x, hx⟩ := ex u h0 hu
  obtain ⟨y, hy⟩ := ex v (h0.trans huv) h1
  have v1 : v ≤ 1 := by rcases h1 with h | rfl <;> [(norm_num at h ⊢; linarith); rfl]
  exact ⟨x, y, hx, hy, C16_qpois_small_rounded hr h11 h0 huv v1 hx hy⟩
example : ∃ x y, qpois (fin (1 / 3)) (fin (7 / 2)) = some x ∧ qpois (fin (2 / 3)) (fin (7 / 2)) = some y ∧ x ≤ y :=
  C16_qpois_double (by rw [DoubleArith.deps]; norm_num) (by norm_num) (by norm_num) (by norm_num) (Or.inl (by norm_num)) (Or.inl (by norm_num))

/-- from rate 11 on: the hypotheses of the general theorems -/
theorem qpois_setting {rate : ℝ} (hr : 11 ≤ rate) (hr' : rate ≤ 2 ^ 63 - 2 ^ 35) {v : ℝ} (h0 : 0 < v) (h1 : v ≤ 1 - 1 / 2 ^ 53) :
    ∃ s t : ℝ, sqrt (fin rate) = fin s ∧ 0 < s ∧ 0 < t ∧ Lib.rnd (Lib.sqrt2 * s) = t ∧ qnorm (fin v) (fin rate) (fin s) - 3 ≠ pinf := by
  obtain ⟨s, s0, s1, es⟩ := R_fin (x := √rate) (B := 3 * 2 ^ 30) (Real.sqrt_nonneg _)
    (R_odd 3 30 (by norm_num) (by norm_num) (by norm_num) (by norm_num) (by norm_num)) (by
    rw [Real.sqrt_le_iff]; exact ⟨by positivity, hr'.trans (by norm_num)⟩)
  have hs : sqrt (fin rate) = fin s := by
    show (if rate < 0 then nan else ofE (R √rate)) = _
    rw [if_neg (by linarith), es, ofE_coe]
  have s2 : 1 ≤ s := by
    have h := R_mono (Real.one_le_sqrt.2 (by linarith : 1 ≤ rate))
    have e1 : R 1 = ((1 : ℝ) : EReal) := by simpa using R_two_pow 0 (by norm_num)
    rw [es, e1] at h
    exact_mod_cast h
  obtain ⟨t, t0, et⟩ := C16Double.R_pos (x := doubleLib.sqrt2 * s) (e := 0) (by norm_num)
    (by have := sqrt2_ge; norm_num; nlinarith)
    (by
      have := sqrt2_le
      refine le_trans (mul_le_mul this s1 (by linarith) (by norm_num)) ?_
      exact le_trans (by norm_num) (pow_le_pow_right₀ (by norm_num) (by norm_num : 64 ≤ 1001)))
  have hf := (start_below hr hr' h0 h1).1
  rw [hs] at hf
  exact ⟨s, t, hs, by linarith, t0, et, hf⟩

/-- Binary64, rates between 11 and `2^63 - 2^35`. Missing: see `C16_qpois_rounded_partial`. -/
theorem C16_qpois_double_partial {rate : ℝ} (hr : 11 ≤ rate) (hr' : rate ≤ 2 ^ 63 - 2 ^ 35) {u v : ℝ} (h0 : 0 < u) (huv : u ≤ v)
    (h1 : v ≤ 1 - 1 / 2 ^ 53)
    (ht : qpois_trunc_normal_approx (fin v) (fin rate) = 0 ∨
      ppois (qpois_trunc_normal_approx (fin v) (fin rate)) (fin rate) false ≤ fin v) :
    ∃ x y, qpois (fin u) (fin rate) = some x ∧ qpois (fin v) (fin rate) = some y ∧ x ≤ y := by
  have v1 : v < 1 := h1.trans_lt (by norm_num)
  obtain ⟨j, -, ej, -⟩ := C20_qpois_double_partial (by linarith) hr' h0.le (huv.trans h1)
  obtain ⟨k, -, ek, -⟩ := C20_qpois_double_partial (by linarith) hr' (h0.le.trans huv) h1
  obtain ⟨s, t, hs, s0, t0, et, hf⟩ := qpois_setting hr hr' (h0.trans_le huv) h1
  exact ⟨_, _, ej, ek, C16_qpois_rounded_partial hr hs s0 t0 et h0 huv v1 hf ht ej ek⟩

/-- a large double is an integer, and so large that its predecessor among the integers is rounded to it -/
theorem R_pred {x w : ℝ} (h : R x = (w : EReal)) (hw : 2 ^ 55 ≤ w) (hw' : w ≤ 2 ^ 63) :
    (∃ n : ℤ, w = n) ∧ R w = (w : EReal) ∧ R (w - 1) = (w : EReal) := by
  have w0 : 0 < w := lt_of_lt_of_le (by norm_num) hw
  have x0 : 0 < x := by
    by_contra hc
    have := R_mono (not_lt.1 hc)
    rw [h, show R 0 = 0 from doubleRounding.zero, ← EReal.coe_zero] at this
    have : w ≤ 0 := by exact_mod_cast this
    linarith
  have hm : mag x = w := by
    rw [R, if_pos x0.le, Double.over] at h
    split_ifs at h
    · simp at h
    · exact_mod_cast h
  obtain ⟨E, hE⟩ : ∃ E, Int.log 2 x = E := ⟨_, rfl⟩
  have lo : (2 : ℝ) ^ E ≤ x := by
    rw [← hE]; exact_mod_cast Int.zpow_log_le_self (b := 2) (by norm_num) x0
  have hi : x < 2 ^ (E + 1) := by
    rw [← hE]; exact_mod_cast Int.lt_zpow_succ_log_self (b := 2) (by norm_num) x
  have E54 : 54 ≤ E := by
    by_contra hc
    have h1 : x ≤ 2 ^ 54 := by
      refine hi.le.trans ?_
      rw [← zpow_natCast (2 : ℝ) 54]
      exact zpow_le_zpow_right₀ (by norm_num) (by push_cast; omega)
    have h2 := R_mono h1
    rw [h, R_two_pow 54 (by norm_num)] at h2
    have : w ≤ 2 ^ 54 := by exact_mod_cast h2
    norm_num at hw this
    linarith
  have hqx : q x = E - 52 := q_eq lo hi (by omega)
  have wE : w ≤ 2 ^ (E + 1) := hm ▸ mag_le_pow hi.le (fun _ => by omega)
  obtain ⟨n, hn⟩ : ∃ n : ℤ, w = n * 2 ^ (E - 52) := ⟨_, by rw [← hm, mag, if_neg x0.not_ge, hqx]⟩
  have big : w < 2 ^ 1024 := lt_of_le_of_lt hw' (pow_lt_pow_right₀ (by norm_num) (by norm_num))
  refine ⟨?_, ?_, ?_⟩
  · obtain ⟨m, hm'⟩ := Int.eq_ofNat_of_zero_le (show 0 ≤ E - 52 by omega)
    refine ⟨n * 2 ^ m, ?_⟩
    rw [hn, hm']
    push_cast
    rw [zpow_natCast]
  · rcases wE.eq_or_lt with e | l
    · exact R_of_mul w0 (k := 1) (j := E + 1) (by rw [e]; push_cast; ring) (by
        have := q_le w0 (e := E + 1) (by rw [e]; exact zpow_lt_zpow_right₀ (by norm_num) (by omega)) (by omega)
        omega) big
    · exact R_of_mul w0 hn (q_le w0 l (by omega)) big
  · have y0 : (2 : ℝ) ^ (54 : ℤ) ≤ w - 1 := by norm_num at hw ⊢; linarith
    have yp : 0 < w - 1 := (zpow_pos' _).trans_le y0
    obtain ⟨F, hF⟩ : ∃ F, Int.log 2 (w - 1) = F := ⟨_, rfl⟩
    have ylo : (2 : ℝ) ^ F ≤ w - 1 := by
      rw [← hF]; exact_mod_cast Int.zpow_log_le_self (b := 2) (by norm_num) yp
    have yhi : w - 1 < 2 ^ (F + 1) := by
      rw [← hF]; exact_mod_cast Int.lt_zpow_succ_log_self (b := 2) (by norm_num) (w - 1)
    have F54 : 54 ≤ F := by
      have := (zpow_lt_zpow_iff_right₀ (by norm_num : (1 : ℝ) < 2)).1 (y0.trans_lt yhi)
      omega
    have F63 : F < 63 := (zpow_lt_zpow_iff_right₀ (by norm_num : (1 : ℝ) < 2)).1 (lt_of_le_of_lt ylo (by
      norm_num at hw' ⊢; linarith))
    have FE : F ≤ E := by
      have := (zpow_lt_zpow_iff_right₀ (by norm_num : (1 : ℝ) < 2)).1 (lt_of_le_of_lt ylo (show w - 1 < 2 ^ (E + 1) by linarith))
      omega
    obtain ⟨m, hm'⟩ := Int.eq_ofNat_of_zero_le (show 0 ≤ E - F by omega)
    have pF := zpow_pos' (F - 52)
    have e1 : w = ((n * 2 ^ m : ℤ) : ℝ) * 2 ^ (F - 52) := by
      rw [hn, show E - 52 = m + (F - 52) by omega, zpow_add₀ (by norm_num)]
      push_cast
      rw [zpow_natCast]
      ring
    have p4 : (4 : ℝ) ≤ 2 ^ (F - 52) := by
      calc (4 : ℝ) = 2 ^ (2 : ℤ) := by norm_num
        _ ≤ _ := zpow_le_zpow_right₀ (by norm_num) (by omega)
    have r := R_near (x := w - 1) F (n * 2 ^ m) ylo yhi (by omega) (by omega) (by
      have : (w - 1) / 2 ^ (F - 52) - ((n * 2 ^ m : ℤ) : ℝ) = -(1 / 2 ^ (F - 52)) := by
        rw [div_sub' pF.ne', mul_comm, ← e1]; ring
      rw [this, abs_neg, abs_of_pos (by positivity), div_lt_div_iff₀ pF (by norm_num)]
      linarith)
    rw [r, ← e1]

/-- Binary64, rates between 11 and `2^63 - 2^35`, wherever the searches start: the counts are in order up to one, and the values are in
order if the search for the larger probability starts at `2^55` or beyond. Missing: see `C16_qpois_rounded_partial`. -/
theorem C16_qpois_near_double_partial {rate : ℝ} (hr : 11 ≤ rate) (hr' : rate ≤ 2 ^ 63 - 2 ^ 35) {u v : ℝ} (h0 : 0 < u) (huv : u ≤ v)
    (h1 : v ≤ 1 - 1 / 2 ^ 53) :
    ∃ j k : ℤ, qpois (fin u) (fin rate) = some (ofInt j) ∧ qpois (fin v) (fin rate) = some (ofInt k) ∧ 0 ≤ j ∧ 0 ≤ k ∧ j ≤ k + 1 ∧
      (2 ^ 55 ≤ qpois_trunc_normal_approx (fin v) (fin rate) → ofInt j ≤ ofInt k) := by
  have v1 : v < 1 := h1.trans_lt (by norm_num)
  obtain ⟨j', -, ej, -⟩ := C20_qpois_double_partial (by linarith) hr' h0.le (huv.trans h1)
  obtain ⟨k', -, ek, -⟩ := C20_qpois_double_partial (by linarith) hr' (h0.le.trans huv) h1
  obtain ⟨s, t, hs, s0, t0, et, hf⟩ := qpois_setting hr hr' (h0.trans_le huv) h1
  obtain ⟨j, k, xj, yk, j0, k0, hjk⟩ := C16_qpois_near_rounded_partial hr hs s0 t0 et h0 huv v1 hf ej ek
  rw [xj] at ej
  rw [yk] at ek
  refine ⟨j, k, ej, ek, j0, k0, by omega, fun hd => ?_⟩
  rcases hjk with hjk | ⟨rfl, hk⟩
  · exact ofInt_mono hjk
  have hB := start_below hr hr' (h0.trans_le huv) h1
  rw [qpois_trunc_normal_approx] at hd hk
  have hval : Fl.max 0 (qnorm (fin v) (fin rate) (sqrt (fin rate)) - 3) = qnorm (fin v) (fin rate) (sqrt (fin rate)) - 3 := by
    rw [Fl.max] at hd ⊢
    split_ifs at hd ⊢
    · rfl
    · simp [zero_eq] at hd
  rw [hval] at hd hk
  generalize hq : qnorm (fin v) (fin rate) (sqrt (fin rate)) = a at hd hk hB
  cases a with
  | nan => simp [sub_def, toR] at hd
  | pinf => simp [sub_def, ofNat_eq] at hB; exact absurd rfl hB.1
  | ninf => simp [sub_def, ofNat_eq, toR] at hd
  | fin a =>
    rw [ofNat_eq 3, DoubleArith.dsub] at hd hk hB
    generalize hR : R (a - OfNat.ofNat 3) = E at hd hk hB
    induction E using EReal.rec with
    | bot => simp [ofE, toR] at hd
    | top => simp [ofE, toR] at hd
    | coe w =>
      rw [ofE_coe] at hd hk hB
      have hd' : 2 ^ 55 ≤ ⌊w⌋ := hd
      have hk' : k + 1 = ⌊w⌋ := hk
      have w55 : (2 : ℝ) ^ 55 ≤ w := by
        have := Int.le_floor.1 hd'
        exact_mod_cast this
      have w63 : w ≤ 2 ^ 63 := (hB.2 w rfl).trans (by norm_num)
      obtain ⟨⟨n, rfl⟩, r1, r2⟩ := R_pred hR w55 w63
      rw [Int.floor_intCast] at hk'
      have c1 : ((k + 1 : ℤ) : ℝ) = (n : ℝ) := by rw [hk']
      have c2 : ((k : ℤ) : ℝ) = (n : ℝ) - 1 := by rw [← c1]; push_cast; ring
      have o1 : ofInt (k + 1) = fin n := by show ofE (R _) = _; rw [c1, r1, ofE_coe]
      have o2 : ofInt k = fin n := by show ofE (R _) = _; rw [c2, r2, ofE_coe]
      rw [o1, o2]
      simp
example : ∃ j k : ℤ, qpois (fin (1 / 3)) (fin 1000) = some (ofInt j) ∧ qpois (fin (2 / 3)) (fin 1000) = some (ofInt k) ∧ j ≤ k + 1 := by
  obtain ⟨j, k, h1, h2, -, -, h3, -⟩ := C16_qpois_near_double_partial (rate := 1000) (by norm_num) (by norm_num) (u := 1 / 3) (v := 2 / 3)
    (by norm_num) (by norm_num) (by norm_num)
  exact ⟨j, k, h1, h2, h3⟩

/-- a probability for which the search begins at 0 -/
theorem qpois_start_zero : qpois_trunc_normal_approx (fin (1 / 2 ^ 10)) (fin 11) = 0 := by
  -- the inverse error function
  have e2 : Spec.erf 2 ≤ 1 - 1 / 2 ^ 9 := by
    have h := le_erfc (y := 2) (by norm_num)
    have p : √Real.pi ≤ 2 := Real.sqrt_le_iff.2 ⟨by norm_num, by have := Real.pi_le_four; norm_num; linarith⟩
    have p0 : 0 < √Real.pi := Real.sqrt_pos.2 Real.pi_pos
    have a : (2 : ℝ) / 9 ≤ 2 * 2 / (√Real.pi * (1 + 2 * 2 ^ 2)) := by
      rw [div_le_div_iff₀ (by norm_num) (by positivity)]; nlinarith
    have b : (1 : ℝ) / 81 ≤ Real.exp (-2 ^ 2) := by
      rw [Real.exp_neg, ← one_div]
      apply one_div_le_one_div_of_le (Real.exp_pos _)
      calc Real.exp (2 ^ 2) = Real.exp 1 ^ 4 := by rw [← Real.exp_nat_mul]; norm_num
        _ ≤ 3 ^ 4 := pow_le_pow_left₀ (Real.exp_pos _).le (by linarith [Real.exp_one_lt_d9]) 4
        _ = 81 := by norm_num
    have := mul_le_mul a b (by norm_num) (by positivity)
    norm_num at this h ⊢
    linarith
  obtain ⟨z, hz⟩ := exists_erf (y := -1 + 1 / 2 ^ 9) (by norm_num) (by norm_num)
  have hz2 : z ≤ -2 := by
    by_contra hc
    have := strictMono_erf (not_le.1 hc)
    rw [hz, erf_neg] at this
    linarith
  have arg : 2 * fin (1 / 2 ^ 10) - 1 = fin (-1 + 1 / 2 ^ 9) := by
    have h1 : (2 : Fl) * fin (1 / 2 ^ 10) = fin (1 / 2 ^ 9) := by
      rw [ofNat_eq 2, DoubleArith.dmul, show (OfNat.ofNat 2 : ℝ) * (1 / 2 ^ 10) = 1 / 2 ^ 9 by norm_num, R_pow 9 (by norm_num), ofE_coe]
    rw [h1, one_eq, DoubleArith.dsub, show (1 : ℝ) / 2 ^ 9 - 1 = -(511 / 2 ^ 9) by norm_num, R_neg,
      R_near (-1) (511 * 2 ^ 44) (by norm_num) (by norm_num) (by norm_num) (by norm_num) (by norm_num), ← EReal.coe_neg, ofE_coe]
    norm_num
  have two : R 2 = ((2 : ℝ) : EReal) := by
    have := R_two_pow 1 (by norm_num)
    rwa [pow_one] at this
  have hinv : erfInv (2 * fin (1 / 2 ^ 10) - 1) = ofE (R z) := by
    rw [arg, erfInv, if_neg (by norm_num), if_neg (by norm_num), if_neg (by norm_num)]
    show ofE (R (invOn Spec.erf Set.univ (-1 + 1 / 2 ^ 9))) = _
    rw [← hz, invOn_apply strictMono_erf.injective.injOn (Set.mem_univ z)]
  have hE : R z ≤ ((-2 : ℝ) : EReal) := by
    have := R_mono hz2
    rwa [R_neg, two, ← EReal.coe_neg] at this
  -- the scale
  obtain ⟨s, s0, s1, es⟩ := R_fin (x := √11) (B := 4) (Real.sqrt_nonneg _) (by
    have := R_two_pow 2 (by norm_num); norm_num at this; exact this) (Real.sqrt_le_iff.2 ⟨by norm_num, by norm_num⟩)
  have s2 : 3 ≤ s := by
    have h := R_mono (Real.le_sqrt_of_sq_le (by norm_num : (3 : ℝ) ^ 2 ≤ 11))
    rw [es, R_odd 3 0 (by norm_num) (by norm_num) (by norm_num) (by norm_num) (by norm_num)] at h
    exact_mod_cast h
  have hs : sqrt (fin 11) = fin s := by
    show (if (11 : ℝ) < 0 then nan else ofE (R √11)) = _
    rw [if_neg (by norm_num), es, ofE_coe]
  have q2 : (11 / 8 : ℝ) ≤ Lib.sqrt2 := by
    have h1 : (11 / 8 : ℝ) ≤ √2 := Real.le_sqrt_of_sq_le (by norm_num)
    have h2 := R_mono h1
    obtain ⟨y, -, -, e⟩ := R_fin (x := √2) (B := 2) (Real.sqrt_nonneg 2) two (Real.sqrt_le_iff.2 ⟨by norm_num, by norm_num⟩)
    rw [R_odd 11 (-3) (by norm_num) (by norm_num) (by norm_num) (by norm_num) (by norm_num), e] at h2
    have : (Lib.sqrt2 : ℝ) = (R √2).toReal := rfl
    rw [this, e, EReal.toReal_coe]
    exact_mod_cast h2
  obtain ⟨t, t0, t1, et⟩ := R_fin (x := Lib.sqrt2 * s) (B := 8) (by nlinarith)
    (R_odd 1 3 (by norm_num) (by norm_num) (by norm_num) (by norm_num) (by norm_num)) (by have := sqrt2_le; nlinarith)
  have t2 : 4 ≤ t := by
    have h := R_mono (show (4 : ℝ) ≤ Lib.sqrt2 * s by nlinarith)
    rw [et, R_odd 1 2 (by norm_num) (by norm_num) (by norm_num) (by norm_num) (by norm_num)] at h
    exact_mod_cast h
  have e8 : R (-8) = ((-8 : ℝ) : EReal) := by
    rw [R_neg, R_odd 1 3 (by norm_num) (by norm_num) (by norm_num) (by norm_num) (by norm_num), EReal.coe_neg]
  have h3 : Below 3 (fin 11 + SQRT2 * fin s * erfInv (2 * fin (1 / 2 ^ 10) - 1)) := by
    have b := ofE_below hE
    rw [hinv, SQRT2, DoubleArith.dmul, et, ofE_coe]
    generalize ofE (R z) = w at b
    cases w with
    | nan => simp [Below]
    | pinf => exact absurd rfl b.1
    | ninf => rw [fin_mul_ninf, if_neg (by linarith), if_pos (by linarith)]; simp [Below]
    | fin w =>
      have hw := b.2 w rfl
      have c := ofE_below (R_le e8 (show t * w ≤ -8 by nlinarith))
      rw [DoubleArith.dmul]
      generalize ofE (R (t * w)) = m at c
      cases m with
      | nan => simp [Below]
      | pinf => exact absurd rfl c.1
      | ninf => simp [Below]
      | fin m =>
        have := c.2 m rfl
        rw [DoubleArith.dadd]
        exact ofE_below (R_le (R_odd 3 0 (by norm_num) (by norm_num) (by norm_num) (by norm_num) (by norm_num)) (by linarith))
  have hq : qnorm (fin (1 / 2 ^ 10)) (fin 11) (fin s) = fin 11 + SQRT2 * fin s * erfInv (2 * fin (1 / 2 ^ 10) - 1) := by
    have : s ≠ 0 := by linarith
    have p1 : ((2 : ℝ) ^ 10)⁻¹ ≤ 1 := by norm_num
    have p2 : ((2 : ℝ) ^ 10)⁻¹ ≠ 1 := by norm_num
    simp [qnorm, norm_ok, prob_val_ok, this, s0, qnorm_compute, p1, p2]
  rw [qpois_trunc_normal_approx, hs, hq]
  generalize fin 11 + SQRT2 * fin s * erfInv (2 * fin (1 / 2 ^ 10) - 1) = w at h3
  have : Fl.max 0 (w - 3) = 0 := by
    rw [Fl.max, if_neg]
    cases w with
    | nan => simp [sub_def]
    | pinf => exact absurd rfl h3.1
    | ninf => simp [sub_def, ofNat_eq, zero_eq]
    | fin w =>
      have := h3.2 w rfl
      have R0 : R 0 = ((0 : ℝ) : EReal) := by rw [EReal.coe_zero]; exact doubleRounding.zero
      rw [ofNat_eq 3, DoubleArith.dsub]
      have c := ofE_below (R_le R0 (show w - OfNat.ofNat 3 ≤ 0 by show w - 3 ≤ 0; linarith))
      generalize ofE (R (w - OfNat.ofNat 3)) = m at c
      cases m with
      | nan => simp
      | pinf => exact absurd rfl c.1
      | ninf => simp [zero_eq]
      | fin m => simpa [zero_eq] using c.2 m rfl
  rw [this]
  simp [zero_eq]
example : ∃ x y, qpois (fin (1 / 2 ^ 12)) (fin 11) = some x ∧ qpois (fin (1 / 2 ^ 10)) (fin 11) = some y ∧ x ≤ y :=
  C16_qpois_double_partial le_rfl (by norm_num) (by norm_num) (by norm_num) (by norm_num) (Or.inl qpois_start_zero)

end C16Double
end Stats
