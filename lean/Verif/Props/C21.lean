import Verif.Props.C08
import Verif.Lemmas.InvGaussMode
import Verif.Lemmas.ProbIdeal
import Verif.Lemmas.ExactInst
import Verif.Lemmas.Meets

/-!
# C21: the iteration of `qinvgauss`
-/

set_option linter.unusedSectionVars false
open Classical
namespace Stats
open Fl Spec

namespace Spec

/-- One Newton step for `p x = u`, with density `d`. -/
noncomputable def newton [Lib] (p d : Fl → Bool → Fl) (u : Fl) (x : Fl) : Fl := x + (u - p x false) / d x false

end Spec

section every
variable [Lib]

/-- Any arithmetic, any arguments: the value is a Newton iterate of the mode, obtained by `n ≤ 100` steps. All earlier
iterates failed the stopping test, and the last one passes it or `n = 100`. -/
theorem C21_qinvgauss_newton (p mu lambda : Fl) : ∃ n ≤ 100,
    qinvgauss_compute p mu lambda =
      (newton (fun x => pinvgauss x mu lambda) (fun x => dinvgauss x mu lambda) p)^[n] (invgauss_mode mu (mu / lambda)) ∧
    (∀ m < n, ¬ abs (p - pinvgauss ((newton (fun x => pinvgauss x mu lambda) (fun x => dinvgauss x mu lambda) p)^[m]
      (invgauss_mode mu (mu / lambda))) mu lambda false) < minpos) ∧
    (n = 100 ∨ abs (p - pinvgauss (qinvgauss_compute p mu lambda) mu lambda false) < minpos) := by
  have key : ∀ (left : ℕ) (x : Fl), ∃ n ≤ left, qinvgauss_compute_iter p mu lambda left x =
      (newton (fun x => pinvgauss x mu lambda) (fun x => dinvgauss x mu lambda) p)^[n] x ∧
      (∀ m < n, ¬ abs (p - pinvgauss ((newton (fun x => pinvgauss x mu lambda) (fun x => dinvgauss x mu lambda) p)^[m] x)
        mu lambda false) < minpos) ∧
      (n = left ∨ abs (p - pinvgauss (qinvgauss_compute_iter p mu lambda left x) mu lambda false) < minpos) := by
    intro left
    induction left with
    | zero => intro x; exact ⟨0, le_rfl, rfl, by simp, Or.inl rfl⟩
    | succ k ih =>
      intro x
      by_cases h : abs (p - pinvgauss x mu lambda false) < minpos
      · refine ⟨0, Nat.zero_le _, ?_, by simp, Or.inr ?_⟩
        · rw [qinvgauss_compute_iter]; simp only [if_pos h]; rfl
        · rw [qinvgauss_compute_iter]; simp only [if_pos h]; exact h
      · obtain ⟨n, hn, h1, h2, h3⟩ := ih (x + (p - pinvgauss x mu lambda false) / dinvgauss x mu lambda false)
        have e : qinvgauss_compute_iter p mu lambda (k + 1) x = qinvgauss_compute_iter p mu lambda k
            (x + (p - pinvgauss x mu lambda false) / dinvgauss x mu lambda false) := by
          rw [qinvgauss_compute_iter]; simp only [if_neg h]
        refine ⟨n + 1, by omega, ?_, ?_, ?_⟩
        · rw [e, h1, Function.iterate_succ_apply]; rfl
        · intro m hm
          rcases m with _ | m
          · exact h
          · rw [Function.iterate_succ_apply]; exact h2 m (by omega)
        · rw [e]; rcases h3 with rfl | h3
          · exact Or.inl rfl
          · exact Or.inr h3
  exact key 100 _

end every

variable [Lib] [Ideal]

/-- the real distribution function -/
noncomputable abbrev igF (mu lambda x : ℝ) : ℝ := if 0 < x then invgaussCdf mu lambda x else 0

theorem newton_fin {mu lambda u x : ℝ} (hm : 0 < mu) (hl : 0 < lambda) (hx : 0 < x) :
    newton (fun x => pinvgauss x (fin mu) (fin lambda)) (fun x => dinvgauss x (fin mu) (fin lambda)) (fin u) (fin x) =
      fin (x + (u - igF mu lambda x) / invgaussPdf mu lambda x) := by
  obtain ⟨h0, h1, -⟩ := C08_dinvgauss hm hl x (Set.mem_Ioi.2 hx)
  simp only at h1
  rw [newton, pinvgauss_fin hm hl, h1, ifin_sub, ifin_div _ h0.ne', ifin_add]

/-- Exact arithmetic: at a positive point the Newton update vanishes exactly if the point is the quantile. -/
theorem C21_qinvgauss_fixed {mu lambda u x : ℝ} (hm : 0 < mu) (hl : 0 < lambda) (hx : 0 < x) :
    newton (fun x => pinvgauss x (fin mu) (fin lambda)) (fun x => dinvgauss x (fin mu) (fin lambda)) (fin u) (fin x) =
      fin x ↔ pinvgauss (fin x) (fin mu) (fin lambda) false = fin u := by
  obtain ⟨h0, h1, -⟩ := C08_dinvgauss hm hl x (Set.mem_Ioi.2 hx)
  rw [newton_fin hm hl hx, pinvgauss_fin hm hl]
  simp only [fin.injEq]
  constructor
  · intro h
    have h2 : (u - igF mu lambda x) / invgaussPdf mu lambda x = 0 := by linarith
    rw [div_eq_zero_iff] at h2
    rcases h2 with h2 | h2
    · linarith
    · exact absurd h2 h0.ne'
  · intro h
    rw [igF, h]; simp

theorem invgaussPdf_pos {mu lambda x : ℝ} (hm : 0 < mu) (hl : 0 < lambda) (hx : 0 < x) : 0 < invgaussPdf mu lambda x := by
  rw [invgaussPdf_exp hl hx]; exact Real.exp_pos _

/-- real Newton step -/
noncomputable def igN (mu lambda u x : ℝ) : ℝ := x + (u - igF mu lambda x) / invgaussPdf mu lambda x

theorem igN_right {mu lambda u x q : ℝ} (hm : 0 < mu) (hl : 0 < lambda) (hq : igF mu lambda q = u)
    (h1 : igMode mu lambda ≤ x) (h2 : x ≤ q) : x ≤ igN mu lambda u x ∧ igN mu lambda u x ≤ q := by
  have hp := (igMode_root hm hl).1
  have hf := invgaussPdf_pos hm hl (hp.trans_le h1)
  have hF := isCdf_invgauss hm hl
  have h := hF.sub_le_right h2 ((invgaussPdf_antitone hm hl).mono (Set.Ici_subset_Ici.2 h1))
  have hmono := hF.mono h2
  rw [igN]
  constructor
  · have : 0 ≤ (u - igF mu lambda x) / invgaussPdf mu lambda x := div_nonneg (by rw [← hq]; linarith) hf.le
    linarith
  · have : (u - igF mu lambda x) / invgaussPdf mu lambda x ≤ q - x := by
      rw [div_le_iff₀ hf, ← hq]; linarith
    linarith

theorem igN_left {mu lambda u x q : ℝ} (hm : 0 < mu) (hl : 0 < lambda) (hq : igF mu lambda q = u) (hq0 : 0 < q)
    (h1 : x ≤ igMode mu lambda) (h2 : q ≤ x) : igN mu lambda u x ≤ x ∧ q ≤ igN mu lambda u x := by
  have hx : 0 < x := hq0.trans_le h2
  have hf := invgaussPdf_pos hm hl hx
  have hF := isCdf_invgauss hm hl
  have h := hF.sub_le_left hq0 h2 ((invgaussPdf_monotone hm hl).mono (Set.Ioc_subset_Ioc_right h1))
  have hmono := hF.mono h2
  rw [igN]
  constructor
  · have : (u - igF mu lambda x) / invgaussPdf mu lambda x ≤ 0 :=
      div_nonpos_of_nonpos_of_nonneg (by rw [← hq]; linarith) hf.le
    linarith
  · have : q - x ≤ (u - igF mu lambda x) / invgaussPdf mu lambda x := by
      rw [le_div_iff₀ hf, ← hq]; linarith
    linarith

/-- All Newton iterates from the mode lie between the mode and the quantile, and move towards it. -/
theorem igN_iter {mu lambda u q : ℝ} (hm : 0 < mu) (hl : 0 < lambda) (hq : igF mu lambda q = u) (hq0 : 0 < q) (n : ℕ) :
    (igMode mu lambda ≤ q → igMode mu lambda ≤ (igN mu lambda u)^[n] (igMode mu lambda) ∧
      (igN mu lambda u)^[n] (igMode mu lambda) ≤ (igN mu lambda u)^[n + 1] (igMode mu lambda) ∧
      (igN mu lambda u)^[n + 1] (igMode mu lambda) ≤ q) ∧
    (q ≤ igMode mu lambda → (igN mu lambda u)^[n] (igMode mu lambda) ≤ igMode mu lambda ∧
      (igN mu lambda u)^[n + 1] (igMode mu lambda) ≤ (igN mu lambda u)^[n] (igMode mu lambda) ∧
      q ≤ (igN mu lambda u)^[n + 1] (igMode mu lambda)) := by
  induction n with
  | zero =>
    constructor
    · intro h; exact ⟨le_rfl, igN_right hm hl hq le_rfl h⟩
    · intro h; exact ⟨le_rfl, igN_left hm hl hq hq0 le_rfl h⟩
  | succ n ih =>
    constructor
    · intro h
      obtain ⟨a, b, c⟩ := ih.1 h
      rw [Function.iterate_succ_apply' _ (n + 1)]
      exact ⟨a.trans b, igN_right hm hl hq (a.trans b) c⟩
    · intro h
      obtain ⟨a, b, c⟩ := ih.2 h
      rw [Function.iterate_succ_apply' _ (n + 1)]
      exact ⟨b.trans a, igN_left hm hl hq hq0 (b.trans a) c⟩

theorem igN_iter_pos {mu lambda u q : ℝ} (hm : 0 < mu) (hl : 0 < lambda) (hq : igF mu lambda q = u) (hq0 : 0 < q) (n : ℕ) :
    0 < (igN mu lambda u)^[n] (igMode mu lambda) := by
  have hp := (igMode_root hm hl).1
  rcases le_total (igMode mu lambda) q with h | h
  · exact hp.trans_le ((igN_iter hm hl hq hq0 n).1 h).1
  · have := (igN_iter hm hl hq hq0 n).2 h
    linarith [this.2.1, this.2.2]

theorem newton_iter_fin {mu lambda u q : ℝ} (hm : 0 < mu) (hl : 0 < lambda) (hq : igF mu lambda q = u) (hq0 : 0 < q) (n : ℕ) :
    (newton (fun x => pinvgauss x (fin mu) (fin lambda)) (fun x => dinvgauss x (fin mu) (fin lambda)) (fin u))^[n]
      (fin (igMode mu lambda)) = fin ((igN mu lambda u)^[n] (igMode mu lambda)) := by
  induction n with
  | zero => rfl
  | succ n ih =>
    rw [Function.iterate_succ_apply', ih, newton_fin hm hl (igN_iter_pos hm hl hq hq0 n), Function.iterate_succ_apply']
    rfl

theorem invgauss_mode_fin {mu lambda : ℝ} (hl : 0 < lambda) :
    invgauss_mode (fin mu) (fin mu / fin lambda) = fin (igMode mu lambda) := by
  have h : (0 : ℝ) ≤ 1 + 9 * (mu / lambda) * (mu / lambda) / 4 := by
    have := mul_self_nonneg (mu / lambda); nlinarith
  simp only [invgauss_mode, ofNat_eq, one_eq, ideal, ifin_div _ hl.ne', ifin_div _ (four_ne_zero (α := ℝ)), isqrt h, igMode]

theorem igF_pos_of {mu lambda u q : ℝ} (h0 : 0 < u) (hq : igF mu lambda q = u) : 0 < q := by
  by_contra hc
  rw [igF, if_neg hc] at hq
  linarith

theorem qinvgauss_unfold {mu lambda u : ℝ} (hm : 0 < mu) (hl : 0 < lambda) (h0 : 0 < u) (h1 : u < 1) :
    qinvgauss (fin u) (fin mu) (fin lambda) = qinvgauss_compute (fin u) (fin mu) (fin lambda) := by
  simp [qinvgauss, invgauss_ok, prob_val_ok, not_lt.2 hm.le, not_lt.2 hl.le, hm.ne', hl.ne', h0.ne', h1.ne,
    not_lt.2 h0.le, not_lt.2 h1.le]

/-- Exact arithmetic: `qinvgauss` returns a positive number between the mode and the true quantile (so never NaN, never
outside the support). -/
theorem C21_qinvgauss_between {mu lambda u : ℝ} (hm : 0 < mu) (hl : 0 < lambda) (h0 : 0 < u) (h1 : u < 1) :
    ∃ q x m : ℝ, 0 < q ∧ pinvgauss (fin q) (fin mu) (fin lambda) false = fin u ∧
      qinvgauss (fin u) (fin mu) (fin lambda) = fin x ∧ 0 < x ∧
      invgauss_mode (fin mu) (fin mu / fin lambda) = fin m ∧
      ((m ≤ x ∧ x ≤ q) ∨ (q ≤ x ∧ x ≤ m)) := by
  have hF := isCdf_invgauss hm hl
  obtain ⟨q, hq⟩ := hF.exists_eq h0 h1
  have hq0 : 0 < q := igF_pos_of h0 hq
  obtain ⟨n, -, hn, -, -⟩ := C21_qinvgauss_newton (fin u) (fin mu) (fin lambda)
  rw [invgauss_mode_fin hl, newton_iter_fin hm hl hq hq0] at hn
  refine ⟨q, (igN mu lambda u)^[n] (igMode mu lambda), igMode mu lambda, hq0, ?_, ?_, igN_iter_pos hm hl hq hq0 n,
    invgauss_mode_fin hl, ?_⟩
  · rw [pinvgauss_fin hm hl]; exact congrArg fin hq
  · rw [qinvgauss_unfold hm hl h0 h1, hn]
  · rcases le_total (igMode mu lambda) q with h | h
    · have := (igN_iter hm hl hq hq0 n).1 h
      exact Or.inl ⟨this.1, this.2.1.trans this.2.2⟩
    · have := (igN_iter hm hl hq hq0 n).2 h
      exact Or.inr ⟨this.2.2.trans this.2.1, this.1⟩
example : ∃ q x m : ℝ, 0 < q ∧ pinvgauss (fin q) (fin 3) (fin 2) false = fin (1 / 3) ∧
      qinvgauss (fin (1 / 3)) (fin 3) (fin 2) = fin x ∧ 0 < x ∧
      invgauss_mode (fin 3) (fin 3 / fin 2) = fin m ∧
      ((m ≤ x ∧ x ≤ q) ∨ (q ≤ x ∧ x ≤ m)) :=
  C21_qinvgauss_between (mu := 3) (lambda := 2) (u := 1 / 3) (hm := by meets) (hl := by meets) (h0 := by meets) (h1 := by meets)

/-- Without the bound of 100 steps the iteration converges to the quantile, for all parameters and probabilities. -/
theorem C21_qinvgauss_converges {mu lambda u : ℝ} (hm : 0 < mu) (hl : 0 < lambda) (h0 : 0 < u) (h1 : u < 1) :
    ∃ (q : ℝ) (x : ℕ → ℝ), pinvgauss (fin q) (fin mu) (fin lambda) false = fin u ∧
      (∀ n, (newton (fun x => pinvgauss x (fin mu) (fin lambda)) (fun x => dinvgauss x (fin mu) (fin lambda)) (fin u))^[n]
        (invgauss_mode (fin mu) (fin mu / fin lambda)) = fin (x n)) ∧
      Filter.Tendsto x Filter.atTop (nhds q) := by
  have hF := isCdf_invgauss hm hl
  obtain ⟨q, hq⟩ := hF.exists_eq h0 h1
  have hq0 : 0 < q := igF_pos_of h0 hq
  have hp := (igMode_root hm hl).1
  set x := fun n => (igN mu lambda u)^[n] (igMode mu lambda) with hx
  have hfin : ∀ n, (newton (fun x => pinvgauss x (fin mu) (fin lambda)) (fun x => dinvgauss x (fin mu) (fin lambda))
      (fin u))^[n] (invgauss_mode (fin mu) (fin mu / fin lambda)) = fin (x n) := by
    intro n; rw [invgauss_mode_fin hl, newton_iter_fin hm hl hq hq0]
  -- a limit
  have hlim : ∃ L, 0 < L ∧ Filter.Tendsto x Filter.atTop (nhds L) := by
    rcases le_total (igMode mu lambda) q with h | h
    · have hmono : Monotone x := monotone_nat_of_le_succ fun n => ((igN_iter hm hl hq hq0 n).1 h).2.1
      have hbdd : BddAbove (Set.range x) := ⟨q, by
        rintro _ ⟨n, rfl⟩
        have := (igN_iter hm hl hq hq0 n).1 h
        exact this.2.1.trans this.2.2⟩
      refine ⟨_, ?_, tendsto_atTop_ciSup hmono hbdd⟩
      exact hp.trans_le (le_ciSup hbdd 0)
    · have hmono : Antitone x := antitone_nat_of_succ_le fun n => ((igN_iter hm hl hq hq0 n).2 h).2.1
      have hlow : ∀ n, q ≤ x n := fun n => by
        have := (igN_iter hm hl hq hq0 n).2 h
        exact this.2.2.trans this.2.1
      have hbdd : BddBelow (Set.range x) := ⟨q, by rintro _ ⟨n, rfl⟩; exact hlow n⟩
      exact ⟨_, hq0.trans_le (le_ciInf hlow), tendsto_atTop_ciInf hmono hbdd⟩
  obtain ⟨L, hL0, hL⟩ := hlim
  have hfL := invgaussPdf_pos hm hl hL0
  have hcf : ContinuousAt (invgaussPdf mu lambda) L := by
    have h1 : ContinuousAt (fun x => Real.exp (igLog mu lambda x)) L :=
      (hasDerivAt_igLog hm hL0).continuousAt.rexp
    refine h1.congr ?_
    filter_upwards [Ioi_mem_nhds hL0] with y hy
    exact (invgaussPdf_exp hl hy).symm
  have hcN : ContinuousAt (igN mu lambda u) L := by
    have hcF : ContinuousAt (igF mu lambda) L := hF.continuous.continuousAt
    exact continuousAt_id.add ((continuousAt_const.sub hcF).div hcf hfL.ne')
  have hfix : igN mu lambda u L = L := by
    have h1 : Filter.Tendsto (fun n => igN mu lambda u (x n)) Filter.atTop (nhds (igN mu lambda u L)) := hcN.tendsto.comp hL
    have h2 : (fun n => igN mu lambda u (x n)) = fun n => x (n + 1) := by
      funext n; simp only [hx, Function.iterate_succ_apply']
    rw [h2] at h1
    exact tendsto_nhds_unique h1 (hL.comp (Filter.tendsto_add_atTop_nat 1))
  refine ⟨L, x, ?_, hfin, hL⟩
  rw [← C21_qinvgauss_fixed hm hl hL0, newton_fin hm hl hL0]
  exact congrArg fin hfix
example : ∃ (q : ℝ) (x : ℕ → ℝ), pinvgauss (fin q) (fin 3) (fin 2) false = fin (1 / 3) ∧
      (∀ n, (newton (fun x => pinvgauss x (fin 3) (fin 2)) (fun x => dinvgauss x (fin 3) (fin 2)) (fin (1 / 3)))^[n]
        (invgauss_mode (fin 3) (fin 3 / fin 2)) = fin (x n)) ∧
      Filter.Tendsto x Filter.atTop (nhds q) :=
  C21_qinvgauss_converges (mu := 3) (lambda := 2) (u := 1 / 3) (hm := by meets) (hl := by meets) (h0 := by meets) (h1 := by meets)

end Stats

namespace Stats.ExamplesC21
open Fl Spec
open scoped Stats.Exact

/-- mu = 1, lambda = 2, median -/
example : ∃ q x m : ℝ, 0 < q ∧ pinvgauss (fin q) (fin 1) (fin 2) false = fin (1 / 2) ∧
      qinvgauss (fin (1 / 2)) (fin 1) (fin 2) = fin x ∧ 0 < x ∧
      invgauss_mode (fin 1) (fin 1 / fin 2) = fin m ∧ ((m ≤ x ∧ x ≤ q) ∨ (q ≤ x ∧ x ≤ m)) :=
  C21_qinvgauss_between (by norm_num) (by norm_num) (by norm_num) (by norm_num)

end Stats.ExamplesC21
