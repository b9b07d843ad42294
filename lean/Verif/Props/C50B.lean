import Verif.Props.C46
import Verif.Props.C47
import Verif.Props.C48

/-!
# C50, continued: vectors, matrices and counts

With the true end of the uniform interval (see C50).
-/

set_option linter.unusedSectionVars false
open MeasureTheory Classical
open scoped ENNReal

namespace Stats.Spec
open Fl

/-- `IidFill` for a law that is within `ε` of `D`. The law of the whole vector is then within `num · ε` of that of
independent variates with the law `D`. -/
def NearFill {S : Type*} [MeasurableSpace S] (P : Measure S) (call : S → S → (ℕ → Option Fl) → Prop) (num : ℕ)
    (out : ℕ → Option Fl) (D : Measure ℝ) (ε : ℝ) : Prop :=
  ∃ D' : Measure ℝ, IsProbabilityMeasure D' ∧ IidFill P call num out D' ∧
    (∀ A, MeasurableSet A → |D'.real A - D.real A| ≤ ε) ∧
    ∀ B, MeasurableSet B →
      |(Measure.pi fun _ : Fin num => D').real B - (Measure.pi fun _ : Fin num => D).real B| ≤ num * ε

end Stats.Spec

namespace Stats.Vec
open Fl Spec
variable [Lib] {S : Type*} [Engine S] [MeasurableSpace S] {P : Measure S} [IsProbabilityMeasure P]
variable {r : S → Option (Fl × S)} {D : Measure ℝ} [IsProbabilityMeasure D] {ε : ℝ}

theorem nearFill {call : S → S → (ℕ → Option Fl) → Prop} {num : ℕ} {out : ℕ → Option Fl} (hr : NearLaw P r D ε)
    (h : ∀ D', IsProbabilityMeasure D' → HasLaw P r D' → IidFill P call num out D') : NearFill P call num out D ε := by
  obtain ⟨D', hp, hl, hA⟩ := hr
  have h0 : 0 ≤ ε := (abs_nonneg _).trans (hA ∅ MeasurableSet.empty)
  refine ⟨D', hp, h D' hp hl, hA, fun B hB => ?_⟩
  have hw := (within_of_real hA).pi num
  rw [show (num : ℝ≥0∞) * ENNReal.ofReal ε = ENNReal.ofReal (num * ε) by
    rw [ENNReal.ofReal_mul (by positivity), ENNReal.ofReal_natCast]] at hw
  exact hw.real (by positivity) hB

theorem C50_noomp (hr : NearLaw P r D ε) (num : ℕ) (out : ℕ → Option Fl) :
    NearFill P (fun s s' o => RandVecSerial (Gen.ofFun r) num s out s' o) num out D ε :=
  nearFill hr fun _ _ hl => C46_noomp hl num out

/-- With OpenMP the same for the vectors that are too short for a parallel region. What is missing: longer vectors, see
`C46_parallel_violated`. -/
theorem C50_openmp_partial (hr : NearLaw P r D ε) {num T : ℕ} (hb : ¬ minPerBlock < perBlock num T)
    (out : ℕ → Option Fl) :
    NearFill P (fun s s' o => ∃ tr, RandVec (Gen.ofFun r) num T s out tr s' o) num out D ε :=
  nearFill hr fun _ _ hl => C46_openmp_partial hl hb out

end Stats.Vec

namespace Stats
open Fl MatOps Spec Vec

section wishart
open Matrix
variable [Lib] [Ideal] [LinAlg] [IdealLin] {S : Type*} [Engine S] [MeasurableSpace S] {P : Measure S} {K : ℕ}

theorem nearLawM_of {ι κ : Type*} [Countable ι] [Countable κ] {g : S → Option ((ι → κ → Fl) × S)}
    {D : Measure (ι → κ → ℝ)} {ε : ℝ} (h0 : 0 ≤ ε) {X N} (h : NearDraw P X N D (ENNReal.ofReal ε))
    (hg : ∀ᵐ s ∂P, g s = some (fun i j => fin (X s i j), N s)) : NearLawM P g D ε := by
  obtain ⟨D', a, b, c⟩ := h
  exact ⟨D', a, hasLawM_iff.2 ⟨X, N, b, hg⟩, fun A hA => c.within.real h0 hA⟩

/-- A supplied factor: one chi variate per row, each off by at most `7δ`. -/
theorem C50_rwish_pre (hP : FairEngine P) (hδ : Lib.next 0 1 ≤ 1 / 30) (be : Backend) {ν : ℝ} (hν : (K : ℝ) - 1 < ν)
    {nu : ℕ → Fl} (hnu : ∀ k < K, nu k = fin (ν - k)) (garbage : Grid) {C : Matrix (Fin K) (Fin K) ℝ} (hC : C.det ≠ 0) :
    NearLawM P (rwish be (ofReal C) nu true garbage) (posDefLaw (wishPdf (C * Cᵀ) ν)) (K * (7 * Lib.next 0 1)) := by
  obtain ⟨X, N, h, e⟩ := near_rwish_pre hP hδ be hν hnu garbage hC
  have d0 : 0 ≤ Lib.next 0 1 := delta_nonneg
  exact nearLawM_of (by positivity) h e

theorem C50_rwish_partial (hP : FairEngine P) (hδ : Lib.next 0 1 ≤ 1 / 30) {be : Backend} (hbe : be ≠ .blaze) {ν : ℝ}
    (hν : (K : ℝ) - 1 < ν) {nu : ℕ → Fl} (hnu : ∀ k < K, nu k = fin (ν - k)) (garbage : Grid)
    {Psi : Matrix (Fin K) (Fin K) ℝ} (h : Psi.PosDef) :
    NearLawM P (rwish be (ofReal Psi) nu false garbage) (posDefLaw (wishPdf Psi ν)) (K * (7 * Lib.next 0 1)) := by
  obtain ⟨L, hL, e⟩ := C37_chol_partial hbe h
  have := C50_rwish_pre hP hδ be hν hnu garbage hL.det_ne
  rw [hL.mul] at this
  rwa [show rwish (S := S) be (ofReal Psi) nu false garbage = rwish be (ofReal L) nu true garbage from
    funext fun s => rwish_chol e nu garbage s]

theorem C50_rinvwish_pre (hP : FairEngine P) (hδ : Lib.next 0 1 ≤ 1 / 30) (be : Backend) {ν : ℝ} (hν : (K : ℝ) - 1 < ν)
    {nu : ℕ → Fl} (hnu : ∀ k < K, nu k = fin (ν - k)) (garbage : Grid) {C : Matrix (Fin K) (Fin K) ℝ} (hC : C.det ≠ 0) :
    NearLawM P (rinvwish be (ofReal C) nu true garbage) (posDefLaw (invwishPdf (C * Cᵀ)⁻¹ ν)) (K * (7 * Lib.next 0 1)) := by
  obtain ⟨X, N, h, e⟩ := near_rinvwish_pre hP hδ be hν hnu garbage hC
  have d0 : 0 ≤ Lib.next 0 1 := delta_nonneg
  exact nearLawM_of (by positivity) h e

theorem C50_rinvwish_partial (hP : FairEngine P) (hδ : Lib.next 0 1 ≤ 1 / 30) {be : Backend} (hbe : be ≠ .blaze) {ν : ℝ}
    (hν : (K : ℝ) - 1 < ν) {nu : ℕ → Fl} (hnu : ∀ k < K, nu k = fin (ν - k)) (garbage : Grid)
    {Psi : Matrix (Fin K) (Fin K) ℝ} (h : Psi.PosDef) :
    NearLawM P (rinvwish be (ofReal Psi) nu false garbage) (posDefLaw (invwishPdf Psi ν)) (K * (7 * Lib.next 0 1)) := by
  obtain ⟨L, hL, e⟩ := C37_chol_partial hbe h.inv
  have := C50_rinvwish_pre hP hδ be hν hnu garbage hL.det_ne
  rw [hL.mul, nonsing_inv_nonsing_inv _ (isUnit_iff_ne_zero.2 h.det_pos.ne')] at this
  rwa [show rinvwish (S := S) be (ofReal Psi) nu false garbage = rinvwish be (ofReal L) nu true garbage from
    funext fun s => by simp [rinvwish, inv_real h.det_pos.ne', e]]

theorem C50_rwish_float_partial (hP : FairEngine P) (hδ : Lib.next 0 1 ≤ 1 / 30) {be : Backend} (hbe : be ≠ .blaze) {ν : ℝ}
    (hν : (K : ℝ) - 1 < ν) (garbage : Grid) {Psi : Matrix (Fin K) (Fin K) ℝ} (h : Psi.PosDef) :
    NearLawM P (rwish be (ofReal Psi) (nuFloat (fin ν)) false garbage) (posDefLaw (wishPdf Psi ν)) (K * (7 * Lib.next 0 1)) :=
  C50_rwish_partial hP hδ hbe hν (nuFloat_eq ν) garbage h

theorem C50_rwish_int_partial (hP : FairEngine P) (hδ : Lib.next 0 1 ≤ 1 / 30) {be : Backend} (hbe : be ≠ .blaze) {n : ℕ}
    (hK : K ≤ n) (hb : n < 2 ^ 64) (garbage : Grid) {Psi : Matrix (Fin K) (Fin K) ℝ} (h : Psi.PosDef) :
    NearLawM P (rwish be (ofReal Psi) (nuInt n) false garbage) (posDefLaw (wishPdf Psi n)) (K * (7 * Lib.next 0 1)) :=
  C50_rwish_partial hP hδ hbe (by have : (K : ℝ) ≤ n := by exact_mod_cast hK
                                  linarith) (nuInt_eq hK hb) garbage h

theorem C50_rinvwish_float_partial (hP : FairEngine P) (hδ : Lib.next 0 1 ≤ 1 / 30) {be : Backend} (hbe : be ≠ .blaze) {ν : ℝ}
    (hν : (K : ℝ) - 1 < ν) (garbage : Grid) {Psi : Matrix (Fin K) (Fin K) ℝ} (h : Psi.PosDef) :
    NearLawM P (rinvwish be (ofReal Psi) (nuFloat (fin ν)) false garbage) (posDefLaw (invwishPdf Psi ν)) (K * (7 * Lib.next 0 1)) :=
  C50_rinvwish_partial hP hδ hbe hν (nuFloat_eq ν) garbage h

theorem C50_rinvwish_int_partial (hP : FairEngine P) (hδ : Lib.next 0 1 ≤ 1 / 30) {be : Backend} (hbe : be ≠ .blaze) {n : ℕ}
    (hK : K ≤ n) (hb : n < 2 ^ 64) (garbage : Grid) {Psi : Matrix (Fin K) (Fin K) ℝ} (h : Psi.PosDef) :
    NearLawM P (rinvwish be (ofReal Psi) (nuInt n) false garbage) (posDefLaw (invwishPdf Psi n)) (K * (7 * Lib.next 0 1)) :=
  C50_rinvwish_partial hP hδ hbe (by have : (K : ℝ) ≤ n := by exact_mod_cast hK
                                     linarith) (nuInt_eq hK hb) garbage h

end wishart

section multinom
variable [Lib] [Ideal] {S : Type*} [MeasurableSpace S] [Engine S] {P : Measure S}

/-- The counts after the first one, given the first one (see `C48_rmultinom_partial`, also for what is missing). -/
theorem C50_rmultinom_partial (hP : FairEngine P) (hδ : Lib.next 0 1 < 1) {n : ℕ} (hn : n + 2 < 2 ^ 63) {p : ℕ → ℝ}
    (hp : ∀ i < n + 2, 0 ≤ p i) (h1 : ∑ i ∈ Finset.range (n + 2), p i = 1)
    (hpre : ∀ j < n + 2, ∑ i ∈ Finset.range j, p i < 1) (rd : ℕ) (g : ℕ → Fl) {c : ℕ} (hc : c ≤ n + 2)
    (hfirst : (rbinom ((n + 2 : ℕ) : ℤ) (fin (p 0)) (Engine.seed rd : S)).1 = fin c) :
    NearCounts P P (rmultinom (n + 2) (fun i => fin (p i)) rd g) (n + 2) (fun k =>
      if k 0 = c then multPmf (n + 2 - c) (fun i : Fin (n + 1) => p (1 + i) / (1 - p 0)) (Fin.tail k) else 0)
      ((n + 1) * ((n + 2) * Lib.next 0 1)) := by
  have d0 : 0 ≤ Lib.next 0 1 := delta_nonneg
  obtain ⟨X, N, w, hX, hN, hrun, hmass, hw1, -, hs1, hs2⟩ :=
    near_multinom_loop hP hδ hn hp h1 hpre (n + 1) 1 le_rfl (by omega) c hc
  have hwf : ∀ k, w k ≠ ⊤ := fun k => ne_top_of_le_ne_top ENNReal.one_ne_top ((ENNReal.le_tsum k).trans hw1)
  refine ⟨fun k => if k 0 = c then (w (Fin.tail k)).toReal else 0,
    ⟨fun s => Fin.cons c (X s), N, ?_, hN, ?_, fun k A hA => ?_⟩, fun A => ?_⟩
  · refine measurable_pi_iff.2 fun i => ?_
    refine Fin.cases ?_ (fun i => ?_) i
    · simp only [Fin.cons_zero]; exact measurable_const
    · simp only [Fin.cons_succ]; exact (measurable_pi_apply i).comp hX
  · filter_upwards [hrun] with s hs
    rw [rmultinom, if_neg (by omega), toSigned_eq hn]
    simp only [hfirst, show 1 < n + 2 by omega, if_true, toSize_nat (show c < 2 ^ 64 by omega), Option.bind_some]
    obtain ⟨ret', e1, e2, e3⟩ := hs (Function.update g 0 (fin c))
    refine ⟨ret', e1, fun i => ?_⟩
    refine Fin.cases ?_ (fun i => ?_) i
    · simp only [Fin.val_zero, Fin.cons_zero]; rw [e3 0 (by omega), Function.update_self]
    · simp only [Fin.val_succ, Fin.cons_succ]; rw [← e2 i]; congr 1; omega
  · have e : {s | (Fin.cons c (X s) : Fin (n + 2) → ℕ) = k ∧ N s ∈ A} = if k 0 = c then {s | X s = Fin.tail k ∧ N s ∈ A} else ∅ := by
      ext s
      split_ifs with hk
      · refine and_congr_left fun _ => ⟨fun h => ?_, fun h => ?_⟩
        · rw [← h]; rfl
        · rw [h, ← hk]; exact Fin.cons_self_tail k
      · simp only [Set.mem_ofPred_eq, Set.mem_empty_iff_false, iff_false, not_and]
        intro h
        exact absurd (by rw [← h]; rfl) hk
    rw [e]
    beta_reduce
    by_cases hk : k 0 = c
    · rw [if_pos hk, if_pos hk, hmass _ A hA, ENNReal.ofReal_toReal (hwf _)]
    · rw [if_neg hk, if_neg hk]; simp
  · -- the sum over the vectors that start with `c`
    set B := (A.filter fun k => k 0 = c).image (Fin.tail : (Fin (n + 2) → ℕ) → Fin (n + 1) → ℕ) with hB
    have inj : Set.InjOn (Fin.tail : (Fin (n + 2) → ℕ) → Fin (n + 1) → ℕ) (A.filter fun k => k 0 = c) := by
      intro k hk l hl hkl
      rw [Finset.mem_coe, Finset.mem_filter] at hk hl
      rw [← Fin.cons_self_tail k, ← Fin.cons_self_tail l, hkl, hk.2, hl.2]
    have e1 : ∀ f : (Fin (n + 1) → ℕ) → ℝ, ∑ k ∈ A, (if k 0 = c then f (Fin.tail k) else 0) = ∑ t ∈ B, f t := by
      intro f
      rw [← Finset.sum_filter, hB, Finset.sum_image inj]
    have hv : ∀ t, multPmf (n + 2 - c) (fun i : Fin (n + 1) => p (1 + i) / (1 - p 0)) t = seqPmf p (n + 1) (n + 2 - c) 1 t := by
      intro t
      rw [seq_mult h1 hpre n _ 1 (by omega)]
      simp only [Finset.range_one, Finset.sum_singleton]
    rw [e1 fun t => (w t).toReal, e1 fun t => multPmf (n + 2 - c) (fun i : Fin (n + 1) => p (1 + i) / (1 - p 0)) t]
    simp only [hv]
    have hv0 : ∀ t, 0 ≤ seqPmf p (n + 1) (n + 2 - c) 1 t := by
      intro t
      rw [← hv]
      have hp1 : 0 < 1 - p 0 := by have := hpre 1 (by omega); simp at this; linarith
      rw [multPmf]
      split_ifs
      · refine mul_nonneg (by positivity) (Finset.prod_nonneg fun i _ => pow_nonneg (div_nonneg (hp _ ?_) hp1.le) _)
        have := i.2; omega
      · exact le_rfl
    have hεn : 0 ≤ ((n + 1 : ℕ) : ℝ) * (((n + 2 : ℕ) : ℝ) * Lib.next 0 1) := by positivity
    have b1 : ∑ t ∈ B, ((w t).toReal - seqPmf p (n + 1) (n + 2 - c) 1 t) ≤ (n + 1 : ℕ) * ((n + 2 : ℕ) * Lib.next 0 1) := by
      have := (ENNReal.sum_le_tsum B).trans hs1
      have := ENNReal.toReal_mono ENNReal.ofReal_ne_top this
      rw [ENNReal.toReal_ofReal hεn, ENNReal.toReal_sum fun t _ => ne_top_of_le_ne_top (hwf t) tsub_le_self] at this
      refine le_trans (Finset.sum_le_sum fun t _ => ?_) this
      have := ENNReal.le_toReal_sub (a := w t) (b := ENNReal.ofReal (seqPmf p (n + 1) (n + 2 - c) 1 t)) ENNReal.ofReal_ne_top
      rwa [ENNReal.toReal_ofReal (hv0 t)] at this
    have b2 : ∑ t ∈ B, (seqPmf p (n + 1) (n + 2 - c) 1 t - (w t).toReal) ≤ (n + 1 : ℕ) * ((n + 2 : ℕ) * Lib.next 0 1) := by
      have := (ENNReal.sum_le_tsum B).trans hs2
      have := ENNReal.toReal_mono ENNReal.ofReal_ne_top this
      rw [ENNReal.toReal_ofReal hεn, ENNReal.toReal_sum fun t _ => ne_top_of_le_ne_top ENNReal.ofReal_ne_top tsub_le_self] at this
      refine le_trans (Finset.sum_le_sum fun t _ => ?_) this
      have := ENNReal.le_toReal_sub (a := ENNReal.ofReal (seqPmf p (n + 1) (n + 2 - c) 1 t)) (b := w t) (hwf t)
      rwa [ENNReal.toReal_ofReal (hv0 t)] at this
    rw [Finset.sum_sub_distrib] at b1 b2
    push_cast at b1 b2
    exact abs_le.2 ⟨by linarith, by linarith⟩

end multinom
end Stats

namespace Stats.ExamplesC50B
open Fl Spec MatOps Matrix Stats.Vec
open scoped Stats.Low
attribute [local instance] Exact.linAlg Exact.idealLin

/-- a hundred exponential numbers, without OpenMP -/
example (out : ℕ → Option Fl) : NearFill Tape.tapeLaw
    (fun s s' o => RandVecSerial (Gen.ofFun fun s => some (rexp (fin 3) s)) 100 s out s' o) 100 out
    (densLaw (expPdf 3)) (1 / 2 ^ 1074) := by
  have := (isCdf_exp (show (0 : ℝ) < 3 by norm_num)).isProb
  exact C50_noomp (Low.next ▸ C50_rexp Tape.fair Low.next_lt (by norm_num)) 100 out

/-- three gamma numbers with OpenMP and two threads -/
example (out : ℕ → Option Fl) : NearFill Tape.tapeLaw
    (fun s s' o => ∃ tr, RandVec (Gen.ofFun (rgamma (fin (5 / 2)) (fin 3))) 3 2 s out tr s' o) 3 out
    (densLaw (gammaPdf (5 / 2) 3)) (7 * (1 / 2 ^ 1074)) := by
  have := (isCdf_gamma (show (0 : ℝ) < 5 / 2 by norm_num) (show (0 : ℝ) < 3 by norm_num)).isProb
  exact C50_openmp_partial (Low.next ▸ C50_rgamma Tape.fair Low.next_le (by norm_num) (Low.eps_le (by norm_num))) (by decide) out

example (g : Grid) : NearLawM Tape.tapeLaw (rwish .eigen (ofReal corr) (nuFloat (fin 2.5)) false g)
    (posDefLaw (wishPdf corr 2.5)) ((2 : ℕ) * (7 * (1 / 2 ^ 1074))) :=
  Low.next ▸ C50_rwish_float_partial Tape.fair Low.next_le (by simp) (by norm_num) g corr_posDef

example (g : Grid) : NearLawM Tape.tapeLaw (rinvwish .arma (ofReal corr) (nuInt (7 : ℕ)) false g)
    (posDefLaw (invwishPdf corr (7 : ℕ))) ((2 : ℕ) * (7 * (1 / 2 ^ 1074))) :=
  Low.next ▸ C50_rinvwish_int_partial (n := 7) Tape.fair Low.next_le (be := .arma) (by simp) (by norm_num) (by norm_num) g corr_posDef

example (g : Grid) : NearLawM Tape.tapeLaw (rwish .blaze (ofReal !![1, 1; 0, 2]) (nuFloat (fin 3)) true g)
    (posDefLaw (wishPdf (!![1, 1; 0, 2] * !![1, 1; 0, 2]ᵀ) 3)) ((2 : ℕ) * (7 * (1 / 2 ^ 1074))) :=
  Low.next ▸ C50_rwish_pre Tape.fair Low.next_le .blaze (by norm_num) (nuFloat_eq 3) g (by rw [det_fin_two]; norm_num)

theorem rbern_half (s : Tape) (h : (s 0).1 = 1 / 4 ∨ (s 0).1 = 3 / 4) :
    rbern (fin (1 / 2)) s = (if (s 0).1 = 1 / 4 then 1 else 0, s.tail) := by
  have hδ := Low.next_le
  have h0 := Low.next_pos
  have e : runif (fin 0) (fin 1) s =
      (fin (Lib.next 0 1 + (1 - Lib.next 0 1) * Tape.clamp (s 0).1), s.tail) := by
    rw [runif, if_neg (by simp [unif_ok]), nextafter]
    rfl
  rw [rbern, if_neg (by simp [bern_ok]; norm_num), zero_eq, one_eq]
  simp only [e]
  rcases h with h | h <;> rw [h]
  · have c : Tape.clamp (1 / 4) = 1 / 4 := by rw [Tape.clamp, if_pos (by norm_num)]
    have : fin (Lib.next 0 1 + (1 - Lib.next 0 1) * (1 / 4)) ≤ fin (1 / 2) := by simp only [fin_le_fin]; linarith
    rw [c, if_pos this, if_pos rfl]
  · have c : Tape.clamp (3 / 4) = 3 / 4 := by rw [Tape.clamp, if_pos (by norm_num)]
    have : ¬ fin (Lib.next 0 1 + (1 - Lib.next 0 1) * (3 / 4)) ≤ fin (1 / 2) := by
      simp only [fin_le_fin]; linarith
    rw [c, if_neg this, if_neg (by norm_num)]

/-- a seed that gives one success in three trials -/
theorem first : (rbinom 3 (fin (1 / 2)) (Engine.seed 6 : Tape)).1 = fin (1 : ℕ) := by
  have h0 : ∀ n, ((Engine.seed 6 : Tape) n).1 = if (6 : ℕ).testBit n then 3 / 4 else 1 / 4 := fun n => rfl
  have b : (6 : ℕ).testBit 0 = false ∧ (6 : ℕ).testBit 1 = true ∧ (6 : ℕ).testBit 2 = true := by decide
  have a0 : ((Engine.seed 6 : Tape) 0).1 = 1 / 4 := by rw [h0, b.1]; rfl
  have a1 : ((Engine.seed 6 : Tape).tail 0).1 = 3 / 4 := by rw [Tape.tail, h0, b.2.1]; rfl
  have a2 : ((Engine.seed 6 : Tape).tail.tail 0).1 = 3 / 4 := by rw [Tape.tail, Tape.tail, h0, b.2.2]; rfl
  rw [rbinom, if_neg (by simp [binom_ok]; norm_num), show (3 : ℤ).toNat = 3 from rfl]
  simp only [rbinom_loop, rbern_half _ (.inl a0), rbern_half _ (.inr a1), rbern_half _ (.inr a2)]
  rw [a0, a1, a2, if_pos rfl, if_neg (by norm_num)]
  simp only [ideal]
  norm_num

/-- three categories -/
example (g : ℕ → Fl) : NearCounts Tape.tapeLaw Tape.tapeLaw
    (rmultinom 3 (fun i => fin (if i = 0 then 1 / 2 else 1 / 4)) 6 g) 3 (fun k =>
      if k 0 = 1 then multPmf 2 (fun _ => 1 / 2) (Fin.tail k) else 0) (6 * (1 / 2 ^ 1074)) := by
  have := C50_rmultinom_partial (n := 1) (p := fun i => if i = 0 then 1 / 2 else 1 / 4) (c := 1) Tape.fair Low.next_lt
    (by norm_num) (fun i _ => by split_ifs <;> norm_num)
    (by simp only [Finset.sum_range_succ, Finset.sum_range_zero]; norm_num)
    (fun j hj => by
      rcases (by omega : j = 0 ∨ j = 1 ∨ j = 2) with rfl | rfl | rfl <;>
        simp only [Finset.sum_range_succ, Finset.sum_range_zero] <;> norm_num) 6 g (by norm_num) first
  rw [Low.next] at this
  convert this using 1
  · funext k
    have : (fun i : Fin 2 => (if 1 + (i : ℕ) = 0 then (1 / 2 : ℝ) else 1 / 4) / (1 - if (0 : ℕ) = 0 then 1 / 2 else 1 / 4)) = fun _ => 1 / 2 := by
      funext i; rw [if_neg (by omega), if_pos rfl]; norm_num
    rw [this]
  · rw [Nat.cast_one]; ring

end Stats.ExamplesC50B
