import Verif.Lemmas.FairInst
import Verif.Lemmas.NextInst
import Verif.Lemmas.RoundInst
import Verif.Spec.Grid
import Mathlib.MeasureTheory.Function.Floor

/-!
An engine that is not fair but nearly so: its uniform variates are multiples of `(b - a) / 2^32`, as those of an engine with
32 random bits, and its normal variates are multiples of `1 / 2^32`.
-/

open MeasureTheory Set

namespace Stats
open Fl Spec

/-- A fair engine is nearly fair with distance 0. -/
theorem unifNear_of_fair {S : Type*} [MeasurableSpace S] [Engine S] {P : Measure S} (hP : FairEngine P) :
    ∀ a b : ℝ, a < b → ∃ V : S → ℝ, Measurable V ∧ (∀ᵐ s ∂P, (Engine.unif (fin a) (fin b) s).1 = fin (V s)) ∧
      ∀ x, a ≤ x → x ≤ b → P.real {s | V s ≤ x} = (x - a) / (b - a) := by
  intro a b h
  obtain ⟨V, N, hd, hV⟩ := hasLaw_iff.1 (hP.unif a b h)
  refine ⟨V, hd.mX, hV.mono fun s hs => by simp [Option.some.inj hs], fun x h0 h1 => ?_⟩
  have := hP.prob
  have := (isCdf_unif h).isProb
  have e : P.map V = densLaw (unifPdf a b) := by
    have := congrArg Measure.fst hd.law
    rwa [Measure.fst_map_prodMk hd.mN, Measure.fst_prod] at this
  have e1 := congrArg (fun D : Measure ℝ => D.real (Iic x)) e
  simp only [map_measureReal_apply hd.mX measurableSet_Iic] at e1
  rw [show {s | V s ≤ x} = V ⁻¹' Iic x from rfl, e1, measureReal_def, (isCdf_unif h).densLaw_Iic,
    ENNReal.toReal_ofReal ((isCdf_unif h).nonneg' x), unifCdf]
  split_ifs with h2 h3
  · rw [show x = a by linarith]; simp
  · rw [show x = b by linarith, div_self (by linarith)]
  · rfl

/-- the number of different uniform variates -/
noncomputable def fine : ℝ := 2 ^ 32

theorem fine_pos : 0 < fine := by rw [fine]; positivity

/-- the largest multiple of `1 / 2^32` below `x` -/
noncomputable def grid (x : ℝ) : ℝ := ⌊fine * x⌋ / fine

theorem grid_le (x : ℝ) : grid x ≤ x := by
  rw [grid, div_le_iff₀ fine_pos, mul_comm]
  exact Int.floor_le _

theorem lt_grid (x : ℝ) : x < grid x + 1 / fine := by
  rw [grid, ← add_div, lt_div_iff₀ fine_pos, mul_comm]
  exact Int.lt_floor_add_one (fine * x)

theorem grid_nonneg {x : ℝ} (h : 0 ≤ x) : 0 ≤ grid x :=
  div_nonneg (by exact_mod_cast Int.floor_nonneg.2 (mul_nonneg fine_pos.le h)) fine_pos.le

theorem measurable_grid : Measurable grid := by
  unfold grid
  exact ((measurable_from_top (f := fun n : ℤ => (n : ℝ))).comp (Int.measurable_floor (R := ℝ) |>.comp (measurable_id.const_mul _))).div_const _

def Coarse : Type := Tape

namespace Coarse
instance : MeasurableSpace Coarse := inferInstanceAs (MeasurableSpace Tape)

def tail (s : Coarse) : Coarse := Tape.tail s

noncomputable instance : Engine Coarse where
  unif a b s := (match a, b with
    | fin a, fin b => fin (a + (b - a) * grid (Tape.clamp (s 0).1))
    | _, _ => nan, s.tail)
  unif_mem a b s h := by
    obtain ⟨h0, h1⟩ := Tape.clamp_mem (s 0).1
    refine ⟨_, rfl, ?_, ?_⟩
    · have := mul_nonneg (sub_nonneg.2 h.le) (grid_nonneg h0.le); linarith
    · have := mul_lt_mul_of_pos_left ((grid_le _).trans_lt h1) (sub_pos.2 h); linarith
  norm s := (grid (s 0).2, s.tail)
  seed k := (Engine.seed k : Tape)

noncomputable def law : Measure Coarse := Tape.tapeLaw

instance : IsProbabilityMeasure law := inferInstanceAs (IsProbabilityMeasure Tape.tapeLaw)

theorem measurable_head : Measurable fun s : Coarse => s 0 := measurable_pi_apply (X := fun _ : ℕ => ℝ × ℝ) 0

theorem clamp_law {t : ℝ} (h0 : 0 ≤ t) (h1 : t ≤ 1) : law.real {s | Tape.clamp (s 0).1 ≤ t} = t := by
  obtain ⟨V, -, eV, hV⟩ := unifNear_of_fair Tape.fair 0 1 one_pos
  have h := hV t h0 h1
  rw [sub_zero, sub_zero, div_one] at h
  refine Eq.trans (measureReal_congr ?_) h
  refine eV.mono fun s hs => ?_
  have e : Tape.clamp (s 0).1 = V s := by
    have : fin (0 + (1 - 0) * Tape.clamp (s 0).1) = fin (V s) := hs
    simpa using this
  show (Tape.clamp (s 0).1 ≤ t) = (V s ≤ t)
  rw [e]

theorem unifNear : UnifNear law (1 / fine) := by
  intro a b h
  have hb : 0 < b - a := by linarith
  refine ⟨fun s => a + (b - a) * grid (Tape.clamp (s 0).1), ?_, fun s => rfl, fun x h0 h1 => ?_⟩
  · exact measurable_const.add (measurable_const.mul
      (measurable_grid.comp (Tape.measurable_clamp.comp (measurable_fst.comp measurable_head))))
  have t0 : 0 ≤ (x - a) / (b - a) := div_nonneg (by linarith) hb.le
  have t1 : (x - a) / (b - a) ≤ 1 := (div_le_one hb).2 (by linarith)
  have e : {s : Coarse | a + (b - a) * grid (Tape.clamp (s 0).1) ≤ x} = {s : Coarse | grid (Tape.clamp (s 0).1) ≤ (x - a) / (b - a)} := by
    ext s
    show a + (b - a) * grid (Tape.clamp (s 0).1) ≤ x ↔ grid (Tape.clamp (s 0).1) ≤ (x - a) / (b - a)
    rw [le_div_iff₀ hb]
    constructor <;> intro h <;> linarith
  rw [e]
  generalize (x - a) / (b - a) = t at t0 t1
  have l1 : t ≤ law.real {s : Coarse | grid (Tape.clamp (s 0).1) ≤ t} := by
    have h3 : law.real {s : Coarse | Tape.clamp (s 0).1 ≤ t} ≤ law.real {s : Coarse | grid (Tape.clamp (s 0).1) ≤ t} :=
      measureReal_mono fun s (hs : Tape.clamp (s 0).1 ≤ t) => (grid_le _).trans hs
    rwa [clamp_law t0 t1] at h3
  have l2 : law.real {s : Coarse | grid (Tape.clamp (s 0).1) ≤ t} ≤ t + 1 / fine := by
    rcases le_or_gt (t + 1 / fine) 1 with h2 | h2
    · have h3 : law.real {s : Coarse | grid (Tape.clamp (s 0).1) ≤ t} ≤ law.real {s : Coarse | Tape.clamp (s 0).1 ≤ t + 1 / fine} :=
        measureReal_mono fun s (hs : grid (Tape.clamp (s 0).1) ≤ t) =>
          ((lt_grid (Tape.clamp (s 0).1)).trans_le (add_le_add_left hs _)).le
      rwa [clamp_law (by have := fine_pos; positivity) h2] at h3
    · exact measureReal_le_one.trans h2.le
  rw [abs_le]
  constructor <;> [skip; linarith]
  have : (0 : ℝ) ≤ 1 / fine := (one_div_pos.2 fine_pos).le
  linarith

theorem normNear : NormNear law (1 / fine) := by
  have := (isCdf_norm 0 one_pos).isProb
  have hz : ∀ t, law.real {s | (s 0).2 ≤ t} = Phi t := fun t => by
    obtain ⟨V, N, hd, hV⟩ := hasLaw_iff.1 Tape.fair.norm
    have e : Tape.tapeLaw.map V = densLaw (normPdf 0 1) := by
      have := congrArg Measure.fst hd.law
      rwa [Measure.fst_map_prodMk hd.mN, Measure.fst_prod] at this
    have e1 := congrArg (fun D : Measure ℝ => D.real (Iic t)) e
    simp only [map_measureReal_apply hd.mX measurableSet_Iic] at e1
    rw [measureReal_def (densLaw _), (isCdf_norm 0 one_pos).densLaw_Iic, ENNReal.toReal_ofReal ((isCdf_norm 0 one_pos).nonneg' t),
      sub_zero, div_one] at e1
    rw [← e1]
    refine measureReal_congr (hV.mono fun s hs => ?_)
    have e : (s 0).2 = V s := Fl.fin.inj (congrArg Prod.fst (Option.some.inj hs))
    show ((s 0).2 ≤ t) = (V s ≤ t)
    rw [e]
  refine ⟨measurable_grid.comp (measurable_snd.comp measurable_head), fun x => ?_⟩
  have hc := (isCdf_norm 0 one_pos).running
  simp only [sub_zero, div_one] at hc
  rw [hc]
  have l1 : Phi x ≤ law.real {s : Coarse | grid (s 0).2 ≤ x} :=
    (hz x).symm.le.trans (measureReal_mono fun s (hs : (s 0).2 ≤ x) => (grid_le _).trans hs)
  have l2 : law.real {s : Coarse | grid (s 0).2 ≤ x} ≤ Phi (x + 1 / fine) :=
    (measureReal_mono fun (s : Coarse) (hs : grid (s 0).2 ≤ x) =>
      show (s 0).2 ≤ x + 1 / fine from ((lt_grid (s 0).2).trans_le (add_le_add_left hs _)).le).trans (hz _).le
  have l3 : Phi (x + 1 / fine) - Phi x ≤ 1 / fine := by
    have hd : ∀ z, normPdf 0 1 z ≤ 1 := fun z => by
      have h1 : (1 : ℝ) ≤ √(2 * Real.pi) * 1 := by
        rw [mul_one, Real.one_le_sqrt]
        linarith [Real.pi_gt_three]
      have h2 : Real.exp (-((z - 0) ^ 2) / (2 * 1 ^ 2)) ≤ 1 := Real.exp_le_one_iff.2 (by
        have := sq_nonneg (z - 0)
        linarith)
      exact mul_le_one₀ ((div_le_one (by linarith)).2 h1) (Real.exp_pos _).le h2
    have := image_sub_le_mul_sub_of_deriv_le (f := Phi) (fun z => (hasDerivAt_Phi z).differentiableAt)
      (fun z => (hasDerivAt_Phi z).deriv ▸ hd z) (le_add_of_nonneg_right (one_div_pos.2 fine_pos).le : x ≤ x + 1 / fine)
    linarith
  show |law.real {s : Coarse | grid (s 0).2 ≤ x} - Phi x| ≤ _
  rw [abs_le]
  constructor <;> [skip; linarith]
  have : (0 : ℝ) ≤ 1 / fine := (one_div_pos.2 fine_pos).le
  linarith

/-- `runif` draws independently, from whatever law it has. -/
theorem runif_law [Lib] [NextLib] : ∃ D : Measure ℝ, IsProbabilityMeasure D ∧
    HasLaw law (fun s => some (runif (fin 0) (fin 1) s)) D := by
  have h1 := Tape.draw_head.map (f := fun p : ℝ × ℝ => Lib.next 0 1 + (1 - Lib.next 0 1) * grid (Tape.clamp p.1))
    (measurable_const.add (measurable_const.mul (measurable_grid.comp (Tape.measurable_clamp.comp measurable_fst))))
  have : IsProbabilityMeasure Tape.pairLaw := inferInstance
  refine ⟨_, Measure.isProbabilityMeasure_map
    (measurable_const.add (measurable_const.mul (measurable_grid.comp (Tape.measurable_clamp.comp measurable_fst)))).aemeasurable,
    hasLaw_iff.2 ⟨_, _, h1, .of_forall fun s => ?_⟩⟩
  rw [runif, if_neg (by simp [unif_ok])]
  rfl

end Coarse

theorem wideLib_next : @NextLib wideLib :=
  letI := wideLib
  { next_gt := fun a b h => wideRounding.next_gt a b h
    next_lt_one := by
      show min (1 : ℝ) (0 + Double.gap 0) < 1
      have : Double.gap 0 < 1 := by
        rw [Double.gap, if_pos rfl]
        exact zpow_lt_one_of_neg₀ (by norm_num) (by norm_num)
      simpa using this }

theorem lowLib_next : @NextLib lowLib :=
  letI := lowLib
  { next_gt := fun a b h => by
      have : 0 < (b - a) / 2 ^ 1074 := div_pos (sub_pos.2 h) (by positivity)
      show a < a + (b - a) / 2 ^ 1074
      linarith
    next_lt_one := Low.next_lt }

end Stats
