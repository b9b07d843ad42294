import Verif.Model.Rand
import Verif.Lemmas.ExactInst
import Verif.Double

/-! `NextLib` holds of both arithmetic instances, and there is an engine. -/

namespace Stats
open Fl

theorem exactLib_next : @NextLib exactLib :=
  letI := exactLib
  { next_gt := fun a b h => exactRounding.next_gt a b h
    next_lt_one := by
      show min (1 : ℝ) (0 + 1 / 2 ^ 1074) < 1
      have : (1 : ℝ) / 2 ^ 1074 < 1 := by
        rw [div_lt_one (by positivity)]; exact one_lt_pow₀ (by norm_num) (by norm_num)
      simpa using this }

theorem doubleLib_next : @NextLib doubleLib :=
  letI := doubleLib
  { next_gt := fun a b h => doubleRounding.next_gt a b h
    next_lt_one := by
      show min (1 : ℝ) (0 + Double.gap 0) < 1
      have : Double.gap 0 < 1 := by
        rw [Double.gap, if_pos rfl]
        exact zpow_lt_one_of_neg₀ (by norm_num) (by norm_num)
      simpa using this }

/-- A deterministic engine: the state is a pair of streams, one of fractions in `[0,1)` for the uniform
distribution and one for the normal distribution. -/
structure Stream where
  u : ℕ → ℝ
  u_mem : ∀ n, 0 ≤ u n ∧ u n < 1
  z : ℕ → ℝ

/-- drop the first element of the first stream -/
def Stream.nextU (s : Stream) : Stream := ⟨fun n => s.u (n + 1), fun n => s.u_mem (n + 1), s.z⟩
/-- drop the first element of the second stream -/
def Stream.nextZ (s : Stream) : Stream := ⟨s.u, s.u_mem, fun n => s.z (n + 1)⟩

noncomputable instance : Engine Stream where
  unif a b s := (match a, b with
    | fin a, fin b => fin (a + (b - a) * s.u 0)
    | _, _ => nan, s.nextU)
  unif_mem a b s h := by
    refine ⟨_, rfl, ?_, ?_⟩
    · have := mul_nonneg (sub_nonneg.2 h.le) (s.u_mem 0).1; linarith
    · have := mul_lt_mul_of_pos_left (s.u_mem 0).2 (sub_pos.2 h); linarith
  norm s := (s.z 0, s.nextZ)
  seed k := ⟨fun _ => 1 / 2, fun _ => by norm_num, fun _ => k⟩

namespace Exact
scoped instance (priority := high) next : NextLib := exactLib_next
end Exact
end Stats
