import Verif.Num
import Mathlib.Tactic.NormNum
import Mathlib.Tactic.Linarith

/-!
# A tactic for the concrete cases shown beside the theorems

`meets` proves numerical hypotheses at concrete numbers, among them comparisons with `Lib.eps`.
-/

/-- Proves a hypothesis at concrete numbers. -/
macro "meets" : tactic => `(tactic| first
  | (norm_num; done)
  | (have h₁ := Stats.Lib.eps_le; have h₂ := Stats.Lib.eps_pos; linarith)
  | (have h₁ := Stats.Lib.eps_le; have h₂ := Stats.Lib.eps_pos; norm_num; linarith)
  | (left; norm_num; done)
  | (right; norm_num; done)
  | (refine ⟨?_, ?_⟩ <;> norm_num <;> done)
  | (have h₁ := Stats.Lib.eps_le; have h₂ := Stats.Lib.eps_pos; left; linarith)
  | (have h₁ := Stats.Lib.eps_le; have h₂ := Stats.Lib.eps_pos; right; linarith))
