import Verif.Model.Rand
import Mathlib.Data.ENNReal.Basic

/-!
# Specification of the work of a generator

An engine with a counter. It hands out the variates of the engine it wraps and counts them.
-/

namespace Stats.Spec

/-- an engine and the number of variates taken from it -/
structure Counting (S : Type*) where
  state : S
  count : ℕ

variable {S : Type*} {α : Type*}

noncomputable instance [Engine S] : Engine (Counting S) where
  unif a b s := ((Engine.unif a b s.state).1, ⟨(Engine.unif a b s.state).2, s.count + 1⟩)
  unif_mem a b s h := Engine.unif_mem a b s.state h
  norm s := ((Engine.norm s.state).1, ⟨(Engine.norm s.state).2, s.count + 1⟩)
  seed k := ⟨Engine.seed k, 0⟩

/-- Each call that returns takes exactly `k` variates; the counter changes nothing else. `g'` is the generator on the
counting engine. -/
def Draws (g : S → Option (α × S)) (g' : Counting S → Option (α × Counting S)) (k : ℕ) : Prop :=
  ∀ s m, g' ⟨s, m⟩ = (g s).map fun r => (r.1, ⟨r.2, m + k⟩)

/-- The counter changes nothing, and the number of variates taken does not depend on where it starts. -/
def Faithful (g : S → Option (α × S)) (g' : Counting S → Option (α × Counting S)) : Prop :=
  ∀ s, ∃ k, ∀ m, g' ⟨s, m⟩ = (g s).map fun r => (r.1, ⟨r.2, m + k⟩)

open scoped ENNReal in
/-- the number of variates a call takes; infinity if it never returns -/
noncomputable def drawn (g' : Counting S → Option (α × Counting S)) (s : S) : ℝ≥0∞ :=
  match g' ⟨s, 0⟩ with
  | some r => r.2.count
  | none => ⊤

end Stats.Spec
