import Verif.Spec.Project
import Mathlib.MeasureTheory.Measure.Prod
import Mathlib.MeasureTheory.Measure.Real

/-!
# Specification: statistics of samples

A program lets the library fill a buffer (or one buffer after the other), reads the numbers, and calculates a statistic.
-/

open MeasureTheory

namespace Stats.Spec
open Fl

instance {R R' F F' : Type*} [Shape R F] [Shape R' F'] : Shape (R × R') (F × F') where
  emb x := (Shape.emb x.1, Shape.emb x.2)
  inj := fun _ _ h => Prod.ext (Shape.inj (congrArg Prod.fst h)) (Shape.inj (congrArg Prod.snd h))

/-- the first `num` elements of a buffer, if all of them have been written -/
def held : ℕ → (ℕ → Option Fl) → Option (List Fl)
  | 0, _ => some []
  | n + 1, o => (o 0).bind fun x => (held n fun i => o (i + 1)).map fun L => x :: L

variable {S A R F : Type*} [MeasurableSpace S]

/-- what a program finds in the buffer after a call that fills `num` elements -/
def Sample (call : S → S → (ℕ → Option Fl) → Prop) (num : ℕ) (s : S) (a : Option (List Fl)) : Prop :=
  ∃ s' o, call s s' o ∧ a = held num o

/-- what a program finds in two buffers, the second one filled with the engine the first call has left behind -/
def Sample₂ (call₁ : S → S → (ℕ → Option Fl) → Prop) (n₁ : ℕ) (call₂ : S → S → (ℕ → Option Fl) → Prop) (n₂ : ℕ)
    (s : S) (a : Option (List Fl × List Fl)) : Prop :=
  ∃ s₁ o₁ s₂ o₂, call₁ s s₁ o₁ ∧ call₂ s₁ s₂ o₂ ∧
    a = (held n₁ o₁).bind fun L₁ => (held n₂ o₂).map fun L₂ => (L₁, L₂)

/-- `run s a`: started with the engine `s` the program can find `a`. It finds numbers with probability one, and whatever it
finds, the statistic `stat` has the law `D` over the states of the engine. -/
def StatLaw [Shape R F] [MeasurableSpace R] (P : Measure S) (run : S → Option A → Prop) (stat : A → F) (D : Measure R) :
    Prop :=
  ∃ M : S → R, Measurable M ∧
    (∀ᵐ s ∂P, (∃ a, run s a) ∧ ∀ a, run s a → ∃ x, a = some x ∧ stat x = Shape.emb (M s)) ∧ P.map M = D

/-- With probability `p` the program finds numbers, and whatever it finds, `ok` is true of it. -/
def StatProb (P : Measure S) (run : S → Option A → Prop) (ok : A → Prop) (p : ℝ) : Prop :=
  P.real {s | (∃ a, run s a) ∧ ∀ a, run s a → ∃ x, a = some x ∧ ok x} = p

end Stats.Spec
