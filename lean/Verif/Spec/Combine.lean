import Verif.Spec.Law

/-!
# Specification: calculations with the results of generators

A program that draws from one generator, then from another with the engine left behind, and calculates with the two
numbers.
-/

namespace Stats.Spec
open Fl
variable {S : Type*}

/-- `f` of one draw -/
def one (f : ℝ → ℝ) (g : S → Option (Fl × S)) (s : S) : Option (Fl × S) :=
  match g s with
  | some (fin x, s') => some (fin (f x), s')
  | _ => none

/-- `op` of two successive draws -/
def two (op : ℝ → ℝ → ℝ) (g h : S → Option (Fl × S)) (s : S) : Option (Fl × S) :=
  match g s with
  | some (fin x, s') => one (op x) h s'
  | _ => none

/-- the sum of `n + 1` successive draws -/
def total (g : S → Option (Fl × S)) : ℕ → S → Option (Fl × S)
  | 0 => g
  | n + 1 => two (· + ·) (total g n) g

end Stats.Spec
