import Verif.Num

/-! # What a quantile function should do -/

namespace Stats.Spec
open Fl

/-- `q` undoes the distribution function `p` at the points of `s`. -/
def QuantOfCdfOn (p : Fl → Bool → Fl) (q : Fl → Fl) (s : Set ℝ) : Prop :=
  ∀ x ∈ s, q (p (fin x) false) = fin x

/-- `p` undoes the quantile function `q` at every probability strictly between 0 and 1. -/
def CdfOfQuant (p : Fl → Bool → Fl) (q : Fl → Fl) : Prop :=
  ∀ u : ℝ, 0 < u → u < 1 → p (q (fin u)) false = fin u

/-- the same at the probabilities whose quantile lies in `s` -/
def CdfOfQuantOn (p : Fl → Bool → Fl) (q : Fl → Fl) (s : Set ℝ) : Prop :=
  ∀ u : ℝ, 0 < u → u < 1 → ∃ x : ℝ, q (fin u) = fin x ∧ (x ∈ s → p (fin x) false = fin u)

/-- `q` is a non-decreasing function of the probability, with value `lo` at 0 and `hi` at 1. -/
def MonoQuant (q : Fl → Fl) (lo hi : Fl) : Prop :=
  q (fin 0) = lo ∧ q (fin 1) = hi ∧ ∀ u v : ℝ, 0 ≤ u → u ≤ v → v ≤ 1 → q (fin u) ≤ q (fin v)

/-- The same for a quantile function that need not return: it returns at all probabilities. -/
def MonoQuantO (q : Fl → Option Fl) (lo hi : Fl) : Prop :=
  q (fin 0) = some lo ∧ q (fin 1) = some hi ∧
    ∀ u v : ℝ, 0 ≤ u → u ≤ v → v ≤ 1 → ∃ x y, q (fin u) = some x ∧ q (fin v) = some y ∧ x ≤ y

/-- `k` is the smallest element of `s` at which the coded distribution function `p` reaches `u`. -/
def IsSmallest (p : ℤ → Bool → Fl) (s : Set ℤ) (u : Fl) (k : ℤ) : Prop :=
  k ∈ s ∧ u ≤ p k false ∧ ∀ j ∈ s, j < k → p j false < u

/-- `k` is the smallest element of `s` at which the coded distribution function `p` exceeds `u`. -/
def IsSmallestAbove (p : ℤ → Bool → Fl) (s : Set ℤ) (u : Fl) (k : ℤ) : Prop :=
  k ∈ s ∧ u < p k false ∧ ∀ j ∈ s, j < k → p j false ≤ u

end Stats.Spec
