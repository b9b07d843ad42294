import Verif.Num

/-!
# Shape of a density: rising up to a mode, falling after it

`x ≤ y` and `x < y` on `Fl` are the C++ comparisons: they also say that neither side is NaN.
-/

namespace Stats.Spec
open Fl

/-- `d` does not fall on the way from the left to `m` and does not rise after it: all arguments, the infinities
included, plain and log form. -/
def Unimodal (m : ℝ) (d : Fl → Bool → Fl) : Prop :=
  (∀ x y : Fl, x ≤ y → y ≤ fin m → ∀ b, d x b ≤ d y b) ∧ ∀ x y : Fl, fin m ≤ x → x ≤ y → ∀ b, d y b ≤ d x b

/-- The same at the points of `s` only. -/
def UnimodalOn (s : Set ℝ) (m : ℝ) (d : Fl → Bool → Fl) : Prop :=
  (∀ x ∈ s, ∀ y ∈ s, x ≤ y → y ≤ m → ∀ b, d (fin x) b ≤ d (fin y) b) ∧
    ∀ x ∈ s, ∀ y ∈ s, m ≤ x → x ≤ y → ∀ b, d (fin y) b ≤ d (fin x) b

/-- `d` rises strictly on `s` up to `m` and falls strictly after it. If `m` lies left of `s` it only falls. -/
def PeakOn (s : Set ℝ) (m : ℝ) (d : Fl → Bool → Fl) : Prop :=
  (∀ x ∈ s, ∀ y ∈ s, x < y → y ≤ m → ∀ b, d (fin x) b < d (fin y) b) ∧
    ∀ x ∈ s, ∀ y ∈ s, m ≤ x → x < y → ∀ b, d (fin y) b < d (fin x) b

/-- `d` falls strictly on `s` up to `m` and rises strictly after it. -/
def ValleyOn (s : Set ℝ) (m : ℝ) (d : Fl → Bool → Fl) : Prop :=
  (∀ x ∈ s, ∀ y ∈ s, x < y → y ≤ m → ∀ b, d (fin y) b < d (fin x) b) ∧
    ∀ x ∈ s, ∀ y ∈ s, m ≤ x → x < y → ∀ b, d (fin x) b < d (fin y) b

/-- Point probabilities do not fall up to `m` and do not rise after it. -/
def UnimodalZ (m : ℤ) (d : ℤ → Bool → Fl) : Prop :=
  (∀ j k : ℤ, j ≤ k → k ≤ m → ∀ b, d j b ≤ d k b) ∧ ∀ j k : ℤ, m ≤ j → j ≤ k → ∀ b, d k b ≤ d j b

end Stats.Spec
