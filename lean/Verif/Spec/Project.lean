import Verif.Num

/-!
# Specification: calculations with the vectors and matrices that generators return

A program that takes a number, a vector or a matrix from a generator, reads its entries as reals and calculates a number,
a vector or a matrix from them; and one that does this with the results of two generators, the second one run with the
engine the first has left behind.
-/

namespace Stats.Spec
open Fl

/-- arrays of reals and the arrays of floating-point numbers they are stored in -/
class Shape (R : Type*) (F : outParam Type*) where
  /-- the array with the given entries -/
  emb : R → F
  inj : Function.Injective emb

instance : Shape ℝ Fl where
  emb := fin
  inj := fun _ _ h => Fl.fin.inj h

instance {ι R F : Type*} [Shape R F] : Shape (ι → R) (ι → F) where
  emb x i := Shape.emb (x i)
  inj := fun _ _ h => funext fun i => Shape.inj (congrFun h i)

variable {S R R' R'' F F' F'' : Type*} [Shape R F] [Shape R' F'] [Shape R'' F'']

open Classical in
/-- the real entries, if all entries are finite -/
noncomputable def entries (y : F) : Option R := if h : ∃ x : R, Shape.emb x = y then some h.choose else none

/-- `f` of one draw -/
noncomputable def via (f : R → R') (g : S → Option (F × S)) (s : S) : Option (F' × S) :=
  (g s).bind fun r => (entries (R := R) r.1).map fun x => (Shape.emb (f x), r.2)

/-- `op` of two successive draws -/
noncomputable def via₂ (op : R → R' → R'') (g : S → Option (F × S)) (h : S → Option (F' × S)) (s : S) : Option (F'' × S) :=
  (g s).bind fun r => (entries (R := R) r.1).bind fun x => via (op x) h r.2

end Stats.Spec
