import Verif.Model.Types

/-!
# Specification of the result types (C38)
-/

namespace Stats.Spec

/-- The type a call is expected to compute in and to return: the widest floating type among the
arguments, and `double` when there is none. -/
def resultTy (ts : List Ty) : Ty :=
  if Ty.ldouble ∈ ts then .ldouble
  else if Ty.double ∈ ts then .double
  else if Ty.float ∈ ts then .float
  else .double

/-- The least value of an integer type (LP64; `char` is signed). -/
def minVal : Ty → ℤ
  | .char | .schar => -2 ^ 7
  | .short => -2 ^ 15
  | .int => -2 ^ 31
  | .long | .llong => -2 ^ 63
  | _ => 0

/-- The greatest value of an integer type. -/
def maxVal : Ty → ℤ
  | .bool => 1
  | .char | .schar => 2 ^ 7 - 1
  | .uchar => 2 ^ 8 - 1
  | .short => 2 ^ 15 - 1
  | .ushort => 2 ^ 16 - 1
  | .int => 2 ^ 31 - 1
  | .uint => 2 ^ 32 - 1
  | .long | .llong => 2 ^ 63 - 1
  | .ulong | .ullong => 2 ^ 64 - 1
  | _ => 0

/-- The real number an argument stands for. -/
def Arg.IsReal (a : Arg) (r : ℝ) : Prop :=
  match a with
  | .int n => (n : ℝ) = r
  | .flt v => v = .fin r

end Stats.Spec
