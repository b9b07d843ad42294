import Verif.Model.Types
import Verif.Model.Quant

/-!
# The unqualified `abs` of `qinvgauss`

quant/qinvgauss.ipp:60 calls `abs(dval)` without a namespace. `dval` has a floating type, so argument-dependent lookup
finds nothing, and ordinary lookup sees what the included headers put into the global namespace. misc/statslib_options.hpp
includes `<cmath>` (:52), `<limits>` and `<random>` (:64-65). The standard lets these headers declare nothing globally, only
`int abs(int)`, or the floating overloads too. The first choice does not compile; this file has the other two.
-/

open Classical
namespace Stats
open Fl

/-- Which declaration the unqualified name `abs` refers to. -/
inductive AbsDecl
  | floating
  | int
deriving DecidableEq

variable [Lib]

/-- The call `abs(dval)` with its result in the comparison `abs(dval) < STLIM<T>::min()`, quant/qinvgauss.ipp:60. With
`int abs(int)` the argument is truncated to a 32-bit integer and the result is converted to `T`; truncation out of range
and `abs(INT_MIN)` are undefined (`none`). -/
noncomputable def callAbs : AbsDecl → Fl → Option Fl
  | .floating, x => some (abs x)
  | .int, x => (toIntegral (-2 ^ 31) (2 ^ 31 - 1) x).bind fun n => if n = -2 ^ 31 then none else some (ofInt |n|)

/-- quant/qinvgauss.ipp:48-66, with the given meaning of `abs` -/
noncomputable def qinvgauss_iter_abs (o : AbsDecl) (p mu lambda : Fl) : ℕ → Fl → Option Fl
  | left, qn =>
      let dval := p - pinvgauss qn mu lambda false
      (callAbs o dval).bind fun v =>
        if v < minpos then some qn
        else match left with
          | 0 => some qn
          | left + 1 => qinvgauss_iter_abs o p mu lambda left (qn + dval / dinvgauss qn mu lambda false)

/-- quant/qinvgauss.ipp:81-108 with 72-76 -/
noncomputable def qinvgauss_abs (o : AbsDecl) (p mu lambda : Fl) : Option Fl :=
  if ¬ invgauss_ok mu lambda then some nan
  else if ¬ prob_val_ok p then some nan
  else if isPosinf lambda then some nan
  else if mu ==. 0 then some nan
  else if lambda ==. 0 then (if p ==. 1 then some pinf else some 0)
  else if p ==. 1 then some pinf
  else if p ==. 0 then some 0
  else qinvgauss_iter_abs o p mu lambda QINVGAUSS_MAX_ITER (invgauss_mode mu (mu / lambda))

end Stats
