import Mathlib.Data.EReal.Operations
import Mathlib.Algebra.Order.Floor.Ring
import Mathlib.Algebra.Order.Archimedean.Real.Basic

/-!
# Numbers

`Fl` is the value space of one C++ floating-point type: NaN, the two infinities and finite numbers
(real numbers; the sign of zero is not modelled).

`Lib` is the arithmetic of the type together with the math library the code calls
(`stmath`, i.e. gcem or `<cmath>`, see `misc/statslib_options.hpp:48-54`, and gcem itself).
Only a weak contract is assumed: rounding is monotone and odd and fixes small half-integers, and each
library function keeps its mathematical range. `MonoLib` adds monotonicity of the library functions.
-/

open Classical

namespace Stats

/-- Values of a C++ floating-point type (IEEE 754 without the sign of zero). -/
inductive Fl where
  | nan
  | ninf
  | fin (r : ℝ)
  | pinf

/-- Arithmetic and math library. A library function is given by its values at (suitable) finite
arguments; infinite results stand for overflow or for a pole. -/
class Lib where
  /-- rounding of an exact finite result -/
  rnd : ℝ → EReal
  rnd_mono : Monotone rnd
  rnd_neg : ∀ x, rnd (-x) = -rnd x
  rnd_half : ∀ n : ℤ, |n| ≤ 2 ^ 20 → rnd ((n : ℝ) / 2) = (((n : ℝ) / 2 : ℝ) : EReal)
  /-- `STLIM<T>::epsilon()` -/
  eps : ℝ
  eps_pos : 0 < eps
  eps_le : eps ≤ 1 / 1024
  rnd_eps : rnd eps = (eps : EReal)
  /-- `STLIM<T>::min()` -/
  minpos : ℝ
  minpos_pos : 0 < minpos
  /-- `std::nextafter(a,b)` for finite `a < b` -/
  next : ℝ → ℝ → ℝ
  next_ge : ∀ a b, a < b → a ≤ next a b
  next_le : ∀ a b, a < b → next a b ≤ b
  exp : ℝ → EReal
  exp_nonneg : ∀ x, 0 ≤ exp x
  exp_le_one : ∀ x, x ≤ 0 → exp x ≤ 1
  log : ℝ → EReal
  log_nonpos : ∀ x, 0 < x → x ≤ 1 → log x ≤ 0
  log_one : log 1 = 0
  expm1 : ℝ → EReal
  expm1_ge : ∀ x, -1 ≤ expm1 x
  expm1_nonpos : ∀ x, x ≤ 0 → expm1 x ≤ 0
  log1p : ℝ → EReal
  sqrt : ℝ → EReal
  sqrt_nonneg : ∀ x, 0 ≤ x → 0 ≤ sqrt x
  tan : ℝ → EReal
  atan : ℝ → EReal
  tanh : ℝ → EReal
  tanh_ge : ∀ x, -1 ≤ tanh x
  tanh_le : ∀ x, tanh x ≤ 1
  /-- `x` to the power `y`, `x > 0` -/
  pow : ℝ → ℝ → EReal
  pow_nonneg : ∀ x y, 0 < x → 0 ≤ pow x y
  /-- integral power -/
  powi : ℝ → ℕ → EReal
  powi_nonneg : ∀ x n, 0 ≤ x → 0 ≤ powi x n
  lgamma : ℝ → EReal
  erf : ℝ → EReal
  erf_ge : ∀ x, -1 ≤ erf x
  erf_le : ∀ x, erf x ≤ 1
  erfInv : ℝ → EReal
  /-- regularised lower incomplete gamma function, shape first -/
  igamma : ℝ → ℝ → EReal
  igamma_nonneg : ∀ a z, 0 ≤ igamma a z
  igamma_le : ∀ a z, igamma a z ≤ 1
  /-- inverse of `igamma a` -/
  igammaInv : ℝ → ℝ → EReal
  igammaInv_nonneg : ∀ a p, 0 ≤ igammaInv a p
  /-- regularised incomplete beta function -/
  ibeta : ℝ → ℝ → ℝ → EReal
  ibeta_nonneg : ∀ a b z, 0 ≤ ibeta a b z
  ibeta_le : ∀ a b z, ibeta a b z ≤ 1
  ibetaInv : ℝ → ℝ → ℝ → EReal
  ibetaInv_nonneg : ∀ a b p, 0 ≤ ibetaInv a b p
  ibetaInv_le : ∀ a b p, ibetaInv a b p ≤ 1
  /-- logarithm of the binomial coefficient -/
  lbinom : ℤ → ℤ → EReal
  /-- log of the multivariate gamma function `lmgamma(a, p)` -/
  lmgamma : ℝ → ℕ → EReal
  /-- `GCEM_PI` -/
  pi : ℝ
  pi_pos : 0 < pi
  atan_ge : ∀ x, ((-(pi / 2) : ℝ) : EReal) ≤ atan x
  atan_le : ∀ x, atan x ≤ ((pi / 2 : ℝ) : EReal)
  /-- `GCEM_LOG_2` -/
  log2 : ℝ
  /-- `GCEM_LOG_2PI` -/
  log2pi : ℝ
  /-- `GCEM_LOG_PI` -/
  logpi : ℝ
  /-- `GCEM_SQRT_2` -/
  sqrt2 : ℝ
  sqrt2_pos : 0 < sqrt2
  /-- `GCEM_SQRT_HALF_PI` -/
  sqrtHalfPi : ℝ

/-- The library functions are monotone where the mathematical ones are. -/
class MonoLib [Lib] : Prop where
  exp_mono : Monotone Lib.exp
  log_mono : MonotoneOn Lib.log (Set.Ioi 0)
  expm1_mono : Monotone Lib.expm1
  log1p_mono : MonotoneOn Lib.log1p (Set.Ioi (-1))
  sqrt_mono : MonotoneOn Lib.sqrt (Set.Ici 0)
  atan_mono : Monotone Lib.atan
  tanh_mono : Monotone Lib.tanh
  erf_mono : Monotone Lib.erf
  pow_mono : ∀ y, 0 ≤ y → MonotoneOn (fun x => Lib.pow x y) (Set.Ioi 0)
  igamma_mono : ∀ a, 0 < a → MonotoneOn (Lib.igamma a) (Set.Ici 0)
  ibeta_mono : ∀ a b, 0 < a → 0 < b → MonotoneOn (Lib.ibeta a b) (Set.Icc 0 1)

namespace Fl

/-- A rounded result as a floating-point value. -/
noncomputable def ofE (x : EReal) : Fl :=
  if x = ⊥ then ninf else if x = ⊤ then pinf else fin x.toReal

/-- Value of a non-NaN number. -/
noncomputable def toE : Fl → EReal
  | nan => 0
  | ninf => ⊥
  | fin r => (r : EReal)
  | pinf => ⊤

/-- Finite value, 0 otherwise. -/
noncomputable def toR : Fl → ℝ
  | fin r => r
  | _ => 0

/-- C++ literals and `T(k)` conversions of small constants. -/
noncomputable instance (n : ℕ) : OfNat Fl n := ⟨fin (n : ℝ)⟩

/-- `T(0.5)` -/
noncomputable def half : Fl := fin (1 / 2)

noncomputable instance : Neg Fl := ⟨fun x => match x with
  | nan => nan
  | ninf => pinf
  | fin r => fin (-r)
  | pinf => ninf⟩

/-- C++ `<`, false if an operand is NaN. -/
instance : LT Fl := ⟨fun x y => match x, y with
  | nan, _ => False
  | _, nan => False
  | ninf, ninf => False
  | ninf, _ => True
  | _, ninf => False
  | pinf, _ => False
  | fin _, pinf => True
  | fin a, fin b => a < b⟩

/-- C++ `<=`, false if an operand is NaN. -/
instance : LE Fl := ⟨fun x y => match x, y with
  | nan, _ => False
  | _, nan => False
  | ninf, _ => True
  | _, ninf => False
  | _, pinf => True
  | pinf, _ => False
  | fin a, fin b => a ≤ b⟩

/-- C++ `==`, false if an operand is NaN. -/
def feq (x y : Fl) : Prop := match x, y with
  | ninf, ninf => True
  | pinf, pinf => True
  | fin a, fin b => a = b
  | _, _ => False

@[inherit_doc] infix:50 " ==. " => feq

/-- Absolute value. -/
noncomputable def abs : Fl → Fl
  | nan => nan
  | ninf => pinf
  | pinf => pinf
  | fin r => fin |r|

section
variable [Lib]

/-- A decimal literal that need not be representable. -/
noncomputable def lit (r : ℝ) : Fl := ofE (Lib.rnd r)

/-- Conversion of an integer to the floating type. -/
noncomputable def ofInt (n : ℤ) : Fl := ofE (Lib.rnd (n : ℝ))

noncomputable instance : Add Fl := ⟨fun x y => match x, y with
  | nan, _ => nan
  | _, nan => nan
  | pinf, ninf => nan
  | ninf, pinf => nan
  | pinf, _ => pinf
  | _, pinf => pinf
  | ninf, _ => ninf
  | _, ninf => ninf
  | fin a, fin b => ofE (Lib.rnd (a + b))⟩

noncomputable instance : Sub Fl := ⟨fun x y => x + -y⟩

noncomputable instance : Mul Fl := ⟨fun x y => match x, y with
  | nan, _ => nan
  | _, nan => nan
  | pinf, pinf => pinf
  | pinf, ninf => ninf
  | ninf, pinf => ninf
  | ninf, ninf => pinf
  | pinf, fin r => if r = 0 then nan else if 0 < r then pinf else ninf
  | fin r, pinf => if r = 0 then nan else if 0 < r then pinf else ninf
  | ninf, fin r => if r = 0 then nan else if 0 < r then ninf else pinf
  | fin r, ninf => if r = 0 then nan else if 0 < r then ninf else pinf
  | fin a, fin b => ofE (Lib.rnd (a * b))⟩

/-- Division; a zero divisor counts as positive zero. -/
noncomputable instance : Div Fl := ⟨fun x y => match x, y with
  | nan, _ => nan
  | _, nan => nan
  | pinf, pinf => nan
  | pinf, ninf => nan
  | ninf, pinf => nan
  | ninf, ninf => nan
  | pinf, fin r => if 0 ≤ r then pinf else ninf
  | ninf, fin r => if 0 ≤ r then ninf else pinf
  | fin _, pinf => fin 0
  | fin _, ninf => fin 0
  | fin a, fin b =>
      if b = 0 then (if a = 0 then nan else if 0 < a then pinf else ninf)
      else ofE (Lib.rnd (a / b))⟩

/-! ### Library calls -/

noncomputable def eps : Fl := fin Lib.eps
noncomputable def minpos : Fl := fin Lib.minpos
noncomputable def PI : Fl := fin Lib.pi
noncomputable def LOG2 : Fl := fin Lib.log2
noncomputable def LOG2PI : Fl := fin Lib.log2pi
noncomputable def LOGPI : Fl := fin Lib.logpi
noncomputable def SQRT2 : Fl := fin Lib.sqrt2
noncomputable def SQRTHALFPI : Fl := fin Lib.sqrtHalfPi

noncomputable def exp : Fl → Fl
  | nan => nan
  | ninf => fin 0
  | pinf => pinf
  | fin r => ofE (Lib.exp r)

noncomputable def log : Fl → Fl
  | nan => nan
  | ninf => nan
  | pinf => pinf
  | fin r => if r < 0 then nan else if r = 0 then ninf else ofE (Lib.log r)

noncomputable def expm1 : Fl → Fl
  | nan => nan
  | ninf => fin (-1)
  | pinf => pinf
  | fin r => ofE (Lib.expm1 r)

noncomputable def log1p : Fl → Fl
  | nan => nan
  | ninf => nan
  | pinf => pinf
  | fin r => if r < -1 then nan else if r = -1 then ninf else ofE (Lib.log1p r)

noncomputable def sqrt : Fl → Fl
  | nan => nan
  | ninf => nan
  | pinf => pinf
  | fin r => if r < 0 then nan else ofE (Lib.sqrt r)

noncomputable def tan : Fl → Fl
  | fin r => ofE (Lib.tan r)
  | _ => nan

noncomputable def atan : Fl → Fl
  | nan => nan
  | ninf => fin (-(Lib.pi / 2))
  | pinf => fin (Lib.pi / 2)
  | fin r => ofE (Lib.atan r)

noncomputable def tanh : Fl → Fl
  | nan => nan
  | ninf => fin (-1)
  | pinf => fin 1
  | fin r => ofE (Lib.tanh r)

/-- `pow(x,y)` with a floating exponent; NaN for a negative base (the code never takes an integral
power of a negative base this way). -/
noncomputable def pow (x y : Fl) : Fl := match x, y with
  | nan, _ => nan
  | _, nan => nan
  | fin a, fin b =>
      if a < 0 then nan
      else if a = 0 then (if b = 0 then fin 1 else if 0 < b then fin 0 else pinf)
      else ofE (Lib.pow a b)
  | fin a, pinf => if a < 0 then nan else if a < 1 then fin 0 else if a = 1 then fin 1 else pinf
  | fin a, ninf => if a < 0 then nan else if a < 1 then pinf else if a = 1 then fin 1 else fin 0
  | pinf, fin b => if b = 0 then fin 1 else if 0 < b then pinf else fin 0
  | pinf, pinf => pinf
  | pinf, ninf => fin 0
  | ninf, _ => nan

/-- `pow(x,n)` with a non-negative integral exponent. -/
noncomputable def powi (x : Fl) (n : ℕ) : Fl := match x with
  | nan => nan
  | pinf => if n = 0 then fin 1 else pinf
  | ninf => if n = 0 then fin 1 else if Even n then pinf else ninf
  | fin a => ofE (Lib.powi a n)

noncomputable def lgamma : Fl → Fl
  | nan => nan
  | ninf => pinf
  | pinf => pinf
  | fin r => ofE (Lib.lgamma r)

noncomputable def erf : Fl → Fl
  | nan => nan
  | ninf => fin (-1)
  | pinf => fin 1
  | fin r => ofE (Lib.erf r)

noncomputable def erfInv : Fl → Fl
  | fin r => if r < -1 ∨ 1 < r then nan else if r = -1 then ninf else if r = 1 then pinf
      else ofE (Lib.erfInv r)
  | _ => nan

noncomputable def igamma (a z : Fl) : Fl := match a, z with
  | nan, _ => nan
  | _, nan => nan
  | fin a, fin z => if a < 0 ∨ z < 0 then nan else ofE (Lib.igamma a z)
  | fin a, pinf => if a < 0 then nan else fin 1
  | pinf, fin z => if z < 0 then nan else fin 0
  | _, _ => nan

noncomputable def igammaInv (a p : Fl) : Fl := match a, p with
  | fin a, fin p => if a < 0 ∨ p < 0 ∨ 1 < p then nan else ofE (Lib.igammaInv a p)
  | _, _ => nan

noncomputable def ibeta (a b z : Fl) : Fl := match a, b, z with
  | fin a, fin b, fin z => if a < 0 ∨ b < 0 ∨ z < 0 ∨ 1 < z then nan else ofE (Lib.ibeta a b z)
  | _, _, _ => nan

noncomputable def ibetaInv (a b p : Fl) : Fl := match a, b, p with
  | fin a, fin b, fin p => if a < 0 ∨ b < 0 ∨ p < 0 ∨ 1 < p then nan else ofE (Lib.ibetaInv a b p)
  | _, _, _ => nan

noncomputable def lbinom (n k : ℤ) : Fl := ofE (Lib.lbinom n k)

end

/-- `gcem::sgn`, an `int`; 0 for NaN. -/
noncomputable def sgn : Fl → Fl
  | nan => fin 0
  | ninf => fin (-1)
  | pinf => fin 1
  | fin r => if 0 < r then fin 1 else if r < 0 then fin (-1) else fin 0

/-- `gcem::max` (`x < y ? y : x`). -/
noncomputable def max (x y : Fl) : Fl := if x < y then y else x

/-! ### `GCINT` predicates -/

def isNan (x : Fl) : Prop := x = nan
def isPosinf (x : Fl) : Prop := x = pinf
def isNeginf (x : Fl) : Prop := x = ninf
def isInf (x : Fl) : Prop := x = pinf ∨ x = ninf
def isFinite (x : Fl) : Prop := ∃ r, x = fin r

end Fl
end Stats
