import Verif.Model.Vec
import Verif.Model.WrapTable

/-!
# Vector and matrix overloads: calls

The macros misc/internal_fns/statslib_defs.hpp:149-244, on containers with their memory layout. The scalar functions are
a parameter `sem`: `sem f x vs` is the value of the scalar function `f` at the point `x` with parameters `vs`, `none` when
the call does not return. Parameters are values of any type `P`; `konst n` is `sT(n)`.

Blaze evaluates `blaze::map` element by element here, in the order of the memory; its own thread pool is not modelled.
-/

namespace Stats.Wrap
open Vec

inductive Cont | stdvec | arma | blaze | eigen
  deriving DecidableEq

/-- A container: the element in row `i` and column `j` is at `pos i j`. A `std::vector` has one column. -/
structure Arr (V : Type*) where
  rows : ℕ
  cols : ℕ
  colMajor : Bool
  spacing : ℕ
  mem : ℕ → V

def Arr.pos {V : Type*} (X : Arr V) (i j : ℕ) : ℕ := if X.colMajor then j * X.spacing + i else i * X.spacing + j

/-- `X(i,j)` -/
def Arr.get {V : Type*} (X : Arr V) (i j : ℕ) : V := X.mem (X.pos i j)

/-- What each library guarantees about its containers. Eigen stores a matrix type with one row at compile time row by row,
all others column by column; both are allowed. -/
def Layout {V : Type*} (c : Cont) (X : Arr V) : Prop := match c with
  | .stdvec => X.cols = 1 ∧ X.colMajor = true ∧ X.spacing = X.rows
  | .arma => X.colMajor = true ∧ X.spacing = X.rows
  | .eigen => X.spacing = if X.colMajor then X.rows else X.cols
  | .blaze => (if X.colMajor then X.rows else X.cols) ≤ X.spacing

variable {A V P S : Type*}

/-- the overload a call selects: by name, container and number of parameters -/
def Row.Selected (r : Row) (fn : Name) (mac : Macro) (eng : Option Eng) (k : ℕ) : Prop :=
  r ∈ table ∧ r.fn = fn ∧ r.mac = mac ∧ r.eng = eng ∧ r.params.length = k

/-- the arguments of the inner call -/
def Row.forward (r : Row) (konst : ℕ → P) (vs : List P) : Option (List P) :=
  r.args.mapM fun
    | .par p => (r.params.zip vs).lookup p
    | .const n => some (konst n)

def Cont.distMacro : Cont → Macro
  | .stdvec => .stdvecDist
  | .arma => .armaDist
  | .blaze => .blazeDist
  | .eigen => .eigenDist

/-- `EVAL_DIST_FN_VEC` with OpenMP (`some T`: `omp_get_max_threads()`) or without -/
def EvalRun (f : A → Option V) (inp : ℕ → A) (num : ℕ) (omp : Option ℕ) (out out' : ℕ → Option V) : Prop :=
  match omp with
  | some T => ∃ tr, EvalVec f inp num T out tr out'
  | none => evalVecSerial f inp num out = some out'

/-- A call of `fn` on the container `X`. -/
inductive EvalCall (konst : ℕ → P) (sem : Name → A → List P → Option V) (omp : Option ℕ) :
    Cont → Name → Arr A → List P → Arr (Option V) → Prop
  /-- statslib_defs.hpp:149-165, 185-192: a fresh container of the same shape, filled through the memory of both; the
  macro calls `internal::` the name it is given -/
  | buffer {c : Cont} {fn : Name} {X : Arr A} {vs vs1 vs2 : List P} {r1 r2 : Row} {out : ℕ → Option V}
      (hc : c ≠ .blaze) (h1 : r1.Selected fn c.distMacro none vs.length) (f1 : r1.forward konst vs = some vs1)
      (i1 : r1.callee.suffix = .vec) (h2 : r2.Selected r1.callee .evalVec none vs1.length)
      (f2 : r2.forward konst vs1 = some vs2) (i2 : r2.callee.suffix = .scalar)
      (hr : EvalRun (fun x => sem r2.callee x vs2) X.mem (X.rows * X.cols) omp (fun _ => none) out) :
      EvalCall konst sem omp c fn X vs ⟨X.rows, X.cols, X.colMajor, X.spacing, out⟩
  /-- statslib_defs.hpp:178-183: `blaze::map` with a lambda that calls the name it is given, looked up in `stats`, where
  only the scalar functions can be found -/
  | map {fn : Name} {X : Arr A} {Y : Arr (Option V)} {vs vs1 : List P} {r1 : Row}
      (h1 : r1.Selected fn .blazeDist none vs.length) (f1 : r1.forward konst vs = some vs1)
      (i1 : r1.callee.suffix = .scalar) (hl : Layout .blaze Y) (hr : Y.rows = X.rows) (hk : Y.cols = X.cols)
      (hm : Y.colMajor = X.colMajor)
      (hv : ∀ i < X.rows, ∀ j < X.cols, sem r1.callee (X.get i j) vs1 = Y.get i j ∧ Y.get i j ≠ none) :
      EvalCall konst sem omp .blaze fn X vs Y

section rand
variable [Lib] [Engine S]

/-- `RAND_DIST_FN_VEC` with OpenMP or without -/
def RandRun (g : Gen V S) (num : ℕ) (omp : Option ℕ) (s : S) (out : ℕ → Option V) (s' : S) (out' : ℕ → Option V) :
    Prop :=
  match omp with
  | some T => ∃ tr, RandVec g num T s out tr s' out'
  | none => RandVecSerial g num s out s' out'

/-- which `_mat_check` takes the container, statslib_defs.hpp:223-244 -/
def Cont.randMacro : Cont → Macro
  | .stdvec => .stdvecRand
  | _ => .mainMat

/-- `mat_ops::resize(mat_out,n,k)` on an empty container, matrix_ops/resize.hpp:28-68. `std::vector::resize` is given the
product, computed in `ullint_t`. `none` stands for what is in the memory before a draw is written. -/
def Resized {V : Type*} (c : Cont) (n k : ℕ) (X : Arr (Option V)) : Prop :=
  Layout c X ∧ X.mem = (fun _ => none) ∧ match c with
    | .stdvec => X.rows = wmul n k
    | _ => X.rows = n ∧ X.cols = k

/-- number of elements handed to the generator: `X.size()`, or `n_rows(X)*spacing(X)` with matrix_ops/spacing.hpp -/
def randNum {V : Type*} (c : Cont) (X : Arr V) : ℕ := match c with
  | .stdvec => X.rows
  | .arma => wmul X.rows X.cols
  | .eigen => wmul X.rows X.cols
  | .blaze => wmul X.rows X.spacing

/-- A call `fn<mT>(n,k,vs...,engine)` that takes the engine from `s` to `s'`. `sem f vs` is the scalar generator. -/
inductive RandCall (konst : ℕ → P) (sem : Name → List P → Gen V S) (omp : Option ℕ) :
    Option Eng → Cont → Name → ℕ → ℕ → List P → S → S → Arr (Option V) → Prop
  /-- statslib_defs.hpp:213-227, 238-242 -/
  | buffer {e : Option Eng} {c : Cont} {fn : Name} {n k : ℕ} {vs vs1 vs2 vs3 : List P} {r1 r2 r3 : Row} {s s' : S}
      {X : Arr (Option V)} {out : ℕ → Option V} (hc : c ≠ .blaze)
      (h1 : r1.Selected fn .genMat e vs.length) (f1 : r1.forward konst vs = some vs1) (p1 : r1.passEng = true)
      (i1 : r1.callee.suffix = .matCheck) (hX : Resized c n k X)
      (h2 : r2.Selected r1.callee c.randMacro (some .engine) vs1.length) (f2 : r2.forward konst vs1 = some vs2)
      (p2 : r2.passEng = true) (i2 : r2.callee.suffix = .scalar)
      (h3 : r3.Selected { r2.callee with suffix := .vec } .randVec (some .engine) vs2.length)
      (f3 : r3.forward konst vs2 = some vs3) (p3 : r3.passEng = true) (i3 : r3.callee.suffix = .scalar)
      (hr : RandRun (sem r3.callee vs3) (randNum c X) omp s X.mem s' out) :
      RandCall konst sem omp e c fn n k vs s s' { X with mem := out }
  /-- statslib_defs.hpp:213-221, 230-234: `X = blaze::map(X, ...)` -/
  | map {e : Option Eng} {fn : Name} {n k : ℕ} {vs vs1 vs2 : List P} {r1 r2 : Row} {s s' : S} {X Y : Arr (Option V)}
      {vals : ℕ → Option V}
      (h1 : r1.Selected fn .genMat e vs.length) (f1 : r1.forward konst vs = some vs1) (p1 : r1.passEng = true)
      (i1 : r1.callee.suffix = .matCheck) (hX : Resized .blaze n k X)
      (h2 : r2.Selected r1.callee .mainMat (some .engine) vs1.length) (f2 : r2.forward konst vs1 = some vs2)
      (p2 : r2.passEng = true) (i2 : r2.callee.suffix = .scalar)
      (hr : RandVecSerial (sem r2.callee vs2) (n * k) s (fun _ => none) s' vals)
      (hY : Layout .blaze Y) (hrow : Y.rows = X.rows) (hcol : Y.cols = X.cols) (hm : Y.colMajor = X.colMajor)
      (hv : ∀ i < n, ∀ j < k, Y.get i j = vals (if Y.colMajor then j * n + i else i * k + j)) :
      RandCall konst sem omp e .blaze fn n k vs s s' Y

/-- the overload with a seed: the body makes the engine -/
def RandCallSeed (konst : ℕ → P) (sem : Name → List P → Gen V S) (omp : Option ℕ) (c : Cont) (fn : Name) (n k : ℕ)
    (vs : List P) (seed_val : ℕ) (Y : Arr (Option V)) : Prop :=
  ∃ s' : S, RandCall konst sem omp (some .seed) c fn n k vs (Engine.seed seed_val) s' Y

end rand
end Stats.Wrap
