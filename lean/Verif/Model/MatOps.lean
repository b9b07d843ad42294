import Verif.Num
import Mathlib.Data.Matrix.Basic
import Mathlib.LinearAlgebra.Matrix.Notation

/-!
# The matrix helpers

`/repo/include/stats_incl/misc/matrix_ops/*.hpp`. The helpers the library writes out as loops (std::vector, Blaze,
Eigen) are copied loop by loop over the raw memory they touch. A helper that forwards to one library call (Armadillo,
Eigen, LAPACK) is the field of `LinAlg` of the same name, or the sum the library documents; the order of summation inside
those libraries is taken to be left to right. Sizes are small enough for `n*k` not to wrap around.
-/

open Classical

namespace Stats.MatOps
open Fl

variable [Lib]

/-! ## accu, sqaccu, mean, var, sum_absdiff, cumsum -/

/-- matrix_ops/accu.hpp:28-39 -/
noncomputable def accu (X : List Fl) : Fl := X.foldl (fun s x => s + x) 0

/-- matrix_ops/accu.hpp:41-50 -/
noncomputable def sqaccu (X : List Fl) : Fl := X.foldl (fun s x => s + x * x) 0

/-- matrix_ops/mean.hpp:28-35, 48-55 -/
noncomputable def mean (X : List Fl) : Fl := accu X / ofInt X.length

/-- matrix_ops/var.hpp:28-37, 50-59, 62-71 (std::vector, Blaze, Eigen) -/
noncomputable def var (X : List Fl) : Fl :=
  let mean_val := mean X
  let sq_val := sqaccu X / ofInt X.length
  sq_val - mean_val * mean_val

/-- matrix_ops/var.hpp:40-47: `arma::var` with its default normalisation by `N-1` -/
noncomputable def var_arma (X : List Fl) : Fl :=
  let mean_val := mean X
  if X.length < 2 then 0
  else (X.foldl (fun s x => s + (x - mean_val) * (x - mean_val)) 0) / ofInt (X.length - 1)

/-- matrix_ops/sum_absdiff.hpp:37-40, iterations `i..`; `none`: read past the end of `Y` -/
noncomputable def sum_absdiff_loop (X Y : List Fl) : ℕ → ℕ → Fl → Option Fl
  | 0, _, val_out => some val_out
  | m + 1, i, val_out => match X[i]?, Y[i]? with
    | some x, some y => sum_absdiff_loop X Y m (i + 1) (val_out + Fl.abs (x - y))
    | _, _ => none

/-- matrix_ops/sum_absdiff.hpp:28-43 -/
noncomputable def sum_absdiff (X Y : List Fl) : Option Fl := sum_absdiff_loop X Y X.length 0 0

/-- matrix_ops/cumsum.hpp:39-42, 69-72, 89-92: the loop from `j` on, over the raw memory -/
noncomputable def cumsum_loop : ℕ → ℕ → (ℕ → Fl) → (ℕ → Fl)
  | 0, _, mem => mem
  | m + 1, j, mem => cumsum_loop m (j + 1) (Function.update mem j (mem j + mem (j - 1)))

/-- matrix_ops/cumsum.hpp:28-45, 78-95 on `n` contiguous elements -/
noncomputable def cumsum (n : ℕ) (mem : ℕ → Fl) : ℕ → Fl := cumsum_loop (n - 1) 1 mem

/-! ## Blaze matrices: padded storage -/

/-- `blaze::DynamicMatrix<eT,To>`: every row (row major) or column (column major) starts at a multiple of `spacing`. -/
structure BlazeMat where
  rows : ℕ
  cols : ℕ
  colMajor : Bool
  spacing : ℕ
  mem : ℕ → Fl
  spacing_le : (if colMajor then rows else cols) ≤ spacing

/-- `X(i,j)` -/
def BlazeMat.get (X : BlazeMat) (i j : ℕ) : Fl :=
  X.mem (if X.colMajor then j * X.spacing + i else i * X.spacing + j)

/-- matrix_ops/cumsum.hpp:58-75 -/
noncomputable def cumsum_blaze (X : BlazeMat) : BlazeMat :=
  { X with mem := cumsum_loop (X.rows * X.cols - 1) 1 X.mem }

/-! ## exp, log, fill, zeros, eye, get_row, repmat -/

/-- matrix_ops/exp.hpp:28-37 -/
noncomputable def exp (X : List Fl) : List Fl := X.map Fl.exp

/-- matrix_ops/log.hpp:28-37 -/
noncomputable def log (X : List Fl) : List Fl := X.map Fl.log

/-- matrix_ops/fill.hpp:28-35 -/
def fill (X : List Fl) (v : Fl) : List Fl := X.map fun _ => v

/-- `std::vector::resize(n, v)`: keeps the first elements, appends copies of `v`. -/
def vecResize (X : List Fl) (n : ℕ) (v : Fl) : List Fl := X.take n ++ List.replicate (n - X.length) v

/-- matrix_ops/zeros.hpp:28-35 -/
noncomputable def zeros (X : List Fl) (n k : ℕ) : List Fl := vecResize X (n * k) 0

/-- A matrix whose entries outside the valid range are whatever the memory holds. -/
abbrev Grid := ℕ → ℕ → Fl

/-- matrix_ops/zeros.hpp:48-56: the whole matrix is assigned; entries outside `n × k` are not part of it. -/
noncomputable def zeros_blaze (n k : ℕ) (X : Grid) : Grid := fun i j => if i < n ∧ j < k then 0 else X i j

/-- matrix_ops/eye.hpp:46-48, iterations `j..` -/
noncomputable def eye_loop : ℕ → ℕ → Grid → Grid
  | 0, _, X => X
  | m + 1, j, X => eye_loop m (j + 1) (Function.update X j (Function.update (X j) j 1))

/-- matrix_ops/eye.hpp:38-49 -/
noncomputable def eye_blaze (n : ℕ) (X : Grid) : Grid := eye_loop n 0 (zeros_blaze n n X)

/-- matrix_ops/get_row.hpp:38-47: a `1 × cols` matrix -/
def get_row_blaze (X : Grid) (cols i : ℕ) (garbage : Grid) : Grid :=
  fun r c => if r = 0 ∧ c < cols then X i c else garbage r c

/-- `submatrix(out, r0, c0, r, c) = v` -/
def setBlock (out : Grid) (r0 c0 r c : ℕ) (v : Grid) : Grid :=
  fun i j => if r0 ≤ i ∧ i < r0 + r ∧ c0 ≤ j ∧ j < c0 + c then v (i - r0) (j - c0) else out i j

/-- `submatrix(X, r0, c0, ·, ·)` as a value -/
def block (X : Grid) (r0 c0 : ℕ) : Grid := fun i j => X (r0 + i) (c0 + j)

/-- matrix_ops/repmat.hpp:49-51, iterations `j..` -/
def repmat_rows (X : Grid) (r c : ℕ) : ℕ → ℕ → Grid → Grid
  | 0, _, out => out
  | m + 1, j, out => repmat_rows X r c m (j + 1) (setBlock out (j * r) 0 r c X)

/-- matrix_ops/repmat.hpp:54-56, iterations `j..`: the source is the block that starts at column `X_cols` -/
def repmat_cols (r c N : ℕ) : ℕ → ℕ → Grid → Grid
  | 0, _, out => out
  | m + 1, j, out => repmat_cols r c N m (j + 1) (setBlock out 0 (j * c) (r * N) c (block out 0 c))

/-- matrix_ops/repmat.hpp:38-60 for an `r × c` matrix `X`; `garbage` is the fresh matrix (`DynamicMatrix(m,n)` leaves the
elements of built-in type uninitialised). `none`: Blaze throws, the submatrix does not fit. -/
def repmat_blaze (X : Grid) (r c N K : ℕ) (garbage : Grid) : Option Grid :=
  if 0 < N ∧ c * K < c then none
  else
    let out := repmat_rows X r c N 0 garbage
    some (if 1 < K then repmat_cols r c N K 0 out else out)

/-! ## Linear algebra on matrices of a fixed size -/

abbrev Mat (m n : ℕ) := Matrix (Fin m) (Fin n) Fl

/-- sum of the entries, left to right -/
noncomputable def vsum {n : ℕ} (f : Fin n → Fl) : Fl := accu (List.ofFn f)

/-- `A * B` -/
noncomputable def mmul {m n p : ℕ} (A : Mat m n) (B : Mat n p) : Mat m p := fun i j => vsum fun k => A i k * B k j

/-- `A * x` -/
noncomputable def mulVec {m n : ℕ} (A : Mat m n) (x : Fin n → Fl) : Fin m → Fl := fun i => vsum fun k => A i k * x k

/-- matrix_ops/trans.hpp:28-56 -/
def trans {m n : ℕ} (A : Mat m n) : Mat n m := fun i j => A j i

/-- matrix_ops/trace.hpp:28-56 -/
noncomputable def trace {n : ℕ} (A : Mat n n) : Fl := vsum fun i => A i i

/-- `dot(x, y)` -/
noncomputable def dot {n : ℕ} (x y : Fin n → Fl) : Fl := vsum fun i => x i * y i

/-- The dense solvers of Armadillo, Blaze (LAPACK) and Eigen. -/
class LinAlg [Lib] where
  /-- lower triangular Cholesky factor -/
  chol : {n : ℕ} → Mat n n → Mat n n
  inv : {n : ℕ} → Mat n n → Mat n n
  det : {n : ℕ} → Mat n n → Fl
  /-- `arma::solve`, `colPivHouseholderQr().solve` -/
  solve : {n m : ℕ} → Mat n n → Mat n m → Mat n m

inductive Backend
  | arma
  | blaze
  | eigen

variable [LinAlg]

/-- matrix_ops/chol.hpp:28-58. `blaze::potrf(Y,'L')` is LAPACK's `?potrf`, which overwrites the lower triangle of `Y` and does
not touch the entries strictly above the diagonal. -/
noncomputable def chol (be : Backend) {n : ℕ} (X : Mat n n) : Mat n n := match be with
  | .arma => LinAlg.chol X
  | .blaze => fun i j => if j ≤ i then LinAlg.chol X i j else X i j
  | .eigen => LinAlg.chol X

/-- matrix_ops/inv.hpp:28-56 -/
noncomputable def inv {n : ℕ} (X : Mat n n) : Mat n n := LinAlg.inv X

/-- matrix_ops/det.hpp:28-56 -/
noncomputable def det {n : ℕ} (X : Mat n n) : Fl := LinAlg.det X

/-- matrix_ops/solve.hpp:28-66 -/
noncomputable def solve (be : Backend) {n m : ℕ} (A : Mat n n) (B : Mat n m) : Mat n m := match be with
  | .arma => LinAlg.solve A B
  | .blaze => mmul (LinAlg.inv A) B
  | .eigen => LinAlg.solve A B

/-- a column vector as a matrix -/
def col {n : ℕ} (x : Fin n → Fl) : Mat n 1 := fun i _ => x i

/-- matrix_ops/quad_form.hpp:28-72 -/
noncomputable def quad_form (be : Backend) {n : ℕ} (x : Fin n → Fl) (A : Mat n n) (inv_A : Bool) : Fl := match be with
  | .arma => if inv_A then dot x (fun i => LinAlg.solve A (col x) i 0) else dot x (mulVec A x)
  | .blaze =>
    if inv_A then mmul (mmul (trans (col x)) (LinAlg.inv A)) (col x) 0 0
    else mmul (mmul (trans (col x)) A) (col x) 0 0
  | .eigen =>
    if inv_A then mmul (trans (col x)) (LinAlg.solve A (col x)) 0 0
    else mmul (mmul (trans (col x)) A) (col x) 0 0

/-- matrix_ops/log_det.hpp:28-64 -/
noncomputable def log_det (be : Backend) {n : ℕ} (X : Mat n n) : Fl := match be with
  | .arma => 2 * vsum fun i => Fl.log (chol .arma X i i)
  | .blaze => 2 * vsum fun i => Fl.log (chol .blaze X i i)
  | .eigen => vsum fun i => Fl.log (chol .eigen X i i) * 2

end Stats.MatOps
