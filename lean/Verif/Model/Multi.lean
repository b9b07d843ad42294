import Verif.Model.Rand
import Verif.Model.Vec
import Verif.Model.MatOps

/-!
# Multivariate densities and generators

`/repo/include/stats_incl/dens/{dmvnorm,dwish,dinvwish}.ipp` and `rand/{rmultinom,rmvnorm,rwish,rinvwish}.ipp`.
Vectors and matrices have the dimensions the code reads from its arguments; `printf` is left out.
-/

open Classical

namespace Stats
open Fl MatOps Vec

variable [Lib] {S : Type*} [Engine S]

/-! ## rand/rmultinom.ipp -/

/-- `ullint_t` to `llint_t` (two's complement) -/
def toSigned (n : ℕ) : ℤ := if n < 2 ^ 63 then n else (n : ℤ) - 2 ^ 64

/-- rand/rmultinom.ipp:47-55, iterations `j..` (`m` of them). `ret_sum += ret(j,0)` is computed in `eT` and converted back.
`none`: undefined behaviour of that conversion. -/
noncomputable def rmultinom_loop (n : ℕ) (prob csum : ℕ → Fl) : ℕ → ℕ → (ℕ → Fl) → ℕ → S → Option ((ℕ → Fl) × S)
  | 0, _, ret, _, s => some (ret, s)
  | m + 1, j, ret, ret_sum, s =>
    let p_j := prob j / (1 - csum (j - 1))
    let n_j := wsub n ret_sum
    let bs := rbinom (toSigned n_j) p_j s
    (toSize (ofInt ret_sum + bs.1)).bind fun sum' =>
      rmultinom_loop n prob csum m (j + 1) (Function.update ret j bs.1) sum' bs.2

/-- rand/rmultinom.ipp:25-61. `rd` is what `std::random_device` returns in the default argument of `rbinom(n_j,p_j)`
(rand/rbinom.hpp); `garbage` is the fresh vector `ret`. `none`: undefined behaviour (also `prob_vec(0,0)` of an
empty vector). -/
noncomputable def rmultinom (n : ℕ) (prob : ℕ → Fl) (rd : ℕ) (garbage : ℕ → Fl) (s : S) : Option ((ℕ → Fl) × S) :=
  if n = 0 then none
  else
    let csum := cumsum n prob
    let ret0 := (rbinom (toSigned n) (prob 0) (Engine.seed rd : S)).1
    let ret := Function.update garbage 0 ret0
    if 1 < n then (toSize ret0).bind fun sum => rmultinom_loop n prob csum (n - 1) 1 ret sum s
    else some (ret, s)

/-! ## rand/rmvnorm.ipp -/

/-- `rnorm<vT>(K,1,engine)`: `K` draws in the order of the memory (misc/internal_fns/statslib_defs.hpp:134-141, the build
without OpenMP; `Model/Vec.lean` has the parallel one). Armadillo's `arma::randn` is the same list of draws. -/
noncomputable def rnormVec : (K : ℕ) → S → (Fin K → Fl) × S
  | 0, s => (Fin.elim0, s)
  | K + 1, s =>
    let zs := rnorm 0 1 s
    let r := rnormVec K zs.2
    (Fin.cons zs.1 r.1, r.2)

variable [LinAlg]

/-- rand/rmvnorm.ipp:25-49, 53-78; `none`: the empty object -/
noncomputable def rmvnorm (be : Backend) {d K : ℕ} (mu : Fin d → Fl) (Sigma : Mat K K) (pre_chol : Bool) (s : S) :
    Option (Fin d → Fl) × S :=
  if h : d ≠ K then (none, s)
  else
    let A : Mat K K := if pre_chol then Sigma else chol be Sigma
    let zs := rnormVec K s
    let Az := MatOps.mulVec A zs.1
    (some fun i => mu i + Az (Fin.cast (not_not.1 h) i), zs.2)

/-- rand/rmvnorm.ipp:84-108, 112-137: `n` samples as rows. `pos` is the place of entry `(i,j)` in the memory of an `n × K`
matrix, the order of the draws. -/
noncomputable def rmvnorm_n (be : Backend) (n : ℕ) {d K : ℕ} (pos : Fin n × Fin K ≃ Fin (n * K)) (mu : Fin d → Fl)
    (Sigma : Mat K K) (pre_chol : Bool) (s : S) : Option (Mat n K) × S :=
  if h : d ≠ K then (none, s)
  else
    let A : Mat K K := if pre_chol then Sigma else chol be Sigma
    let zs := rnormVec (n * K) s
    let Z : Mat n K := fun i j => zs.1 (pos (i, j))
    let ZA := mmul Z (trans A)
    (some fun i j => mu (Fin.cast (not_not.1 h).symm j) + ZA i j, zs.2)

/-! ## rand/rwish.ipp, rand/rinvwish.ipp -/

/-- rand/rwish.ipp:46-48, 77-79; rinvwish.ipp the same: row `i`, columns `j..` -/
noncomputable def wish_row (i : ℕ) : ℕ → ℕ → Grid → S → Grid × S
  | 0, _, A, s => (A, s)
  | m + 1, j, A, s =>
    let zs := rnorm 0 1 s
    wish_row i m (j + 1) (Function.update A i (Function.update (A i) j zs.1)) zs.2

/-- rand/rwish.ipp:45-49, 76-80: rows `i..` -/
noncomputable def wish_lower : ℕ → ℕ → Grid → S → Grid × S
  | 0, _, A, s => (A, s)
  | m + 1, i, A, s => let r := wish_row i i 0 A s; wish_lower m (i + 1) r.1 r.2

/-- rand/rwish.ipp:51-53, 82-84: the diagonal from `i` on; `nu i` is `eT(nu_par-i)` -/
noncomputable def wish_diag (nu : ℕ → Fl) : ℕ → ℕ → Grid → S → Option (Grid × S)
  | 0, _, A, s => some (A, s)
  | m + 1, i, A, s => (rchisq (nu i) s).bind fun cs =>
    wish_diag nu m (i + 1) (Function.update A i (Function.update (A i) i (sqrt cs.1))) cs.2

/-- rand/rwish.ipp:42-53, 74-84 and rand/rinvwish.ipp:42-53, 76-86: the matrix `A` of the Bartlett decomposition -/
noncomputable def bartlett (K : ℕ) (nu : ℕ → Fl) (garbage : Grid) (s : S) : Option (Mat K K × S) :=
  let A := zeros_blaze K K garbage
  let r := wish_lower (K - 1) 1 A s
  (wish_diag nu K 0 r.1 r.2).map fun q => (fun i j => q.1 i j, q.2)

/-- `nu_par - i` for a floating `nu_par` -/
noncomputable def nuFloat (nu : Fl) (i : ℕ) : Fl := nu - ofInt i

/-- `nu_par - i` for `pT` an integral type of at most 64 bits: computed in `ullint_t` -/
noncomputable def nuInt (nu : ℕ) (i : ℕ) : Fl := ofInt (wsub nu i)

/-- rand/rwish.ipp:25-60, 63-91 -/
noncomputable def rwish (be : Backend) {K : ℕ} (Psi : Mat K K) (nu : ℕ → Fl) (pre_chol : Bool) (garbage : Grid) (s : S) :
    Option (Mat K K × S) :=
  let chol_Psi : Mat K K := if pre_chol then Psi else chol be Psi
  (bartlett K nu garbage s).map fun As =>
    let C := mmul chol_Psi As.1
    (mmul C (trans C), As.2)

/-- rand/rinvwish.ipp:25-62, 65-93 -/
noncomputable def rinvwish (be : Backend) {K : ℕ} (Psi : Mat K K) (nu : ℕ → Fl) (pre_inv_chol : Bool) (garbage : Grid)
    (s : S) : Option (Mat K K × S) :=
  let chol_Psi_inv : Mat K K := if pre_inv_chol then Psi else chol be (inv Psi)
  (bartlett K nu garbage s).map fun As =>
    let C := mmul chol_Psi_inv As.1
    (inv (mmul C (trans C)), As.2)

/-! ## dens/dmvnorm.ipp, dens/dwish.ipp, dens/dinvwish.ipp -/

/-- `gcem::lmgamma(a, p)` -/
noncomputable def lmgamma (a : Fl) (p : ℕ) : Fl := match a with
  | fin a => ofE (Lib.lmgamma a p)
  | _ => nan

/-- dens/dmvnorm.ipp:25-51; `max` is `std::numeric_limits<eT>::max()`, `K` the number of rows of `X` (the vectors and the
matrix agree in size, otherwise the matrix library throws) -/
noncomputable def dmvnorm (be : Backend) (max : Fl) {K : ℕ} (X mu : Fin K → Fl) (Sigma : Mat K K) (log_form : Bool) : Fl :=
  let cons_term := -half * ofInt K * LOG2PI
  let X_cent := fun i => X i - mu i
  let quad_term := quad_form be X_cent Sigma true
  let ret := cons_term - half * (log_det be Sigma + quad_term)
  if !log_form then
    let ret := exp ret
    if ret = pinf ∨ ret = ninf then max else ret
  else ret

/-- dens/dwish.ipp:25-49, 52-74; `nu` is `static_cast<eT>(nu_par)` and `nuK` the value of `nu_par-K-1` -/
noncomputable def dwish (be : Backend) {K : ℕ} (X Psi : Mat K K) (nu nuK : Fl) (log_form : Bool) : Fl :=
  let nu_par_d2 := nu / 2
  let lmg_term := lmgamma nu_par_d2 K
  let norm_term := -nu_par_d2 * log (det Psi) - nu_par_d2 * ofInt K * LOG2 - lmg_term
  let ret := norm_term + half * (nuK * log (det X) - trace (solve be Psi X))
  if !log_form then exp ret else ret

/-- `nu_par-K-1` for a floating `nu_par` -/
noncomputable def nuSubFloat (nu : Fl) (K : ℕ) : Fl := nu - ofInt K - 1

/-- `nu_par-K-1` for an integral `nu_par`: computed in `ullint_t` -/
noncomputable def nuSubInt (nu K : ℕ) : Fl := ofInt (wsub (wsub nu K) 1)

/-- dens/dinvwish.ipp:25-49, 52-74; `nuK` is the value of `nu_par+K+1` -/
noncomputable def dinvwish (be : Backend) {K : ℕ} (X Psi : Mat K K) (nu nuK : Fl) (log_form : Bool) : Fl :=
  let nu_par_d2 := nu / 2
  let lmg_term := lmgamma nu_par_d2 K
  let norm_term := nu_par_d2 * log_det be Psi - nu_par_d2 * ofInt K * LOG2 - lmg_term
  let ret := norm_term - half * (nuK * log_det be X + trace (solve be X Psi))
  if !log_form then exp ret else ret

/-- `nu_par+K+1` for a floating `nu_par` -/
noncomputable def nuAddFloat (nu : Fl) (K : ℕ) : Fl := nu + ofInt K + 1

/-- `nu_par+K+1` for an integral `nu_par` -/
noncomputable def nuAddInt (nu K : ℕ) : Fl := ofInt (wadd (wadd nu K) 1)

end Stats
