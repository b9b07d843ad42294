import Verif.Model.Rand
import Verif.Model.Vec

/-!
# Overloads with a seed

Every generator has an overload with `seed_val` in place of the engine, for a scalar and for a matrix. Each builds
`rand_engine_t engine(seed_val)` and calls the overload with the engine.
-/

namespace Stats
open Fl Vec
variable [Lib] {S : Type*} [Engine S]

/-- rand/rbern.ipp:42-46 -/
noncomputable def rbern_seed (p : Fl) (seed_val : ℕ) : Fl :=
  let engine : S := Engine.seed seed_val; (rbern p engine).1

/-- rand/rbeta.ipp:69-73 -/
noncomputable def rbeta_seed (a : Fl) (b : Fl) (seed_val : ℕ) : Option Fl :=
  let engine : S := Engine.seed seed_val; (rbeta a b engine).map Prod.fst

/-- rand/rbinom.ipp:52-56 -/
noncomputable def rbinom_seed (N : ℤ) (p : Fl) (seed_val : ℕ) : Fl :=
  let engine : S := Engine.seed seed_val; (rbinom N p engine).1

/-- rand/rcauchy.ipp:63-67 -/
noncomputable def rcauchy_seed (mu : Fl) (sigma : Fl) (seed_val : ℕ) : Fl :=
  let engine : S := Engine.seed seed_val; (rcauchy mu sigma engine).1

/-- rand/rchisq.ipp:55-59 -/
noncomputable def rchisq_seed (dof : Fl) (seed_val : ℕ) : Option Fl :=
  let engine : S := Engine.seed seed_val; (rchisq dof engine).map Prod.fst

/-- rand/rexp.ipp:55-59 -/
noncomputable def rexp_seed (rate : Fl) (seed_val : ℕ) : Fl :=
  let engine : S := Engine.seed seed_val; (rexp rate engine).1

/-- rand/rf.ipp:69-73 -/
noncomputable def rf_seed (df1 : Fl) (df2 : Fl) (seed_val : ℕ) : Option Fl :=
  let engine : S := Engine.seed seed_val; (rf df1 df2 engine).map Prod.fst

/-- rand/rgamma.ipp:100-104 -/
noncomputable def rgamma_seed (shape : Fl) (scale : Fl) (seed_val : ℕ) : Option Fl :=
  let engine : S := Engine.seed seed_val; (rgamma shape scale engine).map Prod.fst

/-- rand/rinvgamma.ipp:61-65 -/
noncomputable def rinvgamma_seed (shape : Fl) (rate : Fl) (seed_val : ℕ) : Option Fl :=
  let engine : S := Engine.seed seed_val; (rinvgamma shape rate engine).map Prod.fst

/-- rand/rinvgauss.ipp:78-82 -/
noncomputable def rinvgauss_seed (mu : Fl) (lambda : Fl) (seed_val : ℕ) : Fl :=
  let engine : S := Engine.seed seed_val; (rinvgauss mu lambda engine).1

/-- rand/rlaplace.ipp:63-67 -/
noncomputable def rlaplace_seed (mu : Fl) (sigma : Fl) (seed_val : ℕ) : Fl :=
  let engine : S := Engine.seed seed_val; (rlaplace mu sigma engine).1

/-- rand/rlnorm.ipp:63-67 -/
noncomputable def rlnorm_seed (mu : Fl) (sigma : Fl) (seed_val : ℕ) : Fl :=
  let engine : S := Engine.seed seed_val; (rlnorm mu sigma engine).1

/-- rand/rlogis.ipp:63-67 -/
noncomputable def rlogis_seed (mu : Fl) (sigma : Fl) (seed_val : ℕ) : Fl :=
  let engine : S := Engine.seed seed_val; (rlogis mu sigma engine).1

/-- rand/rnorm.ipp:68-72 -/
noncomputable def rnorm_seed (mu : Fl) (sigma : Fl) (seed_val : ℕ) : Fl :=
  let engine : S := Engine.seed seed_val; (rnorm mu sigma engine).1

/-- rand/rpois.ipp:55-59 -/
noncomputable def rpois_seed (rate : Fl) (seed_val : ℕ) : Option Fl :=
  let engine : S := Engine.seed seed_val; (rpois rate engine).map Prod.fst

/-- rand/rradem.ipp:42-46 -/
noncomputable def rradem_seed (p : Fl) (seed_val : ℕ) : Fl :=
  let engine : S := Engine.seed seed_val; (rradem p engine).1

/-- rand/rt.ipp:60-64 -/
noncomputable def rt_seed (dof : Fl) (seed_val : ℕ) : Option Fl :=
  let engine : S := Engine.seed seed_val; (rt dof engine).map Prod.fst

/-- rand/runif.ipp:69-73 -/
noncomputable def runif_seed (a : Fl) (b : Fl) (seed_val : ℕ) : Fl :=
  let engine : S := Engine.seed seed_val; (runif a b engine).1

/-- rand/rweibull.ipp:64-68 -/
noncomputable def rweibull_seed (shape : Fl) (scale : Fl) (seed_val : ℕ) : Fl :=
  let engine : S := Engine.seed seed_val; (rweibull shape scale engine).1

/-- The matrix overloads, for a container of `n*k` elements (Armadillo, Eigen): rand/
rbern.ipp:99-103, rbeta.ipp:126-130, rbinom.ipp:109-113, rcauchy.ipp:120-124, rchisq.ipp:112-116,
rexp.ipp:112-116, rf.ipp:126-130, rgamma.ipp:157-161, rinvgamma.ipp:118-122, rinvgauss.ipp:134-138,
rlaplace.ipp:120-124, rlnorm.ipp:119-123, rlogis.ipp:120-124, rnorm.ipp:132-136, rpois.ipp:112-116,
rradem.ipp:99-103, rt.ipp:117-121, runif.ipp:134-138, rweibull.ipp:121-125,
with misc/internal_fns/statslib_defs.hpp:213-221; `r` is the scalar generator with its parameters. -/
def mat_seed (r : S → Option (Fl × S)) (n k T seed_val : ℕ) (out : ℕ → Option Fl) (tr : List (ℕ × List Access))
    (engine' : S) (out' : ℕ → Option Fl) : Prop :=
  RandVec (Gen.ofFun r) (n * k) T (Engine.seed seed_val) out tr engine' out'

end Stats
