import Verif.Model.Quant

/-!
# Random number generators

`/repo/include/stats_incl/rand/*.ipp`, scalar code. `S` is the state of the C++ engine
(`rand_engine_t`). A generator maps the state to a value and the next state; `none` stands for a
generator that never returns.
-/

open Classical

namespace Stats
open Fl

/-- The parts of `<random>` the library calls. -/
class Engine (S : Type*) where
  /-- `std::uniform_real_distribution<T>(a,b)(engine)`; nothing is assumed unless `a < b` are finite -/
  unif : Fl → Fl → S → Fl × S
  unif_mem : ∀ (a b : ℝ) (s : S), a < b → ∃ r, (unif (fin a) (fin b) s).1 = fin r ∧ a ≤ r ∧ r < b
  /-- `std::normal_distribution<T>(0,1)(engine)` with a fresh distribution object -/
  norm : S → ℝ × S
  /-- `rand_engine_t engine(seed_val)` -/
  seed : ℕ → S

/-- `std::nextafter(a,b)` moves away from `a`, and there are numbers between 0 and 1. -/
class NextLib [Lib] : Prop where
  next_gt : ∀ a b : ℝ, a < b → a < Lib.next a b
  next_lt_one : Lib.next 0 1 < 1

variable [Lib] {S : Type*} [Engine S]

/-- `std::nextafter` (from `-inf` it yields the lowest finite number, left open here). -/
noncomputable def nextafter (a b : Fl) : Fl := match a, b with
  | fin a, fin b => fin (Lib.next a b)
  | _, _ => a

/-! ## rand/runif.ipp, rand/rnorm.ipp -/

/-- rand/runif.ipp:34-46, 61-64 -/
noncomputable def runif (a b : Fl) (s : S) : Fl × S :=
  if ¬ unif_ok a b then (nan, s)
  else Engine.unif (nextafter a b) b s

/-- `runif<T>()`, rand/runif.ipp:78-81, with the seed taken from `std::random_device` (stats.hpp
default argument) -/
noncomputable def runif0 (S : Type*) [Engine S] (rd : ℕ) : Fl :=
  (runif 0 1 (Engine.seed rd : S)).1

/-- rand/rnorm.ipp:34-45 -/
noncomputable def rnorm (mu sigma : Fl) (s : S) : Fl × S :=
  if ¬ norm_ok mu sigma then (nan, s)
  else
    let zs := Engine.norm s
    (mu + sigma * fin zs.1, zs.2)

/-- `rnorm<T>()`, rand/rnorm.ipp:77-80 -/
noncomputable def rnorm0 (S : Type*) [Engine S] (rd : ℕ) : Fl :=
  (rnorm 0 1 (Engine.seed rd : S)).1

/-! ## Inverse-transform generators -/

/-- rand/rcauchy.ipp:34-40 -/
noncomputable def rcauchy (mu sigma : Fl) (s : S) : Fl × S :=
  if ¬ cauchy_ok mu sigma then (nan, s)
  else let us := runif 0 1 s; (qcauchy us.1 mu sigma, us.2)

/-- rand/rlaplace.ipp:34-40 -/
noncomputable def rlaplace (mu sigma : Fl) (s : S) : Fl × S :=
  if ¬ laplace_ok mu sigma then (nan, s)
  else let us := runif 0 1 s; (qlaplace us.1 mu sigma, us.2)

/-- rand/rlogis.ipp:34-40 -/
noncomputable def rlogis (mu sigma : Fl) (s : S) : Fl × S :=
  if ¬ logis_ok mu sigma then (nan, s)
  else let us := runif 0 1 s; (qlogis us.1 mu sigma, us.2)

/-- rand/rexp.ipp:34-40 -/
noncomputable def rexp (rate : Fl) (s : S) : Fl × S :=
  if ¬ exp_ok rate then (nan, s)
  else let us := runif 0 1 s; (qexp us.1 rate, us.2)

/-- rand/rweibull.ipp:34-40 -/
noncomputable def rweibull (shape scale : Fl) (s : S) : Fl × S :=
  if ¬ weibull_ok shape scale then (nan, s)
  else let us := runif 0 1 s; (qweibull us.1 shape scale, us.2)

/-- rand/rpois.ipp:34-40 -/
noncomputable def rpois (rate : Fl) (s : S) : Option (Fl × S) :=
  if ¬ pois_ok rate then some (nan, s)
  else let us := runif 0 1 s; (qpois us.1 rate).map (fun v => (v, us.2))

/-! ## Bernoulli, Rademacher, binomial -/

/-- rand/rbern.ipp:31-37, for a floating `T` (see `Verif/Model/Types.lean` for an integral `T`) -/
noncomputable def rbern (prob : Fl) (s : S) : Fl × S :=
  if ¬ bern_ok prob then (nan, s)
  else let us := runif 0 1 s; (if us.1 ≤ prob then 1 else 0, us.2)

/-- rand/rradem.ipp:31-37; `2 * bool - 1` is an `int` -/
noncomputable def rradem (prob : Fl) (s : S) : Fl × S :=
  if ¬ radem_ok prob then (nan, s)
  else let us := runif 0 1 s; (if us.1 ≤ prob then 1 else -1, us.2)

/-- rand/rbinom.ipp:41-44, the loop -/
noncomputable def rbinom_loop (prob : Fl) : ℕ → Fl → S → Fl × S
  | 0, ret, s => (ret, s)
  | n + 1, ret, s => let bs := rbern prob s; rbinom_loop prob n (ret + bs.1) bs.2

/-- rand/rbinom.ipp:31-47 -/
noncomputable def rbinom (n : ℤ) (prob : Fl) (s : S) : Fl × S :=
  if ¬ binom_ok n prob then (nan, s) else rbinom_loop prob n.toNat 0 s

/-! ## rand/rgamma.ipp and what is built on it -/

/-- rand/rgamma.ipp:52-65, the rejection loop; returns `V` -/
noncomputable def rgamma_loop (d c : Fl) : ℕ → S → Option (Fl × S)
  | 0, _ => none
  | fuel + 1, s =>
      let zs := rnorm 0 1 s
      let Z := zs.1
      if Z > -1 / c then
        let V := powi (1 + c * Z) 3
        let us := runif 0 1 zs.2
        let check_2 := half * Z * Z + d * (1 - V + log V)
        if log us.1 < check_2 then some (V, us.2) else rgamma_loop d c fuel us.2
      else rgamma_loop d c fuel zs.2

/-- rand/rgamma.ipp:35-76 -/
noncomputable def rgamma_rec : ℕ → Fl → Fl → S → Option (Fl × S)
  | 0, _, _, _ => none
  | n + 1, shape, scale, s =>
      if ¬ gamma_ok shape scale then some (nan, s)
      else if shape > 1 then
        let d := shape - 1 / 3
        let c := 1 / 3 / sqrt d
        (runFuel (fun k => rgamma_loop d c k s)).map (fun vs => (d * vs.1 * scale, vs.2))
      else
        let us := runif 0 1 s
        (rgamma_rec n (1 + shape) scale us.2).map (fun gs => (gs.1 * pow us.1 (1 / shape), gs.2))

/-- rand/rgamma.ipp:35-76, 92-95 -/
noncomputable def rgamma (shape scale : Fl) (s : S) : Option (Fl × S) :=
  runFuel (fun n => rgamma_rec n shape scale s)

/-- rand/rchisq.ipp:34-40 -/
noncomputable def rchisq (dof : Fl) (s : S) : Option (Fl × S) :=
  if ¬ chisq_ok dof then some (nan, s) else rgamma (dof / 2) 2 s

/-- rand/rinvgamma.ipp:31-37 -/
noncomputable def rinvgamma (shape rate : Fl) (s : S) : Option (Fl × S) :=
  if ¬ invgamma_ok shape rate then some (nan, s)
  else (rgamma shape (1 / rate) s).map (fun gs => (1 / gs.1, gs.2))

/-- rand/rbeta.ipp:34-46 -/
noncomputable def rbeta (a b : Fl) (s : S) : Option (Fl × S) :=
  if ¬ beta_ok a b then some (nan, s)
  else (rgamma a 1 s).bind fun xs => (rgamma b 1 xs.2).map fun ys => (xs.1 / (xs.1 + ys.1), ys.2)

/-- rand/rf.ipp:34-46 -/
noncomputable def rf (df1 df2 : Fl) (s : S) : Option (Fl × S) :=
  if ¬ f_ok df1 df2 then some (nan, s)
  else (rchisq df1 s).bind fun xs => (rchisq df2 xs.2).map fun ys =>
    (df2 / df1 * xs.1 / ys.1, ys.2)

/-- rand/rt.ipp:34-45 -/
noncomputable def rt (dof : Fl) (s : S) : Option (Fl × S) :=
  if ¬ t_ok dof then some (nan, s)
  else
    let ns := rnorm 0 1 s
    (rchisq dof ns.2).map fun cs => (ns.1 / sqrt (cs.1 / dof), cs.2)

/-! ## rand/rlnorm.ipp, rand/rinvgauss.ipp -/

/-- rand/rlnorm.ipp:34-40 -/
noncomputable def rlnorm (mu sigma : Fl) (s : S) : Fl × S :=
  if ¬ lnorm_ok mu sigma then (nan, s)
  else let ns := rnorm mu sigma s; (exp ns.1, ns.2)

/-- rand/rinvgauss.ipp:34-55 (no parameter check) -/
noncomputable def rinvgauss (mu lambda : Fl) (s : S) : Fl × S :=
  let mu_sq := mu * mu
  let ns := rnorm 0 1 s
  let y := ns.1 * ns.1
  let x := mu + (mu_sq * y - mu * sqrt (4 * mu * lambda * y + mu_sq * y * y)) / (2 * lambda)
  let us := runif 0 1 ns.2
  let check_val := mu / (mu + x)
  (if us.1 ≤ check_val then x else mu_sq / x, us.2)

/-! ## Overloads with a seed -/

/-- The `seed_val` overloads (e.g. rand/runif.ipp:69-73) build an engine and call the main
overload. -/
noncomputable def withSeed {α : Type*} (g : S → α) (seed_val : ℕ) : α := g (Engine.seed seed_val)

end Stats
