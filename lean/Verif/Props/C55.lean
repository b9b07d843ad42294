import Verif.Spec.Work
import Verif.Model.Multi
import Verif.Model.Types
import Verif.Lemmas.RandIdeal
import Verif.Lemmas.ExactInst

/-!
# C55: how many random variates a call takes

Generators without a rejection loop take a fixed number of variates from the engine, for every library and engine, and
none if the parameters are invalid (`rinvgauss` has no check). With a rejection loop see `C55B`.
-/

set_option linter.unusedSectionVars false
open Classical

namespace Stats
open Fl Spec Vec MatOps
variable [Lib] {S : Type*} [Engine S]

theorem C55_runif (a b : Fl) :
    Draws (fun s : S => some (runif a b s)) (fun s => some (runif a b s)) (if unif_ok a b then 1 else 0) := by
  intro s m
  by_cases h : unif_ok a b
  · simp only [runif, h, not_true, if_false, if_true]; rfl
  · simp only [runif, h, not_false_iff, if_false, if_true]; rfl

theorem C55_rnorm (mu sigma : Fl) :
    Draws (fun s : S => some (rnorm mu sigma s)) (fun s => some (rnorm mu sigma s)) (if norm_ok mu sigma then 1 else 0) := by
  intro s m
  by_cases h : norm_ok mu sigma
  · simp only [rnorm, h, not_true, if_false, if_true]; rfl
  · simp only [rnorm, h, not_false_iff, if_false, if_true]; rfl

/-- the uniform variate behind the inverse-transform generators -/
theorem counting_runif01 (s : S) (m : ℕ) :
    runif 0 1 (⟨s, m⟩ : Counting S) = ((runif 0 1 s).1, ⟨(runif 0 1 s).2, m + 1⟩) := by
  have h := C55_runif (S := S) 0 1 s m
  have ok : unif_ok (0 : Fl) 1 := by simp [unif_ok]
  rw [if_pos ok] at h
  exact Option.some.inj h

theorem counting_rnorm01 (s : S) (m : ℕ) :
    rnorm 0 1 (⟨s, m⟩ : Counting S) = ((rnorm 0 1 s).1, ⟨(rnorm 0 1 s).2, m + 1⟩) := by
  have h := C55_rnorm (S := S) 0 1 s m
  have ok : norm_ok (0 : Fl) 1 := by simp [norm_ok]
  rw [if_pos ok] at h
  exact Option.some.inj h

theorem C55_rcauchy (mu sigma : Fl) :
    Draws (fun s : S => some (rcauchy mu sigma s)) (fun s => some (rcauchy mu sigma s)) (if cauchy_ok mu sigma then 1 else 0) := by
  intro s m
  by_cases h : cauchy_ok mu sigma
  · simp only [rcauchy, h, not_true, if_false, if_true, counting_runif01]; rfl
  · simp only [rcauchy, h, not_false_iff, if_false, if_true]; rfl

theorem C55_rlaplace (mu sigma : Fl) :
    Draws (fun s : S => some (rlaplace mu sigma s)) (fun s => some (rlaplace mu sigma s)) (if laplace_ok mu sigma then 1 else 0) := by
  intro s m
  by_cases h : laplace_ok mu sigma
  · simp only [rlaplace, h, not_true, if_false, if_true, counting_runif01]; rfl
  · simp only [rlaplace, h, not_false_iff, if_false, if_true]; rfl

theorem C55_rlogis (mu sigma : Fl) :
    Draws (fun s : S => some (rlogis mu sigma s)) (fun s => some (rlogis mu sigma s)) (if logis_ok mu sigma then 1 else 0) := by
  intro s m
  by_cases h : logis_ok mu sigma
  · simp only [rlogis, h, not_true, if_false, if_true, counting_runif01]; rfl
  · simp only [rlogis, h, not_false_iff, if_false, if_true]; rfl

theorem C55_rexp (rate : Fl) :
    Draws (fun s : S => some (rexp rate s)) (fun s => some (rexp rate s)) (if exp_ok rate then 1 else 0) := by
  intro s m
  by_cases h : exp_ok rate
  · simp only [rexp, h, not_true, if_false, if_true, counting_runif01]; rfl
  · simp only [rexp, h, not_false_iff, if_false, if_true]; rfl

theorem C55_rweibull (shape scale : Fl) :
    Draws (fun s : S => some (rweibull shape scale s)) (fun s => some (rweibull shape scale s)) (if weibull_ok shape scale then 1 else 0) := by
  intro s m
  by_cases h : weibull_ok shape scale
  · simp only [rweibull, h, not_true, if_false, if_true, counting_runif01]; rfl
  · simp only [rweibull, h, not_false_iff, if_false, if_true]; rfl

theorem C55_rbern (prob : Fl) :
    Draws (fun s : S => some (rbern prob s)) (fun s => some (rbern prob s)) (if bern_ok prob then 1 else 0) := by
  intro s m
  by_cases h : bern_ok prob
  · simp only [rbern, h, not_true, if_false, if_true, counting_runif01]; rfl
  · simp only [rbern, h, not_false_iff, if_false, if_true]; rfl

theorem C55_rradem (prob : Fl) :
    Draws (fun s : S => some (rradem prob s)) (fun s => some (rradem prob s)) (if radem_ok prob then 1 else 0) := by
  intro s m
  by_cases h : radem_ok prob
  · simp only [rradem, h, not_true, if_false, if_true, counting_runif01]; rfl
  · simp only [rradem, h, not_false_iff, if_false, if_true]; rfl

theorem C55_rlnorm (mu sigma : Fl) :
    Draws (fun s : S => some (rlnorm mu sigma s)) (fun s => some (rlnorm mu sigma s)) (if lnorm_ok mu sigma then 1 else 0) := by
  intro s m
  by_cases h : lnorm_ok mu sigma
  · have hn := C55_rnorm (S := S) mu sigma s m
    rw [if_pos (show norm_ok mu sigma from h)] at hn
    simp only [rlnorm, h, not_true, if_false, if_true, Option.some.inj hn]; rfl
  · simp only [rlnorm, h, not_false_iff, if_false, if_true]; rfl

/-- two variates, also for parameters out of range -/
theorem C55_rinvgauss (mu lambda : Fl) :
    Draws (fun s : S => some (rinvgauss mu lambda s)) (fun s => some (rinvgauss mu lambda s)) 2 := by
  intro s m
  simp only [rinvgauss, counting_rnorm01, counting_runif01]; rfl

/-- one uniform variate, if the search of `qpois` ends -/
theorem C55_rpois (rate : Fl) : Draws (fun s : S => rpois rate s) (fun s => rpois rate s) (if pois_ok rate then 1 else 0) := by
  intro s m
  by_cases h : pois_ok rate
  · simp only [rpois, h, not_true, if_false, if_true, counting_runif01, Option.map_map]; rfl
  · simp only [rpois, h, not_false_iff, if_false, if_true]; rfl

theorem rbern_counting {prob : Fl} (h : bern_ok prob) (s : S) (m : ℕ) :
    rbern prob (⟨s, m⟩ : Counting S) = ((rbern prob s).1, ⟨(rbern prob s).2, m + 1⟩) := by
  have := C55_rbern (S := S) prob s m
  rw [if_pos h] at this
  exact Option.some.inj this

theorem rbinom_loop_counting {prob : Fl} (h : bern_ok prob) (n : ℕ) (ret : Fl) (s : S) (m : ℕ) :
    rbinom_loop prob n ret (⟨s, m⟩ : Counting S) =
      ((rbinom_loop prob n ret s).1, ⟨(rbinom_loop prob n ret s).2, m + n⟩) := by
  induction n generalizing ret s m with
  | zero => rfl
  | succ n ih => simp only [rbinom_loop, rbern_counting h, ih]; congr 2; omega

/-- one variate for each trial -/
theorem C55_rbinom (n : ℤ) (prob : Fl) :
    Draws (fun s : S => some (rbinom n prob s)) (fun s => some (rbinom n prob s))
      (if binom_ok n prob then n.toNat else 0) := by
  intro s m
  by_cases h : binom_ok n prob
  · have hb : bern_ok prob := ⟨h.1, h.2.1, h.2.2.2.1, h.2.2.2.2⟩
    simp only [rbinom, h, not_true, if_false, if_true, rbinom_loop_counting hb]; rfl
  · simp only [rbinom, h, not_false_iff, if_false, if_true]; rfl

theorem rnormVec_counting (K : ℕ) (s : S) (m : ℕ) :
    rnormVec K (⟨s, m⟩ : Counting S) = ((rnormVec K s).1, ⟨(rnormVec K s).2, m + K⟩) := by
  induction K generalizing s m with
  | zero => rfl
  | succ K ih => simp only [rnormVec, counting_rnorm01, ih]; congr 2; omega

/-- as many variates as the vector has entries, none if the dimensions do not match -/
theorem C55_rmvnorm [LinAlg] (be : Backend) {d K : ℕ} (mu : Fin d → Fl) (Sigma : Mat K K) (pre : Bool) :
    Draws (fun s : S => some (rmvnorm be mu Sigma pre s)) (fun s => some (rmvnorm be mu Sigma pre s))
      (if d = K then K else 0) := by
  intro s m
  by_cases h : d = K
  · subst h
    simp only [rmvnorm, ne_eq, not_true, dite_false, if_true, rnormVec_counting]; rfl
  · simp only [rmvnorm, ne_eq, h, not_false_iff, dite_true, if_false]; rfl

/-- `n` rows of `K` variates -/
theorem C55_rmvnorm_n [LinAlg] (be : Backend) (n : ℕ) {d K : ℕ} (pos : Fin n × Fin K ≃ Fin (n * K)) (mu : Fin d → Fl)
    (Sigma : Mat K K) (pre : Bool) :
    Draws (fun s : S => some (rmvnorm_n be n pos mu Sigma pre s)) (fun s => some (rmvnorm_n be n pos mu Sigma pre s))
      (if d = K then n * K else 0) := by
  intro s m
  by_cases h : d = K
  · subst h
    simp only [rmvnorm_n, ne_eq, not_true, dite_false, if_true, rnormVec_counting]; rfl
  · simp only [rmvnorm_n, ne_eq, h, not_false_iff, dite_true, if_false]; rfl

end Stats

namespace Stats.ExamplesC55
open Fl Spec Vec MatOps
open scoped Stats.Exact

/-- seven trials, seven variates; a rejected probability, none -/
example {S : Type*} [Engine S] : Draws (fun s : S => some (rbinom 7 (fin (1 / 3)) s)) (fun s => some (rbinom 7 (fin (1 / 3)) s)) 7 := by
  have := C55_rbinom (S := S) 7 (fin (1 / 3))
  rwa [if_pos (by simp [binom_ok, ideal]; norm_num)] at this

example {S : Type*} [Engine S] : Draws (fun s : S => some (rexp (fin 3) s)) (fun s => some (rexp (fin 3) s)) 1 := by
  have := C55_rexp (S := S) (fin 3)
  rwa [if_pos (by simp [exp_ok])] at this

example {S : Type*} [Engine S] : Draws (fun s : S => some (rexp (fin (-3)) s)) (fun s => some (rexp (fin (-3)) s)) 0 := by
  have := C55_rexp (S := S) (fin (-3))
  rwa [if_neg (by simp [exp_ok])] at this

/-- four rows of three coordinates -/
example {S : Type*} [Engine S] [LinAlg] (pos : Fin 4 × Fin 3 ≃ Fin (4 * 3)) (mu : Fin 3 → Fl) (Sigma : Mat 3 3) :
    Draws (fun s : S => some (rmvnorm_n .arma 4 pos mu Sigma false s))
      (fun s => some (rmvnorm_n .arma 4 pos mu Sigma false s)) 12 :=
  C55_rmvnorm_n .arma 4 pos mu Sigma false

end Stats.ExamplesC55
