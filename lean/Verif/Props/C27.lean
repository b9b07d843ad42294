import Verif.Model.Seed
import Verif.Props.C24
import Verif.Lemmas.NextInst
import Verif.Lemmas.RandIdeal

/-!
# C27: the overloads with a seed

`SeedReplays`: a seed overload returns a value exactly if the overload with an engine does, on an engine in the
state that the constructor gives for this seed. In particular equal seeds give equal results.
-/

set_option linter.unusedSectionVars false
open Classical
namespace Stats
open Fl Vec

/-- `viaEngine v s`: the engine overload returns `v` on an engine in state `s`; `viaSeed v k`: the seed overload
returns `v` for the seed `k`. -/
structure Spec.SeedReplays {S V : Type*} [Engine S] (viaEngine : V → S → Prop) (viaSeed : V → ℕ → Prop) : Prop where
  replay : ∀ v k, viaSeed v k ↔ viaEngine v (Engine.seed k)
  functional : ∀ v w k, viaSeed v k → viaSeed w k → v = w
open Spec

variable [Lib] {S : Type*} [Engine S]

theorem seedReplays (r : S → Fl × S) (f : ℕ → Fl) (h : ∀ k, f k = (r (Engine.seed k)).1) :
    SeedReplays (fun v s => ∃ s', r s = (v, s')) (fun v k => f k = v) :=
  ⟨fun v k => by
    rw [h]
    constructor
    · rintro rfl; exact ⟨_, rfl⟩
    · rintro ⟨s', e⟩; rw [e], fun v w k h1 h2 => h1.symm.trans h2⟩

theorem seedReplays_opt (r : S → Option (Fl × S)) (f : ℕ → Option Fl) (h : ∀ k, f k = (r (Engine.seed k)).map Prod.fst) :
    SeedReplays (fun v s => ∃ s', r s = some (v, s')) (fun v k => f k = some v) :=
  ⟨fun v k => by
    rw [h, Option.map_eq_some_iff]
    constructor
    · rintro ⟨⟨a, s'⟩, e, rfl⟩; exact ⟨_, e⟩
    · rintro ⟨s', e⟩; exact ⟨_, e, rfl⟩, fun v w k h1 h2 => Option.some.inj (h1.symm.trans h2)⟩

theorem C27_rbern (p : Fl) : SeedReplays (fun v s => ∃ s', rbern p (s : S) = (v, s'))
    (fun v k => rbern_seed (S := S) p k = v) := seedReplays _ _ fun _ => rfl

theorem C27_rbeta (a : Fl) (b : Fl) : SeedReplays (fun v s => (∃ s', rbeta a b (s : S) = some (v, s')))
    (fun v k => rbeta_seed (S := S) a b k = some v) := seedReplays_opt _ _ fun _ => rfl

theorem C27_rbinom (N : ℤ) (p : Fl) : SeedReplays (fun v s => ∃ s', rbinom N p (s : S) = (v, s'))
    (fun v k => rbinom_seed (S := S) N p k = v) := seedReplays _ _ fun _ => rfl

theorem C27_rcauchy (mu : Fl) (sigma : Fl) : SeedReplays (fun v s => ∃ s', rcauchy mu sigma (s : S) = (v, s'))
    (fun v k => rcauchy_seed (S := S) mu sigma k = v) := seedReplays _ _ fun _ => rfl

theorem C27_rchisq (dof : Fl) : SeedReplays (fun v s => (∃ s', rchisq dof (s : S) = some (v, s')))
    (fun v k => rchisq_seed (S := S) dof k = some v) := seedReplays_opt _ _ fun _ => rfl

theorem C27_rexp (rate : Fl) : SeedReplays (fun v s => ∃ s', rexp rate (s : S) = (v, s'))
    (fun v k => rexp_seed (S := S) rate k = v) := seedReplays _ _ fun _ => rfl

theorem C27_rf (df1 : Fl) (df2 : Fl) : SeedReplays (fun v s => (∃ s', rf df1 df2 (s : S) = some (v, s')))
    (fun v k => rf_seed (S := S) df1 df2 k = some v) := seedReplays_opt _ _ fun _ => rfl

theorem C27_rgamma (shape : Fl) (scale : Fl) : SeedReplays (fun v s => (∃ s', rgamma shape scale (s : S) = some (v, s')))
    (fun v k => rgamma_seed (S := S) shape scale k = some v) := seedReplays_opt _ _ fun _ => rfl

theorem C27_rinvgamma (shape : Fl) (rate : Fl) : SeedReplays (fun v s => (∃ s', rinvgamma shape rate (s : S) = some (v, s')))
    (fun v k => rinvgamma_seed (S := S) shape rate k = some v) := seedReplays_opt _ _ fun _ => rfl

theorem C27_rinvgauss (mu : Fl) (lambda : Fl) : SeedReplays (fun v s => ∃ s', rinvgauss mu lambda (s : S) = (v, s'))
    (fun v k => rinvgauss_seed (S := S) mu lambda k = v) := seedReplays _ _ fun _ => rfl

theorem C27_rlaplace (mu : Fl) (sigma : Fl) : SeedReplays (fun v s => ∃ s', rlaplace mu sigma (s : S) = (v, s'))
    (fun v k => rlaplace_seed (S := S) mu sigma k = v) := seedReplays _ _ fun _ => rfl

theorem C27_rlnorm (mu : Fl) (sigma : Fl) : SeedReplays (fun v s => ∃ s', rlnorm mu sigma (s : S) = (v, s'))
    (fun v k => rlnorm_seed (S := S) mu sigma k = v) := seedReplays _ _ fun _ => rfl

theorem C27_rlogis (mu : Fl) (sigma : Fl) : SeedReplays (fun v s => ∃ s', rlogis mu sigma (s : S) = (v, s'))
    (fun v k => rlogis_seed (S := S) mu sigma k = v) := seedReplays _ _ fun _ => rfl

theorem C27_rnorm (mu : Fl) (sigma : Fl) : SeedReplays (fun v s => ∃ s', rnorm mu sigma (s : S) = (v, s'))
    (fun v k => rnorm_seed (S := S) mu sigma k = v) := seedReplays _ _ fun _ => rfl

theorem C27_rpois (rate : Fl) : SeedReplays (fun v s => (∃ s', rpois rate (s : S) = some (v, s')))
    (fun v k => rpois_seed (S := S) rate k = some v) := seedReplays_opt _ _ fun _ => rfl

theorem C27_rradem (p : Fl) : SeedReplays (fun v s => ∃ s', rradem p (s : S) = (v, s'))
    (fun v k => rradem_seed (S := S) p k = v) := seedReplays _ _ fun _ => rfl

theorem C27_rt (dof : Fl) : SeedReplays (fun v s => (∃ s', rt dof (s : S) = some (v, s')))
    (fun v k => rt_seed (S := S) dof k = some v) := seedReplays_opt _ _ fun _ => rfl

theorem C27_runif (a : Fl) (b : Fl) : SeedReplays (fun v s => ∃ s', runif a b (s : S) = (v, s'))
    (fun v k => runif_seed (S := S) a b k = v) := seedReplays _ _ fun _ => rfl

theorem C27_rweibull (shape : Fl) (scale : Fl) : SeedReplays (fun v s => ∃ s', rweibull shape scale (s : S) = (v, s'))
    (fun v k => rweibull_seed (S := S) shape scale k = v) := seedReplays _ _ fun _ => rfl

/-- Matrices: equal seeds, the same number of threads and the same buffer give equal elements, for every schedule of
the threads. -/
theorem C27_mat (r : S → Option (Fl × S)) {n k T seed_val : ℕ} (hn : n * k < 2 ^ 64) (hT : 0 < T)
    {out o1 o2 : ℕ → Option Fl} {t1 t2 : List (ℕ × List Access)} {s1 s2 : S}
    (h1 : mat_seed r n k T seed_val out t1 s1 o1) (h2 : mat_seed r n k T seed_val out t2 s2 o2) : o1 = o2 ∧ s1 = s2 :=
  C24_schedule_independent hn hT h1 h2

/-- A small matrix (or one thread) holds consecutive draws from the engine made from the seed. -/
theorem C27_mat_serial (r : S → Option (Fl × S)) {n k T seed_val : ℕ} (hb : ¬ minPerBlock < perBlock (n * k) T)
    {out out' : ℕ → Option Fl} {tr : List (ℕ × List Access)} {s' : S}
    (h : mat_seed r n k T seed_val out tr s' out') :
    ∃ vs : List Fl, vs.length = n * k ∧ Draws (Gen.ofFun r) (Engine.seed seed_val) vs s' ∧
      ∀ i < n * k, out' i = vs[i]? := by
  obtain ⟨vs, a, b, c, -⟩ := C24_serial hb h
  exact ⟨vs, a, b, c⟩

end Stats

namespace Stats.ExamplesC27
open Fl Spec
open scoped Stats.Exact

/-- two different seeds and two different results -/
example : rnorm_seed (S := Stream) (fin 0) (fin 1) 3 = fin 3 ∧ rnorm_seed (S := Stream) (fin 0) (fin 1) 4 = fin 4 := by
  refine ⟨((C27_rnorm (S := Stream) _ _).replay _ _).2 ?_, ((C27_rnorm (S := Stream) _ _).replay _ _).2 ?_⟩
  · exact ⟨_, rnorm01 rfl⟩
  · exact ⟨_, rnorm01 rfl⟩

end Stats.ExamplesC27
