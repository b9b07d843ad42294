import Verif.Model.Vec

/-!
# `blaze::map` with several threads

misc/internal_fns/statslib_defs.hpp:178-183 (densities) and 230-234 (generators) fill a Blaze matrix by assigning a
`blaze::map` expression to it. Blaze is not part of the repository. When it is built with threads, it divides a large
assignment among them: every thread computes the elements of its own part of the matrix, one after the other, calling the
lambda once for each, without any synchronisation between the threads. That is what this file models, for an arbitrary
division. (`Model/Wrap.lean` has the case of one thread.) Steps interleave in any order; a call of the density is one step,
a call of a generator has a load and a store of the engine for every step of the generator.
-/

namespace Stats.Vec

/-- The parts of the threads `0..n-1` together are the elements `0..num-1`, each once. -/
structure Division (num n : ℕ) (part : ℕ → List ℕ) : Prop where
  bound : ∀ j < n, ∀ i ∈ part j, i < num
  cover : ∀ i < num, ∃ j < n, i ∈ part j
  nodup : ∀ j < n, (part j).Nodup
  disjoint : ∀ j < n, ∀ k < n, j ≠ k → ∀ i ∈ part j, i ∉ part k

variable {A V E : Type*}

/-! ## Densities -/

/-- The output matrix, and for every thread the elements it has still to compute. -/
structure DMap (V : Type*) where
  out : ℕ → Option V
  todo : ℕ → List ℕ

/-- misc/internal_fns/statslib_defs.hpp:180, one element of thread `j`; `f x = none` when the scalar function does not
return on `x`. The parameters are captured by value. -/
def dmapStep (f : A → Option V) (inp : ℕ → A) (j : ℕ) (s : DMap V) : Outcome (DMap V) :=
  match s.todo j with
  | [] => .done
  | i :: r => match f (inp i) with
    | none => .hang
    | some v => .next [⟨.inp i, false⟩, ⟨.out i, true⟩]
        ⟨Function.update s.out i (some v), Function.update s.todo j r⟩

/-! ## Generators -/

/-- Where a thread is inside a call of the generator: before the load of the engine, between load and store (the state
loaded is in a register), or with the value in hand. -/
inductive MPhase (g : Gen V E)
  | before (l : g.L)
  | loaded (l : g.L) (e : E)
  | have (v : V)

structure MLocal (g : Gen V E) where
  todo : List ℕ
  phase : MPhase g

/-- misc/internal_fns/statslib_defs.hpp:232 captures by reference (`[&]`), so all threads use one engine. -/
structure MState (g : Gen V E) where
  out : ℕ → Option V
  eng : E
  loc : ℕ → MLocal g

/-- misc/internal_fns/statslib_defs.hpp:232-233, one step of thread `j` -/
def mapStep (g : Gen V E) (j : ℕ) (s : MState g) : Outcome (MState g) :=
  match (s.loc j).todo with
  | [] => .done
  | i :: r => match (s.loc j).phase with
    | .before l => .next [⟨.eng 0, false⟩] ⟨s.out, s.eng, Function.update s.loc j ⟨i :: r, .loaded l s.eng⟩⟩
    | .loaded l e => match g.step l e with
      | (.inr l', e') => .next [⟨.eng 0, true⟩] ⟨s.out, e', Function.update s.loc j ⟨i :: r, .before l'⟩⟩
      | (.inl v, e') => .next [⟨.eng 0, true⟩] ⟨s.out, e', Function.update s.loc j ⟨i :: r, .have v⟩⟩
    | .have v => .next [⟨.out i, true⟩]
        ⟨Function.update s.out i (some v), s.eng, Function.update s.loc j ⟨r, .before g.init⟩⟩

/-- Start of the assignment. -/
def mapInit (g : Gen V E) (out : ℕ → Option V) (e : E) (part : ℕ → List ℕ) : MState g :=
  ⟨out, e, fun j => ⟨part j, .before g.init⟩⟩

end Stats.Vec
