import Verif.Model.Rand
import Mathlib.Logic.Function.Basic

/-!
# Vector evaluation and vector random generation

`/repo/include/stats_incl/misc/internal_fns/statslib_defs.hpp` and `seed_values.hpp`. The OpenMP region is modelled as
a set of threads of control, one per iteration `j` of the `omp parallel for`, whose steps interleave in any order. (The
OpenMP runtime runs several iterations on one thread one after the other; these are some of the interleavings allowed
here.) A step reads one input element, advances one engine, or writes one output element; the accesses of every step
are recorded. An access outside the buffers is the outcome `ub`.
-/

open Classical

namespace Stats.Vec

/-! ## `ullint_t`: arithmetic modulo 2^64 -/

def wadd (a b : ℕ) : ℕ := (a + b) % 2 ^ 64
def wmul (a b : ℕ) : ℕ := (a * b) % 2 ^ 64
def wsub (a b : ℕ) : ℕ := (a + (2 ^ 64 - b % 2 ^ 64)) % 2 ^ 64

/-- `STATS_OMP_N_BLOCKS`, misc/statslib_options.hpp:99 -/
def nBlocks : ℕ := 4
/-- `STATS_OMP_MIN_N_PER_BLOCK`, misc/statslib_options.hpp:100 -/
def minPerBlock : ℕ := 4

/-- misc/internal_fns/statslib_defs.hpp:40-41, 79-80; `T` is `omp_get_max_threads()` -/
def nThreads (T : ℕ) : ℕ := min T nBlocks
/-- misc/internal_fns/statslib_defs.hpp:43, 82 -/
def perBlock (num T : ℕ) : ℕ := num / nThreads T
/-- misc/internal_fns/statslib_defs.hpp:44, 83 -/
def remainder (num T : ℕ) : ℕ := num % nThreads T
/-- misc/internal_fns/statslib_defs.hpp:60, 107 -/
def beginInd (num T : ℕ) : ℕ := wsub (wsub num (remainder num T)) 1

/-! ## Threads -/

/-- A memory location: input element, output element, element of `engines`. -/
inductive Loc
  | inp (i : ℕ)
  | out (i : ℕ)
  | eng (j : ℕ)

structure Access where
  loc : Loc
  write : Bool

/-- What a thread of control does next. `hang`: inside a scalar call that never returns. -/
inductive Outcome (σ : Type*)
  | done
  | hang
  | ub
  | next (acc : List Access) (s : σ)

/-- An execution: steps of the threads `0..n-1` in some order, with the accesses made. -/
inductive Run {σ : Type*} (step : ℕ → σ → Outcome σ) (n : ℕ) : σ → List (ℕ × List Access) → σ → Prop
  | nil (s : σ) : Run step n s [] s
  | cons {s s' s'' : σ} {j : ℕ} {acc : List Access} {tr : List (ℕ × List Access)} (hj : j < n)
      (hs : step j s = .next acc s') (ht : Run step n s' tr s'') : Run step n s ((j, acc) :: tr) s''

/-- The barrier at the end of the parallel region has been reached by all. -/
def Complete {σ : Type*} (step : ℕ → σ → Outcome σ) (n : ℕ) (s : σ) : Prop := ∀ j < n, step j s = .done

/-! ## `EVAL_DIST_FN_VEC` -/

variable {A V : Type*}

/-- Local variables of iteration `j`: the loop counter, and the value computed but not yet stored. -/
structure ELocal (V : Type*) where
  i : ℕ
  reg : Option V

/-- `out i = none`: element `i` not written. -/
structure EState (V : Type*) where
  out : ℕ → Option V
  loc : ℕ → ELocal V

/-- misc/internal_fns/statslib_defs.hpp:49-56, one step of iteration `j`. `f x = none` when the scalar function does
not return on `x`. -/
noncomputable def evalStep (f : A → Option V) (inp : ℕ → A) (num T : ℕ) (j : ℕ) (s : EState V) :
    Outcome (EState V) :=
  let block_dim := wmul j (perBlock num T)
  let l := s.loc j
  if l.i < perBlock num T then
    let idx := wadd l.i block_dim
    match l.reg with
    | none =>
      if idx < num then
        match f (inp idx) with
        | none => .hang
        | some v => .next [⟨.inp idx, false⟩] ⟨s.out, Function.update s.loc j ⟨l.i, some v⟩⟩
      else .ub
    | some v =>
      if idx < num then
        .next [⟨.out idx, true⟩] ⟨Function.update s.out idx (some v), Function.update s.loc j ⟨wadd l.i 1, none⟩⟩
      else .ub
  else .done

/-- The loops misc/internal_fns/statslib_defs.hpp:61-64, 67-70, 128-131 from index `i` on; `none` when a call does not
return. (`i < num` before each increment, so the counter cannot wrap.) -/
noncomputable def evalLoop (f : A → Option V) (inp : ℕ → A) (num i : ℕ) (out : ℕ → Option V) :
    Option (ℕ → Option V) :=
  if i < num then
    match f (inp i) with
    | none => none
    | some v => evalLoop f inp num (i + 1) (Function.update out i (some v))
  else some out
termination_by num - i

/-- Initial state of the parallel region. -/
def evalInit (out : ℕ → Option V) : EState V := ⟨out, fun _ => ⟨0, none⟩⟩

/-- misc/internal_fns/statslib_defs.hpp:37-72: `EvalVec f inp num T out tr out'`: with `T` available threads the macro
can turn the output buffer `out` into `out'`, the parallel region having made the steps `tr`. -/
inductive EvalVec (f : A → Option V) (inp : ℕ → A) (num T : ℕ) (out : ℕ → Option V) :
    List (ℕ × List Access) → (ℕ → Option V) → Prop
  | parallel {tr : List (ℕ × List Access)} {s : EState V} {out' : ℕ → Option V}
      (h : minPerBlock < perBlock num T)
      (hr : Run (evalStep f inp num T) (nThreads T) (evalInit out) tr s)
      (hc : Complete (evalStep f inp num T) (nThreads T) s)
      (hl : (if 0 < remainder num T then evalLoop f inp num (beginInd num T) s.out else some s.out) = some out') :
      EvalVec f inp num T out tr out'
  | serial {out' : ℕ → Option V} (h : ¬ minPerBlock < perBlock num T)
      (hl : evalLoop f inp num 0 out = some out') : EvalVec f inp num T out [] out'

/-- misc/internal_fns/statslib_defs.hpp:125-132, the build without OpenMP -/
noncomputable def evalVecSerial (f : A → Option V) (inp : ℕ → A) (num : ℕ) (out : ℕ → Option V) :
    Option (ℕ → Option V) := evalLoop f inp num 0 out

/-! ## `RAND_DIST_FN_VEC` -/

/-- A scalar generator as a program over the engine: from local state `l` and the engine it either returns a value or
continues. The parameters (`__VA_ARGS__`) are part of it. -/
structure Gen (V E : Type*) where
  L : Type
  init : L
  step : L → E → (V ⊕ L) × E

variable {E : Type*}

inductive Phase (g : Gen V E)
  | running (l : g.L)
  | have (v : V)

structure RLocal (g : Gen V E) where
  i : ℕ
  phase : Phase g

structure RState (g : Gen V E) where
  out : ℕ → Option V
  eng : ℕ → E
  loc : ℕ → RLocal g

/-- misc/internal_fns/statslib_defs.hpp:96-103, one step of iteration `j`; `engines` has `nThreads T` elements. -/
noncomputable def randStep (g : Gen V E) (num T : ℕ) (j : ℕ) (s : RState g) : Outcome (RState g) :=
  let block_dim := wmul j (perBlock num T)
  let l := s.loc j
  if l.i < perBlock num T then
    let idx := wadd l.i block_dim
    match l.phase with
    | .running p =>
      if j < nThreads T then
        match g.step p (s.eng j) with
        | (.inr p', e) => .next [⟨.eng j, false⟩, ⟨.eng j, true⟩]
            ⟨s.out, Function.update s.eng j e, Function.update s.loc j ⟨l.i, .running p'⟩⟩
        | (.inl v, e) => .next [⟨.eng j, false⟩, ⟨.eng j, true⟩]
            ⟨s.out, Function.update s.eng j e, Function.update s.loc j ⟨l.i, .have v⟩⟩
      else .ub
    | .have v =>
      if idx < num then
        .next [⟨.out idx, true⟩]
          ⟨Function.update s.out idx (some v), s.eng, Function.update s.loc j ⟨wadd l.i 1, .running g.init⟩⟩
      else .ub
  else .done

/-- A single call of the generator runs to its end. -/
inductive Gen.Runs (g : Gen V E) : g.L → E → V → E → Prop
  | ret {l : g.L} {e e' : E} {v : V} (h : g.step l e = (.inl v, e')) : Gen.Runs g l e v e'
  | go {l l' : g.L} {e e' e'' : E} {v : V} (h : g.step l e = (.inr l', e')) (t : Gen.Runs g l' e' v e'') :
      Gen.Runs g l e v e''

/-- The loops misc/internal_fns/statslib_defs.hpp:108-111, 114-117, 137-140 from index `i` on. -/
inductive RandLoop (g : Gen V E) (num : ℕ) : ℕ → E → (ℕ → Option V) → E → (ℕ → Option V) → Prop
  | stop {i : ℕ} {e : E} {out : ℕ → Option V} (h : ¬ i < num) : RandLoop g num i e out e out
  | go {i : ℕ} {e e' e'' : E} {v : V} {out out' : ℕ → Option V} (h : i < num) (hv : g.Runs g.init e v e')
      (t : RandLoop g num (i + 1) e' (Function.update out i (some v)) e'' out') : RandLoop g num i e out e'' out'

section seeds
variable [Lib] {S : Type*} [Engine S]
open Fl

/-- `static_cast<size_t>`: truncation; undefined for NaN, infinities, negative numbers (after truncation) and
numbers that do not fit. -/
noncomputable def toSize : Fl → Option ℕ
  | fin r => if -1 < r ∧ ⌊r⌋ < 2 ^ 64 then some ⌊r⌋₊ else none
  | _ => none

/-- misc/internal_fns/seed_values.hpp:29-34; `none`: undefined behaviour -/
noncomputable def generate_seed_value (ind_inp n_threads : ℕ) (s : S) : Option (ℕ × S) :=
  let us := runif 0 1 s
  (toSize ((us.1 + fin ind_inp + fin n_threads) * fin 1000)).map (fun v => (v, us.2))

/-- misc/internal_fns/statslib_defs.hpp:89-93, iterations `k..n-1`: the seeds and the final `engine_0` -/
noncomputable def seedLoop (n : ℕ) : ℕ → ℕ → S → Option (List ℕ × S)
  | 0, _, s => some ([], s)
  | m + 1, k, s => (generate_seed_value k n s).bind fun vs =>
      (seedLoop n m (k + 1) vs.2).map fun r => (vs.1 :: r.1, r.2)

/-- the seeds of the `n` engines -/
noncomputable def seeds (n : ℕ) (s : S) : Option (List ℕ × S) := seedLoop n n 0 s

/-- Initial state of the parallel region. -/
def randInit (g : Gen V S) (out : ℕ → Option V) (sd : List ℕ) : RState g :=
  ⟨out, fun j => Engine.seed (sd.getD j 0), fun _ => ⟨0, .running g.init⟩⟩

/-- misc/internal_fns/statslib_defs.hpp:76-119: with `T` available threads the macro can turn `engine_0 = s` and the
buffer `out` into `s'` and `out'`. -/
inductive RandVec (g : Gen V S) (num T : ℕ) (s : S) (out : ℕ → Option V) :
    List (ℕ × List Access) → S → (ℕ → Option V) → Prop
  | parallel {tr : List (ℕ × List Access)} {sd : List ℕ} {s' : S} {st : RState g} {e' : S} {out' : ℕ → Option V}
      (h : minPerBlock < perBlock num T)
      (hsd : seeds (nThreads T) s = some (sd, s'))
      (hr : Run (randStep g num T) (nThreads T) (randInit g out sd) tr st)
      (hc : Complete (randStep g num T) (nThreads T) st)
      (hl : (0 < remainder num T ∧ RandLoop g num (beginInd num T) (st.eng 0) st.out e' out') ∨
        (¬ 0 < remainder num T ∧ out' = st.out)) :
      RandVec g num T s out tr s' out'
  | serial {s' : S} {out' : ℕ → Option V} (h : ¬ minPerBlock < perBlock num T)
      (hl : RandLoop g num 0 s out s' out') : RandVec g num T s out [] s' out'

/-- misc/internal_fns/statslib_defs.hpp:134-141, the build without OpenMP -/
def RandVecSerial (g : Gen V S) (num : ℕ) (s : S) (out : ℕ → Option V) (s' : S) (out' : ℕ → Option V) : Prop :=
  RandLoop g num 0 s out s' out'

/-- A generator of `Model/Rand.lean` as one indivisible step (it loops when it does not return). -/
noncomputable def Gen.ofFun (r : S → Option (V × S)) : Gen V S where
  L := Unit
  init := ()
  step := fun _ s => match r s with
    | some (v, s') => (.inl v, s')
    | none => (.inr (), s)

end seeds
end Stats.Vec
