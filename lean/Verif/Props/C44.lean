import Verif.Model.Wrap
import Verif.Props.C23
import Verif.Props.C24
import Verif.Lemmas.ExactInst
import Verif.Model.Dens
import Verif.Model.Prob

/-!
# C44: the vector and matrix overloads apply the scalar function to every entry

For every density, distribution, quantile and random function, every container, every shape and every thread schedule:
the result has the shape of the argument (or the shape asked for), and entry `(i,j)` is the scalar function of entry
`(i,j)` with the same parameters in the same order.

The Blaze overloads of the distribution and quantile functions do not: they name a function that cannot be found.
-/

set_option linter.unusedSectionVars false
namespace Stats.Spec
open Wrap

/-- `Y` is `f` applied to every entry of `X`. -/
structure IsMap {A V : Type*} (f : A → Option V) (X : Arr A) (Y : Arr (Option V)) : Prop where
  rows : Y.rows = X.rows
  cols : Y.cols = X.cols
  entry : ∀ i < X.rows, ∀ j < X.cols, Y.get i j = f (X.get i j) ∧ Y.get i j ≠ none

/-- Shape and storage order of an `n` by `k` result; a `std::vector` is flat. -/
def HasShape {V : Type*} (c : Cont) (n k : ℕ) (Y : Arr V) : Prop :=
  if c = .stdvec then Y.rows = n * k ∧ Y.cols = 1 else Y.rows = n ∧ Y.cols = k

/-- number of the entry `(i,j)` when the entries are listed in storage order -/
def entryNum {V : Type*} (Y : Arr V) (i j : ℕ) : ℕ := if Y.colMajor then j * Y.rows + i else i * Y.cols + j

end Stats.Spec

namespace Stats.Wrap
open Vec Spec

variable {A V P S : Type*}

/-! ## Passing on -/

theorem mapM_congr {α β : Type*} {f g : α → Option β} : ∀ {l : List α}, (∀ a ∈ l, f a = g a) → l.mapM f = l.mapM g
  | [], _ => rfl
  | a :: l, h => by
    rw [List.mapM_cons, List.mapM_cons, h a (by simp), mapM_congr (l := l) fun b hb => h b (by simp [hb])]

theorem lookup_all : ∀ (ps : List Par) (vs : List P), ps.Nodup → vs.length = ps.length →
    (ps.mapM fun p => (ps.zip vs).lookup p) = some vs
  | [], [], _, _ => rfl
  | p :: ps, v :: vs, hn, hl => by
    rw [List.nodup_cons] at hn
    have h := lookup_all ps vs hn.2 (by simpa using hl)
    rw [List.mapM_cons, mapM_congr (g := fun p => (ps.zip vs).lookup p), h]
    · simp
    · intro q hq
      have : (q == p) = false := by simpa using fun e : q = p => hn.1 (e ▸ hq)
      simp [List.lookup, this]

theorem forward_all {r : Row} (ha : r.args = r.params.map .par) (hn : r.params.Nodup) (konst : ℕ → P) {vs : List P}
    (hl : r.params.length = vs.length) : r.forward konst vs = some vs := by
  rw [Row.forward, ha, List.mapM_map]
  exact lookup_all _ _ hn hl.symm

/-- `rnorm<mT>(n,k,engine)` and `rnorm<mT>(n,k,seed)`, rand/rnorm.ipp -/
def IsStdNorm (r : Row) : Prop :=
  r.fn = ⟨.r, .norm, .scalar⟩ ∧ r.mac = .genMat ∧ r.params = [] ∧ r.args = [.const 0, .const 1]

instance : DecidablePred IsStdNorm := fun _ => by unfold IsStdNorm; infer_instance

/-- the function each macro call must name -/
def inner (r : Row) : Name := match r.mac with
  | .stdvecDist | .armaDist | .eigenDist => { r.fn with suffix := .vec }
  | .genMat => { r.fn with suffix := .matCheck }
  | _ => { r.fn with suffix := .scalar }

/-- Every overload passes all its parameters on, each once and in order; only `rnorm<mT>(n,k)` fills in 0 and 1. -/
theorem C44_forward : ∀ r ∈ table, (r.args = r.params.map .par ∧ r.params.Nodup) ∨ IsStdNorm r := by decide +kernel

/-- Every overload with an engine passes the engine on. -/
theorem C44_engine : ∀ r ∈ table, r.passEng = r.eng.isSome ∧ (r.eng.isSome ↔ r.fn.kind = .r) := by decide +kernel

/-- Every macro call names the function of the same distribution and the same kind, of the sort the macro expects, except
the Blaze overloads of the distribution and quantile functions. -/
theorem C44_callee : ∀ r ∈ table, r.callee = inner r ∨
    (r.mac = .blazeDist ∧ (r.fn.kind = .p ∨ r.fn.kind = .q) ∧ r.callee = { r.fn with suffix := .vec }) := by
  decide +kernel

/-- No two overloads have the same name, container, engine and number of parameters. -/
theorem C44_unique : table.Pairwise fun r r' => ¬ (r.fn = r'.fn ∧ r.mac = r'.mac ∧ r.eng = r'.eng ∧
    r.params.length = r'.params.length) := by decide +kernel

/-- The parameters of every overload have the names of the parameters of the scalar function, in the same order, except
that `rexp_mat_check` and `rpois_mat_check` say `dof_par` for the rate. -/
theorem C44_names : ∀ r ∈ table, IsStdNorm r ∨ (∃ s ∈ scalars, s.fn = { r.fn with suffix := .scalar } ∧
    s.params = r.params) ∨ ((r.fn = ⟨.r, .exp, .matCheck⟩ ∨ r.fn = ⟨.r, .pois, .matCheck⟩) ∧ r.params = [.dof]) := by
  decide +kernel

/-- Every density, distribution and quantile function has an overload for every container. -/
theorem C44_overloads : ∀ s ∈ scalars, s.fn.kind ≠ .r → ∀ m ∈ [Macro.stdvecDist, .armaDist, .blazeDist, .eigenDist],
    ∃ r ∈ table, r.fn = s.fn ∧ r.mac = m ∧ r.eng = none ∧ r.params = s.params := by decide +kernel

theorem vec_overloads : ∀ s ∈ scalars, s.fn.kind ≠ .r →
    ∃ r ∈ table, r.fn = { s.fn with suffix := .vec } ∧ r.mac = .evalVec ∧ r.eng = none ∧ r.params = s.params := by
  decide +kernel

theorem suffix_of : ∀ r ∈ table, (r.mac ∈ [Macro.stdvecDist, .armaDist, .blazeDist, .eigenDist, .genMat] →
    r.fn.suffix = .scalar) ∧ (r.mac = .evalVec ∨ r.mac = .randVec → r.fn.suffix = .vec) := by decide +kernel

theorem scalars_suffix : ∀ s ∈ scalars, s.fn.suffix = .scalar := by decide +kernel

/-! ## Evaluation -/

theorem Name.eta {f : Name} (h : f.suffix = .scalar) : { f with suffix := Suffix.scalar } = f := by
  cases f; simp_all

theorem selected_forward {r : Row} {fn : Name} {m : Macro} {e : Option Eng} {vs vs' : List P} {konst : ℕ → P}
    (h : r.Selected fn m e vs.length) (hm : m ≠ .genMat) (hf : r.forward konst vs = some vs') : vs' = vs := by
  obtain ⟨ht, _, hm', _, hl⟩ := h
  rcases C44_forward r ht with ⟨ha, hn⟩ | ⟨_, h2, _⟩
  · rw [forward_all ha hn konst hl] at hf
    exact (Option.some.inj hf).symm
  · exact absurd (hm'.symm.trans h2) hm

theorem selected_callee {r : Row} {fn : Name} {m : Macro} {e : Option Eng} {k : ℕ} (h : r.Selected fn m e k)
    (hm : m ≠ .blazeDist) : r.callee = inner r := by
  rcases C44_callee r h.1 with h' | h'
  · exact h'
  · exact absurd (h.2.2.1.symm.trans h'.1) hm

theorem EvalRun.spec {f : A → Option V} {inp : ℕ → A} {num : ℕ} {omp : Option ℕ} {out out' : ℕ → Option V}
    (hn : num < 2 ^ 64) (hT : ∀ T, omp = some T → 0 < T) (h : EvalRun f inp num omp out out') :
    ∀ i < num, out' i = f (inp i) ∧ out' i ≠ none := by
  cases omp with
  | none => exact (C23_serial h).1
  | some T =>
    obtain ⟨tr, h⟩ := h
    exact (C23_result hn (hT T rfl) h).1

theorem EvalRun.exists {f : A → Option V} {inp : ℕ → A} {num : ℕ} (omp : Option ℕ) (out : ℕ → Option V)
    (hn : num < 2 ^ 64) (hf : ∀ i < num, f (inp i) ≠ none) : ∃ out', EvalRun f inp num omp out out' := by
  cases omp with
  | none => exact evalLoop_total _ 0 out rfl hf
  | some T =>
    obtain ⟨tr, out', h⟩ := C23_terminates (T := T) hn hf out
    exact ⟨out', tr, h⟩

theorem pos_lt {X : Arr A} {c : Cont} (hc : c ≠ .blaze) (hl : Layout c X) {i j : ℕ} (hi : i < X.rows)
    (hj : j < X.cols) : X.pos i j < X.rows * X.cols := by
  have hs : X.spacing = if X.colMajor then X.rows else X.cols := by
    cases c with
    | stdvec => rw [hl.2.1, hl.2.2]; rfl
    | arma => rw [hl.1, hl.2]; rfl
    | eigen => exact hl
    | blaze => exact absurd rfl hc
  rw [Arr.pos]
  split_ifs with hm <;> rw [hs] <;> simp only [hm] <;> simp only [Bool.false_eq_true, ↓reduceIte]
  · calc j * X.rows + i < j * X.rows + X.rows := by omega
      _ = (j + 1) * X.rows := by ring
      _ ≤ X.cols * X.rows := Nat.mul_le_mul_right _ hj
      _ = _ := mul_comm _ _
  · calc i * X.cols + j < i * X.cols + X.cols := by omega
      _ = (i + 1) * X.cols := by ring
      _ ≤ _ := Nat.mul_le_mul_right _ hi

/-- Two container types never go through the same overload. -/
theorem C44_overload_of_container : Function.Injective Cont.distMacro := by
  intro a b; cases a <;> cases b <;> simp [Cont.distMacro]

/-- Whatever a call on a container returns, it is the scalar function applied to every entry: for every function, every
container, every layout the libraries allow, every number of threads and every schedule. -/
theorem C44_eval {konst : ℕ → P} {sem : Name → A → List P → Option V} {omp : Option ℕ} {c : Cont} {fn : Name}
    {X : Arr A} {vs : List P} {Y : Arr (Option V)} (hl : Layout c X) (hn : X.rows * X.cols < 2 ^ 64)
    (hT : ∀ T, omp = some T → 0 < T) (h : EvalCall konst sem omp c fn X vs Y) :
    IsMap (fun x => sem fn x vs) X Y ∧ Layout c Y := by
  cases h with
  | @buffer _ _ _ _ vs1 vs2 r1 r2 out hc h1 f1 i1 h2 f2 i2 hr =>
    have hg : c.distMacro ≠ .genMat := by cases c <;> simp [Cont.distMacro]
    have hb : c.distMacro ≠ .blazeDist := by cases c <;> simp_all [Cont.distMacro]
    obtain rfl := selected_forward h1 hg f1
    obtain rfl := selected_forward h2 (by simp) f2
    have hs : fn.suffix = .scalar := by
      rw [← h1.2.1]; refine (suffix_of r1 h1.1).1 ?_
      rw [h1.2.2.1]; cases c <;> simp_all [Cont.distMacro]
    have hcal : r2.callee = fn := by
      have e2 : r2.callee = { r2.fn with suffix := .scalar } := by
        rw [selected_callee h2 (by simp), inner, h2.2.2.1]
      have e1 : r1.callee = { fn with suffix := .vec } := by
        rw [selected_callee h1 hb, inner, h1.2.2.1, h1.2.1]
        cases c <;> simp_all [Cont.distMacro]
      rw [e2, h2.2.1, e1]
      exact Name.eta hs
    rw [hcal] at hr
    refine ⟨⟨rfl, rfl, fun i hi j hj => ?_⟩, ?_⟩
    · exact hr.spec hn hT _ (pos_lt hc hl hi hj)
    · cases c <;> exact hl
  | @map _ _ Y _ vs1 r1 h1 f1 i1 hl' hr hk hm hv =>
    obtain rfl := selected_forward h1 (by simp) f1
    have hs : fn.suffix = .scalar := by
      rw [← h1.2.1]; refine (suffix_of r1 h1.1).1 ?_
      rw [h1.2.2.1]; simp
    have hcal : r1.callee = fn := by
      rcases C44_callee r1 h1.1 with h' | ⟨_, _, h'⟩
      · rw [h', inner, h1.2.2.1, h1.2.1]; exact Name.eta hs
      · rw [h'] at i1; simp at i1
    rw [hcal] at hv
    exact ⟨⟨hr, hk, fun i hi j hj => ⟨(hv i hi j hj).1.symm, (hv i hi j hj).2⟩⟩, hl'⟩

/-- The `std::vector`, Armadillo and Eigen overloads of every density, distribution and quantile function return, on every
container on whose entries the scalar function returns. -/
theorem C44_eval_returns {konst : ℕ → P} {sem : Name → A → List P → Option V} {c : Cont} {X : Arr A} {vs : List P}
    (omp : Option ℕ) {s : ScalarSig} (hs : s ∈ scalars) (hk : s.fn.kind ≠ .r) (hv : vs.length = s.params.length)
    (hc : c ≠ .blaze) (hn : X.rows * X.cols < 2 ^ 64)
    (hf : ∀ m < X.rows * X.cols, sem s.fn (X.mem m) vs ≠ none) : ∃ Y, EvalCall konst sem omp c s.fn X vs Y := by
  obtain ⟨r1, t1, n1, m1, e1, p1⟩ := C44_overloads s hs hk c.distMacro (by cases c <;> simp [Cont.distMacro])
  obtain ⟨r2, t2, n2, m2, e2, p2⟩ := vec_overloads s hs hk
  have hb : c.distMacro ≠ .blazeDist := by cases c <;> simp_all [Cont.distMacro]
  have h1 : r1.Selected s.fn c.distMacro none vs.length := ⟨t1, n1, m1, e1, by rw [p1, hv]⟩
  have c1 : r1.callee = { s.fn with suffix := .vec } := by
    rw [selected_callee h1 hb, inner, m1, n1]
    cases c <;> simp_all [Cont.distMacro]
  have h2 : r2.Selected r1.callee .evalVec none vs.length := ⟨t2, by rw [n2, c1], m2, e2, by rw [p2, hv]⟩
  have c2 : r2.callee = s.fn := by
    rw [selected_callee h2 (by simp), inner, m2, n2]
    exact Name.eta (scalars_suffix s hs)
  have f1 : r1.forward konst vs = some vs := by
    rcases C44_forward r1 t1 with ⟨ha, hn⟩ | ⟨h', _⟩
    · exact forward_all ha hn konst (by rw [p1, hv])
    · rw [n1] at h'; exact absurd (by rw [h']) hk
  have f2 : r2.forward konst vs = some vs := by
    rcases C44_forward r2 t2 with ⟨ha, hn⟩ | ⟨h', _⟩
    · exact forward_all ha hn konst (by rw [p2, hv])
    · rw [n2] at h'; simp at h'
  obtain ⟨out, ho⟩ := EvalRun.exists (f := fun x => sem s.fn x vs) (inp := X.mem) omp (fun _ => none) hn hf
  exact ⟨_, .buffer hc h1 f1 (by rw [c1]) h2 f2 (by rw [c2]; exact scalars_suffix s hs) (by rw [c2]; exact ho)⟩

/-- So do the Blaze overloads of the density functions. -/
theorem C44_blaze_dens {konst : ℕ → P} {sem : Name → A → List P → Option V} {X : Arr A} {vs : List P}
    (omp : Option ℕ) {s : ScalarSig} (hs : s ∈ scalars) (hk : s.fn.kind = .d) (hv : vs.length = s.params.length)
    (hX : Layout .blaze X) (hf : ∀ i < X.rows, ∀ j < X.cols, sem s.fn (X.get i j) vs ≠ none) :
    ∃ Y, EvalCall konst sem omp .blaze s.fn X vs Y := by
  obtain ⟨r1, t1, n1, m1, e1, p1⟩ := C44_overloads s hs (by simp [hk]) .blazeDist (by simp)
  have h1 : r1.Selected s.fn .blazeDist none vs.length := ⟨t1, n1, m1, e1, by rw [p1, hv]⟩
  have c1 : r1.callee = s.fn := by
    rcases C44_callee r1 t1 with h' | ⟨_, h', _⟩
    · rw [h', inner, m1, n1]; exact Name.eta (scalars_suffix s hs)
    · rw [n1, hk] at h'; simp at h'
  have f1 : r1.forward konst vs = some vs := by
    rcases C44_forward r1 t1 with ⟨ha, hn⟩ | ⟨h', _⟩
    · exact forward_all ha hn konst (by rw [p1, hv])
    · rw [n1] at h'; rw [h'] at hk; simp at hk
  refine ⟨⟨X.rows, X.cols, X.colMajor, X.spacing, fun m => sem s.fn (X.mem m) vs⟩,
    .map h1 f1 (by rw [c1]; exact scalars_suffix s hs) hX rfl rfl rfl fun i hi j hj => ?_⟩
  rw [c1]
  exact ⟨rfl, hf i hi j hj⟩

/-- The Blaze overloads of the distribution and quantile functions never return anything: the name they call,
`pnorm_vec`, is not visible where they call it, so a program that uses one of them does not compile. -/
theorem C44_blaze_violated {konst : ℕ → P} {sem : Name → A → List P → Option V} {omp : Option ℕ} {fn : Name}
    (hk : fn.kind = .p ∨ fn.kind = .q) (X : Arr A) (vs : List P) (Y : Arr (Option V)) :
    ¬ EvalCall konst sem omp .blaze fn X vs Y := by
  intro h
  cases h with
  | buffer hc => exact hc rfl
  | @map _ _ _ _ _ r1 h1 _ i1 =>
    have key : ∀ r ∈ table, r.mac = .blazeDist → (r.fn.kind = .p ∨ r.fn.kind = .q) → r.callee.suffix = .vec := by
      decide +kernel
    rw [key r1 h1.1 h1.2.2.1 (by rw [h1.2.1]; exact hk)] at i1
    simp at i1

/-! ## Generation -/

section rand
variable [Lib] [Engine S]

/-- the parameters the scalar generator gets -/
def fullParams (konst : ℕ → P) (vs : List P) : List P := if vs.length = 0 then [konst 0, konst 1] else vs

theorem gen_forward {r : Row} {fn : Name} {e : Option Eng} {vs vs' : List P} {konst : ℕ → P}
    (h : r.Selected fn .genMat e vs.length) (hf : r.forward konst vs = some vs') : vs' = fullParams konst vs := by
  obtain ⟨ht, _, hm, _, hl⟩ := h
  have key : ∀ r ∈ table, r.mac = .genMat → r.params.length = 0 → IsStdNorm r := by decide +kernel
  rw [fullParams]
  split_ifs with h0
  · obtain ⟨_, _, _, h4⟩ := key r ht hm (hl.trans h0)
    rw [Row.forward, h4] at hf
    exact (Option.some.inj hf).symm
  · rcases C44_forward r ht with ⟨ha, hn⟩ | ⟨_, _, h3, _⟩
    · rw [forward_all ha hn konst hl] at hf
      exact (Option.some.inj hf).symm
    · rw [h3] at hl; exact absurd hl.symm h0

theorem gen_fn {r1 r2 : Row} {fn : Name} {e e' : Option Eng} {m : Macro} {k k' : ℕ} (h1 : r1.Selected fn .genMat e k)
    (h2 : r2.Selected r1.callee m e' k') (hm : m = .stdvecRand ∨ m = .mainMat) : r2.callee = fn := by
  have hs : fn.suffix = .scalar := by
    rw [← h1.2.1]; refine (suffix_of r1 h1.1).1 ?_
    rw [h1.2.2.1]; simp
  have e1 : r1.callee = { fn with suffix := .matCheck } := by
    rw [selected_callee h1 (by simp), inner, h1.2.2.1, h1.2.1]
  have e2 : r2.callee = { r2.fn with suffix := .scalar } := by
    rw [selected_callee h2 (by rcases hm with rfl | rfl <;> simp), inner, h2.2.2.1]
    rcases hm with rfl | rfl <;> rfl
  rw [e2, h2.2.1, e1]
  exact Name.eta hs

/-- A call of a generator for `std::vector`, Armadillo or Eigen is one call of the vector generator of C24 on all the
memory of a fresh container, with the scalar generator of the same name and the same parameters. -/
theorem C44_rand_run {konst : ℕ → P} {sem : Name → List P → Gen V S} {omp : Option ℕ} {e : Option Eng} {c : Cont}
    {fn : Name} {n k : ℕ} {vs : List P} {s s' : S} {Y : Arr (Option V)} (hc : c ≠ .blaze) (hn : n * k < 2 ^ 64)
    (h : RandCall konst sem omp e c fn n k vs s s' Y) :
    HasShape c n k Y ∧ Layout c Y ∧
      RandRun (sem fn (fullParams konst vs)) (n * k) omp s (fun _ => none) s' Y.mem := by
  cases h with
  | map => exact absurd rfl hc
  | @buffer _ _ _ _ _ vs1 vs2 vs3 r1 r2 r3 _ _ X out _ h1 f1 p1 i1 hX h2 f2 p2 i2 h3 f3 p3 i3 hr =>
    have hm : c.randMacro = .stdvecRand ∨ c.randMacro = .mainMat := by cases c <;> simp [Cont.randMacro]
    obtain rfl := gen_forward h1 f1
    obtain rfl := selected_forward h2 (by rcases hm with hm | hm <;> simp [hm]) f2
    obtain rfl := selected_forward h3 (by simp) f3
    have c2 := gen_fn h1 h2 hm
    have c3 : r3.callee = fn := by
      rw [selected_callee h3 (by simp), inner, h3.2.2.1, h3.2.1, c2]
      exact Name.eta (f := fn) (by rw [← c2]; exact i2)
    rw [c3] at hr
    have hmul : wmul n k = n * k := Nat.mod_eq_of_lt hn
    have hnum : randNum c X = n * k ∧ HasShape c n k X := by
      obtain ⟨hl, _, hX⟩ := hX
      cases c with
      | stdvec => simp only [hmul] at hX; exact ⟨hX, by simp [HasShape, hX, hl.1]⟩
      | arma => simp only at hX; exact ⟨by rw [randNum, hX.1, hX.2, hmul], by simp [HasShape, hX]⟩
      | eigen => simp only at hX; exact ⟨by rw [randNum, hX.1, hX.2, hmul], by simp [HasShape, hX]⟩
      | blaze => exact absurd rfl hc
    rw [hnum.1, hX.2.1] at hr
    exact ⟨hnum.2, by cases c <;> exact hX.1, hr⟩

theorem shape_size {c : Cont} {n k : ℕ} {Y : Arr V} (h : HasShape c n k Y) : Y.rows * Y.cols = n * k := by
  rw [HasShape] at h
  split_ifs at h <;> simp [h.1, h.2]

/-- Every entry of the result is a value, with any number of threads and any schedule. -/
theorem C44_rand {konst : ℕ → P} {sem : Name → List P → Gen V S} {omp : Option ℕ} {e : Option Eng} {c : Cont}
    {fn : Name} {n k : ℕ} {vs : List P} {s s' : S} {Y : Arr (Option V)} (hn : n * k < 2 ^ 64)
    (hT : ∀ T, omp = some T → 0 < T) (h : RandCall konst sem omp e c fn n k vs s s' Y) :
    HasShape c n k Y ∧ Layout c Y ∧ ∀ i < Y.rows, ∀ j < Y.cols, ∃ v, Y.get i j = some v := by
  by_cases hc : c = .blaze
  · subst hc
    cases h with
    | buffer hc => exact absurd rfl hc
    | @map _ _ _ _ vs1 vs2 r1 r2 _ _ X Y vals h1 f1 p1 i1 hX h2 f2 p2 i2 hr hY hrow hcol hm hv =>
      obtain ⟨ws, h3, h4, h5, _⟩ := C24_noomp hr
      have hs : HasShape .blaze n k Y := by simp [HasShape, hrow, hcol, hX.2.2.1, hX.2.2.2]
      refine ⟨hs, hY, fun i hi j hj => ?_⟩
      have hrw : Y.rows = n := hrow.trans hX.2.2.1
      have hcl : Y.cols = k := hcol.trans hX.2.2.2
      rw [hrw] at hi
      rw [hcl] at hj
      have hlt : (if Y.colMajor then j * n + i else i * k + j) < n * k := by
        split_ifs
        · calc j * n + i < j * n + n := by omega
            _ = (j + 1) * n := by ring
            _ ≤ k * n := Nat.mul_le_mul_right _ hj
            _ = _ := mul_comm _ _
        · calc i * k + j < i * k + k := by omega
            _ = (i + 1) * k := by ring
            _ ≤ _ := Nat.mul_le_mul_right _ hi
      exact ⟨_, by rw [hv i hi j hj, h5 _ hlt, List.getElem?_eq_getElem (by omega)]⟩
  · obtain ⟨hs, hl, hr⟩ := C44_rand_run hc hn h
    refine ⟨hs, hl, fun i hi j hj => ?_⟩
    have hp := pos_lt hc hl hi hj
    rw [shape_size hs] at hp
    cases omp with
    | some T =>
      obtain ⟨tr, hr⟩ := hr
      exact C24_fills hn (hT T rfl) hr _ hp
    | none =>
      obtain ⟨ws, h3, _, h5, _⟩ := C24_noomp hr
      exact ⟨_, by rw [Arr.get, h5 _ hp, List.getElem?_eq_getElem (by omega)]⟩

/-- Without OpenMP the entries are successive draws from the engine, in storage order. -/
theorem C44_rand_draws {konst : ℕ → P} {sem : Name → List P → Gen V S} {e : Option Eng} {c : Cont}
    {fn : Name} {n k : ℕ} {vs : List P} {s s' : S} {Y : Arr (Option V)} (hn : n * k < 2 ^ 64)
    (h : RandCall konst sem none e c fn n k vs s s' Y) :
    ∃ ws : List V, ws.length = n * k ∧ Draws (sem fn (fullParams konst vs)) s ws s' ∧
      ∀ i < Y.rows, ∀ j < Y.cols, Y.get i j = ws[entryNum Y i j]? := by
  by_cases hc : c = .blaze
  · subst hc
    cases h with
    | buffer hc => exact absurd rfl hc
    | @map _ _ _ _ vs1 vs2 r1 r2 _ _ X Y vals h1 f1 p1 i1 hX h2 f2 p2 i2 hr hY hrow hcol hm hv =>
      obtain rfl := gen_forward h1 f1
      obtain rfl := selected_forward h2 (by simp) f2
      rw [gen_fn h1 h2 (Or.inr rfl)] at hr
      obtain ⟨ws, h3, h4, h5, _⟩ := C24_noomp hr
      have hrw : Y.rows = n := hrow.trans hX.2.2.1
      have hcl : Y.cols = k := hcol.trans hX.2.2.2
      refine ⟨ws, h3, h4, fun i hi j hj => ?_⟩
      rw [hrw] at hi
      rw [hcl] at hj
      have hlt : (if Y.colMajor then j * n + i else i * k + j) < n * k := by
        split_ifs
        · calc j * n + i < j * n + n := by omega
            _ = (j + 1) * n := by ring
            _ ≤ k * n := Nat.mul_le_mul_right _ hj
            _ = _ := mul_comm _ _
        · calc i * k + j < i * k + k := by omega
            _ = (i + 1) * k := by ring
            _ ≤ _ := Nat.mul_le_mul_right _ hi
      rw [hv i hi j hj, h5 _ hlt, entryNum, hrw, hcl]
  · obtain ⟨hs, hl, hr⟩ := C44_rand_run hc hn h
    obtain ⟨ws, h3, h4, h5, _⟩ := C24_noomp hr
    refine ⟨ws, h3, h4, fun i hi j hj => ?_⟩
    have hp := pos_lt hc hl hi hj
    rw [shape_size hs] at hp
    have : Y.pos i j = entryNum Y i j := by
      have hsp : Y.spacing = if Y.colMajor then Y.rows else Y.cols := by
        cases c with
        | stdvec => rw [hl.2.1, hl.2.2]; rfl
        | arma => rw [hl.1, hl.2]; rfl
        | eigen => exact hl
        | blaze => exact absurd rfl hc
      rw [Arr.pos, entryNum, hsp]
      cases Y.colMajor <;> rfl
    rw [Arr.get, h5 _ hp, this]

/-- With OpenMP the result does not depend on the schedule. -/
theorem C44_rand_schedule {konst : ℕ → P} {sem : Name → List P → Gen V S} {T : ℕ} {e : Option Eng} {c : Cont}
    {fn : Name} {n k : ℕ} {vs : List P} {s s1 s2 : S} {Y1 Y2 : Arr (Option V)} (hc : c ≠ .blaze) (hn : n * k < 2 ^ 64)
    (hT : 0 < T) (hm : Y1.colMajor = Y2.colMajor) (h1 : RandCall konst sem (some T) e c fn n k vs s s1 Y1)
    (h2 : RandCall konst sem (some T) e c fn n k vs s s2 Y2) :
    s1 = s2 ∧ ∀ i < Y1.rows, ∀ j < Y1.cols, Y1.get i j = Y2.get i j := by
  obtain ⟨a1, l1, t1, r1⟩ := C44_rand_run hc hn h1
  obtain ⟨a2, l2, t2, r2⟩ := C44_rand_run hc hn h2
  obtain ⟨e1, e2⟩ := C24_schedule_independent hn hT r1 r2
  refine ⟨e2, fun i _ j _ => ?_⟩
  have hsp : ∀ {Y : Arr (Option V)}, Layout c Y → Y.spacing = if Y.colMajor then Y.rows else Y.cols := by
    intro Y hl
    cases c with
    | stdvec => rw [hl.2.1, hl.2.2]; rfl
    | arma => rw [hl.1, hl.2]; rfl
    | eigen => exact hl
    | blaze => exact absurd rfl hc
  have hr : Y1.rows = Y2.rows ∧ Y1.cols = Y2.cols := by
    rw [HasShape] at a1 a2
    split_ifs at a1 a2 <;> exact ⟨a1.1.trans a2.1.symm, a1.2.trans a2.2.symm⟩
  rw [Arr.get, Arr.get, e1, Arr.pos, Arr.pos, hsp l1, hsp l2, hm, hr.1, hr.2]

/-- The overload with a seed is the overload with an engine made from the seed. -/
theorem C44_seed {konst : ℕ → P} {sem : Name → List P → Gen V S} {omp : Option ℕ} {c : Cont} {fn : Name} {n k : ℕ}
    {vs : List P} {seed_val : ℕ} {Y : Arr (Option V)} :
    RandCallSeed konst sem omp c fn n k vs seed_val Y ↔
      ∃ s' : S, RandCall konst sem omp (some .engine) c fn n k vs (Engine.seed seed_val) s' Y := by
  have key : ∀ e ∈ [Eng.engine, Eng.seed], ∀ r ∈ table, r.mac = .genMat → ∃ r' ∈ table, r'.mac = .genMat ∧
      r'.fn = r.fn ∧ r'.eng = some e ∧ r'.params = r.params ∧ r'.args = r.args ∧ r'.callee = r.callee ∧
      r'.passEng = r.passEng := by decide +kernel
  have swap : ∀ {e : Option Eng} (e' : Eng) {s s' : S}, RandCall konst sem omp e c fn n k vs s s' Y →
      RandCall konst sem omp (some e') c fn n k vs s s' Y := by
    intro e e' s s' h
    cases h with
    | @buffer _ _ _ _ _ vs1 vs2 vs3 r1 r2 r3 _ _ X out hc h1 f1 p1 i1 hX h2 f2 p2 i2 h3 f3 p3 i3 hr =>
      obtain ⟨r, t, a1, a2, a3, a4, a5, a6, a7⟩ := key e' (by cases e' <;> simp) r1 h1.1 h1.2.2.1
      exact .buffer (r1 := r) hc ⟨t, a2.trans h1.2.1, a1, a3, by rw [a4]; exact h1.2.2.2.2⟩
        (by rw [← f1, Row.forward, Row.forward, a4, a5]) (a7.trans p1) (by rw [a6]; exact i1) hX (by rw [a6]; exact h2)
        f2 p2 i2 h3 f3 p3 i3 hr
    | @map _ _ _ _ vs1 vs2 r1 r2 _ _ X Y vals h1 f1 p1 i1 hX h2 f2 p2 i2 hr hY hrow hcol hm hv =>
      obtain ⟨r, t, a1, a2, a3, a4, a5, a6, a7⟩ := key e' (by cases e' <;> simp) r1 h1.1 h1.2.2.1
      exact .map (r1 := r) ⟨t, a2.trans h1.2.1, a1, a3, by rw [a4]; exact h1.2.2.2.2⟩
        (by rw [← f1, Row.forward, Row.forward, a4, a5]) (a7.trans p1) (by rw [a6]; exact i1) hX (by rw [a6]; exact h2)
        f2 p2 i2 hr hY hrow hcol hm hv
  exact ⟨fun ⟨s', h⟩ => ⟨s', swap _ h⟩, fun ⟨s', h⟩ => ⟨s', swap _ h⟩⟩

theorem rand_overloads : ∀ s ∈ scalars, s.fn.kind = .r → (∀ e ∈ [Eng.engine, Eng.seed],
      ∃ r ∈ table, r.fn = s.fn ∧ r.mac = .genMat ∧ r.eng = some e ∧ r.params = s.params) ∧
    (∀ m ∈ [Macro.stdvecRand, .mainMat], ∃ r ∈ table, r.fn = { s.fn with suffix := .matCheck } ∧ r.mac = m ∧
      r.eng = some .engine ∧ r.params.length = s.params.length) ∧
    ∃ r ∈ table, r.fn = { s.fn with suffix := .vec } ∧ r.mac = .randVec ∧ r.eng = some .engine ∧
      r.params = s.params := by decide +kernel

theorem rand_params : ∀ s ∈ scalars, s.fn.kind = .r → s.params.length ≠ 0 := by decide +kernel

/-- Every generator has overloads for every container, with an engine and with a seed, and they return when the scalar
generator always does (and, with OpenMP, when the seeds of the threads can be drawn). -/
theorem C44_rand_returns {konst : ℕ → P} {sem : Name → List P → Gen V S} {c : Cont} {vs : List P} {n k : ℕ}
    (omp : Option ℕ) (e : Eng) {sc : ScalarSig} (hs : sc ∈ scalars) (hk : sc.fn.kind = .r)
    (hv : vs.length = sc.params.length) (hn : c ≠ .stdvec → n * k < 2 ^ 64) (s : S)
    (hg : ∀ t, ∃ v t', (sem sc.fn vs).Runs (sem sc.fn vs).init t v t')
    (hsd : ∀ T, omp = some T → seeds (nThreads T) s ≠ none) :
    ∃ s' Y, RandCall konst sem omp (some e) c sc.fn n k vs s s' Y := by
  obtain ⟨q1, q2, r3, t3, n3, m3, e3, p3⟩ := rand_overloads sc hs hk
  obtain ⟨r1, t1, n1, m1, e1, p1⟩ := q1 e (by cases e <;> simp)
  obtain ⟨r2, t2, n2, m2, e2, p2⟩ := q2 c.randMacro (by cases c <;> simp [Cont.randMacro])
  have hm : c.randMacro = .stdvecRand ∨ c.randMacro = .mainMat := by cases c <;> simp [Cont.randMacro]
  have hsx := scalars_suffix sc hs
  have h1 : r1.Selected sc.fn .genMat (some e) vs.length := ⟨t1, n1, m1, e1, by rw [p1, hv]⟩
  have c1 : r1.callee = { sc.fn with suffix := .matCheck } := by rw [selected_callee h1 (by simp), inner, m1, n1]
  have h2 : r2.Selected r1.callee c.randMacro (some .engine) vs.length := ⟨t2, by rw [n2, c1], m2, e2, by rw [p2, hv]⟩
  have c2 : r2.callee = sc.fn := gen_fn h1 h2 hm
  have h3 : r3.Selected { r2.callee with suffix := .vec } .randVec (some .engine) vs.length :=
    ⟨t3, by rw [n3, c2], m3, e3, by rw [p3, hv]⟩
  have c3 : r3.callee = sc.fn := by
    rw [selected_callee h3 (by simp), inner, m3, n3]
    exact Name.eta hsx
  have f1 : r1.forward konst vs = some vs := by
    rcases C44_forward r1 t1 with ⟨ha, hn⟩ | ⟨_, _, h', _⟩
    · exact forward_all ha hn konst (by rw [p1, hv])
    · exact absurd (by rw [← p1, h']; rfl) (rand_params sc hs hk)
  have f2 : r2.forward konst vs = some vs := by
    rcases C44_forward r2 t2 with ⟨ha, hn⟩ | ⟨h', _⟩
    · exact forward_all ha hn konst (by rw [p2, hv])
    · rw [n2] at h'; simp at h'
  have f3 : r3.forward konst vs = some vs := by
    rcases C44_forward r3 t3 with ⟨ha, hn⟩ | ⟨h', _⟩
    · exact forward_all ha hn konst (by rw [p3, hv])
    · rw [n3] at h'; simp at h'
  have g1 : r1.passEng = true := by rw [(C44_engine r1 t1).1, e1]; rfl
  have g2 : r2.passEng = true := by rw [(C44_engine r2 t2).1, e2]; rfl
  have g3 : r3.passEng = true := by rw [(C44_engine r3 t3).1, e3]; rfl
  have hser : ∀ num, ∃ s' out, RandVecSerial (sem sc.fn vs) num s (fun _ => none) s' out :=
    fun num => randLoop_total hg (num := num) _ 0 s _ rfl
  by_cases hc : c = .blaze
  · subst hc
    obtain ⟨s', out, ho⟩ := hser (n * k)
    refine ⟨s', ⟨n, k, true, n, out⟩, .map (X := ⟨n, k, true, n, fun _ => none⟩) h1 f1 g1 (by rw [c1])
      ⟨by simp [Layout], rfl, rfl, rfl⟩ h2 f2 g2 (by rw [c2]; exact hsx) (by rw [c2]; exact ho) (by simp [Layout]) rfl
      rfl rfl fun i _ j _ => by simp [Arr.get, Arr.pos]⟩
  · have hw : wmul n k < 2 ^ 64 := Nat.mod_lt _ (by norm_num)
    let X : Arr (Option V) :=
      if c = .stdvec then ⟨wmul n k, 1, true, wmul n k, fun _ => none⟩ else ⟨n, k, true, n, fun _ => none⟩
    have hX : Resized c n k X := by
      cases c <;> simp [X, Resized, Layout] at hc ⊢
    have hnum : randNum c X = wmul n k := by
      cases c <;> simp [X, randNum] at hc ⊢
    have hrun : ∃ s' out, RandRun (sem sc.fn vs) (wmul n k) omp s (fun _ => none) s' out := by
      cases omp with
      | none => exact hser _
      | some T =>
        obtain ⟨tr, s', out, h⟩ := C24_terminates (T := T) hw hg s (hsd T rfl) (fun _ => none)
        exact ⟨s', out, tr, h⟩
    obtain ⟨s', out, ho⟩ := hrun
    exact ⟨s', { X with mem := out }, .buffer hc h1 f1 g1 (by rw [c1]) hX h2 f2 g2 (by rw [c2]; exact hsx) h3 f3 g3
      (by rw [c3]; exact hsx) (by rw [c3, hnum, hX.2.1]; exact ho)⟩

/-- The `std::vector` overload computes the length `n*k` modulo 2^64. -/
theorem C44_rand_length {konst : ℕ → P} {sem : Name → List P → Gen V S} {omp : Option ℕ} {e : Option Eng}
    {fn : Name} {n k : ℕ} {vs : List P} {s s' : S} {Y : Arr (Option V)}
    (h : RandCall konst sem omp e .stdvec fn n k vs s s' Y) : Y.rows = n * k % 2 ^ 64 := by
  cases h with
  | buffer _ _ _ _ _ hX => exact hX.2.2

/-- So a result of 2^64 elements or more is shorter than asked for: `rnorm<std::vector<double>>(4294967296, 4294967296, 0, 1)`
returns, with an empty vector. The same for every generator that always returns. -/
theorem C44_rand_length_violated {konst : ℕ → P} {sem : Name → List P → Gen V S} {vs : List P}
    {sc : ScalarSig} (hs : sc ∈ scalars) (hk : sc.fn.kind = .r) (hv : vs.length = sc.params.length) (s : S)
    (hg : ∀ t, ∃ v t', (sem sc.fn vs).Runs (sem sc.fn vs).init t v t') :
    ∃ s' Y, RandCall konst sem none (some .engine) .stdvec sc.fn (2 ^ 32) (2 ^ 32) vs s s' Y ∧ Y.rows = 0 := by
  obtain ⟨s', Y, h⟩ := C44_rand_returns (konst := konst) (c := .stdvec) (n := 2 ^ 32) (k := 2 ^ 32) none .engine hs hk hv
    (by simp) s hg (by simp)
  exact ⟨s', Y, h, by rw [C44_rand_length h]; norm_num⟩

end rand
end Stats.Wrap

/-! ## Examples -/

namespace Stats.Wrap.ExamplesC44
open Vec Spec Fl
open scoped Stats.Exact

/-- the parameters of the distributions: numbers, and `log_form` -/
abbrev Prm := Fl ⊕ Bool

noncomputable def sem : Name → Fl → List Prm → Option Fl
  | ⟨.d, .norm, .scalar⟩, x, [.inl mu, .inl sigma, .inr l] => some (dnorm x mu sigma l)
  | ⟨.p, .norm, .scalar⟩, x, [.inl mu, .inl sigma, .inr l] => some (pnorm x mu sigma l)
  | _, _, _ => none

noncomputable def X : Arr Fl := ⟨2, 3, true, 2, fun m => fin m⟩

/-- `dnorm(X, 1, 2)` on a 2 by 3 Armadillo matrix, with four threads: it returns, and the entry in row 1 and column 2 is
`dnorm` of the entry of `X` there, which is 5. -/
example : ∃ Y, EvalCall (fun n => .inl (ofInt n)) sem (some 4) .arma ⟨.d, .norm, .scalar⟩ X [.inl 1, .inl 2, .inr false] Y ∧
    Y.rows = 2 ∧ Y.cols = 3 ∧ Y.get 1 2 = some (dnorm 5 1 2 false) := by
  obtain ⟨Y, h⟩ := C44_eval_returns (konst := fun n => (.inl (ofInt n) : Prm)) (sem := sem) (c := .arma) (X := X)
    (vs := [.inl 1, .inl 2, .inr false]) (some 4) (s := ⟨⟨.d, .norm, .scalar⟩, [.mu, .sigma, .logForm], "dens/dnorm.ipp:94"⟩)
    (by simp [scalars]) (by simp) rfl (by simp) (by simp [X]) (by simp [sem])
  have h' := (C44_eval (by simp [Layout, X]) (by simp [X]) (by simp) h).1
  refine ⟨Y, h, h'.rows, h'.cols, ?_⟩
  rw [(h'.entry 1 (by simp [X]) 2 (by simp [X])).1]
  simp [sem, X, Arr.get, Arr.pos]

/-- the normal generator -/
noncomputable def rsem {S : Type*} [Engine S] : Name → List Prm → Gen Fl S
  | ⟨.r, .norm, .scalar⟩, [.inl mu, .inl sigma] => Gen.ofFun fun s => some (rnorm mu sigma s)
  | _, _ => Gen.ofFun fun _ => none

/-- `rnorm<Eigen::MatrixXd>(3, 2, 1, 2, engine)` without OpenMP returns, from every state of the engine. -/
example {S : Type*} [Engine S] (s : S) : ∃ s' Y, RandCall (fun n => .inl (ofInt n)) rsem none (some .engine) .eigen
    ⟨.r, .norm, .scalar⟩ 3 2 [.inl 1, .inl 2] s s' Y ∧ Y.rows = 3 ∧ Y.cols = 2 ∧
      ∀ i < 3, ∀ j < 2, ∃ v, Y.get i j = some v := by
  obtain ⟨s', Y, h⟩ := C44_rand_returns (konst := fun n => (.inl (ofInt n) : Prm)) (sem := rsem) (c := .eigen)
    (vs := [.inl 1, .inl 2]) (n := 3) (k := 2) none .engine (sc := ⟨⟨.r, .norm, .scalar⟩, [.mu, .sigma], "rand/rnorm.ipp:60"⟩)
    (by simp [scalars]) rfl rfl (by simp) s (fun t => ⟨_, _, .ret (e' := (rnorm 1 2 t).2) rfl⟩) (by simp)
  obtain ⟨h1, _, h3⟩ := C44_rand (by norm_num) (by simp) h
  have h1' : Y.rows = 3 ∧ Y.cols = 2 := by simpa [HasShape] using h1
  exact ⟨s', Y, h, h1'.1, h1'.2, by rw [← h1'.1, ← h1'.2]; exact h3⟩

end Stats.Wrap.ExamplesC44
