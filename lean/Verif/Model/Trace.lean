import Verif.Model.Quant
import Verif.Model.Types

/-!
# The recursive scalar functions with their integer arithmetic and their calls

The other model files compute with unbounded integers and only return values. Here the same scalar
functions of `/repo/include/stats_incl/{dens,prob,quant}` are written a second time, branch by branch, with

* every signed operation on `llint_t` (64 bits) checked: a result out of range is undefined behaviour,
* every conversion from floating point to `llint_t` checked in the same way,
* every call counted, together with the number of calls that are active at the same time.

A function not listed here (`dbern`, `pbern`, `dradem`, `pradem`, ...) only compares its integer argument.
Calls of the functions that only compare, of the checks and of gcem are not counted.
-/

open Classical

namespace Stats
open Fl

/-- The outcome of a call: undefined behaviour, no return (yet), or a value, the number of calls made and
the largest number of calls active at the same time. -/
inductive Out (α : Type)
  | ub
  | more
  | ret (a : α) (work depth : ℕ)

namespace Out
variable {α β : Type}

/-- An expression without calls. -/
def done (a : α) : Out α := ret a 0 0

/-- One evaluation after the other. -/
def andThen (o : Out α) (f : α → Out β) : Out β :=
  match o with
  | ub => ub
  | more => more
  | ret a w d =>
      match f a with
      | ub => ub
      | more => more
      | ret b w' d' => ret b (w + w') (max d d')

/-- A function call around the evaluation of its body. -/
def call : Out α → Out α
  | ub => ub
  | more => more
  | ret a w d => ret a (w + 1) (d + 1)

/-- A recursion given by its runs with bounded fuel; `more` if no amount of fuel suffices. -/
noncomputable def run (f : ℕ → Out α) : Out α :=
  if h : ∃ n, f n ≠ more then f (Nat.find h) else more

end Out

open Out

/-- The values of `llint_t` (LP64). -/
def InLL (n : ℤ) : Prop := -2 ^ 63 ≤ n ∧ n ≤ 2 ^ 63 - 1

/-- The result of an operation on `llint_t`; out of range it is undefined [expr.pre]. -/
noncomputable def llOp (n : ℤ) : Out ℤ := if InLL n then done n else ub

/-- The result of an operation on `int` (LP64). -/
noncomputable def intOp (n : ℤ) : Out ℤ := if -2 ^ 31 ≤ n ∧ n ≤ 2 ^ 31 - 1 then done n else ub

/-- The conversion of a floating value to `llint_t` [conv.fpint]. -/
noncomputable def llCast (v : Fl) : Out ℤ :=
  match toLL v with
  | some n => done n
  | none => ub

variable [Lib]

/-- dens/dbinom.ipp:34-45 -/
noncomputable def dbinom_log_computeT (x n : ℤ) (prob : Fl) : Out Fl :=
  if x = 0 then done (ofInt n * log (1 - prob))
  else if x = n then done (ofInt x * log prob)
  else (llOp (n - x)).andThen fun m => done (lbinom n x + ofInt x * log prob + ofInt m * log (1 - prob))

/-- dens/dbinom.ipp:61-80 -/
noncomputable def dbinomT (x n : ℤ) (prob : Fl) (log_form : Bool) : Out Fl :=
  call <|
    if ¬ binom_ok n prob then done nan
    else if x < 0 ∨ x > n then done (log_zero_if log_form)
    else if n = 0 then done (log_if (dbinom_limit_vals x) log_form)
    else if n = 1 then done (dbern x prob log_form)
    else (dbinom_log_computeT x n prob).andThen fun v => done (exp_if v (!log_form))

/-- dens/dpois.ipp:43-61 with 34-38; `T(x+1)` adds in `llint_t` -/
noncomputable def dpoisT (x : ℤ) (rate : Fl) (log_form : Bool) : Out Fl :=
  call <|
    if ¬ pois_ok rate then done nan
    else if x < 0 then done (log_zero_if log_form)
    else if rate ==. 0 then (if x = 0 then done (log_one_if log_form) else done (log_zero_if log_form))
    else if isPosinf rate then done (log_zero_if log_form)
    else (llOp (x + 1)).andThen fun y => done (exp_if (ofInt x * log rate - rate - lgamma (ofInt y)) (!log_form))

/-- prob/pbinom.ipp:34-40 -/
noncomputable def pbinom_computeT (x n : ℤ) (prob : Fl) : ℕ → ℤ → Out Fl
  | 0, _ => more
  | fuel + 1, count =>
      call <|
        if count = x then dbinomT count n prob false
        else (dbinomT count n prob false).andThen fun d =>
          (llOp (count + 1)).andThen fun c =>
            (pbinom_computeT x n prob fuel c).andThen fun r => done (d + r)

/-- prob/pbinom.ipp:45-60, 67-71 -/
noncomputable def pbinomT (x n : ℤ) (prob : Fl) (log_form : Bool) : Out Fl :=
  call <|
    if ¬ binom_ok n prob then done nan
    else if x < 0 then done (log_zero_if log_form)
    else if x ≥ n then done (log_if 1 log_form)
    else if n = 1 then done (pbern x prob log_form)
    else (run fun fuel => pbinom_computeT x n prob fuel 0).andThen fun s => done (log_if s log_form)

/-- prob/ppois.ipp:34-47. `gcem::factorial(r_count)` is computed in `llint_t`. -/
noncomputable def ppois_compute_recurT (x : ℤ) (rate : Fl) : ℕ → ℤ → Out Fl
  | 0, _ => more
  | fuel + 1, r =>
      call <|
        if x = 0 then done 1
        else if x = 1 then done (1 + rate)
        else if r = 0 then
          (llOp (r + 1)).andThen fun c => (ppois_compute_recurT x rate fuel c).andThen fun s => done (1 + s)
        else if r < x then
          (llOp (r.toNat.factorial : ℤ)).andThen fun f =>
            (llOp (r + 1)).andThen fun c =>
              (ppois_compute_recurT x rate fuel c).andThen fun s => done (powi rate r.toNat / ofInt f + s)
        else (llOp (r.toNat.factorial : ℤ)).andThen fun f => done (powi rate r.toNat / ofInt f)

/-- prob/ppois.ipp:64-76 with 52-59; `T(x+1)` adds in `llint_t` -/
noncomputable def ppoisT (x : ℤ) (rate : Fl) (log_form : Bool) : Out Fl :=
  call <|
    if ¬ pois_ok rate then done nan
    else if x < 0 then done (log_zero_if log_form)
    else if isPosinf rate then done (log_zero_if log_form)
    else if rate > 10 ∨ x > 15 then
      (llOp (x + 1)).andThen fun y => done (log_if (1 - igamma (ofInt y) rate) log_form)
    else (run fun fuel => ppois_compute_recurT x rate fuel 0).andThen fun s => done (log_if (exp (-rate) * s) log_form)

/-- quant/qbinom.ipp:34-40 -/
noncomputable def qbinom_recurT (p : Fl) (n : ℤ) (prob : Fl) : ℕ → Fl → ℤ → Out Fl
  | 0, _, _ => more
  | fuel + 1, value, count =>
      call <|
        if value < p then
          (pbinomT count n prob false).andThen fun v =>
            (llOp (count + 1)).andThen fun c => qbinom_recurT p n prob fuel v c
        else (llOp (count - 1)).andThen fun c => done (ofInt c)

/-- quant/qbinom.ipp:45-60 -/
noncomputable def qbinomT (p : Fl) (n : ℤ) (prob : Fl) : Out Fl :=
  call <|
    if ¬ binom_ok n prob then done nan
    else if ¬ prob_val_ok p then done nan
    else if p ==. 0 then done 0
    else if p ==. 1 then done (ofInt n)
    else run fun fuel => qbinom_recurT p n prob fuel 0 0

/-- quant/qpois.ipp:34-43 -/
noncomputable def qpois_right_searchT (p rate : Fl) : ℕ → Fl → ℤ → Out Fl
  | 0, _, _ => more
  | fuel + 1, value, count =>
      call <|
        if value ≤ p then
          (ppoisT count rate false).andThen fun v =>
            (llOp (count + 1)).andThen fun c => qpois_right_searchT p rate fuel v c
        else if count > 0 then (llOp (count - 1)).andThen fun c => done (ofInt c)
        else done 0

/-- quant/qpois.ipp:66-86 with 48-52 and 57-61; here the conversion of the starting value is checked -/
noncomputable def qpoisT (p rate : Fl) : Out Fl :=
  call <|
    if ¬ pois_ok rate then done nan
    else if ¬ prob_val_ok p then done nan
    else if p ==. 0 then done 0
    else if eps > rate then done 0
    else if p ==. 1 then done pinf
    else if rate < 11 then run fun fuel => qpois_right_searchT p rate fuel 0 0
    else (llCast (Fl.max 0 (qnorm p rate (sqrt rate) - 3))).andThen fun c =>
      (ppoisT c rate false).andThen fun v => run fun fuel => qpois_right_searchT p rate fuel v c

/-- quant/qinvgauss.ipp:48-66: one round is a call of `iter_1` and a call of `iter_2` inside it, with a call of
`pinvgauss` and, unless it is the last round, one of `dinvgauss`. -/
noncomputable def qinvgauss_iterT (p mu lambda : Fl) : ℕ → Fl → ℤ → Out Fl
  | 0, _, _ => more
  | fuel + 1, qn, count =>
      call <| (call (done (pinvgauss qn mu lambda false))).andThen fun v =>
        call <|
          if abs (p - v) < minpos then done qn
          else if count < QINVGAUSS_MAX_ITER then
            (call (done (dinvgauss qn mu lambda false))).andThen fun d =>
              (intOp (count + 1)).andThen fun c => qinvgauss_iterT p mu lambda fuel (qn + (p - v) / d) c
          else done qn

/-- quant/qinvgauss.ipp:81-108 with 72-76 -/
noncomputable def qinvgaussT (p mu lambda : Fl) : Out Fl :=
  call <|
    if ¬ invgauss_ok mu lambda then done nan
    else if ¬ prob_val_ok p then done nan
    else if isPosinf lambda then done nan
    else if mu ==. 0 then done nan
    else if lambda ==. 0 then (if p ==. 1 then done pinf else done 0)
    else if p ==. 1 then done pinf
    else if p ==. 0 then done 0
    else run fun fuel => qinvgauss_iterT p mu lambda fuel (invgauss_mode mu (mu / lambda)) 0

end Stats
