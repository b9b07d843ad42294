import Verif.Spec.Types
import Verif.Props.C17
import Verif.Props.C08
import Verif.Props.C31
import Verif.Lemmas.DoubleCalc

/-!
# C38: integral argument types are promoted to double

The type computations hold for every list of argument types. The value statements about integral
arguments are in exact arithmetic, except the exactness of the conversion, which is in binary64. Four
functions skip the conversion; what they do at an integral type is a `_violated` theorem.
-/

set_option linter.unusedSectionVars false
open Classical
namespace Stats
open Fl Spec

/-! ### Types -/

namespace Ty

instance : Fintype Ty where
  elems := {bool, char, schar, uchar, short, ushort, int, uint, long, ulong, llong, ullong, float, double, ldouble}
  complete t := by cases t <;> decide

/-- 0 for integral types, then `float`, `double`, `long double` -/
def cls : Ty → ℕ
  | float => 1
  | double => 2
  | ldouble => 3
  | _ => 0

theorem cls_common2 (a b : Ty) : cls (common2 a b) = max (cls a) (cls b) := by
  cases a <;> cases b <;> decide

theorem cls_commonT (t : Ty) (ts : List Ty) : cls (commonT t ts) = ts.foldl (fun m u => max m (cls u)) (cls t) := by
  induction ts generalizing t with
  | nil => rfl
  | cons u us ih => rw [commonT, List.foldl_cons, ← commonT, ih, cls_common2]; rfl

theorem foldl_cls_le (m : ℕ) (ts : List Ty) (k : ℕ) :
    k ≤ ts.foldl (fun m u => max m (cls u)) m ↔ k ≤ m ∨ ∃ u ∈ ts, k ≤ cls u := by
  induction ts generalizing m with
  | nil => simp
  | cons u us ih => simp [ih, or_assoc]

theorem le_cls_commonT (t : Ty) (ts : List Ty) (k : ℕ) : k ≤ cls (commonT t ts) ↔ ∃ u ∈ t :: ts, k ≤ cls u := by
  rw [cls_commonT, foldl_cls_le]; simp

theorem returnT_eq (t : Ty) :
    returnT t = if 3 ≤ cls t then ldouble else if 2 ≤ cls t then double else if 1 ≤ cls t then float else double := by
  cases t <;> decide

theorem three_le_cls (u : Ty) : 3 ≤ cls u ↔ u = ldouble := by cases u <;> decide
theorem two_le_cls (u : Ty) : 2 ≤ cls u ↔ u = ldouble ∨ u = double := by cases u <;> decide
theorem one_le_cls (u : Ty) : 1 ≤ cls u ↔ u = ldouble ∨ u = double ∨ u = float := by cases u <;> decide

end Ty

/-- `common_return_t` is the widest floating type among any number of arguments, and `double` when all
are integral. -/
theorem C38_common_return (t : Ty) (ts : List Ty) : Ty.commonReturnT t ts = resultTy (t :: ts) := by
  rw [Ty.commonReturnT, Ty.returnT_eq]
  simp only [Ty.le_cls_commonT, Ty.three_le_cls, Ty.two_le_cls, Ty.one_le_cls]
  rw [resultTy]
  by_cases h3 : Ty.ldouble ∈ t :: ts
  · rw [if_pos ⟨_, h3, rfl⟩, if_pos h3]
  rw [if_neg (by rintro ⟨u, hu, rfl⟩; exact h3 hu), if_neg h3]
  by_cases h2 : Ty.double ∈ t :: ts
  · rw [if_pos ⟨_, h2, Or.inr rfl⟩, if_pos h2]
  rw [if_neg (by rintro ⟨u, hu, rfl | rfl⟩ <;> contradiction), if_neg h2]
  by_cases h1 : Ty.float ∈ t :: ts
  · rw [if_pos ⟨_, h1, Or.inr (Or.inr rfl)⟩, if_pos h1]
  rw [if_neg (by rintro ⟨u, hu, rfl | rfl | rfl⟩ <;> contradiction), if_neg h1]

/-- Integral types only: `double`. -/
theorem C38_integral (t : Ty) (ts : List Ty) (h : ∀ u ∈ t :: ts, u.isIntegral) :
    Ty.commonReturnT t ts = .double := by
  have hn : ∀ u : Ty, u.isIntegral = false → u ∉ t :: ts := fun u hu hm => by simp [h u hm] at hu
  rw [C38_common_return, resultTy, if_neg (hn _ rfl), if_neg (hn _ rfl), if_neg (hn _ rfl)]

/-- The result type is a floating type whatever the arguments. -/
theorem C38_floating (t : Ty) (ts : List Ty) : (Ty.commonReturnT t ts).isIntegral = false := by
  rw [C38_common_return, resultTy]; split_ifs <;> rfl

/-- The order of the arguments does not matter. -/
theorem C38_perm {t t' : Ty} {ts ts' : List Ty} (h : (t :: ts).Perm (t' :: ts')) :
    Ty.commonReturnT t ts = Ty.commonReturnT t' ts' := by
  simp only [C38_common_return, resultTy, h.mem_iff]

/-- `common_type` of two types does not depend on their order. -/
theorem C38_common_comm (a b : Ty) : Ty.common2 a b = Ty.common2 b a := by
  revert a b; decide +kernel

/-- Nor does it depend on how three types are grouped. -/
theorem C38_common_assoc (a b c : Ty) : Ty.common2 (Ty.common2 a b) c = Ty.common2 a (Ty.common2 b c) := by
  revert a b c; decide +kernel

/-- The common type of two integer types is an integer type that holds every non-negative value of
both. It holds the negative values as well unless it is unsigned, which needs an argument with values
beyond `int`. -/
theorem C38_common_range (a b : Ty) (ha : a.isIntegral = true) (hb : b.isIntegral = true) :
    (Ty.common2 a b).isIntegral = true ∧
      maxVal a ≤ maxVal (Ty.common2 a b) ∧ maxVal b ≤ maxVal (Ty.common2 a b) ∧
      (minVal (Ty.common2 a b) ≤ minVal a ∧ minVal (Ty.common2 a b) ≤ minVal b ∨
        maxVal .int < maxVal a ∨ maxVal .int < maxVal b) := by
  revert a b; decide +kernel

/-- It is no wider than needed: at most one bit beyond `int` and the two arguments. -/
theorem C38_common_width (a b : Ty) (ha : a.isIntegral = true) (hb : b.isIntegral = true) :
    maxVal (Ty.common2 a b) ≤ 2 * max (maxVal .int) (max (maxVal a) (maxVal b)) + 1 := by
  revert a b; decide +kernel

/-- Every scalar function but `pbinom` returns the expected type, for every choice of its argument
types. -/
theorem C38_result_type_partial (s : Sig) (hs : s ∈ sigs) (hn : s.name ≠ "pbinom") (t : Ty) (ts : List Ty)
    (ha : (t :: ts).length = s.arity) : s.retTy t ts = resultTy (t :: ts) := by
  have key : s.ret = .commonReturnT ∨ s.ret = .returnT ∧ s.arity = 1 := by
    clear ha; revert s; decide
  rcases key with h | ⟨h, h1⟩
  · rw [Sig.retTy, h]; exact C38_common_return t ts
  · have : ts = [] := by rw [h1] at ha; simpa using ha
    subst this
    rw [Sig.retTy, h]; exact C38_common_return t []

/-- `pbinom` with an `int` probability returns an `int`. -/
theorem C38_result_type_violated :
    ∃ s ∈ sigs, s.name = "pbinom" ∧ [Ty.int].length = s.arity ∧ s.retTy .int [] ≠ resultTy [.int] :=
  ⟨⟨"pbinom", "prob/pbinom.hpp:45", [.llint, .llint, .tmpl], .bare, false⟩, by simp [sigs], rfl, rfl, by decide⟩

/-- Every scalar function but four computes with all its arguments at the result type. -/
theorem C38_work_type_partial (s : Sig) (hs : s ∈ sigs) (hn : s.name ∉ ["pbinom", "rbern", "rradem", "rbinom"]) (t : Ty)
    (ts : List Ty) (ha : (t :: ts).length = s.arity) : ∀ u ∈ s.workTys t ts, u = resultTy (t :: ts) := by
  have hc : s.casts = true := by clear ha; revert s; decide
  have hr := C38_result_type_partial s hs (by rintro h; simp [h] at hn) t ts ha
  intro u hu
  rw [Sig.workTys, if_pos hc, hr] at hu
  obtain ⟨-, -, rfl⟩ := List.mem_map.1 hu
  rfl

/-- The other four use an `int` probability as an `int`. -/
theorem C38_work_type_violated : ∀ n ∈ ["pbinom", "rbern", "rradem", "rbinom"], ∃ s ∈ sigs, s.name = n ∧
    [Ty.int].length = s.arity ∧ s.workTys .int [] = [.int] := by decide

/-! ### Values

`static_cast<TC>` keeps the value of the argument, so a call with integral arguments is the call with
the same numbers as doubles. -/

namespace Double

/-- Integers up to `2 ^ 53` are binary64 numbers. -/
theorem R_int (n : ℤ) (h : |n| ≤ 2 ^ 53) : R (n : ℝ) = ((n : ℝ) : EReal) := by
  suffices hp : ∀ n : ℤ, 0 < n → n ≤ 2 ^ 53 → R (n : ℝ) = ((n : ℝ) : EReal) by
    rcases lt_trichotomy n 0 with h0 | rfl | h0
    · have := hp (-n) (by omega) (by rw [abs_of_neg h0] at h; exact h)
      have e : ((-n : ℤ) : ℝ) = -(n : ℝ) := by push_cast; ring
      rw [e, R_neg] at this
      have := congrArg Neg.neg this
      rw [neg_neg] at this
      rw [this, ← EReal.coe_neg, neg_neg]
    · simp [R, mag_zero, over_zero]
    · exact hp n h0 (by rw [abs_of_pos h0] at h; exact h)
  intro n h0 h1
  have hn : (0 : ℝ) < n := by exact_mod_cast h0
  have hn1 : (n : ℝ) ≤ 2 ^ 53 := by exact_mod_cast h1
  have hbig : (n : ℝ) < 2 ^ 1024 := hn1.trans_lt (by gcongr <;> norm_num)
  rcases hn1.lt_or_eq with hlt | heq
  · have hq := q_le hn (e := 52) (by norm_num; linarith) (by norm_num)
    exact R_of_mul hn (k := n) (j := 0) (by simp) (by omega) hbig
  · have hq := q_le hn (e := 53) (by rw [heq]; norm_num) (by norm_num)
    exact R_of_mul hn (k := 2 ^ 52) (j := 1) (by rw [heq]; norm_num) (by omega) hbig

end Double

section binary64
set_option warn.classDefReducibility false in
attribute [local instance] doubleLib

/-- In binary64 the conversion of an integral argument is exact up to `2 ^ 53`; in particular for all
32-bit integers. -/
theorem C38_cast_exact (n : ℤ) (h : |n| ≤ 2 ^ 53) : (Arg.int n).cast = fin n := by
  change ofE (Double.R n) = fin n
  rw [Double.R_int n h]; rfl

/-- Beyond that it rounds: `2 ^ 53 + 1` becomes `2 ^ 53`. -/
theorem C38_cast_violated : (Arg.int (2 ^ 53 + 1)).cast = fin (2 ^ 53) := by
  change ofE (Double.R _) = _
  rw [Double.R_tie 53 (2 ^ 52) (by norm_num) (by norm_num) (by norm_num) (by norm_num) (by decide) (by norm_num)]
  norm_num [ofE]

end binary64

section ideal
variable [Lib] [Ideal]

theorem Arg.cast_eq {a : Arg} {r : ℝ} (h : Arg.IsReal a r) : a.cast = fin r := by
  cases a with
  | int n => rw [Arg.cast, ofInt_eq]; exact congrArg fin h
  | flt v => exact h

/-- A call depends only on the numbers its arguments stand for, not on their types. -/
theorem C38_call1 {α : Type*} (f : Fl → α) {a : Arg} {x : ℝ} (ha : Arg.IsReal a x) : call1 f a = f (fin x) := by
  rw [call1, Arg.cast_eq ha]

theorem C38_call2 {α : Type*} (f : Fl → Fl → α) {a b : Arg} {x y : ℝ} (ha : Arg.IsReal a x) (hb : Arg.IsReal b y) :
    call2 f a b = f (fin x) (fin y) := by
  rw [call2, Arg.cast_eq ha, Arg.cast_eq hb]

theorem C38_call3 {α : Type*} (f : Fl → Fl → Fl → α) {a b c : Arg} {x y z : ℝ} (ha : Arg.IsReal a x)
    (hb : Arg.IsReal b y) (hc : Arg.IsReal c z) : call3 f a b c = f (fin x) (fin y) (fin z) := by
  rw [call3, Arg.cast_eq ha, Arg.cast_eq hb, Arg.cast_eq hc]

/-- An integral point is passed unchanged to the discrete functions. -/
theorem C38_callZ_partial {α : Type*} (f : ℤ → Fl → α) (n : ℤ) {a : Arg} {x : ℝ} (ha : Arg.IsReal a x) :
    callZ f (.int n) a = some (f n (fin x)) := by
  rw [callZ, Arg.cast_eq ha]; rfl

/-- A fractional point is truncated: the mass at `1/2` is that of `0`. -/
theorem C38_callZ_violated : callZ (fun x p => dbern x p false) (.flt (fin (1 / 2))) (.flt (fin (1 / 4))) =
    some (fin (3 / 4)) := by
  have h : toLL (fin (1 / 2)) = some 0 := by
    norm_num [toLL, toIntegral]
  have := (C08_dbern (p := 1 / 4) (by norm_num) (by norm_num) 0).2.1
  norm_num [callZ, Arg.toLL, h, Arg.cast, bernPmf] at this ⊢
  exact this

/-- A point of a floating type is cut to the next integer towards zero, on both sides of zero. -/
theorem C38_callZ_trunc {α : Type*} (f : ℤ → Fl → α) {r : ℝ} (h : |r| < 2 ^ 63) {a : Arg} {x : ℝ} (ha : Arg.IsReal a x) :
    ∃ n : ℤ, callZ f (.flt (fin r)) a = some (f n (fin x)) ∧ |(n : ℝ)| ≤ |r| ∧ |r| < |(n : ℝ)| + 1 ∧ 0 ≤ r * n := by
  have hb := abs_lt.1 h
  obtain ⟨n, hn⟩ : ∃ n : ℤ, (if 0 ≤ r then ⌊r⌋ else ⌈r⌉) = n := ⟨_, rfl⟩
  have hi : -2 ^ 63 ≤ n ∧ n ≤ 2 ^ 63 - 1 := by
    split_ifs at hn with hr <;> subst hn
    · have h1 : (0 : ℤ) ≤ ⌊r⌋ := Int.floor_nonneg.2 hr
      have h2 : ⌊r⌋ < 2 ^ 63 := Int.floor_lt.2 (by push_cast; linarith)
      exact ⟨by linarith, by linarith⟩
    · have h1 : ⌈r⌉ ≤ 0 := Int.ceil_le.2 (by push_cast; linarith)
      have h2 : -2 ^ 63 < ⌈r⌉ := Int.lt_ceil.2 (by push_cast; linarith)
      exact ⟨h2.le, by linarith⟩
  refine ⟨n, ?_, ?_⟩
  · simp only [callZ, Arg.toLL, toLL, toIntegral, hn, hi, and_self, if_true, Option.map_some, Arg.cast_eq ha]
  · split_ifs at hn with hr <;> subst hn
    · have h1 : (0 : ℝ) ≤ ⌊r⌋ := by exact_mod_cast Int.floor_nonneg.2 hr
      rw [abs_of_nonneg h1, abs_of_nonneg hr]
      exact ⟨Int.floor_le r, Int.lt_floor_add_one r, by positivity⟩
    · rw [not_le] at hr
      have h1 : ((⌈r⌉ : ℤ) : ℝ) ≤ 0 := by exact_mod_cast Int.ceil_le.2 (by push_cast; linarith)
      rw [abs_of_nonpos h1, abs_of_neg hr]
      exact ⟨by linarith [Int.le_ceil r], by linarith [Int.ceil_lt_add_one r], by nlinarith⟩

/-- An infinite point, or one beyond the range of `llint_t`, is undefined behaviour. -/
theorem C38_callZ_undefined_violated {α : Type*} (f : ℤ → Fl → α) (a : Arg) : callZ f (.flt pinf) a = none := rfl

end ideal

/-! ### The functions that do not convert -/

section noCast
variable [Lib] [Ideal] [IntLib]

section rand
variable {S : Type*} [Engine S] [NextLib]

/-- At an accepted integral probability `rbern` is the floating version. -/
theorem C38_rbern_partial {p : ℤ} (hi : IntLib.isInf p = false) (h : p = 0 ∨ p = 1) (s : S) :
    rbern_int p s = rbern (fin p) s := by
  have h0 : ¬ p < 0 := by omega
  have h1 : ¬ p > 1 := by omega
  have h0' : ¬ (p : ℝ) < 0 := by exact_mod_cast h0
  have h1' : ¬ (1 : ℝ) < p := by exact_mod_cast h1
  have hok : bern_ok (fin p : Fl) := by simp [bern_ok, h0', h1']
  rw [rbern_int, if_neg (not_not.2 ⟨by simp [hi], h0, h1⟩), rbern, if_neg (not_not.2 hok), ofInt_eq]

theorem C38_rradem_partial {p : ℤ} (hi : IntLib.isInf p = false) (h : p = 0 ∨ p = 1) (s : S) :
    rradem_int p s = rradem (fin p) s := by
  have h0 : ¬ p < 0 := by omega
  have h1 : ¬ p > 1 := by omega
  have h0' : ¬ (p : ℝ) < 0 := by exact_mod_cast h0
  have h1' : ¬ (1 : ℝ) < p := by exact_mod_cast h1
  have hok : radem_ok (fin p : Fl) := by simp [radem_ok, h0', h1']
  rw [rradem_int, if_neg (not_not.2 ⟨by simp [hi], h0, h1⟩), rradem, if_neg (not_not.2 hok), ofInt_eq]

theorem rbinom_int_loop_eq {p : ℤ} (hi : IntLib.isInf p = false) (h : p = 0 ∨ p = 1) (n : ℕ) (ret : Fl) (s : S) :
    rbinom_int_loop p n ret s = rbinom_loop (fin p) n ret s := by
  induction n generalizing ret s with
  | zero => rfl
  | succ n ih => simp only [rbinom_int_loop, rbinom_loop, C38_rbern_partial hi h, ih]

theorem C38_rbinom_partial {n p : ℤ} (h0n : 0 ≤ n) (hi : IntLib.isInf p = false) (h : p = 0 ∨ p = 1) (s : S) :
    rbinom_int n p s = rbinom n (fin p) s := by
  have hn : ¬ n < 0 := by omega
  have h0 : ¬ p < 0 := by omega
  have h1 : ¬ p > 1 := by omega
  have h0' : ¬ (p : ℝ) < 0 := by exact_mod_cast h0
  have h1' : ¬ (1 : ℝ) < p := by exact_mod_cast h1
  have hok : binom_ok n (fin p : Fl) := by simp [binom_ok, h0', h1', hn]
  rw [rbinom_int, if_neg (not_not.2 ⟨by simp [hi], hn, h0, h1⟩), rbinom, if_neg (not_not.2 hok),
    rbinom_int_loop_eq hi h]

/-- Any other `int` probability gives `0` and leaves the engine alone. -/
theorem C38_rand_else {n p : ℤ} (h : p ≠ 0 ∧ p ≠ 1) (s : S) :
    rbern_int p s = (0, s) ∧ rradem_int p s = (0, s) ∧ rbinom_int n p s = (0, s) := by
  have e : (ofInt 0 : Fl) = 0 := by rw [ofInt_eq, zero_eq]; simp
  have h' : ¬ (¬ p < 0 ∧ ¬ p > 1) := by omega
  refine ⟨?_, ?_, ?_⟩
  · rw [rbern_int, if_pos fun k => h' k.2, e]
  · rw [rradem_int, if_pos fun k => h' k.2, e]
  · rw [rbinom_int, if_pos fun k => h' k.2.2, e]

/-- An `int` probability outside `[0, 1]` gives `0` where the double version gives NaN: `0` is a
possible draw of `rbern` and `rbinom`, and no possible draw of `rradem`. -/
theorem C38_rand_violated (s : S) :
    (rbern_int 2 s = (0, s) ∧ rbern (fin 2) s = (nan, s)) ∧
    (rradem_int 2 s = (0, s) ∧ rradem (fin 2) s = (nan, s)) ∧
    (rbinom_int 5 2 s = (0, s) ∧ rbinom 5 (fin 2) s = (nan, s)) := by
  have e : (ofInt 0 : Fl) = 0 := by rw [ofInt_eq, zero_eq]; simp
  refine ⟨⟨?_, ?_⟩, ⟨?_, ?_⟩, ?_, ?_⟩ <;>
    simp [rbern_int, rbern, rradem_int, rradem, rbinom_int, rbinom, bern_ok_int, radem_ok_int, binom_ok_int,
      bern_ok, radem_ok, binom_ok, e]

end rand

theorem toIntegral_int {lo hi n : ℤ} (h0 : lo ≤ n) (h1 : n ≤ hi) : toIntegral lo hi (fin n) = some n := by
  simp [toIntegral, h0, h1]

theorem binomPmf_zero (n : ℕ) (k : ℤ) : binomPmf n 0 k = if k = 0 then 1 else 0 := by
  rw [binomPmf]
  split_ifs with h1 h2 h2
  · subst h2; simp
  · have : k.toNat ≠ 0 := by omega
    simp [this]
  · omega
  · rfl

theorem binomPmf_one (n : ℕ) (k : ℤ) : binomPmf n 1 k = if k = n then 1 else 0 := by
  rw [binomPmf]
  split_ifs with h1 h2 h2
  · subst h2; simp
  · have : n - k.toNat ≠ 0 := by omega
    simp [this]
  · omega
  · rfl

/-- With the whole mass at `c`, the truncations in the recursion do nothing. -/
theorem pbinom_int_compute_eq (n : ℕ) {p : ℤ} (h0 : 0 ≤ p) (h1 : p ≤ 1) {c : ℤ}
    (hc : ∀ k, binomPmf n p k = if k = c then 1 else 0) (steps : ℕ) (count : ℤ) :
    pbinom_int_compute n p steps count = some (if count ≤ c ∧ c ≤ count + steps then 1 else 0) := by
  have hd : ∀ k, dbinom k n (ofInt p) false = fin ((if k = c then 1 else 0 : ℤ) : ℝ) := fun k => by
    rw [ofInt_eq, (C08_dbinom n (by exact_mod_cast h0) (by exact_mod_cast h1) k).2.1, hc]
    split_ifs <;> simp
  induction steps generalizing count with
  | zero =>
    rw [pbinom_int_compute, hd, toIntegral_int (by split_ifs <;> norm_num) (by split_ifs <;> norm_num)]
    congr 1
    split_ifs <;> first | rfl | (simp at *; omega)
  | succ s ih =>
    rw [pbinom_int_compute, ih, Option.bind_some, hd, ofInt_eq, ifin_add, ← Int.cast_add,
      toIntegral_int (by split_ifs <;> norm_num) (by split_ifs <;> norm_num)]
    congr 1
    push_cast
    split_ifs <;> first | rfl | omega

/-- At an accepted `int` probability `pbinom` without the log form is the distribution function. -/
theorem C38_pbinom_partial (x : ℤ) (n : ℕ) {p : ℤ} (hi : IntLib.isInf p = false) (h : p = 0 ∨ p = 1) :
    ∃ v : ℤ, pbinom_int x n p false = some v ∧
      HasSum (fun j : ℤ => if j ≤ x then binomPmf n p j else 0) v := by
  have hn : ¬ (n : ℤ) < 0 := by omega
  have h0 : ¬ p < 0 := by omega
  have h1 : ¬ p > 1 := by omega
  obtain ⟨c, hc0, hcn, hc⟩ : ∃ c : ℤ, 0 ≤ c ∧ c ≤ n ∧ ∀ k, binomPmf n p k = if k = c then 1 else 0 := by
    rcases (by omega : p = 0 ∨ p = 1) with rfl | rfl
    · exact ⟨0, le_rfl, by omega, fun k => by simpa using binomPmf_zero n k⟩
    · exact ⟨n, by omega, le_rfl, fun k => by simpa using binomPmf_one n k⟩
  refine ⟨if c ≤ x then 1 else 0, ?_, ?_⟩
  · rw [pbinom_int, if_neg (not_not.2 ⟨by simp [hi], hn, h0, h1⟩)]
    by_cases hx : x < 0
    · simp [hx, show ¬ c ≤ x by omega]
    rw [if_neg hx]
    by_cases hxn : x ≥ n
    · simp [hxn, log_if_int, show c ≤ x by omega]
    rw [if_neg hxn]
    by_cases hn1 : (n : ℤ) = 1
    · have hn' : n = 1 := by exact_mod_cast hn1
      subst hn'
      have hx0 : x = 0 := by omega
      subst hx0
      rw [if_pos hn1, ofInt_eq, pbern_fin (by exact_mod_cast not_lt.1 h0) (by exact_mod_cast not_lt.1 h1)]
      have e : bernCdf p 0 = ((if c ≤ 0 then 1 else 0 : ℤ) : ℝ) := by
        rcases (by omega : p = 0 ∨ p = 1) with rfl | rfl
        · have := (hc 0).symm.trans (by simpa using binomPmf_zero 1 0)
          have : c = 0 := by by_contra hne; simp [Ne.symm hne] at this
          simp [this, bernCdf]
        · have := (hc 0).symm.trans (by simpa using binomPmf_one 1 0)
          have : ¬ c ≤ 0 := fun hle => by simp [le_antisymm hle hc0] at this
          simp [this, bernCdf]
      rw [e, toIntegral_int (by split_ifs <;> norm_num) (by split_ifs <;> norm_num)]
    · rw [if_neg hn1, pbinom_int_compute_eq n (by omega) (by omega) hc]
      simp only [log_if_int, Option.bind_some]
      simp
      split_ifs <;> first | rfl | omega
  · have := hasSum_ite_eq c (if c ≤ x then (1 : ℝ) else 0)
    convert! this using 2 with j
    · rw [hc]; by_cases hj : j = c
      · subst hj; simp
      · simp [hj]
    · push_cast; rfl

/-- An `int` probability outside `[0, 1]` gives `0` instead of NaN. -/
theorem C38_pbinom_nan_violated (x n : ℤ) (b : Bool) : pbinom_int x n 2 b = some 0 ∧ pbinom x n (fin 2) b = nan := by
  simp [pbinom_int, pbinom, binom_ok_int, binom_ok]

/-- Below the support the log form gives `0`, the logarithm of one, instead of `-∞`. -/
theorem C38_pbinom_log_violated : pbinom_int (-1) 3 1 true = some 0 ∧ pbinom (-1) 3 (fin 1) true = ninf := by
  constructor
  · rw [pbinom_int]; split_ifs <;> simp at *
  · simp [pbinom, binom_ok, log_zero_if]

/-- Inside the support the log form converts `-∞` to `int`: undefined behaviour, if the probability
`1` is accepted at all. -/
theorem C38_pbinom_log_undefined_violated (h : IntLib.isInf 1 = false) : pbinom_int 1 3 1 true = none := by
  have hok : binom_ok_int 3 1 := by simp [binom_ok_int, h]
  have hc := pbinom_int_compute_eq 3 (p := 1) (by norm_num) (by norm_num) (c := 3)
    (fun k => by simpa using binomPmf_one 3 k) 1 0
  rw [pbinom_int, if_neg (not_not.2 hok)]
  norm_num at hc ⊢
  rw [hc]
  simp [log_if_int, ofInt_eq, toIntegral]

end noCast

end Stats

namespace Stats.ExamplesC38
open Fl Spec
open scoped Stats.Exact

example : Ty.commonReturnT .int [.short, .llong] = .double := by decide
example : Ty.common2 .int .uint = .uint ∧ maxVal .uint = 4294967295 ∧ Ty.common2 .ushort .short = .int := by decide
example : Ty.commonReturnT .int [.float, .uint] = .float := by decide
example : Ty.commonReturnT .ldouble [.double, .int] = .ldouble := by decide

example : (Sig.retTy ⟨"dnorm", "dens/dnorm.hpp:46", [.tmpl, .tmpl, .tmpl], .commonReturnT, true⟩ .int [.int, .bool]) =
    .double := by decide

/-- `dunif(1, 0, 3)` with `int` arguments: no integer division. -/
example : call3 (fun x a b => dunif x a b false) (.int 1) (.int 0) (.int 3) = fin (1 / 3) := by
  have := (C08_dunif (a := 0) (b := 3) (by norm_num) 1 (by norm_num)).2.1
  rw [C38_call3 _ (x := 1) (y := 0) (z := 3) (by norm_num [Arg.IsReal]) (by norm_num [Arg.IsReal]) (by norm_num [Arg.IsReal])]
  norm_num [unifPdf] at this ⊢
  exact this

example (f : ℤ → Fl → ℕ) : ∃ n : ℤ, callZ f (.flt (fin (-1 / 2))) (.int 1) = some (f n (fin 1)) ∧ |(n : ℝ)| ≤ |(-1 / 2 : ℝ)| ∧
    |(-1 / 2 : ℝ)| < |(n : ℝ)| + 1 ∧ 0 ≤ (-1 / 2 : ℝ) * n :=
  C38_callZ_trunc f (by norm_num [abs_div]) (by norm_num [Arg.IsReal])

instance : IntLib := ⟨fun _ => false⟩

example : ∃ v : ℤ, pbinom_int 4 5 1 false = some v ∧ HasSum (fun j : ℤ => if j ≤ 4 then binomPmf 5 (1 : ℤ) j else 0) v :=
  C38_pbinom_partial 4 5 rfl (Or.inr rfl)

end Stats.ExamplesC38
