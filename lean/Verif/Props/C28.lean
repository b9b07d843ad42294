import Verif.Lemmas.RandIdeal
import Verif.Props.C41
import Verif.Props.C42
import Verif.Props.C09
import Verif.Props.C18
import Verif.Lemmas.NextInst

/-!
# C28: draws lie in the support

First section: every arithmetic (rounding included), every engine, every parameter. Second section: exact
arithmetic, every engine, real parameters of the usual domain; the draw is a number in the interior of the
support. A generator that need not return is described by "if it returns".
-/

set_option linter.unusedSectionVars false
open Classical
namespace Stats
open Fl Spec

/-- the value is a real number of `s` -/
def Spec.In (s : Set ℝ) (v : Fl) : Prop := ∃ r ∈ s, v = fin r

section anyArith
variable [Lib] {S : Type*} [Engine S]

theorem C28_rbern {p : Fl} (hp : Prob p) (s : S) : In {0, 1} (rbern p s).1 := by
  obtain ⟨r, h0, h1, rfl⟩ := hp
  rw [rbern, if_neg (by simp [bern_ok, h0, h1])]
  dsimp only
  split_ifs
  · exact ⟨1, by simp, one_eq⟩
  · exact ⟨0, by simp, zero_eq⟩

theorem C28_rradem {p : Fl} (hp : Prob p) (s : S) : In {-1, 1} (rradem p s).1 := by
  obtain ⟨r, h0, h1, rfl⟩ := hp
  rw [rradem, if_neg (by simp [radem_ok, h0, h1])]
  dsimp only
  split_ifs
  · exact ⟨1, by simp, one_eq⟩
  · exact ⟨-1, by simp, by rw [one_eq, neg_fin]⟩

/-- The number of successes; counting in floating point is exact up to `2^19` (in the model, for every
arithmetic). -/
theorem rbinom_loop_mem {p : Fl} (hp : Prob p) (n : ℕ) (m : ℕ) (hm : m + n ≤ 2 ^ 19) (s : S) :
    ∃ k : ℕ, m ≤ k ∧ k ≤ m + n ∧ (rbinom_loop p n (fin m) s).1 = fin k := by
  induction n generalizing m s with
  | zero => exact ⟨m, le_rfl, by omega, rfl⟩
  | succ n ih =>
    rw [rbinom_loop]
    obtain ⟨r, hr, e⟩ := C28_rbern hp s
    rw [e, fin_add_fin]
    have hrep : ∀ j : ℕ, j ≤ 2 ^ 19 → Lib.rnd (j : ℝ) = ((j : ℝ) : EReal) := by
      intro j hj
      have := rep_int (j : ℤ) (by rw [abs_of_nonneg (by positivity)]; exact_mod_cast hj)
      simpa [Rep] using this
    rcases hr with rfl | hr
    · rw [add_zero, hrep m (by omega), ofE_coe]
      obtain ⟨k, h1, h2, h3⟩ := ih m (by omega) (rbern p s).2
      exact ⟨k, h1, by omega, h3⟩
    · rw [Set.mem_singleton_iff.1 hr]
      have e2 : (m : ℝ) + 1 = ((m + 1 : ℕ) : ℝ) := by push_cast; ring
      rw [e2, hrep (m + 1) (by omega), ofE_coe]
      obtain ⟨k, h1, h2, h3⟩ := ih (m + 1) (by omega) (rbern p s).2
      exact ⟨k, by omega, by omega, h3⟩

theorem C28_rbinom_small {p : Fl} (hp : Prob p) {n : ℕ} (hn : n ≤ 2 ^ 19) (s : S) :
    ∃ k : ℕ, k ≤ n ∧ (rbinom n p s).1 = fin k := by
  obtain ⟨k, -, h2, h3⟩ := rbinom_loop_mem hp n 0 (by omega) s
  obtain ⟨r, h0, h1, rfl⟩ := hp
  refine ⟨k, by omega, ?_⟩
  rw [rbinom, if_neg (by simp [binom_ok, h0, h1]), zero_eq, Int.toNat_natCast]
  simpa using h3

/-- A draw of the uniform generator lies strictly between finite ends. -/
theorem C28_runif [NextLib] {a b : ℝ} (h : Lib.next a b < b) (hab : a < b) (s : S) :
    In (Set.Ioo a b) (runif (fin a) (fin b) s).1 := by
  obtain ⟨r, h1, h2, h3⟩ := Engine.unif_mem (Lib.next a b) b s h
  refine ⟨r, ⟨(NextLib.next_gt a b hab).trans_le h2, h3⟩, ?_⟩
  rw [runif, if_neg (by simp [unif_ok, hab])]
  exact h1

/-- an accepted value of the rejection loop is positive (possibly `+inf`), whatever the arithmetic: the
test fails when `V` is negative, zero or NaN -/
theorem rgamma_loop_pos {d : Fl} (hd : NN d) (c : Fl) (k : ℕ) (s : S) {v : Fl × S} (h : rgamma_loop d c k s = some v) : 0 < v.1 := by
  induction k generalizing s with
  | zero => simp [rgamma_loop] at h
  | succ k ih =>
    rw [rgamma_loop] at h
    dsimp only at h
    split_ifs at h with h1 h2
    · obtain rfl := Option.some.inj h
      dsimp only
      generalize powi (1 + c * (rnorm 0 1 s).1) 3 = V at h2 ⊢
      generalize half * (rnorm 0 1 s).1 * (rnorm 0 1 s).1 = y at h2
      generalize log (runif 0 1 (rnorm 0 1 s).2).1 = w at h2
      by_contra hV
      have hl : 1 - V + log V = nan ∨ 1 - V + log V = ninf := by
        cases V with
        | nan => left; rfl
        | ninf => left; simp [log]
        | pinf => simp at hV
        | fin r =>
          have hr : r ≤ 0 := by simpa using hV
          rcases hr.lt_or_eq with hr | rfl
          · left; simp [log, hr]
          · right
            rw [one_eq, fin_sub_fin, sub_zero, show Lib.rnd 1 = ((1 : ℝ) : EReal) from rep_one, ofE_coe]
            simp [log]
      have h3 : y + d * (1 - V + log V) = nan ∨ y + d * (1 - V + log V) = ninf := by
        rcases hl with h | h <;> rw [h]
        · left; simp
        · have : d * ninf = nan ∨ d * ninf = ninf := by
            rcases nn_iff.1 hd with rfl | rfl | ⟨r, rfl, hr⟩
            · left; rfl
            · right; rfl
            · rw [fin_mul_ninf]; split_ifs with h1 h2
              · left; rfl
              · right; rfl
              · exact absurd (lt_of_le_of_ne hr (Ne.symm h1)) h2
          rcases this with h | h <;> rw [h]
          · left; simp
          · cases y
            · left; rfl
            · right; rfl
            · right; rfl
            · left; rfl
      rcases h3 with h | h <;> rw [h] at h2 <;> simp at h2
    · exact ih _ h
    · exact ih _ h

theorem nn_of_gt {x : Fl} (h : x > 1) : NN (x - 1 / 3) := by
  obtain ⟨r, hr, h0, h1⟩ : Btw 0 1 ((1 : Fl) / 3) := by
    rw [one_eq, ofNat_eq, fin_div_fin, if_neg (by norm_num)]
    exact btw_rnd rep_zero rep_one (by norm_num) (by norm_num)
  rw [hr]
  cases x with
  | nan => simp at h
  | ninf => simp at h
  | pinf => simp [NN]
  | fin x =>
    have hx : 1 < x := by simpa using h
    rw [fin_sub_fin]
    apply nn_ofE
    have := Lib.rnd_mono (show (0 : ℝ) ≤ x - r by linarith)
    rwa [show Lib.rnd 0 = ((0 : ℝ) : EReal) from rep_zero] at this

theorem nn_of_eps {x : Fl} (h : ¬ eps > x) : NN x := by
  have := Lib.eps_pos
  rw [nn_iff]
  cases x with
  | nan => simp
  | ninf => simp [eps] at h
  | pinf => simp
  | fin r => right; right; exact ⟨r, rfl, by simp [eps] at h; linarith⟩

theorem rgamma_rec_nn {scale : Fl} (n : ℕ) (shape : Fl) (s : S) {v : Fl × S}
    (h : rgamma_rec n shape scale s = some v) : NN v.1 := by
  induction n generalizing shape s v with
  | zero => simp [rgamma_rec] at h
  | succ n ih =>
    rw [rgamma_rec] at h
    split_ifs at h with h1 h2
    · dsimp only at h
      rw [Option.map_eq_some_iff] at h
      obtain ⟨g, hg, rfl⟩ := h
      obtain ⟨k, hk⟩ := runFuel_eq_some hg
      have h3 := rgamma_loop_pos (nn_of_gt h2) _ k s hk
      have h4 : NN g.1 := by
        rw [NN]; intro hc
        cases hg1 : g.1 <;> rw [hg1] at h3 hc <;> simp at h3 hc
        linarith
      exact ((nn_of_gt h2).mul h4).mul (nn_of_eps h1.2.2)
    · dsimp only at h
      rw [Option.map_eq_some_iff] at h
      obtain ⟨g, hg, rfl⟩ := h
      exact (ih _ _ hg).mul (nn_pow _ _)
    · obtain rfl := Option.some.inj h
      simp

/-- Never negative, whatever the arithmetic and the parameters. -/
theorem C28_rgamma_nonneg (shape scale : Fl) (s : S) {v : Fl × S} (h : rgamma shape scale s = some v) :
    ¬ v.1 < 0 := by
  obtain ⟨n, hn⟩ := runFuel_eq_some h
  exact rgamma_rec_nn n shape s hn

theorem C28_rchisq_nonneg (dof : Fl) (s : S) {v : Fl × S} (h : rchisq dof s = some v) : ¬ v.1 < 0 := by
  rw [rchisq] at h
  split_ifs at h
  · exact C28_rgamma_nonneg _ _ s h
  · obtain rfl := Option.some.inj h; simp

theorem C28_rinvgamma_nonneg (shape rate : Fl) (s : S) {v : Fl × S} (h : rinvgamma shape rate s = some v) :
    ¬ v.1 < 0 := by
  rw [rinvgamma] at h
  split_ifs at h
  · rw [Option.map_eq_some_iff] at h
    obtain ⟨g, hg, rfl⟩ := h
    exact NN.div (by rw [one_eq]; exact nn_fin zero_le_one) (C28_rgamma_nonneg _ _ s hg)
  · obtain rfl := Option.some.inj h; simp

/-- A product that is a number is a rounded number. -/
theorem rep_mul (hr : ∀ x y : ℝ, Lib.rnd x = (y : EReal) → Lib.rnd y = y) {x y : Fl} {r : ℝ} (h : x * y = fin r) :
    Rep r := by
  cases x with
  | nan => simp at h
  | ninf =>
    cases y <;> simp only [HMul.hMul, Mul.mul] at h <;> (try split_ifs at h) <;> exact Fl.noConfusion h
  | pinf =>
    cases y <;> simp only [HMul.hMul, Mul.mul] at h <;> (try split_ifs at h) <;> exact Fl.noConfusion h
  | fin a =>
    cases y with
    | nan => simp at h
    | ninf => rw [fin_mul_ninf] at h; split_ifs at h
    | pinf => rw [fin_mul_pinf] at h; split_ifs at h
    | fin b =>
      rw [fin_mul_fin] at h
      exact hr (a * b) r (by
        rw [ofE] at h; split_ifs at h with h1 h2
        obtain rfl := Fl.fin.inj h
        exact (EReal.coe_toReal h2 h1).symm)

theorem rgamma_rep (hr : ∀ x y : ℝ, Lib.rnd x = (y : EReal) → Lib.rnd y = y) {shape scale : Fl} {s : S} {v : Fl × S}
    (h : rgamma shape scale s = some v) {r : ℝ} (e : v.1 = fin r) : Rep r := by
  obtain ⟨n, h⟩ := runFuel_eq_some h
  cases n with
  | zero => simp [rgamma_rec] at h
  | succ n =>
    rw [rgamma_rec] at h
    split_ifs at h with h1 h2
    · dsimp only at h
      rw [Option.map_eq_some_iff] at h
      obtain ⟨g, hg, rfl⟩ := h
      exact rep_mul hr e
    · dsimp only at h
      rw [Option.map_eq_some_iff] at h
      obtain ⟨g, hg, rfl⟩ := h
      exact rep_mul hr e
    · obtain rfl := Option.some.inj h
      simp at e

/-- A draw from the beta generator is NaN or lies in `[0,1]`, in every arithmetic in which rounding a
rounded number changes nothing. -/
theorem C28_rbeta_unit (hr : ∀ x y : ℝ, Lib.rnd x = (y : EReal) → Lib.rnd y = y) (a b : Fl) (s : S) {v : Fl × S}
    (h : rbeta a b s = some v) : v.1 = nan ∨ In (Set.Icc 0 1) v.1 := by
  have key : ∀ {w : Fl}, PN w → w = nan ∨ In (Set.Icc 0 1) w := by
    rintro w (rfl | ⟨r, rfl, h0, h1⟩)
    · exact Or.inl rfl
    · exact Or.inr ⟨r, ⟨h0, h1⟩, rfl⟩
  rw [rbeta] at h
  split_ifs at h
  · rw [Option.bind_eq_some_iff] at h
    obtain ⟨x, hx, h⟩ := h
    rw [Option.map_eq_some_iff] at h
    obtain ⟨y, hy, rfl⟩ := h
    have h1 : NN x.1 := C28_rgamma_nonneg _ _ _ hx
    have h2 : NN y.1 := C28_rgamma_nonneg _ _ _ hy
    refine key ?_
    have h3 := fun r e => rgamma_rep hr hx (r := r) e
    revert h1 h2 h3
    generalize x.1 = x; generalize y.1 = y
    intro h1 h2 h3
    rcases nn_iff.1 h1 with rfl | rfl | ⟨r, rfl, hr0⟩
    · simp
    · rcases nn_iff.1 h2 with rfl | rfl | ⟨q, rfl, hq⟩ <;> simp
    · rcases nn_iff.1 h2 with rfl | rfl | ⟨q, rfl, hq⟩
      · simp
      · simp
      · apply pn_div h1
        left
        rw [fin_add_fin]
        have := Lib.rnd_mono (show r ≤ r + q by linarith)
        rw [show Lib.rnd r = (r : EReal) from h3 r rfl] at this
        rw [← ofE_coe r, ofE_le_ofE]
        exact this
  · obtain rfl := Option.some.inj h; simp

theorem C28_rf_nonneg (df1 df2 : Fl) (s : S) {v : Fl × S} (h : rf df1 df2 s = some v) : ¬ v.1 < 0 := by
  rw [rf] at h
  split_ifs at h with h0
  · rw [Option.bind_eq_some_iff] at h
    obtain ⟨x, hx, h⟩ := h
    rw [Option.map_eq_some_iff] at h
    obtain ⟨y, hy, rfl⟩ := h
    exact (((nn_of_eps h0.2.2).div (nn_of_eps h0.2.1)).mul (C28_rchisq_nonneg _ _ hx)).div (C28_rchisq_nonneg _ _ hy)
  · obtain rfl := Option.some.inj h; simp

theorem C28_rlnorm_nonneg (mu sigma : Fl) (s : S) : ¬ (rlnorm mu sigma s).1 < 0 := by
  rw [rlnorm]; split_ifs
  · exact nn_exp _
  · simp

theorem C28_rweibull_nonneg (shape scale : Fl) (s : S) : ¬ (rweibull shape scale s).1 < 0 := by
  rw [rweibull]; split_ifs with h
  · dsimp only
    show NN _
    rw [qweibull]; split_ifs <;> try simp
    · exact nn_of_eps h.2.2
    · exact (nn_of_eps h.2.2).mul (nn_pow _ _)
  · simp

theorem C28_rexp_nonneg (rate : Fl) (s : S) : ¬ (rexp rate s).1 < 0 := by
  rw [rexp]; split_ifs with h
  · dsimp only
    generalize (runif 0 1 s).1 = p
    show NN _
    rw [qexp]; split_ifs with h1 h2 h3 <;> try simp
    rw [qexp_compute]
    apply NN.div
    · have h4 : Btw 0 1 p := by
        cases p with
        | fin r => exact btw_fin (by simpa using h1.2.1) (by simpa using h1.2.2)
        | _ => simp [prob_val_ok] at h1
      have h5 := pn_log (Or.inr h4.one_sub : PN (1 - p))
      rw [nn_iff]
      cases hl : log (1 - p) with
      | nan => left; rfl
      | ninf => right; left; rfl
      | pinf => rw [hl] at h5; simp at h5
      | fin r =>
        rw [hl] at h5
        right; right
        exact ⟨-r, by simp, by simpa using h5⟩
    · exact h.2
  · simp

end anyArith

section exact
variable [Lib] [Ideal] {S : Type*} [Engine S] [NextLib]

theorem runif_cases (s : S) : ∃ (u : ℝ) (s1 : S), runif (fin 0) (fin 1) s = (fin u, s1) ∧ 0 < u ∧ u < 1 := by
  obtain ⟨u, h, h0, h1⟩ := runif_mem s
  exact ⟨u, (runif (fin 0) (fin 1) s).2, by rw [← h], h0, h1⟩

theorem C28_rexp {rate : ℝ} (h : 0 < rate) (s : S) : In (Set.Ioi 0) (rexp (fin rate) s).1 := by
  obtain ⟨u, s1, e, h0, h1⟩ := runif_cases s
  obtain ⟨x, hx, hq⟩ := IsInv.exists_real (isCdf_exp h) (qexp_inv h) h0 h1
  rw [rexp, if_neg (by simp [exp_ok, h.le])]
  simp only [zero_eq, one_eq, e]
  refine ⟨x, ?_, hq⟩
  by_contra hc
  rw [if_neg (show ¬ 0 < x from hc)] at hx
  exact h0.ne hx

theorem C28_rweibull {k θ : ℝ} (hk : Lib.eps ≤ k) (hθ : Lib.eps ≤ θ) (s : S) :
    In (Set.Ioi 0) (rweibull (fin k) (fin θ) s).1 := by
  have p1 := Lib.eps_pos.trans_le hk
  have p2 := Lib.eps_pos.trans_le hθ
  obtain ⟨u, s1, e, h0, h1⟩ := runif_cases s
  obtain ⟨x, hx, hq⟩ := IsInv.exists_real (isCdf_weibull p1 p2) (qweibull_inv hk hθ) h0 h1
  rw [rweibull, if_neg (by simp [weibull_ok, eps, hk, hθ])]
  simp only [zero_eq, one_eq, e]
  refine ⟨x, ?_, hq⟩
  by_contra hc
  rw [if_neg (show ¬ 0 < x from hc)] at hx
  exact h0.ne hx

theorem C28_rcauchy (mu : ℝ) {sigma : ℝ} (h : 0 < sigma) (s : S) : In Set.univ (rcauchy (fin mu) (fin sigma) s).1 := by
  obtain ⟨u, s1, e, h0, h1⟩ := runif_cases s
  obtain ⟨x, hx, hq⟩ := IsInv.exists_real (isCdf_cauchy mu h) (qcauchy_inv mu h) h0 h1
  rw [rcauchy, if_neg (by simp [cauchy_ok, h.le])]
  simp only [zero_eq, one_eq, e]
  exact ⟨x, trivial, hq⟩

theorem C28_rlaplace (mu : ℝ) {sigma : ℝ} (h : 0 < sigma) (s : S) :
    In Set.univ (rlaplace (fin mu) (fin sigma) s).1 := by
  obtain ⟨u, s1, e, h0, h1⟩ := runif_cases s
  obtain ⟨x, hx, hq⟩ := IsInv.exists_real (isCdf_laplace mu h) (qlaplace_inv mu h) h0 h1
  rw [rlaplace, if_neg (by simp [laplace_ok, h.le])]
  simp only [zero_eq, one_eq, e]
  exact ⟨x, trivial, hq⟩

theorem C28_rlogis (mu : ℝ) {sigma : ℝ} (h : 0 < sigma) (s : S) :
    In Set.univ (rlogis (fin mu) (fin sigma) s).1 := by
  obtain ⟨u, s1, e, h0, h1⟩ := runif_cases s
  obtain ⟨x, hx, hq⟩ := IsInv.exists_real (isCdf_logis mu h) (qlogis_inv mu h) h0 h1
  rw [rlogis, if_neg (by simp [logis_ok, h.le])]
  simp only [zero_eq, one_eq, e]
  exact ⟨x, trivial, hq⟩

theorem C28_rnorm (mu : ℝ) {sigma : ℝ} (h : 0 ≤ sigma) (s : S) : In Set.univ (rnorm (fin mu) (fin sigma) s).1 := by
  rw [rnorm_fin mu h (show Engine.norm s = ((Engine.norm s).1, (Engine.norm s).2) from rfl)]
  exact ⟨_, trivial, rfl⟩

theorem C28_rlnorm (mu : ℝ) {sigma : ℝ} (h : 0 ≤ sigma) (s : S) :
    In (Set.Ioi 0) (rlnorm (fin mu) (fin sigma) s).1 := by
  obtain ⟨x, -, hx⟩ := C28_rnorm mu h s
  rw [rlnorm, if_neg (by simp [lnorm_ok, h])]
  simp only [hx, ideal]
  exact ⟨_, Real.exp_pos x, rfl⟩

/-- The Poisson generator returns a natural number for every real rate. -/
theorem C28_rpois {rate : ℝ} (h : 0 ≤ rate) (s : S) :
    ∃ v, rpois (fin rate) s = some v ∧ In (Set.range (Nat.cast : ℕ → ℝ)) v.1 := by
  obtain ⟨u, s1, e, h0, h1⟩ := runif_cases s
  obtain ⟨k, hk⟩ := C20_qpois h h0.le h1
  rw [rpois, if_neg (by simp [pois_ok, h])]
  simp only [zero_eq, one_eq, e, hk, Option.map_some]
  exact ⟨_, rfl, k, ⟨k, rfl⟩, rfl⟩

/-- The number of successes among `n` trials, for every `n`. -/
theorem C28_rbinom {n : ℤ} (hn : 0 ≤ n) {p : Fl} (hp : Prob p) (s : S) :
    ∃ k : ℕ, (k : ℤ) ≤ n ∧ (rbinom n p s).1 = fin k := by
  have key : ∀ (n m : ℕ) (s : S), ∃ k : ℕ, k ≤ m + n ∧ (rbinom_loop p n (fin m) s).1 = fin k := by
    intro n
    induction n with
    | zero => intro m s; exact ⟨m, le_rfl, rfl⟩
    | succ n ih =>
      intro m s
      rw [rbinom_loop]
      obtain ⟨r, hr, e⟩ := C28_rbern hp s
      simp only [e, ideal]
      rcases hr with rfl | hr
      · rw [add_zero]
        obtain ⟨k, h2, h3⟩ := ih m (rbern p s).2
        exact ⟨k, by omega, h3⟩
      · rw [Set.mem_singleton_iff.1 hr]
        obtain ⟨k, h2, h3⟩ := ih (m + 1) (rbern p s).2
        exact ⟨k, by omega, by rw [← h3]; push_cast; rfl⟩
  obtain ⟨r, h0, h1, rfl⟩ := hp
  obtain ⟨k, h2, h3⟩ := key n.toNat 0 s
  refine ⟨k, by omega, ?_⟩
  rw [rbinom, if_neg (by simp [binom_ok, hn, h0, h1]), ← h3, zero_eq]
  simp

theorem rgamma_loop_real {d c : ℝ} (hc : 0 < c) (k : ℕ) (s : S) {v : Fl × S}
    (h : rgamma_loop (fin d) (fin c) k s = some v) : In (Set.Ioi 0) v.1 := by
  induction k generalizing s with
  | zero => simp [rgamma_loop] at h
  | succ k ih =>
    have hz : Engine.norm s = ((Engine.norm s).1, (Engine.norm s).2) := rfl
    rcases le_or_gt (Engine.norm s).1 (-1 / c) with hl | hl
    · rw [rgamma_loop_reject1 hc k hz hl] at h
      exact ih _ h
    · obtain ⟨u, s2, hu, h0, -⟩ := runif_cases (Engine.norm s).2
      rw [rgamma_loop_step hc k hz hl hu h0] at h
      split_ifs at h
      · obtain rfl := Option.some.inj h
        refine ⟨_, ?_, rfl⟩
        have hx : 0 < 1 + c * (Engine.norm s).1 := by
          rw [div_lt_iff₀ hc] at hl; linarith
        exact pow_pos hx 3
      · exact ih _ h

theorem rgamma_rec_real {a θ : ℝ} (ha : 0 < a) (hθ : Lib.eps ≤ θ) (n : ℕ) (s : S) {v : Fl × S}
    (h : rgamma_rec n (fin a) (fin θ) s = some v) : In (Set.Ioi 0) v.1 := by
  have p2 := Lib.eps_pos.trans_le hθ
  induction n generalizing a s v with
  | zero => simp [rgamma_rec] at h
  | succ n ih =>
    rcases le_or_gt a 1 with h1 | h1
    · obtain ⟨u, s1, e, h0, -⟩ := runif_cases s
      rw [rgamma_rec_small ha h1 hθ n e h0, Option.map_eq_some_iff] at h
      obtain ⟨g, hg, rfl⟩ := h
      obtain ⟨r, hr, e⟩ := ih (by linarith) _ hg
      simp only [e, ideal]
      exact ⟨_, mul_pos hr (Real.rpow_pos_of_pos h0 _), rfl⟩
    · rw [rgamma_rec_big h1 hθ, Option.map_eq_some_iff] at h
      obtain ⟨g, hg, rfl⟩ := h
      obtain ⟨k, hk⟩ := runFuel_eq_some hg
      have hd : 0 < a - 1 / 3 := by linarith
      obtain ⟨r, hr, e⟩ := rgamma_loop_real (by have := Real.sqrt_pos.2 hd; positivity) k s hk
      simp only [e, ideal]
      exact ⟨_, mul_pos (mul_pos hd hr) p2, rfl⟩

theorem C28_rgamma {a θ : ℝ} (ha : 0 < a) (hθ : Lib.eps ≤ θ) (s : S) {v : Fl × S}
    (h : rgamma (fin a) (fin θ) s = some v) : In (Set.Ioi 0) v.1 := by
  obtain ⟨n, hn⟩ := runFuel_eq_some h
  exact rgamma_rec_real ha hθ n s hn

theorem C28_rchisq {k : ℝ} (hk : 0 < k) (s : S) {v : Fl × S} (h : rchisq (fin k) s = some v) :
    In (Set.Ioi 0) v.1 := by
  rw [rchisq, if_neg (by simp [chisq_ok, hk.le])] at h
  simp only [ideal] at h
  exact C28_rgamma (half_pos hk) eps_le_two s h

theorem C28_rinvgamma_partial {a b : ℝ} (ha : 0 < a) (p : 0 < b) (hb' : Lib.eps ≤ 1 / b) (s : S) {v : Fl × S}
    (h : rinvgamma (fin a) (fin b) s = some v) : In (Set.Ioi 0) v.1 := by
  rw [rinvgamma, if_neg (by simp [invgamma_ok, ha.le, p.le])] at h
  simp only [ideal, ifin_div _ p.ne'] at h
  rw [Option.map_eq_some_iff] at h
  obtain ⟨g, hg, rfl⟩ := h
  obtain ⟨r, hr, e⟩ := C28_rgamma ha hb' s hg
  simp only [e, ideal, ifin_div _ (ne_of_gt hr)]
  exact ⟨_, Set.mem_Ioi.2 (one_div_pos.2 hr), rfl⟩

/-- For a rate above `1/eps` the parameters are accepted and the draw is NaN (`rgamma` rejects the scale). -/
theorem C28_rinvgamma_violated {a b : ℝ} (ha : 0 < a) (hb : 1 / Lib.eps < b) (s : S) :
    invgamma_ok (fin a) (fin b) ∧ ∃ s1, rinvgamma (fin a) (fin b) s = some (nan, s1) := by
  have he := Lib.eps_pos
  have h1 : (1 : ℝ) ≤ 1 / Lib.eps := by
    rw [le_div_iff₀ he, one_mul]; exact eps_le_one
  have p : 0 < b := by linarith
  have h2 : 1 / b < Lib.eps := by rw [div_lt_iff₀ p]; rw [div_lt_iff₀ he] at hb; linarith
  have hok : invgamma_ok (fin a) (fin b) := by
    simp [invgamma_ok, ha.le, p.le]
  refine ⟨hok, s, ?_⟩
  have hg : rgamma (fin a) (fin (1 / b)) s = some (nan, s) := by
    refine runFuel_eq (rgamma_rec_mono _ _ _) (n := 1) ?_
    show rgamma_rec 1 _ _ _ = _
    rw [rgamma_rec, if_pos]
    rintro ⟨-, -, h⟩
    exact h (by simpa [eps] using h2)
  rw [rinvgamma, if_neg (not_not.2 hok)]
  simp only [ideal, ifin_div _ p.ne', hg, Option.map_some]
  simp

theorem C28_rbeta {a b : ℝ} (ha : 0 < a) (hb : 0 < b) (s : S) {v : Fl × S}
    (h : rbeta (fin a) (fin b) s = some v) : In (Set.Ioo 0 1) v.1 := by
  rw [rbeta, if_neg (by simp [beta_ok, ha.le, hb.le]), Option.bind_eq_some_iff] at h
  obtain ⟨x, hx, h⟩ := h
  rw [Option.map_eq_some_iff] at h
  obtain ⟨y, hy, rfl⟩ := h
  rw [one_eq] at hx hy
  obtain ⟨r, hr, e1⟩ := C28_rgamma ha eps_le_one s hx
  obtain ⟨q, hq, e2⟩ := C28_rgamma hb eps_le_one x.2 hy
  have hr : 0 < r := hr
  have hq : 0 < q := hq
  simp only [e1, e2, ideal, ifin_div _ (add_pos hr hq).ne']
  refine ⟨_, ⟨by positivity, ?_⟩, rfl⟩
  rw [div_lt_one (by positivity)]; linarith

theorem C28_rf {d₁ d₂ : ℝ} (h1 : Lib.eps ≤ d₁) (h2 : Lib.eps ≤ d₂) (s : S) {v : Fl × S}
    (h : rf (fin d₁) (fin d₂) s = some v) : In (Set.Ioi 0) v.1 := by
  have p1 := Lib.eps_pos.trans_le h1
  have p2 := Lib.eps_pos.trans_le h2
  rw [rf, if_neg (by simp [f_ok, eps, h1, h2]), Option.bind_eq_some_iff] at h
  obtain ⟨x, hx, h⟩ := h
  rw [Option.map_eq_some_iff] at h
  obtain ⟨y, hy, rfl⟩ := h
  obtain ⟨r, hr, e1⟩ := C28_rchisq p1 s hx
  obtain ⟨q, hq, e2⟩ := C28_rchisq p2 x.2 hy
  have hr : 0 < r := hr
  have hq : 0 < q := hq
  simp only [e1, e2, ideal, ifin_div _ p1.ne', ifin_div _ hq.ne']
  exact ⟨_, by show (0 : ℝ) < _; positivity, rfl⟩

theorem C28_rt {k : ℝ} (hk : Lib.eps ≤ k) (s : S) {v : Fl × S} (h : rt (fin k) s = some v) :
    In Set.univ v.1 := by
  have p1 := Lib.eps_pos.trans_le hk
  rw [rt, if_neg (by simp [t_ok, eps, hk])] at h
  dsimp only at h
  rw [Option.map_eq_some_iff] at h
  obtain ⟨y, hy, rfl⟩ := h
  obtain ⟨q, hq, e2⟩ := C28_rchisq p1 _ hy
  have hq : 0 < q := hq
  obtain ⟨z, -, hz⟩ := C28_rnorm 0 zero_le_one s
  have : √(q / k) ≠ 0 := (Real.sqrt_pos.2 (by positivity)).ne'
  rw [zero_eq, one_eq, hz]
  simp only [e2, ideal, ifin_div _ p1.ne', isqrt (show 0 ≤ q / k by positivity), ifin_div _ this]
  exact ⟨_, trivial, rfl⟩

/-- the two candidates of rand/rinvgauss.ipp:43-54 are positive -/
theorem invgaussRoot_pos {mu lambda y : ℝ} (hm : 0 < mu) (hl : 0 < lambda) (hy : 0 ≤ y) :
    0 < mu + (mu * mu * y - mu * √(4 * mu * lambda * y + mu * mu * y * y)) / (2 * lambda) := by
  have h1 : √(4 * mu * lambda * y + mu * mu * y * y) < 2 * lambda + mu * y := by
    rw [Real.sqrt_lt' (by positivity)]
    nlinarith [mul_pos hl hl]
  have h2 : 0 < 2 * lambda := by linarith
  have h3 : mu + (mu * mu * y - mu * √(4 * mu * lambda * y + mu * mu * y * y)) / (2 * lambda) =
      mu * (2 * lambda + mu * y - √(4 * mu * lambda * y + mu * mu * y * y)) / (2 * lambda) := by
    field_simp
    ring
  rw [h3]
  exact div_pos (mul_pos hm (by linarith)) h2

theorem C28_rinvgauss {mu lambda : ℝ} (hm : 0 < mu) (hl : 0 < lambda) (s : S) :
    In (Set.Ioi 0) (rinvgauss (fin mu) (fin lambda) s).1 := by
  obtain ⟨z, -, hz⟩ := C28_rnorm 0 zero_le_one s
  obtain ⟨u, s1, hu, h0, h1⟩ := runif_cases (rnorm (fin 0) (fin 1) s).2
  have hp := invgaussRoot_pos hm hl (mul_self_nonneg z)
  rw [rinvgauss]
  have h2 : 2 * lambda ≠ 0 := by linarith
  have h3 : 0 ≤ 4 * mu * lambda * (z * z) + mu * mu * (z * z) * (z * z) := by
    have := mul_self_nonneg z; positivity
  simp only [zero_eq, one_eq, ofNat_eq, hz, hu, ideal, isqrt h3, ifin_div _ h2, ifin_div _ hp.ne', ifin_div _ (add_pos hm hp).ne']
  split_ifs
  · exact ⟨_, hp, rfl⟩
  · exact ⟨_, div_pos (mul_pos hm hm) hp, rfl⟩

end exact
end Stats

namespace Stats.ExamplesC28
open Fl Spec
open scoped Stats.Exact

/-- every uniform variate in the middle, every normal variate 0 -/
noncomputable def mid : Stream := ⟨fun _ => 1 / 2, fun _ => by norm_num, fun _ => 0⟩

example : Prob (fin (1 / 3)) := ⟨1 / 3, by norm_num, by norm_num, rfl⟩
example : In {0, 1} (rbern (fin (1 / 3)) mid).1 := C28_rbern ⟨1 / 3, by norm_num, by norm_num, rfl⟩ mid
example : In (Set.Ioi 0) (rexp (fin 3) mid).1 := C28_rexp (by norm_num) mid
example : In (Set.Ioi 0) (rweibull (fin 3) (fin 2) mid).1 :=
  C28_rweibull (Exact.eps_le (by norm_num)) (Exact.eps_le (by norm_num)) mid
example : In Set.univ (rcauchy (fin 3) (fin 2) mid).1 := C28_rcauchy 3 (by norm_num) mid
example : ∃ k : ℕ, (k : ℤ) ≤ 7 ∧ (rbinom 7 (fin (1 / 3)) mid).1 = fin k :=
  C28_rbinom (by norm_num) ⟨1 / 3, by norm_num, by norm_num, rfl⟩ mid
example : In (Set.Ioi 0) (rinvgauss (fin 3) (fin 2) mid).1 := C28_rinvgauss (by norm_num) (by norm_num) mid

/-- The rejection loop accepts the first candidate on `mid`. -/
theorem rgamma_mid : ∃ v, rgamma (fin 2) (fin 1) mid = some v := by
  obtain ⟨u, s2, hu, h0, h1⟩ := runif_cases (Engine.norm mid).2
  have hd : (0 : ℝ) < 1 / 3 / √(2 - 1 / 3) := by
    have : (0 : ℝ) < √(2 - 1 / 3) := Real.sqrt_pos.2 (by norm_num)
    positivity
  have h2 := rgamma_loop_step (d := 2 - 1 / 3) hd 0 (show Engine.norm mid = (0, (Engine.norm mid).2) from rfl)
    (by rw [neg_div]; exact neg_lt_zero.2 (one_div_pos.2 hd)) hu h0
  rw [if_pos (by simpa [gammaCheck] using Real.log_neg h0 h1)] at h2
  refine ⟨(fin (2 - 1 / 3) * fin ((1 + 1 / 3 / √(2 - 1 / 3) * 0) ^ 3) * fin 1, s2),
    runFuel_eq (rgamma_rec_mono _ _ _) (n := 1) ?_⟩
  · show rgamma_rec (0 + 1) (fin 2) (fin 1) mid = _
    rw [rgamma_rec_big (by norm_num) (Exact.eps_le (by norm_num)), runFuel_eq (rgamma_loop_mono _ _ _) h2]
    rfl

example : ∃ v, rgamma (fin 2) (fin 1) mid = some v ∧ In (Set.Ioi 0) v.1 := by
  obtain ⟨v, hv⟩ := rgamma_mid
  exact ⟨v, hv, C28_rgamma (by norm_num) (Exact.eps_le (by norm_num)) mid hv⟩

example : ∃ s1, rinvgamma (fin 2) (fin (2 / Lib.eps)) mid = some (nan, s1) :=
  (C28_rinvgamma_violated (by norm_num)
    (by have := Lib.eps_pos; gcongr; norm_num) mid).2

end Stats.ExamplesC28
