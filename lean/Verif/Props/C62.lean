import Verif.Lemmas.TestLaw
import Verif.Spec.Test
import Verif.Props.C61
import Verif.Props.C52B
import Verif.Props.C58
import Verif.Props.C40

/-!
# C62: the classical tests and intervals, put together from the functions of the library

A program draws a sample with `rnorm` (or a sample of vectors with `rmvnorm`), summarises it with `mean` and `var`, and looks
up the statistic with `pnorm`, `pt`, `pchisq` or `pf`. Under the hypothesis the sample was drawn from, the statistic has the
textbook law, and the p-value is uniform; `pchisq` and `pf` treat an argument below epsilon as 0, so with them the p-value is
uniform only above the value at epsilon, and 0 in all other cases. Intervals made with `qnorm` and `qchisq` cover the
parameter with the stated probability.
-/

set_option linter.unusedSectionVars false
open Classical
open MeasureTheory Set

namespace Stats
open Fl MatOps Spec Vec

/-! ### the program -/

section
variable [Lib]

/-- the number of observations -/
noncomputable def size (L : List Fl) : Fl := ofInt L.length

/-- the unbiased estimate of the variance, from the `var` of the library at hand: Armadillo divides by `n - 1`, the others by `n` -/
noncomputable def s2 : Backend → List Fl → Fl
  | .arma, L => var_arma L
  | _, L => size L * var L / ofInt (L.length - 1)

/-- the statistic of the test of the mean with known deviation -/
noncomputable def zstat (mu sigma : ℝ) (L : List Fl) : Fl := (mean L - fin mu) / (fin sigma / sqrt (size L))

/-- the statistic of the test of the mean with unknown deviation -/
noncomputable def tstat (be : Backend) (mu : ℝ) (L : List Fl) : Fl := (mean L - fin mu) / sqrt (s2 be L / size L)

/-- the statistic of the test of the variance -/
noncomputable def chistat (be : Backend) (sigma : ℝ) (L : List Fl) : Fl := ofInt (L.length - 1) * s2 be L / (fin sigma * fin sigma)

/-- the statistic of the comparison of two variances -/
noncomputable def fstat (be : Backend) (L : List Fl × List Fl) : Fl := s2 be L.1 / s2 be L.2

/-- the statistic of the comparison of two means -/
noncomputable def t2stat (be : Backend) (d : ℝ) (L : List Fl × List Fl) : Fl :=
  let pooled := (ofInt (L.1.length - 1) * s2 be L.1 + ofInt (L.2.length - 1) * s2 be L.2) / ofInt (L.1.length + L.2.length - 2)
  (mean L.1 - mean L.2 - fin d) / sqrt (pooled * (1 / size L.1 + 1 / size L.2))

end

variable [Lib] [Ideal]

/-! ### samples -/

theorem held_eq : ∀ (num : ℕ) (o : ℕ → Option Fl) (L : List Fl), L.length = num → (∀ i < num, o i = L[i]?) → held num o = some L
  | 0, _, L, hl, _ => by rw [List.length_eq_zero_iff.1 hl]; rfl
  | n + 1, o, [], hl, _ => by simp at hl
  | n + 1, o, x :: L, hl, h => by
    have h0 : o 0 = some x := by simpa using h 0 (by omega)
    have hr := held_eq n (fun i => o (i + 1)) L (by simpa using hl) fun i hi => by simpa using h (i + 1) (by omega)
    rw [held, h0, Option.bind_some, hr, Option.map_some]

section
variable {S : Type*} [MeasurableSpace S] {P : Measure S} [IsProbabilityMeasure P]
  {call call₁ call₂ : S → S → (ℕ → Option Fl) → Prop} {num n₁ n₂ : ℕ} {out out₁ out₂ : ℕ → Option Fl}
  {D D₁ D₂ : Measure ℝ} [IsProbabilityMeasure D] [IsProbabilityMeasure D₁] [IsProbabilityMeasure D₂]
  {R F A : Type*} [Shape R F] [MeasurableSpace R]

/-- the list a program finds if the drawn numbers are `x` -/
def listed {n : ℕ} (x : Fin n → ℝ) : List Fl := (List.ofFn x).map fin

theorem Spec.IidFill.stat (h : IidFill P call num out D) {stat : List Fl → F} {f : (Fin num → ℝ) → R} (mf : Measurable f)
    (hs : ∀ᵐ x ∂(Measure.pi fun _ : Fin num => D), stat (listed x) = Shape.emb (f x)) {E : Measure R}
    (e : (Measure.pi fun _ : Fin num => D).map f = E) : StatLaw P (Sample call num) stat E := by
  obtain ⟨X, mX, hX, hc⟩ := Stats.IidFill.list h
  rw [← hX] at hs e
  refine ⟨fun s => f (X s), mf.comp mX, ?_, ?_⟩
  · filter_upwards [ae_of_ae_map mX.aemeasurable hs, hc] with s h1 h2
    obtain ⟨⟨s', o, hr⟩, h2⟩ := h2
    refine ⟨⟨_, s', o, hr, rfl⟩, ?_⟩
    rintro _ ⟨s', o, hr, rfl⟩
    exact ⟨_, held_eq _ _ _ (h2 s' o hr).1 (h2 s' o hr).2, h1⟩
  · rw [← e, Measure.map_map mf mX]; rfl

theorem Spec.IidFill.stat₂ (h₁ : IidFill P call₁ n₁ out₁ D₁) (h₂ : IidFill P call₂ n₂ out₂ D₂) {stat : List Fl × List Fl → F}
    {f : (Fin n₁ → ℝ) × (Fin n₂ → ℝ) → R} (mf : Measurable f)
    (hs : ∀ᵐ p ∂((Measure.pi fun _ : Fin n₁ => D₁).prod (Measure.pi fun _ : Fin n₂ => D₂)), stat (listed p.1, listed p.2) = Shape.emb (f p))
    {E : Measure R} (e : ((Measure.pi fun _ : Fin n₁ => D₁).prod (Measure.pi fun _ : Fin n₂ => D₂)).map f = E) :
    StatLaw P (Sample₂ call₁ n₁ call₂ n₂) stat E := by
  obtain ⟨X, N, mX, mN, hX, lX⟩ := h₁
  obtain ⟨Y, mY, lY, hY⟩ := Stats.IidFill.list h₂
  have mXN : Measurable fun s => (X s, N s) := mX.prodMk mN
  have mXY : Measurable fun s => (X s, Y (N s)) := mX.prodMk (mY.comp mN)
  have hN : P.map N = P := by
    have := congrArg (Measure.map Prod.snd) lX
    rw [Measure.map_map measurable_snd mXN, Measure.map_snd_prod, measure_univ, one_smul] at this
    exact this
  have hXY : P.map (fun s => (X s, Y (N s))) = (Measure.pi fun _ : Fin n₁ => D₁).prod (Measure.pi fun _ : Fin n₂ => D₂) := by
    have := congrArg (Measure.map (Prod.map id Y)) lX
    rw [Measure.map_map (measurable_id.prodMap mY) mXN, ← Measure.map_prod_map _ _ measurable_id mY, Measure.map_id, lY] at this
    exact this
  rw [← hXY] at hs e
  rw [← hN] at hY
  refine ⟨fun s => f (X s, Y (N s)), mf.comp mXY, ?_, ?_⟩
  · filter_upwards [ae_of_ae_map mXY.aemeasurable hs, hX, ae_of_ae_map mN.aemeasurable hY] with s h1 h2 h3
    obtain ⟨⟨s', o', hr'⟩, h3⟩ := h3
    refine ⟨⟨_, N s, _, s', o', (h2 (N s) (fun i => if h : i < n₁ then some (fin (X s ⟨i, h⟩)) else out₁ i)).2 ⟨rfl, fun i => rfl⟩,
      hr', rfl⟩, ?_⟩
    rintro _ ⟨s₁, o₁, s₂, o₂, r1, r2, rfl⟩
    obtain ⟨rfl, ho⟩ := (h2 s₁ o₁).1 r1
    have e1 : held n₁ o₁ = some (listed (X s)) := held_eq _ _ _ (by simp [listed]) fun i hi => by
      rw [ho i, dif_pos hi]; simp [listed, hi]
    have e2 : held n₂ o₂ = some (listed (Y (N s))) := held_eq _ _ _ (h3 s₂ o₂ r2).1 (h3 s₂ o₂ r2).2
    exact ⟨_, by rw [e1, e2]; rfl, h1⟩
  · rw [← e, Measure.map_map mf mXY]; rfl

/-- a function of a statistic -/
theorem Spec.StatLaw.prob {run : S → Option A → Prop} {stat : A → F} {E : Measure R} (h : StatLaw P run stat E) {ok : F → Prop} {B : Set R}
    (hB : MeasurableSet B) (hs : ∀ x, ok (Shape.emb x) ↔ x ∈ B) {p : ℝ} (e : E.real B = p) :
    StatProb P run (fun a => ok (stat a)) p := by
  obtain ⟨M, mM, hc, rfl⟩ := h
  rw [map_measureReal_apply mM hB] at e
  rw [StatProb, ← e]
  refine measureReal_congr ?_
  filter_upwards [hc] with s hs'
  obtain ⟨⟨a, ha⟩, hs'⟩ := hs'
  refine propext ⟨fun ⟨_, h2⟩ => ?_, fun hm => ⟨⟨a, ha⟩, fun a ha => ?_⟩⟩
  · obtain ⟨x, rfl, hx⟩ := h2 a ha
    obtain ⟨y, hy, hy'⟩ := hs' _ ha
    obtain rfl := Option.some.inj hy
    rw [hy', hs] at hx
    exact hx
  · obtain ⟨x, rfl, hx⟩ := hs' a ha
    refine ⟨x, rfl, ?_⟩
    show ok (stat x)
    rw [hx, hs]
    exact hm

theorem Spec.StatLaw.map {R' F' : Type*} [Shape R' F'] [MeasurableSpace R'] {run : S → Option A → Prop} {stat : A → F} {E : Measure R}
    (h : StatLaw P run stat E) {g : F → F'} {f : R → R'} (mf : Measurable f) (hg : ∀ x, g (Shape.emb x) = Shape.emb (f x)) :
    StatLaw P run (fun a => g (stat a)) (E.map f) := by
  obtain ⟨M, mM, hc, rfl⟩ := h
  refine ⟨fun s => f (M s), mf.comp mM, hc.mono fun s hs => ⟨hs.1, fun a ha => ?_⟩, (Measure.map_map mf mM).symm⟩
  obtain ⟨x, hx, e⟩ := hs.2 a ha
  exact ⟨x, hx, by show g (stat x) = _; rw [e, hg]⟩

/-- a distribution function of a statistic -/
theorem Spec.StatLaw.pvalue {run : S → Option A → Prop} {stat : A → Fl} {F f : ℝ → ℝ} (h : StatLaw P run stat (densLaw f)) (hF : IsCdf F f)
    {p : Fl → Fl} (hp : ∀ x, p (fin x) = fin (F x)) : StatLaw P run (fun a => p (stat a)) (densLaw (unifPdf 0 1)) :=
  hF.map_self ▸ h.map hF.mono.measurable hp

/-- a distribution function that treats an argument below `e` as 0 -/
theorem Spec.StatLaw.pvalue_cut {run : S → Option A → Prop} {stat : A → Fl} {F f : ℝ → ℝ} (h : StatLaw P run stat (densLaw f)) (hF : IsCdf F f)
    {p : Fl → Fl} {e : ℝ} (hp : ∀ x, e ≤ x → p (fin x) = fin (F x)) (h0 : ∀ x, x < e → p (fin x) = fin 0) {u : ℝ} (hu : 0 ≤ u) (hu1 : u ≤ 1) :
    StatProb P run (fun a => p (stat a) ≤ fin u) (Max.max u (F e)) := by
  have := hF.isProb
  rcases le_total (F e) u with he | he
  · rw [max_eq_left he]
    refine h.prob (ok := fun y => p y ≤ fin u) (B := {x | F x ≤ u}) (measurableSet_le hF.mono.measurable measurable_const) (fun x => ?_) (hF.real_le hu hu1)
    rcases lt_or_ge x e with hx | hx
    · exact ⟨fun _ => (hF.mono hx.le).trans he, fun _ => by show p (fin x) ≤ _; rw [h0 x hx]; exact hu⟩
    · show p (fin x) ≤ _ ↔ _
      rw [hp x hx]; rfl
  · rw [max_eq_right he]
    have hu' : (densLaw f).real {x | x < e ∨ F x ≤ u} = F e := by
      refine le_antisymm ?_ ?_
      · rw [← hF.real_le (hF.nonneg' e) (hF.le_one e)]
        refine measureReal_mono ?_
        rintro x (hx | hx)
        · exact hF.mono hx.le
        · exact hx.trans he
      · have a : (densLaw f).real (Iic e) = (densLaw f).real (Iio e) := by
          refine measureReal_congr ?_
          have : NullSingletonClass (densLaw f) := by unfold densLaw; infer_instance
          exact Iio_ae_eq_Iic.symm
        rw [← hF.real_Iic, a]
        exact measureReal_mono fun x hx => Or.inl hx
    refine h.prob (ok := fun y => p y ≤ fin u) (B := {x | x < e ∨ F x ≤ u})
      (measurableSet_Iio.union (measurableSet_le hF.mono.measurable measurable_const)) (fun x => ?_) hu'
    rcases lt_or_ge x e with hx | hx
    · exact ⟨fun _ => Or.inl hx, fun _ => by show p (fin x) ≤ _; rw [h0 x hx]; exact hu⟩
    · show p (fin x) ≤ _ ↔ _
      rw [hp x hx]
      exact ⟨fun h => Or.inr h, fun h => h.resolve_left (not_lt.2 hx)⟩

end

/-! ### the statistics in exact arithmetic -/

section
variable {n m : ℕ} (x : Fin n → ℝ) (y : Fin m → ℝ)

theorem size_listed : size (listed x) = fin n := by
  simp [size, listed, ideal]

theorem mean_listed (hn : 2 ≤ n) : mean (listed x) = fin (avg x) := by
  rw [listed, C37_mean _ (by rw [ne_eq, List.ofFn_eq_nil_iff]; omega), List.sum_ofFn, List.length_ofFn]

theorem ofInt_pred : ofInt ((listed x).length - 1) = fin ((n : ℝ) - 1) := by
  simp [listed, ideal]

theorem s2_listed (be : Backend) (hn : 2 ≤ n) : s2 be (listed x) = fin (dev x / ((n : ℝ) - 1)) := by
  have hn2 : (2 : ℝ) ≤ n := by exact_mod_cast hn
  have hn1 : (n : ℝ) - 1 ≠ 0 := by linarith
  have hn0 : (n : ℝ) ≠ 0 := by linarith
  have hv : size (listed x) * var (listed x) / ofInt ((listed x).length - 1) = fin (dev x / ((n : ℝ) - 1)) := by
    rw [ofInt_pred, size_listed, listed, C37_var _ (by rw [ne_eq, List.ofFn_eq_nil_iff]; omega), List.sum_ofFn, List.length_ofFn,
      sum_map_ofFn, ifin_mul, ifin_div _ hn1, mul_div_cancel₀ _ hn0]
  rcases be with _ | _ | _
  · rw [s2, listed, C37_var_arma _ (by simpa using hn), List.sum_ofFn, List.length_ofFn, sum_map_ofFn]
  · exact hv
  · exact hv

theorem zstat_listed (mu : ℝ) {sigma : ℝ} (h : 0 < sigma) (hn : 2 ≤ n) :
    zstat mu sigma (listed x) = fin ((avg x - mu) / (sigma / √(n : ℝ))) := by
  have hn2 : (2 : ℝ) ≤ n := by exact_mod_cast hn
  have hs : √(n : ℝ) ≠ 0 := (Real.sqrt_pos.2 (by linarith)).ne'
  rw [zstat, mean_listed x hn, size_listed, isqrt (by linarith), ifin_div _ hs, ifin_sub, ifin_div _ (div_ne_zero h.ne' hs)]

theorem tstat_listed (be : Backend) (mu : ℝ) (hn : 2 ≤ n) (hx : 0 < dev x) :
    tstat be mu (listed x) = fin ((avg x - mu) / √(dev x / (n : ℝ) / ((n : ℝ) - 1))) := by
  have hn2 : (2 : ℝ) ≤ n := by exact_mod_cast hn
  have hn1 : 0 < (n : ℝ) - 1 := by linarith
  have hn0 : 0 < (n : ℝ) := by linarith
  rw [tstat, mean_listed x hn, size_listed, s2_listed x be hn, ifin_div _ hn0.ne', div_right_comm, isqrt (by positivity), ifin_sub,
    ifin_div _ (Real.sqrt_pos.2 (by positivity)).ne']

theorem chistat_listed (be : Backend) {sigma : ℝ} (h : 0 < sigma) (hn : 2 ≤ n) :
    chistat be sigma (listed x) = fin (dev x / sigma ^ 2) := by
  have hn2 : (2 : ℝ) ≤ n := by exact_mod_cast hn
  have hn1 : (n : ℝ) - 1 ≠ 0 := by linarith
  rw [chistat, ofInt_pred, s2_listed x be hn, ifin_mul, ifin_mul, ifin_div _ (mul_pos h h).ne', mul_div_cancel₀ _ hn1, pow_two]

theorem fstat_listed (be : Backend) (hn : 2 ≤ n) (hm : 2 ≤ m) (hy : 0 < dev y) :
    fstat be (listed x, listed y) = fin (dev x / ((n : ℝ) - 1) / (dev y / ((m : ℝ) - 1))) := by
  have hm2 : (2 : ℝ) ≤ m := by exact_mod_cast hm
  have hm1 : 0 < (m : ℝ) - 1 := by linarith
  rw [fstat, s2_listed x be hn, s2_listed y be hm, ifin_div _ (div_pos hy hm1).ne']

theorem t2stat_listed (be : Backend) (d : ℝ) (hn : 2 ≤ n) (hm : 2 ≤ m) (hx : 0 < dev x) (hy : 0 < dev y) :
    t2stat be d (listed x, listed y) = fin ((avg x - avg y - d) /
        √((dev x + dev y) / ((n : ℝ) + m - 2) * (1 / n + 1 / m))) := by
  have hn2 : (2 : ℝ) ≤ n := by exact_mod_cast hn
  have hm2 : (2 : ℝ) ≤ m := by exact_mod_cast hm
  have hn0 : 0 < (n : ℝ) := by linarith
  have hm0 : 0 < (m : ℝ) := by linarith
  have hn1 : (n : ℝ) - 1 ≠ 0 := by linarith
  have hm1 : (m : ℝ) - 1 ≠ 0 := by linarith
  have hk : 0 < (n : ℝ) + m - 2 := by linarith
  have e : ofInt (((listed x).length : ℤ) + (listed y).length - 2) = fin ((n : ℝ) + m - 2) := by simp [listed, ideal]
  have hp : 0 < (dev x + dev y) / ((n : ℝ) + m - 2) * (1 / n + 1 / m) := by positivity
  simp only [t2stat, e, ofInt_pred, s2_listed x be hn, s2_listed y be hm, mean_listed x hn, mean_listed y hm, size_listed, ifin_mul, ifin_add, ifin_sub,
    mul_div_cancel₀ _ hn1, mul_div_cancel₀ _ hm1, ifin_div _ hk.ne', one_eq, ifin_div _ hn0.ne', ifin_div _ hm0.ne', isqrt hp.le,
    ifin_div _ (Real.sqrt_pos.2 hp).ne']

end

/-! ### one sample -/

/-- a vector call of `rnorm` -/
abbrev fillNorm {S : Type*} [Engine S] (mu sigma : ℝ) (num : ℕ) (out : ℕ → Option Fl) : S → S → (ℕ → Option Fl) → Prop :=
  fun s s' o => RandVecSerial (Gen.ofFun fun s => some (rnorm (fin mu) (fin sigma) s)) num s out s' o

section
variable {S : Type*} [MeasurableSpace S] [Engine S] {P : Measure S} (hP : FairEngine P) (be : Backend) {n m : ℕ} (hn : 2 ≤ n) (hm : 2 ≤ m)
  (mu mu₁ mu₂ : ℝ) {sigma : ℝ} (h : 0 < sigma) (out out' : ℕ → Option Fl)

include hP h in
theorem fillNorm_iid (n : ℕ) : IidFill P (fillNorm mu sigma n out) n out (densLaw (normPdf mu sigma)) := by
  have := hP.prob
  have := (isCdf_norm mu h).isProb
  exact C46_noomp (C32_rnorm hP mu h) n out

include hP hn h

/-- The mean of a sample is normal. -/
theorem C62_mean : StatLaw P (Sample (fillNorm mu sigma n out) n) mean (densLaw (normPdf mu (sigma / √(n : ℝ)))) := by
  have := hP.prob
  have := (isCdf_norm mu h).isProb
  exact (fillNorm_iid hP mu h out n).stat (f := fun x => avg x) (by fun_prop) (.of_forall fun x => mean_listed x hn) (mean_law mu hn h)

/-- The statistics of mean and variance are independent. -/
theorem C62_mean_var : StatLaw P (Sample (fillNorm mu sigma n out) n) (fun L => (zstat mu sigma L, chistat be sigma L))
    ((densLaw (normPdf 0 1)).prod (densLaw (chisqPdf (n - 1)))) := by
  have := hP.prob
  have := (isCdf_norm mu h).isProb
  refine (fillNorm_iid hP mu h out n).stat (measurable_student mu (sigma := sigma)) (.of_forall fun x => ?_) (student_law hn mu h)
  rw [zstat_listed x mu h hn, chistat_listed x be h hn]; rfl

theorem C62_z : StatLaw P (Sample (fillNorm mu sigma n out) n) (zstat mu sigma) (densLaw (normPdf 0 1)) := by
  have := hP.prob
  have := (isCdf_norm mu h).isProb
  exact (fillNorm_iid hP mu h out n).stat (f := fun x => (avg x - mu) / (sigma / √(n : ℝ))) (by fun_prop)
    (.of_forall fun x => zstat_listed x mu h hn) (z_law mu hn h)

theorem C62_t : StatLaw P (Sample (fillNorm mu sigma n out) n) (tstat be mu) (densLaw (tPdf (n - 1))) := by
  have := hP.prob
  have := (isCdf_norm mu h).isProb
  exact (fillNorm_iid hP mu h out n).stat (f := fun x => (avg x - mu) / √(dev x / (n : ℝ) / ((n : ℝ) - 1))) (by fun_prop)
    ((dev_pos mu hn h).mono fun x hx => tstat_listed x be mu hn hx) (t_law mu hn h)

theorem C62_chisq : StatLaw P (Sample (fillNorm mu sigma n out) n) (chistat be sigma) (densLaw (chisqPdf (n - 1))) := by
  have := hP.prob
  have := (isCdf_norm mu h).isProb
  exact (fillNorm_iid hP mu h out n).stat (f := fun x => dev x / sigma ^ 2) (by fun_prop)
    (.of_forall fun x => chistat_listed x be h hn) (dev_law mu hn h)

/-- The p-value of the test of the mean with known deviation is uniform. -/
theorem C62_z_test : StatLaw P (Sample (fillNorm mu sigma n out) n) (fun L => pnorm (zstat mu sigma L) 0 1 false) (densLaw (unifPdf 0 1)) := by
  have := hP.prob
  exact (C62_z hP hn mu h out).pvalue (isCdf_norm 0 one_pos) (p := fun x => pnorm x 0 1 false) fun x => by rw [zero_eq, one_eq]; exact pnorm_fin 0 one_pos x

/-- The p-value of the test of the mean with unknown deviation is uniform. -/
theorem C62_t_test : StatLaw P (Sample (fillNorm mu sigma n out) n) (fun L => pt (tstat be mu L) (ofInt (n - 1)) false) (densLaw (unifPdf 0 1)) := by
  have := hP.prob
  have hn2 : (2 : ℝ) ≤ n := by exact_mod_cast hn
  have hn1 : Lib.eps ≤ (n : ℝ) - 1 := eps_le_one.trans (by linarith)
  refine (C62_t hP be hn mu h out).pvalue (isCdf_t (Lib.eps_pos.trans_le hn1)) (p := fun x => pt x (ofInt (n - 1)) false) fun x => ?_
  rw [ofInt_eq]; push_cast
  exact pt_fin hn1 x

/-- The p-value of the test of the variance: at most `u` with probability `u`, unless the value at epsilon is greater. -/
theorem C62_chisq_test {u : ℝ} (hu : 0 ≤ u) (hu1 : u ≤ 1) :
    StatProb P (Sample (fillNorm mu sigma n out) n) (fun L => pchisq (chistat be sigma L) (ofInt (n - 1)) false ≤ fin u)
      (Max.max u (gammaP (((n : ℝ) - 1) / 2) (Lib.eps / 2))) := by
  have := hP.prob
  have hn2 : (2 : ℝ) ≤ n := by exact_mod_cast hn
  have hn1 : 0 < (n : ℝ) - 1 := by linarith
  have hc : ofInt ((n : ℤ) - 1) = fin ((n : ℝ) - 1) := by rw [ofInt_eq]; push_cast; rfl
  have := (C62_chisq hP be hn mu h out).pvalue_cut (isCdf_chisq hn1) (p := fun x => pchisq x (ofInt (n - 1)) false) (e := Lib.eps)
    (fun x hx => by rw [hc]; exact pchisq_fin hn1 x (Or.inl hx)) (fun x hx => by rw [hc]; exact chisq_cut hx hn1) hu hu1
  rwa [if_pos Lib.eps_pos] at this

/-! ### two samples -/

include hm

theorem C62_f : StatLaw P (Sample₂ (fillNorm mu₁ sigma n out) n (fillNorm mu₂ sigma m out') m) (fstat be)
    (densLaw (fPdf (n - 1) (m - 1))) := by
  have := hP.prob
  have := (isCdf_norm mu₁ h).isProb
  have := (isCdf_norm mu₂ h).isProb
  refine (fillNorm_iid hP mu₁ h out n).stat₂ (fillNorm_iid hP mu₂ h out' m)
    (f := fun p => dev p.1 / ((n : ℝ) - 1) / (dev p.2 / ((m : ℝ) - 1))) (by fun_prop) ?_ (f_law mu₁ mu₂ hn hm h)
  have := (Measure.quasiMeasurePreserving_snd (μ := Measure.pi fun _ : Fin n => densLaw (normPdf mu₁ sigma))
    (ν := Measure.pi fun _ : Fin m => densLaw (normPdf mu₂ sigma))).ae (dev_pos mu₂ hm h)
  exact this.mono fun p hp => fstat_listed p.1 p.2 be hn hm hp

theorem C62_t2 : StatLaw P (Sample₂ (fillNorm mu₁ sigma n out) n (fillNorm mu₂ sigma m out') m) (t2stat be (mu₁ - mu₂))
    (densLaw (tPdf (n + m - 2))) := by
  have := hP.prob
  have := (isCdf_norm mu₁ h).isProb
  have := (isCdf_norm mu₂ h).isProb
  refine (fillNorm_iid hP mu₁ h out n).stat₂ (fillNorm_iid hP mu₂ h out' m)
    (f := fun p => (avg p.1 - avg p.2 - (mu₁ - mu₂)) / √((dev p.1 + dev p.2) / ((n : ℝ) + m - 2) * (1 / n + 1 / m))) (by fun_prop) ?_
    (t2_law mu₁ mu₂ hn hm h)
  have a := (Measure.quasiMeasurePreserving_snd (μ := Measure.pi fun _ : Fin n => densLaw (normPdf mu₁ sigma))
    (ν := Measure.pi fun _ : Fin m => densLaw (normPdf mu₂ sigma))).ae (dev_pos mu₂ hm h)
  have b := (Measure.quasiMeasurePreserving_fst (μ := Measure.pi fun _ : Fin n => densLaw (normPdf mu₁ sigma))
    (ν := Measure.pi fun _ : Fin m => densLaw (normPdf mu₂ sigma))).ae (dev_pos mu₁ hn h)
  filter_upwards [a, b] with p hp hq using t2stat_listed p.1 p.2 be _ hn hm hq hp

/-- The p-value of the comparison of two means is uniform. -/
theorem C62_t2_test : StatLaw P (Sample₂ (fillNorm mu₁ sigma n out) n (fillNorm mu₂ sigma m out') m)
    (fun L => pt (t2stat be (mu₁ - mu₂) L) (ofInt (n + m - 2)) false) (densLaw (unifPdf 0 1)) := by
  have := hP.prob
  have hn2 : (2 : ℝ) ≤ n := by exact_mod_cast hn
  have hm2 : (2 : ℝ) ≤ m := by exact_mod_cast hm
  have hk : Lib.eps ≤ (n : ℝ) + m - 2 := eps_le_one.trans (by linarith)
  refine (C62_t2 hP be hn hm mu₁ mu₂ h out out').pvalue (isCdf_t (Lib.eps_pos.trans_le hk)) (p := fun x => pt x (ofInt (n + m - 2)) false) fun x => ?_
  rw [ofInt_eq]; push_cast
  exact pt_fin hk x

/-- The p-value of the comparison of two variances. -/
theorem C62_f_test {u : ℝ} (hu : 0 ≤ u) (hu1 : u ≤ 1) :
    StatProb P (Sample₂ (fillNorm mu₁ sigma n out) n (fillNorm mu₂ sigma m out') m)
      (fun L => pf (fstat be L) (ofInt (n - 1)) (ofInt (m - 1)) false ≤ fin u)
      (Max.max u (fCdf ((n : ℝ) - 1) ((m : ℝ) - 1) Lib.eps)) := by
  have := hP.prob
  have hn2 : (2 : ℝ) ≤ n := by exact_mod_cast hn
  have hm2 : (2 : ℝ) ≤ m := by exact_mod_cast hm
  have hn1 : Lib.eps ≤ (n : ℝ) - 1 := eps_le_one.trans (by linarith)
  have hm1 : Lib.eps ≤ (m : ℝ) - 1 := eps_le_one.trans (by linarith)
  have hc : ofInt ((n : ℤ) - 1) = fin ((n : ℝ) - 1) := by rw [ofInt_eq]; push_cast; rfl
  have hd : ofInt ((m : ℤ) - 1) = fin ((m : ℝ) - 1) := by rw [ofInt_eq]; push_cast; rfl
  have := (C62_f hP be hn hm mu₁ mu₂ h out out').pvalue_cut (isCdf_f (Lib.eps_pos.trans_le hn1) (Lib.eps_pos.trans_le hm1))
    (p := fun x => pf x (ofInt (n - 1)) (ofInt (m - 1)) false) (e := Lib.eps)
    (fun x hx => by rw [hc, hd]; exact pf_fin hn1 hm1 x (Or.inl hx)) (fun x hx => by rw [hc, hd]; exact f_cut hx hn1 hm1) hu hu1
  rwa [if_pos Lib.eps_pos] at this

end

/-! ### intervals -/

theorem inv_at {q : Fl → Fl} {F : ℝ → ℝ} (hi : IsInv q F) {z u : ℝ} (hz : F z = u) (h0 : 0 < u) (h1 : u < 1) : q (fin u) = fin z := by
  subst hz; exact hi z h0 h1

section
variable {S : Type*} [MeasurableSpace S] [Engine S] {P : Measure S} (hP : FairEngine P) (be : Backend) {n : ℕ} (hn : 2 ≤ n)
  (mu : ℝ) {sigma : ℝ} (h : 0 < sigma) (out : ℕ → Option Fl) {α : ℝ} (h0 : 0 < α) (h1 : α < 1)
include hP hn h h0 h1

/-- The interval for the mean with known deviation covers the mean with the stated probability. -/
theorem C62_z_interval : StatProb P (Sample (fillNorm mu sigma n out) n)
    (fun L => mean L - qnorm (fin (1 - α / 2)) 0 1 * (fin sigma / sqrt (size L)) ≤ fin mu ∧
      fin mu ≤ mean L + qnorm (fin (1 - α / 2)) 0 1 * (fin sigma / sqrt (size L))) (1 - α) := by
  have := hP.prob
  have := (isCdf_norm mu h).isProb
  have hn2 : (2 : ℝ) ≤ n := by exact_mod_cast hn
  have hs : 0 < √(n : ℝ) := Real.sqrt_pos.2 (by linarith)
  obtain ⟨z, hz⟩ := (isCdf_norm 0 one_pos).exists_eq (u := 1 - α / 2) (by linarith) (by linarith)
  have hq : qnorm (fin (1 - α / 2)) 0 1 = fin z := by
    rw [zero_eq, one_eq]; exact inv_at (qnorm_inv 0 one_pos) hz (by linarith) (by linarith)
  simp only [sub_zero, div_one] at hz
  have hz0 : 0 ≤ z := by
    by_contra hc
    have h2 := (isCdf_norm 0 one_pos).mono (show z ≤ -z by linarith)
    simp only [sub_zero, div_one, Phi_neg] at h2
    linarith
  have hl : StatLaw P (Sample (fillNorm mu sigma n out) n) (fun L => (mean L, fin sigma / sqrt (size L)))
      ((densLaw (normPdf mu (sigma / √(n : ℝ)))).map fun x => (x, sigma / √(n : ℝ))) := by
    refine (fillNorm_iid hP mu h out n).stat (f := fun x => (avg x, sigma / √(n : ℝ))) (by fun_prop) (.of_forall fun x => ?_) ?_
    · rw [mean_listed x hn, size_listed, isqrt (by linarith), ifin_div _ hs.ne']; rfl
    · rw [← mean_law mu hn h, Measure.map_map (by fun_prop) (by fun_prop)]; rfl
  have mB : MeasurableSet {y : ℝ × ℝ | y.1 - z * y.2 ≤ mu ∧ mu ≤ y.1 + z * y.2} :=
    (measurableSet_le (f := fun y : ℝ × ℝ => y.1 - z * y.2) (by fun_prop) measurable_const).inter
      (measurableSet_le (g := fun y : ℝ × ℝ => y.1 + z * y.2) measurable_const (by fun_prop))
  refine hl.prob (ok := fun y : Fl × Fl => y.1 - qnorm (fin (1 - α / 2)) 0 1 * y.2 ≤ fin mu ∧ fin mu ≤ y.1 + qnorm (fin (1 - α / 2)) 0 1 * y.2)
    mB (fun y => ?_) ?_
  · show fin y.1 - _ * fin y.2 ≤ fin mu ∧ fin mu ≤ fin y.1 + _ * fin y.2 ↔ _
    rw [hq, ifin_mul, ifin_sub, ifin_add]; rfl
  · rw [map_measureReal_apply (by fun_prop) mB]
    have hd : 0 < sigma / √(n : ℝ) := div_pos h hs
    have : (fun x : ℝ => (x, sigma / √(n : ℝ))) ⁻¹' {y : ℝ × ℝ | y.1 - z * y.2 ≤ mu ∧ mu ≤ y.1 + z * y.2} =
        Icc (mu - z * (sigma / √(n : ℝ))) (mu + z * (sigma / √(n : ℝ))) := by
      ext x
      exact ⟨fun ⟨a, b⟩ => ⟨by linarith, by linarith⟩, fun ⟨a, b⟩ => ⟨by linarith, by linarith⟩⟩
    have hzd : 0 ≤ z * (sigma / √(n : ℝ)) := by positivity
    rw [this, (isCdf_norm mu hd).real_Icc (by linarith)]
    simp only [add_sub_cancel_left, sub_sub_cancel_left, neg_div, mul_div_cancel_right₀ _ hd.ne', Phi_neg]
    linarith

/-- The interval for the variance covers the variance with the stated probability. -/
theorem C62_chisq_interval : StatProb P (Sample (fillNorm mu sigma n out) n)
    (fun L => ofInt (L.length - 1) * s2 be L / qchisq (fin (1 - α / 2)) (ofInt (n - 1)) ≤ fin (sigma ^ 2) ∧
      fin (sigma ^ 2) ≤ ofInt (L.length - 1) * s2 be L / qchisq (fin (α / 2)) (ofInt (n - 1))) (1 - α) := by
  have := hP.prob
  have := (isCdf_norm mu h).isProb
  have hn2 : (2 : ℝ) ≤ n := by exact_mod_cast hn
  have hn1 : 0 < (n : ℝ) - 1 := by linarith
  have hc : ofInt ((n : ℤ) - 1) = fin ((n : ℝ) - 1) := by rw [ofInt_eq]; push_cast; rfl
  have hF := isCdf_chisq hn1
  obtain ⟨b, hb⟩ := hF.exists_eq (u := 1 - α / 2) (by linarith) (by linarith)
  obtain ⟨a, ha⟩ := hF.exists_eq (u := α / 2) (by linarith) (by linarith)
  have qb := inv_at (qchisq_inv hn1) hb (by linarith) (by linarith)
  have qa := inv_at (qchisq_inv hn1) ha (by linarith) (by linarith)
  have a0 : 0 < a := by by_contra hc; rw [if_neg hc] at ha; linarith
  have b0 : 0 < b := by by_contra hc; rw [if_neg hc] at hb; linarith
  have hab : a ≤ b := by
    by_contra hc
    have := hF.mono (not_le.1 hc).le
    rw [ha, hb] at this
    linarith
  have hl : StatLaw P (Sample (fillNorm mu sigma n out) n) (fun L => ofInt (L.length - 1) * s2 be L)
      ((densLaw (chisqPdf ((n : ℝ) - 1))).map fun x => x * sigma ^ 2) := by
    refine (fillNorm_iid hP mu h out n).stat (f := fun x => dev x) (by fun_prop) (.of_forall fun x => ?_) ?_
    · rw [ofInt_pred, s2_listed x be hn, ifin_mul, mul_div_cancel₀ _ hn1.ne']; rfl
    · rw [← dev_law mu hn h, Measure.map_map (by fun_prop) (by fun_prop)]
      congr 1; funext x
      show _ = dev x / sigma ^ 2 * sigma ^ 2
      rw [div_mul_cancel₀ _ (pow_pos h 2).ne']
  rw [hc]
  have mB : MeasurableSet {y : ℝ | y / b ≤ sigma ^ 2 ∧ sigma ^ 2 ≤ y / a} :=
    (measurableSet_le (f := fun y : ℝ => y / b) (by fun_prop) measurable_const).inter
      (measurableSet_le (g := fun y : ℝ => y / a) measurable_const (by fun_prop))
  refine hl.prob (ok := fun y => y / qchisq (fin (1 - α / 2)) (fin ((n : ℝ) - 1)) ≤ fin (sigma ^ 2) ∧
    fin (sigma ^ 2) ≤ y / qchisq (fin (α / 2)) (fin ((n : ℝ) - 1))) mB (fun y => ?_) ?_
  · show fin y / _ ≤ _ ∧ _ ≤ fin y / _ ↔ _
    rw [qa, qb, ifin_div _ a0.ne', ifin_div _ b0.ne']; rfl
  · rw [map_measureReal_apply (by fun_prop) mB]
    have hs : 0 < sigma ^ 2 := pow_pos h 2
    have : (fun x : ℝ => x * sigma ^ 2) ⁻¹' {y : ℝ | y / b ≤ sigma ^ 2 ∧ sigma ^ 2 ≤ y / a} = Icc a b := by
      ext x
      show x * sigma ^ 2 / b ≤ sigma ^ 2 ∧ sigma ^ 2 ≤ x * sigma ^ 2 / a ↔ a ≤ x ∧ x ≤ b
      rw [div_le_iff₀ b0, le_div_iff₀ a0, mul_comm x, mul_le_mul_iff_right₀ hs, mul_le_mul_iff_right₀ hs]
      exact and_comm
    rw [this, hF.real_Icc hab, hb, ha]
    ring

/-- The interval for the mean with unknown deviation, for samples of two or three: `qt` is a closed form there. With larger
samples `qt` returns an approximation (see C42, C49), so the claim for all `n` is not available. -/
theorem C62_t_interval_partial (hn3 : n ≤ 3) : StatProb P (Sample (fillNorm mu sigma n out) n)
    (fun L => Fl.abs ((mean L - fin mu) / sqrt (s2 be L / size L)) ≤ qt (fin (1 - α / 2)) (ofInt (n - 1))) (1 - α) := by
  have := hP.prob
  have hn2 : (2 : ℝ) ≤ n := by exact_mod_cast hn
  have hn1 : 0 < (n : ℝ) - 1 := by linarith
  have hc : ofInt ((n : ℤ) - 1) = fin ((n : ℝ) - 1) := by rw [ofInt_eq]; push_cast; rfl
  have hF := isCdf_t hn1
  obtain ⟨z, hz⟩ := hF.exists_eq (u := 1 - α / 2) (by linarith) (by linarith)
  have hi : IsInv (fun u => qt u (fin ((n : ℝ) - 1))) (tCdf ((n : ℝ) - 1)) := by
    obtain rfl | rfl : n = 2 ∨ n = 3 := by omega
    · have := qt_one_inv
      rw [show tCdfCoded 1 = tCdf 1 from funext fun x => tCdfCoded_eq one_pos x] at this
      norm_num
      exact this
    · have := qt_two_inv
      rw [show tCdfCoded 2 = tCdf 2 from funext fun x => tCdfCoded_eq two_pos x] at this
      norm_num
      exact this
  have hq := inv_at hi hz (by linarith) (by linarith)
  have hs := tCdf_symm hn1 z
  simp only [zero_sub, zero_add] at hs
  have hz0 : 0 ≤ z := by
    by_contra hcz
    have h2 := hF.mono (show z ≤ -z by linarith)
    linarith
  rw [hc, hq]
  refine (C62_t hP be hn mu h out).prob (ok := fun y => Fl.abs y ≤ fin z) (B := Icc (-z) z) measurableSet_Icc (fun y => ?_) ?_
  · show Fl.abs (fin y) ≤ fin z ↔ _
    rw [Fl.abs, fin_le_fin, abs_le]; rfl
  · rw [hF.real_Icc (by linarith)]
    linarith

end

/-! ### samples of vectors -/

section
variable {S : Type*} [MeasurableSpace S] [Engine S] {P : Measure S} [LinAlg] [IdealLin] {K : ℕ} {be : Backend} {pre : Bool}
  {Psi C : Matrix (Fin K) (Fin K) ℝ}
open Matrix

/-- Hotelling's statistic of a sample of normal vectors has the law of `rf`. -/
theorem C62_hotelling (hP : FairEngine P) {n : ℕ} (hK : 0 < K) (hn : K + 1 ≤ n) (pos : Fin n × Fin K ≃ Fin (n * K)) (mu : Fin K → ℝ)
    (h : Given be Psi pre C) :
    HasLaw P (via (fun x : Fin n → Fin K → ℝ => ((n : ℝ) - K) / K * ((fun i => √(n : ℝ) * ((∑ k, x k i) / (n : ℝ) - mu i)) ⬝ᵥ
        (of fun i j => ∑ k, (x k i - (∑ l, x l i) / (n : ℝ)) * (x k j - (∑ l, x l j) / (n : ℝ)))⁻¹ *ᵥ
          fun i => √(n : ℝ) * ((∑ k, x k i) / (n : ℝ) - mu i)))
      (rmvnormGn be n pos (fun i => fin (mu i)) (ofReal C) pre)) (densLaw (fPdf K (n - K))) := by
  have := hP.prob
  have hK0 : (0 : ℝ) < K := by exact_mod_cast hK
  have hnK : (K : ℝ) + 1 ≤ n := by exact_mod_cast hn
  have := (isCdf_f hK0 (show (0 : ℝ) < n - K by linarith)).isProb
  exact (nearGen_via (near_rmvnorm_n hP n pos mu h) (measurable_hotelling mu) (hotelling_law hK hn mu h.posDef)).exact

/-- So `pf` is the distribution function of the statistic. -/
theorem C62_hotelling_test (hP : FairEngine P) {n : ℕ} (hK : 0 < K) (hn : K + 1 ≤ n) (pos : Fin n × Fin K ≃ Fin (n * K)) (mu : Fin K → ℝ)
    (h : Given be Psi pre C) :
    DrawCdf P (via (fun x : Fin n → Fin K → ℝ => ((n : ℝ) - K) / K * ((fun i => √(n : ℝ) * ((∑ k, x k i) / (n : ℝ) - mu i)) ⬝ᵥ
        (of fun i j => ∑ k, (x k i - (∑ l, x l i) / (n : ℝ)) * (x k j - (∑ l, x l j) / (n : ℝ)))⁻¹ *ᵥ
          fun i => √(n : ℝ) * ((∑ k, x k i) / (n : ℝ) - mu i)))
      (rmvnormGn be n pos (fun i => fin (mu i)) (ofReal C) pre))
      (fun x => pf (fin x) (ofInt K) (ofInt (n - K)) false) noCut 0 := by
  have := hP.prob
  have hK1 : (1 : ℝ) ≤ K := by exact_mod_cast hK
  have hnK : (K : ℝ) + 1 ≤ n := by exact_mod_cast hn
  have h1 : Lib.eps ≤ (K : ℝ) := eps_le_one.trans hK1
  have h2 : Lib.eps ≤ (n : ℝ) - K := eps_le_one.trans (by linarith)
  have e1 : ofInt (K : ℤ) = fin (K : ℝ) := by rw [ofInt_eq]; push_cast; rfl
  have e2 : ofInt ((n : ℤ) - K) = fin ((n : ℝ) - K) := by rw [ofInt_eq]; push_cast; rfl
  have hF := isCdf_f (Lib.eps_pos.trans_le h1) (Lib.eps_pos.trans_le h2)
  have := hF.isProb
  rw [e1, e2]
  exact (reproduces_dens (nearLaw_of_hasLaw (C62_hotelling hP hK hn pos mu h)) hF (fun x hx => pf_fin h1 h2 x hx) fun _ => none).draw

end

end Stats

/-! ### examples -/

namespace Stats.ExamplesC62
open Fl MatOps Spec Matrix MeasureTheory
attribute [local instance] Exact.linAlg Exact.idealLin
open scoped Stats.Low

variable (be : Backend) (out out' : ℕ → Option Fl)

/-- the mean of 25 draws with mean 3 and deviation 2 -/
example : StatLaw Tape.tapeLaw (Sample (fillNorm 3 2 25 out) 25) mean (densLaw (normPdf 3 (2 / √((25 : ℕ) : ℝ)))) :=
  C62_mean Tape.fair (by norm_num) 3 two_pos out

example : StatLaw Tape.tapeLaw (Sample (fillNorm 3 2 25 out) 25) (fun L => (zstat 3 2 L, chistat be 2 L))
    ((densLaw (normPdf 0 1)).prod (densLaw (chisqPdf ((25 : ℕ) - 1)))) :=
  C62_mean_var Tape.fair be (by norm_num) 3 two_pos out

example : StatLaw Tape.tapeLaw (Sample (fillNorm 3 2 25 out) 25) (zstat 3 2) (densLaw (normPdf 0 1)) :=
  C62_z Tape.fair (by norm_num) 3 two_pos out

example : StatLaw Tape.tapeLaw (Sample (fillNorm 3 2 25 out) 25) (tstat be 3) (densLaw (tPdf ((25 : ℕ) - 1))) :=
  C62_t Tape.fair be (by norm_num) 3 two_pos out

example : StatLaw Tape.tapeLaw (Sample (fillNorm 3 2 25 out) 25) (chistat be 2) (densLaw (chisqPdf ((25 : ℕ) - 1))) :=
  C62_chisq Tape.fair be (by norm_num) 3 two_pos out

example : StatLaw Tape.tapeLaw (Sample (fillNorm 3 2 25 out) 25) (fun L => pnorm (zstat 3 2 L) 0 1 false) (densLaw (unifPdf 0 1)) :=
  C62_z_test Tape.fair (by norm_num) 3 two_pos out

/-- with Armadillo's `var` and with that of the other libraries -/
example : StatLaw Tape.tapeLaw (Sample (fillNorm 3 2 25 out) 25) (fun L => pt (tstat be 3 L) (ofInt ((25 : ℕ) - 1)) false) (densLaw (unifPdf 0 1)) :=
  C62_t_test Tape.fair be (by norm_num) 3 two_pos out

/-- a p-value of at most five per cent -/
example : StatProb Tape.tapeLaw (Sample (fillNorm 3 2 25 out) 25)
    (fun L => pchisq (chistat be 2 L) (ofInt ((25 : ℕ) - 1)) false ≤ fin (1 / 20))
    (Max.max (1 / 20) (gammaP ((((25 : ℕ) : ℝ) - 1) / 2) (Lib.eps / 2))) :=
  C62_chisq_test Tape.fair be (by norm_num) 3 two_pos out (by norm_num) (by norm_num)

/-- samples of 10 and of 15 numbers -/
example : StatLaw Tape.tapeLaw (Sample₂ (fillNorm 3 2 10 out) 10 (fillNorm 5 2 15 out') 15) (fstat be)
    (densLaw (fPdf ((10 : ℕ) - 1) ((15 : ℕ) - 1))) :=
  C62_f Tape.fair be (by norm_num) (by norm_num) 3 5 two_pos out out'

example : StatLaw Tape.tapeLaw (Sample₂ (fillNorm 3 2 10 out) 10 (fillNorm 5 2 15 out') 15) (t2stat be (3 - 5))
    (densLaw (tPdf ((10 : ℕ) + (15 : ℕ) - 2))) :=
  C62_t2 Tape.fair be (by norm_num) (by norm_num) 3 5 two_pos out out'

example : StatLaw Tape.tapeLaw (Sample₂ (fillNorm 3 2 10 out) 10 (fillNorm 5 2 15 out') 15)
    (fun L => pt (t2stat be (3 - 5) L) (ofInt ((10 : ℕ) + (15 : ℕ) - 2)) false) (densLaw (unifPdf 0 1)) :=
  C62_t2_test Tape.fair be (by norm_num) (by norm_num) 3 5 two_pos out out'

example : StatProb Tape.tapeLaw (Sample₂ (fillNorm 3 2 10 out) 10 (fillNorm 5 2 15 out') 15)
    (fun L => pf (fstat be L) (ofInt ((10 : ℕ) - 1)) (ofInt ((15 : ℕ) - 1)) false ≤ fin (1 / 20))
    (Max.max (1 / 20) (fCdf (((10 : ℕ) : ℝ) - 1) (((15 : ℕ) : ℝ) - 1) Lib.eps)) :=
  C62_f_test Tape.fair be (by norm_num) (by norm_num) 3 5 two_pos out out' (by norm_num) (by norm_num)

/-- 95% intervals -/
example : StatProb Tape.tapeLaw (Sample (fillNorm 3 2 25 out) 25)
    (fun L => mean L - qnorm (fin (1 - 1 / 20 / 2)) 0 1 * (fin 2 / sqrt (size L)) ≤ fin 3 ∧
      fin 3 ≤ mean L + qnorm (fin (1 - 1 / 20 / 2)) 0 1 * (fin 2 / sqrt (size L))) (1 - 1 / 20) :=
  C62_z_interval Tape.fair (by norm_num) 3 two_pos out (by norm_num) (by norm_num)

example : StatProb Tape.tapeLaw (Sample (fillNorm 3 2 25 out) 25)
    (fun L => ofInt (L.length - 1) * s2 be L / qchisq (fin (1 - 1 / 20 / 2)) (ofInt ((25 : ℕ) - 1)) ≤ fin (2 ^ 2) ∧
      fin (2 ^ 2) ≤ ofInt (L.length - 1) * s2 be L / qchisq (fin (1 / 20 / 2)) (ofInt ((25 : ℕ) - 1))) (1 - 1 / 20) :=
  C62_chisq_interval Tape.fair be (by norm_num) 3 two_pos out (by norm_num) (by norm_num)

example : StatProb Tape.tapeLaw (Sample (fillNorm 3 2 3 out) 3)
    (fun L => Fl.abs ((mean L - fin 3) / sqrt (s2 be L / size L)) ≤ qt (fin (1 - 1 / 20 / 2)) (ofInt ((3 : ℕ) - 1))) (1 - 1 / 20) :=
  C62_t_interval_partial Tape.fair be (by norm_num) 3 two_pos out (by norm_num) (by norm_num) (by norm_num)

/-- eight vectors with two entries -/
example (pos : Fin 8 × Fin 2 ≃ Fin (8 * 2)) : DrawCdf Tape.tapeLaw
    (via (fun x : Fin 8 → Fin 2 → ℝ => (((8 : ℕ) : ℝ) - (2 : ℕ)) / (2 : ℕ) *
        ((fun i => √((8 : ℕ) : ℝ) * ((∑ k, x k i) / ((8 : ℕ) : ℝ) - (![1, 2] : Fin 2 → ℝ) i)) ⬝ᵥ
        (of fun i j => ∑ k, (x k i - (∑ l, x l i) / ((8 : ℕ) : ℝ)) * (x k j - (∑ l, x l j) / ((8 : ℕ) : ℝ)))⁻¹ *ᵥ
          fun i => √((8 : ℕ) : ℝ) * ((∑ k, x k i) / ((8 : ℕ) : ℝ) - (![1, 2] : Fin 2 → ℝ) i)))
      (rmvnormGn .eigen 8 pos (fun i => fin ((![1, 2] : Fin 2 → ℝ) i)) (ofReal corr) false))
    (fun x => pf (fin x) (ofInt (2 : ℕ)) (ofInt ((8 : ℕ) - (2 : ℕ))) false) noCut 0 :=
  C62_hotelling_test Tape.fair (by norm_num) (by norm_num) pos _ (.matrix (by simp) corr_posDef)

end Stats.ExamplesC62
