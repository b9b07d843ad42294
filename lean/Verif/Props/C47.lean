import Verif.Spec.Sym
import Verif.Lemmas.WishLaw
import Verif.Props.C35
import Verif.Props.C50

/-!
# C47: the laws of `rwish` and `rinvwish`

In exact arithmetic with exact solvers and an ideal engine, the matrix `rwish` returns has the density that `dwish` computes
(C36) and the matrix `rinvwish` returns the density of `dinvwish`, with respect to Lebesgue measure on lower triangles.
The entries of the Bartlett factor are followed through the loops of the code, draw by draw.
-/

set_option linter.unusedSectionVars false
open Classical
open MeasureTheory Set Matrix
open scoped ENNReal

namespace Stats
open Fl MatOps Spec Vec
variable [Lib] [Ideal] {S : Type*} [Engine S] [MeasurableSpace S] {P : Measure S}

theorem pi_dirac {ι : Type*} [Fintype ι] (x : ι → ℝ) : (Measure.pi fun i => Measure.dirac (x i)) = Measure.dirac x := by
  refine Measure.pi_eq fun s hs => ?_
  rw [Measure.dirac_apply' _ (MeasurableSet.univ_pi hs)]
  by_cases hx : x ∈ univ.pi s
  · rw [indicator_of_mem hx]
    refine (Finset.prod_eq_one fun i _ => ?_).symm
    rw [Measure.dirac_apply' _ (hs i), indicator_of_mem (hx i trivial)]; rfl
  · rw [indicator_of_notMem hx]
    obtain ⟨i, hi⟩ : ∃ i, x i ∉ s i := by simpa [Set.mem_pi] using hx
    refine (Finset.prod_eq_zero (Finset.mem_univ i) ?_).symm
    rw [Measure.dirac_apply' _ (hs i), indicator_of_notMem hi]

/-- The loop over a row changes nothing else. -/
theorem wish_row_keep (i : ℕ) : ∀ (m j : ℕ) (A : Grid) (s : S) {r c : ℕ} (_ : ¬ (r = i ∧ j ≤ c ∧ c < j + m)),
    (wish_row i m j A s).1 r c = A r c
  | 0, j, A, s, r, c, _ => rfl
  | m + 1, j, A, s, r, c, h => by
    simp only [wish_row]
    rw [wish_row_keep i m (j + 1) _ _ (by omega)]
    by_cases hr : r = i
    · subst hr
      rw [Function.update_self, Function.update_of_ne (by omega)]
    · rw [Function.update_of_ne hr]

/-- The loop over the rows changes nothing on and above the diagonal. -/
theorem wish_lower_keep : ∀ (m i : ℕ) (A : Grid) (s : S) {r c : ℕ} (_ : r ≤ c), (wish_lower m i A s).1 r c = A r c
  | 0, i, A, s, r, c, _ => rfl
  | m + 1, i, A, s, r, c, h => by
    simp only [wish_lower]
    rw [wish_lower_keep m (i + 1) _ _ h, wish_row_keep i i 0 A s (by omega)]

/-- The loop over the diagonal changes nothing else. -/
theorem wish_diag_keep (nu : ℕ → Fl) : ∀ (m i : ℕ) (A : Grid) (s : S) {q : Grid × S} (_ : wish_diag nu m i A s = some q)
    {r c : ℕ} (_ : r ≠ c), q.1 r c = A r c
  | 0, i, A, s, q, h, r, c, _ => by
    obtain rfl := Option.some.inj h
    rfl
  | m + 1, i, A, s, q, h, r, c, hrc => by
    rw [wish_diag, Option.bind_eq_some_iff] at h
    obtain ⟨cs, hcs, h⟩ := h
    rw [wish_diag_keep nu m (i + 1) _ cs.2 h hrc]
    by_cases hr : r = i
    · subst hr
      rw [Function.update_self, Function.update_of_ne (Ne.symm hrc)]
    · rw [Function.update_of_ne hr]

/-- one entry of the lower triangle is drawn anew -/
theorem Draw.update {ι : Type*} [Fintype ι] [DecidableEq ι] {X : S → ι → ℝ} {N : S → S} {μ ν : ι → Measure ℝ}
    [∀ i, IsProbabilityMeasure (μ i)] [∀ i, IsProbabilityMeasure (ν i)] [IsProbabilityMeasure P] (hX : Draw P X N (Measure.pi μ)) (p : ι)
    {Z : S → ℝ} {M : S → S} (hZ : Draw P Z M (ν p)) (h : ∀ i, i ≠ p → ν i = μ i) :
    Draw P (fun s => Function.update (X s) p (Z (N s))) (fun s => M (N s)) (Measure.pi ν) := by
  have hm : Measurable fun q : (ι → ℝ) × ℝ => Function.update q.1 p q.2 := by
    refine measurable_pi_iff.2 fun i => ?_
    by_cases hi : i = p
    · subst hi; simpa using measurable_snd
    · simp only [Function.update_of_ne hi]
      exact (measurable_pi_apply i).comp measurable_fst
  have := (hX.comp hZ).map hm
  rwa [pi_update p h] at this

theorem NearDraw.update {ι : Type*} [Fintype ι] [DecidableEq ι] {X : S → ι → ℝ} {N : S → S} {μ ν : ι → Measure ℝ}
    [∀ i, IsProbabilityMeasure (μ i)] [∀ i, IsProbabilityMeasure (ν i)] [IsProbabilityMeasure P] {ε η : ℝ≥0∞}
    (hX : NearDraw P X N (Measure.pi μ) ε) (p : ι) {Z : S → ℝ} {M : S → S} (hZ : NearDraw P Z M (ν p) η)
    (h : ∀ i, i ≠ p → ν i = μ i) :
    NearDraw P (fun s => Function.update (X s) p (Z (N s))) (fun s => M (N s)) (Measure.pi ν) (ε + η) := by
  have hm : Measurable fun q : (ι → ℝ) × ℝ => Function.update q.1 p q.2 := by
    refine measurable_pi_iff.2 fun i => ?_
    by_cases hi : i = p
    · subst hi; simpa using measurable_snd
    · simp only [Function.update_of_ne hi]
      exact (measurable_pi_apply i).comp measurable_fst
  have := (hX.comp hZ).map hm
  rwa [pi_update p h] at this

section bartlett
variable {K : ℕ}

/-- Row `i` from column `j` on. -/
theorem row_draw (hP : FairEngine P) {i : ℕ} (hi : i < K) : ∀ (m j : ℕ) (_ : j + m ≤ i) {X : S → Low K → ℝ} {N : S → S}
    {A : S → Grid} {μ μ' : Low K → Measure ℝ} (_ : ∀ p, IsProbabilityMeasure (μ p)) (_ : Draw P X N (Measure.pi μ))
    (_ : ∀ᵐ s ∂P, ∀ p : Low K, A s p.1.1 p.1.2 = fin (X s p))
    (_ : ∀ p : Low K, μ' p = if (p.1.1 : ℕ) = i ∧ j ≤ (p.1.2 : ℕ) ∧ (p.1.2 : ℕ) < j + m then densLaw (normPdf 0 1) else μ p),
    ∃ X' N', Draw P X' N' (Measure.pi μ') ∧ ∀ᵐ s ∂P, (wish_row i m j (A s) (N s)).2 = N' s ∧
      ∀ p : Low K, (wish_row i m j (A s) (N s)).1 p.1.1 p.1.2 = fin (X' s p)
  | 0, j, _, X, N, A, μ, μ', _, hX, hA, h => by
    have e : μ' = μ := funext fun p => by rw [h p, if_neg (by omega)]
    subst e
    exact ⟨X, N, hX, hA.mono fun s hs => ⟨rfl, hs⟩⟩
  | m + 1, j, hj, X, N, A, μ, μ', hμ, hX, hA, h => by
    have := hP.prob
    obtain ⟨Z, M, hZ, eZ⟩ := rnorm_draw hP 0 one_pos
    have hg := hZ.isProb
    set q : Low K := ⟨(⟨i, hi⟩, ⟨j, by omega⟩), by show (⟨j, _⟩ : Fin K) ≤ ⟨i, hi⟩; rw [Fin.mk_le_mk]; omega⟩ with hq
    set μ₁ : Low K → Measure ℝ := fun p => if p = q then densLaw (normPdf 0 1) else μ p with hμ₁
    have hp₁ : ∀ p, IsProbabilityMeasure (μ₁ p) := fun p => by rw [hμ₁]; dsimp only; split <;> infer_instance
    have hX₁ : Draw P (fun s => Function.update (X s) q (Z (N s))) (fun s => M (N s)) (Measure.pi μ₁) :=
      hX.update (ν := μ₁) q (by simpa [hμ₁] using hZ) fun p hp => if_neg hp
    have hpq : ∀ p : Low K, p = q ↔ (p.1.1 : ℕ) = i ∧ (p.1.2 : ℕ) = j := by
      intro p
      rw [hq, Subtype.ext_iff, Prod.ext_iff, Fin.ext_iff, Fin.ext_iff]
    obtain ⟨X', N', hX', e'⟩ := row_draw hP hi m (j + 1) (by omega) (μ' := μ')
      (A := fun s => Function.update (A s) i (Function.update (A s i) j (rnorm 0 1 (N s)).1)) hp₁ hX₁
      (by
        filter_upwards [hA, hX.ae eZ] with s hs hz p
        rw [← zero_eq, ← one_eq] at hz
        rw [hz]
        dsimp only
        by_cases hp : p = q
        · have hp' := (hpq p).1 hp
          rw [hp'.1, hp'.2, hp, Function.update_self, Function.update_self, Function.update_self]
        · rw [Function.update_of_ne hp, ← hs p]
          by_cases hr : (p.1.1 : ℕ) = i
          · rw [hr, Function.update_self, Function.update_of_ne fun hc => hp ((hpq p).2 ⟨hr, hc⟩)]
          · rw [Function.update_of_ne hr])
      (by
        intro p
        rw [h p, hμ₁]
        dsimp only
        simp only [hpq]
        split_ifs <;> first | rfl | omega)
    refine ⟨X', N', hX', ?_⟩
    filter_upwards [e', hX.ae eZ] with s hs hz
    rw [← zero_eq, ← one_eq] at hz
    simp only [wish_row]
    rw [hz] at hs ⊢
    exact hs

/-- Rows `i..` -/
theorem lower_draw (hP : FairEngine P) : ∀ (m i : ℕ) (_ : i + m ≤ K) {X : S → Low K → ℝ} {N : S → S}
    {A : S → Grid} {μ μ' : Low K → Measure ℝ} (_ : ∀ p, IsProbabilityMeasure (μ p)) (_ : Draw P X N (Measure.pi μ))
    (_ : ∀ᵐ s ∂P, ∀ p : Low K, A s p.1.1 p.1.2 = fin (X s p))
    (_ : ∀ p : Low K, μ' p = if i ≤ (p.1.1 : ℕ) ∧ (p.1.1 : ℕ) < i + m ∧ (p.1.2 : ℕ) < p.1.1 then densLaw (normPdf 0 1) else μ p),
    ∃ X' N', Draw P X' N' (Measure.pi μ') ∧ ∀ᵐ s ∂P, (wish_lower m i (A s) (N s)).2 = N' s ∧
      ∀ p : Low K, (wish_lower m i (A s) (N s)).1 p.1.1 p.1.2 = fin (X' s p)
  | 0, i, _, X, N, A, μ, μ', _, hX, hA, h => by
    have e : μ' = μ := funext fun p => by rw [h p, if_neg (by omega)]
    subst e
    exact ⟨X, N, hX, hA.mono fun s hs => ⟨rfl, hs⟩⟩
  | m + 1, i, hi, X, N, A, μ, μ', hμ, hX, hA, h => by
    have := hP.prob
    obtain ⟨Z, M, hZ, eZ⟩ := rnorm_draw hP 0 one_pos
    have hg := hZ.isProb
    set μ₁ : Low K → Measure ℝ := fun p => if (p.1.1 : ℕ) = i ∧ 0 ≤ (p.1.2 : ℕ) ∧ (p.1.2 : ℕ) < 0 + i then densLaw (normPdf 0 1) else μ p with hμ₁
    have hp₁ : ∀ p, IsProbabilityMeasure (μ₁ p) := fun p => by rw [hμ₁]; dsimp only; split <;> infer_instance
    obtain ⟨X₁, N₁, hX₁, e₁⟩ := row_draw hP (K := K) (i := i) (by omega) i 0 (by omega) (μ' := μ₁) hμ hX hA fun p => rfl
    obtain ⟨X', N', hX', e'⟩ := lower_draw hP m (i + 1) (by omega) (μ' := μ') (A := fun s => (wish_row i i 0 (A s) (N s)).1) hp₁ hX₁
      (e₁.mono fun s hs => hs.2)
      (by
        intro p
        rw [h p, hμ₁]
        dsimp only
        split_ifs <;> first | rfl | omega)
    refine ⟨X', N', hX', ?_⟩
    filter_upwards [e', e₁] with s hs h1
    simp only [wish_lower]
    rw [h1.1]
    exact hs

omit [Lib] [Ideal] in
theorem chi_prob {k : ℝ} (hk : 0 < k) : IsProbabilityMeasure (densLaw (chiPdf k)) := by
  have := (isCdf_chisq hk).isProb
  rw [← chi_law]
  exact Measure.isProbabilityMeasure_map Real.continuous_sqrt.measurable.aemeasurable

/-- The diagonal from `i` on. -/
theorem near_diag (hP : FairEngine P) (hδ : Lib.next 0 1 ≤ 1 / 30) {ν : ℝ} (hν : (K : ℝ) - 1 < ν) {nu : ℕ → Fl}
    (hnu : ∀ k < K, nu k = fin (ν - k)) : ∀ (m i : ℕ) (_ : i + m ≤ K) {X : S → Low K → ℝ} {N : S → S}
    {A : S → Grid} {μ μ' : Low K → Measure ℝ} {ε : ℝ≥0∞} (_ : ∀ p, IsProbabilityMeasure (μ p))
    (_ : NearDraw P X N (Measure.pi μ) ε)
    (_ : ∀ᵐ s ∂P, ∀ p : Low K, A s p.1.1 p.1.2 = fin (X s p))
    (_ : ∀ p : Low K, μ' p = if i ≤ (p.1.1 : ℕ) ∧ (p.1.1 : ℕ) < i + m ∧ p.1.1 = p.1.2 then
      densLaw (chiPdf (ν - (p.1.1 : ℕ))) else μ p),
    ∃ X' N', NearDraw P X' N' (Measure.pi μ') (ε + ENNReal.ofReal (m * (7 * Lib.next 0 1))) ∧ ∀ᵐ s ∂P, ∃ A', wish_diag nu m i (A s) (N s) = some (A', N' s) ∧
      ∀ p : Low K, A' p.1.1 p.1.2 = fin (X' s p)
  | 0, i, _, X, N, A, μ, μ', ε, _, hX, hA, h => by
    have e : μ' = μ := funext fun p => by rw [h p, if_neg (by omega)]
    subst e
    exact ⟨X, N, by simpa using hX, hA.mono fun s hs => ⟨_, rfl, hs⟩⟩
  | m + 1, i, hi, X, N, A, μ, μ', ε, hμ, hX, hA, h => by
    have := hP.prob
    have hk : 0 < ν - (i : ℕ) := df_pos hν ⟨i, by omega⟩
    obtain ⟨C, M, hC, eC⟩ := near_rchisq hP hδ hk
    have pos : ∀ᵐ x ∂densLaw (chisqPdf (ν - (i : ℕ))), 0 < x := by
      rw [chisqPdf_fun]
      exact densLaw_ae (measurable_gammaPdf _ 2) (p := fun x => 0 < x) fun x hx => by rw [gammaPdf, if_neg hx]
    have hZ : NearDraw P (fun s => √(C s)) M (densLaw (chiPdf (ν - (i : ℕ)))) (ENNReal.ofReal (7 * Lib.next 0 1)) :=
      chi_law ▸ hC.map (f := Real.sqrt) (by fun_prop)
    have hg := chi_prob hk
    set q : Low K := ⟨(⟨i, by omega⟩, ⟨i, by omega⟩), le_rfl⟩ with hq
    set μ₁ : Low K → Measure ℝ := fun p => if p = q then densLaw (chiPdf (ν - (i : ℕ))) else μ p with hμ₁
    have hp₁ : ∀ p, IsProbabilityMeasure (μ₁ p) := fun p => by rw [hμ₁]; dsimp only; split <;> infer_instance
    have hX₁ : NearDraw P (fun s => Function.update (X s) q √(C (N s))) (fun s => M (N s)) (Measure.pi μ₁)
        (ε + ENNReal.ofReal (7 * Lib.next 0 1)) :=
      hX.update (ν := μ₁) q (by simp only [hμ₁, if_true]; exact hZ) fun p hp => if_neg hp
    have hpq : ∀ p : Low K, p = q ↔ (p.1.1 : ℕ) = i ∧ (p.1.2 : ℕ) = i := by
      intro p
      rw [hq, Subtype.ext_iff, Prod.ext_iff, Fin.ext_iff, Fin.ext_iff]
    obtain ⟨X', N', hX', e'⟩ := near_diag hP hδ hν hnu m (i + 1) (by omega) (μ' := μ')
      (A := fun s => Function.update (A s) i (Function.update (A s i) i (fin √(C (N s))))) hp₁ hX₁
      (by
        filter_upwards [hA] with s hs p
        by_cases hp : p = q
        · have hp' := (hpq p).1 hp
          rw [hp'.1, hp'.2, hp, Function.update_self, Function.update_self, Function.update_self]
        · rw [Function.update_of_ne hp, ← hs p]
          by_cases hr : (p.1.1 : ℕ) = i
          · rw [hr, Function.update_self, Function.update_of_ne fun hc => hp ((hpq p).2 ⟨hr, hc⟩)]
          · rw [Function.update_of_ne hr])
      (by
        intro p
        rw [h p, hμ₁]
        dsimp only
        simp only [hpq, Fin.ext_iff]
        by_cases hp : (p.1.1 : ℕ) = i ∧ (p.1.2 : ℕ) = i
        · rw [if_pos (by omega), if_neg (by omega), if_pos hp, hp.1]
        · split_ifs <;> first | rfl | omega)
    have hε : ε + ENNReal.ofReal (7 * Lib.next 0 1) + ENNReal.ofReal (m * (7 * Lib.next 0 1)) =
        ε + ENNReal.ofReal ((m + 1 : ℕ) * (7 * Lib.next 0 1)) := by
      have d0 : 0 ≤ Lib.next 0 1 := delta_nonneg
      rw [add_assoc, ← ENNReal.ofReal_add (by linarith) (by positivity)]
      congr 2; push_cast; ring
    refine ⟨X', N', hε ▸ hX', ?_⟩
    filter_upwards [e', hX.ae eC, hX.ae (hC.ae_val pos)] with s hs hc hp
    obtain ⟨A', h1, h2⟩ := hs
    refine ⟨A', ?_, h2⟩
    rw [wish_diag, hnu i (by omega), hc, Option.bind_some, isqrt hp.le]
    exact h1

/-- The lower triangle of the Bartlett factor consists of independent normal and chi variates. -/
theorem near_bartlett (hP : FairEngine P) (hδ : Lib.next 0 1 ≤ 1 / 30) {ν : ℝ} (hν : (K : ℝ) - 1 < ν) {nu : ℕ → Fl}
    (hnu : ∀ k < K, nu k = fin (ν - k)) (garbage : Grid) :
    (∀ p : Low K, IsProbabilityMeasure (densLaw (bartPdf ν p))) ∧
    ∃ U N, NearDraw P U N (Measure.pi fun p : Low K => densLaw (bartPdf ν p)) (ENNReal.ofReal (K * (7 * Lib.next 0 1))) ∧
      ∀ᵐ s ∂P, bartlett K nu garbage s = some (ofReal (tri (U s)), N s) := by
  have := hP.prob
  have hprob : ∀ p : Low K, IsProbabilityMeasure (densLaw (bartPdf ν p)) := by
    intro p
    rw [bartPdf]
    split
    · exact chi_prob (df_pos hν p.1.1)
    · obtain ⟨Z, M, hZ, -⟩ := rnorm_draw hP 0 one_pos
      exact hZ.isProb
  refine ⟨hprob, ?_⟩
  have h0 : Draw P (fun _ (_ : Low K) => (0 : ℝ)) (fun s => s) (Measure.pi fun _ => Measure.dirac 0) := by
    refine ⟨measurable_const, measurable_id, ?_⟩
    rw [pi_dirac, Measure.dirac_prod]
  obtain ⟨Z, M, hZ, -⟩ := rnorm_draw hP 0 one_pos
  have hg := hZ.isProb
  set μ₁ : Low K → Measure ℝ := fun p => if 1 ≤ (p.1.1 : ℕ) ∧ (p.1.1 : ℕ) < 1 + (K - 1) ∧ (p.1.2 : ℕ) < p.1.1 then
    densLaw (normPdf 0 1) else Measure.dirac 0 with hμ₁
  have hp₁ : ∀ p, IsProbabilityMeasure (μ₁ p) := fun p => by rw [hμ₁]; dsimp only; split <;> infer_instance
  rcases Nat.eq_zero_or_pos K with hK | hK
  · subst hK
    have h0' : Draw P (fun _ (_ : Low 0) => (0 : ℝ)) (fun s => s) (Measure.pi fun p : Low 0 => densLaw (bartPdf ν p)) := by
      convert! h0 using 2; exact Subsingleton.elim _ _
    refine ⟨_, _, h0'.near.mono (by simp), ae_of_all _ fun s => ?_⟩
    simp only [bartlett, wish_diag, Option.map_some]
    congr 2
    exact Subsingleton.elim _ _
  obtain ⟨X₁, N₁, hX₁, e₁⟩ := lower_draw hP (K - 1) 1 (by omega) (A := fun _ => zeros_blaze K K garbage) (μ' := μ₁)
    (fun _ => inferInstance) h0 (ae_of_all _ fun s p => by rw [C37_zeros_blaze _ _ _ _ _ p.1.1.2 p.1.2.2, zero_eq]) fun p => rfl
  obtain ⟨U, N, hU, e⟩ := near_diag hP hδ hν hnu K 0 (by omega) (A := fun s => (wish_lower (K - 1) 1 (zeros_blaze K K garbage) s).1)
    (μ' := fun p => densLaw (bartPdf ν p)) hp₁ hX₁.near (e₁.mono fun s hs => hs.2)
    (by
      intro p
      have := p.2
      rw [bartPdf, hμ₁]
      dsimp only
      split_ifs <;> first | rfl | omega)
  refine ⟨U, N, by simpa using hU, ?_⟩
  filter_upwards [e, e₁] with s hs h1
  obtain ⟨A', h2, h3⟩ := hs
  have hb : bartlett K nu garbage s = some ((fun i j => A' i j : Mat K K), N s) := by
    simp only [bartlett]
    rw [h1.1, h2, Option.map_some]
    rfl
  rw [hb]
  congr 2
  funext i j
  by_cases hij : j ≤ i
  · rw [ofReal, tri, of_apply, dif_pos hij]
    exact h3 ⟨(i, j), hij⟩
  · have hij := not_le.1 hij
    have hij' : (i : ℕ) < j := hij
    refine (wish_diag_keep nu _ _ _ _ h2 hij'.ne).trans ?_
    rw [ofReal, tri_zero _ hij, wish_lower_keep _ _ _ _ hij'.le,
      C37_zeros_blaze _ _ _ _ _ i.2 j.2, zero_eq]

end bartlett

theorem hasLawM_iff {ι κ : Type*} {g : S → Option ((ι → κ → Fl) × S)} {D : Measure (ι → κ → ℝ)} :
    HasLawM P g D ↔ ∃ X N, Draw P X N D ∧ ∀ᵐ s ∂P, g s = some (fun i j => fin (X s i j), N s) :=
  ⟨fun ⟨X, N, a, b, c, d⟩ => ⟨X, N, ⟨a, b, d⟩, c⟩, fun ⟨X, N, h, c⟩ => ⟨X, N, h.mX, h.mN, c, h.law⟩⟩

variable [LinAlg] [IdealLin] {K : ℕ}

instance {ι : Type*} [Fintype ι] (f : (ι → ℝ) → ℝ) : SFinite (densLawV f) := by rw [densLawV]; infer_instance

omit [LinAlg] [IdealLin] in
/-- `C A A' C'` on lower triangles -/
theorem near_wish (hP : FairEngine P) (hδ : Lib.next 0 1 ≤ 1 / 30) {ν : ℝ} (hν : (K : ℝ) - 1 < ν) {nu : ℕ → Fl}
    (hnu : ∀ k < K, nu k = fin (ν - k)) (garbage : Grid) {C : Matrix (Fin K) (Fin K) ℝ} (hC : C.det ≠ 0) :
    ∃ (U : S → Low K → ℝ) (N : S → S), NearDraw P (fun s => congr C (sqr (U s))) N
        (densLawV fun x : Low K → ℝ => if (sym x).PosDef then wishPdf (C * Cᵀ) ν (sym x) else 0)
        (ENNReal.ofReal (K * (7 * Lib.next 0 1))) ∧
      ∀ᵐ s ∂P, bartlett K nu garbage s = some (ofReal (tri (U s)), N s) := by
  have := hP.prob
  obtain ⟨hprob, U, N, hU, e⟩ := near_bartlett (K := K) hP hδ hν hnu garbage
  refine ⟨U, N, ?_, e⟩
  have hs : Measurable (sqr (K := K)) :=
    (continuous_iff_continuousAt.2 fun u => (sqr_hasFDerivAt u).continuousAt).measurable
  have hc : Measurable (congr C) := (LinearMap.continuous_of_finiteDimensional _).measurable
  have h := (hU.map hs).map hc
  rw [bart_law hν, posDef_congr_law hC] at h
  convert! h using 3 with x
  split_ifs with hx
  · exact (wish_scale hC hx ν).symm
  · rfl

theorem near_rwish_pre (hP : FairEngine P) (hδ : Lib.next 0 1 ≤ 1 / 30) (be : Backend) {ν : ℝ} (hν : (K : ℝ) - 1 < ν)
    {nu : ℕ → Fl} (hnu : ∀ k < K, nu k = fin (ν - k)) (garbage : Grid) {C : Matrix (Fin K) (Fin K) ℝ} (hC : C.det ≠ 0) :
    ∃ X N, NearDraw P X N (posDefLaw (wishPdf (C * Cᵀ) ν)) (ENNReal.ofReal (K * (7 * Lib.next 0 1))) ∧
      ∀ᵐ s ∂P, rwish be (ofReal C) nu true garbage s = some (fun i j => fin (X s i j), N s) := by
  have := hP.prob
  obtain ⟨U, N, h, e⟩ := near_wish hP hδ hν hnu garbage hC
  refine ⟨_, N, h.map measurable_sym, e.mono fun s hs => ?_⟩
  simp only [rwish, hs, Option.map_some, if_true, mmul_real, trans_real]
  rw [sym_congr, sym_sqr, transpose_mul]
  simp only [Matrix.mul_assoc]
  rfl

/-- With a supplied nonsingular factor `C` of the scale matrix `C C'`, on every library. -/
theorem C47_rwish_pre (hP : FairEngine P) (hn : Lib.next 0 1 = 0) (be : Backend) {ν : ℝ} (hν : (K : ℝ) - 1 < ν) {nu : ℕ → Fl}
    (hnu : ∀ k < K, nu k = fin (ν - k)) (garbage : Grid) {C : Matrix (Fin K) (Fin K) ℝ} (hC : C.det ≠ 0) :
    HasLawM P (rwish be (ofReal C) nu true garbage) (posDefLaw (wishPdf (C * Cᵀ) ν)) := by
  obtain ⟨X, N, h, e⟩ := near_rwish_pre hP (by rw [hn]; norm_num) be hν hnu garbage hC
  simp only [hn, mul_zero, ENNReal.ofReal_zero] at h
  exact hasLawM_iff.2 ⟨X, N, h.exact, e⟩

/-- Without a supplied factor (Armadillo, Eigen). -/
theorem C47_rwish_partial (hP : FairEngine P) (hn : Lib.next 0 1 = 0) {be : Backend} (hbe : be ≠ .blaze) {ν : ℝ}
    (hν : (K : ℝ) - 1 < ν) {nu : ℕ → Fl} (hnu : ∀ k < K, nu k = fin (ν - k)) (garbage : Grid)
    {Psi : Matrix (Fin K) (Fin K) ℝ} (h : Psi.PosDef) :
    HasLawM P (rwish be (ofReal Psi) nu false garbage) (posDefLaw (wishPdf Psi ν)) := by
  obtain ⟨L, hL, e⟩ := C37_chol_partial hbe h
  have := C47_rwish_pre hP hn be hν hnu garbage hL.det_ne
  rw [hL.mul] at this
  rwa [show rwish (S := S) be (ofReal Psi) nu false garbage = rwish be (ofReal L) nu true garbage from
    funext fun s => rwish_chol e nu garbage s]

theorem near_rinvwish_pre (hP : FairEngine P) (hδ : Lib.next 0 1 ≤ 1 / 30) (be : Backend) {ν : ℝ} (hν : (K : ℝ) - 1 < ν)
    {nu : ℕ → Fl} (hnu : ∀ k < K, nu k = fin (ν - k)) (garbage : Grid) {C : Matrix (Fin K) (Fin K) ℝ} (hC : C.det ≠ 0) :
    ∃ X N, NearDraw P X N (posDefLaw (invwishPdf (C * Cᵀ)⁻¹ ν)) (ENNReal.ofReal (K * (7 * Lib.next 0 1))) ∧
      ∀ᵐ s ∂P, rinvwish be (ofReal C) nu true garbage s = some (fun i j => fin (X s i j), N s) := by
  have := hP.prob
  obtain ⟨U, N, h, e⟩ := near_wish hP hδ hν hnu garbage hC
  have hCC : (C * Cᵀ).PosDef := posDef_self_mul hC
  have hpd : ∀ᵐ s ∂P, (sym (congr C (sqr (U s)))).PosDef := by
    refine h.ae_val (p := fun x => (sym x).PosDef) ?_
    rw [ae_iff, densLawV, ← compl_ofPred, withDensity_apply _ (measurableSet_posDef (K := K)).compl]
    refine (setLIntegral_congr_fun (g := fun _ => 0) (measurableSet_posDef (K := K)).compl fun x hx => ?_).trans (by simp)
    have hx : ¬ (sym x).PosDef := hx
    simp only [if_neg hx, ENNReal.ofReal_zero]
  have h2 := (h.map measurable_invL).map measurable_sym
  rw [densLawV_inv] at h2
  have hlaw : posDefLaw (invwishPdf (C * Cᵀ)⁻¹ ν) = (densLawV fun x : Low K → ℝ =>
      if (sym x).PosDef then (sym x).det⁻¹ ^ (K + 1) * wishPdf (C * Cᵀ) ν (sym x)⁻¹ else 0).map fun x i j => sym x i j := by
    rw [posDefLaw]
    congr 2; funext x
    split_ifs with hx
    · have := wish_inv hCC.inv hx ν
      rw [nonsing_inv_nonsing_inv _ (isUnit_iff_ne_zero.2 hCC.det_pos.ne')] at this
      exact this.symm
    · rfl
  rw [hlaw]
  refine ⟨_, N, h2, ?_⟩
  filter_upwards [e, hpd] with s hs hp
  have e3 : sym (congr C (sqr (U s))) = C * tri (U s) * (C * tri (U s))ᵀ := by
    rw [sym_congr, sym_sqr, transpose_mul]
    simp only [Matrix.mul_assoc]
  rw [e3] at hp
  simp only [rinvwish, hs, Option.map_some, if_true, mmul_real, trans_real, inv_real hp.det_pos.ne']
  rw [sym_invL, e3]
  rfl

/-- With a supplied nonsingular factor `C` of the inverse scale matrix, on every library. -/
theorem C47_rinvwish_pre (hP : FairEngine P) (hn : Lib.next 0 1 = 0) (be : Backend) {ν : ℝ} (hν : (K : ℝ) - 1 < ν)
    {nu : ℕ → Fl} (hnu : ∀ k < K, nu k = fin (ν - k)) (garbage : Grid) {C : Matrix (Fin K) (Fin K) ℝ} (hC : C.det ≠ 0) :
    HasLawM P (rinvwish be (ofReal C) nu true garbage) (posDefLaw (invwishPdf (C * Cᵀ)⁻¹ ν)) := by
  obtain ⟨X, N, h, e⟩ := near_rinvwish_pre hP (by rw [hn]; norm_num) be hν hnu garbage hC
  simp only [hn, mul_zero, ENNReal.ofReal_zero] at h
  exact hasLawM_iff.2 ⟨X, N, h.exact, e⟩

/-- Without a supplied factor (Armadillo, Eigen). -/
theorem C47_rinvwish_partial (hP : FairEngine P) (hn : Lib.next 0 1 = 0) {be : Backend} (hbe : be ≠ .blaze) {ν : ℝ}
    (hν : (K : ℝ) - 1 < ν) {nu : ℕ → Fl} (hnu : ∀ k < K, nu k = fin (ν - k)) (garbage : Grid)
    {Psi : Matrix (Fin K) (Fin K) ℝ} (h : Psi.PosDef) :
    HasLawM P (rinvwish be (ofReal Psi) nu false garbage) (posDefLaw (invwishPdf Psi ν)) := by
  obtain ⟨L, hL, e⟩ := C37_chol_partial hbe h.inv
  have := C47_rinvwish_pre hP hn be hν hnu garbage hL.det_ne
  rw [hL.mul, nonsing_inv_nonsing_inv _ (isUnit_iff_ne_zero.2 h.det_pos.ne')] at this
  rwa [show rinvwish (S := S) be (ofReal Psi) nu false garbage = rinvwish be (ofReal L) nu true garbage from
    funext fun s => by simp [rinvwish, inv_real h.det_pos.ne', e]]

/-! ### the degrees of freedom as the code passes them -/

omit [LinAlg] [IdealLin] in
theorem nuFloat_eq (ν : ℝ) : ∀ k < K, nuFloat (fin ν) k = fin (ν - k) := fun k _ => by simp [nuFloat, ideal]

omit [LinAlg] [IdealLin] in
theorem nuInt_eq {n : ℕ} (h : K ≤ n) (hn : n < 2 ^ 64) : ∀ k < K, nuInt n k = fin ((n : ℝ) - k) := by
  intro k hk
  rw [nuInt, wsub_eq (by omega) hn, ofInt_eq]
  have : ((n - k : ℕ) : ℤ) = (n : ℤ) - k := by omega
  rw [this]; push_cast; rfl

/-- a floating number of degrees of freedom -/
theorem C47_rwish_float_partial (hP : FairEngine P) (hn : Lib.next 0 1 = 0) {be : Backend} (hbe : be ≠ .blaze) {ν : ℝ}
    (hν : (K : ℝ) - 1 < ν) (garbage : Grid) {Psi : Matrix (Fin K) (Fin K) ℝ} (h : Psi.PosDef) :
    HasLawM P (rwish be (ofReal Psi) (nuFloat (fin ν)) false garbage) (posDefLaw (wishPdf Psi ν)) :=
  C47_rwish_partial hP hn hbe hν (nuFloat_eq ν) garbage h

/-- an integral number of degrees of freedom -/
theorem C47_rwish_int_partial (hP : FairEngine P) (hn : Lib.next 0 1 = 0) {be : Backend} (hbe : be ≠ .blaze) {n : ℕ}
    (hK : K ≤ n) (hb : n < 2 ^ 64) (garbage : Grid) {Psi : Matrix (Fin K) (Fin K) ℝ} (h : Psi.PosDef) :
    HasLawM P (rwish be (ofReal Psi) (nuInt n) false garbage) (posDefLaw (wishPdf Psi n)) :=
  C47_rwish_partial hP hn hbe (by have : (K : ℝ) ≤ n := by exact_mod_cast hK
                                  linarith) (nuInt_eq hK hb) garbage h

theorem C47_rinvwish_float_partial (hP : FairEngine P) (hn : Lib.next 0 1 = 0) {be : Backend} (hbe : be ≠ .blaze) {ν : ℝ}
    (hν : (K : ℝ) - 1 < ν) (garbage : Grid) {Psi : Matrix (Fin K) (Fin K) ℝ} (h : Psi.PosDef) :
    HasLawM P (rinvwish be (ofReal Psi) (nuFloat (fin ν)) false garbage) (posDefLaw (invwishPdf Psi ν)) :=
  C47_rinvwish_partial hP hn hbe hν (nuFloat_eq ν) garbage h

theorem C47_rinvwish_int_partial (hP : FairEngine P) (hn : Lib.next 0 1 = 0) {be : Backend} (hbe : be ≠ .blaze) {n : ℕ}
    (hK : K ≤ n) (hb : n < 2 ^ 64) (garbage : Grid) {Psi : Matrix (Fin K) (Fin K) ℝ} (h : Psi.PosDef) :
    HasLawM P (rinvwish be (ofReal Psi) (nuInt n) false garbage) (posDefLaw (invwishPdf Psi n)) :=
  C47_rinvwish_partial hP hn hbe (by have : (K : ℝ) ≤ n := by exact_mod_cast hK
                                     linarith) (nuInt_eq hK hb) garbage h

end Stats

namespace Stats.ExamplesC47
open Fl MatOps Spec Matrix MeasureTheory
open scoped Stats.Fair
attribute [local instance] Exact.linAlg Exact.idealLin

example (g : Grid) : HasLawM Tape.tapeLaw (rwish .eigen (ofReal corr) (nuFloat (fin 2.5)) false g) (posDefLaw (wishPdf corr 2.5)) :=
  C47_rwish_float_partial Tape.fair Fair.next (by simp) (by norm_num) g corr_posDef

example (g : Grid) : HasLawM Tape.tapeLaw (rinvwish .arma (ofReal corr) (nuInt 7) false g) (posDefLaw (invwishPdf corr 7)) := by
  simpa using C47_rinvwish_int_partial (n := 7) Tape.fair Fair.next (be := .arma) (by simp) (by norm_num) (by norm_num) g corr_posDef

/-- a factor that is not triangular, on Blaze -/
example (g : Grid) : HasLawM Tape.tapeLaw (rwish .blaze (ofReal !![1, 1; 0, 2]) (nuFloat (fin 3)) true g)
    (posDefLaw (wishPdf (!![1, 1; 0, 2] * !![1, 1; 0, 2]ᵀ) 3)) :=
  C47_rwish_pre Tape.fair Fair.next .blaze (by norm_num) (nuFloat_eq 3) g (by rw [det_fin_two]; norm_num)

end Stats.ExamplesC47
