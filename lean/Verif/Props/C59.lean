import Verif.Spec.Grid
import Verif.Props.C58

/-!
# C59: draws from an engine that is only nearly fair, exact arithmetic

A real engine has finitely many states, so its uniform variates lie on a grid. The generators that use one variate
inherit its distance from the uniform law and nothing more.
-/

set_option linter.unusedSectionVars false
open MeasureTheory Classical

namespace Stats
open Fl Spec

section
variable [Lib] [NextLib] {S : Type*} [MeasurableSpace S] {P : Measure S} [IsProbabilityMeasure P] [Engine S] {η : ℝ}

/-- the numbers that `runif(0,1)` returns -/
theorem unit_near (hP : UnifNear P η) : ∃ U : S → ℝ, Measurable U ∧
    (∀ s, (runif (fin 0) (fin 1) s).1 = fin (U s)) ∧ (∀ s, 0 < U s ∧ U s < 1) ∧
    (∀ x, x ≤ 1 → x - (η + Lib.next 0 1) ≤ P.real {s | U s < x}) ∧
    ∀ x, 0 ≤ x → P.real {s | U s ≤ x} ≤ x + η := by
  have hδ := NextLib.next_lt_one
  have hδ0 : 0 < Lib.next 0 1 := NextLib.next_gt 0 1 one_pos
  obtain ⟨U, mU, eU, hU⟩ := hP (Lib.next 0 1) 1 hδ
  have hr : ∀ s, U s ∈ Set.Ico (Lib.next 0 1) 1 := fun s => by
    obtain ⟨r, e, h1, h2⟩ := Engine.unif_mem (Lib.next 0 1) 1 s hδ
    rw [eU] at e
    rw [fin.inj e]; exact ⟨h1, h2⟩
  have hη : 0 ≤ η := (abs_nonneg _).trans (hU 1 hδ.le le_rfl)
  have hlow : ∀ x, x ≤ 1 → x - (η + Lib.next 0 1) ≤ P.real {s | U s ≤ x} := fun x hx => by
    rcases lt_or_ge x (Lib.next 0 1) with h | h
    · exact le_trans (by linarith) measureReal_nonneg
    · have h1 := (abs_le.1 (hU x h hx)).1
      have h2 : x - Lib.next 0 1 ≤ (x - Lib.next 0 1) / (1 - Lib.next 0 1) := by
        rw [le_div_iff₀ (by linarith)]; nlinarith
      linarith
  refine ⟨U, mU, fun s => ?_, fun s => ⟨hδ0.trans_le (hr s).1, (hr s).2⟩, fun x hx => ?_, fun x hx => ?_⟩
  · rw [runif, if_neg (by simp [unif_ok]), nextafter, eU]
  · refine le_of_forall_pos_le_add fun ε hε => ?_
    have h1 := hlow (x - ε) (by linarith)
    have h2 : P.real {s | U s ≤ x - ε} ≤ P.real {s | U s < x} :=
      measureReal_mono fun s (hs : U s ≤ x - ε) => show U s < x by linarith
    linarith
  · rcases lt_or_ge x (Lib.next 0 1) with h | h
    · have : {s | U s ≤ x} = ∅ := Set.eq_empty_of_forall_notMem fun s hs => by
        have h1 : U s ≤ x := hs
        linarith [(hr s).1]
      rw [this, measureReal_empty]; linarith
    rcases le_or_gt x 1 with h1 | h1
    · have h2 := (abs_le.1 (hU x h h1)).2
      have h3 : (x - Lib.next 0 1) / (1 - Lib.next 0 1) ≤ x := by
        rw [div_le_iff₀ (by linarith)]; nlinarith
      linarith
    · exact measureReal_le_one.trans (by linarith)

/-- Inversion. For every probability outside `B` the value is `q` up to an error that `lo` and `hi` account for, and `q`
has the given probability up to `κ`. -/
theorem sandwich_of (hP : UnifNear P η) {g : S → Option (Fl × S)} {val : Fl → Option Fl}
    (hg : ∀ s, g s = (val (runif (fin 0) (fin 1) s).1).map fun v => (v, (runif (fin 0) (fin 1) s).2)) {F f : ℝ → ℝ} (hF : IsCdf F f)
    {lo hi : ℝ → ℝ} {κ β : ℝ} {B : Set ℝ}
    (hB : ∀ U : S → ℝ, (∀ s, 0 < U s ∧ U s < 1) → (∀ x, x ≤ 1 → x - (η + Lib.next 0 1) ≤ P.real {s | U s < x}) →
      (∀ x, 0 ≤ x → P.real {s | U s ≤ x} ≤ x + η) → Measurable U → P.real {s | U s ∈ B} ≤ β) (hκ : 0 ≤ κ)
    (hv : ∀ p, 0 < p → p < 1 → p ∉ B → ∃ v q, val (fin p) = some (fin v) ∧ |F q - p| ≤ κ ∧
      (∀ x, v ≤ x → q ≤ hi x) ∧ ∀ x, q ≤ lo x → v ≤ x) :
    Sandwich P g f lo hi (κ + (η + Lib.next 0 1) + β) := by
  obtain ⟨U, mU, eU, hU, h1, h2⟩ := unit_near hP
  have hb := hB U hU h1 h2 mU
  have hδ0 : 0 < Lib.next 0 1 := NextLib.next_gt 0 1 one_pos
  have hval : ∀ s v, (∃ s', g s = some (fin v, s')) ↔ val (fin (U s)) = some (fin v) := fun s v => by
    rw [hg, eU]
    cases val (fin (U s)) <;> simp
  intro x
  rw [hF.running, hF.running]
  constructor
  · have hsub : {s | U s < F (lo x) - κ} \ {s | U s ∈ B} ⊆ {s | ∃ v s', g s = some (fin v, s') ∧ v ≤ x} := by
      rintro s ⟨hs, hsB⟩
      obtain ⟨v, q, e, hq, -, hl⟩ := hv (U s) (hU s).1 (hU s).2 hsB
      obtain ⟨s', es⟩ := (hval s v).2 e
      refine ⟨v, s', es, hl x ?_⟩
      by_contra hc
      have h3 := hF.mono (not_le.1 hc).le
      have h4 := (abs_le.1 hq).2
      have h5 : U s < F (lo x) - κ := hs
      linarith
    have h3 := measureReal_mono (μ := P) hsub
    have h4 := h1 (F (lo x) - κ) (by linarith [hF.le_one (lo x)])
    have h5 := le_measureReal_sdiff (μ := P) (s₁ := {s | U s < F (lo x) - κ}) (s₂ := {s | U s ∈ B})
    linarith
  · have hsub : {s | ∃ v s', g s = some (fin v, s') ∧ v ≤ x} ⊆ {s | U s ≤ F (hi x) + κ} ∪ {s | U s ∈ B} := by
      rintro s ⟨v, s', es, hvx⟩
      by_cases hsB : U s ∈ B
      · exact Or.inr hsB
      · obtain ⟨w, q, e, hq, hh, -⟩ := hv (U s) (hU s).1 (hU s).2 hsB
        have := (hval s v).1 ⟨s', es⟩
        rw [this] at e
        have hw : v = w := by simpa using e
        have h3 := hF.mono (hh x (hw ▸ hvx))
        have h4 := (abs_le.1 hq).1
        exact Or.inl (show U s ≤ _ by linarith)
    have h3 := (measureReal_mono (μ := P) hsub).trans (measureReal_union_le _ _)
    have h4 := h2 (F (hi x) + κ) (by linarith [hF.nonneg' (hi x)])
    linarith

theorem drawCdf_inv [Ideal] (hP : UnifNear P η) {g : S → Option (Fl × S)} {q : Fl → Fl}
    (hg : ∀ s, g s = some (q (runif (fin 0) (fin 1) s).1, (runif (fin 0) (fin 1) s).2)) {F f : ℝ → ℝ} (hF : IsCdf F f) (hq : IsInv q F)
    {p : ℝ → Fl} {dom : Set ℝ} (hp : ∀ x ∈ dom, p x = fin (F x)) : DrawCdf P g p dom (η + Lib.next 0 1) := by
  have h := sandwich_of (P := P) hP (g := g) (val := fun u => some (q u)) (fun s => by rw [hg]; rfl) hF (lo := id)
    (hi := id) (κ := 0) (β := 0) (B := ∅) (fun U _ _ _ _ => by simp) le_rfl (fun u h0 h1 _ => by
      obtain ⟨x, rfl⟩ := hF.exists_eq h0 h1
      exact ⟨x, x, congrArg some (hq x h0 h1), by simp, fun y h => h, fun y h => h⟩)
  intro x hx
  obtain ⟨a, b⟩ := h x
  rw [id, hF.running] at a b
  exact ⟨F x, hp x hx, abs_le.2 ⟨by linarith, by linarith⟩⟩

/-! ### Bernoulli and Rademacher, in every arithmetic -/

theorem threshold_near (hP : UnifNear P η) {p : ℝ} (h0 : 0 ≤ p) (h1 : p ≤ 1) :
    |P.real {s | (runif (fin 0) (fin 1) s).1 ≤ fin p} - p| ≤ η + Lib.next 0 1 ∧
    |P.real {s | ¬ (runif (fin 0) (fin 1) s).1 ≤ fin p} - (1 - p)| ≤ η + Lib.next 0 1 := by
  obtain ⟨U, mU, eU, -, h2, h3⟩ := unit_near hP
  have hδ0 : 0 < Lib.next 0 1 := NextLib.next_gt 0 1 one_pos
  have e : {s | (runif (fin 0) (fin 1) s).1 ≤ fin p} = {s | U s ≤ p} := by ext s; simp [eU]
  have e' : {s | ¬ (runif (fin 0) (fin 1) s).1 ≤ fin p} = {s | U s ≤ p}ᶜ := by ext s; simp [eU]
  have hm : MeasurableSet {s | U s ≤ p} := mU measurableSet_Iic
  have a : p - (η + Lib.next 0 1) ≤ P.real {s | U s ≤ p} :=
    (h2 p h1).trans (measureReal_mono fun s (hs : U s < p) => show U s ≤ p from hs.le)
  have b := h3 p h0
  rw [e, e', probReal_compl_eq_one_sub hm]
  exact ⟨abs_le.2 ⟨by linarith, by linarith⟩, abs_le.2 ⟨by linarith, by linarith⟩⟩

theorem C59_rbern (hP : UnifNear P η) {p : ℝ} (h0 : 0 ≤ p) (h1 : p ≤ 1) :
    MassNear P (fun s => some (rbern (fin p) s)) (bernPmf p) (η + Lib.next 0 1) := by
  obtain ⟨a, b⟩ := threshold_near hP h0 h1
  intro k
  have e : ∀ s : S, rbern (fin p) s = (if (runif (fin 0) (fin 1) s).1 ≤ fin p then fin 1 else fin 0, (runif (fin 0) (fin 1) s).2) := fun s => by
    rw [rbern, if_neg (by simp [bern_ok, h0, h1]), zero_eq, one_eq]
  simp only [e, Option.some.injEq, Prod.mk.injEq, bernPmf]
  split_ifs with hk hk'
  · subst hk
    convert a using 4
    ext s
    by_cases h : (runif (fin 0) (fin 1) s).1 ≤ fin p <;> simp [h]
  · subst hk'
    convert b using 4
    ext s
    by_cases h : (runif (fin 0) (fin 1) s).1 ≤ fin p <;> simp [h]
  · rw [show {s : S | ∃ s', (if (runif (fin 0) (fin 1) s).1 ≤ fin p then fin 1 else fin 0) = fin (k : ℝ) ∧ (runif (fin 0) (fin 1) s).2 = s'} = ∅ from
      Set.eq_empty_of_forall_notMem fun s => by
        rintro ⟨s', h, -⟩
        by_cases h' : (runif (fin 0) (fin 1) s).1 ≤ fin p
        · rw [if_pos h', fin.injEq] at h; exact hk (by exact_mod_cast h.symm)
        · rw [if_neg h', fin.injEq] at h; exact hk' (by exact_mod_cast h.symm)]
    rw [measureReal_empty, sub_self, abs_zero]
    exact (abs_nonneg _).trans a

theorem C59_rradem (hP : UnifNear P η) {p : ℝ} (h0 : 0 ≤ p) (h1 : p ≤ 1) :
    MassNear P (fun s => some (rradem (fin p) s)) (rademPmf p) (η + Lib.next 0 1) := by
  obtain ⟨a, b⟩ := threshold_near hP h0 h1
  intro k
  have e : ∀ s : S, rradem (fin p) s = (if (runif (fin 0) (fin 1) s).1 ≤ fin p then fin 1 else fin (-1), (runif (fin 0) (fin 1) s).2) := fun s => by
    rw [rradem, if_neg (by simp [radem_ok, h0, h1]), zero_eq, one_eq]; rfl
  simp only [e, Option.some.injEq, Prod.mk.injEq, rademPmf]
  split_ifs with hk hk'
  · subst hk
    convert a using 4
    ext s
    by_cases h : (runif (fin 0) (fin 1) s).1 ≤ fin p <;> simp [h]
    norm_num
  · subst hk'
    convert b using 4
    ext s
    by_cases h : (runif (fin 0) (fin 1) s).1 ≤ fin p <;> simp [h]
    norm_num
  · rw [show {s : S | ∃ s', (if (runif (fin 0) (fin 1) s).1 ≤ fin p then fin 1 else fin (-1)) = fin (k : ℝ) ∧ (runif (fin 0) (fin 1) s).2 = s'} = ∅ from
      Set.eq_empty_of_forall_notMem fun s => by
        rintro ⟨s', h, -⟩
        by_cases h' : (runif (fin 0) (fin 1) s).1 ≤ fin p
        · rw [if_pos h', fin.injEq] at h; exact hk (by exact_mod_cast h.symm)
        · rw [if_neg h', fin.injEq] at h; exact hk' (by exact_mod_cast h.symm)]
    rw [measureReal_empty, sub_self, abs_zero]
    exact (abs_nonneg _).trans a

end

/-! ### exact arithmetic -/

section
variable [Lib] [NextLib] [Ideal] {S : Type*} [MeasurableSpace S] {P : Measure S} [IsProbabilityMeasure P] [Engine S] {η : ℝ}

theorem C59_rexp (hP : UnifNear P η) {rate : ℝ} (h : 0 < rate) :
    DrawCdf P (fun s => some (rexp (fin rate) s)) (fun x => pexp (fin x) (fin rate) false) Set.univ (η + Lib.next 0 1) :=
  drawCdf_inv hP (fun s => by rw [rexp, if_neg (by simp [exp_ok, h.le]), zero_eq, one_eq]) (isCdf_exp h) (qexp_inv h)
    fun x _ => pexp_fin h x

theorem C59_rcauchy (hP : UnifNear P η) (mu : ℝ) {sigma : ℝ} (h : 0 < sigma) :
    DrawCdf P (fun s => some (rcauchy (fin mu) (fin sigma) s)) (fun x => pcauchy (fin x) (fin mu) (fin sigma) false) Set.univ
      (η + Lib.next 0 1) :=
  drawCdf_inv hP (fun s => by rw [rcauchy, if_neg (by simp [cauchy_ok, h.le]), zero_eq, one_eq]) (isCdf_cauchy mu h) (qcauchy_inv mu h)
    fun x _ => pcauchy_fin mu h x

theorem C59_rlaplace (hP : UnifNear P η) (mu : ℝ) {sigma : ℝ} (h : 0 < sigma) :
    DrawCdf P (fun s => some (rlaplace (fin mu) (fin sigma) s)) (fun x => plaplace (fin x) (fin mu) (fin sigma) false) Set.univ
      (η + Lib.next 0 1) :=
  drawCdf_inv hP (fun s => by rw [rlaplace, if_neg (by simp [laplace_ok, h.le]), zero_eq, one_eq]) (isCdf_laplace mu h) (qlaplace_inv mu h)
    fun x _ => plaplace_fin mu h x

theorem C59_rlogis (hP : UnifNear P η) (mu : ℝ) {sigma : ℝ} (h : 0 < sigma) :
    DrawCdf P (fun s => some (rlogis (fin mu) (fin sigma) s)) (fun x => plogis (fin x) (fin mu) (fin sigma) false) Set.univ
      (η + Lib.next 0 1) :=
  drawCdf_inv hP (fun s => by rw [rlogis, if_neg (by simp [logis_ok, h.le]), zero_eq, one_eq]) (isCdf_logis mu h) (qlogis_inv mu h)
    fun x _ => plogis_fin mu h x

/-- Outside the zone where `pweibull` treats its argument as 0. -/
theorem C59_rweibull_partial (hP : UnifNear P η) {k θ : ℝ} (hk : Lib.eps ≤ k) (hθ : Lib.eps ≤ θ) :
    DrawCdf P (fun s => some (rweibull (fin k) (fin θ) s)) (fun x => pweibull (fin x) (fin k) (fin θ) false) noCut
      (η + Lib.next 0 1) :=
  drawCdf_inv hP (fun s => by rw [rweibull, if_neg (by simp [weibull_ok, eps, hk, hθ]), zero_eq, one_eq])
    (isCdf_weibull (Lib.eps_pos.trans_le hk) (Lib.eps_pos.trans_le hθ)) (qweibull_inv hk hθ)
    fun x hx => pweibull_fin hk hθ x hx

theorem C59_rpois (hP : UnifNear P η) {rate : ℝ} (hr : Lib.eps ≤ rate) :
    DrawCdf P (rpois (fin rate)) (fun x => ppois ⌊x⌋ (fin rate) false) Set.univ (η + Lib.next 0 1) := by
  have hr0 : 0 ≤ rate := Lib.eps_pos.le.trans hr
  have hδ0 : 0 < Lib.next 0 1 := NextLib.next_gt 0 1 one_pos
  have hmono := cumZ_mono (poisPmf_nonneg hr0)
  obtain ⟨U, mU, eU, hU, h1, h2⟩ := unit_near hP
  intro x _
  refine ⟨cumZ (poisPmf rate) ⌊x⌋, ppois_fin hr0 _, ?_⟩
  have e : {s | ∃ v s', rpois (fin rate) s = some (fin v, s') ∧ v ≤ x} = {s | U s < cumZ (poisPmf rate) ⌊x⌋} := by
    ext s
    obtain ⟨k, hk, hk0, ha, hb⟩ := C19_qpois_above_partial hr (hU s).1 (hU s).2
    simp only [ppois_fin hr0, fin_lt_fin, fin_le_fin] at ha hb
    have er : rpois (fin rate) s = some (fin k, (runif (fin 0) (fin 1) s).2) := by
      rw [rpois, if_neg (by simp [pois_ok, hr0]), zero_eq, one_eq]
      simp only [eU]
      rw [hk]; rfl
    show (∃ v s', rpois (fin rate) s = some (fin v, s') ∧ v ≤ x) ↔ _
    rw [er]
    constructor
    · rintro ⟨v, s', h, hv⟩
      have : (k : ℝ) = v := by simpa using (by simpa using h : (k : ℝ) = v ∧ _).1
      rw [← this] at hv
      exact ha.trans_le (hmono (Int.le_floor.2 hv))
    · intro h
      refine ⟨k, _, rfl, ?_⟩
      have h' : U s < cumZ (poisPmf rate) ⌊x⌋ := h
      have hf : 0 ≤ ⌊x⌋ := by
        by_contra hc
        rw [cumZ_neg (by omega)] at h'
        linarith [(hU s).1]
      by_contra hc
      have hlt : ⌊x⌋ < k := Int.floor_lt.2 (not_le.1 hc)
      exact absurd h' (not_lt.2 (hb ⌊x⌋ hf hlt))
  rw [e]
  have hle : cumZ (poisPmf rate) ⌊x⌋ ≤ 1 := cumZ_le (poisPmf_nonneg hr0) (hasSum_pois rate) _
  have a := h1 _ hle
  have b : P.real {s | U s < cumZ (poisPmf rate) ⌊x⌋} ≤ P.real {s | U s ≤ cumZ (poisPmf rate) ⌊x⌋} :=
    measureReal_mono fun s (hs : U s < cumZ (poisPmf rate) ⌊x⌋) => show U s ≤ _ from hs.le
  have c := h2 _ (cumZ_nonneg (poisPmf_nonneg hr0) ⌊x⌋)
  exact abs_le.2 ⟨by linarith, by linarith⟩

/-- the offset of `runif` on its own interval -/
theorem C59_runif (hP : UnifNear P η) {a b : ℝ} (h : Lib.next a b < b) (hab : a < b) :
    DrawCdf P (fun s => some (runif (fin a) (fin b) s)) (fun x => punif (fin x) (fin a) (fin b) false) Set.univ
      (η + (Lib.next a b - a) / (b - a)) := by
  obtain ⟨V, mV, eV, hV⟩ := hP _ b h
  have hca := NextLib.next_gt a b hab
  have hr : ∀ s, V s ∈ Set.Ico (Lib.next a b) b := fun s => by
    obtain ⟨r, e, h1, h2⟩ := Engine.unif_mem (Lib.next a b) b s h
    rw [eV] at e
    rw [fin.inj e]; exact ⟨h1, h2⟩
  generalize hc : Lib.next a b = c at *
  have hba : 0 < b - a := by linarith
  have hη : 0 ≤ η := (abs_nonneg _).trans (hV b h.le le_rfl)
  have hd : 0 ≤ (c - a) / (b - a) := div_nonneg (by linarith) hba.le
  intro x _
  refine ⟨_, punif_fin hab x, ?_⟩
  have e : {s | ∃ v s', some (runif (fin a) (fin b) s) = some (fin v, s') ∧ v ≤ x} = {s | V s ≤ x} := by
    have er : ∀ s, runif (fin a) (fin b) s = (fin (V s), (Engine.unif (fin c) (fin b) s).2) := fun s => by
      rw [runif, if_neg (by simp [unif_ok, hab]), nextafter, hc, ← eV]
    ext s
    simp only [Set.mem_ofPred_eq, er]
    constructor
    · rintro ⟨v, s', h1, h2⟩
      simp only [Option.some.injEq, Prod.mk.injEq, fin.injEq] at h1
      rw [h1.1]; exact h2
    · exact fun h => ⟨_, _, rfl, h⟩
  rw [e]
  by_cases h0 : x < c
  · have e0 : {s | V s ≤ x} = ∅ := Set.eq_empty_of_forall_notMem fun s (hs : V s ≤ x) => by linarith [(hr s).1]
    rw [e0, measureReal_empty, zero_sub, abs_neg]
    have hu : unifCdf a b x ≤ (c - a) / (b - a) ∧ 0 ≤ unifCdf a b x := by
      refine ⟨?_, (isCdf_unif hab).nonneg' x⟩
      have h1 := (isCdf_unif hab).mono h0.le
      refine h1.trans (le_of_eq ?_)
      rw [unifCdf]; split_ifs <;> first | rfl | linarith
    rw [abs_of_nonneg hu.2]; linarith [hu.1]
  rw [not_lt] at h0
  by_cases h1 : x < b
  · have h2 := abs_le.1 (hV x h0 h1.le)
    have hu : unifCdf a b x = (x - a) / (b - a) := by
      rw [unifCdf]; split_ifs <;> first | rfl | linarith
    rw [hu]
    have k1 : (x - c) / (b - c) ≤ (x - a) / (b - a) := by
      rw [div_le_div_iff₀ (by linarith) hba]; nlinarith
    have k2 : (x - a) / (b - a) - (c - a) / (b - a) ≤ (x - c) / (b - c) := by
      rw [← sub_div, div_le_div_iff₀ hba (by linarith)]; nlinarith
    exact abs_le.2 ⟨by linarith, by linarith⟩
  · have e1 : {s | V s ≤ x} = Set.univ := Set.eq_univ_of_forall fun s => show V s ≤ x by linarith [(hr s).2]
    have hu : unifCdf a b x = 1 := by
      rw [unifCdf]; split_ifs <;> first | rfl | linarith
    rw [e1, hu, probReal_univ, sub_self, abs_zero]
    linarith

theorem C59_rnorm (hP : NormNear P η) (mu : ℝ) {sigma : ℝ} (h : 0 < sigma) :
    DrawCdf P (fun s => some (rnorm (fin mu) (fin sigma) s)) (fun x => pnorm (fin x) (fin mu) (fin sigma) false) Set.univ η := by
  intro x _
  refine ⟨_, pnorm_fin mu h x, ?_⟩
  have hx := hP.2 ((x - mu) / sigma)
  rw [(isCdf_norm 0 one_pos).running, sub_zero, div_one] at hx
  convert hx using 4
  ext s
  have n1 : ¬ sigma < 0 := by linarith
  have er : rnorm (fin mu) (fin sigma) s = (fin (mu + sigma * (Engine.norm s).1), (Engine.norm s).2) := by
    simp [rnorm, norm_ok, h.le, ideal]
  simp only [Set.mem_ofPred_eq, er]
  rw [le_div_iff₀ h]
  constructor
  · rintro ⟨v, s', h1, h2⟩
    simp only [Option.some.injEq, Prod.mk.injEq, fin.injEq] at h1
    linarith [h1.1]
  · exact fun h => ⟨_, _, rfl, by linarith⟩

/-- Outside the zone where `plnorm` treats its argument as 0. -/
theorem C59_rlnorm_partial (hP : NormNear P η) (mu : ℝ) {sigma : ℝ} (h : 0 < sigma) :
    DrawCdf P (fun s => some (rlnorm (fin mu) (fin sigma) s)) (fun x => plnorm (fin x) (fin mu) (fin sigma) false) noCut η := by
  intro x hx
  refine ⟨_, plnorm_fin mu h x hx, ?_⟩
  have er : ∀ s : S, rlnorm (fin mu) (fin sigma) s = (fin (Real.exp (mu + sigma * (Engine.norm s).1)), (Engine.norm s).2) := by
    intro s
    simp [rlnorm, lnorm_ok, rnorm, norm_ok, h.le, ideal]
  simp only [er]
  by_cases h0 : 0 < x
  · have hx := hP.2 ((Real.log x - mu) / sigma)
    rw [(isCdf_norm 0 one_pos).running, sub_zero, div_one] at hx
    rw [if_pos h0]
    convert hx using 4
    ext s
    simp only [Set.mem_ofPred_eq]
    rw [le_div_iff₀ h]
    constructor
    · rintro ⟨v, s', h1, h2⟩
      simp only [Option.some.injEq, Prod.mk.injEq, fin.injEq] at h1
      rw [← h1.1, ← Real.le_log_iff_exp_le h0] at h2
      linarith
    · exact fun h => ⟨_, _, rfl, by rw [← Real.le_log_iff_exp_le h0]; linarith⟩
  · rw [if_neg h0]
    have hη : 0 ≤ η := (abs_nonneg _).trans (hP.2 0)
    have e0 : {s : S | ∃ v s', some (fin (Real.exp (mu + sigma * (Engine.norm s).1)), (Engine.norm s).2) = some (fin v, s') ∧ v ≤ x} = ∅ :=
      Set.eq_empty_of_forall_notMem fun s => by
        rintro ⟨v, s', h1, h2⟩
        simp only [Option.some.injEq, Prod.mk.injEq, fin.injEq] at h1
        have := Real.exp_pos (mu + sigma * (Engine.norm s).1)
        rw [h1.1] at this
        linarith
    rw [e0, measureReal_empty, sub_self, abs_zero]
    exact hη

omit [NextLib] [IsProbabilityMeasure P] in
theorem threshold_law {D : Measure ℝ} [IsProbabilityMeasure D] (p : ℝ) :
    D.map (fun u => if u ≤ p then (1 : ℤ) else 0) = massZ (bernPmf (D.real (Set.Iic p))) := by
  have hm : Measurable fun u : ℝ => if u ≤ p then (1 : ℤ) else 0 :=
    Measurable.ite measurableSet_Iic measurable_const measurable_const
  rw [massZ_bern]
  refine Measure.ext_of_singleton fun k => ?_
  rw [Measure.map_apply hm (measurableSet_singleton k)]
  have c : 1 - D.real (Set.Iic p) = D.real (Set.Iic p)ᶜ := (probReal_compl_eq_one_sub measurableSet_Iic).symm
  rw [c, ofReal_measureReal, ofReal_measureReal]
  simp only [Measure.add_apply, Measure.smul_apply, Measure.dirac_apply, smul_eq_mul]
  by_cases h1 : k = 1
  · subst h1
    rw [show ((fun u : ℝ => if u ≤ p then (1 : ℤ) else 0) ⁻¹' {1}) = Set.Iic p by ext u; simp]
    simp
  by_cases h0 : k = 0
  · subst h0
    rw [show ((fun u : ℝ => if u ≤ p then (1 : ℤ) else 0) ⁻¹' {0}) = (Set.Iic p)ᶜ by ext u; simp]
    simp
  · rw [show ((fun u : ℝ => if u ≤ p then (1 : ℤ) else 0) ⁻¹' {k}) = ∅ by
      ext u; simp only [Set.mem_preimage, Set.mem_singleton_iff, Set.mem_empty_iff_false, iff_false]; split_ifs <;> omega]
    simp [Ne.symm h1, Ne.symm h0]

/-- With independent variates of any law near the uniform one, the count is exactly binomial; its success probability is
off by the distance of the law. -/
theorem C59_rbinom (hP : UnifNear P η) {D : Measure ℝ} [IsProbabilityMeasure D]
    (hD : HasLaw P (fun s => some (runif (fin 0) (fin 1) s)) D) {p : ℝ} (h0 : 0 ≤ p) (h1 : p ≤ 1) (n : ℕ) :
    ∃ p', |p' - p| ≤ η + Lib.next 0 1 ∧ HasLaw P (fun s => some (rbinom n (fin p) s)) (massLaw (binomPmf n p')) := by
  obtain ⟨U, N, hd, h⟩ := hasLaw_iff.1 hD
  have hb0 : 0 ≤ D.real (Set.Iic p) := measureReal_nonneg
  have hb1 : D.real (Set.Iic p) ≤ 1 := measureReal_le_one
  refine ⟨D.real (Set.Iic p), ?_, ?_⟩
  · have := (threshold_near hP h0 h1).1
    convert this using 3
    have hU : P.map U = D := by
      have e : P.map U = (P.map fun s => (U s, N s)).map Prod.fst := by
        rw [Measure.map_map measurable_fst (hd.mX.prodMk hd.mN)]; rfl
      rw [e, hd.law, Measure.map_fst_prod, measure_univ, one_smul]
    rw [← hU, measureReal_def, measureReal_def, Measure.map_apply hd.mX measurableSet_Iic]
    congr 1
    refine measure_congr ?_
    filter_upwards [h] with s hs
    refine propext ?_
    show U s ≤ p ↔ (runif (fin 0) (fin 1) s).1 ≤ fin p
    rw [Option.some.inj hs]
    simp
  · have hB : Draw P (fun s => if U s ≤ p then (1 : ℤ) else 0) N (massZ (bernPmf (D.real (Set.Iic p)))) := by
      have := hd.map (f := fun u => if u ≤ p then (1 : ℤ) else 0)
        (Measurable.ite measurableSet_Iic measurable_const measurable_const)
      rwa [threshold_law] at this
    have eB : ∀ᵐ s ∂P, rbern (fin p) s = (fin ((if U s ≤ p then (1 : ℤ) else 0 : ℤ) : ℝ), N s) := by
      filter_upwards [h] with s hs
      rw [rbern, if_neg (by simp [bern_ok, h0, h1]), zero_eq, one_eq]
      simp only [Option.some.inj hs, fin_le_fin]
      split_ifs <;> simp
    have key : ∀ n : ℕ, ∃ K M, Draw P K M (massZ (binomPmf n (D.real (Set.Iic p)))) ∧
        ∀ᵐ s ∂P, ∀ m : ℝ, rbinom_loop (fin p) n (fin m) s = (fin (m + (K s : ℤ)), M s) := by
      intro n
      induction n with
      | zero =>
        refine ⟨fun _ => 0, id, ⟨measurable_const, measurable_id, ?_⟩, .of_forall fun s m => ?_⟩
        · rw [massZ_binom_zero, Measure.dirac_prod]; rfl
        · simp [rbinom_loop]
      | succ n ih =>
        obtain ⟨K, M, hk, hK⟩ := ih
        have := hB.isProb
        have hk' := (hB.comp hk).map (f := fun x : ℤ × ℤ => x.1 + x.2) (measurable_of_countable _)
        rw [massZ_binom_succ hb0 hb1] at hk'
        refine ⟨_, _, hk', ?_⟩
        filter_upwards [eB, hB.ae hK] with s hs hs' m
        rw [rbinom_loop]
        simp only [hs, ideal]
        rw [hs' _]
        push_cast
        rw [add_assoc]
    obtain ⟨K, M, hk, hK⟩ := key n
    rw [hasLaw_iff, ← massZ_map]
    refine ⟨_, M, hk.map (measurable_of_countable _), ?_⟩
    filter_upwards [hK] with s hs
    rw [rbinom, if_neg (by simp [binom_ok, h0, h1]), zero_eq, Int.toNat_natCast, hs 0, zero_add]

end

end Stats
