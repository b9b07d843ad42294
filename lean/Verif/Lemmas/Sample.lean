import Verif.Spec.Sample
import Verif.Props.C46
import Mathlib.Probability.Moments.SubGaussian
import Mathlib.Probability.CDF

/-!
# Hoeffding's inequality for shares, at one point and uniformly
-/

open MeasureTheory Classical ProbabilityTheory

namespace Stats
open Fl Spec

section
variable {D : Measure ℝ} [IsProbabilityMeasure D] {n : ℕ}

/-- the share of the coordinates that lie in `A` -/
noncomputable def shareIn (A : Set ℝ) (x : Fin n → ℝ) : ℝ := (∑ i, A.indicator (fun _ => (1 : ℝ)) (x i)) / n

theorem shareIn_mono {A B : Set ℝ} (h : A ⊆ B) (x : Fin n → ℝ) : shareIn A x ≤ shareIn B x :=
  div_le_div_of_nonneg_right (Finset.sum_le_sum fun _ _ => Set.indicator_le_indicator_of_subset h (fun _ => zero_le_one) _)
    n.cast_nonneg

theorem shareIn_nonneg (A : Set ℝ) (x : Fin n → ℝ) : 0 ≤ shareIn A x :=
  div_nonneg (Finset.sum_nonneg fun _ _ => Set.indicator_nonneg (fun _ _ => zero_le_one) _) n.cast_nonneg

theorem shareIn_le_one (A : Set ℝ) (x : Fin n → ℝ) : shareIn A x ≤ 1 := by
  refine div_le_one_of_le₀ ?_ n.cast_nonneg
  refine (Finset.sum_le_sum fun i _ => Set.indicator_le_self' (fun _ _ => zero_le_one) (x i)).trans ?_
  simp

theorem share_hoeffding {A : Set ℝ} (hA : MeasurableSet A) {ε : ℝ} (hε : 0 ≤ ε) :
    (Measure.pi fun _ : Fin n => D).real {x | ε ≤ |shareIn A x - D.real A|} ≤ 2 * Real.exp (-(2 * n * ε ^ 2)) := by
  set Q := Measure.pi fun _ : Fin n => D with hQ
  rcases Nat.eq_zero_or_pos n with rfl | hn
  · have : Q.real {x | ε ≤ |shareIn A x - D.real A|} ≤ 1 := measureReal_le_one
    simp; linarith
  have hn0 : (0 : ℝ) < n := by exact_mod_cast hn
  set f : ℝ → ℝ := A.indicator fun _ => (1 : ℝ) with hf
  have mf : Measurable f := measurable_const.indicator hA
  have hfD : ∫ y, f y ∂D = D.real A := by
    rw [hf, integral_indicator hA]; simp
  have hsub : HasSubgaussianMGF (fun y => f y - D.real A) ((‖(1 : ℝ) - 0‖₊ / 2) ^ 2) D := by
    have := hasSubgaussianMGF_of_mem_Icc (μ := D) (X := f) (a := 0) (b := 1) mf.aemeasurable (.of_forall fun y => by
      simp only [hf, Set.indicator_apply]; split_ifs <;> simp)
    rwa [hfD] at this
  have side : ∀ c : ℝ → ℝ, Measurable c → HasSubgaussianMGF c ((‖(1 : ℝ) - 0‖₊ / 2) ^ 2) D →
      Q.real {x | n * ε ≤ ∑ i, c (x i)} ≤ Real.exp (-(2 * n * ε ^ 2)) := by
    intro c mc hc
    have hi : iIndepFun (fun (i : Fin n) (x : Fin n → ℝ) => c (x i)) Q :=
      iIndepFun_pi (X := fun _ : Fin n => c) fun _ => mc.aemeasurable
    have hs : ∀ i ∈ (Finset.univ : Finset (Fin n)),
        HasSubgaussianMGF (fun x : Fin n → ℝ => c (x i)) ((‖(1 : ℝ) - 0‖₊ / 2) ^ 2) Q := fun i _ => by
      have hm := measurePreserving_eval (fun _ : Fin n => D) i
      refine HasSubgaussianMGF.of_map (Y := fun x : Fin n → ℝ => x i) (X := c) (measurable_pi_apply i).aemeasurable ?_
      have e : Measure.map (fun x : Fin n → ℝ => x i) Q = D := hm.map_eq
      rw [e]; exact hc
    refine (HasSubgaussianMGF.measure_sum_ge_le_of_iIndepFun hi hs (by positivity)).trans (Real.exp_le_exp.2 ?_)
    simp only [Finset.sum_const, Finset.card_univ, Fintype.card_fin, nsmul_eq_mul]
    norm_num
    rw [div_eq_mul_inv, neg_mul, neg_le_neg_iff]
    refine le_of_eq ?_
    field_simp
    ring
  have h1 := side (fun y => f y - D.real A) (mf.sub_const _) hsub
  have h2 := side (fun y => -(f y - D.real A)) (mf.sub_const _).neg hsub.neg
  have hsum : ∀ x : Fin n → ℝ, ∑ i, (f (x i) - D.real A) = n * (shareIn A x - D.real A) := fun x => by
    rw [shareIn, Finset.sum_sub_distrib, mul_sub, mul_div_cancel₀ _ hn0.ne']; simp [hf]
  calc Q.real {x | ε ≤ |shareIn A x - D.real A|}
      ≤ Q.real ({x | n * ε ≤ ∑ i, (f (x i) - D.real A)} ∪ {x | n * ε ≤ ∑ i, -(f (x i) - D.real A)}) := by
        refine measureReal_mono fun x hx => ?_
        simp only [Set.mem_union, Set.mem_ofPred_eq] at hx ⊢
        rw [Finset.sum_neg_distrib, hsum, ← mul_neg]
        rcases le_abs.1 hx with h | h
        · left; exact mul_le_mul_of_nonneg_left h hn0.le
        · right; exact mul_le_mul_of_nonneg_left h hn0.le
    _ ≤ _ := (measureReal_union_le _ _).trans (by linarith)

/-- Uniformly over all half-lines: `m - 1` quantiles of `D` divide the line, and between two of them neither the share
nor the probability can move by more than the allowed amount. -/
theorem share_uniform {ε : ℝ} (hε : 0 ≤ ε) {m : ℕ} (hm : 0 < m) :
    (Measure.pi fun _ : Fin n => D).real {x | ∃ t : ℝ, ε + 1 / m ≤ |shareIn (Set.Iic t) x - D.real (Set.Iic t)|} ≤
      4 * m * Real.exp (-(2 * n * ε ^ 2)) := by
  set Q := Measure.pi fun _ : Fin n => D with hQ
  have hm0 : (0 : ℝ) < m := by exact_mod_cast hm
  rcases hε.eq_or_lt with rfl | hε'
  · have h1 : (1 : ℝ) ≤ m := by exact_mod_cast hm
    refine measureReal_le_one.trans ?_
    simp; linarith
  set F : ℝ → ℝ := fun t => D.real (Set.Iic t) with hF
  set G : ℝ → ℝ := fun t => D.real (Set.Iio t) with hG
  have Fmono : Monotone F := fun a b h => measureReal_mono (Set.Iic_subset_Iic.2 h)
  have F1 : ∀ t, F t ≤ 1 := fun t => measureReal_le_one
  have F0 : ∀ t, 0 ≤ F t := fun t => measureReal_nonneg
  -- the quantiles
  have hq : ∀ j : Fin m, ∃ t : ℝ, (0 < (j : ℕ) → (j : ℝ) / m ≤ F t ∧ G t ≤ (j : ℝ) / m) := by
    intro j
    rcases Nat.eq_zero_or_pos (j : ℕ) with h0 | h0
    · exact ⟨0, fun h => absurd h (by omega)⟩
    have c0 : 0 < (j : ℝ) / m := by
      have : (0 : ℝ) < (j : ℕ) := by exact_mod_cast h0
      positivity
    have c1 : (j : ℝ) / m < 1 := by rw [div_lt_one hm0]; exact_mod_cast j.2
    set c := (j : ℝ) / m
    set T : Set ℝ := {t | c ≤ F t} with hT
    have top : Filter.Tendsto F Filter.atTop (nhds 1) :=
      (tendsto_cdf_atTop D).congr fun t => cdf_eq_real D t
    have bot : Filter.Tendsto F Filter.atBot (nhds 0) :=
      (tendsto_cdf_atBot D).congr fun t => cdf_eq_real D t
    have hne : T.Nonempty := ((top.eventually_const_lt c1).exists).imp fun t h => h.le
    obtain ⟨b, hb⟩ := (bot.eventually_lt_const c0).exists
    have hbd : BddBelow T := ⟨b, fun t ht => by
      by_contra h
      have := Fmono (not_le.1 h).le
      have : c ≤ F t := ht
      linarith⟩
    refine ⟨sInf T, fun _ => ⟨?_, ?_⟩⟩
    · -- right continuity
      have hr : Filter.Tendsto (fun k : ℕ => F (sInf T + 1 / ((k : ℝ) + 1))) Filter.atTop (nhds (F (sInf T))) := by
        have hI : Set.Iic (sInf T) = ⋂ k : ℕ, Set.Iic (sInf T + 1 / ((k : ℝ) + 1)) := by
          ext y
          simp only [Set.mem_Iic, Set.mem_iInter]
          constructor
          · intro h k
            have : (0 : ℝ) < 1 / ((k : ℝ) + 1) := by positivity
            linarith
          · intro h
            refine le_of_forall_pos_le_add fun e he => ?_
            obtain ⟨k, hk⟩ := exists_nat_one_div_lt he
            linarith [h k]
        have := tendsto_measure_iInter_atTop (μ := D) (s := fun k : ℕ => Set.Iic (sInf T + 1 / ((k : ℝ) + 1)))
          (fun k => measurableSet_Iic.nullMeasurableSet) (fun a b h => Set.Iic_subset_Iic.2 (by
            have : (1 : ℝ) / ((b : ℝ) + 1) ≤ 1 / ((a : ℝ) + 1) :=
              one_div_le_one_div_of_le (by positivity) (by have : (a : ℝ) ≤ b := by exact_mod_cast h
                                                           linarith)
            linarith)) ⟨0, measure_ne_top _ _⟩
        rw [← hI] at this
        exact (ENNReal.tendsto_toReal (measure_ne_top _ _)).comp this
      refine ge_of_tendsto' hr fun k => ?_
      obtain ⟨t, ht, hlt⟩ := exists_lt_of_csInf_lt hne (show sInf T < sInf T + 1 / ((k : ℝ) + 1) by
        have : (0 : ℝ) < 1 / ((k : ℝ) + 1) := by positivity
        linarith)
      exact le_trans ht (Fmono hlt.le)
    · have hI : Set.Iio (sInf T) = ⋃ k : ℕ, Set.Iic (sInf T - 1 / ((k : ℝ) + 1)) := by
        ext y
        simp only [Set.mem_Iio, Set.mem_iUnion, Set.mem_Iic]
        constructor
        · intro h
          obtain ⟨k, hk⟩ := exists_nat_one_div_lt (sub_pos.2 h)
          exact ⟨k, by linarith⟩
        · rintro ⟨k, hk⟩
          have : (0 : ℝ) < 1 / ((k : ℝ) + 1) := by positivity
          linarith
      have := tendsto_measure_iUnion_atTop (μ := D) (s := fun k : ℕ => Set.Iic (sInf T - 1 / ((k : ℝ) + 1)))
        (fun a b h => Set.Iic_subset_Iic.2 (by
          have : (1 : ℝ) / ((b : ℝ) + 1) ≤ 1 / ((a : ℝ) + 1) :=
            one_div_le_one_div_of_le (by positivity) (by have : (a : ℝ) ≤ b := by exact_mod_cast h
                                                         linarith)
          linarith))
      rw [← hI] at this
      have := (ENNReal.tendsto_toReal (measure_ne_top D (Set.Iio (sInf T)))).comp this
      refine le_of_tendsto' this fun k => ?_
      have hp : (0 : ℝ) < 1 / ((k : ℝ) + 1) := by positivity
      by_contra hc
      have : sInf T ≤ sInf T - 1 / ((k : ℝ) + 1) := csInf_le hbd (show c ≤ F _ from (not_le.1 hc).le)
      linarith
  choose q hq using hq
  -- the bad events
  set B : Fin m → Set (Fin n → ℝ) := fun j =>
    {x | ε ≤ |shareIn (Set.Iic (q j)) x - F (q j)|} ∪ {x | ε ≤ |shareIn (Set.Iio (q j)) x - G (q j)|} with hB
  have hBle : ∀ j, Q.real (B j) ≤ 4 * Real.exp (-(2 * n * ε ^ 2)) := fun j =>
    (measureReal_union_le _ _).trans (by
      have h1 := share_hoeffding (D := D) (n := n) (A := Set.Iic (q j)) measurableSet_Iic hε
      have h2 := share_hoeffding (D := D) (n := n) (A := Set.Iio (q j)) measurableSet_Iio hε
      linarith)
  have hcover : {x : Fin n → ℝ | ∃ t : ℝ, ε + 1 / m ≤ |shareIn (Set.Iic t) x - F t|} ⊆ ⋃ j, B j := by
    rintro x ⟨t, ht⟩
    by_contra hx
    simp only [Set.mem_iUnion, hB, Set.mem_union, Set.mem_ofPred_eq, not_exists, not_or, not_le] at hx
    -- the cell of t
    obtain ⟨j, hj1, hj2⟩ : ∃ j : ℕ, j < m ∧ (0 < j → ∀ h : j < m, q ⟨j, h⟩ ≤ t) ∧ (∀ h : j + 1 < m, t < q ⟨j + 1, h⟩) := by
      have hex : ∃ j : ℕ, ∀ h : j + 1 < m, t < q ⟨j + 1, h⟩ := ⟨m, fun h => absurd h (by omega)⟩
      refine ⟨Nat.find hex, ?_, fun h0 h => ?_, Nat.find_spec hex⟩
      · have : Nat.find hex ≤ m - 1 := Nat.find_min' hex fun h => absurd h (by omega)
        omega
      · have := Nat.find_min hex (m := Nat.find hex - 1) (by omega)
        rw [not_forall] at this
        obtain ⟨h', ht'⟩ := this
        have e : (⟨Nat.find hex - 1 + 1, h'⟩ : Fin m) = ⟨Nat.find hex, h⟩ := by ext; simp; omega
        rw [e] at ht'
        exact not_lt.1 ht'
    obtain ⟨hjl, hjr⟩ := hj2
    -- upper neighbour
    have up : F t ≤ ((j : ℝ) + 1) / m ∧ shareIn (Set.Iic t) x < ((j : ℝ) + 1) / m + ε := by
      by_cases h : j + 1 < m
      · have hlt := hjr h
        obtain ⟨-, hg⟩ := hq ⟨j + 1, h⟩ (Nat.succ_pos j)
        have hsub : Set.Iic t ⊆ Set.Iio (q ⟨j + 1, h⟩) := fun y hy => lt_of_le_of_lt hy hlt
        have hx2 := (abs_lt.1 (hx ⟨j + 1, h⟩).2).2
        have s1 := shareIn_mono hsub x
        have s2 : F t ≤ G (q ⟨j + 1, h⟩) := measureReal_mono hsub
        simp only [Nat.cast_add, Nat.cast_one] at hg
        exact ⟨by linarith, by linarith⟩
      · have : (j : ℝ) + 1 = m := by
          have : j + 1 = m := by omega
          exact_mod_cast this
        rw [this, div_self hm0.ne']
        exact ⟨F1 t, by linarith [shareIn_le_one (Set.Iic t) x]⟩
    -- lower neighbour
    have lo : (j : ℝ) / m ≤ F t ∧ (j : ℝ) / m - ε < shareIn (Set.Iic t) x := by
      rcases Nat.eq_zero_or_pos j with h0 | h0
      · rw [h0, Nat.cast_zero, zero_div]
        exact ⟨F0 t, by linarith [shareIn_nonneg (Set.Iic t) x]⟩
      · have hle := hjl h0 hj1
        obtain ⟨hf, -⟩ := hq ⟨j, hj1⟩ h0
        have hx1 := (abs_lt.1 (hx ⟨j, hj1⟩).1).1
        have s1 := shareIn_mono (Set.Iic_subset_Iic.2 hle) x
        have s2 := Fmono hle
        simp only at hf
        exact ⟨by linarith, by linarith⟩
    have hd : ((j : ℝ) + 1) / m = (j : ℝ) / m + 1 / m := by ring
    rcases le_abs.1 ht with h | h <;> linarith [up.1, up.2, lo.1, lo.2]
  calc Q.real {x | ∃ t : ℝ, ε + 1 / m ≤ |shareIn (Set.Iic t) x - F t|} ≤ Q.real (⋃ j, B j) := measureReal_mono hcover
    _ ≤ ∑ j, Q.real (B j) := measureReal_iUnion_fintype_le B
    _ ≤ ∑ _j : Fin m, 4 * Real.exp (-(2 * n * ε ^ 2)) := Finset.sum_le_sum fun j _ => hBle j
    _ = _ := by simp; ring

end
end Stats
