import Verif.Props.C29
import Verif.Props.C34
import Verif.Props.C50
import Verif.Spec.Mult

/-!
# C48: the joint law of the multinomial counts

Exact arithmetic, an ideal engine. The first count does not come from the engine (C34), so the law of the others is the
conditional one given the first. If the seeds of `std::random_device` happen to give a binomial first count, all counts
together have the multinomial law.
-/

set_option linter.unusedSectionVars false
open Classical
open MeasureTheory Set
open scoped ENNReal

namespace Stats
open Fl MatOps Vec Spec

/-- one binomial draw, then the rest with the trials left over -/
theorem mult_step (r : ℕ) {m : ℕ} (p : Fin (m + 1) → ℝ) {T : ℝ} (hT : T ≠ 0) (hT' : T - p 0 ≠ 0) (k : Fin (m + 1) → ℕ) :
    binomPmf r (p 0 / T) (k 0) * multPmf (r - k 0) (fun i => p i.succ / (T - p 0)) (Fin.tail k) =
      multPmf r (fun i => p i / T) k := by
  have hsum : ∑ i, k i = k 0 + ∑ i, Fin.tail k i := Fin.sum_univ_succ k
  by_cases hk : k 0 ≤ r
  swap
  · rw [binomPmf, if_neg (by omega), zero_mul, multPmf, if_neg (by omega)]
  rw [binomPmf, if_pos (by omega), Int.toNat_natCast, multPmf, multPmf]
  by_cases hs : ∑ i, Fin.tail k i = r - k 0
  swap
  · rw [if_neg hs, if_neg (by omega), mul_zero]
  rw [if_pos hs, if_pos (by omega), Fin.prod_univ_succ, Fin.prod_univ_succ, Nat.choose_eq_factorial_div_factorial hk,
    Nat.cast_div (Nat.factorial_mul_factorial_dvd_factorial hk) (by positivity)]
  have e1 : ∏ i : Fin m, (p i.succ / (T - p 0)) ^ Fin.tail k i = (∏ i : Fin m, p i.succ ^ k i.succ) / (T - p 0) ^ (r - k 0) := by
    rw [← hs, ← Finset.prod_pow_eq_pow_sum, ← Finset.prod_div_distrib]
    exact Finset.prod_congr rfl fun i _ => div_pow _ _ _
  have e2 : ∏ i : Fin m, (p i.succ / T) ^ k i.succ = (∏ i : Fin m, p i.succ ^ k i.succ) / T ^ (r - k 0) := by
    rw [← hs, ← Finset.prod_pow_eq_pow_sum, ← Finset.prod_div_distrib]
    exact Finset.prod_congr rfl fun i _ => div_pow _ _ _
  have e3 : ∏ i : Fin m, ((Fin.tail k i).factorial : ℝ) = ∏ i : Fin m, ((k i.succ).factorial : ℝ) := rfl
  have e4 : 1 - p 0 / T = (T - p 0) / T := by field_simp
  have hf : ∏ i : Fin m, ((k i.succ).factorial : ℝ) ≠ 0 := Finset.prod_ne_zero_iff.2 fun i _ => by positivity
  rw [e1, e2, e3, e4, div_pow, div_pow]
  have a1 : ((r - k 0).factorial : ℝ) ≠ 0 := by positivity
  have a2 : ((k 0).factorial : ℝ) ≠ 0 := by positivity
  have a3 : (T - p 0) ^ (r - k 0) ≠ 0 := pow_ne_zero _ hT'
  have a4 : T ^ (r - k 0) ≠ 0 := pow_ne_zero _ hT
  push_cast
  field_simp

/-- the probabilities of the loop of `rmultinom`, starting with entry `j` and `r` trials -/
noncomputable def seqPmf (p : ℕ → ℝ) : (m r j : ℕ) → (Fin m → ℕ) → ℝ
  | 0, _, _, _ => 1
  | m + 1, r, j, k => binomPmf r (p j / (1 - ∑ i ∈ Finset.range j, p i)) (k 0) * seqPmf p m (r - k 0) (j + 1) (Fin.tail k)

theorem seq_mult {n : ℕ} {p : ℕ → ℝ} (h1 : ∑ i ∈ Finset.range n, p i = 1)
    (hpre : ∀ j < n, ∑ i ∈ Finset.range j, p i < 1) (m r j : ℕ) (hj : j + (m + 1) = n) (k : Fin (m + 1) → ℕ) :
    seqPmf p (m + 1) r j k = multPmf r (fun i => p (j + i) / (1 - ∑ i ∈ Finset.range j, p i)) k := by
  induction m generalizing r j with
  | zero =>
    have hpos : 0 < 1 - ∑ i ∈ Finset.range j, p i := by linarith [hpre j (by omega)]
    have hlast : p j / (1 - ∑ i ∈ Finset.range j, p i) = 1 := by
      rw [div_eq_one_iff_eq hpos.ne']
      rw [← hj, zero_add, Finset.sum_range_succ] at h1
      linarith
    simp only [seqPmf, mul_one, hlast]
    have e : ∀ i : Fin (0 + 1), p (j + i) / (1 - ∑ i ∈ Finset.range j, p i) = 1 := fun i => by
      rw [← hlast]; congr 2; omega
    simp only [e, multPmf, one_pow, Finset.prod_const_one, mul_one]
    rw [show ∑ i, k i = k 0 from Fin.sum_univ_one k, show ∏ i, ((k i).factorial : ℝ) = _ from Fin.prod_univ_one _]
    by_cases hk : k 0 = r
    · rw [if_pos hk, binomPmf, if_pos (by omega), Int.toNat_natCast, hk]
      have : (r.factorial : ℝ) ≠ 0 := by positivity
      simp [this]
    · rw [if_neg hk, binomPmf]
      split_ifs with h
      · rw [Int.toNat_natCast, sub_self, zero_pow (by omega), mul_zero]
      · rfl
  | succ m ih =>
    have hpos : 0 < 1 - ∑ i ∈ Finset.range j, p i := by linarith [hpre j (by omega)]
    have hpos' : 0 < 1 - ∑ i ∈ Finset.range (j + 1), p i := by linarith [hpre (j + 1) (by omega)]
    have e : 1 - ∑ i ∈ Finset.range (j + 1), p i = 1 - ∑ i ∈ Finset.range j, p i - p j := by
      rw [Finset.sum_range_succ]; ring
    rw [seqPmf, ih (r - k 0) (j + 1) (by omega)]
    have := mult_step r (fun i : Fin (m + 1 + 1) => p (j + i)) hpos.ne'
      (by simp only [Fin.val_zero, add_zero]; rw [← e]; exact hpos'.ne') k
    simp only [Fin.val_zero, add_zero, Fin.val_succ, ← e] at this
    rw [← this]
    congr 3
    funext i
    rw [show j + 1 + (i : ℕ) = j + ((i : ℕ) + 1) by omega]

variable [Lib] [Ideal] {S : Type*} [MeasurableSpace S] [Engine S] {P : Measure S}

theorem toSigned_wsub {n rs : ℕ} (hn : n < 2 ^ 63) (h : rs ≤ n) : toSigned (wsub n rs) = ((n - rs : ℕ) : ℤ) := by
  rw [wsub_eq h (by omega), toSigned_eq (by omega)]

theorem near_multinom_loop (hP : FairEngine P) (hδ : Lib.next 0 1 < 1) {n : ℕ} (hn : n < 2 ^ 63) {p : ℕ → ℝ}
    (hp : ∀ i < n, 0 ≤ p i) (h1 : ∑ i ∈ Finset.range n, p i = 1) (hpre : ∀ j < n, ∑ i ∈ Finset.range j, p i < 1)
    (m j : ℕ) (hj1 : 1 ≤ j) (hj : j + m = n) (rs : ℕ) (hrs : rs ≤ n) :
    ∃ (X : S → Fin m → ℕ) (N : S → S) (w : (Fin m → ℕ) → ℝ≥0∞), Measurable X ∧ Measurable N ∧
      (∀ᵐ s ∂P, ∀ ret : ℕ → Fl, ∃ ret', rmultinom_loop n (fun i => fin (p i)) (cumsum n fun i => fin (p i)) m j ret rs s =
        some (ret', N s) ∧ (∀ i : Fin m, ret' (j + i) = fin (X s i)) ∧ ∀ i < j, ret' i = ret i) ∧
      (∀ (k : Fin m → ℕ) (A : Set S), MeasurableSet A → P {s | X s = k ∧ N s ∈ A} = w k * P A) ∧
      ∑' k, w k ≤ 1 ∧ ∑' k, ENNReal.ofReal (seqPmf p m (n - rs) j k) ≤ 1 ∧
      ∑' k, (w k - ENNReal.ofReal (seqPmf p m (n - rs) j k)) ≤ ENNReal.ofReal (m * (n * Lib.next 0 1)) ∧
      ∑' k, (ENNReal.ofReal (seqPmf p m (n - rs) j k) - w k) ≤ ENNReal.ofReal (m * (n * Lib.next 0 1)) := by
  have := hP.prob
  induction m generalizing j rs with
  | zero =>
    refine ⟨fun _ => Fin.elim0, id, fun _ => 1, measurable_const, measurable_id, .of_forall fun s ret => ⟨ret, rfl,
      fun i => i.elim0, fun _ _ => rfl⟩, fun k A hA => ?_, by simp, by simp [seqPmf], by simp [seqPmf], by simp [seqPmf]⟩
    have : ∀ s : S, (fun i : Fin 0 => (Fin.elim0 i : ℕ)) = k := fun s => Subsingleton.elim _ _
    simp [Subsingleton.elim (Fin.elim0 : Fin 0 → ℕ) k]
  | succ m ih =>
    have hpos : 0 < 1 - ∑ i ∈ Finset.range j, p i := by linarith [hpre j (by omega)]
    have hcs : cumsum n (fun i => fin (p i)) (j - 1) = fin (∑ i ∈ Finset.range j, p i) := by
      rw [C37_cumsum n p (j - 1) (by omega), Nat.sub_add_cancel hj1]
    have hpj : fin (p j) / (1 - cumsum n (fun i => fin (p i)) (j - 1)) =
        fin (p j / (1 - ∑ i ∈ Finset.range j, p i)) := by
      rw [hcs, one_eq, ifin_sub, ifin_div _ hpos.ne']
    have hle : p j ≤ 1 - ∑ i ∈ Finset.range j, p i := by
      have h2 : ∑ i ∈ Finset.range (j + 1), p i ≤ ∑ i ∈ Finset.range n, p i :=
        Finset.sum_le_sum_of_subset_of_nonneg (Finset.range_subset_range.2 (by omega)) fun i hi _ =>
          hp i (Finset.mem_range.1 hi)
      rw [Finset.sum_range_succ, h1] at h2
      linarith
    set q := p j / (1 - ∑ i ∈ Finset.range j, p i) with hq
    have hq0 : 0 ≤ q := div_nonneg (hp j (by omega)) hpos.le
    have hq1 : q ≤ 1 := (div_le_one hpos).2 hle
    obtain ⟨K, N, ⟨D, hprob, hd, hnear⟩, h⟩ := near_rbinom hP hδ hq0 hq1 (n - rs)
    have hprob' := massZ_binom_prob hq0 hq1 (n - rs)
    have d0 : 0 ≤ Lib.next 0 1 := delta_nonneg
    have hnear := hnear.mono (ENNReal.ofReal_le_ofReal (show ((n - rs : ℕ) : ℝ) * Lib.next 0 1 ≤ n * Lib.next 0 1 by
      gcongr; omega))
    -- the second stage, for every value of the first
    have hst : ∀ c : ℤ, ∃ (X : S → Fin m → ℕ) (M : S → S) (w : (Fin m → ℕ) → ℝ≥0∞), Measurable X ∧ Measurable M ∧ (0 ≤ c ∧ c ≤ (n - rs : ℕ) →
        (∀ᵐ s ∂P, ∀ ret : ℕ → Fl, ∃ ret', rmultinom_loop n (fun i => fin (p i)) (cumsum n fun i => fin (p i)) m (j + 1) ret
          (rs + c.toNat) s = some (ret', M s) ∧ (∀ i : Fin m, ret' (j + 1 + i) = fin (X s i)) ∧ ∀ i < j + 1, ret' i = ret i) ∧
        (∀ (k : Fin m → ℕ) (A : Set S), MeasurableSet A → P {s | X s = k ∧ M s ∈ A} = w k * P A) ∧
        ∑' k, w k ≤ 1 ∧ ∑' k, ENNReal.ofReal (seqPmf p m (n - (rs + c.toNat)) (j + 1) k) ≤ 1 ∧
        ∑' k, (w k - ENNReal.ofReal (seqPmf p m (n - (rs + c.toNat)) (j + 1) k)) ≤ ENNReal.ofReal (m * (n * Lib.next 0 1)) ∧
        ∑' k, (ENNReal.ofReal (seqPmf p m (n - (rs + c.toNat)) (j + 1) k) - w k) ≤
          ENNReal.ofReal (m * (n * Lib.next 0 1))) := by
      intro c
      by_cases hc : 0 ≤ c ∧ c ≤ (n - rs : ℕ)
      · obtain ⟨X, M, w, a, b, c', d⟩ := ih (j + 1) (by omega) (by omega) (rs + c.toNat) (by omega)
        exact ⟨X, M, w, a, b, fun _ => ⟨c', d⟩⟩
      · exact ⟨fun _ _ => 0, id, fun _ => 0, measurable_const, measurable_id, fun h => absurd h hc⟩
    choose X M w hX hM hstage using hst
    have hsupp : ∀ c : ℤ, D {c} ≠ 0 → 0 ≤ c ∧ c ≤ (n - rs : ℕ) := by
      intro c hc
      by_contra hcon
      refine hc (hnear.ac ?_)
      rw [massZ_singleton, binomPmf, if_neg hcon, ENNReal.ofReal_zero]
    have hK : ∀ᵐ s ∂P, 0 ≤ K s ∧ K s ≤ (n - rs : ℕ) :=
      hd.ae_val (p := fun c => 0 ≤ c ∧ c ≤ ((n - rs : ℕ) : ℤ)) ((ae_iff_of_countable).2 hsupp)
    have hXm : Measurable fun x : ℤ × S => X x.1 x.2 := measurable_from_prod_countable_right fun c => hX c
    have hMm : Measurable fun x : ℤ × S => M x.1 x.2 := measurable_from_prod_countable_right fun c => hM c
    have hKN : Measurable fun s => (K s, N s) := hd.mX.prodMk hd.mN
    -- the sums over all counts, one entry at a time
    have split : ∀ f : (Fin (m + 1) → ℕ) → ℝ≥0∞, ∑' k, f k = ∑' c : ℕ, ∑' t : Fin m → ℕ, f (Fin.cons c t) := by
      intro f
      rw [← ENNReal.tsum_prod (f := fun c t => f (Fin.cons c t))]
      exact ((Fin.consEquiv fun _ : Fin (m + 1) => ℕ).tsum_eq f).symm
    have hD1 := tsum_singleton_le D
    have hD2 := tsum_singleton_le (massZ (binomPmf (n - rs) q))
    have hseq : ∀ (c : ℕ) (t : Fin m → ℕ), ENNReal.ofReal (seqPmf p (m + 1) (n - rs) j (Fin.cons c t)) =
        massZ (binomPmf (n - rs) q) {(c : ℤ)} * ENNReal.ofReal (seqPmf p m (n - (rs + c)) (j + 1) t) := by
      intro c t
      rw [seqPmf, ENNReal.ofReal_mul (binomPmf_nonneg hq0 hq1 _), massZ_singleton, Nat.sub_add_eq]; rfl
    have hsupp2 : ∀ c : ℕ, massZ (binomPmf (n - rs) q) {(c : ℤ)} ≠ 0 → 0 ≤ (c : ℤ) ∧ (c : ℤ) ≤ (n - rs : ℕ) := by
      intro c hc
      by_contra hcon
      refine hc ?_
      rw [massZ_singleton, binomPmf, if_neg hcon, ENNReal.ofReal_zero]
    have heq : ENNReal.ofReal (n * Lib.next 0 1) + ENNReal.ofReal (m * (n * Lib.next 0 1)) =
        ENNReal.ofReal ((m + 1 : ℕ) * (n * Lib.next 0 1)) := by
      rw [← ENNReal.ofReal_add (by positivity) (by positivity)]
      congr 1; push_cast; ring
    refine ⟨fun s => Fin.cons (K s).toNat (X (K s) (N s)), fun s => M (K s) (N s),
      fun k => D {(k 0 : ℤ)} * w (k 0) (Fin.tail k), ?_, hMm.comp hKN, ?_, ?_, ?_, ?_, ?_, ?_⟩
    · refine measurable_pi_iff.2 fun i => ?_
      refine Fin.cases ?_ (fun i => ?_) i
      · simp only [Fin.cons_zero]
        exact (measurable_of_countable fun c : ℤ => c.toNat).comp hd.mX
      · simp only [Fin.cons_succ]
        exact (measurable_pi_apply i).comp (hXm.comp hKN)
    · have hall : ∀ᵐ s ∂P, ∀ c : ℤ, 0 ≤ c ∧ c ≤ (n - rs : ℕ) → ∀ ret : ℕ → Fl, ∃ ret',
          rmultinom_loop n (fun i => fin (p i)) (cumsum n fun i => fin (p i)) m (j + 1) ret (rs + c.toNat) s =
            some (ret', M c s) ∧ (∀ i : Fin m, ret' (j + 1 + i) = fin (X c s i)) ∧ ∀ i < j + 1, ret' i = ret i := by
        rw [ae_all_iff]; intro c
        by_cases hc : 0 ≤ c ∧ c ≤ (n - rs : ℕ)
        · exact (hstage c hc).1.mono fun s hs _ => hs
        · exact .of_forall fun s h => absurd h hc
      filter_upwards [h, hK, hd.ae hall] with s hs hk hst ret
      have eb : rbinom (toSigned (wsub n rs)) (fin q) s = (fin ((K s).toNat : ℕ), N s) := by
        rw [toSigned_wsub hn hrs, rbinom, if_neg (by simp [binom_ok, hq0, hq1]), zero_eq, Int.toNat_natCast, hs 0, zero_add]
        have : ((K s : ℤ) : ℝ) = (((K s).toNat : ℕ) : ℝ) := by
          rw [← Int.cast_natCast, Int.toNat_of_nonneg hk.1]
        rw [this]
      have et : toSize (ofInt rs + fin ((K s).toNat : ℕ)) = some (rs + (K s).toNat) := by
        rw [ofInt_eq, ifin_add]
        have e : ((rs : ℤ) : ℝ) + (((K s).toNat : ℕ) : ℝ) = ((rs + (K s).toNat : ℕ) : ℝ) := by push_cast; rfl
        rw [e, toSize_nat (by omega)]
      rw [rmultinom_loop, hpj]
      simp only [eb, et, Option.bind_some]
      obtain ⟨ret', e1, e2, e3⟩ := hst (K s) hk (Function.update ret j (fin ((K s).toNat : ℕ)))
      refine ⟨ret', e1, fun i => ?_, fun i hi => ?_⟩
      · refine Fin.cases ?_ (fun i => ?_) i
        · simp only [Fin.val_zero, add_zero, Fin.cons_zero]
          rw [e3 j (by omega), Function.update_self]
        · simp only [Fin.val_succ, Fin.cons_succ]
          rw [← e2 i]; congr 1; omega
      · rw [e3 i (by omega), Function.update_of_ne (by omega)]
    · intro k A hA
      set B : Set S := {s | X (k 0 : ℤ) s = Fin.tail k ∧ M (k 0 : ℤ) s ∈ A} with hB
      have hBm : MeasurableSet B := ((hX _) (measurableSet_singleton _)).inter ((hM _) hA)
      have hset : P {s | (Fin.cons (K s).toNat (X (K s) (N s)) : Fin (m + 1) → ℕ) = k ∧ M (K s) (N s) ∈ A} =
          P ((fun s => (K s, N s)) ⁻¹' ({(k 0 : ℤ)} ×ˢ B)) := by
        refine measure_congr ?_
        filter_upwards [hK] with s hk
        refine propext (show (_ ∧ _) ↔ _ from ?_)
        simp only [mem_preimage, mem_prod, mem_singleton_iff, hB, mem_ofPred_eq, eq_iff_iff]
        constructor
        · rintro ⟨e, hA'⟩
          have e0 : K s = (k 0 : ℤ) := by
            have := congrFun e 0
            simp only [Fin.cons_zero] at this
            omega
          refine ⟨e0, ?_, by rwa [← e0]⟩
          rw [← e0, ← e]; rfl
        · rintro ⟨e0, e, hA'⟩
          change K s = _ at e0
          change X _ (N s) = _ at e
          refine ⟨?_, by rwa [e0]⟩
          rw [e0, e, Int.toNat_natCast]
          exact Fin.cons_self_tail k
      rw [hset, ← Measure.map_apply hKN ((measurableSet_singleton _).prod hBm), hd.law, Measure.prod_prod]
      by_cases hk0 : D {(k 0 : ℤ)} = 0
      · simp only [hk0, zero_mul]
      · rw [hB, (hstage (k 0 : ℤ) (hsupp _ hk0)).2.1 (Fin.tail k) A hA, ← mul_assoc]
    · rw [split]
      simp only [Fin.cons_zero, Fin.tail_cons, ENNReal.tsum_mul_left]
      refine le_trans (ENNReal.tsum_le_tsum fun c => ?_) hD1
      by_cases hc : D {(c : ℤ)} = 0
      · simp [hc]
      · exact mul_le_of_le_one_right' (hstage c (hsupp _ hc)).2.2.1
    · rw [split]
      simp only [hseq, ENNReal.tsum_mul_left]
      refine le_trans (ENNReal.tsum_le_tsum fun c => ?_) hD2
      by_cases hc : massZ (binomPmf (n - rs) q) {(c : ℤ)} = 0
      · simp [hc]
      · have := (hstage c (hsupp2 _ hc)).2.2.2.1
        rw [Int.toNat_natCast] at this
        exact mul_le_of_le_one_right' this
    · rw [split, ← heq]
      simp only [hseq, Fin.cons_zero, Fin.tail_cons]
      refine tsum_mul_tsub_le (tsum_sub_le hnear.le) hD2 (fun c hc => (hstage c (hsupp _ hc)).2.2.1) fun c hc => ?_
      have := (hstage c (hsupp2 _ hc)).2.2.2.2.1
      rwa [Int.toNat_natCast] at this
    · rw [split, ← heq]
      simp only [hseq, Fin.cons_zero, Fin.tail_cons]
      refine tsum_mul_tsub_le (tsum_sub_le hnear.ge) hD1 (fun c hc => ?_) fun c hc => ?_
      · have := (hstage c (hsupp2 _ hc)).2.2.2.1
        rwa [Int.toNat_natCast] at this
      · have := (hstage c (hsupp _ hc)).2.2.2.2.2
        rwa [Int.toNat_natCast] at this

theorem multinom_loop_draw (hP : FairEngine P) (hn0 : Lib.next 0 1 = 0) {n : ℕ} (hn : n < 2 ^ 63) {p : ℕ → ℝ}
    (hp : ∀ i < n, 0 ≤ p i) (h1 : ∑ i ∈ Finset.range n, p i = 1) (hpre : ∀ j < n, ∑ i ∈ Finset.range j, p i < 1)
    (m j : ℕ) (hj1 : 1 ≤ j) (hj : j + m = n) (rs : ℕ) (hrs : rs ≤ n) :
    ∃ (X : S → Fin m → ℕ) (N : S → S), Measurable X ∧ Measurable N ∧
      (∀ᵐ s ∂P, ∀ ret : ℕ → Fl, ∃ ret', rmultinom_loop n (fun i => fin (p i)) (cumsum n fun i => fin (p i)) m j ret rs s =
        some (ret', N s) ∧ (∀ i : Fin m, ret' (j + i) = fin (X s i)) ∧ ∀ i < j, ret' i = ret i) ∧
      ∀ (k : Fin m → ℕ) (A : Set S), MeasurableSet A →
        P {s | X s = k ∧ N s ∈ A} = ENNReal.ofReal (seqPmf p m (n - rs) j k) * P A := by
  obtain ⟨X, N, w, hX, hN, hr, hw, -, -, e1, e2⟩ :=
    near_multinom_loop hP (by rw [hn0]; norm_num) hn hp h1 hpre m j hj1 hj rs hrs
  refine ⟨X, N, hX, hN, hr, fun k A hA => ?_⟩
  simp only [hn0, mul_zero, ENNReal.ofReal_zero, nonpos_iff_eq_zero, ENNReal.tsum_eq_zero, tsub_eq_zero_iff_le] at e1 e2
  rw [hw k A hA, le_antisymm (e1 k) (e2 k)]

/-- Given the first count `c`, which the seed `rd` of the other engine determines, the remaining counts have the multinomial
law of `n - c` trials with the conditional probabilities. Missing for the full claim: the law of the first count, a number
of trials to choose, rounding, vectors with a partial sum equal to one. -/
theorem C48_rmultinom_partial (hP : FairEngine P) (hn0 : Lib.next 0 1 = 0) {n : ℕ} (hn : n + 2 < 2 ^ 63) {p : ℕ → ℝ}
    (hp : ∀ i < n + 2, 0 ≤ p i) (h1 : ∑ i ∈ Finset.range (n + 2), p i = 1)
    (hpre : ∀ j < n + 2, ∑ i ∈ Finset.range j, p i < 1) (rd : ℕ) (g : ℕ → Fl) {c : ℕ} (hc : c ≤ n + 2)
    (hfirst : (rbinom ((n + 2 : ℕ) : ℤ) (fin (p 0)) (Engine.seed rd : S)).1 = fin c) :
    HasCounts P P (rmultinom (n + 2) (fun i => fin (p i)) rd g) (n + 2) fun k =>
      if k 0 = c then multPmf (n + 2 - c) (fun i : Fin (n + 1) => p (1 + i) / (1 - p 0)) (Fin.tail k) else 0 := by
  obtain ⟨X, N, hX, hN, hrun, hmass⟩ := multinom_loop_draw hP hn0 hn hp h1 hpre (n + 1) 1 le_rfl (by omega) c hc
  refine ⟨fun s => Fin.cons c (X s), N, ?_, hN, ?_, fun k A hA => ?_⟩
  · refine measurable_pi_iff.2 fun i => ?_
    refine Fin.cases ?_ (fun i => ?_) i
    · simp only [Fin.cons_zero]; exact measurable_const
    · simp only [Fin.cons_succ]; exact (measurable_pi_apply i).comp hX
  · filter_upwards [hrun] with s hs
    rw [rmultinom, if_neg (by omega), toSigned_eq hn]
    simp only [hfirst, show 1 < n + 2 by omega, if_true, toSize_nat (show c < 2 ^ 64 by omega), Option.bind_some]
    obtain ⟨ret', e1, e2, e3⟩ := hs (Function.update g 0 (fin c))
    refine ⟨ret', e1, fun i => ?_⟩
    refine Fin.cases ?_ (fun i => ?_) i
    · simp only [Fin.val_zero, Fin.cons_zero]; rw [e3 0 (by omega), Function.update_self]
    · simp only [Fin.val_succ, Fin.cons_succ]; rw [← e2 i]; congr 1; omega
  · have e : {s | (Fin.cons c (X s) : Fin (n + 2) → ℕ) = k ∧ N s ∈ A} = if k 0 = c then {s | X s = Fin.tail k ∧ N s ∈ A} else ∅ := by
      ext s
      split_ifs with hk
      · refine and_congr_left fun _ => ⟨fun h => ?_, fun h => ?_⟩
        · rw [← h]; rfl
        · rw [h, ← hk]; exact Fin.cons_self_tail k
      · simp only [mem_ofPred_eq, mem_empty_iff_false, iff_false, not_and]
        intro h
        exact absurd (by rw [← h]; rfl) hk
    rw [e]
    beta_reduce
    by_cases hk : k 0 = c
    · rw [if_pos hk, if_pos hk, hmass _ A hA, seq_mult h1 hpre n _ 1 (by omega)]
      simp only [Finset.range_one, Finset.sum_singleton]
    · rw [if_neg hk, if_neg hk]; simp

/-- If the first count, over the seeds of `std::random_device`, has the binomial law, then all counts have the multinomial
law with the given probabilities. -/
theorem C48_rmultinom_mixed_partial (hP : FairEngine P) (hn0 : Lib.next 0 1 = 0) {n : ℕ} (hn : n + 2 < 2 ^ 63) {p : ℕ → ℝ}
    (hp : ∀ i < n + 2, 0 ≤ p i) (h1 : ∑ i ∈ Finset.range (n + 2), p i = 1)
    (hpre : ∀ j < n + 2, ∑ i ∈ Finset.range j, p i < 1) (g : ℕ → Fl) (Q : Measure ℕ) [IsProbabilityMeasure Q]
    (hQ : ∀ c : ℕ, Q {rd | (rbinom ((n + 2 : ℕ) : ℤ) (fin (p 0)) (Engine.seed rd : S)).1 = fin c} =
      ENNReal.ofReal (binomPmf (n + 2) (p 0) c)) :
    HasCounts (Q.prod P) P (fun ω : ℕ × S => rmultinom (n + 2) (fun i => fin (p i)) ω.1 g ω.2) (n + 2)
      (multPmf (n + 2) fun i => p i) := by
  have := hP.prob
  have hp0 : 0 ≤ p 0 := hp 0 (by omega)
  have hp1 : p 0 < 1 := by simpa using hpre 1 (by omega)
  set first : ℕ → Fl := fun rd => (rbinom ((n + 2 : ℕ) : ℤ) (fin (p 0)) (Engine.seed rd : S)).1 with hf
  -- almost every seed gives a count
  set good : Set ℕ := {rd | ∃ c ≤ n + 2, first rd = fin (c : ℕ)} with hg
  have hgood : ∀ᵐ rd ∂Q, rd ∈ good := by
    have hu : good = ⋃ c ∈ Finset.range (n + 3), {rd | first rd = fin (c : ℕ)} := by
      ext rd
      simp only [hg, mem_ofPred_eq, mem_iUnion, Finset.mem_range, exists_prop]
      exact exists_congr fun c => and_congr_left fun _ => by omega
    have hm : Q good = 1 := by
      rw [hu, measure_biUnion_finset]
      · rw [Finset.sum_congr rfl fun c _ => hQ c, ← ENNReal.ofReal_sum_of_nonneg fun c _ => binomPmf_nonneg hp0 hp1.le _]
        have : ∑ c ∈ Finset.range (n + 3), binomPmf (n + 2) (p 0) (c : ℕ) = 1 := by
          have := (add_pow (p 0) (1 - p 0) (n + 2)).symm
          rw [add_sub_cancel, one_pow] at this
          rw [← this]
          refine Finset.sum_congr rfl fun c hc => ?_
          have := Finset.mem_range.1 hc
          rw [binomPmf, if_pos (by omega), Int.toNat_natCast]; ring
        rw [this, ENNReal.ofReal_one]
      · intro a _ b _ hab
        refine Set.disjoint_left.2 fun rd ha hb => hab ?_
        have := Fl.fin.inj ((mem_ofPred_eq ▸ ha : first rd = _).symm.trans (mem_ofPred_eq ▸ hb))
        exact_mod_cast this
      · exact fun c _ => (Set.to_countable _).measurableSet
    exact (prob_compl_eq_zero_iff ((Set.to_countable _).measurableSet)).2 hm
  have hst : ∀ rd : ℕ, ∃ (X : S → Fin (n + 2) → ℕ) (N : S → S), Measurable X ∧ Measurable N ∧ (rd ∈ good →
      (∀ᵐ s ∂P, ∃ ret, rmultinom (n + 2) (fun i => fin (p i)) rd g s = some (ret, N s) ∧ ∀ i : Fin (n + 2), ret i = fin (X s i)) ∧
      ∀ (k : Fin (n + 2) → ℕ) (A : Set S), MeasurableSet A → P {s | X s = k ∧ N s ∈ A} =
        (if first rd = fin (k 0 : ℕ) then 1 else 0) *
          (ENNReal.ofReal (multPmf (n + 2 - k 0) (fun i : Fin (n + 1) => p (1 + i) / (1 - p 0)) (Fin.tail k)) * P A)) := by
    intro rd
    by_cases hrd : rd ∈ good
    · obtain ⟨c, hc, e⟩ := hrd
      obtain ⟨X, N, a, b, c', d⟩ := C48_rmultinom_partial hP hn0 hn hp h1 hpre rd g hc e
      refine ⟨X, N, a, b, fun _ => ⟨c', fun k A hA => ?_⟩⟩
      rw [d k A hA, e]
      beta_reduce
      by_cases hk : k 0 = c
      · rw [if_pos hk, if_pos (by rw [hk]), one_mul, hk]
      · rw [if_neg hk, if_neg (fun h => hk (by have := Fl.fin.inj h; exact_mod_cast this.symm)), ENNReal.ofReal_zero, zero_mul,
          zero_mul]
    · exact ⟨fun _ _ => 0, id, measurable_const, measurable_id, fun h => absurd h hrd⟩
  choose X N hX hN hs using hst
  have hXm : Measurable fun ω : ℕ × S => X ω.1 ω.2 := measurable_from_prod_countable_right fun c => hX c
  have hNm : Measurable fun ω : ℕ × S => N ω.1 ω.2 := measurable_from_prod_countable_right fun c => hN c
  refine ⟨fun ω => X ω.1 ω.2, fun ω => N ω.1 ω.2, hXm, hNm, ?_, fun k A hA => ?_⟩
  · have hall : ∀ᵐ s ∂P, ∀ rd, rd ∈ good → ∃ ret, rmultinom (n + 2) (fun i => fin (p i)) rd g s = some (ret, N rd s) ∧
        ∀ i : Fin (n + 2), ret i = fin (X rd s i) := by
      rw [ae_all_iff]; intro rd
      by_cases hrd : rd ∈ good
      · exact (hs rd hrd).1.mono fun s h _ => h
      · exact .of_forall fun s h => absurd h hrd
    have a1 : ∀ᵐ ω ∂Q.prod P, ω.1 ∈ good := Measure.quasiMeasurePreserving_fst.ae hgood
    have a2 := Measure.quasiMeasurePreserving_snd (μ := Q) (ν := P) |>.ae hall
    filter_upwards [a1, a2] with ω h1 h2 using h2 ω.1 h1
  · have hm : MeasurableSet {ω : ℕ × S | X ω.1 ω.2 = k ∧ N ω.1 ω.2 ∈ A} :=
      (hXm (measurableSet_singleton k)).inter (hNm hA)
    rw [Measure.prod_apply hm]
    have e : ∀ᵐ rd ∂Q, P (Prod.mk rd ⁻¹' {ω : ℕ × S | X ω.1 ω.2 = k ∧ N ω.1 ω.2 ∈ A}) =
        ({rd | first rd = fin (k 0 : ℕ)} : Set ℕ).indicator (fun _ => ENNReal.ofReal
          (multPmf (n + 2 - k 0) (fun i : Fin (n + 1) => p (1 + i) / (1 - p 0)) (Fin.tail k)) * P A) rd := by
      filter_upwards [hgood] with rd hrd
      have := (hs rd hrd).2 k A hA
      rw [indicator_apply]
      simp only [mem_ofPred_eq]
      refine Eq.trans this ?_
      split_ifs <;> simp
    rw [lintegral_congr_ae e, lintegral_indicator_const ((Set.to_countable _).measurableSet), hQ, mul_right_comm, mul_comm (ENNReal.ofReal _) (ENNReal.ofReal _),
      ← ENNReal.ofReal_mul (binomPmf_nonneg hp0 hp1.le _)]
    have := mult_step (n + 2) (fun i : Fin (n + 2) => p i) one_ne_zero (by simpa using (sub_pos.2 hp1).ne') k
    simp only [Fin.val_zero, div_one, Fin.val_succ] at this
    rw [← this]
    congr 5
    funext i
    rw [add_comm]

end Stats

namespace Stats.ExamplesC48
open Fl Spec MeasureTheory
open scoped Stats.Fair

theorem rbern_half (s : Tape) (h : (s 0).1 = 1 / 4 ∨ (s 0).1 = 3 / 4) :
    rbern (fin (1 / 2)) s = (if (s 0).1 = 1 / 4 then fin 1 else fin 0, s.tail) := by
  have e : runif (fin 0) (fin 1) s = (fin (Tape.clamp (s 0).1), s.tail) := by
    rw [runif, if_neg (by simp [unif_ok])]
    have hn : nextafter (fin 0) (fin 1) = fin 0 := by
      have := Fair.next
      simp only [nextafter]
      simp [this, ofE]
    rw [hn]
    simp [Engine.unif]
  rw [rbern, if_neg (by simp [bern_ok]; norm_num), zero_eq, one_eq]
  simp only [e]
  rcases h with h | h <;> rw [h] <;> norm_num [Tape.clamp]

theorem first (rd : ℕ) : (rbinom 2 (fin (1 / 2)) (Engine.seed rd : Tape)).1 =
    fin ((if rd.testBit 0 then 0 else 1) + if rd.testBit 1 then 0 else 1) := by
  have h0 : ∀ n, ((Engine.seed rd : Tape) n).1 = if rd.testBit n then 3 / 4 else 1 / 4 := fun n => rfl
  have a : ((Engine.seed rd : Tape) 0).1 = 1 / 4 ∨ ((Engine.seed rd : Tape) 0).1 = 3 / 4 := by
    rw [h0]; split_ifs <;> simp
  have b : ((Engine.seed rd : Tape).tail 0).1 = 1 / 4 ∨ ((Engine.seed rd : Tape).tail 0).1 = 3 / 4 := by
    rw [Tape.tail, h0]; split_ifs <;> simp
  rw [rbinom, if_neg (by simp [binom_ok]; norm_num), show (2 : ℤ).toNat = 2 from rfl]
  simp only [rbinom_loop, rbern_half _ a, rbern_half _ b]
  rw [Tape.tail, h0, h0, zero_add]
  simp only [zero_eq]
  split_ifs <;> first | (exfalso; norm_num at *; done) | (simp only [ideal]; norm_num)

/-- two fair bits as the seed -/
noncomputable def bits : Measure ℕ := ∑ i ∈ Finset.range 4, (4 : ENNReal)⁻¹ • Measure.dirac i

instance : IsProbabilityMeasure bits := ⟨by
  simp only [bits, Measure.coe_finset_sum, Finset.sum_apply, Measure.smul_apply, measure_univ, smul_eq_mul, mul_one,
    Finset.sum_const, Finset.card_range, nsmul_eq_mul]
  exact ENNReal.mul_inv_cancel (by simp) (by simp)⟩

theorem first_law (c : ℕ) : bits {rd | (rbinom 2 (fin (1 / 2)) (Engine.seed rd : Tape)).1 = fin c} =
    ENNReal.ofReal (binomPmf 2 (1 / 2) c) := by
  have e : {rd : ℕ | (rbinom 2 (fin (1 / 2)) (Engine.seed rd : Tape)).1 = fin c} =
      {rd | (if rd.testBit 0 then 0 else 1) + (if rd.testBit 1 then 0 else 1) = c} := by
    ext rd
    rw [Set.mem_ofPred_eq, Set.mem_ofPred_eq, first, fin.injEq]
    split_ifs <;> norm_cast
  have h4 : (4 : ENNReal)⁻¹ = ENNReal.ofReal (1 / 4) := by
    rw [one_div, ENNReal.ofReal_inv_of_pos (by norm_num)]; norm_num
  rw [e, bits, h4]
  rw [Measure.finsetSum_apply]
  simp only [Measure.smul_apply, smul_eq_mul, Measure.dirac_apply, Set.indicator_apply, Set.mem_ofPred_eq]
  simp only [Finset.sum_range_succ, Finset.sum_range_zero]
  have t0 : Nat.testBit 0 0 = false ∧ Nat.testBit 0 1 = false ∧ Nat.testBit 1 0 = true ∧ Nat.testBit 1 1 = false ∧
    Nat.testBit 2 0 = false ∧ Nat.testBit 2 1 = true ∧ Nat.testBit 3 0 = true ∧ Nat.testBit 3 1 = true := by decide
  obtain ⟨a, b, d, e, f, g, h, i⟩ := t0
  simp only [a, b, d, e, f, g, h, i]
  rcases (by omega : c = 0 ∨ c = 1 ∨ c = 2 ∨ 3 ≤ c) with rfl | rfl | rfl | hc
  · rw [show binomPmf 2 (1 / 2) (0 : ℕ) = 1 / 4 by norm_num [binomPmf]]; simp
  · rw [show binomPmf 2 (1 / 2) (1 : ℕ) = 1 / 4 + 1 / 4 by norm_num [binomPmf], ENNReal.ofReal_add (by norm_num) (by norm_num)]
    simp
  · rw [show binomPmf 2 (1 / 2) (2 : ℕ) = 1 / 4 by rw [binomPmf, if_pos (by norm_num)]; simp [show Int.toNat 2 = 2 from rfl]; norm_num]
    simp
  · rw [show binomPmf 2 (1 / 2) (c : ℕ) = 0 by rw [binomPmf, if_neg (by omega)]]
    have : (0 : ℕ) ≠ c ∧ 1 ≠ c ∧ 2 ≠ c := by omega
    simp [this]

/-- Two categories with probability 1/2 each, a seed of two fair bits. -/
example (g : ℕ → Fl) : HasCounts (bits.prod Tape.tapeLaw) Tape.tapeLaw
    (fun ω : ℕ × Tape => rmultinom 2 (fun _ => fin (1 / 2)) ω.1 g ω.2) 2 (multPmf 2 fun _ => 1 / 2) :=
  C48_rmultinom_mixed_partial (n := 0) (p := fun _ => 1 / 2) Tape.fair Fair.next (by norm_num) (by norm_num) (by norm_num)
    (fun j hj => by have : j = 0 ∨ j = 1 := by omega
                    rcases this with rfl | rfl <;> norm_num) g bits first_law

end Stats.ExamplesC48
