import Verif.Props.C48

/-!
# C48: the seed of the first count

The first count is a function of the 32 bits `std::random_device` returns. If these are uniform, every event of the first
count has a probability that is a multiple of `2^-32`; in general `2^-b` with `b` bits. The multinomial probability that all trials fall into the first
category is `p₀ⁿ`, and for most `p₀` no such multiple. Nothing is assumed about the arithmetic or about the engine.
-/

set_option linter.unusedSectionVars false
open Classical
open MeasureTheory Set
open scoped ENNReal

namespace Stats
open Fl MatOps Vec Spec
variable [Lib] {S : Type*} [Engine S] [MeasurableSpace S]

/-- a seed of `b` uniform bits, what `std::random_device` returns at best; `b` is 32 where `unsigned int` has 32 bits -/
noncomputable def seedLaw (b : ℕ) : Measure ℕ := ∑ i ∈ Finset.range (2 ^ b), ((2 ^ b : ℕ) : ENNReal)⁻¹ • Measure.dirac i

instance (b : ℕ) : IsProbabilityMeasure (seedLaw b) := ⟨by
  simp only [seedLaw, Measure.coe_finset_sum, Finset.sum_apply, Measure.smul_apply, measure_univ, smul_eq_mul, mul_one,
    Finset.sum_const, Finset.card_range, nsmul_eq_mul]
  exact ENNReal.mul_inv_cancel (by simp) (by simp)⟩

theorem seedLaw_apply (b : ℕ) (A : Set ℕ) : ∃ m : ℕ, seedLaw b A = m * ((2 ^ b : ℕ) : ENNReal)⁻¹ := by
  refine ⟨((Finset.range (2 ^ b)).filter (· ∈ A)).card, ?_⟩
  rw [seedLaw, Measure.finsetSum_apply]
  generalize (2 ^ b : ℕ) = M
  simp only [Measure.smul_apply, smul_eq_mul, Measure.dirac_apply, Set.indicator_apply, Pi.one_apply, mul_ite, mul_one,
    mul_zero]
  rw [← Finset.sum_filter, Finset.sum_const, nsmul_eq_mul]

/-- the loop does not touch earlier entries -/
theorem multinom_loop_keep {n : ℕ} (prob csum : ℕ → Fl) : ∀ (m j : ℕ) (ret : ℕ → Fl) (sum : ℕ) (s : S) (r : (ℕ → Fl) × S),
    rmultinom_loop n prob csum m j ret sum s = some r → ∀ i < j, r.1 i = ret i
  | 0, j, ret, sum, s, r, h, i, _ => by rw [rmultinom_loop, Option.some.injEq] at h; rw [← h]
  | m + 1, j, ret, sum, s, r, h, i, hi => by
    rw [rmultinom_loop, Option.bind_eq_some_iff] at h
    obtain ⟨a, _, h⟩ := h
    rw [multinom_loop_keep prob csum m (j + 1) _ a _ r h i (by omega), Function.update_of_ne (by omega)]

/-- the first entry is the count drawn from the second engine -/
theorem multinom_first {n : ℕ} (prob : ℕ → Fl) (rd : ℕ) (g : ℕ → Fl) (s : S) {r : (ℕ → Fl) × S}
    (h : rmultinom n prob rd g s = some r) : r.1 0 = (rbinom (toSigned n) (prob 0) (Engine.seed rd : S)).1 := by
  rw [rmultinom] at h
  split_ifs at h with h0 h1
  · rw [Option.bind_eq_some_iff] at h
    obtain ⟨a, _, h⟩ := h
    rw [multinom_loop_keep _ _ _ _ _ _ _ r h 0 one_pos, Function.update_self]
  · rw [Option.some.injEq] at h
    rw [← h]; simp

/-- With any engine and any arithmetic, and with `b` uniform bits from `std::random_device`, the counts do not have the
multinomial law, unless `p₀ⁿ` happens to be a multiple of `2^-b`. -/
theorem C48_rmultinom_violated (b : ℕ) (P : Measure S) [IsProbabilityMeasure P] (R : Measure S) [IsProbabilityMeasure R] {n : ℕ}
    {p : Fin (n + 1) → ℝ} (hp : ∀ m : ℕ, p 0 ^ (n + 1) ≠ m / 2 ^ b) (h0 : 0 ≤ p 0) (prob g : ℕ → Fl) :
    ¬ HasCounts ((seedLaw b).prod P) R (fun ω : ℕ × S => rmultinom (n + 1) prob ω.1 g ω.2) (n + 1) (multPmf (n + 1) p) := by
  rintro ⟨X, N, hX, hN, hrun, hmass⟩
  set first : ℕ → Fl := fun rd => (rbinom (toSigned (n + 1)) (prob 0) (Engine.seed rd : S)).1 with hf
  have hk : ∀ k, ((seedLaw b).prod P) {ω | X ω = k} = ENNReal.ofReal (multPmf (n + 1) p k) := by
    intro k
    have := hmass k univ MeasurableSet.univ
    simpa using this
  set k₀ : Fin (n + 1) → ℕ := Fin.cons (n + 1) (fun _ => 0) with hk0
  have hval : multPmf (n + 1) p k₀ = p 0 ^ (n + 1) := by
    rw [multPmf, if_pos (by simp [hk0, Fin.sum_univ_succ])]
    rw [Fin.prod_univ_succ, Fin.prod_univ_succ]
    simp only [hk0, Fin.cons_zero, Fin.cons_succ, Nat.factorial_zero, Nat.cast_one, Finset.prod_const_one, mul_one, pow_zero]
    rw [div_self (by positivity), one_mul]
  -- all trials in the first category
  have e1 : ((seedLaw b).prod P) {ω | X ω 0 = n + 1} = ENNReal.ofReal (p 0 ^ (n + 1)) := by
    rw [← hval, ← hk]
    refine measure_congr ?_
    have hz : ((seedLaw b).prod P) (⋃ k ∈ {k : Fin (n + 1) → ℕ | k 0 = n + 1 ∧ k ≠ k₀}, {ω | X ω = k}) = 0 := by
      rw [measure_biUnion_null_iff (Set.to_countable _)]
      rintro k ⟨a, b⟩
      rw [hk, multPmf, if_neg, ENNReal.ofReal_zero]
      intro hs
      rw [Fin.sum_univ_succ, a] at hs
      have hz : ∑ i : Fin n, k i.succ = 0 := by omega
      rw [Finset.sum_eq_zero_iff] at hz
      refine b (funext fun i => ?_)
      refine Fin.cases ?_ (fun i => ?_) i
      · rw [a, hk0, Fin.cons_zero]
      · rw [hz i (Finset.mem_univ _), hk0, Fin.cons_succ]
    have hz' : ∀ᵐ ω ∂(seedLaw b).prod P, ω ∉ ⋃ k ∈ {k : Fin (n + 1) → ℕ | k 0 = n + 1 ∧ k ≠ k₀}, {ω | X ω = k} :=
      measure_eq_zero_iff_ae_notMem.1 hz
    filter_upwards [hz'] with ω hω
    refine propext ⟨fun h => ?_, fun h => ?_⟩
    · by_contra hne
      exact hω (mem_iUnion₂.2 ⟨X ω, ⟨h, hne⟩, rfl⟩)
    · have h : X ω = k₀ := h
      show X ω 0 = n + 1
      rw [h, hk0, Fin.cons_zero]
  have e2 : ((seedLaw b).prod P) {ω | X ω 0 = n + 1} = seedLaw b {rd | first rd = fin ((n + 1 : ℕ) : ℝ)} := by
    have : ((seedLaw b).prod P) ({rd | first rd = fin ((n + 1 : ℕ) : ℝ)} ×ˢ univ) = seedLaw b {rd | first rd = fin ((n + 1 : ℕ) : ℝ)} := by
      rw [Measure.prod_prod, measure_univ, mul_one]
    rw [← this]
    refine measure_congr ?_
    filter_upwards [hrun] with ω hω
    obtain ⟨ret, h1, h2⟩ := hω
    have h3 := multinom_first prob ω.1 g ω.2 h1
    have h4 := h2 0
    rw [Fin.val_zero] at h4
    replace h3 := h4.symm.trans h3
    refine propext ⟨fun h => ⟨?_, trivial⟩, fun h => ?_⟩
    · have h : X ω 0 = n + 1 := h
      show first ω.1 = _
      exact h3.symm.trans (by rw [h])
    · have h : first ω.1 = fin ((n + 1 : ℕ) : ℝ) := h.1
      have := Fl.fin.inj (h3.trans h)
      show X ω 0 = n + 1
      exact_mod_cast this
  obtain ⟨m, hm⟩ := seedLaw_apply b {rd | first rd = fin ((n + 1 : ℕ) : ℝ)}
  rw [← e2, e1] at hm
  have := congrArg ENNReal.toReal hm
  rw [ENNReal.toReal_ofReal (by positivity), ENNReal.toReal_mul, ENNReal.toReal_natCast, ENNReal.toReal_inv,
    ENNReal.toReal_natCast] at this
  refine hp m ?_
  rw [this, div_eq_mul_inv]; norm_num

end Stats

namespace Stats.ExamplesC48B
open Fl Spec MeasureTheory
open scoped Stats.Fair

theorem third (b m : ℕ) : ((1 / 3 : ℝ)) ^ 2 ≠ m / 2 ^ b := by
  intro h
  have h2 : (2 ^ b : ℝ) = 9 * m := by field_simp at h; linarith
  have h3 : 2 ^ b = 9 * m := by exact_mod_cast h2
  have h4 : 3 ∣ 2 ^ b := ⟨3 * m, by rw [h3]; ring⟩
  have := Nat.prime_three.dvd_of_dvd_pow h4
  omega

/-- Two categories with the probabilities 1/3 and 2/3, the ideal engine, any number of bits. -/
example (b : ℕ) (g : ℕ → Fl) : ¬ HasCounts ((seedLaw b).prod Tape.tapeLaw) Tape.tapeLaw
    (fun ω : ℕ × Tape => rmultinom 2 (fun i => if i = 0 then fin (1 / 3) else fin (2 / 3)) ω.1 g ω.2) 2
    (multPmf 2 fun i => if i = 0 then 1 / 3 else 2 / 3) := by
  have : IsProbabilityMeasure Tape.tapeLaw := Tape.fair.prob
  exact C48_rmultinom_violated (n := 1) b Tape.tapeLaw Tape.tapeLaw
    (p := fun i => if i = 0 then 1 / 3 else 2 / 3) (by simpa using third b) (by norm_num) _ g

end Stats.ExamplesC48B
