import Verif.Model.Multi
import Verif.Lemmas.Wrap
import Verif.Props.C28
import Verif.Props.C37
import Verif.Lemmas.NextInst
import Verif.Lemmas.DoubleCalc

/-!
# C34: multinomial counts

`rmultinom` takes no number of trials: it uses the number of categories. The counts are natural numbers adding up to at
most that number whenever no undefined behaviour occurs, and to exactly that number in exact arithmetic if the partial
sums of the probabilities stay below one. The rest of the claim fails: the first count comes from `std::random_device`
and not from the engine, and a probability vector such as `(1, 0)` ends in the conversion of a NaN to an integer.
-/

set_option linter.unusedSectionVars false
open Classical
namespace Stats
open Fl MatOps Vec Spec
variable [Lib] {S : Type*} [Engine S]

theorem toSigned_eq {n : ℕ} (h : n < 2 ^ 63) : toSigned n = n := by rw [toSigned, if_pos h]

theorem toSize_nat {n : ℕ} (h : n < 2 ^ 64) : toSize (fin n) = some n := by
  rw [toSize, if_pos ⟨by have : (0 : ℝ) ≤ n := by positivity
                         linarith, by rw [Int.floor_natCast]; exact_mod_cast h⟩, Nat.floor_natCast]

/-- The facts about `rbinom` and the arithmetic the counting argument needs, for up to `N` trials. -/
structure CountOk (S : Type*) [Lib] [Engine S] (N : ℕ) : Prop where
  lt : N < 2 ^ 63
  int : ∀ k : ℕ, k ≤ N → ofInt k = fin k
  add : ∀ a b : ℕ, a + b ≤ N → fin a + fin b = fin ((a + b : ℕ) : ℝ)
  binom : ∀ (m : ℕ) (p : Fl) (s : S), m ≤ N → (∃ k : ℕ, k ≤ m ∧ (rbinom m p s).1 = fin k) ∨
    (¬ Prob p ∧ (rbinom m p s).1 = nan)

theorem rbinom_bad {m : ℕ} {p : Fl} (h : ¬ Prob p) (s : S) : (rbinom m p s).1 = nan := by
  rw [rbinom, if_pos]
  intro hb
  apply h
  cases p with
  | fin r => exact ⟨r, by simpa [binom_ok] using hb.2.2.2.1, by simpa [binom_ok] using hb.2.2.2.2, rfl⟩
  | _ => simp [binom_ok, isNan, isInf] at hb

theorem countOk_small {N : ℕ} (h : N ≤ 2 ^ 19) : CountOk S N where
  lt := by omega
  int k hk := by
    have := rep_int (k : ℤ) (by rw [abs_of_nonneg (by positivity)]; exact_mod_cast hk.trans h)
    rw [ofInt]; simp only [Rep] at this; rw [this, ofE_coe]; simp
  add a b hab := by
    have := rep_int ((a + b : ℕ) : ℤ) (by rw [abs_of_nonneg (by positivity)]; exact_mod_cast hab.trans h)
    simp only [Rep] at this
    rw [fin_add_fin, ← Nat.cast_add, ← Int.cast_natCast (a + b), this, ofE_coe]
  binom m p s hm := by
    by_cases hp : Prob p
    · exact .inl (C28_rbinom_small hp (hm.trans h) s)
    · exact .inr ⟨hp, rbinom_bad hp s⟩

theorem countOk_ideal [NextLib] [Ideal] {N : ℕ} (h : N < 2 ^ 63) : CountOk S N where
  lt := h
  int k _ := by simp [ideal]
  add a b _ := by simp [ideal]
  binom m p s _ := by
    by_cases hp : Prob p
    · obtain ⟨k, h1, h2⟩ := C28_rbinom (n := m) (by positivity) hp s
      exact .inl ⟨k, by exact_mod_cast h1, h2⟩
    · exact .inr ⟨hp, rbinom_bad hp s⟩

theorem multinom_step {n : ℕ} (hN : CountOk S n) {rs : ℕ} (hrs : rs ≤ n) (p : Fl) (s : S) :
    (∃ k : ℕ, rs + k ≤ n ∧ (rbinom (toSigned (wsub n rs)) p s).1 = fin k ∧
      toSize (ofInt rs + (rbinom (toSigned (wsub n rs)) p s).1) = some (rs + k)) ∨
    (¬ Prob p ∧ toSize (ofInt rs + (rbinom (toSigned (wsub n rs)) p s).1) = none) := by
  have hlt := hN.lt
  rw [wsub_eq hrs (by omega), toSigned_eq (by omega)]
  rcases hN.binom (n - rs) p s (by omega) with ⟨k, hk, e⟩ | ⟨hp, e⟩
  · refine .inl ⟨k, by omega, e, ?_⟩
    rw [e, hN.int rs hrs, hN.add rs k (by omega), toSize_nat (by omega)]
  · refine .inr ⟨hp, ?_⟩
    rw [e, hN.int rs hrs]; rfl

theorem multinom_loop {n : ℕ} (hN : CountOk S n) (prob csum : ℕ → Fl) (m j : ℕ) (hj : j + m = n) (ret : ℕ → Fl)
    (k : ℕ → ℕ) (hret : ∀ i < j, ret i = fin (k i)) (hk : ∑ i ∈ Finset.range j, k i ≤ n) (s : S)
    {ret' : ℕ → Fl} {s' : S}
    (h : rmultinom_loop n prob csum m j ret (∑ i ∈ Finset.range j, k i) s = some (ret', s')) :
    ∃ k' : ℕ → ℕ, (∀ i < n, ret' i = fin (k' i)) ∧ ∑ i ∈ Finset.range n, k' i ≤ n := by
  induction m generalizing j ret k s with
  | zero =>
    obtain rfl : j = n := by omega
    rw [rmultinom_loop, Option.some_inj, Prod.mk.injEq] at h
    exact ⟨k, fun i hi => by rw [← h.1]; exact hret i hi, hk⟩
  | succ m ih =>
    rw [rmultinom_loop] at h
    rcases multinom_step hN hk (prob j / (1 - csum (j - 1))) s with ⟨c, hc, e, et⟩ | ⟨-, et⟩
    · rw [et, Option.bind_some] at h
      have hsum : ∑ i ∈ Finset.range (j + 1), Function.update k j c i = ∑ i ∈ Finset.range j, k i + c := by
        rw [Finset.sum_range_succ, Function.update_self]
        congr 1
        exact Finset.sum_congr rfl fun i hi => by
          rw [Function.update_of_ne]; have := Finset.mem_range.1 hi; omega
      refine ih (j + 1) (by omega) _ (Function.update k j c) (fun i hi => ?_) (by rw [hsum]; exact hc) _
        (by rw [hsum]; exact h)
      by_cases hij : i = j
      · subst hij; rw [Function.update_self, Function.update_self, e]
      · rw [Function.update_of_ne hij, Function.update_of_ne hij]; exact hret i (by omega)
    · rw [et] at h; simp at h

theorem multinom_counts {n : ℕ} (hN : CountOk S n) (prob : ℕ → Fl) (hp : 2 ≤ n ∨ Prob (prob 0)) (rd : ℕ)
    (g : ℕ → Fl) (s : S) {ret : ℕ → Fl} {s' : S} (h : rmultinom n prob rd g s = some (ret, s')) :
    ∃ k : ℕ → ℕ, (∀ i < n, ret i = fin (k i)) ∧ ∑ i ∈ Finset.range n, k i ≤ n := by
  have hlt := hN.lt
  rw [rmultinom] at h
  by_cases hn : n = 0
  · rw [if_pos hn] at h; simp at h
  rw [if_neg hn, toSigned_eq hlt] at h
  dsimp only at h
  rcases hN.binom n (prob 0) (Engine.seed rd) le_rfl with ⟨c, hc, e⟩ | ⟨hnp, e⟩
  · rw [e] at h
    by_cases h1 : 1 < n
    · rw [if_pos h1, toSize_nat (by omega), Option.bind_some] at h
      refine multinom_loop hN prob _ (n - 1) 1 (by omega) _ (fun _ => c) (fun i hi => ?_) (by simpa using hc) s
        (by simpa using h)
      obtain rfl : i = 0 := by omega
      rw [Function.update_self]
    · obtain rfl : n = 1 := by omega
      rw [if_neg h1, Option.some_inj, Prod.mk.injEq] at h
      refine ⟨fun _ => c, fun i hi => ?_, by simpa using hc⟩
      obtain rfl : i = 0 := by omega
      rw [← h.1, Function.update_self]
  · rcases hp with hp | hp
    · rw [e, if_pos (by omega)] at h
      simp [toSize] at h
    · exact absurd hp hnp

/-- In any arithmetic and for any engine: when the call is defined, the entries are natural numbers, together at most
the number of categories. -/
theorem C34_rmultinom_partial {n : ℕ} (hn : n ≤ 2 ^ 19) (prob : ℕ → Fl) (hp : 2 ≤ n ∨ Prob (prob 0)) (rd : ℕ)
    (g : ℕ → Fl) (s : S) {ret : ℕ → Fl} {s' : S} (h : rmultinom n prob rd g s = some (ret, s')) :
    ∃ k : ℕ → ℕ, (∀ i < n, ret i = fin (k i)) ∧ ∑ i ∈ Finset.range n, k i ≤ n :=
  multinom_counts (countOk_small hn) prob hp rd g s h

section exact
variable [NextLib] [Ideal]

/-- `rbinom` with success probability one counts every trial. -/
theorem rbinom_one (m : ℕ) (s : S) : (rbinom m (fin 1) s).1 = fin m := by
  have hb : ∀ s : S, (rbern (fin 1) s).1 = fin 1 := by
    intro s
    obtain ⟨u, s1, e, h0, h1⟩ := runif_cases s
    rw [rbern, if_neg (by simp [bern_ok])]
    simp only [zero_eq, one_eq, e]
    rw [if_pos (by simpa using h1.le)]
  have key : ∀ (m c : ℕ) (s : S), (rbinom_loop (fin 1) m (fin c) s).1 = fin ((c + m : ℕ) : ℝ) := by
    intro m
    induction m with
    | zero => intro c s; rfl
    | succ m ih =>
      intro c s
      rw [rbinom_loop]
      have e : fin (c : ℝ) + fin 1 = fin ((c + 1 : ℕ) : ℝ) := by simp [ideal]
      rw [hb s, e, ih (c + 1)]; congr 2; omega
  rw [rbinom, if_neg (by simp [binom_ok])]
  have := key m 0 s
  simpa [ideal] using this

theorem multinom_total_loop {n : ℕ} (hn : n < 2 ^ 63) {p : ℕ → ℝ} (hp : ∀ i < n, 0 ≤ p i)
    (h1 : ∑ i ∈ Finset.range n, p i = 1) (hpre : ∀ j < n, ∑ i ∈ Finset.range j, p i < 1) (m j : ℕ) (hj1 : 1 ≤ j)
    (hj : j + m = n) (ret : ℕ → Fl) (k : ℕ → ℕ) (hret : ∀ i < j, ret i = fin (k i))
    (hk : ∑ i ∈ Finset.range j, k i ≤ n) (hfull : m = 0 → ∑ i ∈ Finset.range j, k i = n) (s : S) :
    ∃ (ret' : ℕ → Fl) (s' : S) (k' : ℕ → ℕ), rmultinom_loop n (fun i => fin (p i)) (cumsum n fun i => fin (p i)) m j ret
        (∑ i ∈ Finset.range j, k i) s = some (ret', s') ∧
      (∀ i < n, ret' i = fin (k' i)) ∧ ∑ i ∈ Finset.range n, k' i = n := by
  induction m generalizing j ret k s with
  | zero =>
    obtain rfl : j = n := by omega
    exact ⟨ret, s, k, rfl, hret, hfull rfl⟩
  | succ m ih =>
    have hN : CountOk S n := countOk_ideal hn
    have hcs : cumsum n (fun i => fin (p i)) (j - 1) = fin (∑ i ∈ Finset.range j, p i) := by
      rw [C37_cumsum n p (j - 1) (by omega), Nat.sub_add_cancel hj1]
    have hpos : 0 < 1 - ∑ i ∈ Finset.range j, p i := by linarith [hpre j (by omega)]
    have hpj : fin (p j) / (1 - cumsum n (fun i => fin (p i)) (j - 1)) =
        fin (p j / (1 - ∑ i ∈ Finset.range j, p i)) := by
      rw [hcs, one_eq, ifin_sub, ifin_div _ hpos.ne']
    have hle : p j ≤ 1 - ∑ i ∈ Finset.range j, p i := by
      have h2 : ∑ i ∈ Finset.range (j + 1), p i ≤ ∑ i ∈ Finset.range n, p i :=
        Finset.sum_le_sum_of_subset_of_nonneg (Finset.range_subset_range.2 (by omega)) fun i hi _ =>
          hp i (Finset.mem_range.1 hi)
      rw [Finset.sum_range_succ, h1] at h2
      linarith
    have hprob : Prob (fin (p j / (1 - ∑ i ∈ Finset.range j, p i))) :=
      ⟨_, div_nonneg (hp j (by omega)) hpos.le, (div_le_one hpos).2 hle, rfl⟩
    rw [rmultinom_loop, hpj]
    rcases multinom_step hN hk (fin (p j / (1 - ∑ i ∈ Finset.range j, p i))) s with ⟨c, hc, e, et⟩ | ⟨hnp, -⟩
    · rw [et, Option.bind_some]
      have hsum : ∑ i ∈ Finset.range (j + 1), Function.update k j c i = ∑ i ∈ Finset.range j, k i + c := by
        rw [Finset.sum_range_succ, Function.update_self]
        congr 1
        exact Finset.sum_congr rfl fun i hi => by
          rw [Function.update_of_ne]; have := Finset.mem_range.1 hi; omega
      have := ih (j + 1) (by omega) (by omega) (Function.update ret j
          (rbinom (toSigned (wsub n (∑ i ∈ Finset.range j, k i))) (fin (p j / (1 - ∑ i ∈ Finset.range j, p i))) s).1)
        (Function.update k j c) (fun i hi => ?_) (by rw [hsum]; exact hc) (fun hm => ?_)
        (rbinom (toSigned (wsub n (∑ i ∈ Finset.range j, k i))) (fin (p j / (1 - ∑ i ∈ Finset.range j, p i))) s).2
      · rwa [hsum] at this
      · by_cases hij : i = j
        · subst hij; rw [Function.update_self, Function.update_self, e]
        · rw [Function.update_of_ne hij, Function.update_of_ne hij]; exact hret i (by omega)
      · have hlast : p j / (1 - ∑ i ∈ Finset.range j, p i) = 1 := by
          rw [div_eq_one_iff_eq hpos.ne']
          have : n = j + 1 := by omega
          rw [this, Finset.sum_range_succ] at h1
          linarith
        rw [hlast, wsub_eq hk (by omega), toSigned_eq (by omega), rbinom_one, fin.injEq] at e
        have : n - ∑ i ∈ Finset.range j, k i = c := by exact_mod_cast e
        rw [hsum]; omega
    · exact absurd hprob hnp

/-- Exact arithmetic, partial sums below one: the call is defined and the counts add up to the number of categories.
Missing for the full claim: a number of trials to choose, the vectors with a partial sum equal to one
(`C34_ub_violated`), rounding (`C34_rounding_violated`), and the source of the first count (`C34_engine_violated`). -/
theorem C34_rmultinom_total_partial {n : ℕ} (h0 : 0 < n) (hn : n < 2 ^ 63) {p : ℕ → ℝ} (hp : ∀ i < n, 0 ≤ p i)
    (h1 : ∑ i ∈ Finset.range n, p i = 1) (hpre : ∀ j < n, ∑ i ∈ Finset.range j, p i < 1) (rd : ℕ) (g : ℕ → Fl) (s : S) :
    ∃ (ret : ℕ → Fl) (s' : S) (k : ℕ → ℕ), rmultinom n (fun i => fin (p i)) rd g s = some (ret, s') ∧
      (∀ i < n, ret i = fin (k i)) ∧ ∑ i ∈ Finset.range n, k i = n := by
  have hN : CountOk S n := countOk_ideal hn
  have hp0 : Prob (fin (p 0)) := by
    refine ⟨_, hp 0 h0, ?_, rfl⟩
    rw [← h1]
    exact Finset.single_le_sum (fun i hi => hp i (Finset.mem_range.1 hi)) (Finset.mem_range.2 h0)
  rw [rmultinom, if_neg (by omega), toSigned_eq hn]
  dsimp only
  rcases hN.binom n (fin (p 0)) (Engine.seed rd) le_rfl with ⟨c, hc, e⟩ | ⟨hnp, e⟩
  · rw [e]
    by_cases hn1 : 1 < n
    · rw [if_pos hn1, toSize_nat (by omega), Option.bind_some]
      have := multinom_total_loop hn hp h1 hpre (n - 1) 1 le_rfl (by omega) (Function.update g 0 (fin c)) (fun _ => c)
        (fun i hi => by obtain rfl : i = 0 := by omega
                        rw [Function.update_self]) (by simpa using hc) (by omega) s
      simpa using this
    · obtain rfl : n = 1 := by omega
      rw [if_neg hn1]
      have hp1 : p 0 = 1 := by simpa using h1
      rw [hp1, rbinom_one, fin.injEq] at e
      have hc1 : c = 1 := by exact_mod_cast e.symm
      refine ⟨_, s, fun _ => c, rfl, fun i hi => ?_, by simpa using hc1⟩
      obtain rfl : i = 0 := by omega
      rw [Function.update_self]
  · exact absurd hp0 hnp

end exact

theorem multinom_bad_loop {n : ℕ} (hN : CountOk S n) (prob csum : ℕ → Fl) (m j : ℕ) (hj : j + m = n) (ret : ℕ → Fl)
    (rs : ℕ) (hrs : rs ≤ n) (s : S) {i : ℕ} (hji : j ≤ i) (hi : i < n) (hbad : ¬ Prob (prob i / (1 - csum (i - 1)))) :
    rmultinom_loop n prob csum m j ret rs s = none := by
  induction m generalizing j ret rs s with
  | zero => omega
  | succ m ih =>
    rw [rmultinom_loop]
    rcases multinom_step hN hrs (prob j / (1 - csum (j - 1))) s with ⟨c, hc, e, et⟩ | ⟨-, et⟩
    · rw [et, Option.bind_some]
      by_cases hij : j = i
      · subst hij
        rw [wsub_eq hrs (by have := hN.lt; omega), toSigned_eq (by have := hN.lt; omega), rbinom_bad hbad] at e
        simp at e
      · exact ih (j + 1) (by omega) _ _ hc _ (by omega)
    · rw [et]; rfl

/-- A conditional probability outside `[0,1]` makes the call undefined. -/
theorem C34_bad_prob {n : ℕ} (hn : n ≤ 2 ^ 19) (prob : ℕ → Fl) {i : ℕ} (h1 : 1 ≤ i) (hi : i < n)
    (hbad : ¬ Prob (prob i / (1 - cumsum n prob (i - 1)))) (rd : ℕ) (g : ℕ → Fl) (s : S) :
    rmultinom n prob rd g s = none := by
  have hN : CountOk S n := countOk_small hn
  rw [rmultinom, if_neg (by omega), toSigned_eq hN.lt]
  dsimp only
  rcases hN.binom n (prob 0) (Engine.seed rd) le_rfl with ⟨c, hc, e⟩ | ⟨hnp, e⟩
  · rw [e, if_pos (by omega), toSize_nat (by omega), Option.bind_some]
    exact multinom_bad_loop hN prob _ (n - 1) 1 (by omega) _ c hc s h1 hi hbad
  · rw [e, if_pos (by omega)]; rfl

/-- The probability vector `(1, 0)`: in every arithmetic, for every engine, `0/0` is used as a probability and the NaN count
is converted to an integer. -/
theorem C34_ub_violated (rd : ℕ) (g : ℕ → Fl) (s : S) :
    rmultinom 2 (fun i => if i = 0 then fin 1 else fin 0) rd g s = none := by
  refine C34_bad_prob (by norm_num) _ le_rfl (by norm_num) ?_ rd g s
  have h : cumsum 2 (fun i => if i = 0 then fin 1 else fin 0) (1 - 1) = fin 1 :=
    (C37_cumsum_any 2 (fun i => if i = 0 then fin 1 else fin 0)).1
  have hr : Lib.rnd 0 = ((0 : ℝ) : EReal) := by
    have := rep_int 0 (by norm_num)
    simpa [Rep] using this
  rw [h, one_eq, fin_sub_fin, sub_self, hr, ofE_coe]
  rintro ⟨r, -, -, e⟩
  simp [fin_div_fin] at e

/-! The first count is drawn from `std::random_device`. -/

/-- An engine whose draws all are the same fraction of the interval, fixed by the seed. -/
@[instance_reducible] noncomputable def fracEngine : Engine Bool where
  unif a b s := (match a, b with
    | fin a, fin b => fin (a + (b - a) * if s then 3 / 4 else 1 / 4)
    | _, _ => nan, s)
  unif_mem a b s h := by
    refine ⟨_, rfl, ?_, ?_⟩ <;> cases s <;> simp <;> linarith
  norm s := (0, s)
  seed n := n % 2 == 1

/-- Same engine, same probabilities, different counts: the result depends on what `std::random_device` returns. -/
theorem C34_engine_violated [NextLib] [Ideal] : ∃ (S : Type) (_ : Engine S) (p : ℕ → ℝ) (s : S) (g r0 r1 : ℕ → Fl)
    (s0 s1 : S), 0 ≤ p 0 ∧ 0 ≤ p 1 ∧ p 0 + p 1 = 1 ∧
    rmultinom 2 (fun i => fin (p i)) 0 g s = some (r0, s0) ∧ rmultinom 2 (fun i => fin (p i)) 1 g s = some (r1, s1) ∧
    r0 0 = fin 2 ∧ r1 0 = fin 0 := by
  let := fracEngine
  set d := Lib.next 0 1 with hd
  have hd0 : 0 < d := NextLib.next_gt 0 1 (by norm_num)
  have hd1 : d < 1 := NextLib.next_lt_one
  set q := d + (1 - d) / 2 with hq
  have hq0 : 0 < q := by linarith
  have hq1 : q < 1 := by linarith
  let p : ℕ → ℝ := fun i => if i = 0 then q else 1 - q
  have hb : ∀ s : Bool, rbern (fin q) s = (if s then fin 0 else fin 1, s) := by
    intro s
    have hu : runif (fin 0) (fin 1) s = (fin (d + (1 - d) * if s then 3 / 4 else 1 / 4), s) := by
      rw [runif, if_neg (by simp [unif_ok])]; rfl
    rw [rbern, if_neg (by simp [bern_ok, hq0.le, hq1.le])]
    simp only [zero_eq, one_eq, hu]
    cases s
    · rw [if_pos (by simp [fin_le_fin]; linarith)]; rfl
    · rw [if_neg (by simp [fin_le_fin]; linarith)]; rfl
  have h2 : ∀ s : Bool, (rbinom 2 (fin q) s).1 = if s then fin 0 else fin 2 := by
    intro s
    rw [rbinom, if_neg (by simp [binom_ok, hq0.le, hq1.le])]
    show (rbinom_loop (fin q) 2 0 s).1 = _
    simp only [rbinom_loop, hb]
    cases s <;> simp [ideal]
    norm_num
  have hp : ∀ i < 2, 0 ≤ p i := by
    intro i hi; simp only [p]; split_ifs <;> linarith
  have hs : ∑ i ∈ Finset.range 2, p i = 1 := by simp [Finset.sum_range_succ, p]
  have hpre : ∀ j < 2, ∑ i ∈ Finset.range j, p i < 1 := by
    intro j hj
    interval_cases j
    · simp
    · simp [p, hq1]
  have run : ∀ rd, ∃ r s', rmultinom 2 (fun i => fin (p i)) rd (fun _ => nan) false = some (r, s') ∧
      r 0 = (rbinom 2 (fin q) (Engine.seed rd : Bool)).1 := by
    intro rd
    obtain ⟨r, s', k, e, -, -⟩ := C34_rmultinom_total_partial (by norm_num) (by norm_num) hp hs hpre rd (fun _ => nan) false
    refine ⟨r, s', e, ?_⟩
    rw [rmultinom, if_neg (by norm_num), if_pos (by norm_num)] at e
    have ht : toSigned 2 = 2 := rfl
    rw [ht] at e
    obtain ⟨m, -, e2⟩ := Option.bind_eq_some_iff.1 e
    rw [rmultinom_loop] at e2
    obtain ⟨m', -, e3⟩ := Option.bind_eq_some_iff.1 e2
    rw [rmultinom_loop, Option.some_inj, Prod.mk.injEq] at e3
    rw [← e3.1, Function.update_of_ne (by norm_num), Function.update_self]
    simp [p]
  obtain ⟨r0, s0, e0, v0⟩ := run 0
  obtain ⟨r1, s1, e1, v1⟩ := run 1
  refine ⟨Bool, _, p, false, fun _ => nan, r0, r1, s0, s1, hp 0 (by norm_num), hp 1 (by norm_num), by simp [p], e0, e1,
    ?_, ?_⟩
  · rw [v0, h2]; rfl
  · rw [v1, h2]; rfl

end Stats

namespace Stats.ExamplesC34
open Fl MatOps

section
open DoubleArith
set_option warn.classDefReducibility false in
attribute [local instance] doubleLib

/-- 0.5, 0.3, 0.2 as binary64 numbers -/
noncomputable def probs : ℕ → Fl := fun i =>
  if i = 0 then fin (1 / 2) else if i = 1 then fin (5404319552844595 / 2 ^ 54) else fin (3602879701896397 / 2 ^ 54)

/-- In binary64 the ordinary vector `(0.5, 0.3, 0.2)` always ends in undefined behaviour: the last conditional
probability `0.2/(1 - (0.3 + 0.5))` is rounded to `1 + 2^-52`, `rbinom` rejects it, and the NaN is converted to an
integer. -/
theorem C34_rounding_violated {S : Type*} [Engine S] (rd : ℕ) (g : ℕ → Fl) (s : S) : rmultinom 3 probs rd g s = none := by
  refine C34_bad_prob (by norm_num) _ (i := 2) (by norm_num) (by norm_num) ?_ rd g s
  obtain ⟨h0, h1, -⟩ := C37_cumsum_any 3 probs
  have e1 : cumsum 3 probs (2 - 1) = fin (7205759403792794 / 2 ^ 53) := by
    rw [show 2 - 1 = 0 + 1 from rfl, h1 0 (by norm_num), h0]
    simp only [probs]
    norm_num only [if_true, if_false]
    rw [dadd, Double.R_tie (-1) 7205759403792794 (by norm_num) (by norm_num) (by norm_num) (by norm_num) (by decide)
      (by norm_num), ofE_coe]
    norm_num
  have e2 : (1 : Fl) - fin (7205759403792794 / 2 ^ 53) = fin (1801439850948198 / 2 ^ 53) := by
    rw [one_eq, dsub, Double.R_near (-3) 7205759403792792 (by norm_num) (by norm_num) (by norm_num) (by norm_num)
      (by norm_num), ofE_coe]
    norm_num
  have e3 : probs 2 / fin (1801439850948198 / 2 ^ 53) = fin (1 + 1 / 2 ^ 52) := by
    simp only [probs]
    norm_num only [if_true, if_false]
    rw [ddiv _ (by norm_num), Double.R_near 0 4503599627370497 (by norm_num) (by norm_num) (by norm_num) (by norm_num)
      (by norm_num), ofE_coe]
    norm_num
  rw [e1, e2, e3]
  rintro ⟨r, -, hr, e⟩
  rw [fin.injEq] at e
  rw [← e] at hr
  norm_num at hr
end

open scoped Stats.Exact
example (s : Stream) : ∃ (ret : ℕ → Fl) (s' : Stream) (k : ℕ → ℕ),
    rmultinom 3 (fun i => fin (if i = 0 then 1 / 2 else 1 / 4)) 7 (fun _ => nan) s = some (ret, s') ∧
    (∀ i < 3, ret i = fin (k i)) ∧ ∑ i ∈ Finset.range 3, k i = 3 :=
  C34_rmultinom_total_partial (by norm_num) (by norm_num) (fun i _ => by split_ifs <;> norm_num)
    (by simp [Finset.sum_range_succ]; norm_num) (fun j hj => by interval_cases j <;> norm_num [Finset.sum_range_succ])
    7 _ s

end Stats.ExamplesC34
