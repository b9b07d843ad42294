import Verif.Props.C24
import Verif.Props.C41
import Verif.Lemmas.NextInst
import Verif.Lemmas.IdealArith
import Verif.Lemmas.DoubleCalc

/-!
# C26: per-thread seeds; C25: the number of threads
-/

set_option linter.unusedSectionVars false
open Classical
namespace Stats.Vec
open Fl

section
variable [Lib] {S : Type*} [Engine S]

theorem rnd_between {x : ℝ} {m M : ℤ} (hm : |m| ≤ 2 ^ 19) (hM : |M| ≤ 2 ^ 19) (h1 : (m : ℝ) ≤ x) (h2 : x ≤ M) :
    ∃ y : ℝ, ofE (Lib.rnd x) = fin y ∧ (m : ℝ) ≤ y ∧ y ≤ M := by
  have a := Lib.rnd_mono h1
  have b := Lib.rnd_mono h2
  rw [rnd_int hm] at a
  rw [rnd_int hM] at b
  generalize Lib.rnd x = e at a b
  induction e using EReal.rec with
  | bot => exact absurd (le_bot_iff.1 a) (EReal.coe_ne_bot _)
  | top => exact absurd (top_le_iff.1 b) (EReal.coe_ne_top _)
  | coe y => exact ⟨y, ofE_coe y, by exact_mod_cast a, by exact_mod_cast b⟩

/-- For every library the seed of thread `k` of `n` is between `1000 (n+k)` and `1000 (n+k+1)`, and the conversion
to `size_t` is defined. -/
theorem seed_value_bounds [NextLib] {k n : ℕ} (hk : k + n ≤ 500) (s : S) :
    ∃ v s', generate_seed_value k n s = some (v, s') ∧ 1000 * (k + n) ≤ v ∧ v ≤ 1000 * (k + n + 1) := by
  obtain ⟨u, hu, h0, h1⟩ := runif_mem s
  obtain ⟨a, ha, a1, a2⟩ := rnd_between (x := u + k) (m := k) (M := k + 1) (by rw [abs_of_nonneg] <;> omega)
    (by rw [abs_of_nonneg] <;> omega) (by push_cast; linarith) (by push_cast; linarith)
  push_cast at a1 a2
  obtain ⟨b, hb, b1, b2⟩ := rnd_between (x := a + n) (m := k + n) (M := k + n + 1) (by rw [abs_of_nonneg] <;> omega)
    (by rw [abs_of_nonneg] <;> omega) (by push_cast; linarith) (by push_cast; linarith)
  push_cast at b1 b2
  obtain ⟨c, hc, c1, c2⟩ := rnd_between (x := b * 1000) (m := 1000 * (k + n)) (M := 1000 * (k + n + 1))
    (by rw [abs_of_nonneg] <;> omega) (by rw [abs_of_nonneg] <;> omega) (by push_cast; linarith)
    (by push_cast; linarith)
  push_cast at c1 c2
  have c0 : (0 : ℝ) ≤ c := le_trans (by positivity) c1
  have hfl : ⌊c⌋ < 2 ^ 64 := by
    have : (⌊c⌋ : ℝ) ≤ 1000 * (k + n + 1) := (Int.floor_le c).trans c2
    have h3 : ⌊c⌋ ≤ 1000 * ((k : ℤ) + n + 1) := by exact_mod_cast this
    omega
  refine ⟨⌊c⌋₊, (runif 0 1 s).2, ?_, ?_, ?_⟩
  · rw [generate_seed_value]
    simp only [zero_eq, one_eq, hu]
    rw [fin_add_fin, ha, fin_add_fin, hb, fin_mul_fin, hc, toSize, if_pos ⟨by linarith, hfl⟩]
    rfl
  · exact Nat.le_floor (by push_cast; exact c1)
  · have : ((⌊c⌋₊ : ℕ) : ℝ) ≤ 1000 * (k + n + 1) := (Nat.floor_le c0).trans c2
    exact_mod_cast this

theorem seedLoop_spec {P : ℕ → ℕ → Prop} {n : ℕ}
    (hP : ∀ k, k < n → ∀ (s : S) v s', generate_seed_value k n s = some (v, s') → P k v) (m : ℕ) :
    ∀ (k : ℕ) (s : S) (l : List ℕ) (s' : S), k + m ≤ n → seedLoop n m k s = some (l, s') →
      l.length = m ∧ ∀ i, (h : i < l.length) → P (k + i) l[i] := by
  induction m with
  | zero =>
    intro k s l s' _ h
    simp only [seedLoop, Option.some.injEq, Prod.mk.injEq] at h
    obtain ⟨rfl, rfl⟩ := h
    exact ⟨rfl, fun i hi => absurd hi (by simp)⟩
  | succ m ih =>
    intro k s l s' hk h
    simp only [seedLoop] at h
    obtain ⟨⟨v, s1⟩, h1, h2⟩ := Option.bind_eq_some_iff.1 h
    obtain ⟨⟨r, s2⟩, h3, h4⟩ := Option.map_eq_some_iff.1 h2
    simp only [Prod.mk.injEq] at h4
    obtain ⟨rfl, rfl⟩ := h4
    obtain ⟨h5, h6⟩ := ih _ _ _ _ (by omega) h3
    refine ⟨by simp [h5], fun i hi => ?_⟩
    cases i with
    | zero => exact hP k (by omega) _ _ _ h1
    | succ i =>
      have := h6 i (by simpa using hi)
      rw [show k + (i + 1) = k + 1 + i by omega]
      simpa using this

theorem seedLoop_total [NextLib] {n : ℕ} (hn : n ≤ 250) (m : ℕ) : ∀ (k : ℕ) (s : S), k + m ≤ n →
    ∃ r, seedLoop n m k s = some r := by
  induction m with
  | zero => intro k s _; exact ⟨_, rfl⟩
  | succ m ih =>
    intro k s hk
    obtain ⟨v, s', h, _⟩ := seed_value_bounds (k := k) (n := n) (by omega) s
    obtain ⟨r, hr⟩ := ih (k + 1) s' (by omega)
    exact ⟨(v :: r.1, r.2), by simp [seedLoop, h, hr]⟩

/-- Computing the seeds is always defined. -/
theorem C26_defined [NextLib] (T : ℕ) (s : S) : ∃ sd s', seeds (nThreads T) s = some (sd, s') ∧
    sd.length = nThreads T := by
  have hT : nThreads T ≤ 4 := min_le_right _ _
  obtain ⟨⟨sd, s'⟩, h⟩ := seedLoop_total (S := S) (n := nThreads T) (by omega) (nThreads T) 0 s (by omega)
  exact ⟨sd, s', h, (seedLoop_spec (P := fun _ _ => True) (fun _ _ _ _ _ _ => trivial) _ _ _ _ _ (by omega) h).1⟩

/-- With any rounding, seeds of threads that are not neighbours differ, and the seeds are in ascending order. What is
missing for C26: neighbours, which can collide (`C26_violated`). -/
theorem C26_partial [NextLib] {T : ℕ} {s s' : S} {sd : List ℕ} (h : seeds (nThreads T) s = some (sd, s')) (i j : ℕ)
    (hi : i < sd.length) (hj : j < sd.length) (hij : i + 1 < j) : sd[i] < sd[j] := by
  have hT : nThreads T ≤ 4 := min_le_right _ _
  have key := (seedLoop_spec (P := fun k v => 1000 * (k + nThreads T) ≤ v ∧ v ≤ 1000 * (k + nThreads T + 1))
    (n := nThreads T) (fun k hk s v s' hv => by
      obtain ⟨w, t, hw, h1, h2⟩ := seed_value_bounds (k := k) (n := nThreads T) (by omega) s
      rw [hv] at hw
      simp only [Option.some.injEq, Prod.mk.injEq] at hw
      obtain ⟨rfl, rfl⟩ := hw
      exact ⟨h1, h2⟩) _ _ _ _ _ (by omega) h).2
  have h1 := (key i hi).2
  have h2 := (key j hj).1
  omega

end

/-- In exact arithmetic the seeds of the threads are pairwise different. -/
theorem C26_exact [Lib] [Ideal] {S : Type*} [Engine S] [NextLib] {n : ℕ} {s s' : S} {sd : List ℕ}
    (h : seeds n s = some (sd, s')) : sd.Nodup := by
  have key := (seedLoop_spec (P := fun k v => 1000 * (k + n) ≤ v ∧ v < 1000 * (k + n + 1))
    (n := n) (fun k hk s v s' hv => by
      obtain ⟨u, hu, h0, h1⟩ := runif_mem s
      rw [generate_seed_value] at hv
      simp only [zero_eq, one_eq, hu, ideal] at hv
      obtain ⟨w, hw, he⟩ := Option.map_eq_some_iff.1 hv
      simp only [Prod.mk.injEq] at he
      obtain ⟨rfl, rfl⟩ := he
      rw [toSize] at hw
      split_ifs at hw with hc
      injection hw with hw
      subst hw
      have hpos : (0 : ℝ) ≤ (u + k + n) * 1000 := by positivity
      constructor
      · refine Nat.le_floor ?_
        push_cast; linarith
      · refine (Nat.floor_lt hpos).2 ?_
        push_cast; linarith) _ _ _ _ _ (by omega) h).2
  rw [List.nodup_iff_injective_get]
  intro i j hij
  have h1 := key i i.2
  have h2 := key j j.2
  simp only [List.get_eq_getElem] at hij
  rw [hij] at h1
  ext
  omega

/-! ## C25 -/

section
variable {V : Type*} [Lib] {S : Type*} [Engine S] {g : Gen V S} {num T T' : ℕ}

/-- The result is the same for two thread counts of at least 4, or when neither leads to a parallel region. What is
missing: all other pairs, see `C25_violated`. -/
theorem C25_partial (hn : num < 2 ^ 64) (hT : 0 < T) (hc : (4 ≤ T ∧ 4 ≤ T') ∨
    (perBlock num T ≤ minPerBlock ∧ perBlock num T' ≤ minPerBlock)) {out o1 o2 : ℕ → Option V}
    {t1 t2 : List (ℕ × List Access)} {s s1 s2 : S} (h1 : RandVec g num T s out t1 s1 o1)
    (h2 : RandVec g num T' s out t2 s2 o2) : o1 = o2 ∧ s1 = s2 := by
  rcases hc with ⟨a, b⟩ | ⟨a, b⟩
  · have e : nThreads T' = nThreads T := by simp only [nThreads, nBlocks]; omega
    have : RandVec g num T s out t2 s2 o2 := by
      have e1 : perBlock num T' = perBlock num T := by rw [perBlock, e, perBlock]
      have e2 : remainder num T' = remainder num T := by rw [remainder, e, remainder]
      have e3 : beginInd num T' = beginInd num T := by rw [beginInd, e2, beginInd]
      have e4 : randStep g num T' = randStep g num T := by
        funext j st; simp only [randStep, e1, e]
      cases h2 with
      | parallel h hs hr hc hl =>
        rw [e1] at h; rw [e] at hs; rw [e4, e] at hr hc; rw [e2, e3] at hl
        exact .parallel h hs hr hc hl
      | serial h hl => rw [e1] at h; exact .serial h hl
    exact C24_schedule_independent hn hT h1 this
  · obtain ⟨vs, a1, a2, a3, a4⟩ := C24_serial (not_lt.2 a) h1
    obtain ⟨ws, b1, b2, b3, b4⟩ := C24_serial (not_lt.2 b) h2
    obtain ⟨rfl, rfl⟩ := a2.unique b2 (by rw [a1, b1])
    refine ⟨funext fun i => ?_, rfl⟩
    by_cases hi : num ≤ i
    · rw [a4 i hi, b4 i hi]
    · rw [a3 i (not_le.1 hi), b3 i (not_le.1 hi)]

/-- The first element in the parallel branch is the first draw of a fresh engine whose seed depends on the number of
threads. -/
theorem first_element [NextLib] (hn : num < 2 ^ 64) (hT : 0 < T) (hb : minPerBlock < perBlock num T)
    {out o : ℕ → Option V} {tr : List (ℕ × List Access)} {s s' : S} (h : RandVec g num T s out tr s' o) :
    ∃ sd v e, 1000 * nThreads T ≤ sd ∧ sd ≤ 1000 * (nThreads T + 1) ∧ g.Runs g.init (Engine.seed sd) v e ∧
      o 0 = some v := by
  obtain ⟨sd, hsd, ⟨vs, e, ws, e', h1, h2, h3, h4, h5, h6⟩⟩ := C24_parallel hn hT hb h
  have h0 := nThreads_pos hT
  have hT4 : nThreads T ≤ 4 := min_le_right _ _
  obtain ⟨hlen, hd⟩ := h1 0 h0
  have hsplit := split (num := num) (T := T)
  have hge : perBlock num T ≤ nThreads T * perBlock num T := Nat.le_mul_of_pos_left _ h0
  have hrem : remainder num T < nThreads T := Nat.mod_lt _ h0
  have ho := h4 0 h0 0 (by omega) (by
    left; simp only [minPerBlock] at hb; rw [h3]; split_ifs <;> omega)
  obtain ⟨v, vs', hvs⟩ : ∃ v vs', vs 0 = v :: vs' := by
    cases hv : vs 0 with
    | nil => rw [hv] at hlen; simp only [List.length_nil] at hlen; omega
    | cons v vs' => exact ⟨v, vs', rfl⟩
  rw [hvs] at hd ho
  cases hd with
  | cons hr _ =>
    have hs := (seedLoop_spec (P := fun k v => 1000 * (k + nThreads T) ≤ v ∧ v ≤ 1000 * (k + nThreads T + 1))
      (n := nThreads T) (fun k hk s v s' hv => by
        obtain ⟨w, t, hw, h1, h2⟩ := seed_value_bounds (k := k) (n := nThreads T) (by omega) s
        rw [hv] at hw
        simp only [Option.some.injEq, Prod.mk.injEq] at hw
        obtain ⟨rfl, rfl⟩ := hw
        exact ⟨h1, h2⟩) _ _ _ _ _ (by omega) hsd)
    have hl : 0 < sd.length := by rw [hs.1]; exact h0
    have hb := hs.2 0 hl
    refine ⟨sd.getD 0 0, v, _, ?_, ?_, hr, by simpa using ho⟩
    · rw [List.getD_eq_getElem?_getD, List.getElem?_eq_getElem hl]; simpa using hb.1
    · rw [List.getD_eq_getElem?_getD, List.getElem?_eq_getElem hl]; simpa using hb.2

end
end Stats.Vec

namespace Stats.Vec.ExamplesC25
open Fl Spec Stats.Vec

section
open scoped Stats.Exact

/-- `rnorm(0, 1)` as a generator -/
noncomputable def gnorm : Gen Fl Stream := Gen.ofFun (fun s => some (rnorm (fin 0) (fin 1) s))

theorem gnorm_total (e : Stream) : ∃ v e', gnorm.Runs gnorm.init e v e' :=
  ⟨(rnorm (fin 0) (fin 1) e).1, (rnorm (fin 0) (fin 1) e).2, .ret rfl⟩

theorem gnorm_seed {k : ℕ} {v : Fl} {e : Stream} (h : gnorm.Runs gnorm.init (Engine.seed k) v e) : v = fin k := by
  have h2 := h.unique (.ret (by rfl) : gnorm.Runs gnorm.init (Engine.seed k)
    (rnorm (fin 0) (fin 1) (Engine.seed k : Stream)).1 (rnorm (fin 0) (fin 1) (Engine.seed k : Stream)).2)
  rw [h2.1, rnorm, if_neg (by simp [norm_ok])]
  simp only [ideal, one_mul, zero_add]
  rfl

/-- The result depends on the number of threads: twenty draws of `rnorm(0,1)`, one thread or three. -/
theorem C25_violated : ¬ ∀ (num T T' : ℕ) (g : Gen Fl Stream) (s s1 s2 : Stream) (out o1 o2 : ℕ → Option Fl)
    (t1 t2 : List (ℕ × List Access)), 0 < T → 0 < T' → RandVec g num T s out t1 s1 o1 →
    RandVec g num T' s out t2 s2 o2 → o1 = o2 := by
  intro hall
  have s : Stream := Engine.seed 0
  have hsd (T : ℕ) : seeds (nThreads T) s ≠ none := by
    obtain ⟨_, _, h, _⟩ := C26_defined T s
    rw [h]; simp
  obtain ⟨t1, s1, o1, h1⟩ := C24_terminates (num := 20) (T := 1) (by norm_num) gnorm_total s (hsd 1) (fun _ => none)
  obtain ⟨t2, s2, o2, h2⟩ := C24_terminates (num := 20) (T := 3) (by norm_num) gnorm_total s (hsd 3) (fun _ => none)
  have he := hall 20 1 3 gnorm s s1 s2 _ o1 o2 t1 t2 (by norm_num) (by norm_num) h1 h2
  obtain ⟨k1, v1, e1, a1, b1, r1, f1⟩ := first_element (by norm_num) (by norm_num) (by decide) h1
  obtain ⟨k2, v2, e2, a2, b2, r2, f2⟩ := first_element (by norm_num) (by norm_num) (by decide) h2
  rw [gnorm_seed r1] at f1
  rw [gnorm_seed r2, ← he, f1] at f2
  simp only [Option.some.injEq, fin.injEq, Nat.cast_inj] at f2
  subst f2
  simp [nThreads, nBlocks] at a1 b1 a2 b2
  omega

/-- the hypotheses of `C26_exact` and `C25_partial` are met: 37 elements, 9 threads or 5 -/
example : ∃ sd s', seeds (nThreads 9) (Engine.seed 3 : Stream) = some (sd, s') ∧ sd.length = 4 ∧ sd.Nodup := by
  obtain ⟨sd, s', h, hl⟩ := C26_defined 9 (Engine.seed 3 : Stream)
  exact ⟨sd, s', h, hl, C26_exact h⟩

/-- the hypotheses of the theorems of C24 are met: 37 elements and 9 threads, in parallel -/
example : minPerBlock < perBlock 37 9 ∧ ∃ tr s' out', RandVec gnorm 37 9 (Engine.seed 3 : Stream) (fun _ => none) tr s' out' ∧
    ∀ i < 37, ∃ v, out' i = some v := by
  obtain ⟨sd, s', h, -⟩ := C26_defined 9 (Engine.seed 3 : Stream)
  obtain ⟨tr, s', out', h⟩ := C24_terminates (num := 37) (T := 9) (by norm_num) gnorm_total (Engine.seed 3 : Stream)
    (by rw [h]; simp) (fun _ => none)
  exact ⟨by decide, tr, s', out', h, C24_fills (by norm_num) (by norm_num) h⟩

end

/-! ### binary64 -/

/-- An engine whose first uniform variate is the largest number below 1 and whose others are `2^-53`. -/
inductive Edge | first | later

noncomputable instance : Engine Edge where
  unif a b s := (match a, b with
    | fin a, fin b => fin (match s with
      | .first => if a ≤ 1 - 1 / 2 ^ 53 ∧ 1 - 1 / 2 ^ 53 < b then 1 - 1 / 2 ^ 53 else a
      | .later => if a ≤ 1 / 2 ^ 53 ∧ 1 / 2 ^ 53 < b then 1 / 2 ^ 53 else a)
    | _, _ => nan, .later)
  unif_mem a b s h := by
    refine ⟨_, rfl, ?_, ?_⟩ <;> cases s <;> simp only <;> split_ifs with hc
    · exact hc.1
    · exact le_rfl
    · exact hc.1
    · exact le_rfl
    · exact hc.2
    · exact h
    · exact hc.2
    · exact h
  norm s := (0, s)
  seed _ := .first

section
open DoubleArith
set_option warn.classDefReducibility false in
attribute [local instance] doubleLib

theorem next01 : Lib.next 0 1 ≤ 1 / 2 ^ 53 := by
  have h : Lib.next 0 1 = min (1 : ℝ) (0 + Double.gap 0) := rfl
  rw [h, Double.gap, if_pos rfl, zero_add]
  refine (min_le_right _ _).trans ?_
  have : (1 : ℝ) / 2 ^ 53 = 2 ^ (-53 : ℤ) := by norm_num
  rw [this]
  exact zpow_le_zpow_right₀ (by norm_num) (by norm_num)

theorem di (n : ℤ) (h : |n| ≤ 2 ^ 19) : ofE (Double.R (n : ℝ)) = fin (n : ℝ) := by
  rw [show Double.R (n : ℝ) = ((n : ℝ) : EReal) from doubleRounding.int n h, ofE_coe]

theorem runif_first : runif 0 1 Edge.first = (fin (1 - 1 / 2 ^ 53), Edge.later) := by
  have h := next01
  rw [runif, if_neg (by simp [unif_ok]), zero_eq, one_eq]
  simp only [nextafter, Engine.unif]
  rw [if_pos]
  exact ⟨h.trans (by norm_num), by norm_num⟩

theorem runif_later : runif 0 1 Edge.later = (fin (1 / 2 ^ 53), Edge.later) := by
  have h := next01
  rw [runif, if_neg (by simp [unif_ok]), zero_eq, one_eq]
  simp only [nextafter, Engine.unif]
  rw [if_pos]
  exact ⟨h, by norm_num⟩

theorem toSize3000 : toSize (fin 3 * fin 1000) = some 3000 := by
  have : fin 3 * fin 1000 = fin 3000 := by
    rw [dmul]; simpa using (show (3 : ℝ) * 1000 = ((3000 : ℤ) : ℝ) by norm_num) ▸ di 3000 (by norm_num)
  rw [this, toSize, if_pos ⟨by norm_num, by norm_num⟩]
  norm_num

/-- In binary64 two neighbouring threads can get the same seed: `(1 - 2^-53) + 0 + 2` rounds to 3, and so does
`2^-53 + 1 + 2`. -/
theorem C26_violated : seeds 2 Edge.first = some ([3000, 3000], Edge.later) := by
  have a1 : fin (1 - 1 / 2 ^ 53) + fin ((0 : ℕ) : ℝ) = fin (1 - 1 / 2 ^ 53) := by
    rw [dadd, Double.R_near (-1) 9007199254740991 (by norm_num) (by norm_num) (by norm_num) (by norm_num)
      (by norm_num), ofE_coe]
    norm_num
  have a2 : fin (1 - 1 / 2 ^ 53) + fin ((2 : ℕ) : ℝ) = fin 3 := by
    rw [dadd, Double.R_near 1 6755399441055744 (by norm_num) (by norm_num) (by norm_num) (by norm_num)
      (by norm_num), ofE_coe]
    norm_num
  have b1 : fin (1 / 2 ^ 53) + fin ((1 : ℕ) : ℝ) = fin 1 := by
    rw [dadd, Double.R_tie 0 4503599627370496 (by norm_num) (by norm_num) (by norm_num) (by norm_num)
      (by decide) (by norm_num), ofE_coe]
    norm_num
  have b2 : fin 1 + fin ((2 : ℕ) : ℝ) = fin 3 := by
    rw [dadd]; simpa using (show (1 : ℝ) + ((2 : ℕ) : ℝ) = ((3 : ℤ) : ℝ) by norm_num) ▸ di 3 (by norm_num)
  have s0 : generate_seed_value 0 2 Edge.first = some (3000, Edge.later) := by
    rw [generate_seed_value, runif_first]; simp only
    rw [a1, a2, toSize3000]; rfl
  have s1 : generate_seed_value 1 2 Edge.later = some (3000, Edge.later) := by
    rw [generate_seed_value, runif_later]; simp only
    rw [b1, b2, toSize3000]; rfl
  simp [seeds, seedLoop, s0, s1]

end
end Stats.Vec.ExamplesC25
