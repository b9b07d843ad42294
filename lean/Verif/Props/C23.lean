import Verif.Model.Vec
import Mathlib.Tactic.Linarith
import Mathlib.Tactic.Ring
import Mathlib.Algebra.BigOperators.Group.Finset.Basic
import Mathlib.Algebra.Order.BigOperators.Group.Finset

/-!
# C23: vector evaluation is elementwise evaluation, for every schedule
-/

open Classical
namespace Stats.Vec

/-! ## Specification -/

/-- Two accesses to the same location, one of them a write. -/
def Conflict (a b : Access) : Prop := a.loc = b.loc ∧ (a.write = true ∨ b.write = true)

/-- No two different threads of a parallel region make conflicting accesses (nothing orders their steps). -/
def RaceFree (tr : List (ℕ × List Access)) : Prop :=
  ∀ e ∈ tr, ∀ e' ∈ tr, e.1 ≠ e'.1 → ∀ a ∈ e.2, ∀ b ∈ e'.2, ¬ Conflict a b

/-- All element accesses are inside buffers of `num` elements. -/
def InBounds (num : ℕ) (tr : List (ℕ × List Access)) : Prop :=
  ∀ e ∈ tr, ∀ a ∈ e.2, (∀ i, a.loc = .inp i → i < num) ∧ (∀ i, a.loc = .out i → i < num)

/-! ## Executions -/

section run
variable {σ : Type*} {step : ℕ → σ → Outcome σ} {n : ℕ}

theorem Run.inv {I : σ → Prop} (hI : ∀ s j acc s', I s → j < n → step j s = .next acc s' → I s')
    {s s' : σ} {tr : List (ℕ × List Access)} (h : Run step n s tr s') (h0 : I s) : I s' := by
  induction h with
  | nil => exact h0
  | cons hj hs _ ih => exact ih (hI _ _ _ _ h0 hj hs)

theorem Run.events {I : σ → Prop} (hI : ∀ s j acc s', I s → j < n → step j s = .next acc s' → I s')
    {s s' : σ} {tr : List (ℕ × List Access)} (h : Run step n s tr s') (h0 : I s) :
    ∀ e ∈ tr, e.1 < n ∧ ∃ t t', I t ∧ step e.1 t = .next e.2 t' := by
  induction h with
  | nil => simp
  | cons hj hs _ ih =>
    intro e he
    rcases List.mem_cons.1 he with rfl | he
    · exact ⟨hj, _, _, h0, hs⟩
    · exact ih (hI _ _ _ _ h0 hj hs) e he

theorem Run.append {s t u : σ} {tr tr' : List (ℕ × List Access)} (h : Run step n s tr t) (h' : Run step n t tr' u) :
    Run step n s (tr ++ tr') u := by
  induction h with
  | nil => exact h'
  | cons hj hs _ ih => exact .cons hj hs (ih h')

end run

/-! ## Index arithmetic -/

theorem nThreads_pos {T : ℕ} (h : 0 < T) : 0 < nThreads T := by
  simp only [nThreads, nBlocks]; omega

theorem block_le {num T : ℕ} : nThreads T * perBlock num T ≤ num := Nat.mul_div_le _ _

theorem split {num T : ℕ} : nThreads T * perBlock num T + remainder num T = num := Nat.div_add_mod _ _

theorem idx_lt {num T j i : ℕ} (hj : j < nThreads T) (hi : i < perBlock num T) : j * perBlock num T + i < num := by
  have h1 : (j + 1) * perBlock num T ≤ nThreads T * perBlock num T := Nat.mul_le_mul_right _ hj
  have := block_le (num := num) (T := T)
  rw [Nat.add_mul, one_mul] at h1
  omega

theorem idx_eq {num T j i : ℕ} (hn : num < 2 ^ 64) (hj : j < nThreads T) (hi : i < perBlock num T) :
    wadd i (wmul j (perBlock num T)) = j * perBlock num T + i := by
  have h := idx_lt hj hi
  rw [wadd, wmul, Nat.mod_eq_of_lt (by omega : j * perBlock num T < 2 ^ 64), Nat.mod_eq_of_lt (by omega), add_comm]

theorem idx_inj {n j i j' i' : ℕ} (hi : i < n) (hi' : i' < n) (h : j * n + i = j' * n + i') : j = j' := by
  have h1 : (j * n + i) / n = j := by
    rw [mul_comm, Nat.mul_add_div (by omega), Nat.div_eq_of_lt hi, add_zero]
  have h2 : (j' * n + i') / n = j' := by
    rw [mul_comm, Nat.mul_add_div (by omega), Nat.div_eq_of_lt hi', add_zero]
  rw [← h1, h, h2]

theorem beginInd_eq {num T : ℕ} (hn : num < 2 ^ 64) (h : minPerBlock < perBlock num T) (hT : 0 < T) :
    beginInd num T + 1 = nThreads T * perBlock num T := by
  have h1 := split (num := num) (T := T)
  have h2 := nThreads_pos hT
  have h3 : perBlock num T ≤ nThreads T * perBlock num T := Nat.le_mul_of_pos_left _ h2
  generalize nThreads T * perBlock num T = B at *
  simp only [minPerBlock] at h
  have e : wsub num (remainder num T) = B := by
    rw [wsub, Nat.mod_eq_of_lt (by omega : remainder num T < 2 ^ 64)]
    omega
  rw [beginInd, e, wsub]
  omega

/-! ## The parallel region of the evaluation -/

variable {A V : Type*} {f : A → Option V} {inp : ℕ → A} {num T : ℕ}

structure EInv (f : A → Option V) (inp : ℕ → A) (num T : ℕ) (out0 : ℕ → Option V) (s : EState V) : Prop where
  le : ∀ j < nThreads T, (s.loc j).i ≤ perBlock num T
  written : ∀ j < nThreads T, ∀ i < (s.loc j).i, s.out (j * perBlock num T + i) = f (inp (j * perBlock num T + i)) ∧
    f (inp (j * perBlock num T + i)) ≠ none
  pending : ∀ j < nThreads T, ∀ v, (s.loc j).reg = some v → (s.loc j).i < perBlock num T ∧
    f (inp (j * perBlock num T + (s.loc j).i)) = some v
  outside : ∀ i, num ≤ i → s.out i = out0 i

theorem evalStep_cases (hn : num < 2 ^ 64) {j : ℕ} (hj : j < nThreads T) (s : EState V) :
    (evalStep f inp num T j s = .done ∧ perBlock num T ≤ (s.loc j).i) ∨
    ((s.loc j).i < perBlock num T ∧ (s.loc j).reg = none ∧ f (inp (j * perBlock num T + (s.loc j).i)) = none ∧
      evalStep f inp num T j s = .hang) ∨
    (∃ v, (s.loc j).i < perBlock num T ∧ (s.loc j).reg = none ∧
      f (inp (j * perBlock num T + (s.loc j).i)) = some v ∧
      evalStep f inp num T j s = .next [⟨.inp (j * perBlock num T + (s.loc j).i), false⟩]
        ⟨s.out, Function.update s.loc j ⟨(s.loc j).i, some v⟩⟩) ∨
    (∃ v, (s.loc j).i < perBlock num T ∧ (s.loc j).reg = some v ∧
      evalStep f inp num T j s = .next [⟨.out (j * perBlock num T + (s.loc j).i), true⟩]
        ⟨Function.update s.out (j * perBlock num T + (s.loc j).i) (some v),
          Function.update s.loc j ⟨(s.loc j).i + 1, none⟩⟩) := by
  by_cases hi : (s.loc j).i < perBlock num T
  · have hx := idx_eq hn hj hi
    have hl := idx_lt hj hi
    have hw : wadd (s.loc j).i 1 = (s.loc j).i + 1 := by rw [wadd, Nat.mod_eq_of_lt (by omega)]
    right
    cases hr : (s.loc j).reg with
    | none =>
      cases hf : f (inp (j * perBlock num T + (s.loc j).i)) with
      | none => left; simp [evalStep, hi, hx, hl, hr, hf]
      | some v => right; left; exact ⟨v, hi, rfl, rfl, by simp [evalStep, hi, hx, hl, hr, hf]⟩
    | some v => right; right; exact ⟨v, hi, rfl, by simp [evalStep, hi, hx, hl, hr, hw]⟩
  · left
    exact ⟨by simp [evalStep, hi], not_lt.1 hi⟩

theorem EInv.step (hn : num < 2 ^ 64) {out0 : ℕ → Option V} (s : EState V) (j : ℕ) (acc : List Access) (s' : EState V)
    (h : EInv f inp num T out0 s) (hj : j < nThreads T) (hs : evalStep f inp num T j s = .next acc s') :
    EInv f inp num T out0 s' := by
  rcases evalStep_cases (f := f) (inp := inp) hn hj s with ⟨h1, _⟩ | ⟨_, _, _, h1⟩ | ⟨v, hi, hr, hf, h1⟩ | ⟨v, hi, hr, h1⟩ <;> rw [h1] at hs
  · exact absurd hs (by simp)
  · exact absurd hs (by simp)
  · injection hs with _ hs; subst hs
    refine ⟨fun k hk => ?_, fun k hk i hki => ?_, fun k hk w hw => ?_, h.outside⟩
    all_goals by_cases hkj : k = j
    · subst hkj; simpa using hi.le
    · simpa [hkj] using h.le k hk
    · subst hkj; simp at hki ⊢; exact h.written k hk i hki
    · simp [hkj] at hki ⊢; exact h.written k hk i hki
    · subst hkj; simp at hw ⊢; subst hw; exact ⟨hi, hf⟩
    · simp [hkj] at hw ⊢; exact h.pending k hk w hw
  · injection hs with _ hs; subst hs
    have hf := (h.pending j hj v hr).2
    have key : ∀ m, (s.out m = f (inp m) ∧ f (inp m) ≠ none) →
        Function.update s.out (j * perBlock num T + (s.loc j).i) (some v) m = f (inp m) ∧ f (inp m) ≠ none := by
      intro m hm
      by_cases hme : m = j * perBlock num T + (s.loc j).i
      · subst hme; simp [hf]
      · simp [hme, hm]
    refine ⟨fun k hk => ?_, fun k hk i hki => ?_, fun k hk w hw => ?_, fun i hi' => ?_⟩
    · by_cases hkj : k = j
      · subst hkj; simpa using Nat.succ_le_of_lt hi
      · simpa [hkj] using h.le k hk
    · by_cases hkj : k = j
      · subst hkj
        simp only [Function.update_self] at hki ⊢
        rcases Nat.lt_succ_iff_lt_or_eq.1 hki with hlt | rfl
        · exact key _ (h.written k hk i hlt)
        · simp [hf]
      · simp only [Function.update_of_ne hkj] at hki
        exact key _ (h.written k hk i hki)
    · by_cases hkj : k = j
      · subst hkj; simp at hw
      · simp [hkj] at hw ⊢; exact h.pending k hk w hw
    · have := idx_lt hj hi
      simp only
      rw [Function.update_of_ne (by omega)]
      exact h.outside i hi'

theorem EInv.init (out : ℕ → Option V) : EInv f inp num T out (evalInit out) :=
  ⟨fun _ _ => Nat.zero_le _, fun _ _ i hi => absurd hi (Nat.not_lt_zero i), fun _ _ v hv => by simp [evalInit] at hv,
    fun _ _ => rfl⟩

/-! ## The serial loop -/

theorem evalLoop_spec (k : ℕ) : ∀ (i : ℕ) (out out' : ℕ → Option V), num - i = k →
    evalLoop f inp num i out = some out' →
    (∀ m, i ≤ m → m < num → out' m = f (inp m) ∧ f (inp m) ≠ none) ∧ (∀ m, m < i ∨ num ≤ m → out' m = out m) := by
  induction k with
  | zero =>
    intro i out out' hk h
    rw [evalLoop, if_neg (by omega)] at h
    injection h with h; subst h
    exact ⟨fun m h1 h2 => by omega, fun _ _ => rfl⟩
  | succ k ih =>
    intro i out out' hk h
    rw [evalLoop, if_pos (by omega)] at h
    cases hf : f (inp i) with
    | none => simp [hf] at h
    | some v =>
      simp only [hf] at h
      obtain ⟨h1, h2⟩ := ih _ _ _ (by omega) h
      refine ⟨fun m hm hm' => ?_, fun m hm => ?_⟩
      · rcases hm.eq_or_lt with rfl | hlt
        · rw [h2 _ (Or.inl (Nat.lt_succ_self _)), Function.update_self, hf]; simp
        · exact h1 m hlt hm'
      · rw [h2 m (by omega), Function.update_of_ne (by omega)]

theorem evalLoop_total (k : ℕ) : ∀ (i : ℕ) (out : ℕ → Option V), num - i = k → (∀ m < num, f (inp m) ≠ none) →
    ∃ out', evalLoop f inp num i out = some out' := by
  induction k with
  | zero => intro i out hk _; exact ⟨out, by rw [evalLoop, if_neg (by omega)]⟩
  | succ k ih =>
    intro i out hk h
    rw [evalLoop, if_pos (by omega)]
    cases hf : f (inp i) with
    | none => exact absurd hf (h i (by omega))
    | some v => exact ih _ _ (by omega) h

/-! ## Theorems -/

/-- Every element of the output is the scalar function at the same element of the input, and nothing else is
written, for every number of threads and every interleaving. -/
theorem C23_result (hn : num < 2 ^ 64) (hT : 0 < T) {out out' : ℕ → Option V} {tr : List (ℕ × List Access)}
    (h : EvalVec f inp num T out tr out') :
    (∀ i < num, out' i = f (inp i) ∧ out' i ≠ none) ∧ (∀ i, num ≤ i → out' i = out i) := by
  cases h with
  | serial h hl =>
    obtain ⟨h1, h2⟩ := evalLoop_spec _ _ _ _ rfl hl
    exact ⟨fun i hi => by rw [(h1 i (Nat.zero_le _) hi).1]; exact ⟨rfl, (h1 i (Nat.zero_le _) hi).2⟩,
      fun i hi => h2 i (Or.inr hi)⟩
  | @parallel _ s _ hb hr hc hl =>
    have hi := hr.inv (EInv.step hn) (EInv.init (f := f) (inp := inp) (num := num) (T := T) out)
    have hdone : ∀ j < nThreads T, (s.loc j).i = perBlock num T := by
      intro j hj
      refine le_antisymm (hi.le j hj) ?_
      rcases evalStep_cases (f := f) (inp := inp) hn hj s with ⟨_, h⟩ | ⟨_, _, _, h⟩ | ⟨_, _, _, _, h⟩ | ⟨_, _, _, h⟩
      · exact h
      all_goals rw [hc j hj] at h; exact absurd h (by simp)
    have hblock : ∀ m < nThreads T * perBlock num T, s.out m = f (inp m) ∧ f (inp m) ≠ none := by
      intro m hm
      have hp : 0 < perBlock num T := by
        by_contra h0; rw [Nat.le_zero.1 (not_lt.1 h0)] at hm; simp at hm
      have hj : m / perBlock num T < nThreads T := Nat.div_lt_of_lt_mul (by rwa [mul_comm] at hm)
      have := hi.written _ hj (m % perBlock num T) (by rw [hdone _ hj]; exact Nat.mod_lt _ hp)
      rwa [mul_comm, Nat.div_add_mod] at this
    have hsplit := split (num := num) (T := T)
    have hbeg := beginInd_eq hn hb hT
    split_ifs at hl with hrem
    · obtain ⟨h1, h2⟩ := evalLoop_spec _ _ _ _ rfl hl
      refine ⟨fun i hin => ?_, fun i hin => ?_⟩
      · by_cases hib : beginInd num T ≤ i
        · rw [(h1 i hib hin).1]; exact ⟨rfl, (h1 i hib hin).2⟩
        · rw [h2 i (Or.inl (not_le.1 hib)), (hblock i (by omega)).1]; exact ⟨rfl, (hblock i (by omega)).2⟩
      · rw [h2 i (Or.inr hin)]; exact hi.outside i hin
    · injection hl with hl; subst hl
      refine ⟨fun i hin => ?_, fun i hin => hi.outside i hin⟩
      rw [(hblock i (by omega)).1]; exact ⟨rfl, (hblock i (by omega)).2⟩

/-- The same for the build without OpenMP. -/
theorem C23_serial {out out' : ℕ → Option V} (h : evalVecSerial f inp num out = some out') :
    (∀ i < num, out' i = f (inp i) ∧ out' i ≠ none) ∧ (∀ i, num ≤ i → out' i = out i) := by
  obtain ⟨h1, h2⟩ := evalLoop_spec _ _ _ _ rfl h
  exact ⟨fun i hi => by rw [(h1 i (Nat.zero_le _) hi).1]; exact ⟨rfl, (h1 i (Nat.zero_le _) hi).2⟩,
    fun i hi => h2 i (Or.inr hi)⟩

/-- In no state of the parallel region does a thread access memory outside the buffers. -/
theorem C23_no_ub (hn : num < 2 ^ 64) (s : EState V) (j : ℕ) (hj : j < nThreads T) :
    evalStep f inp num T j s ≠ .ub := by
  rcases evalStep_cases (f := f) (inp := inp) hn hj s with ⟨h, _⟩ | ⟨_, _, _, h⟩ | ⟨_, _, _, _, h⟩ | ⟨_, _, _, h⟩ <;>
    rw [h] <;> simp

/-- All accesses of the parallel region are inside the buffers. -/
theorem C23_in_bounds (hn : num < 2 ^ 64) {out : ℕ → Option V} {tr : List (ℕ × List Access)} {s : EState V}
    (hr : Run (evalStep f inp num T) (nThreads T) (evalInit out) tr s) : InBounds num tr := by
  intro e he a ha
  obtain ⟨hj, t, t', -, hs⟩ := hr.events (I := fun _ => True) (fun _ _ _ _ _ _ _ => trivial) trivial e he
  rcases evalStep_cases (f := f) (inp := inp) hn hj t with ⟨h, _⟩ | ⟨_, _, _, h⟩ | ⟨v, hi, _, _, h⟩ | ⟨v, hi, _, h⟩ <;>
    rw [h] at hs
  · exact absurd hs (by simp)
  · exact absurd hs (by simp)
  all_goals
    injection hs with hs _
    rw [← hs] at ha
    simp only [List.mem_singleton] at ha
    subst ha
    have := idx_lt hj hi
    constructor <;> intro i hi' <;> simp at hi' <;> omega

/-- There is no data race, whatever the interleaving. -/
theorem C23_race_free (hn : num < 2 ^ 64) {out : ℕ → Option V} {tr : List (ℕ × List Access)} {s : EState V}
    (hr : Run (evalStep f inp num T) (nThreads T) (evalInit out) tr s) : RaceFree tr := by
  have key : ∀ e ∈ tr, ∀ a ∈ e.2, (∃ i, a = ⟨.inp i, false⟩) ∨
      ∃ i < perBlock num T, a = ⟨.out (e.1 * perBlock num T + i), true⟩ := by
    intro e he a ha
    obtain ⟨hj, t, t', -, hs⟩ := hr.events (I := fun _ => True) (fun _ _ _ _ _ _ _ => trivial) trivial e he
    rcases evalStep_cases (f := f) (inp := inp) hn hj t with ⟨h, _⟩ | ⟨_, _, _, h⟩ | ⟨v, hi, _, _, h⟩ | ⟨v, hi, _, h⟩ <;>
      rw [h] at hs
    · exact absurd hs (by simp)
    · exact absurd hs (by simp)
    all_goals
      injection hs with hs _
      rw [← hs] at ha
      simp only [List.mem_singleton] at ha
    · exact Or.inl ⟨_, ha⟩
    · exact Or.inr ⟨_, hi, ha⟩
  intro e he e' he' hne a ha b hb ⟨hloc, hw⟩
  rcases key e he a ha with ⟨i, rfl⟩ | ⟨i, hi, rfl⟩ <;> rcases key e' he' b hb with ⟨i', rfl⟩ | ⟨i', hi', rfl⟩
  · simp at hw
  · simp at hloc
  · simp at hloc
  · simp only [Loc.out.injEq] at hloc
    exact hne (idx_inj hi hi' hloc)

/-- Unless a scalar call hangs, a thread that has not finished can go on in every reachable state: no deadlock. -/
theorem C23_progress (hn : num < 2 ^ 64) (hf : ∀ i < num, f (inp i) ≠ none) (s : EState V) (j : ℕ)
    (hj : j < nThreads T) :
    evalStep f inp num T j s = .done ∨ ∃ acc s', evalStep f inp num T j s = .next acc s' := by
  rcases evalStep_cases (f := f) (inp := inp) hn hj s with ⟨h, _⟩ | ⟨hi, _, h0, _⟩ | ⟨_, _, _, _, h⟩ | ⟨_, _, _, h⟩
  · exact Or.inl h
  · exact absurd h0 (hf _ (idx_lt hj hi))
  · exact Or.inr ⟨_, _, h⟩
  · exact Or.inr ⟨_, _, h⟩

/-- work done so far -/
def EState.work (n : ℕ) (s : EState V) : ℕ :=
  ∑ j ∈ Finset.range n, (2 * (s.loc j).i + if (s.loc j).reg.isSome then 1 else 0)

theorem work_step (hn : num < 2 ^ 64) (s s' : EState V) (j : ℕ) (acc : List Access) (hj : j < nThreads T)
    (hs : evalStep f inp num T j s = .next acc s') : s'.work (nThreads T) = s.work (nThreads T) + 1 := by
  have hsum (l' : ELocal V) (h : 2 * l'.i + (if l'.reg.isSome then 1 else 0) =
      2 * (s.loc j).i + (if (s.loc j).reg.isSome then 1 else 0) + 1) :
      ∑ k ∈ Finset.range (nThreads T), (2 * (Function.update s.loc j l' k).i +
        if (Function.update s.loc j l' k).reg.isSome then 1 else 0) =
      ∑ k ∈ Finset.range (nThreads T), (2 * (s.loc k).i + if (s.loc k).reg.isSome then 1 else 0) + 1 := by
    rw [← Finset.add_sum_erase _ _ (Finset.mem_range.2 hj), ← Finset.add_sum_erase _ (fun k => 2 * (s.loc k).i + if (s.loc k).reg.isSome then 1 else 0) (Finset.mem_range.2 hj)]
    simp only [Function.update_self]
    rw [h, Finset.sum_congr rfl (fun k hk => by rw [Function.update_of_ne (Finset.ne_of_mem_erase hk)])]
    ring
  rcases evalStep_cases (f := f) (inp := inp) hn hj s with ⟨h, _⟩ | ⟨_, _, _, h⟩ | ⟨v, hi, hr, _, h⟩ | ⟨v, hi, hr, h⟩ <;>
    rw [h] at hs
  · exact absurd hs (by simp)
  · exact absurd hs (by simp)
  · injection hs with _ hs; subst hs
    exact hsum _ (by simp [hr])
  · injection hs with _ hs; subst hs
    exact hsum _ (by simp [hr]; ring)

/-- Every execution of the parallel region has at most `2 * num` steps. -/
theorem C23_bounded (hn : num < 2 ^ 64) {out : ℕ → Option V} {tr : List (ℕ × List Access)} {s : EState V}
    (hr : Run (evalStep f inp num T) (nThreads T) (evalInit out) tr s) : tr.length ≤ 2 * num := by
  have hlen : ∀ {s0 : EState V}, Run (evalStep f inp num T) (nThreads T) s0 tr s →
      s.work (nThreads T) = s0.work (nThreads T) + tr.length := by
    intro s0 h
    clear hr
    induction h with
    | nil => simp
    | cons hj hs _ ih => rw [ih, work_step hn _ _ _ _ hj hs, List.length_cons]; ring
  have h1 := hlen hr
  have hi := hr.inv (EInv.step hn) (EInv.init (f := f) (inp := inp) (num := num) (T := T) out)
  have h2 : s.work (nThreads T) ≤ ∑ _j ∈ Finset.range (nThreads T), 2 * perBlock num T := by
    apply Finset.sum_le_sum
    intro j hj
    have hj' := Finset.mem_range.1 hj
    have := hi.le j hj'
    split_ifs with hs
    · obtain ⟨v, hv⟩ := Option.isSome_iff_exists.1 hs
      have := (hi.pending j hj' v hv).1
      omega
    · omega
  rw [Finset.sum_const, Finset.card_range, smul_eq_mul] at h2
  have := block_le (num := num) (T := T)
  nlinarith

/-- From every reachable state the region can be completed, and the whole macro returns: the result theorem is not
vacuous. -/
theorem C23_terminates (hn : num < 2 ^ 64) (hf : ∀ i < num, f (inp i) ≠ none) (out : ℕ → Option V) :
    ∃ tr out', EvalVec f inp num T out tr out' := by
  by_cases hb : minPerBlock < perBlock num T
  swap
  · obtain ⟨out', h⟩ := evalLoop_total (num := num) _ 0 out rfl hf
    exact ⟨[], out', .serial hb h⟩
  have hrun : ∀ (k : ℕ) (tr : List (ℕ × List Access)) (s : EState V),
      Run (evalStep f inp num T) (nThreads T) (evalInit out) tr s → 2 * num - tr.length = k →
      ∃ tr' s', Run (evalStep f inp num T) (nThreads T) (evalInit out) tr' s' ∧
        Complete (evalStep f inp num T) (nThreads T) s' := by
    intro k
    induction k using Nat.strong_induction_on with
    | _ k ih =>
      intro tr s hr hk
      by_cases hc : Complete (evalStep f inp num T) (nThreads T) s
      · exact ⟨tr, s, hr, hc⟩
      · simp only [Complete] at hc
        push Not at hc
        obtain ⟨j, hj, hne⟩ := hc
        obtain ⟨acc, s', hs⟩ := (C23_progress hn hf s j hj).resolve_left hne
        have hr' := hr.append (.cons hj hs (.nil _))
        have hb' := C23_bounded hn hr'
        simp only [List.length_append, List.length_cons, List.length_nil] at hb'
        exact ih _ (by simp only [List.length_append, List.length_cons, List.length_nil]; omega) _ _ hr' rfl
  obtain ⟨tr, s, hr, hc⟩ := hrun _ _ _ (.nil _) rfl
  by_cases hrem : 0 < remainder num T
  · obtain ⟨out', h⟩ := evalLoop_total (num := num) _ (beginInd num T) s.out rfl hf
    exact ⟨tr, out', .parallel hb hr hc (by rw [if_pos hrem, h])⟩
  · exact ⟨tr, s.out, .parallel hb hr hc (by rw [if_neg hrem])⟩

/-! ## A concrete case: 22 elements, 4 threads (5 per block, remainder 2). -/

example : ∃ tr out', EvalVec (fun x : ℕ => some (x * x)) (fun i => i + 1) 22 7 (fun _ => none) tr out' ∧
    out' 17 = some 324 ∧ out' 21 = some 484 := by
  obtain ⟨tr, out', h⟩ := C23_terminates (T := 7) (f := fun x : ℕ => some (x * x)) (inp := fun i => i + 1) (num := 22)
    (by norm_num) (by simp) (fun _ => none)
  have hr := (C23_result (by norm_num) (by norm_num) h).1
  exact ⟨tr, out', h, by rw [(hr 17 (by norm_num)).1], by rw [(hr 21 (by norm_num)).1]⟩

example : minPerBlock < perBlock 22 7 ∧ remainder 22 7 = 2 ∧ beginInd 22 7 = 19 := by decide

end Stats.Vec
