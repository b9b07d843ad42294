import Verif.Props.C23
import Verif.Lemmas.Fl

/-!
# C24: vector random generation fills every element and does not depend on the schedule
-/

set_option linter.unusedSectionVars false
open Classical
namespace Stats.Vec

variable {V E : Type*}

/-! ## Specification -/

/-- `vs` are the results of successive calls of the generator on one engine, starting at `e`, ending at `e'`. -/
inductive Draws (g : Gen V E) : E → List V → E → Prop
  | nil (e : E) : Draws g e [] e
  | cons {e e' e'' : E} {v : V} {vs : List V} (h : g.Runs g.init e v e') (t : Draws g e' vs e'') :
      Draws g e (v :: vs) e''

theorem Gen.Runs.unique {g : Gen V E} {l : g.L} {e e1 e2 : E} {v1 v2 : V} (h1 : g.Runs l e v1 e1)
    (h2 : g.Runs l e v2 e2) : v1 = v2 ∧ e1 = e2 := by
  induction h1 with
  | ret h =>
    cases h2 with
    | ret h' => rw [h] at h'; simpa using h'
    | go h' _ => rw [h] at h'; simp at h'
  | go h _ ih =>
    cases h2 with
    | ret h' => rw [h] at h'; simp at h'
    | go h' t =>
      rw [h] at h'
      simp only [Prod.mk.injEq, Sum.inr.injEq] at h'
      obtain ⟨rfl, rfl⟩ := h'
      exact ih t

/-- The draws are determined by the engine. -/
theorem Draws.unique {g : Gen V E} {e e1 e2 : E} {v1 v2 : List V} (h1 : Draws g e v1 e1) (h2 : Draws g e v2 e2)
    (hl : v1.length = v2.length) : v1 = v2 ∧ e1 = e2 := by
  induction h1 generalizing v2 e2 with
  | nil => cases h2 with
    | nil => exact ⟨rfl, rfl⟩
    | cons => simp at hl
  | cons h _ ih => cases h2 with
    | nil => simp at hl
    | cons h' t =>
      obtain ⟨rfl, rfl⟩ := h.unique h'
      obtain ⟨rfl, rfl⟩ := ih t (by simpa using hl)
      exact ⟨rfl, rfl⟩

theorem Draws.snoc {g : Gen V E} {e e' e'' : E} {vs : List V} {v : V} (h : Draws g e vs e')
    (hv : g.Runs g.init e' v e'') : Draws g e (vs ++ [v]) e'' := by
  induction h with
  | nil => exact .cons hv (.nil _)
  | cons h _ ih => exact .cons h (ih hv)

/-- an unfinished call -/
inductive Gen.Reach (g : Gen V E) : g.L → E → g.L → E → Prop
  | refl (l : g.L) (e : E) : Gen.Reach g l e l e
  | tail {l l' l'' : g.L} {e e' e'' : E} (t : Gen.Reach g l e l' e') (h : g.step l' e' = (.inr l'', e'')) :
      Gen.Reach g l e l'' e''

theorem Gen.Reach.runs {g : Gen V E} {l l' : g.L} {e e' e'' : E} {v : V} (h : g.Reach l e l' e')
    (hr : g.Runs l' e' v e'') : g.Runs l e v e'' := by
  induction h with
  | refl => exact hr
  | tail _ h ih => exact ih (.go h hr)

/-! ## The parallel region -/

variable {g : Gen V E} {num T : ℕ}

/-- what thread `j` has done -/
structure RThread (g : Gen V E) (num T : ℕ) (e0 : E) (j : ℕ) (s : RState g) (vs : List V) (e : E) : Prop where
  len : vs.length = (s.loc j).i
  draws : Draws g e0 vs e
  le : (s.loc j).i ≤ perBlock num T
  written : ∀ m < (s.loc j).i, s.out (j * perBlock num T + m) = vs[m]?
  fin : (s.loc j).i = perBlock num T → s.eng j = e
  phase : (∃ p, (s.loc j).phase = .running p ∧ g.Reach g.init e p (s.eng j)) ∨
    ∃ v, (s.loc j).phase = .have v ∧ (s.loc j).i < perBlock num T ∧ g.Runs g.init e v (s.eng j)

structure RInv (g : Gen V E) (num T : ℕ) (eng0 : ℕ → E) (out0 : ℕ → Option V) (s : RState g) : Prop where
  thread : ∀ j < nThreads T, ∃ vs e, RThread g num T (eng0 j) j s vs e
  outside : ∀ i, num ≤ i → s.out i = out0 i

theorem randStep_cases (hn : num < 2 ^ 64) {j : ℕ} (hj : j < nThreads T) (s : RState g) :
    (randStep g num T j s = .done ∧ perBlock num T ≤ (s.loc j).i) ∨
    (∃ p p' e, (s.loc j).i < perBlock num T ∧ (s.loc j).phase = .running p ∧ g.step p (s.eng j) = (.inr p', e) ∧
      randStep g num T j s = .next [⟨.eng j, false⟩, ⟨.eng j, true⟩]
        ⟨s.out, Function.update s.eng j e, Function.update s.loc j ⟨(s.loc j).i, .running p'⟩⟩) ∨
    (∃ p v e, (s.loc j).i < perBlock num T ∧ (s.loc j).phase = .running p ∧ g.step p (s.eng j) = (.inl v, e) ∧
      randStep g num T j s = .next [⟨.eng j, false⟩, ⟨.eng j, true⟩]
        ⟨s.out, Function.update s.eng j e, Function.update s.loc j ⟨(s.loc j).i, .have v⟩⟩) ∨
    (∃ v, (s.loc j).i < perBlock num T ∧ (s.loc j).phase = .have v ∧
      randStep g num T j s = .next [⟨.out (j * perBlock num T + (s.loc j).i), true⟩]
        ⟨Function.update s.out (j * perBlock num T + (s.loc j).i) (some v), s.eng,
          Function.update s.loc j ⟨(s.loc j).i + 1, .running g.init⟩⟩) := by
  by_cases hi : (s.loc j).i < perBlock num T
  · have hx := idx_eq hn hj hi
    have hl := idx_lt hj hi
    have hw : wadd (s.loc j).i 1 = (s.loc j).i + 1 := by rw [wadd, Nat.mod_eq_of_lt (by omega)]
    right
    cases hr : (s.loc j).phase with
    | running p =>
      rcases hs : g.step p (s.eng j) with ⟨r | r, e⟩
      · right; left; exact ⟨p, r, e, hi, rfl, hs, by simp [randStep, hi, hj, hr, hs]⟩
      · left; exact ⟨p, r, e, hi, rfl, hs, by simp [randStep, hi, hj, hr, hs]⟩
    | «have» v => right; right; exact ⟨v, hi, rfl, by simp [randStep, hi, hx, hl, hr, hw]⟩
  · left
    exact ⟨by simp [randStep, hi], not_lt.1 hi⟩

theorem RThread.other {e0 e : E} {k : ℕ} {s s' : RState g} {vs : List V} (h : RThread g num T e0 k s vs e)
    (h1 : s'.loc k = s.loc k) (h2 : s'.eng k = s.eng k)
    (h3 : ∀ m < (s.loc k).i, s'.out (k * perBlock num T + m) = s.out (k * perBlock num T + m)) :
    RThread g num T e0 k s' vs e :=
  ⟨by rw [h1]; exact h.len, h.draws, by rw [h1]; exact h.le, fun m hm => by
    rw [h1] at hm; rw [h3 m hm]; exact h.written m hm, by rw [h1, h2]; exact h.fin, by rw [h1, h2]; exact h.phase⟩

theorem RInv.step (hn : num < 2 ^ 64) {eng0 : ℕ → E} {out0 : ℕ → Option V} (s : RState g) (j : ℕ) (acc : List Access)
    (s' : RState g) (h : RInv g num T eng0 out0 s) (hj : j < nThreads T)
    (hs : randStep g num T j s = .next acc s') : RInv g num T eng0 out0 s' := by
  obtain ⟨vs, e0, hv⟩ := h.thread j hj
  rcases randStep_cases hn hj s with ⟨h1, _⟩ | ⟨p, p', e, hi, hp, hst, h1⟩ | ⟨p, v, e, hi, hp, hst, h1⟩ |
      ⟨v, hi, hp, h1⟩ <;> rw [h1] at hs
  · exact absurd hs (by simp)
  · injection hs with _ hs; subst hs
    refine ⟨fun k hk => ?_, h.outside⟩
    by_cases hkj : k = j
    · subst hkj
      refine ⟨vs, e0, by simpa using hv.len, hv.draws, by simpa using hv.le, by simpa using hv.written, ?_, ?_⟩
      · simp; omega
      · left
        rcases hv.phase with ⟨q, hq, hr⟩ | ⟨w, hw, _⟩
        · rw [hp] at hq; injection hq with hq; subst hq
          exact ⟨p', by simp, by simpa using hr.tail hst⟩
        · rw [hp] at hw; exact absurd hw (by simp)
    · obtain ⟨ws, f, hw⟩ := h.thread k hk
      exact ⟨ws, f, hw.other (by simp [hkj]) (by simp [hkj]) (fun _ _ => rfl)⟩
  · injection hs with _ hs; subst hs
    refine ⟨fun k hk => ?_, h.outside⟩
    by_cases hkj : k = j
    · subst hkj
      refine ⟨vs, e0, by simpa using hv.len, hv.draws, by simpa using hv.le, by simpa using hv.written, ?_, ?_⟩
      · simp; omega
      · right
        rcases hv.phase with ⟨q, hq, hr⟩ | ⟨w, hw, _⟩
        · rw [hp] at hq; injection hq with hq; subst hq
          exact ⟨v, by simp, by simpa using hi, by simpa using hr.runs (.ret hst)⟩
        · rw [hp] at hw; exact absurd hw (by simp)
    · obtain ⟨ws, f, hw⟩ := h.thread k hk
      exact ⟨ws, f, hw.other (by simp [hkj]) (by simp [hkj]) (fun _ _ => rfl)⟩
  · injection hs with _ hs; subst hs
    refine ⟨fun k hk => ?_, fun i hi' => ?_⟩
    · by_cases hkj : k = j
      · subst hkj
        rcases hv.phase with ⟨q, hq, _⟩ | ⟨w, hw, _, hr⟩
        · rw [hp] at hq; exact absurd hq (by simp)
        · rw [hp] at hw; injection hw with hw; subst hw
          refine ⟨vs ++ [v], s.eng k, by simp [hv.len], hv.draws.snoc hr, by simpa using Nat.succ_le_of_lt hi, ?_, ?_, ?_⟩
          · intro m hm
            simp only [Function.update_self] at hm
            rcases Nat.lt_succ_iff_lt_or_eq.1 hm with hlt | rfl
            · simp only
              rw [Function.update_of_ne (by omega), hv.written m hlt, List.getElem?_append_left (by rw [hv.len]; exact hlt)]
            · simp [hv.len.symm]
          · intro _; rfl
          · left; exact ⟨g.init, by simp, .refl _ _⟩
      · obtain ⟨ws, f, hw⟩ := h.thread k hk
        refine ⟨ws, f, hw.other (by simp [hkj]) rfl (fun m hm => ?_)⟩
        simp only
        rw [Function.update_of_ne]
        exact fun hc => hkj (idx_inj (hm.trans_le hw.le) hi hc)
    · have := idx_lt hj hi
      simp only
      rw [Function.update_of_ne (by omega)]
      exact h.outside i hi'

/-! ## The serial loop -/

theorem RandLoop.spec {i : ℕ} {e e' : E} {out out' : ℕ → Option V} (h : RandLoop g num i e out e' out') :
    ∃ vs : List V, vs.length = num - i ∧ Draws g e vs e' ∧
      (∀ m, i ≤ m → m < num → out' m = vs[m - i]?) ∧ ∀ m, m < i ∨ num ≤ m → out' m = out m := by
  induction h with
  | stop h => exact ⟨[], by simp; omega, .nil _, fun m h1 h2 => by omega, fun _ _ => rfl⟩
  | @go i e e' e'' v out out' h hv t ih =>
    obtain ⟨vs, h1, h2, h3, h4⟩ := ih
    refine ⟨v :: vs, by simp [h1]; omega, .cons hv h2, fun m hm hm' => ?_, fun m hm => ?_⟩
    · rcases hm.eq_or_lt with rfl | hlt
      · rw [h4 _ (Or.inl (Nat.lt_succ_self _))]; simp
      · rw [h3 m hlt hm', show m - i = (m - (i + 1)) + 1 by omega]; simp
    · rw [h4 m (by omega), Function.update_of_ne (by omega)]

/-! ## Theorems -/

section
variable [Lib] {S : Type*} [Engine S] {g : Gen V S}

/-- What a vector call leaves in the buffer: block `j` holds the successive draws from an engine built from the
`j`-th seed; if the length is not divisible, the last element of the last block and the remaining elements hold further
draws from engine 0. -/
structure Filled (g : Gen V S) (num T : ℕ) (sd : List ℕ) (out out' : ℕ → Option V) : Prop where
  ex : ∃ (vs : ℕ → List V) (e : ℕ → S) (ws : List V) (e' : S),
    (∀ j < nThreads T, (vs j).length = perBlock num T ∧ Draws g (Engine.seed (sd.getD j 0)) (vs j) (e j)) ∧
    Draws g (e 0) ws e' ∧
    ws.length = (if 0 < remainder num T then remainder num T + 1 else 0) ∧
    (∀ j < nThreads T, ∀ i < perBlock num T, j * perBlock num T + i + ws.length < num ∨ ws = [] →
      out' (j * perBlock num T + i) = (vs j)[i]?) ∧
    (∀ k < ws.length, out' (num - ws.length + k) = ws[k]?) ∧
    ∀ i, num ≤ i → out' i = out i

theorem RInv.init (out : ℕ → Option V) (sd : List ℕ) :
    RInv g num T (fun j => Engine.seed (sd.getD j 0)) out (randInit g out sd) :=
  ⟨fun _ _ => ⟨[], _, rfl, .nil _, Nat.zero_le _, fun m hm => absurd hm (Nat.not_lt_zero m), fun _ => rfl,
    Or.inl ⟨g.init, rfl, .refl _ _⟩⟩, fun _ _ => rfl⟩

/-- The contents of the buffer after any completed execution of the parallel branch. -/
theorem C24_parallel (hn : num < 2 ^ 64) (hT : 0 < T) {out out' : ℕ → Option V} {tr : List (ℕ × List Access)}
    {s s' : S} (hb : minPerBlock < perBlock num T) (h : RandVec g num T s out tr s' out') :
    ∃ sd, seeds (nThreads T) s = some (sd, s') ∧ Filled g num T sd out out' := by
  cases h with
  | serial h => exact absurd hb h
  | @parallel _ sd _ st e' _ _ hsd hr hc hl =>
    refine ⟨sd, hsd, ⟨?_⟩⟩
    have hi := hr.inv (RInv.step hn) (RInv.init (g := g) (num := num) (T := T) out sd)
    haveI : Nonempty S := ⟨s⟩
    choose! vs e hth using hi.thread
    have hdone : ∀ j < nThreads T, (st.loc j).i = perBlock num T := by
      intro j hj
      refine le_antisymm (hth j hj).le ?_
      rcases randStep_cases hn hj st with ⟨_, h⟩ | ⟨_, _, _, _, _, _, h⟩ | ⟨_, _, _, _, _, _, h⟩ | ⟨_, _, _, h⟩
      · exact h
      all_goals rw [hc j hj] at h; exact absurd h (by simp)
    have h0 := nThreads_pos hT
    have hsplit := split (num := num) (T := T)
    have hbeg := beginInd_eq hn hb hT
    have hvs : ∀ j < nThreads T, (vs j).length = perBlock num T ∧
        Draws g (Engine.seed (sd.getD j 0)) (vs j) (e j) := fun j hj =>
      ⟨by rw [(hth j hj).len, hdone j hj], (hth j hj).draws⟩
    have he0 : st.eng 0 = e 0 := (hth 0 h0).fin (hdone 0 h0)
    rcases hl with ⟨hrem, hl⟩ | ⟨hrem, rfl⟩
    · obtain ⟨ws, h1, h2, h3, h4⟩ := hl.spec
      have hlen : ws.length = remainder num T + 1 := by rw [h1]; omega
      refine ⟨vs, e, ws, e', hvs, he0 ▸ h2, by rw [if_pos hrem, hlen], fun j hj i hi' hlt => ?_, fun k hk => ?_,
        fun i hin => ?_⟩
      · have hne : ws ≠ [] := by rintro rfl; simp at hlen
        have := hlt.resolve_right hne
        rw [h4 _ (Or.inl (by omega)), (hth j hj).written i (by rw [hdone j hj]; exact hi')]
      · have hbi : num - ws.length = beginInd num T := by omega
        rw [hbi, h3 _ (Nat.le_add_right _ _) (by omega), Nat.add_sub_cancel_left]
      · rw [h4 i (Or.inr hin)]; exact hi.outside i hin
    · refine ⟨vs, e, [], e 0, hvs, .nil _, by rw [if_neg hrem]; rfl, fun j hj i hi' _ => ?_, fun k hk => by simp at hk,
        fun i hin => hi.outside i hin⟩
      rw [(hth j hj).written i (by rw [hdone j hj]; exact hi')]

/-- The serial branch: successive draws from the given engine, which is left after the last draw. -/
theorem C24_serial {out out' : ℕ → Option V} {tr : List (ℕ × List Access)} {s s' : S}
    (hb : ¬ minPerBlock < perBlock num T) (h : RandVec g num T s out tr s' out') :
    ∃ vs : List V, vs.length = num ∧ Draws g s vs s' ∧ (∀ i < num, out' i = vs[i]?) ∧
      ∀ i, num ≤ i → out' i = out i := by
  cases h with
  | parallel h => exact absurd h hb
  | serial _ hl =>
    obtain ⟨vs, h1, h2, h3, h4⟩ := hl.spec
    exact ⟨vs, h1, h2, fun i hi => h3 i (Nat.zero_le _) hi, fun i hi => h4 i (Or.inr hi)⟩

/-- The build without OpenMP. -/
theorem C24_noomp {out out' : ℕ → Option V} {s s' : S} (h : RandVecSerial g num s out s' out') :
    ∃ vs : List V, vs.length = num ∧ Draws g s vs s' ∧ (∀ i < num, out' i = vs[i]?) ∧
      ∀ i, num ≤ i → out' i = out i := by
  obtain ⟨vs, h1, h2, h3, h4⟩ := RandLoop.spec h
  exact ⟨vs, h1, h2, fun i hi => h3 i (Nat.zero_le _) hi, fun i hi => h4 i (Or.inr hi)⟩

/-- Every element is written. -/
theorem C24_fills (hn : num < 2 ^ 64) (hT : 0 < T) {out out' : ℕ → Option V} {tr : List (ℕ × List Access)}
    {s s' : S} (h : RandVec g num T s out tr s' out') (i : ℕ) (hi : i < num) : ∃ v, out' i = some v := by
  by_cases hb : minPerBlock < perBlock num T
  · obtain ⟨sd, _, ⟨vs, e, ws, e', h1, h2, h3, h4, h5, h6⟩⟩ := C24_parallel hn hT hb h
    have hsplit := split (num := num) (T := T)
    by_cases hlt : i + ws.length < num ∨ ws = []
    · have hp : 0 < perBlock num T := by simp only [minPerBlock] at hb; omega
      have hib : i < nThreads T * perBlock num T := by
        rcases hlt with hlt | rfl
        · by_cases hr : 0 < remainder num T
          · rw [if_pos hr] at h3; omega
          · rw [if_neg hr] at h3; omega
        · by_cases hr : 0 < remainder num T
          · rw [if_pos hr] at h3; simp at h3
          · omega
      have hj : i / perBlock num T < nThreads T := Nat.div_lt_of_lt_mul (by rwa [mul_comm] at hib)
      have hm : i % perBlock num T < perBlock num T := Nat.mod_lt _ hp
      have hid : i / perBlock num T * perBlock num T + i % perBlock num T = i := by
        rw [mul_comm]; exact Nat.div_add_mod _ _
      have := h4 _ hj _ hm (by rw [hid]; exact hlt)
      rw [hid] at this
      rw [this]
      exact ⟨_, List.getElem?_eq_getElem (by rw [(h1 _ hj).1]; exact hm)⟩
    · push Not at hlt
      have := h5 (i - (num - ws.length)) (by omega)
      rw [show num - ws.length + (i - (num - ws.length)) = i by omega] at this
      rw [this]
      exact ⟨_, List.getElem?_eq_getElem (by omega)⟩
  · obtain ⟨vs, h1, _, h3, _⟩ := C24_serial hb h
    rw [h3 i hi]
    exact ⟨_, List.getElem?_eq_getElem (by rw [h1]; exact hi)⟩

theorem Filled.unique (hT : 0 < T) {sd : List ℕ} {out o1 o2 : ℕ → Option V}
    (h1 : Filled g num T sd out o1) (h2 : Filled g num T sd out o2) : o1 = o2 := by
  obtain ⟨vs, e, ws, e', a1, a2, a3, a4, a5, a6⟩ := h1.ex
  obtain ⟨vs', f, ws', f', b1, b2, b3, b4, b5, b6⟩ := h2.ex
  have huniq : ∀ j < nThreads T, vs j = vs' j ∧ e j = f j := fun j hj =>
    (a1 j hj).2.unique (b1 j hj).2 (by rw [(a1 j hj).1, (b1 j hj).1])
  have h0 := nThreads_pos hT
  rw [← (huniq 0 h0).2] at b2
  obtain ⟨rfl, rfl⟩ := a2.unique b2 (by rw [a3, b3])
  have hsplit := split (num := num) (T := T)
  funext i
  by_cases hi : num ≤ i
  · rw [a6 i hi, b6 i hi]
  push Not at hi
  by_cases hlt : i + ws.length < num ∨ ws = []
  · have hib : i < nThreads T * perBlock num T := by
      by_cases hr : 0 < remainder num T
      · rw [if_pos hr] at a3
        rcases hlt with hlt | rfl
        · omega
        · simp at a3
      · omega
    have hp : 0 < perBlock num T := by
      by_contra hc; rw [Nat.le_zero.1 (not_lt.1 hc)] at hib; simp at hib
    have hj : i / perBlock num T < nThreads T := Nat.div_lt_of_lt_mul (by rwa [mul_comm] at hib)
    have hm : i % perBlock num T < perBlock num T := Nat.mod_lt _ hp
    have hid : i / perBlock num T * perBlock num T + i % perBlock num T = i := by
      rw [mul_comm]; exact Nat.div_add_mod _ _
    have e1 := a4 _ hj _ hm (by rw [hid]; exact hlt)
    have e2 := b4 _ hj _ hm (by rw [hid]; exact hlt)
    rw [hid] at e1 e2
    rw [e1, e2, (huniq _ hj).1]
  · push Not at hlt
    have e1 := a5 (i - (num - ws.length)) (by omega)
    have e2 := b5 (i - (num - ws.length)) (by omega)
    rw [show num - ws.length + (i - (num - ws.length)) = i by omega] at e1 e2
    rw [e1, e2]

/-- For a fixed thread count any two executions, with whatever interleavings, produce the same vector and leave
`engine_0` in the same state. -/
theorem C24_schedule_independent (hn : num < 2 ^ 64) (hT : 0 < T) {out o1 o2 : ℕ → Option V}
    {t1 t2 : List (ℕ × List Access)} {s s1 s2 : S} (h1 : RandVec g num T s out t1 s1 o1)
    (h2 : RandVec g num T s out t2 s2 o2) : o1 = o2 ∧ s1 = s2 := by
  by_cases hb : minPerBlock < perBlock num T
  · obtain ⟨sd, a, b⟩ := C24_parallel hn hT hb h1
    obtain ⟨sd', a', b'⟩ := C24_parallel hn hT hb h2
    rw [a] at a'
    simp only [Option.some.injEq, Prod.mk.injEq] at a'
    obtain ⟨rfl, rfl⟩ := a'
    exact ⟨b.unique hT b', rfl⟩
  · obtain ⟨vs, a1, a2, a3, a4⟩ := C24_serial hb h1
    obtain ⟨ws, b1, b2, b3, b4⟩ := C24_serial hb h2
    obtain ⟨rfl, rfl⟩ := a2.unique b2 (by rw [a1, b1])
    refine ⟨funext fun i => ?_, rfl⟩
    by_cases hi : num ≤ i
    · rw [a4 i hi, b4 i hi]
    · rw [a3 i (not_le.1 hi), b3 i (not_le.1 hi)]

end

/-- No access outside the buffers, in any state. -/
theorem C24_no_ub (hn : num < 2 ^ 64) (s : RState g) (j : ℕ) (hj : j < nThreads T) : randStep g num T j s ≠ .ub := by
  rcases randStep_cases hn hj s with ⟨h, _⟩ | ⟨_, _, _, _, _, _, h⟩ | ⟨_, _, _, _, _, _, h⟩ | ⟨_, _, _, h⟩ <;>
    rw [h] <;> simp

/-- No deadlock: a thread that has not finished can go on. -/
theorem C24_progress (hn : num < 2 ^ 64) (s : RState g) (j : ℕ) (hj : j < nThreads T) :
    randStep g num T j s = .done ∨ ∃ acc s', randStep g num T j s = .next acc s' := by
  rcases randStep_cases hn hj s with ⟨h, _⟩ | ⟨_, _, _, _, _, _, h⟩ | ⟨_, _, _, _, _, _, h⟩ | ⟨_, _, _, h⟩
  · exact Or.inl h
  all_goals exact Or.inr ⟨_, _, h⟩

theorem rand_accesses (hn : num < 2 ^ 64) {s0 s : RState g} {tr : List (ℕ × List Access)}
    (hr : Run (randStep g num T) (nThreads T) s0 tr s) : ∀ e ∈ tr, e.1 < nThreads T ∧ ∀ a ∈ e.2,
      a.loc = .eng e.1 ∨ ∃ i < perBlock num T, a.loc = .out (e.1 * perBlock num T + i) := by
  intro e he
  obtain ⟨hj, t, t', -, hs⟩ := hr.events (I := fun _ => True) (fun _ _ _ _ _ _ _ => trivial) trivial e he
  refine ⟨hj, fun a ha => ?_⟩
  rcases randStep_cases hn hj t with ⟨h, _⟩ | ⟨_, _, _, _, _, _, h⟩ | ⟨_, _, _, _, _, _, h⟩ | ⟨_, hi, _, h⟩ <;>
    rw [h] at hs
  · exact absurd hs (by simp)
  all_goals
    injection hs with hs _
    rw [← hs] at ha
    simp only [List.mem_cons, List.not_mem_nil, or_false] at ha
  · rcases ha with rfl | rfl <;> exact Or.inl rfl
  · rcases ha with rfl | rfl <;> exact Or.inl rfl
  · subst ha; exact Or.inr ⟨_, hi, rfl⟩

/-- Output accesses are in bounds, and only the engines that exist are used. -/
theorem C24_in_bounds (hn : num < 2 ^ 64) {s0 s : RState g} {tr : List (ℕ × List Access)}
    (hr : Run (randStep g num T) (nThreads T) s0 tr s) :
    InBounds num tr ∧ ∀ e ∈ tr, ∀ a ∈ e.2, ∀ j, a.loc = .eng j → j < nThreads T := by
  have key := rand_accesses hn hr
  refine ⟨fun e he a ha => ?_, fun e he a ha j hj => ?_⟩
  · obtain ⟨hj, h⟩ := key e he
    rcases h a ha with h | ⟨i, hi, h⟩
    · rw [h]; simp
    · have := idx_lt hj hi
      rw [h]; constructor
      · simp
      · intro i' hi'; simp at hi'; omega
  · obtain ⟨hj', h⟩ := key e he
    rcases h a ha with h | ⟨i, hi, h⟩
    · rw [h] at hj; simp at hj; omega
    · rw [h] at hj; simp at hj

/-- No race, on the output or on the engines. -/
theorem C24_race_free (hn : num < 2 ^ 64) {s0 s : RState g} {tr : List (ℕ × List Access)}
    (hr : Run (randStep g num T) (nThreads T) s0 tr s) : RaceFree tr := by
  have key := rand_accesses hn hr
  intro e he e' he' hne a ha b hb ⟨hloc, _⟩
  rcases (key e he).2 a ha with h | ⟨i, hi, h⟩ <;> rcases (key e' he').2 b hb with h' | ⟨i', hi', h'⟩ <;>
    rw [h, h'] at hloc
  · simp at hloc; exact hne hloc
  · simp at hloc
  · simp at hloc
  · simp only [Loc.out.injEq] at hloc
    exact hne (idx_inj hi hi' hloc)

end Stats.Vec

namespace Stats.Vec
variable {V E : Type*} {g : Gen V E} {num T : ℕ}

/-! ## Termination when the scalar generator always returns -/

theorem run_call (hn : num < 2 ^ 64) {j : ℕ} (hj : j < nThreads T) {l : g.L} {e e' : E} {v : V}
    (h : g.Runs l e v e') : ∀ (s : RState g) (i : ℕ), s.loc j = ⟨i, .running l⟩ → s.eng j = e → i < perBlock num T →
    ∃ tr s', Run (randStep g num T) (nThreads T) s tr s' ∧ s'.loc j = ⟨i + 1, .running g.init⟩ ∧
      ∀ k, k ≠ j → s'.loc k = s.loc k := by
  have store : ∀ (s : RState g) (i : ℕ) (v : V), s.loc j = ⟨i, .have v⟩ → i < perBlock num T →
      ∃ tr s', Run (randStep g num T) (nThreads T) s tr s' ∧ s'.loc j = ⟨i + 1, .running g.init⟩ ∧
        ∀ k, k ≠ j → s'.loc k = s.loc k := by
    intro s i v hl hi
    rcases randStep_cases hn hj s with ⟨_, h1⟩ | ⟨_, _, _, _, h1, _⟩ | ⟨_, _, _, _, h1, _⟩ | ⟨w, _, hw, h1⟩
    · rw [hl] at h1; exact absurd hi (not_lt.2 h1)
    · rw [hl] at h1; exact absurd h1 (by simp)
    · rw [hl] at h1; exact absurd h1 (by simp)
    · refine ⟨_, _, .cons hj h1 (.nil _), by simp [hl], fun k hk => by simp [hk]⟩
  induction h with
  | @ret l e e' v h =>
    intro s i hl he hi
    rcases randStep_cases hn hj s with ⟨_, h1⟩ | ⟨p, p', f, _, h1, h2, _⟩ | ⟨p, w, f, _, h1, h2, h3⟩ | ⟨w, _, hw, _⟩
    · rw [hl] at h1; exact absurd hi (not_lt.2 h1)
    · rw [hl] at h1; injection h1 with h1; subst h1; rw [he, h] at h2; simp at h2
    · obtain ⟨tr, s', hr, ha, hb⟩ := store ⟨s.out, Function.update s.eng j f, Function.update s.loc j ⟨(s.loc j).i, .have w⟩⟩ i w
        (by simp [hl]) hi
      exact ⟨_, s', .cons hj h3 hr, ha, fun k hk => by rw [hb k hk]; simp [hk]⟩
    · rw [hl] at hw; exact absurd hw (by simp)
  | @go l l' e e' e'' v h _ ih =>
    intro s i hl he hi
    rcases randStep_cases hn hj s with ⟨_, h1⟩ | ⟨p, p', f, _, h1, h2, h3⟩ | ⟨p, w, f, _, h1, h2, _⟩ | ⟨w, _, hw, _⟩
    · rw [hl] at h1; exact absurd hi (not_lt.2 h1)
    · rw [hl] at h1; injection h1 with h1; subst h1; rw [he, h] at h2
      simp only [Prod.mk.injEq, Sum.inr.injEq] at h2
      obtain ⟨rfl, rfl⟩ := h2
      obtain ⟨tr, s', hr, ha, hb⟩ := ih ⟨s.out, Function.update s.eng j e', Function.update s.loc j ⟨(s.loc j).i, .running l'⟩⟩ i
        (by simp [hl]) (by simp) hi
      exact ⟨_, s', .cons hj h3 hr, ha, fun k hk => by rw [hb k hk]; simp [hk]⟩
    · rw [hl] at h1; injection h1 with h1; subst h1; rw [he, h] at h2; simp at h2
    · rw [hl] at hw; exact absurd hw (by simp)

theorem run_block (hn : num < 2 ^ 64) (hg : ∀ e, ∃ v e', g.Runs g.init e v e') {j : ℕ} (hj : j < nThreads T) (m : ℕ) :
    ∀ (s : RState g) (i : ℕ), s.loc j = ⟨i, .running g.init⟩ → i + m = perBlock num T →
    ∃ tr s', Run (randStep g num T) (nThreads T) s tr s' ∧ (s'.loc j).i = perBlock num T ∧
      ∀ k, k ≠ j → s'.loc k = s.loc k := by
  induction m with
  | zero => intro s i hl hi; exact ⟨[], s, .nil _, by rw [hl]; exact hi, fun _ _ => rfl⟩
  | succ m ih =>
    intro s i hl hi
    obtain ⟨v, e', hr⟩ := hg (s.eng j)
    obtain ⟨t1, s1, h1, h2, h3⟩ := run_call hn hj hr s i hl rfl (by omega)
    obtain ⟨t2, s2, h4, h5, h6⟩ := ih s1 (i + 1) h2 (by omega)
    exact ⟨_, s2, h1.append h4, h5, fun k hk => by rw [h6 k hk, h3 k hk]⟩

theorem run_all (hn : num < 2 ^ 64) (hg : ∀ e, ∃ v e', g.Runs g.init e v e') (s : RState g)
    (h0 : ∀ j, s.loc j = ⟨0, .running g.init⟩) (n : ℕ) : n ≤ nThreads T →
    ∃ tr s', Run (randStep g num T) (nThreads T) s tr s' ∧ (∀ j < n, (s'.loc j).i = perBlock num T) ∧
      ∀ k, n ≤ k → s'.loc k = s.loc k := by
  induction n with
  | zero => intro _; exact ⟨[], s, .nil _, fun j hj => absurd hj (Nat.not_lt_zero j), fun _ _ => rfl⟩
  | succ n ih =>
    intro hle
    obtain ⟨t1, s1, h1, h2, h3⟩ := ih (by omega)
    obtain ⟨t2, s2, h4, h5, h6⟩ := run_block hn hg (by omega : n < nThreads T) (perBlock num T) s1 0
      (by rw [h3 n le_rfl, h0]) (by omega)
    refine ⟨_, s2, h1.append h4, fun j hj => ?_, fun k hk => ?_⟩
    · by_cases hjn : j = n
      · subst hjn; exact h5
      · rw [h6 j hjn]; exact h2 j (by omega)
    · rw [h6 k (by omega), h3 k (by omega)]

theorem randLoop_total (hg : ∀ e, ∃ v e', g.Runs g.init e v e') (k : ℕ) : ∀ (i : ℕ) (e : E) (out : ℕ → Option V),
    num - i = k → ∃ e' out', RandLoop g num i e out e' out' := by
  induction k with
  | zero => intro i e out hk; exact ⟨e, out, .stop (by omega)⟩
  | succ k ih =>
    intro i e out hk
    obtain ⟨v, e', hr⟩ := hg e
    obtain ⟨e'', out', h⟩ := ih (i + 1) e' _ (by omega)
    exact ⟨e'', out', .go (by omega) hr h⟩

/-- If the scalar generator always returns, the vector call returns. -/
theorem C24_terminates [Lib] {S : Type*} [Engine S] {g : Gen V S} (hn : num < 2 ^ 64)
    (hg : ∀ e, ∃ v e', g.Runs g.init e v e') (s : S) (hsd : seeds (nThreads T) s ≠ none) (out : ℕ → Option V) :
    ∃ tr s' out', RandVec g num T s out tr s' out' := by
  by_cases hb : minPerBlock < perBlock num T
  · obtain ⟨⟨sd, s'⟩, hs⟩ := Option.ne_none_iff_exists'.1 hsd
    obtain ⟨tr, st, h1, h2, _⟩ := run_all (T := T) hn hg (randInit g out sd) (fun _ => rfl) _ le_rfl
    have hc : Complete (randStep g num T) (nThreads T) st := by
      intro j hj
      simp [randStep, h2 j hj]
    by_cases hrem : 0 < remainder num T
    · obtain ⟨e', out', hl⟩ := randLoop_total hg (num := num) _ (beginInd num T) (st.eng 0) st.out rfl
      exact ⟨tr, s', out', .parallel hb hs h1 hc (Or.inl ⟨hrem, hl⟩)⟩
    · exact ⟨tr, s', st.out, .parallel (e' := s) hb hs h1 hc (Or.inr ⟨hrem, rfl⟩)⟩
  · obtain ⟨s', out', hl⟩ := randLoop_total hg (num := num) _ 0 s out rfl
    exact ⟨[], s', out', .serial hb hl⟩

end Stats.Vec
