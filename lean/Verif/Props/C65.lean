import Verif.Model.BlazeMap
import Verif.Props.C24

/-! # C65: filling a Blaze matrix with several threads -/

set_option linter.unusedSectionVars false
namespace Stats.Vec

variable {A V E : Type*}

/-! ## Densities -/

/-- What is true at any time: an element no thread has still to do holds its value, and nothing is lost or done twice. -/
structure DInv (f : A → Option V) (inp : ℕ → A) (num n : ℕ) (part : ℕ → List ℕ) (s : DMap V) : Prop where
  sub : ∀ j < n, ∃ d, part j = d ++ s.todo j ∧ ∀ i ∈ d, ∃ v, f (inp i) = some v ∧ s.out i = some v

theorem DInv.step {f : A → Option V} {inp : ℕ → A} {num n : ℕ} {part : ℕ → List ℕ} (hd : Division num n part)
    {s s' : DMap V} {j : ℕ} {acc : List Access} (hj : j < n) (h : DInv f inp num n part s)
    (hs : dmapStep f inp j s = .next acc s') :
    DInv f inp num n part s' ∧ ∃ i ∈ part j, acc = [⟨.inp i, false⟩, ⟨.out i, true⟩] := by
  unfold dmapStep at hs
  split at hs
  · exact absurd hs (by simp)
  · rename_i i r hr
    split at hs
    · exact absurd hs (by simp)
    · rename_i v hv
      simp only [Outcome.next.injEq] at hs
      obtain ⟨rfl, rfl⟩ := hs
      obtain ⟨d, hd1, hd2⟩ := h.sub j hj
      have hi : i ∈ part j := by rw [hd1, hr]; simp
      refine ⟨⟨fun k hk => ?_⟩, i, hi, rfl⟩
      by_cases hkj : k = j
      · subst hkj
        refine ⟨d ++ [i], by simp [hd1, hr], fun x hx => ?_⟩
        rw [List.mem_append, List.mem_singleton] at hx
        by_cases hxi : x = i
        · subst hxi; exact ⟨v, hv, by simp⟩
        · obtain ⟨w, hw, ho⟩ := hd2 x (hx.resolve_right hxi)
          exact ⟨w, hw, by simp [hxi, ho]⟩
      · obtain ⟨d', h1, h2⟩ := h.sub k hk
        refine ⟨d', by simp [hkj, h1], fun x hx => ?_⟩
        have hxi : x ≠ i := by
          rintro rfl
          exact hd.disjoint k hk j hj hkj x (by rw [h1]; simp [hx]) hi
        obtain ⟨w, hw, ho⟩ := h2 x hx
        exact ⟨w, hw, by simp [hxi, ho]⟩

theorem DInv.run {f : A → Option V} {inp : ℕ → A} {num n : ℕ} {part : ℕ → List ℕ} (hd : Division num n part)
    {s s' : DMap V} {tr : List (ℕ × List Access)} (hr : Run (dmapStep f inp) n s tr s') :
    DInv f inp num n part s → DInv f inp num n part s' ∧
      ∀ e ∈ tr, e.1 < n ∧ ∃ i ∈ part e.1, e.2 = [⟨.inp i, false⟩, ⟨.out i, true⟩] := by
  induction hr with
  | nil s => exact fun h => ⟨h, by simp⟩
  | cons hj hs _ ih =>
    intro h
    obtain ⟨h1, i, hi, rfl⟩ := h.step hd hj hs
    obtain ⟨h2, h3⟩ := ih h1
    refine ⟨h2, fun e he => ?_⟩
    rcases List.mem_cons.1 he with rfl | he
    · exact ⟨hj, i, hi, rfl⟩
    · exact h3 e he

/-- Densities on Blaze matrices: whatever the division and the schedule, there is no race and every element gets the
value of the scalar function at the element of the same index. -/
theorem C65_dens {f : A → Option V} {inp : ℕ → A} {num n : ℕ} {part : ℕ → List ℕ} (hd : Division num n part)
    {out : ℕ → Option V} {s : DMap V} {tr : List (ℕ × List Access)}
    (hr : Run (dmapStep f inp) n ⟨out, part⟩ tr s) :
    RaceFree tr ∧ InBounds num tr ∧
      (Complete (dmapStep f inp) n s → ∀ i < num, ∃ v, f (inp i) = some v ∧ s.out i = some v) := by
  obtain ⟨hI, hT⟩ := DInv.run hd hr ⟨fun j _ => ⟨[], by simp, by simp⟩⟩
  refine ⟨?_, ?_, fun hc i hi => ?_⟩
  · rintro e he e' he' hne a ha b hb ⟨hl, hw⟩
    obtain ⟨hj, i, hi, h1⟩ := hT e he
    obtain ⟨hj', i', hi', h2⟩ := hT e' he'
    have hii : i ≠ i' := by
      rintro rfl
      exact hd.disjoint _ hj _ hj' hne i hi hi'
    rw [h1] at ha
    rw [h2] at hb
    simp only [List.mem_cons, List.not_mem_nil, or_false] at ha hb
    rcases ha with rfl | rfl <;> rcases hb with rfl | rfl <;> simp_all
  · intro e he a ha
    obtain ⟨hj, i, hi, h1⟩ := hT e he
    have := hd.bound _ hj i hi
    rw [h1] at ha
    simp only [List.mem_cons, List.not_mem_nil, or_false] at ha
    rcases ha with rfl | rfl <;> constructor <;> intro k hk <;> simp_all
  · obtain ⟨j, hj, hij⟩ := hd.cover i hi
    have hdone : s.todo j = [] := by
      have := hc j hj
      unfold dmapStep at this
      split at this
      · assumption
      · split at this <;> simp at this
    obtain ⟨d, h1, h2⟩ := hI.sub j hj
    rw [hdone, List.append_nil] at h1
    exact h2 i (h1 ▸ hij)

/-! ## Generators: one thread -/

/-- What one thread that has the whole part `p` has done: the draws so far are where they belong, and the engine is where
the present call has brought it. -/
def SInv (g : Gen V E) (e : E) (p : List ℕ) (s : MState g) : Prop :=
  ∃ d vs e1, p = d ++ (s.loc 0).todo ∧ vs.length = d.length ∧ Draws g e vs e1 ∧
    (∀ m (h : m < d.length), s.out d[m] = vs[m]?) ∧
    match (s.loc 0).phase with
    | .before l => g.Reach g.init e1 l s.eng
    | .loaded l e' => e' = s.eng ∧ g.Reach g.init e1 l s.eng
    | .have v => g.Runs g.init e1 v s.eng

theorem SInv.step {g : Gen V E} {e : E} {p : List ℕ} (hp : p.Nodup) {s s' : MState g} {acc : List Access}
    (h : SInv g e p s) (hs : mapStep g 0 s = .next acc s') : SInv g e p s' := by
  obtain ⟨d, vs, e1, h1, h2, h3, h4, h5⟩ := h
  unfold mapStep at hs
  split at hs
  · exact absurd hs (by simp)
  · rename_i i r hr
    split at hs
    · rename_i l hl
      simp only [Outcome.next.injEq] at hs
      obtain ⟨-, rfl⟩ := hs
      rw [hl] at h5
      exact ⟨d, vs, e1, by simp [h1, hr], h2, h3, h4, by simpa using h5⟩
    · rename_i l e' hl
      rw [hl] at h5
      obtain ⟨rfl, h5⟩ := h5
      split at hs <;> rename_i he <;> simp only [Outcome.next.injEq] at hs <;> obtain ⟨-, rfl⟩ := hs
      · exact ⟨d, vs, e1, by simp [h1, hr], h2, h3, h4, by simpa using h5.tail he⟩
      · exact ⟨d, vs, e1, by simp [h1, hr], h2, h3, h4, by simpa using h5.runs (.ret he)⟩
    · rename_i v hl
      rw [hl] at h5
      simp only [Outcome.next.injEq] at hs
      obtain ⟨-, rfl⟩ := hs
      have hi : i ∉ d := by
        rw [h1, hr] at hp
        exact fun h => (List.nodup_append.1 hp).2.2 i h i (by simp) rfl
      refine ⟨d ++ [i], vs ++ [v], s.eng, by simp [h1, hr], by simp [h2], h3.snoc h5, fun m hm => ?_, ?_⟩
      · by_cases hmd : m < d.length
        · have : d[m] ≠ i := fun h => hi (h ▸ List.getElem_mem hmd)
          rw [List.getElem_append_left hmd, List.getElem?_append_left (h2 ▸ hmd)]
          simp [this, h4 m hmd]
        · have hm' : m = d.length := by simp at hm; omega
          subst hm'
          rw [List.getElem?_append_right (by omega)]
          simp [h2]
      · simpa using Gen.Reach.refl _ _

/-- Generators on Blaze matrices, the part that holds: with one thread the elements are the successive draws from the
engine, in the order in which Blaze visits them. -/
theorem C65_one_thread_partial {g : Gen V E} {num : ℕ} {part : ℕ → List ℕ} (hd : Division num 1 part) {out : ℕ → Option V}
    {e : E} {s : MState g} {tr : List (ℕ × List Access)} (hr : Run (mapStep g) 1 (mapInit g out e part) tr s)
    (hc : Complete (mapStep g) 1 s) :
    ∃ vs, vs.length = (part 0).length ∧ (∃ e', Draws g e vs e') ∧ ∀ m (h : m < (part 0).length), s.out (part 0)[m] = vs[m]? := by
  have hI : SInv g e (part 0) s := by
    refine hr.inv (I := SInv g e (part 0)) (fun t j acc t' ht hj hs => ?_) ?_
    · obtain rfl : j = 0 := by omega
      exact ht.step (hd.nodup 0 one_pos) hs
    · exact ⟨[], [], e, by simp [mapInit], rfl, .nil _, by simp, by simpa [mapInit] using Gen.Reach.refl _ _⟩
  obtain ⟨d, vs, e1, h1, h2, h3, h4, -⟩ := hI
  have hdone : (s.loc 0).todo = [] := by
    have := hc 0 one_pos
    unfold mapStep at this
    split at this
    · assumption
    · split at this
      · simp at this
      · split at this <;> simp at this
      · simp at this
  rw [hdone, List.append_nil] at h1
  rw [h1]
  exact ⟨vs, h2, ⟨e1, h3⟩, h4⟩

/-! ## Generators: the race -/

variable {g : Gen V E}

theorem mapStep_other {j k : ℕ} (hjk : j ≠ k) {s s' : MState g} {acc : List Access} (hs : mapStep g j s = .next acc s') :
    s'.loc k = s.loc k := by
  unfold mapStep at hs
  split at hs
  · exact absurd hs (by simp)
  · split at hs
    · simp only [Outcome.next.injEq] at hs; obtain ⟨-, rfl⟩ := hs; simp [hjk.symm]
    · split at hs <;> (simp only [Outcome.next.injEq] at hs; obtain ⟨-, rfl⟩ := hs; simp [hjk.symm])
    · simp only [Outcome.next.injEq] at hs; obtain ⟨-, rfl⟩ := hs; simp [hjk.symm]

/-- A thread that has not yet finished its present call stores to the engine before it is done. -/
theorem map_stores {n j : ℕ} {s s' : MState g} {tr : List (ℕ × List Access)} (hr : Run (mapStep g) n s tr s')
    (ht : (s.loc j).todo ≠ []) (hp : ∀ v, (s.loc j).phase ≠ .have v) (hd : mapStep g j s' = .done) :
    (j, [⟨.eng 0, true⟩]) ∈ tr := by
  induction hr with
  | nil s =>
    unfold mapStep at hd
    split at hd
    · contradiction
    · split at hd
      · simp at hd
      · split at hd <;> simp at hd
      · simp at hd
  | @cons s s1 s2 k acc tr hk hs _ ih =>
    by_cases hkj : k = j
    · subst hkj
      unfold mapStep at hs
      split at hs
      · exact absurd hs (by simp)
      · rename_i i r hr
        split at hs
        · rename_i l hl
          simp only [Outcome.next.injEq] at hs
          obtain ⟨rfl, rfl⟩ := hs
          exact List.mem_cons_of_mem _ (ih (by simp) (by simp) hd)
        · split at hs <;> (simp only [Outcome.next.injEq] at hs; obtain ⟨rfl, rfl⟩ := hs; simp)
        · rename_i v hv
          exact absurd hv (hp v)
    · have := mapStep_other hkj hs
      exact List.mem_cons_of_mem _ (ih (by rw [this]; exact ht) (by rw [this]; exact hp) hd)

/-- Generators on Blaze matrices: as soon as two threads have an element to fill, every execution that comes to an end has
two unordered stores of different threads to the engine. In C++ this is a data race, so the behaviour is undefined. -/
theorem C65_race_violated {n a b : ℕ} (ha : a < n) (hb : b < n) (hab : a ≠ b) {part : ℕ → List ℕ}
    (hpa : part a ≠ []) (hpb : part b ≠ []) {out : ℕ → Option V} {e : E} {s : MState g}
    {tr : List (ℕ × List Access)} (hr : Run (mapStep g) n (mapInit g out e part) tr s) (hc : Complete (mapStep g) n s) :
    ¬ RaceFree tr := by
  intro h
  have h1 := map_stores (j := a) hr hpa (by simp [mapInit]) (hc a ha)
  have h2 := map_stores (j := b) hr hpb (by simp [mapInit]) (hc b hb)
  exact h _ h1 _ h2 hab _ (List.mem_singleton_self _) _ (List.mem_singleton_self _) ⟨rfl, Or.inl rfl⟩

/-! ## Generators: what the threads store, were the race harmless -/

theorem map_have {n j : ℕ} (hj : j < n) {s : MState g} {i : ℕ} {r : List ℕ} {v : V} (hl : s.loc j = ⟨i :: r, .have v⟩) :
    Run (mapStep g) n s [(j, [⟨.out i, true⟩])]
      ⟨Function.update s.out i (some v), s.eng, Function.update s.loc j ⟨r, .before g.init⟩⟩ :=
  .cons hj (by simp [mapStep, hl]) (.nil _)

/-- One call of the generator by thread `j` alone. -/
theorem map_call {n j : ℕ} (hj : j < n) {i : ℕ} {r : List ℕ} {l : g.L} {e e' : E} {v : V} (h : g.Runs l e v e') :
    ∀ s : MState g, s.loc j = ⟨i :: r, .before l⟩ → s.eng = e → ∃ tr, Run (mapStep g) n s tr
      ⟨Function.update s.out i (some v), e', Function.update s.loc j ⟨r, .before g.init⟩⟩ := by
  induction h with
  | @ret l e e' v h =>
    intro s hl he
    subst he
    refine ⟨_, .cons hj (s' := ⟨s.out, s.eng, Function.update s.loc j ⟨i :: r, .loaded l s.eng⟩⟩) (acc := [⟨.eng 0, false⟩])
      (by simp [mapStep, hl]) <| .cons hj
      (s' := ⟨s.out, e', Function.update s.loc j ⟨i :: r, .have v⟩⟩) (acc := [⟨.eng 0, true⟩])
      (by simp [mapStep, h]) (tr := [(j, [⟨.out i, true⟩])]) ?_⟩
    have := map_have (n := n) hj (s := ⟨s.out, e', Function.update s.loc j ⟨i :: r, .have v⟩⟩) (i := i) (r := r) (v := v)
      (by simp)
    simpa using this
  | @go l l' e e' e'' v h _ ih =>
    intro s hl he
    subst he
    obtain ⟨tr, ht⟩ := ih ⟨s.out, e', Function.update s.loc j ⟨i :: r, .before l'⟩⟩ (by simp) rfl
    refine ⟨_, .cons hj (s' := ⟨s.out, s.eng, Function.update s.loc j ⟨i :: r, .loaded l s.eng⟩⟩) (acc := [⟨.eng 0, false⟩])
      (by simp [mapStep, hl]) <| .cons hj
      (s' := ⟨s.out, e', Function.update s.loc j ⟨i :: r, .before l'⟩⟩) (acc := [⟨.eng 0, true⟩])
      (by simp [mapStep, h]) (tr := tr) ?_⟩
    simpa using ht

/-- Two threads in step: both load before either stores. -/
theorem map_lockstep {n a b : ℕ} (ha : a < n) (hb : b < n) (hab : a ≠ b) {i k : ℕ} {r q : List ℕ} {l : g.L} {e e' : E}
    {v : V} (h : g.Runs l e v e') :
    ∀ s : MState g, s.loc a = ⟨i :: r, .before l⟩ → s.loc b = ⟨k :: q, .before l⟩ → s.eng = e →
      ∃ tr, Run (mapStep g) n s tr ⟨Function.update (Function.update s.out i (some v)) k (some v), e',
        Function.update (Function.update s.loc a ⟨r, .before g.init⟩) b ⟨q, .before g.init⟩⟩ := by
  have load : ∀ (s : MState g) (l : g.L), s.loc a = ⟨i :: r, .before l⟩ → s.loc b = ⟨k :: q, .before l⟩ →
      ∃ tr, Run (mapStep g) n s tr ⟨s.out, s.eng,
        Function.update (Function.update s.loc a ⟨i :: r, .loaded l s.eng⟩) b ⟨k :: q, .loaded l s.eng⟩⟩ := by
    intro s l h1 h2
    refine ⟨_, .cons ha (s' := ⟨s.out, s.eng, Function.update s.loc a ⟨i :: r, .loaded l s.eng⟩⟩) (acc := [⟨.eng 0, false⟩])
      (by simp [mapStep, h1]) <| .cons hb (acc := [⟨.eng 0, false⟩]) ?_ (.nil _)⟩
    simp [mapStep, hab.symm, h2]
  induction h with
  | @ret l e e' v h =>
    intro s h1 h2 he
    subst he
    obtain ⟨t1, r1⟩ := load s l h1 h2
    have r2 := map_have (n := n) ha (s := ⟨s.out, e', Function.update (Function.update s.loc a ⟨i :: r, .have v⟩) b
      ⟨k :: q, .have v⟩⟩) (i := i) (r := r) (v := v) (by simp [hab])
    have r3 := map_have (n := n) hb (s := ⟨Function.update s.out i (some v), e',
      Function.update (Function.update (Function.update s.loc a ⟨i :: r, .have v⟩) b ⟨k :: q, .have v⟩) a
        ⟨r, .before g.init⟩⟩) (i := k) (r := q) (v := v) (by simp [hab.symm])
    have rm : Run (mapStep g) n ⟨s.out, s.eng,
        Function.update (Function.update s.loc a ⟨i :: r, .loaded l s.eng⟩) b ⟨k :: q, .loaded l s.eng⟩⟩
        [(a, [⟨.eng 0, true⟩]), (b, [⟨.eng 0, true⟩])] ⟨s.out, e',
          Function.update (Function.update s.loc a ⟨i :: r, .have v⟩) b ⟨k :: q, .have v⟩⟩ := by
      refine .cons ha (s' := ⟨s.out, e', Function.update (Function.update (Function.update s.loc a ⟨i :: r, .loaded l s.eng⟩) b
        ⟨k :: q, .loaded l s.eng⟩) a ⟨i :: r, .have v⟩⟩) (by simp [mapStep, hab, h]) <| .cons hb ?_ (.nil _)
      simp only [mapStep, Function.update_of_ne hab.symm, Function.update_self, h]
      congr 2
      rw [Function.update_comm hab.symm]
      simp
    refine ⟨_, r1.append (rm.append (r2.append (tr' := [(b, [⟨.out k, true⟩])]) ?_))⟩
    convert r3 using 2
    simp only
    rw [Function.update_comm hab.symm]
    simp
  | @go l l' e e' e'' v h _ ih =>
    intro s h1 h2 he
    subst he
    obtain ⟨t1, r1⟩ := load s l h1 h2
    have rm : Run (mapStep g) n ⟨s.out, s.eng,
        Function.update (Function.update s.loc a ⟨i :: r, .loaded l s.eng⟩) b ⟨k :: q, .loaded l s.eng⟩⟩
        [(a, [⟨.eng 0, true⟩]), (b, [⟨.eng 0, true⟩])] ⟨s.out, e',
          Function.update (Function.update s.loc a ⟨i :: r, .before l'⟩) b ⟨k :: q, .before l'⟩⟩ := by
      refine .cons ha (s' := ⟨s.out, e', Function.update (Function.update (Function.update s.loc a ⟨i :: r, .loaded l s.eng⟩) b
        ⟨k :: q, .loaded l s.eng⟩) a ⟨i :: r, .before l'⟩⟩) (by simp [mapStep, hab, h]) <| .cons hb ?_ (.nil _)
      simp only [mapStep, Function.update_of_ne hab.symm, Function.update_self, h]
      congr 2
      rw [Function.update_comm hab.symm]
      simp
    obtain ⟨t2, r2⟩ := ih ⟨s.out, e', Function.update (Function.update s.loc a ⟨i :: r, .before l'⟩) b ⟨k :: q, .before l'⟩⟩
      (by simp [hab]) (by simp) rfl
    refine ⟨t1 ++ ([(a, [⟨.eng 0, true⟩]), (b, [⟨.eng 0, true⟩])] ++ t2), r1.append (rm.append ?_)⟩
    convert r2 using 2
    simp only
    rw [Function.update_comm hab.symm]
    simp

/-- A thread between two calls can finish its part; elements of the other threads stay as they are. -/
theorem map_finish {n j : ℕ} (hj : j < n) (hg : ∀ e, ∃ v e', g.Runs g.init e v e') (p : List ℕ) :
    ∀ s : MState g, s.loc j = ⟨p, .before g.init⟩ → ∃ tr s', Run (mapStep g) n s tr s' ∧
      s'.loc j = ⟨[], .before g.init⟩ ∧ (∀ k, k ≠ j → s'.loc k = s.loc k) ∧ ∀ x ∉ p, s'.out x = s.out x := by
  induction p with
  | nil => exact fun s hl => ⟨[], s, .nil _, hl, fun _ _ => rfl, fun _ _ => rfl⟩
  | cons i r ih =>
    intro s hl
    obtain ⟨v, e', hv⟩ := hg s.eng
    obtain ⟨t1, r1⟩ := map_call hj hv s hl rfl
    obtain ⟨t2, s2, r2, h1, h2, h3⟩ := ih
      ⟨Function.update s.out i (some v), e', Function.update s.loc j ⟨r, .before g.init⟩⟩ (by simp)
    refine ⟨_, s2, r1.append r2, h1, fun k hk => ?_, fun x hx => ?_⟩
    · rw [h2 k hk]; simp [hk]
    · simp only [List.mem_cons, not_or] at hx
      rw [h3 x hx.2]; simp [hx.1]

theorem map_finish_all {n : ℕ} (hg : ∀ e, ∃ v e', g.Runs g.init e v e') (s : MState g) (q : ℕ → List ℕ)
    (h0 : ∀ j, s.loc j = ⟨q j, .before g.init⟩) (m : ℕ) : m ≤ n →
    ∃ tr s', Run (mapStep g) n s tr s' ∧ (∀ j < m, s'.loc j = ⟨[], .before g.init⟩) ∧
      (∀ k, m ≤ k → s'.loc k = s.loc k) ∧ ∀ x, (∀ j < m, x ∉ q j) → s'.out x = s.out x := by
  induction m with
  | zero => exact fun _ => ⟨[], s, .nil _, by simp, fun _ _ => rfl, fun _ _ => rfl⟩
  | succ m ih =>
    intro hm
    obtain ⟨t1, s1, r1, h1, h2, h3⟩ := ih (by omega)
    obtain ⟨t2, s2, r2, h4, h5, h6⟩ := map_finish (n := n) (j := m) (by omega) hg (q m) s1 (by rw [h2 m le_rfl, h0])
    refine ⟨_, s2, r1.append r2, fun j hj => ?_, fun k hk => ?_, fun x hx => ?_⟩
    · by_cases hjm : j = m
      · subst hjm; exact h4
      · rw [h5 j hjm]; exact h1 j (by omega)
    · rw [h5 k (by omega), h2 k (by omega)]
    · rw [h6 x (hx m (by omega)), h3 x fun j hj => hx j (by omega)]

/-- Even where the hardware keeps loads and stores of the engine apart and in order, two threads can draw the same value:
for every generator, engine and division there is an execution that comes to an end and leaves the first elements of two
threads equal. (Without the race the elements are successive draws.) -/
theorem C65_duplicate_violated {num n a b : ℕ} {part : ℕ → List ℕ} (hd : Division num n part) (ha : a < n) (hb : b < n)
    (hab : a ≠ b) {i k : ℕ} {r q : List ℕ} (hpa : part a = i :: r) (hpb : part b = k :: q)
    (hg : ∀ e, ∃ v e', g.Runs g.init e v e') (out : ℕ → Option V) (e : E) :
    ∃ tr s v, Run (mapStep g) n (mapInit g out e part) tr s ∧ Complete (mapStep g) n s ∧ i ≠ k ∧
      s.out i = some v ∧ s.out k = some v := by
  obtain ⟨v, e', hv⟩ := hg e
  have hi : i ∈ part a := by simp [hpa]
  have hk : k ∈ part b := by simp [hpb]
  have hik : i ≠ k := fun h => hd.disjoint a ha b hb hab i hi (h ▸ hk)
  obtain ⟨t1, r1⟩ := map_lockstep ha hb hab hv (mapInit g out e part) (i := i) (r := r) (k := k) (q := q)
    (by simp [mapInit, hpa]) (by simp [mapInit, hpb]) rfl
  obtain ⟨t2, s2, r2, h1, -, h3⟩ := map_finish_all (n := n) hg
    ⟨Function.update (Function.update (mapInit g out e part).out i (some v)) k (some v), e',
      Function.update (Function.update (mapInit g out e part).loc a ⟨r, .before g.init⟩) b ⟨q, .before g.init⟩⟩
    (Function.update (Function.update part a r) b q) (fun j => by
      by_cases hjb : j = b
      · subst hjb; simp
      · by_cases hja : j = a
        · subst hja; simp [hab]
        · simp [hja, hjb, mapInit]) n le_rfl
  have na : (i :: r).Nodup := hpa ▸ hd.nodup a ha
  have nb : (k :: q).Nodup := hpb ▸ hd.nodup b hb
  rw [List.nodup_cons] at na nb
  refine ⟨_, s2, v, r1.append r2, fun j hj => by simp [mapStep, h1 j hj], hik, ?_, ?_⟩
  · rw [h3]
    · simp [hik]
    · intro j hj
      by_cases hjb : j = b
      · subst hjb; simpa using fun h => hd.disjoint a ha j hj hab i hi (by rw [hpb]; simp [h])
      · by_cases hja : j = a
        · subst hja; simpa [hab] using na.1
        · simpa [hja, hjb] using hd.disjoint a ha j hj (Ne.symm hja) i hi
  · rw [h3]
    · simp
    · intro j hj
      by_cases hjb : j = b
      · subst hjb; simpa using nb.1
      · by_cases hja : j = a
        · subst hja; simpa [hab] using fun h => hd.disjoint b hb j hj (Ne.symm hab) k hk (by rw [hpa]; simp [h])
        · simpa [hja, hjb] using hd.disjoint b hb j hj (Ne.symm hjb) k hk

/-! ## Examples -/

/-- A matrix of four elements, two for each of two threads. -/
def half4 : ℕ → List ℕ
  | 0 => [0, 1]
  | 1 => [2, 3]
  | _ => []

theorem half4_division : Division 4 2 half4 where
  bound := by decide
  cover := by decide
  nodup := by decide
  disjoint := by
    intro j hj k hk
    have : ∀ j ∈ [0, 1], ∀ k ∈ [0, 1], j ≠ k → ∀ i ∈ half4 j, i ∉ half4 k := by decide
    exact this j (by simp; omega) k (by simp; omega)

/-- The whole matrix for one thread. -/
theorem whole_division : Division 3 1 (fun _ => [0, 1, 2]) where
  bound := by decide
  cover := by decide
  nodup := by decide
  disjoint := by
    intro j hj k hk h
    omega

/-- A generator that returns the state of a counter in two steps. -/
def counter : Gen ℕ ℕ where
  L := Bool
  init := false
  step := fun l e => if l then (.inl e, e + 1) else (.inr true, e + 10)

theorem counter_returns (e : ℕ) : ∃ v e', counter.Runs counter.init e v e' :=
  ⟨e + 10, e + 11, .go (l' := true) (e' := e + 10) rfl (.ret rfl)⟩

/-- Two of the elements are equal, and there is a race. -/
example : ∃ tr s v, Run (mapStep counter) 2 (mapInit counter (fun _ => none) 0 half4) tr s ∧
    Complete (mapStep counter) 2 s ∧ ¬ RaceFree tr ∧ s.out 0 = some v ∧ s.out 2 = some v := by
  obtain ⟨tr, s, v, h1, h2, -, h3, h4⟩ := C65_duplicate_violated half4_division (a := 0) (b := 1) (by decide) (by decide)
    (by decide) (i := 0) (k := 2) (r := [1]) (q := [3]) rfl rfl counter_returns (fun _ => none) 0
  exact ⟨tr, s, v, h1, h2, C65_race_violated (a := 0) (b := 1) (by decide) (by decide) (by decide) (by decide) (by decide) h1 h2,
    h3, h4⟩

/-- One thread gives three different elements. -/
example : ∃ tr s, Run (mapStep counter) 1 (mapInit counter (fun _ => none) 0 fun _ => [0, 1, 2]) tr s ∧
    s.out 0 = some 10 ∧ s.out 1 = some 21 ∧ s.out 2 = some 32 := by
  obtain ⟨tr, s, h1, h2, -⟩ := map_finish_all (n := 1) (g := counter) counter_returns
    (mapInit counter (fun _ => none) 0 fun _ => [0, 1, 2]) (fun _ => [0, 1, 2]) (fun _ => rfl) 1 le_rfl
  obtain ⟨vs, hl, ⟨e', hv⟩, ho⟩ := C65_one_thread_partial whole_division h1 (fun j hj => by simp [mapStep, h2 j hj])
  have hd : Draws counter 0 [10, 21, 32] 33 :=
    .cons (.go (l' := true) (e' := 10) rfl (.ret rfl)) <| .cons (.go (l' := true) (e' := 21) rfl (.ret rfl)) <|
      .cons (.go (l' := true) (e' := 32) rfl (.ret rfl)) (.nil _)
  obtain ⟨rfl, -⟩ := hv.unique hd (by simpa using hl)
  exact ⟨tr, s, h1, ho 0 (by decide), ho 1 (by decide), ho 2 (by decide)⟩

/-- A density on four elements by two threads in turn. -/
example : ∃ tr s, Run (dmapStep (fun x : ℕ => some (x + 1)) fun i => 5 * i) 2 ⟨fun _ => none, half4⟩ tr s ∧
    Complete (dmapStep (fun x : ℕ => some (x + 1)) fun i => 5 * i) 2 s ∧ s.out 3 = some 16 := by
  refine ⟨_, _, .cons (j := 0) (by decide) rfl (.cons (j := 1) (by decide) rfl (.cons (j := 1) (by decide) rfl
    (.cons (j := 0) (by decide) rfl (.nil _)))), ?_, rfl⟩
  intro j hj
  obtain rfl | rfl : j = 0 ∨ j = 1 := by omega
  all_goals rfl

end Stats.Vec
