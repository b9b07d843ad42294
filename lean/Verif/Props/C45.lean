import Verif.Spec.Joint
import Verif.Props.C43Q

/-!
# C45: several infinite arguments at once (exact arithmetic)

The location-scale families: normal, Cauchy, Laplace, logistic. Whenever some of point, location and scale are infinite,
the value returned is the limit along every path of finite arguments (`JointLim`), or no such limit exists and the value
is NaN (`NanUndecided`). Quantile functions: the same at the end points of the unit interval with infinite location.
-/

set_option linter.unusedSectionVars false
open Classical
open Filter Topology
namespace Stats
open Fl Spec
variable [Lib] [Ideal]

/-- What the proofs use of a location-scale density. -/
structure LocDens (d : Fl → Fl → Fl → Bool → Fl) (f : ℝ → ℝ → ℝ → ℝ) : Prop where
  log : ∀ x m s, LogForm (d x m s)
  ev : ∀ m {s}, 0 < s → ∀ x, 0 ≤ f m s x ∧ d (fin x) (fin m) (fin s) false = fin (f m s x)
  far : ∀ {u v : ℝ → ℝ} {s : ℝ}, 0 < s → Tendsto (fun t => |u t - v t|) atTop atTop →
    Tendsto (fun t => f (v t) s (u t)) atTop (𝓝 0)
  wide : ∀ m {s}, 0 < s → ∀ x, f m s x ≤ 1 / s
  mid : ∀ m {s}, 0 < s → 0 < f 0 s 0 ∧ f m s m = f 0 s 0

theorem joint_of {F : Fl → Fl → Fl → Bool → Fl} {x m s : Fl} {h : ℝ → ℝ → ℝ → ℝ} {r : ℝ} (hr : 0 ≤ r)
    (hlog : ∀ x m s, LogForm (F x m s)) (hv : F x m s false = fin r)
    (H : ∀ u v w : ℝ → ℝ, Goes u x → Goes v m → Goes w s →
      (∀ᶠ t in atTop, 0 ≤ h (v t) (w t) (u t) ∧ F (fin (u t)) (fin (v t)) (fin (w t)) false = fin (h (v t) (w t) (u t))) ∧
      Tendsto (fun t => h (v t) (w t) (u t)) atTop (𝓝 r)) : JointLim F x m s := by
  intro u v w hu hv' hw b
  obtain ⟨h1, h2⟩ := H u v w hu hv' hw
  cases b
  · rw [hv]; exact ⟨_, h1.mono fun t ht => ht.2, h2⟩
  · rw [hlog x m s, hv]
    refine approaches_log (h1.mono fun t ht => ⟨ht.1, ?_⟩) h2 hr
    exact (hlog _ _ _).trans (by rw [ht.2])

theorem goes_const (r : ℝ) : Goes (fun _ => r) (fin r) := fun _ => rfl


theorem goes_up {u v : ℝ → ℝ} {x m : Fl} (hu : Goes u x) (hv : Goes v m) (hx : x = pinf ∨ m = ninf) (hne : x ≠ m) :
    Tendsto (fun t => u t - v t) atTop atTop := by
  rcases hx with rfl | rfl
  · cases m with
    | nan => exact hv.elim
    | ninf =>
      refine tendsto_atTop_mono' _ ?_ hu
      filter_upwards [(show Tendsto v atTop atBot from hv).eventually_le_atBot 0] with t ht
      linarith
    | fin r =>
      simp_rw [show ∀ t, v t = r from hv]
      exact tendsto_atTop_add_const_right _ (-r) hu
    | pinf => exact absurd rfl hne
  · have hv : Tendsto v atTop atBot := hv
    cases x with
    | nan => exact hu.elim
    | ninf => exact absurd rfl hne
    | fin r =>
      simp_rw [show ∀ t, u t = r from hu]
      exact tendsto_atTop_add_const_left _ r (tendsto_neg_atBot_atTop.comp hv)
    | pinf =>
      refine tendsto_atTop_mono' _ ?_ (show Tendsto u atTop atTop from hu)
      filter_upwards [hv.eventually_le_atBot 0] with t ht
      linarith

theorem goes_down {u v : ℝ → ℝ} {x m : Fl} (hu : Goes u x) (hv : Goes v m) (hx : x = ninf ∨ m = pinf) (hne : x ≠ m) :
    Tendsto (fun t => u t - v t) atTop atBot := by
  refine (tendsto_neg_atTop_atBot.comp (goes_up hv hu hx.symm hne.symm)).congr fun t => ?_
  simp

/-- Two runs to different ends, or only one of them running, come apart. -/
theorem goes_apart {u v : ℝ → ℝ} {x m : Fl} (hu : Goes u x) (hv : Goes v m) (hx : isInf x ∨ isInf m) (hne : x ≠ m) :
    Tendsto (fun t => |u t - v t|) atTop atTop := by
  rcases hx with (h | h) | (h | h)
  · exact tendsto_abs_atTop_atTop.comp (goes_up hu hv (Or.inl h) hne)
  · exact tendsto_abs_atBot_atTop.comp (goes_down hu hv (Or.inl h) hne)
  · exact tendsto_abs_atBot_atTop.comp (goes_down hu hv (Or.inr h) hne)
  · exact tendsto_abs_atTop_atTop.comp (goes_up hu hv (Or.inr h) hne)

/-- Some path runs to every argument that is not NaN. -/
theorem goes_exists {x : Fl} (hx : x ≠ nan) : ∃ u, Goes u x := by
  cases x with
  | nan => exact absurd rfl hx
  | ninf => exact ⟨fun t => -t, tendsto_neg_atTop_atBot⟩
  | fin r => exact ⟨_, goes_const r⟩
  | pinf => exact ⟨id, tendsto_id⟩

/-- A second path to an infinity that leaves the first one behind by any given positive run. -/
theorem goes_shift {x : Fl} (hx : isInf x) : ∃ u v : ℝ → ℝ, Goes u x ∧ Goes v x ∧ Tendsto (fun t => |u t - v t|) atTop atTop := by
  rcases hx with rfl | rfl
  · refine ⟨fun t => 2 * t, id, tendsto_id.const_mul_atTop two_pos, tendsto_id, ?_⟩
    refine tendsto_abs_atTop_atTop.congr fun t => ?_
    congr 1; simp; ring
  · refine ⟨fun t => -(2 * t), fun t => -t, tendsto_neg_atTop_atBot.comp (tendsto_id.const_mul_atTop two_pos),
      tendsto_neg_atTop_atBot, ?_⟩
    refine tendsto_abs_atTop_atTop.congr fun t => ?_
    rw [← abs_neg]; congr 1; ring

theorem approaches_of {g : ℝ → Fl} {h : ℝ → ℝ} {r : ℝ} (hg : ∀ᶠ t in atTop, g t = fin (h t))
    (ht : Tendsto h atTop (𝓝 r)) : Approaches atTop g (fin r) := ⟨h, hg, ht⟩

namespace LocDens
variable {d : Fl → Fl → Fl → Bool → Fl} {f : ℝ → ℝ → ℝ → ℝ}

theorem joint_far (H : LocDens d f) {x m : Fl} {s : ℝ} (hs : 0 < s) (hx : isInf x ∨ isInf m) (hne : x ≠ m)
    (hv : d x m (fin s) false = fin 0) : JointLim d x m (fin s) := by
  refine joint_of (h := f) le_rfl H.log hv fun u v w hu hv hw => ?_
  have hw : ∀ t, w t = s := hw
  simp_rw [hw]
  exact ⟨Eventually.of_forall fun t => H.ev _ hs _, H.far hs (goes_apart hu hv hx hne)⟩

theorem joint_wide (H : LocDens d f) {x m : Fl} (hv : d x m pinf false = fin 0) : JointLim d x m pinf := by
  refine joint_of (h := f) le_rfl H.log hv fun u v w hu hv hw => ?_
  have hw : Tendsto w atTop atTop := hw
  have h0 := hw.eventually_gt_atTop 0
  have hev : ∀ᶠ t in atTop, 0 ≤ f (v t) (w t) (u t) ∧
      d (fin (u t)) (fin (v t)) (fin (w t)) false = fin (f (v t) (w t) (u t)) :=
    h0.mono fun t ht => H.ev _ ht _
  refine ⟨hev, squeeze_zero' (hev.mono fun t ht => ht.1) (h0.mono fun t ht => H.wide _ ht _) ?_⟩
  exact tendsto_const_nhds.div_atTop hw

theorem same (H : LocDens d f) {x : Fl} {s : ℝ} (hs : 0 < s) (hx : isInf x) (hv : d x x (fin s) false = nan) :
    NanUndecided d x x (fin s) := by
  constructor
  · intro b
    cases b
    · exact hv
    · rw [H.log x x (fin s), hv]; simp
  · obtain ⟨u, v, hu, hv, huv⟩ := goes_shift hx
    refine ⟨v, v, _, u, v, _, ⟨hv, hv, goes_const s⟩, ⟨hu, hv, goes_const s⟩, f 0 s 0, 0, (H.mid 0 hs).1.ne', ?_, ?_⟩
    · refine approaches_of (Eventually.of_forall fun t => (H.ev _ hs _).2) ?_
      simp_rw [fun m => (H.mid m hs).2]
      exact tendsto_const_nhds
    · exact approaches_of (Eventually.of_forall fun t => (H.ev _ hs _).2) (H.far hs huv)

end LocDens

/-- What the proofs use of a location-scale distribution function. -/
structure LocCdf (p : Fl → Fl → Fl → Bool → Fl) (G : ℝ → ℝ) : Prop where
  log : ∀ x m s, LogForm (p x m s)
  ev : ∀ m {s}, 0 < s → ∀ x, 0 ≤ G ((x - m) / s) ∧ p (fin x) (fin m) (fin s) false = fin (G ((x - m) / s))
  top : Tendsto G atTop (𝓝 1)
  bot : Tendsto G atBot (𝓝 0)
  zero : Tendsto G (𝓝 0) (𝓝 (1 / 2))
  inj : Function.Injective G

namespace LocCdf
variable {p : Fl → Fl → Fl → Bool → Fl} {G : ℝ → ℝ}

theorem joint_up (H : LocCdf p G) {x m : Fl} {s : ℝ} (hs : 0 < s) (hx : x = pinf ∨ m = ninf) (hne : x ≠ m)
    (hv : p x m (fin s) false = fin 1) : JointLim p x m (fin s) := by
  refine joint_of (h := fun m s x => G ((x - m) / s)) zero_le_one H.log hv fun u v w hu hv hw => ?_
  have hw : ∀ t, w t = s := hw
  simp_rw [hw]
  exact ⟨Eventually.of_forall fun t => H.ev _ hs _, H.top.comp ((goes_up hu hv hx hne).atTop_div_const hs)⟩

theorem joint_down (H : LocCdf p G) {x m : Fl} {s : ℝ} (hs : 0 < s) (hx : x = ninf ∨ m = pinf) (hne : x ≠ m)
    (hv : p x m (fin s) false = fin 0) : JointLim p x m (fin s) := by
  refine joint_of (h := fun m s x => G ((x - m) / s)) le_rfl H.log hv fun u v w hu hv hw => ?_
  have hw : ∀ t, w t = s := hw
  simp_rw [hw]
  exact ⟨Eventually.of_forall fun t => H.ev _ hs _, H.bot.comp ((goes_down hu hv hx hne).atBot_div_const hs)⟩

theorem joint_wide (H : LocCdf p G) {x m : ℝ} (hv : p (fin x) (fin m) pinf false = fin (1 / 2)) :
    JointLim p (fin x) (fin m) pinf := by
  refine joint_of (h := fun m s x => G ((x - m) / s)) (by norm_num) H.log hv fun u v w hu hv hw => ?_
  have hu : ∀ t, u t = x := hu
  have hv : ∀ t, v t = m := hv
  have hw : Tendsto w atTop atTop := hw
  simp_rw [hu, hv]
  refine ⟨(hw.eventually_gt_atTop 0).mono fun t ht => H.ev _ ht _, H.zero.comp ?_⟩
  exact tendsto_const_nhds.div_atTop hw

theorem nan_log (H : LocCdf p G) {x m s : Fl} (hv : p x m s false = nan) (b : Bool) : p x m s b = nan := by
  cases b
  · exact hv
  · rw [H.log x m s, hv]; simp

theorem undecided (H : LocCdf p G) {x m s : Fl} {u v w u' v' w' : ℝ → ℝ} (h : Goes u x ∧ Goes v m ∧ Goes w s)
    (h' : Goes u' x ∧ Goes v' m ∧ Goes w' s) {c c' : ℝ} (hc : c ≠ c')
    (e : ∀ᶠ t in atTop, 0 < w t ∧ (u t - v t) / w t = c) (e' : ∀ᶠ t in atTop, 0 < w' t ∧ (u' t - v' t) / w' t = c') :
    Undecided p x m s := by
  refine ⟨u, v, w, u', v', w', h, h', G c, G c', H.inj.ne hc, ?_, ?_⟩
  · exact approaches_of (h := fun _ => G c) (e.mono fun t ht => by rw [(H.ev _ ht.1 _).2, ht.2]) tendsto_const_nhds
  · exact approaches_of (h := fun _ => G c') (e'.mono fun t ht => by rw [(H.ev _ ht.1 _).2, ht.2]) tendsto_const_nhds

theorem same (H : LocCdf p G) {x : Fl} {s : ℝ} (hs : 0 < s) (hx : isInf x) : Undecided p x x (fin s) := by
  obtain ⟨u, hu⟩ := goes_exists (x := x) (by rcases hx with rfl | rfl <;> simp)
  have hu' : Goes (fun t => u t + s) x := by
    rcases hx with rfl | rfl
    · exact tendsto_atTop_add_const_right _ s hu
    · exact tendsto_atBot_add_const_right _ s hu
  refine H.undecided ⟨hu, hu, goes_const s⟩ ⟨hu', hu, goes_const s⟩ zero_ne_one ?_ ?_
  · exact Eventually.of_forall fun t => ⟨hs, by simp⟩
  · exact Eventually.of_forall fun t => ⟨hs, by simp [hs.ne']⟩

/-- Point or location infinite and the scale too: every value strictly between the two ends is a limit. -/
theorem both (H : LocCdf p G) {x m : Fl} (hx : isInf x ∨ isInf m) (h0 : x ≠ nan) (h1 : m ≠ nan) :
    Undecided p x m pinf := by
  obtain ⟨u, hu⟩ := goes_exists h0
  obtain ⟨v, hv⟩ := goes_exists h1
  by_cases hne : x = m
  · subst hne
    have hi : isInf x := or_self_iff.1 hx
    refine H.undecided (w := id) ⟨hu, hu, tendsto_id⟩ (u' := fun t => 2 * u t) (w' := fun t => |u t|) ⟨?_, hu, ?_⟩
      (c := 0) (c' := if x = pinf then 1 else -1) (by split_ifs <;> norm_num) ?_ ?_
    · rcases hi with rfl | rfl
      · exact (show Tendsto u atTop atTop from hu).const_mul_atTop two_pos
      · exact (show Tendsto u atTop atBot from hu).const_mul_atBot two_pos
    · rcases hi with rfl | rfl
      · exact tendsto_abs_atTop_atTop.comp hu
      · exact tendsto_abs_atBot_atTop.comp hu
    · filter_upwards [eventually_gt_atTop 0] with t ht using ⟨ht, by simp⟩
    · rcases hi with rfl | rfl
      · filter_upwards [(show Tendsto u atTop atTop from hu).eventually_gt_atTop 0] with t ht
        rw [abs_of_pos ht, if_pos rfl]
        exact ⟨ht, by field_simp; ring⟩
      · filter_upwards [(show Tendsto u atTop atBot from hu).eventually_lt_atBot 0] with t ht
        rw [abs_of_neg ht, if_neg (by simp)]
        refine ⟨by linarith, ?_⟩
        have := ht.ne
        field_simp; ring
  · rcases (show (x = pinf ∨ m = ninf) ∨ (x = ninf ∨ m = pinf) by unfold isInf at hx; tauto) with h | h
    · have hD := goes_up hu hv h hne
      refine H.undecided (w := fun t => u t - v t) ⟨hu, hv, hD⟩ (w' := fun t => (u t - v t) / 2)
        ⟨hu, hv, hD.atTop_div_const two_pos⟩ (c := 1) (c' := 2) (by norm_num) ?_ ?_
      · filter_upwards [hD.eventually_gt_atTop 0] with t ht using ⟨ht, div_self ht.ne'⟩
      · filter_upwards [hD.eventually_gt_atTop 0] with t ht
        have := ht.ne'
        exact ⟨by linarith, by field_simp⟩
    · have hD := tendsto_neg_atBot_atTop.comp (goes_down hu hv h hne)
      refine H.undecided (w := fun t => -(u t - v t)) ⟨hu, hv, hD⟩ (w' := fun t => -(u t - v t) / 2)
        ⟨hu, hv, hD.atTop_div_const two_pos⟩ (c := -1) (c' := -2) (by norm_num) ?_ ?_
      · filter_upwards [hD.eventually_gt_atTop 0] with t ht
        simp only [Function.comp] at ht
        have : u t - v t ≠ 0 := by intro h; simp [h] at ht
        exact ⟨ht, by field_simp⟩
      · filter_upwards [hD.eventually_gt_atTop 0] with t ht
        simp only [Function.comp] at ht
        have : u t - v t ≠ 0 := by intro h; simp [h] at ht
        exact ⟨by linarith, by field_simp⟩

end LocCdf

/-! ### The four densities -/

theorem locDens_norm : LocDens dnorm normPdf where
  log := C07_dnorm
  ev m _ hs x := (C08_dnorm m hs).ev trivial
  far hs h := Lim.norm_far h hs
  wide m s hs x := by
    have h1 : 1 ≤ √(2 * Real.pi) := Real.one_le_sqrt.2 (by linarith [Real.two_le_pi])
    have h2 : Real.exp (-((x - m) ^ 2) / (2 * s ^ 2)) ≤ 1 :=
      Real.exp_le_one_iff.2 (div_nonpos_of_nonpos_of_nonneg (by simp [sq_nonneg]) (by positivity))
    refine (mul_le_of_le_one_right (by positivity) h2).trans ?_
    exact one_div_le_one_div_of_le hs (le_mul_of_one_le_left hs.le h1)
  mid m s hs := ⟨normPdf_pos' hs 0, by simp [normPdf]⟩

theorem locDens_cauchy : LocDens dcauchy cauchyPdf where
  log := C07_dcauchy
  ev m _ hs x := (C08_dcauchy m hs).ev trivial
  far hs h := Lim.cauchy_far h hs
  wide m s hs x := by
    have hpi := Real.two_le_pi
    have : 0 ≤ ((x - m) / s) ^ 2 := by positivity
    unfold cauchyPdf
    refine one_div_le_one_div_of_le hs ?_
    have h1 : s ≤ Real.pi * s := le_mul_of_one_le_left hs.le (by linarith)
    exact h1.trans (le_mul_of_one_le_right (by positivity) (by linarith))
  mid m s hs := by
    have hpi := Real.pi_pos
    constructor
    · unfold cauchyPdf; positivity
    · simp [cauchyPdf]

theorem locDens_laplace : LocDens dlaplace laplacePdf where
  log := C07_dlaplace
  ev m _ hs x := (C08_dlaplace m hs).ev trivial
  far hs h := Lim.laplace_far h hs
  wide m s hs x := by
    have h2 : Real.exp (-|x - m| / s) ≤ 1 :=
      Real.exp_le_one_iff.2 (div_nonpos_of_nonpos_of_nonneg (by simp) hs.le)
    refine (mul_le_of_le_one_right (by positivity) h2).trans ?_
    exact one_div_le_one_div_of_le hs (by linarith)
  mid m s hs := by
    constructor
    · unfold laplacePdf; positivity
    · simp [laplacePdf]

theorem locDens_logis : LocDens dlogis logisPdf where
  log := C07_dlogis
  ev m _ hs x := (C08_dlogis m hs).ev trivial
  far hs h := Lim.logis_far h hs
  wide m s hs x := by
    refine (Lim.logis_bound hs m x).trans (mul_le_of_le_one_right (by positivity) (Real.exp_le_one_iff.2 ?_))
    have : 0 ≤ |x - m| / s := by positivity
    linarith
  mid m s hs := by
    constructor
    · unfold logisPdf; positivity
    · simp [logisPdf]

theorem densInf_of {d : Fl → Fl → Fl → Bool → Fl} {f : ℝ → ℝ → ℝ → ℝ} (H : LocDens d f)
    (h1 : ∀ x m : Fl, x ≠ nan → m ≠ nan → d x m pinf false = fin 0)
    (h2 : ∀ (x m : Fl) (s : ℝ), x ≠ nan → m ≠ nan → 0 < s → isInf x ∨ isInf m → x ≠ m → d x m (fin s) false = fin 0)
    (h3 : ∀ (x : Fl) (s : ℝ), 0 < s → isInf x → d x x (fin s) false = nan) : DensInf d := by
  refine ⟨fun x m hx hm => H.joint_wide (h1 x m hx hm), fun x m s hx hm hs hi => ?_⟩
  by_cases hne : x = m
  · subst hne
    exact Or.inr ⟨rfl, H.same hs (or_self_iff.1 hi) (h3 x s hs (or_self_iff.1 hi))⟩
  · exact Or.inl ⟨hne, H.joint_far hs hi hne (h2 x m s hx hm hs hi hne)⟩

theorem C45_dnorm : DensInf dnorm := by
  refine densInf_of locDens_norm ?_ ?_ ?_
  · intro x m hx hm
    simp [dnorm, norm_ok', norm_ok, dnorm_limit_vals, hx, hm]
  · intro x m s hx hm hs hi hne
    have h0 : ¬ s < 0 := by linarith
    have h1 : ¬ s = 0 := by linarith
    cases x <;> cases m <;> simp_all [dnorm, norm_ok', norm_ok, dnorm_limit_vals, isInf]
  · intro x s hs hi
    have h0 : ¬ s < 0 := by linarith
    have h1 : ¬ s = 0 := by linarith
    rcases hi with rfl | rfl <;> simp [dnorm, norm_ok', norm_ok, dnorm_limit_vals, h0, h1]

theorem C45_dlaplace : DensInf dlaplace := by
  refine densInf_of locDens_laplace ?_ ?_ ?_
  · intro x m hx hm
    simp [dlaplace, laplace_ok', laplace_ok, dlaplace_limit_vals, hx, hm]
  · intro x m s hx hm hs hi hne
    have h0 : ¬ s < 0 := by linarith
    have h1 : ¬ s = 0 := by linarith
    cases x <;> cases m <;> simp_all [dlaplace, laplace_ok', laplace_ok, dlaplace_limit_vals, isInf]
  · intro x s hs hi
    have h0 : ¬ s < 0 := by linarith
    have h1 : ¬ s = 0 := by linarith
    rcases hi with rfl | rfl <;> simp [dlaplace, laplace_ok', laplace_ok, dlaplace_limit_vals, h0, h1]

theorem C45_dlogis : DensInf dlogis := by
  refine densInf_of locDens_logis ?_ ?_ ?_
  · intro x m hx hm
    simp [dlogis, logis_ok', logis_ok, dlogis_limit_vals, hx, hm]
  · intro x m s hx hm hs hi hne
    have h0 : ¬ s < 0 := by linarith
    have h1 : ¬ s = 0 := by linarith
    cases x <;> cases m <;> simp_all [dlogis, logis_ok', logis_ok, dlogis_limit_vals, isInf]
  · intro x s hs hi
    have h0 : ¬ s < 0 := by linarith
    have h1 : ¬ s = 0 := by linarith
    rcases hi with rfl | rfl <;> simp [dlogis, logis_ok', logis_ok, dlogis_limit_vals, h0]

/-- `DensInf dcauchy` lacks: infinite scale together with an infinite point or location, see `C45_dcauchy_violated`. -/
theorem C45_dcauchy_partial : (∀ x m : ℝ, JointLim dcauchy (fin x) (fin m) pinf) ∧
    ∀ (x m : Fl) (s : ℝ), x ≠ nan → m ≠ nan → 0 < s → isInf x ∨ isInf m →
      (x ≠ m ∧ JointLim dcauchy x m (fin s)) ∨ (x = m ∧ NanUndecided dcauchy x m (fin s)) := by
  have H := locDens_cauchy
  refine ⟨fun x m => H.joint_wide (by simp [dcauchy, cauchy_ok', cauchy_ok, dcauchy_limit_vals]),
    fun x m s hx hm hs hi => ?_⟩
  have h0 : ¬ s < 0 := by linarith
  by_cases hne : x = m
  · subst hne
    have hi := or_self_iff.1 hi
    refine Or.inr ⟨rfl, H.same hs hi ?_⟩
    rcases hi with rfl | rfl <;> simp [dcauchy, cauchy_ok', cauchy_ok, dcauchy_limit_vals, h0]
  · refine Or.inl ⟨hne, H.joint_far hs hi hne ?_⟩
    cases x <;> cases m <;> simp_all [dcauchy, cauchy_ok', cauchy_ok, dcauchy_limit_vals, isInf]

/-- NaN although the density vanishes along every path. -/
theorem C45_dcauchy_violated {x m : Fl} (hx : x ≠ nan) (hm : m ≠ nan) (hi : isInf x ∨ isInf m) :
    dcauchy x m pinf false = nan ∧ ∀ u v w : ℝ → ℝ, Goes u x → Goes v m → Goes w pinf →
      Approaches atTop (fun t => dcauchy (fin (u t)) (fin (v t)) (fin (w t)) false) (fin 0) := by
  constructor
  · unfold isInf at hi
    cases x <;> cases m <;> simp_all [dcauchy, cauchy_ok', cauchy_ok, dcauchy_limit_vals, isInf]
  · intro u v w _ _ hw
    have hw : Tendsto w atTop atTop := hw
    have h0 := hw.eventually_gt_atTop 0
    have H := locDens_cauchy
    refine approaches_of (h0.mono fun t ht => (H.ev _ ht _).2) (squeeze_zero' (h0.mono fun t ht => (H.ev _ ht _).1)
      (h0.mono fun t ht => H.wide _ ht _) ?_)
    exact tendsto_const_nhds.div_atTop hw

/-! ### The four distribution functions -/

theorem locCdf_norm : LocCdf pnorm Phi where
  log := C07_pnorm
  ev m _ hs x := pnorm_ev m hs x
  top := tendsto_Phi_atTop
  bot := tendsto_Phi_atBot
  zero := Lim.Phi_zero
  inj := strictMono_Phi.injective

theorem locCdf_cauchy : LocCdf pcauchy Lim.cauG where
  log := C07_pcauchy
  ev m _ hs x := pcauchy_ev m hs x
  top := Lim.cauG_top
  bot := Lim.cauG_bot
  zero := Lim.cauG_zero
  inj a b h := by
    have hpi := Real.pi_ne_zero
    unfold Lim.cauG at h
    refine Real.arctan_injective ?_
    field_simp at h
    linarith

theorem locCdf_logis : LocCdf plogis Lim.logG where
  log := C07_plogis
  ev m _ hs x := plogis_ev m hs x
  top := Lim.logG_top
  bot := Lim.logG_bot
  zero := Lim.logG_zero
  inj a b h := by
    unfold Lim.logG at h
    have ha := Real.exp_pos (-a)
    have hb := Real.exp_pos (-b)
    have : Real.exp (-a) = Real.exp (-b) := by
      field_simp at h
      linarith
    have := Real.exp_injective this
    linarith

theorem lapG_mem (z : ℝ) : 0 < Lim.lapG z ∧ Lim.lapG z < 1 := by
  unfold Lim.lapG
  split_ifs with h
  · have := Real.exp_pos z
    have : Real.exp z < 1 := by simpa using h
    constructor <;> linarith
  · have := Real.exp_pos (-z)
    have : Real.exp (-z) ≤ 1 := Real.exp_le_one_iff.2 (by linarith)
    constructor <;> linarith

theorem locCdf_laplace : LocCdf plaplace Lim.lapG where
  log := C07_plaplace
  ev m _ hs x := plaplace_ev m hs x
  top := Lim.lapG_top
  bot := Lim.lapG_bot
  zero := Lim.lapG_zero
  inj a b h := by
    have h1 := lapG_inv 0 one_pos a
    have h2 := lapG_inv 0 one_pos b
    simp only [sub_zero, div_one, lapG_mem, true_implies] at h1 h2
    rw [h, h2] at h1
    simpa using h1.symm

theorem cdfInf_of {p : Fl → Fl → Fl → Bool → Fl} {G : ℝ → ℝ} (H : LocCdf p G)
    (h0 : ∀ x m : ℝ, p (fin x) (fin m) pinf false = fin (1 / 2))
    (h1 : ∀ x m : Fl, x ≠ nan → m ≠ nan → isInf x ∨ isInf m → p x m pinf false = nan)
    (h2 : ∀ (x m : Fl) (s : ℝ), x ≠ nan → m ≠ nan → 0 < s → x = pinf ∨ m = ninf → x ≠ m → p x m (fin s) false = fin 1)
    (h2' : ∀ (x m : Fl) (s : ℝ), x ≠ nan → m ≠ nan → 0 < s → x = ninf ∨ m = pinf → x ≠ m → p x m (fin s) false = fin 0)
    (h3 : ∀ (x : Fl) (s : ℝ), 0 < s → isInf x → p x x (fin s) false = nan) : CdfInf p := by
  refine ⟨fun x m => H.joint_wide (h0 x m), fun x m hx hm hi => ⟨H.nan_log (h1 x m hx hm hi), H.both hi hx hm⟩,
    fun x m s hx hm hs hi => ?_⟩
  by_cases hne : x = m
  · subst hne
    exact Or.inr ⟨rfl, H.nan_log (h3 x s hs (or_self_iff.1 hi)), H.same hs (or_self_iff.1 hi)⟩
  · refine Or.inl ⟨hne, ?_⟩
    rcases (show (x = pinf ∨ m = ninf) ∨ (x = ninf ∨ m = pinf) by unfold isInf at hi; tauto) with h | h
    · exact H.joint_up hs h hne (h2 x m s hx hm hs h hne)
    · exact H.joint_down hs h hne (h2' x m s hx hm hs h hne)

theorem C45_pcauchy : CdfInf pcauchy := by
  refine cdfInf_of locCdf_cauchy ?_ ?_ ?_ ?_ ?_
  · intro x m
    simp [pcauchy, cauchy_ok', cauchy_ok, pcauchy_limit_vals]
  · intro x m hx hm hi
    unfold isInf at hi
    cases x <;> cases m <;> simp_all [pcauchy, cauchy_ok', cauchy_ok, pcauchy_limit_vals, isInf]
  · intro x m s hx hm hs hi hne
    have h0 : ¬ s < 0 := by linarith
    cases x <;> cases m <;> simp_all [pcauchy, cauchy_ok', cauchy_ok, pcauchy_limit_vals, isInf, one_eq]
  · intro x m s hx hm hs hi hne
    have h0 : ¬ s < 0 := by linarith
    cases x <;> cases m <;> simp_all [pcauchy, cauchy_ok', cauchy_ok, pcauchy_limit_vals, isInf]
  · intro x s hs hi
    have h0 : ¬ s < 0 := by linarith
    rcases hi with rfl | rfl <;> simp [pcauchy, cauchy_ok', cauchy_ok, pcauchy_limit_vals, h0]

theorem C45_plaplace : CdfInf plaplace := by
  refine cdfInf_of locCdf_laplace ?_ ?_ ?_ ?_ ?_
  · intro x m
    simp [plaplace, laplace_ok', laplace_ok, plaplace_limit_vals]
  · intro x m hx hm hi
    unfold isInf at hi
    cases x <;> cases m <;> simp_all [plaplace, laplace_ok', laplace_ok, plaplace_limit_vals, isInf]
  · intro x m s hx hm hs hi hne
    have h0 : ¬ s < 0 := by linarith
    have h1 : ¬ s = 0 := by linarith
    cases x <;> cases m <;> simp_all [plaplace, laplace_ok', laplace_ok, plaplace_limit_vals, isInf, one_eq]
  · intro x m s hx hm hs hi hne
    have h0 : ¬ s < 0 := by linarith
    have h1 : ¬ s = 0 := by linarith
    cases x <;> cases m <;> simp_all [plaplace, laplace_ok', laplace_ok, plaplace_limit_vals, isInf]
  · intro x s hs hi
    have h0 : ¬ s < 0 := by linarith
    have h1 : ¬ s = 0 := by linarith
    rcases hi with rfl | rfl <;> simp [plaplace, laplace_ok', laplace_ok, plaplace_limit_vals, h0, h1]

theorem C45_plogis : CdfInf plogis := by
  refine cdfInf_of locCdf_logis ?_ ?_ ?_ ?_ ?_
  · intro x m
    simp [plogis, logis_ok', logis_ok, plogis_limit_vals]
  · intro x m hx hm hi
    unfold isInf at hi
    cases x <;> cases m <;> simp_all [plogis, logis_ok', logis_ok, plogis_limit_vals, isInf]
  · intro x m s hx hm hs hi hne
    have h0 : ¬ s < 0 := by linarith
    have h1 : ¬ s = 0 := by linarith
    cases x <;> cases m <;> simp_all [plogis, logis_ok', logis_ok, plogis_limit_vals, isInf, one_eq]
  · intro x m s hx hm hs hi hne
    have h0 : ¬ s < 0 := by linarith
    have h1 : ¬ s = 0 := by linarith
    cases x <;> cases m <;> simp_all [plogis, logis_ok', logis_ok, plogis_limit_vals, isInf]
  · intro x s hs hi
    have h0 : ¬ s < 0 := by linarith
    have h1 : ¬ s = 0 := by linarith
    rcases hi with rfl | rfl <;> simp [plogis, logis_ok', logis_ok, plogis_limit_vals, h0, h1]

/-- `CdfInf pnorm` lacks: infinite scale together with an infinite point or location, see `C45_pnorm_violated`. -/
theorem C45_pnorm_partial : (∀ x m : ℝ, JointLim pnorm (fin x) (fin m) pinf) ∧
    (∀ x : Fl, isInf x → NanUndecided pnorm x x pinf) ∧
    ∀ (x m : Fl) (s : ℝ), x ≠ nan → m ≠ nan → 0 < s → isInf x ∨ isInf m →
      (x ≠ m ∧ JointLim pnorm x m (fin s)) ∨ (x = m ∧ NanUndecided pnorm x m (fin s)) := by
  have H := locCdf_norm
  refine ⟨fun x m => H.joint_wide (by simp [pnorm, norm_ok', norm_ok, pnorm_limit_vals]), fun x hi => ?_,
    fun x m s hx hm hs hi => ?_⟩
  · have hn : x ≠ nan := by rcases hi with rfl | rfl <;> simp
    refine ⟨H.nan_log ?_, H.both (Or.inl hi) hn hn⟩
    rcases hi with rfl | rfl <;> simp [pnorm, norm_ok', norm_ok, pnorm_limit_vals]
  have h0 : ¬ s < 0 := by linarith
  have h1 : ¬ s = 0 := by linarith
  by_cases hne : x = m
  · subst hne
    have hi := or_self_iff.1 hi
    refine Or.inr ⟨rfl, H.nan_log ?_, H.same hs hi⟩
    rcases hi with rfl | rfl <;> simp [pnorm, norm_ok', norm_ok, pnorm_limit_vals, h0, h1]
  · refine Or.inl ⟨hne, ?_⟩
    rcases (show (x = pinf ∨ m = ninf) ∨ (x = ninf ∨ m = pinf) by unfold isInf at hi; tauto) with h | h
    · refine H.joint_up hs h hne ?_
      cases x <;> cases m <;> simp_all [pnorm, norm_ok', norm_ok, pnorm_limit_vals, isInf, one_eq]
    · refine H.joint_down hs h hne ?_
      cases x <;> cases m <;> simp_all [pnorm, norm_ok', norm_ok, pnorm_limit_vals, isInf]

/-- 1 or 0, although two paths lead to different limits. -/
theorem C45_pnorm_violated {x m : Fl} (hx : x ≠ nan) (hm : m ≠ nan) (hi : isInf x ∨ isInf m) (hne : x ≠ m) :
    (pnorm x m pinf false = fin 1 ∨ pnorm x m pinf false = fin 0) ∧ Undecided pnorm x m pinf := by
  refine ⟨?_, locCdf_norm.both hi hx hm⟩
  unfold isInf at hi
  cases x <;> cases m <;> simp_all [pnorm, norm_ok', norm_ok, pnorm_limit_vals, isInf, one_eq]

/-! ### The four quantile functions -/

structure LocQuant (q : Fl → Fl → Fl → Fl) (G : ℝ → ℝ) : Prop where
  mem : ∀ z, 0 < G z ∧ G z < 1
  onto : ∀ u, 0 < u → u < 1 → ∃ z, G z = u
  mono : Monotone G
  inv : ∀ (mu : ℝ) {s : ℝ}, 0 < s → IsInv (fun u => q u (fin mu) (fin s)) (fun x => G ((x - mu) / s))
  top : Tendsto G atTop (𝓝 1)
  bot : Tendsto G atBot (𝓝 0)

namespace LocQuant
variable {q : Fl → Fl → Fl → Fl} {G : ℝ → ℝ}

theorem val (H : LocQuant q G) {u : ℝ} (h0 : 0 < u) (h1 : u < 1) {mu s : ℝ} (hs : 0 < s) :
    ∃ z, G z = u ∧ q (fin u) (fin mu) (fin s) = fin (mu + s * z) := by
  obtain ⟨z, rfl⟩ := H.onto u h0 h1
  refine ⟨z, rfl, ?_⟩
  have := H.inv mu hs (mu + s * z)
  simp only at this
  rw [show (mu + s * z - mu) / s = z by field_simp; ring] at this
  exact this h0 h1

theorem ends (H : LocQuant q G)
    (h0 : ∀ (m : Fl) (s : ℝ), 0 < s → m ≠ nan → m ≠ pinf → q 0 m (fin s) = ninf)
    (h0' : ∀ s : ℝ, 0 < s → q 0 pinf (fin s) = nan)
    (h1 : ∀ (m : Fl) (s : ℝ), 0 < s → m ≠ nan → m ≠ ninf → q 1 m (fin s) = pinf)
    (h1' : ∀ s : ℝ, 0 < s → q 1 ninf (fin s) = nan) : QuantEnds q := by
  intro s hs
  refine ⟨fun m hm hp => ?_, ⟨h0' s hs, ?_⟩, fun m hm hp => ?_, h1' s hs, ?_⟩
  · intro u v hu hv
    have e : q (fin 0) m (fin s) = ninf := by simpa using h0 m s hs hm hp
    simp only [e]
    intro M
    -- the locations stay below a bound
    have hb : ∃ B : ℝ, ∀ᶠ t in atTop, v t ≤ B := by
      cases m with
      | nan => exact absurd rfl hm
      | ninf => exact ⟨0, (show Tendsto v atTop atBot from hv).eventually_le_atBot 0⟩
      | fin r => exact ⟨r, Eventually.of_forall fun t => le_of_eq (hv t)⟩
      | pinf => exact absurd rfl hp
    obtain ⟨B, hB⟩ := hb
    filter_upwards [hB, hu.2.eventually_lt_const (H.mem ((M - B) / s)).1] with t ht1 ht2
    obtain ⟨z, hz, e⟩ := H.val (hu.1 t).1 (hu.1 t).2 (mu := v t) hs
    rw [e, fin_le_fin]
    rw [← hz] at ht2
    have hz' : z < (M - B) / s := H.mono.reflect_lt ht2
    rw [lt_div_iff₀ hs] at hz'
    linarith
  · have key : ∀ c : ℝ, GoesProb (fun t => G ((c - t) / s)) 0 ∧ Goes (fun t => t) pinf ∧
        Approaches atTop (fun t => q (fin (G ((c - t) / s))) (fin t) (fin s)) (fin c) := by
      intro c
      refine ⟨⟨fun t => H.mem _, H.bot.comp (Lim.loc_arg_top c hs)⟩, tendsto_id, ?_⟩
      exact approaches_of (h := fun _ => c) (Eventually.of_forall fun t => H.inv t hs c (H.mem _).1 (H.mem _).2)
        tendsto_const_nhds
    obtain ⟨a1, a2, a3⟩ := key 0
    obtain ⟨b1, b2, b3⟩ := key 1
    exact ⟨_, _, _, _, ⟨a1, a2⟩, ⟨b1, b2⟩, 0, 1, zero_ne_one, a3, b3⟩
  · intro u v hu hv
    have e : q (fin 1) m (fin s) = pinf := by simpa [one_eq] using h1 m s hs hm hp
    simp only [e]
    intro M
    have hb : ∃ B : ℝ, ∀ᶠ t in atTop, B ≤ v t := by
      cases m with
      | nan => exact absurd rfl hm
      | pinf => exact ⟨0, (show Tendsto v atTop atTop from hv).eventually_ge_atTop 0⟩
      | fin r => exact ⟨r, Eventually.of_forall fun t => ge_of_eq (hv t)⟩
      | ninf => exact absurd rfl hp
    obtain ⟨B, hB⟩ := hb
    filter_upwards [hB, hu.2.eventually_const_lt (H.mem ((M - B) / s)).2] with t ht1 ht2
    obtain ⟨z, hz, e⟩ := H.val (hu.1 t).1 (hu.1 t).2 (mu := v t) hs
    rw [e, fin_le_fin]
    rw [← hz] at ht2
    have hz' : (M - B) / s < z := H.mono.reflect_lt ht2
    rw [div_lt_iff₀ hs] at hz'
    linarith
  · have key : ∀ c : ℝ, GoesProb (fun t => G ((c + t) / s)) 1 ∧ Goes (fun t => -t) ninf ∧
        Approaches atTop (fun t => q (fin (G ((c + t) / s))) (fin (-t)) (fin s)) (fin c) := by
      intro c
      refine ⟨⟨fun t => H.mem _, H.top.comp ?_⟩, tendsto_neg_atTop_atBot, ?_⟩
      · exact (tendsto_atTop_add_const_left _ c tendsto_id).atTop_div_const hs
      · refine approaches_of (h := fun _ => c) (Eventually.of_forall fun t => ?_) tendsto_const_nhds
        have := H.inv (-t) hs c
        simp only [sub_neg_eq_add] at this
        exact this (H.mem _).1 (H.mem _).2
    obtain ⟨a1, a2, a3⟩ := key 0
    obtain ⟨b1, b2, b3⟩ := key 1
    exact ⟨_, _, _, _, ⟨a1, a2⟩, ⟨b1, b2⟩, 0, 1, zero_ne_one, a3, b3⟩

end LocQuant

theorem onto_of {G f : ℝ → ℝ} (hc : IsCdf (fun x => G ((x - 0) / 1)) f) (u : ℝ) (h0 : 0 < u) (h1 : u < 1) :
    ∃ z, G z = u := by
  obtain ⟨z, hz⟩ := hc.exists_eq h0 h1
  exact ⟨z, by simpa using hz⟩

theorem mono_of {G f : ℝ → ℝ} (hc : IsCdf (fun x => G ((x - 0) / 1)) f) : Monotone G := by
  have := hc.mono
  simpa using this

theorem locQuant_norm : LocQuant qnorm Phi where
  mem z := ⟨Phi_pos z, Phi_lt_one z⟩
  onto := onto_of (isCdf_norm 0 one_pos)
  mono := mono_of (isCdf_norm 0 one_pos)
  inv := qnorm_inv
  top := tendsto_Phi_atTop
  bot := tendsto_Phi_atBot

theorem locQuant_cauchy : LocQuant qcauchy Lim.cauG where
  mem z := by
    have hpi := Real.pi_pos
    have h1 := Real.neg_pi_div_two_lt_arctan z
    have h2 := Real.arctan_lt_pi_div_two z
    unfold Lim.cauG
    have : -(1 / 2) < Real.arctan z / Real.pi := by rw [lt_div_iff₀ hpi]; linarith
    have : Real.arctan z / Real.pi < 1 / 2 := by rw [div_lt_iff₀ hpi]; linarith
    constructor <;> linarith
  onto := onto_of (G := Lim.cauG) (isCdf_cauchy 0 one_pos)
  mono := mono_of (G := Lim.cauG) (isCdf_cauchy 0 one_pos)
  inv := qcauchy_inv
  top := Lim.cauG_top
  bot := Lim.cauG_bot

theorem locQuant_logis : LocQuant qlogis Lim.logG where
  mem z := by
    have h := Real.exp_pos (-z)
    unfold Lim.logG
    exact ⟨by positivity, by rw [div_lt_one (by positivity)]; linarith⟩
  onto := onto_of (G := Lim.logG) (isCdf_logis 0 one_pos)
  mono := mono_of (G := Lim.logG) (isCdf_logis 0 one_pos)
  inv := qlogis_inv
  top := Lim.logG_top
  bot := Lim.logG_bot

theorem locQuant_laplace : LocQuant qlaplace Lim.lapG where
  mem := lapG_mem
  onto := onto_of lapG_cdf
  mono := mono_of lapG_cdf
  inv := lapG_inv
  top := Lim.lapG_top
  bot := Lim.lapG_bot

theorem prob_ok_zero : prob_val_ok (fin 0) := prob_ok_fin (le_refl (0 : ℝ)) zero_le_one
theorem prob_ok_one : prob_val_ok (fin 1) := prob_ok_fin zero_le_one (le_refl (1 : ℝ))

theorem C45_qnorm : QuantEnds qnorm := by
  refine locQuant_norm.ends ?_ ?_ ?_ ?_ <;> intros <;> rename_i hs <;>
    simp_all [qnorm, norm_ok, prob_ok_zero, prob_ok_one, le_of_lt, ne_of_gt, not_lt]

theorem C45_qcauchy : QuantEnds qcauchy := by
  refine locQuant_cauchy.ends ?_ ?_ ?_ ?_ <;> intros <;> rename_i hs <;>
    simp_all [qcauchy, cauchy_ok, prob_ok_zero, prob_ok_one, le_of_lt, ne_of_gt, not_lt]

theorem C45_qlogis : QuantEnds qlogis := by
  refine locQuant_logis.ends ?_ ?_ ?_ ?_ <;> intros <;> rename_i hs <;>
    simp_all [qlogis, logis_ok, prob_ok_zero, prob_ok_one, le_of_lt, ne_of_gt, not_lt]

theorem C45_qlaplace : QuantEnds qlaplace := by
  refine locQuant_laplace.ends ?_ ?_ ?_ ?_ <;> intros <;> rename_i hs <;>
    simp_all [qlaplace, laplace_ok, prob_ok_zero, prob_ok_one, le_of_lt, ne_of_gt, not_lt]

end Stats

/-! ### Examples -/

namespace Stats.ExamplesC45
open Fl Spec
open scoped Stats.Exact

/-- point and location at opposite ends -/
example : JointLim dnorm pinf ninf (fin 2) :=
  ((C45_dnorm.2 pinf ninf 2 (by simp) (by simp) two_pos (Or.inl (Or.inl rfl))).resolve_right (fun h => by simp at h)).2
/-- point and location at the same end -/
example : dnorm pinf pinf (fin 2) true = nan :=
  ((C45_dnorm.2 pinf pinf 2 (by simp) (by simp) two_pos (Or.inl (Or.inl rfl))).resolve_left (fun h => h.1 rfl)).2.1 true
example : dcauchy ninf ninf (fin 2) false = nan :=
  ((C45_dcauchy_partial.2 ninf ninf 2 (by simp) (by simp) two_pos (Or.inl (Or.inr rfl))).resolve_left
    (fun h => h.1 rfl)).2.1 false
example : dcauchy pinf (fin 3) pinf false = nan := (C45_dcauchy_violated (by simp) (by simp) (Or.inl (Or.inl rfl))).1
example : plogis pinf (fin 3) pinf false = nan := (C45_plogis.2.1 pinf (fin 3) (by simp) (by simp) (Or.inl (Or.inl rfl))).1 false
example : Undecided pnorm pinf (fin 3) pinf := (C45_pnorm_violated (by simp) (by simp) (Or.inl (Or.inl rfl)) (by simp)).2
example : qcauchy 0 pinf (fin 2) = nan := (C45_qcauchy 2 two_pos).2.1.1
example : QJointLim (fun p m => qcauchy p m (fin 2)) 0 ninf := (C45_qcauchy 2 two_pos).1 ninf (by simp) (by simp)

end Stats.ExamplesC45
