import Verif.Props.C49D
import Verif.Lemmas.RealDisc

/-!
# C49: accuracy of the remaining distribution functions: inverse Gaussian and the discrete ones
-/

set_option linter.unusedSectionVars false
open Classical
namespace Stats
open Fl Spec Finset
variable [Lib] {u : ℝ} [R : RelLib u]

/-! ### inverse Gaussian -/

theorem RelF.pnorm1 {k x : ℝ} {f : Fl} (h : RelF u k x f) : OffF u (k + 7) 1 (Phi x) (pnorm1 f false) := by
  obtain ⟨hk, y, rfl, h⟩ := h
  have h0 : RelF u (k + 1) x (fin y - 0) := by
    have := relF_sub (u := u) y ((0 : ℕ) : ℝ)
    obtain ⟨_, w, ew, hw⟩ := this
    rw [Nat.cast_zero, sub_zero] at hw
    exact ⟨by linarith, w, ew, h.trans R.u_lt hw⟩
  have z := (h0.div relF_one one_ne_zero).div relF_sqrt2 (by positivity)
  have m : |Spec.erf (x / 1 / √2)| ≤ 1 := abs_le.2 ⟨(neg_one_lt_erf _).le, (erf_lt_one _).le⟩
  have c := (relF_half (u := u)).off.mul ((relF_one (u := u)).off.add (z.erf.off.mono le_rfl m))
  have hv : Stats.pnorm1 (fin y) false = pnorm_compute ((fin y - 0) / 1) := by
    simp [Stats.pnorm1, pnorm, norm_ok', norm_ok, log_if]
  rw [hv]
  rw [div_one] at c
  refine c.mono ?_ (by norm_num)
  rw [max_eq_right (by linarith)]; linarith

theorem OffF.pnorm1 {k m x : ℝ} {f : Fl} (h : OffF u k m x f) : OffF u (k + 7) (m + 1) (Phi x) (pnorm1 f false) := by
  have hk := h.1
  have m0 := (abs_nonneg x).trans h.2.1
  have h0 : OffF u (k + 1) m x (f - 0) := by
    obtain ⟨_, hm, y, rfl, h⟩ := h
    obtain ⟨_, w, ew, hw⟩ := relF_sub (u := u) y ((0 : ℕ) : ℝ)
    rw [Nat.cast_zero, sub_zero] at hw
    have e : fin y - 0 = ofE (Lib.rnd y) := by
      show fin y - fin ((0 : ℕ) : ℝ) = _
      show ofE (Lib.rnd (y + -((0 : ℕ) : ℝ))) = _
      rw [Nat.cast_zero, neg_zero, add_zero]
    rw [e]
    exact offF_rnd hk h hm
  have z := (h0.div relF_one one_ne_zero).div relF_sqrt2 (by positivity)
  have c := (relF_half (u := u)).off.mul ((relF_one (u := u)).off.add z.erf)
  obtain ⟨_, _, y, rfl, _⟩ := h
  have hv : Stats.pnorm1 (fin y) false = pnorm_compute ((fin y - 0) / 1) := by
    simp [Stats.pnorm1, pnorm, norm_ok', norm_ok, log_if]
  rw [hv]
  rw [div_one] at c
  refine c.mono ?_ ?_
  · rw [max_eq_right (by linarith)]; linarith
  · rw [abs_one, abs_of_pos (by norm_num : (0 : ℝ) < 1 / 2), abs_of_pos (by positivity : 0 < √2), div_one]
    have := div_le_self m0 (Real.one_le_sqrt.2 (by norm_num : (1 : ℝ) ≤ 2))
    linarith

theorem RelF.exp {k x : ℝ} {f : Fl} (h : RelF u k x f) (hx : 0 ≤ x) (hg : gam u k * x ≤ 1) :
    OffF u (k + 1) (Real.exp x * (1 + 2 * x)) (Real.exp x) (Fl.exp f) := by
  obtain ⟨hk, y, rfl, h⟩ := h
  obtain ⟨w, ew, hw⟩ := R.exp y
  have ho := h.off R.u_lt
  have g := gam_nonneg R.u_nonneg R.u_lt hk
  have ep := Real.exp_pos x
  rw [Off, abs_of_nonneg hx] at ho
  have hm : |Real.exp x| ≤ Real.exp x * (1 + 2 * x) := by rw [abs_of_pos ep]; nlinarith
  refine ⟨by linarith, hm, w, by rw [Fl.exp, ew, ofE_coe], ?_⟩
  refine Off.rnd R.u_nonneg R.u_lt hk ?_ hm hw
  have h1 : |Real.exp (y - x) - 1| ≤ 2 * |y - x| := Real.abs_exp_sub_one_le (ho.trans hg)
  have h2 : Real.exp y - Real.exp x = Real.exp x * (Real.exp (y - x) - 1) := by
    rw [mul_sub, ← Real.exp_add, mul_one, add_sub_cancel]
  rw [Off, h2, abs_mul, abs_of_pos ep]
  calc _ ≤ Real.exp x * (2 * (gam u k * x)) := by gcongr; linarith
    _ ≤ gam u k * (Real.exp x * (1 + 2 * x)) := by nlinarith [mul_nonneg ep.le g]

/-- The second term multiplies a rounded probability by `exp(2 lambda/mu)`; the bound grows accordingly, and so does
the error (`C04_pinvgauss_double_violated` is the extreme case). -/
theorem C49_pinvgauss {mu lambda x : ℝ} (hm : 0 < mu) (hl : 0 < lambda) (hx : 0 < x)
    (hg : gam u 2 * (2 * lambda / mu) ≤ 1) :
    AbsAcc u 17 (√(lambda / x) * (x / mu + 1) + 1 + Real.exp (2 * lambda / mu) * (1 + 4 * lambda / mu))
      (pinvgauss (fin x) (fin mu) (fin lambda) false) (∫ t in Set.Iic x, invgaussPdf mu lambda t) := by
  have s := ((RelF.lift (u := u) lambda).div (RelF.lift x) hx.ne').sqrt (by positivity)
  have q := (RelF.lift (u := u) x).div (RelF.lift mu) hm.ne'
  have t1 := (s.off.mul (q.off.sub relF_one.off)).pnorm1
  have t2 := (s.neg.mul (q.add (relF_one.mono (l := 0 + 0 + 1) (by norm_num)) (by positivity) zero_le_one)).pnorm1
  have e := ((relF_two (u := u)).mul (RelF.lift lambda)).div (RelF.lift mu) hm.ne'
  have e' := (e.mono (l := 2) (by norm_num)).exp (by positivity) hg
  have c := t1.add (e'.mul t2)
  have hv : pinvgauss (fin x) (fin mu) (fin lambda) false = pinvgauss_compute (fin x) (fin mu) (fin lambda) := by
    have n1 : ¬ mu < 0 := by linarith
    have n2 : ¬ lambda < 0 := by linarith
    have n3 : ¬ x < 0 := by linarith
    simp [pinvgauss, invgauss_ok', invgauss_ok, n1, n2, n3, hm.ne', hl.ne', hx.ne', log_if]
  rw [hv, (isCdf_invgauss hm hl).running x, if_pos hx, invgaussCdf]
  refine (c.mono (by norm_num) ?_).absAcc
  rw [abs_of_nonneg (Real.sqrt_nonneg _), abs_of_pos (by positivity : 0 < x / mu), abs_one, mul_one]
  have : 1 + 2 * (2 * lambda / mu) = 1 + 4 * lambda / mu := by ring
  rw [this]

/-! ### discrete distributions -/

theorem C49_pbern {p : ℝ} (h0 : 0 ≤ p) (h1 : p ≤ 1) (k : ℕ) :
    RelAcc u 1 (pbern k (fin p) false) (∑ i ∈ range (k + 1), bernPmf p i) := by
  have e0 : ¬ p < 0 := by linarith
  have e1 : ¬ 1 < p := by linarith
  rcases Nat.eq_zero_or_pos k with rfl | hk
  · have hv : pbern ((0 : ℕ) : ℤ) (fin p) false = 1 - fin p := by
      simp [pbern, bern_ok, e0, e1, pbern_compute, log_if]
    rw [hv]
    simpa [bernPmf] using (relF_one_sub (u := u) p).relAcc
  · have hv : pbern (k : ℤ) (fin p) false = 1 := by
      have : (1 : ℤ) ≤ k := by exact_mod_cast hk
      simp [pbern, bern_ok, e0, e1, pbern_compute, log_if, this]
    have hs : ∑ i ∈ range (k + 1), bernPmf p i = 1 := by
      obtain ⟨j, rfl⟩ := Nat.exists_eq_add_of_lt hk
      rw [show 0 + j + 1 + 1 = j + 2 by ring, sum_range_succ', sum_range_succ', sum_eq_zero]
      · simp [bernPmf]
      · intro i _
        have : ¬ ((i : ℤ) + 1 + 1 = 1) := by omega
        have : ¬ ((i : ℤ) + 1 + 1 = 0) := by omega
        simp [bernPmf, *]
    rw [hv, hs]
    exact ((relF_one (u := u)).mono zero_le_one).relAcc

/-- the recursion of `pbinom` -/
theorem pbinom_compute_acc {n : ℕ} {p e : ℝ} (hp : ∀ k, k ≤ n → ∃ y, dbinom (k : ℤ) n (fin p) false = fin y ∧
      binomPmf n p k * Real.exp (-e) * (1 - u) ≤ y ∧ y ≤ binomPmf n p k * Real.exp e / (1 - u))
    (hpos : ∀ k, k ≤ n → 0 < binomPmf n p k) (steps count : ℕ) (hc : count + steps ≤ n) :
    ∃ y, pbinom_compute n (fin p) steps count = fin y ∧
      (∑ i ∈ range (steps + 1), binomPmf n p ((count + i : ℕ) : ℤ)) * Real.exp (-e) * (1 - u) ^ (steps + 1) ≤ y ∧
      y ≤ (∑ i ∈ range (steps + 1), binomPmf n p ((count + i : ℕ) : ℤ)) * Real.exp e / (1 - u) ^ (steps + 1) := by
  have hb : 0 < 1 - u := by linarith [R.u_lt]
  have hb1 : 1 - u ≤ 1 := by linarith [R.u_nonneg]
  induction steps generalizing count with
  | zero =>
    obtain ⟨y, ey, l, r⟩ := hp count (by omega)
    exact ⟨y, by rw [pbinom_compute, ey], by simpa using l, by simpa using r⟩
  | succ s ih =>
    obtain ⟨y, ey, l, r⟩ := hp count (by omega)
    obtain ⟨z, ez, l', r'⟩ := ih (count + 1) (by omega)
    have hS : 0 ≤ ∑ i ∈ range (s + 1), binomPmf n p ((count + 1 + i : ℕ) : ℤ) :=
      sum_nonneg fun i hi => (hpos _ (by have := mem_range.1 hi; omega)).le
    have hB := hpos count (by omega)
    obtain ⟨w, ew, t, t1, t2, et⟩ := R.rnd (y + z)
    rw [Real.rpow_one] at t1
    rw [Real.rpow_neg_one] at t2
    have e0 : Real.exp (-e) > 0 := Real.exp_pos _
    have e1 : Real.exp e > 0 := Real.exp_pos _
    have hp1 : (1 - u) ^ (s + 1) ≤ 1 - u := by
      calc (1 - u) ^ (s + 1) ≤ (1 - u) ^ 1 := pow_le_pow_of_le_one hb.le hb1 (by omega)
        _ = 1 - u := pow_one _
    have hP : 0 < (1 - u) ^ (s + 1) := by positivity
    have hsum : ∑ i ∈ range (s + 1 + 1), binomPmf n p ((count + i : ℕ) : ℤ) =
        binomPmf n p count + ∑ i ∈ range (s + 1), binomPmf n p ((count + 1 + i : ℕ) : ℤ) := by
      rw [sum_range_succ', add_comm]
      congr 1
      exact sum_congr rfl fun i _ => by rw [show count + (i + 1) = count + 1 + i by ring]
    rw [hsum]
    generalize ∑ i ∈ range (s + 1), binomPmf n p ((count + 1 + i : ℕ) : ℤ) = S at *
    generalize binomPmf n p count = B at *
    have lo : (B + S) * Real.exp (-e) * (1 - u) ^ (s + 1) ≤ y + z := by
      have : B * Real.exp (-e) * (1 - u) ^ (s + 1) ≤ B * Real.exp (-e) * (1 - u) := by gcongr
      calc _ = B * Real.exp (-e) * (1 - u) ^ (s + 1) + S * Real.exp (-e) * (1 - u) ^ (s + 1) := by ring
        _ ≤ _ := by linarith
    have hi : y + z ≤ (B + S) * Real.exp e / (1 - u) ^ (s + 1) := by
      have : B * Real.exp e / (1 - u) ≤ B * Real.exp e / (1 - u) ^ (s + 1) := by gcongr
      calc _ ≤ B * Real.exp e / (1 - u) ^ (s + 1) + S * Real.exp e / (1 - u) ^ (s + 1) := by linarith
        _ = _ := by ring
    have hyz : 0 ≤ y + z := le_trans (by positivity) lo
    refine ⟨w, ?_, ?_, ?_⟩
    · rw [pbinom_compute, ey]
      have : ((count : ℤ) + 1) = ((count + 1 : ℕ) : ℤ) := by push_cast; rfl
      rw [this, ez]
      show ofE (Lib.rnd (y + z)) = _
      rw [ew, ofE_coe]
    · rw [et, pow_succ, ← mul_assoc]
      exact mul_le_mul lo t1 hb.le hyz
    · rw [et, pow_succ, ← div_div]
      rw [div_eq_mul_inv _ (1 - u)]
      exact mul_le_mul hi t2 (hb.le.trans t1) (hyz.trans hi)

/-- A sum of `k + 1` rounded probabilities. `n ≤ 1` is `C49_pbern` or a constant. -/
theorem C49_pbinom {p : ℝ} (h0 : 0 < p) (h1 : p < 1) {n k : ℕ} (hn : 2 ≤ n) (hk : k < n) :
    ∃ y, pbinom k n (fin p) false = fin y ∧
      (∑ i ∈ range (k + 1), binomPmf n p i) *
        Real.exp (-(gam u 6 * (n * (Real.log 2 + Max.max |Real.log p| |Real.log (1 - p)| + 1) + 1))) * (1 - u) ^ (k + 1) ≤ y ∧
      y ≤ (∑ i ∈ range (k + 1), binomPmf n p i) *
        Real.exp (gam u 6 * (n * (Real.log 2 + Max.max |Real.log p| |Real.log (1 - p)| + 1) + 1)) / (1 - u) ^ (k + 1) := by
  have hb : 0 < 1 - u := by linarith [R.u_lt]
  have g := gam_nonneg R.u_nonneg R.u_lt (by norm_num : (0 : ℝ) ≤ 6)
  have hpos : ∀ j, j ≤ n → 0 < binomPmf n p j := fun j hj => (C49_dbinom (u := u) h0 h1 hn hj).1
  set L := Max.max |Real.log p| |Real.log (1 - p)|
  have hM : ∀ j : ℕ, j ≤ n → Real.log (n.choose j) + 1 + j * (|Real.log p| + 1) + (n - j) * (|Real.log (1 - p)| + 1) ≤
      n * (Real.log 2 + L + 1) + 1 := by
    intro j hj
    have c0 : (0 : ℝ) < n.choose j := by exact_mod_cast Nat.choose_pos hj
    have c1 : Real.log (n.choose j) ≤ n * Real.log 2 := by
      rw [← Real.log_pow]
      refine Real.log_le_log c0 ?_
      have : n.choose j ≤ 2 ^ n := by
        rw [← Nat.sum_range_choose]
        exact single_le_sum (f := fun m => n.choose m) (fun _ _ => Nat.zero_le _) (mem_range.2 (by omega))
      exact_mod_cast this
    have j0 : (0 : ℝ) ≤ j := by positivity
    have j1 : (0 : ℝ) ≤ n - j := by have : (j : ℝ) ≤ n := by exact_mod_cast hj
                                    linarith
    have a1 : j * (|Real.log p| + 1) ≤ j * (L + 1) := by gcongr; exact le_max_left _ _
    have a2 : (n - j) * (|Real.log (1 - p)| + 1) ≤ (n - j) * (L + 1) := by gcongr; exact le_max_right _ _
    nlinarith
  have hp : ∀ j, j ≤ n → ∃ y, dbinom (j : ℤ) n (fin p) false = fin y ∧
      binomPmf n p j * Real.exp (-(gam u 6 * (n * (Real.log 2 + L + 1) + 1))) * (1 - u) ≤ y ∧
      y ≤ binomPmf n p j * Real.exp (gam u 6 * (n * (Real.log 2 + L + 1) + 1)) / (1 - u) := by
    intro j hj
    obtain ⟨hq, -, y, ey, l, r⟩ := C49_dbinom (u := u) h0 h1 hn hj
    have hle := mul_le_mul_of_nonneg_left (hM j hj) g
    refine ⟨y, ey, le_trans ?_ l, r.trans ?_⟩
    · gcongr
    · gcongr
  obtain ⟨y, ey, l, r⟩ := pbinom_compute_acc hp hpos k 0 (by omega)
  refine ⟨y, ?_, by simpa using l, by simpa using r⟩
  have e0 : ¬ p < 0 := by linarith
  have e1 : ¬ 1 < p := by linarith
  have n1 : ¬ ((k : ℤ) < 0) := by omega
  have n2 : ¬ ((n : ℤ) ≤ k) := by omega
  have n3 : ¬ ((n : ℤ) = 1) := by omega
  have n4 : ¬ ((n : ℤ) < 0) := by omega
  rw [pbinom, if_neg (by simp [binom_ok, e0, e1]), if_neg n1, if_neg (by simpa using n2), if_neg n3, log_if,
    show ((k : ℤ) - 0).toNat = k by simp]
  simpa using ey

theorem relF_powi {x : ℝ} (hx : 0 < x) (n : ℕ) : RelF u n (x ^ n) (powi (fin x) n) := by
  obtain ⟨y, e, h⟩ := R.powi x n hx
  exact ⟨by positivity, y, by rw [powi, e, ofE_coe], h⟩

theorem ppois_tail_acc {rate : ℝ} (h : 0 < rate) (steps r : ℕ) :
    RelF u (2 * steps + r + 2) (∑ i ∈ range (steps + 1), rate ^ (r + i) / ((r + i).factorial : ℝ))
      (ppois_compute_recur_tail (fin rate) steps r) := by
  have hf : ∀ r : ℕ, (0 : ℝ) < r.factorial := fun r => by exact_mod_cast r.factorial_pos
  have ht : ∀ r : ℕ, RelF u (r + 2) (rate ^ r / (r.factorial : ℝ)) (powi (fin rate) r / ofInt (r.factorial : ℤ)) := by
    intro r
    have := (relF_powi (u := u) h r).div (relF_ofInt (r.factorial : ℤ)) (by simpa using (hf r).ne')
    rw [Int.cast_natCast] at this
    exact this.mono (by linarith)
  induction steps generalizing r with
  | zero => simpa [ppois_compute_recur_tail] using ht r
  | succ s ih =>
    have hS : ∑ i ∈ range (s + 1 + 1), rate ^ (r + i) / ((r + i).factorial : ℝ) =
        rate ^ r / (r.factorial : ℝ) + ∑ i ∈ range (s + 1), rate ^ (r + 1 + i) / ((r + 1 + i).factorial : ℝ) := by
      rw [sum_range_succ', add_comm]
      congr 1
      exact sum_congr rfl fun i _ => by rw [show r + (i + 1) = r + 1 + i by ring]
    rw [hS, ppois_compute_recur_tail]
    have hi := ih (r + 1)
    push_cast at hi ⊢
    have := ((ht r).mono (l := 2 * (s : ℝ) + (r + 1) + 2) (by have : (0 : ℝ) ≤ s := by positivity
                                                              linarith)).add hi
      (by have := hf r; positivity) (sum_nonneg fun i _ => by have := hf (r + 1 + i); positivity)
    exact this.mono (by linarith)

/-- small rates and counts: a sum of positive terms -/
theorem C49_ppois_small {rate : ℝ} (h : 0 < rate) (h10 : rate ≤ 10) {k : ℕ} (hk : k ≤ 15) :
    RelAcc u (2 * k + 5) (ppois k (fin rate) false) (∑ i ∈ range (k + 1), poisPmf rate i) ∧
    AbsAcc u (2 * k + 6) (|Real.log (∑ i ∈ range (k + 1), poisPmf rate i)| + 1) (ppois k (fin rate) true)
      (Real.log (∑ i ∈ range (k + 1), poisPmf rate i)) := by
  have hf : ∀ r : ℕ, (0 : ℝ) < r.factorial := fun r => by exact_mod_cast r.factorial_pos
  have hr : RelF u (2 * k + 3) (∑ i ∈ range (k + 1), rate ^ i / (i.factorial : ℝ)) (ppois_compute_recur k (fin rate)) := by
    rw [ppois_compute_recur]
    split_ifs with h1 h2
    · obtain rfl : k = 0 := by exact_mod_cast h1
      simpa using (relF_one (u := u)).mono (by norm_num)
    · obtain rfl : k = 1 := by exact_mod_cast h2
      have := (relF_one (u := u)).add (RelF.lift rate) zero_le_one h.le
      simpa [sum_range_succ] using this.mono (l := 2 + 3) (by norm_num)
    · obtain ⟨j, rfl⟩ := Nat.exists_eq_succ_of_ne_zero (n := k) (by rintro rfl; simp at h1)
      have e : ((j.succ : ℤ) - 1).toNat = j := by simp
      have t := ppois_tail_acc (u := u) h j 1
      have := (((relF_one (u := u)).mono (l := 2 * j + (1 : ℕ) + 2) (by positivity)).add t zero_le_one
        (sum_nonneg fun i _ => by have := hf (1 + i); positivity))
      rw [e]
      rw [show ∑ i ∈ range (j.succ + 1), rate ^ i / (i.factorial : ℝ) =
        1 + ∑ i ∈ range (j + 1), rate ^ (1 + i) / ((1 + i).factorial : ℝ) by
          rw [sum_range_succ' _ (j + 1), add_comm]; simp [add_comm]]
      refine this.mono ?_
      push_cast; linarith
  have he : RelF u 1 (Real.exp (-rate)) (Fl.exp (-fin rate)) := by
    obtain ⟨y, ey, hy⟩ := R.exp (-rate)
    exact ⟨zero_le_one, y, by show Fl.exp (fin (-rate)) = _; rw [Fl.exp, ey, ofE_coe], hy⟩
  have c := he.mul hr
  have hs : ∑ i ∈ range (k + 1), poisPmf rate i = Real.exp (-rate) * ∑ i ∈ range (k + 1), rate ^ i / (i.factorial : ℝ) := by
    rw [mul_sum]
    exact sum_congr rfl fun i _ => by rw [poisPmf_nat]; ring
  have hpos : 0 < ∑ i ∈ range (k + 1), poisPmf rate i := by
    refine sum_pos (fun i _ => ?_) ⟨0, by simp⟩
    rw [poisPmf_nat]
    have := hf i
    positivity
  rw [← hs] at c
  have hv : ∀ f, ppois k (fin rate) f = Stats.log_if (Fl.exp (-fin rate) * ppois_compute_recur k (fin rate)) f := by
    intro f
    have e0 : ¬ rate < 0 := by linarith
    have n2 : ¬ ((k : ℤ) < 0) := by omega
    have n3 : ¬ (fin rate > 10 ∨ (k : ℤ) > 15) := by
      rintro (h' | h')
      · have : (10 : ℝ) < rate := by
          have h10 : (10 : Fl) = fin 10 := by show fin ((10 : ℕ) : ℝ) = _; norm_num
          rw [h10] at h'
          simpa using h'
        linarith
      · omega
    rw [ppois, if_neg (by simp [pois_ok, e0]), if_neg n2, if_neg (by simp), ppois_compute, if_neg n3]
  rw [hv, hv]
  have := (c.mono (l := 2 * k + 5) (by linarith)).log_if hpos
  rw [show 2 * (k : ℝ) + 5 + 1 = 2 * k + 6 by ring] at this
  exact this

/-- large rates or counts: one minus an incomplete gamma function, so only the absolute error is small -/
theorem C49_ppois_large {rate : ℝ} (h : 0 < rate) {k : ℕ} (hk : k < 2 ^ 19) (hb : 10 < rate ∨ 15 < k) :
    AbsAcc u 2 2 (ppois k (fin rate) false) (∑ i ∈ range (k + 1), poisPmf rate i) := by
  have hx : ofInt ((k : ℤ) + 1) = fin ((k : ℝ) + 1) := by
    rw [ofInt]
    have := Lib.rnd_half (2 * ((k : ℤ) + 1)) (by rw [abs_of_nonneg (by positivity)]; norm_num; omega)
    push_cast at this ⊢
    rw [mul_div_cancel_left₀ _ two_ne_zero] at this
    rw [this, ofE_coe]
  have hk1 : (0 : ℝ) < (k : ℝ) + 1 := by positivity
  have r := (RelF.lift (u := u) rate).igamma h hk1
  have m : |gammaP (k + 1) rate| ≤ 1 := by
    rw [abs_of_pos (gammaP_pos hk1 h)]; exact (gammaP_lt_one hk1 h.le).le
  have c := (relF_one (u := u)).off.sub (r.off.mono le_rfl m)
  have hv : ppois k (fin rate) false = 1 - Fl.igamma (fin ((k : ℝ) + 1)) (fin rate) := by
    have e0 : ¬ rate < 0 := by linarith
    have n2 : ¬ ((k : ℤ) < 0) := by omega
    have n3 : fin rate > 10 ∨ (k : ℤ) > 15 := by
      refine hb.imp (fun h' => ?_) (fun h' => by omega)
      have h10 : (10 : Fl) = fin 10 := by show fin ((10 : ℕ) : ℝ) = _; norm_num
      rw [h10]
      simpa using h'
    rw [ppois, if_neg (by simp [pois_ok, e0]), if_neg n2, if_neg (by simp), ppois_compute, if_pos n3, hx]
    rfl
  rw [hv, ← cumZ_nat, cumZ_pois h.le]
  exact (c.mono (by norm_num) (by norm_num)).absAcc

/-! ### density of the F distribution -/

/-- one minus a number at most 1/2 that is known up to roundings -/
theorem RelF.one_sub {k z : ℝ} {f : Fl} (h : RelF u k z f) (h0 : 0 < z) (hz : z ≤ 1 / 2) (hc : (1 - u) ^ (-k) ≤ 3 / 2) :
    RelF u (2 * k + 1) (1 - z) (1 - f) := by
  obtain ⟨hk, y, rfl, h⟩ := h
  obtain ⟨_, w, ew, hw⟩ := relF_one_sub (u := u) y
  refine ⟨by linarith, w, ew, Rel.trans R.u_lt ?_ hw⟩
  have hb : 0 < 1 - u := by linarith [R.u_lt]
  have n1 : 0 < 1 - z := by linarith
  obtain ⟨t, t1, t2, rfl⟩ := h
  have e1 : (1 - u) ^ k = ((1 - u) ^ (-k))⁻¹ := by rw [Real.rpow_neg hb.le, inv_inv]
  have e2 : (1 - u) ^ (2 * k) = (((1 - u) ^ (-k)) ^ 2)⁻¹ := by
    rw [← Real.rpow_natCast, ← Real.rpow_mul hb.le, ← Real.rpow_neg hb.le]; congr 1; push_cast; ring
  have e3 : (1 - u) ^ (-(2 * k)) = ((1 - u) ^ (-k)) ^ 2 := by rw [Real.rpow_neg hb.le, e2, inv_inv]
  have c1 : 1 ≤ (1 - u) ^ (-k) :=
    Real.one_le_rpow_of_pos_of_le_one_of_nonpos hb (by linarith [R.u_nonneg]) (by linarith)
  rw [e1] at t1
  rw [Spec.Rel, e2, e3]
  generalize (1 - u) ^ (-k) = c at *
  have c0 : 0 < c := by linarith
  have t1' : 1 ≤ t * c := by
    rw [inv_eq_one_div, div_le_iff₀ c0] at t1; exact t1
  have zt : z * t ≤ z * c := by gcongr
  refine ⟨(1 - z * t) / (1 - z), ?_, ?_, by field_simp⟩
  · rw [le_div_iff₀ n1, inv_mul_le_iff₀ (by positivity)]
    have h1 : 1 - z ≤ c ^ 2 * (1 - z * c) := by
      have a0 : 0 ≤ c ^ 2 - 1 := by nlinarith
      have a1 : 0 ≤ 2 * c ^ 2 - c ^ 3 - 1 := by
        have : 2 * c ^ 2 - c ^ 3 - 1 = (c - 1) * (1 + c - c ^ 2) := by ring
        rw [this]; exact mul_nonneg (by linarith) (by nlinarith)
      have e : c ^ 2 * (1 - z * c) - (1 - z) = (1 - 2 * z) * (c ^ 2 - 1) + z * (2 * c ^ 2 - c ^ 3 - 1) := by ring
      have := mul_nonneg (by linarith : 0 ≤ 1 - 2 * z) a0
      have := mul_nonneg h0.le a1
      linarith
    refine h1.trans ?_
    gcongr
  · rw [div_le_iff₀ n1]
    have h2 : z ≤ z * t * c := by
      calc z = z * 1 := (mul_one z).symm
        _ ≤ z * (t * c) := by gcongr
        _ = _ := by ring
    have h3 : c * (1 - z * t) ≤ c - z := by nlinarith
    have h4 : c - z ≤ c * (c ^ 2 * (1 - z)) := by
      have e : c * (c ^ 2 * (1 - z)) - (c - z) = (1 - 2 * z) * (c ^ 3 - c) + z * (c ^ 3 - 2 * c + 1) := by ring
      have a0 : 0 ≤ c ^ 3 - c := by
        have : c ^ 3 - c = c * ((c - 1) * (c + 1)) := by ring
        rw [this]; exact mul_nonneg c0.le (mul_nonneg (by linarith) (by linarith))
      have a1 : 0 ≤ c ^ 3 - 2 * c + 1 := by
        have : c ^ 3 - 2 * c + 1 = (c - 1) * (c ^ 2 + c - 1) := by ring
        rw [this]; exact mul_nonneg (by linarith) (by nlinarith)
      have := mul_nonneg (by linarith : 0 ≤ 1 - 2 * z) a0
      have := mul_nonneg h0.le a1
      linarith
    exact le_of_mul_le_mul_left (h3.trans h4) c0

theorem fPdf_beta {d1 d2 x : ℝ} (p1 : 0 < d1) (p2 : 0 < d2) (hx : 0 < x) :
    fPdf d1 d2 x = betaPdf (d1 / 2) (d2 / 2) (d1 * x / d2 / (1 + d1 * x / d2)) * (d1 / d2 / (1 + d1 * x / d2) ^ 2) := by
  have q1 : 0 < d1 / 2 := by linarith
  have q2 : 0 < d2 / 2 := by linarith
  set w := d1 * x / d2 with hw
  have hw0 : 0 < w := by positivity
  have hw1 : 0 < 1 + w := by positivity
  have hz : w / (1 + w) ∈ Set.Ioo (0 : ℝ) 1 := ⟨by positivity, by rw [div_lt_one hw1]; linarith⟩
  have hB := beta_pos q1 q2
  rw [fPdf, if_pos hx, betaPdf_eq hz]
  have hwx : d1 / d2 * x = w := by rw [hw]; ring
  have h1w : 1 - w / (1 + w) = 1 / (1 + w) := by field_simp; ring
  rw [hwx, h1w, Real.div_rpow hw0.le hw1.le, Real.div_rpow zero_le_one hw1.le, Real.one_rpow]
  have hwpow : w ^ (d1 / 2 - 1) = (d1 / d2) ^ (d1 / 2) * x ^ (d1 / 2 - 1) / (d1 / d2) := by
    rw [← hwx, Real.mul_rpow (by positivity) hx.le, Real.rpow_sub_one (by positivity)]
    ring
  have hexp : (1 + w) ^ (-((d1 + d2) / 2)) = 1 / ((1 + w) ^ (d1 / 2 - 1) * (1 + w) ^ (d2 / 2 - 1) * (1 + w) ^ 2) := by
    rw [← Real.rpow_natCast, ← Real.rpow_add hw1, ← Real.rpow_add hw1, one_div, ← Real.rpow_neg hw1.le]
    congr 1; push_cast; ring
  rw [hwpow, hexp]
  field_simp

/-- size of the logarithms `df` adds; `w = df1 x/df2` -/
noncomputable def fSize (a b w r : ℝ) : ℝ :=
  |Real.log (Real.Gamma a)| + |Real.log (Real.Gamma b)| + |Real.log (Real.Gamma (a + b))| + 4 +
    |a - 1| * (|Real.log (w / (1 + w))| + 1) + |b - 1| * (|Real.log (1 - w / (1 + w))| + 1) + |Real.log (r / (1 + w) ^ 2)|

/-- The F density up to `df1 x = df2`. Further out the code subtracts nearly equal numbers, up to a negative
density in binary64 (`C06_df_violated`). -/
theorem C49_df_partial {df1 df2 x : ℝ} (hu : u ≤ 1 / 100) (h1 : Lib.eps ≤ df1) (h2 : Lib.eps ≤ df2)
    (r1 : Lib.rnd df1 = df1) (r2 : Lib.rnd df2 = df2) (r12 : Lib.rnd (df1 / 2 + df2 / 2) = ((df1 / 2 + df2 / 2 : ℝ) : EReal))
    (hx : 0 < x) (hw : df1 * x ≤ df2) :
    AbsAcc u 21 (fSize (df1 / 2) (df2 / 2) (df1 * x / df2) (df1 / df2)) (df (fin x) (fin df1) (fin df2) true)
      (Real.log (fPdf df1 df2 x)) ∧
    ∃ y, df (fin x) (fin df1) (fin df2) false = fin y ∧
      fPdf df1 df2 x * Real.exp (-(gam u 21 * fSize (df1 / 2) (df2 / 2) (df1 * x / df2) (df1 / df2))) * (1 - u) ^ 21 ≤ y ∧
      y ≤ fPdf df1 df2 x * Real.exp (gam u 21 * fSize (df1 / 2) (df2 / 2) (df1 * x / df2) (df1 / df2)) / (1 - u) ^ 21 := by
  have p1 := Lib.eps_pos.trans_le h1
  have p2 := Lib.eps_pos.trans_le h2
  have ha : 0 < df1 / 2 := by positivity
  have hb : 0 < df2 / 2 := by positivity
  have u0 := R.u_nonneg
  have ub : 0 < 1 - u := by linarith
  have hB := beta_pos ha hb
  have fB := fPdf_beta p1 p2 hx
  have rw0 := ((RelF.lift (u := u) df1).mul (RelF.lift x)).div (RelF.lift df2) p2.ne'
  have w0 : 0 < df1 * x / df2 := by positivity
  have w1 : df1 * x / df2 ≤ 1 := by rw [div_le_one p2]; exact hw
  have ro := ((relF_one (u := u)).mono (l := 0 + 0 + 1 + 0 + 1) (by norm_num)).add rw0 zero_le_one w0.le
  have rz := (rw0.div ro (by positivity)).mono (l := 6) (by norm_num)
  have rr : RelF u 5 (df1 / df2 / (1 + df1 * x / df2)) ((fin (df1 / 2) / fin (df2 / 2)) / (1 + fin df1 * fin x / fin df2)) := by
    have := ((RelF.lift (u := u) (df1 / 2)).div (RelF.lift (df2 / 2)) hb.ne').div ro (by positivity)
    rw [show df1 / 2 / (df2 / 2) = df1 / df2 by field_simp] at this
    exact this.mono (by norm_num)
  set w := df1 * x / df2 with hwd
  set W := fin df1 * fin x / fin df2 with hWd
  have z0 : 0 < w / (1 + w) := by positivity
  have z1 : w / (1 + w) ≤ 1 / 2 := by rw [div_le_iff₀ (by positivity)]; linarith
  have hz : w / (1 + w) ∈ Set.Ioo (0 : ℝ) 1 := ⟨z0, by linarith⟩
  have rx : RelF u 6 (w / (1 + w)) (fin x * ((fin (df1 / 2) / fin (df2 / 2)) / (1 + W))) := by
    have := (RelF.lift (u := u) x).mul rr
    rw [show x * (df1 / df2 / (1 + w)) = w / (1 + w) by rw [hwd]; field_simp] at this
    exact this.mono (by norm_num)
  have c6 := pow_neg_le u0 hu (n := 8) le_rfl (k := 6) (by norm_num)
  have sz := rz.one_sub z0 z1 (c6.trans (by norm_num))
  have sx := rx.one_sub z0 z1 (c6.trans (by norm_num))
  have adj := (rr.mul sx).mono (l := 19) (by norm_num)
  have eadj : df1 / df2 / (1 + w) * (1 - w / (1 + w)) = df1 / df2 / (1 + w) ^ 2 := by field_simp; ring
  rw [eadj] at adj
  have a0 : 0 < df1 / df2 / (1 + w) ^ 2 := by positivity
  have es : fin (df1 / 2) + fin (df2 / 2) = fin (df1 / 2 + df2 / 2) := by
    show ofE (Lib.rnd (df1 / 2 + df2 / 2)) = _
    rw [r12, ofE_coe]
  have la := offF_lgamma (u := u) ha
  have lb := offF_lgamma (u := u) hb
  have lab := offF_lgamma (u := u) (add_pos ha hb)
  rw [← es] at lab
  have lx := (relF_sub_one (u := u) (df1 / 2)).off.mul (rz.log z0)
  have ly := (relF_sub_one (u := u) (df2 / 2)).off.mul (sz.log (by linarith))
  have cb := (((la.add lb).sub lab).neg.add lx).add ly
  have lB : Real.log (betaPdf (df1 / 2) (df2 / 2) (w / (1 + w))) = -(Real.log (Real.Gamma (df1 / 2)) +
      Real.log (Real.Gamma (df2 / 2)) - Real.log (Real.Gamma (df1 / 2 + df2 / 2))) +
      (df1 / 2 - 1) * Real.log (w / (1 + w)) + (df2 / 2 - 1) * Real.log (1 - w / (1 + w)) := by
    have h2' : 0 < 1 - w / (1 + w) := by linarith
    rw [betaPdf_eq hz, Real.log_mul (by positivity) (by positivity), Real.log_mul (by positivity) (by positivity),
      Real.log_rpow z0, Real.log_rpow h2', one_div, Real.log_inv, log_beta ha hb]
  rw [← lB] at cb
  have bpos := betaPdf_pos ha hb hz
  obtain ⟨_, y, ey, hy⟩ := id rz
  have y0 := hy.pos R.u_lt z0
  have y1 : y < 1 := by
    calc y ≤ _ := (rel_le hy z0.le).1
      _ ≤ 1 / 2 * (100 / 92) := mul_le_mul z1 c6 (Real.rpow_nonneg ub.le _) (by norm_num)
      _ < 1 := by norm_num
  have hdb : ∀ f, dbeta (W / (1 + W)) (fin (df1 / 2)) (fin (df2 / 2)) f =
      exp_if (dbeta_log_compute (W / (1 + W)) (fin (df1 / 2)) (fin (df2 / 2))) (!f) := by
    intro f
    have e1 : ¬ df1 / 2 < 0 := by linarith
    have e2 : ¬ df2 / 2 < 0 := by linarith
    have e3 : ¬ y < 0 := by linarith
    have e4 : ¬ 1 < y := by linarith
    rw [ey, dbeta, if_neg (by simp [beta_ok', beta_ok, e1, e2]), if_neg (by simp [e3, e4]),
      if_neg (by simp [p1.ne', p2.ne']), if_neg (by simp [y0.ne']), if_neg (by simp [y1.ne])]
  have hv : ∀ f, df (fin x) (fin df1) (fin df2) f = df_log_check (fin x) (fin (df1 / 2)) (fin (df2 / 2)) W f := by
    intro f
    have n1 : ¬ df1 < Lib.eps := by linarith
    have n2 : ¬ df2 < Lib.eps := by linarith
    have n3 : ¬ x < 0 := by linarith
    rw [df, if_neg (by simp [f_ok', f_ok, eps, n1, n2]), if_neg (by simpa using n3), if_neg (by simp [hx.ne']), if_neg (by simp),
      if_neg (by simp), fin_half r1, fin_half r2]
  have cb' : OffF u 17 (fSize (df1 / 2) (df2 / 2) w (df1 / df2) - (|Real.log (df1 / df2 / (1 + w) ^ 2)| + 1))
      (Real.log (betaPdf (df1 / 2) (df2 / 2) (w / (1 + w)))) (dbeta_log_compute (W / (1 + W)) (fin (df1 / 2)) (fin (df2 / 2))) := by
    refine cb.mono (by norm_num) ?_
    rw [fSize]
    linarith
  have hfs : 0 ≤ fSize (df1 / 2) (df2 / 2) w (df1 / df2) - (|Real.log (df1 / df2 / (1 + w) ^ 2)| + 1) :=
    (abs_nonneg _).trans cb'.2.1
  rw [hv, hv, df_log_check, if_pos rfl, df_log_check, if_neg (by simp), hdb, hdb, fB]
  constructor
  · rw [Real.log_mul bpos.ne' a0.ne']
    refine ((cb'.add (adj.log a0)).mono (by norm_num) ?_).absAcc
    linarith
  · obtain ⟨b, eb, l, r⟩ := cb'.exp
    rw [Real.exp_log bpos] at l r
    obtain ⟨_, v, ev, t, t1, t2, et⟩ := adj
    have hx' : exp_if (dbeta_log_compute (W / (1 + W)) (fin (df1 / 2)) (fin (df2 / 2))) (!false) = fin b := eb
    have ev' : df_compute_adj (fin x) ((fin (df1 / 2) / fin (df2 / 2)) / (1 + W)) = fin v := ev
    rw [hx', ev']
    obtain ⟨m, em, s, s1, s2, es'⟩ := R.rnd (b * v)
    have g : gam u 17 * (fSize (df1 / 2) (df2 / 2) w (df1 / df2) - (|Real.log (df1 / df2 / (1 + w) ^ 2)| + 1)) ≤
        gam u 21 * fSize (df1 / 2) (df2 / 2) w (df1 / df2) := by
      refine mul_le_mul (gam_mono u0 R.u_lt (by norm_num)) ?_ hfs (gam_nonneg u0 R.u_lt (by norm_num))
      have := abs_nonneg (Real.log (df1 / df2 / (1 + w) ^ 2))
      linarith
    generalize gam u 17 * (fSize (df1 / 2) (df2 / 2) w (df1 / df2) - (|Real.log (df1 / df2 / (1 + w) ^ 2)| + 1)) = E at *
    generalize gam u 21 * fSize (df1 / 2) (df2 / 2) w (df1 / df2) = E' at *
    generalize betaPdf (df1 / 2) (df2 / 2) (w / (1 + w)) = P at *
    generalize df1 / df2 / (1 + w) ^ 2 = A at *
    rw [Real.rpow_one] at s1
    rw [Real.rpow_neg_one] at s2
    have q19 : (1 - u) ^ (19 : ℝ) = (1 - u) ^ 19 := by
      rw [show (19 : ℝ) = ((19 : ℕ) : ℝ) by norm_num, Real.rpow_natCast]
    rw [q19] at t1
    rw [Real.rpow_neg ub.le, q19] at t2
    have k0 : 0 < (1 - u) ^ 19 := by positivity
    have t0 : 0 < t := k0.trans_le t1
    have b0 : 0 < b := lt_of_lt_of_le (by positivity) l
    have i1 : Real.exp (-E') ≤ Real.exp (-E) := Real.exp_le_exp.2 (by linarith)
    have i2 : Real.exp E ≤ Real.exp E' := Real.exp_le_exp.2 g
    refine ⟨m, ?_, ?_, ?_⟩
    · show ofE (Lib.rnd (b * v)) = _
      rw [em, ofE_coe]
    · rw [es', et]
      calc P * A * Real.exp (-E') * (1 - u) ^ 21
          = (P * Real.exp (-E') * (1 - u)) * (A * (1 - u) ^ 19) * (1 - u) := by ring
        _ ≤ (P * Real.exp (-E) * (1 - u)) * (A * t) * s := by gcongr
        _ ≤ b * (A * t) * s := by
            have s0 : 0 ≤ s := ub.le.trans s1
            gcongr
    · rw [es', et]
      have s0 : 0 ≤ s := ub.le.trans s1
      calc b * (A * t) * s ≤ (P * Real.exp E' / (1 - u)) * (A * ((1 - u) ^ 19)⁻¹) * (1 - u)⁻¹ := by
            have : b ≤ P * Real.exp E' / (1 - u) := r.trans (by gcongr)
            gcongr
        _ = P * A * Real.exp E' / (1 - u) ^ 21 := by field_simp

end Stats

/-! ### Instances: 53-bit arithmetic without a bound on the exponent. -/

namespace Stats.ExamplesC49E
open Fl Spec

set_option warn.classDefReducibility false in
attribute [local instance] wideLib
attribute [local instance] wideLib_rel

example := C49_pinvgauss (u := 1 / 2 ^ 53) (mu := 1) (lambda := 3) (x := 2) (by norm_num) (by norm_num) (by norm_num)
  (by rw [gam, show (-(2 : ℝ)) = -((2 : ℕ) : ℝ) by norm_num, Real.rpow_neg (by norm_num), Real.rpow_natCast]; norm_num)
example := C49_pbern (u := 1 / 2 ^ 53) (p := 1 / 3) (by norm_num) (by norm_num) 0
example := C49_pbinom (u := 1 / 2 ^ 53) (p := 1 / 3) (by norm_num) (by norm_num) (n := 5) (k := 2) (by norm_num) (by norm_num)
example := C49_ppois_small (u := 1 / 2 ^ 53) (rate := 3) (by norm_num) (by norm_num) (k := 7) (by norm_num)
example := C49_ppois_large (u := 1 / 2 ^ 53) (rate := 30) (by norm_num) (k := 7) (by norm_num) (Or.inl (by norm_num))
example := C49_df_partial (u := 1 / 2 ^ 53) (df1 := 3) (df2 := 5) (x := 1) (by norm_num) (Lib.eps_le.trans (by norm_num))
  (Lib.eps_le.trans (by norm_num)) ExamplesC49D.rnd_three ExamplesC49D.rnd_five
  (by have := Lib.rnd_half 8 (by norm_num); norm_num at this ⊢; exact this) (by norm_num) (by norm_num)

end Stats.ExamplesC49E
