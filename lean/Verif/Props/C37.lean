import Verif.Lemmas.MatIdeal
import Verif.Lemmas.LinInst

/-!
# C37: the matrix helpers compute what their names say

The right-hand sides are sums, products and entries of plain real vectors and matrices. Where the code does something
else (`repmat` with several block columns and `cumsum` of a padded column on Blaze, `zeros` on a non-empty std::vector,
the divisor of `var`, the factor `chol` on Blaze) the negation is proved.
-/

set_option linter.unusedSectionVars false
open Classical Matrix
namespace Stats
open Fl MatOps
variable [Lib]

/-! ## cumsum -/

theorem cumsum_loop_spec (m j : ℕ) (hj : 1 ≤ j) (mem : ℕ → Fl) :
    (∀ i, i < j ∨ j + m ≤ i → cumsum_loop m j mem i = mem i) ∧
    (∀ i, j ≤ i → i < j + m → cumsum_loop m j mem i = mem i + cumsum_loop m j mem (i - 1)) := by
  induction m generalizing j mem with
  | zero => exact ⟨fun _ _ => rfl, fun i h1 h2 => by omega⟩
  | succ m ih =>
    obtain ⟨h1, h2⟩ := ih (j + 1) (by omega) (Function.update mem j (mem j + mem (j - 1)))
    rw [cumsum_loop]
    constructor
    · intro i hi
      rw [h1 i (by omega), Function.update_of_ne (by omega)]
    · intro i hi1 hi2
      by_cases hij : i = j
      · subst hij
        rw [h1 i (by omega), h1 (i - 1) (by omega), Function.update_self, Function.update_of_ne (by omega)]
      · rw [h2 i (by omega) (by omega), Function.update_of_ne hij]

/-- In any arithmetic `cumsum` follows the recurrence of partial sums and touches nothing else. -/
theorem C37_cumsum_any (n : ℕ) (mem : ℕ → Fl) :
    cumsum n mem 0 = mem 0 ∧ (∀ j, j + 1 < n → cumsum n mem (j + 1) = mem (j + 1) + cumsum n mem j) ∧
      ∀ j, n ≤ j → cumsum n mem j = mem j := by
  obtain ⟨h1, h2⟩ := cumsum_loop_spec (n - 1) 1 le_rfl mem
  refine ⟨h1 0 (by omega), fun j hj => h2 (j + 1) (by omega) (by omega), fun j hj => ?_⟩
  exact h1 j (by omega)

section ideal
variable [Ideal]

/-- Cumulative sums of `n` contiguous elements (std::vector, Eigen, contiguous Blaze). -/
theorem C37_cumsum (n : ℕ) (x : ℕ → ℝ) (j : ℕ) (hj : j < n) :
    cumsum n (fun i => fin (x i)) j = fin (∑ i ∈ Finset.range (j + 1), x i) := by
  obtain ⟨h0, h1, -⟩ := C37_cumsum_any n (fun i => fin (x i))
  induction j with
  | zero => simpa using h0
  | succ j ih => rw [h1 j hj, ih (by omega), ifin_add, Finset.sum_range_succ _ (j + 1), add_comm]

/-- A Blaze column vector stored contiguously (column major, or row major without padding). -/
theorem C37_cumsum_blaze_partial (X : BlazeMat) (x : ℕ → ℝ) (hc : X.cols = 1)
    (hl : X.colMajor = true ∨ X.spacing = 1) (hx : ∀ i, X.get i 0 = fin (x i)) (j : ℕ) (hj : j < X.rows) :
    (cumsum_blaze X).get j 0 = fin (∑ i ∈ Finset.range (j + 1), x i) := by
  have hm : ∀ i, X.mem i = fin (x i) := by
    intro i
    rw [← hx i, BlazeMat.get]
    rcases hl with h | h
    · simp [h]
    · cases hcm : X.colMajor <;> simp [h]
  have hg : (cumsum_blaze X).get j 0 = cumsum X.rows X.mem j := by
    have e : (cumsum_blaze X).get j 0 = cumsum_loop (X.rows * X.cols - 1) 1 X.mem
        (if X.colMajor then 0 * X.spacing + j else j * X.spacing + 0) := rfl
    rw [e, cumsum, hc, mul_one]
    rcases hl with h | h
    · simp [h]
    · cases hcm : X.colMajor <;> simp [h]
  rw [hg, show X.mem = fun i => fin (x i) from funext hm, C37_cumsum _ _ _ hj]

/-- A row-major Blaze column vector whose rows are padded is not summed: the second entry stays as it was. -/
theorem C37_cumsum_blaze_violated : ∃ X : BlazeMat, X.cols = 1 ∧ X.rows = 2 ∧ X.get 0 0 = fin 1 ∧ X.get 1 0 = fin 1 ∧
    (cumsum_blaze X).get 1 0 = fin 1 := by
  refine ⟨⟨2, 1, false, 4, fun i => if i = 0 ∨ i = 4 then fin 1 else fin 0, by norm_num⟩, rfl, rfl, ?_, ?_, ?_⟩
  · simp [BlazeMat.get]
  · simp [BlazeMat.get]
  · have := (cumsum_loop_spec 1 1 le_rfl (fun i => if i = 0 ∨ i = 4 then fin 1 else fin 0)).1 4 (by omega)
    simp only [BlazeMat.get, cumsum_blaze]
    norm_num
    rw [this]; simp

/-! ## accu, mean, var, sum_absdiff -/

theorem C37_accu (X : List ℝ) : accu (X.map fin) = fin X.sum := accu_fin X

theorem C37_sqaccu (X : List ℝ) : sqaccu (X.map fin) = fin (X.map (· ^ 2)).sum := by
  rw [sqaccu_fin]; congr 3; funext x; ring

theorem C37_mean (X : List ℝ) (h : X ≠ []) : mean (X.map fin) = fin (X.sum / X.length) := by
  have : ((X.length : ℤ) : ℝ) ≠ 0 := by
    have := List.length_pos_iff.2 h
    exact_mod_cast this.ne'
  rw [mean, accu_fin, List.length_map, ofInt_eq, ifin_div _ this]; push_cast; rfl

/-- The mean of no numbers is NaN. -/
theorem C37_mean_nil : mean [] = nan := by
  simp [mean, accu, ideal, fin_div_fin]

theorem sum_sq_dev (X : List ℝ) (m : ℝ) :
    (X.map (fun x => (x - m) ^ 2)).sum = (X.map (fun x => x * x)).sum - 2 * m * X.sum + X.length * m ^ 2 := by
  induction X with
  | nil => simp
  | cons x X ih => simp only [List.map_cons, List.sum_cons, ih, List.length_cons]; push_cast; ring

/-- The variance is the mean squared deviation from the mean, divisor `N` (std::vector, Blaze, Eigen). -/
theorem C37_var (X : List ℝ) (h : X ≠ []) :
    var (X.map fin) = fin ((X.map (fun x => (x - X.sum / X.length) ^ 2)).sum / X.length) := by
  have h0 : (X.length : ℝ) ≠ 0 := by
    have := List.length_pos_iff.2 h
    exact_mod_cast this.ne'
  have h1 : ((X.length : ℤ) : ℝ) ≠ 0 := by exact_mod_cast h0
  simp only [var]
  rw [C37_mean X h, sqaccu_fin, List.length_map, ofInt_eq, ifin_div _ h1, ifin_mul, ifin_sub, sum_sq_dev]
  congr 1
  push_cast
  field_simp
  ring

/-- Hence never negative in exact arithmetic. -/
theorem C37_var_nonneg (X : List ℝ) (h : X ≠ []) : ∃ v, 0 ≤ v ∧ var (X.map fin) = fin v :=
  ⟨_, div_nonneg (List.sum_nonneg (by simp only [List.mem_map]; rintro _ ⟨x, -, rfl⟩; positivity)) (by positivity),
    C37_var X h⟩

/-- With Armadillo the divisor is `N - 1`. -/
theorem C37_var_arma (X : List ℝ) (h : 2 ≤ X.length) :
    var_arma (X.map fin) = fin ((X.map (fun x => (x - X.sum / X.length) ^ 2)).sum / (X.length - 1)) := by
  have hne : X ≠ [] := by rintro rfl; simp at h
  have h1 : (((X.length : ℤ) - 1 : ℤ) : ℝ) ≠ 0 := by
    have : ((X.length : ℤ) - 1) ≠ 0 := by omega
    exact_mod_cast this
  simp only [var_arma]
  rw [List.length_map, if_neg (by omega), C37_mean X hne, List.foldl_map]
  simp only [ideal]
  rw [foldl_add (fun x => (x - X.sum / X.length) * (x - X.sum / X.length)), ifin_div _ h1, zero_add]
  push_cast
  congr 4
  funext x; ring

/-- So the same call returns different numbers with different matrix libraries. -/
theorem C37_var_violated : var ([0, 1].map fin) = fin (1 / 4) ∧ var_arma ([0, 1].map fin) = fin (1 / 2) := by
  rw [C37_var _ (by simp), C37_var_arma _ (by simp)]
  norm_num

theorem sum_absdiff_aux (X Y : List ℝ) (m i : ℕ) (hx : i + m = X.length) (hy : X.length ≤ Y.length) (v : ℝ) :
    sum_absdiff_loop (X.map fin) (Y.map fin) m i (fin v) =
      some (fin (v + ∑ k ∈ Finset.range m, |X.getD (i + k) 0 - Y.getD (i + k) 0|)) := by
  induction m generalizing i v with
  | zero => simp [sum_absdiff_loop]
  | succ m ih =>
    have hi : i < X.length := by omega
    have hi' : i < Y.length := by omega
    rw [sum_absdiff_loop, List.getElem?_map, List.getElem?_map, List.getElem?_eq_getElem hi,
      List.getElem?_eq_getElem hi']
    simp only [Option.map_some, ideal]
    have g1 : X.getD i 0 = X[i] := by simp [List.getD, hi]
    have g2 : Y.getD i 0 = Y[i] := by simp [List.getD, hi']
    rw [ih (i + 1) (by omega), Finset.sum_range_succ', add_zero, g1, g2, add_assoc, add_comm (|_|)]
    simp only [add_assoc, add_comm 1]

/-- Sum of the absolute differences of two vectors of the same length. -/
theorem C37_sum_absdiff {n : ℕ} (x y : Fin n → ℝ) :
    sum_absdiff ((List.ofFn x).map fin) ((List.ofFn y).map fin) = some (fin (∑ i, |x i - y i|)) := by
  rw [sum_absdiff, zero_eq, sum_absdiff_aux _ _ _ 0 (by simp) (by simp), zero_add]
  congr 2
  rw [List.length_map, List.length_ofFn, Finset.sum_range]
  refine Finset.sum_congr rfl fun i _ => ?_
  simp [List.getD]

end ideal

/-- A shorter second argument is read past its end. -/
theorem C37_sum_absdiff_short (X Y : List Fl) (h : Y.length < X.length) : sum_absdiff X Y = none := by
  have key : ∀ (m i : ℕ) (v : Fl), i + m = X.length → i ≤ Y.length → 0 < m →
      sum_absdiff_loop X Y m i v = none := by
    intro m
    induction m with
    | zero => intro i v _ _ h0; omega
    | succ m ih =>
      intro i v hi hy _
      rw [sum_absdiff_loop]
      by_cases hiy : i < Y.length
      · rw [List.getElem?_eq_getElem (by omega : i < X.length), List.getElem?_eq_getElem hiy]
        exact ih (i + 1) _ (by omega) hiy (by omega)
      · rw [List.getElem?_eq_none (by omega : Y.length ≤ i)]
        cases X[i]? <;> rfl
  exact key _ 0 0 (by omega) (by omega) (by omega)

/-! ## exp, log, fill, zeros, eye, get_row, repmat -/

theorem C37_exp (X : List Fl) (i : ℕ) : (MatOps.exp X).length = X.length ∧ (MatOps.exp X)[i]? = X[i]?.map Fl.exp := by
  simp [MatOps.exp]

theorem C37_log (X : List Fl) (i : ℕ) : (MatOps.log X).length = X.length ∧ (MatOps.log X)[i]? = X[i]?.map Fl.log := by
  simp [MatOps.log]

theorem C37_fill (X : List Fl) (v : Fl) : fill X v = List.replicate X.length v := by simp [fill]

/-- `zeros` on an empty std::vector. -/
theorem C37_zeros_partial (n k : ℕ) : zeros [] n k = List.replicate (n * k) 0 := by simp [zeros, vecResize]

/-- The length is always right. -/
theorem C37_zeros_length (X : List Fl) (n k : ℕ) : (zeros X n k).length = n * k := by
  simp [zeros, vecResize]; omega

/-- `zeros` on a non-empty std::vector keeps the old elements. -/
theorem C37_zeros_violated : zeros [fin 1] 1 2 = [fin 1, 0] ∧ zeros [fin 1] 1 2 ≠ List.replicate 2 0 := by
  have h : zeros [fin 1] 1 2 = [fin 1, 0] := by simp [zeros, vecResize]
  refine ⟨h, ?_⟩
  rw [h]; simp

theorem C37_zeros_blaze (n k : ℕ) (X : Grid) (i j : ℕ) (hi : i < n) (hj : j < k) : zeros_blaze n k X i j = 0 := by
  simp [zeros_blaze, hi, hj]

theorem eye_loop_spec (m a : ℕ) (X : Grid) (i j : ℕ) :
    eye_loop m a X i j = if i = j ∧ a ≤ i ∧ i < a + m then 1 else X i j := by
  induction m generalizing a X with
  | zero => rw [eye_loop, if_neg (by omega)]
  | succ m ih =>
    rw [eye_loop, ih]
    by_cases h1 : i = j ∧ a + 1 ≤ i ∧ i < a + 1 + m
    · rw [if_pos h1, if_pos (by omega)]
    · rw [if_neg h1]
      by_cases h2 : i = a
      · subst h2
        rw [Function.update_self]
        by_cases h3 : j = i
        · subst h3; rw [Function.update_self, if_pos (by omega)]
        · rw [Function.update_of_ne h3, if_neg (by omega)]
      · rw [Function.update_of_ne h2, if_neg (by omega)]

/-- The identity matrix, whatever was in the matrix before. -/
theorem C37_eye (n : ℕ) (X : Grid) (i j : ℕ) (hi : i < n) (hj : j < n) :
    eye_blaze n X i j = if i = j then 1 else 0 := by
  rw [eye_blaze, eye_loop_spec]
  by_cases h : i = j
  · rw [if_pos ⟨h, by omega, by omega⟩, if_pos h]
  · rw [if_neg (by omega), if_neg h, C37_zeros_blaze _ _ _ _ _ hi hj]

theorem C37_get_row (X : Grid) (cols i : ℕ) (g : Grid) (c : ℕ) (hc : c < cols) : get_row_blaze X cols i g 0 c = X i c := by
  simp [get_row_blaze, hc]

theorem repmat_rows_spec (X : Grid) (r c m a : ℕ) (out : Grid) (i j : ℕ) :
    repmat_rows X r c m a out i j = if a * r ≤ i ∧ i < (a + m) * r ∧ j < c then X (i % r) j else out i j := by
  induction m generalizing a out with
  | zero => rw [repmat_rows, if_neg (by rw [Nat.add_zero]; omega)]
  | succ m ih =>
    rw [repmat_rows, ih, setBlock]
    have e1 : (a + 1) * r = a * r + r := by ring
    have e2 : (a + 1 + m) * r = a * r + r + m * r := by ring
    have e3 : (a + (m + 1)) * r = a * r + r + m * r := by ring
    rw [e1, e2, e3]
    by_cases h1 : a * r + r ≤ i ∧ i < a * r + r + m * r ∧ j < c
    · rw [if_pos h1, if_pos (by omega)]
    · rw [if_neg h1]
      by_cases h2 : a * r ≤ i ∧ i < a * r + r ∧ 0 ≤ j ∧ j < 0 + c
      · rw [if_pos h2, if_pos ⟨h2.1, by omega, by omega⟩]
        have : i % r = i - a * r := by
          have h3 : i = r * a + (i - a * r) := by rw [mul_comm r a]; omega
          rw [h3, Nat.mul_add_mod, Nat.mod_eq_of_lt (by omega)]
          omega
        rw [this, Nat.sub_zero]
      · rw [if_neg h2, if_neg]
        intro h3
        rcases Nat.lt_or_ge i (a * r + r) with h4 | h4
        · exact h2 ⟨h3.1, h4, by omega, by omega⟩
        · exact h1 ⟨h4, by omega, h3.2.2⟩

/-- `repmat(X, N, 1)`, the only form the library uses, stacks `N` copies of `X`. -/
theorem C37_repmat_partial (X : Grid) (r c N : ℕ) (g : Grid) :
    ∃ out, repmat_blaze X r c N 1 g = some out ∧ ∀ i j, i < r * N → j < c → out i j = X (i % r) j := by
  refine ⟨_, by rw [repmat_blaze, if_neg (by omega)], fun i j hi hj => ?_⟩
  rw [if_neg (lt_irrefl 1), repmat_rows_spec, if_pos ⟨by omega, by rw [zero_add, mul_comm]; exact hi, hj⟩]

theorem repmat_cols_spec (r c N m a : ℕ) (out : Grid) (i j : ℕ) (hi : i < r * N) :
    repmat_cols r c N m a out i j = if a * c ≤ j ∧ j < (a + m) * c then out i (c + j % c) else out i j := by
  induction m generalizing a out with
  | zero => rw [repmat_cols, if_neg (by rw [Nat.add_zero]; omega)]
  | succ m ih =>
    have hmod : ∀ k, k < c → ∀ b, (b * c + k) % c = k := fun k hk b => by
      rw [mul_comm, Nat.mul_add_mod, Nat.mod_eq_of_lt hk]
    have hs : ∀ j', setBlock out 0 (a * c) (r * N) c (block out 0 c) i j' =
        if a * c ≤ j' ∧ j' < a * c + c then out i (c + j' % c) else out i j' := by
      intro j'
      rw [setBlock]
      by_cases h : a * c ≤ j' ∧ j' < a * c + c
      · rw [if_pos (by omega), if_pos h, block]
        have : j' % c = j' - a * c := by
          have h3 : j' = a * c + (j' - a * c) := by omega
          conv_lhs => rw [h3]
          exact hmod _ (by omega) a
        rw [this, Nat.sub_zero, Nat.zero_add]
      · rw [if_neg (by omega), if_neg h]
    have hblk : ∀ k, k < c → setBlock out 0 (a * c) (r * N) c (block out 0 c) i (c + k) = out i (c + k) := by
      intro k hk
      rw [hs]
      have : (c + k) % c = k := by simpa using hmod k hk 1
      rw [this, ite_self]
    rw [repmat_cols, ih]
    have e1 : (a + 1) * c = a * c + c := by ring
    have e2 : (a + 1 + m) * c = a * c + c + m * c := by ring
    have e3 : (a + (m + 1)) * c = a * c + c + m * c := by ring
    rw [e1, e2, e3]
    by_cases h1 : a * c + c ≤ j ∧ j < a * c + c + m * c
    · have hc : 0 < c := by rcases Nat.eq_zero_or_pos c with h0 | h0
                            · subst h0; simp at h1
                            · exact h0
      rw [if_pos h1, if_pos (by omega), hblk _ (Nat.mod_lt _ hc)]
    · rw [if_neg h1, hs]
      by_cases h2 : a * c ≤ j ∧ j < a * c + c
      · rw [if_pos h2, if_pos (by omega)]
      · rw [if_neg h2, if_neg (by omega)]

/-- With two or more block columns Blaze's `repmat` returns uninitialised memory everywhere: no entry of `X` is left. -/
theorem C37_repmat_violated (X : Grid) (r c N K : ℕ) (hK : 2 ≤ K) (g : Grid) :
    ∃ out, repmat_blaze X r c N K g = some out ∧ ∀ i j, i < r * N → j < c * K → out i j = g i (c + j % c) := by
  have hc : ¬ (0 < N ∧ c * K < c) := by
    rintro ⟨-, h⟩
    have := Nat.le_mul_of_pos_right c (by omega : 0 < K)
    omega
  refine ⟨_, by rw [repmat_blaze, if_neg hc], fun i j hi hj => ?_⟩
  rw [if_pos (by omega), repmat_cols_spec _ _ _ _ _ _ _ _ hi,
    if_pos ⟨by omega, by rw [zero_add, mul_comm]; exact hj⟩, repmat_rows_spec, if_neg (by omega)]

/-! ## Linear algebra -/

section linear
variable [Ideal]

theorem C37_trans {m n : ℕ} (A : Mat m n) (i : Fin n) (j : Fin m) : trans A i j = A j i := rfl

theorem C37_trace {n : ℕ} (A : Matrix (Fin n) (Fin n) ℝ) : MatOps.trace (ofReal A) = fin (∑ i, A i i) := trace_real A

variable [LinAlg] [IdealLin]

/-- `x' A⁻¹ x` -/
theorem C37_quad_form_inv (be : Backend) {n : ℕ} (x : Fin n → ℝ) {A : Matrix (Fin n) (Fin n) ℝ} (h : A.det ≠ 0) :
    quad_form be (fun i => fin (x i)) (ofReal A) true = fin (∑ i, x i * ∑ j, A⁻¹ i j * x j) := quad_form_inv be x h

/-- `x' A x` -/
theorem C37_quad_form (be : Backend) {n : ℕ} (x : Fin n → ℝ) (A : Matrix (Fin n) (Fin n) ℝ) :
    quad_form be (fun i => fin (x i)) (ofReal A) false = fin (∑ i, x i * ∑ j, A i j * x j) := quad_form_plain be x A

theorem C37_log_det (be : Backend) {n : ℕ} {M : Matrix (Fin n) (Fin n) ℝ} (h : M.PosDef) :
    log_det be (ofReal M) = fin (Real.log M.det) := log_det_real be h

theorem C37_solve (be : Backend) {n m : ℕ} {A : Matrix (Fin n) (Fin n) ℝ} (B : Matrix (Fin n) (Fin m) ℝ)
    (h : A.det ≠ 0) : ∃ X, solve be (ofReal A) (ofReal B) = ofReal X ∧ A * X = B :=
  ⟨_, solve_real be B h, by rw [← Matrix.mul_assoc, mul_nonsing_inv A (Ne.isUnit h), Matrix.one_mul]⟩

/-- With Armadillo and Eigen `chol` is the lower triangular factor. -/
theorem C37_chol_partial {be : Backend} (hbe : be ≠ .blaze) {n : ℕ} {M : Matrix (Fin n) (Fin n) ℝ} (h : M.PosDef) :
    ∃ L, IsChol M L ∧ chol be (ofReal M) = ofReal L := by
  cases be
  · exact IdealLin.chol M h
  · exact absurd rfl hbe
  · exact IdealLin.chol M h

/-- A correlation matrix with correlation 1/2. -/
noncomputable def corr : Matrix (Fin 2) (Fin 2) ℝ := !![1, 1 / 2; 1 / 2, 1]

theorem corr_posDef : corr.PosDef := by
  refine posDef_iff_dotProduct_mulVec.2 ⟨?_, fun x hx => ?_⟩
  · ext i j; fin_cases i <;> fin_cases j <;> simp [corr]
  · have e : star x ⬝ᵥ corr *ᵥ x = x 0 ^ 2 + x 0 * x 1 + x 1 ^ 2 := by
      simp [corr, dotProduct, Matrix.mulVec, Fin.sum_univ_two]; ring
    rw [e]
    have : x 0 ≠ 0 ∨ x 1 ≠ 0 := by
      by_contra h
      push Not at h
      exact hx (by ext i; fin_cases i <;> simp [h])
    rcases this with h | h
    · nlinarith [sq_nonneg (x 0 + 2 * x 1), sq_pos_of_ne_zero h]
    · nlinarith [sq_nonneg (2 * x 0 + x 1), sq_pos_of_ne_zero h]

/-- With Blaze the strictly upper triangle of the argument stays in the result: it is no Cholesky factor. -/
theorem C37_chol_violated : ∃ Y : Matrix (Fin 2) (Fin 2) ℝ, chol .blaze (ofReal corr) = ofReal Y ∧ Y 0 1 = 1 / 2 ∧
    Y * Yᵀ ≠ corr := by
  obtain ⟨L, hL, e⟩ := IdealLin.chol corr corr_posDef
  refine ⟨Matrix.of fun i j => if j ≤ i then L i j else corr i j, ?_, by simp [corr], ?_⟩
  · funext i j
    simp only [chol, e, ofReal, of_apply]
    split_ifs <;> rfl
  · intro h
    have h00 := congrFun (congrFun hL.mul 0) 0
    have g00 := congrFun (congrFun h 0) 0
    simp [mul_apply, Fin.sum_univ_two, corr] at h00 g00
    have := hL.lower 0 1 (by decide)
    rw [this] at h00
    nlinarith

end linear
end Stats

namespace Stats.ExamplesC37
open Fl MatOps Matrix
open scoped Stats.Exact

example : cumsum 3 (fun i => fin ((i : ℝ) + 1)) 2 = fin 6 := by
  rw [C37_cumsum 3 (fun i => (i : ℝ) + 1) 2 (by norm_num)]
  simp [Finset.sum_range_succ]; norm_num

example : MatOps.mean ([1, 2, 6].map fin) = fin 3 := by rw [C37_mean _ (by simp)]; norm_num
example : MatOps.var ([1, 3].map fin) = fin 1 := by rw [C37_var _ (by simp)]; norm_num
example : sum_absdiff ([1, 2].map fin) ([4, 0].map fin) = some (fin 5) := by
  have := C37_sum_absdiff (![1, 2] : Fin 2 → ℝ) ![4, 0]
  simp only [Fin.sum_univ_two, List.ofFn_succ, List.ofFn_zero] at this
  norm_num at this ⊢
  exact this
example : sum_absdiff [fin 1, fin 2] [fin 1] = none := C37_sum_absdiff_short _ _ (by simp)
example : ∃ out, repmat_blaze (fun _ j => fin j) 1 3 2 1 (fun _ _ => nan) = some out ∧ out 1 2 = fin 2 := by
  obtain ⟨out, h, hx⟩ := C37_repmat_partial (fun _ j => fin j) 1 3 2 (fun _ _ => nan)
  exact ⟨out, h, by rw [hx 1 2 (by norm_num) (by norm_num)]; norm_num⟩
/-- two block columns: NaN everywhere -/
example : ∃ out, repmat_blaze (fun _ j => fin j) 1 1 1 2 (fun _ _ => nan) = some out ∧ out 0 0 = nan := by
  obtain ⟨out, h, hx⟩ := C37_repmat_violated (fun _ j => fin j) 1 1 1 2 le_rfl (fun _ _ => nan)
  exact ⟨out, h, hx 0 0 (by norm_num) (by norm_num)⟩
example (be : Backend) : log_det be (ofReal corr) = fin (Real.log (3 / 4)) := by
  rw [C37_log_det be corr_posDef, corr, det_fin_two_of]; norm_num
example (be : Backend) : quad_form be (fun i => fin ((![1, 1] : Fin 2 → ℝ) i)) (ofReal corr) false = fin 3 := by
  rw [C37_quad_form]; simp [Fin.sum_univ_two, corr]; norm_num
example : ∃ L, IsChol corr L ∧ chol .eigen (ofReal corr) = ofReal L := C37_chol_partial (by simp) corr_posDef
/-- column-major Blaze column -/
example : (cumsum_blaze ⟨2, 1, true, 4, fun i => fin (i + 1), by norm_num⟩).get 1 0 = fin 3 := by
  rw [C37_cumsum_blaze_partial _ (fun i => (i : ℝ) + 1) rfl (.inl rfl) (fun i => by simp [BlazeMat.get]) 1 (by norm_num)]
  simp [Finset.sum_range_succ]; norm_num

end Stats.ExamplesC37
