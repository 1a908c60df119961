/-
Properties C35 and C36: substitution into affine and quadratic expressions, and removal of zero rows
(/repo/solver/include/solver/rt_optimizer/RtMatrix.hpp).
-/
import Verif.RtCompact
import Mathlib.Data.Matrix.Mul
import Mathlib.Tactic.Ring
import Mathlib.Tactic.FinCases
import Mathlib.Tactic.NormNum
import Mathlib.LinearAlgebra.Matrix.Notation

namespace Verif
namespace Rt
open Matrix

/-! ### C35 -/

section c35
variable {r n k : Nat}

/-- Value of the affine expression `M x + v`. -/
def affVal (M : Matrix (Fin r) (Fin n) ℝ) (v : Fin r → ℝ) (x : Fin n → ℝ) : Fin r → ℝ := M *ᵥ x + v

/-- Value of the quadratic objective `x' Q x + 2 q' x` (RtQPSolver.hpp:219-224). -/
def quadVal (Q : Matrix (Fin n) (Fin n) ℝ) (q : Fin n → ℝ) (x : Fin n → ℝ) : ℝ :=
  x ⬝ᵥ (Q *ᵥ x) + 2 * (q ⬝ᵥ x)

/-- C35, affine part: the value of the substituted expression at `y` is the value of the original at
`S y + s`. -/
theorem C35_affine (M : Matrix (Fin r) (Fin n) ℝ) (v : Fin r → ℝ) (S : Matrix (Fin n) (Fin k) ℝ)
    (s : Fin n → ℝ) (y : Fin k → ℝ) :
    affVal (affSubstitute M v S s).1 (affSubstitute M v S s).2 y = affVal M v (S *ᵥ y + s) := by
  simp only [affVal, affSubstitute, mulVec_add, mulVec_mulVec]
  abel

theorem dot_symm_swap {Q : Matrix (Fin n) (Fin n) ℝ} (hQ : Qᵀ = Q) (a b : Fin n → ℝ) :
    a ⬝ᵥ (Q *ᵥ b) = b ⬝ᵥ (Q *ᵥ a) := by
  rw [dotProduct_mulVec, ← mulVec_transpose, hQ, dotProduct_comm]

/-- C35, quadratic part: for a symmetric matrix the substituted objective differs from the original at
`S y + s` by the constant `value at s`. -/
theorem C35_quadratic (Q : Matrix (Fin n) (Fin n) ℝ) (hQ : Qᵀ = Q) (q : Fin n → ℝ)
    (S : Matrix (Fin n) (Fin k) ℝ) (s : Fin n → ℝ) (y : Fin k → ℝ) :
    quadVal (quadSubstitute Q q S s).1 (quadSubstitute Q q S s).2 y + quadVal Q q s =
      quadVal Q q (S *ᵥ y + s) := by
  have h1 : y ⬝ᵥ ((Sᵀ * Q * S) *ᵥ y) = (S *ᵥ y) ⬝ᵥ (Q *ᵥ (S *ᵥ y)) := by
    rw [← mulVec_mulVec, ← mulVec_mulVec, dotProduct_mulVec y Sᵀ, vecMul_transpose]
  have h2 : ∀ w : Fin n → ℝ, (Sᵀ *ᵥ w) ⬝ᵥ y = w ⬝ᵥ (S *ᵥ y) := by
    intro w
    rw [mulVec_transpose, dotProduct_mulVec]
  simp only [quadVal, quadSubstitute, h1, h2, mulVec_add, add_dotProduct, dotProduct_add]
  rw [dot_symm_swap hQ s (S *ᵥ y), dotProduct_comm (Q *ᵥ s)]
  ring

/-- The restriction to symmetric matrices is needed: with `Q = [[0,2],[0,0]]` the substitution
`x = y + (1,0)` changes the objective by more than a constant. -/
theorem C35_quadratic_asymmetric_violated :
    ¬ ∃ c : ℝ, ∀ y : Fin 2 → ℝ,
      quadVal (quadSubstitute !![0, 2; 0, 0] 0 (1 : Matrix (Fin 2) (Fin 2) ℝ) ![1, 0]).1
        (quadSubstitute !![0, 2; 0, 0] 0 (1 : Matrix (Fin 2) (Fin 2) ℝ) ![1, 0]).2 y + c =
      quadVal !![0, 2; 0, 0] 0 ((1 : Matrix (Fin 2) (Fin 2) ℝ) *ᵥ y + ![1, 0]) := by
  rintro ⟨c, h⟩
  have h0 := h ![0, 0]
  have h1 := h ![0, 1]
  simp [quadVal, quadSubstitute, mulVec, dotProduct, Fin.sum_univ_two] at h0 h1
  subst h0
  norm_num at h1

/-- Adding the norm of `M x + v` to an objective adds exactly its squared norm, up to the constant
`|v|^2`. -/
theorem C35_addFromNorm (Q : Matrix (Fin n) (Fin n) ℝ) (q : Fin n → ℝ) (M : Matrix (Fin r) (Fin n) ℝ)
    (v : Fin r → ℝ) (x : Fin n → ℝ) :
    quadVal (addFromNorm Q q M v).1 (addFromNorm Q q M v).2 x + v ⬝ᵥ v =
      quadVal Q q x + affVal M v x ⬝ᵥ affVal M v x := by
  have h1 : x ⬝ᵥ ((Mᵀ * M) *ᵥ x) = (M *ᵥ x) ⬝ᵥ (M *ᵥ x) := by
    rw [← mulVec_mulVec, dotProduct_mulVec x Mᵀ, vecMul_transpose]
  have h2 : (Mᵀ *ᵥ v) ⬝ᵥ x = v ⬝ᵥ (M *ᵥ x) := by
    rw [mulVec_transpose, dotProduct_mulVec]
  simp only [quadVal, affVal, addFromNorm, add_mulVec, add_dotProduct, dotProduct_add, h1, h2]
  rw [dotProduct_comm (M *ᵥ x) v]
  ring

/-- The weighted version, for a symmetric weight. -/
theorem C35_addFromWeightedNorm (Q : Matrix (Fin n) (Fin n) ℝ) (q : Fin n → ℝ)
    (M : Matrix (Fin r) (Fin n) ℝ) (v : Fin r → ℝ) (W : Matrix (Fin r) (Fin r) ℝ) (hW : Wᵀ = W)
    (x : Fin n → ℝ) :
    quadVal (addFromWeightedNorm Q q M v W).1 (addFromWeightedNorm Q q M v W).2 x + v ⬝ᵥ (W *ᵥ v) =
      quadVal Q q x + affVal M v x ⬝ᵥ (W *ᵥ affVal M v x) := by
  have h1 : x ⬝ᵥ ((Mᵀ * W * M) *ᵥ x) = (M *ᵥ x) ⬝ᵥ (W *ᵥ (M *ᵥ x)) := by
    rw [← mulVec_mulVec, ← mulVec_mulVec, dotProduct_mulVec x Mᵀ, vecMul_transpose]
  have h2 : ((Mᵀ * W) *ᵥ v) ⬝ᵥ x = (W *ᵥ v) ⬝ᵥ (M *ᵥ x) := by
    rw [← mulVec_mulVec, mulVec_transpose, dotProduct_mulVec]
  simp only [quadVal, affVal, addFromWeightedNorm, add_mulVec, mulVec_add, add_dotProduct,
    dotProduct_add, h1, h2]
  rw [dot_symm_swap hW v (M *ᵥ x), dotProduct_comm (W *ᵥ v)]
  ring

/-- A non-trivial instance of `C35_quadratic`: a symmetric matrix, a substitution from one to two
variables. -/
example : quadVal (quadSubstitute !![2, 1; 1, 3] ![1, -1] !![1; 2] ![3, 4]).1
    (quadSubstitute !![2, 1; 1, 3] ![1, -1] !![1; 2] ![3, 4]).2 ![5] +
      quadVal !![2, 1; 1, 3] ![1, -1] ![3, 4] =
    quadVal !![2, 1; 1, 3] ![1, -1] (!![1; 2] *ᵥ ![5] + ![3, 4]) :=
  C35_quadratic _ (by ext i j; fin_cases i <;> fin_cases j <;> rfl) _ _ _ _

end c35

/-! ### C36 -/

/-- Row `k` of `b` and entry `k` of `w` are row `L[k]` of `a` and entry `L[k]` of `v`, for all the
indices of `L` and no others. -/
def PicksRows (L : List Nat) (a : Mat) (v : Vec) (b : Mat) (w : Vec) : Prop :=
  b.rows = L.length ∧ w.size = L.length ∧ b.cols = a.cols ∧
    ∀ k (h : k < L.length), w.at' k = v.at' (L[k]) ∧ ∀ j < a.cols, b.at' k j = a.at' (L[k]) j

/-- The absolute sum of row `i` (specification). -/
noncomputable def absLen (m : Mat) (i : Nat) : ℝ := ∑ j ∈ Finset.range m.cols, |m.at' i j|

/-- The squared Euclidean norm of row `i` (specification). -/
noncomputable def sqLen (m : Mat) (i : Nat) : ℝ := ∑ j ∈ Finset.range m.cols, m.at' i j ^ 2

theorem absLen_eq (m : Mat) : absLen m = m.absSum := rfl

theorem sqLen_eq (m : Mat) : sqLen m = m.sqNorm := rfl

/-- C36 for the function the real-time model calls: `removeZeroRows(mat, vec)` keeps, in order, every
row whose absolute sum exceeds `1e-12` and no row whose absolute sum is below `1e-12`, together with
the corresponding constants. -/
theorem C36_block (m : Mat) (v : Vec) :
    ∃ L : List Nat, L.Pairwise (· < ·) ∧ (∀ i ∈ L, i < m.rows) ∧
      (∀ i < m.rows, 1e-12 < absLen m i → i ∈ L) ∧ (∀ i ∈ L, ¬ absLen m i < 1e-12) ∧
      PicksRows L m v (affRemoveZeroRows m v).1 (affRemoveZeroRows m v).2 := by
  classical
  obtain ⟨L, h1, h2, h3, h4, h5, h6⟩ := compact_spec (α := (Nat → ℝ) × ℝ)
    (emp := fun d i => decide (rowAbs m.cols (d i).1 < lengthThresh))
    (ful := fun d i => decide (rowAbs m.cols (d i).1 > lengthThresh))
    (fun d d' i h => by simp only [h]) (fun d d' i h => by simp only [h])
    m.rows (fun i => (m.at' i, v.at' i))
    (fun i _ h => by
      simp only [decide_eq_true_eq, decide_eq_false_iff_not] at h ⊢
      exact not_lt.2 (le_of_lt h))
  refine ⟨L, h1, h2, fun i hi hs => h3 i hi ?_, fun i hi => ?_, ?_, ?_, rfl, fun k hk => ?_⟩
  · simpa [rowAbs, lengthThresh, absLen] using hs
  · simpa [rowAbs, lengthThresh, absLen] using h4 i hi
  · simp only [affRemoveZeroRows]; convert h5
  · simp only [affRemoveZeroRows]; convert h5
  · have h7 := h6 k hk
    simp only [affRemoveZeroRows]
    refine ⟨?_, fun j _ => ?_⟩
    · have := congrArg Prod.snd h7
      convert this
    · have := congrFun (congrArg Prod.fst h7) j
      convert this

/-- Without a row whose absolute sum is exactly the threshold, the kept rows are exactly those above it. -/
theorem C36_block_exact (m : Mat) (v : Vec) (h : ∀ i < m.rows, absLen m i ≠ 1e-12) :
    ∃ L : List Nat, L.Pairwise (· < ·) ∧ (∀ i, i ∈ L ↔ i < m.rows ∧ 1e-12 < absLen m i) ∧
      PicksRows L m v (affRemoveZeroRows m v).1 (affRemoveZeroRows m v).2 := by
  obtain ⟨L, h1, h2, h3, h4, h5⟩ := C36_block m v
  refine ⟨L, h1, fun i => ⟨fun hi => ⟨h2 i hi, ?_⟩, fun hi => h3 i hi.1 hi.2⟩, h5⟩
  exact lt_of_le_of_ne (not_lt.1 (h4 i hi)) (Ne.symm (h i (h2 i hi)))

/-- What a removed row could say: it differs from its constant by at most `1e-12` times the largest
variable. -/
theorem C36_removed_row_bound (m : Mat) (i : Nat) (h : ¬ 1e-12 < absLen m i) (x : Nat → ℝ) (B : ℝ)
    (hx : ∀ j < m.cols, |x j| ≤ B) (hB : 0 ≤ B) :
    |∑ j ∈ Finset.range m.cols, m.at' i j * x j| ≤ 1e-12 * B := by
  calc |∑ j ∈ Finset.range m.cols, m.at' i j * x j|
      ≤ ∑ j ∈ Finset.range m.cols, |m.at' i j * x j| := Finset.abs_sum_le_sum_abs _ _
    _ ≤ ∑ j ∈ Finset.range m.cols, |m.at' i j| * B := by
        apply Finset.sum_le_sum
        intro j hj
        rw [abs_mul]
        exact mul_le_mul_of_nonneg_left (hx j (Finset.mem_range.1 hj)) (abs_nonneg _)
    _ = absLen m i * B := by rw [absLen, Finset.sum_mul]
    _ ≤ 1e-12 * B := mul_le_mul_of_nonneg_right (not_lt.1 h) hB

/-- C36 for columns: `reduceColumns` keeps, in order, exactly the columns of the variables whose index
is not negative. -/
theorem C36_columns (idx : Nat → Int) (nvars : Nat) (m : Mat) :
    ∃ L : List Nat, L.Pairwise (· < ·) ∧ (∀ j, j ∈ L ↔ j < nvars ∧ 0 ≤ idx j) ∧
      (reduceColumns idx nvars m).rows = m.rows ∧ (reduceColumns idx nvars m).cols = L.length ∧
      ∀ k (h : k < L.length), ∀ i < m.rows, (reduceColumns idx nvars m).at' i k = m.at' i (L[k]) := by
  obtain ⟨L, h1, h2, h3, h4, h5, h6⟩ := compact_spec (α := Nat → ℝ)
    (emp := fun _ i => decide (idx i < 0)) (ful := fun _ i => decide (0 ≤ idx i))
    (fun d d' i h => rfl) (fun d d' i h => rfl) nvars (fun j i => m.at' i j)
    (fun i _ h => by
      simp only [decide_eq_true_eq, decide_eq_false_iff_not] at h ⊢
      omega)
  refine ⟨L, h1, fun j => ⟨fun hj => ⟨h2 j hj, ?_⟩, fun hj => h3 j hj.1 (by simpa using hj.2)⟩, rfl,
    h5, fun k hk i _ => congrFun (h6 k hk) i⟩
  simpa using h4 j hj

/-! #### The versions with a selector matrix -/

/-- The indices in `[col, col + fuel)` whose value exceeds the threshold. -/
noncomputable def above (sel : Nat → ℝ) (thr : ℝ) (col fuel : Nat) : List Nat :=
  open Classical in (List.range' col fuel).filter (fun i => decide (thr < sel i))

theorem above_succ (sel : Nat → ℝ) (thr : ℝ) (col fuel : Nat) :
    above sel thr col (fuel + 1) =
      if sel col > thr then col :: above sel thr (col + 1) fuel else above sel thr (col + 1) fuel := by
  classical
  unfold above
  rw [List.range'_succ, List.filter_cons]
  by_cases h : thr < sel col
  · simp [h]
  · simp [h]

theorem countValid_eq (sel : Nat → ℝ) (thr : ℝ) (fuel row acc : Nat) :
    countValid sel thr fuel row acc = acc + (above sel thr row fuel).length := by
  induction fuel generalizing row acc with
  | zero => simp [countValid, above]
  | succ fuel ih =>
    rw [countValid, ih, above_succ]
    split
    · simp; omega
    · simp

theorem selectorLoop_eq (sel : Nat → ℝ) (thr : ℝ) (N : Nat) (fuel col row : Nat) (acc : List Nat) :
    selectorLoop sel thr N fuel col row acc =
      if row + (above sel thr col fuel).length ≤ max N row then some (acc ++ above sel thr col fuel)
      else none := by
  induction fuel generalizing col row acc with
  | zero => simp [selectorLoop, above]
  | succ fuel ih =>
    rw [selectorLoop, above_succ]
    by_cases h : sel col > thr
    · rw [if_pos h, if_pos h]
      by_cases hr : row < N
      · rw [if_pos hr, ih]
        simp only [List.length_cons, List.append_assoc, List.singleton_append]
        congr 1
        · rw [eq_iff_iff]; omega
      · rw [if_neg hr, if_neg (by simp only [List.length_cons]; omega)]
    · rw [if_neg h, if_neg h, ih]

theorem createSelectorMat_eq (size : Nat) (sel : Nat → ℝ) (N : Nat) (thr : ℝ) :
    createSelectorMat size sel N thr =
      if (above sel thr 0 size).length ≤ N then some (above sel thr 0 size) else none := by
  rw [createSelectorMat, selectorLoop_eq]
  simp

theorem selector_sum (L : List Nat) (size k : Nat) (hL : ∀ i ∈ L, i < size) (hk : k < L.length)
    (f : Nat → ℝ) :
    ∑ j ∈ Finset.range size, (if L[k]? = some j then (1 : ℝ) else 0) * f j = f (L[k]) := by
  rw [Finset.sum_eq_single (L[k])]
  · simp [List.getElem?_eq_getElem hk]
  · intro j _ hj
    rw [if_neg]
    · simp
    · rw [List.getElem?_eq_getElem hk]
      simpa using fun h => hj h.symm
  · intro h
    exact absurd (Finset.mem_range.2 (hL _ (List.getElem_mem hk))) h

theorem above_props (sel : Nat → ℝ) (thr : ℝ) (size : Nat) :
    (above sel thr 0 size).Pairwise (· < ·) ∧
      ∀ i, i ∈ above sel thr 0 size ↔ i < size ∧ thr < sel i := by
  classical
  constructor
  · exact List.Pairwise.filter _ List.pairwise_lt_range'
  · intro i
    simp [above]

/-- C36 for `removeZeroRows(mat, vec, threshold)`: it never writes out of range and keeps, in order,
exactly the rows with squared norm above `sqrt(rows) * threshold^2`. -/
theorem C36_threshold (jm : Nat → Nat → ℝ) (jv : Nat → ℝ) (m : Mat) (v : Vec) (hv : v.size = m.rows)
    (threshold : ℝ) :
    ∃ (L : List Nat) (m' : Mat) (v' : Vec), affRemoveZeroRowsThr jm jv m v threshold = some (m', v') ∧
      L.Pairwise (· < ·) ∧
      (∀ i, i ∈ L ↔ i < m.rows ∧ Real.sqrt m.rows * threshold * threshold < sqLen m i) ∧
      PicksRows L m v m' v' := by
  simp only [sqLen_eq]
  obtain ⟨p1, p2⟩ := above_props m.sqNorm (Real.sqrt m.rows * threshold * threshold) m.rows
  rw [affRemoveZeroRowsThr]
  by_cases h0 : m.rows = 0
  · rw [if_pos h0]
    refine ⟨[], m, v, rfl, List.Pairwise.nil, fun i => ?_, ?_, ?_, rfl, fun k hk => ?_⟩
    · simp [h0]
    · simpa using h0
    · simp [hv, h0]
    · simp at hk
  · rw [if_neg h0]
    simp only [countValid_eq, createSelectorMat_eq, Nat.zero_add, le_refl, if_true]
    by_cases hn : (above m.sqNorm (Real.sqrt m.rows * threshold * threshold) 0 m.rows).length = 0
    · rw [if_pos hn]
      refine ⟨_, _, _, rfl, p1, p2, ?_, ?_, rfl, fun k hk => by omega⟩
      · simp [Mat.resize, hn]
      · simp [hn]
    · rw [if_neg hn]
      refine ⟨_, _, _, rfl, p1, p2, rfl, rfl, rfl, fun k hk => ⟨?_, fun j _ => ?_⟩⟩
      · exact selector_sum _ _ k (fun i hi => ((p2 i).1 hi).1) hk v.at'
      · exact selector_sum _ _ k (fun i hi => ((p2 i).1 hi).1) hk (fun i => m.at' i j)

/-- C36 is violated by the matrix-only version, whose counting loop starts at row 1: whenever row 0 and
some other row are above the threshold the selector matrix is written out of range, and when row 0 is
the only row above the threshold it is removed too. -/
theorem C36_matrix_only_violated (junk : Nat → Nat → ℝ) (m : Mat) (threshold : ℝ)
    (h0 : (m.rows : ℝ) * threshold * threshold < sqLen m 0) (hr : 0 < m.rows) :
    (∀ i, 0 < i → i < m.rows → (m.rows : ℝ) * threshold * threshold < sqLen m i →
      matRemoveZeroRows junk m threshold = none) ∧
    ((∀ i, 0 < i → i < m.rows → ¬ (m.rows : ℝ) * threshold * threshold < sqLen m i) →
      ∃ m', matRemoveZeroRows junk m threshold = some m' ∧ m'.rows = 0) := by
  simp only [sqLen_eq] at h0 ⊢
  set T := (m.rows : ℝ) * threshold * threshold with hT
  obtain ⟨q, hq⟩ : ∃ q, m.rows = q + 1 := ⟨m.rows - 1, by omega⟩
  have habove : above m.sqNorm T 0 m.rows = 0 :: above m.sqNorm T 1 q := by
    rw [hq, above_succ, if_pos h0]
  have hmem : ∀ i, i ∈ above m.sqNorm T 1 q ↔ 0 < i ∧ i < m.rows ∧ T < m.sqNorm i := by
    intro i
    classical
    simp only [above, hq, List.mem_filter, List.mem_range'_1, decide_eq_true_eq]
    constructor
    · rintro ⟨⟨h1, h2⟩, h3⟩; exact ⟨by omega, by omega, h3⟩
    · rintro ⟨h1, h2, h3⟩; exact ⟨⟨by omega, by omega⟩, h3⟩
  have hlen : (above m.sqNorm T 1 q).length ≤ q := by
    classical
    unfold above
    exact le_trans (List.length_filter_le _ _) (by simp)
  rw [matRemoveZeroRows, if_neg (by omega)]
  simp only [← hT, countValid_eq, createSelectorMat_eq, Nat.zero_add, habove, List.length_cons]
  have hq' : m.rows - 1 = q := by omega
  rw [hq']
  constructor
  · intro i hi hir hs
    have : (above m.sqNorm T 1 q).length ≠ 0 := by
      intro h
      have := List.length_eq_zero_iff.1 h
      have h2 := (hmem i).2 ⟨hi, hir, hs⟩
      rw [this] at h2
      simp at h2
    rw [if_neg (by omega), if_neg this, if_neg (by omega)]
    rfl
  · intro hno
    have hnil : above m.sqNorm T 1 q = [] := by
      rw [List.eq_nil_iff_forall_not_mem]
      intro i hi
      have := (hmem i).1 hi
      exact hno i this.1 this.2.1 this.2.2
    rw [hnil]
    rw [if_neg (by simp; omega), if_pos (by simp)]
    exact ⟨_, rfl, rfl⟩

/-- What the matrix-only version does when row 0 is negligible: exactly the other rows above the
threshold are kept, in order. -/
theorem C36_matrix_only_partial (junk : Nat → Nat → ℝ) (m : Mat) (threshold : ℝ)
    (h0 : ¬ (m.rows : ℝ) * threshold * threshold < sqLen m 0) :
    ∃ (L : List Nat) (m' : Mat), matRemoveZeroRows junk m threshold = some m' ∧
      L.Pairwise (· < ·) ∧
      (∀ i, i ∈ L ↔ i < m.rows ∧ (m.rows : ℝ) * threshold * threshold < sqLen m i) ∧
      PicksRows L m ⟨m.rows, fun _ => 0⟩ m' ⟨L.length, fun _ => 0⟩ := by
  simp only [sqLen_eq] at h0 ⊢
  set T := (m.rows : ℝ) * threshold * threshold with hT
  obtain ⟨p1, p2⟩ := above_props m.sqNorm T m.rows
  rw [matRemoveZeroRows]
  by_cases hr : m.rows = 0
  · rw [if_pos hr]
    refine ⟨[], m, rfl, List.Pairwise.nil, fun i => by simp [hr], by simpa using hr, rfl, rfl,
      fun k hk => by simp at hk⟩
  · rw [if_neg hr]
    obtain ⟨q, hq⟩ : ∃ q, m.rows = q + 1 := ⟨m.rows - 1, by omega⟩
    have habove : above m.sqNorm T 0 m.rows = above m.sqNorm T 1 q := by
      rw [hq, above_succ, if_neg h0]
    have hlen : (above m.sqNorm T 1 q).length ≤ q := by
      classical
      unfold above
      exact le_trans (List.length_filter_le _ _) (by simp)
    have hq' : m.rows - 1 = q := by omega
    simp only [← hT, countValid_eq, createSelectorMat_eq, Nat.zero_add, habove, hq', le_refl, if_true]
    rw [if_neg (by omega)]
    rw [habove] at p1 p2
    by_cases hn : (above m.sqNorm T 1 q).length = 0
    · rw [if_pos hn]
      exact ⟨_, _, rfl, p1, p2, by simp [Mat.resize, hn], rfl, rfl, fun k hk => by omega⟩
    · rw [if_neg hn]
      refine ⟨_, _, rfl, p1, p2, rfl, rfl, rfl, fun k hk => ⟨rfl, fun j _ => ?_⟩⟩
      exact selector_sum _ _ k (fun i hi => ((p2 i).1 hi).1) hk (fun i => m.at' i j)

/-- A three-row matrix whose middle row is zero: the second row of the result is the third row. -/
noncomputable def exMat : Mat := ⟨3, 2, fun i j => if i = 1 then 0 else (i : ℝ) + j + 1⟩

example : ∀ i < exMat.rows, absLen exMat i ≠ 1e-12 := by
  intro i hi
  have : i = 0 ∨ i = 1 ∨ i = 2 := by simp [exMat] at hi; omega
  rcases this with h | h | h <;> subst h <;>
    norm_num [exMat, absLen, Finset.sum_range_succ, abs_of_nonneg]

example : (exMat.rows : ℝ) * 0.1 * 0.1 < sqLen exMat 0 ∧ 0 < exMat.rows ∧
    (exMat.rows : ℝ) * 0.1 * 0.1 < sqLen exMat 2 := by
  refine ⟨?_, by simp [exMat], ?_⟩ <;>
  norm_num [exMat, sqLen, Finset.sum_range_succ]

/-- A matrix with a negligible first row meets the hypothesis of `C36_matrix_only_partial`. -/
example : ¬ ((2 : ℕ) : ℝ) * 0.1 * 0.1 < sqLen ⟨2, 1, fun i _ => (i : ℝ)⟩ 0 := by
  norm_num [sqLen]

end Rt
end Verif
