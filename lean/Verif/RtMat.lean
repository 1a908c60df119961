/-
Model of the matrix helpers of the real-time solver
(/repo/solver/include/solver/rt_optimizer/RtMatrix.hpp) and of `RtModel::reduceColumns`,
`RtModel::appendRowsOfRank` (/repo/solver/include/solver/rt_optimizer/RtModel.h).

Simplifications: `double` is `ℝ`. A matrix is its size and a total function of the indices; entries
outside the size are never part of the value. Eigen's `resize`/`conservativeResize` leave new entries
unspecified: they are taken from an arbitrary function `junk`. The compile-time maximum sizes and the
assertions on them are not modelled (sizes are unbounded). A block assignment
`m.block(a..) = m.block(b..)` is modelled as Eigen executes it: coefficient by coefficient, in
increasing order of the index along which it is shifted.
-/
import Mathlib.Data.Real.Basic
import Mathlib.Analysis.Real.Sqrt
import Mathlib.Data.Matrix.Mul

namespace Verif
namespace Rt

/-- `RtMatrix<..>::d`, RtMatrix.hpp:17-37: dynamic matrix. -/
structure Mat where
  rows : Nat
  cols : Nat
  at' : Nat → Nat → ℝ

/-- `RtVector<..>::d`, RtMatrix.hpp:43-58: dynamic vector. -/
structure Vec where
  size : Nat
  at' : Nat → ℝ

/-- `RtMatrixUtils::resize`, RtMatrix.hpp:133-139 (and Eigen's `resize`): the new content is
unspecified. -/
def Mat.resize (junk : Nat → Nat → ℝ) (r c : Nat) : Mat := ⟨r, c, junk⟩

/-- `RtMatrixUtils::setZero(mat, rows, cols)`, RtMatrix.hpp:153-157. -/
def Mat.setZero (r c : Nat) : Mat := ⟨r, c, fun _ _ => 0⟩

/-- `RtMatrixUtils::conservativeResize`, RtMatrix.hpp:117-124: entries inside both sizes are kept, the
others are unspecified. -/
def Mat.conservativeResize (junk : Nat → Nat → ℝ) (m : Mat) (r c : Nat) : Mat :=
  ⟨r, c, fun i j => if i < m.rows ∧ j < m.cols then m.at' i j else junk i j⟩

/-- `RtVectorUtils::conservativeResize`, RtMatrix.hpp:324-330. -/
def Vec.conservativeResize (junk : Nat → ℝ) (v : Vec) (n : Nat) : Vec :=
  ⟨n, fun i => if i < v.size then v.at' i else junk i⟩

/-- `m.block(r0, c0, r, c) = b` with `b` a different object (Eigen block assignment) (used in RtMatrix.hpp:218-245). -/
def Mat.setBlock (m : Mat) (r0 c0 r c : Nat) (b : Nat → Nat → ℝ) : Mat :=
  { m with at' := fun i j =>
      if r0 ≤ i ∧ i < r0 + r ∧ c0 ≤ j ∧ j < c0 + c then b (i - r0) (j - c0) else m.at' i j }

/-- `v.block(r0, 0, r, 1) = b` with `b` a different object (used in RtMatrix.hpp:396-405). -/
def Vec.setBlock (v : Vec) (r0 r : Nat) (b : Nat → ℝ) : Vec :=
  { v with at' := fun i => if r0 ≤ i ∧ i < r0 + r then b (i - r0) else v.at' i }

/-! ### Appending -/

/-- `RtMatrixUtils::append`, RtMatrix.hpp:217-229. -/
def Mat.append (junk : Nat → Nat → ℝ) (a b : Mat) : Mat :=
  if a.rows = 0 then b
  else (a.conservativeResize junk (a.rows + b.rows) a.cols).setBlock a.rows 0 b.rows b.cols b.at'

/-- `RtMatrixUtils::appendAtColumn`, RtMatrix.hpp:235-246: the added rows are zeroed over all columns,
then the block is written from column `c0` on. -/
def Mat.appendAtColumn (junk : Nat → Nat → ℝ) (a b : Mat) (c0 : Nat) : Mat :=
  let r := if a.rows = 0 then Mat.resize junk (a.rows + b.rows) a.cols
           else a.conservativeResize junk (a.rows + b.rows) a.cols
  (r.setBlock a.rows 0 b.rows r.cols (fun _ _ => 0)).setBlock a.rows c0 b.rows b.cols b.at'

/-- `RtVectorUtils::append`, RtMatrix.hpp:396-405. -/
def Vec.append (junk : Nat → ℝ) (a b : Vec) : Vec :=
  (a.conservativeResize junk (a.size + b.size)).setBlock a.size b.size b.at'

/-- `RtAffineUtils::append(aff_mat, aff_vec, subst_mat)`, RtMatrix.hpp:417-429: a constant part of zeros. -/
def affAppend0 (jm : Nat → Nat → ℝ) (jv : Nat → ℝ) (a : Mat × Vec) (b : Mat) : Mat × Vec :=
  (a.1.append jm b,
   (a.2.conservativeResize jv (a.2.size + b.rows)).setBlock a.2.size b.rows (fun _ => 0))

/-- `RtAffineUtils::append(aff_mat, aff_vec, subst_mat, subst_vec)`, RtMatrix.hpp:431-443. -/
def affAppend (jm : Nat → Nat → ℝ) (jv : Nat → ℝ) (a b : Mat × Vec) : Mat × Vec :=
  let r := affAppend0 jm jv a b.1
  (r.1, r.2.setBlock a.2.size b.1.rows b.2.at')

/-- `RtAffineUtils::appendAtColumn(aff_mat, aff_vec, subst_mat, c0)`, RtMatrix.hpp:449-461. -/
def affAppendAtColumn0 (jm : Nat → Nat → ℝ) (jv : Nat → ℝ) (a : Mat × Vec) (b : Mat) (c0 : Nat) :
    Mat × Vec :=
  (a.1.appendAtColumn jm b c0,
   (a.2.conservativeResize jv (a.2.size + b.rows)).setBlock a.2.size b.rows (fun _ => 0))

/-- `RtAffineUtils::appendAtColumn(.., subst_vec, c0)`, RtMatrix.hpp:463-475. -/
def affAppendAtColumn (jm : Nat → Nat → ℝ) (jv : Nat → ℝ) (a b : Mat × Vec) (c0 : Nat) : Mat × Vec :=
  let r := affAppendAtColumn0 jm jv a b.1 c0
  (r.1, r.2.setBlock a.2.size b.1.rows b.2.at')

/-! ### Removing zero rows -/

/-- `mat.rowwise().squaredNorm()`, RtMatrix.hpp:94,485. -/
noncomputable def Mat.sqNorm (m : Mat) (i : Nat) : ℝ := ∑ j ∈ Finset.range m.cols, m.at' i j ^ 2

/-- `mat.block(i, 0, 1, cols).array().abs().sum()`, RtMatrix.hpp:508,516,525. -/
noncomputable def Mat.absSum (m : Mat) (i : Nat) : ℝ := ∑ j ∈ Finset.range m.cols, |m.at' i j|

/-- The loop of `RtMatrixUtils::createSelectorMat`, RtMatrix.hpp:79-82, at column `col` (`fuel` columns
left) with the row counter `row`; the list collects the writes `selector_mat(row++, col) = 1.0`. `none`
is a write outside the `num_valids` rows of the selector matrix (undefined behaviour). -/
noncomputable def selectorLoop (sel : Nat → ℝ) (thr : ℝ) (numValids : Nat) :
    (fuel col row : Nat) → List Nat → Option (List Nat)
  | 0, _, _, acc => some acc
  | fuel + 1, col, row, acc =>
    if sel col > thr then
      if row < numValids then selectorLoop sel thr numValids fuel (col + 1) (row + 1) (acc ++ [col])
      else none
    else selectorLoop sel thr numValids fuel (col + 1) row acc

/-- `RtMatrixUtils::createSelectorMat`, RtMatrix.hpp:74-83: row `k` of the result has its one in column
`l[k]`; rows `k ≥ l.length` stay zero. -/
noncomputable def createSelectorMat (size : Nat) (sel : Nat → ℝ) (numValids : Nat) (thr : ℝ) :
    Option (List Nat) := selectorLoop sel thr numValids size 0 0 []

/-- The matrix whose non-zero entries `createSelectorMat` recorded (RtMatrix.hpp:75-85). -/
def selectorMat (l : List Nat) (numValids size : Nat) : Mat :=
  ⟨numValids, size, fun k j => if l[k]? = some j then 1 else 0⟩

/-- `selector_mat * mat`, RtMatrix.hpp:106,496. -/
noncomputable def Mat.mul (a b : Mat) : Mat :=
  ⟨a.rows, b.cols, fun i j => ∑ k ∈ Finset.range a.cols, a.at' i k * b.at' k j⟩

/-- `selector_mat * vec`, RtMatrix.hpp:497. -/
noncomputable def Mat.mulVec (a : Mat) (v : Vec) : Vec :=
  ⟨a.rows, fun i => ∑ k ∈ Finset.range a.cols, a.at' i k * v.at' k⟩

/-- The counting loop of `removeZeroRows`, RtMatrix.hpp:96-98 (from row `1`) and 487-490 (from row `0`). -/
noncomputable def countValid (sel : Nat → ℝ) (thr : ℝ) : (fuel row acc : Nat) → Nat
  | 0, _, acc => acc
  | fuel + 1, row, acc => countValid sel thr fuel (row + 1) (if sel row > thr then acc + 1 else acc)

/-- `RtMatrixUtils::removeZeroRows(mat, threshold)`, RtMatrix.hpp:87-108. The counting loop starts at
`row_id = 1`. `none`: write outside the selector matrix. -/
noncomputable def matRemoveZeroRows (junk : Nat → Nat → ℝ) (m : Mat) (threshold : ℝ) : Option Mat :=
  if m.rows = 0 then some m
  else
    let thr := (m.rows : ℝ) * threshold * threshold
    let n := countValid m.sqNorm thr (m.rows - 1) 1 0
    if n = m.rows then some m
    else if n = 0 then some (Mat.resize junk 0 m.cols)
    else (createSelectorMat m.rows m.sqNorm n thr).map fun l => (selectorMat l n m.rows).mul m

/-- `RtAffineUtils::removeZeroRows(mat, vec, threshold)`, RtMatrix.hpp:477-499. -/
noncomputable def affRemoveZeroRowsThr (jm : Nat → Nat → ℝ) (jv : Nat → ℝ) (m : Mat) (v : Vec)
    (threshold : ℝ) : Option (Mat × Vec) :=
  if m.rows = 0 then some (m, v)
  else
    let thr := Real.sqrt (m.rows : ℝ) * threshold * threshold
    let n := countValid m.sqNorm thr m.rows 0 0
    if n = 0 then some (Mat.resize jm 0 m.cols, ⟨0, jv⟩)
    else (createSelectorMat m.rows m.sqNorm n thr).map fun l =>
      ((selectorMat l n m.rows).mul m, (selectorMat l n m.rows).mulVec v)

/-! ### Block-shifting removal -/

/-- A search loop `for (; i < n; ++i) if (p(i)) break;`, RtMatrix.hpp:507-509,515-517,524-526,
RtModel.h:48-51,56-58,66-68: the index at which it stops. -/
def searchFrom (p : Nat → Bool) (n i : Nat) : Nat :=
  if i < n then (if p i then i else searchFrom p n (i + 1)) else i
termination_by n - i

theorem le_searchFrom (p : Nat → Bool) (n i : Nat) : i ≤ searchFrom p n i := by
  fun_induction searchFrom p n i <;> omega

/-- Copying `len` items one position after the other from `src` to `dst` (the block assignments of
RtMatrix.hpp:528-532 and RtModel.h:71-72, whose source and destination may overlap). -/
def shiftCopy {α : Type} (d : Nat → α) (dst src : Nat) : Nat → Nat → α
  | 0 => d
  | len + 1 =>
    let d' := shiftCopy d dst src len
    fun i => if i = dst + len then d' (src + len) else d' i

/-- The `while (true)` loop, RtMatrix.hpp:513-536 and RtModel.h:55-76, on items `d 0, .., d (n-1)`.
`emp`/`ful` are the two tests, evaluated on the data as it is when they run. The result is the data and
the final `first_empty_i`. -/
def compactLoop {α : Type} (emp ful : (Nat → α) → Nat → Bool) (n : Nat) (d : Nat → α)
    (firstEmpty blockStart : Nat) : (Nat → α) × Nat :=
  let bs := searchFrom (ful d) n blockStart
  if h : n ≤ bs then (d, firstEmpty)
  else
    let be := searchFrom (emp d) n (bs + 1)
    have : n - be < n - blockStart := by
      have h1 : blockStart ≤ bs := le_searchFrom _ _ _
      have h2 : bs + 1 ≤ be := le_searchFrom _ _ _
      omega
    compactLoop emp ful n (shiftCopy d firstEmpty bs (be - bs)) (firstEmpty + (be - bs)) be
termination_by n - blockStart

/-- The whole algorithm, RtMatrix.hpp:505-536 / RtModel.h:47-76. -/
def compact {α : Type} (emp ful : (Nat → α) → Nat → Bool) (n : Nat) (d : Nat → α) : (Nat → α) × Nat :=
  let fe := searchFrom (emp d) n 0
  compactLoop emp ful n d fe (fe + 1)

/-- `length_thresh`, RtMatrix.hpp:505. -/
noncomputable def lengthThresh : ℝ := 1e-12

/-- Sum of the absolute values of the first `c` entries of a row (RtMatrix.hpp:87-115). -/
noncomputable def rowAbs (c : Nat) (r : Nat → ℝ) : ℝ := ∑ j ∈ Finset.range c, |r j|

open Classical in
/-- `RtAffineUtils::removeZeroRows(mat, vec)`, RtMatrix.hpp:502-539: an item is a row of `mat` with the
entry of `vec`; both are shifted by the same blocks. -/
noncomputable def affRemoveZeroRows (m : Mat) (v : Vec) : Mat × Vec :=
  let r := compact (α := (Nat → ℝ) × ℝ)
    (fun d i => decide (rowAbs m.cols (d i).1 < lengthThresh))
    (fun d i => decide (rowAbs m.cols (d i).1 > lengthThresh))
    m.rows (fun i => (m.at' i, v.at' i))
  (⟨r.2, m.cols, fun i => (r.1 i).1⟩, ⟨r.2, fun i => (r.1 i).2⟩)

/-- `RtModel::reduceColumns`, RtModel.h:42-78: `idx` is `full_to_opt_variable_index_`; an item is a
column. -/
def reduceColumns (idx : Nat → Int) (nvars : Nat) (m : Mat) : Mat :=
  let r := compact (α := Nat → ℝ) (fun _ i => decide (idx i < 0)) (fun _ i => decide (0 ≤ idx i))
    nvars (fun j i => m.at' i j)
  ⟨m.rows, r.2, fun i j => r.1 j i⟩

/-! ### Rows of one rank -/

/-- The counting loop of `appendRowsOfRank`, RtModel.h:87-90 (and of `addCostsToHierarchy`,
RtModel.h:254-256,281-282). -/
def countRank (ranks : Nat → Int) (rank : Int) : (fuel i acc : Nat) → Nat
  | 0, _, acc => acc
  | fuel + 1, i, acc => countRank ranks rank fuel (i + 1) (if ranks i = rank then acc + 1 else acc)

/-- The copying loop of `appendRowsOfRank`, RtModel.h:112-124. -/
def copyRows (ranks : Nat → Int) (rank : Int) (b : Mat) (bv : Vec) (oldRows c0 : Nat) :
    (fuel i added : Nat) → Mat × Vec → Mat × Vec
  | 0, _, _, a => a
  | fuel + 1, i, added, a =>
    if ranks i = rank then
      copyRows ranks rank b bv oldRows c0 fuel (i + 1) (added + 1)
        (a.1.setBlock (oldRows + added) c0 1 b.cols (fun _ j => b.at' i j),
         a.2.setBlock (oldRows + added) 1 (fun _ => bv.at' i))
    else copyRows ranks rank b bv oldRows c0 fuel (i + 1) added a

/-- `RtModel::appendRowsOfRank`, RtModel.h:80-126, for the pair (matrix, vector) selected by
`append_to_equalities`. -/
def appendRowsOfRank (jm : Nat → Nat → ℝ) (jv : Nat → ℝ) (a : Mat × Vec) (rank : Int) (nranks : Nat)
    (ranks : Nat → Int) (b : Mat) (bv : Vec) (c0 : Nat) : Mat × Vec :=
  let n := countRank ranks rank nranks 0 0
  if n = 0 then a
  else
    let old := a.1.rows
    let m := (a.1.conservativeResize jm (old + n) a.1.cols).setBlock old 0 n a.1.cols (fun _ _ => 0)
    let v := (a.2.conservativeResize jv (old + n)).setBlock old n (fun _ => 0)
    copyRows ranks rank b bv old c0 nranks 0 0 (m, v)

/-! ### Substitution -/

section subst
open Matrix
variable {r n k : Nat}

/-- `RtAffineUtils::substitute(aff_mat, aff_vec, subst_mat, subst_vec)`, RtMatrix.hpp:544-563. -/
def affSubstitute (M : Matrix (Fin r) (Fin n) ℝ) (v : Fin r → ℝ) (S : Matrix (Fin n) (Fin k) ℝ)
    (s : Fin n → ℝ) : Matrix (Fin r) (Fin k) ℝ × (Fin r → ℝ) :=
  let v' := v + M *ᵥ s
  (M * S, v')

/-- `RtQuadraticUtils::addFromNorm`, RtMatrix.hpp:584-601. -/
def addFromNorm (Q : Matrix (Fin n) (Fin n) ℝ) (q : Fin n → ℝ) (M : Matrix (Fin r) (Fin n) ℝ)
    (v : Fin r → ℝ) : Matrix (Fin n) (Fin n) ℝ × (Fin n → ℝ) :=
  (Q + Mᵀ * M, q + Mᵀ *ᵥ v)

/-- `RtQuadraticUtils::addFromWeightedNorm`, RtMatrix.hpp:604-621. -/
def addFromWeightedNorm (Q : Matrix (Fin n) (Fin n) ℝ) (q : Fin n → ℝ) (M : Matrix (Fin r) (Fin n) ℝ)
    (v : Fin r → ℝ) (W : Matrix (Fin r) (Fin r) ℝ) : Matrix (Fin n) (Fin n) ℝ × (Fin n → ℝ) :=
  (Q + Mᵀ * W * M, q + (Mᵀ * W) *ᵥ v)

/-- `RtQuadraticUtils::substitute`, RtMatrix.hpp:623-644: the vector is updated with the old matrix. -/
def quadSubstitute (Q : Matrix (Fin n) (Fin n) ℝ) (q : Fin n → ℝ) (S : Matrix (Fin n) (Fin k) ℝ)
    (s : Fin n → ℝ) : Matrix (Fin k) (Fin k) ℝ × (Fin k → ℝ) :=
  let q1 := q + Q *ᵥ s
  let q2 := Sᵀ *ᵥ q1
  (Sᵀ * Q * S, q2)

end subst

end Rt
end Verif
