/-
Model of the equilibration of the interior-point solver:
/repo/solver/src/solver/optimizer/EqRoutine.cpp:16-90, and of the entry `updateEquilH`,
/repo/solver/src/solver/optimizer/IPSolver.cpp:23-26.

Simplifications: exact reals for `double`; a vector is a function from indices (entries past the end are never read); a
compressed sparse matrix is the list of its columns, each the list of its stored (row, value) pairs in storage order.
-/
import Verif.Cone

namespace Verif
namespace Equil
open Cone

/-- One column of an `Eigen::SparseMatrix<double>`: the stored (row, value) pairs, visited by `InnerIterator` (EqRoutine.cpp:60). -/
abbrev Col := List (Nat × ℝ)

/-- `Eigen::SparseMatrix<double>` (column major) (Cone.hpp:389-390). -/
abbrev Sp := List Col

/-- `nonZeros()`: the number of stored entries, EqRoutine.cpp:35. -/
def nnz (M : Sp) : Nat := (M.map List.length).sum

/-- The parts of `SolverStorage` the routine works on: `Amatrix()`, `Gmatrix()` and `cbh()`
(/repo/solver/include/solver/interface/Cone.hpp, `SolverStorage`) (Cone.hpp:380-437). -/
structure Storage where
  A : Sp
  G : Sp
  cbh : Nat → ℝ

/-- `eig_col.cwiseAbs().maxCoeff()` of a nonempty column, EqRoutine.cpp:58. -/
noncomputable def maxAbs (col : Col) : ℝ := col.foldl (fun m e => max m |e.2|) 0

/-- The body of the loop over columns in `maxRowsCols`, EqRoutine.cpp:56-62; `ro`, `co` are the offsets of the pointers
`row_vec`, `col_vec` into the vector `e`. -/
noncomputable def maxCol (ro co : Nat) (e : Nat → ℝ) (j : Nat) (col : Col) : Nat → ℝ :=
  if col.length > 0 then
    col.foldl (fun e t => Function.update e (ro + t.1) (max |t.2| (e (ro + t.1)))) (Function.update e (co + j) (maxAbs col))
  else e

/-- `maxRowsCols`, EqRoutine.cpp:52-63. -/
noncomputable def maxRowsCols (ro co : Nat) (M : Sp) (e : Nat → ℝ) : Nat → ℝ :=
  M.zipIdx.foldl (fun e cj => maxCol ro co e cj.2 cj.1) e

/-- Line 39: `equil_tmp.zSoc(i).setConstant(equil_tmp.zSoc(i).sum())`, cone after cone (`zSoc(i)` starts at
`optStartSoc(i)`, Cone.hpp:214). -/
noncomputable def sumSocs (c : Cone) (e : Nat → ℝ) : Nat → ℝ :=
  (List.range c.nsoc).foldl (fun e i =>
    wr (c.optStartSoc i) (c.sizeSoc i) (fun _ => ∑ j ∈ Finset.range (c.sizeSoc i), e (c.optStartSoc i + j)) e) e

/-- Line 40, one entry: `fabs(e) < 1e-6 ? 1.0 : sqrt(e)`. -/
noncomputable def rootOrOne (v : ℝ) : ℝ := if |v| < 1e-6 then 1 else Real.sqrt v

/-- `equilibrateRowsCols`, EqRoutine.cpp:65-70. -/
noncomputable def equilibrate (ro co : Nat) (e : Nat → ℝ) (M : Sp) : Sp :=
  M.mapIdx (fun j col => col.map (fun t => (t.1, t.2 / (e (co + j) * e (ro + t.1)))))

/-- `unequilibrateRowsCols`, EqRoutine.cpp:79-84. -/
noncomputable def unequilibrate (ro co : Nat) (e : Nat → ℝ) (M : Sp) : Sp :=
  M.mapIdx (fun j col => col.map (fun t => (t.1, t.2 * (e (ro + t.1) * e (co + j)))))

/-- The scaling vector of one round, EqRoutine.cpp:32-40. -/
noncomputable def roundVec (c : Cone) (S : Storage) : Nat → ℝ :=
  let e0 : Nat → ℝ := fun _ => 0
  let e1 := if nnz S.A > 0 then maxRowsCols c.nvars 0 S.A e0 else e0
  let e2 := if nnz S.G > 0 then maxRowsCols c.lpconestart 0 S.G e1 else e1
  let e3 := sumSocs c e2
  wr 0 c.sizeproblem (fun i => rootOrOne (e3 i)) e3

/-- One pass of the loop, EqRoutine.cpp:31-48; the state is (storage, `equil_vec_`). -/
noncomputable def round (c : Cone) (st : Storage × (Nat → ℝ)) : Storage × (Nat → ℝ) :=
  let e := roundVec c st.1
  let A := if nnz st.1.A > 0 then equilibrate c.nvars 0 e st.1.A else st.1.A
  let G := if nnz st.1.G > 0 then equilibrate c.lpconestart 0 e st.1.G else st.1.G
  (⟨A, G, st.1.cbh⟩, fun i => st.2 i * e i)

/-- `for (int iter=0; iter<EquilibrationIters; iter++)`, EqRoutine.cpp:31. -/
noncomputable def rounds (c : Cone) : Nat → Storage × (Nat → ℝ) → Storage × (Nat → ℝ)
  | 0, st => st
  | n + 1, st => rounds c n (round c st)

/-- `ruizEquilibration` (and `setEquilibration`), EqRoutine.cpp:16-50: the new storage and `equil_vec_`. -/
noncomputable def setEquilibration (c : Cone) (iters : Nat) (S : Storage) : Storage × (Nat → ℝ) :=
  let r := rounds c iters (S, fun _ => 1)
  (⟨r.1.A, r.1.G, fun k => if k < c.sizeproblem then r.1.cbh k / r.2 k else r.1.cbh k⟩, r.2)

/-- `unsetEquilibration`, EqRoutine.cpp:72-77. -/
noncomputable def unsetEquilibration (c : Cone) (e : Nat → ℝ) (S : Storage) : Storage :=
  ⟨if nnz S.A > 0 then unequilibrate c.nvars 0 e S.A else S.A,
   if nnz S.G > 0 then unequilibrate c.lpconestart 0 e S.G else S.G,
   fun k => if k < c.sizeproblem then S.cbh k * e k else S.cbh k⟩

/-- `scaleVariables`, EqRoutine.cpp:86-90 on the vector of an `OptimizationVector`. -/
noncomputable def scaleVariables (c : Cone) (e o : Nat → ℝ) : Nat → ℝ :=
  let tau := o c.vTau.start
  let o1 := wr 0 c.sizeproblem (fun k => o k / (e k * tau)) o
  wr c.vS.start c.vS.len (fun k => o1 (c.vS.start + k) * (e (c.lpconestart + k) / tau)) o1

/-- `updateEquilH(id, value)`, IPSolver.cpp:23-26: entry `id` of `h`. -/
noncomputable def updateEquilH (c : Cone) (e : Nat → ℝ) (S : Storage) (id : Nat) (v : ℝ) : Storage :=
  { S with cbh := Function.update S.cbh (c.lpconestart + id) (v / e (c.lpconestart + id)) }

end Equil
end Verif
