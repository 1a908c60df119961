/-
Model of the hierarchical quadratic-program solver of the real-time optimizer,
`rt_solver::RtHQPSolver` (/repo/solver/include/solver/rt_optimizer/RtHQPSolver.h, RtHQPSolver.hpp):
`reset`, `solveNextTask`, the body of `doSVDComputations`, `computeNullspaceMap` and `checkSolution`.

Simplifications: `double` is `ℝ`; matrices and vectors are those of `Verif.RtMat` (unbounded sizes, a
total function of the indices). The SVD thread runs between the handing over of `B_Nprev_` and the update
of the solution (that this is what the locking enforces is C34, `Verif.HQPThread`), so its body is
executed in sequence here. Eigen's `JacobiSVD`, the matrix inverse and the QP solver enter as external
functions (`Ext`); `Verif.RtQP` models the QP solver itself and `RtHqpProps` composes the two. Timing
and printing are dropped. Accesses out of the range of an array set the flag `oob`.
-/
import Verif.RtModel
import Verif.RtQP

namespace Verif
namespace RtHqp

open Rt

/-- `num_max_ranks_`, RtHQPSolver.hpp:23. -/
def numMaxRanks : Nat := 7

/-- The parameters `ineq_relax`, `hsol_max_eq_cond`, `psd_hessian_diag` read by the constructor,
RtHQPSolver.h:26-28. -/
structure Params where
  relax : ℝ
  thr : ℝ
  diag : ℝ

/-- The default parameters, RtHQPSolver.h:26-28. -/
noncomputable def defaults : Params := ⟨1 / 10 ^ 6, 10 ^ 8, 1 / 10 ^ 8⟩

/-- The part of Eigen's `JacobiSVD` that is used: `singularValues()` and `matrixV()` (RtHQPSolver.h:64). -/
structure Svd where
  sv : Nat → ℝ
  V : Nat → Nat → ℝ

/-- `M v` (Eigen's matrix-vector product) (RtHQPSolver.h:112-256). -/
noncomputable def mulV (m : Mat) (v : Nat → ℝ) (i : Nat) : ℝ := ∑ k ∈ Finset.range m.cols, m.at' i k * v k

/-- `A B` (Eigen's matrix product) (RtHQPSolver.h:112-256). -/
noncomputable def mul (a b : Mat) : Mat :=
  ⟨a.rows, b.cols, fun i j => ∑ k ∈ Finset.range a.cols, a.at' i k * b.at' k j⟩

/-- `RtMatrixUtils::setIdentity(mat, rows)`, RtMatrix.hpp:209-213. -/
noncomputable def ident (n : Nat) : Mat := ⟨n, n, fun i j => if i = j then 1 else 0⟩

/-- The loop that determines `dim_range` in `computeNullspaceMap`, RtMatrix.hpp:293-298; `size` is
`singularValues().size()`. -/
noncomputable def dimRange (thr : ℝ) (sv : Nat → ℝ) (size : Nat) : Nat :=
  searchFrom (fun i => decide (sv i ≤ 0) || decide (sv 0 / sv i > thr)) size 0

/-- `RtMatrixUtils::computeNullspaceMap`, RtMatrix.hpp:288-313: the last `cols - dim_range` columns of
`V`. -/
noncomputable def nullspaceMap (thr : ℝ) (mat : Mat) (s : Svd) : Mat :=
  let r := dimRange thr s.sv (min mat.rows mat.cols)
  ⟨mat.cols, mat.cols - r, fun i j => s.V i (r + j)⟩

/-- The members of `RtHQPSolver`, RtHQPSolver.hpp:59-84. -/
structure State where
  curRank : Nat
  slacks : Bool
  K : Mat
  B : Mat
  N : Mat
  A : Mat
  a : Vec
  z : Vec
  w : Vec
  x : Vec
  prevK : Nat → Option Mat
  oob : Bool

/-- A task of the hierarchy, the arguments of `solveNextTask`, RtHQPSolver.h:112-114. -/
structure Task where
  eq : Aff
  ineq : Aff

/-- The problem handed to the QP solver through `qp_solver_interface_` (it has no equalities) (RtQPSolverInterface.hpp:22-60). -/
structure Qp where
  H : Mat
  g : Vec
  CI : Mat
  ci : Vec

/-- The external functions: `svd` is `JacobiSVD::compute`, `qp` is `optimize()` of the QP solver (`none`:
`isOptimized()` is false afterwards), `inv` is Eigen's `inverse()`. `jm`, `jv` are the unspecified entries
of resized matrices and vectors (RtHQPSolver.h:64, 212-217). -/
structure Ext where
  svd : Mat → Svd
  qp : Qp → Option (Nat → ℝ)
  inv : Mat → Mat
  jm : Nat → Nat → ℝ
  jv : Nat → ℝ

/-- `reset(num_vars)`, RtHQPSolver.h:91-107. -/
noncomputable def State.reset (E : Ext) (n : Nat) (s : State) : State :=
  { s with
    curRank := 0
    K := ident n
    B := Mat.resize E.jm 0 n
    a := ⟨0, E.jv⟩
    z := ⟨0, E.jv⟩
    w := ⟨0, E.jv⟩
    x := ⟨n, fun _ => 0⟩
    A := Mat.resize E.jm 0 n
    N := ident n }

/-- `if(M.cols() == K_.rows()) { M *= K_; }`, RtHQPSolver.h:132 (for `Nprev_`) and 165 (for `Ahat_`). -/
noncomputable def mulIfFits (m k : Mat) : Mat := if m.cols = k.rows then mul m k else m

/-- The first update of `ahat_`, RtHQPSolver.h:141-153. -/
noncomputable def updA1 (P : Params) (s : State) : Vec :=
  if s.a.size ≠ 0 then
    let b := fun i => s.a.at' i + mulV s.A s.z.at' i
    let c := fun i => if b i ≥ -P.relax then -P.relax else b i
    if s.w.size ≠ 0 then
      ⟨s.a.size, fun i => if s.a.size - s.w.size ≤ i ∧ i < s.a.size then
        c i + s.w.at' (i - (s.a.size - s.w.size)) else c i⟩
    else ⟨s.a.size, c⟩
  else s.a

/-- The updates before the QP is set up, RtHQPSolver.h:131-166 and 180: `Nprev_`, `ahat_`, `Ahat_`,
`B_Nprev_`. A product with factors of different sizes or a segment longer than the vector is out of
range. -/
noncomputable def prepare (E : Ext) (P : Params) (t : Task) (s : State) : State :=
  let N := mulIfFits s.N s.K
  let a1 := updA1 P s
  let a2 := if t.ineq.1.rows ≠ 0 then
      a1.append E.jv ⟨t.ineq.1.rows, fun i => mulV t.ineq.1 s.x.at' i + t.ineq.2.at' i⟩
    else a1
  let A1 := mulIfFits s.A s.K
  let A2 := if t.ineq.1.rows ≠ 0 then A1.append E.jm (mul t.ineq.1 N) else A1
  { s with
    N := N
    a := a2
    A := A2
    B := if t.eq.1.rows ≠ 0 then mul t.eq.1 N else s.B
    oob := s.oob || (decide (s.a.size ≠ 0) && decide (s.A.cols ≠ s.z.size ∨ s.a.size < s.w.size))
      || (decide (t.ineq.1.rows ≠ 0) && decide (A1.rows ≠ 0 ∧ A1.cols ≠ N.cols)) }

/-- The number of variables of the QP, RtHQPSolver.h:133-134 and 173-174. `s` is the state after
`prepare` here and in the next definitions. -/
def qpDim (t : Task) (s : State) : Nat := if s.slacks then s.N.cols + t.ineq.1.rows else s.N.cols

/-- `objectiveQuadPart()`, RtHQPSolver.h:173-184, 192-195: zero, plus `B_Nprev_' B_Nprev_` in the top left
corner (`addFromNorm`, RtMatrix.hpp:584-601), the identity for the slacks, and the diagonal addition. -/
noncomputable def buildH (P : Params) (t : Task) (s : State) : Mat :=
  let dz := s.N.cols
  let dw := t.ineq.1.rows
  let H0 := Mat.setZero (qpDim t s) (qpDim t s)
  let H1 := if t.eq.1.rows ≠ 0 then
      H0.setBlock 0 0 dz dz (fun i j => H0.at' i j +
        ∑ k ∈ Finset.range s.B.rows, s.B.at' k i * s.B.at' k j)
    else H0
  let H2 := if dw ≠ 0 ∧ s.slacks then
      H1.setBlock dz dz dw dw (fun i j => if i = j then 1 else 0) else H1
  { H2 with at' := fun i j => if i = j then H2.at' i j + P.diag else H2.at' i j }

/-- `objectiveLinPart()`, RtHQPSolver.h:173-184: zero, plus `B_Nprev_' (eq_vec + eq_mat * xopt_)`. -/
noncomputable def buildG (t : Task) (s : State) : Vec :=
  let g0 : Vec := ⟨qpDim t s, fun _ => 0⟩
  if t.eq.1.rows ≠ 0 then
      g0.setBlock 0 s.N.cols (fun i => g0.at' i +
        ∑ k ∈ Finset.range s.B.rows, s.B.at' k i * (t.eq.2.at' k + mulV t.eq.1 s.x.at' k))
    else g0

/-- `ineq_mat_slack`, RtHQPSolver.h:201-204. -/
noncomputable def slackMat (t : Task) (s : State) : Mat :=
  let dz := s.N.cols
  let dw := t.ineq.1.rows
  let m0 := Mat.setZero s.A.rows (dz + dw)
  let m1 := m0.setBlock 0 0 s.A.rows dz s.A.at'
  m1.setBlock (s.A.rows - dw) (dz + dw - dw) dw dw (fun i j => if i = j then 1 else 0)

/-- `ineqConstraintsMat()` and `ineqConstraintsVec()`, RtHQPSolver.h:197-209. -/
noncomputable def buildIneq (E : Ext) (t : Task) (s : State) : Aff :=
  let c0 : Aff := (Mat.setZero 0 (qpDim t s), ⟨0, fun _ => 0⟩)
  if s.A.rows ≠ 0 then
    if s.slacks then affAppendAtColumn E.jm E.jv c0 (slackMat t s, s.a) 0
    else affAppendAtColumn E.jm E.jv c0 (s.A, s.a) 0
  else c0

/-- The QP set up from the prepared state, RtHQPSolver.h:172-209. -/
noncomputable def build (E : Ext) (P : Params) (t : Task) (s : State) : Qp :=
  ⟨buildH P t s, buildG t s, (buildIneq E t s).1, (buildIneq E t s).2⟩

/-- One pass of `doSVDComputations`, RtHQPSolver.h:63-68. Reading `singularValues()[0]` of a matrix
without columns and writing `prev_K_` beyond its end are out of range. -/
noncomputable def svdStep (E : Ext) (P : Params) (s : State) : State :=
  if s.B.rows ≠ 0 then
    let K := nullspaceMap P.thr s.B (E.svd s.B)
    { s with
      K := K
      prevK := fun i => if i = s.curRank then some K else s.prevK i
      curRank := s.curRank + 1
      oob := s.oob || decide (s.B.cols = 0) || decide (numMaxRanks ≤ s.curRank) }
  else { s with curRank := s.curRank + 1 }

/-- The matrix `eq_mat eq_mat'`, RtHQPSolver.h:240. -/
noncomputable def eqGram (m : Mat) : Mat :=
  ⟨m.rows, m.rows, fun i j => ∑ k ∈ Finset.range m.cols, m.at' i k * m.at' j k⟩

/-- The update of the solution, RtHQPSolver.h:237-253: `zopt_`, `xopt_`, `wopt_`. `r` is the outcome of
the QP solver (`none`: not optimized). -/
noncomputable def finish (E : Ext) (t : Task) (r : Option (Nat → ℝ)) (s : State) : State :=
  let dz := s.N.cols
  let dw := t.ineq.1.rows
  let z : Vec :=
    if !s.slacks then
      ⟨t.eq.1.cols, fun i => -∑ k ∈ Finset.range t.eq.1.rows,
        t.eq.1.at' k i * mulV (E.inv (eqGram t.eq.1)) t.eq.2.at' k⟩
    else match r with
      | some y => ⟨dz, y⟩
      | none => ⟨dz, fun _ => 0⟩
  let w : Vec :=
    if dw ≠ 0 then
      match (if s.slacks then r else none) with
      | some y => ⟨dw, fun i => y (dz + i)⟩
      | none => ⟨dw, fun _ => 0⟩
    else s.w
  { s with
    z := z
    x := ⟨s.x.size, fun i => s.x.at' i + mulV s.N z.at' i⟩
    w := w
    oob := s.oob || decide (s.N.cols ≠ z.size) }

/-- The early returns of `solveNextTask`, RtHQPSolver.h:123 and 129. -/
def skips (t : Task) (s : State) : Bool :=
  (decide (t.eq.1.rows = 0) && decide (t.ineq.1.rows = 0)) ||
    (decide (s.K.cols = 0) && decide (t.ineq.1.rows = 0))

/-- The QP solved for task `t` in state `s` (RtHQPSolver.h:168-209). -/
noncomputable def qpOf (E : Ext) (P : Params) (t : Task) (s : State) : Qp := build E P t (prepare E P t s)

/-- The outcome of the QP: only run with slacks (RtHQPSolver.h:212-216); `isOptimized()` is false after
`reset` (RtQPSolver.hpp:52-57) and stays so for a problem without variables (RtQPSolver.hpp:31). -/
noncomputable def outcome (E : Ext) (P : Params) (t : Task) (s : State) : Option (Nat → ℝ) :=
  if s.slacks then
    if (qpOf E P t s).H.rows = 0 then none else E.qp (qpOf E P t s)
  else none

/-- `solveNextTask`, RtHQPSolver.h:109-256: the new state and the returned flag. -/
noncomputable def solveNextTask (E : Ext) (P : Params) (t : Task) (s : State) : State × Bool :=
  if skips t s then (s, true)
  else
    (finish E t (outcome E P t s) (svdStep E P (prepare E P t s)),
      (outcome E P t s).isSome || !s.slacks)

/-- A sequence of calls of `solveNextTask` (RtModel.h:139-212). -/
noncomputable def solveAll (E : Ext) (P : Params) (s : State) (ts : List Task) : State :=
  ts.foldl (fun s t => (solveNextTask E P t s).1) s

/-- `checkSolution`, RtQPSolverInterface.hpp:169-190, for a problem without equalities: the norm of the
positive parts is at most the threshold. -/
noncomputable def checkSolution (q : Qp) (sol : Nat → ℝ) (thr : ℝ) : Bool :=
  let d := fun i => mulV q.CI sol i + q.ci.at' i
  let d' := fun i => d i * (if d i ≤ 0 then 0 else 1)
  decide (Real.sqrt (∑ i ∈ Finset.range q.CI.rows, d' i * d' i) ≤ thr)

end RtHqp
end Verif
