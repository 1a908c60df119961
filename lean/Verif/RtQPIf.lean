/-
Model of the base class of the real-time QP solvers, `rt_solver::RtQPSolverInterface`
(/repo/solver/include/solver/rt_optimizer/RtQPSolverInterface.hpp): assembling a problem, `checkSolution`
and `computeOptimalityCondition`; and of `RtMatrixUtils::computeSigmaPinv`, `conditionNumberFromSvd`
(/repo/solver/include/solver/rt_optimizer/RtMatrix.hpp).

Simplifications: as in `RtMat.lean` (`double` is `ℝ`; a matrix is its size and a total function; the
compile-time maximum sizes are not modelled, except the size `N = max_dim_qp` used by `reset()`). Eigen's
`jacobiSvd(..).solve` is external: its result enters as a function of the right-hand side, about which the
theorems assume only that it minimises the residual.
-/
import Verif.RtModel
import Verif.RtHqp

namespace Verif
namespace RtQPIf

open Rt RtHqp

/-- The members of `RtQPSolverInterface`, RtQPSolverInterface.hpp:22-38. -/
structure Qpi where
  props : Nat
  g : Vec
  sol : Vec
  H : Mat
  eq : Aff
  ineq : Aff

/-- `reset()`, RtQPSolverInterface.hpp:104-116; `N` is `max_dim_qp`. Every member is overwritten. -/
def reset (N : Nat) (_q : Qpi) : Qpi :=
  { props := 0, g := ⟨N, fun _ => 0⟩, sol := ⟨N, fun _ => 0⟩, H := Mat.setZero N N
    eq := (Mat.setZero 0 N, ⟨0, fun _ => 0⟩), ineq := (Mat.setZero 0 N, ⟨0, fun _ => 0⟩) }

/-- `reset(dim_qp, num_eq, num_ineq)`, RtQPSolverInterface.hpp:118-128; the last two arguments are not
used. -/
def resetDim (dim _numEq _numIneq : Nat) (_q : Qpi) : Qpi :=
  { props := 0, g := ⟨dim, fun _ => 0⟩, sol := ⟨dim, fun _ => 0⟩, H := Mat.setZero dim dim
    eq := (Mat.setZero 0 dim, ⟨0, fun _ => 0⟩), ineq := (Mat.setZero 0 dim, ⟨0, fun _ => 0⟩) }

/-- `appendEqualities`, `appendInequalities`, RtQPSolverInterface.hpp:75-98: with a vector (`some`) or
without (`none`). -/
inductive Call
  | eq (m : Mat) (v : Option Vec)
  | ineq (m : Mat) (v : Option Vec)

/-- One `append` of RtMatrix.hpp:417-443, with the memory handed out by the resizes. -/
def appendAff (jm : Nat → Nat → ℝ) (jv : Nat → ℝ) (a : Aff) (m : Mat) : Option Vec → Aff
  | none => affAppend0 jm jv a m
  | some v => affAppend jm jv a (m, v)

/-- Effect of a call, RtQPSolverInterface.hpp:75-98. -/
def Call.run (jm : Nat → Nat → ℝ) (jv : Nat → ℝ) (q : Qpi) : Call → Qpi
  | .eq m v => { q with eq := appendAff jm jv q.eq m v }
  | .ineq m v => { q with ineq := appendAff jm jv q.ineq m v }

/-- A sequence of calls; `jm k`, `jv k` is the memory handed out in the `k`-th call
(RtQPSolverInterface.hpp:75-98). -/
def build (jm : Nat → Nat → Nat → ℝ) (jv : Nat → Nat → ℝ) : Qpi → Nat → List Call → Qpi
  | q, _, [] => q
  | q, k, c :: cs => build jm jv (c.run (jm k) (jv k) q) (k + 1) cs

/-- `mat * solution() + vec`, RtQPSolverInterface.hpp:138,143,171,172. -/
noncomputable def affVal (a : Aff) (x : Nat → ℝ) (i : Nat) : ℝ :=
  ∑ j ∈ Finset.range a.1.cols, a.1.at' i j * x j + a.2.at' i

/-- `norm()` of a vector of length `n`, RtQPSolverInterface.hpp:171,175. -/
noncomputable def norm2 (n : Nat) (v : Nat → ℝ) : ℝ := Real.sqrt (∑ i ∈ Finset.range n, v i * v i)

open Classical in
/-- `ineq_dist` after the loop, RtQPSolverInterface.hpp:172-174. -/
noncomputable def ineqDist (q : Qpi) (i : Nat) : ℝ :=
  let d := affVal q.ineq q.sol.at' i
  d * (if d ≤ 0 then 0 else 1)

open Classical in
/-- `is_sol_valid`, the result of `checkSolution`, RtQPSolverInterface.hpp:171-177,189. -/
noncomputable def checkSolution (q : Qpi) (eqThr ineqThr : ℝ) : Bool :=
  decide (norm2 q.eq.1.rows (affVal q.eq q.sol.at') ≤ eqThr ∧ norm2 q.ineq.1.rows (ineqDist q) ≤ ineqThr)

/-- The report printed by `checkSolution`, RtQPSolverInterface.hpp:179-188: objective value, equality and
inequality distance; `none` when nothing is printed. -/
noncomputable def report (q : Qpi) (isOpt print : Bool) (eqThr ineqThr : ℝ) : Option (ℝ × ℝ × ℝ) :=
  if print || (!checkSolution q eqThr ineqThr && isOpt) then
    some (∑ i ∈ Finset.range q.H.rows, q.sol.at' i * (∑ j ∈ Finset.range q.H.cols, q.H.at' i j * q.sol.at' j) +
        2 * ∑ i ∈ Finset.range q.g.size, q.g.at' i * q.sol.at' i,
      norm2 q.eq.1.rows (affVal q.eq q.sol.at'), norm2 q.ineq.1.rows (ineqDist q))
  else none

/-- State of the loop over the inequalities: `constr_jac_transp` (column `c` is `cols c`), `to_col` and
`ineq_vio_sqr`, RtQPSolverInterface.hpp:140-141. -/
structure Acc where
  cols : Nat → Nat → ℝ
  toCol : Nat
  vio : ℝ

open Classical in
/-- The loop, RtQPSolverInterface.hpp:142-150. -/
noncomputable def accLoop (q : Qpi) : (fuel r : Nat) → Acc → Acc
  | 0, _, s => s
  | fuel + 1, r, s =>
    let val := affVal q.ineq q.sol.at' r
    let vio := max 0 val
    let s' := { s with vio := s.vio + vio * vio }
    accLoop q fuel (r + 1)
      (if val > -1e-8 then
        { s' with cols := fun c => if c = s.toCol then q.ineq.1.at' r else s'.cols c, toCol := s.toCol + 1 }
       else s')

/-- The state before and after the loop, RtQPSolverInterface.hpp:133-150; `junk` is the memory handed out
by `resize`. -/
noncomputable def acc (junk : Nat → Nat → ℝ) (q : Qpi) : Acc :=
  accLoop q q.ineq.1.rows 0
    ⟨fun c => if c < q.eq.1.rows then q.eq.1.at' c else junk c, q.eq.1.rows, 0⟩

/-- `obj_grad`, RtQPSolverInterface.hpp:155. -/
noncomputable def objGrad (q : Qpi) (i : Nat) : ℝ :=
  ∑ j ∈ Finset.range q.H.cols, q.H.at' i j * q.sol.at' j + q.g.at' i

/-- `(constr_jac_transp * lagr - obj_grad).squaredNorm()`, RtQPSolverInterface.hpp:161: `k` columns. -/
noncomputable def resid (n k : Nat) (A : Nat → Nat → ℝ) (b l : Nat → ℝ) : ℝ :=
  ∑ i ∈ Finset.range n, (∑ c ∈ Finset.range k, A c i * l c - b i) * (∑ c ∈ Finset.range k, A c i * l c - b i)

/-- `computeOptimalityCondition`, RtQPSolverInterface.hpp:131-166. `solve n k A b` is the result of
`jacobiSvd(..).solve(b)` for the matrix with the `k` columns `A c`. -/
noncomputable def optCondition (solve : Nat → Nat → (Nat → Nat → ℝ) → (Nat → ℝ) → Nat → ℝ)
    (junk : Nat → Nat → ℝ) (q : Qpi) : ℝ :=
  let n := q.H.rows
  let eqVio := if q.eq.1.rows ≠ 0 then
    ∑ i ∈ Finset.range q.eq.1.rows, affVal q.eq q.sol.at' i * affVal q.eq q.sol.at' i else 0
  let s := acc junk q
  let grad := if s.toCol ≠ 0 then
      resid n s.toCol s.cols (objGrad q) (solve n s.toCol s.cols (objGrad q))
    else ∑ i ∈ Finset.range n, objGrad q i * objGrad q i
  Real.sqrt (grad + s.vio + eqVio)

/-! ### Singular values -/

open Classical in
/-- The loop of `RtMatrixUtils::computeSigmaPinv`, RtMatrix.hpp:281-284, from entry `id` on (`fuel` entries
left): the vector and the value of `id` at which it ends. -/
noncomputable def pinvLoop (sv : Nat → ℝ) (minSv : ℝ) : (fuel id : Nat) → (Nat → ℝ) → (Nat → ℝ) × Nat
  | 0, id, out => (out, id)
  | fuel + 1, id, out =>
    if sv id > minSv then pinvLoop sv minSv fuel (id + 1) (fun i => if i = id then 1 / sv id else out i)
    else ((fun i => if i = id then 0 else out i), id)

/-- `RtMatrixUtils::computeSigmaPinv`, RtMatrix.hpp:273-286: `size` singular values, `cond` is
`mat_condition_thresh_`, `out` the vector handed in. The result is the vector and the range
`(start, length)` of the expression `segment(..)` of the last line, which is not assigned to. -/
noncomputable def sigmaPinv (cond : ℝ) (size : Nat) (sv out : Nat → ℝ) : (Nat → ℝ) × (Nat × Nat) :=
  let r := pinvLoop sv (sv 0 / cond) size 0 out
  (r.1, (r.2 + 1, size - r.2))

/-- `RtMatrixUtils::conditionNumberFromSvd`, RtMatrix.hpp:264-266; `size` singular values. -/
noncomputable def condNumber (size : Nat) (sv : Nat → ℝ) : ℝ := sv 0 / sv (size - 1)

end RtQPIf
end Verif
