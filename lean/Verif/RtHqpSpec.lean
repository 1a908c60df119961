/-
Specification of the hierarchy solved by `rt_solver::RtHQPSolver`, in terms of the tasks handed over and
the solutions reported only, and the contracts of the external functions (SVD, QP solver).
-/
import Verif.RtHqp
import Verif.RtAppendProps

namespace Verif
namespace RtHqp

open Rt

/-- Squared Euclidean norm of the first `n` entries. -/
noncomputable def sq (n : Nat) (v : Nat → ℝ) : ℝ := ∑ i ∈ Finset.range n, v i ^ 2

/-- Squared distance of two points. -/
noncomputable def dist2 (n : Nat) (x y : Nat → ℝ) : ℝ := sq n (fun i => x i - y i)

/-- The squared norm of `eq_mat x + eq_vec`. -/
noncomputable def Task.eqCost (t : Task) (x : Nat → ℝ) : ℝ := sq t.eq.1.rows (fun k => rowVal t.eq k x)

/-- The squared violation of `ineq_mat x + ineq_vec <= τ`. -/
noncomputable def Task.ineqCost (t : Task) (τ : ℝ) (x : Nat → ℝ) : ℝ :=
  sq t.ineq.1.rows (fun k => max 0 (rowVal t.ineq k x - τ))

/-- A well-formed task over `n` variables (what the assertions RtHQPSolver.h:117-119 check). -/
structure Task.Sized (n : Nat) (t : Task) : Prop where
  ec : t.eq.1.cols = n
  er : t.eq.2.size = t.eq.1.rows
  ic : t.ineq.1.cols = n
  ir : t.ineq.2.size = t.ineq.1.rows

/-- Contract of Eigen's `JacobiSVD` with full `V`: `V` is orthogonal, the singular values are nonnegative
and sorted, and `|B V y|^2 = sum (sv_i y_i)^2`. -/
structure SvdOk (B : Mat) (s : Svd) : Prop where
  iso : ∀ v, sq B.cols (mulV ⟨B.cols, B.cols, s.V⟩ v) = sq B.cols v
  surj : ∀ u : Nat → ℝ, ∃ v, ∀ i < B.cols, mulV ⟨B.cols, B.cols, s.V⟩ v i = u i
  sorted : ∀ i j, i ≤ j → j < min B.rows B.cols → 0 ≤ s.sv j ∧ s.sv j ≤ s.sv i
  act : ∀ y, sq B.rows (mulV B (mulV ⟨B.cols, B.cols, s.V⟩ y)) =
    ∑ i ∈ Finset.range (min B.rows B.cols), (s.sv i * y i) ^ 2

/-- Objective of the QP handed over, `x' H x + 2 g' x`. -/
noncomputable def Qp.objective (q : Qp) (x : Nat → ℝ) : ℝ :=
  RtQP.dot q.H.rows x (mulV q.H x) + 2 * RtQP.dot q.H.rows q.g.at' x

/-- Row `i` of the inequalities of the QP handed over. -/
noncomputable def Qp.row (q : Qp) (i : Nat) (x : Nat → ℝ) : ℝ := mulV q.CI x i + q.ci.at' i

/-- Contract of the QP solver when it reports success: the inequalities hold up to `τ` and no point that
violates none of them more has a smaller objective. -/
structure QpOk (τ : ℝ) (q : Qp) (sol : Nat → ℝ) : Prop where
  feas : ∀ i < q.CI.rows, q.row i sol ≤ τ
  opt : ∀ y, (∀ i < q.CI.rows, q.row i y ≤ max 0 (q.row i sol)) → q.objective sol ≤ q.objective y

/-- The external functions meet their contracts in the call for task `t` in state `s`. -/
def StepOk (E : Ext) (P : Params) (τ : ℝ) (t : Task) (s : State) : Prop :=
  skips t s = false →
    ((prepare E P t s).B.rows ≠ 0 → SvdOk (prepare E P t s).B (E.svd (prepare E P t s).B)) ∧
    ∀ sol, outcome E P t s = some sol → QpOk τ (qpOf E P t s) sol

/-- The external functions meet their contracts in all calls. -/
def RunOk (E : Ext) (P : Params) (τ : ℝ) : State → List Task → Prop
  | _, [] => True
  | s, t :: ts => StepOk E P τ t s ∧ RunOk E P τ (solveNextTask E P t s).1 ts

/-- The state after `initialize` and `reset(n)`: slacks are applied. -/
noncomputable def start (E : Ext) (n : Nat) (s0 : State) : State := State.reset E n { s0 with slacks := true }

/-- The solution reported after the tasks `ts`. -/
noncomputable def sol (E : Ext) (P : Params) (n : Nat) (s0 : State) (ts : List Task) : Nat → ℝ :=
  (solveAll E P (start E n s0) ts).x.at'

end RtHqp
end Verif
