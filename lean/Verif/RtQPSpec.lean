/-
Specification of the quadratic program solved by `rt_solver::RtQPSolver`, written from the comment of
`solveQP` (/repo/solver/include/solver/rt_optimizer/RtQPSolver.hpp:219-224) without reference to the
algorithm.
-/
import Verif.RtQP

namespace Verif
namespace RtQP

/-- `M v` (first `n` entries). -/
noncomputable def mulV (n : Nat) (M : Nat → Nat → ℝ) (v : Nat → ℝ) (i : Nat) : ℝ :=
  ∑ k ∈ Finset.range n, M i k * v k

/-- The documented objective `x' Hess x + 2 g0' x` (RtQPSolver.hpp:221). -/
noncomputable def Data.objective (q : Data) (x : Nat → ℝ) : ℝ :=
  dot q.n x (mulV q.n q.H x) + 2 * dot q.n q.g x

/-- The documented equalities `CE x + ce0 = 0` (RtQPSolver.hpp:222). -/
def Data.EqHold (q : Data) (x : Nat → ℝ) : Prop := ∀ i < q.p, dot q.n (q.CE i) x + q.ce0 i = 0

/-- The documented constraints (RtQPSolver.hpp:222-223). -/
def Data.Feasible (q : Data) (x : Nat → ℝ) : Prop :=
  q.EqHold x ∧ ∀ i < q.m, dot q.n (q.CI i) x + q.ci0 i ≤ 0

/-- How much the inequalities are violated at `x`, summed over the inequalities. -/
noncomputable def Data.violation (q : Data) (x : Nat → ℝ) : ℝ :=
  ∑ i ∈ Finset.range q.m, max 0 (dot q.n (q.CI i) x + q.ci0 i)

/-- `J J'`. -/
noncomputable def gram (n : Nat) (J : Nat → Nat → ℝ) (i l : Nat) : ℝ := ∑ k ∈ Finset.range n, J i k * J l k

/-- `H G = 1` on the first `n` indices. -/
def Inverse (n : Nat) (H G : Nat → Nat → ℝ) : Prop :=
  ∀ i < n, ∀ l < n, ∑ k ∈ Finset.range n, H i k * G k l = if i = l then 1 else 0

/-- What the solver may assume: `Hess` is symmetric and `J0 = L^{-T}` is the inverse transposed Cholesky
factor, `Hess J0 J0' = 1` (what the disabled assertion RtQPSolver.hpp:291 spells out), whose diagonal is
positive. -/
structure Data.Valid (q : Data) : Prop where
  symm : ∀ i < q.n, ∀ k < q.n, q.H i k = q.H k i
  inv : Inverse q.n q.H (gram q.n q.J0)
  diag : ∀ i < q.n, 0 ≤ q.J0 i i
  eps : 0 ≤ q.eps

end RtQP
end Verif
