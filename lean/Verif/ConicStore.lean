/-
Model of the hand-over of the standard form to the interior point solver: `SolverStorage::initialize`, `initializeMatrices`
(/repo/solver/src/solver/interface/Cone.cpp:424-451), called from `ConicProblem::buildProblem`
(/repo/solver/src/solver/interface/ConicProblem.cpp:123-125, 315).

Simplifications: exact reals; `setFromTriplets` of Eigen is modelled by its documentation (entries sorted by column and row, the values of
equal positions summed), a triplet outside of the matrix is undefined behaviour (`none`).
-/
import Verif.Conic
import Verif.Equil

namespace Verif
namespace ConicStore
open Equil

/-- The sum of the values stored for row `r` and column `j` (`setFromTriplets`, Cone.cpp:446, 449). -/
def entryOf (t : List (Nat × Nat × ℝ)) (r j : Nat) : ℝ := ((t.filter (fun u => u.1 = r ∧ u.2.1 = j)).map (fun u => u.2.2)).sum

/-- `setFromTriplets` and `makeCompressed` of an `m × n` matrix, Cone.cpp:446-450. -/
def fromTriplets (m n : Nat) (t : List (Nat × Nat × ℝ)) : Option Sp :=
  if ∀ u ∈ t, u.1 < m ∧ u.2.1 < n then
    some ((List.range n).map fun j =>
      ((List.range m).filter (fun r => t.any (fun u => decide (u.1 = r ∧ u.2.1 = j)))).map fun r => (r, entryOf t r j))
  else none

/-- The cone of the problem: `getCone().initialize(nvars, nleq, nlineq, q)`, ConicProblem.cpp:123. -/
def toCone (f : StdForm ℝ) : Cone := ⟨f.nvars, f.nleq, f.nlineq, f.q⟩

/-- The storage after `buildProblem`, ConicProblem.cpp:124-125, 315, Cone.cpp:424-451; `cbh` is the concatenation of `c`, `b` and `h`
(Cone.hpp:396-412); a write to `b` or `h` beyond the end is undefined behaviour (`none`). -/
def toStorage (f : StdForm ℝ) : Option Storage :=
  match fromTriplets f.nleq f.nvars f.eq.trip, fromTriplets (f.nlineq + f.q.sum) f.nvars f.ineq.trip with
  | some A, some G =>
    if (∀ r ∈ f.eq.touched, r < f.nleq) ∧ ∀ r ∈ f.ineq.touched, r < f.nlineq + f.q.sum then
      some ⟨A, G, fun k => if k < f.nvars then f.c k else if k < f.nvars + f.nleq then f.eq.rhs (k - f.nvars)
        else f.ineq.rhs (k - (f.nvars + f.nleq))⟩
    else none
  | _, _ => none

end ConicStore
end Verif
