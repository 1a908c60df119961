/-
Model of the second derivatives of the dynamics, `FiniteDifferences::computeDynamicsSecondDerivatives`
(/repo/solver_lqr/src/solver_lqr/FiniteDifferences.cpp:91-150). They are computed if asked for in `initialize`;
`SolverLqr` does not ask for them.

Simplification: numbers are real, so that adding and subtracting the step restores a vector.
-/
import Verif.Lqr

namespace Verif
namespace Lqr

variable {nx nu : Nat}

/-- `fxx_seq_[time][row].col(col)`, FiniteDifferences.cpp:104-117; entry `i`. -/
noncomputable def fdFxx (o : Ocp nx nu) (c : Setting nu) (x : Vec nx) (u : Control nx nu) (t : Nat) (row : Fin nx) : Mat nx nx :=
  fun i col => (step o c (bump (bump x row hStep) col hStep) u t i - step o c (bump (bump x row hStep) col (-hStep)) u t i
    - step o c (bump (bump x row (-hStep)) col hStep) u t i + step o c (bump (bump x row (-hStep)) col (-hStep)) u t i) / (4 * hStep ^ 2)

/-- `fxu_seq_[time][row].col(col)`, FiniteDifferences.cpp:119-132: `row` is a control, `col` a state. -/
noncomputable def fdFxu (o : Ocp nx nu) (c : Setting nu) (x : Vec nx) (u : Control nx nu) (t : Nat) (row : Fin nu) : Mat nx nx :=
  fun i col => (step o c (bump x col hStep) (bumpU u row hStep) t i - step o c (bump x col (-hStep)) (bumpU u row hStep) t i
    - step o c (bump x col hStep) (bumpU u row (-hStep)) t i + step o c (bump x col (-hStep)) (bumpU u row (-hStep)) t i) / (4 * hStep ^ 2)

/-- `fuu_seq_[time][row].col(col)`, FiniteDifferences.cpp:134-147. -/
noncomputable def fdFuu (o : Ocp nx nu) (c : Setting nu) (x : Vec nx) (u : Control nx nu) (t : Nat) (row : Fin nu) : Mat nx nu :=
  fun i col => (step o c x (bumpU (bumpU u row hStep) col hStep) t i - step o c x (bumpU (bumpU u row hStep) col (-hStep)) t i
    - step o c x (bumpU (bumpU u row (-hStep)) col hStep) t i + step o c x (bumpU (bumpU u row (-hStep)) col (-hStep)) t i) / (4 * hStep ^ 2)

end Lqr
end Verif
