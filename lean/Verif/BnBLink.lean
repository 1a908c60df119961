/-
The branch-and-bound solvers on the conic problem: which rows of the standard form a decision changes and what is compared as cost.
/repo/solver/src/solver/optimizer/BnBSolver.cpp:69-92, 108-156 (decisions written into `h` of the equilibrated problem of the interior point
solver), /repo/solver/src/solver/optimizer/NcvxBnBSolver.cpp:66-89 (decisions written into the bounds of the conic problem, which is then rebuilt),
/repo/solver/src/solver/interface/Model.cpp:17-32.

Simplifications: as in Conic, BnB and Equil. The interior point solver is an arbitrary function of its call number and of the standard form.
-/
import Verif.Conic
import Verif.ConicSpec
import Verif.BnB
import Verif.Equil

namespace Verif
namespace BnBLink

/-- Entry of `h` for the row `-x ≤ lo` of a binary variable: BnBSolver.cpp:75,80,85, NcvxBnBSolver.cpp:72,77,82. -/
noncomputable def decLo (d : Int) : ℝ := if d = 1 then -1 else 0

/-- Entry of `h` for the row `x ≤ up` of a binary variable: BnBSolver.cpp:76,81,86, NcvxBnBSolver.cpp:73,78,83. -/
noncomputable def decUp (d : Int) : ℝ := if d = 0 then 0 else 1

/-- `NcvxBnBSolver::updateProblemData` for legal decisions, NcvxBnBSolver.cpp:66-89: the bounds of the binary variables of the problem. -/
noncomputable def decide (p : Problem ℝ) (d : List Int) : Problem ℝ := { p with binLo := d.map decLo, binUp := d.map decUp }

/-- `BnBSolver::updateProblemData` for legal decisions, BnBSolver.cpp:69-92, on the problem before equilibration (`updateEquilH` divides by the
scaling of the row, IPSolver.cpp:23-26, see `C192_equilibrated`). -/
noncomputable def decideForm (f : StdForm ℝ) (d : List Int) : StdForm ℝ :=
  { f with ineq := forIdx (fun i a s => (s.set (2 * i) (decLo a)).set (2 * i + 1) (decUp a)) 0 d f.ineq }

/-- The same on the equilibrated data, BnBSolver.cpp:69-92 with IPSolver.cpp:23-26; `e` is the scaling vector. -/
noncomputable def decideEquil (c : Cone) (e : Nat → ℝ) (S : Equil.Storage) (d : List Int) : Equil.Storage :=
  forIdx (fun i a S => Equil.updateEquilH c e (Equil.updateEquilH c e S (2 * i) (decLo a)) (2 * i + 1) (decUp a)) 0 d S

/-- The cost of a vector as computed by both branch-and-bound solvers, BnBSolver.cpp:119,129,138, NcvxBnBSolver.cpp:116,126,135:
`getStorage().c().dot(optimalVector().x())`. The stored `c` was divided by the scaling `e` (EqRoutine.cpp:49), the returned vector was scaled back
(EqRoutine.cpp:86-88). -/
noncomputable def bnbCost (f : StdForm ℝ) (e x : Nat → ℝ) : ℝ := ((List.range f.nvars).map (fun v => f.c v / e v * x v)).sum

/-- The relaxation oracle of `BnBSolver` (BnBSolver.cpp:108-156) for the standard form `f` with binary columns `bins` and scaling `e`;
`ip k g` is the result of the `k`-th interior point solve, of the form `g`. -/
noncomputable def oracle (f : StdForm ℝ) (bins : List Nat) (e : Nat → ℝ) (ip : Nat → StdForm ℝ → BnB.Code × (Nat → ℝ)) :
    BnB.Oracle bins.length (Nat → ℝ) where
  solve := fun k d => ip k (decideForm f (List.ofFn d))
  bin := fun x i => x bins[i]
  obj := bnbCost f e

end BnBLink
end Verif
