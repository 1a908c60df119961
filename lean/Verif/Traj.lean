import Mathlib.Data.Real.Basic
import Mathlib.LinearAlgebra.Matrix.Determinant.Basic
import Mathlib.Data.Matrix.Mul

/-! Model of `momentumopt/src/momentumopt/utilities/TrajectoryGenerator.cpp` (class `Interpolator` and `TrajectoryGenerator`) and of
its use in `momentumopt/src/momentumopt/cntopt/ContactPlanInterface.cpp`. Reals for doubles; the not-a-number that arises from
`0 * inf` is `none`. Eigen's `householderQr().solve` is a parameter. -/
namespace Verif
namespace Traj

/-- `Interpolator::InterpMat`: rows (time, value), TrajectoryGenerator.hpp:26. -/
abbrev InterpMat := List (ℝ × ℝ)

/-- Row of `regression_matrix_` of a position condition, TrajectoryGenerator.cpp:29-34. -/
def posRow (t : ℝ) (col : ℕ) : ℝ := t ^ col

/-- Row of a velocity condition (column 0 stays zero), TrajectoryGenerator.cpp:37-42. -/
def velRow (t : ℝ) (col : ℕ) : ℝ := if 1 ≤ col then (col : ℝ) * t ^ (col - 1) else 0

/-- Row of an acceleration condition (columns 0 and 1 stay zero), TrajectoryGenerator.cpp:45-50. -/
def accRow (t : ℝ) (col : ℕ) : ℝ := if 2 ≤ col then (col : ℝ) * ((col : ℝ) - 1) * t ^ (col - 2) else 0

/-- All rows of `regression_matrix_` with their entry of `regression_vector_`, in order, TrajectoryGenerator.cpp:28-50. -/
def rows (pos vel acc : InterpMat) : List ((ℕ → ℝ) × ℝ) :=
  pos.map (fun q => (posRow q.1, q.2)) ++ vel.map (fun q => (velRow q.1, q.2)) ++ acc.map (fun q => (accRow q.1, q.2))

/-- `regression_matrix_`, TrajectoryGenerator.cpp:21-22,28-50. -/
def regMat (pos vel acc : InterpMat) : Matrix (Fin (rows pos vel acc).length) (Fin (rows pos vel acc).length) ℝ :=
  Matrix.of fun i j => ((rows pos vel acc).get i).1 j

/-- `regression_vector_`, TrajectoryGenerator.cpp:20,28-50. -/
def regVec (pos vel acc : InterpMat) : Fin (rows pos vel acc).length → ℝ := fun i => ((rows pos vel acc).get i).2

/-- Eigen's `minCoeff` (which requires a non-empty column) (used in TrajectoryGenerator.cpp:25). -/
noncomputable def minCoeff : List ℝ → ℝ
  | [] => 0
  | x :: l => l.foldl min x

/-- Eigen's `maxCoeff` (which requires a non-empty column) (used in TrajectoryGenerator.cpp:26). -/
noncomputable def maxCoeff : List ℝ → ℝ
  | [] => 0
  | x :: l => l.foldl max x

/-- Members of `Interpolator`, TrajectoryGenerator.hpp:35-38. -/
structure Interp where
  size : ℕ
  lo : ℝ
  hi : ℝ
  coeffs : ℕ → ℝ

/-- The linear solver `householderQr().solve`, TrajectoryGenerator.cpp:52. -/
abbrev Qr := ∀ n : ℕ, Matrix (Fin n) (Fin n) ℝ → (Fin n → ℝ) → Fin n → ℝ

/-- `Interpolator::initialize`, TrajectoryGenerator.cpp:17-53. -/
noncomputable def initInterp (qr : Qr) (pos vel acc : InterpMat) : Interp where
  size := pos.length + vel.length + acc.length
  lo := min (min (minCoeff (pos.map Prod.fst)) (minCoeff (vel.map Prod.fst))) (minCoeff (acc.map Prod.fst))
  hi := max (max (maxCoeff (pos.map Prod.fst)) (maxCoeff (vel.map Prod.fst))) (maxCoeff (acc.map Prod.fst))
  coeffs := fun i => if h : i < (rows pos vel acc).length then qr _ (regMat pos vel acc) (regVec pos vel acc) ⟨i, h⟩ else 0

/-- `std::pow` with an integral exponent: infinite (`none`) for a negative power of zero (used in TrajectoryGenerator.cpp:33-63). -/
noncomputable def powd (t : ℝ) (e : ℤ) : Option ℝ := if t = 0 ∧ e < 0 then none else some (t ^ e)

/-- A loop `v += term(i)` over `i < n`; a term that is not a number makes the sum not a number (TrajectoryGenerator.cpp:60-64). -/
noncomputable def sumOpt (term : ℕ → Option ℝ) : ℕ → Option ℝ
  | 0 => some 0
  | n + 1 => do
    let s ← sumOpt term n
    let x ← term n
    some (s + x)

/-- `query_time`, TrajectoryGenerator.cpp:57. -/
noncomputable def queryTime (p : Interp) (time : ℝ) : ℝ := min (max time p.lo) p.hi

/-- `position` of `Interpolator::interpolate`, TrajectoryGenerator.cpp:59-61. -/
noncomputable def position (p : Interp) (time : ℝ) : Option ℝ :=
  sumOpt (fun i => do let w ← powd (queryTime p time) i; some (p.coeffs i * w)) p.size

/-- `velocity` of `Interpolator::interpolate`, TrajectoryGenerator.cpp:59-62; an infinite power occurs only with the factor
`double(i) = 0`, so the product is not a number. -/
noncomputable def velocity (p : Interp) (time : ℝ) : Option ℝ :=
  sumOpt (fun i => do let w ← powd (queryTime p time) ((i : ℤ) - 1); some (p.coeffs i * w * (i : ℝ))) p.size

/-- `acceleration` of `Interpolator::interpolate`, TrajectoryGenerator.cpp:60-64; an infinite power occurs only with the factor
`double(i)*double(i-1.0) = 0`, so the product is not a number. -/
noncomputable def acceleration (p : Interp) (time : ℝ) : Option ℝ :=
  sumOpt (fun i => do let w ← powd (queryTime p time) ((i : ℤ) - 2); some (p.coeffs i * w * (i : ℝ) * ((i : ℝ) - 1))) p.size

/-- One direction of `TrajectoryGenerator::initialize`, TrajectoryGenerator.cpp:68-84. -/
noncomputable def initTraj (qr : Qr) (tini ini tend fin via : ℝ) : Interp :=
  initInterp qr [(tini, ini), (0.5 * (tini + tend), via), (tend, fin)] [(tini, 0), (tend, 0)] [(tini, 0), (tend, 0)]

/-- `TrajectoryGenerator::initialize`, TrajectoryGenerator.cpp:68-84: one interpolator per direction. -/
noncomputable def initTraj3 (qr : Qr) (tini : ℝ) (ini : Fin 3 → ℝ) (tend : ℝ) (fin via : Fin 3 → ℝ) : Fin 3 → Interp :=
  fun d => initTraj qr tini (ini d) tend (fin d) (via d)

/-- `ContactPlanInterface::mapIdToContactTime`, ContactPlanInterface.cpp:93-99; `dt t` is `dynamicsState(t).time()`. -/
noncomputable def mapTime (dt : ℕ → ℝ) (n : ℕ) : ℝ := (List.range n).foldl (fun s t => s + dt t) 0

/-- What `generateFlightPhase` stores at one step: position, velocity and acceleration, ContactPlanInterface.cpp:143-147. -/
structure Pose where
  pos : Fin 3 → Option ℝ
  vel : Fin 3 → Option ℝ
  acc : Fin 3 → Option ℝ

/-- A flight phase: the interpolators are set up from the times of its first and last step
(ContactPlanInterface.cpp:61-65, 73-76, 84-87), then every step from `start` to `fin` gets the interpolated pose
(ContactPlanInterface.cpp:140-153); `none`: the step is not written. -/
noncomputable def flightPhase (qr : Qr) (dt : ℕ → ℝ) (start fin : ℕ) (ini goal via : Fin 3 → ℝ) (t : ℕ) : Option Pose :=
  let tr := initTraj3 qr (mapTime dt (start + 1)) ini (mapTime dt (fin + 1)) goal via
  if start ≤ t ∧ t ≤ fin then
    some ⟨fun d => position (tr d) (mapTime dt (t + 1)), fun d => velocity (tr d) (mapTime dt (t + 1)),
      fun d => acceleration (tr d) (mapTime dt (t + 1))⟩
  else none

/-- `findActiveViapoints`, ContactPlanInterface.cpp:131-138: the first via point with the contact's id; `viapoint_position` keeps
its old value (in the first call: uninitialised) if there is none. -/
def findActiveViapoint {P : Type} (old : P) (vias : List (ℤ × P)) (cnt : ℤ) : P :=
  match vias.find? (fun q => q.1 == cnt) with
  | some q => q.2
  | none => old

end Traj
end Verif
