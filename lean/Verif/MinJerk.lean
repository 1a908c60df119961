import Mathlib.Data.Real.Basic
import Mathlib.LinearAlgebra.Matrix.Determinant.Basic
import Mathlib.Data.Matrix.Mul

/-! Model of `momentumopt/python/momentumopt/kinoptpy/min_jerk_traj.py` and of the trajectory generators of
`momentumopt/python/momentumopt/kinoptpy/momentum_kinematics_optimizer.py` (lines 30-165). Reals for floats; `none` is an exception.
`np.linalg.solve` is a parameter. -/
namespace Verif
namespace MinJerk

/-- The array `coeffs`: rows (coefficient, exponent). Exponents are natural numbers, as in all arrays the file makes
(min_jerk_traj.py:28-31,144-145). -/
abbrev Coeffs := List (ℝ × ℕ)

/-- Members of `Polynomial`, min_jerk_traj.py:16-24; `constraints` is absent (`none`) if coefficients were passed to the constructor. A
constraint is (x, y, derivative order), min_jerk_traj.py:74-75. -/
structure Poly where
  fitted : Bool
  coeffs : Coeffs
  constraints : Option (List (ℝ × ℝ × ℕ))

/-- `Polynomial(coeffs=c)`, min_jerk_traj.py:16-21. -/
def Poly.ofCoeffs (c : Coeffs) : Poly := ⟨true, c, none⟩

/-- `Polynomial()`, min_jerk_traj.py:16-24. -/
def Poly.fresh : Poly := ⟨false, [], some []⟩

/-- `differentiate`, min_jerk_traj.py:42-48: rows whose exponent would become negative are zeroed. -/
def differentiate (c : Coeffs) : Coeffs := c.map fun q => if q.2 = 0 then (0, 0) else (q.1 * q.2, q.2 - 1)

/-- `np.sum(np.power(x, c[:, 1]) * c[:, 0])`, min_jerk_traj.py:53,65. -/
def evalCoeffs (c : Coeffs) (x : ℝ) : ℝ := (c.map fun q => x ^ q.2 * q.1).sum

/-- `eval`, min_jerk_traj.py:50-53. -/
def Poly.eval (p : Poly) (x : ℝ) : Option ℝ := if p.fitted then some (evalCoeffs p.coeffs x) else none

/-- `deval`, min_jerk_traj.py:55-65. -/
def Poly.deval (p : Poly) (x : ℝ) : Option ℝ :=
  if p.fitted then
    if p.coeffs.length = 1 then some 0 else some (evalCoeffs (differentiate p.coeffs) x)
  else none

/-- `set_initial_coeffs` for `n` coefficients, min_jerk_traj.py:26-33. -/
def initialCoeffs (n : ℕ) : Coeffs := (List.range n).map fun i => (1, i)

/-- `set_constraints`, `set_constraint`, min_jerk_traj.py:67-75. -/
def Poly.setConstraints (p : Poly) (cs : List (ℝ × ℝ × ℕ)) : Option Poly :=
  p.constraints.map fun old => { p with constraints := some (old ++ cs), coeffs := initialCoeffs (old ++ cs).length }

/-- Entry `A[i, j]` for the constraint `k`, min_jerk_traj.py:84-96 (the case of higher orders is treated in `fit`). -/
def entry (c : Coeffs) (k : ℝ × ℝ × ℕ) (j : ℕ) : ℝ :=
  let d := match k.2.2 with
    | 0 => c
    | 1 => differentiate c
    | _ => differentiate (differentiate c)
  k.1 ^ (d.getD j (0, 0)).2 * (d.getD j (0, 0)).1

/-- `np.linalg.solve` as called in min_jerk_traj.py:100; `none`: it raises `LinAlgError`. -/
abbrev Solver := ∀ n : ℕ, Matrix (Fin n) (Fin n) ℝ → (Fin n → ℝ) → Option (Fin n → ℝ)

/-- The matrix `A` of `fit`, min_jerk_traj.py:81,88-94. -/
def fitMat (c : Coeffs) (cs : List (ℝ × ℝ × ℕ)) : Matrix (Fin cs.length) (Fin cs.length) ℝ :=
  Matrix.of fun i j => entry c (cs.get i) j

/-- The vector `b` of `fit`, min_jerk_traj.py:82,98. -/
def fitVec (cs : List (ℝ × ℝ × ℕ)) : Fin cs.length → ℝ := fun i => (cs.get i).2.1

/-- `fit`, min_jerk_traj.py:77-103. Raises if there are no constraints, an order is above 2, the shapes do not agree or the matrix is
singular. -/
def Poly.fit (solve : Solver) (p : Poly) : Option Poly := do
  let cs ← p.constraints
  if cs = [] then none
  else if p.coeffs.length ≠ cs.length then none
  else if cs.any (fun k => decide (2 < k.2.2)) then none
  else do
    let x ← solve cs.length (fitMat p.coeffs cs) (fitVec cs)
    some { p with fitted := true, coeffs := p.coeffs.mapIdx fun j q => (if h : j < cs.length then x ⟨j, h⟩ else q.1, q.2) }

/-- `create_constraints`, min_jerk_traj.py:106-140. -/
noncomputable def createConstraints (t0 t1 x0 x1 : ℝ) (via : Option ℝ) : List (ℝ × ℝ × ℕ) :=
  let tc := 0.5 * (t1 - t0) + t0
  let v := via.getD (0.5 * (x1 - x0) + x0)
  [(t0, x0, 0), (t0, 0, 1), (t0, 0, 2), (tc, v, 0), (t1, x1, 0), (t1, 0, 1), (t1, 0, 2)]

/-- `constant_poly`, min_jerk_traj.py:143-147. -/
def constantPoly (y : ℝ) : Poly := Poly.ofCoeffs [(y, 0)]

/-- `poly_points`, min_jerk_traj.py:150-155. -/
noncomputable def polyPoints (solve : Solver) (t : ℝ × ℝ) (x0 x1 : ℝ) (via : Option ℝ) : Option Poly := do
  let p ← Poly.fresh.setConstraints (createConstraints t.1 t.2 x0 x1 via)
  p.fit solve

/-- `PolynominalList`: time windows and polynomials, min_jerk_traj.py:158-169. -/
abbrev PolyList := List ((ℝ × ℝ) × Poly)

/-- `get_poly`, min_jerk_traj.py:171-175, the loop as a recursion on the remaining list; raises `IndexError` if the list is empty. -/
noncomputable def getPoly : PolyList → ℝ → Option Poly
  | [], _ => none
  | [s], _ => some s.2
  | s :: s' :: r, t => if s.1.2 < t then getPoly (s' :: r) t else some s.2

/-- `PolynominalList.eval`, min_jerk_traj.py:177-178. -/
noncomputable def evalList (l : PolyList) (t : ℝ) : Option ℝ := do (← getPoly l t).eval t

/-- `PolynominalList.deval`, min_jerk_traj.py:180-181. -/
noncomputable def devalList (l : PolyList) (t : ℝ) : Option ℝ := do (← getPoly l t).deval t

/-! ### momentum_kinematics_optimizer.py -/

/-- State of the loop of `get_contact_plan_from_dyn_optimizer`: `start_time`, `count`, the plan (first step, last step, position),
momentum_kinematics_optimizer.py:49-51. -/
structure PlanSt (P : Type) where
  start : ℕ
  count : ℕ
  plan : List (ℕ × ℕ × P)

/-- One pass of the loop, momentum_kinematics_optimizer.py:53-62 (the test `it == num_time_steps-1` is only reached when
`count % 2 == 1` is already false, which cannot happen in that branch). -/
def planStep {P : Type} (act : ℕ → Bool) (pos : ℕ → P) (s : PlanSt P) (it : ℕ) : PlanSt P :=
  if act it ≠ act (it + 1) then
    if s.count % 2 = 0 then { s with start := it + 1, count := s.count + 1 }
    else { s with plan := s.plan ++ [(s.start, it, pos it)], count := s.count + 1 }
  else s

/-- `get_contact_plan_from_dyn_optimizer` for one end-effector, momentum_kinematics_optimizer.py:46-63; `act t` and `pos t` are the
activation and position in the `t`-th of `T` dynamics states. -/
def contactPlan {P : Type} (T : ℕ) (act : ℕ → Bool) (pos : ℕ → P) : List (ℕ × ℕ × P) :=
  ((List.range (T - 1)).foldl (planStep act pos) ⟨0, 1, []⟩).plan

/-- `generate_eff_traj` for one end-effector and one axis, momentum_kinematics_optimizer.py:66-91; `zoff` is `z_offset` for the
vertical axis and absent for the others. -/
noncomputable def effAxis (solve : Solver) (zoff : Option ℝ) : List (ℝ × ℝ × ℝ) → Option PolyList
  | [] => some []
  | [c] => some [((c.1, c.2.1), constantPoly c.2.2)]
  | c :: c' :: r => do
    let p ← polyPoints solve (c.2.1, c'.1) c.2.2 c'.2.2 (zoff.map (· + c.2.2))
    let l ← effAxis solve zoff (c' :: r)
    some (((c.1, c.2.1), constantPoly c.2.2) :: ((c.2.1, c'.1), p) :: l)

/-- The references of `EndeffectorTrajectoryGenerator.__call__` for one end-effector and axis at step `it`,
momentum_kinematics_optimizer.py:107-120: position, and velocity (polynomials run over step numbers, hence the division by `dt`). -/
noncomputable def effRef (solve : Solver) (zoff : Option ℝ) (dt : ℝ) (T : ℕ) (act : ℕ → Bool) (pos : ℕ → ℝ) (it : ℕ) : Option (ℝ × ℝ) := do
  let l ← effAxis solve zoff ((contactPlan T act pos).map fun c => ((c.1 : ℝ), (c.2.1 : ℝ), c.2.2))
  let x ← evalList l it
  let v ← devalList l it
  some (x, v / dt)

/-- `TrajectoryInterpolator.generate_trajectory` for one coordinate, momentum_kinematics_optimizer.py:144-152, after the first via
point: `t0`, `x0` are the previous via point (time already divided by `dt`), `vias` the remaining ones. The last segment is left out if
its end points coincide. -/
noncomputable def interpFrom (solve : Solver) (steps goal : ℝ) : ℝ → ℝ → List (ℝ × ℝ) → Option PolyList
  | t0, x0, [] =>
    if t0 ≠ steps then do
      let p ← polyPoints solve (t0, steps) x0 goal none
      some [((t0, steps), p)]
    else some []
  | t0, x0, (t1, x1) :: r => do
    let p ← polyPoints solve (t0, t1) x0 x1 none
    let l ← interpFrom solve steps goal t1 x1 r
    some (((t0, t1), p) :: l)

/-- `TrajectoryInterpolator.generate_trajectory` for one coordinate, momentum_kinematics_optimizer.py:134-152; raises without via
points (`q_via[0]` is read). -/
noncomputable def interpTraj (solve : Solver) (steps init goal : ℝ) (vias : List (ℝ × ℝ)) : Option PolyList :=
  match vias with
  | [] => none
  | (t1, x1) :: r => do
    let p ← polyPoints solve (0, t1) init x1 none
    let l ← interpFrom solve steps goal t1 x1 r
    some (((0, t1), p) :: l)

end MinJerk
end Verif
