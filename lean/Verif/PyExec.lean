import Mathlib.Data.Real.Basic
import Mathlib.Algebra.Order.Archimedean.Real.Basic
import Mathlib.Data.Matrix.Mul
import Mathlib.Algebra.Order.Floor.Semiring
import Mathlib.Algebra.Order.Round
import Mathlib.Analysis.Real.Sqrt

/-!
Model of the parts of the Python front end that replay and export a plan:
`create_time_vector` (/repo/momentumopt/python/momentumopt/motion_planner.py:24-31), `desired_state` and `interpolate`
(motion_execution.py:46-205), the files written by `create_file`, `create_qp_files`, `create_lqr_files` (kinoptpy/create_data_file.py), the
bookkeeping of `MotionExecutor.execute_motion` (motion_execution.py:344-347,420-512) and the joint maps of `Simulator` (robots/simulator.py).

Simplifications: exact reals; vectors are treated entry by entry (all numpy operations used here act entry by entry); an `IndexError` is `none`; the plan is
given by functions of the time step. Not modelled: pybullet, printing, plotting, the text format of the files.
-/
namespace Verif
namespace PyExec

/-! ### Time vector -/

/-- `time[i]` in `create_time_vector`, motion_planner.py:27-29, for states with durations `dts`. -/
def timeAt (dts : List ℝ) : Nat → ℝ
  | 0 => 0
  | i + 1 => timeAt dts i + dts.getD i 0

/-- `create_time_vector`, motion_planner.py:24-31. -/
def timeVector (dts : List ℝ) : List ℝ := (List.range dts.length).map (timeAt dts)

/-! ### Interpolation -/

/-- `np.argmin(l)` from position `k` on, with the best entry so far; ties go to the first entry (used in motion_execution.py:58, 142). -/
noncomputable def argminFrom : List ℝ → Nat → Nat → ℝ → Nat
  | [], _, best, _ => best
  | x :: l, k, best, v => if x < v then argminFrom l (k + 1) k x else argminFrom l (k + 1) best v

/-- `np.argmin(l)`, called in motion_execution.py:58,142; raises for an empty array. -/
noncomputable def argmin : List ℝ → Option Nat
  | [] => none
  | x :: l => some (argminFrom l 1 0 x)

/-- `desired_state_eval(t)`, motion_execution.py:57-110 and 141-203 (the two functions agree), for one entry of the interpolated vectors:
`state i` is the entry at time step `i`. `max(closest_idx - 1, 0)` is truncated subtraction. -/
noncomputable def evalAt (times : List ℝ) (state : Nat → ℝ) (t : ℝ) : Option ℝ :=
  match argmin (times.map fun x => |x - t|) with
  | none => none
  | some c =>
    let t1 := if t < times.getD c 0 then c - 1 else c
    let t2 := if t < times.getD c 0 then c else min (c + 1) (times.length - 1)
    let delta := t - times.getD t1 0
    if t2 ≤ 0 then some (state t1)
    else if times.length - 1 ≤ t1 then some (state t1)
    else some ((state t2 - state t1) / (times.getD t2 0 - times.getD t1 0) * delta + state t1)

/-- What the exported quantities are read from, per time step: joint positions and velocities, end-effector positions and velocities (relative to the hips, and
absolute; end-effector, axis), center of mass, momenta, base quaternion and angular velocity, and from the dynamics plan normalised forces, end-effector positions and center of mass (read in motion_execution.py:114-205, create_data_file.py:66-193). -/
structure Plan where
  neff : Nat
  q : Nat → Nat → ℝ
  dq : Nat → Nat → ℝ
  effPos : Nat → Nat → Nat → ℝ
  effVel : Nat → Nat → Nat → ℝ
  effPosAbs : Nat → Nat → Nat → ℝ
  effVelAbs : Nat → Nat → Nat → ℝ
  com : Nat → Nat → ℝ
  lmom : Nat → Nat → ℝ
  amom : Nat → Nat → ℝ
  quat : Nat → Nat → ℝ
  angVel : Nat → Nat → ℝ
  force : Nat → Nat → Nat → ℝ
  dynEff : Nat → Nat → Nat → ℝ
  dynCom : Nat → Nat → ℝ

/-- `centroidal_force_vector`, motion_execution.py:128-132. -/
def centroidalForce (p : Plan) (w : ℝ) (it k : Nat) : ℝ := (List.range p.neff).foldl (fun a e => a + p.force it e k * w) 0

/-- `np.cross(a, b)` (used in motion_execution.py:137). -/
def cross (a b : Nat → ℝ) (k : Nat) : ℝ :=
  match k with
  | 0 => a 1 * b 2 - a 2 * b 1
  | 1 => a 2 * b 0 - a 0 * b 2
  | _ => a 0 * b 1 - a 1 * b 0

/-- `centroidal_moment_vector`, motion_execution.py:134-139. -/
def centroidalMoment (p : Plan) (w : ℝ) (it k : Nat) : ℝ :=
  (List.range p.neff).foldl (fun a e => a + cross (fun j => p.dynEff it e j - p.dynCom it j) (fun j => p.force it e j * w) k) 0

/-! ### Files -/

/-- Python's `round` to an integer: ties go to the even neighbour (used in create_data_file.py:34). -/
noncomputable def pyRound (x : ℝ) : ℤ :=
  if x - ⌊x⌋ < 1 / 2 then ⌊x⌋ else if 1 / 2 < x - ⌊x⌋ then ⌊x⌋ + 1 else if ⌊x⌋ % 2 = 0 then ⌊x⌋ else ⌊x⌋ + 1

/-- `num_points` of `create_file`, create_data_file.py:34 (`range` of a negative number is empty). -/
noncomputable def filePoints (times : List ℝ) : Nat := (pyRound (times.getLastD 0 * 1000)).toNat

/-- An entry of row `i` of a file written by `dump_data`, create_data_file.py:37-40: `scale * desired_fn(i / 1e3)`. -/
noncomputable def dumpEntry (times : List ℝ) (state : Nat → ℝ) (scale : ℝ) (i : Nat) : Option ℝ := (evalAt times state (i / 1000)).map (scale * ·)

/-- `num_points` of `create_qp_files` and `create_lqr_files`, create_data_file.py:84-90 and 213-219; `int` truncates (times are not negative). -/
noncomputable def qpPoints (times : List ℝ) : Nat :=
  let T := times.getLastD 0
  (if 1 / 1000 < T - (⌊T⌋ : ℝ) then ⌊T⌋.toNat + 1 else ⌊T⌋.toNat) * 1000

/-- `swap_coordinates_vec12`, create_data_file.py:147-149, applied to the entry of end-effector `e`: blocks 0 and 1 and blocks 2 and 3 change places
(numpy evaluates both right-hand sides first). -/
def swapPairs {α : Type} (f : Nat → α) (e : Nat) : α :=
  match e with
  | 0 => f 1
  | 1 => f 0
  | 2 => f 3
  | 3 => f 2
  | e => f e

/-- The swap of create_data_file.py:269-278 in `create_lqr_files`: blocks 0 and 3 and blocks 1 and 2 change places. -/
def swapOuter {α : Type} (f : Nat → α) (e : Nat) : α :=
  match e with
  | 0 => f 3
  | 1 => f 2
  | 2 => f 1
  | 3 => f 0
  | e => f e

/-- Entry (leg `e`, axis `k`) of row `i` of the arrays of `create_qp_files` after the swap, create_data_file.py:125,130,131,141,142,151-155. -/
noncomputable def qpLeg (times : List ℝ) (state : Nat → Nat → Nat → ℝ) (i e k : Nat) : Option ℝ :=
  swapPairs (fun e => evalAt times (fun it => state it e k) (i / 1000)) e

/-- Column `j + 1` of row `i` of quadruped_contact_activation.dat, create_data_file.py:158-164. -/
noncomputable def qpContact (times : List ℝ) (p : Plan) (i j : Nat) : Option Bool := (qpLeg times p.force i j 2).map fun f => decide (0 < f)

/-- Column `6 e + k` (`k < 6`) of row `i` of the arrays built in create_data_file.py:173-176. -/
noncomputable def qpFinal (times : List ℝ) (state : Nat → Nat → Nat → ℝ) (i e k : Nat) : Option ℝ :=
  if k < 3 then qpLeg times state i e k else some 0

/-- Column `c` of row `i` of quadruped_velocities.dat as written by `create_qp_files`, create_data_file.py:180. -/
noncomputable def qpVelocityFile (times : List ℝ) (p : Plan) (i c : Nat) : Option ℝ := qpFinal times p.effVel i (c / 6) (c % 6)

/-- Column `c + 1` of row `i` of quadruped_positions.dat as written by `create_qp_files`, create_data_file.py:128,179. -/
noncomputable def qpPositionFile (times : List ℝ) (p : Plan) (i c : Nat) : Option ℝ := evalAt times (fun it => p.q it c) (i / 1000)

/-- Entry (leg, axis) of row `i` of quadruped_positions_abs.dat, `create_qp_files`, create_data_file.py:141,154,189. -/
noncomputable def qpAbsFile (times : List ℝ) (p : Plan) (i e k : Nat) : Option ℝ := qpLeg times p.effPosAbs i e k

/-- Entry (leg, axis) of row `i` of quadruped_positions_abs_with_horizon_part.dat, `create_lqr_files` (`save_horizon = 0`), create_data_file.py:247,275-278,318. -/
noncomputable def lqrAbsFile (times : List ℝ) (p : Plan) (i e k : Nat) : Option ℝ :=
  swapOuter (fun e => evalAt times (fun it => p.effPosAbs it e k) (i / 1000)) e

/-- Entry of row `i` of quadruped_com_vel.dat, create_data_file.py:133. -/
noncomputable def qpComVel (times : List ℝ) (p : Plan) (w : ℝ) (i k : Nat) : Option ℝ :=
  (evalAt times (fun it => p.lmom it k) (i / 1000)).map (· / (w / (981 / 100)))

/-! ### Execution -/

/-- One pass of the bookkeeping of the loop of motion_execution.py:428-451: `if t > time_vector[time_id]: time_id += 1`, then the force of
`dynamics_states[time_id]` is read. `none`: `IndexError` (there are as many states as entries of the time vector). -/
noncomputable def tick (times : List ℝ) (id loop : Nat) : Option Nat :=
  if h : id < times.length then
    let id' := if times[id] < (loop : ℝ) / 1000 then id + 1 else id
    if id' < times.length then some id' else none
  else none

/-- `time_id` used in pass `n` of the loop (the state of the loop after the first `n + 1` passes of the bookkeeping) (motion_execution.py:422-431). -/
noncomputable def timeId (times : List ℝ) : Nat → Option Nat
  | 0 => tick times 0 0
  | n + 1 => (timeId times n).bind fun id => tick times id (n + 1)

/-- The loop of motion_execution.py:428 runs for this many passes, lines 388-389. -/
def maxIterations : Nat := 4000

/-- `t_vec` before pass `n`: zeros with the first `n` entries filled, motion_execution.py:399,491. -/
noncomputable def tVec (n i : Nat) : ℝ := if i < n then (i : ℝ) / 1000 else 0

/-- `delta_t` of pass `n`, motion_execution.py:463-466: `t - t_vec[-1]`, the last entry of the whole array. -/
noncomputable def deltaT (n : Nat) : ℝ := if n = 0 then 0 else (n : ℝ) / 1000 - tVec n (maxIterations - 1)

/-- `limit_torques`, motion_execution.py:344-347, on one entry: the two masked assignments in order. -/
noncomputable def limitTorque (lo hi t : ℝ) : ℝ :=
  let t := if t < lo then lo else t
  if hi < t then hi else t

/-- One reading of the force of an end-effector in motion_execution.py:498-507: `swing_times` is a list of intervals, the second end absent while it is open. -/
noncomputable def swingStep (l : List (ℝ × Option ℝ)) (r : ℝ × Bool) : List (ℝ × Option ℝ) :=
  if r.2 then
    match l.getLast? with
    | none => [(r.1, none)]
    | some (_, some _) => l ++ [(r.1, none)]
    | some (_, none) => l
  else
    match l.getLast? with
    | some (a, none) => l.dropLast ++ [(a, some r.1)]
    | _ => l

/-- `swing_times` of one end-effector after the readings (time, force below 1e-3), motion_execution.py:424-426,498-507. -/
noncomputable def swingTimes (rs : List (ℝ × Bool)) : List (ℝ × Option ℝ) := rs.foldl swingStep []

/-- The readings of one end-effector: in the pass at time `t` there is one reading per contact point of that end-effector that the simulator reports
(`get_force`, simulator.py:64-100, lists contact points only), with `np.sum(np.abs(force))` compared to 1e-3, motion_execution.py:493-499. -/
noncomputable def footReadings (passes : List (ℝ × List ℝ)) : List (ℝ × Bool) :=
  passes.flatMap fun r => r.2.map fun s => (r.1, decide (s < 1 / 1000))

/-- The velocity `calculate_momentum` divides out of a configuration difference `dq` accumulated since the last pass, motion_execution.py:321-335, for one entry. -/
noncomputable def momentumVelocity (n : Nat) (dq : ℝ) : ℝ := if deltaT n < 1 / 100000000 then 0 else dq / deltaT n

/-! ### Simulator -/

/-- The joints of the simulator: `pinId i` is `pinocchio_joint_ids[i]`, simulator.py:36. -/
structure Joints (n : Nat) where
  pinId : Fin n → Nat

/-- `pin2bullet_joint_only_array`, simulator.py:38-40: entry `k` is the first index with `pinocchio_joint_ids == k + 2` (`IndexError` if there is none). -/
def Joints.pin2bullet {n : Nat} (j : Joints n) (k : Fin n) : Option (Fin n) := (List.finRange n).find? fun i => decide (j.pinId i = (k : Nat) + 2)

/-- `send_joint_command`, simulator.py:142-150: the torque sent to `joint_names[i]`; `tau k` is entry `k`. -/
def Joints.send {n : Nat} (j : Joints n) (tau : Fin n → ℝ) (i : Fin n) : Option ℝ := (j.pin2bullet i).map tau

/-- The state of the robot in pybullet: base position, quaternion, linear and angular velocity in the world, positions and velocities of the listed joints (simulator.py:102-140). -/
structure Bullet (n : Nat) where
  pos : Fin 3 → ℝ
  quat : Fin 4 → ℝ
  lin : Fin 3 → ℝ
  ang : Fin 3 → ℝ
  jpos : Fin n → ℝ
  jvel : Fin n → ℝ

/-- A pinocchio configuration and velocity by index (simulator.py:102-140). -/
structure Pin where
  q : Nat → ℝ
  dq : Nat → ℝ

open Matrix in
/-- `reset_state`, simulator.py:129-140; `rot` is `p.getMatrixFromQuaternion`. -/
noncomputable def Joints.reset {n : Nat} (j : Joints n) (rot : (Fin 4 → ℝ) → Matrix (Fin 3) (Fin 3) ℝ) (x : Pin) : Bullet n :=
  let quat : Fin 4 → ℝ := fun i => x.q (3 + i)
  { pos := fun i => x.q i, quat := quat,
    lin := rot quat *ᵥ fun i => x.dq i, ang := rot quat *ᵥ fun i => x.dq (3 + i),
    jpos := fun i => x.q (5 + j.pinId i), jvel := fun i => x.dq (4 + j.pinId i) }

/-- A loop of assignments `a[f i] = v i` for `i` in order, starting from `a` (simulator.py:19-50, 102-150). -/
def assignAll {n : Nat} (a : Nat → ℝ) (f : Fin n → Nat) (v : Fin n → ℝ) : Nat → ℝ :=
  (List.finRange n).foldl (fun a i c => if c = f i then v i else a c) a

open Matrix in
/-- `get_state`, simulator.py:102-127. -/
noncomputable def Joints.get {n : Nat} (j : Joints n) (rot : (Fin 4 → ℝ) → Matrix (Fin 3) (Fin 3) ℝ) (b : Bullet n) : Pin :=
  let q0 : Nat → ℝ := fun c => if h : c < 3 then b.pos ⟨c, h⟩ else if h : c - 3 < 4 then b.quat ⟨c - 3, h⟩ else 0
  let r := (rot b.quat)ᵀ
  let dq0 : Nat → ℝ := fun c => if h : c < 3 then (r *ᵥ b.lin) ⟨c, h⟩ else if h : c - 3 < 3 then (r *ᵥ b.ang) ⟨c - 3, h⟩ else 0
  { q := assignAll q0 (fun i => 5 + j.pinId i) b.jpos, dq := assignAll dq0 (fun i => 4 + j.pinId i) b.jvel }

end PyExec
end Verif
