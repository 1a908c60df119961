import Mathlib.LinearAlgebra.Matrix.Notation
import Mathlib.Data.Matrix.Mul
import Mathlib.LinearAlgebra.Matrix.Determinant.Basic
import Mathlib.Analysis.SpecialFunctions.Pow.NNReal
import Mathlib.Tactic.LinearCombination

/-!
Model of the containers of contacts and states: /repo/momentumopt/src/momentumopt/cntopt/ContactState.cpp, /repo/momentumopt/src/momentumopt/dynopt/DynamicsState.cpp and
/repo/momentumopt/include/momentumopt/kinopt/KinematicsState.hpp.

Simplifications: exact reals; a file is the function that gives, for every name read, the list found there or `none` when `YAML::ReadParameter` throws; a list of numbers of a contact that is too short,
which Eigen rejects with an assertion only, is `none` too. Eigen's conversion of a matrix to a quaternion is modelled after its source (`quaternionbase_assign_impl<…, 3, 3>`), as it is external.
Not modelled: `toString`.
-/
namespace Verif
namespace Cont
open Matrix

/-- Real 3x3 matrices (`Eigen::Matrix3d`, used in ContactState.cpp:65-77). -/
abbrev M3 := Matrix (Fin 3) (Fin 3) ℝ

/-- `Eigen::Quaternion<double>` (used in ContactState.hpp:84). -/
@[ext] structure Quat where
  /-- Real part. -/
  w : ℝ
  /-- First imaginary part. -/
  x : ℝ
  /-- Second imaginary part. -/
  y : ℝ
  /-- Third imaginary part. -/
  z : ℝ

/-- `Eigen::Quaternion::toRotationMatrix` as used by `placement.rotate(orientation_)`, ContactState.cpp:65-71: Eigen does not normalise. -/
def toMat (q : Quat) : M3 :=
  !![1 - 2 * (q.y * q.y + q.z * q.z), 2 * (q.x * q.y - q.w * q.z), 2 * (q.x * q.z + q.w * q.y);
     2 * (q.x * q.y + q.w * q.z), 1 - 2 * (q.x * q.x + q.z * q.z), 2 * (q.y * q.z - q.w * q.x);
     2 * (q.x * q.z - q.w * q.y), 2 * (q.y * q.z + q.w * q.x), 1 - 2 * (q.x * q.x + q.y * q.y)]

/-- The three numbers a branch of Eigen's conversion divides by twice the root of `t`: `(root, other, other, other)` (Eigen/src/Geometry/Quaternion.h, used in ContactState.cpp:76). -/
noncomputable def branch (t a b c : ℝ) : ℝ × ℝ × ℝ × ℝ := (√t / 2, a * (1 / 2 / √t), b * (1 / 2 / √t), c * (1 / 2 / √t))

open Classical in
/-- `Eigen::Quaternion<double>(matrix)` as used by `contactPlacement(placement)`, ContactState.cpp:73-77. -/
noncomputable def fromMat (m : M3) : Quat :=
  if 0 < m 0 0 + m 1 1 + m 2 2 then
    let r := branch (m 0 0 + m 1 1 + m 2 2 + 1) (m 2 1 - m 1 2) (m 0 2 - m 2 0) (m 1 0 - m 0 1)
    ⟨r.1, r.2.1, r.2.2.1, r.2.2.2⟩
  else
    let i : Fin 3 := if m 0 0 < m 1 1 then 1 else 0
    let i : Fin 3 := if m i i < m 2 2 then 2 else i
    let r := branch (m i i - m (i + 1) (i + 1) - m (i + 2) (i + 2) + 1) (m (i + 2) (i + 1) - m (i + 1) (i + 2)) (m (i + 1) i + m i (i + 1)) (m (i + 2) i + m i (i + 2))
    if i = 0 then ⟨r.2.1, r.1, r.2.2.1, r.2.2.2⟩ else if i = 1 then ⟨r.2.1, r.2.2.2, r.1, r.2.2.1⟩ else ⟨r.2.1, r.2.2.1, r.2.2.2, r.1⟩

/-- `ContactType`, ContactState.hpp:26. -/
inductive CType
  /-- `FreeContact`. -/
  | free
  /-- `FlatContact`. -/
  | flat
  /-- `FullContact`. -/
  | full
  deriving DecidableEq

/-- `idToContactType`, ContactState.cpp:17-26. -/
def idToContactType (id : Int) : CType := if id = 0 then .free else if id = 1 then .flat else if id = 2 then .full else .free

/-- Conversion of a double to an int, as in ContactState.cpp:45, 48: towards zero. -/
noncomputable def toInt (x : ℝ) : Int := if 0 ≤ x then ⌊x⌋ else ⌈x⌉

/-- `ContactState`, ContactState.hpp:79-84. -/
structure Contact where
  /-- `selected_as_active_`. -/
  active : Bool
  /-- `position_`. -/
  pos : Fin 3 → ℝ
  /-- `contact_type_`. -/
  ctype : CType
  /-- `time_ini_`. -/
  tini : ℝ
  /-- `time_end_`. -/
  tend : ℝ
  /-- `optimization_id_`. -/
  optId : Int
  /-- `terrain_id_`. -/
  terrain : Int
  /-- `orientation_`. -/
  ori : Quat

/-- The constructor from the parameters of the file, ContactState.cpp:40-50. -/
noncomputable def Contact.ofParams (p : Fin 11 → ℝ) (id : Int) : Contact := ⟨false, ![p 2, p 3, p 4], idToContactType (toInt (p 9)), p 0, p 1, id, toInt (p 10), ⟨p 5, p 6, p 7, p 8⟩⟩

/-- `contactPlacement()`, ContactState.cpp:65-71: rotation and translation of the homogeneous matrix. -/
def Contact.placement (c : Contact) : M3 × (Fin 3 → ℝ) := (toMat c.ori, c.pos)

/-- `contactPlacement(placement)`, ContactState.cpp:73-77. -/
noncomputable def Contact.setPlacement (c : Contact) (m : M3 × (Fin 3 → ℝ)) : Contact := { c with pos := m.2, ori := fromMat m.1 }

/-- `ContactSequence`, ContactState.hpp:91-114; the number of contacts is not initialised (`none`) before the first load. -/
structure Seq where
  /-- `num_optimization_contacts_`. -/
  num : Option Nat
  /-- `endeffector_contacts_`. -/
  cnts : Nat → List Contact

/-- The inner loop of `loadFromFile`, ContactState.cpp:94-95. -/
noncomputable def push : List (Fin 11 → ℝ) → Nat → List Contact
  | [], _ => []
  | p :: ps, k => Contact.ofParams p k :: push ps (k + 1)

/-- The loop over the end-effectors of `loadFromFile` from `e` on, ContactState.cpp:88-96; `k` is `num_optimization_contacts_`. It stops at the first list that cannot be read. -/
noncomputable def loadFrom (plan : Nat → Option (List (Fin 11 → ℝ))) : Nat → Nat → Nat → (Nat → List Contact) → Seq
  | 0, _, k, c => ⟨some k, c⟩
  | r + 1, e, k, c =>
    match plan e with
    | none => ⟨some k, c⟩
    | some ps => loadFrom plan r (e + 1) (k + ps.length) (Function.update c e (push ps k))

/-- `loadFromFile`, ContactState.cpp:81-100, for `n` end-effectors: `none` when the file cannot be opened. -/
noncomputable def load (n : Nat) (file : Option (Nat → Option (List (Fin 11 → ℝ)))) (s : Seq) : Seq :=
  match file with
  | none => s
  | some plan => loadFrom plan n 0 0 s.cnts

/-! ### Initial state -/

/-- The part of `DynamicsState` read from the file, DynamicsState.hpp:109-117. -/
structure Ini where
  /-- `com_`. -/
  com : Fin 3 → ℝ
  /-- `lmom_`. -/
  lmom : Fin 3 → ℝ
  /-- `amom_`. -/
  amom : Fin 3 → ℝ
  /-- `eff_activations_`. -/
  act : Nat → Bool
  /-- `eff_positions_`. -/
  pos : Nat → Fin 3 → ℝ
  /-- `eff_orientations_`. -/
  ori : Nat → Quat
  /-- `eff_forces_`. -/
  frc : Nat → Fin 3 → ℝ

/-- What the file holds; `none` where reading throws (DynamicsState.cpp:68-87). -/
structure IniFile where
  /-- `com`. -/
  com : Option (Fin 3 → ℝ)
  /-- `lmom`. -/
  lmom : Option (Fin 3 → ℝ)
  /-- `amom`. -/
  amom : Option (Fin 3 → ℝ)
  /-- `eef_pose`, 8 numbers per end-effector. -/
  pose : Nat → Option (Fin 8 → ℝ)
  /-- `eef_frc_…`. -/
  frc : Nat → Option (Fin 3 → ℝ)

/-- The loop of `fillInitialRobotState` from end-effector `e` on, DynamicsState.cpp:77-83. -/
noncomputable def fillEffs (f : IniFile) : Nat → Nat → Ini → Ini
  | 0, _, s => s
  | r + 1, e, s =>
    match f.pose e with
    | none => s
    | some p =>
      let s1 := { s with act := Function.update s.act e (toInt (p 0) ≠ 0), pos := Function.update s.pos e ![p 1, p 2, p 3], ori := Function.update s.ori e ⟨p 4, p 5, p 6, p 7⟩ }
      match f.frc e with
      | none => s1
      | some v => fillEffs f r (e + 1) { s1 with frc := Function.update s1.frc e v }

/-- `fillInitialRobotState`, DynamicsState.cpp:68-87, for `n` end-effectors. -/
noncomputable def fillIni (n : Nat) (f : Option IniFile) (s : Ini) : Ini :=
  match f with
  | none => s
  | some f =>
    match f.com with
    | none => s
    | some c =>
      match f.lmom with
      | none => { s with com := c }
      | some l =>
        match f.amom with
        | none => { s with com := c, lmom := l }
        | some a => fillEffs f n 0 { s with com := c, lmom := l, amom := a }

/-! ### Postures and velocities -/

/-- `RobotPosture`, KinematicsState.hpp:22-69. -/
structure Posture where
  /-- `num_joints_`. -/
  n : Nat
  /-- `base_position_`. -/
  base : Fin 3 → ℝ
  /-- `joint_positions_`. -/
  joints : List ℝ
  /-- `base_orientation_`. -/
  ori : Quat

/-- The constructor, KinematicsState.hpp:28-33. -/
def Posture.fresh (n : Nat) : Posture := ⟨n, 0, List.replicate n 0, ⟨1, 0, 0, 0⟩⟩

/-- `pyBaseOrientation()`, KinematicsState.hpp:43. -/
def Posture.pyOri (p : Posture) : Fin 4 → ℝ := ![p.ori.x, p.ori.y, p.ori.z, p.ori.w]

/-- `pyBaseOrientation(v)`, KinematicsState.hpp:48. -/
def Posture.setPyOri (p : Posture) (v : Fin 4 → ℝ) : Posture := { p with ori := ⟨v 3, v 0, v 1, v 2⟩ }

/-- `generalizedJointPositions`, KinematicsState.hpp:50-57: `none` when the assignment of the joints has the wrong size. -/
def Posture.generalized (p : Posture) : Option (List ℝ) :=
  if p.joints.length = p.n then some ([p.base 0, p.base 1, p.base 2] ++ [p.ori.x, p.ori.y, p.ori.z, p.ori.w] ++ p.joints) else none

/-- `RobotVelocity` and `RobotAcceleration`, KinematicsState.hpp:70-139: the vector of all velocities, which `Eigen::Ref` views share. -/
structure Vel (n : Nat) where
  /-- `generalized_joint_velocities_`. -/
  g : Fin (n + 6) → ℝ

/-- `baseLinearVelocity()`, KinematicsState.hpp:83. -/
def Vel.lin {n : Nat} (v : Vel n) : Fin 3 → ℝ := fun i => v.g ⟨i, by omega⟩

/-- `baseAngularVelocity()`, KinematicsState.hpp:84. -/
def Vel.ang {n : Nat} (v : Vel n) : Fin 3 → ℝ := fun i => v.g ⟨i + 3, by omega⟩

/-- `jointVelocities()`, KinematicsState.hpp:85: the tail. -/
def Vel.jnt {n : Nat} (v : Vel n) : Fin n → ℝ := fun i => v.g ⟨i + 6, by omega⟩

/-- `baseLinearVelocity(x)`, KinematicsState.hpp:94. -/
def Vel.setLin {n : Nat} (v : Vel n) (x : Fin 3 → ℝ) : Vel n := ⟨fun k => if h : (k : Nat) < 3 then x ⟨k, h⟩ else v.g k⟩

/-- `baseAngularVelocity(x)`, KinematicsState.hpp:95. -/
def Vel.setAng {n : Nat} (v : Vel n) (x : Fin 3 → ℝ) : Vel n := ⟨fun k => if h : 3 ≤ (k : Nat) ∧ (k : Nat) < 6 then x ⟨k - 3, by omega⟩ else v.g k⟩

/-- `jointVelocities(x)`, KinematicsState.hpp:93. -/
def Vel.setJnt {n : Nat} (v : Vel n) (x : Fin n → ℝ) : Vel n := ⟨fun k => if h : 6 ≤ (k : Nat) then x ⟨k - 6, by omega⟩ else v.g k⟩

end Cont
end Verif
