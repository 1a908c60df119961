/-
Model of /repo/momentumopt/src/momentumopt/utilities/OrientationUtils.cpp.

Simplifications: exact real arithmetic; quaternions have Eigen's Hamilton product; `normalize` leaves the zero quaternion unchanged and
`inverse` of the zero quaternion is zero (as in Eigen); `inverse` of a singular matrix, which is undefined in Eigen, is zero (Mathlib).
-/
import Mathlib.Algebra.Group.Action.Defs
import Mathlib.Analysis.SpecialFunctions.Trigonometric.Inverse
import Mathlib.LinearAlgebra.Matrix.NonsingularInverse
import Mathlib.LinearAlgebra.CrossProduct
import Mathlib.Analysis.Real.Sqrt

namespace Verif
namespace Orient
open Matrix Classical

/-- `Eigen::Vector3d` (OrientationUtils.cpp:14-154). -/
abbrev V3 := Fin 3 → ℝ
/-- `Eigen::Matrix3d` (OrientationUtils.cpp:14-154). -/
abbrev M3 := Matrix (Fin 3) (Fin 3) ℝ

/-- `Eigen::Quaternion<double>` (OrientationUtils.cpp:24-154). -/
@[ext] structure Qt where
  w : ℝ
  x : ℝ
  y : ℝ
  z : ℝ

namespace Qt
/-- `w() *= -1; vec() *= -1`. -/
instance : Neg Qt := ⟨fun q => ⟨-q.w, -q.x, -q.y, -q.z⟩⟩
/-- Scaling of the coefficients. -/
instance : SMul ℝ Qt := ⟨fun a q => ⟨a * q.w, a * q.x, a * q.y, a * q.z⟩⟩
/-- `Quaternion::operator*` (Eigen/src/Geometry/Quaternion.h, `quat_product`). -/
instance : Mul Qt := ⟨fun a b =>
  ⟨a.w * b.w - a.x * b.x - a.y * b.y - a.z * b.z,
   a.w * b.x + a.x * b.w + a.y * b.z - a.z * b.y,
   a.w * b.y + a.y * b.w + a.z * b.x - a.x * b.z,
   a.w * b.z + a.z * b.w + a.x * b.y - a.y * b.x⟩⟩
@[simp] theorem w_neg (q : Qt) : (-q).w = -q.w := rfl
@[simp] theorem x_neg (q : Qt) : (-q).x = -q.x := rfl
@[simp] theorem y_neg (q : Qt) : (-q).y = -q.y := rfl
@[simp] theorem z_neg (q : Qt) : (-q).z = -q.z := rfl
@[simp] theorem w_smul (a : ℝ) (q : Qt) : (a • q).w = a * q.w := rfl
@[simp] theorem x_smul (a : ℝ) (q : Qt) : (a • q).x = a * q.x := rfl
@[simp] theorem y_smul (a : ℝ) (q : Qt) : (a • q).y = a * q.y := rfl
@[simp] theorem z_smul (a : ℝ) (q : Qt) : (a • q).z = a * q.z := rfl
@[simp] theorem w_mul (a b : Qt) : (a * b).w = a.w * b.w - a.x * b.x - a.y * b.y - a.z * b.z := rfl
@[simp] theorem x_mul (a b : Qt) : (a * b).x = a.w * b.x + a.x * b.w + a.y * b.z - a.z * b.y := rfl
@[simp] theorem y_mul (a b : Qt) : (a * b).y = a.w * b.y + a.y * b.w + a.z * b.x - a.x * b.z := rfl
@[simp] theorem z_mul (a b : Qt) : (a * b).z = a.w * b.z + a.z * b.w + a.x * b.y - a.y * b.x := rfl
end Qt

/-- `Vector3d::norm` (OrientationUtils.cpp:45-50). -/
noncomputable def norm3 (v : V3) : ℝ := √(v 0 ^ 2 + v 1 ^ 2 + v 2 ^ 2)
/-- `Quaternion::vec` (OrientationUtils.cpp:30-50). -/
def vec (q : Qt) : V3 := ![q.x, q.y, q.z]
/-- Quaternion from `w()` and `vec()` (OrientationUtils.cpp:46-50). -/
def quat (w : ℝ) (v : V3) : Qt := ⟨w, v 0, v 1, v 2⟩
/-- Squared norm of a quaternion (OrientationUtils.cpp:27). -/
def sq (q : Qt) : ℝ := q.w ^ 2 + q.x ^ 2 + q.y ^ 2 + q.z ^ 2
/-- `Quaternion::normalize` (OrientationUtils.cpp:27, 52). -/
noncomputable def normalize (q : Qt) : Qt := if sq q > 0 then (√(sq q))⁻¹ • q else q
/-- `Quaternion::inverse`: conjugate over squared norm, zero for zero (OrientationUtils.cpp:119). -/
noncomputable def inverse (q : Qt) : Qt := if sq q > 0 then (sq q)⁻¹ • ⟨q.w, -q.x, -q.y, -q.z⟩ else ⟨0, 0, 0, 0⟩
/-- `w() *= -1; vec() *= -1` if `w() < 0`, OrientationUtils.cpp:28-31,53-56. -/
noncomputable def flipW (q : Qt) : Qt := if q.w < 0 then -q else q

/-- `skewMatrix`, OrientationUtils.cpp:14-21. -/
def skew (v : V3) : M3 := !![0, -v 2, v 1; v 2, 0, -v 0; -v 1, v 0, 0]

/-- `logarithmicMap`, OrientationUtils.cpp:24-39. -/
noncomputable def logMap (q : Qt) : V3 :=
  let n := flipW (normalize q)
  if |1 - n.w| < 1 / 100 then (2 : ℝ) • vec n
  else
    let norm := 2 * Real.arccos n.w
    (norm / Real.sin (1 / 2 * norm)) • vec n

/-- `exponentialMap`, OrientationUtils.cpp:42-58. -/
noncomputable def expMap (v : V3) : Qt :=
  let q :=
    if norm3 v < 1 / 100 then quat 1 ((1 / 2 : ℝ) • v)
    else quat (Real.cos (norm3 v / 2)) (Real.sin (1 / 2 * norm3 v) • ((norm3 v)⁻¹ • v))
  flipW (normalize q)

/-- `toQuaternionMatrix`, OrientationUtils.cpp:61-69: rows and columns are `w` and the three entries of `vec`. -/
def quatMatrix (q : Qt) (conj : Bool) : Matrix (Fin 4) (Fin 4) ℝ :=
  let s : M3 := if conj then -skew (vec q) else skew (vec q)
  !![q.w, -q.x, -q.y, -q.z;
     q.x, q.w + s 0 0, s 0 1, s 0 2;
     q.y, s 1 0, q.w + s 1 1, s 1 2;
     q.z, s 2 0, s 2 1, q.w + s 2 2]

/-- `jacobianQuaternionWrtRotationVector`, OrientationUtils.cpp:72-86. -/
noncomputable def jacQuat (v : V3) : Matrix (Fin 4) (Fin 3) ℝ :=
  let n := norm3 v
  if n < 1 / 100 then fun i j => if h : i = 0 then -(1 / 4) * v j else if i.pred h = j then 1 / 2 else 0
  else
    let f1 := 1 / 2 * Real.sin (1 / 2 * n) / n
    let f2 := (Real.cos (1 / 2 * n) * n - 2 * Real.sin (1 / 2 * n)) / (2 * n ^ 3)
    fun i j => if h : i = 0 then -f1 * v j else (if i.pred h = j then 2 * f1 else 0) + f2 * (v (i.pred h) * v j)

/-- `jacobianAngularVelocityWrtRotationVector`, OrientationUtils.cpp:89-94. -/
noncomputable def jacOmega (v : V3) : M3 :=
  let e : Matrix (Fin 3) (Fin 4) ℝ := fun i j => if j = 0 then -quatMatrix (expMap v) false i.succ j else quatMatrix (expMap v) false i.succ j
  e * jacQuat v

/-- `toAngularVelocity`, OrientationUtils.cpp:97-101. -/
noncomputable def toOmega (v rates : V3) (body : Bool) : V3 :=
  if body then ((2 : ℝ) • (jacOmega v)ᵀ) *ᵥ rates else ((2 : ℝ) • jacOmega v) *ᵥ rates

/-- `fromAngularVelocity`, OrientationUtils.cpp:104-108. -/
noncomputable def fromOmega (v omega : V3) (body : Bool) : V3 :=
  if body then ((1 / 2 : ℝ) • ((jacOmega v)⁻¹)ᵀ) *ᵥ omega else ((1 / 2 : ℝ) • (jacOmega v)⁻¹) *ᵥ omega

/-- `Quaternion::dot` (OrientationUtils.cpp:117). -/
def qdot (p q : Qt) : ℝ := p.w * q.w + p.x * q.x + p.y * q.y + p.z * q.z

/-- The quaternion whose logarithm is taken in `requiredAngularVelocity` and `orientationError`, OrientationUtils.cpp:115-119,145-149, and the current
orientation with its sign adjusted. -/
noncomputable def delta (desired current : Qt) : Qt × Qt :=
  let d := normalize desired
  let c := normalize current
  let c := if qdot c d < 0 then -c else c
  (d * inverse c, c)

/-- `requiredAngularVelocity`, OrientationUtils.cpp:111-124. -/
noncomputable def required (desired current : Qt) (dt : ℝ) (body : Bool) : V3 :=
  let r := delta desired current
  toOmega (logMap r.2) (dt⁻¹ • logMap r.1) body

/-- `integrateAngularVelocity`, OrientationUtils.cpp:127-139: the increment is applied to the orientation as given. -/
noncomputable def integrate (current : Qt) (omega : V3) (dt : ℝ) (body : Bool) : Qt :=
  let c := flipW (normalize current)
  expMap (dt • fromOmega (logMap c) omega body) * current

/-- `orientationError`, OrientationUtils.cpp:142-152. -/
noncomputable def orientationError (desired current : Qt) : V3 := logMap (delta desired current).1

end Orient
end Verif
