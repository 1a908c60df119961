import Verif.PyLqr
import Mathlib.LinearAlgebra.Matrix.PosDef
import Mathlib.LinearAlgebra.CrossProduct
import Mathlib.Algebra.Order.Star.Real
import Mathlib.Analysis.SpecialFunctions.Complex.Arg

/-!
Model of the LQR gains on the manifold of states, /repo/momentumopt/python/momentumopt/kinoptpy/lqr_gain_manifold.py:25-428 (`CentroidalLqr`).

Simplifications: exact reals; a state is a structure of position, velocity, quaternion and angular velocity instead of a vector of 13 numbers; a Cholesky factorisation succeeds exactly for positive
definite matrices and `cho_solve` is multiplication by the inverse; `eigh` in `_smooth_inv` is exact; `arctan2(y, x)` is the argument of `x + i y`. Not modelled: reading the files, the assertion on the
norms of the quaternions (lines 55-61), `integrate_veocity` and `integrate_angular_velocity` (unused), the scaled inertia (unused).
-/
namespace Verif
namespace PyMan
open Matrix

/-- A vector of three numbers (lqr_gain_manifold.py:25-428). -/
abbrev V3 := Fin 3 → ℝ

/-- A real matrix (lqr_gain_manifold.py:25-428). -/
abbrev Mat (m n : Nat) := Matrix (Fin m) (Fin n) ℝ

/-- A quaternion `[x, y, z, w]`, lqr_gain_manifold.py:56-59. -/
@[ext] structure Quat where
  /-- First imaginary part, index 0. -/
  x : ℝ
  /-- Second imaginary part, index 1. -/
  y : ℝ
  /-- Third imaginary part, index 2. -/
  z : ℝ
  /-- Real part, index 3. -/
  w : ℝ

/-- `q[:3]`, lqr_gain_manifold.py:118. -/
def Quat.vec (q : Quat) : V3 := ![q.x, q.y, q.z]

/-- `self.eps`, lqr_gain_manifold.py:40. -/
noncomputable def eps : ℝ := 1 / 10 ^ 6

/-- `self.dt`, lqr_gain_manifold.py:41. -/
noncomputable def dt : ℝ := 1 / 1000

/-- `np.linalg.norm` of a vector of three numbers, lqr_gain_manifold.py:124, 140. -/
noncomputable def nrm (v : V3) : ℝ := Real.sqrt (v 0 ^ 2 + v 1 ^ 2 + v 2 ^ 2)

/-- `skew`, lqr_gain_manifold.py:109-114. -/
def skew (v : V3) : Mat 3 3 := !![0, -v 2, v 1; v 2, 0, -v 0; -v 1, v 0, 0]

/-- `quaternion_to_rotation`, lqr_gain_manifold.py:116-119. -/
def toRot (q : Quat) : Mat 3 3 := (q.w ^ 2 - q.vec ⬝ᵥ q.vec) • (1 : Mat 3 3) + (2 : ℝ) • vecMulVec q.vec q.vec + (2 * q.w) • skew q.vec

open Classical in
/-- `exp_quaternion`, lqr_gain_manifold.py:121-134. -/
noncomputable def expQ (w : V3) : Quat :=
  let th := nrm w
  if th ^ 2 ≤ eps then ⟨(1 - th ^ 2 / 6) * w 0, (1 - th ^ 2 / 6) * w 1, (1 - th ^ 2 / 6) * w 2, 1 - th ^ 2 / 2⟩
  else ⟨Real.sin th * (w 0 / th), Real.sin th * (w 1 / th), Real.sin th * (w 2 / th), Real.cos th⟩

open Classical in
/-- `log_quaternion`, lqr_gain_manifold.py:136-144. -/
noncomputable def logQ (q : Quat) : V3 :=
  let n := nrm q.vec
  if n ≤ eps then fun i => 2 * q.vec i / q.w * (1 - n ^ 2 / (3 * q.w ^ 2))
  else fun i => 2 * Complex.arg ⟨q.w, n⟩ * q.vec i / n

/-- `quaternion_product`, lqr_gain_manifold.py:146-151. -/
def prod (a b : Quat) : Quat :=
  ⟨crossProduct a.vec b.vec 0 + b.w * a.x + a.w * b.x, crossProduct a.vec b.vec 1 + b.w * a.y + a.w * b.y, crossProduct a.vec b.vec 2 + b.w * a.z + a.w * b.z, a.w * b.w - a.vec ⬝ᵥ b.vec⟩

/-- `integrate_quaternion`, lqr_gain_manifold.py:153-156. -/
noncomputable def integ (q : Quat) (w : V3) : Quat := prod (expQ ((1 / 2 : ℝ) • w)) q

/-- `q1conjugate`, lqr_gain_manifold.py:164. -/
def conj (q : Quat) : Quat := ⟨-q.x, -q.y, -q.z, q.w⟩

/-- `quaternion_difference`, lqr_gain_manifold.py:158-168. -/
noncomputable def qdiff (q1 q2 : Quat) : V3 := logQ (prod q2 (conj q1))

/-- The state `x = [c, v, q, w]`, lqr_gain_manifold.py:187-193. -/
@[ext] structure X where
  /-- Center of mass. -/
  c : V3
  /-- Its velocity. -/
  v : V3
  /-- Orientation of the base. -/
  q : Quat
  /-- Angular velocity. -/
  w : V3

/-- `self.weight`, lqr_gain_manifold.py:48. -/
noncomputable def weight : V3 := ![0, 0, PyLqr.mass * (981 / 100)]

/-- The inertia in the world frame, lqr_gain_manifold.py:197-198 (the numbers of line 44 are those of `PyLqr.inertia`). -/
noncomputable def worldI (q : Quat) : Mat 3 3 := toRot q * PyLqr.inertia * (toRot q)ᵀ

/-- `integrate_step` when the factorisation succeeds, lqr_gain_manifold.py:187-201; `act` is `self.active_contacts[t]`. -/
noncomputable def stepVal (act : ℝ) (x : X) (u : Fin 6 → ℝ) : X where
  c := x.c + dt • x.v
  v := x.v + (dt / PyLqr.mass) • (act • ![u 0, u 1, u 2] - weight)
  q := integ x.q (dt • x.w)
  w := x.w + dt • ((worldI x.q)⁻¹ *ᵥ (act • ![u 3, u 4, u 5] - crossProduct x.w (worldI x.q *ᵥ x.w)))

open Classical in
/-- `integrate_step`, lqr_gain_manifold.py:187-201: `none` when `cho_factor` raises. -/
noncomputable def step (act : ℝ) (x : X) (u : Fin 6 → ℝ) : Option X := if (worldI x.q).PosDef then some (stepVal act x u) else none

/-- `compute_trajectory_from_controls`, lqr_gain_manifold.py:180-184: row `t`. -/
noncomputable def traj (act : Nat → ℝ) (init : X) (u : Nat → Fin 6 → ℝ) : Nat → Option X
  | 0 => some init
  | t + 1 => (traj act init u t).bind fun x => step (act t) x (u t)

open Classical in
/-- `switching_dynamics`, lqr_gain_manifold.py:93-104: the flag of a row of contact activations. -/
noncomputable def active (contacts : List ℝ) : ℝ := if eps < contacts.sum then 1 else 0

/-- `increment_x`, lqr_gain_manifold.py:203-213. -/
noncomputable def inc (x : X) (d : Fin 12 → ℝ) : X where
  c := x.c + ![d 0, d 1, d 2]
  v := x.v + ![d 3, d 4, d 5]
  q := integ x.q ![d 6, d 7, d 8]
  w := x.w + ![d 9, d 10, d 11]

/-- `diff_x`, lqr_gain_manifold.py:215-221. -/
noncomputable def diff (x1 x2 : X) : Fin 12 → ℝ :=
  let dq := qdiff x1.q x2.q
  ![x2.c 0 - x1.c 0, x2.c 1 - x1.c 1, x2.c 2 - x1.c 2, x2.v 0 - x1.v 0, x2.v 1 - x1.v 1, x2.v 2 - x1.v 2, dq 0, dq 1, dq 2, x2.w 0 - x1.w 0, x2.w 1 - x1.w 1, x2.w 2 - x1.w 2]

/-- `fx` of `dynamics_derivatives`, lqr_gain_manifold.py:223-234. -/
noncomputable def fx (act : ℝ) (x : X) (u : Fin 6 → ℝ) : Mat 12 12 :=
  Matrix.of fun r i => diff (stepVal act (inc x (Pi.single i eps)) u) (stepVal act x u) r / eps

/-- `fu` of `dynamics_derivatives`, lqr_gain_manifold.py:235-242. -/
noncomputable def fu (act : ℝ) (x : X) (u : Fin 6 → ℝ) : Mat 12 6 :=
  Matrix.of fun r i => diff (stepVal act x (u + Pi.single i eps)) (stepVal act x u) r / eps

/-! ### Costs -/

/-- What `__init__` sets up: horizon, reference, nominal controls, weights, contact flags, lqr_gain_manifold.py:50-78. -/
structure Par where
  /-- `self.N`. -/
  N : Nat
  /-- `self.x0`. -/
  x0 : Nat → X
  /-- `self.u0`. -/
  u0 : Nat → Fin 6 → ℝ
  /-- `self.Q`. -/
  Q : Nat → Mat 12 12
  /-- `self.R`. -/
  R : Nat → Mat 6 6
  /-- `self.active_contacts`. -/
  act : Nat → ℝ

/-- `cost`, lqr_gain_manifold.py:244-251. -/
noncomputable def cost (p : Par) (t : Nat) (x : X) (u : Fin 6 → ℝ) : ℝ :=
  let d := diff (p.x0 t) x
  if t = p.N then d ⬝ᵥ p.Q t *ᵥ d else 1 / 2 * (d ⬝ᵥ p.Q t *ᵥ d) + 1 / 2 * (u ⬝ᵥ p.R t *ᵥ u)

/-- The variables of the two loops of `cost_dxdx`, lqr_gain_manifold.py:284-286. -/
structure HSt (n : Nat) where
  /-- `dx1`. -/
  d1 : Fin n → ℝ
  /-- `dx2`. -/
  d2 : Fin n → ℝ
  /-- `cxx`. -/
  m : Mat n n

/-- `d[i] += a`, lqr_gain_manifold.py:288-304. -/
def bump {n : Nat} (d : Fin n → ℝ) (i : Fin n) (a : ℝ) : Fin n → ℝ := d + Pi.single i a

/-- The body of the inner loop of `cost_dxdx`, lqr_gain_manifold.py:290-302; `F d` is `cost(t, increment_x(x, d), u)`. -/
noncomputable def hCol {n : Nat} (F : (Fin n → ℝ) → ℝ) (row : Fin n) (s : HSt n) (col : Fin n) : HSt n :=
  let a := bump s.d1 col eps
  let b := bump a col (-(2 * eps))
  let a' := bump s.d2 col eps
  let b' := bump a' col (-(2 * eps))
  -- line 295 subtracts `eps` where line 301 adds it
  ⟨bump b col (-eps), bump b' col eps, s.m.updateRow row (Function.update (s.m row) col (F a - F b - F a' + F b'))⟩

/-- The body of the outer loop of `cost_dxdx`, lqr_gain_manifold.py:287-304. -/
noncomputable def hRow {n : Nat} (F : (Fin n → ℝ) → ℝ) (s : HSt n) (row : Fin n) : HSt n :=
  let s1 := (List.finRange n).foldl (hCol F row) ⟨bump s.d1 row eps, bump s.d2 row (-eps), s.m⟩
  ⟨bump s1.d1 row (-eps), bump s1.d2 row eps, s1.m⟩

/-- `cost_dxdx` for the function `F d` of the increment, lqr_gain_manifold.py:282-306. -/
noncomputable def hessian {n : Nat} (F : (Fin n → ℝ) → ℝ) : Mat n n :=
  let s := (List.finRange n).foldl (hRow F) ⟨0, 0, 0⟩
  (1 / 2 : ℝ) • ((1 / (4 * eps ^ 2)) • s.m + ((1 / (4 * eps ^ 2)) • s.m)ᵀ)

/-- `cost_dxdx`, lqr_gain_manifold.py:282-306. -/
noncomputable def costXX (p : Par) (t : Nat) (x : X) (u : Fin 6 → ℝ) : Mat 12 12 := hessian fun d => cost p t (inc x d) u

/-- `cost_dudu`, lqr_gain_manifold.py:308-335. -/
noncomputable def costUU (p : Par) (t : Nat) : Mat 6 6 := if t = p.N then 0 else (1 / 2 : ℝ) • (p.R t + (p.R t)ᵀ)

/-- `cx` of `cost_derivatives`, lqr_gain_manifold.py:257-266. -/
noncomputable def costX (p : Par) (t : Nat) (x : X) (u : Fin 6 → ℝ) : Fin 12 → ℝ := fun i => (cost p t (inc x (Pi.single i eps)) u - cost p t x u) / eps

/-- `cu` of `cost_derivatives`, lqr_gain_manifold.py:267-273. -/
noncomputable def costU (p : Par) (t : Nat) (x : X) (u : Fin 6 → ℝ) : Fin 6 → ℝ := fun i => (cost p t x (u + Pi.single i eps) - cost p t x u) / eps

/-! ### The backward pass -/

/-- The quadratic value function, lqr_gain_manifold.py:81-83. -/
structure Val (n : Nat) where
  /-- `value`. -/
  v : ℝ
  /-- `value_dx`. -/
  vx : Fin n → ℝ
  /-- `value_dxdx`. -/
  vxx : Mat n n

/-- The quadratic function of state and control, lqr_gain_manifold.py:84-89. -/
structure QF (n m : Nat) where
  /-- `Q0`. -/
  q : ℝ
  /-- `Qdx`. -/
  qx : Fin n → ℝ
  /-- `Qdu`. -/
  qu : Fin m → ℝ
  /-- `Qdxdx`. -/
  qxx : Mat n n
  /-- `Qdudu`. -/
  quu : Mat m m
  /-- `Qdxdu`. -/
  qxu : Mat n m

/-- A stage: derivatives of cost and dynamics at a time step, lqr_gain_manifold.py:367-369. -/
structure Stage (n m : Nat) where
  /-- `cost(t, x, u)`. -/
  c : ℝ
  /-- `cx`. -/
  cx : Fin n → ℝ
  /-- `cu`. -/
  cu : Fin m → ℝ
  /-- `cxx`. -/
  cxx : Mat n n
  /-- `cuu`. -/
  cuu : Mat m m
  /-- `cxu`. -/
  cxu : Mat n m
  /-- `fx`. -/
  A : Mat n n
  /-- `fu`. -/
  B : Mat n m

/-- `compute_Q`, lqr_gain_manifold.py:366-374. -/
def computeQ {n m : Nat} (s : Stage n m) (nx : Val n) : QF n m where
  q := s.c + nx.v
  qx := s.cx + nx.vx ᵥ* s.A
  qu := s.cu + nx.vx ᵥ* s.B
  qxx := s.cxx + s.Aᵀ * nx.vxx * s.A
  quu := s.cuu + s.Bᵀ * nx.vxx * s.B
  qxu := s.cxu + s.Aᵀ * nx.vxx * s.B

open Classical in
/-- The inverse `compute_value_function` multiplies with, lqr_gain_manifold.py:376-391: that of `Qdudu` if it is positive definite, else the smoothed one of `_smooth_inv`, which replaces the eigenvalue
`w` by `w / (w² + 0.01)`. -/
noncomputable def invUsed {m : Nat} (quu : Mat m m) : Mat m m := if quu.PosDef then quu⁻¹ else quu * (quu * quu + (1 / 100 : ℝ) • 1)⁻¹

/-- The result of `compute_value_function`, lqr_gain_manifold.py:383-401. -/
structure Gains (n m : Nat) where
  /-- `kff`. -/
  kff : Fin m → ℝ
  /-- `kfb`. -/
  kfb : Mat m n
  /-- The value function. -/
  val : Val n

/-- `compute_value_function`, lqr_gain_manifold.py:383-401. -/
noncomputable def valueFn {n m : Nat} (q : QF n m) : Gains n m :=
  let kff := invUsed q.quu *ᵥ q.qu
  let kfb := invUsed q.quu * q.qxuᵀ
  ⟨kff, kfb, ⟨q.q + 1 / 2 * (kff ⬝ᵥ q.quu *ᵥ kff) - kff ⬝ᵥ q.qu, q.qx - (2 : ℝ) • (q.qu ᵥ* kfb) + (kff ᵥ* q.quu) ᵥ* kfb, q.qxx - q.qxu * kfb⟩⟩

/-- The loop of `compute_gains` over the stages, last first, lqr_gain_manifold.py:414-424: the gains in order of time and the value function at the first stage. -/
noncomputable def backward {n m : Nat} (final : Val n) : List (Stage n m) → List (Gains n m) × Val n
  | [] => ([], final)
  | s :: ss =>
    let later := backward final ss
    let g := valueFn (computeQ s later.2)
    (g :: later.1, g.val)

/-- The derivatives at time step `t` of the reference, lqr_gain_manifold.py:366-369, 420-422. -/
noncomputable def stage (p : Par) (t : Nat) : Stage 12 6 :=
  ⟨cost p t (p.x0 t) (p.u0 t), costX p t (p.x0 t) (p.u0 t), costU p t (p.x0 t) (p.u0 t), costXX p t (p.x0 t) (p.u0 t), costUU p t, 0,
    fx (p.act t) (p.x0 t) (p.u0 t), fu (p.act t) (p.x0 t) (p.u0 t)⟩

/-- The value function at the end of the horizon, lqr_gain_manifold.py:409-413. -/
noncomputable def final (p : Par) : Val 12 := ⟨cost p p.N (p.x0 p.N) 0, costX p p.N (p.x0 p.N) 0, costXX p p.N (p.x0 p.N) 0⟩

/-- `compute_gains`: the stored matrices `kfb`, lqr_gain_manifold.py:405-428 (the file has one row of 72 numbers per time step). -/
noncomputable def computeGains (p : Par) : List (Gains 12 6) := (backward (final p) ((List.range p.N).map (stage p))).1

end PyMan
end Verif
