/-
Model of `momentumopt::KinematicsOptimizer` (trajectory and posture optimisation):
/repo/momentumopt/src/momentumopt/kinopt/KinematicsOptimizer.cpp:39-445, with the robot-specific functions of
/repo/momentumopt/python/momentumopt/PinocchioKinematicsInterface.py:44-96 and the containers of
/repo/momentumopt/include/momentumopt/kinopt/KinematicsState.hpp.

Simplifications: exact reals for `double` (the infinite variable bounds are a nonnegative real `inf`; the bounds of
continuous variables are not used by the solver); vectors are functions of the index; a kinematics sequence is a
function of the time step (its length is that of `KinematicsSequence::resize`); the robot model (forward kinematics,
Jacobians, integration and difference of the floating base, logarithmic map) is an arbitrary `Kin`; the joints are
one-dimensional, so that pinocchio's `integrate` and `difference` add and subtract on them; the interface does not throw
and does not change the state passed to it (pybind passes a copy); the solver is an arbitrary function that returns a
value for every column, or throws. Printing, display and files are left out.
-/
import Verif.LinExpr
import Verif.OptVar
import Verif.ConicSpec
import Mathlib.Logic.Function.Basic

namespace Verif
namespace Kin
open LinExpr

/-! ### robot state -/

/-- `RobotPosture`, KinematicsState.hpp:22-67: base position, base orientation (w, x, y, z), joint positions. -/
structure Posture where
  base : Nat → ℝ
  ori : Nat → ℝ
  jnt : Nat → ℝ

/-- `KinematicsState`, KinematicsState.hpp:146-206 (end-effector velocities, accelerations and orientations, which the
optimiser neither reads nor writes, are left out). -/
structure KState where
  com : Nat → ℝ
  lmom : Nat → ℝ
  amom : Nat → ℝ
  eff : Nat → Nat → ℝ
  pos : Posture
  vel : Nat → ℝ
  acc : Nat → ℝ

/-- `KinematicsState::KinematicsState`, KinematicsState.cpp:44-64: all zero, identity orientation. -/
def KState.zero : KState :=
  ⟨fun _ => 0, fun _ => 0, fun _ => 0, fun _ _ => 0, ⟨fun _ => 0, fun i => if i = 0 then 1 else 0, fun _ => 0⟩,
    fun _ => 0, fun _ => 0⟩

/-- The matrices of `KinematicsInterface`, KinematicsInterface.hpp:39-63, after `updateJacobiansAndState`. -/
structure Jac where
  com : Nat → Nat → ℝ          -- axis, generalised coordinate
  cmm : Nat → Nat → ℝ
  cmmd : Nat → Nat → ℝ
  eff : Nat → Nat → Nat → ℝ    -- end-effector, axis, generalised coordinate
  ncons : Nat
  cvec : Nat → ℝ
  cmat : Nat → Nat → ℝ

/-- A robot: what the implementation of `KinematicsInterface` computes from a state (KinematicsInterface.hpp:33-39). -/
structure Robot where
  com : KState → Nat → ℝ
  lmom : KState → Nat → ℝ
  amom : KState → Nat → ℝ
  eff : KState → Nat → Nat → ℝ
  jac : KState → Jac
  baseInt : Posture → (Nat → ℝ) → (Nat → ℝ) × (Nat → ℝ)   -- SE(3) integration of a displacement
  baseDiff : Posture → Posture → Nat → ℝ                   -- SE(3) difference
  log : (Nat → ℝ) → Nat → ℝ                                -- rotation vector of a quaternion

namespace Robot

/-- `updateJacobiansAndState`, PinocchioKinematicsInterface.py:47-80: the returned state has new center of mass, momenta
and end-effector positions; the Jacobians are `r.jac s`. -/
def update (r : Robot) (s : KState) : KState :=
  { s with
    com := r.com s
    lmom := r.lmom s
    amom := r.amom s
    eff := r.eff s }

/-- `integratePosture`, PinocchioKinematicsInterface.py:82-91. -/
def integrate (r : Robot) (s : KState) (dt : ℝ) : KState :=
  let b := r.baseInt s.pos fun i => s.vel i * dt
  { s with pos := ⟨b.1, b.2, fun j => s.pos.jnt j + s.vel (6 + j) * dt⟩ }

/-- `differentiatePostures`, PinocchioKinematicsInterface.py:93-99. -/
noncomputable def differentiate (r : Robot) (ini fin : KState) (dt : ℝ) : KState :=
  { fin with vel := fun i => (if i < 6 then r.baseDiff ini.pos fin.pos i else fin.pos.jnt (i - 6) - ini.pos.jnt (i - 6)) / dt }

end Robot

/-! ### settings and references -/

/-- The parameters read by the optimiser (PlannerSetting.cpp) (read in KinematicsOptimizer.cpp:25-530). -/
structure Setting where
  T : Nat                       -- NumTimesteps
  nact : Nat                    -- NumActiveDofs
  neff : Nat                    -- NumActiveEndeffectors
  active : Nat → Nat            -- ActiveDofs
  kdt : ℝ                       -- KinIntegrationStep
  tol : ℝ                       -- KinConvergenceTolerance
  maxConv : Nat                 -- MaxKinConvergenceIterations
  maxTraj : Nat                 -- MaxKinTrajectoryIterations
  floor : ℝ
  defJnt : Nat → ℝ              -- KinematicDefaultJointPositions
  minJ : Nat → ℝ
  maxJ : Nat → ℝ
  wCom : Nat → ℝ
  wL : Nat → ℝ
  wH : Nat → ℝ
  wLd : Nat → ℝ
  wHd : Nat → ℝ
  wEff : Nat → ℝ
  wEffNa : Nat → ℝ
  wDef : Nat → ℝ
  wVel : Nat → ℝ
  wAcc : Nat → ℝ
  wReg : ℝ                      -- LambdaRegularization
  wSlack : ℝ                    -- KinSlacksPenalty
  inf : ℝ                       -- SolverSetting::inf

namespace Setting

/-- `NumExtendedActiveDofs`, PlannerSetting.cpp:54,225. -/
def next (st : Setting) : Nat := 6 + st.nact

/-- `ExtendedActiveDofs`, PlannerSetting.cpp:54-56. -/
def ext (st : Setting) (d : Nat) : Nat := if d < 6 then d else 6 + st.active (d - 6)

end Setting

/-- What is read of a `DynamicsState`: time, momentum references, end-effector references (DynamicsState.hpp:39-105). -/
structure Ref where
  time : ℝ
  com : Nat → ℝ
  lmom : Nat → ℝ
  amom : Nat → ℝ
  act : Nat → Bool
  eff : Nat → Nat → ℝ

/-! ### registration of the variables -/

/-- The handles of a block in the order of the loops of `addVariableToModel`, KinematicsOptimizer.cpp:461-467. -/
def ids (v : OptVar) : List Int := (List.range v.cols).flatMap fun (c : Nat) => (List.range v.rows).map fun (r : Nat) => v.id r c

/-- `vars[id] = model.addVar(..)` for consecutive handles, lines 462-466: the model hands out columns `n, n+1, ..`
(`Problem.addVar`). -/
def assign : List Int → Nat → (Int → Nat) → Int → Nat
  | [], _, f => f
  | i :: is, n, f => assign is (n + 1) (Function.update f i n)

/-- The column stored in `vars_[id]` after `addVariableToModel` on the blocks in order; a handle never assigned is a
default-constructed `Var`, which is given the column 0 here (KinematicsOptimizer.cpp:459-473). -/
def colOf (blocks : List OptVar) (id : Int) : Nat := assign (blocks.flatMap ids) 0 (fun _ => 0) id

/-- The calls `model.addVar(Continuous, lb, ub, guess)`, lines 461-468. -/
noncomputable def addVarOps (blocks : List OptVar) (inf : ℝ) (guess : Int → ℝ) : List Op :=
  (blocks.flatMap ids).map fun i => Op.addVar .continuous (-inf) inf (guess i)

/-! ### trajectory optimisation, KinematicsOptimizer.cpp:66-280 -/

/-- Dimensions in the order of `initializeTrajectoryKinematicVariables`, lines 71-84. -/
def trajDims (st : Setting) : List (Nat × Nat) :=
  [(3, st.T), (3, st.T), (3, st.T)] ++ (List.replicate st.neff [(3, st.T), (3, st.T)]).flatten ++
  [(st.next, st.T), (st.next, st.T), (st.next, st.T), (st.next, st.T)]

/-- The variable blocks, lines 68-84. -/
def trajLayout (st : Setting) : List OptVar := (OptVar.layout (trajDims st) 0).1

/-- The `i`-th block of a list (KinematicsOptimizer.cpp:66-85, 282-294). -/
def blk (l : List OptVar) (i : Nat) : OptVar := l.getD i ⟨0, 0, 0⟩

/-- `com_`, line 71. -/
def tCom (st : Setting) : OptVar := blk (trajLayout st) 0
/-- `lmom_`, line 72. -/
def tL (st : Setting) : OptVar := blk (trajLayout st) 1
/-- `amom_`, line 73. -/
def tH (st : Setting) : OptVar := blk (trajLayout st) 2
/-- `eef_pos_[e]`, line 77. -/
def tPos (st : Setting) (e : Nat) : OptVar := blk (trajLayout st) (3 + 2 * e)
/-- `eef_vel_[e]`, line 78. -/
def tVel (st : Setting) (e : Nat) : OptVar := blk (trajLayout st) (3 + 2 * e + 1)
/-- `jnt_q_`, line 81. -/
def tQ (st : Setting) : OptVar := blk (trajLayout st) (3 + 2 * st.neff)
/-- `jnt_qd_`, line 82. -/
def tQd (st : Setting) : OptVar := blk (trajLayout st) (3 + 2 * st.neff + 1)
/-- `total_qd_`, line 83. -/
def tTqd (st : Setting) : OptVar := blk (trajLayout st) (3 + 2 * st.neff + 2)
/-- `total_qdd_`, line 84. -/
def tTqdd (st : Setting) : OptVar := blk (trajLayout st) (3 + 2 * st.neff + 3)

/-- The order of the `addVariableToModel` calls, lines 100-112 (not the order of the layout). -/
def trajOrder (st : Setting) : List OptVar :=
  [tCom st, tL st, tH st, tQ st, tQd st, tTqd st, tTqdd st] ++ (List.range st.neff).flatMap fun e => [tPos st e, tVel st e]

/-- The column of `vars_[v.id(row, col)]` (KinematicsOptimizer.cpp:459-473). -/
def tcol (st : Setting) (v : OptVar) (row col : Nat) : Nat := colOf (trajOrder st) (v.id row col)

/-- What the constraints and the objective of one iteration of `optimizeTrajectory` are built from: the robot, the
initial momenta (`ini_state`), the initial robot state (`ini_state_`), the references (`dyn_sequence`) and the current
kinematics sequence (KinematicsOptimizer.cpp:87-240). -/
structure TCtx where
  st : Setting
  rb : Robot
  iniL : Nat → ℝ
  iniH : Nat → ℝ
  ini : KState
  ref : Nat → Ref
  seq : Nat → KState

namespace TCtx

/-- `current_state`, line 167. -/
def cur (c : TCtx) (t : Nat) : KState := c.rb.update (c.seq t)
/-- The Jacobians left in the interface by line 167. -/
def jac (c : TCtx) (t : Nat) : Jac := c.rb.jac (c.seq t)

/-- Center of mass, lines 171-174 (`= 0`). -/
noncomputable def comC (c : TCtx) (t a : Nat) : LinExpr ℝ :=
  (List.range c.st.next).foldl (fun l d => l.addAssign (ofVar (tcol c.st (tQd c.st) d t) (c.st.kdt * (c.jac t).com a (c.st.ext d))))
    ((ofVar (tcol c.st (tCom c.st) a t) (-1)).addC ((c.cur t).com a))

/-- Linear momentum, lines 176-179 (`= 0`). -/
noncomputable def lmomC (c : TCtx) (t a : Nat) : LinExpr ℝ :=
  (List.range c.st.next).foldl (fun l d => l.addAssign (ofVar (tcol c.st (tTqd c.st) d t) ((c.jac t).cmm a (c.st.ext d))))
    (ofVar (tcol c.st (tL c.st) a t) (-1))

/-- Angular momentum, lines 181-184 (`= 0`). -/
noncomputable def amomC (c : TCtx) (t a : Nat) : LinExpr ℝ :=
  (List.range c.st.next).foldl (fun l d => l.addAssign (ofVar (tcol c.st (tTqd c.st) d t) ((c.jac t).cmm (3 + a) (c.st.ext d))))
    (ofVar (tcol c.st (tH c.st) a t) (-1))

/-- End-effector position, lines 188-189 (`= 0`). -/
noncomputable def posC (c : TCtx) (t e a : Nat) : LinExpr ℝ :=
  ((ofVar (tcol c.st (tPos c.st e) a t)).sub (ofConst ((c.cur t).eff e a))).sub (ofVar (tcol c.st (tVel c.st e) a t) c.st.kdt)

/-- End-effector velocity, lines 191-194 (`= 0`). -/
noncomputable def velC (c : TCtx) (t e a : Nat) : LinExpr ℝ :=
  (List.range c.st.next).foldl (fun l d => l.addAssign (ofVar (tcol c.st (tQd c.st) d t) ((c.jac t).eff e a (c.st.ext d))))
    (ofVar (tcol c.st (tVel c.st e) a t) (-1))

/-- `reference` of the posture constraint, lines 204-207. -/
def postRef (c : TCtx) (t d : Nat) : ℝ :=
  if d < 3 then (c.cur t).pos.base d else if d < 6 then c.rb.log (c.seq t).pos.ori (d - 3) else (c.cur t).pos.jnt (c.st.active (d - 6))

/-- Robot posture, lines 208-209 (`= 0`). -/
noncomputable def postC (c : TCtx) (t d : Nat) : LinExpr ℝ :=
  (ofVar (tcol c.st (tQ c.st) d t)).sub ((ofConst (c.postRef t d)).add (ofVar (tcol c.st (tQd c.st) d t) c.st.kdt))

/-- `reference` at the first time step, lines 215-218. -/
def iniRef (c : TCtx) (d : Nat) : ℝ :=
  if d < 3 then c.ini.pos.base d else if d < 6 then c.rb.log c.ini.pos.ori (d - 3) else c.ini.pos.jnt (c.st.active (d - 6))

/-- Joint velocities, lines 213-224 (`= 0`). -/
noncomputable def tqdC (c : TCtx) (t d : Nat) : LinExpr ℝ :=
  if t = 0 then (ofVar (tcol c.st (tTqd c.st) d t)).sub (((ofVar (tcol c.st (tQ c.st) d t)).sub (ofConst (c.iniRef d))).div (c.ref t).time)
  else (ofVar (tcol c.st (tTqd c.st) d t)).sub
    (((ofVar (tcol c.st (tQ c.st) d t)).sub (ofVar (tcol c.st (tQ c.st) d (t - 1)))).div (c.ref t).time)

/-- Joint accelerations, lines 227-231 (`= 0`). -/
noncomputable def tqddC (c : TCtx) (t d : Nat) : LinExpr ℝ :=
  if t = 0 then (ofVar (tcol c.st (tTqdd c.st) d t)).sub (ofVar (tcol c.st (tTqd c.st) d t) (1 / (c.ref t).time))
  else (ofVar (tcol c.st (tTqdd c.st) d t)).sub
    (((ofVar (tcol c.st (tTqd c.st) d t)).sub (ofVar (tcol c.st (tTqd c.st) d (t - 1)))).div (c.ref t).time)

/-- An equality with zero (`addLinConstr(lin_cons_, "=", 0.0)`, KinematicsOptimizer.cpp:130-235). -/
noncomputable def eq0 (l : LinExpr ℝ) : Op := .addLin l "=" (ofConst 0)

/-- The constraints of time step `t` in order, lines 165-238. -/
noncomputable def consAt (c : TCtx) (t : Nat) : List Op :=
  ((List.range 3).flatMap fun a => [eq0 (c.comC t a), eq0 (c.lmomC t a), eq0 (c.amomC t a)] ++
    (List.range c.st.neff).flatMap fun e => [eq0 (c.posC t e a), eq0 (c.velC t e a)]) ++
  ((List.range c.st.neff).map fun e => .addLin (ofVar (tcol c.st (tPos c.st e) 2 t)) ">" (ofConst c.st.floor)) ++
  ((List.range c.st.next).map fun d => eq0 (c.postC t d)) ++
  ((List.range c.st.next).map fun d => eq0 (c.tqdC t d)) ++
  ((List.range c.st.next).map fun d => eq0 (c.tqddC t d)) ++
  (List.range c.st.nact).flatMap fun d =>
    [.addLin (ofVar (tcol c.st (tQ c.st) (6 + d) t)) ">" (ofConst (c.st.minJ (c.st.active d))),
     .addLin (ofVar (tcol c.st (tQ c.st) (6 + d) t)) "<" (ofConst (c.st.maxJ (c.st.active d)))]

/-- The momentum-rate expressions, lines 132-138. -/
noncomputable def rate (c : TCtx) (v : OptVar) (ini : Nat → ℝ) (t a : Nat) : LinExpr ℝ :=
  if t = 0 then ((ofVar (tcol c.st v a t)).sub (ofConst (ini a))).div (c.ref t).time
  else ((ofVar (tcol c.st v a t)).sub (ofVar (tcol c.st v a (t - 1)))).div (c.ref t).time

/-- The (weight, expression) pairs of the objective of time step `t` in order, lines 125-159. -/
noncomputable def objAt (c : TCtx) (t : Nat) : List (ℝ × LinExpr ℝ) :=
  ((List.range 3).flatMap fun a =>
    [(c.st.wCom a, (ofConst ((c.ref t).com a)).sub (ofVar (tcol c.st (tCom c.st) a t))),
     (c.st.wL a, (ofConst ((c.ref t).lmom a)).sub (ofVar (tcol c.st (tL c.st) a t))),
     (c.st.wH a, (ofConst ((c.ref t).amom a)).sub (ofVar (tcol c.st (tH c.st) a t))),
     (c.st.wLd a, c.rate (tL c.st) c.iniL t a),
     (c.st.wHd a, c.rate (tH c.st) c.iniH t a)] ++
    (List.range c.st.neff).map fun e =>
      (if (c.ref t).act e then c.st.wEff a else c.st.wEffNa a, (ofConst ((c.ref t).eff e a)).sub (ofVar (tcol c.st (tPos c.st e) a t)))) ++
  ((List.range c.st.nact).map fun d => (c.st.wDef d, (ofConst (c.st.defJnt d)).sub (ofVar (tcol c.st (tQ c.st) (6 + d) t)))) ++
  (List.range c.st.next).flatMap fun d =>
    [(c.st.wVel d, ofVar (tcol c.st (tTqd c.st) d t)), (c.st.wAcc d, ofVar (tcol c.st (tTqdd c.st) d t))]

/-- Successive `addQuaTerm` calls (KinematicsOptimizer.cpp:100-235). -/
noncomputable def quadOf (ts : List (ℝ × LinExpr ℝ)) : QuadExpr ℝ := ts.foldl (fun q t => q.addQuaTerm t.1 t.2) QuadExpr.empty

/-- The objective, lines 124-160. -/
noncomputable def objective (c : TCtx) : QuadExpr ℝ := quadOf ((List.range c.st.T).flatMap c.objAt)

/-- The calls of one iteration on the model, lines 99-238. -/
noncomputable def ops (c : TCtx) (guess : Int → ℝ) : List Op :=
  addVarOps (trajOrder c.st) c.st.inf guess ++ [.setObj c.objective (ofConst 0)] ++ (List.range c.st.T).flatMap c.consAt

/-- One time step of storing the solution, lines 262-271; `seq` is the sequence updated so far. The velocities and
accelerations are written at positions `0 .. NumExtendedActiveDofs-1`. -/
noncomputable def storeAt (c : TCtx) (x : Nat → ℝ) (seq : Nat → KState) (t : Nat) : Nat → KState :=
  let s1 : KState := { seq t with vel := fun i => if i < c.st.next then x (tcol c.st (tQd c.st) i t) else (seq t).vel i }
  let s2 := c.rb.integrate s1 c.st.kdt
  let s3 := c.rb.differentiate (if t = 0 then c.ini else seq (t - 1)) s2 (c.ref t).time
  Function.update seq t
    { s3 with acc := fun i => if i < c.st.next then x (tcol c.st (tTqdd c.st) i t) else s3.acc i }

/-- Lines 260-272. -/
noncomputable def store (c : TCtx) (x : Nat → ℝ) : Nat → KState := (List.range c.st.T).foldl (c.storeAt x) c.seq

end TCtx

/-- The inputs of `optimizeTrajectory` that do not change over the iterations (KinematicsOptimizer.cpp:87). -/
structure TIn where
  st : Setting
  rb : Robot
  iniL : Nat → ℝ
  iniH : Nat → ℝ
  ini : KState
  ref : Nat → Ref

/-- The context of an iteration (KinematicsOptimizer.cpp:87-240). -/
def TIn.ctx (i : TIn) (seq : Nat → KState) : TCtx := ⟨i.st, i.rb, i.iniL, i.iniH, i.ini, i.ref, seq⟩

/-- `optimizeTrajectory`, lines 87-280: `solver k ops` is the result of `model_.optimize()` in iteration `k` (`none`: it
threw, and the `catch(...)` of line 273 leaves the sequence as it is). The exit code is not looked at. -/
noncomputable def optimizeTrajectory (i : TIn) (solver : Nat → TCtx → Option (Nat → ℝ)) : Nat → (Nat → KState) → Nat → KState
  | 0, seq => seq
  | n + 1, seq =>
    let k := i.st.maxTraj - (n + 1)
    match solver k (i.ctx seq) with
    | some x => optimizeTrajectory i solver n ((i.ctx seq).store x)
    | none => optimizeTrajectory i solver n seq

/-! ### posture optimisation, KinematicsOptimizer.cpp:282-457 -/

/-- Dimensions in the order of `initializePostureKinematicVariables`, lines 287-293. -/
def postDims (st : Setting) (ncons : Nat) : List (Nat × Nat) :=
  [(3, 1), (3, 1), (ncons, 1), (st.nact, 1), (st.next, 1), (st.next, 1), (st.next, 1)]

/-- The variable blocks (KinematicsOptimizer.cpp:282-294). -/
def postLayout (st : Setting) (ncons : Nat) : List OptVar := (OptVar.layout (postDims st ncons) 0).1

/-- `slack_vars_`, line 289. -/
def pSlack (st : Setting) (n : Nat) : OptVar := blk (postLayout st n) 2
/-- `jnt_q_`, line 290. -/
def pQ (st : Setting) (n : Nat) : OptVar := blk (postLayout st n) 3
/-- `jnt_qd_`, line 291. -/
def pQd (st : Setting) (n : Nat) : OptVar := blk (postLayout st n) 4
/-- `jnt_qdd_`, line 292. -/
def pQdd (st : Setting) (n : Nat) : OptVar := blk (postLayout st n) 5
/-- `total_qd_`, line 293. -/
def pTqd (st : Setting) (n : Nat) : OptVar := blk (postLayout st n) 6

/-- The order of the `addVariableToModel` calls, lines 330-336. -/
def postOrder (st : Setting) (n : Nat) : List OptVar :=
  [blk (postLayout st n) 0, blk (postLayout st n) 1, pQ st n, pQd st n, pQdd st n, pTqd st n, pSlack st n]

/-- One posture problem: the state after `updateJacobiansAndState`, the Jacobians, and the desired state (KinematicsOptimizer.cpp:296-330). -/
structure PCtx where
  st : Setting
  j : Jac
  cur : KState
  des : Ref

namespace PCtx

/-- The column of `vars_[v.id(row, 0)]` (KinematicsOptimizer.cpp:459-473). -/
def pcol (c : PCtx) (v : OptVar) (row : Nat) : Nat := colOf (postOrder c.st c.j.ncons) (v.id row 0)

/-- The column of `jnt_q_.id(i,0)` (KinematicsOptimizer.cpp:282-294). -/
def cQ (c : PCtx) (i : Nat) : Nat := c.pcol (pQ c.st c.j.ncons) i
/-- The column of `jnt_qd_.id(i,0)` (KinematicsOptimizer.cpp:282-294). -/
def cQd (c : PCtx) (i : Nat) : Nat := c.pcol (pQd c.st c.j.ncons) i
/-- The column of `jnt_qdd_.id(i,0)` (KinematicsOptimizer.cpp:282-294). -/
def cQdd (c : PCtx) (i : Nat) : Nat := c.pcol (pQdd c.st c.j.ncons) i
/-- The column of `total_qd_.id(i,0)` (KinematicsOptimizer.cpp:282-294). -/
def cTqd (c : PCtx) (i : Nat) : Nat := c.pcol (pTqd c.st c.j.ncons) i
/-- The column of `slack_vars_.id(i,0)` (KinematicsOptimizer.cpp:282-294). -/
def cSlack (c : PCtx) (i : Nat) : Nat := c.pcol (pSlack c.st c.j.ncons) i

/-- `desired_com_velocity_`, line 304. -/
noncomputable def dCom (c : PCtx) (a : Nat) : ℝ := (c.des.com a - c.cur.com a) / c.st.kdt
/-- `desired_lmom_velocity_`, line 305. -/
noncomputable def dL (c : PCtx) (a : Nat) : ℝ := (c.des.lmom a - c.cur.lmom a) / c.st.kdt
/-- `desired_amom_velocity_`, line 306. -/
noncomputable def dH (c : PCtx) (a : Nat) : ℝ := (c.des.amom a - c.cur.amom a) / c.st.kdt
/-- `desired_eff_velocity_`, lines 307-308. -/
noncomputable def dEff (c : PCtx) (e a : Nat) : ℝ := (c.des.eff e a - c.cur.eff e a) / c.st.kdt

/-- Euclidean norm of a 3-vector (KinematicsOptimizer.cpp:310-312). -/
noncomputable def norm3 (v : Nat → ℝ) : ℝ := Real.sqrt (v 0 ^ 2 + v 1 ^ 2 + v 2 ^ 2)

/-- `cur_error`, lines 310-312. -/
noncomputable def error (c : PCtx) : ℝ :=
  (List.range c.st.neff).foldl (fun s e => s + norm3 (c.dEff e)) (norm3 c.dCom + norm3 c.dH + norm3 c.dL)

/-- Center of mass tracking, lines 346-348 (Jacobian column `jnt_id`). -/
noncomputable def comE (c : PCtx) (a : Nat) : LinExpr ℝ :=
  (List.range c.st.next).foldl (fun l d => l.addAssign (ofVar (c.cQd d) (c.j.com a d))) (ofConst (-c.dCom a))

/-- Linear (`k = 0`) and angular (`k = 3`) momentum tracking, lines 352-355, 359-362. -/
noncomputable def momE (c : PCtx) (k : Nat) (des : ℝ) (a : Nat) : LinExpr ℝ :=
  (List.range c.st.next).foldl (fun l d => l.addAssign
    ((ofVar (c.cQdd d) (c.j.cmm (k + a) d)).add (ofVar (c.cTqd d) (c.j.cmmd (k + a) d)))) (ofConst (-des))

/-- End-effector tracking, lines 367-369. -/
noncomputable def effE (c : PCtx) (e a : Nat) : LinExpr ℝ :=
  (List.range c.st.next).foldl (fun l d => l.addAssign (ofVar (c.cQd d) (c.j.eff e a d))) (ofConst (-c.dEff e a))

/-- The (weight, expression) pairs of the objective in order, lines 341-391. -/
noncomputable def objTerms (c : PCtx) : List (ℝ × LinExpr ℝ) :=
  ((List.range 3).flatMap fun a =>
    [(c.st.wCom a, c.comE a), (c.st.wL a, c.momE 0 (c.dL a) a), (c.st.wH a, c.momE 3 (c.dH a) a)] ++
    (List.range c.st.neff).map fun e => (if c.des.act e then c.st.wEff a else c.st.wEffNa a, c.effE e a)) ++
  ((List.range c.st.next).flatMap fun d => [(c.st.wReg, ofVar (c.cQd d)), (c.st.wReg, ofVar (c.cQdd d))]) ++
  ((List.range c.j.ncons).map fun k => (c.st.wSlack, ofVar (c.cSlack k))) ++
  (List.range c.st.nact).map fun d => (c.st.wDef d, (ofVar (c.cQ d)).sub (ofConst (c.st.defJnt d)))

/-- Non-penetration, lines 407-411. -/
noncomputable def penE (c : PCtx) (k : Nat) : LinExpr ℝ :=
  (List.range c.st.next).foldl (fun l d => l.addAssign (ofVar (c.cQd d) (c.j.cmat k d))) (ofConst (-c.j.cvec k))

/-- Integration of the joint positions, lines 416-417. -/
noncomputable def intE (c : PCtx) (d : Nat) : LinExpr ℝ :=
  ((ofVar (c.cQ d) (-1)).addC (c.cur.pos.jnt d)).add (ofVar (c.cQd (6 + d)) c.st.kdt)

/-- The constraints in order, lines 399-420 (the integration of the velocities, line 402, is commented out). -/
noncomputable def cons (c : PCtx) : List Op :=
  ((List.range c.j.ncons).flatMap fun k =>
    [.addLin (ofVar (c.cSlack k)) ">" (ofConst 0), .addLin (c.penE k) "<" (ofVar (c.cSlack k))]) ++
  (List.range c.st.nact).flatMap fun d =>
    [TCtx.eq0 (c.intE d), .addLin (ofVar (c.cQ d)) ">" (ofConst (c.st.minJ d)), .addLin (ofVar (c.cQ d)) "<" (ofConst (c.st.maxJ d))]

/-- The calls on the model, lines 329-420. -/
noncomputable def ops (c : PCtx) (guess : Int → ℝ) : List Op :=
  addVarOps (postOrder c.st c.j.ncons) c.st.inf guess ++ [.setObj (TCtx.quadOf c.objTerms) (ofConst 0)] ++ c.cons

/-- Storing the velocities, integrating and differentiating, lines 438-443; `start` is the state at entry. -/
noncomputable def store (c : PCtx) (rb : Robot) (start : KState) (x : Nat → ℝ) : KState :=
  rb.differentiate start
    (rb.integrate { c.cur with vel := fun i => if i < c.st.next then x (c.cQd i) else c.cur.vel i } c.st.kdt) c.des.time

end PCtx

/-- Result of the posture loop: the state and the number of calls of the solver (KinematicsOptimizer.cpp:296-457). -/
structure PostRes where
  s : KState
  solves : Nat

/-- The loop of `optimizePosture`, lines 301-449, with `n` iterations left; `prev` is `prev_error` (`none`: infinity);
`solver k c` is the result of the `k`-th call of `model_.optimize()`. -/
noncomputable def postLoop (st : Setting) (rb : Robot) (des : Ref) (start : KState) (solver : Nat → PCtx → Option (Nat → ℝ)) :
    Nat → Option ℝ → Nat → KState → PostRes
  | 0, _, k, s => ⟨s, k⟩
  | n + 1, prev, k, s =>
    let cur := rb.update s
    let c : PCtx := ⟨st, rb.jac s, cur, des⟩
    let small : Prop := c.error < st.tol
    let stuck : Prop := match prev with
      | none => False
      | some p => |p - c.error| < st.tol
    open Classical in
    if small ∨ stuck then ⟨cur, k⟩
    else match solver k c with
      | some x => postLoop st rb des start solver n (some c.error) (k + 1) (c.store rb start x)
      | none => postLoop st rb des start solver n (some c.error) (k + 1) cur

/-- `optimizePosture`, lines 296-457. -/
noncomputable def optimizePosture (st : Setting) (rb : Robot) (des : Ref) (solver : Nat → PCtx → Option (Nat → ℝ)) (isIni : Bool)
    (s : KState) : PostRes :=
  let r := postLoop st rb des s solver st.maxConv none 0 s
  if isIni then
    { r with s := { r.s with
        lmom := des.lmom
        amom := des.amom
        vel := fun _ => 0
        acc := fun _ => 0 } }
  else r

/-- The loop over the time steps of `optimize`, lines 53-56: the state, the sequence and the number of solver calls. -/
noncomputable def postSweep (st : Setting) (rb : Robot) (ref : Nat → Ref) (solver : Nat → Nat → PCtx → Option (Nat → ℝ)) :
    Nat → KState × (Nat → KState) × Nat → KState × (Nat → KState) × Nat
  | 0, a => a
  | n + 1, a =>
    let t := st.T - (n + 1)
    let r := optimizePosture st rb (ref t) (solver (t + 1)) false a.1
    postSweep st rb ref solver n (r.s, Function.update a.2.1 t r.s, a.2.2 + r.solves)

/-- Result of `optimize` (KinematicsOptimizer.cpp:39-64). -/
structure OptRes where
  ini : KState
  seq : Nat → KState
  solves : Nat

/-- The state at entry, lines 44-45: zero, with the default joint positions. -/
def startState (st : Setting) : KState :=
  { KState.zero with pos := { KState.zero.pos with jnt := st.defJnt } }

/-- `optimize`, lines 39-64 (`des0` is the initial dynamics state; the contact plan only changes the references). -/
noncomputable def optimize (st : Setting) (rb : Robot) (des0 : Ref) (ref : Nat → Ref) (first : Bool)
    (psolver : Nat → Nat → PCtx → Option (Nat → ℝ)) (tsolver : Nat → TCtx → Option (Nat → ℝ)) (seq : Nat → KState) : OptRes :=
  let r0 := optimizePosture st rb des0 (psolver 0) true (startState st)
  let sw := if first then postSweep st rb ref psolver st.T (r0.s, seq, r0.solves) else (r0.s, seq, r0.solves)
  let i : TIn := ⟨st, rb, des0.lmom, des0.amom, r0.s, ref⟩
  ⟨r0.s, optimizeTrajectory i tsolver st.maxTraj sw.2.1, sw.2.2 + st.maxTraj⟩

end Kin
end Verif
