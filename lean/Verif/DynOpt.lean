/-
Model of `momentumopt::DynamicsOptimizer`: registration of the variables, objective and constraints given to the solver,
reading and storing the solution, the loop over the time iterations:
/repo/momentumopt/src/momentumopt/dynopt/DynamicsOptimizer.cpp:18-675,731-755 and
/repo/momentumopt/include/momentumopt/setting/Definitions.hpp:24-36.

The expressions of the dynamics, friction and torque constraints are those of `Verif.Dyn`.

Simplifications: exact reals for `double`; the infinite variable bounds are a nonnegative real `inf` (the bounds of
continuous variables are not used by the solver); vectors are functions of the index; the dynamics sequence is a function
of the time step, so that the write one past its end (`storeSolution`, C49) is taken to hit nothing else; contact rotation,
location and type are given per (time, end-effector) (the look-up with contact id -1 of an inactive end-effector, or of the
first end-effector without contact at time 0, is undefined behaviour of the code and not modelled); the solver is an
arbitrary function that returns a value for every variable (an exception thrown inside the `try` block is not modelled).
Printing, timing and files are left out.
-/
import Verif.Dyn
import Verif.KinOpt
import Mathlib.Algebra.Order.Floor.Ring
import Mathlib.Data.Real.Archimedean

namespace Verif
namespace Dyn
open LinExpr Kin

/-- `Heuristic`, PlannerSetting.hpp:20. -/
inductive Heur where
  | trust
  | soft
  | timeOpt
deriving DecidableEq

/-- The parameters read by the optimiser (PlannerSetting.cpp, SolverSetting.cpp) (read in DynamicsOptimizer.cpp:18-600). -/
structure DSet where
  T : Nat                       -- NumTimesteps
  neff : Nat                    -- NumActiveEndeffectors
  heur : Heur
  step : ℝ                      -- TimeStep
  mass : ℝ                      -- RobotMass
  mg : ℝ                        -- MassTimesGravity
  grav : Nat → ℝ                -- GravityVector
  ext : Nat → ℝ                 -- ExternalForce
  mu : ℝ                        -- FrictionCoefficient
  linCone : Bool                -- IsFrictionConeLinear
  minH : ℝ                      -- MinRelHeight
  fixHor : Bool                 -- IsTimeHorizonFixed
  dtLo : ℝ                      -- TimeRange[0]
  dtHi : ℝ                      -- TimeRange[1]
  trqLo : ℝ                     -- TorqueRange[0]
  trqHi : ℝ                     -- TorqueRange[1]
  copR : Nat → Nat → ℝ          -- CenterOfPressureRange[eff][k]
  off : Nat → Nat → ℝ           -- EndeffectorOffset[eff]
  maxLen : Nat → ℝ              -- MaxEndeffectorLengths
  via : List (ℝ × (Nat → ℝ))    -- Viapoints: time, position
  motion : Nat → ℝ              -- CenterOfMassMotion
  wVia : Nat → ℝ                -- WeightCenterOfMassViapoint
  wCom : Nat → ℝ                -- WeightCenterOfMass
  wL : Nat → ℝ                  -- WeightLinearMomentum
  wH : Nat → ℝ                  -- WeightAngularMomentum
  wLfin : Nat → ℝ               -- WeightFinalLinearMomentum
  wHfin : Nat → ℝ               -- WeightFinalAngularMomentum
  wLd : Nat → ℝ                 -- WeightLinearMomentumRate
  wHd : Nat → ℝ                 -- WeightAngularMomentumRate
  wLegF : Nat → ℝ               -- WeightLegForce
  wArmF : Nat → ℝ               -- WeightArmForce
  wLegFd : Nat → ℝ              -- WeightLegForceRate
  wArmFd : Nat → ℝ              -- WeightArmForceRate
  wLegT : ℝ                     -- WeightLegTorque
  wArmT : ℝ                     -- WeightArmTorque
  wTime : ℝ                     -- WeightTimePenalty
  wTimeReg : ℝ                  -- WeightTimeRegularization
  wTrCom : Nat → ℝ              -- WeightDynamicTrackingCenterOfMass
  wTrL : Nat → ℝ                -- WeightDynamicTrackingLinearMomentum
  wTrH : Nat → ℝ                -- WeightDynamicTrackingAngularMomentum
  wSoft : ℝ                     -- SoftConstraintWeightReduced (solver setting)
  maxIter : Nat                 -- MaxNumTimeIterations
  tolRes : ℝ                    -- MaxTimeResidualTolerance
  tolImp : ℝ                    -- MinTimeResidualImprovement
  inf : ℝ                       -- SolverSetting::inf

/-- What `optimize` gets from the contact plan (`fillDynamicsSequence`) and the initial state (DynamicsOptimizer.cpp:64-91). -/
structure DPlan where
  active : Nat → Nat → Bool
  actId : Nat → Nat → Nat
  steps : Nat → Nat             -- activeEndeffectorSteps
  rot : Nat → Nat → Nat → Nat → ℝ
  loc : Nat → Nat → Nat → ℝ
  full : Nat → Nat → Bool       -- contactType == FullContact
  iniCom : Nat → ℝ
  iniL : Nat → ℝ
  iniH : Nat → ℝ
  iniF : Nat → Nat → ℝ          -- end-effector, axis

/-- The momentum references (`kin_sequence`) (DynamicsOptimizer.cpp:93-258). -/
structure DRef where
  com : Nat → Nat → ℝ           -- time, axis
  l : Nat → Nat → ℝ
  h : Nat → Nat → ℝ

/-- What is read and written of a `DynamicsState`, DynamicsState.hpp:109-116. -/
structure DState where
  time : ℝ
  com : Nat → ℝ
  l : Nat → ℝ
  h : Nat → ℝ
  ld : Nat → ℝ
  hd : Nat → ℝ
  frc : Nat → Nat → ℝ
  cop : Nat → Nat → ℝ
  trq : Nat → Nat → ℝ
  trqCp : Nat → Nat → ℝ

/-! ### variables, DynamicsOptimizer.cpp:30-55,98-119 -/

namespace DSet

/-- Number of blocks before those of the end-effectors (DynamicsOptimizer.cpp:30-55). -/
def base (s : DSet) : Nat := if s.heur = .timeOpt then 6 else 3

/-- Dimensions of the blocks in the order of `initializeOptimizationVariables`, lines 36-54. -/
def dims (s : DSet) (steps : Nat → Nat) : List (Nat × Nat) :=
  [(3, s.T), (3, s.T), (3, s.T)] ++ (if s.heur = .timeOpt then [(1, s.T), (3, s.T), (3, s.T)] else []) ++
  (List.range s.neff).flatMap fun e => [(3, steps e), (3, steps e), (3, steps e), (2, steps e), (1, steps e)]

/-- The blocks; they are registered with `addVariableToModel` in the same order, lines 103-119. -/
def layout (s : DSet) (steps : Nat → Nat) : List OptVar := (OptVar.layout (s.dims steps) 0).1

end DSet

/-- One call of `internalOptimize`: settings, plan, references, `weight_desired_com_tracking_`, the dynamics sequence at
entry and `is_first_time` (DynamicsOptimizer.cpp:93). -/
structure DCtx where
  s : DSet
  p : DPlan
  r : DRef
  wTrack : Nat → ℝ
  seq : Nat → DState
  first : Bool

namespace DCtx

/-- `com_pos_goal_`, line 71. -/
noncomputable def goal (d : DCtx) (a : Nat) : ℝ := d.p.iniCom a + d.s.motion a

/-- The context of the constraint expressions: `dt` is `dynamicsState(t).time()`, the blocks are those of lines 36-54. -/
noncomputable def ctx (d : DCtx) : Ctx where
  T := d.s.T
  neff := d.s.neff
  dt := fun t => (d.seq t).time
  mass := d.s.mass
  mg := d.s.mg
  grav := d.s.grav
  ext := d.s.ext
  iniCom := d.p.iniCom
  iniL := d.p.iniL
  iniH := d.p.iniH
  active := d.p.active
  actId := d.p.actId
  rot := d.p.rot
  loc := d.p.loc
  com := blk (d.s.layout d.p.steps) 0
  lmom := blk (d.s.layout d.p.steps) 1
  amom := blk (d.s.layout d.p.steps) 2
  dtv := blk (d.s.layout d.p.steps) 3
  lmomd := blk (d.s.layout d.p.steps) 4
  amomd := blk (d.s.layout d.p.steps) 5
  lb := fun e => blk (d.s.layout d.p.steps) (d.s.base + (5 * e + 0))
  ub := fun e => blk (d.s.layout d.p.steps) (d.s.base + (5 * e + 1))
  frc := fun e => blk (d.s.layout d.p.steps) (d.s.base + (5 * e + 2))
  cop := fun e => blk (d.s.layout d.p.steps) (d.s.base + (5 * e + 3))
  trq := fun e => blk (d.s.layout d.p.steps) (d.s.base + (5 * e + 4))

/-! ### objective, DynamicsOptimizer.cpp:121-258 -/

/-- `int(x)`: truncation towards zero (DynamicsOptimizer.cpp:170-260). -/
noncomputable def truncInt (x : ℝ) : Int := if 0 ≤ x then ⌊x⌋ else ⌈x⌉

/-- The via-point terms, lines 124-128 (the time index is clamped by `OptimizationVariable::id`). -/
noncomputable def viaTerms (d : DCtx) : List (ℝ × LinExpr ℝ) :=
  d.s.via.flatMap fun v => (List.range 3).map fun a =>
    (d.s.wVia a, (ofVar (d.ctx.com.id a (truncInt (v.1 / d.s.step))).toNat).sub (ofConst (v.2 a)))

/-- Center of mass and momenta, lines 133-142. -/
noncomputable def trackTerms (d : DCtx) (t a : Nat) : List (ℝ × LinExpr ℝ) :=
  (if t = d.s.T - 1 then
    [(d.s.wCom a, (d.ctx.vCom a t).sub (ofConst (d.goal a))),
     (d.s.wLfin a, (d.ctx.vL a t).sub (ofConst (d.r.l t a))),
     (d.s.wHfin a, (d.ctx.vH a t).sub (ofConst (d.r.h t a)))]
  else
    [(d.s.wL a, (d.ctx.vL a t).sub (ofConst (d.r.l t a))),
     (d.s.wH a, (d.ctx.vH a t).sub (ofConst (d.r.h t a)))]) ++
  [(d.wTrack a, (d.ctx.vCom a t).sub (ofConst (d.r.com t a)))]

/-- Momentum rates, lines 144-156. -/
noncomputable def rateTerms (d : DCtx) (t a : Nat) : List (ℝ × LinExpr ℝ) :=
  if d.s.heur = .timeOpt then [(d.s.wLd a, d.ctx.vLd a t), (d.s.wHd a, d.ctx.vHd a t)]
  else if t = 0 then
    [(d.s.wLd a, ((d.ctx.vL a t).sub (ofConst (d.p.iniL a))).mul (1 / (d.seq t).time)),
     (d.s.wHd a, ((d.ctx.vH a t).sub (ofConst (d.p.iniH a))).mul (1 / (d.seq t).time))]
  else
    [(d.s.wLd a, ((d.ctx.vL a t).sub (d.ctx.vL a (t - 1))).mul (1 / (d.seq t).time)),
     (d.s.wHd a, ((d.ctx.vH a t).sub (d.ctx.vH a (t - 1))).mul (1 / (d.seq t).time))]

/-- Forces, lines 158-164 (`id_right_foot = 0`, `id_left_foot = 1`). -/
noncomputable def forceTerms (d : DCtx) (t a : Nat) : List (ℝ × LinExpr ℝ) :=
  (List.range d.s.neff).flatMap fun e => if d.p.active t e then
    [(if e = 0 ∨ e = 1 then d.s.wLegF a else d.s.wArmF a, d.ctx.vF e a t)] else []

/-- `next_force`, lines 177-182. -/
noncomputable def nextForce (d : DCtx) (t e a : Nat) : LinExpr ℝ :=
  if t = d.s.T - 1 then d.ctx.vF e a t else if d.p.active (t + 1) e then d.ctx.vF e a (t + 1) else ofConst 0

/-- `previous_force`, lines 185-190. -/
noncomputable def prevForce (d : DCtx) (t e a : Nat) : LinExpr ℝ :=
  if t = 0 then ofConst (d.p.iniF e a) else if d.p.active (t - 1) e then d.ctx.vF e a (t - 1) else ofConst 0

/-- Force rates, lines 166-196 (`isHand`: 2 and 3). -/
noncomputable def forceRateTerms (d : DCtx) (t a : Nat) : List (ℝ × LinExpr ℝ) :=
  (List.range d.s.neff).flatMap fun e =>
    let w := if e = 2 ∨ e = 3 then d.s.wArmFd a else d.s.wLegFd a
    if d.p.active t e then
      [(w, (d.nextForce t e a).sub (d.ctx.vF e a t)), (w, (d.ctx.vF e a t).sub (d.prevForce t e a))]
    else []

/-- Torques, lines 199-205. -/
noncomputable def torqueTerms (d : DCtx) (t : Nat) : List (ℝ × LinExpr ℝ) :=
  (List.range d.s.neff).flatMap fun e => if d.p.active t e then
    [(if e = 0 ∨ e = 1 then d.s.wLegT else d.s.wArmT, d.ctx.vTrq e t)] else []

/-- Time, lines 207-211. -/
noncomputable def timeTerms (d : DCtx) (t : Nat) : List (ℝ × LinExpr ℝ) :=
  if d.s.heur = .timeOpt then
    [(d.s.wTime, d.ctx.vDt t), (d.s.wTimeReg, (d.ctx.vDt t).sub (ofConst d.s.step))] else []

/-- `lx_val`, `ly_val`, `lz_val`, lines 231-233: the values stored in the sequence. -/
noncomputable def lenPrev (d : DCtx) (t e a : Nat) : ℝ :=
  d.p.loc t e a - (d.seq t).com a + d.p.rot t e a 0 * (d.seq t).cop e 0 + d.p.rot t e a 1 * (d.seq t).cop e 1

/-- The pairs (expression, stored value) of the two squares of `ub_x`, `ub_y`, `ub_z`, lines 239,241,243. -/
noncomputable def ubPairs (d : DCtx) (t e : Nat) : Nat → List (LinExpr ℝ × ℝ)
  | 0 => [((Ctx.negL (d.ctx.len t e 2)).add (d.ctx.vF e 1 t), -d.lenPrev t e 2 + (d.seq t).frc e 1),
          ((d.ctx.len t e 1).add (d.ctx.vF e 2 t), d.lenPrev t e 1 + (d.seq t).frc e 2)]
  | 1 => [((d.ctx.len t e 2).add (d.ctx.vF e 0 t), d.lenPrev t e 2 + (d.seq t).frc e 0),
          ((Ctx.negL (d.ctx.len t e 0)).add (d.ctx.vF e 2 t), -d.lenPrev t e 0 + (d.seq t).frc e 2)]
  | _ => [((Ctx.negL (d.ctx.len t e 1)).add (d.ctx.vF e 0 t), -d.lenPrev t e 1 + (d.seq t).frc e 0),
          ((d.ctx.len t e 0).add (d.ctx.vF e 1 t), d.lenPrev t e 0 + (d.seq t).frc e 1)]

/-- The same for `lb_x`, `lb_y`, `lb_z`, lines 240,242,244. -/
noncomputable def lbPairs (d : DCtx) (t e : Nat) : Nat → List (LinExpr ℝ × ℝ)
  | 0 => [((Ctx.negL (d.ctx.len t e 2)).sub (d.ctx.vF e 1 t), -d.lenPrev t e 2 - (d.seq t).frc e 1),
          ((d.ctx.len t e 1).sub (d.ctx.vF e 2 t), d.lenPrev t e 1 - (d.seq t).frc e 2)]
  | 1 => [((d.ctx.len t e 2).sub (d.ctx.vF e 0 t), d.lenPrev t e 2 - (d.seq t).frc e 0),
          ((Ctx.negL (d.ctx.len t e 0)).sub (d.ctx.vF e 2 t), -d.lenPrev t e 0 - (d.seq t).frc e 2)]
  | _ => [((Ctx.negL (d.ctx.len t e 1)).sub (d.ctx.vF e 0 t), -d.lenPrev t e 1 - (d.seq t).frc e 0),
          ((d.ctx.len t e 0).sub (d.ctx.vF e 1 t), d.lenPrev t e 0 - (d.seq t).frc e 1)]

/-- The linearised square minus its bound, lines 239-244:
`(LinExpr(Σ v²) + (e₁ - v₁)*2.0*v₁ + (e₂ - v₂)*2.0*v₂) - bound`. -/
noncomputable def linSquares (ps : List (LinExpr ℝ × ℝ)) (bound : LinExpr ℝ) : LinExpr ℝ :=
  (ps.foldl (fun l p => l.add (((p.1.subC p.2).mul 2).mul p.2)) (ofConst ((ps.map fun p => p.2 ^ 2).sum))).sub bound

/-- The penalty terms of the later time iterations, lines 214-256, in order: `ub_x, lb_x, ub_y, lb_y, ub_z, lb_z`. -/
noncomputable def softTerms (d : DCtx) : List (ℝ × LinExpr ℝ) :=
  if !d.first && decide (d.s.heur = .timeOpt) then
    (List.range d.s.T).flatMap fun t => (List.range d.s.neff).flatMap fun e => if d.p.active t e then
      (List.range 3).flatMap fun a =>
        [(d.s.wSoft, linSquares (d.ubPairs t e a) (d.ctx.vUb e a t)), (d.s.wSoft, linSquares (d.lbPairs t e a) (d.ctx.vLb e a t))]
    else []
  else []

/-- All terms of the objective in order, lines 121-258. -/
noncomputable def objTerms (d : DCtx) : List (ℝ × LinExpr ℝ) :=
  d.viaTerms ++
  ((List.range d.s.T).flatMap fun t =>
    ((List.range 3).flatMap fun a => d.trackTerms t a ++ d.rateTerms t a ++ d.forceTerms t a ++ d.forceRateTerms t a) ++
    d.torqueTerms t ++ d.timeTerms t) ++
  d.softTerms

/-! ### constraints, DynamicsOptimizer.cpp:260-493 -/

/-- Center of mass height, lines 260-268: relative to the contact of end-effector 0 at time 0. -/
noncomputable def heightCons (d : DCtx) : List Op :=
  (List.range d.s.T).map fun t => .addLin ((d.ctx.vCom 2 t).sub (ofConst (d.p.loc 0 0 2))) ">" (ofConst d.s.minH)

/-- Fixed horizon, lines 270-276. -/
noncomputable def horizonCons (d : DCtx) : List Op :=
  if d.s.fixHor && decide (d.s.heur = .timeOpt) then
    [.addLin ((List.range d.s.T).foldl (fun l t => l.addAssign (d.ctx.vDt t)) (ofConst 0)) "=" (ofConst (d.s.T * d.s.step))]
  else []

/-- `lo < v < hi`, as in lines 281-282. -/
noncomputable def range2 (v : LinExpr ℝ) (lo hi : ℝ) : List Op := [.addLin v ">" (ofConst lo), .addLin v "<" (ofConst hi)]

/-- Ranges, lines 278-294. -/
noncomputable def rangeCons (d : DCtx) : List Op :=
  (List.range d.s.T).flatMap fun t =>
    (if d.s.heur = .timeOpt then range2 (d.ctx.vDt t) d.s.dtLo d.s.dtHi else []) ++
    (List.range d.s.neff).flatMap fun e => if d.p.active t e then
      range2 (d.ctx.vTrq e t) d.s.trqLo d.s.trqHi ++ range2 (d.ctx.vCop e 0 t) (d.s.copR e 0) (d.s.copR e 1) ++
      range2 (d.ctx.vCop e 1 t) (d.s.copR e 2) (d.s.copR e 3)
    else []

/-- Friction, lines 296-323. -/
noncomputable def frictionCons (d : DCtx) : List Op :=
  (List.range d.s.T).flatMap fun t => (List.range d.s.neff).flatMap fun e =>
    if d.p.full t e then [] else if d.p.active t e then
      if d.s.linCone then (List.range 4).map fun i => .addLin (d.ctx.frictionRow d.s.mu t e i) "<" (ofConst 0)
      else [.addSoc (d.ctx.frictionSoc d.s.mu t e).1 "<" (d.ctx.frictionSoc d.s.mu t e).2]
    else []

/-- The linear dynamics constraints, lines 325-444; the linearisation points of the later time iterations are the stored
momentum and momentum rates (`lmom_val`, `lmomd_val`, `amomd_val`). -/
noncomputable def dynExprs (d : DCtx) : List (LinExpr ℝ) :=
  if d.s.heur = .timeOpt then
    if d.first then d.ctx.timeConsFirst
    else d.ctx.timeConsLater (fun t a => (d.seq t).l a) (fun t a => (d.seq t).ld a) (fun t a => (d.seq t).hd a)
  else d.ctx.fixedCons

/-- `qapprox`, lines 446-452. -/
def approx (d : DCtx) : QApprox :=
  match d.s.heur with
  | .timeOpt => .none
  | .trust => .trustRegion
  | .soft => .softConstraint

/-- Torque bounds and end-effector length, lines 454-493. -/
noncomputable def quadCons (d : DCtx) : List Op :=
  (List.range d.s.T).flatMap fun t => (List.range d.s.neff).flatMap fun e => if d.p.active t e then
    ((List.range 3).map fun a => .addQua (d.ctx.ubQuad t e a) "<" (d.ctx.vUb e a t) d.approx) ++
    ((List.range 3).map fun a => .addQua (d.ctx.lbQuad t e a) "<" (d.ctx.vLb e a t) d.approx) ++
    [.addQua (d.ctx.lengthQuad (d.s.off e) t e) "<" (ofConst (d.s.maxLen e ^ 2)) .none]
  else []

/-- All constraints in order (DynamicsOptimizer.cpp:260-493). -/
noncomputable def cons (d : DCtx) : List Op :=
  d.heightCons ++ d.horizonCons ++ d.rangeCons ++ d.frictionCons ++ d.dynExprs.map TCtx.eq0 ++ d.quadCons

/-- The calls on the model, lines 102-493. -/
noncomputable def ops (d : DCtx) (guess : Int → ℝ) : List Op :=
  addVarOps (d.s.layout d.p.steps) d.s.inf guess ++ [.setObj (TCtx.quadOf d.objTerms) (ofConst 0)] ++ d.cons

/-! ### reading the solution, DynamicsOptimizer.cpp:500-582 -/

/-- `linmom`, lines 530-548 (only with optimised timing). -/
noncomputable def linmom (d : DCtx) (x : Nat → ℝ) : Nat → Nat → ℝ
  | 0, a => (List.range d.s.neff).foldl (fun h e => if d.p.active 0 e
      then h + x (vcol d.ctx.dtv 0 0) * (d.ctx.frcVal x 0 e a) else h)
      (d.p.iniL a + d.s.mass * d.s.grav a * x (vcol d.ctx.dtv 0 0))
  | t + 1, a => (List.range d.s.neff).foldl (fun h e => if d.p.active (t + 1) e
      then h + x (vcol d.ctx.dtv 0 (t + 1)) * (d.ctx.frcVal x (t + 1) e a) else h)
      (d.linmom x t a + d.s.mass * d.s.grav a * x (vcol d.ctx.dtv 0 (t + 1)))

/-- `compos`, lines 530-550. -/
noncomputable def compos (d : DCtx) (x : Nat → ℝ) : Nat → Nat → ℝ
  | 0, a => d.p.iniCom a + 1 / d.s.mass * x (vcol d.ctx.dtv 0 0) * d.linmom x 0 a
  | t + 1, a => d.compos x t a + 1 / d.s.mass * x (vcol d.ctx.dtv 0 (t + 1)) * d.linmom x (t + 1) a

/-- `len` with optimised timing, lines 565-568: relative to `compos`. -/
noncomputable def lenT (d : DCtx) (x : Nat → ℝ) (t e a : Nat) : ℝ :=
  d.p.loc t e a - d.compos x t a + d.p.rot t e a 0 * x (vcol (d.ctx.cop e) 0 (d.p.actId t e)) +
    d.p.rot t e a 1 * x (vcol (d.ctx.cop e) 1 (d.p.actId t e))

/-- `angmom` with optimised timing, lines 553-581: the time step is still the one of the previous iteration
(`dynamicsState(time_id).time()`). -/
noncomputable def angmomT (d : DCtx) (x : Nat → ℝ) : Nat → Nat → ℝ
  | 0, a => (List.range d.s.neff).foldl (fun h e => if d.p.active 0 e
      then h + (d.seq 0).time * (Ctx.cross (d.lenT x 0 e) (d.ctx.frcVal x 0 e) a + d.ctx.trqVal x 0 e a) else h) (d.p.iniH a)
  | t + 1, a => (List.range d.s.neff).foldl (fun h e => if d.p.active (t + 1) e
      then h + (d.seq (t + 1)).time *
        (Ctx.cross (d.lenT x (t + 1) e) (d.ctx.frcVal x (t + 1) e) a + d.ctx.trqVal x (t + 1) e a) else h)
      (d.angmomT x t a)

/-- `angmom`, lines 553-581. -/
noncomputable def angmom (d : DCtx) (x : Nat → ℝ) (t a : Nat) : ℝ :=
  if d.s.heur = .timeOpt then d.angmomT x t a else d.ctx.angmom x t a

end DCtx

/-! ### storing, DynamicsOptimizer.cpp:615-675 -/

/-- The values `storeSolution` reads from the `guess` matrices (DynamicsOptimizer.cpp:625-675). -/
structure Guess where
  com : Nat → Nat → ℝ           -- time, axis
  l : Nat → Nat → ℝ
  h : Nat → Nat → ℝ
  dt : Nat → ℝ
  ld : Nat → Nat → ℝ
  hd : Nat → Nat → ℝ
  frc : Nat → Nat → Nat → ℝ     -- end-effector, active step, axis
  cop : Nat → Nat → Nat → ℝ
  trq : Nat → Nat → ℝ

namespace DCtx

/-- `saveSolution` of the blocks, lines 509-522, 615-623. -/
noncomputable def guessOf (d : DCtx) (x : Nat → ℝ) : Guess where
  com := fun t a => x (vcol d.ctx.com a t)
  l := fun t a => x (vcol d.ctx.lmom a t)
  h := fun t a => x (vcol d.ctx.amom a t)
  dt := fun t => x (vcol d.ctx.dtv 0 t)
  ld := fun t a => x (vcol d.ctx.lmomd a t)
  hd := fun t a => x (vcol d.ctx.amomd a t)
  frc := fun e k a => x (vcol (d.ctx.frc e) a k)
  cop := fun e k a => x (vcol (d.ctx.cop e) a k)
  trq := fun e k => x (vcol (d.ctx.trq e) 0 k)

/-- `storeSolution`, lines 625-675, on one state: index `t` gets center of mass and momenta of step `t-1` (`centerOfMass`
of index 0: step 0), and times, rates, forces, centers of pressure and torques of step `t`. The orientation of the contact
is the one written by `fillDynamicsSequence`, i.e. that of the contact plan. -/
noncomputable def storeState (d : DCtx) (g : Guess) (t : Nat) : DState :=
  let o := d.seq t
  let inT := decide (t < d.s.T)
  let tim := inT && decide (d.s.heur = .timeOpt)
  let act := fun e => inT && decide (e < d.s.neff) && d.p.active t e
  let frc : Nat → Nat → ℝ := fun e a => if act e then g.frc e (d.p.actId t e) a else o.frc e a
  let cop : Nat → Nat → ℝ := fun e a => if act e then (if a < 2 then g.cop e (d.p.actId t e) a else 0) else o.cop e a
  let trq : Nat → Nat → ℝ := fun e a => if act e then (if a = 2 then g.trq e (d.p.actId t e) else 0) else o.trq e a
  { time := if tim then g.dt t else o.time
    com := if t = 0 then g.com 0 else if t ≤ d.s.T then g.com (t - 1) else o.com
    l := if t = 0 then o.l else if t ≤ d.s.T then g.l (t - 1) else o.l
    h := if t = 0 then o.h else if t ≤ d.s.T then g.h (t - 1) else o.h
    ld := if tim then g.ld t else o.ld
    hd := if tim then g.hd t else o.hd
    frc := frc
    cop := cop
    trq := trq
    trqCp := fun e a => if act e then trq e a + Ctx.cross (cop e)
      (fun k => d.s.mg * (d.p.rot t e 0 k * frc e 0 + d.p.rot t e 1 k * frc e 1 + d.p.rot t e 2 k * frc e 2)) a else o.trqCp e a }

/-- Frobenius norm of a 3 × T matrix (Eigen's `norm`, DynamicsOptimizer.cpp:589-591). -/
noncomputable def frob (T : Nat) (m : Nat → Nat → ℝ) : ℝ :=
  Real.sqrt (((List.range T).map fun (t : Nat) => m t 0 ^ 2 + m t 1 ^ 2 + m t 2 ^ 2).sum)

/-- `convergence_err_`, lines 589-592. -/
noncomputable def convErr (d : DCtx) (x : Nat → ℝ) : ℝ :=
  max (frob d.s.T (fun t a => (d.guessOf x).com t a - d.compos x t a) / d.s.T)
    (max (frob d.s.T (fun t a => (d.guessOf x).l t a - d.linmom x t a) / d.s.T)
      (frob d.s.T (fun t a => (d.guessOf x).h t a - d.angmomT x t a) / d.s.T))

end DCtx

/-- The members `internalOptimize` changes: dynamics sequence, guesses, convergence data (`none`: infinite) (DynamicsOptimizer.hpp:182-199). -/
structure LoopState where
  seq : Nat → DState
  guess : Guess
  err : Option ℝ
  converged : Bool

/-- The arguments of `optimize` after lines 67-76. -/
structure DIn where
  s : DSet
  p : DPlan
  r : DRef
  wTrack : Nat → ℝ

/-- The context of a call of `internalOptimize` (DynamicsOptimizer.cpp:93). -/
def DIn.ctx (i : DIn) (seq : Nat → DState) (first : Bool) : DCtx := ⟨i.s, i.p, i.r, i.wTrack, seq, first⟩

open Classical in
/-- `internalOptimize`, lines 93-598, for the solution `x` found by the solver (`last_convergence_err_` is infinite in the
first call, so that the improvement test fails there). When it has converged the solution is stored a second time with the
recomputed angular momentum, which overwrites exactly the entries written before. -/
noncomputable def internalOptimize (i : DIn) (st : LoopState) (first : Bool) (x : Nat → ℝ) : LoopState :=
  let d := i.ctx st.seq first
  let g := d.guessOf x
  if i.s.heur = .timeOpt then
    let st1 : LoopState := { st with seq := d.storeState g, guess := g }
    let err := d.convErr x
    let small := err < i.s.tolRes
    let stuck := ∃ e, (if first then none else st.err) = some e ∧ |e - err| < i.s.tolImp
    let conv := st.converged || decide small || decide stuck
    let g' : Guess := { g with h := d.angmom x }
    if conv then { seq := d.storeState g', guess := g', err := some err, converged := true }
    else { st1 with err := some err, converged := false }
  else
    let g' : Guess := { g with h := d.angmom x }
    { st with seq := d.storeState g', guess := g' }

/-- The iterations of lines 82-87, at most `n` more; `solver k d` is the solution of the `k`-th problem. The second
component counts the calls of the solver. -/
noncomputable def timeLoop (i : DIn) (solver : Nat → DCtx → Nat → ℝ) : Nat → Nat → LoopState → LoopState × Nat
  | 0, k, st => (st, k)
  | n + 1, k, st =>
    let st' := internalOptimize i st false (solver k (i.ctx st.seq false))
    if st'.converged then (st', k + 1) else timeLoop i solver n (k + 1) st'

/-- `optimize`, lines 64-91, after the preparation of lines 67-76. -/
noncomputable def optimizeLoop (i : DIn) (solver : Nat → DCtx → Nat → ℝ) (seq : Nat → DState) (g : Guess) (err : Option ℝ) :
    LoopState × Nat :=
  let st := internalOptimize i ⟨seq, g, err, false⟩ true (solver 0 (i.ctx seq true))
  if i.s.heur = .timeOpt then timeLoop i solver i.s.maxIter 1 st else (st, 1)

/-- `updateTrackingObjective` and the reset of `weight_desired_com_tracking_`, lines 57-62, 70, 75-76: the settings after
the call of `optimize`, and the weight used in it. -/
def trackingWeights (s : DSet) (update : Bool) : DSet × (Nat → ℝ) :=
  if update then ({ s with
    wL := s.wTrL
    wH := s.wTrH }, s.wTrCom) else (s, fun _ => 0)

/-- `optimize`, lines 64-91: the settings and the sequence it leaves (the settings are the caller's, by reference). -/
noncomputable def optimizeCall (s : DSet) (p : DPlan) (r : DRef) (update : Bool) (solver : Nat → DCtx → Nat → ℝ)
    (seq : Nat → DState) (g : Guess) (err : Option ℝ) : DSet × (LoopState × Nat) :=
  let w := trackingWeights s update
  (w.1, optimizeLoop ⟨w.1, p, r, w.2⟩ solver seq g err)

end Dyn
end Verif
