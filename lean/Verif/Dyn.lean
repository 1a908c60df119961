/-
Model of the constraints of `momentumopt::DynamicsOptimizer::internalOptimize` (friction, centroidal dynamics, torque
decomposition), of the recomputation of the angular momentum, of `storeSolution`, and of `DynamicsFeedback`:
/repo/momentumopt/include/momentumopt/dynopt/DynamicsOptimizer.hpp:28-45,
/repo/momentumopt/src/momentumopt/dynopt/DynamicsOptimizer.cpp:296-493,554-582,625-641,
/repo/momentumopt/src/momentumopt/dynopt/DynamicsFeedback.cpp:17-133.

Simplifications: exact reals for `double`; a 3-vector is a function of the axis 0,1,2; `LinExpr`, `QuadExpr` and
`OptVar` are the models of the solver interface; the objective, the solver call, files and settings are not modelled here;
contact rotation and location are given per (time, end-effector) for active end-effectors (the look-up of an inactive one
with contact id -1 is undefined behaviour of the code and not modelled).
-/
import Verif.LinExpr
import Verif.OptVar
import Mathlib.Analysis.SpecialFunctions.Trigonometric.Basic

namespace Verif
namespace Dyn

/-! ### friction cone -/

/-- `FrictionCone::getCone`, first vector before normalisation, DynamicsOptimizer.hpp:32; the coefficient is clamped. -/
noncomputable def clampMu (mu : ℝ) : ℝ := if mu ≤ 0.001 then 0.001 else mu

/-- The direction of an edge of the friction cone, DynamicsOptimizer.hpp:33. -/
noncomputable def coneVec (mu : ℝ) : Nat → ℝ
  | 0 => 0.5 * Real.sqrt 2
  | 1 => 0.5 * Real.sqrt 2
  | _ => - clampMu mu

/-- `Eigen::normalize` of a 3-vector, DynamicsOptimizer.hpp:33. -/
noncomputable def normalize3 (v : Nat → ℝ) : Nat → ℝ := fun a => v a / Real.sqrt (v 0 ^ 2 + v 1 ^ 2 + v 2 ^ 2)

/-- `fconemat * v`, DynamicsOptimizer.hpp:34-37,40: rotation about z by `2π/4`. -/
noncomputable def rotZ (v : Nat → ℝ) : Nat → ℝ
  | 0 => Real.cos (2 * Real.pi / 4) * v 0 - Real.sin (2 * Real.pi / 4) * v 1
  | 1 => Real.sin (2 * Real.pi / 4) * v 0 + Real.cos (2 * Real.pi / 4) * v 1
  | _ => v 2

/-- Row `i` of the cone matrix, DynamicsOptimizer.hpp:38-41. -/
noncomputable def coneRow (mu : ℝ) : Nat → Nat → ℝ
  | 0 => normalize3 (coneVec mu)
  | i + 1 => rotZ (coneRow mu i)

/-! ### the problem data -/

/-- What `internalOptimize` reads: number of steps and end-effectors, settings, initial state, contact activation
(`endeffectorActivation`, `endeffectorActivationId`), contact frames, and the variable blocks of lines 30-55. -/
structure Ctx where
  T : Nat
  neff : Nat
  dt : Nat → ℝ
  mass : ℝ
  mg : ℝ
  grav : Nat → ℝ
  ext : Nat → ℝ
  iniCom : Nat → ℝ
  iniL : Nat → ℝ
  iniH : Nat → ℝ
  active : Nat → Nat → Bool
  actId : Nat → Nat → Nat
  rot : Nat → Nat → Nat → Nat → ℝ   -- time, end-effector, row, column
  loc : Nat → Nat → Nat → ℝ         -- time, end-effector, axis
  com : OptVar
  lmom : OptVar
  amom : OptVar
  dtv : OptVar
  lmomd : OptVar
  amomd : OptVar
  lb : Nat → OptVar
  ub : Nat → OptVar
  frc : Nat → OptVar
  cop : Nat → OptVar
  trq : Nat → OptVar

/-- The column of `vars_[v.id(row, col)]` (DynamicsOptimizer.cpp:600-613). -/
def vcol (v : OptVar) (row col : Nat) : Nat := (v.id row col).toNat

namespace Ctx
open LinExpr

/-- `vars_[com_.id(a,t)]`, DynamicsOptimizer.cpp:600-613. -/
noncomputable def vCom (c : Ctx) (a t : Nat) : LinExpr ℝ := ofVar (vcol c.com a t)
/-- `vars_[lmom_.id(a,t)]`, DynamicsOptimizer.cpp:600-613. -/
noncomputable def vL (c : Ctx) (a t : Nat) : LinExpr ℝ := ofVar (vcol c.lmom a t)
/-- `vars_[amom_.id(a,t)]`, DynamicsOptimizer.cpp:600-613. -/
noncomputable def vH (c : Ctx) (a t : Nat) : LinExpr ℝ := ofVar (vcol c.amom a t)
/-- `vars_[dt_.id(0,t)]`, DynamicsOptimizer.cpp:600-613. -/
noncomputable def vDt (c : Ctx) (t : Nat) : LinExpr ℝ := ofVar (vcol c.dtv 0 t)
/-- `vars_[lmomd_.id(a,t)]`, DynamicsOptimizer.cpp:600-613. -/
noncomputable def vLd (c : Ctx) (a t : Nat) : LinExpr ℝ := ofVar (vcol c.lmomd a t)
/-- `vars_[amomd_.id(a,t)]`, DynamicsOptimizer.cpp:600-613. -/
noncomputable def vHd (c : Ctx) (a t : Nat) : LinExpr ℝ := ofVar (vcol c.amomd a t)
/-- `vars_[frc_world_[e].id(a, activation id)]`, DynamicsOptimizer.cpp:307. -/
noncomputable def vF (c : Ctx) (e a t : Nat) : LinExpr ℝ := ofVar (vcol (c.frc e) a (c.actId t e))
/-- `vars_[lb_var_[e].id(a, activation id)]`, DynamicsOptimizer.cpp:435. -/
noncomputable def vLb (c : Ctx) (e a t : Nat) : LinExpr ℝ := ofVar (vcol (c.lb e) a (c.actId t e))
/-- `vars_[ub_var_[e].id(a, activation id)]`, DynamicsOptimizer.cpp:435. -/
noncomputable def vUb (c : Ctx) (e a t : Nat) : LinExpr ℝ := ofVar (vcol (c.ub e) a (c.actId t e))
/-- `vars_[cop_local_[e].id(a, activation id)]`, DynamicsOptimizer.cpp:462-464. -/
noncomputable def vCop (c : Ctx) (e a t : Nat) : LinExpr ℝ := ofVar (vcol (c.cop e) a (c.actId t e))
/-- `vars_[trq_local_[e].id(0, activation id)]`, DynamicsOptimizer.cpp:438. -/
noncomputable def vTrq (c : Ctx) (e t : Nat) : LinExpr ℝ := ofVar (vcol (c.trq e) 0 (c.actId t e))

/-- `for eff: if (active) lin_cons_ = body(lin_cons_)` (e.g. DynamicsOptimizer.cpp:422-423). -/
noncomputable def overActive (c : Ctx) (t : Nat) (body : Nat → LinExpr ℝ → LinExpr ℝ) (l : LinExpr ℝ) : LinExpr ℝ :=
  (List.range c.neff).foldl (fun l e => if c.active t e then body e l else l) l

/-! ### friction constraints, DynamicsOptimizer.cpp:297-323 -/

/-- The linear friction constraint of row `i`, lines 303-309 (`"<" 0`): `cone * rotᵀ`. -/
noncomputable def frictionRow (c : Ctx) (mu : ℝ) (t e i : Nat) : LinExpr ℝ :=
  (List.range 3).foldl (fun l a => l.addAssign
    ((c.vF e a t).mul (coneRow mu i 0 * c.rot t e a 0 + coneRow mu i 1 * c.rot t e a 1 + coneRow mu i 2 * c.rot t e a 2)))
    (ofConst 0)

/-- `fx`, `fy`, `fz` of the second-order-cone representation, lines 311-316. -/
noncomputable def localForce (c : Ctx) (t e k : Nat) : LinExpr ℝ :=
  (List.range 3).foldl (fun l a => l.addAssign ((c.vF e a t).mul (c.rot t e a k))) (ofConst 0)

/-- Left- and right-hand side of the second-order-cone constraint, lines 317-318. -/
noncomputable def frictionSoc (c : Ctx) (mu : ℝ) (t e : Nat) : QuadExpr ℝ × LinExpr ℝ :=
  ((QuadExpr.empty.addQuaTerm 1 (c.localForce t e 0)).addQuaTerm 1 (c.localForce t e 1), (c.localForce t e 2).mul mu)

/-! ### dynamics with fixed timing, DynamicsOptimizer.cpp:410-443 (each `= 0`) -/

/-- Center of mass, lines 411-415 (identical: 329-333). -/
noncomputable def comCons (c : Ctx) (t a : Nat) : LinExpr ℝ :=
  if t = 0 then ((c.vCom a t).sub (ofConst (c.iniCom a))).sub ((c.vL a t).mul (c.dt t / c.mass))
  else ((c.vCom a t).sub (c.vCom a (t - 1))).sub ((c.vL a t).mul (c.dt t / c.mass))

/-- Linear momentum, lines 418-426. -/
noncomputable def lmomCons (c : Ctx) (t a : Nat) : LinExpr ℝ :=
  let l0 := if t = 0 then ((c.vL a t).sub (ofConst (c.dt t * (c.mass * c.grav a)))).sub (ofConst (c.iniL a))
    else ((c.vL a t).sub (ofConst (c.dt t * (c.mass * c.grav a)))).sub (c.vL a (t - 1))
  let l1 := c.overActive t (fun e l => l.addAssign ((c.vF e a t).mul (-c.dt t * c.mg))) l0
  if t = 0 then l1.addAssign ((ofConst (c.ext a)).mul (-c.dt t * c.mg)) else l1

/-- Angular momentum, lines 429-442. -/
noncomputable def amomCons (c : Ctx) (t a : Nat) : LinExpr ℝ :=
  let l0 := if t = 0 then (c.vH a t).sub (ofConst (c.iniH a)) else (c.vH a t).sub (c.vH a (t - 1))
  c.overActive t (fun e l =>
    (l.addAssign (((c.vLb e a t).sub (c.vUb e a t)).mul (0.25 * c.dt t * c.mg))).addAssign
      ((c.vTrq e t).mul (-c.rot t e a 2 * c.dt t))) l0

/-- The constraints of the loop at lines 325-444 with fixed timing, in order. -/
noncomputable def fixedCons (c : Ctx) : List (LinExpr ℝ) :=
  (List.range c.T).flatMap fun t =>
    (List.range 3).map (c.comCons t) ++ (List.range 3).map (c.lmomCons t) ++ (List.range 3).map (c.amomCons t)

/-! ### dynamics with optimised timing, DynamicsOptimizer.cpp:326-409 -/

/-- First iteration, lines 336-340. -/
noncomputable def tLmomCons (c : Ctx) (t a : Nat) : LinExpr ℝ :=
  if t = 0 then ((c.vL a t).sub (ofConst (c.iniL a))).sub ((c.vLd a t).mul (c.dt t))
  else ((c.vL a t).sub (c.vL a (t - 1))).sub ((c.vLd a t).mul (c.dt t))

/-- First iteration, lines 343-347. -/
noncomputable def tAmomCons (c : Ctx) (t a : Nat) : LinExpr ℝ :=
  if t = 0 then ((c.vH a t).sub (ofConst (c.iniH a))).sub ((c.vHd a t).mul (c.dt t))
  else ((c.vH a t).sub (c.vH a (t - 1))).sub ((c.vHd a t).mul (c.dt t))

/-- The linearisation of the product of `dt` and `v` used in the later iterations, lines 359-360, 371-372, 383-384: the
difference of the tangents of `(dt+v)²` and `(dt-v)²` at the last values, times `k`. -/
noncomputable def tangentProd (dt v : LinExpr ℝ) (dtVal vVal k : ℝ) : LinExpr ℝ :=
  (((ofConst ((dtVal + vVal) ^ 2)).add ((((dt.add v).subC (dtVal + vVal)).mul 2).mul (dtVal + vVal))).mul k).sub
    (((ofConst ((dtVal - vVal) ^ 2)).add ((((dt.sub v).subC (dtVal - vVal)).mul 2).mul (dtVal - vVal))).mul k)

/-- Later iterations, center of mass, lines 353-362 (`lVal` = `dynamicsState(t).linearMomentum()`). -/
noncomputable def lComCons (c : Ctx) (lVal : Nat → Nat → ℝ) (t a : Nat) : LinExpr ℝ :=
  ((ofConst 0).addAssign (if t = 0 then (ofConst (c.iniCom a)).sub (c.vCom a t) else (c.vCom a (t - 1)).sub (c.vCom a t))).addAssign
    (tangentProd (c.vDt t) (c.vL a t) (c.dt t) (lVal t a) (0.25 / c.mass))

/-- Later iterations, linear momentum, lines 365-374. -/
noncomputable def lLmomCons (c : Ctx) (ldVal : Nat → Nat → ℝ) (t a : Nat) : LinExpr ℝ :=
  ((ofConst 0).addAssign (if t = 0 then (ofConst (c.iniL a)).sub (c.vL a t) else (c.vL a (t - 1)).sub (c.vL a t))).addAssign
    (tangentProd (c.vDt t) (c.vLd a t) (c.dt t) (ldVal t a) 0.25)

/-- Later iterations, angular momentum, lines 377-386. -/
noncomputable def lAmomCons (c : Ctx) (hdVal : Nat → Nat → ℝ) (t a : Nat) : LinExpr ℝ :=
  ((ofConst 0).addAssign (if t = 0 then (ofConst (c.iniH a)).sub (c.vH a t) else (c.vH a (t - 1)).sub (c.vH a t))).addAssign
    (tangentProd (c.vDt t) (c.vHd a t) (c.dt t) (hdVal t a) 0.25)

/-- Linear momentum rate, lines 390-395. -/
noncomputable def lmomdCons (c : Ctx) (t a : Nat) : LinExpr ℝ :=
  c.overActive t (fun e l => l.addAssign ((c.vF e a t).mul c.mg)) ((ofConst (c.mass * c.grav a)).sub (c.vLd a t))

/-- Angular momentum rate, lines 398-408. -/
noncomputable def amomdCons (c : Ctx) (t a : Nat) : LinExpr ℝ :=
  c.overActive t (fun e l =>
    (l.addAssign ((((c.vUb e a t).sub (c.vLb e a t)).mul 0.25).mul c.mg)).addAssign ((c.vTrq e t).mul (c.rot t e a 2)))
    ((ofConst 0).sub (c.vHd a t))

/-- The constraints of the first iteration with optimised timing, lines 325-408. -/
noncomputable def timeConsFirst (c : Ctx) : List (LinExpr ℝ) :=
  (List.range c.T).flatMap fun t =>
    (List.range 3).map (c.comCons t) ++ (List.range 3).map (c.tLmomCons t) ++ (List.range 3).map (c.tAmomCons t) ++
    (List.range 3).map (c.lmomdCons t) ++ (List.range 3).map (c.amomdCons t)

/-- The constraints of the later iterations (DynamicsOptimizer.cpp:325-408). -/
noncomputable def timeConsLater (c : Ctx) (lVal ldVal hdVal : Nat → Nat → ℝ) : List (LinExpr ℝ) :=
  (List.range c.T).flatMap fun t =>
    (List.range 3).map (c.lComCons lVal t) ++ (List.range 3).map (c.lLmomCons ldVal t) ++
    (List.range 3).map (c.lAmomCons hdVal t) ++ (List.range 3).map (c.lmomdCons t) ++ (List.range 3).map (c.amomdCons t)

/-! ### torque decomposition, DynamicsOptimizer.cpp:454-493 -/

/-- `lx`, `ly`, `lz`, lines 462-464. -/
noncomputable def len (c : Ctx) (t e a : Nat) : LinExpr ℝ :=
  (((ofConst (c.loc t e a)).sub (c.vCom a t)).add ((c.vCop e 0 t).mul (c.rot t e a 0))).add
    ((c.vCop e 1 t).mul (c.rot t e a 1))

/-- `LinExpr()-e` (DynamicsOptimizer.cpp:470-486). -/
noncomputable def negL (e : LinExpr ℝ) : LinExpr ℝ := (ofConst 0).sub e

/-- The two squares bounded by `ub_var_`, lines 470-477. -/
noncomputable def ubQuad (c : Ctx) (t e : Nat) : Nat → QuadExpr ℝ
  | 0 => (QuadExpr.empty.addQuaTerm 1 ((negL (c.len t e 2)).add (c.vF e 1 t))).addQuaTerm 1 ((c.len t e 1).add (c.vF e 2 t))
  | 1 => (QuadExpr.empty.addQuaTerm 1 ((c.len t e 2).add (c.vF e 0 t))).addQuaTerm 1 ((negL (c.len t e 0)).add (c.vF e 2 t))
  | _ => (QuadExpr.empty.addQuaTerm 1 ((negL (c.len t e 1)).add (c.vF e 0 t))).addQuaTerm 1 ((c.len t e 0).add (c.vF e 1 t))

/-- The two squares bounded by `lb_var_`, lines 479-486. -/
noncomputable def lbQuad (c : Ctx) (t e : Nat) : Nat → QuadExpr ℝ
  | 0 => (QuadExpr.empty.addQuaTerm 1 ((negL (c.len t e 2)).sub (c.vF e 1 t))).addQuaTerm 1 ((c.len t e 1).sub (c.vF e 2 t))
  | 1 => (QuadExpr.empty.addQuaTerm 1 ((c.len t e 2).sub (c.vF e 0 t))).addQuaTerm 1 ((negL (c.len t e 0)).sub (c.vF e 2 t))
  | _ => (QuadExpr.empty.addQuaTerm 1 ((negL (c.len t e 1)).sub (c.vF e 0 t))).addQuaTerm 1 ((c.len t e 0).sub (c.vF e 1 t))

/-- The end-effector length constraint, lines 489-490: squares and right-hand side. -/
noncomputable def lengthQuad (c : Ctx) (off : Nat → ℝ) (t e : Nat) : QuadExpr ℝ :=
  ((QuadExpr.empty.addQuaTerm 1 ((c.len t e 0).subC (off 0))).addQuaTerm 1 ((c.len t e 1).subC (off 1))).addQuaTerm 1
    ((c.len t e 2).subC (off 2))

/-! ### recomputation of the angular momentum, DynamicsOptimizer.cpp:553-582 -/

/-- Component `a` of `u × v` (DynamicsOptimizer.cpp:554-581). -/
def cross (u v : Nat → ℝ) : Nat → ℝ
  | 0 => u 1 * v 2 - u 2 * v 1
  | 1 => u 2 * v 0 - u 0 * v 2
  | _ => u 0 * v 1 - u 1 * v 0

/-- `len`, lines 570-572 (fixed timing), at the solution `x`. -/
noncomputable def lenVal (c : Ctx) (x : Nat → ℝ) (t e a : Nat) : ℝ :=
  c.loc t e a - x (vcol c.com a t) + c.rot t e a 0 * x (vcol (c.cop e) 0 (c.actId t e)) +
    c.rot t e a 1 * x (vcol (c.cop e) 1 (c.actId t e))

/-- `frc`, lines 574-576. -/
noncomputable def frcVal (c : Ctx) (x : Nat → ℝ) (t e a : Nat) : ℝ := c.mg * x (vcol (c.frc e) a (c.actId t e))

/-- `trq`, line 577. -/
noncomputable def trqVal (c : Ctx) (x : Nat → ℝ) (t e a : Nat) : ℝ := c.rot t e a 2 * x (vcol (c.trq e) 0 (c.actId t e))

/-- `angmom.col(t)`, lines 554-581. -/
noncomputable def angmom (c : Ctx) (x : Nat → ℝ) : Nat → Nat → ℝ
  | 0, a => (List.range c.neff).foldl (fun h e => if c.active 0 e
      then h + c.dt 0 * (cross (c.lenVal x 0 e) (c.frcVal x 0 e) a + c.trqVal x 0 e a) else h) (c.iniH a)
  | t + 1, a => (List.range c.neff).foldl (fun h e => if c.active (t + 1) e
      then h + c.dt (t + 1) * (cross (c.lenVal x (t + 1) e) (c.frcVal x (t + 1) e) a + c.trqVal x (t + 1) e a) else h)
      (c.angmom x t a)

end Ctx

/-! ### storing the solution, DynamicsOptimizer.cpp:625-639 -/

/-- `dynamicsState(i) = v` on the vector of states: `none` is an access outside the vector (undefined behaviour) (DynamicsState.hpp:137-140). -/
def wrState {α : Type} (s : List α) (i : Nat) (v : α) : Option (List α) := if i < s.length then some (s.set i v) else none

/-- `for (time_id<T) dynamicsState(time_id+1).linearMomentum() = guess.col(time_id)`, lines 632-638. -/
def storeShifted {α : Type} (T : Nat) (guess : Nat → α) (s : List α) : Option (List α) :=
  (List.range T).foldl (fun s t => s.bind fun s => wrState s (t + 1) (guess t)) (some s)

/-- The center of mass, lines 627-630: additionally `dynamicsState(0) = guess.col(0)` first. -/
def storeCom {α : Type} (T : Nat) (guess : Nat → α) (s : List α) : Option (List α) :=
  (wrState s 0 (guess 0)).bind (storeShifted T guess)

/-- Forces, times, momentum rates: `dynamicsState(time_id) = guess.col(..)`, lines 640-672. -/
def storeStraight {α : Type} (T : Nat) (guess : Nat → α) (s : List α) : Option (List α) :=
  (List.range T).foldl (fun s t => s.bind fun s => wrState s t (guess t)) (some s)

/-! ### momentum feedback, DynamicsFeedback.cpp -/

/-- The state indices of the reference sequence read by `objective`, lines 68-80, with at least one end-effector
(`dynamicsState(time_id).endeffectorActivation`), in order. -/
def objectiveReads (neff time : Nat) : List Nat :=
  List.replicate neff time ++ (if time > 0 then List.replicate 6 (time - 1) else List.replicate 6 0)

/-- The calls of `objective` during a forward pass (ForwardPass.cpp:46,55): every time step, then the final state. -/
def forwardPassReads (neff tdim : Nat) : List Nat :=
  (List.range tdim).flatMap (objectiveReads neff) ++ objectiveReads neff tdim

/-- `setStatesAndControls`, DynamicsFeedback.cpp:25-28: throws unless the sizes agree. -/
def sizesAccepted (tdim size : Nat) : Bool := !(tdim != size)

/-- Index used by `forceGain`, DynamicsFeedback.cpp:128: `max(min(time, tdim-1), 0)` on ints. -/
def forceGainIndex (tdim : Nat) (time : Int) : Int := max (min time ((tdim : Int) - 1)) 0

/-- State of the feedback model: center of mass, linear and angular momentum (`segment<3>(0)`, `(3)`, `(6)`) (DynamicsFeedback.cpp:85-107). -/
structure MomState where
  com : Nat → ℝ
  l : Nat → ℝ
  h : Nat → ℝ

/-- `internal_dynamics` without Runge-Kutta (OcpDescription.cpp:157-168) of `DynamicsFeedback::dynamics`, lines 85-107;
`f e a` is `control.feedforward().segment<3>(3*eff_id)`, the contact position is `pos`. -/
noncomputable def fbStep (c : Ctx) (pos : Nat → Nat → Nat → ℝ) (t : Nat) (s : MomState) (f : Nat → Nat → ℝ) : MomState :=
  let dl : Nat → ℝ := fun a => (List.range c.neff).foldl (fun d e => if c.active t e then d + c.dt t * f e a else d)
    (c.dt t * c.mass * c.grav a)
  let dc : Nat → ℝ := fun a => c.dt t / c.mass * (s.l a + dl a)
  let dh : Nat → ℝ := fun a => (List.range c.neff).foldl (fun d e => if c.active t e
    then d + c.dt t * Ctx.cross (fun b => pos t e b - (s.com b + dc b)) (f e) a else d) 0
  ⟨fun a => s.com a + dc a, fun a => s.l a + dl a, fun a => s.h a + dh a⟩

/-- Rolling the feedback model out from the initial state under the planned forces (the feed-forward set by
`setStatesAndControls`, lines 30-35: `mass*gravity` times the stored force of active end-effectors, otherwise zero);
entry `t+1` is the state after step `t`. -/
noncomputable def fbRollout (c : Ctx) (pos : Nat → Nat → Nat → ℝ) (force : Nat → Nat → Nat → ℝ) : Nat → MomState
  | 0 => ⟨c.iniCom, c.iniL, c.iniH⟩
  | t + 1 => fbStep c pos t (fbRollout c pos force t) (fun e a => if c.active t e then c.mg * force t e a else 0)

end Dyn
end Verif
