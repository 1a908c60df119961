/-
Model of the LQR-like optimal control solver, /repo/solver_lqr/{include,src}/solver_lqr.

Simplifications: exact real arithmetic, no NaN or infinity. The user's `dynamics` and `objective` (virtual functions) are pure functions. Sequences are
functions of the time index; indices `0..tdim` (states) and `0..tdim-1` (controls) are the ones stored. Eigen's `LLT` reads the lower triangle, succeeds iff
the matrix it represents is positive definite and solves exactly. The quadratic program of `findConstrainedControls` is solved by an oracle.
Printing, storing and loading of solutions are not modelled; the displayed exit message is.
-/
import Mathlib.LinearAlgebra.Matrix.PosDef
import Mathlib.Analysis.Matrix.PosDef
import Mathlib.Data.Real.Basic

namespace Verif
namespace Lqr
open Matrix Classical

/-- `Eigen::VectorXd` of size `n`, e.g. `state_` (OcpDescription.hpp:18-39). -/
abbrev Vec (n : Nat) := Fin n → ℝ
/-- `Eigen::MatrixXd` of size `m × n`, e.g. `feedback_` (OcpDescription.hpp:83). -/
abbrev Mat (m n : Nat) := Matrix (Fin m) (Fin n) ℝ

/-- `ControlBase`, OcpDescription.hpp:62-85. -/
@[ext] structure Control (nx nu : Nat) where
  ff : Vec nu
  fb : Mat nu nx

/-- `ControlBase(xdim, udim)`, OcpDescription.cpp:19-23. -/
def Control.zero (nx nu : Nat) : Control nx nu := ⟨0, 0⟩

/-- `scalar * control`, OcpDescription.cpp:32-38,46-49: only the feedforward part is scaled. -/
def Control.scale {nx nu : Nat} (a : ℝ) (u : Control nx nu) : Control nx nu := ⟨a • u.ff, u.fb⟩

/-- `control + control`, OcpDescription.cpp:51-64: the feedback is that of the right operand. -/
def Control.add {nx nu : Nat} (u v : Control nx nu) : Control nx nu := ⟨u.ff + v.ff, v.fb⟩

/-- The optimal control problem, `OcpBase`, OcpDescription.hpp:115-150: horizon and the user's functions. -/
structure Ocp (nx nu : Nat) where
  tdim : Nat
  dyn : Vec nx → Control nx nu → Nat → Vec nx
  obj : Vec nx → Control nx nu → Nat → Bool → ℝ

/-- Settings read, SolverLqrSetting.cpp:25-62; `qp time H g u0` is what the quadratic program of `findConstrainedControls` returns. -/
structure Setting (nu : Nat) where
  rk : Bool
  hasLimits : Bool
  minU : Vec nu
  maxU : Vec nu
  divLimit : ℝ
  coeffs : List ℝ
  initReg : ℝ
  initMult : ℝ
  incr : ℝ
  minReg : ℝ
  maxReg : ℝ
  gradTol : ℝ
  costTol : ℝ
  maxIters : Int
  qp : Nat → Mat nu nu → Vec nu → Vec nu → Vec nu

/-- `OcpBase::internal_dynamics`, OcpDescription.cpp:157-168. -/
noncomputable def step {nx nu : Nat} (o : Ocp nx nu) (c : Setting nu) (x : Vec nx) (u : Control nx nu) (t : Nat) : Vec nx :=
  let k1 := o.dyn x u t
  let d :=
    if c.rk then
      let k2 := o.dyn (x + (0.5 : ℝ) • k1) u t
      let k3 := o.dyn (x + (0.5 : ℝ) • k2) u t
      let k4 := o.dyn (x + k3) u t
      (6.0 : ℝ)⁻¹ • (k1 + k4) + (3.0 : ℝ)⁻¹ • (k2 + k3)
    else k1
  x + d

/-! ### forward pass -/

/-- Members of `ForwardPass`, ForwardPass.hpp:42-52. -/
structure Fwd (nx nu : Nat) where
  xs : Nat → Vec nx
  us : Nat → Control nx nu
  cost : Nat → ℝ
  diverged : Bool

/-- Limits on one control, ForwardPass.cpp:38-41: upper limit first. -/
noncomputable def clamp1 (lo hi u : ℝ) : ℝ :=
  let v := if u ≥ hi then hi else u
  if v ≤ lo then lo else v

/-- Body of the loop of `applyController`, ForwardPass.cpp:31-53. -/
noncomputable def fwdBody {nx nu : Nat} (o : Ocp nx nu) (c : Setting nu) (xs : Nat → Vec nx) (us : Nat → Control nx nu) (t : Nat) (f : Fwd nx nu) : Fwd nx nu :=
  let dx := f.xs t - xs t
  let v := (us t).ff + (us t).fb *ᵥ dx
  let w : Vec nu := if c.hasLimits then fun i => clamp1 (c.minU i) (c.maxU i) (v i) else v
  let us' := Function.update f.us t { f.us t with ff := w }
  let x' := step o c (f.xs t) (us' t) t
  { xs := Function.update f.xs (t + 1) x'
    us := us'
    cost := Function.update f.cost t (o.obj (f.xs t) (us' t) t false)
    diverged := f.diverged || decide (∃ i, |x' i| > c.divLimit) }

/-- The first `n` iterations of the loop, ForwardPass.cpp:23-54 (initialisation in lines 24-28). -/
noncomputable def fwdLoop {nx nu : Nat} (o : Ocp nx nu) (c : Setting nu) (xs : Nat → Vec nx) (us : Nat → Control nx nu) : Nat → Fwd nx nu
  | 0 => { xs := xs, us := us, cost := fun _ => 0, diverged := false }
  | n + 1 => fwdBody o c xs us n (fwdLoop o c xs us n)

/-- `ForwardPass::applyController`, ForwardPass.cpp:21-59. -/
noncomputable def applyController {nx nu : Nat} (o : Ocp nx nu) (c : Setting nu) (xs : Nat → Vec nx) (us : Nat → Control nx nu) : Fwd nx nu :=
  let f := fwdLoop o c xs us o.tdim
  { f with cost := Function.update f.cost o.tdim (o.obj (f.xs o.tdim) (Control.zero nx nu) o.tdim true) }

/-- `new_cost_`, ForwardPass.cpp:58. -/
noncomputable def Fwd.total {nx nu : Nat} (f : Fwd nx nu) (o : Ocp nx nu) : ℝ := ∑ t ∈ Finset.range (o.tdim + 1), f.cost t

/-! ### finite differences -/

/-- `h_devs_`, FiniteDifferences.hpp: the step (FiniteDifferences.hpp:20). -/
noncomputable def hStep : ℝ := (2 : ℝ)⁻¹ ^ 17

/-- Results of `FiniteDifferences` (FiniteDifferences.hpp:58-68). -/
structure Devs (nx nu : Nat) where
  fx : Nat → Mat nx nx
  fu : Nat → Mat nx nu
  cx : Nat → Vec nx
  cu : Nat → Vec nu
  cxx : Nat → Mat nx nx
  cxu : Nat → Mat nx nu
  cuu : Nat → Mat nu nu

/-- `v[i] += a`, e.g. FiniteDifferences.cpp:76-77. -/
def bump {n : Nat} (v : Vec n) (i : Fin n) (a : ℝ) : Vec n := Function.update v i (v i + a)

/-- `A.feedforward()[i] += a`, e.g. FiniteDifferences.cpp:84-85. -/
def bumpU {nx nu : Nat} (u : Control nx nu) (i : Fin nu) (a : ℝ) : Control nx nu := { u with ff := bump u.ff i a }

/-- `computeDynamicsFirstDerivatives`, FiniteDifferences.cpp:62-79, state part. -/
noncomputable def fdFx {nx nu : Nat} (o : Ocp nx nu) (c : Setting nu) (x : Vec nx) (u : Control nx nu) (t : Nat) : Mat nx nx :=
  fun i col => (step o c (bump x col hStep) u t i - step o c (bump x col (-hStep)) u t i) / (2 * hStep)

/-- `computeDynamicsFirstDerivatives`, FiniteDifferences.cpp:81-87, control part. -/
noncomputable def fdFu {nx nu : Nat} (o : Ocp nx nu) (c : Setting nu) (x : Vec nx) (u : Control nx nu) (t : Nat) : Mat nx nu :=
  fun i col => (step o c x (bumpU u col hStep) t i - step o c x (bumpU u col (-hStep)) t i) / (2 * hStep)

/-- `computeObjectiveFirstDerivatives`, FiniteDifferences.cpp:166-172, state part; `j` is the objective at a fixed time. -/
noncomputable def fdCx {nx nu : Nat} (j : Vec nx → Control nx nu → ℝ) (x : Vec nx) (u : Control nx nu) : Vec nx :=
  fun i => (j (bump x i hStep) u - j (bump x i (-hStep)) u) / (2 * hStep)

/-- `computeObjectiveFirstDerivatives`, FiniteDifferences.cpp:174-180, control part. -/
noncomputable def fdCu {nx nu : Nat} (j : Vec nx → Control nx nu → ℝ) (x : Vec nx) (u : Control nx nu) : Vec nu :=
  fun i => (j x (bumpU u i hStep) - j x (bumpU u i (-hStep))) / (2 * hStep)

/-- `computeObjectiveSecondDerivatives`, FiniteDifferences.cpp:203-216, `cxx`. -/
noncomputable def fdCxx {nx nu : Nat} (j : Vec nx → Control nx nu → ℝ) (x : Vec nx) (u : Control nx nu) : Mat nx nx :=
  fun r k => (j (bump (bump x r hStep) k hStep) u - j (bump (bump x r hStep) k (-hStep)) u
    - j (bump (bump x r (-hStep)) k hStep) u + j (bump (bump x r (-hStep)) k (-hStep)) u) / (4 * hStep ^ 2)

/-- `computeObjectiveSecondDerivatives`, FiniteDifferences.cpp:218-231, `cxu`. -/
noncomputable def fdCxu {nx nu : Nat} (j : Vec nx → Control nx nu → ℝ) (x : Vec nx) (u : Control nx nu) : Mat nx nu :=
  fun r k => (j (bump x r hStep) (bumpU u k hStep) - j (bump x r hStep) (bumpU u k (-hStep))
    - j (bump x r (-hStep)) (bumpU u k hStep) + j (bump x r (-hStep)) (bumpU u k (-hStep))) / (4 * hStep ^ 2)

/-- `computeObjectiveSecondDerivatives`, FiniteDifferences.cpp:233-246, `cuu`. -/
noncomputable def fdCuu {nx nu : Nat} (j : Vec nx → Control nx nu → ℝ) (x : Vec nx) (u : Control nx nu) : Mat nu nu :=
  fun r k => (j x (bumpU (bumpU u r hStep) k hStep) - j x (bumpU (bumpU u r hStep) k (-hStep))
    - j x (bumpU (bumpU u r (-hStep)) k hStep) + j x (bumpU (bumpU u r (-hStep)) k (-hStep))) / (4 * hStep ^ 2)

/-- The control at which derivatives of the objective are taken, FiniteDifferences.cpp:158-164 and 195-201: at the final time zero feedforward, with the
feedback left over from the last step. -/
def fdControl {nx nu : Nat} (o : Ocp nx nu) (us : Nat → Control nx nu) (t : Nat) : Control nx nu :=
  if t < o.tdim then us t else if 0 < o.tdim then { us (o.tdim - 1) with ff := 0 } else Control.zero nx nu

/-- `computeDerivatives`, FiniteDifferences.cpp:54-60, with the flags of SolverLqr.cpp:31 (no second derivatives of the dynamics). -/
noncomputable def derivatives {nx nu : Nat} (o : Ocp nx nu) (c : Setting nu) (xs : Nat → Vec nx) (us : Nat → Control nx nu) : Devs nx nu where
  fx t := fdFx o c (xs t) (us t) t
  fu t := fdFu o c (xs t) (us t) t
  cx t := fdCx (fun x u => o.obj x u t (decide (t = o.tdim))) (xs t) (fdControl o us t)
  cu t := fdCu (fun x u => o.obj x u t (decide (t = o.tdim))) (xs t) (fdControl o us t)
  cxx t := fdCxx (fun x u => o.obj x u t (decide (t = o.tdim))) (xs t) (fdControl o us t)
  cxu t := fdCxu (fun x u => o.obj x u t (decide (t = o.tdim))) (xs t) (fdControl o us t)
  cuu t := fdCuu (fun x u => o.obj x u t (decide (t = o.tdim))) (xs t) (fdControl o us t)

/-! ### backward pass -/

/-- Members of `BackwardPass`, BackwardPass.hpp:43-64. -/
structure Bwd (nx nu : Nat) where
  V : Nat → ℝ
  Vx : Nat → Vec nx
  Vxx : Nat → Mat nx nx
  ctrl : Nat → Control nx nu
  diverged : Bool
  divIter : Int

/-- The symmetric matrix Eigen's `LLT` factorises: it reads the lower triangle only (BackwardPass.cpp:74). -/
def lower {n : Nat} (H : Mat n n) : Mat n n := fun i j => if j ≤ i then H i j else H j i

/-- `threshold`, BackwardPass.cpp:138. -/
noncomputable def threshold : ℝ := 1 / 100

/-- `findConstrainedControls`, BackwardPass.cpp:109-144: the feedforward is what the quadratic program returns; the feedback of controls close to a limit
is set to zero. `u0` is the nominal feedforward. -/
noncomputable def constrained {nx nu : Nat} (c : Setting nu) (t : Nat) (H : Mat nu nu) (g u0 : Vec nu) (u : Control nx nu) : Control nx nu :=
  let v := c.qp t H g u0
  { ff := v
    fb := fun i j => if u0 i + v i ≥ c.maxU i - threshold ∨ u0 i + v i ≤ c.minU i + threshold then 0 else u.fb i j }

/-- `g`, BackwardPass.cpp:69. -/
noncomputable def gradU {nx nu : Nat} (d : Devs nx nu) (t : Nat) (sx : Vec nx) : Vec nu := d.cu t + (d.fu t)ᵀ *ᵥ sx
/-- `G`, BackwardPass.cpp:70 with `P` of line 64. -/
noncomputable def crossU {nx nu : Nat} (d : Devs nx nu) (t : Nat) (S : Mat nx nx) : Mat nu nx := (d.cxu t)ᵀ + (d.fu t)ᵀ * S * d.fx t
/-- `H`, BackwardPass.cpp:71. -/
noncomputable def hessU {nx nu : Nat} (d : Devs nx nu) (t : Nat) (S : Mat nx nx) (lam : ℝ) : Mat nu nu :=
  d.cuu t + (d.fu t)ᵀ * S * d.fu t + lam • (1 : Mat nu nu)

/-- The loop of `optimizeController` for times `k-1, …, 0`, BackwardPass.cpp:57-96. `tc` are the time step costs of the last forward pass,
`u0` the nominal controls. -/
noncomputable def bwdLoop {nx nu : Nat} (c : Setting nu) (d : Devs nx nu) (tc : Nat → ℝ) (u0 : Nat → Control nx nu) (lam : ℝ) : Nat → Bwd nx nu → Bwd nx nu
  | 0, b => b
  | t + 1, b =>
    let ss := b.V (t + 1)
    let sx := b.Vx (t + 1)
    let S := b.Vxx (t + 1)
    let g := gradU d t sx
    let G := crossU d t S
    let H := hessU d t S lam
    if ¬ (lower H).PosDef then { b with diverged := true, divIter := t }
    else
      let l := -((lower H)⁻¹ *ᵥ g)
      let L := -((lower H)⁻¹ * G)
      let u : Control nx nu := ⟨l, L⟩
      let Sn := d.cxx t + (d.fx t)ᵀ * S * d.fx t + Lᵀ * H * L + Lᵀ * G + Gᵀ * L
      bwdLoop c d tc u0 lam t { b with
        ctrl := Function.update b.ctrl t (if c.hasLimits then constrained c t (lower H) g (u0 t).ff u else u)
        V := Function.update b.V t (tc t + ss + 0.5 * (l ⬝ᵥ H *ᵥ l) + l ⬝ᵥ g)
        Vx := Function.update b.Vx t (d.cx t + (d.fx t)ᵀ *ᵥ sx + (H * L)ᵀ *ᵥ l + Gᵀ *ᵥ l + Lᵀ *ᵥ g)
        Vxx := Function.update b.Vxx t ((0.5 : ℝ) • (Sn + Snᵀ)) }

/-- `BackwardPass::optimizeController`, BackwardPass.cpp:47-97. -/
noncomputable def backward {nx nu : Nat} (T : Nat) (c : Setting nu) (d : Devs nx nu) (tc : Nat → ℝ) (u0 : Nat → Control nx nu) (lam : ℝ) (b : Bwd nx nu) : Bwd nx nu :=
  bwdLoop c d tc u0 lam T { b with
    diverged := false, divIter := -1
    Vx := Function.update b.Vx T (d.cx T), Vxx := Function.update b.Vxx T (d.cxx T), V := Function.update b.V T (tc T) }

/-- `BackwardPass::initialize`, BackwardPass.cpp:15-45 (flags are uninitialised there; their value is never read before a backward pass). -/
def Bwd.init (nx nu : Nat) : Bwd nx nu := ⟨fun _ => 0, fun _ => 0, fun _ => 0, fun _ => Control.zero nx nu, false, -1⟩

/-! ### solver -/

/-- State of `SolverLqr::optimize` at the head of the main loop, SolverLqr.cpp:65. -/
structure St (nx nu : Nat) where
  xs : Nat → Vec nx
  us : Nat → Control nx nu
  cost : ℝ
  reg : ℝ
  mult : ℝ
  fwd : Fwd nx nu
  devs : Devs nx nu
  bwd : Bwd nx nu
  devsFlag : Bool
  iter : Nat

/-- Exit messages `MsgLqr`, LqrInfoPrinter.hpp:21-32. -/
inductive Exit
  | divergence | gradient | costChange | maxLambda | maxIter
  deriving DecidableEq

/-- Forward simulation of the initial trajectory over the line-search coefficients, SolverLqr.cpp:41-50: the last forward pass (`f` if there is none) and
its cost. -/
noncomputable def initialPass {nx nu : Nat} (o : Ocp nx nu) (c : Setting nu) (xs : Nat → Vec nx) (us : Nat → Control nx nu) : List ℝ → Fwd nx nu → Fwd nx nu
  | [], f => f
  | a :: l, _ =>
    let f := applyController o c xs fun t => (us t).scale a
    if f.diverged then initialPass o c xs us l f else f

/-- One pass of the `while` loop of step 2, SolverLqr.cpp:80-89, on failure: new multiplier and regularisation. -/
noncomputable def raise {nu : Nat} (c : Setting nu) (reg mult : ℝ) : ℝ × ℝ :=
  let m := max (mult * c.incr) c.incr
  (max (reg * m) c.minReg, m)

/-- The `while` loop of step 2, SolverLqr.cpp:74-90, as a relation: `Back o c s b reg mult n r` with `r = (ok, b', reg', mult')` after `n` backward passes. -/
inductive Back {nx nu : Nat} (o : Ocp nx nu) (c : Setting nu) (d : Devs nx nu) (tc : Nat → ℝ) (u0 : Nat → Control nx nu) :
    Bwd nx nu → ℝ → ℝ → Nat → (Bool × Bwd nx nu × ℝ × ℝ) → Prop
  | ok {b reg mult} (h : (backward o.tdim c d tc u0 reg b).diverged = false) :
      Back o c d tc u0 b reg mult 1 (true, backward o.tdim c d tc u0 reg b, reg, mult)
  | stop {b reg mult} (h : (backward o.tdim c d tc u0 reg b).diverged = true) (hmax : (raise c reg mult).1 > c.maxReg) :
      Back o c d tc u0 b reg mult 1 (false, backward o.tdim c d tc u0 reg b, raise c reg mult)
  | again {b reg mult n r} (h : (backward o.tdim c d tc u0 reg b).diverged = true) (hmax : ¬ (raise c reg mult).1 > c.maxReg)
      (hr : Back o c d tc u0 (backward o.tdim c d tc u0 reg b) (raise c reg mult).1 (raise c reg mult).2 n r) :
      Back o c d tc u0 b reg mult (n + 1) r

/-- `controlSequenceGradientNorm`, OcpDescription.cpp:139-146 (`maxCoeff` over the controls; at least one control). -/
noncomputable def gradNorm {nx nu : Nat} (T : Nat) (u1 u2 : Nat → Control nx nu) : ℝ :=
  (∑ t ∈ Finset.range T, ⨆ i, |(u1 t).ff i| / (|(u2 t).ff i| + 1)) / T

/-- Line search of step 3, SolverLqr.cpp:99-115: the accepted coefficient if any, and the last forward pass. -/
noncomputable def lineSearch {nx nu : Nat} (o : Ocp nx nu) (c : Setting nu) (xs : Nat → Vec nx) (us dir : Nat → Control nx nu) (cost : ℝ) :
    List ℝ → Fwd nx nu → Option ℝ × Fwd nx nu
  | [], f => (none, f)
  | a :: l, _ =>
    let f := applyController o c xs fun t => (us t).add ((dir t).scale a)
    if cost - f.total o - 10 ^ 10 * (if f.diverged then 1 else 0) > 0 then (some a, f)
    else lineSearch o c xs us dir cost l f

/-- Result of one iteration: continue or leave the loop (SolverLqr.cpp:65-157). -/
inductive Res (nx nu : Nat)
  | next (s : St nx nu)
  | exit (e : Exit) (s : St nx nu)

/-- Gradient test, steps 3 and 4, SolverLqr.cpp:92-156, after the backward pass returned `ok`, `b`, `reg`, `mult`. -/
noncomputable def finish {nx nu : Nat} (o : Ocp nx nu) (c : Setting nu) (s : St nx nu) (d : Devs nx nu) (ok : Bool) (b : Bwd nx nu) (reg mult : ℝ) : Res nx nu :=
  let s := { s with devs := d, devsFlag := false, bwd := b, reg := reg, mult := mult }
  if gradNorm o.tdim b.ctrl s.us < c.gradTol then .exit .gradient s
  else
    let ls := if ok then lineSearch o c s.xs s.us b.ctrl s.cost c.coeffs s.fwd else (none, s.fwd)
    let s := { s with fwd := ls.2 }
    match ls.1 with
    | some a =>
      let m := min (mult / c.incr) (1 / c.incr)
      let dec := ∃ q ∈ c.coeffs, q < a
      let s' := { s with
        mult := if dec then m else mult
        reg := if dec then reg * m * (if reg > c.minReg then 1 else 0) else reg
        devsFlag := true, cost := ls.2.total o, xs := ls.2.xs, us := ls.2.us }
      if |s.cost - ls.2.total o - 10 ^ 10 * (if ls.2.diverged then 1 else 0)| < c.costTol then .exit .costChange s'
      else .next { s' with iter := s.iter + 1 }
    | none =>
      let r := raise c reg mult
      let s' := { s with reg := r.1, mult := r.2 }
      if r.1 > c.maxReg then .exit .maxLambda s'
      else .next { s' with iter := s.iter + 1 }

/-- One iteration of the main loop, SolverLqr.cpp:65-157, with the number of backward passes it makes. -/
inductive Iter {nx nu : Nat} (o : Ocp nx nu) (c : Setting nu) : St nx nu → Nat → Res nx nu → Prop
  | mk {s n ok b reg mult} (d : Devs nx nu) (hd : d = if s.devsFlag then derivatives o c s.xs s.us else s.devs)
      (hb : Back o c d s.fwd.cost s.us s.bwd s.reg s.mult n (ok, b, reg, mult)) : Iter o c s n (finish o c s d ok b reg mult)

/-- State before the main loop, SolverLqr.cpp:36-60, from the trajectory of the problem and what earlier calls left in the passes. -/
noncomputable def start {nx nu : Nat} (o : Ocp nx nu) (c : Setting nu) (xs : Nat → Vec nx) (us : Nat → Control nx nu) (f0 : Fwd nx nu) (d0 : Devs nx nu)
    (b0 : Bwd nx nu) : St nx nu :=
  let f := initialPass o c xs us c.coeffs f0
  { xs := f.xs, us := f.us, cost := f.total o, reg := c.initReg, mult := c.initMult, fwd := f, devs := d0, bwd := b0, devsFlag := true, iter := 0 }

/-- States at the head of the main loop with the number of backward passes made so far and the costs accepted so far, newest first (SolverLqr.cpp:65-157). -/
inductive Reach {nx nu : Nat} (o : Ocp nx nu) (c : Setting nu) (s0 : St nx nu) : St nx nu → Nat → Prop
  | start : Reach o c s0 s0 0
  | iter {s s' n m} (h : Reach o c s0 s m) (hc : (s.iter : Int) < c.maxIters) (hi : Iter o c s n (.next s')) : Reach o c s0 s' (m + n)

/-- Outcomes of `optimize`: message, final state and number of backward passes. If the initial simulation diverges the problem's trajectory
is not touched and the outcome is `divergence` (SolverLqr.cpp:34-162). -/
inductive Run {nx nu : Nat} (o : Ocp nx nu) (c : Setting nu) (xs : Nat → Vec nx) (us : Nat → Control nx nu) (f0 : Fwd nx nu) (d0 : Devs nx nu) (b0 : Bwd nx nu) :
    Exit → St nx nu → Nat → Prop
  | diverged (h : (initialPass o c xs us c.coeffs f0).diverged = true) :
      Run o c xs us f0 d0 b0 .divergence { start o c xs us f0 d0 b0 with xs := xs, us := us } 0
  | exit {s s' e n m} (h0 : (initialPass o c xs us c.coeffs f0).diverged = false) (h : Reach o c (start o c xs us f0 d0 b0) s m)
      (hc : (s.iter : Int) < c.maxIters) (hi : Iter o c s n (.exit e s')) : Run o c xs us f0 d0 b0 e s' (m + n)
  | maxIter {s m} (h0 : (initialPass o c xs us c.coeffs f0).diverged = false) (h : Reach o c (start o c xs us f0 d0 b0) s m)
      (hc : ¬ (s.iter : Int) < c.maxIters) : Run o c xs us f0 d0 b0 .maxIter s m

end Lqr
end Verif
