/-
Model of the interior-point solver, /repo/solver/src/solver/optimizer/IPSolver.cpp:16-411, of
`OptimizationInfo::isBetterThan` and its assignment, /repo/solver/src/solver/optimizer/CvxInfoPrinter.cpp:19-58, and of
`LinSolver::matrixTransposeTimesVector`, /repo/solver/src/solver/optimizer/LinSolver.cpp:268-306.

Simplifications: exact reals for `double`; the parts x, y, z, s, tau, kappa of an `OptimizationVector` are separate fields
(the layout is modelled in Verif.Cone, C19); right-hand sides are kept in the order (x, y, z) instead of permuted and extended
by the zero auxiliary rows; the linear solver is an oracle `LinOracle` that may answer anything; messages are left out.
`SolverSetting::nan` is the finite number 0x7ff8000000000000 (SolverSetting.hpp:59), as in the code.
-/
import Verif.Equil
import Verif.ConicOpt

namespace Verif
namespace IP
open Cone Equil

/-- The settings read by the solver (SolverSetting.cpp) (read in IPSolver.cpp:66-413). -/
structure Stg where
  feastol : ℝ
  abstol : ℝ
  reltol : ℝ
  feastolInacc : ℝ
  abstolInacc : ℝ
  reltolInacc : ℝ
  safeguard : ℝ
  minStep : ℝ
  maxStep : ℝ
  stepScaling : ℝ
  minCentering : ℝ
  maxCentering : ℝ
  dynRegThresh : ℝ
  maxIters : Int

/-- `SolverSetting::nan`, SolverSetting.hpp:59: the integer 0x7ff8000000000000 converted to double. -/
def nanv : ℝ := 0x7ff8000000000000

/-- Parts of `OptimizationVector`, Cone.hpp:342-364. -/
structure Pt where
  x : Nat → ℝ
  y : Nat → ℝ
  z : Nat → ℝ
  s : Nat → ℝ
  tau : ℝ
  kappa : ℝ

/-- The three parts of a right-hand side (`rhs1_`, `rhs2_`) or of a solution of the linear solver (IPSolver.hpp:74). -/
structure Tri where
  x : Nat → ℝ
  y : Nat → ℝ
  z : Nat → ℝ

/-- The part of `OptimizationInfo` that its assignment copies, CvxInfoPrinter.cpp:19-36 (tau and kappa are never set). -/
structure Info where
  pcost : ℝ
  dcost : ℝ
  gap : ℝ
  kot : ℝ
  merit : ℝ
  relgap : ℝ
  pres : ℝ
  dres : ℝ
  pinf : ℝ
  dinf : ℝ

/-- `v.norm()` of the first `n` entries (used in IPSolver.cpp:111-129). -/
noncomputable def norm (n : Nat) (v : Nat → ℝ) : ℝ := Real.sqrt (∑ k ∈ Finset.range n, v k ^ 2)

/-- `dotProduct`, IPSolver.cpp:16-21 (and `Eigen` dot). -/
noncomputable def dot (n : Nat) (u v : Nat → ℝ) : ℝ := ∑ k ∈ Finset.range n, u k * v k

/-- `matrixTransposeTimesVector`, LinSolver.cpp:268-306, entry `col` of the result: `y[col] ± sum of value * x[row]`. -/
noncomputable def mtv (M : Sp) (x : Nat → ℝ) (y : Nat → ℝ) (add isNew : Bool) (col : Nat) : ℝ :=
  let y0 := if isNew then 0 else y col
  if add then (M.getD col []).foldl (fun a t => a + t.2 * x t.1) y0 else (M.getD col []).foldl (fun a t => a - t.2 * x t.1) y0

/-- `M.transpose()` of a matrix with `m` rows (IPSolver.cpp:44-45): column `r` holds the entries of row `r`. -/
def transpose (m : Nat) (M : Sp) : Sp :=
  (List.range m).map (fun r => M.zipIdx.flatMap (fun cj => (cj.1.filter (fun t => t.1 = r)).map (fun t => (cj.2, t.2))))

/-- `c()` of the storage, Cone.hpp:404 (`Vector::x`): the first segment of `cbh`. -/
def sc (_ : Cone) (S : Storage) : Nat → ℝ := S.cbh
/-- `b()` of the storage: the segment of `cbh` after `c()` (Cone.hpp:405). -/
def sb (c : Cone) (S : Storage) : Nat → ℝ := fun k => S.cbh (c.nvars + k)
/-- `h()` of the storage: the segment of `cbh` after `b()` (Cone.hpp:406). -/
def sh (c : Cone) (S : Storage) : Nat → ℝ := fun k => S.cbh (c.nvars + c.neq + k)

/-- What `computeResiduals` leaves behind: `res_`, the norms taken before subtracting `tau*cbh`, and the products (IPSolver.cpp:111-129). -/
structure Res where
  x : Nat → ℝ
  y : Nat → ℝ
  z : Nat → ℝ
  nx : ℝ
  ny : ℝ
  nz : ℝ
  t : ℝ
  cx : ℝ
  by_ : ℝ
  hz : ℝ

/-- `computeResiduals`, IPSolver.cpp:111-129. -/
noncomputable def computeResiduals (c : Cone) (S : Storage) (o : Pt) : Res :=
  let rx0 := mtv S.A o.y (fun _ => 0) false true
  let rx := mtv S.G o.z rx0 false false
  let ry := mtv (transpose c.neq S.A) o.x (fun _ => 0) true true
  let rz0 := mtv (transpose c.sizecone S.G) o.x (fun _ => 0) true true
  let rz := fun k => rz0 k + o.s k
  let cx := dot c.nvars (sc c S) o.x
  let by_ := dot c.neq (sb c S) o.y
  let hz := dot c.sizecone (sh c S) o.z
  { x := fun k => rx k - o.tau * sc c S k, y := fun k => ry k - o.tau * sb c S k, z := fun k => rz k - o.tau * sh c S k,
    nx := norm c.nvars rx, ny := norm c.neq ry, nz := norm c.sizecone rz,
    t := o.kappa + cx + by_ + hz, cx := cx, by_ := by_, hz := hz }

/-- `inires_x_`, IPSolver.cpp:69. -/
noncomputable def iniX (c : Cone) (S : Storage) : ℝ := max 1 (norm c.nvars (sc c S))
/-- `inires_y_`, IPSolver.cpp:70. -/
noncomputable def iniY (c : Cone) (S : Storage) : ℝ := max 1 (norm c.neq (sb c S))
/-- `inires_z_`, IPSolver.cpp:71. -/
noncomputable def iniZ (c : Cone) (S : Storage) : ℝ := max 1 (norm c.sizecone (sh c S))

/-- `updateStatistics`, IPSolver.cpp:192-213. -/
noncomputable def updateStatistics (c : Cone) (g : Stg) (S : Storage) (o : Pt) (r : Res) : Info :=
  let pcost := r.cx / o.tau
  let gap := dot c.sizecone o.s o.z
  let dcost := -(r.hz + r.by_) / o.tau
  { pcost := pcost, dcost := dcost, gap := gap, kot := o.kappa / o.tau,
    merit := (gap + o.kappa * o.tau) / (c.sizecone + 1),
    relgap := if pcost < 0 then gap / (-pcost) else if dcost > 0 then gap / dcost else nanv,
    pres := max (norm c.neq r.y / max (iniY c S + norm c.nvars o.x) 1)
      (norm c.sizecone r.z / max (iniZ c S + norm c.nvars o.x + norm c.sizecone o.s) 1) / o.tau,
    dres := norm c.nvars r.x / max (iniX c S + norm c.neq o.y + norm c.sizecone o.z) 1 / o.tau,
    pinf := if (r.hz + r.by_) / max (norm c.neq o.y + norm c.sizecone o.z) 1 < -g.reltol
      then r.nx / max (norm c.neq o.y + norm c.sizecone o.z) 1 else nanv,
    dinf := if r.cx / max (norm c.nvars o.x) 1 < -g.reltol
      then max (r.ny / max (norm c.nvars o.x) 1) (r.nz / max (norm c.nvars o.x + norm c.sizecone o.s) 1) else nanv }

open Classical in
/-- `convergenceCheck`, IPSolver.cpp:215-250; `full` is `PrecisionConvergence::Full`. `r` are the members left by the last
`computeResiduals`, `i` and `o` the current info and iterate. -/
noncomputable def convergenceCheck (g : Stg) (full : Bool) (r : Res) (i : Info) (o : Pt) : ExitCode :=
  let feastol := if full then g.feastol else g.feastolInacc
  let abstol := if full then g.abstol else g.abstolInacc
  let reltol := if full then g.reltol else g.reltolInacc
  if (r.cx < 0 ∨ r.by_ + r.hz ≤ abstol) ∧ (i.pres < feastol ∧ i.dres < feastol) ∧ (i.gap < abstol ∨ i.relgap < reltol)
    then (if full then .optimal else .optimalInacc)
  else if i.dinf ≠ nanv ∧ i.dinf < feastol ∧ o.tau < o.kappa then (if full then .dualInf else .dualInfInacc)
  else if ((i.pinf ≠ nanv ∧ i.pinf < feastol) ∧ o.tau < o.kappa) ∨
      (o.tau < feastol ∧ o.kappa < feastol ∧ i.pinf < feastol) then (if full then .primalInf else .primalInfInacc)
  else .notConverged

open Classical in
/-- `isBetterThan`, CvxInfoPrinter.cpp:38-58. -/
noncomputable def isBetterThan (i j : Info) : Bool :=
  if i.pinf ≠ nanv ∧ i.kot > 1 then
    if j.pinf ≠ nanv then
      decide ((i.gap > 0 ∧ j.gap > 0 ∧ i.gap < j.gap) ∧ (i.pinf > 0 ∧ i.pinf < j.pres) ∧ (i.merit > 0 ∧ i.merit < j.merit))
    else decide ((i.gap > 0 ∧ j.gap > 0 ∧ i.gap < j.gap) ∧ (i.merit > 0 ∧ i.merit < j.merit))
  else decide ((i.gap > 0 ∧ j.gap > 0 ∧ i.gap < j.gap) ∧ (i.pres > 0 ∧ i.pres < j.pres) ∧ (i.dres > 0 ∧ i.dres < j.dres) ∧
    (i.kot > 0 ∧ i.kot < j.kot) ∧ (i.merit > 0 ∧ i.merit < j.merit))

/-! ### line search -/

/-- The smallest ratio `d[i]/lambda[i]` over the linear cone, IPSolver.cpp:143-148 (entry 0 is always read). -/
noncomputable def minRatio (c : Cone) (lam d : Nat → ℝ) : ℝ :=
  (List.range (c.nineq - 1)).foldl (fun m i => if d (i + 1) / lam (i + 1) < m then d (i + 1) / lam (i + 1) else m) (d 0 / lam 0)

/-- The direction `d` of one second-order cone in the frame of `l`, IPSolver.cpp:169-184: entry `j` of `rhok`. -/
noncomputable def frame (n : Nat) (l d : Nat → ℝ) (j : Nat) : ℝ :=
  let res := residual l n
  let lbar := fun j => l j / Real.sqrt res
  let cd := lbar 0 * d 0 - ∑ j ∈ Finset.Ico 1 n, lbar j * d j
  let inv := 1 / Real.sqrt res
  let factor := (cd + d 0) / (lbar 0 + 1)
  if j = 0 then inv * cd else inv * (d j - factor * lbar j)

/-- `tail(conesize-1).norm() - rhok[0]`, IPSolver.cpp:187. -/
noncomputable def excess (n : Nat) (v : Nat → ℝ) : ℝ := Real.sqrt (∑ j ∈ Finset.Ico 1 n, v j ^ 2) - v 0

/-- One second-order cone of the line search, IPSolver.cpp:157-187 (`1/0` is infinity in the code: no restriction). -/
noncomputable def socStep (n : Nat) (l ds dz : Nat → ℝ) (alpha : ℝ) : ℝ :=
  if residual l n ≤ 0 then alpha
  else
    let m := max (max (excess n (frame n l ds)) (excess n (frame n l dz))) 0
    if m = 0 then alpha else min alpha (1 / m)

/-- `lineSearch` before the final clamping, IPSolver.cpp:131-188. -/
noncomputable def rawStep (c : Cone) (g : Stg) (lam ds dz : Nat → ℝ) (tau dtau kappa dkappa : ℝ) : ℝ :=
  let rhomin := minRatio c lam ds
  let sigmamin := minRatio c lam dz
  let a := if min sigmamin rhomin < 0 then -1 / min sigmamin rhomin else 1 / g.dynRegThresh
  let a := if -tau / dtau > 0 ∧ -tau / dtau < a then -tau / dtau else a
  let a := if -kappa / dkappa > 0 ∧ -kappa / dkappa < a then -kappa / dkappa else a
  (List.range c.nsoc).foldl (fun a i =>
    socStep (c.sizeSoc i) (shift lam (c.startSoc i)) (shift ds (c.startSoc i)) (shift dz (c.startSoc i)) a) a

/-- `lineSearch`, IPSolver.cpp:131-190. -/
noncomputable def lineSearch (c : Cone) (g : Stg) (lam ds dz : Nat → ℝ) (tau dtau kappa dkappa : ℝ) : ℝ :=
  max (min (rawStep c g lam ds dz tau dtau kappa dkappa) g.maxStep) g.minStep

/-! ### one step -/

/-- The linear solver: `solve k rhs` is the answer to the `k`-th call, `fact k` whether the `k`-th factorisation succeeds (LinSolver.cpp:106-174). -/
structure LinOracle where
  solve : Nat → Tri → Tri
  fact : Nat → Bool

/-- `rhs1_` in the loop, IPSolver.cpp:82-88 and 104. -/
noncomputable def rhs1 (c : Cone) (S : Storage) : Tri := ⟨fun k => -sc c S k, sb c S, sh c S⟩

/-- `rhsAffineStep`, IPSolver.cpp:265-276. -/
noncomputable def rhsAffine (o : Pt) (r : Res) : Tri := ⟨r.x, fun k => -r.y k, fun k => o.s k - r.z k⟩

/-- `ConicVector::operator-(double)`, Cone.cpp:366-374. -/
noncomputable def subId (c : Cone) (v : Nat → ℝ) (a : ℝ) : Nat → ℝ :=
  (List.range c.nsoc).foldl (fun w i => Function.update w (c.startSoc i) (w (c.startSoc i) - a))
    (wr 0 c.nineq (fun i => v i - a) v)

/-- Everything the affine and the combined step compute from the current iterate, IPSolver.cpp:372-403. -/
structure Newton where
  sigma : ℝ
  d : Pt
  step : ℝ
  dsByW : Nat → ℝ
  wDz : Nat → ℝ

/-- IPSolver.cpp:374-403: `d2` is the solution for `rhs1`, `solve1`/`solve2` the linear solver for the affine and the combined
right-hand side; `merit` is the merit function of the current iterate. -/
noncomputable def newton (c : Cone) (g : Stg) (S : Storage) (o : Pt) (r : Res) (merit : ℝ) (W : Scalings) (lam : Nat → ℝ)
    (d2 : Tri) (solve1 solve2 : Tri → Tri) : Newton :=
  let zero : Nat → ℝ := fun _ => 0
  let d1 := solve1 (rhsAffine o r)
  let denom := o.kappa / o.tau - dot c.nvars (sc c S) d2.x - dot c.neq (sb c S) d2.y - dot c.sizecone (sh c S) d2.z
  let dtA := (r.t - o.kappa + dot c.nvars (sc c S) d1.x + dot c.neq (sb c S) d1.y + dot c.sizecone (sh c S) d1.z) / denom
  let dkA := -o.kappa - o.kappa / o.tau * dtA
  let dzA := fun i => d1.z i + dtA * d2.z i
  let wDzA := c.conicNTScaling W dzA zero
  let dsA := fun i => -wDzA i - lam i
  let aA := lineSearch c g lam dsA wDzA o.tau dtA o.kappa dkA
  let sigma := max (min ((1 - aA) ^ 3) g.maxCentering) g.minCentering
  let prod1 := c.conicProduct lam lam zero
  let prod2 := c.conicProduct dsA wDzA zero
  let dsC := subId c (fun i => prod1 i + prod2 i) (sigma * merit)
  let u := c.conicDivision lam dsC zero
  let wu := c.conicNTScaling W u zero
  let dzC := fun i => (sigma - 1) * r.z i + wu i
  let dkC := o.kappa * o.tau + dkA * dtA - sigma * merit
  let rhs2 : Tri := ⟨fun k => (1 - sigma) * (rhsAffine o r).x k, fun k => (1 - sigma) * (rhsAffine o r).y k, dzC⟩
  let e1 := solve2 rhs2
  let dtau := ((1 - sigma) * r.t - dkC / o.tau + dot c.nvars (sc c S) e1.x + dot c.neq (sb c S) e1.y
    + dot c.sizecone (sh c S) e1.z) / denom
  let dx := fun k => e1.x k + dtau * d2.x k
  let dy := fun k => e1.y k + dtau * d2.y k
  let dz := fun k => e1.z k + dtau * d2.z k
  let wDz := c.conicNTScaling W dz zero
  let dsByW := fun i => -(u i + wDz i)
  let dkappa := -(dkC + o.kappa * dtau) / o.tau
  let step := lineSearch c g lam dsByW wDz o.tau dtau o.kappa dkappa * g.stepScaling
  ⟨sigma, ⟨dx, dy, dz, c.conicNTScaling W dsByW zero, dtau, dkappa⟩, step, dsByW, wDz⟩

/-- `opt_ += StepLength * dopt1_`, IPSolver.cpp:406. -/
noncomputable def advance (o d : Pt) (a : ℝ) : Pt :=
  ⟨fun k => o.x k + a * d.x k, fun k => o.y k + a * d.y k, fun k => o.z k + a * d.z k, fun k => o.s k + a * d.s k,
    o.tau + a * d.tau, o.kappa + a * d.kappa⟩

/-! ### the main loop -/

/-- State of the loop: `opt_`, `best_opt_` with its info, `prev_pres_`, the last `StepLength` and the number of calls of the
linear solver so far (IPSolver.hpp:72-86). -/
structure St where
  opt : Pt
  best : Pt
  bestInfo : Info
  prev : ℝ
  step : ℝ
  calls : Nat
  facts : Nat

/-- What `optimize` returns: exit code, `opt_` before and whether `scaleVariables` was applied, info, and the best iterate
kept for a later call (IPSolver.cpp:293-413). -/
structure Out where
  code : ExitCode
  opt : Pt
  scaled : Bool
  info : Info
  iter : Nat
  step : ℝ

/-- `restoreBestIterate(); exitcode_ = convergenceCheck(Reduced); if NotConverged exitcode_ = fallback`, IPSolver.cpp:311-317,
329-335, 340-346, 359-364. -/
noncomputable def reduced (g : Stg) (r : Res) (o : Pt) (i : Info) (fallback : ExitCode) (scaled : Bool) (n : Nat) (step : ℝ) : Out :=
  match convergenceCheck g false r i o with
  | .notConverged => ⟨fallback, o, scaled, i, n, step⟩
  | e => ⟨e, o, true, i, n, step⟩

/-- The result of one pass of the loop body (IPSolver.cpp:305-405). -/
inductive Pass
  | stop (r : Out)
  | next (st : St)

open Classical in
/-- The loop body, IPSolver.cpp:303-406, in iteration `n`. -/
noncomputable def body (c : Cone) (g : Stg) (S : Storage) (lin : LinOracle) (n : Nat) (st : St) : Pass :=
  let r := computeResiduals c S st.opt
  let i := updateStatistics c g S st.opt r
  if n > 0 ∧ (i.pres > g.safeguard * st.prev ∨ i.gap < 0) then
    .stop (reduced g r st.best st.bestInfo .prSearchDirection true n st.step)
  else
    match convergenceCheck g true r i st.opt with
    | .notConverged =>
      if n > 0 ∧ st.step = g.minStep * g.stepScaling then
        .stop (reduced g r st.best st.bestInfo .prSearchDirection true n st.step)
      else if (n : Int) = g.maxIters then
        if isBetterThan i st.bestInfo then .stop (reduced g r st.opt i .reachMaxIters true n st.step)
        else .stop (reduced g r st.best st.bestInfo .reachMaxIters true n st.step)
      else
        let save := decide (n = 0) || isBetterThan i st.bestInfo
        let best := if save then st.opt else st.best
        let bestInfo := if save then i else st.bestInfo
        match c.updateNTScalings st.opt.s st.opt.z (fun _ => 0) with
        | none => .stop (reduced g r best bestInfo .prSlacksLeaveCone false n st.step)
        | some (W, lam) =>
          if lin.fact st.facts then
            let d2 := lin.solve st.calls (rhs1 c S)
            let nw := newton c g S st.opt r i.merit W lam d2 (lin.solve (st.calls + 1)) (lin.solve (st.calls + 2))
            .next { opt := advance st.opt nw.d nw.step, best := best, bestInfo := bestInfo, prev := i.pres, step := nw.step,
                    calls := st.calls + 3, facts := st.facts + 1 }
          else .stop ⟨.indeterminate, st.opt, false, i, n, st.step⟩
    | e => .stop ⟨e, st.opt, true, i, n, st.step⟩

/-- The loop with `fuel` passes left, IPSolver.cpp:301; the result also counts the passes. When the loop condition fails at
once (negative `SolverMaxIters`) the exit code is the initial `Indeterminate` of line 296. -/
noncomputable def loop (c : Cone) (g : Stg) (S : Storage) (lin : LinOracle) : Nat → Nat → St → Info → Out × Nat
  | 0, n, st, i0 => (⟨.indeterminate, st.opt, true, i0, n, st.step⟩, 0)
  | fuel + 1, n, st, i0 =>
    match body c g S lin n st with
    | .stop r => (r, 1)
    | .next st' => let q := loop c g S lin fuel (n + 1) st' i0; (q.1, q.2 + 1)

/-- `initializeVariables`, IPSolver.cpp:66-109, when the factorisation succeeds. `rhs2` is the content of `rhs2_`: only its x
part is overwritten (line 96), the rest is zero or left over from an earlier call. -/
noncomputable def initPt (c : Cone) (S : Storage) (lin : LinOracle) (rhs2 : Tri) : Pt :=
  let d2 := lin.solve 0 ⟨fun _ => 0, sb c S, sh c S⟩
  let d1 := lin.solve 1 ⟨fun k => -sc c S k, rhs2.y, rhs2.z⟩
  ⟨d2.x, d1.y, c.conicProjection d1.z, c.conicProjection (fun k => -d2.z k), 1, 1⟩

/-- `optimize`, IPSolver.cpp:293-411, on equilibrated data `S`; `old` is what an earlier call left in `best_opt_` and
`best_optimization_info_`, `rhs2`, `o0` and `i0` what it left in `rhs2_`, `opt_` and the info. The second component counts the passes of the loop. -/
noncomputable def optimize (c : Cone) (g : Stg) (S : Storage) (lin : LinOracle) (old : Pt × Info) (rhs2 : Tri) (o0 : Pt) (i0 : Info) :
    Out × Nat :=
  if lin.fact 0 then
    loop c g S lin (g.maxIters + 1).toNat 0
      { opt := initPt c S lin rhs2, best := old.1, bestInfo := old.2, prev := nanv, step := 0, calls := 2, facts := 1 } i0
  else (⟨.indeterminate, o0, false, i0, 0, 0⟩, 0)

/-- The vector of an `OptimizationVector`, Cone.hpp:342-349. -/
def flat (c : Cone) (p : Pt) : Nat → ℝ := fun k =>
  if k < c.nvars then p.x k
  else if k < c.nvars + c.neq then p.y (k - c.nvars)
  else if k < c.sizeproblem then p.z (k - (c.nvars + c.neq))
  else if k = c.sizeproblem then p.tau
  else if k = c.sizeproblem + 1 then p.kappa
  else p.s (k - (c.sizeproblem + 2))

/-- What `optimalVector()` holds after `optimize`: `scaleVariables(opt_)` (IPSolver.cpp:409) where it is reached. -/
noncomputable def Out.reported (c : Cone) (e : Nat → ℝ) (q : Out) : Nat → ℝ :=
  if q.scaled then scaleVariables c e (flat c q.opt) else flat c q.opt

end IP
end Verif
