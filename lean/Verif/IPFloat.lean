/-
Model of the interior-point solver, /repo/solver/src/solver/optimizer/IPSolver.cpp, in machine arithmetic: the same program as in `IP.lean`, but every `double`
operation and comparison is an operation of an arbitrary arithmetic `F` (see `LbfgsFloat.lean`), in particular with NaN and infinities.

Simplifications: expressions are evaluated as written; sums (`norm`, `dot`, `squaredNorm` of Eigen) are taken from the left; the Nesterov-Todd scaling, the
linear solver and the right-hand sides built from them are an arbitrary oracle `Orc` that proposes the direction of each step (what it computes in exact
arithmetic is in `IP.lean`); residuals, statistics, convergence tests, the comparison with the best iterate, the cone test, the line search, the update of the
iterate and the control flow are modelled operation by operation.
-/
import Verif.LbfgsFloat
import Verif.IP

namespace Verif
namespace IPF
open LbfgsF Cone

variable {F : Type} [Arith F]

/-- `Eigen::SparseMatrix<double>` by columns of (row, value) (IPSolver.hpp:60). -/
abbrev SpF (F : Type) := List (List (Nat × F))

/-- The settings read by the solver (SolverSetting.cpp, read in IPSolver.cpp:66-413). -/
structure Stg (F : Type) where
  feastol : F
  abstol : F
  reltol : F
  feastolInacc : F
  abstolInacc : F
  reltolInacc : F
  safeguard : F
  minStep : F
  maxStep : F
  stepScaling : F
  dynRegThresh : F
  maxIters : Int

/-- `SolverSetting::nan`, SolverSetting.hpp:59: a finite number, the integer 0x7ff8000000000000 converted to double. -/
def nanv : F := c 0x7ff8000000000000

/-- Parts of `OptimizationVector`, Cone.hpp:342-364. -/
structure Pt (F : Type) where
  x : Nat → F
  y : Nat → F
  z : Nat → F
  s : Nat → F
  tau : F
  kappa : F

/-- The problem data: matrices `A`, `G` and the parts of `cbh` (Cone.hpp:395-406). -/
structure Data (F : Type) where
  A : SpF F
  G : SpF F
  c : Nat → F
  b : Nat → F
  h : Nat → F

/-- The part of `OptimizationInfo` that its assignment copies, CvxInfoPrinter.cpp:19-36. -/
structure Info (F : Type) where
  pcost : F
  dcost : F
  gap : F
  kot : F
  merit : F
  relgap : F
  pres : F
  dres : F
  pinf : F
  dinf : F

/-- `dotProduct`, IPSolver.cpp:16-21 (and `Eigen` dot). -/
def dot (n : Nat) (u v : Nat → F) : F := (List.range n).foldl (fun a k => a +. u k *. v k) (c 0)

/-- `v.norm()` of the first `n` entries (used in IPSolver.cpp:111-129). -/
def norm (n : Nat) (v : Nat → F) : F := Arith.sqrt (dot n v v)

/-- `matrixTransposeTimesVector`, LinSolver.cpp:268-306, entry `col` of the result. -/
def mtv (M : SpF F) (x : Nat → F) (y : Nat → F) (add isNew : Bool) (col : Nat) : F :=
  let y0 := if isNew then c 0 else y col
  if add then (M.getD col []).foldl (fun a t => a +. t.2 *. x t.1) y0 else (M.getD col []).foldl (fun a t => a -. t.2 *. x t.1) y0

/-- `M.transpose()` of a matrix with `m` rows (IPSolver.cpp:44-45). -/
def transpose (m : Nat) (M : SpF F) : SpF F :=
  (List.range m).map (fun r => M.zipIdx.flatMap (fun cj => (cj.1.filter (fun t => t.1 = r)).map (fun t => (cj.2, t.2))))

/-- What `computeResiduals` leaves behind (IPSolver.cpp:111-129). -/
structure Res (F : Type) where
  x : Nat → F
  y : Nat → F
  z : Nat → F
  nx : F
  ny : F
  nz : F
  t : F
  cx : F
  by_ : F
  hz : F

/-- `computeResiduals`, IPSolver.cpp:111-129. -/
def computeResiduals (k : Cone) (S : Data F) (o : Pt F) : Res F :=
  let rx0 := mtv S.A o.y (fun _ => c 0) false true
  let rx := mtv S.G o.z rx0 false false
  let ry := mtv (transpose k.neq S.A) o.x (fun _ => c 0) true true
  let rz0 := mtv (transpose k.sizecone S.G) o.x (fun _ => c 0) true true
  let rz := fun i => rz0 i +. o.s i
  let cx := dot k.nvars S.c o.x
  let by_ := dot k.neq S.b o.y
  let hz := dot k.sizecone S.h o.z
  { x := fun i => rx i -. o.tau *. S.c i, y := fun i => ry i -. o.tau *. S.b i, z := fun i => rz i -. o.tau *. S.h i,
    nx := norm k.nvars rx, ny := norm k.neq ry, nz := norm k.sizecone rz,
    t := o.kappa +. cx +. by_ +. hz, cx := cx, by_ := by_, hz := hz }

/-- `inires_x_`, IPSolver.cpp:69. -/
def iniX (k : Cone) (S : Data F) : F := fmax (c 1) (norm k.nvars S.c)
/-- `inires_y_`, IPSolver.cpp:70. -/
def iniY (k : Cone) (S : Data F) : F := fmax (c 1) (norm k.neq S.b)
/-- `inires_z_`, IPSolver.cpp:71. -/
def iniZ (k : Cone) (S : Data F) : F := fmax (c 1) (norm k.sizecone S.h)

/-- The relative residual of the equalities, IPSolver.cpp:206. -/
def eqRes (k : Cone) (S : Data F) (o : Pt F) (r : Res F) : F := norm k.neq r.y /. fmax (iniY k S +. norm k.nvars o.x) (c 1)
/-- The relative residual of the inequalities, IPSolver.cpp:207. -/
def coneRes (k : Cone) (S : Data F) (o : Pt F) (r : Res F) : F :=
  norm k.sizecone r.z /. fmax (iniZ k S +. norm k.nvars o.x +. norm k.sizecone o.s) (c 1)

/-- `updateStatistics`, IPSolver.cpp:192-213. -/
def updateStatistics (k : Cone) (g : Stg F) (S : Data F) (o : Pt F) (r : Res F) : Info F :=
  let pcost := r.cx /. o.tau
  let gap := dot k.sizecone o.s o.z
  let dcost := Arith.neg (r.hz +. r.by_) /. o.tau
  { pcost := pcost, dcost := dcost, gap := gap, kot := o.kappa /. o.tau,
    merit := (gap +. o.kappa *. o.tau) /. c ((k.sizecone : ℚ) + 1),
    relgap := if pcost <. c 0 then gap /. Arith.neg pcost else if c 0 <. dcost then gap /. dcost else nanv,
    pres := fmax (eqRes k S o r) (coneRes k S o r) /. o.tau,
    dres := norm k.nvars r.x /. fmax (iniX k S +. norm k.neq o.y +. norm k.sizecone o.z) (c 1) /. o.tau,
    pinf := if (r.hz +. r.by_) /. fmax (norm k.neq o.y +. norm k.sizecone o.z) (c 1) <. Arith.neg g.reltol
      then r.nx /. fmax (norm k.neq o.y +. norm k.sizecone o.z) (c 1) else nanv,
    dinf := if r.cx /. fmax (norm k.nvars o.x) (c 1) <. Arith.neg g.reltol
      then fmax (r.ny /. fmax (norm k.nvars o.x) (c 1)) (r.nz /. fmax (norm k.nvars o.x +. norm k.sizecone o.s) (c 1)) else nanv }

/-- `convergenceCheck`, IPSolver.cpp:215-250; `full` is `PrecisionConvergence::Full`. `r` are the members left by the last
`computeResiduals`, `i` and `o` the current info and iterate. -/
def convergenceCheck (g : Stg F) (full : Bool) (r : Res F) (i : Info F) (o : Pt F) : ExitCode :=
  let feastol := if full then g.feastol else g.feastolInacc
  let abstol := if full then g.abstol else g.abstolInacc
  let reltol := if full then g.reltol else g.reltolInacc
  if (r.cx <. c 0 ∨ r.by_ +. r.hz <=. abstol) ∧ (i.pres <. feastol ∧ i.dres <. feastol) ∧ (i.gap <. abstol ∨ i.relgap <. reltol)
    then (if full then .optimal else .optimalInacc)
  else if ¬ (i.dinf ==. nanv) ∧ i.dinf <. feastol ∧ o.tau <. o.kappa then (if full then .dualInf else .dualInfInacc)
  else if ((¬ (i.pinf ==. nanv) ∧ i.pinf <. feastol) ∧ o.tau <. o.kappa) ∨
      (o.tau <. feastol ∧ o.kappa <. feastol ∧ i.pinf <. feastol) then (if full then .primalInf else .primalInfInacc)
  else .notConverged

/-- `isBetterThan`, CvxInfoPrinter.cpp:38-58. -/
def isBetterThan (i j : Info F) : Bool :=
  if ¬ (i.pinf ==. nanv) ∧ c 1 <. i.kot then
    if ¬ (j.pinf ==. nanv) then
      decide ((c 0 <. i.gap ∧ c 0 <. j.gap ∧ i.gap <. j.gap) ∧ (c 0 <. i.pinf ∧ i.pinf <. j.pres) ∧ (c 0 <. i.merit ∧ i.merit <. j.merit))
    else decide ((c 0 <. i.gap ∧ c 0 <. j.gap ∧ i.gap <. j.gap) ∧ (c 0 <. i.merit ∧ i.merit <. j.merit))
  else decide ((c 0 <. i.gap ∧ c 0 <. j.gap ∧ i.gap <. j.gap) ∧ (c 0 <. i.pres ∧ i.pres <. j.pres) ∧ (c 0 <. i.dres ∧ i.dres <. j.dres) ∧
    (c 0 <. i.kot ∧ i.kot <. j.kot) ∧ (c 0 <. i.merit ∧ i.merit <. j.merit))

/-! ### line search -/

/-- `Eigen::Map` of a part of a vector (IPSolver.cpp:161-165). -/
def shift (u : Nat → F) (s : Nat) : Nat → F := fun j => u (s + j)

/-- The smallest ratio `d[i]/lambda[i]` over the linear cone, IPSolver.cpp:143-148 (entry 0 is always read). -/
def minRatio (k : Cone) (lam d : Nat → F) : F :=
  (List.range (k.nineq - 1)).foldl (fun m i => if d (i + 1) /. lam (i + 1) <. m then d (i + 1) /. lam (i + 1) else m) (d 0 /. lam 0)

/-- `squaredNorm()` of the entries 1 to `n-1` (Cone.cpp:81-85). -/
def tailSq (n : Nat) (u : Nat → F) : F := (List.range (n - 1)).foldl (fun a j => a +. u (j + 1) *. u (j + 1)) (c 0)

/-- `conicResidual`, Cone.cpp:81-85. -/
def residual (n : Nat) (u : Nat → F) : F := u 0 *. u 0 -. tailSq n u

/-- The direction `d` of one second-order cone in the frame of `l`, IPSolver.cpp:169-184: entry `j` of `rhok`. -/
def frame (n : Nat) (l d : Nat → F) (j : Nat) : F :=
  let res := residual n l
  let lbar := fun j => l j /. Arith.sqrt res
  let cd := (List.range (n - 1)).foldl (fun a j => a -. lbar (j + 1) *. d (j + 1)) (lbar 0 *. d 0)
  let inv := c 1 /. Arith.sqrt res
  let factor := (cd +. d 0) /. (lbar 0 +. c 1)
  if j = 0 then inv *. cd else inv *. (d j -. factor *. lbar j)

/-- `tail(conesize-1).norm() - rhok[0]`, IPSolver.cpp:187. -/
def excess (n : Nat) (v : Nat → F) : F := Arith.sqrt (tailSq n v) -. v 0

/-- One second-order cone of the line search, IPSolver.cpp:157-187. -/
def socStep (n : Nat) (l ds dz : Nat → F) (alpha : F) : F :=
  if residual n l <=. c 0 then alpha
  else fmin alpha (c 1 /. fmax (fmax (excess n (frame n l ds)) (excess n (frame n l dz))) (c 0))

/-- `lineSearch`, IPSolver.cpp:131-190. -/
def lineSearch (k : Cone) (g : Stg F) (lam ds dz : Nat → F) (tau dtau kappa dkappa : F) : F :=
  let rhomin := minRatio k lam ds
  let sigmamin := minRatio k lam dz
  let a := if fmin sigmamin rhomin <. c 0 then c (-1) /. fmin sigmamin rhomin else c 1 /. g.dynRegThresh
  let a := if c 0 <. Arith.neg tau /. dtau ∧ Arith.neg tau /. dtau <. a then Arith.neg tau /. dtau else a
  let a := if c 0 <. Arith.neg kappa /. dkappa ∧ Arith.neg kappa /. dkappa <. a then Arith.neg kappa /. dkappa else a
  let a := (List.range k.nsoc).foldl (fun a i =>
    socStep (k.sizeSoc i) (shift lam (k.startSoc i)) (shift ds (k.startSoc i)) (shift dz (k.startSoc i)) a) a
  fmax (fmin a g.maxStep) g.minStep

/-! ### the main loop -/

/-- What the scalings and the linear solver propose for a step: the direction, its slack and dual part in the scaled space, and the scaled point
(`dopt1_`, `ds_affine_by_W_`, `W_times_dz_affine_`, `lambda_`, IPSolver.cpp:355-404). -/
structure Dir (F : Type) where
  d : Pt F
  dsByW : Nat → F
  wDz : Nat → F
  lam : Nat → F

/-- The linear solver and the scalings: the initial point, whether the `k`-th factorisation succeeds, and the direction proposed at an iterate in
iteration `n` (IPSolver.cpp:66-109, 355-404). -/
structure Orc (F : Type) where
  init : Pt F
  fact : Nat → Bool
  dir : Nat → Pt F → Dir F

/-- `safeDivision`, Cone.cpp:76-79. -/
def safeDiv (x y : F) : F := if y <. c (1 / 10 ^ 13) then x /. c (1 / 10 ^ 13) else x /. y

/-- The scaling point from the normalised slack and dual, Cone.cpp:293-300. -/
def ntPoint (n : Nat) (sk zk : Nat → F) (i : Nat) : F :=
  let normalizer := safeDiv (c (1 / 2)) (Arith.sqrt (c (1 / 2) +. c (1 / 2) *. dot n sk zk))
  if i = 0 then normalizer *. (sk 0 +. zk 0) else normalizer *. (sk i -. zk i)

/-- `v1()` before its root, Cone.cpp:303-310, from the scaling point (`std::pow(a, 2.0)` is modelled as `a * a`). -/
def ntV1 (n : Nat) (w : Nat → F) : F :=
  let w0 := w 0
  let wn := tailSq n w
  let alpha := c 1 +. w0 +. safeDiv wn (c 1 +. w0)
  let beta := c 1 +. safeDiv (c 2) (c 1 +. w0) +. safeDiv wn ((c 1 +. w0) *. (c 1 +. w0))
  let d1 := fmax (c (1 / 2) *. (w0 *. w0 +. wn *. (c 1 -. safeDiv (alpha *. alpha) (c 1 +. wn *. beta)))) (c 0)
  let u1 := safeDiv alpha (Arith.sqrt (w0 *. w0 +. wn -. d1))
  u1 *. u1 -. beta

/-- Does one second-order cone of `n` entries make `updateNTScalings` answer `Outside`, Cone.cpp:274-311. -/
def outsideBlk (n : Nat) (s z : Nat → F) : Bool :=
  if (residual n s <=. c 0) || (residual n z <=. c 0) then true
  else
    let si := safeDiv (c 1) (Arith.sqrt (residual n s))
    let zi := safeDiv (c 1) (Arith.sqrt (residual n z))
    ntV1 n (ntPoint n (fun i => s i *. si) (fun i => z i *. zi)) <=. c 0

/-- Does `updateNTScalings` answer `Outside` for some second-order cone, Cone.cpp:261-317 (the linear cone is not tested). -/
def outside (k : Cone) (s z : Nat → F) : Bool :=
  (List.range k.nsoc).any fun l => outsideBlk (k.sizeSoc l) (shift s (k.startSoc l)) (shift z (k.startSoc l))

/-- `opt_ += StepLength * dopt1_`, IPSolver.cpp:406. -/
def advance (o d : Pt F) (a : F) : Pt F :=
  ⟨fun i => o.x i +. a *. d.x i, fun i => o.y i +. a *. d.y i, fun i => o.z i +. a *. d.z i, fun i => o.s i +. a *. d.s i,
    o.tau +. a *. d.tau, o.kappa +. a *. d.kappa⟩

/-- State of the loop (IPSolver.hpp:72-86). -/
structure St (F : Type) where
  opt : Pt F
  best : Pt F
  bestInfo : Info F
  prev : F
  step : F

/-- What `optimize` returns (IPSolver.cpp:293-413); `iter` is `NumIter`. -/
structure Out (F : Type) where
  code : ExitCode
  opt : Pt F
  scaled : Bool
  info : Info F
  iter : Nat
  step : F

/-- `restoreBestIterate(); exitcode_ = convergenceCheck(Reduced); if NotConverged exitcode_ = fallback`, IPSolver.cpp:311-317,
329-335, 340-346, 359-364. -/
def reduced (g : Stg F) (r : Res F) (o : Pt F) (i : Info F) (fallback : ExitCode) (scaled : Bool) (n : Nat) (step : F) : Out F :=
  match convergenceCheck g false r i o with
  | .notConverged => ⟨fallback, o, scaled, i, n, step⟩
  | e => ⟨e, o, true, i, n, step⟩

/-- The result of one pass of the loop body (IPSolver.cpp:305-405). -/
inductive Pass (F : Type)
  | stop (r : Out F)
  | next (st : St F)

/-- The loop body, IPSolver.cpp:303-406, in iteration `n`. -/
def body (k : Cone) (g : Stg F) (S : Data F) (orc : Orc F) (n : Nat) (st : St F) : Pass F :=
  let r := computeResiduals k S st.opt
  let i := updateStatistics k g S st.opt r
  if n > 0 ∧ (g.safeguard *. st.prev <. i.pres ∨ i.gap <. c 0) then
    .stop (reduced g r st.best st.bestInfo .prSearchDirection true n st.step)
  else
    match convergenceCheck g true r i st.opt with
    | .notConverged =>
      if n > 0 ∧ st.step ==. g.minStep *. g.stepScaling then
        .stop (reduced g r st.best st.bestInfo .prSearchDirection true n st.step)
      else if (n : Int) = g.maxIters then
        if isBetterThan i st.bestInfo then .stop (reduced g r st.opt i .reachMaxIters true n st.step)
        else .stop (reduced g r st.best st.bestInfo .reachMaxIters true n st.step)
      else
        let save := decide (n = 0) || isBetterThan i st.bestInfo
        let best := if save then st.opt else st.best
        let bestInfo := if save then i else st.bestInfo
        if outside k st.opt.s st.opt.z then .stop (reduced g r best bestInfo .prSlacksLeaveCone false n st.step)
        else if orc.fact (n + 1) then
          let d := orc.dir n st.opt
          let step := lineSearch k g d.lam d.dsByW d.wDz st.opt.tau d.d.tau st.opt.kappa d.d.kappa *. g.stepScaling
          .next { opt := advance st.opt d.d step, best := best, bestInfo := bestInfo, prev := i.pres, step := step }
        else .stop ⟨.indeterminate, st.opt, false, i, n, st.step⟩
    | e => .stop ⟨e, st.opt, true, i, n, st.step⟩

/-- The loop with `fuel` passes left, IPSolver.cpp:301; the result also counts the passes. -/
def loop (k : Cone) (g : Stg F) (S : Data F) (orc : Orc F) : Nat → Nat → St F → Info F → Out F × Nat
  | 0, n, st, i0 => (⟨.indeterminate, st.opt, true, i0, n, st.step⟩, 0)
  | fuel + 1, n, st, i0 =>
    match body k g S orc n st with
    | .stop r => (r, 1)
    | .next st' => let q := loop k g S orc fuel (n + 1) st' i0; (q.1, q.2 + 1)

/-- The state in which the loop is entered, IPSolver.cpp:295-301 and 66-109. -/
def start (orc : Orc F) (old : Pt F × Info F) : St F := { opt := orc.init, best := old.1, bestInfo := old.2, prev := nanv, step := c 0 }

/-- `optimize`, IPSolver.cpp:293-411, on equilibrated data `S`; `old` is what an earlier call left in `best_opt_` and
`best_optimization_info_`, `o0` and `i0` what it left in `opt_` and the info. The second component counts the passes of the loop. -/
def optimize (k : Cone) (g : Stg F) (S : Data F) (orc : Orc F) (old : Pt F × Info F) (o0 : Pt F) (i0 : Info F) : Out F × Nat :=
  if orc.fact 0 then loop k g S orc (g.maxIters + 1).toNat 0 (start orc old) i0
  else (⟨.indeterminate, o0, false, i0, 0, c 0⟩, 0)

end IPF
end Verif
