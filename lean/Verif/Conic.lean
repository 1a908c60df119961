/-
Model of `solver::ConicProblem` (problem construction and translation to the standard conic form
`min c.x  s.t.  A x = b,  h - G x ∈ K`),
/repo/solver/src/solver/interface/ConicProblem.cpp, /repo/solver/include/solver/interface/ConicProblem.hpp,
/repo/solver/src/solver/interface/Cone.cpp:418-451 (storage).

Simplifications: exact field `K` for `double`; variables are their column numbers; verbose output is left out;
the Eigen sparse matrix is its triplet list (Eigen's `setFromTriplets` sums duplicates, and so does
`Sys.act`). Out-of-bounds reads of the extra-variable vectors are the explicit outcome `none` of `build`.
-/
import Verif.LinExpr
import Mathlib.Logic.Function.Basic

namespace Verif

/-- `enum class VarType`, Var.hpp:23. -/
inductive VarType | binary | continuous
  deriving DecidableEq

/-- `struct VarStorage`, Var.hpp:25-30; the column number is the position in `Problem.vars`. -/
structure VarRec (K : Type) where
  type : VarType
  lb : K
  ub : K
  guess : K

/-- `enum class QuadConstrApprox` (SolverSetting.hpp:38, used in ConicProblem.cpp:63-67). -/
inductive QApprox | none | trustRegion | softConstraint
  deriving DecidableEq

/-- `DCPQuadExpr` as stored in the problem, Exprs.hpp:128-134: linear part, weighted squares, auxiliary
variables and the two flags. -/
structure CQuad (K : Type) where
  lin : LinExpr K
  quad : List (K × LinExpr K)
  extra : List Nat
  trust : Bool
  soft : Bool

/-- Data members of `ConicProblem`, ConicProblem.hpp:77-82 (constraint lists and variables). -/
structure Problem (K : Type) where
  vars : List (VarRec K)
  bins : List Nat
  binLo : List K
  binUp : List K
  leq : List (LinExpr K)
  lineq : List (LinExpr K)
  qineq : List (CQuad K)
  soc : List (CQuad K)
  obj : CQuad K
  numTrust : Nat
  numSoft : Nat

namespace Problem
variable {K : Type} [Field K] [LinearOrder K]

/-- `ConicProblem::clean`, ConicProblem.cpp:20-31. -/
def empty : Problem K :=
  { vars := [], bins := [], binLo := [], binUp := [], leq := [], lineq := [], qineq := [], soc := [],
    obj := ⟨LinExpr.ofConst 0, [], [], false, false⟩, numTrust := 0, numSoft := 0 }

/-- The guess adjustment of `addVar`, ConicProblem.cpp:36-37. -/
def clampGuess (lb ub guess : K) : K := if guess < lb then lb else if guess > ub then ub else guess

/-- Second half of `ConicProblem::addVar` (after the bound check), ConicProblem.cpp:36-46. -/
def pushVar (p : Problem K) (ty : VarType) (lb ub guess : K) : Problem K × Nat :=
  let col := p.vars.length
  let p1 := { p with vars := p.vars ++ [⟨ty, lb, ub, clampGuess lb ub guess⟩] }
  let p2 := match ty with
    | .binary => { p1 with
        bins := p1.bins ++ [col],
        binLo := List.replicate (p1.bins.length + 1) 0,
        binUp := List.replicate (p1.bins.length + 1) 1 }
    | .continuous => p1
  (p2, col)

/-- `ConicProblem::addVar`, ConicProblem.cpp:33-47. The result is the state after the call, and the column
of the new variable or `none` if the call threw. -/
def addVar (p : Problem K) (ty : VarType) (lb ub guess : K) : Problem K × Option Nat :=
  if lb > ub then (p, none)
  else ((p.pushVar ty lb ub guess).1, some (p.pushVar ty lb ub guess).2)

/-- `addVar(VarType::Continuous, 0.0, 1.0, 0.5)`, the call that creates an auxiliary variable
(ConicProblem.cpp:69,70,83,97); it never throws. -/
def addExtra (p : Problem K) : Problem K × Nat := p.pushVar .continuous 0 1 (1 / 2)

/-- `n` auxiliary variables in a loop, ConicProblem.cpp:68-69,96-97. -/
def addExtras (p : Problem K) : Nat → Problem K × List Nat
  | 0 => (p, [])
  | n + 1 =>
    let (p1, v) := p.addExtra
    let (p2, vs) := addExtras p1 n
    (p2, v :: vs)

/-- `ConicProblem::addLinConstr`, ConicProblem.cpp:50-56; the Boolean is true if the call threw. -/
def addLinConstr (p : Problem K) (lhs : LinExpr K) (sense : String) (rhs : LinExpr K) : Problem K × Bool :=
  if sense = "=" then ({ p with leq := p.leq ++ [lhs.sub rhs] }, false)
  else if sense = "<" then ({ p with lineq := p.lineq ++ [lhs.sub rhs] }, false)
  else if sense = ">" then ({ p with lineq := p.lineq ++ [rhs.sub lhs] }, false)
  else (p, true)

/-- `ConicProblem::addQuaConstr`, ConicProblem.cpp:59-74 (counters and auxiliary variables are added before
the sense is checked). -/
def addQuaConstr (p : Problem K) (q : QuadExpr K) (sense : String) (l : LinExpr K) (ap : QApprox) :
    Problem K × Bool :=
  let p1 := match ap with
    | .trustRegion => { p with numTrust := p.numTrust + 1 }
    | .softConstraint => { p with numSoft := p.numSoft + 1 }
    | .none => p
  let r := p1.addExtras (q.quad.length)
  let p2 := r.1
  let s := if ap = .softConstraint then p2.addExtras 1 else (p2, [])
  let p3 := s.1
  let cq : CQuad K := ⟨q.lin.sub l, q.quad, r.2 ++ s.2, ap = .trustRegion, ap = .softConstraint⟩
  if sense = "<" then ({ p3 with qineq := p3.qineq ++ [cq] }, false) else (p3, true)

/-- `ConicProblem::addSocConstr`, ConicProblem.cpp:77-86. -/
def addSocConstr (p : Problem K) (q : QuadExpr K) (sense : String) (l : LinExpr K) : Problem K × Bool :=
  let r := p.addExtras 1
  let cq : CQuad K := ⟨q.lin.sub l, q.quad, r.2, false, false⟩
  if sense = "<" then ({ r.1 with soc := r.1.soc ++ [cq] }, false) else (r.1, true)

/-- `ConicProblem::setObjective`, ConicProblem.cpp:90-98: the extra variables of the new objective are pushed
behind those already stored. -/
def setObjective (p : Problem K) (q : QuadExpr K) (l : LinExpr K) : Problem K :=
  let r := p.addExtras q.quad.length
  { r.1 with obj := { r.1.obj with quad := q.quad, lin := q.lin.add l, extra := p.obj.extra ++ r.2 } }

end Problem

/-- A matrix given by triplets (row, column, value) together with its right-hand side, and the list of
right-hand-side entries that were accessed (Cone.cpp:438-451, Cone.hpp:396-412). -/
structure Sys (K : Type) where
  trip : List (Nat × Nat × K)
  rhs : Nat → K
  touched : List Nat

namespace Sys
variable {K : Type} [Field K]

/-- `SolverStorage::initialize` + `cleanCoeffs`, Cone.cpp:424-436, Cone.hpp:400: no entries, zero vector. -/
def zero : Sys K := ⟨[], fun _ => 0, []⟩

/-- `SolverStorage::addCoeff`, Cone.cpp:438-442. -/
def add (row col : Nat) (v : K) (s : Sys K) : Sys K := { s with trip := s.trip ++ [(row, col, v)] }

/-- `h()[row] = v` (`b()[row] = v`) (e.g. ConicProblem.cpp:133, 152). -/
def set (row : Nat) (v : K) (s : Sys K) : Sys K :=
  { s with rhs := Function.update s.rhs row v, touched := s.touched ++ [row] }

/-- Adding one coefficient `scale * coeff` per term of a linear expression: the inner loops of
ConicProblem.cpp:129-133, 147-151, 163-167, 179-183, 206-210, 226-230, 261-265, 284-288, 305-309. -/
def addTerms (row : Nat) (scale : K) (ts : List (Nat × K)) (s : Sys K) : Sys K :=
  ts.foldl (fun s t => s.add row t.1 (scale * t.2)) s

/-- Row `r` of the matrix times `x` (duplicate triplets are summed, as `setFromTriplets` does) (Cone.cpp:444-451). -/
def act (s : Sys K) (x : Nat → K) (r : Nat) : K :=
  ((s.trip.filter (fun t => t.1 = r)).map (fun t => t.2.2 * x t.2.1)).sum

/-- Row `r` of `rhs - M x` (the slack of Cone.hpp:380-435). -/
def slack (s : Sys K) (x : Nat → K) (r : Nat) : K := s.rhs r - s.act x r

end Sys

/-- `for (i...) body(i, v[i])` over a vector (e.g. ConicProblem.cpp:128-143). -/
def forIdx {α σ : Type} (f : Nat → α → σ → σ) : Nat → List α → σ → σ
  | _, [], s => s
  | i, a :: as, s => forIdx f (i + 1) as (f i a s)

/-- `for (a : v) if (p(a)) { body(count, a); count += 1; }` (ConicProblem.cpp:195-215, 242-270). -/
def forCount {α σ : Type} (p : α → Bool) (f : Nat → α → σ → σ) : Nat → List α → σ → σ
  | _, [], s => s
  | i, a :: as, s => if p a then forCount p f (i + 1) as (f i a s) else forCount p f i as s

/-- `for (a : v) { body(row_start, a); row_start += width(a); }` (ConicProblem.cpp:276-313). -/
def forStart {α σ : Type} (width : α → Nat) (f : Nat → α → σ → σ) : Nat → List α → σ → σ
  | _, [], s => s
  | i, a :: as, s => forStart width f (i + width a) as (f i a s)

namespace Build
variable {K : Type} [Field K]

/-- Linear equality rows, ConicProblem.cpp:128-135 (`b` is only assigned inside the loop over the variables). -/
def eqBody (i : Nat) (e : LinExpr K) (s : Sys K) : Sys K :=
  e.terms.foldl (fun s t => (s.add i t.1 t.2).set i (-e.const)) s

/-- Binary bound rows, ConicProblem.cpp:138-143; `bnd` = (column, lower entry, upper entry). -/
def binBody (start : Nat) (i : Nat) (bnd : Nat × K × K) (s : Sys K) : Sys K :=
  (((s.add (start + 2 * i) bnd.1 (-1)).add (start + 2 * i + 1) bnd.1 1).set (start + 2 * i) bnd.2.1).set
    (start + 2 * i + 1) bnd.2.2

/-- Linear inequality rows, ConicProblem.cpp:147-154 (`h` is only assigned inside the loop over the variables). -/
def lineqBody (start : Nat) (i : Nat) (e : LinExpr K) (s : Sys K) : Sys K :=
  e.terms.foldl (fun s t => (s.add (start + i) t.1 t.2).set (start + i) (-e.const)) s

/-- Linear part of the quadratic inequality constraints, ConicProblem.cpp:158-170. -/
def qlinBody (start : Nat) (i : Nat) (q : CQuad K) (s : Sys K) : Sys K :=
  let s1 := (q.quad.zip q.extra).foldl (fun s t => s.add (start + i) t.2 t.1.1) s
  (s1.addTerms (start + i) 1 q.lin.terms).set (start + i) (-q.lin.const)

/-- Linear part of the second-order-cone constraints, ConicProblem.cpp:174-185; the auxiliary variable is
`extraVars()[0]`. -/
def socLinBody (start : Nat) (i : Nat) (q : CQuad K) (s : Sys K) : Sys K :=
  ((s.add (start + i) (q.extra.headD 0) 1).addTerms (start + i) 1 q.lin.terms).set (start + i) (-q.lin.const)

/-- `qineqcons_[row_id].getValue()`, Exprs.cpp:85-90. -/
def quadValue (q : CQuad K) (x : Nat → K) : K :=
  q.quad.foldl (fun acc t => acc + t.1 * (t.2.getValue x) ^ 2) 0

/-- Trust-region row, ConicProblem.cpp:196-214, for one constraint; `thr` is
`pow(TrustRegionThreshold, iter_id)` and `x0` the current values of the variables. -/
def trustBody (x0 : Nat → K) (thr : K) (start : Nat) (i : Nat) (q : CQuad K) (s : Sys K) : Sys K :=
  let s1 := s.set (start + i) 0
  let s2 := q.quad.foldl (fun s t => t.2.terms.foldl (fun s u =>
    let s' := s.add (start + i) u.1 (-2 * t.1 * t.2.getValue x0 * u.2)
    s'.set (start + i) (s'.rhs (start + i) - 2 * t.1 * t.2.getValue x0 * u.2 * x0 u.1)) s) s1
  let s3 := s2.addTerms (start + i) (-1) q.lin.terms
  s3.set (start + i) (s3.rhs (start + i) + (q.lin.const + quadValue q x0 + thr))

/-- Rows of one squared term, ConicProblem.cpp:220-235 (objective) and 277-292 (quadratic constraints);
`t` = (auxiliary variable, squared linear expression). -/
def quadBody (start : Nat) (i : Nat) (t : Nat × LinExpr K) (s : Sys K) : Sys K :=
  let s1 := ((s.add (start + 3 * i + 0) t.1 (-1)).add (start + 3 * i + 1) t.1 (-1)).addTerms
    (start + 3 * i + 2) (-2) t.2.terms
  ((s1.set (start + 3 * i + 0) 1).set (start + 3 * i + 1) (-1)).set (start + 3 * i + 2) (2 * t.2.const)

/-- Rows of one soft constraint, ConicProblem.cpp:243-269; the auxiliary variable is `extraVars().back()`. -/
def softBody (x0 : Nat → K) (start : Nat) (i : Nat) (q : CQuad K) (s : Sys K) : Sys K :=
  let r := start + 3 * i + 2
  let v := q.extra.getLastD 0
  let s0 := ((s.set (start + 3 * i + 0) 1).set (start + 3 * i + 1) (-1)).set r 0
  let s1 := (s0.add (start + 3 * i + 0) v (-1)).add (start + 3 * i + 1) v (-1)
  let s2 := q.quad.foldl (fun s t => t.2.terms.foldl (fun s u =>
    let s' := s.add r u.1 (-4 * t.1 * t.2.getValue x0 * u.2)
    s'.set r (s'.rhs r - 2 * t.1 * t.2.getValue x0 * u.2 * x0 u.1)) s) s1
  let s3 := s2.addTerms r (-2) q.lin.terms
  let s4 := s3.set r (s3.rhs r + (q.lin.const + quadValue q x0))
  s4.set r (2 * s4.rhs r)

/-- Cone rows of the squared terms of one quadratic constraint, ConicProblem.cpp:277-292. -/
def qconeBody (start : Nat) (q : CQuad K) (s : Sys K) : Sys K :=
  forIdx (quadBody start) 0 (q.extra.zip (q.quad.map Prod.snd)) s

/-- Cone rows of one second-order-cone constraint, ConicProblem.cpp:297-312. -/
def socBody (start : Nat) (q : CQuad K) (s : Sys K) : Sys K :=
  let s1 := (s.add (start + 0) (q.extra.headD 0) (-1)).set (start + 0) 0
  forIdx (fun i (t : K × LinExpr K) s =>
    (s.addTerms (start + i + 1) (-1) t.2.terms).set (start + i + 1) t.2.const) 0 q.quad s1

end Build

/-- The standard form handed to the interior point solver: ConicProblem.cpp:101-317. -/
structure StdForm (K : Type) where
  nvars : Nat
  nleq : Nat
  nlineq : Nat
  q : List Nat
  eq : Sys K
  ineq : Sys K
  c : Nat → K

namespace Problem
variable {K : Type} [Field K] [LinearOrder K]
open Build

/-- Recomputed counters, ConicProblem.cpp:104-113. -/
def countTrust (p : Problem K) : Nat := (p.qineq.filter (·.trust)).length
/-- The number of soft constraints, recomputed in ConicProblem.cpp:111. -/
def countSoft (p : Problem K) : Nat := (p.qineq.filter (·.soft)).length

/-- `nlineq`, ConicProblem.cpp:117-118. -/
def nlineq (p : Problem K) (warm : Bool) : Nat :=
  2 * p.bins.length + p.lineq.length + p.qineq.length + p.soc.length + (if warm then 0 else p.countTrust)

/-- `mextra`, ConicProblem.cpp:107-113. -/
def mextra (p : Problem K) (warm : Bool) : Nat :=
  p.obj.extra.length + p.soc.length +
    (p.qineq.map (fun q => q.quad.length + (if q.soft && !warm then 1 else 0))).sum

/-- The vector of cone sizes, ConicProblem.cpp:119-121: all 3, then the last `soccons_.size()` entries
overwritten. -/
def coneSizes (p : Problem K) (warm : Bool) : List Nat :=
  (List.replicate (p.mextra warm) 3).take (p.mextra warm - p.soc.length) ++
    p.soc.map (fun q => q.quad.length + 1)

/-- The inequality system `G`, `h`, ConicProblem.cpp:138-313, in program order. -/
def buildIneq (p : Problem K) (x0 : Nat → K) (thr : K) (warm : Bool) : Sys K :=
  let start := 0
  let s := forIdx (binBody start) 0 (p.bins.zip (p.binLo.zip p.binUp)) Sys.zero
  let start := start + 2 * p.bins.length
  let s := forIdx (lineqBody start) 0 p.lineq s
  let start := start + p.lineq.length
  let s := forIdx (qlinBody start) 0 p.qineq s
  let start := start + p.qineq.length
  let s := forIdx (socLinBody start) 0 p.soc s
  let start := start + p.soc.length
  let s := if warm then s else forCount (·.trust) (trustBody x0 thr start) 0 p.qineq s
  let start := if warm then start else start + p.countTrust
  let s := forIdx (quadBody start) 0 (p.obj.extra.zip (p.obj.quad.map Prod.snd)) s
  let start := start + 3 * p.obj.extra.length
  let s := if warm then s else forCount (·.soft) (softBody x0 start) 0 p.qineq s
  let start := if warm then start else start + 3 * p.countSoft
  let s := forStart (fun q => 3 * q.quad.length) qconeBody start p.qineq s
  let start := start + (p.qineq.map (fun q => 3 * q.quad.length)).sum
  forStart (fun q => q.quad.length + 1) socBody start p.soc s

/-- The objective vector `c`: ConicProblem.cpp:188-189 (linear part), 234 (auxiliary variables of the
objective), 270 (soft constraints); `w` is `SoftConstraintWeightReduced`. The assignments are collected
from the three loops in program order (they do not interact with `G`, `h`). -/
def buildC (p : Problem K) (w : K) (warm : Bool) : Nat → K :=
  let c0 : Nat → K := p.obj.lin.terms.foldl (fun c t => Function.update c t.1 t.2) (fun _ => 0)
  let c1 := (p.obj.extra.zip (p.obj.quad.map Prod.fst)).foldl (fun c t => Function.update c t.1 t.2) c0
  if warm then c1
  else (p.qineq.filter (·.soft)).foldl (fun c q => Function.update c (q.extra.getLastD 0) w) c1

/-- The vector reads of `buildProblem` that are not guarded by the loop bound: the loop over
`objective_.extraVars()` reads `objective_.qexpr()[i]` and `coeffs()[i]` (ConicProblem.cpp:220-234); the loops
over `coeffs()` of a quadratic constraint read `extraVars()[i]` (159-161, 277-281), its soft block reads
`extraVars().back()` (248), and the second-order-cone blocks read `extraVars()[0]` (177, 300). -/
def readsInBounds (p : Problem K) : Prop :=
  p.obj.extra.length ≤ p.obj.quad.length ∧
  (∀ q ∈ p.qineq, q.quad.length ≤ q.extra.length ∧ (q.soft → q.extra ≠ [])) ∧
  (∀ q ∈ p.soc, q.extra ≠ [])

instance (p : Problem K) : Decidable p.readsInBounds := by unfold readsInBounds; infer_instance

/-- `ConicProblem::buildProblem`, ConicProblem.cpp:101-317; `none` is undefined behaviour (a vector read
out of bounds). -/
def build (p : Problem K) (x0 : Nat → K) (thr w : K) (warm : Bool) : Option (StdForm K) :=
  if p.readsInBounds then
    some { nvars := p.vars.length, nleq := p.leq.length, nlineq := p.nlineq warm, q := p.coneSizes warm,
           eq := forIdx eqBody 0 p.leq Sys.zero, ineq := p.buildIneq x0 thr warm, c := p.buildC w warm }
  else none

end Problem
end Verif
