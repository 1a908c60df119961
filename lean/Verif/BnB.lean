/-
Model of the branch-and-bound solvers, /repo/solver/src/solver/optimizer/BnBSolver.cpp and NcvxBnBSolver.cpp (the same code; they differ
only in the relaxation solver they call: the interior point solver resp. the iterated non-convex problem).

Simplifications: the relaxation solver is an arbitrary oracle that may depend on the number of earlier calls (so on its own history); of the
optimization vector it returns only the entries of the binary variables and the objective `c'x` are interpreted. Objective values are real numbers;
bounds are extended reals (`SolverSetting::inf` is the IEEE infinity).
-/
import Mathlib.Data.EReal.Operations
import Mathlib.Algebra.Order.Floor.Ring
import Mathlib.Algebra.Order.Archimedean.Real.Basic
import Mathlib.Data.Fintype.Basic

namespace Verif
namespace BnB
open Classical

/-- Exit codes, SolverSetting.hpp:20-33. -/
inductive Code
  | optimal | optimalInacc | primalInf | primalInfInacc | dualInf | dualInfInacc | reachMaxIters | notConverged | indeterminate
  | prSearchDirection | prSlacksLeaveCone | prProjection
  deriving DecidableEq

/-- `enum class Status`, BnBSolver.hpp:20. -/
inductive Status
  | notSolved | branchable | nonBranchable
  deriving DecidableEq

/-- `struct node`, BnBSolver.hpp:22-26. `pid = none`: never assigned (uninitialised memory). `partition_val_` is never read and left out. -/
structure Node (nb : Nat) where
  status : Status
  pid : Option (Fin nb)
  lb : EReal
  ub : EReal

/-- Settings read by the solver, SolverSetting.hpp:64-66. -/
structure Setting where
  maxIters : Int
  intTol : ℝ
  absGap : ℝ
  relGap : ℝ

/-- The relaxation solver: for its `k`-th call and the decisions, exit code and returned vector; binary entries and objective of a vector (stands for `getSolver().optimize()` in BnBSolver.cpp:112 and 135). -/
structure Oracle (nb : Nat) (V : Type) where
  solve : Nat → (Fin nb → Int) → Code × V
  bin : V → Fin nb → ℝ
  obj : V → ℝ

/-- Members of `BnBSolver`, BnBSolver.hpp:56-67. `mat i` is column `i` of `binvars_mat_id_`. Ghost: `calls` counts oracle calls, `log` lists
the integral solutions evaluated, newest first, with the iteration in which they were found. -/
structure State (nb : Nat) (V : Type) where
  nodes : Nat → Node nb
  mat : Nat → Fin nb → Int
  iteration : Nat
  nodeId : Option Nat
  ub : EReal
  lb : EReal
  opt : V
  calls : Nat
  log : List (Nat × V)

/-- Faults: an exception (BnBSolver.cpp:89), or a partition index read before it was assigned. -/
inductive Fault
  | throw | undefinedPartition
  deriving DecidableEq

/-- `std::round`: half away from zero (used in BnBSolver.cpp:123). -/
noncomputable def cround (x : ℝ) : Int := if 0 ≤ x then ⌊x + 1/2⌋ else ⌈x - 1/2⌉

/-- The `switch` of `updateProblemData` does not throw, BnBSolver.cpp:69-92. -/
def legal {nb : Nat} (d : Fin nb → Int) : Prop := ∀ v, d v = 1 ∨ d v = 0 ∨ d v = -1

/-- Exit codes for which a node is evaluated, BnBSolver.cpp:114-117. -/
def accepted : Code → Bool
  | .optimal | .optimalInacc | .dualInf | .dualInfInacc | .primalInf | .primalInfInacc | .reachMaxIters => true
  | _ => false

/-- BnBSolver.cpp:137. -/
def isOptimal : Code → Bool
  | .optimal | .optimalInacc => true
  | _ => false

/-- `selectPartitionVariable`, BnBSolver.cpp:56-66, over a list of variables; state: partition id and threshold. -/
noncomputable def selectVar {nb : Nat} (x : Fin nb → ℝ) : List (Fin nb) → Option (Fin nb) × ℝ → Option (Fin nb) × ℝ
  | [], a => a
  | v :: l, a => selectVar x l (if |x v - 0.5| < a.2 then (some v, |x v - 0.5|) else a)

/-- `createBranches`, BnBSolver.cpp:17-29. -/
def createBranches {nb : Nat} {V : Type} (s : State nb V) (id : Nat) : Except Fault (State nb V) :=
  match (s.nodes id).pid with
  | none => .error .undefinedPartition
  | some pid =>
    let nodes1 := Function.update s.nodes s.iteration
      { s.nodes s.iteration with lb := (s.nodes id).lb, ub := (s.nodes id).ub, status := .notSolved }
    let mat1 := Function.update s.mat s.iteration (Function.update (s.mat id) pid 1)
    .ok { s with
      nodes := Function.update nodes1 id { nodes1 id with status := .notSolved }
      mat := Function.update mat1 id (Function.update (mat1 id) pid 0) }

/-- `updateNodeBounds`, BnBSolver.cpp:108-156. -/
noncomputable def updateNodeBounds {nb : Nat} {V : Type} (O : Oracle nb V) (c : Setting) (s : State nb V) (id : Nat) : Except Fault (State nb V) :=
  if ¬ legal (s.mat id) then .error .throw
  else
    let r := O.solve s.calls (s.mat id)
    if accepted r.1 then
      let v := r.2
      let vec : Fin nb → Int := fun i => cround (O.bin v i)
      if ∀ i, |O.bin v i - vec i| < c.intTol then
        let n : Node nb := { s.nodes id with lb := (O.obj v : EReal), ub := (O.obj v : EReal), status := .nonBranchable }
        .ok { s with
          nodes := Function.update s.nodes id n
          opt := if n.ub < s.ub then v else s.opt
          ub := if n.ub < s.ub then n.ub else s.ub
          calls := s.calls + 1
          log := (s.iteration, v) :: s.log }
      else if ¬ legal vec then .error .throw
      else
        let pid := (selectVar (O.bin v) (List.finRange nb) ((s.nodes id).pid, 1)).1
        let q := O.solve (s.calls + 1) vec
        let viable := isOptimal q.1
        let n : Node nb := { status := .branchable, pid := pid, lb := (O.obj v : EReal), ub := if viable then (O.obj q.2 : EReal) else (s.nodes id).ub }
        .ok { s with
          nodes := Function.update s.nodes id { n with ub := if viable then ⊤ else n.ub }
          opt := if n.ub < s.ub then q.2 else s.opt
          ub := if n.ub < s.ub then n.ub else s.ub
          calls := s.calls + 2
          log := if viable then (s.iteration, q.2) :: s.log else s.log }
    else
      .ok { s with
        nodes := Function.update s.nodes id { s.nodes id with lb := ⊤, ub := ⊤, status := .nonBranchable }
        calls := s.calls + 1 }

/-- `getProblemLowerBound`, BnBSolver.cpp:47-53, over the nodes `0..k-1`. -/
noncomputable def lowerBound {nb : Nat} (nodes : Nat → Node nb) : Nat → EReal
  | 0 => ⊤
  | k + 1 => min (lowerBound nodes k) (nodes k).lb

/-- `selectNodeToExplore`, BnBSolver.cpp:32-44, over the nodes `0..k-1`: selected node (`none`: -1) and its bound. -/
noncomputable def selectNode {nb : Nat} (nodes : Nat → Node nb) : Nat → Option Nat × EReal
  | 0 => (none, ⊤)
  | k + 1 =>
    let a := selectNode nodes k
    if (nodes k).status = .branchable ∧ (nodes k).lb < a.2 then (some k, (nodes k).lb) else a

/-- `prob_upper_bound_ - prob_lower_bound_ > gap` in IEEE arithmetic, BnBSolver.cpp:161 (infinity minus infinity is NaN, the test fails). -/
def absExceeds (ub lb : EReal) (gap : ℝ) : Prop := ub - lb > (gap : EReal)

/-- `abs(prob_upper_bound_ / prob_lower_bound_ - 1) > gap` in IEEE arithmetic, BnBSolver.cpp:162. Upper bounds are never minus infinity, lower bounds
are finite or plus infinity when the test is made. -/
def relExceeds (ub lb : EReal) (gap : ℝ) : Prop :=
  if ub = ⊤ then lb ≠ ⊤
  else if lb = ⊤ then gap < 1
  else if lb = 0 then ub ≠ 0
  else gap < |ub.toReal / lb.toReal - 1|

/-- `optimilityCheck`, BnBSolver.cpp:159-164. -/
def check {nb : Nat} {V : Type} (c : Setting) (s : State nb V) : Prop :=
  absExceeds s.ub s.lb c.absGap ∧ relExceeds s.ub s.lb c.relGap ∧ s.nodeId ≠ none ∧ (s.iteration : Int) < c.maxIters - 1

/-- `exitcode`, BnBSolver.cpp:167-180. -/
noncomputable def exitcode {nb : Nat} {V : Type} (c : Setting) (s : State nb V) : Code :=
  if (s.iteration : Int) < c.maxIters - 1 then
    if s.ub = ⊤ then .primalInf else if s.ub = ⊥ then .dualInf else .optimal
  else
    if s.ub = ⊤ then .primalInfInacc else if s.ub = ⊥ then .dualInfInacc else .optimalInacc

/-- Initialisation and root node, BnBSolver.cpp:183-202. `nodes0` and `opt0` are what an earlier call left behind. -/
noncomputable def root {nb : Nat} {V : Type} (O : Oracle nb V) (c : Setting) (nodes0 : Nat → Node nb) (opt0 : V) : Except Fault (State nb V) := do
  let s ← updateNodeBounds O c
    { nodes := Function.update nodes0 0 { nodes0 0 with status := .notSolved, lb := ⊥, ub := ⊤ }
      mat := fun _ _ => -1, iteration := 0, nodeId := some 0, ub := ⊤, lb := ⊥, opt := opt0, calls := 0, log := [] } 0
  .ok { s with lb := (s.nodes 0).lb, ub := (s.nodes 0).ub }

/-- Body of the main loop, BnBSolver.cpp:206-217, exploring node `id`. -/
noncomputable def body {nb : Nat} {V : Type} (O : Oracle nb V) (c : Setting) (s : State nb V) (id : Nat) : Except Fault (State nb V) := do
  let s1 ← createBranches { s with iteration := s.iteration + 1 } id
  let s2 ← updateNodeBounds O c s1 id
  let s3 ← updateNodeBounds O c s2 s2.iteration
  .ok { s3 with lb := lowerBound s3.nodes (s3.iteration + 1), nodeId := (selectNode s3.nodes (s3.iteration + 1)).1 }

/-- States at the head of the main loop, BnBSolver.cpp:204. -/
inductive Reach {nb : Nat} {V : Type} (O : Oracle nb V) (c : Setting) (nodes0 : Nat → Node nb) (opt0 : V) : State nb V → Prop
  | root {s} (h : root O c nodes0 opt0 = .ok s) : Reach O c nodes0 opt0 s
  | step {s s' id} (h : Reach O c nodes0 opt0 s) (hc : check c s) (hid : s.nodeId = some id) (hs : body O c s id = .ok s') : Reach O c nodes0 opt0 s'

/-- Outcomes of `optimize`, BnBSolver.cpp:196-222: exit code and final state, whose `opt` is loaded into the solver; or a fault. -/
inductive Run {nb : Nat} {V : Type} (O : Oracle nb V) (c : Setting) (nodes0 : Nat → Node nb) (opt0 : V) : Except Fault (Code × State nb V) → Prop
  | rootFault {e} (h : root O c nodes0 opt0 = .error e) : Run O c nodes0 opt0 (.error e)
  | fault {s id e} (h : Reach O c nodes0 opt0 s) (hc : check c s) (hid : s.nodeId = some id) (hs : body O c s id = .error e) :
      Run O c nodes0 opt0 (.error e)
  | done {s} (h : Reach O c nodes0 opt0 s) (hc : ¬ check c s) : Run O c nodes0 opt0 (.ok (exitcode c s, s))

end BnB
end Verif
