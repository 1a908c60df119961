import Verif.BnB
import Verif.LbfgsFloatProps

/-!
Branch and bound in machine arithmetic: the code of `BnB.lean` (BnBSolver.cpp, NcvxBnBSolver.cpp) once more, with every operation on doubles an operation of an
arbitrary arithmetic (`Arith`, LbfgsFloat.lean), so that overflow, infinities and NaN are visible. The relaxation solver is again an arbitrary oracle; it also
answers what `std::round` followed by the conversion to `int` gives (`none`: outside of `int`, undefined behaviour, in particular for a NaN).
-/
namespace Verif
namespace BnBF
open LbfgsF BnB

variable {F : Type} [Arith F]

/-- `struct node`, BnBSolver.hpp:22-26. `pid = none`: never assigned. `partition_val_` is never read and left out. -/
structure Node (F : Type) (nb : Nat) where
  status : Status
  pid : Option (Fin nb)
  lb : F
  ub : F

/-- Settings read by the solver, SolverSetting.hpp:64-66, and `SolverSetting::inf`. -/
structure Setting (F : Type) where
  maxIters : Int
  intTol : F
  absGap : F
  relGap : F
  inf : F

/-- The relaxation solver: answer to its `k`-th call; binary entries and objective `c'x` as computed; rounding to `int` (stands for `getSolver().optimize()` in
BnBSolver.cpp:112 and 135 and `std::round` in line 123). -/
structure Oracle (F : Type) (nb : Nat) (V : Type) where
  solve : Nat → (Fin nb → Int) → Code × V
  bin : V → Fin nb → F
  obj : V → F
  round : F → Option Int

/-- Members of `BnBSolver`, BnBSolver.hpp:56-67, as in `BnB.State`. -/
structure State (F : Type) (nb : Nat) (V : Type) where
  nodes : Nat → Node F nb
  mat : Nat → Fin nb → Int
  iteration : Nat
  nodeId : Option Nat
  ub : F
  lb : F
  opt : V
  calls : Nat
  log : List (Nat × V)

/-- Faults: an exception (BnBSolver.cpp:89), a partition index read before it was assigned (line 19), a conversion to `int` outside its range (line 123). -/
inductive Fault
  | throw | undefinedPartition | conversion
  deriving DecidableEq

/-- `std::abs(x - binvars_vec_id_) < BnBIntegerTol`, BnBSolver.cpp:124. -/
def near (g : Setting F) (x : F) (i : Int) : Bool := Arith.abs (x -. c (i : ℚ)) <. g.intTol

/-- `selectPartitionVariable`, BnBSolver.cpp:56-66, over a list of variables; state: partition id and threshold. -/
def selectVar {nb : Nat} (x : Fin nb → F) : List (Fin nb) → Option (Fin nb) × F → Option (Fin nb) × F
  | [], a => a
  | v :: l, a => selectVar x l (if Arith.abs (x v -. c (1 / 2)) <. a.2 then (some v, Arith.abs (x v -. c (1 / 2))) else a)

/-- `createBranches`, BnBSolver.cpp:17-29. -/
def createBranches {nb : Nat} {V : Type} (s : State F nb V) (id : Nat) : Except Fault (State F nb V) :=
  match (s.nodes id).pid with
  | none => .error .undefinedPartition
  | some pid =>
    let nodes1 := Function.update s.nodes s.iteration
      { s.nodes s.iteration with lb := (s.nodes id).lb, ub := (s.nodes id).ub, status := .notSolved }
    let mat1 := Function.update s.mat s.iteration (Function.update (s.mat id) pid 1)
    .ok { s with
      nodes := Function.update nodes1 id { nodes1 id with status := .notSolved }
      mat := Function.update mat1 id (Function.update (mat1 id) pid 0) }

open Classical in
/-- `updateNodeBounds`, BnBSolver.cpp:108-156. -/
noncomputable def updateNodeBounds {nb : Nat} {V : Type} (O : Oracle F nb V) (g : Setting F) (s : State F nb V) (id : Nat) : Except Fault (State F nb V) :=
  if ¬ legal (s.mat id) then .error .throw
  else
    let r := O.solve s.calls (s.mat id)
    if accepted r.1 then
      let v := r.2
      if ∃ i, O.round (O.bin v i) = none then .error .conversion
      else
        let vec : Fin nb → Int := fun i => (O.round (O.bin v i)).getD 0
        if ∀ i, near g (O.bin v i) (vec i) = true then
          let n : Node F nb := { s.nodes id with lb := O.obj v, ub := O.obj v, status := .nonBranchable }
          .ok { s with
            nodes := Function.update s.nodes id n
            opt := if n.ub <. s.ub then v else s.opt
            ub := if n.ub <. s.ub then n.ub else s.ub
            calls := s.calls + 1
            log := (s.iteration, v) :: s.log }
        else if ¬ legal vec then .error .throw
        else
          let pid := (selectVar (O.bin v) (List.finRange nb) ((s.nodes id).pid, c 1)).1
          let q := O.solve (s.calls + 1) vec
          let viable := isOptimal q.1
          let n : Node F nb := { status := .branchable, pid := pid, lb := O.obj v, ub := if viable then O.obj q.2 else (s.nodes id).ub }
          .ok { s with
            nodes := Function.update s.nodes id { n with ub := if viable then g.inf else n.ub }
            opt := if n.ub <. s.ub then q.2 else s.opt
            ub := if n.ub <. s.ub then n.ub else s.ub
            calls := s.calls + 2
            log := if viable then (s.iteration, q.2) :: s.log else s.log }
    else
      .ok { s with
        nodes := Function.update s.nodes id { s.nodes id with lb := g.inf, ub := g.inf, status := .nonBranchable }
        calls := s.calls + 1 }

/-- `getProblemLowerBound`, BnBSolver.cpp:47-53, over the nodes `0..k-1`. -/
def lowerBound {nb : Nat} (g : Setting F) (nodes : Nat → Node F nb) : Nat → F
  | 0 => g.inf
  | k + 1 => fmin (lowerBound g nodes k) (nodes k).lb

/-- `selectNodeToExplore`, BnBSolver.cpp:32-44, over the nodes `0..k-1`: selected node (`none`: -1) and its bound. -/
def selectNode {nb : Nat} (g : Setting F) (nodes : Nat → Node F nb) : Nat → Option Nat × F
  | 0 => (none, g.inf)
  | k + 1 =>
    let a := selectNode g nodes k
    if (nodes k).status = .branchable ∧ (nodes k).lb <. a.2 then (some k, (nodes k).lb) else a

/-- `optimilityCheck`, BnBSolver.cpp:159-164. -/
def check {nb : Nat} {V : Type} (g : Setting F) (s : State F nb V) : Prop :=
  (g.absGap <. s.ub -. s.lb) = true ∧ (g.relGap <. Arith.abs (s.ub /. s.lb -. c 1)) = true ∧ s.nodeId ≠ none ∧ (s.iteration : Int) < g.maxIters - 1

/-- `std::isinf`, used in BnBSolver.cpp:170. -/
def isinf (g : Setting F) (x : F) : Bool := x ==. g.inf || x ==. Arith.neg g.inf

/-- `exitcode`, BnBSolver.cpp:167-180. -/
def exitcode {nb : Nat} {V : Type} (g : Setting F) (s : State F nb V) : Code :=
  if (s.iteration : Int) < g.maxIters - 1 then
    if isinf g s.ub then (if c 0 <=. s.ub then .primalInf else .dualInf) else .optimal
  else
    if isinf g s.ub then (if c 0 <=. s.ub then .primalInfInacc else .dualInfInacc) else .optimalInacc

/-- Initialisation and root node, BnBSolver.cpp:183-202. `nodes0` and `opt0` are what an earlier call left behind. -/
noncomputable def root {nb : Nat} {V : Type} (O : Oracle F nb V) (g : Setting F) (nodes0 : Nat → Node F nb) (opt0 : V) : Except Fault (State F nb V) := do
  let s ← updateNodeBounds O g
    { nodes := Function.update nodes0 0 { nodes0 0 with status := .notSolved, lb := Arith.neg g.inf, ub := g.inf }
      mat := fun _ _ => -1, iteration := 0, nodeId := some 0, ub := g.inf, lb := Arith.neg g.inf, opt := opt0, calls := 0, log := [] } 0
  .ok { s with lb := (s.nodes 0).lb, ub := (s.nodes 0).ub }

/-- Body of the main loop, BnBSolver.cpp:206-217, exploring node `id`. -/
noncomputable def body {nb : Nat} {V : Type} (O : Oracle F nb V) (g : Setting F) (s : State F nb V) (id : Nat) : Except Fault (State F nb V) := do
  let s1 ← createBranches { s with iteration := s.iteration + 1 } id
  let s2 ← updateNodeBounds O g s1 id
  let s3 ← updateNodeBounds O g s2 s2.iteration
  .ok { s3 with lb := lowerBound g s3.nodes (s3.iteration + 1), nodeId := (selectNode g s3.nodes (s3.iteration + 1)).1 }

/-- States at the head of the main loop, BnBSolver.cpp:204. -/
inductive Reach {nb : Nat} {V : Type} (O : Oracle F nb V) (g : Setting F) (nodes0 : Nat → Node F nb) (opt0 : V) : State F nb V → Prop
  | root {s} (h : root O g nodes0 opt0 = .ok s) : Reach O g nodes0 opt0 s
  | step {s s' id} (h : Reach O g nodes0 opt0 s) (hc : check g s) (hid : s.nodeId = some id) (hs : body O g s id = .ok s') : Reach O g nodes0 opt0 s'

/-- Outcomes of `optimize`, BnBSolver.cpp:196-222: exit code and final state, whose `opt` is loaded into the solver; or a fault. -/
inductive Run {nb : Nat} {V : Type} (O : Oracle F nb V) (g : Setting F) (nodes0 : Nat → Node F nb) (opt0 : V) : Except Fault (Code × State F nb V) → Prop
  | rootFault {e} (h : root O g nodes0 opt0 = .error e) : Run O g nodes0 opt0 (.error e)
  | fault {s id e} (h : Reach O g nodes0 opt0 s) (hc : check g s) (hid : s.nodeId = some id) (hs : body O g s id = .error e) :
      Run O g nodes0 opt0 (.error e)
  | done {s} (h : Reach O g nodes0 opt0 s) (hc : ¬ check g s) : Run O g nodes0 opt0 (.ok (exitcode g s, s))

end BnBF
end Verif
