/-
Model of the containers of the LQR solver: state and control sequences, initialisation of a problem and of the
solver, storing and loading of solutions (/repo/solver_lqr/{include,src}/solver_lqr/OcpDescription,
FiniteDifferences, ForwardPass, BackwardPass, SolverLqr).

Simplifications: a vector whose length may change is a list; random initialisation and printing are not modelled;
the YAML file is a record of the entries written (`yaml_eigen` writes and reads matrices exactly).
-/
import Verif.Lqr

namespace Verif
namespace LqrSeq

open Lqr

/-! ### Sequences -/

/-- `StateSequence`, OcpDescription.hpp:44-59; a state vector is the list of its entries. -/
abbrev StateSeq := List (List ℝ)

/-- `StateSequence::resize`, OcpDescription.cpp:67-72: zero states are appended, the old ones are not removed. -/
def stateResize (tdim xdim : Nat) (s : StateSeq) : StateSeq := s ++ List.replicate tdim (List.replicate xdim 0)

/-- `ControlSequence`, OcpDescription.hpp:88-111, with controls of one size. -/
abbrev CSeq (nx nu : Nat) := List (Control nx nu)

variable {nx nu : Nat}

/-- `ControlSequence::resize`, OcpDescription.cpp:83-89: cleared first. -/
def resize (tdim : Nat) (_s : CSeq nx nu) : CSeq nx nu := List.replicate tdim (Control.zero nx nu)

/-- The loop of `ControlSequence::operator=`, OcpDescription.cpp:100-101; `self`: both sides are the same object. -/
def copyLoop (self : Bool) (rhs : CSeq nx nu) : Nat → CSeq nx nu → CSeq nx nu
  | 0, acc => acc
  | k + 1, acc =>
    let acc := copyLoop self rhs k acc
    match (if self then acc else rhs)[k]? with
    | some u => acc.set k u
    | none => acc

/-- `ControlSequence::operator=`, OcpDescription.cpp:97-103. `none`: `rhs.control(0)` of an empty sequence is read
(undefined behaviour). -/
def assign (self : Bool) (lhs rhs : CSeq nx nu) : Option (CSeq nx nu) :=
  match rhs with
  | [] => none
  | u :: us => some (copyLoop self (u :: us) (u :: us).length (resize (u :: us).length lhs))

/-- `operator*`, `operator*=`, `scalar * sequence`, OcpDescription.cpp:105-123. -/
def scale (a : ℝ) (s : CSeq nx nu) : CSeq nx nu := s.map (Control.scale a)

/-- `operator+=`, `operator+`, OcpDescription.cpp:125-137. `none`: a control beyond the end of `rhs` is read. -/
def add : CSeq nx nu → CSeq nx nu → Option (CSeq nx nu)
  | [], _ => some []
  | _ :: _, [] => none
  | u :: us, v :: vs => (add us vs).map (u.add v :: ·)

/-! ### Initialisation of a problem -/

/-- The sequences of an `OcpBase`, OcpDescription.hpp:147-148; a control is its feedforward and the rows of its
feedback. -/
structure Obj where
  states : StateSeq
  controls : List (List ℝ × List (List ℝ))

/-- A newly constructed `OcpBase` (OcpDescription.hpp:118). -/
def Obj.fresh : Obj := ⟨[], []⟩

/-- The sequences after `OcpBase::initialize`, OcpDescription.cpp:149-153, before `configure`. -/
def Obj.initialize (tdim xdim udim : Nat) (o : Obj) : Obj :=
  { states := stateResize (tdim + 1) xdim o.states
    controls := List.replicate tdim (List.replicate udim 0, List.replicate udim (List.replicate xdim 0)) }

/-! ### Initialisation of the solver -/

/-- Which problem the parts of a `SolverLqr` refer to: solver and the passes (SolverLqr.hpp:48-51, ForwardPass.hpp:43,
BackwardPass.hpp:59, FiniteDifferences.hpp:70). -/
structure Parts (ι : Type) where
  ocp : Option ι
  fwd : Option ι
  bwd : Option ι
  fd : Option ι

/-- A newly constructed `SolverLqr`, SolverLqr.cpp:16-22. -/
def Parts.fresh {ι : Type} : Parts ι := ⟨none, none, none, none⟩

/-- `SolverLqr::initialize`, SolverLqr.cpp:24-32, with `FiniteDifferences::initialize`, FiniteDifferences.cpp:14-20
(only the first call has an effect), `ForwardPass::initialize`, ForwardPass.cpp:15-19, and
`BackwardPass::initialize`, BackwardPass.cpp:15-17. -/
def Parts.initialize {ι : Type} (i : ι) (p : Parts ι) : Parts ι :=
  { ocp := some i, fwd := some i, bwd := some i
    fd := match p.fd with
      | none => some i
      | some j => some j }

/-- A problem with its current trajectory (OcpDescription.hpp:115-150). -/
structure Prob (nx nu : Nat) where
  ocp : Ocp nx nu
  xs : Nat → Vec nx
  us : Nat → Control nx nu

/-- The derivatives computed in step 1 of `optimize`, SolverLqr.cpp:67-71 and FiniteDifferences.cpp:54-60. -/
noncomputable def Parts.derivs {ι : Type} (p : Parts ι) (tbl : ι → Prob nx nu) (c : Setting nu) :
    Option (Devs nx nu) :=
  p.fd.map fun i => derivatives (tbl i).ocp c (tbl i).xs (tbl i).us

/-! ### Storing and loading -/

/-- The entries written by `storeSolution`, SolverLqr.cpp:168-189. -/
structure File where
  tdim : Nat
  states : List (List ℝ)
  controlFf : List (List ℝ)
  controlFb : List (List (List ℝ))

/-- `storeSolution`, SolverLqr.cpp:164-198: the first `tdim + 1` states and `tdim` controls. -/
def store (tdim : Nat) (o : Obj) : File :=
  { tdim := tdim, states := o.states.take (tdim + 1), controlFf := (o.controls.take tdim).map Prod.fst
    controlFb := (o.controls.take tdim).map Prod.snd }

/-- The loop of `loadSolution`, SolverLqr.cpp:207-208, from time `t` on: the feedback of each control is replaced; a
missing entry throws, what has been assigned stays. -/
def loadLoop (f : File) : (fuel t : Nat) → Obj → Obj
  | 0, _, o => o
  | fuel + 1, t, o =>
    match f.controlFb[t]?, o.controls[t]? with
    | some fb, some u => loadLoop f fuel (t + 1) { o with controls := o.controls.set t (u.1, fb) }
    | _, _ => o

/-- `loadSolution`, SolverLqr.cpp:200-258; `tdim` is that of the problem. -/
def load (tdim : Nat) (f : File) (o : Obj) : Obj := loadLoop f tdim 0 o

end LqrSeq
end Verif
