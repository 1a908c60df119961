/-
Model of the contact plan to dynamics sequence conversion,
/repo/momentumopt/src/momentumopt/cntopt/ContactPlanInterface.cpp:19-153.

Simplifications: times are elements of an ordered field (the code's double); positions and orientations are values of
arbitrary types (they are only copied); a dynamics sequence is a function from time step and end-effector to the five members
written here, its length `T` is passed explicitly (`PlannerIntParam_NumTimesteps`, the size given in DynamicsOptimizer.cpp:26).
-/
import Mathlib.Algebra.Order.Field.Basic
import Mathlib.Data.List.Basic

namespace Verif
namespace ContactPlan

/-- `ContactState`, ContactState.hpp:33-85 (the members read by `fillDynamicsSequence`). -/
structure Contact (K P Q : Type) where
  selected : Bool
  ini : K
  fin : K
  pos : P
  ori : Q

/-- Members of `DynamicsState` of one end-effector, DynamicsState.hpp:111-116. -/
structure Slot (P Q : Type) where
  active : Bool
  cntId : Int
  actId : Int
  pos : P
  ori : Q

/-- `DynamicsState::DynamicsState()`, DynamicsState.cpp:14-44: inactive, activation id 0, contact id -1. -/
def Slot.fresh {P Q : Type} (p0 : P) (q0 : Q) : Slot P Q := ⟨false, -1, 0, p0, q0⟩

variable {K P Q : Type} [Field K] [LinearOrder K]

/-- The test of ContactPlanInterface.cpp:30. -/
def inside (dt : K) (c : Contact K P Q) (t : Nat) : Bool :=
  let now := ((t : K) + 1) * dt
  decide (now ≥ c.ini) && decide (now < c.fin)

/-- The loop over time steps for one selected contact, ContactPlanInterface.cpp:27-38. State: slots of the end-effector, `counter`. -/
def fillContact (T : Nat) (dt : K) (i : Nat) (c : Contact K P Q) (s : (Nat → Slot P Q) × Nat) : (Nat → Slot P Q) × Nat :=
  (List.range T).foldl (fun s t =>
    if inside dt c t then
      (Function.update s.1 t ⟨true, i, s.2, c.pos, c.ori⟩, s.2 + 1)
    else s) s

/-- The loop over the contacts of one end-effector, ContactPlanInterface.cpp:25-40. -/
def fillFrom (T : Nat) (dt : K) : Nat → List (Contact K P Q) → (Nat → Slot P Q) × Nat → (Nat → Slot P Q) × Nat
  | _, [], s => s
  | i, c :: cs, s => fillFrom T dt (i + 1) cs (if c.selected then fillContact T dt i c s else s)

/-- A dynamics sequence: slot of every end-effector at every time step, and `activeEndeffectorSteps()` (DynamicsState.hpp:123-151). -/
structure Seq (P Q : Type) where
  slot : Nat → Nat → Slot P Q
  steps : Nat → Nat

/-- One iteration of the end-effector loop, ContactPlanInterface.cpp:23-42 (`counter` starts at 0, l. 24; result stored l. 42). -/
def fillEff (T : Nat) (dt : K) (plan : Nat → List (Contact K P Q)) (s : Seq P Q) (e : Nat) : Seq P Q :=
  let r := fillFrom T dt 0 (plan e) (fun t => s.slot t e, 0)
  { slot := fun t e' => if e' = e then r.1 t else s.slot t e'
    steps := Function.update s.steps e r.2 }

/-- `fillDynamicsSequence`, ContactPlanInterface.cpp:19-44 (`n` is `Problem::n_endeffs_`). -/
def fillDynamicsSequence (n T : Nat) (dt : K) (plan : Nat → List (Contact K P Q)) (s : Seq P Q) : Seq P Q :=
  (List.range n).foldl (fillEff T dt plan) { s with steps := fun _ => 0 }

/-! ### flight phases -/

/-- `findMakeContactId`, ContactPlanInterface.cpp:101-114; `none`: a state outside the sequence of length `T` is read. -/
def findMake (T : Nat) (act : Nat → Bool) (s : Nat) : Option Nat :=
  if s + 1 < T then
    if act s = false ∧ act (s + 1) = true then some s else findMake T act (s + 1)
  else none
termination_by T - s

/-- `findBreakContactId`, ContactPlanInterface.cpp:116-129; `none`: a state outside the sequence of length `T` is read. -/
def findBreak (T : Nat) (act : Nat → Bool) (s : Nat) : Option Nat :=
  if s + 1 < T then
    if act s = true ∧ act (s + 1) = false then some (s + 1) else findBreak T act (s + 1)
  else none
termination_by T - s

/-- The loop over flight phases between contacts, ContactPlanInterface.cpp:68-76; `k` phases remain, `e` is `end_id`.
Result: the generated index ranges (inclusive) and the last `end_id`. -/
def midPhases (T : Nat) (act : Nat → Bool) : Nat → Nat → Option (List (Nat × Nat) × Nat)
  | 0, e => some ([], e)
  | k + 1, e => do
    let i ← findBreak T act e
    let e' ← findMake T act i
    let (ps, e'') ← midPhases T act k e'
    return ((i, e') :: ps, e'')

/-- The index ranges (inclusive) that `updateEndeffectorTrajectories` hands to `generateFlightPhase` for one end-effector with
`m` contacts, ContactPlanInterface.cpp:53-88. `iniAct` is the activation in the initial state. `none`: read out of bounds. -/
def flightPhases (T : Nat) (act : Nat → Bool) (iniAct : Bool) (m : Nat) : Option (List (Nat × Nat)) :=
  if m = 0 then some [] else do
    let (p1, e1) ← if iniAct then some ([], 0) else do
      let e ← findMake T act 0
      some ([(0, e)], e)
    let (p2, e2) ← midPhases T act (m - 1) e1
    if T = 0 then none
    else if act (T - 1) then some (p1 ++ p2)
    else do
      let i ← findBreak T act e2
      some (p1 ++ p2 ++ [(i, T - 1)])

/-- Interpolation parameter of the orientation, ContactPlanInterface.cpp:150. -/
def queryTime (start fin t : Nat) : K := min (2 * ((t : K) - start) / ((fin : K) + 1 - start)) 1

end ContactPlan
end Verif
