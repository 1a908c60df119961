/-
Model of the gains of the executor, their interactive tuning and the momentum it reports
(/repo/momentumopt/python/momentumopt/motion_execution.py:207-219, 291-320, 349-375, 434-442, 548-594).

Simplifications: an input line is a string, what `str.isdigit`/`int` and `isfloat`/`float` make of it is a parameter;
printing is not modelled; numbers are real.
-/
import Mathlib.Data.Real.Basic
import Mathlib.Data.Matrix.Mul
import Mathlib.Data.List.FinRange

namespace Verif
namespace ExecTune

/-! ### Tuning -/

/-- What Python makes of an input line: `int(s)` if `s.isdigit()`, `float(s)` if `isfloat(s)` (motion_execution.py:212-213, 574-575). -/
structure Parse where
  digit : String → Option Nat
  flt : String → Option ℝ

variable {n : Nat}

/-- `query_gain_from_user`, motion_execution.py:207-219, on the lines still to come; `none`: they run out (`EOFError`). -/
def queryGain (p : Parse) (K : Fin n → ℝ) (j : Fin n) : List String → Option ((Fin n → ℝ) × List String)
  | [] => none
  | s :: r =>
    match p.flt s with
    | some x => some (Function.update K j x, r)
    | none => if s = "" then some (K, r) else queryGain p K j r

/-- Reading of a joint id, motion_execution.py:564-583: the first line and the loop until it is a valid id or `stop`. -/
def readId (p : Parse) (n : Nat) : List String → Option (Option (Fin n) × List String)
  | [] => none
  | s :: r =>
    if s = "stop" then some (none, r)
    else match p.digit s with
      | some k => if h : k < n then some (some ⟨k, h⟩, r) else readId p n r
      | none => readId p n r

/-- The loop of `tunePD`, motion_execution.py:562-592; each pass reads at least one line, so that the number of lines
bounds the passes. -/
def tuneLoop (p : Parse) : Nat → (Fin n → ℝ) → (Fin n → ℝ) → List String → Option ((Fin n → ℝ) × (Fin n → ℝ) × List String)
  | 0, _, _, _ => none
  | fuel + 1, P, D, l =>
    match readId p n l with
    | none => none
    | some (none, r) => some (P, D, r)
    | some (some j, r) =>
      match queryGain p P j r with
      | none => none
      | some (P, r) =>
        match queryGain p D j r with
        | none => none
        | some (D, r) => tuneLoop p fuel P D r

/-- `tunePD`, motion_execution.py:558-594. -/
def tunePD (p : Parse) (P D : Fin n → ℝ) (l : List String) : Option ((Fin n → ℝ) × (Fin n → ℝ) × List String) :=
  tuneLoop p (l.length + 1) P D l

/-! ### Gains -/

/-- `np.diag(P) * e[6:] + np.diag(D) * de[6:]`, motion_execution.py:369-370, 441-442; entries in the order of pinocchio. -/
def pdTorque (P D e de : Fin n → ℝ) (k : Fin n) : ℝ := P k * e k + D k * de k

/-- A joint of the quadruped: front leg or hind leg, left or right, hip (`HFE`) or knee (`KFE`), motion_execution.py:263. -/
structure Joint where
  front : Bool
  left : Bool
  hip : Bool
  deriving DecidableEq

/-- `controlled_joints`, motion_execution.py:263. -/
def controlled : List Joint :=
  [⟨false, true, true⟩, ⟨false, true, false⟩, ⟨false, false, true⟩, ⟨false, false, false⟩,
   ⟨true, true, true⟩, ⟨true, true, false⟩, ⟨true, false, true⟩, ⟨true, false, false⟩]

/-- The damping `execute_motion` chooses for a joint by its name, motion_execution.py:351-358. -/
noncomputable def damping (j : Joint) : ℝ :=
  let d := 3 / 10
  let d := if j.hip then 5 / 10 else d
  if j.front then 5 / 10 else d

/-- The vector `D`, motion_execution.py:351-358: entry `i` by the name of controlled joint `i`. -/
noncomputable def gainD (i : Fin 8) : ℝ := damping (controlled.get (i.cast rfl))

/-! ### Reported momentum -/

variable {Q : Type} {nv : Nat}

open Matrix in
/-- One pass of `calculate_actual_trajectories`, motion_execution.py:301-315: `q` is the configuration assembled from the
recorded base state and joints, `prev` that of the pass before. `A` is the centroidal momentum matrix. -/
noncomputable def momentumPass (diff : Q → Q → Fin nv → ℝ) (A : Q → Matrix (Fin 6) (Fin nv) ℝ) (t : Nat → ℝ) (qs : Nat → Q) (loop : Nat) (prev : Q) : Q × (Fin 6 → ℝ) :=
  let q := qs loop
  let dq := if loop = 0 then diff q q else (t loop - t (loop - 1))⁻¹ • diff prev q
  (q, A q *ᵥ dq)

/-- The rows written by `calculate_actual_trajectories`, motion_execution.py:291-320, for the first `k` passes, with the
`q_previous` left; `q0` is the configuration of the wrapper before. -/
noncomputable def momentumRows (diff : Q → Q → Fin nv → ℝ) (A : Q → Matrix (Fin 6) (Fin nv) ℝ) (t : Nat → ℝ) (qs : Nat → Q) (q0 : Q) : Nat → Q × List (Fin 6 → ℝ)
  | 0 => (q0, [])
  | k + 1 =>
    let (prev, rows) := momentumRows diff A t qs q0 k
    let (q, m) := momentumPass diff A t qs k prev
    (q, rows ++ [m])

end ExecTune
end Verif
