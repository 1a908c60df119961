import Mathlib.LinearAlgebra.Matrix.PosDef
import Mathlib.Data.Real.Basic

/-!
Model of the first-order inverse kinematics of the Python front end:
/repo/momentumopt/python/momentumopt/kinoptpy/qp.py:17-76 (`QpSolver.quadprog_solve_qp`) and
/repo/momentumopt/python/momentumopt/kinoptpy/inverse_kinematics.py:17-154 (`PointContactInverseKinematics`).

Simplifications: exact reals for floats; `quadprog.solve_qp` is a parameter (`none`: it raises `ValueError`); a matrix of
constraints and its right-hand side are a list of pairs (row, value); the robot (pinocchio) is given by functions of the
configuration; the data of pinocchio are represented by the configuration they were last computed for; the velocity has
`6 + nj` entries. Not modelled: `cvxopt_solve_qp` (its imports are commented out), printing.
-/
namespace Verif
namespace PyIk
open Matrix

/-- Vectors of numpy, used in qp.py:18-79. -/
abbrev Vec (n : Nat) := Fin n → ℝ

/-- A row of a constraint matrix with the entry of the right-hand side (qp.py:18-79). -/
abbrev Row (n : Nat) := Vec n × ℝ

/-- `quadprog.solve_qp(G, a, C, b, meq)[0]`, called in qp.py:62,74,77; the columns of `C` with the entries of `b` are a list. -/
abbrev Quadprog := (n : Nat) → Matrix (Fin n) (Fin n) ℝ → Vec n → List (Row n) → Nat → Option (Vec n)

/-- The constraints of `quadprog`: the first `meq` are equations, the others `C' x ≥ b` (qp.py:18-79). -/
def QFeas {n : Nat} (C : List (Row n)) (meq : Nat) (x : Vec n) : Prop :=
  (∀ r ∈ C.take meq, r.1 ⬝ᵥ x = r.2) ∧ ∀ r ∈ C.drop meq, r.2 ≤ r.1 ⬝ᵥ x

/-- What `quadprog` promises: for a positive definite `G` it returns a minimiser of `1/2 x'Gx - a'x`, unless the constraints
are inconsistent (then it raises) (qp.py:79). -/
def Quadprog.Ok (s : Quadprog) : Prop :=
  ∀ (n : Nat) (G : Matrix (Fin n) (Fin n) ℝ) (a : Vec n) (C : List (Row n)) (meq : Nat), G.PosDef →
    (∀ x, s n G a C meq = some x → QFeas C meq x ∧ ∀ y, QFeas C meq y →
      1 / 2 * (x ⬝ᵥ G *ᵥ x) - a ⬝ᵥ x ≤ 1 / 2 * (y ⬝ᵥ G *ᵥ y) - a ⬝ᵥ y) ∧
    ((∃ y, QFeas C meq y) → s n G a C meq ≠ none)

/-- `-row`, qp.py:62,65,66,70,71. -/
def negRow {n : Nat} (r : Row n) : Row n := (-r.1, -r.2)

/-- `quadprog_solve_qp(P, q, G, h, A, b)`, qp.py:18-77; `G` stands for `(G, h)`, `A` for `(A, b)`. -/
def quadprogSolveQp (s : Quadprog) {n : Nat} (P : Matrix (Fin n) (Fin n) ℝ) (q : Vec n) (G A : Option (List (Row n))) : Option (Vec n) :=
  match G, A with
  | none, some A => s n P (-q) (A.map negRow) A.length
  | some G, some A => s n P (-q) ((A ++ G).map negRow) A.length
  | some G, none => s n P (-q) (G.map negRow) 0
  | none, none => s n P (-q) [] 0

/-! ### inverse_kinematics.py -/

/-- What is read from the robot, as functions of the configuration: centroidal momentum matrix (`data.Ag`), center of mass,
world-oriented translational frame Jacobian (lines 64-67) and position of the end-effectors. -/
structure Robot (Q : Type) (nj : Nat) where
  ne : Nat
  Ag : Q → Nat → Vec (6 + nj)
  com : Q → Nat → ℝ
  jac : Q → Nat → Nat → Vec (6 + nj)
  pos : Q → Nat → Nat → ℝ

/-- Weights and gains, lines 35-44, and `is_init_time`. -/
structure Gains where
  wTrack : ℝ      -- w_endeff_tracking
  wContact : ℝ    -- w_endeff_contact
  wLin : ℝ        -- w_lin_mom_tracking
  wAng : ℝ        -- w_ang_mom_tracking
  wJoint : ℝ      -- w_joint_regularization
  pEff : ℝ        -- p_endeff_tracking
  pCom : ℝ        -- p_com_tracking
  init : Bool     -- is_init_time

/-- The references of `compute`, lines 116-131. -/
structure Ref where
  com : Nat → ℝ
  lmom : Nat → ℝ
  amom : Nat → ℝ
  pos : Nat → Nat → ℝ
  vel : Nat → Nat → ℝ
  contact : Nat → Bool            -- endeff_contact[i] == 1.
  joint : Option (Nat → ℝ)        -- joint_regularization_ref
  flight : Bool                   -- is_flight_phase

variable {Q : Type} {nj : Nat}

namespace Robot

/-- Number of rows of `J`, line 52. -/
def rows (rb : Robot Q nj) : Nat := (rb.ne + 2) * 3 + nj

/-- Row `r` of `J` after `fill_jacobians`, lines 69-75, with the data of configuration `d`. -/
def J (rb : Robot Q nj) (d : Q) (r : Nat) : Vec (6 + nj) :=
  if r < 6 then rb.Ag d r
  else if r < (rb.ne + 2) * 3 then rb.jac d ((r - 6) / 3) ((r - 6) % 3)
  else fun c => if (c : Nat) = 6 + (r - (rb.ne + 2) * 3) then 1 else 0

/-- Entry `r` of `vel_des` after `fill_vel_des`, lines 78-97; `robot.com(q)` is computed for `q`, the positions are those of
the data. -/
def velDes (rb : Robot Q nj) (g : Gains) (q d : Q) (f : Ref) (r : Nat) : ℝ :=
  if r < 3 then f.lmom r + g.pCom * (f.com r - rb.com q r)
  else if r < 6 then f.amom (r - 3)
  else if r < (rb.ne + 2) * 3 then
    let i := (r - 6) / 3
    let k := (r - 6) % 3
    f.vel i k + (if g.init then 1 else g.pEff) * (f.pos i k - rb.pos d i k)
  else match f.joint with
    | none => 0
    | some j => j (r - (rb.ne + 2) * 3)

/-- The diagonal of `w`, `fill_weights`, lines 99-107. -/
def weights (rb : Robot Q nj) (g : Gains) (f : Ref) : List ℝ :=
  [g.wLin, g.wLin, g.wLin] ++ [g.wAng, g.wAng, g.wAng] ++
  ((List.range rb.ne).flatMap fun i => if f.contact i then [g.wContact, g.wContact, g.wContact] else [g.wTrack, g.wTrack, g.wTrack]) ++
  List.replicate nj g.wJoint

/-- `hessian`, lines 145-146: `J' w J + 1e-6 * 1`. -/
noncomputable def hessian (rb : Robot Q nj) (g : Gains) (d : Q) (f : Ref) : Matrix (Fin (6 + nj)) (Fin (6 + nj)) ℝ :=
  Matrix.of fun i j => (∑ r ∈ Finset.range rb.rows, rb.J d r i * (rb.weights g f).getD r 0 * rb.J d r j) + if i = j then 1 / 10 ^ 6 else 0

/-- `gradient`, line 147: `-J' w vel_des`. -/
noncomputable def gradient (rb : Robot Q nj) (g : Gains) (q d : Q) (f : Ref) : Vec (6 + nj) :=
  fun i => -∑ r ∈ Finset.range rb.rows, rb.J d r i * (rb.weights g f).getD r 0 * rb.velDes g q d f r

/-- `mom_ref_air_phase`, lines 80-82: rows of the equality constraint of line 151. -/
def airRows (rb : Robot Q nj) (d : Q) (f : Ref) : List (Row (6 + nj)) :=
  (List.range 6).map fun r => (rb.J d r, if r < 3 then f.lmom r else f.amom (r - 3))

/-- The program solved by `compute` once the data are those of configuration `d`, lines 137-154. -/
noncomputable def solve (rb : Robot Q nj) (s : Quadprog) (g : Gains) (q d : Q) (f : Ref) : Option (Vec (6 + nj)) :=
  if f.flight then quadprogSolveQp s (rb.hessian g d f) (rb.gradient g q d f) none (some (rb.airRows d f))
  else quadprogSolveQp s (rb.hessian g d f) (rb.gradient g q d f) none none

end Robot

/-- The cached part of the object: `last_q` and `last_dq` (lines 46-47), and the configuration the pinocchio data belong to. -/
structure Cache (Q : Type) (nj : Nat) where
  last : Option (Q × Vec (6 + nj))
  data : Q

/-- `forward_robot`, lines 109-117. -/
def Cache.forward (_ : Cache Q nj) (q : Q) (dq : Vec (6 + nj)) : Cache Q nj := ⟨some (q, dq), q⟩

open Classical in
/-- `compute`, lines 119-154: `if not all(last_q == q) or all(last_dq == dq): forward_robot(q, dq)`, then the program. -/
noncomputable def compute (rb : Robot Q nj) (s : Quadprog) (g : Gains) (c : Cache Q nj) (q : Q) (dq : Vec (6 + nj)) (f : Ref) :
    Cache Q nj × Option (Vec (6 + nj)) :=
  let c' := if ¬ (c.last.map Prod.fst = some q) ∨ c.last.map Prod.snd = some dq then c.forward q dq else c
  (c', rb.solve s g q c'.data f)

/-- A call on the object (inverse_kinematics.py:68-135). -/
inductive Call (Q : Type) (nj : Nat) where
  | forward (q : Q) (dq : Vec (6 + nj))
  | compute (g : Gains) (q : Q) (dq : Vec (6 + nj)) (f : Ref)

/-- The effect of a call on the cache (the attributes the user sets are part of the call) (inverse_kinematics.py:68-135). -/
noncomputable def Call.run (rb : Robot Q nj) (s : Quadprog) (c : Cache Q nj) : Call Q nj → Cache Q nj
  | .forward q dq => c.forward q dq
  | .compute g q dq f => (PyIk.compute rb s g c q dq f).1

end PyIk
end Verif
