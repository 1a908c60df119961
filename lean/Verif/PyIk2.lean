import Verif.PyMko
import Mathlib.Algebra.Order.Archimedean.Real.Basic
import Mathlib.Algebra.Order.Floor.Semiring

/-!
Model of the second-order inverse kinematics of the Python front end,
/repo/momentumopt/python/momentumopt/kinoptpy/second_order_ik.py:15-255 (`SecondOrderInverseKinematics`), and of its use in
`MomentumKinematicsOptimizer.optimize`, momentum_kinematics_optimizer.py:368-376.

Simplifications: exact reals; `quadprog.solve_qp` and `scipy.linalg.pinv` are parameters; the robot (pinocchio) is given by functions of configuration and
velocity; the cubic splines of the references are given functions of time; a Python exception is `none`. `self.robot.data.hg`, left by
`computeCentroidalMapTimeVariation`, is the momentum matrix times the velocity.
-/
namespace Verif
namespace PyIk2
open Matrix PyIk

variable {Q O : Type} {nj : Nat}

/-- The robot: in addition to what the first-order inverse kinematics reads, the products of the time derivatives of the momentum matrix and of the end-effector
Jacobians with the velocity (second_order_ik.py:134-140), `log3(base_orien.T @ orien_ref)` (86-87) and `q[7:]`. -/
structure Robot2 (Q O : Type) (nj : Nat) where
  rb : Robot Q nj
  dAg : Q → Vec (6 + nj) → Nat → ℝ
  djac : Q → Vec (6 + nj) → Nat → Nat → ℝ
  ori : O → Q → Nat → ℝ
  joints : Q → Nat → ℝ
  integ : Q → Vec (6 + nj) → Q

/-- Weights and gains, second_order_ik.py:36-51; the weights and `p_endeff_tracking`, `p_com_tracking` are those of `Gains`. -/
structure Gains2 extends Gains where
  dEff : ℝ         -- d_endeff_tracking
  pOri : ℝ
  dOri : ℝ
  pMom : Nat → ℝ
  pJoint : ℝ
  dJoint : ℝ

/-- The references of `step`, second_order_ik.py:145-147; `mom_ref` is the pair `lmom`, `amom`, `dmom` its derivative; `flight` is not used. -/
structure Ref2 (O : Type) extends Ref where
  ori : O
  dmom : Nat → ℝ
  acc : Nat → Nat → ℝ

/-- Row `r` of `desired_acceleration` after `update_des_acc`, second_order_ik.py:73-103. -/
noncomputable def desAcc (b : Robot2 Q O nj) (g : Gains2) (q : Q) (dq : Vec (6 + nj)) (f : Ref2 O) (r : Nat) : ℝ :=
  if r < 3 then f.dmom r + g.pMom r * (f.lmom r - b.rb.Ag q r ⬝ᵥ dq) + g.pCom * (f.com r - b.rb.com q r)
  else if r < 6 then
    f.dmom r + g.pMom r * (f.amom (r - 3) - b.rb.Ag q r ⬝ᵥ dq) + (g.pOri * b.ori f.ori q (r - 3) - g.dOri * (if h : r < 6 + nj then dq ⟨r, h⟩ else 0))
  else if r < (b.rb.ne + 2) * 3 then
    let i := (r - 6) / 3
    let k := (r - 6) % 3
    g.pEff * (f.pos i k - b.rb.pos q i k) + g.dEff * (f.vel i k - b.rb.J q r ⬝ᵥ dq) + f.acc i k
  else match f.joint with
    | none => 0
    | some j => g.pJoint * (j (r - (b.rb.ne + 2) * 3) - b.joints q (r - (b.rb.ne + 2) * 3)) +
        -g.dJoint * (if h : 6 + (r - (b.rb.ne + 2) * 3) < 6 + nj then dq ⟨_, h⟩ else 0)

/-- Row `r` of `drift_terms`, second_order_ik.py:134-142. -/
def drift (b : Robot2 Q O nj) (q : Q) (dq : Vec (6 + nj)) (r : Nat) : ℝ :=
  if r < 6 then b.dAg q dq r else if r < (b.rb.ne + 2) * 3 then b.djac q dq ((r - 6) / 3) ((r - 6) % 3) else 0

/-- The weighted branch of `step`, second_order_ik.py:177-181; `fill_weights` (105-113) builds the same matrix as in the first-order class. -/
noncomputable def stepWeighted (b : Robot2 Q O nj) (s : Quadprog) (g : Gains2) (q : Q) (dq : Vec (6 + nj)) (f : Ref2 O) : Option (Vec (6 + nj)) :=
  quadprogSolveQp s (b.rb.hessian g.toGains q f.toRef)
    (fun i => -∑ r ∈ Finset.range b.rb.rows, b.rb.J q r i * (b.rb.weights g.toGains f.toRef).getD r 0 * (desAcc b g q dq f r - drift b q dq r)) none none

/-- `scipy.linalg.pinv`, second_order_ik.py:167,171. -/
abbrev Pinv := (m n : Nat) → Matrix (Fin m) (Fin n) ℝ → Matrix (Fin n) (Fin m) ℝ

/-- Number of rows of the slice `J[6:18]`, second_order_ik.py:166. -/
def feetRows (b : Robot2 Q O nj) : Nat := min 18 b.rb.rows - 6

/-- `J_feet`, second_order_ik.py:166. -/
def jFeet (b : Robot2 Q O nj) (q : Q) : Matrix (Fin (feetRows b)) (Fin (6 + nj)) ℝ := Matrix.of fun r c => b.rb.J q (6 + r) c

/-- `J_rest`, second_order_ik.py:170. -/
def jRest (b : Robot2 Q O nj) (q : Q) : Matrix (Fin 6) (Fin (6 + nj)) ℝ := Matrix.of fun r c => b.rb.J q r c

/-- The hierarchical branch of `step`, second_order_ik.py:165-175. -/
noncomputable def stepHierarchy (b : Robot2 Q O nj) (pinv : Pinv) (g : Gains2) (q : Q) (dq : Vec (6 + nj)) (f : Ref2 O) : Vec (6 + nj) :=
  let F := jFeet b q
  let Fp := pinv _ _ F
  let ddqFeet := Fp *ᵥ fun r => desAcc b g q dq f (6 + r) - drift b q dq (6 + r)
  let N := 1 - Fp * F
  let R := jRest b q
  let Rp := pinv _ _ (R * N)
  let rest : Vec 6 := (fun r : Fin 6 => desAcc b g q dq f r - drift b q dq r) - R *ᵥ ddqFeet
  ddqFeet + Rp *ᵥ rest

/-- `step`, second_order_ik.py:145-181; `hier` is `use_hierarchy`. -/
noncomputable def step (b : Robot2 Q O nj) (s : Quadprog) (pinv : Pinv) (hier : Bool) (g : Gains2) (q : Q) (dq : Vec (6 + nj)) (f : Ref2 O) : Option (Vec (6 + nj)) :=
  if hier then some (stepHierarchy b pinv g q dq f) else stepWeighted b s g q dq f

/-! ### solve -/

/-- State of the loops of `solve`, second_order_ik.py:210-242: configuration, velocity, time, and the local variable `ddq` (`none`: unbound). -/
structure SSt (Q : Type) (nj : Nat) where
  q : Q
  dq : Vec (6 + nj)
  t : ℝ
  ddq : Option (Vec (6 + nj))

/-- One pass of the inner loop, second_order_ik.py:228-242; `ref it t` are the references: the splines at `t` and `endeff_contact[it]`. -/
noncomputable def inner (b : Robot2 Q O nj) (s : Quadprog) (pinv : Pinv) (hier : Bool) (g : Gains2) (ref : Nat → ℝ → Ref2 O) (it : Nat) (x : SSt Q nj) : Option (SSt Q nj) :=
  match step b s pinv hier g x.q x.dq (ref it x.t) with
  | none => none
  | some ddq =>
    let dq : Vec (6 + nj) := fun c => x.dq c + ddq c * (1 / 1000)
    some ⟨b.integ x.q (fun c => dq c * (1 / 1000)), dq, x.t + 1 / 1000, some ddq⟩

/-- `k` passes of the inner loop, second_order_ik.py:228-242. -/
noncomputable def inners (b : Robot2 Q O nj) (s : Quadprog) (pinv : Pinv) (hier : Bool) (g : Gains2) (ref : Nat → ℝ → Ref2 O) (it : Nat) (x : SSt Q nj) : Nat → Option (SSt Q nj)
  | 0 => some x
  | k + 1 => (inners b s pinv hier g ref it x k).bind (inner b s pinv hier g ref it)

/-- `inner_steps`, second_order_ik.py:198 (`int` truncates; `dt` is not negative). -/
noncomputable def innerSteps (dt : ℝ) : Nat := ⌊dt / (1 / 1000)⌋₊

/-- A row of the results, second_order_ik.py:215-222 and 245-253. -/
structure Row2 (Q : Type) (nj : Nat) where
  q : Q
  dq : Vec (6 + nj)
  com : Nat → ℝ
  mom : Nat → ℝ
  pos : Nat → Nat → ℝ
  vel : Nat → Nat → ℝ

/-- Recording a row, second_order_ik.py:213-222 and 243-253: after `update_kinematics(q, dq)` all data belong to `q` and `dq`. -/
noncomputable def record (b : Robot2 Q O nj) (q : Q) (dq : Vec (6 + nj)) : Row2 Q nj :=
  ⟨q, dq, b.rb.com q, fun r => b.rb.Ag q r ⬝ᵥ dq, b.rb.pos q, fun i k => b.rb.J q (6 + (3 * i + k)) ⬝ᵥ dq⟩

/-- The state and the rows after the passes `1 .. n` of the outer loop, second_order_ik.py:227-253; line 247 reads `ddq`. -/
noncomputable def outer (b : Robot2 Q O nj) (s : Quadprog) (pinv : Pinv) (hier : Bool) (g : Gains2) (ref : Nat → ℝ → Ref2 O) (dt : ℝ) (q0 : Q) (dq0 : Vec (6 + nj)) :
    Nat → Option (SSt Q nj × List (Row2 Q nj))
  | 0 => some (⟨q0, dq0, 0, none⟩, [record b q0 dq0])
  | n + 1 =>
    match outer b s pinv hier g ref dt q0 dq0 n with
    | none => none
    | some (x, rows) =>
      match inners b s pinv hier g ref (n + 1) x (innerSteps dt) with
      | none => none
      | some y => if y.ddq = none then none else some (y, rows ++ [record b y.q y.dq])

/-- `solve`, second_order_ik.py:183-255, for a positive number of time steps. -/
noncomputable def solve (b : Robot2 Q O nj) (s : Quadprog) (pinv : Pinv) (hier : Bool) (g : Gains2) (ref : Nat → ℝ → Ref2 O) (dt : ℝ) (T : Nat) (q0 : Q) (dq0 : Vec (6 + nj)) :
    Option (List (Row2 Q nj)) := (outer b s pinv hier g ref dt q0 dq0 (T - 1)).map Prod.snd

/-- Recording the rows again, momentum_kinematics_optimizer.py:374-376, with `fill_kinematic_result`; `forward_robot` does not touch `inv_kin.J`, whose values are those of the last
`compute` (`J`). -/
noncomputable def refill (b : PyMko.Body Q nj) (J : Option Q) (rows : List (Row2 Q nj)) : List (PyMko.Rec Q nj) := rows.map fun r => PyMko.fillResult b J r.q r.dq

/-- `optimize` with `use_second_order_inv_kin`, momentum_kinematics_optimizer.py:324-376: the initial configuration and the results. `ref q` are the references of `solve`, built from the
initial configuration (337-362); time step and number of steps are `dt` and `T`. -/
noncomputable def optimize2 (b : PyMko.Body Q nj) (b2 : Robot2 Q O nj) (s : Quadprog) (pinv : Pinv) (hier : Bool) (g : Gains) (g2 : Gains2) (maxIter : Nat) (start : PyMko.Init → Q)
    (o : PyMko.Obj Q nj) (i : PyMko.Init) (ref : Q → Nat → ℝ → Ref2 O) (dt : ℝ) (T : Nat) : Option (Q × List (PyMko.Rec Q nj)) :=
  let first : Option (Q × Option Q) := match o.qInit with
    | some q => some (q, o.J)
    | none => match PyMko.initPos b s { g with init := true } maxIter i (start i) o.cache o.J with
      | none => none
      | some (r, _) => some (r.q, r.J)
  match first with
  | none => none
  | some (q, J) => (solve b2 s pinv hier g2 (ref q) dt T q 0).map fun rows => (q, refill b J rows)

end PyIk2
end Verif
