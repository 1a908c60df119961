import Verif.PyIk

/-!
Model of the first-order branch of `MomentumKinematicsOptimizer`,
/repo/momentumopt/python/momentumopt/kinoptpy/momentum_kinematics_optimizer.py:161-417.

Simplifications: exact reals; pinocchio's `integrate`, `log`, quaternions are functions of the configuration; the reference
trajectories of the end-effectors and joints (lines 230, 336-362; modelled in MinJerk) are given with the plan; a Python
exception is `none`. numpy views are modelled: `lmom_ref = self.lmom_dyn[it]` is a reference to row `it` of the array, and the matrix
`inv_kin.J` keeps the values of the last `compute`. Not modelled: the second-order branch (368-376, see PyIk2), printing and plotting, the copy into the
`KinematicsSequence` (262-273; it stores the same values).
-/
namespace Verif
namespace PyMko
open Matrix PyIk

variable {Q : Type} {nj : Nat}

/-- The robot: what the inverse kinematics reads, the hip frames (207-208), `se3.integrate`, the error of the base orientation
(`se3.log((quad_goal * quad_q.inverse()).matrix())`, lines 306, 396, as function of the goal and the configuration), `q[7:]`. -/
structure Body (Q : Type) (nj : Nat) where
  rb : Robot Q nj
  hipPos : Q → Nat → Nat → ℝ
  hipJac : Q → Nat → Nat → Vec (6 + nj)
  integ : Q → Vec (6 + nj) → Q
  ori : (Nat → ℝ) → Q → Nat → ℝ
  joints : Q → Nat → ℝ

/-- What `optimize` reads: settings, the dynamics sequence, the references of the end-effectors, joints and base (momentum_kinematics_optimizer.py:178-231, 324-420). -/
structure Plan where
  T : Nat                        -- num_time_steps
  dt : ℝ
  weight : ℝ                     -- PlannerDoubleParam_RobotWeight
  regOri : ℝ                     -- reg_orientation
  regJoint : ℝ                   -- reg_joint_position
  com : Nat → Nat → ℝ            -- dynamics_states[it].com
  lmom : Nat → Nat → ℝ
  amom : Nat → Nat → ℝ
  act : Nat → Nat → Bool         -- dynamics_states[it].effActivation(eff)
  pos : Nat → Nat → Nat → ℝ      -- endeff_pos_ref
  vel : Nat → Nat → Nat → ℝ      -- endeff_vel_ref
  contact : Nat → Nat → Bool     -- endeff_contact[it][eff] == 1.
  jointDes : Nat → Nat → ℝ       -- joint_des[:, it]
  baseDes : Nat → Nat → ℝ        -- base_des[:, it]

/-- One row of the results, `fill_kinematic_result`, lines 245-259. -/
structure Rec (Q : Type) (nj : Nat) where
  q : Q
  dq : Vec (6 + nj)
  com : Nat → ℝ
  mom : Nat → ℝ                  -- lmom_kin (0..2), amom_kin (3..5)
  traj : Nat → Nat → ℝ
  vel : Nat → Nat → ℝ
  trajBase : Nat → Nat → ℝ
  velBase : Nat → Nat → ℝ

/-- The state of the loop of lines 378-417: `lref` is the row of `lmom_dyn` the local variable `lmom_ref` refers to (`none`: unbound),
`momFlight` the local variable `mom_ref_flight`, `J` the configuration the matrix `inv_kin.J` was last filled for (`none`: zeros). -/
structure St (Q : Type) (nj : Nat) where
  q : Q
  dq : Vec (6 + nj)
  lmomDyn : Nat → Nat → ℝ
  lref : Option Nat
  momFlight : Option (Nat → ℝ)
  J : Option Q
  cache : Cache Q nj
  recs : List (Rec Q nj)

/-- Row `r` of `inv_kin.J` times `dq` (momentum_kinematics_optimizer.py:254, 406). -/
noncomputable def jDot (rb : Robot Q nj) (J : Option Q) (r : Nat) (dq : Vec (6 + nj)) : ℝ :=
  match J with
  | none => 0
  | some d => rb.J d r ⬝ᵥ dq

/-- `is_flight_phase`, lines 383-388 (for at least one end-effector): no end-effector is active. -/
def Plan.flight (p : Plan) (ne it : Nat) : Bool := (List.range ne).all fun e => !p.act it e

/-- Lines 391, 393: writing through the reference to row `r`. -/
noncomputable def writeFlight (a : Nat → Nat → ℝ) (r : Nat) (m : Nat → ℝ) (p : Plan) : Nat → Nat → ℝ :=
  fun t k => if t = r then (if k < 2 then m k else if k = 2 then a r 2 - p.weight * p.dt else a r k) else a t k

/-- `fill_kinematic_result`, lines 233-259. -/
noncomputable def fillResult (b : Body Q nj) (J : Option Q) (q : Q) (dq : Vec (6 + nj)) : Rec Q nj :=
  let vel := fun i k => jDot b.rb J (6 + (3 * i + k)) dq
  { q := q, dq := dq, com := b.rb.com q, mom := fun k => b.rb.Ag q k ⬝ᵥ dq,
    traj := b.rb.pos q, vel := vel,
    trajBase := fun i k => b.rb.pos q i k - b.hipPos q i k,
    velBase := fun i k => vel i k - b.hipJac q i k ⬝ᵥ dq }

/-- Lines 390-396: the momentum references (`none`: a local variable is unbound). The result is the array `lmom_dyn`, the row `lmom_ref`
refers to and the value of `amom_ref`. -/
noncomputable def momRefs (b : Body Q nj) (p : Plan) (it : Nat) (st : St Q nj) : Option ((Nat → Nat → ℝ) × Nat × (Nat → ℝ)) :=
  if p.flight b.rb.ne it then
    match st.lref, st.momFlight with
    | some r, some m => some (writeFlight st.lmomDyn r m p, r, fun k => m (3 + k))
    | _, _ => none
  else some (st.lmomDyn, it, fun k => p.regOri * b.ori (p.baseDes it) st.q k + p.amom it k)

/-- The references handed to `compute`, lines 398, 410-414. -/
noncomputable def refs (b : Body Q nj) (p : Plan) (it : Nat) (q : Q) (lmom amom : Nat → ℝ) : Ref where
  com := p.com it
  lmom := lmom
  amom := amom
  pos := p.pos it
  vel := p.vel it
  contact := p.contact it
  joint := some fun j => p.regJoint * (p.jointDes it j - b.joints q j)
  flight := p.flight b.rb.ne it

/-- One pass of the loop, lines 379-417. -/
noncomputable def step (b : Body Q nj) (s : Quadprog) (g : Gains) (p : Plan) (it : Nat) (st : St Q nj) : Option (St Q nj) :=
  if b.rb.ne = 0 then none else
  match momRefs b p it st with
  | none => none
  | some (arr, r, am) =>
    let cache := st.cache.forward st.q st.dq
    let rec' := fillResult b st.J st.q st.dq
    let mf := if p.flight b.rb.ne it then st.momFlight else some fun k => jDot b.rb st.J k st.dq
    let res := compute b.rb s g cache st.q st.dq (refs b p it st.q (arr r) am)
    match res.2 with
    | none => none
    | some dq => some ⟨b.integ st.q (fun c => dq c * p.dt), dq, arr, some r, mf, some res.1.data, res.1, st.recs ++ [rec']⟩

/-- The first `n` passes of the loop of line 378. -/
noncomputable def loop (b : Body Q nj) (s : Quadprog) (g : Gains) (p : Plan) (st : St Q nj) : Nat → Option (St Q nj)
  | 0 => some st
  | n + 1 => (loop b s g p st n).bind (step b s g p n)

/-! ### The initial configuration -/

/-- What `optimize_initial_position` reads from the initial state: center of mass and end-effector positions (lines 292, 296). -/
structure Init where
  com : Nat → ℝ
  pos : Nat → Nat → ℝ

/-- The references of lines 292-309 at configuration `q`. -/
noncomputable def initRefs (b : Body Q nj) (i : Init) (q : Q) : Ref where
  com := i.com
  lmom := fun _ => 0
  amom := fun k => 1 / 10 * b.ori (fun _ => 0) q k
  pos := i.pos
  vel := fun _ _ => 0
  contact := fun _ => true
  joint := none
  flight := false

/-- The outcome of the loop of lines 302-314: configuration, cache, `iters` (`none`: unbound) and whether "Found" was printed. -/
structure InitRes (Q : Type) (nj : Nat) where
  q : Q
  cache : Cache Q nj
  J : Option Q
  iters : Option Nat
  found : Bool

/-- Lines 302-314 with `n` passes left, the next one being pass `k`; `np.linalg.norm(res) < 1e-3`. -/
noncomputable def initLoop (b : Body Q nj) (s : Quadprog) (g : Gains) (i : Init) : Nat → Nat → InitRes Q nj → Option (InitRes Q nj)
  | 0, _, r => some r
  | n + 1, k, r =>
    let res := compute b.rb s g r.cache r.q 0 (initRefs b i r.q)
    match res.2 with
    | none => none
    | some dq =>
      let r' : InitRes Q nj := ⟨b.integ r.q dq, res.1, some res.1.data, some k, false⟩
      if ∑ c, dq c ^ 2 < (1 / 10 ^ 3) ^ 2 then some { r' with found := true } else initLoop b s g i n (k + 1) r'

/-- `optimize_initial_position`, lines 276-322, from the configuration `q0` built in lines 278-300. Result: `q_init`, cache, `J`, whether
"Found" and whether "Failed to converge" was printed. -/
noncomputable def initPos (b : Body Q nj) (s : Quadprog) (g : Gains) (maxIter : Nat) (i : Init) (q0 : Q) (c : Cache Q nj) (J : Option Q) :
    Option (InitRes Q nj × Bool) :=
  match initLoop b s g i maxIter 0 ⟨q0, c, J, none, false⟩ with
  | none => none
  | some r =>
    match r.iters with
    | none => none
    | some k => some (r, decide (k = maxIter - 1))

/-! ### The object -/

/-- The attributes that survive from one `optimize` to the next: `q_init` (with `dq_init = 0`), the cache and `J` of `inv_kin`, `lmom_dyn` (momentum_kinematics_optimizer.py:162-176). -/
structure Obj (Q : Type) (nj : Nat) where
  qInit : Option Q
  cache : Cache Q nj
  J : Option Q
  lmomDyn : Nat → Nat → ℝ

/-- `optimize(init_state, contact_sequence, dynamic_sequence)`, lines 324-417: the object afterwards and the results. `start` gives the
configuration of lines 278-300 for the initial state; `p` gives the references, which lines 337-362 compute from `q_init`. -/
noncomputable def optimize (b : Body Q nj) (s : Quadprog) (g : Gains) (maxIter : Nat) (start : Init → Q) (o : Obj Q nj) (i : Init) (p : Q → Plan) :
    Option (Obj Q nj × List (Rec Q nj)) :=
  let first : Option (Obj Q nj × Q) := match o.qInit with
    | some q => some (o, q)
    | none => match initPos b s { g with init := true } maxIter i (start i) o.cache o.J with
      | none => none
      | some (r, _) => some (⟨some r.q, r.cache, r.J, o.lmomDyn⟩, r.q)
  match first with
  | none => none
  | some (o, q) =>
    match loop b s { g with init := false } (p q) ⟨q, 0, (p q).lmom, none, none, o.J, o.cache, []⟩ (p q).T with
    | none => none
    | some st => some (⟨some q, st.cache, st.J, st.lmomDyn⟩, st.recs)

end PyMko
end Verif
