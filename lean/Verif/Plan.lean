import Verif.Cont
import Mathlib.Algebra.BigOperators.Fin
import Mathlib.Algebra.BigOperators.Group.Finset.Basic

/-!
Model of the Python layer around the optimisers: the bindings of the dynamics state (/repo/momentumopt/srcpy/momentumopt/dynopt/PyDynamics.cpp), `MotionPlanner.optimize_motion`
(/repo/momentumopt/python/momentumopt/motion_planner.py), `parse_arguments` (/repo/momentumopt/python/momentumopt/kino_dyn_planner.py), the robot wrappers
(/repo/momentumopt/python/momentumopt/robots/blmc_robot_wrapper.py), `PinocchioKinematicsInterface.py`, the force bookkeeping of `MotionExecutor.execute_motion` (motion_execution.py) and the helpers
`quat2mat` (helpers.py) and `norm` (kinoptpy/utils.py).

Simplifications: exact reals; the two optimisers are arbitrary functions of what they are given and of their own state; the kinematics of the robot (pinocchio) are arbitrary functions of the configuration;
strings are lists of characters; printing, plotting and the viewer are not modelled. `getopt` of the Python library is modelled as it is external.
-/
namespace Verif
namespace Plan
open Matrix

/-! ### Bindings of the dynamics state -/

/-- The part of `DynamicsState` that the end-effector methods bound in PyDynamics.cpp:51-71 read and write. -/
structure DynS where
  /-- `eff_positions_`. -/
  pos : Nat → Fin 3 → ℝ
  /-- `eff_forces_`. -/
  frc : Nat → Fin 3 → ℝ
  /-- `eff_torques_`. -/
  trq : Nat → Fin 3 → ℝ
  /-- `eff_activations_`. -/
  act : Nat → Bool

/-- `setEffPosition`, PyDynamics.cpp:22-24. -/
def DynS.setPos (s : DynS) (e : Nat) (v : Fin 3 → ℝ) : DynS := { s with pos := Function.update s.pos e v }

/-- `setEffForce`, PyDynamics.cpp:25-27. -/
def DynS.setFrc (s : DynS) (e : Nat) (v : Fin 3 → ℝ) : DynS := { s with frc := Function.update s.frc e v }

/-- `setEffTorque`, PyDynamics.cpp:28-30: it assigns the position. -/
def DynS.setTrq (s : DynS) (e : Nat) (v : Fin 3 → ℝ) : DynS := { s with pos := Function.update s.pos e v }

/-- `setEffActivation`, PyDynamics.cpp:31-33. -/
def DynS.setAct (s : DynS) (e : Nat) (b : Bool) : DynS := { s with act := Function.update s.act e b }

/-! ### Alternation of dynamics and kinematics -/

/-- The planner of motion_planner.py:34-71 as far as `optimize_motion` uses it: `K` and `D` are what the two optimisers hold, `F` the feedback. -/
structure Planner (K D F : Type) where
  /-- `dyn_optimizer.optimize(ini_state, contact_plan, kinematics_sequence, update)`. -/
  dynOpt : K → Bool → D → D
  /-- `kin_optimizer.optimize(ini_state, contact_sequence, dynamics_sequence)`. -/
  kinOpt : D → K → K
  /-- `dynamics_feedback.optimize(ini_state, dynamics_sequence)`. -/
  feedback : D → F

/-- What the planner object holds (motion_planner.py:34-71). -/
structure PState (K D F : Type) where
  /-- `kin_optimizer`. -/
  kin : K
  /-- `dyn_optimizer`. -/
  dyn : D
  /-- `dynamics_feedback`. -/
  fb : Option F

variable {K D F : Type}

/-- `optimize_dynamics`, motion_planner.py:121-126. -/
def Planner.optDyn (p : Planner K D F) (i : Nat) (s : PState K D F) : PState K D F := { s with dyn := p.dynOpt s.kin (decide (0 < i)) s.dyn }

/-- `optimize_kinematics`, motion_planner.py:128-133. -/
def Planner.optKin (p : Planner K D F) (s : PState K D F) : PState K D F := { s with kin := p.kinOpt s.dyn s.kin }

/-- The loop of `optimize_motion`, motion_planner.py:351-353, `r` rounds from `i` on. -/
def Planner.rounds (p : Planner K D F) : Nat → Nat → PState K D F → PState K D F
  | 0, _, s => s
  | r + 1, i, s => p.rounds r (i + 1) (p.optDyn (i + 1) (p.optKin s))

/-- `optimize_motion`, motion_planner.py:347-367; the state at the end is what is returned. -/
def Planner.optimizeMotion (p : Planner K D F) (n : Nat) (withLqr : Bool) (s : PState K D F) : PState K D F :=
  let s := p.rounds n 0 (p.optDyn 0 s)
  if withLqr then { s with fb := some (p.feedback s.dyn) } else s

/-! ### Command line -/

/-- `getopt.short_has_arg` of the Python library for the options `"hi:m"` of kino_dyn_planner.py:31. -/
def shortHasArg (c : Char) : Option Bool := if c = 'h' then some false else if c = 'i' then some true else if c = 'm' then some false else none

/-- The long options of kino_dyn_planner.py:31. -/
def longOpts : List (List Char) := ["ifile=".toList, "solo12".toList, "bolt".toList, "disable_lqr".toList]

/-- `getopt.long_has_args` of the Python library (used in kino_dyn_planner.py:31). -/
def longHasArgs (opt : List Char) : Option (Bool × List Char) :=
  let poss := longOpts.filter fun o => opt.isPrefixOf o
  if poss = [] then none
  else if opt ∈ poss then some (false, opt)
  else if opt ++ ['='] ∈ poss then some (true, opt)
  else if 1 < poss.length then none
  else
    let m := poss.headD []
    if m.getLast? = some '=' then some (true, m.dropLast) else some (false, m)

/-- An option with its argument (kino_dyn_planner.py:31). -/
abbrev Opt := List Char × List Char

/-- `getopt.do_shorts` (used in kino_dyn_planner.py:31). -/
def doShorts : List Char → List (List Char) → List Opt → Option (List Opt × List (List Char))
  | [], args, opts => some (opts, args)
  | c :: rest, args, opts =>
    match shortHasArg c with
    | none => none
    | some false => doShorts rest args (opts ++ [(['-', c], [])])
    | some true =>
      if rest = [] then
        match args with
        | [] => none
        | a :: args => some (opts ++ [(['-', c], a)], args)
      else some (opts ++ [(['-', c], rest)], args)

/-- `getopt.do_longs` (used in kino_dyn_planner.py:31). -/
def doLongs (s : List Char) (args : List (List Char)) (opts : List Opt) : Option (List Opt × List (List Char)) :=
  let opt := s.takeWhile (· ≠ '=')
  let optarg : Option (List Char) := if '=' ∈ s then some ((s.dropWhile (· ≠ '=')).drop 1) else none
  match longHasArgs opt with
  | none => none
  | some (true, o) =>
    match optarg with
    | some a => some (opts ++ [('-' :: '-' :: o, a)], args)
    | none =>
      match args with
      | [] => none
      | a :: args => some (opts ++ [('-' :: '-' :: o, a)], args)
  | some (false, o) =>
    match optarg with
    | some _ => none
    | none => some (opts ++ [('-' :: '-' :: o, [])], args)

/-- `getopt.getopt` with fuel; every pass consumes an argument, so the number of arguments suffices. `none`: `GetoptError` (used in kino_dyn_planner.py:31). -/
def getopt : Nat → List (List Char) → List Opt → Option (List Opt)
  | 0, _, opts => some opts
  | _ + 1, [], opts => some opts
  | fuel + 1, a :: args, opts =>
    match a with
    | '-' :: '-' :: [] => some opts
    | '-' :: '-' :: s => (doLongs s args opts).bind fun r => getopt fuel r.2 r.1
    | '-' :: c :: s => (doShorts (c :: s) args opts).bind fun r => getopt fuel r.2 r.1
    | _ => some opts

/-- The robots of kino_dyn_planner.py:24. -/
inductive Robot
  /-- `QuadrupedWrapper`. -/
  | solo8
  /-- `Quadruped12Wrapper`. -/
  | solo12
  /-- `BipedWrapper`. -/
  | bolt
  deriving DecidableEq

/-- How `parse_arguments` ends (kino_dyn_planner.py:28-58). -/
inductive Parsed
  /-- `sys.exit(2)`. -/
  | badUsage
  /-- `sys.exit()` after `-h`. -/
  | help
  /-- `RuntimeError`: the file does not exist. -/
  | noFile
  /-- The values returned. -/
  | ok (cfg : List Char) (robot : Robot) (lqr : Bool)

/-- Python's `a in b` for strings (used in kino_dyn_planner.py:45-50). -/
def substr (a b : List Char) : Bool := b.tails.any fun t => a.isPrefixOf t

/-- The loop over the options, kino_dyn_planner.py:39-50: `opt in ("--solo12")` compares with a string, not a tuple. -/
def parseLoop : List Opt → List Char → Robot → Bool → Option (List Char × Robot × Bool)
  | [], cfg, r, l => some (cfg, r, l)
  | (o, a) :: rest, cfg, r, l =>
    if o = "-h".toList then none
    else if o = "-i".toList ∨ o = "--ifile".toList then parseLoop rest a r l
    else if substr o "--solo12".toList then parseLoop rest cfg .solo12 l
    else if substr o "--bolt".toList then parseLoop rest cfg .bolt l
    else if substr o "--disable_lqr".toList then parseLoop rest cfg r false
    else parseLoop rest cfg r l

/-- `parse_arguments`, kino_dyn_planner.py:28-58. -/
def parseArguments (fileExists : List Char → Bool) (argv : List (List Char)) : Parsed :=
  match getopt argv.length argv [] with
  | none => .badUsage
  | some opts =>
    match parseLoop opts [] .solo8 false with
    | none => .help
    | some (cfg, r, l) => if fileExists cfg then .ok cfg r l else .noFile

/-! ### Robot wrappers -/

/-- numpy's `a[start:stop:step] = v` (used in blmc_robot_wrapper.py:203-206, 250-254, 298-302). -/
def setSlice (start stop step : Nat) (v : ℝ) (a : Nat → ℝ) : Nat → ℝ := fun i => if start ≤ i ∧ i < stop ∧ (i - start) % step = 0 then v else a i

/-- The joints of `QuadrupedWrapper.set_init_config`, blmc_robot_wrapper.py:203-206; `angle` is 60 degrees. -/
noncomputable def init8 (angle : ℝ) : Nat → ℝ := setSlice 0 8 2 (-(1 / 2) * angle) (setSlice 0 8 1 angle fun _ => 0)

/-- The joints of `set_init_config` of the other wrappers, blmc_robot_wrapper.py:250-254, 298-302; `n` joints. -/
noncomputable def init3 (n : Nat) (angle : ℝ) : Nat → ℝ := setSlice 1 3 1 (-(1 / 2) * angle) (setSlice 2 n 3 angle fun _ => 0)

/-- The kinematics of a frame as pinocchio computes them (used in blmc_robot_wrapper.py:44-120). -/
structure Frame (Q : Type) (nv : Nat) where
  /-- Rotation of the frame. -/
  rot : Q → Matrix (Fin 3) (Fin 3) ℝ
  /-- Position of the frame. -/
  trans : Q → Fin 3 → ℝ
  /-- `getFrameJacobian(…, LOCAL)`: first the linear rows, then the angular ones. -/
  jacLocal : Q → Matrix (Fin 3 ⊕ Fin 3) (Fin nv) ℝ

/-- `BasicRobotWrapper`, blmc_robot_wrapper.py:19-28, with the placement of the frame kept in `data.oMf`. -/
structure Wrapper (Q : Type) where
  /-- `self.q`. -/
  q : Q
  /-- The configuration `data.oMf` was computed for. -/
  oMf : Q

variable {Q : Type} {nv : Nat}

/-- `set_configuration`, blmc_robot_wrapper.py:26-28: `pinocchio.forwardKinematics` updates the joints, not the frames. -/
def Wrapper.setConfiguration (w : Wrapper Q) (q : Q) : Wrapper Q := { w with q := q }

/-- `get_world_oriented_frame_jacobian`, blmc_robot_wrapper.py:44-50: the frames are updated; `action` of a rotation without translation is block diagonal. -/
def Wrapper.worldJac (f : Frame Q nv) (w : Wrapper Q) : Wrapper Q × Matrix (Fin 3 ⊕ Fin 3) (Fin nv) ℝ :=
  ({ w with oMf := w.q }, Matrix.fromBlocks (f.rot w.q) 0 0 (f.rot w.q) * f.jacLocal w.q)

/-- `get_jacobian(name, "TRANSLATION")()`, blmc_robot_wrapper.py:52-79. -/
def Wrapper.jacTrans (f : Frame Q nv) (w : Wrapper Q) : Wrapper Q × Matrix (Fin 3) (Fin nv) ℝ := let r := w.worldJac f; (r.1, fun i => r.2 (Sum.inl i))

/-- `get_jacobian(name, "ROTATION")()`, blmc_robot_wrapper.py:52-79. -/
def Wrapper.jacRot (f : Frame Q nv) (w : Wrapper Q) : Wrapper Q × Matrix (Fin 3) (Fin nv) ℝ := let r := w.worldJac f; (r.1, fun i => r.2 (Sum.inr i))

/-- `get_jacobian(name, "TRANSLATION", internal=False)(q)`, blmc_robot_wrapper.py:79-87: the argument is not used. -/
def Wrapper.jacTransAt (f : Frame Q nv) (w : Wrapper Q) (_q : Q) : Matrix (Fin 3) (Fin nv) ℝ := fun i => (w.worldJac f).2 (Sum.inl i)

/-- `get_transformation(name, "TRANSLATION")()`, blmc_robot_wrapper.py:105-120. -/
def Wrapper.position (f : Frame Q nv) (w : Wrapper Q) : Fin 3 → ℝ := f.trans w.oMf

/-! ### Interface of the C++ kinematics optimiser to pinocchio -/

/-- How an attribute of a class is bound by pybind11 (PyKinematics.cpp:33-94). -/
inductive Bound
  /-- `def_property` or `def_property_readonly`: the attribute is the value. -/
  | value
  /-- `def`: the attribute is called. -/
  | method

/-- Python errors met here (PinocchioKinematicsInterface.py:47-80). -/
inductive PyErr
  /-- The value of an attribute is called. -/
  | typeError
  /-- No such attribute. -/
  | attributeError

/-- How the attributes of `RobotPosture` are bound, PyKinematics.cpp:33-38. -/
def postureAttr (name : String) : Option Bound :=
  if name = "generalized_joint_positions" ∨ name = "base_position" ∨ name = "base_orientation" ∨ name = "joint_positions" then some .value else none

/-- `posture.name()`: looking the attribute up and calling it (used in PinocchioKinematicsInterface.py:51). -/
def callAttr {α : Type} (name : String) (v : α) : Except PyErr α :=
  match postureAttr name with
  | some .method => .ok v
  | some .value => .error .typeError
  | none => .error .attributeError

/-- The Python object with the C++ part that is set through bound properties, PyKinematics.cpp:89-94, and its own dictionary. -/
structure PyObj (nv : Nat) where
  /-- `constraints_vector_` of the C++ object. -/
  vec : List ℝ
  /-- `constraints_matrix_` of the C++ object, by rows. -/
  mat : List (Fin nv → ℝ)
  /-- Vectors in the dictionary of the Python object. -/
  dictVec : String → Option (List ℝ)
  /-- Matrices in the dictionary of the Python object. -/
  dictMat : String → Option (List (Fin nv → ℝ))

/-- `self.name = v` for a vector: a bound name sets the C++ object, any other name the dictionary (used in PinocchioKinematicsInterface.py:78). -/
def PyObj.setVec (o : PyObj nv) (name : String) (v : List ℝ) : PyObj nv :=
  if name = "constraints_vector" then { o with vec := v } else { o with dictVec := Function.update o.dictVec name (some v) }

/-- `self.name = v` for a matrix (used in PinocchioKinematicsInterface.py:77). -/
def PyObj.setMat (o : PyObj nv) (name : String) (v : List (Fin nv → ℝ)) : PyObj nv :=
  if name = "constraints_matrix" then { o with mat := v } else { o with dictMat := Function.update o.dictMat name (some v) }

/-- The constraint rows computed in PinocchioKinematicsInterface.py:72-77: third row of the local jacobian times `-dt`. -/
def floorRow (f : Frame Q nv) (q : Q) (dt : ℝ) : Fin nv → ℝ := fun k => -(f.jacLocal q (Sum.inl 2) k) * dt

/-- The right hand side of such a row, PinocchioKinematicsInterface.py:76,78. -/
def floorRhs (f : Frame Q nv) (q : Q) (zFloor : ℝ) : ℝ := f.trans q 2 - zFloor

/-- The end of `updateJacobiansAndState`, PinocchioKinematicsInterface.py:77-78: the attributes assigned are `constraintsMatrix` and `constraintsVector`. -/
def assignConstraints (o : PyObj nv) (frames : List (Frame Q nv)) (q : Q) (dt zFloor : ℝ) : PyObj nv :=
  (o.setMat "constraintsMatrix" (frames.map fun f => floorRow f q dt)).setVec "constraintsVector" (frames.map fun f => floorRhs f q zFloor)

/-- `updateJacobiansAndState`, PinocchioKinematicsInterface.py:47-80, as far as the constraints: line 51 calls `generalized_joint_positions`. -/
def updateJacobiansAndState (o : PyObj nv) (frames : List (Frame Q nv)) (q : Q) (dt zFloor : ℝ) : Except PyErr (PyObj nv) :=
  (callAttr "generalized_joint_positions" q).map fun q => assignConstraints o frames q dt zFloor

/-- The C++ object after `internalInitialization`, KinematicsInterface.cpp:14-30: the constraints are not touched and empty. -/
def PyObj.fresh (nv : Nat) : PyObj nv := ⟨[], [], fun _ => none, fun _ => none⟩

/-! ### Execution -/

/-- The planned and feedback forces as torques in one pass of motion_execution.py:447-478: first the jacobians at `self.robot.q` (lines 449-455), then, with feedback, `calculate_momentum` sets
`self.robot.q` to the measured configuration (line 470 with 329). Returns the robot wrapper and the configuration the jacobians belong to. -/
def execPass (feedback : Bool) (robotQ measured : Q) : Q × Q := (if feedback then measured else robotQ, robotQ)

/-- The configuration the jacobians of pass `n` belong to, for the measured configurations `m` and the configuration `q0` of the wrapper before the loop (motion_execution.py:422-480). -/
def execRobotQ (feedback : Bool) (m : Nat → Q) (q0 : Q) : Nat → Q
  | 0 => q0
  | n + 1 => (execPass feedback (execRobotQ feedback m q0 n) (m n)).1

/-- The torque term of motion_execution.py:478 for one end-effector: `Jᵀ F`, all entries. -/
def forceTorque (f : Frame Q nv) (q : Q) (F : Fin 3 → ℝ) : Fin nv → ℝ := fun k => ∑ i, ((⟨q, q⟩ : Wrapper Q).jacTrans f).2 i k * F i

/-- The feet (motion_execution.py:267-270). -/
inductive Foot
  /-- Front right. -/
  | FR
  /-- Front left. -/
  | FL
  /-- Hind right. -/
  | HR
  /-- Hind left. -/
  | HL
  deriving DecidableEq

/-- `endeff_names` given to the simulator, motion_execution.py:267-270. -/
def simFeet : List Foot := [.HL, .HR, .FL, .FR]

/-- `robot.effs`, blmc_robot_wrapper.py:170. -/
def robotFeet : List Foot := [.FR, .FL, .HR, .HL]

/-- The end-effector a reading of `foot` is recorded for, motion_execution.py:494-496: the index in the list of the simulator is used in the list of the robot. -/
def recordedAs (foot : Foot) : Option Foot := robotFeet[simFeet.idxOf foot]?

/-- `forces_arr[loop, endeff_id]` after the contact points of a pass, motion_execution.py:493-495: assigned, not added; `id` is the foot and the force of each contact point in order. -/
def recordedForce (foot : Foot) (pts : List (Foot × (Fin 3 → ℝ))) : Fin 3 → ℝ := pts.foldl (fun a p => if p.1 = foot then p.2 else a) 0

/-! ### Helpers -/

/-- `quat2mat`, helpers.py:19-25, arguments in the order `w, x, y, z`. -/
def quat2mat (w x y z : ℝ) : Matrix (Fin 3) (Fin 3) ℝ :=
  !![1 - 2 * y * y - 2 * z * z, 2 * x * y - 2 * z * w, 2 * x * z + 2 * y * w;
     2 * x * y + 2 * z * w, 1 - 2 * x * x - 2 * z * z, 2 * y * z - 2 * x * w;
     2 * x * z - 2 * y * w, 2 * y * z + 2 * x * w, 1 - 2 * x * x - 2 * y * y]

/-- The height of the surface drawn for a contact at `(xx, yy)`, helpers.py:285-289: `z = (-n0*xx - n1*yy - d)/n2`, `d = -point·normal`. -/
noncomputable def patchZ (p n : Fin 3 → ℝ) (xx yy : ℝ) : ℝ := (-n 0 * xx - n 1 * yy - -(p 0 * n 0 + p 1 * n 1 + p 2 * n 2)) * 1 / n 2

/-- `timesteps2` of `show_motion`, helpers.py:240-245. -/
def timesteps2 (time : Nat → ℝ) (i : Nat) : ℝ := if i = 0 then time i else time i - time (i - 1)

/-- `norm_` of a vector, utils.py:32-38. -/
noncomputable def norm1 {n : Nat} (v : Fin n → ℝ) : ℝ := √(∑ i, v i * v i)

/-- `norm_` of a number, utils.py:33-34. -/
noncomputable def normF (x : ℝ) : ℝ := √(x ^ 2)

/-- `norm(list, weights)`, utils.py:40-52, for the norms `vs` of the evaluated vectors; `none` for a missing weight (`IndexError`). -/
noncomputable def normList (vs : List ℝ) (ws : Option (List ℝ)) : Option ℝ :=
  match ws with
  | none => some vs.sum
  | some ws => if ws.length < vs.length then none else some ((((vs.zip ws).filter fun p => decide (1 / 100000 < |p.2|)).map fun p => normF (p.2 * p.1)).sum)

end Plan
end Verif
