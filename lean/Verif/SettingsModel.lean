/-
Operations on the settings classes of `Verif.Settings`: reading and writing parameters, and loading of the planner and LQR settings.

Simplifications: as in `Verif.Settings`; `YAML::ReadParameter` (an external library) assigns the value found under the key, or throws if there is none or it has the wrong type; the
configuration file is a partial function from keys to values, with one key per member (the names of keys are not modelled). A write of a vector through `Eigen::Ref` with a different
length, which trips an assertion, is an error.
-/
import Verif.Settings

namespace Verif
namespace Settings

/-- A settings class: its parameters, members and the two tables. `fixedSize` tells which types are handed out as `Eigen::Ref`, whose length cannot be changed by assignment (PlannerSetting.hpp:53-100, SolverSetting.hpp:64-85, SolverLqrSetting.hpp:45-64). -/
structure Class where
  Param : Type
  Field : Type
  [decField : DecidableEq Field]
  kindP : Param → Kind
  kindF : Field → Kind
  read : Param → Option Field
  write : Param → Option Field
  fixedSize : Kind → Bool

attribute [instance] Class.decField

/-- `PlannerSetting`, PlannerSetting.hpp:30-46: vectors are handed out as `Eigen::Ref`. -/
def planner : Class :=
  { Param := Planner.Param, Field := Planner.Field, kindP := Planner.Param.kind, kindF := Planner.Field.kind, read := Planner.readField, write := Planner.writeField,
    fixedSize := fun k => k == .vec || k == .ivec }
/-- `SolverSetting` (SolverSetting.cpp:81-241). -/
def conicSolver : Class :=
  { Param := ConicSolver.Param, Field := ConicSolver.Field, kindP := ConicSolver.Param.kind, kindF := ConicSolver.Field.kind, read := ConicSolver.readField,
    write := ConicSolver.writeField, fixedSize := fun _ => false }
/-- `SolverLqrSetting` (SolverLqrSetting.cpp:73-274). -/
def lqrSolver : Class :=
  { Param := LqrSolver.Param, Field := LqrSolver.Field, kindP := LqrSolver.Param.kind, kindF := LqrSolver.Field.kind, read := LqrSolver.readField,
    write := LqrSolver.writeField, fixedSize := fun _ => false }

/-- Values of all members of an object (PlannerSetting.hpp:53-100, SolverSetting.hpp:64-85, SolverLqrSetting.hpp:45-64). -/
def Obj (C : Class) := (f : C.Field) → (C.kindF f).Val

/-- Length of a vector value (PlannerSetting.cpp:376-473). -/
def len : (k : Kind) → k.Val → ℕ
  | .vec, v => List.length (show List ℝ from v)
  | .ivec, v => List.length (show List ℤ from v)
  | _, _ => 0

variable {C : Class}

/-- The const `get`: the value of a parameter with its type, `none` if the call throws (PlannerSetting.cpp:235-473, SolverSetting.cpp:81-195, SolverLqrSetting.cpp:73-274). -/
def Obj.get (s : Obj C) (p : C.Param) : Option (Σ k : Kind, k.Val) := (C.read p).map fun f => ⟨C.kindF f, s f⟩

/-- Reading through the non-const `get` (the setter table for `SolverSetting`, which has no such getter) (PlannerSetting.cpp:475-709, SolverSetting.cpp:96-241, SolverLqrSetting.cpp:73-274). -/
def Obj.getMutable (s : Obj C) (p : C.Param) : Option (Σ k : Kind, k.Val) := (C.write p).map fun f => ⟨C.kindF f, s f⟩

/-- Assignment of one member (PlannerSetting.cpp:475-709). -/
def Obj.put (s : Obj C) (f : C.Field) (v : (C.kindF f).Val) : Obj C := fun g => if h : g = f then h ▸ v else s g

/-- Writing a parameter: `set(param, value)`, or `get(param) = value`; `none` if the call throws or trips an assertion (PlannerSetting.cpp:475-709, SolverSetting.cpp:96-241). -/
def Obj.set (s : Obj C) (p : C.Param) (v : (C.kindP p).Val) : Option (Obj C) :=
  match C.write p with
  | none => none
  | some f =>
    if h : C.kindP p = C.kindF f then
      if C.fixedSize (C.kindF f) && len _ (s f) != len _ v then none else some (s.put f (h ▸ v))
    else none

/-! ### loading the planner settings -/

/-- `Heuristic`, PlannerSetting.hpp:20. -/
inductive Heuristic where
  | TrustRegion | SoftConstraint | TimeOptimization
  deriving DecidableEq

/-- State of a `PlannerSetting` object (PlannerSetting.hpp:53-100). -/
structure PlannerObj where
  obj : Obj planner
  heuristic : Heuristic

/-- The configuration file: value of each key, if present (PlannerSetting.cpp:16-230). -/
structure PlannerCfg where
  /-- the file can be read and parsed, PlannerSetting.cpp:26-40 -/
  fileOk : Bool
  value : (f : Planner.Field) → Option (Planner.Field.kind f).Val
  heuristic : Option String
  frictionCone : Option String
  /-- entries of `com_viapoints`, `joint_viapoints(_second)`, `base_viapoints(_second)` -/
  via : Planner.Field → ℕ → Option (List ℝ)
  /-- entries of `cop_range_*` and `eff_offset_*` -/
  perEff : Planner.Field → Fin 4 → Option (List ℝ)

/-- A piece of `initialize`: new state, and whether no exception was thrown (PlannerSetting.cpp:16-230). -/
abbrev Act := PlannerObj → PlannerObj × Bool

/-- Sequencing; an exception leaves the state reached so far (PlannerSetting.cpp:16-230). -/
def seq (a b : Act) : Act := fun s => match a s with
  | (s', true) => b s'
  | (s', false) => (s', false)

/-- Statements of the `try` block in order, PlannerSetting.cpp:18-225. -/
def seqs : List Act → Act
  | [] => fun s => (s, true)
  | a :: r => seq a (seqs r)

/-- An `if` statement without `else`, as in PlannerSetting.cpp:44,80,93,122,127,149,185,193. -/
def ifB (c : PlannerObj → Bool) (a : Act) : Act := fun s => if c s then a s else (s, true)

/-- A plain assignment, which does not throw, as in PlannerSetting.cpp:221-225. -/
def pure1 (f : PlannerObj → PlannerObj) : Act := fun s => (f s, true)

/-- Assignment of a member, PlannerSetting.cpp:16-233. -/
def PlannerObj.put (s : PlannerObj) (f : Planner.Field) (v : (Planner.Field.kind f).Val) : PlannerObj := { s with obj := Obj.put (C := planner) s.obj f v }

/-- `YAML::ReadParameter(planner_vars, key, member)` (PlannerSetting.cpp:16-230). -/
def readP (cfg : PlannerCfg) (f : Planner.Field) : Act := fun s => match cfg.value f with
  | some v => (s.put f v, true)
  | none => (s, false)

/-- Consecutive `ReadParameter` calls, as in PlannerSetting.cpp:45-53. -/
def reads (cfg : PlannerCfg) (l : List Planner.Field) : Act := seqs (l.map (readP cfg))

/-- Loop that pushes back a zero vector and reads it, PlannerSetting.cpp:64-67,193-212; `n` iterations starting at entry `i`. -/
def viaLoop (cfg : PlannerCfg) (f : Planner.Field) (h : Planner.Field.kind f = .cvec) (zeros : PlannerObj → ℕ) : ℕ → ℕ → Act
  | 0, _ => fun s => (s, true)
  | n + 1, i => fun s =>
    let old : List (List ℝ) := show Kind.Val .cvec from h ▸ (s.obj f : (Planner.Field.kind f).Val)
    match cfg.via f i with
    | some v => viaLoop cfg f h zeros n (i + 1) (s.put f (h ▸ (show Kind.Val .cvec from old ++ [v])))
    | none => (s.put f (h ▸ (show Kind.Val .cvec from old ++ [List.replicate (zeros s) 0])), false)

/-- `clear()` of a vector of via points, PlannerSetting.cpp:63,185-192. -/
def clear (f : Planner.Field) (h : Planner.Field.kind f = .cvec) : Act := pure1 fun s => s.put f (h ▸ (show Kind.Val .cvec from ([] : List (List ℝ))))

/-- One entry of a per-end-effector array (PlannerSetting.cpp:16-230). -/
def readEff (cfg : PlannerCfg) (f : Planner.Field) (h : Planner.Field.kind f = .arr) (e : Fin 4) : Act := fun s => match cfg.perEff f e with
  | some v =>
    let old : Fin 4 → List ℝ := show Kind.Val .arr from h ▸ (s.obj f : (Planner.Field.kind f).Val)
    (s.put f (h ▸ (show Kind.Val .arr from fun i => if i = e then v else old i)), true)
  | none => (s, false)

/-- `cfg_file.substr(0, cfg_file.size()-5)`, PlannerSetting.cpp:20: for names shorter than five characters the unsigned length wraps and the whole name is kept. -/
def stem (s : String) : String := if s.length < 5 then s else String.ofList (s.toList.take (s.length - 5))

/-- Number of iterations of a loop `for (i=0; i<n; i++)` with an `int` bound, PlannerSetting.cpp:64. -/
def nat (z : ℤ) : ℕ := z.toNat

section
open Planner.Field

/-- Value of a member of type `int` (members declared in PlannerSetting.hpp:53-109). -/
def PlannerObj.int (s : PlannerObj) (f : Planner.Field) (h : Planner.Field.kind f = .int := by rfl) : ℤ := show Kind.Val .int from h ▸ (s.obj f : (Planner.Field.kind f).Val)
/-- Value of a member of type `double` (members declared in PlannerSetting.hpp:53-109). -/
def PlannerObj.dbl (s : PlannerObj) (f : Planner.Field) (h : Planner.Field.kind f = .double := by rfl) : ℝ := show Kind.Val .double from h ▸ (s.obj f : (Planner.Field.kind f).Val)
/-- Value of a member of type `bool` (members declared in PlannerSetting.hpp:53-109). -/
def PlannerObj.bool (s : PlannerObj) (f : Planner.Field) (h : Planner.Field.kind f = .bool := by rfl) : Bool := show Kind.Val .bool from h ▸ (s.obj f : (Planner.Field.kind f).Val)
/-- Value of a member of type `Eigen::VectorXi` (members declared in PlannerSetting.hpp:53-109). -/
def PlannerObj.ivec (s : PlannerObj) (f : Planner.Field) (h : Planner.Field.kind f = .ivec := by rfl) : List ℤ := show Kind.Val .ivec from h ▸ (s.obj f : (Planner.Field.kind f).Val)
/-- Value of a member of type `Eigen::VectorXd` (members declared in PlannerSetting.hpp:53-109). -/
def PlannerObj.vec (s : PlannerObj) (f : Planner.Field) (h : Planner.Field.kind f = .vec := by rfl) : List ℝ := show Kind.Val .vec from h ▸ (s.obj f : (Planner.Field.kind f).Val)
/-- Value of a member of type `vector of via points` (members declared in PlannerSetting.hpp:53-109). -/
def PlannerObj.cvec (s : PlannerObj) (f : Planner.Field) (h : Planner.Field.kind f = .cvec := by rfl) : List (List ℝ) := show Kind.Val .cvec from h ▸ (s.obj f : (Planner.Field.kind f).Val)

/-- `extended_active_dofs_`, PlannerSetting.cpp:54-56. -/
def extendedDofs (active : List ℤ) : List ℤ := [0, 1, 2, 3, 4, 5] ++ active.map (6 + ·)

/-- The assignments at the end of `initialize`, PlannerSetting.cpp:221-225. -/
noncomputable def derive : Act := pure1 fun s =>
  let s := s.put num_act_dofs (show ℤ from (s.ivec active_dofs).length)
  let s := s.put mass_times_gravity (show ℝ from s.dbl robot_mass * s.dbl gravity)
  let s := s.put gravity_vector (show List ℝ from [0, 0, -s.dbl gravity])
  let s := s.put num_timesteps (show ℤ from ⌊s.dbl time_horizon / s.dbl time_step⌋)
  s.put num_extended_act_dofs (show ℤ from (s.ivec extended_active_dofs).length)

/-- `PlannerSetting::initialize`, PlannerSetting.cpp:16-233. The Boolean tells whether the body of the `try` block ran to its end; the exception itself is caught and printed. -/
noncomputable def initPlanner (cfgFile srcPath : String) (cfg : PlannerCfg) : Act :=
  let kin : PlannerObj → Bool := fun s => s.bool load_kinematics
  let time : PlannerObj → Bool := fun s => decide (s.heuristic = .TimeOptimization)
  let second : PlannerObj → Bool := fun s => s.bool use_second_order_inv_kin
  seqs [
    pure1 fun s => ((s.put Planner.Field.cfg_file (show String from cfgFile)).put save_kinematics_file (show String from stem cfgFile ++ "_kin_results.yaml")).put
      default_solver_setting_file (show String from srcPath ++ "default_solver_setting.yaml"),
    fun s => (s, cfg.fileOk),
    readP cfg load_kinematics,
    ifB kin (seqs [
      reads cfg [num_dofs, kd_iterations, num_subsamples, display_motion, min_joint_limits, max_joint_limits, default_joint_positions, active_dofs],
      pure1 fun s => s.put extended_active_dofs (show List ℤ from extendedDofs (s.ivec active_dofs))]),
    readP cfg num_com_viapoints,
    clear com_viapoints rfl,
    fun s => viaLoop cfg com_viapoints rfl (fun _ => 4) (nat (s.int num_com_viapoints)) 0 s,
    reads cfg [time_step, num_act_eefs, time_horizon, min_rel_height, external_force, com_displacement],
    fun s => match cfg.heuristic with
      | none => (s, false)
      | some h => ({ s with heuristic := if h = "TrustRegion" then .TrustRegion else if h = "SoftConstraint" then .SoftConstraint
          else if h = "TimeOptimization" then .TimeOptimization else .SoftConstraint }, true),
    ifB time (reads cfg [max_time_iterations, max_time_residual_tolerance, min_time_residual_improvement]),
    reads cfg [gravity, robot_mass, floor_height, torque_range, friction_coeff, max_eef_lengths],
    ifB time (reads cfg [time_range, is_time_horizon_fixed]),
    seqs ((List.finRange 4).map fun e => seq (readEff cfg cop_range rfl e) (readEff cfg eff_offset rfl e)),
    fun s => match cfg.frictionCone with
      | none => (s, false)
      | some c => (s.put is_friction_cone_linear (show Bool from decide (c = "LinearCone")), true),
    reads cfg [w_com, w_amom, w_lmom, w_amomd, w_lmomd, w_com_via, w_trq_arm, w_trq_leg, w_frc_arm, w_frc_leg, w_dfrc_arm, w_dfrc_leg, w_amom_final, w_lmom_final,
      w_com_track, w_lmom_track, w_amom_track],
    ifB time (reads cfg [w_time, w_time_penalty]),
    ifB kin (seqs [
      reads cfg [w_kin_com, w_kin_lmom, w_kin_amom, w_kin_lmomd, w_kin_amomd, w_kin_eff_pos, w_kin_base_ori, w_kin_joint_vel, w_kin_joint_acc, kin_slacks_penalty,
        kin_integration_step, w_kin_eff_pos_nonact, w_kin_default_joints, max_trajectory_iters, max_convergence_iters, convergence_tolerance, lambda_regularization,
        use_second_order_inv_kin],
      ifB second (reads cfg [swing_traj_via_z_second, w_lin_mom_tracking_second, w_ang_mom_tracking_second, w_endeff_contact_second, w_endeff_tracking_second,
        p_endeff_tracking_second, p_com_tracking_second, w_joint_regularization_second, d_endeff_tracking_second, p_orient_tracking_second, d_orient_tracking_second,
        p_joint_regularization_second, d_joint_regularization_second, p_mom_tracking_second, num_joint_viapoints_second, num_base_viapoints_second]),
      ifB (fun s => !second s) (reads cfg [swing_traj_via_z, w_lin_mom_tracking, w_ang_mom_tracking, w_endeff_contact, w_endeff_tracking, p_endeff_tracking, p_com_tracking,
        w_joint_regularization, reg_orientation, reg_joint_position, num_joint_viapoints, num_base_viapoints]),
      ifB second (seqs [clear joint_viapoints_second rfl, clear base_viapoints_second rfl,
        fun s => viaLoop cfg joint_viapoints_second rfl (fun s => nat (s.int num_dofs + 1)) (nat (s.int num_joint_viapoints_second)) 0 s,
        fun s => viaLoop cfg base_viapoints_second rfl (fun _ => 4) (nat (s.int num_base_viapoints_second)) 0 s]),
      ifB (fun s => !second s) (seqs [clear joint_viapoints rfl, clear base_viapoints rfl,
        fun s => viaLoop cfg joint_viapoints rfl (fun s => nat (s.int num_dofs + 1)) (nat (s.int num_joint_viapoints)) 0 s,
        fun s => viaLoop cfg base_viapoints rfl (fun _ => 4) (nat (s.int num_base_viapoints)) 0 s])]),
    reads cfg [store_data, use_default_solver_setting],
    derive]

end

/-- `alpha_`, SolverLqrSetting.cpp:42-46. -/
noncomputable def alphas (coeff : ℝ) (n : ℕ) : List ℝ := (List.range n).map (fun id : ℕ => coeff ^ (-((id : ℤ) * (id : ℤ))))

end Settings
end Verif
