/-
C251-C253: loading of the settings of the conic solver and of the LQR solver from a configuration file, and the file shipped with the planner.
Model of `SolverSetting::initialize`, /repo/solver/src/solver/interface/SolverSetting.cpp:18-78, and of `SolverLqrSetting::initialize`,
/repo/solver_lqr/src/solver_lqr/SolverLqrSetting.cpp:15-70, on top of the tables of `Verif.Settings`.

Simplifications: yaml-cpp is outside. A file is missing (`YAML::BadFile` is thrown), not well-formed (`YAML::ParserException`), or has sections; a section is a partial function from
key and requested type to values, with `none` for a missing key or a value that cannot be converted (`YAML::TypedBadConversion` / `YAML::InvalidNode`). Exact reals and unbounded integers.
-/
import Verif.SettingsLemmas
import Verif.IPRate

namespace Verif
namespace Settings

/-- A section of a file, as `as<T>()` sees it: the value under a key, converted to a type (SolverSetting.cpp:26-69, SolverLqrSetting.cpp:27-64). -/
abbrev Section := String → (k : Kind) → Option k.Val

/-- What `YAML::LoadFile` finds (SolverSetting.cpp:22-23, SolverLqrSetting.cpp:22-23). -/
inductive CfgFile where
  | missing
  | malformed
  | parsed (sections : String → Option Section)

/-- How a call of `initialize` ends: it returns, or an exception leaves it (SolverSetting.cpp:20-77, SolverLqrSetting.cpp:20-69). -/
inductive Ended where
  | returned
  | thrown
  deriving DecidableEq

/-- Statements of the `try` block: new state, and whether no exception was thrown (SolverSetting.cpp:20-70, SolverLqrSetting.cpp:20-65). -/
abbrev Stmt (C : Class) := Obj C → Obj C × Bool

variable {C : Class}

/-- `member_ = vars["key"].as<T>();` with the type of the member (SolverSetting.cpp:26-69, SolverLqrSetting.cpp:27-61). -/
def readKey (sec : Section) (key : String) (f : C.Field) : Stmt C := fun s => match sec key (C.kindF f) with
  | some v => (s.put f v, true)
  | none => (s, false)

/-- One statement after the other, until one throws (SolverSetting.cpp:20-70, SolverLqrSetting.cpp:20-65). -/
def andThen (a b : Stmt C) : Stmt C := fun s => match a s with
  | (s', true) => b s'
  | (s', false) => (s', false)

/-- A list of such statements (SolverSetting.cpp:26-69, SolverLqrSetting.cpp:27-61). -/
def readKeys (sec : Section) : List (String × C.Field) → Stmt C
  | [] => fun s => (s, true)
  | (key, f) :: r => andThen (readKey sec key f) (readKeys sec r)

open ConicSolver.Field in
/-- The reads of `SolverSetting::initialize` in order, SolverSetting.cpp:26-69. -/
def conicReads : List (String × ConicSolver.Field) :=
  [("BnB_verbose", BnB_verbose), ("BnB_max_iterations", BnB_max_iterations), ("BnB_integer_tolerance", BnB_integer_tolerance),
   ("BnB_absolute_suboptimality_gap", BnB_absolute_suboptimality_gap), ("BnB_relative_suboptimality_gap", BnB_relative_suboptimality_gap),
   ("feasibility_tolerance", feasibility_tolerance), ("absolute_suboptimality_gap", absolute_suboptimality_gap), ("relative_suboptimality_gap", relative_suboptimality_gap),
   ("feasibility_tolerance_inaccurate", feasibility_tolerance_inaccurate), ("absolute_suboptimality_gap_inaccurate", absolute_suboptimality_gap_inaccurate),
   ("relative_suboptimality_gap_inaccurate", relative_suboptimality_gap_inaccurate),
   ("equil_iterations", equil_iterations),
   ("dyn_reg_thresh", dyn_reg_thresh), ("lin_sys_accuracy", lin_sys_accuracy), ("err_reduction_factor", err_reduction_factor), ("num_iter_ref_lin_solve", num_iter_ref_lin_solve),
   ("static_regularization", static_regularization), ("dynamic_regularization", dynamic_regularization),
   ("safeguard", safeguard), ("min_step_length", min_step_length), ("max_step_length", max_step_length), ("min_centering_step", min_centering_step),
   ("max_centering_step", max_centering_step), ("step_length_scaling", step_length_scaling),
   ("verbose", verbose), ("max_iters", max_iters), ("ipsolver_max_iters", ipsolver_max_iters), ("ipsolver_warm_iters", ipsolver_warm_iters),
   ("num_itrefs_trustregion", num_itrefs_trustregion), ("trust_region_threshold", trust_region_threshold), ("soft_constraint_weight_full", soft_constraint_weight_full),
   ("soft_constraint_weight_reduced", soft_constraint_weight_reduced)]

/-- The `try` block with its handler: a missing file or section and a failed conversion leave the function, a parse error is printed and forgotten
(SolverSetting.cpp:20-77, SolverLqrSetting.cpp:20-69). -/
def guarded (file : CfgFile) (name : String) (body : Section → Stmt C) (s : Obj C) : Obj C × Ended := match file with
  | .missing => (s, .thrown)
  | .malformed => (s, .returned)
  | .parsed secs => match secs name with
    | none => (s, .thrown)
    | some sec => match body sec s with
      | (s', true) => (s', .returned)
      | (s', false) => (s', .thrown)

/-- `SolverSetting::initialize`, SolverSetting.cpp:18-78. -/
def initConic (file : CfgFile) (name : String) (s : Obj conicSolver) : Obj conicSolver × Ended :=
  guarded file name (fun sec => readKeys (C := conicSolver) sec conicReads) s

open LqrSolver.Field in
/-- First group of reads, SolverLqrSetting.cpp:27-40. -/
def lqrReads1 : List (String × LqrSolver.Field) :=
  [("verbosity", verbosity), ("lqr_max_iters", lqr_max_iters), ("decimal_digits", precision_digits), ("bpass_regularization_type", bpass_regularization_type),
   ("cost_change_tolerance", cost_change_tolerance), ("divergence_limit_check", divergence_limit_check), ("bpass_min_regularization", bpass_min_regularization),
   ("bpass_max_regularization", bpass_max_regularization), ("control_gradient_tolerance", control_gradient_tolerance),
   ("bpass_initial_regularization", bpass_initial_regularization), ("min_expected_cost_improvement", min_expected_cost_improvement),
   ("bpass_mult_regularization_incr", bpass_mult_regularization_incr), ("bpass_initial_mult_regularization_incr", bpass_initial_mult_regularization_incr)]

open LqrSolver.Field in
/-- Second group of reads, SolverLqrSetting.cpp:48-55. -/
def lqrReads2 : List (String × LqrSolver.Field) :=
  [("store_data", store_data), ("time_step", time_step), ("time_horizon", time_horizon), ("state_dimension", state_dimension), ("control_dimension", control_dimension),
   ("initial_state", initial_state)]

/-- The loop of the line-search coefficients: `alpha_.resize` truncates the number to an integer, the loop runs while `id < number`; `none` if it writes past the end
(SolverLqrSetting.cpp:42-46). A negative number trips an assertion in `resize`. -/
noncomputable def fillAlpha (coeff num : ℝ) : Option (List ℝ) :=
  if num < 0 then (if num ≤ -1 then none else some []) else if (⌈num⌉₊ : ℕ) ≤ ⌊num⌋₊ then some (alphas coeff ⌈num⌉₊) else none

/-- The line-search block, SolverLqrSetting.cpp:42-46; memory is not touched outside the vector in the model, such a write counts as failed. -/
noncomputable def lqrAlpha (sec : Section) : Stmt lqrSolver := fun s => match sec "linesearch_coeff" .double, sec "linesearch_num_coeffs" .double with
  | some c, some n => match fillAlpha c n with
    | some a => (s.put LqrSolver.Field.alpha (show List ℝ from a), true)
    | none => (s, false)
  | _, _ => (s, false)

/-- The limits, SolverLqrSetting.cpp:58-62. -/
def lqrLimits (sec : Section) : Stmt lqrSolver := andThen (readKey (C := lqrSolver) sec "has_control_limits" LqrSolver.Field.has_control_limits) fun s =>
  if (show Bool from s LqrSolver.Field.has_control_limits) then
    readKeys (C := lqrSolver) sec [("min_control_limits", LqrSolver.Field.min_control_limits), ("max_control_limits", LqrSolver.Field.max_control_limits)] s
  else (s, true)

/-- The number of time steps, SolverLqrSetting.cpp:56. -/
noncomputable def lqrSteps : Stmt lqrSolver := fun s =>
  (s.put LqrSolver.Field.time_dimension (show ℤ from ⌊(show ℝ from s LqrSolver.Field.time_horizon) / (show ℝ from s LqrSolver.Field.time_step)⌋), true)

/-- The user parameters: the node is stored as it is, also when the key is missing (SolverLqrSetting.cpp:64). -/
def lqrUser (sec : Section) : Stmt lqrSolver := fun s => match sec "user_parameters" .yaml with
  | some v => (s.put LqrSolver.Field.user_parameters v, true)
  | none => (s.put LqrSolver.Field.user_parameters (show String from ""), true)

/-- `SolverLqrSetting::initialize`, SolverLqrSetting.cpp:15-70. -/
noncomputable def initLqr (path : String) (file : CfgFile) (name : String) (s : Obj lqrSolver) : Obj lqrSolver × Ended :=
  let s : Obj lqrSolver := (s.put LqrSolver.Field.cfg_file (show String from path)).put LqrSolver.Field.save_lqr_file (show String from stem path ++ "_lqr_results.yaml")
  guarded file name (fun sec =>
    andThen (fun s => (s.put LqrSolver.Field.use_runge_kutta_integration (show Bool from false), true)) <|
    andThen (readKeys (C := lqrSolver) sec lqrReads1) <|
    andThen (lqrAlpha sec) <|
    andThen (readKeys (C := lqrSolver) sec lqrReads2) <|
    andThen lqrSteps <|
    andThen (lqrLimits sec) (lqrUser sec)) s

/-! ### what the interior-point solver reads, and the shipped file -/

/-- A number read through `get` (SolverSetting.cpp:112-132, 157-197). -/
def Obj.number (s : Obj conicSolver) (p : ConicSolver.Param) : ℝ := match s.get p with
  | some ⟨.double, v⟩ => v
  | _ => 0

/-- An integer read through `get` (SolverSetting.cpp:112-132). -/
def Obj.integer (s : Obj conicSolver) (p : ConicSolver.Param) : ℤ := match s.get p with
  | some ⟨.int, v⟩ => v
  | _ => 0

/-- The parameters that the interior-point solver asks for: IPSolver.cpp:149, 189, 211-212, 223-229, 301, 308, 326, 338, 386, 402. -/
def ipStg (s : Obj conicSolver) : IP.Stg where
  feastol := s.number .double_FeasibilityTol
  abstol := s.number .double_DualityGapAbsTol
  reltol := s.number .double_DualityGapRelTol
  feastolInacc := s.number .double_FeasibilityTolInacc
  abstolInacc := s.number .double_DualityGapAbsTolInacc
  reltolInacc := s.number .double_DualityGapRelTolInacc
  safeguard := s.number .double_SafeGuard
  minStep := s.number .double_MinimumStepLength
  maxStep := s.number .double_MaximumStepLength
  stepScaling := s.number .double_StepLengthScaling
  minCentering := s.number .double_MinimumCenteringStep
  maxCentering := s.number .double_MaximumCenteringStep
  dynRegThresh := s.number .double_DynamicRegularizationThresh
  maxIters := s.integer .int_SolverMaxIters

/-- The entries of momentumopt/config/default_solver_setting.yaml (section `solver_variables`) that the code reads as numbers (default_solver_setting.yaml:9-79). -/
noncomputable def shippedNumber : String → Option ℝ
  | "BnB_integer_tolerance" => some (1 / 10 ^ 4)
  | "BnB_absolute_suboptimality_gap" => some (1 / 10 ^ 3)
  | "BnB_relative_suboptimality_gap" => some (1 / 10 ^ 6)
  | "feasibility_tolerance" => some (1 / 10 ^ 7)
  | "absolute_suboptimality_gap" => some (1 / 10 ^ 7)
  | "relative_suboptimality_gap" => some (1 / 10 ^ 6)
  | "feasibility_tolerance_inaccurate" => some (1 / 10 ^ 4)
  | "absolute_suboptimality_gap_inaccurate" => some (5 / 10 ^ 5)
  | "relative_suboptimality_gap_inaccurate" => some (5 / 10 ^ 5)
  | "dyn_reg_thresh" => some (1 / 10 ^ 13)
  | "lin_sys_accuracy" => some (1 / 10 ^ 14)
  | "err_reduction_factor" => some 6
  | "static_regularization" => some (7 / 10 ^ 8)
  | "dynamic_regularization" => some (2 / 10 ^ 7)
  | "safeguard" => some 500
  | "min_step_length" => some (1 / 10 ^ 6)
  | "max_step_length" => some (999 / 1000)
  | "min_centering_step" => some (1 / 10 ^ 4)
  | "max_centering_step" => some 1
  | "step_length_scaling" => some (99 / 100)
  | "trust_region_threshold" => some (15 / 100)
  | "soft_constraint_weight_full" => some 10000
  | "soft_constraint_weight_reduced" => some 10000
  | _ => none

/-- The entries read as integers (default_solver_setting.yaml:8-76). -/
def shippedInteger : String → Option ℤ
  | "BnB_max_iterations" => some 1000
  | "equil_iterations" => some 3
  | "num_iter_ref_lin_solve" => some 9
  | "max_iters" => some 500
  | "ipsolver_max_iters" => some 100
  | "ipsolver_warm_iters" => some 100
  | "num_itrefs_trustregion" => some 2
  | _ => none

/-- The shipped section (default_solver_setting.yaml:1-79). -/
noncomputable def shipped : Section := fun key k => match k with
  | .double => shippedNumber key
  | .int => shippedInteger key
  | .bool => if key = "BnB_verbose" ∨ key = "verbose" then some false else none
  | _ => none

/-- The shipped file (default_solver_setting.yaml:1). -/
noncomputable def shippedFile : CfgFile := .parsed fun name => if name = "solver_variables" then some shipped else none

end Settings
end Verif
