/-
Model of the parameter tables of the three settings classes:
/repo/momentumopt/src/momentumopt/setting/PlannerSetting.cpp, /repo/solver/src/solver/interface/SolverSetting.cpp,
/repo/solver_lqr/src/solver_lqr/SolverLqrSetting.cpp, with the enumerators of the corresponding Params headers.
The tables are transcribed case by case from the switch statements.

Simplifications: exact reals and unbounded integers; a YAML node is an uninterpreted value (a string).
-/
import Mathlib.Data.Real.Basic
import Mathlib.Data.List.Basic
import Mathlib.Algebra.Order.Floor.Defs
import Mathlib.Algebra.Order.Archimedean.Basic
import Mathlib.Algebra.Order.Archimedean.Real.Basic

namespace Verif
namespace Settings

/-- C++ types of the parameters (PlannerParams.hpp:14-194). -/
inductive Kind where
  | int | bool | double | string | ivec | vec | arr | cvec | yaml
  deriving DecidableEq, Repr

/-- Their values; arrays have one entry per end-effector (`Problem::n_endeffs_ = 4`, momentumopt/setting/Definitions.hpp) (Definitions.hpp:21). -/
def Kind.Val : Kind → Type
  | .int => ℤ
  | .bool => Bool
  | .double => ℝ
  | .string => String
  | .ivec => List ℤ
  | .vec => List ℝ
  | .arr => Fin 4 → List ℝ
  | .cvec => List (List ℝ)
  | .yaml => String


namespace Planner

/-- All enumerators of the parameter types of `PlannerSetting`, momentumopt/include/momentumopt/setting/PlannerParams.hpp; the prefixes of the enumerators are dropped, the type is the first word (PlannerParams.hpp:14-194). -/
inductive Param where
  | int_NumDofs
  | int_NumTimesteps
  | int_NumViapoints
  | int_NumJointViapoints
  | int_NumBaseViapoints
  | int_NumJointViapoints_Second
  | int_NumBaseViapoints_Second
  | int_NumActiveDofs
  | int_MaxNumTimeIterations
  | int_NumExtendedActiveDofs
  | int_NumActiveEndeffectors
  | int_MaxKinTrajectoryIterations
  | int_MaxKinConvergenceIterations
  | int_NumSubsamples
  | int_KinDynIterations
  | bool_IsTimeHorizonFixed
  | bool_IsFrictionConeLinear
  | bool_DisplayMotion
  | bool_LoadKinematics
  | bool_StoreData
  | bool_UseDefaultSolverSetting
  | bool_UseSecondOrderInverseKinematics
  | double_Gravity
  | double_TimeStep
  | double_RobotMass
  | double_RobotWeight
  | double_TimeHorizon
  | double_MinRelHeight
  | double_MassTimesGravity
  | double_FrictionCoefficient
  | double_MaxTimeResidualTolerance
  | double_MinTimeResidualImprovement
  | double_WeightArmTorque
  | double_WeightLegTorque
  | double_WeightTimePenalty
  | double_WeightTimeRegularization
  | double_FloorHeight
  | double_KinSlacksPenalty
  | double_KinIntegrationStep
  | double_LambdaRegularization
  | double_KinConvergenceTolerance
  | double_SwingTrajViaZ
  | double_WeightLinMomentumTracking
  | double_WeightAngMomentumTracking
  | double_WeightEndEffContact
  | double_WeightEndEffTracking
  | double_PGainEndEffTracking
  | double_PGainComTracking
  | double_WeightJointReg
  | double_PGainOrientationTracking
  | double_PGainPositionTracking
  | double_SwingTrajViaZ_Second
  | double_WeightLinMomentumTracking_Second
  | double_WeightAngMomentumTracking_Second
  | double_WeightEndEffContact_Second
  | double_WeightEndEffTracking_Second
  | double_PGainEndEffTracking_Second
  | double_PGainComTracking_Second
  | double_WeightJointReg_Second
  | double_DGainEndEffTracking_Second
  | double_PGainBaseOrientationTracking_Second
  | double_DGainBaseOrientationTracking_Second
  | double_PGainJointRegularization_Second
  | double_DGainJointRegularization_Second
  | string_ConfigFile
  | string_SaveDynamicsFile
  | string_SaveKinematicsFile
  | string_DefaultSolverSettingFile
  | ivec_ActiveDofs
  | ivec_ExtendedActiveDofs
  | vec_TimeRange
  | vec_TorqueRange
  | vec_ExternalForce
  | vec_GravityVector
  | vec_CenterOfMassMotion
  | vec_MaxEndeffectorLengths
  | vec_WeightArmForce
  | vec_WeightLegForce
  | vec_WeightArmForceRate
  | vec_WeightLegForceRate
  | vec_WeightCenterOfMass
  | vec_WeightLinearMomentum
  | vec_WeightAngularMomentum
  | vec_WeightLinearMomentumRate
  | vec_WeightAngularMomentumRate
  | vec_WeightFinalLinearMomentum
  | vec_WeightCenterOfMassViapoint
  | vec_WeightFinalAngularMomentum
  | vec_WeightDynamicTrackingCenterOfMass
  | vec_WeightDynamicTrackingLinearMomentum
  | vec_WeightDynamicTrackingAngularMomentum
  | vec_MinJointAngles
  | vec_MaxJointAngles
  | vec_KinematicDefaultJointPositions
  | vec_WeightJointVelocity
  | vec_WeightJointAcceleration
  | vec_WeightKinematicTrackingCenterOfMass
  | vec_WeightKinematicDefaultJointPositions
  | vec_WeightKinematicTrackingLinearMomentum
  | vec_WeightKinematicTrackingAngularMomentum
  | vec_WeightKinematicTrackingBaseOrientation
  | vec_WeightKinematicTrackingLinearMomentumRate
  | vec_WeightKinematicTrackingAngularMomentumRate
  | vec_WeightKinematicTrackingEndeffectorPosition
  | vec_WeightKinematicTrackingNonActiveEndeffectorPosition
  | vec_PGainMomentumTracking_Second
  | arr_EndeffectorOffset
  | arr_CenterOfPressureRange
  | cvec_Viapoints
  | cvec_JointViapoints
  | cvec_BaseViapoints
  | cvec_JointViapoints_Second
  | cvec_BaseViapoints_Second
  deriving DecidableEq, Repr

/-- The members of `PlannerSetting` reachable through its parameters (PlannerSetting.hpp:53-100). -/
inductive Field where
  | num_dofs
  | num_act_dofs
  | num_subsamples
  | kd_iterations
  | num_extended_act_dofs
  | max_trajectory_iters
  | max_convergence_iters
  | num_timesteps
  | num_com_viapoints
  | num_act_eefs
  | num_joint_viapoints
  | num_base_viapoints
  | num_joint_viapoints_second
  | num_base_viapoints_second
  | max_time_iterations
  | is_time_horizon_fixed
  | is_friction_cone_linear
  | display_motion
  | load_kinematics
  | store_data
  | use_default_solver_setting
  | use_second_order_inv_kin
  | kin_slacks_penalty
  | kin_integration_step
  | lambda_regularization
  | convergence_tolerance
  | time_step
  | time_horizon
  | min_rel_height
  | max_time_residual_tolerance
  | min_time_residual_improvement
  | gravity
  | robot_mass
  | floor_height
  | mass_times_gravity
  | friction_coeff
  | w_trq_arm
  | w_trq_leg
  | w_time
  | w_time_penalty
  | swing_traj_via_z
  | w_lin_mom_tracking
  | w_ang_mom_tracking
  | w_endeff_contact
  | w_endeff_tracking
  | p_endeff_tracking
  | p_com_tracking
  | w_joint_regularization
  | reg_orientation
  | reg_joint_position
  | swing_traj_via_z_second
  | w_lin_mom_tracking_second
  | w_ang_mom_tracking_second
  | w_endeff_contact_second
  | w_endeff_tracking_second
  | p_endeff_tracking_second
  | p_com_tracking_second
  | w_joint_regularization_second
  | d_endeff_tracking_second
  | p_orient_tracking_second
  | d_orient_tracking_second
  | p_joint_regularization_second
  | d_joint_regularization_second
  | cfg_file
  | save_dynamics_file
  | save_kinematics_file
  | default_solver_setting_file
  | active_dofs
  | extended_active_dofs
  | external_force
  | com_displacement
  | min_joint_limits
  | max_joint_limits
  | default_joint_positions
  | time_range
  | torque_range
  | gravity_vector
  | max_eef_lengths
  | w_frc_arm
  | w_frc_leg
  | w_com
  | w_lmom
  | w_amom
  | w_dfrc_arm
  | w_dfrc_leg
  | w_lmomd
  | w_amomd
  | w_com_via
  | w_lmom_final
  | w_amom_final
  | w_com_track
  | w_lmom_track
  | w_amom_track
  | w_kin_joint_vel
  | w_kin_joint_acc
  | w_kin_com
  | w_kin_lmom
  | w_kin_amom
  | w_kin_base_ori
  | w_kin_lmomd
  | w_kin_amomd
  | w_kin_eff_pos
  | w_kin_default_joints
  | w_kin_eff_pos_nonact
  | p_mom_tracking_second
  | eff_offset
  | cop_range
  | com_viapoints
  | joint_viapoints
  | base_viapoints
  | joint_viapoints_second
  | base_viapoints_second
  deriving DecidableEq, Repr

/-- Type of a parameter (PlannerParams.hpp:14-194). -/
def Param.kind : Param → Kind
  | .int_NumDofs => .int
  | .int_NumTimesteps => .int
  | .int_NumViapoints => .int
  | .int_NumJointViapoints => .int
  | .int_NumBaseViapoints => .int
  | .int_NumJointViapoints_Second => .int
  | .int_NumBaseViapoints_Second => .int
  | .int_NumActiveDofs => .int
  | .int_MaxNumTimeIterations => .int
  | .int_NumExtendedActiveDofs => .int
  | .int_NumActiveEndeffectors => .int
  | .int_MaxKinTrajectoryIterations => .int
  | .int_MaxKinConvergenceIterations => .int
  | .int_NumSubsamples => .int
  | .int_KinDynIterations => .int
  | .bool_IsTimeHorizonFixed => .bool
  | .bool_IsFrictionConeLinear => .bool
  | .bool_DisplayMotion => .bool
  | .bool_LoadKinematics => .bool
  | .bool_StoreData => .bool
  | .bool_UseDefaultSolverSetting => .bool
  | .bool_UseSecondOrderInverseKinematics => .bool
  | .double_Gravity => .double
  | .double_TimeStep => .double
  | .double_RobotMass => .double
  | .double_RobotWeight => .double
  | .double_TimeHorizon => .double
  | .double_MinRelHeight => .double
  | .double_MassTimesGravity => .double
  | .double_FrictionCoefficient => .double
  | .double_MaxTimeResidualTolerance => .double
  | .double_MinTimeResidualImprovement => .double
  | .double_WeightArmTorque => .double
  | .double_WeightLegTorque => .double
  | .double_WeightTimePenalty => .double
  | .double_WeightTimeRegularization => .double
  | .double_FloorHeight => .double
  | .double_KinSlacksPenalty => .double
  | .double_KinIntegrationStep => .double
  | .double_LambdaRegularization => .double
  | .double_KinConvergenceTolerance => .double
  | .double_SwingTrajViaZ => .double
  | .double_WeightLinMomentumTracking => .double
  | .double_WeightAngMomentumTracking => .double
  | .double_WeightEndEffContact => .double
  | .double_WeightEndEffTracking => .double
  | .double_PGainEndEffTracking => .double
  | .double_PGainComTracking => .double
  | .double_WeightJointReg => .double
  | .double_PGainOrientationTracking => .double
  | .double_PGainPositionTracking => .double
  | .double_SwingTrajViaZ_Second => .double
  | .double_WeightLinMomentumTracking_Second => .double
  | .double_WeightAngMomentumTracking_Second => .double
  | .double_WeightEndEffContact_Second => .double
  | .double_WeightEndEffTracking_Second => .double
  | .double_PGainEndEffTracking_Second => .double
  | .double_PGainComTracking_Second => .double
  | .double_WeightJointReg_Second => .double
  | .double_DGainEndEffTracking_Second => .double
  | .double_PGainBaseOrientationTracking_Second => .double
  | .double_DGainBaseOrientationTracking_Second => .double
  | .double_PGainJointRegularization_Second => .double
  | .double_DGainJointRegularization_Second => .double
  | .string_ConfigFile => .string
  | .string_SaveDynamicsFile => .string
  | .string_SaveKinematicsFile => .string
  | .string_DefaultSolverSettingFile => .string
  | .ivec_ActiveDofs => .ivec
  | .ivec_ExtendedActiveDofs => .ivec
  | .vec_TimeRange => .vec
  | .vec_TorqueRange => .vec
  | .vec_ExternalForce => .vec
  | .vec_GravityVector => .vec
  | .vec_CenterOfMassMotion => .vec
  | .vec_MaxEndeffectorLengths => .vec
  | .vec_WeightArmForce => .vec
  | .vec_WeightLegForce => .vec
  | .vec_WeightArmForceRate => .vec
  | .vec_WeightLegForceRate => .vec
  | .vec_WeightCenterOfMass => .vec
  | .vec_WeightLinearMomentum => .vec
  | .vec_WeightAngularMomentum => .vec
  | .vec_WeightLinearMomentumRate => .vec
  | .vec_WeightAngularMomentumRate => .vec
  | .vec_WeightFinalLinearMomentum => .vec
  | .vec_WeightCenterOfMassViapoint => .vec
  | .vec_WeightFinalAngularMomentum => .vec
  | .vec_WeightDynamicTrackingCenterOfMass => .vec
  | .vec_WeightDynamicTrackingLinearMomentum => .vec
  | .vec_WeightDynamicTrackingAngularMomentum => .vec
  | .vec_MinJointAngles => .vec
  | .vec_MaxJointAngles => .vec
  | .vec_KinematicDefaultJointPositions => .vec
  | .vec_WeightJointVelocity => .vec
  | .vec_WeightJointAcceleration => .vec
  | .vec_WeightKinematicTrackingCenterOfMass => .vec
  | .vec_WeightKinematicDefaultJointPositions => .vec
  | .vec_WeightKinematicTrackingLinearMomentum => .vec
  | .vec_WeightKinematicTrackingAngularMomentum => .vec
  | .vec_WeightKinematicTrackingBaseOrientation => .vec
  | .vec_WeightKinematicTrackingLinearMomentumRate => .vec
  | .vec_WeightKinematicTrackingAngularMomentumRate => .vec
  | .vec_WeightKinematicTrackingEndeffectorPosition => .vec
  | .vec_WeightKinematicTrackingNonActiveEndeffectorPosition => .vec
  | .vec_PGainMomentumTracking_Second => .vec
  | .arr_EndeffectorOffset => .arr
  | .arr_CenterOfPressureRange => .arr
  | .cvec_Viapoints => .cvec
  | .cvec_JointViapoints => .cvec
  | .cvec_BaseViapoints => .cvec
  | .cvec_JointViapoints_Second => .cvec
  | .cvec_BaseViapoints_Second => .cvec

/-- Declared type of a member (PlannerSetting.hpp:53-100). -/
def Field.kind : Field → Kind
  | .num_dofs => .int
  | .num_act_dofs => .int
  | .num_subsamples => .int
  | .kd_iterations => .int
  | .num_extended_act_dofs => .int
  | .max_trajectory_iters => .int
  | .max_convergence_iters => .int
  | .num_timesteps => .int
  | .num_com_viapoints => .int
  | .num_act_eefs => .int
  | .num_joint_viapoints => .int
  | .num_base_viapoints => .int
  | .num_joint_viapoints_second => .int
  | .num_base_viapoints_second => .int
  | .max_time_iterations => .int
  | .is_time_horizon_fixed => .bool
  | .is_friction_cone_linear => .bool
  | .display_motion => .bool
  | .load_kinematics => .bool
  | .store_data => .bool
  | .use_default_solver_setting => .bool
  | .use_second_order_inv_kin => .bool
  | .kin_slacks_penalty => .double
  | .kin_integration_step => .double
  | .lambda_regularization => .double
  | .convergence_tolerance => .double
  | .time_step => .double
  | .time_horizon => .double
  | .min_rel_height => .double
  | .max_time_residual_tolerance => .double
  | .min_time_residual_improvement => .double
  | .gravity => .double
  | .robot_mass => .double
  | .floor_height => .double
  | .mass_times_gravity => .double
  | .friction_coeff => .double
  | .w_trq_arm => .double
  | .w_trq_leg => .double
  | .w_time => .double
  | .w_time_penalty => .double
  | .swing_traj_via_z => .double
  | .w_lin_mom_tracking => .double
  | .w_ang_mom_tracking => .double
  | .w_endeff_contact => .double
  | .w_endeff_tracking => .double
  | .p_endeff_tracking => .double
  | .p_com_tracking => .double
  | .w_joint_regularization => .double
  | .reg_orientation => .double
  | .reg_joint_position => .double
  | .swing_traj_via_z_second => .double
  | .w_lin_mom_tracking_second => .double
  | .w_ang_mom_tracking_second => .double
  | .w_endeff_contact_second => .double
  | .w_endeff_tracking_second => .double
  | .p_endeff_tracking_second => .double
  | .p_com_tracking_second => .double
  | .w_joint_regularization_second => .double
  | .d_endeff_tracking_second => .double
  | .p_orient_tracking_second => .double
  | .d_orient_tracking_second => .double
  | .p_joint_regularization_second => .double
  | .d_joint_regularization_second => .double
  | .cfg_file => .string
  | .save_dynamics_file => .string
  | .save_kinematics_file => .string
  | .default_solver_setting_file => .string
  | .active_dofs => .ivec
  | .extended_active_dofs => .ivec
  | .external_force => .vec
  | .com_displacement => .vec
  | .min_joint_limits => .vec
  | .max_joint_limits => .vec
  | .default_joint_positions => .vec
  | .time_range => .vec
  | .torque_range => .vec
  | .gravity_vector => .vec
  | .max_eef_lengths => .vec
  | .w_frc_arm => .vec
  | .w_frc_leg => .vec
  | .w_com => .vec
  | .w_lmom => .vec
  | .w_amom => .vec
  | .w_dfrc_arm => .vec
  | .w_dfrc_leg => .vec
  | .w_lmomd => .vec
  | .w_amomd => .vec
  | .w_com_via => .vec
  | .w_lmom_final => .vec
  | .w_amom_final => .vec
  | .w_com_track => .vec
  | .w_lmom_track => .vec
  | .w_amom_track => .vec
  | .w_kin_joint_vel => .vec
  | .w_kin_joint_acc => .vec
  | .w_kin_com => .vec
  | .w_kin_lmom => .vec
  | .w_kin_amom => .vec
  | .w_kin_base_ori => .vec
  | .w_kin_lmomd => .vec
  | .w_kin_amomd => .vec
  | .w_kin_eff_pos => .vec
  | .w_kin_default_joints => .vec
  | .w_kin_eff_pos_nonact => .vec
  | .p_mom_tracking_second => .vec
  | .eff_offset => .arr
  | .cop_range => .arr
  | .com_viapoints => .cvec
  | .joint_viapoints => .cvec
  | .base_viapoints => .cvec
  | .joint_viapoints_second => .cvec
  | .base_viapoints_second => .cvec

/-- Member returned by the const `get`, PlannerSetting.cpp:235-267, 269-293, 295-357, 359-374, 376-387, 389-444, 446-457, 459-473; `none` is the exception of the default case. -/
def readField : Param → Option Field
  | .int_NumDofs => some .num_dofs
  | .int_NumActiveDofs => some .num_act_dofs
  | .int_NumSubsamples => some .num_subsamples
  | .int_KinDynIterations => some .kd_iterations
  | .int_NumExtendedActiveDofs => some .num_extended_act_dofs
  | .int_MaxKinTrajectoryIterations => some .max_trajectory_iters
  | .int_MaxKinConvergenceIterations => some .max_convergence_iters
  | .int_NumTimesteps => some .num_timesteps
  | .int_NumViapoints => some .num_com_viapoints
  | .int_NumActiveEndeffectors => some .num_act_eefs
  | .int_NumJointViapoints => some .num_joint_viapoints
  | .int_NumBaseViapoints => some .num_base_viapoints
  | .int_NumJointViapoints_Second => some .num_joint_viapoints_second
  | .int_NumBaseViapoints_Second => some .num_base_viapoints_second
  | .int_MaxNumTimeIterations => some .max_time_iterations
  | .bool_IsTimeHorizonFixed => some .is_time_horizon_fixed
  | .bool_IsFrictionConeLinear => some .is_friction_cone_linear
  | .bool_DisplayMotion => some .display_motion
  | .bool_LoadKinematics => some .load_kinematics
  | .bool_StoreData => some .store_data
  | .bool_UseDefaultSolverSetting => some .use_default_solver_setting
  | .bool_UseSecondOrderInverseKinematics => some .use_second_order_inv_kin
  | .double_KinSlacksPenalty => some .kin_slacks_penalty
  | .double_KinIntegrationStep => some .kin_integration_step
  | .double_LambdaRegularization => some .lambda_regularization
  | .double_KinConvergenceTolerance => some .convergence_tolerance
  | .double_TimeStep => some .time_step
  | .double_TimeHorizon => some .time_horizon
  | .double_MinRelHeight => some .min_rel_height
  | .double_MaxTimeResidualTolerance => some .max_time_residual_tolerance
  | .double_MinTimeResidualImprovement => some .min_time_residual_improvement
  | .double_Gravity => some .gravity
  | .double_RobotMass => some .robot_mass
  | .double_FloorHeight => some .floor_height
  | .double_RobotWeight => some .mass_times_gravity
  | .double_FrictionCoefficient => some .friction_coeff
  | .double_MassTimesGravity => some .mass_times_gravity
  | .double_WeightArmTorque => some .w_trq_arm
  | .double_WeightLegTorque => some .w_trq_leg
  | .double_WeightTimeRegularization => some .w_time
  | .double_WeightTimePenalty => some .w_time_penalty
  | .double_SwingTrajViaZ => some .swing_traj_via_z
  | .double_WeightLinMomentumTracking => some .w_lin_mom_tracking
  | .double_WeightAngMomentumTracking => some .w_ang_mom_tracking
  | .double_WeightEndEffContact => some .w_endeff_contact
  | .double_WeightEndEffTracking => some .w_endeff_tracking
  | .double_PGainEndEffTracking => some .p_endeff_tracking
  | .double_PGainComTracking => some .p_com_tracking
  | .double_WeightJointReg => some .w_joint_regularization
  | .double_PGainOrientationTracking => some .reg_orientation
  | .double_PGainPositionTracking => some .reg_joint_position
  | .double_SwingTrajViaZ_Second => some .swing_traj_via_z_second
  | .double_WeightLinMomentumTracking_Second => some .w_lin_mom_tracking_second
  | .double_WeightAngMomentumTracking_Second => some .w_ang_mom_tracking_second
  | .double_WeightEndEffContact_Second => some .w_endeff_contact_second
  | .double_WeightEndEffTracking_Second => some .w_endeff_tracking_second
  | .double_PGainEndEffTracking_Second => some .p_endeff_tracking_second
  | .double_PGainComTracking_Second => some .p_com_tracking_second
  | .double_WeightJointReg_Second => some .w_joint_regularization_second
  | .double_DGainEndEffTracking_Second => some .d_endeff_tracking_second
  | .double_PGainBaseOrientationTracking_Second => some .p_orient_tracking_second
  | .double_DGainBaseOrientationTracking_Second => some .d_orient_tracking_second
  | .double_PGainJointRegularization_Second => some .p_joint_regularization_second
  | .double_DGainJointRegularization_Second => some .d_joint_regularization_second
  | .string_ConfigFile => some .cfg_file
  | .string_SaveDynamicsFile => some .save_dynamics_file
  | .string_SaveKinematicsFile => some .save_kinematics_file
  | .string_DefaultSolverSettingFile => some .default_solver_setting_file
  | .ivec_ActiveDofs => some .active_dofs
  | .ivec_ExtendedActiveDofs => some .extended_active_dofs
  | .vec_ExternalForce => some .external_force
  | .vec_CenterOfMassMotion => some .com_displacement
  | .vec_MinJointAngles => some .min_joint_limits
  | .vec_MaxJointAngles => some .max_joint_limits
  | .vec_KinematicDefaultJointPositions => some .default_joint_positions
  | .vec_TimeRange => some .time_range
  | .vec_TorqueRange => some .torque_range
  | .vec_GravityVector => some .gravity_vector
  | .vec_MaxEndeffectorLengths => some .max_eef_lengths
  | .vec_WeightArmForce => some .w_frc_arm
  | .vec_WeightLegForce => some .w_frc_leg
  | .vec_WeightCenterOfMass => some .w_com
  | .vec_WeightLinearMomentum => some .w_lmom
  | .vec_WeightAngularMomentum => some .w_amom
  | .vec_WeightArmForceRate => some .w_dfrc_arm
  | .vec_WeightLegForceRate => some .w_dfrc_leg
  | .vec_WeightLinearMomentumRate => some .w_lmomd
  | .vec_WeightAngularMomentumRate => some .w_amomd
  | .vec_WeightCenterOfMassViapoint => some .w_com_via
  | .vec_WeightFinalLinearMomentum => some .w_lmom_final
  | .vec_WeightFinalAngularMomentum => some .w_amom_final
  | .vec_WeightDynamicTrackingCenterOfMass => some .w_com_track
  | .vec_WeightDynamicTrackingLinearMomentum => some .w_lmom_track
  | .vec_WeightDynamicTrackingAngularMomentum => some .w_amom_track
  | .vec_WeightJointVelocity => some .w_kin_joint_vel
  | .vec_WeightJointAcceleration => some .w_kin_joint_acc
  | .vec_WeightKinematicTrackingCenterOfMass => some .w_kin_com
  | .vec_WeightKinematicTrackingLinearMomentum => some .w_kin_lmom
  | .vec_WeightKinematicTrackingAngularMomentum => some .w_kin_amom
  | .vec_WeightKinematicTrackingBaseOrientation => some .w_kin_base_ori
  | .vec_WeightKinematicTrackingLinearMomentumRate => some .w_kin_lmomd
  | .vec_WeightKinematicTrackingAngularMomentumRate => some .w_kin_amomd
  | .vec_WeightKinematicTrackingEndeffectorPosition => some .w_kin_eff_pos
  | .vec_WeightKinematicDefaultJointPositions => some .w_kin_default_joints
  | .vec_WeightKinematicTrackingNonActiveEndeffectorPosition => some .w_kin_eff_pos_nonact
  | .vec_PGainMomentumTracking_Second => some .p_mom_tracking_second
  | .arr_EndeffectorOffset => some .eff_offset
  | .arr_CenterOfPressureRange => some .cop_range
  | .cvec_Viapoints => some .com_viapoints
  | .cvec_JointViapoints => some .joint_viapoints
  | .cvec_BaseViapoints => some .base_viapoints
  | .cvec_JointViapoints_Second => some .joint_viapoints_second
  | .cvec_BaseViapoints_Second => some .base_viapoints_second

/-- Member returned by the non-const `get`, to which the caller may assign, PlannerSetting.cpp:475-507, 509-533, 535-592, 594-609, 611-622, 624-679, 681-692, 694-709; `none` is the exception of the default case. -/
def writeField : Param → Option Field
  | .int_NumDofs => some .num_dofs
  | .int_NumActiveDofs => some .num_act_dofs
  | .int_NumSubsamples => some .num_subsamples
  | .int_KinDynIterations => some .kd_iterations
  | .int_NumExtendedActiveDofs => some .num_extended_act_dofs
  | .int_MaxKinTrajectoryIterations => some .max_trajectory_iters
  | .int_MaxKinConvergenceIterations => some .max_convergence_iters
  | .int_NumTimesteps => some .num_timesteps
  | .int_NumViapoints => some .num_com_viapoints
  | .int_NumActiveEndeffectors => some .num_act_eefs
  | .int_NumJointViapoints => some .num_joint_viapoints
  | .int_NumBaseViapoints => some .num_base_viapoints
  | .int_NumJointViapoints_Second => some .num_joint_viapoints_second
  | .int_NumBaseViapoints_Second => some .num_base_viapoints_second
  | .int_MaxNumTimeIterations => some .max_time_iterations
  | .bool_IsTimeHorizonFixed => some .is_time_horizon_fixed
  | .bool_IsFrictionConeLinear => some .is_friction_cone_linear
  | .bool_DisplayMotion => some .display_motion
  | .bool_LoadKinematics => some .load_kinematics
  | .bool_StoreData => some .store_data
  | .bool_UseDefaultSolverSetting => some .use_default_solver_setting
  | .bool_UseSecondOrderInverseKinematics => some .use_second_order_inv_kin
  | .double_KinSlacksPenalty => some .kin_slacks_penalty
  | .double_KinIntegrationStep => some .kin_integration_step
  | .double_LambdaRegularization => some .lambda_regularization
  | .double_KinConvergenceTolerance => some .convergence_tolerance
  | .double_TimeStep => some .time_step
  | .double_TimeHorizon => some .time_horizon
  | .double_MinRelHeight => some .min_rel_height
  | .double_MaxTimeResidualTolerance => some .max_time_residual_tolerance
  | .double_MinTimeResidualImprovement => some .min_time_residual_improvement
  | .double_Gravity => some .gravity
  | .double_RobotMass => some .robot_mass
  | .double_FloorHeight => some .floor_height
  | .double_RobotWeight => some .mass_times_gravity
  | .double_FrictionCoefficient => some .friction_coeff
  | .double_MassTimesGravity => some .mass_times_gravity
  | .double_WeightArmTorque => some .w_trq_arm
  | .double_WeightLegTorque => some .w_trq_leg
  | .double_WeightTimeRegularization => some .w_time
  | .double_WeightTimePenalty => some .w_time_penalty
  | .double_SwingTrajViaZ => some .swing_traj_via_z
  | .double_WeightLinMomentumTracking => some .w_lin_mom_tracking
  | .double_WeightAngMomentumTracking => some .w_ang_mom_tracking
  | .double_WeightEndEffContact => some .w_endeff_contact
  | .double_WeightEndEffTracking => some .w_endeff_tracking
  | .double_PGainEndEffTracking => some .p_endeff_tracking
  | .double_PGainComTracking => some .p_com_tracking
  | .double_WeightJointReg => some .w_joint_regularization
  | .double_PGainOrientationTracking => some .reg_orientation
  | .double_PGainPositionTracking => some .reg_joint_position
  | .double_SwingTrajViaZ_Second => some .swing_traj_via_z_second
  | .double_WeightLinMomentumTracking_Second => some .w_lin_mom_tracking_second
  | .double_WeightAngMomentumTracking_Second => some .w_ang_mom_tracking_second
  | .double_WeightEndEffContact_Second => some .w_endeff_contact_second
  | .double_WeightEndEffTracking_Second => some .w_endeff_tracking_second
  | .double_PGainEndEffTracking_Second => some .p_endeff_tracking_second
  | .double_PGainComTracking_Second => some .p_com_tracking_second
  | .string_ConfigFile => some .cfg_file
  | .string_SaveDynamicsFile => some .save_dynamics_file
  | .string_SaveKinematicsFile => some .save_kinematics_file
  | .string_DefaultSolverSettingFile => some .default_solver_setting_file
  | .ivec_ActiveDofs => some .active_dofs
  | .ivec_ExtendedActiveDofs => some .extended_active_dofs
  | .vec_ExternalForce => some .external_force
  | .vec_CenterOfMassMotion => some .com_displacement
  | .vec_MinJointAngles => some .min_joint_limits
  | .vec_MaxJointAngles => some .max_joint_limits
  | .vec_KinematicDefaultJointPositions => some .default_joint_positions
  | .vec_TimeRange => some .time_range
  | .vec_TorqueRange => some .torque_range
  | .vec_GravityVector => some .gravity_vector
  | .vec_MaxEndeffectorLengths => some .max_eef_lengths
  | .vec_WeightArmForce => some .w_frc_arm
  | .vec_WeightLegForce => some .w_frc_leg
  | .vec_WeightCenterOfMass => some .w_com
  | .vec_WeightLinearMomentum => some .w_lmom
  | .vec_WeightAngularMomentum => some .w_amom
  | .vec_WeightArmForceRate => some .w_dfrc_arm
  | .vec_WeightLegForceRate => some .w_dfrc_leg
  | .vec_WeightLinearMomentumRate => some .w_lmomd
  | .vec_WeightAngularMomentumRate => some .w_amomd
  | .vec_WeightCenterOfMassViapoint => some .w_com_via
  | .vec_WeightFinalLinearMomentum => some .w_lmom_final
  | .vec_WeightFinalAngularMomentum => some .w_amom_final
  | .vec_WeightDynamicTrackingCenterOfMass => some .w_com_track
  | .vec_WeightDynamicTrackingLinearMomentum => some .w_lmom_track
  | .vec_WeightDynamicTrackingAngularMomentum => some .w_amom_track
  | .vec_WeightJointVelocity => some .w_kin_joint_vel
  | .vec_WeightJointAcceleration => some .w_kin_joint_acc
  | .vec_WeightKinematicTrackingCenterOfMass => some .w_kin_com
  | .vec_WeightKinematicTrackingLinearMomentum => some .w_kin_lmom
  | .vec_WeightKinematicTrackingAngularMomentum => some .w_kin_amom
  | .vec_WeightKinematicTrackingBaseOrientation => some .w_kin_base_ori
  | .vec_WeightKinematicTrackingLinearMomentumRate => some .w_kin_lmomd
  | .vec_WeightKinematicTrackingAngularMomentumRate => some .w_kin_amomd
  | .vec_WeightKinematicTrackingEndeffectorPosition => some .w_kin_eff_pos
  | .vec_WeightKinematicDefaultJointPositions => some .w_kin_default_joints
  | .vec_WeightKinematicTrackingNonActiveEndeffectorPosition => some .w_kin_eff_pos_nonact
  | .vec_PGainMomentumTracking_Second => some .p_mom_tracking_second
  | .arr_EndeffectorOffset => some .eff_offset
  | .arr_CenterOfPressureRange => some .cop_range
  | .cvec_Viapoints => some .com_viapoints
  | .cvec_JointViapoints => some .joint_viapoints
  | .cvec_BaseViapoints => some .base_viapoints
  | .cvec_JointViapoints_Second => some .joint_viapoints_second
  | .cvec_BaseViapoints_Second => some .base_viapoints_second
  | _ => none

end Planner

namespace ConicSolver

/-- All enumerators of the parameter types of `SolverSetting`, solver/include/solver/interface/SolverParams.hpp; the prefixes of the enumerators are dropped, the type is the first word (SolverParams.hpp:14-106). -/
inductive Param where
  | int_BnBMaxIters
  | int_EquilibrationIters
  | int_NumIterRefinementsLinSolve
  | int_MaxIters
  | int_WarmStartIters
  | int_SolverMaxIters
  | int_NumberRefinementsTrustRegion
  | int_ColNum
  | int_NumIter
  | int_NumRefsLinSolve
  | int_NumRefsLinSolveAffine
  | int_NumRefsLinSolveCorrector
  | bool_Verbose
  | bool_BnBVerbose
  | double_BnBIntegerTol
  | double_BnBAbsSubOptGap
  | double_BnBRelSubOptGap
  | double_FeasibilityTol
  | double_DualityGapAbsTol
  | double_DualityGapRelTol
  | double_FeasibilityTolInacc
  | double_DualityGapAbsTolInacc
  | double_DualityGapRelTolInacc
  | double_LinearSystemAccuracy
  | double_ErrorReductionFactor
  | double_StaticRegularization
  | double_DynamicRegularization
  | double_DynamicRegularizationThresh
  | double_SafeGuard
  | double_MinimumStepLength
  | double_MaximumStepLength
  | double_StepLengthScaling
  | double_MinimumCenteringStep
  | double_MaximumCenteringStep
  | double_TrustRegionThreshold
  | double_SoftConstraintWeightFull
  | double_SoftConstraintWeightReduced
  | double_X
  | double_LB
  | double_UB
  | double_Guess
  | double_Tau
  | double_Kappa
  | double_DualCost
  | double_PrimalCost
  | double_DualityGap
  | double_KappaOverTau
  | double_DualResidual
  | double_MeritFunction
  | double_PrimalResidual
  | double_DualInfeasibility
  | double_RelativeDualityGap
  | double_PrimalInfeasibility
  | double_StepLength
  | double_AffineStepLength
  | double_CorrectionStepLength
  deriving DecidableEq, Repr

/-- The members of `SolverSetting` reachable through its parameters (SolverSetting.hpp:64-85). -/
inductive Field where
  | BnB_verbose
  | verbose
  | BnB_max_iterations
  | equil_iterations
  | num_iter_ref_lin_solve
  | max_iters
  | ipsolver_max_iters
  | ipsolver_warm_iters
  | num_itrefs_trustregion
  | BnB_integer_tolerance
  | BnB_absolute_suboptimality_gap
  | BnB_relative_suboptimality_gap
  | feasibility_tolerance
  | absolute_suboptimality_gap
  | relative_suboptimality_gap
  | feasibility_tolerance_inaccurate
  | absolute_suboptimality_gap_inaccurate
  | relative_suboptimality_gap_inaccurate
  | lin_sys_accuracy
  | err_reduction_factor
  | dyn_reg_thresh
  | static_regularization
  | dynamic_regularization
  | safeguard
  | min_step_length
  | max_step_length
  | step_length_scaling
  | min_centering_step
  | max_centering_step
  | trust_region_threshold
  | soft_constraint_weight_full
  | soft_constraint_weight_reduced
  deriving DecidableEq, Repr

/-- Type of a parameter (SolverParams.hpp:14-106). -/
def Param.kind : Param → Kind
  | .int_BnBMaxIters => .int
  | .int_EquilibrationIters => .int
  | .int_NumIterRefinementsLinSolve => .int
  | .int_MaxIters => .int
  | .int_WarmStartIters => .int
  | .int_SolverMaxIters => .int
  | .int_NumberRefinementsTrustRegion => .int
  | .int_ColNum => .int
  | .int_NumIter => .int
  | .int_NumRefsLinSolve => .int
  | .int_NumRefsLinSolveAffine => .int
  | .int_NumRefsLinSolveCorrector => .int
  | .bool_Verbose => .bool
  | .bool_BnBVerbose => .bool
  | .double_BnBIntegerTol => .double
  | .double_BnBAbsSubOptGap => .double
  | .double_BnBRelSubOptGap => .double
  | .double_FeasibilityTol => .double
  | .double_DualityGapAbsTol => .double
  | .double_DualityGapRelTol => .double
  | .double_FeasibilityTolInacc => .double
  | .double_DualityGapAbsTolInacc => .double
  | .double_DualityGapRelTolInacc => .double
  | .double_LinearSystemAccuracy => .double
  | .double_ErrorReductionFactor => .double
  | .double_StaticRegularization => .double
  | .double_DynamicRegularization => .double
  | .double_DynamicRegularizationThresh => .double
  | .double_SafeGuard => .double
  | .double_MinimumStepLength => .double
  | .double_MaximumStepLength => .double
  | .double_StepLengthScaling => .double
  | .double_MinimumCenteringStep => .double
  | .double_MaximumCenteringStep => .double
  | .double_TrustRegionThreshold => .double
  | .double_SoftConstraintWeightFull => .double
  | .double_SoftConstraintWeightReduced => .double
  | .double_X => .double
  | .double_LB => .double
  | .double_UB => .double
  | .double_Guess => .double
  | .double_Tau => .double
  | .double_Kappa => .double
  | .double_DualCost => .double
  | .double_PrimalCost => .double
  | .double_DualityGap => .double
  | .double_KappaOverTau => .double
  | .double_DualResidual => .double
  | .double_MeritFunction => .double
  | .double_PrimalResidual => .double
  | .double_DualInfeasibility => .double
  | .double_RelativeDualityGap => .double
  | .double_PrimalInfeasibility => .double
  | .double_StepLength => .double
  | .double_AffineStepLength => .double
  | .double_CorrectionStepLength => .double

/-- Declared type of a member (SolverSetting.hpp:64-85). -/
def Field.kind : Field → Kind
  | .BnB_verbose => .bool
  | .verbose => .bool
  | .BnB_max_iterations => .int
  | .equil_iterations => .int
  | .num_iter_ref_lin_solve => .int
  | .max_iters => .int
  | .ipsolver_max_iters => .int
  | .ipsolver_warm_iters => .int
  | .num_itrefs_trustregion => .int
  | .BnB_integer_tolerance => .double
  | .BnB_absolute_suboptimality_gap => .double
  | .BnB_relative_suboptimality_gap => .double
  | .feasibility_tolerance => .double
  | .absolute_suboptimality_gap => .double
  | .relative_suboptimality_gap => .double
  | .feasibility_tolerance_inaccurate => .double
  | .absolute_suboptimality_gap_inaccurate => .double
  | .relative_suboptimality_gap_inaccurate => .double
  | .lin_sys_accuracy => .double
  | .err_reduction_factor => .double
  | .dyn_reg_thresh => .double
  | .static_regularization => .double
  | .dynamic_regularization => .double
  | .safeguard => .double
  | .min_step_length => .double
  | .max_step_length => .double
  | .step_length_scaling => .double
  | .min_centering_step => .double
  | .max_centering_step => .double
  | .trust_region_threshold => .double
  | .soft_constraint_weight_full => .double
  | .soft_constraint_weight_reduced => .double

/-- Member returned by `get`, SolverSetting.cpp:81-94, 112-132, 157-197; `none` is the exception of the default case. -/
def readField : Param → Option Field
  | .bool_BnBVerbose => some .BnB_verbose
  | .bool_Verbose => some .verbose
  | .int_BnBMaxIters => some .BnB_max_iterations
  | .int_EquilibrationIters => some .equil_iterations
  | .int_NumIterRefinementsLinSolve => some .num_iter_ref_lin_solve
  | .int_MaxIters => some .max_iters
  | .int_SolverMaxIters => some .ipsolver_max_iters
  | .int_WarmStartIters => some .ipsolver_warm_iters
  | .int_NumberRefinementsTrustRegion => some .num_itrefs_trustregion
  | .double_BnBIntegerTol => some .BnB_integer_tolerance
  | .double_BnBAbsSubOptGap => some .BnB_absolute_suboptimality_gap
  | .double_BnBRelSubOptGap => some .BnB_relative_suboptimality_gap
  | .double_FeasibilityTol => some .feasibility_tolerance
  | .double_DualityGapAbsTol => some .absolute_suboptimality_gap
  | .double_DualityGapRelTol => some .relative_suboptimality_gap
  | .double_FeasibilityTolInacc => some .feasibility_tolerance_inaccurate
  | .double_DualityGapAbsTolInacc => some .absolute_suboptimality_gap_inaccurate
  | .double_DualityGapRelTolInacc => some .relative_suboptimality_gap_inaccurate
  | .double_LinearSystemAccuracy => some .lin_sys_accuracy
  | .double_ErrorReductionFactor => some .err_reduction_factor
  | .double_DynamicRegularizationThresh => some .dyn_reg_thresh
  | .double_StaticRegularization => some .static_regularization
  | .double_DynamicRegularization => some .dynamic_regularization
  | .double_SafeGuard => some .safeguard
  | .double_MinimumStepLength => some .min_step_length
  | .double_MaximumStepLength => some .max_step_length
  | .double_StepLengthScaling => some .step_length_scaling
  | .double_MinimumCenteringStep => some .min_centering_step
  | .double_MaximumCenteringStep => some .max_centering_step
  | .double_TrustRegionThreshold => some .trust_region_threshold
  | .double_SoftConstraintWeightFull => some .soft_constraint_weight_full
  | .double_SoftConstraintWeightReduced => some .soft_constraint_weight_reduced
  | _ => none

/-- Member assigned by `set`, SolverSetting.cpp:96-109, 134-154, 199-239; `none` is the exception of the default case. -/
def writeField : Param → Option Field
  | .bool_BnBVerbose => some .BnB_verbose
  | .bool_Verbose => some .verbose
  | .int_BnBMaxIters => some .BnB_max_iterations
  | .int_EquilibrationIters => some .equil_iterations
  | .int_NumIterRefinementsLinSolve => some .num_iter_ref_lin_solve
  | .int_MaxIters => some .max_iters
  | .int_SolverMaxIters => some .ipsolver_max_iters
  | .int_WarmStartIters => some .ipsolver_warm_iters
  | .int_NumberRefinementsTrustRegion => some .num_itrefs_trustregion
  | .double_BnBIntegerTol => some .BnB_integer_tolerance
  | .double_BnBAbsSubOptGap => some .BnB_absolute_suboptimality_gap
  | .double_BnBRelSubOptGap => some .BnB_relative_suboptimality_gap
  | .double_FeasibilityTol => some .feasibility_tolerance
  | .double_DualityGapAbsTol => some .absolute_suboptimality_gap
  | .double_DualityGapRelTol => some .relative_suboptimality_gap
  | .double_FeasibilityTolInacc => some .feasibility_tolerance_inaccurate
  | .double_DualityGapAbsTolInacc => some .absolute_suboptimality_gap_inaccurate
  | .double_DualityGapRelTolInacc => some .relative_suboptimality_gap_inaccurate
  | .double_LinearSystemAccuracy => some .lin_sys_accuracy
  | .double_ErrorReductionFactor => some .err_reduction_factor
  | .double_DynamicRegularizationThresh => some .dyn_reg_thresh
  | .double_StaticRegularization => some .static_regularization
  | .double_DynamicRegularization => some .dynamic_regularization
  | .double_SafeGuard => some .safeguard
  | .double_MinimumStepLength => some .min_step_length
  | .double_MaximumStepLength => some .max_step_length
  | .double_StepLengthScaling => some .step_length_scaling
  | .double_MinimumCenteringStep => some .min_centering_step
  | .double_MaximumCenteringStep => some .max_centering_step
  | .double_TrustRegionThreshold => some .trust_region_threshold
  | .double_SoftConstraintWeightFull => some .soft_constraint_weight_full
  | .double_SoftConstraintWeightReduced => some .soft_constraint_weight_reduced
  | _ => none

end ConicSolver

namespace LqrSolver

/-- All enumerators of the parameter types of `SolverLqrSetting`, solver_lqr/include/solver_lqr/SolverLqrParams.hpp; the prefixes of the enumerators are dropped, the type is the first word (SolverLqrParams.hpp:14-90). -/
inductive Param where
  | int_Verbosity
  | int_PrecisionDigits
  | int_LqrMaxIterations
  | int_BackPassRegulatizationType
  | int_TimeDimension
  | int_StateDimension
  | int_ControlDimension
  | int_CurrentIteration
  | int_BackpassDivergeIteration
  | bool_StoreData
  | bool_HasControlLimits
  | bool_UseRungeKuttaIntegration
  | double_CostChangeTolerance
  | double_DivergenceLimitCheck
  | double_ControlGradientTolerance
  | double_BackPassMinRegularization
  | double_BackPassMaxRegularization
  | double_MinExpectedCostImprovement
  | double_BackPassInitialRegularization
  | double_BackPassMultRegularizationIncr
  | double_BackPassInitialMultRegularizationIncr
  | double_TimeStep
  | double_TimeHorizon
  | double_Cost
  | double_CostChange
  | double_ExpectedCost
  | double_ControlGradient
  | double_CurrentRegularization
  | string_ConfigFile
  | string_SaveLqrFile
  | vec_LineSearchCoeffs
  | vec_InitialState
  | vec_MinControlLimits
  | vec_MaxControlLimits
  | yaml_UserParameters
  deriving DecidableEq, Repr

/-- The members of `SolverLqrSetting` reachable through its parameters (SolverLqrSetting.hpp:45-64). -/
inductive Field where
  | store_data
  | has_control_limits
  | use_runge_kutta_integration
  | verbosity
  | lqr_max_iters
  | precision_digits
  | bpass_regularization_type
  | time_dimension
  | state_dimension
  | control_dimension
  | cost_change_tolerance
  | divergence_limit_check
  | bpass_min_regularization
  | bpass_max_regularization
  | control_gradient_tolerance
  | min_expected_cost_improvement
  | bpass_initial_regularization
  | bpass_mult_regularization_incr
  | bpass_initial_mult_regularization_incr
  | time_step
  | time_horizon
  | cfg_file
  | save_lqr_file
  | alpha
  | initial_state
  | min_control_limits
  | max_control_limits
  | user_parameters
  deriving DecidableEq, Repr

/-- Type of a parameter (SolverLqrParams.hpp:14-90). -/
def Param.kind : Param → Kind
  | .int_Verbosity => .int
  | .int_PrecisionDigits => .int
  | .int_LqrMaxIterations => .int
  | .int_BackPassRegulatizationType => .int
  | .int_TimeDimension => .int
  | .int_StateDimension => .int
  | .int_ControlDimension => .int
  | .int_CurrentIteration => .int
  | .int_BackpassDivergeIteration => .int
  | .bool_StoreData => .bool
  | .bool_HasControlLimits => .bool
  | .bool_UseRungeKuttaIntegration => .bool
  | .double_CostChangeTolerance => .double
  | .double_DivergenceLimitCheck => .double
  | .double_ControlGradientTolerance => .double
  | .double_BackPassMinRegularization => .double
  | .double_BackPassMaxRegularization => .double
  | .double_MinExpectedCostImprovement => .double
  | .double_BackPassInitialRegularization => .double
  | .double_BackPassMultRegularizationIncr => .double
  | .double_BackPassInitialMultRegularizationIncr => .double
  | .double_TimeStep => .double
  | .double_TimeHorizon => .double
  | .double_Cost => .double
  | .double_CostChange => .double
  | .double_ExpectedCost => .double
  | .double_ControlGradient => .double
  | .double_CurrentRegularization => .double
  | .string_ConfigFile => .string
  | .string_SaveLqrFile => .string
  | .vec_LineSearchCoeffs => .vec
  | .vec_InitialState => .vec
  | .vec_MinControlLimits => .vec
  | .vec_MaxControlLimits => .vec
  | .yaml_UserParameters => .yaml

/-- Declared type of a member (SolverLqrSetting.hpp:45-64). -/
def Field.kind : Field → Kind
  | .store_data => .bool
  | .has_control_limits => .bool
  | .use_runge_kutta_integration => .bool
  | .verbosity => .int
  | .lqr_max_iters => .int
  | .precision_digits => .int
  | .bpass_regularization_type => .int
  | .time_dimension => .int
  | .state_dimension => .int
  | .control_dimension => .int
  | .cost_change_tolerance => .double
  | .divergence_limit_check => .double
  | .bpass_min_regularization => .double
  | .bpass_max_regularization => .double
  | .control_gradient_tolerance => .double
  | .min_expected_cost_improvement => .double
  | .bpass_initial_regularization => .double
  | .bpass_mult_regularization_incr => .double
  | .bpass_initial_mult_regularization_incr => .double
  | .time_step => .double
  | .time_horizon => .double
  | .cfg_file => .string
  | .save_lqr_file => .string
  | .alpha => .vec
  | .initial_state => .vec
  | .min_control_limits => .vec
  | .max_control_limits => .vec
  | .user_parameters => .yaml

/-- Member returned by the const `get`, SolverLqrSetting.cpp:87-99, 122-140, 167-189, 205-216, 234-247, 262-272; `none` is the exception of the default case. -/
def readField : Param → Option Field
  | .bool_StoreData => some .store_data
  | .bool_HasControlLimits => some .has_control_limits
  | .bool_UseRungeKuttaIntegration => some .use_runge_kutta_integration
  | .int_Verbosity => some .verbosity
  | .int_LqrMaxIterations => some .lqr_max_iters
  | .int_PrecisionDigits => some .precision_digits
  | .int_BackPassRegulatizationType => some .bpass_regularization_type
  | .int_TimeDimension => some .time_dimension
  | .int_StateDimension => some .state_dimension
  | .int_ControlDimension => some .control_dimension
  | .double_CostChangeTolerance => some .cost_change_tolerance
  | .double_DivergenceLimitCheck => some .divergence_limit_check
  | .double_BackPassMinRegularization => some .bpass_min_regularization
  | .double_BackPassMaxRegularization => some .bpass_max_regularization
  | .double_ControlGradientTolerance => some .control_gradient_tolerance
  | .double_MinExpectedCostImprovement => some .min_expected_cost_improvement
  | .double_BackPassInitialRegularization => some .bpass_initial_regularization
  | .double_BackPassMultRegularizationIncr => some .bpass_mult_regularization_incr
  | .double_BackPassInitialMultRegularizationIncr => some .bpass_initial_mult_regularization_incr
  | .double_TimeStep => some .time_step
  | .double_TimeHorizon => some .time_horizon
  | .string_ConfigFile => some .cfg_file
  | .string_SaveLqrFile => some .save_lqr_file
  | .vec_LineSearchCoeffs => some .alpha
  | .vec_InitialState => some .initial_state
  | .vec_MinControlLimits => some .min_control_limits
  | .vec_MaxControlLimits => some .max_control_limits
  | .yaml_UserParameters => some .user_parameters
  | _ => none

/-- Member returned by the non-const `get`, to which the caller may assign, SolverLqrSetting.cpp:73-85, 102-120, 143-165, 192-203, 219-232, 250-260; `none` is the exception of the default case. -/
def writeField : Param → Option Field
  | .bool_StoreData => some .store_data
  | .bool_HasControlLimits => some .has_control_limits
  | .bool_UseRungeKuttaIntegration => some .use_runge_kutta_integration
  | .int_Verbosity => some .verbosity
  | .int_LqrMaxIterations => some .lqr_max_iters
  | .int_PrecisionDigits => some .precision_digits
  | .int_BackPassRegulatizationType => some .bpass_regularization_type
  | .int_TimeDimension => some .time_dimension
  | .int_StateDimension => some .state_dimension
  | .int_ControlDimension => some .control_dimension
  | .double_CostChangeTolerance => some .cost_change_tolerance
  | .double_DivergenceLimitCheck => some .divergence_limit_check
  | .double_BackPassMinRegularization => some .bpass_min_regularization
  | .double_BackPassMaxRegularization => some .bpass_max_regularization
  | .double_ControlGradientTolerance => some .control_gradient_tolerance
  | .double_MinExpectedCostImprovement => some .min_expected_cost_improvement
  | .double_BackPassInitialRegularization => some .bpass_initial_regularization
  | .double_BackPassMultRegularizationIncr => some .bpass_mult_regularization_incr
  | .double_BackPassInitialMultRegularizationIncr => some .bpass_initial_mult_regularization_incr
  | .double_TimeStep => some .time_step
  | .double_TimeHorizon => some .time_horizon
  | .string_ConfigFile => some .cfg_file
  | .string_SaveLqrFile => some .save_lqr_file
  | .vec_LineSearchCoeffs => some .alpha
  | .vec_InitialState => some .initial_state
  | .vec_MinControlLimits => some .min_control_limits
  | .vec_MaxControlLimits => some .max_control_limits
  | .yaml_UserParameters => some .user_parameters
  | _ => none

end LqrSolver

end Settings
end Verif
