import Verif.Settings

/-! For each member of the settings classes, the parameter it belongs to (proof device for C73). -/

namespace Verif
namespace Settings

/-- The parameter that reads a member. -/
def Planner.owner : Planner.Field → Planner.Param
  | .num_dofs => .int_NumDofs
  | .num_act_dofs => .int_NumActiveDofs
  | .num_subsamples => .int_NumSubsamples
  | .kd_iterations => .int_KinDynIterations
  | .num_extended_act_dofs => .int_NumExtendedActiveDofs
  | .max_trajectory_iters => .int_MaxKinTrajectoryIterations
  | .max_convergence_iters => .int_MaxKinConvergenceIterations
  | .num_timesteps => .int_NumTimesteps
  | .num_com_viapoints => .int_NumViapoints
  | .num_act_eefs => .int_NumActiveEndeffectors
  | .num_joint_viapoints => .int_NumJointViapoints
  | .num_base_viapoints => .int_NumBaseViapoints
  | .num_joint_viapoints_second => .int_NumJointViapoints_Second
  | .num_base_viapoints_second => .int_NumBaseViapoints_Second
  | .max_time_iterations => .int_MaxNumTimeIterations
  | .is_time_horizon_fixed => .bool_IsTimeHorizonFixed
  | .is_friction_cone_linear => .bool_IsFrictionConeLinear
  | .display_motion => .bool_DisplayMotion
  | .load_kinematics => .bool_LoadKinematics
  | .store_data => .bool_StoreData
  | .use_default_solver_setting => .bool_UseDefaultSolverSetting
  | .use_second_order_inv_kin => .bool_UseSecondOrderInverseKinematics
  | .kin_slacks_penalty => .double_KinSlacksPenalty
  | .kin_integration_step => .double_KinIntegrationStep
  | .lambda_regularization => .double_LambdaRegularization
  | .convergence_tolerance => .double_KinConvergenceTolerance
  | .time_step => .double_TimeStep
  | .time_horizon => .double_TimeHorizon
  | .min_rel_height => .double_MinRelHeight
  | .max_time_residual_tolerance => .double_MaxTimeResidualTolerance
  | .min_time_residual_improvement => .double_MinTimeResidualImprovement
  | .gravity => .double_Gravity
  | .robot_mass => .double_RobotMass
  | .floor_height => .double_FloorHeight
  | .mass_times_gravity => .double_MassTimesGravity
  | .friction_coeff => .double_FrictionCoefficient
  | .w_trq_arm => .double_WeightArmTorque
  | .w_trq_leg => .double_WeightLegTorque
  | .w_time => .double_WeightTimeRegularization
  | .w_time_penalty => .double_WeightTimePenalty
  | .swing_traj_via_z => .double_SwingTrajViaZ
  | .w_lin_mom_tracking => .double_WeightLinMomentumTracking
  | .w_ang_mom_tracking => .double_WeightAngMomentumTracking
  | .w_endeff_contact => .double_WeightEndEffContact
  | .w_endeff_tracking => .double_WeightEndEffTracking
  | .p_endeff_tracking => .double_PGainEndEffTracking
  | .p_com_tracking => .double_PGainComTracking
  | .w_joint_regularization => .double_WeightJointReg
  | .reg_orientation => .double_PGainOrientationTracking
  | .reg_joint_position => .double_PGainPositionTracking
  | .swing_traj_via_z_second => .double_SwingTrajViaZ_Second
  | .w_lin_mom_tracking_second => .double_WeightLinMomentumTracking_Second
  | .w_ang_mom_tracking_second => .double_WeightAngMomentumTracking_Second
  | .w_endeff_contact_second => .double_WeightEndEffContact_Second
  | .w_endeff_tracking_second => .double_WeightEndEffTracking_Second
  | .p_endeff_tracking_second => .double_PGainEndEffTracking_Second
  | .p_com_tracking_second => .double_PGainComTracking_Second
  | .w_joint_regularization_second => .double_WeightJointReg_Second
  | .d_endeff_tracking_second => .double_DGainEndEffTracking_Second
  | .p_orient_tracking_second => .double_PGainBaseOrientationTracking_Second
  | .d_orient_tracking_second => .double_DGainBaseOrientationTracking_Second
  | .p_joint_regularization_second => .double_PGainJointRegularization_Second
  | .d_joint_regularization_second => .double_DGainJointRegularization_Second
  | .cfg_file => .string_ConfigFile
  | .save_dynamics_file => .string_SaveDynamicsFile
  | .save_kinematics_file => .string_SaveKinematicsFile
  | .default_solver_setting_file => .string_DefaultSolverSettingFile
  | .active_dofs => .ivec_ActiveDofs
  | .extended_active_dofs => .ivec_ExtendedActiveDofs
  | .external_force => .vec_ExternalForce
  | .com_displacement => .vec_CenterOfMassMotion
  | .min_joint_limits => .vec_MinJointAngles
  | .max_joint_limits => .vec_MaxJointAngles
  | .default_joint_positions => .vec_KinematicDefaultJointPositions
  | .time_range => .vec_TimeRange
  | .torque_range => .vec_TorqueRange
  | .gravity_vector => .vec_GravityVector
  | .max_eef_lengths => .vec_MaxEndeffectorLengths
  | .w_frc_arm => .vec_WeightArmForce
  | .w_frc_leg => .vec_WeightLegForce
  | .w_com => .vec_WeightCenterOfMass
  | .w_lmom => .vec_WeightLinearMomentum
  | .w_amom => .vec_WeightAngularMomentum
  | .w_dfrc_arm => .vec_WeightArmForceRate
  | .w_dfrc_leg => .vec_WeightLegForceRate
  | .w_lmomd => .vec_WeightLinearMomentumRate
  | .w_amomd => .vec_WeightAngularMomentumRate
  | .w_com_via => .vec_WeightCenterOfMassViapoint
  | .w_lmom_final => .vec_WeightFinalLinearMomentum
  | .w_amom_final => .vec_WeightFinalAngularMomentum
  | .w_com_track => .vec_WeightDynamicTrackingCenterOfMass
  | .w_lmom_track => .vec_WeightDynamicTrackingLinearMomentum
  | .w_amom_track => .vec_WeightDynamicTrackingAngularMomentum
  | .w_kin_joint_vel => .vec_WeightJointVelocity
  | .w_kin_joint_acc => .vec_WeightJointAcceleration
  | .w_kin_com => .vec_WeightKinematicTrackingCenterOfMass
  | .w_kin_lmom => .vec_WeightKinematicTrackingLinearMomentum
  | .w_kin_amom => .vec_WeightKinematicTrackingAngularMomentum
  | .w_kin_base_ori => .vec_WeightKinematicTrackingBaseOrientation
  | .w_kin_lmomd => .vec_WeightKinematicTrackingLinearMomentumRate
  | .w_kin_amomd => .vec_WeightKinematicTrackingAngularMomentumRate
  | .w_kin_eff_pos => .vec_WeightKinematicTrackingEndeffectorPosition
  | .w_kin_default_joints => .vec_WeightKinematicDefaultJointPositions
  | .w_kin_eff_pos_nonact => .vec_WeightKinematicTrackingNonActiveEndeffectorPosition
  | .p_mom_tracking_second => .vec_PGainMomentumTracking_Second
  | .eff_offset => .arr_EndeffectorOffset
  | .cop_range => .arr_CenterOfPressureRange
  | .com_viapoints => .cvec_Viapoints
  | .joint_viapoints => .cvec_JointViapoints
  | .base_viapoints => .cvec_BaseViapoints
  | .joint_viapoints_second => .cvec_JointViapoints_Second
  | .base_viapoints_second => .cvec_BaseViapoints_Second

/-- The parameter that reads a member. -/
def ConicSolver.owner : ConicSolver.Field → ConicSolver.Param
  | .BnB_verbose => .bool_BnBVerbose
  | .verbose => .bool_Verbose
  | .BnB_max_iterations => .int_BnBMaxIters
  | .equil_iterations => .int_EquilibrationIters
  | .num_iter_ref_lin_solve => .int_NumIterRefinementsLinSolve
  | .max_iters => .int_MaxIters
  | .ipsolver_max_iters => .int_SolverMaxIters
  | .ipsolver_warm_iters => .int_WarmStartIters
  | .num_itrefs_trustregion => .int_NumberRefinementsTrustRegion
  | .BnB_integer_tolerance => .double_BnBIntegerTol
  | .BnB_absolute_suboptimality_gap => .double_BnBAbsSubOptGap
  | .BnB_relative_suboptimality_gap => .double_BnBRelSubOptGap
  | .feasibility_tolerance => .double_FeasibilityTol
  | .absolute_suboptimality_gap => .double_DualityGapAbsTol
  | .relative_suboptimality_gap => .double_DualityGapRelTol
  | .feasibility_tolerance_inaccurate => .double_FeasibilityTolInacc
  | .absolute_suboptimality_gap_inaccurate => .double_DualityGapAbsTolInacc
  | .relative_suboptimality_gap_inaccurate => .double_DualityGapRelTolInacc
  | .lin_sys_accuracy => .double_LinearSystemAccuracy
  | .err_reduction_factor => .double_ErrorReductionFactor
  | .dyn_reg_thresh => .double_DynamicRegularizationThresh
  | .static_regularization => .double_StaticRegularization
  | .dynamic_regularization => .double_DynamicRegularization
  | .safeguard => .double_SafeGuard
  | .min_step_length => .double_MinimumStepLength
  | .max_step_length => .double_MaximumStepLength
  | .step_length_scaling => .double_StepLengthScaling
  | .min_centering_step => .double_MinimumCenteringStep
  | .max_centering_step => .double_MaximumCenteringStep
  | .trust_region_threshold => .double_TrustRegionThreshold
  | .soft_constraint_weight_full => .double_SoftConstraintWeightFull
  | .soft_constraint_weight_reduced => .double_SoftConstraintWeightReduced

/-- The parameter that reads a member. -/
def LqrSolver.owner : LqrSolver.Field → LqrSolver.Param
  | .store_data => .bool_StoreData
  | .has_control_limits => .bool_HasControlLimits
  | .use_runge_kutta_integration => .bool_UseRungeKuttaIntegration
  | .verbosity => .int_Verbosity
  | .lqr_max_iters => .int_LqrMaxIterations
  | .precision_digits => .int_PrecisionDigits
  | .bpass_regularization_type => .int_BackPassRegulatizationType
  | .time_dimension => .int_TimeDimension
  | .state_dimension => .int_StateDimension
  | .control_dimension => .int_ControlDimension
  | .cost_change_tolerance => .double_CostChangeTolerance
  | .divergence_limit_check => .double_DivergenceLimitCheck
  | .bpass_min_regularization => .double_BackPassMinRegularization
  | .bpass_max_regularization => .double_BackPassMaxRegularization
  | .control_gradient_tolerance => .double_ControlGradientTolerance
  | .min_expected_cost_improvement => .double_MinExpectedCostImprovement
  | .bpass_initial_regularization => .double_BackPassInitialRegularization
  | .bpass_mult_regularization_incr => .double_BackPassMultRegularizationIncr
  | .bpass_initial_mult_regularization_incr => .double_BackPassInitialMultRegularizationIncr
  | .time_step => .double_TimeStep
  | .time_horizon => .double_TimeHorizon
  | .cfg_file => .string_ConfigFile
  | .save_lqr_file => .string_SaveLqrFile
  | .alpha => .vec_LineSearchCoeffs
  | .initial_state => .vec_InitialState
  | .min_control_limits => .vec_MinControlLimits
  | .max_control_limits => .vec_MaxControlLimits
  | .user_parameters => .yaml_UserParameters

end Settings
end Verif
