import Verif.SettingsInit

/-!
C251-C254: theorems about the loading of the solver settings (model in `SettingsInit.lean`).
-/
namespace Verif
namespace Settings

/-! ### specification: the key of the configuration file that sets a parameter -/

/-- Key of the section `solver_variables` for each parameter of the conic solver (momentumopt/config/default_solver_setting.yaml). -/
def conicKey : ConicSolver.Param → Option String
  | .bool_BnBVerbose => some "BnB_verbose"
  | .bool_Verbose => some "verbose"
  | .int_BnBMaxIters => some "BnB_max_iterations"
  | .int_EquilibrationIters => some "equil_iterations"
  | .int_NumIterRefinementsLinSolve => some "num_iter_ref_lin_solve"
  | .int_MaxIters => some "max_iters"
  | .int_SolverMaxIters => some "ipsolver_max_iters"
  | .int_WarmStartIters => some "ipsolver_warm_iters"
  | .int_NumberRefinementsTrustRegion => some "num_itrefs_trustregion"
  | .double_BnBIntegerTol => some "BnB_integer_tolerance"
  | .double_BnBAbsSubOptGap => some "BnB_absolute_suboptimality_gap"
  | .double_BnBRelSubOptGap => some "BnB_relative_suboptimality_gap"
  | .double_FeasibilityTol => some "feasibility_tolerance"
  | .double_DualityGapAbsTol => some "absolute_suboptimality_gap"
  | .double_DualityGapRelTol => some "relative_suboptimality_gap"
  | .double_FeasibilityTolInacc => some "feasibility_tolerance_inaccurate"
  | .double_DualityGapAbsTolInacc => some "absolute_suboptimality_gap_inaccurate"
  | .double_DualityGapRelTolInacc => some "relative_suboptimality_gap_inaccurate"
  | .double_LinearSystemAccuracy => some "lin_sys_accuracy"
  | .double_ErrorReductionFactor => some "err_reduction_factor"
  | .double_DynamicRegularizationThresh => some "dyn_reg_thresh"
  | .double_StaticRegularization => some "static_regularization"
  | .double_DynamicRegularization => some "dynamic_regularization"
  | .double_SafeGuard => some "safeguard"
  | .double_MinimumStepLength => some "min_step_length"
  | .double_MaximumStepLength => some "max_step_length"
  | .double_StepLengthScaling => some "step_length_scaling"
  | .double_MinimumCenteringStep => some "min_centering_step"
  | .double_MaximumCenteringStep => some "max_centering_step"
  | .double_TrustRegionThreshold => some "trust_region_threshold"
  | .double_SoftConstraintWeightFull => some "soft_constraint_weight_full"
  | .double_SoftConstraintWeightReduced => some "soft_constraint_weight_reduced"
  | _ => none

/-- Key of the section `solverlqr_variables` for each parameter of the LQR solver that is read unconditionally and stored as it is
(solver_lqr/tests/yaml_config_files/test_cfg_files/cfg_demo01.yaml). -/
def lqrKey : LqrSolver.Param → Option String
  | .bool_StoreData => some "store_data"
  | .bool_HasControlLimits => some "has_control_limits"
  | .int_Verbosity => some "verbosity"
  | .int_LqrMaxIterations => some "lqr_max_iters"
  | .int_PrecisionDigits => some "decimal_digits"
  | .int_BackPassRegulatizationType => some "bpass_regularization_type"
  | .int_StateDimension => some "state_dimension"
  | .int_ControlDimension => some "control_dimension"
  | .double_CostChangeTolerance => some "cost_change_tolerance"
  | .double_DivergenceLimitCheck => some "divergence_limit_check"
  | .double_BackPassMinRegularization => some "bpass_min_regularization"
  | .double_BackPassMaxRegularization => some "bpass_max_regularization"
  | .double_ControlGradientTolerance => some "control_gradient_tolerance"
  | .double_MinExpectedCostImprovement => some "min_expected_cost_improvement"
  | .double_BackPassInitialRegularization => some "bpass_initial_regularization"
  | .double_BackPassMultRegularizationIncr => some "bpass_mult_regularization_incr"
  | .double_BackPassInitialMultRegularizationIncr => some "bpass_initial_mult_regularization_incr"
  | .double_TimeStep => some "time_step"
  | .double_TimeHorizon => some "time_horizon"
  | .vec_InitialState => some "initial_state"
  | _ => none

/-- The parameter `p` reads as `v` (with the type of the parameter). -/
def Reads' {C : Class} (s : Obj C) (p : C.Param) (v : (C.kindP p).Val) : Prop := s.get p = some ⟨C.kindP p, v⟩

/-! ### lemmas -/

variable {C : Class}

theorem readKeys_spec (sec : Section) : ∀ (l : List (String × C.Field)) (s s' : Obj C), (l.map Prod.snd).Nodup → readKeys sec l s = (s', true) →
    (∀ kf ∈ l, sec kf.1 (C.kindF kf.2) = some (s' kf.2)) ∧ ∀ g, g ∉ l.map Prod.snd → s' g = s g := by
  intro l
  induction l with
  | nil => intro s s' _ h; simp only [readKeys, Prod.mk.injEq, and_true] at h; subst h; exact ⟨by simp, fun _ _ => rfl⟩
  | cons kf r ih =>
    obtain ⟨key, f⟩ := kf
    intro s s' hn h
    simp only [List.map_cons, List.nodup_cons] at hn
    unfold readKeys andThen readKey at h
    cases hv : sec key (C.kindF f) with
    | none => simp [hv] at h
    | some v =>
      simp only [hv] at h
      obtain ⟨a, b⟩ := ih _ _ hn.2 h
      have hf : s' f = v := by rw [b f hn.1, put_same]
      refine ⟨fun kf hkf => ?_, fun g hg => ?_⟩
      · rcases List.mem_cons.1 hkf with rfl | hkf
        · simp only [hf, hv]
        · exact a kf hkf
      · simp only [List.map_cons, List.mem_cons, not_or] at hg
        rw [b g hg.2, put_other _ _ hg.1]

theorem readKeys_ok (sec : Section) : ∀ (l : List (String × C.Field)) (s : Obj C), (readKeys sec l s).2 = true ↔ ∀ kf ∈ l, (sec kf.1 (C.kindF kf.2)).isSome = true := by
  intro l
  induction l with
  | nil => intro s; simp [readKeys]
  | cons kf r ih =>
    obtain ⟨key, f⟩ := kf
    intro s
    unfold readKeys andThen readKey
    cases hv : sec key (C.kindF f) with
    | none => simp [hv]
    | some v => simp only [hv, List.mem_cons, forall_eq_or_imp, Option.isSome_some, true_and]; exact ih _

theorem sig_inj {k : Kind} {a b : k.Val} (h : (⟨k, a⟩ : Σ k : Kind, k.Val) = ⟨k, b⟩) : a = b := eq_of_heq (Sigma.mk.inj h).2

theorem andThen_ok {a b : Stmt C} {s s' : Obj C} (h : andThen a b s = (s', true)) : ∃ m, a s = (m, true) ∧ b m = (s', true) := by
  unfold andThen at h
  split at h
  · exact ⟨_, by assumption, h⟩
  · simp at h

theorem conic_nodup : (conicReads.map Prod.snd).Nodup := by decide

theorem conic_all (f : ConicSolver.Field) : f ∈ conicReads.map Prod.snd := by cases f <;> decide

/-- Each parameter with a key is read from that key into the member that `get` returns. -/
theorem conic_key {p : ConicSolver.Param} {key : String} (h : conicKey p = some key) :
    ∃ f, ConicSolver.readField p = some f ∧ (key, f) ∈ conicReads ∧ ConicSolver.Field.kind f = ConicSolver.Param.kind p := by
  cases p <;> simp only [conicKey, Option.some.injEq, reduceCtorEq] at h <;> subst h <;> exact ⟨_, rfl, by simp [conicReads], rfl⟩

/-! ### C251 -/

/-- C251: when the file is well formed and `initialize` returns, every parameter of the conic solver that can be read at all holds the value that the file gives under its key, converted to
the type of the parameter. -/
theorem C251_load (secs : String → Option Section) (name : String) (s s' : Obj conicSolver) (h : initConic (.parsed secs) name s = (s', .returned)) :
    ∃ sec, secs name = some sec ∧ ∀ p : ConicSolver.Param,
      ((s.get p).isSome ↔ (conicKey p).isSome) ∧
      ∀ key, conicKey p = some key → ∃ v, sec key (ConicSolver.Param.kind p) = some v ∧ Reads' s' p v := by
  unfold initConic guarded at h
  cases hs : secs name with
  | none => simp [hs] at h
  | some sec =>
    simp only [hs] at h
    refine ⟨sec, rfl, fun p => ⟨?_, fun key hk => ?_⟩⟩
    · cases p <;> simp [Obj.get, conicSolver, ConicSolver.readField, conicKey]
    cases hr : readKeys (C := conicSolver) sec conicReads s with
    | mk t b =>
      cases b with
      | false => simp [hr] at h
      | true =>
        simp only [hr, Prod.mk.injEq, and_true] at h
        subst h
        obtain ⟨f, h1, h2, h3⟩ := conic_key hk
        have := (readKeys_spec (C := conicSolver) sec conicReads s t conic_nodup hr).1 _ h2
        have hkf : conicSolver.kindF f = ConicSolver.Param.kind p := h3
        simp only at this
        have hg : t.get p = some ⟨ConicSolver.Field.kind f, t f⟩ := by
          unfold Obj.get
          rw [show conicSolver.read p = some f from h1]; rfl
        have h4 : conicSolver.kindP p = ConicSolver.Field.kind f := h3.symm
        change ∃ v : (conicSolver.kindP p).Val, sec key (conicSolver.kindP p) = some v ∧ t.get p = some ⟨conicSolver.kindP p, v⟩
        rw [hg, h4]
        exact ⟨t f, this, rfl⟩

/-- C251: `initialize` returns exactly if the file cannot be parsed, or has the section with a convertible value under every key. -/
theorem C251_returns (file : CfgFile) (name : String) (s : Obj conicSolver) :
    (initConic file name s).2 = .returned ↔
      file = .malformed ∨ ∃ secs sec, file = .parsed secs ∧ secs name = some sec ∧ ∀ p key, conicKey p = some key → (sec key (ConicSolver.Param.kind p)).isSome = true := by
  have key : ∀ sec : Section, (∀ kf ∈ conicReads, (sec kf.1 (conicSolver.kindF kf.2)).isSome = true) ↔
      ∀ p key, conicKey p = some key → (sec key (ConicSolver.Param.kind p)).isSome = true := by
    intro sec
    constructor
    · intro h p key hk
      obtain ⟨f, _, h2, h3⟩ := conic_key hk
      have := h _ h2
      rw [show conicSolver.kindF f = ConicSolver.Param.kind p from h3] at this
      exact this
    · intro h kf hkf
      have : ∃ p, conicKey p = some kf.1 ∧ ConicSolver.Param.kind p = conicSolver.kindF kf.2 := by
        simp only [conicReads, List.mem_cons, List.not_mem_nil, or_false] at hkf
        rcases hkf with h | h | h | h | h | h | h | h | h | h | h | h | h | h | h | h | h | h | h | h | h | h | h | h | h | h | h | h | h | h | h | h <;> subst h
        exacts [⟨.bool_BnBVerbose, rfl, rfl⟩, ⟨.int_BnBMaxIters, rfl, rfl⟩, ⟨.double_BnBIntegerTol, rfl, rfl⟩, ⟨.double_BnBAbsSubOptGap, rfl, rfl⟩, ⟨.double_BnBRelSubOptGap, rfl, rfl⟩,
          ⟨.double_FeasibilityTol, rfl, rfl⟩, ⟨.double_DualityGapAbsTol, rfl, rfl⟩, ⟨.double_DualityGapRelTol, rfl, rfl⟩, ⟨.double_FeasibilityTolInacc, rfl, rfl⟩,
          ⟨.double_DualityGapAbsTolInacc, rfl, rfl⟩, ⟨.double_DualityGapRelTolInacc, rfl, rfl⟩, ⟨.int_EquilibrationIters, rfl, rfl⟩, ⟨.double_DynamicRegularizationThresh, rfl, rfl⟩,
          ⟨.double_LinearSystemAccuracy, rfl, rfl⟩, ⟨.double_ErrorReductionFactor, rfl, rfl⟩, ⟨.int_NumIterRefinementsLinSolve, rfl, rfl⟩, ⟨.double_StaticRegularization, rfl, rfl⟩,
          ⟨.double_DynamicRegularization, rfl, rfl⟩, ⟨.double_SafeGuard, rfl, rfl⟩, ⟨.double_MinimumStepLength, rfl, rfl⟩, ⟨.double_MaximumStepLength, rfl, rfl⟩,
          ⟨.double_MinimumCenteringStep, rfl, rfl⟩, ⟨.double_MaximumCenteringStep, rfl, rfl⟩, ⟨.double_StepLengthScaling, rfl, rfl⟩, ⟨.bool_Verbose, rfl, rfl⟩, ⟨.int_MaxIters, rfl, rfl⟩,
          ⟨.int_SolverMaxIters, rfl, rfl⟩, ⟨.int_WarmStartIters, rfl, rfl⟩, ⟨.int_NumberRefinementsTrustRegion, rfl, rfl⟩, ⟨.double_TrustRegionThreshold, rfl, rfl⟩,
          ⟨.double_SoftConstraintWeightFull, rfl, rfl⟩, ⟨.double_SoftConstraintWeightReduced, rfl, rfl⟩]
      obtain ⟨p, h1, h2⟩ := this
      have := h p kf.1 h1
      rw [h2] at this
      exact this
  unfold initConic guarded
  cases file with
  | missing => simp
  | malformed => simp
  | parsed secs =>
    cases hs : secs name with
    | none => simp [hs]
    | some sec =>
      have e : (∃ secs_1 sec, CfgFile.parsed secs = CfgFile.parsed secs_1 ∧ secs_1 name = some sec ∧
          ∀ p key, conicKey p = some key → (sec key (ConicSolver.Param.kind p)).isSome = true) ↔ (readKeys (C := conicSolver) sec conicReads s).2 = true := by
        refine Iff.trans ?_ ((key sec).symm.trans (readKeys_ok (C := conicSolver) sec conicReads s).symm)
        constructor
        · rintro ⟨x, y, hx, hy, hz⟩
          cases hx
          rw [hs] at hy
          cases hy
          exact hz
        · exact fun h => ⟨secs, sec, rfl, hs, h⟩
      rw [e]
      simp only [hs, reduceCtorEq, false_or]
      cases hr : readKeys (C := conicSolver) sec conicReads s with
      | mk t b => cases b <;> simp

/-- C251: the settings after a load depend on the file only: whatever the object held before, two loads of the same well-formed file that return leave the same settings. -/
theorem C251_fresh (secs : String → Option Section) (name : String) (s₁ s₂ t₁ t₂ : Obj conicSolver) (h₁ : initConic (.parsed secs) name s₁ = (t₁, .returned))
    (h₂ : initConic (.parsed secs) name s₂ = (t₂, .returned)) : t₁ = t₂ := by
  unfold initConic guarded at h₁ h₂
  cases hs : secs name with
  | none => simp [hs] at h₁
  | some sec =>
    simp only [hs] at h₁ h₂
    cases r₁ : readKeys (C := conicSolver) sec conicReads s₁ with
    | mk a₁ b₁ =>
    cases r₂ : readKeys (C := conicSolver) sec conicReads s₂ with
    | mk a₂ b₂ =>
      cases b₁ <;> cases b₂ <;> simp only [r₁, r₂, Prod.mk.injEq, and_true, reduceCtorEq, and_false] at h₁ h₂
      subst h₁ h₂
      funext f
      obtain ⟨kf, hkf, rfl⟩ := List.mem_map.1 (conic_all f)
      have e₁ := (readKeys_spec (C := conicSolver) sec conicReads s₁ a₁ conic_nodup r₁).1 kf hkf
      have e₂ := (readKeys_spec (C := conicSolver) sec conicReads s₂ a₂ conic_nodup r₂).1 kf hkf
      exact Option.some.inj (e₁.symm.trans e₂)

/-! ### C252 -/

/-- C252: the line-search coefficients fit the vector exactly if their number is a non-negative integer (or rounds to zero from below). -/
theorem C252_coefficients (coeff num : ℝ) :
    (fillAlpha coeff num).isSome = true ↔ (-1 < num ∧ num < 0) ∨ ∃ n : ℕ, num = n := by
  unfold fillAlpha
  by_cases h0 : num < 0
  · rw [if_pos h0]
    have hn : ¬ ∃ n : ℕ, num = n := by rintro ⟨n, rfl⟩; exact absurd h0 (not_lt.2 (Nat.cast_nonneg n))
    by_cases h1 : num ≤ -1
    · rw [if_pos h1]; simp only [Option.isSome_none, Bool.false_eq_true, false_iff, not_or]; exact ⟨fun h => absurd h.1 (not_lt.2 h1), hn⟩
    · rw [if_neg h1]; simp only [Option.isSome_some, true_iff]; exact Or.inl ⟨not_le.1 h1, h0⟩
  · rw [if_neg h0]
    have h0' := not_lt.1 h0
    by_cases h : ⌈num⌉₊ ≤ ⌊num⌋₊
    · rw [if_pos h]
      simp only [Option.isSome_some, true_iff]
      exact Or.inr ⟨⌈num⌉₊, le_antisymm (Nat.le_ceil _) (le_trans (Nat.cast_le.2 h) (Nat.floor_le h0'))⟩
    · rw [if_neg h]
      simp only [Option.isSome_none, Bool.false_eq_true, false_iff, not_or]
      refine ⟨fun h1 => h0 h1.2, ?_⟩
      rintro ⟨n, rfl⟩
      exact h (by rw [Nat.ceil_natCast, Nat.floor_natCast])

theorem fillAlpha_nat (coeff : ℝ) (n : ℕ) : fillAlpha coeff n = some (alphas coeff n) := by
  unfold fillAlpha
  rw [if_neg (not_lt.2 (Nat.cast_nonneg n)), Nat.ceil_natCast, Nat.floor_natCast, if_pos le_rfl]

theorem lqr1_nodup : (lqrReads1.map Prod.snd).Nodup := by decide
theorem lqr2_nodup : (lqrReads2.map Prod.snd).Nodup := by decide

/-- The parts of a load of the LQR settings that returns. -/
theorem lqr_parts {path : String} {secs : String → Option Section} {name : String} {s s' : Obj lqrSolver} (h : initLqr path (.parsed secs) name s = (s', .returned)) :
    ∃ sec, secs name = some sec ∧
      (∀ kf ∈ lqrReads1, sec kf.1 (LqrSolver.Field.kind kf.2) = some (s' kf.2)) ∧
      (∀ kf ∈ lqrReads2, sec kf.1 (LqrSolver.Field.kind kf.2) = some (s' kf.2)) ∧
      (∃ c n : ℝ, ∃ a : List ℝ, sec "linesearch_coeff" .double = some c ∧ sec "linesearch_num_coeffs" .double = some n ∧ fillAlpha c n = some a ∧ s' .alpha = a) ∧
      (s' .time_dimension = (⌊(show ℝ from s' .time_horizon) / (show ℝ from s' .time_step)⌋ : ℤ)) ∧
      (sec "has_control_limits" .bool = some (s' .has_control_limits)) ∧
      ((show Bool from s' .has_control_limits) = true → sec "min_control_limits" .vec = some (s' .min_control_limits) ∧ sec "max_control_limits" .vec = some (s' .max_control_limits)) ∧
      ((show Bool from s' .has_control_limits) = false → s' .min_control_limits = s .min_control_limits ∧ s' .max_control_limits = s .max_control_limits) ∧
      s' .user_parameters = (sec "user_parameters" .yaml).getD "" ∧
      s' .use_runge_kutta_integration = false ∧ s' .cfg_file = path ∧ s' .save_lqr_file = stem path ++ "_lqr_results.yaml" := by
  unfold initLqr guarded at h
  cases hs : secs name with
  | none => simp [hs] at h
  | some sec =>
    simp only [hs] at h
    refine ⟨sec, rfl, ?_⟩
    set s0 : Obj lqrSolver := (s.put LqrSolver.Field.cfg_file (show String from path)).put LqrSolver.Field.save_lqr_file (show String from stem path ++ "_lqr_results.yaml") with hs0
    split at h
    swap
    · simp at h
    rename_i t hr
    simp only [Prod.mk.injEq, and_true] at h
    subst h
    obtain ⟨m1, e1, hr⟩ := andThen_ok hr
    obtain ⟨m2, e2, hr⟩ := andThen_ok hr
    obtain ⟨m3, e3, hr⟩ := andThen_ok hr
    obtain ⟨m4, e4, hr⟩ := andThen_ok hr
    obtain ⟨m5, e5, hr⟩ := andThen_ok hr
    obtain ⟨m6, e6, e7⟩ := andThen_ok hr
    simp only [Prod.mk.injEq, and_true] at e1
    obtain ⟨a2, b2⟩ := readKeys_spec (C := lqrSolver) sec lqrReads1 m1 m2 lqr1_nodup e2
    obtain ⟨a4, b4⟩ := readKeys_spec (C := lqrSolver) sec lqrReads2 m3 m4 lqr2_nodup e4
    have b2 : ∀ g : LqrSolver.Field, g ∉ lqrReads1.map Prod.snd → m2 g = m1 g := b2
    have b4 : ∀ g : LqrSolver.Field, g ∉ lqrReads2.map Prod.snd → m4 g = m3 g := b4
    obtain ⟨c, n, a, ec, en, ea, e3'⟩ : ∃ c n : ℝ, ∃ a : List ℝ, sec "linesearch_coeff" .double = some c ∧ sec "linesearch_num_coeffs" .double = some n ∧ fillAlpha c n = some a ∧
        m3 = m2.put LqrSolver.Field.alpha (show List ℝ from a) := by
      unfold lqrAlpha at e3
      split at e3
      · rename_i c n hc hn
        split at e3
        · rename_i a ha
          simp only [Prod.mk.injEq, and_true] at e3
          exact ⟨c, n, a, hc, hn, ha, e3.symm⟩
        · simp at e3
      · simp at e3
    have e5' : m5 = m4.put LqrSolver.Field.time_dimension (show ℤ from ⌊(show ℝ from m4 LqrSolver.Field.time_horizon) / (show ℝ from m4 LqrSolver.Field.time_step)⌋) := by
      unfold lqrSteps at e5
      simp only [Prod.mk.injEq, and_true] at e5
      exact e5.symm
    have e7' : t = m6.put LqrSolver.Field.user_parameters (show String from (sec "user_parameters" .yaml).getD "") := by
      unfold lqrUser at e7
      cases hu : sec "user_parameters" .yaml <;> simp only [hu, Prod.mk.injEq, and_true] at e7 <;> exact e7.symm
    obtain ⟨l, f1, f2⟩ := andThen_ok e6
    unfold readKey at f1
    cases hl : sec "has_control_limits" (lqrSolver.kindF LqrSolver.Field.has_control_limits) with
    | none => simp [hl] at f1
    | some hv =>
    simp only [hl, Prod.mk.injEq, and_true] at f1
    have lh : l LqrSolver.Field.has_control_limits = hv := by rw [← f1]; exact put_same _ _ _
    have frame6 : ∀ g : LqrSolver.Field, g ≠ .min_control_limits → g ≠ .max_control_limits → m6 g = l g := by
      intro g g1 g2
      split at f2
      · have := (readKeys_spec (C := lqrSolver) sec _ l m6 (by decide) f2).2
        have this : ∀ g : LqrSolver.Field, g ∉ [LqrSolver.Field.min_control_limits, LqrSolver.Field.max_control_limits] → m6 g = l g := this
        exact this g (by simp [g1, g2])
      · simp only [Prod.mk.injEq, and_true] at f2; rw [f2]
    have fl : ∀ g : LqrSolver.Field, g ≠ .has_control_limits → l g = m5 g := fun g hg => by rw [← f1]; exact put_other _ _ hg
    have f5 : ∀ g : LqrSolver.Field, g ≠ .time_dimension → m5 g = m4 g := fun g hg => by rw [e5']; exact put_other _ _ hg
    have f3 : ∀ g : LqrSolver.Field, g ≠ .alpha → m3 g = m2 g := fun g hg => by rw [e3']; exact put_other _ _ hg
    have f7 : ∀ g : LqrSolver.Field, g ≠ .user_parameters → t g = m6 g := fun g hg => by rw [e7']; exact put_other _ _ hg
    have f10 : ∀ g : LqrSolver.Field, g ≠ .use_runge_kutta_integration → m1 g = s0 g := fun g hg => by rw [← e1]; exact put_other _ _ hg
    have g1 : ∀ g : LqrSolver.Field, g ≠ .cfg_file → g ≠ .save_lqr_file → s0 g = s g := fun g h1 h2 => by rw [hs0]; exact (put_other _ _ h2).trans (put_other _ _ h1)
    have g2 : s0 LqrSolver.Field.cfg_file = (show String from path) := by
      rw [hs0]; exact (put_other (C := lqrSolver) _ _ (show LqrSolver.Field.cfg_file ≠ LqrSolver.Field.save_lqr_file by decide)).trans (put_same _ _ _)
    have g3 : s0 LqrSolver.Field.save_lqr_file = (show String from stem path ++ "_lqr_results.yaml") := by rw [hs0]; exact put_same _ _ _
    have tail4 : ∀ g : LqrSolver.Field, g ≠ .min_control_limits → g ≠ .max_control_limits → g ≠ .has_control_limits → g ≠ .time_dimension → g ≠ .user_parameters → t g = m4 g :=
      fun g g1 g2 g3 g4 g5 => by rw [f7 g g5, frame6 g g1 g2, fl g g3, f5 g g4]
    refine ⟨fun kf hkf => ?_, fun kf hkf => ?_, ⟨c, n, a, ec, en, ea, ?_⟩, ?_, ?_, fun ht => ?_, fun ht => ?_, ?_, ?_, ?_, ?_⟩
    · have hm : t kf.2 = m2 kf.2 := by
        simp only [lqrReads1, List.mem_cons, List.not_mem_nil, or_false] at hkf
        rcases hkf with h | h | h | h | h | h | h | h | h | h | h | h | h <;> subst h <;> dsimp only <;>
          rw [tail4 _ (by decide) (by decide) (by decide) (by decide) (by decide), b4 _ (by decide), f3 _ (by decide)]
      rw [hm]; exact a2 kf hkf
    · have hm : t kf.2 = m4 kf.2 := by
        simp only [lqrReads2, List.mem_cons, List.not_mem_nil, or_false] at hkf
        rcases hkf with h | h | h | h | h | h <;> subst h <;> exact tail4 _ (by decide) (by decide) (by decide) (by decide) (by decide)
      rw [hm]; exact a4 kf hkf
    · rw [tail4 _ (by decide) (by decide) (by decide) (by decide) (by decide), b4 _ (by decide), e3']; exact put_same _ _ _
    · rw [tail4 .time_horizon (by decide) (by decide) (by decide) (by decide) (by decide), tail4 .time_step (by decide) (by decide) (by decide) (by decide) (by decide),
        f7 _ (by decide), frame6 _ (by decide) (by decide), fl _ (by decide), e5']; exact put_same _ _ _
    · rw [f7 _ (by decide), frame6 _ (by decide) (by decide), lh]; exact hl
    · rw [f7 _ (by decide), frame6 _ (by decide) (by decide)] at ht
      rw [if_pos ht] at f2
      obtain ⟨k1, _⟩ := readKeys_spec (C := lqrSolver) sec _ l m6 (by decide) f2
      rw [f7 .min_control_limits (by decide), f7 .max_control_limits (by decide)]
      exact ⟨k1 ("min_control_limits", .min_control_limits) (by simp), k1 ("max_control_limits", .max_control_limits) (by simp)⟩
    · rw [f7 _ (by decide), frame6 _ (by decide) (by decide)] at ht
      rw [if_neg (by rw [ht]; decide)] at f2
      simp only [Prod.mk.injEq, and_true] at f2
      have old : ∀ g : LqrSolver.Field, g = .min_control_limits ∨ g = .max_control_limits → t g = s g := by
        rintro g (rfl | rfl) <;>
          rw [f7 _ (by decide), ← f2, fl _ (by decide), f5 _ (by decide), b4 _ (by decide), f3 _ (by decide), b2 _ (by decide), f10 _ (by decide), g1 _ (by decide) (by decide)]
      exact ⟨old _ (Or.inl rfl), old _ (Or.inr rfl)⟩
    · rw [e7']; exact put_same _ _ _
    · rw [tail4 _ (by decide) (by decide) (by decide) (by decide) (by decide), b4 _ (by decide), f3 _ (by decide), b2 _ (by decide), ← e1]; exact put_same _ _ _
    · rw [tail4 _ (by decide) (by decide) (by decide) (by decide) (by decide), b4 _ (by decide), f3 _ (by decide), b2 _ (by decide), f10 _ (by decide), g2]
    · rw [tail4 _ (by decide) (by decide) (by decide) (by decide) (by decide), b4 _ (by decide), f3 _ (by decide), b2 _ (by decide), f10 _ (by decide), g3]

/-- Each parameter with a key is read from that key into the member that `get` returns. -/
theorem lqr_key {p : LqrSolver.Param} {key : String} (h : lqrKey p = some key) :
    ∃ f, LqrSolver.readField p = some f ∧ ((key, f) ∈ lqrReads1 ∨ (key, f) ∈ lqrReads2 ∨ (key = "has_control_limits" ∧ f = .has_control_limits)) ∧
      LqrSolver.Field.kind f = LqrSolver.Param.kind p := by
  cases p <;> simp only [lqrKey, Option.some.injEq, reduceCtorEq] at h <;> subst h <;>
    first
    | exact ⟨_, rfl, Or.inr (Or.inr ⟨rfl, rfl⟩), rfl⟩
    | (refine ⟨_, rfl, Or.inl ?_, rfl⟩; simp [lqrReads1]; done)
    | (refine ⟨_, rfl, Or.inr (Or.inl ?_), rfl⟩; simp [lqrReads2]; done)

/-- C252: after a load of a well-formed file that returns, the parameters of the LQR solver hold what the file says: those with a key of their own as they are; the line-search coefficients are
`c^(-i²)` for the coefficient `c` and the number of coefficients of the file; the number of time steps is that of whole steps in the horizon; the control limits are those of the file when
there are limits, and otherwise whatever they were; the integration is Euler's; the results go to the file named after the configuration file. -/
theorem C252_load (path : String) (secs : String → Option Section) (name : String) (s s' : Obj lqrSolver) (h : initLqr path (.parsed secs) name s = (s', .returned)) :
    ∃ sec, secs name = some sec ∧
      (∀ p key, lqrKey p = some key → ∃ v, sec key (LqrSolver.Param.kind p) = some v ∧ Reads' s' p v) ∧
      (∀ (c : ℝ) (n : ℕ), sec "linesearch_coeff" .double = some c → sec "linesearch_num_coeffs" .double = some (n : ℝ) →
        ∃ a : List ℝ, Reads' s' .vec_LineSearchCoeffs a ∧ a.length = n ∧ ∀ (i : ℕ) (hi : i < a.length), a[i] = (c ^ (i * i))⁻¹) ∧
      (∀ T dt : ℝ, Reads' s' .double_TimeHorizon T → Reads' s' .double_TimeStep dt → ∃ N : ℤ, Reads' s' .int_TimeDimension N ∧ N = ⌊T / dt⌋) ∧
      (Reads' s' .bool_HasControlLimits true → ∃ lo hi : List ℝ, sec "min_control_limits" .vec = some lo ∧ sec "max_control_limits" .vec = some hi ∧
        Reads' s' .vec_MinControlLimits lo ∧ Reads' s' .vec_MaxControlLimits hi) ∧
      (Reads' s' .bool_HasControlLimits false → s'.get (C := lqrSolver) .vec_MinControlLimits = s.get (C := lqrSolver) .vec_MinControlLimits ∧
        s'.get (C := lqrSolver) .vec_MaxControlLimits = s.get (C := lqrSolver) .vec_MaxControlLimits) ∧
      Reads' s' .bool_UseRungeKuttaIntegration false ∧ Reads' s' .string_ConfigFile path ∧ Reads' s' .string_SaveLqrFile (stem path ++ "_lqr_results.yaml") := by
  obtain ⟨sec, h0, h1, h2, ⟨c, n, a, ec, en, ea, ha⟩, hN, hl, hT, hF, hu, hrk, hc, hsv⟩ := lqr_parts h
  refine ⟨sec, h0, ?_, ?_, ?_, ?_, ?_, ?_, ?_, ?_⟩
  · intro p key hk
    obtain ⟨f, e1, e2, e3⟩ := lqr_key hk
    have hv : sec key (LqrSolver.Field.kind f) = some (s' f) := by
      rcases e2 with e | e | ⟨rfl, rfl⟩
      · exact h1 _ e
      · exact h2 _ e
      · exact hl
    have hg : s'.get p = some ⟨LqrSolver.Field.kind f, s' f⟩ := by
      unfold Obj.get
      rw [show lqrSolver.read p = some f from e1]; rfl
    have h4 : lqrSolver.kindP p = LqrSolver.Field.kind f := e3.symm
    change ∃ v : (lqrSolver.kindP p).Val, sec key (lqrSolver.kindP p) = some v ∧ s'.get p = some ⟨lqrSolver.kindP p, v⟩
    rw [hg, h4]
    exact ⟨s' f, hv, rfl⟩
  · intro c' n' hc' hn'
    rw [ec] at hc'
    rw [en] at hn'
    cases hc'
    have hn'' : n = (n' : ℝ) := Option.some.inj hn'
    subst hn''
    rw [fillAlpha_nat] at ea
    cases ea
    refine ⟨alphas c n', ?_, by simp [alphas], fun i hi => ?_⟩
    · exact congrArg (fun v : List ℝ => some (⟨Kind.vec, v⟩ : Σ k : Kind, k.Val)) ha
    · simp only [alphas, List.getElem_map, List.getElem_range]
      rw [zpow_neg, ← Nat.cast_mul, zpow_natCast]
  · intro T dt hT' hdt
    refine ⟨_, rfl, ?_⟩
    have e1 : (show ℝ from s' .time_horizon) = T := sig_inj (Option.some.inj hT')
    have e2 : (show ℝ from s' .time_step) = dt := sig_inj (Option.some.inj hdt)
    rw [hN, e1, e2]
  · intro hb
    have e1 : (show Bool from s' .has_control_limits) = true := sig_inj (Option.some.inj hb)
    exact ⟨_, _, (hT e1).1, (hT e1).2, rfl, rfl⟩
  · intro hb
    have e1 : (show Bool from s' .has_control_limits) = false := sig_inj (Option.some.inj hb)
    exact ⟨congrArg (fun v : List ℝ => some (⟨Kind.vec, v⟩ : Σ k : Kind, k.Val)) (hF e1).1, congrArg (fun v : List ℝ => some (⟨Kind.vec, v⟩ : Σ k : Kind, k.Val)) (hF e1).2⟩
  · exact congrArg (fun v : Bool => some (⟨Kind.bool, v⟩ : Σ k : Kind, k.Val)) hrk
  · exact congrArg (fun v : String => some (⟨Kind.string, v⟩ : Σ k : Kind, k.Val)) hc
  · exact congrArg (fun v : String => some (⟨Kind.string, v⟩ : Σ k : Kind, k.Val)) hsv

/-! ### C253 -/

/-- C253, violated: a file that is not well-formed YAML is not reported: `initialize` of the conic solver returns and leaves every setting as it was, whatever that was. -/
theorem C253_conic_violated (name : String) (s : Obj conicSolver) : initConic .malformed name s = (s, .returned) := rfl

/-- C253, violated: so does that of the LQR solver, which only changes the two file names. -/
theorem C253_lqr_violated (path name : String) (s : Obj lqrSolver) :
    (initLqr path .malformed name s).2 = .returned ∧
    ∀ p : LqrSolver.Param, p ≠ .string_ConfigFile → p ≠ .string_SaveLqrFile → (initLqr path .malformed name s).1.get (C := lqrSolver) p = s.get (C := lqrSolver) p := by
  refine ⟨rfl, fun p h1 h2 => ?_⟩
  cases p <;> first | exact absurd rfl h1 | exact absurd rfl h2 | rfl

/-- C253, the part that holds: a missing file, a missing section or a value that is missing or cannot be converted is never passed over: the exception leaves `initialize`. -/
theorem C253_reported_partial (name : String) (s : Obj conicSolver) :
    (initConic .missing name s).2 = .thrown ∧
    (∀ secs, secs name = none → (initConic (.parsed secs) name s).2 = .thrown) ∧
    (∀ secs sec p key, secs name = some sec → conicKey p = some key → sec key (ConicSolver.Param.kind p) = none → (initConic (.parsed secs) name s).2 = .thrown) := by
  refine ⟨rfl, fun secs h => ?_, fun secs sec p key h1 h2 h3 => ?_⟩
  · unfold initConic guarded; simp [h]
  · by_contra hn
    have hr : (initConic (.parsed secs) name s).2 = .returned := by
      cases hh : (initConic (.parsed secs) name s).2
      · rfl
      · exact absurd hh hn
    rcases (C251_returns _ _ _).1 hr with h | ⟨x, y, hx, hy, hz⟩
    · cases h
    · cases hx
      rw [h1] at hy
      cases hy
      have := hz p key h2
      rw [h3] at this
      cases this

/-! ### C254 -/

/-- A load of the shipped file returns, whatever the object held before. -/
theorem shipped_returns (s : Obj conicSolver) : (initConic shippedFile "solver_variables" s).2 = .returned := by
  rw [C251_returns]
  refine Or.inr ⟨_, shipped, rfl, if_pos rfl, fun p key hk => ?_⟩
  cases p <;> simp only [conicKey, Option.some.injEq, reduceCtorEq] at hk <;> subst hk <;> rfl

theorem number_of {s : Obj conicSolver} {p : ConicSolver.Param} {v : ℝ} (h : s.get p = some ⟨Kind.double, v⟩) : s.number p = v := by unfold Obj.number; rw [h]
theorem integer_of {s : Obj conicSolver} {p : ConicSolver.Param} {v : ℤ} (h : s.get p = some ⟨Kind.int, v⟩) : s.integer p = v := by unfold Obj.integer; rw [h]

/-- C254: the parameters of the interior-point method after a load of the shipped file, each with its value in the file: accurate and inaccurate tolerances, safeguard, shortest and longest
step, step scaling, least and greatest centering, threshold of the regularisation, number of passes. -/
theorem C254_values (s s' : Obj conicSolver) (h : initConic shippedFile "solver_variables" s = (s', .returned)) :
    ipStg s' = { feastol := 1e-7, abstol := 1e-7, reltol := 1e-6, feastolInacc := 1e-4, abstolInacc := 5e-5, reltolInacc := 5e-5, safeguard := 500, minStep := 1e-6, maxStep := 0.999, stepScaling := 0.99, minCentering := 1e-4, maxCentering := 1, dynRegThresh := 1e-13, maxIters := 100 } := by
  obtain ⟨sec, hs, hp⟩ := C251_load _ _ s s' h
  have hsec : sec = shipped := by
    have : (if "solver_variables" = "solver_variables" then some shipped else none) = some sec := hs
    rw [if_pos rfl] at this
    exact (Option.some.inj this).symm
  subst hsec
  have num : ∀ (p : ConicSolver.Param) (key : String) (hk : conicKey p = some key) (hd : ConicSolver.Param.kind p = .double) (v : ℝ), shippedNumber key = some v → s'.number p = v := by
    intro p key hk hd v hv
    obtain ⟨w, h1, h2⟩ := (hp p).2 key hk
    revert w
    unfold Reads'
    change ∀ w : (ConicSolver.Param.kind p).Val, shipped key (ConicSolver.Param.kind p) = some w → s'.get (C := conicSolver) p = some ⟨ConicSolver.Param.kind p, w⟩ → s'.number p = v
    rw [hd]
    intro w h1 h2
    have h1' : shippedNumber key = some w := h1
    rw [hv] at h1'
    cases h1'
    exact number_of h2
  have n1 := num .double_FeasibilityTol _ rfl rfl _ rfl
  have n2 := num .double_DualityGapAbsTol _ rfl rfl _ rfl
  have n3 := num .double_DualityGapRelTol _ rfl rfl _ rfl
  have n4 := num .double_FeasibilityTolInacc _ rfl rfl _ rfl
  have n5 := num .double_DualityGapAbsTolInacc _ rfl rfl _ rfl
  have n6 := num .double_DualityGapRelTolInacc _ rfl rfl _ rfl
  have n7 := num .double_SafeGuard _ rfl rfl _ rfl
  have n8 := num .double_MinimumStepLength _ rfl rfl _ rfl
  have n9 := num .double_MaximumStepLength _ rfl rfl _ rfl
  have n10 := num .double_StepLengthScaling _ rfl rfl _ rfl
  have n11 := num .double_MinimumCenteringStep _ rfl rfl _ rfl
  have n12 := num .double_MaximumCenteringStep _ rfl rfl _ rfl
  have n14 := num .double_DynamicRegularizationThresh _ rfl rfl _ rfl
  have n13 : s'.integer .int_SolverMaxIters = 100 := by
    obtain ⟨w, h1, h2⟩ := (hp .int_SolverMaxIters).2 _ rfl
    have h1' : (some 100 : Option ℤ) = some w := h1
    cases h1'
    exact integer_of h2
  unfold ipStg
  rw [n1, n2, n3, n4, n5, n6, n7, n8, n9, n10, n11, n12, n13, n14]
  simp only [IP.Stg.mk.injEq]
  norm_num

/-- C254: with the shipped settings, the step and centering parameters are in the ranges that the convergence theorems of the interior-point method ask for, the tolerances are positive, the
inaccurate ones are no stricter than the accurate ones, and the solver may make a hundred passes. -/
theorem C254_shipped (s s' : Obj conicSolver) (h : initConic shippedFile "solver_variables" s = (s', .returned)) :
    (ipStg s').Steps ∧ (ipStg s').minCentering < 1 ∧ 0 < (ipStg s').stepScaling ∧ 0 < (ipStg s').feastol ∧ 0 < (ipStg s').abstol ∧ 0 < (ipStg s').reltol ∧
      (ipStg s').feastol ≤ (ipStg s').feastolInacc ∧ (ipStg s').abstol ≤ (ipStg s').abstolInacc ∧ (ipStg s').reltol ≤ (ipStg s').reltolInacc ∧
      (ipStg s').reltolInacc ≤ IP.nanv ∧ (ipStg s').feastolInacc ≤ IP.nanv ∧ 1 < (ipStg s').safeguard ∧ (ipStg s').maxIters = 100 := by
  have nn : (10 : ℝ) ≤ IP.nanv := by norm_num [IP.nanv]
  rw [C254_values s s' h]
  refine ⟨⟨⟨?_, ?_, ?_⟩, ?_, ?_, ?_, ?_, ?_⟩, ?_, ?_, ?_, ?_, ?_, ?_, ?_, ?_, ?_, ?_, ?_, rfl⟩ <;>
    first | (norm_num; done) | (refine le_trans ?_ nn; norm_num)

/-- C254: with the shipped settings, whatever the limit on the passes, an exact run of the interior-point method on problems of bounded initial error stops after a number of passes that
depends only on that bound and on a lower bound of `tau`. -/
theorem C254_finite (s : Obj conicSolver) (c : Cone) (hne : c.NoEmpty) (t : ℝ) (ht0 : 0 < t) (B : ℝ) :
    ∃ N : Nat, ∀ (S : Equil.Storage) (lin : IP.LinOracle) (st0 : IP.St) (m : Int),
      let g := { ipStg (initConic shippedFile "solver_variables" s).1 with maxIters := m }
      Equil.Fits c S → IP.ExactRun c g S lin st0 → IP.Inside c st0.opt →
      IP.gapOf c st0.opt ≤ B → |IP.rT c S st0.opt| ≤ B → IP.errorOf c S st0.opt ≤ B → (∀ n st, IP.Visits c g S lin st0 n st → t ≤ st.opt.tau) →
      ∀ n st, IP.Visits c g S lin st0 n st → n ≤ N := by
  obtain ⟨h1, h2, h3, h4, h5, _⟩ := C254_shipped s (initConic shippedFile "solver_variables" s).1 (Prod.ext rfl (shipped_returns s))
  exact IP.C249_finite c hne _ h1 h2 h3 h4 h5 t ht0 B

/-! ### the hypotheses can be met -/

/-- The object of the examples. -/
noncomputable def exObj (C : Class) : Obj C := fun f => match C.kindF f with
  | .int => (show ℤ from 0)
  | .bool => false
  | .double => (show ℝ from 0)
  | .string => (show String from "")
  | .ivec => (show List ℤ from [])
  | .vec => (show List ℝ from [])
  | .arr => (show Fin 4 → List ℝ from fun _ => [])
  | .cvec => (show List (List ℝ) from [])
  | .yaml => (show String from "")

/-- The hypothesis of C251_load and C254_shipped. -/
example : ∃ s', initConic shippedFile "solver_variables" (exObj conicSolver) = (s', .returned) := ⟨_, Prod.ext rfl (shipped_returns _)⟩

/-- A file without the last key. -/
example : (initConic (.parsed fun _ => some fun key k => if key = "soft_constraint_weight_reduced" then none else shipped key k) "solver_variables" (exObj conicSolver)).2 = .thrown :=
  (C253_reported_partial "solver_variables" (exObj conicSolver)).2.2 _ _ .double_SoftConstraintWeightReduced _ rfl rfl (if_pos rfl)

/-- The section of the examples for the LQR solver. -/
noncomputable def exLqr : Section := fun key k => match k with
  | .int => some (show ℤ from 4)
  | .bool => some (decide (key = "has_control_limits"))
  | .double => some (show ℝ from if key = "time_horizon" then 4 else if key = "linesearch_num_coeffs" then 10 else 1 / 2)
  | .vec => some (show List ℝ from if key = "min_control_limits" then [-1, -1] else if key = "max_control_limits" then [1, 1] else [0, 0, 0, 0])
  | .yaml => some (show String from "nviapoints: 3")
  | _ => none

/-- The hypothesis of C252_load. -/
example : ∃ s', initLqr "cfg.yaml" (.parsed fun _ => some exLqr) "solverlqr_variables" (exObj lqrSolver) = (s', .returned) := by
  have ha : fillAlpha (1 / 2) 10 = some (alphas (1 / 2) 10) := by have := fillAlpha_nat (1 / 2) 10; simpa using this
  have h0 : ∀ (l : List (String × LqrSolver.Field)) (s : Obj lqrSolver), (∀ kf ∈ l, (exLqr kf.1 (LqrSolver.Field.kind kf.2)).isSome = true) →
      ∃ t, readKeys (C := lqrSolver) exLqr l s = (t, true) := fun l s h => ⟨_, Prod.ext rfl ((readKeys_ok (C := lqrSolver) exLqr l s).2 h)⟩
  unfold initLqr guarded
  simp only
  obtain ⟨t1, e1⟩ := h0 lqrReads1 ((((exObj lqrSolver).put LqrSolver.Field.cfg_file (show String from "cfg.yaml")).put LqrSolver.Field.save_lqr_file
    (show String from stem "cfg.yaml" ++ "_lqr_results.yaml")).put LqrSolver.Field.use_runge_kutta_integration (show Bool from false)) (by
      intro kf hkf
      simp only [lqrReads1, List.mem_cons, List.not_mem_nil, or_false] at hkf
      rcases hkf with h | h | h | h | h | h | h | h | h | h | h | h | h <;> subst h <;> rfl)
  obtain ⟨t2, e2⟩ := h0 lqrReads2 (t1.put LqrSolver.Field.alpha (show List ℝ from alphas (1 / 2) 10)) (by
      intro kf hkf
      simp only [lqrReads2, List.mem_cons, List.not_mem_nil, or_false] at hkf
      rcases hkf with h | h | h | h | h | h <;> subst h <;> rfl)
  have ea : lqrAlpha exLqr t1 = (t1.put LqrSolver.Field.alpha (show List ℝ from alphas (1 / 2) 10), true) := by
    have h1 : exLqr "linesearch_coeff" .double = some (1 / 2 : ℝ) := rfl
    have h2 : exLqr "linesearch_num_coeffs" .double = some (10 : ℝ) := congrArg some (by rw [if_neg (by decide), if_pos rfl])
    unfold lqrAlpha
    rw [h1, h2]
    simp only [ha]
  obtain ⟨t3, e3⟩ : ∃ t, lqrLimits exLqr (lqrSteps t2).1 = (t, true) := by
    unfold lqrLimits andThen
    rw [show readKey (C := lqrSolver) exLqr "has_control_limits" LqrSolver.Field.has_control_limits (lqrSteps t2).1 = ((lqrSteps t2).1.put LqrSolver.Field.has_control_limits (show Bool from true), true) from rfl]
    dsimp only
    split
    · exact h0 _ _ (by intro kf hkf; rcases List.mem_cons.1 hkf with h | h <;> [skip; rcases List.mem_cons.1 h with h | h <;> [skip; cases h]] <;> subst h <;> rfl)
    · exact ⟨_, rfl⟩
  unfold andThen
  simp only [e1, ea, e2]
  rw [show lqrSteps t2 = ((lqrSteps t2).1, true) from rfl]
  simp only [e3]
  exact ⟨_, rfl⟩

/-- A number of coefficients that is not whole does not fit. -/
example : (fillAlpha (1 / 2) (21 / 2)).isSome = false := by
  rw [Bool.eq_false_iff]
  intro h
  rcases (C252_coefficients _ _).1 h with ⟨_, h⟩ | ⟨n, h⟩
  · norm_num at h
  · have : (21 : ℝ) = ((2 * n : ℕ) : ℝ) := by push_cast; linarith
    have : 21 = 2 * n := by exact_mod_cast this
    omega

end Settings
end Verif
