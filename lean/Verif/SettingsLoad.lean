import Verif.SettingsProps

/-!
C232: every key of the configuration file the planner settings read is what the getters return afterwards.
-/
namespace Verif
namespace Settings
open Planner.Field

/-! ### specification: the keys, grouped by the condition under which they are read -/

/-- Keys read from every file. -/
def keysAlways : List Planner.Field :=
  [load_kinematics, num_com_viapoints, time_step, num_act_eefs, time_horizon, min_rel_height, external_force, com_displacement, gravity, robot_mass, floor_height,
   torque_range, friction_coeff, max_eef_lengths, w_com, w_amom, w_lmom, w_amomd, w_lmomd, w_com_via, w_trq_arm, w_trq_leg, w_frc_arm, w_frc_leg, w_dfrc_arm, w_dfrc_leg,
   w_amom_final, w_lmom_final, w_com_track, w_lmom_track, w_amom_track, store_data, use_default_solver_setting]

/-- Keys read when the file says `heuristic: TimeOptimization`. -/
def keysTime : List Planner.Field :=
  [max_time_iterations, max_time_residual_tolerance, min_time_residual_improvement, time_range, is_time_horizon_fixed, w_time, w_time_penalty]

/-- Keys read when the file says `load_kinematics: True`. -/
def keysKin : List Planner.Field :=
  [num_dofs, kd_iterations, num_subsamples, display_motion, min_joint_limits, max_joint_limits, default_joint_positions, active_dofs, w_kin_com, w_kin_lmom, w_kin_amom,
   w_kin_lmomd, w_kin_amomd, w_kin_eff_pos, w_kin_base_ori, w_kin_joint_vel, w_kin_joint_acc, kin_slacks_penalty, kin_integration_step, w_kin_eff_pos_nonact,
   w_kin_default_joints, max_trajectory_iters, max_convergence_iters, convergence_tolerance, lambda_regularization, use_second_order_inv_kin]

/-- Keys read when the file also says `use_second_order_inv_kin: True`. -/
def keysSecond : List Planner.Field :=
  [swing_traj_via_z_second, w_lin_mom_tracking_second, w_ang_mom_tracking_second, w_endeff_contact_second, w_endeff_tracking_second, p_endeff_tracking_second,
   p_com_tracking_second, w_joint_regularization_second, d_endeff_tracking_second, p_orient_tracking_second, d_orient_tracking_second, p_joint_regularization_second,
   d_joint_regularization_second, p_mom_tracking_second, num_joint_viapoints_second, num_base_viapoints_second]

/-- Keys read when the file says `use_second_order_inv_kin: False`. -/
def keysFirst : List Planner.Field :=
  [swing_traj_via_z, w_lin_mom_tracking, w_ang_mom_tracking, w_endeff_contact, w_endeff_tracking, p_endeff_tracking, p_com_tracking, w_joint_regularization,
   reg_orientation, reg_joint_position, num_joint_viapoints, num_base_viapoints]

/-- Reading every parameter backed by a key in `L` gives the value in the file. -/
def AgreesOn (cfg : PlannerCfg) (s : PlannerObj) (L : List Planner.Field) : Prop :=
  ∀ p f, planner.read p = some f → f ∈ L → ∃ v, cfg.value f = some v ∧ s.obj.get p = some ⟨Planner.Field.kind f, v⟩

/-- The via points read are those of the file, as many as it announces. -/
def ViaFrom (cfg : PlannerCfg) (s : PlannerObj) (n : Planner.Field) (hn : Planner.Field.kind n = .int) (f : Planner.Field) (hf : Planner.Field.kind f = .cvec) : Prop :=
  ((s.cvec f hf).length : ℤ) = max 0 (s.int n hn) ∧ ∀ i, i < (s.cvec f hf).length → (s.cvec f hf)[i]? = cfg.via f i

/-! ### proofs -/

/-- All keys of `L` are loaded. -/
def LoadedAll (cfg : PlannerCfg) (L : List Planner.Field) (s : PlannerObj) : Prop := ∀ f ∈ L, Loaded cfg f s

theorem DependsOn.loadedAll (cfg : PlannerCfg) (L : List Planner.Field) : DependsOn (LoadedAll cfg L) L where
  heur := fun _ _ h => h
  indep := fun g hg s v hs f hf => Indep.loaded (by rintro rfl; exact hg hf) s v (hs f hf)

theorem Est.readsAll (cfg : PlannerCfg) (L M : List Planner.Field) (h : ∀ f ∈ L, f ∈ M) : Est (LoadedAll cfg L) (Settings.reads cfg M) :=
  fun s s' hr f hf => Est.reads (h f hf) s s' hr

theorem Est.ifB {P : PlannerObj → Prop} {c : PlannerObj → Bool} {a : Act} (h : Est P a) : Est (fun s => c s = true → P s) (Settings.ifB c a) := by
  intro s s' hr hc
  unfold Settings.ifB at hr
  split at hr
  · exact h s s' hr
  · rename_i hn
    simp only [Prod.mk.injEq, and_true] at hr
    subst hr
    exact absurd hc hn

/-- A property that only holds under a condition on a Boolean member. -/
theorem DependsOn.guard {P : PlannerObj → Prop} {D : List Planner.Field} (h : DependsOn P D) (b : Planner.Field) (hb : Planner.Field.kind b = .bool) (v : Bool) :
    DependsOn (fun s => s.bool b hb = v → P s) (b :: D) where
  heur := fun s x hs hv => h.heur s x (hs hv)
  indep := by
    intro g hg s w hs hv
    simp only [List.mem_cons, not_or] at hg
    refine h.indep g hg.2 s w (hs ?_)
    simpa only [PlannerObj.bool, put_obj_other s w (Ne.symm hg.1)] using hv

theorem agrees_of {cfg : PlannerCfg} {s : PlannerObj} {L : List Planner.Field} (h : LoadedAll cfg L s) : AgreesOn cfg s L := by
  intro p f hp hf
  exact ⟨_, h f hf, by rw [Obj.get, hp]; rfl⟩

section
variable (file src : String) (cfg : PlannerCfg)

theorem load_seg0 : Est (LoadedAll cfg [load_kinematics]) (initPlanner file src cfg) := by
  refine Est.there <| Est.there <| Est.here (fun s s' h f hf => ?_) ?_
  · rw [List.mem_singleton] at hf; subst hf; exact Est.readP _ s s' h
  · pres (DependsOn.loadedAll cfg [load_kinematics])

theorem load_seg1 : Est (LoadedAll cfg [num_com_viapoints]) (initPlanner file src cfg) := by
  refine Est.there <| Est.there <| Est.there <| Est.there <| Est.here (fun s s' h f hf => ?_) ?_
  · rw [List.mem_singleton] at hf; subst hf; exact Est.readP _ s s' h
  · pres (DependsOn.loadedAll cfg [num_com_viapoints])

theorem load_seg2 : Est (LoadedAll cfg [time_step, num_act_eefs, time_horizon, min_rel_height, external_force, com_displacement]) (initPlanner file src cfg) := by
  refine Est.there <| Est.there <| Est.there <| Est.there <| Est.there <| Est.there <| Est.there <| Est.here (Est.readsAll _ _ _ (fun _ h => h)) ?_
  pres (DependsOn.loadedAll cfg [time_step, num_act_eefs, time_horizon, min_rel_height, external_force, com_displacement])

theorem load_seg3 : Est (LoadedAll cfg [gravity, robot_mass, floor_height, torque_range, friction_coeff, max_eef_lengths]) (initPlanner file src cfg) := by
  refine Est.there <| Est.there <| Est.there <| Est.there <| Est.there <| Est.there <| Est.there <| Est.there <| Est.there <| Est.there <|
    Est.here (Est.readsAll _ _ _ (fun _ h => h)) ?_
  pres (DependsOn.loadedAll cfg [gravity, robot_mass, floor_height, torque_range, friction_coeff, max_eef_lengths])

theorem load_seg4 : Est (LoadedAll cfg [w_com, w_amom, w_lmom, w_amomd, w_lmomd, w_com_via, w_trq_arm, w_trq_leg, w_frc_arm, w_frc_leg, w_dfrc_arm, w_dfrc_leg,
    w_amom_final, w_lmom_final, w_com_track, w_lmom_track, w_amom_track]) (initPlanner file src cfg) := by
  refine Est.there <| Est.there <| Est.there <| Est.there <| Est.there <| Est.there <| Est.there <| Est.there <| Est.there <| Est.there <| Est.there <| Est.there <|
    Est.there <| Est.there <| Est.here (Est.readsAll _ _ _ (fun _ h => h)) ?_
  pres (DependsOn.loadedAll cfg [w_com, w_amom, w_lmom, w_amomd, w_lmomd, w_com_via, w_trq_arm, w_trq_leg, w_frc_arm, w_frc_leg, w_dfrc_arm, w_dfrc_leg,
    w_amom_final, w_lmom_final, w_com_track, w_lmom_track, w_amom_track])

theorem load_seg5 : Est (LoadedAll cfg [store_data, use_default_solver_setting]) (initPlanner file src cfg) := by
  refine Est.there <| Est.there <| Est.there <| Est.there <| Est.there <| Est.there <| Est.there <| Est.there <| Est.there <| Est.there <| Est.there <| Est.there <|
    Est.there <| Est.there <| Est.there <| Est.there <| Est.there <| Est.here (Est.readsAll _ _ _ (fun _ h => h)) ?_
  pres (DependsOn.loadedAll cfg [store_data, use_default_solver_setting])

/-- Keys of the first kinematic block. -/
private abbrev kinA : List Planner.Field :=
  [num_dofs, kd_iterations, num_subsamples, display_motion, min_joint_limits, max_joint_limits, default_joint_positions, active_dofs]

/-- Keys of the second kinematic block. -/
private abbrev kinB : List Planner.Field :=
  [w_kin_com, w_kin_lmom, w_kin_amom, w_kin_lmomd, w_kin_amomd, w_kin_eff_pos, w_kin_base_ori, w_kin_joint_vel, w_kin_joint_acc, kin_slacks_penalty,
   kin_integration_step, w_kin_eff_pos_nonact, w_kin_default_joints, max_trajectory_iters, max_convergence_iters, convergence_tolerance, lambda_regularization,
   use_second_order_inv_kin]

theorem load_kinA : Est (fun s => s.bool load_kinematics = true → LoadedAll cfg kinA s) (initPlanner file src cfg) := by
  refine Est.there <| Est.there <| Est.there <| Est.here (Est.ifB (Est.here (Est.readsAll _ _ _ (fun _ h => h)) ?_)) ?_
  · pres (DependsOn.loadedAll cfg kinA)
  · pres ((DependsOn.loadedAll cfg kinA).guard load_kinematics rfl true)

theorem load_kinB : Est (fun s => s.bool load_kinematics = true → LoadedAll cfg kinB s) (initPlanner file src cfg) := by
  refine Est.there <| Est.there <| Est.there <| Est.there <| Est.there <| Est.there <| Est.there <| Est.there <| Est.there <| Est.there <| Est.there <| Est.there <|
    Est.there <| Est.there <| Est.there <| Est.there <| Est.here (Est.ifB (Est.here (Est.readsAll _ _ _ (fun _ h => h)) ?_)) ?_
  · pres (DependsOn.loadedAll cfg kinB)
  · pres ((DependsOn.loadedAll cfg kinB).guard load_kinematics rfl true)

theorem load_second : Est (fun s => s.bool load_kinematics = true → s.bool use_second_order_inv_kin = true → LoadedAll cfg keysSecond s) (initPlanner file src cfg) := by
  refine Est.there <| Est.there <| Est.there <| Est.there <| Est.there <| Est.there <| Est.there <| Est.there <| Est.there <| Est.there <| Est.there <| Est.there <|
    Est.there <| Est.there <| Est.there <| Est.there <| Est.here (Est.ifB (Est.there <| Est.here (Est.ifB (Est.readsAll _ _ _ (fun _ h => h))) ?_)) ?_
  · pres ((DependsOn.loadedAll cfg keysSecond).guard use_second_order_inv_kin rfl true)
  · pres (((DependsOn.loadedAll cfg keysSecond).guard use_second_order_inv_kin rfl true).guard load_kinematics rfl true)

theorem Est.mono {P Q : PlannerObj → Prop} {a : Act} (h : Est P a) (hq : ∀ s, P s → Q s) : Est Q a := fun s s' hr => hq _ (h s s' hr)

theorem load_first : Est (fun s => s.bool load_kinematics = true → s.bool use_second_order_inv_kin = false → LoadedAll cfg keysFirst s) (initPlanner file src cfg) := by
  refine Est.there <| Est.there <| Est.there <| Est.there <| Est.there <| Est.there <| Est.there <| Est.there <| Est.there <| Est.there <| Est.there <| Est.there <|
    Est.there <| Est.there <| Est.there <| Est.there <| Est.here (Est.ifB (P := fun s => s.bool use_second_order_inv_kin = false → LoadedAll cfg keysFirst s)
      (Est.there <| Est.there <| Est.here ((Est.ifB (Est.readsAll cfg keysFirst _ (fun _ h => h))).mono ?_) ?_)) ?_
  · intro s h hb
    exact h (by simp [hb])
  · pres ((DependsOn.loadedAll cfg keysFirst).guard use_second_order_inv_kin rfl false)
  · pres (((DependsOn.loadedAll cfg keysFirst).guard use_second_order_inv_kin rfl false).guard load_kinematics rfl true)

/-! the blocks for time optimisation -/

/-- The heuristic named in the file has been set. -/
def HeurSet (s : PlannerObj) : Prop := cfg.heuristic = some "TimeOptimization" → s.heuristic = .TimeOptimization

theorem HeurSet.indep (g : Planner.Field) : Indep (HeurSet cfg) g := fun _ _ h => h

theorem Pres.reads_i {P : PlannerObj → Prop} (hi : ∀ g, Indep P g) (l : List Planner.Field) : Pres P (Settings.reads cfg l) := by
  apply Pres.seqs
  intro a ha
  obtain ⟨g, hg, rfl⟩ := List.mem_map.mp ha
  exact Pres.readP' (hi g)

/-- What a list of statements establishes from `H`. -/
def EstFrom (H P : PlannerObj → Prop) (l : List Act) : Prop := ∀ s s', H s → seqs l s = (s', true) → P s'

theorem EstFrom.there {H P : PlannerObj → Prop} {a : Act} {l : List Act} (h : Pres H a) (hl : EstFrom H P l) : EstFrom H P (a :: l) := by
  intro s s' hs hr
  obtain ⟨t, h1, h2⟩ := seq_ok.mp hr
  exact hl t s' (h s t hs h1) h2

theorem EstFrom.here {H P : PlannerObj → Prop} {a : Act} {l : List Act} (h : ∀ s s', H s → a s = (s', true) → P s') (hl : Pres P (seqs l)) : EstFrom H P (a :: l) := by
  intro s s' hs hr
  obtain ⟨t, h1, h2⟩ := seq_ok.mp hr
  exact hl t s' (h s t hs h1) h2

theorem Est.from {H P : PlannerObj → Prop} {a : Act} {l : List Act} (h : Est H a) (hl : EstFrom H P l) : Est P (Settings.seqs (a :: l)) := by
  intro s s' hr
  obtain ⟨t, h1, h2⟩ := seq_ok.mp hr
  exact hl t s' (h s t h1) h2

/-- A statement guarded by the test for time optimisation. -/
theorem time_reads (L : List Planner.Field) (s s' : PlannerObj) (hs : HeurSet cfg s)
    (hr : Settings.ifB (fun s => decide (s.heuristic = .TimeOptimization)) (Settings.reads cfg L) s = (s', true)) :
    cfg.heuristic = some "TimeOptimization" → LoadedAll cfg L s' := by
  intro hh
  unfold Settings.ifB at hr
  rw [if_pos (by simpa using hs hh)] at hr
  exact Est.readsAll cfg L L (fun _ h => h) s s' hr

theorem timeDep (L : List Planner.Field) : DependsOn (fun s => cfg.heuristic = some "TimeOptimization" → LoadedAll cfg L s) L where
  heur := fun s h hs hh => (DependsOn.loadedAll cfg L).heur s h (hs hh)
  indep := fun g hg s v hs hh => (DependsOn.loadedAll cfg L).indep g hg s v (hs hh)

theorem heur_est : Est (HeurSet cfg) (fun s => match cfg.heuristic with
      | none => (s, false)
      | some h => ({ s with heuristic := if h = "TrustRegion" then .TrustRegion else if h = "SoftConstraint" then .SoftConstraint
          else if h = "TimeOptimization" then .TimeOptimization else .SoftConstraint }, true)) := by
  intro s s' hr hh
  rw [hh] at hr
  simp only [Prod.mk.injEq, and_true] at hr
  subst hr
  simp

theorem load_time : Est (fun s => cfg.heuristic = some "TimeOptimization" → LoadedAll cfg keysTime s) (initPlanner file src cfg) := by
  have h1 : Est (fun s => cfg.heuristic = some "TimeOptimization" → LoadedAll cfg [max_time_iterations, max_time_residual_tolerance, min_time_residual_improvement] s)
      (initPlanner file src cfg) := by
    refine Est.there <| Est.there <| Est.there <| Est.there <| Est.there <| Est.there <| Est.there <| Est.there <| Est.from (heur_est cfg) <|
      EstFrom.here (time_reads cfg _) ?_
    pres (timeDep cfg [max_time_iterations, max_time_residual_tolerance, min_time_residual_improvement])
  have h2 : Est (fun s => cfg.heuristic = some "TimeOptimization" → LoadedAll cfg [time_range, is_time_horizon_fixed] s) (initPlanner file src cfg) := by
    refine Est.there <| Est.there <| Est.there <| Est.there <| Est.there <| Est.there <| Est.there <| Est.there <| Est.from (heur_est cfg) <|
      EstFrom.there (Pres.ifB (Pres.reads_i cfg (HeurSet.indep cfg) _)) <| EstFrom.there (Pres.reads_i cfg (HeurSet.indep cfg) _) <| EstFrom.here (time_reads cfg _) ?_
    pres (timeDep cfg [time_range, is_time_horizon_fixed])
  have h3 : Est (fun s => cfg.heuristic = some "TimeOptimization" → LoadedAll cfg [w_time, w_time_penalty] s) (initPlanner file src cfg) := by
    refine Est.there <| Est.there <| Est.there <| Est.there <| Est.there <| Est.there <| Est.there <| Est.there <| Est.from (heur_est cfg) <|
      EstFrom.there (Pres.ifB (Pres.reads_i cfg (HeurSet.indep cfg) _)) <| EstFrom.there (Pres.reads_i cfg (HeurSet.indep cfg) _) <|
      EstFrom.there (Pres.ifB (Pres.reads_i cfg (HeurSet.indep cfg) _)) <| EstFrom.there (Pres.effs (HeurSet.indep cfg _) (HeurSet.indep cfg _)) <|
      EstFrom.there (Pres.cone (HeurSet.indep cfg _) _ _) <| EstFrom.there (Pres.reads_i cfg (HeurSet.indep cfg) _) <| EstFrom.here (time_reads cfg _) ?_
    pres (timeDep cfg [w_time, w_time_penalty])
  intro s s' hr hh f hf
  have : f ∈ [max_time_iterations, max_time_residual_tolerance, min_time_residual_improvement] ∨ f ∈ [time_range, is_time_horizon_fixed] ∨ f ∈ [w_time, w_time_penalty] := by
    revert f; decide
  rcases this with h | h | h
  · exact h1 s s' hr hh f h
  · exact h2 s s' hr hh f h
  · exact h3 s s' hr hh f h

/-! via points -/

theorem cast_cancel {k l : Kind} (h : k = l) (w : l.Val) : (h ▸ (h ▸ w : k.Val) : l.Val) = w := by subst h; rfl

/-- The loop over via points appends the entries of the file and changes nothing else. -/
theorem viaLoop_gen (g : Planner.Field) (hg : Planner.Field.kind g = .cvec) (z : PlannerObj → ℕ) (n : ℕ) : ∀ (i : ℕ) (s s' : PlannerObj), viaLoop cfg g hg z n i s = (s', true) →
    (s.cvec g hg).length = i → (∀ j, j < i → (s.cvec g hg)[j]? = cfg.via g j) →
    (∀ f, f ≠ g → s'.obj f = s.obj f) ∧ (s'.cvec g hg).length = i + n ∧ ∀ j, j < i + n → (s'.cvec g hg)[j]? = cfg.via g j := by
  induction n with
  | zero =>
    intro i s s' h hl hv
    simp only [viaLoop, Prod.mk.injEq, and_true] at h
    subst h
    exact ⟨fun _ _ => rfl, by omega, fun j hj => hv j (by omega)⟩
  | succ n ih =>
    intro i s s' h hl hv
    simp only [viaLoop] at h
    split at h
    · rename_i v hvia
      have hc : ∀ w : List (List ℝ), PlannerObj.cvec (s.put g (hg ▸ (show Kind.Val .cvec from w))) g hg = w := by
        intro w
        have e : (s.put g (hg ▸ (show Kind.Val .cvec from w))).obj g = (hg ▸ (show Kind.Val .cvec from w) : (Planner.Field.kind g).Val) := put_same (C := planner) s.obj g _
        unfold PlannerObj.cvec
        rw [e]
        exact cast_cancel hg w
      obtain ⟨h1, h2, h3⟩ := ih (i + 1) _ s' h (by rw [hc]; show (s.cvec g hg ++ [v]).length = i + 1; rw [List.length_append, hl]; rfl) (by
          intro j hj
          rw [hc]
          show (s.cvec g hg ++ [v])[j]? = _
          rcases Nat.lt_succ_iff_lt_or_eq.mp hj with h' | rfl
          · rw [List.getElem?_append_left (by omega)]; exact hv j h'
          · rw [List.getElem?_append_right (by omega)]; simp [hl, hvia])
      exact ⟨fun f hf => (h1 f hf).trans (put_obj_other s _ hf), by omega, fun j hj => h3 j (by omega)⟩
    · simp at h

theorem via_here (n : Planner.Field) (hn : Planner.Field.kind n = .int) (g : Planner.Field) (hg : Planner.Field.kind g = .cvec) (z : PlannerObj → ℕ) (hne : n ≠ g)
    (s s' : PlannerObj) (h0 : s.cvec g hg = []) (hr : viaLoop cfg g hg z (nat (s.int n hn)) 0 s = (s', true)) : ViaFrom cfg s' n hn g hg := by
  obtain ⟨h1, h2, h3⟩ := viaLoop_gen cfg g hg z _ 0 s s' hr (by rw [h0]; rfl) (by intro j hj; omega)
  rw [Nat.zero_add] at h2 h3
  have e : s'.int n hn = s.int n hn := by unfold PlannerObj.int; rw [h1 n hne]
  refine ⟨?_, fun i hi => h3 i (by omega)⟩
  rw [h2, e, nat]
  omega

theorem via_dep (n : Planner.Field) (hn : Planner.Field.kind n = .int) (g : Planner.Field) (hg : Planner.Field.kind g = .cvec) :
    DependsOn (fun s => ViaFrom cfg s n hn g hg) [g, n] where
  heur := fun _ _ h => h
  indep := by
    intro k hk s v hs
    simp only [List.mem_cons, List.not_mem_nil, or_false, not_or] at hk
    have h1 := put_obj_other s v (Ne.symm hk.1)
    have h2 := put_obj_other s v (Ne.symm hk.2)
    simpa only [ViaFrom, PlannerObj.cvec, PlannerObj.int, h1, h2] using hs

theorem clear_est (g : Planner.Field) (hg : Planner.Field.kind g = .cvec) : Est (fun s => s.cvec g hg = []) (Settings.clear g hg) := by
  intro s s' hr
  simp only [Settings.clear, Settings.pure1, Prod.mk.injEq, and_true] at hr
  subst hr
  unfold PlannerObj.cvec
  have e : (s.put g (hg ▸ (show Kind.Val .cvec from ([] : List (List ℝ))))).obj g = (hg ▸ (show Kind.Val .cvec from []) : (Planner.Field.kind g).Val) :=
    put_same (C := planner) s.obj g _
  rw [e]
  exact cast_cancel hg (show Kind.Val .cvec from [])

theorem empty_indep (g : Planner.Field) (hg : Planner.Field.kind g = .cvec) (k : Planner.Field) (hk : k ≠ g) : Indep (fun s => s.cvec g hg = []) k := by
  intro s v hs
  simpa only [PlannerObj.cvec, put_obj_other s v (Ne.symm hk)] using hs

/-- The block that reads joint and base via points. -/
theorem via_block (n m : Planner.Field) (hn : Planner.Field.kind n = .int) (hm : Planner.Field.kind m = .int) (g k : Planner.Field) (hg : Planner.Field.kind g = .cvec)
    (hk : Planner.Field.kind k = .cvec) (hgk : g ≠ k) (hgn : n ≠ g) (hkn : n ≠ k) (hkm : m ≠ k) (z w : PlannerObj → ℕ) :
    Est (fun s => ViaFrom cfg s n hn g hg ∧ ViaFrom cfg s m hm k hk) (Settings.seqs [Settings.clear g hg, Settings.clear k hk,
      fun s => viaLoop cfg g hg z (nat (s.int n hn)) 0 s, fun s => viaLoop cfg k hk w (nat (s.int m hm)) 0 s]) := by
  have h1 : Est (fun s => ViaFrom cfg s n hn g hg) (Settings.seqs [Settings.clear g hg, Settings.clear k hk,
      fun s => viaLoop cfg g hg z (nat (s.int n hn)) 0 s, fun s => viaLoop cfg k hk w (nat (s.int m hm)) 0 s]) := by
    refine Est.from (clear_est g hg) <| EstFrom.there (Pres.clear (empty_indep g hg k (Ne.symm hgk))) <|
      EstFrom.here (fun s s' h0 hr => via_here cfg n hn g hg z hgn s s' h0 hr) <| Pres.cons ?_ Pres.nil
    exact fun s s' hs hr => Pres.viaLoop ((via_dep cfg n hn g hg).indep k (by simp [Ne.symm hgk, Ne.symm hkn])) _ _ s s' hs hr
  have h2 : Est (fun s => ViaFrom cfg s m hm k hk) (Settings.seqs [Settings.clear g hg, Settings.clear k hk,
      fun s => viaLoop cfg g hg z (nat (s.int n hn)) 0 s, fun s => viaLoop cfg k hk w (nat (s.int m hm)) 0 s]) := by
    refine Est.there <| Est.from (clear_est k hk) <| EstFrom.there
      (fun s s' hs hr => Pres.viaLoop (empty_indep k hk g hgk) _ _ s s' hs hr) <|
      EstFrom.here (fun s s' h0 hr => via_here cfg m hm k hk w hkm s s' h0 hr) Pres.nil
  exact fun s s' hr => ⟨h1 s s' hr, h2 s s' hr⟩

/-- Both lists of via points of one formulation. -/
def Vias (second : Bool) (s : PlannerObj) : Prop :=
  if second then ViaFrom cfg s num_joint_viapoints_second rfl joint_viapoints_second rfl ∧ ViaFrom cfg s num_base_viapoints_second rfl base_viapoints_second rfl
  else ViaFrom cfg s num_joint_viapoints rfl joint_viapoints rfl ∧ ViaFrom cfg s num_base_viapoints rfl base_viapoints rfl

theorem viasDepT : DependsOn (Vias cfg true) [joint_viapoints_second, num_joint_viapoints_second, base_viapoints_second, num_base_viapoints_second] where
  heur := fun _ _ h => h
  indep := by
    intro k hk s v hs
    simp only [List.mem_cons, List.not_mem_nil, or_false, not_or] at hk
    exact ⟨(via_dep cfg _ rfl _ rfl).indep k (by simp [hk]) s v hs.1, (via_dep cfg _ rfl _ rfl).indep k (by simp [hk]) s v hs.2⟩

theorem viasDepF : DependsOn (Vias cfg false) [joint_viapoints, num_joint_viapoints, base_viapoints, num_base_viapoints] where
  heur := fun _ _ h => h
  indep := by
    intro k hk s v hs
    simp only [List.mem_cons, List.not_mem_nil, or_false, not_or] at hk
    exact ⟨(via_dep cfg _ rfl _ rfl).indep k (by simp [hk]) s v hs.1, (via_dep cfg _ rfl _ rfl).indep k (by simp [hk]) s v hs.2⟩

theorem load_viaT : Est (fun s => s.bool load_kinematics = true → s.bool use_second_order_inv_kin = true → Vias cfg true s) (initPlanner file src cfg) := by
  refine Est.there <| Est.there <| Est.there <| Est.there <| Est.there <| Est.there <| Est.there <| Est.there <| Est.there <| Est.there <| Est.there <| Est.there <|
    Est.there <| Est.there <| Est.there <| Est.there <| Est.here (Est.ifB (Est.there <| Est.there <| Est.there <| Est.here (Est.ifB ?_) ?_)) ?_
  · exact via_block cfg _ _ rfl rfl _ _ rfl rfl (by decide) (by decide) (by decide) (by decide) _ _
  · pres ((viasDepT cfg).guard use_second_order_inv_kin rfl true)
  · pres (((viasDepT cfg).guard use_second_order_inv_kin rfl true).guard load_kinematics rfl true)

theorem load_viaF : Est (fun s => s.bool load_kinematics = true → s.bool use_second_order_inv_kin = false → Vias cfg false s) (initPlanner file src cfg) := by
  refine Est.there <| Est.there <| Est.there <| Est.there <| Est.there <| Est.there <| Est.there <| Est.there <| Est.there <| Est.there <| Est.there <| Est.there <|
    Est.there <| Est.there <| Est.there <| Est.there <| Est.here (Est.ifB (P := fun s => s.bool use_second_order_inv_kin = false → Vias cfg false s)
      (Est.there <| Est.there <| Est.there <| Est.there <| Est.here ((Est.ifB (P := Vias cfg false) ?_).mono ?_) ?_)) ?_
  · exact via_block cfg _ _ rfl rfl _ _ rfl rfl (by decide) (by decide) (by decide) (by decide) _ _
  · intro s h hb
    exact h (by simp [hb])
  · pres ((viasDepF cfg).guard use_second_order_inv_kin rfl false)
  · pres (((viasDepF cfg).guard use_second_order_inv_kin rfl false).guard load_kinematics rfl true)

/-- C232. After the planner settings were loaded without an error, every parameter backed by a key that the file's options make relevant reads as the value in the file:
the general keys always, the ones of time optimisation when the file asks for it, the kinematic ones when the file asks for kinematics, and among them those of
the inverse kinematics chosen in the file, with its via points. -/
theorem C232_file_reaches_getters (s s' : PlannerObj) (h : initPlanner file src cfg s = (s', true)) :
    AgreesOn cfg s' keysAlways ∧
    (cfg.heuristic = some "TimeOptimization" → AgreesOn cfg s' keysTime) ∧
    (cfg.value load_kinematics = some true → AgreesOn cfg s' keysKin ∧
      (cfg.value use_second_order_inv_kin = some true → AgreesOn cfg s' keysSecond ∧
        ViaFrom cfg s' num_joint_viapoints_second rfl joint_viapoints_second rfl ∧ ViaFrom cfg s' num_base_viapoints_second rfl base_viapoints_second rfl) ∧
      (cfg.value use_second_order_inv_kin = some false → AgreesOn cfg s' keysFirst ∧
        ViaFrom cfg s' num_joint_viapoints rfl joint_viapoints rfl ∧ ViaFrom cfg s' num_base_viapoints rfl base_viapoints rfl)) := by
  have bool_of : ∀ (f : Planner.Field) (hf : Planner.Field.kind f = .bool) (b : Bool), Loaded cfg f s' → cfg.value f = some (hf ▸ (show Kind.Val .bool from b)) →
      s'.bool f hf = b := by
    intro f hf b h1 h2
    have h3 : s'.obj f = (hf ▸ (show Kind.Val .bool from b) : (Planner.Field.kind f).Val) := Option.some.inj (h1.symm.trans h2)
    unfold PlannerObj.bool
    rw [h3]
    exact cast_cancel hf (show Kind.Val .bool from b)
  refine ⟨agrees_of ?_, fun hh => agrees_of (load_time file src cfg s s' h hh), fun hk => ?_⟩
  · intro f hf
    have : f ∈ [load_kinematics] ∨ f ∈ [num_com_viapoints] ∨ f ∈ [time_step, num_act_eefs, time_horizon, min_rel_height, external_force, com_displacement] ∨
        f ∈ [gravity, robot_mass, floor_height, torque_range, friction_coeff, max_eef_lengths] ∨
        f ∈ [w_com, w_amom, w_lmom, w_amomd, w_lmomd, w_com_via, w_trq_arm, w_trq_leg, w_frc_arm, w_frc_leg, w_dfrc_arm, w_dfrc_leg,
          w_amom_final, w_lmom_final, w_com_track, w_lmom_track, w_amom_track] ∨ f ∈ [store_data, use_default_solver_setting] := by
      revert f; decide
    rcases this with g | g | g | g | g | g
    · exact load_seg0 file src cfg s s' h f g
    · exact load_seg1 file src cfg s s' h f g
    · exact load_seg2 file src cfg s s' h f g
    · exact load_seg3 file src cfg s s' h f g
    · exact load_seg4 file src cfg s s' h f g
    · exact load_seg5 file src cfg s s' h f g
  · have hk' : s'.bool load_kinematics = true := bool_of _ rfl true (load_seg0 file src cfg s s' h _ (by decide)) hk
    have hA := load_kinA file src cfg s s' h hk'
    have hB := load_kinB file src cfg s s' h hk'
    refine ⟨agrees_of ?_, fun h2 => ?_, fun h2 => ?_⟩
    · intro f hf
      have : f ∈ kinA ∨ f ∈ kinB := by revert f; decide
      rcases this with g | g
      · exact hA f g
      · exact hB f g
    · have h2' := bool_of use_second_order_inv_kin rfl true (hB _ (by decide)) h2
      exact ⟨agrees_of (load_second file src cfg s s' h hk' h2'), load_viaT file src cfg s s' h hk' h2'⟩
    · have h2' := bool_of use_second_order_inv_kin rfl false (hB _ (by decide)) h2
      exact ⟨agrees_of (load_first file src cfg s s' h hk' h2'), load_viaF file src cfg s s' h hk' h2'⟩

end

end Settings
end Verif
