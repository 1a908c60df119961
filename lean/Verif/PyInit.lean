import Verif.SettingsLoad

/-!
Model of `MotionPlanner.init_from_settings`, /repo/momentumopt/python/momentumopt/motion_planner.py:74-118, and C233.
-/
namespace Verif
namespace Settings

/-- Attributes of the kinematics optimizer and of the objects it holds: the trajectory generator (`etg`), the first-order (`inv`) and the second-order (`snd`) inverse
kinematics (momentum_kinematics_optimizer.py:32,165-172,211-213, inverse_kinematics.py:37-45, second_order_ik.py:35-51). -/
inductive Attr where
  | use_second_order_inv_kin
  | etg_z_offset
  | inv_w_lin_mom_tracking
  | inv_w_ang_mom_tracking
  | inv_w_endeff_contact
  | inv_w_endeff_tracking
  | inv_w_joint_regularization
  | inv_p_endeff_tracking
  | inv_p_com_tracking
  | reg_orientation
  | reg_joint_position
  | n_via_joint
  | via_joint
  | n_via_base
  | via_base
  | snd_w_lin_mom_tracking
  | snd_w_ang_mom_tracking
  | snd_w_endeff_contact
  | snd_w_endeff_tracking
  | snd_w_joint_regularization
  | snd_p_endeff_tracking
  | snd_p_com_tracking
  | snd_d_endeff_tracking
  | snd_p_orient_tracking
  | snd_d_orient_tracking
  | snd_p_joint_regularization
  | snd_d_joint_regularization
  | snd_p_mom_tracking
  deriving DecidableEq

/-- Values of the attributes; a Python attribute holds a value of any type (motion_planner.py:75-118). -/
abbrev KinObj := Attr → Σ k : Kind, k.Val

/-- Assignments of the branch for second order, in their order, motion_planner.py:83-102. -/
def secondAssign : List (Attr × Planner.Param) :=
  [(.etg_z_offset, .double_SwingTrajViaZ_Second), (.snd_w_lin_mom_tracking, .double_WeightLinMomentumTracking_Second),
   (.snd_w_ang_mom_tracking, .double_WeightAngMomentumTracking_Second), (.snd_w_endeff_contact, .double_WeightEndEffContact_Second),
   (.snd_w_endeff_tracking, .double_WeightEndEffTracking_Second), (.snd_w_joint_regularization, .double_WeightJointReg_Second),
   (.snd_p_endeff_tracking, .double_PGainEndEffTracking_Second), (.snd_p_com_tracking, .double_PGainComTracking_Second), (.n_via_joint, .int_NumJointViapoints_Second),
   (.via_joint, .cvec_JointViapoints_Second), (.n_via_base, .int_NumBaseViapoints_Second), (.via_base, .cvec_BaseViapoints_Second),
   (.snd_d_endeff_tracking, .double_DGainEndEffTracking_Second), (.snd_p_orient_tracking, .double_PGainBaseOrientationTracking_Second),
   (.snd_d_orient_tracking, .double_DGainBaseOrientationTracking_Second), (.snd_p_joint_regularization, .double_PGainJointRegularization_Second),
   (.snd_d_joint_regularization, .double_DGainJointRegularization_Second), (.snd_p_mom_tracking, .vec_PGainMomentumTracking_Second)]

/-- Assignments of the other branch, motion_planner.py:105-118. -/
def firstAssign : List (Attr × Planner.Param) :=
  [(.etg_z_offset, .double_SwingTrajViaZ), (.inv_w_lin_mom_tracking, .double_WeightLinMomentumTracking), (.inv_w_ang_mom_tracking, .double_WeightAngMomentumTracking),
   (.inv_w_endeff_contact, .double_WeightEndEffContact), (.inv_w_endeff_tracking, .double_WeightEndEffTracking), (.inv_w_joint_regularization, .double_WeightJointReg),
   (.inv_p_endeff_tracking, .double_PGainEndEffTracking), (.inv_p_com_tracking, .double_PGainComTracking), (.reg_orientation, .double_PGainOrientationTracking),
   (.reg_joint_position, .double_PGainPositionTracking), (.n_via_joint, .int_NumJointViapoints), (.via_joint, .cvec_JointViapoints),
   (.n_via_base, .int_NumBaseViapoints), (.via_base, .cvec_BaseViapoints)]

/-- `attribute = self.planner_setting.get(parameter)`, motion_planner.py:79-118; `false` stands for an exception. -/
def assign (s : Obj planner) (k : KinObj) (a : Attr × Planner.Param) : KinObj × Bool :=
  match s.get (a.2 : planner.Param) with
  | some v => (Function.update k a.1 v, true)
  | none => (k, false)

/-- Consecutive assignments, motion_planner.py:83-118. -/
def assigns (s : Obj planner) : KinObj → List (Attr × Planner.Param) → KinObj × Bool
  | k, [] => (k, true)
  | k, a :: l => match assign s k a with
    | (k', true) => assigns s k' l
    | (k', false) => (k', false)

/-- `init_from_settings`, motion_planner.py:74-118; `second` is the Boolean the getter of line 79 returns. -/
def initFromSettings (s : PlannerObj) (k : KinObj) : KinObj × Bool :=
  match assign s.obj k (.use_second_order_inv_kin, .bool_UseSecondOrderInverseKinematics) with
  | (k', true) => assigns s.obj k' (if s.bool .use_second_order_inv_kin then secondAssign else firstAssign)
  | (k', false) => (k', false)

/-! ### specification -/

/-- The key of the configuration file each attribute should come from, for the first-order and the second-order formulation. -/
def keyOf : Bool → Attr → Option Planner.Field
  | _, .use_second_order_inv_kin => some .use_second_order_inv_kin
  | true, .etg_z_offset => some .swing_traj_via_z_second
  | true, .snd_w_lin_mom_tracking => some .w_lin_mom_tracking_second
  | true, .snd_w_ang_mom_tracking => some .w_ang_mom_tracking_second
  | true, .snd_w_endeff_contact => some .w_endeff_contact_second
  | true, .snd_w_endeff_tracking => some .w_endeff_tracking_second
  | true, .snd_w_joint_regularization => some .w_joint_regularization_second
  | true, .snd_p_endeff_tracking => some .p_endeff_tracking_second
  | true, .snd_p_com_tracking => some .p_com_tracking_second
  | true, .n_via_joint => some .num_joint_viapoints_second
  | true, .n_via_base => some .num_base_viapoints_second
  | true, .snd_d_endeff_tracking => some .d_endeff_tracking_second
  | true, .snd_p_orient_tracking => some .p_orient_tracking_second
  | true, .snd_d_orient_tracking => some .d_orient_tracking_second
  | true, .snd_p_joint_regularization => some .p_joint_regularization_second
  | true, .snd_d_joint_regularization => some .d_joint_regularization_second
  | true, .snd_p_mom_tracking => some .p_mom_tracking_second
  | false, .etg_z_offset => some .swing_traj_via_z
  | false, .inv_w_lin_mom_tracking => some .w_lin_mom_tracking
  | false, .inv_w_ang_mom_tracking => some .w_ang_mom_tracking
  | false, .inv_w_endeff_contact => some .w_endeff_contact
  | false, .inv_w_endeff_tracking => some .w_endeff_tracking
  | false, .inv_w_joint_regularization => some .w_joint_regularization
  | false, .inv_p_endeff_tracking => some .p_endeff_tracking
  | false, .inv_p_com_tracking => some .p_com_tracking
  | false, .reg_orientation => some .reg_orientation
  | false, .reg_joint_position => some .reg_joint_position
  | false, .n_via_joint => some .num_joint_viapoints
  | false, .n_via_base => some .num_base_viapoints
  | _, _ => none

/-- Where the via points of the two lists come from. -/
def viaOf : Bool → Attr → Option Planner.Field
  | true, .via_joint => some .joint_viapoints_second
  | true, .via_base => some .base_viapoints_second
  | false, .via_joint => some .joint_viapoints
  | false, .via_base => some .base_viapoints
  | _, _ => none

/-- The weights and gains of the first-order inverse kinematics, which `optimize` always uses for the initial posture (momentum_kinematics_optimizer.py:308,336). -/
def initialPosture : List Attr :=
  [.inv_w_lin_mom_tracking, .inv_w_ang_mom_tracking, .inv_w_endeff_contact, .inv_w_endeff_tracking, .inv_w_joint_regularization, .inv_p_endeff_tracking, .inv_p_com_tracking]

/-! ### proofs -/

/-- What a list of assignments leaves: nothing is raised when all parameters can be read; an attribute assigned once holds the parameter's value; the others are kept. -/
theorem assigns_spec (s : Obj planner) : ∀ (l : List (Attr × Planner.Param)) (k : KinObj), (∀ a ∈ l, (s.get (C := planner) a.2).isSome) → (l.map Prod.fst).Nodup →
    (assigns s k l).2 = true ∧ (∀ a ∈ l, s.get (C := planner) a.2 = some ((assigns s k l).1 a.1)) ∧ ∀ a, a ∉ l.map Prod.fst → (assigns s k l).1 a = k a := by
  intro l
  induction l with
  | nil => intro k _ _; exact ⟨rfl, by simp, fun _ _ => rfl⟩
  | cons x l ih =>
    intro k h hn
    obtain ⟨v, hv⟩ := Option.isSome_iff_exists.mp (h x (by simp))
    rw [List.map_cons, List.nodup_cons] at hn
    have e : assigns s k (x :: l) = assigns s (Function.update k x.1 v) l := by
      rw [assigns, assign]
      simp only [hv]
    obtain ⟨h1, h2, h3⟩ := ih (Function.update k x.1 v) (fun a ha => h a (by simp [ha])) hn.2
    rw [e]
    refine ⟨h1, ?_, ?_⟩
    · intro a ha
      rcases List.mem_cons.mp ha with rfl | ha
      · rw [h3 _ hn.1, Function.update_self]; exact hv
      · exact h2 a ha
    · intro a ha
      simp only [List.map_cons, List.mem_cons, not_or] at ha
      rw [h3 a ha.2, Function.update_of_ne ha.1]

/-- Every parameter of the two branches can be read. -/
theorem branch_readable (b : Bool) : ∀ a ∈ (if b then secondAssign else firstAssign), (planner.read a.2).isSome := by
  cases b <;> decide

theorem branch_nodup (b : Bool) : ((if b then secondAssign else firstAssign).map Prod.fst).Nodup := by cases b <;> decide

theorem init_spec (s : PlannerObj) (k : KinObj) : (initFromSettings s k).2 = true ∧
    (initFromSettings s k).1 .use_second_order_inv_kin = ⟨.bool, s.bool .use_second_order_inv_kin⟩ ∧
    (∀ a ∈ (if s.bool .use_second_order_inv_kin then secondAssign else firstAssign), s.obj.get (C := planner) a.2 = some ((initFromSettings s k).1 a.1)) ∧
    ∀ a, a ≠ .use_second_order_inv_kin → a ∉ (if s.bool .use_second_order_inv_kin then secondAssign else firstAssign).map Prod.fst → (initFromSettings s k).1 a = k a := by
  have e : initFromSettings s k = assigns s.obj (Function.update k .use_second_order_inv_kin ⟨.bool, s.bool .use_second_order_inv_kin⟩)
      (if s.bool .use_second_order_inv_kin then secondAssign else firstAssign) := rfl
  obtain ⟨h1, h2, h3⟩ := assigns_spec s.obj (if s.bool .use_second_order_inv_kin then secondAssign else firstAssign)
    (Function.update k .use_second_order_inv_kin ⟨.bool, s.bool .use_second_order_inv_kin⟩)
    (fun a ha => by
      have := branch_readable _ a ha
      unfold Obj.get
      rw [Option.isSome_map]; exact this) (branch_nodup _)
  rw [e]
  refine ⟨h1, ?_, h2, ?_⟩
  · rw [h3 _ (by cases s.bool .use_second_order_inv_kin <;> decide), Function.update_self]
  · intro a ha hn
    rw [h3 a hn, Function.update_of_ne ha]

theorem key_assigned (b : Bool) (a : Attr) (key : Planner.Field) (h : keyOf b a = some key) (ha : a ≠ .use_second_order_inv_kin) :
    ∃ x ∈ (if b then secondAssign else firstAssign), x.1 = a ∧ Planner.readField x.2 = some key ∧ key ∈ (if b then keysSecond else keysFirst) := by
  cases b <;> cases a <;> first
    | exact absurd rfl ha
    | (obtain rfl := Option.some.inj h
       decide)
    | exact (Option.some_ne_none _ h.symm).elim

/-- C233, for the formulation of the inverse kinematics the file chooses: after a file with kinematics was loaded without an error, `init_from_settings` never raises, and every
weight, gain, regularisation and via point of the chosen formulation has the value of its key in the file. -/
theorem C233_chosen_formulation_partial (file src : String) (cfg : PlannerCfg) (s s' : PlannerObj) (h : initPlanner file src cfg s = (s', true))
    (hk : cfg.value .load_kinematics = some true) (b : Bool) (hb : cfg.value .use_second_order_inv_kin = some b) (k : KinObj) :
    (initFromSettings s' k).2 = true ∧
    (∀ a key, keyOf b a = some key → ∃ v, cfg.value key = some v ∧ (initFromSettings s' k).1 a = ⟨Planner.Field.kind key, v⟩) ∧
    (∀ a f, viaOf b a = some f → ∃ l : List (List ℝ), (initFromSettings s' k).1 a = ⟨.cvec, l⟩ ∧ ∀ i, i < l.length → l[i]? = cfg.via f i) := by
  obtain ⟨hall, -, hkin⟩ := C232_file_reaches_getters file src cfg s s' h
  obtain ⟨h1, h2, h3⟩ := hkin hk
  have hsb : s'.bool .use_second_order_inv_kin = b := by
    obtain ⟨v, hv, hg⟩ := h1 .bool_UseSecondOrderInverseKinematics .use_second_order_inv_kin rfl (by decide)
    have hv' : v = b := Option.some.inj (hv.symm.trans hb)
    have hg' : (⟨.bool, s'.bool .use_second_order_inv_kin⟩ : Σ k : Kind, k.Val) = ⟨.bool, b⟩ := by
      rw [← hv']
      exact Option.some.inj hg
    exact eq_of_heq (Sigma.mk.inj hg').2
  obtain ⟨i1, i2, i3, -⟩ := init_spec s' k
  rw [hsb] at i2 i3
  have hag : AgreesOn cfg s' (if b then keysSecond else keysFirst) := by
    cases b
    · exact (h3 hb).1
    · exact (h2 hb).1
  refine ⟨i1, ?_, ?_⟩
  · intro a key hkey
    by_cases ha : a = .use_second_order_inv_kin
    · subst ha
      have : key = .use_second_order_inv_kin := by cases b <;> exact (Option.some.inj hkey).symm
      subst this
      exact ⟨b, hb, i2⟩
    · have hex : ∃ p, (a, p) ∈ (if b then secondAssign else firstAssign) ∧ planner.read p = some key ∧ key ∈ (if b then keysSecond else keysFirst) := by
        obtain ⟨x, hx, rfl, h1, h2⟩ := key_assigned b a key hkey ha
        exact ⟨x.2, hx, h1, h2⟩
      obtain ⟨p, hp, hr, hm⟩ := hex
      obtain ⟨v, hv, hg⟩ := hag p key hr hm
      exact ⟨v, hv, Option.some.inj ((i3 _ hp).symm.trans hg)⟩
  · intro a f hf
    cases b
    · obtain ⟨-, v1, v2⟩ := h3 hb
      cases a <;> first
        | exact (Option.some_ne_none _ hf.symm).elim
        | (obtain rfl := Option.some.inj hf
           first
             | exact ⟨_, (Option.some.inj (i3 (.via_joint, .cvec_JointViapoints) (by decide))).symm, v1.2⟩
             | exact ⟨_, (Option.some.inj (i3 (.via_base, .cvec_BaseViapoints) (by decide))).symm, v2.2⟩)
    · obtain ⟨-, v1, v2⟩ := h2 hb
      cases a <;> first
        | exact (Option.some_ne_none _ hf.symm).elim
        | (obtain rfl := Option.some.inj hf
           first
             | exact ⟨_, (Option.some.inj (i3 (.via_joint, .cvec_JointViapoints_Second) (by decide))).symm, v1.2⟩
             | exact ⟨_, (Option.some.inj (i3 (.via_base, .cvec_BaseViapoints_Second) (by decide))).symm, v2.2⟩)

/-- Choosing a formulation leaves the attributes of the other one as they were. -/
theorem C233_other_formulation (s : PlannerObj) (k : KinObj) (a : Attr) (ha : a ∈ initialPosture) (hs : s.bool .use_second_order_inv_kin = true) :
    (initFromSettings s k).1 a = k a := by
  refine (init_spec s k).2.2.2 a ?_ ?_
  · revert a; decide
  · rw [hs]; revert a; decide

/-- C233 is false of the code for the search of the initial posture: with the second-order formulation chosen, the first-order inverse kinematics that search uses keeps the
weights it was constructed with, whatever the file says. -/
theorem C233_initial_posture_violated (file src : String) (cfg : PlannerCfg) (s s' : PlannerObj) (h : initPlanner file src cfg s = (s', true))
    (hk : cfg.value .load_kinematics = some true) (hb : cfg.value .use_second_order_inv_kin = some true) (k : KinObj) (a : Attr) (ha : a ∈ initialPosture) :
    (initFromSettings s' k).1 a = k a := by
  refine C233_other_formulation s' k a ha ?_
  have := (C233_chosen_formulation_partial file src cfg s s' h hk true hb k).2.1 .use_second_order_inv_kin _ rfl
  obtain ⟨v, hv, hg⟩ := this
  have hv' : v = true := Option.some.inj (hv.symm.trans hb)
  have h2 := (init_spec s' k).2.1
  rw [hv'] at hg
  have h3 : (⟨.bool, s'.bool .use_second_order_inv_kin⟩ : Σ k : Kind, k.Val) = ⟨.bool, true⟩ := h2.symm.trans hg
  exact eq_of_heq (Sigma.mk.inj h3).2

/-- C233 is false of the code without kinematics in the file: whatever the file says about the formulation, the one used is what happened to be in the settings object. -/
theorem C233_without_kinematics_violated : ∃ (cfg : PlannerCfg) (s s' : PlannerObj), initPlanner "demo.yaml" "/cfg/" cfg s = (s', true) ∧
    cfg.value .use_second_order_inv_kin = some false ∧ ∀ k, (initFromSettings s' k).1 .use_second_order_inv_kin = ⟨.bool, true⟩ := by
  let cfg : PlannerCfg := { cfg0 with value := fun f => match f with
    | .load_kinematics => some false
    | .use_second_order_inv_kin => some false
    | f => some (value0 f.kind) }
  refine ⟨cfg, obj0, _, rfl, rfl, fun k => ?_⟩
  exact (init_spec _ k).2.1

/-- The hypotheses of C232 and C233 are met: a complete file, for both formulations. -/
example (b : Bool) : ∃ (cfg : PlannerCfg) (s' : PlannerObj), initPlanner "demo.yaml" "/cfg/" cfg obj0 = (s', true) ∧ cfg.value .load_kinematics = some true ∧
    cfg.value .use_second_order_inv_kin = some b ∧ cfg.heuristic = some "TimeOptimization" := by
  let cfg : PlannerCfg := { cfg0 with value := fun f => match f with
    | .use_second_order_inv_kin => some b
    | f => some (value0 f.kind) }
  have hc : cfg.Complete := by
    refine ⟨rfl, fun f => ?_, rfl, rfl, fun _ _ => rfl, fun _ _ => rfl⟩
    cases f <;> rfl
  obtain ⟨s', hs⟩ := init_ok "demo.yaml" "/cfg/" hc obj0
  exact ⟨cfg, s', hs, rfl, rfl, rfl⟩

end Settings
end Verif
