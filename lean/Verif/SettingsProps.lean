import Verif.SettingsLemmas
import Verif.SettingsOwner
import Mathlib.Tactic.FinCases
import Mathlib.Tactic.Linarith
import Mathlib.Tactic.NormNum
import Mathlib.Tactic.Ring
import Mathlib.Tactic.FieldSimp
import Mathlib.Tactic.IntervalCases
import Mathlib.Algebra.Order.Floor.Ring

/-!
Properties of the settings classes: C54, C73-C76.
-/

namespace Verif
namespace Settings

/-! ## specification -/

/-- Reading a parameter (const getter) gives the value `v`. -/
def Reads {C : Class} (s : Obj C) (p : C.Param) (v : (C.kindP p).Val) : Prop := s.get p = some ⟨C.kindP p, v⟩

/-- A parameter throws on every access. -/
def Throws {C : Class} (p : C.Param) : Prop := ∀ s : Obj C, s.get p = none ∧ s.getMutable p = none ∧ ∀ v, s.set p v = none

/-- A parameter can be read and written with its declared type in every state, reading through both getters gives the same, and a value written is read back.
A vector handed out by reference can only be overwritten by one of the same length. -/
def Accessible {C : Class} (p : C.Param) : Prop :=
  ∀ s : Obj C, ∃ v₀ : (C.kindP p).Val, Reads s p v₀ ∧ s.getMutable p = s.get p ∧
    ∀ v : (C.kindP p).Val, (C.fixedSize (C.kindP p) = true → len _ v₀ = len _ v) → ∃ s', s.set p v = some s' ∧ Reads s' p v

/-- C54 for one class. -/
def ReadBack (C : Class) : Prop := ∀ p : C.Param, Accessible p ∨ Throws p

/-! ## C54 -/

theorem accessible_of {C : Class} (p : C.Param) (f : C.Field) (hr : C.read p = some f) (hw : C.write p = some f) (hk : C.kindP p = C.kindF f) : Accessible p := by
  intro s
  refine ⟨hk ▸ s f, ?_, ?_, ?_⟩
  · simp only [Reads, Obj.get, hr, Option.map_some, Option.some.injEq]
    exact (sigma_cast hk.symm (s f)).symm
  · simp [Obj.get, Obj.getMutable, hr, hw]
  · intro v hv
    have hlen : C.fixedSize (C.kindF f) = true → len _ (s f) = len _ v := by
      intro h
      rw [← hk] at h
      have := hv h
      rw [← this]
      have : ∀ (k l : Kind) (h : l = k) (x : k.Val), len k x = len l (h ▸ x) := by rintro k l rfl x; rfl
      exact this _ _ hk _
    have := set_isSome s p v f hw hk hlen
    obtain ⟨s', hs'⟩ := Option.isSome_iff_exists.mp this
    exact ⟨s', hs', get_set s s' p v (fun g hg => by rw [hw] at hg; rw [hr, hg]) hs'⟩

theorem throws_of {C : Class} (p : C.Param) (hr : C.read p = none) (hw : C.write p = none) : Throws p := by
  intro s
  simp [Obj.get, Obj.getMutable, Obj.set, hr, hw]

/-- C54 for the conic solver's settings: every parameter is either readable and writable, the value written being read back, or throws on every access. -/
theorem C54_conic_solver_settings : ReadBack conicSolver := by
  intro p
  cases p <;> first
    | exact Or.inl (accessible_of _ _ rfl rfl rfl)
    | exact Or.inr (throws_of _ rfl rfl)

/-- C54 for the LQR solver's settings. -/
theorem C54_lqr_settings : ReadBack lqrSolver := by
  intro p
  cases p <;> first
    | exact Or.inl (accessible_of _ _ rfl rfl rfl)
    | exact Or.inr (throws_of _ rfl rfl)

/-- In the two solvers' settings a readable parameter takes every value of its type: no length has to match. -/
theorem C54_any_value (C : Class) (hC : C = conicSolver ∨ C = lqrSolver) (p : C.Param) :
    Throws p ∨ ∀ (s : Obj C) (v : (C.kindP p).Val), ∃ s', s.set p v = some s' ∧ Reads s' p v := by
  have key : ∀ (C : Class), ReadBack C → (∀ k, C.fixedSize k = false) → ∀ p : C.Param,
      Throws p ∨ ∀ (s : Obj C) (v : (C.kindP p).Val), ∃ s', s.set p v = some s' ∧ Reads s' p v := by
    intro C h hf p
    rcases h p with h | h
    · refine Or.inr fun s v => ?_
      obtain ⟨v₀, -, -, h⟩ := h s
      exact h v (by simp [hf])
    · exact Or.inl h
  rcases hC with rfl | rfl
  · exact key _ C54_conic_solver_settings (fun _ => rfl) p
  · exact key _ C54_lqr_settings (fun _ => rfl) p

/-- The planner parameters that can be read, but neither be written nor read through the non-const getter. -/
def readOnly : List Planner.Param :=
  [.double_WeightJointReg_Second, .double_DGainEndEffTracking_Second, .double_PGainBaseOrientationTracking_Second, .double_DGainBaseOrientationTracking_Second,
   .double_PGainJointRegularization_Second, .double_DGainJointRegularization_Second]

/-- C54 for the planner's settings, all but six parameters. -/
theorem C54_planner_settings_partial (p : planner.Param) (h : p ∉ readOnly) : Accessible (C := planner) p := by
  cases p <;> first
    | exact accessible_of (C := planner) _ _ rfl rfl rfl
    | exact absurd (by decide) h

/-- C54 fails for the remaining six: the const getter returns a value, while the non-const getter throws. -/
theorem C54_planner_settings_violated : ¬ ReadBack planner ∧
    ∀ p ∈ readOnly, ∀ s : Obj planner, (∃ v, Reads (C := planner) s p v) ∧ s.getMutable p = none ∧ ∀ v, s.set p v = none := by
  have key : ∀ p ∈ readOnly, ∀ s : Obj planner, (∃ v, Reads (C := planner) s p v) ∧ s.getMutable p = none ∧ ∀ v, s.set p v = none := by
    intro p hp s
    simp only [readOnly, List.mem_cons, List.not_mem_nil, or_false] at hp
    rcases hp with rfl | rfl | rfl | rfl | rfl | rfl <;> exact ⟨⟨_, rfl⟩, rfl, fun _ => rfl⟩
  refine ⟨fun h => ?_, key⟩
  let s : Obj planner := fun f => match f with | f => (match Planner.Field.kind f with
    | .int => (0 : ℤ) | .bool => false | .double => (0 : ℝ) | .string => "" | .ivec => ([] : List ℤ) | .vec => ([] : List ℝ) | .arr => fun _ => ([] : List ℝ)
    | .cvec => ([] : List (List ℝ)) | .yaml => "" : (Planner.Field.kind f).Val)
  have := key .double_WeightJointReg_Second (by decide) s
  rcases h .double_WeightJointReg_Second with h1 | h1
  · obtain ⟨v, hv, hm, -⟩ := h1 s
    rw [this.2.1] at hm
    have hv' := hm.trans hv
    cases hv'
  · obtain ⟨v, hv⟩ := this.1
    have hv' := (h1 s).1.symm.trans hv
    cases hv'

/-- The six parameters are the only ones. -/
theorem C54_planner_settings_exact (p : planner.Param) : Accessible (C := planner) p ↔ p ∉ readOnly := by
  constructor
  · intro h hp
    let s : Obj planner := fun f => match f with | f => (match Planner.Field.kind f with
      | .int => (0 : ℤ) | .bool => false | .double => (0 : ℝ) | .string => "" | .ivec => ([] : List ℤ) | .vec => ([] : List ℝ) | .arr => fun _ => ([] : List ℝ)
      | .cvec => ([] : List (List ℝ)) | .yaml => "" : (Planner.Field.kind f).Val)
    obtain ⟨v, hv, hm, -⟩ := h s
    have := (C54_planner_settings_violated.2 p hp s).2.1
    rw [hm, show s.get p = _ from hv] at this
    cases this
  · exact C54_planner_settings_partial p

/-- When a write to a planner parameter succeeds: for vectors, which are handed out by reference, exactly if the length stays the same; otherwise always. -/
theorem C54_planner_write (p : planner.Param) (h : p ∉ readOnly) (s : Obj planner) (v : (planner.kindP p).Val) :
    (s.set p v).isSome ↔ (planner.kindP p = .vec ∨ planner.kindP p = .ivec → ∀ v₀, Reads s p v₀ → len _ v₀ = len _ v) := by
  have key : ∀ (f : planner.Field) (hr : planner.read p = some f) (hw : planner.write p = some f) (hk : planner.kindP p = planner.kindF f),
      ((s.set p v).isSome ↔ (planner.kindP p = .vec ∨ planner.kindP p = .ivec → ∀ v₀, Reads s p v₀ → len _ v₀ = len _ v)) := by
    intro f hr hw hk
    have hcast : ∀ (k l : Kind) (h : l = k) (x : k.Val), len k x = len l (h ▸ x) := by rintro k l rfl x; rfl
    have hread : ∀ v₀, Reads s p v₀ ↔ v₀ = hk ▸ s f := by
      intro v₀
      have h0 : s.get p = some ⟨planner.kindP p, hk ▸ s f⟩ := by
        simp only [Obj.get, hr, Option.map_some, Option.some.injEq]
        exact (sigma_cast hk.symm (s f)).symm
      unfold Reads
      rw [h0]
      constructor
      · intro h; injection h with h; injection h with _ h; exact h.symm
      · rintro rfl; rfl
    have hset : (s.set p v).isSome ↔ (planner.fixedSize (planner.kindF f) = true → len _ (s f) = len _ v) := by
      unfold Obj.set
      rw [hw]
      simp only [dif_pos hk]
      split_ifs with hc
      · simp only [Bool.and_eq_true, bne_iff_ne, ne_eq] at hc
        simp only [Option.isSome_none, Bool.false_eq_true, false_iff, not_forall]
        exact ⟨hc.1, hc.2⟩
      · simp only [Bool.and_eq_true, bne_iff_ne, ne_eq, not_and, not_not] at hc
        simpa using hc
    rw [hset]
    have hfix : planner.fixedSize (planner.kindF f) = true ↔ (planner.kindP p = .vec ∨ planner.kindP p = .ivec) := by
      rw [← hk]; cases planner.kindP p <;> decide
    rw [hfix]
    constructor
    · intro h0 h1 v₀ hv
      rw [(hread v₀).1 hv]
      exact (hcast _ _ hk _).symm.trans (h0 h1)
    · intro h0 h1
      exact (hcast _ _ hk _).trans (h0 h1 _ ((hread _).2 rfl))
  cases p <;> first
    | exact key _ rfl rfl rfl
    | exact absurd (by decide) h

/-- Writing the time step of the planner is such a case. -/
example : Accessible (C := planner) Planner.Param.double_TimeStep := C54_planner_settings_partial _ (by decide)

/-! ## C73: one parameter, one value -/

/-- Writing `p` does not change what is read for `q`. -/
def Unrelated {C : Class} (p q : C.Param) : Prop := ∀ (s s' : Obj C) (v : (C.kindP p).Val), s.set p v = some s' → s'.get q = s.get q

theorem unrelated_of {C : Class} (owner : C.Field → C.Param) (p q : C.Param) (hp : ∀ f, C.write p = some f → owner f = p) (hq : ∀ f, C.read q = some f → owner f = q)
    (h : p ≠ q) : Unrelated p q := by
  intro s s' v hs
  exact get_set_other s s' p q v (fun f hf hf' => h ((hp f hf).symm.trans (hq f hf'))) hs

/-- C73 for the conic solver's settings: writing one parameter leaves all others as they were. -/
theorem C73_conic_solver_settings (p q : conicSolver.Param) (h : p ≠ q) : Unrelated (C := conicSolver) p q := by
  refine unrelated_of (C := conicSolver) ConicSolver.owner p q ?_ ?_ h
  · intro f hf; cases p <;> (cases hf; try rfl)
  · intro f hf; cases q <;> (cases hf; try rfl)

/-- C73 for the LQR solver's settings. -/
theorem C73_lqr_settings (p q : lqrSolver.Param) (h : p ≠ q) : Unrelated (C := lqrSolver) p q := by
  refine unrelated_of (C := lqrSolver) LqrSolver.owner p q ?_ ?_ h
  · intro f hf; cases p <;> (cases hf; try rfl)
  · intro f hf; cases q <;> (cases hf; try rfl)

/-- C73 for the planner's settings, except for the pair RobotWeight and MassTimesGravity. -/
theorem C73_planner_settings_partial (p q : planner.Param) (h : p ≠ q)
    (h' : ¬ (p = Planner.Param.double_RobotWeight ∧ q = Planner.Param.double_MassTimesGravity))
    (h'' : ¬ (p = Planner.Param.double_MassTimesGravity ∧ q = Planner.Param.double_RobotWeight)) : Unrelated (C := planner) p q := by
  intro s s' v hs
  refine get_set_other (C := planner) s s' p q v (fun f hf hf' => ?_) hs
  have key : ∀ (r : Planner.Param) (g : Planner.Field), Planner.readField r = some g ∨ Planner.writeField r = some g → Planner.owner g = r ∨ g = .mass_times_gravity := by
    intro r g hg
    rcases hg with hg | hg <;> (cases r <;> first | (cases hg; done) | (cases hg; left; rfl) | (cases hg; right; rfl))
  have key2 : ∀ r : Planner.Param, Planner.readField r = some .mass_times_gravity ∨ Planner.writeField r = some .mass_times_gravity → r = .double_RobotWeight ∨ r = .double_MassTimesGravity := by
    intro r hg
    rcases hg with hg | hg <;> (cases r <;> first | (cases hg; done) | (left; rfl) | (right; rfl))
  by_cases hm : f = Planner.Field.mass_times_gravity
  · subst hm
    rcases key2 p (Or.inr hf) with rfl | rfl <;> rcases key2 q (Or.inl hf') with rfl | rfl
    · exact h rfl
    · exact h' ⟨rfl, rfl⟩
    · exact h'' ⟨rfl, rfl⟩
    · exact h rfl
  · rcases key p f (Or.inr hf) with h1 | h1
    · rcases key q f (Or.inl hf') with h2 | h2
      · exact h (h1.symm.trans h2)
      · exact hm h2
    · exact hm h1

/-- For that pair it fails: after writing 80 to RobotWeight, MassTimesGravity reads 80 as well. -/
theorem C73_planner_settings_violated (s : Obj planner) : ∃ s', Obj.set (C := planner) s Planner.Param.double_RobotWeight (80 : ℝ) = some s' ∧
    Reads (C := planner) s' Planner.Param.double_MassTimesGravity (80 : ℝ) := by
  obtain ⟨v₀, -, -, h⟩ := C54_planner_settings_partial Planner.Param.double_RobotWeight (by decide) s
  obtain ⟨s', h1, h2⟩ := h (80 : ℝ) (by intro h; cases h)
  exact ⟨s', h1, h2⟩

/-- Time step and horizon are unrelated. -/
example : Unrelated (C := planner) Planner.Param.double_TimeStep Planner.Param.double_TimeHorizon := C73_planner_settings_partial _ _ (fun h => by cases h) (fun h => by cases h.1) (fun h => by cases h.1)

/-! ## C74, C75: loading the planner settings -/

open Planner.Field

/-- What a successfully loaded object must satisfy with respect to the file. -/
structure LoadedFrom (cfg : PlannerCfg) (s : PlannerObj) : Prop where
  /-- the basic quantities are those of the file -/
  step : cfg.value time_step = some (s.dbl time_step : ℝ)
  horizon : cfg.value time_horizon = some (s.dbl time_horizon : ℝ)
  mass : cfg.value robot_mass = some (s.dbl robot_mass : ℝ)
  grav : cfg.value gravity = some (s.dbl gravity : ℝ)
  /-- number of time steps that fit into the horizon -/
  steps : 0 < s.dbl time_step → (s.int num_timesteps : ℝ) * s.dbl time_step ≤ s.dbl time_horizon ∧ s.dbl time_horizon < (s.int num_timesteps + 1 : ℝ) * s.dbl time_step
  /-- weight and gravity vector -/
  weight : s.dbl mass_times_gravity = s.dbl robot_mass * s.dbl gravity
  gvec : s.vec gravity_vector = [0, 0, -s.dbl gravity]
  /-- active degrees of freedom -/
  act : s.int num_act_dofs = (s.ivec active_dofs).length
  ext : s.int num_extended_act_dofs = (s.ivec extended_active_dofs).length
  dofs : s.bool load_kinematics = true → cfg.value active_dofs = some (s.ivec active_dofs : List ℤ) ∧ s.int num_extended_act_dofs = s.int num_act_dofs + 6 ∧
    (∀ i : ℕ, i < 6 → (s.ivec extended_active_dofs)[i]? = some (i : ℤ)) ∧
    ∀ i : ℕ, (s.ivec extended_active_dofs)[6 + i]? = ((s.ivec active_dofs)[i]?).map (6 + ·)
  /-- via points of the center of mass -/
  via : ((s.cvec com_viapoints).length : ℤ) = max 0 (s.int num_com_viapoints) ∧ ∀ i, i < (s.cvec com_viapoints).length → (s.cvec com_viapoints)[i]? = cfg.via com_viapoints i

section
variable (file src : String) (cfg : PlannerCfg)

theorem est_step : Est (Loaded cfg time_step) (initPlanner file src cfg) := by
  refine Est.there <| Est.there <| Est.there <| Est.there <| Est.there <| Est.there <| Est.there <| Est.here (Est.reads (by decide)) ?_
  pres (DependsOn.loaded cfg time_step)

theorem est_horizon : Est (Loaded cfg time_horizon) (initPlanner file src cfg) := by
  refine Est.there <| Est.there <| Est.there <| Est.there <| Est.there <| Est.there <| Est.there <| Est.here (Est.reads (by decide)) ?_
  pres (DependsOn.loaded cfg time_horizon)

theorem est_mass : Est (Loaded cfg robot_mass) (initPlanner file src cfg) := by
  refine Est.there <| Est.there <| Est.there <| Est.there <| Est.there <| Est.there <| Est.there <| Est.there <| Est.there <| Est.there <| Est.here (Est.reads (by decide)) ?_
  pres (DependsOn.loaded cfg robot_mass)

theorem est_gravity : Est (Loaded cfg gravity) (initPlanner file src cfg) := by
  refine Est.there <| Est.there <| Est.there <| Est.there <| Est.there <| Est.there <| Est.there <| Est.there <| Est.there <| Est.there <| Est.here (Est.reads (by decide)) ?_
  pres (DependsOn.loaded cfg gravity)

/-- The derived members, as computed by the last five assignments. -/
def Derived (s : PlannerObj) : Prop :=
  s.int num_act_dofs = (s.ivec active_dofs).length ∧ s.dbl mass_times_gravity = s.dbl robot_mass * s.dbl gravity ∧ s.vec gravity_vector = [0, 0, -s.dbl gravity] ∧
  s.int num_timesteps = ⌊s.dbl time_horizon / s.dbl time_step⌋ ∧ s.int num_extended_act_dofs = (s.ivec extended_active_dofs).length

theorem est_derived : Est Derived (initPlanner file src cfg) := by
  refine Est.there <| Est.there <| Est.there <| Est.there <| Est.there <| Est.there <| Est.there <| Est.there <| Est.there <| Est.there <| Est.there <| Est.there <|
    Est.there <| Est.there <| Est.there <| Est.there <| Est.there <| Est.there <| Est.here ?_ Pres.nil
  intro s s' hs
  simp only [derive, pure1, Prod.mk.injEq, and_true] at hs
  subst hs
  exact ⟨rfl, rfl, rfl, rfl, rfl⟩

/-- Degrees of freedom after the kinematic part was loaded. -/
def DofsOk (s : PlannerObj) : Prop := s.bool load_kinematics = true → Loaded cfg active_dofs s ∧ s.ivec extended_active_dofs = extendedDofs (s.ivec active_dofs)

theorem dofs_depends : DependsOn (DofsOk cfg) [load_kinematics, active_dofs, extended_active_dofs] where
  heur := fun _ _ h => h
  indep := by
    intro g hg s v hs
    simp only [List.mem_cons, List.not_mem_nil, or_false, not_or] at hg
    have h1 := put_obj_other s v (Ne.symm hg.1)
    have h2 := put_obj_other s v (Ne.symm hg.2.1)
    have h3 := put_obj_other s v (Ne.symm hg.2.2)
    simpa only [DofsOk, Loaded, PlannerObj.bool, PlannerObj.ivec, h1, h2, h3] using hs

theorem est_dofs : Est (DofsOk cfg) (initPlanner file src cfg) := by
  refine Est.there <| Est.there <| Est.there <| Est.here ?_ ?_
  · intro s s' hr
    unfold ifB at hr
    split at hr
    · obtain ⟨t, h1, h2⟩ := seq_ok.mp hr
      obtain ⟨u, h3, h4⟩ := seq_ok.mp h2
      simp only [seqs, Prod.mk.injEq, and_true] at h4
      subst h4
      simp only [pure1, Prod.mk.injEq, and_true] at h3
      subst h3
      intro _
      have : Loaded cfg active_dofs t := Est.reads (by decide) s t h1
      exact ⟨this, rfl⟩
    · rename_i hk
      simp only [Prod.mk.injEq, and_true] at hr
      subst hr
      intro h
      exact absurd h hk
  · pres (dofs_depends cfg)

/-- Via points of the center of mass after their loop. -/
def ViaOk (s : PlannerObj) : Prop :=
  (s.cvec com_viapoints).length = nat (s.int num_com_viapoints) ∧ ∀ i, i < (s.cvec com_viapoints).length → (s.cvec com_viapoints)[i]? = cfg.via com_viapoints i

theorem via_depends : DependsOn (ViaOk cfg) [com_viapoints, num_com_viapoints] where
  heur := fun _ _ h => h
  indep := by
    intro g hg s v hs
    simp only [List.mem_cons, List.not_mem_nil, or_false, not_or] at hg
    have h1 := put_obj_other s v (Ne.symm hg.1)
    have h2 := put_obj_other s v (Ne.symm hg.2)
    simpa only [ViaOk, PlannerObj.cvec, PlannerObj.int, h1, h2] using hs

theorem viaLoop_spec (n : ℕ) : ∀ (i : ℕ) (s s' : PlannerObj), viaLoop cfg com_viapoints rfl (fun _ => 4) n i s = (s', true) →
    (s.cvec com_viapoints).length = i → (∀ j, j < i → (s.cvec com_viapoints)[j]? = cfg.via com_viapoints j) →
    s'.int num_com_viapoints = s.int num_com_viapoints ∧ (s'.cvec com_viapoints).length = i + n ∧ ∀ j, j < i + n → (s'.cvec com_viapoints)[j]? = cfg.via com_viapoints j := by
  induction n with
  | zero =>
    intro i s s' h hl hv
    simp only [viaLoop, Prod.mk.injEq, and_true] at h
    subst h
    exact ⟨rfl, by omega, fun j hj => hv j (by omega)⟩
  | succ n ih =>
    intro i s s' h hl hv
    simp only [viaLoop] at h
    split at h
    · rename_i v hvia
      have hc : PlannerObj.cvec (s.put com_viapoints (s.cvec com_viapoints ++ [v])) com_viapoints = s.cvec com_viapoints ++ [v] := rfl
      obtain ⟨h1, h2, h3⟩ := ih (i + 1) _ s' h (by
          refine (congrArg List.length hc).trans ?_
          simp [hl]) (by
          intro j hj
          refine (congrArg (fun l : List (List ℝ) => l[j]?) hc).trans ?_
          show (s.cvec com_viapoints ++ [v])[j]? = _
          rcases Nat.lt_succ_iff_lt_or_eq.mp hj with h' | rfl
          · rw [List.getElem?_append_left (by omega)]; exact hv j h'
          · rw [List.getElem?_append_right (by omega)]; simp [hl, hvia])
      exact ⟨h1, by omega, fun j hj => h3 j (by omega)⟩
    · simp at h

theorem est_via : Est (ViaOk cfg) (initPlanner file src cfg) := by
  refine Est.there <| Est.there <| Est.there <| Est.there <| Est.there <| Est.here2 ?_ ?_
  · intro s s' hr
    obtain ⟨t, h1, h2⟩ := seq_ok.mp hr
    simp only [clear, pure1, Prod.mk.injEq, and_true] at h1
    subst h1
    obtain ⟨h3, h4, h5⟩ := viaLoop_spec cfg _ 0 _ _ h2 rfl (by intro j hj; omega)
    rw [Nat.zero_add] at h4 h5
    refine ⟨by rw [h4, h3], fun i hi => h5 i (by omega)⟩
  · pres (via_depends cfg)

/-- C74: if the settings are loaded without an error, then the basic quantities are those of the file and the derived ones agree with them. -/
theorem C74_load_derives_partial (s s' : PlannerObj) (h : initPlanner file src cfg s = (s', true)) : LoadedFrom cfg s' where
  step := est_step file src cfg s s' h
  horizon := est_horizon file src cfg s s' h
  mass := est_mass file src cfg s s' h
  grav := est_gravity file src cfg s s' h
  steps := by
    intro h0
    have := (est_derived file src cfg s s' h).2.2.2.1
    rw [this]
    have h1 := Int.floor_le (s'.dbl time_horizon / s'.dbl time_step)
    have h2 := Int.lt_floor_add_one (s'.dbl time_horizon / s'.dbl time_step)
    exact ⟨(le_div_iff₀ h0).mp h1, (div_lt_iff₀ h0).mp h2⟩
  weight := (est_derived file src cfg s s' h).2.1
  gvec := (est_derived file src cfg s s' h).2.2.1
  act := (est_derived file src cfg s s' h).1
  ext := (est_derived file src cfg s s' h).2.2.2.2
  dofs := by
    intro hk
    obtain ⟨h1, h2⟩ := est_dofs file src cfg s s' h hk
    refine ⟨h1, ?_, ?_, ?_⟩
    · rw [(est_derived file src cfg s s' h).2.2.2.2, (est_derived file src cfg s s' h).1, h2]
      simp [extendedDofs]
      ring
    · intro i hi
      rw [h2]
      simp only [extendedDofs]
      interval_cases i <;> rfl
    · intro i
      rw [h2]
      simp only [extendedDofs]
      rw [List.getElem?_append_right (by simp)]
      simp
  via := by
    obtain ⟨h1, h2⟩ := est_via file src cfg s s' h
    refine ⟨?_, h2⟩
    rw [h1, nat]
    omega

end

/-! a concrete file and a concrete object -/

/-- A value of each type. -/
def value0 : (k : Kind) → k.Val
  | .int => (2 : ℤ)
  | .bool => true
  | .double => (3 : ℝ)
  | .string => "x"
  | .ivec => ([0, 2] : List ℤ)
  | .vec => ([1] : List ℝ)
  | .arr => fun _ => ([1, 2] : List ℝ)
  | .cvec => ([] : List (List ℝ))
  | .yaml => ""

/-- A complete file: kinematics is loaded, two via points, time optimization. -/
def cfg0 : PlannerCfg :=
  { fileOk := true, value := fun f => some (value0 f.kind), heuristic := some "TimeOptimization", frictionCone := some "LinearCone", via := fun _ i => some [(i : ℝ)],
    perEff := fun _ _ => some [1, 2] }

/-- An object in some earlier state. -/
def obj0 : PlannerObj := { obj := fun f => value0 (Planner.Field.kind f), heuristic := .SoftConstraint }

/-- A file with all keys is loaded without an error. -/
theorem C74_complete_file_loads (file src : String) (cfg : PlannerCfg) (h : cfg.Complete) (s : PlannerObj) :
    ∃ s', initPlanner file src cfg s = (s', true) ∧ LoadedFrom cfg s' := by
  obtain ⟨s', hs⟩ := init_ok file src h s
  exact ⟨s', hs, C74_load_derives_partial _ _ _ _ _ hs⟩

example : cfg0.Complete := ⟨rfl, fun _ => rfl, rfl, rfl, fun _ _ => rfl, fun _ _ => rfl⟩

/-- C74 in full fails: loading returns normally also when the file cannot be read or a key is missing (the error is only printed); the members keep what they had, here a number
of time steps that does not fit the horizon and the step. -/
theorem C74_load_derives_violated :
    ¬ ∀ (file src : String) (cfg : PlannerCfg) (s s' : PlannerObj) (ok : Bool), initPlanner file src cfg s = (s', ok) → LoadedFrom cfg s' := by
  intro h
  have := h "demo.yaml" "/cfg/" { cfg0 with fileOk := false } obj0 _ _ rfl
  have h2 := this.steps (by show (0 : ℝ) < 3; norm_num)
  have h3 : ((2 : ℤ) : ℝ) * 3 ≤ 3 := h2.1
  norm_num at h3

/-- The same when a single key is missing from the file. -/
theorem C74_missing_key_violated : ∃ (cfg : PlannerCfg) (s' : PlannerObj) (ok : Bool), cfg.fileOk = true ∧ (∀ f, f ≠ load_kinematics → (cfg.value f).isSome) ∧
    initPlanner "demo.yaml" "/cfg/" cfg obj0 = (s', ok) ∧ ¬ LoadedFrom cfg s' := by
  let cfg : PlannerCfg := { cfg0 with value := fun f => match f with
    | load_kinematics => none
    | f => some (value0 f.kind) }
  refine ⟨cfg, _, _, rfl, ?_, rfl, ?_⟩
  · intro f hf
    cases f <;> first | rfl | exact absurd rfl hf
  · intro hl
    have h2 := hl.steps (by show (0 : ℝ) < 3; norm_num)
    have h3 : ((2 : ℤ) : ℝ) * 3 ≤ 3 := h2.1
    norm_num at h3

/-! ### C75: the number of time steps follows horizon and step -/

/-- The number of time steps read from the object is the number of whole steps in the horizon read from it. -/
def StepsConsistent (s : Obj planner) : Prop :=
  ∃ (n : ℤ) (T d : ℝ), Reads (C := planner) s Planner.Param.int_NumTimesteps n ∧ Reads (C := planner) s Planner.Param.double_TimeHorizon T ∧
    Reads (C := planner) s Planner.Param.double_TimeStep d ∧ n = ⌊T / d⌋

/-- C75, partial: writes to any other parameter keep the relation. -/
theorem C75_steps_consistent_partial (s s' : Obj planner) (p : planner.Param) (v : (planner.kindP p).Val) (h : StepsConsistent s) (hs : s.set p v = some s')
    (h1 : p ≠ Planner.Param.int_NumTimesteps) (h2 : p ≠ Planner.Param.double_TimeHorizon) (h3 : p ≠ Planner.Param.double_TimeStep) : StepsConsistent s' := by
  obtain ⟨n, T, d, hn, hT, hd, he⟩ := h
  have key : ∀ q : planner.Param, p ≠ q → q ≠ Planner.Param.double_RobotWeight → q ≠ Planner.Param.double_MassTimesGravity → s'.get q = s.get q := fun q hq hq1 hq2 =>
    C73_planner_settings_partial p q hq (fun h => hq2 h.2) (fun h => hq1 h.2) s s' v hs
  refine ⟨n, T, d, ?_, ?_, ?_, he⟩
  · exact (key _ h1 (fun h => by cases h) (fun h => by cases h)).trans hn
  · exact (key _ h2 (fun h => by cases h) (fun h => by cases h)).trans hT
  · exact (key _ h3 (fun h => by cases h) (fun h => by cases h)).trans hd

/-- After a successful load the relation holds. -/
theorem C75_steps_consistent_after_load (file src : String) (cfg : PlannerCfg) (s s' : PlannerObj) (h : initPlanner file src cfg s = (s', true)) : StepsConsistent s'.obj :=
  ⟨s'.int num_timesteps, s'.dbl time_horizon, s'.dbl time_step, rfl, rfl, rfl, (est_derived file src cfg s s' h).2.2.2.1⟩

/-- C75 in full fails: halving the time step of any loaded object with positive step and horizon of at least one step breaks the relation. -/
theorem C75_steps_consistent_violated (s : Obj planner) (T d : ℝ) (h : StepsConsistent s) (hT : Reads (C := planner) s Planner.Param.double_TimeHorizon T)
    (hd : Reads (C := planner) s Planner.Param.double_TimeStep d) (h0 : 0 < d) (hTd : d ≤ T) :
    ∃ s', s.set Planner.Param.double_TimeStep (d / 2 : ℝ) = some s' ∧ ¬ StepsConsistent s' := by
  obtain ⟨v₀, -, -, hset⟩ := C54_planner_settings_partial Planner.Param.double_TimeStep (by decide) s
  obtain ⟨s', h1, h2⟩ := hset (d / 2 : ℝ) (by intro h; cases h)
  refine ⟨s', h1, ?_⟩
  rintro ⟨n', T', d', hn', hT', hd', he'⟩
  obtain ⟨n, T1, d1, hn, hT1, hd1, he⟩ := h
  have inj : ∀ {a b : ℝ}, (some ⟨Kind.double, a⟩ : Option (Σ k : Kind, k.Val)) = some ⟨Kind.double, b⟩ → a = b := by
    intro a b h
    exact eq_of_heq (Sigma.mk.inj (Option.some.inj h)).2
  have injz : ∀ {a b : ℤ}, (some ⟨Kind.int, a⟩ : Option (Σ k : Kind, k.Val)) = some ⟨Kind.int, b⟩ → a = b := by
    intro a b h
    exact eq_of_heq (Sigma.mk.inj (Option.some.inj h)).2
  have e1 : T1 = T := inj (hT1.symm.trans hT)
  have e2 : d1 = d := inj (hd1.symm.trans hd)
  have e3 : d' = d / 2 := inj (hd'.symm.trans h2)
  have hkeep : ∀ q : planner.Param, (Planner.Param.double_TimeStep : planner.Param) ≠ q → s'.get q = s.get q := fun q hq =>
    C73_planner_settings_partial _ q hq (fun h => by cases h.1) (fun h => by cases h.1) s s' _ h1
  have e4 : T' = T := inj (hT'.symm.trans ((hkeep _ (fun h => by cases h)).trans hT))
  have e5 : n' = n := injz (hn'.symm.trans ((hkeep _ (fun h => by cases h)).trans hn))
  rw [e1, e2] at he
  rw [e3, e4, e5, he] at he'
  have hq : 1 ≤ T / d := (one_le_div h0).mpr hTd
  have hf : (1 : ℤ) ≤ ⌊T / d⌋ := Int.le_floor.mpr (by simpa using hq)
  have hdbl : T / (d / 2) = T / d + T / d := by field_simp; ring
  have h5 : (⌊T / d⌋ + ⌊T / d⌋ : ℤ) ≤ ⌊T / (d / 2)⌋ := by
    rw [hdbl]
    exact Int.le_floor_add _ _
  omega

/-- Line-search step lengths of the LQR solver: the first is 1, and for a coefficient above 1 they decrease strictly and stay positive. -/
theorem C76_linesearch_steps (c : ℝ) (n : ℕ) (hc : 1 < c) : (alphas c n).length = n ∧ (∀ h : 0 < (alphas c n).length, (alphas c n)[0] = 1) ∧
    (∀ i j (hi : i < (alphas c n).length) (hj : j < (alphas c n).length), i < j → (alphas c n)[j] < (alphas c n)[i]) ∧ ∀ a ∈ alphas c n, 0 < a ∧ a ≤ 1 := by
  have h0 : (0 : ℝ) < c := by linarith
  refine ⟨by simp [alphas], ?_, ?_, ?_⟩
  · intro h; simp [alphas]
  · intro i j hi hj hij
    simp only [alphas, List.getElem_map, List.getElem_range]
    apply zpow_lt_zpow_right₀ hc
    have : (i : ℤ) < j := by exact_mod_cast hij
    nlinarith
  · intro a ha
    simp only [alphas, List.mem_map] at ha
    obtain ⟨i, -, rfl⟩ := ha
    refine ⟨zpow_pos h0 _, zpow_le_one_of_nonpos₀ hc.le (by nlinarith [mul_self_nonneg (i : ℤ)])⟩

example : alphas 2 3 = [1, 1 / 2, 1 / 16] := by
  simp [alphas, List.range_succ]
  norm_num

end Settings
end Verif
