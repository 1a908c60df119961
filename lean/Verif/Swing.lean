import Verif.Slerp
import Verif.TrajProps
import Verif.DynPlan

/-!
Model of `ContactPlanInterface::updateEndeffectorTrajectories`, /repo/momentumopt/src/momentumopt/cntopt/ContactPlanInterface.cpp:47-91, with the flight phases it generates (lines 131-153), and of the via points
it reads, /repo/momentumopt/src/momentumopt/cntopt/ContactState.cpp:116-177; facts used for the properties C241-C244.

Simplifications: exact reals, a velocity or acceleration that is not a number is `none` (see `Traj`). The via point variable, not initialised in line 51, starts with an arbitrary value.
Reading outside of a sequence (undefined behaviour) is `none`.
-/
namespace Verif
namespace Swing
open Cont

/-! ### model -/

/-- Vectors of three numbers (`Eigen::Vector3d`, ContactPlanInterface.cpp:51). -/
abbrev V := Fin 3 → ℝ

/-- The members of `DynamicsState` of one end-effector that matter here, DynamicsState.hpp:111-117. -/
structure Foot where
  /-- `eff_activations_`. -/
  act : Bool
  /-- `eff_positions_`. -/
  pos : Fin 3 → Option ℝ
  /-- `eff_velocities_`. -/
  vel : Fin 3 → Option ℝ
  /-- `eff_accelerations_`. -/
  acc : Fin 3 → Option ℝ
  /-- `eff_orientations_`. -/
  ori : Quat

/-- The via point variable of line 51 and the states of the end-effector, ContactPlanInterface.cpp:51-90. -/
abbrev St := V × (Nat → Foot)

/-- The activations in the sequence, ContactPlanInterface.cpp:105-106,120-121. -/
def St.act (st : St) (t : Nat) : Bool := (st.2 t).act

/-- What a flight phase is generated from, ContactPlanInterface.cpp:58-65,69-75,80-87: first and last step, the identifier of its via point, and the poses at its ends. -/
structure Leg where
  /-- `ini_id`. -/
  start : Nat
  /-- `end_id`. -/
  fin : Nat
  /-- Identifier of the via point. -/
  id : Int
  /-- Position at the start. -/
  p0 : V
  /-- Position at the end. -/
  p1 : V
  /-- Orientation at the start. -/
  q0 : Quat
  /-- Orientation at the end. -/
  q1 : Quat

/-- What all phases of an end-effector share: the solver of TrajectoryGenerator.cpp:52, the durations `dynamicsState(t).time()` and the via points (ContactPlanInterface.cpp:93-99,133). -/
structure Env where
  /-- `householderQr().solve`. -/
  qr : Traj.Qr
  /-- `dynamicsState(t).time()`. -/
  dt : Nat → ℝ
  /-- Identifiers and positions of the via points. -/
  vias : List (Int × V)

/-- `findActiveViapoints`, `sw_traj_.initialize` and `generateFlightPhase` for one phase, ContactPlanInterface.cpp:60-64,71-75,82-86,140-153. -/
noncomputable def fly (env : Env) (l : Leg) (st : St) : St :=
  let via := Traj.findActiveViapoint st.1 env.vias l.id
  (via, fun t =>
    match Traj.flightPhase env.qr env.dt l.start l.fin l.p0 l.p1 via t with
    | some p => ⟨(st.2 t).act, p.pos, p.vel, p.acc, Slerp.slerp l.q0 l.q1 (ContactPlan.queryTime l.start l.fin t)⟩
    | none => st.2 t)

/-- The loop over the flight phases between contacts, ContactPlanInterface.cpp:68-76: `k` phases remain, the next one leaves contact `i`, `e` is `end_id`. -/
noncomputable def mid (T : Nat) (env : Env) (cs : List Contact) : Nat → Nat → Nat → St → Option (Nat × St)
  | 0, _, e, st => some (e, st)
  | k + 1, i, e, st => do
    let b ← ContactPlan.findBreak T st.act e
    let m ← ContactPlan.findMake T st.act b
    let c ← cs[i]?
    let c' ← cs[i + 1]?
    mid T env cs k (i + 1) m (fly env ⟨b, m, i, c.pos, c'.pos, c.ori, c'.ori⟩ st)

/-- The pose of the end-effector in the initial state (ContactPlanInterface.cpp:57,61,84-86). -/
structure Home where
  /-- `endeffectorActivation`. -/
  act : Bool
  /-- `endeffectorPosition`. -/
  pos : V
  /-- `endeffectorOrientation`. -/
  ori : Quat

/-- The body of the loop over the end-effectors, ContactPlanInterface.cpp:53-89; `com` is `CenterOfMassMotion`. -/
noncomputable def effector (T : Nat) (env : Env) (cs : List Contact) (home : Home) (com : V) (st : St) : Option St :=
  if cs = [] then some st else do
    let (e1, st1) ← if home.act then some (0, st) else do
      let e ← ContactPlan.findMake T st.act 0
      let c ← cs[0]?
      some (e, fly env ⟨0, e, -1, home.pos, c.pos, home.ori, c.ori⟩ st)
    let (e2, st2) ← mid T env cs (cs.length - 1) 0 e1 st1
    if T = 0 then none
    else if st2.act (T - 1) then some st2
    else do
      let b ← ContactPlan.findBreak T st2.act e2
      let c ← cs.getLast?
      some (fly env ⟨b, T - 1, (cs.length : Int) - 1, c.pos, fun d => home.pos d + com d, c.ori, home.ori⟩ st2)

/-- What `updateEndeffectorTrajectories` reads besides the sequence, ContactPlanInterface.cpp:47-55. -/
structure Input where
  /-- `Problem::n_endeffs_`. -/
  n : Nat
  /-- `PlannerIntParam_NumTimesteps`. -/
  T : Nat
  /-- `PlannerBoolParam_LoadKinematics`. -/
  kin : Bool
  /-- `PlannerVectorParam_CenterOfMassMotion`. -/
  com : V
  /-- The contacts. -/
  cs : Nat → List Contact
  /-- The via points. -/
  vias : Nat → List (Int × V)
  /-- The initial state. -/
  home : Nat → Home
  /-- The solver of TrajectoryGenerator.cpp:52. -/
  qr : Traj.Qr
  /-- `dynamicsState(t).time()`. -/
  dt : Nat → ℝ

/-- One iteration of the loop over the end-effectors, ContactPlanInterface.cpp:52-90. -/
noncomputable def visit (i : Input) (e : Nat) (st : V × (Nat → Nat → Foot)) : Option (V × (Nat → Nat → Foot)) := do
  let r ← effector i.T ⟨i.qr, i.dt, i.vias e⟩ (i.cs e) (i.home e) i.com (st.1, st.2 e)
  some (r.1, Function.update st.2 e r.2)

/-- The loop over the end-effectors from `e` on, ContactPlanInterface.cpp:52-90. -/
noncomputable def loop (i : Input) : Nat → Nat → V × (Nat → Nat → Foot) → Option (V × (Nat → Nat → Foot))
  | 0, _, st => some st
  | r + 1, e, st => (visit i e st).bind (loop i r (e + 1))

/-- `updateEndeffectorTrajectories`, ContactPlanInterface.cpp:47-91; `via0` is the value of the variable of line 51. -/
noncomputable def update (i : Input) (via0 : V) (feet : Nat → Nat → Foot) : Option (Nat → Nat → Foot) :=
  if i.kin then (loop i i.n 0 (via0, feet)).map Prod.snd else some feet

/-! ### specification -/

/-- Contact `k` of the end-effector is in force exactly during the steps from `(ivs k).1` up to, not including, `(ivs k).2`; the contacts come in order, with a step in the air between them. -/
def Timed (T : Nat) (step : ℝ) (cs : List Contact) (ivs : List (Nat × Nat)) : Prop :=
  List.Forall₂ (fun c iv => ∀ t < T, DynPlan.InTime step c t ↔ iv.1 ≤ t ∧ t < iv.2) cs ivs ∧ ContactPlan.Separated T 0 ivs

/-- Time at the end of step `t`. -/
noncomputable def clock (dt : Nat → ℝ) (t : Nat) : ℝ := ∑ k ∈ Finset.range (t + 1), dt k

/-- The states from step `start` to step `fin` are a swing from one pose to another: the position follows a smooth curve which leaves the first position and reaches the second at rest and without
acceleration, passes through the via point `id` of the list, if there is one, half way in time; velocity and acceleration are its derivatives; the orientation turns from the first to (a quaternion for) the second. -/
structure Swings (dt : Nat → ℝ) (vias : List (Int × V)) (start fin : Nat) (id : Int) (p0 p1 : V) (q0 q1 : Quat) (r : Nat → Foot) : Prop where
  curve : ∃ f : Fin 3 → Polynomial ℝ,
    (∀ t, start ≤ t → t ≤ fin → ∀ d, (r t).pos d = some ((f d).eval (clock dt t)) ∧ (r t).vel d = some ((f d).derivative.eval (clock dt t)) ∧
      (r t).acc d = some ((f d).derivative.derivative.eval (clock dt t))) ∧
    (∀ d, (f d).natDegree < 7 ∧ (f d).eval (clock dt start) = p0 d ∧ (f d).eval (clock dt fin) = p1 d ∧
      (f d).derivative.eval (clock dt start) = 0 ∧ (f d).derivative.eval (clock dt fin) = 0 ∧
      (f d).derivative.derivative.eval (clock dt start) = 0 ∧ (f d).derivative.derivative.eval (clock dt fin) = 0) ∧
    ∀ v, vias.find? (fun q => q.1 == id) = some (id, v) → ∀ d, (f d).eval ((clock dt start + clock dt fin) / 2) = v d
  leave : (r start).ori = q0
  arrive : toMat (r fin).ori = toMat q1
  turn : ∀ t, start ≤ t → t ≤ fin → (r t).ori = Slerp.slerp q0 q1 (min (2 * ((t : ℝ) - start) / ((fin : ℝ) + 1 - start)) 1)

/-! ### phases as a list -/

theorem fly_act (env : Env) (l : Leg) (st : St) : (fly env l st).act = st.act := by
  funext t
  simp only [St.act, fly]
  split <;> rfl

/-- A sequence of phases. -/
noncomputable def flyAll (env : Env) (ls : List Leg) (st : St) : St := ls.foldl (fun st l => fly env l st) st

theorem flyAll_act (env : Env) (ls : List Leg) : ∀ st : St, (flyAll env ls st).act = st.act := by
  induction ls with
  | nil => intro st; rfl
  | cons l ls ih => intro st; exact (ih _).trans (fly_act env l st)

/-- The phases after contact `i`, which ends before step `b`, when the remaining contacts are in force during `r`. -/
def legs (T : Nat) (cs : List Contact) (home : Home) (com : V) (dflt : Contact) : Nat → Nat → List (Nat × Nat) → List Leg
  | i, b, [] => if b < T then [⟨b, T - 1, i, (cs.getD i dflt).pos, fun d => home.pos d + com d, (cs.getD i dflt).ori, home.ori⟩] else []
  | i, b, (a', b') :: r => ⟨b, a' - 1, i, (cs.getD i dflt).pos, (cs.getD (i + 1) dflt).pos, (cs.getD i dflt).ori, (cs.getD (i + 1) dflt).ori⟩ ::
      legs T cs home com dflt (i + 1) b' r

open ContactPlan in
/-- The loop between the contacts and the last phase generate exactly these phases (compare `ContactPlan.mid_gaps`). -/
theorem mid_legs (T : Nat) (env : Env) (cs : List Contact) (home : Home) (com : V) (dflt : Contact) (act : Nat → Bool) :
    ∀ (r : List (Nat × Nat)) (i a b e : Nat) (st : St), st.act = act → i + 1 + r.length = cs.length → a < b → b ≤ T → e ≤ a → a ≤ e + 1 →
    (∀ t, e ≤ t → t < a → act t = false) → Separated T a ((a, b) :: r) → ActiveFrom T act a ((a, b) :: r) →
    ∃ e2 st2, mid T env cs r.length i e st = some (e2, st2) ∧
      (if T = 0 then none else if st2.act (T - 1) then some st2 else
        (findBreak T st2.act e2).bind fun b => cs.getLast?.bind fun c =>
          some (fly env ⟨b, T - 1, (cs.length : Int) - 1, c.pos, fun d => home.pos d + com d, c.ori, home.ori⟩ st2)) =
      some (flyAll env (legs T cs home com dflt i b r) st) := by
  intro r
  induction r with
  | nil =>
    intro i a b e st hst hi hab hbT hea hae hbefore hsep hact
    refine ⟨e, st, rfl, ?_⟩
    rw [if_neg (by omega), hst]
    have hin : ∀ t, a ≤ t → t < T → (act t = true ↔ t < b) := fun t h1 h2 => by
      rw [hact t h1 h2]; simp [h1]
    have hlast : cs.getLast? = some (cs.getD i dflt) := by
      have : cs.length - 1 = i := by simp at hi; omega
      rw [List.getLast?_eq_getElem?, this, List.getD_eq_getElem?_getD]
      rw [List.getElem?_eq_getElem (by simp at hi; omega)]; rfl
    by_cases hT : b < T
    · have hl : act (T - 1) = false := by
        rw [Bool.eq_false_iff]; intro h
        rw [hin _ (by omega) (by omega)] at h; omega
      rw [hl, if_neg (by decide)]
      rw [findBreak_eq T act (b - 1) (by omega) ((hin _ (by omega) (by omega)).mpr (by omega))
        (by rw [Bool.eq_false_iff]; intro h; rw [hin _ (by omega) (by omega)] at h; omega) e (by omega)]
      · rw [Option.bind_some, hlast, Option.bind_some, legs, if_pos hT, show b - 1 + 1 = b by omega]
        have : (cs.length : Int) - 1 = (i : Int) := by simp at hi; omega
        rw [this]; rfl
      · rintro k hk1 hk2 ⟨h1, h2⟩
        by_cases hka : k < a
        · rw [hbefore k hk1 hka] at h1; exact absurd h1 (by decide)
        · have := (hin (k + 1) (by omega) (by omega)).mpr (by omega)
          rw [this] at h2; exact absurd h2 (by decide)
    · have hl : act (T - 1) = true := (hin _ (by omega) (by omega)).mpr (by omega)
      rw [hl, if_pos rfl, legs, if_neg hT]; rfl
  | cons x r ih =>
    obtain ⟨a', b'⟩ := x
    intro i a b e st hst hi hab hbT hea hae hbefore hsep hact
    obtain ⟨_, _, _, h4⟩ := hsep
    obtain ⟨g1, g2, g3, g4⟩ := h4
    have hge := sep_ge T r (b' + 1) g4
    have hin : ∀ t, a ≤ t → t < b → act t = true := fun t h1 h2 =>
      (hact t h1 (by omega)).mpr ⟨(a, b), List.mem_cons_self, h1, h2⟩
    have hgap : ∀ t, b ≤ t → t < a' → act t = false := fun t h1 h2 => by
      rw [Bool.eq_false_iff]; intro h
      obtain ⟨q, hq, q1, q2⟩ := (hact t (by omega) (by omega)).mp h
      rcases List.mem_cons.mp hq with rfl | hq
      · simp only at q2; omega
      · rcases List.mem_cons.mp hq with rfl | hq
        · simp only at q1; omega
        · have := hge q hq; omega
    have hb : findBreak T act e = some b := by
      rw [findBreak_eq T act (b - 1) (by omega) (hin _ (by omega) (by omega))
        (by rw [show b - 1 + 1 = b by omega]; exact hgap b le_rfl (by omega)) e (by omega), show b - 1 + 1 = b by omega]
      rintro k hk1 hk2 ⟨h1, h2⟩
      by_cases hka : k < a
      · rw [hbefore k hk1 hka] at h1; exact absurd h1 (by decide)
      · rw [hin (k + 1) (by omega) (by omega)] at h2; exact absurd h2 (by decide)
    have hactA' : act a' = true := (hact a' (by omega) (by omega)).mpr ⟨(a', b'), by simp, le_rfl, g2⟩
    have hm : findMake T act b = some (a' - 1) := by
      refine findMake_eq T act (a' - 1) (by omega) (hgap _ (by omega) (by omega))
        (by rw [show a' - 1 + 1 = a' by omega]; exact hactA') b (by omega) ?_
      rintro k hk1 hk2 ⟨_, h2⟩
      rw [hgap (k + 1) (by omega) (by omega)] at h2; exact absurd h2 (by decide)
    simp only [List.length_cons] at hi
    have hc : ∀ j, j < cs.length → cs[j]? = some (cs.getD j dflt) := fun j hj => by
      rw [List.getD_eq_getElem?_getD, List.getElem?_eq_getElem hj]; rfl
    obtain ⟨e2, st2, i1, i2⟩ := ih (i + 1) a' b' (a' - 1)
      (fly env ⟨b, a' - 1, i, (cs.getD i dflt).pos, (cs.getD (i + 1) dflt).pos, (cs.getD i dflt).ori, (cs.getD (i + 1) dflt).ori⟩ st)
      ((fly_act _ _ _).trans hst) (by omega) g2 g3 (by omega) (by omega) (fun t t1 t2 => hgap t (by omega) t2)
      ⟨le_rfl, g2, g3, g4⟩ (fun t t1 t2 => by
        rw [hact t (by omega) t2]
        constructor
        · rintro ⟨q, hq, q1, q2⟩
          rcases List.mem_cons.mp hq with rfl | hq
          · simp only at q2; omega
          · exact ⟨q, hq, q1, q2⟩
        · rintro ⟨q, hq, q1, q2⟩; exact ⟨q, List.mem_cons_of_mem _ hq, q1, q2⟩)
    refine ⟨e2, st2, ?_, ?_⟩
    · rw [List.length_cons, mid, hst, hb]
      simp only [Option.bind_eq_bind, Option.bind_some, hm]
      rw [hc i (by omega), hc (i + 1) (by omega)]
      exact i1
    · rw [i2]; rfl

open ContactPlan in
/-- The phases of an end-effector whose first contact is in force during `[a, b)`. -/
def allLegs (T : Nat) (cs : List Contact) (home : Home) (com : V) (dflt : Contact) (a b : Nat) (r : List (Nat × Nat)) : List Leg :=
  (if 0 < a then [⟨0, a - 1, -1, home.pos, (cs.getD 0 dflt).pos, home.ori, (cs.getD 0 dflt).ori⟩] else []) ++ legs T cs home com dflt 0 b r

open ContactPlan in
theorem effector_legs (T : Nat) (env : Env) (cs : List Contact) (home : Home) (com : V) (dflt : Contact) (st : St) (a b : Nat) (r : List (Nat × Nat))
    (hlen : cs.length = r.length + 1) (hsep : Separated T 0 ((a, b) :: r)) (hact : ActiveOn T st.act ((a, b) :: r)) (hini : home.act = decide (a = 0)) :
    effector T env cs home com st = some (flyAll env (allLegs T cs home com dflt a b r) st) := by
  obtain ⟨_, hab, hbT, h4⟩ := hsep
  have hgr := sep_ge T r (b + 1) h4
  have hfrom : ActiveFrom T st.act a ((a, b) :: r) := fun t _ h2 => hact t h2
  have hpre : ∀ t, t < a → st.act t = false := fun t ht => by
    rw [Bool.eq_false_iff]; intro h
    obtain ⟨q, hq, q1, q2⟩ := (hact t (by omega)).mp h
    rcases List.mem_cons.mp hq with rfl | hq
    · simp only at q1; omega
    · have := hgr q hq; omega
  have ha : st.act a = true := (hact a (by omega)).mpr ⟨(a, b), by simp, le_rfl, hab⟩
  have hne : cs ≠ [] := by rintro rfl; simp at hlen
  have hc0 : cs[0]? = some (cs.getD 0 dflt) := by
    rw [List.getD_eq_getElem?_getD, List.getElem?_eq_getElem (by omega)]; rfl
  unfold effector
  rw [if_neg hne, show cs.length - 1 = r.length by omega]
  by_cases ha0 : a = 0
  · subst ha0
    obtain ⟨e2, st2, i1, i2⟩ := mid_legs T env cs home com dflt st.act r 0 0 b 0 st rfl (by omega) hab hbT le_rfl (by omega) (fun t h1 h2 => by omega)
      ⟨le_rfl, hab, hbT, h4⟩ hfrom
    rw [hini]
    simp only [decide_true, if_true, Option.bind_eq_bind, Option.bind_some, i1]
    have hA : allLegs T cs home com dflt 0 b r = legs T cs home com dflt 0 b r := rfl
    rw [hA]
    exact i2
  · have hm : findMake T st.act 0 = some (a - 1) := by
      refine findMake_eq T st.act (a - 1) (by omega) (hpre _ (by omega)) (by rw [show a - 1 + 1 = a by omega]; exact ha) 0
        (by omega) ?_
      rintro k hk1 hk2 ⟨_, h2⟩
      rw [hpre (k + 1) (by omega)] at h2; exact absurd h2 (by decide)
    obtain ⟨e2, st2, i1, i2⟩ := mid_legs T env cs home com dflt st.act r 0 a b (a - 1)
      (fly env ⟨0, a - 1, -1, home.pos, (cs.getD 0 dflt).pos, home.ori, (cs.getD 0 dflt).ori⟩ st) (fly_act _ _ _) (by omega) hab hbT (by omega) (by omega)
      (fun t h1 h2 => hpre t h2) ⟨le_rfl, hab, hbT, h4⟩ hfrom
    rw [hini]
    simp only [ha0, decide_false, Bool.false_eq_true, if_false, Option.bind_eq_bind, Option.bind_some, hm, hc0, i1]
    have hA : allLegs T cs home com dflt a b r =
        ⟨0, a - 1, -1, home.pos, (cs.getD 0 dflt).pos, home.ori, (cs.getD 0 dflt).ori⟩ :: legs T cs home com dflt 0 b r := by
      rw [allLegs, if_pos (by omega)]; rfl
    rw [hA]
    exact i2

/-! ### what a list of phases writes -/

theorem fly_out (env : Env) (l : Leg) (st : St) (t : Nat) (h : ¬ (l.start ≤ t ∧ t ≤ l.fin)) : (fly env l st).2 t = st.2 t := by
  simp only [fly, Traj.flightPhase, if_neg h]

theorem flyAll_out (env : Env) (ls : List Leg) (t : Nat) : ∀ st : St, (∀ l ∈ ls, ¬ (l.start ≤ t ∧ t ≤ l.fin)) → (flyAll env ls st).2 t = st.2 t := by
  induction ls with
  | nil => intro st _; rfl
  | cons l ls ih =>
    intro st h
    show (flyAll env ls (fly env l st)).2 t = _
    rw [ih _ fun k hk => h k (List.mem_cons_of_mem _ hk), fly_out _ _ _ _ (h l List.mem_cons_self)]

/-- Phases that do not overlap: each one is written as if alone, from some value of the via point variable. -/
theorem flyAll_in (env : Env) (ls : List Leg) : ∀ st : St, ls.Pairwise (fun g h => g.fin < h.start) → (∀ l ∈ ls, l.start ≤ l.fin) →
    ∀ l ∈ ls, ∃ old : St, ∀ t, l.start ≤ t → t ≤ l.fin → (flyAll env ls st).2 t = (fly env l old).2 t := by
  induction ls with
  | nil => intro st _ _ l hl; simp at hl
  | cons k ls ih =>
    intro st hp hv l hl
    rw [List.pairwise_cons] at hp
    rcases List.mem_cons.1 hl with rfl | hl
    · refine ⟨st, fun t h1 h2 => ?_⟩
      show (flyAll env ls (fly env l st)).2 t = _
      exact flyAll_out _ _ _ _ fun g hg => by have := hp.1 g hg; omega
    · exact ih _ hp.2 (fun g hg => hv g (List.mem_cons_of_mem _ hg)) l hl

theorem legs_spec (T : Nat) (cs : List Contact) (home : Home) (com : V) (dflt : Contact) : ∀ (r : List (Nat × Nat)) (i b : Nat), b ≤ T → ContactPlan.Separated T (b + 1) r →
    (∀ l ∈ legs T cs home com dflt i b r, b ≤ l.start ∧ l.start ≤ l.fin ∧ l.fin < T ∧ ∀ q ∈ r, ∀ t, q.1 ≤ t → t < q.2 → ¬ (l.start ≤ t ∧ t ≤ l.fin)) ∧
    (legs T cs home com dflt i b r).Pairwise (fun g h => g.fin < h.start) := by
  intro r
  induction r with
  | nil =>
    intro i b hb _
    rw [legs]
    split
    · refine ⟨fun l hl => ?_, by simp⟩
      rw [List.mem_singleton] at hl; subst hl; simp; omega
    · simp
  | cons x r ih =>
    obtain ⟨a', b'⟩ := x
    rintro i b hb ⟨g1, g2, g3, g4⟩
    obtain ⟨i1, i2⟩ := ih (i + 1) b' g3 g4
    have hge := ContactPlan.sep_ge T r (b' + 1) g4
    rw [legs]
    refine ⟨fun l hl => ?_, List.Pairwise.cons (fun l hl => ?_) i2⟩
    · rcases List.mem_cons.1 hl with rfl | hl
      · refine ⟨le_rfl, by simp only; omega, by simp only; omega, fun q hq t h1 h2 => ?_⟩
        rcases List.mem_cons.1 hq with rfl | hq
        · simp only at *; omega
        · have := hge q hq; simp only; omega
      · obtain ⟨k1, k2, k3, k4⟩ := i1 l hl
        refine ⟨by omega, k2, k3, fun q hq t h1 h2 => ?_⟩
        rcases List.mem_cons.1 hq with rfl | hq
        · simp only at *; omega
        · exact k4 q hq t h1 h2
    · have := (i1 l hl).1; simp only; omega

theorem allLegs_spec (T : Nat) (cs : List Contact) (home : Home) (com : V) (dflt : Contact) (a b : Nat) (r : List (Nat × Nat)) (h : ContactPlan.Separated T 0 ((a, b) :: r)) :
    (∀ l ∈ allLegs T cs home com dflt a b r, l.start ≤ l.fin ∧ l.fin < T ∧ ∀ q ∈ (a, b) :: r, ∀ t, q.1 ≤ t → t < q.2 → ¬ (l.start ≤ t ∧ t ≤ l.fin)) ∧
    (allLegs T cs home com dflt a b r).Pairwise (fun g h => g.fin < h.start) := by
  obtain ⟨_, hab, hbT, h4⟩ := h
  obtain ⟨i1, i2⟩ := legs_spec T cs home com dflt r 0 b hbT h4
  have hge := ContactPlan.sep_ge T r (b + 1) h4
  rw [allLegs]
  refine ⟨fun l hl => ?_, ?_⟩
  · rcases List.mem_append.1 hl with hl | hl
    · split at hl
      · rw [List.mem_singleton] at hl; subst hl
        refine ⟨by simp, by simp only; omega, fun q hq t h1 h2 => ?_⟩
        rcases List.mem_cons.1 hq with rfl | hq
        · simp only at *; omega
        · have := hge q hq; simp only; omega
      · simp at hl
    · obtain ⟨k1, k2, k3, k4⟩ := i1 l hl
      refine ⟨k2, k3, fun q hq t h1 h2 => ?_⟩
      rcases List.mem_cons.1 hq with rfl | hq
      · simp only at *; omega
      · exact k4 q hq t h1 h2
  · rw [List.pairwise_append]
    refine ⟨by split <;> simp, i2, fun g hg k hk => ?_⟩
    split at hg
    · rw [List.mem_singleton] at hg; subst hg
      have := (i1 k hk).1; simp only; omega
    · simp at hg

/-- The phases, by the contacts at their ends. -/
theorem mem_legs (T : Nat) (cs : List Contact) (home : Home) (com : V) (dflt : Contact) : ∀ (r : List (Nat × Nat)) (i b a0 : Nat),
    (∀ k p p', ((a0, b) :: r)[k]? = some p → ((a0, b) :: r)[k + 1]? = some p' →
      (⟨p.2, p'.1 - 1, ((i + k : Nat) : Int), (cs.getD (i + k) dflt).pos, (cs.getD (i + k + 1) dflt).pos, (cs.getD (i + k) dflt).ori, (cs.getD (i + k + 1) dflt).ori⟩ : Leg) ∈
        legs T cs home com dflt i b r) ∧
    (∀ p, ((a0, b) :: r).getLast? = some p → p.2 < T →
      (⟨p.2, T - 1, ((i + r.length : Nat) : Int), (cs.getD (i + r.length) dflt).pos, fun d => home.pos d + com d, (cs.getD (i + r.length) dflt).ori, home.ori⟩ : Leg) ∈
        legs T cs home com dflt i b r) := by
  intro r
  induction r with
  | nil =>
    intro i b a0
    refine ⟨fun k p p' _ h => by simp at h, fun p hp hT => ?_⟩
    simp at hp; subst hp
    simp only at hT
    rw [legs, if_pos hT]; simp
  | cons x r ih =>
    obtain ⟨a', b'⟩ := x
    intro i b a0
    obtain ⟨i1, i2⟩ := ih (i + 1) b' a'
    rw [legs]
    refine ⟨fun k p p' h h' => ?_, fun p hp hT => ?_⟩
    · cases k with
      | zero =>
        simp at h h'; subst h h'
        exact List.mem_cons_self
      | succ k =>
        have := i1 k p p' (by simpa using h) (by simpa using h')
        rw [show i + 1 + k = i + (k + 1) by omega] at this
        exact List.mem_cons_of_mem _ this
    · have := i2 p (by simpa [List.getLast?_cons_cons] using hp) hT
      rw [show i + 1 + r.length = i + ((a', b') :: r).length by simp; omega] at this
      exact List.mem_cons_of_mem _ this

end Swing
end Verif
