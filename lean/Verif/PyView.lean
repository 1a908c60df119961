import Verif.DynSaveProps
import Verif.DynPlanProps
import Mathlib.Tactic.FieldSimp

/-!
Model of the viewer of saved plans, /repo/momentumopt/python/momentumopt/helpers.py: `quat2mat` (19-26), `CntState` (29-34), and the part of `Graphics.show_motion` (186-303) that
computes what is plotted; and property C258.

Simplifications: exact reals (a robot of mass zero, for which numpy plots infinities, gives zeros); the matrices and lists written by `saveToFile` (DynSave.lean) are read back as they
were written; the drawing itself (matplotlib) is left out. `none` is an exception that is not caught.
-/
namespace Verif
namespace PyView
open Dyn Finset

/-! ### model -/

/-- `quat2mat`, helpers.py:19-26. -/
def quat2mat (w x y z : ℝ) : Matrix (Fin 3) (Fin 3) ℝ :=
  !![1 - 2 * y * y - 2 * z * z, 2 * x * y - 2 * z * w, 2 * x * z + 2 * y * w;
     2 * x * y + 2 * z * w, 1 - 2 * x * x - 2 * z * z, 2 * y * z - 2 * x * w;
     2 * x * z - 2 * y * w, 2 * y * z + 2 * x * w, 1 - 2 * x * x - 2 * y * y]

/-- `CntState`, helpers.py:29-34. -/
structure CntState where
  tini : ℝ
  tend : ℝ
  pos : Fin 3 → ℝ
  ori : Matrix (Fin 3) (Fin 3) ℝ

/-- The constructor, helpers.py:30-34. -/
def CntState.ofPars (p : Fin 11 → ℝ) : CntState := ⟨p 0, p 1, ![p 2, p 3, p 4], quat2mat (p 5) (p 6) (p 7) (p 8)⟩

/-- `id_to_eff_str_map`, helpers.py:49-59; other numbers print an error and give `None`. -/
def effStr : Nat → Option String
  | 0 => some "rf"
  | 1 => some "lf"
  | 2 => some "rh"
  | 3 => some "lh"
  | _ => none

/-- `Problem::idToEndeffectorString`, Definitions.hpp:38-46; other numbers throw. -/
def effString : Nat → Option String
  | 0 => some "rf"
  | 1 => some "lf"
  | 2 => some "rh"
  | 3 => some "lh"
  | _ => none

/-- The node `contact_plan` of a file: lists of contacts by key (helpers.py:209; ContactState.cpp:91). -/
abbrev Node := String → Option (List (Fin 11 → ℝ))

/-- The lists the planner reads, ContactState.cpp:88-91. -/
def planLists (nd : Node) (e : Nat) : Option (List (Fin 11 → ℝ)) := (effString e).bind fun k => nd ("effcnt_" ++ k)

/-- The contacts the viewer reads of one end-effector, helpers.py:207-211. -/
def viewLists (nd : Node) (e : Nat) : Option (List CntState) := (effStr e).bind fun k => (nd ("effcnt_" ++ k)).map fun ps => ps.map CntState.ofPars

/-- Row `a` of a matrix, squeezed to a vector, helpers.py:217-240, 256-259. An index out of range is an error. -/
def series (m : Grid) (a : Nat) : Option (List ℝ) := m.cols.mapM fun c => c[a]?

/-- The three rows of a matrix, helpers.py:217-237, 256-259. -/
def series3 (m : Grid) : Option (List (List ℝ)) := (series m 0).bind fun x => (series m 1).bind fun y => (series m 2).bind fun z => some [x, y, z]

/-- The three rows of a matrix divided by the mass, helpers.py:197-201. -/
noncomputable def scaled3 (m : Grid) (mass : ℝ) : Option (List (List ℝ)) := (series3 m).map fun s => s.map fun r => r.map (· / mass)

/-- `timesteps2`, helpers.py:243-248. -/
noncomputable def stepsOf (time : List ℝ) : List ℝ := (List.range time.length).map fun i => if i = 0 then time.getD 0 0 else time.getD i 0 - time.getD (i - 1) 0

/-- The corners of the patch drawn for a contact, helpers.py:285-293. -/
noncomputable def patch (c : CntState) : List (Fin 3 → ℝ) :=
  let n : Fin 3 → ℝ := fun i => c.ori i 2
  let d := -(c.pos 0 * n 0 + c.pos 1 * n 1 + c.pos 2 * n 2)
  [(-0.05, -0.1), (0.05, -0.1), (-0.05, 0.1), (0.05, 0.1)].map fun (o : ℝ × ℝ) =>
    ![c.pos 0 + o.1, c.pos 1 + o.2, (-n 0 * (c.pos 0 + o.1) - n 1 * (c.pos 1 + o.2) - d) * 1 / n 2]

/-- What is plotted (helpers.py:216-303). -/
structure View where
  time : List ℝ
  com : List (List ℝ)
  comRef : List (List ℝ)
  l : List (List ℝ)
  h : List (List ℝ)
  lRef : List (List ℝ)
  hRef : List (List ℝ)
  frc : List (List (List ℝ))
  stepsNominal : List ℝ
  steps : List ℝ
  cnts : List (List CntState)
  patches : List (List (List (Fin 3 → ℝ)))

/-- `show_motion` up to the drawing, helpers.py:186-303: a missing list of contacts is an error (it is no `YAMLError`); with one time step the squeezed time vector has no length, an error
(lines 240-243), without time steps there is no first entry, an error (line 271). -/
noncomputable def showMotion (f : PlanFile) (nd : Node) : Option View :=
  ((List.range f.nEff).mapM fun e => f.frc[e]?).bind fun frc =>
  ((List.range 4).mapM fun e => viewLists nd e).bind fun cnts =>
  (series3 f.com).bind fun com =>
  (scaled3 f.l f.mass).bind fun l =>
  (scaled3 f.h f.mass).bind fun h =>
  (series3 f.comRef).bind fun comRef =>
  (scaled3 f.lRef f.mass).bind fun lRef =>
  (scaled3 f.hRef f.mass).bind fun hRef =>
  (series f.timeVec 0).bind fun time =>
  if time.length ≤ 1 then none
  else (frc.mapM series3).bind fun fr =>
    some ⟨time, com, comRef, l, h, lRef, hRef, fr, time.map fun _ => f.timeStep, stepsOf time, cnts, cnts.map fun c => c.map patch⟩

/-! ### specification -/

/-- The curve `c` has `T` points, and point `t` is `v t`. -/
def Curve (c : List ℝ) (T : Nat) (v : Nat → ℝ) : Prop := c.length = T ∧ ∀ t < T, c[t]? = some (v t)

/-- Three curves, one per axis. -/
def Curves (c : List (List ℝ)) (T : Nat) (v : Nat → Nat → ℝ) : Prop := c.length = 3 ∧ ∀ a < 3, ∃ r, c[a]? = some r ∧ Curve r T fun t => v t a

/-- The plotted curves show the plan: against the time passed at the end of each time step, the centre of mass, momenta per mass and contact forces of the plan and the references of
the kinematics; the duration of each time step. -/
structure View.Shows (w : View) (s : DSet) (p : DPlan) (seq : Nat → DState) (kin : Nat → KState) : Prop where
  time : Curve w.time s.T fun t => ∑ k ∈ range (t + 1), (seq k).time
  com : Curves w.com s.T fun t => (seq (t + 1)).com
  l : Curves w.l s.T fun t a => (seq (t + 1)).l a / s.mass
  h : Curves w.h s.T fun t a => (seq (t + 1)).h a / s.mass
  comRef : Curves w.comRef s.T fun t => (kin t).com
  lRef : Curves w.lRef s.T fun t a => (kin t).l a / s.mass
  hRef : Curves w.hRef s.T fun t a => (kin t).h a / s.mass
  frc : w.frc.length = s.neff ∧ ∀ e < s.neff, ∃ c, w.frc[e]? = some c ∧ Curves c s.T fun t a => if p.active t e then (seq t).frc e a else 0
  steps : Curve w.steps s.T fun t => (seq t).time
  nominal : Curve w.stepsNominal s.T fun _ => s.step

/-- A shown contact is a contact of the planner: times, location, and the frame with which the planner builds its constraints. -/
def Same (v : CntState) (c : Cont.Contact) : Prop := v.tini = c.tini ∧ v.tend = c.tend ∧ v.pos = c.pos ∧ v.ori = Cont.toMat c.ori

/-! ### proofs -/

theorem mapM_range {α : Type} (n : Nat) (f : Nat → Option α) (v : Nat → α) (h : ∀ e < n, f e = some (v e)) : (List.range n).mapM f = some ((List.range n).map v) := by
  have : ∀ l : List Nat, (∀ e ∈ l, f e = some (v e)) → l.mapM f = some (l.map v) := by
    intro l
    induction l with
    | nil => intro _; rfl
    | cons x l ih =>
      intro h
      rw [List.mapM_cons, h x List.mem_cons_self, ih fun e he => h e (List.mem_cons_of_mem _ he)]
      rfl
  exact this _ fun e he => h e (List.mem_range.1 he)

theorem series_spec {m : Grid} {T a : Nat} {v : Nat → ℝ} (hT : m.cols.length = T) (h : ∀ t < T, ∃ c, m.Col t c ∧ c[a]? = some (v t)) :
    ∃ r, series m a = some r ∧ Curve r T v := by
  have key : ∀ (l : List (List ℝ)) (k : Nat), (∀ t < l.length, ∃ c, l[t]? = some c ∧ c[a]? = some (v (k + t))) →
      l.mapM (fun c => c[a]?) = some ((List.range l.length).map fun t => v (k + t)) := by
    intro l
    induction l with
    | nil => intro _ _; rfl
    | cons x l ih =>
      intro k hl
      obtain ⟨c, h1, h2⟩ := hl 0 (by simp)
      simp at h1; subst h1
      rw [List.mapM_cons, h2, ih (k + 1) fun t ht => by
        obtain ⟨c, h1, h2⟩ := hl (t + 1) (by simpa using ht)
        exact ⟨c, by simpa using h1, by rw [h2]; congr 2; omega⟩]
      simp only [List.length_cons, List.range_succ_eq_map, List.map_cons, List.map_map]
      simp [Function.comp_def, Nat.add_assoc, Nat.add_comm 1]
  refine ⟨_, key m.cols 0 fun t ht => ?_, ?_⟩
  · obtain ⟨c, h1, h2⟩ := h t (by omega)
    exact ⟨c, h1, by simpa using h2⟩
  · refine ⟨by simp [hT], fun t ht => ?_⟩
    rw [List.getElem?_map, List.getElem?_range (by omega)]
    simp

theorem series3_spec {m : Grid} {T : Nat} {v : Nat → Nat → ℝ} (hT : m.cols.length = T) (h : ∀ t < T, m.Col t [v t 0, v t 1, v t 2]) :
    ∃ r, series3 m = some r ∧ Curves r T v := by
  obtain ⟨r0, e0, c0⟩ := series_spec (a := 0) (v := fun t => v t 0) hT fun t ht => ⟨_, h t ht, rfl⟩
  obtain ⟨r1, e1, c1⟩ := series_spec (a := 1) (v := fun t => v t 1) hT fun t ht => ⟨_, h t ht, rfl⟩
  obtain ⟨r2, e2, c2⟩ := series_spec (a := 2) (v := fun t => v t 2) hT fun t ht => ⟨_, h t ht, rfl⟩
  refine ⟨[r0, r1, r2], by simp [series3, e0, e1, e2], rfl, fun a ha => ?_⟩
  interval_cases a
  · exact ⟨r0, rfl, c0⟩
  · exact ⟨r1, rfl, c1⟩
  · exact ⟨r2, rfl, c2⟩

theorem scaled3_spec {m : Grid} {T : Nat} {v : Nat → Nat → ℝ} (mass : ℝ) (hT : m.cols.length = T) (h : ∀ t < T, m.Col t [v t 0, v t 1, v t 2]) :
    ∃ r, scaled3 m mass = some r ∧ Curves r T fun t a => v t a / mass := by
  obtain ⟨r, e, c1, c2⟩ := series3_spec hT h
  refine ⟨_, by rw [scaled3, e]; rfl, by simpa using c1, fun a ha => ?_⟩
  obtain ⟨s, h1, h2, h3⟩ := c2 a ha
  refine ⟨_, by rw [List.getElem?_map, h1]; rfl, by simpa using h2, fun t ht => ?_⟩
  rw [List.getElem?_map, h3 t ht]; rfl

theorem steps_spec {time : List ℝ} {T : Nat} {d : Nat → ℝ} (h : Curve time T fun t => ∑ k ∈ range (t + 1), d k) : Curve (stepsOf time) T d := by
  obtain ⟨h1, h2⟩ := h
  refine ⟨by simp [stepsOf, h1], fun t ht => ?_⟩
  unfold stepsOf
  rw [List.getElem?_map, List.getElem?_range (by omega)]
  simp only [Option.map_some, Option.some.injEq]
  rw [List.getD_eq_getElem?_getD, List.getD_eq_getElem?_getD, List.getD_eq_getElem?_getD]
  rcases Nat.eq_zero_or_pos t with rfl | h0
  · rw [if_pos rfl, h2 0 ht]; simp
  · rw [if_neg (by omega), h2 t ht, h2 (t - 1) (by omega)]
    simp only [Option.getD_some]
    rw [show t - 1 + 1 = t by omega, Finset.sum_range_succ]; ring

theorem quat2mat_eq (w x y z : ℝ) : quat2mat w x y z = Cont.toMat ⟨w, x, y, z⟩ := by
  ext i j
  fin_cases i <;> fin_cases j <;> simp [quat2mat, Cont.toMat] <;> ring

theorem refs_col {T : Nat} {kin : List KState} (kt : Nat → KState) (hkt : ∀ t < T, kin[t]? = some (kt t)) {m : Grid} {v : KState → Nat → ℝ}
    (h : ∀ t < T, ∃ k, kin[t]? = some k ∧ m.Col t [v k 0, v k 1, v k 2]) : ∀ t < T, m.Col t [v (kt t) 0, v (kt t) 1, v (kt t) 2] := by
  intro t ht
  obtain ⟨k, h1, h2⟩ := h t ht
  rw [hkt t ht] at h1
  injection h1 with h1
  rw [h1]; exact h2

/-- What is read from a file that holds a plan of at least two time steps. -/
theorem shows_of_holds (f : PlanFile) (s : DSet) (p : DPlan) (seq : Nat → DState) (kin : List KState) (kt : Nat → KState)
    (hkt : ∀ t < s.T, kin[t]? = some (kt t)) (hT : 2 ≤ s.T) (hH : f.Holds s p seq) (hR : f.Refs s.T kin) (hstep : f.timeStep = s.step)
    (hmass : f.mass = s.mass) (hn : f.nEff = s.neff) (nd : Node) (cl : Nat → List CntState) (hnd : ∀ e < 4, viewLists nd e = some (cl e)) :
    ∃ w, showMotion f nd = some w ∧ w.Shows s p seq kt ∧ w.cnts = (List.range 4).map cl ∧ w.patches = (List.range 4).map fun e => (cl e).map patch := by
  obtain ⟨c1, e1, k1⟩ := series3_spec hH.com.1 hH.com.2
  obtain ⟨c2, e2, k2⟩ := scaled3_spec f.mass hH.l.1 hH.l.2
  obtain ⟨c3, e3, k3⟩ := scaled3_spec f.mass hH.h.1 hH.h.2
  obtain ⟨c4, e4, k4⟩ := series3_spec (v := fun t => (kt t).com) hR.len.1 (refs_col kt hkt (v := KState.com) hR.com)
  obtain ⟨c5, e5, k5⟩ := scaled3_spec f.mass (v := fun t => (kt t).l) hR.len.2.1 (refs_col kt hkt (v := KState.l) hR.l)
  obtain ⟨c6, e6, k6⟩ := scaled3_spec f.mass (v := fun t => (kt t).h) hR.len.2.2.1 (refs_col kt hkt (v := KState.h) hR.h)
  obtain ⟨c7, e7, k7⟩ := series_spec (a := 0) (v := fun t => ∑ k ∈ range (t + 1), (seq k).time) hH.time.1 fun t ht => ⟨_, hH.time.2 t ht, rfl⟩
  haveI : Nonempty Grid := ⟨⟨0, []⟩⟩
  have hfr : ∀ e < s.neff, ∃ m : Grid, f.frc[e]? = some m ∧ ∃ r, series3 m = some r ∧
      Curves r s.T fun t a => if p.active t e then (seq t).frc e a else 0 := by
    intro e he
    obtain ⟨m, h1, h2, h3⟩ := hH.frc.2 e he
    refine ⟨m, h1, series3_spec h2 fun t ht => ?_⟩
    have := h3 t ht
    by_cases ha : p.active t e <;> simpa [ha] using this
  choose! fm hfm fs hfs hfc using hfr
  have a1 : (List.range f.nEff).mapM (fun e => f.frc[e]?) = some ((List.range s.neff).map fm) := by
    rw [hn]; exact mapM_range _ _ _ hfm
  have a2 : (List.range 4).mapM (fun e => viewLists nd e) = some ((List.range 4).map cl) := mapM_range _ _ _ hnd
  have a3 : ((List.range s.neff).map fm).mapM series3 = some ((List.range s.neff).map fs) := by
    rw [List.mapM_map]
    exact mapM_range _ _ _ hfs
  refine ⟨⟨c7, c1, c4, c2, c3, c5, c6, (List.range s.neff).map fs, c7.map fun _ => f.timeStep, stepsOf c7, (List.range 4).map cl, (List.range 4).map fun e => (cl e).map patch⟩, ?_, ?_, rfl, rfl⟩
  · unfold showMotion
    rw [a1, Option.bind_some, a2, Option.bind_some, e1, Option.bind_some, e2, Option.bind_some, e3, Option.bind_some, e4, Option.bind_some, e5, Option.bind_some,
      e6, Option.bind_some, e7, Option.bind_some, if_neg (by rw [k7.1]; omega), a3, Option.bind_some, List.map_map]
    rfl
  · rw [hmass] at k2 k3 k5 k6
    refine ⟨k7, k1, k2, k3, k4, k5, k6, ⟨by simp, fun e he => ?_⟩, steps_spec k7, ?_⟩
    · exact ⟨fs e, by rw [List.getElem?_map, List.getElem?_range he]; rfl, hfc e he⟩
    · refine ⟨by simp [k7.1], fun t ht => ?_⟩
      rw [List.getElem?_map, k7.2 t ht, hstep]; rfl

/-- C258 (partial), curves: the file written by `optimize` for a plan of at least two time steps, with a contact list for each of the four end-effectors, is shown, and the plotted
curves are the plan. Missing: plans of a single time step, `C258_single_violated`. -/
theorem C258_curves_partial (w : SaveSet) (hw : w.store = true) (i : DIn) (hT : 2 ≤ i.s.T) (hp : i.p.Ok i.s) (kin : List KState)
    (hk : i.s.T ≤ kin.length) (hq : ∀ k ∈ kin, k.qd.length = w.extDofs ∧ k.qdd.length = w.extDofs)
    (solver : Nat → DCtx → Nat → ℝ) (seq : Nat → DState) (g : Guess) (err : Option ℝ)
    (nd : Node) (hnd : ∀ k ∈ ["rf", "lf", "rh", "lh"], nd ("effcnt_" ++ k) ≠ none) :
    ∃ f v, saveToFile w i kin (optimizeLoop i solver seq g err).1 = some (some f) ∧ showMotion f nd = some v ∧
      v.Shows i.s i.p (optimizeLoop i solver seq g err).1.seq fun t => kin.getD t ⟨fun _ => 0, fun _ => 0, fun _ => 0, [], []⟩ := by
  obtain ⟨f, h1, h2, -, h3, h4, h5, h6, -⟩ := C229_partial w hw i (by omega) hp kin hk hq solver seq g err
  have hl : ∀ e < 4, ∃ cl, viewLists nd e = some cl := by
    intro e he
    interval_cases e
    · obtain ⟨ps, hps⟩ := Option.ne_none_iff_exists'.1 (hnd "rf" (by simp)); exact ⟨_, by simp only [viewLists, effStr, Option.bind_some, hps]; rfl⟩
    · obtain ⟨ps, hps⟩ := Option.ne_none_iff_exists'.1 (hnd "lf" (by simp)); exact ⟨_, by simp only [viewLists, effStr, Option.bind_some, hps]; rfl⟩
    · obtain ⟨ps, hps⟩ := Option.ne_none_iff_exists'.1 (hnd "rh" (by simp)); exact ⟨_, by simp only [viewLists, effStr, Option.bind_some, hps]; rfl⟩
    · obtain ⟨ps, hps⟩ := Option.ne_none_iff_exists'.1 (hnd "lh" (by simp)); exact ⟨_, by simp only [viewLists, effStr, Option.bind_some, hps]; rfl⟩
  choose! cl hcl using hl
  obtain ⟨v, e1, e2, -⟩ := shows_of_holds f i.s i.p _ kin (fun t => kin.getD t ⟨fun _ => 0, fun _ => 0, fun _ => 0, [], []⟩) (fun t ht => by
    rw [List.getD_eq_getElem?_getD, List.getElem?_eq_getElem (by omega)]; rfl) hT h2 h3 h4 h5 h6 nd cl hcl
  exact ⟨f, v, h1, e1, e2⟩

theorem cnts_of_show (f : PlanFile) (nd : Node) (v : View) (hv : showMotion f nd = some v) :
    (List.range 4).mapM (fun e => viewLists nd e) = some v.cnts ∧ v.patches = v.cnts.map fun c => c.map patch := by
  unfold showMotion at hv
  simp only [Option.bind_eq_some_iff] at hv
  obtain ⟨_, _, cnts, h1, _, _, _, _, _, _, _, _, _, _, _, _, time, _, h2⟩ := hv
  by_cases h0 : time.length ≤ 1
  · rw [if_pos h0] at h2; cases h2
  · rw [if_neg h0, Option.bind_eq_some_iff] at h2
    obtain ⟨_, _, h3⟩ := h2
    injection h3 with h3
    subst h3
    exact ⟨h1, rfl⟩

/-- C258, contacts: the contacts the viewer shows are those of the planner that read the same `contact_plan`, in number and order, with the times, location and frame the planner uses,
whether or not the quaternion is normalised; with a unit quaternion the frame is a rotation; and the four corners drawn for a contact whose normal is not horizontal lie in the plane
through the contact perpendicular to its normal, the third axis of the frame. -/
theorem C258_contacts (f : PlanFile) (nd : Node) (v : View) (hv : showMotion f nd = some v) (sq : Cont.Seq) :
    v.cnts.length = 4 ∧ (∀ e < 4, ∃ l, v.cnts[e]? = some l ∧ List.Forall₂ (fun v c => Same v c ∧ (c.ori.IsUnit → Cont.IsRot v.ori)) l (DynPlan.fromFile 4 (some (planLists nd)) sq e)) ∧
    (∀ e < 4, ∃ l ps, v.cnts[e]? = some l ∧ v.patches[e]? = some ps ∧ List.Forall₂ (fun (c : CntState) (corners : List (Fin 3 → ℝ)) =>
      corners.length = 4 ∧ (c.ori 2 2 ≠ 0 → ∀ x ∈ corners, ∑ i, c.ori i 2 * (x i - c.pos i) = 0)) l ps) := by
  obtain ⟨hm, hpat⟩ := cnts_of_show f nd v hv
  have hall : ∀ e < 4, ∃ l, viewLists nd e = some l := by
    intro e he
    by_contra hcon
    have hnone : viewLists nd e = none := by
      cases h : viewLists nd e with
      | none => rfl
      | some l => exact absurd ⟨l, h⟩ hcon
    rw [show List.range 4 = [0, 1, 2, 3] from rfl] at hm
    simp only [List.mapM_cons, List.mapM_nil] at hm
    interval_cases e <;> simp only [hnone] at hm <;> revert hm <;>
      cases viewLists nd 0 <;> cases viewLists nd 1 <;> cases viewLists nd 2 <;> cases viewLists nd 3 <;> simp_all
  choose! cl hcl using hall
  rw [mapM_range 4 _ cl hcl] at hm
  injection hm with hm
  have hplan : ∀ e < 4, ∃ ps, planLists nd e = some ps ∧ cl e = ps.map CntState.ofPars := by
    intro e he
    have h := hcl e he
    unfold viewLists at h
    unfold planLists
    have hs : effStr e = effString e := by interval_cases e <;> rfl
    rw [← hs]
    rw [Option.bind_eq_some_iff] at h
    obtain ⟨k, h1, h2⟩ := h
    rw [Option.map_eq_some_iff] at h2
    obtain ⟨ps, h3, h4⟩ := h2
    exact ⟨ps, by rw [h1, Option.bind_some, h3], h4.symm⟩
  have hne : ∀ e < 4, planLists nd e ≠ none := fun e he => by
    obtain ⟨ps, h, -⟩ := hplan e he; rw [h]; simp
  have hget : ∀ e < 4, v.cnts[e]? = some (cl e) := fun e he => by
    rw [← hm, List.getElem?_map, List.getElem?_range he]; rfl
  refine ⟨by rw [← hm]; simp, fun e he => ⟨cl e, hget e he, ?_⟩, fun e he => ⟨cl e, (cl e).map patch, hget e he, ?_, ?_⟩⟩
  · obtain ⟨ps, h1, h2⟩ := hplan e he
    rw [h2, List.forall₂_iff_get]
    have hg := fun j => DynPlan.fromFile_get 4 (planLists nd) sq hne e he ps h1 j
    have hlen : ps.length = (DynPlan.fromFile 4 (some (planLists nd)) sq e).length := by
      apply le_antisymm
      · by_contra hc
        push Not at hc
        obtain ⟨c, h3, -⟩ := (hg _).1 _ (List.getElem?_eq_getElem hc)
        simp at h3
      · by_contra hc
        push Not at hc
        obtain ⟨c, h3, -⟩ := (hg _).2 _ (List.getElem?_eq_getElem hc)
        simp at h3
    refine ⟨by simpa using hlen, fun j j1 j2 => ?_⟩
    simp only [List.length_map] at j1
    obtain ⟨c, h3, h4, h5⟩ := (hg j).1 _ (List.getElem?_eq_getElem j1)
    rw [List.getElem?_eq_getElem j2] at h3
    injection h3 with h3
    simp only [List.get_eq_getElem, List.getElem_map, h3]
    obtain ⟨-, b1, b2, b3, b4, -⟩ := h5
    have hori : (CntState.ofPars ps[j]).ori = Cont.toMat c.ori := by rw [b4]; exact quat2mat_eq _ _ _ _
    refine ⟨⟨b1.symm, b2.symm, ?_, hori⟩, fun hu => by rw [hori]; exact Cont.toMat_rot _ hu⟩
    · funext k
      rw [b3 k]
      fin_cases k <;> rfl
  · rw [hpat, List.getElem?_map, hget e he]; rfl
  · rw [List.forall₂_map_right_iff, List.forall₂_same]
    intro c _
    refine ⟨by simp [patch], fun hz x hx => ?_⟩
    simp only [patch, List.map_cons, List.map_nil, List.mem_cons, List.not_mem_nil, or_false] at hx
    rcases hx with rfl | rfl | rfl | rfl <;> simp [Fin.sum_univ_three] <;> field_simp <;> ring

/-- C258 is violated: the file of a plan with a single time step cannot be shown. -/
theorem C258_single_violated (w : SaveSet) (i : DIn) (hT : i.s.T = 1) (hp : i.p.Ok i.s) (hw : w.store = true) (kin : List KState)
    (hk : i.s.T ≤ kin.length) (hq : ∀ k ∈ kin, k.qd.length = w.extDofs ∧ k.qdd.length = w.extDofs)
    (solver : Nat → DCtx → Nat → ℝ) (seq : Nat → DState) (g : Guess) (err : Option ℝ) (nd : Node) :
    ∃ f, saveToFile w i kin (optimizeLoop i solver seq g err).1 = some (some f) ∧ showMotion f nd = none := by
  obtain ⟨f, h1, h2, -⟩ := C229_partial w hw i (by omega) hp kin hk hq solver seq g err
  refine ⟨f, h1, ?_⟩
  cases hs : showMotion f nd with
  | none => rfl
  | some v =>
    exfalso
    unfold showMotion at hs
    simp only [Option.bind_eq_some_iff] at hs
    obtain ⟨_, _, _, _, _, _, _, _, _, _, _, _, _, _, _, _, time, ht, h3⟩ := hs
    obtain ⟨r, e, k, -⟩ := series_spec (a := 0) (v := fun t => ∑ k ∈ range (t + 1), ((optimizeLoop i solver seq g err).1.seq k).time) h2.time.1
      fun t ht => ⟨_, h2.time.2 t ht, rfl⟩
    rw [e] at ht
    injection ht with ht
    rw [if_pos (by rw [← ht, k, hT])] at h3
    cases h3

/-- A plan file of contacts for the examples: one contact of the right foot, on a slope, with a unit quaternion. -/
noncomputable def exNode : Node := fun k => some (if k = "effcnt_rf" then [![0, 1, 2, 3, 4, 0.8, 0.6, 0, 0, 1, 0]] else [])

theorem exNode_some : ∀ k ∈ ["rf", "lf", "rh", "lh"], exNode ("effcnt_" ++ k) ≠ none := fun _ _ => by simp [exNode]

/-- Non-vacuity of `C258_curves_partial`: the example plan of three time steps (in flight, then in contact), stored, with contacts. -/
theorem exShown (solver : Nat → DCtx → Nat → ℝ) (seq : Nat → DState) (g : Guess) (err : Option ℝ) : ∃ (i : DIn) (kin : List KState) (w : SaveSet) (f : PlanFile) (v : View),
    i.s.T = 3 ∧ i.p.active 0 0 = false ∧ i.p.active 1 0 = true ∧
    saveToFile w i kin (optimizeLoop i solver seq g err).1 = some (some f) ∧ showMotion f exNode = some v ∧ v.Shows i.s i.p (optimizeLoop i solver seq g err).1.seq fun t => kin.getD t ⟨fun _ => 0, fun _ => 0, fun _ => 0, [], []⟩ := by
  obtain ⟨f, v, h⟩ := C258_curves_partial ⟨true, 14, 1, fun _ => 0⟩ rfl ⟨exSet .timeOpt, landPlan, ⟨fun _ _ => 0, fun _ _ => 0, fun _ _ => 0⟩, fun _ => 0⟩
    (by norm_num [exSet]) (by
      intro t ht e _ ha
      simp only [landPlan, Bool.and_eq_true, decide_eq_true_eq] at ha ⊢
      simp only [exSet] at ht
      omega) (resized 3 8) (by simp [exSet, resized]) (by
      intro k hk
      rw [resized, List.mem_replicate] at hk
      rw [hk.2]; simp) solver seq g err exNode exNode_some
  exact ⟨_, _, _, f, v, by norm_num [exSet], by simp [landPlan], by simp [landPlan], h⟩

/-- Non-vacuity of `C258_contacts`: such a view, with a contact of the right foot whose quaternion is a unit one and whose normal is not horizontal. -/
example (solver : Nat → DCtx → Nat → ℝ) (seq : Nat → DState) (g : Guess) : ∃ f v, showMotion f exNode = some v ∧
    ∃ c : CntState, v.cnts[0]? = some [c] ∧ c.tini = 0 ∧ c.tend = 1 ∧ c.pos = ![2, 3, 4] ∧ c.ori 2 2 = 1 - 2 * 0.6 * 0.6 := by
  obtain ⟨i, kin, w, f, v, -, -, -, -, h, -⟩ := exShown solver seq g none
  refine ⟨f, v, h, CntState.ofPars ![0, 1, 2, 3, 4, 0.8, 0.6, 0, 0, 1, 0], ?_, rfl, rfl, rfl, ?_⟩
  · have hm := (cnts_of_show f exNode v h).1
    rw [show List.range 4 = [0, 1, 2, 3] from rfl] at hm
    have e0 : viewLists exNode 0 = some [CntState.ofPars ![0, 1, 2, 3, 4, 0.8, 0.6, 0, 0, 1, 0]] := by simp [viewLists, effStr, exNode]
    have e1 : ∀ e ∈ [1, 2, 3], ∃ l, viewLists exNode e = some l := by
      intro e he
      fin_cases he <;> exact ⟨_, rfl⟩
    obtain ⟨l1, h1⟩ := e1 1 (by simp)
    obtain ⟨l2, h2⟩ := e1 2 (by simp)
    obtain ⟨l3, h3⟩ := e1 3 (by simp)
    simp only [List.mapM_cons, List.mapM_nil, e0, h1, h2, h3] at hm
    injection hm with hm
    rw [← hm]; rfl
  · show (1 : ℝ) - 2 * 0.6 * 0.6 - 2 * 0 * 0 = _
    norm_num

/-- Non-vacuity of `C258_single_violated`: a plan of one time step. -/
example : ∃ (w : SaveSet) (i : DIn) (kin : List KState), i.s.T = 1 ∧ i.p.Ok i.s ∧ w.store = true ∧ i.s.T ≤ kin.length ∧
    (∀ k ∈ kin, k.qd.length = w.extDofs ∧ k.qdd.length = w.extDofs) :=
  ⟨⟨true, 14, 1, fun _ => 0⟩, ⟨{ exSet .timeOpt with T := 1 }, landPlan, ⟨fun _ _ => 0, fun _ _ => 0, fun _ _ => 0⟩, fun _ => 0⟩, resized 1 8, rfl, by
    intro t ht e _ ha
    simp only [landPlan, Bool.and_eq_true, decide_eq_true_eq] at ha ⊢
    simp only at ht
    omega, rfl, by simp [resized], fun k hk => by
    rw [resized, List.mem_replicate] at hk
    rw [hk.2]; simp⟩

end PyView
end Verif
