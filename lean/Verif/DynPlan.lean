import Verif.DynOptNear
import Verif.ContPlace
import Verif.ContProps
import Verif.ContactPlanProps

/-!
Model of the way from a contact plan to the problem of the dynamics optimiser: `ContactPlanFromFile::optimize`, /repo/momentumopt/src/momentumopt/cntopt/ContactPlanFromFile.cpp:14-26,
`DynamicsOptimizer::optimize`, /repo/momentumopt/src/momentumopt/dynopt/DynamicsOptimizer.cpp:64-75, and the accessors of contacts, lines 737-753; and the properties C236-C238.

Simplifications: exact reals. A contact that is looked up outside of the list of contacts of an end-effector (undefined behaviour) is some contact `junk t e`.
-/
namespace Verif
namespace DynPlan
open Dyn Finset

/-! ### model -/

/-- The members of a contact read by `fillDynamicsSequence`, ContactPlanInterface.cpp:26-36. -/
def entry (c : Cont.Contact) : ContactPlan.Contact ℝ (Fin 3 → ℝ) Cont.Quat := ⟨c.active, c.tini, c.tend, c.pos, c.ori⟩

/-- `ContactPlanFromFile::optimize`, ContactPlanFromFile.cpp:14-21: load the file, then mark every contact as selected. -/
noncomputable def fromFile (n : Nat) (file : Option (Nat → Option (List (Fin 11 → ℝ)))) (s : Cont.Seq) (e : Nat) : List Cont.Contact :=
  if e < n then ((Cont.load n file s).cnts e).map fun c => { c with active := true } else (Cont.load n file s).cnts e

/-- The dynamics sequence after `fillDynamicsSequence`, DynamicsOptimizer.cpp:72 (`n` is `Problem::n_endeffs_`). -/
noncomputable def filled (n : Nat) (s : DSet) (cs : Nat → List Cont.Contact) (q : ContactPlan.Seq (Fin 3 → ℝ) Cont.Quat) :
    ContactPlan.Seq (Fin 3 → ℝ) Cont.Quat :=
  ContactPlan.fillDynamicsSequence n s.T s.step (fun e => (cs e).map entry) q

/-- `contact_plan_->contactSequence().endeffectorContacts(eff_id)[contact_id]`, DynamicsOptimizer.cpp:737-753: `none` outside of the list. -/
def contactAt (cs : Nat → List Cont.Contact) (q : ContactPlan.Seq (Fin 3 → ℝ) Cont.Quat) (t e : Nat) : Option Cont.Contact :=
  if 0 ≤ (q.slot t e).cntId then (cs e)[(q.slot t e).cntId.toNat]? else none

/-- Entry of a rotation matrix, `contactRotation(time_id, eff_id)(a, k)`, DynamicsOptimizer.cpp:743-747. -/
def frame (c : Cont.Contact) (a k : Nat) : ℝ := Cont.toMat c.ori (Fin.ofNat 3 a) (Fin.ofNat 3 k)

/-- Entry of a vector of three numbers, `contactPosition()[axis_id]`, DynamicsOptimizer.cpp:749-753. -/
def axis (v : Fin 3 → ℝ) (a : Nat) : ℝ := v (Fin.ofNat 3 a)

/-- What `optimize` works on: the filled sequence `q`, the contacts and the initial state, DynamicsOptimizer.cpp:67-73,737-753. -/
def toPlan (cs : Nat → List Cont.Contact) (q : ContactPlan.Seq (Fin 3 → ℝ) Cont.Quat) (junk : Nat → Nat → Cont.Contact) (ini : Cont.Ini) : DPlan where
  active := fun t e => (q.slot t e).active
  actId := fun t e => (q.slot t e).actId.toNat
  steps := q.steps
  rot := fun t e => frame ((contactAt cs q t e).getD (junk t e))
  loc := fun t e => axis ((contactAt cs q t e).getD (junk t e)).pos
  full := fun t e => decide (((contactAt cs q t e).getD (junk t e)).ctype = .full)
  iniCom := axis ini.com
  iniL := axis ini.lmom
  iniH := axis ini.amom
  iniF := fun e => axis (ini.frc e)

/-- The pairs of time step and end-effector whose contact is looked up while the constraints are added: line 262 (height), 299 (type), 301, 402, 437, 457-464 (frame and location). -/
def lookups (s : DSet) (p : DPlan) : List (Nat × Nat) :=
  (List.range s.T).map (fun _ => (0, 0)) ++
  (List.range s.T).flatMap (fun t => (List.range s.neff).map fun e => (t, e)) ++
  (List.range s.T).flatMap (fun t => ((List.range s.neff).filter fun e => p.active t e).map fun e => (t, e))

/-! ### specification -/

/-- The contact is selected and the end of time step `t` lies in its time span. -/
def InTime (dt : ℝ) (c : Cont.Contact) (t : Nat) : Prop := c.active = true ∧ c.tini ≤ ((t : ℝ) + 1) * dt ∧ ((t : ℝ) + 1) * dt < c.tend

/-- `c` is the contact of end-effector `e` at time step `t`: the last one of its list whose time span contains it. -/
def Carries (cs : Nat → List Cont.Contact) (dt : ℝ) (t e : Nat) (c : Cont.Contact) : Prop :=
  ∃ j : Nat, (cs e)[j]? = some c ∧ InTime dt c t ∧ ∀ (k : Nat) (d : Cont.Contact), (cs e)[k]? = some d → InTime dt d t → k ≤ j

/-- No end-effector is active. -/
def Fresh (q : ContactPlan.Seq (Fin 3 → ℝ) Cont.Quat) : Prop := ∀ t e, q.slot t e = ContactPlan.Slot.fresh (q.slot t e).pos (q.slot t e).ori

/-- Force in the frame of the contact. -/
noncomputable def localForce (d : DCtx) (x : Nat → ℝ) (t e : Nat) (c : Cont.Contact) (k : Fin 3) : ℝ :=
  ∑ a : Fin 3, pF d.ctx x t e a * Cont.toMat c.ori a k

/-- Arm from the center of mass to the center of pressure, which lies in the plane of the contact. -/
noncomputable def arm (d : DCtx) (x : Nat → ℝ) (t e : Nat) (c : Cont.Contact) (a : Nat) : ℝ :=
  axis c.pos a + (frame c a 0 * pCop d.ctx x t e 0 + frame c a 1 * pCop d.ctx x t e 1) - pCom d.ctx x t a

/-- The limits of a plan in terms of the contacts, up to `ε`. -/
structure OnContacts (cs : Nat → List Cont.Contact) (d : DCtx) (ε : ℝ) (x0 : Nat → ℝ) (thr : ℝ) (warm : Bool) (x : Nat → ℝ) : Prop where
  height : ∀ c, Carries cs d.s.step 0 0 c → ∀ t < d.s.T, d.s.minH - ε ≤ pCom d.ctx x t 2 - c.pos 2
  horizon : d.s.heur = .timeOpt → d.s.fixHor = true → |∑ t ∈ range d.s.T, pDt d.ctx x t - d.s.T * d.s.step| ≤ ε
  times : d.s.heur = .timeOpt → ∀ t < d.s.T, d.s.dtLo - ε ≤ pDt d.ctx x t ∧ pDt d.ctx x t ≤ d.s.dtHi + ε
  torque : ∀ t < d.s.T, ∀ e < d.s.neff, ∀ c, Carries cs d.s.step t e c → d.s.trqLo - ε ≤ pTrq d.ctx x t e ∧ pTrq d.ctx x t e ≤ d.s.trqHi + ε
  cop : ∀ t < d.s.T, ∀ e < d.s.neff, ∀ c, Carries cs d.s.step t e c →
    d.s.copR e 0 - ε ≤ pCop d.ctx x t e 0 ∧ pCop d.ctx x t e 0 ≤ d.s.copR e 1 + ε ∧
    d.s.copR e 2 - ε ≤ pCop d.ctx x t e 1 ∧ pCop d.ctx x t e 1 ≤ d.s.copR e 3 + ε
  friction : ∀ t < d.s.T, ∀ e < d.s.neff, ∀ c, Carries cs d.s.step t e c → c.ctype ≠ .full →
    if d.s.linCone then |localForce d x t e c 0| + |localForce d x t e c 1| ≤
      Real.sqrt 2 * (max d.s.mu 0.001 * localForce d x t e c 2 + Real.sqrt (1 + max d.s.mu 0.001 ^ 2) * ε)
    else Real.sqrt (localForce d x t e c 0 ^ 2 + localForce d x t e c 1 ^ 2) ≤ d.s.mu * localForce d x t e c 2 + (2 + Real.sqrt 2) * ε
  bounds : ∀ t < d.s.T, ∀ e < d.s.neff, ∀ c, Carries cs d.s.step t e c → ∀ a < 3,
    sqUb (arm d x t e c) (pF d.ctx x t e) a ≤ slackSq ε 2 (pUb d.ctx x t e a) ∧
    sqLb (arm d x t e c) (pF d.ctx x t e) a ≤ slackSq ε 2 (pLb d.ctx x t e a)
  trust : d.s.heur = .trust → warm = false → ∀ t < d.s.T, ∀ e < d.s.neff, ∀ c, Carries cs d.s.step t e c → ∀ a < 3,
    pUb d.ctx x t e a - thr - ε ≤ sqUb (arm d x t e c) (pF d.ctx x t e) a -
      sqUb (vsub (arm d x t e c) (arm d x0 t e c)) (vsub (pF d.ctx x t e) (pF d.ctx x0 t e)) a ∧
    pLb d.ctx x t e a - thr - ε ≤ sqLb (arm d x t e c) (pF d.ctx x t e) a -
      sqLb (vsub (arm d x t e c) (arm d x0 t e c)) (vsub (pF d.ctx x t e) (pF d.ctx x0 t e)) a
  length : ∀ t < d.s.T, ∀ e < d.s.neff, ∀ c, Carries cs d.s.step t e c →
    ∑ a ∈ range 3, (arm d x t e c a - d.s.off e a) ^ 2 ≤ slackSq ε 3 (d.s.maxLen e ^ 2)

/-! ### the filled sequence -/

theorem entry_covers (dt : ℝ) (c : Cont.Contact) (t : Nat) : ContactPlan.Covers dt (entry c) t ↔ InTime dt c t := Iff.rfl

theorem carries_unique {cs : Nat → List Cont.Contact} {dt : ℝ} {t e : Nat} {c c' : Cont.Contact} (h : Carries cs dt t e c) (h' : Carries cs dt t e c') : c = c' := by
  obtain ⟨j, h1, h2, h3⟩ := h
  obtain ⟨j', h1', h2', h3'⟩ := h'
  have : j = j' := le_antisymm (h3' j c h1 h2) (h3 j' c' h1' h2')
  subst this
  rw [h1] at h1'
  exact Option.some.inj h1'

theorem exists_carries {cs : Nat → List Cont.Contact} {dt : ℝ} {t e : Nat} : (∃ c, Carries cs dt t e c) ↔ ∃ c ∈ cs e, InTime dt c t := by
  constructor
  · rintro ⟨c, j, h1, h2, _⟩
    exact ⟨c, List.mem_of_getElem? h1, h2⟩
  · rintro ⟨c, hc, h2⟩
    obtain ⟨i, hi⟩ := List.mem_iff_getElem?.1 hc
    classical
    let P : Nat → Prop := fun j => ∃ d, (cs e)[j]? = some d ∧ InTime dt d t
    have hb : ∀ j, P j → j ≤ (cs e).length := fun j ⟨d, hd, _⟩ => (List.getElem?_eq_some_iff.1 hd).1.le
    obtain ⟨d, hd1, hd2⟩ := Nat.findGreatest_spec (P := P) (hb i ⟨c, hi, h2⟩) ⟨c, hi, h2⟩
    exact ⟨d, _, hd1, hd2, fun k d' hk hd' => Nat.le_findGreatest (hb k ⟨d', hk, hd'⟩) ⟨d', hk, hd'⟩⟩

/-- What is stored for an end-effector: nothing changes at a step without contact; otherwise the slot holds the data of the contact. -/
theorem filled_slot (n : Nat) (s : DSet) (cs : Nat → List Cont.Contact) (q : ContactPlan.Seq (Fin 3 → ℝ) Cont.Quat) (t e : Nat) (ht : t < s.T) (he : e < n) :
    ((∀ c, ¬ Carries cs s.step t e c) → (filled n s cs q).slot t e = q.slot t e) ∧
    (∀ c, Carries cs s.step t e c → ((filled n s cs q).slot t e).active = true ∧ contactAt cs (filled n s cs q) t e = some c ∧
      0 ≤ ((filled n s cs q).slot t e).actId ∧ ((filled n s cs q).slot t e).actId < (filled n s cs q).steps e) := by
  obtain ⟨h1, h2, h3⟩ := ContactPlan.fillFrom_spec s.T s.step ((cs e).map entry) 0 ((fun t => q.slot t e), 0)
  have hs : (filled n s cs q).slot t e = (ContactPlan.fillFrom s.T s.step 0 ((cs e).map entry) ((fun t => q.slot t e), 0)).1 t := by
    rw [filled, ContactPlan.fill_slot, if_pos he]
  have hst : (filled n s cs q).steps e = (ContactPlan.fillFrom s.T s.step 0 ((cs e).map entry) ((fun t => q.slot t e), 0)).2 := by
    rw [filled, ContactPlan.fill_steps, if_pos he]
  constructor
  · intro hno
    rw [hs, h2 t (.inr ?_)]
    intro c hc hcov
    obtain ⟨c', hc', rfl⟩ := List.mem_map.1 hc
    obtain ⟨d, hd⟩ := exists_carries.2 ⟨c', hc', hcov⟩
    exact hno d hd
  · intro c hc
    obtain ⟨c', hc', hcov⟩ := exists_carries.1 ⟨c, hc⟩
    obtain ⟨j, d, hj, hd, hmax, h4⟩ := h3 t ht ⟨entry c', List.mem_map.2 ⟨c', hc', rfl⟩, hcov⟩
    rw [List.getElem?_map, Option.map_eq_some_iff] at hj
    obtain ⟨d', hj', rfl⟩ := hj
    have hd' : Carries cs s.step t e d' := ⟨j, hj', hd, fun k g hk hg => hmax k (entry g) (by rw [List.getElem?_map, hk]; rfl) hg⟩
    have := carries_unique hc hd'
    subst this
    rw [hs, h4]
    refine ⟨rfl, ?_, by positivity, ?_⟩
    · rw [contactAt, hs, h4]
      simp [hj']
    · rw [hst, h1]
      have hlt : ContactPlan.offset s.T s.step ((cs e).map entry) j + Nat.count (fun t => ContactPlan.Covers s.step (entry c) t) t <
          ContactPlan.offset s.T s.step ((cs e).map entry) (j + 1) := by
        rw [ContactPlan.offset_succ _ _ _ j (entry c) (by rw [List.getElem?_map, hj']; rfl)]
        have := Nat.count_strict_mono (p := fun t => ContactPlan.Covers s.step (entry c) t) hd ht
        unfold ContactPlan.total; omega
      have hle := ContactPlan.offset_mono s.T s.step ((cs e).map entry) (i := j + 1) (j := ((cs e).map entry).length)
        (by have := (List.getElem?_eq_some_iff.1 hj').1; simp; omega)
      have hall : ContactPlan.offset s.T s.step ((cs e).map entry) ((cs e).map entry).length =
          (((cs e).map entry).map (ContactPlan.total s.T s.step)).sum := by
        unfold ContactPlan.offset; rw [List.take_length]
      rw [hall] at hle
      have h5 : ContactPlan.offset s.T s.step ((cs e).map entry) j + Nat.count (fun t => ContactPlan.Covers s.step (entry c) t) t <
          (((cs e).map entry).map (ContactPlan.total s.T s.step)).sum := lt_of_lt_of_le hlt hle
      simp only [Nat.zero_add]
      exact_mod_cast h5

section
variable (n : Nat) (s : DSet) (cs : Nat → List Cont.Contact) (q : ContactPlan.Seq (Fin 3 → ℝ) Cont.Quat) (junk : Nat → Nat → Cont.Contact) (ini : Cont.Ini)

theorem active_iff (hq : Fresh q) (t e : Nat) (ht : t < s.T) (he : e < n) :
    (toPlan cs (filled n s cs q) junk ini).active t e = true ↔ ∃ c, Carries cs s.step t e c := by
  obtain ⟨h1, h2⟩ := filled_slot n s cs q t e ht he
  show ((filled n s cs q).slot t e).active = true ↔ _
  constructor
  · intro h
    by_contra hno
    push Not at hno
    rw [h1 hno, hq] at h
    exact absurd h (by simp [ContactPlan.Slot.fresh])
  · rintro ⟨c, hc⟩
    exact (h2 c hc).1

theorem carried {t e : Nat} (ht : t < s.T) (he : e < n) {c : Cont.Contact} (hc : Carries cs s.step t e c) :
    (toPlan cs (filled n s cs q) junk ini).active t e = true ∧ (toPlan cs (filled n s cs q) junk ini).rot t e = frame c ∧
    (toPlan cs (filled n s cs q) junk ini).loc t e = axis c.pos ∧ (toPlan cs (filled n s cs q) junk ini).full t e = decide (c.ctype = .full) ∧
    (toPlan cs (filled n s cs q) junk ini).actId t e < (toPlan cs (filled n s cs q) junk ini).steps e := by
  obtain ⟨h1, h2, h3, h4⟩ := (filled_slot n s cs q t e ht he).2 c hc
  refine ⟨h1, ?_, ?_, ?_, ?_⟩
  · show frame ((contactAt cs (filled n s cs q) t e).getD (junk t e)) = _; rw [h2]; rfl
  · show axis ((contactAt cs (filled n s cs q) t e).getD (junk t e)).pos = _; rw [h2]; rfl
  · show decide (((contactAt cs (filled n s cs q) t e).getD (junk t e)).ctype = .full) = _; rw [h2]; rfl
  · show ((filled n s cs q).slot t e).actId.toNat < (filled n s cs q).steps e; omega

/-- The plan of a contact sequence meets what the theorems on the dynamics optimiser ask of it: every active step of an end-effector has a variable. -/
theorem plan_ok (hq : Fresh q) (hn : s.neff ≤ n) : (toPlan cs (filled n s cs q) junk ini).Ok s := by
  intro t ht e he ha
  obtain ⟨c, hc⟩ := (active_iff n s cs q junk ini hq t e ht (by omega)).1 ha
  exact (carried n s cs q junk ini ht (by omega) hc).2.2.2.2

theorem plan_frames (hq : Fresh q) (hn : s.neff ≤ n) (hu : ∀ e < s.neff, ∀ c ∈ cs e, c.active = true → c.ori.IsUnit) :
    (toPlan cs (filled n s cs q) junk ini).Frames s := by
  intro t ht e he ha k hk
  obtain ⟨c, hc⟩ := (active_iff n s cs q junk ini hq t e ht (by omega)).1 ha
  rw [(carried n s cs q junk ini ht (by omega) hc).2.1]
  obtain ⟨j, hj, ⟨hact, _⟩, _⟩ := hc
  have h := hu e he c (List.mem_of_getElem? hj) hact
  unfold Cont.Quat.IsUnit at h
  interval_cases k
  · simp [frame, Cont.toMat, Fin.ofNat]
    linear_combination (-4 * c.ori.x * c.ori.z) * h
  · simp [frame, Cont.toMat, Fin.ofNat]
    linear_combination (-4 * c.ori.y * c.ori.z) * h
  · simp [frame, Cont.toMat, Fin.ofNat]
    linear_combination (4 * (c.ori.x ^ 2 + c.ori.y ^ 2)) * h

end

end DynPlan
end Verif
