import Verif.DynPlan

/-! C236-C238: from the contact plan to the planned motion. -/
namespace Verif
namespace DynPlan
open Dyn Finset

section
variable (n : Nat) (cs : Nat → List Cont.Contact) (q : ContactPlan.Seq (Fin 3 → ℝ) Cont.Quat) (junk : Nat → Nat → Cont.Contact) (ini : Cont.Ini)
  (d : DCtx) (hd : d.p = toPlan cs (filled n d.s cs q) junk ini) (hq : Fresh q) (hn : d.s.neff ≤ n)

/-- `b` is used of the data of an active step only through the contact. -/
theorem through {P : Nat → Nat → Prop} {Q : Nat → Nat → Cont.Contact → Prop}
    (h : ∀ t < d.s.T, ∀ e < d.s.neff, ∀ c, Carries cs d.s.step t e c → (P t e ↔ Q t e c)) (hd : d.p = toPlan cs (filled n d.s cs q) junk ini)
    (hq : Fresh q) (hn : d.s.neff ≤ n) :
    (∀ t < d.s.T, ∀ e < d.s.neff, d.p.active t e = true → P t e) ↔ ∀ t < d.s.T, ∀ e < d.s.neff, ∀ c, Carries cs d.s.step t e c → Q t e c := by
  constructor
  · intro g t ht e he c hc
    refine (h t ht e he c hc).1 (g t ht e he ?_)
    rw [hd]; exact (active_iff n d.s cs q junk ini hq t e ht (by omega)).2 ⟨c, hc⟩
  · intro g t ht e he ha
    rw [hd] at ha
    obtain ⟨c, hc⟩ := (active_iff n d.s cs q junk ini hq t e ht (by omega)).1 ha
    exact (h t ht e he c hc).2 (g t ht e he c hc)

include hd in
theorem arm_eq {t e : Nat} (ht : t < d.s.T) (he : e < n) {c : Cont.Contact} (hc : Carries cs d.s.step t e c) (x : Nat → ℝ) :
    pArm d.ctx x t e = arm d x t e c := by
  obtain ⟨_, h2, h3, _⟩ := carried n d.s cs q junk ini ht he hc
  funext a
  unfold pArm arm
  show d.p.loc t e a + (d.p.rot t e a 0 * _ + d.p.rot t e a 1 * _) - _ = _
  rw [hd, h2, h3]

include hd in
theorem local_eq {t e : Nat} (ht : t < d.s.T) (he : e < n) {c : Cont.Contact} (hc : Carries cs d.s.step t e c) (x : Nat → ℝ) (k : Fin 3) :
    pLocal d.ctx x t e k = localForce d x t e c k := by
  obtain ⟨_, h2, _⟩ := carried n d.s cs q junk ini ht he hc
  have h : ∀ a, d.ctx.rot t e a k = frame c a k := fun a => by show d.p.rot t e a k = _; rw [hd, h2]
  have hk : Fin.ofNat 3 (k : Nat) = k := by ext; simp [Fin.ofNat, Nat.mod_eq_of_lt k.2]
  unfold pLocal localForce
  rw [h, h, h, Fin.sum_univ_three]
  simp only [frame, hk]
  rfl

/-- The limits the optimiser puts on active steps are the limits of the contacts; the other direction asks that end-effector 0 has a contact at the first step, because the height of that one is used. -/
theorem near_contacts (hd : d.p = toPlan cs (filled n d.s cs q) junk ini) (hq : Fresh q) (hn : d.s.neff ≤ n) (hT : 0 < d.s.T) (h0 : 0 < n)
    (ε : ℝ) (x0 : Nat → ℝ) (thr : ℝ) (warm : Bool) (x : Nat → ℝ) :
    (NearLimits d ε x0 thr warm x → OnContacts cs d ε x0 thr warm x) ∧
    ((∃ c, Carries cs d.s.step 0 0 c) → OnContacts cs d ε x0 thr warm x → NearLimits d ε x0 thr warm x) := by
  have hh : ∀ c, Carries cs d.s.step 0 0 c → d.p.loc 0 0 2 = c.pos 2 := fun c hc => by
    rw [hd, (carried n d.s cs q junk ini hT h0 hc).2.2.1]; rfl
  have hfull : ∀ t < d.s.T, ∀ e < d.s.neff, ∀ c, Carries cs d.s.step t e c → (d.p.full t e = false ↔ c.ctype ≠ .full) := fun t ht e he c hc => by
    rw [hd, (carried n d.s cs q junk ini ht (by omega) hc).2.2.2.1]; simp
  have tq := through n cs q junk ini d (P := fun t e => d.s.trqLo - ε ≤ pTrq d.ctx x t e ∧ pTrq d.ctx x t e ≤ d.s.trqHi + ε)
    (Q := fun t e _ => d.s.trqLo - ε ≤ pTrq d.ctx x t e ∧ pTrq d.ctx x t e ≤ d.s.trqHi + ε) (fun _ _ _ _ _ _ => Iff.rfl) hd hq hn
  have cp := through n cs q junk ini d (P := fun t e => d.s.copR e 0 - ε ≤ pCop d.ctx x t e 0 ∧ pCop d.ctx x t e 0 ≤ d.s.copR e 1 + ε ∧
      d.s.copR e 2 - ε ≤ pCop d.ctx x t e 1 ∧ pCop d.ctx x t e 1 ≤ d.s.copR e 3 + ε)
    (Q := fun t e _ => d.s.copR e 0 - ε ≤ pCop d.ctx x t e 0 ∧ pCop d.ctx x t e 0 ≤ d.s.copR e 1 + ε ∧
      d.s.copR e 2 - ε ≤ pCop d.ctx x t e 1 ∧ pCop d.ctx x t e 1 ≤ d.s.copR e 3 + ε) (fun _ _ _ _ _ _ => Iff.rfl) hd hq hn
  have fr := through n cs q junk ini d (P := fun t e => d.p.full t e = false →
      if d.s.linCone then |pLocal d.ctx x t e 0| + |pLocal d.ctx x t e 1| ≤
        Real.sqrt 2 * (max d.s.mu 0.001 * pLocal d.ctx x t e 2 + Real.sqrt (1 + max d.s.mu 0.001 ^ 2) * ε)
      else Real.sqrt (pLocal d.ctx x t e 0 ^ 2 + pLocal d.ctx x t e 1 ^ 2) ≤ d.s.mu * pLocal d.ctx x t e 2 + (2 + Real.sqrt 2) * ε)
    (Q := fun t e c => c.ctype ≠ .full →
      if d.s.linCone then |localForce d x t e c 0| + |localForce d x t e c 1| ≤
        Real.sqrt 2 * (max d.s.mu 0.001 * localForce d x t e c 2 + Real.sqrt (1 + max d.s.mu 0.001 ^ 2) * ε)
      else Real.sqrt (localForce d x t e c 0 ^ 2 + localForce d x t e c 1 ^ 2) ≤ d.s.mu * localForce d x t e c 2 + (2 + Real.sqrt 2) * ε)
    (fun t ht e he c hc => by
      have l0 : pLocal d.ctx x t e 0 = _ := local_eq n cs q junk ini d hd ht (by omega) hc x 0
      have l1 : pLocal d.ctx x t e 1 = _ := local_eq n cs q junk ini d hd ht (by omega) hc x 1
      have l2 : pLocal d.ctx x t e 2 = _ := local_eq n cs q junk ini d hd ht (by omega) hc x 2
      rw [hfull t ht e he c hc, l0, l1, l2]) hd hq hn
  have bd := through n cs q junk ini d (P := fun t e => ∀ a < 3,
      sqUb (pArm d.ctx x t e) (pF d.ctx x t e) a ≤ slackSq ε 2 (pUb d.ctx x t e a) ∧
      sqLb (pArm d.ctx x t e) (pF d.ctx x t e) a ≤ slackSq ε 2 (pLb d.ctx x t e a))
    (Q := fun t e c => ∀ a < 3, sqUb (arm d x t e c) (pF d.ctx x t e) a ≤ slackSq ε 2 (pUb d.ctx x t e a) ∧
      sqLb (arm d x t e c) (pF d.ctx x t e) a ≤ slackSq ε 2 (pLb d.ctx x t e a))
    (fun t ht e he c hc => by rw [arm_eq n cs q junk ini d hd ht (by omega) hc x]) hd hq hn
  have tr := through n cs q junk ini d (P := fun t e => ∀ a < 3,
      pUb d.ctx x t e a - thr - ε ≤ sqUb (pArm d.ctx x t e) (pF d.ctx x t e) a -
        sqUb (vsub (pArm d.ctx x t e) (pArm d.ctx x0 t e)) (vsub (pF d.ctx x t e) (pF d.ctx x0 t e)) a ∧
      pLb d.ctx x t e a - thr - ε ≤ sqLb (pArm d.ctx x t e) (pF d.ctx x t e) a -
        sqLb (vsub (pArm d.ctx x t e) (pArm d.ctx x0 t e)) (vsub (pF d.ctx x t e) (pF d.ctx x0 t e)) a)
    (Q := fun t e c => ∀ a < 3,
      pUb d.ctx x t e a - thr - ε ≤ sqUb (arm d x t e c) (pF d.ctx x t e) a -
        sqUb (vsub (arm d x t e c) (arm d x0 t e c)) (vsub (pF d.ctx x t e) (pF d.ctx x0 t e)) a ∧
      pLb d.ctx x t e a - thr - ε ≤ sqLb (arm d x t e c) (pF d.ctx x t e) a -
        sqLb (vsub (arm d x t e c) (arm d x0 t e c)) (vsub (pF d.ctx x t e) (pF d.ctx x0 t e)) a)
    (fun t ht e he c hc => by rw [arm_eq n cs q junk ini d hd ht (by omega) hc x, arm_eq n cs q junk ini d hd ht (by omega) hc x0]) hd hq hn
  have ln := through n cs q junk ini d (P := fun t e => ∑ a ∈ range 3, (pArm d.ctx x t e a - d.s.off e a) ^ 2 ≤ slackSq ε 3 (d.s.maxLen e ^ 2))
    (Q := fun t e c => ∑ a ∈ range 3, (arm d x t e c a - d.s.off e a) ^ 2 ≤ slackSq ε 3 (d.s.maxLen e ^ 2))
    (fun t ht e he c hc => by rw [arm_eq n cs q junk ini d hd ht (by omega) hc x]) hd hq hn
  constructor
  · intro h
    exact ⟨fun c hc t ht => by rw [← hh c hc]; exact h.height t ht, h.horizon, h.times, tq.1 h.torque, cp.1 h.cop, fr.1 h.friction, bd.1 h.bounds,
      fun h1 h2 => tr.1 (h.trust h1 h2), ln.1 h.length⟩
  · rintro ⟨c, hc⟩ h
    exact ⟨fun t ht => by rw [hh c hc]; exact h.height c hc t ht, h.horizon, h.times, tq.2 h.torque, cp.2 h.cop, fr.2 h.friction, bd.2 h.bounds,
      fun h1 h2 => tr.2 (h.trust h1 h2), ln.2 h.length⟩

open Classical in
/-- C236, the forces that act: gravity and the forces at exactly those end-effectors that have a contact at that time step; the contact torque acts about the normal of the contact. `ct` names the contacts. -/
theorem C236_forces (hd : d.p = toPlan cs (filled n d.s cs q) junk ini) (hq : Fresh q) (hn : d.s.neff ≤ n) (x : Nat → ℝ) (t : Nat) (ht : t < d.s.T)
    (ct : Nat → Cont.Contact) (hct : ∀ e < d.s.neff, (∃ c, Carries cs d.s.step t e c) → Carries cs d.s.step t e (ct e)) (a : Fin 3) :
    forceSum d x t a = d.s.mass * d.s.grav a + ∑ e ∈ (range d.s.neff).filter (fun e => ∃ c ∈ cs e, InTime d.s.step c t), d.s.mg * pF d.ctx x t e a ∧
    torqueSum d x t a = ∑ e ∈ (range d.s.neff).filter (fun e => ∃ c ∈ cs e, InTime d.s.step c t),
      (d.s.mg * (pUb d.ctx x t e a - pLb d.ctx x t e a) / 4 + Cont.toMat (ct e).ori a 2 * pTrq d.ctx x t e) := by
  have hact : ∀ e ∈ range d.s.neff, (d.ctx.active t e = true ↔ ∃ c ∈ cs e, InTime d.s.step c t) := fun e he => by
    rw [← exists_carries, ← active_iff n d.s cs q junk ini hq t e ht (by have := mem_range.1 he; omega), ← hd]; rfl
  have hk : Fin.ofNat 3 (a : Nat) = a := by ext; simp [Fin.ofNat, Nat.mod_eq_of_lt a.2]
  constructor
  · unfold forceSum sumActive
    rw [Finset.sum_filter]
    congr 1
    refine Finset.sum_congr rfl fun e he => ?_
    simp only [hact e he]
  · unfold torqueSum sumActive
    rw [Finset.sum_filter]
    refine Finset.sum_congr rfl fun e he => ?_
    simp only [hact e he]
    split
    · rename_i hc
      rw [← exists_carries] at hc
      have h2 := (carried n d.s cs q junk ini ht (by have := mem_range.1 he; omega) (hct e (mem_range.1 he) hc)).2.1
      rw [hd, h2]
      simp only [frame, hk]
      have : (Fin.ofNat 3 2 : Fin 3) = 2 := rfl
      rw [this]; ring
    · rfl

/-- C236: the points the optimiser's constraints allow are the motions that respect the limits of the contacts of the plan — friction in the frame of the contact, center of pressure in its plane, length of the arm
from its position — at exactly the time steps inside their time spans, and the dynamics. -/
theorem C236_limits (hd : d.p = toPlan cs (filled n d.s cs q) junk ini) (hq : Fresh q) (hn : d.s.neff ≤ n) (hT : 0 < d.s.T) (h0 : 0 < n) (hm : d.s.mass ≠ 0)
    (hc : ∃ c, Carries cs d.s.step 0 0 c) (x0 : Nat → ℝ) (thr : ℝ) (warm : Bool) (x : Nat → ℝ) :
    (∀ op ∈ d.cons, op.Holds x0 thr warm x) ↔ OnContacts cs d 0 x0 thr warm x ∧ Dynamics d x := by
  rw [C119_constraints d hm]
  refine and_congr ⟨fun h => (near_contacts n cs q junk ini d hd hq hn hT h0 0 x0 thr warm x).1 (near_zero_limits d x0 thr warm x h), fun h => ?_⟩ Iff.rfl
  have h := (near_contacts n cs q junk ini d hd hq hn hT h0 0 x0 thr warm x).2 hc h
  have z : ∀ n b, slackSq 0 n b = b := fun n b => by unfold slackSq sqErr; ring
  refine ⟨fun t ht => by have := h.height t ht; rwa [sub_zero] at this, fun h1 h2 => by have := h.horizon h1 h2; rw [abs_nonpos_iff] at this; linarith,
    fun h1 t ht => by have := h.times h1 t ht; rwa [sub_zero, add_zero] at this, fun t ht e he ha => by have := h.torque t ht e he ha; rwa [sub_zero, add_zero] at this,
    fun t ht e he ha => by have := h.cop t ht e he ha; rwa [sub_zero, add_zero, sub_zero, add_zero] at this, fun t ht e he ha hf => ?_,
    fun t ht e he ha a h3 => by have := h.bounds t ht e he ha a h3; rwa [z, z] at this,
    fun h1 h2 t ht e he ha a h3 => by have := h.trust h1 h2 t ht e he ha a h3; rwa [sub_zero, sub_zero] at this,
    fun t ht e he ha => by have := h.length t ht e he ha; rwa [z] at this⟩
  have := h.friction t ht e he ha hf
  simp only [mul_zero, add_zero] at this
  exact this

/-- C236, end to end: from any contact plan whose orientations are unit quaternions, whatever the solver returns with an optimal exit at accuracy `ε` respects the limits of the contacts and the dynamics up to `ε`,
and its cost is not worse than that of any motion that respects them exactly, up to the reported gap. -/
theorem C236_plan (hd : d.p = toPlan cs (filled n d.s cs q) junk ini) (hq : Fresh q) (hn : d.s.neff ≤ n) (hT : 0 < d.s.T) (h0 : 0 < n) (hm : d.s.mass ≠ 0)
    (hu : ∀ e < d.s.neff, ∀ c ∈ cs e, c.active = true → c.ori.IsUnit) (hc : ∃ c, Carries cs d.s.step 0 0 c)
    (hw : NonnegWeights d.s d.wTrack) (hinf : 0 ≤ d.s.inf) (guess : Int → ℝ) (x0 : Nat → ℝ) (thr w : ℝ) (hw0 : 0 ≤ w) (warm : Bool)
    (v : ConicEnd.Call) (hv : v.Sane) :
    ∃ f S0, (ApiState.init.run (d.ops guess)).p.build x0 thr w warm = some f ∧ ConicStore.toStorage f = some S0 ∧
      let c := ConicStore.toCone f
      let x := Equil.ox c (v.res c S0)
      ∀ ε, v.Reports c S0 ε →
        OnContacts cs d ε x0 thr warm x ∧ NearDynamics d ε x ∧
        ∀ y, OnContacts cs d 0 x0 thr warm y → Dynamics d y →
          ∃ y', (∀ k < totalSize (d.s.dims d.p.steps), y' k = y k) ∧ f.Feasible y' ∧
            dynCost d x + (if warm then 0 else w * softPenalty d x0 x) ≤
              (1 + sqErr ε) * (dynCost d y + (if warm then 0 else w * softPenalty d x0 y) + v.gap c S0 y') +
                (sqErr ε + sqErr ε ^ 2) * ConicEnd.weight d.objTerms d.cons w warm := by
  have hok : d.p.Ok d.s := hd ▸ plan_ok n d.s cs q junk ini hq hn
  have hfr : d.p.Frames d.s := hd ▸ plan_frames n d.s cs q junk ini hq hn hu
  obtain ⟨f, S0, h1, h2, h3⟩ := C222_plan d hm hT hok hfr hw hinf guess x0 thr w hw0 warm v hv
  refine ⟨f, S0, h1, h2, ?_⟩
  intro c x ε hrep
  obtain ⟨a1, a2, a3⟩ := h3 ε hrep
  refine ⟨(near_contacts n cs q junk ini d hd hq hn hT h0 ε x0 thr warm x).1 a1, a2, fun y hy hyd => ?_⟩
  have := (C236_limits n cs q junk ini d hd hq hn hT h0 hm hc x0 thr warm y).2 ⟨hy, hyd⟩
  exact a3 y ((C119_constraints d hm x0 thr warm y).1 this).1 hyd

/-- C236, the start: the motion continues the initial state of the robot. In the first time step the center of mass moves from the initial one with the linear momentum, and the momenta change from the initial ones by the
impulses of the forces that act, including the external force with fixed timing. -/
theorem C236_start (hd : d.p = toPlan cs (filled n d.s cs q) junk ini) (hT : 0 < d.s.T) (hf : d.s.heur = .timeOpt → d.first = true) (x : Nat → ℝ) (hx : Dynamics d x) (a : Fin 3) :
    pCom d.ctx x 0 a = ini.com a + (d.seq 0).time * pL d.ctx x 0 a / d.s.mass ∧
    pL d.ctx x 0 a = ini.lmom a + (d.seq 0).time * (forceSum d x 0 a + if d.s.heur = .timeOpt then 0 else d.s.mg * d.s.ext a) ∧
    pH d.ctx x 0 a = ini.amom a + (d.seq 0).time * torqueSum d x 0 a := by
  have hk : Fin.ofNat 3 (a : Nat) = a := by ext; simp [Fin.ofNat, Nat.mod_eq_of_lt a.2]
  have h := hx 0 hT a a.2
  by_cases ht : d.s.heur = .timeOpt
  · rw [if_pos ht, if_pos (hf ht)] at h
    obtain ⟨h1, h2, h3, h4, h5⟩ := h
    rw [hd] at h3 h4 h5
    simp only [before, if_true, toPlan, axis, hk] at h3 h4 h5
    rw [if_pos ht]
    exact ⟨h3, by rw [h4, h1, add_zero], by rw [h5, h2]⟩
  · rw [if_neg ht] at h
    obtain ⟨h3, h4, h5⟩ := h
    rw [hd] at h3 h4 h5
    simp only [before, if_true, toPlan, axis, hk] at h3 h4 h5
    rw [if_neg ht]
    exact ⟨h3, by rw [h4]; ring, h5⟩

open Classical in
/-- C236, the first change of the forces is counted from the forces of the initial state: the cost of the forces at the first of several time steps. -/
theorem C236_start_forces (hd : d.p = toPlan cs (filled n d.s cs q) junk ini) (hq : Fresh q) (hn : d.s.neff ≤ n) (hT : 1 < d.s.T) (x : Nat → ℝ) (a : Fin 3) :
    forceCost d x 0 a = ∑ e ∈ (range d.s.neff).filter (fun e => ∃ c ∈ cs e, InTime d.s.step c 0),
      ((if e < 2 then d.s.wLegF a else d.s.wArmF a) * pF d.ctx x 0 e a ^ 2 + (if e = 2 ∨ e = 3 then d.s.wArmFd a else d.s.wLegFd a) *
        (((if ∃ c ∈ cs e, InTime d.s.step c 1 then pF d.ctx x 1 e a else 0) - pF d.ctx x 0 e a) ^ 2 + (pF d.ctx x 0 e a - ini.frc e a) ^ 2)) := by
  have hk : Fin.ofNat 3 (a : Nat) = a := by ext; simp [Fin.ofNat, Nat.mod_eq_of_lt a.2]
  have hact : ∀ t < d.s.T, ∀ e ∈ range d.s.neff, (d.ctx.active t e = true ↔ ∃ c ∈ cs e, InTime d.s.step c t) := fun t ht e he => by
    rw [← exists_carries, ← active_iff n d.s cs q junk ini hq t e ht (by have := mem_range.1 he; omega), ← hd]; rfl
  unfold forceCost sumActive
  rw [Finset.sum_filter]
  refine Finset.sum_congr rfl fun e he => ?_
  simp only [hact 0 (by omega) e he]
  split
  · have h1 : forceAt d x (0 + 1) e a = if ∃ c ∈ cs e, InTime d.s.step c 1 then pF d.ctx x 1 e a else 0 := by
      unfold forceAt
      have := hact 1 hT e he
      by_cases hc : ∃ c ∈ cs e, InTime d.s.step c 1
      · rw [if_pos hc]; exact if_pos (this.2 hc)
      · rw [if_neg hc]; exact if_neg (fun h => hc (this.1 h))
    have h2 : d.p.iniF e a = ini.frc e a := by rw [hd]; simp only [toPlan, axis, hk]
    rw [h1, h2, if_neg (by omega : ¬ 0 + 1 = d.s.T), if_pos trivial]
  · rfl

end

/-! ### contacts read from a file -/

/-- The time span of a contact of the file contains the end of time step `t`. -/
def Spans (dt : ℝ) (p : Fin 11 → ℝ) (t : Nat) : Prop := p 0 ≤ ((t : ℝ) + 1) * dt ∧ ((t : ℝ) + 1) * dt < p 1

theorem fromFile_get (n : Nat) (plan : Nat → Option (List (Fin 11 → ℝ))) (sq : Cont.Seq) (hp : ∀ e < n, plan e ≠ none) (e : Nat) (he : e < n)
    (ps : List (Fin 11 → ℝ)) (hps : plan e = some ps) (j : Nat) :
    (∀ p, ps[j]? = some p → ∃ c, (fromFile n (some plan) sq e)[j]? = some c ∧ c.active = true ∧ Cont.Holds p { c with active := false }) ∧
    (∀ c, (fromFile n (some plan) sq e)[j]? = some c → ∃ p, ps[j]? = some p ∧ c.active = true ∧ Cont.Holds p { c with active := false }) := by
  have h := (Cont.C175_load n plan sq hp).1 e ps he hps
  rw [List.forall₂_iff_get] at h
  obtain ⟨hl, hg⟩ := h
  have key : ∀ p c, ps[j]? = some p → ((Cont.load n (some plan) sq).cnts e)[j]? = some c → Cont.Holds p { { c with active := true } with active := false } := by
    intro p c h1 h2
    obtain ⟨a1, a2⟩ := List.getElem?_eq_some_iff.1 h1
    obtain ⟨b1, b2⟩ := List.getElem?_eq_some_iff.1 h2
    have := hg j a1 b1
    simp only [List.get_eq_getElem, a2, b2] at this
    have hc : { { c with active := true } with active := false } = c := by
      have := this.1
      cases c; simp_all
    rw [hc]; exact this
  unfold fromFile
  rw [if_pos he]
  constructor
  · intro p h1
    obtain ⟨a1, a2⟩ := List.getElem?_eq_some_iff.1 h1
    have b1 : j < ((Cont.load n (some plan) sq).cnts e).length := by omega
    exact ⟨{ ((Cont.load n (some plan) sq).cnts e)[j] with active := true }, by rw [List.getElem?_map, List.getElem?_eq_getElem b1]; rfl, rfl, key p _ h1 (List.getElem?_eq_getElem b1)⟩
  · intro c h1
    rw [List.getElem?_map, Option.map_eq_some_iff] at h1
    obtain ⟨c', h2, rfl⟩ := h1
    obtain ⟨b1, _⟩ := List.getElem?_eq_some_iff.1 h2
    have a1 : j < ps.length := by omega
    exact ⟨ps[j], List.getElem?_eq_getElem a1, rfl, key _ _ (List.getElem?_eq_getElem a1) h2⟩

/-- C236, from the file: when the whole plan can be read, an end-effector is active at a time step exactly if the time span of one of its contacts in the file contains the end of the step; location, frame and type
the optimiser works with are those of the last such contact. -/
theorem C236_file (n : Nat) (s : DSet) (plan : Nat → Option (List (Fin 11 → ℝ))) (sq : Cont.Seq) (hp : ∀ e < n, plan e ≠ none)
    (q : ContactPlan.Seq (Fin 3 → ℝ) Cont.Quat) (hq : Fresh q) (junk : Nat → Nat → Cont.Contact) (ini : Cont.Ini)
    (t : Nat) (ht : t < s.T) (e : Nat) (he : e < n) (ps : List (Fin 11 → ℝ)) (hps : plan e = some ps) :
    let r := toPlan (fromFile n (some plan) sq) (filled n s (fromFile n (some plan) sq) q) junk ini
    (r.active t e = true ↔ ∃ p ∈ ps, Spans s.step p t) ∧
    ∀ (j : Nat) (p : Fin 11 → ℝ), ps[j]? = some p → Spans s.step p t → (∀ (k : Nat) (p' : Fin 11 → ℝ), ps[k]? = some p' → Spans s.step p' t → k ≤ j) →
      (∀ i : Fin 3, r.loc t e i = p ⟨i + 2, by omega⟩) ∧ (∀ i k : Fin 3, r.rot t e i k = Cont.toMat ⟨p 5, p 6, p 7, p 8⟩ i k) ∧
      (p 9 = 2 → r.full t e = true) ∧ (p 9 = 0 ∨ p 9 = 1 → r.full t e = false) := by
  intro r
  have hget := fromFile_get n plan sq hp e he ps hps
  have hin : ∀ p c, Cont.Holds p { c with active := false } → c.active = true → (InTime s.step c t ↔ Spans s.step p t) := by
    rintro p c ⟨_, h1, h2, _⟩ ha
    simp only at h1 h2
    simp [InTime, Spans, ha, h1, h2]
  constructor
  · rw [active_iff n s _ q junk ini hq t e ht he, exists_carries]
    constructor
    · rintro ⟨c, hc, h⟩
      obtain ⟨j, hj⟩ := List.mem_iff_getElem?.1 hc
      obtain ⟨p, h1, h2, h3⟩ := (hget j).2 c hj
      exact ⟨p, List.mem_of_getElem? h1, (hin p c h3 h2).1 h⟩
    · rintro ⟨p, hp, h⟩
      obtain ⟨j, hj⟩ := List.mem_iff_getElem?.1 hp
      obtain ⟨c, h1, h2, h3⟩ := (hget j).1 p hj
      exact ⟨c, List.mem_of_getElem? h1, (hin p c h3 h2).2 h⟩
  · intro j p hj hsp hmax
    obtain ⟨c, h1, h2, h3⟩ := (hget j).1 p hj
    have hc : Carries (fromFile n (some plan) sq) s.step t e c := ⟨j, h1, (hin p c h3 h2).2 hsp, fun k g hk hg => by
      obtain ⟨p', a1, a2, a3⟩ := (hget k).2 g hk
      exact hmax k p' a1 ((hin p' g a3 a2).1 hg)⟩
    obtain ⟨_, c2, c3, c4, _⟩ := carried n s _ q junk ini ht he hc
    obtain ⟨_, _, _, g1, g2, _, g3, g4, g5⟩ := h3
    have hk : ∀ a : Fin 3, Fin.ofNat 3 (a : Nat) = a := fun a => by ext; simp [Fin.ofNat, Nat.mod_eq_of_lt a.2]
    simp only at g1 g2 g3 g4 g5
    refine ⟨fun i => ?_, fun i k => ?_, fun h => ?_, fun h => ?_⟩
    · show r.loc t e i = _; rw [show r.loc t e = axis c.pos from c3]; unfold axis; rw [hk, g1]
    · show r.rot t e i k = _; rw [show r.rot t e = frame c from c2]; unfold frame; rw [hk, hk, g2]
    · rw [show r.full t e = _ from c4, g5 h]; rfl
    · rw [show r.full t e = _ from c4]
      rcases h with h | h
      · rw [g3 h]; rfl
      · rw [g4 h]; rfl

/-! ### C237: contacts that do not exist -/

/-- C237 (what holds): on a fresh sequence every contact looked up while the constraints are added exists exactly if every end-effector has a contact at every time step. Missing for the full C237: the lookups
happen for end-effectors without contact as well (`C237_violated`). -/
theorem C237_lookups_partial (n : Nat) (s : DSet) (cs : Nat → List Cont.Contact) (q : ContactPlan.Seq (Fin 3 → ℝ) Cont.Quat) (hq : Fresh q) (hn : s.neff ≤ n)
    (h0 : 0 < s.neff) (junk : Nat → Nat → Cont.Contact) (ini : Cont.Ini) :
    (∀ r ∈ lookups s (toPlan cs (filled n s cs q) junk ini), contactAt cs (filled n s cs q) r.1 r.2 ≠ none) ↔
      ∀ t < s.T, ∀ e < s.neff, ∃ c ∈ cs e, InTime s.step c t := by
  have key : ∀ t < s.T, ∀ e < n, (contactAt cs (filled n s cs q) t e ≠ none ↔ ∃ c ∈ cs e, InTime s.step c t) := by
    intro t ht e he
    rw [← exists_carries]
    obtain ⟨h1, h2⟩ := filled_slot n s cs q t e ht he
    constructor
    · intro h
      by_contra hno
      push Not at hno
      apply h
      rw [contactAt, h1 hno, hq]
      simp [ContactPlan.Slot.fresh]
    · rintro ⟨c, hc⟩
      rw [(h2 c hc).2.1]
      simp
  constructor
  · intro h t ht e he
    refine (key t ht e (by omega)).1 (h (t, e) ?_)
    unfold lookups
    simp only [List.mem_append, List.mem_flatMap, List.mem_map, List.mem_range, List.mem_filter]
    exact .inl (.inr ⟨t, ht, e, he, rfl⟩)
  · intro h r hr
    unfold lookups at hr
    simp only [List.mem_append, List.mem_flatMap, List.mem_map, List.mem_range, List.mem_filter] at hr
    rcases hr with (⟨t, ht, rfl⟩ | ⟨t, ht, e, he, rfl⟩) | ⟨t, ht, e, ⟨he, _⟩, rfl⟩
    · exact (key 0 (by omega) 0 (by omega)).2 (h 0 (by omega) 0 h0)
    · exact (key t ht e (by omega)).2 (h t ht e he)
    · exact (key t ht e (by omega)).2 (h t ht e he)

/-- A contact on the ground from `a` to `b`. -/
def ground (a b : ℝ) : Cont.Contact := ⟨true, ![0, 0, -1], .flat, a, b, 0, 0, ⟨1, 0, 0, 0⟩⟩

/-- No end-effector active. -/
def exFresh : ContactPlan.Seq (Fin 3 → ℝ) Cont.Quat := ⟨fun _ _ => ContactPlan.Slot.fresh 0 ⟨1, 0, 0, 0⟩, fun _ => 0⟩

theorem exFresh_fresh : Fresh exFresh := fun _ _ => rfl

/-- C237 is false of the code: a plan with a flight phase (the foot is lifted in the last of three steps) makes it look up a contact outside of the list. -/
theorem C237_violated : ∃ (s : DSet) (cs : Nat → List Cont.Contact), s.neff = 1 ∧ s.T = 3 ∧ (∃ c, Carries cs s.step 0 0 c) ∧ (∃ c, Carries cs s.step 1 0 c) ∧
    ∀ junk ini, ∃ r ∈ lookups s (toPlan cs (filled 1 s cs exFresh) junk ini), contactAt cs (filled 1 s cs exFresh) r.1 r.2 = none := by
  refine ⟨exSet .trust, fun _ => [ground 0 (1 / 4)], rfl, rfl, exists_carries.2 ⟨ground 0 (1 / 4), by simp, ?_⟩, exists_carries.2 ⟨ground 0 (1 / 4), by simp, ?_⟩, fun junk ini => ?_⟩
  · norm_num [InTime, ground, exSet]
  · norm_num [InTime, ground, exSet]
  · by_contra hno
    push Not at hno
    obtain ⟨c, hc, _, _, h⟩ := (C237_lookups_partial 1 (exSet .trust) (fun _ => [ground 0 (1 / 4)]) exFresh exFresh_fresh le_rfl Nat.one_pos junk ini).1 hno 2 (by norm_num [exSet]) 0 Nat.one_pos
    rw [List.mem_singleton] at hc
    subst hc
    norm_num [ground, exSet] at h

/-! ### C238: using the sequence again -/

theorem fillFrom_covered {K P Q : Type} [Field K] [LinearOrder K] (T : Nat) (dt : K) (cs : List (ContactPlan.Contact K P Q)) (u v : Nat → ContactPlan.Slot P Q) (t : Nat) (ht : t < T)
    (h : ∃ c ∈ cs, ContactPlan.Covers dt c t) : (ContactPlan.fillFrom T dt 0 cs (u, 0)).1 t = (ContactPlan.fillFrom T dt 0 cs (v, 0)).1 t := by
  obtain ⟨j, c, a1, a2, a3, a4⟩ := (ContactPlan.fillFrom_spec T dt cs 0 (u, 0)).2.2 t ht h
  obtain ⟨j', c', b1, b2, b3, b4⟩ := (ContactPlan.fillFrom_spec T dt cs 0 (v, 0)).2.2 t ht h
  have : j = j' := le_antisymm (b3 j c a1 a2) (a3 j' c' b1 b2)
  subst this
  rw [a1] at b1
  obtain rfl := Option.some.inj b1
  rw [a4, b4]

/-- C238 (what holds): filling the sequence again from the same plan, as every call of `optimize` does, changes nothing. -/
theorem C238_same_partial (n : Nat) (s : DSet) (cs : Nat → List Cont.Contact) (q : ContactPlan.Seq (Fin 3 → ℝ) Cont.Quat) :
    filled n s cs (filled n s cs q) = filled n s cs q := by
  have hslot : (filled n s cs (filled n s cs q)).slot = (filled n s cs q).slot := by
    funext t e
    by_cases he : e < n
    · rw [filled, ContactPlan.fill_slot, if_pos he]
      by_cases hc : t < s.T ∧ ∃ c ∈ (cs e).map entry, ContactPlan.Covers s.step c t
      · rw [fillFrom_covered s.T s.step _ _ (fun t => q.slot t e) t hc.1 hc.2, filled, ContactPlan.fill_slot, if_pos he]
      · rw [(ContactPlan.fillFrom_spec s.T s.step ((cs e).map entry) 0 _).2.1 t ?_]
        rw [not_and_or] at hc
        rcases hc with h | h
        · exact .inl (by omega)
        · push Not at h; exact .inr h
    · rw [filled, ContactPlan.fill_slot, if_neg he]
  have hsteps : (filled n s cs (filled n s cs q)).steps = (filled n s cs q).steps := by
    funext e
    unfold filled
    rw [ContactPlan.fill_steps, ContactPlan.fill_steps]
    split
    · rw [(ContactPlan.fillFrom_spec s.T s.step _ 0 _).1, (ContactPlan.fillFrom_spec s.T s.step _ 0 _).1]
    · rfl
  rcases h1 : filled n s cs (filled n s cs q) with ⟨a, b⟩
  rcases h2 : filled n s cs q with ⟨a', b'⟩
  rw [h1, h2] at hslot hsteps
  simp only at hslot hsteps
  rw [hslot, hsteps]

/-- C238 (what holds): after filling from one plan and then from another an end-effector is active at a time step exactly if one of the two has a contact there: the contacts of the first plan are not removed. -/
theorem C238_refilled_partial (n : Nat) (s : DSet) (cs cs' : Nat → List Cont.Contact) (q : ContactPlan.Seq (Fin 3 → ℝ) Cont.Quat) (hq : Fresh q) (t : Nat) (ht : t < s.T) (e : Nat) (he : e < n) :
    ((filled n s cs' (filled n s cs q)).slot t e).active = true ↔ (∃ c ∈ cs e, InTime s.step c t) ∨ ∃ c ∈ cs' e, InTime s.step c t := by
  rw [← exists_carries, ← exists_carries]
  obtain ⟨h1, h2⟩ := filled_slot n s cs' (filled n s cs q) t e ht he
  obtain ⟨g1, g2⟩ := filled_slot n s cs q t e ht he
  by_cases hc : ∃ c, Carries cs' s.step t e c
  · obtain ⟨c, hc⟩ := hc
    simp only [(h2 c hc).1, true_iff]
    exact .inr ⟨c, hc⟩
  · have hc' := hc
    push Not at hc'
    rw [h1 hc']
    constructor
    · intro h
      by_contra hno
      rw [not_or] at hno
      have := hno.1
      push Not at this
      rw [g1 this, hq] at h
      exact absurd h (by simp [ContactPlan.Slot.fresh])
    · rintro (⟨c, h⟩ | h)
      · exact (g2 c h).1
      · exact absurd h hc

/-- C238 is false of the code: after a plan with the foot on the ground throughout, a second plan with the foot on the ground in the first step only leaves the foot active in the last step, with an index for which
there is no variable. -/
theorem C238_violated : ∃ (s : DSet) (cs cs' : Nat → List Cont.Contact), (¬ ∃ c ∈ cs' 0, InTime s.step c 2) ∧ 2 < s.T ∧ s.neff = 1 ∧
    ((filled 1 s cs' (filled 1 s cs exFresh)).slot 2 0).active = true ∧
    ∀ junk ini, ¬ (toPlan cs' (filled 1 s cs' (filled 1 s cs exFresh)) junk ini).Ok s := by
  have hno : ¬ ∃ c ∈ [ground 0 (1 / 8)], InTime (exSet .trust).step c 2 := by
    rintro ⟨c, hc, _, _, h⟩
    rw [List.mem_singleton] at hc
    subst hc
    norm_num [ground, exSet] at h
  have hin : ∀ t < 3, InTime (exSet .trust).step (ground 0 1) t := by
    intro t ht
    interval_cases t <;> norm_num [InTime, ground, exSet]
  have hact : ((filled 1 (exSet .trust) (fun _ => [ground 0 (1 / 8)]) (filled 1 (exSet .trust) (fun _ => [ground 0 1]) exFresh)).slot 2 0).active = true :=
    (C238_refilled_partial 1 (exSet .trust) (fun _ => [ground 0 1]) (fun _ => [ground 0 (1 / 8)]) exFresh exFresh_fresh 2 (by norm_num [exSet]) 0 Nat.one_pos).2 (.inl ⟨_, by simp, hin 2 (by omega)⟩)
  refine ⟨exSet .trust, fun _ => [ground 0 1], fun _ => [ground 0 (1 / 8)], hno, by norm_num [exSet], rfl, hact, fun junk ini hok => ?_⟩
  have h := hok 2 (by norm_num [exSet]) 0 (by norm_num [exSet]) hact
  have hk : (filled 1 (exSet .trust) (fun _ => [ground 0 (1 / 8)]) (filled 1 (exSet .trust) (fun _ => [ground 0 1]) exFresh)).slot 2 0 = (filled 1 (exSet .trust) (fun _ => [ground 0 1]) exFresh).slot 2 0 :=
    (filled_slot 1 (exSet .trust) (fun _ => [ground 0 (1 / 8)]) _ 2 0 (by norm_num [exSet]) Nat.one_pos).1 fun c hc => hno (exists_carries.1 ⟨c, hc⟩)
  have hT : (exSet .trust).T = 3 := rfl
  have hI : ∀ t < 3, ContactPlan.inside (exSet .trust).step (entry (ground 0 1)) t = true := fun t ht => ((ContactPlan.covers_iff _ (entry (ground 0 1)) t).1 (hin t ht)).2
  have h1 : ((filled 1 (exSet .trust) (fun _ => [ground 0 1]) exFresh).slot 2 0).actId = 2 := by
    rw [filled, ContactPlan.fill_slot, if_pos Nat.one_pos]
    simp only [List.map_cons, List.map_nil, ContactPlan.fillFrom]
    rw [if_pos (show (entry (ground 0 1)).selected = true from rfl), (ContactPlan.fillContact_spec _ _ _ _ _).2, if_pos ⟨by norm_num [hT], hI 2 (by omega)⟩]
    simp [Nat.count_succ, hI 0 (by omega), hI 1 (by omega)]
  have hJ : ∀ t < 3, ContactPlan.inside (exSet .trust).step (entry (ground 0 (1 / 8))) t = true ↔ t = 0 := by
    intro t ht
    interval_cases t <;> simp only [ContactPlan.inside, entry, ground, exSet] <;> norm_num
  have h2 : (filled 1 (exSet .trust) (fun _ => [ground 0 (1 / 8)]) (filled 1 (exSet .trust) (fun _ => [ground 0 1]) exFresh)).steps 0 = 1 := by
    rw [filled, ContactPlan.fill_steps, if_pos Nat.one_pos]
    simp only [List.map_cons, List.map_nil, ContactPlan.fillFrom]
    rw [if_pos (show (entry (ground 0 (1 / 8))).selected = true from rfl), (ContactPlan.fillContact_spec _ _ _ _ _).1, hT]
    rw [Nat.count_succ, Nat.count_succ, Nat.count_succ, Nat.count_zero, if_pos ((hJ 0 (by omega)).2 rfl), if_neg fun g => absurd ((hJ 1 (by omega)).1 g) (by omega),
      if_neg fun g => absurd ((hJ 2 (by omega)).1 g) (by omega)]
  have h' : ((filled 1 (exSet .trust) (fun _ => [ground 0 (1 / 8)]) (filled 1 (exSet .trust) (fun _ => [ground 0 1]) exFresh)).slot 2 0).actId.toNat <
      (filled 1 (exSet .trust) (fun _ => [ground 0 (1 / 8)]) (filled 1 (exSet .trust) (fun _ => [ground 0 1]) exFresh)).steps 0 := h
  rw [hk, h1, h2] at h'
  norm_num at h'

/-! ### examples -/

/-- A plan file: end-effector 0 stands throughout. -/
noncomputable def exFile : Nat → Option (List (Fin 11 → ℝ)) := fun _ => some [![0, 1, 0, 0, -1, 1, 0, 0, 0, 1, 0]]

/-- C236 is not vacuous: the plan read from a file with one contact meets its hypotheses. -/
example (junk : Nat → Nat → Cont.Contact) (ini : Cont.Ini) (sq : Cont.Seq) (h : Heur) :
    let cs := fromFile 1 (some exFile) sq
    let d : DCtx := { exD h with p := toPlan cs (filled 1 (exSet h) cs exFresh) junk ini }
    d.p = toPlan cs (filled 1 d.s cs exFresh) junk ini ∧ Fresh exFresh ∧ d.s.neff ≤ 1 ∧ 0 < d.s.T ∧ d.s.mass ≠ 0 ∧
    (∀ e < d.s.neff, ∀ c ∈ cs e, c.active = true → c.ori.IsUnit) ∧ (∃ c, Carries cs d.s.step 0 0 c) ∧ NonnegWeights d.s d.wTrack ∧ 0 ≤ d.s.inf ∧
    (∀ t < d.s.T, ∀ e < d.s.neff, d.p.active t e = true) := by
  intro cs d
  have hread : ∀ e < 1, exFile e ≠ none := fun e _ => by simp [exFile]
  have hget := fromFile_get 1 exFile sq hread 0 Nat.one_pos _ rfl
  have hall : ∀ t < 3, Spans (exSet h).step ![0, 1, 0, 0, -1, 1, 0, 0, 0, 1, 0] t := by
    intro t ht; interval_cases t <;> norm_num [Spans, exSet]
  have hact : ∀ t < d.s.T, ∀ e < d.s.neff, d.p.active t e = true := by
    intro t ht e he
    have he0 : e = 0 := by have : d.s.neff = 1 := rfl; omega
    subst he0
    exact (C236_file 1 (exSet h) exFile sq hread exFresh exFresh_fresh junk ini t ht 0 Nat.one_pos _ rfl).1.2 ⟨_, by simp, hall t ht⟩
  refine ⟨rfl, exFresh_fresh, le_rfl, by norm_num [d, exAtZ, exSet], by norm_num [d, exAtZ, exSet], ?_, ?_, (ex_meets h).2, by norm_num [d, exAtZ, exSet], hact⟩
  · intro e he c hc _
    have he0 : e = 0 := by have : d.s.neff = 1 := rfl; omega
    subst he0
    obtain ⟨j, hj⟩ := List.mem_iff_getElem?.1 hc
    obtain ⟨p, h1, _, h3⟩ := (hget j).2 c hj
    have hp := List.mem_of_getElem? h1
    rw [List.mem_singleton] at hp
    subst hp
    have := h3.2.2.2.2.1
    simp only at this
    rw [this]
    simp [Cont.Quat.IsUnit, Fin.val]
  · exact (active_iff 1 (exSet h) cs exFresh junk ini exFresh_fresh 0 0 (by norm_num [exSet]) Nat.one_pos).1 (hact 0 (by norm_num [d, exAtZ, exSet]) 0 (by norm_num [d, exAtZ, exSet]))

/-- C236 at the start is not vacuous: on a foot that stands throughout, a robot with any initial momentum slides on with its weight carried by the foot. -/
example (junk : Nat → Nat → Cont.Contact) (ini : Cont.Ini) :
    let cs : Nat → List Cont.Contact := fun _ => [ground 0 1]
    let d : DCtx := { exD .trust with p := toPlan cs (filled 1 (exSet .trust) cs exFresh) junk ini }
    0 < d.s.T ∧ (d.s.heur = .timeOpt → d.first = true) ∧ ∃ x, Dynamics d x := by
  intro cs d
  have hin : ∀ t < 3, InTime (exSet .trust).step (ground 0 1) t := by
    intro t ht; interval_cases t <;> norm_num [InTime, ground, exSet]
  have hact : ∀ t < 3, d.p.active t 0 = true := fun t ht =>
    (active_iff 1 (exSet .trust) cs exFresh junk ini exFresh_fresh t 0 ht Nat.one_pos).2 (exists_carries.2 ⟨ground 0 1, by simp [cs], hin t ht⟩)
  have hok : d.p.Ok d.s := plan_ok 1 (exSet .trust) cs exFresh junk ini exFresh_fresh le_rfl
  obtain ⟨x, hx⟩ := exists_vals d hok ⟨fun t a => axis ini.com a + (t + 1) * (1 / 10 * axis ini.lmom a), fun _ a => axis ini.lmom a, fun _ a => axis ini.amom a, fun _ => 0,
    fun _ _ => 0, fun _ _ => 0, fun _ _ _ => 0, fun _ _ _ => 0, fun _ _ a => if a = 2 then 1 else 0, fun _ _ _ => 0, fun _ _ => 0⟩
  refine ⟨by norm_num [d, exAtZ, exSet], fun h => by simp [d, exAtZ, exSet] at h, x, fun t ht a ha => ?_⟩
  have hT : d.s.T = 3 := rfl
  have hone : ∀ f : Nat → ℝ, sumActive d.ctx t f = f 0 := by
    intro f
    unfold sumActive
    rw [show d.ctx.neff = 1 from rfl, Finset.sum_range_one]
    exact if_pos (hact t (hT ▸ ht))
  have hF : forceSum d x t a = 0 := by
    rw [forceSum, hone, hx.f t ht 0 Nat.one_pos (hact t (hT ▸ ht)) a ha]
    simp only [d, exAtZ, exSet]; split <;> norm_num
  have hH : torqueSum d x t a = 0 := by
    rw [torqueSum, hone, hx.ub t ht 0 Nat.one_pos (hact t (hT ▸ ht)) a ha, hx.lb t ht 0 Nat.one_pos (hact t (hT ▸ ht)) a ha, hx.trq t ht 0 Nat.one_pos (hact t (hT ▸ ht))]
    simp
  have ht1 : (d.seq t).time = 1 / 10 := rfl
  have hm : d.s.mass = 1 := rfl
  have hext : d.s.ext a = 0 := rfl
  rw [if_neg (by simp [d, exAtZ, exSet]), hF, hH, ht1, hm, hext, hx.com t ht a ha, hx.l t ht a ha, hx.h t ht a ha]
  rcases t with _ | t
  · simp [before, d, toPlan]
  · simp only [before, if_neg (Nat.succ_ne_zero t), Nat.add_sub_cancel]
    rw [hx.com t (by omega) a ha, hx.l t (by omega) a ha, hx.h t (by omega) a ha]
    push_cast
    exact ⟨by ring, by ring, by ring⟩

end DynPlan
end Verif
