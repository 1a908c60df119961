import Verif.DynOptEnd

/-! C123-C126: the plan the dynamics optimiser stores, the loop over the time iterations, the tracking weights. -/
namespace Verif
namespace Dyn
open LinExpr Kin Finset

/-! ### specification: a stored plan

Index `t+1` of the sequence holds center of mass and momenta at the end of time step `t`, index `t` duration, forces, centers
of pressure and torques during time step `t`. -/

/-- Sum over the end-effectors in contact. -/
noncomputable def inContact (s : DSet) (p : DPlan) (t : Nat) (f : Nat → ℝ) : ℝ := ∑ e ∈ range s.neff, if p.active t e then f e else 0

/-- Component `a` of the state at the beginning of time step `t`: the initial one for `t = 0`. -/
def atStart (ini : Nat → ℝ) (q : DState → Nat → ℝ) (seq : Nat → DState) (t a : Nat) : ℝ := if t = 0 then ini a else q (seq t) a

/-- Lever arm of an end-effector during time step `t`: from the center of mass at the end of the step to the center of
pressure. -/
noncomputable def storedArm (p : DPlan) (seq : Nat → DState) (t e a : Nat) : ℝ :=
  p.loc t e a + (p.rot t e a 0 * (seq t).cop e 0 + p.rot t e a 1 * (seq t).cop e 1) - (seq (t + 1)).com a

/-- The center of mass moves with the linear momentum. -/
def ComMoves (s : DSet) (p : DPlan) (seq : Nat → DState) : Prop := ∀ t < s.T, ∀ a < 3,
  (seq (t + 1)).com a = atStart p.iniCom DState.com seq t a + (seq t).time * (seq (t + 1)).l a / s.mass

/-- The linear momentum integrates gravity and contact forces, `dist` is a disturbance. -/
def LinMoves (s : DSet) (p : DPlan) (dist : Nat → Nat → ℝ) (seq : Nat → DState) : Prop := ∀ t < s.T, ∀ a < 3,
  (seq (t + 1)).l a = atStart p.iniL DState.l seq t a +
    (seq t).time * (s.mass * s.grav a + inContact s p t (fun e => s.mg * (seq t).frc e a) + dist t a)

/-- The angular momentum integrates the moments of the contact forces and the contact torques. -/
def AngMoves (s : DSet) (p : DPlan) (seq : Nat → DState) : Prop := ∀ t < s.T, ∀ a < 3,
  (seq (t + 1)).h a = atStart p.iniH DState.h seq t a +
    (seq t).time * inContact s p t (fun e => Ctx.cross (storedArm p seq t e) (fun b => s.mg * (seq t).frc e b) a + p.rot t e a 2 * (seq t).trq e 2)

/-! ### reading the stored plan -/

section
variable (d : DCtx) (g : Guess)

theorem store_com (t : Nat) (ht : t < d.s.T) : (d.storeState g (t + 1)).com = g.com t := by
  show (if t + 1 = 0 then g.com 0 else if t + 1 ≤ d.s.T then g.com (t + 1 - 1) else (d.seq (t + 1)).com) = _
  rw [if_neg (by omega), if_pos (by omega)]; rfl

theorem store_l (t : Nat) (ht : t < d.s.T) : (d.storeState g (t + 1)).l = g.l t := by
  show (if t + 1 = 0 then (d.seq (t + 1)).l else if t + 1 ≤ d.s.T then g.l (t + 1 - 1) else (d.seq (t + 1)).l) = _
  rw [if_neg (by omega), if_pos (by omega)]; rfl

theorem store_h (t : Nat) (ht : t < d.s.T) : (d.storeState g (t + 1)).h = g.h t := by
  show (if t + 1 = 0 then (d.seq (t + 1)).h else if t + 1 ≤ d.s.T then g.h (t + 1 - 1) else (d.seq (t + 1)).h) = _
  rw [if_neg (by omega), if_pos (by omega)]; rfl

theorem store_time (t : Nat) (ht : t < d.s.T) :
    (d.storeState g t).time = if d.s.heur = .timeOpt then g.dt t else (d.seq t).time := by
  show (if (decide (t < d.s.T) && decide (d.s.heur = .timeOpt)) = true then _ else _) = _
  by_cases h : d.s.heur = .timeOpt
  · rw [if_pos (by simp [ht, h]), if_pos h]
  · rw [if_neg (by simp [h]), if_neg h]

theorem store_frc (t e : Nat) (ht : t < d.s.T) (he : e < d.s.neff) (ha : d.p.active t e = true) (a : Nat) :
    (d.storeState g t).frc e a = g.frc e (d.p.actId t e) a := by
  show (if (decide (t < d.s.T) && decide (e < d.s.neff) && d.p.active t e) = true then _ else _) = _
  rw [if_pos (by simp [ht, he, ha])]

theorem store_cop (t e : Nat) (ht : t < d.s.T) (he : e < d.s.neff) (ha : d.p.active t e = true) (a : Nat) (h2 : a < 2) :
    (d.storeState g t).cop e a = g.cop e (d.p.actId t e) a := by
  show (if (decide (t < d.s.T) && decide (e < d.s.neff) && d.p.active t e) = true then _ else _) = _
  rw [if_pos (by simp [ht, he, ha]), if_pos h2]

theorem store_trq (t e : Nat) (ht : t < d.s.T) (he : e < d.s.neff) (ha : d.p.active t e = true) :
    (d.storeState g t).trq e 2 = g.trq e (d.p.actId t e) := by
  show (if (decide (t < d.s.T) && decide (e < d.s.neff) && d.p.active t e) = true then _ else _) = _
  rw [if_pos (by simp [ht, he, ha]), if_pos rfl]

end

theorem atStart_store (d : DCtx) (g : Guess) (ini : Nat → ℝ) (q : DState → Nat → ℝ) (f : Nat → Nat → ℝ)
    (h : ∀ t < d.s.T, q (d.storeState g (t + 1)) = f t) (t : Nat) (ht : t < d.s.T) (a : Nat) :
    atStart ini q (d.storeState g) t a = before ini f t a := by
  unfold atStart before
  split
  · rfl
  · have := h (t - 1) (by omega)
    rw [Nat.sub_add_cancel (by omega)] at this
    rw [this]

theorem inContact_congr (s : DSet) (p : DPlan) (t : Nat) (f g : Nat → ℝ) (h : ∀ e < s.neff, p.active t e = true → f e = g e) :
    inContact s p t f = inContact s p t g := by
  refine sum_congr rfl fun e he => ?_
  split
  · exact h e (mem_range.1 he) ‹_›
  · rfl

/-- The disturbance of the plans with fixed timing: the external force during the first time step. -/
noncomputable def push (s : DSet) (t a : Nat) : ℝ := if t = 0 then s.mg * s.ext a else 0

/-- C123: with fixed timing, whatever the solver returns that satisfies the dynamics constraints, the stored plan obeys the
centroidal dynamics exactly, including the angular momentum, even where the bounds on the moments are not tight: the angular
momentum of the solver is replaced by the one recomputed from the forces. The durations are not changed. -/
theorem C123_stored_plan (i : DIn) (hf : i.s.heur ≠ .timeOpt) (st : LoopState) (first : Bool) (x : Nat → ℝ)
    (hd : Dynamics (i.ctx st.seq first) x) :
    ComMoves i.s i.p (internalOptimize i st first x).seq ∧ LinMoves i.s i.p (push i.s) (internalOptimize i st first x).seq ∧
    AngMoves i.s i.p (internalOptimize i st first x).seq ∧
    ∀ t < i.s.T, ((internalOptimize i st first x).seq t).time = (st.seq t).time := by
  set d := i.ctx st.seq first with hdd
  set g' : Guess := { d.guessOf x with h := d.angmom x } with hg
  have hs : (internalOptimize i st first x).seq = d.storeState g' := by
    unfold internalOptimize; rw [if_neg hf]
  rw [hs]
  have hf' : ¬ d.s.heur = .timeOpt := hf
  have tm : ∀ t < i.s.T, (d.storeState g' t).time = (st.seq t).time := fun t ht => by
    rw [store_time d g' t ht, if_neg hf']; rfl
  have ia : ∀ t f, sumActive d.ctx t f = inContact i.s i.p t f := fun t f => rfl
  refine ⟨fun t ht a ha => ?_, fun t ht a ha => ?_, fun t ht a ha => ?_, tm⟩
  · have := hd t ht a ha
    rw [if_neg hf'] at this
    rw [atStart_store d g' i.p.iniCom DState.com (pCom d.ctx x) (fun t ht => store_com d g' t ht) t ht a, store_com d g' t ht, store_l d g' t ht,
      tm t ht]
    exact this.1
  · have := hd t ht a ha
    rw [if_neg hf'] at this
    rw [atStart_store d g' i.p.iniL DState.l (pL d.ctx x) (fun t ht => store_l d g' t ht) t ht a, store_l d g' t ht, tm t ht,
      inContact_congr i.s i.p t _ (fun e => i.s.mg * pF d.ctx x t e a) (fun e he hact => by rw [store_frc d g' t e ht he hact a]; rfl)]
    have h2 := this.2.1
    rw [forceSum, ia] at h2
    refine (show g'.l t a = pL d.ctx x t a from rfl).trans (h2.trans ?_)
    have e1 : (d.seq t).time = (st.seq t).time := rfl
    have e2 : (d.seq 0).time = (st.seq 0).time := rfl
    have e3 : d.s = i.s := rfl
    have e4 : d.p = i.p := rfl
    rw [e1, e2, e3, e4, push]
    split
    · rename_i h0; rw [h0]; ring
    · ring
  · rw [atStart_store d g' i.p.iniH DState.h (fun t a => d.angmom x t a) (fun t ht => store_h d g' t ht) t ht a, store_h d g' t ht, tm t ht]
    have hang : ∀ t a, d.angmom x t a = d.ctx.angmom x t a := fun t a => if_neg hf'
    rw [inContact_congr i.s i.p t _ (fun e => Ctx.cross (pArm d.ctx x t e) (fun b => d.ctx.mg * pF d.ctx x t e b) a +
      d.ctx.rot t e a 2 * pTrq d.ctx x t e) (fun e he hact => by
        have e1 : storedArm i.p (d.storeState g') t e = pArm d.ctx x t e := by
          funext b
          rw [storedArm, store_com d g' t ht, store_cop d g' t e ht he hact 0 (by omega), store_cop d g' t e ht he hact 1 (by omega)]; rfl
        have e2 : (fun b => i.s.mg * (d.storeState g' t).frc e b) = fun b => d.ctx.mg * pF d.ctx x t e b := by
          funext b; rw [store_frc d g' t e ht he hact b]; rfl
        rw [e1, e2, store_trq d g' t e ht he hact]; rfl), ← ia]
    have : g'.h t a = d.angmom x t a := rfl
    rw [this, hang t a, angmom_eq]
    unfold before
    beta_reduce
    rw [hang]
    split
    · rename_i h0; subst h0
      rw [zero_add, sum_range_one]; rfl
    · rw [angmom_eq, Nat.sub_add_cancel (by omega), sum_range_succ, add_assoc]; rfl

/-- C123 on the example: the stored plan of the standing robot. -/
example : ∃ x, Dynamics (exD .trust) x ∧
    AngMoves (exSet .trust) exDPlan (internalOptimize ⟨exSet .trust, exDPlan, ⟨fun _ _ => 0, fun _ _ => 0, fun _ _ => 0⟩, fun _ => 0⟩
      ⟨fun _ => exDState, (exD .trust).guessOf (fun _ => 0), none, false⟩ true x).seq := by
  obtain ⟨x, hx⟩ := exists_vals (exD .trust) (exPlan_ok .trust) exVals
  have hd := (ex_standing .trust x hx 0 le_rfl false).2
  exact ⟨x, hd, (C123_stored_plan ⟨exSet .trust, exDPlan, ⟨fun _ _ => 0, fun _ _ => 0, fun _ _ => 0⟩, fun _ => 0⟩
    (by simp [exSet]) ⟨fun _ => exDState, (exD .trust).guessOf (fun _ => 0), none, false⟩ true x hd).2.2.1⟩

end Dyn
end Verif
