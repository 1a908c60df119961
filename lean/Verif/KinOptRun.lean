import Verif.KinOptLoop

/-! C115-C117: the whole kinematic optimisation, and the display of its result. -/
namespace Verif
namespace Kin
open LinExpr Finset

theorem posture_solves (st : Setting) (rb : Robot) (des : Ref) (solver : Nat → PCtx → Option (Nat → ℝ)) (b : Bool) (s : KState) :
    (optimizePosture st rb des solver b s).solves ≤ st.maxConv := (C113_solves st rb des solver b s).1

theorem sweep_solves (st : Setting) (rb : Robot) (ref : Nat → Ref) (solver : Nat → Nat → PCtx → Option (Nat → ℝ)) (n : Nat)
    (a : KState × (Nat → KState) × Nat) : (postSweep st rb ref solver n a).2.2 ≤ a.2.2 + n * st.maxConv := by
  induction n generalizing a with
  | zero => simp [postSweep]
  | succ n ih =>
    rw [postSweep]
    refine (ih _).trans ?_
    have := posture_solves st rb (ref (st.T - (n + 1))) (solver (st.T - (n + 1) + 1)) false a.1
    simp only
    rw [Nat.succ_mul]
    omega

/-- C115: the number of optimisation problems solved by one kinematic optimisation is bounded by the settings. -/
theorem C115_calls (st : Setting) (rb : Robot) (des0 : Ref) (ref : Nat → Ref) (first : Bool)
    (psolver : Nat → Nat → PCtx → Option (Nat → ℝ)) (tsolver : Nat → TCtx → Option (Nat → ℝ)) (seq : Nat → KState) :
    (optimize st rb des0 ref first psolver tsolver seq).solves ≤ (1 + if first then st.T else 0) * st.maxConv + st.maxTraj := by
  have h0 := posture_solves st rb des0 (psolver 0) true (startState st)
  cases first
  · simp only [optimize, Bool.false_eq_true, if_false]; omega
  · simp only [optimize, if_true]
    have := sweep_solves st rb ref psolver st.T ((optimizePosture st rb des0 (psolver 0) true (startState st)).s, seq, (optimizePosture st rb des0 (psolver 0) true (startState st)).solves)
    rw [Nat.add_mul, Nat.one_mul]
    simp only at this
    omega

/-- C116: the initial state of the motion is at rest and carries the momenta of the initial dynamic state; its joints are
the default ones or within their limits, if the solver throws or returns feasible steps. -/
theorem C116_initial (st : Setting) (rb : Robot) (des0 : Ref) (ref : Nat → Ref) (first : Bool)
    (psolver : Nat → Nat → PCtx → Option (Nat → ℝ)) (tsolver : Nat → TCtx → Option (Nat → ℝ)) (seq : Nat → KState) :
    (∀ k, (optimize st rb des0 ref first psolver tsolver seq).ini.vel k = 0 ∧ (optimize st rb des0 ref first psolver tsolver seq).ini.acc k = 0) ∧
    (optimize st rb des0 ref first psolver tsolver seq).ini.lmom = des0.lmom ∧
    (optimize st rb des0 ref first psolver tsolver seq).ini.amom = des0.amom ∧
    ((∀ k c x, psolver 0 k c = some x → PostureStep c x) →
      (optimize st rb des0 ref first psolver tsolver seq).ini.pos.jnt = st.defJnt ∨ Within st (optimize st rb des0 ref first psolver tsolver seq).ini) := by
  refine ⟨fun k => ⟨rfl, rfl⟩, rfl, rfl, fun h => ?_⟩
  rcases C113_limits st rb des0 (psolver 0) true (startState st) h with h' | h'
  · exact Or.inl (congrArg Posture.jnt h')
  · exact Or.inr h'

theorem posture_none (st : Setting) (rb : Robot) (des : Ref) (solver : Nat → PCtx → Option (Nat → ℝ)) (b : Bool) (s : KState)
    (h : ∀ k c, solver k c = none) : (optimizePosture st rb des solver b s).s.pos = s.pos := by
  have : ∀ n prev k s', (postLoop st rb des s solver n prev k s').s.pos = s'.pos := by
    intro n
    induction n with
    | zero => intro prev k s'; rfl
    | succ n ih =>
      intro prev k s'
      rcases postLoop_succ st rb des s solver n prev k s' with ⟨_, e⟩ | ⟨_, ⟨x, hx, _⟩ | ⟨_, e⟩⟩
      · rw [e]; rfl
      · rw [h] at hx; cases hx
      · rw [e, ih]; rfl
  unfold optimizePosture
  cases b <;> exact this _ _ _ _

/-- C116 (failures): if every call of the solver throws, every posture of the first optimisation is the default one; nothing
tells the caller. -/
theorem C116_all_fail (st : Setting) (rb : Robot) (des0 : Ref) (ref : Nat → Ref)
    (psolver : Nat → Nat → PCtx → Option (Nat → ℝ)) (tsolver : Nat → TCtx → Option (Nat → ℝ)) (seq : Nat → KState)
    (hp : ∀ t k c, psolver t k c = none) (ht : ∀ k c, tsolver k c = none) (t : Nat) (h : t < st.T) :
    ((optimize st rb des0 ref true psolver tsolver seq).seq t).pos.jnt = st.defJnt := by
  have h0 := posture_none st rb des0 (psolver 0) true (startState st) (hp 0)
  have traj : ∀ (i : TIn) n sq, optimizeTrajectory i tsolver n sq = sq := by
    intro i n
    induction n with
    | zero => intro sq; rfl
    | succ n ih => intro sq; simp only [optimizeTrajectory, ht]; exact ih sq
  have sweep : ∀ n ≤ st.T, ∀ a : KState × (Nat → KState) × Nat, a.1.pos.jnt = st.defJnt → (∀ t < st.T - n, (a.2.1 t).pos.jnt = st.defJnt) →
      ∀ t < st.T, ((postSweep st rb ref psolver n a).2.1 t).pos.jnt = st.defJnt := by
    intro n
    induction n with
    | zero => intro _ a _ h; exact h
    | succ n ih =>
      intro hn a ha hs
      rw [postSweep]
      have e := posture_none st rb (ref (st.T - (n + 1))) (psolver (st.T - (n + 1) + 1)) false a.1 (hp _)
      refine ih (by omega) _ (by simp only [e]; exact ha) fun t ht' => ?_
      by_cases e' : t = st.T - (n + 1)
      · simp only [e', Function.update_self, e]; exact ha
      · simp only [Function.update_of_ne e']; exact hs t (by omega)
  simp only [optimize, traj, if_true]
  exact sweep st.T le_rfl _ (congrArg Posture.jnt h0) (fun t ht' => by omega) t h

/-- C117, for active joints that are the first ones: if the trajectory solver throws or returns feasible plans, the motion
returned is consistent with the returned initial state, unless every trajectory problem failed (and then the sequence is
the one those problems were built from). -/
theorem C117_motion_partial (st : Setting) (rb : Robot) (des0 : Ref) (ref : Nat → Ref) (first : Bool)
    (psolver : Nat → Nat → PCtx → Option (Nat → ℝ)) (tsolver : Nat → TCtx → Option (Nat → ℝ)) (seq : Nat → KState) (hp : st.Prefix)
    (hs : ∀ k c x, tsolver k c = some x → Plan c x) (out : OptRes) (ho : optimize st rb des0 ref first psolver tsolver seq = out) :
    (∀ k < st.maxTraj, tsolver k ⟨st, rb, des0.lmom, des0.amom, out.ini, ref, out.seq⟩ = none) ∨
    Consistent ⟨st, rb, des0.lmom, des0.amom, out.ini, ref⟩ out.seq := by
  subst ho
  rcases C111_returned_partial ⟨st, rb, des0.lmom, des0.amom, (optimize st rb des0 ref first psolver tsolver seq).ini, ref⟩ tsolver
    (if first then (postSweep st rb ref psolver st.T ((optimize st rb des0 ref first psolver tsolver seq).ini, seq,
      (optimizePosture st rb des0 (psolver 0) true (startState st)).solves)).2.1 else seq)
    hp (fun k sq x h => hs _ _ _ h) with ⟨h1, h2⟩ | h
  · left
    intro k hk
    have := h2 k hk
    rw [← h1] at this
    cases first <;> exact this
  · right
    cases first <;> exact h

/-- A solver that returns feasible plans, and is called once: for the example robot with joint 0 active, when the sequence
passed in is at zero. -/
example : (slideSet 0).Prefix ∧ ∃ tsolver : Nat → TCtx → Option (Nat → ℝ), (∀ k c x, tsolver k c = some x → Plan c x) ∧
    tsolver 0 ((slideIn 0).ctx fun _ => KState.zero) = some (slidePlan 0) := by
  classical
  refine ⟨?_, fun _ c => if Plan c (slidePlan 0) then some (slidePlan 0) else none, ?_, if_pos (slide_plan 0 (by omega))⟩
  · intro d hd
    have : d < 1 := hd
    show 0 = d; omega
  · intro k c x h
    by_cases hc : Plan c (slidePlan 0)
    · simp only [if_pos hc, Option.some.injEq] at h; subst h; exact hc
    · simp only [if_neg hc] at h; cases h

/-! ### C109: the least cost is attained -/

theorem traj_len (c : TCtx) : ((trajOrder c.st).flatMap ids).length = totalSize (trajDims c.st) := by
  rw [(trajOrder_ids_perm c.st).length_eq, trajLayout, layout_ids]; simp

theorem traj_value (c : TCtx) (x : Nat → ℝ) : (((List.range c.st.T).flatMap c.objAt).map fun t => t.1 * (t.2.getValue x) ^ 2).sum = planCost c x := by
  rw [← C109_objective, TCtx.objective, sumSq_quadOf, (quadOf_quad _).2, ofConst_value, add_zero]

theorem traj_cons_ok (c : TCtx) (op : Op) (ho : op ∈ (List.range c.st.T).flatMap c.consAt) : (∃ l s r, op = .addLin l s r) ∧
    op.Ok (List.range ((trajOrder c.st).flatMap ids).length) ∧ op.Regular := by
  obtain ⟨t, ht, hm⟩ := List.mem_flatMap.1 ho
  have a := consAt_ok c t (List.mem_range.1 ht) op hm
  have b := consAt_regular c t (List.mem_range.1 ht) op hm
  refine ⟨?_, by rw [traj_len]; exact a.2, b⟩
  rw [mem_consAt] at hm
  rcases hm with ⟨_, _, h | h | h | ⟨_, _, h | h⟩⟩ | ⟨_, _, h⟩ | ⟨_, _, h | h | h⟩ | ⟨_, _, h | h⟩ <;> subst h <;> exact ⟨_, _, _, rfl⟩

theorem traj_obj_over (c : TCtx) (p : ℝ × LinExpr ℝ) (hp : p ∈ (List.range c.st.T).flatMap c.objAt) :
    OverN ((trajOrder c.st).flatMap ids).length p.2 := by
  obtain ⟨t, ht, hm⟩ := List.mem_flatMap.1 hp
  rw [traj_len]; exact objAt_over c t (List.mem_range.1 ht) p hm

theorem traj_weights (c : TCtx)
    (hw : ∀ i, 0 ≤ c.st.wCom i ∧ 0 ≤ c.st.wL i ∧ 0 ≤ c.st.wH i ∧ 0 ≤ c.st.wLd i ∧ 0 ≤ c.st.wHd i ∧ 0 ≤ c.st.wEff i ∧ 0 ≤ c.st.wEffNa i ∧
      0 ≤ c.st.wDef i ∧ 0 ≤ c.st.wVel i ∧ 0 ≤ c.st.wAcc i)
    (p : ℝ × LinExpr ℝ) (hp : p ∈ (List.range c.st.T).flatMap c.objAt) : 0 ≤ p.1 := by
  obtain ⟨t, ht, hp⟩ := List.mem_flatMap.1 hp
  simp only [TCtx.objAt, List.mem_append, List.mem_flatMap, List.mem_range, List.mem_map, List.mem_cons, List.not_mem_nil, or_false] at hp
  rcases hp with (⟨a, ha, (h | h | h | h | h) | ⟨e, he, h⟩⟩ | ⟨d, hd, h⟩) | ⟨d, hd, h | h⟩ <;> subst h <;> dsimp only
  · exact (hw a).1
  · exact (hw a).2.1
  · exact (hw a).2.2.1
  · exact (hw a).2.2.2.1
  · exact (hw a).2.2.2.2.1
  · split
    · exact (hw a).2.2.2.2.2.1
    · exact (hw a).2.2.2.2.2.2.1
  · exact (hw d).2.2.2.2.2.2.2.1
  · exact (hw d).2.2.2.2.2.2.2.2.1
  · exact (hw d).2.2.2.2.2.2.2.2.2

/-- C109, converse: every plan extends to a point the solver may return, at the cost of the plan, and no point the solver may
return costs less than its plan; so the solver's minimisers are the plans of least cost. -/
theorem C109_attained (c : TCtx) (hinf : 0 ≤ c.st.inf) (guess : Int → ℝ)
    (hw : ∀ i, 0 ≤ c.st.wCom i ∧ 0 ≤ c.st.wL i ∧ 0 ≤ c.st.wH i ∧ 0 ≤ c.st.wLd i ∧ 0 ≤ c.st.wHd i ∧ 0 ≤ c.st.wEff i ∧ 0 ≤ c.st.wEffNa i ∧
      0 ≤ c.st.wDef i ∧ 0 ≤ c.st.wVel i ∧ 0 ≤ c.st.wAcc i)
    (x0 : Nat → ℝ) (thr w : ℝ) (hw0 : 0 ≤ w) (warm : Bool) :
    ∃ f, (ApiState.init.run (c.ops guess)).p.build x0 thr w warm = some f ∧
      (∀ x, f.Feasible x → Plan c x ∧ planCost c x ≤ f.cost x) ∧
      ∀ x, Plan c x → ∃ x', (∀ v < totalSize (trajDims c.st), x' v = x v) ∧ f.Feasible x' ∧ f.cost x' = planCost c x := by
  obtain ⟨f, hf, h1, h2⟩ := qp_standard ((trajOrder c.st).flatMap ids) c.st.inf hinf guess ((List.range c.st.T).flatMap c.objAt)
    ((List.range c.st.T).flatMap c.consAt) (traj_cons_ok c) (traj_obj_over c) (traj_weights c hw) x0 thr w hw0 warm
  refine ⟨f, hf, fun x hx => ?_, fun x hx => ?_⟩
  · obtain ⟨a, b⟩ := h1 x hx
    exact ⟨(C108_constraints c x x0 thr warm).1 a, by rw [← traj_value]; exact b⟩
  · obtain ⟨x', a, b, e⟩ := h2 x ((C108_constraints c x x0 thr warm).2 hx)
    exact ⟨x', fun v hv => a v (by rw [traj_len]; exact hv), b, by rw [e, traj_value]⟩

/-- The hypotheses of `C109_minimiser` are met: the plan of the example robot, extended to a point of the solver's problem,
is a minimiser. -/
example : ∃ f x, (ApiState.init.run (((slideIn 0).ctx fun _ => KState.zero).ops fun _ => 0)).p.build (fun _ => 0) 0 1 false = some f ∧
    f.Feasible x ∧ ∀ y, f.Feasible y → f.cost x ≤ f.cost y := by
  obtain ⟨f, hf, h1, h2⟩ := C109_attained ((slideIn 0).ctx fun _ => KState.zero) (show (0 : ℝ) ≤ 1 by norm_num) (fun _ => 0)
    (fun i => show (0 : ℝ) ≤ 1 ∧ (0 : ℝ) ≤ 0 ∧ (0 : ℝ) ≤ 0 ∧ (0 : ℝ) ≤ 0 ∧ (0 : ℝ) ≤ 0 ∧ (0 : ℝ) ≤ 0 ∧ (0 : ℝ) ≤ 0 ∧ (0 : ℝ) ≤ 0 ∧ (0 : ℝ) ≤ 0 ∧ (0 : ℝ) ≤ 0 by norm_num)
    (fun _ => 0) 0 1 zero_le_one false
  obtain ⟨x, _, hx, hc⟩ := h2 _ (slide_plan 0 (by omega))
  refine ⟨f, x, hf, hx, fun y hy => ?_⟩
  have hcost : ∀ z, planCost ((slideIn 0).ctx fun _ => KState.zero) z =
      ∑ a ∈ range 3, (slideRef.com a - qCom (slideSet 0) z 0 a) ^ 2 := by
    intro z
    have hT : ((slideIn 0).ctx fun _ => KState.zero).st.T = 1 := rfl
    have w0 : ∀ a, ((slideIn 0).ctx fun _ => KState.zero).st.wL a = 0 ∧ ((slideIn 0).ctx fun _ => KState.zero).st.wH a = 0 ∧
        ((slideIn 0).ctx fun _ => KState.zero).st.wLd a = 0 ∧ ((slideIn 0).ctx fun _ => KState.zero).st.wHd a = 0 ∧
        ((slideIn 0).ctx fun _ => KState.zero).st.wDef a = 0 ∧ ((slideIn 0).ctx fun _ => KState.zero).st.wVel a = 0 ∧
        ((slideIn 0).ctx fun _ => KState.zero).st.wAcc a = 0 ∧ ((slideIn 0).ctx fun _ => KState.zero).st.wCom a = 1 :=
      fun a => ⟨rfl, rfl, rfl, rfl, rfl, rfl, rfl, rfl⟩
    have hn : ((slideIn 0).ctx fun _ => KState.zero).st.neff = 0 := rfl
    unfold planCost
    simp only [hT, hn, (w0 _).1, (w0 _).2.1, (w0 _).2.2.1, (w0 _).2.2.2.1, (w0 _).2.2.2.2.1, (w0 _).2.2.2.2.2.1, (w0 _).2.2.2.2.2.2.1,
      (w0 _).2.2.2.2.2.2.2, sum_range_one, zero_mul, add_zero, sum_const_zero, one_mul, range_zero, sum_empty]
    rfl
  have h0 : f.cost x = 0 := by
    rw [hc, hcost]
    refine sum_eq_zero fun a ha => ?_
    rw [(slide_vals 0).2.2.2.2.1 a (mem_range.1 ha)]
    by_cases h : a = 0 <;> simp [h, slideRef]
  rw [h0]
  refine le_trans ?_ (h1 y hy).2
  rw [hcost]
  exact sum_nonneg fun a _ => sq_nonneg _

/-! ### C117, continued -/

/-- Two time steps, no trajectory iteration, joint 0 active. -/
noncomputable def stayset : Setting := { pullCtx.st with
  T := 2
  maxTraj := 0
  wReg := 0 }

/-- The reference: center of mass at `p` along the first axis, after one second. -/
def stayRef (p : ℝ) : Ref := ⟨1, fun a => if a = 0 then p else 0, fun _ => 0, fun _ => 0, fun _ => false, fun _ _ => 0⟩

theorem stay_error (p : ℝ) (s : KState) : trackingError stayset slider (stayRef p) s = |p - s.pos.jnt 0| := by
  have h0 : ∀ v : Nat → ℝ, (∀ a, v a = 0) → PCtx.norm3 v = 0 := fun v h => by simp [PCtx.norm3, h]
  unfold trackingError PCtx.error
  show (PCtx.norm3 _ + PCtx.norm3 _ + PCtx.norm3 _ : ℝ) = _
  rw [h0 (PCtx.dH _) fun a => by simp [PCtx.dH, stayRef, Robot.update, slider], h0 (PCtx.dL _) fun a => by simp [PCtx.dL, stayRef, Robot.update, slider]]
  have : ∀ a, PCtx.dCom ⟨stayset, slider.jac s, slider.update s, stayRef p⟩ a = if a = 0 then p - s.pos.jnt 0 else 0 := by
    intro a
    simp only [PCtx.dCom, stayRef, Robot.update, slider, stayset, pullCtx]
    split <;> simp
  rw [PCtx.norm3, this, this, this]
  simp [Real.sqrt_sq_eq_abs]

/-- The columns do not depend on the state. -/
theorem stay_cols (s : KState) (i : Nat) : PCtx.cQd ⟨stayset, slider.jac s, slider.update s, stayRef 1⟩ i = pullCtx.cQd i ∧
    PCtx.cQ ⟨stayset, slider.jac s, slider.update s, stayRef 1⟩ i = pullCtx.cQ i := ⟨rfl, rfl⟩

/-- A converged posture. -/
theorem posture_conv (st : Setting) (rb : Robot) (des : Ref) (solver : Nat → PCtx → Option (Nat → ℝ)) (s : KState) (hn : 0 < st.maxConv)
    (h : trackingError st rb des s < st.tol) : postLoop st rb des s solver st.maxConv none 0 s = ⟨rb.update s, 0⟩ := by
  obtain ⟨n, hn⟩ : ∃ n, st.maxConv = n + 1 := ⟨st.maxConv - 1, by omega⟩
  rw [hn]
  rcases postLoop_succ st rb des s solver n none 0 s with ⟨_, h'⟩ | ⟨h', _⟩
  · exact h'
  · exact absurd h h'.1

/-- The step is feasible and free of cost. -/
theorem stay_step (s : KState) (hs : s.pos.jnt 0 = 0) : PostureStep ⟨stayset, slider.jac s, slider.update s, stayRef 1⟩ (pullStep 0) ∧
    moveCost ⟨stayset, slider.jac s, slider.update s, stayRef 1⟩ (pullStep 0) + momCost ⟨stayset, slider.jac s, slider.update s, stayRef 1⟩ (pullStep 0) = 0 := by
  obtain ⟨h1, h2, _⟩ := pull_vals 0
  have c1 : ∀ i, PCtx.cQd ⟨stayset, slider.jac s, slider.update s, stayRef 1⟩ i = pullCtx.cQd i := fun i => rfl
  have c2 : ∀ i, PCtx.cQ ⟨stayset, slider.jac s, slider.update s, stayRef 1⟩ i = pullCtx.cQ i := fun i => rfl
  constructor
  · refine ⟨fun k hk => absurd hk (Nat.not_lt_zero k), fun d hd => ?_, fun d hd => ?_⟩
    · have hd' : d < 1 := hd
      obtain rfl : d = 0 := by omega
      rw [c2, c1, h2, h1 (6 + 0) (by omega)]
      show (1 : ℝ) = s.pos.jnt 0 + 1 * _
      rw [hs]; simp
    · have hd' : d < 1 := hd
      obtain rfl : d = 0 := by omega
      rw [c2, h2]
      show (-5 : ℝ) ≤ 1 ∧ (1 : ℝ) ≤ 5
      norm_num
  · have hj : ∀ a, (∑ d ∈ range 7, (slider.jac s).com a d * pullStep 0 (pullCtx.cQd d)) = if a = 0 then 1 else 0 := by
      intro a
      rw [sum_eq_single 6]
      · rw [h1 6 (by omega), if_pos rfl, mul_one]; simp [slider]
      · intro d hd hne; rw [h1 d (mem_range.1 hd), if_neg hne, mul_zero]
      · intro h; simp at h
    have e1 : moveCost ⟨stayset, slider.jac s, slider.update s, stayRef 1⟩ (pullStep 0) =
        (∑ a ∈ range 3, (1 * ((∑ d ∈ range 7, (slider.jac s).com a d * pullStep 0 (pullCtx.cQd d)) -
          ((if a = 0 then 1 else 0) - (if a = 0 then s.pos.jnt 0 else 0)) / 1) ^ 2 + ∑ e ∈ range 0, (0 : ℝ))) +
        (∑ d ∈ range 7, 0 * pullStep 0 (pullCtx.cQd d) ^ 2) + (∑ k ∈ range 0, (0 : ℝ)) + ∑ d ∈ range 1, 0 * (pullStep 0 (pullCtx.cQ d) - 0) ^ 2 := rfl
    have e2 : momCost ⟨stayset, slider.jac s, slider.update s, stayRef 1⟩ (pullStep 0) = 0 := by
      unfold momCost
      have hw : ∀ a, stayset.wL a = 0 ∧ stayset.wH a = 0 := fun a => ⟨rfl, rfl⟩
      have hr : stayset.wReg = 0 := rfl
      simp [hw, hr]
    rw [e1, e2]
    simp only [hj, hs]
    simp [sum_range_succ]

theorem pstore_jnt (c : PCtx) (rb : Robot) (start : KState) (x : Nat → ℝ) (j : Nat) : (c.store rb start x).pos.jnt j =
    c.cur.pos.jnt j + (if 6 + j < c.st.next then x (c.cQd (6 + j)) else c.cur.vel (6 + j)) * c.st.kdt := rfl

theorem pstore_vel (c : PCtx) (rb : Robot) (start : KState) (x : Nat → ℝ) (j : Nat) : (c.store rb start x).vel (6 + j) =
    ((c.store rb start x).pos.jnt j - start.pos.jnt j) / c.des.time := by
  simp only [PCtx.store, Robot.differentiate, if_neg (show ¬ 6 + j < 6 by omega), Nat.add_sub_cancel_left]

/-- C117 fails when there is no successful trajectory iteration: the posture does not change between the two time steps, but
the velocity stored at the second is that of the first. The posture solver returns feasible, optimal (zero cost) steps. -/
theorem C117_violated : ∃ (st : Setting) (rb : Robot) (des0 : Ref) (ref : Nat → Ref) (psolver : Nat → Nat → PCtx → Option (Nat → ℝ))
    (tsolver : Nat → TCtx → Option (Nat → ℝ)) (seq : Nat → KState), st.Prefix ∧
    (∀ t k c x, psolver t k c = some x → PostureStep c x ∧ moveCost c x + momCost c x = 0) ∧
    ((optimize st rb des0 ref true psolver tsolver seq).seq 1).pos.jnt 0 = ((optimize st rb des0 ref true psolver tsolver seq).seq 0).pos.jnt 0 ∧
    ((optimize st rb des0 ref true psolver tsolver seq).seq 1).vel 6 = 1 ∧
    ¬ Consistent ⟨st, rb, des0.lmom, des0.amom, (optimize st rb des0 ref true psolver tsolver seq).ini, ref⟩
      (optimize st rb des0 ref true psolver tsolver seq).seq := by
  classical
  let ps : Nat → Nat → PCtx → Option (Nat → ℝ) := fun _ _ c =>
    if PostureStep c (pullStep 0) ∧ moveCost c (pullStep 0) + momCost c (pullStep 0) = 0 then some (pullStep 0) else none
  have hmax : 0 < stayset.maxConv := by show 0 < 3; omega
  have htol : stayset.tol = 1 / 2 := rfl
  -- the initial posture
  have h0 : postLoop stayset slider (stayRef 0) (startState stayset) (ps 0) stayset.maxConv none 0 (startState stayset) =
      ⟨slider.update (startState stayset), 0⟩ := posture_conv _ _ _ _ _ hmax (by
    rw [stay_error, htol]; show |(0 : ℝ) - 0| < 1 / 2; norm_num)
  let s0 : KState := (optimizePosture stayset slider (stayRef 0) (ps 0) true (startState stayset)).s
  have s0p : s0.pos.jnt 0 = 0 := by
    show (postLoop stayset slider (stayRef 0) (startState stayset) (ps 0) stayset.maxConv none 0 (startState stayset)).s.pos.jnt 0 = 0
    rw [h0]; rfl
  -- the first time step
  let c1 : PCtx := ⟨stayset, slider.jac s0, slider.update s0, stayRef 1⟩
  let s1 : KState := c1.store slider s0 (pullStep 0)
  have s1p : s1.pos.jnt 0 = 1 := by
    rw [pstore_jnt, if_pos (show 6 + 0 < stayset.next from Nat.lt_succ_self 6), (stay_cols s0 _).1, (pull_vals 0).1 (6 + 0) (by omega)]
    show s0.pos.jnt 0 + _ * (1 : ℝ) = 1
    rw [s0p]; norm_num
  have s1v : s1.vel 6 = 1 := by
    rw [pstore_vel c1 slider s0 (pullStep 0) 0, show (c1.store slider s0 (pullStep 0)).pos.jnt 0 = 1 from s1p, s0p]
    show ((1 : ℝ) - 0) / 1 = 1
    norm_num
  have h1 : (optimizePosture stayset slider (stayRef 1) (ps 1) false s0).s = slider.update s1 := by
    show (postLoop stayset slider (stayRef 1) s0 (ps 1) (2 + 1) none 0 s0).s = _
    rcases postLoop_succ stayset slider (stayRef 1) s0 (ps 1) 2 none 0 s0 with ⟨h, _⟩ | ⟨_, ⟨x, hx, h⟩ | ⟨hx, _⟩⟩
    · exfalso
      rcases h with h | ⟨p, h, _⟩
      · rw [stay_error, s0p, htol] at h; norm_num at h
      · cases h
    · have : x = pullStep 0 := by
        have e : ps 1 0 ⟨stayset, slider.jac s0, slider.update s0, stayRef 1⟩ = some (pullStep 0) := if_pos (stay_step s0 s0p)
        rw [e] at hx; exact (Option.some.inj hx).symm
      subst this
      rw [h]
      rcases postLoop_succ stayset slider (stayRef 1) s0 (ps 1) 1 (some (trackingError stayset slider (stayRef 1) s0)) (0 + 1) s1 with ⟨_, h'⟩ | ⟨h', _⟩
      · exact congrArg PostRes.s h'
      · exfalso
        refine h'.1 ?_
        rw [stay_error, s1p, htol]; norm_num
    · exfalso
      rw [show ps 1 0 ⟨stayset, slider.jac s0, slider.update s0, stayRef 1⟩ = some (pullStep 0) from if_pos (stay_step s0 s0p)] at hx
      cases hx
  -- the second time step
  have h2 : (optimizePosture stayset slider (stayRef 1) (ps 2) false (slider.update s1)).s = slider.update (slider.update s1) := by
    show (postLoop stayset slider (stayRef 1) (slider.update s1) (ps 2) stayset.maxConv none 0 (slider.update s1)).s = _
    rw [posture_conv _ _ _ _ _ hmax]
    rw [stay_error, htol]
    show |(1 : ℝ) - s1.pos.jnt 0| < 1 / 2
    rw [s1p]; norm_num
  let o := optimize stayset slider (stayRef 0) (fun _ => stayRef 1) true ps (fun _ _ => none) (fun _ => KState.zero)
  have e1 : o.seq 1 = slider.update (slider.update s1) := by
    have : o.seq 1 = (optimizePosture stayset slider (stayRef 1) (ps 2) false (optimizePosture stayset slider (stayRef 1) (ps 1) false s0).s).s := rfl
    rw [this, h1, h2]
  have e0 : o.seq 0 = slider.update s1 := by
    have : o.seq 0 = (optimizePosture stayset slider (stayRef 1) (ps 1) false s0).s := rfl
    rw [this, h1]
  refine ⟨stayset, slider, stayRef 0, fun _ => stayRef 1, ps, fun _ _ => none, fun _ => KState.zero, ?_, ?_, ?_, ?_, ?_⟩
  · intro d hd
    have : d < 1 := hd
    show 0 = d; omega
  · intro t k c x h
    by_cases hc : PostureStep c (pullStep 0) ∧ moveCost c (pullStep 0) + momCost c (pullStep 0) = 0
    · simp only [ps, if_pos hc, Option.some.injEq] at h; subst h; exact hc
    · simp only [ps, if_neg hc] at h; cases h
  · show (o.seq 1).pos.jnt 0 = (o.seq 0).pos.jnt 0
    rw [e1, e0]; rfl
  · show (o.seq 1).vel 6 = 1
    rw [e1]; exact s1v
  · intro hc
    have h := hc.vel 1 (show 1 < 2 by omega) 0
    have a : (o.seq 1).vel (6 + 0) = 1 := by rw [e1]; exact s1v
    have b : (o.seq 1).pos.jnt 0 - (before o.ini o.seq 1).pos.jnt 0 = 0 := by
      have : before o.ini o.seq 1 = o.seq 0 := rfl
      rw [this, e1, e0]; exact sub_self _
    have h' : (o.seq 1).vel (6 + 0) = ((o.seq 1).pos.jnt 0 - (before o.ini o.seq 1).pos.jnt 0) / 1 := h
    rw [a, b] at h'
    norm_num at h'

end Kin
end Verif
