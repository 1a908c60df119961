import Verif.KinOptProps
import Mathlib.Tactic.IntervalCases

/-! C111, C112: what the trajectory optimisation returns. -/
namespace Verif
namespace Kin
open LinExpr Finset

/-! ### storing a solution -/

/-- The state stored at `t`, given the state stored before it. -/
noncomputable def stored (c : TCtx) (x : Nat → ℝ) (prev : KState) (t : Nat) : KState :=
  let s1 : KState := { c.seq t with vel := fun i => if i < c.st.next then x (tcol c.st (tQd c.st) i t) else (c.seq t).vel i }
  let s3 := c.rb.differentiate prev (c.rb.integrate s1 c.st.kdt) (c.ref t).time
  { s3 with acc := fun i => if i < c.st.next then x (tcol c.st (tTqdd c.st) i t) else s3.acc i }

theorem store_upto (c : TCtx) (x : Nat → ℝ) (n : Nat) (t : Nat) :
    ((List.range n).foldl (c.storeAt x) c.seq) t =
      if t < n then stored c x (if t = 0 then c.ini else ((List.range n).foldl (c.storeAt x) c.seq) (t - 1)) t else c.seq t := by
  induction n generalizing t with
  | zero => simp
  | succ n ih =>
    rw [List.range_succ, List.foldl_append, List.foldl_cons, List.foldl_nil]
    have hn := ih n
    rw [if_neg (by omega)] at hn
    have hoff : ∀ t, t ≠ n → c.storeAt x ((List.range n).foldl (c.storeAt x) c.seq) n t = (List.range n).foldl (c.storeAt x) c.seq t :=
      fun t h => Function.update_of_ne h _ _
    by_cases h : t = n
    · subst h
      rw [if_pos (by omega)]
      by_cases h0 : t = 0
      · rw [if_pos h0, TCtx.storeAt, Function.update_self, stored, hn, if_pos h0]
      · rw [if_neg h0, hoff (t - 1) (by omega), TCtx.storeAt, Function.update_self, stored, hn, if_neg h0]
    · rw [hoff t h, ih t]
      by_cases h1 : t < n
      · rw [if_pos h1, if_pos (show t < n + 1 by omega)]
        by_cases h0 : t = 0
        · rw [if_pos h0, if_pos h0]
        · rw [if_neg h0, if_neg h0, hoff (t - 1) (by omega)]
      · rw [if_neg h1, if_neg (by omega)]

/-- The stored sequence, step by step. -/
theorem store_eq (c : TCtx) (x : Nat → ℝ) (t : Nat) (ht : t < c.st.T) :
    c.store x t = stored c x (if t = 0 then c.ini else c.store x (t - 1)) t := by
  have := store_upto c x c.st.T t
  rw [if_pos ht] at this
  exact this

theorem store_jnt (c : TCtx) (x : Nat → ℝ) (t : Nat) (ht : t < c.st.T) (j : Nat) : (c.store x t).pos.jnt j =
    (c.seq t).pos.jnt j + (if j < c.st.nact then qQd c.st x t (6 + j) else (c.seq t).vel (6 + j)) * c.st.kdt := by
  rw [store_eq c x t ht]
  simp only [stored, Robot.differentiate, Robot.integrate, Setting.next, Nat.add_lt_add_iff_left, qQd]

/-! ### specification -/

/-- The state before time step `t`: the initial state, or the state of the previous time step. -/
def before (ini : KState) (seq : Nat → KState) (t : Nat) : KState := if t = 0 then ini else seq (t - 1)

/-- What a user expects of the returned motion: the active joints are within their limits, the velocities are the
differences of consecutive postures over the duration of the step, and the accelerations of the active joints are those
of the velocities, from rest. -/
structure Consistent (i : TIn) (seq : Nat → KState) : Prop where
  limits : ∀ t < i.st.T, ∀ j, (∃ d < i.st.nact, i.st.active d = j) →
    i.st.minJ j ≤ (seq t).pos.jnt j ∧ (seq t).pos.jnt j ≤ i.st.maxJ j
  baseVel : ∀ t < i.st.T, ∀ k < 6, (seq t).vel k = i.rb.baseDiff (before i.ini seq t).pos (seq t).pos k / (i.ref t).time
  vel : ∀ t < i.st.T, ∀ j, (seq t).vel (6 + j) = ((seq t).pos.jnt j - (before i.ini seq t).pos.jnt j) / (i.ref t).time
  acc : ∀ t < i.st.T, ∀ j, (∃ d < i.st.nact, i.st.active d = j) →
    (seq t).acc (6 + j) = ((seq t).vel (6 + j) - if t = 0 then 0 else (seq (t - 1)).vel (6 + j)) / (i.ref t).time

/-- The velocities are differences of the stored postures whatever the solver returns. -/
theorem store_vel (c : TCtx) (x : Nat → ℝ) (t : Nat) (ht : t < c.st.T) (k : Nat) : (c.store x t).vel k =
    (if k < 6 then c.rb.baseDiff (before c.ini (c.store x) t).pos (c.store x t).pos k else
      (c.store x t).pos.jnt (k - 6) - (before c.ini (c.store x) t).pos.jnt (k - 6)) / (c.ref t).time := by
  have e := store_eq c x t ht
  have hp : (c.store x t).pos = (c.rb.integrate { c.seq t with
      vel := fun i => if i < c.st.next then x (tcol c.st (tQd c.st) i t) else (c.seq t).vel i } c.st.kdt).pos := by rw [e]; rfl
  rw [hp, e]; rfl

theorem store_acc (c : TCtx) (x : Nat → ℝ) (t : Nat) (ht : t < c.st.T) (k : Nat) (hk : k < c.st.next) :
    (c.store x t).acc k = qTqdd c.st x t k := by
  rw [store_eq c x t ht]; simp only [stored, if_pos hk]; rfl

/-- The active joints are the first ones. -/
def Setting.Prefix (st : Setting) : Prop := ∀ d < st.nact, st.active d = d

/-- One successful iteration, with the first joints active. -/
theorem store_consistent (i : TIn) (seq : Nat → KState) (x : Nat → ℝ) (hp : i.st.Prefix) (h : Plan (i.ctx seq) x) :
    Consistent i ((i.ctx seq).store x) := by
  have hq : ∀ t < i.st.T, ∀ d < i.st.nact, ((i.ctx seq).store x t).pos.jnt d = qQ i.st x t (6 + d) := by
    intro t ht d hd
    rw [store_jnt _ _ _ ht, if_pos (show d < (i.ctx seq).st.nact from hd)]
    have := h.posture t ht (6 + d) (by simp only [TIn.ctx]; omega)
    simp only [coord, TIn.ctx, if_neg (show ¬ 6 + d < 3 by omega), if_neg (show ¬ 6 + d < 6 by omega), Nat.add_sub_cancel_left,
      hp d hd] at this
    rw [this]; simp only [TIn.ctx]; ring
  have hv : ∀ t < i.st.T, ∀ j, ((i.ctx seq).store x t).vel (6 + j) =
      (((i.ctx seq).store x t).pos.jnt j - (before i.ini ((i.ctx seq).store x) t).pos.jnt j) / (i.ref t).time := by
    intro t ht j
    rw [store_vel _ _ _ ht, if_neg (by omega), Nat.add_sub_cancel_left]; rfl
  have hqd : ∀ t < i.st.T, ∀ d < i.st.nact, ((i.ctx seq).store x t).vel (6 + d) = qTqd i.st x t (6 + d) := by
    intro t ht d hd
    have := h.velocity t ht (6 + d) (by simp only [TIn.ctx]; omega)
    rw [hv t ht, hq t ht d hd]
    rw [show qTqd i.st x t (6 + d) = _ from this]
    congr 2
    unfold before
    by_cases h0 : t = 0
    · simp only [h0, if_true, coord, TIn.ctx, if_neg (show ¬ 6 + d < 3 by omega), if_neg (show ¬ 6 + d < 6 by omega),
        Nat.add_sub_cancel_left, hp d hd]
    · rw [if_neg h0, if_neg h0, hq (t - 1) (by omega) d hd]; rfl
  refine ⟨?_, ?_, hv, ?_⟩
  · rintro t ht j ⟨d, hd, rfl⟩
    rw [hp d hd, hq t ht d hd]
    have := h.limits t ht d hd
    simp only [TIn.ctx, hp d hd] at this
    exact this
  · intro t ht k hk
    rw [store_vel _ _ _ ht, if_pos hk]; rfl
  · rintro t ht j ⟨d, hd, rfl⟩
    rw [hp d hd, store_acc _ _ _ ht _ (by simp only [Setting.next, TIn.ctx]; omega), hqd t ht d hd,
      show qTqdd (i.ctx seq).st x t (6 + d) = _ from h.accel t ht (6 + d) (by simp only [TIn.ctx]; omega)]
    by_cases h0 : t = 0
    · simp only [h0, if_true]; rfl
    · simp only [if_neg h0]; rw [hqd (t - 1) (by omega) d hd]; rfl

/-- C111, for active joints that are the first ones: if every call of the solver throws or returns a feasible plan, the
returned motion is the one passed in (every call threw) or is consistent. -/
theorem C111_returned_partial (i : TIn) (solver : Nat → TCtx → Option (Nat → ℝ)) (seq : Nat → KState) (hp : i.st.Prefix)
    (hs : ∀ k seq x, solver k (i.ctx seq) = some x → Plan (i.ctx seq) x) :
    (optimizeTrajectory i solver i.st.maxTraj seq = seq ∧ (∀ k < i.st.maxTraj, solver k (i.ctx seq) = none)) ∨
      Consistent i (optimizeTrajectory i solver i.st.maxTraj seq) := by
  have pres : ∀ n seq, Consistent i seq → Consistent i (optimizeTrajectory i solver n seq) := by
    intro n
    induction n with
    | zero => intro seq h; exact h
    | succ n ih =>
      intro seq h
      simp only [optimizeTrajectory]
      split
      · next x hx => exact ih _ (store_consistent i seq x hp (hs _ _ _ hx))
      · exact ih _ h
  have main : ∀ n ≤ i.st.maxTraj, ∀ seq, (optimizeTrajectory i solver n seq = seq ∧
      (∀ k < i.st.maxTraj, i.st.maxTraj - n ≤ k → solver k (i.ctx seq) = none)) ∨
      Consistent i (optimizeTrajectory i solver n seq) := by
    intro n
    induction n with
    | zero => intro _ seq; exact Or.inl ⟨rfl, fun k h1 h2 => by omega⟩
    | succ n ih =>
      intro hn seq
      simp only [optimizeTrajectory]
      split
      · next x hx => exact Or.inr (pres n _ (store_consistent i seq x hp (hs _ _ _ hx)))
      · next hx =>
        rcases ih (by omega) seq with ⟨h1, h2⟩ | h
        · refine Or.inl ⟨h1, fun k hk hk' => ?_⟩
          by_cases e : k = i.st.maxTraj - (n + 1)
          · rw [e]; exact hx
          · exact h2 k hk (by omega)
        · exact Or.inr h
  rcases main _ le_rfl seq with ⟨h1, h2⟩ | h
  · exact Or.inl ⟨h1, fun k hk => h2 k hk (by omega)⟩
  · exact Or.inr h

/-! ### a small robot, for examples -/

/-- A robot whose center of mass is at the position of joint 0 along the first axis, without end-effectors and momentum. -/
def slider : Robot :=
  ⟨fun s a => if a = 0 then s.pos.jnt 0 else 0, fun _ _ => 0, fun _ _ => 0, fun _ _ _ => 0,
    fun _ => ⟨fun a k => if a = 0 ∧ k = 6 then 1 else 0, fun _ _ => 0, fun _ _ => 0, fun _ _ _ => 0, 0, fun _ => 0, fun _ _ => 0⟩,
    fun p _ => (p.base, p.ori), fun _ _ _ => 0, fun _ _ => 0⟩

/-- One time step, one active joint (number `j`) with limits 1 and 2, weight 1 on the center of mass, no other weights. -/
noncomputable def slideSet (j : Nat) : Setting :=
  ⟨1, 1, 0, fun _ => j, 1, 1 / 2, 3, 1, 0, fun _ => 0, fun _ => 1, fun _ => 2, fun _ => 1, fun _ => 0, fun _ => 0, fun _ => 0, fun _ => 0, fun _ => 0,
    fun _ => 0, fun _ => 0, fun _ => 0, fun _ => 0, 0, 0, 1⟩

/-- The reference: center of mass at `1` along the first axis after one second. -/
def slideRef : Ref := ⟨1, fun a => if a = 0 then 1 else 0, fun _ => 0, fun _ => 0, fun _ => false, fun _ _ => 0⟩

/-- The inputs. -/
noncomputable def slideIn (j : Nat) : TIn := ⟨slideSet j, slider, fun _ => 0, fun _ => 0, KState.zero, fun _ => slideRef⟩

/-- The assignment of the decision variables with given entries (block, row, time step). -/
noncomputable def fromBlocks (st : Setting) (val : Nat → Nat → Nat → ℝ) (k : Nat) : ℝ :=
  open Classical in
  if h : ∃ p : Nat × Nat × Nat, p.1 < 7 + 2 * st.neff ∧ (p.2.1 < if p.1 < 3 + 2 * st.neff then 3 else st.next) ∧ p.2.2 < st.T ∧
    tcol st (blk (trajLayout st) p.1) p.2.1 p.2.2 = k then val h.choose.1 h.choose.2.1 h.choose.2.2 else 0

theorem fromBlocks_eq (st : Setting) (val : Nat → Nat → Nat → ℝ) (i r t : Nat) (hi : i < 7 + 2 * st.neff)
    (hr : r < if i < 3 + 2 * st.neff then 3 else st.next) (ht : t < st.T) :
    fromBlocks st val (tcol st (blk (trajLayout st) i) r t) = val i r t := by
  have h : ∃ p : Nat × Nat × Nat, p.1 < 7 + 2 * st.neff ∧ (p.2.1 < if p.1 < 3 + 2 * st.neff then 3 else st.next) ∧ p.2.2 < st.T ∧
    tcol st (blk (trajLayout st) p.1) p.2.1 p.2.2 = tcol st (blk (trajLayout st) i) r t := ⟨(i, r, t), hi, hr, ht, rfl⟩
  rw [fromBlocks, dif_pos h]
  obtain ⟨h1, h2, h3, h4⟩ := h.choose_spec
  obtain ⟨e1, e2, e3⟩ := tcol_inj st _ i _ _ r t h1 hi h2 hr h3 ht h4
  rw [e1, e2, e3]

/-- The entries of the plan (block, row, time step). -/
def slideVal (j i r _t : Nat) : ℝ := if i = 0 then (if j = 0 ∧ r = 0 then 1 else 0) else if i < 3 then 0 else if r = 6 then 1 else 0

/-- The plan: the active joint moves by one; the center of mass moves with joint 0. -/
noncomputable def slidePlan (j : Nat) : Nat → ℝ :=
  fromBlocks (slideSet j) (slideVal j)


/-- The entries of the plan. -/
theorem slide_vals (j : Nat) :
    (∀ d < 7, qQ (slideSet j) (slidePlan j) 0 d = if d = 6 then 1 else 0) ∧
    (∀ d < 7, qQd (slideSet j) (slidePlan j) 0 d = if d = 6 then 1 else 0) ∧
    (∀ d < 7, qTqd (slideSet j) (slidePlan j) 0 d = if d = 6 then 1 else 0) ∧
    (∀ d < 7, qTqdd (slideSet j) (slidePlan j) 0 d = if d = 6 then 1 else 0) ∧
    (∀ a < 3, qCom (slideSet j) (slidePlan j) 0 a = if j = 0 ∧ a = 0 then 1 else 0) ∧
    (∀ a < 3, qL (slideSet j) (slidePlan j) 0 a = 0) ∧ (∀ a < 3, qH (slideSet j) (slidePlan j) 0 a = 0) :=
  ⟨fun d hd => fromBlocks_eq (slideSet j) (slideVal j) 3 d 0 (show 3 < 7 by omega) hd Nat.zero_lt_one,
   fun d hd => fromBlocks_eq (slideSet j) (slideVal j) 4 d 0 (show 4 < 7 by omega) hd Nat.zero_lt_one,
   fun d hd => fromBlocks_eq (slideSet j) (slideVal j) 5 d 0 (show 5 < 7 by omega) hd Nat.zero_lt_one,
   fun d hd => fromBlocks_eq (slideSet j) (slideVal j) 6 d 0 (show 6 < 7 by omega) hd Nat.zero_lt_one,
   fun d hd => fromBlocks_eq (slideSet j) (slideVal j) 0 d 0 (show 0 < 7 by omega) hd Nat.zero_lt_one,
   fun d hd => fromBlocks_eq (slideSet j) (slideVal j) 1 d 0 (show 1 < 7 by omega) hd Nat.zero_lt_one,
   fun d hd => fromBlocks_eq (slideSet j) (slideVal j) 2 d 0 (show 2 < 7 by omega) hd Nat.zero_lt_one⟩

theorem slide_plan (j : Nat) (hj : j < 2) : Plan ((slideIn j).ctx fun _ => KState.zero) (slidePlan j) := by
  obtain ⟨hQ, hQd, hT, hTd, hC, hL, hH⟩ := slide_vals j
  have T0 : ∀ t, t < ((slideIn j).ctx fun _ => KState.zero).st.T → t = 0 := by
    intro t ht; simp only [TIn.ctx, slideIn, slideSet] at ht; omega
  constructor
  · intro t ht a ha
    obtain rfl := T0 t ht
    refine (hC a ha).trans ?_
    have : ∑ d ∈ range (6 + 1), (slider.jac KState.zero).com a ((slideSet j).ext d) * qQd (slideSet j) (slidePlan j) 0 d =
        if j = 0 ∧ a = 0 then 1 else 0 := by
      rw [sum_eq_single 6]
      · rw [hQd 6 (by omega), if_pos rfl, mul_one]
        simp only [slider, slideSet, Setting.ext, if_neg (show ¬ 6 < 6 by omega)]
        congr 1; simp only [eq_iff_iff]; omega
      · intro d hd hne; rw [hQd d (by simpa using hd), if_neg hne, mul_zero]
      · intro h; simp at h
    show _ = slider.com KState.zero a + 1 * ∑ d ∈ range (6 + 1), (slider.jac KState.zero).com a ((slideSet j).ext d) * qQd (slideSet j) (slidePlan j) 0 d
    rw [this]; simp [slider, KState.zero]
  · intro t ht a ha
    obtain rfl := T0 t ht
    refine (hL a ha).trans (sum_eq_zero fun d _ => ?_).symm
    show (0 : ℝ) * _ = 0; rw [zero_mul]
  · intro t ht a ha
    obtain rfl := T0 t ht
    refine (hH a ha).trans (sum_eq_zero fun d _ => ?_).symm
    show (0 : ℝ) * _ = 0; rw [zero_mul]
  · intro t _ e he; exact absurd he (Nat.not_lt_zero e)
  · intro t _ e he; exact absurd he (Nat.not_lt_zero e)
  · intro t _ e he; exact absurd he (Nat.not_lt_zero e)
  · intro t ht d hd
    obtain rfl := T0 t ht
    refine (hQ d hd).trans ?_
    show _ = coord (slideSet j) slider KState.zero d + 1 * qQd (slideSet j) (slidePlan j) 0 d
    rw [hQd d hd]; simp [coord, KState.zero, slider]
  · intro t ht d hd
    obtain rfl := T0 t ht
    refine (hT d hd).trans ?_
    show _ = (qQ (slideSet j) (slidePlan j) 0 d - if 0 = 0 then coord (slideSet j) slider KState.zero d else _) / 1
    rw [hQ d hd]; simp [coord, KState.zero, slider]
  · intro t ht d hd
    obtain rfl := T0 t ht
    refine (hTd d hd).trans ?_
    show _ = (qTqd (slideSet j) (slidePlan j) 0 d - if 0 = 0 then 0 else _) / 1
    rw [hT d hd]; simp
  · intro t ht d hd
    obtain rfl := T0 t ht
    have hd' : d < 1 := hd
    have : qQ ((slideIn j).ctx fun _ => KState.zero).st (slidePlan j) 0 (6 + d) = 1 := by
      refine (hQ (6 + d) (by omega)).trans ?_; rw [if_pos (by omega)]
    rw [this]
    show (1 : ℝ) ≤ 1 ∧ (1 : ℝ) ≤ 2
    norm_num

/-- The hypotheses of `C111_returned_partial` are met by a solver that returns that plan for the first iteration. -/
example : (slideIn 0).st.Prefix ∧ (slideIn 0).st.maxTraj = 1 ∧
    ∃ solver : Nat → TCtx → Option (Nat → ℝ), (∀ k seq x, solver k ((slideIn 0).ctx seq) = some x → Plan ((slideIn 0).ctx seq) x) ∧
      solver 0 ((slideIn 0).ctx fun _ => KState.zero) = some (slidePlan 0) := by
  classical
  refine ⟨?_, rfl, fun _ c => if c.seq = fun _ => KState.zero then some (slidePlan 0) else none, ?_, ?_⟩
  · intro d hd
    have : d < 1 := hd
    show 0 = d; omega
  · intro k seq x h
    by_cases hs : seq = fun _ => KState.zero
    · subst hs; simp only [TIn.ctx, if_true, Option.some.injEq] at h; subst h; exact slide_plan 0 (by omega)
    · beta_reduce at h
      rw [if_neg (show ¬ ((slideIn 0).ctx seq).seq = fun _ => KState.zero from hs)] at h; cases h
  · simp [TIn.ctx]

/-- C111 fails when the active joints are not the first ones: with joint 1 active, the optimiser plans to bring joint 1
within its limits, but the displacement is applied to joint 0, and joint 1 stays outside its limits. -/
theorem C111_violated : ∃ (i : TIn) (solver : Nat → TCtx → Option (Nat → ℝ)) (seq : Nat → KState) (x : Nat → ℝ),
    i.st.maxTraj = 1 ∧ solver 0 (i.ctx seq) = some x ∧ Plan (i.ctx seq) x ∧ qQ i.st x 0 6 = 1 ∧
    i.st.active 0 = 1 ∧ i.st.minJ 1 = 1 ∧
    (optimizeTrajectory i solver i.st.maxTraj seq 0).pos.jnt 1 = 0 ∧
    (optimizeTrajectory i solver i.st.maxTraj seq 0).pos.jnt 0 = 1 ∧
    ¬ Consistent i (optimizeTrajectory i solver i.st.maxTraj seq) := by
  have key : optimizeTrajectory (slideIn 1) (fun _ _ => some (slidePlan 1)) 1 (fun _ => KState.zero) =
      ((slideIn 1).ctx fun _ => KState.zero).store (slidePlan 1) := rfl
  have hqd : qQd (slideSet 1) (slidePlan 1) 0 6 = 1 := by rw [(slide_vals 1).2.1 6 (by omega)]; rfl
  have h1 : (((slideIn 1).ctx fun _ => KState.zero).store (slidePlan 1) 0).pos.jnt 1 = 0 := by
    rw [store_jnt _ _ _ Nat.zero_lt_one, if_neg (show ¬ 1 < ((slideIn 1).ctx fun _ => KState.zero).st.nact from Nat.lt_irrefl 1)]
    simp [TIn.ctx, KState.zero]
  have h0 : (((slideIn 1).ctx fun _ => KState.zero).store (slidePlan 1) 0).pos.jnt 0 = 1 := by
    rw [store_jnt _ _ _ Nat.zero_lt_one, if_pos (show 0 < ((slideIn 1).ctx fun _ => KState.zero).st.nact from Nat.zero_lt_one)]
    show KState.zero.pos.jnt 0 + qQd (slideSet 1) (slidePlan 1) 0 6 * 1 = 1
    rw [hqd]; simp [KState.zero]
  refine ⟨slideIn 1, fun _ _ => some (slidePlan 1), fun _ => KState.zero, slidePlan 1, rfl, rfl, slide_plan 1 (by omega), ?_, rfl, rfl, ?_, ?_, ?_⟩
  · exact ((slide_vals 1).1 6 (by omega)).trans (if_pos rfl)
  · exact h1
  · exact h0
  · intro hc
    have := (hc.limits 0 Nat.zero_lt_one 1 ⟨0, Nat.zero_lt_one, rfl⟩).1
    rw [show optimizeTrajectory (slideIn 1) (fun _ _ => some (slidePlan 1)) (slideIn 1).st.maxTraj (fun _ => KState.zero) 0 = _ from congrFun key 0, h1] at this
    have h2 : (slideIn 1).st.minJ 1 = 1 := rfl
    rw [h2] at this
    norm_num at this

/-! ### C112: joints that are not active -/

/-- Joint `j` is at `q` and has no velocity. -/
def AtRest (j : Nat) (q : ℝ) (s : KState) : Prop := s.pos.jnt j = q ∧ s.vel (6 + j) = 0

theorem atRest_store (c : TCtx) (x : Nat → ℝ) (j : Nat) (q : ℝ) (hj : c.st.nact ≤ j) (hi : AtRest j q c.ini)
    (hs : ∀ t < c.st.T, AtRest j q (c.seq t)) : ∀ t < c.st.T, AtRest j q (c.store x t) := by
  have h1 : ∀ t < c.st.T, (c.store x t).pos.jnt j = q := fun t ht => by
    rw [store_jnt c x t ht, if_neg (by omega), (hs t ht).1, (hs t ht).2]; ring
  intro t ht
  refine ⟨h1 t ht, ?_⟩
  rw [store_vel c x t ht, if_neg (by omega), Nat.add_sub_cancel_left, h1 t ht]
  have : (before c.ini (c.store x) t).pos.jnt j = q := by
    unfold before
    by_cases h0 : t = 0
    · rw [if_pos h0]; exact hi.1
    · rw [if_neg h0]; exact h1 _ (by omega)
  rw [this, sub_self, zero_div]

theorem atRest_traj (i : TIn) (solver : Nat → TCtx → Option (Nat → ℝ)) (j : Nat) (q : ℝ) (hj : i.st.nact ≤ j) (hi : AtRest j q i.ini)
    (n : Nat) (seq : Nat → KState) (hs : ∀ t < i.st.T, AtRest j q (seq t)) :
    ∀ t < i.st.T, AtRest j q (optimizeTrajectory i solver n seq t) := by
  induction n generalizing seq with
  | zero => exact hs
  | succ n ih =>
    simp only [optimizeTrajectory]
    cases solver (i.st.maxTraj - (n + 1)) (i.ctx seq) with
    | some x => exact ih _ (atRest_store (i.ctx seq) _ j q hj hi hs)
    | none => exact ih _ hs

theorem atRest_postLoop (st : Setting) (rb : Robot) (des : Ref) (start : KState) (solver : Nat → PCtx → Option (Nat → ℝ)) (j : Nat) (q : ℝ)
    (hj : st.nact ≤ j) (h0 : AtRest j q start) (n : Nat) (prev : Option ℝ) (k : Nat) (s : KState) (hs : AtRest j q s) :
    AtRest j q (postLoop st rb des start solver n prev k s).s := by
  induction n generalizing prev k s with
  | zero => exact hs
  | succ n ih =>
    unfold postLoop
    simp only
    split_ifs
    · exact hs
    · split
      · next x _ =>
        refine ih _ _ _ ?_
        let c : PCtx := ⟨st, rb.jac s, rb.update s, des⟩
        have hp : (rb.integrate { rb.update s with vel := fun i => if i < st.next then x (c.cQd i) else (rb.update s).vel i } st.kdt).pos.jnt j = q := by
          have hz : (if 6 + j < st.next then x (c.cQd (6 + j)) else (rb.update s).vel (6 + j)) = 0 := by
            rw [if_neg (show ¬ 6 + j < st.next by simp only [Setting.next]; omega)]; exact hs.2
          show s.pos.jnt j + (if 6 + j < st.next then x (c.cQd (6 + j)) else (rb.update s).vel (6 + j)) * st.kdt = q
          rw [hz, hs.1]; ring
        refine ⟨hp, ?_⟩
        simp only [PCtx.store, Robot.differentiate]
        rw [if_neg (show ¬ 6 + j < 6 by omega), Nat.add_sub_cancel_left, hp, h0.1, sub_self, zero_div]
      · exact ih _ _ _ hs

theorem atRest_posture (st : Setting) (rb : Robot) (des : Ref) (solver : Nat → PCtx → Option (Nat → ℝ)) (b : Bool) (j : Nat) (q : ℝ)
    (hj : st.nact ≤ j) (s : KState) (hs : AtRest j q s) : AtRest j q (optimizePosture st rb des solver b s).s := by
  have h := atRest_postLoop st rb des s solver j q hj hs st.maxConv none 0 s hs
  unfold optimizePosture
  cases b
  · exact h
  · exact ⟨h.1, rfl⟩

theorem atRest_sweep (st : Setting) (rb : Robot) (ref : Nat → Ref) (solver : Nat → Nat → PCtx → Option (Nat → ℝ)) (j : Nat) (q : ℝ)
    (hj : st.nact ≤ j) (n : Nat) (hn : n ≤ st.T) (a : KState × (Nat → KState) × Nat) (ha : AtRest j q a.1)
    (hs : ∀ t < st.T - n, AtRest j q (a.2.1 t)) :
    ∀ t < st.T, AtRest j q ((postSweep st rb ref solver n a).2.1 t) := by
  induction n generalizing a with
  | zero => exact hs
  | succ n ih =>
    unfold postSweep
    have h1 := atRest_posture st rb (ref (st.T - (n + 1))) (solver (st.T - (n + 1) + 1)) false j q hj a.1 ha
    refine ih (by omega) _ h1 ?_
    intro t ht
    by_cases e : t = st.T - (n + 1)
    · simp only [e, Function.update_self]; exact h1
    · simp only [Function.update_of_ne e]; exact hs t (by omega)

/-- C112, for active joints that are the first ones: joints that are not active are at their default position in every
state of the first kinematic optimisation, whatever the solver returns. -/
theorem C112_inactive_partial (st : Setting) (rb : Robot) (des0 : Ref) (ref : Nat → Ref)
    (psolver : Nat → Nat → PCtx → Option (Nat → ℝ)) (tsolver : Nat → TCtx → Option (Nat → ℝ)) (seq : Nat → KState)
    (hp : st.Prefix) (j : Nat) (hj : ∀ d < st.nact, st.active d ≠ j) :
    (optimize st rb des0 ref true psolver tsolver seq).ini.pos.jnt j = st.defJnt j ∧
    ∀ t < st.T, ((optimize st rb des0 ref true psolver tsolver seq).seq t).pos.jnt j = st.defJnt j := by
  have hj' : st.nact ≤ j := by
    by_contra h
    exact hj j (by omega) (hp j (by omega))
  have h0 : AtRest j (st.defJnt j) (optimizePosture st rb des0 (psolver 0) true (startState st)).s :=
    atRest_posture st rb des0 (psolver 0) true j _ hj' _ ⟨rfl, rfl⟩
  refine ⟨h0.1, fun t ht => ?_⟩
  refine (atRest_traj _ tsolver j (st.defJnt j) hj' h0 st.maxTraj _ ?_ t ht).1
  simp only [if_true]
  exact atRest_sweep st rb ref psolver j _ hj' st.T le_rfl _ h0 fun t ht => by omega

/-- With a joint above the active ones: joint 1 of the example robot with joint 0 active. -/
example : (slideSet 0).Prefix ∧ ∀ d < (slideSet 0).nact, (slideSet 0).active d ≠ 1 := by
  refine ⟨fun d hd => ?_, fun d hd => ?_⟩
  · have : d < 1 := hd
    show 0 = d; omega
  · show (0 : Nat) ≠ 1; omega

/-- C112 fails when the active joints are not the first ones: joint 0, which is not active, is moved. -/
theorem C112_violated : ∃ (i : TIn) (solver : Nat → TCtx → Option (Nat → ℝ)) (seq : Nat → KState) (x : Nat → ℝ),
    (∀ d < i.st.nact, i.st.active d ≠ 0) ∧ solver 0 (i.ctx seq) = some x ∧ Plan (i.ctx seq) x ∧ (seq 0).pos.jnt 0 = 0 ∧
    (optimizeTrajectory i solver i.st.maxTraj seq 0).pos.jnt 0 = 1 := by
  have hqd : qQd (slideSet 1) (slidePlan 1) 0 6 = 1 := by rw [(slide_vals 1).2.1 6 (by omega)]; rfl
  refine ⟨slideIn 1, fun _ _ => some (slidePlan 1), fun _ => KState.zero, slidePlan 1, fun d _ => Nat.one_ne_zero, rfl, slide_plan 1 (by omega), rfl, ?_⟩
  show (((slideIn 1).ctx fun _ => KState.zero).store (slidePlan 1) 0).pos.jnt 0 = 1
  rw [store_jnt _ _ _ Nat.zero_lt_one, if_pos (show 0 < ((slideIn 1).ctx fun _ => KState.zero).st.nact from Nat.zero_lt_one)]
  show KState.zero.pos.jnt 0 + qQd (slideSet 1) (slidePlan 1) 0 6 * 1 = 1
  rw [hqd]; simp [KState.zero]

end Kin
end Verif
