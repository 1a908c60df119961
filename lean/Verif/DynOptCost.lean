import Verif.DynOptProps

/-! C120: the objective of the dynamics optimiser. -/
namespace Verif
namespace Dyn
open LinExpr Kin Finset

/-! ### specification -/

/-- The time step a via-point belongs to: its time divided by the time step, rounded down, within the horizon. -/
noncomputable def viaStep (d : DCtx) (time : ℝ) : Nat := (min (max ⌊time / d.s.step⌋ 0) (d.s.T - 1)).toNat

/-- Force of an end-effector, zero without contact. -/
noncomputable def forceAt (d : DCtx) (x : Nat → ℝ) (t e a : Nat) : ℝ := if d.p.active t e then pF d.ctx x t e a else 0

/-- Cost at one time step along one axis: final position and momenta, resp. running momenta, tracking of the reference. -/
noncomputable def trackCost (d : DCtx) (x : Nat → ℝ) (t a : Nat) : ℝ :=
  (if t + 1 = d.s.T then d.s.wCom a * (pCom d.ctx x t a - (d.p.iniCom a + d.s.motion a)) ^ 2 +
      d.s.wLfin a * (pL d.ctx x t a - d.r.l t a) ^ 2 + d.s.wHfin a * (pH d.ctx x t a - d.r.h t a) ^ 2
    else d.s.wL a * (pL d.ctx x t a - d.r.l t a) ^ 2 + d.s.wH a * (pH d.ctx x t a - d.r.h t a) ^ 2) +
  d.wTrack a * (pCom d.ctx x t a - d.r.com t a) ^ 2

/-- Momentum rates: the rate variables with optimised timing, difference quotients with fixed timing. -/
noncomputable def rateCost (d : DCtx) (x : Nat → ℝ) (t a : Nat) : ℝ :=
  if d.s.heur = .timeOpt then d.s.wLd a * pLd d.ctx x t a ^ 2 + d.s.wHd a * pHd d.ctx x t a ^ 2
  else d.s.wLd a * ((pL d.ctx x t a - before d.p.iniL (pL d.ctx x) t a) / (d.seq t).time) ^ 2 +
    d.s.wHd a * ((pH d.ctx x t a - before d.p.iniH (pH d.ctx x) t a) / (d.seq t).time) ^ 2

/-- Forces and their changes to the next and from the previous time step, for every end-effector in contact at `t`: feet are
the end-effectors 0 and 1, hands 2 and 3. -/
noncomputable def forceCost (d : DCtx) (x : Nat → ℝ) (t a : Nat) : ℝ := sumActive d.ctx t fun e =>
  (if e < 2 then d.s.wLegF a else d.s.wArmF a) * pF d.ctx x t e a ^ 2 +
  (if e = 2 ∨ e = 3 then d.s.wArmFd a else d.s.wLegFd a) *
    ((if t + 1 = d.s.T then 0 else (forceAt d x (t + 1) e a - pF d.ctx x t e a) ^ 2) +
     (pF d.ctx x t e a - if t = 0 then d.p.iniF e a else forceAt d x (t - 1) e a) ^ 2)

/-- Torques. -/
noncomputable def torqueCost (d : DCtx) (x : Nat → ℝ) (t : Nat) : ℝ := sumActive d.ctx t fun e =>
  (if e < 2 then d.s.wLegT else d.s.wArmT) * pTrq d.ctx x t e ^ 2

/-- Duration of the time step. -/
noncomputable def timeCost (d : DCtx) (x : Nat → ℝ) (t : Nat) : ℝ :=
  if d.s.heur = .timeOpt then d.s.wTime * pDt d.ctx x t ^ 2 + d.s.wTimeReg * (pDt d.ctx x t - d.s.step) ^ 2 else 0

/-- Lever arm of the stored plan. -/
noncomputable def armPrev (d : DCtx) (t e a : Nat) : ℝ :=
  d.p.loc t e a + (d.p.rot t e a 0 * (d.seq t).cop e 0 + d.p.rot t e a 1 * (d.seq t).cop e 1) - (d.seq t).com a

/-- Penalty of the later time iterations: deviation of the bounds from the linearisation of the squares at the stored plan. -/
noncomputable def penalty (d : DCtx) (x : Nat → ℝ) : ℝ :=
  if d.s.heur = .timeOpt ∧ d.first = false then
    ∑ t ∈ range d.s.T, sumActive d.ctx t fun e => ∑ a ∈ range 3, d.s.wSoft *
      ((sqUb (pArm d.ctx x t e) (pF d.ctx x t e) a -
          sqUb (vsub (pArm d.ctx x t e) (armPrev d t e)) (vsub (pF d.ctx x t e) ((d.seq t).frc e)) a - pUb d.ctx x t e a) ^ 2 +
        (sqLb (pArm d.ctx x t e) (pF d.ctx x t e) a -
          sqLb (vsub (pArm d.ctx x t e) (armPrev d t e)) (vsub (pF d.ctx x t e) ((d.seq t).frc e)) a - pLb d.ctx x t e a) ^ 2)
  else 0

/-- The cost of a plan. -/
noncomputable def dynCost (d : DCtx) (x : Nat → ℝ) : ℝ :=
  (d.s.via.map fun v => ∑ a ∈ range 3, d.s.wVia a * (pCom d.ctx x (viaStep d v.1) a - v.2 a) ^ 2).sum +
  ∑ t ∈ range d.s.T, ((∑ a ∈ range 3, (trackCost d x t a + rateCost d x t a + forceCost d x t a)) + torqueCost d x t + timeCost d x t) +
  penalty d x

/-! ### proofs -/

/-- The weighted sum of squares of a list of terms. -/
noncomputable def wsum (x : Nat → ℝ) (ts : List (ℝ × LinExpr ℝ)) : ℝ := (ts.map fun t => t.1 * (t.2.getValue x) ^ 2).sum

theorem wsum_append (x : Nat → ℝ) (a b : List (ℝ × LinExpr ℝ)) : wsum x (a ++ b) = wsum x a + wsum x b := by
  rw [wsum, List.map_append, List.sum_append]; rfl

theorem wsum_flat (x : Nat → ℝ) (n : Nat) (f : Nat → List (ℝ × LinExpr ℝ)) :
    wsum x ((List.range n).flatMap f) = ∑ i ∈ range n, wsum x (f i) := by
  rw [wsum, sum_flatMap', list_range_sum]; rfl

theorem wsum_active (c : Ctx) (x : Nat → ℝ) (t : Nat) (f : Nat → List (ℝ × LinExpr ℝ)) :
    wsum x ((List.range c.neff).flatMap fun e => if c.active t e then f e else []) = sumActive c t fun e => wsum x (f e) := by
  rw [wsum_flat, sumActive]
  refine sum_congr rfl fun e _ => ?_
  split <;> rfl

theorem truncInt_clamp (y : ℝ) (T : Nat) : OptVar.bnd T (DCtx.truncInt y) = min (max ⌊y⌋ 0) (T - 1) ∨ T = 0 := by
  by_cases hT : T = 0
  · exact Or.inr hT
  refine Or.inl ?_
  unfold DCtx.truncInt OptVar.bnd
  split
  · next h =>
    have : 0 ≤ ⌊y⌋ := Int.floor_nonneg.2 h
    split <;> [skip; split] <;> omega
  · next h =>
    push Not at h
    have h1 : ⌊y⌋ < 0 := Int.floor_lt.2 (by simpa using h)
    have h2 : ⌈y⌉ ≤ 0 := Int.ceil_le.2 (by simpa using h.le)
    rw [if_neg (by omega), if_pos h2]; omega

theorem via_col (d : DCtx) (hT : 0 < d.s.T) (time : ℝ) (a : Nat) :
    (d.ctx.com.id a (DCtx.truncInt (time / d.s.step))).toNat = vcol d.ctx.com a (viaStep d time) := by
  have hc : d.ctx.com.cols = d.s.T := (layout_dims (d.s.dims d.p.steps) 0 0 _ (dims_base d.s d.p.steps 0 (by omega))).2
  have h1 := (truncInt_clamp (time / d.s.step) d.s.T).resolve_right (by omega)
  have h2 : (viaStep d time : Int) = min (max ⌊time / d.s.step⌋ 0) (d.s.T - 1) := by
    unfold viaStep; omega
  have h3 : OptVar.bnd d.s.T (viaStep d time) = viaStep d time := by
    unfold OptVar.bnd; split <;> [skip; split] <;> omega
  unfold vcol OptVar.id
  rw [hc, h1, h3, h2]

theorem linSquares_value (p q : LinExpr ℝ × ℝ) (b : LinExpr ℝ) (x : Nat → ℝ) : (DCtx.linSquares [p, q] b).getValue x =
    (p.1.getValue x ^ 2 + q.1.getValue x ^ 2) - ((p.1.getValue x - p.2) ^ 2 + (q.1.getValue x - q.2) ^ 2) - b.getValue x := by
  simp only [DCtx.linSquares, List.foldl_cons, List.foldl_nil, List.map_cons, List.map_nil, List.sum_cons, List.sum_nil, sub_value, add_value',
    mul_value, subC_value, ofConst_value]; ring

theorem lenPrev_eq (d : DCtx) (t e a : Nat) : d.lenPrev t e a = armPrev d t e a := by unfold DCtx.lenPrev armPrev; ring

theorem ubPairs_value (d : DCtx) (x : Nat → ℝ) (t e a : Nat) :
    (DCtx.linSquares (d.ubPairs t e a) (d.ctx.vUb e a t)).getValue x = sqUb (pArm d.ctx x t e) (pF d.ctx x t e) a -
      sqUb (vsub (pArm d.ctx x t e) (armPrev d t e)) (vsub (pF d.ctx x t e) ((d.seq t).frc e)) a - pUb d.ctx x t e a := by
  match a with
  | 0 | 1 | a + 2 =>
    simp only [DCtx.ubPairs, linSquares_value, add_value', sub_value, Ctx.negL, ofConst_value, len_value, Ctx.vF, Ctx.vUb, ofVar1_value, sqUb,
      vsub, pF, pUb, lenPrev_eq]; ring

theorem lbPairs_value (d : DCtx) (x : Nat → ℝ) (t e a : Nat) :
    (DCtx.linSquares (d.lbPairs t e a) (d.ctx.vLb e a t)).getValue x = sqLb (pArm d.ctx x t e) (pF d.ctx x t e) a -
      sqLb (vsub (pArm d.ctx x t e) (armPrev d t e)) (vsub (pF d.ctx x t e) ((d.seq t).frc e)) a - pLb d.ctx x t e a := by
  match a with
  | 0 | 1 | a + 2 =>
    simp only [DCtx.lbPairs, linSquares_value, add_value', sub_value, Ctx.negL, ofConst_value, len_value, Ctx.vF, Ctx.vLb, ofVar1_value, sqLb,
      vsub, pF, pLb, lenPrev_eq]; ring

theorem wsum_via (d : DCtx) (hT : 0 < d.s.T) (x : Nat → ℝ) : wsum x d.viaTerms =
    (d.s.via.map fun v => ∑ a ∈ range 3, d.s.wVia a * (pCom d.ctx x (viaStep d v.1) a - v.2 a) ^ 2).sum := by
  rw [wsum, DCtx.viaTerms, sum_flatMap']
  congr 1
  refine List.map_congr_left fun v _ => ?_
  rw [List.map_map, list_range_sum]
  refine sum_congr rfl fun a _ => ?_
  simp only [Function.comp, sub_value, ofConst_value, ofVar1_value, via_col d hT]; rfl

theorem wsum_track (d : DCtx) (x : Nat → ℝ) (t a : Nat) (ht : t < d.s.T) : wsum x (d.trackTerms t a) = trackCost d x t a := by
  unfold DCtx.trackTerms trackCost
  rw [wsum_append]
  have : (t = d.s.T - 1) ↔ t + 1 = d.s.T := by omega
  by_cases h : t = d.s.T - 1
  · rw [if_pos h, if_pos (this.1 h)]
    simp only [wsum, List.map_cons, List.map_nil, List.sum_cons, List.sum_nil, sub_value, ofConst_value, Ctx.vCom, Ctx.vL, Ctx.vH,
      ofVar1_value, DCtx.goal, pCom, pL, pH]; ring
  · rw [if_neg h, if_neg (fun q => h (this.2 q))]
    simp only [wsum, List.map_cons, List.map_nil, List.sum_cons, List.sum_nil, sub_value, ofConst_value, Ctx.vCom, Ctx.vL, Ctx.vH,
      ofVar1_value, pCom, pL, pH]; ring

theorem wsum_rate (d : DCtx) (x : Nat → ℝ) (t a : Nat) : wsum x (d.rateTerms t a) = rateCost d x t a := by
  unfold DCtx.rateTerms rateCost before
  by_cases h : d.s.heur = .timeOpt
  · rw [if_pos h, if_pos h]
    simp only [wsum, List.map_cons, List.map_nil, List.sum_cons, List.sum_nil, Ctx.vLd, Ctx.vHd, ofVar1_value, pLd, pHd]; ring
  rw [if_neg h, if_neg h]
  by_cases h0 : t = 0
  · rw [if_pos h0, if_pos h0, if_pos h0]
    simp only [wsum, List.map_cons, List.map_nil, List.sum_cons, List.sum_nil, sub_value, mul_value, ofConst_value, Ctx.vL, Ctx.vH,
      ofVar1_value, pL, pH]; ring
  · rw [if_neg h0, if_neg h0, if_neg h0]
    simp only [wsum, List.map_cons, List.map_nil, List.sum_cons, List.sum_nil, sub_value, mul_value, Ctx.vL, Ctx.vH,
      ofVar1_value, pL, pH]; ring

theorem nextForce_value (d : DCtx) (x : Nat → ℝ) (t e a : Nat) (ht : t < d.s.T) :
    ((d.nextForce t e a).getValue x - pF d.ctx x t e a) ^ 2 =
      if t + 1 = d.s.T then 0 else (forceAt d x (t + 1) e a - pF d.ctx x t e a) ^ 2 := by
  unfold DCtx.nextForce forceAt
  have : (t = d.s.T - 1) ↔ t + 1 = d.s.T := by omega
  by_cases h : t = d.s.T - 1
  · rw [if_pos h, if_pos (this.1 h), Ctx.vF, ofVar1_value, pF]; ring
  · rw [if_neg h, if_neg (fun q => h (this.2 q))]
    split
    · rw [Ctx.vF, ofVar1_value]; rfl
    · rw [ofConst_value]

theorem prevForce_value (d : DCtx) (x : Nat → ℝ) (t e a : Nat) :
    (d.prevForce t e a).getValue x = if t = 0 then d.p.iniF e a else forceAt d x (t - 1) e a := by
  unfold DCtx.prevForce forceAt
  split
  · rw [ofConst_value]
  · split
    · rw [Ctx.vF, ofVar1_value]; rfl
    · rw [ofConst_value]

theorem wsum_force (d : DCtx) (x : Nat → ℝ) (t a : Nat) (ht : t < d.s.T) :
    wsum x (d.forceTerms t a) + wsum x (d.forceRateTerms t a) = forceCost d x t a := by
  have h1 := wsum_active d.ctx x t fun e => [(if e = 0 ∨ e = 1 then d.s.wLegF a else d.s.wArmF a, d.ctx.vF e a t)]
  have h2 := wsum_active d.ctx x t fun e =>
    [(if e = 2 ∨ e = 3 then d.s.wArmFd a else d.s.wLegFd a, (d.nextForce t e a).sub (d.ctx.vF e a t)),
     (if e = 2 ∨ e = 3 then d.s.wArmFd a else d.s.wLegFd a, (d.ctx.vF e a t).sub (d.prevForce t e a))]
  have e1 : wsum x (d.forceTerms t a) = _ := h1
  have e2 : wsum x (d.forceRateTerms t a) = _ := h2
  rw [e1, e2, forceCost]
  unfold sumActive
  rw [← sum_add_distrib]
  refine sum_congr rfl fun e _ => ?_
  split
  · have hk : (e = 0 ∨ e = 1) = (e < 2) := by apply propext; omega
    have hn := nextForce_value d x t e a ht
    simp only [wsum, List.map_cons, List.map_nil, List.sum_cons, List.sum_nil, sub_value, prevForce_value]
    rw [← hn, Ctx.vF, ofVar1_value, show x (vcol (d.ctx.frc e) a (d.ctx.actId t e)) = pF d.ctx x t e a from rfl]
    simp only [hk]; ring
  · simp

theorem wsum_torque (d : DCtx) (x : Nat → ℝ) (t : Nat) : wsum x (d.torqueTerms t) = torqueCost d x t := by
  have h1 := wsum_active d.ctx x t fun e => [(if e = 0 ∨ e = 1 then d.s.wLegT else d.s.wArmT, d.ctx.vTrq e t)]
  have e1 : wsum x (d.torqueTerms t) = _ := h1
  rw [e1, torqueCost]
  unfold sumActive
  refine sum_congr rfl fun e _ => ?_
  have hk : (e = 0 ∨ e = 1) = (e < 2) := by apply propext; omega
  split
  · simp only [wsum, List.map_cons, List.map_nil, List.sum_cons, List.sum_nil, Ctx.vTrq, ofVar1_value, hk, add_zero]; rfl
  · rfl

theorem wsum_time (d : DCtx) (x : Nat → ℝ) (t : Nat) : wsum x (d.timeTerms t) = timeCost d x t := by
  unfold DCtx.timeTerms timeCost
  split
  · simp only [wsum, List.map_cons, List.map_nil, List.sum_cons, List.sum_nil, sub_value, ofConst_value, Ctx.vDt, ofVar1_value, add_zero]; rfl
  · rfl

theorem wsum_soft (d : DCtx) (x : Nat → ℝ) : wsum x d.softTerms = penalty d x := by
  unfold DCtx.softTerms penalty
  by_cases h : d.s.heur = .timeOpt ∧ d.first = false
  · rw [if_pos (by simp [h.1, h.2]), if_pos h, wsum_flat]
    refine sum_congr rfl fun t _ => ?_
    have h1 := wsum_active d.ctx x t fun e => (List.range 3).flatMap fun a =>
        [(d.s.wSoft, DCtx.linSquares (d.ubPairs t e a) (d.ctx.vUb e a t)), (d.s.wSoft, DCtx.linSquares (d.lbPairs t e a) (d.ctx.vLb e a t))]
    refine Eq.trans h1 ?_
    unfold sumActive
    refine sum_congr rfl fun e _ => ?_
    split
    · beta_reduce
      rw [wsum_flat]
      refine sum_congr rfl fun a _ => ?_
      simp only [wsum, List.map_cons, List.map_nil, List.sum_cons, List.sum_nil, ubPairs_value, lbPairs_value]; ring
    · rfl
  · rw [if_neg (by simpa [and_comm] using h), if_neg h]; rfl

/-- C120: the objective handed to the solver is the cost of the plan. -/
theorem C120_objective (d : DCtx) (hT : 0 < d.s.T) (x : Nat → ℝ) :
    sumSq (TCtx.quadOf d.objTerms).quad x + (TCtx.quadOf d.objTerms).lin.getValue x = dynCost d x := by
  rw [sumSq_quadOf, (quadOf_quad _).2, ofConst_value, add_zero]
  change wsum x d.objTerms = _
  rw [DCtx.objTerms, wsum_append, wsum_append, wsum_via d hT, wsum_soft, wsum_flat, dynCost]
  congr 2
  refine sum_congr rfl fun t ht => ?_
  rw [wsum_append, wsum_append, wsum_flat, wsum_torque, wsum_time]
  congr 2
  refine sum_congr rfl fun a _ => ?_
  rw [wsum_append, wsum_append, wsum_append, wsum_track d x t a (mem_range.1 ht), wsum_rate, ← wsum_force d x t a (mem_range.1 ht)]; ring

/-- C120 on the example: the cost of a plan that stands still is, with fixed timing, the cost of the contact forces: the unit
vertical force at three time steps. -/
example (x : Nat → ℝ) (hx : HasVals (exD .trust) exVals x) : dynCost (exD .trust) x = 3 := by
  have hF : ∀ t < 3, ∀ a < 3, pF (exD .trust).ctx x t 0 a = if a = 2 then 1 else 0 := fun t ht a ha => hx.f t ht 0 one_pos rfl a ha
  have hT : ∀ t < 3, pTrq (exD .trust).ctx x t 0 = 0 := fun t ht => hx.trq t ht 0 one_pos rfl
  have hC : ∀ t < 3, ∀ a < 3, pCom (exD .trust).ctx x t a = 0 := fun t ht a ha => hx.com t ht a ha
  have hP : ∀ t < 3, ∀ a < 3, pL (exD .trust).ctx x t a = 0 := fun t ht a ha => hx.l t ht a ha
  have hH : ∀ t < 3, ∀ a < 3, pH (exD .trust).ctx x t a = 0 := fun t ht a ha => (hx.h t ht a ha).trans (by simp [exSpin])
  have sa : ∀ t (f : Nat → ℝ), sumActive (exD .trust).ctx t f = f 0 := by
    intro t f
    show (∑ e ∈ range 1, if (decide (e = 0)) = true then f e else 0) = _
    rw [sum_range_one, if_pos (by simp)]
  have c1 : ∀ t < 3, ∀ a < 3, trackCost (exD .trust) x t a = 0 := by
    intro t ht a ha
    rw [trackCost, hC t ht a ha, hP t ht a ha, hH t ht a ha]
    simp [exAtZ, exSet, exPlanZ]
  have c2 : ∀ t < 3, ∀ a < 3, rateCost (exD .trust) x t a = 0 := by
    intro t ht a ha
    have b1 : before (exD .trust).p.iniL (pL (exD .trust).ctx x) t a = 0 := by
      unfold before; split
      · rfl
      · exact hP _ (by omega) a ha
    have b2 : before (exD .trust).p.iniH (pH (exD .trust).ctx x) t a = 0 := by
      unfold before; split
      · rfl
      · exact hH _ (by omega) a ha
    rw [rateCost, if_neg (by simp [exAtZ, exSet]), hP t ht a ha, hH t ht a ha, b1, b2]; ring
  have c3 : ∀ t < 3, ∀ a < 3, forceCost (exD .trust) x t a = if a = 2 then 1 else 0 := by
    intro t ht a ha
    have f1 : ∀ k < 3, forceAt (exD .trust) x k 0 a = if a = 2 then 1 else 0 := by
      intro k hk; rw [forceAt, if_pos (by simp [exAtZ, exPlanZ])]; exact hF k hk a ha
    rw [forceCost, sa, hF t ht a ha]
    have e1 : (if t + 1 = (exD .trust).s.T then (0 : ℝ) else (forceAt (exD .trust) x (t + 1) 0 a - if a = 2 then 1 else 0) ^ 2) = 0 := by
      split
      · rfl
      · rename_i hne
        have : t + 1 ≠ 3 := hne
        rw [f1 (t + 1) (by omega)]; ring
    have e2 : (if t = 0 then (exD .trust).p.iniF 0 a else forceAt (exD .trust) x (t - 1) 0 a) = if a = 2 then 1 else 0 := by
      split
      · rfl
      · exact f1 _ (by omega)
    rw [e1, e2]
    simp [exAtZ, exSet]
  have c4 : ∀ t < 3, torqueCost (exD .trust) x t = 0 := by
    intro t ht; rw [torqueCost, sa, hT t ht]; ring
  have c5 : ∀ t, timeCost (exD .trust) x t = 0 := fun t => if_neg (by simp [exAtZ, exSet])
  have c6 : penalty (exD .trust) x = 0 := if_neg (by simp [exAtZ, exSet])
  have c7 : ((exD .trust).s.via.map fun v => ∑ a ∈ range 3, (exD .trust).s.wVia a * (pCom (exD .trust).ctx x (viaStep (exD .trust) v.1) a - v.2 a) ^ 2).sum = 0 := by
    have hv : viaStep (exD .trust) (1 / 10) < 3 := by unfold viaStep; simp [exAtZ, exSet]
    show ([((1 / 10 : ℝ), fun _ : Nat => (0 : ℝ))].map _).sum = 0
    simp only [List.map_cons, List.map_nil, List.sum_cons, List.sum_nil, add_zero]
    exact sum_eq_zero fun a ha => by rw [hC _ hv a (mem_range.1 ha)]; ring
  rw [dynCost, c7, c6]
  have : (exD Heur.trust).s.T = 3 := rfl
  rw [this]
  rw [sum_congr rfl (fun t ht => by
    rw [c4 t (mem_range.1 ht), c5, sum_congr rfl (fun a ha => by
      rw [c1 t (mem_range.1 ht) a (mem_range.1 ha), c2 t (mem_range.1 ht) a (mem_range.1 ha), c3 t (mem_range.1 ht) a (mem_range.1 ha)])])]
  norm_num [sum_range_succ]

end Dyn
end Verif
