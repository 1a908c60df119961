/-
Properties C222-C224: what an optimal exit of the conic solver means for the plan of the dynamics optimiser, with the tolerances of the
solver. The constraints and the objective are those of `Verif.DynOpt`, the solver is the one of C219 and C220.
-/
import Verif.DynOptEnd
import Verif.ConicProgram

namespace Verif
namespace Dyn
open LinExpr Kin Finset

/-! ### specification -/

/-- The bound on a sum of `n` squares whose constraint holds up to `ε`, where `b` bounds the sum in the exact constraint. -/
noncomputable def slackSq (ε : ℝ) (n : Nat) (b : ℝ) : ℝ := (1 + sqErr ε) * (b + ε) + (sqErr ε + sqErr ε ^ 2) * n

/-- `Limits` up to `ε`. -/
structure NearLimits (d : DCtx) (ε : ℝ) (x0 : Nat → ℝ) (thr : ℝ) (warm : Bool) (x : Nat → ℝ) : Prop where
  height : ∀ t < d.s.T, d.s.minH - ε ≤ pCom d.ctx x t 2 - d.p.loc 0 0 2
  horizon : d.s.heur = .timeOpt → d.s.fixHor = true → |∑ t ∈ range d.s.T, pDt d.ctx x t - d.s.T * d.s.step| ≤ ε
  times : d.s.heur = .timeOpt → ∀ t < d.s.T, d.s.dtLo - ε ≤ pDt d.ctx x t ∧ pDt d.ctx x t ≤ d.s.dtHi + ε
  torque : ∀ t < d.s.T, ∀ e < d.s.neff, d.p.active t e = true → d.s.trqLo - ε ≤ pTrq d.ctx x t e ∧ pTrq d.ctx x t e ≤ d.s.trqHi + ε
  cop : ∀ t < d.s.T, ∀ e < d.s.neff, d.p.active t e = true →
    d.s.copR e 0 - ε ≤ pCop d.ctx x t e 0 ∧ pCop d.ctx x t e 0 ≤ d.s.copR e 1 + ε ∧
    d.s.copR e 2 - ε ≤ pCop d.ctx x t e 1 ∧ pCop d.ctx x t e 1 ≤ d.s.copR e 3 + ε
  friction : ∀ t < d.s.T, ∀ e < d.s.neff, d.p.active t e = true → d.p.full t e = false →
    if d.s.linCone then |pLocal d.ctx x t e 0| + |pLocal d.ctx x t e 1| ≤
      Real.sqrt 2 * (max d.s.mu 0.001 * pLocal d.ctx x t e 2 + Real.sqrt (1 + max d.s.mu 0.001 ^ 2) * ε)
    else Real.sqrt (pLocal d.ctx x t e 0 ^ 2 + pLocal d.ctx x t e 1 ^ 2) ≤ d.s.mu * pLocal d.ctx x t e 2 + (2 + Real.sqrt 2) * ε
  bounds : ∀ t < d.s.T, ∀ e < d.s.neff, d.p.active t e = true → ∀ a < 3,
    sqUb (pArm d.ctx x t e) (pF d.ctx x t e) a ≤ slackSq ε 2 (pUb d.ctx x t e a) ∧
    sqLb (pArm d.ctx x t e) (pF d.ctx x t e) a ≤ slackSq ε 2 (pLb d.ctx x t e a)
  trust : d.s.heur = .trust → warm = false → ∀ t < d.s.T, ∀ e < d.s.neff, d.p.active t e = true → ∀ a < 3,
    pUb d.ctx x t e a - thr - ε ≤ sqUb (pArm d.ctx x t e) (pF d.ctx x t e) a -
      sqUb (vsub (pArm d.ctx x t e) (pArm d.ctx x0 t e)) (vsub (pF d.ctx x t e) (pF d.ctx x0 t e)) a ∧
    pLb d.ctx x t e a - thr - ε ≤ sqLb (pArm d.ctx x t e) (pF d.ctx x t e) a -
      sqLb (vsub (pArm d.ctx x t e) (pArm d.ctx x0 t e)) (vsub (pF d.ctx x t e) (pF d.ctx x0 t e)) a
  length : ∀ t < d.s.T, ∀ e < d.s.neff, d.p.active t e = true →
    ∑ a ∈ range 3, (pArm d.ctx x t e a - d.s.off e a) ^ 2 ≤ slackSq ε 3 (d.s.maxLen e ^ 2)

/-- Equality up to `ε`. -/
def Near (ε a b : ℝ) : Prop := |a - b| ≤ ε

/-- `Dynamics` up to `ε`. -/
def NearDynamics (d : DCtx) (ε : ℝ) (x : Nat → ℝ) : Prop := ∀ t < d.s.T, ∀ a < 3,
  if d.s.heur = .timeOpt then
    Near ε (pLd d.ctx x t a) (forceSum d x t a) ∧ Near ε (pHd d.ctx x t a) (torqueSum d x t a) ∧
    if d.first then
      Near ε (pCom d.ctx x t a) (before d.p.iniCom (pCom d.ctx x) t a + (d.seq t).time * pL d.ctx x t a / d.s.mass) ∧
      Near ε (pL d.ctx x t a) (before d.p.iniL (pL d.ctx x) t a + (d.seq t).time * pLd d.ctx x t a) ∧
      Near ε (pH d.ctx x t a) (before d.p.iniH (pH d.ctx x) t a + (d.seq t).time * pHd d.ctx x t a)
    else
      Near ε (pCom d.ctx x t a) (before d.p.iniCom (pCom d.ctx x) t a +
        linProd (pDt d.ctx x t) (pL d.ctx x t a) (d.seq t).time ((d.seq t).l a) / d.s.mass) ∧
      Near ε (pL d.ctx x t a) (before d.p.iniL (pL d.ctx x) t a +
        linProd (pDt d.ctx x t) (pLd d.ctx x t a) (d.seq t).time ((d.seq t).ld a)) ∧
      Near ε (pH d.ctx x t a) (before d.p.iniH (pH d.ctx x) t a +
        linProd (pDt d.ctx x t) (pHd d.ctx x t a) (d.seq t).time ((d.seq t).hd a))
  else
    Near ε (pCom d.ctx x t a) (before d.p.iniCom (pCom d.ctx x) t a + (d.seq t).time * pL d.ctx x t a / d.s.mass) ∧
    Near ε (pL d.ctx x t a) (before d.p.iniL (pL d.ctx x) t a + (d.seq t).time * forceSum d x t a +
      (if t = 0 then (d.seq 0).time * d.s.mg * d.s.ext a else 0)) ∧
    Near ε (pH d.ctx x t a) (before d.p.iniH (pH d.ctx x) t a + (d.seq t).time * torqueSum d x t a)

/-! ### the constraints up to a tolerance -/

section
variable (d : DCtx) (ε : ℝ) (x0 : Nat → ℝ) (thr : ℝ) (w : Bool) (x : Nat → ℝ)

theorem ge_near (l r : LinExpr ℝ) : (Op.addLin l ">" r).NearlyHolds ε x0 thr w x ↔ r.getValue x - ε ≤ l.getValue x := by
  simp [Op.NearlyHolds]

theorem le_near (l r : LinExpr ℝ) : (Op.addLin l "<" r).NearlyHolds ε x0 thr w x ↔ l.getValue x ≤ r.getValue x + ε := by
  simp [Op.NearlyHolds]

theorem eq_near (l r : LinExpr ℝ) : (Op.addLin l "=" r).NearlyHolds ε x0 thr w x ↔ |l.getValue x - r.getValue x| ≤ ε := by
  simp [Op.NearlyHolds]

theorem eq0_near (l : LinExpr ℝ) : (TCtx.eq0 l).NearlyHolds ε x0 thr w x ↔ |l.getValue x| ≤ ε := by
  rw [TCtx.eq0, eq_near, ofConst_value, sub_zero]

theorem range2_near (v : Nat) (lo hi : ℝ) : (∀ op ∈ DCtx.range2 (ofVar v) lo hi, op.NearlyHolds ε x0 thr w x) ↔ lo - ε ≤ x v ∧ x v ≤ hi + ε := by
  simp only [DCtx.range2, List.mem_cons, List.not_mem_nil, or_false, forall_eq_or_imp, forall_eq, ge_near, le_near, ofConst_value, ofVar1_value]

theorem height_near (h : ∀ op ∈ d.heightCons, op.NearlyHolds ε x0 thr w x) :
    ∀ t < d.s.T, d.s.minH - ε ≤ pCom d.ctx x t 2 - d.p.loc 0 0 2 := by
  rw [DCtx.heightCons, forall_map] at h
  intro t ht
  have := h t ht
  rw [ge_near, sub_value, ofConst_value, ofConst_value] at this
  simpa [Ctx.vCom, ofVar1_value, pCom] using this

theorem horizon_near (h : ∀ op ∈ d.horizonCons, op.NearlyHolds ε x0 thr w x) :
    d.s.heur = .timeOpt → d.s.fixHor = true → |∑ t ∈ range d.s.T, pDt d.ctx x t - d.s.T * d.s.step| ≤ ε := by
  rw [DCtx.horizonCons, forall_ite] at h
  simp only [List.mem_singleton, forall_eq, eq_near, foldl_value', ofConst_value, zero_add, Bool.and_eq_true, decide_eq_true_eq,
    Ctx.vDt, ofVar1_value] at h
  exact fun a b => h ⟨b, a⟩

theorem ranges_near (h : ∀ op ∈ d.rangeCons, op.NearlyHolds ε x0 thr w x) :
    (d.s.heur = .timeOpt → ∀ t < d.s.T, d.s.dtLo - ε ≤ pDt d.ctx x t ∧ pDt d.ctx x t ≤ d.s.dtHi + ε) ∧
    (∀ t < d.s.T, ∀ e < d.s.neff, d.p.active t e = true → d.s.trqLo - ε ≤ pTrq d.ctx x t e ∧ pTrq d.ctx x t e ≤ d.s.trqHi + ε) ∧
    (∀ t < d.s.T, ∀ e < d.s.neff, d.p.active t e = true →
      d.s.copR e 0 - ε ≤ pCop d.ctx x t e 0 ∧ pCop d.ctx x t e 0 ≤ d.s.copR e 1 + ε ∧
      d.s.copR e 2 - ε ≤ pCop d.ctx x t e 1 ∧ pCop d.ctx x t e 1 ≤ d.s.copR e 3 + ε) := by
  simp only [DCtx.rangeCons, forall_flat (β := Op), List.forall_mem_append, forall_ite', forall_ite, Ctx.vDt, Ctx.vTrq, Ctx.vCop, range2_near] at h
  exact ⟨fun a t ht => (h t ht).1 a, fun t ht e he ha => ((h t ht).2 e he ha).1.1,
    fun t ht e he ha => ⟨((h t ht).2 e he ha).1.2.1, ((h t ht).2 e he ha).1.2.2, ((h t ht).2 e he ha).2.1, ((h t ht).2 e he ha).2.2⟩⟩

theorem clampMu_eq (mu : ℝ) : clampMu mu = max mu 0.001 := by
  unfold clampMu
  split
  · next h => rw [max_eq_right h]
  · next h => push Not at h; rw [max_eq_left h.le]

theorem clampMu_pos (mu : ℝ) : 0 < clampMu mu := by
  rw [clampMu_eq]; exact lt_max_of_lt_right (by norm_num)

/-- The norm of an edge of the friction pyramid before normalisation. -/
theorem coneRow_norm (mu : ℝ) : coneRow mu 0 2 = -clampMu mu / Real.sqrt (1 + clampMu mu ^ 2) := by
  have h : Real.sqrt (coneVec mu 0 ^ 2 + coneVec mu 1 ^ 2 + coneVec mu 2 ^ 2) = Real.sqrt (1 + clampMu mu ^ 2) := by
    congr 1
    simp only [coneVec]
    rw [mul_pow, Real.sq_sqrt (by norm_num)]; norm_num
  rw [← h]; rfl

theorem pyramid_near (c : Ctx) (mu : ℝ) (t e : Nat) (h : ∀ i < 4, (c.frictionRow mu t e i).getValue x ≤ ε) :
    |pLocal c x t e 0| + |pLocal c x t e 1| ≤ Real.sqrt 2 * (clampMu mu * pLocal c x t e 2 + Real.sqrt (1 + clampMu mu ^ 2) * ε) := by
  obtain ⟨N, hN, r0, ⟨r10, r11, r12⟩, ⟨r20, r21, r22⟩, ⟨r30, r31, r32⟩⟩ := coneRow_value mu
  have r00 := r0 0
  have r01 := r0 1
  have r02 := r0 2
  simp only at r00 r01 r02
  have hm := clampMu_pos mu
  have hNe : N = Real.sqrt (1 + clampMu mu ^ 2) := by
    have h1 := coneRow_norm mu
    rw [r02] at h1
    have h2 : (0 : ℝ) < Real.sqrt (1 + clampMu mu ^ 2) := by positivity
    rw [div_eq_div_iff hN.ne' h2.ne'] at h1
    have := mul_left_cancel₀ (by linarith : -clampMu mu ≠ 0) h1
    exact this.symm
  rw [← hNe]
  set fx := pLocal c x t e 0
  set fy := pLocal c x t e 1
  set fz := pLocal c x t e 2
  have hs : 0 < Real.sqrt 2 := by positivity
  have hss : Real.sqrt 2 * Real.sqrt 2 = 2 := Real.mul_self_sqrt (by norm_num)
  have hrow : ∀ a b : ℝ, ((0.5 * Real.sqrt 2 * a) / N * fx + (0.5 * Real.sqrt 2 * b) / N * fy + -clampMu mu / N * fz ≤ ε) →
      a * fx + b * fy ≤ Real.sqrt 2 * (clampMu mu * fz + N * ε) := by
    intro a b q
    have e1 : (0.5 * Real.sqrt 2 * a) / N * fx + (0.5 * Real.sqrt 2 * b) / N * fy + -clampMu mu / N * fz =
        (0.5 * Real.sqrt 2 * (a * fx + b * fy) - clampMu mu * fz) / N := by
      field_simp; ring
    rw [e1, div_le_iff₀ hN] at q
    have := mul_le_mul_of_nonneg_left q hs.le
    have e2 : Real.sqrt 2 * (0.5 * Real.sqrt 2 * (a * fx + b * fy) - clampMu mu * fz) = a * fx + b * fy - Real.sqrt 2 * (clampMu mu * fz) := by
      linear_combination (0.5 * (a * fx + b * fy)) * hss
    rw [e2] at this
    linarith
  have q0 := h 0 (by norm_num)
  have q1 := h 1 (by norm_num)
  have q2 := h 2 (by norm_num)
  have q3 := h 3 (by norm_num)
  rw [frictionRow_value] at q0 q1 q2 q3
  rw [r00, r01, r02] at q0
  rw [r10, r11, r12] at q1
  rw [r20, r21, r22] at q2
  rw [r30, r31, r32] at q3
  have p0 := hrow 1 1 (by simpa using q0)
  have p1 := hrow (-1) 1 (by simpa using q1)
  have p2 := hrow (-1) (-1) (by simpa using q2)
  have p3 := hrow 1 (-1) (by simpa using q3)
  rcases abs_cases fx with ⟨e1, _⟩ | ⟨e1, _⟩ <;> rcases abs_cases fy with ⟨e2, _⟩ | ⟨e2, _⟩ <;> rw [e1, e2] <;> linarith

theorem friction_near (h : ∀ op ∈ d.frictionCons, op.NearlyHolds ε x0 thr w x) :
    ∀ t < d.s.T, ∀ e < d.s.neff, d.p.active t e = true → d.p.full t e = false →
    if d.s.linCone then |pLocal d.ctx x t e 0| + |pLocal d.ctx x t e 1| ≤
      Real.sqrt 2 * (max d.s.mu 0.001 * pLocal d.ctx x t e 2 + Real.sqrt (1 + max d.s.mu 0.001 ^ 2) * ε)
    else Real.sqrt (pLocal d.ctx x t e 0 ^ 2 + pLocal d.ctx x t e 1 ^ 2) ≤ d.s.mu * pLocal d.ctx x t e 2 + (2 + Real.sqrt 2) * ε := by
  simp only [DCtx.frictionCons, forall_flat (β := Op)] at h
  intro t ht e he ha hf
  have q := h t ht e he
  rw [if_neg (by simp [hf]), forall_ite] at q
  have q := q ha
  by_cases hl : d.s.linCone = true
  · rw [if_pos hl] at q ⊢
    rw [forall_map] at q
    rw [← clampMu_eq]
    refine pyramid_near ε x d.ctx d.s.mu t e fun i hi => ?_
    have := q i hi
    rwa [le_near, ofConst_value, zero_add] at this
  · rw [if_neg hl] at q ⊢
    simp only [List.mem_singleton, forall_eq, Op.NearlyHolds, Ctx.frictionSoc, QuadExpr.addQuaTerm, QuadExpr.empty] at q
    have e1 := localForce_value d.ctx x t e
    simp [mul_value, e1] at q
    rw [mul_comm d.s.mu]
    exact q

theorem ub_weight (c : Ctx) (t e a : Nat) : ((c.ubQuad t e a).quad.map (·.1)).sum = ((2 : Nat) : ℝ) ∧
    ((c.lbQuad t e a).quad.map (·.1)).sum = ((2 : Nat) : ℝ) := by
  match a with
  | 0 | 1 | a + 2 => constructor <;> simp only [Ctx.ubQuad, Ctx.lbQuad] <;> norm_num [QuadExpr.addQuaTerm, QuadExpr.empty]

theorem length_near (t e : Nat) (B : ℝ)
    (h : (Op.addQua (d.ctx.lengthQuad (d.s.off e) t e) "<" (ofConst B) .none).NearlyHolds ε x0 thr w x) :
    ∑ a ∈ range 3, (pArm d.ctx x t e a - d.s.off e a) ^ 2 ≤ slackSq ε 3 B := by
  simp only [Op.NearlyHolds, Ctx.lengthQuad] at h
  have h1 : sumSq (((QuadExpr.empty.addQuaTerm 1 ((d.ctx.len t e 0).subC (d.s.off e 0))).addQuaTerm 1
      ((d.ctx.len t e 1).subC (d.s.off e 1))).addQuaTerm 1 ((d.ctx.len t e 2).subC (d.s.off e 2))).quad x =
      ∑ a ∈ range 3, (pArm d.ctx x t e a - d.s.off e a) ^ 2 := by
    simp [QuadExpr.addQuaTerm, QuadExpr.empty, sumSq, subC_value, len_value, Finset.sum_range_succ]; ring
  have h2 : (((QuadExpr.empty.addQuaTerm 1 ((d.ctx.len t e 0).subC (d.s.off e 0))).addQuaTerm 1
      ((d.ctx.len t e 1).subC (d.s.off e 1))).addQuaTerm 1 ((d.ctx.len t e 2).subC (d.s.off e 2))).lin.getValue x = 0 := by
    simp [QuadExpr.addQuaTerm, QuadExpr.empty]
  have h3 : ((((QuadExpr.empty.addQuaTerm 1 ((d.ctx.len t e 0).subC (d.s.off e 0))).addQuaTerm 1
      ((d.ctx.len t e 1).subC (d.s.off e 1))).addQuaTerm 1 ((d.ctx.len t e 2).subC (d.s.off e 2))).quad.map (·.1)).sum = ((3 : Nat) : ℝ) := by
    norm_num [QuadExpr.addQuaTerm, QuadExpr.empty]
  rw [h1, h2, h3, ofConst_value, sub_zero] at h
  exact h.1

theorem quad_near (h : ∀ op ∈ d.quadCons, op.NearlyHolds ε x0 thr w x) :
    (∀ t < d.s.T, ∀ e < d.s.neff, d.p.active t e = true → ∀ a < 3,
      sqUb (pArm d.ctx x t e) (pF d.ctx x t e) a ≤ slackSq ε 2 (pUb d.ctx x t e a) ∧
      sqLb (pArm d.ctx x t e) (pF d.ctx x t e) a ≤ slackSq ε 2 (pLb d.ctx x t e a)) ∧
    (d.s.heur = .trust → w = false → ∀ t < d.s.T, ∀ e < d.s.neff, d.p.active t e = true → ∀ a < 3,
      pUb d.ctx x t e a - thr - ε ≤ sqUb (pArm d.ctx x t e) (pF d.ctx x t e) a -
        sqUb (vsub (pArm d.ctx x t e) (pArm d.ctx x0 t e)) (vsub (pF d.ctx x t e) (pF d.ctx x0 t e)) a ∧
      pLb d.ctx x t e a - thr - ε ≤ sqLb (pArm d.ctx x t e) (pF d.ctx x t e) a -
        sqLb (vsub (pArm d.ctx x t e) (pArm d.ctx x0 t e)) (vsub (pF d.ctx x t e) (pF d.ctx x0 t e)) a) ∧
    (∀ t < d.s.T, ∀ e < d.s.neff, d.p.active t e = true →
      ∑ a ∈ range 3, (pArm d.ctx x t e a - d.s.off e a) ^ 2 ≤ slackSq ε 3 (d.s.maxLen e ^ 2)) := by
  have hub : ∀ t e a, (Op.addQua (d.ctx.ubQuad t e a) "<" (d.ctx.vUb e a t) d.approx).NearlyHolds ε x0 thr w x →
      sqUb (pArm d.ctx x t e) (pF d.ctx x t e) a ≤ slackSq ε 2 (pUb d.ctx x t e a) ∧ (d.s.heur = .trust → w = false →
        pUb d.ctx x t e a - thr - ε ≤ sqUb (pArm d.ctx x t e) (pF d.ctx x t e) a -
          sqUb (vsub (pArm d.ctx x t e) (pArm d.ctx x0 t e)) (vsub (pF d.ctx x t e) (pF d.ctx x0 t e)) a) := by
    intro t e a q
    simp only [Op.NearlyHolds, (ub_sumSq _ _ _ _ _).1, (ub_tangent _ _ _ _ _ _).1, (ubQuad_lin _ _ _ _ _).1, (ub_weight _ _ _ _).1, approx_trust,
      Ctx.vUb, ofVar1_value, add_zero, sub_zero] at q
    refine ⟨q.1, fun h1 h2 => ?_⟩
    have := q.2 h1 h2
    unfold pUb; linarith
  have hlb : ∀ t e a, (Op.addQua (d.ctx.lbQuad t e a) "<" (d.ctx.vLb e a t) d.approx).NearlyHolds ε x0 thr w x →
      sqLb (pArm d.ctx x t e) (pF d.ctx x t e) a ≤ slackSq ε 2 (pLb d.ctx x t e a) ∧ (d.s.heur = .trust → w = false →
        pLb d.ctx x t e a - thr - ε ≤ sqLb (pArm d.ctx x t e) (pF d.ctx x t e) a -
          sqLb (vsub (pArm d.ctx x t e) (pArm d.ctx x0 t e)) (vsub (pF d.ctx x t e) (pF d.ctx x0 t e)) a) := by
    intro t e a q
    simp only [Op.NearlyHolds, (ub_sumSq _ _ _ _ _).2, (ub_tangent _ _ _ _ _ _).2, (ubQuad_lin _ _ _ _ _).2, (ub_weight _ _ _ _).2, approx_trust,
      Ctx.vLb, ofVar1_value, add_zero, sub_zero] at q
    refine ⟨q.1, fun h1 h2 => ?_⟩
    have := q.2 h1 h2
    unfold pLb; linarith
  simp only [DCtx.quadCons, forall_flat (β := Op), List.forall_mem_append, forall_ite, forall_map, List.mem_singleton, forall_eq] at h
  exact ⟨fun t ht e he ha a h3 => ⟨(hub _ _ _ ((h t ht e he ha).1.1 a h3)).1, (hlb _ _ _ ((h t ht e he ha).1.2 a h3)).1⟩,
    fun h1 h2 t ht e he ha a h3 => ⟨(hub _ _ _ ((h t ht e he ha).1.1 a h3)).2 h1 h2, (hlb _ _ _ ((h t ht e he ha).1.2 a h3)).2 h1 h2⟩,
    fun t ht e he ha => length_near d ε x0 thr w x t e _ (h t ht e he ha).2⟩

theorem near_of {ε a b v : ℝ} (h : |v| ≤ ε) (hv : v = a - b ∨ v = b - a) : Near ε a b := by
  unfold Near
  rcases hv with rfl | rfl
  · exact h
  · rwa [abs_sub_comm]

theorem dyn_near (hm : d.s.mass ≠ 0) (h : ∀ op ∈ d.dynExprs.map TCtx.eq0, op.NearlyHolds ε x0 thr w x) : NearDynamics d ε x := by
  simp only [List.forall_mem_map, eq0_near] at h
  unfold DCtx.dynExprs at h
  unfold NearDynamics
  have e1 : ∀ t a, d.ctx.mass * d.ctx.grav a + (sumActive d.ctx t fun e => d.ctx.mg * pF d.ctx x t e a) = forceSum d x t a := fun _ _ => rfl
  have e2 : ∀ t a, (sumActive d.ctx t fun e => 0.25 * d.ctx.mg * (pUb d.ctx x t e a - pLb d.ctx x t e a) + d.ctx.rot t e a 2 * pTrq d.ctx x t e) =
    torqueSum d x t a := fun _ _ => rfl
  have e3 : ∀ t a, (if t = 0 then d.ctx.iniCom a else pCom d.ctx x (t - 1) a) = before d.p.iniCom (pCom d.ctx x) t a := fun _ _ => rfl
  have e4 : ∀ t a, (if t = 0 then d.ctx.iniL a else pL d.ctx x (t - 1) a) = before d.p.iniL (pL d.ctx x) t a := fun _ _ => rfl
  have e5 : ∀ t a, (if t = 0 then d.ctx.iniH a else pH d.ctx x (t - 1) a) = before d.p.iniH (pH d.ctx x) t a := fun _ _ => rfl
  have e6 : ∀ t, d.ctx.dt t = (d.seq t).time := fun _ => rfl
  have e7 : d.ctx.mass = d.s.mass := rfl
  have e8 : d.ctx.mg = d.s.mg := rfl
  have e9 : d.ctx.ext = d.s.ext := rfl
  have e10 : d.ctx.T = d.s.T := rfl
  by_cases h' : d.s.heur = .timeOpt
  · simp only [if_pos h'] at h ⊢
    by_cases hf : d.first = true
    · simp only [if_pos hf, Ctx.timeConsFirst, forall_flat (β := LinExpr ℝ), List.forall_mem_append, forall_map, comCons_value, tLmomCons_value,
        tAmomCons_value, lmomdCons_value, amomdCons_value, e1, e2, e3, e4, e5, e6, e10] at h ⊢
      simp only [e7] at h
      intro t ht a ha
      obtain ⟨⟨⟨⟨q1, q2⟩, q3⟩, q4⟩, q5⟩ := h t ht
      exact ⟨near_of (q4 a ha) (by first | (left; ring1) | (right; ring1)), near_of (q5 a ha) (by first | (left; ring1) | (right; ring1)),
        near_of (q1 a ha) (by first | (left; ring1) | (right; ring1)), near_of (q2 a ha) (by first | (left; ring1) | (right; ring1)),
        near_of (q3 a ha) (by first | (left; ring1) | (right; ring1))⟩
    · have k : 4 * (0.25 / d.s.mass) = 1 / d.s.mass := by field_simp; norm_num
      simp only [if_neg hf, Ctx.timeConsLater, forall_flat (β := LinExpr ℝ), List.forall_mem_append, forall_map, (lin3_value d x _ _).1,
        (lin3_value d x _ _).2.1, (lin3_value d x _ _).2.2, lmomdCons_value, amomdCons_value, k, e1, e2, e10] at h ⊢
      intro t ht a ha
      obtain ⟨⟨⟨⟨q1, q2⟩, q3⟩, q4⟩, q5⟩ := h t ht
      exact ⟨near_of (q4 a ha) (by first | (left; ring1) | (right; ring1)), near_of (q5 a ha) (by first | (left; ring1) | (right; ring1)),
        near_of (q1 a ha) (by first | (left; ring1) | (right; ring1)), near_of (q2 a ha) (by first | (left; ring1) | (right; ring1)),
        near_of (q3 a ha) (by first | (left; ring1) | (right; ring1))⟩
  · simp only [if_neg h', Ctx.fixedCons, forall_flat (β := LinExpr ℝ), List.forall_mem_append, forall_map, comCons_value, lmomCons_value,
      amomCons_value, e1, e2, e3, e4, e5, e6, e10] at h ⊢
    simp only [e7, e8, e9] at h
    intro t ht a ha
    obtain ⟨⟨q1, q2⟩, q3⟩ := h t ht
    exact ⟨near_of (q1 a ha) (by first | (left; ring1) | (right; ring1)), near_of (q2 a ha) (by first | (left; ring1) | (right; ring1)),
        near_of (q3 a ha) (by first | (left; ring1) | (right; ring1))⟩

/-- The constraints up to `ε` are the limits and the dynamics up to `ε`. -/
theorem near_cons (hm : d.s.mass ≠ 0) (h : ∀ op ∈ d.cons, op.NearlyHolds ε x0 thr w x) : NearLimits d ε x0 thr w x ∧ NearDynamics d ε x := by
  simp only [DCtx.cons, List.forall_mem_append] at h
  obtain ⟨⟨⟨⟨⟨h1, h2⟩, h3⟩, h4⟩, h5⟩, h6⟩ := h
  obtain ⟨r1, r2, r3⟩ := ranges_near d ε x0 thr w x h3
  obtain ⟨q1, q2, q3⟩ := quad_near d ε x0 thr w x h6
  exact ⟨⟨height_near d ε x0 thr w x h1, horizon_near d ε x0 thr w x h2, r1, r2, r3, friction_near d ε x0 thr w x h4, q1, q2, q3⟩,
    dyn_near d ε x0 thr w x hm h5⟩

end

/-! ### C222: the plan the solver returns -/

/-- C222: the problem of the dynamics optimiser is built, handed to the interior point solver and equilibrated. If the solver reports an
optimal or inaccurately optimal exit with an iterate inside the cones and `ε` covers the rows, the returned plan satisfies the limits
and the centroidal dynamics up to `ε`, and its cost is at most the cost of any plan that satisfies limits and dynamics exactly, up to
the relative error `sqErr ε`, the gap of the solver and a multiple of the total weight. -/
theorem C222_plan (d : DCtx) (hm : d.s.mass ≠ 0) (hT : 0 < d.s.T) (hp : d.p.Ok d.s) (hr : d.p.Frames d.s)
    (hw : NonnegWeights d.s d.wTrack) (hinf : 0 ≤ d.s.inf) (guess : Int → ℝ) (x0 : Nat → ℝ) (thr w : ℝ) (hw0 : 0 ≤ w) (warm : Bool)
    (v : ConicEnd.Call) (hv : v.Sane) :
    ∃ f S0, (ApiState.init.run (d.ops guess)).p.build x0 thr w warm = some f ∧ ConicStore.toStorage f = some S0 ∧
      let c := ConicStore.toCone f
      let x := Equil.ox c (v.res c S0)
      ∀ ε, v.Reports c S0 ε →
        NearLimits d ε x0 thr warm x ∧ NearDynamics d ε x ∧
        ∀ y, Limits d x0 thr warm y → Dynamics d y →
          ∃ y', (∀ k < totalSize (d.s.dims d.p.steps), y' k = y k) ∧ f.Feasible y' ∧
            dynCost d x + (if warm then 0 else w * softPenalty d x0 x) ≤
              (1 + sqErr ε) * (dynCost d y + (if warm then 0 else w * softPenalty d x0 y) + v.gap c S0 y') +
                (sqErr ε + sqErr ε ^ 2) * ConicEnd.weight d.objTerms d.cons w warm := by
  have hlen : ((d.s.layout d.p.steps).flatMap ids).length = totalSize (d.s.dims d.p.steps) := by rw [DSet.layout, layout_ids]; simp
  obtain ⟨f, S0, hf, hS, h⟩ := ConicEnd.program_end ((d.s.layout d.p.steps).flatMap ids) d.s.inf hinf guess d.objTerms d.cons (by
      rw [hlen]; exact fun op ho => ⟨(cons_ok d hp op ho).1, (cons_ok d hp op ho).2, cons_regular d hp hr hT op ho⟩)
    (by rw [hlen]; exact obj_over d hp hT) (weights_nonneg d hw) x0 thr w hw0 warm v hv
  have hc : ∀ x, wsum x d.objTerms = dynCost d x := by
    intro x
    have := C120_objective d hT x
    rw [sumSq_quadOf, (quadOf_quad _).2, ofConst_value, add_zero] at this
    exact this
  refine ⟨f, S0, hf, hS, ?_⟩
  intro c x ε hrep
  obtain ⟨h1, h2⟩ := h ε hrep
  obtain ⟨l1, l2⟩ := near_cons d ε x0 thr warm x hm h1
  refine ⟨l1, l2, fun y hy hyd => ?_⟩
  obtain ⟨y', a1, a2, a3⟩ := h2 y ((C119_constraints d hm x0 thr warm y).2 ⟨hy, hyd⟩)
  rw [hlen] at a1
  refine ⟨y', a1, a2, ?_⟩
  simp only [hc, softSum] at a3
  exact a3

/-! ### C223: errors add up at most linearly -/

theorem integrate_near (ε : ℝ) (ini : ℝ) (f g : Nat → ℝ) (T : Nat)
    (h : ∀ t < T, |f t - ((if t = 0 then ini else f (t - 1)) + g t)| ≤ ε) :
    ∀ t < T, |f t - (ini + ∑ k ∈ range (t + 1), g k)| ≤ (t + 1) * ε := by
  intro t
  induction t with
  | zero =>
    intro ht
    have := h 0 ht
    simpa using this
  | succ t ih =>
    intro ht
    have h1 := ih (by omega)
    have h2 := h (t + 1) ht
    rw [if_neg (by omega), Nat.add_sub_cancel] at h2
    rw [sum_range_succ]
    have := abs_add_le (f (t + 1) - (f t + g (t + 1))) (f t - (ini + ∑ k ∈ range (t + 1), g k))
    rw [show f (t + 1) - (f t + g (t + 1)) + (f t - (ini + ∑ k ∈ range (t + 1), g k)) =
      f (t + 1) - (ini + (∑ k ∈ range (t + 1), g k + g (t + 1))) by ring] at this
    push_cast
    linarith

/-- C223: with fixed timing, dynamics that hold up to `ε` at every step give a center of mass, a linear and an angular momentum that
differ from the initial value plus the sum over the steps so far by at most `ε` per step. -/
theorem C223_accumulated (d : DCtx) (hh : d.s.heur ≠ .timeOpt) (ε : ℝ) (x : Nat → ℝ) (h : NearDynamics d ε x) :
    ∀ a < 3, ∀ t < d.s.T,
      |pCom d.ctx x t a - (d.p.iniCom a + ∑ k ∈ range (t + 1), (d.seq k).time * pL d.ctx x k a / d.s.mass)| ≤ (t + 1) * ε ∧
      |pL d.ctx x t a - (d.p.iniL a + (d.seq 0).time * d.s.mg * d.s.ext a + ∑ k ∈ range (t + 1), (d.seq k).time * forceSum d x k a)| ≤ (t + 1) * ε ∧
      |pH d.ctx x t a - (d.p.iniH a + ∑ k ∈ range (t + 1), (d.seq k).time * torqueSum d x k a)| ≤ (t + 1) * ε := by
  intro a ha t ht
  have key : ∀ t < d.s.T, _ := fun t ht => by
    have := h t ht a ha
    rw [if_neg hh] at this
    exact this
  refine ⟨integrate_near ε _ (fun t => pCom d.ctx x t a) _ d.s.T (fun t ht => (key t ht).1) t ht, ?_,
    integrate_near ε _ (fun t => pH d.ctx x t a) _ d.s.T (fun t ht => (key t ht).2.2) t ht⟩
  have := integrate_near ε _ (fun t => pL d.ctx x t a) (fun t => (d.seq t).time * forceSum d x t a +
    (if t = 0 then (d.seq 0).time * d.s.mg * d.s.ext a else 0)) d.s.T (fun t ht => by
      have := (key t ht).2.1
      unfold Near before at this
      rw [add_assoc] at this
      exact this) t ht
  rw [sum_add_distrib, sum_ite_eq' (range (t + 1)) 0, if_pos (by simp)] at this
  rw [show d.p.iniL a + (d.seq 0).time * d.s.mg * d.s.ext a + ∑ k ∈ range (t + 1), (d.seq k).time * forceSum d x k a =
    d.p.iniL a + (∑ k ∈ range (t + 1), (d.seq k).time * forceSum d x k a + (d.seq 0).time * d.s.mg * d.s.ext a) by ring]
  exact this

/-! ### C224: the angular momentum of the trust-region heuristic -/

theorem sq_cross (u v : Nat → ℝ) (a : Nat) (ha : a < 3) : 0.25 * (sqUb u v a - sqLb u v a) = Ctx.cross u v a := by
  interval_cases a <;> simp only [sqUb, sqLb, Ctx.cross] <;> ring

theorem sqUb_nonneg (u v : Nat → ℝ) (a : Nat) : 0 ≤ sqUb u v a ∧ 0 ≤ sqLb u v a := by
  match a with
  | 0 | 1 | a + 2 => constructor <;> simp only [sqUb, sqLb] <;> positivity

theorem cross_smul (m : ℝ) (u v : Nat → ℝ) (a : Nat) (ha : a < 3) : Ctx.cross u (fun b => m * v b) a = m * Ctx.cross u v a := by
  interval_cases a <;> simp only [Ctx.cross] <;> ring

/-- The largest deviation of a bound from the squares it stands for: `M` bounds the bounds. -/
noncomputable def boundErr (ε thr M : ℝ) : ℝ := max (thr + ε) (slackSq ε 2 M - M)

/-- C224: with the trust-region heuristic and a cold start, a plan that satisfies limits and dynamics up to `ε` has an angular momentum that
differs from the one recomputed from lever arms, forces and torques by at most `ε` per step plus, for every active end-effector, half the
duration times `mg` times the deviation of the bounds. -/
theorem C224_angular_momentum (d : DCtx) (hh : d.s.heur = .trust) (ε thr M : ℝ) (h0 : 0 ≤ ε) (x0 x : Nat → ℝ) (hmg : 0 ≤ d.s.mg)
    (hdt : ∀ t < d.s.T, 0 ≤ (d.seq t).time)
    (hM : ∀ t < d.s.T, ∀ e < d.s.neff, d.p.active t e = true → ∀ a < 3, pUb d.ctx x t e a ≤ M ∧ pLb d.ctx x t e a ≤ M)
    (hl : NearLimits d ε x0 thr false x) (hd : NearDynamics d ε x) :
    ∀ a < 3, ∀ t < d.s.T,
      |pH d.ctx x t a - (d.p.iniH a + ∑ k ∈ range (t + 1), (d.seq k).time *
        sumActive d.ctx k (fun e => Ctx.cross (pArm d.ctx x k e) (fun b => d.s.mg * pF d.ctx x k e b) a + d.p.rot k e a 2 * pTrq d.ctx x k e))| ≤
      (t + 1) * ε + ∑ k ∈ range (t + 1), (d.seq k).time * sumActive d.ctx k (fun _ => 0.5 * d.s.mg * boundErr ε thr M) := by
  intro a ha t ht
  have h1 := (C223_accumulated d (by rw [hh]; decide) ε x hd a ha t ht).2.2
  have hs := sqErr_nonneg h0
  have dev : ∀ k < d.s.T, ∀ e < d.s.neff, d.p.active k e = true →
      |(pUb d.ctx x k e a - sqUb (pArm d.ctx x k e) (pF d.ctx x k e) a)| ≤ boundErr ε thr M ∧
      |(pLb d.ctx x k e a - sqLb (pArm d.ctx x k e) (pF d.ctx x k e) a)| ≤ boundErr ε thr M := by
    intro k hk e he hact
    obtain ⟨b1, b2⟩ := hl.bounds k hk e he hact a ha
    obtain ⟨c1, c2⟩ := hl.trust hh rfl k hk e he hact a ha
    obtain ⟨m1, m2⟩ := hM k hk e he hact a ha
    obtain ⟨n1, n2⟩ := sqUb_nonneg (vsub (pArm d.ctx x k e) (pArm d.ctx x0 k e)) (vsub (pF d.ctx x k e) (pF d.ctx x0 k e)) a
    have mono : ∀ u, u ≤ M → slackSq ε 2 u - u ≤ boundErr ε thr M := by
      intro u hu
      refine le_trans ?_ (le_max_right _ _)
      unfold slackSq
      nlinarith
    have t1 : thr + ε ≤ boundErr ε thr M := le_max_left _ _
    have q1 := mono _ m1
    have q2 := mono _ m2
    constructor <;> rw [abs_le] <;> constructor <;> linarith
  have step : ∀ k < d.s.T, |torqueSum d x k a - sumActive d.ctx k (fun e => Ctx.cross (pArm d.ctx x k e) (fun b => d.s.mg * pF d.ctx x k e b) a +
      d.p.rot k e a 2 * pTrq d.ctx x k e)| ≤ sumActive d.ctx k (fun _ => 0.5 * d.s.mg * boundErr ε thr M) := by
    intro k hk
    unfold torqueSum sumActive
    rw [← sum_sub_distrib]
    refine (abs_sum_le_sum_abs _ _).trans (sum_le_sum fun e he => ?_)
    by_cases hact : d.p.active k e = true
    · have ha' : d.ctx.active k e = true := hact
      obtain ⟨d1, d2⟩ := dev k hk e (mem_range.1 he) hact
      rw [if_pos ha', if_pos ha', if_pos ha']
      beta_reduce
      rw [cross_smul _ _ _ _ ha, ← sq_cross _ _ _ ha]
      rw [show 0.25 * d.s.mg * (pUb d.ctx x k e a - pLb d.ctx x k e a) + d.p.rot k e a 2 * pTrq d.ctx x k e -
        (d.s.mg * (0.25 * (sqUb (pArm d.ctx x k e) (pF d.ctx x k e) a - sqLb (pArm d.ctx x k e) (pF d.ctx x k e) a)) +
          d.p.rot k e a 2 * pTrq d.ctx x k e) = 0.25 * d.s.mg * ((pUb d.ctx x k e a - sqUb (pArm d.ctx x k e) (pF d.ctx x k e) a) -
            (pLb d.ctx x k e a - sqLb (pArm d.ctx x k e) (pF d.ctx x k e) a)) by ring]
      have hk0 : 0 ≤ 0.25 * d.s.mg := by positivity
      rw [abs_mul, abs_of_nonneg hk0]
      have hab := abs_sub (pUb d.ctx x k e a - sqUb (pArm d.ctx x k e) (pF d.ctx x k e) a)
        (pLb d.ctx x k e a - sqLb (pArm d.ctx x k e) (pF d.ctx x k e) a)
      have := mul_le_mul_of_nonneg_left (hab.trans (add_le_add d1 d2)) hk0
      linarith
    · have ha' : ¬ d.ctx.active k e = true := hact
      rw [if_neg ha', if_neg ha', if_neg ha', sub_zero, abs_zero]
  have h2 : |∑ k ∈ range (t + 1), (d.seq k).time * torqueSum d x k a - ∑ k ∈ range (t + 1), (d.seq k).time *
        sumActive d.ctx k (fun e => Ctx.cross (pArm d.ctx x k e) (fun b => d.s.mg * pF d.ctx x k e b) a + d.p.rot k e a 2 * pTrq d.ctx x k e)| ≤
      ∑ k ∈ range (t + 1), (d.seq k).time * sumActive d.ctx k (fun _ => 0.5 * d.s.mg * boundErr ε thr M) := by
    rw [← sum_sub_distrib]
    refine (abs_sum_le_sum_abs _ _).trans (sum_le_sum fun k hk => ?_)
    have hkT : k < d.s.T := by have := mem_range.1 hk; omega
    rw [← mul_sub, abs_mul, abs_of_nonneg (hdt k hkT)]
    exact mul_le_mul_of_nonneg_left (step k hkT) (hdt k hkT)
  have h3 := abs_add_le (pH d.ctx x t a - (d.p.iniH a + ∑ k ∈ range (t + 1), (d.seq k).time * torqueSum d x k a))
    (∑ k ∈ range (t + 1), (d.seq k).time * torqueSum d x k a - ∑ k ∈ range (t + 1), (d.seq k).time *
        sumActive d.ctx k (fun e => Ctx.cross (pArm d.ctx x k e) (fun b => d.s.mg * pF d.ctx x k e b) a + d.p.rot k e a 2 * pTrq d.ctx x k e))
  refine le_trans (le_of_eq ?_) (h3.trans (add_le_add h1 h2))
  congr 1; ring

/-! ### the hypotheses are met -/

/-- Exact limits and dynamics are limits and dynamics up to any tolerance. -/
theorem near_zero (d : DCtx) (ε : ℝ) (h0 : 0 ≤ ε) (x : Nat → ℝ) (h : Dynamics d x) : NearDynamics d ε x := by
  have z : ∀ {u v : ℝ}, u = v → Near ε u v := fun e => by rw [e]; unfold Near; simpa using h0
  intro t ht a ha
  have := h t ht a ha
  by_cases hh : d.s.heur = .timeOpt
  · rw [if_pos hh] at this ⊢
    by_cases hf : d.first = true
    · rw [if_pos hf] at this ⊢
      exact ⟨z this.1, z this.2.1, z this.2.2.1, z this.2.2.2.1, z this.2.2.2.2⟩
    · rw [if_neg hf] at this ⊢
      exact ⟨z this.1, z this.2.1, z this.2.2.1, z this.2.2.2.1, z this.2.2.2.2⟩
  · rw [if_neg hh] at this ⊢
    exact ⟨z this.1, z this.2.1, z this.2.2⟩

theorem near_zero_limits (d : DCtx) (x0 : Nat → ℝ) (thr : ℝ) (w : Bool) (x : Nat → ℝ) (h : Limits d x0 thr w x) : NearLimits d 0 x0 thr w x := by
  have z : ∀ n b, slackSq 0 n b = b := fun n b => by unfold slackSq sqErr; ring
  refine ⟨fun t ht => by rw [sub_zero]; exact h.height t ht, fun h1 h2 => by rw [h.horizon h1 h2, sub_self, abs_zero],
    fun h1 t ht => by rw [sub_zero, add_zero]; exact h.times h1 t ht, fun t ht e he ha => by rw [sub_zero, add_zero]; exact h.torque t ht e he ha,
    fun t ht e he ha => by rw [sub_zero, add_zero, sub_zero, add_zero]; exact h.cop t ht e he ha, fun t ht e he ha hf => ?_,
    fun t ht e he ha a h3 => by rw [z, z]; exact h.bounds t ht e he ha a h3,
    fun h1 h2 t ht e he ha a h3 => by rw [sub_zero, sub_zero]; exact h.trust h1 h2 t ht e he ha a h3,
    fun t ht e he ha => by rw [z]; exact h.length t ht e he ha⟩
  have := h.friction t ht e he ha hf
  split
  · next hl => rw [if_pos hl] at this; rw [mul_zero, add_zero]; exact this
  · next hl => rw [if_neg hl] at this; rw [mul_zero, add_zero]; exact this

/-- C222 is not vacuous: for the example plan and every heuristic there is a call of the solver that reports an optimal exit, and the
standing robot satisfies limits and dynamics. -/
example (h : Heur) : ∃ (x0 : Nat → ℝ) (v : ConicEnd.Call) (f : StdForm ℝ) (S0 : Equil.Storage) (ε : ℝ), v.Sane ∧
    (ApiState.init.run ((exD h).ops fun _ => 0)).p.build x0 0 1 false = some f ∧ ConicStore.toStorage f = some S0 ∧
    v.Reports (ConicStore.toCone f) S0 ε ∧ ∃ y, Limits (exD h) x0 0 false y ∧ Dynamics (exD h) y := by
  obtain ⟨x0, hx⟩ := exists_vals (exD h) (exPlan_ok h) exVals
  have hlen : (((exD h).s.layout (exD h).p.steps).flatMap ids).length = totalSize ((exD h).s.dims (exD h).p.steps) := by
    rw [DSet.layout, layout_ids]; simp
  have hT : 0 < (exD h).s.T := by norm_num [exAtZ, exSet]
  obtain ⟨h1, h2, _⟩ := conic_program (((exD h).s.layout (exD h).p.steps).flatMap ids) (exD h).s.inf (by norm_num [exAtZ, exSet]) (fun _ => 0)
    (exD h).objTerms (exD h).cons (by
      rw [hlen]; exact fun op ho => ⟨(cons_ok _ (exPlan_ok h) op ho).1, (cons_ok _ (exPlan_ok h) op ho).2, cons_regular _ (exPlan_ok h) (ex_meets h).1 hT op ho⟩)
    (by rw [hlen]; exact obj_over _ (exPlan_ok h) hT) (weights_nonneg _ (ex_meets h).2) x0 0 1 false
  obtain ⟨f, S0, hf, hS, _, hne⟩ := ConicStore.C218_storage _ h1 h2 x0 0 1 false
  obtain ⟨g, hg, ε, hrep⟩ := ConicEnd.exists_call (ConicStore.toCone f) hne S0 3 IP.exL rfl
    (⟨fun _ => 0, fun _ => 0, fun _ => 0, fun _ => 0, 0, 0⟩, ⟨0, 0, 0, 0, 0, 0, 0, 0, 0, 0⟩) ⟨fun _ => 0, fun _ => 0, fun _ => 0⟩
    ⟨fun _ => 0, fun _ => 0, fun _ => 0, fun _ => 0, 0, 0⟩ ⟨0, 0, 0, 0, 0, 0, 0, 0, 0, 0⟩
  obtain ⟨hl, hd⟩ := ex_standing h x0 hx 0 le_rfl false
  exact ⟨x0, _, f, S0, ε, hg, hf, hS, hrep, x0, hl, hd⟩

/-- C223 and C224 are not vacuous: the standing robot, with bounds at most 2. -/
example : ∃ x0, NearLimits (exD .trust) 0 x0 0 false x0 ∧ NearDynamics (exD .trust) 0 x0 ∧ (0 : ℝ) ≤ (exD .trust).s.mg ∧
    (∀ t < (exD .trust).s.T, 0 ≤ ((exD .trust).seq t).time) ∧
    ∀ t < (exD .trust).s.T, ∀ e < (exD .trust).s.neff, (exD .trust).p.active t e = true → ∀ a < 3,
      pUb (exD .trust).ctx x0 t e a ≤ 2 ∧ pLb (exD .trust).ctx x0 t e a ≤ 2 := by
  obtain ⟨x0, hx⟩ := exists_vals (exD .trust) (exPlan_ok .trust) exVals
  obtain ⟨hl, hd⟩ := ex_standing .trust x0 hx 0 le_rfl false
  refine ⟨x0, near_zero_limits _ _ _ _ _ hl, near_zero _ 0 le_rfl _ hd, by norm_num [exAtZ, exSet], fun t ht => ?_, fun t ht e he ha a h3 => ?_⟩
  · norm_num [exAtZ, exSet, exDState]
  · rw [hx.ub t ht e he ha a h3, hx.lb t ht e he ha a h3]
    constructor <;> (norm_num [exSpin]; try split <;> norm_num)

end Dyn
end Verif
