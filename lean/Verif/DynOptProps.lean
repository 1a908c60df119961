import Verif.DynOptLemmas
import Verif.KinOptPosture

/-! C119-C122: the optimisation problem of the dynamics optimiser. -/
namespace Verif
namespace Dyn
open LinExpr Kin Finset

/-! ### specification -/

/-- The two squares above: a quarter of `sqUb l f a - sqLb l f a` is component `a` of `l × f`. -/
def sqUb (l f : Nat → ℝ) : Nat → ℝ
  | 0 => (f 1 - l 2) ^ 2 + (f 2 + l 1) ^ 2
  | 1 => (f 2 - l 0) ^ 2 + (f 0 + l 2) ^ 2
  | _ => (f 0 - l 1) ^ 2 + (f 1 + l 0) ^ 2

/-- The two squares below. -/
def sqLb (l f : Nat → ℝ) : Nat → ℝ
  | 0 => (f 1 + l 2) ^ 2 + (f 2 - l 1) ^ 2
  | 1 => (f 2 + l 0) ^ 2 + (f 0 - l 2) ^ 2
  | _ => (f 0 + l 1) ^ 2 + (f 1 - l 0) ^ 2

/-- Difference of two 3-vectors. -/
def vsub (u v : Nat → ℝ) : Nat → ℝ := fun b => u b - v b

/-- The limits on a plan: `x0` is the point the trust region is centered at, `thr` its threshold, `warm` that the solver is
warm started (no trust region). -/
structure Limits (d : DCtx) (x0 : Nat → ℝ) (thr : ℝ) (warm : Bool) (x : Nat → ℝ) : Prop where
  height : ∀ t < d.s.T, d.s.minH ≤ pCom d.ctx x t 2 - d.p.loc 0 0 2
  horizon : d.s.heur = .timeOpt → d.s.fixHor = true → ∑ t ∈ range d.s.T, pDt d.ctx x t = d.s.T * d.s.step
  times : d.s.heur = .timeOpt → ∀ t < d.s.T, d.s.dtLo ≤ pDt d.ctx x t ∧ pDt d.ctx x t ≤ d.s.dtHi
  torque : ∀ t < d.s.T, ∀ e < d.s.neff, d.p.active t e = true → d.s.trqLo ≤ pTrq d.ctx x t e ∧ pTrq d.ctx x t e ≤ d.s.trqHi
  cop : ∀ t < d.s.T, ∀ e < d.s.neff, d.p.active t e = true →
    d.s.copR e 0 ≤ pCop d.ctx x t e 0 ∧ pCop d.ctx x t e 0 ≤ d.s.copR e 1 ∧
    d.s.copR e 2 ≤ pCop d.ctx x t e 1 ∧ pCop d.ctx x t e 1 ≤ d.s.copR e 3
  friction : ∀ t < d.s.T, ∀ e < d.s.neff, d.p.active t e = true → d.p.full t e = false →
    if d.s.linCone then |pLocal d.ctx x t e 0| + |pLocal d.ctx x t e 1| ≤ Real.sqrt 2 * (max d.s.mu 0.001 * pLocal d.ctx x t e 2)
    else Coulomb d.s.mu (pLocal d.ctx x t e 0) (pLocal d.ctx x t e 1) (pLocal d.ctx x t e 2)
  bounds : ∀ t < d.s.T, ∀ e < d.s.neff, d.p.active t e = true → ∀ a < 3,
    sqUb (pArm d.ctx x t e) (pF d.ctx x t e) a ≤ pUb d.ctx x t e a ∧ sqLb (pArm d.ctx x t e) (pF d.ctx x t e) a ≤ pLb d.ctx x t e a
  trust : d.s.heur = .trust → warm = false → ∀ t < d.s.T, ∀ e < d.s.neff, d.p.active t e = true → ∀ a < 3,
    pUb d.ctx x t e a - thr ≤ sqUb (pArm d.ctx x t e) (pF d.ctx x t e) a -
      sqUb (vsub (pArm d.ctx x t e) (pArm d.ctx x0 t e)) (vsub (pF d.ctx x t e) (pF d.ctx x0 t e)) a ∧
    pLb d.ctx x t e a - thr ≤ sqLb (pArm d.ctx x t e) (pF d.ctx x t e) a -
      sqLb (vsub (pArm d.ctx x t e) (pArm d.ctx x0 t e)) (vsub (pF d.ctx x t e) (pF d.ctx x0 t e)) a
  length : ∀ t < d.s.T, ∀ e < d.s.neff, d.p.active t e = true →
    ∑ a ∈ range 3, (pArm d.ctx x t e a - d.s.off e a) ^ 2 ≤ d.s.maxLen e ^ 2

/-- Rate of the linear momentum under gravity and contact forces. -/
noncomputable def forceSum (d : DCtx) (x : Nat → ℝ) (t a : Nat) : ℝ :=
  d.s.mass * d.s.grav a + sumActive d.ctx t fun e => d.s.mg * pF d.ctx x t e a

/-- Rate of the angular momentum in terms of the bounds. -/
noncomputable def torqueSum (d : DCtx) (x : Nat → ℝ) (t a : Nat) : ℝ :=
  sumActive d.ctx t fun e => 0.25 * d.s.mg * (pUb d.ctx x t e a - pLb d.ctx x t e a) + d.p.rot t e a 2 * pTrq d.ctx x t e

/-- Value at the previous time step. -/
def before (ini : Nat → ℝ) (f : Nat → Nat → ℝ) (t a : Nat) : ℝ := if t = 0 then ini a else f (t - 1) a

/-- The product `u*v` up to the product of the deviations from the linearisation point. -/
def linProd (u v u0 v0 : ℝ) : ℝ := u * v - (u - u0) * (v - v0)

/-- Centroidal dynamics of a plan. With fixed timing the time steps are those stored in the sequence. With optimised timing
the first problem uses the stored ones as well, the later problems use the optimised ones, linearised. -/
def Dynamics (d : DCtx) (x : Nat → ℝ) : Prop := ∀ t < d.s.T, ∀ a < 3,
  if d.s.heur = .timeOpt then
    pLd d.ctx x t a = forceSum d x t a ∧ pHd d.ctx x t a = torqueSum d x t a ∧
    if d.first then
      pCom d.ctx x t a = before d.p.iniCom (pCom d.ctx x) t a + (d.seq t).time * pL d.ctx x t a / d.s.mass ∧
      pL d.ctx x t a = before d.p.iniL (pL d.ctx x) t a + (d.seq t).time * pLd d.ctx x t a ∧
      pH d.ctx x t a = before d.p.iniH (pH d.ctx x) t a + (d.seq t).time * pHd d.ctx x t a
    else
      pCom d.ctx x t a = before d.p.iniCom (pCom d.ctx x) t a +
        linProd (pDt d.ctx x t) (pL d.ctx x t a) (d.seq t).time ((d.seq t).l a) / d.s.mass ∧
      pL d.ctx x t a = before d.p.iniL (pL d.ctx x) t a +
        linProd (pDt d.ctx x t) (pLd d.ctx x t a) (d.seq t).time ((d.seq t).ld a) ∧
      pH d.ctx x t a = before d.p.iniH (pH d.ctx x) t a +
        linProd (pDt d.ctx x t) (pHd d.ctx x t a) (d.seq t).time ((d.seq t).hd a)
  else
    pCom d.ctx x t a = before d.p.iniCom (pCom d.ctx x) t a + (d.seq t).time * pL d.ctx x t a / d.s.mass ∧
    pL d.ctx x t a = before d.p.iniL (pL d.ctx x) t a + (d.seq t).time * forceSum d x t a +
      (if t = 0 then (d.seq 0).time * d.s.mg * d.s.ext a else 0) ∧
    pH d.ctx x t a = before d.p.iniH (pH d.ctx x) t a + (d.seq t).time * torqueSum d x t a

/-! ### the constraints -/

theorem forall_flat {α β : Type} (n : Nat) (f : Nat → List α) (P : α → Prop) :
    (∀ o ∈ (List.range n).flatMap f, P o) ↔ ∀ t < n, ∀ o ∈ f t, P o := by
  simp only [List.mem_flatMap, List.mem_range]
  exact ⟨fun h t ht o ho => h o ⟨t, ht, ho⟩, fun h o ⟨t, ht, ho⟩ => h t ht o ho⟩

theorem forall_map {α : Type} (n : Nat) (f : Nat → α) (P : α → Prop) :
    (∀ o ∈ (List.range n).map f, P o) ↔ ∀ t < n, P (f t) := by
  simp only [List.mem_map, List.mem_range]
  exact ⟨fun h t ht => h _ ⟨t, ht, rfl⟩, fun h o ⟨t, ht, e⟩ => e ▸ h t ht⟩

theorem forall_ite {α : Type} (c : Bool) (l : List α) (P : α → Prop) :
    (∀ o ∈ (if c then l else []), P o) ↔ (c = true → ∀ o ∈ l, P o) := by
  cases c <;> simp

theorem forall_ite' {α : Type} (c : Prop) [Decidable c] (l : List α) (P : α → Prop) :
    (∀ o ∈ (if c then l else []), P o) ↔ (c → ∀ o ∈ l, P o) := by
  split <;> simp [*]

section
variable (d : DCtx) (x0 : Nat → ℝ) (thr : ℝ) (w : Bool) (x : Nat → ℝ)

theorem height_holds : (∀ op ∈ d.heightCons, op.Holds x0 thr w x) ↔ ∀ t < d.s.T, d.s.minH ≤ pCom d.ctx x t 2 - d.p.loc 0 0 2 := by
  rw [DCtx.heightCons, forall_map]
  simp [Op.Holds, sub_value, Ctx.vCom, ofVar1_value, pCom]

theorem horizon_holds : (∀ op ∈ d.horizonCons, op.Holds x0 thr w x) ↔
    (d.s.heur = .timeOpt → d.s.fixHor = true → ∑ t ∈ range d.s.T, pDt d.ctx x t = d.s.T * d.s.step) := by
  rw [DCtx.horizonCons, forall_ite]
  simp only [List.mem_singleton, forall_eq, Op.Holds, if_true, foldl_value', ofConst_value, zero_add, Bool.and_eq_true, decide_eq_true_eq,
    Ctx.vDt, ofVar1_value]
  exact ⟨fun h a b => h ⟨b, a⟩, fun h a => h a.2 a.1⟩

theorem range2_holds (v : Nat) (lo hi : ℝ) : (∀ op ∈ DCtx.range2 (ofVar v) lo hi, op.Holds x0 thr w x) ↔ lo ≤ x v ∧ x v ≤ hi := by
  simp only [DCtx.range2, List.mem_cons, List.not_mem_nil, or_false, forall_eq_or_imp, forall_eq, ge_holds, le_holds]

theorem ranges_hold : (∀ op ∈ d.rangeCons, op.Holds x0 thr w x) ↔
    (d.s.heur = .timeOpt → ∀ t < d.s.T, d.s.dtLo ≤ pDt d.ctx x t ∧ pDt d.ctx x t ≤ d.s.dtHi) ∧
    (∀ t < d.s.T, ∀ e < d.s.neff, d.p.active t e = true → d.s.trqLo ≤ pTrq d.ctx x t e ∧ pTrq d.ctx x t e ≤ d.s.trqHi) ∧
    (∀ t < d.s.T, ∀ e < d.s.neff, d.p.active t e = true →
      d.s.copR e 0 ≤ pCop d.ctx x t e 0 ∧ pCop d.ctx x t e 0 ≤ d.s.copR e 1 ∧
      d.s.copR e 2 ≤ pCop d.ctx x t e 1 ∧ pCop d.ctx x t e 1 ≤ d.s.copR e 3) := by
  simp only [DCtx.rangeCons, forall_flat (β := Op), List.forall_mem_append, forall_ite', forall_ite, Ctx.vDt, Ctx.vTrq, Ctx.vCop, range2_holds]
  constructor
  · intro h
    exact ⟨fun a t ht => (h t ht).1 a, fun t ht e he ha => ((h t ht).2 e he ha).1.1,
      fun t ht e he ha => ⟨((h t ht).2 e he ha).1.2.1, ((h t ht).2 e he ha).1.2.2, ((h t ht).2 e he ha).2.1, ((h t ht).2 e he ha).2.2⟩⟩
  · rintro ⟨h1, h2, h3⟩ t ht
    refine ⟨fun a => h1 a t ht, fun e he ha => ⟨⟨h2 t ht e he ha, ?_⟩, ?_⟩⟩
    · exact ⟨(h3 t ht e he ha).1, (h3 t ht e he ha).2.1⟩
    · exact (h3 t ht e he ha).2.2

theorem soc_holds (t e : Nat) : (Op.addSoc (d.ctx.frictionSoc d.s.mu t e).1 "<" (d.ctx.frictionSoc d.s.mu t e).2).Holds x0 thr w x ↔
    Coulomb d.s.mu (pLocal d.ctx x t e 0) (pLocal d.ctx x t e 1) (pLocal d.ctx x t e 2) := by
  rw [← C46_soc_exact]
  simp only [Op.Holds, Ctx.frictionSoc, QuadExpr.addQuaTerm, QuadExpr.empty, QuadExpr.getValue]
  simp

theorem friction_hold : (∀ op ∈ d.frictionCons, op.Holds x0 thr w x) ↔
    ∀ t < d.s.T, ∀ e < d.s.neff, d.p.active t e = true → d.p.full t e = false →
    if d.s.linCone then |pLocal d.ctx x t e 0| + |pLocal d.ctx x t e 1| ≤ Real.sqrt 2 * (max d.s.mu 0.001 * pLocal d.ctx x t e 2)
    else Coulomb d.s.mu (pLocal d.ctx x t e 0) (pLocal d.ctx x t e 1) (pLocal d.ctx x t e 2) := by
  simp only [DCtx.frictionCons, forall_flat (β := Op)]
  refine forall_congr' fun t => forall_congr' fun ht => forall_congr' fun e => forall_congr' fun he => ?_
  by_cases hf : d.p.full t e = true
  · simp [hf]
  rw [if_neg hf, forall_ite]
  have hf' : d.p.full t e = false := by simpa using hf
  refine forall_congr' fun ha => ?_
  simp only [hf', forall_true_left]
  by_cases hl : d.s.linCone = true
  · rw [if_pos hl, if_pos hl, forall_map, ← (C46_pyramid_partial d.ctx d.s.mu x t e).1, PyramidHolds]
    refine forall_congr' fun i => forall_congr' fun hi => ?_
    simp [Op.Holds]
  · rw [if_neg hl, if_neg hl]
    simp only [List.mem_singleton, forall_eq, soc_holds]

theorem tangent2 (a b : LinExpr ℝ) (y0 y : Nat → ℝ) :
    tangent ((QuadExpr.empty.addQuaTerm 1 a).addQuaTerm 1 b).quad y0 y =
      (a.getValue y ^ 2 + b.getValue y ^ 2) - ((a.getValue y - a.getValue y0) ^ 2 + (b.getValue y - b.getValue y0) ^ 2) := by
  simp [QuadExpr.addQuaTerm, QuadExpr.empty, tangent]; ring

theorem sumSq2 (a b : LinExpr ℝ) (y : Nat → ℝ) :
    sumSq ((QuadExpr.empty.addQuaTerm 1 a).addQuaTerm 1 b).quad y = a.getValue y ^ 2 + b.getValue y ^ 2 := by
  simp [QuadExpr.addQuaTerm, QuadExpr.empty, sumSq]

theorem ubQuad_lin (c : Ctx) (t e a : Nat) (y : Nat → ℝ) : (c.ubQuad t e a).lin.getValue y = 0 ∧ (c.lbQuad t e a).lin.getValue y = 0 := by
  match a with
  | 0 | 1 | a + 2 => constructor <;> simp [Ctx.ubQuad, Ctx.lbQuad, QuadExpr.addQuaTerm, QuadExpr.empty]

theorem ub_sumSq (c : Ctx) (t e a : Nat) (y : Nat → ℝ) :
    sumSq (c.ubQuad t e a).quad y = sqUb (pArm c y t e) (pF c y t e) a ∧
    sumSq (c.lbQuad t e a).quad y = sqLb (pArm c y t e) (pF c y t e) a := by
  match a with
  | 0 | 1 | a + 2 => 
    constructor <;>
    simp only [Ctx.ubQuad, Ctx.lbQuad, sumSq2, add_value', sub_value, Ctx.negL, ofConst_value, len_value, Ctx.vF, ofVar1_value, sqUb, sqLb, pF] <;> ring

theorem ub_tangent (c : Ctx) (t e a : Nat) (y0 y : Nat → ℝ) :
    tangent (c.ubQuad t e a).quad y0 y = sqUb (pArm c y t e) (pF c y t e) a -
      sqUb (vsub (pArm c y t e) (pArm c y0 t e)) (vsub (pF c y t e) (pF c y0 t e)) a ∧
    tangent (c.lbQuad t e a).quad y0 y = sqLb (pArm c y t e) (pF c y t e) a -
      sqLb (vsub (pArm c y t e) (pArm c y0 t e)) (vsub (pF c y t e) (pF c y0 t e)) a := by
  match a with
  | 0 | 1 | a + 2 => 
    constructor <;>
    simp only [Ctx.ubQuad, Ctx.lbQuad, tangent2, add_value', sub_value, Ctx.negL, ofConst_value, len_value, Ctx.vF, ofVar1_value, sqUb, sqLb,
      vsub, pF] <;> ring

theorem length_holds (t e : Nat) (B : ℝ) : (Op.addQua (d.ctx.lengthQuad (d.s.off e) t e) "<" (ofConst B) .none).Holds x0 thr w x ↔
    ∑ a ∈ range 3, (pArm d.ctx x t e a - d.s.off e a) ^ 2 ≤ B := by
  simp only [Op.Holds, Ctx.lengthQuad]
  have h : sumSq (((QuadExpr.empty.addQuaTerm 1 ((d.ctx.len t e 0).subC (d.s.off e 0))).addQuaTerm 1
      ((d.ctx.len t e 1).subC (d.s.off e 1))).addQuaTerm 1 ((d.ctx.len t e 2).subC (d.s.off e 2))).quad x =
      ∑ a ∈ range 3, (pArm d.ctx x t e a - d.s.off e a) ^ 2 := by
    simp [QuadExpr.addQuaTerm, QuadExpr.empty, sumSq, subC_value, len_value, Finset.sum_range_succ]; ring
  have h2 : (((QuadExpr.empty.addQuaTerm 1 ((d.ctx.len t e 0).subC (d.s.off e 0))).addQuaTerm 1
      ((d.ctx.len t e 1).subC (d.s.off e 1))).addQuaTerm 1 ((d.ctx.len t e 2).subC (d.s.off e 2))).lin.getValue x = 0 := by
    simp [QuadExpr.addQuaTerm, QuadExpr.empty]
  rw [h, h2]; simp

theorem approx_trust : (d.approx = .trustRegion ↔ d.s.heur = .trust) := by
  unfold DCtx.approx; cases d.s.heur <;> simp

theorem quad_hold : (∀ op ∈ d.quadCons, op.Holds x0 thr w x) ↔
    (∀ t < d.s.T, ∀ e < d.s.neff, d.p.active t e = true → ∀ a < 3,
      sqUb (pArm d.ctx x t e) (pF d.ctx x t e) a ≤ pUb d.ctx x t e a ∧ sqLb (pArm d.ctx x t e) (pF d.ctx x t e) a ≤ pLb d.ctx x t e a) ∧
    (d.s.heur = .trust → w = false → ∀ t < d.s.T, ∀ e < d.s.neff, d.p.active t e = true → ∀ a < 3,
      pUb d.ctx x t e a - thr ≤ sqUb (pArm d.ctx x t e) (pF d.ctx x t e) a -
        sqUb (vsub (pArm d.ctx x t e) (pArm d.ctx x0 t e)) (vsub (pF d.ctx x t e) (pF d.ctx x0 t e)) a ∧
      pLb d.ctx x t e a - thr ≤ sqLb (pArm d.ctx x t e) (pF d.ctx x t e) a -
        sqLb (vsub (pArm d.ctx x t e) (pArm d.ctx x0 t e)) (vsub (pF d.ctx x t e) (pF d.ctx x0 t e)) a) ∧
    (∀ t < d.s.T, ∀ e < d.s.neff, d.p.active t e = true →
      ∑ a ∈ range 3, (pArm d.ctx x t e a - d.s.off e a) ^ 2 ≤ d.s.maxLen e ^ 2) := by
  have hub : ∀ t e a, (Op.addQua (d.ctx.ubQuad t e a) "<" (d.ctx.vUb e a t) d.approx).Holds x0 thr w x ↔
      sqUb (pArm d.ctx x t e) (pF d.ctx x t e) a ≤ pUb d.ctx x t e a ∧ (d.s.heur = .trust → w = false →
        pUb d.ctx x t e a - thr ≤ sqUb (pArm d.ctx x t e) (pF d.ctx x t e) a -
          sqUb (vsub (pArm d.ctx x t e) (pArm d.ctx x0 t e)) (vsub (pF d.ctx x t e) (pF d.ctx x0 t e)) a) := by
    intro t e a
    simp only [Op.Holds, (ub_sumSq _ _ _ _ _).1, (ub_tangent _ _ _ _ _ _).1, (ubQuad_lin _ _ _ _ _).1, approx_trust, Ctx.vUb, ofVar1_value,
      add_zero]
    refine and_congr Iff.rfl (forall_congr' fun _ => forall_congr' fun _ => ?_)
    unfold pUb; constructor <;> intro h <;> linarith
  have hlb : ∀ t e a, (Op.addQua (d.ctx.lbQuad t e a) "<" (d.ctx.vLb e a t) d.approx).Holds x0 thr w x ↔
      sqLb (pArm d.ctx x t e) (pF d.ctx x t e) a ≤ pLb d.ctx x t e a ∧ (d.s.heur = .trust → w = false →
        pLb d.ctx x t e a - thr ≤ sqLb (pArm d.ctx x t e) (pF d.ctx x t e) a -
          sqLb (vsub (pArm d.ctx x t e) (pArm d.ctx x0 t e)) (vsub (pF d.ctx x t e) (pF d.ctx x0 t e)) a) := by
    intro t e a
    simp only [Op.Holds, (ub_sumSq _ _ _ _ _).2, (ub_tangent _ _ _ _ _ _).2, (ubQuad_lin _ _ _ _ _).2, approx_trust, Ctx.vLb, ofVar1_value,
      add_zero]
    refine and_congr Iff.rfl (forall_congr' fun _ => forall_congr' fun _ => ?_)
    unfold pLb; constructor <;> intro h <;> linarith
  simp only [DCtx.quadCons, forall_flat (β := Op), List.forall_mem_append, forall_ite, forall_map, List.mem_singleton, forall_eq, length_holds,
    hub, hlb]
  constructor
  · intro h
    exact ⟨fun t ht e he ha a h3 => ⟨((h t ht e he ha).1.1 a h3).1, ((h t ht e he ha).1.2 a h3).1⟩,
      fun h1 h2 t ht e he ha a h3 => ⟨((h t ht e he ha).1.1 a h3).2 h1 h2, ((h t ht e he ha).1.2 a h3).2 h1 h2⟩,
      fun t ht e he ha => (h t ht e he ha).2⟩
  · rintro ⟨h1, h2, h3⟩ t ht e he ha
    exact ⟨⟨fun a a3 => ⟨(h1 t ht e he ha a a3).1, fun q r => (h2 q r t ht e he ha a a3).1⟩,
      fun a a3 => ⟨(h1 t ht e he ha a a3).2, fun q r => (h2 q r t ht e he ha a a3).2⟩⟩, h3 t ht e he ha⟩

theorem lin3_value (t a : Nat) : (d.ctx.lComCons (fun t a => (d.seq t).l a) t a).getValue x =
      before d.p.iniCom (pCom d.ctx x) t a - pCom d.ctx x t a +
        4 * (0.25 / d.s.mass) * linProd (pDt d.ctx x t) (pL d.ctx x t a) (d.seq t).time ((d.seq t).l a) ∧
    (d.ctx.lLmomCons (fun t a => (d.seq t).ld a) t a).getValue x =
      before d.p.iniL (pL d.ctx x) t a - pL d.ctx x t a +
        linProd (pDt d.ctx x t) (pLd d.ctx x t a) (d.seq t).time ((d.seq t).ld a) ∧
    (d.ctx.lAmomCons (fun t a => (d.seq t).hd a) t a).getValue x =
      before d.p.iniH (pH d.ctx x) t a - pH d.ctx x t a +
        linProd (pDt d.ctx x t) (pHd d.ctx x t a) (d.seq t).time ((d.seq t).hd a) := by
  unfold Ctx.lComCons Ctx.lLmomCons Ctx.lAmomCons before linProd
  simp only [addAssign_value, tangentProd_value, ofConst_value, Ctx.vDt, Ctx.vL, Ctx.vLd, Ctx.vHd, ofVar1_value]
  refine ⟨?_, ?_, ?_⟩
  · split <;> simp only [sub_value, ofConst_value, ofVar1_value, Ctx.vCom, pCom, pDt, pL, DCtx.ctx, zero_add]
  · split <;> simp only [sub_value, ofConst_value, ofVar1_value, pLd, pDt, pL, DCtx.ctx, zero_add] <;> ring
  · split <;> simp only [sub_value, ofConst_value, ofVar1_value, Ctx.vH, pHd, pDt, pH, DCtx.ctx, zero_add] <;> ring

theorem dyn_hold (hm : d.s.mass ≠ 0) : (∀ op ∈ d.dynExprs.map TCtx.eq0, op.Holds x0 thr w x) ↔ Dynamics d x := by
  simp only [List.forall_mem_map, eq0_holds]
  unfold Dynamics DCtx.dynExprs
  have e1 : ∀ t a, forceSum d x t a = d.ctx.mass * d.ctx.grav a + sumActive d.ctx t fun e => d.ctx.mg * pF d.ctx x t e a := fun _ _ => rfl
  have e2 : ∀ t a, torqueSum d x t a =
    sumActive d.ctx t fun e => 0.25 * d.ctx.mg * (pUb d.ctx x t e a - pLb d.ctx x t e a) + d.ctx.rot t e a 2 * pTrq d.ctx x t e := fun _ _ => rfl
  have e3 : ∀ t a, before d.p.iniCom (pCom d.ctx x) t a = if t = 0 then d.ctx.iniCom a else pCom d.ctx x (t - 1) a := fun _ _ => rfl
  have e4 : ∀ t a, before d.p.iniL (pL d.ctx x) t a = if t = 0 then d.ctx.iniL a else pL d.ctx x (t - 1) a := fun _ _ => rfl
  have e5 : ∀ t a, before d.p.iniH (pH d.ctx x) t a = if t = 0 then d.ctx.iniH a else pH d.ctx x (t - 1) a := fun _ _ => rfl
  have e6 : ∀ t, d.ctx.dt t = (d.seq t).time := fun _ => rfl
  have e7 : d.ctx.mass = d.s.mass := rfl
  have e8 : d.ctx.mg = d.s.mg := rfl
  have e9 : d.ctx.ext = d.s.ext := rfl
  have e10 : d.ctx.T = d.s.T := rfl
  have com : ∀ t a, pCom d.ctx x t a - (if t = 0 then d.ctx.iniCom a else pCom d.ctx x (t - 1) a) - d.ctx.dt t / d.ctx.mass * pL d.ctx x t a = 0 ↔
      pCom d.ctx x t a = before d.p.iniCom (pCom d.ctx x) t a + (d.seq t).time * pL d.ctx x t a / d.s.mass := by
    intro t a
    rw [e3, e6, e7, div_mul_eq_mul_div]; exact rec_iff
  by_cases h : d.s.heur = .timeOpt
  · simp only [if_pos h]
    by_cases hf : d.first = true
    · simp only [if_pos hf, Ctx.timeConsFirst, forall_flat (β := LinExpr ℝ), List.forall_mem_append, forall_map, comCons_value, tLmomCons_value,
        tAmomCons_value, lmomdCons_value, amomdCons_value, com]
      rw [e10]
      constructor
      · intro q t ht a ha
        obtain ⟨⟨⟨⟨q1, q2⟩, q3⟩, q4⟩, q5⟩ := q t ht
        have r4 := q4 a ha
        have r5 := q5 a ha
        have r2 := q2 a ha
        have r3 := q3 a ha
        rw [← e1] at r4
        rw [← e2] at r5
        rw [← e4, e6] at r2
        rw [← e5, e6] at r3
        exact ⟨by linarith, by linarith, q1 a ha, by linarith, by linarith⟩
      · intro q t ht
        refine ⟨⟨⟨⟨fun a ha => (q t ht a ha).2.2.1, fun a ha => ?_⟩, fun a ha => ?_⟩, fun a ha => ?_⟩, fun a ha => ?_⟩
        · have := (q t ht a ha).2.2.2.1; rw [← e4, e6]; linarith
        · have := (q t ht a ha).2.2.2.2; rw [← e5, e6]; linarith
        · have := (q t ht a ha).1; rw [← e1]; linarith
        · have := (q t ht a ha).2.1; rw [← e2]; linarith
    · have k : 4 * (0.25 / d.s.mass) = 1 / d.s.mass := by field_simp; norm_num
      simp only [if_neg hf, Ctx.timeConsLater, forall_flat (β := LinExpr ℝ), List.forall_mem_append, forall_map, (lin3_value d x _ _).1,
        (lin3_value d x _ _).2.1, (lin3_value d x _ _).2.2, lmomdCons_value, amomdCons_value, k]
      rw [e10]
      constructor
      · intro q t ht a ha
        obtain ⟨⟨⟨⟨q1, q2⟩, q3⟩, q4⟩, q5⟩ := q t ht
        have r1 := q1 a ha
        have r4 := q4 a ha
        have r5 := q5 a ha
        have r2 := q2 a ha
        have r3 := q3 a ha
        rw [← e1] at r4
        rw [← e2] at r5
        rw [one_div_mul_eq_div] at r1
        exact ⟨by linarith, by linarith, by linarith, by linarith, by linarith⟩
      · intro q t ht
        refine ⟨⟨⟨⟨fun a ha => ?_, fun a ha => ?_⟩, fun a ha => ?_⟩, fun a ha => ?_⟩, fun a ha => ?_⟩
        · have := (q t ht a ha).2.2.1; rw [one_div_mul_eq_div]; linarith
        · have := (q t ht a ha).2.2.2.1; linarith
        · have := (q t ht a ha).2.2.2.2; linarith
        · have := (q t ht a ha).1; rw [← e1]; linarith
        · have := (q t ht a ha).2.1; rw [← e2]; linarith
  · simp only [if_neg h, Ctx.fixedCons, forall_flat (β := LinExpr ℝ), List.forall_mem_append, forall_map, comCons_value, lmomCons_value,
      amomCons_value, com]
    rw [e10]
    constructor
    · intro q t ht a ha
      obtain ⟨⟨q1, q2⟩, q3⟩ := q t ht
      have r2 := q2 a ha
      have r3 := q3 a ha
      rw [← e1, ← e4, e6, e6, e8, e9] at r2
      rw [← e2, ← e5, e6] at r3
      exact ⟨q1 a ha, by linarith, by linarith⟩
    · intro q t ht
      refine ⟨⟨fun a ha => (q t ht a ha).1, fun a ha => ?_⟩, fun a ha => ?_⟩
      · have := (q t ht a ha).2.1; rw [← e1, ← e4, e6, e6, e8, e9]; linarith
      · have := (q t ht a ha).2.2; rw [← e2, ← e5, e6]; linarith

end

/-- C119: the constraints handed to the solver hold at a point exactly if it satisfies the limits of the plan and the
centroidal dynamics. -/
theorem C119_constraints (d : DCtx) (hm : d.s.mass ≠ 0) (x0 : Nat → ℝ) (thr : ℝ) (w : Bool) (x : Nat → ℝ) :
    (∀ op ∈ d.cons, op.Holds x0 thr w x) ↔ Limits d x0 thr w x ∧ Dynamics d x := by
  simp only [DCtx.cons, List.forall_mem_append]
  rw [height_holds, horizon_holds, ranges_hold, friction_hold, dyn_hold _ _ _ _ _ hm, quad_hold]
  constructor
  · rintro ⟨⟨⟨⟨⟨h1, h2⟩, h3, h4, h5⟩, h6⟩, h7⟩, h8, h9, h10⟩
    exact ⟨⟨h1, h2, h3, h4, h5, h6, h8, h9, h10⟩, h7⟩
  · rintro ⟨⟨h1, h2, h3, h4, h5, h6, h8, h9, h10⟩, h7⟩
    exact ⟨⟨⟨⟨⟨h1, h2⟩, h3, h4, h5⟩, h6⟩, h7⟩, h8, h9, h10⟩

section
variable {z : Nat → ℝ} {h : Heur} {seq : Nat → DState} {first : Bool} {τ : ℝ} {dt am : Nat → ℝ} {x : Nat → ℝ}

theorem ex_force (hx : HasVals (exAtZ z h seq first) (exSpin τ dt am) x) (t : Nat) (ht : t < 3) (a : Nat) (ha : a < 3) :
    forceSum (exAtZ z h seq first) x t a = 0 := by
  have hF : pF (exAtZ z h seq first).ctx x t 0 a = if a = 2 then 1 else 0 := hx.f t ht 0 one_pos rfl a ha
  have : (sumActive (exAtZ z h seq first).ctx t fun e => (exAtZ z h seq first).s.mg * pF (exAtZ z h seq first).ctx x t e a) = if a = 2 then 1 else 0 := by
    show (∑ e ∈ range 1, if (decide (e = 0)) = true then (1 : ℝ) * pF (exAtZ z h seq first).ctx x t e a else 0) = _
    rw [sum_range_one, if_pos (by simp), hF, one_mul]
  rw [forceSum, this]
  interval_cases a <;> simp [exAtZ, exSet]

theorem ex_torque (hx : HasVals (exAtZ z h seq first) (exSpin τ dt am) x) (t : Nat) (ht : t < 3) (a : Nat) (ha : a < 3) :
    torqueSum (exAtZ z h seq first) x t a = if a = 2 then τ else 0 := by
  have hU : pUb (exAtZ z h seq first).ctx x t 0 a = if a = 2 then 0 else 2 := hx.ub t ht 0 one_pos rfl a ha
  have hL : pLb (exAtZ z h seq first).ctx x t 0 a = if a = 2 then 0 else 2 := hx.lb t ht 0 one_pos rfl a ha
  have hT : pTrq (exAtZ z h seq first).ctx x t 0 = τ := hx.trq t ht 0 one_pos rfl
  rw [torqueSum]
  show (∑ e ∈ range 1, if (decide (e = 0)) = true then (0.25 * (1 : ℝ) * (pUb (exAtZ z h seq first).ctx x t e a - pLb (exAtZ z h seq first).ctx x t e a) +
    (exAtZ z h seq first).p.rot t e a 2 * pTrq (exAtZ z h seq first).ctx x t e) else 0) = _
  rw [sum_range_one, if_pos (by simp), hU, hL, hT]
  simp [exAtZ, exPlanZ]

theorem ex_arm (hx : HasVals (exAtZ z h seq first) (exSpin τ dt am) x) (t : Nat) (ht : t < 3) (a : Nat) (ha : a < 3) :
    pArm (exAtZ z h seq first).ctx x t 0 a = if a = 2 then z t else 0 := by
  have hc : ∀ a < 2, pCop (exAtZ z h seq first).ctx x t 0 a = 0 := fun a ha => hx.cop t ht 0 one_pos rfl a ha
  have hC : pCom (exAtZ z h seq first).ctx x t a = 0 := hx.com t ht a ha
  rw [pArm, hC, hc 0 (by omega), hc 1 (by omega)]
  simp [exAtZ, DCtx.ctx, exPlanZ]

theorem ex_squares (hz : ∀ t, z t ^ 2 = 1) (hx : HasVals (exAtZ z h seq first) (exSpin τ dt am) x) (t : Nat) (ht : t < 3) (a : Nat) (ha : a < 3) :
    sqUb (pArm (exAtZ z h seq first).ctx x t 0) (pF (exAtZ z h seq first).ctx x t 0) a = (if a = 2 then 0 else 2) ∧
    sqLb (pArm (exAtZ z h seq first).ctx x t 0) (pF (exAtZ z h seq first).ctx x t 0) a = if a = 2 then 0 else 2 := by
  have hF : ∀ a < 3, pF (exAtZ z h seq first).ctx x t 0 a = if a = 2 then 1 else 0 := fun a ha => hx.f t ht 0 one_pos rfl a ha
  have hA := ex_arm hx t ht
  constructor <;>
  interval_cases a <;> simp only [sqUb, sqLb, hA _ (by omega : 0 < 3), hA _ (by omega : 1 < 3), hA _ (by omega : 2 < 3),
    hF _ (by omega : 0 < 3), hF _ (by omega : 1 < 3), hF _ (by omega : 2 < 3)] <;> norm_num <;> linarith [hz t]

theorem vsub_self_sq (u v : Nat → ℝ) (a : Nat) : sqUb (vsub u u) (vsub v v) a = 0 ∧ sqLb (vsub u u) (vsub v v) a = 0 := by
  match a with | 0 | 1 | a + 2 => simp [sqUb, sqLb, vsub]

/-- The limits of the example. -/
theorem ex_limits (hz : ∀ t, z t ^ 2 = 1) (hz0 : z 0 = -1) (hx : HasVals (exAtZ z h seq first) (exSpin τ dt am) x) (hτ : |τ| ≤ 1) (hs : dt 0 + dt 1 + dt 2 = 3 / 10)
    (hdt : ∀ t < 3, 1 / 20 ≤ dt t ∧ dt t ≤ 1 / 5) (thr : ℝ) (hthr : 0 ≤ thr) (w : Bool) :
    Limits (exAtZ z h seq first) x thr w x := by
  have hF : ∀ t < 3, ∀ a < 3, pF (exAtZ z h seq first).ctx x t 0 a = if a = 2 then 1 else 0 := fun t ht a ha => hx.f t ht 0 one_pos rfl a ha
  have hU : ∀ t < 3, ∀ a < 3, pUb (exAtZ z h seq first).ctx x t 0 a = if a = 2 then 0 else 2 := fun t ht a ha => hx.ub t ht 0 one_pos rfl a ha
  have hL : ∀ t < 3, ∀ a < 3, pLb (exAtZ z h seq first).ctx x t 0 a = if a = 2 then 0 else 2 := fun t ht a ha => hx.lb t ht 0 one_pos rfl a ha
  have hc : ∀ t < 3, ∀ a < 2, pCop (exAtZ z h seq first).ctx x t 0 a = 0 := fun t ht a ha => hx.cop t ht 0 one_pos rfl a ha
  have hT : ∀ t < 3, pTrq (exAtZ z h seq first).ctx x t 0 = τ := fun t ht => hx.trq t ht 0 one_pos rfl
  have hC : ∀ t < 3, ∀ a < 3, pCom (exAtZ z h seq first).ctx x t a = 0 := fun t ht a ha => hx.com t ht a ha
  have hA := ex_arm hx
  have hloc : ∀ t < 3, ∀ k < 3, pLocal (exAtZ z h seq first).ctx x t 0 k = if k = 2 then 1 else 0 := by
    intro t ht k hk
    rw [pLocal, hF t ht 0 (by omega), hF t ht 1 (by omega), hF t ht 2 (by omega)]
    interval_cases k <;> simp [exAtZ, DCtx.ctx, exPlanZ]
  have hone : ∀ e, e < (exAtZ z h seq first).s.neff → e = 0 := fun e he => by have : e < 1 := he; omega
  constructor
  · intro t ht; rw [hC t ht 2 (by omega)]; norm_num [exAtZ, exSet, exPlanZ, hz0]
  · intro hh _
    rw [sum_congr rfl (fun t ht => hx.dt hh t (mem_range.1 ht))]
    show ∑ t ∈ range 3, dt t = (3 : ℕ) * (1 / 10 : ℝ)
    simp only [sum_range_succ, sum_range_zero]; push_cast; linarith
  · intro hh t ht; rw [hx.dt hh t ht]; exact hdt t ht
  · intro t ht e he _; obtain rfl := hone e he; rw [hT t ht]; exact abs_le.1 hτ
  · intro t ht e he _; obtain rfl := hone e he; rw [hc t ht 0 (by omega), hc t ht 1 (by omega)]; norm_num [exAtZ, exSet]
  · intro t ht e he _ _; obtain rfl := hone e he
    rw [if_neg (by simp [exAtZ, exSet]), Coulomb, hloc t ht 0 (by omega), hloc t ht 1 (by omega), hloc t ht 2 (by omega)]
    norm_num [exAtZ, exSet]
  · intro t ht e he _ a ha; obtain rfl := hone e he
    rw [(ex_squares hz hx t ht a ha).1, (ex_squares hz hx t ht a ha).2, hU t ht a ha, hL t ht a ha]; exact ⟨le_refl _, le_refl _⟩
  · intro _ _ t ht e he _ a ha; obtain rfl := hone e he
    rw [(vsub_self_sq _ _ a).1, (vsub_self_sq _ _ a).2, (ex_squares hz hx t ht a ha).1, (ex_squares hz hx t ht a ha).2, hU t ht a ha, hL t ht a ha]
    constructor <;> linarith
  · intro t ht e he _; obtain rfl := hone e he
    rw [sum_congr rfl (fun a ha => by rw [hA t ht a (mem_range.1 ha)])]
    simp [exAtZ, exSet, sum_range_succ, hz t]

/-- The dynamics of the example: the angular momentum integrates the torque over the stored time steps, in a later problem
over the new ones. -/
theorem ex_dynamics (hx : HasVals (exAtZ z h seq first) (exSpin τ dt am) x)
    (ha : ∀ t < 3, am t = (if t = 0 then 0 else am (t - 1)) + (if h = .timeOpt ∧ first = false then dt t else (seq t).time) * τ)
    (hl : h = .timeOpt → first = false → ∀ t < 3, ∀ a < 3, (seq t).l a = 0 ∧ (seq t).ld a = 0 ∧ (seq t).hd a = if a = 2 then τ else 0) :
    Dynamics (exAtZ z h seq first) x := by
  have hC : ∀ t < 3, ∀ a < 3, pCom (exAtZ z h seq first).ctx x t a = 0 := fun t ht a ha => hx.com t ht a ha
  have hP : ∀ t < 3, ∀ a < 3, pL (exAtZ z h seq first).ctx x t a = 0 := fun t ht a ha => hx.l t ht a ha
  have hH : ∀ t < 3, ∀ a < 3, pH (exAtZ z h seq first).ctx x t a = if a = 2 then am t else 0 := fun t ht a ha => hx.h t ht a ha
  intro t ht a hlt
  have ht3 : t < 3 := ht
  have b : ∀ f : Nat → Nat → ℝ, (∀ t < 3, ∀ a < 3, f t a = 0) → before (fun _ => 0) f t a = 0 := by
    intro f hf; unfold before; split
    · rfl
    · exact hf _ (by omega) a hlt
  have b1 : before (exAtZ z h seq first).p.iniCom (pCom (exAtZ z h seq first).ctx x) t a = 0 := b _ hC
  have b2 : before (exAtZ z h seq first).p.iniL (pL (exAtZ z h seq first).ctx x) t a = 0 := b _ hP
  have b3 : before (exAtZ z h seq first).p.iniH (pH (exAtZ z h seq first).ctx x) t a = if a = 2 then (if t = 0 then 0 else am (t - 1)) else 0 := by
    unfold before; split
    · simp [exAtZ, exPlanZ]
    · exact hH _ (by omega) a hlt
  have r := ha t ht3
  rw [ex_force hx t ht a hlt, ex_torque hx t ht a hlt, hC t ht a hlt, hP t ht a hlt, hH t ht a hlt, b1, b2, b3]
  split
  · rename_i hh
    have hh' : h = .timeOpt := hh
    rw [hx.ld hh t ht a hlt, hx.hd hh t ht a hlt, hx.dt hh t ht]
    refine ⟨rfl, rfl, ?_⟩
    cases first with
    | true =>
      rw [if_pos (show (exAtZ z h seq true).first = true from rfl)]
      rw [if_neg (show ¬ (h = .timeOpt ∧ true = false) by simp)] at r
      refine ⟨by simp, by simp [exSpin], ?_⟩
      simp only [exSpin]
      split
      · rw [r]; rfl
      · simp
    | false =>
      rw [if_neg (by simp [exAtZ])]
      rw [if_pos (show h = .timeOpt ∧ false = false from ⟨hh', rfl⟩)] at r
      obtain ⟨q1, q2, q3⟩ := hl hh' rfl t ht3 a hlt
      have e1 : (exAtZ z h seq false).seq = seq := rfl
      rw [e1, q1, q2, q3]
      refine ⟨by simp [linProd], by simp [linProd, exSpin], ?_⟩
      simp only [exSpin, linProd]
      split
      · rw [r]; ring
      · simp
  · rename_i hh
    have hh' : ¬ h = .timeOpt := hh
    rw [if_neg (show ¬ (h = .timeOpt ∧ first = false) by simp [hh'])] at r
    refine ⟨by simp, by simp [exAtZ, exSet], ?_⟩
    split
    · rw [r]; rfl
    · simp

end

/-- Standing still satisfies limits and dynamics of the example, for every heuristic. -/
theorem ex_standing (h : Heur) (x : Nat → ℝ) (hx : HasVals (exD h) exVals x) (thr : ℝ) (hthr : 0 ≤ thr) (w : Bool) :
    Limits (exD h) x thr w x ∧ Dynamics (exD h) x :=
  ⟨ex_limits (fun _ => by norm_num) rfl hx (by norm_num) (by norm_num) (fun _ _ => by norm_num) thr hthr w, ex_dynamics hx (fun t _ => by simp) (fun _ h => by simp at h)⟩

/-- C119 is not vacuous: the constraints of the example hold for the standing robot, whatever the heuristic. -/
example (h : Heur) : ∃ x, ∀ op ∈ (exD h).cons, op.Holds x 0 false x := by
  obtain ⟨x, hx⟩ := exists_vals (exD h) (exPlan_ok h) exVals
  exact ⟨x, (C119_constraints (exD h) (by norm_num [exAtZ, exSet]) x 0 false x).2 (ex_standing h x hx 0 le_rfl false)⟩

end Dyn
end Verif
