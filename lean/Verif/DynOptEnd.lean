import Verif.DynOptSolve

/-! C121, C122: registration of the variables and the problem the solver sees. -/
namespace Verif
namespace Dyn
open LinExpr Kin Finset

theorem reg_lin (l r : LinExpr ℝ) (s : String) (x y : Nat → ℝ) (h : l.getValue x - r.getValue x ≠ l.getValue y - r.getValue y) :
    (Op.addLin l s r).Regular :=
  ⟨terms_ne_nil _ x y (by rw [sub_value, sub_value]; exact h),
   terms_ne_nil _ x y (by rw [sub_value, sub_value]; intro q; apply h; linarith)⟩

theorem sumActive_zero (c : Ctx) (t : Nat) (f : Nat → ℝ) (h : ∀ e < c.neff, c.active t e = true → f e = 0) : sumActive c t f = 0 := by
  unfold sumActive
  refine sum_eq_zero fun e he => ?_
  split
  · next ha => exact h e (mem_range.1 he) ha
  · rfl

section
variable (d : DCtx) (hp : d.p.Ok d.s)

/-- The unit vector of the entry (row, column) of a block. -/
noncomputable def unit (d : DCtx) (i r c : Nat) : Nat → ℝ := ind (vcol (blk (d.s.layout d.p.steps) i) r c)

theorem unit_self (i r c : Nat) : unit d i r c (vcol (blk (d.s.layout d.p.steps) i) r c) = 1 := by simp [unit, ind]

theorem uCom (i r c : Nat) (h : IsVar d.s d.p.steps i r c) (t a : Nat) (ht : t < d.s.T) (ha : a < 3) (ne : i ≠ 0 ∨ r ≠ a ∨ c ≠ t) :
    pCom d.ctx (unit d i r c) t a = 0 := ind_var _ _ _ _ _ 0 a t h (isVar_base d.s d.p.steps 0 a t (by omega) ha ht) ne
theorem uL (i r c : Nat) (h : IsVar d.s d.p.steps i r c) (t a : Nat) (ht : t < d.s.T) (ha : a < 3) (ne : i ≠ 1 ∨ r ≠ a ∨ c ≠ t) :
    pL d.ctx (unit d i r c) t a = 0 := ind_var _ _ _ _ _ 1 a t h (isVar_base d.s d.p.steps 1 a t (by omega) ha ht) ne
theorem uH (i r c : Nat) (h : IsVar d.s d.p.steps i r c) (t a : Nat) (ht : t < d.s.T) (ha : a < 3) (ne : i ≠ 2 ∨ r ≠ a ∨ c ≠ t) :
    pH d.ctx (unit d i r c) t a = 0 := ind_var _ _ _ _ _ 2 a t h (isVar_base d.s d.p.steps 2 a t (by omega) ha ht) ne
theorem uDt (hh : d.s.heur = .timeOpt) (i r c : Nat) (h : IsVar d.s d.p.steps i r c) (t : Nat) (ht : t < d.s.T) (ne : i ≠ 3) :
    pDt d.ctx (unit d i r c) t = 0 :=
  ind_var _ _ _ _ _ 3 0 t h (isVar_time d.s d.p.steps hh 0 0 t (by omega) (by simp) ht) (Or.inl ne)
theorem uLd (hh : d.s.heur = .timeOpt) (i r c : Nat) (h : IsVar d.s d.p.steps i r c) (t a : Nat) (ht : t < d.s.T) (ha : a < 3) (ne : i ≠ 4) :
    pLd d.ctx (unit d i r c) t a = 0 :=
  ind_var _ _ _ _ _ 4 a t h (isVar_time d.s d.p.steps hh 1 a t (by omega) (by simpa using ha) ht) (Or.inl ne)
theorem uHd (hh : d.s.heur = .timeOpt) (i r c : Nat) (h : IsVar d.s d.p.steps i r c) (t a : Nat) (ht : t < d.s.T) (ha : a < 3) (ne : i ≠ 5) :
    pHd d.ctx (unit d i r c) t a = 0 :=
  ind_var _ _ _ _ _ 5 a t h (isVar_time d.s d.p.steps hh 2 a t (by omega) (by simpa using ha) ht) (Or.inl ne)
include hp
theorem uEff (i r c : Nat) (h : IsVar d.s d.p.steps i r c) (hi : i < d.s.base) (t e a : Nat) (ht : t < d.s.T) (he : e < d.s.neff)
    (hact : d.p.active t e = true) (ha : a < 3) :
    pF d.ctx (unit d i r c) t e a = 0 ∧ pLb d.ctx (unit d i r c) t e a = 0 ∧ pUb d.ctx (unit d i r c) t e a = 0 ∧
    pTrq d.ctx (unit d i r c) t e = 0 := by
  have k := hp t ht e he hact
  refine ⟨?_, ?_, ?_, ?_⟩
  · exact ind_var _ _ _ _ _ (d.s.base + (5 * e + 2)) a _ h (isVar_eff d.s d.p.steps e 2 a _ he (by omega) (by simpa [effRows] using ha) k) (Or.inl (by omega))
  · exact ind_var _ _ _ _ _ (d.s.base + (5 * e + 0)) a _ h (isVar_eff d.s d.p.steps e 0 a _ he (by omega) (by simpa [effRows] using ha) k) (Or.inl (by omega))
  · exact ind_var _ _ _ _ _ (d.s.base + (5 * e + 1)) a _ h (isVar_eff d.s d.p.steps e 1 a _ he (by omega) (by simpa [effRows] using ha) k) (Or.inl (by omega))
  · exact ind_var _ _ _ _ _ (d.s.base + (5 * e + 4)) 0 _ h (isVar_eff d.s d.p.steps e 4 0 _ he (by omega) (by simp [effRows]) k) (Or.inl (by omega))

theorem uForce (i r c : Nat) (h : IsVar d.s d.p.steps i r c) (hi : i < d.s.base) (t a : Nat) (ht : t < d.s.T) (ha : a < 3) :
    (sumActive d.ctx t fun e => d.ctx.mg * pF d.ctx (unit d i r c) t e a) = 0 :=
  sumActive_zero _ _ _ fun e he hact => by rw [(uEff d hp i r c h hi t e a ht he hact ha).1, mul_zero]

theorem uTorque (i r c : Nat) (h : IsVar d.s d.p.steps i r c) (hi : i < d.s.base) (t a : Nat) (ht : t < d.s.T) (ha : a < 3) :
    (sumActive d.ctx t fun e => 0.25 * d.ctx.mg * (pUb d.ctx (unit d i r c) t e a - pLb d.ctx (unit d i r c) t e a) +
      d.ctx.rot t e a 2 * pTrq d.ctx (unit d i r c) t e) = 0 :=
  sumActive_zero _ _ _ fun e he hact => by
    obtain ⟨_, h2, h3, h4⟩ := uEff d hp i r c h hi t e a ht he hact ha
    rw [h2, h3, h4]; ring

omit hp in
/-- The zero vector. -/
theorem zForce (t a : Nat) : (sumActive d.ctx t fun e => d.ctx.mg * pF d.ctx (fun _ => 0) t e a) = 0 :=
  sumActive_zero _ _ _ fun e _ _ => by rw [pF, mul_zero]

omit hp in
theorem zTorque (t a : Nat) : (sumActive d.ctx t fun e => 0.25 * d.ctx.mg * (pUb d.ctx (fun _ => 0) t e a - pLb d.ctx (fun _ => 0) t e a) +
      d.ctx.rot t e a 2 * pTrq d.ctx (fun _ => 0) t e) = 0 :=
  sumActive_zero _ _ _ fun e _ _ => by rw [pUb, pLb, pTrq]; ring

omit hp in
theorem prev_zero (f : Nat → Nat → ℝ) (ini : ℝ) (t a : Nat) (h : ∀ s, s + 1 = t → f s a = 0) :
    (if t = 0 then ini else f (t - 1) a) = if t = 0 then ini else 0 := by
  split
  · rfl
  · next h0 => rw [h (t - 1) (by omega)]

theorem dyn_regular : ∀ l ∈ d.dynExprs, (TCtx.eq0 l).Regular := by
  have b3 := base_le d.s
  have key : ∀ l : LinExpr ℝ, ∀ i r c, l.getValue (unit d i r c) ≠ l.getValue (fun _ => 0) → (TCtx.eq0 l).Regular := by
    intro l i r c h
    exact reg_lin l (ofConst 0) "=" (unit d i r c) (fun _ => 0) (by rw [ofConst_value, ofConst_value]; simpa using h)
  have vC : ∀ t < d.s.T, ∀ a < 3, IsVar d.s d.p.steps 0 a t := fun t ht a ha => isVar_base _ _ 0 a t (by omega) ha ht
  have vL : ∀ t < d.s.T, ∀ a < 3, IsVar d.s d.p.steps 1 a t := fun t ht a ha => isVar_base _ _ 1 a t (by omega) ha ht
  have vH : ∀ t < d.s.T, ∀ a < 3, IsVar d.s d.p.steps 2 a t := fun t ht a ha => isVar_base _ _ 2 a t (by omega) ha ht
  have sC : ∀ t a, pCom d.ctx (unit d 0 a t) t a = 1 := fun t a => unit_self d 0 a t
  have sL : ∀ t a, pL d.ctx (unit d 1 a t) t a = 1 := fun t a => unit_self d 1 a t
  have sH : ∀ t a, pH d.ctx (unit d 2 a t) t a = 1 := fun t a => unit_self d 2 a t
  have zC : ∀ t a, pCom d.ctx (fun _ => 0) t a = 0 := fun _ _ => rfl
  have zL : ∀ t a, pL d.ctx (fun _ => 0) t a = 0 := fun _ _ => rfl
  have zH : ∀ t a, pH d.ctx (fun _ => 0) t a = 0 := fun _ _ => rfl
  have zDt : ∀ t, pDt d.ctx (fun _ => 0) t = 0 := fun _ => rfl
  have zLd : ∀ t a, pLd d.ctx (fun _ => 0) t a = 0 := fun _ _ => rfl
  have zHd : ∀ t a, pHd d.ctx (fun _ => 0) t a = 0 := fun _ _ => rfl
  have pc : ∀ t < d.s.T, ∀ a < 3, ∀ ini : ℝ, (if t = 0 then ini else pCom d.ctx (unit d 0 a t) (t - 1) a) = if t = 0 then ini else 0 :=
    fun t ht a ha ini => prev_zero _ _ t a fun s hs => uCom d 0 a t (vC t ht a ha) s a (by omega) ha (Or.inr (Or.inr (by omega)))
  have pl : ∀ t < d.s.T, ∀ a < 3, ∀ ini : ℝ, (if t = 0 then ini else pL d.ctx (unit d 1 a t) (t - 1) a) = if t = 0 then ini else 0 :=
    fun t ht a ha ini => prev_zero _ _ t a fun s hs => uL d 1 a t (vL t ht a ha) s a (by omega) ha (Or.inr (Or.inr (by omega)))
  have ph : ∀ t < d.s.T, ∀ a < 3, ∀ ini : ℝ, (if t = 0 then ini else pH d.ctx (unit d 2 a t) (t - 1) a) = if t = 0 then ini else 0 :=
    fun t ht a ha ini => prev_zero _ _ t a fun s hs => uH d 2 a t (vH t ht a ha) s a (by omega) ha (Or.inr (Or.inr (by omega)))
  have zi : ∀ (t a : Nat) (ini : ℝ) (f : Nat → Nat → ℝ), (∀ s b, f s b = 0) → (if t = 0 then ini else f (t - 1) a) = if t = 0 then ini else 0 :=
    fun t a ini f h => prev_zero _ _ t a fun s _ => h s a
  have com : ∀ t < d.s.T, ∀ a < 3, (TCtx.eq0 (d.ctx.comCons t a)).Regular := by
    intro t ht a ha
    refine key _ 0 a t ?_
    rw [comCons_value, comCons_value, sC, zC, zL, pc t ht a ha, zi t a _ _ zC, uL d 0 a t (vC t ht a ha) t a ht ha (Or.inl (by omega))]
    intro h; linarith
  unfold DCtx.dynExprs
  by_cases h : d.s.heur = .timeOpt
  · have b6 := base_time d.s h
    have vLd : ∀ t < d.s.T, ∀ a < 3, IsVar d.s d.p.steps 4 a t := fun t ht a ha => isVar_time _ _ h 1 a t (by omega) (by simpa using ha) ht
    have vHd : ∀ t < d.s.T, ∀ a < 3, IsVar d.s d.p.steps 5 a t := fun t ht a ha => isVar_time _ _ h 2 a t (by omega) (by simpa using ha) ht
    have sLd : ∀ t a, pLd d.ctx (unit d 4 a t) t a = 1 := fun t a => unit_self d 4 a t
    have sHd : ∀ t a, pHd d.ctx (unit d 5 a t) t a = 1 := fun t a => unit_self d 5 a t
    have lmd : ∀ t < d.s.T, ∀ a < 3, (TCtx.eq0 (d.ctx.lmomdCons t a)).Regular := by
      intro t ht a ha
      refine key _ 4 a t ?_
      rw [lmomdCons_value, lmomdCons_value, sLd, zLd, uForce d hp 4 a t (vLd t ht a ha) (by omega) t a ht ha, zForce]
      intro h; linarith
    have hmd : ∀ t < d.s.T, ∀ a < 3, (TCtx.eq0 (d.ctx.amomdCons t a)).Regular := by
      intro t ht a ha
      refine key _ 5 a t ?_
      rw [amomdCons_value, amomdCons_value, sHd, zHd, uTorque d hp 5 a t (vHd t ht a ha) (by omega) t a ht ha, zTorque]
      intro h; linarith
    rw [if_pos h]
    by_cases hf : d.first = true
    · rw [if_pos hf]
      simp only [Ctx.timeConsFirst, forall_flat (β := LinExpr ℝ), List.forall_mem_append, forall_map]
      intro t ht
      refine ⟨⟨⟨⟨com t ht, fun a ha => ?_⟩, fun a ha => ?_⟩, lmd t ht⟩, hmd t ht⟩
      · refine key _ 1 a t ?_
        rw [tLmomCons_value, tLmomCons_value, sL, zL, zLd, pl t ht a ha, zi t a _ _ zL, uLd d h 1 a t (vL t ht a ha) t a ht ha (by omega)]
        intro h; linarith
      · refine key _ 2 a t ?_
        rw [tAmomCons_value, tAmomCons_value, sH, zH, zHd, ph t ht a ha, zi t a _ _ zH, uHd d h 2 a t (vH t ht a ha) t a ht ha (by omega)]
        intro h; linarith
    · rw [if_neg hf]
      simp only [Ctx.timeConsLater, forall_flat (β := LinExpr ℝ), List.forall_mem_append, forall_map]
      intro t ht
      refine ⟨⟨⟨⟨fun a ha => ?_, fun a ha => ?_⟩, fun a ha => ?_⟩, lmd t ht⟩, hmd t ht⟩
      · refine key _ 0 a t ?_
        rw [(lin3_value d _ _ _).1, (lin3_value d _ _ _).1, before, before, sC, pc t ht a ha, zi t a _ _ zC, zC, zL, zDt,
          uL d 0 a t (vC t ht a ha) t a ht ha (Or.inl (by omega)), uDt d h 0 a t (vC t ht a ha) t ht (by omega)]
        intro h; linarith
      · refine key _ 1 a t ?_
        rw [(lin3_value d _ _ _).2.1, (lin3_value d _ _ _).2.1, before, before, sL, pl t ht a ha, zi t a _ _ zL, zL, zLd, zDt,
          uLd d h 1 a t (vL t ht a ha) t a ht ha (by omega), uDt d h 1 a t (vL t ht a ha) t ht (by omega)]
        intro h; linarith
      · refine key _ 2 a t ?_
        rw [(lin3_value d _ _ _).2.2, (lin3_value d _ _ _).2.2, before, before, sH, ph t ht a ha, zi t a _ _ zH, zH, zHd, zDt,
          uHd d h 2 a t (vH t ht a ha) t a ht ha (by omega), uDt d h 2 a t (vH t ht a ha) t ht (by omega)]
        intro h; linarith
  · rw [if_neg h]
    simp only [Ctx.fixedCons, forall_flat (β := LinExpr ℝ), List.forall_mem_append, forall_map]
    intro t ht
    refine ⟨⟨com t ht, fun a ha => ?_⟩, fun a ha => ?_⟩
    · refine key _ 1 a t ?_
      rw [lmomCons_value, lmomCons_value, sL, zL, pl t ht a ha, zi t a _ _ zL, uForce d hp 1 a t (vL t ht a ha) (by omega) t a ht ha, zForce]
      intro h; linarith
    · refine key _ 2 a t ?_
      rw [amomCons_value, amomCons_value, sH, zH, ph t ht a ha, zi t a _ _ zH, uTorque d hp 2 a t (vH t ht a ha) (by omega) t a ht ha, zTorque]
      intro h; linarith

end

/-- The third axis of the frame of an active contact is a unit vector perpendicular to the other two. -/
def DPlan.Frames (s : DSet) (p : DPlan) : Prop := ∀ t < s.T, ∀ e < s.neff, p.active t e = true → ∀ k < 3,
  p.rot t e 0 2 * p.rot t e 0 k + p.rot t e 1 2 * p.rot t e 1 k + p.rot t e 2 2 * p.rot t e 2 k = if k = 2 then 1 else 0

theorem row_regular (d : DCtx) (hp : d.p.Ok d.s) (hr : d.p.Frames d.s) (t e i : Nat) (ht : t < d.s.T) (he : e < d.s.neff)
    (h : d.p.active t e = true) (hi : i < 4) (mu : ℝ) : (Op.addLin (d.ctx.frictionRow mu t e i) "<" (ofConst 0)).Regular := by
  have v : ∀ a < 3, IsVar d.s d.p.steps (d.s.base + (5 * e + 2)) a (d.p.actId t e) := fun a ha =>
    isVar_eff d.s d.p.steps e 2 a _ he (by omega) (by simpa [effRows] using ha) (hp t ht e he h)
  let x : Nat → ℝ := fun k => d.p.rot t e 0 2 * unit d (d.s.base + (5 * e + 2)) 0 (d.p.actId t e) k +
    d.p.rot t e 1 2 * unit d (d.s.base + (5 * e + 2)) 1 (d.p.actId t e) k + d.p.rot t e 2 2 * unit d (d.s.base + (5 * e + 2)) 2 (d.p.actId t e) k
  have hv : ∀ a < 3, pF d.ctx x t e a = d.p.rot t e a 2 := by
    intro a ha
    have q : ∀ b < 3, b ≠ a → unit d (d.s.base + (5 * e + 2)) b (d.p.actId t e) (vcol (d.ctx.frc e) a (d.ctx.actId t e)) = 0 :=
      fun b hb hne => ind_var d.s d.p.steps _ b _ (d.s.base + (5 * e + 2)) a (d.p.actId t e) (v b hb) (v a ha) (Or.inr (Or.inl hne))
    have o : unit d (d.s.base + (5 * e + 2)) a (d.p.actId t e) (vcol (d.ctx.frc e) a (d.ctx.actId t e)) = 1 := unit_self d _ a _
    show x (vcol (d.ctx.frc e) a (d.ctx.actId t e)) = _
    match a, ha with
    | 0, _ => simp only [x]; rw [o, q 1 (by omega) (by omega), q 2 (by omega) (by omega)]; ring
    | 1, _ => simp only [x]; rw [o, q 0 (by omega) (by omega), q 2 (by omega) (by omega)]; ring
    | 2, _ => simp only [x]; rw [o, q 0 (by omega) (by omega), q 1 (by omega) (by omega)]; ring
  have hl : ∀ k < 3, pLocal d.ctx x t e k = if k = 2 then 1 else 0 := by
    intro k hk
    rw [pLocal, hv 0 (by omega), hv 1 (by omega), hv 2 (by omega)]; exact hr t ht e he h k hk
  refine reg_lin _ _ _ x (fun _ => 0) ?_
  have z : ∀ k, pLocal d.ctx (fun _ => 0) t e k = 0 := fun k => by simp [pLocal, pF]
  rw [ofConst_value, ofConst_value, frictionRow_value, frictionRow_value, hl 0 (by omega), hl 1 (by omega), hl 2 (by omega), z, z, z]
  obtain ⟨N, hN, r0, r1, r2, r3⟩ := coneRow_value mu
  have hmu : 0 < clampMu mu := by
    unfold clampMu; split
    · norm_num
    · next h => push Not at h; exact lt_trans (by norm_num) h
  have hi2 : coneRow mu i 2 = -clampMu mu / N := by
    match i, hi with
    | 0, _ => exact r0 2
    | 1, _ => exact r1.2.2
    | 2, _ => exact r2.2.2
    | 3, _ => exact r3.2.2
  rw [hi2]
  have : -clampMu mu / N ≠ 0 := div_ne_zero (by linarith) hN.ne'
  intro q; apply this; simpa using q

theorem cons_regular (d : DCtx) (hp : d.p.Ok d.s) (hr : d.p.Frames d.s) (hT : 0 < d.s.T) : ∀ op ∈ d.cons, op.Regular := by
  have one : ∀ (v : Nat) (b : ℝ) (s : String), (Op.addLin (ofVar v) s (ofConst b)).Regular := fun v b s => regular_bound v b s
  have rng : ∀ v lo hi, ∀ op ∈ DCtx.range2 (ofVar v) lo hi, op.Regular := by
    intro v lo hi op ho
    simp only [DCtx.range2, List.mem_cons, List.not_mem_nil, or_false] at ho
    rcases ho with rfl | rfl <;> exact one _ _ _
  simp only [DCtx.cons, List.forall_mem_append]
  refine ⟨⟨⟨⟨⟨?_, ?_⟩, ?_⟩, ?_⟩, ?_⟩, ?_⟩
  · rw [DCtx.heightCons, forall_map]
    intro t ht
    refine reg_lin _ _ _ (fun _ => 1) (fun _ => 0) ?_
    simp [sub_value, Ctx.vCom, ofVar1_value]
  · rw [DCtx.horizonCons, forall_ite]
    intro _
    simp only [List.mem_singleton, forall_eq]
    refine reg_lin _ _ _ (fun _ => 1) (fun _ => 0) ?_
    have : (d.s.T : ℝ) ≠ 0 := by exact_mod_cast hT.ne'
    simp [foldl_value', Ctx.vDt, ofVar1_value, this]
  · simp only [DCtx.rangeCons, forall_flat (β := Op), List.forall_mem_append, forall_ite', forall_ite]
    exact fun t ht => ⟨fun h => rng _ _ _, fun e he h => ⟨⟨rng _ _ _, rng _ _ _⟩, rng _ _ _⟩⟩
  · simp only [DCtx.frictionCons, forall_flat (β := Op)]
    intro t ht e he
    split
    · intro op ho; simp at ho
    rw [forall_ite]
    intro h
    split
    · rw [forall_map]
      exact fun i hi => row_regular d hp hr t e i ht he h hi _
    · simp only [List.mem_singleton, forall_eq]; trivial
  · simp only [List.forall_mem_map]
    exact fun l hl => dyn_regular d hp l hl
  · simp only [DCtx.quadCons, forall_flat (β := Op), List.forall_mem_append, forall_ite, forall_map, List.mem_singleton, forall_eq]
    intro t ht e he h
    have q2 : ∀ a b : LinExpr ℝ, ∀ u ∈ ((QuadExpr.empty.addQuaTerm 1 a).addQuaTerm 1 b).quad, (0 : ℝ) ≤ u.1 := by
      intro a b u hu
      simp [QuadExpr.addQuaTerm, QuadExpr.empty] at hu
      rcases hu with rfl | rfl <;> norm_num
    refine ⟨⟨fun a ha => ?_, fun a ha => ?_⟩, ?_⟩
    · match a with
      | 0 | 1 | a + 2 => exact q2 _ _
    · match a with
      | 0 | 1 | a + 2 => exact q2 _ _
    · intro u hu
      simp [Ctx.lengthQuad, QuadExpr.addQuaTerm, QuadExpr.empty] at hu
      rcases hu with rfl | rfl | rfl <;> norm_num

/-! ### C121: registration -/

/-- C121: registering the blocks gives every entry its own column, the one the constraints and the solution use; the columns
of different entries differ and lie below the number of variables. -/
theorem C121_registration (s : DSet) (steps : Nat → Nat) :
    (∀ i r c, IsVar s steps i r c → colOf (s.layout steps) ((blk (s.layout steps) i).id r c) = vcol (blk (s.layout steps) i) r c ∧
      vcol (blk (s.layout steps) i) r c < totalSize (s.dims steps)) ∧
    (∀ i r c i' r' c', IsVar s steps i r c → IsVar s steps i' r' c' →
      vcol (blk (s.layout steps) i) r c = vcol (blk (s.layout steps) i') r' c' → i = i' ∧ r = r' ∧ c = c') ∧
    ((addVarOps (s.layout steps) s.inf (fun _ => 0)).length = totalSize (s.dims steps)) := by
  refine ⟨fun i r c h => ⟨?_, isVar_lt s steps i r c h⟩, fun i r c i' r' c' h h' e => isVar_inj s steps i r c i' r' c' h h' e, ?_⟩
  · obtain ⟨b1, b2⟩ := id_bounds (s.dims steps) i r c h.1 h.2.1 h.2.2
    have := colOf_layout (s.dims steps) ((blk (OptVar.layout (s.dims steps) 0).1 i).id r c).toNat (by omega)
    rw [Int.toNat_of_nonneg b1] at this
    exact this
  · rw [addVarOps, List.length_map, DSet.layout, layout_ids]; simp

/-! ### C122: the problem the solver sees -/

/-- The weights are nonnegative. -/
structure NonnegWeights (s : DSet) (wTrack : Nat → ℝ) : Prop where
  vec : ∀ a, 0 ≤ s.wVia a ∧ 0 ≤ s.wCom a ∧ 0 ≤ s.wL a ∧ 0 ≤ s.wH a ∧ 0 ≤ s.wLfin a ∧ 0 ≤ s.wHfin a ∧ 0 ≤ s.wLd a ∧ 0 ≤ s.wHd a ∧
    0 ≤ s.wLegF a ∧ 0 ≤ s.wArmF a ∧ 0 ≤ s.wLegFd a ∧ 0 ≤ s.wArmFd a ∧ 0 ≤ wTrack a
  scalar : 0 ≤ s.wLegT ∧ 0 ≤ s.wArmT ∧ 0 ≤ s.wTime ∧ 0 ≤ s.wTimeReg ∧ 0 ≤ s.wSoft

theorem weights_nonneg (d : DCtx) (h : NonnegWeights d.s d.wTrack) : ∀ q ∈ d.objTerms, 0 ≤ q.1 := by
  obtain ⟨s1, s2, s3, s4, s5⟩ := h.scalar
  simp only [DCtx.objTerms, List.forall_mem_append, forall_flat (β := ℝ × LinExpr ℝ)]
  refine ⟨⟨?_, fun t ht => ⟨⟨fun a ha => ⟨⟨⟨?_, ?_⟩, ?_⟩, ?_⟩, ?_⟩, ?_⟩⟩, ?_⟩
  · intro q hq
    simp only [DCtx.viaTerms, List.mem_flatMap, List.mem_map, List.mem_range] at hq
    obtain ⟨v, _, a, ha, rfl⟩ := hq
    exact (h.vec a).1
  · obtain ⟨v1, v2, v3, v4, v5, v6, v7, v8, v9, v10, v11, v12, v13⟩ := h.vec a
    simp only [DCtx.trackTerms, List.forall_mem_append]
    constructor
    · split
      · simp only [List.mem_cons, List.not_mem_nil, or_false, forall_eq_or_imp, forall_eq]; exact ⟨v2, v5, v6⟩
      · simp only [List.mem_cons, List.not_mem_nil, or_false, forall_eq_or_imp, forall_eq]; exact ⟨v3, v4⟩
    · simp only [List.mem_singleton, forall_eq]; exact v13
  · obtain ⟨v1, v2, v3, v4, v5, v6, v7, v8, v9, v10, v11, v12, v13⟩ := h.vec a
    unfold DCtx.rateTerms
    split <;> [skip; split] <;> simp only [List.mem_cons, List.not_mem_nil, or_false, forall_eq_or_imp, forall_eq] <;> exact ⟨v7, v8⟩
  · obtain ⟨v1, v2, v3, v4, v5, v6, v7, v8, v9, v10, v11, v12, v13⟩ := h.vec a
    simp only [DCtx.forceTerms, forall_flat (β := ℝ × LinExpr ℝ), forall_ite, List.mem_singleton, forall_eq]
    intro e he _; split <;> assumption
  · obtain ⟨v1, v2, v3, v4, v5, v6, v7, v8, v9, v10, v11, v12, v13⟩ := h.vec a
    simp only [DCtx.forceRateTerms, forall_flat (β := ℝ × LinExpr ℝ), forall_ite, List.mem_cons, List.not_mem_nil, or_false, forall_eq_or_imp, forall_eq]
    intro e he _; constructor <;> split <;> assumption
  · simp only [DCtx.torqueTerms, forall_flat (β := ℝ × LinExpr ℝ), forall_ite, List.mem_singleton, forall_eq]
    intro e he _; split <;> assumption
  · simp only [DCtx.timeTerms, forall_ite', List.mem_cons, List.not_mem_nil, or_false, forall_eq_or_imp, forall_eq]
    exact fun _ => ⟨s3, s4⟩
  · simp only [DCtx.softTerms, forall_ite, forall_flat (β := ℝ × LinExpr ℝ), List.mem_cons, List.not_mem_nil, or_false, forall_eq_or_imp, forall_eq]
    exact fun _ t ht e he _ a ha => ⟨s5, s5⟩

/-- The penalty of the soft-constraint heuristic: deviation of the bounds from the linearisation at `x0`. -/
noncomputable def softPenalty (d : DCtx) (x0 x : Nat → ℝ) : ℝ :=
  if d.s.heur = .soft then
    ∑ t ∈ range d.s.T, sumActive d.ctx t fun e => ∑ a ∈ range 3,
      ((sqUb (pArm d.ctx x t e) (pF d.ctx x t e) a -
          sqUb (vsub (pArm d.ctx x t e) (pArm d.ctx x0 t e)) (vsub (pF d.ctx x t e) (pF d.ctx x0 t e)) a - pUb d.ctx x t e a) ^ 2 +
        (sqLb (pArm d.ctx x t e) (pF d.ctx x t e) a -
          sqLb (vsub (pArm d.ctx x t e) (pArm d.ctx x0 t e)) (vsub (pF d.ctx x t e) (pF d.ctx x0 t e)) a - pLb d.ctx x t e a) ^ 2)
  else 0

theorem softSum (d : DCtx) (x0 x : Nat → ℝ) : (d.cons.map (Op.softTerm x0 x)).sum = softPenalty d x0 x := by
  have zero : ∀ ops : List Op, (∀ op ∈ ops, op.softTerm x0 x = 0) → (ops.map (Op.softTerm x0 x)).sum = 0 := by
    intro ops h
    refine List.sum_eq_zero fun r hr => ?_
    obtain ⟨op, hm, rfl⟩ := List.mem_map.1 hr
    exact h op hm
  have lin : ∀ (l : LinExpr ℝ) (s : String) (r : LinExpr ℝ), (Op.addLin l s r).softTerm x0 x = 0 := fun _ _ _ => rfl
  have rng : ∀ v lo hi, ∀ op ∈ DCtx.range2 v lo hi, op.softTerm x0 x = 0 := by
    intro v lo hi op ho
    simp only [DCtx.range2, List.mem_cons, List.not_mem_nil, or_false] at ho
    rcases ho with rfl | rfl <;> rfl
  rw [DCtx.cons, List.map_append, List.sum_append, zero, zero_add]
  · rw [DCtx.quadCons, sum_flatMap', list_range_sum]
    unfold softPenalty
    by_cases hs : d.s.heur = .soft
    · rw [if_pos hs]
      have ha : d.approx = .softConstraint := by simp [DCtx.approx, hs]
      refine sum_congr rfl fun t _ => ?_
      rw [sum_flatMap', list_range_sum]
      refine sum_congr rfl fun e _ => ?_
      have : d.ctx.active t e = d.p.active t e := rfl
      rw [this]
      split
      · rw [List.map_append, List.sum_append, List.map_append, List.sum_append, List.map_map, List.map_map, list_range_sum, list_range_sum]
        beta_reduce
        rw [sum_add_distrib]
        have l0 : (List.map (Op.softTerm x0 x) [Op.addQua (d.ctx.lengthQuad (d.s.off e) t e) "<" (ofConst (d.s.maxLen e ^ 2)) .none]).sum = 0 := by
          simp [Op.softTerm]
        rw [l0, add_zero]
        congr 1
        · refine sum_congr rfl fun a _ => ?_
          simp only [Function.comp, ha, Op.softTerm, (ub_tangent _ _ _ _ _ _).1, (ubQuad_lin _ _ _ _ _).1, add_zero, Ctx.vUb, ofVar1_value]; rfl
        · refine sum_congr rfl fun a _ => ?_
          simp only [Function.comp, ha, Op.softTerm, (ub_tangent _ _ _ _ _ _).2, (ubQuad_lin _ _ _ _ _).2, add_zero, Ctx.vLb, ofVar1_value]; rfl
      · rfl
    · rw [if_neg hs]
      refine sum_eq_zero fun t _ => zero _ ?_
      simp only [forall_flat (β := Op), List.forall_mem_append, forall_ite, forall_map, List.mem_singleton, forall_eq]
      have : ∀ q s l, (Op.addQua q s l d.approx).softTerm x0 x = 0 := by
        intro q s l
        unfold DCtx.approx
        revert hs
        cases d.s.heur
        · intro _; rfl
        · intro h; exact absurd rfl h
        · intro _; rfl
      exact fun e he _ => ⟨⟨fun a _ => this _ _ _, fun a _ => this _ _ _⟩, rfl⟩
  · simp only [List.forall_mem_append]
    refine ⟨⟨⟨⟨?_, ?_⟩, ?_⟩, ?_⟩, ?_⟩
    · rw [DCtx.heightCons, forall_map]; exact fun _ _ => rfl
    · rw [DCtx.horizonCons, forall_ite]; simp only [List.mem_singleton, forall_eq]; exact fun _ => rfl
    · simp only [DCtx.rangeCons, forall_flat (β := Op), List.forall_mem_append, forall_ite', forall_ite]
      exact fun t ht => ⟨fun h => rng _ _ _, fun e he h => ⟨⟨rng _ _ _, rng _ _ _⟩, rng _ _ _⟩⟩
    · simp only [DCtx.frictionCons, forall_flat (β := Op)]
      intro t ht e he
      split
      · intro op ho; simp at ho
      rw [forall_ite]
      intro h
      split
      · rw [forall_map]; exact fun _ _ => rfl
      · simp only [List.mem_singleton, forall_eq]; rfl
    · simp only [List.forall_mem_map]; exact fun _ _ => rfl

/-- C122: the standard form handed to the solver exists; its feasible points satisfy the limits and the dynamics of the plan
and cost at least the cost of the plan plus the weighted penalty of the soft-constraint heuristic, and every point that
satisfies limits and dynamics extends to a feasible point with exactly that cost. -/
theorem C122_solver_problem (d : DCtx) (hm : d.s.mass ≠ 0) (hT : 0 < d.s.T) (hp : d.p.Ok d.s) (hr : d.p.Frames d.s)
    (hw : NonnegWeights d.s d.wTrack) (hinf : 0 ≤ d.s.inf) (guess : Int → ℝ) (x0 : Nat → ℝ) (thr w : ℝ) (hw0 : 0 ≤ w) (warm : Bool) :
    ∃ f, (ApiState.init.run (d.ops guess)).p.build x0 thr w warm = some f ∧
      (∀ x, f.Feasible x → Limits d x0 thr warm x ∧ Dynamics d x ∧
        dynCost d x + (if warm then 0 else w * softPenalty d x0 x) ≤ f.cost x) ∧
      ∀ x, Limits d x0 thr warm x → Dynamics d x → ∃ x', (∀ v < totalSize (d.s.dims d.p.steps), x' v = x v) ∧ f.Feasible x' ∧
        f.cost x' = dynCost d x + (if warm then 0 else w * softPenalty d x0 x) := by
  have hlen : ((d.s.layout d.p.steps).flatMap ids).length = totalSize (d.s.dims d.p.steps) := by rw [DSet.layout, layout_ids]; simp
  obtain ⟨f, hf, h1, h2⟩ := conic_standard ((d.s.layout d.p.steps).flatMap ids) d.s.inf hinf guess d.objTerms d.cons (by
      rw [hlen]; exact fun op ho => ⟨(cons_ok d hp op ho).1, (cons_ok d hp op ho).2, cons_regular d hp hr hT op ho⟩)
    (by rw [hlen]; exact obj_over d hp hT) (weights_nonneg d hw) x0 thr w hw0 warm
  have hc : ∀ x, wsum x d.objTerms = dynCost d x := by
    intro x
    have := C120_objective d hT x
    rw [sumSq_quadOf, (quadOf_quad _).2, ofConst_value, add_zero] at this
    exact this
  simp only [hlen, hc, softSum] at h1 h2
  refine ⟨f, hf, fun x hx => ?_, fun x hx hy => ?_⟩
  · obtain ⟨a, b⟩ := h1 x hx
    obtain ⟨a1, a2⟩ := (C119_constraints d hm x0 thr warm x).1 a
    exact ⟨a1, a2, b⟩
  · exact h2 x ((C119_constraints d hm x0 thr warm x).2 ⟨hx, hy⟩)

/-- C122, minimisers: a least-cost feasible point of the standard form is a cheapest plan. -/
theorem C122_minimiser (d : DCtx) (hm : d.s.mass ≠ 0) (hT : 0 < d.s.T) (hp : d.p.Ok d.s) (hr : d.p.Frames d.s)
    (hw : NonnegWeights d.s d.wTrack) (hinf : 0 ≤ d.s.inf) (guess : Int → ℝ) (x0 : Nat → ℝ) (thr w : ℝ) (hw0 : 0 ≤ w) (warm : Bool)
    (f : StdForm ℝ) (hf : (ApiState.init.run (d.ops guess)).p.build x0 thr w warm = some f) (x : Nat → ℝ) (hx : f.Feasible x)
    (hmin : ∀ y, f.Feasible y → f.cost x ≤ f.cost y) :
    Limits d x0 thr warm x ∧ Dynamics d x ∧ ∀ y, Limits d x0 thr warm y → Dynamics d y →
      dynCost d x + (if warm then 0 else w * softPenalty d x0 x) ≤ dynCost d y + (if warm then 0 else w * softPenalty d x0 y) := by
  obtain ⟨f', hf', h1, h2⟩ := C122_solver_problem d hm hT hp hr hw hinf guess x0 thr w hw0 warm
  obtain rfl : f = f' := Option.some.inj (hf.symm.trans hf')
  obtain ⟨a, b, c⟩ := h1 x hx
  refine ⟨a, b, fun y hy hd => ?_⟩
  obtain ⟨y', _, hfy, hcy⟩ := h2 y hy hd
  have := hmin y' hfy
  linarith

/-- The example meets the hypotheses of C122. -/
theorem ex_meets (h : Heur) : (exD h).p.Frames (exD h).s ∧ NonnegWeights (exD h).s (exD h).wTrack := by
  constructor
  · intro t ht e he _ k hk; interval_cases k <;> simp [exAtZ, exPlanZ]
  · constructor
    · intro a; simp [exAtZ, exSet]
    · simp [exAtZ, exSet]

/-- C121 and C122 are not vacuous: the standard form of the example exists and has a feasible point whose cost is that of the
standing robot. -/
example (h : Heur) : ∃ x0 f x, (ApiState.init.run ((exD h).ops fun _ => 0)).p.build x0 0 1 false = some f ∧ f.Feasible x := by
  obtain ⟨x0, hx⟩ := exists_vals (exD h) (exPlan_ok h) exVals
  obtain ⟨hl, hd⟩ := ex_standing h x0 hx 0 le_rfl false
  obtain ⟨f, hf, _, h2⟩ := C122_solver_problem (exD h) (by norm_num [exAtZ, exSet]) (by norm_num [exAtZ, exSet]) (exPlan_ok h)
    (ex_meets h).1 (ex_meets h).2 (by norm_num [exAtZ, exSet]) (fun _ => 0) x0 0 1 zero_le_one false
  obtain ⟨x, _, hfeas, _⟩ := h2 x0 hl hd
  exact ⟨x0, f, x, hf, hfeas⟩

/-- The registered entries: the height of the center of mass at the last step is one of them. -/
example (h : Heur) : IsVar (exD h).s (exD h).p.steps 0 2 2 := isVar_base _ _ 0 2 2 (by omega) (by omega) (by norm_num [exAtZ, exSet])

end Dyn
end Verif
