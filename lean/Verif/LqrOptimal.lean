import Verif.LqrSolverProps

/-! C65 (meaning of the success message) and C66 (one full step solves convex linear-quadratic problems). -/
namespace Verif
namespace Lqr
open Matrix

/-! ### C66 -/

/-- Specification: a linear-quadratic optimal control problem: affine dynamics, quadratic costs with symmetric Hessians. -/
structure IsLQ {nx nu : Nat} (o : Ocp nx nu) (A : Nat → Mat nx nx) (B : Nat → Mat nx nu) (k : Nat → Vec nx) (a : Nat → ℝ) (q : Nat → Vec nx) (r : Nat → Vec nu)
    (Q : Nat → Mat nx nx) (P : Nat → Mat nx nu) (R : Nat → Mat nu nu) : Prop where
  dyn : Affine o A B k
  symQ : ∀ t, (Q t)ᵀ = Q t
  symR : ∀ t, (R t)ᵀ = R t
  obj : ∀ x u t, o.obj x u t (decide (t = o.tdim)) = quadCost (a t) (q t) (r t) (Q t) (P t) (R t) x u

/-- Specification: its stage costs are convex, strictly in the control, and its final cost is convex. -/
structure IsConvex {nx nu : Nat} (T : Nat) (Q : Nat → Mat nx nx) (P : Nat → Mat nx nu) (R : Nat → Mat nu nu) : Prop where
  final : ∀ x, 0 ≤ x ⬝ᵥ Q T *ᵥ x
  joint : ∀ t, t < T → ∀ x u, 0 ≤ 1/2 * (x ⬝ᵥ Q t *ᵥ x) + x ⬝ᵥ P t *ᵥ u + 1/2 * (u ⬝ᵥ R t *ᵥ u)
  strict : ∀ t, t < T → ∀ u, u ≠ 0 → 0 < u ⬝ᵥ R t *ᵥ u

theorem quadCost_expand {nx nu : Nat} (a : ℝ) (q : Vec nx) (r : Vec nu) (Q : Mat nx nx) (P : Mat nx nu) (R : Mat nu nu) (hQ : Qᵀ = Q) (hR : Rᵀ = R)
    (x y : Vec nx) (u w : Control nx nu) : quadCost a q r Q P R y w = quadCost a q r Q P R x u + (q + Q *ᵥ x + P *ᵥ u.ff) ⬝ᵥ (y - x) + (r + Pᵀ *ᵥ x + R *ᵥ u.ff) ⬝ᵥ (w.ff - u.ff)
      + 1/2 * ((y - x) ⬝ᵥ Q *ᵥ (y - x)) + (y - x) ⬝ᵥ P *ᵥ (w.ff - u.ff) + 1/2 * ((w.ff - u.ff) ⬝ᵥ R *ᵥ (w.ff - u.ff)) := by
  obtain ⟨dx, rfl⟩ : ∃ d, y = x + d := ⟨y - x, by abel⟩
  obtain ⟨du, hdu⟩ : ∃ d, w.ff = u.ff + d := ⟨w.ff - u.ff, by abel⟩
  unfold quadCost
  rw [hdu]
  simp only [add_sub_cancel_left, Matrix.mulVec_add, dotProduct_add, add_dotProduct]
  rw [mulVec_dot Q x dx, hQ, mulVec_dot P u.ff dx, mulVec_dot Pᵀ x du, Matrix.transpose_transpose, mulVec_dot R u.ff du, hR, sym_dot hQ dx x, sym_dot hR du u.ff]
  have : u.ff ⬝ᵥ Pᵀ *ᵥ dx = dx ⬝ᵥ P *ᵥ u.ff := by rw [← mulVec_dot, dotProduct_comm]
  rw [this]
  ring

/-- The cost of any consistent trajectory is the cost of its deviations in the quadratic model. -/
theorem traj_togo {nx nu : Nat} {o : Ocp nx nu} {A : Nat → Mat nx nx} {B : Nat → Mat nx nu} {k : Nat → Vec nx} {a : Nat → ℝ} {q : Nat → Vec nx} {r : Nat → Vec nu}
    {Q : Nat → Mat nx nx} {P : Nat → Mat nx nu} {R : Nat → Mat nu nu} (h : IsLQ o A B k a q r Q P R) (c : Setting nu) (xs ys : Nat → Vec nx) (us ws : Nat → Control nx nu)
    (hx : Consistent o c xs us) (hy : Consistent o c ys ws) (tc : Nat → ℝ) (htc : ∀ t, t < o.tdim → tc t = o.obj (xs t) (us t) t false)
    (htT : tc o.tdim = o.obj (xs o.tdim) ⟨0, 0⟩ o.tdim true) (pol : Nat → Vec nx → Vec nu) (hpol : ∀ t, t < o.tdim → (ws t).ff = (us t).ff + pol t (ys t - xs t)) :
    ∀ n, n ≤ o.tdim → togo (derivatives o c xs us) tc 0 o.tdim pol n (ys (o.tdim - n) - xs (o.tdim - n)) =
      ∑ t ∈ Finset.Ico (o.tdim - n) o.tdim, o.obj (ys t) (ws t) t false + o.obj (ys o.tdim) ⟨0, 0⟩ o.tdim true := by
  obtain ⟨hstep, hder⟩ := C42_exact o c xs us A B k h.dyn a q r Q P R h.symQ h.symR h.obj
  have hfin : ∀ x u, o.obj x u o.tdim true = quadCost (a o.tdim) (q o.tdim) (r o.tdim) (Q o.tdim) (P o.tdim) (R o.tdim) x u := fun x u => by
    have := h.obj x u o.tdim; rwa [decide_eq_true rfl] at this
  have hstg : ∀ x u t, t < o.tdim → o.obj x u t false = quadCost (a t) (q t) (r t) (Q t) (P t) (R t) x u := fun x u t ht => by
    have := h.obj x u t; rwa [decide_eq_false (by omega)] at this
  intro n
  induction n with
  | zero =>
    intro _
    rw [Nat.sub_zero, Finset.Ico_self, Finset.sum_empty, zero_add, togo, htT, hfin, hfin]
    obtain ⟨-, -, e1, -, -, e2, -⟩ := hder o.tdim
    rw [e1, e2, if_neg (lt_irrefl _)]
    unfold quad
    rw [quadCost_expand _ _ _ _ _ _ (h.symQ _) (h.symR _) (xs o.tdim) (ys o.tdim) ⟨0, 0⟩ ⟨0, 0⟩]
    simp
  | succ n ih =>
    intro hn
    have ih := ih (by omega)
    rw [togo]
    set t := o.tdim - (n + 1) with htdef
    have ht : t < o.tdim := by omega
    have ht1 : o.tdim - n = t + 1 := by omega
    rw [ht1] at ih
    obtain ⟨e1, e2, e3, e4, e5, e6, e7⟩ := hder t
    have hv : (ws t).ff - (us t).ff = pol t (ys t - xs t) := by rw [hpol t ht]; abel
    have hlin : lin (derivatives o c xs us) t (ys t - xs t) (pol t (ys t - xs t)) = ys (t + 1) - xs (t + 1) := by
      unfold lin
      rw [hy t ht, hx t ht, hstep, hstep, e1, e2, ← hv, Matrix.mulVec_sub, Matrix.mulVec_sub]
      abel
    rw [hlin, ih, Finset.sum_eq_sum_Ico_succ_bot ht, add_assoc]
    congr 1
    unfold stage
    rw [htc t ht, hstg _ _ t ht, hstg _ _ t ht, e3, e4, e5, e6, e7, if_pos ht, quadCost_expand _ _ _ _ _ _ (h.symQ _) (h.symR _) (xs t) (ys t) (us t) (ws t), hv]
    ring

/-- C66. For every linear-quadratic problem with convex costs (strictly convex in the control), every horizon, every dynamically consistent nominal trajectory and every integration
scheme, without control limits: the backward pass without regularisation on the finite-difference derivatives succeeds, and the forward pass with its full step gives a
trajectory of globally least cost among all consistent trajectories from the same initial state. -/
theorem C66_full_step_optimal {nx nu : Nat} (o : Ocp nx nu) (c : Setting nu) (hlim : c.hasLimits = false) (A : Nat → Mat nx nx) (B : Nat → Mat nx nu) (k : Nat → Vec nx)
    (a : Nat → ℝ) (q : Nat → Vec nx) (r : Nat → Vec nu) (Q : Nat → Mat nx nx) (P : Nat → Mat nx nu) (R : Nat → Mat nu nu) (h : IsLQ o A B k a q r Q P R)
    (hc : IsConvex o.tdim Q P R) (xs : Nat → Vec nx) (us : Nat → Control nx nu) (hx : Consistent o c xs us) (tc : Nat → ℝ)
    (htc : ∀ t, t < o.tdim → tc t = o.obj (xs t) (us t) t false) (htT : tc o.tdim = o.obj (xs o.tdim) ⟨0, 0⟩ o.tdim true) (b0 : Bwd nx nu) :
    let b := backward o.tdim c (derivatives o c xs us) tc us 0 b0
    let f := applyController o c xs fun t => (us t).add ((b.ctrl t).scale 1)
    b.diverged = false ∧ f.xs 0 = xs 0 ∧ Consistent o c f.xs f.us ∧
    ∀ ys ws, ys 0 = xs 0 → Consistent o c ys ws → f.total o ≤ trajCost o ys ws := by
  intro b f
  obtain ⟨-, hder⟩ := C42_exact o c xs us A B k h.dyn a q r Q P R h.symQ h.symR h.obj
  have hconv : Convex o.tdim (derivatives o c xs us) := by
    refine ⟨fun t _ => ?_, fun t _ => ?_, ?_, fun t ht => ?_, fun t ht => ?_⟩
    · rw [(hder t).2.2.1]; exact h.symQ t
    · rw [(hder t).2.2.2.2.1]; exact h.symR t
    · rw [(hder _).2.2.1]; exact hc.final
    · rw [(hder _).2.2.1, (hder _).2.2.2.1, (hder _).2.2.2.2.1]; exact hc.joint t ht
    · rw [(hder _).2.2.2.2.1]; exact hc.strict t ht
  have hok : b.diverged = false := C64_convex_no_failure o.tdim c _ tc us 0 b0 le_rfl hconv
  obtain ⟨f1, f2, f3, -, f5, -⟩ := C38_rollout o c xs (fun t => (us t).add ((b.ctrl t).scale 1))
  refine ⟨hok, f1, f2, fun ys ws h0 hy => ?_⟩
  have hdp := C37_dynamic_programming o.tdim c (derivatives o c xs us) tc us 0 b0 hlim hconv.symQ hconv.symR hok o.tdim le_rfl
    (xs (o.tdim - o.tdim) - xs (o.tdim - o.tdim))
  obtain ⟨d1, d2⟩ := hdp
  have t1 := traj_togo h c xs f.xs us f.us hx f2 tc htc htT (fun t x => (b.ctrl t).ff + (b.ctrl t).fb *ᵥ x) (by
    intro t ht
    funext i
    have := (f3 t ht).2 i
    rw [hlim] at this
    rw [if_neg (by simp)] at this
    rw [this]
    change ((us t).ff i + (1 : ℝ) * (b.ctrl t).ff i) + ((b.ctrl t).fb *ᵥ (f.xs t - xs t)) i = (us t).ff i + ((b.ctrl t).ff i + ((b.ctrl t).fb *ᵥ (f.xs t - xs t)) i)
    ring) o.tdim le_rfl
  have t2 := traj_togo h c xs ys us ws hx hy tc htc htT (fun t _ => (ws t).ff - (us t).ff) (by
    intro t ht; abel) o.tdim le_rfl
  rw [Nat.sub_self] at t1 t2 d1 d2
  rw [f1, sub_self] at t1
  rw [h0, sub_self] at t2
  rw [sub_self] at d1 d2
  rw [f5]
  unfold trajCost
  rw [Finset.range_eq_Ico]
  have e1 : _ = _ := d1.symm.trans rfl
  calc _ = _ := t1.symm
    _ = _ := d1.symm
    _ ≤ _ := d2 _
    _ = _ := t2

/-- The hypotheses of C66 are met by the double integrator of `exOcp`, for every horizon. -/
example (T : Nat) : IsLQ (exOcp T) (fun _ => !![0, 1/10; 0, 0]) (fun _ => !![0; 1/10]) 0 0 0 0 (fun t => if t = T then (20 : ℝ) • 1 else (2 : ℝ) • 1) 0
      (fun t => if t = T then 0 else (2 : ℝ) • 1) ∧
    IsConvex T (fun t => if t = T then (20 : ℝ) • (1 : Mat 2 2) else (2 : ℝ) • 1) (0 : Nat → Mat 2 1) (fun t => if t = T then 0 else (2 : ℝ) • 1) := by
  refine ⟨⟨fun x u t => by simp [exOcp], fun t => ?_, fun t => ?_, fun x u t => ?_⟩, fun x => ?_, fun t ht x u => ?_, fun t ht u hu => ?_⟩
  · by_cases h : t = T <;> simp [h]
  · by_cases h : t = T <;> simp [h]
  · unfold quadCost exOcp
    by_cases h : t = T
    · simp only [h, decide_true, if_true, Matrix.smul_mulVec, Matrix.one_mulVec, dotProduct_smul, smul_eq_mul, zero_dotProduct, Matrix.zero_mulVec, dotProduct_zero, Pi.zero_apply]
      ring
    · simp only [h, decide_false, if_false, Matrix.smul_mulVec, Matrix.one_mulVec, dotProduct_smul, smul_eq_mul, zero_dotProduct, Matrix.zero_mulVec, dotProduct_zero, Pi.zero_apply]
      simp only [Bool.false_eq_true, if_false]
      ring
  · simp only [if_true, Matrix.smul_mulVec, Matrix.one_mulVec, dotProduct_smul, smul_eq_mul]
    have := dot_self_nonneg x; linarith
  · have h : t ≠ T := by omega
    simp only [h, if_false, Matrix.smul_mulVec, Matrix.one_mulVec, dotProduct_smul, smul_eq_mul, Pi.zero_apply, Matrix.zero_mulVec, dotProduct_zero]
    have h1 := dot_self_nonneg x
    have h2 := dot_self_nonneg u
    linarith
  · have h : t ≠ T := by omega
    simp only [h, if_false, Matrix.smul_mulVec, Matrix.one_mulVec, dotProduct_smul, smul_eq_mul]
    have h2 := dot_self_pos hu
    linarith

/-! ### C65 -/

/-- C65, the part that holds: if `optimize` reports success by a small control gradient and the regularisation did not exceed its limit, then the last backward pass
succeeded and the norm of its control update is below the tolerance. -/
theorem C65_gradient_exit_partial {nx nu : Nat} (o : Ocp nx nu) (c : Setting nu) (xs : Nat → Vec nx) (us : Nat → Control nx nu) (f0 : Fwd nx nu) (d0 : Devs nx nu) (b0 : Bwd nx nu)
    (s : St nx nu) (m : Nat) (h : Run o c xs us f0 d0 b0 .gradient s m) :
    gradNorm o.tdim s.bwd.ctrl s.us < c.gradTol ∧ (s.reg ≤ c.maxReg → s.bwd.diverged = false) := by
  have hback : ∀ {d tc u0 b reg mult n r}, Back (nx := nx) o c d tc u0 b reg mult n r → r.2.1.diverged = false ∨ r.2.2.1 > c.maxReg := by
    intro d tc u0 b reg mult n r hb
    induction hb with
    | ok h => exact .inl h
    | stop h hm => exact .inr hm
    | again _ _ _ ih => exact ih
  generalize he : Exit.gradient = e at h
  cases h with
  | diverged _ => cases he
  | maxIter _ _ _ => cases he
  | @exit s0 s' e n m h0 hR hc hi =>
    subst he
    generalize hr : Res.exit Exit.gradient s = r at hi
    cases hi with
    | @mk ok b reg mult d hd hb =>
      have hb' := hback hb
      simp only at hb'
      unfold finish at hr
      simp only at hr
      split at hr
      · next hg =>
        injection hr with _ hr
        subst hr
        refine ⟨hg, fun hle => ?_⟩
        rcases hb' with h | h
        · exact h
        · simp only at hle; linarith
      · generalize (if ok = true then lineSearch o c s0.xs s0.us b.ctrl s0.cost c.coeffs s0.fwd else (none, s0.fwd)) = ls at hr
        obtain ⟨l1, l2⟩ := ls
        cases l1 with
        | none =>
          simp only at hr
          split at hr <;> cases hr
        | some a =>
          simp only at hr
          by_cases hq : |s0.cost - l2.total o - 10 ^ 10 * (if l2.diverged then 1 else 0)| < c.costTol
          · rw [if_pos hq] at hr; cases hr
          · rw [if_neg hq] at hr; cases hr

/-- One stage with cost `-u²`, no dynamics, no final cost. -/
noncomputable def badOcp : Ocp 1 1 := ⟨1, fun _ _ _ => 0, fun _ u _ final => if final then 0 else -(u.ff ⬝ᵥ u.ff)⟩
/-- Regularisation starts at its limit 1. -/
def badSetting : Setting 1 := ⟨false, false, 0, 0, 100, [1], 1, 1, 2, 1, 1, 1, 0, 5, fun _ _ _ _ => 0⟩

theorem badOcp_LQ : IsLQ badOcp 0 0 0 0 0 0 0 0 (fun t => if t = 1 then 0 else (-2 : ℝ) • 1) where
  dyn x u t := by simp [badOcp]
  symQ t := by simp
  symR t := by by_cases h : t = 1 <;> simp [h]
  obj x u t := by
    unfold quadCost badOcp
    by_cases h : t = 1
    · simp [h]
    · simp only [h, decide_false, if_false, Matrix.smul_mulVec, Matrix.one_mulVec, dotProduct_smul, smul_eq_mul, zero_dotProduct, Matrix.zero_mulVec, dotProduct_zero, Pi.zero_apply]
      simp only [Bool.false_eq_true, if_false]
      ring

/-- C65 is false of the code: a first call on a problem whose backward pass fails for every admissible regularisation reports success by a small control gradient
(the controller of the backward pass is still the zero it was initialised with), although no backward pass succeeded. -/
theorem C65_violated : ∃ (o : Ocp 1 1) (c : Setting 1), 0 < c.minReg ∧ 1 < c.incr ∧ 0 < c.gradTol ∧ c.initReg ≤ c.maxReg ∧
    (∀ xs us tc u0 lam b, lam ≤ c.maxReg → (backward o.tdim c (derivatives o c xs us) tc u0 lam b).diverged = true) ∧
    ∀ f0 d0, ∃ s m, Run o c (fun _ => 0) (fun _ => ⟨0, 0⟩) f0 d0 (Bwd.init 1 1) .gradient s m ∧ s.bwd.diverged = true := by
  have hfail : ∀ xs us tc u0 lam b, lam ≤ badSetting.maxReg →
      backward badOcp.tdim badSetting (derivatives badOcp badSetting xs us) tc u0 lam b =
        ⟨Function.update b.V 1 (tc 1), Function.update b.Vx 1 ((derivatives badOcp badSetting xs us).cx 1),
          Function.update b.Vxx 1 ((derivatives badOcp badSetting xs us).cxx 1), b.ctrl, true, 0⟩ := by
    intro xs us tc u0 lam b hl
    obtain ⟨-, hder⟩ := C42_exact badOcp badSetting xs us _ _ _ badOcp_LQ.dyn _ _ _ _ _ _ badOcp_LQ.symQ badOcp_LQ.symR badOcp_LQ.obj
    have hH : ¬ (lower (hessU (derivatives badOcp badSetting xs us) 0 (Function.update b.Vxx 1 ((derivatives badOcp badSetting xs us).cxx 1) (0 + 1)) lam)).PosDef := by
      intro hp
      have := posDef_pos hp (x := fun _ => 1) (fun h => by have := congrFun h 0; norm_num at this)
      unfold hessU at this
      rw [(hder 0).2.1, (hder 0).2.2.2.2.1] at this
      simp [lower, Matrix.mulVec, dotProduct] at this
      have hl' : lam ≤ 1 := hl
      linarith
    unfold backward
    rw [show badOcp.tdim = 0 + 1 from rfl, bwdLoop]
    simp only
    rw [if_pos hH]
    rfl
  refine ⟨badOcp, badSetting, by norm_num [badSetting], by norm_num [badSetting], by norm_num [badSetting], by norm_num [badSetting], ?_, fun f0 d0 => ?_⟩
  · intro xs us tc u0 lam b hl; rw [hfail _ _ _ _ _ _ hl]
  · have hdiv : (initialPass badOcp badSetting (fun _ => 0) (fun _ => ⟨0, 0⟩) badSetting.coeffs f0).diverged = false := by
      obtain ⟨a, -, ha⟩ := initialPass_spec badOcp badSetting (fun _ => 0) (fun _ => ⟨0, 0⟩) badSetting.coeffs f0 (by simp [badSetting])
      rw [ha]
      by_contra hne
      have hr := C38_rollout badOcp badSetting (fun _ => 0) (fun t => (⟨0, 0⟩ : Control 1 1).scale a)
      obtain ⟨t, ht, i, hi⟩ := hr.2.2.2.2.2.mp (by simpa using hne)
      have ht0 : t = 0 := by have : t < 1 := ht; omega
      subst ht0
      rw [hr.2.1 0 (by decide), hr.1] at hi
      simp [step, badOcp, badSetting] at hi
      norm_num at hi
    set s0 := start badOcp badSetting (fun _ => 0) (fun _ => ⟨0, 0⟩) f0 d0 (Bwd.init 1 1) with hs0
    have hreg : s0.reg = 1 := rfl
    have hmult : s0.mult = 1 := rfl
    have hb : Back badOcp badSetting (derivatives badOcp badSetting s0.xs s0.us) s0.fwd.cost s0.us s0.bwd s0.reg s0.mult 1 (false, _, _, _) :=
      Back.stop (by rw [hfail _ _ _ _ _ _ (by rw [hreg]; exact le_rfl)]) (by rw [hreg, hmult]; norm_num [raise, badSetting])
    have hi := Iter.mk (o := badOcp) (c := badSetting) (s := s0) _ (show derivatives badOcp badSetting s0.xs s0.us = if s0.devsFlag = true then _ else s0.devs from (if_pos (show s0.devsFlag = true from rfl)).symm) hb
    have hg : gradNorm badOcp.tdim (backward badOcp.tdim badSetting (derivatives badOcp badSetting s0.xs s0.us) s0.fwd.cost s0.us s0.reg s0.bwd).ctrl s0.us < badSetting.gradTol := by
      rw [hfail _ _ _ _ _ _ (by rw [hreg]; exact le_rfl)]
      have : s0.bwd.ctrl = fun _ => Control.zero 1 1 := rfl
      simp only [this]
      unfold gradNorm
      simp [Control.zero, badSetting]
    unfold finish at hi
    simp only at hi
    rw [if_pos hg] at hi
    exact ⟨_, _, .exit hdiv .start (show ((0:Nat):Int) < 5 by decide) hi, by simp only; rw [hfail _ _ _ _ _ _ (by rw [hreg]; exact le_rfl)]⟩

/-! ### examples for C39, C40 -/

/-- The settings hypotheses of C39 and C40 are met, and the run of `C65_violated` is a run they speak about. -/
example : badSetting.coeffs ≠ [] ∧ 0 < badSetting.minReg ∧ 1 < badSetting.incr := by norm_num [badSetting]

end Lqr
end Verif
