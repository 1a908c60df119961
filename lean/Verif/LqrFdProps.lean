import Verif.Lqr
import Mathlib.Tactic.Linarith
import Mathlib.Tactic.NormNum
import Mathlib.Tactic.Ring
import Mathlib.Tactic.FieldSimp
import Mathlib.Tactic.Module
import Mathlib.Tactic.FinCases

/-! C42: finite differences on linear-quadratic problems. -/
namespace Verif
namespace Lqr
open Matrix

/-! ### specification -/

/-- The dynamics are affine in state and feedforward control at every time. -/
def Affine {nx nu : Nat} (o : Ocp nx nu) (A : Nat → Mat nx nx) (B : Nat → Mat nx nu) (k : Nat → Vec nx) : Prop :=
  ∀ x u t, o.dyn x u t = A t *ᵥ x + B t *ᵥ u.ff + k t

/-- A quadratic cost. -/
noncomputable def quadCost {nx nu : Nat} (a : ℝ) (q : Vec nx) (r : Vec nu) (Q : Mat nx nx) (P : Mat nx nu) (R : Mat nu nu) (x : Vec nx) (u : Control nx nu) : ℝ :=
  a + q ⬝ᵥ x + r ⬝ᵥ u.ff + 1/2 * (x ⬝ᵥ Q *ᵥ x) + x ⬝ᵥ P *ᵥ u.ff + 1/2 * (u.ff ⬝ᵥ R *ᵥ u.ff)

/-- Jacobian factor of the integration scheme for affine dynamics: the discretisation is `x ↦ x + Φ (A x + B u + k)`. -/
noncomputable def Phi {nx : Nat} (rk : Bool) (A : Mat nx nx) : Mat nx nx :=
  if rk then 1 + (1/2 : ℝ) • A + (1/6 : ℝ) • (A * A) + (1/24 : ℝ) • (A * A * A) else 1

/-! ### proofs -/

theorem hStep_pos : 0 < hStep := by unfold hStep; positivity

theorem bump_eq {n : Nat} (v : Vec n) (i : Fin n) (a : ℝ) : bump v i a = v + a • Pi.single i 1 := by
  funext j
  unfold bump
  by_cases h : j = i
  · subst h; simp
  · simp [h]

theorem step_affine {nx nu : Nat} {o : Ocp nx nu} {A : Nat → Mat nx nx} {B : Nat → Mat nx nu} {k : Nat → Vec nx} (h : Affine o A B k) (c : Setting nu)
    (x : Vec nx) (u : Control nx nu) (t : Nat) : step o c x u t = x + Phi c.rk (A t) *ᵥ (A t *ᵥ x + B t *ᵥ u.ff + k t) := by
  unfold step Phi
  simp only [h _ u t]
  cases c.rk
  · simp
  · simp only [if_true]
    congr 1
    generalize hw : A t *ᵥ x + B t *ᵥ u.ff + k t = w
    have e : ∀ z, A t *ᵥ (x + z) + B t *ᵥ u.ff + k t = w + A t *ᵥ z := by
      intro z; rw [← hw, Matrix.mulVec_add]; abel
    rw [e, e, e]
    simp only [Matrix.add_mulVec, Matrix.smul_mulVec, Matrix.mulVec_add, Matrix.mulVec_smul, ← Matrix.mulVec_mulVec, Matrix.one_mulVec]
    norm_num
    module

theorem fd_fx {nx nu : Nat} {o : Ocp nx nu} {A : Nat → Mat nx nx} {B : Nat → Mat nx nu} {k : Nat → Vec nx} (h : Affine o A B k) (c : Setting nu)
    (x : Vec nx) (u : Control nx nu) (t : Nat) : fdFx o c x u t = 1 + Phi c.rk (A t) * A t := by
  ext i j
  unfold fdFx
  have hne : hStep ≠ 0 := hStep_pos.ne'
  simp only [bump_eq, step_affine h]
  have : (x + hStep • Pi.single j 1 + Phi c.rk (A t) *ᵥ (A t *ᵥ (x + hStep • Pi.single j 1) + B t *ᵥ u.ff + k t)) -
      (x + -hStep • Pi.single j 1 + Phi c.rk (A t) *ᵥ (A t *ᵥ (x + -hStep • Pi.single j 1) + B t *ᵥ u.ff + k t)) =
      (2 * hStep) • ((1 + Phi c.rk (A t) * A t) *ᵥ Pi.single j 1) := by
    simp only [Matrix.add_mulVec, Matrix.mulVec_add, Matrix.mulVec_smul, ← Matrix.mulVec_mulVec, Matrix.one_mulVec]
    module
  rw [← Pi.sub_apply, this, Pi.smul_apply, smul_eq_mul, mul_div_cancel_left₀ _ (mul_ne_zero two_ne_zero hne), Matrix.mulVec_single_one]
  rfl

theorem fd_fu {nx nu : Nat} {o : Ocp nx nu} {A : Nat → Mat nx nx} {B : Nat → Mat nx nu} {k : Nat → Vec nx} (h : Affine o A B k) (c : Setting nu)
    (x : Vec nx) (u : Control nx nu) (t : Nat) : fdFu o c x u t = Phi c.rk (A t) * B t := by
  ext i j
  unfold fdFu
  have hne : hStep ≠ 0 := hStep_pos.ne'
  simp only [bumpU, bump_eq, step_affine h]
  have : (x + Phi c.rk (A t) *ᵥ (A t *ᵥ x + B t *ᵥ (u.ff + hStep • Pi.single j 1) + k t)) -
      (x + Phi c.rk (A t) *ᵥ (A t *ᵥ x + B t *ᵥ (u.ff + -hStep • Pi.single j 1) + k t)) =
      (2 * hStep) • ((Phi c.rk (A t) * B t) *ᵥ Pi.single j 1) := by
    simp only [Matrix.mulVec_add, Matrix.mulVec_smul, ← Matrix.mulVec_mulVec]
    module
  rw [← Pi.sub_apply, this, Pi.smul_apply, smul_eq_mul, mul_div_cancel_left₀ _ (mul_ne_zero two_ne_zero hne), Matrix.mulVec_single_one]
  rfl

theorem single_dot {n : Nat} (i : Fin n) (v : Vec n) : (Pi.single i (1:ℝ)) ⬝ᵥ v = v i := by simp

theorem dot_single {n : Nat} (i : Fin n) (v : Vec n) : v ⬝ᵥ (Pi.single i (1:ℝ)) = v i := by simp

theorem sym_apply {n : Nat} {Q : Mat n n} (h : Qᵀ = Q) (x : Vec n) (i : Fin n) : x ⬝ᵥ Q.col i = (Q *ᵥ x) i := by
  rw [Matrix.mulVec, dotProduct_comm]
  congr 1
  funext j
  have := congrFun (congrFun h i) j
  simpa [Matrix.col_apply] using this

section
variable {nx nu : Nat} (a : ℝ) (q : Vec nx) (r : Vec nu) (Q : Mat nx nx) (P : Mat nx nu) (R : Mat nu nu) (x : Vec nx) (u : Control nx nu)

theorem fd_cx (hQ : Qᵀ = Q) : fdCx (quadCost a q r Q P R) x u = q + Q *ᵥ x + P *ᵥ u.ff := by
  funext i
  have hne : hStep ≠ 0 := hStep_pos.ne'
  unfold fdCx quadCost
  simp only [bump_eq, Matrix.mulVec_add, Matrix.mulVec_smul, dotProduct_add, add_dotProduct, dotProduct_smul, smul_dotProduct, smul_eq_mul, Matrix.mulVec_single_one,
    Pi.smul_apply, single_dot, dot_single, Pi.add_apply, sym_apply hQ]
  field_simp
  ring

theorem fd_cu (hR : Rᵀ = R) : fdCu (quadCost a q r Q P R) x u = r + Pᵀ *ᵥ x + R *ᵥ u.ff := by
  funext i
  have hne : hStep ≠ 0 := hStep_pos.ne'
  have hP : x ⬝ᵥ P.col i = (Pᵀ *ᵥ x) i := by rw [Matrix.mulVec, dotProduct_comm]; rfl
  unfold fdCu quadCost bumpU
  simp only [bump_eq, Matrix.mulVec_add, Matrix.mulVec_smul, dotProduct_add, add_dotProduct, dotProduct_smul, smul_dotProduct, smul_eq_mul, Matrix.mulVec_single_one,
    Pi.smul_apply, single_dot, dot_single, Pi.add_apply, sym_apply hR, hP]
  field_simp
  ring

theorem fd_cxx (hQ : Qᵀ = Q) : fdCxx (quadCost a q r Q P R) x u = Q := by
  ext i j
  have hne : hStep ≠ 0 := hStep_pos.ne'
  have hij : Q j i = Q i j := congrFun (congrFun hQ i) j
  unfold fdCxx quadCost
  simp only [bump_eq, Matrix.mulVec_add, Matrix.mulVec_smul, dotProduct_add, add_dotProduct, dotProduct_smul, smul_dotProduct, smul_eq_mul, Matrix.mulVec_single_one,
    Pi.smul_apply, single_dot, dot_single, Pi.add_apply, Matrix.col_apply, sym_apply hQ, hij]
  field_simp
  ring

theorem fd_cxu : fdCxu (quadCost a q r Q P R) x u = P := by
  ext i j
  have hne : hStep ≠ 0 := hStep_pos.ne'
  unfold fdCxu quadCost bumpU
  simp only [bump_eq, Matrix.mulVec_add, Matrix.mulVec_smul, dotProduct_add, add_dotProduct, dotProduct_smul, smul_dotProduct, smul_eq_mul, Matrix.mulVec_single_one,
    single_dot, dot_single, Matrix.col_apply]
  field_simp
  ring

theorem fd_cuu (hR : Rᵀ = R) : fdCuu (quadCost a q r Q P R) x u = R := by
  ext i j
  have hne : hStep ≠ 0 := hStep_pos.ne'
  have hij : R j i = R i j := congrFun (congrFun hR i) j
  unfold fdCuu quadCost bumpU
  simp only [bump_eq, Matrix.mulVec_add, Matrix.mulVec_smul, dotProduct_add, add_dotProduct, dotProduct_smul, smul_dotProduct, smul_eq_mul, Matrix.mulVec_single_one,
    Pi.smul_apply, single_dot, dot_single, Pi.add_apply, Matrix.col_apply, sym_apply hR, hij]
  field_simp
  ring
end

theorem bump_comm {n : Nat} (v : Vec n) (i j : Fin n) (a b : ℝ) : bump (bump v i a) j b = bump (bump v j b) i a := by
  simp only [bump_eq]; abel

/-- C42, symmetry: for every objective the estimated Hessians in the state and in the control are symmetric. -/
theorem C42_symmetric {nx nu : Nat} (o : Ocp nx nu) (c : Setting nu) (xs : Nat → Vec nx) (us : Nat → Control nx nu) (t : Nat) :
    ((derivatives o c xs us).cxx t)ᵀ = (derivatives o c xs us).cxx t ∧ ((derivatives o c xs us).cuu t)ᵀ = (derivatives o c xs us).cuu t := by
  constructor
  · ext i j
    simp only [derivatives, Matrix.transpose_apply, fdCxx]
    rw [bump_comm _ j i, bump_comm _ j i, bump_comm _ j i, bump_comm _ j i]
    ring
  · ext i j
    simp only [derivatives, Matrix.transpose_apply, fdCuu, bumpU]
    rw [bump_comm _ j i, bump_comm _ j i, bump_comm _ j i, bump_comm _ j i]
    ring

/-- C42, exactness. For affine dynamics (under Euler or Runge-Kutta integration) and costs quadratic with symmetric Hessians, at every nominal trajectory: the
derivatives of the discretised dynamics, and gradients and Hessians of stage costs (at the nominal state and control) and of the final cost (at zero control), are exact. -/
theorem C42_exact {nx nu : Nat} (o : Ocp nx nu) (c : Setting nu) (xs : Nat → Vec nx) (us : Nat → Control nx nu) (A : Nat → Mat nx nx) (B : Nat → Mat nx nu)
    (k : Nat → Vec nx) (hdyn : Affine o A B k) (a : Nat → ℝ) (q : Nat → Vec nx) (r : Nat → Vec nu) (Q : Nat → Mat nx nx) (P : Nat → Mat nx nu) (R : Nat → Mat nu nu)
    (hQ : ∀ t, (Q t)ᵀ = Q t) (hR : ∀ t, (R t)ᵀ = R t) (hobj : ∀ x u t, o.obj x u t (decide (t = o.tdim)) = quadCost (a t) (q t) (r t) (Q t) (P t) (R t) x u) :
    (∀ t x u, step o c x u t = (1 + Phi c.rk (A t) * A t) *ᵥ x + (Phi c.rk (A t) * B t) *ᵥ u.ff + Phi c.rk (A t) *ᵥ k t) ∧
    ∀ t, (derivatives o c xs us).fx t = 1 + Phi c.rk (A t) * A t ∧ (derivatives o c xs us).fu t = Phi c.rk (A t) * B t ∧
      (derivatives o c xs us).cxx t = Q t ∧ (derivatives o c xs us).cxu t = P t ∧ (derivatives o c xs us).cuu t = R t ∧
      (derivatives o c xs us).cx t = q t + Q t *ᵥ xs t + P t *ᵥ (if t < o.tdim then (us t).ff else 0) ∧
      (derivatives o c xs us).cu t = r t + (P t)ᵀ *ᵥ xs t + R t *ᵥ (if t < o.tdim then (us t).ff else 0) := by
  constructor
  · intro t x u
    rw [step_affine hdyn]
    simp only [Matrix.add_mulVec, Matrix.mulVec_add, ← Matrix.mulVec_mulVec, Matrix.one_mulVec]
    abel
  · intro t
    have hf : (fun x u => o.obj x u t (decide (t = o.tdim))) = quadCost (a t) (q t) (r t) (Q t) (P t) (R t) := by funext x u; exact hobj x u t
    have hu : (fdControl o us t).ff = if t < o.tdim then (us t).ff else 0 := by
      unfold fdControl
      split
      · rfl
      · split <;> rfl
    refine ⟨fd_fx hdyn c _ _ t, fd_fu hdyn c _ _ t, ?_, ?_, ?_, ?_, ?_⟩ <;> simp only [derivatives, hf]
    · exact fd_cxx _ _ _ _ _ _ _ _ (hQ t)
    · exact fd_cxu _ _ _ _ _ _ _ _
    · exact fd_cuu _ _ _ _ _ _ _ _ (hR t)
    · rw [fd_cx _ _ _ _ _ _ _ _ (hQ t), hu]
    · rw [fd_cu _ _ _ _ _ _ _ _ (hR t), hu]

/-- The hypotheses of C42 are met by a double integrator with a quadratic cost and a final cost. -/
noncomputable def exOcp (T : Nat) : Ocp 2 1 where
  tdim := T
  dyn x u _ := !![0, 1/10; 0, 0] *ᵥ x + !![0; 1/10] *ᵥ u.ff
  obj x u _ final := if final then 10 * (x ⬝ᵥ x) else x ⬝ᵥ x + u.ff ⬝ᵥ u.ff

example (T : Nat) : Affine (exOcp T) (fun _ => !![0, 1/10; 0, 0]) (fun _ => !![0; 1/10]) 0 ∧
    ∀ x u t, (exOcp T).obj x u t (decide (t = (exOcp T).tdim)) =
      quadCost 0 0 0 (if t = T then (20 : ℝ) • 1 else (2 : ℝ) • 1) 0 (if t = T then 0 else (2 : ℝ) • 1) x u := by
  refine ⟨fun x u t => by simp [exOcp], fun x u t => ?_⟩
  unfold quadCost exOcp
  by_cases h : t = T
  · simp only [h, decide_true, if_true, Matrix.smul_mulVec, Matrix.one_mulVec, dotProduct_smul, smul_eq_mul, zero_dotProduct, Matrix.zero_mulVec, dotProduct_zero]
    ring
  · simp only [h, decide_false, if_false, Matrix.smul_mulVec, Matrix.one_mulVec, dotProduct_smul, smul_eq_mul, zero_dotProduct, Matrix.zero_mulVec, dotProduct_zero]
    simp only [Bool.false_eq_true, if_false]
    ring

end Lqr
end Verif
