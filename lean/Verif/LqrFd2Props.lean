/-
Properties C215, C216: the finite differences of smooth problems are derivatives at nearby points.
-/
import Verif.LqrFd2
import Verif.LqrFdProps
import Mathlib.Analysis.Calculus.ContDiff.Basic
import Mathlib.Analysis.Calculus.ContDiff.Operations
import Mathlib.Analysis.Calculus.ContDiff.CPolynomial
import Mathlib.Analysis.Calculus.Deriv.MeanValue
import Mathlib.Analysis.Calculus.MeanValue
import Mathlib.Analysis.Calculus.Deriv.Add
import Mathlib.Analysis.Calculus.Deriv.Mul
import Mathlib.Tactic.Linarith
import Mathlib.Tactic.FieldSimp
import Mathlib.Tactic.Ring

namespace Verif
namespace Lqr

variable {nx nu : Nat}

/-! ### Differences and derivatives along directions -/

variable {E : Type} [NormedAddCommGroup E] [NormedSpace ℝ E]

/-- The derivative of `F` at `z` in the direction `p`. -/
noncomputable def dirD (F : E → ℝ) (p z : E) : ℝ := fderiv ℝ F z p

theorem line_deriv (F : E → ℝ) (hF : Differentiable ℝ F) (p z : E) (s : ℝ) :
    HasDerivAt (fun a : ℝ => F (z + a • p)) (dirD F p (z + s • p)) s := by
  have h1 : HasDerivAt (fun a : ℝ => z + a • p) p s := by
    simpa using ((hasDerivAt_id s).smul_const p).const_add z
  exact (hF (z + s • p)).hasFDerivAt.comp_hasDerivAt s h1

/-- A central difference is the derivative at a point in between. -/
theorem central_eq (F : E → ℝ) (hF : Differentiable ℝ F) (p z : E) (h : ℝ) (h0 : 0 < h) :
    ∃ s, |s| < h ∧ (F (z + h • p) - F (z + (-h) • p)) / (2 * h) = dirD F p (z + s • p) := by
  obtain ⟨s, hs, he⟩ := exists_hasDerivAt_eq_slope (fun a : ℝ => F (z + a • p)) (fun s => dirD F p (z + s • p)) (show -h < h by linarith)
    (fun s _ => (line_deriv F hF p z s).continuousAt.continuousWithinAt) (fun s _ => line_deriv F hF p z s)
  refine ⟨s, abs_lt.mpr hs, ?_⟩
  rw [he, show h - -h = 2 * h by ring]

/-- A difference of differences is the mixed second derivative at a point in between. -/
theorem central2_eq (F : E → ℝ) (hF : Differentiable ℝ F) (p q z : E) (hp : Differentiable ℝ (dirD F p)) (h : ℝ) (h0 : 0 < h) :
    ∃ s r, |s| < h ∧ |r| < h ∧
      (F (z + h • p + h • q) - F (z + h • p + (-h) • q) - F (z + (-h) • p + h • q) + F (z + (-h) • p + (-h) • q)) / (4 * h ^ 2) =
        dirD (dirD F p) q (z + s • p + r • q) := by
  have hd : ∀ s, HasDerivAt (fun a : ℝ => F (z + h • q + a • p) - F (z + (-h) • q + a • p))
      (dirD F p (z + h • q + s • p) - dirD F p (z + (-h) • q + s • p)) s := fun s =>
    (line_deriv F hF p (z + h • q) s).sub (line_deriv F hF p (z + (-h) • q) s)
  obtain ⟨s, hs, he⟩ := exists_hasDerivAt_eq_slope _ _ (show -h < h by linarith)
    (fun s _ => (hd s).continuousAt.continuousWithinAt) (fun s _ => hd s)
  obtain ⟨r, hr, he2⟩ := central_eq (dirD F p) hp q (z + s • p) h h0
  refine ⟨s, r, abs_lt.mpr hs, hr, ?_⟩
  rw [← he2]
  have e1 : z + s • p + h • q = z + h • q + s • p := by abel
  have e2 : z + s • p + (-h) • q = z + (-h) • q + s • p := by abel
  rw [e1, e2, he]
  have f1 : z + h • p + h • q = z + h • q + h • p := by abel
  have f2 : z + h • p + (-h) • q = z + (-h) • q + h • p := by abel
  have f3 : z + (-h) • p + h • q = z + h • q + (-h) • p := by abel
  have f4 : z + (-h) • p + (-h) • q = z + (-h) • q + (-h) • p := by abel
  rw [f1, f2, f3, f4]
  have hne : h ≠ 0 := h0.ne'
  field_simp
  ring

/-! ### Smooth problems -/

/-- The user's dynamics at time `t`, as a function of state and feedforward control for a given feedback, is `m` times
continuously differentiable. -/
def SmoothDyn (o : Ocp nx nu) (m : ℕ) : Prop :=
  ∀ (fb : Mat nu nx) (t : Nat), ContDiff ℝ m fun z : Vec nx × Vec nu => o.dyn z.1 ⟨z.2, fb⟩ t

/-- The user's objective likewise. -/
def SmoothObj (o : Ocp nx nu) (m : ℕ) : Prop :=
  ∀ (fb : Mat nu nx) (t : Nat) (b : Bool), ContDiff ℝ m fun z : Vec nx × Vec nu => o.obj z.1 ⟨z.2, fb⟩ t b

/-- Entry `i` of the state after one step of the solver's integrator, as a function of state and feedforward control. -/
noncomputable def stepFn (o : Ocp nx nu) (c : Setting nu) (fb : Mat nu nx) (t : Nat) (i : Fin nx) (z : Vec nx × Vec nu) : ℝ :=
  step o c z.1 ⟨z.2, fb⟩ t i

/-- The unit vector of a state. -/
def ex (i : Fin nx) : Vec nx × Vec nu := (Pi.single i 1, 0)
/-- The unit vector of a control. -/
def eu (i : Fin nu) : Vec nx × Vec nu := (0, Pi.single i 1)

theorem smooth_step (o : Ocp nx nu) (c : Setting nu) (m : ℕ) (h : SmoothDyn o m) (fb : Mat nu nx) (t : Nat) (i : Fin nx) :
    ContDiff ℝ m (stepFn o c fb t i) := by
  have hf := h fb t
  have key : ContDiff ℝ m fun z : Vec nx × Vec nu => step o c z.1 ⟨z.2, fb⟩ t := by
    have comp : ∀ g : Vec nx × Vec nu → Vec nx, ContDiff ℝ m g → ContDiff ℝ m fun z => o.dyn (z.1 + g z) ⟨z.2, fb⟩ t := by
      intro g hg
      have : ContDiff ℝ m fun z : Vec nx × Vec nu => ((z.1 + g z, z.2) : Vec nx × Vec nu) := (contDiff_fst.add hg).prodMk contDiff_snd
      exact hf.comp this
    unfold step
    cases c.rk with
    | false =>
      simp only [Bool.false_eq_true, if_false]
      exact contDiff_fst.add hf
    | true =>
      simp only [if_true]
      have h2 := comp _ (hf.const_smul (0.5 : ℝ))
      have h3 := comp _ (h2.const_smul (0.5 : ℝ))
      have h4 := comp _ h3
      exact contDiff_fst.add (((hf.add h4).const_smul (6.0 : ℝ)⁻¹).add ((h2.add h3).const_smul (3.0 : ℝ)⁻¹))
  exact (contDiff_pi.mp key) i

theorem bump_x (x : Vec nx) (w : Vec nu) (i : Fin nx) (a : ℝ) : ((bump x i a, w) : Vec nx × Vec nu) = (x, w) + a • ex i := by
  rw [bump_eq]; simp [ex]

theorem bump_u (x : Vec nx) (w : Vec nu) (i : Fin nu) (a : ℝ) : ((x, bump w i a) : Vec nx × Vec nu) = (x, w) + a • eu i := by
  rw [bump_eq]; simp [eu]

theorem dirD_diff (F : E → ℝ) (hF : ContDiff ℝ 2 F) (p : E) : Differentiable ℝ (dirD F p) := by
  have : ContDiff ℝ 1 (fderiv ℝ F) := hF.fderiv_right (m := 1) (by norm_num)
  exact (this.differentiable (by norm_num)).clm_apply (differentiable_const p)

/-! ### C215: first derivatives -/

/-- C215: for continuously differentiable dynamics every entry of `fx` and `fu` is the derivative of the integrated
step with respect to that state or control, at a point that differs from the trajectory by less than `2^-17` in this entry. -/
theorem C215_dynamics (o : Ocp nx nu) (c : Setting nu) (h : SmoothDyn o 1) (xs : Nat → Vec nx) (us : Nat → Control nx nu) (t : Nat) (i : Fin nx) :
    (∀ k, ∃ s, |s| < (2 : ℝ)⁻¹ ^ 17 ∧ (derivatives o c xs us).fx t i k =
      dirD (stepFn o c (us t).fb t i) (ex k) ((xs t, (us t).ff) + s • ex k)) ∧
    (∀ k, ∃ s, |s| < (2 : ℝ)⁻¹ ^ 17 ∧ (derivatives o c xs us).fu t i k =
      dirD (stepFn o c (us t).fb t i) (eu k) ((xs t, (us t).ff) + s • eu k)) := by
  have hF : Differentiable ℝ (stepFn o c (us t).fb t i) := (smooth_step o c 1 h (us t).fb t i).differentiable (by norm_num)
  constructor <;> intro k
  · obtain ⟨s, hs, he⟩ := central_eq _ hF (ex k) (xs t, (us t).ff) hStep hStep_pos
    refine ⟨s, hs, ?_⟩
    rw [← he, ← bump_x, ← bump_x]; rfl
  · obtain ⟨s, hs, he⟩ := central_eq _ hF (eu k) (xs t, (us t).ff) hStep hStep_pos
    refine ⟨s, hs, ?_⟩
    rw [← he, ← bump_u, ← bump_u]; rfl

/-- The objective at time `t` as the solver evaluates it, as a function of state and feedforward control. -/
def objFn (o : Ocp nx nu) (fb : Mat nu nx) (t : Nat) (z : Vec nx × Vec nu) : ℝ := o.obj z.1 ⟨z.2, fb⟩ t (decide (t = o.tdim))

/-- C215: the same for `cx` and `cu` and the objective; at the final time the control is zero. -/
theorem C215_objective (o : Ocp nx nu) (c : Setting nu) (h : SmoothObj o 1) (xs : Nat → Vec nx) (us : Nat → Control nx nu) (t : Nat) :
    let u := fdControl o us t
    (t < o.tdim → u = us t) ∧ (t = o.tdim → u.ff = 0) ∧
    (∀ k, ∃ s, |s| < (2 : ℝ)⁻¹ ^ 17 ∧ (derivatives o c xs us).cx t k = dirD (objFn o u.fb t) (ex k) ((xs t, u.ff) + s • ex k)) ∧
    (∀ k, ∃ s, |s| < (2 : ℝ)⁻¹ ^ 17 ∧ (derivatives o c xs us).cu t k = dirD (objFn o u.fb t) (eu k) ((xs t, u.ff) + s • eu k)) := by
  intro u
  have hF : Differentiable ℝ (objFn o u.fb t) := (h u.fb t (decide (t = o.tdim))).differentiable (by norm_num)
  refine ⟨fun ht => by simp [u, fdControl, ht], fun ht => ?_, fun k => ?_, fun k => ?_⟩
  · simp only [u, fdControl, ht, lt_irrefl, if_false]
    split <;> rfl
  · obtain ⟨s, hs, he⟩ := central_eq _ hF (ex k) (xs t, u.ff) hStep hStep_pos
    refine ⟨s, hs, ?_⟩
    rw [← he, ← bump_x, ← bump_x]; rfl
  · obtain ⟨s, hs, he⟩ := central_eq _ hF (eu k) (xs t, u.ff) hStep hStep_pos
    refine ⟨s, hs, ?_⟩
    rw [← he, ← bump_u, ← bump_u]; rfl

/-! ### C216: second derivatives -/

/-- C216: for a twice continuously differentiable objective every entry of `cxx`, `cxu`, `cuu` is that second derivative
of the objective at a point that differs from the trajectory by less than `2^-16` in the two entries. -/
theorem C216_objective (o : Ocp nx nu) (c : Setting nu) (h : SmoothObj o 2) (xs : Nat → Vec nx) (us : Nat → Control nx nu) (t : Nat) :
    let u := fdControl o us t
    let F := objFn o u.fb t
    (∀ i k, ∃ s r, |s| < (2 : ℝ)⁻¹ ^ 17 ∧ |r| < (2 : ℝ)⁻¹ ^ 17 ∧ (derivatives o c xs us).cxx t i k = dirD (dirD F (ex i)) (ex k) ((xs t, u.ff) + s • ex i + r • ex k)) ∧
    (∀ i k, ∃ s r, |s| < (2 : ℝ)⁻¹ ^ 17 ∧ |r| < (2 : ℝ)⁻¹ ^ 17 ∧ (derivatives o c xs us).cxu t i k = dirD (dirD F (ex i)) (eu k) ((xs t, u.ff) + s • ex i + r • eu k)) ∧
    (∀ i k, ∃ s r, |s| < (2 : ℝ)⁻¹ ^ 17 ∧ |r| < (2 : ℝ)⁻¹ ^ 17 ∧ (derivatives o c xs us).cuu t i k = dirD (dirD F (eu i)) (eu k) ((xs t, u.ff) + s • eu i + r • eu k)) := by
  intro u F
  have hC : ContDiff ℝ 2 F := h u.fb t (decide (t = o.tdim))
  have hF : Differentiable ℝ F := hC.differentiable (by norm_num)
  refine ⟨fun i k => ?_, fun i k => ?_, fun i k => ?_⟩
  · obtain ⟨s, r, hs, hr, he⟩ := central2_eq F hF (ex i) (ex k) (xs t, u.ff) (dirD_diff F hC _) hStep hStep_pos
    refine ⟨s, r, hs, hr, ?_⟩
    rw [← he]
    simp only [← bump_x]; rfl
  · obtain ⟨s, r, hs, hr, he⟩ := central2_eq F hF (ex i) (eu k) (xs t, u.ff) (dirD_diff F hC _) hStep hStep_pos
    refine ⟨s, r, hs, hr, ?_⟩
    rw [← he]
    simp only [← bump_x, ← bump_u]; rfl
  · obtain ⟨s, r, hs, hr, he⟩ := central2_eq F hF (eu i) (eu k) (xs t, u.ff) (dirD_diff F hC _) hStep hStep_pos
    refine ⟨s, r, hs, hr, ?_⟩
    rw [← he]
    simp only [← bump_u]; rfl

/-- C216: the same for the second derivatives of the dynamics; `fxu` is indexed by the control, its columns by the state. -/
theorem C216_dynamics (o : Ocp nx nu) (c : Setting nu) (h : SmoothDyn o 2) (x : Vec nx) (u : Control nx nu) (t : Nat) (i : Fin nx) :
    let F := stepFn o c u.fb t i
    (∀ k l, ∃ s r, |s| < (2 : ℝ)⁻¹ ^ 17 ∧ |r| < (2 : ℝ)⁻¹ ^ 17 ∧ fdFxx o c x u t k i l = dirD (dirD F (ex k)) (ex l) ((x, u.ff) + s • ex k + r • ex l)) ∧
    (∀ k l, ∃ s r, |s| < (2 : ℝ)⁻¹ ^ 17 ∧ |r| < (2 : ℝ)⁻¹ ^ 17 ∧ fdFxu o c x u t k i l = dirD (dirD F (eu k)) (ex l) ((x, u.ff) + s • eu k + r • ex l)) ∧
    (∀ k l, ∃ s r, |s| < (2 : ℝ)⁻¹ ^ 17 ∧ |r| < (2 : ℝ)⁻¹ ^ 17 ∧ fdFuu o c x u t k i l = dirD (dirD F (eu k)) (eu l) ((x, u.ff) + s • eu k + r • eu l)) := by
  intro F
  have hC : ContDiff ℝ 2 F := smooth_step o c 2 h u.fb t i
  have hF : Differentiable ℝ F := hC.differentiable (by norm_num)
  refine ⟨fun k l => ?_, fun k l => ?_, fun k l => ?_⟩
  · obtain ⟨s, r, hs, hr, he⟩ := central2_eq F hF (ex k) (ex l) (x, u.ff) (dirD_diff F hC _) hStep hStep_pos
    refine ⟨s, r, hs, hr, ?_⟩
    rw [← he]
    simp only [← bump_x]; rfl
  · obtain ⟨s, r, hs, hr, he⟩ := central2_eq F hF (eu k) (ex l) (x, u.ff) (dirD_diff F hC _) hStep hStep_pos
    refine ⟨s, r, hs, hr, ?_⟩
    rw [← he]
    simp only [← bump_u, ← bump_x]; rfl
  · obtain ⟨s, r, hs, hr, he⟩ := central2_eq F hF (eu k) (eu l) (x, u.ff) (dirD_diff F hC _) hStep hStep_pos
    refine ⟨s, r, hs, hr, ?_⟩
    rw [← he]
    simp only [← bump_u]; rfl

/-- C216: the second derivatives of the dynamics are symmetric, whatever the dynamics. -/
theorem C216_symmetric (o : Ocp nx nu) (c : Setting nu) (x : Vec nx) (u : Control nx nu) (t : Nat) (i : Fin nx) :
    (∀ k l, fdFxx o c x u t k i l = fdFxx o c x u t l i k) ∧ (∀ k l, fdFuu o c x u t k i l = fdFuu o c x u t l i k) := by
  constructor <;> intro k l
  · unfold fdFxx
    rw [bump_comm x k l hStep hStep, bump_comm x k l hStep (-hStep), bump_comm x k l (-hStep) hStep, bump_comm x k l (-hStep) (-hStep)]
    ring
  · unfold fdFuu bumpU
    dsimp only
    rw [bump_comm u.ff k l hStep hStep, bump_comm u.ff k l hStep (-hStep), bump_comm u.ff k l (-hStep) hStep, bump_comm u.ff k l (-hStep) (-hStep)]
    ring

/-- A smooth nonlinear problem: `x' = x + x^2 u`, cost `x^4`. -/
example : SmoothDyn (⟨3, fun x u _ k => x k ^ 2 * u.ff k, fun x _ _ _ => x 0 ^ 4⟩ : Ocp 1 1) 2 ∧
    SmoothObj (⟨3, fun x u _ k => x k ^ 2 * u.ff k, fun x _ _ _ => x 0 ^ 4⟩ : Ocp 1 1) 2 := by
  have h1 : ∀ k : Fin 1, ContDiff ℝ 2 fun z : Vec 1 × Vec 1 => z.1 k := fun k => (contDiff_apply ℝ ℝ k).comp contDiff_fst
  have h2 : ∀ k : Fin 1, ContDiff ℝ 2 fun z : Vec 1 × Vec 1 => z.2 k := fun k => (contDiff_apply ℝ ℝ k).comp contDiff_snd
  exact ⟨fun fb t => contDiff_pi.mpr fun k => ((h1 k).pow 2).mul (h2 k), fun fb t b => (h1 0).pow 4⟩

end Lqr
end Verif
