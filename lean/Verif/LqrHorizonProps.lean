/-
Properties C210, C211: error of the integration over the whole horizon of the LQR solver.
-/
import Verif.LqrSeqProps
import Verif.LqrForwardProps
import Mathlib.Analysis.Calculus.MeanValue
import Mathlib.Analysis.SpecialFunctions.Exp
import Mathlib.Tactic.GCongr

namespace Verif
namespace LqrSeq

open Lqr Matrix

variable {nx nu : Nat}

/-! ### C210: sensitivity to the initial state -/

/-- The user's `dynamics` changes by at most `l` times the change of the state. -/
def StateLipschitz (o : Ocp nx nu) (l : ℝ) : Prop :=
  ∀ x y u t, ‖o.dyn x u t - o.dyn y u t‖ ≤ l * ‖x - y‖

theorem exp_four (l : ℝ) (h0 : 0 ≤ l) : 1 + l + l ^ 2 / 2 + l ^ 3 / 6 + l ^ 4 / 24 ≤ Real.exp l := by
  have := Real.sum_le_exp_of_nonneg h0 5
  simp only [Finset.sum_range_succ, Finset.sum_range_zero, Nat.factorial] at this
  norm_num at this
  linarith

/-- C210: one step of the integrator spreads states by at most `exp l`. -/
theorem C210_step (o : Ocp nx nu) (c : Setting nu) (l : ℝ) (h0 : 0 ≤ l) (hl : StateLipschitz o l)
    (x y : Vec nx) (u : Control nx nu) (t : Nat) :
    ‖step o c x u t - step o c y u t‖ ≤ Real.exp l * ‖x - y‖ := by
  have hn := norm_nonneg (x - y)
  refine le_trans ?_ (mul_le_mul_of_nonneg_right (exp_four l h0) hn)
  unfold step
  cases c.rk with
  | false =>
    have h1 := hl x y u t
    have : ‖x + o.dyn x u t - (y + o.dyn y u t)‖ ≤ ‖x - y‖ + ‖o.dyn x u t - o.dyn y u t‖ := by
      rw [show x + o.dyn x u t - (y + o.dyn y u t) = (x - y) + (o.dyn x u t - o.dyn y u t) by abel]
      exact norm_add_le _ _
    have hp : 0 ≤ (l ^ 2 / 2 + l ^ 3 / 6 + l ^ 4 / 24) * ‖x - y‖ := by positivity
    simp only [Bool.false_eq_true, if_false]
    nlinarith
  | true =>
    simp only [if_true]
    rw [show (0.5 : ℝ) = 1 / 2 by norm_num, show (6.0 : ℝ) = 6 by norm_num, show (3.0 : ℝ) = 3 by norm_num]
    have tri : ∀ (a : ℝ) (p q : Vec nx), 0 ≤ a → ‖x + a • p - (y + a • q)‖ ≤ ‖x - y‖ + a * ‖p - q‖ := by
      intro a p q ha
      rw [show x + a • p - (y + a • q) = (x - y) + a • (p - q) by rw [smul_sub]; abel]
      refine (norm_add_le _ _).trans ?_
      rw [norm_smul, Real.norm_of_nonneg ha]
    have tri1 : ∀ (p q : Vec nx), ‖x + p - (y + q)‖ ≤ ‖x - y‖ + ‖p - q‖ := by
      intro p q
      rw [show x + p - (y + q) = (x - y) + (p - q) by abel]
      exact norm_add_le _ _
    generalize hD : ‖x - y‖ = D at *
    have h1 := hl x y u t
    rw [hD] at h1
    set a1 := o.dyn x u t
    set b1 := o.dyn y u t
    have h2 := hl (x + (1 / 2 : ℝ) • a1) (y + (1 / 2 : ℝ) • b1) u t
    have g2 := tri (1 / 2) a1 b1 (by norm_num)
    set a2 := o.dyn (x + (1 / 2 : ℝ) • a1) u t
    set b2 := o.dyn (y + (1 / 2 : ℝ) • b1) u t
    have h3 := hl (x + (1 / 2 : ℝ) • a2) (y + (1 / 2 : ℝ) • b2) u t
    have g3 := tri (1 / 2) a2 b2 (by norm_num)
    set a3 := o.dyn (x + (1 / 2 : ℝ) • a2) u t
    set b3 := o.dyn (y + (1 / 2 : ℝ) • b2) u t
    have h4 := hl (x + a3) (y + b3) u t
    have g4 := tri1 a3 b3
    set a4 := o.dyn (x + a3) u t
    set b4 := o.dyn (y + b3) u t
    have e1 : ‖a1 - b1‖ ≤ l * D := h1
    have e2 : ‖a2 - b2‖ ≤ l * (D + 1 / 2 * (l * D)) :=
      h2.trans (mul_le_mul_of_nonneg_left (g2.trans (by linarith)) h0)
    have e3 : ‖a3 - b3‖ ≤ l * (D + 1 / 2 * (l * (D + 1 / 2 * (l * D)))) :=
      h3.trans (mul_le_mul_of_nonneg_left (g3.trans (by linarith)) h0)
    have e4 : ‖a4 - b4‖ ≤ l * (D + l * (D + 1 / 2 * (l * (D + 1 / 2 * (l * D))))) :=
      h4.trans (mul_le_mul_of_nonneg_left (g4.trans (by linarith)) h0)
    have key : ‖x + ((6 : ℝ)⁻¹ • (a1 + a4) + (3 : ℝ)⁻¹ • (a2 + a3)) - (y + ((6 : ℝ)⁻¹ • (b1 + b4) + (3 : ℝ)⁻¹ • (b2 + b3)))‖
        ≤ D + (6⁻¹ * (‖a1 - b1‖ + ‖a4 - b4‖) + 3⁻¹ * (‖a2 - b2‖ + ‖a3 - b3‖)) := by
      rw [show x + ((6 : ℝ)⁻¹ • (a1 + a4) + (3 : ℝ)⁻¹ • (a2 + a3)) - (y + ((6 : ℝ)⁻¹ • (b1 + b4) + (3 : ℝ)⁻¹ • (b2 + b3))) =
        (x - y) + ((6 : ℝ)⁻¹ • ((a1 - b1) + (a4 - b4)) + (3 : ℝ)⁻¹ • ((a2 - b2) + (a3 - b3))) by
          simp only [smul_add, smul_sub]; abel]
      refine (norm_add_le _ _).trans (add_le_add hD.le ((norm_add_le _ _).trans (add_le_add ?_ ?_)))
      · rw [norm_smul, Real.norm_of_nonneg (by norm_num)]
        exact mul_le_mul_of_nonneg_left (norm_add_le _ _) (by norm_num)
      · rw [norm_smul, Real.norm_of_nonneg (by norm_num)]
        exact mul_le_mul_of_nonneg_left (norm_add_le _ _) (by norm_num)
    refine key.trans ?_
    calc _ ≤ D + (6⁻¹ * (l * D + l * (D + l * (D + 1 / 2 * (l * (D + 1 / 2 * (l * D)))))) +
          3⁻¹ * (l * (D + 1 / 2 * (l * D)) + l * (D + 1 / 2 * (l * (D + 1 / 2 * (l * D)))))) := by gcongr
      _ = _ := by ring

/-- The states `zs` miss the step of the integrator by at most `e` at each time. -/
def Nearly (o : Ocp nx nu) (c : Setting nu) (us : Nat → Control nx nu) (e : ℝ) (zs : Nat → Vec nx) : Prop :=
  ∀ t, t < o.tdim → ‖zs (t + 1) - step o c (zs t) (us t) t‖ ≤ e

/-- C210: states that miss every step by at most `e` are within `exp (t l) (d + t e)` of the integrated ones, `d` being the
distance at the start. -/
theorem C210_perturbed (o : Ocp nx nu) (c : Setting nu) (l e : ℝ) (h0 : 0 ≤ l) (he : 0 ≤ e) (hl : StateLipschitz o l)
    (us : Nat → Control nx nu) (xs zs : Nat → Vec nx) (hx : Consistent o c xs us) (hz : Nearly o c us e zs) (t : Nat) (ht : t ≤ o.tdim) :
    ‖zs t - xs t‖ ≤ Real.exp (t * l) * (‖zs 0 - xs 0‖ + t * e) := by
  induction t with
  | zero => simp
  | succ t ih =>
    have ih := ih (by omega)
    have h1 := hz t ht
    have h2 := C210_step o c l h0 hl (zs t) (xs t) (us t) t
    have h3 : ‖zs (t + 1) - xs (t + 1)‖ ≤ e + Real.exp l * ‖zs t - xs t‖ := by
      rw [hx t ht, show zs (t + 1) - step o c (xs t) (us t) t =
        (zs (t + 1) - step o c (zs t) (us t) t) + (step o c (zs t) (us t) t - step o c (xs t) (us t) t) by abel]
      exact (norm_add_le _ _).trans (add_le_add h1 h2)
    have hexp : Real.exp ((t + 1 : ℕ) * l) = Real.exp l * Real.exp (t * l) := by
      rw [← Real.exp_add]; congr 1; push_cast; ring
    have hone : 1 ≤ Real.exp ((t + 1 : ℕ) * l) := Real.one_le_exp (by positivity)
    calc _ ≤ e + Real.exp l * ‖zs t - xs t‖ := h3
      _ ≤ Real.exp ((t + 1 : ℕ) * l) * e + Real.exp l * (Real.exp (t * l) * (‖zs 0 - xs 0‖ + t * e)) :=
        add_le_add (le_mul_of_one_le_left he hone) (mul_le_mul_of_nonneg_left ih (Real.exp_pos l).le)
      _ = _ := by rw [hexp]; push_cast; ring

/-- C210: two forward passes with the same controls without feedback, from the initial states `x0` and `y0`: the states at
time `t` differ by at most `exp (t l)` times the initial distance. -/
theorem C210_sensitivity (o : Ocp nx nu) (c : Setting nu) (l : ℝ) (h0 : 0 ≤ l) (hl : StateLipschitz o l)
    (us : Nat → Control nx nu) (hfb : ∀ t, (us t).fb = 0) (xs ys : Nat → Vec nx) (t : Nat) (ht : t ≤ o.tdim) :
    ‖(applyController o c xs us).xs t - (applyController o c ys us).xs t‖ ≤ Real.exp (t * l) * ‖xs 0 - ys 0‖ := by
  obtain ⟨x0, hx, hux, -⟩ := C38_rollout o c xs us
  obtain ⟨y0, hy, huy, -⟩ := C38_rollout o c ys us
  have hsame : ∀ s, s < o.tdim → (applyController o c xs us).us s = (applyController o c ys us).us s := by
    intro s hs
    have h1 := hux s hs
    have h2 := huy s hs
    have hff : ((applyController o c xs us).us s).ff = ((applyController o c ys us).us s).ff := by
      funext i
      rw [h1.2 i, h2.2 i, hfb]
      simp
    have hb : ((applyController o c xs us).us s).fb = ((applyController o c ys us).us s).fb := h1.1.trans h2.1.symm
    cases hA : (applyController o c xs us).us s
    cases hB : (applyController o c ys us).us s
    rw [hA, hB] at hff hb
    dsimp only at hff hb
    rw [hff, hb]
  have := C210_perturbed o c l 0 h0 le_rfl hl (applyController o c ys us).us (applyController o c ys us).xs
    (applyController o c xs us).xs hy (by
      intro s hs
      rw [hx s hs, hsame s hs]; simp) t ht
  rw [x0, y0] at this
  simpa using this

/-! ### C211: global error -/

/-- The states `zs` are those of the linear system at the times `0, h, 2h, ...`, the control being held over each step. -/
def Sampled (T : Nat) (A : Mat nx nx) (B : Mat nx nu) (us : Nat → Control nx nu) (h : ℝ) (y : Nat → ℝ → Vec nx) (zs : Nat → Vec nx) : Prop :=
  ∀ t, t < T → Follows A B (us t).ff (y t) ∧ y t 0 = zs t ∧ y t h = zs (t + 1)

/-- C211: the states returned by the forward pass follow the motion of the linear system `x' = A x + B u` under the controls
returned: with Runge-Kutta the error at the time `s = t h` is at most `s exp(s a) K h^4 / 24`, without `s exp(s a) K h`. -/
theorem C211_linear (o : Ocp nx nu) (c : Setting nu) (h a K : ℝ) (h0 : 0 ≤ h) (ha : 0 ≤ a) (hK0 : 0 ≤ K) (A : Mat nx nx) (B : Mat nx nu)
    (hl : Linear o h A B) (hA : ∀ v, ‖A *ᵥ v‖ ≤ a * ‖v‖) (xs : Nat → Vec nx) (us : Nat → Control nx nu)
    (y : Nat → ℝ → Vec nx) (zs : Nat → Vec nx)
    (hz : Sampled o.tdim A B (applyController o c xs us).us h y zs) (hz0 : zs 0 = xs 0)
    (hK : ∀ t, t < o.tdim → ∀ s ∈ Set.Icc 0 h,
      ‖(A ^ (if c.rk then 4 else 1)) *ᵥ (A *ᵥ y t s + B *ᵥ ((applyController o c xs us).us t).ff)‖ ≤ K)
    (t : Nat) (ht : t ≤ o.tdim) :
    ‖zs t - (applyController o c xs us).xs t‖ ≤ (t * h) * Real.exp (t * h * a) * if c.rk then K * h ^ 4 / 24 else K * h := by
  obtain ⟨x0, hx, -⟩ := C38_rollout o c xs us
  have hlip : StateLipschitz o (h * a) := by
    intro x y u t
    rw [hl, hl, ← smul_sub, norm_smul, Real.norm_of_nonneg h0, mul_assoc]
    refine mul_le_mul_of_nonneg_left ?_ h0
    rw [add_sub_add_right_eq_sub, ← mulVec_sub]
    exact hA _
  have hE : 0 ≤ (if c.rk then K * h ^ 5 / 24 else K * h ^ 2) := by split <;> positivity
  have := C210_perturbed o c (h * a) _ (mul_nonneg h0 ha) hE hlip (applyController o c xs us).us (applyController o c xs us).xs zs hx
    (by
      intro s hs
      obtain ⟨h1, h2, h3⟩ := hz s hs
      rw [← h2, ← h3]
      exact C204_error o c h h0 A B hl _ s (y s) h1 K (hK s hs)) t ht
  rw [hz0, x0] at this
  refine this.trans (le_of_eq ?_)
  rw [sub_self, norm_zero, zero_add, show (t : ℝ) * (h * a) = t * h * a by ring]
  split <;> ring

/-- The user's `dynamics` is the increment `h g(x, u)` of a differential equation. -/
def Increment (o : Ocp nx nu) (h : ℝ) (g : Vec nx → Vec nu → Vec nx) : Prop :=
  ∀ x u t, o.dyn x u t = h • g x u.ff

/-- Local error of the Euler step on a differential equation whose right hand side is bounded by `M` along the motion. -/
theorem euler_local (g : Vec nx → Vec nx) (L M h : ℝ) (h0 : 0 ≤ h) (hL0 : 0 ≤ L)
    (hL : ∀ x x', ‖g x - g x'‖ ≤ L * ‖x - x'‖) (y : ℝ → Vec nx) (hy : ∀ s ∈ Set.Icc 0 h, HasDerivAt y (g (y s)) s)
    (hM : ∀ s ∈ Set.Icc 0 h, ‖g (y s)‖ ≤ M) : ‖y h - (y 0 + h • g (y 0))‖ ≤ L * M * h ^ 2 := by
  have hM0 : 0 ≤ M := (norm_nonneg _).trans (hM 0 ⟨le_rfl, h0⟩)
  have hd : ∀ s ∈ Set.Icc (0 : ℝ) h, ‖y s - y 0‖ ≤ M * h := by
    intro s hs
    have := (convex_Icc (0 : ℝ) h).norm_image_sub_le_of_norm_hasDerivWithin_le (f := y) (f' := fun s => g (y s)) (C := M)
      (fun r hr => (hy r hr).hasDerivWithinAt) hM (x := 0) (y := s) ⟨le_rfl, h0⟩ hs
    refine this.trans (mul_le_mul_of_nonneg_left ?_ hM0)
    rw [sub_zero, Real.norm_of_nonneg hs.1]
    exact hs.2
  have := (convex_Icc (0 : ℝ) h).norm_image_sub_le_of_norm_hasDerivWithin_le (f := fun s => y s - s • g (y 0))
    (f' := fun s => g (y s) - g (y 0)) (C := L * (M * h))
    (fun r hr => by
      have h1 : HasDerivAt (fun s : ℝ => s • g (y 0)) (g (y 0)) r := by
        simpa using (hasDerivAt_id r).smul_const (g (y 0))
      exact ((hy r hr).sub h1).hasDerivWithinAt)
    (fun r hr => (hL _ _).trans (mul_le_mul_of_nonneg_left (hd r hr) hL0)) (x := 0) (y := h) ⟨le_rfl, h0⟩ ⟨h0, le_rfl⟩
  simp only [zero_smul, sub_zero, Real.norm_of_nonneg h0] at this
  rw [show y h - (y 0 + h • g (y 0)) = y h - h • g (y 0) - y 0 by abel]
  refine this.trans (le_of_eq (by ring))

/-- C211: Euler's method on a differential equation `x' = g(x, u)` with `g` Lipschitz in the state: the error at the time
`s = t h` is at most `s exp(s L) L M h`. -/
theorem C211_euler (o : Ocp nx nu) (c : Setting nu) (hc : c.rk = false) (h L M : ℝ) (h0 : 0 ≤ h) (hL0 : 0 ≤ L) (hM0 : 0 ≤ M)
    (g : Vec nx → Vec nu → Vec nx) (ho : Increment o h g) (hL : ∀ x x' u, ‖g x u - g x' u‖ ≤ L * ‖x - x'‖)
    (xs : Nat → Vec nx) (us : Nat → Control nx nu) (y : Nat → ℝ → Vec nx) (zs : Nat → Vec nx)
    (hy : ∀ t, t < o.tdim → ∀ s ∈ Set.Icc 0 h, HasDerivAt (y t) (g (y t s) ((applyController o c xs us).us t).ff) s)
    (hM : ∀ t, t < o.tdim → ∀ s ∈ Set.Icc 0 h, ‖g (y t s) ((applyController o c xs us).us t).ff‖ ≤ M)
    (hz : ∀ t, t < o.tdim → y t 0 = zs t ∧ y t h = zs (t + 1)) (hz0 : zs 0 = xs 0) (t : Nat) (ht : t ≤ o.tdim) :
    ‖zs t - (applyController o c xs us).xs t‖ ≤ (t * h) * Real.exp (t * h * L) * (L * M * h) := by
  obtain ⟨x0, hx, -⟩ := C38_rollout o c xs us
  have hlip : StateLipschitz o (h * L) := by
    intro x y u t
    rw [ho, ho, ← smul_sub, norm_smul, Real.norm_of_nonneg h0, mul_assoc]
    exact mul_le_mul_of_nonneg_left (hL _ _ _) h0
  have := C210_perturbed o c (h * L) (L * M * h ^ 2) (mul_nonneg h0 hL0) (by positivity) hlip (applyController o c xs us).us
    (applyController o c xs us).xs zs hx
    (by
      intro s hs
      obtain ⟨h2, h3⟩ := hz s hs
      have e : step o c (zs s) ((applyController o c xs us).us s) s = zs s + h • g (zs s) ((applyController o c xs us).us s).ff := by
        unfold step; rw [hc]; simp only [Bool.false_eq_true, if_false]; rw [ho]
      rw [e, ← h2, ← h3]
      exact euler_local (fun x => g x ((applyController o c xs us).us s).ff) L M h h0 hL0 (fun x x' => hL x x' _) (y s) (hy s hs) (hM s hs)) t ht
  rw [hz0, x0] at this
  refine this.trans (le_of_eq ?_)
  rw [sub_self, norm_zero, zero_add, show (t : ℝ) * (h * L) = t * h * L by ring]
  ring

/-- `x' = x` from one over two steps of length `h`: `exp` sampled, with `a = 1` and `K = exp (2 h)` the hypotheses of
`C211_linear` are met. -/
theorem C211_example (c : Setting 1) (h : ℝ) (h0 : 0 ≤ h) :
    let o : Ocp 1 1 := ⟨2, fun x _ _ => h • x, fun _ _ _ _ => 0⟩
    let y : Nat → ℝ → Vec 1 := fun t s _ => Real.exp (t * h + s)
    let f := applyController o c (fun _ _ => 1) (fun _ => Control.zero 1 1)
    Linear o h 1 0 ∧ (∀ v : Vec 1, ‖(1 : Mat 1 1) *ᵥ v‖ ≤ 1 * ‖v‖) ∧
    Sampled 2 1 (0 : Mat 1 1) f.us h y (fun t _ => Real.exp (t * h)) ∧
    (∀ t, t < 2 → ∀ s ∈ Set.Icc 0 h, ‖((1 : Mat 1 1) ^ (if c.rk then 4 else 1)) *ᵥ ((1 : Mat 1 1) *ᵥ y t s + (0 : Mat 1 1) *ᵥ (f.us t).ff)‖ ≤ Real.exp (2 * h)) := by
  refine ⟨fun x u t => by simp, fun v => by simp, fun t ht => ⟨fun s => ?_, ?_, ?_⟩, fun t ht s hs => ?_⟩
  · rw [hasDerivAt_pi]
    intro i
    simpa using ((hasDerivAt_id s).const_add (t * h : ℝ)).exp
  · funext i; simp
  · funext i; dsimp only; congr 1; push_cast; ring
  · rw [one_pow]
    simp only [one_mulVec, zero_mulVec, add_zero]
    rw [pi_norm_le_iff_of_nonneg (Real.exp_pos _).le]
    intro i
    rw [Real.norm_of_nonneg (Real.exp_pos _).le, Real.exp_le_exp]
    have : (t : ℝ) ≤ 1 := by exact_mod_cast (by omega : t ≤ 1)
    nlinarith [hs.1, hs.2]

end LqrSeq
end Verif
