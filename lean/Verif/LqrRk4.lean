import Verif.LqrHorizonProps
import Mathlib.Analysis.SpecialFunctions.Trigonometric.Bounds
import Mathlib.Tactic.Module
import Mathlib.Tactic.Positivity

/-!
Property C259: with the Runge-Kutta option, the states computed by the LQR solver follow nonlinear systems with an error of fourth order in the time step.
-/
namespace Verif
namespace LqrSeq

open Lqr Finset Matrix

/-! ### one step -/

section Local
variable {E : Type*} [NormedAddCommGroup E] [NormedSpace ℝ E]

/-- A function whose derivative is bounded by `C s^k` grows at most like `C s^(k+1) / (k+1)`. -/
theorem grow {F F' : ℝ → E} {h C : ℝ} {k : Nat} (hF : ∀ s ∈ Set.Icc 0 h, HasDerivAt F (F' s) s) (hb : ∀ s ∈ Set.Icc 0 h, ‖F' s‖ ≤ C * s ^ k) (h0 : F 0 = 0) :
    ∀ s ∈ Set.Icc 0 h, ‖F s‖ ≤ C * s ^ (k + 1) / (k + 1) := by
  intro s hs
  refine image_norm_le_of_norm_deriv_right_le_deriv_boundary (f := F) (f' := F') (a := 0) (b := h) (B := fun s => C * s ^ (k + 1) / (k + 1)) (B' := fun s => C * s ^ k)
    (fun x hx => (hF x hx).continuousAt.continuousWithinAt) (fun x hx => (hF x ⟨hx.1, hx.2.le⟩).hasDerivWithinAt) ?_ ?_ ?_ hs
  · simp [h0]
  · intro x
    have h1 := ((hasDerivAt_pow (k + 1) x).const_mul C).div_const ((k : ℝ) + 1)
    refine h1.congr_deriv ?_
    have : ((k : ℝ) + 1) ≠ 0 := by positivity
    push_cast
    field_simp
  · intro x hx
    exact hb x ⟨hx.1, hx.2.le⟩

/-- `Y (k+1)` is the derivative of `Y k` on `[0, h]`, for `k < n`. -/
def Derivs (Y : Nat → ℝ → E) (n : Nat) (h : ℝ) : Prop := ∀ k < n, ∀ s ∈ Set.Icc 0 h, HasDerivAt (Y k) (Y (k + 1) s) s

theorem taylor (Y : Nat → ℝ → E) (h M : ℝ) : ∀ (n j : Nat), Derivs Y (j + n) h → (∀ s ∈ Set.Icc 0 h, ‖Y (j + n) s‖ ≤ M) →
    ∀ s ∈ Set.Icc 0 h, ‖Y j s - ∑ k ∈ range n, (s ^ k / (k.factorial : ℝ)) • Y (j + k) 0‖ ≤ M * s ^ n / (n.factorial : ℝ) := by
  intro n
  induction n with
  | zero => intro j _ hb s hs; simpa using hb s hs
  | succ n ih =>
    intro j hY hb s hs
    have h1 := ih (j + 1) (by rw [show j + 1 + n = j + (n + 1) by omega]; exact hY) (by rw [show j + 1 + n = j + (n + 1) by omega]; exact hb)
    have h2 := grow (F := fun s => Y j s - ∑ k ∈ range (n + 1), (s ^ k / (k.factorial : ℝ)) • Y (j + k) 0)
      (F' := fun s => Y (j + 1) s - ∑ k ∈ range n, (s ^ k / (k.factorial : ℝ)) • Y (j + 1 + k) 0) (C := M / n.factorial) (k := n) (h := h) ?_ ?_ ?_ s hs
    · refine h2.trans (le_of_eq ?_)
      rw [Nat.factorial_succ]; push_cast; field_simp
    · intro s hs
      refine (hY j (by omega) s hs).sub ?_
      rw [show (fun s : ℝ => ∑ k ∈ range (n + 1), (s ^ k / (k.factorial : ℝ)) • Y (j + k) 0) =
        fun s => (∑ k ∈ range n, (s ^ (k + 1) / ((k + 1).factorial : ℝ)) • Y (j + (k + 1)) 0) + (1 : ℝ) • Y j 0 by
          funext s; rw [Finset.sum_range_succ']; simp]
      refine HasDerivAt.add_const _ ?_
      refine (HasDerivAt.fun_sum (u := range n) (A := fun k s => (s ^ (k + 1) / ((k + 1).factorial : ℝ)) • Y (j + (k + 1)) 0)
        (A' := fun k => (s ^ k / (k.factorial : ℝ)) • Y (j + 1 + k) 0) fun k _ => ?_)
      have h3 := ((hasDerivAt_pow (k + 1) s).div_const ((k + 1).factorial : ℝ)).smul_const (Y (j + (k + 1)) 0)
      refine h3.congr_deriv ?_
      rw [show j + (k + 1) = j + 1 + k by omega]
      congr 1
      rw [Nat.factorial_succ]; push_cast; field_simp
    · intro s hs
      refine (h1 s hs).trans (le_of_eq (by ring))
    · rw [Finset.sum_range_succ']; simp

/-- A vector field with derivative `J`, bounded by `L`, and with Lipschitz constant `N`. -/
structure Smooth2 (g : E → E) (J : E → E →L[ℝ] E) (L N : ℝ) : Prop where
  deriv : ∀ x, HasFDerivAt g (J x) x
  bound : ∀ x, ‖J x‖ ≤ L
  lip : ∀ x x', ‖J x - J x'‖ ≤ N * ‖x - x'‖

theorem Smooth2.lipschitz {g : E → E} {J : E → E →L[ℝ] E} {L N : ℝ} (hg : Smooth2 g J L N) (x x' : E) : ‖g x' - g x‖ ≤ L * ‖x' - x‖ :=
  convex_univ.norm_image_sub_le_of_norm_hasFDerivWithin_le (fun z _ => (hg.deriv z).hasFDerivWithinAt) (fun z _ => hg.bound z) (Set.mem_univ x) (Set.mem_univ x')

theorem Smooth2.quad {g : E → E} {J : E → E →L[ℝ] E} {L N : ℝ} (hN : 0 ≤ N) (hg : Smooth2 g J L N) (x x' : E) : ‖g x' - g x - J x (x' - x)‖ ≤ N * ‖x' - x‖ ^ 2 := by
  have := (convex_segment x x').norm_image_sub_le_of_norm_hasFDerivWithin_le' (f := g) (f' := J) (φ := J x) (C := N * ‖x' - x‖)
    (fun z _ => (hg.deriv z).hasFDerivWithinAt) (fun z hz => (hg.lip z x).trans (mul_le_mul_of_nonneg_left (norm_sub_le_of_mem_segment hz) hN))
    (left_mem_segment ℝ x x') (right_mem_segment ℝ x x')
  refine this.trans (le_of_eq (by ring))

theorem smul_bound {c b : ℝ} {v : E} (hc : 0 ≤ c) (h : ‖v‖ ≤ b) : ‖c • v‖ ≤ c * b := by
  rw [norm_smul, Real.norm_of_nonneg hc]; exact mul_le_mul_of_nonneg_left h hc

set_option maxHeartbeats 1600000 in
/-- Local error of a Runge-Kutta step on a motion with five bounded derivatives: of fifth order. -/
theorem rk4_local (L N M : ℝ) (hL : 0 ≤ L) (hN : 0 ≤ N) (hM : 0 ≤ M) : ∃ C : ℝ, 0 ≤ C ∧ ∀ (g : E → E) (J : E → E →L[ℝ] E), Smooth2 g J L N →
    ∀ (h : ℝ) (Y : Nat → ℝ → E), 0 ≤ h → h ≤ 1 → Derivs Y 5 h → (∀ s ∈ Set.Icc 0 h, Y 1 s = g (Y 0 s)) → (∀ k, 1 ≤ k → k ≤ 5 → ∀ s ∈ Set.Icc 0 h, ‖Y k s‖ ≤ M) →
    ∀ k1 k2 k3 k4 : E, k1 = g (Y 0 0) → k2 = g (Y 0 0 + (h / 2) • k1) → k3 = g (Y 0 0 + (h / 2) • k2) → k4 = g (Y 0 0 + h • k3) →
    ‖Y 0 h - (Y 0 0 + (h / 6) • (k1 + (2 : ℝ) • k2 + (2 : ℝ) • k3 + k4))‖ ≤ C * h ^ 5 := by
  set a2 : ℝ := M / 8 with ha2
  set c3 : ℝ := 5 * M / 48 + L * M / 16 with hc3
  set a3 : ℝ := c3 + a2 with ha3
  set b3 : ℝ := L * c3 + N * (a2 ^ 2 + a3 ^ 2) with hb3
  set a5 : ℝ := M * (2 / 48 + 4 / 384 + 1 / 24) + b3 with ha5
  set a4 : ℝ := a5 + 2 * c3 with ha4
  set G : ℝ := L * a5 + 2 * (N * (a2 ^ 2 + a3 ^ 2)) + N * (3 * M / 2) * a4 + N * a4 ^ 2 with hG
  set S : ℝ := M * (1 / 120 + 4 / 6 / 384 + 1 / 144) with hS
  have p2 : 0 ≤ a2 := by positivity
  have p3 : 0 ≤ c3 := by positivity
  have p33 : 0 ≤ a3 := by positivity
  have pb3 : 0 ≤ b3 := by positivity
  have p5 : 0 ≤ a5 := by positivity
  have p4 : 0 ≤ a4 := by positivity
  have pG : 0 ≤ G := by positivity
  have pS : 0 ≤ S := by positivity
  refine ⟨G / 6 + S, by positivity, ?_⟩
  intro g J hg h Y h0 h1 hY hode hb k1 k2 k3 k4 e1 e2 e3 e4
  have hm : h / 2 ∈ Set.Icc 0 h := ⟨by linarith, by linarith⟩
  have hh : h ∈ Set.Icc 0 h := ⟨h0, le_rfl⟩
  have h00 : (0 : ℝ) ∈ Set.Icc 0 h := ⟨le_rfl, h0⟩
  have ty : ∀ n j : Nat, 1 ≤ j + n → j + n ≤ 5 → ∀ s ∈ Set.Icc 0 h, ‖Y j s - ∑ k ∈ range n, (s ^ k / (k.factorial : ℝ)) • Y (j + k) 0‖ ≤ M * s ^ n / (n.factorial : ℝ) :=
    fun n j h1 h2 => taylor Y h M n j (fun k hk => hY k (by omega)) (hb _ h1 h2)
  set x := Y 0 0
  set ym := Y 0 (h / 2)
  set y1 := Y 0 h
  have q0 : Y 1 0 = k1 := by rw [hode 0 h00, e1]
  set pm := Y 1 (h / 2) with hpm
  set p1 := Y 1 h with hp1
  have epm : pm = g ym := hode _ hm
  have ep1 : p1 = g y1 := hode _ hh
  have fac2 : ((2 : Nat).factorial : ℝ) = 2 := by norm_num [Nat.factorial]
  have fac3 : ((3 : Nat).factorial : ℝ) = 6 := by norm_num [Nat.factorial]
  have fac4 : ((4 : Nat).factorial : ℝ) = 24 := by norm_num [Nat.factorial]
  have fac5 : ((5 : Nat).factorial : ℝ) = 120 := by norm_num [Nat.factorial]
  -- Taylor remainders
  have ta := ty 2 0 (by omega) (by omega) _ hm
  have tb := ty 3 0 (by omega) (by omega) _ hm
  have tc := ty 2 1 (by omega) (by omega) _ hm
  have td := ty 4 0 (by omega) (by omega) _ hm
  have te := ty 4 0 (by omega) (by omega) _ hh
  have tf := ty 3 1 (by omega) (by omega) _ hm
  have tg := ty 5 0 (by omega) (by omega) _ hh
  have ti := ty 4 1 (by omega) (by omega) _ hm
  have tj := ty 4 1 (by omega) (by omega) _ hh
  have tk := ty 1 0 (by omega) (by omega) _ hm
  have tl := ty 1 0 (by omega) (by omega) _ hh
  simp only [Finset.sum_range_succ, Finset.sum_range_zero, zero_add, Nat.factorial_zero, Nat.factorial_one, Nat.cast_one, pow_zero, pow_one, div_one, one_smul, add_zero,
    fac2, fac3, fac4, fac5, Nat.reduceAdd, q0] at ta tb tc td te tf tg ti tj tk tl
  set Y2 := Y 2 0
  set Y3 := Y 3 0
  set Y4 := Y 4 0
  have hpow : ∀ n m : Nat, m ≤ n → h ^ n ≤ h ^ m := fun n m hnm => pow_le_pow_of_le_one h0 h1 hnm
  -- first stages
  set v2 := x + (h / 2) • k1 - ym with hv2
  set v3 := x + (h / 2) • k2 - ym with hv3
  set v4 := x + h • k3 - y1 with hv4
  have b2 : ‖v2‖ ≤ a2 * h ^ 2 := by
    rw [hv2, norm_sub_rev]
    refine ta.trans (le_of_eq ?_)
    rw [ha2]; ring
  have lk2 : ‖k2 - pm‖ ≤ L * (a2 * h ^ 2) := by
    rw [e2, epm]
    exact (hg.lipschitz _ _).trans (mul_le_mul_of_nonneg_left b2 hL)
  have b23 : ‖v2 + v3‖ ≤ c3 * h ^ 3 := by
    rw [show v2 + v3 = ((h / 2) • (pm - (k1 + (h / 2) • Y2)) - (2 : ℝ) • (ym - (x + (h / 2) • k1 + ((h / 2) ^ 2 / 2) • Y2))) + (h / 2) • (k2 - pm) by
      rw [hv2, hv3]; module]
    refine (norm_add_le _ _).trans ((add_le_add (norm_sub_le _ _) le_rfl).trans ?_)
    refine (add_le_add (add_le_add (smul_bound (by linarith) tc) (smul_bound (by norm_num) tb)) (smul_bound (by linarith) lk2)).trans (le_of_eq ?_)
    rw [hc3, ha2]; ring
  have b3' : ‖v3‖ ≤ a3 * h ^ 2 := by
    rw [show v3 = (v2 + v3) - v2 by abel]
    refine (norm_sub_le _ _).trans ((add_le_add b23 b2).trans ?_)
    have := mul_le_mul_of_nonneg_left (hpow 3 2 (by omega)) p3
    rw [ha3]; linarith
  set u2 := k2 - pm - J ym v2 with hu2
  set u3 := k3 - pm - J ym v3 with hu3
  set u4 := k4 - p1 - J y1 v4 with hu4
  have bu2 : ‖u2‖ ≤ N * a2 ^ 2 * h ^ 4 := by
    have := hg.quad hN ym (x + (h / 2) • k1)
    rw [← e2, ← epm] at this
    refine this.trans ?_
    have h2 : ‖x + (h / 2) • k1 - ym‖ ^ 2 ≤ (a2 * h ^ 2) ^ 2 := pow_le_pow_left₀ (norm_nonneg _) b2 2
    refine (mul_le_mul_of_nonneg_left h2 hN).trans (le_of_eq (by ring))
  have bu3 : ‖u3‖ ≤ N * a3 ^ 2 * h ^ 4 := by
    have := hg.quad hN ym (x + (h / 2) • k2)
    rw [← e3, ← epm] at this
    refine this.trans ?_
    have h2 : ‖x + (h / 2) • k2 - ym‖ ^ 2 ≤ (a3 * h ^ 2) ^ 2 := pow_le_pow_left₀ (norm_nonneg _) b3' 2
    refine (mul_le_mul_of_nonneg_left h2 hN).trans (le_of_eq (by ring))
  have bk23 : ‖k2 + k3 - (2 : ℝ) • pm‖ ≤ b3 * h ^ 3 := by
    rw [show k2 + k3 - (2 : ℝ) • pm = J ym (v2 + v3) + (u2 + u3) by rw [hu2, hu3, map_add]; module]
    refine (norm_add_le _ _).trans ?_
    have i1 : ‖J ym (v2 + v3)‖ ≤ L * (c3 * h ^ 3) :=
      ((J ym).le_opNorm _).trans (mul_le_mul (hg.bound _) b23 (norm_nonneg _) hL)
    have i2 : ‖u2 + u3‖ ≤ N * a2 ^ 2 * h ^ 4 + N * a3 ^ 2 * h ^ 4 := (norm_add_le _ _).trans (add_le_add bu2 bu3)
    have i3 := mul_le_mul_of_nonneg_left (hpow 4 3 (by omega)) (show 0 ≤ N * a2 ^ 2 + N * a3 ^ 2 by positivity)
    have i4 : b3 * h ^ 3 = L * (c3 * h ^ 3) + (N * a2 ^ 2 + N * a3 ^ 2) * h ^ 3 := by rw [hb3]; ring
    linarith
  set w := (2 : ℝ) • (v2 + v3) + v4 with hw
  have bw : ‖w‖ ≤ a5 * h ^ 4 := by
    rw [show w = ((2 * h) • (pm - (k1 + (h / 2) • Y2 + ((h / 2) ^ 2 / 2) • Y3)) - (4 : ℝ) • (ym - (x + (h / 2) • k1 + ((h / 2) ^ 2 / 2) • Y2 + ((h / 2) ^ 3 / 6) • Y3)) -
        (y1 - (x + h • k1 + (h ^ 2 / 2) • Y2 + (h ^ 3 / 6) • Y3))) + h • (k2 + k3 - (2 : ℝ) • pm) by
      rw [hw, hv2, hv3, hv4]; module]
    refine (norm_add_le _ _).trans ((add_le_add ((norm_sub_le _ _).trans (add_le_add (norm_sub_le _ _) le_rfl)) le_rfl).trans ?_)
    refine (add_le_add (add_le_add (add_le_add (smul_bound (by linarith) tf) (smul_bound (by norm_num) td)) te) (smul_bound h0 bk23)).trans (le_of_eq ?_)
    rw [ha5]; ring
  have b4 : ‖v4‖ ≤ a4 * h ^ 3 := by
    rw [show v4 = w - (2 : ℝ) • (v2 + v3) by rw [hw]; abel]
    refine (norm_sub_le _ _).trans ((add_le_add bw (smul_bound (by norm_num) b23)).trans ?_)
    have := mul_le_mul_of_nonneg_left (hpow 4 3 (by omega)) p5
    rw [ha4]; linarith
  have bu4 : ‖u4‖ ≤ N * a4 ^ 2 * h ^ 4 := by
    have := hg.quad hN y1 (x + h • k3)
    rw [← e4, ← ep1] at this
    refine this.trans ?_
    have h2 : ‖x + h • k3 - y1‖ ^ 2 ≤ (a4 * h ^ 3) ^ 2 := pow_le_pow_left₀ (norm_nonneg _) b4 2
    refine (mul_le_mul_of_nonneg_left h2 hN).trans ?_
    have := mul_le_mul_of_nonneg_left (hpow 6 4 (by omega)) (show 0 ≤ N * a4 ^ 2 by positivity)
    exact le_trans (le_of_eq (by ring)) this
  have bym : ‖y1 - ym‖ ≤ 3 * M / 2 * h := by
    rw [show y1 - ym = (y1 - x) - (ym - x) by abel]
    refine (norm_sub_le _ _).trans ((add_le_add tl tk).trans (le_of_eq (by ring)))
  have bJ : ‖(J y1 - J ym) v4‖ ≤ N * (3 * M / 2) * a4 * h ^ 4 := by
    refine ((J y1 - J ym).le_opNorm _).trans ?_
    refine (mul_le_mul ((hg.lip _ _).trans (mul_le_mul_of_nonneg_left bym hN)) b4 (norm_nonneg _) (by positivity)).trans (le_of_eq (by ring))
  have bg : ‖(2 : ℝ) • (k2 + k3 - (2 : ℝ) • pm) + (k4 - p1)‖ ≤ G * h ^ 4 := by
    rw [show (2 : ℝ) • (k2 + k3 - (2 : ℝ) • pm) + (k4 - p1) = J ym w + (2 : ℝ) • (u2 + u3) + (J y1 - J ym) v4 + u4 by
      rw [hu2, hu3, hu4, hw, map_add, map_smul, map_add, ContinuousLinearMap.sub_apply]; module]
    refine (norm_add_le _ _).trans (add_le_add ((norm_add_le _ _).trans (add_le_add (norm_add_le _ _) le_rfl)) le_rfl |>.trans ?_)
    have i1 : ‖J ym w‖ ≤ L * (a5 * h ^ 4) := ((J ym).le_opNorm _).trans (mul_le_mul (hg.bound _) bw (norm_nonneg _) hL)
    have i2 : ‖(2 : ℝ) • (u2 + u3)‖ ≤ 2 * (N * a2 ^ 2 * h ^ 4 + N * a3 ^ 2 * h ^ 4) := smul_bound (by norm_num) ((norm_add_le _ _).trans (add_le_add bu2 bu3))
    refine (add_le_add (add_le_add (add_le_add i1 i2) bJ) bu4).trans (le_of_eq ?_)
    rw [hG]; ring
  have bs : ‖y1 - (x + (h / 6) • (k1 + (4 : ℝ) • pm + p1))‖ ≤ S * h ^ 5 := by
    rw [show y1 - (x + (h / 6) • (k1 + (4 : ℝ) • pm + p1)) =
        (y1 - (x + h • k1 + (h ^ 2 / 2) • Y2 + (h ^ 3 / 6) • Y3 + (h ^ 4 / 24) • Y4)) -
        (4 * h / 6) • (pm - (k1 + (h / 2) • Y2 + ((h / 2) ^ 2 / 2) • Y3 + ((h / 2) ^ 3 / 6) • Y4)) -
        (h / 6) • (p1 - (k1 + h • Y2 + (h ^ 2 / 2) • Y3 + (h ^ 3 / 6) • Y4)) by module]
    refine (norm_sub_le _ _).trans ((add_le_add (norm_sub_le _ _) le_rfl).trans ?_)
    refine (add_le_add (add_le_add tg (smul_bound (by linarith) ti)) (smul_bound (by linarith) tj)).trans (le_of_eq ?_)
    rw [hS]; ring
  rw [show y1 - (x + (h / 6) • (k1 + (2 : ℝ) • k2 + (2 : ℝ) • k3 + k4)) =
    (y1 - (x + (h / 6) • (k1 + (4 : ℝ) • pm + p1))) - (h / 6) • ((2 : ℝ) • (k2 + k3 - (2 : ℝ) • pm) + (k4 - p1)) by module]
  refine (norm_sub_le _ _).trans ((add_le_add bs (smul_bound (by linarith) bg)).trans (le_of_eq (by ring)))

end Local

/-! ### the horizon -/

variable {nx nu : Nat}

/-- The states `zs` are those of a motion of `x' = g(x, u)` at the times `0, h, 2h, ...`, the controls being held over each step, with five derivatives bounded by `M` within the steps:
`Y t k` is the `k`-th derivative of the motion during step `t`. -/
structure Motion (T : Nat) (g : Vec nx → Vec nu → Vec nx) (us : Nat → Control nx nu) (h M : ℝ) (Y : Nat → Nat → ℝ → Vec nx) (zs : Nat → Vec nx) : Prop where
  derivs : ∀ t < T, Derivs (Y t) 5 h
  eqn : ∀ t < T, ∀ s ∈ Set.Icc 0 h, Y t 1 s = g (Y t 0 s) (us t).ff
  bound : ∀ t < T, ∀ k, 1 ≤ k → k ≤ 5 → ∀ s ∈ Set.Icc 0 h, ‖Y t k s‖ ≤ M
  start : ∀ t < T, Y t 0 0 = zs t
  stop : ∀ t < T, Y t 0 h = zs (t + 1)

/-- C259: Runge-Kutta integration is of fourth order on nonlinear systems. For bounds `L` on the derivative of the right hand side with respect to the state, `N` on its rate of change and
`M` on five derivatives of the motion, there is a constant `C` such that, for every problem and every time step up to one, the states returned by the forward pass are within
`s exp(s L) C h^4` of the motion under the returned controls, at the time `s = t h`. -/
theorem C259_fourth_order (L N M : ℝ) (hL : 0 ≤ L) (hN : 0 ≤ N) (hM : 0 ≤ M) : ∃ C : ℝ, 0 ≤ C ∧ ∀ (o : Ocp nx nu) (c : Setting nu), c.rk = true → ∀ (h : ℝ), 0 ≤ h → h ≤ 1 →
    ∀ (g : Vec nx → Vec nu → Vec nx) (J : Vec nu → Vec nx → Vec nx →L[ℝ] Vec nx), Increment o h g → (∀ u, Smooth2 (fun x => g x u) (J u) L N) →
    ∀ (xs : Nat → Vec nx) (us : Nat → Control nx nu) (Y : Nat → Nat → ℝ → Vec nx) (zs : Nat → Vec nx), Motion o.tdim g (applyController o c xs us).us h M Y zs → zs 0 = xs 0 →
    ∀ t ≤ o.tdim, ‖zs t - (applyController o c xs us).xs t‖ ≤ (t * h) * Real.exp (t * h * L) * (C * h ^ 4) := by
  obtain ⟨C, hC, key⟩ := rk4_local (E := Vec nx) L N M hL hN hM
  refine ⟨C, hC, ?_⟩
  intro o c hc h h0 h1 g J ho hg xs us Y zs hz hz0 t ht
  obtain ⟨x0, hx, -⟩ := C38_rollout o c xs us
  have hlip : StateLipschitz o (h * L) := by
    intro x y u t
    rw [ho, ho, ← smul_sub, norm_smul, Real.norm_of_nonneg h0, mul_assoc]
    exact mul_le_mul_of_nonneg_left ((hg u.ff).lipschitz y x) h0
  have := C210_perturbed o c (h * L) (C * h ^ 5) (mul_nonneg h0 hL) (by positivity) hlip (applyController o c xs us).us (applyController o c xs us).xs zs hx
    (by
      intro s hs
      have e := key _ _ (hg ((applyController o c xs us).us s).ff) h (Y s) h0 h1 (hz.derivs s hs) (hz.eqn s hs) (hz.bound s hs) _ _ _ _ rfl rfl rfl rfl
      rw [hz.start s hs, hz.stop s hs] at e
      refine le_trans (le_of_eq ?_) e
      congr 2
      unfold step
      rw [hc]
      have ho' : ∀ x u t, o.dyn x u t = h • g x u.ff := ho
      simp only [if_true, ho']
      rw [show (0.5 : ℝ) = 1 / 2 by norm_num, show (6.0 : ℝ) = 6 by norm_num, show (3.0 : ℝ) = 3 by norm_num]
      simp only [smul_smul, show (1 / 2 * h : ℝ) = h / 2 by ring]
      module) t ht
  rw [hz0, x0] at this
  refine this.trans (le_of_eq ?_)
  rw [sub_self, norm_zero, zero_add, show (t : ℝ) * (h * L) = t * h * L by ring]
  ring

/-! ### the hypotheses can be met -/

/-- A point moving at unit speed along the first axis, and pushed along the second by the sine of its position plus the control. -/
noncomputable def wave (x : Vec 2) (u : Vec 1) : Vec 2 := ![1, Real.sin (x 0) + u 0]

/-- Its derivative with respect to the state. -/
noncomputable def waveJ (_ : Vec 1) (x : Vec 2) : Vec 2 →L[ℝ] Vec 2 :=
  ContinuousLinearMap.pi ![0, Real.cos (x 0) • ContinuousLinearMap.proj 0]

theorem wave_smooth (u : Vec 1) : Smooth2 (fun x => wave x u) (waveJ u) 1 1 where
  deriv x := by
    rw [hasFDerivAt_pi']
    intro i
    fin_cases i
    · simpa [wave, waveJ] using hasFDerivAt_const (1 : ℝ) x
    · have h1 : HasFDerivAt (fun x : Vec 2 => x 0) (ContinuousLinearMap.proj (R := ℝ) (φ := fun _ : Fin 2 => ℝ) 0) x := hasFDerivAt_apply 0 x
      have h2 := (h1.sin).add_const (u 0)
      simpa [wave, waveJ] using h2
  bound x := by
    refine ContinuousLinearMap.opNorm_le_bound _ zero_le_one fun v => ?_
    rw [one_mul, pi_norm_le_iff_of_nonneg (norm_nonneg v)]
    intro i
    fin_cases i
    · simp [waveJ]
    · simp only [waveJ, Fin.mk_one, ContinuousLinearMap.coe_pi', Matrix.cons_val_one, Matrix.cons_val_fin_one, ContinuousLinearMap.smul_apply, ContinuousLinearMap.proj_apply, norm_smul]
      calc _ ≤ 1 * ‖v‖ := mul_le_mul (Real.abs_cos_le_one _) (norm_le_pi_norm v 0) (norm_nonneg _) zero_le_one
        _ = _ := one_mul _
  lip x x' := by
    refine ContinuousLinearMap.opNorm_le_bound _ (by positivity) fun v => ?_
    rw [pi_norm_le_iff_of_nonneg (by positivity)]
    intro i
    fin_cases i
    · simp [waveJ]; positivity
    · simp only [waveJ, Fin.mk_one, ContinuousLinearMap.sub_apply, ContinuousLinearMap.coe_pi', Pi.sub_apply, Matrix.cons_val_one, Matrix.cons_val_fin_one,
        ContinuousLinearMap.smul_apply, ContinuousLinearMap.proj_apply, smul_eq_mul]
      rw [← sub_mul, norm_mul, one_mul]
      refine mul_le_mul ?_ (norm_le_pi_norm v 0) (norm_nonneg _) (norm_nonneg _)
      exact (Real.abs_cos_sub_cos_le _ _).trans (norm_le_pi_norm (x - x') 0)

/-- The motion from the origin without control, and its derivatives. -/
noncomputable def waveY (h : ℝ) (t : Nat) : Nat → ℝ → Vec 2
  | 0 => fun s => ![t * h + s, 1 - Real.cos (t * h + s)]
  | 1 => fun s => ![1, Real.sin (t * h + s)]
  | 2 => fun s => ![0, Real.cos (t * h + s)]
  | 3 => fun s => ![0, -Real.sin (t * h + s)]
  | 4 => fun s => ![0, -Real.cos (t * h + s)]
  | _ => fun s => ![0, Real.sin (t * h + s)]

/-- The hypotheses of `C259_fourth_order` are met by a nonlinear problem, for every number of steps and time step. -/
theorem C259_example (T : Nat) (c : Setting 1) (hc : c.hasLimits = false) (h : ℝ) :
    let o : Ocp 2 1 := ⟨T, fun x u _ => h • wave x u.ff, fun _ _ _ _ => 0⟩
    Increment o h wave ∧ (∀ u, Smooth2 (fun x => wave x u) (waveJ u) 1 1) ∧
    Motion T wave (applyController o c (fun _ => 0) (fun _ => Control.zero 2 1)).us h 1 (waveY h) (fun t => ![t * h, 1 - Real.cos (t * h)]) ∧
    (![(0 : ℕ) * h, 1 - Real.cos ((0 : ℕ) * h)] : Vec 2) = 0 := by
  intro o
  have hff : ∀ t < T, ((applyController o c (fun _ => 0) (fun _ => Control.zero 2 1)).us t).ff = 0 := by
    intro t ht
    funext i
    rw [((C38_rollout o c (fun _ => 0) (fun _ => Control.zero 2 1)).2.2.1 t ht).2 i, hc]
    simp [Control.zero]
  have two : ∀ (f : Fin 2 → ℝ), |f 0| ≤ 1 → |f 1| ≤ 1 → ‖f‖ ≤ 1 := by
    intro f h1 h2
    rw [pi_norm_le_iff_of_nonneg zero_le_one]
    intro i
    fin_cases i
    · exact h1
    · exact h2
  refine ⟨fun _ _ _ => rfl, wave_smooth, ⟨?_, ?_, ?_, ?_, ?_⟩, ?_⟩
  · intro t _ k hk s _
    have hid : HasDerivAt (fun s : ℝ => t * h + s) 1 s := (hasDerivAt_id s).const_add _
    rw [hasDerivAt_pi]
    intro i
    interval_cases k <;> fin_cases i <;> simp only [waveY, Fin.mk_one, Fin.zero_eta, Matrix.cons_val_zero, Matrix.cons_val_one, Matrix.cons_val_fin_one]
    · exact hid
    · simpa using (hid.cos).const_sub 1
    · exact hasDerivAt_const _ _
    · simpa using hid.sin
    · exact hasDerivAt_const _ _
    · simpa using hid.cos
    · exact hasDerivAt_const _ _
    · simpa using hid.sin.fun_neg
    · exact hasDerivAt_const _ _
    · simpa using hid.cos.fun_neg
  · intro t ht s _
    rw [hff t ht]
    simp [waveY, wave]
  · intro t _ k h1 h5 s _
    apply two
    · interval_cases k <;> simp [waveY]
    · interval_cases k <;> simp [waveY, Real.abs_cos_le_one, Real.abs_sin_le_one]
  · intro t _; simp [waveY]
  · intro t _
    simp only [waveY]
    push_cast
    rw [show (t : ℝ) * h + h = (t + 1) * h by ring]
  · funext i
    fin_cases i <;> simp

end LqrSeq
end Verif
