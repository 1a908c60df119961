import Verif.PyManStep
import Mathlib.Analysis.SpecialFunctions.Trigonometric.ArctanDeriv
import Mathlib.Analysis.Calculus.MeanValue

/-! C270: the logarithm of a quaternion in `CentroidalLqr` and the differences of orientations, including the branches for small angles. -/
namespace Verif
namespace PyMan
open Matrix Quaternion

/-- The cubic Taylor polynomial of the arctangent. -/
lemma arctan_cubic {x : ℝ} (hx : 0 ≤ x) : |x - x ^ 3 / 3 - Real.arctan x| ≤ x ^ 5 := by
  have hd : ∀ t : ℝ, HasDerivAt (fun t => t - t ^ 3 / 3 - Real.arctan t) (1 - t ^ 2 - 1 / (1 + t ^ 2)) t := fun t => by
    have h := (((hasDerivAt_id t).sub ((hasDerivAt_pow 3 t).div_const 3)).sub (Real.hasDerivAt_arctan t))
    refine h.congr_deriv ?_
    norm_num
  have key := (convex_Icc (0 : ℝ) x).norm_image_sub_le_of_norm_hasDerivWithin_le (C := x ^ 4)
    (f := fun t => t - t ^ 3 / 3 - Real.arctan t) (fun t _ => (hd t).hasDerivWithinAt) (fun t ht => by
      have e : 1 - t ^ 2 - 1 / (1 + t ^ 2) = -(t ^ 4 / (1 + t ^ 2)) := by field_simp; ring
      rw [e, norm_neg, Real.norm_of_nonneg (by positivity)]
      calc t ^ 4 / (1 + t ^ 2) ≤ t ^ 4 := div_le_self (by positivity) (by nlinarith [sq_nonneg t])
        _ ≤ x ^ 4 := pow_le_pow_left₀ ht.1 ht.2 4) (Set.left_mem_Icc.2 hx) (Set.right_mem_Icc.2 hx)
  simp only [Real.arctan_zero, Real.norm_eq_abs] at key
  norm_num at key
  rw [abs_of_nonneg hx] at key
  calc _ ≤ x ^ 4 * x := key
    _ = x ^ 5 := by ring

/-- Unit quaternions about one axis. -/
lemma near_axis (d : Quat) (φ : ℝ) (hd : nsq d = 1) (h0 : 0 < nrm d.vec) (hφ : 0 ≤ φ) :
    ‖NormedSpace.exp (pure ((φ / nrm d.vec) • d.vec)) - toH d‖ ^ 2 = (Real.cos φ - d.w) ^ 2 + (Real.sin φ - nrm d.vec) ^ 2 := by
  have hn : nrm ((φ / nrm d.vec) • d.vec) = φ := by
    rw [nrm_smul (by positivity)]; field_simp
  rw [pow_two, ← normSq_eq_norm_mul_self, exp_pure, normSq_def', hn]
  have key := nrm_sq d.vec
  simp only [re_sub, imI_sub, imJ_sub, imK_sub, toH_re, toH_imI, toH_imJ, toH_imK, Pi.smul_apply, smul_eq_mul]
  set n := nrm d.vec with hnn
  have v0 : d.vec 0 = d.x := rfl
  have v1 : d.vec 1 = d.y := rfl
  have v2 : d.vec 2 = d.z := rfl
  rw [v0, v1, v2] at key ⊢
  have hs : Real.sin φ / φ * (φ / n) = Real.sin φ / n := by
    rcases eq_or_lt_of_le hφ with h | h
    · rw [← h]; simp
    · field_simp
  have e : ∀ a : ℝ, Real.sin φ / φ * (φ / n * a) - a = (Real.sin φ - n) / n * a := fun a => by
    rw [← mul_assoc, hs]; field_simp
  rw [e, e, e]
  have : ((Real.sin φ - n) / n * d.x) ^ 2 + ((Real.sin φ - n) / n * d.y) ^ 2 + ((Real.sin φ - n) / n * d.z) ^ 2 = (Real.sin φ - n) ^ 2 := by
    have : ((Real.sin φ - n) / n) ^ 2 * n ^ 2 = (Real.sin φ - n) ^ 2 := by field_simp
    rw [← this, key]; ring
  linarith

/-- The angle of a unit quaternion. -/
lemma angle_eq (d : Quat) (hd : nsq d = 1) : Real.cos (Complex.arg ⟨d.w, nrm d.vec⟩) = d.w ∧ Real.sin (Complex.arg ⟨d.w, nrm d.vec⟩) = nrm d.vec := by
  have hsq : nrm d.vec ^ 2 + d.w ^ 2 = 1 := by
    rw [nrm_sq]; unfold nsq at hd; simpa [Quat.vec] using hd
  have habs : ‖(⟨d.w, nrm d.vec⟩ : ℂ)‖ = 1 := by
    rw [Complex.norm_def, Complex.normSq_mk, Real.sqrt_eq_one]
    linarith
  have hc := Complex.norm_mul_cos_arg ⟨d.w, nrm d.vec⟩
  have hs := Complex.norm_mul_sin_arg ⟨d.w, nrm d.vec⟩
  rw [habs, one_mul] at hc hs
  exact ⟨hc, hs⟩

/-- C270, logarithm: beyond the threshold half of the result of `log_quaternion` is an exact logarithm of a unit quaternion. -/
theorem C270_log_exact (d : Quat) (hd : nsq d = 1) (hn : eps < nrm d.vec) : NormedSpace.exp (pure ((1 / 2 : ℝ) • logQ d)) = toH d := by
  have h0 : 0 < nrm d.vec := lt_trans (by norm_num [eps]) hn
  obtain ⟨hc, hs⟩ := angle_eq d hd
  have e : (1 / 2 : ℝ) • logQ d = (Complex.arg ⟨d.w, nrm d.vec⟩ / nrm d.vec) • d.vec := by
    unfold logQ
    simp only [not_le.2 hn, if_false]
    funext i
    simp only [Pi.smul_apply, smul_eq_mul]
    ring
  have h := near_axis d (Complex.arg ⟨d.w, nrm d.vec⟩) hd h0 (Complex.arg_nonneg_iff.2 h0.le)
  rw [hc, hs, sub_self, sub_self, zero_pow two_ne_zero, add_zero] at h
  rw [e]
  exact sub_eq_zero.1 (norm_eq_zero.1 (pow_eq_zero_iff two_ne_zero |>.1 h))

/-- The chord between two points of the unit circle. -/
lemma chord (a b : ℝ) : (Real.cos a - Real.cos b) ^ 2 + (Real.sin a - Real.sin b) ^ 2 = 2 - 2 * Real.cos (a - b) := by
  rw [Real.cos_sub]
  have h1 := Real.sin_sq_add_cos_sq a
  have h2 := Real.sin_sq_add_cos_sq b
  linear_combination h1 + h2

/-- The branch for small angles, positive real part. -/
lemma log_small (d : Quat) (hd : nsq d = 1) (hn : nrm d.vec ≤ eps) (hw : 0 < d.w) :
    ‖NormedSpace.exp (pure ((1 / 2 : ℝ) • logQ d)) - toH d‖ ≤ 2 / 10 ^ 30 := by
  obtain ⟨hc, hs⟩ := angle_eq d hd
  have hsq : nrm d.vec ^ 2 + d.w ^ 2 = 1 := by
    rw [nrm_sq]; unfold nsq at hd; simpa [Quat.vec] using hd
  set n := nrm d.vec with hnn
  set θ := Complex.arg ⟨d.w, n⟩ with hθ
  have n0 : 0 ≤ n := nrm_nonneg _
  have hn' : n ≤ 1 / 10 ^ 6 := hn
  have hw1 : 999999 / 1000000 ≤ d.w := by
    by_contra hlt
    push Not at hlt
    nlinarith
  rcases eq_or_lt_of_le n0 with hz | hpos
  · have key := nrm_sq d.vec
    rw [← hnn, ← hz] at key
    have v0 : d.vec = 0 := by
      funext i
      have h0 := sq_nonneg (d.vec 0)
      have h1 := sq_nonneg (d.vec 1)
      have h2 := sq_nonneg (d.vec 2)
      fin_cases i
      · exact pow_eq_zero_iff (two_ne_zero) |>.1 (by show d.vec 0 ^ 2 = 0; linarith)
      · exact pow_eq_zero_iff (two_ne_zero) |>.1 (by show d.vec 1 ^ 2 = 0; linarith)
      · exact pow_eq_zero_iff (two_ne_zero) |>.1 (by show d.vec 2 ^ 2 = 0; linarith)
    have l0 : logQ d = 0 := by
      unfold logQ
      simp only [← hnn, hn, if_true, v0]
      funext i; simp
    have w1 : d.w = 1 := by rw [← hz] at hsq; nlinarith
    have e : toH d = 1 := by
      have x0 : d.x = 0 := congrFun v0 0
      have y0 : d.y = 0 := congrFun v0 1
      have z0 : d.z = 0 := congrFun v0 2
      ext <;> simp [x0, y0, z0, w1]
    have p0 : pure (0 : V3) = 0 := by ext <;> simp
    rw [l0, smul_zero, p0, NormedSpace.exp_zero, e, sub_self, norm_zero]
    positivity
  have tan : θ = Real.arctan (n / d.w) := by
    have h1 : |θ| < Real.pi / 2 := Complex.abs_arg_lt_pi_div_two_iff.2 (Or.inl hw)
    have h2 := Complex.tan_arg ⟨d.w, n⟩
    rw [← hθ] at h2
    rw [← h2, Real.arctan_tan (abs_lt.1 h1).1 (abs_lt.1 h1).2]
  set x := n / d.w with hx
  have x0 : 0 ≤ x := by positivity
  have x1 : x ≤ 1000002 / 10 ^ 12 := by
    rw [hx, div_le_iff₀ hw]
    nlinarith
  have hφ : 0 ≤ x - x ^ 3 / 3 := by nlinarith [mul_nonneg x0 x0, mul_nonneg (mul_nonneg x0 x0) x0]
  have e : (1 / 2 : ℝ) • logQ d = ((x - x ^ 3 / 3) / n) • d.vec := by
    unfold logQ
    simp only [← hnn, hn, if_true]
    funext i
    simp only [Pi.smul_apply, smul_eq_mul, hx]
    field_simp
  have h := near_axis d (x - x ^ 3 / 3) hd hpos hφ
  rw [e]
  rw [← hnn] at h
  refine le_of_sq_le_sq (h.le.trans ?_) (by norm_num)
  have hδ := arctan_cubic x0
  rw [← tan] at hδ
  have e2 : (Real.cos (x - x ^ 3 / 3) - d.w) ^ 2 + (Real.sin (x - x ^ 3 / 3) - n) ^ 2 = 2 - 2 * Real.cos (x - x ^ 3 / 3 - θ) := by
    have := chord (x - x ^ 3 / 3) θ
    rwa [hc, hs] at this
  rw [e2]
  have hcos := Real.one_sub_sq_div_two_le_cos (x := x - x ^ 3 / 3 - θ)
  have hb : (x - x ^ 3 / 3 - θ) ^ 2 ≤ (2 / 10 ^ 30) ^ 2 := by
    rw [← sq_abs]
    refine pow_le_pow_left₀ (abs_nonneg _) (hδ.trans ?_) 2
    calc x ^ 5 ≤ (1000002 / 10 ^ 12) ^ 5 := pow_le_pow_left₀ x0 x1 5
      _ ≤ 2 / 10 ^ 30 := by norm_num
  linarith

lemma logQ_neg_small (d : Quat) (hn : nrm d.vec ≤ eps) : logQ ⟨-d.x, -d.y, -d.z, -d.w⟩ = logQ d := by
  have hv : Quat.vec ⟨-d.x, -d.y, -d.z, -d.w⟩ = -d.vec := by funext i; fin_cases i <;> simp [Quat.vec]
  unfold logQ
  simp only [hv, nrm_neg, hn, if_true]
  funext i
  simp only [Pi.neg_apply, neg_sq]
  rw [mul_neg, neg_div_neg_eq]

lemma toH_neg (d : Quat) : toH ⟨-d.x, -d.y, -d.z, -d.w⟩ = -toH d := by
  ext <;> simp

/-- C270, logarithm: up to the sign, which does not change the rotation, the exponential of half of the result of `log_quaternion` is the given unit quaternion, in the branch for small angles up to
`2 · 10⁻³⁰`; the sign differs only for small angles of a quaternion with negative real part. -/
theorem C270_log (d : Quat) (hd : nsq d = 1) :
    (0 < d.w ∨ eps < nrm d.vec → ‖NormedSpace.exp (pure ((1 / 2 : ℝ) • logQ d)) - toH d‖ ≤ 2 / 10 ^ 30) ∧
    (d.w < 0 → nrm d.vec ≤ eps → ‖NormedSpace.exp (pure ((1 / 2 : ℝ) • logQ d)) - -toH d‖ ≤ 2 / 10 ^ 30) := by
  refine ⟨fun h => ?_, fun hw hn => ?_⟩
  · by_cases hn : eps < nrm d.vec
    · rw [C270_log_exact d hd hn, sub_self, norm_zero]; positivity
    · exact log_small d hd (not_lt.1 hn) (h.resolve_right hn)
  · have hv : Quat.vec ⟨-d.x, -d.y, -d.z, -d.w⟩ = -d.vec := by funext i; fin_cases i <;> simp [Quat.vec]
    have := log_small ⟨-d.x, -d.y, -d.z, -d.w⟩ (by unfold nsq at hd ⊢; simp only; linarith) (by rw [hv, nrm_neg]; exact hn) (by show 0 < -d.w; linarith)
    rwa [logQ_neg_small d hn, toH_neg] at this

/-- `exp_quaternion` is the exponential up to `10⁻¹³`, for every vector. -/
lemma exp_near (w : V3) : ‖toH (expQ w) - NormedSpace.exp (pure w)‖ ≤ 1 / 10 ^ 13 := by
  by_cases h : nrm w ^ 2 ≤ eps
  · exact C164_small_partial h
  · rw [(C164_closed_form (not_le.1 h)).1, sub_self, norm_zero]; positivity

/-- C270: for any two unit quaternions, integrating their difference from the first leads to the second up to `2 · 10⁻¹³` — or to its negative, which is the same orientation, if the second is
close to the negative of the first. -/
theorem C270_inverse (q1 q2 : Quat) (h1 : nsq q1 = 1) (h2 : nsq q2 = 1) :
    ‖toH (integ q1 (qdiff q1 q2)) - toH q2‖ ≤ 2 / 10 ^ 13 ∨ ‖toH (integ q1 (qdiff q1 q2)) - -toH q2‖ ≤ 2 / 10 ^ 13 ∧ ‖toH q2 - -toH q1‖ ≤ 2 / 10 ^ 6 := by
  set d := prod q2 (conj q1) with hdd
  have hd : nsq d = 1 := by
    rw [hdd, nsq_prod, h2, one_mul]
    unfold nsq at h1 ⊢
    simp only [conj]; linarith
  have n1 : ‖toH q1‖ = 1 := by
    have := nsq_toH q1
    rw [h1, normSq_eq_norm_mul_self] at this
    nlinarith [norm_nonneg (toH q1)]
  have e2 : toH q2 = toH d * toH q1 := by
    rw [hdd, C163_product, conj_star, mul_assoc, star_mul_self, ← nsq_toH, h1]
    simp
  have e1 : toH (integ q1 (qdiff q1 q2)) = toH (expQ ((1 / 2 : ℝ) • logQ d)) * toH q1 := by
    unfold integ qdiff
    rw [C163_product]
  have hx := exp_near ((1 / 2 : ℝ) • logQ d)
  have hl := C270_log d hd
  by_cases hc : 0 < d.w ∨ eps < nrm d.vec
  · left
    rw [e1, e2, ← sub_mul, norm_mul, n1, mul_one]
    calc _ ≤ _ := norm_sub_le_norm_sub_add_norm_sub _ (NormedSpace.exp (pure ((1 / 2 : ℝ) • logQ d))) _
      _ ≤ 1 / 10 ^ 13 + 2 / 10 ^ 30 := add_le_add hx (hl.1 hc)
      _ ≤ _ := by norm_num
  · push Not at hc
    right
    have hsq : nrm d.vec ^ 2 + d.w ^ 2 = 1 := by
      rw [nrm_sq]; unfold nsq at hd; simpa [Quat.vec] using hd
    have hn0 := nrm_nonneg d.vec
    have hn6 : nrm d.vec ≤ 1 / 10 ^ 6 := hc.2
    have hw : d.w < 0 := by
      refine lt_of_le_of_ne hc.1 fun h => ?_
      rw [h] at hsq; nlinarith
    refine ⟨?_, ?_⟩
    · rw [e1, e2, ← neg_mul, ← sub_mul, norm_mul, n1, mul_one]
      calc _ ≤ _ := norm_sub_le_norm_sub_add_norm_sub _ (NormedSpace.exp (pure ((1 / 2 : ℝ) • logQ d))) _
        _ ≤ 1 / 10 ^ 13 + 2 / 10 ^ 30 := add_le_add hx (hl.2 hw hc.2)
        _ ≤ _ := by norm_num
    · rw [e2]
      have : toH d * toH q1 - -toH q1 = (toH d - -1) * toH q1 := by rw [sub_mul, neg_mul, one_mul]
      rw [this, norm_mul, n1, mul_one]
      refine le_of_sq_le_sq ?_ (by norm_num)
      rw [pow_two, ← normSq_eq_norm_mul_self, normSq_def']
      simp only [sub_neg_eq_add, re_add, imI_add, imJ_add, imK_add, re_one, imI_one, imJ_one, imK_one, toH_re, toH_imI, toH_imJ, toH_imK, add_zero]
      have key := nrm_sq d.vec
      have v0 : d.vec 0 = d.x := rfl
      have v1 : d.vec 1 = d.y := rfl
      have v2 : d.vec 2 = d.z := rfl
      rw [v0, v1, v2] at key
      have hw1 : d.w ≤ -(999999 / 1000000) := by
        by_contra hlt
        push Not at hlt
        nlinarith
      nlinarith

/-- A difference in the branch for small angles that is not zero: half a millionth of a radian about the vertical. -/
example : ∃ d : Quat, nsq d = 1 ∧ 0 < d.w ∧ nrm d.vec ≤ eps ∧ logQ d ≠ 0 := by
  refine ⟨⟨0, 0, 1 / 10 ^ 7, √(1 - (1 / 10 ^ 7) ^ 2)⟩, ?_, Real.sqrt_pos.2 (by norm_num), ?_, ?_⟩
  · unfold nsq
    simp only
    rw [Real.sq_sqrt (by norm_num)]; norm_num
  · unfold nrm
    rw [Real.sqrt_le_left (by norm_num [eps])]
    simp [Quat.vec, eps]
    norm_num
  · intro h
    have h2 := congrFun h 2
    have hn : nrm (Quat.vec ⟨0, 0, 1 / 10 ^ 7, √(1 - (1 / 10 ^ 7) ^ 2)⟩) = 1 / 10 ^ 7 := by
      unfold nrm
      rw [Real.sqrt_eq_iff_mul_self_eq (by positivity) (by norm_num)]
      simp [Quat.vec]
      norm_num
    unfold logQ at h2
    simp only [hn] at h2
    rw [if_pos (by norm_num [eps])] at h2
    have hw : √(1 - (1 / 10 ^ 7 : ℝ) ^ 2) ^ 2 = 1 - (1 / 10 ^ 7) ^ 2 := Real.sq_sqrt (by norm_num)
    have hw0 : 0 < √(1 - (1 / 10 ^ 7 : ℝ) ^ 2) := Real.sqrt_pos.2 (by norm_num)
    simp only [Quat.vec, hw] at h2
    have hp : 0 < 2 * (1 / 10 ^ 7 : ℝ) / √(1 - (1 / 10 ^ 7) ^ 2) * (1 - (1 / 10 ^ 7) ^ 2 / (3 * (1 - (1 / 10 ^ 7) ^ 2))) := by
      apply mul_pos (by positivity) (by norm_num)
    exact hp.ne' (by simpa using h2)

end PyMan
end Verif
