import Verif.OrientProps
import Mathlib.Analysis.SpecialFunctions.Trigonometric.Deriv
import Mathlib.Analysis.SpecialFunctions.Sqrt
import Mathlib.Analysis.Calculus.Deriv.Pi
import Mathlib.Analysis.Calculus.Deriv.Pow
import Mathlib.Analysis.Calculus.Deriv.Inv

/-! C51 (integrating the required angular velocity), C67-C69 (meaning of the Jacobians and angular velocities). -/
namespace Verif
namespace Orient
open Matrix

/-! ### the logarithm is at most half a turn long -/

theorem vec_smul' (a : ℝ) (q : Qt) : vec (a • q) = a • vec q := by funext i; fin_cases i <;> rfl

theorem norm3_logMap_le (q : Qt) (h : 0 < sq q) : norm3 (logMap q) ≤ Real.pi := by
  have h1 : sq (flipW (normalize q)) = 1 := by rw [flipW_sq, sq_normalize h]
  have h2 := flipW_re (normalize q)
  unfold logMap
  simp only
  generalize flipW (normalize q) = n at h1 h2 ⊢
  rw [sq_eq] at h1
  have hv : norm3 (vec n) ≤ 1 := by nlinarith [norm3_nonneg (vec n), sq_nonneg n.w]
  split
  · rw [norm3_smul, abs_of_pos two_pos]; linarith [Real.two_le_pi]
  · next hre =>
    have hsin : Real.sin (Real.arccos n.w) = norm3 (vec n) := by
      rw [Real.sin_arccos, show 1 - n.w ^ 2 = norm3 (vec n) ^ 2 by linarith, Real.sqrt_sq (norm3_nonneg _)]
    rw [show 1 / 2 * (2 * Real.arccos n.w) = Real.arccos n.w by ring, norm3_smul, hsin, abs_of_nonneg (div_nonneg (by linarith [Real.arccos_nonneg n.w]) (norm3_nonneg _))]
    have ha : Real.arccos n.w ≤ Real.pi / 2 := Real.arccos_le_pi_div_two.mpr h2
    rcases (norm3_nonneg (vec n)).eq_or_lt with h0 | h0
    · rw [← h0]; simp [Real.pi_pos.le]
    · rw [div_mul_cancel₀ _ h0.ne']; linarith

/-! ### C68: world and body angular velocities -/

/-- For every matrix of this shape along a quaternion of this shape, rotating its transpose gives the matrix. -/
theorem conj_form (w t α β γ : ℝ) (v x : V3) (hβ : β * w = α * t) :
    quat w (t • v) * quat 0 ((α • (1 : M3) + β • skew v + γ • Matrix.vecMulVec v v)ᵀ *ᵥ x) =
      quat 0 ((α • (1 : M3) + β • skew v + γ • Matrix.vecMulVec v v) *ᵥ x) * quat w (t • v) := by
  ext <;> simp [quat, skew, Matrix.mulVec, dotProduct, Fin.sum_univ_three, Matrix.vecMulVec] 
  · ring
  · linear_combination (2 * (v 2 * x 1 - v 1 * x 2)) * hβ
  · linear_combination (2 * (v 0 * x 2 - v 2 * x 0)) * hβ
  · linear_combination (2 * (v 1 * x 0 - v 0 * x 1)) * hβ

theorem mulVec_smul_quat (a : ℝ) (M : M3) (x : V3) : quat 0 ((a • M) *ᵥ x) = a • quat 0 (M *ᵥ x) := by
  rw [quat_smul, mul_zero, Matrix.smul_mulVec]

theorem mul_smul_q (a : ℝ) (p q : Qt) : p * (a • q) = a • (p * q) := by ext <;> simp <;> ring
theorem smul_mul_q (a : ℝ) (p q : Qt) : (a • p) * q = a • (p * q) := by ext <;> simp <;> ring

/-- C68: for all rotation vectors and rates, the angular velocity reported in world coordinates is the one reported in body coordinates rotated by the orientation that the rotation
vector describes: `q (0, ω_body) = (0, ω_world) q`. -/
theorem C68_body_world (v x : V3) : expMap v * quat 0 (toOmega v x true) = quat 0 (toOmega v x false) * expMap v := by
  unfold toOmega
  simp only [if_true, Bool.false_eq_true, if_false]
  rw [mulVec_smul_quat, mulVec_smul_quat, mul_smul_q, smul_mul_q]
  congr 1
  by_cases h : norm3 v < 1 / 100
  · obtain ⟨ν, hν, he, e⟩ := jac_small h
    rw [he, e]
    exact conj_form _ _ _ _ _ _ _ (by ring)
  · obtain ⟨σ, hσ, he, e⟩ := jac_large h
    have hn : norm3 v ≠ 0 := by linarith
    rw [he, e, quat_smul, smul_smul]
    refine conj_form _ _ _ _ _ _ _ ?_
    field_simp

/-! ### C67: the Jacobian is the derivative of the exponential map -/

theorem hasDerivAt_norm3 {r : ℝ → V3} {r' : V3} {t : ℝ} (hr : ∀ i, HasDerivAt (fun s => r s i) (r' i) t) (h : 0 < norm3 (r t)) :
    HasDerivAt (fun s => norm3 (r s)) ((r t 0 * r' 0 + r t 1 * r' 1 + r t 2 * r' 2) / norm3 (r t)) t := by
  have h0 : r t 0 ^ 2 + r t 1 ^ 2 + r t 2 ^ 2 ≠ 0 := by rw [← norm3_sq]; positivity
  have := ((((hr 0).pow 2).add ((hr 1).pow 2)).add ((hr 2).pow 2)).sqrt (by simpa using h0)
  unfold norm3
  refine this.congr_deriv ?_
  simp only [Pi.add_apply, Pi.pow_apply]
  have hs : √(r t 0 ^ 2 + r t 1 ^ 2 + r t 2 ^ 2) ≠ 0 := h.ne'
  push_cast
  field_simp

theorem pick (a f : ℝ) (x y : V3) (i : Fin 3) : ((if i = 0 then a else 0) + f * (y i * y 0)) * x 0 + ((if i = 1 then a else 0) + f * (y i * y 1)) * x 1 +
    ((if i = 2 then a else 0) + f * (y i * y 2)) * x 2 = a * x i + f * y i * (y 0 * x 0 + y 1 * x 1 + y 2 * x 2) := by
  fin_cases i <;> simp <;> ring

/-- C67: outside the small-angle branch and below half a turn, along every differentiable path of rotation vectors the quaternion of the exponential map moves with the velocity
that the quaternion Jacobian predicts. -/
theorem C67_jacobian_is_derivative (r : ℝ → V3) (r' : V3) (t : ℝ) (hr : ∀ i, HasDerivAt (fun s => r s i) (r' i) t)
    (hlo : 1 / 100 < norm3 (r t)) (hhi : norm3 (r t) < Real.pi) (k : Fin 4) :
    HasDerivAt (fun s => coords (expMap (r s)) k) ((jacQuat (r t) *ᵥ r') k) t := by
  have hn : 0 < norm3 (r t) := by linarith
  have hN := hasDerivAt_norm3 hr hn
  have hcont := hN.continuousAt
  -- near t the exponential map is given by the formula
  have hev : ∀ᶠ s in nhds t, expMap (r s) = quat (Real.cos (norm3 (r s) / 2)) ((Real.sin (norm3 (r s) / 2) * (norm3 (r s))⁻¹) • r s) := by
    filter_upwards [hcont.eventually (lt_mem_nhds hlo), hcont.eventually (gt_mem_nhds hhi)] with s h1 h2
    rw [expMap_large (by linarith), flipW_of_nonneg, smul_smul, show 1 / 2 * norm3 (r s) = norm3 (r s) / 2 by ring]
    simp only [quat]
    exact Real.cos_nonneg_of_mem_Icc ⟨by linarith [Real.pi_pos], by linarith⟩
  have hev' : (fun s => coords (expMap (r s)) k) =ᶠ[nhds t]
      (fun s => coords (quat (Real.cos (norm3 (r s) / 2)) ((Real.sin (norm3 (r s) / 2) * (norm3 (r s))⁻¹) • r s)) k) :=
    hev.mono fun s h => by simp only [h]
  refine HasDerivAt.congr_of_eventuallyEq ?_ hev'
  have hG : ∀ i j, jacQuat (r t) i j = if h : i = 0 then -(1 / 2 * Real.sin (1 / 2 * norm3 (r t)) / norm3 (r t)) * r t j
      else (if i.pred h = j then 2 * (1 / 2 * Real.sin (1 / 2 * norm3 (r t)) / norm3 (r t)) else 0) +
        (Real.cos (1 / 2 * norm3 (r t)) * norm3 (r t) - 2 * Real.sin (1 / 2 * norm3 (r t))) / (2 * norm3 (r t) ^ 3) * (r t (i.pred h) * r t j) := by
    intro i j
    rw [jacQuat_large (by linarith)]
  have hh : (1 / 2 * norm3 (r t)) = norm3 (r t) / 2 := by ring
  rw [Matrix.mulVec, dotProduct, Fin.sum_univ_three]
  simp only [hG, hh]
  have hc := (hN.div_const 2).cos
  have hs := ((hN.div_const 2).sin).mul (hN.inv hn.ne')
  refine Fin.cases ?_ (fun i => ?_) k
  · refine hc.congr_deriv ?_
    simp only [dif_pos]
    field_simp
    ring
  · have hi := hs.mul (hr i)
    have hfun : (fun s => coords (quat (Real.cos (norm3 (r s) / 2)) ((Real.sin (norm3 (r s) / 2) * (norm3 (r s))⁻¹) • r s)) i.succ) =
        fun s => Real.sin (norm3 (r s) / 2) * (norm3 (r s))⁻¹ * r s i := by
      funext s; fin_cases i <;> simp [coords, quat]
    rw [hfun]
    refine hi.congr_deriv ?_
    have hne : i.succ ≠ 0 := Fin.succ_ne_zero i
    simp only [dif_neg hne, Fin.pred_succ, Pi.mul_apply, Pi.inv_apply]
    rw [pick]
    field_simp
    ring

/-- Conjugate. -/
def conj (q : Qt) : Qt := ⟨q.w, -q.x, -q.y, -q.z⟩

theorem mul_conj_mul {q : Qt} (h : sq q = 1) (p : Qt) : p * conj q * q = p := by
  unfold sq at h
  ext <;> simp [conj]
  · linear_combination p.w * h
  · linear_combination p.x * h
  · linear_combination p.y * h
  · linear_combination p.z * h

/-- The quaternion with given coordinates. -/
def ofCoords (c : Fin 4 → ℝ) : Qt := ⟨c 0, c 1, c 2, c 3⟩

theorem coords_ofCoords (c : Fin 4 → ℝ) : coords (ofCoords c) = c := by funext i; fin_cases i <;> rfl

/-- The world angular velocity is the vector part of `2 q̇ q*`. -/
theorem toOmega_conj (v x : V3) : toOmega v x false = (2 : ℝ) • vec (ofCoords (jacQuat v *ᵥ x) * conj (expMap v)) := by
  unfold toOmega
  simp only [Bool.false_eq_true, if_false]
  rw [Matrix.smul_mulVec]
  congr 1
  have : jacOmega v *ᵥ x = (fun i : Fin 3 => ∑ k : Fin 4, (if k = 0 then -quatMatrix (expMap v) false i.succ k else quatMatrix (expMap v) false i.succ k) * (jacQuat v *ᵥ x) k) := by
    exact (Matrix.mulVec_mulVec x (fun (i : Fin 3) (k : Fin 4) => if k = 0 then -quatMatrix (expMap v) false i.succ k else quatMatrix (expMap v) false i.succ k :
      Matrix (Fin 3) (Fin 4) ℝ) (jacQuat v)).symm
  rw [this]
  generalize jacQuat v *ᵥ x = p
  generalize expMap v = q
  funext i
  fin_cases i <;> simp [Fin.sum_univ_four, quatMatrix, skew, vec, ofCoords, conj] <;> ring

theorem jac_orth {v : V3} (h : ¬ norm3 v < 1 / 100) (x : V3) : (ofCoords (jacQuat v *ᵥ x) * conj (expMap v)).w = 0 := by
  have hn : norm3 v ≠ 0 := by linarith
  obtain ⟨σ, hσ, he, -⟩ := jac_large h
  have hN := norm3_sq v
  rw [he, jacQuat_large h, show 1 / 2 * norm3 v = norm3 v / 2 by ring]
  generalize Real.sin (norm3 v / 2) = s
  generalize Real.cos (norm3 v / 2) = c
  generalize norm3 v = n at hn hN
  have key : ∀ f1 f2 : ℝ, (ofCoords ((fun (i : Fin 4) (j : Fin 3) => if h : i = 0 then -f1 * v j else (if i.pred h = j then 2 * f1 else 0) + f2 * (v (i.pred h) * v j) : Matrix (Fin 4) (Fin 3) ℝ) *ᵥ x) *
      conj (σ • quat c ((s / n) • v))).w = σ * (-(f1 * c) + s / n * (2 * f1 + f2 * n ^ 2)) * (v 0 * x 0 + v 1 * x 1 + v 2 * x 2) := by
    intro f1 f2
    rw [hN]
    simp [ofCoords, conj, quat, Matrix.mulVec, dotProduct, Fin.sum_univ_three, Fin.pred, Fin.subNat]
    ring
  rw [key]
  have : -(1 / 2 * s / n * c) + s / n * (2 * (1 / 2 * s / n) + (c * n - 2 * s) / (2 * n ^ 3) * n ^ 2) = 0 := by field_simp; ring
  rw [this]; simp

/-- C67: outside the small-angle branch and below half a turn, the velocities computed from rotation-vector rates are the angular velocities of the moving orientation: along every
differentiable path of rotation vectors, the quaternion of the exponential map satisfies `q̇ = ½ (0, ω_world) q` and `q̇ = ½ q (0, ω_body)`. -/
theorem C67_angular_velocity (r : ℝ → V3) (r' : V3) (t : ℝ) (hr : ∀ i, HasDerivAt (fun s => r s i) (r' i) t)
    (hlo : 1 / 100 < norm3 (r t)) (hhi : norm3 (r t) < Real.pi) (k : Fin 4) :
    HasDerivAt (fun s => coords (expMap (r s)) k) (coords ((1 / 2 : ℝ) • (quat 0 (toOmega (r t) r' false) * expMap (r t))) k) t ∧
    HasDerivAt (fun s => coords (expMap (r s)) k) (coords ((1 / 2 : ℝ) • (expMap (r t) * quat 0 (toOmega (r t) r' true))) k) t := by
  rw [C68_body_world, and_self]
  refine (C67_jacobian_is_derivative r r' t hr hlo hhi k).congr_deriv ?_
  have h0 := jac_orth (v := r t) (by linarith) r'
  have e : quat 0 (toOmega (r t) r' false) = (2 : ℝ) • (ofCoords (jacQuat (r t) *ᵥ r') * conj (expMap (r t))) := by
    rw [toOmega_conj]
    generalize ofCoords (jacQuat (r t) *ᵥ r') * conj (expMap (r t)) = z at h0
    ext <;> simp [quat, vec, h0]
  rw [e, smul_mul_q, mul_conj_mul (C51_exp_unit (r t)).1]
  have : (1 / 2 : ℝ) • (2 : ℝ) • ofCoords (jacQuat (r t) *ᵥ r') = ofCoords (jacQuat (r t) *ᵥ r') := by ext <;> simp
  rw [this, coords_ofCoords]

/-- Such a path exists: rotating about `z` at unit speed, at one radian. -/
example : (∀ i, HasDerivAt (fun s : ℝ => (![0, 0, s] : V3) i) ((![0, 0, 1] : V3) i) 1) ∧ 1 / 100 < norm3 ![0, 0, 1] ∧ norm3 ![0, 0, 1] < Real.pi := by
  have h : norm3 ![0, 0, 1] = 1 := by unfold norm3; simp
  rw [h]
  refine ⟨fun i => ?_, by norm_num, by linarith [Real.two_le_pi]⟩
  fin_cases i
  · exact hasDerivAt_const _ _
  · exact hasDerivAt_const _ _
  · exact hasDerivAt_id _

/-! ### C51: integrating the required angular velocity -/

theorem mul_inverse_mul {c : Qt} (h : sq c = 1) (d : Qt) : d * inverse c * c = d := by
  have : inverse c = conj c := by
    unfold inverse; rw [h, if_pos one_pos, inv_one, one_smul']; rfl
  rw [this, mul_conj_mul h]

theorem sq_inverse {c : Qt} (h : sq c = 1) : sq (inverse c) = 1 := by
  unfold inverse; rw [h, if_pos one_pos, inv_one, one_smul']; unfold sq at h ⊢; simpa using h

theorem neg_mul_q (p q : Qt) : -p * q = -(p * q) := by ext <;> simp <;> ring
theorem mul_neg_q (p q : Qt) : p * -q = -(p * q) := by ext <;> simp <;> ring
theorem neg_neg_q (p : Qt) : - -p = p := by ext <;> simp

theorem log_flip (q : Qt) (hq : sq q = 1) : logMap (flipW q) = logMap q := by
  have : flipW (normalize (flipW q)) = flipW (normalize q) := by
    rw [normalize_unit (by rw [flipW_sq, hq]), normalize_unit hq, flipW_of_nonneg (flipW_re q)]
  unfold logMap
  rw [this]

theorem flip_neg {q : Qt} (h : q.w ≠ 0) : flipW (-q) = flipW q := by
  unfold flipW
  rcases lt_or_gt_of_ne h with h | h
  · rw [if_pos h, if_neg (by rw [Qt.w_neg]; linarith)]
  · rw [if_neg (by linarith : ¬ q.w < 0), if_pos (by rw [Qt.w_neg]; linarith), neg_neg_q]

/-- C51: for all unit orientations, every nonzero time step and in both coordinate systems, integrating the required angular velocity over the time step gives the desired
orientation, up to the sign of the quaternion, whenever the angle between the two is outside the small-angle branch (the scalar part of `desired current⁻¹` is at most 0.99
in size). The current orientation must not be an exact half turn lying opposite to the desired one (see `C51_half_turn_violated`). -/
theorem C51_integrate_required_partial (d c : Qt) (dt : ℝ) (body : Bool) (hd : sq d = 1) (hc : sq c = 1) (hdt : dt ≠ 0)
    (hw : |(d * inverse c).w| ≤ 99 / 100) (hhalf : c.w ≠ 0 ∨ 0 ≤ qdot c d) :
    integrate c (required d c dt body) dt body = d ∨ integrate c (required d c dt body) dt body = -d := by
  unfold required integrate delta
  simp only
  rw [normalize_unit hd, normalize_unit hc]
  -- the aligned current orientation
  have hneg : qdot c d < 0 → logMap (-c) = logMap c := fun h => by
    have hw0 : c.w ≠ 0 := hhalf.resolve_right (by linarith)
    rw [← log_flip (-c) (by rw [sq_neg', hc]), flip_neg hw0, log_flip c hc]
  have hlog : logMap (if qdot c d < 0 then -c else c) = logMap c := by
    split
    · next h => exact hneg h
    · rfl
  rw [hlog, log_flip c hc]
  have hlen : norm3 (logMap c) < 2 * Real.pi := lt_of_le_of_lt (norm3_logMap_le c (by rw [hc]; exact one_pos)) (by linarith [Real.pi_pos])
  rw [(C52_conversions_inverse (logMap c) hlen body _).1, smul_smul, mul_inv_cancel₀ hdt, one_smul]
  have hinvneg : inverse (-c) = -inverse c := by
    unfold inverse
    rw [sq_neg', hc, if_pos one_pos, inv_one, one_smul', one_smul']
    ext <;> simp
  have hsq : sq (d * inverse c) = 1 := by rw [sq_mul', hd, sq_inverse hc, one_mul]
  have hprod := mul_inverse_mul hc d
  split
  · rw [hinvneg, mul_neg_q, C51_exp_log _ (by rw [sq_neg', hsq]) (by rw [Qt.w_neg, abs_neg]; exact hw)]
    split
    · rw [neg_neg_q, hprod]; exact .inl rfl
    · rw [neg_mul_q, hprod]; exact .inr rfl
  · rw [C51_exp_log _ hsq hw]
    split
    · rw [neg_mul_q, hprod]; exact .inr rfl
    · rw [hprod]; exact .inl rfl

/-- Half a turn about `x` away from the identity meets the hypotheses. -/
example : sq (quat 0 ![1, 0, 0]) = 1 ∧ sq (quat 1 ![0, 0, 0]) = 1 ∧ |(quat 0 ![1, 0, 0] * inverse (quat 1 ![0, 0, 0])).w| ≤ 99 / 100 ∧ (quat 1 ![0, 0, 0]).w ≠ 0 := by
  have h : sq (quat 1 ![0, 0, 0]) = 1 := by unfold sq quat; simp
  refine ⟨by unfold sq quat; simp, h, ?_, by simp [quat]⟩
  unfold inverse
  rw [h, if_pos one_pos]
  simp [quat]
  norm_num

theorem norm3_axis (a : ℝ) : norm3 ![a, 0, 0] = |a| ∧ norm3 ![0, 0, a] = |a| := by
  unfold norm3; simp [Real.sqrt_sq_eq_abs]

/-- Logarithm of a quaternion about `x` outside the small-angle branch. -/
theorem log_x {w s : ℝ} (h : w ^ 2 + s ^ 2 = 1) (h0 : 0 ≤ w) (h1 : w ≤ 99 / 100) (hs : 0 < s) : logMap (quat w ![s, 0, 0]) = ![2 * Real.arccos w, 0, 0] := by
  have hq : sq (quat w ![s, 0, 0]) = 1 := by unfold sq quat; simpa using h
  unfold logMap
  simp only
  rw [normalize_unit hq, flipW_of_nonneg (by simpa [quat] using h0), if_neg (by simp only [quat]; rw [abs_of_nonneg (by linarith)]; linarith)]
  have : Real.sin (Real.arccos w) = s := by
    rw [Real.sin_arccos, show 1 - w ^ 2 = s ^ 2 by linarith, Real.sqrt_sq hs.le]
  have e : (quat w ![s, 0, 0]).w = w := rfl
  rw [e, show 1 / 2 * (2 * Real.arccos w) = Real.arccos w by ring, this]
  funext i
  fin_cases i <;> simp [vec, quat]
  field_simp

/-- Logarithm of the two half turns about `z`. -/
theorem log_half_z (s : ℝ) (hs : s = 1 ∨ s = -1) : logMap (quat 0 ![0, 0, s]) = ![0, 0, s * Real.pi] := by
  have hq : sq (quat 0 ![0, 0, s]) = 1 := by unfold sq quat; rcases hs with rfl | rfl <;> simp
  unfold logMap
  simp only
  rw [normalize_unit hq, flipW_of_nonneg (by simp [quat]), if_neg (by simp only [quat]; norm_num)]
  have e : (quat 0 ![0, 0, s]).w = 0 := rfl
  rw [e, Real.arccos_zero, show 1 / 2 * (2 * (Real.pi / 2)) = Real.pi / 2 by ring, Real.sin_pi_div_two]
  funext i
  fin_cases i <;> simp [vec, quat]
  ring

theorem jac_half_z (s : ℝ) (hs : s = 1 ∨ s = -1) (a : ℝ) : jacOmega ![0, 0, s * Real.pi] *ᵥ ![a, 0, 0] = ![0, s * (a / Real.pi), 0] := by
  have hn : norm3 ![0, 0, s * Real.pi] = Real.pi := by
    rw [(norm3_axis _).2, abs_mul, abs_of_pos Real.pi_pos]; rcases hs with rfl | rfl <;> simp
  obtain ⟨σ, hσ, -, e⟩ := jac_large' (v := ![0, 0, s * Real.pi]) (by rw [hn]; linarith [Real.two_le_pi])
  rw [hn, Real.cos_pi_div_two, Real.sin_pi_div_two] at e
  rw [hn, Real.cos_pi_div_two] at hσ
  have hσ1 : σ = 1 := by rcases hσ with ⟨h, -⟩ | ⟨-, h⟩; exact h; exact absurd h (lt_irrefl _)
  have hp := Real.pi_pos.ne'
  rw [e, hσ1]
  funext i
  fin_cases i <;> simp [skew, Matrix.mulVec, dotProduct, Fin.sum_univ_three, Matrix.vecMulVec, Matrix.of_apply]
  field_simp

theorem expMap_neg_x {w s : ℝ} (h : w ^ 2 + s ^ 2 = 1) (h0 : 0 ≤ w) (h1 : w ≤ 99 / 100) (hs : 0 < s) : expMap ![-(2 * Real.arccos w), 0, 0] = quat w ![-s, 0, 0] := by
  have ha := Real.arccos_nonneg w
  have hc : Real.cos (Real.arccos w) = w := Real.cos_arccos (by linarith) (by linarith)
  have hl := cos_large ha (by rw [hc]; exact h1)
  have hsin : Real.sin (Real.arccos w) = s := by
    rw [Real.sin_arccos, show 1 - w ^ 2 = s ^ 2 by linarith, Real.sqrt_sq hs.le]
  have hn : norm3 ![-(2 * Real.arccos w), 0, 0] = 2 * Real.arccos w := by
    rw [(norm3_axis _).1, abs_neg, abs_of_nonneg (by linarith)]
  rw [expMap_large (by rw [hn]; linarith), hn, show 2 * Real.arccos w / 2 = Real.arccos w by ring, show 1 / 2 * (2 * Real.arccos w) = Real.arccos w by ring,
    hc, hsin, flipW_of_nonneg (by simpa [quat] using h0)]
  have : Real.arccos w ≠ 0 := by linarith
  ext <;> simp [quat]
  field_simp

/-- C51 is false for exact half turns: the orientation `(0,0,0,1)` (half a turn about `z`) and the desired orientation `(0,0,3/5,-4/5)`, about 74 degrees away, over one second:
the required angular velocity is computed from the rotation vector `(0,0,-π)` but integrated at `(0,0,π)`, and the result is the rotation in the opposite direction. -/
theorem C51_half_turn_violated : ∃ d c : Qt, sq d = 1 ∧ sq c = 1 ∧ |(d * inverse c).w| ≤ 99 / 100 ∧
    integrate c (required d c 1 false) 1 false ≠ d ∧ integrate c (required d c 1 false) 1 false ≠ -d := by
  have hd : sq (quat 0 ![0, 3 / 5, -(4 / 5)]) = 1 := by unfold sq quat; simp; norm_num
  have hc : sq (quat 0 ![0, 0, 1]) = 1 := by unfold sq quat; simp
  have hcn : -quat 0 ![0, 0, 1] = quat 0 ![0, 0, -1] := by ext <;> simp [quat]
  have hdot : qdot (quat 0 ![0, 0, 1]) (quat 0 ![0, 3 / 5, -(4 / 5)]) < 0 := by simp [qdot, quat]
  have hcn1 : sq (quat 0 ![0, 0, -1]) = 1 := by unfold sq quat; simp
  have hδ : quat 0 ![0, 3 / 5, -(4 / 5)] * inverse (quat 0 ![0, 0, -1]) = quat (4 / 5) ![3 / 5, 0, 0] := by
    unfold inverse
    rw [hcn1, if_pos one_pos]
    ext <;> simp [quat]
  have hval : integrate (quat 0 ![0, 0, 1]) (required (quat 0 ![0, 3 / 5, -(4 / 5)]) (quat 0 ![0, 0, 1]) 1 false) 1 false = quat 0 ![0, 3 / 5, 4 / 5] := by
    unfold integrate required delta
    simp only
    rw [normalize_unit hd, normalize_unit hc, if_pos hdot, hcn, hδ, log_x (by norm_num) (by norm_num) (by norm_num) (by norm_num), flipW_of_nonneg (by simp [quat])]
    have l1 := log_half_z 1 (.inl rfl)
    have l2 := log_half_z (-1) (.inr rfl)
    have j1 := jac_half_z 1 (.inl rfl) (-(2 * Real.arccos (4 / 5)))
    have j2 := jac_half_z (-1) (.inr rfl) (2 * Real.arccos (4 / 5))
    rw [l1, l2, inv_one, one_smul, one_smul]
    have hto : toOmega ![0, 0, -1 * Real.pi] ![2 * Real.arccos (4 / 5), 0, 0] false = toOmega ![0, 0, 1 * Real.pi] ![-(2 * Real.arccos (4 / 5)), 0, 0] false := by
      unfold toOmega
      simp only [Bool.false_eq_true, if_false]
      rw [Matrix.smul_mulVec, Matrix.smul_mulVec, j1, j2]
      congr 2
      ring_nf
    rw [hto, (C52_conversions_inverse _ (by rw [(norm3_axis _).2, one_mul, abs_of_pos Real.pi_pos]; linarith [Real.pi_pos]) false _).1,
      expMap_neg_x (s := 3 / 5) (by norm_num) (by norm_num) (by norm_num) (by norm_num)]
    ext <;> simp [quat]
  refine ⟨_, _, hd, hc, ?_, ?_, ?_⟩
  · unfold inverse
    rw [hc, if_pos one_pos]
    simp [quat]
    norm_num
  · rw [hval]; intro h; have := congrArg Qt.z h; simp [quat] at this; norm_num at this
  · rw [hval]; intro h; have := congrArg Qt.y h; simp [quat] at this; norm_num at this

/-! ### C69: is the required angular velocity the constant velocity between the two orientations? -/

/-- C69 is false: the velocity reported by `requiredAngularVelocity` is not the constant angular velocity that carries the current orientation to the desired one. From a quarter turn
about `z`, to reach the orientation a further quarter turn about the world `x` axis away in one second, the code reports `(1, 1, 0)`, and rotating at that velocity for the whole
second gives neither the desired quaternion nor its negative. -/
theorem C69_constant_velocity_violated : ∃ d c : Qt, sq d = 1 ∧ sq c = 1 ∧ required d c 1 false = ![1, 1, 0] ∧
    expMap ((1 : ℝ) • required d c 1 false) * c ≠ d ∧ expMap ((1 : ℝ) • required d c 1 false) * c ≠ -d := by
  have h2 : √2 ^ 2 = (2 : ℝ) := Real.sq_sqrt (by norm_num)
  have hcsq : sq (quat (√2 / 2) ![0, 0, √2 / 2]) = 1 := by unfold sq quat; simp; nlinarith
  have hxsq : sq (quat (√2 / 2) ![√2 / 2, 0, 0]) = 1 := by unfold sq quat; simp; nlinarith
  set c := quat (√2 / 2) ![0, 0, √2 / 2] with hcdef
  set x := quat (√2 / 2) ![√2 / 2, 0, 0] with hxdef
  have hsq2 : √2 < 3 / 2 := by rw [Real.sqrt_lt' (by norm_num)]; norm_num
  have hsq1 : 1 ≤ √2 := by rw [Real.one_le_sqrt]; norm_num
  have hdsq : sq (x * c) = 1 := by rw [sq_mul', hxsq, hcsq, one_mul]
  have hdot : ¬ qdot c (x * c) < 0 := by
    simp [qdot, hcdef, hxdef, quat]
    nlinarith
  have harc : Real.arccos (√2 / 2) = Real.pi / 4 := by rw [← Real.cos_pi_div_four, Real.arccos_cos (by linarith [Real.pi_pos]) (by linarith [Real.pi_pos])]
  have hlogx : logMap x = ![Real.pi / 2, 0, 0] := by
    rw [hxdef, log_x (by nlinarith) (by positivity) (by linarith) (by positivity), harc]
    congr 1; ring
  have hlogc : logMap c = ![0, 0, Real.pi / 2] := by
    unfold logMap
    simp only
    have e : c.w = √2 / 2 := rfl
    rw [normalize_unit hcsq, flipW_of_nonneg (by rw [e]; positivity), e, if_neg (by rw [abs_of_nonneg (by linarith)]; linarith), harc,
      show 1 / 2 * (2 * (Real.pi / 4)) = Real.pi / 4 by ring, Real.sin_pi_div_four]
    funext i
    fin_cases i <;> simp [vec, quat, hcdef]
    field_simp
    norm_num
  have hreq : required (x * c) c 1 false = ![1, 1, 0] := by
    unfold required delta
    simp only
    rw [normalize_unit hdsq, normalize_unit hcsq, if_neg hdot]
    have hinv : x * c * inverse c = x := by
      have : inverse c = conj c := by unfold inverse; rw [hcsq, if_pos one_pos, inv_one, one_smul']; rfl
      rw [this]
      ext <;> simp [hcdef, hxdef, quat, conj] <;> nlinarith
    rw [hinv, hlogx, hlogc, inv_one, one_smul]
    have hn : norm3 ![0, 0, Real.pi / 2] = Real.pi / 2 := by rw [(norm3_axis _).2, abs_of_pos (by linarith [Real.pi_pos])]
    obtain ⟨σ, hσ, -, e⟩ := jac_large' (v := ![0, 0, Real.pi / 2]) (by rw [hn]; linarith [Real.two_le_pi])
    rw [hn, show Real.pi / 2 / 2 = Real.pi / 4 by ring, Real.cos_pi_div_four, Real.sin_pi_div_four] at e
    rw [hn, show Real.pi / 2 / 2 = Real.pi / 4 by ring, Real.cos_pi_div_four] at hσ
    have hσ1 : σ = 1 := by
      rcases hσ with ⟨h, -⟩ | ⟨-, h⟩
      · exact h
      · have : 0 ≤ √2 / 2 := by positivity
        linarith
    have hp := Real.pi_pos.ne'
    unfold toOmega
    simp only [Bool.false_eq_true, if_false]
    rw [Matrix.smul_mulVec, e, hσ1]
    funext i
    fin_cases i <;> simp [skew, Matrix.mulVec, dotProduct, Fin.sum_univ_three, Matrix.vecMulVec, Matrix.of_apply] <;> field_simp <;> rw [h2]
  have hn110 : norm3 ![1, 1, 0] = √2 := by unfold norm3; simp; norm_num
  have hew : (expMap ![1, 1, 0]).w = Real.cos (√2 / 2) := by
    rw [expMap_large (by rw [hn110]; linarith), hn110, flipW_of_nonneg]
    · rfl
    · exact Real.cos_nonneg_of_mem_Icc ⟨by linarith [Real.pi_pos], by linarith [Real.two_le_pi]⟩
  have hlt : √2 / 2 < Real.cos (√2 / 2) := by
    rw [← Real.cos_pi_div_four]
    rw [Real.cos_pi_div_four]
    conv_lhs => rw [← Real.cos_pi_div_four]
    exact Real.cos_lt_cos_of_nonneg_of_le_pi (by positivity) (by linarith [Real.pi_pos]) (by linarith [Real.pi_gt_three])
  have hcancel : ∀ p : Qt, p * c * conj c = p := by
    intro p
    ext <;> simp [hcdef, quat, conj]
    · linear_combination (p.w / 2) * h2
    · linear_combination (p.x / 2) * h2
    · linear_combination (p.y / 2) * h2
    · linear_combination (p.z / 2) * h2
  refine ⟨x * c, c, hdsq, hcsq, hreq, ?_, ?_⟩
  · rw [hreq, one_smul]
    intro h
    have h' := congrArg (fun z => (z * conj c).w) h
    simp only [hcancel] at h'
    rw [hew] at h'
    have : x.w = √2 / 2 := rfl
    rw [this] at h'
    linarith
  · rw [hreq, one_smul]
    intro h
    have h' := congrArg (fun z => (z * conj c).w) h
    simp only [← neg_mul_q, hcancel] at h'
    rw [hew] at h'
    have : (-x).w = -(√2 / 2) := rfl
    rw [this] at h'
    linarith

/-- Along the rotation vector itself the angular velocity of the rates is the rates. -/
theorem toOmega_parallel {v : V3} (h : norm3 v ≤ Real.pi) (hs : 1 / 100 ≤ norm3 v) (a : ℝ) (body : Bool) : toOmega v (a • v) body = a • v := by
  have hn : norm3 v ≠ 0 := by linarith
  obtain ⟨σ, hσ, -, e⟩ := jac_large' (v := v) (by linarith)
  have hσ1 : σ = 1 := by
    rcases hσ with ⟨h, -⟩ | ⟨-, h'⟩
    · exact h
    · exact absurd (Real.cos_nonneg_of_mem_Icc (x := norm3 v / 2) ⟨by linarith [Real.pi_pos], by linarith⟩) (by linarith)
  rw [hσ1] at e
  have key : ∀ β γ α : ℝ, α + γ * norm3 v ^ 2 = 1 / 2 → ((2 : ℝ) • (α • (1 : M3) + β • skew v + γ • Matrix.vecMulVec v v)) *ᵥ (a • v) = a • v := by
    intro β γ α h
    rw [norm3_sq] at h
    funext i
    fin_cases i <;> simp [skew, Matrix.mulVec, dotProduct, Fin.sum_univ_three, Matrix.vecMulVec]
    · linear_combination (2 * a * v 0) * h
    · linear_combination (2 * a * v 1) * h
    · linear_combination (2 * a * v 2) * h
  have hsum : 1 * (Real.sin (norm3 v / 2) * Real.cos (norm3 v / 2) / norm3 v) + 1 * (1 / (2 * norm3 v ^ 2) - Real.sin (norm3 v / 2) * Real.cos (norm3 v / 2) / norm3 v ^ 3) * norm3 v ^ 2 = 1 / 2 := by
    field_simp
    ring
  unfold toOmega
  rw [e]
  cases body
  · simp only [Bool.false_eq_true, if_false]
    exact key _ _ _ hsum
  · simp only [if_true]
    have : ∀ α β γ : ℝ, (α • (1 : M3) + β • skew v + γ • Matrix.vecMulVec v v)ᵀ = α • (1 : M3) + (-β) • skew v + γ • Matrix.vecMulVec v v := by
      intro α β γ
      ext i j
      fin_cases i <;> fin_cases j <;> simp [skew, Matrix.vecMulVec, mul_comm]
    rw [this]
    exact key _ _ _ hsum

/-- C69, the part that holds: when the rotation between the two orientations is about the axis of the current orientation (its logarithm is a multiple of that of the current
orientation), the reported velocity is that logarithm over the time step, and rotating at this constant velocity for the time step gives the desired orientation. -/
theorem C69_constant_velocity_partial (d c : Qt) (dt k : ℝ) (body : Bool) (hd : sq d = 1) (hc : sq c = 1) (hdt : dt ≠ 0) (hdot : 0 ≤ qdot c d)
    (hw : |(d * inverse c).w| ≤ 99 / 100) (hcw : 1 / 100 ≤ norm3 (logMap c)) (hpar : logMap (d * inverse c) = k • logMap c) :
    required d c dt body = dt⁻¹ • orientationError d c ∧
      (expMap (dt • required d c dt body) * c = d ∨ expMap (dt • required d c dt body) * c = -d) := by
  have hreq : required d c dt body = dt⁻¹ • orientationError d c := by
    unfold required orientationError delta
    simp only
    rw [normalize_unit hd, normalize_unit hc, if_neg (by linarith), hpar, smul_smul,
      toOmega_parallel (norm3_logMap_le c (by rw [hc]; exact one_pos)) hcw]
  refine ⟨hreq, ?_⟩
  have herr : orientationError d c = logMap (d * inverse c) := by
    unfold orientationError delta
    simp only
    rw [normalize_unit hd, normalize_unit hc, if_neg (by linarith)]
  rw [hreq, smul_smul, mul_inv_cancel₀ hdt, one_smul, herr, C51_exp_log _ (by rw [sq_mul', hd, sq_inverse hc, one_mul]) hw]
  split
  · rw [neg_mul_q, mul_inverse_mul hc]; exact .inr rfl
  · rw [mul_inverse_mul hc]; exact .inl rfl

/-- A rotation about `x` and its double. -/
example : ∃ d c : Qt, ∃ k : ℝ, sq d = 1 ∧ sq c = 1 ∧ 0 ≤ qdot c d ∧ |(d * inverse c).w| ≤ 99 / 100 ∧ 1 / 100 ≤ norm3 (logMap c) ∧ logMap (d * inverse c) = k • logMap c := by
  have hc : sq (quat (3 / 5) ![4 / 5, 0, 0]) = 1 := by unfold sq quat; simp; norm_num
  have hinv : inverse (quat (3 / 5) ![4 / 5, 0, 0]) = conj (quat (3 / 5) ![4 / 5, 0, 0]) := by unfold inverse; rw [hc, if_pos one_pos, inv_one, one_smul']; rfl
  have hδ : quat (-(7 / 25)) ![24 / 25, 0, 0] * inverse (quat (3 / 5) ![4 / 5, 0, 0]) = quat (3 / 5) ![4 / 5, 0, 0] := by
    rw [hinv]; ext <;> simp [quat, conj] <;> norm_num
  refine ⟨quat (-(7 / 25)) ![24 / 25, 0, 0], quat (3 / 5) ![4 / 5, 0, 0], 1, ?_, hc, ?_, ?_, ?_, ?_⟩
  · unfold sq quat; simp; norm_num
  · simp [qdot, quat]; norm_num
  · rw [hδ]; simp [quat]; rw [abs_of_nonneg] <;> norm_num
  · rw [log_x (by norm_num) (by norm_num) (by norm_num) (by norm_num), (norm3_axis _).1]
    have := cos_large (Real.arccos_nonneg (3 / 5)) (by rw [Real.cos_arccos] <;> norm_num)
    rw [abs_of_nonneg] <;> linarith
  · rw [hδ, one_smul]

/-! ### C70: the orientation error -/

theorem logMap_eq_zero (q : Qt) (h : sq q = 1) : logMap q = 0 ↔ vec q = 0 := by
  have h1 : sq (flipW (normalize q)) = 1 := by rw [flipW_sq, normalize_unit h, h]
  have h2 := flipW_re (normalize q)
  have hv : vec (flipW (normalize q)) = 0 ↔ vec q = 0 := by
    rw [normalize_unit h]
    rcases flipW_or q with e | e <;> rw [e]
    rw [← neg_one_smul', vec_smul']; simp
  rw [← hv]
  unfold logMap
  simp only
  generalize flipW (normalize q) = n at h1 h2 ⊢
  rw [sq_eq] at h1
  split
  · simp
  · next hre =>
    have hsin : Real.sin (Real.arccos n.w) = norm3 (vec n) := by
      rw [Real.sin_arccos, show 1 - n.w ^ 2 = norm3 (vec n) ^ 2 by linarith, Real.sqrt_sq (norm3_nonneg _)]
    constructor
    · intro h0
      rw [show 1 / 2 * (2 * Real.arccos n.w) = Real.arccos n.w by ring] at h0
      rcases smul_eq_zero.mp h0 with h0 | h0
      · exfalso
        rcases div_eq_zero_iff.mp h0 with h0 | h0
        · have : (1 : ℝ) ≤ n.w := Real.arccos_eq_zero.mp (by linarith)
          apply hre
          have hw1 : n.w = 1 := by nlinarith [sq_nonneg (norm3 (vec n))]
          rw [hw1]; norm_num
        · rw [hsin] at h0
          rw [h0] at h1
          have hw1 : n.w = 1 := by nlinarith
          apply hre
          rw [hw1]; norm_num
      · exact h0
    · intro h0; rw [h0, smul_zero]

/-- C70: for all unit orientations the orientation error is at most half a turn long, and it is zero exactly when the two quaternions describe the same orientation (they are equal or opposite). -/
theorem C70_error_zero_iff (d c : Qt) (hd : sq d = 1) (hc : sq c = 1) : norm3 (orientationError d c) ≤ Real.pi ∧ (orientationError d c = 0 ↔ d = c ∨ d = -c) := by
  have hinvneg : inverse (-c) = -inverse c := by
    unfold inverse
    rw [sq_neg', hc, if_pos one_pos, inv_one, one_smul', one_smul']
    ext <;> simp
  have hδ : ∃ δ, (δ = d * inverse c ∨ δ = -(d * inverse c)) ∧ orientationError d c = logMap δ := by
    unfold orientationError delta
    simp only
    rw [normalize_unit hd, normalize_unit hc]
    split
    · exact ⟨_, .inr rfl, by rw [hinvneg, mul_neg_q]⟩
    · exact ⟨_, .inl rfl, rfl⟩
  obtain ⟨δ, hδ, e⟩ := hδ
  have hsq : sq (d * inverse c) = 1 := by rw [sq_mul', hd, sq_inverse hc, one_mul]
  have hsqδ : sq δ = 1 := by rcases hδ with rfl | rfl; exact hsq; rw [sq_neg', hsq]
  rw [e]
  refine ⟨norm3_logMap_le δ (by rw [hsqδ]; exact one_pos), ?_⟩
  rw [logMap_eq_zero δ hsqδ]
  have hvv : vec δ = 0 ↔ vec (d * inverse c) = 0 := by
    rcases hδ with rfl | rfl
    · rfl
    · rw [← neg_one_smul', vec_smul']; simp
  rw [hvv]
  constructor
  · intro h0
    have hw : (d * inverse c).w ^ 2 = 1 := by
      rw [sq_eq, h0] at hsq
      simpa [norm3] using hsq
    have hq := quat_eta (d * inverse c)
    rw [h0] at hq
    have hprod := mul_inverse_mul hc d
    rw [← hq] at hprod
    have hfac : ((d * inverse c).w - 1) * ((d * inverse c).w + 1) = 0 := by linear_combination hw
    have hpm : (d * inverse c).w = 1 ∨ (d * inverse c).w = -1 := by
      rcases mul_eq_zero.mp hfac with h | h
      · exact .inl (by linarith)
      · exact .inr (by linarith)
    rcases hpm with h1 | h1
    · left; rw [← hprod, h1]; ext <;> simp [quat]
    · right; rw [← hprod, h1]; ext <;> simp [quat]
  · have hcc : vec (c * inverse c) = 0 := by
      unfold inverse; rw [hc, if_pos one_pos, inv_one, one_smul']
      funext i; fin_cases i <;> simp [vec] <;> ring
    rintro (rfl | rfl)
    · exact hcc
    · rw [neg_mul_q, ← neg_one_smul', vec_smul', hcc, smul_zero]

/-- C70: rotating the current orientation by the orientation error, seen from the world frame, gives the desired orientation (up to the sign of the quaternion) whenever the error is
outside the small-angle branch. -/
theorem C70_error_rotates_partial (d c : Qt) (hd : sq d = 1) (hc : sq c = 1) (hw : |(d * inverse c).w| ≤ 99 / 100) :
    expMap (orientationError d c) * c = d ∨ expMap (orientationError d c) * c = -d := by
  have hinvneg : inverse (-c) = -inverse c := by
    unfold inverse
    rw [sq_neg', hc, if_pos one_pos, inv_one, one_smul', one_smul']
    ext <;> simp
  have hsq : sq (d * inverse c) = 1 := by rw [sq_mul', hd, sq_inverse hc, one_mul]
  have hprod := mul_inverse_mul hc d
  unfold orientationError delta
  simp only
  rw [normalize_unit hd, normalize_unit hc]
  split
  · rw [hinvneg, mul_neg_q, C51_exp_log _ (by rw [sq_neg', hsq]) (by rw [Qt.w_neg, abs_neg]; exact hw)]
    split
    · rw [neg_neg_q, hprod]; exact .inl rfl
    · rw [neg_mul_q, hprod]; exact .inr rfl
  · rw [C51_exp_log _ hsq hw]
    split
    · rw [neg_mul_q, hprod]; exact .inr rfl
    · rw [hprod]; exact .inl rfl

/-- C70: the error does not depend on the lengths of the two quaternions, nor on their signs as long as they are not orthogonal. -/
theorem C70_error_representation (d c : Qt) (a b : ℝ) (ha : 0 < a) (hb : 0 < b) (hd : 0 < sq d) (hc : 0 < sq c) :
    orientationError (a • d) (b • c) = orientationError d c ∧
      (qdot c d ≠ 0 → orientationError (-d) c = orientationError d c ∧ orientationError d (-c) = orientationError d c) := by
  have hnorm : ∀ (a : ℝ) (q : Qt), 0 < a → 0 < sq q → normalize (a • q) = normalize q := by
    intro a q ha hq
    have h1 : 0 < sq (a • q) := by rw [sq_smul']; positivity
    unfold normalize
    rw [if_pos h1, if_pos hq, sq_smul', Real.sqrt_mul (by positivity), Real.sqrt_sq ha.le]
    have h2 : √(sq q) ≠ 0 := by positivity
    ext <;> simp <;> field_simp
  have hneg : ∀ q : Qt, normalize (-q) = -normalize q := by
    intro q
    unfold normalize
    rw [sq_neg']
    split
    · ext <;> simp
    · rfl
  have hinvneg : ∀ q : Qt, inverse (-q) = -inverse q := by
    intro q
    unfold inverse
    rw [sq_neg']
    split <;> ext <;> simp
  refine ⟨?_, fun hne => ?_⟩
  · unfold orientationError delta
    rw [hnorm a d ha hd, hnorm b c hb hc]
  · have hdot : qdot (normalize c) (normalize d) ≠ 0 := by
      have e : qdot (normalize c) (normalize d) = (√(sq c))⁻¹ * (√(sq d))⁻¹ * qdot c d := by
        unfold normalize; rw [if_pos hc, if_pos hd]; unfold qdot; simp; ring
      rw [e]
      have h1 : √(sq c) ≠ 0 := by positivity
      have h2 : √(sq d) ≠ 0 := by positivity
      exact mul_ne_zero (mul_ne_zero (inv_ne_zero h1) (inv_ne_zero h2)) hne
    unfold orientationError delta
    simp only
    rw [hneg, hneg]
    generalize normalize d = d' at hdot
    generalize normalize c = c' at hdot
    have e1 : qdot c' (-d') = -qdot c' d' := by unfold qdot; simp; ring
    have e2 : qdot (-c') d' = -qdot c' d' := by unfold qdot; simp; ring
    rw [e1, e2, neg_neg_q]
    rcases lt_or_gt_of_ne hdot with h | h
    · have h' : ¬ -qdot c' d' < 0 := by linarith
      simp only [if_pos h, if_neg h', hinvneg, mul_neg_q, neg_mul_q]; exact ⟨trivial, trivial⟩
    · have h' : ¬ qdot c' d' < 0 := by linarith
      have h'' : -qdot c' d' < 0 := by linarith
      simp only [if_pos h'', if_neg h', hinvneg, mul_neg_q, neg_mul_q, neg_neg_q]; exact ⟨trivial, trivial⟩

/-- The hypotheses are met by the identity and a half turn of twice the length. -/
example : 0 < sq ((2 : ℝ) • quat 0 ![1, 0, 0]) ∧ 0 < sq (quat 1 ![0, 0, 0]) ∧ qdot (quat 1 ![0, 0, 0]) (quat 1 ![1, 0, 0]) ≠ 0 := by
  refine ⟨?_, ?_, ?_⟩
  · unfold sq quat; simp
  · unfold sq quat; simp
  · simp [qdot, quat]

end Orient
end Verif
