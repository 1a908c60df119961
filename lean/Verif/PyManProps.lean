import Verif.PyMan
import Mathlib.Analysis.Normed.Algebra.QuaternionExponential
import Mathlib.Analysis.SpecialFunctions.Trigonometric.Bounds
import Mathlib.Analysis.Complex.Trigonometric
import Mathlib.Tactic.Linarith
import Mathlib.Tactic.LinearCombination
import Mathlib.Tactic.FinCases
import Mathlib.Tactic.NormNum
import Mathlib.Tactic.Positivity

/-! C163-C166: the operations on quaternions of `CentroidalLqr`, against Mathlib's quaternions. -/
namespace Verif
namespace PyMan
open Matrix Quaternion

/-! ### Specification -/

/-- The quaternion of Mathlib with the same parts. -/
def toH (q : Quat) : ℍ[ℝ] := ⟨q.w, q.x, q.y, q.z⟩

/-- The pure quaternion of a vector. -/
def pure (v : V3) : ℍ[ℝ] := ⟨0, v 0, v 1, v 2⟩

@[simp] lemma toH_re (q : Quat) : (toH q).re = q.w := rfl
@[simp] lemma toH_imI (q : Quat) : (toH q).imI = q.x := rfl
@[simp] lemma toH_imJ (q : Quat) : (toH q).imJ = q.y := rfl
@[simp] lemma toH_imK (q : Quat) : (toH q).imK = q.z := rfl
@[simp] lemma pure_re (v : V3) : (pure v).re = 0 := rfl
@[simp] lemma pure_imI (v : V3) : (pure v).imI = v 0 := rfl
@[simp] lemma pure_imJ (v : V3) : (pure v).imJ = v 1 := rfl
@[simp] lemma pure_imK (v : V3) : (pure v).imK = v 2 := rfl

/-! ### C163 -/

/-- C163 (product): `quaternion_product` is the product of quaternions. -/
theorem C163_product (a b : Quat) : toH (prod a b) = toH a * toH b := by
  ext <;> simp [prod, Quat.vec, cross_apply, dotProduct, Fin.sum_univ_three] <;> ring

lemma conj_star (q : Quat) : toH (conj q) = star (toH q) := by
  ext <;> simp [conj]

lemma toH_inj {a b : Quat} (h : toH a = toH b) : a = b := by
  have h1 := congrArg QuaternionAlgebra.re h
  have h2 := congrArg QuaternionAlgebra.imI h
  have h3 := congrArg QuaternionAlgebra.imJ h
  have h4 := congrArg QuaternionAlgebra.imK h
  exact Quat.ext h2 h3 h4 h1

/-- The rotation matrix, entry by entry. -/
lemma toRot_eq (q : Quat) : toRot q = !![q.w ^ 2 + q.x ^ 2 - q.y ^ 2 - q.z ^ 2, 2 * (q.x * q.y - q.w * q.z), 2 * (q.x * q.z + q.w * q.y);
    2 * (q.x * q.y + q.w * q.z), q.w ^ 2 - q.x ^ 2 + q.y ^ 2 - q.z ^ 2, 2 * (q.y * q.z - q.w * q.x);
    2 * (q.x * q.z - q.w * q.y), 2 * (q.y * q.z + q.w * q.x), q.w ^ 2 - q.x ^ 2 - q.y ^ 2 + q.z ^ 2] := by
  ext i j
  fin_cases i <;> fin_cases j <;>
    simp [toRot, Quat.vec, vecMulVec_apply, skew, dotProduct, Fin.sum_univ_three, Matrix.add_apply, Matrix.smul_apply] <;> ring

/-- C163 (rotation): the matrix of `quaternion_to_rotation` turns a vector as conjugation with the quaternion does. -/
theorem C163_rotation (q : Quat) (v : V3) : pure (toRot q *ᵥ v) = toH q * pure v * star (toH q) := by
  rw [toRot_eq]
  ext <;> simp [mulVec, dotProduct, Fin.sum_univ_three] <;> ring

/-- The squared norm. -/
def nsq (q : Quat) : ℝ := q.x ^ 2 + q.y ^ 2 + q.z ^ 2 + q.w ^ 2

lemma nsq_toH (q : Quat) : nsq q = normSq (toH q) := by
  rw [normSq_def']; simp only [toH_re, toH_imI, toH_imJ, toH_imK, nsq]; ring

lemma nsq_prod (a b : Quat) : nsq (prod a b) = nsq a * nsq b := by
  rw [nsq_toH, C163_product, map_mul, ← nsq_toH, ← nsq_toH]

lemma rot_mul_transpose (q : Quat) : toRot q * (toRot q)ᵀ = (nsq q ^ 2) • (1 : Mat 3 3) := by
  rw [toRot_eq]
  ext i j
  fin_cases i <;> fin_cases j <;> simp [Matrix.mul_apply, Fin.sum_univ_three, nsq] <;> ring

lemma rot_det (q : Quat) : (toRot q).det = nsq q ^ 3 := by
  rw [toRot_eq, det_fin_three]
  simp [nsq]
  ring

lemma pure_inj {v w : V3} (h : pure v = pure w) : v = w := by
  have h2 := congrArg QuaternionAlgebra.imI h
  have h3 := congrArg QuaternionAlgebra.imJ h
  have h4 := congrArg QuaternionAlgebra.imK h
  funext i
  fin_cases i
  · exact h2
  · exact h3
  · exact h4

/-- C163 (group): for unit quaternions the matrices are rotations, and the product of quaternions belongs to the product of the matrices. -/
theorem C163_group (a b : Quat) : toRot (prod a b) = toRot a * toRot b ∧ (nsq a = 1 → toRot a * (toRot a)ᵀ = 1 ∧ (toRot a).det = 1) := by
  refine ⟨?_, fun h => ⟨by rw [rot_mul_transpose, h]; simp, by rw [rot_det, h]; simp⟩⟩
  refine Matrix.ext_of_mulVec_single fun i => pure_inj ?_
  rw [← mulVec_mulVec, C163_rotation, C163_rotation, C163_rotation, C163_product, star_mul]
  simp only [mul_assoc]

/-- A unit quaternion that is not trivial. -/
example : nsq ⟨3 / 5, 0, 0, 4 / 5⟩ = 1 := by norm_num [nsq]

/-! ### C164: the exponential -/

lemma nrm_sq (v : V3) : nrm v ^ 2 = v 0 ^ 2 + v 1 ^ 2 + v 2 ^ 2 := Real.sq_sqrt (by positivity)

lemma nrm_nonneg (v : V3) : 0 ≤ nrm v := Real.sqrt_nonneg _

lemma norm_pure (v : V3) : ‖pure v‖ = nrm v := by
  rw [← Real.sqrt_sq (norm_nonneg _), ← Real.sqrt_sq (nrm_nonneg v), nrm_sq]
  congr 1
  rw [pow_two, ← normSq_eq_norm_mul_self, normSq_def']
  simp

lemma exp_pure (v : V3) : NormedSpace.exp (pure v) = toH ⟨Real.sin (nrm v) / nrm v * v 0, Real.sin (nrm v) / nrm v * v 1, Real.sin (nrm v) / nrm v * v 2, Real.cos (nrm v)⟩ := by
  rw [exp_of_re_eq_zero _ (by rfl), norm_pure]
  ext <;> simp

/-- C164 (what holds, large vectors): beyond the threshold `exp_quaternion` is the exponential of the pure quaternion, and has norm one. -/
theorem C164_closed_form {w : V3} (h : eps < nrm w ^ 2) : toH (expQ w) = NormedSpace.exp (pure w) ∧ nsq (expQ w) = 1 := by
  have e : toH (expQ w) = NormedSpace.exp (pure w) := by
    rw [exp_pure]
    unfold expQ
    simp only [not_le.2 h, if_false]
    ext <;> simp <;> ring
  refine ⟨e, ?_⟩
  rw [nsq_toH, e, normSq_exp]
  simp

/-- The norm in the branch for small vectors. -/
theorem C164_small_norm {w : V3} (h : nrm w ^ 2 ≤ eps) : nsq (expQ w) = 1 - nrm w ^ 4 / 12 + nrm w ^ 6 / 36 := by
  unfold expQ
  simp only [h, if_true, nsq]
  have := nrm_sq w
  have h4 : nrm w ^ 4 = (nrm w ^ 2) ^ 2 := by ring
  have h6 : nrm w ^ 6 = (nrm w ^ 2) ^ 3 := by ring
  rw [h4, h6, this]
  ring

/-- C164 (what holds, small vectors): the Taylor polynomial is within `10⁻¹³` of the exponential. -/
theorem C164_small_partial {w : V3} (h : nrm w ^ 2 ≤ eps) : ‖toH (expQ w) - NormedSpace.exp (pure w)‖ ≤ 1 / 10 ^ 13 := by
  set θ := nrm w with hθ
  have h0 : 0 ≤ θ := nrm_nonneg w
  have h2 : θ ^ 2 ≤ 1 / 10 ^ 6 := h
  have h1 : |θ| ≤ 1 := by
    rw [abs_of_nonneg h0]; nlinarith
  have hc := Real.cos_bound h1
  have hs := Real.sin_bound h1
  rw [abs_of_nonneg h0] at hc hs
  have h4 : θ ^ 4 ≤ 1 / 10 ^ 12 := by
    have : θ ^ 4 = (θ ^ 2) ^ 2 := by ring
    rw [this]
    calc (θ ^ 2) ^ 2 ≤ (1 / 10 ^ 6) ^ 2 := by gcongr
      _ = 1 / 10 ^ 12 := by norm_num
  set a := Real.cos θ - (1 - θ ^ 2 / 2) with ha
  set b := Real.sin θ - (θ - θ ^ 3 / 6) with hb
  have ha' : a ^ 2 ≤ (1 / 10 ^ 12 * (5 / 96)) ^ 2 := by
    rw [← sq_abs]; gcongr
    exact hc.trans (by gcongr)
  have hb' : b ^ 2 ≤ (1 / 10 ^ 12 * (5 / 96)) ^ 2 := by
    rw [← sq_abs]; gcongr
    refine hs.trans ?_
    have h5 : θ ^ 5 ≤ θ ^ 4 := pow_le_pow_of_le_one h0 (by rwa [abs_of_nonneg h0] at h1) (by norm_num)
    linarith
  have hn : ‖toH (expQ w) - NormedSpace.exp (pure w)‖ ^ 2 = a ^ 2 + b ^ 2 := by
    rw [pow_two, ← normSq_eq_norm_mul_self, exp_pure, normSq_def']
    unfold expQ
    simp only [h, if_true, ← hθ]
    rcases eq_or_lt_of_le h0 with hz | hp
    · have hw : w 0 ^ 2 + w 1 ^ 2 + w 2 ^ 2 = 0 := by rw [← nrm_sq, ← hθ, ← hz]; norm_num
      have w0 : w 0 = 0 := by nlinarith [sq_nonneg (w 0), sq_nonneg (w 1), sq_nonneg (w 2)]
      have w1 : w 1 = 0 := by nlinarith [sq_nonneg (w 0), sq_nonneg (w 1), sq_nonneg (w 2)]
      have w2 : w 2 = 0 := by nlinarith [sq_nonneg (w 0), sq_nonneg (w 1), sq_nonneg (w 2)]
      simp [w0, w1, w2, ha, hb, ← hz]
    · have key := nrm_sq w
      rw [← hθ] at key
      have hb2 : (1 - θ ^ 2 / 6 - Real.sin θ / θ) = -b / θ := by
        rw [hb]; field_simp; ring
      have : (1 - θ ^ 2 / 2 - Real.cos θ) ^ 2 + ((1 - θ ^ 2 / 6) * w 0 - Real.sin θ / θ * w 0) ^ 2 + ((1 - θ ^ 2 / 6) * w 1 - Real.sin θ / θ * w 1) ^ 2 +
          ((1 - θ ^ 2 / 6) * w 2 - Real.sin θ / θ * w 2) ^ 2 = a ^ 2 + (1 - θ ^ 2 / 6 - Real.sin θ / θ) ^ 2 * θ ^ 2 := by
        rw [ha]
        linear_combination (-(1 - θ ^ 2 / 6 - Real.sin θ / θ) ^ 2) * key
      have e2 : (-b / θ) ^ 2 * θ ^ 2 = b ^ 2 := by field_simp
      rw [hb2, e2] at this
      rw [← this]
      simp
  have hle : ‖toH (expQ w) - NormedSpace.exp (pure w)‖ ^ 2 ≤ (1 / 10 ^ 13) ^ 2 := by
    rw [hn]
    calc a ^ 2 + b ^ 2 ≤ (1 / 10 ^ 12 * (5 / 96)) ^ 2 + (1 / 10 ^ 12 * (5 / 96)) ^ 2 := add_le_add ha' hb'
      _ ≤ (1 / 10 ^ 13) ^ 2 := by norm_num
  exact le_of_sq_le_sq hle (by norm_num)

/-- C164 is violated for every small vector but zero: the result is not a unit quaternion. -/
theorem C164_small_violated {w : V3} (h : nrm w ^ 2 ≤ eps) (hw : w ≠ 0) : nsq (expQ w) < 1 := by
  have h0 : 0 < nrm w ^ 2 := by
    rw [nrm_sq]
    by_contra hc
    push Not at hc
    refine hw (funext fun i => ?_)
    have h0 := sq_nonneg (w 0)
    have h1 := sq_nonneg (w 1)
    have h2 := sq_nonneg (w 2)
    fin_cases i
    · exact pow_eq_zero_iff (two_ne_zero) |>.1 (by show w 0 ^ 2 = 0; linarith)
    · exact pow_eq_zero_iff (two_ne_zero) |>.1 (by show w 1 ^ 2 = 0; linarith)
    · exact pow_eq_zero_iff (two_ne_zero) |>.1 (by show w 2 ^ 2 = 0; linarith)
  rw [C164_small_norm h]
  have h4 : nrm w ^ 4 = (nrm w ^ 2) ^ 2 := by ring
  have h6 : nrm w ^ 6 = (nrm w ^ 2) ^ 3 := by ring
  rw [h4, h6]
  have he : eps = 1 / 10 ^ 6 := rfl
  rw [he] at h
  set s := nrm w ^ 2
  nlinarith [mul_pos h0 h0, mul_pos (mul_pos h0 h0) (show (0 : ℝ) < 1 - s by linarith)]

/-- The vector of an angular velocity of one radian per second over a time step is small. -/
example : nrm ((1 / 2 : ℝ) • (dt • ![1, 0, 0] : V3)) ^ 2 ≤ eps := by
  rw [nrm_sq]; simp [dt, eps]; norm_num

end PyMan
end Verif
