import Verif.ContPlace
import Mathlib.Analysis.SpecialFunctions.Trigonometric.Inverse

/-!
The orientation of an end-effector in the air: `qini.slerp(query_time, qend)`, /repo/momentumopt/src/momentumopt/cntopt/ContactPlanInterface.cpp:151, and the properties C239, C240.

Simplifications: exact reals. Eigen's `QuaternionBase::slerp` is external; it is modelled after its source (Eigen/src/Geometry/Quaternion.h).
-/
namespace Verif
namespace Slerp
open Cont

/-! ### model -/

/-- `NumTraits<double>::epsilon()` of Eigen (used in ContactPlanInterface.cpp:151). -/
noncomputable def epsilon : ℝ := 1 / 2 ^ 52

/-- `QuaternionBase::dot` of Eigen (used in ContactPlanInterface.cpp:151). -/
def dot (a b : Quat) : ℝ := a.w * b.w + a.x * b.x + a.y * b.y + a.z * b.z

/-- `scale0` and `scale1` of Eigen's `slerp` before the sign is adapted (used in ContactPlanInterface.cpp:151). -/
noncomputable def scales (absD t : ℝ) : ℝ × ℝ :=
  if 1 - epsilon ≤ absD then (1 - t, t)
  else (Real.sin ((1 - t) * Real.arccos absD) / Real.sin (Real.arccos absD), Real.sin (t * Real.arccos absD) / Real.sin (Real.arccos absD))

/-- `QuaternionBase::slerp` of Eigen (used in ContactPlanInterface.cpp:151): `q.slerp(t, r)`. -/
noncomputable def slerp (q r : Quat) (t : ℝ) : Quat :=
  let s := scales |dot q r| t
  let s1 := if dot q r < 0 then -s.2 else s.2
  ⟨s.1 * q.w + s1 * r.w, s.1 * q.x + s1 * r.x, s.1 * q.y + s1 * r.y, s.1 * q.z + s1 * r.z⟩

/-! ### properties -/

theorem eps_pos : 0 < epsilon := by unfold epsilon; positivity

theorem eps_lt : epsilon < 1 := by unfold epsilon; norm_num

/-- The sine Eigen divides by is positive. -/
theorem sin_pos {a : ℝ} (h0 : 0 ≤ a) (h1 : ¬ 1 - epsilon ≤ a) : 0 < Real.sin (Real.arccos a) := by
  rw [Real.sin_arccos]
  refine Real.sqrt_pos.2 ?_
  have := eps_pos
  push Not at h1
  nlinarith

theorem cos_abs {a : ℝ} (h0 : 0 ≤ a) (h1 : ¬ 1 - epsilon ≤ a) : Real.cos (Real.arccos a) = a :=
  Real.cos_arccos (by linarith) (by have := eps_pos; push Not at h1; linarith)

theorem scales_zero {a : ℝ} (h0 : 0 ≤ a) : scales a 0 = (1, 0) := by
  unfold scales
  split
  · simp
  · next h => simp [(sin_pos h0 h).ne']

theorem scales_one {a : ℝ} (h0 : 0 ≤ a) : scales a 1 = (0, 1) := by
  unfold scales
  split
  · simp
  · next h => simp [(sin_pos h0 h).ne']

/-- The other end of the shorter arc: the goal, or its opposite, which stands for the same rotation. -/
noncomputable def near (q r : Quat) : Quat := if dot q r < 0 then r.neg else r

theorem slerp_eq (q r : Quat) (t : ℝ) : slerp q r t =
    ⟨(scales |dot q r| t).1 * q.w + (scales |dot q r| t).2 * (near q r).w, (scales |dot q r| t).1 * q.x + (scales |dot q r| t).2 * (near q r).x,
      (scales |dot q r| t).1 * q.y + (scales |dot q r| t).2 * (near q r).y, (scales |dot q r| t).1 * q.z + (scales |dot q r| t).2 * (near q r).z⟩ := by
  unfold slerp near
  by_cases h : dot q r < 0
  · simp [h, Quat.neg]
  · simp [h]

theorem dot_near (q r : Quat) : dot q (near q r) = |dot q r| := by
  unfold near
  by_cases h : dot q r < 0
  · rw [if_pos h, abs_of_neg h]; simp [dot, Quat.neg]; ring
  · rw [if_neg h, abs_of_nonneg (not_lt.1 h)]

theorem near_unit {q r : Quat} (h : r.IsUnit) : dot (near q r) (near q r) = 1 := by
  unfold Quat.IsUnit at h
  unfold near
  split
  · simp [dot, Quat.neg]; linear_combination h
  · simp [dot]; linear_combination h

theorem unit_dot {q : Quat} (h : q.IsUnit) : dot q q = 1 := by
  unfold Quat.IsUnit at h; simp [dot]; linear_combination h

/-- Inner product of two interpolated orientations. -/
theorem dot_slerp {q r : Quat} (hq : q.IsUnit) (hr : r.IsUnit) (s t : ℝ) :
    dot (slerp q r s) (slerp q r t) = (scales |dot q r| s).1 * (scales |dot q r| t).1 +
      ((scales |dot q r| s).1 * (scales |dot q r| t).2 + (scales |dot q r| s).2 * (scales |dot q r| t).1) * |dot q r| +
      (scales |dot q r| s).2 * (scales |dot q r| t).2 := by
  rw [slerp_eq, slerp_eq, ← dot_near q r]
  have h1 := unit_dot hq
  have h2 := near_unit (q := q) hr
  generalize (scales _ s).1 = a
  generalize (scales _ s).2 = b
  generalize (scales _ t).1 = c
  generalize (scales _ t).2 = d
  generalize near q r = p at *
  simp only [dot] at *
  linear_combination (a * c) * h1 + (b * d) * h2

/-- C239: the interpolation starts at the orientation the end-effector has when it leaves and ends at an orientation that is the same rotation as the one it gets, whatever the two orientations. -/
theorem C239_ends (q r : Quat) : slerp q r 0 = q ∧ (slerp q r 1 = r ∨ slerp q r 1 = r.neg) ∧ toMat (slerp q r 1) = toMat r := by
  have h1 : slerp q r 1 = near q r := by rw [slerp_eq, scales_one (abs_nonneg _)]; ext <;> simp
  refine ⟨?_, ?_, ?_⟩
  · rw [slerp_eq, scales_zero (abs_nonneg _)]; ext <;> simp
  · rw [h1]; unfold near; split
    · exact .inr rfl
    · exact .inl rfl
  · rw [h1]; unfold near; split
    · exact toMat_neg r
    · rfl

/-- C240: between unit quaternions that are not almost parallel the orientation turns at a constant rate along the shorter arc, and every interpolated quaternion is a unit quaternion: the angle
between the orientations at `s` and `t` is `|s - t|` times the angle `θ ≤ π/2` between the ends. -/
theorem C240_uniform {q r : Quat} (hq : q.IsUnit) (hr : r.IsUnit) (h : |dot q r| < 1 - epsilon) :
    ∃ θ : ℝ, 0 < θ ∧ θ ≤ Real.pi / 2 ∧ Real.cos θ = |dot q r| ∧ (∀ s t, dot (slerp q r s) (slerp q r t) = Real.cos ((s - t) * θ)) ∧
      ∀ t, (slerp q r t).IsUnit := by
  have hn : ¬ 1 - epsilon ≤ |dot q r| := not_le.2 h
  have hs := sin_pos (abs_nonneg (dot q r)) hn
  have hc := cos_abs (abs_nonneg (dot q r)) hn
  set θ := Real.arccos |dot q r| with hθ
  have key : ∀ s t, dot (slerp q r s) (slerp q r t) = Real.cos ((s - t) * θ) := by
    intro s t
    rw [dot_slerp hq hr]
    simp only [scales, if_neg hn]
    rw [← hθ]
    rw [show (1 - s) * θ = θ - s * θ by ring, show (1 - t) * θ = θ - t * θ by ring, show (s - t) * θ = s * θ - t * θ by ring]
    rw [Real.sin_sub, Real.sin_sub, Real.cos_sub, hc]
    have h2 := Real.sin_sq_add_cos_sq θ
    have h3 := Real.sin_sq_add_cos_sq (s * θ)
    have h4 := Real.sin_sq_add_cos_sq (t * θ)
    rw [hc] at h2
    field_simp
    generalize Real.sin θ = S at *
    generalize |dot q r| = D at *
    generalize Real.sin (s * θ) = a at *
    generalize Real.cos (s * θ) = b at *
    generalize Real.sin (t * θ) = c at *
    generalize Real.cos (t * θ) = d at *
    have h5 : D ^ 2 = 1 - S ^ 2 := by linarith
    ring_nf
    try rw [show D ^ 3 = D * D ^ 2 by ring]
    rw [h5]
    ring
  refine ⟨θ, Real.arccos_pos.2 (by have := eps_pos; linarith), Real.arccos_le_pi_div_two.2 (abs_nonneg _), hc, key, fun t => ?_⟩
  have := key t t
  rw [sub_self, zero_mul, Real.cos_zero] at this
  unfold Quat.IsUnit
  simp only [dot] at this
  linear_combination this

/-- C240 when the ends are almost parallel: Eigen interpolates linearly, and the length of the result is one up to half of the machine precision. -/
theorem C240_parallel {q r : Quat} (hq : q.IsUnit) (hr : r.IsUnit) (h : 1 - epsilon ≤ |dot q r|) (t : ℝ) (h0 : 0 ≤ t) (h1 : t ≤ 1) :
    1 - epsilon / 2 ≤ dot (slerp q r t) (slerp q r t) ∧ dot (slerp q r t) (slerp q r t) ≤ 1 ∧ dot q (slerp q r t) = 1 - t * (1 - |dot q r|) := by
  have hle : |dot q r| ≤ 1 := by
    rw [abs_le]
    unfold Quat.IsUnit at hq hr
    simp only [dot]
    constructor <;> nlinarith [sq_nonneg (q.w - r.w), sq_nonneg (q.x - r.x), sq_nonneg (q.y - r.y), sq_nonneg (q.z - r.z), sq_nonneg (q.w + r.w), sq_nonneg (q.x + r.x),
      sq_nonneg (q.y + r.y), sq_nonneg (q.z + r.z)]
  have hst : dot (slerp q r t) (slerp q r t) = 1 - 2 * (t * (1 - t)) * (1 - |dot q r|) := by
    rw [dot_slerp hq hr]; simp only [scales, if_pos h]; ring
  have ht : 0 ≤ t * (1 - t) := mul_nonneg h0 (by linarith)
  have ht' : t * (1 - t) ≤ 1 / 4 := by nlinarith [sq_nonneg (t - 1 / 2)]
  refine ⟨?_, ?_, ?_⟩
  · rw [hst]; have := eps_pos; nlinarith
  · rw [hst]; nlinarith
  · have h2 := dot_slerp hq hr 0 t
    rw [(C239_ends q r).1, scales_zero (abs_nonneg _)] at h2
    rw [h2]; simp only [scales, if_pos h]; ring

/-- A quarter turn about the vertical meets the hypotheses: half way the end-effector has turned by an eighth. -/
example : ∃ q r : Quat, q.IsUnit ∧ r.IsUnit ∧ |dot q r| < 1 - epsilon ∧ dot q r < 0 ∧ dot q (slerp q r (1 / 2)) = Real.cos (Real.pi / 8) := by
  have h2 : √2 * √2 = 2 := Real.mul_self_sqrt (by norm_num)
  have hd : dot ⟨1, 0, 0, 0⟩ ⟨-(√2 / 2), 0, 0, √2 / 2⟩ = -(√2 / 2) := by simp [dot]
  have hu : (⟨1, 0, 0, 0⟩ : Quat).IsUnit := by simp [Quat.IsUnit]
  have hv : (⟨-(√2 / 2), 0, 0, √2 / 2⟩ : Quat).IsUnit := by simp only [Quat.IsUnit]; linear_combination (1 / 2 : ℝ) * h2
  have hs : √2 < 3 / 2 := by rw [Real.sqrt_lt' (by norm_num)]; norm_num
  have hp : 0 < √2 := Real.sqrt_pos.2 (by norm_num)
  have hlt : |dot ⟨1, 0, 0, 0⟩ ⟨-(√2 / 2), 0, 0, √2 / 2⟩| < 1 - epsilon := by
    rw [hd, abs_neg, abs_of_pos (by positivity)]; unfold epsilon; linarith [show (1 : ℝ) / 2 ^ 52 < 1 / 4 by norm_num]
  refine ⟨⟨1, 0, 0, 0⟩, ⟨-(√2 / 2), 0, 0, √2 / 2⟩, hu, hv, hlt, by rw [hd]; linarith, ?_⟩
  obtain ⟨θ, h1, h3, h4, h5, _⟩ := C240_uniform hu hv hlt
  have hθ : θ = Real.pi / 4 := by
    refine Real.injOn_cos ⟨h1.le, by linarith [Real.pi_pos]⟩ ⟨by positivity, by linarith [Real.pi_pos]⟩ ?_
    rw [h4, hd, abs_neg, abs_of_pos (by positivity), Real.cos_pi_div_four]
  have := h5 0 (1 / 2)
  rw [(C239_ends _ _).1] at this
  rw [this, hθ, ← Real.cos_neg]; congr 1; ring

end Slerp
end Verif
