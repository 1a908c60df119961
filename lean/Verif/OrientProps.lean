import Verif.Orient
import Mathlib.Tactic.LinearCombination
import Mathlib.Tactic.FieldSimp
import Mathlib.Tactic.FinCases
import Mathlib.Tactic.NormNum
import Mathlib.Tactic.Positivity
import Mathlib.Analysis.SpecialFunctions.Trigonometric.Bounds
import Mathlib.Analysis.Complex.Trigonometric
import Mathlib.Analysis.Real.Pi.Bounds
import Mathlib.LinearAlgebra.Matrix.Determinant.Basic

/-! C51 (rotation maps), C52 (quaternion matrices and angular velocities). -/
namespace Verif
namespace Orient
open Matrix

/-! ### norms -/

theorem norm3_nonneg (v : V3) : 0 ≤ norm3 v := Real.sqrt_nonneg _

theorem norm3_sq (v : V3) : norm3 v ^ 2 = v 0 ^ 2 + v 1 ^ 2 + v 2 ^ 2 := Real.sq_sqrt (by positivity)

theorem norm3_smul (a : ℝ) (v : V3) : norm3 (a • v) = |a| * norm3 v := by
  unfold norm3
  rw [← Real.sqrt_sq_eq_abs, ← Real.sqrt_mul (sq_nonneg a)]
  congr 1
  simp only [Pi.smul_apply, smul_eq_mul]
  ring

theorem sq_quat (w : ℝ) (v : V3) : sq (quat w v) = w ^ 2 + norm3 v ^ 2 := by rw [norm3_sq]; unfold sq quat; ring

theorem sq_eq (q : Qt) : sq q = q.w ^ 2 + norm3 (vec q) ^ 2 := by rw [norm3_sq]; unfold sq vec; simp; ring

theorem quat_eta (q : Qt) : quat q.w (vec q) = q := by unfold quat vec; rfl

theorem sq_nonneg' (q : Qt) : 0 ≤ sq q := by unfold sq; positivity

theorem sq_neg' (q : Qt) : sq (-q) = sq q := by unfold sq; simp

theorem sq_smul' (a : ℝ) (q : Qt) : sq (a • q) = a ^ 2 * sq q := by unfold sq; simp; ring

theorem sq_mul' (p q : Qt) : sq (p * q) = sq p * sq q := by unfold sq; simp; ring

theorem one_smul' (q : Qt) : (1 : ℝ) • q = q := by ext <;> simp

theorem neg_one_smul' (q : Qt) : (-1 : ℝ) • q = -q := by ext <;> simp

theorem normalize_unit {q : Qt} (h : sq q = 1) : normalize q = q := by
  unfold normalize
  rw [h, if_pos one_pos, Real.sqrt_one, inv_one, one_smul']

theorem sq_normalize {q : Qt} (h : 0 < sq q) : sq (normalize q) = 1 := by
  unfold normalize
  rw [if_pos h, sq_smul', inv_pow, Real.sq_sqrt h.le, inv_mul_cancel₀ h.ne']

theorem flipW_sq (q : Qt) : sq (flipW q) = sq q := by unfold flipW; split; exact sq_neg' q; rfl

theorem flipW_re (q : Qt) : 0 ≤ (flipW q).w := by
  unfold flipW; split
  · next h => simp; linarith
  · next h => linarith

theorem flipW_of_nonneg {q : Qt} (h : 0 ≤ q.w) : flipW q = q := if_neg (not_lt.mpr h)

theorem flipW_or (q : Qt) : flipW q = q ∨ flipW q = -q := by unfold flipW; split <;> simp

/-! ### the two maps -/

theorem inner_large {v : V3} (h : ¬ norm3 v < 1 / 100) : sq (quat (Real.cos (norm3 v / 2)) (Real.sin (1 / 2 * norm3 v) • ((norm3 v)⁻¹ • v))) = 1 := by
  have hn : 0 < norm3 v := by linarith
  rw [sq_quat, norm3_smul, norm3_smul, mul_pow, mul_pow, sq_abs, sq_abs, inv_pow, inv_mul_cancel₀ (by positivity), mul_one,
    show 1 / 2 * norm3 v = norm3 v / 2 by ring]
  exact Real.cos_sq_add_sin_sq _

theorem expMap_large {v : V3} (h : ¬ norm3 v < 1 / 100) :
    expMap v = flipW (quat (Real.cos (norm3 v / 2)) (Real.sin (1 / 2 * norm3 v) • ((norm3 v)⁻¹ • v))) := by
  unfold expMap
  simp only
  rw [if_neg h, normalize_unit (inner_large h)]

theorem expMap_small {v : V3} (h : norm3 v < 1 / 100) : expMap v = normalize (quat 1 ((1 / 2 : ℝ) • v)) := by
  unfold expMap
  simp only
  rw [if_pos h]
  apply flipW_of_nonneg
  unfold normalize
  split
  · simp only [quat, Qt.w_smul, mul_one]; positivity
  · simp [quat]

/-- C51, first part: the exponential map always gives a unit quaternion with nonnegative scalar part. -/
theorem C51_exp_unit (v : V3) : sq (expMap v) = 1 ∧ 0 ≤ (expMap v).w := by
  refine ⟨?_, ?_⟩
  · unfold expMap
    simp only
    rw [flipW_sq]
    apply sq_normalize
    split
    · rw [sq_quat]; positivity
    · next h => rw [inner_large h]; exact one_pos
  · unfold expMap; exact flipW_re _

theorem cos_large {a : ℝ} (h0 : 0 ≤ a) (h : Real.cos a ≤ 99 / 100) : 1 / 200 < a := by
  by_contra hc
  have := Real.one_sub_sq_div_two_le_cos (x := a)
  nlinarith

/-- C51: outside the small-angle branch, the exponential map undoes the logarithmic map: for every unit quaternion with `|w| ≤ 0.99` the result is the quaternion itself
or its negative, whichever has nonnegative scalar part (both describe the same rotation). -/
theorem C51_exp_log (q : Qt) (hq : sq q = 1) (hw : |q.w| ≤ 99 / 100) : expMap (logMap q) = if q.w < 0 then -q else q := by
  have hn : flipW (normalize q) = if q.w < 0 then -q else q := by rw [normalize_unit hq]; rfl
  rw [← hn]
  have h1 : sq (flipW (normalize q)) = 1 := by rw [flipW_sq, normalize_unit hq, hq]
  have h2 := flipW_re (normalize q)
  have h3 : (flipW (normalize q)).w ≤ 99 / 100 := by
    rw [hn]
    split
    · rw [Qt.w_neg]; linarith [neg_abs_le q.w]
    · linarith [le_abs_self q.w]
  unfold logMap
  simp only
  generalize flipW (normalize q) = n at h1 h2 h3 ⊢
  have hre : ¬ |1 - n.w| < 1 / 100 := by
    rw [abs_of_nonneg (by linarith)]; linarith
  rw [if_neg hre]
  set a := Real.arccos n.w with ha
  have hcos : Real.cos a = n.w := Real.cos_arccos (by linarith) (by linarith)
  have ha0 : 0 ≤ a := Real.arccos_nonneg _
  have hal : 1 / 200 < a := cos_large ha0 (by rw [hcos]; exact h3)
  have hsin : Real.sin a = norm3 (vec n) := by
    rw [ha, Real.sin_arccos]
    have : 1 - n.w ^ 2 = norm3 (vec n) ^ 2 := by rw [← h1, sq_eq]; ring
    rw [this, Real.sqrt_sq (norm3_nonneg _)]
  have hsp : 0 < Real.sin a := by
    rw [hsin]
    rcases (norm3_nonneg (vec n)).lt_or_eq with h | h
    · exact h
    · exfalso; rw [sq_eq, ← h] at h1; nlinarith
  rw [show 1 / 2 * (2 * a) = a by ring]
  have hnv : norm3 ((2 * a / Real.sin a) • vec n) = 2 * a := by
    rw [norm3_smul, abs_of_nonneg (by positivity), ← hsin]; field_simp
  have hlarge : ¬ norm3 ((2 * a / Real.sin a) • vec n) < 1 / 100 := by rw [hnv]; linarith
  rw [expMap_large hlarge, hnv, show 2 * a / 2 = a by ring, show 1 / 2 * (2 * a) = a by ring, hcos, smul_smul, smul_smul]
  have : Real.sin a * (2 * a)⁻¹ * (2 * a / Real.sin a) = 1 := by field_simp
  rw [this, one_smul, quat_eta, flipW_of_nonneg h2]

/-- C51: the logarithmic map undoes the exponential map for every rotation vector of length at most π outside the small-angle branch. -/
theorem C51_log_exp (v : V3) (hpi : norm3 v ≤ Real.pi) (hw : Real.cos (norm3 v / 2) ≤ 99 / 100) : logMap (expMap v) = v := by
  have hn0 := norm3_nonneg v
  have hl := cos_large (by linarith) hw
  have hlarge : ¬ norm3 v < 1 / 100 := by linarith
  have hc : 0 ≤ Real.cos (norm3 v / 2) := Real.cos_nonneg_of_mem_Icc ⟨by linarith [Real.pi_pos], by linarith⟩
  have hs : 0 < Real.sin (norm3 v / 2) := Real.sin_pos_of_pos_of_lt_pi (by linarith) (by linarith [Real.pi_pos])
  rw [expMap_large hlarge, flipW_of_nonneg (by simpa [quat] using hc)]
  unfold logMap
  simp only
  rw [normalize_unit (inner_large hlarge), flipW_of_nonneg (by simpa [quat] using hc)]
  have hre : (quat (Real.cos (norm3 v / 2)) (Real.sin (1 / 2 * norm3 v) • ((norm3 v)⁻¹ • v))).w = Real.cos (norm3 v / 2) := rfl
  have hvec : vec (quat (Real.cos (norm3 v / 2)) (Real.sin (1 / 2 * norm3 v) • ((norm3 v)⁻¹ • v))) = Real.sin (1 / 2 * norm3 v) • ((norm3 v)⁻¹ • v) := by
    funext i; fin_cases i <;> rfl
  rw [hre, hvec, if_neg (by rw [abs_of_nonneg (by linarith)]; linarith), Real.arccos_cos (by linarith) (by linarith [Real.pi_pos])]
  rw [show 1 / 2 * (2 * (norm3 v / 2)) = norm3 v / 2 by ring, show 1 / 2 * norm3 v = norm3 v / 2 by ring, smul_smul, smul_smul]
  have hne : norm3 v ≠ 0 := by linarith
  have : 2 * (norm3 v / 2) / Real.sin (norm3 v / 2) * Real.sin (norm3 v / 2) * (norm3 v)⁻¹ = 1 := by field_simp
  rw [this, one_smul]

/-- Both hypotheses are met: half a turn about `z`, as a quaternion and as a rotation vector. -/
example : sq (quat 0 ![0, 0, 1]) = 1 ∧ |(quat 0 ![0, 0, 1]).w| ≤ 99 / 100 ∧ norm3 ![0, 0, Real.pi] ≤ Real.pi ∧ Real.cos (norm3 ![0, 0, Real.pi] / 2) ≤ 99 / 100 := by
  have h : norm3 ![0, 0, Real.pi] = Real.pi := by
    unfold norm3; simp [Real.sqrt_sq Real.pi_pos.le]
  rw [h]
  refine ⟨by unfold sq quat; simp, by simp only [quat]; norm_num, le_rfl, by rw [Real.cos_pi_div_two]; norm_num⟩

/-- C51 is false inside the small-angle branch: for every unit quaternion with `0.99 < w < 1` whose logarithm is at least 0.01 long, applying both maps does not give the quaternion
back, not even up to sign. -/
theorem C51_violated (q : Qt) (hq : sq q = 1) (h1 : 99 / 100 < q.w) (h2 : 1 / 200 ≤ norm3 (vec q)) : expMap (logMap q) ≠ q ∧ expMap (logMap q) ≠ -q := by
  have hflip : flipW (normalize q) = q := by rw [normalize_unit hq, flipW_of_nonneg (by linarith)]
  have hlog : logMap q = (2 : ℝ) • vec q := by
    unfold logMap
    simp only [hflip]
    rw [if_pos]
    have : q.w ≤ 1 := by have := sq_eq q; nlinarith [norm3_nonneg (vec q), sq_nonneg (norm3 (vec q))]
    rw [abs_of_nonneg (by linarith)]; linarith
  have hnorm : norm3 (logMap q) = 2 * norm3 (vec q) := by rw [hlog, norm3_smul]; norm_num
  have hs1 : norm3 (vec q) < 1 := by
    have := sq_eq q
    nlinarith [norm3_nonneg (vec q)]
  have hre : (expMap (logMap q)).w = Real.cos (norm3 (vec q)) := by
    rw [expMap_large (by rw [hnorm]; linarith), flipW_of_nonneg]
    · simp only [quat, hnorm]; congr 1; ring
    · simp only [quat, hnorm]
      exact Real.cos_nonneg_of_mem_Icc ⟨by linarith [Real.pi_pos], by linarith [Real.pi_gt_three]⟩
  -- cos (sin a) > cos a
  have ha : Real.sin (Real.arccos q.w) = norm3 (vec q) := by
    rw [Real.sin_arccos]
    have : 1 - q.w ^ 2 = norm3 (vec q) ^ 2 := by rw [← hq, sq_eq]; ring
    rw [this, Real.sqrt_sq (norm3_nonneg _)]
  have hre1 : q.w ≤ 1 := by have := sq_eq q; nlinarith [norm3_nonneg (vec q), sq_nonneg (norm3 (vec q))]
  have hcos : Real.cos (Real.arccos q.w) = q.w := Real.cos_arccos (by linarith) hre1
  have hpos : 0 < Real.arccos q.w := by
    rw [Real.arccos_pos]
    rcases hre1.lt_or_eq with h | h
    · exact h
    · exfalso; have := sq_eq q; rw [hq, h] at this; nlinarith [norm3_nonneg (vec q)]
  have hlt : norm3 (vec q) < Real.arccos q.w := by rw [← ha]; exact Real.sin_lt hpos
  have hgt : q.w < Real.cos (norm3 (vec q)) := by
    conv_lhs => rw [← hcos]
    exact Real.cos_lt_cos_of_nonneg_of_le_pi (norm3_nonneg _) (Real.arccos_le_pi _) hlt
  constructor
  · intro h; rw [h] at hre; linarith
  · intro h; rw [h, Qt.w_neg] at hre; linarith

/-- Such quaternions exist: `(0.9975…, 0.07, 0, 0)` normalised, here with an exact square root. -/
example : let q := quat (√(1 - (7/100)^2)) ![7/100, 0, 0]; sq q = 1 ∧ 99 / 100 < q.w ∧ 1 / 200 ≤ norm3 (vec q) := by
  intro q
  have hv : norm3 ![(7/100 : ℝ), 0, 0] = 7/100 := by
    unfold norm3; simp only [Matrix.cons_val_zero, Matrix.cons_val_one, Matrix.cons_val]
    rw [show ((7/100 : ℝ)^2 + 0^2 + 0^2) = (7/100)^2 by norm_num, Real.sqrt_sq (by norm_num)]
  refine ⟨?_, ?_, ?_⟩
  · rw [sq_quat, hv, Real.sq_sqrt (by norm_num)]; norm_num
  · simp only [q, quat]; rw [Real.lt_sqrt (by norm_num)]; norm_num
  · have : vec q = ![7/100, 0, 0] := by funext i; fin_cases i <;> rfl
    rw [this, hv]; norm_num

/-! ### C52 -/

/-- Coordinates of a quaternion: scalar part first. -/
def coords (q : Qt) : Fin 4 → ℝ := ![q.w, q.x, q.y, q.z]

/-- C52: the quaternion matrix of `q` maps `p` to the product `q p`, its conjugate form to `p q`. -/
theorem C52_quaternion_matrix (q p : Qt) : quatMatrix q false *ᵥ coords p = coords (q * p) ∧ quatMatrix q true *ᵥ coords p = coords (p * q) := by
  constructor <;>
  · funext i
    fin_cases i <;>
      simp [quatMatrix, coords, skew, vec, Matrix.mulVec, dotProduct, Fin.sum_univ_four] <;> ring

/-- The Jacobian of the angular velocity for a quaternion along the rotation vector. -/
theorem jac_form (w t f1 f2 : ℝ) (v : V3) (i j : Fin 3) :
    (∑ k : Fin 4, (if k = 0 then -quatMatrix (quat w (t • v)) false i.succ k else quatMatrix (quat w (t • v)) false i.succ k) *
      (if h : k = 0 then -f1 * v j else (if k.pred h = j then 2 * f1 else 0) + f2 * (v (k.pred h) * v j))) =
    ((2 * f1 * w) • (1 : M3) + (2 * f1 * t) • skew v + (t * f1 + w * f2) • Matrix.vecMulVec v v) i j := by
  fin_cases i <;> fin_cases j <;>
    simp [Fin.sum_univ_four, quatMatrix, quat, skew, vec, Matrix.vecMulVec, Matrix.of_apply, Fin.pred, Fin.subNat] <;> ring

theorem det_form (α β γ : ℝ) (v : V3) :
    (α • (1 : M3) + β • skew v + γ • Matrix.vecMulVec v v).det = (α + γ * norm3 v ^ 2) * (α ^ 2 + β ^ 2 * norm3 v ^ 2) := by
  rw [norm3_sq, Matrix.det_fin_three]
  simp [skew, Matrix.vecMulVec, Matrix.of_apply]
  ring

theorem quat_smul (a w : ℝ) (v : V3) : a • quat w v = quat (a * w) (a • v) := by
  unfold quat; ext <;> simp

theorem neg_quat (w : ℝ) (v : V3) : -quat w v = quat (-w) ((-1 : ℝ) • v) := by
  unfold quat; ext <;> simp

theorem jacOmega_apply (v : V3) (i j : Fin 3) : jacOmega v i j = ∑ k : Fin 4,
    (if k = 0 then -quatMatrix (expMap v) false i.succ k else quatMatrix (expMap v) false i.succ k) * jacQuat v k j := rfl

theorem jacQuat_large {v : V3} (h : ¬ norm3 v < 1 / 100) : jacQuat v = fun i j => if h : i = 0 then -(1 / 2 * Real.sin (1 / 2 * norm3 v) / norm3 v) * v j
      else (if i.pred h = j then 2 * (1 / 2 * Real.sin (1 / 2 * norm3 v) / norm3 v) else 0) +
        (Real.cos (1 / 2 * norm3 v) * norm3 v - 2 * Real.sin (1 / 2 * norm3 v)) / (2 * norm3 v ^ 3) * (v (i.pred h) * v j) :=
  if_neg h

/-- Explicit Jacobian outside the small-angle branch; `σ` is the sign chosen by the exponential map. -/
theorem jac_large' {v : V3} (h : ¬ norm3 v < 1 / 100) : ∃ σ : ℝ, ((σ = 1 ∧ ¬ Real.cos (norm3 v / 2) < 0) ∨ (σ = -1 ∧ Real.cos (norm3 v / 2) < 0)) ∧
    expMap v = σ • quat (Real.cos (norm3 v / 2)) ((Real.sin (norm3 v / 2) / norm3 v) • v) ∧
    jacOmega v = (σ * (Real.sin (norm3 v / 2) * Real.cos (norm3 v / 2) / norm3 v)) • (1 : M3) + (σ * (Real.sin (norm3 v / 2) / norm3 v) ^ 2) • skew v +
      (σ * (1 / (2 * norm3 v ^ 2) - Real.sin (norm3 v / 2) * Real.cos (norm3 v / 2) / norm3 v ^ 3)) • Matrix.vecMulVec v v := by
  have hn : 0 < norm3 v := by linarith
  have he : ∃ σ : ℝ, ((σ = 1 ∧ ¬ Real.cos (norm3 v / 2) < 0) ∨ (σ = -1 ∧ Real.cos (norm3 v / 2) < 0)) ∧ expMap v = σ • quat (Real.cos (norm3 v / 2)) ((Real.sin (norm3 v / 2) / norm3 v) • v) := by
    rw [expMap_large h, show 1 / 2 * norm3 v = norm3 v / 2 by ring, smul_smul, ← div_eq_mul_inv]
    by_cases hc : Real.cos (norm3 v / 2) < 0
    · exact ⟨-1, .inr ⟨rfl, hc⟩, by rw [neg_one_smul']; exact if_pos hc⟩
    · exact ⟨1, .inl ⟨rfl, hc⟩, by rw [one_smul']; exact if_neg hc⟩
  obtain ⟨σ, hσ, e⟩ := he
  refine ⟨σ, hσ, e, ?_⟩
  ext i j
  rw [jacOmega_apply, jacQuat_large h, e, quat_smul, smul_smul, jac_form, show 1 / 2 * norm3 v = norm3 v / 2 by ring]
  have hcs := Real.sin_sq_add_cos_sq (norm3 v / 2)
  set s := Real.sin (norm3 v / 2)
  set c := Real.cos (norm3 v / 2)
  have h1 : 2 * (1 / 2 * s / norm3 v) * (σ * c) = σ * (s * c / norm3 v) := by field_simp
  have h2 : 2 * (1 / 2 * s / norm3 v) * (σ * (s / norm3 v)) = σ * (s / norm3 v) ^ 2 := by field_simp
  have h3 : σ * (s / norm3 v) * (1 / 2 * s / norm3 v) + σ * c * ((c * norm3 v - 2 * s) / (2 * norm3 v ^ 3)) = σ * (1 / (2 * norm3 v ^ 2) - s * c / norm3 v ^ 3) := by
    have hs : s ^ 2 = 1 - c ^ 2 := by linarith
    field_simp
    rw [hs]
    ring
  rw [h1, h2, h3]

theorem jac_large {v : V3} (h : ¬ norm3 v < 1 / 100) : ∃ σ : ℝ, (σ = 1 ∨ σ = -1) ∧
    expMap v = σ • quat (Real.cos (norm3 v / 2)) ((Real.sin (norm3 v / 2) / norm3 v) • v) ∧
    jacOmega v = (σ * (Real.sin (norm3 v / 2) * Real.cos (norm3 v / 2) / norm3 v)) • (1 : M3) + (σ * (Real.sin (norm3 v / 2) / norm3 v) ^ 2) • skew v +
      (σ * (1 / (2 * norm3 v ^ 2) - Real.sin (norm3 v / 2) * Real.cos (norm3 v / 2) / norm3 v ^ 3)) • Matrix.vecMulVec v v := by
  obtain ⟨σ, hσ, h⟩ := jac_large' h
  exact ⟨σ, hσ.imp And.left And.left, h⟩

theorem jac_small {v : V3} (h : norm3 v < 1 / 100) : ∃ ν : ℝ, 0 < ν ∧ expMap v = quat ν ((ν * (1 / 2)) • v) ∧ jacOmega v = (ν / 2) • (1 : M3) + (ν / 4) • skew v + (ν / 8) • Matrix.vecMulVec v v := by
  have he : ∃ ν : ℝ, 0 < ν ∧ expMap v = quat (ν * 1) (ν • ((1 / 2 : ℝ) • v)) := by
    rw [expMap_small h]
    unfold normalize
    have : 0 < sq (quat 1 ((1 / 2 : ℝ) • v)) := by rw [sq_quat]; positivity
    rw [if_pos this, quat_smul]
    exact ⟨_, by positivity, rfl⟩
  obtain ⟨ν, hν, e⟩ := he
  refine ⟨ν, hν, by rw [e, mul_one, smul_smul], ?_⟩
  ext i j
  have hG : jacQuat v = fun i j => if h : i = 0 then -(1 / 4) * v j else if i.pred h = j then 1 / 2 else 0 := by
    exact if_pos h
  rw [jacOmega_apply, hG]
  have key := jac_form (ν * 1) (ν * (1 / 2)) (1 / 4) 0 v i j
  rw [e, smul_smul]
  have hr : (ν / 2) • (1 : M3) + (ν / 4) • skew v + (ν / 8) • Matrix.vecMulVec v v =
      (2 * (1 / 4) * (ν * 1)) • (1 : M3) + (2 * (1 / 4) * (ν * (1 / 2))) • skew v + (ν * (1 / 2) * (1 / 4) + ν * 1 * 0) • Matrix.vecMulVec v v := by
    congr 3 <;> [skip; congr 1; skip] <;> ring
  rw [hr, ← key]
  refine Finset.sum_congr rfl fun k _ => ?_
  congr 1
  by_cases hk : k = 0
  · simp only [dif_pos hk]
  · simp only [dif_neg hk, zero_mul, add_zero]
    congr 1
    norm_num

/-- The Jacobian is invertible for every rotation vector shorter than a full turn. -/
theorem jac_det {v : V3} (h : norm3 v < 2 * Real.pi) : IsUnit (jacOmega v).det := by
  rw [isUnit_iff_ne_zero]
  by_cases hs : norm3 v < 1 / 100
  · obtain ⟨ν, hν, -, e⟩ := jac_small hs
    rw [e, det_form]
    have := norm3_nonneg v
    positivity
  · obtain ⟨σ, hσ, -, e⟩ := jac_large hs
    have hn : 0 < norm3 v := by linarith
    have hsp : 0 < Real.sin (norm3 v / 2) := Real.sin_pos_of_pos_of_lt_pi (by linarith) (by linarith)
    rw [e, det_form]
    have hcs := Real.sin_sq_add_cos_sq (norm3 v / 2)
    set s := Real.sin (norm3 v / 2)
    set c := Real.cos (norm3 v / 2)
    have h1 : σ * (s * c / norm3 v) + σ * (1 / (2 * norm3 v ^ 2) - s * c / norm3 v ^ 3) * norm3 v ^ 2 = σ / 2 := by field_simp; ring
    have hσ2 : σ ^ 2 = 1 := by rcases hσ with rfl | rfl <;> norm_num
    have h2 : (σ * (s * c / norm3 v)) ^ 2 + (σ * (s / norm3 v) ^ 2) ^ 2 * norm3 v ^ 2 = s ^ 2 / norm3 v ^ 2 := by
      have : s ^ 2 * (s ^ 2 + c ^ 2) = s ^ 2 := by rw [hcs, mul_one]
      field_simp
      rw [hσ2]
      linear_combination hcs
    rw [h1, h2]
    have : σ ≠ 0 := by rcases hσ with rfl | rfl <;> norm_num
    positivity

/-- C52: for every rotation vector shorter than a full turn, the conversions between rotation-vector rates and angular velocities are mutually inverse, in world and in body coordinates. -/
theorem C52_conversions_inverse (v : V3) (h : norm3 v < 2 * Real.pi) (body : Bool) (x : V3) :
    fromOmega v (toOmega v x body) body = x ∧ toOmega v (fromOmega v x body) body = x := by
  have hd := jac_det h
  have hdt : IsUnit ((jacOmega v)ᵀ).det := by rw [Matrix.det_transpose]; exact hd
  unfold fromOmega toOmega
  cases body <;> simp only [if_true, Bool.false_eq_true, if_false, Matrix.smul_mulVec, Matrix.mulVec_smul, Matrix.mulVec_mulVec, Matrix.transpose_nonsing_inv, Matrix.smul_mul, smul_smul]
  · rw [Matrix.nonsing_inv_mul _ hd, Matrix.mul_nonsing_inv _ hd, Matrix.one_mulVec]; norm_num
  · rw [Matrix.nonsing_inv_mul _ hdt, Matrix.mul_nonsing_inv _ hdt, Matrix.one_mulVec]; norm_num

end Orient
end Verif
