import Verif.OrientRateProps
import Mathlib.Analysis.SpecialFunctions.Trigonometric.Bounds

/-! C260: how far the small-angle branches of the rotation maps are from the exact maps (OrientationUtils.cpp:24-58,111-152), for all rotations, with no angle left out. -/
namespace Verif
namespace Orient

/-! ### specification: distance of two quaternions, and the exact exponential map -/

/-- Straight-line distance of two quaternions, as points in four dimensions. (For unit quaternions it is about half the angle, in radians, between the two rotations.) -/
noncomputable def apart (p q : Qt) : ℝ := √((p.w - q.w) ^ 2 + (p.x - q.x) ^ 2 + (p.y - q.y) ^ 2 + (p.z - q.z) ^ 2)

/-- The rotation by the angle `‖v‖` about the axis `v / ‖v‖`, as a unit quaternion (textbook formula; the identity for `v = 0`). -/
noncomputable def turn (v : V3) : Qt := quat (Real.cos (norm3 v / 2)) ((Real.sin (norm3 v / 2) / norm3 v) • v)

/-! ### distances -/

theorem apart_self (p : Qt) : apart p p = 0 := by unfold apart; simp

theorem apart_neg (p q : Qt) : apart (-p) (-q) = apart p q := by
  unfold apart; congr 1; simp only [Qt.w_neg, Qt.x_neg, Qt.y_neg, Qt.z_neg]; ring

/-- Multiplying both by a unit quaternion keeps the distance. -/
theorem apart_mul {c : Qt} (h : sq c = 1) (p q : Qt) : apart (p * c) (q * c) = apart p q := by
  have key : ((p * c).w - (q * c).w) ^ 2 + ((p * c).x - (q * c).x) ^ 2 + ((p * c).y - (q * c).y) ^ 2 + ((p * c).z - (q * c).z) ^ 2 =
      ((p.w - q.w) ^ 2 + (p.x - q.x) ^ 2 + (p.y - q.y) ^ 2 + (p.z - q.z) ^ 2) * sq c := by
    unfold sq; simp only [Qt.w_mul, Qt.x_mul, Qt.y_mul, Qt.z_mul]; ring
  unfold apart; rw [key, h, mul_one]

theorem apart_axis (a b x y : ℝ) (u : V3) : apart (quat a (x • u)) (quat b (y • u)) = √((a - b) ^ 2 + ((x - y) * norm3 u) ^ 2) := by
  unfold apart; rw [mul_pow, norm3_sq]; congr 1; simp only [quat, Pi.smul_apply, smul_eq_mul]; ring

theorem sqrt_le_of {x b : ℝ} (hb : 0 ≤ b) (h : x ≤ b ^ 2) : √x ≤ b := Real.sqrt_le_iff.mpr ⟨hb, h⟩

/-! ### the small-angle branch of the exponential map -/

/-- The reciprocal length of `(1, h)`. -/
theorem recip_bounds (h : ℝ) : 1 - h ^ 2 / 2 ≤ (√(1 + h ^ 2))⁻¹ ∧ (√(1 + h ^ 2))⁻¹ ≤ 1 ∧ (√(1 + h ^ 2))⁻¹ ≤ 1 - h ^ 2 / 2 + 3 / 8 * h ^ 4 := by
  set N := √(1 + h ^ 2) with hN
  have hNsq : N ^ 2 = 1 + h ^ 2 := Real.sq_sqrt (by positivity)
  have hN1 : 1 ≤ N := by rw [hN]; exact Real.one_le_sqrt.mpr (by nlinarith)
  have hNpos : 0 < N := by linarith
  refine ⟨?_, inv_le_one_of_one_le₀ hN1, ?_⟩
  · rw [inv_eq_one_div, le_div_iff₀ hNpos]
    have hN2 : N ≤ 1 + h ^ 2 / 2 := by nlinarith [sq_nonneg (h ^ 2)]
    rcases le_total 0 (1 - h ^ 2 / 2) with hp | hp
    · nlinarith [sq_nonneg (h ^ 2)]
    · nlinarith
  · rw [inv_eq_one_div, div_le_iff₀ hNpos]
    set P := 1 - h ^ 2 / 2 + 3 / 8 * h ^ 4 with hP
    have hPpos : 0 < P := by rw [hP]; nlinarith [sq_nonneg (h ^ 2 - 2 / 3)]
    have : 1 ≤ (P * N) ^ 2 := by
      rw [mul_pow, hNsq, hP]
      have h2 : 0 ≤ h ^ 2 := sq_nonneg h
      nlinarith [mul_nonneg h2 (mul_nonneg h2 h2), mul_nonneg (mul_nonneg h2 (mul_nonneg h2 h2)) (sq_nonneg (h ^ 2 - 5 / 6)), mul_nonneg (mul_nonneg h2 (mul_nonneg h2 h2)) h2, mul_nonneg (mul_nonneg h2 (mul_nonneg h2 h2)) (mul_nonneg h2 h2)]
    nlinarith [mul_pos hPpos hNpos]

theorem expMap_small_eq {v : V3} (h : norm3 v < 1 / 100) :
    expMap v = quat (√(1 + (norm3 v / 2) ^ 2))⁻¹ (((√(1 + (norm3 v / 2) ^ 2))⁻¹ / 2) • v) := by
  rw [expMap_small h]
  have hs : sq (quat 1 ((1 / 2 : ℝ) • v)) = 1 + (norm3 v / 2) ^ 2 := by
    rw [sq_quat, norm3_smul, abs_of_nonneg (by norm_num)]; ring
  unfold normalize
  rw [hs, if_pos (by positivity), quat_smul, smul_smul, mul_one]
  congr 2; ring

/-- C260: for every rotation vector, the quaternion computed by `exponentialMap` is the exact one, up to sign, to within `10⁻⁷` (and exactly the exact one for rotation vectors at
least 0.01 long). -/
theorem C260_exp (v : V3) : (apart (expMap v) (turn v) ≤ 1 / 10 ^ 7 ∨ apart (expMap v) (-turn v) ≤ 1 / 10 ^ 7) ∧
    (1 / 100 ≤ norm3 v → expMap v = turn v ∨ expMap v = -turn v) := by
  have hbig : 1 / 100 ≤ norm3 v → expMap v = turn v ∨ expMap v = -turn v := fun h => by
    rw [expMap_large (not_lt.mpr h), smul_smul, show Real.sin (1 / 2 * norm3 v) * (norm3 v)⁻¹ = Real.sin (norm3 v / 2) / norm3 v by
      rw [show 1 / 2 * norm3 v = norm3 v / 2 by ring]; rfl]
    exact flipW_or _
  refine ⟨?_, hbig⟩
  rcases le_or_gt (1 / 100) (norm3 v) with hc | hc
  · rcases hbig hc with e | e
    · left; rw [e, apart_self]; positivity
    · right; rw [e, apart_self]; positivity
  left
  rw [expMap_small_eq hc]
  unfold turn
  rw [apart_axis]
  have hn0 := norm3_nonneg v
  obtain ⟨hr1, -, hr2⟩ := recip_bounds (norm3 v / 2)
  set r := (√(1 + (norm3 v / 2) ^ 2))⁻¹
  have e : (r / 2 - Real.sin (norm3 v / 2) / norm3 v) * norm3 v = r * (norm3 v / 2) - Real.sin (norm3 v / 2) := by
    rcases hn0.eq_or_lt with h | h
    · rw [← h]; simp
    · field_simp
  rw [e]
  have hh : norm3 v / 2 < 1 / 200 := by linarith
  have hh0 : 0 ≤ norm3 v / 2 := by positivity
  generalize norm3 v / 2 = h at *
  have c1 := Real.one_sub_sq_div_two_le_cos (x := h)
  have c2 := abs_le.mp (Real.cos_bound (x := h) (by rw [abs_of_nonneg hh0]; linarith))
  rw [abs_of_nonneg hh0] at c2
  have s1 := Real.sin_ge_sub_cube hh0
  have s2 := Real.sin_le hh0
  have p2 : h ^ 2 ≤ 1 / 40000 := by nlinarith
  have p3 : h ^ 3 ≤ 1 / 8000000 := by nlinarith [sq_nonneg h]
  have p4 : h ^ 4 ≤ 1 / 1600000000 := by nlinarith [sq_nonneg h]
  have q3 : 0 ≤ h ^ 3 := by positivity
  have q4 : 0 ≤ h ^ 4 := by positivity
  have s3 := abs_le.mp (Real.sin_bound (x := h) (by rw [abs_of_nonneg hh0]; linarith))
  rw [abs_of_nonneg hh0] at s3
  have q5 : h ^ 5 ≤ h ^ 3 := by nlinarith [sq_nonneg h]
  have a1 : |r - Real.cos h| ≤ 1 / 10 ^ 9 := by rw [abs_le]; constructor <;> linarith [c2.1, c2.2]
  have m1 : (1 - h ^ 2 / 2) * h ≤ r * h := mul_le_mul_of_nonneg_right hr1 hh0
  have m2 : r * h ≤ (1 - h ^ 2 / 2 + 3 / 8 * h ^ 4) * h := mul_le_mul_of_nonneg_right hr2 hh0
  have a2 : |r * h - Real.sin h| ≤ 7 / 10 ^ 8 := by
    rw [abs_le]
    constructor
    · nlinarith [s3.2]
    · nlinarith
  refine sqrt_le_of (by positivity) ?_
  have b1 := sq_le_sq' (by linarith [(abs_le.mp a1).1]) (abs_le.mp a1).2
  have b2 := sq_le_sq' (by linarith [(abs_le.mp a2).1]) (abs_le.mp a2).2
  nlinarith

/-! ### exponential of the logarithm -/

/-- Beyond 0.99 the logarithm is twice the vector part. -/
theorem exp_log_near {n : Qt} (h1 : sq n = 1) (hw : 99 / 100 < n.w) : apart (expMap ((2 : ℝ) • vec n)) n ≤ 1 / 2000 := by
  have hs2 : norm3 (vec n) ^ 2 = 1 - n.w ^ 2 := by rw [← h1, sq_eq]; ring
  have hs0 := norm3_nonneg (vec n)
  have hw1 : n.w ≤ 1 := by nlinarith
  have hv2 : norm3 ((2 : ℝ) • vec n) = 2 * norm3 (vec n) := by rw [norm3_smul, abs_of_nonneg (by norm_num)]
  have hn : n = quat n.w ((1 : ℝ) • vec n) := by rw [one_smul, quat_eta]
  have hw2 : n.w ^ 2 = 1 - norm3 (vec n) ^ 2 := by linarith
  have hs : norm3 (vec n) ^ 2 < 199 / 10000 := by nlinarith
  rcases lt_or_ge (norm3 ((2 : ℝ) • vec n)) (1 / 100) with hc | hc
  · rw [expMap_small_eq hc]
    conv_lhs => rw [hn]
    rw [hv2] at hc
    rw [show quat n.w ((1 : ℝ) • vec n) = n from hn.symm, hv2, show 2 * norm3 (vec n) / 2 = norm3 (vec n) by ring, smul_smul]
    conv_lhs => rw [show apart _ n = apart _ (quat n.w ((1 : ℝ) • vec n)) by rw [← hn]]
    rw [apart_axis]
    obtain ⟨hr1, hr2, -⟩ := recip_bounds (norm3 (vec n))
    generalize norm3 (vec n) = s at *
    set r := (√(1 + s ^ 2))⁻¹
    have p2 : s ^ 2 ≤ 1 / 40000 := by nlinarith
    have hwl : 1 - s ^ 2 ≤ n.w := by nlinarith
    refine sqrt_le_of (by norm_num) ?_
    have b1 : (r - n.w) ^ 2 ≤ (1 / 40000) ^ 2 := sq_le_sq' (by linarith) (by linarith)
    have b2 : (r / 2 * 2 - 1) ^ 2 ≤ (1 / 40000) ^ 2 := sq_le_sq' (by linarith) (by linarith)
    rw [mul_pow]
    nlinarith [sq_nonneg (r / 2 * 2 - 1), sq_nonneg s]
  · have hpos : 0 < norm3 (vec n) := by rw [hv2] at hc; linarith
    rw [expMap_large (not_lt.mpr hc), hv2, show 2 * norm3 (vec n) / 2 = norm3 (vec n) by ring,
      show 1 / 2 * (2 * norm3 (vec n)) = norm3 (vec n) by ring, smul_smul, smul_smul]
    have hs1 : norm3 (vec n) < 1 / 7 := by nlinarith
    have hcp : 0 ≤ Real.cos (norm3 (vec n)) := (Real.cos_pos_of_le_one (by rw [abs_of_nonneg hs0]; linarith)).le
    rw [flipW_of_nonneg (by simpa [quat] using hcp)]
    rw [show apart _ n = apart _ (quat n.w ((1 : ℝ) • vec n)) by rw [← hn], apart_axis]
    generalize norm3 (vec n) = s at *
    rw [show (Real.sin s * (2 * s)⁻¹ * 2 - 1) * s = Real.sin s - s by field_simp]
    have c1 := Real.one_sub_sq_div_two_le_cos (x := s)
    have c2 := abs_le.mp (Real.cos_bound (x := s) (by rw [abs_of_nonneg hs0]; linarith))
    rw [abs_of_nonneg hs0] at c2
    have s1 := Real.sin_ge_sub_cube hs0
    have s2 := Real.sin_le hs0
    have hs' : s ≤ 14107 / 100000 := by nlinarith
    have p3 : s ^ 3 ≤ 14107 / 100000 * (199 / 10000) := by
      have := mul_le_mul hs' hs.le (sq_nonneg s) (by norm_num)
      calc s ^ 3 = s * s ^ 2 := by ring
        _ ≤ _ := this
    have p4 : s ^ 4 ≤ (199 / 10000) ^ 2 := by
      have := mul_le_mul hs.le hs.le (sq_nonneg s) (by norm_num)
      nlinarith
    have q4 : 0 ≤ s ^ 4 := by positivity
    have wl : 1 - s ^ 2 / 2 - s ^ 4 / 4 ≤ n.w := by
      by_contra hlt
      push Not at hlt
      have hP : 0 ≤ s ^ 2 := sq_nonneg s
      have : n.w ^ 2 < (1 - s ^ 2 / 2 - s ^ 4 / 4) ^ 2 := by
        apply sq_lt_sq' _ hlt; nlinarith
      nlinarith [mul_nonneg hP q4, mul_nonneg q4 (by linarith : (0 : ℝ) ≤ 199 / 10000 - s ^ 2), mul_nonneg q4 q4,
        mul_nonneg (mul_nonneg q4 hP) (by linarith : (0 : ℝ) ≤ 199 / 10000 - s ^ 2)]
    have wu : n.w ≤ 1 - s ^ 2 / 2 := by
      by_contra hlt
      push Not at hlt
      nlinarith
    have a1 : |Real.cos s - n.w| ≤ 13 / 100000 := by rw [abs_le]; constructor <;> linarith [c2.1, c2.2]
    have a2 : |Real.sin s - s| ≤ 47 / 100000 := by rw [abs_le]; constructor <;> linarith
    refine sqrt_le_of (by norm_num) ?_
    have b1 := sq_le_sq' (by linarith [(abs_le.mp a1).1]) (abs_le.mp a1).2
    have b2 := sq_le_sq' (by linarith [(abs_le.mp a2).1]) (abs_le.mp a2).2
    linarith

/-- C260: for every unit quaternion, taking the logarithm and then the exponential gives the same rotation to within `1/2000`. -/
theorem C260_exp_log (q : Qt) (hq : sq q = 1) : apart (expMap (logMap q)) q ≤ 1 / 2000 ∨ apart (expMap (logMap q)) (-q) ≤ 1 / 2000 := by
  rcases le_or_gt |q.w| (99 / 100) with hw | hw
  · rw [C51_exp_log q hq hw]
    split
    · right; rw [apart_self]; norm_num
    · left; rw [apart_self]; norm_num
  have hlog : logMap q = (2 : ℝ) • vec (flipW q) := by
    unfold logMap
    simp only
    rw [normalize_unit hq, if_pos]
    have h0 := flipW_re q
    have hle : (flipW q).w ≤ 1 := by have := flipW_sq q; rw [hq, sq_eq] at this; nlinarith [sq_nonneg (norm3 (vec (flipW q)))]
    have habs : (flipW q).w = |q.w| := by
      unfold flipW
      split
      · next h => rw [Qt.w_neg, abs_of_neg h]
      · next h => rw [abs_of_nonneg (not_lt.mp h)]
    rw [abs_of_nonneg (by linarith)]; linarith
  have hw' : 99 / 100 < (flipW q).w := by
    unfold flipW
    split
    · next h => rw [Qt.w_neg]; rwa [abs_of_neg h] at hw
    · next h => rwa [abs_of_nonneg (not_lt.mp h)] at hw
  have key := exp_log_near (by rw [flipW_sq, hq]) hw'
  rw [hlog]
  rcases flipW_or q with e | e
  · left; rw [e] at key ⊢; exact key
  · right; rw [e] at key ⊢; exact key

/-! ### logarithm of the exponential -/

/-- C260: for every rotation vector of at most half a turn, taking the exponential and then the logarithm gives the vector back to within `1/1000`. -/
theorem C260_log_exp (v : V3) (hpi : norm3 v ≤ Real.pi) : norm3 (logMap (expMap v) - v) ≤ 1 / 1000 := by
  have hz : norm3 (0 : V3) = 0 := by unfold norm3; simp
  rcases le_or_gt (Real.cos (norm3 v / 2)) (99 / 100) with hw | hw
  · rw [C51_log_exp v hpi hw, sub_self, hz]; norm_num
  have hn0 := norm3_nonneg v
  have hform : ∀ (w x : ℝ), 99 / 100 < w → sq (quat w (x • v)) = 1 → logMap (quat w (x • v)) = (2 * x) • v := fun w x hw' h => by
    unfold logMap
    simp only
    have hle : w ≤ 1 := by rw [sq_quat] at h; nlinarith [sq_nonneg (norm3 (x • v))]
    have hre : (quat w (x • v)).w = w := rfl
    rw [normalize_unit h, flipW_of_nonneg (by rw [hre]; linarith), hre, if_pos (by rw [abs_of_nonneg (by linarith)]; linarith)]
    funext i; fin_cases i <;> simp [vec, quat] <;> ring
  rcases lt_or_ge (norm3 v) (1 / 100) with hc | hc
  · have hu := (C51_exp_unit v).1
    rw [expMap_small_eq hc] at hu ⊢
    obtain ⟨hr1, hr2, -⟩ := recip_bounds (norm3 v / 2)
    have hsm : (norm3 v / 2) ^ 2 ≤ 1 / 40000 := by nlinarith
    rw [hform _ _ (by linarith) hu]
    generalize (√(1 + (norm3 v / 2) ^ 2))⁻¹ = r at *
    rw [show (2 * (r / 2)) • v - v = (r - 1) • v by rw [sub_smul, one_smul]; congr 2; ring, norm3_smul, abs_of_nonpos (by linarith)]
    nlinarith
  · have hs0 : 0 ≤ norm3 v / 2 := by positivity
    have hlt : norm3 v / 2 ≤ Real.pi / 2 := by linarith
    have hnot : ¬ norm3 v < 1 / 100 := not_lt.mpr hc
    have hu := inner_large hnot
    rw [expMap_large hnot, flipW_of_nonneg (by change 0 ≤ Real.cos (norm3 v / 2); linarith)]
    rw [smul_smul] at hu ⊢
    rw [hform _ _ hw hu, show 1 / 2 * norm3 v = norm3 v / 2 by ring]
    have hpos : 0 < norm3 v := by linarith
    rw [show (2 * (Real.sin (norm3 v / 2) * (norm3 v)⁻¹)) • v - v = (2 * (Real.sin (norm3 v / 2) * (norm3 v)⁻¹) - 1) • v by rw [sub_smul, one_smul], norm3_smul]
    rw [← abs_of_pos hpos, ← abs_mul, abs_of_pos hpos, show (2 * (Real.sin (norm3 v / 2) * (norm3 v)⁻¹) - 1) * norm3 v = 2 * (Real.sin (norm3 v / 2) - norm3 v / 2) by field_simp]
    -- the half angle is below 0.1423
    have hcos : ∀ h : ℝ, 0 ≤ h → h ≤ Real.pi / 2 → 99 / 100 < Real.cos h → h ≤ 1423 / 10000 := fun h h0 h1 h2 => by
      by_contra hcon
      push Not at hcon
      have hmono := Real.cos_le_cos_of_nonneg_of_le_pi (by norm_num : (0 : ℝ) ≤ 1423 / 10000) (by linarith [Real.pi_pos]) hcon.le
      have hb := (abs_le.mp (Real.cos_bound (x := 1423 / 10000) (by rw [abs_of_nonneg (by norm_num)]; norm_num))).2
      rw [abs_of_nonneg (by norm_num)] at hb
      norm_num at hb hmono
      linarith
    have hh := hcos _ hs0 hlt hw
    have s1 := Real.sin_ge_sub_cube hs0
    have s2 := Real.sin_le hs0
    generalize norm3 v / 2 = h at *
    have p3 : h ^ 3 ≤ (1423 / 10000) ^ 3 := pow_le_pow_left₀ hs0 hh 3
    rw [abs_le]
    constructor <;> linarith

/-! ### orientation error and angular velocities -/

theorem inverse_neg {c : Qt} (hc : sq c = 1) : inverse (-c) = -inverse c := by
  unfold inverse
  rw [sq_neg', hc, if_pos one_pos, inv_one, one_smul', one_smul']
  ext <;> simp

/-- Exponential of the logarithm of the difference, applied to the current orientation. -/
theorem delta_near (d c : Qt) (hd : sq d = 1) (hc : sq c = 1) : apart (expMap (logMap (delta d c).1) * c) d ≤ 1 / 2000 ∨ apart (expMap (logMap (delta d c).1) * c) (-d) ≤ 1 / 2000 := by
  have hsq : sq (d * inverse c) = 1 := by rw [sq_mul', hd, sq_inverse hc, one_mul]
  have hprod := mul_inverse_mul hc d
  have key : ∀ e : Qt, (apart e (d * inverse c) ≤ 1 / 2000 ∨ apart e (-(d * inverse c)) ≤ 1 / 2000) → apart (e * c) d ≤ 1 / 2000 ∨ apart (e * c) (-d) ≤ 1 / 2000 := fun e h => by
    rcases h with h | h
    · left; rw [← apart_mul hc, hprod] at h; exact h
    · right; rw [← apart_mul hc, neg_mul_q, hprod] at h; exact h
  apply key
  unfold delta
  simp only
  rw [normalize_unit hd, normalize_unit hc]
  split
  · rw [inverse_neg hc, mul_neg_q]
    have := C260_exp_log (-(d * inverse c)) (by rw [sq_neg', hsq])
    rw [neg_neg_q] at this
    exact this.symm
  · exact C260_exp_log _ hsq

/-- C260: for all unit orientations, rotating the current orientation by the orientation error gives the desired orientation, up to the sign of the quaternion, to within `1/2000`. -/
theorem C260_error_rotates (d c : Qt) (hd : sq d = 1) (hc : sq c = 1) :
    apart (expMap (orientationError d c) * c) d ≤ 1 / 2000 ∨ apart (expMap (orientationError d c) * c) (-d) ≤ 1 / 2000 := delta_near d c hd hc

/-- C260: for all unit orientations, every nonzero time step and in both coordinate systems, integrating the required angular velocity over the time step gives the desired
orientation, up to sign, to within `1/2000`, unless the current orientation is an exact half turn lying opposite to the desired one (see `C51_half_turn_violated`). -/
theorem C260_integrate_required (d c : Qt) (dt : ℝ) (body : Bool) (hd : sq d = 1) (hc : sq c = 1) (hdt : dt ≠ 0) (hhalf : c.w ≠ 0 ∨ 0 ≤ qdot c d) :
    apart (integrate c (required d c dt body) dt body) d ≤ 1 / 2000 ∨ apart (integrate c (required d c dt body) dt body) (-d) ≤ 1 / 2000 := by
  have hlog : logMap (delta d c).2 = logMap (flipW (normalize c)) := by
    unfold delta
    simp only
    rw [normalize_unit hd, normalize_unit hc, log_flip c hc]
    split
    · next h =>
      have hw0 : c.w ≠ 0 := hhalf.resolve_right (by linarith)
      rw [← log_flip (-c) (by rw [sq_neg', hc]), flip_neg hw0, log_flip c hc]
    · rfl
  have hlen : norm3 (logMap (flipW (normalize c))) < 2 * Real.pi := by
    refine lt_of_le_of_lt (norm3_logMap_le _ ?_) (by linarith [Real.pi_pos])
    rw [flipW_sq, normalize_unit hc, hc]; exact one_pos
  have he : integrate c (required d c dt body) dt body = expMap (logMap (delta d c).1) * c := by
    unfold integrate required
    simp only
    rw [hlog, (C52_conversions_inverse _ hlen body _).1, smul_smul, mul_inv_cancel₀ hdt, one_smul]
  rw [he]
  exact delta_near d c hd hc

/-- The hypotheses of C260 are met inside the small-angle branch, where C51 and C70 say nothing: a rotation with `sin(angle/2) = 3/25` (about 13.8 degrees) about `z`. Its scalar part
exceeds 0.99, the computed round trip is not exact, and C260 applies to it. -/
theorem C260_example : ∃ q : Qt, sq q = 1 ∧ 99 / 100 < q.w ∧ expMap (logMap q) ≠ q ∧ expMap (logMap q) ≠ -q ∧ norm3 ![0, 0, 1 / 5] ≤ Real.pi ∧
    99 / 100 < Real.cos (norm3 ![0, 0, 1 / 5] / 2) := by
  have hN : norm3 (vec (quat (√(1 - (3 / 25) ^ 2)) ![0, 0, 3 / 25])) = 3 / 25 := by
    have : vec (quat (√(1 - (3 / 25) ^ 2)) ![0, 0, 3 / 25]) = ![0, 0, 3 / 25] := by funext i; fin_cases i <;> rfl
    rw [this, (norm3_axis _).2, abs_of_pos (by norm_num)]
  have hq : sq (quat (√(1 - (3 / 25) ^ 2)) ![0, 0, 3 / 25]) = 1 := by
    rw [sq_eq, hN]
    change √(1 - (3 / 25) ^ 2) ^ 2 + _ = 1
    rw [Real.sq_sqrt (by norm_num)]; norm_num
  have hw : 99 / 100 < (quat (√(1 - (3 / 25) ^ 2)) ![0, 0, 3 / 25]).w := Real.lt_sqrt_of_sq_lt (by norm_num)
  have hv := C51_violated _ hq hw (by rw [hN]; norm_num)
  refine ⟨_, hq, hw, hv.1, hv.2, ?_, ?_⟩
  · rw [(norm3_axis _).2, abs_of_pos (by norm_num)]; linarith [Real.pi_gt_three]
  · rw [(norm3_axis _).2, abs_of_pos (by norm_num)]
    have := Real.one_sub_sq_div_two_le_cos (x := 1 / 5 / 2)
    norm_num at this ⊢
    linarith

end Orient
end Verif
