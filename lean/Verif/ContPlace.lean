import Verif.Cont
import Mathlib.LinearAlgebra.Matrix.Adjugate

/-! C177, C178: the placement of a contact. -/
namespace Verif
namespace Cont
open Matrix

/-- A rotation: orthogonal with determinant one. -/
def IsRot (m : M3) : Prop := m * mᵀ = 1 ∧ m.det = 1

/-- Norm one. -/
def Quat.IsUnit (q : Quat) : Prop := q.w ^ 2 + q.x ^ 2 + q.y ^ 2 + q.z ^ 2 = 1

/-- The opposite quaternion, which stands for the same rotation. -/
def Quat.neg (q : Quat) : Quat := ⟨-q.w, -q.x, -q.y, -q.z⟩

lemma branch_eq (a b c d t e f g : ℝ) (ha : a ≠ 0) (ht : t = 4 * a ^ 2) (he : e = 4 * a * b) (hf : f = 4 * a * c) (hg : g = 4 * a * d) :
    branch t e f g = (a, b, c, d) ∨ branch t e f g = (-a, -b, -c, -d) := by
  subst ht he hf hg
  have hs : √(4 * a ^ 2) = 2 * |a| := by
    rw [show 4 * a ^ 2 = (2 * |a|) ^ 2 by rw [mul_pow, sq_abs]; norm_num, Real.sqrt_sq (by positivity)]
  rcases lt_or_gt_of_ne ha with h | h
  · right
    rw [branch, hs, abs_of_neg h]
    refine Prod.ext ?_ (Prod.ext ?_ (Prod.ext ?_ ?_)) <;> simp only <;> field_simp <;> ring
  · left
    rw [branch, hs, abs_of_pos h]
    refine Prod.ext ?_ (Prod.ext ?_ (Prod.ext ?_ ?_)) <;> simp only <;> field_simp <;> ring

lemma from_to (q : Quat) (h : q.IsUnit) : fromMat (toMat q) = q ∨ fromMat (toMat q) = q.neg := by
  obtain ⟨w, x, y, z⟩ := q
  simp only [Quat.IsUnit] at h
  unfold fromMat
  by_cases h0 : 0 < toMat ⟨w, x, y, z⟩ 0 0 + toMat ⟨w, x, y, z⟩ 1 1 + toMat ⟨w, x, y, z⟩ 2 2
  · rw [if_pos h0]
    have hw : w ≠ 0 := by
      rintro rfl
      simp [toMat] at h0; nlinarith
    rcases branch_eq w x y z (toMat ⟨w, x, y, z⟩ 0 0 + toMat ⟨w, x, y, z⟩ 1 1 + toMat ⟨w, x, y, z⟩ 2 2 + 1) (toMat ⟨w, x, y, z⟩ 2 1 - toMat ⟨w, x, y, z⟩ 1 2)
      (toMat ⟨w, x, y, z⟩ 0 2 - toMat ⟨w, x, y, z⟩ 2 0) (toMat ⟨w, x, y, z⟩ 1 0 - toMat ⟨w, x, y, z⟩ 0 1) hw
      (by simp [toMat]; linear_combination (-4) * h) (by simp [toMat]; ring) (by simp [toMat]; ring) (by simp [toMat]; ring) with hb | hb
    · left; simp only [hb]
    · right; simp only [hb]; rfl
  · rw [if_neg h0]
    have e00 : toMat ⟨w, x, y, z⟩ 0 0 = 1 - 2 * (y * y + z * z) := rfl
    have e11 : toMat ⟨w, x, y, z⟩ 1 1 = 1 - 2 * (x * x + z * z) := rfl
    have e22 : toMat ⟨w, x, y, z⟩ 2 2 = 1 - 2 * (x * x + y * y) := rfl
    have e01 : toMat ⟨w, x, y, z⟩ 0 1 = 2 * (x * y - w * z) := rfl
    have e02 : toMat ⟨w, x, y, z⟩ 0 2 = 2 * (x * z + w * y) := rfl
    have e10 : toMat ⟨w, x, y, z⟩ 1 0 = 2 * (x * y + w * z) := rfl
    have e12 : toMat ⟨w, x, y, z⟩ 1 2 = 2 * (y * z - w * x) := rfl
    have e20 : toMat ⟨w, x, y, z⟩ 2 0 = 2 * (x * z - w * y) := rfl
    have e21 : toMat ⟨w, x, y, z⟩ 2 1 = 2 * (y * z + w * x) := rfl
    generalize toMat ⟨w, x, y, z⟩ = m at *
    have C0 : x ≠ 0 → (let r := branch (m 0 0 - m 1 1 - m 2 2 + 1) (m 2 1 - m 1 2) (m 1 0 + m 0 1) (m 2 0 + m 0 2); (⟨r.2.1, r.1, r.2.2.1, r.2.2.2⟩ : Quat)) = ⟨w, x, y, z⟩ ∨ (let r := branch (m 0 0 - m 1 1 - m 2 2 + 1) (m 2 1 - m 1 2) (m 1 0 + m 0 1) (m 2 0 + m 0 2); (⟨r.2.1, r.1, r.2.2.1, r.2.2.2⟩ : Quat)) = Quat.neg ⟨w, x, y, z⟩ := by
      intro hx
      rcases branch_eq x w y z (m 0 0 - m 1 1 - m 2 2 + 1) (m 2 1 - m 1 2) (m 1 0 + m 0 1) (m 2 0 + m 0 2) hx (by rw [e00, e11, e22]; ring) (by rw [e21, e12]; ring) (by rw [e10, e01]; ring) (by rw [e20, e02]; ring) with hb | hb
      · left; simp only [hb]
      · right; simp only [hb]; rfl
    have C1 : y ≠ 0 → (let r := branch (m 1 1 - m 2 2 - m 0 0 + 1) (m 0 2 - m 2 0) (m 2 1 + m 1 2) (m 0 1 + m 1 0); (⟨r.2.1, r.2.2.2, r.1, r.2.2.1⟩ : Quat)) = ⟨w, x, y, z⟩ ∨ (let r := branch (m 1 1 - m 2 2 - m 0 0 + 1) (m 0 2 - m 2 0) (m 2 1 + m 1 2) (m 0 1 + m 1 0); (⟨r.2.1, r.2.2.2, r.1, r.2.2.1⟩ : Quat)) = Quat.neg ⟨w, x, y, z⟩ := by
      intro hx
      rcases branch_eq y w z x (m 1 1 - m 2 2 - m 0 0 + 1) (m 0 2 - m 2 0) (m 2 1 + m 1 2) (m 0 1 + m 1 0) hx (by rw [e00, e11, e22]; ring) (by rw [e20, e02]; ring) (by rw [e21, e12]; ring) (by rw [e10, e01]; ring) with hb | hb
      · left; simp only [hb]
      · right; simp only [hb]; rfl
    have C2 : z ≠ 0 → (let r := branch (m 2 2 - m 0 0 - m 1 1 + 1) (m 1 0 - m 0 1) (m 0 2 + m 2 0) (m 1 2 + m 2 1); (⟨r.2.1, r.2.2.1, r.2.2.2, r.1⟩ : Quat)) = ⟨w, x, y, z⟩ ∨ (let r := branch (m 2 2 - m 0 0 - m 1 1 + 1) (m 1 0 - m 0 1) (m 0 2 + m 2 0) (m 1 2 + m 2 1); (⟨r.2.1, r.2.2.1, r.2.2.2, r.1⟩ : Quat)) = Quat.neg ⟨w, x, y, z⟩ := by
      intro hx
      rcases branch_eq z w x y (m 2 2 - m 0 0 - m 1 1 + 1) (m 1 0 - m 0 1) (m 0 2 + m 2 0) (m 1 2 + m 2 1) hx (by rw [e00, e11, e22]; ring) (by rw [e10, e01]; ring) (by rw [e20, e02]; ring) (by rw [e21, e12]; ring) with hb | hb
      · left; simp only [hb]
      · right; simp only [hb]; rfl
    by_cases h1 : m 0 0 < m 1 1
    · by_cases h2 : m 1 1 < m 2 2
      · simp only [if_pos h1, if_pos h2]
        exact C2 (by rintro rfl; simp only [e00, e11, e22] at h0 h1 h2; nlinarith [sq_nonneg w, sq_nonneg x, sq_nonneg y])
      · simp only [if_pos h1, if_neg h2]
        exact C1 (by rintro rfl; simp only [e00, e11, e22] at h0 h1 h2; nlinarith [sq_nonneg w, sq_nonneg x, sq_nonneg z])
    · by_cases h2 : m 0 0 < m 2 2
      · simp only [if_neg h1, if_pos h2]
        exact C2 (by rintro rfl; simp only [e00, e11, e22] at h0 h1 h2; nlinarith [sq_nonneg w, sq_nonneg x, sq_nonneg y])
      · simp only [if_neg h1, if_neg h2]
        exact C0 (by rintro rfl; simp only [e00, e11, e22] at h0 h1 h2; nlinarith [sq_nonneg w, sq_nonneg y, sq_nonneg z])

/-- The entries of a rotation: cofactors and orthogonality. -/
lemma rot_entries (m : M3) (h : IsRot m) : mᵀ * m = 1 ∧ m.adjugate = mᵀ := by
  obtain ⟨h1, h2⟩ := h
  have h3 := mul_eq_one_comm.1 h1
  refine ⟨h3, ?_⟩
  have h4 := Matrix.mul_adjugate m
  rw [h2, one_smul] at h4
  calc m.adjugate = (mᵀ * m) * m.adjugate := by rw [h3, one_mul]
    _ = mᵀ := by rw [Matrix.mul_assoc, h4, mul_one]

lemma exists_quat_pos (m : M3) (h : IsRot m) (ht : 0 < 1 + (m 0 0 + m 1 1 + m 2 2)) : ∃ q : Quat, q.IsUnit ∧ toMat q = m := by
  obtain ⟨h3, h4⟩ := rot_entries m h
  have h1 := h.1
  rw [Matrix.adjugate_fin_three] at h4
  have R (i j) := congrFun (congrFun h1 i) j
  have C (i j) := congrFun (congrFun h3 i) j
  have A (i j) := congrFun (congrFun h4 i) j
  have r00 := R 0 0; have r11 := R 1 1; have r22 := R 2 2; have r01 := R 0 1; have r02 := R 0 2; have r12 := R 1 2
  have c00 := C 0 0; have c11 := C 1 1; have c22 := C 2 2; have c01 := C 0 1; have c02 := C 0 2; have c12 := C 1 2
  have a00 := A 0 0; have a01 := A 0 1; have a02 := A 0 2; have a10 := A 1 0; have a11 := A 1 1; have a12 := A 1 2; have a20 := A 2 0; have a21 := A 2 1; have a22 := A 2 2
  simp [Matrix.mul_apply, Fin.sum_univ_three] at r00 r11 r22 r01 r02 r12 c00 c11 c22 c01 c02 c12 a00 a01 a02 a10 a11 a12 a20 a21 a22
  clear R C A h1 h3 h4
  have hm : m = !![m 0 0, m 0 1, m 0 2; m 1 0, m 1 1, m 1 2; m 2 0, m 2 1, m 2 2] := Matrix.eta_fin_three m
  generalize m 0 0 = m00 at *
  generalize m 0 1 = m01 at *
  generalize m 0 2 = m02 at *
  generalize m 1 0 = m10 at *
  generalize m 1 1 = m11 at *
  generalize m 1 2 = m12 at *
  generalize m 2 0 = m20 at *
  generalize m 2 1 = m21 at *
  generalize m 2 2 = m22 at *
  obtain ⟨r, hr, hr2⟩ : ∃ r : ℝ, 0 < r ∧ 4 * r ^ 2 = 1 + (m00 + m11 + m22) := ⟨√(1 + (m00 + m11 + m22)) / 2, by positivity, by rw [div_pow, Real.sq_sqrt ht.le]; ring⟩
  obtain ⟨x, hx⟩ : ∃ x : ℝ, 4 * r * x = m21 - m12 := ⟨(m21 - m12) / (4 * r), by field_simp⟩
  obtain ⟨y, hy⟩ : ∃ x : ℝ, 4 * r * x = m02 - m20 := ⟨(m02 - m20) / (4 * r), by field_simp⟩
  obtain ⟨z, hz⟩ : ∃ x : ℝ, 4 * r * x = m10 - m01 := ⟨(m10 - m01) / (4 * r), by field_simp⟩
  have K : ∀ a b : ℝ, 16 * r ^ 2 * a = 16 * r ^ 2 * b → a = b := fun a b hab => mul_left_cancel₀ (by positivity) hab
  refine ⟨⟨r, x, y, z⟩, ?_, ?_⟩
  · show r ^ 2 + x ^ 2 + y ^ 2 + z ^ 2 = 1
    apply K
    have hS : (m21 - m12) ^ 2 + (m02 - m20) ^ 2 + (m10 - m01) ^ 2 = (1 + (m00 + m11 + m22)) * (3 - (m00 + m11 + m22)) := by grind
    rw [← hx, ← hy, ← hz, ← hr2] at hS
    have h3 : m00 + m11 + m22 = 4 * r ^ 2 - 1 := by linarith
    rw [h3] at hS
    linear_combination hS
  · rw [hm]
    ext i j
    apply K
    fin_cases i <;> fin_cases j <;> simp [toMat] <;> grind

/-- Turning a rotation by a half turn about an axis, with what it does to the quaternion. -/
lemma half_turn (m d : M3) (f : Quat → Quat) (hm : IsRot m) (hd : IsRot d) (hdd : d * d = 1) (hf : ∀ q : Quat, q.IsUnit → (f q).IsUnit ∧ toMat (f q) = toMat q * d)
    (ht : 0 < 1 + ((m * d) 0 0 + (m * d) 1 1 + (m * d) 2 2)) : ∃ q : Quat, q.IsUnit ∧ toMat q = m := by
  obtain ⟨q, h1, h2⟩ := exists_quat_pos (m * d) ⟨by rw [Matrix.transpose_mul, Matrix.mul_assoc, ← Matrix.mul_assoc d, hd.1, Matrix.one_mul, hm.1], by rw [Matrix.det_mul, hm.2, hd.2, one_mul]⟩ ht
  exact ⟨f q, (hf q h1).1, by rw [(hf q h1).2, h2, Matrix.mul_assoc, hdd, Matrix.mul_one]⟩

lemma exists_quat (m : M3) (h : IsRot m) : ∃ q : Quat, q.IsUnit ∧ toMat q = m := by
  by_cases h0 : 0 < 1 + (m 0 0 + m 1 1 + m 2 2)
  · exact exists_quat_pos m h h0
  by_cases h1 : 0 < 1 + (m 0 0 - m 1 1 - m 2 2)
  · refine half_turn m !![1, 0, 0; 0, -1, 0; 0, 0, -1] (fun q => ⟨-q.x, q.w, q.z, -q.y⟩) h ⟨?_, ?_⟩ ?_ (fun q hq => ⟨?_, ?_⟩) ?_
    · ext i j; fin_cases i <;> fin_cases j <;> simp [Matrix.mul_apply, Fin.sum_univ_three]
    · simp [Matrix.det_fin_three]
    · ext i j; fin_cases i <;> fin_cases j <;> simp [Matrix.mul_apply, Fin.sum_univ_three]
    · unfold Quat.IsUnit at *; simp only; linear_combination hq
    · unfold Quat.IsUnit at hq
      ext i j; fin_cases i <;> fin_cases j <;> simp [toMat, Matrix.mul_apply, Fin.sum_univ_three] <;> first | ring1 | linear_combination 2 * hq | linear_combination (-2) * hq
    · simp [Matrix.mul_apply, Fin.sum_univ_three]; linarith
  by_cases h2 : 0 < 1 + (m 1 1 - m 2 2 - m 0 0)
  · refine half_turn m !![-1, 0, 0; 0, 1, 0; 0, 0, -1] (fun q => ⟨-q.y, -q.z, q.w, q.x⟩) h ⟨?_, ?_⟩ ?_ (fun q hq => ⟨?_, ?_⟩) ?_
    · ext i j; fin_cases i <;> fin_cases j <;> simp [Matrix.mul_apply, Fin.sum_univ_three]
    · simp [Matrix.det_fin_three]
    · ext i j; fin_cases i <;> fin_cases j <;> simp [Matrix.mul_apply, Fin.sum_univ_three]
    · unfold Quat.IsUnit at *; simp only; linear_combination hq
    · unfold Quat.IsUnit at hq
      ext i j; fin_cases i <;> fin_cases j <;> simp [toMat, Matrix.mul_apply, Fin.sum_univ_three] <;> first | ring1 | linear_combination 2 * hq | linear_combination (-2) * hq
    · simp [Matrix.mul_apply, Fin.sum_univ_three]; linarith
  · refine half_turn m !![-1, 0, 0; 0, -1, 0; 0, 0, 1] (fun q => ⟨-q.z, q.y, -q.x, q.w⟩) h ⟨?_, ?_⟩ ?_ (fun q hq => ⟨?_, ?_⟩) ?_
    · ext i j; fin_cases i <;> fin_cases j <;> simp [Matrix.mul_apply, Fin.sum_univ_three]
    · simp [Matrix.det_fin_three]
    · ext i j; fin_cases i <;> fin_cases j <;> simp [Matrix.mul_apply, Fin.sum_univ_three]
    · unfold Quat.IsUnit at *; simp only; linear_combination hq
    · unfold Quat.IsUnit at hq
      ext i j; fin_cases i <;> fin_cases j <;> simp [toMat, Matrix.mul_apply, Fin.sum_univ_three] <;> first | ring1 | linear_combination 2 * hq | linear_combination (-2) * hq
    · simp [Matrix.mul_apply, Fin.sum_univ_three]; linarith

lemma toMat_neg (q : Quat) : toMat q.neg = toMat q := by
  ext i j; fin_cases i <;> fin_cases j <;> simp [toMat, Quat.neg]

/-- C177: setting the placement of a contact to any rigid transform and reading it back gives that transform, and nothing else of the contact changes; and the orientation read after setting the
placement to that of a contact with a unit orientation is that orientation up to sign. -/
theorem C177_placement (c : Contact) (m : M3 × (Fin 3 → ℝ)) (h : IsRot m.1) : (c.setPlacement m).placement = m ∧
    (c.setPlacement m).ori.IsUnit ∧ { c.setPlacement m with pos := c.pos, ori := c.ori } = c := by
  obtain ⟨q, h1, h2⟩ := exists_quat m.1 h
  have h3 := from_to q h1
  rw [h2] at h3
  refine ⟨Prod.ext ?_ rfl, ?_, rfl⟩
  · show toMat (fromMat m.1) = m.1
    rcases h3 with h3 | h3
    · rw [h3, h2]
    · rw [h3, toMat_neg, h2]
  · show (fromMat m.1).IsUnit
    rcases h3 with h3 | h3
    · rw [h3]; exact h1
    · rw [h3]; unfold Quat.IsUnit Quat.neg at *; simp only; linear_combination h1

/-- C177, the other way round. -/
theorem C177_orientation (c d : Contact) (h : c.ori.IsUnit) : (d.setPlacement c.placement).pos = c.pos ∧
    ((d.setPlacement c.placement).ori = c.ori ∨ (d.setPlacement c.placement).ori = c.ori.neg) ∧ (d.setPlacement c.placement).placement = c.placement := by
  have h1 := from_to c.ori h
  refine ⟨rfl, h1, Prod.ext ?_ rfl⟩
  show toMat (fromMat (toMat c.ori)) = toMat c.ori
  rcases h1 with h1 | h1
  · rw [h1]
  · rw [h1, toMat_neg]

/-! ### C178: contacts read from a file -/

lemma toMat_rot (q : Quat) (h : q.IsUnit) : IsRot (toMat q) := by
  unfold Quat.IsUnit at h
  have hw : q.w ^ 2 = 1 - q.x ^ 2 - q.y ^ 2 - q.z ^ 2 := by linarith
  refine ⟨?_, ?_⟩
  · ext i j
    fin_cases i <;> fin_cases j <;> simp [toMat, Matrix.mul_apply, Fin.sum_univ_three] <;> ring_nf <;> simp only [hw] <;> ring
  · simp only [toMat, Matrix.det_fin_three]
    simp
    ring_nf
    grind

/-- C178 (what holds): the placement of a contact read from a file is a rotation exactly when the four numbers of the orientation have norm one or the last three are zero. -/
theorem C178_rotation_partial (p : Fin 11 → ℝ) (id : Int) : IsRot (Contact.ofParams p id).placement.1 ↔ p 5 ^ 2 + p 6 ^ 2 + p 7 ^ 2 + p 8 ^ 2 = 1 ∨ (p 6 = 0 ∧ p 7 = 0 ∧ p 8 = 0) := by
  show IsRot (toMat ⟨p 5, p 6, p 7, p 8⟩) ↔ _
  generalize p 5 = w; generalize p 6 = x; generalize p 7 = y; generalize p 8 = z
  constructor
  · rintro ⟨h, -⟩
    have h00 := congrFun (congrFun h 0) 0
    have h11 := congrFun (congrFun h 1) 1
    have h22 := congrFun (congrFun h 2) 2
    simp [toMat, Matrix.mul_apply, Fin.sum_univ_three] at h00 h11 h22
    have : (x ^ 2 + y ^ 2 + z ^ 2) * (w ^ 2 + x ^ 2 + y ^ 2 + z ^ 2 - 1) = 0 := by linear_combination (1 / 8) * h00 + (1 / 8) * h11 + (1 / 8) * h22
    rcases mul_eq_zero.1 this with h1 | h1
    · right; refine ⟨?_, ?_, ?_⟩ <;> nlinarith [sq_nonneg x, sq_nonneg y, sq_nonneg z]
    · left; linarith
  · rintro (h | ⟨rfl, rfl, rfl⟩)
    · exact toMat_rot _ h
    · have : toMat ⟨w, 0, 0, 0⟩ = 1 := by ext i j; fin_cases i <;> fin_cases j <;> simp [toMat]
      rw [this]; exact ⟨by simp, by simp⟩

/-- C178 is violated: with the orientation `(1, 1, 0, 0)` in the file, which is a quarter turn for a reader that normalises, the placement stretches. -/
theorem C178_violated : ∃ p : Fin 11 → ℝ, p 5 = 1 ∧ p 6 = 1 ∧ p 7 = 0 ∧ p 8 = 0 ∧ ¬ IsRot (Contact.ofParams p 0).placement.1 := by
  refine ⟨fun i => if i = 5 ∨ i = 6 then 1 else 0, by simp, by simp, by simp, by simp, ?_⟩
  rw [C178_rotation_partial]
  simp

/-- The conditions of C177 are met by a third of a turn about the diagonal. -/
example : IsRot !![0, 0, 1; 1, 0, 0; 0, 1, 0] := by
  refine ⟨?_, by simp [Matrix.det_fin_three]⟩
  ext i j; fin_cases i <;> fin_cases j <;> simp [Matrix.mul_apply, Fin.sum_univ_three]

/-- And by a half turn, where the trace is negative. -/
example : IsRot !![-1, 0, 0; 0, 1, 0; 0, 0, -1] ∧ Quat.IsUnit ⟨0, 0, 1, 0⟩ := by
  refine ⟨⟨?_, by simp [Matrix.det_fin_three]⟩, by simp [Quat.IsUnit]⟩
  ext i j; fin_cases i <;> fin_cases j <;> simp [Matrix.mul_apply, Fin.sum_univ_three]

end Cont
end Verif
