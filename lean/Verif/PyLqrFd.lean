import Verif.PyLqrEff

/-! C161, C162: the finite differences of the end-effector version. -/
namespace Verif
namespace PyLqr
open Matrix

/-! ### C161 -/

lemma step_ne {n : Nat} (x x1 : Fin n → ℝ) (i : Fin n) : step x x1 i ≠ 0 := by
  unfold step
  split_ifs with h
  · norm_num
  · exact h

lemma update_step {n : Nat} (x x1 : Fin n → ℝ) (i : Fin n) :
    Function.update x i (if x1 i - x i = 0 then x1 i + 1 / 10 ^ 6 else x1 i) = x + step x x1 i • Pi.single i (1 : ℝ) := by
  funext j
  by_cases hj : j = i
  · subst hj
    unfold step
    simp only [Function.update_self, Pi.add_apply, Pi.smul_apply, Pi.single_eq_same, smul_eq_mul, mul_one]
    split_ifs with h
    · linarith
    · ring
  · simp [Function.update_of_ne hj, Pi.single_eq_of_ne hj]

/-- A finite difference of a function that is affine in one entry. -/
lemma diffCol_affine {n : Nat} {f : (Fin n → ℝ) → St} {x : Fin n → ℝ} {i : Fin n} {r : Fin 13} {b : ℝ} (h : ∀ s : ℝ, f (x + s • Pi.single i 1) r = f x r + b * s) (x1 : Fin n → ℝ) :
    diffCol f x x1 i r = b := by
  unfold diffCol
  rw [update_step, Pi.smul_apply, Pi.sub_apply, h, smul_eq_mul]
  have := step_ne x x1 i
  field_simp
  ring

lemma effDyn_row (c : Fin 3 → ℝ) (p : Fin 4 → Fin 3 → ℝ) (x : St) (u : Fin 12 → ℝ) (r : Fin 13) (h : (r : Nat) < 10) : effDyn c p x u r = (blockA x 0 *ᵥ x) r + (effB 0 0 0 *ᵥ u) r := by
  unfold effDyn
  rw [Pi.add_apply]
  congr 1
  rw [mulVec, mulVec, dotProduct, dotProduct]
  refine Finset.sum_congr rfl fun j _ => ?_
  congr 1
  simp only [effB, of_apply]
  split_ifs <;> first | rfl | omega

lemma row_affine (x : St) (i r : Fin 13) (hr : (r : Nat) < 10) :
    ∃ b : ℝ, ∀ s : ℝ, (blockA (x + s • Pi.single i 1) 0 *ᵥ (x + s • Pi.single i 1)) r = (blockA x 0 *ᵥ x) r + b * s := by
  set d : St := Pi.single i 1 with hd
  have dd : ∀ a b : Fin 13, a ≠ b → d a * d b = 0 := by
    intro a b hab
    rw [hd]
    simp only [Pi.single_apply]
    split_ifs with h1 h2 <;> simp
    exact hab (h1.trans h2.symm)
  have ha : ∀ s : ℝ, _ := fun s => blockA_rows (x + s • d) 0 (x + s • d)
  have h0 := blockA_rows x 0 x
  simp only [Pi.add_apply, Pi.smul_apply, smul_eq_mul, Matrix.zero_apply] at ha h0
  have hc : r = 0 ∨ r = 1 ∨ r = 2 ∨ r = 3 ∨ r = 4 ∨ r = 5 ∨ r = 6 ∨ r = 7 ∨ r = 8 ∨ r = 9 := by
    simp only [Fin.ext_iff]; show (r : Nat) = 0 ∨ (r : Nat) = 1 ∨ (r : Nat) = 2 ∨ (r : Nat) = 3 ∨ (r : Nat) = 4 ∨ (r : Nat) = 5 ∨ (r : Nat) = 6 ∨ (r : Nat) = 7 ∨ (r : Nat) = 8 ∨ (r : Nat) = 9
    omega
  obtain ⟨l0, l1, l2, l3, l4, l5, l6, l7, l8, l9⟩ := h0
  rcases hc with h | h | h | h | h | h | h | h | h | h <;> subst h
  · exact ⟨d 3, fun s => by rw [(ha s).1, l0]; ring⟩
  · exact ⟨d 4, fun s => by rw [(ha s).2.1, l1]; ring⟩
  · exact ⟨d 5, fun s => by rw [(ha s).2.2.1, l2]; ring⟩
  · exact ⟨0, fun s => by rw [(ha s).2.2.2.1, l3]; ring⟩
  · exact ⟨0, fun s => by rw [(ha s).2.2.2.2.1, l4]; ring⟩
  · exact ⟨0, fun s => by rw [(ha s).2.2.2.2.2.1, l5]; ring⟩
  · refine ⟨1 / 2 * (x 12 * d 7 + d 12 * x 7 - x 11 * d 8 - d 11 * x 8 + x 10 * d 9 + d 10 * x 9), fun s => ?_⟩
    rw [(ha s).2.2.2.2.2.2.1, l6]
    linear_combination (1 / 2 * s ^ 2) * (dd 12 7 (by decide) - dd 11 8 (by decide) + dd 10 9 (by decide))
  · refine ⟨1 / 2 * (-x 12 * d 6 - d 12 * x 6 + x 10 * d 8 + d 10 * x 8 + x 11 * d 9 + d 11 * x 9), fun s => ?_⟩
    rw [(ha s).2.2.2.2.2.2.2.1, l7]
    linear_combination (1 / 2 * s ^ 2) * (-dd 12 6 (by decide) + dd 10 8 (by decide) + dd 11 9 (by decide))
  · refine ⟨1 / 2 * (x 11 * d 6 + d 11 * x 6 - x 10 * d 7 - d 10 * x 7 + x 12 * d 9 + d 12 * x 9), fun s => ?_⟩
    rw [(ha s).2.2.2.2.2.2.2.2.1, l8]
    linear_combination (1 / 2 * s ^ 2) * (dd 11 6 (by decide) - dd 10 7 (by decide) + dd 12 9 (by decide))
  · refine ⟨1 / 2 * (-x 10 * d 6 - d 10 * x 6 - x 11 * d 7 - d 11 * x 7 - x 12 * d 8 - d 12 * x 8), fun s => ?_⟩
    rw [(ha s).2.2.2.2.2.2.2.2.2, l9]
    linear_combination (1 / 2 * s ^ 2) * (-dd 10 6 (by decide) - dd 11 7 (by decide) - dd 12 8 (by decide))

/-- C161 (states): although `compute_lin_dyn` takes one-sided differences with the (large) step to the next sample, its rows of position, velocity and quaternion are the exact partial derivatives of
`compute_dyn`, whatever the two samples. -/
theorem C161_states (c : Fin 3 → ℝ) (p : Fin 4 → Fin 3 → ℝ) (x x1 : St) (u u1 : Fin 12 → ℝ) (r i : Fin 13) (hr : (r : Nat) < 10) :
    HasDerivAt (fun s : ℝ => effDyn c p (x + s • Pi.single i 1) u r) ((effLin c p x x1 u u1).1 r i) 0 := by
  obtain ⟨b, hb⟩ := row_affine x i r hr
  have h : ∀ s : ℝ, effDyn c p (x + s • Pi.single i 1) u r = effDyn c p x u r + b * s := by
    intro s
    rw [effDyn_row _ _ _ _ _ hr, effDyn_row _ _ _ _ _ hr, hb]; ring
  have hd : (effLin c p x x1 u u1).1 r i = b := by
    show diffCol (fun y => effDyn c p y u) x x1 i r = b
    exact diffCol_affine (f := fun y => effDyn c p y u) h x1
  rw [hd]
  exact quad_deriv (effDyn c p x u r) b 0 fun s => by rw [h s]; ring

/-- C161 (controls, what holds): unless the forces of the next sample are (nearly) zero, the second matrix is the exact effect of a change of the forces. -/
theorem C161_controls_partial (c : Fin 3 → ℝ) (p : Fin 4 → Fin 3 → ℝ) (x x1 : St) (u u1 : Fin 12 → ℝ) (h1 : 1 / 1000 ≤ Real.sqrt (∑ j, u1 j ^ 2)) (w v : Fin 12 → ℝ) :
    effDyn c p x (w + v) - effDyn c p x w = (effLin c p x x1 u u1).2 *ᵥ v := by
  have hB : (effLin c p x x1 u u1).2 = effB x c p := by
    unfold effLin
    simp only [not_lt.2 h1, if_false]
    ext r i
    show diffCol (fun v => effDyn c p x v) u u1 i r = _
    refine diffCol_affine (f := fun v => effDyn c p x v) (fun s => ?_) u1
    show (blockA x 0 *ᵥ x + effB x c p *ᵥ (u + s • Pi.single i 1)) r = (blockA x 0 *ᵥ x + effB x c p *ᵥ u) r + _
    rw [mulVec_add, mulVec_smul, mulVec_single_one, Pi.add_apply, Pi.add_apply, Pi.add_apply, Pi.smul_apply, smul_eq_mul, col_apply]
    ring
  rw [hB]
  unfold effDyn
  rw [mulVec_add]
  abel

/-- A sample whose next forces carry the weight of the robot. -/
example : 1 / 1000 ≤ Real.sqrt (∑ j : Fin 12, (if (j : Nat) % 3 = 2 then (5 : ℝ) else 0) ^ 2) := by
  rw [Real.le_sqrt' (by norm_num)]
  simp [Fin.sum_univ_succ]
  norm_num

/-- C161 is violated for the controls: at the last time step before a flight phase (the next forces are zero, the present ones are not) the second matrix is zero although the forces do act, so that the
gain computed there is zero. -/
theorem C161_controls_violated (c : Fin 3 → ℝ) (p : Fin 4 → Fin 3 → ℝ) (x x1 : St) (u : Fin 12 → ℝ) :
    (effLin c p x x1 u 0).2 = 0 ∧ (∃ w v, effDyn c p x (w + v) - effDyn c p x w ≠ (effLin c p x x1 u 0).2 *ᵥ v) ∧
    ∀ (R : Mat 12 12) (P : Mat 13 13), gain R (discretise (effLin c p x x1 u 0)).1 (discretise (effLin c p x x1 u 0)).2 P = 0 := by
  have h0 : (effLin c p x x1 u 0).2 = 0 := by
    unfold effLin
    simp
  refine ⟨h0, ⟨0, Pi.single 2 1, fun h => ?_⟩, fun R P => ?_⟩
  · rw [h0, zero_mulVec] at h
    have := congrFun h 5
    unfold effDyn at this
    rw [zero_add, mulVec_single_one, mulVec_zero, add_zero, add_sub_cancel_left, col_apply] at this
    norm_num [effB, mass] at this
  · unfold gain discretise
    rw [h0]
    simp

/-! ### C162 -/

lemma effB_congr {x y : St} (h : rot x = rot y) (c : Fin 3 → ℝ) (p : Fin 4 → Fin 3 → ℝ) : effB x c p = effB y c p := by
  simp only [effB, h]

/-- Rows of the angular velocity depend on the state through the orientation only. -/
lemma ang_const (c : Fin 3 → ℝ) (p : Fin 4 → Fin 3 → ℝ) (x : St) (u : Fin 12 → ℝ) (i r : Fin 13) (hr : 10 ≤ (r : Nat)) (hi : (i : Nat) < 6 ∨ 10 ≤ (i : Nat)) (s : ℝ) :
    effDyn c p (x + s • Pi.single i 1) u r = effDyn c p x u r := by
  have hq : ∀ k : Fin 13, 6 ≤ (k : Nat) → (k : Nat) < 10 → (x + s • (Pi.single i 1 : St)) k = x k := by
    intro k h1 h2
    have : k ≠ i := fun h => by rw [h] at h1 h2; omega
    simp [Pi.single_eq_of_ne this]
  have hrot : rot (x + s • (Pi.single i 1 : St)) = rot x := by
    unfold rot
    rw [hq 6 (by decide) (by decide), hq 7 (by decide) (by decide), hq 8 (by decide) (by decide), hq 9 (by decide) (by decide)]
  have hz : ∀ y : St, (blockA y 0 *ᵥ y) r = 0 := by
    intro y
    rw [mulVec, dotProduct]
    refine Finset.sum_eq_zero fun j _ => ?_
    have : blockA y 0 r j = 0 := by
      simp only [blockA, of_apply]
      rw [if_neg (by omega), if_neg (by omega), if_neg (by omega)]
    rw [this, zero_mul]
  unfold effDyn
  rw [Pi.add_apply, Pi.add_apply, hz, hz, effB_congr hrot]

/-- The moment of the forces about `c`. -/
def moment (c : Fin 3 → ℝ) (p : Fin 4 → Fin 3 → ℝ) (u : Fin 12 → ℝ) : Fin 3 → ℝ := ∑ i, crossProduct (arm (p i) c) (forceOf u i)

/-- C162 is violated: for no samples does the linearised angular acceleration change with the position of the center of mass, while the moment of the forces about it does as soon as the total force has a
vertical part. -/
theorem C162_violated (p : Fin 4 → Fin 3 → ℝ) (u : Fin 12 → ℝ) (hu : ∑ i, forceOf u i 2 ≠ 0) :
    (∀ (c : Fin 3 → ℝ) (x x1 : St) (u1 : Fin 12 → ℝ) (r i : Fin 13), 10 ≤ (r : Nat) → (i : Nat) < 3 → (effLin c p x x1 u u1).1 r i = 0) ∧
    ∀ c : Fin 3 → ℝ, ∃ b, b ≠ 0 ∧ HasDerivAt (fun s : ℝ => moment (c + s • Pi.single 0 1) p u 1) b 0 := by
  constructor
  · intro c x x1 u1 r i hr hi
    show diffCol (fun y => effDyn c p y u) x x1 i r = 0
    exact diffCol_affine (f := fun y => effDyn c p y u) (fun s => by rw [ang_const c p x u i r hr (by omega) s]; ring) x1
  · intro c
    refine ⟨∑ i, forceOf u i 2, hu, ?_⟩
    refine quad_deriv (moment c p u 1) _ 0 fun s => ?_
    unfold moment
    simp only [Finset.sum_apply]
    rw [Finset.sum_mul, zero_mul, add_zero, ← Finset.sum_add_distrib]
    refine Finset.sum_congr rfl fun i _ => ?_
    simp [cross_apply, arm]
    ring

/-- C162 (what holds): the angular acceleration of the model used does not depend on position, velocity and angular velocity, and the columns of these are exact. -/
theorem C162_columns_partial (c : Fin 3 → ℝ) (p : Fin 4 → Fin 3 → ℝ) (x x1 : St) (u u1 : Fin 12 → ℝ) (r i : Fin 13) (hr : 10 ≤ (r : Nat)) (hi : (i : Nat) < 6 ∨ 10 ≤ (i : Nat)) :
    HasDerivAt (fun s : ℝ => effDyn c p (x + s • Pi.single i 1) u r) ((effLin c p x x1 u u1).1 r i) 0 := by
  have h : ∀ s : ℝ, effDyn c p (x + s • Pi.single i 1) u r = effDyn c p x u r + 0 * s := fun s => by rw [ang_const c p x u i r hr hi s]; ring
  have hd : (effLin c p x x1 u u1).1 r i = 0 := by
    show diffCol (fun y => effDyn c p y u) x x1 i r = 0
    exact diffCol_affine (f := fun y => effDyn c p y u) h x1
  rw [hd]
  exact quad_deriv (effDyn c p x u r) 0 0 fun s => by rw [h s]; ring

/-- Forces that carry the weight meet the condition of `C162_violated`. -/
example : ∑ i, forceOf (fun j => if (j : Nat) % 3 = 2 then 5 else 0) i 2 ≠ 0 := by
  have : ∀ i, forceOf (fun j => if (j : Nat) % 3 = 2 then (5 : ℝ) else 0) i 2 = 5 := by
    intro i; fin_cases i <;> simp [forceOf]
  simp [this]

/-- C155 applies to the gains of the end-effector version, for positive weights, whatever the samples. -/
theorem C155_end_effector {Q : Mat 13 13} (hQ : Q.PosSemidef) {R : Mat 12 12} (hR : R.PosDef) (c : Nat → Fin 3 → ℝ) (p : Nat → Fin 4 → Fin 3 → ℝ) (xs : Nat → St) (us : Nat → Fin 12 → ℝ) (horizon : Nat) :
    ∀ t ≤ horizon - 1, OptimalFrom Q R (fun t => discretise (effLin (c t) (p t) (xs t) (xs (t + 1)) (us t) (us (t + 1)))) t ((effGains Q R c p xs us horizon).drop t) :=
  (C155_optimal hQ hR _ horizon).2

/-- The weights `Q = 1`, `R = 0.1` are such weights. -/
example : (1 : Mat 13 13).PosSemidef ∧ ((1 / 10 : ℝ) • (1 : Mat 12 12)).PosDef := ⟨PosSemidef.one, PosDef.one.smul (by norm_num)⟩

end PyLqr
end Verif
