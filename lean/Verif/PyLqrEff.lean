import Verif.PyLqrProps
import Mathlib.Data.List.GetD

/-! C158-C162: the end-effector version of the LQR gains, the shipped weights and the files. -/
namespace Verif
namespace PyLqr
open Matrix

/-! ### C158: the moments of the forces -/

/-- The lever arm of an end-effector. -/
def arm (e c : Fin 3 → ℝ) : Fin 3 → ℝ := fun i => e i - c i

/-- C158 (what holds): the first two rows of `compute_r_cross` are those of the cross product with the lever arm; the third is only if the arm has no `x` part or the force no `y` part. -/
theorem C158_moment_partial (e c f : Fin 3 → ℝ) :
    (rCross e c *ᵥ f) 0 = (crossProduct (arm e c) f) 0 ∧ (rCross e c *ᵥ f) 1 = (crossProduct (arm e c) f) 1 ∧
    ((rCross e c *ᵥ f) 2 = (crossProduct (arm e c) f) 2 ↔ e 0 = c 0 ∨ f 1 = 0) := by
  have h2 : (rCross e c *ᵥ f) 2 = -(e 1 - c 1) * f 0 - (e 0 - c 0) * f 1 := by
    simp [rCross, mulVec, dotProduct, Fin.sum_univ_three]; ring
  refine ⟨?_, ?_, ?_⟩
  · simp [rCross, mulVec, dotProduct, Fin.sum_univ_three, cross_apply, arm]; ring
  · simp [rCross, mulVec, dotProduct, Fin.sum_univ_three, cross_apply, arm]; ring
  · rw [h2]
    simp only [cross_apply, arm, cons_val]
    constructor
    · intro h
      have : (e 0 - c 0) * f 1 = 0 := by linarith
      rcases mul_eq_zero.1 this with h | h
      · exact Or.inl (by linarith)
      · exact Or.inr h
    · rintro (h | h)
      · rw [h]; ring
      · rw [h]; ring

/-- The rows of the angular velocity of a state. -/
def angRows (y : St) : Fin 3 → ℝ := ![y 10, y 11, y 12]

/-- The force of end-effector `i` in the stacked vector. -/
def forceOf (u : Fin 12 → ℝ) (i : Fin 4) : Fin 3 → ℝ := fun k => u ⟨3 * i + k, by omega⟩

lemma eff_ang (c : Fin 3 → ℝ) (p : Fin 4 → Fin 3 → ℝ) (x : St) (u : Fin 12 → ℝ) :
    angRows (effDyn c p x u) = ((rot x)ᵀ * inertia * rot x)⁻¹ *ᵥ ∑ i, rCross (p i) c *ᵥ forceOf u i := by
  set W := ((rot x)ᵀ * inertia * rot x)⁻¹ with hW
  have h1 : ∀ r : Fin 13, 10 ≤ (r : Nat) → effDyn c p x u r = ∑ j : Fin 12, (W * rCross (p ⟨j / 3, by omega⟩) c) (wIx r) ⟨j % 3, by omega⟩ * u j := by
    intro r hr
    unfold effDyn
    rw [Pi.add_apply]
    have hz : (blockA x 0 *ᵥ x) r = 0 := by
      rw [mulVec, dotProduct]
      refine Finset.sum_eq_zero fun j _ => ?_
      have : blockA x 0 r j = 0 := by
        simp only [blockA, of_apply]
        rw [if_neg (by omega), if_neg (by omega), if_neg (by omega)]
      rw [this, zero_mul]
    rw [hz, zero_add, mulVec, dotProduct]
    refine Finset.sum_congr rfl fun j _ => ?_
    congr 1
    simp only [effB, of_apply]
    rw [if_neg (by omega), if_neg (by omega), if_neg (by omega)]
  have h2 : ∀ k : Fin 3, (W *ᵥ ∑ i, rCross (p i) c *ᵥ forceOf u i) k = ∑ i : Fin 4, ∑ l : Fin 3, (W * rCross (p i) c) k l * forceOf u i l := by
    intro k
    rw [mulVec_sum, Finset.sum_apply]
    refine Finset.sum_congr rfl fun i _ => ?_
    rw [mulVec_mulVec]
    rfl
  have h3 : ∀ k : Fin 3, ∑ j : Fin 12, (W * rCross (p ⟨j / 3, by omega⟩) c) k ⟨j % 3, by omega⟩ * u j = ∑ i : Fin 4, ∑ l : Fin 3, (W * rCross (p i) c) k l * forceOf u i l := by
    intro k
    simp only [Fin.sum_univ_succ, Finset.univ_unique, Finset.sum_singleton, Fin.sum_univ_four, Fin.sum_univ_three, forceOf]
    ring_nf
    rfl
  funext k
  rw [h2 k, ← h3 k]
  fin_cases k
  · exact h1 10 (by decide)
  · exact h1 11 (by decide)
  · exact h1 12 (by decide)

/-- The equation of the angular motion: the inertia of the body turned into the world frame, times the angular acceleration, is the moment of the forces about the center of mass. -/
def Euler (c : Fin 3 → ℝ) (p : Fin 4 → Fin 3 → ℝ) (x : St) (u : Fin 12 → ℝ) : Prop :=
  (rot x * inertia * (rot x)ᵀ) *ᵥ angRows (effDyn c p x u) = ∑ i, crossProduct (arm (p i) c) (forceOf u i)

lemma inertia_mul_inv : inertia * inertia⁻¹ = 1 := by
  rw [inertia_inv, inertia_eq]
  ext i j
  fin_cases i <;> fin_cases j <;> simp [Matrix.mul_apply, Fin.sum_univ_three]

/-- C158 (what holds for the motion): upright, the angular acceleration of `compute_dyn` is right exactly when the moments about the vertical that `compute_r_cross` gets wrong add up to zero. -/
theorem C158_motion_partial {x : St} (h6 : x 6 = 0) (h7 : x 7 = 0) (h8 : x 8 = 0) (h9 : x 9 ≠ 0) (c : Fin 3 → ℝ) (p : Fin 4 → Fin 3 → ℝ) (u : Fin 12 → ℝ) :
    Euler c p x u ↔ ∑ i, (p i 0 - c 0) * forceOf u i 1 = 0 := by
  unfold Euler
  rw [eff_ang, rot_id h6 h7 h8 h9, transpose_one, Matrix.one_mul, Matrix.mul_one, mulVec_mulVec, inertia_mul_inv, one_mulVec]
  have e2 : ∀ i, (rCross (p i) c *ᵥ forceOf u i) 2 = (crossProduct (arm (p i) c) (forceOf u i)) 2 - 2 * ((p i 0 - c 0) * forceOf u i 1) := by
    intro i
    simp [rCross, mulVec, dotProduct, Fin.sum_univ_three, cross_apply, arm]; ring
  constructor
  · intro h
    have := congrFun h 2
    rw [Finset.sum_apply, Finset.sum_apply] at this
    simp only [e2, Finset.sum_sub_distrib, ← Finset.mul_sum] at this
    linarith
  · intro h
    funext k
    rw [Finset.sum_apply, Finset.sum_apply]
    fin_cases k
    · exact Finset.sum_congr rfl fun i _ => (C158_moment_partial (p i) c (forceOf u i)).1
    · exact Finset.sum_congr rfl fun i _ => (C158_moment_partial (p i) c (forceOf u i)).2.1
    · show ∑ i, (rCross (p i) c *ᵥ forceOf u i) 2 = ∑ i, (crossProduct (arm (p i) c) (forceOf u i)) 2
      simp only [e2, Finset.sum_sub_distrib, ← Finset.mul_sum, h]
      ring

/-- An upright state. -/
def upright : St := Pi.single 9 1

/-- Vertical forces meet the condition, whatever the positions. -/
example (c : Fin 3 → ℝ) (p : Fin 4 → Fin 3 → ℝ) : Euler c p upright (fun j => if (j : Nat) % 3 = 2 then 5 else 0) := by
  rw [C158_motion_partial (by simp [upright]) (by simp [upright]) (by simp [upright]) (by simp [upright])]
  refine Finset.sum_eq_zero fun i _ => ?_
  have : forceOf (fun j => if (j : Nat) % 3 = 2 then (5 : ℝ) else 0) i 1 = 0 := by
    fin_cases i <;> simp [forceOf]
  rw [this, mul_zero]

/-- C158 is violated upright: a sideways force in front of the center of mass. -/
theorem C158_violated_moment : ¬ Euler 0 (fun _ => ![1, 0, 0]) upright (Pi.single 1 1) := by
  rw [C158_motion_partial (by simp [upright]) (by simp [upright]) (by simp [upright]) (by simp [upright]), Fin.sum_univ_four]
  simp [forceOf, Pi.single_apply]

/-- A state with a yaw. -/
def yawed : St := Pi.single 8 1 + Pi.single 9 2

/-- C158 is violated for a turned body, even with forces whose moments are right (one vertical force beside the center of mass): the inertia is turned the wrong way. -/
theorem C158_violated_frame : ¬ Euler 0 (fun _ => ![0, 1, 0]) yawed (Pi.single 2 1) := by
  have hrot : rot yawed = !![3 / 5, -4 / 5, 0; 4 / 5, 3 / 5, 0; 0, 0, 1] := by
    have e6 : yawed 6 = 0 := by simp [yawed]
    have e7 : yawed 7 = 0 := by simp [yawed]
    have e8 : yawed 8 = 1 := by simp [yawed]
    have e9 : yawed 9 = 2 := by simp [yawed]
    unfold rot
    rw [e6, e7, e8, e9]
    ext i j
    fin_cases i <;> fin_cases j <;> norm_num
  set W := (rot yawed)ᵀ * inertia * rot yawed with hW
  have hWe : W = !![9 / 25 * (578574 / 10 ^ 8) + 16 / 25 * (1938108 / 10 ^ 8), -12 / 25 * (578574 / 10 ^ 8) + 12 / 25 * (1938108 / 10 ^ 8), 0;
      -12 / 25 * (578574 / 10 ^ 8) + 12 / 25 * (1938108 / 10 ^ 8), 16 / 25 * (578574 / 10 ^ 8) + 9 / 25 * (1938108 / 10 ^ 8), 0; 0, 0, 2476124 / 10 ^ 8] := by
    rw [hW, hrot, inertia_eq]
    ext i j
    fin_cases i <;> fin_cases j <;> simp [Matrix.mul_apply, Fin.sum_univ_three, vecMul, dotProduct] <;> norm_num
  have hV : rot yawed * inertia * (rot yawed)ᵀ = !![9 / 25 * (578574 / 10 ^ 8) + 16 / 25 * (1938108 / 10 ^ 8), 12 / 25 * (578574 / 10 ^ 8) - 12 / 25 * (1938108 / 10 ^ 8), 0;
      12 / 25 * (578574 / 10 ^ 8) - 12 / 25 * (1938108 / 10 ^ 8), 16 / 25 * (578574 / 10 ^ 8) + 9 / 25 * (1938108 / 10 ^ 8), 0; 0, 0, 2476124 / 10 ^ 8] := by
    rw [hrot, inertia_eq]
    ext i j
    fin_cases i <;> fin_cases j <;> simp [Matrix.mul_apply, Fin.sum_univ_three, vecMul, dotProduct] <;> norm_num
  have hdet : IsUnit W.det := by
    rw [isUnit_iff_ne_zero, hWe, det_fin_three]
    simp only [of_apply, cons_val]
    norm_num
  intro h
  unfold Euler at h
  have hm : ∀ i : Fin 4, rCross ((fun _ => ![0, 1, 0]) i) 0 *ᵥ forceOf (Pi.single 2 1) i = crossProduct (arm ((fun _ => ![0, 1, 0]) i) 0) (forceOf (Pi.single 2 1) i) := by
    intro i
    have hh := C158_moment_partial ((fun _ => ![0, 1, 0] : Fin 4 → Fin 3 → ℝ) i) 0 (forceOf (Pi.single 2 1) i)
    funext k
    fin_cases k
    · exact hh.1
    · exact hh.2.1
    · exact hh.2.2.2 (Or.inl rfl)
  have hang := eff_ang 0 (fun _ => ![0, 1, 0]) yawed (Pi.single 2 1)
  rw [← hW] at hang
  set a := angRows (effDyn 0 (fun _ => ![0, 1, 0]) yawed (Pi.single 2 1))
  have h1 : W *ᵥ a = ∑ i : Fin 4, crossProduct (arm ((fun _ => ![0, 1, 0]) i) 0) (forceOf (Pi.single 2 1) i) := by
    rw [hang, mulVec_mulVec, mul_nonsing_inv _ hdet, one_mulVec]
    exact Finset.sum_congr rfl fun i _ => hm i
  have hs : ∑ i : Fin 4, crossProduct (arm ((fun _ => ![0, 1, 0]) i) 0) (forceOf (Pi.single 2 1) i) = ![1, 0, 0] := by
    have hf : ∀ (i : Fin 4) (k : Fin 3), forceOf (Pi.single 2 1) i k = if 3 * (i : Nat) + k = 2 then 1 else 0 := by
      intro i k
      unfold forceOf
      rw [Pi.single_apply]
      simp only [Fin.ext_iff]
      rfl
    funext k
    simp only [Fin.sum_univ_four, Pi.add_apply, cross_apply, arm, hf]
    fin_cases k <;> simp
  rw [hs] at h h1
  rw [hV] at h
  rw [hWe] at h1
  have a0 := congrFun h 0
  have a1 := congrFun h 1
  have b0 := congrFun h1 0
  have b1 := congrFun h1 1
  simp only [mulVec, dotProduct, Fin.sum_univ_three, of_apply, cons_val] at a0 a1 b0 b1
  norm_num at a0 a1 b0 b1
  linarith

/-! ### C159: the shipped weights -/

lemma back_zero {n m : Nat} (R : Mat m m) (sys : Nat → Mat n n × Mat n m) (k : Nat) : ∀ lo, backLoop 0 R sys lo k = (List.replicate k 0, 0) := by
  induction k with
  | zero => intro lo; rfl
  | succ k ih =>
    intro lo
    simp only [backLoop, ih, lqrGains, gain_zero]
    simp [List.replicate_succ]

/-- C159 is violated: with the weights of the shipped script every gain it stores is zero, whatever the trajectory and the weight of the controls. -/
theorem C159_violated (R : Mat 6 6) (xs : Nat → St) (horizon : Nat) : centroidalGains scriptQ R xs horizon = List.replicate (horizon - 2) 0 := by
  unfold centroidalGains backwardCent scriptQ
  rw [back_zero]

/-- C159 (what holds): a weight that penalises the velocity gives a gain that is not zero (the weights of `C156_first_row_violated`). -/
theorem C159_weights_partial (xs : Nat → St) : ∃ K0 : Mat 6 13, K0 ∈ centroidalGains 1 1 xs 4 ∧ K0 ≠ 0 := by
  obtain ⟨-, K0, h, hne⟩ := C156_first_row_violated (fun t => xs (t + 1))
  refine ⟨K0, ?_, hne⟩
  have : centroidalGains 1 1 xs 4 = backwardEff 1 1 (fun t => discretise (linDyn (xs (t + 1)))) 3 := rfl
  rw [this, h]
  simp

/-! ### C160: the files -/

lemma flat_get {m : Nat} (K : Mat m 13) (a : Fin m) (b : Fin 13) : (flat K)[13 * (a : Nat) + b]? = some (K a b) := by
  unfold flat
  induction m with
  | zero => exact a.elim0
  | succ m ih =>
    rw [List.ofFn_succ, List.flatten_cons]
    refine Fin.cases ?_ (fun a => ?_) a
    · rw [List.getElem?_append_left (by simp), Fin.val_zero, Nat.mul_zero, Nat.zero_add, List.getElem?_ofFn]
      simp
    · rw [List.getElem?_append_right (by simp; omega)]
      have := ih (fun r c => K r.succ c) a
      simp only [List.length_ofFn, Fin.val_succ]
      rw [← this]
      congr 1
      omega

/-- C160: row `i` of gain file `l` (`0 ≤ l`, three rows of the gain per file) holds the entries of rows `3 l`, `3 l + 1`, `3 l + 2` of the gain of that time step, each row in order. -/
theorem C160_files {m : Nat} (Ks : List (Mat m 13)) (l i : Nat) (hi : i < Ks.length) (a b : Nat) (ha : a < 3) (hl : 3 * l + a < m) (hb : b < 13) :
    ∃ row, (gainFile Ks l)[i]? = some row ∧ row[13 * a + b]? = some (Ks[i] ⟨3 * l + a, hl⟩ ⟨b, hb⟩) := by
  refine ⟨_, by unfold gainFile; rw [List.getElem?_map, List.getElem?_eq_getElem hi]; rfl, ?_⟩
  rw [List.getElem?_take_of_lt (by omega), List.getElem?_drop]
  have := flat_get (Ks[i]) ⟨3 * l + a, hl⟩ ⟨b, hb⟩
  rw [← this]
  congr 1
  show 39 * l + (13 * a + b) = 13 * (3 * l + a) + b
  ring

/-- The rows of the files have 39 entries when the gain has a multiple of three rows. -/
theorem C160_width {m : Nat} (Ks : List (Mat m 13)) (l : Nat) (hl : 3 * l + 3 ≤ m) : ∀ row ∈ gainFile Ks l, row.length = 39 := by
  intro row hrow
  unfold gainFile at hrow
  rw [List.mem_map] at hrow
  obtain ⟨K, -, rfl⟩ := hrow
  have : (flat K).length = m * 13 := by
    unfold flat
    rw [List.length_flatten, List.map_ofFn]
    simp [Function.comp_def]
  rw [List.length_take, List.length_drop, this]
  omega

end PyLqr
end Verif
