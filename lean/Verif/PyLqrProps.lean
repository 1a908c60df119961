import Verif.PyLqr
import Mathlib.LinearAlgebra.Matrix.PosDef
import Mathlib.Algebra.Order.Star.Real
import Mathlib.Analysis.Calculus.Deriv.Mul
import Mathlib.Analysis.Calculus.Deriv.Add
import Mathlib.Analysis.Calculus.Deriv.Pow
import Mathlib.LinearAlgebra.CrossProduct
import Mathlib.Tactic.Linarith
import Mathlib.Tactic.FinCases
import Mathlib.Tactic.NormNum

/-! C155-C159: the LQR gains of the centroidal dynamics. -/
namespace Verif
namespace PyLqr
open Matrix

/-! ### Specification -/

/-- Cost of the controls `us` applied from state `x` at time `t` on: squared states and controls, no final cost; time step `t` maps `x` to `A t x + B t u`. -/
noncomputable def lqCost {n m : Nat} (Q : Mat n n) (R : Mat m m) (sys : Nat → Mat n n × Mat n m) : Nat → (Fin n → ℝ) → List (Fin m → ℝ) → ℝ
  | _, _, [] => 0
  | t, x, u :: us => x ⬝ᵥ Q *ᵥ x + u ⬝ᵥ R *ᵥ u + lqCost Q R sys (t + 1) ((sys t).1 *ᵥ x + (sys t).2 *ᵥ u) us

/-- The controls that state feedback with the gains `Ks` applies from state `x` at time `t` on. -/
noncomputable def feedback {n m : Nat} (sys : Nat → Mat n n × Mat n m) : Nat → (Fin n → ℝ) → List (Mat m n) → List (Fin m → ℝ)
  | _, _, [] => []
  | t, x, K :: Ks => K *ᵥ x :: feedback sys (t + 1) ((sys t).1 *ᵥ x + (sys t).2 *ᵥ (K *ᵥ x)) Ks

/-- `Ks` are the optimal gains from time `t` on: from every state, feedback with them costs less than any other controls. -/
def OptimalFrom {n m : Nat} (Q : Mat n n) (R : Mat m m) (sys : Nat → Mat n n × Mat n m) (t : Nat) (Ks : List (Mat m n)) : Prop :=
  ∀ x us, us.length = Ks.length → us ≠ feedback sys t x Ks → lqCost Q R sys t x (feedback sys t x Ks) < lqCost Q R sys t x us

/-! ### C155 -/

lemma psd_nonneg {n : Nat} {P : Mat n n} (hP : P.PosSemidef) (x : Fin n → ℝ) : 0 ≤ x ⬝ᵥ P *ᵥ x := by
  have := hP.dotProduct_mulVec_nonneg x
  rwa [star_trivial] at this

lemma pd_pos {n : Nat} {P : Mat n n} (hP : P.PosDef) {x : Fin n → ℝ} (hx : x ≠ 0) : 0 < x ⬝ᵥ P *ᵥ x := by
  have := hP.dotProduct_mulVec_pos hx
  rwa [star_trivial] at this

lemma mv_dot {m n : Nat} (B : Mat m n) (u : Fin n → ℝ) (w : Fin m → ℝ) : B *ᵥ u ⬝ᵥ w = u ⬝ᵥ Bᵀ *ᵥ w := by
  rw [mulVec_transpose, dotProduct_comm, dotProduct_mulVec, dotProduct_comm]

lemma sym_of {n : Nat} {P : Mat n n} (hP : P.IsHermitian) : Pᵀ = P := by
  rwa [IsHermitian, conjTranspose_eq_transpose_of_trivial] at hP

lemma s_posDef {n m : Nat} {R : Mat m m} (hR : R.PosDef) {P : Mat n n} (hP : P.PosSemidef) (B : Mat n m) : (R + Bᵀ * P * B).PosDef := by
  have := hP.conjTranspose_mul_mul_same B
  rw [conjTranspose_eq_transpose_of_trivial] at this
  exact hR.add_posSemidef this

lemma gain_eq {n m : Nat} {R : Mat m m} (hR : R.PosDef) {P : Mat n n} (hP : P.PosSemidef) (A : Mat n n) (B : Mat n m) :
    (R + Bᵀ * P * B) * gain R A B P = -(Bᵀ * P * A) := by
  have hu := (s_posDef hR hP B).isUnit
  rw [isUnit_iff_isUnit_det] at hu
  unfold gain
  rw [Matrix.mul_smul, ← Matrix.mul_assoc, ← Matrix.mul_assoc, ← Matrix.mul_assoc, mul_nonsing_inv _ hu, Matrix.one_mul, neg_one_smul]

/-- One step of dynamic programming. -/
lemma dp {n m : Nat} (Q : Mat n n) {R : Mat m m} (hR : R.PosDef) {P : Mat n n} (hP : P.PosSemidef) (A : Mat n n) (B : Mat n m) (x : Fin n → ℝ) (u : Fin m → ℝ) :
    x ⬝ᵥ Q *ᵥ x + u ⬝ᵥ R *ᵥ u + (A *ᵥ x + B *ᵥ u) ⬝ᵥ P *ᵥ (A *ᵥ x + B *ᵥ u) =
      x ⬝ᵥ (lqrGains Q R A B P).2 *ᵥ x + (u - gain R A B P *ᵥ x) ⬝ᵥ (R + Bᵀ * P * B) *ᵥ (u - gain R A B P *ᵥ x) := by
  set K := gain R A B P with hK
  set v := u - K *ᵥ x with hv
  have hu : u = K *ᵥ x + v := by rw [hv]; abel
  set y := (A + B * K) *ᵥ x with hy
  have hnext : A *ᵥ x + B *ᵥ u = y + B *ᵥ v := by
    rw [hu, mulVec_add, mulVec_mulVec, hy, add_mulVec]; abel
  have sR := sym_of hR.1
  have sP := sym_of hP.1
  have e2 : (lqrGains Q R A B P).2 = Q + Kᵀ * R * K + (A + B * K)ᵀ * P * (A + B * K) := rfl
  have e3 : x ⬝ᵥ (Kᵀ * R * K) *ᵥ x = (K *ᵥ x) ⬝ᵥ R *ᵥ (K *ᵥ x) := by
    rw [mv_dot, mulVec_mulVec, mulVec_mulVec, Matrix.mul_assoc]
  have e4 : x ⬝ᵥ ((A + B * K)ᵀ * P * (A + B * K)) *ᵥ x = y ⬝ᵥ P *ᵥ y := by
    rw [hy, mv_dot, mulVec_mulVec, mulVec_mulVec, Matrix.mul_assoc]
  have e5 : v ⬝ᵥ (R + Bᵀ * P * B) *ᵥ v = v ⬝ᵥ R *ᵥ v + (B *ᵥ v) ⬝ᵥ P *ᵥ (B *ᵥ v) := by
    rw [mv_dot, add_mulVec, dotProduct_add, mulVec_mulVec, mulVec_mulVec, Matrix.mul_assoc]
  have hcross : v ⬝ᵥ R *ᵥ (K *ᵥ x) + (B *ᵥ v) ⬝ᵥ P *ᵥ y = 0 := by
    have h0 := gain_eq hR hP A B
    rw [← hK, Matrix.add_mul] at h0
    have : R *ᵥ (K *ᵥ x) + Bᵀ *ᵥ (P *ᵥ y) = 0 := by
      rw [hy, mulVec_mulVec, mulVec_mulVec, mulVec_mulVec, ← add_mulVec, Matrix.mul_add]
      have e : R * K + (Bᵀ * P * A + Bᵀ * P * (B * K)) = 0 := by
        have : R * K + Bᵀ * P * B * K + Bᵀ * P * A = 0 := by rw [h0]; abel
        rw [← this]; simp only [Matrix.mul_assoc]; abel
      rw [e, zero_mulVec]
    rw [mv_dot, ← dotProduct_add, this, dotProduct_zero]
  have c1 : (K *ᵥ x) ⬝ᵥ R *ᵥ v = v ⬝ᵥ R *ᵥ (K *ᵥ x) := by rw [dotProduct_comm, mv_dot, sR]
  have c2 : y ⬝ᵥ P *ᵥ (B *ᵥ v) = (B *ᵥ v) ⬝ᵥ P *ᵥ y := by rw [dotProduct_comm, mv_dot, sP]
  rw [hnext, hu, e2, e5, add_mulVec, add_mulVec, dotProduct_add, dotProduct_add, e3, e4]
  simp only [mulVec_add, add_dotProduct, dotProduct_add]
  rw [c1, c2]
  linarith

lemma back_psd {n m : Nat} {Q : Mat n n} (hQ : Q.PosSemidef) {R : Mat m m} (hR : R.PosDef) (sys : Nat → Mat n n × Mat n m) (k : Nat) : ∀ lo, (backLoop Q R sys lo k).2.PosSemidef := by
  induction k with
  | zero => intro lo; exact PosSemidef.zero
  | succ k ih =>
    intro lo
    set P := (backLoop Q R sys (lo + 1) k).2
    have hP : P.PosSemidef := ih (lo + 1)
    have h1 := hR.posSemidef.conjTranspose_mul_mul_same (gain R (sys lo).1 (sys lo).2 P)
    have h2 := hP.conjTranspose_mul_mul_same ((sys lo).1 + (sys lo).2 * gain R (sys lo).1 (sys lo).2 P)
    rw [conjTranspose_eq_transpose_of_trivial] at h1 h2
    exact (hQ.add h1).add h2

lemma back_length {n m : Nat} (Q : Mat n n) (R : Mat m m) (sys : Nat → Mat n n × Mat n m) (k : Nat) : ∀ lo, (backLoop Q R sys lo k).1.length = k := by
  induction k with
  | zero => intro lo; rfl
  | succ k ih => intro lo; simp [backLoop, ih]

lemma back_opt {n m : Nat} {Q : Mat n n} (hQ : Q.PosSemidef) {R : Mat m m} (hR : R.PosDef) (sys : Nat → Mat n n × Mat n m) (k : Nat) : ∀ lo x,
    lqCost Q R sys lo x (feedback sys lo x (backLoop Q R sys lo k).1) = x ⬝ᵥ (backLoop Q R sys lo k).2 *ᵥ x ∧
    ∀ us, us.length = k → x ⬝ᵥ (backLoop Q R sys lo k).2 *ᵥ x ≤ lqCost Q R sys lo x us ∧
      (lqCost Q R sys lo x us ≤ x ⬝ᵥ (backLoop Q R sys lo k).2 *ᵥ x → us = feedback sys lo x (backLoop Q R sys lo k).1) := by
  induction k with
  | zero =>
    intro lo x
    refine ⟨by simp [backLoop, feedback, lqCost], fun us hu => ?_⟩
    rw [List.length_eq_zero_iff] at hu
    subst hu
    simp [backLoop, feedback, lqCost]
  | succ k ih =>
    intro lo x
    have hP := back_psd hQ hR sys k (lo + 1)
    have hS := s_posDef hR hP (sys lo).2
    set P := (backLoop Q R sys (lo + 1) k).2 with hPdef
    set K := gain R (sys lo).1 (sys lo).2 P with hK
    have e1 : (backLoop Q R sys lo (k + 1)).1 = K :: (backLoop Q R sys (lo + 1) k).1 := rfl
    have e2 : (backLoop Q R sys lo (k + 1)).2 = (lqrGains Q R (sys lo).1 (sys lo).2 P).2 := rfl
    have hdp := dp Q hR hP (sys lo).1 (sys lo).2 x
    refine ⟨?_, fun us hu => ?_⟩
    · rw [e1, e2, feedback, lqCost, (ih (lo + 1) _).1, ← hPdef]
      have := hdp (K *ᵥ x)
      rw [← hK, sub_self, zero_dotProduct, add_zero] at this
      exact this
    · cases us with
      | nil => simp at hu
      | cons u us =>
        simp only [List.length_cons, Nat.add_right_cancel_iff] at hu
        obtain ⟨h1, h2⟩ := (ih (lo + 1) ((sys lo).1 *ᵥ x + (sys lo).2 *ᵥ u)).2 us hu
        rw [← hPdef] at h1 h2
        have hd := hdp u
        rw [← hK] at hd
        have hn := psd_nonneg hS.posSemidef (u - K *ᵥ x)
        rw [e1, e2, lqCost]
        refine ⟨by linarith, fun hle => ?_⟩
        have hz : u - K *ᵥ x = 0 := by
          by_contra hne
          have := pd_pos hS hne
          linarith
        have hu' : u = K *ᵥ x := sub_eq_zero.1 hz
        rw [hz, zero_dotProduct] at hd
        rw [feedback]
        have := h2 (by linarith)
        rw [this, hu']

lemma back_optimal {n m : Nat} {Q : Mat n n} (hQ : Q.PosSemidef) {R : Mat m m} (hR : R.PosDef) (sys : Nat → Mat n n × Mat n m) (lo k : Nat) :
    OptimalFrom Q R sys lo (backLoop Q R sys lo k).1 := by
  intro x us hl hne
  rw [back_length] at hl
  obtain ⟨h1, h2⟩ := back_opt hQ hR sys k lo x
  obtain ⟨h3, h4⟩ := h2 us hl
  rw [h1]
  rcases lt_or_ge (x ⬝ᵥ (backLoop Q R sys lo k).2 *ᵥ x) (lqCost Q R sys lo x us) with h | h
  · exact h
  · exact absurd (h4 h) hne

lemma back_drop {n m : Nat} (Q : Mat n n) (R : Mat m m) (sys : Nat → Mat n n × Mat n m) (t : Nat) : ∀ lo k, t ≤ k →
    (backLoop Q R sys lo k).1.drop t = (backLoop Q R sys (lo + t) (k - t)).1 := by
  induction t with
  | zero => intro lo k _; simp
  | succ t ih =>
    intro lo k hk
    cases k with
    | zero => omega
    | succ k =>
      have := ih (lo + 1) k (by omega)
      simp only [backLoop, List.drop_succ_cons]
      rw [this]
      congr 2 <;> omega

/-- C155: for a positive semidefinite state weight and a positive definite control weight, `lqr_backward_pass` of the end-effector version returns one gain per time step with a successor, and from
every time step on the gains are the unique optimal feedback of the linear system for the rest of the horizon. -/
theorem C155_optimal {n m : Nat} {Q : Mat n n} (hQ : Q.PosSemidef) {R : Mat m m} (hR : R.PosDef) (sys : Nat → Mat n n × Mat n m) (horizon : Nat) :
    (backwardEff Q R sys horizon).length = horizon - 1 ∧ ∀ t ≤ horizon - 1, OptimalFrom Q R sys t ((backwardEff Q R sys horizon).drop t) := by
  refine ⟨back_length Q R sys _ 0, fun t ht => ?_⟩
  unfold backwardEff
  rw [back_drop Q R sys t 0 _ ht, Nat.zero_add]
  exact back_optimal hQ hR sys t _

/-! ### C156: the centroidal version starts at time step one -/

/-- C156 (what holds): the gains of the centroidal version are those of the time steps from one on: row `i` belongs to time step `i + 1`. -/
theorem C156_rows_partial {n m : Nat} {Q : Mat n n} (hQ : Q.PosSemidef) {R : Mat m m} (hR : R.PosDef) (sys : Nat → Mat n n × Mat n m) (horizon : Nat) :
    backwardCent Q R sys horizon = (backwardEff Q R sys horizon).drop 1 ∧ (backwardCent Q R sys horizon).length = horizon - 2 ∧
    ∀ i ≤ horizon - 2, OptimalFrom Q R sys (i + 1) ((backwardCent Q R sys horizon).drop i) := by
  refine ⟨?_, back_length Q R sys _ 1, fun i hi => ?_⟩
  · unfold backwardCent backwardEff
    rcases Nat.eq_zero_or_pos (horizon - 1) with h | h
    · have : horizon - 2 = 0 := by omega
      rw [h, this]; rfl
    · rw [back_drop Q R sys 1 0 _ (by omega)]
      congr 2
  · unfold backwardCent
    rw [back_drop Q R sys i 1 _ hi, Nat.add_comm 1 i]
    exact back_optimal hQ hR sys (i + 1) _

lemma gain_zero {n m : Nat} (R : Mat m m) (A : Mat n n) (B : Mat n m) : gain R A B (0 : Mat n n) = 0 := by
  unfold gain; rw [Matrix.mul_zero, Matrix.zero_mul, smul_zero]

/-- C156 is violated: the first row of the file is not the gain of the first time step: whatever the trajectory, with unit weights and three samples the only row is zero, while the optimal gain at the first
time step is not. -/
theorem C156_first_row_violated (xs : Nat → St) :
    centroidalGains 1 1 xs 3 = [0] ∧ ∃ K0 : Mat 6 13, backwardEff 1 1 (fun t => discretise (linDyn (xs t))) 3 = [K0, 0] ∧ K0 ≠ 0 := by
  set sys := fun t => discretise (linDyn (xs t)) with hsys
  have h1 : backLoop 1 1 sys 1 1 = ([0], 1) := by
    have hg : gain 1 (sys 1).1 (sys 1).2 (0 : Mat 13 13) = 0 := gain_zero _ _ _
    show ([(lqrGains 1 1 (sys 1).1 (sys 1).2 0).1], (lqrGains 1 1 (sys 1).1 (sys 1).2 0).2) = _
    unfold lqrGains
    simp only [hg]
    simp
  refine ⟨by show (backLoop 1 1 sys 1 1).1 = _; rw [h1], gain 1 (sys 0).1 (sys 0).2 1, ?_, ?_⟩
  · show (gain 1 (sys 0).1 (sys 0).2 (backLoop 1 1 sys 1 1).2) :: (backLoop 1 1 sys 1 1).1 = _
    rw [h1]
  · intro h0
    have hR : (1 : Mat 6 6).PosDef := PosDef.one
    have hP : (1 : Mat 13 13).PosSemidef := PosSemidef.one
    have := gain_eq hR hP (sys 0).1 (sys 0).2
    rw [h0, Matrix.mul_zero, Matrix.mul_one] at this
    have he := congrFun (congrFun this 0) 3
    rw [neg_apply, mul_apply] at he
    have hterm : ∀ j : Fin 13, ((sys 0).2)ᵀ 0 j * (sys 0).1 j 3 = if j = 3 then 1 / 1000 * (1 / mass) else 0 := by
      intro j
      simp only [hsys, discretise, linDyn, transpose_apply, Matrix.smul_apply, Matrix.add_apply, smul_eq_mul]
      fin_cases j <;> simp [blockA, blockB, Matrix.one_apply]
    simp only [hterm, Finset.sum_ite_eq', Finset.mem_univ, if_true] at he
    unfold mass at he
    norm_num at he

/-! ### C157: the analytical linearisation -/

lemma quad_deriv {f : ℝ → ℝ} (a b c : ℝ) (hf : ∀ s, f s = a + b * s + c * s ^ 2) : HasDerivAt f b 0 := by
  have h : HasDerivAt (fun s : ℝ => a + b * s + c * s ^ 2) (0 + b * 1 + c * (2 * 0 ^ (2 - 1) * 1)) 0 :=
    ((hasDerivAt_const (0 : ℝ) a).add ((hasDerivAt_id (0 : ℝ)).const_mul b)).add (((hasDerivAt_id (0 : ℝ)).pow 2).const_mul c)
  have e : f = fun s => a + b * s + c * s ^ 2 := funext hf
  rw [e]
  convert h using 1
  ring

/-- The rows of the matrix with the quaternion block, written out. -/
lemma blockA_rows (x : St) (E : Mat 4 3) (d : St) :
    (blockA x E *ᵥ d) 0 = d 3 ∧ (blockA x E *ᵥ d) 1 = d 4 ∧ (blockA x E *ᵥ d) 2 = d 5 ∧ (blockA x E *ᵥ d) 3 = 0 ∧ (blockA x E *ᵥ d) 4 = 0 ∧ (blockA x E *ᵥ d) 5 = 0 ∧
    (blockA x E *ᵥ d) 6 = 1 / 2 * (x 12 * d 7 - x 11 * d 8 + x 10 * d 9) + (E 0 0 * d 10 + E 0 1 * d 11 + E 0 2 * d 12) ∧
    (blockA x E *ᵥ d) 7 = 1 / 2 * (-x 12 * d 6 + x 10 * d 8 + x 11 * d 9) + (E 1 0 * d 10 + E 1 1 * d 11 + E 1 2 * d 12) ∧
    (blockA x E *ᵥ d) 8 = 1 / 2 * (x 11 * d 6 - x 10 * d 7 + x 12 * d 9) + (E 2 0 * d 10 + E 2 1 * d 11 + E 2 2 * d 12) ∧
    (blockA x E *ᵥ d) 9 = 1 / 2 * (-x 10 * d 6 - x 11 * d 7 - x 12 * d 8) + (E 3 0 * d 10 + E 3 1 * d 11 + E 3 2 * d 12) := by
  refine ⟨?_, ?_, ?_, ?_, ?_, ?_, ?_, ?_, ?_, ?_⟩ <;>
  · simp only [mulVec, dotProduct, Fin.sum_univ_succ, Finset.univ_unique, Finset.sum_singleton]
    simp [blockA, omega, qIx, wIx]
    try ring

/-- Rows of the position, velocity and quaternion of the dynamics do not depend on the orientation of the inertia. -/
lemma dyn_row (x : St) (u : Fin 6 → ℝ) (r : Fin 13) (h : (r : Nat) < 10) : dyn x u r = (blockA x 0 *ᵥ x) r + (blockB 1 *ᵥ u) r := by
  unfold dyn
  rw [Pi.add_apply]
  congr 1
  rw [mulVec, mulVec, dotProduct, dotProduct]
  refine Finset.sum_congr rfl fun c _ => ?_
  congr 1
  simp only [blockB, of_apply]
  split_ifs <;> first | rfl | omega

/-- `D` is the matrix of partial derivatives of row `r` of `f` at `x`, in every direction. -/
def RowDeriv {n : Nat} (f : (Fin n → ℝ) → St) (x : Fin n → ℝ) (D : Mat 13 n) (r : Fin 13) : Prop := ∀ d, HasDerivAt (fun s : ℝ => f (x + s • d) r) ((D *ᵥ d) r) 0

/-- C157 (what holds, states): the rows of position, velocity and quaternion of the matrix of `analytical_lin_dyn` are the derivatives of `compute_dyn`, except that the row of the first (third)
entry of the quaternion is so only when the second (first) entry is zero. -/
theorem C157_states_partial (x : St) (u : Fin 6 → ℝ) (r : Fin 13) (hr : (r : Nat) < 10) :
    RowDeriv (fun y => dyn y u) x (linDyn x).1 r ↔ (r = 6 → x 7 = 0) ∧ (r = 8 → x 6 = 0) := by
  have hrow : ∀ (d : St) (s : ℝ), dyn (x + s • d) u r = (blockA (x + s • d) 0 *ᵥ (x + s • d)) r + (blockB 1 *ᵥ u) r := fun d s => dyn_row _ _ r hr
  have hlin : ∀ d : St, ((linDyn x).1 *ᵥ d) r = (blockA x ((1 / 2 : ℝ) • pdOmega x) *ᵥ d) r := fun d => rfl
  have key : ∀ d : St, ∃ b, HasDerivAt (fun s : ℝ => dyn (x + s • d) u r) b 0 ∧
      b = ((linDyn x).1 *ᵥ d) r + (if r = 6 then x 7 * d 12 else 0) + (if r = 8 then x 6 * d 11 else 0) := by
    intro d
    simp only [hrow, hlin]
    have ha : ∀ s : ℝ, _ := fun s => blockA_rows (x + s • d) 0 (x + s • d)
    obtain ⟨l0, l1, l2, l3, l4, l5, l6, l7, l8, l9⟩ := blockA_rows x ((1 / 2 : ℝ) • pdOmega x) d
    simp only [Pi.add_apply, Pi.smul_apply, smul_eq_mul, Matrix.zero_apply] at ha
    have hc : r = 0 ∨ r = 1 ∨ r = 2 ∨ r = 3 ∨ r = 4 ∨ r = 5 ∨ r = 6 ∨ r = 7 ∨ r = 8 ∨ r = 9 := by
      simp only [Fin.ext_iff]; show (r : Nat) = 0 ∨ (r : Nat) = 1 ∨ (r : Nat) = 2 ∨ (r : Nat) = 3 ∨ (r : Nat) = 4 ∨ (r : Nat) = 5 ∨ (r : Nat) = 6 ∨ (r : Nat) = 7 ∨ (r : Nat) = 8 ∨ (r : Nat) = 9
      omega
    refine ⟨_, ?_, rfl⟩
    rcases hc with h | h | h | h | h | h | h | h | h | h <;> subst h
    · refine quad_deriv (x 3 + (blockB 1 *ᵥ u) 0) _ 0 fun s => ?_
      rw [(ha s).1, l0]; simp; ring
    · refine quad_deriv (x 4 + (blockB 1 *ᵥ u) 1) _ 0 fun s => ?_
      rw [(ha s).2.1, l1]; simp; ring
    · refine quad_deriv (x 5 + (blockB 1 *ᵥ u) 2) _ 0 fun s => ?_
      rw [(ha s).2.2.1, l2]; simp; ring
    · refine quad_deriv ((blockB 1 *ᵥ u) 3) _ 0 fun s => ?_
      rw [(ha s).2.2.2.1, l3]; simp
    · refine quad_deriv ((blockB 1 *ᵥ u) 4) _ 0 fun s => ?_
      rw [(ha s).2.2.2.2.1, l4]; simp
    · refine quad_deriv ((blockB 1 *ᵥ u) 5) _ 0 fun s => ?_
      rw [(ha s).2.2.2.2.2.1, l5]; simp
    · refine quad_deriv (1 / 2 * (x 12 * x 7 - x 11 * x 8 + x 10 * x 9) + (blockB 1 *ᵥ u) 6) _ (1 / 2 * (d 12 * d 7 - d 11 * d 8 + d 10 * d 9)) fun s => ?_
      rw [(ha s).2.2.2.2.2.2.1, l6]; simp [pdOmega, Matrix.smul_apply]; ring
    · refine quad_deriv (1 / 2 * (-x 12 * x 6 + x 10 * x 8 + x 11 * x 9) + (blockB 1 *ᵥ u) 7) _ (1 / 2 * (-d 12 * d 6 + d 10 * d 8 + d 11 * d 9)) fun s => ?_
      rw [(ha s).2.2.2.2.2.2.2.1, l7]; simp [pdOmega, Matrix.smul_apply]; ring
    · refine quad_deriv (1 / 2 * (x 11 * x 6 - x 10 * x 7 + x 12 * x 9) + (blockB 1 *ᵥ u) 8) _ (1 / 2 * (d 11 * d 6 - d 10 * d 7 + d 12 * d 9)) fun s => ?_
      rw [(ha s).2.2.2.2.2.2.2.2.1, l8]; simp [pdOmega, Matrix.smul_apply]; ring
    · refine quad_deriv (1 / 2 * (-x 10 * x 6 - x 11 * x 7 - x 12 * x 8) + (blockB 1 *ᵥ u) 9) _ (1 / 2 * (-d 10 * d 6 - d 11 * d 7 - d 12 * d 8)) fun s => ?_
      rw [(ha s).2.2.2.2.2.2.2.2.2, l9]; simp [pdOmega, Matrix.smul_apply]; ring
  constructor
  · intro hd
    constructor
    · intro h6
      obtain ⟨b, hb, he⟩ := key (Pi.single 12 1)
      have := hb.unique (hd (Pi.single 12 1))
      rw [he, h6] at this
      simpa using this
    · intro h8
      obtain ⟨b, hb, he⟩ := key (Pi.single 11 1)
      have := hb.unique (hd (Pi.single 11 1))
      rw [he, h8] at this
      simpa using this
  · rintro ⟨h6, h8⟩ d
    obtain ⟨b, hb, he⟩ := key d
    have : b = ((linDyn x).1 *ᵥ d) r := by
      rw [he]
      have e1 : (if r = 6 then x 7 * d 12 else 0) = 0 := by
        split_ifs with h
        · rw [h6 h, zero_mul]
        · rfl
      have e2 : (if r = 8 then x 6 * d 11 else 0) = 0 := by
        split_ifs with h
        · rw [h8 h, zero_mul]
        · rfl
      rw [e1, e2]; ring
    rw [← this]
    exact hb

/-- C157 is violated: rolled by a half turn, the analytic linearisation is not the derivative of the dynamics. -/
theorem C157_violated : ∃ x : St, x 6 ^ 2 + x 7 ^ 2 + x 8 ^ 2 + x 9 ^ 2 = 1 ∧ ∀ u, ¬ RowDeriv (fun y => dyn y u) x (linDyn x).1 8 := by
  refine ⟨Pi.single 6 1, by simp [Pi.single_apply], fun u h => ?_⟩
  rw [C157_states_partial _ _ _ (by decide)] at h
  have := h.2 rfl
  simp at this

/-- A level state with a yaw meets the conditions. -/
example (u : Fin 6 → ℝ) (r : Fin 13) (hr : (r : Nat) < 10) : RowDeriv (fun y => dyn y u) (Pi.single 8 (3 / 5) + Pi.single 9 (4 / 5)) (linDyn (Pi.single 8 (3 / 5) + Pi.single 9 (4 / 5))).1 r := by
  rw [C157_states_partial _ _ _ hr]
  simp [Pi.single_apply]

lemma rot_id {x : St} (h6 : x 6 = 0) (h7 : x 7 = 0) (h8 : x 8 = 0) (h9 : x 9 ≠ 0) : rot x = 1 := by
  unfold rot
  rw [h6, h7, h8]
  ext i j
  have : (1 / x 9 ^ 2) * x 9 ^ 2 = 1 := by field_simp
  fin_cases i <;> fin_cases j <;> simp [h9]

/-- C157 (what holds, controls): upright, the second matrix of `analytical_lin_dyn` is the exact effect of a change of the wrench. -/
theorem C157_controls_partial {x : St} (h6 : x 6 = 0) (h7 : x 7 = 0) (h8 : x 8 = 0) (h9 : x 9 ≠ 0) (u v : Fin 6 → ℝ) : dyn x (u + v) - dyn x u = (linDyn x).2 *ᵥ v := by
  unfold dyn linDyn
  rw [rot_id h6 h7 h8 h9, Matrix.one_mul, transpose_one, Matrix.mul_one, mulVec_add]
  abel

lemma inertia_eq : inertia = !![578574 / 10 ^ 8, 0, 0; 0, 1938108 / 10 ^ 8, 0; 0, 0, 2476124 / 10 ^ 8] := by
  ext i j
  fin_cases i <;> fin_cases j <;> simp [inertia, diagonal_apply]

lemma diag_inv {a b c : ℝ} (ha : a ≠ 0) (hb : b ≠ 0) (hc : c ≠ 0) : (!![a, 0, 0; 0, b, 0; 0, 0, c] : Mat 3 3)⁻¹ = !![1 / a, 0, 0; 0, 1 / b, 0; 0, 0, 1 / c] := by
  refine inv_eq_right_inv ?_
  ext i j
  fin_cases i <;> fin_cases j <;> simp [Matrix.mul_apply, Fin.sum_univ_three, ha, hb, hc]

lemma inertia_inv : inertia⁻¹ = !![1 / (578574 / 10 ^ 8), 0, 0; 0, 1 / (1938108 / 10 ^ 8), 0; 0, 0, 1 / (2476124 / 10 ^ 8)] := by
  rw [inertia_eq, diag_inv] <;> norm_num

/-- C157 is violated for the controls: turned by a quarter about the vertical, the second matrix is not the effect of a change of the wrench, since it uses the inertia of the upright body. -/
theorem C157_controls_violated : ∃ x : St, x 6 = 0 ∧ x 7 = 0 ∧ ∃ u v : Fin 6 → ℝ, dyn x (u + v) - dyn x u ≠ (linDyn x).2 *ᵥ v := by
  set x : St := Pi.single 8 1 + Pi.single 9 1 with hx
  have e6 : x 6 = 0 := by simp [hx]
  have e7 : x 7 = 0 := by simp [hx]
  have e8 : x 8 = 1 := by simp [hx]
  have e9 : x 9 = 1 := by simp [hx]
  have hrot : rot x = !![0, -1, 0; 1, 0, 0; 0, 0, 1] := by
    unfold rot
    rw [e6, e7, e8, e9]
    ext i j
    fin_cases i <;> fin_cases j <;> norm_num
  have hM : rot x * inertia * (rot x)ᵀ = !![1938108 / 10 ^ 8, 0, 0; 0, 578574 / 10 ^ 8, 0; 0, 0, 2476124 / 10 ^ 8] := by
    rw [hrot, inertia_eq]
    ext i j
    fin_cases i <;> fin_cases j <;> simp [Matrix.mul_apply, Fin.sum_univ_three, vecMul, dotProduct]
  refine ⟨x, e6, e7, 0, Pi.single 3 1, fun h => ?_⟩
  have h1 := congrFun h 10
  unfold dyn linDyn at h1
  rw [mulVec_add, mulVec_zero, zero_add, add_zero, add_sub_cancel_left, mulVec_single_one, mulVec_single_one, hM, inertia_inv, diag_inv (by norm_num) (by norm_num) (by norm_num)] at h1
  norm_num [col_apply, blockB, wIx] at h1

end PyLqr
end Verif
