import Verif.Lqr
import Mathlib.Tactic.Linarith
import Mathlib.Tactic.NormNum
import Mathlib.Tactic.Ring
import Mathlib.Tactic.FinCases

/-! C37: the backward pass solves the linear-quadratic subproblem. -/
namespace Verif
namespace Lqr
open Matrix

/-! ### specification -/

/-- A quadratic function. -/
noncomputable def quad {n : Nat} (v : ℝ) (p : Vec n) (S : Mat n n) (y : Vec n) : ℝ := v + p ⬝ᵥ y + 1/2 * (y ⬝ᵥ S *ᵥ y)

/-- Quadratic model of the stage cost at time `t` in deviations `x`, `u` from the nominal trajectory, regularised by `lam`; `q` is the nominal cost. -/
noncomputable def stage {nx nu : Nat} (d : Devs nx nu) (q : ℝ) (lam : ℝ) (t : Nat) (x : Vec nx) (u : Vec nu) : ℝ :=
  q + d.cx t ⬝ᵥ x + d.cu t ⬝ᵥ u + 1/2 * (x ⬝ᵥ d.cxx t *ᵥ x) + x ⬝ᵥ d.cxu t *ᵥ u + 1/2 * (u ⬝ᵥ d.cuu t *ᵥ u) + 1/2 * lam * (u ⬝ᵥ u)

/-- Linear model of the dynamics. -/
noncomputable def lin {nx nu : Nat} (d : Devs nx nu) (t : Nat) (x : Vec nx) (u : Vec nu) : Vec nx := d.fx t *ᵥ x + d.fu t *ᵥ u

/-- Cost of the remaining `n` stages from time `T - n` on, state `x`, under the control law `pol`. -/
noncomputable def togo {nx nu : Nat} (d : Devs nx nu) (tc : Nat → ℝ) (lam : ℝ) (T : Nat) (pol : Nat → Vec nx → Vec nu) : Nat → Vec nx → ℝ
  | 0, x => quad (tc T) (d.cx T) (d.cxx T) x
  | n + 1, x => stage d (tc (T - (n + 1))) lam (T - (n + 1)) x (pol (T - (n + 1)) x) + togo d tc lam T pol n (lin d (T - (n + 1)) x (pol (T - (n + 1)) x))

/-! ### proofs -/

theorem mulVec_dot {m n : Nat} (B : Mat m n) (u : Vec n) (w : Vec m) : B *ᵥ u ⬝ᵥ w = u ⬝ᵥ Bᵀ *ᵥ w := by
  rw [Matrix.dotProduct_mulVec, Matrix.vecMul_transpose]

theorem sym_dot {n : Nat} {S : Mat n n} (hS : Sᵀ = S) (a b : Vec n) : a ⬝ᵥ S *ᵥ b = b ⬝ᵥ S *ᵥ a := by
  rw [dotProduct_comm a, mulVec_dot, hS]

theorem dot_self_nonneg {n : Nat} (x : Vec n) : 0 ≤ x ⬝ᵥ x := Finset.sum_nonneg fun i _ => mul_self_nonneg (x i)

theorem dot_self_pos {n : Nat} {x : Vec n} (hx : x ≠ 0) : 0 < x ⬝ᵥ x := by
  obtain ⟨i, hi⟩ := Function.ne_iff.mp hx
  exact Finset.sum_pos' (fun i _ => mul_self_nonneg (x i)) ⟨i, Finset.mem_univ i, mul_self_pos.mpr hi⟩

/-- What the loop leaves at time `t`. -/
structure StepOk {nx nu : Nat} (c : Setting nu) (d : Devs nx nu) (tc : Nat → ℝ) (u0 : Nat → Control nx nu) (lam : ℝ) (b : Bwd nx nu) (t : Nat) : Prop where
  pd : (lower (hessU d t (b.Vxx (t + 1)) lam)).PosDef
  ctrl : b.ctrl t = (let u : Control nx nu := ⟨-((lower (hessU d t (b.Vxx (t + 1)) lam))⁻¹ *ᵥ gradU d t (b.Vx (t + 1))),
      -((lower (hessU d t (b.Vxx (t + 1)) lam))⁻¹ * crossU d t (b.Vxx (t + 1)))⟩
    if c.hasLimits then constrained c t (lower (hessU d t (b.Vxx (t + 1)) lam)) (gradU d t (b.Vx (t + 1))) (u0 t).ff u else u)
  value : ∀ l L, l = -((lower (hessU d t (b.Vxx (t + 1)) lam))⁻¹ *ᵥ gradU d t (b.Vx (t + 1))) →
    L = -((lower (hessU d t (b.Vxx (t + 1)) lam))⁻¹ * crossU d t (b.Vxx (t + 1))) →
    ∀ Sn, Sn = d.cxx t + (d.fx t)ᵀ * b.Vxx (t + 1) * d.fx t + Lᵀ * hessU d t (b.Vxx (t + 1)) lam * L + Lᵀ * crossU d t (b.Vxx (t + 1)) + (crossU d t (b.Vxx (t + 1)))ᵀ * L →
    b.V t = tc t + b.V (t + 1) + 0.5 * (l ⬝ᵥ hessU d t (b.Vxx (t + 1)) lam *ᵥ l) + l ⬝ᵥ gradU d t (b.Vx (t + 1)) ∧
    b.Vx t = d.cx t + (d.fx t)ᵀ *ᵥ b.Vx (t + 1) + (hessU d t (b.Vxx (t + 1)) lam * L)ᵀ *ᵥ l + (crossU d t (b.Vxx (t + 1)))ᵀ *ᵥ l + Lᵀ *ᵥ gradU d t (b.Vx (t + 1)) ∧
    b.Vxx t = (0.5 : ℝ) • (Sn + Snᵀ)

theorem StepOk.congr {nx nu : Nat} {c : Setting nu} {d : Devs nx nu} {tc : Nat → ℝ} {u0 : Nat → Control nx nu} {lam : ℝ} {b b' : Bwd nx nu} {t : Nat}
    (h : StepOk c d tc u0 lam b t) (hc : b'.ctrl t = b.ctrl t) (h1 : ∀ s, t ≤ s → b'.V s = b.V s ∧ b'.Vx s = b.Vx s ∧ b'.Vxx s = b.Vxx s) :
    StepOk c d tc u0 lam b' t := by
  obtain ⟨a1, a2, a3⟩ := h1 t le_rfl
  obtain ⟨e1, e2, e3⟩ := h1 (t + 1) (by omega)
  refine ⟨?_, ?_, ?_⟩
  · rw [e3]; exact h.pd
  · rw [hc, e2, e3]; exact h.ctrl
  · rw [a1, a2, a3, e1, e2, e3]; exact h.value

theorem bwdLoop_spec {nx nu : Nat} (c : Setting nu) (d : Devs nx nu) (tc : Nat → ℝ) (u0 : Nat → Control nx nu) (lam : ℝ) : ∀ (k : Nat) (b : Bwd nx nu),
    (∀ t, k ≤ t → (bwdLoop c d tc u0 lam k b).V t = b.V t ∧ (bwdLoop c d tc u0 lam k b).Vx t = b.Vx t ∧ (bwdLoop c d tc u0 lam k b).Vxx t = b.Vxx t ∧
      (bwdLoop c d tc u0 lam k b).ctrl t = b.ctrl t) ∧
    (b.diverged = false → (bwdLoop c d tc u0 lam k b).diverged = false → ∀ t, t < k → StepOk c d tc u0 lam (bwdLoop c d tc u0 lam k b) t) := by
  intro k
  induction k with
  | zero => intro b; exact ⟨fun t _ => ⟨rfl, rfl, rfl, rfl⟩, fun _ _ t ht => by omega⟩
  | succ k ih =>
    intro b
    rw [bwdLoop]
    simp only
    by_cases hpd : (lower (hessU d k (b.Vxx (k + 1)) lam)).PosDef
    · rw [if_neg (not_not.mpr hpd)]
      generalize hb1 : ({ b with ctrl := _, V := _, Vx := _, Vxx := _ } : Bwd nx nu) = b1
      obtain ⟨i1, i2⟩ := ih b1
      have same : ∀ t, k + 1 ≤ t → b1.V t = b.V t ∧ b1.Vx t = b.Vx t ∧ b1.Vxx t = b.Vxx t ∧ b1.ctrl t = b.ctrl t := by
        intro t ht
        have hne : t ≠ k := by omega
        subst hb1
        simp only [Function.update_of_ne hne, and_self]
      constructor
      · intro t ht
        obtain ⟨p1, p2, p3, p4⟩ := i1 t (by omega)
        obtain ⟨q1, q2, q3, q4⟩ := same t ht
        exact ⟨p1.trans q1, p2.trans q2, p3.trans q3, p4.trans q4⟩
      · intro hd hfin t ht
        rcases Nat.lt_succ_iff_lt_or_eq.mp ht with h | h
        · exact i2 (by subst hb1; exact hd) hfin t h
        · subst h
          have hk : StepOk c d tc u0 lam b1 t := by
            obtain ⟨q1, q2, q3, -⟩ := same (t + 1) le_rfl
            refine ⟨by rw [q3]; exact hpd, ?_, ?_⟩
            · rw [q2, q3]; subst hb1; simp only [Function.update_self]
            · rw [q1, q2, q3]
              intro l L hl hL Sn hS
              subst hl hL hS hb1
              simp only [Function.update_self, and_self]
          refine hk.congr (i1 t le_rfl).2.2.2 fun s hs => ⟨(i1 s hs).1, (i1 s hs).2.1, (i1 s hs).2.2.1⟩
    · rw [if_pos hpd]
      exact ⟨fun t _ => ⟨rfl, rfl, rfl, rfl⟩, fun _ h => by simp at h⟩

theorem lower_sym {n : Nat} {H : Mat n n} (h : Hᵀ = H) : lower H = H := by
  ext i j
  unfold lower
  split
  · rfl
  · have := congrFun (congrFun h i) j; simpa [Matrix.transpose_apply] using this

theorem hess_sym {nx nu : Nat} {d : Devs nx nu} {t : Nat} {S : Mat nx nx} {lam : ℝ} (hS : Sᵀ = S) (hR : (d.cuu t)ᵀ = d.cuu t) : (hessU d t S lam)ᵀ = hessU d t S lam := by
  unfold hessU
  simp only [Matrix.transpose_add, Matrix.transpose_mul, Matrix.transpose_transpose, Matrix.transpose_smul, Matrix.transpose_one, hS, hR, Matrix.mul_assoc]

/-- Expansion of the one-step cost. -/
theorem onestep {nx nu : Nat} (d : Devs nx nu) (q lam v : ℝ) (p : Vec nx) (S : Mat nx nx) (hS : Sᵀ = S) (t : Nat) (x : Vec nx) (u : Vec nu) :
    stage d q lam t x u + quad v p S (lin d t x u) =
      (q + v + (d.cx t + (d.fx t)ᵀ *ᵥ p) ⬝ᵥ x + 1/2 * (x ⬝ᵥ (d.cxx t + (d.fx t)ᵀ * S * d.fx t) *ᵥ x)) +
      u ⬝ᵥ (gradU d t p + crossU d t S *ᵥ x) + 1/2 * (u ⬝ᵥ hessU d t S lam *ᵥ u) := by
  have e1 : p ⬝ᵥ lin d t x u = (d.fx t)ᵀ *ᵥ p ⬝ᵥ x + u ⬝ᵥ (d.fu t)ᵀ *ᵥ p := by
    unfold lin
    rw [dotProduct_add, dotProduct_comm p (d.fx t *ᵥ x), dotProduct_comm p (d.fu t *ᵥ u), mulVec_dot, mulVec_dot, dotProduct_comm x]
  have e2 : lin d t x u ⬝ᵥ S *ᵥ lin d t x u = x ⬝ᵥ ((d.fx t)ᵀ * S * d.fx t) *ᵥ x + 2 * (u ⬝ᵥ ((d.fu t)ᵀ * S * d.fx t) *ᵥ x) + u ⬝ᵥ ((d.fu t)ᵀ * S * d.fu t) *ᵥ u := by
    unfold lin
    rw [Matrix.mulVec_add, dotProduct_add, add_dotProduct, add_dotProduct]
    have cr : (d.fx t *ᵥ x) ⬝ᵥ S *ᵥ (d.fu t *ᵥ u) = (d.fu t *ᵥ u) ⬝ᵥ S *ᵥ (d.fx t *ᵥ x) := sym_dot hS _ _
    rw [cr]
    simp only [mulVec_dot, Matrix.mulVec_mulVec, Matrix.mul_assoc]
    ring
  have e3 : x ⬝ᵥ d.cxu t *ᵥ u = u ⬝ᵥ (d.cxu t)ᵀ *ᵥ x := by rw [dotProduct_comm, mulVec_dot]
  unfold stage quad
  rw [e1, e2, e3]
  unfold gradU crossU hessU
  simp only [Matrix.add_mulVec, dotProduct_add, add_dotProduct, Matrix.smul_mulVec, Matrix.one_mulVec, dotProduct_smul, smul_eq_mul]
  rw [dotProduct_comm (d.cu t) u]
  ring

/-- Completing the square. -/
theorem square {n : Nat} {H : Mat n n} (hs : Hᵀ = H) (k w : Vec n) (hw : H *ᵥ w = -k) (u : Vec n) :
    u ⬝ᵥ k + 1/2 * (u ⬝ᵥ H *ᵥ u) = w ⬝ᵥ k + 1/2 * (w ⬝ᵥ H *ᵥ w) + 1/2 * ((u - w) ⬝ᵥ H *ᵥ (u - w)) := by
  rw [Matrix.mulVec_sub, dotProduct_sub, sub_dotProduct, sub_dotProduct, sym_dot hs w u, hw]
  simp only [dotProduct_neg]
  ring

theorem posDef_pos {n : Nat} {H : Mat n n} (hp : H.PosDef) {x : Vec n} (hx : x ≠ 0) : 0 < x ⬝ᵥ H *ᵥ x := by
  have := hp.dotProduct_mulVec_pos hx
  simpa using this

theorem posDef_nonneg {n : Nat} {H : Mat n n} (hp : H.PosDef) (x : Vec n) : 0 ≤ x ⬝ᵥ H *ᵥ x := by
  by_cases h : x = 0
  · rw [h]; simp
  · exact (posDef_pos hp h).le

/-- Expansion of the value function. -/
theorem value_expand {nx nu : Nat} {H : Mat nu nu} (hH : Hᵀ = H) (a : ℝ) (r : Vec nx) (M : Mat nx nx) (g : Vec nu) (G : Mat nu nx) (l : Vec nu) (L : Mat nu nx)
    (Sn : Mat nx nx) (hSn : Sn = M + Lᵀ * H * L + Lᵀ * G + Gᵀ * L) (x : Vec nx) :
    quad (a + 0.5 * (l ⬝ᵥ H *ᵥ l) + l ⬝ᵥ g) (r + (H * L)ᵀ *ᵥ l + Gᵀ *ᵥ l + Lᵀ *ᵥ g) ((0.5 : ℝ) • (Sn + Snᵀ)) x =
      (a + r ⬝ᵥ x + 1/2 * (x ⬝ᵥ M *ᵥ x)) + (l + L *ᵥ x) ⬝ᵥ (g + G *ᵥ x) + 1/2 * ((l + L *ᵥ x) ⬝ᵥ H *ᵥ (l + L *ᵥ x)) := by
  have t1 : x ⬝ᵥ Snᵀ *ᵥ x = x ⬝ᵥ Sn *ᵥ x := by
    conv_lhs => rw [← mulVec_dot, dotProduct_comm]
  have t2 : (H * L)ᵀ *ᵥ l ⬝ᵥ x = l ⬝ᵥ H *ᵥ (L *ᵥ x) := by
    rw [mulVec_dot, Matrix.transpose_transpose, Matrix.mulVec_mulVec]
  have t3 : Gᵀ *ᵥ l ⬝ᵥ x = l ⬝ᵥ G *ᵥ x := by rw [mulVec_dot, Matrix.transpose_transpose]
  have t4 : Lᵀ *ᵥ g ⬝ᵥ x = L *ᵥ x ⬝ᵥ g := by rw [mulVec_dot, Matrix.transpose_transpose, dotProduct_comm]
  have t5 : x ⬝ᵥ (Lᵀ * H * L) *ᵥ x = L *ᵥ x ⬝ᵥ H *ᵥ (L *ᵥ x) := by
    simp only [mulVec_dot, Matrix.mulVec_mulVec, Matrix.mul_assoc]
  have t6 : x ⬝ᵥ (Lᵀ * G) *ᵥ x = L *ᵥ x ⬝ᵥ G *ᵥ x := by simp only [mulVec_dot, Matrix.mulVec_mulVec]
  have t7 : x ⬝ᵥ (Gᵀ * L) *ᵥ x = L *ᵥ x ⬝ᵥ G *ᵥ x := by
    rw [dotProduct_comm (L *ᵥ x)]
    simp only [mulVec_dot, Matrix.mulVec_mulVec]
  unfold quad
  rw [Matrix.smul_mulVec, dotProduct_smul, Matrix.add_mulVec, dotProduct_add, t1, hSn]
  simp only [Matrix.add_mulVec, Matrix.mulVec_add, dotProduct_add, add_dotProduct, t2, t3, t4, t5, t6, t7, smul_eq_mul]
  rw [sym_dot hH (L *ᵥ x) l]
  ring

section
variable {nx nu : Nat} (T : Nat) (c : Setting nu) (d : Devs nx nu) (tc : Nat → ℝ) (u0 : Nat → Control nx nu) (lam : ℝ) (b : Bwd nx nu)

/-- The value function of the backward pass at time `t`. -/
noncomputable def Bwd.value {nx nu : Nat} (b : Bwd nx nu) (t : Nat) (x : Vec nx) : ℝ := quad (b.V t) (b.Vx t) (b.Vxx t) x

/-- C37, one step. For every horizon, dimension, derivative data with symmetric second derivatives, and regularisation: if no Cholesky failure is
reported, then at every time the stored control law is the unique minimiser, for every deviation `x`, of the regularised quadratic model of stage cost
plus value at the successor, and the value function is that minimum. (Without control limits; with limits the value recursion still uses the unconstrained law.) -/
theorem C37_step (hlim : c.hasLimits = false) (hQ : ∀ t, t ≤ T → (d.cxx t)ᵀ = d.cxx t) (hR : ∀ t, t < T → (d.cuu t)ᵀ = d.cuu t)
    (hok : (backward T c d tc u0 lam b).diverged = false) :
    (∀ x, (backward T c d tc u0 lam b).value T x = quad (tc T) (d.cx T) (d.cxx T) x) ∧
    ∀ t, t < T → ∀ x u,
      let b' := backward T c d tc u0 lam b
      let w := (b'.ctrl t).ff + (b'.ctrl t).fb *ᵥ x
      b'.value t x = stage d (tc t) lam t x w + b'.value (t + 1) (lin d t x w) ∧
      stage d (tc t) lam t x w + b'.value (t + 1) (lin d t x w) ≤ stage d (tc t) lam t x u + b'.value (t + 1) (lin d t x u) ∧
      (stage d (tc t) lam t x u + b'.value (t + 1) (lin d t x u) ≤ stage d (tc t) lam t x w + b'.value (t + 1) (lin d t x w) → u = w) := by
  unfold backward at hok ⊢
  generalize hb0 : ({ b with diverged := false, divIter := -1, Vx := _, Vxx := _, V := _ } : Bwd nx nu) = b0 at hok ⊢
  obtain ⟨h1, h2⟩ := bwdLoop_spec c d tc u0 lam T b0
  generalize hb' : bwdLoop c d tc u0 lam T b0 = b' at hok h1 h2 ⊢
  have h2 := h2 (by subst hb0; rfl) hok
  obtain ⟨f1, f2, f3, -⟩ := h1 T le_rfl
  have g1 : b0.V T = tc T := by subst hb0; simp
  have g2 : b0.Vx T = d.cx T := by subst hb0; simp
  have g3 : b0.Vxx T = d.cxx T := by subst hb0; simp
  have hsym : ∀ t, t ≤ T → (b'.Vxx t)ᵀ = b'.Vxx t := by
    intro t ht
    rcases Nat.lt_or_ge t T with h | h
    · obtain ⟨-, -, e⟩ := (h2 t h).value _ _ rfl rfl _ rfl
      rw [e]
      simp only [Matrix.transpose_smul, Matrix.transpose_add, Matrix.transpose_transpose]
      rw [add_comm]
    · have : t = T := by omega
      rw [this, f3, g3]; exact hQ T le_rfl
  refine ⟨fun x => by unfold Bwd.value; rw [f1, f2, f3, g1, g2, g3], fun t ht x u => ?_⟩
  have hS := hsym (t + 1) (by omega)
  have hH := hess_sym (lam := lam) hS (hR t ht)
  have hst := h2 t ht
  have hpd := hst.pd
  have hctrl := hst.ctrl
  rw [lower_sym hH] at hpd hctrl
  simp only [hlim, Bool.false_eq_true, if_false] at hctrl
  have hval := hst.value
  rw [lower_sym hH] at hval
  have hunit : IsUnit (hessU d t (b'.Vxx (t + 1)) lam).det := (Matrix.isUnit_iff_isUnit_det _).mp hpd.isUnit
  have hff : (b'.ctrl t).ff = -((hessU d t (b'.Vxx (t + 1)) lam)⁻¹ *ᵥ gradU d t (b'.Vx (t + 1))) := by rw [hctrl]
  have hfb : (b'.ctrl t).fb = -((hessU d t (b'.Vxx (t + 1)) lam)⁻¹ * crossU d t (b'.Vxx (t + 1))) := by rw [hctrl]
  simp only
  have hw : hessU d t (b'.Vxx (t + 1)) lam *ᵥ ((b'.ctrl t).ff + (b'.ctrl t).fb *ᵥ x) = -(gradU d t (b'.Vx (t + 1)) + crossU d t (b'.Vxx (t + 1)) *ᵥ x) := by
    rw [hff, hfb, Matrix.mulVec_add, Matrix.mulVec_neg, Matrix.neg_mulVec, Matrix.mulVec_neg, Matrix.mulVec_mulVec, Matrix.mulVec_mulVec,
      ← Matrix.mul_assoc, Matrix.mul_nonsing_inv _ hunit, Matrix.one_mulVec, Matrix.one_mul, neg_add]
  obtain ⟨v1, v2, v3⟩ := hval _ _ hff hfb _ rfl
  generalize hwd : (b'.ctrl t).ff + (b'.ctrl t).fb *ᵥ x = w at hw ⊢
  have J : ∀ u, stage d (tc t) lam t x u + b'.value (t + 1) (lin d t x u) =
      (tc t + b'.V (t + 1) + (d.cx t + (d.fx t)ᵀ *ᵥ b'.Vx (t + 1)) ⬝ᵥ x + 1/2 * (x ⬝ᵥ (d.cxx t + (d.fx t)ᵀ * b'.Vxx (t + 1) * d.fx t) *ᵥ x)) +
      (w ⬝ᵥ (gradU d t (b'.Vx (t + 1)) + crossU d t (b'.Vxx (t + 1)) *ᵥ x) + 1/2 * (w ⬝ᵥ hessU d t (b'.Vxx (t + 1)) lam *ᵥ w)) +
      1/2 * ((u - w) ⬝ᵥ hessU d t (b'.Vxx (t + 1)) lam *ᵥ (u - w)) := by
    intro u
    have := onestep d (tc t) lam (b'.V (t + 1)) (b'.Vx (t + 1)) (b'.Vxx (t + 1)) hS t x u
    unfold Bwd.value
    rw [this]
    have := square hH _ w hw u
    linarith
  refine ⟨?_, ?_, fun hle => ?_⟩
  · rw [J w, sub_self]
    unfold Bwd.value
    rw [v1, v2, v3]
    have := value_expand hH (tc t + b'.V (t + 1)) (d.cx t + (d.fx t)ᵀ *ᵥ b'.Vx (t + 1)) (d.cxx t + (d.fx t)ᵀ * b'.Vxx (t + 1) * d.fx t)
      (gradU d t (b'.Vx (t + 1))) (crossU d t (b'.Vxx (t + 1))) (b'.ctrl t).ff (b'.ctrl t).fb _ rfl x
    rw [hwd] at this
    rw [this, Matrix.mulVec_zero, dotProduct_zero]
    ring
  · rw [J w, J u, sub_self, Matrix.mulVec_zero, dotProduct_zero]
    have := posDef_nonneg hpd (u - w)
    linarith
  · by_contra hne
    rw [J w, J u, sub_self, Matrix.mulVec_zero, dotProduct_zero] at hle
    have := posDef_pos hpd (sub_ne_zero.mpr hne)
    linarith

/-- C37, whole horizon: under the same hypotheses the value function at every time is the least cost-to-go of the regularised linear-quadratic model over all
control laws (so over all control sequences), attained by the stored law. -/
theorem C37_dynamic_programming (hlim : c.hasLimits = false) (hQ : ∀ t, t ≤ T → (d.cxx t)ᵀ = d.cxx t) (hR : ∀ t, t < T → (d.cuu t)ᵀ = d.cuu t)
    (hok : (backward T c d tc u0 lam b).diverged = false) (n : Nat) (hn : n ≤ T) (x : Vec nx) :
    let b' := backward T c d tc u0 lam b
    b'.value (T - n) x = togo d tc lam T (fun t x => (b'.ctrl t).ff + (b'.ctrl t).fb *ᵥ x) n x ∧
    ∀ pol, b'.value (T - n) x ≤ togo d tc lam T pol n x := by
  obtain ⟨hT, hstep⟩ := C37_step T c d tc u0 lam b hlim hQ hR hok
  simp only at hstep ⊢
  generalize backward T c d tc u0 lam b = b' at hT hstep ⊢
  induction n generalizing x with
  | zero => exact ⟨hT x, fun pol => (hT x).le⟩
  | succ n ih =>
    have ht : T - (n + 1) < T := by omega
    have hs : T - (n + 1) + 1 = T - n := by omega
    constructor
    · rw [togo, (hstep _ ht x 0).1, hs, (ih (by omega) _).1]
    · intro pol
      obtain ⟨e, le, -⟩ := hstep _ ht x (pol (T - (n + 1)) x)
      rw [e, togo]
      refine le.trans ?_
      rw [hs]
      have := (ih (by omega) (lin d (T - (n + 1)) x (pol (T - (n + 1)) x))).2 pol
      linarith
end

/-! ### convex subproblems -/

/-- The quadratic model is convex: terminal weight positive semidefinite, stage costs jointly convex and strictly convex in the control. -/
structure Convex {nx nu : Nat} (T : Nat) (d : Devs nx nu) : Prop where
  symQ : ∀ t, t ≤ T → (d.cxx t)ᵀ = d.cxx t
  symR : ∀ t, t < T → (d.cuu t)ᵀ = d.cuu t
  final : ∀ x, 0 ≤ x ⬝ᵥ d.cxx T *ᵥ x
  joint : ∀ t, t < T → ∀ x u, 0 ≤ 1/2 * (x ⬝ᵥ d.cxx t *ᵥ x) + x ⬝ᵥ d.cxu t *ᵥ u + 1/2 * (u ⬝ᵥ d.cuu t *ᵥ u)
  strict : ∀ t, t < T → ∀ u, u ≠ 0 → 0 < u ⬝ᵥ d.cuu t *ᵥ u

theorem convex_loop {nx nu : Nat} (T : Nat) (c : Setting nu) (d : Devs nx nu) (tc : Nat → ℝ) (u0 : Nat → Control nx nu) (lam : ℝ) (hl : 0 ≤ lam) (hc : Convex T d) :
    ∀ k b, k ≤ T → b.diverged = false → (b.Vxx k)ᵀ = b.Vxx k → (∀ x, 0 ≤ x ⬝ᵥ b.Vxx k *ᵥ x) → (bwdLoop c d tc u0 lam k b).diverged = false := by
  intro k
  induction k with
  | zero => intro b _ hb _ _; exact hb
  | succ t ih =>
    intro b ht hb hS hP
    have hH := hess_sym (lam := lam) hS (hc.symR t (by omega))
    have hform : ∀ u : Vec nu, u ⬝ᵥ hessU d t (b.Vxx (t + 1)) lam *ᵥ u = u ⬝ᵥ d.cuu t *ᵥ u + (d.fu t *ᵥ u) ⬝ᵥ b.Vxx (t + 1) *ᵥ (d.fu t *ᵥ u) + lam * (u ⬝ᵥ u) := by
      intro u
      unfold hessU
      simp only [Matrix.add_mulVec, dotProduct_add, Matrix.smul_mulVec, Matrix.one_mulVec, dotProduct_smul, smul_eq_mul, mulVec_dot, Matrix.mulVec_mulVec, Matrix.mul_assoc]
    have hpd : (hessU d t (b.Vxx (t + 1)) lam).PosDef := by
      refine Matrix.PosDef.of_dotProduct_mulVec_pos ?_ ?_
      · unfold Matrix.IsHermitian
        rw [Matrix.conjTranspose_eq_transpose_of_trivial]; exact hH
      · intro u hu
        rw [star_trivial, hform u]
        have h1 := hc.strict t (by omega) u hu
        have h2 := hP (d.fu t *ᵥ u)
        have h3 : 0 ≤ u ⬝ᵥ u := dot_self_nonneg u
        have h4 := mul_nonneg hl h3
        linarith
    rw [bwdLoop]
    simp only
    rw [lower_sym hH, if_neg (not_not.mpr hpd)]
    refine ih _ (by omega) hb ?_ ?_
    · simp only [Function.update_self, Matrix.transpose_smul, Matrix.transpose_add, Matrix.transpose_transpose]
      rw [add_comm]
    · intro x
      simp only [Function.update_self]
      generalize hLd : -((hessU d t (b.Vxx (t + 1)) lam)⁻¹ * crossU d t (b.Vxx (t + 1))) = L
      generalize hSn : d.cxx t + (d.fx t)ᵀ * b.Vxx (t + 1) * d.fx t + Lᵀ * hessU d t (b.Vxx (t + 1)) lam * L + Lᵀ * crossU d t (b.Vxx (t + 1)) +
        (crossU d t (b.Vxx (t + 1)))ᵀ * L = Sn
      have e1 := value_expand hH 0 0 (d.cxx t + (d.fx t)ᵀ * b.Vxx (t + 1) * d.fx t) 0 (crossU d t (b.Vxx (t + 1))) 0 L Sn hSn.symm x
      have e2 := onestep { d with cx := fun _ => 0, cu := fun _ => 0 } 0 lam 0 0 (b.Vxx (t + 1)) hS t x (L *ᵥ x)
      simp only [stage, quad, gradU, crossU, hessU, lin] at e1 e2
      simp only [zero_dotProduct, dotProduct_zero, Matrix.mulVec_zero, zero_add, add_zero, mul_zero] at e1 e2
      have h1 := hc.joint t (by omega) x (L *ᵥ x)
      have h2 := hP (d.fx t *ᵥ x + d.fu t *ᵥ (L *ᵥ x))
      have h3 : 0 ≤ (L *ᵥ x) ⬝ᵥ (L *ᵥ x) := dot_self_nonneg (L *ᵥ x)
      have h4 := mul_nonneg hl h3
      linarith

/-- C64. On a convex linear-quadratic subproblem the backward pass never reports a Cholesky failure, whatever the non-negative regularisation, with or without
control limits. -/
theorem C64_convex_no_failure {nx nu : Nat} (T : Nat) (c : Setting nu) (d : Devs nx nu) (tc : Nat → ℝ) (u0 : Nat → Control nx nu) (lam : ℝ) (b : Bwd nx nu)
    (hl : 0 ≤ lam) (hc : Convex T d) : (backward T c d tc u0 lam b).diverged = false := by
  unfold backward
  refine convex_loop T c d tc u0 lam hl hc T _ le_rfl rfl ?_ ?_
  · simp only [Function.update_self]; exact hc.symQ T le_rfl
  · intro x; simp only [Function.update_self]; exact hc.final x

/-- Example data: one state, one control, `x' = x + u`, stage cost `½x² + ½u² + x`, for every horizon. -/
def exDevs : Devs 1 1 := ⟨fun _ => 1, fun _ => 1, fun _ _ => 1, fun _ => 0, fun _ => 1, fun _ => 0, fun _ => 1⟩

theorem exDevs_convex (T : Nat) : Convex T exDevs where
  symQ t _ := Matrix.transpose_one
  symR t _ := Matrix.transpose_one
  final x := by simp only [exDevs, Matrix.one_mulVec]; exact dot_self_nonneg x
  joint t _ x u := by
    simp only [exDevs, Matrix.one_mulVec, Matrix.zero_mulVec, dotProduct_zero]
    have h1 : 0 ≤ x ⬝ᵥ x := dot_self_nonneg x
    have h2 : 0 ≤ u ⬝ᵥ u := dot_self_nonneg u
    linarith
  strict t _ u hu := by
    simp only [exDevs, Matrix.one_mulVec]
    exact dot_self_pos hu

/-- The hypotheses of C37 and C64 are met for every horizon by `exDevs`. -/
example (T : Nat) (c : Setting 1) (tc : Nat → ℝ) (u0 : Nat → Control 1 1) : (∀ t, t ≤ T → (exDevs.cxx t)ᵀ = exDevs.cxx t) ∧
    (∀ t, t < T → (exDevs.cuu t)ᵀ = exDevs.cuu t) ∧ (backward T c exDevs tc u0 0 (Bwd.init 1 1)).diverged = false :=
  ⟨(exDevs_convex T).symQ, (exDevs_convex T).symR, C64_convex_no_failure T c exDevs tc u0 0 _ le_rfl (exDevs_convex T)⟩

end Lqr
end Verif
