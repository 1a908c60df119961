import Verif.PyManProps
import Verif.PyLqrProps
import Mathlib.Analysis.Real.Pi.Bounds

/-! C165-C168: the motion, the norm of the orientation along it, and differences of states. -/
namespace Verif
namespace PyMan
open Matrix Quaternion

/-! ### C165: one step of the motion -/

lemma inertia_posDef : PyLqr.inertia.PosDef := by
  unfold PyLqr.inertia
  rw [posDef_diagonal_iff]
  intro i
  fin_cases i <;> norm_num

lemma nsq_nonneg (q : Quat) : 0 ≤ nsq q := by unfold nsq; positivity

/-- The factorisation in `integrate_step` succeeds exactly for a quaternion that is not zero. -/
lemma worldI_posDef (q : Quat) : (worldI q).PosDef ↔ nsq q ≠ 0 := by
  unfold worldI
  constructor
  · intro h h0
    have hu := (isUnit_iff_isUnit_det _).1 h.isUnit
    rw [det_mul, det_mul, det_transpose, rot_det, h0] at hu
    norm_num at hu
  · intro h
    have hu : IsUnit (toRot q) := by
      rw [isUnit_iff_isUnit_det, rot_det, isUnit_iff_ne_zero]
      exact pow_ne_zero _ h
    have := inertia_posDef.mul_mul_conjTranspose_same (vecMul_injective_iff_isUnit.2 hu)
    rwa [conjTranspose_eq_transpose_of_trivial] at this

/-- The angular momentum of the robot with orientation `q` and angular velocity `w`, both in the world frame (specification): the velocity turned into the frame of the body, times the inertia of the body,
turned back. -/
noncomputable def spin (q : Quat) (w : V3) : V3 := toRot q *ᵥ (PyLqr.inertia *ᵥ ((toRot q)ᵀ *ᵥ w))

lemma worldI_spin (q : Quat) (w : V3) : worldI q *ᵥ w = spin q w := by
  unfold spin
  rw [mulVec_mulVec, mulVec_mulVec]
  rfl

/-- C165: `integrate_step` succeeds exactly when the quaternion is not zero; then it is one explicit Euler step of the equations of Newton and Euler under the wrench, which acts only during contact: position
with the present velocity, velocity with force and weight, and angular velocity with the inertia in the world frame, the moment and the gyroscopic moment. -/
theorem C165_step (act : ℝ) (x : X) (u : Fin 6 → ℝ) :
    (step act x u = none ↔ nsq x.q = 0) ∧
    ∀ y, step act x u = some y →
      (∀ i, y.c i - x.c i = dt * x.v i) ∧
      (∀ i : Fin 3, PyLqr.mass * (y.v i - x.v i) = dt * (act * u ⟨i, by omega⟩ - if i = 2 then PyLqr.mass * (981 / 100) else 0)) ∧
      (spin x.q (y.w - x.w) = dt • (act • (fun i : Fin 3 => u ⟨i + 3, by omega⟩) - crossProduct x.w (spin x.q x.w))) ∧
      toH y.q = toH (expQ ((dt / 2) • x.w)) * toH x.q := by
  constructor
  · unfold step
    by_cases h : (worldI x.q).PosDef
    · simp only [h, if_true, reduceCtorEq, false_iff]
      exact (worldI_posDef x.q).1 h
    · simp only [h, if_false, true_iff]
      by_contra hc
      exact h ((worldI_posDef x.q).2 hc)
  · intro y hy
    unfold step at hy
    split_ifs at hy with hpd
    rw [Option.some.injEq] at hy
    subst hy
    have hm : PyLqr.mass ≠ 0 := by norm_num [PyLqr.mass]
    refine ⟨fun i => ?_, fun i => ?_, ?_, ?_⟩
    · simp [stepVal]
    · have e : ∀ k : Fin 3, (stepVal act x u).v k - x.v k = (dt / PyLqr.mass) * (act * ![u 0, u 1, u 2] k - weight k) := by
        intro k; simp only [stepVal, Pi.add_apply, Pi.smul_apply, Pi.sub_apply, smul_eq_mul]; ring
      rw [e, ← mul_assoc, mul_div_cancel₀ _ hm]
      fin_cases i <;> simp [weight]
    · have hu : IsUnit (worldI x.q).det := (isUnit_iff_isUnit_det _).1 hpd.isUnit
      rw [← worldI_spin, ← worldI_spin]
      simp only [stepVal, add_sub_cancel_left]
      rw [mulVec_smul, mulVec_mulVec, mul_nonsing_inv _ hu, one_mulVec]
      congr 2
      funext i
      fin_cases i <;> rfl
    · show toH (integ x.q (dt • x.w)) = _
      unfold integ
      rw [C163_product, smul_smul]
      congr 4
      ring

/-- Without contact the wrench does not matter. -/
theorem C165_flight (x : X) (u u' : Fin 6 → ℝ) : step 0 x u = step 0 x u' := by
  unfold step stepVal
  simp only [zero_smul]

/-- A state that is not degenerate. -/
example : nsq (⟨0, 0, ⟨3 / 5, 0, 0, 4 / 5⟩, ![1, 0, 0]⟩ : X).q ≠ 0 := by norm_num [nsq]

/-! ### C166: the norm of the orientation -/

lemma exp_nsq_bounds (w : V3) : 1 - 1 / (12 * 10 ^ 12) ≤ nsq (expQ w) ∧ nsq (expQ w) ≤ 1 := by
  rcases le_or_gt (nrm w ^ 2) eps with h | h
  · rw [C164_small_norm h]
    have h4 : nrm w ^ 4 = (nrm w ^ 2) ^ 2 := by ring
    have h6 : nrm w ^ 6 = (nrm w ^ 2) ^ 3 := by ring
    rw [h4, h6]
    have he : eps = 1 / 10 ^ 6 := rfl
    rw [he] at h
    have h0 : 0 ≤ nrm w ^ 2 := sq_nonneg _
    set s := nrm w ^ 2
    have hs2 : s ^ 2 ≤ (1 / 10 ^ 6) ^ 2 := by gcongr
    constructor
    · have : 0 ≤ s ^ 3 := by positivity
      norm_num at hs2 ⊢
      linarith
    · have : s ^ 3 ≤ s ^ 2 := pow_le_pow_of_le_one h0 (by linarith) (by norm_num)
      nlinarith [sq_nonneg s]
  · rw [(C164_closed_form h).2]
    norm_num

/-- C166 (what holds): along the reference trajectory of `compute_trajectory_from_controls` no step raises for an initial quaternion that is not zero, and the squared norm of the quaternion never grows
and shrinks by at most `10⁻¹² / 12` of itself per step. -/
theorem C166_norm_partial (act : Nat → ℝ) (init : X) (u : Nat → Fin 6 → ℝ) (h0 : nsq init.q ≠ 0) (t : Nat) :
    ∃ x, traj act init u t = some x ∧ (1 - 1 / (12 * 10 ^ 12)) ^ t * nsq init.q ≤ nsq x.q ∧ nsq x.q ≤ nsq init.q := by
  induction t with
  | zero => exact ⟨init, rfl, by simp, le_rfl⟩
  | succ t ih =>
    obtain ⟨x, hx, hl, hu⟩ := ih
    have hp : 0 < nsq init.q := lt_of_le_of_ne (nsq_nonneg _) (Ne.symm h0)
    have hq : nsq x.q ≠ 0 := by
      have : 0 < (1 - 1 / (12 * 10 ^ 12) : ℝ) ^ t := pow_pos (by norm_num) _
      have := mul_pos this hp
      linarith
    refine ⟨stepVal (act t) x (u t), ?_, ?_⟩
    · simp only [traj, hx, Option.bind_some, step, (worldI_posDef x.q).2 hq, if_true]
    · have e : nsq (stepVal (act t) x (u t)).q = nsq (expQ ((1 / 2 : ℝ) • dt • x.w)) * nsq x.q := nsq_prod _ _
      rw [e]
      obtain ⟨h1, h2⟩ := exp_nsq_bounds ((1 / 2 : ℝ) • dt • x.w)
      have hx0 := nsq_nonneg x.q
      constructor
      · rw [pow_succ']
        calc (1 - 1 / (12 * 10 ^ 12)) * (1 - 1 / (12 * 10 ^ 12) : ℝ) ^ t * nsq init.q = (1 - 1 / (12 * 10 ^ 12) : ℝ) * ((1 - 1 / (12 * 10 ^ 12)) ^ t * nsq init.q) := by ring
          _ ≤ (1 - 1 / (12 * 10 ^ 12)) * nsq x.q := by
            apply mul_le_mul_of_nonneg_left hl
            norm_num
          _ ≤ nsq (expQ ((1 / 2 : ℝ) • dt • x.w)) * nsq x.q := mul_le_mul_of_nonneg_right h1 hx0
      · calc nsq (expQ ((1 / 2 : ℝ) • dt • x.w)) * nsq x.q ≤ 1 * nsq x.q := mul_le_mul_of_nonneg_right h2 hx0
          _ ≤ nsq init.q := by rw [one_mul]; exact hu

/-- C166 is violated: starting from a unit quaternion with any angular velocity of up to two radians per second but zero, the orientation after one step is not a unit quaternion. -/
theorem C166_violated (act : ℝ) (x : X) (u : Fin 6 → ℝ) (h1 : nsq x.q = 1) (hw : x.w ≠ 0) (h2 : nrm x.w ≤ 2) : ∃ y, step act x u = some y ∧ nsq y.q < 1 := by
  refine ⟨stepVal act x u, ?_, ?_⟩
  · simp only [step, (worldI_posDef x.q).2 (by rw [h1]; norm_num), if_true]
  · have e : nsq (stepVal act x u).q = nsq (expQ ((1 / 2 : ℝ) • dt • x.w)) * nsq x.q := nsq_prod _ _
    rw [e, h1, mul_one]
    apply C164_small_violated
    · have hs := nrm_sq x.w
      have hn := nrm_nonneg x.w
      rw [nrm_sq]
      simp only [Pi.smul_apply, smul_eq_mul, dt, eps]
      nlinarith
    · intro hz
      apply hw
      rw [smul_smul] at hz
      exact (smul_eq_zero.1 hz).resolve_left (by norm_num [dt])

/-- Such a state: turning about the vertical. -/
example : nsq (⟨0, 0, ⟨0, 0, 0, 1⟩, ![0, 0, 1]⟩ : X).q = 1 ∧ (![0, 0, 1] : V3) ≠ 0 ∧ nrm ![0, 0, 1] ≤ 2 := by
  refine ⟨by norm_num [nsq], fun h => by have := congrFun h 2; simp at this, ?_⟩
  unfold nrm
  rw [Real.sqrt_le_left (by norm_num)]
  simp

/-! ### C167: differences of orientations -/

/-- Scaled vector. -/
lemma nrm_smul {a : ℝ} (ha : 0 ≤ a) (v : V3) : nrm (a • v) = a * nrm v := by
  have h : nrm (a • v) ^ 2 = (a * nrm v) ^ 2 := by
    rw [mul_pow, nrm_sq, nrm_sq]
    simp only [Pi.smul_apply, smul_eq_mul]; ring
  exact (pow_left_inj₀ (nrm_nonneg _) (mul_nonneg ha (nrm_nonneg _)) two_ne_zero).1 h

lemma nrm_neg (v : V3) : nrm (-v) = nrm v := by
  unfold nrm; simp

lemma qdiff_integ (q : Quat) (h : nsq q = 1) (w : V3) : qdiff q (integ q w) = logQ (expQ ((1 / 2 : ℝ) • w)) := by
  unfold qdiff integ
  congr 1
  apply toH_inj
  rw [C163_product, C163_product, conj_star, mul_assoc, self_mul_star, ← nsq_toH, h]
  simp

/-- C167 (what holds): for a unit quaternion, `quaternion_difference` gives back the vector passed to `integrate_quaternion`, if it is neither tiny nor (nearly) a full turn or more. -/
theorem C167_difference_partial (q : Quat) (h : nsq q = 1) (w : V3) (h1 : eps < (nrm w / 2) ^ 2) (h2 : nrm w / 2 < Real.pi) (h3 : eps < Real.sin (nrm w / 2)) : qdiff q (integ q w) = w := by
  rw [qdiff_integ q h]
  have hn : nrm ((1 / 2 : ℝ) • w) = nrm w / 2 := by rw [nrm_smul (by norm_num)]; ring
  set θ := nrm w / 2 with hθ
  have hpos : 0 < θ := by
    have : 0 ≤ θ := by rw [hθ]; have := nrm_nonneg w; linarith
    rcases eq_or_lt_of_le this with hz | hp
    · rw [← hz] at h1; norm_num [eps] at h1
    · exact hp
  have e : expQ ((1 / 2 : ℝ) • w) = ⟨Real.sin θ * (1 / 2 * w 0 / θ), Real.sin θ * (1 / 2 * w 1 / θ), Real.sin θ * (1 / 2 * w 2 / θ), Real.cos θ⟩ := by
    unfold expQ
    simp only [hn, not_le.2 h1, if_false, Pi.smul_apply, smul_eq_mul]
  have hsin : 0 < Real.sin θ := Real.sin_pos_of_pos_of_lt_pi hpos h2
  have hv : (expQ ((1 / 2 : ℝ) • w)).vec = (Real.sin θ / (2 * θ)) • w := by
    rw [e]
    funext i
    fin_cases i <;> simp [Quat.vec] <;> field_simp
  have hvn : nrm (expQ ((1 / 2 : ℝ) • w)).vec = Real.sin θ := by
    rw [hv, nrm_smul (by positivity)]
    have : nrm w = 2 * θ := by rw [hθ]; ring
    rw [this]; field_simp
  have harg : Complex.arg ⟨Real.cos θ, Real.sin θ⟩ = θ := by
    have := Complex.arg_cos_add_sin_mul_I (θ := θ) ⟨by linarith [Real.pi_pos], h2.le⟩
    have e2 : (⟨Real.cos θ, Real.sin θ⟩ : ℂ) = Complex.cos θ + Complex.sin θ * Complex.I := by
      apply Complex.ext <;> simp [Complex.cos_ofReal_re, Complex.sin_ofReal_re, Complex.cos_ofReal_im, Complex.sin_ofReal_im]
    rw [e2, this]
  unfold logQ
  simp only [hvn, not_le.2 h3, if_false]
  have hw : (expQ ((1 / 2 : ℝ) • w)).w = Real.cos θ := by rw [e]
  rw [hw, hv, harg]
  funext i
  simp only [Pi.smul_apply, smul_eq_mul]
  field_simp

/-- A vector in the range: one radian about the vertical. -/
example : eps < (nrm ![0, 0, 1] / 2) ^ 2 ∧ nrm ![0, 0, 1] / 2 < Real.pi ∧ eps < Real.sin (nrm ![0, 0, 1] / 2) := by
  have : nrm ![0, 0, 1] = 1 := by unfold nrm; simp
  rw [this]
  refine ⟨by norm_num [eps], by linarith [Real.pi_gt_three], ?_⟩
  have := Real.mul_le_sin (x := 1 / 2) (by norm_num) (by linarith [Real.pi_gt_three])
  have h4 : Real.pi < 4 := by linarith [Real.pi_lt_d2]
  have : 1 / 4 ≤ 2 / Real.pi * (1 / 2) := by
    rw [div_mul_eq_mul_div, le_div_iff₀ Real.pi_pos]; linarith
  have he : eps < 1 / 4 := by norm_num [eps]
  linarith

/-- C167 (what holds, docstring): for unit quaternions whose difference is not small, integrating the difference from the first gives the second. -/
theorem C167_inverse_partial (q1 q2 : Quat) (h1 : nsq q1 = 1) (h2 : nsq q2 = 1) (hn : 1 / 1000 < nrm (prod q2 (conj q1)).vec) : integ q1 (qdiff q1 q2) = q2 := by
  set d := prod q2 (conj q1) with hd
  have hnd : nsq d = 1 := by
    rw [hd, nsq_prod, h2, one_mul]
    unfold nsq at h1 ⊢
    simp only [conj]; linarith
  set n := nrm d.vec with hnn
  set θ := Complex.arg ⟨d.w, n⟩ with hθ
  have hpos : 0 < n := by linarith
  have hsq : n ^ 2 + d.w ^ 2 = 1 := by
    rw [hnn, nrm_sq]; unfold nsq at hnd; simpa [Quat.vec] using hnd
  have habs : ‖(⟨d.w, n⟩ : ℂ)‖ = 1 := by
    rw [Complex.norm_def, Complex.normSq_mk, Real.sqrt_eq_one]
    linarith
  have hc : Real.cos θ = d.w := by
    have := Complex.norm_mul_cos_arg ⟨d.w, n⟩
    rwa [habs, one_mul] at this
  have hs : Real.sin θ = n := by
    have := Complex.norm_mul_sin_arg ⟨d.w, n⟩
    rwa [habs, one_mul] at this
  have hθ0 : 0 ≤ θ := Complex.arg_nonneg_iff.2 hpos.le
  have hθn : n ≤ θ := by rw [← hs]; exact Real.sin_le hθ0
  have hlog : qdiff q1 q2 = (2 * θ / n) • d.vec := by
    unfold qdiff logQ
    rw [← hd]
    have hne : ¬ n ≤ eps := by
      rw [not_le]; refine lt_trans ?_ hn; norm_num [eps]
    simp only [← hnn, hne, if_false]
    funext i
    simp only [Pi.smul_apply, smul_eq_mul, ← hθ]
    ring
  have hhalf : (1 / 2 : ℝ) • qdiff q1 q2 = (θ / n) • d.vec := by
    rw [hlog, smul_smul]; congr 1; ring
  have hnorm : nrm ((1 / 2 : ℝ) • qdiff q1 q2) = θ := by
    rw [hhalf, nrm_smul (by positivity), ← hnn]; field_simp
  have hexp : expQ ((1 / 2 : ℝ) • qdiff q1 q2) = d := by
    unfold expQ
    have hne : ¬ θ ^ 2 ≤ eps := by
      rw [not_le]
      have : (1 / 1000 : ℝ) < θ := by linarith
      have he : eps = (1 / 1000) ^ 2 := by norm_num [eps]
      rw [he]; gcongr
    simp only [hnorm, hne, if_false, hs, hc]
    have hθp : 0 < θ := by linarith
    rw [hhalf]
    ext <;> simp [Quat.vec] <;> field_simp
  unfold integ
  rw [hexp]
  apply toH_inj
  rw [C163_product, hd, C163_product, conj_star, mul_assoc, star_mul_self, ← nsq_toH, h1]
  simp

/-- Two orientations a turn of about 1.29 radians apart. -/
example : nsq ⟨0, 0, 0, 1⟩ = 1 ∧ nsq ⟨3 / 5, 0, 0, 4 / 5⟩ = 1 ∧ 1 / 1000 < nrm (prod ⟨3 / 5, 0, 0, 4 / 5⟩ (conj ⟨0, 0, 0, 1⟩)).vec := by
  refine ⟨by norm_num [nsq], by norm_num [nsq], ?_⟩
  unfold nrm
  rw [Real.lt_sqrt (by norm_num)]
  simp [prod, conj, Quat.vec, cross_apply]
  norm_num

/-- C167: differences are antisymmetric, for all quaternions. -/
theorem C167_antisymm (q1 q2 : Quat) : qdiff q1 q2 = -qdiff q2 q1 := by
  have e : prod q2 (conj q1) = conj (prod q1 (conj q2)) := by
    apply toH_inj
    rw [C163_product, conj_star, conj_star, C163_product, conj_star, star_mul, star_star]
  have hl : ∀ q, logQ (conj q) = -logQ q := by
    intro q
    have hv : (conj q).vec = -q.vec := by
      funext i; fin_cases i <;> simp [conj, Quat.vec]
    unfold logQ
    simp only [hv, nrm_neg]
    have hw : (conj q).w = q.w := rfl
    rw [hw]
    split_ifs <;> funext i <;> simp only [Pi.neg_apply] <;> ring
  unfold qdiff
  rw [e, hl]

/-- C167: the difference of a unit quaternion to itself is zero. -/
theorem C167_self (q : Quat) (h : nsq q = 1) : qdiff q q = 0 := by
  have e : prod q (conj q) = ⟨0, 0, 0, 1⟩ := by
    apply toH_inj
    rw [C163_product, conj_star, self_mul_star, ← nsq_toH, h]
    ext <;> simp
  unfold qdiff
  rw [e]
  unfold logQ
  have hn : nrm (Quat.vec ⟨0, 0, 0, 1⟩) = 0 := by simp [nrm, Quat.vec]
  simp only [hn]
  rw [if_pos (by norm_num [eps])]
  funext i
  fin_cases i <;> simp [Quat.vec]

/-- C167 is violated for tiny vectors: the branches for small arguments are not inverse to each other. -/
theorem C167_small_violated : qdiff ⟨0, 0, 0, 1⟩ (integ ⟨0, 0, 0, 1⟩ ![2 / 10 ^ 7, 0, 0]) ≠ ![2 / 10 ^ 7, 0, 0] := by
  rw [qdiff_integ _ (by norm_num [nsq])]
  have hn : nrm ((1 / 2 : ℝ) • ![2 / 10 ^ 7, 0, 0]) = 1 / 10 ^ 7 := by
    unfold nrm
    rw [Real.sqrt_eq_iff_mul_self_eq (by positivity) (by norm_num)]
    simp
    norm_num
  have e : expQ ((1 / 2 : ℝ) • ![2 / 10 ^ 7, 0, 0]) = ⟨(1 - (1 / 10 ^ 7) ^ 2 / 6) * (1 / 10 ^ 7), 0, 0, 1 - (1 / 10 ^ 7) ^ 2 / 2⟩ := by
    unfold expQ
    simp only [hn]
    rw [if_pos (by norm_num [eps])]
    simp
    norm_num
  have hv : nrm (expQ ((1 / 2 : ℝ) • ![2 / 10 ^ 7, 0, 0])).vec = (1 - (1 / 10 ^ 7) ^ 2 / 6) * (1 / 10 ^ 7) := by
    rw [e]
    unfold nrm
    rw [Real.sqrt_eq_iff_mul_self_eq (by positivity) (by norm_num)]
    simp [Quat.vec]
    norm_num
  intro h
  have h0 := congrFun h 0
  unfold logQ at h0
  simp only [hv] at h0
  rw [if_pos (by norm_num [eps]), e] at h0
  simp [Quat.vec] at h0
  norm_num at h0

/-! ### C165: the flag -/

/-- C165, flag: for a row of contact activations, each 0 or 1, the forces act exactly if some foot is in contact. -/
theorem C165_flag (row : List ℝ) (h : ∀ c ∈ row, c = 0 ∨ c = 1) : (1 ∈ row → active row = 1) ∧ (1 ∉ row → active row = 0) := by
  constructor
  · intro h1
    have h0 : ∀ c ∈ row, (0:ℝ) ≤ c := fun c hc => by rcases h c hc with rfl | rfl <;> norm_num
    have := List.single_le_sum h0 1 h1
    rw [active, if_pos (lt_of_lt_of_le (by norm_num [eps]) this)]
  · intro h1
    have : row.sum = 0 := List.sum_eq_zero fun c hc => (h c hc).resolve_right fun e => h1 (e ▸ hc)
    rw [active, this, if_neg (by norm_num [eps])]

/-- The hypothesis of `C165_flag` is met by four feet of which one touches the ground. -/
example : ∀ c ∈ [(0:ℝ), 1, 0, 0], c = 0 ∨ c = 1 := by simp

/-! ### C168: one orientation, two quaternions -/

lemma neg_rot (q : Quat) : toRot ⟨-q.x, -q.y, -q.z, -q.w⟩ = toRot q := by
  rw [toRot_eq, toRot_eq]; simp

/-- C168 is violated: the difference of two states depends on which of the two quaternions of an orientation is given: the second orientation is the same in both calls. -/
theorem C168_sign_violated : ∃ q1 q2 q2' : Quat, nsq q1 = 1 ∧ nsq q2 = 1 ∧ nsq q2' = 1 ∧ toRot q2 = toRot q2' ∧ qdiff q1 q2 ≠ qdiff q1 q2' := by
  refine ⟨⟨0, 0, 0, 1⟩, ⟨3 / 5, 0, 0, 4 / 5⟩, ⟨-(3 / 5), -0, -0, -(4 / 5)⟩, by norm_num [nsq], by norm_num [nsq], by norm_num [nsq], (neg_rot ⟨3 / 5, 0, 0, 4 / 5⟩).symm, ?_⟩
  have e1 : prod ⟨3 / 5, 0, 0, 4 / 5⟩ (conj ⟨0, 0, 0, 1⟩) = ⟨3 / 5, 0, 0, 4 / 5⟩ := by
    ext <;> simp [prod, conj, Quat.vec, cross_apply]
  have e2 : prod ⟨-(3 / 5), -0, -0, -(4 / 5)⟩ (conj ⟨0, 0, 0, 1⟩) = ⟨-(3 / 5), 0, 0, -(4 / 5)⟩ := by
    ext <;> simp [prod, conj, Quat.vec, cross_apply]
  have n1 : nrm (Quat.vec ⟨3 / 5, 0, 0, 4 / 5⟩) = 3 / 5 := by
    unfold nrm
    rw [Real.sqrt_eq_iff_mul_self_eq (by positivity) (by norm_num)]
    simp [Quat.vec]; norm_num
  have n2 : nrm (Quat.vec ⟨-(3 / 5), 0, 0, -(4 / 5)⟩) = 3 / 5 := by
    unfold nrm
    rw [Real.sqrt_eq_iff_mul_self_eq (by positivity) (by norm_num)]
    simp [Quat.vec]; norm_num
  intro h
  unfold qdiff at h
  rw [e1, e2] at h
  have h0 := congrFun h 0
  unfold logQ at h0
  simp only [n1, n2] at h0
  rw [if_neg (by norm_num [eps]), if_neg (by norm_num [eps])] at h0
  simp [Quat.vec] at h0
  have p1 : 0 ≤ Complex.arg ⟨4 / 5, 3 / 5⟩ := Complex.arg_nonneg_iff.2 (by norm_num)
  have p2 : 0 < Complex.arg ⟨-(4 / 5), 3 / 5⟩ := by
    refine lt_of_le_of_ne (Complex.arg_nonneg_iff.2 (by norm_num)) fun hz => ?_
    have := Complex.arg_eq_zero_iff.1 hz.symm
    norm_num at this
  linarith

/-- C168 (what holds): whichever quaternions are given, integrating the difference leads to the second orientation (if the difference is not small). -/
theorem C168_orientation_partial (q1 q2 : Quat) (h1 : nsq q1 = 1) (h2 : nsq q2 = 1) (hn : 1 / 1000 < nrm (prod q2 (conj q1)).vec) : toRot (integ q1 (qdiff q1 q2)) = toRot q2 := by
  rw [C167_inverse_partial q1 q2 h1 h2 hn]

end PyMan
end Verif
