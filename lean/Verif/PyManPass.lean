import Verif.PyManValue

/-! C172 (violation), C173, C174: the pass of `compute_gains` with the weights of `__init__`, during flight, and its rows. -/
namespace Verif
namespace PyMan
open Matrix

lemma fu_row (act : ℝ) (x : X) (u : Fin 6 → ℝ) (d : Fin 6 → ℝ) :
    (fu act x u *ᵥ d) = fun r => ∑ j, diff (stepVal act x (u + Pi.single j eps)) (stepVal act x u) r / eps * d j := by
  funext r; rfl

/-- The change of the next state along a moment `τ`: only the angular velocity changes, by the inverse inertia. -/
lemma fu_moment (x : X) (u : Fin 6 → ℝ) (τ : V3) :
    fu 1 x u *ᵥ ![0, 0, 0, τ 0, τ 1, τ 2] = -dt • ![0, 0, 0, 0, 0, 0, 0, 0, 0, ((worldI x.q)⁻¹ *ᵥ τ) 0, ((worldI x.q)⁻¹ *ᵥ τ) 1, ((worldI x.q)⁻¹ *ᵥ τ) 2] := by
  have he : eps ≠ 0 := by norm_num [eps]
  have hq : ∀ v, (stepVal 1 x v).q = (stepVal 1 x u).q := fun v => rfl
  have hw : ∀ v, (stepVal 1 x v).w = x.w + dt • ((worldI x.q)⁻¹ *ᵥ (![v 3, v 4, v 5] - crossProduct x.w (worldI x.q *ᵥ x.w))) := by
    intro v; simp [stepVal]
  have hv : ∀ v, (stepVal 1 x v).v = x.v + (dt / PyLqr.mass) • (![v 0, v 1, v 2] - weight) := by
    intro v; simp [stepVal]
  have hc : ∀ v, (stepVal 1 x v).c = (stepVal 1 x u).c := fun v => rfl
  set J := (worldI x.q)⁻¹
  rw [fu_row]
  funext r
  simp only [diff, hq, hc, qdiff_self, hw, hv, Fin.sum_univ_succ, Fin.sum_univ_zero]
  fin_cases r <;> simp [mulVec, dotProduct, Fin.sum_univ_succ, Pi.single_apply] <;> field_simp <;> ring

lemma invJ (q : Quat) (h : nsq q ≠ 0) (y : V3) : (worldI q)⁻¹ *ᵥ (worldI q *ᵥ y) = y := by
  have hu : IsUnit (worldI q).det := (isUnit_iff_isUnit_det _).1 ((worldI_posDef q).2 h).isUnit
  rw [mulVec_mulVec, nonsing_inv_mul _ hu, one_mulVec]

lemma rot_len (q : Quat) (v : V3) : (toRot q *ᵥ v) ⬝ᵥ (toRot q *ᵥ v) = nsq q ^ 2 * (v ⬝ᵥ v) := by
  rw [toRot_eq]
  simp [mulVec, dotProduct, Fin.sum_univ_three, nsq]
  ring

lemma rotT_len (q : Quat) (v : V3) : ((toRot q)ᵀ *ᵥ v) ⬝ᵥ ((toRot q)ᵀ *ᵥ v) = nsq q ^ 2 * (v ⬝ᵥ v) := by
  rw [toRot_eq]
  simp [mulVec, dotProduct, Fin.sum_univ_three, nsq, transpose_apply]
  ring

/-- The moment turning about the first axis is small. -/
lemma moment_small (q : Quat) (h : nsq q ≤ 1) : (worldI q *ᵥ ![1, 0, 0]) ⬝ᵥ (worldI q *ᵥ ![1, 0, 0]) ≤ 1 / 1000 := by
  have e : worldI q *ᵥ ![1, 0, 0] = toRot q *ᵥ (PyLqr.inertia *ᵥ ((toRot q)ᵀ *ᵥ ![1, 0, 0])) := by
    rw [mulVec_mulVec, mulVec_mulVec]; rfl
  have hn := nsq_nonneg q
  have h2 : nsq q ^ 2 ≤ 1 := pow_le_one₀ hn h
  rw [e, rot_len]
  set y := (toRot q)ᵀ *ᵥ ![1, 0, 0] with hy
  have hyl : y ⬝ᵥ y ≤ 1 := by
    have h1 : (![1, 0, 0] : V3) ⬝ᵥ ![1, 0, 0] = 1 := by simp [dotProduct, Fin.sum_univ_three]
    rw [hy, rotT_len, h1, mul_one]
    exact h2
  have hz : (PyLqr.inertia *ᵥ y) ⬝ᵥ (PyLqr.inertia *ᵥ y) ≤ 1 / 1000 := by
    unfold PyLqr.inertia
    simp only [dotProduct, mulVec_diagonal, Fin.sum_univ_three] at hyl ⊢
    simp
    nlinarith [sq_nonneg (y 0), sq_nonneg (y 1), sq_nonneg (y 2)]
  have h0 : 0 ≤ (PyLqr.inertia *ᵥ y) ⬝ᵥ (PyLqr.inertia *ᵥ y) := by
    rw [dotProduct]; exact Finset.sum_nonneg fun i _ => mul_self_nonneg _
  nlinarith

/-- C172 is violated for the weights of `__init__`: for every plan whose last step is in contact, whatever the reference (its quaternions have norm at most one by C166), the matrix `Qdudu` of the first
step of the pass is indefinite, so that the quadratic function of the controls has no minimum at all and the gains come from the smoothed inverse. -/
theorem C172_violated (p : Par) (hN : 0 < p.N) (hQ : p.Q p.N = 1) (hR : p.R (p.N - 1) = (1 / 1000 : ℝ) • 1) (ha : p.act (p.N - 1) = 1) (h0 : nsq (p.x0 (p.N - 1)).q ≠ 0) (h1 : nsq (p.x0 (p.N - 1)).q ≤ 1) :
    ¬ (computeQ (stage p (p.N - 1)) (final p)).quu.PosDef ∧ ∀ x B, ∃ u, (computeQ (stage p (p.N - 1)) (final p)).eval x u < B := by
  set t := p.N - 1 with ht
  have htN : t ≠ p.N := by omega
  set q := computeQ (stage p t) (final p) with hq
  set τ := worldI (p.x0 t).q *ᵥ ![1, 0, 0] with hτ
  set d : Fin 6 → ℝ := ![0, 0, 0, τ 0, τ 1, τ 2] with hd
  have hcurv : d ⬝ᵥ q.quu *ᵥ d < 0 := by
    have e1 : q.quu = (1 / 1000 : ℝ) • 1 + (fu 1 (p.x0 t) (p.u0 t))ᵀ * costXX p p.N (p.x0 p.N) 0 * fu 1 (p.x0 t) (p.u0 t) := by
      simp only [hq, computeQ, stage, final, costUU, htN, if_false, hR, ha]
      congr 1
      ext i j
      simp [Matrix.one_apply, eq_comm]
      split_ifs <;> norm_num
    have e2 : fu 1 (p.x0 t) (p.u0 t) *ᵥ d = Pi.single 9 (-dt) := by
      rw [hd, fu_moment, hτ, invJ _ h0]
      funext r
      fin_cases r <;> simp [Pi.single_apply]
    have e3 : costXX p p.N (p.x0 p.N) 0 9 9 = -16 := by
      have := C170_formula_partial p p.N (p.x0 p.N) 0 (fun _ => 1) (by rw [hQ, diagonal_one]) 9 9 (Or.inr (by decide)) (Or.inr (by decide))
      rw [this]
      norm_num [half]
    have e4 : d ⬝ᵥ d = τ ⬝ᵥ τ := by
      simp [hd, dotProduct, Fin.sum_univ_succ]
    have e5 : d ⬝ᵥ q.quu *ᵥ d = 1 / 1000 * (τ ⬝ᵥ τ) + -16 * dt ^ 2 := by
      rw [e1, add_mulVec, dotProduct_add, smul_mulVec, one_mulVec, dotProduct_smul, e4, smul_eq_mul, Matrix.mul_assoc, ← mulVec_mulVec, ← mulVec_mulVec, e2]
      have : d ⬝ᵥ (fu 1 (p.x0 t) (p.u0 t))ᵀ *ᵥ (costXX p p.N (p.x0 p.N) 0 *ᵥ Pi.single 9 (-dt)) = (Pi.single 9 (-dt)) ⬝ᵥ (costXX p p.N (p.x0 p.N) 0 *ᵥ Pi.single 9 (-dt)) := by
        rw [← e2, PyLqr.mv_dot]
      rw [this, single_dotProduct, mulVec_single]
      simp [e3]
      ring
    rw [e5]
    have := moment_small (p.x0 t).q h1
    rw [← hτ] at this
    have : dt ^ 2 = 1 / 10 ^ 6 := by norm_num [dt]
    rw [this]
    linarith
  refine ⟨fun hp => ?_, fun x B => ?_⟩
  · have := PyLqr.psd_nonneg (Matrix.PosDef.posSemidef hp) d
    linarith
  · set a := d ⬝ᵥ q.quu *ᵥ d with ha'
    set b := q.qu ⬝ᵥ d + x ⬝ᵥ q.qxu *ᵥ d with hb
    set c := q.q + q.qx ⬝ᵥ x + 1 / 2 * (x ⬝ᵥ q.qxx *ᵥ x) with hc
    have hE : ∀ s : ℝ, q.eval x (s • d) = c + s * b + 1 / 2 * s ^ 2 * a := by
      intro s
      simp only [QF.eval, mulVec_smul, dotProduct_smul, smul_dotProduct, smul_eq_mul, hc, hb, ha']
      ring
    -- far enough along `d` the negative curvature wins
    have : ∃ s : ℝ, c + s * b + 1 / 2 * s ^ 2 * a < B := by
      refine ⟨(2 * (|b| + |c - B| + 1)) / (-a) + 1, ?_⟩
      set s := (2 * (|b| + |c - B| + 1)) / (-a) + 1 with hs
      have hna : 0 < -a := by linarith
      have hs1 : 1 ≤ s := by
        have : 0 ≤ (2 * (|b| + |c - B| + 1)) / (-a) := by positivity
        linarith
      have hsa : 2 * (|b| + |c - B| + 1) ≤ s * (-a) := by
        rw [hs, add_mul, div_mul_cancel₀ _ hna.ne']
        linarith
      have hb' := le_abs_self b
      have hc' := le_abs_self (c - B)
      have hk : s * (2 * (|b| + |c - B| + 1)) ≤ s * (s * (-a)) := mul_le_mul_of_nonneg_left hsa (by linarith)
      have hc0 := abs_nonneg (c - B)
      nlinarith
    obtain ⟨s, hs⟩ := this
    exact ⟨s • d, by rw [hE]; exact hs⟩

/-! ### C173, C174: flight and order -/

lemma backward_get {n m : Nat} (fin : Val n) (ss : List (Stage n m)) (t : Nat) :
    (backward fin ss).1[t]? = ss[t]?.map fun s => valueFn (computeQ s (backward fin (ss.drop (t + 1))).2) := by
  induction ss generalizing t with
  | nil => simp [backward]
  | cons s ss ih =>
    cases t with
    | zero => simp [backward]
    | succ t =>
      show ((valueFn (computeQ s (backward fin ss).2)) :: (backward fin ss).1)[t + 1]? = _
      rw [List.getElem?_cons_succ, ih]
      simp

/-- C173: one gain matrix per time step of the plan but the last, and the one of a step without contact is zero: no feedback while in flight. -/
theorem C173_flight (p : Par) : (computeGains p).length = p.N ∧ ∀ t g, (computeGains p)[t]? = some g → p.act t = 0 → g.kfb = 0 := by
  have hl : ∀ {n m : Nat} (fin : Val n) (ss : List (Stage n m)), (backward fin ss).1.length = ss.length := by
    intro n m fin ss
    induction ss with
    | nil => rfl
    | cons s ss ih => show (_ :: (backward fin ss).1).length = _; rw [List.length_cons, ih, List.length_cons]
  refine ⟨by unfold computeGains; rw [hl, List.length_map, List.length_range], fun t g hg ha => ?_⟩
  unfold computeGains at hg
  rw [backward_get, List.getElem?_map] at hg
  have htN : t < p.N := by
    by_contra h
    rw [List.getElem?_eq_none (by rw [List.length_range]; omega)] at hg
    simp at hg
  rw [List.getElem?_range htN] at hg
  simp only [Option.map_some, Option.some.injEq] at hg
  have hB : (stage p t).B = 0 := by
    show fu (p.act t) (p.x0 t) (p.u0 t) = 0
    rw [ha]
    ext r j
    have hs : ∀ v, stepVal 0 (p.x0 t) v = stepVal 0 (p.x0 t) (p.u0 t) := by
      intro v; simp [stepVal]
    show diff (stepVal 0 (p.x0 t) _) (stepVal 0 (p.x0 t) (p.u0 t)) r / eps = 0
    rw [hs]
    simp only [diff, qdiff_self, sub_self]
    fin_cases r <;> simp
  rw [← hg]
  simp only [valueFn, computeQ, hB]
  show invUsed _ * (0 + _)ᵀ = 0
  simp

lemma cost_congr (p p' : Par) (hN : p'.N = p.N) (t : Nat) (h1 : p'.x0 t = p.x0 t) (h2 : p'.Q t = p.Q t) (h4 : p'.R t = p.R t) : cost p' t = cost p t := by
  funext x u
  simp only [cost, h1, h2, h4, hN]

lemma costX_congr (p p' : Par) (t : Nat) (h : cost p' t = cost p t) : costX p' t = costX p t ∧ costU p' t = costU p t ∧ costXX p' t = costXX p t := by
  unfold costX costU costXX
  rw [h]
  exact ⟨rfl, rfl, rfl⟩

/-- C174: the gains of a step depend only on what the plan prescribes from that step on. -/
theorem C174_rows (p p' : Par) (hN : p'.N = p.N) (k : Nat)
    (h : ∀ t, k ≤ t → p'.x0 t = p.x0 t ∧ p'.Q t = p.Q t ∧ p'.u0 t = p.u0 t ∧ p'.R t = p.R t ∧ p'.act t = p.act t) (hk : k < p.N) : (computeGains p').drop k = (computeGains p).drop k := by
  have hst : ∀ t, k ≤ t → stage p' t = stage p t := by
    intro t ht
    obtain ⟨h1, h2, h3, h4, h5⟩ := h t ht
    have hc := cost_congr p p' hN t h1 h2 h4
    obtain ⟨hX, hU, hXX⟩ := costX_congr p p' t hc
    have hUU : costUU p' t = costUU p t := by unfold costUU; rw [h4, hN]
    unfold stage
    rw [hX, hU, hXX, hUU, hc, h1, h3, h5]
  have hf : final p' = final p := by
    obtain ⟨h1, h2, h3, h4, h5⟩ := h p.N hk.le
    have hc := cost_congr p p' hN p.N h1 h2 h4
    obtain ⟨hX, hU, hXX⟩ := costX_congr p p' p.N hc
    unfold final
    rw [hN, hX, hXX, hc, h1]
  have hdrop : ∀ j, k ≤ j → ((List.range p'.N).map (stage p')).drop j = ((List.range p.N).map (stage p)).drop j := by
    intro j hj
    rw [hN]
    apply List.ext_getElem?
    intro i
    rw [List.getElem?_drop, List.getElem?_drop, List.getElem?_map, List.getElem?_map]
    by_cases hlt : j + i < p.N
    · rw [List.getElem?_range hlt]; simp [hst (j + i) (by omega)]
    · rw [List.getElem?_eq_none (by rw [List.length_range]; omega), Option.map_none, Option.map_none]
  apply List.ext_getElem?
  intro i
  unfold computeGains
  rw [List.getElem?_drop, List.getElem?_drop, backward_get, backward_get, hf, hdrop _ (by omega)]
  have e := congrArg (fun l => l[i]?) (hdrop k le_rfl)
  simp only [List.getElem?_drop] at e
  rw [e]

/-- A plan standing upright with the weights of `__init__` meets the conditions of C172 and C173. -/
example : ∃ p : Par, 0 < p.N ∧ p.Q p.N = 1 ∧ p.R (p.N - 1) = (1 / 1000 : ℝ) • 1 ∧ p.act (p.N - 1) = 1 ∧ nsq (p.x0 (p.N - 1)).q = 1 ∧ p.act 0 = 0 :=
  ⟨⟨2, fun _ => ⟨0, 0, ⟨0, 0, 0, 1⟩, 0⟩, 0, fun _ => 1, fun _ => (1 / 1000 : ℝ) • 1, fun t => if t = 0 then 0 else 1⟩, by norm_num [nsq]⟩

end PyMan
end Verif
