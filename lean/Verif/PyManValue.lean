import Verif.PyManGain

/-! C171-C174: the value function and the gains of the backward pass of `CentroidalLqr`. -/
namespace Verif
namespace PyMan
open Matrix

/-! ### Specification -/

/-- The quadratic function of state and control the coefficients stand for. -/
noncomputable def QF.eval {n m : Nat} (q : QF n m) (x : Fin n → ℝ) (u : Fin m → ℝ) : ℝ :=
  q.q + q.qx ⬝ᵥ x + q.qu ⬝ᵥ u + 1 / 2 * (x ⬝ᵥ q.qxx *ᵥ x) + 1 / 2 * (u ⬝ᵥ q.quu *ᵥ u) + x ⬝ᵥ q.qxu *ᵥ u

/-- The quadratic value function. -/
noncomputable def Val.eval {n : Nat} (v : Val n) (x : Fin n → ℝ) : ℝ := v.v + v.vx ⬝ᵥ x + 1 / 2 * (x ⬝ᵥ v.vxx *ᵥ x)

/-- The cost of a stage. -/
noncomputable def Stage.eval {n m : Nat} (s : Stage n m) (x : Fin n → ℝ) (u : Fin m → ℝ) : ℝ :=
  s.c + s.cx ⬝ᵥ x + s.cu ⬝ᵥ u + 1 / 2 * (x ⬝ᵥ s.cxx *ᵥ x) + 1 / 2 * (u ⬝ᵥ s.cuu *ᵥ u) + x ⬝ᵥ s.cxu *ᵥ u

/-- The control the gains stand for. -/
noncomputable def Gains.control {n m : Nat} (g : Gains n m) (x : Fin n → ℝ) : Fin m → ℝ := -g.kff - g.kfb *ᵥ x

/-- The cost of controls for the linear dynamics and quadratic costs of the stages. -/
noncomputable def lqTotal {n m : Nat} (fin : Val n) : List (Stage n m) → (Fin n → ℝ) → List (Fin m → ℝ) → ℝ
  | [], x, _ => fin.eval x
  | _ :: _, _, [] => 0
  | s :: ss, x, u :: us => s.eval x u + lqTotal fin ss (s.A *ᵥ x + s.B *ᵥ u) us

/-- The controls of the gains along the motion of the linear system. -/
noncomputable def play {n m : Nat} : List (Stage n m) → List (Gains n m) → (Fin n → ℝ) → List (Fin m → ℝ)
  | s :: ss, g :: gs, x => g.control x :: play ss gs (s.A *ᵥ x + s.B *ᵥ g.control x)
  | _, _, _ => []

/-! ### C171 -/

open PyLqr (mv_dot sym_of psd_nonneg pd_pos)

lemma dot_vm {m n : Nat} (v : Fin m → ℝ) (M : Mat m n) (x : Fin n → ℝ) : (v ᵥ* M) ⬝ᵥ x = v ⬝ᵥ M *ᵥ x := (dotProduct_mulVec v M x).symm

/-- C171 (what holds): if `Qdudu` is positive definite, the control of `compute_value_function` is the only minimiser of the quadratic function, in every state, and the minimum is the value function. -/
theorem C171_minimum {n m : Nat} (q : QF n m) (h : q.quu.PosDef) (x : Fin n → ℝ) :
    q.eval x ((valueFn q).control x) = (valueFn q).val.eval x ∧ ∀ u, u ≠ (valueFn q).control x → (valueFn q).val.eval x < q.eval x u := by
  have hu : IsUnit q.quu.det := (isUnit_iff_isUnit_det _).1 h.isUnit
  have hi : invUsed q.quu = q.quu⁻¹ := by unfold invUsed; rw [if_pos h]
  set kff := q.quu⁻¹ *ᵥ q.qu with hkff
  set kfb := q.quu⁻¹ * q.qxuᵀ with hkfb
  have hv : valueFn q = ⟨kff, kfb, ⟨q.q + 1 / 2 * (kff ⬝ᵥ q.quu *ᵥ kff) - kff ⬝ᵥ q.qu, q.qx - (2 : ℝ) • (q.qu ᵥ* kfb) + (kff ᵥ* q.quu) ᵥ* kfb, q.qxx - q.qxu * kfb⟩⟩ := by
    unfold valueFn; rw [hi]
  have sQ := sym_of h.1
  have e1 : q.quu *ᵥ kff = q.qu := by rw [hkff, mulVec_mulVec, mul_nonsing_inv _ hu, one_mulVec]
  have e2 : q.quu * kfb = q.qxuᵀ := by rw [hkfb, ← Matrix.mul_assoc, mul_nonsing_inv _ hu, Matrix.one_mul]
  have e1' : kff ᵥ* q.quu = q.qu := by rw [← e1, ← mulVec_transpose, sQ]
  -- completing the square around the control
  have key : ∀ d, q.eval x ((valueFn q).control x + d) = (valueFn q).val.eval x + 1 / 2 * (d ⬝ᵥ q.quu *ᵥ d) := by
    intro d
    rw [hv]
    simp only [Gains.control, QF.eval, Val.eval]
    set k := kfb *ᵥ x with hk
    have hQk : q.quu *ᵥ k = q.qxuᵀ *ᵥ x := by rw [hk, mulVec_mulVec, e2]
    have hxq : ∀ w, x ⬝ᵥ q.qxu *ᵥ w = w ⬝ᵥ q.quu *ᵥ k := by
      intro w; rw [hQk, dotProduct_comm, mv_dot]
    have hsym : ∀ a b, a ⬝ᵥ q.quu *ᵥ b = b ⬝ᵥ q.quu *ᵥ a := by
      intro a b; rw [dotProduct_comm, mv_dot, sQ]
    have hqu : ∀ w, q.qu ⬝ᵥ w = kff ⬝ᵥ q.quu *ᵥ w := by
      intro w; rw [← e1, mv_dot, sQ]
    have hqu' : ∀ w, w ⬝ᵥ q.qu = kff ⬝ᵥ q.quu *ᵥ w := by
      intro w; rw [dotProduct_comm, hqu]
    have hxx : x ⬝ᵥ (q.qxx - q.qxu * kfb) *ᵥ x = x ⬝ᵥ q.qxx *ᵥ x - k ⬝ᵥ q.quu *ᵥ k := by
      rw [sub_mulVec, dotProduct_sub, ← mulVec_mulVec, ← hk, hxq]
    have hlin : (q.qx - (2 : ℝ) • (q.qu ᵥ* kfb) + (kff ᵥ* q.quu) ᵥ* kfb) ⬝ᵥ x = q.qx ⬝ᵥ x - kff ⬝ᵥ q.quu *ᵥ k := by
      rw [e1', add_dotProduct, sub_dotProduct, smul_dotProduct, dot_vm, ← hk, hqu, smul_eq_mul]; ring
    rw [hxx, hlin, hqu', hxq, hqu]
    simp only [mulVec_add, mulVec_sub, mulVec_neg, dotProduct_add, add_dotProduct, dotProduct_sub, sub_dotProduct, dotProduct_neg, neg_dotProduct]
    rw [hsym k kff, hsym d kff, hsym d k]
    ring
  refine ⟨?_, fun u hne => ?_⟩
  · have := key 0
    simpa using this
  · have := key (u - (valueFn q).control x)
    rw [add_sub_cancel] at this
    rw [this]
    have := pd_pos h (sub_ne_zero.2 hne)
    linarith

/-- The symmetric matrix used instead of the inverse is symmetric. -/
lemma smooth_symm {m : Nat} (M : Mat m m) (hM : Mᵀ = M) : (M * (M * M + (1 / 100 : ℝ) • 1)⁻¹)ᵀ = M * (M * M + (1 / 100 : ℝ) • 1)⁻¹ := by
  set N := M * M + (1 / 100 : ℝ) • (1 : Mat m m) with hN
  have hNs : Nᵀ = N := by rw [hN, transpose_add, transpose_mul, hM, transpose_smul, transpose_one]
  have hc : M * N = N * M := by rw [hN, Matrix.mul_add, Matrix.add_mul, Matrix.mul_assoc]; simp
  have hpd : N.PosDef := by
    have h1 : (M * M).PosSemidef := by
      have := posSemidef_conjTranspose_mul_self M
      rwa [conjTranspose_eq_transpose_of_trivial, hM] at this
    have h2 : ((1 / 100 : ℝ) • (1 : Mat m m)).PosDef := PosDef.one.smul (by norm_num)
    exact Matrix.PosDef.posSemidef_add h1 h2
  have hu : IsUnit N.det := (isUnit_iff_isUnit_det _).1 hpd.isUnit
  rw [transpose_mul, transpose_nonsing_inv, hNs, hM]
  calc N⁻¹ * M = N⁻¹ * M * (N * N⁻¹) := by rw [mul_nonsing_inv _ hu, Matrix.mul_one]
    _ = N⁻¹ * (M * N) * N⁻¹ := by simp only [Matrix.mul_assoc]
    _ = N⁻¹ * (N * M) * N⁻¹ := by rw [hc]
    _ = (N⁻¹ * N) * M * N⁻¹ := by simp only [Matrix.mul_assoc]
    _ = M * N⁻¹ := by rw [nonsing_inv_mul _ hu, Matrix.one_mul]

/-- C171 (what holds in both branches): for a symmetric `Qdudu` the constant and linear part of the value function are those of the cost under the control of the gains. -/
theorem C171_linear_partial {n m : Nat} (q : QF n m) (hs : q.quuᵀ = q.quu) (x : Fin n → ℝ) :
    ∃ W : Mat n n, ∀ s : ℝ, q.eval (s • x) ((valueFn q).control (s • x)) = (valueFn q).val.v + s * ((valueFn q).val.vx ⬝ᵥ x) + 1 / 2 * s ^ 2 * (x ⬝ᵥ W *ᵥ x) := by
  set J := invUsed q.quu with hJ
  have hJs : Jᵀ = J := by
    rw [hJ]
    unfold invUsed
    split_ifs with hp
    · rw [transpose_nonsing_inv, hs]
    · exact smooth_symm _ hs
  set kff := J *ᵥ q.qu with hkff
  set kfb := J * q.qxuᵀ with hkfb
  refine ⟨q.qxx + kfbᵀ * q.quu * kfb - (2 : ℝ) • (q.qxu * kfb), fun s => ?_⟩
  have hv : valueFn q = ⟨kff, kfb, ⟨q.q + 1 / 2 * (kff ⬝ᵥ q.quu *ᵥ kff) - kff ⬝ᵥ q.qu, q.qx - (2 : ℝ) • (q.qu ᵥ* kfb) + (kff ᵥ* q.quu) ᵥ* kfb, q.qxx - q.qxu * kfb⟩⟩ := rfl
  rw [hv]
  simp only [Gains.control, QF.eval]
  set k := kfb *ᵥ x with hk
  have hsym : ∀ a b, a ⬝ᵥ q.quu *ᵥ b = b ⬝ᵥ q.quu *ᵥ a := by
    intro a b; rw [dotProduct_comm, mv_dot, hs]
  have hks : kfb *ᵥ (s • x) = s • k := by rw [mulVec_smul]
  have hxk : x ⬝ᵥ q.qxu *ᵥ kff = q.qu ⬝ᵥ k := by
    rw [hkff, hk, hkfb, mulVec_mulVec]
    have : (q.qxu * J) = (J * q.qxuᵀ)ᵀ := by rw [transpose_mul, transpose_transpose, hJs]
    rw [this, dotProduct_comm, mv_dot, transpose_transpose]
  have hlin : (q.qx - (2 : ℝ) • (q.qu ᵥ* kfb) + (kff ᵥ* q.quu) ᵥ* kfb) ⬝ᵥ x = q.qx ⬝ᵥ x - 2 * (q.qu ⬝ᵥ k) + kff ⬝ᵥ q.quu *ᵥ k := by
    rw [add_dotProduct, sub_dotProduct, smul_dotProduct, dot_vm, dot_vm, dot_vm, ← hk, smul_eq_mul]
  have hW : x ⬝ᵥ (q.qxx + kfbᵀ * q.quu * kfb - (2 : ℝ) • (q.qxu * kfb)) *ᵥ x = x ⬝ᵥ q.qxx *ᵥ x + k ⬝ᵥ q.quu *ᵥ k - 2 * (x ⬝ᵥ q.qxu *ᵥ k) := by
    have p1 : (q.qxu * kfb) *ᵥ x = q.qxu *ᵥ k := by rw [hk, mulVec_mulVec]
    have p2 : x ⬝ᵥ (kfbᵀ * q.quu * kfb) *ᵥ x = k ⬝ᵥ q.quu *ᵥ k := by
      rw [hk, mv_dot, mulVec_mulVec, mulVec_mulVec, Matrix.mul_assoc]
    rw [sub_mulVec, add_mulVec, dotProduct_sub, dotProduct_add, smul_mulVec, dotProduct_smul, p1, p2, smul_eq_mul]
  rw [hlin, hW, hks]
  simp only [mulVec_smul, mulVec_add, mulVec_sub, mulVec_neg, dotProduct_add, add_dotProduct, dotProduct_sub, sub_dotProduct, dotProduct_neg, neg_dotProduct, dotProduct_smul, smul_dotProduct, smul_eq_mul]
  rw [hxk, hsym k kff, dotProduct_comm q.qu kff]
  ring

/-- C171 is violated in the smoothing branch: with `Qdudu = -1` the second derivative of the value function is not that of the cost under the control of the gains. -/
theorem C171_smooth_violated : ∃ q : QF 1 1, q.quuᵀ = q.quu ∧ ∃ x, q.eval x ((valueFn q).control x) ≠ (valueFn q).val.eval x := by
  refine ⟨⟨0, 0, 0, 0, !![-1], !![1]⟩, by ext i j; fin_cases i; fin_cases j; rfl, ![1], fun h => ?_⟩
  have hnp : ¬ (!![-1] : Mat 1 1).PosDef := by
    intro hp
    have := hp.diag_pos (i := 0)
    norm_num at this
  have hJ : invUsed (!![-1] : Mat 1 1) = !![-100 / 101] := by
    unfold invUsed
    rw [if_neg hnp]
    have : ((!![-1] : Mat 1 1) * !![-1] + (1 / 100 : ℝ) • 1)⁻¹ = !![100 / 101] := by
      refine inv_eq_right_inv ?_
      ext i j
      fin_cases i; fin_cases j
      norm_num [Matrix.mul_apply, Matrix.add_apply, Matrix.smul_apply]
    rw [this]
    ext i j
    fin_cases i; fin_cases j
    norm_num [Matrix.mul_apply]
  have hK : (!![-100 / 101] : Mat 1 1) * !![1]ᵀ = !![-100 / 101] := by
    ext i j
    fin_cases i; fin_cases j
    simp [Matrix.mul_apply]
  unfold valueFn at h
  simp only [hJ, hK] at h
  simp [QF.eval, Val.eval, Gains.control, mulVec, dotProduct] at h
  norm_num at h

/-- A positive definite case. -/
example : (((1 / 10 : ℝ) • (1 : Mat 6 6))).PosDef := PosDef.one.smul (by norm_num)

/-! ### C172: the whole pass -/

lemma computeQ_eval {n m : Nat} (s : Stage n m) (v : Val n) (hv : v.vxxᵀ = v.vxx) (x : Fin n → ℝ) (u : Fin m → ℝ) :
    (computeQ s v).eval x u = s.eval x u + v.eval (s.A *ᵥ x + s.B *ᵥ u) := by
  simp only [computeQ, QF.eval, Stage.eval, Val.eval]
  have h1 : x ⬝ᵥ (s.Aᵀ * v.vxx * s.A) *ᵥ x = (s.A *ᵥ x) ⬝ᵥ v.vxx *ᵥ (s.A *ᵥ x) := by
    rw [mv_dot, mulVec_mulVec, mulVec_mulVec, Matrix.mul_assoc]
  have h2 : u ⬝ᵥ (s.Bᵀ * v.vxx * s.B) *ᵥ u = (s.B *ᵥ u) ⬝ᵥ v.vxx *ᵥ (s.B *ᵥ u) := by
    rw [mv_dot, mulVec_mulVec, mulVec_mulVec, Matrix.mul_assoc]
  have h3 : x ⬝ᵥ (s.Aᵀ * v.vxx * s.B) *ᵥ u = (s.A *ᵥ x) ⬝ᵥ v.vxx *ᵥ (s.B *ᵥ u) := by
    rw [mv_dot, mulVec_mulVec, mulVec_mulVec, Matrix.mul_assoc]
  have h4 : (s.B *ᵥ u) ⬝ᵥ v.vxx *ᵥ (s.A *ᵥ x) = (s.A *ᵥ x) ⬝ᵥ v.vxx *ᵥ (s.B *ᵥ u) := by
    rw [dotProduct_comm, mv_dot, hv]
  simp only [add_dotProduct, dotProduct_add, add_mulVec, mulVec_add, dot_vm, h1, h2, h3, h4]
  ring

/-- Every `Qdudu` of the pass is positive definite. -/
def AllPD {n m : Nat} (fin : Val n) : List (Stage n m) → Prop
  | [] => True
  | s :: ss => AllPD fin ss ∧ (computeQ s (backward fin ss).2).quu.PosDef

/-- The second derivatives given are symmetric. -/
def Symm {n m : Nat} (fin : Val n) (ss : List (Stage n m)) : Prop := fin.vxxᵀ = fin.vxx ∧ ∀ s ∈ ss, s.cxxᵀ = s.cxx ∧ s.cuuᵀ = s.cuu

lemma value_symm {n m : Nat} (fin : Val n) (ss : List (Stage n m)) (h : Symm fin ss) : (backward fin ss).2.vxxᵀ = (backward fin ss).2.vxx := by
  induction ss with
  | nil => exact h.1
  | cons s ss ih =>
    have ih := ih ⟨h.1, fun s' hs' => h.2 s' (List.mem_cons_of_mem _ hs')⟩
    obtain ⟨hc1, hc2⟩ := h.2 s List.mem_cons_self
    set v := (backward fin ss).2
    set q := computeQ s v with hq
    have hqs : q.quuᵀ = q.quu := by
      simp only [hq, computeQ, transpose_add, transpose_mul, transpose_transpose, hc2, ih, Matrix.mul_assoc]
    have hxs : q.qxxᵀ = q.qxx := by
      simp only [hq, computeQ, transpose_add, transpose_mul, transpose_transpose, hc1, ih, Matrix.mul_assoc]
    have hJs : (invUsed q.quu)ᵀ = invUsed q.quu := by
      unfold invUsed
      split_ifs with hp
      · rw [transpose_nonsing_inv, hqs]
      · exact smooth_symm _ hqs
    show (q.qxx - q.qxu * (invUsed q.quu * q.qxuᵀ))ᵀ = q.qxx - q.qxu * (invUsed q.quu * q.qxuᵀ)
    rw [transpose_sub, transpose_mul, transpose_mul, transpose_transpose, hJs, hxs, Matrix.mul_assoc]

/-- C172 (what holds): if every `Qdudu` of the pass is positive definite, the controls of the gains are the only minimiser of the total cost of the linear-quadratic problem given by the stages, from every
initial deviation, and the minimum is the value function. -/
theorem C172_optimal_partial {n m : Nat} (fin : Val n) (ss : List (Stage n m)) (hsym : Symm fin ss) (hpd : AllPD fin ss) : ∀ x,
    lqTotal fin ss x (play ss (backward fin ss).1 x) = (backward fin ss).2.eval x ∧
    ∀ us, us.length = ss.length → us ≠ play ss (backward fin ss).1 x → (backward fin ss).2.eval x < lqTotal fin ss x us := by
  induction ss with
  | nil =>
    intro x
    refine ⟨rfl, fun us hl hne => ?_⟩
    rw [List.length_nil, List.length_eq_zero_iff] at hl
    exact absurd hl hne
  | cons s ss ih =>
    intro x
    have hsym' : Symm fin ss := ⟨hsym.1, fun s' hs' => hsym.2 s' (List.mem_cons_of_mem _ hs')⟩
    have ih := ih hsym' hpd.1
    have hvs := value_symm fin ss hsym'
    obtain ⟨hmin, hstrict⟩ := C171_minimum _ hpd.2 x
    set v := (backward fin ss).2 with hv
    set g := valueFn (computeQ s v) with hg
    have e1 : (backward fin (s :: ss)).1 = g :: (backward fin ss).1 := rfl
    have e2 : (backward fin (s :: ss)).2 = g.val := rfl
    have hE := computeQ_eval s v hvs x
    refine ⟨?_, fun us hl hne => ?_⟩
    · rw [e1, e2, play, lqTotal, (ih _).1, ← hmin, hE]
    · cases us with
      | nil => simp at hl
      | cons u us =>
        simp only [List.length_cons, Nat.add_right_cancel_iff] at hl
        rw [e2, lqTotal]
        have htail : v.eval (s.A *ᵥ x + s.B *ᵥ u) ≤ lqTotal fin ss (s.A *ᵥ x + s.B *ᵥ u) us := by
          by_cases h : us = play ss (backward fin ss).1 (s.A *ᵥ x + s.B *ᵥ u)
          · rw [h, (ih _).1]
          · exact ((ih _).2 us hl h).le
        by_cases hu : u = g.control x
        · have hne' : us ≠ play ss (backward fin ss).1 (s.A *ᵥ x + s.B *ᵥ u) := by
            intro h
            apply hne
            rw [e1, play, hu, h, hu]
          have := (ih _).2 us hl hne'
          have h0 := hE u
          rw [← hmin, ← hu]
          linarith
        · have h1 := hstrict u hu
          have h0 := hE u
          linarith

/-- The problem of the code meets the condition on symmetry. -/
theorem C172_symm (p : Par) : Symm (final p) ((List.range p.N).map (stage p)) := by
  have hh : ∀ {n : Nat} (F : (Fin n → ℝ) → ℝ), (hessian F)ᵀ = hessian F := by
    intro n F
    ext i j
    rw [transpose_apply, hessian_eq, hessian_eq, add_comm]
  refine ⟨hh _, fun s hs => ?_⟩
  obtain ⟨t, -, rfl⟩ := List.mem_map.1 hs
  refine ⟨hh _, ?_⟩
  show (costUU p t)ᵀ = costUU p t
  unfold costUU
  split_ifs
  · simp
  · rw [transpose_smul, transpose_add, transpose_transpose, add_comm]

lemma qdiff_self (q : Quat) : qdiff q q = 0 := by
  have h := C167_antisymm q q
  funext i
  have := congrFun h i
  simp only [Pi.neg_apply] at this
  simp only [Pi.zero_apply]
  linarith

/-- An empty rest of the horizon with a positive definite stage meets the conditions of C172. -/
example : AllPD (n := 2) (m := 1) ⟨0, 0, 1⟩ [⟨0, 0, 0, 1, 1, 0, 1, !![1; 0]⟩] := by
  refine ⟨trivial, ?_⟩
  have hb : (computeQ (n := 2) (m := 1) ⟨0, 0, 0, 1, 1, 0, 1, !![1; 0]⟩ ⟨0, 0, 1⟩).quu = (2 : ℝ) • 1 := by
    ext i j
    fin_cases i; fin_cases j
    simp [computeQ, Matrix.mul_apply, Matrix.add_apply, Matrix.smul_apply, Fin.sum_univ_two]
    norm_num
  show ((computeQ (n := 2) (m := 1) ⟨0, 0, 0, 1, 1, 0, 1, !![1; 0]⟩ ⟨0, 0, 1⟩).quu).PosDef
  rw [hb]
  exact PosDef.one.smul (by norm_num)

end PyMan
end Verif
