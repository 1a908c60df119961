import Verif.LqrBox
import Verif.LqrBackProps
import Verif.ConicProps
import Mathlib.Algebra.Order.Star.Real

/-! C41: box-constrained controls. -/
namespace Verif
namespace Lqr
open Matrix

/-! ### the posed program is well formed -/

theorem allOk_append : ∀ (a b : List Op) (st : ApiState), st.AllOk a → (st.run a).AllOk b → st.AllOk (a ++ b) := by
  intro a
  induction a with
  | nil => intro b st _ h; exact h
  | cons o a ih => intro b st h1 h2; exact ⟨h1.1, ih b (st.step o) h1.2 h2⟩

theorem boxVars_ok (n : Nat) : ∀ st : ApiState,
    st.AllOk ((List.replicate n (VarType.continuous, (0 : ℝ), (1 : ℝ), (0.5 : ℝ))).map (fun d => Op.addVar d.1 d.2.1 d.2.2.1 d.2.2.2)) := by
  induction n with
  | zero => intro st; trivial
  | succ n ih => intro st; exact ⟨zero_le_one, ih _⟩

theorem boxLin_over {nu : Nat} (L : Mat nu nu) (col : Fin nu) : (boxLin L col).Over (List.range nu) := by
  unfold boxLin
  have : ∀ (l : List (Fin nu)) (e : LinExpr ℝ), e.Over (List.range nu) →
      (l.foldl (fun e row => e.addAssign (LinExpr.ofVar (row : Nat) (L row col))) e).Over (List.range nu) := by
    intro l
    induction l with
    | nil => intro e h; exact h
    | cons r l ih =>
      intro e h
      refine ih _ (over_addAssign h ?_)
      intro t ht
      simp only [LinExpr.ofVar, List.mem_singleton] at ht
      subst ht; exact List.mem_range.mpr r.2
  exact this _ _ (by intro t ht; simp [LinExpr.ofConst] at ht)

theorem boxLin_value {nu : Nat} (L : Mat nu nu) (col : Fin nu) (x : Nat → ℝ) : (boxLin L col).getValue x = (Lᵀ *ᵥ fun i => x i) col := by
  unfold boxLin
  have : ∀ (l : List (Fin nu)) (e : LinExpr ℝ),
      (l.foldl (fun e row => e.addAssign (LinExpr.ofVar (row : Nat) (L row col))) e).getValue x = e.getValue x + (l.map fun row => L row col * x row).sum := by
    intro l
    induction l with
    | nil => intro e; simp
    | cons r l ih => intro e; rw [List.foldl_cons, ih, LinExpr.addAssign_value, LinExpr.ofVar_value, List.map_cons, List.sum_cons]; ring
  rw [this, LinExpr.ofConst_value, zero_add, Matrix.mulVec, dotProduct, ← List.sum_ofFn, List.ofFn_eq_map]
  rfl

theorem boxObjective_spec {nu : Nat} (L : Mat nu nu) (g : Vec nu) :
    (boxObjective L g).Over (List.range nu) ∧ (∀ t ∈ (boxObjective L g).quad, 0 ≤ t.1) ∧
    (∀ x, sumSq (boxObjective L g).quad x = ∑ col, ((Lᵀ *ᵥ fun i => x i) col) ^ 2) ∧
    ∀ x, (boxObjective L g).lin.getValue x = g ⬝ᵥ fun i => x i := by
  unfold boxObjective
  have key : ∀ (l : List (Fin nu)) (q : QuadExpr ℝ), q.Over (List.range nu) → (∀ t ∈ q.quad, 0 ≤ t.1) →
      let q' := l.foldl (fun q col => (q.addQuaTerm 1 (boxLin L col)).addLinTerm (LinExpr.ofVar (col : Nat) (g col))) q
      q'.Over (List.range nu) ∧ (∀ t ∈ q'.quad, 0 ≤ t.1) ∧
      (∀ x, sumSq q'.quad x = sumSq q.quad x + (l.map fun col => ((Lᵀ *ᵥ fun i => x i) col) ^ 2).sum) ∧
      ∀ x, q'.lin.getValue x = q.lin.getValue x + (l.map fun col => g col * x col).sum := by
    intro l
    induction l with
    | nil => intro q h1 h2; exact ⟨h1, h2, by simp, by simp⟩
    | cons c l ih =>
      intro q h1 h2
      have e : ((q.addQuaTerm 1 (boxLin L c)).addLinTerm (LinExpr.ofVar (c : Nat) (g c))) =
          ⟨q.lin.addAssign (LinExpr.ofVar (c : Nat) (g c)), q.quad ++ [(1, boxLin L c)]⟩ := by
        simp [QuadExpr.addQuaTerm, QuadExpr.addLinTerm]
      have g1 : QuadExpr.Over ⟨q.lin.addAssign (LinExpr.ofVar (c : Nat) (g c)), q.quad ++ [(1, boxLin L c)]⟩ (List.range nu) := by
        refine ⟨over_addAssign h1.1 ?_, ?_⟩
        · intro t ht
          simp only [LinExpr.ofVar, List.mem_singleton] at ht
          subst ht; exact List.mem_range.mpr c.2
        · intro t ht
          rcases List.mem_append.mp ht with h | h
          · exact h1.2 t h
          · rw [List.mem_singleton] at h; subst h; exact boxLin_over L c
      have g2 : ∀ t ∈ q.quad ++ [(1, boxLin L c)], (0:ℝ) ≤ t.1 := by
        intro t ht
        rcases List.mem_append.mp ht with h | h
        · exact h2 t h
        · rw [List.mem_singleton] at h; subst h; exact zero_le_one
      obtain ⟨k1, k2, k3, k4⟩ := ih _ g1 g2
      rw [List.foldl_cons, e]
      refine ⟨k1, k2, fun x => ?_, fun x => ?_⟩
      · rw [k3 x]
        simp only [sumSq, List.map_append, List.map_cons, List.map_nil, List.sum_append, List.sum_cons, List.sum_nil, boxLin_value]
        ring
      · rw [k4 x]
        simp only [LinExpr.addAssign_value, LinExpr.ofVar_value, List.map_cons, List.sum_cons]
        ring
  obtain ⟨k1, k2, k3, k4⟩ := key (List.finRange nu) QuadExpr.empty ⟨by intro t ht; simp [QuadExpr.empty, LinExpr.ofConst] at ht, by simp [QuadExpr.empty]⟩
    (by simp [QuadExpr.empty])
  refine ⟨k1, k2, fun x => ?_, fun x => ?_⟩
  · rw [k3 x, ← List.sum_ofFn, List.ofFn_eq_map]; simp [QuadExpr.empty, sumSq]
  · rw [k4 x, dotProduct, ← List.sum_ofFn, List.ofFn_eq_map]; simp [QuadExpr.empty]

theorem lim_over {nu : Nat} (a : ℝ) (i : Fin nu) : ((LinExpr.ofConst a).add (LinExpr.ofVar (i : Nat)) : LinExpr ℝ).Over (List.range nu) := by
  refine over_addAssign (by intro t ht; simp [LinExpr.ofConst] at ht) ?_
  intro t ht
  simp only [LinExpr.ofVar, List.mem_singleton] at ht
  subst ht; exact List.mem_range.mpr i.2

theorem limits_ok {nu : Nat} (u0 lo hi : Vec nu) : ∀ (l : List (Fin nu)) (st : ApiState), st.user = List.range nu → st.AllOk (l.flatMap (boxLimits u0 lo hi)) := by
  intro l
  induction l with
  | nil => intro st _; trivial
  | cons i l ih =>
    intro st h
    rw [List.flatMap_cons]
    have hc : ∀ a : ℝ, (LinExpr.ofConst a : LinExpr ℝ).Over (List.range nu) := by intro a t ht; simp [LinExpr.ofConst] at ht
    exact ⟨by rw [h]; exact ⟨lim_over _ i, hc _, by simp⟩, by rw [show (st.step _).user = st.user from rfl, h]; exact ⟨lim_over _ i, hc _, by simp⟩, ih _ h⟩

theorem boxOps_ok {nu : Nat} (L : Mat nu nu) (g u0 lo hi : Vec nu) : ApiState.init.AllOk (boxOps L g u0 lo hi) := by
  unfold boxOps
  have hu := C05_columns_consecutive (List.replicate nu (VarType.continuous, (0 : ℝ), (1 : ℝ), (0.5 : ℝ))) (by
    intro d hd; rw [(List.mem_replicate.mp hd).2]; exact zero_le_one)
  rw [List.length_replicate] at hu
  refine allOk_append _ _ _ (boxVars_ok _ _) ⟨?_, ?_⟩
  · rw [hu]; exact ⟨(boxObjective_spec L g).1, by intro t ht; simp [LinExpr.ofConst] at ht⟩
  · exact limits_ok _ _ _ _ _ hu

theorem mem_boxOps {nu : Nat} {L : Mat nu nu} {g u0 lo hi : Vec nu} {op : Op} : op ∈ boxOps L g u0 lo hi ↔
    (0 < nu ∧ op = .addVar .continuous 0 1 0.5) ∨ op = .setObj (boxObjective L g) (LinExpr.ofConst 0) ∨ ∃ i, op ∈ boxLimits u0 lo hi i := by
  unfold boxOps
  simp only [List.map_replicate, List.mem_append, List.mem_replicate, List.mem_cons, List.mem_flatMap, List.mem_finRange, true_and, Nat.pos_iff_ne_zero]

theorem boxOps_one {nu : Nat} (L : Mat nu nu) (g u0 lo hi : Vec nu) : OneObj (boxOps L g u0 lo hi) := by
  unfold OneObj boxOps
  rw [List.filter_append, List.filter_cons]
  have h1 : ∀ n, ((List.replicate n (VarType.continuous, (0 : ℝ), (1 : ℝ), (0.5 : ℝ))).map (fun d => Op.addVar d.1 d.2.1 d.2.2.1 d.2.2.2)).filter Op.isObj = [] := by
    intro n
    rw [List.filter_eq_nil_iff]
    intro a ha
    rw [List.map_replicate] at ha
    rw [(List.mem_replicate.mp ha).2]
    simp [Op.isObj]
  have h2 : ((List.finRange nu).flatMap (boxLimits u0 lo hi)).filter Op.isObj = [] := by
    rw [List.filter_eq_nil_iff]
    intro a ha
    obtain ⟨i, -, hi'⟩ := List.mem_flatMap.mp ha
    simp only [boxLimits, List.mem_cons, List.not_mem_nil, or_false] at hi'
    rcases hi' with rfl | rfl <;> simp [Op.isObj]
  rw [h1, h2]
  simp [Op.isObj]

theorem boxOps_regular {nu : Nat} (L : Mat nu nu) (g u0 lo hi : Vec nu) : ∀ op ∈ boxOps L g u0 lo hi, op.Regular := by
  intro op h
  rcases mem_boxOps.mp h with ⟨-, rfl⟩ | rfl | ⟨i, hi'⟩
  · trivial
  · trivial
  · simp only [boxLimits, List.mem_cons, List.not_mem_nil, or_false] at hi'
    rcases hi' with rfl | rfl <;>
      simp [Op.Regular, LinExpr.sub, LinExpr.mul, LinExpr.addAssign, LinExpr.add, LinExpr.clean, LinExpr.cleanStep, LinExpr.ofVar, LinExpr.ofConst]

theorem boxOps_bins {nu : Nat} (L : Mat nu nu) (g u0 lo hi : Vec nu) (y : Nat → ℝ) : (ApiState.init.run (boxOps L g u0 lo hi)).p.BinaryInUnit y := by
  have hb : ∀ (os : List Op) (st : ApiState), st.p.bins = [] → (∀ o ∈ os, o ∈ boxOps L g u0 lo hi) → (st.run os).p.bins = [] := by
    intro os
    induction os with
    | nil => intro st h _; exact h
    | cons o os ih =>
      intro st h hm
      refine ih (st.step o) ?_ fun o' ho' => hm o' (List.mem_cons_of_mem _ ho')
      rcases mem_boxOps.mp (hm o (by simp)) with ⟨-, rfl⟩ | rfl | ⟨i, hi'⟩
      · simp only [ApiState.step, Problem.addVar, Problem.pushVar]
        rw [if_neg (by norm_num)]
        simpa using h
      · exact (step_setObj st _ _).2.2.2.2.1.trans h
      · simp only [boxLimits, List.mem_cons, List.not_mem_nil, or_false] at hi'
        rcases hi' with rfl | rfl <;> simpa [ApiState.step, Problem.addLinConstr] using h
  have h0 := hb _ ApiState.init rfl fun o h => h
  intro v r h1 h2
  have := ((binsOk_run (boxOps L g u0 lo hi) _ binsOk_init) v).2 ⟨r, h1, h2⟩
  rw [h0] at this; cases this

/-- What the program demands: the limits of the resulting control. -/
theorem boxOps_holds {nu : Nat} (L : Mat nu nu) (g u0 lo hi : Vec nu) (x0 : Nat → ℝ) (thr : ℝ) (warm : Bool) (x : Nat → ℝ) :
    (∀ op ∈ boxOps L g u0 lo hi, op.Holds x0 thr warm x) ↔ ∀ i : Fin nu, lo i ≤ u0 i + x i ∧ u0 i + x i ≤ hi i := by
  have hv : ∀ i : Fin nu, ((LinExpr.ofConst (u0 i)).add (LinExpr.ofVar (i : Nat)) : LinExpr ℝ).getValue x = u0 i + x i := by
    intro i; rw [LinExpr.add, LinExpr.addAssign_value, LinExpr.ofConst_value, LinExpr.ofVar_value, one_mul]
  constructor
  · intro h i
    have h1 := h _ (mem_boxOps.mpr (.inr (.inr ⟨i, List.mem_cons_self⟩)))
    have h2 := h _ (mem_boxOps.mpr (.inr (.inr ⟨i, List.mem_cons_of_mem _ List.mem_cons_self⟩)))
    simp only [Op.Holds, hv, LinExpr.ofConst_value] at h1 h2
    simpa using And.intro h1 h2
  · intro h op ho
    rcases mem_boxOps.mp ho with ⟨-, rfl⟩ | rfl | ⟨i, hi'⟩
    · trivial
    · trivial
    · simp only [boxLimits, List.mem_cons, List.not_mem_nil, or_false] at hi'
      rcases hi' with rfl | rfl <;> simp only [Op.Holds, hv, LinExpr.ofConst_value]
      · simpa using (h i).1
      · simpa using (h i).2

theorem boxOps_penalised {nu : Nat} (L : Mat nu nu) (g u0 lo hi : Vec nu) (w : ℝ) (warm : Bool) (x0 x : Nat → ℝ) :
    penalised (boxOps L g u0 lo hi) (boxObjective L g) (LinExpr.ofConst 0) w warm x0 x = (fun i : Fin nu => x i) ⬝ᵥ (L * Lᵀ) *ᵥ (fun i : Fin nu => x i) + g ⬝ᵥ fun i => x i := by
  have hs : ((boxOps L g u0 lo hi).map (Op.softTerm x0 x)).sum = 0 := by
    apply List.sum_eq_zero
    intro a ha
    obtain ⟨op, ho, rfl⟩ := List.mem_map.mp ha
    rcases mem_boxOps.mp ho with ⟨-, rfl⟩ | rfl | ⟨i, hi'⟩
    · rfl
    · rfl
    · simp only [boxLimits, List.mem_cons, List.not_mem_nil, or_false] at hi'
      rcases hi' with rfl | rfl <;> rfl
  unfold penalised
  rw [hs, (boxObjective_spec L g).2.2.1, (boxObjective_spec L g).2.2.2, LinExpr.ofConst_value]
  have : (fun i : Fin nu => x i) ⬝ᵥ (L * Lᵀ) *ᵥ (fun i : Fin nu => x i) = ∑ col, ((Lᵀ *ᵥ fun i : Fin nu => x i) col) ^ 2 := by
    rw [← Matrix.mulVec_mulVec, ← Matrix.transpose_transpose L, ← mulVec_dot, Matrix.transpose_transpose, dotProduct]
    exact Finset.sum_congr rfl fun i _ => (pow_two _).symm
  rw [this]
  simp

/-- C41, what the code computes. For every Cholesky factor of a positive definite Hessian, gradient, nominal control and limits that the half step
respects: every exact solution of the quadratic program posed (a cheapest feasible point of its standard form) is half the unconstrained optimum `-H⁻¹ g`. -/
theorem C41_half_step {nu : Nat} (L : Mat nu nu) (g u0 lo hi : Vec nu) (hH : (L * Lᵀ).PosDef)
    (hin : ∀ i, lo i ≤ u0 i + (1/2 : ℝ) * (-((L * Lᵀ)⁻¹ *ᵥ g)) i ∧ u0 i + (1/2 : ℝ) * (-((L * Lᵀ)⁻¹ *ᵥ g)) i ≤ hi i)
    (x0 : Nat → ℝ) (thr w : ℝ) (hw : 0 ≤ w) (warm : Bool) (f : StdForm ℝ) (hf : (ApiState.init.run (boxOps L g u0 lo hi)).p.build x0 thr w warm = some f)
    (x : Nat → ℝ) (hx : f.Feasible x) (hmin : ∀ y, f.Feasible y → f.cost x ≤ f.cost y) :
    ∀ i : Fin nu, x i = (1/2 : ℝ) * (-((L * Lᵀ)⁻¹ *ᵥ g)) i := by
  set H := L * Lᵀ with hHdef
  set l : Vec nu := -(H⁻¹ *ᵥ g) with hl
  have hsym : Hᵀ = H := by rw [hHdef, Matrix.transpose_mul, Matrix.transpose_transpose]
  have hdet : IsUnit H.det := hH.det_pos.ne'.isUnit
  have hHl : ((2:ℝ) • H) *ᵥ ((1/2:ℝ) • l) = -g := by
    rw [Matrix.mulVec_smul, Matrix.smul_mulVec, smul_smul, hl, Matrix.mulVec_neg, Matrix.mulVec_mulVec, Matrix.mul_nonsing_inv _ hdet, Matrix.one_mulVec]
    norm_num
  have hy : ∀ op ∈ boxOps L g u0 lo hi, op.Holds x0 thr warm (fun n => if h : n < nu then (1/2:ℝ) * l ⟨n, h⟩ else 0) := by
    rw [boxOps_holds]
    intro i
    simpa using hin i
  have h := C08_minimiser (boxOps L g u0 lo hi) (boxOps_ok L g u0 lo hi) (boxOps_one L g u0 lo hi) (boxOps_regular L g u0 lo hi) (boxObjective L g) (LinExpr.ofConst 0)
    (mem_boxOps.mpr (.inr (.inl rfl))) (boxObjective_spec L g).2.1 x0 thr w hw warm f hf x hx hmin _ hy (boxOps_bins L g u0 lo hi _)
  rw [boxOps_penalised, boxOps_penalised] at h
  have e : (fun i : Fin nu => if h : (i : Nat) < nu then (1/2:ℝ) * l ⟨i, h⟩ else 0) = (1/2:ℝ) • l := by
    funext i; simp
  rw [e] at h
  rw [← hHdef] at h
  have sq := square (H := (2:ℝ) • H) (by rw [Matrix.transpose_smul, hsym]) g ((1/2:ℝ) • l) hHl (fun i : Fin nu => x i)
  simp only [Matrix.smul_mulVec, dotProduct_smul, smul_eq_mul] at sq
  rw [dotProduct_comm g, dotProduct_comm g] at h
  have hz : ((fun i : Fin nu => x i) - (1/2:ℝ) • l) ⬝ᵥ H *ᵥ ((fun i : Fin nu => x i) - (1/2:ℝ) • l) ≤ 0 := by linarith
  by_contra hne
  push Not at hne
  obtain ⟨i, hi'⟩ := hne
  have : ((fun i : Fin nu => x i) - (1/2:ℝ) • l) ≠ 0 := by
    intro h0
    exact hi' (sub_eq_zero.mp (by simpa using congrFun h0 i))
  linarith [posDef_pos hH this]

/-- The quadratic program has an exact solution whenever the half step respects the limits. -/
theorem box_solution_exists {nu : Nat} (L : Mat nu nu) (g u0 lo hi : Vec nu) (hH : (L * Lᵀ).PosDef)
    (hin : ∀ i, lo i ≤ u0 i + (1/2 : ℝ) * (-((L * Lᵀ)⁻¹ *ᵥ g)) i ∧ u0 i + (1/2 : ℝ) * (-((L * Lᵀ)⁻¹ *ᵥ g)) i ≤ hi i)
    (x0 : Nat → ℝ) (thr w : ℝ) (hw : 0 ≤ w) (warm : Bool) :
    ∃ f x, (ApiState.init.run (boxOps L g u0 lo hi)).p.build x0 thr w warm = some f ∧ f.Feasible x ∧ ∀ y, f.Feasible y → f.cost x ≤ f.cost y := by
  obtain ⟨f, hf, he⟩ := C07_standard_form (boxOps L g u0 lo hi) (boxOps_ok L g u0 lo hi) (boxOps_one L g u0 lo hi) (boxOps_regular L g u0 lo hi) x0 thr w warm
  have hobj := fun x hx => C08_objective (boxOps L g u0 lo hi) (boxOps_ok L g u0 lo hi) (boxOps_one L g u0 lo hi) (boxOps_regular L g u0 lo hi) (boxObjective L g)
    (LinExpr.ofConst 0) (mem_boxOps.mpr (.inr (.inl rfl))) (boxObjective_spec L g).2.1 x0 thr w hw warm f hf x hx
  set H := L * Lᵀ with hHdef
  set l : Vec nu := -(H⁻¹ *ᵥ g) with hl
  have hsym : Hᵀ = H := by rw [hHdef, Matrix.transpose_mul, Matrix.transpose_transpose]
  have hdet : IsUnit H.det := hH.det_pos.ne'.isUnit
  have hHl : ((2:ℝ) • H) *ᵥ ((1/2:ℝ) • l) = -g := by
    rw [Matrix.mulVec_smul, Matrix.smul_mulVec, smul_smul, hl, Matrix.mulVec_neg, Matrix.mulVec_mulVec, Matrix.mul_nonsing_inv _ hdet, Matrix.one_mulVec]
    norm_num
  have hy : ∀ op ∈ boxOps L g u0 lo hi, op.Holds x0 thr warm (fun n => if h : n < nu then (1/2:ℝ) * l ⟨n, h⟩ else 0) := by
    rw [boxOps_holds]
    intro i
    simpa using hin i
  obtain ⟨y, hyu, hyf⟩ := (he _).1 ⟨hy, boxOps_bins L g u0 lo hi _⟩
  obtain ⟨-, z, hz1, hz2, hz3⟩ := hobj y hyf
  refine ⟨f, z, hf, hz1, fun v hv => ?_⟩
  refine le_trans ?_ (hobj v hv).1
  rw [hz3, boxOps_penalised, boxOps_penalised, ← hHdef]
  have hus : ∀ i : Fin nu, (i : Nat) ∈ (ApiState.init.run (boxOps L g u0 lo hi)).user := by
    intro i
    have hu := C05_columns_consecutive (List.replicate nu (VarType.continuous, (0 : ℝ), (1 : ℝ), (0.5 : ℝ))) (by
      intro d hd; rw [(List.mem_replicate.mp hd).2]; exact zero_le_one)
    rw [List.length_replicate] at hu
    have hmono : ∀ (os : List Op) (st : ApiState), (i : Nat) ∈ st.user → (i : Nat) ∈ (st.run os).user := by
      intro os
      induction os with
      | nil => intro st h; exact h
      | cons o os ih =>
        intro st h
        refine ih (st.step o) ?_
        cases o with
        | addVar ty lb ub g' =>
          by_cases hle : lb > ub
          · simpa [ApiState.step, Problem.addVar, hle] using h
          · simp only [ApiState.step, Problem.addVar, if_neg hle]; exact List.mem_append_left _ h
        | addLin => exact h
        | addQua => exact h
        | addSoc => exact h
        | setObj => exact h
    unfold boxOps
    rw [show ∀ (st : ApiState) a b, st.run (a ++ b) = (st.run a).run b from fun st a b => List.foldl_append]
    exact hmono _ _ (by rw [hu]; exact List.mem_range.mpr i.2)
  have e : (fun i : Fin nu => y i) = (1/2:ℝ) • l := by
    funext i; rw [hyu i (hus i)]; simp
  rw [e]
  have sq := square (H := (2:ℝ) • H) (by rw [Matrix.transpose_smul, hsym]) g ((1/2:ℝ) • l) hHl (fun i : Fin nu => v i)
  simp only [Matrix.smul_mulVec, dotProduct_smul, smul_eq_mul] at sq
  rw [dotProduct_comm g, dotProduct_comm g]
  have := posDef_nonneg hH ((fun i : Fin nu => v i) - (1/2:ℝ) • l)
  linarith

/-- C41 is false of the code: whenever the gradient is not zero and neither the nominal control nor the unconstrained optimum violates a limit, the program posed has
exact solutions and every one of them differs from the unconstrained optimum (the objective lacks the factor one half). -/
theorem C41_violated {nu : Nat} (L : Mat nu nu) (g u0 lo hi : Vec nu) (hH : (L * Lᵀ).PosDef) (hg : g ≠ 0) (hu0 : ∀ i, lo i ≤ u0 i ∧ u0 i ≤ hi i)
    (hin : ∀ i, lo i ≤ u0 i + (-((L * Lᵀ)⁻¹ *ᵥ g)) i ∧ u0 i + (-((L * Lᵀ)⁻¹ *ᵥ g)) i ≤ hi i) (x0 : Nat → ℝ) (thr w : ℝ) (hw : 0 ≤ w) (warm : Bool) :
    ∃ f, (ApiState.init.run (boxOps L g u0 lo hi)).p.build x0 thr w warm = some f ∧
      (∃ x, f.Feasible x ∧ ∀ y, f.Feasible y → f.cost x ≤ f.cost y) ∧
      ∀ x, f.Feasible x → (∀ y, f.Feasible y → f.cost x ≤ f.cost y) → (fun i : Fin nu => x i) ≠ -((L * Lᵀ)⁻¹ *ᵥ g) := by
  have hhalf : ∀ i, lo i ≤ u0 i + (1/2 : ℝ) * (-((L * Lᵀ)⁻¹ *ᵥ g)) i ∧ u0 i + (1/2 : ℝ) * (-((L * Lᵀ)⁻¹ *ᵥ g)) i ≤ hi i := by
    intro i
    obtain ⟨a, b⟩ := hu0 i
    obtain ⟨c, d⟩ := hin i
    constructor <;> linarith
  obtain ⟨f, x, hf, hx, hm⟩ := box_solution_exists L g u0 lo hi hH hhalf x0 thr w hw warm
  refine ⟨f, hf, ⟨x, hx, hm⟩, fun z hz hmz he => ?_⟩
  have h := C41_half_step L g u0 lo hi hH hhalf x0 thr w hw warm f hf z hz hmz
  have h0 : ∀ i, (-((L * Lᵀ)⁻¹ *ᵥ g)) i = 0 := by
    intro i
    have h1 := congrFun he i
    have h2 := h i
    rw [show z (i : Nat) = _ from h1] at h2
    linarith
  have hz' : (L * Lᵀ)⁻¹ *ᵥ g = 0 := by funext i; have := h0 i; simpa using this
  apply hg
  have := congrArg ((L * Lᵀ) *ᵥ ·) hz'
  simpa [Matrix.mulVec_mulVec, Matrix.mul_nonsing_inv _ hH.det_pos.ne'.isUnit] using this

/-- C41, the part that holds: at a stationary nominal control (zero gradient) within its limits, the constrained computation returns the unconstrained result (zero); and
in general every solution respects the limits and minimises `vᵀHv + gᵀv` among all steps that do. -/
theorem C41_limits_partial {nu : Nat} (L : Mat nu nu) (g u0 lo hi : Vec nu) (x0 : Nat → ℝ) (thr w : ℝ) (hw : 0 ≤ w) (warm : Bool) (f : StdForm ℝ)
    (hf : (ApiState.init.run (boxOps L g u0 lo hi)).p.build x0 thr w warm = some f) (x : Nat → ℝ) (hx : f.Feasible x) (hmin : ∀ y, f.Feasible y → f.cost x ≤ f.cost y) :
    (∀ i : Fin nu, lo i ≤ u0 i + x i ∧ u0 i + x i ≤ hi i) ∧
    (∀ v : Vec nu, (∀ i, lo i ≤ u0 i + v i ∧ u0 i + v i ≤ hi i) →
      (fun i : Fin nu => x i) ⬝ᵥ (L * Lᵀ) *ᵥ (fun i : Fin nu => x i) + (g ⬝ᵥ fun i => x i) ≤ v ⬝ᵥ (L * Lᵀ) *ᵥ v + g ⬝ᵥ v) ∧
    ((L * Lᵀ).PosDef → g = 0 → (∀ i, lo i ≤ u0 i ∧ u0 i ≤ hi i) → (fun i : Fin nu => x i) = -((L * Lᵀ)⁻¹ *ᵥ g)) := by
  refine ⟨?_, ?_, ?_⟩
  · obtain ⟨f', hf', he⟩ := C07_standard_form (boxOps L g u0 lo hi) (boxOps_ok L g u0 lo hi) (boxOps_one L g u0 lo hi) (boxOps_regular L g u0 lo hi) x0 thr w warm
    obtain rfl : f = f' := Option.some.inj (hf.symm.trans hf')
    exact (boxOps_holds L g u0 lo hi x0 thr warm x).1 ((he x).2 ⟨x, fun _ _ => rfl, hx⟩).1
  · intro v hv
    have hy : ∀ op ∈ boxOps L g u0 lo hi, op.Holds x0 thr warm (fun n => if h : n < nu then v ⟨n, h⟩ else 0) := by
      rw [boxOps_holds]
      intro i
      simpa using hv i
    have h := C08_minimiser (boxOps L g u0 lo hi) (boxOps_ok L g u0 lo hi) (boxOps_one L g u0 lo hi) (boxOps_regular L g u0 lo hi) (boxObjective L g) (LinExpr.ofConst 0)
      (mem_boxOps.mpr (.inr (.inl rfl))) (boxObjective_spec L g).2.1 x0 thr w hw warm f hf x hx hmin _ hy (boxOps_bins L g u0 lo hi _)
    rw [boxOps_penalised, boxOps_penalised] at h
    have e : (fun i : Fin nu => if h : (i : Nat) < nu then v ⟨i, h⟩ else 0) = v := by funext i; simp
    rw [e] at h
    exact h
  · rintro hH rfl hu
    have h := C41_half_step L 0 u0 lo hi hH (by simpa using hu) x0 thr w hw warm f hf x hx hmin
    funext i
    rw [h i]; simp

/-- The hypotheses are met: Hessian 4, gradient 4, nominal control 0, limits ±10. -/
example : (((2 : ℝ) • (1 : Mat 1 1)) * ((2 : ℝ) • (1 : Mat 1 1))ᵀ).PosDef ∧ (fun _ => 4 : Vec 1) ≠ 0 ∧ (∀ i, (fun _ => -10 : Vec 1) i ≤ (0 : Vec 1) i ∧ (0 : Vec 1) i ≤ (fun _ => 10 : Vec 1) i) ∧
    (∀ i, (fun _ => -10 : Vec 1) i ≤ (0 : Vec 1) i + (-((((2 : ℝ) • (1 : Mat 1 1)) * ((2 : ℝ) • (1 : Mat 1 1))ᵀ)⁻¹ *ᵥ (fun _ => 4 : Vec 1))) i ∧
      (0 : Vec 1) i + (-((((2 : ℝ) • (1 : Mat 1 1)) * ((2 : ℝ) • (1 : Mat 1 1))ᵀ)⁻¹ *ᵥ (fun _ => 4 : Vec 1))) i ≤ (fun _ => 10 : Vec 1) i) := by
  have e : ((2 : ℝ) • (1 : Mat 1 1)) * ((2 : ℝ) • (1 : Mat 1 1))ᵀ = (4 : ℝ) • 1 := by
    rw [Matrix.transpose_smul, Matrix.transpose_one, Matrix.smul_mul, Matrix.mul_smul, smul_smul, Matrix.one_mul]; norm_num
  have e2 : ((4 : ℝ) • (1 : Mat 1 1))⁻¹ = (1/4 : ℝ) • 1 := by
    apply Matrix.inv_eq_right_inv
    rw [Matrix.smul_mul, Matrix.mul_smul, smul_smul, Matrix.one_mul]; norm_num
  rw [e, e2]
  refine ⟨Matrix.PosDef.smul Matrix.PosDef.one (by norm_num), fun h => ?_, fun i => ?_, fun i => ?_⟩
  · have := congrFun h 0; norm_num at this
  · constructor <;> simp
  · simp only [Matrix.smul_mulVec, Matrix.one_mulVec, Pi.neg_apply, Pi.smul_apply, smul_eq_mul, Pi.zero_apply]
    constructor <;> norm_num

end Lqr
end Verif
