import Verif.PyIk
import Mathlib.Tactic.Linarith
import Mathlib.Tactic.Ring
import Mathlib.Tactic.LinearCombination
import Mathlib.Tactic.Positivity
import Mathlib.Tactic.FinCases
import Mathlib.Tactic.NormNum
import Mathlib.Algebra.BigOperators.Fin
import Mathlib.Data.List.GetD
import Mathlib.Algebra.BigOperators.Field
import Mathlib.LinearAlgebra.Matrix.Notation

/-!
C131, C132, C133: the quadratic program of the first-order inverse kinematics of the Python front end.

The specification is `QpSol`, `aim`, `trackCost` and `MomentumIs` below; nothing in them refers to the matrices `J`, `w`,
`hessian`, `gradient` of the code.
-/
namespace Verif
namespace PyIk
open Matrix

/-! ### Specification -/

/-- The documented program of qp.py:22-26: minimise `1/2 x'Px + q'x` subject to `Gx ≤ h`, `Ax = b`. -/
structure QpSol {n : Nat} (P : Matrix (Fin n) (Fin n) ℝ) (q : Vec n) (G A : Option (List (Row n))) (x : Vec n) : Prop where
  ineq : ∀ r ∈ G.getD [], r.1 ⬝ᵥ x ≤ r.2
  eq : ∀ r ∈ A.getD [], r.1 ⬝ᵥ x = r.2
  best : ∀ y : Vec n, (∀ r ∈ G.getD [], r.1 ⬝ᵥ y ≤ r.2) → (∀ r ∈ A.getD [], r.1 ⬝ᵥ y = r.2) →
    1 / 2 * (x ⬝ᵥ P *ᵥ x) + q ⬝ᵥ x ≤ 1 / 2 * (y ⬝ᵥ P *ᵥ y) + q ⬝ᵥ y

variable {Q : Type} {nj : Nat}

/-- The velocity wanted for coordinate `k` of end-effector `i`: reference velocity plus a proportional correction of the
position (with gain one while `is_init_time`). -/
def aim (rb : Robot Q nj) (g : Gains) (q : Q) (f : Ref) (i k : Nat) : ℝ :=
  f.vel i k + (if g.init then 1 else g.pEff) * (f.pos i k - rb.pos q i k)

/-- The weighted squared tracking errors of the velocity `x` at configuration `q`: linear momentum, angular momentum,
end-effector velocities (weighted according to contact), joint velocities, and the small regularisation of `x`. -/
noncomputable def trackCost (rb : Robot Q nj) (g : Gains) (q : Q) (f : Ref) (x : Vec (6 + nj)) : ℝ :=
  g.wLin * ∑ k ∈ Finset.range 3, (rb.Ag q k ⬝ᵥ x - (f.lmom k + g.pCom * (f.com k - rb.com q k))) ^ 2
  + g.wAng * ∑ k ∈ Finset.range 3, (rb.Ag q (3 + k) ⬝ᵥ x - f.amom k) ^ 2
  + ∑ i ∈ Finset.range rb.ne, (if f.contact i then g.wContact else g.wTrack) *
      ∑ k ∈ Finset.range 3, (rb.jac q i k ⬝ᵥ x - aim rb g q f i k) ^ 2
  + g.wJoint * ∑ j : Fin nj, (x (Fin.natAdd 6 j) - (match f.joint with | none => 0 | some r => r j)) ^ 2
  + 1 / 10 ^ 6 * ∑ c, x c ^ 2

/-- The velocity `x` has exactly the reference momentum (the constraint during a flight phase). -/
def MomentumIs (rb : Robot Q nj) (q : Q) (f : Ref) (x : Vec (6 + nj)) : Prop :=
  ∀ k, k < 3 → rb.Ag q k ⬝ᵥ x = f.lmom k ∧ rb.Ag q (3 + k) ⬝ᵥ x = f.amom k

/-- All tracking weights are nonnegative. -/
def Gains.Nonneg (g : Gains) : Prop := 0 ≤ g.wTrack ∧ 0 ≤ g.wContact ∧ 0 ≤ g.wLin ∧ 0 ≤ g.wAng ∧ 0 ≤ g.wJoint

/-! ### The wrapper of quadprog -/

theorem negRow_eq {n : Nat} (r : Row n) (x : Vec n) : (negRow r).1 ⬝ᵥ x = (negRow r).2 ↔ r.1 ⬝ᵥ x = r.2 := by
  unfold negRow; simp [neg_dotProduct]

theorem negRow_le {n : Nat} (r : Row n) (x : Vec n) : (negRow r).2 ≤ (negRow r).1 ⬝ᵥ x ↔ r.1 ⬝ᵥ x ≤ r.2 := by
  unfold negRow; simp [neg_dotProduct]

theorem qfeas_wrap {n : Nat} (G A : List (Row n)) (x : Vec n) :
    QFeas ((A ++ G).map negRow) A.length x ↔ (∀ r ∈ G, r.1 ⬝ᵥ x ≤ r.2) ∧ ∀ r ∈ A, r.1 ⬝ᵥ x = r.2 := by
  unfold QFeas
  rw [← List.map_take, ← List.map_drop, List.take_left, List.drop_left]
  simp only [List.forall_mem_map, negRow_eq, negRow_le]
  exact and_comm

theorem wrap_eq (s : Quadprog) {n : Nat} (P : Matrix (Fin n) (Fin n) ℝ) (q : Vec n) (G A : Option (List (Row n))) :
    quadprogSolveQp s P q G A = s n P (-q) ((A.getD [] ++ G.getD []).map negRow) (A.getD []).length := by
  unfold quadprogSolveQp
  rcases G with _ | G <;> rcases A with _ | A <;> simp

/-- C131: for a positive definite cost the vector returned by `quadprog_solve_qp` solves the documented program, whichever of the
two kinds of constraints are given; and it returns a vector (does not raise) whenever the constraints are consistent. -/
theorem C131_qp_partial (s : Quadprog) (hs : s.Ok) {n : Nat} (P : Matrix (Fin n) (Fin n) ℝ) (hP : P.PosDef) (q : Vec n)
    (G A : Option (List (Row n))) :
    (∀ x, quadprogSolveQp s P q G A = some x → QpSol P q G A x) ∧
    ((∃ y, (∀ r ∈ G.getD [], r.1 ⬝ᵥ y ≤ r.2) ∧ ∀ r ∈ A.getD [], r.1 ⬝ᵥ y = r.2) → ∃ x, quadprogSolveQp s P q G A = some x) := by
  rw [wrap_eq]
  obtain ⟨h1, h2⟩ := hs n P (-q) ((A.getD [] ++ G.getD []).map negRow) (A.getD []).length hP
  simp only [qfeas_wrap] at h1 h2
  refine ⟨fun x hx => ?_, fun h => ?_⟩
  · obtain ⟨⟨a, b⟩, c⟩ := h1 x hx
    refine ⟨a, b, fun y hg hy => ?_⟩
    have := c y ⟨hg, hy⟩
    simp only [neg_dotProduct] at this
    linarith
  · exact Option.ne_none_iff_exists'.mp (h2 h)

/-- C131, what the documentation says and the code does not do: `None` "if not found". On inconsistent constraints the wrapper does
not return at all (`none` of the model: the exception of quadprog escapes) for no solver that keeps its promise. -/
theorem C131_infeasible_raises (s : Quadprog) (hs : s.Ok) {n : Nat} (P : Matrix (Fin n) (Fin n) ℝ) (hP : P.PosDef) (q : Vec n)
    (G A : Option (List (Row n))) (h : ¬ ∃ y, (∀ r ∈ G.getD [], r.1 ⬝ᵥ y ≤ r.2) ∧ ∀ r ∈ A.getD [], r.1 ⬝ᵥ y = r.2) :
    quadprogSolveQp s P q G A = none := by
  by_contra hne
  obtain ⟨x, hx⟩ := Option.ne_none_iff_exists'.mp hne
  have := (C131_qp_partial s hs P hP q G A).1 x hx
  exact h ⟨x, this.ineq, this.eq⟩

/-! ### Lookup in the stacked weights, sum over the stacked rows -/

theorem flat3_length (f : Nat → ℝ) (n : Nat) : ((List.range n).flatMap fun i => [f i, f i, f i]).length = 3 * n := by
  induction n with
  | zero => rfl
  | succ n ih => rw [List.range_succ, List.flatMap_append, List.length_append, ih]; simp; omega

theorem flat3_getD (f : Nat → ℝ) (n i k : Nat) (hi : i < n) (hk : k < 3) :
    ((List.range n).flatMap fun i => [f i, f i, f i]).getD (3 * i + k) 0 = f i := by
  induction n with
  | zero => omega
  | succ n ih =>
    rw [List.range_succ, List.flatMap_append]
    rcases Nat.lt_or_ge i n with h | h
    · rw [List.getD_append _ _ _ _ (by rw [flat3_length]; omega)]; exact ih h
    · have : i = n := by omega
      subst this
      rw [List.getD_append_right _ _ _ _ (by rw [flat3_length]; omega), flat3_length]
      have e : 3 * i + k - 3 * i = k := by omega
      rw [e]
      rcases k with _ | _ | _ | k
      · simp
      · simp
      · simp
      · omega

theorem weights_eq (rb : Robot Q nj) (g : Gains) (f : Ref) : rb.weights g f =
    [g.wLin, g.wLin, g.wLin] ++ ([g.wAng, g.wAng, g.wAng] ++ (((List.range rb.ne).flatMap fun i =>
      [if f.contact i then g.wContact else g.wTrack, if f.contact i then g.wContact else g.wTrack, if f.contact i then g.wContact else g.wTrack]) ++
      List.replicate nj g.wJoint)) := by
  unfold Robot.weights
  simp only [List.append_assoc]
  congr 4
  funext i
  split <;> rfl

theorem weights_lin (rb : Robot Q nj) (g : Gains) (f : Ref) (k : Nat) (hk : k < 3) : (rb.weights g f).getD k 0 = g.wLin := by
  rw [weights_eq, List.getD_append _ _ _ _ (by simpa using hk)]
  rcases k with _ | _ | _ | k
  · rfl
  · rfl
  · rfl
  · omega

theorem weights_ang (rb : Robot Q nj) (g : Gains) (f : Ref) (k : Nat) (hk : k < 3) : (rb.weights g f).getD (3 + k) 0 = g.wAng := by
  rw [weights_eq, List.getD_append_right _ _ _ _ (by simp), List.getD_append _ _ _ _ (by simp; omega)]
  rcases k with _ | _ | _ | k
  · rfl
  · rfl
  · rfl
  · omega

theorem weights_eff (rb : Robot Q nj) (g : Gains) (f : Ref) (i k : Nat) (hi : i < rb.ne) (hk : k < 3) :
    (rb.weights g f).getD (6 + (3 * i + k)) 0 = if f.contact i then g.wContact else g.wTrack := by
  rw [weights_eq, List.getD_append_right _ _ _ _ (by simp; omega), List.getD_append_right _ _ _ _ (by simp; omega),
    List.getD_append _ _ _ _ (by rw [flat3_length]; simp; omega)]
  have e : 6 + (3 * i + k) - [g.wLin, g.wLin, g.wLin].length - [g.wAng, g.wAng, g.wAng].length = 3 * i + k := by simp; omega
  rw [e]
  exact flat3_getD (fun i => if f.contact i then g.wContact else g.wTrack) rb.ne i k hi hk

theorem weights_joint (rb : Robot Q nj) (g : Gains) (f : Ref) (j : Nat) (hj : j < nj) :
    (rb.weights g f).getD ((rb.ne + 2) * 3 + j) 0 = g.wJoint := by
  rw [weights_eq, List.getD_append_right _ _ _ _ (by simp; omega), List.getD_append_right _ _ _ _ (by simp; omega),
    List.getD_append_right _ _ _ _ (by rw [flat3_length]; simp; omega), flat3_length]
  have e : (rb.ne + 2) * 3 + j - [g.wLin, g.wLin, g.wLin].length - [g.wAng, g.wAng, g.wAng].length - 3 * rb.ne = j := by simp; omega
  rw [e, List.getD_eq_getElem _ _ (by simpa using hj), List.getElem_replicate]

theorem weights_nonneg (rb : Robot Q nj) (g : Gains) (f : Ref) (hg : g.Nonneg) (r : Nat) : 0 ≤ (rb.weights g f).getD r 0 := by
  obtain ⟨h1, h2, h3, h4, h5⟩ := hg
  have : ∀ w ∈ rb.weights g f, 0 ≤ w := by
    rw [weights_eq]
    intro w hw
    simp only [List.mem_append, List.mem_flatMap, List.mem_replicate, List.mem_cons, List.not_mem_nil, or_false] at hw
    rcases hw with (h | h | h) | (h | h | h) | ⟨i, -, h | h | h⟩ | ⟨-, h⟩
    all_goals subst h
    all_goals first | assumption | (split <;> assumption)
  rcases Nat.lt_or_ge r (rb.weights g f).length with h | h
  · rw [List.getD_eq_getElem _ _ h]; exact this _ (List.getElem_mem h)
  · rw [List.getD_eq_default _ _ h]

theorem sum_rows (ne nj : Nat) (F : Nat → ℝ) : ∑ r ∈ Finset.range ((ne + 2) * 3 + nj), F r =
    ∑ k ∈ Finset.range 3, F k + ∑ k ∈ Finset.range 3, F (3 + k) + ∑ i ∈ Finset.range ne, ∑ k ∈ Finset.range 3, F (6 + (3 * i + k)) +
    ∑ j ∈ Finset.range nj, F ((ne + 2) * 3 + j) := by
  rw [Finset.sum_range_add]
  congr 1
  have : (ne + 2) * 3 = 3 + (3 + 3 * ne) := by ring
  rw [this, Finset.sum_range_add, Finset.sum_range_add, ← add_assoc]
  congr 1
  induction ne with
  | zero => simp
  | succ n ih =>
    rw [Finset.sum_range_succ, ← ih (by ring), show 3 * (n + 1) = 3 * n + 3 by ring, Finset.sum_range_add]
    congr 1
    refine Finset.sum_congr rfl fun k _ => ?_
    congr 1
    omega

/-! ### The quadratic form -/

/-- The error of stacked row `r`. -/
noncomputable def rowErr (rb : Robot Q nj) (g : Gains) (q : Q) (f : Ref) (x : Vec (6 + nj)) (r : Nat) : ℝ :=
  rb.J q r ⬝ᵥ x - rb.velDes g q q f r

theorem hessian_quad (rb : Robot Q nj) (g : Gains) (q : Q) (f : Ref) (x : Vec (6 + nj)) :
    x ⬝ᵥ (rb.hessian g q f) *ᵥ x =
      ∑ r ∈ Finset.range rb.rows, (rb.weights g f).getD r 0 * (rb.J q r ⬝ᵥ x) ^ 2 + 1 / 10 ^ 6 * ∑ c, x c ^ 2 := by
  have h1 : ∀ i, ((rb.hessian g q f) *ᵥ x) i =
      ∑ r ∈ Finset.range rb.rows, rb.J q r i * (rb.weights g f).getD r 0 * (rb.J q r ⬝ᵥ x) + 1 / 10 ^ 6 * x i := by
    intro i
    unfold Robot.hessian
    simp only [mulVec, dotProduct, Matrix.of_apply, add_mul, Finset.sum_add_distrib, Finset.sum_mul, ite_mul, zero_mul,
      Finset.sum_ite_eq, Finset.mem_univ, if_true, Finset.mul_sum]
    congr 1
    rw [Finset.sum_comm]
    refine Finset.sum_congr rfl fun r _ => Finset.sum_congr rfl fun j _ => ?_
    ring
  simp only [dotProduct] at h1 ⊢
  simp only [h1, mul_add, Finset.sum_add_distrib, Finset.mul_sum]
  congr 1
  · rw [Finset.sum_comm]
    refine Finset.sum_congr rfl fun r _ => ?_
    rw [sq, Finset.sum_mul_sum, Finset.mul_sum]
    refine Finset.sum_congr rfl fun i _ => ?_
    rw [Finset.mul_sum]
    refine Finset.sum_congr rfl fun j _ => ?_
    ring
  · refine Finset.sum_congr rfl fun c _ => ?_
    ring

theorem gradient_lin (rb : Robot Q nj) (g : Gains) (q : Q) (f : Ref) (x : Vec (6 + nj)) :
    rb.gradient g q q f ⬝ᵥ x = -∑ r ∈ Finset.range rb.rows, (rb.weights g f).getD r 0 * rb.velDes g q q f r * (rb.J q r ⬝ᵥ x) := by
  unfold Robot.gradient
  simp only [dotProduct, neg_mul, Finset.sum_neg_distrib, Finset.sum_mul, Finset.mul_sum]
  congr 1
  rw [Finset.sum_comm]
  refine Finset.sum_congr rfl fun r _ => Finset.sum_congr rfl fun j _ => ?_
  ring

theorem hessian_symm (rb : Robot Q nj) (g : Gains) (q : Q) (f : Ref) : (rb.hessian g q f).IsHermitian := by
  ext i j
  unfold Robot.hessian
  simp only [conjTranspose_apply, Matrix.of_apply, star_trivial, eq_comm (a := j) (b := i)]
  congr 1
  refine Finset.sum_congr rfl fun r _ => ?_
  ring

theorem hessian_posDef (rb : Robot Q nj) (g : Gains) (hg : g.Nonneg) (q : Q) (f : Ref) : (rb.hessian g q f).PosDef := by
  refine PosDef.of_dotProduct_mulVec_pos (hessian_symm rb g q f) fun x hx => ?_
  rw [star_trivial, hessian_quad]
  have h1 : 0 ≤ ∑ r ∈ Finset.range rb.rows, (rb.weights g f).getD r 0 * (rb.J q r ⬝ᵥ x) ^ 2 :=
    Finset.sum_nonneg fun r _ => mul_nonneg (weights_nonneg rb g f hg r) (sq_nonneg _)
  have h2 : 0 < ∑ c, x c ^ 2 := by
    obtain ⟨c, hc⟩ := Function.ne_iff.mp hx
    exact Finset.sum_pos' (fun _ _ => sq_nonneg _) ⟨c, Finset.mem_univ _, lt_of_le_of_ne (sq_nonneg _) (Ne.symm (pow_ne_zero 2 hc))⟩
  have : (0:ℝ) < 1 / 10 ^ 6 * ∑ c, x c ^ 2 := by positivity
  linarith

theorem J_joint (rb : Robot Q nj) (q : Q) (x : Vec (6 + nj)) (j : Fin nj) :
    rb.J q ((rb.ne + 2) * 3 + j) ⬝ᵥ x = x (Fin.natAdd 6 j) := by
  unfold Robot.J
  rw [if_neg (by omega), if_neg (by omega)]
  simp only [dotProduct, ite_mul, one_mul, zero_mul]
  rw [Finset.sum_eq_single (Fin.natAdd 6 j)]
  · rw [if_pos (by simp)]
  · intro b _ hb
    rw [if_neg]
    intro h
    apply hb
    apply Fin.ext
    rw [h]; simp
  · intro h; exact absurd (Finset.mem_univ _) h

theorem trackCost_rows (rb : Robot Q nj) (g : Gains) (q : Q) (f : Ref) (x : Vec (6 + nj)) :
    trackCost rb g q f x = ∑ r ∈ Finset.range rb.rows, (rb.weights g f).getD r 0 * (rowErr rb g q f x r) ^ 2 + 1 / 10 ^ 6 * ∑ c, x c ^ 2 := by
  unfold Robot.rows
  rw [sum_rows]
  unfold trackCost
  congr 1
  congr 1
  · congr 1
    · congr 1
      · rw [Finset.mul_sum]
        refine Finset.sum_congr rfl fun k hk => ?_
        have hk := Finset.mem_range.mp hk
        rw [weights_lin rb g f k hk]
        unfold rowErr Robot.J Robot.velDes
        rw [if_pos (by omega), if_pos hk]
      · rw [Finset.mul_sum]
        refine Finset.sum_congr rfl fun k hk => ?_
        have hk := Finset.mem_range.mp hk
        rw [weights_ang rb g f k hk]
        unfold rowErr Robot.J Robot.velDes
        rw [if_pos (by omega), if_neg (by omega), if_pos (by omega), show 3 + k - 3 = k by omega]
    · refine Finset.sum_congr rfl fun i hi => ?_
      have hi := Finset.mem_range.mp hi
      rw [Finset.mul_sum]
      refine Finset.sum_congr rfl fun k hk => ?_
      have hk := Finset.mem_range.mp hk
      rw [weights_eff rb g f i k hi hk]
      have e1 : (6 + (3 * i + k) - 6) / 3 = i := by omega
      have e2 : (6 + (3 * i + k) - 6) % 3 = k := by omega
      have hJ : rb.J q (6 + (3 * i + k)) = rb.jac q i k := by
        unfold Robot.J
        rw [if_neg (by omega), if_pos (by omega), e1, e2]
      have hv : rb.velDes g q q f (6 + (3 * i + k)) = aim rb g q f i k := by
        unfold Robot.velDes aim
        rw [if_neg (by omega), if_neg (by omega), if_pos (by omega)]
        simp only [e1, e2]
      unfold rowErr
      rw [hJ, hv]
  · rw [Finset.mul_sum, Finset.sum_range]
    refine Finset.sum_congr rfl fun j _ => ?_
    rw [weights_joint rb g f j j.2]
    unfold rowErr
    rw [J_joint]
    unfold Robot.velDes
    rw [if_neg (by omega), if_neg (by omega), if_neg (by omega), show (rb.ne + 2) * 3 + (j:Nat) - (rb.ne + 2) * 3 = j by omega]
    cases f.joint <;> rfl

/-- The cost of the program is half the tracking cost up to a constant. -/
theorem cost_eq (rb : Robot Q nj) (g : Gains) (q : Q) (f : Ref) (x : Vec (6 + nj)) :
    1 / 2 * (x ⬝ᵥ (rb.hessian g q f) *ᵥ x) + rb.gradient g q q f ⬝ᵥ x =
      1 / 2 * trackCost rb g q f x - 1 / 2 * ∑ r ∈ Finset.range rb.rows, (rb.weights g f).getD r 0 * (rb.velDes g q q f r) ^ 2 := by
  rw [hessian_quad, gradient_lin, trackCost_rows]
  have : ∑ r ∈ Finset.range rb.rows, (rb.weights g f).getD r 0 * (rowErr rb g q f x r) ^ 2 =
      ∑ r ∈ Finset.range rb.rows, (rb.weights g f).getD r 0 * (rb.J q r ⬝ᵥ x) ^ 2
      - 2 * ∑ r ∈ Finset.range rb.rows, (rb.weights g f).getD r 0 * rb.velDes g q q f r * (rb.J q r ⬝ᵥ x)
      + ∑ r ∈ Finset.range rb.rows, (rb.weights g f).getD r 0 * (rb.velDes g q q f r) ^ 2 := by
    rw [Finset.mul_sum, ← Finset.sum_sub_distrib, ← Finset.sum_add_distrib]
    refine Finset.sum_congr rfl fun r _ => ?_
    unfold rowErr
    ring
  rw [this]
  ring

theorem air_iff (rb : Robot Q nj) (q : Q) (f : Ref) (x : Vec (6 + nj)) :
    (∀ r ∈ rb.airRows q f, r.1 ⬝ᵥ x = r.2) ↔ MomentumIs rb q f x := by
  unfold Robot.airRows MomentumIs
  simp only [List.forall_mem_map, List.mem_range]
  constructor
  · intro h k hk
    refine ⟨?_, ?_⟩
    · have := h k (by omega)
      unfold Robot.J at this
      rwa [if_pos (by omega), if_pos hk] at this
    · have := h (3 + k) (by omega)
      unfold Robot.J at this
      rwa [if_pos (by omega), if_neg (by omega), show 3 + k - 3 = k by omega] at this
  · intro h r hr
    unfold Robot.J
    rw [if_pos hr]
    rcases Nat.lt_or_ge r 3 with h3 | h3
    · rw [if_pos h3]; exact (h r h3).1
    · rw [if_neg (by omega)]
      have := (h (r - 3) (by omega)).2
      rwa [show 3 + (r - 3) = r by omega] at this

/-- The tracking cost is strictly convex: two minimisers over a convex set coincide. -/
theorem trackCost_strict (rb : Robot Q nj) (g : Gains) (hg : g.Nonneg) (q : Q) (f : Ref) (x y : Vec (6 + nj)) (hxy : x ≠ y) :
    trackCost rb g q f (fun c => (x c + y c) / 2) < (trackCost rb g q f x + trackCost rb g q f y) / 2 := by
  rw [trackCost_rows, trackCost_rows, trackCost_rows]
  have hJ : ∀ r, rb.J q r ⬝ᵥ (fun c => (x c + y c) / 2) = (rb.J q r ⬝ᵥ x + rb.J q r ⬝ᵥ y) / 2 := by
    intro r
    simp only [dotProduct]
    rw [← Finset.sum_add_distrib, Finset.sum_div]
    refine Finset.sum_congr rfl fun c _ => ?_
    ring
  have h1 : ∑ r ∈ Finset.range rb.rows, (rb.weights g f).getD r 0 * (rowErr rb g q f (fun c => (x c + y c) / 2) r) ^ 2 ≤
      (∑ r ∈ Finset.range rb.rows, (rb.weights g f).getD r 0 * (rowErr rb g q f x r) ^ 2 +
       ∑ r ∈ Finset.range rb.rows, (rb.weights g f).getD r 0 * (rowErr rb g q f y r) ^ 2) / 2 := by
    rw [← Finset.sum_add_distrib, Finset.sum_div]
    refine Finset.sum_le_sum fun r _ => ?_
    have hw := weights_nonneg rb g f hg r
    unfold rowErr
    rw [hJ]
    have := mul_nonneg hw (sq_nonneg (rb.J q r ⬝ᵥ x - rb.J q r ⬝ᵥ y))
    nlinarith
  have h2 : ∑ c, ((x c + y c) / 2) ^ 2 < (∑ c, x c ^ 2 + ∑ c, y c ^ 2) / 2 := by
    rw [← Finset.sum_add_distrib, Finset.sum_div]
    obtain ⟨c, hc⟩ := Function.ne_iff.mp hxy
    refine Finset.sum_lt_sum (fun c _ => ?_) ⟨c, Finset.mem_univ _, ?_⟩
    · nlinarith [sq_nonneg (x c - y c)]
    · have : 0 < (x c - y c) ^ 2 := by
        have : x c - y c ≠ 0 := sub_ne_zero.mpr hc
        positivity
      nlinarith
  linarith

/-! ### C132 -/

/-- What the inverse kinematics promises about the velocity `x` at configuration `q`: it minimises the tracking cost, during a flight
phase among the velocities that have exactly the reference momentum; and it is the only one. -/
structure IkSol (rb : Robot Q nj) (g : Gains) (q : Q) (f : Ref) (x : Vec (6 + nj)) : Prop where
  mom : f.flight = true → MomentumIs rb q f x
  best : ∀ y, (f.flight = true → MomentumIs rb q f y) → trackCost rb g q f x ≤ trackCost rb g q f y
  unique : ∀ y, (f.flight = true → MomentumIs rb q f y) → trackCost rb g q f y ≤ trackCost rb g q f x → y = x

theorem solve_ok (rb : Robot Q nj) (s : Quadprog) (hs : s.Ok) (g : Gains) (hg : g.Nonneg) (q : Q) (f : Ref) :
    (∀ x, rb.solve s g q q f = some x → IkSol rb g q f x) ∧
    ((f.flight = true → ∃ y, MomentumIs rb q f y) → ∃ x, rb.solve s g q q f = some x) := by
  have hP := hessian_posDef rb g hg q f
  have mid : ∀ x y, MomentumIs rb q f x → MomentumIs rb q f y → MomentumIs rb q f (fun c => (x c + y c) / 2) := by
    intro x y hx hy k hk
    have e : ∀ v : Vec (6 + nj), v ⬝ᵥ (fun c => (x c + y c) / 2) = (v ⬝ᵥ x + v ⬝ᵥ y) / 2 := by
      intro v
      simp only [dotProduct]
      rw [← Finset.sum_add_distrib, Finset.sum_div]
      refine Finset.sum_congr rfl fun c _ => ?_
      ring
    rw [e, e, (hx k hk).1, (hx k hk).2, (hy k hk).1, (hy k hk).2]
    constructor <;> ring
  have uniq : ∀ x, (f.flight = true → MomentumIs rb q f x) →
      (∀ y, (f.flight = true → MomentumIs rb q f y) → trackCost rb g q f x ≤ trackCost rb g q f y) →
      ∀ y, (f.flight = true → MomentumIs rb q f y) → trackCost rb g q f y ≤ trackCost rb g q f x → y = x := by
    intro x hx hb y hy hle
    by_contra hne
    have h1 := trackCost_strict rb g hg q f x y (Ne.symm hne)
    have h2 := hb _ (fun hf => mid x y (hx hf) (hy hf))
    linarith
  unfold Robot.solve
  by_cases hf : f.flight = true
  · rw [if_pos hf]
    obtain ⟨h1, h2⟩ := C131_qp_partial s hs _ hP (rb.gradient g q q f) none (some (rb.airRows q f))
    refine ⟨fun x hx => ?_, fun h => ?_⟩
    · have hq := h1 x hx
      have ha : MomentumIs rb q f x := (air_iff rb q f x).mp hq.eq
      have hb : ∀ y, (f.flight = true → MomentumIs rb q f y) → trackCost rb g q f x ≤ trackCost rb g q f y := by
        intro y hy
        have := hq.best y (by simp) ((air_iff rb q f y).mpr (hy hf))
        rw [cost_eq, cost_eq] at this
        linarith
      exact ⟨fun _ => ha, hb, uniq x (fun _ => ha) hb⟩
    · obtain ⟨y, hy⟩ := h hf
      exact h2 ⟨y, by simp, (air_iff rb q f y).mpr hy⟩
  · rw [if_neg hf]
    obtain ⟨h1, h2⟩ := C131_qp_partial s hs _ hP (rb.gradient g q q f) none none
    refine ⟨fun x hx => ?_, fun _ => h2 ⟨0, by simp, by simp⟩⟩
    have hq := h1 x hx
    have hb : ∀ y, (f.flight = true → MomentumIs rb q f y) → trackCost rb g q f x ≤ trackCost rb g q f y := by
      intro y _
      have := hq.best y (by simp) (by simp)
      rw [cost_eq, cost_eq] at this
      linarith
    exact ⟨fun h => absurd h hf, hb, uniq x (fun h => absurd h hf) hb⟩

/-! ### C133: histories -/

/-- An object in use: a fresh object (no data yet: the configuration `d` stands for uninitialised data) after any calls. -/
inductive Reach (rb : Robot Q nj) (s : Quadprog) : Cache Q nj → Prop where
  | fresh (d : Q) : Reach rb s ⟨none, d⟩
  | step {c : Cache Q nj} (h : Reach rb s c) (a : Call Q nj) : Reach rb s (a.run rb s c)

theorem reach_inv (rb : Robot Q nj) (s : Quadprog) (c : Cache Q nj) (h : Reach rb s c) : ∀ q dq, c.last = some (q, dq) → c.data = q := by
  induction h with
  | fresh d => intro q dq h; simp at h
  | step _ a ih =>
    intro q dq hl
    cases a with
    | forward q' dq' =>
      simp only [Call.run, Cache.forward, Option.some.injEq, Prod.mk.injEq] at hl ⊢
      exact hl.1
    | compute g q' dq' f =>
      simp only [Call.run, compute] at hl ⊢
      split at hl
      · rename_i hc
        rw [if_pos hc]
        simp only [Cache.forward, Option.some.injEq, Prod.mk.injEq] at hl ⊢
        exact hl.1
      · rename_i hc
        rw [if_neg hc]
        exact ih q dq hl

theorem compute_data (rb : Robot Q nj) (s : Quadprog) (c : Cache Q nj) (h : Reach rb s c) (g : Gains) (q : Q) (dq : Vec (6 + nj)) (f : Ref) :
    (compute rb s g c q dq f).2 = rb.solve s g q q f := by
  unfold compute
  simp only
  split
  · rfl
  · rename_i hc
    push Not at hc
    obtain ⟨h1, -⟩ := hc
    rcases hl : c.last with _ | ⟨a, b⟩
    · rw [hl] at h1; simp at h1
    · rw [hl] at h1
      simp only [Option.map_some, Option.some.injEq] at h1
      rw [reach_inv rb s c h a b hl, h1]

/-- C133: whatever calls were made on the object before (with whatever gains), the velocity returned by `compute` depends on the
configuration, gains and references of this call only: it is the one a fresh object returns, and the current velocity has no influence. -/
theorem C133_history (rb : Robot Q nj) (s : Quadprog) (c : Cache Q nj) (h : Reach rb s c) (d : Q) (g : Gains) (q : Q)
    (dq dq' : Vec (6 + nj)) (f : Ref) : (compute rb s g c q dq f).2 = (compute rb s g ⟨none, d⟩ q dq' f).2 := by
  rw [compute_data rb s c h, compute_data rb s _ (Reach.fresh d)]

/-- C132: after any history of calls, with nonnegative weights, the velocity returned by `compute` is the unique minimiser of the
weighted tracking errors (in a flight phase under the exact momentum constraint); and `compute` returns (does not raise) in contact
always, in a flight phase whenever some velocity has the reference momentum. -/
theorem C132_ik_optimal (rb : Robot Q nj) (s : Quadprog) (hs : s.Ok) (c : Cache Q nj) (h : Reach rb s c) (g : Gains) (hg : g.Nonneg)
    (q : Q) (dq : Vec (6 + nj)) (f : Ref) :
    (∀ x, (compute rb s g c q dq f).2 = some x → IkSol rb g q f x) ∧
    ((f.flight = true → ∃ y, MomentumIs rb q f y) → ∃ x, (compute rb s g c q dq f).2 = some x) := by
  rw [compute_data rb s c h]
  exact solve_ok rb s hs g hg q f

end PyIk
end Verif
