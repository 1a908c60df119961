import Verif.PyIkProps
import Mathlib.Topology.MetricSpace.ProperSpace.Real
import Mathlib.Topology.Order.Compact
import Mathlib.Topology.Instances.Matrix
import Mathlib.Analysis.Normed.Group.Basic
import Mathlib.Algebra.Order.Star.Real
import Mathlib.Analysis.Normed.Module.Basic

/-!
A solver with the contract of quadprog exists (so the hypothesis `Quadprog.Ok` of C131, C132 is met), and concrete instances.
-/
namespace Verif
namespace PyIk
open Matrix

theorem posDef_bound {n : Nat} (G : Matrix (Fin n) (Fin n) ℝ) (hG : G.PosDef) : ∃ m : ℝ, 0 < m ∧ ∀ x : Vec n, m * ‖x‖ ^ 2 ≤ x ⬝ᵥ G *ᵥ x := by
  have hc : Continuous fun x : Vec n => x ⬝ᵥ G *ᵥ x := by
    simp only [dotProduct, mulVec]
    fun_prop
  rcases (Metric.sphere (0 : Vec n) 1).eq_empty_or_nonempty with he | hne
  · refine ⟨1, one_pos, fun x => ?_⟩
    have hx : x = 0 := by
      by_contra hx
      have h0 : ‖x‖ ≠ 0 := norm_ne_zero_iff.mpr hx
      have : ‖x‖⁻¹ • x ∈ Metric.sphere (0 : Vec n) 1 := by
        rw [mem_sphere_zero_iff_norm, norm_smul, norm_inv, norm_norm, inv_mul_cancel₀ h0]
      rw [he] at this
      exact this
    subst hx
    simp
  · obtain ⟨u, hu, hmin⟩ := (isCompact_sphere (0 : Vec n) 1).exists_isMinOn hne hc.continuousOn
    have hu1 : ‖u‖ = 1 := mem_sphere_zero_iff_norm.mp hu
    have hu0 : u ≠ 0 := by intro h; rw [h] at hu1; simp at hu1
    refine ⟨u ⬝ᵥ G *ᵥ u, by simpa using hG.dotProduct_mulVec_pos hu0, fun x => ?_⟩
    rcases eq_or_ne x 0 with hx | hx
    · subst hx; simp
    · have h0 : ‖x‖ ≠ 0 := norm_ne_zero_iff.mpr hx
      have hm : ‖x‖⁻¹ • x ∈ Metric.sphere (0 : Vec n) 1 := by
        rw [mem_sphere_zero_iff_norm, norm_smul, norm_inv, norm_norm, inv_mul_cancel₀ h0]
      have := hmin hm
      simp only [Set.mem_setOf_eq, mulVec_smul, smul_dotProduct, dotProduct_smul, smul_eq_mul] at this
      have e : x ⬝ᵥ G *ᵥ x = ‖x‖ ^ 2 * (‖x‖⁻¹ * (‖x‖⁻¹ * (x ⬝ᵥ G *ᵥ x))) := by field_simp
      rw [e, mul_comm]
      exact mul_le_mul_of_nonneg_left this (sq_nonneg _)

theorem lin_bound {n : Nat} (a x : Vec n) : a ⬝ᵥ x ≤ (∑ i, |a i|) * ‖x‖ := by
  rw [dotProduct, Finset.sum_mul]
  refine Finset.sum_le_sum fun i _ => ?_
  calc a i * x i ≤ |a i * x i| := le_abs_self _
    _ = |a i| * |x i| := abs_mul _ _
    _ ≤ |a i| * ‖x‖ := mul_le_mul_of_nonneg_left (norm_le_pi_norm x i) (abs_nonneg _)

theorem qfeas_closed {n : Nat} (C : List (Row n)) (meq : Nat) : IsClosed {x | QFeas C meq x} := by
  unfold QFeas
  have hl : ∀ v : Vec n, Continuous fun x : Vec n => v ⬝ᵥ x := by
    intro v; simp only [dotProduct]; fun_prop
  simp only [Set.setOf_and, Set.setOf_forall]
  refine IsClosed.inter ?_ ?_
  · exact isClosed_iInter fun r => isClosed_iInter fun _ => isClosed_eq (hl _) continuous_const
  · exact isClosed_iInter fun r => isClosed_iInter fun _ => isClosed_le continuous_const (hl _)

/-- A strictly convex quadratic function has a minimiser on a nonempty polyhedron. -/
theorem qp_min_exists {n : Nat} (G : Matrix (Fin n) (Fin n) ℝ) (hG : G.PosDef) (a : Vec n) (C : List (Row n)) (meq : Nat) (y0 : Vec n)
    (hy : QFeas C meq y0) : ∃ x, QFeas C meq x ∧ ∀ y, QFeas C meq y →
      1 / 2 * (x ⬝ᵥ G *ᵥ x) - a ⬝ᵥ x ≤ 1 / 2 * (y ⬝ᵥ G *ᵥ y) - a ⬝ᵥ y := by
  obtain ⟨m, hm, hb⟩ := posDef_bound G hG
  set F : Vec n → ℝ := fun x => 1 / 2 * (x ⬝ᵥ G *ᵥ x) - a ⬝ᵥ x with hF
  have hc : Continuous F := by
    simp only [hF, dotProduct, mulVec]
    fun_prop
  set A := ∑ i, |a i|
  have hA : 0 ≤ A := Finset.sum_nonneg fun _ _ => abs_nonneg _
  set R := ‖y0‖ + 2 * (A + |F y0|) / m + 1
  have hR2 : 0 ≤ 2 * (A + |F y0|) / m := by positivity
  have hK : IsCompact ({x | QFeas C meq x} ∩ Metric.closedBall (0 : Vec n) R) := (isCompact_closedBall _ _).inter_left (qfeas_closed C meq)
  have hy0 : y0 ∈ {x | QFeas C meq x} ∩ Metric.closedBall (0 : Vec n) R := ⟨hy, by
    rw [mem_closedBall_zero_iff]; simp only [R]; linarith⟩
  obtain ⟨x, hx, hmin⟩ := hK.exists_isMinOn ⟨y0, hy0⟩ hc.continuousOn
  refine ⟨x, hx.1, fun y hyf => ?_⟩
  rcases le_or_gt ‖y‖ R with h | h
  · exact hmin ⟨hyf, mem_closedBall_zero_iff.mpr h⟩
  · have h1 : F x ≤ F y0 := hmin hy0
    have h2 := hb y
    have h3 := lin_bound a y
    have h4 : A + |F y0| ≤ m / 2 * ‖y‖ := by
      have : 2 * (A + |F y0|) / m ≤ ‖y‖ := by
        have := norm_nonneg y0
        simp only [R] at h; linarith
      rw [div_le_iff₀ hm] at this
      linarith
    have h5 : 1 ≤ ‖y‖ := by
      have := norm_nonneg y0
      simp only [R] at h; linarith
    have h6 : F y0 ≤ |F y0| := le_abs_self _
    have h7 : (0:ℝ) ≤ |F y0| := abs_nonneg _
    have h8 : |F y0| ≤ F y := by
      have e : F y = 1 / 2 * (y ⬝ᵥ G *ᵥ y) - a ⬝ᵥ y := rfl
      rw [e]
      nlinarith [mul_le_mul_of_nonneg_left h4 (norm_nonneg y), mul_le_mul_of_nonneg_left h5 h7]
    have : F x ≤ F y := by linarith
    exact this

open Classical in
/-- A solver that returns a minimiser whenever there is one. -/
noncomputable def someQuadprog : Quadprog := fun _ G a C meq =>
  if h : ∃ x, QFeas C meq x ∧ ∀ y, QFeas C meq y → 1 / 2 * (x ⬝ᵥ G *ᵥ x) - a ⬝ᵥ x ≤ 1 / 2 * (y ⬝ᵥ G *ᵥ y) - a ⬝ᵥ y then some h.choose else none

/-- The contract of quadprog can be met. -/
theorem quadprog_ok_exists : ∃ s : Quadprog, s.Ok := by
  refine ⟨someQuadprog, fun n G a C meq hG => ⟨fun x hx => ?_, fun ⟨y, hy⟩ hn => ?_⟩⟩
  · unfold someQuadprog at hx
    split at hx
    · rename_i h
      simp only [Option.some.injEq] at hx
      subst hx
      exact h.choose_spec
    · simp at hx
  · unfold someQuadprog at hn
    rw [dif_pos (qp_min_exists G hG a C meq y hy)] at hn
    simp at hn

/-! ### Concrete instances -/

/-- A robot with two end-effectors and one joint whose quantities depend on the configuration (a real number). -/
def exRobot : Robot ℝ 1 where
  ne := 2
  Ag := fun q r c => if r = (c : Nat) then 2 else if (c : Nat) = 6 then q else 0
  com := fun q k => q + k
  jac := fun q i k c => q * i + k + (c : Nat)
  pos := fun q i k => q + i + k

/-- Gains as in `__init__`. -/
noncomputable def exGains : Gains := ⟨1, 1, 1, 1, 1 / 100, 1, 1, false⟩

/-- A reference during a flight phase. -/
def exRef : Ref := ⟨fun k => k, fun _ => 4, fun _ => 6, fun _ _ => 1, fun _ _ => 0, fun _ => false, some fun _ => 1, true⟩

theorem exMomentum (q : ℝ) : MomentumIs exRobot q exRef (fun c => if (c : Nat) < 3 then 2 else if (c : Nat) < 6 then 3 else 0) := by
  intro k hk
  rcases k with _ | _ | _ | k
  · constructor <;> simp [exRobot, exRef, dotProduct, Fin.sum_univ_succ] <;> norm_num
  · constructor <;> simp [exRobot, exRef, dotProduct, Fin.sum_univ_succ] <;> norm_num
  · constructor <;> simp [exRobot, exRef, dotProduct, Fin.sum_univ_succ] <;> norm_num
  · omega

/-- C131, C132: the hypotheses are met by a flight phase after a history of two calls, and the solution exists. -/
example : ∃ (s : Quadprog) (c : Cache ℝ 1) (x : Vec 7), s.Ok ∧ exGains.Nonneg ∧ Reach exRobot s c ∧ c.last.isSome ∧
    (compute exRobot s exGains c 2 0 exRef).2 = some x ∧ MomentumIs exRobot 2 exRef x := by
  obtain ⟨s, hs⟩ := quadprog_ok_exists
  have hg : exGains.Nonneg := by unfold Gains.Nonneg exGains; norm_num
  have hr : Reach exRobot s ((Call.compute exGains 2 1 exRef).run exRobot s ((Call.forward 3 0).run exRobot s ⟨none, 0⟩)) :=
    Reach.step (Reach.step (Reach.fresh 0) _) _
  obtain ⟨h1, h2⟩ := C132_ik_optimal exRobot s hs _ hr exGains hg 2 0 exRef
  obtain ⟨x, hx⟩ := h2 fun _ => ⟨_, exMomentum 2⟩
  refine ⟨s, _, x, hs, hg, hr, ?_, hx, (h1 x hx).mom rfl⟩
  show (if _ then _ else _ : Cache ℝ 1).last.isSome = true
  split_ifs <;> rfl

/-- C131: the unconstrained program `1/2 x² - x` and the inconsistent constraint `0 x = 1`. -/
example : ∃ s : Quadprog, s.Ok ∧ quadprogSolveQp s (1 : Matrix (Fin 1) (Fin 1) ℝ) (fun _ => -1) none (some [(0, 1)]) = none ∧
    quadprogSolveQp s (1 : Matrix (Fin 1) (Fin 1) ℝ) (fun _ => -1) (some [(1, 3)]) none = some fun _ => 1 := by
  obtain ⟨s, hs⟩ := quadprog_ok_exists
  refine ⟨s, hs, C131_infeasible_raises s hs _ PosDef.one _ _ _ (by simp), ?_⟩
  obtain ⟨h1, h2⟩ := C131_qp_partial s hs (1 : Matrix (Fin 1) (Fin 1) ℝ) PosDef.one (fun _ => -1) (some [(1, 3)]) none
  obtain ⟨x, hx⟩ := h2 ⟨0, by simp [dotProduct], by simp⟩
  have := (h1 x hx).best (fun _ => 1) (by simp [dotProduct]) (by simp)
  simp [dotProduct] at this
  have e : x = fun _ => 1 := by
    funext i
    have : i = 0 := Subsingleton.elim _ _
    subst this
    nlinarith [sq_nonneg (x 0 - 1)]
  rw [hx, e]

/-- C133: the odd condition of line 137 does skip the update of the data in a reachable state (same configuration, other velocity). -/
example (s : Quadprog) : ((Call.compute exGains 3 1 exRef).run exRobot s ((Call.forward 3 0).run exRobot s ⟨none, 0⟩)).last = some (3, 0) := by
  show (if _ then _ else _ : Cache ℝ 1).last = _
  rw [if_neg]
  · rfl
  push Not
  refine ⟨by simp [Call.run, Cache.forward], ?_⟩
  intro h
  simp only [Call.run, Cache.forward, Option.map_some, Option.some.injEq] at h
  have := congrFun h 0
  simp at this

end PyIk
end Verif
