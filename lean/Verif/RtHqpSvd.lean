/-
Existence of the singular value decomposition required by the contract `SvdOk` and of the inverse Cholesky
factor required by `RtQP.Data.Valid` (both external to the code): the hypotheses of the theorems about the
hierarchical solver can be met for every input.
-/
import Verif.RtHqpSpec
import Verif.RtQPSpec
import Mathlib.Analysis.InnerProductSpace.SingularValues
import Mathlib.Analysis.InnerProductSpace.PiL2
import Mathlib.Analysis.Matrix.PosDef
import Mathlib.LinearAlgebra.Matrix.PosDef
import Mathlib.Analysis.Matrix.Order
import Mathlib.Tactic.LinearCombination

namespace Verif
namespace RtHqp

open Rt

/-- A sequence as a vector of `ℝ^n`. -/
noncomputable def vec (n : Nat) (v : Nat → ℝ) : EuclideanSpace ℝ (Fin n) := WithLp.toLp 2 fun i => v i

theorem norm_vec (n : Nat) (v : Nat → ℝ) : ‖vec n v‖ ^ 2 = sq n v := by
  rw [EuclideanSpace.norm_sq_eq]
  unfold sq
  rw [Finset.sum_range]
  simp [vec]

/-- The linear map of a matrix. -/
noncomputable def lin (B : Mat) : EuclideanSpace ℝ (Fin B.cols) →ₗ[ℝ] EuclideanSpace ℝ (Fin B.rows) :=
  Matrix.toEuclideanLin (Matrix.of fun (i : Fin B.rows) (j : Fin B.cols) => B.at' i j)

theorem lin_vec (B : Mat) (v : Nat → ℝ) : lin B (vec B.cols v) = vec B.rows (mulV B v) := by
  ext i
  unfold mulV
  simp [lin, vec, Matrix.toEuclideanLin, Matrix.mulVec, dotProduct, Finset.sum_range]

theorem svd_exists (B : Mat) : ∃ s, SvdOk B s := by
  let T := lin B
  have hn : Module.finrank ℝ (EuclideanSpace ℝ (Fin B.cols)) = B.cols := finrank_euclideanSpace_fin
  let b := T.isSymmetric_adjoint_comp_self.eigenvectorBasis hn
  let V : Nat → Nat → ℝ := fun i j => if h : i < B.cols ∧ j < B.cols then b ⟨j, h.2⟩ ⟨i, h.1⟩ else 0
  have hV : ∀ y, vec B.cols (mulV ⟨B.cols, B.cols, V⟩ y) = b.repr.symm (vec B.cols y) := by
    intro y
    rw [← b.sum_repr_symm]
    ext i
    unfold mulV
    simp only [vec, Finset.sum_range]
    simp [V]
    refine Finset.sum_congr rfl fun j _ => ?_
    ring
  refine ⟨⟨T.singularValues, V⟩, ?_, ?_, ?_, ?_⟩
  · intro v
    show sq B.cols (mulV ⟨B.cols, B.cols, V⟩ v) = _
    rw [← norm_vec, ← norm_vec, hV, LinearIsometryEquiv.norm_map]
  · intro u
    show ∃ v, ∀ i < B.cols, mulV ⟨B.cols, B.cols, V⟩ v i = u i
    refine ⟨fun i => if h : i < B.cols then b.repr (vec B.cols u) ⟨i, h⟩ else 0, ?_⟩
    intro i hi
    have e : vec B.cols (fun i => if h : i < B.cols then b.repr (vec B.cols u) ⟨i, h⟩ else 0) =
        b.repr (vec B.cols u) := by
      ext i
      simp [vec]
    have := hV (fun i => if h : i < B.cols then b.repr (vec B.cols u) ⟨i, h⟩ else 0)
    rw [e, LinearIsometryEquiv.symm_apply_apply] at this
    have := congrArg (fun f => f ⟨i, hi⟩) this
    simpa [vec] using this
  · intro i j hij _
    exact ⟨T.singularValues_nonneg j, T.singularValues_antitone hij⟩
  · intro y
    show sq B.rows (mulV B (mulV ⟨B.cols, B.cols, V⟩ y)) = _
    rw [← norm_vec, ← lin_vec, hV]
    have h1 : ‖T (b.repr.symm (vec B.cols y))‖ ^ 2 =
        inner ℝ (b.repr.symm (vec B.cols y)) ((T.adjoint ∘ₗ T) (b.repr.symm (vec B.cols y))) := by
      rw [LinearMap.comp_apply, LinearMap.adjoint_inner_right, real_inner_self_eq_norm_sq]
    have h2 := fun i => T.isSymmetric_adjoint_comp_self.eigenvectorBasis_apply_self_apply hn
      (b.repr.symm (vec B.cols y)) i
    show ‖T _‖ ^ 2 = _
    rw [h1, ← b.repr.inner_map_map]
    rw [PiLp.inner_apply]
    have h3 : ∀ i, inner ℝ (b.repr (b.repr.symm (vec B.cols y)) i)
        (b.repr ((T.adjoint ∘ₗ T) (b.repr.symm (vec B.cols y))) i) = (T.singularValues i * y i) ^ 2 := by
      intro i
      have h2 := h2 i
      change b.repr _ i = _ * b.repr _ i at h2
      rw [h2, LinearIsometryEquiv.apply_symm_apply, ← T.sq_singularValues_fin hn]
      simp [vec]
      ring
    simp only [h3]
    rw [← Finset.sum_range (fun i => (T.singularValues i * y i) ^ 2)]
    symm
    refine Finset.sum_subset (Finset.range_mono (min_le_right _ _)) ?_
    intro i h1 h2
    rw [Finset.mem_range] at h1 h2
    have : T.singularValues i = 0 := by
      rw [T.singularValues_eq_zero_iff_le_finrank_range]
      have := Submodule.finrank_le T.range
      rw [finrank_euclideanSpace_fin] at this
      omega
    rw [this]; ring

/-- A symmetric positive definite Hessian. -/
structure Spd (n : Nat) (H : Nat → Nat → ℝ) : Prop where
  symm : ∀ i < n, ∀ k < n, H i k = H k i
  pos : ∀ y : Nat → ℝ, (∃ i < n, y i ≠ 0) → 0 < RtQP.dot n y (RtQP.mulV n H y)

open scoped MatrixOrder in
theorem chol_exists {n : Nat} {H : Nat → Nat → ℝ} (h : Spd n H) :
    ∃ J, RtQP.Inverse n H (RtQP.gram n J) ∧ ∀ i < n, 0 ≤ J i i := by
  let M : Matrix (Fin n) (Fin n) ℝ := Matrix.of fun i j => H i j
  have hM : M.PosDef := by
    refine Matrix.PosDef.of_dotProduct_mulVec_pos ?_ ?_
    · ext i j
      simp [M, h.symm j j.2 i i.2]
    · intro x hx
      have := h.pos (fun i => if hi : i < n then x ⟨i, hi⟩ else 0) (by
        obtain ⟨i, hi⟩ := Function.ne_iff.1 hx
        exact ⟨i, i.2, by simpa using hi⟩)
      unfold RtQP.dot RtQP.mulV at this
      simp only [Finset.sum_range] at this
      simpa [dotProduct, Matrix.mulVec, M] using this
  obtain ⟨B, hB⟩ := CStarAlgebra.nonneg_iff_eq_star_mul_self.1 hM.inv.posSemidef.nonneg
  let σ : Fin n → ℝ := fun k => if B k k < 0 then -1 else 1
  have hσ : ∀ k, σ k * σ k = 1 := by
    intro k; simp only [σ]; split <;> norm_num
  refine ⟨fun i k => if hh : i < n ∧ k < n then B ⟨k, hh.2⟩ ⟨i, hh.1⟩ * σ ⟨k, hh.2⟩ else 0, ?_, ?_⟩
  · intro i hi l hl
    have h1 : M * M⁻¹ = 1 := Matrix.mul_nonsing_inv _ ((Matrix.isUnit_iff_isUnit_det _).1 hM.isUnit)
    have h2 := congrFun (congrFun h1 ⟨i, hi⟩) ⟨l, hl⟩
    rw [Matrix.mul_apply, Matrix.one_apply] at h2
    rw [Finset.sum_range]
    simp only [Fin.mk.injEq] at h2
    rw [← h2]
    refine Finset.sum_congr rfl fun k _ => ?_
    rw [hB]
    unfold RtQP.gram
    rw [Finset.sum_range]
    simp only [M, Matrix.of_apply]
    congr 1
    rw [Matrix.mul_apply]
    refine Finset.sum_congr rfl fun j _ => ?_
    simp [hl]
    linear_combination (B j k * B j ⟨l, hl⟩) * hσ j
  · intro i hi
    simp only [hi, and_self, dif_pos, σ]
    split
    · rename_i hneg; linarith
    · rename_i hneg; linarith

end RtHqp
end Verif
