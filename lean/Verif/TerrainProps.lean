import Verif.Terrain
import Mathlib.Analysis.Convex.Hull
import Mathlib.Analysis.Convex.Combination
import Mathlib.Analysis.Convex.Topology
import Mathlib.Analysis.LocallyConvex.Separation
import Mathlib.LinearAlgebra.Matrix.DotProduct
import Mathlib.Tactic.LinearCombination
import Mathlib.Tactic.FieldSimp
import Mathlib.Tactic.FinCases
import Mathlib.Tactic.NormNum
import Mathlib.Tactic.Positivity

/-! C45 (half-space description), C71 (normal and rotation of a region), C72 (list of regions). -/
namespace Verif
namespace Terrain
open Matrix

/-! ### vocabulary of the property -/

/-- A convex planar polygon whose corners `v 0, …, v (n-1)` appear in counter-clockwise order when looking against the direction `N`: all corners are in one plane orthogonal to `N`,
every corner turns strictly left, no corner is to the right of an edge. -/
structure ConvexCcw {n : ℕ} [NeZero n] (v : Fin n → V3) (N : V3) : Prop where
  plane : ∀ i, N ⬝ᵥ (v i - v 0) = 0
  turn : ∀ i, 0 < N ⬝ᵥ ((v (i + 1) - v i) ⨯₃ (v (i + 1 + 1) - v (i + 1)))
  left : ∀ i j, 0 ≤ N ⬝ᵥ ((v (i + 1) - v i) ⨯₃ (v j - v i))

/-- The region accepts a point: it satisfies all half-spaces. -/
def Region.accepts (r : Region) (x : V3) : Prop := ∀ i, (r.A *ᵥ x) i ≤ r.b i

variable {m : ℕ}

theorem next_eq (V : Fin (m + 3) → V3) (i : Fin (m + 3)) : next V i = V (i + 1) := by
  unfold next
  split
  · next h => congr 1; ext; simp [Fin.val_add, Nat.mod_eq_of_lt h]
  · next h =>
    congr 1; ext
    have : i.val + 1 = m + 3 := by have := i.isLt; omega
    simp [Fin.val_add, this]

theorem norm_sq (v : V3) : norm v ^ 2 = v ⬝ᵥ v := Real.sq_sqrt (by rw [dotProduct]; exact Finset.sum_nonneg fun i _ => mul_self_nonneg _)

theorem norm_pos {v : V3} (h : v ≠ 0) : 0 < norm v := by
  apply Real.sqrt_pos.mpr
  rcases (show (0 : ℝ) ≤ v ⬝ᵥ v by rw [dotProduct]; exact Finset.sum_nonneg fun i _ => mul_self_nonneg _).lt_or_eq with h1 | h1
  · exact h1
  · exact absurd (dotProduct_self_eq_zero.mp h1.symm) h

/-- The counter-clockwise normal of the first two edges. -/
def ccwNormal (V : Fin (m + 3) → V3) : V3 := (V 1 - V 0) ⨯₃ (V 2 - V 1)

theorem normal_eq (V : Fin (m + 3) → V3) : normal V = (norm (ccwNormal V))⁻¹ • (-ccwNormal V) := by
  have h2 : (⟨2, by omega⟩ : Fin (m + 3)) = 2 := by ext; exact (Nat.mod_eq_of_lt (by omega)).symm
  have h1 : (⟨1, by omega⟩ : Fin (m + 3)) = 1 := by ext; simp
  have h0 : (⟨0, by omega⟩ : Fin (m + 3)) = 0 := by ext; simp
  unfold normal unit
  simp only [h2, h1, h0]
  have : (V 2 - V 1) ⨯₃ (V 1 - V 0) = -ccwNormal V := by unfold ccwNormal; rw [cross_anticomm]
  rw [this]
  congr 2
  unfold norm
  simp

theorem triple (a b c : V3) : a ⨯₃ b ⬝ᵥ c = a ⬝ᵥ b ⨯₃ c := by
  simp [cross_apply, dotProduct, Fin.sum_univ_three]; ring

/-- Row `i` of the description evaluated at `x`. -/
theorem row_iff (V : Fin (m + 3) → V3) (i : Fin (m + 3)) (x : V3) (hN : ccwNormal V ≠ 0) (he : ccwNormal V ⨯₃ (V (i + 1) - V i) ≠ 0) (id : ℤ) :
    ∃ k : ℝ, 0 < k ∧ ((initRegion V id).A *ᵥ x) i - (initRegion V id).b i = -(k * (ccwNormal V ⬝ᵥ ((V (i + 1) - V i) ⨯₃ (x - V i)))) := by
  have h1 := norm_pos hN
  have hrow : normal V ⨯₃ (-V i + next V i) = (-(norm (ccwNormal V))⁻¹) • (ccwNormal V ⨯₃ (V (i + 1) - V i)) := by
    rw [normal_eq, next_eq, show -V i + V (i + 1) = V (i + 1) - V i by abel, smul_neg, ← neg_smul, LinearMap.map_smul₂]
  have hne : (-(norm (ccwNormal V))⁻¹) • (ccwNormal V ⨯₃ (V (i + 1) - V i)) ≠ 0 := smul_ne_zero (neg_ne_zero.mpr (inv_ne_zero h1.ne')) he
  have h2 := norm_pos hne
  refine ⟨(norm ((-(norm (ccwNormal V))⁻¹) • (ccwNormal V ⨯₃ (V (i + 1) - V i))))⁻¹ * (norm (ccwNormal V))⁻¹, by positivity, ?_⟩
  have hA : rowA V i = ((norm ((-(norm (ccwNormal V))⁻¹) • (ccwNormal V ⨯₃ (V (i + 1) - V i))))⁻¹ * -(norm (ccwNormal V))⁻¹) • (ccwNormal V ⨯₃ (V (i + 1) - V i)) := by
    unfold rowA unit
    rw [hrow, smul_smul]
  have hlhs : ((initRegion V id).A *ᵥ x) i - (initRegion V id).b i = rowA V i ⬝ᵥ x - vmat V i ⬝ᵥ rowA V i := rfl
  rw [hlhs, hA]
  generalize (norm ((-(norm (ccwNormal V))⁻¹) • (ccwNormal V ⨯₃ (V (i + 1) - V i))))⁻¹ = a
  generalize (norm (ccwNormal V))⁻¹ = b
  unfold vmat
  rw [next_eq]
  generalize ccwNormal V = N
  generalize V (i + 1) = q
  generalize V i = p
  simp [cross_apply, dotProduct, Fin.sum_univ_three]
  ring

/-- Four vectors in space are linearly dependent. -/
theorem cramer (p q y N : V3) : (N ⬝ᵥ p ⨯₃ q) • y = (p ⨯₃ q ⬝ᵥ y) • N + (N ⬝ᵥ p ⨯₃ y) • q - (N ⬝ᵥ q ⨯₃ y) • p := by
  funext i
  fin_cases i <;> simp [cross_apply, dotProduct, Fin.sum_univ_three] <;> ring

/-- In a plane: coordinates of `y` along `p` and `q`. -/
theorem plane_coords {p q y N : V3} (hN : N ≠ 0) (hp : N ⬝ᵥ p = 0) (hq : N ⬝ᵥ q = 0) (hy : N ⬝ᵥ y = 0) :
    (N ⬝ᵥ p ⨯₃ q) • y = (N ⬝ᵥ p ⨯₃ y) • q - (N ⬝ᵥ q ⨯₃ y) • p := by
  have h := cramer p q y N
  have hdot := congrArg (fun z => N ⬝ᵥ z) h
  simp only [dotProduct_sub, dotProduct_add, dotProduct_smul, hp, hq, hy, smul_eq_mul, mul_zero, add_zero, sub_zero] at hdot
  have hNN : N ⬝ᵥ N ≠ 0 := fun h0 => hN (dotProduct_self_eq_zero.mp h0)
  have : p ⨯₃ q ⬝ᵥ y = 0 := by
    rcases mul_eq_zero.mp hdot.symm with h | h
    · exact h
    · exact absurd h hNN
  rw [h, this, zero_smul, zero_add]

theorem plane_sub {V : Fin (m + 3) → V3} {N : V3} (h : ∀ i, N ⬝ᵥ (V i - V 0) = 0) (i j : Fin (m + 3)) : N ⬝ᵥ (V i - V j) = 0 := by
  have := h i; have := h j
  rw [dotProduct_sub] at *
  linarith

/-- The direction from which the corners are counter-clockwise is that of the normal of the first two edges. -/
theorem ccwNormal_pos {V : Fin (m + 3) → V3} {N : V3} (h : ConvexCcw V N) : ∃ k : ℝ, 0 < k ∧ ccwNormal V = k • N := by
  have hN : N ≠ 0 := by
    rintro rfl
    have := h.turn 0
    simp at this
  have ht := h.turn 0
  have e1 : (0 : Fin (m + 3)) + 1 = 1 := by simp
  have e2 : (1 : Fin (m + 3)) + 1 = 2 := by
    ext; simp [Fin.val_add]
  rw [e1, e2] at ht
  have hNN : 0 < N ⬝ᵥ N := lt_of_le_of_ne (by rw [dotProduct]; exact Finset.sum_nonneg fun i _ => mul_self_nonneg _) (fun h0 => hN (dotProduct_self_eq_zero.mp h0.symm))
  have hp := plane_sub h.plane 1 0
  have hq := plane_sub h.plane 2 1
  refine ⟨(N ⬝ᵥ ((V 1 - V 0) ⨯₃ (V 2 - V 1))) / (N ⬝ᵥ N), div_pos ht hNN, ?_⟩
  unfold ccwNormal
  generalize V 1 - V 0 = p at *
  generalize V 2 - V 1 = q at *
  have key : (N ⬝ᵥ N) • (p ⨯₃ q) = (N ⬝ᵥ p ⨯₃ q) • N := by
    have h0 : (N ⬝ᵥ N) • (p ⨯₃ q) - (N ⬝ᵥ p ⨯₃ q) • N = (N ⬝ᵥ p) • (N ⨯₃ q) - (N ⬝ᵥ q) • (N ⨯₃ p) := by
      funext i
      fin_cases i <;> simp [cross_apply, dotProduct, Fin.sum_univ_three] <;> ring
    rw [hp, hq, zero_smul, zero_smul, sub_zero] at h0
    exact sub_eq_zero.mp h0
  rw [div_eq_inv_mul, mul_smul, ← key, smul_smul, inv_mul_cancel₀ hNN.ne', one_smul]

theorem edge_cross_ne {V : Fin (m + 3) → V3} {N : V3} (h : ConvexCcw V N) (i : Fin (m + 3)) : ccwNormal V ⨯₃ (V (i + 1) - V i) ≠ 0 := by
  obtain ⟨k, hk, e⟩ := ccwNormal_pos h
  rw [e]
  intro h0
  have ht := h.turn i
  rw [LinearMap.map_smul₂] at h0
  have h1 := (smul_eq_zero.mp h0).resolve_left hk.ne'
  rw [← triple, h1, zero_dotProduct] at ht
  exact lt_irrefl _ ht

/-- C45: the half-space of an edge holds at a point exactly if the point is not to the right of the edge; it holds with equality exactly on the line (in space: the plane) through the edge. -/
theorem C45_halfspace (V : Fin (m + 3) → V3) (N : V3) (h : ConvexCcw V N) (id : ℤ) (i : Fin (m + 3)) (x : V3) :
    (((initRegion V id).A *ᵥ x) i ≤ (initRegion V id).b i ↔ 0 ≤ N ⬝ᵥ ((V (i + 1) - V i) ⨯₃ (x - V i))) ∧
    (((initRegion V id).A *ᵥ x) i = (initRegion V id).b i ↔ N ⬝ᵥ ((V (i + 1) - V i) ⨯₃ (x - V i)) = 0) := by
  obtain ⟨k, hk, e⟩ := ccwNormal_pos h
  have hN : ccwNormal V ≠ 0 := by
    intro h0
    have := edge_cross_ne h 0
    rw [h0] at this
    simp at this
  obtain ⟨c, hc, e2⟩ := row_iff V i x hN (edge_cross_ne h i) id
  rw [e, smul_dotProduct, smul_eq_mul] at e2
  generalize N ⬝ᵥ ((V (i + 1) - V i) ⨯₃ (x - V i)) = z at *
  have hck : 0 < c * k := by positivity
  constructor
  · constructor
    · intro h1
      by_contra hz
      have : c * k * z < 0 := mul_neg_of_pos_of_neg hck (not_le.mp hz)
      nlinarith
    · intro h1
      have : 0 ≤ c * k * z := by positivity
      nlinarith
  · constructor
    · intro h1
      have : c * k * z = 0 := by nlinarith
      exact (mul_eq_zero.mp this).resolve_left hck.ne'
    · intro h1
      rw [h1] at e2
      simp only [mul_zero, neg_zero] at e2
      linarith

/-- C45: for every convex planar region whose corners are given counter-clockwise, of any number of corners, the half-space description together with the plane of the region
contains exactly the polygon: the points of the plane that it accepts are the convex combinations of the corners. -/
theorem C45_exactly_polygon (V : Fin (m + 3) → V3) (N : V3) (h : ConvexCcw V N) (id : ℤ) (x : V3) :
    ((initRegion V id).accepts x ∧ N ⬝ᵥ (x - V 0) = 0) ↔ x ∈ convexHull ℝ (Set.range V) := by
  have hacc : (initRegion V id).accepts x ↔ ∀ i, 0 ≤ N ⬝ᵥ ((V (i + 1) - V i) ⨯₃ (x - V i)) :=
    forall_congr' fun i => (C45_halfspace V N h id i x).1
  rw [hacc]
  have hN : N ≠ 0 := by
    rintro rfl
    have := h.turn 0
    simp at this
  constructor
  · rintro ⟨hx, hpl⟩
    by_contra hout
    have hclosed : IsClosed (convexHull ℝ (Set.range V)) := (Set.finite_range V).isClosed_convexHull ℝ
    obtain ⟨f, u, hf1, hf2⟩ := geometric_hahn_banach_point_closed (convex_convexHull ℝ (Set.range V)) hclosed hout
    -- f x < u < f (V i) for all i; take the corner with the least value
    obtain ⟨j, -, hj⟩ := Finset.exists_min_image Finset.univ (fun i => f (V i)) ⟨0, Finset.mem_univ _⟩
    have hV : ∀ i, f x < f (V i) := fun i => hf1.trans (hf2 (V i) (subset_convexHull ℝ _ ⟨i, rfl⟩))
    -- the two edges at that corner
    have hj1 : j - 1 + 1 = j := sub_add_cancel j 1
    have ht := h.turn (j - 1)
    have hx1 := hx (j - 1)
    have hx2 := hx j
    rw [hj1] at ht hx1
    have hx1' : 0 ≤ N ⬝ᵥ ((V j - V (j - 1)) ⨯₃ (x - V j)) := by
      have : (V j - V (j - 1)) ⨯₃ (x - V (j - 1)) = (V j - V (j - 1)) ⨯₃ (x - V j) := by
        rw [show x - V (j - 1) = (x - V j) + (V j - V (j - 1)) by abel, map_add, cross_self, add_zero]
      rwa [this] at hx1
    have hp := plane_sub h.plane j (j - 1)
    have hq := plane_sub h.plane (j + 1) j
    have hy : N ⬝ᵥ (x - V j) = 0 := by
      have h1 := h.plane j
      rw [dotProduct_sub] at *
      linarith
    have key := congrArg f (plane_coords hN hp hq hy)
    simp only [map_sub f, map_smul f, smul_eq_mul] at key
    have hm1 := hj (j - 1) (Finset.mem_univ _)
    have hm2 := hj (j + 1) (Finset.mem_univ _)
    have hlt := hV j
    have a1 : (N ⬝ᵥ ((V j - V (j - 1)) ⨯₃ (V (j + 1) - V j))) * (f x - f (V j)) < 0 := mul_neg_of_pos_of_neg ht (by linarith)
    have a2 : 0 ≤ (N ⬝ᵥ ((V j - V (j - 1)) ⨯₃ (x - V j))) * (f (V (j + 1)) - f (V j)) := mul_nonneg hx1' (by linarith)
    have a3 : 0 ≤ -((N ⬝ᵥ ((V (j + 1) - V j) ⨯₃ (x - V j))) * (f (V j) - f (V (j - 1)))) := by
      have := mul_nonneg hx2 (show 0 ≤ f (V (j - 1)) - f (V j) by linarith)
      linarith
    linarith
  · intro hx
    have hsub : convexHull ℝ (Set.range V) ⊆ {x | (∀ i, 0 ≤ N ⬝ᵥ ((V (i + 1) - V i) ⨯₃ (x - V i))) ∧ N ⬝ᵥ (x - V 0) = 0} := by
      apply convexHull_min
      · rintro _ ⟨j, rfl⟩
        exact ⟨fun i => h.left i j, h.plane j⟩
      · rintro y ⟨hy, hy0⟩ z ⟨hz, hz0⟩ a b ha hb hab
        have hcomb : ∀ w : V3, a • y + b • z - w = a • (y - w) + b • (z - w) := by
          intro w
          have hw : w = a • w + b • w := by rw [← add_smul, hab, one_smul]
          rw [smul_sub, smul_sub]
          conv_lhs => rw [hw]
          abel
        refine ⟨fun i => ?_, ?_⟩
        · rw [hcomb, map_add, map_smul, map_smul, dotProduct_add, dotProduct_smul, dotProduct_smul]
          exact add_nonneg (mul_nonneg ha (hy i)) (mul_nonneg hb (hz i))
        · rw [hcomb, dotProduct_add, dotProduct_smul, dotProduct_smul, hy0, hz0]; simp
    exact hsub hx

/-- C45: the reference point of a region (`pointOnTerrain`) is the centroid of the corners: the deviations of the corners from it
add up to zero; for convex planar regions it lies in the polygon and is accepted by the region. -/
theorem C45_reference_point (V : Fin (m + 3) → V3) (id : ℤ) :
    ∑ i, (V i - (initRegion V id).point) = 0 ∧
    ∀ N, ConvexCcw V N → (initRegion V id).point ∈ convexHull ℝ (Set.range V) ∧ (initRegion V id).accepts (initRegion V id).point := by
  have hp : (initRegion V id).point = ((m + 3 : ℕ) : ℝ)⁻¹ • ∑ i, V i := rfl
  have hne : ((m + 3 : ℕ) : ℝ) ≠ 0 := by positivity
  have hsum : ∑ i, (V i - (initRegion V id).point) = 0 := by
    rw [Finset.sum_sub_distrib, Finset.sum_const, Finset.card_univ, Fintype.card_fin, hp, ← Nat.cast_smul_eq_nsmul ℝ,
      smul_smul, mul_inv_cancel₀ hne, one_smul, sub_self]
  refine ⟨hsum, fun N h => ?_⟩
  have hc : (initRegion V id).point ∈ convexHull ℝ (Set.range V) := by
    have := (convex_convexHull ℝ (Set.range V)).sum_mem (t := Finset.univ) (w := fun _ : Fin (m + 3) => ((m + 3 : ℕ) : ℝ)⁻¹)
      (z := V) (fun _ _ => by positivity) (by
        rw [Finset.sum_const, Finset.card_univ, Fintype.card_fin, nsmul_eq_mul, mul_inv_cancel₀ hne])
      (fun i _ => subset_convexHull ℝ _ ⟨i, rfl⟩)
    rw [← Finset.smul_sum] at this
    exact this
  exact ⟨hc, ((C45_exactly_polygon V N h id _).2 hc).1⟩

/-- The unit square in the plane `z = 0`, counter-clockwise seen from above. -/
def square : Fin (1 + 3) → V3 := ![![0, 0, 0], ![1, 0, 0], ![1, 1, 0], ![0, 1, 0]]

/-- It meets the hypotheses. -/
theorem square_convex : ConvexCcw square ![0, 0, 1] := by
  constructor
  · intro i; fin_cases i <;> simp [square]
  · intro i; fin_cases i <;> simp [square, cross_apply]
  · intro i j; fin_cases i <;> fin_cases j <;> simp [square, cross_apply]

/-- A point outside across an edge is rejected. -/
example : ¬ (initRegion square 0).accepts ![2, 1 / 2, 0] := by
  intro h
  have := (C45_halfspace square ![0, 0, 1] square_convex 0 1 ![2, 1 / 2, 0]).1.mp (h 1)
  revert this
  simp [square, cross_apply]

/-! ### C71: normal and rotation -/

/-- The unit vector in the direction from which the corners are counter-clockwise. -/
def IsUpNormal (V : Fin (m + 3) → V3) (n : V3) : Prop := n ⬝ᵥ n = 1 ∧ ∃ k : ℝ, 0 < k ∧ ConvexCcw V (k • n)

theorem unit_dot {v : V3} (h : v ≠ 0) : unit v ⬝ᵥ unit v = 1 := by
  have := norm_pos h
  unfold unit
  rw [smul_dotProduct, dotProduct_smul, ← norm_sq, smul_eq_mul, smul_eq_mul]
  field_simp

/-- C71 is false of the code for every region: the normal that is reported is the unit normal with the opposite direction, from which the corners are clockwise. -/
theorem C71_normal_violated (V : Fin (m + 3) → V3) (N : V3) (h : ConvexCcw V N) (id : ℤ) :
    IsUpNormal V (-(initRegion V id).normal) ∧ ¬ IsUpNormal V (initRegion V id).normal := by
  obtain ⟨k, hk, e⟩ := ccwNormal_pos h
  have hN : ccwNormal V ≠ 0 := by
    intro h0
    have := edge_cross_ne h 0
    rw [h0] at this
    simp at this
  have hpos := norm_pos hN
  have hn : (initRegion V id).normal = -unit (ccwNormal V) := by
    change normal V = _
    rw [normal_eq, smul_neg]; rfl
  have hu : unit (ccwNormal V) = ((norm (ccwNormal V))⁻¹ * k) • N := by unfold unit; rw [← smul_smul, ← e]
  have hc : 0 < (norm (ccwNormal V))⁻¹ * k := by positivity
  rw [hn, neg_neg]
  constructor
  · refine ⟨unit_dot hN, ((norm (ccwNormal V))⁻¹ * k)⁻¹, by positivity, ?_⟩
    rw [hu, smul_smul, inv_mul_cancel₀ hc.ne', one_smul]
    exact h
  · rintro ⟨-, l, hl, h'⟩
    have t1 := h.turn 0
    have t2 := h'.turn 0
    rw [hu, smul_neg, smul_smul, neg_dotProduct, smul_dotProduct, smul_eq_mul] at t2
    have : 0 < l * ((norm (ccwNormal V))⁻¹ * k) := by positivity
    nlinarith

/-- C71, the part that holds: the reported normal is a unit vector orthogonal to the region. -/
theorem C71_normal_partial (V : Fin (m + 3) → V3) (N : V3) (h : ConvexCcw V N) (id : ℤ) :
    (initRegion V id).normal ⬝ᵥ (initRegion V id).normal = 1 ∧ ∀ i j, (initRegion V id).normal ⬝ᵥ (V i - V j) = 0 := by
  obtain ⟨⟨h1, k, hk, h2⟩, -⟩ := C71_normal_violated V N h id
  refine ⟨by simpa using h1, fun i j => ?_⟩
  have := plane_sub h2.plane i j
  rw [smul_dotProduct, neg_dotProduct, smul_eq_mul] at this
  have := (mul_eq_zero.mp this).resolve_left hk.ne'
  linarith

/-- C71: the rotation of a region is a rotation matrix exactly if the first corner angle is a right angle; its third row is always the counter-clockwise unit normal. -/
theorem C71_rotation_iff (V : Fin (m + 3) → V3) (N : V3) (h : ConvexCcw V N) (id : ℤ) :
    IsUpNormal V ((initRegion V id).rotation 2) ∧
    ((initRegion V id).rotation * (initRegion V id).rotationᵀ = 1 ↔ (V 1 - V 0) ⬝ᵥ (V 2 - V 1) = 0) ∧
    ((V 1 - V 0) ⬝ᵥ (V 2 - V 1) = 0 → (initRegion V id).rotation.det = 1) := by
  obtain ⟨k, hk, e⟩ := ccwNormal_pos h
  have hN : ccwNormal V ≠ 0 := by
    intro h0
    have := edge_cross_ne h 0
    rw [h0] at this
    simp at this
  have h2' : (⟨2, by omega⟩ : Fin (m + 3)) = 2 := by ext; exact (Nat.mod_eq_of_lt (by omega)).symm
  have h1' : (⟨1, by omega⟩ : Fin (m + 3)) = 1 := by ext; simp
  have h0' : (⟨0, by omega⟩ : Fin (m + 3)) = 0 := by ext; simp
  have hcc : (V 0 - V 1) ⨯₃ (V 1 - V 2) = ccwNormal V := by
    unfold ccwNormal
    rw [← neg_sub (V 1) (V 0), ← neg_sub (V 2) (V 1), LinearMap.map_neg₂, map_neg, neg_neg]
  have hrot : (initRegion V id).rotation = Matrix.of ![unit (V 0 - V 1), unit (V 1 - V 2), unit (ccwNormal V)] := by
    change rotation V = _
    unfold rotation
    simp only [h2', h1', h0']
    rw [hcc]
  have hup : IsUpNormal V ((initRegion V id).rotation 2) := by
    have := (C71_normal_violated V N h id).1
    have hn : -(initRegion V id).normal = unit (ccwNormal V) := by
      change -normal V = _
      rw [normal_eq, smul_neg, neg_neg]; rfl
    rw [hn] at this
    rw [hrot]
    exact this
  refine ⟨hup, ?_⟩
  have ha : V 0 - V 1 ≠ 0 := by
    intro h0; apply hN; rw [← hcc, h0]; simp
  have hb : V 1 - V 2 ≠ 0 := by
    intro h0; apply hN; rw [← hcc, h0]; simp
  have na := norm_pos ha
  have nb := norm_pos hb
  have nc := norm_pos hN
  have hdot : (V 1 - V 0) ⬝ᵥ (V 2 - V 1) = (V 0 - V 1) ⬝ᵥ (V 1 - V 2) := by
    rw [← neg_sub (V 0) (V 1), ← neg_sub (V 1) (V 2), neg_dotProduct_neg]
  rw [hdot, hrot]
  rw [← hcc] at nc hN ⊢
  have sa := norm_sq (V 0 - V 1)
  have sb := norm_sq (V 1 - V 2)
  have sc := norm_sq ((V 0 - V 1) ⨯₃ (V 1 - V 2))
  have ua := unit_dot ha
  have ub := unit_dot hb
  have uc := unit_dot hN
  have lag : ((V 0 - V 1) ⨯₃ (V 1 - V 2)) ⬝ᵥ ((V 0 - V 1) ⨯₃ (V 1 - V 2)) = ((V 0 - V 1) ⬝ᵥ (V 0 - V 1)) * ((V 1 - V 2) ⬝ᵥ (V 1 - V 2)) - ((V 0 - V 1) ⬝ᵥ (V 1 - V 2)) ^ 2 := by
    simp [cross_apply, dotProduct, Fin.sum_univ_three]; ring
  generalize V 0 - V 1 = a at *
  generalize V 1 - V 2 = b at *
  have hab : unit a ⬝ᵥ unit b = (norm a)⁻¹ * ((norm b)⁻¹ * (a ⬝ᵥ b)) := by unfold unit; rw [smul_dotProduct, dotProduct_smul]; rfl
  have hac : unit a ⬝ᵥ unit (a ⨯₃ b) = 0 := by unfold unit; rw [smul_dotProduct, dotProduct_smul, dot_self_cross]; simp
  have hbc : unit b ⬝ᵥ unit (a ⨯₃ b) = 0 := by unfold unit; rw [smul_dotProduct, dotProduct_smul, dot_cross_self]; simp
  have hd : ∀ i j, (Matrix.of ![unit a, unit b, unit (a ⨯₃ b)] * (Matrix.of ![unit a, unit b, unit (a ⨯₃ b)])ᵀ : Matrix (Fin 3) (Fin 3) ℝ) i j =
      (![unit a, unit b, unit (a ⨯₃ b)] i) ⬝ᵥ (![unit a, unit b, unit (a ⨯₃ b)] j) := fun _ _ => rfl
  refine ⟨⟨?_, ?_⟩, ?_⟩
  · intro hM
    have h01 := congrFun (congrFun hM 0) 1
    rw [hd] at h01
    have : unit a ⬝ᵥ unit b = 0 := by simpa using h01
    rw [hab] at this
    rcases mul_eq_zero.mp this with h | h
    · exact absurd h (inv_ne_zero na.ne')
    · exact (mul_eq_zero.mp h).resolve_left (inv_ne_zero nb.ne')
  · intro h0
    have hab0 : unit a ⬝ᵥ unit b = 0 := by rw [hab, h0]; simp
    have hba0 : unit b ⬝ᵥ unit a = 0 := by rw [dotProduct_comm]; exact hab0
    have hca : unit (a ⨯₃ b) ⬝ᵥ unit a = 0 := by rw [dotProduct_comm]; exact hac
    have hcb : unit (a ⨯₃ b) ⬝ᵥ unit b = 0 := by rw [dotProduct_comm]; exact hbc
    ext i j
    rw [hd]
    fin_cases i <;> fin_cases j <;> simp [hab0, hac, hbc, ua, ub, uc, hba0, hca, hcb]
  · intro h0
    have hn : norm (a ⨯₃ b) = norm a * norm b := by
      have : norm (a ⨯₃ b) ^ 2 = (norm a * norm b) ^ 2 := by rw [sc, lag, h0, mul_pow, sa, sb]; ring
      exact (sq_eq_sq₀ nc.le (by positivity)).mp this
    have hdet : Matrix.det (Matrix.of ![unit a, unit b, unit (a ⨯₃ b)] : Matrix (Fin 3) (Fin 3) ℝ) = (norm a)⁻¹ * (norm b)⁻¹ * (norm (a ⨯₃ b))⁻¹ * ((a ⨯₃ b) ⬝ᵥ (a ⨯₃ b)) := by
      rw [Matrix.det_fin_three]
      unfold unit
      generalize (norm (a ⨯₃ b))⁻¹ = l
      simp [cross_apply, dotProduct, Fin.sum_univ_three]
      ring
    rw [hdet, ← sc, hn]
    field_simp

/-- A region whose first corner is not a right angle: its rotation is not a rotation matrix. -/
theorem C71_rotation_violated : ∃ (V : Fin (0 + 3) → V3) (N : V3), ConvexCcw V N ∧ (initRegion V 0).rotation * (initRegion V 0).rotationᵀ ≠ 1 := by
  have hc : ConvexCcw (n := 0 + 3) ![![0, 0, 0], ![1, 0, 0], ![0, 1, 0]] ![0, 0, 1] := by
    constructor
    · intro i; fin_cases i <;> simp
    · intro i; fin_cases i <;> simp [cross_apply]
    · intro i j; fin_cases i <;> fin_cases j <;> simp [cross_apply]
  refine ⟨_, _, hc, fun h => ?_⟩
  have := ((C71_rotation_iff (m := 0) _ _ hc 0).2.1).mp h
  revert this
  simp

/-! ### C72: the list of regions -/

/-- C72: adding a region appends one region described by its own corners and numbered by its position, and leaves the regions already there unchanged. -/
theorem C72_add (d : Description) (V : Fin (m + 3) → V3) :
    (d.add V).numRegions = d.numRegions + 1 ∧ (∀ i, i < d.numRegions → (d.add V).regions[i]? = d.regions[i]?) ∧
      (d.add V).regions[d.numRegions]? = some (initRegion V d.numRegions) := by
  unfold Description.add Description.numRegions
  refine ⟨by simp, fun i hi => ?_, ?_⟩
  · exact List.getElem?_append_left hi
  · simp

/-- C72: after loading any list of regions into a description that had been built by the class (starting from the empty one), the regions are exactly the given ones in order, each
with its position as identifier. -/
theorem C72_load (files : List (Σ m, Fin (m + 3) → V3)) :
    ((Description.empty).load files).numRegions = files.length ∧
      ∀ i (h : i < files.length), ((Description.empty).load files).regions[i]? = some (initRegion (files[i]).2 i) := by
  have key : ∀ (files : List (Σ m, Fin (m + 3) → V3)) (d : Description), (d.load files).numRegions = d.numRegions + files.length ∧
      (∀ i, i < d.numRegions → (d.load files).regions[i]? = d.regions[i]?) ∧
      ∀ i (h : i < files.length), (d.load files).regions[d.numRegions + i]? = some (initRegion (files[i]).2 ((d.numRegions + i : ℕ) : ℤ)) := by
    intro files
    induction files with
    | nil => intro d; exact ⟨rfl, fun _ _ => rfl, fun i h => absurd h (by simp)⟩
    | cons V rest ih =>
      intro d
      obtain ⟨a1, a2, a3⟩ := C72_add d V.2
      obtain ⟨b1, b2, b3⟩ := ih (d.add V.2)
      have e : d.load (V :: rest) = (d.add V.2).load rest := rfl
      rw [e]
      refine ⟨by rw [b1, a1, List.length_cons]; omega, fun i hi => by rw [b2 i (by omega), a2 i hi], fun i hi => ?_⟩
      cases i with
      | zero =>
        rw [Nat.add_zero, b2 _ (by omega), a3]
        rfl
      | succ i =>
        have hi' : i < rest.length := by simpa using hi
        have := b3 i hi'
        rw [a1] at this
        rw [show d.numRegions + (i + 1) = d.numRegions + 1 + i by omega, this]
        rfl
  obtain ⟨h1, -, h3⟩ := key files Description.empty
  refine ⟨by rw [h1]; simp [Description.empty, Description.numRegions], fun i h => ?_⟩
  have := h3 i h
  simpa [Description.empty, Description.numRegions] using this

/-- Loading two regions. -/
example : ((Description.empty).load [⟨1, square⟩, ⟨1, square⟩]).numRegions = 2 := (C72_load _).1

end Terrain
end Verif
