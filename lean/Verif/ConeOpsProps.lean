/-
Property C217: arithmetic of conic vectors.
-/
import Verif.ConeOps
import Verif.ConeProps
import Mathlib.Tactic.LinearCombination

namespace Verif
open Finset
namespace Cone

/-- Equal on the entries of the cone. -/
def Same (c : Cone) (u v : Nat → ℝ) : Prop := ∀ k, k < c.sizecone → u k = v k

/-- The identity of the cone. -/
noncomputable def one (c : Cone) (k : Nat) : ℝ := if k < c.nineq ∨ ∃ i < c.nsoc, k = c.startSoc i then 1 else 0

theorem one_identity (c : Cone) (hne : c.NoEmpty) : c.IsIdentity c.one := by
  refine ⟨fun i hi => by simp [one, hi], fun i hi => ⟨?_, fun j hj hj' => ?_⟩⟩
  · simp only [entry, Nat.add_zero, one]
    rw [if_pos (Or.inr ⟨i, hi, rfl⟩)]
  · simp only [entry, one]
    rw [if_neg]
    rintro (h | ⟨i', hi', h⟩)
    · have := c.nineq_le_startSoc i; omega
    · obtain ⟨-, h2⟩ := c.loc_inj hi hi' hj' (hne i' hi') (by simpa using h)
      omega

theorem wr_zero (n : Nat) (f w : Nat → ℝ) (k : Nat) (hk : k < n) : wr 0 n f w k = f k := by
  rw [wr_apply]; simp [hk]

theorem addHeads_apply (c : Cone) (hne : c.NoEmpty) (a : ℝ) (s : Nat → ℝ) (k : Nat) (hk : k < c.sizecone) :
    c.addHeads a s k = s k + a * c.one k := by
  have h := c.proj_fold hne a (wr 0 c.nineq (fun k => s k + a) s) c.nsoc le_rfl
  obtain ⟨h1, h2⟩ := h
  unfold addHeads
  by_cases hl : k < c.nineq
  · rw [h2 k (fun i hi he => by have := c.nineq_le_startSoc i; omega), wr_zero _ _ _ _ hl]
    simp [one, hl]
  · by_cases he : ∃ i < c.nsoc, k = c.startSoc i
    · obtain ⟨i, hi, rfl⟩ := he
      rw [h1 i hi, wr_apply]
      rw [if_neg (by omega), one, if_pos (Or.inr ⟨i, hi, rfl⟩), mul_one]
    · rw [h2 k (fun i hi h => he ⟨i, hi, h⟩), wr_apply, if_neg (by omega), one, if_neg (fun h => h.elim hl he)]
      ring

theorem subHeads_eq (c : Cone) (a : ℝ) (s : Nat → ℝ) : c.subHeads a s = c.addHeads (-a) s := by
  simp [subHeads, addHeads, sub_eq_add_neg]

/-- C217: sums, negatives and scalars: a scalar stands for that multiple of the identity of the cone; `+=` agrees with `+`,
and `-` undoes it. -/
theorem C217_linear (c : Cone) (hne : c.NoEmpty) (u v : Nat → ℝ) (a : ℝ) :
    c.IsIdentity c.one ∧ c.Same (c.opAdd u v) (u + v) ∧ c.Same (c.opNeg u) (-u) ∧
    c.Same (c.opAddS u a) (u + a • c.one) ∧ c.Same (c.opIncr u a) (c.opAddS u a) ∧
    c.Same (c.opSubS u a) (u - a • c.one) ∧ c.Same (c.opSubS (c.opAddS u a) a) u := by
  have hadd : ∀ (u : Nat → ℝ) (a : ℝ), c.Same (c.opAddS u a) (u + a • c.one) := by
    intro u a k hk
    rw [opAddS, addHeads_apply c hne a _ k hk, wr_zero _ _ _ _ hk]; rfl
  have hsub : ∀ (u : Nat → ℝ) (a : ℝ), c.Same (c.opSubS u a) (u - a • c.one) := by
    intro u a k hk
    rw [opSubS, subHeads_eq, addHeads_apply c hne (-a) _ k hk, wr_zero _ _ _ _ hk]
    simp [sub_eq_add_neg]
  refine ⟨c.one_identity hne, fun k hk => by rw [opAdd, wr_zero _ _ _ _ hk]; rfl, fun k hk => by rw [opNeg, wr_zero _ _ _ _ hk]; rfl,
    hadd u a, fun k hk => ?_, hsub u a, fun k hk => ?_⟩
  · rw [hadd u a k hk, opIncr, addHeads_apply c hne a u k hk]; rfl
  · rw [hsub _ a k hk]
    simp only [Pi.sub_apply, Pi.smul_apply, smul_eq_mul, hadd u a k hk, Pi.add_apply]
    ring

theorem mul_lp (c : Cone) (u v : Nat → ℝ) (k : Nat) (hk : k < c.nineq) : c.opMul u v k = u k * v k := by
  rw [opMul, conicProduct, blockwise_lp _ _ _ _ _ hk]

theorem mul_soc (c : Cone) (u v : Nat → ℝ) (i j : Nat) (hi : i < c.nsoc) (hj : j < c.sizeSoc i) :
    c.opMul u v (c.startSoc i + j) = prodBlk (c.sizeSoc i) (shift u (c.startSoc i)) (shift v (c.startSoc i)) j := by
  rw [opMul, conicProduct, blockwise_soc _ _ _ _ _ _ hi hj]

theorem mul_congr (c : Cone) (u u' v v' : Nat → ℝ) (hu : c.Same u u') (hv : c.Same v v') : c.Same (c.opMul u v) (c.opMul u' v') := by
  intro k hk
  by_cases hl : k < c.nineq
  · rw [mul_lp c _ _ k hl, mul_lp c _ _ k hl, hu k hk, hv k hk]
  · obtain ⟨i, j, hi, hj, rfl⟩ := c.covered k hk (by omega)
    have hb : ∀ t, t < c.sizeSoc i → c.startSoc i + t < c.sizecone := fun t ht => (C15_layout c).2.2.2.2.1 i t hi ht |>.2
    rw [mul_soc c _ _ i j hi hj, mul_soc c _ _ i j hi hj]
    unfold prodBlk shift
    split
    · exact sum_congr rfl fun t ht => by rw [hu _ (hb t (mem_range.mp ht)), hv _ (hb t (mem_range.mp ht))]
    · rw [hu _ (hb j hj), hv _ (hb j hj), hu _ (hb 0 (by omega)), hv _ (hb 0 (by omega))]

/-- C217: the product is commutative, bilinear, and the identity of the cone is its unit; so a scalar multiplies like a number. -/
theorem C217_product (c : Cone) (hne : c.NoEmpty) (u v w : Nat → ℝ) (a : ℝ) :
    c.Same (c.opMul u v) (c.opMul v u) ∧ c.Same (c.opMul (c.opAdd u v) w) (c.opAdd (c.opMul u w) (c.opMul v w)) ∧
    c.Same (c.opMul (a • u) v) (a • c.opMul u v) ∧ c.Same (c.opMul c.one u) u ∧
    c.Same (c.opMul (c.opAddS u a) v) (c.opMul u v + a • v) := by
  have hbi : ∀ (u v w : Nat → ℝ) (a b : ℝ), c.Same (c.opMul (a • u + b • v) w) (a • c.opMul u w + b • c.opMul v w) := by
    intro u v w a b k hk
    simp only [Pi.add_apply, Pi.smul_apply, smul_eq_mul]
    by_cases hl : k < c.nineq
    · rw [mul_lp c _ _ k hl, mul_lp c _ _ k hl, mul_lp c _ _ k hl]
      simp only [Pi.add_apply, Pi.smul_apply, smul_eq_mul]; ring
    · obtain ⟨i, j, hi, hj, rfl⟩ := c.covered k hk (by omega)
      rw [mul_soc c _ _ i j hi hj, mul_soc c _ _ i j hi hj, mul_soc c _ _ i j hi hj]
      unfold prodBlk shift
      simp only [Pi.add_apply, Pi.smul_apply, smul_eq_mul]
      split
      · rw [mul_sum, mul_sum, ← sum_add_distrib]
        exact sum_congr rfl fun t _ => by ring
      · ring
  have hone : ∀ u, c.Same (c.opMul c.one u) u := by
    intro u k hk
    obtain ⟨e1, e2⟩ := c.one_identity hne
    by_cases hl : k < c.nineq
    · rw [mul_lp c _ _ k hl, e1 k hl, one_mul]
    · obtain ⟨i, j, hi, hj, rfl⟩ := c.covered k hk (by omega)
      obtain ⟨f1, f2⟩ := e2 i hi
      rw [mul_soc c _ _ i j hi hj]
      have f1' : c.one (c.startSoc i) = 1 := by simpa [entry] using f1
      have f2' : ∀ t, 0 < t → t < c.sizeSoc i → c.one (c.startSoc i + t) = 0 := f2
      unfold prodBlk shift
      split
      · rename_i h0
        subst h0
        rw [sum_range_split _ hj, Finset.sum_eq_zero]
        · simp [f1']
        · intro t ht
          rw [f2' t (mem_Ico.mp ht).1 (mem_Ico.mp ht).2, zero_mul]
      · rw [f2' j (by omega) hj]
        simp [f1']
  refine ⟨fun k hk => ?_, fun k hk => ?_, fun k hk => ?_, hone u, fun k hk => ?_⟩
  · by_cases hl : k < c.nineq
    · rw [mul_lp c _ _ k hl, mul_lp c _ _ k hl, mul_comm]
    · obtain ⟨i, j, hi, hj, rfl⟩ := c.covered k hk (by omega)
      rw [mul_soc c _ _ i j hi hj, mul_soc c _ _ i j hi hj]
      unfold prodBlk
      split
      · exact sum_congr rfl fun t _ => mul_comm _ _
      · ring
  · have h1 := (C217_linear c hne (c.opMul u w) (c.opMul v w) 0).2.1 k hk
    rw [h1, mul_congr c _ (1 • u + (1 : ℝ) • v) w w (fun k hk => by
      rw [(C217_linear c hne u v 0).2.1 k hk]; simp) (fun k _ => rfl) k hk]
    have := hbi u v w 1 1 k hk
    simpa using this
  · have := hbi u 0 v a 0 k hk
    simpa using this
  · rw [mul_congr c _ ((1 : ℝ) • u + a • c.one) v v (fun k hk => by
      rw [(C217_linear c hne u v a).2.2.2.1 k hk]; simp) (fun k _ => rfl) k hk]
    have := hbi u c.one v 1 a k hk
    rw [this]
    simp only [Pi.add_apply, Pi.smul_apply, smul_eq_mul, one_mul]
    rw [hone v k hk]

/-- C217: `u / w` is the quotient of `w` by `u`: `u * (u / w) = w` for `u` well inside the cone. -/
theorem C217_division (c : Cone) (hne : c.NoEmpty) (u w : Nat → ℝ) (hu : c.WellInside u) :
    c.Same (c.opMul u (c.opDiv u w)) w ∧ c.Same (c.opDiv u (c.opMul u w)) w := by
  exact ⟨fun k hk => (C16_product_division c hne u w _ _ hu k hk).2, fun k hk => (C16_product_division c hne u w _ _ hu k hk).1⟩

/-- One linear entry and a cone of size two: `(1, 2, 3) + 1 = (2, 3, 3)`. -/
example : (Cone.mk 0 0 1 [2]).NoEmpty ∧ (Cone.mk 0 0 1 [2]).opAddS (fun k => k + 1) 1 2 = 3 := by
  have hne : (Cone.mk 0 0 1 [2]).NoEmpty := by
    intro i hi
    have : i < 1 := hi
    have : i = 0 := by omega
    subst this; decide
  refine ⟨hne, ?_⟩
  rw [(C217_linear _ hne (fun k => k + 1) (fun _ => 0) 1).2.2.2.1 2 (by decide)]
  simp only [Pi.add_apply, Pi.smul_apply, smul_eq_mul, one]
  rw [if_neg]
  · norm_num
  · rintro (h | ⟨i, hi, h⟩)
    · exact absurd h (by decide)
    · have : i < 1 := hi
      have : i = 0 := by omega
      subst this
      exact absurd h (by decide)

end Cone
end Verif
