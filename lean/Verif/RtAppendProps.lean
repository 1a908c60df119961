/-
Property C94: stacking constraints (`append`, `appendAtColumn`, `appendRowsOfRank`,
/repo/solver/include/solver/rt_optimizer/RtMatrix.hpp and RtModel.h).
-/
import Verif.RtModel
import Mathlib.Tactic.Ring
import Mathlib.Tactic.NormNum

namespace Verif
namespace Rt

/-- Row `i` of the affine map `t` evaluated at `x`. -/
noncomputable def rowVal (t : Aff) (i : Nat) (x : Nat → ℝ) : ℝ :=
  ∑ j ∈ Finset.range t.1.cols, t.1.at' i j * x j + t.2.at' i

/-- C94, `append`: the appended stack evaluates, row by row, to the old stack followed by the new rows,
whatever memory `conservativeResize` hands out. -/
theorem C94_append (jm : Nat → Nat → ℝ) (jv : Nat → ℝ) (a b : Aff) (ha : a.2.size = a.1.rows)
    (hb : b.2.size = b.1.rows) (hc : a.1.cols = b.1.cols) :
    (affAppend jm jv a b).1.rows = a.1.rows + b.1.rows ∧
    (affAppend jm jv a b).2.size = a.1.rows + b.1.rows ∧
    (affAppend jm jv a b).1.cols = a.1.cols ∧
    (∀ i < a.1.rows, ∀ x, rowVal (affAppend jm jv a b) i x = rowVal a i x) ∧
    (∀ i < b.1.rows, ∀ x, rowVal (affAppend jm jv a b) (a.1.rows + i) x = rowVal b i x) := by
  have hcols : (affAppend jm jv a b).1.cols = a.1.cols := by
    simp only [affAppend, affAppend0, Mat.append]
    split
    · exact hc.symm
    · rfl
  refine ⟨?_, ?_, hcols, ?_, ?_⟩
  · simp only [affAppend, affAppend0, Mat.append]
    split
    · omega
    · rfl
  · simp only [affAppend, affAppend0, Vec.setBlock, Vec.conservativeResize, ha]
  · intro i hi x
    rw [rowVal, rowVal, hcols]
    simp only [affAppend, affAppend0, Mat.append]
    rw [if_neg (by omega)]
    simp only [Vec.setBlock, Vec.conservativeResize, Mat.setBlock, Mat.conservativeResize]
    rw [if_neg (by omega), if_neg (by omega), if_pos (by omega)]
    congr 1
    apply Finset.sum_congr rfl
    intro j hj
    have := Finset.mem_range.1 hj
    rw [if_neg (by omega), if_pos ⟨hi, this⟩]
  · intro i hi x
    rw [rowVal, rowVal, hcols]
    simp only [affAppend, affAppend0, Mat.append]
    by_cases h0 : a.1.rows = 0
    · rw [if_pos h0]
      simp only [Vec.setBlock]
      rw [if_pos (by omega), hc, h0, ha, h0, Nat.zero_add, Nat.sub_zero]
    · rw [if_neg h0]
      simp only [Vec.setBlock, Mat.setBlock]
      rw [if_pos (by omega), hc, ha, Nat.add_sub_cancel_left]
      congr 1
      apply Finset.sum_congr rfl
      intro j hj
      have := Finset.mem_range.1 hj
      rw [if_pos (by omega), Nat.sub_zero]

/-- C94, `RtVectorUtils::append`: the old entries followed by the new ones. -/
theorem C94_vector (jv : Nat → ℝ) (a b : Vec) :
    (a.append jv b).size = a.size + b.size ∧
    (∀ i < a.size, (a.append jv b).at' i = a.at' i) ∧
    (∀ i < b.size, (a.append jv b).at' (a.size + i) = b.at' i) := by
  refine ⟨rfl, fun i hi => ?_, fun i hi => ?_⟩
  · simp only [Vec.append, Vec.setBlock, Vec.conservativeResize]
    rw [if_neg (by omega), if_pos hi]
  · simp only [Vec.append, Vec.setBlock, Vec.conservativeResize]
    rw [if_pos (by omega), Nat.add_sub_cancel_left]

example : ((⟨1, fun _ => 4⟩ : Vec).append (fun _ => 9) ⟨2, fun i => i⟩).at' 2 = 1 := by
  simp [Vec.append, Vec.setBlock]

theorem appendAtColumn_old (jm : Nat → Nat → ℝ) (a b : Mat) (c0 i j : Nat) (hi : i < a.rows)
    (hj : j < a.cols) : (a.appendAtColumn jm b c0).at' i j = a.at' i j := by
  simp only [Mat.appendAtColumn]
  rw [if_neg (by omega)]
  simp only [Mat.setBlock]
  rw [if_neg (by omega), if_neg (by omega)]
  simp only [Mat.conservativeResize]
  rw [if_pos ⟨hi, hj⟩]

theorem appendAtColumn_new (jm : Nat → Nat → ℝ) (a b : Mat) (c0 i j : Nat) (hi : i < b.rows)
    (hj : j < a.cols) : (a.appendAtColumn jm b c0).at' (a.rows + i) j =
      if c0 ≤ j ∧ j < c0 + b.cols then b.at' i (j - c0) else 0 := by
  have hr : (if a.rows = 0 then Mat.resize jm (a.rows + b.rows) a.cols
      else a.conservativeResize jm (a.rows + b.rows) a.cols).cols = a.cols := by
    by_cases h : a.rows = 0
    · rw [if_pos h]; rfl
    · rw [if_neg h]; rfl
  simp only [Mat.appendAtColumn]
  generalize (if a.rows = 0 then Mat.resize jm (a.rows + b.rows) a.cols
      else a.conservativeResize jm (a.rows + b.rows) a.cols) = r at hr
  simp only [Mat.setBlock, hr]
  by_cases h : c0 ≤ j ∧ j < c0 + b.cols
  · rw [if_pos (by omega), if_pos h, Nat.add_sub_cancel_left]
  · rw [if_neg (by omega), if_neg h, if_pos (by omega)]

/-- C94, `appendAtColumn`: the new rows act on the variables from column `c0` on, and on no other. -/
theorem C94_appendAtColumn (jm : Nat → Nat → ℝ) (jv : Nat → ℝ) (a b : Aff) (c0 : Nat)
    (ha : a.2.size = a.1.rows) (hb : b.2.size = b.1.rows) (hc : c0 + b.1.cols ≤ a.1.cols) :
    (affAppendAtColumn jm jv a b c0).1.rows = a.1.rows + b.1.rows ∧
    (affAppendAtColumn jm jv a b c0).2.size = a.1.rows + b.1.rows ∧
    (affAppendAtColumn jm jv a b c0).1.cols = a.1.cols ∧
    (∀ i < a.1.rows, ∀ x, rowVal (affAppendAtColumn jm jv a b c0) i x = rowVal a i x) ∧
    (∀ i < b.1.rows, ∀ x, rowVal (affAppendAtColumn jm jv a b c0) (a.1.rows + i) x =
      rowVal b i (fun j => x (c0 + j))) := by
  have hcols : (affAppendAtColumn jm jv a b c0).1.cols = a.1.cols := by
    simp only [affAppendAtColumn, affAppendAtColumn0, Mat.appendAtColumn, Mat.setBlock]
    split <;> rfl
  have hr : (if a.1.rows = 0 then Mat.resize jm (a.1.rows + b.1.rows) a.1.cols
      else a.1.conservativeResize jm (a.1.rows + b.1.rows) a.1.cols).cols = a.1.cols := by
    split <;> rfl
  refine ⟨?_, ?_, hcols, ?_, ?_⟩
  · simp only [affAppendAtColumn, affAppendAtColumn0, Mat.appendAtColumn, Mat.setBlock]
    split <;> rfl
  · simp only [affAppendAtColumn, affAppendAtColumn0, Vec.setBlock, Vec.conservativeResize, ha]
  · intro i hi x
    rw [rowVal, rowVal, hcols]
    have hv : (affAppendAtColumn jm jv a b c0).2.at' i = a.2.at' i := by
      simp only [affAppendAtColumn, affAppendAtColumn0, Vec.setBlock, Vec.conservativeResize]
      rw [if_neg (by omega), if_neg (by omega), if_pos (by omega)]
    rw [hv]
    congr 1
    apply Finset.sum_congr rfl
    intro j hj
    rw [show (affAppendAtColumn jm jv a b c0).1.at' i j = a.1.at' i j from
      appendAtColumn_old jm a.1 b.1 c0 i j hi (Finset.mem_range.1 hj)]
  · intro i hi x
    rw [rowVal, rowVal, hcols]
    have hv : (affAppendAtColumn jm jv a b c0).2.at' (a.1.rows + i) = b.2.at' i := by
      simp only [affAppendAtColumn, affAppendAtColumn0, Vec.setBlock]
      rw [if_pos (by omega), ha, Nat.add_sub_cancel_left]
    rw [hv]
    congr 1
    have hterm : ∀ j ∈ Finset.range a.1.cols,
        (affAppendAtColumn jm jv a b c0).1.at' (a.1.rows + i) j * x j =
        if c0 ≤ j ∧ j < c0 + b.1.cols then b.1.at' i (j - c0) * x j else 0 := by
      intro j hj
      rw [show (affAppendAtColumn jm jv a b c0).1.at' (a.1.rows + i) j = _ from
        appendAtColumn_new jm a.1 b.1 c0 i j hi (Finset.mem_range.1 hj)]
      by_cases h : c0 ≤ j ∧ j < c0 + b.1.cols
      · rw [if_pos h, if_pos h]
      · rw [if_neg h, if_neg h, zero_mul]
    rw [Finset.sum_congr rfl hterm, ← Finset.sum_filter]
    symm
    apply Finset.sum_bij (fun j _ => c0 + j)
    · intro j hj
      have := Finset.mem_range.1 hj
      simp only [Finset.mem_filter, Finset.mem_range]
      omega
    · intro j _ k _ h; omega
    · intro j hj
      simp only [Finset.mem_filter, Finset.mem_range] at hj
      exact ⟨j - c0, Finset.mem_range.2 (by omega), by omega⟩
    · intro j _
      rw [Nat.add_sub_cancel_left]

theorem countRank_eq (ranks : Nat → Int) (rank : Int) (fuel i acc : Nat) :
    countRank ranks rank fuel i acc =
      acc + ((List.range' i fuel).filter (fun k => decide (ranks k = rank))).length := by
  induction fuel generalizing i acc with
  | zero => simp [countRank]
  | succ fuel ih =>
    rw [countRank, ih, List.range'_succ, List.filter_cons]
    by_cases h : ranks i = rank
    · simp [h]; omega
    · simp [h]

/-- The rows `copyRows` writes. -/
theorem copyRows_spec (ranks : Nat → Int) (rank : Int) (b : Mat) (bv : Vec) (old c0 : Nat) :
    ∀ (fuel i added : Nat) (a : Aff),
      let P := (List.range' i fuel).filter (fun k => decide (ranks k = rank))
      let r := copyRows ranks rank b bv old c0 fuel i added a
      r.1.rows = a.1.rows ∧ r.1.cols = a.1.cols ∧ r.2.size = a.2.size ∧
      (∀ q < old + added, (∀ j, r.1.at' q j = a.1.at' q j) ∧ r.2.at' q = a.2.at' q) ∧
      (∀ k (hk : k < P.length),
        (∀ j, r.1.at' (old + added + k) j =
          if c0 ≤ j ∧ j < c0 + b.cols then b.at' (P[k]) (j - c0) else a.1.at' (old + added + k) j) ∧
        r.2.at' (old + added + k) = bv.at' (P[k])) := by
  intro fuel
  induction fuel with
  | zero =>
    intro i added a
    exact ⟨rfl, rfl, rfl, fun q _ => ⟨fun j => rfl, rfl⟩, fun k hk => absurd hk (by simp)⟩
  | succ fuel ih =>
    intro i added a
    simp only [List.range'_succ, List.filter_cons, copyRows]
    by_cases h : ranks i = rank
    · simp only [h, if_true, decide_true]
      obtain ⟨i1, i2, i3, i4, i5⟩ := ih (i + 1) (added + 1)
        (a.1.setBlock (old + added) c0 1 b.cols (fun _ j => b.at' i j),
          a.2.setBlock (old + added) 1 (fun _ => bv.at' i))
      refine ⟨i1, i2, i3, ?_, ?_⟩
      · intro q hq
        obtain ⟨q1, q2⟩ := i4 q (by omega)
        refine ⟨fun j => ?_, ?_⟩
        · rw [q1]; simp only [Mat.setBlock]; rw [if_neg (by omega)]
        · rw [q2]; simp only [Vec.setBlock]; rw [if_neg (by omega)]
      · intro k hk
        cases k with
        | zero =>
          obtain ⟨q1, q2⟩ := i4 (old + added) (by omega)
          refine ⟨fun j => ?_, ?_⟩
          · simp only [Nat.add_zero, List.getElem_cons_zero]
            rw [q1]; simp only [Mat.setBlock]
            by_cases hj : c0 ≤ j ∧ j < c0 + b.cols
            · rw [if_pos (by omega), if_pos hj]
            · rw [if_neg (by omega), if_neg hj]
          · simp only [Nat.add_zero, List.getElem_cons_zero]
            rw [q2]; simp only [Vec.setBlock]; rw [if_pos (by omega)]
        | succ k =>
          obtain ⟨q1, q2⟩ := i5 k (by simpa using hk)
          rw [show old + added + (k + 1) = old + (added + 1) + k by omega]
          refine ⟨fun j => ?_, ?_⟩
          · rw [q1 j]
            simp only [List.getElem_cons_succ, Mat.setBlock]
            rw [if_neg (show ¬ (old + added ≤ old + (added + 1) + k ∧
              old + (added + 1) + k < old + added + 1 ∧ c0 ≤ j ∧ j < c0 + b.cols) by omega)]
          · rw [q2]; rfl
    · simp only [h, if_false, decide_false, Bool.false_eq_true]
      exact ih (i + 1) added a

/-- C94, `appendRowsOfRank`: exactly the rows whose rank is the requested one are appended, in order, at
the requested column, with zeros in the other columns; earlier rows are kept. -/
theorem C94_appendRowsOfRank (jm : Nat → Nat → ℝ) (jv : Nat → ℝ) (a b : Aff) (rank : Int)
    (ranks : Nat → Int) (c0 : Nat) (ha : a.2.size = a.1.rows) (hc : c0 + b.1.cols ≤ a.1.cols) :
    let P := (List.range b.1.rows).filter (fun k => decide (ranks k = rank))
    let r := appendRowsOfRank jm jv a rank b.1.rows ranks b.1 b.2 c0
    r.1.rows = a.1.rows + P.length ∧ r.2.size = a.1.rows + P.length ∧ r.1.cols = a.1.cols ∧
    (∀ i < a.1.rows, ∀ x, rowVal r i x = rowVal a i x) ∧
    (∀ k (hk : k < P.length), ∀ x, rowVal r (a.1.rows + k) x = rowVal b (P[k]) (fun j => x (c0 + j))) := by
  intro P r
  have hP : P = (List.range' 0 b.1.rows).filter (fun k => decide (ranks k = rank)) := by
    rw [← List.range_eq_range']
  have hcount : countRank ranks rank b.1.rows 0 0 = P.length := by
    rw [countRank_eq, ← hP, Nat.zero_add]
  by_cases h0 : P.length = 0
  · have hr : r = a := by
      simp only [r, appendRowsOfRank, hcount, h0, if_true]
    rw [hr]
    refine ⟨by omega, by omega, rfl, fun i _ x => rfl, fun k hk => by omega⟩
  · have hr : r = copyRows ranks rank b.1 b.2 a.1.rows c0 b.1.rows 0 0
        ((a.1.conservativeResize jm (a.1.rows + P.length) a.1.cols).setBlock a.1.rows 0 P.length
            a.1.cols (fun _ _ => 0),
          (a.2.conservativeResize jv (a.1.rows + P.length)).setBlock a.1.rows P.length (fun _ => 0)) := by
      simp only [r, appendRowsOfRank, hcount, h0, if_false]
    obtain ⟨i1, i2, i3, i4, i5⟩ := copyRows_spec ranks rank b.1 b.2 a.1.rows c0 b.1.rows 0 0
        ((a.1.conservativeResize jm (a.1.rows + P.length) a.1.cols).setBlock a.1.rows 0 P.length
            a.1.cols (fun _ _ => 0),
          (a.2.conservativeResize jv (a.1.rows + P.length)).setBlock a.1.rows P.length (fun _ => 0))
    rw [← hr] at i1 i2 i3 i4 i5
    have hcols : r.1.cols = a.1.cols := i2
    refine ⟨i1, i3, i2, ?_, ?_⟩
    · intro i hi x
      obtain ⟨q1, q2⟩ := i4 i (by omega)
      rw [rowVal, rowVal, hcols, q2]
      simp only [Vec.setBlock, Vec.conservativeResize]
      rw [if_neg (by omega), if_pos (by omega)]
      congr 1
      apply Finset.sum_congr rfl
      intro j hj
      have := Finset.mem_range.1 hj
      rw [q1]
      simp only [Mat.setBlock, Mat.conservativeResize]
      rw [if_neg (by omega), if_pos ⟨hi, this⟩]
    · intro k hk x
      obtain ⟨q1, q2⟩ := i5 k (by rw [← hP]; exact hk)
      rw [Nat.add_zero] at q1 q2
      rw [rowVal, rowVal, hcols, q2]
      have hPk : ((List.range' 0 b.1.rows).filter (fun k => decide (ranks k = rank)))[k]'(by
          rw [← hP]; exact hk) = P[k] := by simp only [hP]
      rw [hPk] at q1 ⊢
      congr 1
      have hterm : ∀ j ∈ Finset.range a.1.cols, r.1.at' (a.1.rows + k) j * x j =
          if c0 ≤ j ∧ j < c0 + b.1.cols then b.1.at' (P[k]) (j - c0) * x j else 0 := by
        intro j hj
        have := Finset.mem_range.1 hj
        rw [q1]
        by_cases h : c0 ≤ j ∧ j < c0 + b.1.cols
        · rw [if_pos h, if_pos h]
        · rw [if_neg h, if_neg h]
          simp only [Mat.setBlock]
          rw [if_pos (by omega), zero_mul]
      rw [Finset.sum_congr rfl hterm, ← Finset.sum_filter]
      symm
      apply Finset.sum_bij (fun j _ => c0 + j)
      · intro j hj
        have := Finset.mem_range.1 hj
        simp only [Finset.mem_filter, Finset.mem_range]
        omega
      · intro j _ k _ h; omega
      · intro j hj
        simp only [Finset.mem_filter, Finset.mem_range] at hj
        exact ⟨j - c0, Finset.mem_range.2 (by omega), by omega⟩
      · intro j _
        rw [Nat.add_sub_cancel_left]

/-- A two-row stack over three variables and a one-row block placed at column 1. -/
example : ∃ a b : Aff, a.2.size = a.1.rows ∧ b.2.size = b.1.rows ∧ 1 + b.1.cols ≤ a.1.cols ∧
    0 < a.1.rows ∧ 0 < b.1.rows :=
  ⟨(⟨2, 3, fun i j => i + j⟩, ⟨2, fun i => i⟩), (⟨1, 2, fun _ j => j⟩, ⟨1, fun _ => 5⟩),
    rfl, rfl, le_rfl, by norm_num, by norm_num⟩

end Rt
end Verif
