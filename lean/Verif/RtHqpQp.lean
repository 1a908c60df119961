/-
The meaning of the quadratic program set up by `rt_solver::RtHQPSolver::solveNextTask` (`Verif.RtHqp`).
-/
import Verif.RtHqpInv

namespace Verif
namespace RtHqp

open Rt

section
variable {E : Ext} {P : Params} {n : Nat} {s : State} {t : Task}

theorem qpDim_eq (t : Task) (hs : s.slacks = true) : qpDim t s = s.N.cols + t.ineq.1.rows := by
  unfold qpDim; rw [if_pos hs]

theorem build_dim (E : Ext) (P : Params) (t : Task) (hs : s.slacks = true) :
    (build E P t s).H.rows = s.N.cols + t.ineq.1.rows ∧
    (build E P t s).H.cols = s.N.cols + t.ineq.1.rows := by
  rw [← qpDim_eq t hs]
  simp only [build, buildH]
  by_cases h0 : t.eq.1.rows = 0 <;> by_cases h1 : t.ineq.1.rows = 0 <;>
    simp only [h0, h1, hs, ne_eq, not_true, not_false_eq_true, and_true, if_true, if_false] <;>
    exact ⟨rfl, rfl⟩

theorem build_H (E : Ext) (P : Params) (t : Task) (s : State) (hs : s.slacks = true)
    (hB : t.eq.1.rows ≠ 0 → s.B.rows = t.eq.1.rows) :
    (build E P t s).H.at' = fun i j =>
      (if s.N.cols ≤ i ∧ i < s.N.cols + t.ineq.1.rows ∧ s.N.cols ≤ j ∧ j < s.N.cols + t.ineq.1.rows then
        (if i - s.N.cols = j - s.N.cols then 1 else 0)
       else if i < s.N.cols ∧ j < s.N.cols then ∑ k ∈ Finset.range t.eq.1.rows, s.B.at' k i * s.B.at' k j else 0)
      + (if i = j then P.diag else 0) := by
  have hB' : t.eq.1.rows = 0 ∨ s.B.rows = t.eq.1.rows := by
    by_cases h : t.eq.1.rows = 0
    · exact Or.inl h
    · exact Or.inr (hB h)
  funext i j
  simp only [build, buildH, hs, and_true]
  generalize t.ineq.1.rows = dw
  generalize s.N.cols = dz
  have h1 : (if dw ≠ 0 then
      (if t.eq.1.rows ≠ 0 then (Mat.setZero (qpDim t s) (qpDim t s)).setBlock 0 0 dz dz fun i j =>
        (Mat.setZero (qpDim t s) (qpDim t s)).at' i j + ∑ k ∈ Finset.range s.B.rows, s.B.at' k i * s.B.at' k j
        else Mat.setZero (qpDim t s) (qpDim t s)).setBlock dz dz dw dw (fun i j => if i = j then 1 else 0)
      else (if t.eq.1.rows ≠ 0 then (Mat.setZero (qpDim t s) (qpDim t s)).setBlock 0 0 dz dz fun i j =>
        (Mat.setZero (qpDim t s) (qpDim t s)).at' i j + ∑ k ∈ Finset.range s.B.rows, s.B.at' k i * s.B.at' k j
        else Mat.setZero (qpDim t s) (qpDim t s))).at' i j =
      (if dz ≤ i ∧ i < dz + dw ∧ dz ≤ j ∧ j < dz + dw then (if i - dz = j - dz then 1 else 0)
       else if i < dz ∧ j < dz then ∑ k ∈ Finset.range t.eq.1.rows, s.B.at' k i * s.B.at' k j else 0) := by
    rcases hB' with h0 | h0
    · simp only [h0, ne_eq, not_true, if_false, Finset.range_zero, Finset.sum_empty, ite_self]
      split
      · rfl
      · rw [if_neg (by omega)]; rfl
    · rw [h0]
      by_cases h2 : t.eq.1.rows = 0
      · simp only [h2, ne_eq, not_true, if_false, Finset.range_zero, Finset.sum_empty, ite_self]
        split
        · rfl
        · rw [if_neg (by omega)]; rfl
      · rw [if_pos h2]
        simp only [Mat.setBlock, Mat.setZero, zero_add, Nat.sub_zero, Nat.zero_le, true_and]
        split
        · rfl
        · rw [if_neg (by omega)]
  by_cases hij : i = j
  · rw [if_pos hij, if_pos hij, h1]
  · rw [if_neg hij, if_neg hij, h1, add_zero]

theorem build_g (E : Ext) (P : Params) (t : Task) (s : State) (hB : t.eq.1.rows ≠ 0 → s.B.rows = t.eq.1.rows) :
    (build E P t s).g.at' = fun i => if i < s.N.cols then
      ∑ k ∈ Finset.range t.eq.1.rows, s.B.at' k i * (t.eq.2.at' k + mulV t.eq.1 s.x.at' k) else 0 := by
  funext i
  simp only [build, buildG]
  by_cases h0 : t.eq.1.rows = 0
  · simp [h0]
  · simp only [h0, ne_eq, not_false_eq_true, if_true, Vec.setBlock, Nat.zero_le, true_and, zero_add, Nat.sub_zero]
    rw [hB h0]

theorem slackMat_fits (t : Task) (hs : s.slacks = true) :
    0 + (slackMat t s).cols ≤ (Mat.setZero 0 (qpDim t s)).cols := by
  show 0 + (s.N.cols + t.ineq.1.rows) ≤ qpDim t s
  rw [qpDim_eq t hs]; omega

theorem build_rows (E : Ext) (P : Params) (t : Task) (hs : s.slacks = true) (ha : s.A.rows = s.a.size) :
    (build E P t s).CI.rows = s.A.rows := by
  simp only [build, buildIneq]
  by_cases hA : s.A.rows = 0
  · rw [if_neg (by simpa using hA), hA]; rfl
  · rw [if_pos hA, if_pos hs]
    have := (C94_appendAtColumn E.jm E.jv (Mat.setZero 0 (qpDim t s), ⟨0, fun _ => 0⟩) (slackMat t s, s.a) 0 rfl
      ha.symm (slackMat_fits t hs)).1
    exact this.trans (Nat.zero_add _)

/-- Row `i` of the QP: the stored inequality, plus the slack for the rows of the current task. -/
theorem build_row (hs : s.slacks = true) (hA : s.A.cols = s.N.cols) (ha : s.A.rows = s.a.size)
    (hw : t.ineq.1.rows ≤ s.A.rows) (i : Nat) (hi : i < s.A.rows) (y : Nat → ℝ) :
    (build E P t s).row i y = mulV s.A y i + s.a.at' i +
      (if s.A.rows - t.ineq.1.rows ≤ i then y (s.N.cols + (i - (s.A.rows - t.ineq.1.rows))) else 0) := by
  have k5 := (C94_appendAtColumn E.jm E.jv (Mat.setZero 0 (qpDim t s), ⟨0, fun _ => 0⟩) (slackMat t s, s.a) 0 rfl
    ha.symm (slackMat_fits t hs)).2.2.2.2 i hi y
  have hb : (build E P t s).row i y = rowVal (affAppendAtColumn E.jm E.jv (Mat.setZero 0 (qpDim t s), ⟨0, fun _ => 0⟩)
      (slackMat t s, s.a) 0) i y := by
    have : buildIneq E t s = affAppendAtColumn E.jm E.jv (Mat.setZero 0 (qpDim t s), ⟨0, fun _ => 0⟩) (slackMat t s, s.a) 0 := by
      simp only [buildIneq]
      rw [if_pos (by omega), if_pos hs]
    rw [← this]; rfl
  rw [hb]
  rw [show (Mat.setZero 0 (qpDim t s), (⟨0, fun _ => 0⟩ : Vec)).1.rows + i = i from Nat.zero_add i] at k5
  rw [k5]
  simp only [slackMat]
  simp only [rowVal, Mat.setBlock, Mat.setZero, Nat.zero_add]
  rw [Finset.sum_range_add]
  have e1 : ∑ j ∈ Finset.range s.N.cols, (if s.A.rows - t.ineq.1.rows ≤ i ∧ i < s.A.rows - t.ineq.1.rows + t.ineq.1.rows ∧
      s.N.cols + t.ineq.1.rows - t.ineq.1.rows ≤ j ∧ j < s.N.cols + t.ineq.1.rows - t.ineq.1.rows + t.ineq.1.rows then
        (if i - (s.A.rows - t.ineq.1.rows) = j - (s.N.cols + t.ineq.1.rows - t.ineq.1.rows) then (1 : ℝ) else 0)
      else if 0 ≤ i ∧ i < s.A.rows ∧ 0 ≤ j ∧ j < s.N.cols then s.A.at' (i - 0) (j - 0) else 0) * y j = mulV s.A y i := by
    simp only [mulV, hA]
    apply Finset.sum_congr rfl
    intro j hj
    have hj := Finset.mem_range.1 hj
    rw [if_neg (by omega), if_pos (by omega), Nat.sub_zero, Nat.sub_zero]
  have e2 : ∑ x ∈ Finset.range t.ineq.1.rows, (if s.A.rows - t.ineq.1.rows ≤ i ∧ i < s.A.rows - t.ineq.1.rows + t.ineq.1.rows ∧
      s.N.cols + t.ineq.1.rows - t.ineq.1.rows ≤ s.N.cols + x ∧
      s.N.cols + x < s.N.cols + t.ineq.1.rows - t.ineq.1.rows + t.ineq.1.rows then
        (if i - (s.A.rows - t.ineq.1.rows) = s.N.cols + x - (s.N.cols + t.ineq.1.rows - t.ineq.1.rows) then (1 : ℝ) else 0)
      else if 0 ≤ i ∧ i < s.A.rows ∧ 0 ≤ s.N.cols + x ∧ s.N.cols + x < s.N.cols then
        s.A.at' (i - 0) (s.N.cols + x - 0) else 0) * y (s.N.cols + x) =
      (if s.A.rows - t.ineq.1.rows ≤ i then y (s.N.cols + (i - (s.A.rows - t.ineq.1.rows))) else 0) := by
    by_cases hc : s.A.rows - t.ineq.1.rows ≤ i
    · rw [if_pos hc]
      rw [Finset.sum_eq_single (i - (s.A.rows - t.ineq.1.rows))]
      · rw [if_pos (by omega), if_pos (by omega), one_mul]
      · intro b hb hne
        have hb := Finset.mem_range.1 hb
        rw [if_pos (by omega), if_neg (by omega), zero_mul]
      · intro hn
        exact absurd (Finset.mem_range.2 (by omega)) hn
    · rw [if_neg hc]
      apply Finset.sum_eq_zero
      intro j hj
      have hj := Finset.mem_range.1 hj
      rw [if_neg (by omega), if_neg (by omega), zero_mul]
  rw [e1, e2]
  ring

theorem sum_mul_self (r c : Nat) (B : Nat → Nat → ℝ) (y : Nat → ℝ) :
    ∑ i ∈ Finset.range c, y i * ∑ j ∈ Finset.range c, (∑ k ∈ Finset.range r, B k i * B k j) * y j =
    ∑ k ∈ Finset.range r, (∑ j ∈ Finset.range c, B k j * y j) ^ 2 := by
  have : ∀ k, (∑ j ∈ Finset.range c, B k j * y j) ^ 2 =
      ∑ i ∈ Finset.range c, ∑ j ∈ Finset.range c, B k i * y i * (B k j * y j) := by
    intro k; rw [pow_two, Finset.sum_mul_sum]
  simp only [this, Finset.mul_sum, Finset.sum_mul]
  rw [Finset.sum_comm (s := Finset.range r)]
  apply Finset.sum_congr rfl
  intro i _
  rw [Finset.sum_comm (s := Finset.range r)]
  apply Finset.sum_congr rfl
  intro j _
  apply Finset.sum_congr rfl
  intro k _
  ring

/-- The objective of the QP in terms of `B_Nprev_`. -/
theorem build_obj (hs : s.slacks = true) (hB : t.eq.1.rows ≠ 0 → s.B.rows = t.eq.1.rows)
    (y : Nat → ℝ) :
    (build E P t s).objective y =
      ∑ k ∈ Finset.range t.eq.1.rows, ((∑ j ∈ Finset.range s.N.cols, s.B.at' k j * y j) ^ 2 +
        2 * ((∑ j ∈ Finset.range s.N.cols, s.B.at' k j * y j) * (t.eq.2.at' k + mulV t.eq.1 s.x.at' k))) +
      (1 + P.diag) * sq t.ineq.1.rows (fun i => y (s.N.cols + i)) + P.diag * sq s.N.cols y := by
  have hd := build_dim E P t hs
  have ho : (build E P t s).objective y = ∑ i ∈ Finset.range (build E P t s).H.rows, y i *
      ∑ k ∈ Finset.range (build E P t s).H.cols, (build E P t s).H.at' i k * y k +
      2 * ∑ i ∈ Finset.range (build E P t s).H.rows, (build E P t s).g.at' i * y i := rfl
  rw [ho, hd.1, hd.2, build_H E P t s hs hB, build_g E P t s hB]
  generalize hdz : s.N.cols = dz
  generalize hdw : t.ineq.1.rows = dw
  have g1 : ∑ i ∈ Finset.range (dz + dw), (if i < dz then
      ∑ k ∈ Finset.range t.eq.1.rows, s.B.at' k i * (t.eq.2.at' k + mulV t.eq.1 s.x.at' k) else 0) * y i =
      ∑ k ∈ Finset.range t.eq.1.rows, (∑ j ∈ Finset.range dz, s.B.at' k j * y j) *
        (t.eq.2.at' k + mulV t.eq.1 s.x.at' k) := by
    rw [Finset.sum_range_add]
    have z : ∑ x ∈ Finset.range dw, (if dz + x < dz then
      ∑ k ∈ Finset.range t.eq.1.rows, s.B.at' k (dz + x) * (t.eq.2.at' k + mulV t.eq.1 s.x.at' k) else 0) * y (dz + x) = 0 := by
      apply Finset.sum_eq_zero
      intro j _
      rw [if_neg (by omega), zero_mul]
    rw [z, add_zero]
    simp only [Finset.sum_mul]
    rw [Finset.sum_comm (s := Finset.range t.eq.1.rows)]
    apply Finset.sum_congr rfl
    intro i hi
    rw [if_pos (Finset.mem_range.1 hi), Finset.sum_mul]
    apply Finset.sum_congr rfl
    intro k _
    ring
  have g2 : ∑ i ∈ Finset.range (dz + dw), y i * ∑ k ∈ Finset.range (dz + dw),
      ((if dz ≤ i ∧ i < dz + dw ∧ dz ≤ k ∧ k < dz + dw then (if i - dz = k - dz then 1 else 0)
        else if i < dz ∧ k < dz then ∑ l ∈ Finset.range t.eq.1.rows, s.B.at' l i * s.B.at' l k else 0)
        + (if i = k then P.diag else 0)) * y k =
      ∑ k ∈ Finset.range t.eq.1.rows, (∑ j ∈ Finset.range dz, s.B.at' k j * y j) ^ 2 +
      sq dw (fun i => y (dz + i)) + P.diag * (sq dz y + sq dw (fun i => y (dz + i))) := by
    have d1 : ∀ i ∈ Finset.range (dz + dw), ∑ k ∈ Finset.range (dz + dw), (if i = k then P.diag else 0) * y k =
        P.diag * y i := by
      intro i hi
      simp only [ite_mul, zero_mul]
      rw [Finset.sum_ite_eq, if_pos hi]
    have d2 : ∀ i < dz, ∑ k ∈ Finset.range (dz + dw),
        (if dz ≤ i ∧ i < dz + dw ∧ dz ≤ k ∧ k < dz + dw then (if i - dz = k - dz then 1 else 0)
        else if i < dz ∧ k < dz then ∑ l ∈ Finset.range t.eq.1.rows, s.B.at' l i * s.B.at' l k else 0) * y k =
        ∑ k ∈ Finset.range dz, (∑ l ∈ Finset.range t.eq.1.rows, s.B.at' l i * s.B.at' l k) * y k := by
      intro i hi
      rw [Finset.sum_range_add]
      rw [Finset.sum_eq_zero (s := Finset.range dw), add_zero]
      · apply Finset.sum_congr rfl
        intro k hk
        have := Finset.mem_range.1 hk
        rw [if_neg (by omega), if_pos ⟨hi, this⟩]
      · intro k _
        rw [if_neg (by omega), if_neg (by omega), zero_mul]
    have d3 : ∀ i < dw, ∑ k ∈ Finset.range (dz + dw),
        (if dz ≤ dz + i ∧ dz + i < dz + dw ∧ dz ≤ k ∧ k < dz + dw then (if dz + i - dz = k - dz then 1 else 0)
        else if dz + i < dz ∧ k < dz then ∑ l ∈ Finset.range t.eq.1.rows, s.B.at' l (dz + i) * s.B.at' l k else 0) * y k =
        y (dz + i) := by
      intro i hi
      rw [Finset.sum_eq_single (dz + i)]
      · rw [if_pos (by omega), if_pos rfl, one_mul]
      · intro b hb hne
        have := Finset.mem_range.1 hb
        by_cases hb' : dz ≤ b
        · rw [if_pos (by omega), if_neg (by omega), zero_mul]
        · rw [if_neg (by omega), if_neg (by omega), zero_mul]
      · intro hn; exact absurd (Finset.mem_range.2 (by omega)) hn
    have d4 : ∀ i < dz, y i * ∑ k ∈ Finset.range (dz + dw),
        ((if dz ≤ i ∧ i < dz + dw ∧ dz ≤ k ∧ k < dz + dw then (if i - dz = k - dz then 1 else 0)
        else if i < dz ∧ k < dz then ∑ l ∈ Finset.range t.eq.1.rows, s.B.at' l i * s.B.at' l k else 0)
        + (if i = k then P.diag else 0)) * y k =
        y i * ∑ k ∈ Finset.range dz, (∑ l ∈ Finset.range t.eq.1.rows, s.B.at' l i * s.B.at' l k) * y k +
          P.diag * y i ^ 2 := by
      intro i hi
      simp only [add_mul, Finset.sum_add_distrib]
      rw [d2 i hi, d1 i (Finset.mem_range.2 (by omega))]
      ring
    have d5 : ∀ i < dw, y (dz + i) * ∑ k ∈ Finset.range (dz + dw),
        ((if dz ≤ dz + i ∧ dz + i < dz + dw ∧ dz ≤ k ∧ k < dz + dw then (if dz + i - dz = k - dz then 1 else 0)
        else if dz + i < dz ∧ k < dz then ∑ l ∈ Finset.range t.eq.1.rows, s.B.at' l (dz + i) * s.B.at' l k else 0)
        + (if dz + i = k then P.diag else 0)) * y k = y (dz + i) ^ 2 + P.diag * y (dz + i) ^ 2 := by
      intro i hi
      simp only [add_mul, Finset.sum_add_distrib]
      rw [d3 i hi, d1 (dz + i) (Finset.mem_range.2 (by omega))]
      ring
    rw [Finset.sum_range_add, Finset.sum_congr rfl (fun i hi => d4 i (Finset.mem_range.1 hi)),
      Finset.sum_congr (s₁ := Finset.range dw) rfl (fun i hi => d5 i (Finset.mem_range.1 hi)),
      Finset.sum_add_distrib, Finset.sum_add_distrib, sum_mul_self, ← Finset.mul_sum, ← Finset.mul_sum]
    simp only [sq]
    ring
  rw [g2, g1]
  simp only [Finset.sum_add_distrib, Finset.mul_sum]
  ring

/-- The objective of the QP of a task in terms of the tasks: moving by `N y` and with slacks `w`. -/
theorem Inv.obj (h : Inv E P n s) (y : Nat → ℝ) :
    (qpOf E P t s).objective y =
      t.eqCost (fun i => s.x.at' i + mulV (eff s) y i) - t.eqCost s.x.at' +
      (1 + P.diag) * sq t.ineq.1.rows (fun i => y ((eff s).cols + i)) +
      P.diag * sq n (mulV (eff s) y) := by
  have hB : t.eq.1.rows ≠ 0 → (prepare E P t s).B.rows = t.eq.1.rows := by
    intro h0; simp only [prepare]; rw [if_pos h0]; rfl
  unfold qpOf
  rw [build_obj (s := prepare E P t s) h.slack hB, prepare_N, ← h.eff_rows, h.eff_iso]
  congr 2
  unfold Task.eqCost sq
  rw [← Finset.sum_sub_distrib]
  apply Finset.sum_congr rfl
  intro k hk
  have hk := Finset.mem_range.1 hk
  have hBe : (prepare E P t s).B = mul t.eq.1 (eff s) := by
    simp only [prepare]; rw [if_pos (by omega)]; rfl
  have e1 : ∑ j ∈ Finset.range (eff s).cols, (prepare E P t s).B.at' k j * y j = mulV t.eq.1 (mulV (eff s) y) k := by
    rw [← mulV_mul, hBe]; rfl
  have e2 : rowVal t.eq k (fun i => s.x.at' i + mulV (eff s) y i) =
      mulV t.eq.1 s.x.at' k + mulV t.eq.1 (mulV (eff s) y) k + t.eq.2.at' k := by
    rw [← mulV_add]; rfl
  have e3 : rowVal t.eq k s.x.at' = mulV t.eq.1 s.x.at' k + t.eq.2.at' k := rfl
  beta_reduce
  rw [e1, e2, e3]
  show _ + 2 * (_ * (_ + mulV t.eq.1 s.x.at' k)) = _
  ring

end

end RtHqp
end Verif
