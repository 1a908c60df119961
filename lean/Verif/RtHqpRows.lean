/-
The stored inequalities of `rt_solver::RtHQPSolver` (`Verif.RtHqp`): which inequality of which task a row of
`Ahat_`, `ahat_` stands for, and how far it is relaxed.
-/
import Verif.RtHqpQp

namespace Verif
namespace RtHqp

open Rt

section
variable {E : Ext} {P : Params} {n : Nat} {s : State} {t : Task}

/-- The value of a stored row at the current solution, before clamping. -/
noncomputable def stored (s : State) (p : Nat) : ℝ := s.a.at' p + mulV s.A s.z.at' p

/-- What the next task adds to row `p` for the slacks. -/
noncomputable def wadd (s : State) (p : Nat) : ℝ :=
  if s.a.size - s.w.size ≤ p then s.w.at' (p - (s.a.size - s.w.size)) else 0

theorem prepare_a_old {p : Nat} (hp : p < s.a.size) :
    (prepare E P t s).a.at' p = min (stored s p) (-P.relax) + wadd s p := by
  have h1 : (updA1 P s).at' p = min (stored s p) (-P.relax) + wadd s p := by
    unfold updA1
    rw [if_pos (by omega)]
    have hm : (if s.a.at' p + mulV s.A s.z.at' p ≥ -P.relax then -P.relax else s.a.at' p + mulV s.A s.z.at' p) =
        min (stored s p) (-P.relax) := by
      unfold stored
      split
      · rename_i h; rw [min_eq_right h]
      · rename_i h; rw [min_eq_left (by push Not at h; exact h.le)]
    by_cases hw : s.w.size = 0
    · simp only [hw, ne_eq, not_true, if_false]
      rw [hm]
      unfold wadd
      rw [if_neg (by omega), add_zero]
    · simp only [hw, ne_eq, not_false_eq_true, if_true]
      rw [hm]
      unfold wadd
      by_cases hc : s.a.size - s.w.size ≤ p
      · rw [if_pos ⟨hc, hp⟩, if_pos hc]
      · rw [if_neg (by omega), if_neg hc, add_zero]
  rw [← h1]
  simp only [prepare]
  split
  · simp only [Vec.append, Vec.setBlock, Vec.conservativeResize, Inv.a1_size]
    rw [if_neg (by omega), if_pos hp]
  · rfl

theorem prepare_a_new {k : Nat} (hk : k < t.ineq.1.rows) :
    (prepare E P t s).a.at' (s.a.size + k) = rowVal t.ineq k s.x.at' := by
  simp only [prepare]
  rw [if_pos (by omega)]
  simp only [Vec.append, Vec.setBlock, Vec.conservativeResize, Inv.a1_size]
  rw [if_pos (by omega), Nat.add_sub_cancel_left]
  rfl

theorem Inv.prepare_A_old (h : Inv E P n s) {p : Nat} (hp : p < s.a.size) (y : Nat → ℝ) :
    mulV (prepare E P t s).A y p = mulV (mulIfFits s.A s.K) y p := by
  have hc := h.prepare_A_cols t
  have hc1 := h.A1_cols
  unfold mulV
  rw [hc, hc1]
  apply Finset.sum_congr rfl
  intro j hj
  have hj := Finset.mem_range.1 hj
  congr 1
  simp only [prepare]
  split
  · unfold Mat.append
    have : (mulIfFits s.A s.K).rows ≠ 0 := by rw [A1_rows, h.arow]; omega
    rw [if_neg this]
    simp only [Mat.setBlock, Mat.conservativeResize]
    rw [if_neg (by rw [A1_rows, h.arow]; omega), if_pos]
    rw [A1_rows, h.arow, hc1]; exact ⟨hp, hj⟩
  · rfl

theorem Inv.prepare_A_new (h : Inv E P n s) {k : Nat} (hk : k < t.ineq.1.rows) (y : Nat → ℝ) :
    mulV (prepare E P t s).A y (s.a.size + k) = mulV t.ineq.1 (mulV (eff s) y) k := by
  have hc := h.prepare_A_cols t
  rw [← mulV_mul]
  unfold mulV
  rw [hc]
  show _ = ∑ j ∈ Finset.range (eff s).cols, (mul t.ineq.1 (eff s)).at' k j * y j
  apply Finset.sum_congr rfl
  intro j hj
  have hj := Finset.mem_range.1 hj
  congr 1
  simp only [prepare]
  rw [if_pos (by omega)]
  unfold Mat.append
  have hr : (mulIfFits s.A s.K).rows = s.a.size := by rw [A1_rows, h.arow]
  by_cases h0 : s.a.size = 0
  · rw [if_pos (by omega), h0, Nat.zero_add]; rfl
  · rw [if_neg (by omega)]
    simp only [Mat.setBlock, hr]
    rw [if_pos, Nat.add_sub_cancel_left, Nat.sub_zero]
    · rfl
    · refine ⟨by omega, ?_, Nat.zero_le _, ?_⟩
      · show s.a.size + k < s.a.size + t.ineq.1.rows; omega
      · show j < 0 + (mul t.ineq.1 _).cols; rw [Nat.zero_add]; exact hj

/-- Row `p` stands for inequality `k` of task `u`. -/
def Stands (s : State) (p : Nat) (u : Task) (k : Nat) : Prop :=
  ∀ y, mulV s.A y p = mulV u.ineq.1 (mulV s.N y) k

theorem Inv.stands_old (h : Inv E P n s) {p : Nat} (hp : p < s.a.size) {u : Task} {k : Nat} (hs : Stands s p u k)
    (y : Nat → ℝ) : mulV (prepare E P t s).A y p = mulV u.ineq.1 (mulV (eff s) y) k := by
  rw [h.prepare_A_old hp]
  unfold eff mulIfFits
  rw [h.acol]
  split
  · rw [mulV_mul, hs]
    exact mulV_congr _ (fun i _ => (mulV_mul _ _ _ _).symm) k
  · exact hs y

theorem rowVal_move (u : Aff) (k : Nat) (x d : Nat → ℝ) :
    rowVal u k (fun i => x i + d i) = rowVal u k x + mulV u.1 d k := by
  have : rowVal u k (fun i => x i + d i) = mulV u.1 (fun i => x i + d i) k + u.2.at' k := rfl
  rw [this, mulV_add]
  have : rowVal u k x = mulV u.1 x k + u.2.at' k := rfl
  rw [this]; ring

/-- Row `p` of the QP of the next task, for a row stored before. -/
theorem Inv.qp_row_old (h : Inv E P n s) {p : Nat} (hp : p < s.a.size) (y : Nat → ℝ) :
    (qpOf E P t s).row p y = mulV (prepare E P t s).A y p + min (stored s p) (-P.relax) + wadd s p := by
  have hr := h.prepare_A_rows t
  unfold qpOf
  rw [build_row (s := prepare E P t s) h.slack ((h.prepare_A_cols t).trans rfl)
    (hr.trans (prepare_a_size t).symm) (by omega) p (by omega), prepare_a_old hp, if_neg (by omega)]
  ring

/-- Row `p` of the QP of the next task, for a row of that task. -/
theorem Inv.qp_row_new (h : Inv E P n s) {k : Nat} (hk : k < t.ineq.1.rows) (y : Nat → ℝ) :
    (qpOf E P t s).row (s.a.size + k) y =
      rowVal t.ineq k (fun i => s.x.at' i + mulV (eff s) y i) + y ((eff s).cols + k) := by
  have hr := h.prepare_A_rows t
  unfold qpOf
  rw [build_row (s := prepare E P t s) h.slack ((h.prepare_A_cols t).trans rfl)
    (hr.trans (prepare_a_size t).symm) (by omega) _ (by omega), prepare_a_new hk, if_pos (by omega), prepare_N,
    h.prepare_A_new hk, rowVal_move, hr]
  rw [show s.a.size + k - (s.a.size + t.ineq.1.rows - t.ineq.1.rows) = k by omega]
  ring

theorem Inv.qp_rows (h : Inv E P n s) : (qpOf E P t s).CI.rows = s.a.size + t.ineq.1.rows := by
  have hr := h.prepare_A_rows t
  unfold qpOf
  rw [build_rows E P t (s := prepare E P t s) h.slack (hr.trans (prepare_a_size t).symm), hr]

/-- `y` with the slacks `w`. -/
noncomputable def join (dz : Nat) (y w : Nat → ℝ) (i : Nat) : ℝ := if i < dz then y i else w (i - dz)

theorem join_z (dz : Nat) (y w : Nat → ℝ) (m : Mat) (hm : m.cols = dz) (i : Nat) :
    mulV m (join dz y w) i = mulV m y i :=
  mulV_congr m (fun k hk => by unfold join; rw [if_pos (by omega)]) i

theorem join_w (dz : Nat) (y w : Nat → ℝ) (k : Nat) : join dz y w (dz + k) = w k := by
  unfold join; rw [if_neg (by omega), Nat.add_sub_cancel_left]

/-- The slacks of an optimal solution are between minus the violation and zero. -/
theorem Inv.slack_range {τ : ℝ} (h : Inv E P n s) (hd : 0 ≤ P.diag) {y : Nat → ℝ}
    (ok : QpOk τ (qpOf E P t s) y) (k : Nat) (hk : k < t.ineq.1.rows) :
    y ((eff s).cols + k) ≤ 0 ∧
    -max 0 (rowVal t.ineq k (fun i => s.x.at' i + mulV (eff s) y i)) ≤ y ((eff s).cols + k) := by
  let ρ : Nat → ℝ := fun i => rowVal t.ineq i (fun i => s.x.at' i + mulV (eff s) y i)
  let w : Nat → ℝ := fun i => y ((eff s).cols + i)
  let w' : Nat → ℝ := fun i => max (min (w i) 0) (-max 0 (ρ i))
  have hz : ∀ i, mulV (eff s) (join (eff s).cols y w') i = mulV (eff s) y i :=
    fun i => join_z _ y w' (eff s) rfl i
  have hopt := ok.opt (join (eff s).cols y w') (by
    intro p hp
    rw [h.qp_rows] at hp
    by_cases hlt : p < s.a.size
    · rw [h.qp_row_old hlt, h.qp_row_old hlt, join_z _ _ _ _ (h.prepare_A_cols t)]
      exact le_max_right _ _
    · obtain ⟨q, rfl⟩ : ∃ q, p = s.a.size + q := ⟨p - s.a.size, by omega⟩
      have hq : q < t.ineq.1.rows := by omega
      rw [h.qp_row_new hq, h.qp_row_new hq, join_w]
      simp only [hz]
      change ρ q + w' q ≤ max 0 (ρ q + w q)
      show ρ q + max (min (w q) 0) (-max 0 (ρ q)) ≤ _
      rcases max_cases (min (w q) 0) (-max 0 (ρ q)) with ⟨e, -⟩ | ⟨e, -⟩
      · rw [e]
        exact le_max_of_le_right (by have := min_le_left (w q) 0; linarith)
      · rw [e]
        exact le_max_of_le_left (by have := le_max_right 0 (ρ q); linarith))
  have hzf : mulV (eff s) (join (eff s).cols y w') = mulV (eff s) y := funext hz
  have hj : (fun i => join (eff s).cols y w' ((eff s).cols + i)) = w' := funext (join_w (eff s).cols y w')
  rw [h.obj, h.obj, hzf, hj] at hopt
  have h1 : sq t.ineq.1.rows w ≤ sq t.ineq.1.rows w' := by
    have : (1 + P.diag) * sq t.ineq.1.rows w ≤ (1 + P.diag) * sq t.ineq.1.rows w' := by
      simp only [w] at hopt ⊢; linarith
    exact le_of_mul_le_mul_left this (by linarith)
  have h2 : ∀ i ∈ Finset.range t.ineq.1.rows, w' i ^ 2 ≤ w i ^ 2 := by
    intro i _
    have hm := le_max_left 0 (ρ i)
    by_cases hw : w i ≤ 0
    · have e : w' i = max (w i) (-max 0 (ρ i)) := by show max (min (w i) 0) _ = _; rw [min_eq_left hw]
      have h3 : w i ≤ w' i := by rw [e]; exact le_max_left _ _
      have h4 : w' i ≤ 0 := by rw [e]; exact max_le hw (by linarith)
      nlinarith
    · push Not at hw
      have e : w' i = 0 := by
        show max (min (w i) 0) _ = _
        rw [min_eq_right hw.le]; exact max_eq_left (by linarith)
      rw [e]; nlinarith
  have h3 : ∀ i ∈ Finset.range t.ineq.1.rows, w' i ^ 2 = w i ^ 2 :=
    (Finset.sum_eq_sum_iff_of_le h2).1 (le_antisymm (Finset.sum_le_sum h2) h1)
  have h4 := h3 k (Finset.mem_range.2 hk)
  change w k ≤ 0 ∧ -max 0 (ρ k) ≤ w k
  have hm := le_max_left 0 (ρ k)
  by_cases hw : w k ≤ 0
  · refine ⟨hw, ?_⟩
    have e : w' k = max (w k) (-max 0 (ρ k)) := by show max (min (w k) 0) _ = _; rw [min_eq_left hw]
    by_contra hc
    push Not at hc
    rw [e, max_eq_right hc.le] at h4
    nlinarith
  · exfalso
    push Not at hw
    have e : w' k = 0 := by
      show max (min (w k) 0) _ = _
      rw [min_eq_right hw.le]; exact max_eq_left (by linarith)
    rw [e] at h4
    nlinarith

/-- Every stored row stands for an inequality of a task so far and is at most as strict as it. -/
def Rows (done : List Task) (s : State) : Prop :=
  ∀ p < s.a.size, ∃ u ∈ done, ∃ k < u.ineq.1.rows, Stands s p u k ∧
    stored s p ≤ rowVal u.ineq k s.x.at' ∧ wadd s p ≤ 0

theorem Rows.start (E : Ext) (n : Nat) (s0 : State) : Rows [] (start E n s0) := by
  intro p hp
  exact absurd hp (Nat.not_lt_zero p)

theorem skips_cases (h : skips t s = true) : t.ineq.1.rows = 0 := by
  unfold skips at h
  simp only [Bool.or_eq_true, Bool.and_eq_true, decide_eq_true_eq] at h
  rcases h with h | h <;> exact h.2

/-- How an old row evolves in a task that is not skipped. -/
theorem Inv.row_old (h : Inv E P n s) (hk : skips t s = false) {p : Nat} (hp : p < s.a.size) {u : Task}
    {k : Nat} (hst : Stands s p u k) :
    Stands (solveNextTask E P t s).1 p u k ∧
    stored (solveNextTask E P t s).1 p - rowVal u.ineq k (solveNextTask E P t s).1.x.at' =
      min (stored s p) (-P.relax) + wadd s p - rowVal u.ineq k s.x.at' ∧
    (wadd (solveNextTask E P t s).1 p = wadd s p ∨ wadd (solveNextTask E P t s).1 p = 0) := by
  obtain ⟨e1, e2, e3, e4, e5, e6, -, -, -⟩ := step_fields (E := E) (P := P) h.slack hk
  refine ⟨?_, ?_, ?_⟩
  · intro y
    rw [e3, e1]
    exact h.stands_old hp hst y
  · rw [show stored (solveNextTask E P t s).1 p = (solveNextTask E P t s).1.a.at' p +
      mulV (solveNextTask E P t s).1.A (solveNextTask E P t s).1.z.at' p from rfl]
    rw [e3, e4, e5, e2, prepare_a_old hp]
    show _ + mulV (prepare E P t s).A (zOf E P t s) p - rowVal u.ineq k (fun i => s.x.at' i + mulV (eff s) (zOf E P t s) i) = _
    rw [h.stands_old hp hst, rowVal_move]
    show min (stored s p) (-P.relax) + wadd s p + _ - _ = _
    ring
  · by_cases h0 : t.ineq.1.rows = 0
    · left
      rw [if_neg (by simpa using h0)] at e6
      unfold wadd
      rw [e4, e6, prepare_a_size, h0, Nat.add_zero]
    · right
      rw [if_pos h0] at e6
      unfold wadd
      rw [e4, e6, prepare_a_size]
      rw [if_neg (by show ¬ (s.a.size + t.ineq.1.rows - t.ineq.1.rows ≤ p); omega)]

/-- The rows of a new task. -/
theorem Inv.row_new {τ : ℝ} (h : Inv E P n s) (hd : 0 ≤ P.diag) (ok : StepOk E P τ t s)
    {k : Nat} (hkt : k < t.ineq.1.rows) :
    s.a.size + k < (solveNextTask E P t s).1.a.size ∧
    Stands (solveNextTask E P t s).1 (s.a.size + k) t k ∧
    stored (solveNextTask E P t s).1 (s.a.size + k) = rowVal t.ineq k (solveNextTask E P t s).1.x.at' ∧
    wadd (solveNextTask E P t s).1 (s.a.size + k) ≤ 0 ∧
    -max 0 (rowVal t.ineq k (solveNextTask E P t s).1.x.at') ≤ wadd (solveNextTask E P t s).1 (s.a.size + k) := by
  have hk : skips t s = false := by
    by_contra hc
    have := skips_cases (by simpa using hc); omega
  obtain ⟨e1, e2, e3, e4, e5, e6, -, -, -⟩ := step_fields (E := E) (P := P) h.slack hk
  have hw : wadd (solveNextTask E P t s).1 (s.a.size + k) = wOf E P t s k := by
    rw [if_pos (by omega)] at e6
    unfold wadd
    rw [e4, e6, prepare_a_size]
    rw [if_pos (by show s.a.size + t.ineq.1.rows - t.ineq.1.rows ≤ s.a.size + k; omega)]
    show wOf E P t s (s.a.size + k - (s.a.size + t.ineq.1.rows - t.ineq.1.rows)) = _
    congr 1; omega
  refine ⟨by rw [e4, prepare_a_size]; omega, ?_, ?_, ?_⟩
  · intro y
    rw [e3, e1]
    exact h.prepare_A_new hkt y
  · unfold stored
    rw [e3, e4, e5, e2, prepare_a_new hkt]
    show _ + mulV (prepare E P t s).A (zOf E P t s) _ = rowVal t.ineq k (fun i => s.x.at' i + mulV (eff s) (zOf E P t s) i)
    rw [h.prepare_A_new hkt, rowVal_move]
  · rw [hw, e2]
    show _ ∧ -max 0 (rowVal t.ineq k (fun i => s.x.at' i + mulV (eff s) (zOf E P t s) i)) ≤ _
    unfold wOf zOf
    cases ho : outcome E P t s with
    | none => exact ⟨le_rfl, by simp⟩
    | some y => exact h.slack_range hd ((ok hk).2 y ho) k hkt

theorem Rows.step {τ : ℝ} {done : List Task} (hr : Rows done s) (h : Inv E P n s)
    (hd : 0 ≤ P.diag) (ok : StepOk E P τ t s) : Rows (done ++ [t]) (solveNextTask E P t s).1 := by
  intro p hp
  by_cases hk : skips t s = true
  · rw [step_skip hk] at hp ⊢
    obtain ⟨u, hu, k, hku, r⟩ := hr p hp
    exact ⟨u, List.mem_append_left _ hu, k, hku, r⟩
  · replace hk : skips t s = false := by simpa using hk
    by_cases hlt : p < s.a.size
    · obtain ⟨u, hu, k, hku, r1, r2, r3⟩ := hr p hlt
      obtain ⟨a1, a2, a3⟩ := h.row_old hk hlt r1
      refine ⟨u, List.mem_append_left _ hu, k, hku, a1, ?_, ?_⟩
      · have := min_le_left (stored s p) (-P.relax)
        linarith
      · rcases a3 with a3 | a3 <;> rw [a3]
        exact r3
    · obtain ⟨q, rfl⟩ : ∃ q, p = s.a.size + q := ⟨p - s.a.size, by omega⟩
      have e4 := (step_fields (E := E) (P := P) h.slack hk).2.2.2.1
      have hq : q < t.ineq.1.rows := by
        rw [e4, prepare_a_size] at hp; omega
      obtain ⟨-, b1, b2, b3, -⟩ := h.row_new hd ok hq
      exact ⟨t, List.mem_append_right _ (List.mem_singleton.2 rfl), q, hq, b1, b2.le, b3⟩

theorem Rows.run {τ : ℝ} {done ts : List Task} (hr : Rows done s) (h : Inv E P n s)
    (hd : 0 ≤ P.diag) (ok : RunOk E P τ s ts) :
    Rows (done ++ ts) (solveAll E P s ts) := by
  induction ts generalizing s done with
  | nil => rw [List.append_nil]; exact hr
  | cons t ts ih =>
    have := ih (hr.step h hd ok.1) (h.step ok.1) ok.2
    rw [List.append_assoc] at this
    exact this

/-- After a task every row stored before is met up to `τ` as stored. -/
theorem Inv.stored_le {τ : ℝ} (h : Inv E P n s) (hk : skips t s = false) (hτ : 0 ≤ τ) (hx : 0 ≤ P.relax)
    (ok : StepOk E P τ t s) {p : Nat} (hp : p < s.a.size) (hw : wadd s p ≤ 0) :
    stored (solveNextTask E P t s).1 p ≤ τ := by
  obtain ⟨-, -, e3, e4, e5, -, -, -, -⟩ := step_fields (E := E) (P := P) h.slack hk
  unfold stored
  rw [e3, e4, e5]
  show (prepare E P t s).a.at' p + mulV (prepare E P t s).A (zOf E P t s) p ≤ τ
  unfold zOf
  cases ho : outcome E P t s with
  | none =>
    show _ + mulV _ (fun _ => 0) p ≤ τ
    rw [mulV_zero, prepare_a_old hp]
    have := min_le_right (stored s p) (-P.relax)
    linarith
  | some y =>
    have := ((ok hk).2 y ho).feas p (by rw [h.qp_rows]; omega)
    rw [h.qp_row_old hp] at this
    show _ + mulV _ y p ≤ τ
    rw [prepare_a_old hp]
    linarith

end

end RtHqp
end Verif
