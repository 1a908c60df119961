/-
Properties C100-C105 of the hierarchical solver `rt_solver::RtHQPSolver`
(/repo/solver/include/solver/rt_optimizer/RtHQPSolver.h), stated for every sequence of tasks.
-/
import Verif.RtHqpRows

namespace Verif
namespace RtHqp

open Rt

section
variable {E : Ext} {P : Params} {n : Nat}

/-! ### C100: lower priorities keep the equalities of higher priorities -/

theorem Inv.eff_null {s : State} (h : Inv E P n s) (hK : s.K.cols = 0) (y : Nat → ℝ) (i : Nat) :
    mulV (eff s) y i = 0 := by
  unfold mulV
  rw [h.eff_cols, hK]
  rfl

/-- After a task with equalities, moving along the remaining directions hardly changes them. -/
theorem Inv.eff_after {τ : ℝ} {s : State} {t : Task} (h : Inv E P n s) (ok : StepOk E P τ t s)
    (hthr : 0 < P.thr) {L : ℝ} (hL : 0 ≤ L) (hl : ∀ v, sq t.eq.1.rows (mulV t.eq.1 v) ≤ L ^ 2 * sq n v)
    (y : Nat → ℝ) :
    sq t.eq.1.rows (mulV t.eq.1 (mulV (eff (solveNextTask E P t s).1) y)) ≤
      (L / P.thr) ^ 2 * sq n (mulV (eff (solveNextTask E P t s).1) y) := by
  have hnn : 0 ≤ (L / P.thr) ^ 2 * sq n (mulV (eff (solveNextTask E P t s).1) y) :=
    mul_nonneg (sq_nonneg _) (sq_nonneg' _ _)
  by_cases h0 : t.eq.1.rows = 0
  · rw [h0]
    simpa [sq] using hnn
  by_cases hk : skips t s = true
  · have hK : s.K.cols = 0 := by
      unfold skips at hk
      simp only [Bool.or_eq_true, Bool.and_eq_true, decide_eq_true_eq] at hk
      rcases hk with hk | hk
      · exact absurd hk.1 h0
      · exact hk.1
    rw [step_skip hk] at hnn ⊢
    refine le_trans (le_of_eq ?_) hnn
    rw [← sq_zero t.eq.1.rows]
    apply sq_congr
    intro k _
    rw [mulV_congr t.eq.1 (v := fun _ => 0) (fun i _ => h.eff_null hK y i), mulV_zero]
  · replace hk : skips t s = false := by simpa using hk
    obtain ⟨e1, -, -, -, -, -, -, e8, e9⟩ := step_fields (E := E) (P := P) h.slack hk
    have hB : (prepare E P t s).B = mul t.eq.1 (eff s) := by
      simp only [prepare]; rw [if_pos h0]; rfl
    have hBr : (prepare E P t s).B.rows ≠ 0 := by rw [hB]; exact h0
    have hok := (ok hk).1 hBr
    rw [if_pos hBr, hB] at e9
    rw [hB] at hok
    have hE : eff (solveNextTask E P t s).1 =
        mul (eff s) (nullspaceMap P.thr (mul t.eq.1 (eff s)) (E.svd (mul t.eq.1 (eff s)))) := by
      conv_lhs => unfold eff
      rw [e1, e9]
      unfold mulIfFits
      rw [if_pos (show (eff s).cols = (nullspaceMap P.thr (mul t.eq.1 (eff s)) _).rows from rfl)]
    have hiso : Iso (eff (solveNextTask E P t s).1) := (h.step ok).eff_iso
    have hrows : (eff (solveNextTask E P t s).1).rows = n := (h.step ok).eff_rows
    have hlip := null_lip hok hthr hL (by
      intro v
      have e : sq (mul t.eq.1 (eff s)).rows (mulV (mul t.eq.1 (eff s)) v) =
          sq t.eq.1.rows (mulV t.eq.1 (mulV (eff s) v)) := sq_congr fun i _ => mulV_mul _ _ _ _
      rw [e]
      refine (hl _).trans (le_of_eq ?_)
      congr 1
      conv_lhs => rw [← h.eff_rows]
      exact h.eff_iso v) y
    rw [← hrows, hiso y]
    have ec : (eff (solveNextTask E P t s).1).cols =
        (nullspaceMap P.thr (mul t.eq.1 (eff s)) (E.svd (mul t.eq.1 (eff s)))).cols := by rw [hE]; rfl
    rw [ec]
    refine le_trans (le_of_eq ?_) hlip
    apply sq_congr
    intro k _
    rw [mulV_mul]
    apply mulV_congr
    intro i _
    rw [hE, mulV_mul]

/-- C100: whatever tasks follow, the equality residuals reached by a task change afterwards by at most
`L / threshold` times the distance moved, `L` being the norm of the equality matrix. -/
theorem C100_equalities_kept (E : Ext) (P : Params) (n : Nat) (s0 : State) (τ : ℝ) (pre post : List Task)
    (t : Task) (hthr : 0 < P.thr)
    (ok : RunOk E P τ (start E n s0) (pre ++ t :: post)) (L : ℝ) (hL : 0 ≤ L)
    (hl : ∀ v, sq t.eq.1.rows (mulV t.eq.1 v) ≤ L ^ 2 * sq n v) :
    sq t.eq.1.rows (fun k => rowVal t.eq k (sol E P n s0 (pre ++ t :: post)) -
        rowVal t.eq k (sol E P n s0 (pre ++ [t]))) ≤
      (L / P.thr) ^ 2 * dist2 n (sol E P n s0 (pre ++ t :: post)) (sol E P n s0 (pre ++ [t])) := by
  obtain ⟨ok1, ok2⟩ := ok.append
  obtain ⟨ok2, ok3⟩ := ok2
  have hi := (Inv.start E P n s0).run ok1
  obtain ⟨y, hy⟩ := (hi.step ok2).x_run ok3
  have key := hi.eff_after ok2 hthr hL hl y
  have e1 : sol E P n s0 (pre ++ [t]) = (solveNextTask E P t (solveAll E P (start E n s0) pre)).1.x.at' := by
    unfold sol; rw [solveAll_append]; rfl
  have e2 : sol E P n s0 (pre ++ t :: post) = fun i =>
      (solveNextTask E P t (solveAll E P (start E n s0) pre)).1.x.at' i +
        mulV (eff (solveNextTask E P t (solveAll E P (start E n s0) pre)).1) y i := by
    unfold sol; rw [solveAll_append, solveAll_cons]; exact funext hy
  rw [e1, e2]
  refine le_trans (le_of_eq ?_) (key.trans (le_of_eq ?_))
  · apply sq_congr
    intro k _
    rw [rowVal_move]; ring
  · unfold dist2
    congr 1
    apply sq_congr
    intro i _
    ring

/-! ### C101: each task is solved optimally among what the higher priorities allow -/

/-- C101: if the call for task `t` reports success, the solution minimises the (regularised) cost of the task
among all points that leave the equalities of the earlier tasks where they are and meet their inequalities. -/
theorem C101_lexicographic (E : Ext) (P : Params) (n : Nat) (s0 : State) (τ : ℝ) (pre : List Task) (t : Task)
    (ht : t.Sized n) (hpre : ∀ u ∈ pre, u.Sized n) (hd : 0 ≤ P.diag)
    (ok : RunOk E P τ (start E n s0) (pre ++ [t]))
    (hret : (solveNextTask E P t (solveAll E P (start E n s0) pre)).2 = true)
    (y : Nat → ℝ)
    (hyeq : ∀ u ∈ pre, ∀ k < u.eq.1.rows, rowVal u.eq k y = rowVal u.eq k (sol E P n s0 pre))
    (hyin : ∀ u ∈ pre, ∀ k < u.ineq.1.rows, rowVal u.ineq k y ≤ 0) :
    t.eqCost (sol E P n s0 (pre ++ [t])) + (1 + P.diag) * t.ineqCost τ (sol E P n s0 (pre ++ [t])) +
        P.diag * dist2 n (sol E P n s0 (pre ++ [t])) (sol E P n s0 pre) ≤
      t.eqCost y + (1 + P.diag) * t.ineqCost 0 y + P.diag * dist2 n y (sol E P n s0 pre) := by
  obtain ⟨ok1, ok2, -⟩ := ok.append
  have hi := (Inv.start E P n s0).run ok1
  have hc := (Complete.start E n s0).run (Inv.start E P n s0) hpre ok1
  have hrw := (Rows.start E n s0).run (Inv.start E P n s0) hd ok1
  rw [List.nil_append] at hc hrw
  have e1 : sol E P n s0 (pre ++ [t]) = (solveNextTask E P t (solveAll E P (start E n s0) pre)).1.x.at' := by
    unfold sol; rw [solveAll_append]; rfl
  have e0 : sol E P n s0 pre = (solveAll E P (start E n s0) pre).x.at' := rfl
  rw [e1]
  rw [e0] at hyeq ⊢
  generalize solveAll E P (start E n s0) pre = s at *
  -- the direction from the previous solution
  obtain ⟨v, hv⟩ := hc (fun i => y i - s.x.at' i) (by
    intro u hu k hk
    rw [mulV_sub]
    have := hyeq u hu k hk
    have e : ∀ z, rowVal u.eq k z = mulV u.eq.1 z k + u.eq.2.at' k := fun _ => rfl
    rw [e, e] at this
    linarith)
  have hy : ∀ i < n, s.x.at' i + mulV (eff s) v i = y i := fun i hi' => by rw [hv i hi']; ring
  have hrow : ∀ (u : Aff) (k : Nat), u.1.cols = n →
      rowVal u k (fun i => s.x.at' i + mulV (eff s) v i) = rowVal u k y := by
    intro u k hu
    have e : ∀ z, rowVal u k z = mulV u.1 z k + u.2.at' k := fun _ => rfl
    rw [e, e, mulV_congr u.1 (fun i hi' => hy i (by omega))]
  have hcost : t.eqCost (fun i => s.x.at' i + mulV (eff s) v i) = t.eqCost y :=
    sq_congr fun k _ => hrow t.eq k ht.ec
  have hdist : sq n (mulV (eff s) v) = dist2 n y s.x.at' := sq_congr fun i hi' => hv i hi'
  have nn1 : 0 ≤ P.diag * dist2 n y s.x.at' := mul_nonneg hd (sq_nonneg' _ _)
  have nn2 : 0 ≤ (1 + P.diag) * t.ineqCost 0 y := mul_nonneg (by linarith) (sq_nonneg' _ _)
  by_cases hk : skips t s = true
  · have hi0 := skips_cases hk
    rw [step_skip hk]
    have z1 : dist2 n s.x.at' s.x.at' = 0 := by
      unfold dist2
      rw [← sq_zero n]
      exact sq_congr fun i _ => by ring
    have z2 : ∀ (σ : ℝ) (z : Nat → ℝ), t.ineqCost σ z = 0 := by
      intro σ z; unfold Task.ineqCost; rw [hi0]; rfl
    show t.eqCost s.x.at' + (1 + P.diag) * t.ineqCost τ s.x.at' + P.diag * dist2 n s.x.at' s.x.at' ≤ _
    rw [z1, z2, z2]
    have z3 : t.eqCost s.x.at' = t.eqCost y := by
      unfold skips at hk
      simp only [Bool.or_eq_true, Bool.and_eq_true, decide_eq_true_eq] at hk
      rcases hk with hk | hk
      · unfold Task.eqCost; rw [hk.1]; rfl
      · rw [← hcost]
        unfold Task.eqCost
        apply sq_congr
        intro k _
        rw [rowVal_move, mulV_congr t.eq.1 (v := fun _ => 0) (fun i _ => hi.eff_null hk.1 v i), mulV_zero, add_zero]
    rw [z3]
    linarith
  · replace hk : skips t s = false := by simpa using hk
    obtain ⟨-, e2, -, -, -, -, -, -, -⟩ := step_fields (E := E) (P := P) hi.slack hk
    have hsome : ∃ sl, outcome E P t s = some sl := by
      unfold solveNextTask at hret
      rw [if_neg (by rw [hk]; exact Bool.false_ne_true), hi.slack] at hret
      simpa [Option.isSome_iff_exists] using hret
    obtain ⟨sl, hsl⟩ := hsome
    have qok := (ok2 hk).2 sl hsl
    have ez : zOf E P t s = sl := by unfold zOf; rw [hsl]
    rw [e2, ez]
    show t.eqCost (fun i => s.x.at' i + mulV (eff s) sl i) +
      (1 + P.diag) * t.ineqCost τ (fun i => s.x.at' i + mulV (eff s) sl i) +
      P.diag * dist2 n (fun i => s.x.at' i + mulV (eff s) sl i) s.x.at' ≤ _
    have hdx : dist2 n (fun i => s.x.at' i + mulV (eff s) sl i) s.x.at' = sq n (mulV (eff s) sl) :=
      sq_congr fun i _ => by ring
    rw [hdx]
    let w : Nat → ℝ := fun k => -max 0 (rowVal t.ineq k y)
    have hzf : mulV (eff s) (join (eff s).cols v w) = mulV (eff s) v :=
      funext fun i => join_z _ v w (eff s) rfl i
    have hj : (fun i => join (eff s).cols v w ((eff s).cols + i)) = w := funext (join_w (eff s).cols v w)
    have hopt := qok.opt (join (eff s).cols v w) (by
      intro p hp
      rw [hi.qp_rows] at hp
      apply le_max_of_le_left
      by_cases hlt : p < s.a.size
      · rw [hi.qp_row_old hlt, join_z _ _ _ _ (hi.prepare_A_cols t)]
        obtain ⟨u, hu, k, hku, r1, r2, r3⟩ := hrw p hlt
        rw [hi.stands_old hlt r1]
        have a1 := rowVal_move u.ineq k s.x.at' (mulV (eff s) v)
        rw [hrow u.ineq k (hpre u hu).ic] at a1
        have a2 := hyin u hu k hku
        have a3 := min_le_left (stored s p) (-P.relax)
        linarith
      · obtain ⟨q, rfl⟩ : ∃ q, p = s.a.size + q := ⟨p - s.a.size, by omega⟩
        have hq : q < t.ineq.1.rows := by omega
        rw [hi.qp_row_new hq, join_w]
        simp only [hzf]
        rw [hrow t.ineq q ht.ic]
        show _ + -max 0 (rowVal t.ineq q y) ≤ 0
        have := le_max_right 0 (rowVal t.ineq q y)
        linarith)
    rw [hi.obj, hi.obj, hzf, hj, hcost, hdist] at hopt
    have hw : sq t.ineq.1.rows w = t.ineqCost 0 y := by
      unfold Task.ineqCost sq
      apply Finset.sum_congr rfl
      intro k _
      show (-max 0 (rowVal t.ineq k y)) ^ 2 = (max 0 (rowVal t.ineq k y - 0)) ^ 2
      rw [sub_zero, neg_sq]
    have hlow : t.ineqCost τ (fun i => s.x.at' i + mulV (eff s) sl i) ≤
        sq t.ineq.1.rows (fun i => sl ((eff s).cols + i)) := by
      unfold Task.ineqCost sq
      apply Finset.sum_le_sum
      intro k hk'
      have hk' := Finset.mem_range.1 hk'
      have f1 := qok.feas (s.a.size + k) (by rw [hi.qp_rows]; omega)
      rw [hi.qp_row_new hk'] at f1
      have f2 := (hi.slack_range hd qok k hk').1
      beta_reduce
      rcases max_cases 0 (rowVal t.ineq k (fun i => s.x.at' i + mulV (eff s) sl i) - τ) with ⟨e, -⟩ | ⟨e, e'⟩
      · rw [e]; norm_num; exact sq_nonneg _
      · rw [e]; nlinarith
    have := mul_le_mul_of_nonneg_left hlow (show 0 ≤ 1 + P.diag by linarith)
    rw [hw] at hopt
    linarith

/-! ### C102: what happens to the inequalities of higher priorities -/

theorem Inv.bound_run {τ : ℝ} {s : State} (h : Inv E P n s) (hτ : 0 ≤ τ) (hx : 0 ≤ P.relax) {ts : List Task}
    (ok : RunOk E P τ s ts) {p : Nat} (hp : p < s.a.size) {u : Task} {k : Nat} (hst : Stands s p u k)
    {M b : ℝ} (hM : 0 ≤ M) (hw : wadd s p ≤ 0) (hwM : -M ≤ wadd s p)
    (h1 : rowVal u.ineq k s.x.at' ≤ b) (h2 : rowVal u.ineq k s.x.at' - stored s p ≤ b) :
    rowVal u.ineq k (solveAll E P s ts).x.at' ≤ b + ts.length * (M + P.relax + τ) := by
  induction ts generalizing s b with
  | nil => simpa [solveAll] using h1
  | cons t ts ih =>
    have hb : b + (t :: ts).length * (M + P.relax + τ) = (b + (M + P.relax + τ)) + ts.length * (M + P.relax + τ) := by
      rw [List.length_cons]; push_cast; ring
    rw [solveAll_cons, hb]
    by_cases hk : skips t s = true
    · have ok2 := ok.2
      rw [step_skip hk] at ok2 ⊢
      exact ih h ok2 hp hst hw hwM (by linarith) (by linarith)
    · replace hk : skips t s = false := by simpa using hk
      obtain ⟨a1, a2, a3⟩ := h.row_old hk hp hst
      have hs := h.stored_le hk hτ hx ok.1 hp hw
      have e4 := (step_fields (E := E) (P := P) h.slack hk).2.2.2.1
      have hmin : b + P.relax ≥ rowVal u.ineq k s.x.at' - min (stored s p) (-P.relax) := by
        rcases min_cases (stored s p) (-P.relax) with ⟨e, -⟩ | ⟨e, -⟩ <;> rw [e] <;> linarith
      refine ih (h.step ok.1) ok.2 (by rw [e4, prepare_a_size]; omega) a1 ?_ ?_ ?_ ?_
      · rcases a3 with a3 | a3 <;> rw [a3]
        exact hw
      · rcases a3 with a3 | a3 <;> rw [a3]
        · exact hwM
        · linarith
      · linarith
      · linarith

/-- C102: an inequality violated by `v` when its own task was solved (`v = 0` if it was met) is violated by at most
`v + m (v + relaxation + tolerance)` after `m` more tasks. In particular an inequality that was met stays met up
to `m` times the relaxation (and the tolerance of the QP solver). -/
theorem C102_inequalities_bound (E : Ext) (P : Params) (n : Nat) (s0 : State) (τ : ℝ) (pre post : List Task)
    (t : Task) (hd : 0 ≤ P.diag) (hx : 0 ≤ P.relax) (hτ : 0 ≤ τ)
    (ok : RunOk E P τ (start E n s0) (pre ++ t :: post)) (k : Nat) (hk : k < t.ineq.1.rows) :
    rowVal t.ineq k (sol E P n s0 (pre ++ t :: post)) ≤
      max 0 (rowVal t.ineq k (sol E P n s0 (pre ++ [t]))) +
        post.length * (max 0 (rowVal t.ineq k (sol E P n s0 (pre ++ [t]))) + P.relax + τ) := by
  obtain ⟨ok1, ok2⟩ := ok.append
  obtain ⟨ok2, ok3⟩ := ok2
  have hi := (Inv.start E P n s0).run ok1
  have e1 : sol E P n s0 (pre ++ [t]) = (solveNextTask E P t (solveAll E P (start E n s0) pre)).1.x.at' := by
    unfold sol; rw [solveAll_append]; rfl
  have e2 : sol E P n s0 (pre ++ t :: post) =
      (solveAll E P (solveNextTask E P t (solveAll E P (start E n s0) pre)).1 post).x.at' := by
    unfold sol; rw [solveAll_append, solveAll_cons]
  obtain ⟨b1, b2, b3, b4, b5⟩ := hi.row_new hd ok2 hk
  rw [e1, e2]
  exact (hi.step ok2).bound_run hτ hx ok3 b1 b2 (le_max_left _ _) b4 b5 (le_max_right _ _)
    (by rw [b3, sub_self]; exact le_max_left _ _)

/-- C102 for inequalities that were met. -/
theorem C102_inequalities_kept (E : Ext) (P : Params) (n : Nat) (s0 : State) (τ : ℝ) (pre post : List Task)
    (t : Task) (hd : 0 ≤ P.diag) (hx : 0 ≤ P.relax) (hτ : 0 ≤ τ)
    (ok : RunOk E P τ (start E n s0) (pre ++ t :: post)) (k : Nat) (hk : k < t.ineq.1.rows)
    (hmet : rowVal t.ineq k (sol E P n s0 (pre ++ [t])) ≤ 0) :
    rowVal t.ineq k (sol E P n s0 (pre ++ t :: post)) ≤ post.length * (P.relax + τ) := by
  have := C102_inequalities_bound E P n s0 τ pre post t hd hx hτ ok k hk
  rw [max_eq_left hmet] at this
  linarith

/-! ### C104: the dimension of the remaining freedom -/

theorem nullDim_le {s : State} {t : Task} (h : Inv E P n s) :
    (solveNextTask E P t s).1.K.cols ≤ s.K.cols := by
  by_cases hk : skips t s = true
  · rw [step_skip hk]
  · replace hk : skips t s = false := by simpa using hk
    have e9 := (step_fields (E := E) (P := P) h.slack hk).2.2.2.2.2.2.2.2
    rw [e9]
    by_cases h0 : t.eq.1.rows = 0
    · rw [h.kB_new h0]
    · have hB : (prepare E P t s).B = mul t.eq.1 (eff s) := by
        simp only [prepare]; rw [if_pos h0]; rfl
      rw [hB, if_pos (show (mul t.eq.1 (eff s)).rows ≠ 0 from h0), ← h.eff_cols]
      exact Nat.sub_le _ _

/-- C104: `nullspaceDimension()` starts at the number of variables and never increases; it decreases with every
task whose equalities can still be changed without changing those of the earlier tasks; and once it is zero no
further task changes the solution. -/
theorem C104_nullspace_dimension (E : Ext) (P : Params) (n : Nat) (s0 : State) (τ : ℝ) (pre : List Task) (t : Task)
    (hpre : ∀ u ∈ pre, u.Sized n) (ht : t.Sized n) (hthr : 1 ≤ P.thr)
    (ok : RunOk E P τ (start E n s0) (pre ++ [t])) :
    (start E n s0).K.cols = n ∧
    (solveAll E P (start E n s0) (pre ++ [t])).K.cols ≤ (solveAll E P (start E n s0) pre).K.cols ∧
    ((∃ d, (∀ u ∈ pre, ∀ k < u.eq.1.rows, mulV u.eq.1 d k = 0) ∧ ∃ k < t.eq.1.rows, mulV t.eq.1 d k ≠ 0) →
      (solveAll E P (start E n s0) (pre ++ [t])).K.cols < (solveAll E P (start E n s0) pre).K.cols) ∧
    ((solveAll E P (start E n s0) pre).K.cols = 0 → ∀ i, sol E P n s0 (pre ++ [t]) i = sol E P n s0 pre i) := by
  obtain ⟨ok1, ok2, -⟩ := ok.append
  have hi := (Inv.start E P n s0).run ok1
  have hc := (Complete.start E n s0).run (Inv.start E P n s0) hpre ok1
  rw [List.nil_append] at hc
  unfold sol
  rw [solveAll_append]
  generalize solveAll E P (start E n s0) pre = s at *
  refine ⟨rfl, nullDim_le hi, ?_, ?_⟩
  · rintro ⟨d, hd, k, hk, hne⟩
    obtain ⟨y, hy⟩ := hc d hd
    have hyk : mulV t.eq.1 (mulV (eff s) y) k ≠ 0 := by
      rw [mulV_congr t.eq.1 (v := d) (fun i hi' => hy i (by rw [ht.ec] at hi'; exact hi'))]
      exact hne
    have h0 : t.eq.1.rows ≠ 0 := by omega
    have hK : s.K.cols ≠ 0 := by
      intro hK
      apply hyk
      rw [mulV_congr t.eq.1 (v := fun _ => 0) (fun i _ => hi.eff_null hK y i), mulV_zero]
    have hkk : skips t s = false := by
      unfold skips
      simp [h0, hK]
    have e9 := (step_fields (E := E) (P := P) hi.slack hkk).2.2.2.2.2.2.2.2
    have hB : (prepare E P t s).B = mul t.eq.1 (eff s) := by
      simp only [prepare]; rw [if_pos h0]; rfl
    have hok := (ok2 hkk).1 (by rw [hB]; exact h0)
    show (solveNextTask E P t s).1.K.cols < s.K.cols
    rw [e9, hB, if_pos (show (mul t.eq.1 (eff s)).rows ≠ 0 from h0), ← hi.eff_cols]
    rw [hB] at hok
    have hc0 : 0 < (eff s).cols := by rw [hi.eff_cols]; omega
    show (eff s).cols - dimRange P.thr _ (min (mul t.eq.1 (eff s)).rows (mul t.eq.1 (eff s)).cols) < (eff s).cols
    obtain ⟨hr, -, h2⟩ := dimRange_spec P.thr (E.svd (mul t.eq.1 (eff s))).sv
      (min (mul t.eq.1 (eff s)).rows (mul t.eq.1 (eff s)).cols)
    have hm : 0 < min (mul t.eq.1 (eff s)).rows (mul t.eq.1 (eff s)).cols := by
      show 0 < min t.eq.1.rows (eff s).cols; omega
    have hpos : dimRange P.thr (E.svd (mul t.eq.1 (eff s))).sv
      (min (mul t.eq.1 (eff s)).rows (mul t.eq.1 (eff s)).cols) ≠ 0 := by
      intro hz
      rw [hz] at h2
      have hs0 := (hok.sorted 0 0 le_rfl hm).1
      have hsv : (E.svd (mul t.eq.1 (eff s))).sv 0 = 0 := by
        rcases h2 hm with h2 | h2
        · exact le_antisymm h2 hs0
        · by_contra hne'
          rw [div_self hne'] at h2
          linarith
      obtain ⟨v, hv⟩ := hok.surj y
      have ha := hok.act v
      rw [Finset.sum_eq_zero] at ha
      · have := sq_eq_zero ha k hk
        rw [mulV_congr _ hv, mulV_mul] at this
        exact hyk this
      · intro i hi'
        have := hok.sorted 0 i (Nat.zero_le _) (Finset.mem_range.1 hi')
        rw [hsv] at this
        rw [le_antisymm this.2 this.1]; ring
    omega
  · intro hK i
    obtain ⟨y, hy⟩ := hi.x_step (t := t)
    show (solveNextTask E P t s).1.x.at' i = s.x.at' i
    rw [hy, hi.eff_null hK, add_zero]

/-! ### C105: memory safety -/

/-- The number of tasks that are not empty. -/
def effective (ts : List Task) : Nat := (ts.filter (fun t => decide (t.eq.1.rows ≠ 0 ∨ t.ineq.1.rows ≠ 0))).length

theorem step_rank (s : State) (t : Task) : (solveNextTask E P t s).1.curRank =
    if skips t s then s.curRank else s.curRank + 1 := by
  unfold solveNextTask
  split
  · rfl
  · show (svdStep E P (prepare E P t s)).curRank = _
    unfold svdStep
    split <;> rfl

theorem Inv.step_oob {s : State} {t : Task} (h : Inv E P n s) (ho : s.oob = false) (hr : s.curRank < numMaxRanks)
    (hB : s.B.rows ≠ 0 → s.B.cols ≠ 0) (hK : s.K.cols ≠ 0) :
    (solveNextTask E P t s).1.oob = false ∧
    ((solveNextTask E P t s).1.B.rows ≠ 0 → (solveNextTask E P t s).1.B.cols ≠ 0) := by
  by_cases hk : skips t s = true
  · rw [step_skip hk]; exact ⟨ho, hB⟩
  · replace hk : skips t s = false := by simpa using hk
    obtain ⟨e1, -, -, -, e5, -, -, e8, -⟩ := step_fields (E := E) (P := P) h.slack hk
    have hB' : (prepare E P t s).B.rows ≠ 0 → (prepare E P t s).B.cols ≠ 0 := by
      simp only [prepare]
      split
      · intro _
        show (eff s).cols ≠ 0
        rw [h.eff_cols]; exact hK
      · exact hB
    refine ⟨?_, by rw [e8]; exact hB'⟩
    have hp : (prepare E P t s).oob = false := by
      simp only [prepare, ho, Bool.false_or]
      have hc := h.A1_cols
      have : (mulIfFits s.A s.K).cols = (mulIfFits s.N s.K).cols := hc
      rw [Bool.or_eq_false_iff]
      constructor
      · by_cases ha : s.a.size = 0
        · simp [ha]
        · have hz := h.zsz ha
          have hw := h.wsz
          have hcz : s.A.cols = s.z.size := by rw [h.acol, hz]
          simp [hcz, hw]
      · simp [this]
    have hv : (svdStep E P (prepare E P t s)).oob = false := by
      unfold svdStep
      split
      · rename_i h1
        show ((prepare E P t s).oob || decide ((prepare E P t s).B.cols = 0) || decide (numMaxRanks ≤ s.curRank)) = false
        rw [hp]
        simp [hB' h1, hr]
      · exact hp
    have hz : (finish E t (outcome E P t s) (svdStep E P (prepare E P t s))).z.size = (eff s).cols := by
      rw [step_run hk] at e5
      rw [e5]
    rw [step_run hk]
    have : (finish E t (outcome E P t s) (svdStep E P (prepare E P t s))).oob =
        ((svdStep E P (prepare E P t s)).oob || decide ((svdStep E P (prepare E P t s)).N.cols ≠
          (finish E t (outcome E P t s) (svdStep E P (prepare E P t s))).z.size)) := rfl
    rw [this, hv, hz]
    obtain ⟨f1, -⟩ := svdStep_eq (E := E) (P := P) (prepare E P t s)
    rw [f1, prepare_N]
    simp

theorem Inv.run_oob {τ : ℝ} {s : State} {ts : List Task} (h : Inv E P n s) (ok : RunOk E P τ s ts)
    (ho : s.oob = false) (hB : s.B.rows ≠ 0 → s.B.cols ≠ 0) (hr : s.curRank + effective ts ≤ numMaxRanks)
    (hK : ∀ us vs, ts = us ++ vs → vs ≠ [] → (solveAll E P s us).K.cols ≠ 0) : (solveAll E P s ts).oob = false := by
  induction ts generalizing s with
  | nil => exact ho
  | cons t ts ih =>
    rw [solveAll_cons]
    have hK0 : s.K.cols ≠ 0 := hK [] (t :: ts) rfl (List.cons_ne_nil _ _)
    have hrank := step_rank (E := E) (P := P) s t
    by_cases hk : skips t s = true
    · have ok2 := ok.2
      rw [step_skip hk] at ok2 ⊢
      refine ih h ok2 ho hB ?_ ?_
      · refine le_trans ?_ hr
        unfold effective
        simp only [List.filter_cons]
        split
        · simp
        · exact le_rfl
      · intro us vs hus hvs
        have := hK (t :: us) vs (by rw [hus]; rfl) hvs
        rw [solveAll_cons, step_skip hk] at this
        exact this
    · have hne : t.eq.1.rows ≠ 0 ∨ t.ineq.1.rows ≠ 0 := by
        by_contra hc
        push Not at hc
        apply hk
        unfold skips
        simp [hc.1, hc.2]
      have heff : effective (t :: ts) = effective ts + 1 := by
        unfold effective
        simp only [List.filter_cons]
        rw [if_pos (by simpa using hne)]
        rfl
      replace hk : skips t s = false := by simpa using hk
      rw [heff] at hr
      obtain ⟨o1, o2⟩ := h.step_oob (t := t) ho (by omega) hB hK0
      refine ih (h.step ok.1) ok.2 o1 o2 ?_ ?_
      · rw [hrank, if_neg (by rw [hk]; exact Bool.false_ne_true)]
        omega
      · intro us vs hus hvs
        have := hK (t :: us) vs (by rw [hus]; rfl) hvs
        rwa [solveAll_cons] at this

/-- C105: with at most seven non-empty tasks, each called while some freedom is left (what `RtModel::solve`
checks), no array is accessed out of range. -/
theorem C105_memory_partial (E : Ext) (P : Params) (n : Nat) (s0 : State) (τ : ℝ) (ts : List Task)
    (h0 : s0.oob = false) (ok : RunOk E P τ (start E n s0) ts) (h7 : effective ts ≤ 7)
    (hK : ∀ us vs, ts = us ++ vs → vs ≠ [] → (solveAll E P (start E n s0) us).K.cols ≠ 0) :
    (solveAll E P (start E n s0) ts).oob = false :=
  (Inv.start E P n s0).run_oob ok h0 (fun h => absurd rfl h)
    (by show 0 + effective ts ≤ 7; omega) hK

theorem oob_mono (s : State) (t : Task) (h : s.oob = true) : (solveNextTask E P t s).1.oob = true := by
  unfold solveNextTask
  split
  · exact h
  · have h1 : (prepare E P t s).oob = true := by simp [prepare, h]
    have h2 : (svdStep E P (prepare E P t s)).oob = true := by
      unfold svdStep
      split
      · simp [h1]
      · exact h1
    simp [finish, h2]

/-- C105 is false beyond that: in a hierarchy of eight tasks with inequalities, the first of which also has
equalities, the eighth call writes beyond the end of `prev_K_`. -/
theorem C105_violated (E : Ext) (P : Params) (n : Nat) (s0 : State) (t1 : Task) (ts : List Task)
    (h1 : t1.eq.1.rows ≠ 0) (hi1 : t1.ineq.1.rows ≠ 0) (hi : ∀ t ∈ ts, t.ineq.1.rows ≠ 0) (hl : ts.length = 7) :
    (solveAll E P (start E n s0) (t1 :: ts)).oob = true := by
  have noskip : ∀ (s : State) (t : Task), t.ineq.1.rows ≠ 0 → skips t s = false := by
    intro s t ht; unfold skips; simp [ht]
  have stepB : ∀ (s : State) (t : Task), t.ineq.1.rows ≠ 0 →
      (s.B.rows ≠ 0 ∨ t.eq.1.rows ≠ 0) → (solveNextTask E P t s).1.B.rows ≠ 0 := by
    intro s t ht hB
    rw [step_run (noskip s t ht)]
    show (svdStep E P (prepare E P t s)).B.rows ≠ 0
    rw [(svdStep_eq (E := E) (P := P) (prepare E P t s)).2.2.2.2.2.2.1]
    simp only [prepare]
    split
    · rename_i h; exact h
    · rename_i h; exact hB.resolve_right h
  have gen : ∀ (ts : List Task) (s : State), (∀ t ∈ ts, t.ineq.1.rows ≠ 0) → s.B.rows ≠ 0 →
      7 < s.curRank + ts.length → 1 ≤ s.curRank → s.curRank ≤ 7 → (solveAll E P s ts).oob = true := by
    intro ts
    induction ts with
    | nil => intro s _ _ h _ h7; simp at h; omega
    | cons t ts ih =>
      intro s ht hB h h1 h7
      have htt := ht t List.mem_cons_self
      rw [solveAll_cons]
      have hr := step_rank (E := E) (P := P) s t
      rw [if_neg (by rw [noskip s t htt]; exact Bool.false_ne_true)] at hr
      by_cases h8 : s.curRank = 7
      · have : (solveNextTask E P t s).1.oob = true := by
          rw [step_run (noskip s t htt)]
          have hBp : (prepare E P t s).B.rows ≠ 0 := by
            simp only [prepare]
            split
            · rename_i h; exact h
            · exact hB
          have : (svdStep E P (prepare E P t s)).oob = true := by
            unfold svdStep
            rw [if_pos hBp]
            show (_ || decide (numMaxRanks ≤ s.curRank)) = true
            rw [h8]; simp [numMaxRanks]
          simp [finish, this]
        have all : ∀ (us : List Task) (s' : State), s'.oob = true → (solveAll E P s' us).oob = true := by
          intro us
          induction us with
          | nil => intro s' h; exact h
          | cons u us ihu => intro s' h; rw [solveAll_cons]; exact ihu _ (oob_mono s' u h)
        exact all ts _ this
      · refine ih _ (fun u hu => ht u (List.mem_cons_of_mem _ hu)) (stepB s t htt (Or.inl hB)) ?_ ?_ ?_
        · rw [hr]; rw [List.length_cons] at h; omega
        · omega
        · omega
  rw [solveAll_cons]
  have hr := step_rank (E := E) (P := P) (start E n s0) t1
  rw [if_neg (by rw [noskip _ _ hi1]; exact Bool.false_ne_true)] at hr
  have hz : (start E n s0).curRank = 0 := rfl
  exact gen ts _ hi (stepB _ t1 hi1 (Or.inr h1)) (by rw [hr, hz, hl]; omega) (by omega) (by omega)

/-! ### The QPs set up are feasible (for C106) -/

/-- The QP has a feasible point. -/
def Qp.Feasible (q : Qp) : Prop := ∃ y, ∀ i < q.CI.rows, q.row i y ≤ 0

theorem Inv.qp_feasible {s : State} {t : Task} (h : Inv E P n s) (hx : 0 ≤ P.relax) {done : List Task}
    (hr : Rows done s) : (qpOf E P t s).Feasible := by
  refine ⟨join (eff s).cols (fun _ => 0) (fun k => -max 0 (rowVal t.ineq k s.x.at')), ?_⟩
  intro p hp
  rw [h.qp_rows] at hp
  by_cases hlt : p < s.a.size
  · rw [h.qp_row_old hlt, join_z _ _ _ _ (h.prepare_A_cols t), mulV_zero]
    obtain ⟨-, -, -, -, -, -, r3⟩ := hr p hlt
    have := min_le_right (stored s p) (-P.relax)
    linarith
  · obtain ⟨q, rfl⟩ : ∃ q, p = s.a.size + q := ⟨p - s.a.size, by omega⟩
    have hq : q < t.ineq.1.rows := by omega
    rw [h.qp_row_new hq, join_w]
    have : ∀ i, mulV (eff s) (join (eff s).cols (fun _ => 0) (fun k => -max 0 (rowVal t.ineq k s.x.at'))) i = 0 :=
      fun i => (join_z _ _ _ (eff s) rfl i).trans (mulV_zero _ _)
    simp only [this, add_zero]
    have := le_max_right 0 (rowVal t.ineq q s.x.at')
    linarith

theorem Inv.qp_dim {s : State} {t : Task} (h : Inv E P n s) (hk : ¬ skips t s = true) :
    (qpOf E P t s).H.rows ≠ 0 := by
  unfold qpOf
  rw [(build_dim E P t (s := prepare E P t s) h.slack).1, prepare_N, h.eff_cols]
  intro hz
  apply hk
  unfold skips
  have h1 : s.K.cols = 0 := by omega
  have h2 : t.ineq.1.rows = 0 := by omega
  simp [h1, h2]

end

end RtHqp
end Verif
