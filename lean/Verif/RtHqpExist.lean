/-
The hierarchical solver with the QP solver of the repository plugged in: `RtHQPSolver` (`Verif.RtHqp`) calls
`RtQPSolver` (`Verif.RtQP`) on the problems it sets up. In exact arithmetic the composed system meets all the
contracts assumed in `RtHqpProps` for every hierarchy (C107); this also shows that those contracts can be met.
-/
import Verif.RtHqpProps
import Verif.RtHqpSvd
import Verif.RtQPProps
import Mathlib.Tactic.LinearCombination

namespace Verif
namespace RtHqp

open Rt

/-- The call of `solveQP` on the problem handed over (no equalities), RtQPSolver.hpp:32-35. `J0` is the inverse
transposed Cholesky factor, `eps` the machine epsilon. -/
noncomputable def toData (q : Qp) (J0 : Nat → Nat → ℝ) (eps : ℝ) : RtQP.Data :=
  { n := q.H.rows, p := 0, m := q.CI.rows, H := q.H.at', g := q.g.at', CE := fun _ _ => 0, ce0 := fun _ => 0,
    CI := q.CI.at', ci0 := q.ci.at', J0 := J0, eps := eps }

open Classical in
/-- `optimize()` followed by `isOptimized()` and `solution()`, RtQPSolver.hpp:29-39: the point returned with a
finite value (`none`: infinity was returned; also used for a run that does not return). -/
noncomputable def codeQp (chol : Mat → Nat → Nat → ℝ) (eps : ℝ) (q : Qp) : Option (Nat → ℝ) :=
  if h : ∃ k v, ((toData q (chol q.H) eps).run k).pc = .ret (some v) then
    some ((toData q (chol q.H) eps).run h.choose).x
  else none

/-- Contract of Eigen's `LLT`: for a symmetric positive definite matrix the inverse transposed factor `J0` has
`H J0 J0' = 1` and a nonnegative diagonal. -/
def CholOk (chol : Mat → Nat → Nat → ℝ) : Prop :=
  ∀ H : Mat, Spd H.rows H.at' → RtQP.Inverse H.rows H.at' (RtQP.gram H.rows (chol H)) ∧
    ∀ i < H.rows, 0 ≤ chol H i i

/-- Contract of Eigen's `JacobiSVD`. -/
def SvdsOk (svd : Mat → Svd) : Prop := ∀ B, SvdOk B (svd B)

theorem svds_exist : ∃ svd, SvdsOk svd := ⟨fun B => (svd_exists B).choose, fun B => (svd_exists B).choose_spec⟩

open Classical in
theorem chols_exist : ∃ chol, CholOk chol := by
  refine ⟨fun H => if h : Spd H.rows H.at' then (chol_exists h).choose else fun _ _ => 0, ?_⟩
  intro H h
  beta_reduce
  rw [dif_pos h]
  exact (chol_exists h).choose_spec

/-- A QP with consistent sizes and a symmetric positive definite Hessian. -/
structure Qp.Proper (q : Qp) : Prop where
  hc : q.H.cols = q.H.rows
  cc : q.CI.cols = q.H.rows
  spd : Spd q.H.rows q.H.at'

theorem toData_obj {q : Qp} (h : q.Proper) (J : Nat → Nat → ℝ) (eps : ℝ) (y : Nat → ℝ) :
    (toData q J eps).objective y = q.objective y := by
  unfold RtQP.Data.objective Qp.objective
  have : RtQP.mulV q.H.rows q.H.at' y = mulV q.H y := by
    funext i
    unfold RtQP.mulV mulV
    rw [h.hc]
  show RtQP.dot q.H.rows y (RtQP.mulV q.H.rows q.H.at' y) + _ = _
  rw [this]
  rfl

theorem toData_row {q : Qp} (h : q.Proper) (J : Nat → Nat → ℝ) (eps : ℝ) (y : Nat → ℝ) (i : Nat) :
    RtQP.dot (toData q J eps).n ((toData q J eps).CI i) y + (toData q J eps).ci0 i = q.row i y := by
  unfold Qp.row mulV RtQP.dot
  show ∑ k ∈ Finset.range q.H.rows, _ + _ = ∑ k ∈ Finset.range q.CI.cols, _ + _
  rw [h.cc]
  rfl

theorem toData_valid {q : Qp} {chol : Mat → Nat → Nat → ℝ} (hc : CholOk chol) (h : q.Proper) {eps : ℝ}
    (he : 0 ≤ eps) : (toData q (chol q.H) eps).Valid where
  symm := h.spd.symm
  inv := (hc q.H h.spd).1
  diag := (hc q.H h.spd).2
  eps := he

/-- The tolerance of `solveQP` on a problem. -/
noncomputable def tol (q : Qp) (J0 : Nat → Nat → ℝ) (eps : ℝ) : ℝ :=
  q.CI.rows * eps * (toData q J0 eps).c1 * (toData q J0 eps).c2 * 100

theorem codeQp_ok {q : Qp} {chol : Mat → Nat → Nat → ℝ} (hc : CholOk chol) (h : q.Proper) {eps : ℝ}
    (he : 0 ≤ eps) (hr : RtQP.Regular (toData q (chol q.H) eps)) {x : Nat → ℝ} (hx : codeQp chol eps q = some x) :
    QpOk (tol q (chol q.H) eps) q x := by
  unfold codeQp at hx
  split at hx
  · rename_i hk
    have hv := toData_valid hc h he
    obtain ⟨v, hv'⟩ := hk.choose_spec
    cases hx
    obtain ⟨-, c2, -, -⟩ := RtQP.C95_optimal_partial _ hv hr _ v hv'
    constructor
    · intro i hi
      have hle : max 0 (q.row i ((toData q (chol q.H) eps).run hk.choose).x) ≤
          (toData q (chol q.H) eps).violation ((toData q (chol q.H) eps).run hk.choose).x := by
        unfold RtQP.Data.violation
        rw [← toData_row h (chol q.H) eps]
        exact Finset.single_le_sum (f := fun i => max 0 (RtQP.dot (toData q (chol q.H) eps).n
          ((toData q (chol q.H) eps).CI i) ((toData q (chol q.H) eps).run hk.choose).x +
            (toData q (chol q.H) eps).ci0 i)) (fun _ _ => le_max_left _ _) (Finset.mem_range.2 hi)
      exact le_trans (le_max_right _ _) (hle.trans c2)
    · intro y hy
      rw [← toData_obj h (chol q.H) eps, ← toData_obj h (chol q.H) eps]
      refine RtQP.C95_optimal_relaxed_partial _ hv hr _ v hv' y (fun i hi => absurd hi (Nat.not_lt_zero _)) ?_
      intro i hi
      rw [toData_row h, toData_row h]
      exact hy i hi
  · cases hx

theorem toData_regular {q : Qp} {chol : Mat → Nat → Nat → ℝ} (hc : CholOk chol) (h : q.Proper) :
    RtQP.Regular (toData q (chol q.H) 0) :=
  RtQP.regular_exact (toData_valid hc h le_rfl) rfl (fun _ _ i hi => absurd hi (Nat.not_lt_zero _))

theorem codeQp_exact {q : Qp} {chol : Mat → Nat → Nat → ℝ} (hc : CholOk chol) (h : q.Proper) {x : Nat → ℝ}
    (hx : codeQp chol 0 q = some x) : QpOk 0 q x := by
  have := codeQp_ok hc h le_rfl (toData_regular hc h) hx
  unfold tol at this
  simpa using this

theorem codeQp_solves {q : Qp} {chol : Mat → Nat → Nat → ℝ} (hc : CholOk chol) (h : q.Proper) (hf : q.Feasible) :
    (codeQp chol 0 q).isSome := by
  obtain ⟨k, hk⟩ := RtQP.C98_exact _ (toData_valid hc h le_rfl) rfl
    (fun _ _ i hi => absurd hi (Nat.not_lt_zero _))
  unfold codeQp
  rcases hk with ⟨v, hv, -⟩ | ⟨-, hn⟩
  · rw [dif_pos ⟨k, v, hv⟩]; rfl
  · exfalso
    obtain ⟨y, hy⟩ := hf
    refine hn y ⟨fun i hi => absurd hi (Nat.not_lt_zero _), fun i hi => ?_⟩
    rw [toData_row h]
    exact hy i hi

/-! ### The QPs set up by the hierarchical solver -/

section
variable {E : Ext} {P : Params} {n : Nat} {s : State} {t : Task}

theorem Inv.qp_proper (h : Inv E P n s) (hd : 0 < P.diag) : (qpOf E P t s).Proper := by
  have hB : t.eq.1.rows ≠ 0 → (prepare E P t s).B.rows = t.eq.1.rows := by
    intro h0; simp only [prepare]; rw [if_pos h0]; rfl
  have hdim := build_dim E P t (s := prepare E P t s) h.slack
  have hA := (h.prepare_A_rows t).trans (prepare_a_size (E := E) (P := P) t).symm
  refine ⟨hdim.2.trans hdim.1.symm, ?_, ?_, ?_⟩
  · unfold qpOf
    rw [hdim.1, ← qpDim_eq t (s := prepare E P t s) h.slack]
    simp only [build, buildIneq]
    by_cases h0 : (prepare E P t s).A.rows = 0
    · rw [if_neg (by simpa using h0)]; rfl
    · rw [if_pos h0, if_pos (show (prepare E P t s).slacks = true from h.slack)]
      exact (C94_appendAtColumn E.jm E.jv (Mat.setZero 0 (qpDim t (prepare E P t s)), ⟨0, fun _ => 0⟩)
        (slackMat t (prepare E P t s), (prepare E P t s).a) 0 rfl hA.symm (slackMat_fits t (s := prepare E P t s) h.slack)).2.2.1
  · intro i _ k _
    unfold qpOf
    rw [build_H E P t (prepare E P t s) h.slack hB]
    beta_reduce
    congr 1
    · simp only [mul_comm]
      split_ifs <;> first | rfl | omega
    · simp only [eq_comm]
  · intro y ⟨i, hi, hne⟩
    have hq : RtQP.dot (qpOf E P t s).H.rows y (RtQP.mulV (qpOf E P t s).H.rows (qpOf E P t s).H.at' y) =
        ((qpOf E P t s).objective y + (qpOf E P t s).objective (fun i => -y i)) / 2 := by
      unfold Qp.objective RtQP.dot RtQP.mulV mulV
      rw [show (qpOf E P t s).H.cols = (qpOf E P t s).H.rows from hdim.2.trans hdim.1.symm]
      simp only [mul_neg, neg_mul, Finset.sum_neg_distrib, neg_neg]
      ring
    rw [hq]
    unfold qpOf
    rw [build_obj (s := prepare E P t s) h.slack hB, build_obj (s := prepare E P t s) h.slack hB]
    have hz : 0 ≤ sq (prepare E P t s).N.cols y := sq_nonneg' _ _
    have hw := sq_nonneg' t.ineq.1.rows (fun i => y ((prepare E P t s).N.cols + i))
    have e1 : sq (prepare E P t s).N.cols (fun i => -y i) = sq (prepare E P t s).N.cols y := by
      unfold sq; simp
    have e2 : sq t.ineq.1.rows (fun i => -y ((prepare E P t s).N.cols + i)) =
        sq t.ineq.1.rows (fun i => y ((prepare E P t s).N.cols + i)) := by
      unfold sq; simp
    have e3 : ∑ k ∈ Finset.range t.eq.1.rows, ((∑ j ∈ Finset.range (prepare E P t s).N.cols,
          (prepare E P t s).B.at' k j * y j) ^ 2 +
        2 * ((∑ j ∈ Finset.range (prepare E P t s).N.cols, (prepare E P t s).B.at' k j * y j) *
          (t.eq.2.at' k + mulV t.eq.1 (prepare E P t s).x.at' k))) +
        ∑ k ∈ Finset.range t.eq.1.rows, ((∑ j ∈ Finset.range (prepare E P t s).N.cols,
          (prepare E P t s).B.at' k j * -y j) ^ 2 +
        2 * ((∑ j ∈ Finset.range (prepare E P t s).N.cols, (prepare E P t s).B.at' k j * -y j) *
          (t.eq.2.at' k + mulV t.eq.1 (prepare E P t s).x.at' k))) =
        2 * ∑ k ∈ Finset.range t.eq.1.rows, (∑ j ∈ Finset.range (prepare E P t s).N.cols,
          (prepare E P t s).B.at' k j * y j) ^ 2 := by
      rw [← Finset.sum_add_distrib, Finset.mul_sum]
      refine Finset.sum_congr rfl fun k _ => ?_
      simp only [mul_neg, Finset.sum_neg_distrib]
      ring
    have hS : 0 ≤ ∑ k ∈ Finset.range t.eq.1.rows, (∑ j ∈ Finset.range (prepare E P t s).N.cols,
          (prepare E P t s).B.at' k j * y j) ^ 2 := Finset.sum_nonneg fun _ _ => sq_nonneg _
    have hpos : 0 < P.diag * sq (prepare E P t s).N.cols y +
        (1 + P.diag) * sq t.ineq.1.rows (fun i => y ((prepare E P t s).N.cols + i)) := by
      rcases hz.lt_or_eq with hz' | hz'
      · have : 0 < P.diag * sq (prepare E P t s).N.cols y := mul_pos hd hz'
        have : 0 ≤ (1 + P.diag) * sq t.ineq.1.rows (fun i => y ((prepare E P t s).N.cols + i)) :=
          mul_nonneg (by linarith) hw
        linarith
      · rcases hw.lt_or_eq with hw' | hw'
        · have : 0 < (1 + P.diag) * sq t.ineq.1.rows (fun i => y ((prepare E P t s).N.cols + i)) :=
            mul_pos (by linarith) hw'
          rw [← hz']; linarith
        · exfalso
          unfold qpOf at hi
          rw [hdim.1] at hi
          by_cases hlt : i < (prepare E P t s).N.cols
          · exact hne (sq_eq_zero hz'.symm i hlt)
          · have := sq_eq_zero hw'.symm (i - (prepare E P t s).N.cols) (by omega)
            beta_reduce at this
            rw [show (prepare E P t s).N.cols + (i - (prepare E P t s).N.cols) = i by omega] at this
            exact hne this
    simp only [e1, e2] at *
    linarith

end

/-! ### C106: the calls succeed -/

/-- C106: every QP that is set up is convex and has a feasible point and at least one variable; hence, with a QP
solver that solves every such problem, every call of `solveNextTask` reports success, whatever the tasks are. -/
theorem C106_always_solved (E : Ext) (P : Params) (n : Nat) (s0 : State) (τ : ℝ) (pre : List Task) (t : Task)
    (hd : 0 < P.diag) (hx : 0 ≤ P.relax) (ok : RunOk E P τ (start E n s0) pre)
    (hqp : ∀ q : Qp, q.Proper → q.Feasible → q.H.rows ≠ 0 → (E.qp q).isSome) :
    (solveNextTask E P t (solveAll E P (start E n s0) pre)).2 = true := by
  have hi := (Inv.start E P n s0).run ok
  have hrw := (Rows.start E n s0).run (Inv.start E P n s0) hd.le ok
  generalize solveAll E P (start E n s0) pre = s at *
  by_cases hk : skips t s = true
  · rw [step_skip hk]
  · unfold solveNextTask
    rw [if_neg hk]
    show ((outcome E P t s).isSome || !s.slacks) = true
    have hdim := hi.qp_dim hk
    unfold outcome
    rw [if_pos hi.slack, if_neg hdim, hqp _ (hi.qp_proper hd) (hi.qp_feasible hx hrw) hdim, Bool.true_or]

/-! ### C107: the composed solver -/

/-- The hierarchical solver run with the QP solver of the repository (with zero tests at `eps`), and given
factorisations `svd`, `chol`, `inv` of Eigen. -/
noncomputable def composed (svd : Mat → Svd) (chol : Mat → Nat → Nat → ℝ) (eps : ℝ) (inv : Mat → Mat)
    (jm : Nat → Nat → ℝ) (jv : Nat → ℝ) : Ext := ⟨svd, codeQp chol eps, inv, jm, jv⟩

theorem composed_runOk {svd : Mat → Svd} {chol : Mat → Nat → Nat → ℝ} {inv : Mat → Mat} {jm : Nat → Nat → ℝ}
    {jv : Nat → ℝ} (hs : SvdsOk svd) (hc : CholOk chol) {P : Params} (hd : 0 < P.diag) {n : Nat} (ts : List Task) :
    ∀ s, Inv (composed svd chol 0 inv jm jv) P n s → RunOk (composed svd chol 0 inv jm jv) P 0 s ts := by
  induction ts with
  | nil => intro s _; trivial
  | cons t ts ih =>
    intro s hi
    have ok : StepOk (composed svd chol 0 inv jm jv) P 0 t s := by
      intro _
      refine ⟨fun _ => hs _, ?_⟩
      intro x hx
      unfold outcome at hx
      rw [if_pos hi.slack] at hx
      split at hx
      · cases hx
      · exact codeQp_exact hc (hi.qp_proper hd) hx
    exact ⟨ok, ih _ (hi.step ok)⟩

/-- C107: hierarchical solver and QP solver together, in exact arithmetic: for every hierarchy of well-formed tasks
every call reports success, and the solution after it minimises the cost of its task among all points that keep the
equality values of the earlier tasks and satisfy their inequalities. -/
theorem C107_composed (svd : Mat → Svd) (chol : Mat → Nat → Nat → ℝ) (inv : Mat → Mat) (jm : Nat → Nat → ℝ)
    (jv : Nat → ℝ) (hs : SvdsOk svd) (hc : CholOk chol) (P : Params) (hd : 0 < P.diag) (hx : 0 ≤ P.relax)
    (n : Nat) (s0 : State) (pre : List Task) (t : Task) (hpre : ∀ u ∈ pre, u.Sized n) (ht : t.Sized n) :
    let E := composed svd chol 0 inv jm jv
    (solveNextTask E P t (solveAll E P (start E n s0) pre)).2 = true ∧
    ∀ y : Nat → ℝ,
      (∀ u ∈ pre, ∀ k < u.eq.1.rows, rowVal u.eq k y = rowVal u.eq k (sol E P n s0 pre)) →
      (∀ u ∈ pre, ∀ k < u.ineq.1.rows, rowVal u.ineq k y ≤ 0) →
      t.eqCost (sol E P n s0 (pre ++ [t])) + (1 + P.diag) * t.ineqCost 0 (sol E P n s0 (pre ++ [t])) +
          P.diag * dist2 n (sol E P n s0 (pre ++ [t])) (sol E P n s0 pre) ≤
        t.eqCost y + (1 + P.diag) * t.ineqCost 0 y + P.diag * dist2 n y (sol E P n s0 pre) := by
  intro E
  have ok := composed_runOk (inv := inv) (jm := jm) (jv := jv) hs hc hd (pre ++ [t]) _ (Inv.start E P n s0)
  have hret : (solveNextTask E P t (solveAll E P (start E n s0) pre)).2 = true :=
    C106_always_solved E P n s0 0 pre t hd hx ok.append.1 (fun q h1 h2 _ => codeQp_solves hc h1 h2)
  exact ⟨hret, fun y h1 h2 => C101_lexicographic E P n s0 0 pre t ht hpre hd.le ok hret y h1 h2⟩

example : ∃ svd chol, SvdsOk svd ∧ CholOk chol := by
  obtain ⟨s, hs⟩ := svds_exist
  obtain ⟨c, hc⟩ := chols_exist
  exact ⟨s, c, hs, hc⟩

end RtHqp
end Verif
