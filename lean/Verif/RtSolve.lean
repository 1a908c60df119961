/-
The real-time model run with the hierarchical solver and the QP solver of the repository
(`rt_solver::RtModel::solve` with `RtHQPSolver` and `RtQPSolver`): C234-C236, in terms of the constraints
added by `addLinConstr` and of the points that `solve` returns.
-/
import Verif.RtModelProps
import Verif.RtHqpExist
import Mathlib.Algebra.BigOperators.Fin

namespace Verif
namespace RtSolve

open Rt RtHqp

/-- `RtHQPSolver` as the solver of `RtModel`, RtModel.hpp:66 and RtHQPSolver.hpp:40-45: `reset`, the flag
`applyIneqSlacks()`, `solveNextTask` and `nullspaceDimension()`. -/
noncomputable def asHqp (E : Ext) (P : Params) : Hqp State where
  reset := fun n s => State.reset E n s
  slacks := fun s => s.slacks
  setSlacks := fun b s => { s with slacks := b }
  solveNextTask := fun a b s => RtHqp.solveNextTask E P ⟨a, b⟩ s
  nullDim := fun s => s.K.cols

/-! ### Specification -/

/-- The program `cs` of `addLinConstr` calls on a model with `n` variables, followed by `solve()` on a solver
in the state `s0`, returns `true` and leaves the solution `x`. -/
def Solves (E : Ext) (P : Params) (jm : Nat → Nat → ℝ) (jv : Nat → ℝ) (n : Nat) (s0 : State) (cs : List Call)
    (x : Nat → ℝ) : Prop :=
  ∃ m fuel r, addAll (Model.new n) cs = some m ∧ m.solve (asHqp E P) jm jv n fuel s0 = some r ∧
    r.valid = true ∧ r.hqp.x.at' = x

/-- The calls with a rank below `k`. -/
def below (k : Int) (cs : List Call) : List Call := cs.filter (fun c => decide (c.rank < k))

/-- The sum of the squared residuals of the equalities of rank `k`. -/
noncomputable def eqError (cs : List Call) (k : Int) (x : Nat → ℝ) : ℝ :=
  ((eqCalls cs k).map (fun c => c.residual x ^ 2)).sum

/-- The sum of the squared violations of the inequalities of rank `k`. -/
noncomputable def ineqError (cs : List Call) (k : Int) (x : Nat → ℝ) : ℝ :=
  ((ineqCalls cs k).map (fun c => max 0 (c.residual x) ^ 2)).sum

/-- A constraint that `solve` does not take for one without variables by mistake: it either has none, or
depends on the variables by more than `1e-12` times their size. -/
def Regular (n : Nat) (c : Call) : Prop :=
  (∀ x, c.residual x = c.residual (fun _ => 0)) ∨
  ∃ (x : Nat → ℝ) (B : ℝ), 0 ≤ B ∧ (∀ j < n, |x j| ≤ B) ∧ 1e-12 * B < |c.residual x - c.residual (fun _ => 0)|

/-- A program: known senses, variables of the model, regular constraints. -/
structure Program (n : Nat) (cs : List Call) : Prop where
  sense : ∀ c ∈ cs, c.sense ≠ .other
  range : InRange n cs
  regular : ∀ c ∈ cs, Regular n c

/-! ### The tasks -/

theorem addAll_some (cs : List Call) (h : ∀ c ∈ cs, c.sense ≠ .other) : ∀ m, ∃ m', addAll m cs = some m' := by
  induction cs with
  | nil => exact fun m => ⟨m, rfl⟩
  | cons c cs ih =>
    intro m
    have hc := h c (by simp)
    have := ih (fun c hc => h c (by simp [hc]))
    cases hs : c.sense with
    | eq =>
      obtain ⟨m', hm⟩ := this { m with eqs := m.eqs ++ [(c.rank, LinExpr.sub c.lhs c.rhs)] }
      exact ⟨m', by rw [addAll, hs]; exact hm⟩
    | le =>
      obtain ⟨m', hm⟩ := this { m with ineqs := m.ineqs ++ [(c.rank, LinExpr.sub c.lhs c.rhs)] }
      exact ⟨m', by rw [addAll, hs]; exact hm⟩
    | ge =>
      obtain ⟨m', hm⟩ := this { m with ineqs := m.ineqs ++ [(c.rank, LinExpr.sub c.rhs c.lhs)] }
      exact ⟨m', by rw [addAll, hs]; exact hm⟩
    | other => exact absurd hs hc

/-- The task of a rank. -/
noncomputable def taskOf (jm : Nat → Nat → ℝ) (jv : Nat → ℝ) (m : Model) (k : Int) : Task :=
  ⟨(m.buildTask jm jv k).1, (m.buildTask jm jv k).2⟩

/-- The tasks of the ranks below `N`. -/
noncomputable def tasks (jm : Nat → Nat → ℝ) (jv : Nat → ℝ) (m : Model) (N : Nat) : List Task :=
  (List.range N).map (fun k : Nat => taskOf jm jv m (k : Int))

theorem tasks_succ (jm : Nat → Nat → ℝ) (jv : Nat → ℝ) (m : Model) (N : Nat) :
    tasks jm jv m (N + 1) = tasks jm jv m N ++ [taskOf jm jv m N] := by
  simp [tasks, List.range_succ]

theorem tasks_split (jm : Nat → Nat → ℝ) (jv : Nat → ℝ) (m : Model) (k j : Nat) :
    ∃ post, post.length = j ∧ tasks jm jv m (k + 1 + j) = tasks jm jv m k ++ taskOf jm jv m k :: post := by
  induction j with
  | zero => exact ⟨[], rfl, tasks_succ jm jv m k⟩
  | succ j ih =>
    obtain ⟨post, h1, h2⟩ := ih
    refine ⟨post ++ [taskOf jm jv m (k + 1 + j : ℕ)], by simp [h1], ?_⟩
    rw [← Nat.add_assoc, tasks_succ, h2]
    simp

section
variable {jm : Nat → Nat → ℝ} {jv : Nat → ℝ} {n : Nat} {cs : List Call} {m : Model}

theorem taskOf_sized (hin : InRange n cs) (hm : addAll (Model.new n) cs = some m) (k : Int) : (taskOf jm jv m k).Sized n := by
  obtain ⟨⟨L, h⟩, L', h'⟩ := C91_task_of_rank jm jv n cs m hin hm k
  exact ⟨h.cols, h.size.trans h.rows.symm, h'.cols, h'.size.trans h'.rows.symm⟩

theorem addCosts_ofRank (rank : Int) (c : List (Int × LinExpr ℝ)) (a : Aff) :
    addCosts jm jv rank c a = addCosts jm jv rank (ofRank rank c) a := by
  have hcnt : ∀ n, rankCount rank c n = rankCount rank (ofRank rank c) n := by
    intro n; rw [rankCount_eq, rankCount_eq, ofRank, List.filter_filter]; simp
  have hwr : ∀ (old : Nat) (cs : List (Int × LinExpr ℝ)) (added : Nat) (a : Aff),
      writeRows rank old cs added a = writeRows rank old (ofRank rank cs) added a := by
    intro old cs
    induction cs with
    | nil => intro added a; rfl
    | cons d cs ih =>
      intro added a
      by_cases hd : d.1 = rank
      · rw [writeRows, if_pos hd, ih, show ofRank rank (d :: cs) = d :: ofRank rank cs by simp [ofRank, hd], writeRows, if_pos hd]
      · rw [writeRows, if_neg hd, ih, show ofRank rank (d :: cs) = ofRank rank cs by simp [ofRank, hd]]
  simp only [addCosts, hcnt, hwr _ c]

theorem taskOf_congr {cs' : List Call} {m' : Model} (hm : addAll (Model.new n) cs = some m) (hm' : addAll (Model.new n) cs' = some m') (k : Int)
    (h : cs.filter (fun c => decide (c.rank = k)) = cs'.filter (fun c => decide (c.rank = k))) :
    taskOf jm jv m k = taskOf jm jv m' k := by
  obtain ⟨a1, a2, a3, -, a5, a6⟩ := addAll_spec cs _ _ hm
  obtain ⟨b1, b2, b3, -, b5, b6⟩ := addAll_spec cs' _ _ hm'
  have key : ∀ p : Call → Bool, ofRank k ((cs.filter p).map Call.stored) = ofRank k ((cs'.filter p).map Call.stored) := by
    intro p
    rw [ofRank_stored, ofRank_stored]
    have := congrArg (List.filter p) h
    rw [List.filter_filter, List.filter_filter] at this
    rw [this]
  have he : ∀ a, addCosts jm jv k m.eqs a = addCosts jm jv k m'.eqs a := by
    intro a
    rw [addCosts_ofRank, addCosts_ofRank k m'.eqs, a5, b5]
    exact congrArg (fun l => addCosts jm jv k l a) (key _)
  have hi : ∀ a, addCosts jm jv k m.ineqs a = addCosts jm jv k m'.ineqs a := by
    intro a
    rw [addCosts_ofRank, addCosts_ofRank k m'.ineqs, a6, b6]
    exact congrArg (fun l => addCosts jm jv k l a) (key _)
  have hb : m.buildTask jm jv k = m'.buildTask jm jv k := by
    simp only [Model.buildTask, a1, a2, a3, b1, b2, b3, he, hi]
  rw [taskOf, hb]
  rfl

/-- A rank without calls makes an empty task, which is skipped. -/
theorem taskOf_empty (hin : InRange n cs) (hm : addAll (Model.new n) cs = some m) (k : Int) (h : ∀ c ∈ cs, c.rank ≠ k) (s : State) :
    skips (taskOf jm jv m k) s = true := by
  obtain ⟨⟨L, hL⟩, L', hL'⟩ := C91_task_of_rank jm jv n cs m hin hm k
  have e1 : eqCalls cs k = [] := List.filter_eq_nil_iff.2 fun c hc => by simpa using fun _ => h c hc
  have e2 : ineqCalls cs k = [] := List.filter_eq_nil_iff.2 fun c hc => by simpa using fun _ => h c hc
  have f : ∀ {E : List Call} {t : Aff} {L : List Nat}, E = [] → Represents n E t L → t.1.rows = 0 := by
    intro E t L hE hr
    rw [hr.rows]
    cases L with
    | nil => rfl
    | cons a L =>
      have := hr.lt a (by simp)
      rw [hE] at this
      simp at this
  have r1 : (taskOf jm jv m k).eq.1.rows = 0 := f e1 hL
  have r2 : (taskOf jm jv m k).ineq.1.rows = 0 := f e2 hL'
  simp [skips, r1, r2]

/-- The rows of a task are the residuals of calls; a call of which no row is left is constant. -/
theorem rows_calls {E : List Call} {t : Aff} {L : List Nat} (hr : Represents n E t L) (hreg : ∀ c ∈ E, Regular n c) :
    (∀ k < t.1.rows, ∃ c ∈ E, ∀ x, rowVal t k x = c.residual x) ∧
    (∀ c ∈ E, (∃ k < t.1.rows, ∀ x, rowVal t k x = c.residual x) ∨ ∀ x y, c.residual x = c.residual y) ∧
    ∃ C : (((Nat → ℝ) → ℝ) → ℝ) → ℝ,
      (∀ f, (E.map (fun c => f c.residual)).sum = ∑ k ∈ Finset.range t.1.rows, f (rowVal t k) + C f) ∧
      (∀ f g, (∀ v, f (fun _ => v) = g (fun _ => v)) → C f = C g) ∧ (∀ f, (∀ v, f (fun _ => v) = 0) → C f = 0) := by
  have hv : ∀ k (hk : k < L.length), rowVal t k = (E[L[k]]'(hr.lt _ (List.getElem_mem hk))).residual := by
    intro k hk
    funext x
    have := hr.value k hk (hr.lt _ (List.getElem_mem hk)) x
    rw [← this, rowVal, hr.cols]
  have hdrop : ∀ i (hi : i < E.length), i ∉ L → ∃ v, (E[i]).residual = fun _ => v := by
    intro i hi hiL
    rcases hreg E[i] (List.getElem_mem hi) with h | ⟨x, B, hB, hx, h⟩
    · exact ⟨_, funext h⟩
    · exact absurd (hr.dropped i hi hiL x B hB hx) (not_le.2 h)
  refine ⟨?_, ?_, fun f => ∑ i ∈ Finset.range E.length \ L.toFinset, if h : i < E.length then f (E[i]).residual else 0, ?_, ?_, ?_⟩
  · intro k hk
    rw [hr.rows] at hk
    exact ⟨_, List.getElem_mem (hr.lt _ (List.getElem_mem hk)), fun x => congrFun (hv k hk) x⟩
  · intro c hc
    obtain ⟨i, hi, rfl⟩ := List.getElem_of_mem hc
    by_cases hiL : i ∈ L
    · obtain ⟨k, hk, rfl⟩ := List.getElem_of_mem hiL
      exact Or.inl ⟨k, by rw [hr.rows]; exact hk, fun x => congrFun (hv k hk) x⟩
    · obtain ⟨v, hv⟩ := hdrop i hi hiL
      exact Or.inr fun x y => by rw [hv]
  · intro f
    have hsub : L.toFinset ⊆ Finset.range E.length := by
      intro i hi
      rw [Finset.mem_range]
      exact hr.lt i (List.mem_toFinset.1 hi)
    have e1 : (E.map (fun c => f c.residual)).sum = ∑ i ∈ Finset.range E.length, if h : i < E.length then f (E[i]).residual else 0 := by
      rw [← Fin.sum_univ_eq_sum_range (fun i => if h : i < E.length then f (E[i]).residual else 0)]
      rw [← Fin.sum_univ_getElem, ← (finCongr (List.length_map (as := E) (fun c => f c.residual))).sum_comp]
      apply Finset.sum_congr rfl
      intro i _
      have hi : (i : ℕ) < E.length := by have := i.2; simpa using this
      simp only [finCongr_apply, Fin.getElem_fin, List.getElem_map, Fin.val_cast]
      rw [dif_pos hi]
    have e2 : ∑ i ∈ L.toFinset, (if h : i < E.length then f (E[i]).residual else 0) = ∑ k ∈ Finset.range t.1.rows, f (rowVal t k) := by
      have hnd : L.Nodup := hr.sorted.imp (fun h => ne_of_lt h)
      rw [List.sum_toFinset _ hnd, hr.rows]
      rw [← Fin.sum_univ_eq_sum_range (fun k => f (rowVal t k))]
      rw [← Fin.sum_univ_getElem, ← (finCongr (List.length_map (as := L) (fun i => if h : i < E.length then f (E[i]).residual else 0))).sum_comp]
      apply Finset.sum_congr rfl
      intro k _
      have hk : (k : ℕ) < L.length := by have := k.2; simpa using this
      simp only [finCongr_apply, Fin.getElem_fin, List.getElem_map, Fin.val_cast]
      rw [dif_pos (hr.lt _ (List.getElem_mem hk)), hv k hk]
    rw [e1, ← e2, add_comm, Finset.sum_sdiff hsub]
  · intro f g hfg
    apply Finset.sum_congr rfl
    intro i hi
    rw [Finset.mem_sdiff, Finset.mem_range, List.mem_toFinset] at hi
    rw [dif_pos hi.1, dif_pos hi.1]
    obtain ⟨v, hv⟩ := hdrop i hi.1 hi.2
    rw [hv]; exact hfg v
  · intro f hf
    apply Finset.sum_eq_zero
    intro i hi
    rw [Finset.mem_sdiff, Finset.mem_range, List.mem_toFinset] at hi
    rw [dif_pos hi.1]
    obtain ⟨v, hv⟩ := hdrop i hi.1 hi.2
    rw [hv]; exact hf v

end

/-! ### The loop over the ranks -/

section
variable {svd : Mat → Svd} {chol : Mat → Nat → Nat → ℝ} {inv : Mat → Mat} {em : Nat → Nat → ℝ} {ev : Nat → ℝ} {P : Params}
variable {jm : Nat → Nat → ℝ} {jv : Nat → ℝ} {n : Nat} {cs : List Call} {m : Model} {s0 : State}

/-- Once no freedom or no higher rank is left, further tasks do not change the solution. -/
theorem sol_stable (hs : SvdsOk svd) (hc : CholOk chol) (hd : 0 < P.diag) (hthr : 1 ≤ P.thr) (hin : InRange n cs)
    (hm : addAll (Model.new n) cs = some m) (N : Nat)
    (h : (solveAll (composed svd chol 0 inv em ev) P (start (composed svd chol 0 inv em ev) n s0) (tasks jm jv m N)).K.cols = 0 ∨ ∀ c ∈ cs, c.rank < N) (j : Nat) :
    sol (composed svd chol 0 inv em ev) P n s0 (tasks jm jv m (N + j)) = sol (composed svd chol 0 inv em ev) P n s0 (tasks jm jv m N) ∧
    ((solveAll (composed svd chol 0 inv em ev) P (start (composed svd chol 0 inv em ev) n s0) (tasks jm jv m (N + j))).K.cols = 0 ∨ ∀ c ∈ cs, c.rank < N) := by
  induction j with
  | zero => exact ⟨rfl, h⟩
  | succ j ih =>
    rw [← Nat.add_assoc, tasks_succ, ← ih.1]
    have ok := composed_runOk (inv := inv) (jm := em) (jv := ev) (P := P) hs hc hd (tasks jm jv m (N + j) ++ [taskOf jm jv m (N + j : ℕ)]) _
      (Inv.start (composed svd chol 0 inv em ev) P n s0)
    have hsz : ∀ u ∈ tasks jm jv m (N + j), u.Sized n := by
      intro u hu
      obtain ⟨k, -, rfl⟩ := List.mem_map.1 hu
      exact taskOf_sized hin hm _
    have h4 := C104_nullspace_dimension (composed svd chol 0 inv em ev) P n s0 0 (tasks jm jv m (N + j)) (taskOf jm jv m (N + j : ℕ)) hsz
      (taskOf_sized hin hm _) hthr ok
    rcases ih.2 with h2 | h2
    · exact ⟨funext (h4.2.2.2 h2), Or.inl (Nat.le_zero.1 (h2 ▸ h4.2.1))⟩
    · refine ⟨?_, Or.inr h2⟩
      unfold sol
      rw [solveAll_append]
      show (solveNextTask _ _ _ _).1.x.at' = _
      rw [step_skip (taskOf_empty hin hm _ (fun c hc he => by have := h2 c hc; rw [he] at this; push_cast at this; omega) _)]

/-- Every run of the loop ends with the solution of the tasks of all ranks. -/
theorem loop_sol (hs : SvdsOk svd) (hc : CholOk chol) (hd : 0 < P.diag) (hx : 0 ≤ P.relax) (hin : InRange n cs) (hsn : ∀ c ∈ cs, c.sense ≠ .other)
    (hm : addAll (Model.new n) cs = some m) (h0 : s0.slacks = true) (fuel : Nat) : ∀ (k : Nat) (r r' : Result State),
    (if k = 0 then r.hqp = s0 else r.hqp = solveAll (composed svd chol 0 inv em ev) P (start (composed svd chol 0 inv em ev) n s0) (tasks jm jv m k)) → r.valid = true →
    m.solveLoop (asHqp (composed svd chol 0 inv em ev) P) jm jv n fuel k r = some r' →
    r'.valid = true ∧ ∃ N, 0 < N ∧ r'.hqp = solveAll (composed svd chol 0 inv em ev) P (start (composed svd chol 0 inv em ev) n s0) (tasks jm jv m N) ∧
      (r'.hqp.K.cols = 0 ∨ ∀ c ∈ cs, c.rank < N) := by
  obtain ⟨a1, a2, a3, a4, a5, a6⟩ := addAll_spec cs _ _ hm
  have hns : m.noSlack.length = 0 := by rw [a4]; rfl
  induction fuel with
  | zero => intro k r r' _ _ h; simp [Model.solveLoop] at h
  | succ fuel ih =>
    intro k r r' hr hv h
    rw [Model.solveLoop] at h
    simp only [hns, gt_iff_lt, lt_irrefl, if_false] at h
    have hst : (if (k : Int) = 0 then (asHqp (composed svd chol 0 inv em ev) P).reset n r.hqp else r.hqp) =
        solveAll (composed svd chol 0 inv em ev) P (start (composed svd chol 0 inv em ev) n s0) (tasks jm jv m k) := by
      by_cases hk : k = 0
      · subst hk
        rw [if_pos rfl] at hr
        rw [if_pos (by rfl), hr]
        show State.reset _ n s0 = State.reset _ n _
        congr 1
        cases s0
        simp only at h0
        rw [h0]
      · rw [if_neg hk] at hr
        rw [if_neg (by exact_mod_cast hk), hr]
    rw [hst] at h
    have ok := composed_runOk (inv := inv) (jm := em) (jv := ev) (P := P) hs hc hd (tasks jm jv m k) _ (Inv.start (composed svd chol 0 inv em ev) P n s0)
    have hret := C106_always_solved (composed svd chol 0 inv em ev) P n s0 0 (tasks jm jv m k) (taskOf jm jv m k) hd hx ok
      (fun q h1 h2 _ => codeQp_solves hc h1 h2)
    have hstep : (asHqp (composed svd chol 0 inv em ev) P).solveNextTask (m.buildTask jm jv k).1 (m.buildTask jm jv k).2
        (solveAll (composed svd chol 0 inv em ev) P (start (composed svd chol 0 inv em ev) n s0) (tasks jm jv m k)) =
        (solveAll (composed svd chol 0 inv em ev) P (start (composed svd chol 0 inv em ev) n s0) (tasks jm jv m (k + 1)), true) := by
      rw [tasks_succ, solveAll_append]
      exact Prod.ext rfl hret
    rw [hstep] at h
    simp only [if_true, hv, Bool.and_true] at h
    split_ifs at h with hcond
    · rw [show ((k : Int) + 1) = ((k + 1 : ℕ) : Int) by push_cast; rfl] at h
      exact ih (k + 1) _ _ (by rw [if_neg (Nat.succ_ne_zero k)]) rfl h
    · simp only [Option.some.injEq] at h
      subst h
      refine ⟨rfl, k + 1, Nat.succ_pos k, rfl, ?_⟩
      simp only [Bool.and_eq_true, decide_eq_true_eq, not_and, not_not] at hcond
      by_cases hmore : m.moreRanks k = true
      · exact Or.inl (hcond hmore)
      · right
        rw [moreRanks_iff] at hmore
        push Not at hmore
        intro c hcm
        have hmem : ∀ p : Call → Bool, p c = true → c.stored ∈ (cs.filter p).map Call.stored := fun p hp => List.mem_map_of_mem (List.mem_filter.2 ⟨hcm, hp⟩)
        have hrk : c.stored.1 = c.rank := rfl
        cases hse : c.sense with
        | eq =>
          have := hmore.1 c.stored (by rw [a5]; exact List.mem_append_right _ (hmem _ (by simp [hse])))
          rw [hrk] at this; push_cast; omega
        | le =>
          have := hmore.2.1 c.stored (by rw [a6]; exact List.mem_append_right _ (hmem _ (by simp [hse])))
          rw [hrk] at this; push_cast; omega
        | ge =>
          have := hmore.2.1 c.stored (by rw [a6]; exact List.mem_append_right _ (hmem _ (by simp [hse])))
          rw [hrk] at this; push_cast; omega
        | other => exact absurd hse (hsn c hcm)

/-- What `solve` returns is the solution of the tasks of the ranks below any bound on the ranks used. -/
theorem solves_iff (hs : SvdsOk svd) (hc : CholOk chol) (hd : 0 < P.diag) (hx : 0 ≤ P.relax) (hthr : 1 ≤ P.thr) (hin : InRange n cs)
    (hsn : ∀ c ∈ cs, c.sense ≠ .other) (hm : addAll (Model.new n) cs = some m) (h0 : s0.slacks = true) (N : Nat) (hN : ∀ c ∈ cs, c.rank < N) (x : Nat → ℝ) :
    Solves (composed svd chol 0 inv em ev) P jm jv n s0 cs x ↔ x = sol (composed svd chol 0 inv em ev) P n s0 (tasks jm jv m N) := by
  have key : ∀ fuel r, m.solve (asHqp (composed svd chol 0 inv em ev) P) jm jv n fuel s0 = some r → r.valid = true ∧
      r.hqp.x.at' = sol (composed svd chol 0 inv em ev) P n s0 (tasks jm jv m N) := by
    intro fuel r hr
    obtain ⟨h1, M, -, h2, h3⟩ := loop_sol (inv := inv) (em := em) (ev := ev) hs hc hd hx hin hsn hm h0 fuel 0 ⟨s0, 0, true, []⟩ r (by rw [if_pos rfl]) rfl hr
    refine ⟨h1, ?_⟩
    rw [h2] at h3 ⊢
    have e1 := (sol_stable (jm := jm) (jv := jv) (s0 := s0) (inv := inv) (em := em) (ev := ev) hs hc hd hthr hin hm M h3 N).1
    have e2 := (sol_stable (jm := jm) (jv := jv) (s0 := s0) (inv := inv) (em := em) (ev := ev) hs hc hd hthr hin hm N (Or.inr hN) M).1
    rw [show M + N = N + M from Nat.add_comm _ _] at e1
    exact e1.symm.trans e2
  constructor
  · rintro ⟨m', fuel, r, hm', hr, hv, rfl⟩
    rw [hm] at hm'
    obtain rfl : m = m' := by simpa using hm'
    exact (key fuel r hr).2
  · rintro rfl
    have hB : RanksBelow m (N : Int) := by
      obtain ⟨a1, a2, a3, a4, a5, a6⟩ := addAll_spec cs _ _ hm
      refine ⟨?_, ?_, ?_⟩
      · intro c hc
        rw [a5] at hc
        obtain ⟨c', hc', rfl⟩ := List.mem_map.1 (show c ∈ (cs.filter _).map Call.stored from hc)
        exact (hN c' (List.mem_filter.1 hc').1).le
      · intro c hc
        rw [a6] at hc
        obtain ⟨c', hc', rfl⟩ := List.mem_map.1 (show c ∈ (cs.filter _).map Call.stored from hc)
        exact (hN c' (List.mem_filter.1 hc').1).le
      · intro c hc
        rw [a3] at hc
        cases hc
    obtain ⟨r, hr, -⟩ := C92_solve_ranks (asHqp (composed svd chol 0 inv em ev) P) jm jv m n s0 N hB
    exact ⟨m, _, r, hm, hr, (key _ r hr).1, (key _ r hr).2⟩

theorem below_program (h : Program n cs) (k : Int) : Program n (below k cs) where
  sense := fun c hc => h.sense c (List.mem_filter.1 hc).1
  range := fun c hc => h.range c (List.mem_filter.1 hc).1
  regular := fun c hc => h.regular c (List.mem_filter.1 hc).1

/-- The program restricted to the ranks below `k` is solved by the first `k` tasks. -/
theorem solves_below (hs : SvdsOk svd) (hc : CholOk chol) (hd : 0 < P.diag) (hx : 0 ≤ P.relax) (hthr : 1 ≤ P.thr) (h : Program n cs)
    (hm : addAll (Model.new n) cs = some m) (h0 : s0.slacks = true) (k : Nat) (x : Nat → ℝ) :
    Solves (composed svd chol 0 inv em ev) P jm jv n s0 (below k cs) x ↔ x = sol (composed svd chol 0 inv em ev) P n s0 (tasks jm jv m k) := by
  have hb := below_program h (k : Int)
  obtain ⟨m', hm'⟩ := addAll_some _ hb.sense (Model.new n)
  rw [solves_iff hs hc hd hx hthr hb.range hb.sense hm' h0 k (fun c hc => by simpa using (List.mem_filter.1 hc).2)]
  have : tasks jm jv m' k = tasks jm jv m k := by
    apply List.map_congr_left
    intro j hj
    refine taskOf_congr hm' hm _ ?_
    rw [below, List.filter_filter]
    apply List.filter_congr
    intro c _
    rw [List.mem_range] at hj
    by_cases hcj : c.rank = (j : Int)
    · simp [hcj, hj]
    · simp [hcj]
  rw [this]

end

/-! ### C234: `solve` solves the hierarchy -/

/-- C234, `solve` succeeds: for every program exactly one point is returned, whatever the solver was used for before. -/
theorem C234_solved (svd : Mat → Svd) (chol : Mat → Nat → Nat → ℝ) (inv : Mat → Mat) (em jm : Nat → Nat → ℝ) (ev jv : Nat → ℝ)
    (hs : SvdsOk svd) (hc : CholOk chol) (P : Params) (hd : 0 < P.diag) (hx : 0 ≤ P.relax) (hthr : 1 ≤ P.thr)
    (n : Nat) (cs : List Call) (h : Program n cs) (s0 : State) (h0 : s0.slacks = true) :
    ∃! x, Solves (composed svd chol 0 inv em ev) P jm jv n s0 cs x := by
  obtain ⟨m, hm⟩ := addAll_some _ h.sense (Model.new n)
  obtain ⟨N, hN⟩ : ∃ N : Nat, ∀ c ∈ cs, c.rank < N := by
    clear h hm
    induction cs with
    | nil => exact ⟨0, by simp⟩
    | cons c cs ih =>
      obtain ⟨N, hN⟩ := ih
      refine ⟨max N (c.rank.toNat + 1), fun d hd => ?_⟩
      rcases List.mem_cons.1 hd with rfl | hd
      · have := Int.self_le_toNat d.rank; omega
      · have := hN d hd; omega
  refine ⟨_, (solves_iff hs hc hd hx hthr h.range h.sense hm h0 N hN _).2 rfl, fun y hy => (solves_iff hs hc hd hx hthr h.range h.sense hm h0 N hN y).1 hy⟩

/-- C234, the point returned is optimal rank by rank: let `x0` be the point returned for the constraints of the ranks below `k` and `x1` the one for the ranks up to `k`.
Then `x1` minimises the squared residuals of the equalities plus the squared violations of the inequalities of rank `k` (regularised by `psd_hessian_diag`), among all points that leave the
residuals of the equalities of lower ranks as they are at `x0` and meet their inequalities. -/
theorem C234_lexicographic (svd : Mat → Svd) (chol : Mat → Nat → Nat → ℝ) (inv : Mat → Mat) (em jm : Nat → Nat → ℝ) (ev jv : Nat → ℝ)
    (hs : SvdsOk svd) (hc : CholOk chol) (P : Params) (hd : 0 < P.diag) (hx : 0 ≤ P.relax) (hthr : 1 ≤ P.thr)
    (n : Nat) (cs : List Call) (h : Program n cs) (s0 : State) (h0 : s0.slacks = true) (k : Nat) (x0 x1 : Nat → ℝ)
    (hx0 : Solves (composed svd chol 0 inv em ev) P jm jv n s0 (below k cs) x0)
    (hx1 : Solves (composed svd chol 0 inv em ev) P jm jv n s0 (below (k + 1) cs) x1)
    (y : Nat → ℝ) (hye : ∀ c ∈ cs, c.sense = .eq → 0 ≤ c.rank → c.rank < k → c.residual y = c.residual x0)
    (hyi : ∀ c ∈ cs, c.sense ≠ .eq → 0 ≤ c.rank → c.rank < k → c.residual y ≤ 0) :
    eqError cs k x1 + (1 + P.diag) * ineqError cs k x1 + P.diag * dist2 n x1 x0 ≤
      eqError cs k y + (1 + P.diag) * ineqError cs k y + P.diag * dist2 n y x0 := by
  obtain ⟨m, hm⟩ := addAll_some _ h.sense (Model.new n)
  rw [solves_below hs hc hd hx hthr h hm h0 k] at hx0
  have hx1' := (solves_below hs hc hd hx hthr h hm h0 (k + 1) x1).1 (by exact_mod_cast hx1)
  rw [tasks_succ] at hx1'
  have hall : ∀ j : Int, (∀ c ∈ eqCalls cs j, c ∈ cs ∧ c.sense = .eq ∧ c.rank = j) ∧ (∀ c ∈ ineqCalls cs j, c ∈ cs ∧ c.sense ≠ .eq ∧ c.rank = j) := by
    intro j
    constructor
    · intro c hcm
      have := List.mem_filter.1 hcm
      simp only [decide_eq_true_eq] at this
      exact ⟨this.1, this.2⟩
    · intro c hcm
      have := List.mem_filter.1 hcm
      simp only [decide_eq_true_eq] at this
      refine ⟨this.1, ?_, this.2.2⟩
      rcases this.2.1 with e | e <;> simp [e]
  have main := (C107_composed svd chol inv em ev hs hc P hd hx n s0 (tasks jm jv m k) (taskOf jm jv m k)
    (by intro u hu; obtain ⟨j, -, rfl⟩ := List.mem_map.1 hu; exact taskOf_sized h.range hm _) (taskOf_sized h.range hm _)).2 y
    (by
      intro u hu i hi
      obtain ⟨j, hj, rfl⟩ := List.mem_map.1 hu
      rw [List.mem_range] at hj
      obtain ⟨⟨L, hL⟩, -⟩ := C91_task_of_rank jm jv n cs m h.range hm (j : Int)
      obtain ⟨c, hcm, hv⟩ := (rows_calls hL (fun c hcm => h.regular c ((hall j).1 c hcm).1)).1 i hi
      obtain ⟨c1, c2, c3⟩ := (hall j).1 c hcm
      rw [show (taskOf jm jv m (j : Int)).eq = (m.buildTask jm jv (j : Int)).1 from rfl, hv, hv, ← hx0]
      exact hye c c1 c2 (by omega) (by omega))
    (by
      intro u hu i hi
      obtain ⟨j, hj, rfl⟩ := List.mem_map.1 hu
      rw [List.mem_range] at hj
      obtain ⟨-, L, hL⟩ := C91_task_of_rank jm jv n cs m h.range hm (j : Int)
      obtain ⟨c, hcm, hv⟩ := (rows_calls hL (fun c hcm => h.regular c ((hall j).2 c hcm).1)).1 i hi
      obtain ⟨c1, c2, c3⟩ := (hall j).2 c hcm
      rw [show (taskOf jm jv m (j : Int)).ineq = (m.buildTask jm jv (j : Int)).2 from rfl, hv]
      exact hyi c c1 c2 (by omega) (by omega))
  rw [← hx1', ← hx0] at main
  obtain ⟨⟨L, hL⟩, L', hL'⟩ := C91_task_of_rank jm jv n cs m h.range hm (k : Int)
  obtain ⟨-, -, C, hC1, hC2, -⟩ := rows_calls hL (fun c hcm => h.regular c ((hall k).1 c hcm).1)
  obtain ⟨-, -, D, hD1, hD2, -⟩ := rows_calls hL' (fun c hcm => h.regular c ((hall k).2 c hcm).1)
  have ce : ∀ z, eqError cs k z = (taskOf jm jv m k).eqCost z + C (fun φ => φ z ^ 2) := fun z => hC1 (fun φ => φ z ^ 2)
  have ci : ∀ z, ineqError cs k z = (taskOf jm jv m k).ineqCost 0 z + D (fun φ => max 0 (φ z) ^ 2) := by
    intro z
    have := hD1 (fun φ => max 0 (φ z) ^ 2)
    unfold ineqError Task.ineqCost RtHqp.sq
    rw [this]
    simp only [sub_zero]
    rfl
  rw [ce, ce, ci, ci, hC2 (fun φ => φ y ^ 2) (fun φ => φ x1 ^ 2) (fun _ => rfl), hD2 (fun φ => max 0 (φ y) ^ 2) (fun φ => max 0 (φ x1) ^ 2) (fun _ => rfl)]
  linarith

/-! ### C235: what the lower priorities do to the higher ones -/

/-- C235, equalities: let `x1` be the point returned for the ranks up to `k` and `x` the one for all ranks. The equality residuals of rank `k` differ by at most
`L / hsol_max_eq_cond` times the distance of the points, `L` being a Lipschitz constant of these residuals. -/
theorem C235_equalities_kept (svd : Mat → Svd) (chol : Mat → Nat → Nat → ℝ) (inv : Mat → Mat) (em jm : Nat → Nat → ℝ) (ev jv : Nat → ℝ)
    (hs : SvdsOk svd) (hc : CholOk chol) (P : Params) (hd : 0 < P.diag) (hx : 0 ≤ P.relax) (hthr : 1 ≤ P.thr)
    (n : Nat) (cs : List Call) (h : Program n cs) (s0 : State) (h0 : s0.slacks = true) (k : Nat) (x1 x : Nat → ℝ)
    (hx1 : Solves (composed svd chol 0 inv em ev) P jm jv n s0 (below (k + 1) cs) x1)
    (hxx : Solves (composed svd chol 0 inv em ev) P jm jv n s0 cs x) (L : ℝ) (hL : 0 ≤ L)
    (hlip : ∀ u v : Nat → ℝ, ((eqCalls cs k).map (fun c => (c.residual u - c.residual v) ^ 2)).sum ≤ L ^ 2 * dist2 n u v) :
    ((eqCalls cs k).map (fun c => (c.residual x - c.residual x1) ^ 2)).sum ≤ (L / P.thr) ^ 2 * dist2 n x x1 := by
  obtain ⟨m, hm⟩ := addAll_some _ h.sense (Model.new n)
  have hx1' := (solves_below hs hc hd hx hthr h hm h0 (k + 1) x1).1 (by exact_mod_cast hx1)
  obtain ⟨N, hN⟩ : ∃ N : Nat, ∀ c ∈ cs, c.rank < (k + 1 + N : ℕ) := by
    clear h hm hx1 hxx hlip hx1'
    induction cs with
    | nil => exact ⟨0, by simp⟩
    | cons c cs ih =>
      obtain ⟨N, hN⟩ := ih
      refine ⟨max N c.rank.toNat, fun d hd => ?_⟩
      rcases List.mem_cons.1 hd with rfl | hd
      · have := Int.self_le_toNat d.rank; omega
      · have := hN d hd; omega
  have hxx' := (solves_iff hs hc hd hx hthr h.range h.sense hm h0 _ hN x).1 hxx
  obtain ⟨post, -, hpost⟩ := tasks_split jm jv m k N
  rw [hpost] at hxx'
  rw [tasks_succ] at hx1'
  obtain ⟨⟨K, hK⟩, -⟩ := C91_task_of_rank jm jv n cs m h.range hm (k : Int)
  have hreg : ∀ c ∈ eqCalls cs k, Regular n c := fun c hcm => h.regular c (List.mem_filter.1 hcm).1
  obtain ⟨-, -, C, hC1, -, hC3⟩ := rows_calls hK hreg
  have hsum : ∀ u v : Nat → ℝ, ((eqCalls cs k).map (fun c => (c.residual u - c.residual v) ^ 2)).sum =
      sq (taskOf jm jv m k).eq.1.rows (fun i => rowVal (taskOf jm jv m k).eq i u - rowVal (taskOf jm jv m k).eq i v) := by
    intro u v
    have := hC1 (fun φ => (φ u - φ v) ^ 2)
    rw [hC3 _ (fun _ => by simp), add_zero] at this
    exact this
  have hcol : (taskOf jm jv m k).eq.1.cols = n := hK.cols
  have main := C100_equalities_kept (composed svd chol 0 inv em ev) P n s0 0 (tasks jm jv m k) post (taskOf jm jv m k) (by linarith)
    (composed_runOk (inv := inv) (jm := em) (jv := ev) hs hc hd _ _ (Inv.start _ P n s0)) L hL (by
      intro v
      have h1 := hlip v (fun _ => 0)
      rw [hsum] at h1
      unfold dist2 at h1
      simp only [sub_zero] at h1
      refine le_trans (le_of_eq ?_) h1
      apply sq_congr
      intro i _
      simp [rowVal, mulV])
  rw [hsum, hxx', hx1']
  exact main

/-- C235, inequalities: an inequality of rank `k` violated by `v` at the point returned for the ranks up to `k` (`v = 0` if it is met there) is violated by at most
`v + j (v + ineq_relax)` at the point returned for all ranks, if there are at most `j` higher ranks. -/
theorem C235_inequalities_kept (svd : Mat → Svd) (chol : Mat → Nat → Nat → ℝ) (inv : Mat → Mat) (em jm : Nat → Nat → ℝ) (ev jv : Nat → ℝ)
    (hs : SvdsOk svd) (hc : CholOk chol) (P : Params) (hd : 0 < P.diag) (hx : 0 ≤ P.relax) (hthr : 1 ≤ P.thr)
    (n : Nat) (cs : List Call) (h : Program n cs) (s0 : State) (h0 : s0.slacks = true) (k j : Nat) (hj : ∀ c ∈ cs, c.rank ≤ (k + j : ℕ)) (x1 x : Nat → ℝ)
    (hx1 : Solves (composed svd chol 0 inv em ev) P jm jv n s0 (below (k + 1) cs) x1)
    (hxx : Solves (composed svd chol 0 inv em ev) P jm jv n s0 cs x) (c : Call) (hcm : c ∈ cs) (hcs : c.sense ≠ .eq) (hcr : c.rank = k) :
    c.residual x ≤ max 0 (c.residual x1) + j * (max 0 (c.residual x1) + P.relax) := by
  obtain ⟨m, hm⟩ := addAll_some _ h.sense (Model.new n)
  have hx1' := (solves_below hs hc hd hx hthr h hm h0 (k + 1) x1).1 (by exact_mod_cast hx1)
  have hxx' := (solves_iff hs hc hd hx hthr h.range h.sense hm h0 (k + 1 + j) (fun c hcm => by have := hj c hcm; push_cast at this ⊢; omega) x).1 hxx
  obtain ⟨post, hlen, hpost⟩ := tasks_split jm jv m k j
  rw [hpost] at hxx'
  rw [tasks_succ] at hx1'
  obtain ⟨-, K, hK⟩ := C91_task_of_rank jm jv n cs m h.range hm (k : Int)
  have hin : c ∈ ineqCalls cs k := by
    refine List.mem_filter.2 ⟨hcm, ?_⟩
    have := h.sense c hcm
    simp only [decide_eq_true_eq]
    refine ⟨?_, hcr⟩
    cases hse : c.sense
    · exact absurd hse hcs
    · exact Or.inl rfl
    · exact Or.inr rfl
    · exact absurd hse this
  have hnn : 0 ≤ (j : ℝ) * (max 0 (c.residual x1) + P.relax) := mul_nonneg (Nat.cast_nonneg _) (add_nonneg (le_max_left _ _) hx)
  rcases (rows_calls hK (fun c hcm => h.regular c (List.mem_filter.1 hcm).1)).2.1 c hin with ⟨i, hi, hv⟩ | hconst
  · have main := C102_inequalities_bound (composed svd chol 0 inv em ev) P n s0 0 (tasks jm jv m k) post (taskOf jm jv m k) hd.le hx le_rfl
      (composed_runOk (inv := inv) (jm := em) (jv := ev) hs hc hd _ _ (Inv.start _ P n s0)) i hi
    rw [← hxx', ← hx1', show (taskOf jm jv m (k : Int)).ineq = (m.buildTask jm jv (k : Int)).2 from rfl, hv, hv, hlen, add_zero] at main
    exact main
  · rw [hconst x x1]
    have := le_max_right 0 (c.residual x1)
    linarith

/-- The parameters the constructor reads by default meet the conditions. -/
example : 0 < defaults.diag ∧ 0 ≤ defaults.relax ∧ 1 ≤ defaults.thr := by norm_num [defaults]

/-- A program over three ranks: `x0 + x1 < 2 x0 + 3` at rank 0, `x1 = 4` at rank 1, `x0 > x1` at rank 2. -/
noncomputable def exCalls : List Call :=
  [⟨⟨0, [(0, 1), (1, 1)]⟩, .le, ⟨3, [(0, 2)]⟩, 0⟩, ⟨⟨0, [(1, 1)]⟩, .eq, ⟨4, []⟩, 1⟩, ⟨⟨0, [(0, 1)]⟩, .ge, ⟨0, [(1, 1)]⟩, 2⟩]

theorem exCalls_program : Program 2 exCalls := by
  refine ⟨?_, ?_, ?_⟩ <;> intro c hc <;> simp only [exCalls, List.mem_cons, List.not_mem_nil, or_false] at hc
  · rcases hc with rfl | rfl | rfl <;> decide
  · rcases hc with rfl | rfl | rfl <;> simp [LinExpr.cols]
  · refine Or.inr ⟨fun j => if j = 1 then 1 else 0, 1, zero_le_one, fun j _ => by dsimp only; split_ifs <;> norm_num, ?_⟩
    rcases hc with rfl | rfl | rfl <;> norm_num [Call.residual, LinExpr.getValue, LinExpr.sumLoop]

/-- C93 is violated by the solver of the repository: whatever the program and the initial state, once some level has been declared without slacks, every level is solved with slacks. -/
theorem C93_hqp_violated (E : Ext) (P : Params) (jm : Nat → Nat → ℝ) (jv : Nat → ℝ) (m : Model) (hne : m.noSlack ≠ []) (n fuel : Nat) (s0 : State) (r : Result State)
    (hr : m.solve (asHqp E P) jm jv n fuel s0 = some r) : ∀ e ∈ r.log, e.2.2 = true :=
  C93_violated (asHqp E P) ⟨fun _ _ => rfl, fun _ _ => rfl⟩ jm jv m hne n fuel s0 r hr

/-- Some level declared without slacks. -/
example : ({ Model.new 2 with noSlack := [1] } : Model).noSlack ≠ [] := by simp

/-- The hypotheses of C234 and C235 are met by this program, the default parameters and a fresh solver. -/
example (s : State) : ∃ svd chol, SvdsOk svd ∧ CholOk chol ∧ ∃ x0 x1 x2,
    Solves (composed svd chol 0 id (fun _ _ => 0) (fun _ => 0)) defaults (fun _ _ => 0) (fun _ => 0) 2 { s with slacks := true } (below 1 exCalls) x0 ∧
    Solves (composed svd chol 0 id (fun _ _ => 0) (fun _ => 0)) defaults (fun _ _ => 0) (fun _ => 0) 2 { s with slacks := true } (below 2 exCalls) x1 ∧
    Solves (composed svd chol 0 id (fun _ _ => 0) (fun _ => 0)) defaults (fun _ _ => 0) (fun _ => 0) 2 { s with slacks := true } exCalls x2 := by
  obtain ⟨svd, hs⟩ := svds_exist
  obtain ⟨chol, hc⟩ := chols_exist
  have key : ∀ cs, Program 2 cs → ∃ x,
      Solves (composed svd chol 0 id (fun _ _ => 0) (fun _ => 0)) defaults (fun _ _ => 0) (fun _ => 0) 2 { s with slacks := true } cs x := fun cs hp =>
    (C234_solved svd chol id _ _ _ _ hs hc defaults (by norm_num [defaults]) (by norm_num [defaults]) (by norm_num [defaults]) 2 cs hp _ rfl).exists
  obtain ⟨x0, h0⟩ := key _ (below_program exCalls_program 1)
  obtain ⟨x1, h1⟩ := key _ (below_program exCalls_program 2)
  obtain ⟨x2, h2⟩ := key _ exCalls_program
  exact ⟨svd, chol, hs, hc, x0, x1, x2, h0, h1, h2⟩

end RtSolve
end Verif
