/-
C103 (a lower-priority task does not increase the violation of a higher-priority one) is false of
`RtHQPSolver`, and concrete cases that meet the hypotheses of C100-C107.
-/
import Verif.RtHqpExist
import Mathlib.Tactic.IntervalCases

namespace Verif
namespace RtHqp

open Rt

/-- The inequalities `x + 1 <= 0` and `-x + 1 <= 0`, which contradict each other. -/
noncomputable def tA : Task :=
  ⟨(⟨0, 1, fun _ _ => 0⟩, ⟨0, fun _ => 0⟩), (⟨2, 1, fun i _ => if i = 0 then 1 else -1⟩, ⟨2, fun _ => 1⟩)⟩

/-- The equality `x - 10 = 0`. -/
noncomputable def tB : Task :=
  ⟨(⟨1, 1, fun _ _ => 1⟩, ⟨1, fun _ => -10⟩), (⟨0, 1, fun _ _ => 0⟩, ⟨0, fun _ => 0⟩)⟩

theorem tA_sized : tA.Sized 1 := ⟨rfl, rfl, rfl, rfl⟩
theorem tB_sized : tB.Sized 1 := ⟨rfl, rfl, rfl, rfl⟩

theorem tA_row0 (x : Nat → ℝ) : rowVal tA.ineq 0 x = x 0 + 1 := by
  simp [rowVal, tA]

theorem tA_row1 (x : Nat → ℝ) : rowVal tA.ineq 1 x = -x 0 + 1 := by
  simp [rowVal, tA]

theorem tB_row (x : Nat → ℝ) : rowVal tB.eq 0 x = x 0 - 10 := by
  simp [rowVal, tB]; ring

theorem tA_ineqCost (x : Nat → ℝ) : tA.ineqCost 0 x = max 0 (x 0 + 1) ^ 2 + max 0 (-x 0 + 1) ^ 2 := by
  unfold Task.ineqCost sq
  rw [show tA.ineq.1.rows = 2 from rfl, Finset.sum_range_succ, Finset.sum_range_one]
  beta_reduce
  rw [tA_row0, tA_row1, sub_zero, sub_zero]

theorem tA_eqCost (x : Nat → ℝ) : tA.eqCost x = 0 := rfl

theorem tB_eqCost (x : Nat → ℝ) : tB.eqCost x = (x 0 - 10) ^ 2 := by
  unfold Task.eqCost sq
  rw [show tB.eq.1.rows = 1 from rfl, Finset.sum_range_one]
  beta_reduce
  rw [tB_row]

theorem cost_bound (a : ℝ) : 2 + a ^ 2 ≤ max 0 (a + 1) ^ 2 + max 0 (-a + 1) ^ 2 := by
  rcases le_total 0 (a + 1) with h1 | h1 <;> rcases le_total 0 (-a + 1) with h2 | h2 <;>
    simp only [max_eq_right, max_eq_left, h1, h2] <;> nlinarith

section
variable {E : Ext} {P : Params}

theorem start_eff (s0 : State) (y : Nat → ℝ) : mulV (eff (start E 1 s0)) y 0 = y 0 := by
  have : eff (start E 1 s0) = mul (ident 1) (ident 1) := by
    unfold eff mulIfFits
    exact if_pos rfl
  rw [this, mulV_mul, mulV_ident _ _ _ (by omega), mulV_ident _ _ _ (by omega)]

theorem skips_A (s : State) : skips tA s = false := by simp [skips, tA]

/-- After the first task the remaining directions are still all. -/
theorem afterA_eff (s0 : State) (y : Nat → ℝ) :
    mulV (eff (solveNextTask E P tA (start E 1 s0)).1) y 0 = y 0 ∧
    (eff (solveNextTask E P tA (start E 1 s0)).1).cols = 1 ∧ (solveNextTask E P tA (start E 1 s0)).1.K.cols = 1 := by
  obtain ⟨e1, -, -, -, -, -, -, -, e9⟩ := step_fields (E := E) (P := P) (s := start E 1 s0) rfl (skips_A _)
  have hB : (prepare E P tA (start E 1 s0)).B.rows = 0 := rfl
  rw [if_neg (by rw [hB]; simp)] at e9
  have hN : eff (start E 1 s0) = mul (ident 1) (ident 1) := by
    unfold eff mulIfFits
    exact if_pos rfl
  have : eff (solveNextTask E P tA (start E 1 s0)).1 = mul (mul (ident 1) (ident 1)) (ident 1) := by
    unfold eff mulIfFits
    rw [e1, e9, hN]
    exact if_pos rfl
  rw [this, e9]
  refine ⟨?_, rfl, rfl⟩
  rw [mulV_mul, mulV_mul, mulV_ident _ _ _ (by omega), mulV_ident _ _ _ (by omega), mulV_ident _ _ _ (by omega)]

/-- C103 is false: the first task has violation `2` (the least possible), and the second task, which only has an
equality, raises it to more than `4`, although both calls report success. -/
theorem C103_violated (E : Ext) (P : Params) (s0 : State) (hd : 0 ≤ P.diag) (hd1 : P.diag ≤ 1) (hx : 0 ≤ P.relax)
    (hx1 : P.relax ≤ 1) (ok : RunOk E P 0 (start E 1 s0) [tA, tB])
    (h1 : (solveNextTask E P tA (start E 1 s0)).2 = true)
    (h2 : (solveNextTask E P tB (solveAll E P (start E 1 s0) [tA])).2 = true) :
    tA.ineqCost 0 (sol E P 1 s0 [tA]) = 2 ∧ 4 ≤ tA.ineqCost 0 (sol E P 1 s0 [tA, tB]) := by
  obtain ⟨ok1, ok2, -⟩ := ok
  have hi0 := Inv.start E P 1 s0
  -- the first task
  have hx0 : sol E P 1 s0 [tA] 0 = 0 := by
    have := C101_lexicographic E P 1 s0 0 [] tA tA_sized (fun u hu => absurd hu List.not_mem_nil) hd
      ⟨ok1, trivial⟩ h1 (fun _ => 0) (fun u hu => absurd hu List.not_mem_nil) (fun u hu => absurd hu List.not_mem_nil)
    rw [List.nil_append, tA_ineqCost, tA_ineqCost, tA_eqCost, tA_eqCost] at this
    have hb := cost_bound (sol E P 1 s0 [tA] 0)
    have hz : dist2 1 (fun _ => 0) (sol E P 1 s0 []) = 0 := by
      unfold dist2 sq
      rw [Finset.sum_range_one]
      show (0 - (0 : ℝ)) ^ 2 = 0
      norm_num
    have hn : 0 ≤ P.diag * dist2 1 (sol E P 1 s0 [tA]) (sol E P 1 s0 []) := mul_nonneg hd (sq_nonneg' _ _)
    rw [hz] at this
    norm_num at this
    have h3 : (1 + P.diag) * (2 + sol E P 1 s0 [tA] 0 ^ 2) ≤ (1 + P.diag) * 2 := by
      have := mul_le_mul_of_nonneg_left hb (show 0 ≤ 1 + P.diag by linarith)
      linarith
    have h4 : 2 + sol E P 1 s0 [tA] 0 ^ 2 ≤ 2 := le_of_mul_le_mul_left h3 (by linarith)
    have h5 : sol E P 1 s0 [tA] 0 ^ 2 ≤ 0 := by linarith
    exact pow_eq_zero_iff (two_ne_zero) |>.1 (le_antisymm h5 (sq_nonneg _))
  refine ⟨by rw [tA_ineqCost, hx0]; norm_num, ?_⟩
  -- the slacks of the first task
  have hi1 := hi0.step ok1
  have eff1 := fun y => (afterA_eff (E := E) (P := P) s0 y).1
  have effc := (afterA_eff (E := E) (P := P) s0 (fun _ => 0)).2
  have rows : ∀ k < 2, k < (solveNextTask E P tA (start E 1 s0)).1.a.size ∧
      Stands (solveNextTask E P tA (start E 1 s0)).1 k tA k ∧
      stored (solveNextTask E P tA (start E 1 s0)).1 k = 1 ∧ wadd (solveNextTask E P tA (start E 1 s0)).1 k = -1 := by
    intro k hk
    obtain ⟨b1, b2, b3, b4, b5⟩ := hi0.row_new hd ok1 (k := k) hk
    have e0 : (start E 1 s0).a.size + k = k := Nat.zero_add k
    rw [e0] at b1 b2 b3 b4 b5
    have hrow : rowVal tA.ineq k (solveNextTask E P tA (start E 1 s0)).1.x.at' = 1 := by
      have hx0' : (solveNextTask E P tA (start E 1 s0)).1.x.at' 0 = 0 := hx0
      interval_cases k
      · rw [tA_row0, hx0']; norm_num
      · rw [tA_row1, hx0']; norm_num
    rw [hrow] at b3 b5
    refine ⟨b1, b2, b3, le_antisymm ?_ (by rw [max_eq_right zero_le_one] at b5; exact b5)⟩
    obtain ⟨y, hy⟩ : ∃ y, outcome E P tA (start E 1 s0) = some y := by
      unfold solveNextTask at h1
      rw [if_neg (by rw [skips_A]; exact Bool.false_ne_true)] at h1
      change ((outcome E P tA (start E 1 s0)).isSome || !(start E 1 s0).slacks) = true at h1
      rw [hi0.slack] at h1
      exact Option.isSome_iff_exists.1 (by simpa using h1)
    have hq := ((ok1 (skips_A _)).2 y hy).feas k (by rw [hi0.qp_rows]; show k < 0 + 2; omega)
    have hq' := hi0.qp_row_new (t := tA) (k := k) hk y
    rw [e0] at hq'
    rw [hq'] at hq
    obtain ⟨-, f2, -, f4, -, f6, -, -, -⟩ := step_fields (E := E) (P := P) (s := start E 1 s0) rfl (skips_A _)
    have hzy : zOf E P tA (start E 1 s0) = y := by unfold zOf; rw [hy]
    have hwy : wOf E P tA (start E 1 s0) k = y ((eff (start E 1 s0)).cols + k) := by unfold wOf; rw [hy]
    rw [f2, hzy] at hrow
    have hrow' : rowVal tA.ineq k (fun i => (start E 1 s0).x.at' i + mulV (eff (start E 1 s0)) y i) = 1 := hrow
    rw [hrow'] at hq
    have hw : wadd (solveNextTask E P tA (start E 1 s0)).1 k = wOf E P tA (start E 1 s0) k := by
      unfold wadd
      rw [f4, f6, prepare_a_size]
      rw [if_pos (show tA.ineq.1.rows ≠ 0 from by show (2 : Nat) ≠ 0; omega)]
      rw [if_pos (by show 0 + 2 - 2 ≤ k; omega)]
      show wOf E P tA (start E 1 s0) (k - (0 + 2 - 2)) = _
      congr 1
    rw [hw, hwy]
    linarith
  -- the second task
  have hskB : skips tB (solveNextTask E P tA (start E 1 s0)).1 = false := by
    unfold skips
    rw [effc.2]
    simp [tB]
  have hx1' : (solveNextTask E P tA (start E 1 s0)).1.x.at' 0 = 0 := hx0
  have ho2 : ∃ y, outcome E P tB (solveNextTask E P tA (start E 1 s0)).1 = some y := by
    change (solveNextTask E P tB (solveNextTask E P tA (start E 1 s0)).1).2 = true at h2
    unfold solveNextTask at h2
    rw [if_neg (by change ¬ skips tB (solveNextTask E P tA (start E 1 s0)).1 = true; rw [hskB]; exact Bool.false_ne_true)] at h2
    change ((outcome E P tB (solveNextTask E P tA (start E 1 s0)).1).isSome ||
      !(solveNextTask E P tA (start E 1 s0)).1.slacks) = true at h2
    rw [hi1.slack] at h2
    exact Option.isSome_iff_exists.1 (by simpa using h2)
  have goal : sol E P 1 s0 [tA, tB] = (solveNextTask E P tB (solveNextTask E P tA (start E 1 s0)).1).1.x.at' := rfl
  rw [goal]
  have hasz : (solveNextTask E P tA (start E 1 s0)).1.a.size = 2 := by
    rw [(step_fields (E := E) (P := P) (s := start E 1 s0) rfl (skips_A _)).2.2.2.1, prepare_a_size]
    rfl
  generalize (solveNextTask E P tA (start E 1 s0)).1 = s1 at *
  obtain ⟨y, hy⟩ := ho2
  have hq := (ok2 hskB).2 y hy
  have row : ∀ k < 2, ∀ v, (qpOf E P tB s1).row k v = mulV tA.ineq.1 (mulV (eff s1) v) k - P.relax - 1 := by
    intro k hk v
    obtain ⟨r1, r2, r3, r4⟩ := rows k hk
    rw [hi1.qp_row_old r1, hi1.stands_old r1 r2, r3, r4, min_eq_right (by linarith)]
    ring
  have mA0 : ∀ v, mulV tA.ineq.1 (mulV (eff s1) v) 0 = v 0 := by
    intro v
    unfold mulV
    rw [show tA.ineq.1.cols = 1 from rfl, Finset.sum_range_one]
    show (1 : ℝ) * mulV (eff s1) v 0 = _
    rw [eff1, one_mul]
  have mA1 : ∀ v, mulV tA.ineq.1 (mulV (eff s1) v) 1 = -v 0 := by
    intro v
    unfold mulV
    rw [show tA.ineq.1.cols = 1 from rfl, Finset.sum_range_one]
    show (-1 : ℝ) * mulV (eff s1) v 0 = _
    rw [eff1]; ring
  have hr2 : (qpOf E P tB s1).CI.rows = 2 := by
    rw [hi1.qp_rows, hasz]; rfl
  have f0 := hq.feas 0 (by omega)
  rw [row 0 (by omega), mA0] at f0
  have hopt := hq.opt (fun _ => 1 + P.relax) (by
    intro i hi
    rw [hr2] at hi
    refine le_trans ?_ (le_max_left _ _)
    interval_cases i
    · rw [row 0 (by omega), mA0]; linarith
    · rw [row 1 (by omega), mA1]; linarith)
  rw [hi1.obj, hi1.obj, tB_eqCost, tB_eqCost, tB_eqCost, hx1'] at hopt
  have s1' : ∀ v, sq 1 (mulV (eff s1) v) = v 0 ^ 2 := by
    intro v; unfold sq; rw [Finset.sum_range_one, eff1]
  rw [s1', s1', eff1, eff1] at hopt
  have z1 : ∀ v : Nat → ℝ, sq tB.ineq.1.rows v = 0 := fun v => rfl
  rw [z1, z1] at hopt
  have hfin : (solveNextTask E P tB s1).1.x.at' 0 = y 0 := by
    obtain ⟨-, f2, -⟩ := step_fields (E := E) (P := P) hi1.slack hskB
    rw [f2]
    show s1.x.at' 0 + mulV (eff s1) (zOf E P tB s1) 0 = _
    rw [hx1', eff1, zero_add]
    unfold zOf
    rw [hy]
  have hy0 : 1 ≤ y 0 := by
    by_contra hc
    push Not at hc
    have hlt : (1 + P.diag) * (y 0 + (1 + P.relax)) < 20 := by
      rcases le_total 0 (y 0 + (1 + P.relax)) with h | h
      · nlinarith
      · have := mul_nonneg (show 0 ≤ 1 + P.diag by linarith) (neg_nonneg.2 h)
        linarith
    have := mul_pos (show 0 < 1 + P.relax - y 0 by linarith) (sub_pos.2 hlt)
    nlinarith
  rw [tA_ineqCost, hfin]
  have e1 : max 0 (y 0 + 1) = y 0 + 1 := max_eq_right (by linarith)
  rw [e1]
  nlinarith [sq_nonneg (max 0 (-y 0 + 1))]

end

/-! ### Concrete cases that meet the hypotheses of the theorems -/

/-- External functions that meet all contracts in all runs exist. -/
theorem run_exists : ∃ E : Ext, (∀ q : Qp, q.Proper → q.Feasible → q.H.rows ≠ 0 → (E.qp q).isSome) ∧
    ∀ (P : Params) (n : Nat) (s0 : State) (ts : List Task), 0 < P.diag → RunOk E P 0 (start E n s0) ts := by
  obtain ⟨svd, hs⟩ := svds_exist
  obtain ⟨chol, hc⟩ := chols_exist
  let E := composed svd chol 0 (fun m => m) (fun _ _ => 0) (fun _ => 0)
  exact ⟨E, fun q h1 h2 _ => codeQp_solves hc h1 h2,
    fun P n s0 ts hd => composed_runOk hs hc hd ts _ (Inv.start E P n s0)⟩

/-- The inequality `x - 5 <= 0`. -/
noncomputable def tC : Task :=
  ⟨(⟨0, 1, fun _ _ => 0⟩, ⟨0, fun _ => 0⟩), (⟨1, 1, fun _ _ => 1⟩, ⟨1, fun _ => -5⟩)⟩

theorem defaults_diag : 0 < defaults.diag := by norm_num [defaults]

/-- C100: the equality task `x = 10` between contradicting inequalities. -/
example (s0 : State) : ∃ E, RunOk E defaults 0 (start E 1 s0) ([tA] ++ tB :: [tA, tB]) ∧ 0 < defaults.thr ∧
    ∀ v, sq tB.eq.1.rows (mulV tB.eq.1 v) ≤ 1 ^ 2 * sq 1 v := by
  obtain ⟨E, -, h⟩ := run_exists
  refine ⟨E, h _ _ _ _ defaults_diag, by norm_num [defaults], fun v => ?_⟩
  simp [sq, mulV, tB]

/-- C101 and C106: `x <= 5`, then `x = 10`; the call succeeds, and `x = 3` is a competitor. -/
example (s0 : State) : ∃ E, RunOk E defaults 0 (start E 1 s0) ([tC] ++ [tB]) ∧
    (solveNextTask E defaults tB (solveAll E defaults (start E 1 s0) [tC])).2 = true ∧
    ∃ y : Nat → ℝ, (∀ u ∈ [tC], ∀ k < u.eq.1.rows, rowVal u.eq k y = rowVal u.eq k (sol E defaults 1 s0 [tC])) ∧
      ∀ u ∈ [tC], ∀ k < u.ineq.1.rows, rowVal u.ineq k y ≤ 0 := by
  obtain ⟨E, hq, h⟩ := run_exists
  refine ⟨E, h _ _ _ _ defaults_diag, C106_always_solved E _ _ _ 0 _ _ defaults_diag (by norm_num [defaults])
    (h _ _ _ _ defaults_diag) hq, fun _ => 3, ?_, ?_⟩
  · intro u hu k hk
    rw [List.mem_singleton.1 hu] at hk
    exact absurd hk (Nat.not_lt_zero _)
  · intro u hu k hk
    rw [List.mem_singleton.1 hu] at hk ⊢
    simp [rowVal, tC]
    norm_num

/-- C102: `x <= 5` is met when solved, and `x = 10` follows. -/
example (s0 : State) : ∃ E, RunOk E defaults 0 (start E 1 s0) ([] ++ tC :: [tB]) ∧
    rowVal tC.ineq 0 (sol E defaults 1 s0 ([] ++ [tC])) ≤ 0 := by
  obtain ⟨E, hq, h⟩ := run_exists
  refine ⟨E, h _ _ _ _ defaults_diag, ?_⟩
  have ht : tC.Sized 1 := ⟨rfl, rfl, rfl, rfl⟩
  have := C101_lexicographic E defaults 1 s0 0 [] tC ht (fun u hu => absurd hu List.not_mem_nil) defaults_diag.le
    (h _ _ _ _ defaults_diag) (C106_always_solved E _ _ _ 0 _ _ defaults_diag (by norm_num [defaults])
    (h _ _ _ _ defaults_diag) hq) (fun _ => 0) (fun u hu => absurd hu List.not_mem_nil)
    (fun u hu => absurd hu List.not_mem_nil)
  have e1 : ∀ x, tC.eqCost x = 0 := fun _ => rfl
  have e2 : tC.ineqCost 0 (fun _ => 0) = 0 := by
    unfold Task.ineqCost sq
    rw [show tC.ineq.1.rows = 1 from rfl, Finset.sum_range_one]
    simp [rowVal, tC]
  have e3 : dist2 1 (fun _ => 0) (sol E defaults 1 s0 []) = 0 := by
    unfold dist2 sq
    rw [Finset.sum_range_one]
    show (0 - (0 : ℝ)) ^ 2 = 0
    norm_num
  rw [e1, e1, e2, e3] at this
  have h1 : 0 ≤ defaults.diag * dist2 1 (sol E defaults 1 s0 ([] ++ [tC])) (sol E defaults 1 s0 []) :=
    mul_nonneg defaults_diag.le (sq_nonneg' _ _)
  have h2 : tC.ineqCost 0 (sol E defaults 1 s0 ([] ++ [tC])) ≤ 0 := by
    have := defaults_diag
    by_contra hc
    push Not at hc
    have := mul_pos (show 0 < 1 + defaults.diag by linarith) hc
    linarith
  have h3 := sq_eq_zero (le_antisymm h2 (sq_nonneg' _ _)) 0 (by show 0 < 1; omega)
  beta_reduce at h3
  rw [sub_zero] at h3
  exact max_eq_left_iff.1 h3

/-- C103: both calls succeed. -/
example (s0 : State) : ∃ E, RunOk E defaults 0 (start E 1 s0) [tA, tB] ∧
    (solveNextTask E defaults tA (start E 1 s0)).2 = true ∧
    (solveNextTask E defaults tB (solveAll E defaults (start E 1 s0) [tA])).2 = true := by
  obtain ⟨E, hq, h⟩ := run_exists
  have hr : 0 ≤ defaults.relax := by norm_num [defaults]
  exact ⟨E, h _ _ _ _ defaults_diag,
    C106_always_solved E _ _ _ 0 [] _ defaults_diag hr (h _ _ _ _ defaults_diag) hq,
    C106_always_solved E _ _ _ 0 [tA] _ defaults_diag hr (h _ _ _ _ defaults_diag) hq⟩

/-- C104: the equality can still be influenced after the inequalities. -/
example (s0 : State) : ∃ E, RunOk E defaults 0 (start E 1 s0) ([tA] ++ [tB]) ∧ 1 ≤ defaults.thr ∧
    ∃ d, (∀ u ∈ [tA], ∀ k < u.eq.1.rows, mulV u.eq.1 d k = 0) ∧ ∃ k < tB.eq.1.rows, mulV tB.eq.1 d k ≠ 0 := by
  obtain ⟨E, hq, h⟩ := run_exists
  refine ⟨E, h _ _ _ _ defaults_diag, by norm_num [defaults], fun _ => 1, ?_, 0, by show 0 < 1; omega, ?_⟩
  · intro u hu k hk
    rw [List.mem_singleton.1 hu] at hk
    exact absurd hk (Nat.not_lt_zero _)
  · simp [mulV, tB]

/-- C105: two tasks, each called with a direction left. -/
example (s0 : State) : ∃ E, RunOk E defaults 0 (start E 1 s0) [tA, tB] ∧ effective [tA, tB] ≤ 7 ∧
    ∀ us vs, [tA, tB] = us ++ vs → vs ≠ [] → (solveAll E defaults (start E 1 s0) us).K.cols ≠ 0 := by
  obtain ⟨E, hq, h⟩ := run_exists
  refine ⟨E, h _ _ _ _ defaults_diag, by simp [effective, tA, tB], ?_⟩
  intro us vs hv hne
  have hlen := congrArg List.length hv
  rw [List.length_append] at hlen
  have hpos : 0 < vs.length := List.length_pos_of_ne_nil hne
  match us, hv with
  | [], _ => show (1 : Nat) ≠ 0; omega
  | [a], hv =>
    have : a = tA := by
      have := congrArg (fun l => l.head?) hv
      simpa using this.symm
    rw [this]
    show (solveNextTask E defaults tA (start E 1 s0)).1.K.cols ≠ 0
    rw [(afterA_eff (E := E) (P := defaults) s0 (fun _ => 0)).2.2]
    omega
  | a :: b :: us, _ =>
    simp only [List.length_cons, List.length_nil] at hlen
    omega

end RtHqp
end Verif
