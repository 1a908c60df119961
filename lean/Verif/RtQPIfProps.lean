/-
Properties C195-C199: the base class of the real-time QP solvers and the singular value helpers.
-/
import Verif.RtQPIf
import Verif.RtAppendProps
import Verif.RtHqpSpec
import Verif.PyIk2Props
import Verif.RtQPProps
import Mathlib.Tactic.Linarith
import Mathlib.Tactic.Positivity
import Mathlib.Tactic.FieldSimp

namespace Verif
namespace RtQPIf

open Rt RtHqp

/-! ### Specification -/

/-- All members have the sizes of a problem in `n` variables. -/
structure Qpi.Sized (n : Nat) (q : Qpi) : Prop where
  g : q.g.size = n
  sol : q.sol.size = n
  Hr : q.H.rows = n
  Hc : q.H.cols = n
  ec : q.eq.1.cols = n
  er : q.eq.2.size = q.eq.1.rows
  ic : q.ineq.1.cols = n
  ir : q.ineq.2.size = q.ineq.1.rows

/-- `mat x + vec = 0`. -/
def Qpi.EqHold (q : Qpi) (x : Nat → ℝ) : Prop := ∀ i < q.eq.1.rows, rowVal q.eq i x = 0

/-- `mat x + vec <= 0`. -/
def Qpi.IneqHold (q : Qpi) (x : Nat → ℝ) : Prop := ∀ i < q.ineq.1.rows, rowVal q.ineq i x ≤ 0

/-- The objective `x' H x + 2 g' x` of a problem in `n` variables. -/
noncomputable def Qpi.objective (n : Nat) (q : Qpi) (x : Nat → ℝ) : ℝ :=
  ∑ i ∈ Finset.range n, x i * (∑ j ∈ Finset.range n, q.H.at' i j * x j) + 2 * ∑ i ∈ Finset.range n, q.g.at' i * x i

/-- The value of row `i` of a call, `mat x` or `mat x + vec`. -/
noncomputable def Call.val (m : Mat) (v : Option Vec) (i : Nat) (x : Nat → ℝ) : ℝ :=
  ∑ j ∈ Finset.range m.cols, m.at' i j * x j + match v with
    | none => 0
    | some v => v.at' i

/-- What the caller of `appendEqualities` asks for. -/
def Call.EqHold (x : Nat → ℝ) : Call → Prop
  | .eq m v => ∀ i < m.rows, Call.val m v i x = 0
  | .ineq _ _ => True

/-- What the caller of `appendInequalities` asks for. -/
def Call.IneqHold (x : Nat → ℝ) : Call → Prop
  | .eq _ _ => True
  | .ineq m v => ∀ i < m.rows, Call.val m v i x ≤ 0

/-- The blocks handed over have `n` columns and a constant for each row. -/
def Call.Sized (n : Nat) : Call → Prop
  | .eq m v | .ineq m v => m.cols = n ∧ ∀ w ∈ v, w.size = m.rows

/-- Number of rows of a call. -/
def Call.eqRows : Call → Nat
  | .eq m _ => m.rows
  | .ineq _ _ => 0

/-- Number of rows of a call. -/
def Call.ineqRows : Call → Nat
  | .eq _ _ => 0
  | .ineq m _ => m.rows

/-! ### C195: assembling a problem -/

theorem append_rows (jm : Nat → Nat → ℝ) (jv : Nat → ℝ) (n : Nat) (a : Aff) (m : Mat) (v : Option Vec)
    (ha : a.2.size = a.1.rows) (hc : a.1.cols = n) (hm : m.cols = n) (hv : ∀ w ∈ v, w.size = m.rows) :
    (appendAff jm jv a m v).1.rows = a.1.rows + m.rows ∧
    (appendAff jm jv a m v).2.size = (appendAff jm jv a m v).1.rows ∧
    (appendAff jm jv a m v).1.cols = n ∧
    (∀ i < a.1.rows, ∀ x, rowVal (appendAff jm jv a m v) i x = rowVal a i x) ∧
    (∀ i < m.rows, ∀ x, rowVal (appendAff jm jv a m v) (a.1.rows + i) x = Call.val m v i x) := by
  cases v with
  | some v =>
    obtain ⟨h1, h2, h3, h4, h5⟩ := C94_append jm jv a (m, v) ha (hv v rfl) (by rw [hc, hm])
    exact ⟨h1, h2.trans h1.symm, h3.trans hc, h4, h5⟩
  | none =>
    obtain ⟨h1, h2, h3, h4, h5⟩ := C94_append jm jv a (m, ⟨m.rows, fun _ => 0⟩) ha rfl (by rw [hc, hm])
    have e1 : (affAppend jm jv a (m, ⟨m.rows, fun _ => 0⟩)).1 = (affAppend0 jm jv a m).1 := rfl
    have e2 : (affAppend jm jv a (m, ⟨m.rows, fun _ => 0⟩)).2 = (affAppend0 jm jv a m).2 := by
      simp only [affAppend, affAppend0, Vec.setBlock, Vec.conservativeResize]
      congr 1
      funext i
      split <;> simp_all
    have e : affAppend jm jv a (m, ⟨m.rows, fun _ => 0⟩) = affAppend0 jm jv a m := Prod.ext e1 e2
    rw [e] at h1 h2 h3 h4 h5
    exact ⟨h1, h2.trans h1.symm, h3.trans hc, h4, h5⟩

theorem run_sized {n : Nat} {q : Qpi} (hq : q.Sized n) (jm : Nat → Nat → ℝ) (jv : Nat → ℝ) (c : Call)
    (hc : c.Sized n) :
    (c.run jm jv q).Sized n ∧ (c.run jm jv q).H = q.H ∧ (c.run jm jv q).g = q.g ∧
    (c.run jm jv q).sol = q.sol ∧ (c.run jm jv q).props = q.props ∧
    (c.run jm jv q).eq.1.rows = q.eq.1.rows + c.eqRows ∧
    (c.run jm jv q).ineq.1.rows = q.ineq.1.rows + c.ineqRows ∧
    (∀ x, (c.run jm jv q).EqHold x ↔ q.EqHold x ∧ c.EqHold x) ∧
    (∀ x, (c.run jm jv q).IneqHold x ↔ q.IneqHold x ∧ c.IneqHold x) := by
  cases c with
  | eq m v =>
    obtain ⟨h1, h2, h3, h4, h5⟩ := append_rows jm jv n q.eq m v hq.er hq.ec hc.1 hc.2
    refine ⟨⟨hq.g, hq.sol, hq.Hr, hq.Hc, h3, h2, hq.ic, hq.ir⟩, rfl, rfl, rfl, rfl, h1, rfl, fun x => ?_,
      fun x => by simp [Call.IneqHold, Call.run, Qpi.IneqHold]⟩
    simp only [Call.run, Qpi.EqHold, Call.EqHold]
    rw [h1]
    constructor
    · intro h
      refine ⟨fun i hi => ?_, fun i hi => ?_⟩
      · rw [← h4 i hi]; exact h i (by omega)
      · rw [← h5 i hi]; exact h _ (by omega)
    · rintro ⟨ha, hb⟩ i hi
      by_cases hlt : i < q.eq.1.rows
      · rw [h4 i hlt]; exact ha i hlt
      · obtain ⟨k, rfl⟩ := Nat.exists_eq_add_of_le (Nat.le_of_not_lt hlt)
        rw [h5 k (by omega)]; exact hb k (by omega)
  | ineq m v =>
    obtain ⟨h1, h2, h3, h4, h5⟩ := append_rows jm jv n q.ineq m v hq.ir hq.ic hc.1 hc.2
    refine ⟨⟨hq.g, hq.sol, hq.Hr, hq.Hc, hq.ec, hq.er, h3, h2⟩, rfl, rfl, rfl, rfl, rfl, h1,
      fun x => by simp [Call.EqHold, Call.run, Qpi.EqHold], fun x => ?_⟩
    simp only [Call.run, Qpi.IneqHold, Call.IneqHold]
    rw [h1]
    constructor
    · intro h
      refine ⟨fun i hi => ?_, fun i hi => ?_⟩
      · rw [← h4 i hi]; exact h i (by omega)
      · rw [← h5 i hi]; exact h _ (by omega)
    · rintro ⟨ha, hb⟩ i hi
      by_cases hlt : i < q.ineq.1.rows
      · rw [h4 i hlt]; exact ha i hlt
      · obtain ⟨k, rfl⟩ := Nat.exists_eq_add_of_le (Nat.le_of_not_lt hlt)
        rw [h5 k (by omega)]; exact hb k (by omega)

/-- C195, any sequence of calls on any well-sized problem: objective and solution are not touched, and a point
satisfies the constraints of the result iff it satisfies those present before and those of every call. -/
theorem C195_append (n : Nat) (jm : Nat → Nat → Nat → ℝ) (jv : Nat → Nat → ℝ) (calls : List Call) :
    ∀ (k : Nat) (q : Qpi), q.Sized n → (∀ c ∈ calls, c.Sized n) →
    (build jm jv q k calls).Sized n ∧ (build jm jv q k calls).H = q.H ∧ (build jm jv q k calls).g = q.g ∧
    (build jm jv q k calls).sol = q.sol ∧
    (build jm jv q k calls).eq.1.rows = q.eq.1.rows + (calls.map Call.eqRows).sum ∧
    (build jm jv q k calls).ineq.1.rows = q.ineq.1.rows + (calls.map Call.ineqRows).sum ∧
    (∀ x, (build jm jv q k calls).EqHold x ↔ q.EqHold x ∧ ∀ c ∈ calls, c.EqHold x) ∧
    (∀ x, (build jm jv q k calls).IneqHold x ↔ q.IneqHold x ∧ ∀ c ∈ calls, c.IneqHold x) := by
  induction calls with
  | nil => intro k q hq _; simp [build, hq]
  | cons c cs ih =>
    intro k q hq hcs
    obtain ⟨h1, h2, h3, h4, -, h5, h6, h7, h8⟩ := run_sized hq (jm k) (jv k) c (hcs c (by simp))
    obtain ⟨i1, i2, i3, i4, i5, i6, i7, i8⟩ := ih (k + 1) _ h1 (fun c hc => hcs c (by simp [hc]))
    simp only [build]
    refine ⟨i1, i2.trans h2, i3.trans h3, i4.trans h4, ?_, ?_, fun x => ?_, fun x => ?_⟩
    · rw [i5, h5]; simp; omega
    · rw [i6, h6]; simp; omega
    · rw [i7, h7]; simp [and_assoc]
    · rw [i8, h8]; simp [and_assoc]

/-- C195: after `reset(n, ..)` and any calls the problem is `0` with exactly the constraints handed over. -/
theorem C195_build (n a b : Nat) (q0 : Qpi) (jm : Nat → Nat → Nat → ℝ) (jv : Nat → Nat → ℝ) (calls : List Call)
    (h : ∀ c ∈ calls, c.Sized n) :
    let q := build jm jv (resetDim n a b q0) 0 calls
    q.Sized n ∧ (∀ x, q.objective n x = 0) ∧ (∀ i, q.sol.at' i = 0) ∧
    (∀ x, q.EqHold x ↔ ∀ c ∈ calls, c.EqHold x) ∧ (∀ x, q.IneqHold x ↔ ∀ c ∈ calls, c.IneqHold x) := by
  intro q
  have hs : (resetDim n a b q0).Sized n := ⟨rfl, rfl, rfl, rfl, rfl, rfl, rfl, rfl⟩
  obtain ⟨h1, h2, h3, h4, -, -, h7, h8⟩ := C195_append n jm jv calls 0 (resetDim n a b q0) hs h
  refine ⟨h1, fun x => ?_, fun i => ?_, fun x => ?_, fun x => ?_⟩
  · show Qpi.objective n (build jm jv (resetDim n a b q0) 0 calls) x = 0
    unfold Qpi.objective
    rw [h2, h3]
    simp [resetDim, Mat.setZero]
  · show (build jm jv (resetDim n a b q0) 0 calls).sol.at' i = 0
    rw [h4]; rfl
  · rw [h7]; simp [Qpi.EqHold, resetDim, Mat.setZero]
  · rw [h8]; simp [Qpi.IneqHold, resetDim, Mat.setZero]

/-- C195: nothing of the previous problem survives either reset, and they agree for `n = max_dim_qp`. -/
theorem C195_reset (N a b a' b' : Nat) (q q' : Qpi) :
    reset N q = reset N q' ∧ resetDim N a b q = resetDim N a' b' q' ∧ reset N q = resetDim N a b q' :=
  ⟨rfl, rfl, rfl⟩

/-- Two calls meeting the hypotheses: `x0 + x1 - 1 = 0` and `x0 <= 0`. -/
example : ∀ c ∈ [Call.eq ⟨1, 2, fun _ _ => 1⟩ (some ⟨1, fun _ => -1⟩),
    Call.ineq ⟨1, 2, fun _ j => if j = 0 then 1 else 0⟩ none], c.Sized 2 := by
  intro c hc
  simp only [List.mem_cons, List.not_mem_nil, or_false] at hc
  rcases hc with rfl | rfl <;> simp [Call.Sized]

/-! ### C196: `checkSolution` -/

theorem norm2_le {n : Nat} {v : Nat → ℝ} {t : ℝ} (ht : 0 ≤ t) :
    norm2 n v ≤ t ↔ ∑ i ∈ Finset.range n, v i ^ 2 ≤ t ^ 2 := by
  unfold norm2
  rw [Real.sqrt_le_left ht]
  simp only [pow_two]

theorem ineqDist_eq (q : Qpi) (i : Nat) : ineqDist q i = max 0 (rowVal q.ineq i q.sol.at') := by
  unfold ineqDist
  have e : affVal q.ineq q.sol.at' i = rowVal q.ineq i q.sol.at' := rfl
  dsimp only
  rw [e]
  split
  · rename_i h
    rw [mul_zero, max_eq_left h]
  · rename_i h
    rw [mul_one, max_eq_right (le_of_lt (not_le.1 h))]

/-- C196: the test compares the length of `Eq x + e` and of the violation of the inequalities with the
thresholds. -/
theorem C196_check (q : Qpi) (t s : ℝ) (ht : 0 ≤ t) (hs : 0 ≤ s) :
    checkSolution q t s = true ↔
      ∑ i ∈ Finset.range q.eq.1.rows, rowVal q.eq i q.sol.at' ^ 2 ≤ t ^ 2 ∧
      ∑ i ∈ Finset.range q.ineq.1.rows, max 0 (rowVal q.ineq i q.sol.at') ^ 2 ≤ s ^ 2 := by
  unfold checkSolution
  rw [decide_eq_true_iff, norm2_le ht, norm2_le hs]
  simp only [ineqDist_eq]
  rfl

/-- C196: with thresholds zero the test accepts exactly the feasible points; a feasible point is accepted for
every threshold; an accepted point violates no row by more than the threshold. -/
theorem C196_feasible (q : Qpi) :
    (checkSolution q 0 0 = true ↔ q.EqHold q.sol.at' ∧ q.IneqHold q.sol.at') ∧
    (∀ t s : ℝ, 0 ≤ t → 0 ≤ s → q.EqHold q.sol.at' ∧ q.IneqHold q.sol.at' → checkSolution q t s = true) ∧
    (∀ t s : ℝ, 0 ≤ t → 0 ≤ s → checkSolution q t s = true →
      (∀ i < q.eq.1.rows, |rowVal q.eq i q.sol.at'| ≤ t) ∧ ∀ i < q.ineq.1.rows, rowVal q.ineq i q.sol.at' ≤ s) := by
  have hA : ∀ t s : ℝ, 0 ≤ t → 0 ≤ s → q.EqHold q.sol.at' ∧ q.IneqHold q.sol.at' → checkSolution q t s = true := by
    intro t s ht hs ⟨h1, h2⟩
    rw [C196_check q t s ht hs]
    constructor
    · rw [Finset.sum_eq_zero]
      · positivity
      · intro i hi
        rw [h1 i (Finset.mem_range.1 hi)]; norm_num
    · rw [Finset.sum_eq_zero]
      · positivity
      · intro i hi
        rw [max_eq_left (h2 i (Finset.mem_range.1 hi))]; norm_num
  have hB : ∀ t s : ℝ, 0 ≤ t → 0 ≤ s → checkSolution q t s = true →
      (∀ i < q.eq.1.rows, |rowVal q.eq i q.sol.at'| ≤ t) ∧
        ∀ i < q.ineq.1.rows, rowVal q.ineq i q.sol.at' ≤ s := by
    intro t s ht hs h
    rw [C196_check q t s ht hs] at h
    constructor
    · intro i hi
      have := (Finset.single_le_sum (f := fun i => rowVal q.eq i q.sol.at' ^ 2)
        (fun i _ => sq_nonneg _) (Finset.mem_range.2 hi)).trans h.1
      exact abs_le_of_sq_le_sq this ht
    · intro i hi
      have := (Finset.single_le_sum (f := fun i => max 0 (rowVal q.ineq i q.sol.at') ^ 2)
        (fun i _ => sq_nonneg _) (Finset.mem_range.2 hi)).trans h.2
      exact (le_max_right _ _).trans (abs_le_of_sq_le_sq' this hs).2
  refine ⟨⟨fun h => ?_, hA 0 0 le_rfl le_rfl⟩, hA, hB⟩
  obtain ⟨h1, h2⟩ := hB 0 0 le_rfl le_rfl h
  exact ⟨fun i hi => abs_eq_zero.1 (le_antisymm (h1 i hi) (abs_nonneg _)), h2⟩

/-- C196: the report is suppressed exactly when it was not asked for and the point is accepted or the solver has
not been successful; what is printed is the documented objective and the two distances. -/
theorem C196_report (n : Nat) (q : Qpi) (hq : q.Sized n) (isOpt print : Bool) (t s : ℝ) :
    (report q isOpt print t s = none ↔ print = false ∧ (checkSolution q t s = true ∨ isOpt = false)) ∧
    ∀ f a b, report q isOpt print t s = some (f, a, b) → f = q.objective n q.sol.at' ∧
      a = Real.sqrt (∑ i ∈ Finset.range q.eq.1.rows, rowVal q.eq i q.sol.at' ^ 2) ∧
      b = Real.sqrt (∑ i ∈ Finset.range q.ineq.1.rows, max 0 (rowVal q.ineq i q.sol.at') ^ 2) := by
  unfold report
  constructor
  · cases print <;> cases checkSolution q t s <;> cases isOpt <;> simp
  · intro f a b h
    split at h
    · simp only [Option.some.injEq, Prod.mk.injEq] at h
      obtain ⟨rfl, rfl, rfl⟩ := h
      refine ⟨?_, ?_, ?_⟩
      · simp only [Qpi.objective, hq.Hr, hq.Hc, hq.g]
      · simp only [norm2, pow_two]; rfl
      · simp only [norm2, ineqDist_eq, pow_two]
    · simp at h

/-- `min (x - 1)^2` subject to `x >= 0` with the solution zero: accepted, though not optimal. -/
noncomputable def qZero : Qpi :=
  { props := 0, g := ⟨1, fun _ => -1⟩, sol := ⟨1, fun _ => 0⟩, H := ⟨1, 1, fun _ _ => 1⟩
    eq := (Mat.setZero 0 1, ⟨0, fun _ => 0⟩), ineq := (⟨1, 1, fun _ _ => -1⟩, ⟨1, fun _ => 0⟩) }

/-- C196: acceptance says nothing about optimality. -/
theorem C196_feasibility_only : qZero.Sized 1 ∧ checkSolution qZero 0 0 = true ∧
    ∃ y, qZero.EqHold y ∧ qZero.IneqHold y ∧ qZero.objective 1 y < qZero.objective 1 qZero.sol.at' := by
  refine ⟨⟨rfl, rfl, rfl, rfl, rfl, rfl, rfl, rfl⟩, ?_, fun _ => 1, ?_, ?_, ?_⟩
  · rw [(C196_feasible qZero).1]
    constructor
    · intro i hi; simp [qZero, Mat.setZero] at hi
    · intro i _; simp [qZero, rowVal]
  · intro i hi; simp [qZero, Mat.setZero] at hi
  · intro i _; simp [qZero, rowVal]
  · norm_num [qZero, Qpi.objective]

/-! ### C197: `computeOptimalityCondition` -/

/-- What `jacobiSvd(..).solve` promises (its threshold for zero singular values is ignored): no vector has a
smaller residual. -/
def Lsq (solve : Nat → Nat → (Nat → Nat → ℝ) → (Nat → ℝ) → Nat → ℝ) : Prop :=
  ∀ n k A b l, resid n k A b (solve n k A b) ≤ resid n k A b l

theorem lsq_exists : ∃ solve, Lsq solve := by
  have key : ∀ n k (A : Nat → Nat → ℝ) (b : Nat → ℝ), ∃ l, ∀ l', resid n k A b l ≤ resid n k A b l' := by
    intro n k A b
    let M : Matrix (Fin n) (Fin k) ℝ := fun i c => A c i
    obtain ⟨X, hX⟩ := PyIk2.exists_penrose M
    have e : ∀ l : Nat → ℝ, resid n k A b l = PyIk2.sq (Matrix.mulVec M (fun c : Fin k => l c) - fun i : Fin n => b i) := by
      intro l
      unfold resid PyIk2.sq
      rw [Finset.sum_range]
      refine Finset.sum_congr rfl fun i _ => ?_
      simp only [Pi.sub_apply, Matrix.mulVec, dotProduct, pow_two, M]
      rw [Finset.sum_range]
    refine ⟨fun c => if h : c < k then Matrix.mulVec X (fun i => b i) ⟨c, h⟩ else 0, fun l' => ?_⟩
    rw [e, e]
    have := (PyIk2.lsq M X hX (fun i => b i) (fun c => l' c)).1
    simpa using this
  exact ⟨fun n k A b => (key n k A b).choose, fun n k A b => (key n k A b).choose_spec⟩

theorem resid_nonneg (n k : Nat) (A : Nat → Nat → ℝ) (b l : Nat → ℝ) : 0 ≤ resid n k A b l :=
  Finset.sum_nonneg fun _ _ => mul_self_nonneg _

theorem quad_zero {p s : ℝ} (h : ∀ t : ℝ, 0 ≤ t ^ 2 * s + 2 * t * p) : p = 0 := by
  by_contra hp
  have h1 := h (-p / (|s| + 1))
  have h0 : 0 < |s| + 1 := by positivity
  have h2 : s ≤ |s| := le_abs_self s
  have e : (-p / (|s| + 1)) ^ 2 * s + 2 * (-p / (|s| + 1)) * p = p ^ 2 * (s - 2 * (|s| + 1)) / (|s| + 1) ^ 2 := by
    field_simp
    ring
  rw [e] at h1
  have hp2 : 0 < p ^ 2 := by positivity
  have : p ^ 2 * (s - 2 * (|s| + 1)) / (|s| + 1) ^ 2 < 0 := by
    apply div_neg_of_neg_of_pos _ (by positivity)
    nlinarith [abs_nonneg s]
  linarith

/-- The least squares residual vanishes iff the right-hand side is orthogonal to everything the columns are
orthogonal to. -/
theorem resid_zero {n k : Nat} {A : Nat → Nat → ℝ} {b l : Nat → ℝ} (hl : ∀ l', resid n k A b l ≤ resid n k A b l') :
    resid n k A b l = 0 ↔ ∀ d : Nat → ℝ, (∀ c < k, ∑ i ∈ Finset.range n, A c i * d i = 0) →
      ∑ i ∈ Finset.range n, b i * d i = 0 := by
  constructor
  · intro h d hd
    have h0 := (Finset.sum_eq_zero_iff_of_nonneg (fun i _ => mul_self_nonneg _)).1 h
    have hb : ∀ i ∈ Finset.range n, b i = ∑ c ∈ Finset.range k, A c i * l c := fun i hi => by
      have := mul_self_eq_zero.1 (h0 i hi); linarith
    rw [Finset.sum_congr rfl (fun i hi => by rw [hb i hi])]
    simp only [Finset.sum_mul]
    rw [Finset.sum_comm]
    apply Finset.sum_eq_zero
    intro c hc
    have := hd c (Finset.mem_range.1 hc)
    calc ∑ i ∈ Finset.range n, A c i * l c * d i = l c * ∑ i ∈ Finset.range n, A c i * d i := by
          rw [Finset.mul_sum]; exact Finset.sum_congr rfl fun i _ => by ring
      _ = 0 := by rw [this, mul_zero]
  · intro h
    set r : Nat → ℝ := fun i => ∑ c ∈ Finset.range k, A c i * l c - b i with hr
    have hn : ∀ c < k, ∑ i ∈ Finset.range n, A c i * r i = 0 := by
      intro c hc
      apply quad_zero (s := ∑ i ∈ Finset.range n, A c i * A c i)
      intro t
      have := hl (fun c' => l c' + if c' = c then t else 0)
      have e : ∀ i, ∑ c' ∈ Finset.range k, A c' i * (l c' + if c' = c then t else 0) - b i = r i + t * A c i := by
        intro i
        simp only [mul_add, Finset.sum_add_distrib, mul_ite, mul_zero, hr]
        rw [Finset.sum_ite_eq' (Finset.range k) c, if_pos (Finset.mem_range.2 hc)]
        ring
      unfold resid at this
      simp only [e] at this
      have e2 : ∑ i ∈ Finset.range n, (r i + t * A c i) * (r i + t * A c i) =
          ∑ i ∈ Finset.range n, r i * r i +
            (t ^ 2 * ∑ i ∈ Finset.range n, A c i * A c i + 2 * t * ∑ i ∈ Finset.range n, A c i * r i) := by
        simp only [Finset.mul_sum, ← Finset.sum_add_distrib]
        exact Finset.sum_congr rfl fun i _ => by ring
      rw [e2] at this
      change ∑ i ∈ Finset.range n, r i * r i ≤ _ at this
      linarith
    have hb := h r hn
    show ∑ i ∈ Finset.range n, r i * r i = 0
    have e : ∑ i ∈ Finset.range n, r i * r i =
        ∑ c ∈ Finset.range k, l c * (∑ i ∈ Finset.range n, A c i * r i) - ∑ i ∈ Finset.range n, b i * r i := by
      simp only [Finset.mul_sum]
      rw [Finset.sum_comm, ← Finset.sum_sub_distrib]
      refine Finset.sum_congr rfl fun i _ => ?_
      conv_lhs => rw [show r i * r i = (∑ c ∈ Finset.range k, A c i * l c) * r i - b i * r i from by simp only [hr]; ring]
      rw [Finset.sum_mul]
      congr 1
      exact Finset.sum_congr rfl fun c _ => by ring
    rw [e, hb, sub_zero]
    exact Finset.sum_eq_zero fun c hc => by rw [hn c (Finset.mem_range.1 hc), mul_zero]

/-- Inequality `r` is within `1e-8` of its bound, or violated. -/
def Qpi.Near (q : Qpi) (r : Nat) : Prop := -1e-8 < rowVal q.ineq r q.sol.at'

/-- What the loop over the inequalities has collected before row `r`. -/
structure AccInv (q : Qpi) (r : Nat) (s : Acc) : Prop where
  lo : q.eq.1.rows ≤ s.toCol
  hi : s.toCol ≤ q.eq.1.rows + r
  eqc : ∀ c < q.eq.1.rows, s.cols c = q.eq.1.at' c
  src : ∀ c, q.eq.1.rows ≤ c → c < s.toCol → ∃ i < r, q.Near i ∧ s.cols c = q.ineq.1.at' i
  all : ∀ i < r, q.Near i → ∃ c < s.toCol, s.cols c = q.ineq.1.at' i
  vio : s.vio = ∑ i ∈ Finset.range r, max 0 (rowVal q.ineq i q.sol.at') * max 0 (rowVal q.ineq i q.sol.at')

theorem accLoop_inv (q : Qpi) : ∀ (fuel r : Nat) (s : Acc), AccInv q r s → AccInv q (r + fuel) (accLoop q fuel r s) := by
  intro fuel
  induction fuel with
  | zero => intro r s h; simpa [accLoop] using h
  | succ fuel ih =>
    intro r s h
    simp only [accLoop]
    have hv : affVal q.ineq q.sol.at' r = rowVal q.ineq r q.sol.at' := rfl
    rw [show r + (fuel + 1) = r + 1 + fuel by omega]
    apply ih
    rw [hv]
    split
    · rename_i hn
      refine ⟨by have := h.lo; dsimp only; omega, by have := h.hi; dsimp only; omega, ?_, ?_, ?_, ?_⟩
      · intro c hc
        dsimp only
        rw [if_neg (by have := h.lo; omega)]
        exact h.eqc c hc
      · intro c h1 h2
        dsimp only at h2 ⊢
        by_cases hc : c = s.toCol
        · exact ⟨r, by omega, hn, by rw [if_pos hc]⟩
        · obtain ⟨i, a, b, d⟩ := h.src c h1 (by omega)
          exact ⟨i, by omega, b, by rw [if_neg hc]; exact d⟩
      · intro i hi hni
        dsimp only
        by_cases hir : i = r
        · subst hir
          exact ⟨s.toCol, by omega, by rw [if_pos rfl]⟩
        · obtain ⟨c, a, b⟩ := h.all i (by omega) hni
          exact ⟨c, by omega, by rw [if_neg (by omega)]; exact b⟩
      · dsimp only
        rw [Finset.sum_range_succ, ← h.vio]
    · rename_i hn
      refine ⟨h.lo, by have := h.hi; dsimp only; omega, h.eqc, ?_, ?_, ?_⟩
      · intro c h1 h2
        obtain ⟨i, a, b, d⟩ := h.src c h1 h2
        exact ⟨i, by omega, b, d⟩
      · intro i hi hni
        by_cases hir : i = r
        · subst hir; exact absurd hni hn
        · exact h.all i (by omega) hni
      · dsimp only
        rw [Finset.sum_range_succ, ← h.vio]

theorem acc_inv (junk : Nat → Nat → ℝ) (q : Qpi) : AccInv q q.ineq.1.rows (acc junk q) := by
  have := accLoop_inv q q.ineq.1.rows 0
    ⟨fun c => if c < q.eq.1.rows then q.eq.1.at' c else junk c, q.eq.1.rows, 0⟩
    ⟨le_rfl, le_rfl, fun c hc => by simp [hc], fun c h1 h2 => by dsimp only at h2; omega,
      fun i hi => by omega, by simp⟩
  simpa [acc] using this

/-- The directions along which the constraints collected do not change. -/
def Qpi.Free (n : Nat) (q : Qpi) (d : Nat → ℝ) : Prop :=
  (∀ c < q.eq.1.rows, ∑ i ∈ Finset.range n, q.eq.1.at' c i * d i = 0) ∧
  ∀ r < q.ineq.1.rows, q.Near r → ∑ i ∈ Finset.range n, q.ineq.1.at' r i * d i = 0

theorem cols_free (n : Nat) (junk : Nat → Nat → ℝ) (q : Qpi) (d : Nat → ℝ) :
    (∀ c < (acc junk q).toCol, ∑ i ∈ Finset.range n, (acc junk q).cols c i * d i = 0) ↔ q.Free n d := by
  have h := acc_inv junk q
  constructor
  · intro hc
    refine ⟨fun c hlt => ?_, fun r hr hn => ?_⟩
    · rw [← h.eqc c hlt]; exact hc c (by have := h.lo; omega)
    · obtain ⟨c, a, b⟩ := h.all r hr hn
      rw [← b]; exact hc c a
  · rintro ⟨h1, h2⟩ c hc
    by_cases hlt : c < q.eq.1.rows
    · rw [h.eqc c hlt]; exact h1 c hlt
    · obtain ⟨i, a, b, e⟩ := h.src c (by omega) hc
      rw [e]; exact h2 i a b

/-- The measure is zero iff the point is feasible and the gradient is orthogonal to all free directions. -/
theorem optCondition_zero (n : Nat) (q : Qpi) (hq : q.Sized n)
    (solve : Nat → Nat → (Nat → Nat → ℝ) → (Nat → ℝ) → Nat → ℝ) (hs : Lsq solve) (junk : Nat → Nat → ℝ) :
    optCondition solve junk q = 0 ↔ q.EqHold q.sol.at' ∧ q.IneqHold q.sol.at' ∧
      ∀ d, q.Free n d → ∑ i ∈ Finset.range n, objGrad q i * d i = 0 := by
  have hI := acc_inv junk q
  set s := acc junk q with hsdef
  have e1 : (if q.eq.1.rows ≠ 0 then ∑ i ∈ Finset.range q.eq.1.rows, affVal q.eq q.sol.at' i * affVal q.eq q.sol.at' i
      else 0) = ∑ i ∈ Finset.range q.eq.1.rows, rowVal q.eq i q.sol.at' * rowVal q.eq i q.sol.at' := by
    split
    · rfl
    · rename_i h
      simp only [ne_eq, not_not] at h
      rw [h]; simp
  obtain ⟨l, hl, e2⟩ : ∃ l, (∀ l', resid n s.toCol s.cols (objGrad q) l ≤ resid n s.toCol s.cols (objGrad q) l') ∧
      (if s.toCol ≠ 0 then resid q.H.rows s.toCol s.cols (objGrad q) (solve q.H.rows s.toCol s.cols (objGrad q))
        else ∑ i ∈ Finset.range q.H.rows, objGrad q i * objGrad q i) = resid n s.toCol s.cols (objGrad q) l := by
    rw [hq.Hr]
    refine ⟨solve n s.toCol s.cols (objGrad q), hs n _ _ _, ?_⟩
    split
    · rfl
    · rename_i h
      simp only [ne_eq, not_not] at h
      rw [h]; simp [resid]
  have n1 : 0 ≤ ∑ i ∈ Finset.range q.eq.1.rows, rowVal q.eq i q.sol.at' * rowVal q.eq i q.sol.at' :=
    Finset.sum_nonneg fun _ _ => mul_self_nonneg _
  have n2 : 0 ≤ s.vio := by rw [hI.vio]; exact Finset.sum_nonneg fun _ _ => mul_self_nonneg _
  have n3 := resid_nonneg n s.toCol s.cols (objGrad q) l
  unfold optCondition
  dsimp only
  rw [← hsdef, e1, e2, Real.sqrt_eq_zero (by linarith)]
  have z1 : ∑ i ∈ Finset.range q.eq.1.rows, rowVal q.eq i q.sol.at' * rowVal q.eq i q.sol.at' = 0 ↔ q.EqHold q.sol.at' := by
    rw [Finset.sum_eq_zero_iff_of_nonneg (fun i _ => mul_self_nonneg _)]
    simp [Qpi.EqHold]
  have z2 : s.vio = 0 ↔ q.IneqHold q.sol.at' := by
    rw [hI.vio, Finset.sum_eq_zero_iff_of_nonneg (fun i _ => mul_self_nonneg _)]
    simp [Qpi.IneqHold]
  have z3 := resid_zero hl
  have z4 : (∀ d : Nat → ℝ, (∀ c < s.toCol, ∑ i ∈ Finset.range n, s.cols c i * d i = 0) →
      ∑ i ∈ Finset.range n, objGrad q i * d i = 0) ↔ ∀ d, q.Free n d → ∑ i ∈ Finset.range n, objGrad q i * d i = 0 := by
    simp only [hsdef, cols_free n junk q]
  rw [z4] at z3
  rw [← z1, ← z2, ← z3]
  constructor
  · intro h
    exact ⟨by linarith, by linarith, by linarith⟩
  · rintro ⟨a, b, c⟩
    rw [a, b, c]; norm_num

theorem rowVal_add (n : Nat) (a : Aff) (ha : a.1.cols = n) (i : Nat) (x d : Nat → ℝ) (t : ℝ) :
    rowVal a i (fun j => x j + t * d j) = rowVal a i x + t * ∑ j ∈ Finset.range n, a.1.at' i j * d j := by
  unfold rowVal
  rw [ha, Finset.mul_sum]
  have : ∑ j ∈ Finset.range n, a.1.at' i j * (x j + t * d j) =
      ∑ j ∈ Finset.range n, a.1.at' i j * x j + ∑ j ∈ Finset.range n, t * (a.1.at' i j * d j) := by
    rw [← Finset.sum_add_distrib]
    exact Finset.sum_congr rfl fun j _ => by ring
  rw [this]; ring

/-- Curvature of the objective. -/
noncomputable def Qpi.curv (n : Nat) (q : Qpi) (d : Nat → ℝ) : ℝ :=
  ∑ i ∈ Finset.range n, d i * ∑ j ∈ Finset.range n, q.H.at' i j * d j

theorem objective_add {n : Nat} {q : Qpi} (hq : q.Sized n) (hH : ∀ i < n, ∀ j < n, q.H.at' i j = q.H.at' j i)
    (d : Nat → ℝ) (t : ℝ) :
    q.objective n (fun i => q.sol.at' i + t * d i) =
      q.objective n q.sol.at' + 2 * t * ∑ i ∈ Finset.range n, objGrad q i * d i + t ^ 2 * q.curv n d := by
  set x := q.sol.at' with hx
  have hsym : ∑ i ∈ Finset.range n, x i * ∑ j ∈ Finset.range n, q.H.at' i j * d j =
      ∑ i ∈ Finset.range n, d i * ∑ j ∈ Finset.range n, q.H.at' i j * x j := by
    simp only [Finset.mul_sum]
    rw [Finset.sum_comm]
    refine Finset.sum_congr rfl fun i hi => Finset.sum_congr rfl fun j hj => ?_
    rw [hH j (Finset.mem_range.1 hj) i (Finset.mem_range.1 hi)]; ring
  have hg : ∑ i ∈ Finset.range n, objGrad q i * d i =
      ∑ i ∈ Finset.range n, d i * ∑ j ∈ Finset.range n, q.H.at' i j * x j + ∑ i ∈ Finset.range n, q.g.at' i * d i := by
    rw [← Finset.sum_add_distrib]
    refine Finset.sum_congr rfl fun i _ => ?_
    simp only [objGrad, hq.Hc]; ring
  rw [hg]
  unfold Qpi.objective Qpi.curv
  have e1 : ∀ i, ∑ j ∈ Finset.range n, q.H.at' i j * (x j + t * d j) =
      ∑ j ∈ Finset.range n, q.H.at' i j * x j + t * ∑ j ∈ Finset.range n, q.H.at' i j * d j := by
    intro i
    rw [Finset.mul_sum, ← Finset.sum_add_distrib]
    exact Finset.sum_congr rfl fun j _ => by ring
  simp only [e1]
  have e2 : ∑ i ∈ Finset.range n, (x i + t * d i) * (∑ j ∈ Finset.range n, q.H.at' i j * x j +
      t * ∑ j ∈ Finset.range n, q.H.at' i j * d j) =
      ∑ i ∈ Finset.range n, x i * ∑ j ∈ Finset.range n, q.H.at' i j * x j +
      t * ∑ i ∈ Finset.range n, x i * ∑ j ∈ Finset.range n, q.H.at' i j * d j +
      t * ∑ i ∈ Finset.range n, d i * ∑ j ∈ Finset.range n, q.H.at' i j * x j +
      t ^ 2 * ∑ i ∈ Finset.range n, d i * ∑ j ∈ Finset.range n, q.H.at' i j * d j := by
    rw [Finset.mul_sum (s := Finset.range n) (a := t), Finset.mul_sum (s := Finset.range n) (a := t),
      Finset.mul_sum (s := Finset.range n) (a := t ^ 2), ← Finset.sum_add_distrib, ← Finset.sum_add_distrib,
      ← Finset.sum_add_distrib]
    exact Finset.sum_congr rfl fun i _ => by ring
  have e3 : ∑ i ∈ Finset.range n, q.g.at' i * (x i + t * d i) =
      ∑ i ∈ Finset.range n, q.g.at' i * x i + t * ∑ i ∈ Finset.range n, q.g.at' i * d i := by
    rw [Finset.mul_sum, ← Finset.sum_add_distrib]
    exact Finset.sum_congr rfl fun i _ => by ring
  rw [e2, e3, hsym]
  ring

/-- C197: at every minimiser of the problem the measure is zero (for any symmetric `H`). -/
theorem C197_optimal (n : Nat) (q : Qpi) (hq : q.Sized n) (hH : ∀ i < n, ∀ j < n, q.H.at' i j = q.H.at' j i)
    (solve : Nat → Nat → (Nat → Nat → ℝ) → (Nat → ℝ) → Nat → ℝ) (hs : Lsq solve) (junk : Nat → Nat → ℝ)
    (hf : q.EqHold q.sol.at' ∧ q.IneqHold q.sol.at')
    (hopt : ∀ y, q.EqHold y → q.IneqHold y → q.objective n q.sol.at' ≤ q.objective n y) :
    optCondition solve junk q = 0 := by
  rw [optCondition_zero n q hq solve hs junk]
  refine ⟨hf.1, hf.2, fun d hd => ?_⟩
  -- a step that keeps every inequality satisfied
  obtain ⟨τ, hτ, hstep⟩ : ∃ τ > 0, ∀ t : ℝ, |t| ≤ τ → q.IneqHold (fun i => q.sol.at' i + t * d i) := by
    set S := ∑ r ∈ Finset.range q.ineq.1.rows, |∑ i ∈ Finset.range n, q.ineq.1.at' r i * d i| with hS
    have hS0 : 0 ≤ S := Finset.sum_nonneg fun _ _ => abs_nonneg _
    refine ⟨1e-8 / (S + 1), by positivity, fun t ht r hr => ?_⟩
    rw [rowVal_add n q.ineq hq.ic]
    by_cases hn : q.Near r
    · rw [hd.2 r hr hn, mul_zero, add_zero]; exact hf.2 r hr
    · unfold Qpi.Near at hn
      push Not at hn
      have hle : |∑ i ∈ Finset.range n, q.ineq.1.at' r i * d i| ≤ S :=
        Finset.single_le_sum (f := fun r => |∑ i ∈ Finset.range n, q.ineq.1.at' r i * d i|)
          (fun _ _ => abs_nonneg _) (Finset.mem_range.2 hr)
      have h1 : t * ∑ i ∈ Finset.range n, q.ineq.1.at' r i * d i ≤ 1e-8 / (S + 1) * S := by
        calc _ ≤ |t * ∑ i ∈ Finset.range n, q.ineq.1.at' r i * d i| := le_abs_self _
          _ = |t| * |∑ i ∈ Finset.range n, q.ineq.1.at' r i * d i| := abs_mul _ _
          _ ≤ _ := mul_le_mul ht hle (abs_nonneg _) (by positivity)
      have h2 : 1e-8 / (S + 1) * S ≤ 1e-8 := by
        rw [div_mul_eq_mul_div, div_le_iff₀ (by linarith)]
        nlinarith
      linarith
  have heq : ∀ t : ℝ, q.EqHold (fun i => q.sol.at' i + t * d i) := by
    intro t c hc
    rw [rowVal_add n q.eq hq.ec, hd.1 c hc, mul_zero, add_zero]
    exact hf.1 c hc
  set p := ∑ i ∈ Finset.range n, objGrad q i * d i with hp
  have key : ∀ t : ℝ, |t| ≤ τ → 0 ≤ 2 * t * p + t ^ 2 * q.curv n d := by
    intro t ht
    have := hopt _ (heq t) (hstep t ht)
    rw [objective_add hq hH] at this
    linarith
  -- scaled to all `t`
  by_contra hne
  set s := q.curv n d
  set ε := min τ (|p| / (|s| + 1)) with hε
  have hs0 : 0 < |s| + 1 := by positivity
  have hp0 : 0 < |p| := abs_pos.2 hne
  have hε0 : 0 < ε := lt_min hτ (by positivity)
  have hεp : ε * (|s| + 1) ≤ |p| := by
    have : ε ≤ |p| / (|s| + 1) := min_le_right _ _
    rwa [le_div_iff₀ hs0] at this
  have hb : ε ^ 2 * s ≤ ε * |p| := by
    have h3 : s ≤ |s| + 1 := (le_abs_self s).trans (by linarith)
    nlinarith [mul_le_mul_of_nonneg_left hεp hε0.le]
  rcases lt_or_gt_of_ne hne with h | h
  · have := key ε (by rw [abs_of_pos hε0]; exact min_le_left _ _)
    rw [abs_of_neg h] at hb
    nlinarith
  · have := key (-ε) (by rw [abs_neg, abs_of_pos hε0]; exact min_le_left _ _)
    rw [abs_of_pos h] at hb
    nlinarith

/-- C197: what a measure of zero means for a convex objective: the point is feasible and no point which
satisfies the equalities and for which the nearly active inequalities have the same value is better. -/
theorem C197_zero_iff (n : Nat) (q : Qpi) (hq : q.Sized n) (hH : ∀ i < n, ∀ j < n, q.H.at' i j = q.H.at' j i)
    (hpsd : ∀ d : Nat → ℝ, 0 ≤ ∑ i ∈ Finset.range n, d i * ∑ j ∈ Finset.range n, q.H.at' i j * d j)
    (solve : Nat → Nat → (Nat → Nat → ℝ) → (Nat → ℝ) → Nat → ℝ) (hs : Lsq solve) (junk : Nat → Nat → ℝ) :
    optCondition solve junk q = 0 ↔ q.EqHold q.sol.at' ∧ q.IneqHold q.sol.at' ∧
      ∀ y, q.EqHold y →
        (∀ r < q.ineq.1.rows, -1e-8 < rowVal q.ineq r q.sol.at' → rowVal q.ineq r y = rowVal q.ineq r q.sol.at') →
        q.objective n q.sol.at' ≤ q.objective n y := by
  rw [optCondition_zero n q hq solve hs junk]
  refine and_congr_right fun he => and_congr_right fun _ => ?_
  constructor
  · intro h y hy hr
    have ey : ∀ i, q.sol.at' i + 1 * (y i - q.sol.at' i) = y i := fun i => by ring
    have efun : (fun i => q.sol.at' i + 1 * (y i - q.sol.at' i)) = y := funext ey
    have hfree : q.Free n (fun i => y i - q.sol.at' i) := by
      refine ⟨fun c hc => ?_, fun r hrr hn => ?_⟩
      · have := rowVal_add n q.eq hq.ec c q.sol.at' (fun i => y i - q.sol.at' i) 1
        rw [efun, hy c hc, he c hc] at this
        linarith
      · have := rowVal_add n q.ineq hq.ic r q.sol.at' (fun i => y i - q.sol.at' i) 1
        rw [efun, hr r hrr hn] at this
        linarith
    have := objective_add hq hH (fun i => y i - q.sol.at' i) 1
    rw [efun, h _ hfree] at this
    have := hpsd (fun i => y i - q.sol.at' i)
    unfold Qpi.curv at *
    linarith
  · intro h d hd
    have key : ∀ t : ℝ, 0 ≤ t ^ 2 * q.curv n d + 2 * t * ∑ i ∈ Finset.range n, objGrad q i * d i := by
      intro t
      have := h (fun i => q.sol.at' i + t * d i) (fun c hc => by
        rw [rowVal_add n q.eq hq.ec, hd.1 c hc, mul_zero, add_zero]; exact he c hc) (fun r hr hn => by
        rw [rowVal_add n q.ineq hq.ic, hd.2 r hr hn, mul_zero, add_zero])
      rw [objective_add hq hH] at this
      linarith
    exact quad_zero key

/-- C197, partial: without a nearly active inequality the measure is zero exactly at the minimisers. -/
theorem C197_inactive_partial (n : Nat) (q : Qpi) (hq : q.Sized n) (hH : ∀ i < n, ∀ j < n, q.H.at' i j = q.H.at' j i)
    (hpsd : ∀ d : Nat → ℝ, 0 ≤ ∑ i ∈ Finset.range n, d i * ∑ j ∈ Finset.range n, q.H.at' i j * d j)
    (solve : Nat → Nat → (Nat → Nat → ℝ) → (Nat → ℝ) → Nat → ℝ) (hs : Lsq solve) (junk : Nat → Nat → ℝ)
    (hin : ∀ r < q.ineq.1.rows, rowVal q.ineq r q.sol.at' ≤ -1e-8) :
    optCondition solve junk q = 0 ↔ q.EqHold q.sol.at' ∧ q.IneqHold q.sol.at' ∧
      ∀ y, q.EqHold y → q.IneqHold y → q.objective n q.sol.at' ≤ q.objective n y := by
  constructor
  · intro h
    obtain ⟨h1, h2, h3⟩ := (C197_zero_iff n q hq hH hpsd solve hs junk).1 h
    exact ⟨h1, h2, fun y hy _ => h3 y hy fun r hr hn => absurd hn (not_lt.2 (hin r hr))⟩
  · rintro ⟨h1, h2, h3⟩
    exact C197_optimal n q hq hH solve hs junk ⟨h1, h2⟩ h3

/-- C197 violated: at zero of `min (x - 1)^2` subject to `x >= 0` the inequality is active but pulls the wrong
way; the measure is zero although the point is not a minimiser: the signs of the multipliers are not looked
at. -/
theorem C197_violated (solve : Nat → Nat → (Nat → Nat → ℝ) → (Nat → ℝ) → Nat → ℝ) (hs : Lsq solve)
    (junk : Nat → Nat → ℝ) : qZero.Sized 1 ∧ optCondition solve junk qZero = 0 ∧
    ∃ y, qZero.EqHold y ∧ qZero.IneqHold y ∧ qZero.objective 1 y < qZero.objective 1 qZero.sol.at' := by
  obtain ⟨h1, h2, h3⟩ := C196_feasibility_only
  obtain ⟨h4, h5⟩ := (C196_feasible qZero).1.1 h2
  refine ⟨h1, ?_, h3⟩
  rw [optCondition_zero 1 qZero h1 solve hs junk]
  refine ⟨h4, h5, fun d hd => ?_⟩
  have := hd.2 0 (by simp [qZero]) (by norm_num [Qpi.Near, qZero, rowVal])
  simp [qZero] at this
  simp [this]

/-- `min (x - 1)^2` without constraints at `x = 1`. -/
example : ∃ (q : Qpi) (solve : Nat → Nat → (Nat → Nat → ℝ) → (Nat → ℝ) → Nat → ℝ), q.Sized 1 ∧ Lsq solve ∧
    (∀ i < 1, ∀ j < 1, q.H.at' i j = q.H.at' j i) ∧
    (∀ d : Nat → ℝ, 0 ≤ ∑ i ∈ Finset.range 1, d i * ∑ j ∈ Finset.range 1, q.H.at' i j * d j) ∧
    (∀ r < q.ineq.1.rows, rowVal q.ineq r q.sol.at' ≤ -1e-8) ∧
    q.EqHold q.sol.at' ∧ q.IneqHold q.sol.at' ∧
      ∀ y, q.EqHold y → q.IneqHold y → q.objective 1 q.sol.at' ≤ q.objective 1 y := by
  obtain ⟨solve, hs⟩ := lsq_exists
  refine ⟨{ qZero with sol := ⟨1, fun _ => 1⟩ }, solve, ⟨rfl, rfl, rfl, rfl, rfl, rfl, rfl, rfl⟩, hs,
    fun i _ j _ => rfl, fun d => by simp [qZero, mul_self_nonneg], fun r _ => by norm_num [qZero, rowVal], ?_, ?_, ?_⟩
  · intro i hi; simp [qZero, Mat.setZero] at hi
  · intro i _; simp [qZero, rowVal]
  · intro y _ _
    simp [qZero, Qpi.objective]
    nlinarith [sq_nonneg (y 0 - 1)]

/-- The members after the active-set solver has returned with the solution `x`. -/
def ofData (q : RtQP.Data) (x : Nat → ℝ) : Qpi :=
  { props := 0, g := ⟨q.n, q.g⟩, sol := ⟨q.n, x⟩, H := ⟨q.n, q.n, q.H⟩
    eq := (⟨q.p, q.n, q.CE⟩, ⟨q.p, q.ce0⟩), ineq := (⟨q.m, q.n, q.CI⟩, ⟨q.m, q.ci0⟩) }

/-- C197 and the active-set solver: with exact tests and independent equalities every solution it reports is
accepted by `checkSolution` with thresholds zero and has measure zero. -/
theorem C197_solver (q : RtQP.Data) (hv : q.Valid) (h0 : q.eps = 0) (hi : q.EqIndependent)
    (solve : Nat → Nat → (Nat → Nat → ℝ) → (Nat → ℝ) → Nat → ℝ) (hs : Lsq solve) (junk : Nat → Nat → ℝ) :
    ∃ k, ((∃ v, (q.run k).pc = .ret (some v)) ∧ checkSolution (ofData q (q.run k).x) 0 0 = true ∧
        optCondition solve junk (ofData q (q.run k).x) = 0) ∨
      ((q.run k).pc = .ret none ∧ ∀ y, ¬ q.Feasible y) := by
  obtain ⟨k, h⟩ := RtQP.C98_exact q hv h0 hi
  refine ⟨k, ?_⟩
  rcases h with ⟨v, hr, hf, ho, -⟩ | h
  · refine Or.inl ⟨⟨v, hr⟩, ?_⟩
    set x := (q.run k).x
    have hsz : (ofData q x).Sized q.n := ⟨rfl, rfl, rfl, rfl, rfl, rfl, rfl, rfl⟩
    have hEq : ∀ y, (ofData q x).EqHold y ∧ (ofData q x).IneqHold y ↔ q.Feasible y := fun y => Iff.rfl
    have hOb : ∀ y, (ofData q x).objective q.n y = q.objective y := fun y => rfl
    refine ⟨(C196_feasible _).1.2 ((hEq _).2 hf), ?_⟩
    refine C197_optimal q.n _ hsz hv.symm solve hs junk ((hEq _).2 hf) fun y h1 h2 => ?_
    rw [hOb, hOb]
    exact ho y ((hEq y).1 ⟨h1, h2⟩)
  · exact Or.inr h

/-! ### C198: the inverse of the singular values -/

/-- The pseudo-inverse of the singular values: those not above `sv_0 / cond` are treated as zero. -/
noncomputable def pinvSpec (cond : ℝ) (sv : Nat → ℝ) (i : Nat) : ℝ :=
  open Classical in if sv i > sv 0 / cond then 1 / sv i else 0

theorem pinvLoop_spec (sv : Nat → ℝ) (m : ℝ) : ∀ (fuel id : Nat) (out : Nat → ℝ),
    let r := pinvLoop sv m fuel id out
    id ≤ r.2 ∧ r.2 ≤ id + fuel ∧ (∀ i, id ≤ i → i < r.2 → sv i > m ∧ r.1 i = 1 / sv i) ∧
    (r.2 < id + fuel → ¬ sv r.2 > m ∧ r.1 r.2 = 0) ∧ (∀ i, i < id ∨ r.2 < i ∨ id + fuel ≤ i → r.1 i = out i) := by
  intro fuel
  induction fuel with
  | zero => intro id out; refine ⟨le_rfl, le_rfl, fun i _ h => ?_, fun h => ?_, fun _ _ => rfl⟩ <;>
      simp [pinvLoop] at * <;> omega
  | succ fuel ih =>
    intro id out
    simp only [pinvLoop]
    split
    · rename_i h
      obtain ⟨a, b, c, d, e⟩ := ih (id + 1) (fun i => if i = id then 1 / sv id else out i)
      refine ⟨by omega, by omega, fun i h1 h2 => ?_, fun h1 => d (by omega), fun i hi => ?_⟩
      · by_cases hi : i = id
        · subst hi
          refine ⟨h, ?_⟩
          rw [e i (Or.inl (by omega)), if_pos rfl]
        · exact c i (by omega) h2
      · by_cases hi' : i = id
        · subst hi'
          omega
        · rw [e i (by omega), if_neg hi']
    · rename_i h
      refine ⟨le_rfl, by dsimp only; omega, fun i h1 h2 => by dsimp only at h2; omega, fun _ => ⟨h, by simp⟩, fun i hi => ?_⟩
      dsimp only at hi ⊢
      rw [if_neg (by omega)]

/-- C198, partial: if at most the last singular value is below the threshold, the pseudo-inverse is written. -/
theorem C198_pinv_partial (cond : ℝ) (size : Nat) (sv out : Nat → ℝ)
    (h : ∀ i, i + 1 < size → sv i > sv 0 / cond) : ∀ i < size, (sigmaPinv cond size sv out).1 i = pinvSpec cond sv i := by
  intro i hi
  obtain ⟨-, b, c, d, -⟩ := pinvLoop_spec sv (sv 0 / cond) size 0 out
  simp only [Nat.zero_add] at b d
  show (pinvLoop sv (sv 0 / cond) size 0 out).1 i = _
  set r := pinvLoop sv (sv 0 / cond) size 0 out
  unfold pinvSpec
  by_cases hlt : i < r.2
  · obtain ⟨h1, h2⟩ := c i (Nat.zero_le _) hlt
    rw [if_pos h1, h2]
  · have hr : r.2 < size := by omega
    obtain ⟨h1, h2⟩ := d hr
    have : i = r.2 := by
      by_contra hne
      exact h1 (h r.2 (by omega))
    rw [this, if_neg h1, h2]

/-- C198 violated: beyond the first singular value below the threshold the vector keeps what it contained. -/
theorem C198_violated (cond : ℝ) (size : Nat) (sv out : Nat → ℝ) (k : Nat) (hk : ¬ sv k > sv 0 / cond)
    (i : Nat) (hki : k < i) (_hi : i < size) : (sigmaPinv cond size sv out).1 i = out i := by
  obtain ⟨-, b, c, -, e⟩ := pinvLoop_spec sv (sv 0 / cond) size 0 out
  show (pinvLoop sv (sv 0 / cond) size 0 out).1 i = _
  refine e i (Or.inr (Or.inl ?_))
  by_contra hle
  exact hk (c k (Nat.zero_le _) (by omega)).1

/-- C198 violated: the range of the last line is never inside the vector. -/
theorem C198_range (cond : ℝ) (size : Nat) (sv out : Nat → ℝ) :
    (sigmaPinv cond size sv out).2.1 + (sigmaPinv cond size sv out).2.2 = size + 1 := by
  obtain ⟨-, b, -⟩ := pinvLoop_spec sv (sv 0 / cond) size 0 out
  simp only [sigmaPinv]
  omega

/-- Three singular values `1, 0, 0`: the third entry is not set. -/
example : (sigmaPinv 1000 3 (fun i => if i = 0 then 1 else 0) (fun _ => 7)).1 2 = 7 ∧
    pinvSpec 1000 (fun i => if i = 0 then 1 else 0) 2 = 0 := by
  refine ⟨C198_violated 1000 3 _ _ 1 (by norm_num) 2 (by omega) (by omega), ?_⟩
  norm_num [pinvSpec]

/-- Two singular values `2, 1`: the hypothesis of the partial theorem. -/
example : ∀ i, i + 1 < 2 → (fun i : Nat => if i = 0 then (2 : ℝ) else 1) i > 2 / 1000 := by
  intro i hi
  have : i = 0 := by omega
  subst this
  norm_num

/-! ### C199: the condition number -/

/-- C199: for a matrix with at least as many rows as columns and full rank the number is the largest factor by
which the ratio of the lengths of two vectors changes, and it is attained. -/
theorem C199_condition (B : Mat) (s : Svd) (h : SvdOk B s) (hc : 0 < B.cols) (hr : B.cols ≤ B.rows)
    (hp : 0 < s.sv (B.cols - 1)) :
    (∀ x y : Nat → ℝ, sq B.rows (mulV B x) * sq B.cols y ≤
      condNumber B.cols s.sv ^ 2 * (sq B.rows (mulV B y) * sq B.cols x)) ∧
    ∃ x y : Nat → ℝ, sq B.cols x = 1 ∧ sq B.cols y = 1 ∧
      sq B.rows (mulV B x) = condNumber B.cols s.sv ^ 2 * sq B.rows (mulV B y) := by
  have hmin : min B.rows B.cols = B.cols := min_eq_right hr
  have hup : ∀ v, sq B.rows (mulV B (mulV ⟨B.cols, B.cols, s.V⟩ v)) ≤ s.sv 0 ^ 2 * sq B.cols v := by
    intro v
    rw [h.act v, hmin]
    unfold RtHqp.sq
    rw [Finset.mul_sum]
    refine Finset.sum_le_sum fun i hi => ?_
    have hs := h.sorted 0 i (Nat.zero_le _) (by rw [hmin]; exact Finset.mem_range.1 hi)
    rw [mul_pow]
    exact mul_le_mul_of_nonneg_right (pow_le_pow_left₀ hs.1 hs.2 2) (sq_nonneg _)
  have hlo : ∀ v, s.sv (B.cols - 1) ^ 2 * sq B.cols v ≤ sq B.rows (mulV B (mulV ⟨B.cols, B.cols, s.V⟩ v)) := by
    intro v
    rw [h.act v, hmin]
    unfold RtHqp.sq
    rw [Finset.mul_sum]
    refine Finset.sum_le_sum fun i hi => ?_
    have hs := h.sorted i (B.cols - 1) (by have := Finset.mem_range.1 hi; omega) (by rw [hmin]; omega)
    rw [mul_pow]
    exact mul_le_mul_of_nonneg_right (pow_le_pow_left₀ hp.le hs.2 2) (sq_nonneg _)
  have hcongr : ∀ u v : Nat → ℝ, (∀ i < B.cols, u i = v i) →
      sq B.rows (mulV B u) = sq B.rows (mulV B v) ∧ sq B.cols u = sq B.cols v := by
    intro u v huv
    constructor
    · unfold RtHqp.sq
      refine Finset.sum_congr rfl fun k _ => ?_
      congr 1
      unfold mulV
      exact Finset.sum_congr rfl fun i hi => by rw [huv i (Finset.mem_range.1 hi)]
    · unfold RtHqp.sq
      exact Finset.sum_congr rfl fun i hi => by rw [huv i (Finset.mem_range.1 hi)]
  constructor
  · intro x y
    obtain ⟨v, hv⟩ := h.surj x
    obtain ⟨w, hw⟩ := h.surj y
    rw [← (hcongr _ _ hv).1, ← (hcongr _ _ hv).2, ← (hcongr _ _ hw).1, ← (hcongr _ _ hw).2, h.iso, h.iso]
    have h1 := hup v
    have h2 := hlo w
    have n1 : 0 ≤ sq B.cols v := Finset.sum_nonneg fun _ _ => sq_nonneg _
    have n2 : 0 ≤ sq B.cols w := Finset.sum_nonneg fun _ _ => sq_nonneg _
    unfold condNumber
    rw [div_pow, div_mul_eq_mul_div, le_div_iff₀ (by positivity)]
    calc sq B.rows (mulV B (mulV ⟨B.cols, B.cols, s.V⟩ v)) * sq B.cols w * s.sv (B.cols - 1) ^ 2
        = sq B.rows (mulV B (mulV ⟨B.cols, B.cols, s.V⟩ v)) * (s.sv (B.cols - 1) ^ 2 * sq B.cols w) := by ring
      _ ≤ (s.sv 0 ^ 2 * sq B.cols v) * sq B.rows (mulV B (mulV ⟨B.cols, B.cols, s.V⟩ w)) :=
          mul_le_mul h1 h2 (mul_nonneg (sq_nonneg _) n2) (mul_nonneg (sq_nonneg _) n1)
      _ = _ := by ring
  · have unit : ∀ k < B.cols, sq B.cols (fun i => if i = k then 1 else 0) = 1 := by
      intro k hk
      unfold RtHqp.sq
      rw [Finset.sum_eq_single k]
      · simp
      · intro i _ hne; simp [hne]
      · intro hk'; exact absurd (Finset.mem_range.2 hk) hk'
    have val : ∀ k < B.cols, sq B.rows (mulV B (mulV ⟨B.cols, B.cols, s.V⟩ (fun i => if i = k then 1 else 0))) =
        s.sv k ^ 2 := by
      intro k hk
      rw [h.act, hmin, Finset.sum_eq_single k]
      · simp
      · intro i _ hne; simp [hne]
      · intro hk'; exact absurd (Finset.mem_range.2 hk) hk'
    refine ⟨_, _, (h.iso fun i => if i = 0 then 1 else 0).trans (unit 0 hc),
      (h.iso fun i => if i = B.cols - 1 then 1 else 0).trans (unit _ (by omega)), ?_⟩
    rw [val 0 hc, val _ (by omega)]
    unfold condNumber
    rw [div_pow, div_mul_cancel₀]
    positivity

/-- C199: with more columns than rows the number does not bound the change: some unit vector is mapped to
zero. -/
theorem C199_wide (B : Mat) (s : Svd) (h : SvdOk B s) (hr : B.rows < B.cols) :
    ∃ y : Nat → ℝ, sq B.cols y = 1 ∧ sq B.rows (mulV B y) = 0 := by
  have hmin : min B.rows B.cols = B.rows := min_eq_left hr.le
  refine ⟨_, (h.iso fun i => if i = B.rows then 1 else 0).trans ?_, ?_⟩
  · unfold RtHqp.sq
    rw [Finset.sum_eq_single B.rows]
    · simp
    · intro i _ hne; simp [hne]
    · intro hk'; exact absurd (Finset.mem_range.2 hr) hk'
  · rw [h.act, hmin]
    exact Finset.sum_eq_zero fun i hi => by
      have := Finset.mem_range.1 hi
      rw [if_neg (by omega)]; simp

/-- The one-by-one matrix `2`. -/
example : SvdOk ⟨1, 1, fun _ _ => 2⟩ ⟨fun _ => 2, fun _ _ => 1⟩ := by
  refine ⟨fun v => by simp [RtHqp.sq, mulV], fun u => ⟨u, fun i hi => ?_⟩, fun i j _ _ => ⟨by norm_num, le_rfl⟩,
    fun y => by simp [RtHqp.sq, mulV]⟩
  have : i = 0 := by simpa using hi
  subst this
  simp [mulV]

end RtQPIf
end Verif
