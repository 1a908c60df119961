/-
Properties of the dual active-set QP solver (C95 - C99).
-/
import Verif.RtQPTerm
import Verif.RtQPWit

namespace Verif
namespace RtQP

/-! ### A concrete problem with the machine epsilon whose run is regular -/

/-- One variable, Hessian 1, one inequality `x + 1 <= 0`. -/
noncomputable def qOne : Data :=
  { n := 1, p := 0, m := 1, H := fun _ _ => 1, g := fun _ => 0, CE := fun _ _ => 0,
    ce0 := fun _ => 0, CI := fun _ _ => 1, ci0 := fun _ => 1, J0 := fun _ _ => 1, eps := machEps }

theorem qOne_valid : qOne.Valid := by
  refine ⟨fun _ _ _ _ => rfl, ?_, fun _ _ => by simp [qOne], by simp only [qOne, machEps]; norm_num⟩
  intro i hi l hl
  have hi : i = 0 := by simp only [qOne] at hi; omega
  have hl : l = 0 := by simp only [qOne] at hl; omega
  subst hi hl
  simp [qOne, gram]

theorem qOne_run : (qOne.run 0).pc = .l1 ∧ (qOne.run 1).pc = .l2 ∧ Decisive qOne (qOne.run 2) ∧
    (qOne.run 3).pc = .l1 ∧ ∃ v, (qOne.run 4).pc = .ret (some v) := by
  have s1 : qOne.run 1 = qOne.stepL1 qOne.start := rfl
  have h1 : (qOne.run 1).pc = .l2 ∧ (qOne.run 1).iai 0 = true ∧ (qOne.run 1).iaexcl 0 = true ∧
      (qOne.run 1).s 0 = -1 ∧ (qOne.run 1).ss = 0 ∧ (qOne.run 1).ip = 0 ∧ (qOne.run 1).iq = 0 ∧
      (qOne.run 1).J = qOne.J0 ∧ (qOne.run 1).Rnorm = 1 ∧ (qOne.run 1).x 0 = 0 := by
    rw [s1]
    unfold Data.stepL1
    simp only [qOne, Data.start, computeD, Data.slack, dot, Finset.sum_range_one, Data.c1, Data.c2, machEps]
    rw [if_neg (by norm_num)]
    norm_num [Data.slack, dot]
  have s2 : qOne.run 2 = qOne.step (qOne.run 1) := Function.iterate_succ_apply' _ _ _
  have s3 : qOne.run 3 = qOne.step (qOne.run 2) := Function.iterate_succ_apply' _ _ _
  have s4 : qOne.run 4 = qOne.step (qOne.run 3) := Function.iterate_succ_apply' _ _ _
  obtain ⟨a1, a2, a3, a4, a5, a6, a7, a8, a9, a10⟩ := h1
  have e2 : qOne.run 2 = qOne.stepL2 (qOne.run 1) := by rw [s2]; unfold Data.step; rw [a1]
  generalize qOne.run 1 = st1 at *
  have h2 : (qOne.run 2).pc = .l2a ∧ (qOne.run 2).ip = 0 ∧ (qOne.run 2).iq = 0 ∧ (qOne.run 2).J = qOne.J0 ∧
      (qOne.run 2).Rnorm = 1 ∧ (qOne.run 2).s 0 = -1 ∧ (qOne.run 2).x 0 = 0 := by
    rw [e2]
    unfold Data.stepL2
    have : Data.pick st1 qOne.m = (-1, 0) := by
      simp only [qOne, Data.pick, a2, a3, a4, a5]; norm_num
    simp only [this, a7]
    rw [if_neg (by norm_num), if_neg (by simp [qOne])]
    simp [a8, a9, a4, a10]
  generalize qOne.run 2 = st2 at *
  obtain ⟨b1, b2, b3, b4, b5, b6, b7⟩ := h2
  have hz : qOne.dir st2 0 = -1 := by
    simp only [qOne, Data.dir, b3, b4]
    norm_num [updateZ, computeD]
  have hzz : dot qOne.n (qOne.dir st2) (qOne.dir st2) = 1 := by
    simp only [dot, show qOne.n = 1 from rfl, Finset.sum_range_one, hz]; norm_num
  have hznp : dot qOne.n (qOne.dir st2) (fun i => -(qOne.CI 0 i)) = 1 := by
    simp only [dot, show qOne.n = 1 from rfl, Finset.sum_range_one, hz]; norm_num [qOne]
  have hflag : (addConstraint qOne.n qOne.eps st2.R st2.J (computeD qOne.n st2.J (fun i => -(qOne.CI 0 i))) 0
      1).2.2.2 = true := by
    rw [addConstraint_flag (by simp [qOne]), b4]
    simp only [qOne, computeD, machEps]
    norm_num
  have hdec : Decisive qOne st2 := by
    intro _
    rw [hzz, b2, b3, b5]
    refine ⟨fun h => ?_, fun _ => hflag⟩
    simp only [qOne, machEps] at h
    norm_num at h
  have e3 : qOne.step st2 = qOne.stepL2a st2 := by unfold Data.step; rw [b1]
  have h3 : (qOne.run 3).pc = .l1 ∧ (qOne.run 3).x 0 = -1 := by
    rw [s3, e3]
    unfold Data.stepL2a
    simp only [b2, hzz, b3, b5, b6, hznp]
    rw [if_pos (by simp only [qOne, machEps]; norm_num), show qOne.ratio st2.u
      (updateR st2.R (computeD qOne.n st2.J fun i => -qOne.CI 0 i) 0) (0 - qOne.p) = none from rfl]
    simp only
    rw [if_pos (by trivial), if_pos hflag]
    exact ⟨rfl, by simp only [b7, hz]; norm_num⟩
  refine ⟨rfl, a1, hdec, h3.1, ?_⟩
  have e4 : qOne.run 4 = qOne.stepL1 (qOne.run 3) := by rw [s4]; unfold Data.step; rw [h3.1]
  rw [e4]
  unfold Data.stepL1
  simp only
  rw [if_pos]
  · exact ⟨_, rfl⟩
  · have hm : qOne.m = 1 := rfl
    have : qOne.slack (qOne.run 3).x 0 = 0 := by
      simp only [Data.slack, dot, show qOne.n = 1 from rfl, Finset.sum_range_one, h3.2]; norm_num [qOne]
    rw [hm, Finset.sum_range_one, this]
    simp only [qOne, Data.c1, Data.c2, machEps]
    norm_num

theorem qOne_regular : Regular qOne := by
  obtain ⟨h0, h1, h2, h3, v, h4⟩ := qOne_run
  refine ⟨fun i hi => by simp [qOne] at hi, ?_⟩
  have stay : ∀ j, (qOne.run (j + 4)).pc = .ret (some v) := by
    intro j
    induction j with
    | zero => exact h4
    | succ j ih =>
      have : qOne.run (j + 1 + 4) = qOne.step (qOne.run (j + 4)) := Function.iterate_succ_apply' _ _ _
      rw [this]
      unfold Data.step
      rw [ih]
      exact ih
  intro k
  match k with
  | 0 => intro h; rw [h0] at h; cases h
  | 1 => intro h; rw [h1] at h; cases h
  | 2 => exact h2
  | 3 => intro h; rw [h3] at h; cases h
  | j + 4 => intro h; rw [stay j] at h; cases h

/-! ### C95: a finite result is a solution -/

/-- C95: when the numerical tests of the run decide correctly and the solver returns a finite value, the
equalities hold exactly, the inequalities hold up to the documented tolerance, no feasible point is better, and
the value returned is half the documented objective. -/
theorem C95_optimal_partial (q : Data) (hv : q.Valid) (hr : Regular q) (k : Nat) (v : ℝ)
    (h : (q.run k).pc = .ret (some v)) :
    q.EqHold (q.run k).x ∧
    q.violation (q.run k).x ≤ q.m * q.eps * q.c1 * q.c2 * 100 ∧
    (∀ y, q.Feasible y → q.objective (q.run k).x ≤ q.objective y) ∧
    2 * v = q.objective (q.run k).x := by
  have hg := run_good hv hr k
  simp only [Good, h] at hg
  obtain ⟨g1, g2, g3⟩ := hg
  refine ⟨?_, g3, fun y hy => g2.core.optimal hv hy, by rw [g1]; ring⟩
  intro i hi
  have := g2.core.act i (by have := g2.core.le; omega)
  unfold nrm off at this
  rw [if_pos hi, if_pos hi] at this
  linarith

/-- C95, stronger: the point returned is also optimal among all points that violate no inequality more than
it does itself (so the tolerance buys no better value). -/
theorem C95_optimal_relaxed_partial (q : Data) (hv : q.Valid) (hr : Regular q) (k : Nat) (v : ℝ)
    (h : (q.run k).pc = .ret (some v)) (y : Nat → ℝ) (hye : q.EqHold y)
    (hyi : ∀ i < q.m, dot q.n (q.CI i) y + q.ci0 i ≤ max 0 (dot q.n (q.CI i) (q.run k).x + q.ci0 i)) :
    q.objective (q.run k).x ≤ q.objective y := by
  have hg := run_good hv hr k
  simp only [Good, h] at hg
  exact hg.2.1.core.optimal_relaxed hv hye hyi

example : ∃ k v, (qOne.run k).pc = .ret (some v) ∧ qOne.Valid ∧ Regular qOne ∧ 0 < qOne.eps := by
  obtain ⟨-, -, -, -, v, h⟩ := qOne_run
  exact ⟨4, v, h, qOne_valid, qOne_regular, by simp only [qOne, machEps]; norm_num⟩

theorem feasible_of_violation {q : Data} {x : Nat → ℝ} (h1 : q.EqHold x) (h2 : q.violation x ≤ 0) : q.Feasible x := by
  refine ⟨h1, ?_⟩
  intro i hi
  have h3 : q.violation x = 0 := le_antisymm h2 (Finset.sum_nonneg (fun i _ => le_max_left _ _))
  have := (Finset.sum_eq_zero_iff_of_nonneg (fun i _ => le_max_left _ _)).1 h3 i (Finset.mem_range.2 hi)
  exact max_eq_left_iff.1 this

/-- C95 fails without that hypothesis: the equality `1e-9 x + 1 = 0` is taken for zero, and `x = 0` is returned
with a finite value. -/
theorem C95_violated : ∃ q : Data, q.Valid ∧ q.eps = machEps ∧ (∃ y, q.Feasible y) ∧
    ∃ k v, (q.run k).pc = .ret (some v) ∧ ¬ q.EqHold (q.run k).x := by
  obtain ⟨v, h1, h2⟩ := qEq_run
  refine ⟨qEq, qEq_valid, rfl, ⟨fun _ => -1000000000, ?_⟩, 1, v, h1, ?_⟩
  · refine ⟨fun i _ => ?_, fun i hi => by simp [qEq] at hi⟩
    simp only [qEq, dot, Finset.sum_range_one]; norm_num
  · intro h
    have := h 0 (by simp [qEq])
    simp only [dot, show qEq.n = 1 from rfl, Finset.sum_range_one, h2] at this
    norm_num [qEq] at this

/-- C95 fails for contradicting equalities: a finite value is returned (when assertions are disabled). -/
theorem C95_violated_dependent : ∃ q : Data, q.Valid ∧ q.eps = machEps ∧ (∀ y, ¬ q.Feasible y) ∧
    ∃ k v, (q.run k).pc = .ret (some v) := by
  obtain ⟨v, h1, -⟩ := qDep_run
  refine ⟨qDep, qDep_valid, rfl, ?_, 0, v, h1⟩
  intro y hy
  have a := hy.1 0 (by simp [qDep])
  have b := hy.1 1 (by simp [qDep])
  simp only [dot, show qDep.n = 2 from rfl, Finset.sum_range_succ, Finset.sum_range_zero] at a b
  norm_num [qDep] at a b
  linarith

/-! ### C96: an infinite result means infeasibility -/

/-- C96: when the numerical tests decide correctly and the solver returns infinity, no point satisfies the
constraints. -/
theorem C96_infeasible_partial (q : Data) (hv : q.Valid) (hr : Regular q) (k : Nat)
    (h : (q.run k).pc = .ret none) : ∀ y, ¬ q.Feasible y := by
  have hg := run_good hv hr k
  simpa only [Good, h] using hg

/-- C96 fails without that hypothesis: `1e-9 x + 1 <= 0` is declared infeasible. -/
theorem C96_violated : ∃ q : Data, q.Valid ∧ q.eps = machEps ∧ (∃ y, q.Feasible y) ∧
    ∃ k, (q.run k).pc = .ret none := by
  refine ⟨qInf, qInf_valid, rfl, ⟨fun _ => -1000000000, ?_⟩, 3, qInf_run⟩
  refine ⟨fun i hi => by simp [qInf] at hi, fun i _ => ?_⟩
  simp only [qInf, dot, Finset.sum_range_one]; norm_num

/-! ### C97: termination -/

/-- C97: when the numerical tests decide correctly the solver returns, after never accessing an array out of
range. -/
theorem C97_terminates_partial (q : Data) (hv : q.Valid) (hr : Regular q) :
    (∃ k v, (q.run k).pc = .ret v) ∧ ∀ k, (q.run k).pc ≠ .ub := by
  refine ⟨terminates hv hr, fun k h => ?_⟩
  have hg := run_good hv hr k
  simp only [Good, h] at hg

example : qOne.Valid ∧ Regular qOne := ⟨qOne_valid, qOne_regular⟩

/-- C97 fails without that hypothesis: on a feasible problem the solver never returns. -/
theorem C97_violated : ∃ q : Data, q.Valid ∧ q.eps = machEps ∧ (∃ y, q.Feasible y) ∧
    ∀ k v, (q.run k).pc ≠ .ret v :=
  ⟨qLoop, qLoop_valid, rfl, ⟨_, qLoop_feasible⟩, qLoop_forever⟩

/-- C97, the reason in general: without equalities, whenever the constraint just chosen (no constraint dropped
since the multipliers were saved) is rejected by `addConstraint`, the solver goes on forever. -/
theorem C97_rejected_forever (q : Data) (hp : q.p = 0) (k : Nat) (hf : Fresh q (q.run k))
    (hr : Rejecting q (q.run k)) (hn : (q.run k).iq < q.n) (hm : (q.run k).iq + 1 < q.m) (j : Nat) :
    (q.run (j + k)).pc = .l2a ∨ (q.run (j + k)).pc = .l2 := by
  have := reject_forever hp hf hr hn hm j
  rwa [Data.run, ← Function.iterate_add_apply] at this

example : Fresh qLoop (qLoop.run 5) ∧ Rejecting qLoop (qLoop.run 5) ∧ (qLoop.run 5).iq < qLoop.n ∧
    (qLoop.run 5).iq + 1 < qLoop.m := by
  obtain ⟨h1, h2, h3⟩ := qLoop_stuck
  exact ⟨h1, h2, by rw [h3]; show 1 < 2; omega, by rw [h3]; show 1 + 1 < 3; omega⟩

/-! ### C98: exact arithmetic -/

/-- C98: with exact tests (`eps = 0`) and linearly independent equalities the solver always returns, either an
optimal feasible point or, exactly when there is no feasible point, infinity. -/
theorem C98_exact (q : Data) (hv : q.Valid) (h0 : q.eps = 0) (hi : q.EqIndependent) :
    ∃ k, (∃ v, (q.run k).pc = .ret (some v) ∧ q.Feasible (q.run k).x ∧
        (∀ y, q.Feasible y → q.objective (q.run k).x ≤ q.objective y) ∧ 2 * v = q.objective (q.run k).x) ∨
      ((q.run k).pc = .ret none ∧ ∀ y, ¬ q.Feasible y) := by
  have hr := regular_exact hv h0 hi
  obtain ⟨k, v, h⟩ := terminates hv hr
  refine ⟨k, ?_⟩
  cases v with
  | none => exact Or.inr ⟨h, C96_infeasible_partial q hv hr k h⟩
  | some v =>
    obtain ⟨a, b, c, d⟩ := C95_optimal_partial q hv hr k v h
    refine Or.inl ⟨v, h, feasible_of_violation a ?_, c, d⟩
    rw [h0] at b
    simpa using b

/-- Two variables, one equality `x0 = 1` and three inequalities. -/
noncomputable def qEx : Data :=
  { n := 2, p := 1, m := 3, H := fun i k => if i = k then 1 else 0, g := fun _ => 1,
    CE := fun _ k => if k = 0 then 1 else 0, ce0 := fun _ => -1
    CI := fun i k => if i = 0 then 1 else if k = i then 1 else 0
    ci0 := fun i => (i : ℝ) - 4
    J0 := fun i k => if i = k then 1 else 0, eps := 0 }

example : qEx.Valid ∧ qEx.eps = 0 ∧ qEx.EqIndependent := by
  refine ⟨⟨fun i _ k _ => by simp [qEx, eq_comm], ?_, fun _ _ => by simp [qEx], le_rfl⟩, rfl, ?_⟩
  · intro i hi l hl
    simp only [qEx] at hi hl
    interval_cases i <;> interval_cases l <;> simp [qEx, gram]
  · intro c h i hi
    have hi : i = 0 := by simp only [qEx] at hi; omega
    subst hi
    have := h 0 (by simp [qEx])
    simpa [qEx] using this

/-- One variable, `x + 1 <= 0` and `-x + 1 <= 0`: a run that ends with infinity (for C96). -/
noncomputable def qBad : Data :=
  { n := 1, p := 0, m := 2, H := fun _ _ => 1, g := fun _ => 0, CE := fun _ _ => 0,
    ce0 := fun _ => 0, CI := fun i _ => if i = 0 then 1 else -1, ci0 := fun _ => 1, J0 := fun _ _ => 1, eps := 0 }

example : ∃ k, qBad.Valid ∧ Regular qBad ∧ (qBad.run k).pc = .ret none := by
  have hv : qBad.Valid := by
    refine ⟨fun _ _ _ _ => rfl, ?_, fun _ _ => by simp [qBad], le_rfl⟩
    intro i hi l hl
    have hi : i = 0 := by simp only [qBad] at hi; omega
    have hl : l = 0 := by simp only [qBad] at hl; omega
    subst hi hl
    simp [qBad, gram]
  have hi : qBad.EqIndependent := fun c _ i hi => by simp [qBad] at hi
  obtain ⟨k, h⟩ := C98_exact qBad hv rfl hi
  rcases h with ⟨v, -, h, -⟩ | ⟨h, -⟩
  · exfalso
    have a := h.2 0 (by simp [qBad])
    have b := h.2 1 (by simp [qBad])
    simp only [dot, show qBad.n = 1 from rfl, Finset.sum_range_one] at a b
    norm_num [qBad] at a b
    linarith
  · exact ⟨k, hv, regular_exact hv rfl hi, h⟩

/-! ### C99: the factorisation of the active normals -/

/-- C99: adding a constraint that is accepted and dropping an active one keep `J J' = Hess⁻¹` and
`J' N = [R; 0]` with `R` upper triangular and invertible, where `N` are the normals of the active constraints. -/
theorem C99_factorisation (n : Nat) (G : Nat → Nat → ℝ) (J R N : Nat → Nat → ℝ) (iq : Nat)
    (hG : ∀ i < n, ∀ l < n, ∑ k ∈ Finset.range n, J i k * J l k = G i l)
    (hN : ∀ c < iq, ∀ k < n, ∑ i ∈ Finset.range n, J i k * N c i = if k ≤ c then R k c else 0)
    (hR : ∀ c < iq, R c c ≠ 0) (hle : iq ≤ n) :
    (∀ eps Rnorm : ℝ, iq < n → 0 ≤ eps * Rnorm →
      let a := addConstraint n eps R J (computeD n J (N iq)) iq Rnorm
      a.2.2.2 = true →
        (∀ i < n, ∀ l < n, ∑ k ∈ Finset.range n, a.2.1 i k * a.2.1 l k = G i l) ∧
        (∀ c < iq + 1, ∀ k < n, ∑ i ∈ Finset.range n, a.2.1 i k * N c i = if k ≤ c then a.1 k c else 0) ∧
        ∀ c < iq + 1, a.1 c c ≠ 0) ∧
    (∀ (A : Nat → Nat) (u : Nat → ℝ) (p k : Nat), p ≤ k → k < iq →
      (∀ c c', p ≤ c → c < iq → p ≤ c' → c' < iq → A c = A c' → c = c') →
      let b := deleteConstraint p (A k) ⟨R, J, A, u, iq⟩
      b.iq = iq - 1 ∧
      (∀ i < n, ∀ l < n, ∑ j ∈ Finset.range n, b.J i j * b.J l j = G i l) ∧
      (∀ c < iq - 1, ∀ j < n, ∑ i ∈ Finset.range n, b.J i j * N (if c < k then c else c + 1) i =
        if j ≤ c then b.R j c else 0) ∧
      (∀ c < iq - 1, b.R c c ≠ 0) ∧
      ∀ c < iq - 1, b.A c = A (if c < k then c else c + 1) ∧ b.u c = u (if c < k then c else c + 1)) := by
  have hF : Fac n G J R N iq := ⟨hle, hG, hN, hR⟩
  constructor
  · intro eps Rnorm hlt heps a ha
    have := (addConstraint_spec hF hlt eps Rnorm heps).1 ha
    exact ⟨this.gram, this.fac, this.diag⟩
  · intro A u p k hk1 hk2 hinj b
    obtain ⟨d1, d2, d3, d4⟩ := deleteConstraint_spec (a := ⟨R, J, A, u, iq⟩) hF hk1 hk2 rfl
      (fun k' h1 h2 h3 => hinj k' k h1 h2 hk1 hk2 h3)
    change b.iq = iq - 1 at d1
    change Fac n G b.J b.R (dropAt k N) b.iq at d2
    have e : ∀ {α : Type} (f : Nat → α) c, dropAt k f c = f (if c < k then c else c + 1) := by
      intro α f c; unfold dropAt; split_ifs <;> rfl
    refine ⟨d1, d2.gram, ?_, fun c hc => d2.diag c (by omega), ?_⟩
    · intro c hc j hj
      have := d2.fac c (by omega) j hj
      rw [e] at this
      exact this
    · intro c hc
      have h1 := d3 c (by change c ≤ b.iq; omega)
      have h2 := d4 c (by change c ≤ b.iq; omega)
      rw [e] at h1 h2
      exact ⟨h1, h2⟩

/-- Two orthogonal normals with the identity factor. -/
example : let J : Nat → Nat → ℝ := fun i k => if i = k then 1 else 0
    (∀ i < 2, ∀ l < 2, ∑ k ∈ Finset.range 2, J i k * J l k = J i l) ∧
    (∀ c < 2, ∀ k < 2, ∑ i ∈ Finset.range 2, J i k * J c i = if k ≤ c then J k c else 0) ∧
    (∀ c < 2, J c c ≠ 0) := by
  refine ⟨?_, ?_, fun c _ => by simp⟩
  · intro i hi l hl
    interval_cases i <;> interval_cases l <;> simp
  · intro c hc k hk
    interval_cases c <;> interval_cases k <;> simp

end RtQP
end Verif
