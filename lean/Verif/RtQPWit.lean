/-
Concrete problems on which the solver, with the machine epsilon of `double`, goes wrong.
-/
import Verif.RtQPStuck
import Mathlib.Tactic.NormNum
import Mathlib.Tactic.IntervalCases
import Mathlib.Tactic.NormNum.BigOperators

namespace Verif
namespace RtQP

/-- `std::numeric_limits<double>::epsilon()`. -/
noncomputable def machEps : ℝ := 1 / 4503599627370496

/-- One variable, Hessian 1, one equality `1e-9 x + 1 = 0`. -/
noncomputable def qEq : Data :=
  { n := 1, p := 1, m := 0, H := fun _ _ => 1, g := fun _ => 0, CE := fun _ _ => 1 / 1000000000,
    ce0 := fun _ => 1, CI := fun _ _ => 0, ci0 := fun _ => 0, J0 := fun _ _ => 1, eps := machEps }

/-- One variable, Hessian 1, one inequality `1e-9 x + 1 <= 0`. -/
noncomputable def qInf : Data :=
  { n := 1, p := 0, m := 1, H := fun _ _ => 1, g := fun _ => 0, CE := fun _ _ => 0,
    ce0 := fun _ => 0, CI := fun _ _ => 1 / 1000000000, ci0 := fun _ => 1, J0 := fun _ _ => 1, eps := machEps }

theorem qEq_valid : qEq.Valid := by
  refine ⟨fun _ _ _ _ => rfl, ?_, fun _ _ => by simp [qEq], by simp only [qEq, machEps]; norm_num⟩
  intro i hi l hl
  have hi : i = 0 := by simp only [qEq] at hi; omega
  have hl : l = 0 := by simp only [qEq] at hl; omega
  subst hi hl
  simp [qEq, gram]

theorem qInf_valid : qInf.Valid := by
  refine ⟨fun _ _ _ _ => rfl, ?_, fun _ _ => by simp [qInf], by simp only [qInf, machEps]; norm_num⟩
  intro i hi l hl
  have hi : i = 0 := by simp only [qInf] at hi; omega
  have hl : l = 0 := by simp only [qInf] at hl; omega
  subst hi hl
  simp [qInf, gram]

theorem qEq_run : ∃ v, (qEq.run 1).pc = .ret (some v) ∧ (qEq.run 1).x 0 = 0 := by
  have hinit : qEq.init.pc = .l1 ∧ qEq.init.x 0 = 0 := by
    unfold Data.init
    simp only [qEq, Data.eqPhase, Data.start, Data.eqStep, addConstraint, addLoop, computeD, updateZ, dot,
      Finset.sum_range_one, machEps]
    norm_num [addLoop, computeD]
  have e : qEq.run 1 = qEq.stepL1 qEq.init := by
    rw [Data.run, Function.iterate_one]
    unfold Data.step
    rw [hinit.1]
  rw [e]
  refine ⟨qEq.init.f, ?_, ?_⟩
  · unfold Data.stepL1
    simp only
    rw [if_pos (by simp [qEq])]
  · unfold Data.stepL1
    simp only
    split_ifs <;> exact hinit.2

theorem qInf_run : (qInf.run 3).pc = .ret none := by
  have h0 : qInf.init = qInf.start := rfl
  have e1 : qInf.step qInf.start = qInf.stepL1 qInf.start := rfl
  have h1 : (qInf.stepL1 qInf.start).pc = .l2 ∧ (qInf.stepL1 qInf.start).iai 0 = true ∧
      (qInf.stepL1 qInf.start).iaexcl 0 = true ∧ (qInf.stepL1 qInf.start).s 0 = -1 ∧
      (qInf.stepL1 qInf.start).ss = 0 ∧ (qInf.stepL1 qInf.start).ip = 0 ∧
      (qInf.stepL1 qInf.start).iq = 0 ∧ (qInf.stepL1 qInf.start).J = qInf.J0 := by
    unfold Data.stepL1
    simp only [qInf, Data.start, computeD, Data.slack, dot, Finset.sum_range_one, Data.c1, Data.c2, machEps]
    rw [if_neg (by norm_num)]
    norm_num [Data.slack, dot]
  generalize hs1 : qInf.stepL1 qInf.start = st1 at *
  obtain ⟨a1, a2, a3, a4, a5, a6, a7, a8⟩ := h1
  have e2 : qInf.step st1 = qInf.stepL2 st1 := by unfold Data.step; rw [a1]
  have h2 : (qInf.stepL2 st1).pc = .l2a ∧ (qInf.stepL2 st1).ip = 0 ∧ (qInf.stepL2 st1).iq = 0 ∧
      (qInf.stepL2 st1).J = qInf.J0 := by
    unfold Data.stepL2
    have : Data.pick st1 qInf.m = (-1, 0) := by
      simp only [qInf, Data.pick, a2, a3, a4, a5, a6]; norm_num
    simp only [this, a7]
    rw [if_neg (by norm_num), if_neg (by simp [qInf])]
    simp [a7, a8]
  generalize hs2 : qInf.stepL2 st1 = st2 at *
  obtain ⟨b1, b2, b3, b4⟩ := h2
  have e3 : qInf.step st2 = qInf.stepL2a st2 := by unfold Data.step; rw [b1]
  have : qInf.run 3 = qInf.stepL2a st2 := by
    rw [Data.run, h0, Function.iterate_succ_apply, Function.iterate_succ_apply, Function.iterate_one, e1, e2, e3]
  rw [this]
  unfold Data.stepL2a
  have hz : ¬ |dot qInf.n (qInf.dir st2) (qInf.dir st2)| > qInf.eps := by
    simp only [qInf, Data.dir, b3, b4, dot, Finset.sum_range_one, updateZ, computeD, machEps]
    norm_num [updateZ, computeD]
  simp only
  rw [if_neg hz, b3]
  rfl

/-- Two variables, Hessian 1, two contradicting equalities `x0 = 0`, `x0 - 1 = 0`. -/
noncomputable def qDep : Data :=
  { n := 2, p := 2, m := 0, H := fun i k => if i = k then 1 else 0, g := fun _ => 0,
    CE := fun _ k => if k = 0 then 1 else 0, ce0 := fun i => if i = 0 then 0 else -1,
    CI := fun _ _ => 0, ci0 := fun _ => 0, J0 := fun i k => if i = k then 1 else 0, eps := machEps }

theorem qDep_valid : qDep.Valid := by
  refine ⟨fun i _ k _ => by simp [qDep, eq_comm], ?_, fun _ _ => by simp [qDep],
    by simp only [qDep, machEps]; norm_num⟩
  intro i hi l hl
  simp only [qDep] at hi hl
  interval_cases i <;> interval_cases l <;> simp [qDep, gram, Finset.sum_range_succ]

theorem qDep_run : ∃ v, (qDep.run 0).pc = .ret (some v) ∧ (qDep.run 0).x 0 = 0 := by
  have hd : distance 1 0 = 1 := by rw [distance_eq]; norm_num
  have h1 : (qDep.eqStep 0 qDep.start).pc = .l1 ∧ (qDep.eqStep 0 qDep.start).iq = 1 ∧
      (qDep.eqStep 0 qDep.start).J 0 1 = 0 ∧ (qDep.eqStep 0 qDep.start).x 0 = 0 ∧
      (qDep.eqStep 0 qDep.start).Rnorm = 1 := by
    simp only [qDep, Data.start, Data.eqStep, addConstraint, addLoop, addRot, computeD, updateZ, dot, rotCols,
      Finset.sum_range_succ, Finset.sum_range_zero, machEps, hd]
    norm_num [Finset.sum_Ico_succ_top, hd]
  have e : qDep.run 0 = qDep.eqStep 1 (qDep.eqStep 0 qDep.start) := by
    have e0 : qDep.run 0 = qDep.eqPhase 2 0 qDep.start := rfl
    rw [e0]
    have e1 : qDep.eqPhase 2 0 qDep.start = qDep.eqPhase 1 1 (qDep.eqStep 0 qDep.start) := rfl
    rw [e1]
    generalize qDep.eqStep 0 qDep.start = st at *
    unfold Data.eqPhase
    rw [h1.1]
    rfl
  rw [e]
  generalize qDep.eqStep 0 qDep.start = st at *
  obtain ⟨a1, a2, a3, a4, a5⟩ := h1
  have hc : computeD 2 st.J (fun k => if k = 0 then (1 : ℝ) else 0) 1 = 0 := by
    simp [computeD, Finset.sum_range_succ, a3]
  simp only [qDep, Data.eqStep, addConstraint, addLoop, computeD, updateZ, dot, a2, a5,
      Finset.sum_range_succ, Finset.sum_range_zero, machEps]
  norm_num [Finset.sum_Ico_succ_top, a3, a4, hc]

/-- Two variables, Hessian 1, three inequalities: `2^27 x0 >= 2^27`, `2^-25 x1 >= 1` and the trivial
`-1 <= 0`. The point `(1, 2^25)` is feasible. -/
noncomputable def qLoop : Data :=
  { n := 2, p := 0, m := 3, H := fun i k => if i = k then 1 else 0, g := fun _ => 0,
    CE := fun _ _ => 0, ce0 := fun _ => 0
    CI := fun i k => if i = 0 ∧ k = 0 then -134217728 else if i = 1 ∧ k = 1 then -(1 / 33554432) else 0
    ci0 := fun i => if i = 0 then 134217728 else if i = 1 then 1 else -1
    J0 := fun i k => if i = k then 1 else 0, eps := machEps }

theorem qLoop_valid : qLoop.Valid := by
  refine ⟨fun i _ k _ => by simp [qLoop, eq_comm], ?_, fun _ _ => by simp [qLoop],
    by simp only [qLoop, machEps]; norm_num⟩
  intro i hi l hl
  simp only [qLoop] at hi hl
  interval_cases i <;> interval_cases l <;> simp [qLoop, gram]

theorem qLoop_feasible : qLoop.Feasible (fun i => if i = 0 then 1 else 33554432) := by
  refine ⟨fun i hi => by simp [qLoop] at hi, ?_⟩
  intro i hi
  simp only [qLoop] at hi
  interval_cases i <;> simp only [qLoop, dot, Finset.sum_range_succ, Finset.sum_range_zero] <;> norm_num

/-- First visit of `l1` and the three blocks up to the second one. -/
theorem qLoop_first : (qLoop.run 3).pc = .l1 ∧ (qLoop.run 3).iq = 1 ∧ (qLoop.run 3).A 0 = 0 ∧
    (qLoop.run 3).x 0 = 1 ∧ (qLoop.run 3).x 1 = 0 ∧ (qLoop.run 3).Rnorm = 134217728 ∧
    (qLoop.run 3).J 0 0 = 1 ∧ (qLoop.run 3).J 0 1 = 0 ∧ (qLoop.run 3).J 1 0 = 0 ∧ (qLoop.run 3).J 1 1 = -1 ∧
    (∀ i < 3, (qLoop.run 3).iai i = true ↔ i ≠ 0) := by
  have e1 : qLoop.step qLoop.init = qLoop.stepL1 qLoop.start := rfl
  have h1 : (qLoop.stepL1 qLoop.start).pc = .l2 ∧ (∀ i, (qLoop.stepL1 qLoop.start).iai i = true) ∧
      (∀ i, (qLoop.stepL1 qLoop.start).iaexcl i = true) ∧ (qLoop.stepL1 qLoop.start).s 0 = -134217728 ∧
      (qLoop.stepL1 qLoop.start).s 1 = -1 ∧ (qLoop.stepL1 qLoop.start).s 2 = 1 ∧
      (qLoop.stepL1 qLoop.start).ss = 0 ∧ (qLoop.stepL1 qLoop.start).ip = 0 ∧
      (qLoop.stepL1 qLoop.start).iq = 0 ∧ (qLoop.stepL1 qLoop.start).J = qLoop.J0 ∧
      (qLoop.stepL1 qLoop.start).x 0 = 0 ∧ (qLoop.stepL1 qLoop.start).x 1 = 0 ∧
      (qLoop.stepL1 qLoop.start).Rnorm = 1 := by
    have hs : ∀ i, i < 3 → qLoop.slack qLoop.start.x i = if i = 0 then -134217728 else if i = 1 then -1 else 1 := by
      intro i hi
      interval_cases i <;> simp [Data.slack, qLoop, Data.start, dot, computeD]
    have hpsi : ¬ |∑ i ∈ Finset.range qLoop.m, min 0 (qLoop.slack qLoop.start.x i)| ≤
        qLoop.m * qLoop.eps * qLoop.c1 * qLoop.c2 * 100 := by
      have : qLoop.m = 3 := rfl
      rw [this, Finset.sum_range_succ, Finset.sum_range_succ, Finset.sum_range_succ, Finset.sum_range_zero, hs 0 (by omega),
        hs 1 (by omega), hs 2 (by omega)]
      have c1 : qLoop.c1 = 2 := by simp [Data.c1, qLoop]
      have c2 : qLoop.c2 = 2 := by simp [Data.c2, qLoop]
      rw [c1, c2]
      simp only [qLoop, machEps]
      norm_num
    unfold Data.stepL1
    simp only
    rw [if_neg hpsi]
    refine ⟨rfl, ?_, fun _ => rfl, by simp [hs 0], by simp [hs 1], by simp [hs 2], rfl, rfl, rfl, rfl, ?_, ?_, rfl⟩
    · intro i
      simp [Data.start, qLoop]
    · simp [Data.start, qLoop, computeD]
    · simp [Data.start, qLoop, computeD]
  generalize hs1 : qLoop.stepL1 qLoop.start = st1 at *
  obtain ⟨a1, a2, a3, a4, a5, a6, a7, a8, a9, a10, a11, a12, a13⟩ := h1
  have e2 : qLoop.step st1 = qLoop.stepL2 st1 := by unfold Data.step; rw [a1]
  have h2 : qLoop.stepL2 st1 = { st1 with
      ss := -134217728, ip := 0, pc := .l2a,
      u := fun k => if k = 0 then 0 else st1.u k,
      A := fun k => if k = 0 then 0 else st1.A k } := by
    unfold Data.stepL2
    have : Data.pick st1 qLoop.m = (-134217728, 0) := by
      simp only [qLoop, Data.pick, a2, a3, a4, a5, a6, a7, a8]; norm_num
    simp only [this, a9]
    rw [if_neg (by norm_num), if_neg (by simp [qLoop])]
  generalize hs2 : qLoop.stepL2 st1 = st2 at *
  have e3 : qLoop.step st2 = qLoop.stepL2a st2 := by unfold Data.step; rw [h2]
  have e : qLoop.run 3 = qLoop.stepL2a st2 := by
    rw [Data.run, Function.iterate_succ_apply, Function.iterate_succ_apply, Function.iterate_one, e1, e2, e3]
  rw [e]
  have hd : distance 134217728 0 = 134217728 := by
    rw [distance_eq, show (134217728 : ℝ) ^ 2 + 0 ^ 2 = 134217728 ^ 2 by norm_num, Real.sqrt_sq (by norm_num)]
  have hJ : st2.J = qLoop.J0 := by rw [h2]; exact a10
  have hiq : st2.iq = 0 := by rw [h2]; exact a9
  have hip : st2.ip = 0 := by rw [h2]
  have hs : st2.s 0 = -134217728 := by rw [h2]; exact a4
  have hx : st2.x 0 = 0 ∧ st2.x 1 = 0 := by rw [h2]; exact ⟨a11, a12⟩
  have hN : st2.Rnorm = 1 := by rw [h2]; exact a13
  have hA : st2.A 0 = 0 := by rw [h2]; simp
  have hia : ∀ i, st2.iai i = true := by rw [h2]; exact a2
  have hdd : ∀ k, k < 2 → computeD 2 qLoop.J0 (fun i => -(qLoop.CI 0 i)) k = if k = 0 then 134217728 else 0 := by
    intro k hk
    interval_cases k <;> simp [computeD, qLoop, Finset.sum_range_succ]
  have hz0 : qLoop.dir st2 0 = 134217728 ∧ qLoop.dir st2 1 = 0 := by
    rw [dir_eq _ _ (by rw [hiq]; exact Nat.zero_le _), hJ, hiq, hip]
    have h2 : qLoop.n = 2 := rfl
    constructor
    · simp only [updateZ, h2, Finset.sum_Ico_succ_top, Nat.zero_le, Finset.Ico_self, Finset.sum_empty,
        Nat.le_add_left, hdd 0 (by omega), hdd 1 (by omega)]
      simp [qLoop]
    · simp only [updateZ, h2, Finset.sum_Ico_succ_top, Nat.zero_le, Finset.Ico_self, Finset.sum_empty,
        Nat.le_add_left, hdd 0 (by omega), hdd 1 (by omega)]
      simp [qLoop]
  have hzz : dot qLoop.n (qLoop.dir st2) (qLoop.dir st2) = 134217728 ^ 2 := by
    have h2 : qLoop.n = 2 := rfl
    simp only [dot, h2, Finset.sum_range_succ, Finset.sum_range_zero, hz0.1, hz0.2]
    norm_num
  have hznp : dot qLoop.n (qLoop.dir st2) (fun i => -(qLoop.CI 0 i)) = 134217728 ^ 2 := by
    have h2 : qLoop.n = 2 := rfl
    simp only [dot, h2, Finset.sum_range_succ, Finset.sum_range_zero, hz0.1, hz0.2]
    norm_num [qLoop]
  have hadd : addConstraint qLoop.n qLoop.eps st2.R st2.J (computeD qLoop.n st2.J (fun i => -(qLoop.CI 0 i))) 0 1 =
      ((addConstraint qLoop.n qLoop.eps st2.R st2.J (computeD qLoop.n st2.J (fun i => -(qLoop.CI 0 i))) 0 1).1,
        rotCols qLoop.J0 0 1 1 0, 134217728, true) := by
    have h2 : qLoop.n = 2 := rfl
    rw [hJ, h2]
    simp only [addConstraint, addLoop, addRot, Nat.add_one_sub_one, hdd 0 (by omega), hdd 1 (by omega),
      Nat.zero_add, Nat.le_refl, if_true]
    norm_num [hd, qLoop, machEps]
  have key : (qLoop.stepL2a st2).pc = .l1 ∧ (qLoop.stepL2a st2).iq = 1 ∧ (qLoop.stepL2a st2).A = st2.A ∧
      (qLoop.stepL2a st2).x = (fun i => st2.x i + 1 / 134217728 * qLoop.dir st2 i) ∧
      (qLoop.stepL2a st2).Rnorm = 134217728 ∧ (qLoop.stepL2a st2).J = rotCols qLoop.J0 0 1 1 0 ∧
      (qLoop.stepL2a st2).iai = fun i => if i = 0 then false else st2.iai i := by
    unfold Data.stepL2a
    simp only [hip, hzz, hiq, hN, hs, hznp]
    rw [if_pos (by simp only [qLoop, machEps]; norm_num), show qLoop.ratio st2.u
      (updateR st2.R (computeD qLoop.n st2.J fun i => -qLoop.CI 0 i) 0) (0 - qLoop.p) = none from rfl]
    simp only
    rw [if_pos (by trivial), hadd]
    simp only [if_true]
    norm_num
  obtain ⟨k1, k2, k3, k4, k5, k6, k7⟩ := key
  rw [k1, k2, k3, k4, k5, k6, k7]
  refine ⟨rfl, rfl, hA, ?_, ?_, rfl, ?_, ?_, ?_, ?_, ?_⟩
  · simp only [hx.1, hz0.1]; norm_num
  · simp only [hx.2, hz0.2]; norm_num
  · simp [rotCols, qLoop]
  · simp [rotCols, qLoop]
  · simp [rotCols, qLoop]
  · simp [rotCols, qLoop]
  · intro i _
    simp only [hia i]
    split_ifs with h <;> simp [h]

theorem qLoop_stuck : Fresh qLoop (qLoop.run 5) ∧ Rejecting qLoop (qLoop.run 5) ∧ (qLoop.run 5).iq = 1 := by
  obtain ⟨a1, a2, a3, a4, a5, a6, a7, a8, a9, a10, a11⟩ := qLoop_first
  have r4 : qLoop.run 4 = qLoop.stepL1 (qLoop.run 3) := by
    have : qLoop.run 4 = qLoop.step (qLoop.run 3) := by
      rw [Data.run, Data.run, Function.iterate_succ_apply']
    rw [this]
    unfold Data.step
    rw [a1]
  have r5 : qLoop.run 5 = qLoop.step (qLoop.run 4) := by
    rw [Data.run, Data.run, Function.iterate_succ_apply']
  generalize hs3 : qLoop.run 3 = st3 at *
  have hs : ∀ i, i < 3 → qLoop.slack st3.x i = if i = 0 then 0 else if i = 1 then -1 else 1 := by
    intro i hi
    interval_cases i <;> simp [Data.slack, qLoop, dot, Finset.sum_range_succ, a4, a5]
  have hpsi : ¬ |∑ i ∈ Finset.range qLoop.m, min 0 (qLoop.slack st3.x i)| ≤
      qLoop.m * qLoop.eps * qLoop.c1 * qLoop.c2 * 100 := by
    have : qLoop.m = 3 := rfl
    rw [this, Finset.sum_range_succ, Finset.sum_range_succ, Finset.sum_range_succ, Finset.sum_range_zero, hs 0 (by omega),
      hs 1 (by omega), hs 2 (by omega)]
    have c1 : qLoop.c1 = 2 := by simp [Data.c1, qLoop]
    have c2 : qLoop.c2 = 2 := by simp [Data.c2, qLoop]
    rw [c1, c2]
    simp only [qLoop, machEps]
    norm_num
  have h4 : (qLoop.run 4).pc = .l2 ∧ (∀ i < 3, (qLoop.run 4).iai i = true ↔ i ≠ 0) ∧
      (∀ i, (qLoop.run 4).iaexcl i = true) ∧ (∀ i < 3, (qLoop.run 4).s i = if i = 0 then 0 else if i = 1 then -1 else 1) ∧
      (qLoop.run 4).ss = 0 ∧ (qLoop.run 4).iq = 1 ∧ (qLoop.run 4).J = st3.J ∧ (qLoop.run 4).Rnorm = st3.Rnorm ∧
      (qLoop.run 4).A = st3.A ∧ (qLoop.run 4).xOld = (qLoop.run 4).x ∧
      (qLoop.run 4).uOld 0 = (qLoop.run 4).u 0 ∧ (qLoop.run 4).AOld 0 = (qLoop.run 4).A 0 := by
    rw [r4]
    unfold Data.stepL1
    simp only
    rw [if_neg hpsi]
    refine ⟨rfl, ?_, fun _ => rfl, hs, rfl, a2, rfl, rfl, rfl, rfl, ?_, ?_⟩
    · intro i hi
      simp only
      split_ifs with h
      · obtain ⟨k, k1, k2, k3⟩ := h
        have : k = 0 := by omega
        subst this
        rw [a3] at k3
        simp [← k3]
      · exact a11 i hi
    · simp only; rw [if_pos (by omega)]
    · simp only; rw [if_pos (by omega)]
  generalize hs4 : qLoop.run 4 = st4 at *
  obtain ⟨b1, b2, b3, b4, b5, b6, b7, b8, b9, b10, b11, b12⟩ := h4
  have e5 : qLoop.step st4 = qLoop.stepL2 st4 := by unfold Data.step; rw [b1]
  have h5 : qLoop.run 5 = { st4 with
      ss := -1, ip := 1, pc := .l2a,
      u := fun k => if k = 1 then 0 else st4.u k,
      A := fun k => if k = 1 then 1 else st4.A k } := by
    rw [r5, e5]
    unfold Data.stepL2
    have h0 : st4.iai 0 = false := by
      cases h : st4.iai 0 with
      | false => rfl
      | true => exact absurd rfl ((b2 0 (by omega)).1 h)
    have : Data.pick st4 qLoop.m = (-1, 1) := by
      simp only [qLoop, Data.pick, b3, b4 0 (by omega), b4 1 (by omega), b4 2 (by omega), b5, h0,
        (b2 1 (by omega)).2 (by omega), (b2 2 (by omega)).2 (by omega)]
      norm_num
    simp only [this, b6]
    rw [if_neg (by norm_num), if_neg (by simp [qLoop])]
  generalize hs5 : qLoop.run 5 = st5 at *
  have hip : st5.ip = 1 := by rw [h5]
  have hiq : st5.iq = 1 := by rw [h5]; exact b6
  have hJ : st5.J = st3.J := by rw [h5]; exact b7
  have hN : st5.Rnorm = 134217728 := by rw [h5]; simp only; rw [b8, a6]
  have hsv : ∀ i < 3, st5.s i = if i = 0 then 0 else if i = 1 then -1 else 1 := by rw [h5]; exact b4
  have hss : st5.ss = -1 := by rw [h5]
  have hA0 : st5.A 0 = 0 := by rw [h5]; simp only; rw [if_neg (by omega), b9, a3]
  have hiai : ∀ i < 3, st5.iai i = true ↔ i ≠ 0 := by rw [h5]; exact b2
  have hd0 : computeD 2 st3.J (fun i => -(qLoop.CI 1 i)) 0 = 0 := by
    simp [computeD, qLoop, Finset.sum_range_succ, a9]
  have hd1 : computeD 2 st3.J (fun i => -(qLoop.CI 1 i)) 1 = -(1 / 33554432) := by
    simp [computeD, qLoop, Finset.sum_range_succ, a10]
  have h2n : qLoop.n = 2 := rfl
  have hz0 : qLoop.dir st5 0 = 0 ∧ qLoop.dir st5 1 = 1 / 33554432 := by
    rw [dir_eq _ _ (by rw [hiq, h2n]; omega), hJ, hiq, hip, h2n]
    constructor
    · simp only [updateZ, Finset.sum_Ico_succ_top, Nat.le_refl, Finset.Ico_self, Finset.sum_empty, hd1, a8]
      norm_num
    · simp only [updateZ, Finset.sum_Ico_succ_top, Nat.le_refl, Finset.Ico_self, Finset.sum_empty, hd1, a10]
      norm_num
  refine ⟨⟨by rw [h5], ?_, ?_, ?_, ?_, ?_, ?_, ?_, ?_, ?_⟩, ⟨?_, ?_, ?_⟩, hiq⟩
  · rw [hiq, hip, h5]; simp
  · rw [hiq, h5]; simp
  · rw [hss, hip, hsv 1 (by omega)]; simp
  · rw [hss]; norm_num
  · intro i hi h
    have hi : i < 3 := hi
    rw [hss, hsv i hi]
    interval_cases i <;> norm_num
  · intro c hc
    rw [hiq] at hc
    have : c = 0 := by omega
    subst this
    rw [h5]
    exact ⟨by simpa using b11, by simpa using b12⟩
  · rw [h5]; exact b10
  · intro i hi
    have hi : i < 3 := hi
    rw [hiai i hi, hiq]
    constructor
    · rintro h ⟨c, h1, h2⟩
      have : c = 0 := by omega
      subst this
      exact h (by rw [← h2, hA0])
    · intro h h'
      exact h ⟨0, by omega, by rw [hA0, h']⟩
  · intro c hc
    rw [hiq] at hc
    have : c = 0 := by omega
    subst this
    rw [hA0, hip]; omega
  · rw [h2n]
    simp only [dot, Finset.sum_range_succ, Finset.sum_range_zero, hz0.1, hz0.2]
    norm_num [qLoop, machEps]
  · intro t k h
    rw [hiq, hip, hJ, h2n] at h
    exfalso
    have hr : updateR st5.R (computeD 2 st3.J (fun i => -(qLoop.CI 1 i))) 1 0 = 0 := by
      simp [updateR, backSolve, hd0]
    have : (1 : Nat) - qLoop.p = 1 := rfl
    rw [this] at h
    obtain ⟨c1, c2, c3, -, -⟩ := ratio_some qLoop _ _ 1 t k h
    have hk : k = 0 := by
      have : qLoop.p = 0 := rfl
      omega
    rw [hk, hr] at c3
    exact lt_irrefl _ c3
  · have h := addConstraint_flag (n := qLoop.n) (iq := 1) (by rw [h2n]; omega) qLoop.eps 134217728 st3.J st5.R
      (fun i => -(qLoop.CI 1 i))
    rw [hiq, hip, hJ, hN]
    cases hf : (addConstraint qLoop.n qLoop.eps st5.R st3.J
        (computeD qLoop.n st3.J (fun i => -(qLoop.CI 1 i))) 1 134217728).2.2.2 with
    | false => rfl
    | true =>
      exfalso
      have := h.1 hf
      rw [h2n] at this
      simp only [Finset.sum_Ico_succ_top, Nat.le_refl, Finset.Ico_self, Finset.sum_empty, hd1, zero_add] at this
      rw [Real.sqrt_sq_eq_abs] at this
      norm_num [qLoop, machEps, abs_of_pos] at this

theorem qLoop_forever (k : Nat) (v : Option ℝ) : (qLoop.run k).pc ≠ .ret v := by
  obtain ⟨h1, h2, h3⟩ := qLoop_stuck
  have hr := reject_forever (q := qLoop) rfl h1 h2 (by rw [h3]; show 1 < 2; omega) (by rw [h3]; show 1 + 1 < 3; omega)
  intro hv
  have stay : ∀ j, (qLoop.run (j + k)).pc = .ret v := by
    intro j
    induction j with
    | zero => rwa [Nat.zero_add]
    | succ j ih =>
      have : qLoop.run (j + 1 + k) = qLoop.step (qLoop.run (j + k)) := by
        rw [show j + 1 + k = (j + k) + 1 by omega]
        exact Function.iterate_succ_apply' _ _ _
      rw [this]
      unfold Data.step
      rw [ih]
      exact ih
  have h5 := hr k
  rw [Data.run, ← Function.iterate_add_apply, Nat.add_comm] at h5
  have h6 := stay 5
  rw [Data.run] at h6
  rw [h6] at h5
  simp at h5

end RtQP
end Verif
