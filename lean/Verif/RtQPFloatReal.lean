import Verif.RtQPFloat
import Verif.LbfgsFloatReal
import Mathlib.Tactic.NormNum

/-!
The QP solver over an arbitrary arithmetic (`RtQPFloat.lean`), read in exact real arithmetic, is the model over the real numbers (`RtQP.lean`): block by block the
same state, so that C278-C280 speak of the same program as C95-C99 and C256.
-/
namespace Verif
namespace RtQPF
open LbfgsF Classical

attribute [local instance] realArith

/-- The same program counter in the other model. -/
def toPc : Pc ℝ → RtQP.Pc
  | .l1 => .l1 | .l2 => .l2 | .l2a => .l2a | .ret v => .ret v | .ub => .ub

/-- The same state in the other model. -/
def toSt (s : St ℝ) : RtQP.St :=
  ⟨toPc s.pc, s.x, s.u, s.J, s.R, s.A, s.iq, s.f, s.Rnorm, s.s, s.ss, s.ip, s.iai, s.iaexcl, s.uOld, s.AOld, s.xOld⟩

/-- The same arrays in the other model. -/
def toAct (a : Act ℝ) : RtQP.Act := ⟨a.R, a.J, a.A, a.u, a.iq⟩

/-- The same problem in this model: every real is below infinity. -/
noncomputable def ofData (q : RtQP.Data) : Data ℝ :=
  ⟨q.n, q.p, q.m, q.H, q.g, q.CE, q.ce0, q.CI, q.ci0, q.J0, fun i => ∑ k ∈ Finset.range q.n, q.J0 i k * RtQP.computeD q.n q.J0 q.g k, q.eps,
    fun _ => true, fun _ => false⟩

section
variable (q : RtQP.Data)
theorem of_n : (ofData q).n = q.n := rfl
theorem of_p : (ofData q).p = q.p := rfl
theorem of_m : (ofData q).m = q.m := rfl
theorem of_eps : (ofData q).eps = q.eps := rfl
theorem of_CE : (ofData q).CE = q.CE := rfl
theorem of_CI : (ofData q).CI = q.CI := rfl
end

theorem sum_real (a : Nat) (f : Nat → ℝ) : ∀ k, sum a f k = ∑ i ∈ Finset.range k, f (a + i) := by
  intro k
  induction k with
  | zero => simp [sum, lit_r]
  | succ k ih => rw [sum, ih, add_r, Finset.sum_range_succ]

theorem sum0_real (f : Nat → ℝ) (k : Nat) : sum 0 f k = ∑ i ∈ Finset.range k, f i := by rw [sum_real]; simp

theorem sumIco_real (f : Nat → ℝ) (a b : Nat) : sum a f (b - a) = ∑ i ∈ Finset.Ico a b, f i := by
  rw [sum_real, Finset.sum_Ico_eq_sum_range]

theorem dot_real' (n : Nat) (a b : Nat → ℝ) : dot n a b = RtQP.dot n a b := by unfold dot RtQP.dot; rw [sum0_real]; rfl

theorem one_r : (c 1 : ℝ) = 1 := by rw [lit_r]; norm_num
theorem zero_r : (c 0 : ℝ) = 0 := by rw [lit_r]; norm_num
theorem two_r : (c 2 : ℝ) = 2 := by rw [lit_r]; norm_num
theorem half_r : (c (1 / 2) : ℝ) = 1 / 2 := by rw [lit_r]; norm_num
theorem hun_r : (c 100 : ℝ) = 100 := by rw [lit_r]; norm_num

theorem ite_inst {α : Type} {P : Prop} (i1 i2 : Decidable P) (a b : α) : @ite α P i1 a b = @ite α P i2 a b := by congr

theorem distance_real (a b : ℝ) : distance a b = RtQP.distance a b := by
  unfold distance RtQP.distance
  simp only [lt_r, abs_r, sqrt_r, one_r, two_r, gt_iff_lt, add_r, mul_r, div_r]

theorem computeD_real (n : Nat) (J : Nat → Nat → ℝ) (np : Nat → ℝ) : computeD n J np = RtQP.computeD n J np := by
  funext k; unfold computeD RtQP.computeD; rw [sum0_real]; rfl

theorem updateZ_real (n : Nat) (J : Nat → Nat → ℝ) (d : Nat → ℝ) (iq : Nat) : updateZ n J d iq = RtQP.updateZ n J d iq := by
  funext k; unfold updateZ RtQP.updateZ; rw [sumIco_real]; rfl

theorem backSolve_real (R : Nat → Nat → ℝ) (d : Nat → ℝ) (iq : Nat) : ∀ t, backSolve R d iq t = RtQP.backSolve R d iq t := by
  intro t
  induction t with
  | zero => funext i; exact zero_r
  | succ t ih => funext i; unfold backSolve RtQP.backSolve; simp only [ih, sumIco_real]; rfl

theorem updateR_real (R : Nat → Nat → ℝ) (d : Nat → ℝ) (iq : Nat) : updateR R d iq = RtQP.updateR R d iq := backSolve_real R d iq iq

theorem rotCols_real (J : Nat → Nat → ℝ) (a b : Nat) (cc ss : ℝ) : rotCols J a b cc ss = RtQP.rotCols J a b cc ss := by
  funext k j; unfold rotCols RtQP.rotCols; simp only [one_r]; rfl

theorem addRot_real (j : Nat) (s : (Nat → Nat → ℝ) × (Nat → ℝ)) : addRot j s = RtQP.addRot j s := by
  unfold addRot RtQP.addRot
  simp only [eq_r, lt_r, zero_r, distance_real, rotCols_real, div_r, neg_r]

theorem addLoop_real (iq : Nat) : ∀ j s, addLoop iq j s = RtQP.addLoop iq j s := by
  intro j
  induction j with
  | zero => intro s; rfl
  | succ j ih => intro s; unfold addLoop RtQP.addLoop; rw [addRot_real, ih]

theorem addConstraint_real (n : Nat) (eps : ℝ) (R J : Nat → Nat → ℝ) (d : Nat → ℝ) (iq : Nat) (Rn : ℝ) :
    addConstraint n eps R J d iq Rn = RtQP.addConstraint n eps R J d iq Rn := by
  unfold addConstraint RtQP.addConstraint
  simp only [addLoop_real, le_r, abs_r, mul_r, fmax_real]

theorem delRot_real (iq j : Nat) (s : (Nat → Nat → ℝ) × (Nat → Nat → ℝ)) : delRot iq j s = RtQP.delRot iq j s := by
  unfold delRot RtQP.delRot
  simp only [eq_r, lt_r, zero_r, one_r, distance_real, rotCols_real, div_r, neg_r, add_r, sub_r, mul_r]

theorem delLoop_real (iq : Nat) : ∀ fuel j s, delLoop iq fuel j s = RtQP.delLoop iq fuel j s := by
  intro fuel
  induction fuel with
  | zero => intro j s; rfl
  | succ fuel ih => intro j s; unfold delLoop RtQP.delLoop; rw [delRot_real, ih]

theorem delete_real (p l : Nat) (a : Act ℝ) : toAct (deleteConstraint p l a) = RtQP.deleteConstraint p l (toAct a) := by
  obtain ⟨R, J, A, u, iq⟩ := a
  unfold deleteConstraint RtQP.deleteConstraint
  simp only [delLoop_real, zero_r, toAct]
  by_cases h : iq - 1 = 0
  · simp only [eq_true h, ↓reduceIte]; congr!
  · simp only [eq_false h, ↓reduceIte]; congr!

theorem delete_R (p l : Nat) (a : Act ℝ) : (deleteConstraint p l a).R = (RtQP.deleteConstraint p l (toAct a)).R := by rw [← delete_real]; rfl
theorem delete_J (p l : Nat) (a : Act ℝ) : (deleteConstraint p l a).J = (RtQP.deleteConstraint p l (toAct a)).J := by rw [← delete_real]; rfl
theorem delete_A (p l : Nat) (a : Act ℝ) : (deleteConstraint p l a).A = (RtQP.deleteConstraint p l (toAct a)).A := by rw [← delete_real]; rfl
theorem delete_u (p l : Nat) (a : Act ℝ) : (deleteConstraint p l a).u = (RtQP.deleteConstraint p l (toAct a)).u := by rw [← delete_real]; rfl
theorem delete_q (p l : Nat) (a : Act ℝ) : (deleteConstraint p l a).iq = (RtQP.deleteConstraint p l (toAct a)).iq := by rw [← delete_real]; rfl

theorem c1_real (q : RtQP.Data) : (ofData q).c1 = q.c1 := by unfold Data.c1 RtQP.Data.c1; rw [sum0_real]; rfl
theorem c2_real (q : RtQP.Data) : (ofData q).c2 = q.c2 := by unfold Data.c2 RtQP.Data.c2; rw [sum0_real]; rfl

theorem slack_real (q : RtQP.Data) (x : Nat → ℝ) : (ofData q).slack x = q.slack x := by
  funext i; unfold Data.slack RtQP.Data.slack; rw [dot_real']; rfl

theorem psi_real (q : RtQP.Data) (x : Nat → ℝ) : (ofData q).psi x = ∑ i ∈ Finset.range q.m, min 0 (q.slack x i) := by
  unfold Data.psi; rw [sum0_real]; simp only [fmin_real, zero_r, slack_real]; rfl

theorem threshold_real (q : RtQP.Data) : (ofData q).threshold = q.m * q.eps * q.c1 * q.c2 * 100 := by
  unfold Data.threshold; rw [c1_real, c2_real, hun_r, lit_r]; rw [show ((ofData q).m : ℚ) = (q.m : ℚ) from rfl, Rat.cast_natCast]; rfl

theorem start_real (q : RtQP.Data) : toSt (ofData q).start = q.start := by
  unfold Data.start RtQP.Data.start toSt
  simp only [dot_real', half_r, zero_r, one_r]
  rfl

theorem eqStep_real (q : RtQP.Data) (i : Nat) (st : St ℝ) : toSt ((ofData q).eqStep i st) = q.eqStep i (toSt st) := by
  unfold Data.eqStep RtQP.Data.eqStep
  simp only [of_n, of_eps, of_CE, dot_real', computeD_real, updateZ_real, updateR_real, addConstraint_real, half_r, zero_r, lt_r, abs_r, gt_iff_lt,
    show (toSt st).iq = st.iq from rfl, show (toSt st).R = st.R from rfl, show (toSt st).J = st.J from rfl, show (toSt st).Rnorm = st.Rnorm from rfl]
  by_cases h : q.n ≤ st.iq
  · simp only [eq_true h, ↓reduceIte]; rfl
  · simp only [eq_false h, ↓reduceIte]
    by_cases h2 : (RtQP.addConstraint q.n q.eps st.R st.J (RtQP.computeD q.n st.J (q.CE i)) st.iq st.Rnorm).2.2.2 = true
    · simp only [h2, ↓reduceIte]; rfl
    · simp only [h2, Bool.false_eq_true, ↓reduceIte]; rfl

theorem eqPhase_real (q : RtQP.Data) : ∀ fuel i st, toSt ((ofData q).eqPhase fuel i st) = q.eqPhase fuel i (toSt st) := by
  intro fuel
  induction fuel with
  | zero => intro i st; rfl
  | succ fuel ih =>
    intro i st
    unfold Data.eqPhase RtQP.Data.eqPhase
    rw [show (toSt st).pc = toPc st.pc from rfl]
    cases h : st.pc <;> simp only [toPc]
    rw [ih, eqStep_real]

theorem init_real (q : RtQP.Data) : toSt (ofData q).init = q.init := by
  unfold Data.init RtQP.Data.init
  rw [← start_real, ← eqPhase_real]; rfl

theorem stepL1_real (q : RtQP.Data) (st : St ℝ) : toSt ((ofData q).stepL1 st) = q.stepL1 (toSt st) := by
  have hi : (fun i => if (List.range st.iq).any (fun k => decide (q.p ≤ k) && decide (st.A k = i)) = true then false else st.iai i) =
      fun i => if ∃ k, q.p ≤ k ∧ k < st.iq ∧ st.A k = i then false else st.iai i := by
    funext i
    refine if_congr ?_ rfl rfl
    simp only [List.any_eq_true, List.mem_range, Bool.and_eq_true, decide_eq_true_eq]
    exact ⟨fun ⟨k, a, b, c⟩ => ⟨k, b, a, c⟩, fun ⟨k, a, b, c⟩ => ⟨k, b, a, c⟩⟩
  unfold Data.stepL1 RtQP.Data.stepL1
  simp only [psi_real, threshold_real, le_r, abs_r, slack_real, zero_r]
  rw [show (ofData q).p = q.p from rfl, hi]
  by_cases h : |∑ i ∈ Finset.range q.m, min 0 (q.slack st.x i)| ≤ q.m * q.eps * q.c1 * q.c2 * 100
  · rw [if_pos h]
    simp only [eq_true (show |∑ i ∈ Finset.range q.m, min 0 (q.slack (toSt st).x i)| ≤ q.m * q.eps * q.c1 * q.c2 * 100 from h), ↓reduceIte]
    rfl
  · rw [if_neg h]
    simp only [eq_false (show ¬ |∑ i ∈ Finset.range q.m, min 0 (q.slack (toSt st).x i)| ≤ q.m * q.eps * q.c1 * q.c2 * 100 from h), ↓reduceIte]
    rfl

theorem pick_real (st : St ℝ) : ∀ k, Data.pick st k = RtQP.Data.pick (toSt st) k := by
  intro k
  induction k with
  | zero => rfl
  | succ k ih =>
    unfold Data.pick RtQP.Data.pick
    rw [ih]
    simp only [lt_r]
    exact ite_inst _ _ _ _

theorem stepL2_real (q : RtQP.Data) (st : St ℝ) : toSt ((ofData q).stepL2 st) = q.stepL2 (toSt st) := by
  unfold Data.stepL2 RtQP.Data.stepL2
  simp only [pick_real, le_r, zero_r, ge_iff_le]
  rw [show (ofData q).m = q.m from rfl, show (ofData q).p = q.p from rfl]
  by_cases h : 0 ≤ (RtQP.Data.pick (toSt st) q.m).1
  · simp only [if_pos h]; rfl
  · simp only [if_neg h]
    by_cases h2 : q.p + q.m ≤ st.iq
    · rw [if_pos h2, if_pos (show q.p + q.m ≤ (toSt st).iq from h2)]; rfl
    · rw [if_neg h2, if_neg (show ¬ q.p + q.m ≤ (toSt st).iq from h2)]; rfl

theorem ratio_real (q : RtQP.Data) (u r : Nat → ℝ) : ∀ j, (ofData q).ratio u r j = q.ratio u r j := by
  intro j
  induction j with
  | zero => rfl
  | succ j ih =>
    unfold Data.ratio RtQP.Data.ratio
    rw [ih]
    cases q.ratio u r j with
    | none => simp only [Data.less, ofData, lt_r, zero_r, div_r, gt_iff_lt]
    | some t => simp only [Data.less, ofData, lt_r, zero_r, div_r, gt_iff_lt]

theorem dir_real (q : RtQP.Data) (st : St ℝ) : (ofData q).dir st = q.dir (toSt st) := by
  unfold Data.dir RtQP.Data.dir
  simp only [updateZ_real, computeD_real, zero_r]
  rfl

theorem full_real (q : RtQP.Data) (st : St ℝ) : (ofData q).full st =
    if |RtQP.dot q.n (q.dir (toSt st)) (q.dir (toSt st))| > q.eps then
      some (-(st.s st.ip) / RtQP.dot q.n (q.dir (toSt st)) (fun i => -(q.CI st.ip i))) else none := by
  unfold Data.full
  simp only [dir_real, dot_real', lt_r, abs_r, gt_iff_lt]
  rfl

/-- The step of the other model in terms of `move`. -/
theorem stepL2a_real (q : RtQP.Data) (st : St ℝ) : toSt ((ofData q).stepL2a st) = q.stepL2a (toSt st) := by
  have hany : ∀ (b : Nat) i, (List.range b).any (fun k => decide (st.AOld k = i)) = decide (∃ k, k < b ∧ st.AOld k = i) := by
    intro b i
    rw [Bool.eq_iff_iff]
    simp [List.any_eq_true]
  unfold Data.stepL2a RtQP.Data.stepL2a
  simp only [updateR_real, computeD_real, ratio_real, full_real]
  have e1 : (fun i => Arith.neg ((ofData q).CI st.ip i)) = fun i => -(q.CI (toSt st).ip i) := rfl
  rw [e1]
  simp only [show (toSt st).R = st.R from rfl, show (toSt st).J = st.J from rfl, show (toSt st).iq = st.iq from rfl, show (toSt st).u = st.u from rfl,
    show (toSt st).ip = st.ip from rfl, show (toSt st).s = st.s from rfl, show (toSt st).A = st.A from rfl, show (ofData q).n = q.n from rfl,
    show (ofData q).p = q.p from rfl]
  set r := RtQP.updateR st.R (RtQP.computeD q.n st.J fun i => -(q.CI st.ip i)) st.iq with hr
  generalize hT : (if |RtQP.dot q.n (q.dir (toSt st)) (q.dir (toSt st))| > q.eps then
      some (-(st.s st.ip) / RtQP.dot q.n (q.dir (toSt st)) (fun i => -(q.CI st.ip i))) else none) = T
  have hmove : ∀ t full l, toSt ((ofData q).move st t full l) = 
      let np := fun i => -(q.CI st.ip i)
      let d := RtQP.computeD q.n st.J np
      let z := q.dir (toSt st)
      let x := fun i => st.x i + t * z i
      let f := st.f + t * RtQP.dot q.n z np * (1 / 2 * t + st.u st.iq)
      let u := fun i => if i = st.iq then st.u i + t else if i < st.iq then st.u i - t * r i else st.u i
      if full = true then
        let a := RtQP.addConstraint q.n q.eps st.R st.J d st.iq st.Rnorm
        if a.2.2.2 then
          { toSt st with x := x, f := f, u := u, R := a.1, J := a.2.1, Rnorm := a.2.2.1, iq := st.iq + 1
                         iai := fun i => if i = st.ip then false else st.iai i, pc := .l1 }
        else if q.p + q.m ≤ st.iq + 1 then { toSt st with pc := .ub }
        else
          let b := RtQP.deleteConstraint q.p st.ip ⟨a.1, a.2.1, st.A, u, st.iq + 1⟩
          if 0 < q.p ∧ 0 < b.iq then { toSt st with pc := .ub }
          else
          { toSt st with x := st.xOld, f := f, R := b.R, J := b.J, Rnorm := a.2.2.1, iq := b.iq
                         A := fun i => if i < b.iq then st.AOld i else b.A i
                         u := fun i => if i < b.iq then st.uOld i else b.u i
                         iai := fun i => if i < q.m then !(decide (∃ k, k < b.iq ∧ st.AOld k = i)) else st.iai i
                         iaexcl := fun i => if i = st.ip then false else st.iaexcl i, pc := .l2 }
      else
        let a := RtQP.deleteConstraint q.p l ⟨st.R, st.J, st.A, u, st.iq⟩
        { toSt st with x := x, f := f, R := a.R, J := a.J, A := a.A, u := a.u, iq := a.iq
                       iai := fun i => if i = l then true else st.iai i
                       s := fun i => if i = st.ip then q.slack x st.ip else st.s i, pc := .l2a } := by
    intro t full l
    unfold Data.move
    simp only [computeD_real, dir_real, updateR_real, addConstraint_real, dot_real', half_r, hany, delete_q, slack_real, toAct]
    cases full with
    | true =>
      simp only [↓reduceIte]
      rw [show (ofData q).n = q.n from rfl, show (ofData q).eps = q.eps from rfl, show (ofData q).p = q.p from rfl, show (ofData q).m = q.m from rfl]
      rw [show (fun i => Arith.neg ((ofData q).CI st.ip i)) = fun i => -(q.CI st.ip i) from rfl]
      by_cases h1 : (RtQP.addConstraint q.n q.eps st.R st.J (RtQP.computeD q.n st.J fun i => -(q.CI st.ip i)) st.iq st.Rnorm).2.2.2 = true
      · simp only [eq_true h1, ↓reduceIte]; rfl
      · simp only [eq_false h1, ↓reduceIte]
        by_cases h2 : q.p + q.m ≤ st.iq + 1
        · simp only [eq_true h2, ↓reduceIte]; rfl
        · simp only [eq_false h2, ↓reduceIte]
          simp only [add_r, mul_r, sub_r, ← hr, delete_R, delete_J, delete_A, delete_u, toAct]
          generalize RtQP.deleteConstraint q.p st.ip _ = b
          by_cases h3 : 0 < q.p ∧ 0 < b.iq
          · simp only [eq_true h3, ↓reduceIte]; rfl
          · simp only [eq_false h3, ↓reduceIte]; rfl
    | false =>
      simp only [Bool.false_eq_true, ↓reduceIte]
      simp only [toSt, delete_R, delete_J, delete_A, delete_u, delete_q]; rfl
  cases hR : q.ratio st.u r (st.iq - q.p) with
  | none =>
    cases T with
    | none => rfl
    | some t2 =>
      simp only [show (ofData q).below t2 = true from rfl, ↓reduceIte]
      rw [hmove]
      simp only [eq_r, ↓reduceIte]
      rfl
  | some tk =>
    obtain ⟨t, k⟩ := tk
    cases T with
    | none =>
      simp only [toSt, delete_R, delete_J, delete_A, delete_u, delete_q]
      rfl
    | some t2 =>
      simp only
      rw [hmove]
      simp only [eq_r, fmin_real]
      rfl

theorem step_real (q : RtQP.Data) (st : St ℝ) : toSt ((ofData q).step st) = q.step (toSt st) := by
  unfold Data.step RtQP.Data.step
  rw [show (toSt st).pc = toPc st.pc from rfl]
  cases h : st.pc <;> simp only [toPc, stepL1_real, stepL2_real, stepL2a_real]

/-- Block by block the two models of the solver are in the same state. -/
theorem run_real (q : RtQP.Data) (k : Nat) : toSt ((ofData q).run k) = q.run k := by
  induction k with
  | zero => exact init_real q
  | succ k ih =>
    rw [show (ofData q).run (k + 1) = (ofData q).step ((ofData q).run k) from Function.iterate_succ_apply' _ _ _,
      show q.run (k + 1) = q.step (q.run k) from Function.iterate_succ_apply' _ _ _, step_real, ih]

end RtQPF
end Verif
