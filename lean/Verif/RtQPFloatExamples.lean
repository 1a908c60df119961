import Verif.RtQPFloatProps
import Verif.RtQPFloatReal
import Verif.IPFloatExamples

/-! The QP solver in floating-point arithmetic with any rounding: the laws that C278-C280 use hold, and their hypotheses can be met. -/
namespace Verif
namespace RtQPF
open LbfgsF

section laws
variable {R : EReal → EReal} (h : Rounding R)

theorem fp_num (a : FP R) : (letI := arith h; Num a) ↔ ∃ x, a = .val x := by
  letI := arith h
  cases a with
  | nan => exact ⟨fun h => (by cases h), fun h => (by obtain ⟨_, h⟩ := h; cases h)⟩
  | val x => exact ⟨fun _ => ⟨x, rfl⟩, fun _ => by show LbfgsF.cmp _ (.val x) (.val x) = true; simp [LbfgsF.cmp]⟩

theorem fp_zero : (arith h).lit 0 = .val ⟨0, h.zero⟩ := by
  show LbfgsF.mk h _ = _
  unfold LbfgsF.mk
  congr 2
  simp [h.zero]

theorem fp_sum_zero (n : Nat) : letI := arith h; sum 0 (fun _ => (c 0 : FP R) *. c 0) n = c 0 := by
  letI := arith h
  have hm : (c 0 : FP R) *. c 0 = c 0 := by
    rw [show (c 0 : FP R) = .val ⟨0, h.zero⟩ from fp_zero h]
    show (exMul 0 0).elim .nan (LbfgsF.mk h) = _
    simp [exMul, LbfgsF.mk, h.zero]
  have ha : (c 0 : FP R) +. c 0 = c 0 := by
    rw [show (c 0 : FP R) = .val ⟨0, h.zero⟩ from fp_zero h]
    show (exAdd 0 0).elim .nan (LbfgsF.mk h) = _
    simp [exAdd, LbfgsF.mk, h.zero]
  induction n with
  | zero => rfl
  | succ n ih => unfold sum; rw [ih, hm, ha]

/-- The three facts about the comparisons hold in floating-point arithmetic, for every nonnegative `epsilon` and `inf` whatever. -/
theorem plain_fp (q : Data (FP R)) (he : (arith h).le ((arith h).lit 0) q.eps = true) (B : FP R) (hb : q.below = fun t => (arith h).lt t B) :
    letI := arith h; Plain q := by
  letI := arith h
  have I : Ieee (FP R) := ieee_round h
  refine ⟨?_, I.lit_mono 0 0 le_rfl, fun t ht => ?_⟩
  · refine I.le_not_lt _ _ ?_
    unfold dot
    rw [fp_sum_zero h]
    have : Arith.abs (c 0 : FP R) = c 0 := by
      rw [show (c 0 : FP R) = .val ⟨0, h.zero⟩ from fp_zero h]
      show LbfgsF.mk h (max 0 (-0)) = _
      simp [LbfgsF.mk, h.zero]
    rw [this]; exact he
  · rw [hb] at ht
    obtain ⟨x, rfl⟩ := (fp_num h t).mp (I.lt_num _ _ ht).1
    show LbfgsF.cmp (· = ·) (FP.val x) (FP.val x) = true
    simp [LbfgsF.cmp]

/-- The laws of the absolute value and of nonpositive sums hold in floating-point arithmetic. -/
theorem abs_fp : letI := arith h; AbsLaws (FP R) := by
  letI := arith h
  have I : Ieee (FP R) := ieee_round h
  have le_iff : ∀ x y : {x : EReal // R x = x}, ((FP.val x : FP R) <=. (FP.val y : FP R)) = true ↔ x.1 ≤ y.1 := fun x y => by
    show LbfgsF.cmp _ (.val x) (.val y) = true ↔ _
    simp [LbfgsF.cmp]
  refine ⟨fun a hn => ?_, fun a b h1 h2 => ?_, fun a b h1 hn => ?_⟩
  · cases a with
    | nan => exact absurd hn fun h => by cases h
    | val x => exact (fp_num h _).mpr ⟨x, rfl⟩
  · obtain ⟨x, rfl⟩ := (fp_num h a).mp (I.le_num _ _ h1).1
    obtain ⟨y, rfl⟩ := (fp_num h b).mp (I.le_num _ _ h1).2
    rw [show (c 0 : FP R) = .val ⟨0, h.zero⟩ from fp_zero h] at h2
    have e1 := (le_iff _ _).mp h1
    have e2 : y.1 ≤ 0 := (le_iff _ _).mp h2
    refine (le_iff ⟨R (max y.1 (-y.1)), h.idem _⟩ ⟨R (max x.1 (-x.1)), h.idem _⟩).mpr (h.mono _ _ ?_)
    refine max_le ?_ ((EReal.neg_le_neg_iff.mpr e1).trans (le_max_right _ _))
    refine (e2.trans ?_).trans (le_max_right _ _)
    have := EReal.neg_le_neg_iff.mpr (e1.trans e2)
    simpa using this
  · rw [show (c 0 : FP R) = .val ⟨0, h.zero⟩ from fp_zero h] at h1
    obtain ⟨r, e⟩ := (fp_num h _).mp hn
    obtain ⟨x, y, z, rfl, rfl, hz, hr⟩ := lift2_val h e
    rw [e]
    refine (le_iff _ _).mpr ?_
    have hx : x.1 ≤ 0 := (le_iff _ _).mp h1
    unfold exAdd at hz
    split at hz
    · cases hz
    injection hz with hz
    rw [hr, ← hz, ← y.2]
    refine h.mono _ _ ?_
    rw [y.2]
    calc x.1 + y.1 ≤ 0 + y.1 := add_le_add hx le_rfl
      _ = y.1 := zero_add _

/-- One variable, one inequality `0 x - 1 <= 0`, unconstrained minimum `x0`. -/
noncomputable def qOne (x0 : FP R) (B : FP R) : Data (FP R) :=
  { n := 1, p := 0, m := 1, H := fun _ _ => IPF.int h 1, g := fun _ => x0, CE := fun _ _ => IPF.int h 0, ce0 := fun _ => IPF.int h 0
    CI := fun _ _ => IPF.int h 0, ci0 := fun _ => IPF.int h (-1), J0 := fun _ _ => IPF.int h 1, x0 := fun _ => x0, eps := IPF.int h 1
    below := fun t => (arith h).lt t B, atLeast := fun t => (arith h).le B t }

theorem qOne_plain (hR : Exact R) (x0 B : FP R) : letI := arith h; Plain (qOne h x0 B) :=
  plain_fp h _ (by rw [IPF.lit_int 0 0 (by simp)]; exact (IPF.int_le hR (by decide) (by decide)).trans (by decide)) B rfl

/-- C278: the hypotheses of what holds, for a problem with NaNs in it. -/
example (hR : Exact R) (B : FP R) : letI := arith h; Plain (qOne h .nan B) ∧ (qOne h .nan B).p ≤ (qOne h .nan B).n := ⟨qOne_plain h hR _ _, Nat.zero_le 1⟩

/-- C279: in floating-point arithmetic with any rounding, with `x0` a NaN: success is reported for a solution that is a NaN. -/
theorem C279_nan_success_violated (hR : Exact R) (B : FP R) : letI := arith h
    ∃ k ≤ 2, ∃ v, ((qOne h .nan B).run k).pc = .ret (some v) ∧ ¬ Num v ∧ ¬ Num (((qOne h .nan B).run k).x 0) ∧
      Data.optimized (fun x => x ==. B) (some v) = true := by
  letI := arith h
  refine C279_nan_success (ieee_round h) (qOne_plain h hR _ _) (Nat.zero_le 1) (i := 0) Nat.zero_lt_one (fun hn => ?_) _ fun v hv => ?_
  · obtain ⟨x, hx⟩ := (fp_num h _).mp hn; cases hx
  · cases v with
    | nan => cases hv
    | val x => exact (fp_num h _).mpr ⟨x, rfl⟩

/-- C280: a run that returns a value at the first visit of `l1`. -/
example (hR : Exact R) (B : FP R) : letI := arith h
    (∀ v, ((qOne h (IPF.int h 0) B).run 0).pc ≠ .ret v) ∧ (∃ v, ((qOne h (IPF.int h 0) B).run 1).pc = .ret (some v)) ∧
      ∀ j < 0, ¬ (Rejects (qOne h (IPF.int h 0) B) ((qOne h (IPF.int h 0) B).run j) ∧ NoRoom (qOne h (IPF.int h 0) B) ((qOne h (IPF.int h 0) B).run j)) := by
  letI := arith h
  have I : Ieee (FP R) := ieee_round h
  have z : (c 0 : FP R) = IPF.int h 0 := IPF.lit_int 0 0 (by simp)
  have o : (c 1 : FP R) = IPF.int h 1 := IPF.lit_int 1 1 (by simp)
  have add : ∀ {n m : ℤ}, n.natAbs ≤ 8 → m.natAbs ≤ 8 → IPF.int h n +. IPF.int h m = IPF.int h (n + m) := fun a b => IPF.int_add hR a b
  have mul : ∀ {n m : ℤ}, n.natAbs ≤ 8 → m.natAbs ≤ 8 → IPF.int h n *. IPF.int h m = IPF.int h (n * m) := fun a b => IPF.int_mul hR a b
  have neg : ∀ {n : ℤ}, n.natAbs ≤ 8 → Arith.neg (IPF.int h n) = IPF.int h (-n) := fun a => IPF.int_neg hR a
  refine ⟨fun w hv => (by cases hv), ?_, fun j hj => (by omega)⟩
  generalize hq : qOne h (IPF.int h 0) B = q
  have hx : q.start.x = fun _ => IPF.int h 0 := by
    rw [← hq]; funext i; exact (neg (n := 0) (by decide)).trans (by rfl)
  have hs : q.slack q.start.x 0 = IPF.int h 1 := by
    unfold Data.slack
    rw [hx, ← hq]
    show Arith.neg (dot 1 (fun _ => IPF.int h 0) (fun _ => IPF.int h 0) +. IPF.int h (-1)) = _
    unfold dot sum sum
    rw [z, mul (by decide) (by decide), add (by decide) (by decide), add (by decide) (by decide), neg (by decide)]
    rfl
  have hp : q.psi q.start.x = IPF.int h 0 := by
    unfold Data.psi
    rw [show q.m = 1 by rw [← hq]; rfl]
    unfold sum sum
    rw [Nat.zero_add, hs, z]
    unfold fmin
    rw [if_neg (by rw [IPF.int_lt hR (by decide) (by decide)]; decide), add (by decide) (by decide)]
    rfl
  have ht : (Arith.abs (IPF.int h 0) <=. q.threshold) = true := by
    have ha : Arith.abs (IPF.int h 0) = (IPF.int h 0 : FP R) := by
      rw [← z, show (c 0 : FP R) = .val ⟨0, h.zero⟩ from fp_zero h]
      show LbfgsF.mk h (max 0 (-0)) = _
      simp [LbfgsF.mk, h.zero]
    have hc1 : q.c1 = IPF.int h 1 := by
      rw [← hq]
      show sum 0 (fun _ => IPF.int h 1) 1 = _
      unfold sum sum
      rw [z, add (by decide) (by decide)]; rfl
    have hc2 : q.c2 = IPF.int h 1 := by
      rw [← hq]
      show sum 0 (fun _ => IPF.int h 1) 1 = _
      unfold sum sum
      rw [z, add (by decide) (by decide)]; rfl
    have e : q.threshold = IPF.int h 1 *. c 100 := by
      unfold Data.threshold
      rw [hc1, hc2, ← hq]
      show (c ((1 : ℕ) : ℚ)) *. IPF.int h 1 *. IPF.int h 1 *. IPF.int h 1 *. c 100 = _
      rw [show (c ((1 : ℕ) : ℚ) : FP R) = IPF.int h 1 from IPF.lit_int _ 1 (by simp), mul (by decide) (by decide), mul (by decide) (by decide),
        mul (by decide) (by decide)]
      rfl
    rw [ha, ← z, e]
    refine I.mul_pos_pos _ _ ?_ (I.lit_mono 0 100 (by norm_num)) ?_
    · rw [← o]; exact I.lit_mono 0 1 (by norm_num)
    · refine (fp_num h _).mpr ?_
      rw [← o]
      show ∃ x, (exMul (R (((1 : ℚ) : ℝ) : EReal)) _).elim FP.nan (LbfgsF.mk h) = _
      rw [show R (((1 : ℚ) : ℝ) : EReal) = 1 by simpa using h.one]
      unfold exMul
      have n1 : (1 : EReal) ≠ ⊤ := EReal.coe_ne_top 1
      have n2 : (1 : EReal) ≠ ⊥ := EReal.coe_ne_bot 1
      rw [if_neg (by simp [n1, n2])]
      exact ⟨_, rfl⟩
  refine ⟨q.start.f, ?_⟩
  have e0 : q.run 0 = q.start := by rw [← hq]; rfl
  rw [run_succ, e0]
  have e1 : q.step q.start = q.stepL1 q.start := rfl
  rw [e1]
  unfold Data.stepL1
  simp only
  rw [hp, if_pos ht]

end laws

/-! ### exact arithmetic: the model of C95-C99 -/

section exact
attribute [local instance] realArith

theorem plain_real (q : RtQP.Data) (he : 0 ≤ q.eps) : Plain (ofData q) := by
  refine ⟨?_, ?_, fun t _ => ?_⟩
  · rw [dot_real', zero_r]
    show decide (q.eps < |RtQP.dot q.n (fun _ => 0) (fun _ => 0)|) = false
    simp [RtQP.dot, he]
  · rw [zero_r]; show decide _ = true; simp
  · show decide (t = t) = true; simp

/-- C278: in exact arithmetic the problem of C256 (two variables, one equality, one inequality) is rejected without room, so that the solver writes out of range. -/
theorem C278_memory_witness : ∃ q : Data ℝ, Plain q ∧ q.p ≤ q.n ∧ Rejects q (q.run 2) ∧ NoRoom q (q.run 2) ∧ ∀ j > 2, (q.run j).pc = .ub := by
  have P := plain_real (RtQP.qRej 1) (by simp only [RtQP.qRej, RtQP.machEps]; norm_num)
  obtain ⟨h1, h2, h3⟩ := RtQP.qRej_run 1 (by norm_num) (by norm_num)
  have hu : ((ofData (RtQP.qRej 1)).run 3).pc = .ub := by
    have e : (toSt ((ofData (RtQP.qRej 1)).run 3)).pc = .ub := by rw [run_real]; exact h3
    generalize (ofData (RtQP.qRej 1)).run 3 = st at *
    have e : toPc st.pc = .ub := e
    cases hpc : st.pc <;> rw [hpc] at e <;> first | rfl | cases e
  have hn2 : ((ofData (RtQP.qRej 1)).run 2).pc ≠ .ub := fun hh => by
    have e : (toSt ((ofData (RtQP.qRej 1)).run 2)).pc = .l2a := by rw [run_real]; exact h1.1
    have e : toPc ((ofData (RtQP.qRej 1)).run 2).pc = .l2a := e
    rw [hh] at e; cases e
  obtain ⟨j, hj, hr, hn⟩ := (C278_memory_partial P (by show 1 ≤ 2; norm_num) 3).1 hu
  have hj2 : j = 2 := by
    rcases Nat.lt_or_ge j 2 with hlt | hge
    · exact absurd (C278_memory_violated P.below j hr hn (fun _ t2 _ => rfl) 2 hlt) hn2
    · omega
  subst hj2
  exact ⟨_, P, by show 1 ≤ 2; norm_num, hr, hn, C278_memory_violated P.below 2 hr hn (fun _ t2 _ => rfl)⟩

end exact
end RtQPF
end Verif
