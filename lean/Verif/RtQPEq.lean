/-
The equality phase of the dual active-set QP solver, and exact arithmetic.
-/
import Verif.RtQPInv

namespace Verif
namespace RtQP

/-- Reflections of the columns `≥ iq` keep the norm of the tail of `J' v`. -/
theorem SameUpTo.tail {n iq : Nat} {J J' : Nat → Nat → ℝ} (h : SameUpTo n iq J J') (hle : iq ≤ n)
    (v : Nat → ℝ) : ∑ k ∈ Finset.Ico iq n, computeD n J' v k ^ 2 = ∑ k ∈ Finset.Ico iq n, computeD n J v k ^ 2 := by
  have tot : ∀ J : Nat → Nat → ℝ, ∑ k ∈ Finset.range n, computeD n J v k ^ 2 =
      ∑ i ∈ Finset.range n, ∑ l ∈ Finset.range n, v i * v l * RtQP.gram n J i l := by
    intro J
    simp only [computeD, RtQP.gram, pow_two, Finset.sum_mul, Finset.mul_sum]
    rw [Finset.sum_comm]
    apply Finset.sum_congr rfl
    intro i _
    rw [Finset.sum_comm]
    exact Finset.sum_congr rfl (fun _ _ => Finset.sum_congr rfl (fun _ _ => by ring))
  have e : ∑ k ∈ Finset.range n, computeD n J' v k ^ 2 = ∑ k ∈ Finset.range n, computeD n J v k ^ 2 := by
    rw [tot, tot]
    exact Finset.sum_congr rfl (fun i _ => Finset.sum_congr rfl (fun l _ => by rw [h.gram]))
  rw [Finset.range_eq_Ico, ← Finset.sum_Ico_consecutive _ (Nat.zero_le iq) hle,
    ← Finset.sum_Ico_consecutive _ (Nat.zero_le iq) hle] at e
  have low : ∑ k ∈ Finset.Ico 0 iq, computeD n J' v k ^ 2 = ∑ k ∈ Finset.Ico 0 iq, computeD n J v k ^ 2 := by
    apply Finset.sum_congr rfl
    intro k hk
    rw [computeD_congrJ n J' J v k (fun i => h.low k (Finset.mem_Ico.1 hk).2 i)]
  linarith

/-- `addConstraint` accepts the constraint iff the norm of the tail of `J' np` exceeds
`eps * R_norm`. -/
theorem addConstraint_flag {n iq : Nat} (hlt : iq < n) (eps Rnorm : ℝ) (J R : Nat → Nat → ℝ) (np : Nat → ℝ) :
    (addConstraint n eps R J (computeD n J np) iq Rnorm).2.2.2 = true ↔
      eps * Rnorm < Real.sqrt (∑ k ∈ Finset.Ico iq n, computeD n J np k ^ 2) := by
  obtain ⟨s1, s2, s3, s4⟩ := addLoop_spec n iq np (n - 1) J (computeD n J np) (by omega)
    (fun _ _ => rfl) (fun k h1 h2 => by omega)
  have e : ∑ k ∈ Finset.Ico iq n, computeD n J np k ^ 2 =
      (addLoop iq (n - 1) (J, computeD n J np)).2 iq ^ 2 := by
    rw [← s1.tail hlt.le np, Finset.sum_eq_sum_Ico_succ_bot hlt, ← s2 iq hlt, Finset.sum_eq_zero, add_zero]
    intro k hk
    have := Finset.mem_Ico.1 hk
    rw [← s2 k this.2, s3 k (by omega) this.2]
    norm_num
  rw [e, Real.sqrt_sq_eq_abs]
  simp only [addConstraint]
  split_ifs with h
  · simp only [false_iff, not_lt]; exact h
  · simp only [true_iff]; exact not_le.1 h

/-- The state of the equality phase after `i` equalities. -/
structure EqInv (q : Data) (st : St) : Prop where
  pc : st.pc = .l1
  fac : Fac q.n (gram q.n q.J0) st.J st.R q.CE st.iq
  stat : ∀ i < q.n, grad q st.x i = ∑ c ∈ Finset.range st.iq, st.u c * q.CE c i
  act : ∀ c < st.iq, dot q.n (q.CE c) st.x = -(q.ce0 c)
  fval : st.f = q.objective st.x / 2
  rnorm : 0 ≤ st.Rnorm
  iai : ∀ i, st.iai i = true

theorem start_inv {q : Data} (hv : q.Valid) : EqInv q q.start := by
  have hg : ∀ i < q.n, grad q q.start.x i = 0 := by
    intro i hi
    unfold grad
    have e : mulV q.n q.H q.start.x i = -∑ l ∈ Finset.range q.n,
        (∑ k ∈ Finset.range q.n, q.H i k * gram q.n q.J0 k l) * q.g l := by
      have hx : ∀ k, q.start.x k = -∑ l ∈ Finset.range q.n, gram q.n q.J0 k l * q.g l := by
        intro k
        simp only [Data.start, computeD, gram, Finset.mul_sum, Finset.sum_mul]
        rw [Finset.sum_comm]
        congr 1
        exact Finset.sum_congr rfl (fun _ _ => Finset.sum_congr rfl (fun _ _ => by ring))
      simp only [mulV, hx, mul_neg, Finset.sum_neg_distrib, Finset.mul_sum, Finset.sum_mul]
      rw [Finset.sum_comm]
      congr 1
      exact Finset.sum_congr rfl (fun _ _ => Finset.sum_congr rfl (fun _ _ => by ring))
    rw [e, Finset.sum_congr rfl (fun l hl => by rw [hv.inv i hi l (Finset.mem_range.1 hl)])]
    simp [hi]
  refine ⟨rfl, ⟨Nat.zero_le _, fun _ _ _ _ => rfl, ?_, ?_⟩, ?_, ?_, ?_, ?_, fun _ => rfl⟩
  · intro c hc; simp [Data.start] at hc
  · intro c hc; simp [Data.start] at hc
  · intro i hi; rw [hg i hi]; simp [Data.start]
  · intro c hc; simp [Data.start] at hc
  · have e1 : dot q.n q.start.x (grad q q.start.x) = 0 :=
      Finset.sum_eq_zero (fun i hi => by rw [hg i (Finset.mem_range.1 hi), mul_zero])
    have e2 : dot q.n q.start.x (grad q q.start.x) =
        dot q.n q.start.x (mulV q.n q.H q.start.x) + dot q.n q.g q.start.x := by
      rw [dot_comm q.n q.g]
      simp only [dot, grad, mul_add, Finset.sum_add_distrib]
    unfold Data.objective
    have : q.start.f = 1 / 2 * dot q.n q.g q.start.x := rfl
    rw [this]
    linarith
  · simp [Data.start]

/-- The tests of the equality phase for equality `i` at `st` decide correctly: its normal is not treated as
dependent on the previous ones. -/
def EqDecisive (q : Data) (i : Nat) (st : St) : Prop :=
  q.eps < dot q.n (updateZ q.n st.J (computeD q.n st.J (q.CE i)) st.iq)
      (updateZ q.n st.J (computeD q.n st.J (q.CE i)) st.iq) ∧
    (addConstraint q.n q.eps st.R st.J (computeD q.n st.J (q.CE i)) st.iq st.Rnorm).2.2.2 = true

theorem eqStep_inv {q : Data} (hv : q.Valid) {st : St} (h : EqInv q st) (hd : EqDecisive q st.iq st) :
    EqInv q (q.eqStep st.iq st) ∧ (q.eqStep st.iq st).iq = st.iq + 1 := by
  obtain ⟨hd1, hd2⟩ := hd
  obtain ⟨D1, D2, D3⟩ := direction h.fac hv.inv (q.CE st.iq)
  have hlt : st.iq < q.n := by
    rcases h.fac.le.lt_or_eq with h0 | h0
    · exact h0
    · exfalso
      have : dot q.n (updateZ q.n st.J (computeD q.n st.J (q.CE st.iq)) st.iq)
          (updateZ q.n st.J (computeD q.n st.J (q.CE st.iq)) st.iq) = 0 :=
        Finset.sum_eq_zero (fun i _ => by rw [updateZ, h0]; simp)
      have := hv.eps
      linarith
  obtain ⟨A1, -, -, A4, -, -⟩ := addConstraint_spec h.fac hlt q.eps st.Rnorm (mul_nonneg hv.eps h.rnorm)
  have hstep : q.eqStep st.iq st = q.eqStep st.iq st := rfl
  conv at hstep => rhs; unfold Data.eqStep
  simp only [hd2] at hstep
  rw [if_neg (by omega), abs_of_nonneg (dot_self_nonneg _ _), if_pos hd1] at hstep
  simp only [if_true] at hstep
  set z := updateZ q.n st.J (computeD q.n st.J (q.CE st.iq)) st.iq with hz
  set r := updateR st.R (computeD q.n st.J (q.CE st.iq)) st.iq with hr
  have hzH : dot q.n z (mulV q.n q.H z) = dot q.n z (q.CE st.iq) := by
    rw [dot_congr (fun _ _ => rfl) D1]
    have : dot q.n z (fun i => q.CE st.iq i - ∑ c ∈ Finset.range st.iq, r c * q.CE c i) =
        dot q.n z (q.CE st.iq) - dot q.n z (fun i => ∑ c ∈ Finset.range st.iq, r c * q.CE c i) := by
      simp only [dot, mul_sub, Finset.sum_sub_distrib]
    rw [this, dot_sum, Finset.sum_eq_zero, sub_zero]
    intro c hc
    rw [dot_comm, D2 c (Finset.mem_range.1 hc), mul_zero]
  have hpos : 0 < dot q.n z (q.CE st.iq) := by
    rw [← hzH]
    rcases (quad_nonneg hv z).lt_or_eq with h0 | h0
    · exact h0
    · exfalso
      have : dot q.n z z = 0 := Finset.sum_eq_zero (fun i hi => by
        rw [quad_zero hv z h0.symm i (Finset.mem_range.1 hi), mul_zero])
      have := hv.eps
      linarith
  set t := (-(dot q.n (q.CE st.iq) st.x) - q.ce0 st.iq) / dot q.n z (q.CE st.iq) with ht
  rw [hstep]
  refine ⟨⟨h.pc, A1 hd2, ?_, ?_, ?_, h.rnorm.trans (A4 hd2), h.iai⟩, rfl⟩
  · intro i hi
    simp only
    have e : grad q (fun i => st.x i + t * z i) i = grad q st.x i + t * mulV q.n q.H z i := by
      unfold grad; rw [mulV_add_smul]; ring
    rw [e, h.stat i hi, D1 i hi, Finset.sum_range_succ, if_neg (by omega), if_pos rfl]
    have : ∀ c ∈ Finset.range st.iq, (if c < st.iq then (if c = st.iq then t else st.u c) - t * r c else
        if c = st.iq then t else st.u c) * q.CE c i = st.u c * q.CE c i - t * (r c * q.CE c i) := by
      intro c hc
      have := Finset.mem_range.1 hc
      rw [if_pos this, if_neg (by omega)]; ring
    rw [Finset.sum_congr rfl this, Finset.sum_sub_distrib, ← Finset.mul_sum]
    ring
  · intro c hc
    simp only at hc ⊢
    rw [dot_add_smul]
    by_cases hci : c < st.iq
    · rw [h.act c hci, dot_comm, D2 c hci, mul_zero, add_zero]
    · have : c = st.iq := by omega
      subst this
      rw [dot_comm q.n (q.CE st.iq) z, ht, div_mul_cancel₀ _ hpos.ne']
      ring
  · simp only
    rw [objective_add hv, hzH, h.fval]
    have e1 : dot q.n z (grad q st.x) = 0 := by
      rw [dot_congr (fun _ _ => rfl) h.stat, dot_sum, Finset.sum_eq_zero]
      intro c hc
      rw [dot_comm, D2 c (Finset.mem_range.1 hc), mul_zero]
    rw [e1]
    ring

theorem eqPhase_stop (q : Data) {st : St} (h : st.pc ≠ .l1) : ∀ b i, q.eqPhase b i st = st := by
  intro b i
  cases b with
  | zero => rfl
  | succ b =>
    unfold Data.eqPhase
    split
    · exact absurd ‹_› h
    · rfl

theorem eqPhase_add (q : Data) : ∀ a b i st, q.eqPhase (a + b) i st = q.eqPhase b (i + a) (q.eqPhase a i st) := by
  intro a
  induction a with
  | zero => intro b i st; simp [Data.eqPhase]
  | succ a ih =>
    intro b i st
    by_cases hpc : st.pc = .l1
    · rw [show a + 1 + b = (a + b) + 1 by omega]
      conv_lhs => unfold Data.eqPhase
      conv_rhs => rw [show q.eqPhase (a + 1) i st = q.eqPhase a (i + 1) (q.eqStep i st) by
        conv_lhs => unfold Data.eqPhase
        simp only [hpc]]
      simp only [hpc]
      rw [ih, show i + 1 + a = i + (a + 1) by omega]
    · rw [eqPhase_stop q hpc, eqPhase_stop q hpc, eqPhase_stop q hpc]

/-- The tests of the whole equality phase decide correctly. -/
def EqRegular (q : Data) : Prop := ∀ i < q.p, EqDecisive q i (q.eqPhase i 0 q.start)

theorem eqPhase_inv {q : Data} (hv : q.Valid) (hd : EqRegular q) : ∀ i ≤ q.p,
    EqInv q (q.eqPhase i 0 q.start) ∧ (q.eqPhase i 0 q.start).iq = i := by
  intro i
  induction i with
  | zero => intro _; exact ⟨start_inv hv, rfl⟩
  | succ i ih =>
    intro hi
    obtain ⟨h1, h2⟩ := ih (by omega)
    have := eqStep_inv hv h1 (by rw [h2]; exact hd i (by omega))
    have e : q.eqPhase (i + 1) 0 q.start = q.eqStep i (q.eqPhase i 0 q.start) := by
      rw [eqPhase_add]
      generalize q.eqPhase i 0 q.start = st at *
      unfold Data.eqPhase
      simp only [h1.pc, Data.eqPhase, zero_add]
    rw [e]
    rw [h2] at this
    exact this

theorem init_good {q : Data} (hv : q.Valid) (hd : EqRegular q) : Good q q.init := by
  obtain ⟨h1, h2⟩ := eqPhase_inv hv hd q.p le_rfl
  change EqInv q q.init at h1
  change q.init.iq = q.p at h2
  have hn : ∀ c < q.init.iq, nrm q q.init.A c = q.CE c := fun c hc => by
    unfold nrm; rw [if_pos (by omega)]
  have ho : ∀ c < q.init.iq, off q q.init.A c = -(q.ce0 c) := fun c hc => by
    unfold off; rw [if_pos (by omega)]
  simp only [Good, h1.pc]
  refine ⟨⟨h1.fac.congrN (fun c hc i _ => by rw [hn c hc]), h2.ge, ?_, ?_, ?_, ?_, ?_⟩, h1.fval, h1.rnorm, ?_⟩
  · intro i hi
    rw [h1.stat i hi]
    exact Finset.sum_congr rfl (fun c hc => by rw [hn c (Finset.mem_range.1 hc)])
  · intro c hc
    rw [hn c hc, ho c hc, h1.act c hc]
  · intro c hc hc'; omega
  · intro c hc hc'; omega
  · intro c c' a1 a2; omega
  · intro i _
    rw [h1.iai i]
    simp only [Bool.true_eq_false, false_iff, not_exists]
    intro c hc; omega

/-- All the numerical tests of the run decide correctly. -/
def Regular (q : Data) : Prop := EqRegular q ∧ ∀ k, Decisive q (q.run k)

theorem run_good {q : Data} (hv : q.Valid) (hd : Regular q) (k : Nat) : Good q (q.run k) := by
  induction k with
  | zero => exact init_good hv hd.1
  | succ k ih =>
    rw [Data.run, Function.iterate_succ_apply']
    exact step_good hv ih (hd.2 k)

/-- The normals of the equalities are linearly independent. -/
def Data.EqIndependent (q : Data) : Prop :=
  ∀ c : Nat → ℝ, (∀ k < q.n, ∑ i ∈ Finset.range q.p, c i * q.CE i k = 0) → ∀ i < q.p, c i = 0

theorem exact_flag {q : Data} (h0 : q.eps = 0) {J R N : Nat → Nat → ℝ} {iq : Nat}
    (hf : Fac q.n (gram q.n q.J0) J R N iq) (np : Nat → ℝ) (Rnorm : ℝ)
    (hz : 0 < dot q.n (updateZ q.n J (computeD q.n J np) iq) (updateZ q.n J (computeD q.n J np) iq)) :
    (addConstraint q.n q.eps R J (computeD q.n J np) iq Rnorm).2.2.2 = true := by
  have hlt : iq < q.n := by
    rcases hf.le.lt_or_eq with h | h
    · exact h
    · exfalso
      have : dot q.n (updateZ q.n J (computeD q.n J np) iq) (updateZ q.n J (computeD q.n J np) iq) = 0 :=
        Finset.sum_eq_zero (fun i _ => by rw [updateZ, h]; simp)
      linarith
  rw [addConstraint_flag hlt, h0, zero_mul]
  apply Real.sqrt_pos.2
  by_contra hneg
  have hnn : 0 ≤ ∑ k ∈ Finset.Ico iq q.n, computeD q.n J np k ^ 2 := Finset.sum_nonneg (fun _ _ => sq_nonneg _)
  have hz0 : ∑ k ∈ Finset.Ico iq q.n, computeD q.n J np k ^ 2 = 0 := le_antisymm (not_lt.1 hneg) hnn
  have hd := (Finset.sum_eq_zero_iff_of_nonneg (fun _ _ => sq_nonneg _)).1 hz0
  have : dot q.n (updateZ q.n J (computeD q.n J np) iq) (updateZ q.n J (computeD q.n J np) iq) = 0 := by
    apply Finset.sum_eq_zero
    intro i _
    have : updateZ q.n J (computeD q.n J np) iq i = 0 := by
      apply Finset.sum_eq_zero
      intro k hk
      rw [pow_eq_zero_iff (by norm_num)|>.1 (hd k hk), mul_zero]
    rw [this, mul_zero]
  linarith

/-- In exact arithmetic (`eps = 0`) all the tests decide correctly when the equalities are independent. -/
theorem regular_exact {q : Data} (hv : q.Valid) (h0 : q.eps = 0) (hi : q.EqIndependent) : Regular q := by
  have heq : EqRegular q := by
    have key : ∀ i ≤ q.p, (∀ j < i, EqDecisive q j (q.eqPhase j 0 q.start)) ∧
        EqInv q (q.eqPhase i 0 q.start) ∧ (q.eqPhase i 0 q.start).iq = i := by
      intro i
      induction i with
      | zero => intro _; exact ⟨fun j hj => by omega, start_inv hv, rfl⟩
      | succ i ih =>
        intro hip
        obtain ⟨g1, h1, h2⟩ := ih (by omega)
        have hdec : EqDecisive q i (q.eqPhase i 0 q.start) := by
          generalize q.eqPhase i 0 q.start = st at *
          have hz : 0 < dot q.n (updateZ q.n st.J (computeD q.n st.J (q.CE i)) st.iq)
              (updateZ q.n st.J (computeD q.n st.J (q.CE i)) st.iq) := by
            rcases (dot_self_nonneg q.n (updateZ q.n st.J (computeD q.n st.J (q.CE i)) st.iq)).lt_or_eq
              with h | h
            · exact h
            · exfalso
              obtain ⟨D1, -, -⟩ := direction h1.fac hv.inv (q.CE i)
              set z := updateZ q.n st.J (computeD q.n st.J (q.CE i)) st.iq
              set r := updateR st.R (computeD q.n st.J (q.CE i)) st.iq
              have h3 := hi (fun c => if c < i then - r c else if c = i then 1 else 0) (by
                intro k hk
                have e := D1 k hk
                rw [show mulV q.n q.H z k = 0 from Finset.sum_eq_zero (fun l hl => by
                  rw [dot_self_zero h.symm l (Finset.mem_range.1 hl), mul_zero]), h2] at e
                rw [Finset.range_eq_Ico, ← Finset.sum_Ico_consecutive _ (Nat.zero_le (i + 1)) hip,
                  ← Finset.range_eq_Ico, Finset.sum_range_succ]
                have e2 : ∑ c ∈ Finset.Ico (i + 1) q.p,
                    (if c < i then - r c else if c = i then 1 else 0) * q.CE c k = 0 := by
                  apply Finset.sum_eq_zero
                  intro c hc
                  have := Finset.mem_Ico.1 hc
                  rw [if_neg (by omega), if_neg (by omega), zero_mul]
                have e3 : ∑ c ∈ Finset.range i,
                    (if c < i then - r c else if c = i then 1 else 0) * q.CE c k =
                    - ∑ c ∈ Finset.range i, r c * q.CE c k := by
                  rw [← Finset.sum_neg_distrib]
                  apply Finset.sum_congr rfl
                  intro c hc
                  rw [if_pos (Finset.mem_range.1 hc)]; ring
                rw [e2, e3]
                simp only [lt_irrefl, if_false, if_true]
                linarith) i (by omega)
              simp at h3
          exact ⟨by rw [h0]; exact hz, exact_flag h0 h1.fac (q.CE i) _ hz⟩
        have := eqStep_inv hv h1 (by rw [h2]; exact hdec)
        have e : q.eqPhase (i + 1) 0 q.start = q.eqStep i (q.eqPhase i 0 q.start) := by
          rw [eqPhase_add]
          generalize q.eqPhase i 0 q.start = st at *
          unfold Data.eqPhase
          simp only [h1.pc, Data.eqPhase, zero_add]
        rw [e]
        rw [h2] at this
        refine ⟨?_, this⟩
        intro j hj
        rcases Nat.lt_succ_iff_lt_or_eq.1 hj with h | h
        · exact g1 j h
        · rw [h]; exact hdec
    exact (key q.p le_rfl).1
  have dec : ∀ st, Good q st → Decisive q st := by
    intro st hg hpc
    have h : Inv2a q st := by simpa [Good, hpc] using hg
    rw [h0]
    constructor
    · intro hle i hi
      exact dot_self_zero (le_antisymm hle (dot_self_nonneg _ _)) i hi
    · intro hlt
      rw [dir_eq q st h.inv.core.fac.le] at hlt
      have := exact_flag h0 h.inv.core.fac (fun i => -(q.CI st.ip i)) st.Rnorm hlt
      rwa [h0] at this
  refine ⟨heq, ?_⟩
  have : ∀ k, Good q (q.run k) := by
    intro k
    induction k with
    | zero => exact init_good hv heq
    | succ k ih =>
      rw [Data.run, Function.iterate_succ_apply']
      exact step_good hv ih (dec _ ih)
  exact fun k => dec _ (this k)

end RtQP
end Verif
