/-
C256: memory safety of the dual active-set QP solver, independently of how the numerical tests turn out.
-/
import Verif.RtQPProps

namespace Verif
namespace RtQP

/-! ### specification -/

/-- In this state the constraint chosen by the solver takes a full step and `addConstraint` then calls it degenerate (RtQPSolver.hpp:482-486). -/
def Rejects (q : Data) (st : St) : Prop :=
  let np := fun i => -(q.CI st.ip i)
  let d := computeD q.n st.J np
  let t1 := q.ratio st.u (updateR st.R d st.iq) (st.iq - q.p)
  let t2 := -(st.s st.ip) / dot q.n (q.dir st) np
  st.pc = .l2a ∧ q.eps < |dot q.n (q.dir st) (q.dir st)| ∧ (∀ t k, t1 = some (t, k) → t2 ≤ t) ∧
  (addConstraint q.n q.eps st.R st.J d st.iq st.Rnorm).2.2.2 = false

/-! ### the bookkeeping of the active set -/

/-- Active constraints (and `e` pending ones) are different inequalities, not more of them than variables. -/
structure Book (q : Data) (st : St) (e : Nat) : Prop where
  lo : q.p ≤ st.iq
  hi : st.iq ≤ q.n
  lt : ∀ c, q.p ≤ c → c < st.iq + e → st.A c < q.m
  inj : ∀ c c', q.p ≤ c → c < st.iq + e → q.p ≤ c' → c' < st.iq + e → st.A c = st.A c' → c = c'

/-- The bookkeeping at the labels. -/
def Tidy (q : Data) (st : St) : Prop :=
  match st.pc with
  | .l1 => Book q st 0
  | .l2 => Book q st 0 ∧ st.ss = 0 ∧ ∀ c, q.p ≤ c → c < st.iq → st.iai (st.A c) = false
  | .l2a => Book q st 1
  | .ret _ => True
  | .ub => False

theorem Book.room {q : Data} {st : St} {e : Nat} (h : Book q st e) : st.iq + e ≤ q.p + q.m := by
  have := injOn_le (q := q) (A := st.A) (k := st.iq + e) h.lt h.inj
  have := h.lo
  omega

/-- `deleteConstraint` decrements `iq` (RtQPSolver.hpp:182). -/
theorem delete_iq (p l : Nat) (a : Act) : (deleteConstraint p l a).iq = a.iq - 1 := by
  simp only [deleteConstraint]; split_ifs <;> rfl

theorem deleteA {p l k : Nat} {a : Act} (hk1 : p ≤ k) (hk2 : k < a.iq) (hk : a.A k = l)
    (huniq : ∀ k', p ≤ k' → k' < a.iq → a.A k' = l → k' = k) :
    (deleteConstraint p l a).iq = a.iq - 1 ∧ ∀ i ≤ a.iq - 1, (deleteConstraint p l a).A i = dropAt k a.A i := by
  have hqq : findQq a.A l (a.iq - p) p = k := by
    obtain ⟨f1, f2, f3⟩ := findQq_spec a.A l (a.iq - p) p k hk1 (by omega) hk
    exact huniq _ f1 (by omega) f3
  refine ⟨by simp only [deleteConstraint]; split_ifs <;> rfl, ?_⟩
  intro i hi
  have : (deleteConstraint p l a).A = fun i => if i = a.iq then 0 else if i = a.iq - 1 then
      (if k ≤ a.iq ∧ a.iq < a.iq - 1 then a.A (a.iq + 1) else a.A a.iq)
      else (if k ≤ i ∧ i < a.iq - 1 then a.A (i + 1) else a.A i) := by
    simp only [deleteConstraint, hqq]; split_ifs <;> rfl
  rw [this]
  simp only [dropAt]
  rw [if_neg (by omega)]
  by_cases h1 : i = a.iq - 1
  · rw [if_pos h1, if_neg (by omega), if_neg (by omega)]
    congr 1; omega
  · rw [if_neg h1]
    by_cases h2 : i < k
    · rw [if_neg (by omega), if_pos h2]
    · rw [if_pos (by omega), if_neg h2]

/-- Dropping an active constraint while one is pending. -/
theorem Book.drop {q : Data} {st st' : St} (h : Book q st 1) {k : Nat} (hk1 : q.p ≤ k) (hk2 : k < st.iq) {R J : Nat → Nat → ℝ} {u : Nat → ℝ}
    (hiq : st'.iq = (deleteConstraint q.p (st.A k) ⟨R, J, st.A, u, st.iq⟩).iq)
    (hA : st'.A = (deleteConstraint q.p (st.A k) ⟨R, J, st.A, u, st.iq⟩).A) : Book q st' 1 := by
  obtain ⟨d1, d2⟩ := deleteA (p := q.p) (l := st.A k) (k := k) (a := ⟨R, J, st.A, u, st.iq⟩) hk1 hk2 rfl
    (fun k' h1 h2 h3 => h.inj k' k h1 (by simp only at h2; omega) hk1 (by omega) h3)
  have hiq' : st'.iq = st.iq - 1 := hiq.trans d1
  have hA' : ∀ i ≤ st.iq - 1, st'.A i = dropAt k st.A i := fun i hi => by rw [hA]; exact d2 i hi
  have hlo := h.lo
  have hhi := h.hi
  refine ⟨by omega, by omega, ?_, ?_⟩
  · intro c h1 h2
    rw [hA' c (by omega)]
    unfold dropAt
    split_ifs
    · exact h.lt c h1 (by omega)
    · exact h.lt (c + 1) (by omega) (by omega)
  · intro c c' h1 h2 h1' h2' he
    rw [hA' c (by omega), hA' c' (by omega)] at he
    unfold dropAt at he
    split_ifs at he with i1 i2 i2
    · exact h.inj c c' h1 (by omega) h1' (by omega) he
    · have := h.inj c (c' + 1) h1 (by omega) (by omega) (by omega) he; omega
    · have := h.inj (c + 1) c' (by omega) (by omega) h1' (by omega) he; omega
    · have := h.inj (c + 1) (c' + 1) (by omega) (by omega) (by omega) (by omega) he; omega

theorem stepL1_tidy {q : Data} {st : St} (h : Book q st 0) : Tidy q (q.stepL1 st) := by
  unfold Data.stepL1
  simp only
  split_ifs
  · simp [Tidy]
  · refine ⟨⟨h.lo, h.hi, h.lt, h.inj⟩, rfl, fun c h1 h2 => ?_⟩
    simp only
    rw [if_pos ⟨c, h1, h2, rfl⟩]

theorem stepL2_tidy {q : Data} {st : St} (h : Book q st 0) (hss : st.ss = 0)
    (hi : ∀ c, q.p ≤ c → c < st.iq → st.iai (st.A c) = false) : Tidy q (q.stepL2 st) := by
  obtain ⟨p1, p2, -⟩ := pick_spec st hss q.m
  have hlo := h.lo
  have hhi := h.hi
  have key : (Data.pick st q.m).1 < 0 → (∀ c, q.p ≤ c → c < st.iq + 1 → (if c = st.iq then (Data.pick st q.m).2 else st.A c) < q.m) ∧
      (∀ c c', q.p ≤ c → c < st.iq + 1 → q.p ≤ c' → c' < st.iq + 1 →
        (if c = st.iq then (Data.pick st q.m).2 else st.A c) = (if c' = st.iq then (Data.pick st q.m).2 else st.A c') → c = c') := by
    intro hneg
    obtain ⟨k1, -, k3⟩ := p2 hneg
    have hne : ∀ c, q.p ≤ c → c < st.iq → st.A c ≠ (Data.pick st q.m).2 := by
      intro c h1 h2 h3
      have := hi c h1 h2
      rw [h3, k3] at this
      cases this
    refine ⟨fun c h1 h2 => ?_, fun c c' h1 h2 h1' h2' he => ?_⟩
    · split_ifs with hc
      · exact k1
      · exact h.lt c h1 (by omega)
    · split_ifs at he with hc hc' hc'
      · omega
      · exact absurd he.symm (hne c' h1' (by omega))
      · exact absurd he (hne c h1 (by omega))
      · exact h.inj c c' h1 (by omega) h1' (by omega) he
  unfold Data.stepL2
  simp only
  split_ifs with hpos hub
  · simp [Tidy]
  · exfalso
    obtain ⟨k1, k2⟩ := key (not_le.mp hpos)
    have := injOn_le (q := q) (A := fun c => if c = st.iq then (Data.pick st q.m).2 else st.A c) (k := st.iq + 1) k1 k2
    omega
  · obtain ⟨k1, k2⟩ := key (not_le.mp hpos)
    exact ⟨hlo, hhi, k1, k2⟩

theorem stepL2a_tidy {q : Data} (heps : 0 ≤ q.eps) {st : St} (hpc : st.pc = .l2a) (h : Book q st 1) (hr : ¬ Rejects q st) :
    Tidy q (q.stepL2a st) := by
  have hlo := h.lo
  have hhi := h.hi
  have hroom := h.room
  unfold Data.stepL2a
  simp only
  cases ht1 : q.ratio st.u (updateR st.R (computeD q.n st.J fun i => -q.CI st.ip i) st.iq) (st.iq - q.p) with
  | none =>
    by_cases hz : |dot q.n (q.dir st) (q.dir st)| > q.eps
    · rw [if_pos hz]
      simp only
      have hlt : st.iq < q.n := by
        by_contra hge
        have : q.dir st = fun _ => 0 := by unfold Data.dir; simp only; rw [if_pos (not_lt.mp hge)]
        rw [this] at hz
        simp only [dot, mul_zero, Finset.sum_const_zero, abs_zero] at hz
        linarith
      have hflag : (addConstraint q.n q.eps st.R st.J (computeD q.n st.J fun i => -q.CI st.ip i) st.iq st.Rnorm).2.2.2 = true := by
        by_contra hf
        exact hr ⟨hpc, hz, fun t k e => (by rw [ht1] at e; cases e), by simpa using hf⟩
      rw [if_pos trivial, if_pos hflag]
      exact ⟨by simp only; omega, by simp only; omega, fun c h1 h2 => h.lt c h1 (by simpa using h2),
        fun c c' h1 h2 h1' h2' => h.inj c c' h1 (by simpa using h2) h1' (by simpa using h2')⟩
    · rw [if_neg hz]
      simp [Tidy]
  | some tk =>
    obtain ⟨t, k⟩ := tk
    obtain ⟨k1, k2, -⟩ := ratio_some q _ _ _ _ _ ht1
    have hk : k < st.iq := by omega
    by_cases hz : |dot q.n (q.dir st) (q.dir st)| > q.eps
    · rw [if_pos hz]
      simp only
      have hlt : st.iq < q.n := by
        by_contra hge
        have : q.dir st = fun _ => 0 := by unfold Data.dir; simp only; rw [if_pos (not_lt.mp hge)]
        rw [this] at hz
        simp only [dot, mul_zero, Finset.sum_const_zero, abs_zero] at hz
        linarith
      by_cases hmin : min t (-(st.s st.ip) / dot q.n (q.dir st) fun i => -q.CI st.ip i) = -(st.s st.ip) / dot q.n (q.dir st) fun i => -q.CI st.ip i
      · have hflag : (addConstraint q.n q.eps st.R st.J (computeD q.n st.J fun i => -q.CI st.ip i) st.iq st.Rnorm).2.2.2 = true := by
          by_contra hf
          refine hr ⟨hpc, hz, fun t' k' e => ?_, by simpa using hf⟩
          rw [ht1] at e
          injection e with e
          injection e with e _
          subst e
          exact min_eq_right_iff.mp hmin
        rw [if_pos hmin, if_pos hflag]
        exact ⟨by simp only; omega, by simp only; omega, fun c h1 h2 => h.lt c h1 (by simpa using h2),
          fun c c' h1 h2 h1' h2' => h.inj c c' h1 (by simpa using h2) h1' (by simpa using h2')⟩
      · rw [if_neg hmin]
        exact Book.drop h k1 hk rfl rfl
    · rw [if_neg hz]
      exact Book.drop h k1 hk rfl rfl

theorem step_tidy {q : Data} (heps : 0 ≤ q.eps) {st : St} (h : Tidy q st) (hr : ¬ Rejects q st) : Tidy q (q.step st) := by
  cases hpc : st.pc with
  | l1 =>
    have e : q.step st = q.stepL1 st := by unfold Data.step; rw [hpc]
    simp only [Tidy, hpc] at h
    rw [e]; exact stepL1_tidy h
  | l2 =>
    have e : q.step st = q.stepL2 st := by unfold Data.step; rw [hpc]
    simp only [Tidy, hpc] at h
    rw [e]; exact stepL2_tidy h.1 h.2.1 h.2.2
  | l2a =>
    have e : q.step st = q.stepL2a st := by unfold Data.step; rw [hpc]
    simp only [Tidy, hpc] at h
    rw [e]; exact stepL2a_tidy heps hpc h hr
  | ret v =>
    have e : q.step st = st := by unfold Data.step; rw [hpc]
    rw [e]; exact h
  | ub =>
    simp only [Tidy, hpc] at h

/-- After `i` equalities: either the phase ended early, or `i` constraints are in the working set. -/
theorem eqPhase_count (q : Data) : ∀ i ≤ q.n, (q.eqPhase i 0 q.start).pc ≠ .ub ∧
    ((q.eqPhase i 0 q.start).pc = .l1 ∨ ∃ v, (q.eqPhase i 0 q.start).pc = .ret v) ∧
    ((q.eqPhase i 0 q.start).pc = .l1 → (q.eqPhase i 0 q.start).iq = i) := by
  intro i
  induction i with
  | zero => intro _; exact ⟨by simp [Data.eqPhase, Data.start], .inl rfl, fun _ => rfl⟩
  | succ i ih =>
    intro hi
    obtain ⟨h1, h2, h3⟩ := ih (by omega)
    rw [eqPhase_add]
    generalize q.eqPhase i 0 q.start = st at *
    rcases h2 with h2 | ⟨v, h2⟩
    · have e : q.eqPhase 1 (0 + i) st = q.eqStep i st := by
        unfold Data.eqPhase
        simp only [h2, Data.eqPhase, zero_add]
      have hiq := h3 h2
      rw [e]
      unfold Data.eqStep
      simp only
      rw [if_neg (by omega)]
      by_cases hf : (addConstraint q.n q.eps st.R st.J (computeD q.n st.J (q.CE i)) st.iq st.Rnorm).2.2.2 = true
      · rw [if_pos hf]
        exact ⟨by simp only [h2]; simp, .inl h2, fun _ => by simp only; omega⟩
      · rw [if_neg hf]
        exact ⟨by simp, .inr ⟨_, rfl⟩, fun h => by simp at h⟩
    · have e : q.eqPhase 1 (0 + i) st = st := eqPhase_stop q (by rw [h2]; simp) _ _
      rw [e]
      exact ⟨h1, .inr ⟨v, h2⟩, fun h => by rw [h2] at h; cases h⟩

theorem init_tidy {q : Data} (hpn : q.p ≤ q.n) : Tidy q q.init := by
  obtain ⟨-, h2, h3⟩ := eqPhase_count q q.p hpn
  unfold Data.init
  generalize q.eqPhase q.p 0 q.start = st at *
  rcases h2 with h2 | ⟨v, h2⟩
  · have := h3 h2
    unfold Tidy
    rw [h2]
    exact ⟨by omega, by omega, fun c h1 h4 => by omega, fun c c' h1 h4 => by omega⟩
  · unfold Tidy; rw [h2]; trivial

/-- C256, what holds: for every problem with at most as many equalities as variables, whatever the data and whatever the zero tests decide,
no array is accessed out of range before a constraint is rejected as degenerate. -/
theorem C256_memory_partial (q : Data) (heps : 0 ≤ q.eps) (hpn : q.p ≤ q.n) (k : Nat) (hr : ∀ j < k, ¬ Rejects q (q.run j)) :
    (q.run k).pc ≠ .ub ∧ ((∀ v, (q.run k).pc ≠ .ret v) → (q.run k).iq ≤ q.n ∧ (q.run k).iq ≤ q.p + q.m) := by
  have key : Tidy q (q.run k) := by
    induction k with
    | zero => exact init_tidy hpn
    | succ k ih =>
      have e : q.run (k + 1) = q.step (q.run k) := Function.iterate_succ_apply' _ _ _
      rw [e]
      exact step_tidy heps (ih fun j hj => hr j (by omega)) (hr k (by omega))
  generalize q.run k = st at *
  cases hpc : st.pc with
  | l1 => simp only [Tidy, hpc] at key; exact ⟨by simp, fun _ => ⟨key.hi, by simpa using key.room⟩⟩
  | l2 => simp only [Tidy, hpc] at key; exact ⟨by simp, fun _ => ⟨key.1.hi, by simpa using key.1.room⟩⟩
  | l2a => simp only [Tidy, hpc] at key; exact ⟨by simp, fun _ => ⟨key.hi, by have := key.room; omega⟩⟩
  | ret v => exact ⟨by simp, fun h => absurd rfl (h v)⟩
  | ub => simp only [Tidy, hpc] at key

/-- C256 is false when there are more equalities than variables: as soon as as many equalities as variables have been added, the next one
writes a column of `R` that does not exist, also when it is redundant and the problem is feasible. -/
theorem C256_overdetermined_violated (q : Data) (h : q.n < q.p) (hn : (q.eqPhase q.n 0 q.start).pc = .l1) : ∀ k, (q.run k).pc = .ub := by
  have h0 : q.init.pc = .ub := by
    obtain ⟨-, -, h3⟩ := eqPhase_count q q.n le_rfl
    have hiq := h3 hn
    unfold Data.init
    obtain ⟨r, hr⟩ : ∃ r, q.p = q.n + (r + 1) := ⟨q.p - q.n - 1, by omega⟩
    rw [hr, eqPhase_add]
    generalize q.eqPhase q.n 0 q.start = st at *
    have e : q.eqPhase (r + 1) (0 + q.n) st = q.eqPhase r (0 + q.n + 1) (q.eqStep (0 + q.n) st) := by
      conv_lhs => unfold Data.eqPhase
      simp only [hn]
    have hs : (q.eqStep (0 + q.n) st).pc = .ub := by
      unfold Data.eqStep
      simp only
      rw [if_pos hiq.ge]
    rw [e, eqPhase_stop q (by rw [hs]; simp), hs]
  intro k
  induction k with
  | zero => exact h0
  | succ k ih =>
    have e : q.run (k + 1) = q.step (q.run k) := Function.iterate_succ_apply' _ _ _
    rw [e]
    unfold Data.step
    rw [ih]
    exact ih

/-- ... in particular, in exact arithmetic, whenever the first `n` of more than `n` equalities are linearly independent. -/
theorem C256_overdetermined_exact_violated (q : Data) (hv : q.Valid) (h0 : q.eps = 0) (h : q.n < q.p)
    (hi : Data.EqIndependent { q with p := q.n }) (k : Nat) : (q.run k).pc = .ub := by
  refine C256_overdetermined_violated q h ?_ k
  have hv' : Data.Valid { q with p := q.n } := ⟨hv.symm, hv.inv, hv.diag, hv.eps⟩
  have hr := (regular_exact hv' h0 hi).1
  have hinv := (eqPhase_inv hv' hr q.n le_rfl).1.pc
  have e : ∀ i k st, Data.eqPhase { q with p := q.n } i k st = q.eqPhase i k st := by
    intro i
    induction i with
    | zero => intro k st; rfl
    | succ i ih =>
      intro k st
      unfold Data.eqPhase
      cases st.pc with
      | l1 => exact ih _ _
      | l2 => rfl
      | l2a => rfl
      | ret v => rfl
      | ub => rfl
  rw [e] at hinv
  exact hinv

/-- One variable and twice the equality `x = 1`. -/
noncomputable def qTwice : Data :=
  { n := 1, p := 2, m := 0, H := fun _ _ => 1, g := fun _ => 0, CE := fun _ _ => 1,
    ce0 := fun _ => -1, CI := fun _ _ => 0, ci0 := fun _ => 0, J0 := fun _ _ => 1, eps := 0 }

/-- A feasible problem to which both theorems apply. -/
example : qTwice.Valid ∧ (∃ y, qTwice.Feasible y) ∧ qTwice.n < qTwice.p ∧ Data.EqIndependent { qTwice with p := qTwice.n } := by
  refine ⟨⟨fun _ _ _ _ => rfl, ?_, fun _ _ => by simp [qTwice], le_rfl⟩, ⟨fun _ => 1, ?_, ?_⟩, by decide, ?_⟩
  · intro i hi l hl
    have hi : i = 0 := by simp only [qTwice] at hi; omega
    have hl : l = 0 := by simp only [qTwice] at hl; omega
    subst hi hl
    simp [qTwice, gram]
  · intro i _
    simp [qTwice, dot]
  · intro i hi
    simp [qTwice] at hi
  · intro c h i hi
    have hi : i = 0 := by simp only [qTwice] at hi; omega
    subst hi
    have := h 0 (by simp [qTwice])
    simpa [qTwice] using this

/-! ### rejection with equalities -/

/-- Two variables, the equality `2^27 x0 = 0` and the inequality `2^-25 x1 + 1 <= 0`, followed by `m - 1` empty inequalities. -/
noncomputable def qRej (m : Nat) : Data :=
  { n := 2, p := 1, m := m, H := fun i k => if i = k then 1 else 0, g := fun _ => 0,
    CE := fun _ k => if k = 0 then 134217728 else 0, ce0 := fun _ => 0,
    CI := fun i k => if i = 0 then (if k = 1 then 1 / 33554432 else 0) else 0, ci0 := fun i => if i = 0 then 1 else 0,
    J0 := fun i k => if i = k then 1 else 0, eps := machEps }

theorem qRej_valid (m : Nat) : (qRej m).Valid := by
  refine ⟨fun i _ k _ => by simp [qRej, eq_comm], ?_, fun _ _ => by simp [qRej],
    by simp only [qRej, machEps]; norm_num⟩
  intro i hi l hl
  simp only [qRej] at hi hl
  interval_cases i <;> interval_cases l <;> simp [qRej, gram, Finset.sum_range_succ]

theorem qRej_feasible (m : Nat) : (qRej m).Feasible fun i => if i = 0 then 0 else -33554432 := by
  refine ⟨fun i _ => ?_, fun i _ => ?_⟩
  · simp [qRej, dot, Finset.sum_range_succ]
  · simp only [qRej, dot, Finset.sum_range_succ, Finset.sum_range_zero]
    by_cases h : i = 0 <;> simp [h] <;> norm_num

theorem qRej_init (m : Nat) : ((qRej m).run 0).pc = .l1 ∧ ((qRej m).run 0).iq = 1 ∧ ((qRej m).run 0).J 0 1 = 0 ∧ ((qRej m).run 0).J 1 1 = -1 ∧
    ((qRej m).run 0).x 0 = 0 ∧ ((qRej m).run 0).x 1 = 0 ∧ ((qRej m).run 0).Rnorm = 134217728 ∧ (∀ i, ((qRej m).run 0).iai i = true) ∧
    ∀ i, 1 ≤ i → ((qRej m).run 0).A i = 0 := by
  have e : (qRej m).run 0 = (qRej m).eqStep 0 (qRej m).start := rfl
  have hd : distance 134217728 0 = 134217728 := by
    rw [distance_eq]
    rw [show (134217728 : ℝ) ^ 2 + 0 ^ 2 = 134217728 ^ 2 by norm_num, Real.sqrt_sq (by norm_num)]
  rw [e]
  simp only [qRej, Data.start, Data.eqStep, addConstraint, addLoop, addRot, computeD, updateZ, dot, rotCols,
    Finset.sum_range_succ, Finset.sum_range_zero, machEps, hd]
  norm_num [Finset.sum_Ico_succ_top, hd]

theorem qRej_run (m : Nat) (hm : 0 < m) (hm2 : m ≤ 2) : Rejects (qRej m) ((qRej m).run 2) ∧ ((qRej m).run 2).iq = 1 ∧ ((qRej m).run 3).pc = .ub := by
  obtain ⟨a1, a2, a3, a4, a5, a6, a7, a8, a9⟩ := qRej_init m
  have s1 : (qRej m).run 1 = (qRej m).step ((qRej m).run 0) := Function.iterate_succ_apply' _ _ _
  have s2 : (qRej m).run 2 = (qRej m).step ((qRej m).run 1) := Function.iterate_succ_apply' _ _ _
  have s3 : (qRej m).run 3 = (qRej m).step ((qRej m).run 2) := Function.iterate_succ_apply' _ _ _
  generalize (qRej m).run 0 = st0 at *
  have e1 : (qRej m).step st0 = (qRej m).stepL1 st0 := by unfold Data.step; rw [a1]
  rw [e1] at s1
  have hs0 : (qRej m).slack st0.x 0 = -1 := by
    simp [Data.slack, qRej, dot, Finset.sum_range_succ, a6]
  have hs1 : ∀ i, i ≠ 0 → (qRej m).slack st0.x i = 0 := by
    intro i hi
    simp [Data.slack, qRej, dot, Finset.sum_range_succ, hi]
  have hsum : ∑ i ∈ Finset.range (qRej m).m, min 0 ((qRej m).slack st0.x i) = -1 := by
    show ∑ i ∈ Finset.range m, min 0 ((qRej m).slack st0.x i) = -1
    rw [Finset.sum_eq_single_of_mem 0 (Finset.mem_range.mpr hm) (fun i _ hi => by rw [hs1 i hi]; simp), hs0]
    norm_num
  have htol : ¬ |∑ i ∈ Finset.range (qRej m).m, min 0 ((qRej m).slack st0.x i)| ≤ (qRej m).m * (qRej m).eps * (qRej m).c1 * (qRej m).c2 * 100 := by
    rw [hsum]
    have h1 : ((qRej m).m : ℝ) ≤ 2 := by show (m : ℝ) ≤ 2; exact_mod_cast hm2
    have h2 : (qRej m).c1 = 2 := by simp [Data.c1, qRej]; try norm_num
    have h3 : (qRej m).c2 = 2 := by simp [Data.c2, qRej]; try norm_num
    have h4 : (qRej m).eps = machEps := rfl
    rw [h2, h3, h4, machEps]
    push Not
    rw [abs_neg, abs_one]
    linarith
  have b : ((qRej m).run 1).pc = .l2 ∧ ((qRej m).run 1).s 0 = -1 ∧ (∀ i, i ≠ 0 → ((qRej m).run 1).s i = 0) ∧ ((qRej m).run 1).ss = 0 ∧
      ((qRej m).run 1).iai 0 = true ∧ ((qRej m).run 1).iaexcl 0 = true ∧ ((qRej m).run 1).iq = 1 ∧ ((qRej m).run 1).J = st0.J ∧
      ((qRej m).run 1).Rnorm = 134217728 ∧ ((qRej m).run 1).ip = 0 := by
    rw [s1]
    unfold Data.stepL1
    simp only
    rw [if_neg htol]
    refine ⟨rfl, hs0, hs1, rfl, ?_, rfl, a2, rfl, a7, rfl⟩
    simp only
    rw [if_neg, a8]
    rintro ⟨k, h1, h2, -⟩
    have : (qRej m).p = 1 := rfl
    omega
  generalize (qRej m).run 1 = st1 at *
  obtain ⟨b1, b2, b3, b4, b5, b6, b7, b8, b9, b10⟩ := b
  have e2 : (qRej m).step st1 = (qRej m).stepL2 st1 := by unfold Data.step; rw [b1]
  rw [e2] at s2
  have hpick : Data.pick st1 (qRej m).m = (-1, 0) := by
    show Data.pick st1 m = (-1, 0)
    obtain rfl | rfl : m = 1 ∨ m = 2 := by omega
    · simp only [Data.pick, b2, b4, b5, b6]; norm_num
    · simp only [Data.pick, b2, b3 1 one_ne_zero, b4, b5, b6]; norm_num
  have c : ((qRej m).run 2).pc = .l2a ∧ ((qRej m).run 2).ip = 0 ∧ ((qRej m).run 2).iq = 1 ∧ ((qRej m).run 2).J = st0.J ∧
      ((qRej m).run 2).Rnorm = 134217728 ∧ ((qRej m).run 2).s 0 = -1 := by
    rw [s2]
    unfold Data.stepL2
    simp only [hpick, b7]
    rw [if_neg (by norm_num), if_neg (by show ¬ 1 + m ≤ 1; omega)]
    exact ⟨rfl, rfl, rfl, b8, b9, b2⟩
  generalize (qRej m).run 2 = st2 at *
  obtain ⟨c1, c2, c3, c4, c5, c6⟩ := c
  have hn : (qRej m).n = 2 := rfl
  have hd0 : ∀ k, computeD (qRej m).n st2.J (fun i => -(qRej m).CI 0 i) k = -(st0.J 1 k / 33554432) := by
    intro k
    rw [c4]
    simp [computeD, qRej, Finset.sum_range_succ]
    ring
  have hdir : ∀ i, (qRej m).dir st2 i = st0.J i 1 * (1 / 33554432) := by
    intro i
    unfold Data.dir
    simp only [c3, c2]
    rw [if_neg (by rw [hn]; omega)]
    unfold updateZ
    rw [hn, show Finset.Ico 1 2 = {1} from rfl, Finset.sum_singleton]
    have := hd0 1
    rw [hn] at this
    rw [this, c4, a4]
    norm_num
  have hz : dot (qRej m).n ((qRej m).dir st2) ((qRej m).dir st2) = 1 / 33554432 ^ 2 := by
    rw [hn]
    simp only [dot, Finset.sum_range_succ, Finset.sum_range_zero, hdir, a3, a4]
    norm_num
  have hbig : (qRej m).eps < |dot (qRej m).n ((qRej m).dir st2) ((qRej m).dir st2)| := by
    rw [hz]
    show machEps < _
    rw [machEps, abs_of_pos (by norm_num)]
    norm_num
  have hflag : (addConstraint (qRej m).n (qRej m).eps st2.R st2.J (computeD (qRej m).n st2.J fun i => -(qRej m).CI 0 i) 1 134217728).2.2.2 = false := by
    unfold addConstraint
    rw [hn]
    simp only [addLoop]
    norm_num
    have := hd0 1
    rw [hn] at this
    rw [this, a4]
    rw [if_pos (by show _ ≤ machEps * 134217728; rw [machEps, abs_of_pos (by norm_num)]; norm_num)]
  have hratio : ∀ u r, (qRej m).ratio u r (1 - (qRej m).p) = none := fun _ _ => rfl
  refine ⟨⟨c1, hbig, ?_, ?_⟩, c3, ?_⟩
  · intro t k h
    rw [c3, hratio] at h
    cases h
  · rw [c2, c3, c5]; exact hflag
  · rw [s3]
    have e3 : (qRej m).step st2 = (qRej m).stepL2a st2 := by unfold Data.step; rw [c1]
    rw [e3]
    unfold Data.stepL2a
    simp only [c2, c3, c5]
    rw [hratio, if_pos hbig]
    simp only
    rw [if_pos trivial, hflag]
    simp only [Bool.false_eq_true, if_false]
    by_cases hub : (qRej m).p + (qRej m).m ≤ 1 + 1
    · rw [if_pos hub]
    · rw [if_neg hub, if_pos]
      refine ⟨by show 0 < 1; omega, ?_⟩
      rw [delete_iq]
      norm_num

/-- C256 is false also with fewer equalities than variables: on a feasible problem with one equality and one inequality (machine epsilon), the
inequality is rejected, and removing it again reads `A` beyond its end; with a second inequality (always satisfied) the index -1 is written. -/
theorem C256_rejected_violated (m : Nat) (h1 : 0 < m) (h2 : m ≤ 2) : (qRej m).Valid ∧ (qRej m).eps = machEps ∧ (∃ y, (qRej m).Feasible y) ∧
    (qRej m).p < (qRej m).n ∧ ((qRej m).run 3).pc = .ub :=
  ⟨qRej_valid m, rfl, ⟨_, qRej_feasible m⟩, by show 1 < 2; omega, (qRej_run m h1 h2).2.2⟩

/-- A run without rejections to which `C256_memory_partial` applies. -/
example : 0 ≤ qOne.eps ∧ qOne.p ≤ qOne.n ∧ (∀ j < 4, ¬ Rejects qOne (qOne.run j)) ∧ ∃ v, (qOne.run 4).pc = .ret (some v) := by
  refine ⟨qOne_valid.eps, Nat.zero_le _, fun j _ h => ?_, qOne_run.2.2.2.2⟩
  obtain ⟨hpc, hbig, -, hf⟩ := h
  have := (qOne_regular.2 j hpc).2 (by rwa [abs_of_nonneg (dot_self_nonneg _ _)] at hbig)
  rw [this] at hf
  cases hf

end RtQP
end Verif
