import Verif.RtQPFloat
import Verif.RtQPMem
import Verif.IPFloatProps

/-!
Properties C278-C280: what holds of the dual active-set QP solver in machine arithmetic, with whatever rounding errors, infinities and NaNs.
-/
namespace Verif
namespace RtQPF
open LbfgsF IPF

variable {F : Type} [Arith F]

/-! ### specification -/

/-- Three elementary facts about the comparisons: the zero vector is not taken for a direction, zero is not below zero, and what is below infinity equals itself. -/
structure Plain (q : Data F) : Prop where
  zero : (q.eps <. Arith.abs (dot q.n (fun _ => c 0 : Nat → F) (fun _ => c 0))) = false
  refl : ((c 0 : F) <=. c 0) = true
  below : ∀ t : F, q.below t = true → (t ==. t) = true

/-- In this state the constraint chosen by the solver takes a full step and `addConstraint` then calls it degenerate (RtQPSolver.hpp:482-486). -/
def Rejects (q : Data F) (st : St F) : Prop :=
  let d := computeD q.n st.J (fun i => Arith.neg (q.CI st.ip i))
  st.pc = .l2a ∧ (∃ t2, q.full st = some t2 ∧ ∀ t k, q.ratio st.u (updateR st.R d st.iq) (st.iq - q.p) = some (t, k) → (fmin t t2 ==. t2) = true) ∧
  (addConstraint q.n q.eps st.R st.J d st.iq st.Rnorm).2.2.2 = false

/-- There is no room to undo the rejection: the arrays of the active set are full, or there are equalities (their entries of `A` are not indices of inequalities). -/
def NoRoom (q : Data F) (st : St F) : Prop := q.p + q.m ≤ st.iq + 1 ∨ (0 < q.p ∧ 0 < st.iq)

/-! ### the bookkeeping of the active set -/

/-- Active constraints (and `e` pending ones) are different inequalities, not more of them than variables; marked constraints are active; the saved active set is one. -/
structure Book (q : Data F) (st : St F) (e : Nat) : Prop where
  lo : q.p ≤ st.iq
  hi : st.iq ≤ q.n
  lt : ∀ c, q.p ≤ c → c < st.iq + e → st.A c < q.m
  inj : ∀ c c', q.p ≤ c → c < st.iq + e → q.p ≤ c' → c' < st.iq + e → st.A c = st.A c' → c = c'
  mark : ∀ i, st.iai i = false → ∃ c, q.p ≤ c ∧ c < st.iq ∧ st.A c = i

/-- What is known of the saved active set. -/
structure Old (q : Data F) (st : St F) : Prop where
  lt : ∀ c, q.p ≤ c → c < st.iq → st.AOld c < q.m
  inj : ∀ c c', q.p ≤ c → c < st.iq → q.p ≤ c' → c' < st.iq → st.AOld c = st.AOld c' → c = c'

/-- At the second label, straight from the first one. -/
def First (q : Data F) (st : St F) : Prop := st.ss = c 0 ∧ (∀ i, st.iaexcl i = true) ∧ st.s = q.slack st.x

/-- At the second label after a rejection. -/
def Again (q : Data F) (st : St F) : Prop := st.ss ≠ c 0 ∧ (c 0 <=. st.ss) = false ∧ st.ip < q.m ∧ st.iai st.ip = true

/-- The bookkeeping at the labels. -/
def Tidy (q : Data F) (st : St F) : Prop :=
  match st.pc with
  | .l1 => Book q st 0
  | .l2 => Book q st 0 ∧ (∀ c, q.p ≤ c → c < st.iq → st.iai (st.A c) = false) ∧ (∀ c, q.p ≤ c → c < st.iq → st.AOld c = st.A c) ∧ (First q st ∨ Again q st)
  | .l2a => Book q st 1 ∧ Old q st ∧ (∀ c, q.p ≤ c → c < st.iq → st.AOld c ≠ st.ip) ∧ st.A st.iq = st.ip ∧ (c 0 <=. st.ss) = false ∧ st.ip < q.m
  | .ret _ => True
  | .ub => False

theorem count_le {q : Data F} {A : Nat → Nat} {k : Nat} (hlt : ∀ c, q.p ≤ c → c < k → A c < q.m)
    (hinj : ∀ c c', q.p ≤ c → c < k → q.p ≤ c' → c' < k → A c = A c' → c = c') : k - q.p ≤ q.m := by
  have := Finset.card_le_card_of_injOn (s := Finset.Ico q.p k) (t := Finset.range q.m) A
    (fun c hc => by
      have := Finset.mem_Ico.1 hc
      exact Finset.mem_coe.2 (Finset.mem_range.2 (hlt c this.1 this.2)))
    (fun c hc c' hc' h => by
      have h1 := Finset.mem_Ico.1 (Finset.mem_coe.1 hc)
      have h2 := Finset.mem_Ico.1 (Finset.mem_coe.1 hc')
      exact hinj c c' h1.1 h1.2 h2.1 h2.2 h)
  simpa using this

theorem Book.room {q : Data F} {st : St F} {e : Nat} (h : Book q st e) : st.iq + e ≤ q.p + q.m := by
  have := count_le (q := q) (A := st.A) (k := st.iq + e) h.lt h.inj
  have := h.lo
  omega

/-- `deleteConstraint` decrements `iq` (RtQPSolver.hpp:182). -/
theorem delete_iq (p l : Nat) (a : Act F) : (deleteConstraint p l a).iq = a.iq - 1 := by
  simp only [deleteConstraint]; split_ifs <;> rfl

theorem deleteA {p l k : Nat} {a : Act F} (hk1 : p ≤ k) (hk2 : k < a.iq) (hk : a.A k = l)
    (huniq : ∀ k', p ≤ k' → k' < a.iq → a.A k' = l → k' = k) :
    (deleteConstraint p l a).iq = a.iq - 1 ∧ ∀ i ≤ a.iq - 1, (deleteConstraint p l a).A i = RtQP.dropAt k a.A i := by
  have hqq : RtQP.findQq a.A l (a.iq - p) p = k := by
    obtain ⟨f1, f2, f3⟩ := RtQP.findQq_spec a.A l (a.iq - p) p k hk1 (by omega) hk
    exact huniq _ f1 (by omega) f3
  refine ⟨delete_iq p l a, ?_⟩
  intro i hi
  have : (deleteConstraint p l a).A = fun i => if i = a.iq then 0 else if i = a.iq - 1 then
      (if k ≤ a.iq ∧ a.iq < a.iq - 1 then a.A (a.iq + 1) else a.A a.iq)
      else (if k ≤ i ∧ i < a.iq - 1 then a.A (i + 1) else a.A i) := by
    simp only [deleteConstraint, hqq]; split_ifs <;> rfl
  rw [this]
  simp only [RtQP.dropAt]
  rw [if_neg (by omega)]
  by_cases h1 : i = a.iq - 1
  · rw [if_pos h1, if_neg (by omega), if_neg (by omega)]
    congr 1; omega
  · rw [if_neg h1]
    by_cases h2 : i < k
    · rw [if_neg (by omega), if_pos h2]
    · rw [if_pos (by omega), if_neg h2]

/-- Dropping an active constraint while one is pending. -/
theorem drop_tidy {q : Data F} {st st' : St F} (h : Tidy q st) (hpc : st.pc = .l2a) {k : Nat} (hk1 : q.p ≤ k) (hk2 : k < st.iq) {R J : Nat → Nat → F}
    {u : Nat → F} (hiq : st'.iq = (deleteConstraint q.p (st.A k) ⟨R, J, st.A, u, st.iq⟩).iq)
    (hA : st'.A = (deleteConstraint q.p (st.A k) ⟨R, J, st.A, u, st.iq⟩).A) (hp : st'.pc = .l2a) (hip : st'.ip = st.ip) (hss : st'.ss = st.ss)
    (hO : st'.AOld = st.AOld) (hi : st'.iai = fun i => if i = st.A k then true else st.iai i) : Tidy q st' := by
  simp only [Tidy, hpc] at h
  obtain ⟨h, o, hne, hA0, hs, hm⟩ := h
  obtain ⟨d1, d2⟩ := deleteA (p := q.p) (l := st.A k) (k := k) (a := ⟨R, J, st.A, u, st.iq⟩) hk1 hk2 rfl
    (fun k' h1 h2 h3 => h.inj k' k h1 (by simp only at h2; omega) hk1 (by omega) h3)
  have hiq' : st'.iq = st.iq - 1 := hiq.trans d1
  have hA' : ∀ i ≤ st.iq - 1, st'.A i = RtQP.dropAt k st.A i := fun i hi => by rw [hA]; exact d2 i hi
  have hlo := h.lo
  have hhi := h.hi
  simp only [Tidy, hp]
  refine ⟨⟨by omega, by omega, ?_, ?_, ?_⟩, ⟨?_, ?_⟩, ?_, ?_, by rw [hss]; exact hs, by rw [hip]; exact hm⟩
  · intro c h1 h2
    rw [hA' c (by omega)]
    unfold RtQP.dropAt
    split_ifs
    · exact h.lt c h1 (by omega)
    · exact h.lt (c + 1) (by omega) (by omega)
  · intro c c' h1 h2 h1' h2' he
    rw [hA' c (by omega), hA' c' (by omega)] at he
    unfold RtQP.dropAt at he
    split_ifs at he with i1 i2 i2
    · exact h.inj c c' h1 (by omega) h1' (by omega) he
    · have := h.inj c (c' + 1) h1 (by omega) (by omega) (by omega) he; omega
    · have := h.inj (c + 1) c' (by omega) (by omega) h1' (by omega) he; omega
    · have := h.inj (c + 1) (c' + 1) (by omega) (by omega) (by omega) (by omega) he; omega
  · intro i hi'
    rw [hi] at hi'
    have hi' : (if i = st.A k then true else st.iai i) = false := hi'
    by_cases e : i = st.A k
    · simp [e] at hi'
    · rw [if_neg e] at hi'
      obtain ⟨c', h1, h2, h3⟩ := h.mark i hi'
      have hck : c' ≠ k := fun e' => e (by rw [← h3, e'])
      by_cases hlt : c' < k
      · exact ⟨c', h1, by omega, by rw [hA' c' (by omega)]; unfold RtQP.dropAt; rw [if_pos hlt, h3]⟩
      · refine ⟨c' - 1, by omega, by omega, ?_⟩
        rw [hA' (c' - 1) (by omega)]
        unfold RtQP.dropAt
        rw [if_neg (by omega), show c' - 1 + 1 = c' from by omega, h3]
  · intro c h1 h2; rw [hO]; exact o.lt c h1 (by omega)
  · intro c c' h1 h2 h3 h4; rw [hO]; exact o.inj c c' h1 (by omega) h3 (by omega)
  · intro c h1 h2; rw [hO, hip]; exact hne c h1 (by omega)
  · rw [hip, hiq', hA' _ le_rfl]
    unfold RtQP.dropAt
    rw [if_neg (by omega), show st.iq - 1 + 1 = st.iq from by omega, hA0]

theorem any_active {q : Data F} {st : St F} {i : Nat} :
    (List.range st.iq).any (fun k => decide (q.p ≤ k) && decide (st.A k = i)) = true ↔ ∃ k, q.p ≤ k ∧ k < st.iq ∧ st.A k = i := by
  simp only [List.any_eq_true, List.mem_range, Bool.and_eq_true, decide_eq_true_eq]
  exact ⟨fun ⟨k, a, b, c⟩ => ⟨k, b, a, c⟩, fun ⟨k, a, b, c⟩ => ⟨k, b, a, c⟩⟩

theorem stepL1_tidy {q : Data F} {st : St F} (h : Book q st 0) : Tidy q (q.stepL1 st) := by
  unfold Data.stepL1
  simp only
  by_cases h1 : (Arith.abs (q.psi st.x) <=. q.threshold) = true
  · rw [if_pos h1]; simp [Tidy]
  · rw [if_neg h1]
    refine ⟨⟨h.lo, h.hi, h.lt, h.inj, fun i hi => ?_⟩, fun c h1 h2 => ?_, fun c h1 h2 => if_pos h2, .inl ⟨rfl, fun _ => rfl, rfl⟩⟩
    · simp only at hi
      by_cases ha : (List.range st.iq).any (fun k => decide (q.p ≤ k) && decide (st.A k = i)) = true
      · exact any_active.1 ha
      · rw [if_neg ha] at hi; exact h.mark i hi
    · exact if_pos (any_active.2 ⟨c, h1, h2, rfl⟩)

/-- The search returns what it started from or an unmarked inequality with a smaller value. -/
theorem pick_spec (st : St F) : ∀ k, Data.pick st k = (st.ss, st.ip) ∨
    ((Data.pick st k).2 < k ∧ st.iai (Data.pick st k).2 = true ∧ st.iaexcl (Data.pick st k).2 = true) := by
  intro k
  induction k with
  | zero => exact .inl rfl
  | succ k ih =>
    unfold Data.pick
    simp only
    split_ifs with hc
    · exact .inr ⟨Nat.lt_succ_self k, hc.2.1, hc.2.2⟩
    · rcases ih with ih | ⟨h1, h2, h3⟩
      · exact .inl ih
      · exact .inr ⟨by omega, h2, h3⟩

theorem stepL2_tidy {q : Data F} (P : Plain q) {st : St F} (hpc : st.pc = .l2) (h : Tidy q st) : Tidy q (q.stepL2 st) := by
  simp only [Tidy, hpc] at h
  obtain ⟨h, hi, ho, hfa⟩ := h
  have hlo := h.lo
  have hhi := h.hi
  unfold Data.stepL2
  simp only
  by_cases hpos : (c 0 <=. (Data.pick st q.m).1) = true
  · rw [if_pos hpos]; simp [Tidy]
  rw [if_neg hpos]
  have hb : (Data.pick st q.m).2 < q.m ∧ st.iai (Data.pick st q.m).2 = true := by
    rcases pick_spec st q.m with e | ⟨h1, h2, -⟩
    · rcases hfa with f | f
      · rw [e, f.1] at hpos; exact absurd P.refl hpos
      · rw [e]; exact ⟨f.2.2.1, f.2.2.2⟩
    · exact ⟨h1, h2⟩
  have hne : ∀ c, q.p ≤ c → c < st.iq → st.A c ≠ (Data.pick st q.m).2 := by
    intro c h1 h2 h3
    have := hi c h1 h2
    rw [h3, hb.2] at this
    cases this
  have k1 : ∀ c, q.p ≤ c → c < st.iq + 1 → (if c = st.iq then (Data.pick st q.m).2 else st.A c) < q.m := fun c h1 h2 => by
    split_ifs with hc
    · exact hb.1
    · exact h.lt c h1 (by omega)
  have k2 : ∀ c c', q.p ≤ c → c < st.iq + 1 → q.p ≤ c' → c' < st.iq + 1 →
        (if c = st.iq then (Data.pick st q.m).2 else st.A c) = (if c' = st.iq then (Data.pick st q.m).2 else st.A c') → c = c' :=
    fun c c' h1 h2 h1' h2' he => by
      split_ifs at he with hc hc' hc'
      · omega
      · exact absurd he.symm (hne c' h1' (by omega))
      · exact absurd he (hne c h1 (by omega))
      · exact h.inj c c' h1 (by omega) h1' (by omega) he
  have := count_le (q := q) (A := fun c => if c = st.iq then (Data.pick st q.m).2 else st.A c) (k := st.iq + 1) k1 k2
  rw [if_neg (by omega)]
  refine ⟨⟨hlo, hhi, k1, k2, fun i hi' => ?_⟩, ⟨fun c h1 h2 => ?_, fun c c' h1 h2 h3 h4 he => ?_⟩, fun c h1 h2 => ?_, if_pos rfl, by simpa using hpos, hb.1⟩
  · obtain ⟨c', h1, h2, h3⟩ := h.mark i hi'
    exact ⟨c', h1, h2, by simp only; rw [if_neg (by omega), h3]⟩
  · simp only at h2 ⊢; rw [ho c h1 h2]; exact h.lt c h1 (by omega)
  · simp only at h2 h4 he; rw [ho c h1 h2, ho c' h3 h4] at he; exact h.inj c c' h1 (by omega) h3 (by omega) he
  · simp only at h2 ⊢; rw [ho c h1 h2]; exact hne c h1 h2

theorem ratio_some (q : Data F) (u r : Nat → F) : ∀ j t k, q.ratio u r j = some (t, k) → q.p ≤ k ∧ k < q.p + j := by
  intro j
  induction j with
  | zero => intro t k h; cases h
  | succ j ih =>
    intro t k h
    unfold Data.ratio at h
    simp only at h
    split_ifs at h with hc
    · injection h with h; injection h with _ h; omega
    · have := ih t k h; omega

/-- With a step in the primal space there are fewer active constraints than variables. -/
theorem full_lt {q : Data F} (P : Plain q) {st : St F} {t : F} (h : q.full st = some t) : st.iq < q.n := by
  by_contra hge
  have e : q.dir st = fun _ => c 0 := by unfold Data.dir; simp only; rw [if_pos (not_lt.mp hge)]
  unfold Data.full at h
  rw [e, P.zero] at h
  simp at h

/-- A full step: the constraint is added, or there is no room to undo it, or it is excluded. -/
theorem fullStep_tidy {q : Data F} (P : Plain q) {st : St F} (hpc : st.pc = .l2a) (h : Tidy q st) {t2 : F} (hf : q.full st = some t2)
    (hmin : ∀ t k, q.ratio st.u (updateR st.R (computeD q.n st.J fun i => Arith.neg (q.CI st.ip i)) st.iq) (st.iq - q.p) = some (t, k) → (fmin t t2 ==. t2) = true)
    (hr : ¬ (Rejects q st ∧ NoRoom q st)) (t : F) (l : Nat) : Tidy q (q.move st t true l) := by
  have hlt := full_lt P hf
  have hh := h
  simp only [Tidy, hpc] at h
  obtain ⟨h, o, hne, hA0, hs, hm⟩ := h
  have hlo := h.lo
  have hhi := h.hi
  unfold Data.move
  simp only [↓reduceIte]
  by_cases hflag : (addConstraint q.n q.eps st.R st.J (computeD q.n st.J fun i => Arith.neg (q.CI st.ip i)) st.iq st.Rnorm).2.2.2 = true
  · rw [if_pos hflag]
    refine ⟨by simp only; omega, by simp only; omega, fun c h1 h2 => h.lt c h1 (by simpa using h2),
      fun c c' h1 h2 h1' h2' => h.inj c c' h1 (by simpa using h2) h1' (by simpa using h2'), fun i hi => ?_⟩
    simp only at hi ⊢
    by_cases e : i = st.ip
    · exact ⟨st.iq, by omega, by omega, by rw [hA0, e]⟩
    · rw [if_neg e] at hi
      obtain ⟨c', h1, h2, h3⟩ := h.mark i hi
      exact ⟨c', h1, by omega, h3⟩
  · rw [if_neg hflag]
    have hrej : Rejects q st := ⟨hpc, ⟨t2, hf, hmin⟩, by simpa using hflag⟩
    have hno : ¬ NoRoom q st := fun hn => hr ⟨hrej, hn⟩
    unfold NoRoom at hno
    rw [not_or] at hno
    rw [if_neg hno.1]
    have hiq : ∀ a : Act F, a.iq = st.iq + 1 → (deleteConstraint q.p st.ip a).iq = st.iq := fun a ha => by rw [delete_iq, ha]; rfl
    rw [if_neg (by rw [hiq _ rfl]; exact hno.2)]
    have hp0 : q.p = 0 ∨ st.iq = 0 := by
      rcases Nat.eq_zero_or_pos q.p with e | e
      · exact .inl e
      · rcases Nat.eq_zero_or_pos st.iq with e' | e'
        · exact .inr e'
        · exact absurd ⟨e, e'⟩ hno.2
    simp only [Tidy, hiq]
    have hany : ∀ i, (List.range st.iq).any (fun k => decide (st.AOld k = i)) = true ↔ ∃ k, k < st.iq ∧ st.AOld k = i := fun i => by
      simp [List.any_eq_true]
    refine ⟨⟨hlo, hhi, fun c h1 h2 => ?_, fun c c' h1 h2 h3 h4 he => ?_, fun i hi => ?_⟩, fun c h1 h2 => ?_, fun c h1 h2 => ?_,
      .inr ⟨?_, hs, hm, ?_⟩⟩
    · simp only at h2 ⊢; rw [if_pos (by omega)]; exact o.lt c h1 (by omega)
    · simp only at h2 h4 he; rw [if_pos (by omega), if_pos (by omega)] at he; exact o.inj c c' h1 (by omega) h3 (by omega) he
    · simp only at hi ⊢
      by_cases him : i < q.m
      · rw [if_pos him] at hi
        obtain ⟨k, k1, k2⟩ := (hany i).1 (by simpa using hi)
        exact ⟨k, by omega, k1, by rw [if_pos k1]; exact k2⟩
      · rw [if_neg him] at hi
        obtain ⟨c', h1, h2, h3⟩ := h.mark i hi
        exact absurd (h3 ▸ h.lt c' h1 (by omega)) him
    · rw [if_pos h2, if_pos (o.lt c h1 h2), (hany _).2 ⟨c, h2, rfl⟩]; rfl
    · rw [if_pos h2]
    · intro e
      have : (c 0 <=. st.ss) = false := hs
      rw [show st.ss = c 0 from e, P.refl] at this
      cases this
    · simp only
      rw [if_pos hm]
      have : ¬ (List.range st.iq).any (fun k => decide (st.AOld k = st.ip)) = true := fun ha => by
        obtain ⟨k, k1, k2⟩ := (hany _).1 ha
        exact hne k (by omega) k1 k2
      simpa using this

theorem stepL2a_tidy {q : Data F} (P : Plain q) {st : St F} (hpc : st.pc = .l2a) (h : Tidy q st) (hr : ¬ (Rejects q st ∧ NoRoom q st)) :
    Tidy q (q.stepL2a st) := by
  unfold Data.stepL2a
  simp only
  cases ht1 : q.ratio st.u (updateR st.R (computeD q.n st.J fun i => Arith.neg (q.CI st.ip i)) st.iq) (st.iq - q.p) with
  | none =>
    cases hf : q.full st with
    | none => simp [Tidy]
    | some t2 =>
      simp only
      by_cases hb : q.below t2 = true
      · rw [if_pos hb, P.below t2 hb]
        exact fullStep_tidy P hpc h hf (fun t k e => by rw [ht1] at e; cases e) hr t2 0
      · rw [if_neg hb]; simp [Tidy]
  | some tk =>
    obtain ⟨t, k⟩ := tk
    obtain ⟨k1, k2⟩ := ratio_some q _ _ _ _ _ ht1
    have hk : k < st.iq := by omega
    cases hf : q.full st with
    | none => exact drop_tidy h hpc k1 hk rfl rfl rfl rfl rfl rfl rfl
    | some t2 =>
      simp only
      cases hmin : fmin t t2 ==. t2 with
      | true =>
        refine fullStep_tidy P hpc h hf (fun t' k' e => ?_) hr _ _
        rw [ht1] at e
        injection e with e
        injection e with e _
        rw [← e]; exact hmin
      | false =>
        exact drop_tidy h hpc k1 hk rfl rfl rfl rfl rfl rfl rfl

theorem step_tidy {q : Data F} (P : Plain q) {st : St F} (h : Tidy q st) (hr : ¬ (Rejects q st ∧ NoRoom q st)) : Tidy q (q.step st) := by
  cases hpc : st.pc with
  | l1 =>
    have e : q.step st = q.stepL1 st := by unfold Data.step; rw [hpc]
    simp only [Tidy, hpc] at h
    rw [e]; exact stepL1_tidy h
  | l2 =>
    have e : q.step st = q.stepL2 st := by unfold Data.step; rw [hpc]
    rw [e]; exact stepL2_tidy P hpc h
  | l2a =>
    have e : q.step st = q.stepL2a st := by unfold Data.step; rw [hpc]
    rw [e]; exact stepL2a_tidy P hpc h hr
  | ret v =>
    have e : q.step st = st := by unfold Data.step; rw [hpc]
    rw [e]; exact h
  | ub =>
    simp only [Tidy, hpc] at h

theorem eqPhase_stop (q : Data F) {st : St F} (h : st.pc ≠ .l1) : ∀ fuel i, q.eqPhase fuel i st = st := by
  intro fuel i
  cases fuel with
  | zero => rfl
  | succ fuel =>
    unfold Data.eqPhase
    cases hp : st.pc with
    | l1 => exact absurd hp h
    | _ => rfl

theorem eqPhase_add (q : Data F) : ∀ a b i st, q.eqPhase (a + b) i st = q.eqPhase b (i + a) (q.eqPhase a i st) := by
  intro a
  induction a with
  | zero => intro b i st; rw [Nat.zero_add]; rfl
  | succ a ih =>
    intro b i st
    rw [show a + 1 + b = (a + b) + 1 from by omega]
    by_cases hp : st.pc = .l1
    · have e : ∀ fuel, q.eqPhase (fuel + 1) i st = q.eqPhase fuel (i + 1) (q.eqStep i st) := fun fuel => by
        conv_lhs => unfold Data.eqPhase
        simp only [hp]
      rw [e, e, ih, show i + 1 + a = i + (a + 1) from by omega]
    · rw [eqPhase_stop q hp, eqPhase_stop q hp, eqPhase_stop q hp]

/-- After `i` equalities: either the phase ended early, or `i` constraints are in the working set. -/
theorem eqPhase_count (q : Data F) : ∀ i ≤ q.n,
    ((q.eqPhase i 0 q.start).pc = .l1 ∧ (q.eqPhase i 0 q.start).iq = i ∧ (q.eqPhase i 0 q.start).iai = fun _ => true) ∨
      ∃ v, (q.eqPhase i 0 q.start).pc = .ret (some v) := by
  intro i
  induction i with
  | zero => intro _; exact .inl ⟨rfl, rfl, rfl⟩
  | succ i ih =>
    intro hi
    rw [eqPhase_add]
    rcases ih (by omega) with ⟨h1, h2, h3⟩ | ⟨v, h⟩
    · generalize q.eqPhase i 0 q.start = st at *
      have e : q.eqPhase 1 (0 + i) st = q.eqStep (0 + i) st := by
        unfold Data.eqPhase
        simp only [h1, Data.eqPhase]
      rw [e]
      unfold Data.eqStep
      simp only
      rw [if_neg (by omega)]
      by_cases hf : (addConstraint q.n q.eps st.R st.J (computeD q.n st.J (q.CE (0 + i))) st.iq st.Rnorm).2.2.2 = true
      · rw [if_pos hf]; exact .inl ⟨h1, by simp only; omega, h3⟩
      · rw [if_neg hf]; exact .inr ⟨_, rfl⟩
    · rw [eqPhase_stop q (by rw [h]; simp)]; exact .inr ⟨v, h⟩

theorem init_tidy {q : Data F} (hpn : q.p ≤ q.n) : Tidy q q.init := by
  unfold Data.init
  rcases eqPhase_count q q.p hpn with ⟨h1, h2, h3⟩ | ⟨v, h⟩
  · unfold Tidy
    rw [h1]
    exact ⟨by omega, by omega, fun c h1 h4 => by omega, fun c c' h1 h4 => by omega, fun i hi => by rw [h3] at hi; cases hi⟩
  · unfold Tidy; rw [h]; trivial

theorem run_succ (q : Data F) (k : Nat) : q.run (k + 1) = q.step (q.run k) := Function.iterate_succ_apply' _ _ _

theorem run_tidy {q : Data F} (P : Plain q) (hpn : q.p ≤ q.n) (k : Nat) (hr : ∀ j < k, ¬ (Rejects q (q.run j) ∧ NoRoom q (q.run j))) : Tidy q (q.run k) := by
  induction k with
  | zero => exact init_tidy hpn
  | succ k ih =>
    rw [run_succ]
    exact step_tidy P (ih fun j hj => hr j (by omega)) (hr k (by omega))

/-! ### C278: memory safety -/

/-- C278, what holds: in machine arithmetic, with at most as many equalities as variables and whatever numbers (or NaNs) the data and the factorisation contain, an array is
accessed out of range only after a constraint was rejected as degenerate when the arrays of the active set were full or there were equalities; and the active set never has
more entries than there are variables or constraints. -/
theorem C278_memory_partial {q : Data F} (P : Plain q) (hpn : q.p ≤ q.n) (k : Nat) :
    ((q.run k).pc = .ub → ∃ j < k, Rejects q (q.run j) ∧ NoRoom q (q.run j)) ∧
    ((∀ j < k, ¬ (Rejects q (q.run j) ∧ NoRoom q (q.run j))) → (∀ v, (q.run k).pc ≠ .ret v) → (q.run k).iq ≤ q.n ∧ (q.run k).iq ≤ q.p + q.m) := by
  refine ⟨fun hu => ?_, fun hr hv => ?_⟩
  · by_contra hn
    have := run_tidy P hpn k (fun j hj hh => hn ⟨j, hj, hh⟩)
    unfold Tidy at this
    rw [hu] at this
    exact this
  · have key := run_tidy P hpn k hr
    generalize q.run k = st at *
    cases hpc : st.pc with
    | l1 => simp only [Tidy, hpc] at key; exact ⟨key.hi, by simpa using key.room⟩
    | l2 => simp only [Tidy, hpc] at key; exact ⟨key.1.hi, by simpa using key.1.room⟩
    | l2a => simp only [Tidy, hpc] at key; exact ⟨key.1.hi, by have := key.1.room; omega⟩
    | ret v => exact absurd hpc (hv v)
    | ub => simp only [Tidy, hpc] at key

/-- C278 is false otherwise: a rejection without room accesses an array out of range. -/
theorem C278_memory_violated {q : Data F} (hbt : ∀ t : F, q.below t = true → (t ==. t) = true) (k : Nat) (hr : Rejects q (q.run k)) (hn : NoRoom q (q.run k))
    (hb : q.ratio (q.run k).u (updateR (q.run k).R (computeD q.n (q.run k).J fun i => Arith.neg (q.CI (q.run k).ip i)) (q.run k).iq) ((q.run k).iq - q.p) = none →
      ∀ t2, q.full (q.run k) = some t2 → q.below t2 = true) : ∀ j > k, (q.run j).pc = .ub := by
  have h1 : (q.run (k + 1)).pc = .ub := by
    rw [run_succ]
    generalize q.run k = st at *
    obtain ⟨hpc, ⟨t2, hf, hmin⟩, hflag⟩ := hr
    have hm : ∀ t l, (q.move st t true l).pc = .ub := fun t l => by
      unfold Data.move
      simp only [↓reduceIte]
      rw [if_neg (by rw [hflag]; simp)]
      rcases hn with hn | hn
      · rw [if_pos hn]
      · by_cases h0 : q.p + q.m ≤ st.iq + 1
        · rw [if_pos h0]
        · rw [if_neg h0, if_pos (by rw [delete_iq]; exact hn)]
    have e : q.step st = q.stepL2a st := by unfold Data.step; rw [hpc]
    rw [e]
    unfold Data.stepL2a
    simp only
    cases ht1 : q.ratio st.u (updateR st.R (computeD q.n st.J fun i => Arith.neg (q.CI st.ip i)) st.iq) (st.iq - q.p) with
    | none =>
      rw [hf]
      simp only
      rw [if_pos (hb ht1 t2 hf), hbt t2 (hb ht1 t2 hf)]
      exact hm _ _
    | some tk =>
      obtain ⟨t, l⟩ := tk
      rw [hf]
      simp only
      rw [hmin t l ht1]
      exact hm _ _
  intro j hj
  obtain ⟨d, rfl⟩ : ∃ d, j = k + 1 + d := ⟨j - (k + 1), by omega⟩
  clear hj
  induction d with
  | zero => exact h1
  | succ d ih =>
    rw [← Nat.add_assoc, run_succ]
    unfold Data.step
    rw [ih]
    exact ih

/-! ### C279: NaNs pass for a solution -/

/-- A product with a NaN in it is a NaN. -/
theorem dot_nan (I : Ieee F) {n : Nat} (a b : Nat → F) {i : Nat} (hi : i < n) (h : ¬ Num (b i)) : ¬ Num (dot n a b) := by
  unfold dot
  have : ∀ k, i < k → ¬ Num (sum 0 (fun i => a i *. b i) k) := by
    intro k
    induction k with
    | zero => intro h; omega
    | succ k ih =>
      intro hk hn
      unfold sum at hn
      obtain ⟨h1, h2⟩ := I.add_num _ _ hn
      rcases Nat.lt_succ_iff_lt_or_eq.mp hk with hlt | rfl
      · exact ih hlt h1
      · rw [Nat.zero_add] at h2; exact h (I.mul_num _ _ h2).2
  exact this n hi

/-- Once a coordinate of the unconstrained minimum is NaN so are the point and the value after the equalities. -/
theorem eqPhase_nan (I : Ieee F) {q : Data F} {i : Nat} (hi : i < q.n) (h : ¬ Num (q.x0 i)) : ∀ k,
    ¬ Num ((q.eqPhase k 0 q.start).x i) ∧ ¬ Num (q.eqPhase k 0 q.start).f := by
  intro k
  induction k with
  | zero =>
    have hx : ¬ Num (q.start.x i) := fun hn => h (I.neg_num _ hn)
    exact ⟨hx, fun hn => dot_nan I _ _ hi hx (I.mul_num _ _ hn).2⟩
  | succ k ih =>
    rw [eqPhase_add]
    generalize q.eqPhase k 0 q.start = st at *
    by_cases hpc : st.pc = .l1
    · have e : q.eqPhase 1 (0 + k) st = q.eqStep (0 + k) st := by
        unfold Data.eqPhase
        simp only [hpc, Data.eqPhase]
      rw [e]
      unfold Data.eqStep
      simp only
      by_cases h1 : q.n ≤ st.iq
      · rw [if_pos h1]; exact ih
      rw [if_neg h1]
      by_cases h2 : (addConstraint q.n q.eps st.R st.J (computeD q.n st.J (q.CE (0 + k))) st.iq st.Rnorm).2.2.2 = true
      · rw [if_pos h2]; exact ⟨fun hn => ih.1 (I.add_num _ _ hn).1, fun hn => ih.2 (I.add_num _ _ hn).1⟩
      · rw [if_neg h2]; exact ⟨fun hn => ih.1 (I.add_num _ _ hn).1, fun hn => ih.2 (I.add_num _ _ hn).1⟩
    · rw [eqPhase_stop q hpc]; exact ih

/-- A search among slacks that are all NaN finds nothing. -/
theorem pick_nan (I : Ieee F) {st : St F} (h : ∀ k, ¬ Num (st.s k)) : ∀ k, Data.pick st k = (st.ss, st.ip) := by
  intro k
  induction k with
  | zero => rfl
  | succ k ih =>
    unfold Data.pick
    simp only
    rw [if_neg (by rw [ih, IPF.not_lt I (.inl (h k))]; simp), ih]

/-- C279 (violation): if the factorisation delivers a NaN in any coordinate (as it does for a NaN in the gradient), the solver, whatever the constraints, returns at once,
with a NaN in that coordinate of the solution and a NaN as value, which `isOptimized()` takes for success because a NaN is not infinity. -/
theorem C279_nan_success (I : Ieee F) {q : Data F} (P : Plain q) (hpn : q.p ≤ q.n) {i : Nat} (hi : i < q.n) (h : ¬ Num (q.x0 i)) (isInf : F → Bool)
    (hinf : ∀ v, isInf v = true → Num v) :
    ∃ k ≤ 2, ∃ v, (q.run k).pc = .ret (some v) ∧ ¬ Num v ∧ ¬ Num ((q.run k).x i) ∧ Data.optimized isInf (some v) = true := by
  have hopt : ∀ v, ¬ Num v → Data.optimized isInf (some v) = true := fun v hv => by
    unfold Data.optimized
    cases hq : isInf v with
    | true => exact absurd (hinf v hq) hv
    | false => simp [hq]
  obtain ⟨hx, hf⟩ := eqPhase_nan I hi h q.p
  have hret : ∀ v, (q.eqPhase q.p 0 q.start).pc = .ret (some v) → v = (q.eqPhase q.p 0 q.start).f := by
    have : ∀ k v, (q.eqPhase k 0 q.start).pc = .ret (some v) → v = (q.eqPhase k 0 q.start).f := by
      intro k
      induction k with
      | zero => intro v hv; cases hv
      | succ k ih =>
        intro v hv
        rw [eqPhase_add] at hv ⊢
        generalize q.eqPhase k 0 q.start = st at *
        by_cases hpc : st.pc = .l1
        · have e : q.eqPhase 1 (0 + k) st = q.eqStep (0 + k) st := by
            unfold Data.eqPhase
            simp only [hpc, Data.eqPhase]
          rw [e] at hv ⊢
          unfold Data.eqStep at hv ⊢
          simp only at hv ⊢
          by_cases h1 : q.n ≤ st.iq
          · rw [if_pos h1] at hv; cases hv
          rw [if_neg h1] at hv ⊢
          by_cases h2 : (addConstraint q.n q.eps st.R st.J (computeD q.n st.J (q.CE (0 + k))) st.iq st.Rnorm).2.2.2 = true
          · rw [if_pos h2] at hv; exact absurd (hpc.symm.trans hv) (by simp)
          · rw [if_neg h2] at hv ⊢; injection hv with hv; injection hv with hv; exact hv.symm
        · rw [eqPhase_stop q hpc] at hv ⊢; exact ih v hv
    exact this q.p
  have e0 : q.run 0 = q.eqPhase q.p 0 q.start := rfl
  have hslack : ∀ j, ¬ Num (q.slack (q.run 0).x j) := fun j hn =>
    dot_nan I (q.CI j) _ hi (e0 ▸ hx) (I.add_num _ _ (I.neg_num _ hn)).1
  rcases eqPhase_count q q.p hpn with ⟨h1, -, -⟩ | ⟨v, hv⟩
  · rw [← e0] at h1 hx hf
    have e1 : q.run 1 = q.stepL1 (q.run 0) := by
      rw [run_succ]; unfold Data.step; rw [h1]
    by_cases ht : (Arith.abs (q.psi (q.run 0).x) <=. q.threshold) = true
    · refine ⟨1, by omega, (q.run 0).f, ?_, hf, ?_, hopt _ hf⟩
      · rw [e1]; unfold Data.stepL1; simp only; rw [if_pos ht]
      · rw [e1]; unfold Data.stepL1; simp only; rw [if_pos ht]; exact hx
    · have hs : (q.run 1).pc = .l2 ∧ (q.run 1).s = q.slack (q.run 0).x ∧ (q.run 1).ss = c 0 ∧ (q.run 1).f = (q.run 0).f ∧ (q.run 1).x = (q.run 0).x := by
        rw [e1]; unfold Data.stepL1; simp only; rw [if_neg ht]; exact ⟨rfl, rfl, rfl, rfl, rfl⟩
      obtain ⟨p1, p2, p3, p4, p5⟩ := hs
      have e2 : q.run 2 = q.stepL2 (q.run 1) := by
        rw [run_succ]; unfold Data.step; rw [p1]
      have hp := pick_nan I (st := q.run 1) (fun k => by rw [p2]; exact hslack k) q.m
      have hc : (c 0 <=. (Data.pick (q.run 1) q.m).1) = true := by rw [hp, p3]; exact P.refl
      refine ⟨2, le_rfl, (q.run 0).f, ?_, hf, ?_, hopt _ hf⟩
      · rw [e2]; unfold Data.stepL2; simp only; rw [if_pos hc, p4]
      · rw [e2]; unfold Data.stepL2; simp only; rw [if_pos hc, p5]; exact hx
  · have := hret v hv
    rw [← e0] at hv this hx hf
    exact ⟨0, by omega, v, hv, by rw [this]; exact hf, hx, hopt _ (by rw [this]; exact hf)⟩

/-! ### C280: what a returned value guarantees -/

/-- Laws of the absolute value and of sums of nonpositive numbers. -/
structure AbsLaws (F : Type) [Arith F] : Prop where
  abs_num : ∀ a : F, Num (Arith.abs a) → Num a
  abs_mono : ∀ a b : F, (a <=. b) = true → (b <=. c 0) = true → (Arith.abs b <=. Arith.abs a) = true
  add_neg_left : ∀ a b : F, (a <=. c 0) = true → Num (a +. b) → (a +. b <=. b) = true

/-- `min(0, s)` is at most zero. -/
theorem fmin_zero (I : Ieee F) (s : F) : (fmin (c 0) s <=. c 0) = true := by
  unfold fmin
  split
  · rename_i h; exact I.lt_le _ _ h
  · exact I.lit_mono 0 0 le_rfl

/-- The sum of the infeasibilities is at most each of them. -/
theorem psi_le (I : Ieee F) (L : AbsLaws F) (s : Nat → F) : ∀ k, Num (sum 0 (fun i => fmin (c 0) (s i)) k) →
    (sum 0 (fun i => fmin (c 0) (s i)) k <=. c 0) = true ∧ ∀ i < k, (sum 0 (fun i => fmin (c 0) (s i)) k <=. fmin (c 0) (s i)) = true := by
  intro k
  induction k with
  | zero => intro _; exact ⟨I.lit_mono 0 0 le_rfl, fun i hi => by omega⟩
  | succ k ih =>
    intro hn
    unfold sum at hn ⊢
    rw [Nat.zero_add] at hn ⊢
    obtain ⟨h1, h2⟩ := ih (I.add_num _ _ hn).1
    have h3 := I.add_neg _ _ (fmin_zero I (s k)) hn
    refine ⟨I.le_trans _ _ _ h3 h1, fun i hi => ?_⟩
    rcases Nat.lt_succ_iff_lt_or_eq.mp hi with hlt | rfl
    · exact I.le_trans _ _ _ h3 (h2 i hlt)
    · exact L.add_neg_left _ _ h1 hn

/-- The search never gets above what it started from, nor above an eligible slack. -/
theorem pick_le (I : Ieee F) {st : St F} (h : Num st.ss) : ∀ k, ((Data.pick st k).1 <=. st.ss) = true ∧
    ∀ i < k, st.iai i = true → st.iaexcl i = true → Num (st.s i) → ((Data.pick st k).1 <=. st.s i) = true := by
  intro k
  induction k with
  | zero => exact ⟨h, fun i hi => by omega⟩
  | succ k ih =>
    obtain ⟨h1, h2⟩ := ih
    unfold Data.pick
    simp only
    by_cases hc : (st.s k <. (Data.pick st k).1) = true ∧ st.iai k = true ∧ st.iaexcl k = true
    · rw [if_pos hc]
      have hl := I.lt_le _ _ hc.1
      refine ⟨I.le_trans _ _ _ hl h1, fun i hi a b d => ?_⟩
      rcases Nat.lt_succ_iff_lt_or_eq.mp hi with hlt | rfl
      · exact I.le_trans _ _ _ hl (h2 i hlt a b d)
      · exact (I.le_num _ _ hl).1
    · rw [if_neg hc]
      refine ⟨h1, fun i hi a b d => ?_⟩
      rcases Nat.lt_succ_iff_lt_or_eq.mp hi with hlt | rfl
      · exact h2 i hlt a b d
      · rcases I.lt_or_le _ _ d (I.le_num _ _ h1).1 with h' | h'
        · exact absurd ⟨h', a, b⟩ hc
        · exact h'

/-- C280, what holds: when the solver returns a value after the equalities were added, then in machine arithmetic each inequality whose computed slack at the returned point is
negative is within the tolerance, or all of them belong to active constraints. -/
theorem C280_accept_partial (I : Ieee F) (L : AbsLaws F) {q : Data F} (P : Plain q) (hpn : q.p ≤ q.n) (k : Nat) (hnr : ∀ v, (q.run k).pc ≠ .ret v) {v : F}
    (h : (q.run (k + 1)).pc = .ret (some v)) (hr : ∀ j < k, ¬ (Rejects q (q.run j) ∧ NoRoom q (q.run j))) :
    v = (q.run (k + 1)).f ∧
    ((∀ i < q.m, (q.slack (q.run (k + 1)).x i <. c 0) = true → (Arith.abs (q.slack (q.run (k + 1)).x i) <=. q.threshold) = true) ∨
     (∀ i < q.m, (q.slack (q.run (k + 1)).x i <. c 0) = true → ∃ c, q.p ≤ c ∧ c < (q.run (k + 1)).iq ∧ (q.run (k + 1)).A c = i)) := by
  have key := run_tidy P hpn k hr
  rw [run_succ] at h ⊢
  generalize q.run k = st at *
  unfold Data.step at h ⊢
  cases hpc : st.pc with
  | l1 =>
    simp only [hpc] at h ⊢
    unfold Data.stepL1 at h ⊢
    simp only at h ⊢
    by_cases ht : (Arith.abs (q.psi st.x) <=. q.threshold) = true
    · rw [if_pos ht] at h ⊢
      refine ⟨by injection h with h; injection h with h; exact h.symm, .inl fun i hi hs => ?_⟩
      simp only at hs ⊢
      have hn := L.abs_num _ (I.le_num _ _ ht).1
      obtain ⟨h1, h2⟩ := psi_le I L (q.slack st.x) q.m hn
      have e : fmin (c 0) (q.slack st.x i) = q.slack st.x i := by unfold fmin; rw [if_pos hs]
      have h3 := h2 i hi
      rw [e] at h3
      exact I.le_trans _ _ _ (L.abs_mono _ _ h3 (I.lt_le _ _ hs)) ht
    · rw [if_neg ht] at h; cases h
  | l2 =>
    simp only [hpc] at h ⊢
    simp only [Tidy, hpc] at key
    obtain ⟨hb, -, -, hfa⟩ := key
    unfold Data.stepL2 at h ⊢
    simp only at h ⊢
    by_cases ht : (c 0 <=. (Data.pick st q.m).1) = true
    · rw [if_pos ht] at h ⊢
      refine ⟨by injection h with h; injection h with h; exact h.symm, .inr fun i hi hs => ?_⟩
      simp only at hs ⊢
      rcases hfa with ⟨f1, f2, f3⟩ | ⟨-, f2, -⟩
      · cases ha : st.iai i with
        | false => exact hb.mark i ha
        | true =>
          exfalso
          have hle := (pick_le I (st := st) (by rw [f1]; exact P.refl) q.m).2 i hi ha (f2 i) (by rw [f3]; exact (I.lt_num _ _ hs).1)
          rw [f3] at hle
          have := I.le_not_lt _ _ (I.le_trans _ _ _ ht hle)
          rw [this] at hs; cases hs
      · exfalso
        rcases pick_spec st q.m with e | -
        · rw [e, f2] at ht; cases ht
        · by_cases hn : Num st.ss
          · have := I.le_trans _ _ _ ht (pick_le I (st := st) hn q.m).1
            rw [f2] at this; cases this
          · have : ∀ k, Data.pick st k = (st.ss, st.ip) := by
              intro k
              induction k with
              | zero => rfl
              | succ k ih => unfold Data.pick; simp only; rw [if_neg (by rw [ih, IPF.not_lt I (.inr hn)]; simp), ih]
            rw [this, f2] at ht; cases ht
    · rw [if_neg ht] at h
      split_ifs at h
  | l2a =>
    exfalso
    simp only [hpc] at h
    unfold Data.stepL2a at h
    simp only at h
    have hm : ∀ t b l, (q.move st t b l).pc ≠ .ret (some v) := fun t b l hh => by
      unfold Data.move at hh
      simp only at hh
      split_ifs at hh
    split at h
    · cases h
    · cases h
    · split at h
      · exact hm _ _ _ h
      · cases h
    · exact hm _ _ _ h
  | ret w => exact absurd hpc (hnr w)
  | ub => simp only [hpc] at h; cases h

end RtQPF
end Verif
