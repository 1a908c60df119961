/-
Termination of the dual active-set QP solver.
-/
import Verif.RtQPEq
import Mathlib.Data.Finset.Powerset

namespace Verif
namespace RtQP

/-- The active inequalities. -/
def actSet (q : Data) (A : Nat → Nat) (iq : Nat) : Finset Nat := (Finset.Ico q.p iq).image A

theorem Core.le_of_actSet {q : Data} (hv : q.Valid) {x u x' u' : Nat → ℝ} {J R J' R' : Nat → Nat → ℝ}
    {A A' : Nat → Nat} {iq iq' : Nat} (h : Core q x u J R A iq 0) (h' : Core q x' u' J' R' A' iq' 0)
    (hs : actSet q A iq = actSet q A' iq') : q.objective x ≤ q.objective x' := by
  have e : q.objective x' = q.objective (fun i => x i + 1 * (x' i - x i)) := by
    congr 1; funext i; ring
  rw [e, objective_add hv]
  have h1 := quad_nonneg hv (fun i => x' i - x i)
  have h2 : dot q.n (fun i => x' i - x i) (grad q x) = 0 := by
    rw [dot_congr (fun _ _ => rfl) h.stat, dot_sum]
    apply Finset.sum_eq_zero
    intro c hc
    have hc : c < iq := by simpa using hc
    have e2 : dot q.n (nrm q A c) (fun i => x' i - x i) = dot q.n (nrm q A c) x' - off q A c := by
      rw [← h.act c hc]
      simp only [dot, mul_sub, Finset.sum_sub_distrib]
    have e3 : dot q.n (nrm q A c) x' = off q A c := by
      by_cases hcp : c < q.p
      · have := h'.act c (by have := h'.le; omega)
        unfold nrm off at this ⊢
        rw [if_pos hcp, if_pos hcp] at this ⊢
        exact this
      · have hm : A c ∈ actSet q A' iq' := by
          rw [← hs]
          exact Finset.mem_image.2 ⟨c, Finset.mem_Ico.2 ⟨by omega, hc⟩, rfl⟩
        obtain ⟨c', hc', hA⟩ := Finset.mem_image.1 hm
        have hc' := Finset.mem_Ico.1 hc'
        have := h'.act c' hc'.2
        unfold nrm off at this ⊢
        rw [if_neg (by omega), if_neg (by omega), hA] at this
        rw [if_neg (by omega), if_neg (by omega)]
        exact this
    rw [e2, e3, sub_self, mul_zero]
  rw [h2]
  nlinarith

open Classical in
/-- The objective at an `l1` state with a given active set. -/
noncomputable def valOf (q : Data) (S : Finset Nat) : ℝ :=
  if h : ∃ st : St, Inv q st 0 ∧ actSet q st.A st.iq = S then q.objective h.choose.x / 2 else 0

theorem valOf_eq {q : Data} (hv : q.Valid) {st : St} (h : Inv q st 0) : valOf q (actSet q st.A st.iq) = st.f := by
  have hex : ∃ st' : St, Inv q st' 0 ∧ actSet q st'.A st'.iq = actSet q st.A st.iq := ⟨st, h, rfl⟩
  unfold valOf
  rw [dif_pos hex, h.fval]
  obtain ⟨h1, h2⟩ := hex.choose_spec
  have := Core.le_of_actSet hv h1.core h.core h2
  have := Core.le_of_actSet hv h.core h1.core h2.symm
  linarith

theorem actSet_mem {q : Data} {st : St} (h : Inv q st 0) : actSet q st.A st.iq ∈ (Finset.range q.m).powerset := by
  rw [Finset.mem_powerset]
  intro i hi
  obtain ⟨c, hc, rfl⟩ := Finset.mem_image.1 hi
  have := Finset.mem_Ico.1 hc
  exact Finset.mem_range.2 (h.core.lt c this.1 (by omega))

theorem reach_l1 {q : Data} (hv : q.Valid) : ∀ (iq : Nat) (st : St), st.iq = iq → st.pc = .l2a → Inv2a q st →
    (∀ k, Decisive q (q.step^[k] st)) → ∃ k, (q.step^[k] st).pc = .ret none ∨
      ((q.step^[k] st).pc = .l1 ∧ Inv q (q.step^[k] st) 0 ∧ st.f < (q.step^[k] st).f) := by
  intro iq
  induction iq with
  | zero =>
    intro st h1 h2 h3 h4
    have e : q.step st = q.stepL2a st := by unfold Data.step; rw [h2]
    refine ⟨1, ?_⟩
    rw [Function.iterate_one, e]
    rcases stepL2a_good hv h2 h3 (h4 0) with ⟨a, b⟩ | ⟨a, b, c, -⟩ | ⟨a, b, c⟩
    · exact Or.inl a
    · omega
    · exact Or.inr ⟨a, b, c⟩
  | succ iq ih =>
    intro st h1 h2 h3 h4
    have e : q.step st = q.stepL2a st := by unfold Data.step; rw [h2]
    rcases stepL2a_good hv h2 h3 (h4 0) with ⟨a, b⟩ | ⟨a, b, c, d⟩ | ⟨a, b, c⟩
    · exact ⟨1, Or.inl (by rw [Function.iterate_one, e]; exact a)⟩
    · obtain ⟨k, hk⟩ := ih (q.stepL2a st) (by omega) a b (fun k => by
        have := h4 (k + 1)
        rwa [Function.iterate_succ_apply, e] at this)
      refine ⟨k + 1, ?_⟩
      rw [Function.iterate_succ_apply, e]
      rcases hk with hk | ⟨k1, k2, k3⟩
      · exact Or.inl hk
      · exact Or.inr ⟨k1, k2, lt_of_le_of_lt d k3⟩
    · exact ⟨1, Or.inr (by rw [Function.iterate_one, e]; exact ⟨a, b, c⟩)⟩

open Classical in
theorem terminates_from {q : Data} (hv : q.Valid) : ∀ (N : Nat) (st : St),
    ((Finset.range q.m).powerset.filter (fun S => st.f < valOf q S)).card = N → st.pc = .l1 → Inv q st 0 →
    (∀ k, Decisive q (q.step^[k] st)) → ∃ k v, (q.step^[k] st).pc = .ret v := by
  intro N
  induction N using Nat.strong_induction_on with
  | _ N ih =>
    intro st hN hpc hinv hd
    have e1 : q.step st = q.stepL1 st := by unfold Data.step; rw [hpc]
    have g1 := stepL1_good hinv
    have f1 : (q.stepL1 st).f = st.f := by unfold Data.stepL1; simp only; split_ifs <;> rfl
    have p1 : (∃ v, (q.stepL1 st).pc = .ret v) ∨ (q.stepL1 st).pc = .l2 := by
      unfold Data.stepL1; simp only; split_ifs <;> simp
    rcases p1 with ⟨v, p1⟩ | p1
    · exact ⟨1, v, by rw [Function.iterate_one, e1]; exact p1⟩
    have i2 : Inv2 q (q.stepL1 st) := by simpa [Good, p1] using g1
    have g2 := stepL2_good hv i2
    generalize hs1 : q.stepL1 st = st1 at *
    have e2 : q.step st1 = q.stepL2 st1 := by unfold Data.step; rw [p1]
    have f2 : (q.stepL2 st1).f = st1.f := by unfold Data.stepL2; simp only; split_ifs <;> rfl
    have p2 : (∃ v, (q.stepL2 st1).pc = .ret v) ∨ (q.stepL2 st1).pc = .l2a := by
      have : (q.stepL2 st1).pc ≠ .ub := by
        intro h
        simp [Good, h] at g2
      revert this
      unfold Data.stepL2; simp only; split_ifs <;> simp
    rcases p2 with ⟨v, p2⟩ | p2
    · exact ⟨2, v, by
        rw [Function.iterate_succ_apply, Function.iterate_one, e1, e2]; exact p2⟩
    have i3 : Inv2a q (q.stepL2 st1) := by simpa [Good, p2] using g2
    generalize hs2 : q.stepL2 st1 = st2 at *
    have it : ∀ k, q.step^[k + 2] st = q.step^[k] st2 := by
      intro k
      rw [Function.iterate_add_apply, Function.iterate_succ_apply, Function.iterate_one, e1, e2]
    obtain ⟨k, hk⟩ := reach_l1 hv _ st2 rfl p2 i3 (fun k => by rw [← it]; exact hd _)
    rcases hk with hk | ⟨k1, k2, k3⟩
    · exact ⟨k + 2, none, by rw [it]; exact hk⟩
    · rw [f2, f1] at k3
      have hlt : ((Finset.range q.m).powerset.filter (fun S => (q.step^[k] st2).f < valOf q S)).card < N := by
        rw [← hN]
        apply Finset.card_lt_card
        refine (Finset.ssubset_iff_of_subset ?_).2 ?_
        · intro S hS
          rw [Finset.mem_filter] at hS ⊢
          exact ⟨hS.1, k3.trans hS.2⟩
        · refine ⟨actSet q (q.step^[k] st2).A (q.step^[k] st2).iq, ?_, ?_⟩
          · rw [Finset.mem_filter, valOf_eq hv k2]
            exact ⟨actSet_mem k2, k3⟩
          · rw [Finset.mem_filter, valOf_eq hv k2]
            exact fun h => lt_irrefl _ h.2
      obtain ⟨j, v, hj⟩ := ih _ hlt (q.step^[k] st2) rfl k1 k2 (fun j => by
        rw [← Function.iterate_add_apply, ← it]; exact hd _)
      refine ⟨j + k + 2, v, ?_⟩
      rw [it, Function.iterate_add_apply]
      exact hj

theorem terminates {q : Data} (hv : q.Valid) (hd : Regular q) : ∃ k v, (q.run k).pc = .ret v := by
  have h1 := (eqPhase_inv hv hd.1 q.p le_rfl).1.pc
  have h2 := init_good hv hd.1
  change q.init.pc = .l1 at h1
  exact terminates_from hv _ q.init rfl h1 (by simpa [Good, h1] using h2) hd.2

end RtQP
end Verif
