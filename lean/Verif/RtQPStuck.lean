/-
A rejected constraint makes the dual active-set QP solver loop: after the roll-back
(RtQPSolver.hpp:486-499) the search at `l2` starts from the old `ss`, `ip` and finds the same constraint.
-/
import Verif.RtQPEq

namespace Verif
namespace RtQP

theorem backSolve_congr {R R' : Nat → Nat → ℝ} {d d' : Nat → ℝ} {iq : Nat}
    (hR : ∀ k < iq, ∀ c < iq, R' k c = R k c) (hd : ∀ k < iq, d' k = d k) :
    ∀ t ≤ iq, ∀ i, backSolve R' d' iq t i = backSolve R d iq t i := by
  intro t
  induction t with
  | zero => intro _ i; rfl
  | succ t ih =>
    intro ht i
    have ih := ih (by omega)
    unfold backSolve
    simp only
    by_cases hi : i = iq - 1 - t
    · rw [if_pos hi, if_pos hi, hd _ (by omega), hR _ (by omega) _ (by omega)]
      congr 2
      apply Finset.sum_congr rfl
      intro c hc
      have := Finset.mem_Ico.1 hc
      rw [hR _ (by omega) _ this.2, ih]
    · rw [if_neg hi, if_neg hi, ih]

theorem ratio_congr (q : Data) {u u' r r' : Nat → ℝ} : ∀ j, (∀ k, q.p ≤ k → k < q.p + j → u' k = u k ∧ r' k = r k) →
    q.ratio u' r' j = q.ratio u r j := by
  intro j
  induction j with
  | zero => intro _; rfl
  | succ j ih =>
    intro h
    have h1 := ih (fun k a b => h k a (by omega))
    obtain ⟨h2, h3⟩ := h (q.p + j) (by omega) (by omega)
    unfold Data.ratio
    simp only
    rw [h1, h2, h3]

/-- Reflections of the columns `≥ iq` do not change the primal direction. -/
theorem SameUpTo.updateZ {n iq : Nat} {J J' : Nat → Nat → ℝ} (h : SameUpTo n iq J J') (hle : iq ≤ n)
    (v : Nat → ℝ) (i : Nat) :
    RtQP.updateZ n J' (computeD n J' v) iq i = RtQP.updateZ n J (computeD n J v) iq i := by
  have tot : ∀ J : Nat → Nat → ℝ, ∑ k ∈ Finset.range n, J i k * computeD n J v k =
      ∑ l ∈ Finset.range n, RtQP.gram n J i l * v l := by
    intro J
    simp only [computeD, RtQP.gram, Finset.mul_sum, Finset.sum_mul]
    rw [Finset.sum_comm]
    exact Finset.sum_congr rfl (fun _ _ => Finset.sum_congr rfl (fun _ _ => by ring))
  have e : ∑ k ∈ Finset.range n, J' i k * computeD n J' v k = ∑ k ∈ Finset.range n, J i k * computeD n J v k := by
    rw [tot, tot]
    exact Finset.sum_congr rfl (fun l _ => by rw [h.gram])
  rw [Finset.range_eq_Ico, ← Finset.sum_Ico_consecutive _ (Nat.zero_le iq) hle,
    ← Finset.sum_Ico_consecutive _ (Nat.zero_le iq) hle] at e
  have low : ∑ k ∈ Finset.Ico 0 iq, J' i k * computeD n J' v k = ∑ k ∈ Finset.Ico 0 iq, J i k * computeD n J v k := by
    apply Finset.sum_congr rfl
    intro k hk
    have hk := (Finset.mem_Ico.1 hk).2
    rw [computeD_congrJ n J' J v k (fun i => h.low k hk i), h.low k hk i]
  unfold RtQP.updateZ
  linarith

/-- `t2` at `l2a`. -/
noncomputable def fullStep (q : Data) (st : St) : ℝ :=
  -(st.s st.ip) / dot q.n (q.dir st) (fun i => -(q.CI st.ip i))

/-- At `l2a` the full step would be taken, but `addConstraint` rejects the constraint. -/
structure Rejecting (q : Data) (st : St) : Prop where
  big : q.eps < dot q.n (q.dir st) (q.dir st)
  full : ∀ t k, q.ratio st.u (updateR st.R (computeD q.n st.J (fun i => -(q.CI st.ip i))) st.iq)
    (st.iq - q.p) = some (t, k) → fullStep q st ≤ t
  rej : (addConstraint q.n q.eps st.R st.J (computeD q.n st.J (fun i => -(q.CI st.ip i))) st.iq
        st.Rnorm).2.2.2 = false

/-- What the state at `l2a` looks like just after the choice of the constraint `ip`: the saved values are the
current ones and no other candidate is more violated. -/
structure Fresh (q : Data) (st : St) : Prop where
  pc : st.pc = .l2a
  ip : st.A st.iq = st.ip
  u0 : st.u st.iq = 0
  ss : st.ss = st.s st.ip
  neg : st.ss < 0
  min : ∀ i < q.m, st.iai i = true → st.ss ≤ st.s i
  old : ∀ c < st.iq, st.uOld c = st.u c ∧ st.AOld c = st.A c
  xold : st.xOld = st.x
  iai : ∀ i < q.m, st.iai i = true ↔ ¬ ∃ c, c < st.iq ∧ st.A c = i
  notact : ∀ c < st.iq, st.A c ≠ st.ip

theorem pick_stay (st : St) : ∀ k, (∀ i < k, st.iai i = true → st.ss ≤ st.s i) → Data.pick st k = (st.ss, st.ip) := by
  intro k
  induction k with
  | zero => intro _; rfl
  | succ k ih =>
    intro h
    have ih := ih (fun i hi => h i (by omega))
    unfold Data.pick
    simp only [ih]
    rw [if_neg]
    rintro ⟨h1, h2, -⟩
    have := h k (by omega) h2
    linarith

open Classical in
theorem reject_step {q : Data} (hp : q.p = 0) {st : St} (hf : Fresh q st) (hr : Rejecting q st)
    (hn : st.iq < q.n) (hm : st.iq + 1 < q.m) :
    (q.stepL2a st).pc = .l2 ∧ Fresh q (q.stepL2 (q.stepL2a st)) ∧ Rejecting q (q.stepL2 (q.stepL2a st)) ∧
      (q.stepL2 (q.stepL2a st)).iq = st.iq ∧ (q.stepL2 (q.stepL2a st)).pc = .l2a := by
  set np : Nat → ℝ := fun i => -(q.CI st.ip i) with hnp
  obtain ⟨s1, s2, s3, s4⟩ := addLoop_spec q.n st.iq np (q.n - 1) st.J (computeD q.n st.J np) (by omega)
    (fun _ _ => rfl) (fun k h1 h2 => by omega)
  set a := addConstraint q.n q.eps st.R st.J (computeD q.n st.J np) st.iq st.Rnorm with ha
  have hrej : a.2.2.2 = false := hr.rej
  have ha1 : a.1 = fun k c => if c = st.iq ∧ k < st.iq + 1 then
      (addLoop st.iq (q.n - 1) (st.J, computeD q.n st.J np)).2 k else st.R k c := by
    simp only [ha, addConstraint]; split_ifs <;> rfl
  have ha2 : a.2.1 = (addLoop st.iq (q.n - 1) (st.J, computeD q.n st.J np)).1 := by
    simp only [ha, addConstraint]; split_ifs <;> rfl
  have ha3 : a.2.2.1 = st.Rnorm := by
    revert hrej
    simp only [ha, addConstraint]; split_ifs <;> simp
  rw [← ha2] at s1
  set t := fullStep q st with ht
  have htmin : (match q.ratio st.u (updateR st.R (computeD q.n st.J np) st.iq) (st.iq - q.p) with
      | none => t | some (t', _) => min t' t) = t := by
    cases hrat : q.ratio st.u (updateR st.R (computeD q.n st.J np) st.iq) (st.iq - q.p) with
    | none => rfl
    | some b => exact min_eq_right (hr.full b.1 b.2 hrat)
  -- the state after the roll-back
  set u1 : Nat → ℝ := fun i => if i = st.iq then st.u i + t else if i < st.iq then
    st.u i - t * updateR st.R (computeD q.n st.J np) st.iq i else st.u i with hu1
  set b := deleteConstraint q.p st.ip ⟨a.1, a.2.1, st.A, u1, st.iq + 1⟩ with hb
  have hqq : findQq st.A st.ip (st.iq + 1 - q.p) q.p = st.iq := by
    rw [hp]
    obtain ⟨f1, f2, f3⟩ := findQq_spec st.A st.ip (st.iq + 1 - 0) 0 st.iq (Nat.zero_le _) (by omega) hf.ip
    by_contra hne
    exact hf.notact _ (by omega) f3
  have hbq : b.iq = st.iq := by
    simp only [hb, deleteConstraint]; split_ifs <;> rfl
  have hbJ : b.J = a.2.1 := by
    simp only [hb, deleteConstraint, hqq, Nat.add_sub_cancel, Nat.sub_self, delLoop]
    split_ifs <;> rfl
  have hbR : ∀ k < st.iq, ∀ c < st.iq, b.R k c = st.R k c := by
    intro k hk c hc
    have : b.R k c = a.1 k c := by
      simp only [hb, deleteConstraint, hqq, Nat.add_sub_cancel, Nat.sub_self, delLoop]
      rw [if_neg (show ¬ st.iq = 0 by omega)]
      simp only
      rw [if_neg (by omega), if_neg (by omega)]
    rw [this, ha1]
    simp only
    rw [if_neg (by omega)]
  have hst : q.stepL2a st = { st with
      x := st.xOld, f := st.f + t * dot q.n (q.dir st) np * (1 / 2 * t + st.u st.iq), R := b.R, J := b.J
      Rnorm := a.2.2.1, iq := b.iq
      A := fun i => if i < b.iq then st.AOld i else b.A i
      u := fun i => if i < b.iq then st.uOld i else b.u i
      iai := fun i => if i < q.m then !(decide (∃ k, k < b.iq ∧ st.AOld k = i)) else st.iai i
      iaexcl := fun i => if i = st.ip then false else st.iaexcl i, pc := .l2 } := by
    conv_lhs => unfold Data.stepL2a
    simp only [← hnp, abs_of_nonneg (dot_self_nonneg q.n (q.dir st))]
    rw [if_pos hr.big]
    change (match q.ratio st.u (updateR st.R (computeD q.n st.J np) st.iq) (st.iq - q.p), some t with
      | _, _ => _) = _
    revert htmin
    cases hrat : q.ratio st.u (updateR st.R (computeD q.n st.J np) st.iq) (st.iq - q.p) with
    | none =>
      intro _
      simp only [← ha, hrej]
      rw [if_pos (by trivial), if_neg (by simp), if_neg (by omega), if_neg (by omega)]
      have ht' : -st.s st.ip / dot q.n (q.dir st) np = t := rfl
      simp only [ht', ← hu1, ← hb]
    | some c =>
      intro htmin
      simp only at htmin
      have ht' : -st.s st.ip / dot q.n (q.dir st) np = t := rfl
      simp only [← ha, hrej, ht', htmin]
      rw [if_pos (by trivial), if_neg (by simp), if_neg (by omega), if_neg (by omega)]
  generalize hst2 : q.stepL2a st = st2 at *
  have hiai : ∀ i < q.m, st2.iai i = true ↔ st.iai i = true := by
    intro i hi
    rw [hf.iai i hi, hst]
    simp only [if_pos hi, hbq, Bool.not_eq_true', decide_eq_false_iff_not]
    constructor
    · rintro h ⟨c, h1, h2⟩; exact h ⟨c, h1, by rw [(hf.old c h1).2, h2]⟩
    · rintro h ⟨c, h1, h2⟩; exact h ⟨c, h1, by rw [← (hf.old c h1).2, h2]⟩
  have hss2 : st2.ss = st.ss := by rw [hst]
  have hip2 : st2.ip = st.ip := by rw [hst]
  have hs2 : st2.s = st.s := by rw [hst]
  have hpick : Data.pick st2 q.m = (st.ss, st.ip) := by
    rw [pick_stay st2 q.m, hss2, hip2]
    intro i hi h
    rw [hss2, hs2]
    exact hf.min i hi ((hiai i hi).1 h)
  have hst3 : q.stepL2 st2 = { st2 with
      ss := st.ss, ip := st.ip, pc := .l2a
      u := fun k => if k = st.iq then 0 else st2.u k
      A := fun k => if k = st.iq then st.ip else st2.A k } := by
    unfold Data.stepL2
    have e : st2.iq = st.iq := by rw [hst]; exact hbq
    simp only [hpick, e]
    rw [if_neg (not_le.2 hf.neg), if_neg (by omega)]
  generalize hst3' : q.stepL2 st2 = st3 at *
  -- the new state agrees with the old one
  have n_iq : st3.iq = st.iq := by rw [hst3]; simp only; rw [hst]; exact hbq
  have n_ip : st3.ip = st.ip := by rw [hst3]
  have n_x : st3.x = st.x := by rw [hst3]; simp only; rw [hst]; exact hf.xold
  have n_s : st3.s = st.s := by rw [hst3]; exact hs2
  have n_J : st3.J = a.2.1 := by rw [hst3]; simp only; rw [hst]; exact hbJ
  have n_R : ∀ k < st.iq, ∀ c < st.iq, st3.R k c = st.R k c := by
    rw [hst3]; simp only; rw [hst]; exact hbR
  have n_norm : st3.Rnorm = st.Rnorm := by rw [hst3]; simp only; rw [hst]; exact ha3
  have n_A : ∀ c < st.iq, st3.A c = st.A c := by
    intro c hc
    rw [hst3]; simp only
    rw [if_neg (by omega), hst]
    simp only
    rw [if_pos (by omega)]
    exact (hf.old c hc).2
  have n_u : ∀ c < st.iq, st3.u c = st.u c := by
    intro c hc
    rw [hst3]; simp only
    rw [if_neg (by omega), hst]
    simp only
    rw [if_pos (by omega)]
    exact (hf.old c hc).1
  have n_iai : st3.iai = st2.iai := by rw [hst3]
  have n_old : st3.uOld = st.uOld ∧ st3.AOld = st.AOld ∧ st3.xOld = st.xOld := by
    rw [hst3]; simp only; rw [hst]; exact ⟨rfl, rfl, rfl⟩
  have n_ss : st3.ss = st.ss := by rw [hst3]
  have n_dir : q.dir st3 = q.dir st := by
    rw [dir_eq q st3 (by omega), dir_eq q st (by omega), n_iq, n_ip, n_J]
    funext i
    exact s1.updateZ hn.le np i
  have n_d : ∀ k < st.iq, computeD q.n a.2.1 np k = computeD q.n st.J np k := fun k hk =>
    computeD_congrJ _ _ _ _ _ (fun i => s1.low k hk i)
  refine ⟨by rw [hst], ?_, ?_, n_iq, by rw [hst3]⟩
  · refine ⟨by rw [hst3], ?_, ?_, by rw [n_ss, n_s, n_ip]; exact hf.ss, by rw [n_ss]; exact hf.neg, ?_, ?_,
      by rw [n_old.2.2, n_x]; exact hf.xold, ?_, ?_⟩
    · rw [n_iq, n_ip, hst3]; simp
    · rw [n_iq, hst3]; simp
    · intro i hi h
      rw [n_ss, n_s]
      rw [n_iai] at h
      exact hf.min i hi ((hiai i hi).1 h)
    · intro c hc
      rw [n_iq] at hc
      rw [n_old.1, n_old.2.1, n_u c hc, n_A c hc]
      exact hf.old c hc
    · intro i hi
      rw [n_iai, hiai i hi, hf.iai i hi, n_iq]
      constructor
      · rintro h ⟨c, h1, h2⟩; exact h ⟨c, h1, by rw [← n_A c h1, h2]⟩
      · rintro h ⟨c, h1, h2⟩; exact h ⟨c, h1, by rw [n_A c h1, h2]⟩
    · intro c hc
      rw [n_iq] at hc
      rw [n_A c hc, n_ip]
      exact hf.notact c hc
  · refine ⟨by rw [n_dir]; exact hr.big, ?_, ?_⟩
    · intro t' k h
      have : fullStep q st3 = fullStep q st := by
        unfold fullStep; rw [n_s, n_ip, n_dir]
      rw [this]
      rw [n_iq, n_ip, n_J] at h
      rw [ratio_congr q (u := st.u) (r := updateR st.R (computeD q.n st.J np) st.iq)] at h
      · exact hr.full t' k h
      · intro k h1 h2
        refine ⟨n_u k (by omega), ?_⟩
        exact backSolve_congr n_R n_d st.iq le_rfl k
    · rw [n_iq, n_ip, n_J, n_norm]
      have h1 := (addConstraint_flag hn q.eps st.Rnorm st.J st.R np)
      have h2 := (addConstraint_flag hn q.eps st.Rnorm a.2.1 st3.R np)
      rw [s1.tail hn.le np, ← h1, ← ha, hrej] at h2
      cases hflag : (addConstraint q.n q.eps st3.R a.2.1 (computeD q.n a.2.1 np) st.iq st.Rnorm).2.2.2 with
      | false => rfl
      | true => exact absurd (h2.1 hflag) (by simp)

/-- The solver never returns from such a state. -/
theorem reject_forever {q : Data} (hp : q.p = 0) {st : St} (hf : Fresh q st) (hr : Rejecting q st)
    (hn : st.iq < q.n) (hm : st.iq + 1 < q.m) :
    ∀ k, (q.step^[k] st).pc = .l2a ∨ (q.step^[k] st).pc = .l2 := by
  intro k
  induction k using Nat.strong_induction_on generalizing st with
  | _ k ih =>
    obtain ⟨a, b, c, d, e⟩ := reject_step hp hf hr hn hm
    have e1 : q.step st = q.stepL2a st := by unfold Data.step; rw [hf.pc]
    have e2 : q.step (q.stepL2a st) = q.stepL2 (q.stepL2a st) := by conv_lhs => unfold Data.step; rw [a]
    match k with
    | 0 => exact Or.inl hf.pc
    | 1 => right; rw [Function.iterate_one, e1]; exact a
    | k + 2 =>
      rw [Function.iterate_succ_apply, Function.iterate_succ_apply, e1, e2]
      exact ih k (by omega) b c (by omega) (by omega)

end RtQP
end Verif
