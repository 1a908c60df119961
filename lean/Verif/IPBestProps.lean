import Verif.IPLoopProps

/-! C86: the iterate kept as the best one only ever improves, and a result that is not accepted at full precision is never worse
than the first iterate. -/
namespace Verif
namespace IP
open Cone Equil Finset

/-- Specification: `i` improves on `j`: complementarity gap and merit are positive and strictly smaller. -/
def Improves (i j : Info) : Prop := 0 < i.gap ∧ i.gap < j.gap ∧ 0 < i.merit ∧ i.merit < j.merit

theorem Improves.trans {i j k : Info} (h : Improves i j) (h' : Improves j k) : Improves i k :=
  ⟨h.1, h.2.1.trans h'.2.1, h.2.2.1, h.2.2.2.trans h'.2.2.2⟩

theorem better_improves {i j : Info} (h : isBetterThan i j = true) : Improves i j := by
  unfold isBetterThan at h
  split at h
  · split at h <;> rw [decide_eq_true_eq] at h
    · exact ⟨h.1.1, h.1.2.2, h.2.2.1, h.2.2.2⟩
    · exact ⟨h.1.1, h.1.2.2, h.2.1, h.2.2⟩
  · rw [decide_eq_true_eq] at h
    exact ⟨h.1.1, h.1.2.2, h.2.2.2.2.1, h.2.2.2.2.2⟩

/-- Away from the infeasibility branch, being better also means smaller residuals and a smaller ratio of kappa to tau. -/
theorem better_improves_residuals {i j : Info} (hk : i.kot ≤ 1) (h : isBetterThan i j = true) :
    i.pres < j.pres ∧ i.dres < j.dres ∧ i.kot < j.kot := by
  unfold isBetterThan at h
  rw [if_neg (fun hh => by linarith [hh.2]), decide_eq_true_eq] at h
  exact ⟨h.2.1.2, h.2.2.1.2, h.2.2.2.1.2⟩

/-- The statistics of the iterate at the head of a pass. -/
noncomputable def cur (c : Cone) (g : Stg) (S : Storage) (st : St) : Info := updateStatistics c g S st.opt (computeResiduals c S st.opt)

theorem body_next_best {c : Cone} {g : Stg} {S : Storage} {lin : LinOracle} {n : Nat} {st st' : St}
    (h : body c g S lin n st = .next st') :
    (n = 0 ∧ st'.best = st.opt ∧ st'.bestInfo = cur c g S st) ∨
    (0 < n ∧ Improves (cur c g S st) st.bestInfo ∧ st'.best = st.opt ∧ st'.bestInfo = cur c g S st) ∨
    (0 < n ∧ st'.best = st.best ∧ st'.bestInfo = st.bestInfo) := by
  unfold body at h
  simp only [] at h
  split at h
  · cases h
  · split at h
    · split at h
      · cases h
      · split at h
        · split at h <;> cases h
        · split at h
          · cases h
          · split at h
            · cases h
              simp only []
              split
              · rename_i hsv
                rw [Bool.or_eq_true, decide_eq_true_eq] at hsv
                rcases Nat.eq_zero_or_pos n with h0 | h0
                · exact Or.inl ⟨h0, rfl, rfl⟩
                · exact Or.inr (Or.inl ⟨h0, better_improves (hsv.resolve_left (by omega)), rfl, rfl⟩)
              · rename_i hsv
                rw [Bool.or_eq_true, decide_eq_true_eq] at hsv
                exact Or.inr (Or.inr ⟨by omega, rfl, rfl⟩)
            · cases h
    · cases h

/-- A pass that stops without being accepted at full precision and without a failed factorisation returns the kept iterate, or
the current one if that is the first one or improves on the kept one. -/
theorem body_stop_best {c : Cone} {g : Stg} {S : Storage} {lin : LinOracle} {n : Nat} {st : St} {q : Out}
    (h : body c g S lin n st = .stop q) (hm : 1 ≤ g.maxIters) (hc : q.code ∉ [ExitCode.optimal, .dualInf, .primalInf, .indeterminate]) :
    (0 < n ∧ q.opt = st.best ∧ q.info = st.bestInfo) ∨ (n = 0 ∧ q.opt = st.opt ∧ q.info = cur c g S st) ∨
    (0 < n ∧ q.opt = st.opt ∧ q.info = cur c g S st ∧ Improves (cur c g S st) st.bestInfo) := by
  unfold body at h
  simp only [] at h
  have rf := reduced_fields g
  split at h
  · rename_i h1
    cases h
    exact Or.inl ⟨h1.1, (rf _ _ _ _ _ _ _).1, (rf _ _ _ _ _ _ _).2.1⟩
  · split at h
    · split at h
      · rename_i h1
        cases h
        exact Or.inl ⟨h1.1, (rf _ _ _ _ _ _ _).1, (rf _ _ _ _ _ _ _).2.1⟩
      · split at h
        · rename_i hmx
          have hn : 0 < n := by omega
          split at h
          · rename_i hb
            cases h
            exact Or.inr (Or.inr ⟨hn, (rf _ _ _ _ _ _ _).1, (rf _ _ _ _ _ _ _).2.1, better_improves hb⟩)
          · cases h
            exact Or.inl ⟨hn, (rf _ _ _ _ _ _ _).1, (rf _ _ _ _ _ _ _).2.1⟩
        · split at h
          · cases h
            rw [(rf _ _ _ _ _ _ _).1, (rf _ _ _ _ _ _ _).2.1]
            split
            · rename_i hsv
              rw [Bool.or_eq_true, decide_eq_true_eq] at hsv
              rcases Nat.eq_zero_or_pos n with h0 | h0
              · exact Or.inr (Or.inl ⟨h0, rfl, rfl⟩)
              · exact Or.inr (Or.inr ⟨h0, rfl, rfl, better_improves (hsv.resolve_left (by omega))⟩)
            · rename_i hsv
              rw [Bool.or_eq_true, decide_eq_true_eq] at hsv
              exact Or.inl ⟨by omega, rfl, rfl⟩
          · split at h
            · cases h
            · cases h
              exact absurd (by simp) hc
    · rename_i hne
      cases h
      exfalso
      have := check_codes g true (computeResiduals c S st.opt) (updateStatistics c g S st.opt (computeResiduals c S st.opt)) st.opt
      simp only [if_true, List.mem_cons, List.not_mem_nil, or_false] at this hc
      rcases this with h | h | h | h
      · exact hc (Or.inl h)
      · exact hc (Or.inr (Or.inl h))
      · exact hc (Or.inr (Or.inr (Or.inl h)))
      · exact hne h

theorem visits_zero {c : Cone} {g : Stg} {S : Storage} {lin : LinOracle} {st0 st : St} (h : Visits c g S lin st0 0 st) : st = st0 := by
  cases h; rfl

/-- C86: whatever the linear solver answers, from one pass of the method to any later one the kept iterate stays the same or is
replaced by one with strictly smaller complementarity gap and merit; and the kept iterate is always one of the iterates
visited. -/
theorem C86_kept_iterate_improves (c : Cone) (g : Stg) (S : Storage) (lin : LinOracle) (st0 : St) (n : Nat) (st : St)
    (hv : Visits c g S lin st0 n st) :
    (0 < n → (∃ m stm, m < n ∧ Visits c g S lin st0 m stm ∧ st.best = stm.opt ∧ st.bestInfo = cur c g S stm)) ∧
    ∀ m stm, 0 < m → m ≤ n → Visits c g S lin st0 m stm →
      (st.best = stm.best ∧ st.bestInfo = stm.bestInfo) ∨ Improves st.bestInfo stm.bestInfo := by
  have uniq : ∀ m a, Visits c g S lin st0 m a → ∀ b, Visits c g S lin st0 m b → a = b := by
    intro m a ha
    induction ha with
    | start => intro b hb; cases hb; rfl
    | @next m s s' hs hb ih =>
      intro b hv'
      cases hv' with
      | @next _ t t' ht hb' =>
        have := ih t ht
        subst this
        rw [hb] at hb'
        cases hb'; rfl
  induction hv with
  | start => exact ⟨fun h => absurd h (lt_irrefl _), fun m stm h1 h2 => by omega⟩
  | @next n st st' hv hb ih =>
    have hnx := body_next_best hb
    refine ⟨fun _ => ?_, fun m stm hm hmn hvm => ?_⟩
    · rcases hnx with ⟨_, e1, e2⟩ | ⟨_, _, e1, e2⟩ | ⟨h0, e1, e2⟩
      · exact ⟨n, st, by omega, hv, e1, e2⟩
      · exact ⟨n, st, by omega, hv, e1, e2⟩
      · obtain ⟨k, stk, a1, a2, a3, a4⟩ := ih.1 h0
        exact ⟨k, stk, by omega, a2, by rw [e1, a3], by rw [e2, a4]⟩
    · rcases Nat.lt_or_ge n m with hlt | hge
      · have hm' : m = n + 1 := by omega
        subst hm'
        have := uniq _ _ (Visits.next hv hb) _ hvm
        rw [this]; exact Or.inl ⟨rfl, rfl⟩
      · have hi := ih.2 m stm hm hge hvm
        rcases hnx with ⟨h0, _⟩ | ⟨_, himp, e1, e2⟩ | ⟨_, e1, e2⟩
        · omega
        · right
          rw [e2]
          rcases hi with ⟨_, h2⟩ | h2
          · rw [← h2]; exact himp
          · exact himp.trans h2
        · rw [e1, e2]; exact hi

/-- C86: with an iteration limit of at least one, a call of `optimize` that ends without full-precision acceptance and without
a failed factorisation (that is: reduced precision, no further progress, slacks leaving the cone, or the iteration limit)
returns the first iterate or one whose complementarity gap and merit are positive and strictly smaller than those of the
first iterate. -/
theorem C86_fallback_not_worse (c : Cone) (g : Stg) (S : Storage) (lin : LinOracle) (old : Pt × Info) (rhs2 : Tri)
    (o0 : Pt) (i0 : Info) (hf : lin.fact 0 = true) (hm : 1 ≤ g.maxIters) :
    let q := (optimize c g S lin old rhs2 o0 i0).1
    let first := updateStatistics c g S (initPt c S lin rhs2) (computeResiduals c S (initPt c S lin rhs2))
    q.code ∉ [ExitCode.optimal, .dualInf, .primalInf, .indeterminate] →
    (q.opt = initPt c S lin rhs2 ∧ q.info = first) ∨
    (0 < q.info.gap ∧ q.info.gap < first.gap ∧ 0 < q.info.merit ∧ q.info.merit < first.merit) := by
  intro q first hc
  obtain ⟨n, st, hv, h2, h3, h4⟩ := optimize_end c g S lin old rhs2 o0 i0 hf (by omega)
  set st0 := start c S lin old rhs2 with hst0
  -- the kept iterate of any pass after the first
  have key : ∀ n st, Visits c g S lin st0 n st → 0 < n →
      (st.best = initPt c S lin rhs2 ∧ st.bestInfo = first) ∨ Improves st.bestInfo first := by
    intro n st hv
    induction hv with
    | start => intro h; exact absurd h (lt_irrefl _)
    | @next n st st' hv hb ih =>
      intro _
      rcases body_next_best hb with ⟨h0, e1, e2⟩ | ⟨h0, himp, e1, e2⟩ | ⟨h0, e1, e2⟩
      · subst h0
        have hs : st = st0 := visits_zero hv
        rw [hs] at e1 e2
        left; exact ⟨e1, e2⟩
      · right; rw [e2]
        rcases ih h0 with ⟨_, h⟩ | h
        · rw [← h]; exact himp
        · exact himp.trans h
      · rw [e1, e2]; exact ih h0
  rcases body_stop_best h3 hm hc with ⟨h0, e1, e2⟩ | ⟨h0, e1, e2⟩ | ⟨h0, e1, e2, himp⟩
  · have := key n st hv h0
    rw [← e1, ← e2] at this
    exact this
  · subst h0
    have hs : st = st0 := visits_zero hv
    rw [hs] at e1 e2
    left; exact ⟨e1, e2⟩
  · right
    show Improves _ _
    rw [e2]
    rcases key n st hv h0 with ⟨_, h⟩ | h
    · rw [← h]; exact himp
    · exact himp.trans h

end IP
end Verif
