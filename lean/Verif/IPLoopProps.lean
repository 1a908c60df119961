import Verif.IPNewtonProps

/-! C21, C22, C80: what the interior-point method returns. -/
namespace Verif
namespace IP
open Cone Equil Finset

/-! ### specification: the passes of the loop -/

/-- `n` and the state at the head of the loop in pass `n` of an execution of `optimize`. -/
inductive Visits (c : Cone) (g : Stg) (S : Storage) (lin : LinOracle) (st0 : St) : Nat → St → Prop
  | start : Visits c g S lin st0 0 st0
  | next {n : Nat} {st st' : St} : Visits c g S lin st0 n st → body c g S lin n st = .next st' → Visits c g S lin st0 (n + 1) st'

/-- The state at the head of the first pass. -/
noncomputable def start (c : Cone) (S : Storage) (lin : LinOracle) (old : Pt × Info) (rhs2 : Tri) : St :=
  { opt := initPt c S lin rhs2, best := old.1, bestInfo := old.2, prev := nanv, step := 0, calls := 2, facts := 1 }

/-- The numbers `info` describe the point `o`. -/
def Describes (c : Cone) (g : Stg) (S : Storage) (o : Pt) (i : Info) : Prop := i = updateStatistics c g S o (computeResiduals c S o)

/-- A point strictly inside the cones with positive tau and kappa. -/
def Inside (c : Cone) (o : Pt) : Prop := c.Interior o.s ∧ c.Interior o.z ∧ 0 < o.tau ∧ 0 < o.kappa

/-! ### the cases of one pass -/

theorem reduced_fields (g : Stg) (r : Res) (o : Pt) (i : Info) (fb : ExitCode) (sc : Bool) (n : Nat) (s : ℝ) :
    (reduced g r o i fb sc n s).opt = o ∧ (reduced g r o i fb sc n s).info = i ∧ (reduced g r o i fb sc n s).iter = n ∧
    (reduced g r o i fb sc n s).step = s := by
  unfold reduced; split <;> exact ⟨rfl, rfl, rfl, rfl⟩

theorem reduced_code (g : Stg) (r : Res) (o : Pt) (i : Info) (fb : ExitCode) (sc : Bool) (n : Nat) (s : ℝ) :
    ((reduced g r o i fb sc n s).code = fb ∧ (reduced g r o i fb sc n s).scaled = sc) ∨
    (convergenceCheck g false r i o = (reduced g r o i fb sc n s).code ∧ (reduced g r o i fb sc n s).code ≠ .notConverged ∧
      (reduced g r o i fb sc n s).scaled = true) := by
  unfold reduced
  split
  · exact Or.inl ⟨rfl, rfl⟩
  · rename_i h
    exact Or.inr ⟨rfl, fun hc => h hc, rfl⟩

theorem check_codes (g : Stg) (full : Bool) (r : Res) (i : Info) (o : Pt) :
    convergenceCheck g full r i o ∈ (if full then [ExitCode.optimal, .dualInf, .primalInf, .notConverged]
      else [ExitCode.optimalInacc, .dualInfInacc, .primalInfInacc, .notConverged]) := by
  unfold convergenceCheck
  cases full <;> simp only [Bool.false_eq_true, if_false, if_true] <;> (split; simp) <;> (split; simp) <;> split <;> simp

/-- The ways in which a pass stops the method. -/
theorem body_stop {c : Cone} {g : Stg} {S : Storage} {lin : LinOracle} {n : Nat} {st : St} {q : Out}
    (h : body c g S lin n st = .stop q) :
    let r := computeResiduals c S st.opt
    let i := updateStatistics c g S st.opt r
    (q.code = convergenceCheck g true r i st.opt ∧ q.code ≠ .notConverged ∧ q.opt = st.opt ∧ q.info = i ∧ q.scaled = true ∧
      q.iter = n ∧ q.step = st.step) ∨
    (q = ⟨.indeterminate, st.opt, false, i, n, st.step⟩ ∧ lin.fact st.facts = false) ∨
    ∃ o io fb sc, q = reduced g r o io fb sc n st.step ∧
      ((0 < n ∧ o = st.best ∧ io = st.bestInfo) ∨
       (o = st.opt ∧ io = i ∧ ¬ (n > 0 ∧ st.step = g.minStep * g.stepScaling)) ∨
       (n = 0 ∧ g.maxIters = 0 ∧ o = st.best ∧ io = st.bestInfo)) ∧
      ((fb = .prSearchDirection ∧ sc = true) ∨ (fb = .reachMaxIters ∧ sc = true ∧ (n : Int) = g.maxIters) ∨
       (fb = .prSlacksLeaveCone ∧ sc = false ∧ c.updateNTScalings st.opt.s st.opt.z (fun _ => 0) = none)) := by
  intro r i
  unfold body at h
  simp only [] at h
  split at h
  · rename_i h1
    cases h
    exact Or.inr (Or.inr ⟨_, _, _, _, rfl, Or.inl ⟨h1.1, rfl, rfl⟩, Or.inl ⟨rfl, rfl⟩⟩)
  · split at h
    · split at h
      · rename_i h1
        cases h
        exact Or.inr (Or.inr ⟨_, _, _, _, rfl, Or.inl ⟨h1.1, rfl, rfl⟩, Or.inl ⟨rfl, rfl⟩⟩)
      · rename_i hns
        split at h
        · rename_i hm
          split at h
          · cases h
            exact Or.inr (Or.inr ⟨_, _, _, _, rfl, Or.inr (Or.inl ⟨rfl, rfl, hns⟩), Or.inr (Or.inl ⟨rfl, rfl, hm⟩)⟩)
          · cases h
            refine Or.inr (Or.inr ⟨_, _, _, _, rfl, ?_, Or.inr (Or.inl ⟨rfl, rfl, hm⟩)⟩)
            rcases Nat.eq_zero_or_pos n with h0 | h0
            · exact Or.inr (Or.inr ⟨h0, by rw [h0] at hm; exact hm.symm, rfl, rfl⟩)
            · exact Or.inl ⟨h0, rfl, rfl⟩
        · split at h
          · rename_i hn
            cases h
            refine Or.inr (Or.inr ⟨_, _, _, _, rfl, ?_, Or.inr (Or.inr ⟨rfl, rfl, hn⟩)⟩)
            split
            · exact Or.inr (Or.inl ⟨rfl, rfl, hns⟩)
            · rename_i hsv
              rw [Bool.or_eq_true, decide_eq_true_eq] at hsv
              exact Or.inl ⟨by omega, rfl, rfl⟩
          · split at h
            · cases h
            · rename_i hf
              cases h
              exact Or.inr (Or.inl ⟨rfl, by simpa using hf⟩)
    · rename_i hc
      cases h
      exact Or.inl ⟨rfl, fun hh => hc hh, rfl, rfl, rfl, rfl, rfl⟩

/-- What a pass that continues does. -/
theorem body_next {c : Cone} {g : Stg} {S : Storage} {lin : LinOracle} {n : Nat} {st st' : St}
    (h : body c g S lin n st = .next st') :
    ∃ W lam d2 solve1 solve2,
      c.updateNTScalings st.opt.s st.opt.z (fun _ => 0) = some (W, lam) ∧
      ¬ (n > 0 ∧ st.step = g.minStep * g.stepScaling) ∧ (n : Int) ≠ g.maxIters ∧
      (let r := computeResiduals c S st.opt
       let i := updateStatistics c g S st.opt r
       let nw := newton c g S st.opt r i.merit W lam d2 solve1 solve2
       st'.opt = advance st.opt nw.d nw.step ∧ st'.step = nw.step ∧
        ((st'.best = st.opt ∧ st'.bestInfo = i) ∨ (0 < n ∧ st'.best = st.best ∧ st'.bestInfo = st.bestInfo))) := by
  unfold body at h
  simp only [] at h
  split at h
  · cases h
  · split at h
    · split at h
      · cases h
      · rename_i hns
        split at h
        · split at h <;> cases h
        · rename_i hm
          split at h
          · cases h
          · rename_i W lam hu
            split at h
            · cases h
              refine ⟨W, lam, _, _, _, hu, hns, hm, rfl, rfl, ?_⟩
              simp only []
              split
              · exact Or.inl ⟨rfl, rfl⟩
              · rename_i hsv
                rw [Bool.or_eq_true, decide_eq_true_eq] at hsv
                exact Or.inr ⟨by omega, rfl, rfl⟩
            · cases h
    · cases h

theorem loop_end (c : Cone) (g : Stg) (S : Storage) (lin : LinOracle) (st0 : St) (i0 : Info) :
    ∀ (fuel n : Nat) (st : St), Visits c g S lin st0 n st → ((fuel : Int) + 1 + n = g.maxIters + 1) →
      ∃ n' st', Visits c g S lin st0 n' st' ∧ (n' : Int) ≤ g.maxIters ∧
        body c g S lin n' st' = .stop (loop c g S lin (fuel + 1) n st i0).1 ∧ n' + 1 = n + (loop c g S lin (fuel + 1) n st i0).2 := by
  intro fuel
  induction fuel with
  | zero =>
    intro n st hv hf
    cases hb : body c g S lin n st with
    | stop r => exact ⟨n, st, hv, by omega, by rw [hb]; simp [loop, hb], by simp [loop, hb]⟩
    | next st' =>
      obtain ⟨_, _, _, _, _, _, _, hm, _⟩ := body_next hb
      exact absurd (by omega) hm
  | succ fuel ih =>
    intro n st hv hf
    cases hb : body c g S lin n st with
    | stop r => exact ⟨n, st, hv, by omega, by rw [hb]; simp [loop, hb], by simp [loop, hb]⟩
    | next st' =>
      obtain ⟨n', s', h1, h2, h3, h4⟩ := ih (n + 1) st' (.next hv hb) (by push_cast at hf ⊢; omega)
      have e : loop c g S lin (fuel + 1 + 1) n st i0 =
          ((loop c g S lin (fuel + 1) (n + 1) st' i0).1, (loop c g S lin (fuel + 1) (n + 1) st' i0).2 + 1) := by
        conv_lhs => rw [loop]
        simp only [hb]
      rw [e]
      exact ⟨n', s', h1, h2, h3, by simp only []; omega⟩

/-- Every execution with a successful first factorisation and a nonnegative iteration limit ends in some pass. -/
theorem optimize_end (c : Cone) (g : Stg) (S : Storage) (lin : LinOracle) (old : Pt × Info) (rhs2 : Tri) (o0 : Pt) (i0 : Info)
    (hf : lin.fact 0 = true) (hm : 0 ≤ g.maxIters) :
    ∃ n st, Visits c g S lin (start c S lin old rhs2) n st ∧ (n : Int) ≤ g.maxIters ∧
      body c g S lin n st = .stop (optimize c g S lin old rhs2 o0 i0).1 ∧ (optimize c g S lin old rhs2 o0 i0).2 = n + 1 := by
  have hfu : (g.maxIters + 1).toNat = g.maxIters.toNat + 1 := by omega
  have e : optimize c g S lin old rhs2 o0 i0 = loop c g S lin (g.maxIters.toNat + 1) 0 (start c S lin old rhs2) i0 := by
    unfold optimize; rw [if_pos hf, hfu]; rfl
  obtain ⟨n, st, h1, h2, h3, h4⟩ := loop_end c g S lin (start c S lin old rhs2) i0 g.maxIters.toNat 0 _ .start (by push_cast; omega)
  rw [e]
  exact ⟨n, st, h1, h2, h3, by omega⟩

/-! ### C22 -/

/-- C22: for every problem, every setting and every behaviour of the linear solver, `optimize` makes at most
`SolverMaxIters + 1` passes (at most `SolverMaxIters` steps). -/
theorem C22_terminates (c : Cone) (g : Stg) (S : Storage) (lin : LinOracle) (old : Pt × Info) (rhs2 : Tri) (o0 : Pt) (i0 : Info) :
    ((optimize c g S lin old rhs2 o0 i0).2 : Int) ≤ max (g.maxIters + 1) 0 := by
  by_cases hf : lin.fact 0 = true
  · rcases lt_or_ge g.maxIters 0 with hm | hm
    · have hfu : (g.maxIters + 1).toNat = 0 := by omega
      have : (optimize c g S lin old rhs2 o0 i0).2 = 0 := by unfold optimize; rw [if_pos hf, hfu]; rfl
      omega
    · obtain ⟨n, st, _, h2, _, h4⟩ := optimize_end c g S lin old rhs2 o0 i0 hf hm
      omega
  · unfold optimize; rw [if_neg hf]; simp

/-- C22: the exit code. It is never "not converged"; the iteration limit is reported only when it was reached; an
indeterminate result only when a factorisation failed (or the limit is negative). -/
theorem C22_exit_code (c : Cone) (g : Stg) (S : Storage) (lin : LinOracle) (old : Pt × Info) (rhs2 : Tri) (o0 : Pt) (i0 : Info) :
    let q := (optimize c g S lin old rhs2 o0 i0).1
    q.code ≠ .notConverged ∧ q.code ≠ .prProjection ∧
    (q.code = .reachMaxIters → (q.iter : Int) = g.maxIters) ∧
    (q.code = .indeterminate → (∃ k, lin.fact k = false) ∨ g.maxIters < 0) ∧
    ((q.iter : Int) ≤ max g.maxIters 0) := by
  intro q
  by_cases hf : lin.fact 0 = true
  · rcases lt_or_ge g.maxIters 0 with hm | hm
    · have hfu : (g.maxIters + 1).toNat = 0 := by omega
      have hq : q = ⟨.indeterminate, initPt c S lin rhs2, true, i0, 0, 0⟩ := by
        show (optimize c g S lin old rhs2 o0 i0).1 = _
        unfold optimize; rw [if_pos hf, hfu]; rfl
      rw [hq]; exact ⟨by simp, by simp, by simp, fun _ => Or.inr hm, by simp⟩
    · obtain ⟨n, st, hv, h2, h3, h4⟩ := optimize_end c g S lin old rhs2 o0 i0 hf hm
      rcases body_stop h3 with ⟨a1, a2, a3, a4, a5, a6, a7⟩ | ⟨b1, b2⟩ | ⟨o, io, fb, sc, e, _, hfb⟩
      · have hc := check_codes g true (computeResiduals c S st.opt) (updateStatistics c g S st.opt (computeResiduals c S st.opt)) st.opt
        rw [← a1] at hc
        simp only [if_true, List.mem_cons, List.not_mem_nil, or_false] at hc
        refine ⟨a2, ?_, ?_, ?_, by show ((optimize c g S lin old rhs2 o0 i0).1.iter : Int) ≤ _; rw [a6]; omega⟩ <;>
          (show (optimize c g S lin old rhs2 o0 i0).1.code = _ → _; intro h; rw [h] at hc a2; simp at hc)
      · have hq : q = _ := b1
        rw [hq]; exact ⟨by simp, by simp, by simp, fun _ => Or.inl ⟨_, b2⟩, by simp; omega⟩
      · have hq : q = _ := e
        obtain ⟨f1, f2, f3, f4⟩ := reduced_fields g (computeResiduals c S st.opt) o io fb sc n st.step
        rw [hq, f3]
        rcases reduced_code g (computeResiduals c S st.opt) o io fb sc n st.step with ⟨k1, k2⟩ | ⟨k1, k2, k3⟩
        · rw [k1]
          rcases hfb with ⟨rfl, _⟩ | ⟨rfl, _, hn⟩ | ⟨rfl, _, _⟩
          · exact ⟨by simp, by simp, by simp, by simp, by omega⟩
          · exact ⟨by simp, by simp, fun _ => hn, by simp, by omega⟩
          · exact ⟨by simp, by simp, by simp, by simp, by omega⟩
        · have hc := check_codes g false (computeResiduals c S st.opt) io o
          rw [k1] at hc
          simp only [Bool.false_eq_true, if_false, List.mem_cons, List.not_mem_nil, or_false] at hc
          refine ⟨k2, ?_, ?_, ?_, by omega⟩ <;> (intro h; rw [h] at hc; simp at hc)
  · have hq : q = ⟨.indeterminate, o0, false, i0, 0, 0⟩ := by
      show (optimize c g S lin old rhs2 o0 i0).1 = _
      unfold optimize; rw [if_neg hf]
    rw [hq]
    exact ⟨by simp, by simp, by simp, fun _ => Or.inl ⟨0, by simpa using hf⟩, by simp⟩

/-! ### invariants -/

theorem tau_safe (c : Cone) (g : Stg) (lam ds dz : Nat → ℝ) (tau dtau kappa dkappa f : ℝ) (ht : 0 < tau) (hk : 0 < kappa)
    (hf0 : 0 ≤ f) (hf1 : f < 1) (hmin : 0 < g.minStep) (hns : g.minStep < lineSearch c g lam ds dz tau dtau kappa dkappa) :
    0 < tau + lineSearch c g lam ds dz tau dtau kappa dkappa * f * dtau ∧
    0 < kappa + lineSearch c g lam ds dz tau dtau kappa dkappa * f * dkappa := by
  obtain ⟨_, h2, h3⟩ := rawStep_le_first c g lam ds dz tau dtau kappa dkappa
  have h1 : lineSearch c g lam ds dz tau dtau kappa dkappa ≤ rawStep c g lam ds dz tau dtau kappa dkappa := by
    unfold lineSearch at hns ⊢
    rcases le_total (min (rawStep c g lam ds dz tau dtau kappa dkappa) g.maxStep) g.minStep with h | h
    · rw [max_eq_right h] at hns; exact absurd hns (lt_irrefl _)
    · rw [max_eq_left h]; exact min_le_left _ _
  have hpos : 0 < lineSearch c g lam ds dz tau dtau kappa dkappa := lt_trans hmin hns
  have scal : ∀ x dx : ℝ, 0 < x → (0 < -x / dx → rawStep c g lam ds dz tau dtau kappa dkappa ≤ -x / dx) →
      0 < x + lineSearch c g lam ds dz tau dtau kappa dkappa * f * dx := by
    intro x dx hx hle
    rcases le_or_gt 0 dx with hd | hd
    · have := mul_nonneg (mul_nonneg hpos.le hf0) hd; linarith
    · have hp : 0 < -x / dx := div_pos_of_neg_of_neg (by linarith) hd
      have hb : lineSearch c g lam ds dz tau dtau kappa dkappa * f < lineSearch c g lam ds dz tau dtau kappa dkappa := by nlinarith
      have h4 := lt_of_lt_of_le hb (le_trans h1 (hle hp))
      rw [lt_div_iff_of_neg hd] at h4
      linarith
  exact ⟨scal tau dtau ht h2, scal kappa dkappa hk h3⟩

/-- The settings under which the theorems below hold (the defaults satisfy them). -/
structure Stg.Sane (g : Stg) : Prop where
  scal0 : 0 ≤ g.stepScaling
  scal1 : g.stepScaling < 1
  min0 : 0 < g.minStep

theorem visit_inv (c : Cone) (g : Stg) (hg : g.Sane) (S : Storage) (lin : LinOracle) (st0 : St) (h0 : 0 < st0.opt.tau)
    (h1 : 0 < st0.opt.kappa) (n : Nat) (st : St) (hv : Visits c g S lin st0 n st) :
    (0 < n → Describes c g S st.best st.bestInfo ∧ 0 < st.best.tau ∧ 0 < st.best.kappa) ∧
    ((0 < st.opt.tau ∧ 0 < st.opt.kappa) ∨ (0 < n ∧ st.step = g.minStep * g.stepScaling)) := by
  induction hv with
  | start => exact ⟨fun h => absurd h (lt_irrefl 0), Or.inl ⟨h0, h1⟩⟩
  | @next n st st' _ hb ih =>
    obtain ⟨W, lam, d2, solve1, solve2, hu, hns, hm, e1, e2, e3⟩ := body_next hb
    obtain ⟨i1, i2⟩ := ih
    have hpos : 0 < st.opt.tau ∧ 0 < st.opt.kappa := i2.resolve_right hns
    refine ⟨fun _ => ?_, ?_⟩
    · rcases e3 with ⟨a, b⟩ | ⟨a, b, d⟩
      · rw [a, b]; exact ⟨rfl, hpos⟩
      · rw [b, d]; exact i1 a
    · by_cases hst : st'.step = g.minStep * g.stepScaling
      · exact Or.inr ⟨Nat.succ_pos _, hst⟩
      · left
        rw [e1]
        rw [e2] at hst
        set nw := newton c g S st.opt (computeResiduals c S st.opt)
          (updateStatistics c g S st.opt (computeResiduals c S st.opt)).merit W lam d2 solve1 solve2
        have hs : nw.step = lineSearch c g lam nw.dsByW nw.wDz st.opt.tau nw.d.tau st.opt.kappa nw.d.kappa * g.stepScaling := rfl
        have hns' : g.minStep < lineSearch c g lam nw.dsByW nw.wDz st.opt.tau nw.d.tau st.opt.kappa nw.d.kappa := by
          refine lt_of_le_of_ne (le_max_right _ _) (fun h => hst ?_)
          rw [hs]; exact congrArg (· * g.stepScaling) h.symm
        have := tau_safe c g lam nw.dsByW nw.wDz st.opt.tau nw.d.tau st.opt.kappa nw.d.kappa g.stepScaling hpos.1 hpos.2
          hg.scal0 hg.scal1 hg.min0 hns'
        rw [← hs] at this
        exact this

theorem visit_inside (c : Cone) (hne : c.NoEmpty) (g : Stg) (hg : g.Sane) (S : Storage) (lin : LinOracle) (st0 : St)
    (h0 : Inside c st0.opt)
    (hdom : ∀ n st st', Visits c g S lin st0 n st → body c g S lin n st = .next st' → c.ScalingDomain st.opt.s st.opt.z)
    (n : Nat) (st : St) (hv : Visits c g S lin st0 n st) :
    (0 < n → Inside c st.best) ∧ (Inside c st.opt ∨ (0 < n ∧ st.step = g.minStep * g.stepScaling)) := by
  induction hv with
  | start => exact ⟨fun h => absurd h (lt_irrefl 0), Or.inl h0⟩
  | @next n st st' hv hb ih =>
    obtain ⟨W, lam, d2, solve1, solve2, hu, hns, hm, e1, e2, e3⟩ := body_next hb
    obtain ⟨i1, i2⟩ := ih
    have hin : Inside c st.opt := i2.resolve_right hns
    refine ⟨fun _ => ?_, ?_⟩
    · rcases e3 with ⟨a, b⟩ | ⟨a, b, d⟩
      · rw [a]; exact hin
      · rw [b]; exact i1 a
    · by_cases hst : st'.step = g.minStep * g.stepScaling
      · exact Or.inr ⟨Nat.succ_pos _, hst⟩
      · left
        rw [e1]
        rw [e2] at hst
        exact C78_iterate_stays_inside c hne g S st.opt _ _ W lam d2 solve1 solve2 (hdom n st st' hv hb) hu hin.2.2.1 hin.2.2.2
          hg.scal0 hg.scal1 hg.min0 hst

/-! ### C21 -/

/-- C21: with an iteration limit of at least one, the numbers reported (costs, gap, residuals) are those of the returned
iterate, whichever way the method stopped, and tau and kappa of that iterate are positive, except that a result accepted at
full precision directly after a step that was raised to the minimum length may have any tau and kappa. -/
theorem C21_info_describes (c : Cone) (g : Stg) (hg : g.Sane) (S : Storage) (lin : LinOracle) (old : Pt × Info) (rhs2 : Tri)
    (o0 : Pt) (i0 : Info) (hf : lin.fact 0 = true) (hm : 1 ≤ g.maxIters) :
    let q := (optimize c g S lin old rhs2 o0 i0).1
    Describes c g S q.opt q.info ∧
    ((0 < q.opt.tau ∧ 0 < q.opt.kappa) ∨
      (q.code ∈ [ExitCode.optimal, .dualInf, .primalInf, .indeterminate] ∧ 0 < q.iter ∧ q.step = g.minStep * g.stepScaling)) := by
  intro q
  obtain ⟨n, st, hv, h2, h3, h4⟩ := optimize_end c g S lin old rhs2 o0 i0 hf (by omega)
  obtain ⟨i1, i2⟩ := visit_inv c g hg S lin (start c S lin old rhs2) one_pos one_pos n st hv
  have hb := body_stop h3
  rcases hb with ⟨a1, a2, a3, a4, a5, a6, a7⟩ | ⟨b1, b2⟩ | ⟨o, io, fb, sc, e, ho, hfb⟩
  · refine ⟨by show _ = _; rw [a4, a3], ?_⟩
    show (0 < (optimize c g S lin old rhs2 o0 i0).1.opt.tau ∧ _) ∨ _
    rw [a3, a6, a7]
    refine i2.imp id fun hh => ⟨?_, hh⟩
    have hc := check_codes g true (computeResiduals c S st.opt) (updateStatistics c g S st.opt (computeResiduals c S st.opt)) st.opt
    rw [← a1] at hc
    simp only [if_true, List.mem_cons, List.not_mem_nil, or_false] at hc ⊢
    tauto
  · have hq : q = _ := b1
    rw [hq]
    refine ⟨rfl, ?_⟩
    exact i2.imp id fun hh => ⟨by simp, hh⟩
  · have hq : q = _ := e
    obtain ⟨f1, f2, f3, f4⟩ := reduced_fields g (computeResiduals c S st.opt) o io fb sc n st.step
    rw [hq, f1, f2]
    rcases ho with ⟨hn, rfl, rfl⟩ | ⟨rfl, rfl, hns⟩ | ⟨_, hm0, _⟩
    · exact ⟨(i1 hn).1, Or.inl (i1 hn).2⟩
    · exact ⟨rfl, Or.inl (i2.resolve_right hns)⟩
    · omega

/-- C21: slack and dual of the returned iterate lie strictly inside the cones (with the same exception), provided the iterates
at which steps were computed kept the distance from the boundary required by the safe division of the scalings. -/
theorem C21_returned_inside (c : Cone) (hne : c.NoEmpty) (g : Stg) (hg : g.Sane) (S : Storage) (lin : LinOracle)
    (old : Pt × Info) (rhs2 : Tri) (o0 : Pt) (i0 : Info) (hf : lin.fact 0 = true) (hm : 1 ≤ g.maxIters)
    (hdom : ∀ n st st', Visits c g S lin (start c S lin old rhs2) n st → body c g S lin n st = .next st' →
      c.ScalingDomain st.opt.s st.opt.z) :
    let q := (optimize c g S lin old rhs2 o0 i0).1
    Inside c q.opt ∨
      (q.code ∈ [ExitCode.optimal, .dualInf, .primalInf, .indeterminate] ∧ 0 < q.iter ∧ q.step = g.minStep * g.stepScaling) := by
  intro q
  obtain ⟨n, st, hv, h2, h3, h4⟩ := optimize_end c g S lin old rhs2 o0 i0 hf (by omega)
  have h00 : Inside c (start c S lin old rhs2).opt :=
    ⟨(C17_projection c hne _).1, (C17_projection c hne _).1, one_pos, one_pos⟩
  obtain ⟨i1, i2⟩ := visit_inside c hne g hg S lin (start c S lin old rhs2) h00 hdom n st hv
  have hb := body_stop h3
  rcases hb with ⟨a1, a2, a3, a4, a5, a6, a7⟩ | ⟨b1, b2⟩ | ⟨o, io, fb, sc, e, ho, hfb⟩
  · show Inside c (optimize c g S lin old rhs2 o0 i0).1.opt ∨ _
    rw [a3, a6, a7]
    refine i2.imp id fun hh => ⟨?_, hh⟩
    have hc := check_codes g true (computeResiduals c S st.opt) (updateStatistics c g S st.opt (computeResiduals c S st.opt)) st.opt
    rw [← a1] at hc
    simp only [if_true, List.mem_cons, List.not_mem_nil, or_false] at hc ⊢
    tauto
  · have hq : q = _ := b1
    rw [hq]
    exact i2.imp id fun hh => ⟨by simp, hh⟩
  · have hq : q = _ := e
    obtain ⟨f1, f2, f3, f4⟩ := reduced_fields g (computeResiduals c S st.opt) o io fb sc n st.step
    rw [hq, f1]
    rcases ho with ⟨hn, rfl, rfl⟩ | ⟨rfl, rfl, hns⟩ | ⟨_, hm0, _⟩
    · exact Or.inl (i1 hn)
    · exact Or.inl (i2.resolve_right hns)
    · omega

/-- The tolerances in force for an exit code: the full ones, or the reduced ones of the `Inacc` codes. -/
def tolF (g : Stg) (code : ExitCode) : ℝ :=
  if code = .optimal ∨ code = .dualInf ∨ code = .primalInf then g.feastol else g.feastolInacc
/-- Absolute gap tolerance in force. -/
def tolA (g : Stg) (code : ExitCode) : ℝ := if code = .optimal then g.abstol else g.abstolInacc
/-- Relative gap tolerance in force. -/
def tolR (g : Stg) (code : ExitCode) : ℝ := if code = .optimal then g.reltol else g.reltolInacc

/-- The conditions behind an exit code of the convergence check. -/
theorem check_spec (g : Stg) (full : Bool) (r : Res) (i : Info) (o : Pt) :
    ((convergenceCheck g full r i o = .optimal ∨ convergenceCheck g full r i o = .optimalInacc) →
      i.pres < tolF g (convergenceCheck g full r i o) ∧ i.dres < tolF g (convergenceCheck g full r i o) ∧
      (i.gap < tolA g (convergenceCheck g full r i o) ∨ i.relgap < tolR g (convergenceCheck g full r i o))) ∧
    ((convergenceCheck g full r i o = .dualInf ∨ convergenceCheck g full r i o = .dualInfInacc) →
      i.dinf ≠ nanv ∧ i.dinf < tolF g (convergenceCheck g full r i o) ∧ o.tau < o.kappa) ∧
    ((convergenceCheck g full r i o = .primalInf ∨ convergenceCheck g full r i o = .primalInfInacc) →
      i.pinf < tolF g (convergenceCheck g full r i o) ∧
      ((i.pinf ≠ nanv ∧ o.tau < o.kappa) ∨
        (o.tau < tolF g (convergenceCheck g full r i o) ∧ o.kappa < tolF g (convergenceCheck g full r i o)))) := by
  cases full
  · unfold convergenceCheck
    simp only [Bool.false_eq_true, if_false]
    split
    · rename_i h; simp [tolF, tolA, tolR]; tauto
    · split
      · rename_i h; simp [tolF]; tauto
      · split
        · rename_i h; simp [tolF]; tauto
        · simp
  · unfold convergenceCheck
    simp only [if_true]
    split
    · rename_i h; simp [tolF, tolA, tolR]; tauto
    · split
      · rename_i h; simp [tolF]; tauto
      · split
        · rename_i h; simp [tolF]; tauto
        · simp

/-- The code of a successful exit is the one of a convergence check on the returned iterate and the reported numbers. -/
theorem exit_check (c : Cone) (g : Stg) (S : Storage) (lin : LinOracle) (old : Pt × Info) (rhs2 : Tri)
    (o0 : Pt) (i0 : Info) (hcode : (optimize c g S lin old rhs2 o0 i0).1.code ∈
      [ExitCode.optimal, .optimalInacc, .dualInf, .dualInfInacc, .primalInf, .primalInfInacc]) :
    let q := (optimize c g S lin old rhs2 o0 i0).1
    (∃ full r, q.code = convergenceCheck g full r q.info q.opt) ∧ q.scaled = true := by
  intro q
  by_cases hf : lin.fact 0 = true
  · rcases lt_or_ge g.maxIters 0 with hm | hm
    · have hfu : (g.maxIters + 1).toNat = 0 := by omega
      have hq : (optimize c g S lin old rhs2 o0 i0).1 = ⟨.indeterminate, initPt c S lin rhs2, true, i0, 0, 0⟩ := by
        unfold optimize; rw [if_pos hf, hfu]; rfl
      rw [hq] at hcode; simp at hcode
    · obtain ⟨n, st, hv, h2, h3, h4⟩ := optimize_end c g S lin old rhs2 o0 i0 hf hm
      rcases body_stop h3 with ⟨a1, a2, a3, a4, a5, a6, a7⟩ | ⟨b1, b2⟩ | ⟨o, io, fb, sc, e, _, hfb⟩
      · refine ⟨⟨true, computeResiduals c S st.opt, ?_⟩, a5⟩
        show (optimize c g S lin old rhs2 o0 i0).1.code = _
        rw [a1]
        show _ = convergenceCheck g true _ (optimize c g S lin old rhs2 o0 i0).1.info (optimize c g S lin old rhs2 o0 i0).1.opt
        rw [a3, a4]
      · rw [b1] at hcode; simp at hcode
      · have hq : q = _ := e
        obtain ⟨f1, f2, f3, f4⟩ := reduced_fields g (computeResiduals c S st.opt) o io fb sc n st.step
        rw [hq, f1, f2]
        rcases reduced_code g (computeResiduals c S st.opt) o io fb sc n st.step with ⟨k1, k2⟩ | ⟨k1, k2, k3⟩
        · rw [e, k1] at hcode
          rcases hfb with ⟨rfl, _⟩ | ⟨rfl, _, hn⟩ | ⟨rfl, _, _⟩ <;> simp at hcode
        · exact ⟨⟨false, _, k1.symm⟩, k3⟩
  · have hq : (optimize c g S lin old rhs2 o0 i0).1 = ⟨.indeterminate, o0, false, i0, 0, 0⟩ := by
      unfold optimize; rw [if_neg hf]
    rw [hq] at hcode; simp at hcode

theorem abs_le_norm (n : Nat) (v : Nat → ℝ) (k : Nat) (hk : k < n) : |v k| ≤ norm n v := by
  unfold norm
  rw [← Real.sqrt_sq_eq_abs]
  exact Real.sqrt_le_sqrt (Finset.single_le_sum (f := fun k => v k ^ 2) (fun i _ => sq_nonneg _) (mem_range.2 hk))

theorem norm_congr (n : Nat) (u v : Nat → ℝ) (h : ∀ k < n, u k = v k) : norm n u = norm n v := by
  unfold norm
  congr 1
  exact sum_congr rfl fun k hk => by rw [h k (mem_range.1 hk)]

theorem norm_neg (n : Nat) (v : Nat → ℝ) : norm n (fun k => -v k) = norm n v := by
  unfold norm
  congr 1
  exact sum_congr rfl fun k _ => by ring

theorem flat_parts (c : Cone) (p : Pt) :
    (∀ k < c.nvars, ox c (flat c p) k = p.x k) ∧ (∀ k < c.neq, oy c (flat c p) k = p.y k) ∧
    (∀ k < c.sizecone, oz c (flat c p) k = p.z k) ∧ (∀ k < c.sizecone, os c (flat c p) k = p.s k) ∧ otau c (flat c p) = p.tau := by
  have h1 : c.sizeproblem = c.nvars + (c.neq + c.sizecone) := rfl
  refine ⟨fun k hk => ?_, fun k hk => ?_, fun k hk => ?_, fun k hk => ?_, ?_⟩
  · simp [ox, flat, hk]
  · have a : ¬ c.nvars + k < c.nvars := by omega
    simp [oy, flat, hk]
  · have a : ¬ c.nvars + c.neq + k < c.nvars := by omega
    have b : ¬ c.nvars + c.neq + k < c.nvars + c.neq := by omega
    have d : c.nvars + c.neq + k < c.sizeproblem := by omega
    simp [oz, flat, a, d]
  · have a : ¬ c.sizeproblem + 2 + k < c.nvars := by omega
    have b : ¬ c.sizeproblem + 2 + k < c.nvars + c.neq := by omega
    have d : ¬ c.sizeproblem + 2 + k < c.sizeproblem := by omega
    have e : ¬ c.sizeproblem + 2 + k = c.sizeproblem := by omega
    have f : ¬ c.sizeproblem + 2 + k = c.sizeproblem + 1 := by omega
    simp [os, flat, a, b, d, e, f]
  · have a : ¬ c.sizeproblem < c.nvars := by omega
    have b : ¬ c.sizeproblem < c.nvars + c.neq := by omega
    simp [otau, flat, a, b]

end IP
end Verif
