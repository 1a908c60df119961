import Verif.LqrBackProps
import Verif.LqrForwardProps
import Verif.LqrFdProps
import Mathlib.Algebra.Order.Archimedean.Basic
import Mathlib.Tactic.Positivity

/-! C39, C40, C41, C65: the LQR solver's main loop. -/
namespace Verif
namespace Lqr
open Matrix

/-! ### C39 -/

/-- What a forward pass guarantees. -/
theorem apply_facts {nx nu : Nat} (o : Ocp nx nu) (c : Setting nu) (xs : Nat → Vec nx) (us : Nat → Control nx nu) :
    (applyController o c xs us).xs 0 = xs 0 ∧ Consistent o c (applyController o c xs us).xs (applyController o c xs us).us ∧
    (applyController o c xs us).total o = trajCost o (applyController o c xs us).xs (applyController o c xs us).us := by
  obtain ⟨h1, h2, -, -, h5, -⟩ := C38_rollout o c xs us
  exact ⟨h1, h2, h5⟩

theorem initialPass_spec {nx nu : Nat} (o : Ocp nx nu) (c : Setting nu) (xs : Nat → Vec nx) (us : Nat → Control nx nu) : ∀ (l : List ℝ) (f : Fwd nx nu), l ≠ [] →
    ∃ a ∈ l, initialPass o c xs us l f = applyController o c xs fun t => (us t).scale a := by
  intro l
  induction l with
  | nil => intro f h; exact absurd rfl h
  | cons a l ih =>
    intro f _
    rw [initialPass]
    split
    · by_cases hl : l = []
      · subst hl; exact ⟨a, by simp, rfl⟩
      · obtain ⟨a', ha', h⟩ := ih (applyController o c xs fun t => (us t).scale a) hl
        exact ⟨a', List.mem_cons_of_mem _ ha', h⟩
    · exact ⟨a, by simp, rfl⟩

theorem lineSearch_spec {nx nu : Nat} (o : Ocp nx nu) (c : Setting nu) (xs : Nat → Vec nx) (us dir : Nat → Control nx nu) (cost : ℝ) : ∀ (l : List ℝ) (f : Fwd nx nu) (a : ℝ),
    (lineSearch o c xs us dir cost l f).1 = some a →
    a ∈ l ∧ (lineSearch o c xs us dir cost l f).2 = applyController o c xs (fun t => (us t).add ((dir t).scale a)) ∧
    0 < cost - (lineSearch o c xs us dir cost l f).2.total o - 10 ^ 10 * (if (lineSearch o c xs us dir cost l f).2.diverged then 1 else 0) := by
  intro l
  induction l with
  | nil => intro f a h; cases h
  | cons a l ih =>
    intro f a' h
    rw [lineSearch] at h ⊢
    generalize hf : (applyController o c xs fun t => (us t).add ((dir t).scale a)) = g at h ⊢
    by_cases hacc : cost - g.total o - 10 ^ 10 * (if g.diverged then 1 else 0) > 0
    · rw [if_pos hacc] at h ⊢
      injection h with h
      subst h
      exact ⟨by simp, hf.symm, hacc⟩
    · rw [if_neg hacc] at h ⊢
      obtain ⟨h1, h2, h3⟩ := ih _ a' h
      exact ⟨List.mem_cons_of_mem _ h1, h2, h3⟩

/-- The trajectory part of a result. -/
def Res.state {nx nu : Nat} : Res nx nu → St nx nu
  | .next s => s
  | .exit _ s => s

/-- Accepted step: strictly lower cost, larger than 10^10 if the divergence limit is exceeded; consistent trajectory from the same initial state. -/
def Accepts {nx nu : Nat} (o : Ocp nx nu) (c : Setting nu) (s s' : St nx nu) : Prop :=
  s'.cost < s.cost ∧ s'.cost = trajCost o s'.xs s'.us ∧ Consistent o c s'.xs s'.us ∧ s'.xs 0 = s.xs 0 ∧
  (s'.cost < s.cost - 10 ^ 10 ∨ ∀ t, t < o.tdim → ∀ i, |s'.xs (t + 1) i| ≤ c.divLimit)

/-- C39, one iteration: for all problems, settings and states, an iteration of the main loop, whether it continues or leaves the loop, either leaves the accepted
trajectory and its cost unchanged, or replaces them by a dynamically consistent trajectory of strictly lower cost from the same initial state. -/
theorem C39_iteration {nx nu : Nat} (o : Ocp nx nu) (c : Setting nu) (s : St nx nu) (n : Nat) (r : Res nx nu) (h : Iter o c s n r) :
    (r.state.xs = s.xs ∧ r.state.us = s.us ∧ r.state.cost = s.cost) ∨ Accepts o c s r.state := by
  cases h with
  | @mk ok b reg mult d hd hb =>
    unfold finish
    simp only
    split
    · exact .inl ⟨rfl, rfl, rfl⟩
    · generalize hls : (if ok = true then lineSearch o c s.xs s.us b.ctrl s.cost c.coeffs s.fwd else (none, s.fwd)) = ls
      obtain ⟨l1, f⟩ := ls
      cases l1 with
      | none =>
        simp only
        by_cases hq : (raise c reg mult).1 > c.maxReg
        · rw [if_pos hq]; exact .inl ⟨rfl, rfl, rfl⟩
        · rw [if_neg hq]; exact .inl ⟨rfl, rfl, rfl⟩
      | some a =>
        have hok : ok = true := by
          by_contra hne
          rw [if_neg hne] at hls
          cases hls
        rw [if_pos hok] at hls
        obtain ⟨-, h2, h3⟩ := lineSearch_spec o c s.xs s.us b.ctrl s.cost c.coeffs s.fwd a (by rw [hls])
        rw [hls] at h2 h3
        simp only at h2 h3
        obtain ⟨-, -, -, -, -, g6⟩ := C38_rollout o c s.xs (fun t => (s.us t).add ((b.ctrl t).scale a))
        obtain ⟨g1, g2, g3⟩ := apply_facts o c s.xs (fun t => (s.us t).add ((b.ctrl t).scale a))
        rw [← h2] at g1 g2 g3 g6
        have key : ∀ s' : St nx nu, s'.cost = f.total o → s'.xs = f.xs → s'.us = f.us → Accepts o c s s' := by
          intro s' e1 e2 e3
          refine ⟨?_, ?_, ?_, ?_, ?_⟩
          · rw [e1]
            split at h3
            · linarith [h3]
            · linarith [h3]
          · rw [e1, e2, e3, g3]
          · rw [e2, e3]; exact g2
          · rw [e2]; exact g1
          · cases hdv : f.diverged with
            | true => left; rw [hdv] at h3; simp only [if_true] at h3; rw [e1]; linarith
            | false =>
              right
              intro t ht i
              by_contra hcon
              have := g6.mpr ⟨t, ht, i, by rw [e2, not_le] at hcon; exact hcon⟩
              rw [hdv] at this; cases this
        right
        simp only
        by_cases hq : |s.cost - f.total o - 10 ^ 10 * (if f.diverged then 1 else 0)| < c.costTol
        · rw [if_pos hq]; exact key _ rfl rfl rfl
        · rw [if_neg hq]; exact key _ rfl rfl rfl

/-- C39, whole runs: for every call of `optimize` with at least one line-search coefficient, at every iteration the accepted trajectory is dynamically
consistent, starts at the problem's initial state and has the recorded cost; costs never increase; if the initial simulation diverges the trajectory
is left as it was. -/
theorem C39_run {nx nu : Nat} (o : Ocp nx nu) (c : Setting nu) (hc : c.coeffs ≠ []) (xs : Nat → Vec nx) (us : Nat → Control nx nu) (f0 : Fwd nx nu) (d0 : Devs nx nu)
    (b0 : Bwd nx nu) :
    (∀ s m, Reach o c (start o c xs us f0 d0 b0) s m → Consistent o c s.xs s.us ∧ s.xs 0 = xs 0 ∧ s.cost = trajCost o s.xs s.us ∧
      s.cost ≤ (start o c xs us f0 d0 b0).cost) ∧
    (∀ e s m, Run o c xs us f0 d0 b0 e s m → (e = .divergence ∧ s.xs = xs ∧ s.us = us) ∨
      (Consistent o c s.xs s.us ∧ s.xs 0 = xs 0 ∧ s.cost = trajCost o s.xs s.us ∧ s.cost ≤ (start o c xs us f0 d0 b0).cost)) := by
  have hR : ∀ s m, Reach o c (start o c xs us f0 d0 b0) s m → Consistent o c s.xs s.us ∧ s.xs 0 = xs 0 ∧ s.cost = trajCost o s.xs s.us ∧
      s.cost ≤ (start o c xs us f0 d0 b0).cost := by
    intro s m h
    induction h with
    | start =>
      obtain ⟨a, -, ha⟩ := initialPass_spec o c xs us c.coeffs f0 hc
      obtain ⟨g1, g2, g3⟩ := apply_facts o c xs (fun t => (us t).scale a)
      unfold start
      simp only
      rw [ha]
      exact ⟨g2, g1, g3, le_rfl⟩
    | @iter s s' n m h hc hi ih =>
      rcases C39_iteration o c s n _ hi with ⟨e1, e2, e3⟩ | ⟨a1, a2, a3, a4, -⟩
      · simp only [Res.state] at e1 e2 e3
        rw [e1, e2, e3]; exact ih
      · simp only [Res.state] at a1 a2 a3 a4
        exact ⟨a3, a4.trans ih.2.1, a2, a1.le.trans ih.2.2.2⟩
  refine ⟨hR, fun e s m hrun => ?_⟩
  cases hrun with
  | diverged h => exact .inl ⟨rfl, rfl, rfl⟩
  | maxIter h0 h hc => exact .inr (hR _ _ h)
  | @exit s s' e n m h0 h hc hi =>
    right
    have ih := hR _ _ h
    rcases C39_iteration o c s n _ hi with ⟨e1, e2, e3⟩ | ⟨a1, a2, a3, a4, -⟩
    · simp only [Res.state] at e1 e2 e3
      rw [e1, e2, e3]; exact ih
    · simp only [Res.state] at a1 a2 a3 a4
      exact ⟨a3, a4.trans ih.2.1, a2, a1.le.trans ih.2.2.2⟩

/-- C37: at every iteration of every run, the derivatives on which the backward pass works are those of the current trajectory
(they are recomputed after every accepted step, and reused only while the trajectory is unchanged). -/
theorem C37_fresh_derivatives {nx nu : Nat} (o : Ocp nx nu) (c : Setting nu) (xs : Nat → Vec nx) (us : Nat → Control nx nu)
    (f0 : Fwd nx nu) (d0 : Devs nx nu) (b0 : Bwd nx nu) (s : St nx nu) (m : Nat)
    (h : Reach o c (start o c xs us f0 d0 b0) s m) :
    (if s.devsFlag then derivatives o c s.xs s.us else s.devs) = derivatives o c s.xs s.us := by
  induction h with
  | start => exact if_pos rfl
  | @iter s s' n m h hc hi ih =>
    generalize hr : Res.next s' = r at hi
    cases hi with
    | @mk ok b reg mult d hd hb =>
      rw [ih] at hd
      unfold finish at hr
      simp only at hr
      split at hr
      · cases hr
      · generalize (if ok = true then lineSearch o c s.xs s.us b.ctrl s.cost c.coeffs s.fwd else (none, s.fwd)) = ls at hr
        rcases ls with ⟨_ | a, f⟩
        · simp only at hr
          split at hr
          · cases hr
          · injection hr with hr; subst hr
            simp only [Bool.false_eq_true, if_false]
            exact hd
        · simp only at hr
          generalize |s.cost - f.total o - 10 ^ 10 * (if f.diverged = true then 1 else 0)| = q at hr
          by_cases hq : q < c.costTol
          · rw [if_pos hq] at hr; cases hr
          · rw [if_neg hq] at hr; injection hr with hr; subst hr; exact if_pos rfl

/-! ### C40 -/

theorem raise_pos {nu : Nat} (c : Setting nu) (reg mult : ℝ) :
    c.minReg ≤ (raise c reg mult).1 ∧ c.incr ≤ (raise c reg mult).2 ∧ (0 < reg → reg * c.incr ≤ (raise c reg mult).1) := by
  unfold raise
  refine ⟨le_max_right _ _, le_max_right _ _, fun h => ?_⟩
  exact (mul_le_mul_of_nonneg_left (le_max_right _ _) h.le).trans (le_max_left _ _)

theorem back_exists {nx nu : Nat} (o : Ocp nx nu) (c : Setting nu) (hmin : 0 < c.minReg) (hinc : 1 < c.incr) (N : Nat)
    (d : Devs nx nu) (tc : Nat → ℝ) (u0 : Nat → Control nx nu) : ∀ (k : Nat) (b : Bwd nx nu) (reg mult : ℝ), c.maxReg < c.minReg * c.incr ^ N → k ≤ N →
      c.minReg * c.incr ^ k ≤ reg → ∃ n r, n ≤ N - k + 1 ∧ Back o c d tc u0 b reg mult n r := by
  intro k b reg mult hN hk hreg
  induction hj : N - k generalizing k b reg mult with
  | zero =>
    cases hdv : (backward o.tdim c d tc u0 reg b).diverged with
    | false => exact ⟨1, _, by omega, .ok hdv⟩
    | true =>
      refine ⟨1, _, by omega, .stop hdv ?_⟩
      have hkN : k = N := by omega
      subst hkN
      have h0 : 0 < reg := lt_of_lt_of_le (by positivity) hreg
      have := (raise_pos c reg mult).2.2 h0
      nlinarith
  | succ j ih =>
    cases hdv : (backward o.tdim c d tc u0 reg b).diverged with
    | false => exact ⟨1, _, by omega, .ok hdv⟩
    | true =>
      by_cases hmax : (raise c reg mult).1 > c.maxReg
      · exact ⟨1, _, by omega, .stop hdv hmax⟩
      · have h0 : 0 < reg := lt_of_lt_of_le (by positivity) hreg
        have hr := (raise_pos c reg mult).2.2 h0
        obtain ⟨n, r, hn, hb⟩ := ih (k + 1) (backward o.tdim c d tc u0 reg b) (raise c reg mult).1 (raise c reg mult).2 (by omega) (by
          rw [pow_succ, ← mul_assoc]
          exact (mul_le_mul_of_nonneg_right hreg (by linarith)).trans hr) (by omega)
        exact ⟨n + 1, r, by omega, .again hdv hmax hb⟩

theorem back_total {nx nu : Nat} (o : Ocp nx nu) (c : Setting nu) (hmin : 0 < c.minReg) (hinc : 1 < c.incr) (N : Nat) (hN : c.maxReg < c.minReg * c.incr ^ N)
    (d : Devs nx nu) (tc : Nat → ℝ) (u0 : Nat → Control nx nu) (b : Bwd nx nu) (reg mult : ℝ) : ∃ n r, n ≤ N + 2 ∧ Back o c d tc u0 b reg mult n r := by
  cases hdv : (backward o.tdim c d tc u0 reg b).diverged with
  | false => exact ⟨1, _, by omega, .ok hdv⟩
  | true =>
    by_cases hmax : (raise c reg mult).1 > c.maxReg
    · exact ⟨1, _, by omega, .stop hdv hmax⟩
    · obtain ⟨n, r, hn, hb⟩ := back_exists o c hmin hinc N d tc u0 0 (backward o.tdim c d tc u0 reg b) (raise c reg mult).1 (raise c reg mult).2 hN (by omega) (by
        simpa using (raise_pos c reg mult).1)
      exact ⟨n + 1, r, by omega, .again hdv hmax hb⟩

theorem back_unique {nx nu : Nat} {o : Ocp nx nu} {c : Setting nu} {d : Devs nx nu} {tc : Nat → ℝ} {u0 : Nat → Control nx nu} {b : Bwd nx nu} {reg mult : ℝ}
    {n n' : Nat} {r r' : Bool × Bwd nx nu × ℝ × ℝ} (h : Back o c d tc u0 b reg mult n r) (h' : Back o c d tc u0 b reg mult n' r') : n = n' ∧ r = r' := by
  induction h generalizing n' r' with
  | ok h => cases h' with
    | ok _ => exact ⟨rfl, rfl⟩
    | stop h2 _ => rw [h] at h2; cases h2
    | again h2 _ _ => rw [h] at h2; cases h2
  | stop h hm => cases h' with
    | ok h2 => rw [h] at h2; cases h2
    | stop _ _ => exact ⟨rfl, rfl⟩
    | again _ h2 _ => exact absurd hm h2
  | again h hm _ ih => cases h' with
    | ok h2 => rw [h] at h2; cases h2
    | stop _ h2 => exact absurd h2 hm
    | again _ _ h2 => obtain ⟨e1, e2⟩ := ih h2; exact ⟨by rw [e1], e2⟩

theorem iter_bound {nx nu : Nat} {o : Ocp nx nu} {c : Setting nu} (hmin : 0 < c.minReg) (hinc : 1 < c.incr) {N : Nat} (hN : c.maxReg < c.minReg * c.incr ^ N)
    {s : St nx nu} {n : Nat} {r : Res nx nu} (h : Iter o c s n r) : n ≤ N + 2 := by
  cases h with
  | mk d hd hb =>
    obtain ⟨n', r', hn, hb'⟩ := back_total o c hmin hinc N hN d s.fwd.cost s.us s.bwd s.reg s.mult
    obtain ⟨e, -⟩ := back_unique hb hb'
    omega

theorem iter_next {nx nu : Nat} {o : Ocp nx nu} {c : Setting nu} {s s' : St nx nu} {n : Nat} (h : Iter o c s n (.next s')) : s'.iter = s.iter + 1 := by
  generalize hr : Res.next s' = r at h
  cases h with
  | @mk ok b reg mult d hd hb =>
    unfold finish at hr
    simp only at hr
    split at hr
    · cases hr
    · generalize (if ok = true then lineSearch o c s.xs s.us b.ctrl s.cost c.coeffs s.fwd else (none, s.fwd)) = ls at hr
      obtain ⟨l1, l2⟩ := ls
      cases l1 with
      | none =>
        simp only at hr
        split at hr
        · cases hr
        · injection hr with hr; subst hr; rfl
      | some a =>
        simp only at hr
        by_cases hq : |s.cost - l2.total o - 10 ^ 10 * (if l2.diverged then 1 else 0)| < c.costTol
        · rw [if_pos hq] at hr; cases hr
        · rw [if_neg hq] at hr; injection hr with hr; subst hr; rfl

/-- C40. For every problem, every positive minimum regularisation and growth factor above one: `optimize` returns, and there is a bound `N`, depending only on the
three regularisation settings, such that at most `(N + 2)` backward passes are made per iteration, at most `(N + 2) · max(LqrMaxIterations, 0)` in total. -/
theorem C40_terminates {nu : Nat} (c : Setting nu) (hmin : 0 < c.minReg) (hinc : 1 < c.incr) : ∃ N : Nat, c.maxReg < c.minReg * c.incr ^ N ∧
    ∀ {nx : Nat} (o : Ocp nx nu) (xs : Nat → Vec nx) (us : Nat → Control nx nu) (f0 : Fwd nx nu) (d0 : Devs nx nu) (b0 : Bwd nx nu),
      (∃ e s m, Run o c xs us f0 d0 b0 e s m) ∧ ∀ e s m, Run o c xs us f0 d0 b0 e s m → m ≤ (N + 2) * c.maxIters.toNat := by
  obtain ⟨N, hN⟩ := pow_unbounded_of_one_lt (c.maxReg / c.minReg) hinc
  have hN' : c.maxReg < c.minReg * c.incr ^ N := by rw [div_lt_iff₀ hmin] at hN; linarith
  refine ⟨N, hN', fun {nx} o xs us f0 d0 b0 => ⟨?_, ?_⟩⟩
  · by_cases h0 : (initialPass o c xs us c.coeffs f0).diverged = true
    · exact ⟨_, _, _, .diverged h0⟩
    · have h0 : (initialPass o c xs us c.coeffs f0).diverged = false := by simpa using h0
      have key : ∀ (f : Nat) (s : St nx nu) (m : Nat), (c.maxIters - s.iter).toNat ≤ f → Reach o c (start o c xs us f0 d0 b0) s m →
          ∃ e s' m', Run o c xs us f0 d0 b0 e s' m' := by
        intro f
        induction f with
        | zero => intro s m hf hR; exact ⟨_, _, _, .maxIter h0 hR (by omega)⟩
        | succ f ih =>
          intro s m hf hR
          by_cases hc : (s.iter : Int) < c.maxIters
          · obtain ⟨n, r, -, hb⟩ := back_total o c hmin hinc N hN' (if s.devsFlag then derivatives o c s.xs s.us else s.devs) s.fwd.cost s.us s.bwd s.reg s.mult
            obtain ⟨ok, b, reg, mult⟩ := r
            have hi := Iter.mk (o := o) (c := c) _ rfl hb
            generalize finish o c s _ ok b reg mult = res at hi
            cases res with
            | next s' =>
              have := iter_next hi
              exact ih s' (m + n) (by omega) (.iter hR hc hi)
            | exit e s' => exact ⟨_, _, _, .exit h0 hR hc hi⟩
          · exact ⟨_, _, _, .maxIter h0 hR hc⟩
      exact key _ _ _ le_rfl .start
  · have hR : ∀ s m, Reach o c (start o c xs us f0 d0 b0) s m → m ≤ (N + 2) * s.iter ∧ s.iter ≤ c.maxIters.toNat := by
      intro s m h
      induction h with
      | start => simp [start]
      | @iter s s' n m h hc hi ih =>
        have h1 := iter_next hi
        have h2 := iter_bound hmin hinc hN' hi
        rw [h1]
        refine ⟨?_, by omega⟩
        rw [Nat.mul_add, Nat.mul_one]
        omega
    intro e s m hrun
    cases hrun with
    | diverged h => omega
    | maxIter _ h _ =>
      obtain ⟨h1, h2⟩ := hR _ _ h
      exact h1.trans (Nat.mul_le_mul_left _ h2)
    | @exit s s' e n m _ h hc hi =>
      obtain ⟨h1, h2⟩ := hR _ _ h
      have h3 := iter_bound hmin hinc hN' hi
      have : s.iter + 1 ≤ c.maxIters.toNat := by omega
      calc m + n ≤ (N + 2) * s.iter + (N + 2) := by omega
        _ = (N + 2) * (s.iter + 1) := by ring
        _ ≤ _ := Nat.mul_le_mul_left _ this

end Lqr
end Verif
