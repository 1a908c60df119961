import Verif.Lqr
import Mathlib.Tactic.Linarith
import Mathlib.Tactic.NormNum
import Mathlib.Tactic.Ring

/-! C38: the forward pass rolls out the dynamics under saturated controls. -/
namespace Verif
namespace Lqr
open Matrix

/-! ### specification -/

/-- Saturation of a value to an interval. -/
noncomputable def saturate (lo hi v : ℝ) : ℝ := max lo (min hi v)

/-- A trajectory is the exact rollout of the dynamics from its initial state. -/
def Consistent {nx nu : Nat} (o : Ocp nx nu) (c : Setting nu) (xs : Nat → Vec nx) (us : Nat → Control nx nu) : Prop :=
  ∀ t, t < o.tdim → xs (t + 1) = step o c (xs t) (us t) t

/-- Cost of a trajectory: stage costs, and the final cost with zero control. -/
noncomputable def trajCost {nx nu : Nat} (o : Ocp nx nu) (xs : Nat → Vec nx) (us : Nat → Control nx nu) : ℝ :=
  ∑ t ∈ Finset.range o.tdim, o.obj (xs t) (us t) t false + o.obj (xs o.tdim) ⟨0, 0⟩ o.tdim true

/-! ### proofs -/

theorem clamp1_eq (lo hi v : ℝ) : clamp1 lo hi v = saturate lo hi v := by
  unfold clamp1 saturate
  simp only
  have hm : (if v ≥ hi then hi else v) = min hi v := by
    split
    · next h => rw [min_eq_left h]
    · next h => rw [min_eq_right (not_le.mp h).le]
  rw [hm]
  split
  · next h => rw [max_eq_left h]
  · next h => rw [max_eq_right (not_le.mp h).le]

/-- Invariant of the forward pass. -/
structure FInv {nx nu : Nat} (o : Ocp nx nu) (c : Setting nu) (xs : Nat → Vec nx) (us : Nat → Control nx nu) (n : Nat) (f : Fwd nx nu) : Prop where
  first : f.xs 0 = xs 0
  roll : ∀ t, t < n → f.xs (t + 1) = step o c (f.xs t) (f.us t) t
  fb : ∀ t, (f.us t).fb = (us t).fb
  ff : ∀ t, t < n → ∀ i, (f.us t).ff i = if c.hasLimits then saturate (c.minU i) (c.maxU i) (((us t).ff + (us t).fb *ᵥ (f.xs t - xs t)) i)
    else ((us t).ff + (us t).fb *ᵥ (f.xs t - xs t)) i
  cost : ∀ t, t < n → f.cost t = o.obj (f.xs t) (f.us t) t false
  div : f.diverged = true ↔ ∃ t, t < n ∧ ∃ i, |f.xs (t + 1) i| > c.divLimit

theorem finv {nx nu : Nat} (o : Ocp nx nu) (c : Setting nu) (xs : Nat → Vec nx) (us : Nat → Control nx nu) (n : Nat) : FInv o c xs us n (fwdLoop o c xs us n) := by
  induction n with
  | zero =>
    exact ⟨rfl, fun t h => absurd h (by omega), fun t => rfl, fun t h => absurd h (by omega), fun t h => absurd h (by omega), by simp [fwdLoop]⟩
  | succ n ih =>
    rw [fwdLoop]
    generalize fwdLoop o c xs us n = f at ih ⊢
    have hx : ∀ t, t ≤ n → (fwdBody o c xs us n f).xs t = f.xs t := fun t ht => by
      simp only [fwdBody]; rw [Function.update_of_ne (by omega)]
    have hu : ∀ t, t ≠ n → (fwdBody o c xs us n f).us t = f.us t := fun t ht => by
      simp only [fwdBody]; rw [Function.update_of_ne ht]
    have hc : ∀ t, t ≠ n → (fwdBody o c xs us n f).cost t = f.cost t := fun t ht => by
      simp only [fwdBody]; rw [Function.update_of_ne ht]
    have hnew : (fwdBody o c xs us n f).xs (n + 1) = step o c (f.xs n) ((fwdBody o c xs us n f).us n) n := by
      simp only [fwdBody, Function.update_self]
    refine ⟨?_, ?_, ?_, ?_, ?_, ?_⟩
    · rw [hx 0 (by omega)]; exact ih.first
    · intro t ht
      rcases Nat.lt_succ_iff_lt_or_eq.mp ht with h | rfl
      · rw [hx _ h, hx t (by omega), hu t (by omega)]; exact ih.roll t h
      · rw [hnew, hx t le_rfl]
    · intro t
      by_cases h : t = n
      · subst h; simp only [fwdBody, Function.update_self]; exact ih.fb t
      · rw [hu t h]; exact ih.fb t
    · intro t ht i
      rcases Nat.lt_succ_iff_lt_or_eq.mp ht with h | rfl
      · rw [hx t (by omega), hu t (by omega)]; exact ih.ff t h i
      · rw [hx t le_rfl]
        simp only [fwdBody, Function.update_self]
        split
        · exact clamp1_eq _ _ _
        · rfl
    · intro t ht
      rcases Nat.lt_succ_iff_lt_or_eq.mp ht with h | rfl
      · rw [hx t (by omega), hu t (by omega), hc t (by omega)]; exact ih.cost t h
      · rw [hx t le_rfl]; simp only [fwdBody, Function.update_self]
    · have hd : (fwdBody o c xs us n f).diverged = (f.diverged || decide (∃ i, |(fwdBody o c xs us n f).xs (n + 1) i| > c.divLimit)) := by
        rw [hnew]; simp only [fwdBody, Function.update_self]
      rw [hd, Bool.or_eq_true, ih.div, decide_eq_true_eq]
      constructor
      · rintro (⟨t, ht, i, hi⟩ | ⟨i, hi⟩)
        · exact ⟨t, by omega, i, by rw [hx _ ht]; exact hi⟩
        · exact ⟨n, by omega, i, hi⟩
      · rintro ⟨t, ht, i, hi⟩
        rcases Nat.lt_succ_iff_lt_or_eq.mp ht with h | rfl
        · exact .inl ⟨t, h, i, by rw [hx _ h] at hi; exact hi⟩
        · exact .inr ⟨i, hi⟩

/-- C38. For all dynamics, objectives, horizons, nominal trajectories and controllers: the stored trajectory starts at the nominal initial state and is
exactly the dynamics rolled out under the stored controls; these are the nominal feedforward plus feedback on the deviation from the nominal state, saturated to the limits
if limits are enabled (so within them when they are consistent); the feedback gains are kept; the reported cost is the cost of that trajectory, and divergence is
reported iff some state after the first exceeds the limit. -/
theorem C38_rollout {nx nu : Nat} (o : Ocp nx nu) (c : Setting nu) (xs : Nat → Vec nx) (us : Nat → Control nx nu) :
    let f := applyController o c xs us
    f.xs 0 = xs 0 ∧ Consistent o c f.xs f.us ∧
    (∀ t, t < o.tdim → (f.us t).fb = (us t).fb ∧ ∀ i,
      (f.us t).ff i = if c.hasLimits then saturate (c.minU i) (c.maxU i) (((us t).ff + (us t).fb *ᵥ (f.xs t - xs t)) i)
        else ((us t).ff + (us t).fb *ᵥ (f.xs t - xs t)) i) ∧
    (c.hasLimits = true → (∀ i, c.minU i ≤ c.maxU i) → ∀ t, t < o.tdim → ∀ i, c.minU i ≤ (f.us t).ff i ∧ (f.us t).ff i ≤ c.maxU i) ∧
    f.total o = trajCost o f.xs f.us ∧
    (f.diverged = true ↔ ∃ t, t < o.tdim ∧ ∃ i, |f.xs (t + 1) i| > c.divLimit) := by
  have h := finv o c xs us o.tdim
  unfold applyController Fwd.total trajCost
  simp only
  generalize fwdLoop o c xs us o.tdim = f at h ⊢
  refine ⟨h.first, h.roll, fun t ht => ⟨h.fb t, h.ff t ht⟩, fun hl hm t ht i => ?_, ?_, h.div⟩
  · rw [h.ff t ht i, if_pos hl]
    exact ⟨le_max_left _ _, max_le (hm i) (min_le_left _ _)⟩
  · rw [Finset.sum_range_succ, Function.update_self]
    congr 1
    refine Finset.sum_congr rfl fun t ht => ?_
    rw [Finset.mem_range] at ht
    rw [Function.update_of_ne (by omega), h.cost t ht]

/-- A case with limits enabled, in which a control is saturated: `x' = x + u`, feedforward 5, limits ±1. -/
example : let o : Ocp 1 1 := ⟨1, fun _ u _ => u.ff, fun _ _ _ _ => 0⟩
    let c : Setting 1 := ⟨false, true, fun _ => -1, fun _ => 1, 100, [1], 1, 1, 2, 1, 10, 0, 0, 5, fun _ _ _ _ => 0⟩
    (∀ i, c.minU i ≤ c.maxU i) ∧ ((applyController o c (fun _ => 0) (fun _ => ⟨fun _ => 5, 0⟩)).us 0).ff = (fun _ => 1) := by
  refine ⟨fun _ => by norm_num, ?_⟩
  funext i
  have := ((C38_rollout (⟨1, fun _ u _ => u.ff, fun _ _ _ _ => 0⟩ : Ocp 1 1) ⟨false, true, fun _ => -1, fun _ => 1, 100, [1], 1, 1, 2, 1, 10, 0, 0, 5, fun _ _ _ _ => 0⟩
    (fun _ => 0) (fun _ => ⟨fun _ => 5, 0⟩)).2.2.1 0 one_pos).2 i
  simp only at this ⊢
  rw [this]
  simp [saturate]

end Lqr
end Verif
