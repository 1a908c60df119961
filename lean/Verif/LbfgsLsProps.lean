import Verif.Lbfgs
import Mathlib.Tactic.Linarith
import Mathlib.Tactic.NormNum
import Mathlib.Tactic.Ring
import Mathlib.Tactic.Positivity

/-! C27, C28, C62: the line searches of the L-BFGS solver. -/
namespace Verif
namespace Lbfgs

/-! ### specification -/

/-- Sufficient decrease (Armijo) from value `f0` and slope `m0` with parameter `c1`. -/
def Armijo (c1 f0 m0 step f : ℝ) : Prop := f ≤ f0 + c1 * step * m0

/-- Curvature (Wolfe) condition. -/
def Wolfe (c2 m0 m : ℝ) : Prop := c2 * m0 ≤ m

/-- Strong curvature condition. -/
def StrongWolfe (c2 m0 m : ℝ) : Prop := |m| ≤ c2 * |m0|

/-- The outcome is a point of the search ray, with its own value and gradient. -/
def OnRay {n : Nat} (ev : Eval n) (xp d : Vec n) (o : LsOut n) : Prop := o.x = xp + o.stp • d ∧ (o.f, o.g) = ev o.x

/-- What the accepted parameters satisfy. -/
theorem validate_none {n : Int} {p : Params} (h : validate n p = none) :
    0 < n ∧ 0 ≤ p.epsilon ∧ 0 ≤ p.past ∧ 0 ≤ p.delta ∧ 0 ≤ p.minStep ∧ p.minStep ≤ p.maxStep ∧ 0 ≤ p.ftol ∧
    ((p.linesearch = 2 ∨ p.linesearch = 3) → p.ftol < p.wolfe ∧ p.wolfe < 1) ∧ 0 ≤ p.gtol ∧ 0 ≤ p.xtol ∧ 0 < p.maxLinesearch ∧
    (p.linesearch = 0 ∨ p.linesearch = 1 ∨ p.linesearch = 2 ∨ p.linesearch = 3) := by
  unfold validate at h
  by_cases h1 : n ≤ 0
  · rw [if_pos h1] at h; cases h
  rw [if_neg h1] at h
  by_cases h2 : p.epsilon < 0
  · rw [if_pos h2] at h; cases h
  rw [if_neg h2] at h
  by_cases h3 : p.past < 0
  · rw [if_pos h3] at h; cases h
  rw [if_neg h3] at h
  by_cases h4 : p.delta < 0
  · rw [if_pos h4] at h; cases h
  rw [if_neg h4] at h
  by_cases h5 : p.minStep < 0
  · rw [if_pos h5] at h; cases h
  rw [if_neg h5] at h
  by_cases h6 : p.maxStep < p.minStep
  · rw [if_pos h6] at h; cases h
  rw [if_neg h6] at h
  by_cases h7 : p.ftol < 0
  · rw [if_pos h7] at h; cases h
  rw [if_neg h7] at h
  by_cases h8 : (p.linesearch = 2 ∨ p.linesearch = 3) ∧ (p.wolfe ≤ p.ftol ∨ 1 ≤ p.wolfe)
  · rw [if_pos h8] at h; cases h
  rw [if_neg h8] at h
  by_cases h9 : p.gtol < 0
  · rw [if_pos h9] at h; cases h
  rw [if_neg h9] at h
  by_cases h10 : p.xtol < 0
  · rw [if_pos h10] at h; cases h
  rw [if_neg h10] at h
  by_cases h11 : p.maxLinesearch ≤ 0
  · rw [if_pos h11] at h; cases h
  rw [if_neg h11] at h
  by_cases h12 : ¬ (p.linesearch = 0 ∨ p.linesearch = 1 ∨ p.linesearch = 2 ∨ p.linesearch = 3)
  · rw [if_pos h12] at h; cases h
  rw [if_neg h12] at h
  refine ⟨by omega, not_lt.mp h2, by omega, not_lt.mp h4, not_lt.mp h5, not_lt.mp h6, not_lt.mp h7, fun hl => ?_, not_lt.mp h9,
    not_lt.mp h10, by omega, ?_⟩
  · by_contra hc
    apply h8
    refine ⟨hl, ?_⟩
    by_cases hw : p.wolfe ≤ p.ftol
    · exact .inl hw
    · right
      by_contra hw2
      exact hc ⟨not_le.mp hw, not_le.mp hw2⟩
  · exact Classical.not_not.mp h12

/-! ### C27 -/

theorem btLoop_spec {n : Nat} (p : Params) (ev : Eval n) (xp d : Vec n) (finit dginit : ℝ) (hd : dginit ≤ 0) (stp0 : ℝ) :
    ∀ (k count : Nat) (stp : ℝ), (p.maxLinesearch - count).toNat = k → (count : Int) + 1 ≤ p.maxLinesearch → 0 < stp →
      (stp = stp0 ∨ (p.minStep / 2 ≤ stp ∧ stp ≤ 2.1 * p.maxStep)) →
      let o := btLoop p ev xp d finit dginit count stp
      count < o.evals ∧ (o.evals : Int) ≤ p.maxLinesearch ∧ 0 < o.stp ∧ OnRay ev xp d o ∧
      (∀ c, o.ret = .ok c → c = o.evals ∧ Armijo p.ftol finit dginit o.stp o.f ∧
        (p.linesearch ≠ 1 → Wolfe p.wolfe dginit (dot o.g d)) ∧
        (p.linesearch = 3 → StrongWolfe p.wolfe dginit (dot o.g d)) ∧
        (o.stp = stp0 ∨ (p.minStep / 2 ≤ o.stp ∧ o.stp ≤ 2.1 * p.maxStep))) := by
  intro k
  induction k with
  | zero => intro count stp hk hc; omega
  | succ k ih =>
    intro count stp hk hc hs hr
    rw [btLoop]
    simp only
    cases hdec : btDecide p finit dginit stp (ev (xp + stp • d)).1 (dot (ev (xp + stp • d)).2 d) with
    | none =>
      simp only
      refine ⟨by omega, by push_cast; omega, hs, ⟨rfl, rfl⟩, fun c hcx => ?_⟩
      have hc' : count + 1 = c := by injection hcx
      unfold btDecide at hdec
      split at hdec
      · cases hdec
      next harm =>
      have harm' : Armijo p.ftol finit dginit stp (ev (xp + stp • d)).1 := by
        unfold Armijo; rw [gt_iff_lt, not_lt] at harm
        calc _ ≤ _ := harm
          _ = _ := by ring
      refine ⟨hc'.symm, harm', ?_, ?_, hr⟩
      · intro h1
        rw [if_neg h1] at hdec
        split at hdec
        · cases hdec
        next hw => exact not_lt.mp hw
      · intro h3
        rw [if_neg (by omega)] at hdec
        split at hdec
        · cases hdec
        next hw =>
        rw [if_neg (by omega)] at hdec
        split at hdec
        · cases hdec
        next hsw =>
        unfold StrongWolfe
        rw [abs_of_nonpos hd, abs_le]
        constructor <;> linarith [not_lt.mp hw, not_lt.mp hsw]
    | some w =>
      have hw : w = 0.5 ∨ w = 2.1 := by
        unfold btDecide at hdec
        split at hdec
        · injection hdec with h; exact .inl h.symm
        split at hdec
        · cases hdec
        split at hdec
        · injection hdec with h; exact .inr h.symm
        split at hdec
        · cases hdec
        split at hdec
        · injection hdec with h; exact .inl h.symm
        · cases hdec
      simp only
      split
      · exact ⟨by simp, by push_cast; omega, hs, ⟨rfl, rfl⟩, fun c hcx => by cases hcx⟩
      split
      · exact ⟨by simp, by push_cast; omega, hs, ⟨rfl, rfl⟩, fun c hcx => by cases hcx⟩
      split
      · exact ⟨by simp, by push_cast; omega, hs, ⟨rfl, rfl⟩, fun c hcx => by cases hcx⟩
      next h1 h2 h3 =>
      rw [not_lt] at h1 h2
      obtain ⟨a, b⟩ := ih (count + 1) (stp * w) (by push_cast; omega) (by push_cast at *; omega)
        (by rcases hw with rfl | rfl <;> positivity)
        (.inr (by rcases hw with rfl | rfl <;> constructor <;> linarith))
      exact ⟨by omega, b⟩

/-- The loop itself never reports a wrong direction or step. -/
theorem btLoop_err {n : Nat} (p : Params) (ev : Eval n) (xp d : Vec n) (finit dginit : ℝ) :
    ∀ (k count : Nat) (stp : ℝ), (p.maxLinesearch - count).toNat = k →
      (btLoop p ev xp d finit dginit count stp).ret ≠ .error .increaseGradient ∧
      (btLoop p ev xp d finit dginit count stp).ret ≠ .error .invalidParameters := by
  intro k
  induction k with
  | zero =>
    intro count stp hk
    rw [btLoop]
    split
    · simp
    · split_ifs <;> first | (exfalso; omega) | simp
  | succ k ih =>
    intro count stp hk
    rw [btLoop]
    split
    · simp
    · split_ifs
      · simp
      · simp
      · simp
      · exact ih (count + 1) _ (by push_cast; omega)

/-- C27, backtracking line search, for every objective callback, direction, starting point and accepted parameters: at most
`max_linesearch` evaluations; the result is a point of the search ray with positive step and its own value and gradient; on success the
returned count is the number of evaluations and sufficient decrease and the selected curvature condition hold.
Missing for the full C27: the step need not lie in `[min_step, max_step]` (`C27_violated`); it is the initial
step or lies in `[min_step/2, 2.1 max_step]`. -/
theorem C27_backtracking_partial {n : Nat} (p : Params) (hv : validate n p = none) (hls : p.linesearch ≠ 0) (ev : Eval n)
    (xp : Vec n) (f : ℝ) (gp d : Vec n) (stp : ℝ) :
    let o := backtracking p ev xp f gp d stp
    (o.evals : Int) ≤ p.maxLinesearch ∧
    (0 < o.evals → 0 < o.stp ∧ OnRay ev xp d o) ∧
    (o.evals = 0 → o.x = xp ∧ o.f = f ∧ o.g = gp ∧ (o.ret = .error .invalidParameters ∧ stp ≤ 0 ∨
      o.ret = .error .increaseGradient ∧ 0 < dot gp d)) ∧
    (∀ c, o.ret = .ok c → c = o.evals ∧ 0 < o.evals ∧ dot gp d ≤ 0 ∧ Armijo p.ftol f (dot gp d) o.stp o.f ∧
      (p.linesearch ≠ 1 → Wolfe p.wolfe (dot gp d) (dot o.g d)) ∧
      (p.linesearch = 3 → StrongWolfe p.wolfe (dot gp d) (dot o.g d)) ∧
      (o.stp = stp ∨ (p.minStep / 2 ≤ o.stp ∧ o.stp ≤ 2.1 * p.maxStep))) := by
  have hpar := validate_none hv
  obtain ⟨-, -, -, -, -, -, -, -, -, -, hmax, hl⟩ := hpar
  unfold backtracking
  split
  · next h => exact ⟨by simp; omega, fun hx => by simp at hx, fun _ => ⟨rfl, rfl, rfl, .inl ⟨rfl, h⟩⟩, fun c hx => by cases hx⟩
  split
  · next h => exact ⟨by simp; omega, fun hx => by simp at hx, fun _ => ⟨rfl, rfl, rfl, .inr ⟨rfl, h⟩⟩, fun c hx => by cases hx⟩
  next h1 h2 =>
  have hl' : p.linesearch = 1 ∨ p.linesearch = 2 ∨ p.linesearch = 3 := by omega
  obtain ⟨a, b, c, d', e⟩ := btLoop_spec p ev xp d f (dot gp d) (not_lt.mp h2) stp _ 0 stp rfl (by push_cast; omega)
    (not_le.mp h1) (.inl rfl)
  refine ⟨b, fun _ => ⟨c, d'⟩, fun h0 => absurd h0 (by omega), fun k hk => ?_⟩
  obtain ⟨e1, e2, e3, e4, e5⟩ := e k hk
  exact ⟨e1, by omega, not_lt.mp h2, e2, e3, e4, e5⟩

/-- C27 is false of the code in one point: a successful step may lie outside `[min_step, max_step]` on either side. Here the objective
is `f(x) = -x`, the start is 0, the direction is +1, the initial step 1, and the accepted parameters bound the step by `[2,3]`, resp. `[0,1/2]`. -/
theorem C27_violated :
    let ev : Eval 1 := fun x => (-(x 0), fun _ => -1)
    let p1 : Params := { defparam with linesearch := 1, minStep := 2, maxStep := 3 }
    let p2 : Params := { defparam with linesearch := 1, minStep := 0, maxStep := 1/2 }
    validate 1 p1 = none ∧ validate 1 p2 = none ∧
    (∃ c, (backtracking p1 ev 0 0 (fun _ => -1) (fun _ => 1) 1).ret = .ok c ∧ (backtracking p1 ev 0 0 (fun _ => -1) (fun _ => 1) 1).stp < p1.minStep) ∧
    (∃ c, (backtracking p2 ev 0 0 (fun _ => -1) (fun _ => 1) 1).ret = .ok c ∧ p2.maxStep < (backtracking p2 ev 0 0 (fun _ => -1) (fun _ => 1) 1).stp) := by
  intro ev p1 p2
  have hd : dot (fun _ => -1 : Vec 1) (fun _ => 1) = -1 := by simp [dot]
  have key : ∀ p : Params, p.linesearch = 1 → p.ftol = 1e-4 →
      backtracking p ev 0 0 (fun _ => -1) (fun _ => 1) 1 = ⟨0 + (1 : ℝ) • (fun _ => 1), -1, fun _ => -1, 1, 1, .ok 1⟩ := by
    intro p hp hf
    unfold backtracking
    rw [if_neg (by norm_num), hd, if_neg (by norm_num), btLoop]
    have hdec : btDecide p 0 (-1) 1 (ev (0 + (1 : ℝ) • (fun _ => 1))).1 (dot (ev (0 + (1 : ℝ) • (fun _ => 1))).2 (fun _ => 1)) = none := by
      unfold btDecide
      rw [if_neg, if_pos hp]
      simp [ev, hf]; norm_num
    simp only [hdec]
    simp [ev]
  refine ⟨?_, ?_, ⟨1, ?_, ?_⟩, ⟨1, ?_, ?_⟩⟩
  · simp [validate, p1, defparam]; norm_num
  · simp [validate, p2, defparam]; norm_num
  · rw [key p1 rfl rfl]
  · rw [key p1 rfl rfl]; simp [p1]
  · rw [key p2 rfl rfl]
  · rw [key p2 rfl rfl]; simp [p2]; norm_num

end Lbfgs
end Verif
