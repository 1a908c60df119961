import Verif.LqrSolverProps
import Verif.LqrOptimal
import Mathlib.Algebra.Order.Star.Real
import Mathlib.Algebra.BigOperators.Intervals

/-! C281: the regularisation schedule of the LQR solver. -/
namespace Verif
namespace Lqr
open Matrix

/-- Published schedule, failure: the multiplier `m` of the regularisation `p = (lambda, m)` grows by the factor `f`, and is at least `f`; `lambda` is multiplied
by it, and is at least `lo`. (Specification.) -/
noncomputable def failed (f lo : ℝ) (p : ℝ × ℝ) : ℝ × ℝ := (max (p.1 * max (p.2 * f) f) lo, max (p.2 * f) f)

/-- Published schedule, success: the multiplier shrinks by the factor `f`, and is at most `1 / f`; `lambda` is multiplied by it, or dropped to zero once it is no
longer above `lo`. (Specification.) -/
noncomputable def succeeded (f lo : ℝ) (p : ℝ × ℝ) : ℝ × ℝ := (if lo < p.1 then p.1 * min (p.2 / f) (1 / f) else 0, min (p.2 / f) (1 / f))

/-- The iteration from `s` to `s'` went along the new direction by the shortest step there is. (Specification.) -/
def Shortest {nx nu : Nat} (o : Ocp nx nu) (c : Setting nu) (s s' : St nx nu) : Prop :=
  ∃ a ∈ c.coeffs, (∀ q ∈ c.coeffs, a ≤ q) ∧ s'.fwd = applyController o c s.xs fun t => (s.us t).add ((s'.bwd.ctrl t).scale a)

/-- The iteration from `s` to `s'` went along the new direction by a longer step. (Specification.) -/
def Longer {nx nu : Nat} (o : Ocp nx nu) (c : Setting nu) (s s' : St nx nu) : Prop :=
  ∃ a ∈ c.coeffs, (∃ q ∈ c.coeffs, q < a) ∧ s'.fwd = applyController o c s.xs fun t => (s.us t).add ((s'.bwd.ctrl t).scale a)

theorem raise_eq {nu : Nat} (c : Setting nu) (reg mult : ℝ) : raise c reg mult = failed c.incr c.minReg (reg, mult) := rfl

theorem back_reg {nx nu : Nat} (o : Ocp nx nu) (c : Setting nu) (d : Devs nx nu) (tc : Nat → ℝ) (u0 : Nat → Control nx nu) {b : Bwd nx nu} {reg mult : ℝ} {n : Nat}
    {r : Bool × Bwd nx nu × ℝ × ℝ} (h : Back o c d tc u0 b reg mult n r) :
    1 ≤ n ∧ (r.1 = true → r.2.2 = (failed c.incr c.minReg)^[n - 1] (reg, mult)) ∧ (r.1 = false → r.2.2 = (failed c.incr c.minReg)^[n] (reg, mult) ∧ c.maxReg < r.2.2.1) := by
  induction h with
  | ok h => exact ⟨le_rfl, fun _ => rfl, fun h => by cases h⟩
  | stop h hmax => exact ⟨le_rfl, ⟨fun h => Bool.noConfusion h, fun _ => ⟨raise_eq _ _ _, hmax⟩⟩⟩
  | @again b reg mult n r h hmax hr ih =>
    obtain ⟨h1, h2, h3⟩ := ih
    refine ⟨by omega, fun hr => ?_, fun hr => ?_⟩
    · rw [h2 hr]
      obtain ⟨k, rfl⟩ : ∃ k, n = k + 1 := ⟨n - 1, by omega⟩
      rw [Nat.add_sub_cancel, Nat.add_sub_cancel, Function.iterate_succ_apply]
      rfl
    · obtain ⟨h4, h5⟩ := h3 hr
      refine ⟨?_, h5⟩
      rw [h4, Function.iterate_succ_apply]
      rfl

theorem next_of_ite {nx nu : Nat} {P : Prop} [Decidable P] {e : Exit} {a b s' : St nx nu} (h : Res.next s' = if P then .exit e a else .next b) : s' = b ∧ ¬ P := by
  by_cases hP : P
  · rw [if_pos hP] at h; cases h
  · rw [if_neg hP] at h; exact ⟨Res.next.inj h, hP⟩

/-- C281: an iteration after which the solver goes on has made `n ≥ 1` backward passes, the first `n - 1` of them failures. Either it kept the trajectory (same
cost), counts as one more failure and is still within the upper limit, or the cost went down: by the shortest step, which leaves the regularisation as the failures left it, or by a longer one,
which is one success. -/
theorem C281_schedule {nx nu : Nat} (o : Ocp nx nu) (c : Setting nu) (hf : 1 < c.incr) (hmax : 0 ≤ c.maxReg) {s s' : St nx nu} {n : Nat}
    (h : Iter o c s n (.next s')) :
    1 ≤ n ∧
    ((s'.cost = s.cost ∧ s'.xs = s.xs ∧ s'.us = s.us ∧ s'.reg ≤ c.maxReg ∧ (s'.reg, s'.mult) = (failed c.incr c.minReg)^[n] (s.reg, s.mult)) ∨
     (s'.cost < s.cost ∧ Shortest o c s s' ∧ (s'.reg, s'.mult) = (failed c.incr c.minReg)^[n - 1] (s.reg, s.mult)) ∨
     (s'.cost < s.cost ∧ Longer o c s s' ∧ (s'.reg, s'.mult) = succeeded c.incr c.minReg ((failed c.incr c.minReg)^[n - 1] (s.reg, s.mult)))) := by
  generalize hres : Res.next s' = res at h
  obtain ⟨d, hd, hb⟩ := h
  rename_i ok b reg mult
  obtain ⟨h1, h2, h3⟩ := back_reg _ _ _ _ _ hb
  refine ⟨h1, ?_⟩
  unfold finish at hres
  simp only at hres
  split at hres
  · cases hres
  · cases ok with
    | false =>
      simp only [Bool.false_eq_true, ↓reduceIte] at hres
      obtain ⟨-, h5⟩ := h3 rfl
      have : c.maxReg < (raise c reg mult).1 := by
        have h6 : c.incr ≤ max (mult * c.incr) c.incr := le_max_right _ _
        have h7 : reg * max (mult * c.incr) c.incr ≤ (raise c reg mult).1 := le_max_left _ _
        simp only at h5
        nlinarith
      rw [if_pos this] at hres
      cases hres
    | true =>
      have h4 := h2 rfl
      simp only at h4
      simp only [↓reduceIte] at hres
      split at hres
      · rename_i a ha
        obtain ⟨hmem, heq, hlt⟩ := lineSearch_spec o c s.xs s.us b.ctrl s.cost c.coeffs s.fwd a ha
        · obtain ⟨e, -⟩ := next_of_ite hres
          subst e
          have hcost : (lineSearch o c s.xs s.us b.ctrl s.cost c.coeffs s.fwd).2.total o < s.cost := by
            have h9 : (0 : ℝ) ≤ 10 ^ 10 * (if (lineSearch o c s.xs s.us b.ctrl s.cost c.coeffs s.fwd).2.diverged then 1 else 0) := by split <;> norm_num
            linarith
          right
          by_cases hdec : ∃ q ∈ c.coeffs, q < a
          · right
            refine ⟨hcost, ⟨a, hmem, hdec, heq⟩, ?_⟩
            rw [← h4]
            simp only [if_pos hdec, succeeded]
            refine Prod.ext ?_ rfl
            simp only
            by_cases hlo : c.minReg < reg
            · simp [hlo]
            · simp [hlo]
          · left
            refine ⟨hcost, ⟨a, hmem, fun q hq => ?_, heq⟩, ?_⟩
            · by_contra hlt; exact hdec ⟨q, hq, not_le.1 hlt⟩
            · rw [← h4]; simp only [if_neg hdec]
      · rename_i hn
        · obtain ⟨e, hle⟩ := next_of_ite hres
          subst e
          left
          refine ⟨rfl, rfl, rfl, not_lt.1 hle, ?_⟩
          obtain ⟨k, rfl⟩ : ∃ k, n = k + 1 := ⟨n - 1, by omega⟩
          rw [Function.iterate_succ_apply', ← show (reg, mult) = (failed c.incr c.minReg)^[k] (s.reg, s.mult) from h4]
          rfl

/-- The triangular numbers. (Specification.) -/
def tri (k : Nat) : Nat := ∑ i ∈ Finset.range k, (i + 1)

theorem tri_succ (k : Nat) : tri (k + 1) = tri k + (k + 1) := Finset.sum_range_succ _ _

/-- C281: from a multiplier of at most one, `k + 1` failures in a row make the multiplier `f ^ (k + 1)` and the regularisation the larger of
`lambda * f ^ (1 + 2 + ... + (k + 1))` and `lo * f ^ (2 + ... + (k + 1))`. -/
theorem C281_failures (f lo lam m : ℝ) (hf : 1 < f) (hlo : 0 ≤ lo) (hm : m ≤ 1) (k : Nat) :
    (failed f lo)^[k + 1] (lam, m) = (max (lam * f ^ tri (k + 1)) (lo * f ^ (tri (k + 1) - 1)), f ^ (k + 1)) := by
  have hf0 : 0 < f := by linarith
  induction k with
  | zero =>
    have h : max (m * f) f = f := max_eq_right (by nlinarith)
    simp [failed, h, tri]
  | succ k ih =>
    rw [Function.iterate_succ_apply', ih]
    have h : max (f ^ (k + 1) * f) f = f ^ (k + 2) := by
      rw [max_eq_left, pow_succ f (k + 1)]
      have := one_le_pow₀ (n := k + 1) hf.le
      nlinarith
    have hp : (0 : ℝ) ≤ f ^ (k + 2) := by positivity
    have ht : 1 ≤ tri (k + 1) := by rw [tri_succ]; omega
    simp only [failed, h]
    refine Prod.ext ?_ rfl
    simp only
    rw [max_mul_of_nonneg _ _ hp, mul_assoc, mul_assoc, ← pow_add, ← pow_add, max_assoc, ← tri_succ (k + 1)]
    have : tri (k + 1) - 1 + (k + 2) = tri (k + 2) - 1 := by rw [tri_succ (k + 1)]; omega
    rw [this]
    congr 1
    exact max_eq_left (le_mul_of_one_le_right hlo (one_le_pow₀ hf.le))

/-- C281: from a multiplier of at least one, `k` successes in a row make the multiplier `f ^ (-k)`; the `(k + 1)`-st leaves `lambda / f ^ (1 + ... + (k + 1))`
if the regularisation before it was still above `lo`, and nothing otherwise. -/
theorem C281_successes (f lo lam m : ℝ) (hf : 1 < f) (hlo : 0 ≤ lo) (hm : 1 ≤ m) (k : Nat) :
    (succeeded f lo)^[k + 1] (lam, m) = (if lo < lam / f ^ tri k then lam / f ^ tri (k + 1) else 0, if k = 0 then 1 / f else 1 / f ^ (k + 1)) := by
  have hf0 : 0 < f := by linarith
  have hfi : 1 / f ≤ 1 := by rw [div_le_one hf0]; exact hf.le
  induction k with
  | zero =>
    have h : min (m / f) (1 / f) = 1 / f := min_eq_right (by gcongr)
    simp only [succeeded, h, tri, Finset.range_zero, Finset.sum_empty, pow_zero, div_one, Finset.sum_range_one, zero_add, Function.iterate_one, pow_one, if_true, mul_one_div]
  | succ k ih =>
    rw [Function.iterate_succ_apply', ih]
    have e : (if k = 0 then 1 / f else 1 / f ^ (k + 1)) = 1 / f ^ (k + 1) := by split <;> simp_all
    have h : min (1 / f ^ (k + 1) / f) (1 / f) = 1 / f ^ (k + 2) := by
      rw [div_div, ← pow_succ, min_eq_left]
      exact one_div_le_one_div_of_le hf0 (le_self_pow₀ hf.le (by omega))
    rw [e]
    simp only [succeeded, Nat.add_eq_zero_iff, one_ne_zero, and_false, ↓reduceIte]
    rw [h]
    refine Prod.ext ?_ rfl
    simp only
    by_cases h1 : lo < lam / f ^ tri k
    · simp only [if_pos h1]
      congr 1
      rw [tri_succ (k + 1), pow_add f (tri (k + 1)), ← div_div, mul_one_div]
    · simp only [if_neg h1, not_lt.2 hlo, if_false]
      rw [if_neg]
      refine fun h2 => h1 (h2.trans_le ?_)
      have hl : 0 < lam := by
        by_contra hl
        exact absurd (h2.trans_le (div_nonpos_of_nonpos_of_nonneg (not_lt.1 hl) (by positivity))) (not_lt.2 hlo)
      rw [tri_succ]
      exact div_le_div_of_nonneg_left hl.le (by positivity) (pow_le_pow_right₀ hf.le (by omega))

/-- A chain of iterations after which the solver goes on, with the number of backward passes made. (Specification.) -/
inductive Kept {nx nu : Nat} (o : Ocp nx nu) (c : Setting nu) : St nx nu → Nat → St nx nu → Prop
  | nil {s} : Kept o c s 0 s
  | cons {s s' s'' n m} (h : Iter o c s n (.next s')) (hc : s'.cost = s.cost) (hr : Kept o c s' m s'') : Kept o c s (n + m) s''

/-- C281: however the failures are spread over iterations that keep the trajectory, the regularisation depends only on their number. -/
theorem C281_kept {nx nu : Nat} (o : Ocp nx nu) (c : Setting nu) (hf : 1 < c.incr) (hmax : 0 ≤ c.maxReg) {s s' : St nx nu} {n : Nat} (h : Kept o c s n s') :
    (s'.reg, s'.mult) = (failed c.incr c.minReg)^[n] (s.reg, s.mult) ∧ s'.cost = s.cost := by
  induction h with
  | nil => exact ⟨rfl, rfl⟩
  | @cons s s' s'' n m h hc hr ih =>
    refine ⟨?_, ih.2.trans hc⟩
    rcases (C281_schedule o c hf hmax h).2 with ⟨-, -, -, -, h1⟩ | ⟨h1, -⟩ | ⟨h1, -⟩
    · rw [ih.1, h1, Nat.add_comm, Function.iterate_add_apply]
    · exact absurd hc h1.ne
    · exact absurd hc h1.ne

/-- C281 with the closed form: `k + 1` failures since the last success, over any iterations, from a multiplier of at most one. -/
theorem C281_kept_closed {nx nu : Nat} (o : Ocp nx nu) (c : Setting nu) (hf : 1 < c.incr) (hlo : 0 ≤ c.minReg) (hmax : 0 ≤ c.maxReg) {s s' : St nx nu} {k : Nat}
    (hm : s.mult ≤ 1) (h : Kept o c s (k + 1) s') :
    s'.reg = max (s.reg * c.incr ^ tri (k + 1)) (c.minReg * c.incr ^ (tri (k + 1) - 1)) ∧ s'.mult = c.incr ^ (k + 1) := by
  have h1 := (C281_kept o c hf hmax h).1
  rw [C281_failures _ _ _ _ hf hlo hm] at h1
  exact ⟨congrArg Prod.fst h1, congrArg Prod.snd h1⟩

theorem kept_le {nx nu : Nat} (o : Ocp nx nu) (c : Setting nu) (hf : 1 < c.incr) (hmax : 0 ≤ c.maxReg) {s s' : St nx nu} {n : Nat} (h : Kept o c s n s') :
    n = 0 ∨ s'.reg ≤ c.maxReg := by
  induction h with
  | nil => exact .inl rfl
  | @cons s s' s'' n m h hc hr ih =>
    refine .inr ?_
    cases hr with
    | nil =>
      rcases (C281_schedule o c hf hmax h).2 with ⟨-, -, -, h1, -⟩ | ⟨h1, -⟩ | ⟨h1, -⟩
      · exact h1
      · exact absurd hc h1.ne
      · exact absurd hc h1.ne
    | cons h' hc' hr' =>
      rcases ih with h1 | h1
      · have := (C281_schedule o c hf hmax h').1
        omega
      · exact h1

/-- C281: so there are few failures in a row: the upper limit is above the lower one by at least the factor to the power `2 + ... + (k + 1)`. -/
theorem C281_few {nx nu : Nat} (o : Ocp nx nu) (c : Setting nu) (hf : 1 < c.incr) (hlo : 0 ≤ c.minReg) (hmax : 0 ≤ c.maxReg) {s s' : St nx nu} {k : Nat}
    (hm : s.mult ≤ 1) (h : Kept o c s (k + 1) s') : c.minReg * c.incr ^ (tri (k + 1) - 1) ≤ c.maxReg := by
  have h1 := (C281_kept_closed o c hf hlo hmax hm h).1
  rcases kept_le o c hf hmax h with h2 | h2
  · cases h2
  · exact (le_max_right _ _).trans (h1.symm.le.trans h2)

/-! ### the hypotheses are met -/

/-- One stage with cost `u²`, no dynamics, no final cost. -/
noncomputable def sqOcp : Ocp 1 1 := ⟨1, fun _ _ _ => 0, fun _ u _ final => if final then 0 else u.ff ⬝ᵥ u.ff⟩
/-- Regularisation starts at 2, factor 2, between 1 and 100. -/
noncomputable def sqSetting : Setting 1 := ⟨false, false, 0, 0, 100, [1, 1/2], 2, 1, 2, 1, 100, 0, 0, 5, fun _ _ _ _ => 0⟩
/-- The solver at the head of its main loop, standing at the control `v`. -/
noncomputable def sqSt (v : ℝ) (f0 : Fwd 1 1) (d0 : Devs 1 1) : St 1 1 := ⟨fun _ => 0, fun _ => ⟨fun _ => v, 0⟩, v ^ 2, 2, 1, f0, d0, Bwd.init 1 1, true, 0⟩

theorem sqOcp_LQ : IsLQ sqOcp 0 0 0 0 0 0 0 0 (fun t => if t = 1 then 0 else (2 : ℝ) • 1) where
  dyn x u t := by simp [sqOcp]
  symQ t := by simp
  symR t := by by_cases h : t = 1 <;> simp [h]
  obj x u t := by
    unfold quadCost sqOcp
    by_cases h : t = 1
    · simp [h]
    · simp only [h, decide_false, if_false, Matrix.smul_mulVec, Matrix.one_mulVec, dotProduct_smul, smul_eq_mul, zero_dotProduct, Matrix.zero_mulVec, dotProduct_zero, Pi.zero_apply]
      simp only [Bool.false_eq_true, if_false]
      ring

theorem sq_total (xs : Nat → Vec 1) (us : Nat → Control 1 1) :
    (applyController sqOcp sqSetting xs us).total sqOcp = (us 0).ff 0 ^ 2 ∧ (xs 0 = 0 → (applyController sqOcp sqSetting xs us).diverged = false) := by
  obtain ⟨h1, h2, h3, -, h5, h6⟩ := C38_rollout sqOcp sqSetting xs us
  constructor
  · rw [h5]
    have := (h3 0 (by decide)).2 0
    rw [h1] at this
    simp [sqSetting] at this
    simp [trajCost, sqOcp, dotProduct, sq] at this ⊢
    rw [← this]; rfl
  · intro hx
    by_contra hne
    obtain ⟨t, ht, i, hi⟩ := h6.mp (by simpa using hne)
    have ht0 : t = 0 := by have : t < 1 := ht; omega
    subst ht0
    rw [h2 0 (by decide), h1, hx] at hi
    simp [step, sqOcp, sqSetting] at hi
    norm_num at hi

theorem sq_back (v : ℝ) (f0 : Fwd 1 1) (d0 : Devs 1 1) :
    let b := backward sqOcp.tdim sqSetting (derivatives sqOcp sqSetting (sqSt v f0 d0).xs (sqSt v f0 d0).us) (sqSt v f0 d0).fwd.cost (sqSt v f0 d0).us 2 (sqSt v f0 d0).bwd
    b.diverged = false ∧ (b.ctrl 0).ff 0 = -v / 2 := by
  obtain ⟨-, hder⟩ := C42_exact sqOcp sqSetting (sqSt v f0 d0).xs (sqSt v f0 d0).us _ _ _ sqOcp_LQ.dyn _ _ _ _ _ _ sqOcp_LQ.symQ sqOcp_LQ.symR sqOcp_LQ.obj
  set d := derivatives sqOcp sqSetting (sqSt v f0 d0).xs (sqSt v f0 d0).us with hd
  have hH : ∀ S, lower (hessU d 0 S 2) = (4 : ℝ) • 1 := by
    intro S
    unfold hessU
    rw [(hder 0).2.1, (hder 0).2.2.2.2.1]
    ext i j
    have hi := Subsingleton.elim i 0
    have hj := Subsingleton.elim j 0
    subst hi hj
    simp [lower]
    norm_num
  have hg : ∀ s, gradU d 0 s = fun _ => 2 * v := by
    intro s
    unfold gradU
    rw [(hder 0).2.1, (hder 0).2.2.2.2.2.2]
    ext i
    simp [sqOcp, sqSt, Matrix.smul_mulVec]
  have hi : ((4 : ℝ) • (1 : Mat 1 1))⁻¹ = (1/4 : ℝ) • 1 := by
    apply Matrix.inv_eq_right_inv
    rw [Matrix.smul_mul, Matrix.mul_smul, smul_smul, Matrix.one_mul]; norm_num
  intro b
  have hp : ¬ ¬ ((4 : ℝ) • (1 : Mat 1 1)).PosDef := not_not_intro (Matrix.PosDef.smul Matrix.PosDef.one (by norm_num))
  have hb : b = backward (0 + 1) sqSetting d (sqSt v f0 d0).fwd.cost (sqSt v f0 d0).us 2 (sqSt v f0 d0).bwd := rfl
  unfold backward at hb
  rw [bwdLoop] at hb
  rw [if_neg (by rw [hH]; exact hp)] at hb
  rw [hb]
  constructor
  · rfl
  · simp only [bwdLoop, hH, hg, hi]
    simp [sqSetting, Matrix.smul_mulVec]
    ring

/-- A success by a longer step, at the control 1: the regularisation goes from 2 to 1. A failure, at the optimum 0: it goes from 2 to 4. -/
example (f0 : Fwd 1 1) (d0 : Devs 1 1) : (1 : ℝ) < sqSetting.incr ∧ 0 ≤ sqSetting.maxReg ∧ 0 ≤ sqSetting.minReg ∧
    (∃ s', Iter sqOcp sqSetting (sqSt 1 f0 d0) 1 (.next s') ∧ s'.cost = 1/4 ∧ s'.reg = 1 ∧ s'.mult = 1/2) ∧
    (∃ s', Kept sqOcp sqSetting (sqSt 0 f0 d0) 1 s' ∧ s'.reg = 4 ∧ s'.mult = 2) := by
  have hgrad : ∀ T (u1 u2 : Nat → Control 1 1), ¬ gradNorm T u1 u2 < 0 := by
    intro T u1 u2
    refine not_lt.2 (div_nonneg (Finset.sum_nonneg fun t _ => Real.iSup_nonneg fun i => by positivity) (by positivity))
  have hback : ∀ v, Back sqOcp sqSetting (derivatives sqOcp sqSetting (sqSt v f0 d0).xs (sqSt v f0 d0).us) (sqSt v f0 d0).fwd.cost (sqSt v f0 d0).us
      (sqSt v f0 d0).bwd (sqSt v f0 d0).reg (sqSt v f0 d0).mult 1 (true, _, _, _) := fun v => Back.ok (sq_back v f0 d0).1
  refine ⟨by norm_num [sqSetting], by norm_num [sqSetting], by norm_num [sqSetting], ?_, ?_⟩
  · have hi := Iter.mk (o := sqOcp) (c := sqSetting) (s := sqSt 1 f0 d0) _ rfl (hback 1)
    obtain ⟨-, hc⟩ := sq_back 1 f0 d0
    set b := backward sqOcp.tdim sqSetting (derivatives sqOcp sqSetting (sqSt 1 f0 d0).xs (sqSt 1 f0 d0).us) (sqSt 1 f0 d0).fwd.cost (sqSt 1 f0 d0).us (sqSt 1 f0 d0).reg (sqSt 1 f0 d0).bwd with hbd
    have hc' : (b.ctrl 0).ff 0 = -1 / 2 := hc
    obtain ⟨ht, hdv⟩ := sq_total (sqSt 1 f0 d0).xs fun t => ((sqSt 1 f0 d0).us t).add ((b.ctrl t).scale 1)
    have ht' : (applyController sqOcp sqSetting (sqSt 1 f0 d0).xs fun t => ((sqSt 1 f0 d0).us t).add ((b.ctrl t).scale 1)).total sqOcp = 1/4 := by
      rw [ht]
      simp [Control.add, Control.scale, sqSt, hc']
      norm_num
    have hdv' := hdv rfl
    have hls : lineSearch sqOcp sqSetting (sqSt 1 f0 d0).xs (sqSt 1 f0 d0).us b.ctrl (sqSt 1 f0 d0).cost sqSetting.coeffs (sqSt 1 f0 d0).fwd =
        (some 1, applyController sqOcp sqSetting (sqSt 1 f0 d0).xs fun t => ((sqSt 1 f0 d0).us t).add ((b.ctrl t).scale 1)) := by
      show lineSearch _ _ _ _ _ _ [1, 1/2] _ = _
      rw [lineSearch]
      simp only [ht', hdv']
      rw [if_pos]
      norm_num [sqSt]
    unfold finish at hi
    simp only at hi
    rw [if_neg (show ¬ gradNorm sqOcp.tdim b.ctrl (sqSt 1 f0 d0).us < sqSetting.gradTol from hgrad _ _ _)] at hi
    simp only [if_true, hls] at hi
    rw [if_neg (show ¬ |_| < sqSetting.costTol from not_lt.2 (abs_nonneg _))] at hi
    refine ⟨_, hi, ht', ?_, ?_⟩
    · norm_num [sqSetting, sqSt]
    · norm_num [sqSetting, sqSt]
  · have hi := Iter.mk (o := sqOcp) (c := sqSetting) (s := sqSt 0 f0 d0) _ rfl (hback 0)
    set b := backward sqOcp.tdim sqSetting (derivatives sqOcp sqSetting (sqSt 0 f0 d0).xs (sqSt 0 f0 d0).us) (sqSt 0 f0 d0).fwd.cost (sqSt 0 f0 d0).us (sqSt 0 f0 d0).reg (sqSt 0 f0 d0).bwd with hbd
    have hls : (lineSearch sqOcp sqSetting (sqSt 0 f0 d0).xs (sqSt 0 f0 d0).us b.ctrl (sqSt 0 f0 d0).cost sqSetting.coeffs (sqSt 0 f0 d0).fwd).1 = none := by
      by_contra hne
      obtain ⟨a, ha⟩ := Option.ne_none_iff_exists'.1 hne
      obtain ⟨-, heq, hlt⟩ := lineSearch_spec _ _ _ _ _ _ _ _ _ ha
      have h0 : 0 ≤ (lineSearch sqOcp sqSetting (sqSt 0 f0 d0).xs (sqSt 0 f0 d0).us b.ctrl (sqSt 0 f0 d0).cost sqSetting.coeffs (sqSt 0 f0 d0).fwd).2.total sqOcp := by
        rw [heq, (sq_total _ _).1]; positivity
      have h9 : (0 : ℝ) ≤ 10 ^ 10 * (if (lineSearch sqOcp sqSetting (sqSt 0 f0 d0).xs (sqSt 0 f0 d0).us b.ctrl (sqSt 0 f0 d0).cost sqSetting.coeffs (sqSt 0 f0 d0).fwd).2.diverged then 1 else 0) := by
        split <;> norm_num
      have : (sqSt 0 f0 d0).cost = 0 := by simp [sqSt]
      linarith
    unfold finish at hi
    simp only at hi
    rw [if_neg (show ¬ gradNorm sqOcp.tdim b.ctrl (sqSt 0 f0 d0).us < sqSetting.gradTol from hgrad _ _ _)] at hi
    simp only [if_true, hls] at hi
    rw [if_neg (by norm_num [raise, sqSetting, sqSt])] at hi
    refine ⟨_, .cons hi rfl .nil, ?_, ?_⟩
    · norm_num [raise, sqSetting, sqSt]
    · norm_num [raise, sqSetting, sqSt]

/-- The numeric hypotheses of the closed forms. -/
example : (failed 2 1)^[3] (1, 1) = (64, 8) ∧ (succeeded 2 1)^[3] (8, 1) = (0, 1/8) := by
  constructor
  · rw [C281_failures 2 1 1 1 (by norm_num) (by norm_num) (by norm_num) 2]
    norm_num [tri, Finset.sum_range_succ]
  · rw [C281_successes 2 1 8 1 (by norm_num) (by norm_num) (by norm_num) 2]
    norm_num [tri, Finset.sum_range_succ]

end Lqr
end Verif
