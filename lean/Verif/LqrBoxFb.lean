import Verif.LqrBackProps

/-! C231: with control limits, the feedback of controls planned close to a limit is switched off. -/
namespace Verif
namespace Lqr
open Matrix

/-- Two results of the backward pass that differ at most in the controller. -/
def SameValue {nx nu : Nat} (b b' : Bwd nx nu) : Prop := b.V = b'.V ∧ b.Vx = b'.Vx ∧ b.Vxx = b'.Vxx ∧ b.diverged = b'.diverged ∧ b.divIter = b'.divIter

/-- The loop with and without limits computes the same value function. -/
theorem bwdLoop_same {nx nu : Nat} (c : Setting nu) (d : Devs nx nu) (tc : Nat → ℝ) (u0 : Nat → Control nx nu) (lam : ℝ) : ∀ (k : Nat) (b b' : Bwd nx nu), SameValue b b' →
    SameValue (bwdLoop c d tc u0 lam k b) (bwdLoop { c with hasLimits := false } d tc u0 lam k b') := by
  intro k
  induction k with
  | zero => intro b b' h; exact h
  | succ k ih =>
    rintro ⟨V, Vx, Vxx, ctrl, dv, di⟩ ⟨V', Vx', Vxx', ctrl', dv', di'⟩ ⟨h1, h2, h3, h4, h5⟩
    simp only at h1 h2 h3 h4 h5
    subst h1 h2 h3 h4 h5
    rw [bwdLoop, bwdLoop]
    simp only
    split
    · exact ⟨rfl, rfl, rfl, rfl, rfl⟩
    · exact ih _ _ ⟨rfl, rfl, rfl, rfl, rfl⟩

/-- The step the controller plans for control `i` at time `t`, on top of the nominal control `u0`. -/
def planned {nx nu : Nat} (b : Bwd nx nu) (u0 : Nat → Control nx nu) (t : Nat) (i : Fin nu) : ℝ := (u0 t).ff i + (b.ctrl t).ff i

/-- C231. After a backward pass with control limits that did not diverge, every control planned within 0.01 of one of its limits does not react to the state at all, and
every other one reacts exactly as the controller computed without limits does. -/
theorem C231_saturated_feedback {nx nu : Nat} (T : Nat) (c : Setting nu) (d : Devs nx nu) (tc : Nat → ℝ) (u0 : Nat → Control nx nu) (lam : ℝ) (b : Bwd nx nu)
    (hlim : c.hasLimits = true) (hok : (backward T c d tc u0 lam b).diverged = false) (t : Nat) (ht : t < T) (i : Fin nu) :
    ((planned (backward T c d tc u0 lam b) u0 t i ≥ c.maxU i - 0.01 ∨ planned (backward T c d tc u0 lam b) u0 t i ≤ c.minU i + 0.01) →
      ∀ dx : Vec nx, (((backward T c d tc u0 lam b).ctrl t).fb *ᵥ dx) i = 0) ∧
    (c.minU i + 0.01 < planned (backward T c d tc u0 lam b) u0 t i → planned (backward T c d tc u0 lam b) u0 t i < c.maxU i - 0.01 →
      ∀ dx : Vec nx, (((backward T c d tc u0 lam b).ctrl t).fb *ᵥ dx) i =
        (((backward T { c with hasLimits := false } d tc u0 lam b).ctrl t).fb *ᵥ dx) i) := by
  set r := backward T c d tc u0 lam b with hr
  set r' := backward T { c with hasLimits := false } d tc u0 lam b with hr'
  have hs : SameValue r r' := bwdLoop_same c d tc u0 lam T _ _ ⟨rfl, rfl, rfl, rfl, rfl⟩
  have h := (bwdLoop_spec c d tc u0 lam T _).2 rfl hok t ht
  have h' := (bwdLoop_spec { c with hasLimits := false } d tc u0 lam T _).2 rfl (hs.2.2.2.1.symm.trans hok) t ht
  change StepOk c d tc u0 lam r t at h
  change StepOk _ d tc u0 lam r' t at h'
  have e := h.ctrl
  have e' := h'.ctrl
  rw [hlim] at e
  simp only [if_true] at e
  simp only [Bool.false_eq_true, if_false, ← hs.2.1, ← hs.2.2.1] at e'
  have hp : planned r u0 t i = (u0 t).ff i + c.qp t (lower (hessU d t (r.Vxx (t + 1)) lam)) (gradU d t (r.Vx (t + 1))) (u0 t).ff i := by
    rw [planned, e]; rfl
  have hth : threshold = 0.01 := by rw [threshold]; norm_num
  rw [hp]
  constructor
  · intro hn dx
    rw [e, Matrix.mulVec, dotProduct]
    refine Finset.sum_eq_zero fun j _ => ?_
    simp only [constrained, hth]
    rw [if_pos hn, zero_mul]
  · intro h1 h2 dx
    rw [e, e', Matrix.mulVec, Matrix.mulVec, dotProduct, dotProduct]
    refine Finset.sum_congr rfl fun j _ => ?_
    simp only [constrained, hth]
    rw [if_neg (by rintro (h | h) <;> linarith)]

/-- Consequence: as long as the planned control respects its limits and the state deviation would move no control by more than 0.01 under the controller computed without
limits, the control applied respects its limits. -/
theorem C231_within_limits {nx nu : Nat} (T : Nat) (c : Setting nu) (d : Devs nx nu) (tc : Nat → ℝ) (u0 : Nat → Control nx nu) (lam : ℝ) (b : Bwd nx nu)
    (hlim : c.hasLimits = true) (hok : (backward T c d tc u0 lam b).diverged = false) (t : Nat) (ht : t < T) (i : Fin nu)
    (hin : c.minU i ≤ planned (backward T c d tc u0 lam b) u0 t i ∧ planned (backward T c d tc u0 lam b) u0 t i ≤ c.maxU i) (dx : Vec nx)
    (hdx : |(((backward T { c with hasLimits := false } d tc u0 lam b).ctrl t).fb *ᵥ dx) i| ≤ 0.01) :
    c.minU i ≤ planned (backward T c d tc u0 lam b) u0 t i + (((backward T c d tc u0 lam b).ctrl t).fb *ᵥ dx) i ∧
      planned (backward T c d tc u0 lam b) u0 t i + (((backward T c d tc u0 lam b).ctrl t).fb *ᵥ dx) i ≤ c.maxU i := by
  obtain ⟨h1, h2⟩ := C231_saturated_feedback T c d tc u0 lam b hlim hok t ht i
  obtain ⟨a, a'⟩ := abs_le.1 hdx
  by_cases hn : planned (backward T c d tc u0 lam b) u0 t i ≥ c.maxU i - 0.01 ∨ planned (backward T c d tc u0 lam b) u0 t i ≤ c.minU i + 0.01
  · rw [h1 hn dx, add_zero]; exact hin
  · push Not at hn
    rw [h2 hn.2 hn.1 dx]
    constructor <;> linarith [hn.1, hn.2]

/-- The hypotheses are met for every horizon: a controller planned at its upper limit 1 from the nominal control 0, and any deviation the unlimited controller reacts to by
at most 0.01 (here: none). -/
example (T : Nat) (c : Setting 1) (tc : Nat → ℝ) (t : Nat) (ht : t < T) :
    let c' : Setting 1 := { c with hasLimits := true, minU := fun _ => -1, maxU := fun _ => 1, qp := fun _ _ _ _ _ => 1 }
    let u0 : Nat → Control 1 1 := fun _ => Control.zero 1 1
    let r := backward T c' exDevs tc u0 0 (Bwd.init 1 1)
    c'.hasLimits = true ∧ r.diverged = false ∧ planned r u0 t 0 = 1 ∧ planned r u0 t 0 ≥ c'.maxU 0 - 0.01 ∧
      |(((backward T { c' with hasLimits := false } exDevs tc u0 0 (Bwd.init 1 1)).ctrl t).fb *ᵥ 0) 0| ≤ 0.01 := by
  intro c' u0 r
  have hok : r.diverged = false := C64_convex_no_failure T c' exDevs tc u0 0 _ le_rfl (exDevs_convex T)
  have h := ((bwdLoop_spec c' exDevs tc u0 0 T _).2 rfl hok t ht).ctrl
  have hp : planned r u0 t 0 = 1 := by
    rw [planned]
    erw [h]
    simp [constrained, c', u0, Control.zero]
  refine ⟨rfl, hok, hp, ?_, by norm_num⟩
  rw [hp]
  simp only [c']
  norm_num

end Lqr
end Verif
