import Verif.DynOptStore
import Mathlib.Tactic.Positivity

/-! C124-C126: optimised timing: what the residual measures, the loop over the time iterations, the tracking weights. -/
namespace Verif
namespace Dyn
open LinExpr Kin Finset

/-! ### specification -/

/-- The exact trajectory of the center of mass and of the linear momentum for stored durations and forces: `c t` and `l t` are
the values at the end of time step `t`. -/
def ExactLin (s : DSet) (p : DPlan) (seq : Nat → DState) (c l : Nat → Nat → ℝ) : Prop := ∀ t a,
  (t < s.T → l t a = before p.iniL l t a + (seq t).time * (s.mass * s.grav a + inContact s p t (fun e => s.mg * (seq t).frc e a))) ∧
  (t < s.T → c t a = before p.iniCom c t a + (seq t).time * l t a / s.mass)

/-- The trajectory of the angular momentum for the durations `dur`, the centers of mass `c` and stored forces, centers of
pressure and torques. -/
def AngFrom (s : DSet) (p : DPlan) (seq : Nat → DState) (dur : Nat → ℝ) (c h : Nat → Nat → ℝ) : Prop := ∀ t < s.T, ∀ a,
  h t a = before p.iniH h t a + dur t * inContact s p t (fun e =>
    Ctx.cross (fun b => p.loc t e b + (p.rot t e b 0 * (seq t).cop e 0 + p.rot t e b 1 * (seq t).cop e 1) - c t b)
      (fun b => s.mg * (seq t).frc e b) a + p.rot t e a 2 * (seq t).trq e 2)

/-! ### the recomputed trajectories -/

section
variable (d : DCtx) (x : Nat → ℝ)

theorem linmom_rec (t a : Nat) : d.linmom x t a = before d.p.iniL (d.linmom x) t a + pDt d.ctx x t *
    (d.s.mass * d.s.grav a + inContact d.s d.p t (fun e => d.s.mg * pF d.ctx x t e a)) := by
  have hstep : ∀ k h0, (List.range d.s.neff).foldl (fun h e => if d.p.active k e then h + x (vcol d.ctx.dtv 0 k) * (d.ctx.frcVal x k e a) else h) h0 =
      h0 + pDt d.ctx x k * inContact d.s d.p k (fun e => d.s.mg * pF d.ctx x k e a) := by
    intro k h0
    rw [fold_active d.s.neff (d.p.active k) (fun e => x (vcol d.ctx.dtv 0 k) * (d.ctx.frcVal x k e a))]
    congr 1
    unfold inContact
    rw [mul_sum]
    refine sum_congr rfl fun e _ => ?_
    split
    · rfl
    · ring
  cases t with
  | zero => rw [DCtx.linmom, hstep, before, if_pos rfl]; simp only [pDt]; ring
  | succ t => rw [DCtx.linmom, hstep, before, if_neg (by omega)]; simp only [pDt, Nat.add_sub_cancel]; ring

theorem compos_rec (t a : Nat) : d.compos x t a = before d.p.iniCom (d.compos x) t a + pDt d.ctx x t * d.linmom x t a / d.s.mass := by
  cases t with
  | zero => rw [DCtx.compos, before, if_pos rfl, pDt]; ring
  | succ t => rw [DCtx.compos, before, if_neg (by omega), pDt, Nat.add_sub_cancel]; ring

theorem angmomT_rec (t a : Nat) : d.angmomT x t a = before d.p.iniH (d.angmomT x) t a + (d.seq t).time * inContact d.s d.p t (fun e =>
    Ctx.cross (fun b => d.p.loc t e b + (d.p.rot t e b 0 * pCop d.ctx x t e 0 + d.p.rot t e b 1 * pCop d.ctx x t e 1) - d.compos x t b)
      (fun b => d.s.mg * pF d.ctx x t e b) a + d.p.rot t e a 2 * pTrq d.ctx x t e) := by
  have hstep : ∀ k h0, (List.range d.s.neff).foldl (fun h e => if d.p.active k e
      then h + (d.seq k).time * (Ctx.cross (d.lenT x k e) (d.ctx.frcVal x k e) a + d.ctx.trqVal x k e a) else h) h0 =
      h0 + (d.seq k).time * inContact d.s d.p k (fun e =>
    Ctx.cross (fun b => d.p.loc k e b + (d.p.rot k e b 0 * pCop d.ctx x k e 0 + d.p.rot k e b 1 * pCop d.ctx x k e 1) - d.compos x k b)
      (fun b => d.s.mg * pF d.ctx x k e b) a + d.p.rot k e a 2 * pTrq d.ctx x k e) := by
    intro k h0
    rw [fold_active d.s.neff (d.p.active k) (fun e => (d.seq k).time * (Ctx.cross (d.lenT x k e) (d.ctx.frcVal x k e) a + d.ctx.trqVal x k e a))]
    congr 1
    unfold inContact
    rw [mul_sum]
    refine sum_congr rfl fun e _ => ?_
    have e1 : d.lenT x k e = fun b => d.p.loc k e b + (d.p.rot k e b 0 * pCop d.ctx x k e 0 + d.p.rot k e b 1 * pCop d.ctx x k e 1) - d.compos x k b := by
      funext b; unfold DCtx.lenT pCop
      show _ = _ + (_ * x (vcol (d.ctx.cop e) 0 (d.p.actId k e)) + _ * x (vcol (d.ctx.cop e) 1 (d.p.actId k e))) - _
      ring
    split
    · rw [e1]; rfl
    · ring
  cases t with
  | zero => rw [DCtx.angmomT, hstep, before, if_pos rfl]
  | succ t => rw [DCtx.angmomT, hstep, before, if_neg (by omega), Nat.add_sub_cancel]

end

theorem frob_entry (T : Nat) (m : Nat → Nat → ℝ) (t : Nat) (ht : t < T) (a : Nat) (ha : a < 3) : |m t a| ≤ DCtx.frob T m := by
  unfold DCtx.frob
  apply Real.abs_le_sqrt
  rw [list_range_sum]
  have h1 : m t 0 ^ 2 + m t 1 ^ 2 + m t 2 ^ 2 ≤ ∑ k ∈ range T, (m k 0 ^ 2 + m k 1 ^ 2 + m k 2 ^ 2) :=
    single_le_sum (f := fun k => m k 0 ^ 2 + m k 1 ^ 2 + m k 2 ^ 2) (fun k _ => by positivity) (mem_range.2 ht)
  refine le_trans ?_ h1
  interval_cases a <;> nlinarith [sq_nonneg (m t 0), sq_nonneg (m t 1), sq_nonneg (m t 2)]

theorem frob_scaled (T : Nat) (m : Nat → Nat → ℝ) (ε : ℝ) (h : DCtx.frob T m / T ≤ ε) (t : Nat) (ht : t < T) (a : Nat) (ha : a < 3) :
    |m t a| ≤ T * ε := by
  have hT : (0 : ℝ) < T := by exact_mod_cast (by omega : 0 < T)
  rw [div_le_iff₀ hT] at h
  linarith [frob_entry T m t ht a ha]

/-! ### C124 -/

/-- `internalOptimize` with optimised timing. -/
theorem timeOpt_cases (i : DIn) (hf : i.s.heur = .timeOpt) (st : LoopState) (first : Bool) (x : Nat → ℝ) :
    ∃ c : Bool, (c = true ↔ st.converged = true ∨ (i.ctx st.seq first).convErr x < i.s.tolRes ∨
        (first = false ∧ ∃ e, st.err = some e ∧ |e - (i.ctx st.seq first).convErr x| < i.s.tolImp)) ∧
      internalOptimize i st first x = if c then
        { seq := (i.ctx st.seq first).storeState { (i.ctx st.seq first).guessOf x with h := (i.ctx st.seq first).angmom x }
          guess := { (i.ctx st.seq first).guessOf x with h := (i.ctx st.seq first).angmom x }
          err := some ((i.ctx st.seq first).convErr x)
          converged := true }
      else
        { seq := (i.ctx st.seq first).storeState ((i.ctx st.seq first).guessOf x)
          guess := (i.ctx st.seq first).guessOf x
          err := some ((i.ctx st.seq first).convErr x)
          converged := false } := by
  classical
  refine ⟨_, ?_, if_pos hf⟩
  cases first <;> simp [or_assoc]

/-- What `internalOptimize` leaves with optimised timing. -/
theorem timeOpt_result (i : DIn) (hf : i.s.heur = .timeOpt) (st : LoopState) (first : Bool) (x : Nat → ℝ) :
    (internalOptimize i st first x).err = some ((i.ctx st.seq first).convErr x) ∧
    (internalOptimize i st first x).seq = (i.ctx st.seq first).storeState
      (if (internalOptimize i st first x).converged then { (i.ctx st.seq first).guessOf x with h := (i.ctx st.seq first).angmom x }
        else (i.ctx st.seq first).guessOf x) := by
  obtain ⟨c, _, h⟩ := timeOpt_cases i hf st first x
  rw [h]
  cases c <;> exact ⟨rfl, rfl⟩

/-- C124, what holds: with optimised timing, let `ε` be the residual of an iteration and `C`, `L` the exact trajectory of
center of mass and linear momentum for the stored durations and forces. Then the stored ones deviate from it by at most `T*ε`.
The angular momentum is the one integrated over the durations of the previous iteration when the iteration has converged, and
deviates from that one by at most `T*ε` otherwise. -/
theorem C124_residual_partial (i : DIn) (hf : i.s.heur = .timeOpt) (st : LoopState) (first : Bool) (x : Nat → ℝ) :
    ∃ ε, (internalOptimize i st first x).err = some ε ∧ 0 ≤ ε ∧
    ∃ C L H, ExactLin i.s i.p (internalOptimize i st first x).seq C L ∧
      AngFrom i.s i.p (internalOptimize i st first x).seq (fun t => (st.seq t).time) C H ∧
      ∀ t < i.s.T, ∀ a < 3,
        |((internalOptimize i st first x).seq (t + 1)).com a - C t a| ≤ i.s.T * ε ∧
        |((internalOptimize i st first x).seq (t + 1)).l a - L t a| ≤ i.s.T * ε ∧
        |((internalOptimize i st first x).seq (t + 1)).h a - H t a| ≤ i.s.T * ε ∧
        ((internalOptimize i st first x).converged = true → ((internalOptimize i st first x).seq (t + 1)).h a = H t a) := by
  obtain ⟨h1, h2⟩ := timeOpt_result i hf st first x
  set d := i.ctx st.seq first with hdd
  set r := internalOptimize i st first x
  rw [h1, h2]
  have hf' : d.s.heur = .timeOpt := hf
  set g : Guess := if r.converged then { d.guessOf x with h := d.angmom x } else d.guessOf x with hg
  have gcom : g.com = (d.guessOf x).com := by rw [hg]; split <;> rfl
  have gl : g.l = (d.guessOf x).l := by rw [hg]; split <;> rfl
  have gdt : g.dt = (d.guessOf x).dt := by rw [hg]; split <;> rfl
  have gfrc : g.frc = (d.guessOf x).frc := by rw [hg]; split <;> rfl
  have gcop : g.cop = (d.guessOf x).cop := by rw [hg]; split <;> rfl
  have gtrq : g.trq = (d.guessOf x).trq := by rw [hg]; split <;> rfl
  have tm : ∀ t < i.s.T, (d.storeState g t).time = pDt d.ctx x t := fun t ht => by
    rw [store_time d g t ht, if_pos hf', gdt]; rfl
  have e0 : 0 ≤ d.convErr x := le_max_of_le_left (div_nonneg (Real.sqrt_nonneg _) (Nat.cast_nonneg _))
  have c1 : DCtx.frob d.s.T (fun t a => (d.guessOf x).com t a - d.compos x t a) / d.s.T ≤ d.convErr x := le_max_left _ _
  have c2 : DCtx.frob d.s.T (fun t a => (d.guessOf x).l t a - d.linmom x t a) / d.s.T ≤ d.convErr x :=
    le_trans (le_max_left _ _) (le_max_right _ _)
  have c3 : DCtx.frob d.s.T (fun t a => (d.guessOf x).h t a - d.angmomT x t a) / d.s.T ≤ d.convErr x :=
    le_trans (le_max_right _ _) (le_max_right _ _)
  have hang : ∀ t a, d.angmom x t a = d.angmomT x t a := fun t a => if_pos hf'
  refine ⟨_, rfl, e0, d.compos x, d.linmom x, d.angmomT x, fun t a => ⟨fun ht => ?_, fun ht => ?_⟩, fun t ht a => ?_, fun t ht a ha => ?_⟩
  · rw [tm t ht, inContact_congr i.s i.p t _ (fun e => i.s.mg * pF d.ctx x t e a) (fun e he hact => by
      rw [store_frc d g t e ht he hact a, gfrc]; rfl)]
    exact linmom_rec d x t a
  · rw [tm t ht]; exact compos_rec d x t a
  · rw [inContact_congr i.s i.p t _ (fun e =>
      Ctx.cross (fun b => d.p.loc t e b + (d.p.rot t e b 0 * pCop d.ctx x t e 0 + d.p.rot t e b 1 * pCop d.ctx x t e 1) - d.compos x t b)
        (fun b => d.s.mg * pF d.ctx x t e b) a + d.p.rot t e a 2 * pTrq d.ctx x t e) (fun e he hact => by
        have e2 : (fun b => i.s.mg * (d.storeState g t).frc e b) = fun b => d.s.mg * pF d.ctx x t e b := by
          funext b; rw [store_frc d g t e ht he hact b, gfrc]; rfl
        rw [e2, store_cop d g t e ht he hact 0 (by omega), store_cop d g t e ht he hact 1 (by omega), store_trq d g t e ht he hact, gcop, gtrq]; rfl)]
    exact angmomT_rec d x t a
  · rw [store_com d g t ht, store_l d g t ht, store_h d g t ht, gcom, gl]
    refine ⟨frob_scaled _ _ _ c1 t ht a ha, frob_scaled _ _ _ c2 t ht a ha, ?_, ?_⟩
    · rw [hg]
      split
      · show |d.angmom x t a - d.angmomT x t a| ≤ _
        rw [hang, sub_self, abs_zero]
        exact mul_nonneg (Nat.cast_nonneg _) e0
      · exact frob_scaled _ _ _ c3 t ht a ha
    · intro hc
      rw [hg, if_pos hc]
      exact hang t a

/-! ### C125: the loop -/

/-- The successive plans: the first one and one more for every further problem, set up from the plan before. -/
noncomputable def plans (i : DIn) (solver : Nat → DCtx → Nat → ℝ) (st : LoopState) : Nat → LoopState
  | 0 => internalOptimize i st true (solver 0 (i.ctx st.seq true))
  | k + 1 => internalOptimize i (plans i solver st k) false (solver (k + 1) (i.ctx (plans i solver st k).seq false))

theorem timeLoop_plans (i : DIn) (solver : Nat → DCtx → Nat → ℝ) (st : LoopState) (n k : Nat) :
    ∃ m ≤ n, timeLoop i solver n (k + 1) (plans i solver st k) = (plans i solver st (k + m), k + m + 1) ∧
      (∀ j, 0 < j → j < m → (plans i solver st (k + j)).converged = false) ∧
      (m < n → 0 < m ∧ (plans i solver st (k + m)).converged = true) := by
  induction n generalizing k with
  | zero => exact ⟨0, le_rfl, rfl, fun j h1 h2 => by omega, fun h => by omega⟩
  | succ n ih =>
    rw [timeLoop]
    have hp : internalOptimize i (plans i solver st k) false (solver (k + 1) (i.ctx (plans i solver st k).seq false)) = plans i solver st (k + 1) := rfl
    simp only [hp]
    by_cases hc : (plans i solver st (k + 1)).converged = true
    · rw [if_pos hc]
      exact ⟨1, by omega, rfl, fun j h1 h2 => by omega, fun _ => ⟨by omega, hc⟩⟩
    · rw [if_neg hc]
      obtain ⟨m, hm, h1, h2, h3⟩ := ih (k + 1)
      refine ⟨m + 1, by omega, ?_, fun j j1 j2 => ?_, fun h => ⟨by omega, ?_⟩⟩
      · rw [h1]; congr 2 <;> omega
      · by_cases hj : j = 1
        · subst hj; simpa using hc
        · have := h2 (j - 1) (by omega) (by omega)
          rwa [show k + 1 + (j - 1) = k + j by omega] at this
      · have := (h3 (by omega)).2
        rwa [show k + 1 + m = k + (m + 1) by omega] at this

/-- C125, the loop: with optimised timing the result is the plan number `m ≤ MaxNumTimeIterations` (`m+1` problems are solved),
the first one after plan 0 that has converged, or the last. Without optimised timing one problem is solved. -/
theorem C125_loop_partial (i : DIn) (solver : Nat → DCtx → Nat → ℝ) (seq : Nat → DState) (g : Guess) (err : Option ℝ) :
    ∃ m, optimizeLoop i solver seq g err = (plans i solver ⟨seq, g, err, false⟩ m, m + 1) ∧
      (i.s.heur ≠ .timeOpt → m = 0) ∧
      (i.s.heur = .timeOpt → m ≤ i.s.maxIter ∧
        (∀ j, 0 < j → j < m → (plans i solver ⟨seq, g, err, false⟩ j).converged = false) ∧
        (m < i.s.maxIter → 0 < m ∧ (plans i solver ⟨seq, g, err, false⟩ m).converged = true)) := by
  unfold optimizeLoop
  by_cases hf : i.s.heur = .timeOpt
  · obtain ⟨m, hm, h1, h2, h3⟩ := timeLoop_plans i solver ⟨seq, g, err, false⟩ i.s.maxIter 0
    refine ⟨m, ?_, fun h => absurd hf h, fun _ => ⟨hm, ?_, ?_⟩⟩
    · simp only [if_pos hf]
      simpa [plans] using h1
    · simpa using h2
    · simpa using h3
  · refine ⟨0, ?_, fun _ => rfl, fun h => absurd h hf⟩
    simp only [if_neg hf]; rfl

/-- C125, convergence: a plan counts as converged if a plan before it does, if its residual is below the tolerance, or if the
residual hardly changed. -/
theorem C125_converged_partial (i : DIn) (hf : i.s.heur = .timeOpt) (solver : Nat → DCtx → Nat → ℝ) (st : LoopState) (h0 : st.converged = false) (k : Nat) :
    (plans i solver st k).converged = true ↔
      (∃ j, j < k ∧ (plans i solver st j).converged = true) ∨ (∃ ε, (plans i solver st k).err = some ε ∧ ε < i.s.tolRes) ∨
      (∃ j ε ε', k = j + 1 ∧ (plans i solver st j).err = some ε ∧ (plans i solver st k).err = some ε' ∧ |ε - ε'| < i.s.tolImp) := by
  cases k with
  | zero =>
    obtain ⟨c, hc, h⟩ := timeOpt_cases i hf st true (solver 0 (i.ctx st.seq true))
    have he : (plans i solver st 0).err = some ((i.ctx st.seq true).convErr (solver 0 (i.ctx st.seq true))) := by
      rw [plans, h]; cases c <;> rfl
    have hv : (plans i solver st 0).converged = c := by rw [plans, h]; cases c <;> rfl
    rw [hv, hc, he, h0]
    simp
  | succ k =>
    obtain ⟨c, hc, h⟩ := timeOpt_cases i hf (plans i solver st k) false (solver (k + 1) (i.ctx (plans i solver st k).seq false))
    have he : (plans i solver st (k + 1)).err = some ((i.ctx (plans i solver st k).seq false).convErr (solver (k + 1) (i.ctx (plans i solver st k).seq false))) := by
      rw [plans, h]; cases c <;> rfl
    have hv : (plans i solver st (k + 1)).converged = c := by rw [plans, h]; cases c <;> rfl
    have mono : ∀ j n, (plans i solver st j).converged = true → (plans i solver st (j + n)).converged = true := by
      intro j n hj
      induction n with
      | zero => exact hj
      | succ n ih =>
        obtain ⟨c', hc', h'⟩ := timeOpt_cases i hf (plans i solver st (j + n)) false (solver (j + n + 1) (i.ctx (plans i solver st (j + n)).seq false))
        have : (plans i solver st (j + n + 1)).converged = c' := by rw [plans, h']; cases c' <;> rfl
        rw [← Nat.add_assoc, this, hc']; exact Or.inl ih
    rw [hv, hc, he]
    constructor
    · rintro (h1 | h1 | ⟨_, e, h1, h2⟩)
      · exact Or.inl ⟨k, by omega, h1⟩
      · exact Or.inr (Or.inl ⟨_, rfl, h1⟩)
      · exact Or.inr (Or.inr ⟨k, e, _, rfl, h1, rfl, h2⟩)
    · rintro (⟨j, hj, h1⟩ | ⟨ε, h1, h2⟩ | ⟨j, ε, ε', h1, h2, h3, h4⟩)
      · have := mono j (k - j) h1
        rw [show j + (k - j) = k by omega] at this
        exact Or.inl this
      · obtain rfl := Option.some.inj h1; exact Or.inr (Or.inl h2)
      · obtain rfl : k = j := by omega
        obtain rfl := Option.some.inj h3
        exact Or.inr (Or.inr ⟨rfl, ε, h2, h4⟩)

/-! ### C124 and C125: a witness -/

/-- The example with optimised timing. -/
noncomputable def exIn : DIn := ⟨exSet .timeOpt, exDPlan, ⟨fun _ _ => 0, fun _ _ => 0, fun _ _ => 0⟩, fun _ => 0⟩

theorem HasVals.move {h : Heur} {seq seq' : Nat → DState} {f f' : Bool} {v : Vals} {x : Nat → ℝ} (hx : HasVals (exAt h seq f) v x) :
    HasVals (exAt h seq' f') v x := ⟨hx.com, hx.l, hx.h, hx.dt, hx.ld, hx.hd, hx.lb, hx.ub, hx.f, hx.cop, hx.trq⟩

section
variable {seq : Nat → DState} {first : Bool} {τ : ℝ} {dt am : Nat → ℝ} {x : Nat → ℝ}

theorem ex_linmom (hx : HasVals (exAt .timeOpt seq first) (exSpin τ dt am) x) (t : Nat) (ht : t < 3) (a : Nat) (ha : a < 3) :
    (exAt .timeOpt seq first).linmom x t a = 0 ∧ (exAt .timeOpt seq first).compos x t a = 0 := by
  have f : ∀ t < 3, (exAt .timeOpt seq first).s.mass * (exAt .timeOpt seq first).s.grav a +
      inContact (exAt .timeOpt seq first).s (exAt .timeOpt seq first).p t (fun e => (exAt .timeOpt seq first).s.mg * pF (exAt .timeOpt seq first).ctx x t e a) = 0 :=
    fun t ht => ex_force hx t ht a ha
  induction t with
  | zero =>
    have h1 : (exAt .timeOpt seq first).linmom x 0 a = 0 := by
      rw [linmom_rec, f 0 ht, before, if_pos rfl]; simp [exAtZ, exPlanZ]
    refine ⟨h1, ?_⟩
    rw [compos_rec, h1, before, if_pos rfl]; simp [exAtZ, exPlanZ]
  | succ t ih =>
    obtain ⟨i1, i2⟩ := ih (by omega)
    have h1 : (exAt .timeOpt seq first).linmom x (t + 1) a = 0 := by
      rw [linmom_rec, f (t + 1) ht, before, if_neg (by omega), Nat.add_sub_cancel, i1]; ring
    refine ⟨h1, ?_⟩
    rw [compos_rec, h1, before, if_neg (by omega), Nat.add_sub_cancel, i2]; ring

theorem ex_angmom (hx : HasVals (exAt .timeOpt seq first) (exSpin τ dt am) x) (t : Nat) (ht : t < 3) (a : Nat) (ha : a < 3) :
    (exAt .timeOpt seq first).angmomT x t a = if a = 2 then (∑ k ∈ range (t + 1), (seq k).time) * τ else 0 := by
  have step : ∀ t < 3, (exAt .timeOpt seq first).angmomT x t a = before exDPlan.iniH ((exAt .timeOpt seq first).angmomT x) t a +
      (seq t).time * if a = 2 then τ else 0 := by
    intro t ht
    rw [angmomT_rec]
    congr 1
    show (seq t).time * (∑ e ∈ range 1, if (decide (e = 0)) = true then _ else 0) = _
    rw [sum_range_one, if_pos (by simp)]
    congr 1
    have hT : pTrq (exAt .timeOpt seq first).ctx x t 0 = τ := hx.trq t ht 0 one_pos rfl
    have hF : ∀ a < 3, pF (exAt .timeOpt seq first).ctx x t 0 a = if a = 2 then 1 else 0 := fun a ha => hx.f t ht 0 one_pos rfl a ha
    have hc : ∀ a < 2, pCop (exAt .timeOpt seq first).ctx x t 0 a = 0 := fun a ha => hx.cop t ht 0 one_pos rfl a ha
    have hco := fun b hb => (ex_linmom hx t ht b hb).2
    rw [hT, hc 0 (by omega), hc 1 (by omega)]
    interval_cases a <;> simp only [Ctx.cross, hF 0 (by omega), hF 1 (by omega), hF 2 (by omega), hco 0 (by omega), hco 1 (by omega), hco 2 (by omega)] <;>
      simp [exAtZ, exPlanZ]
  induction t with
  | zero => rw [step 0 ht, before, if_pos rfl]; simp [exPlanZ]
  | succ t ih =>
    rw [step (t + 1) ht, before, if_neg (by omega), Nat.add_sub_cancel, ih (by omega), sum_range_succ _ (t + 1)]
    split <;> ring

end

/-- The solver of the witness: it keeps the durations in the first problem and shortens the first time step in the second. -/
theorem ex_run : ∃ x0 x1 : Nat → ℝ,
    let solver : Nat → DCtx → Nat → ℝ := fun k _ => if k = 0 then x0 else x1
    let st : LoopState := ⟨fun _ => exDState, (exD .timeOpt).guessOf (fun _ => 0), none, false⟩
    let r := optimizeLoop exIn solver st.seq st.guess st.err
    (Limits (exIn.ctx st.seq true) x0 0 false x0 ∧ Dynamics (exIn.ctx st.seq true) x0) ∧
    (Limits (exIn.ctx (plans exIn solver st 0).seq false) x1 0 false x1 ∧ Dynamics (exIn.ctx (plans exIn solver st 0).seq false) x1) ∧
    r = (plans exIn solver st 1, 2) ∧ (plans exIn solver st 0).err = some 0 ∧ (plans exIn solver st 0).converged = true ∧
    (∃ ε, r.1.err = some ε ∧ exIn.s.tolRes ≤ ε) ∧ r.1.converged = true ∧ ¬ AngMoves exIn.s exIn.p r.1.seq := by
  let dt1 : Nat → ℝ := fun t => if t = 0 then 9 / 100 else if t = 1 then 11 / 100 else 1 / 10
  obtain ⟨x0, h0⟩ := exists_vals (exD .timeOpt) (exPlan_ok .timeOpt) (exSpin 1 (fun _ => 1 / 10) (fun t => (t + 1 : ℝ) / 10))
  obtain ⟨x1, h1⟩ := exists_vals (exD .timeOpt) (exPlan_ok .timeOpt) (exSpin 1 dt1 (fun t => if t = 0 then 9 / 100 else if t = 1 then 1 / 5 else 3 / 10))
  refine ⟨x0, x1, ?_⟩
  intro solver st r
  -- first problem
  have hc0 : (exD .timeOpt).convErr x0 = 0 := by
    have hz : ∀ m : Nat → Nat → ℝ, (∀ t < 3, ∀ a < 3, m t a = 0) → DCtx.frob 3 m = 0 := by
      intro m hm
      unfold DCtx.frob
      rw [list_range_sum, sum_eq_zero, Real.sqrt_zero]
      intro t ht
      rw [hm t (mem_range.1 ht) 0 (by omega), hm t (mem_range.1 ht) 1 (by omega), hm t (mem_range.1 ht) 2 (by omega)]; ring
    unfold DCtx.convErr
    have hT : (exD .timeOpt).s.T = 3 := rfl
    rw [hT, hz, hz, hz]
    · simp
    · intro t ht a ha
      have e : ((exD .timeOpt).guessOf x0).h t a = if a = 2 then (t + 1 : ℝ) / 10 else 0 := h0.h t ht a ha
      rw [ex_angmom h0 t ht a ha, e]
      split
      · rw [sum_const, card_range]; simp [exDState]; ring
      · ring
    · intro t ht a ha
      have e : ((exD .timeOpt).guessOf x0).l t a = 0 := h0.l t ht a ha
      rw [(ex_linmom h0 t ht a ha).1, e, sub_zero]
    · intro t ht a ha
      have e : ((exD .timeOpt).guessOf x0).com t a = 0 := h0.com t ht a ha
      rw [(ex_linmom h0 t ht a ha).2, e, sub_zero]
  obtain ⟨c, hc, hp0⟩ := timeOpt_cases exIn rfl st true x0
  have hctx : exIn.ctx st.seq true = exD .timeOpt := rfl
  rw [hctx] at hc hp0
  have hct : c = true := hc.2 (Or.inr (Or.inl (by rw [hc0]; norm_num [exIn, exSet])))
  rw [hct, if_pos rfl, hc0] at hp0
  have hpl0 : plans exIn solver st 0 = internalOptimize exIn st true x0 := rfl
  set q := plans exIn solver st 0 with hq
  have hqc : q.converged = true := by rw [hpl0, hp0]
  have hqe : q.err = some 0 := by rw [hpl0, hp0]
  have hqs : q.seq = (exD .timeOpt).storeState { (exD .timeOpt).guessOf x0 with h := (exD .timeOpt).angmom x0 } := by rw [hpl0, hp0]
  -- the stored plan
  have qt : ∀ t < 3, (q.seq t).time = 1 / 10 := by
    intro t ht; rw [hqs, store_time _ _ t ht, if_pos (show (exD .timeOpt).s.heur = .timeOpt from rfl)]
    exact h0.dt rfl t ht
  have ql : ∀ t < 3, ∀ a < 3, (q.seq t).l a = 0 := by
    intro t ht a ha
    rw [hqs]
    cases t with
    | zero => rfl
    | succ t => rw [store_l _ _ t (by show t < 3; omega)]; exact h0.l t (by show t < 3; omega) a ha
  have qld : ∀ t < 3, ∀ a < 3, (q.seq t).ld a = 0 := by
    intro t ht a ha
    rw [hqs]
    show (if (decide (t < 3) && decide (Heur.timeOpt = .timeOpt)) = true then _ else _ : Nat → ℝ) a = 0
    rw [if_pos (by simp [ht])]; exact h0.ld rfl t ht a ha
  have qhd : ∀ t < 3, ∀ a < 3, (q.seq t).hd a = if a = 2 then 1 else 0 := by
    intro t ht a ha
    rw [hqs]
    show (if (decide (t < 3) && decide (Heur.timeOpt = .timeOpt)) = true then _ else _ : Nat → ℝ) a = _
    rw [if_pos (by simp [ht])]; exact h0.hd rfl t ht a ha
  have h1' : HasVals (exAt .timeOpt q.seq false) _ x1 := h1.move
  -- second problem
  obtain ⟨c', hc', hp1⟩ := timeOpt_cases exIn rfl q false x1
  have hct' : c' = true := hc'.2 (Or.inl hqc)
  rw [hct', if_pos rfl] at hp1
  have hpl1 : plans exIn solver st 1 = internalOptimize exIn q false x1 := rfl
  have hr : r = (plans exIn solver st 1, 2) := by
    obtain ⟨m, hm, _, h3⟩ := C125_loop_partial exIn solver st.seq st.guess st.err
    obtain ⟨h4, h5, h6⟩ := h3 rfl
    have hm2 : exIn.s.maxIter = 2 := rfl
    rw [hm2] at h4 h6
    have hm1 : m = 1 := by
      rcases Nat.lt_or_ge m 2 with h | h
      · have := (h6 h).1; omega
      · obtain rfl : m = 2 := by omega
        have := h5 1 (by omega) (by omega)
        have h7 : (plans exIn solver st 1).converged = true := by rw [hpl1, hp1]
        rw [show (⟨st.seq, st.guess, st.err, false⟩ : LoopState) = st from rfl, h7] at this
        exact absurd this (by simp)
    rw [hm1] at hm
    exact hm
  have hctx1 : exIn.ctx q.seq false = exAt .timeOpt q.seq false := rfl
  rw [hctx1] at hp1
  have hang0 : (exAt .timeOpt q.seq false).angmomT x1 0 2 = 1 / 10 := by
    rw [ex_angmom h1' 0 (by omega) 2 (by omega), if_pos rfl, sum_range_one, qt 0 (by omega)]; ring
  refine ⟨?_, ?_, hr, hqe, hqc, ?_, ?_, ?_⟩
  · rw [hctx]
    refine ⟨ex_limits (fun _ => by norm_num) rfl h0 (by norm_num) (by norm_num) (fun _ _ => by norm_num) 0 le_rfl false, ex_dynamics h0 (fun t ht => ?_) (fun _ h => by simp at h)⟩
    simp only [exDState]
    interval_cases t <;> norm_num
  · rw [hctx1]
    refine ⟨ex_limits (fun _ => by norm_num) rfl h1' (by norm_num) (by norm_num [dt1]) (fun t ht => by interval_cases t <;> norm_num [dt1]) 0 le_rfl false,
      ex_dynamics h1' (fun t ht => ?_) (fun _ _ t ht a ha => ⟨ql t ht a ha, qld t ht a ha, qhd t ht a ha⟩)⟩
    interval_cases t <;> norm_num [dt1]
  · refine ⟨_, by rw [hr]; show (plans exIn solver st 1).err = _; rw [hpl1, hp1], ?_⟩
    have hb := frob_entry 3 (fun t a => ((exAt .timeOpt q.seq false).guessOf x1).h t a - (exAt .timeOpt q.seq false).angmomT x1 t a) 0 (by omega) 2 (by omega)
    beta_reduce at hb
    have e : ((exAt .timeOpt q.seq false).guessOf x1).h 0 2 = 9 / 100 := h1.h 0 (by show 0 < 3; omega) 2 (by omega)
    rw [e, hang0] at hb
    have hm : DCtx.frob 3 (fun t a => ((exAt .timeOpt q.seq false).guessOf x1).h t a - (exAt .timeOpt q.seq false).angmomT x1 t a) / (3 : ℕ) ≤
        (exAt .timeOpt q.seq false).convErr x1 := le_trans (le_max_right _ _) (le_max_right _ _)
    have h3 : (1 / 100 : ℝ) ≤ DCtx.frob 3 (fun t a => ((exAt .timeOpt q.seq false).guessOf x1).h t a - (exAt .timeOpt q.seq false).angmomT x1 t a) := by
      refine le_trans ?_ hb; norm_num [abs_of_neg]
    have h4 : exIn.s.tolRes = 1 / 1000 := rfl
    rw [h4]
    refine le_trans ?_ hm
    rw [le_div_iff₀ (by norm_num)]
    push_cast
    linarith
  · rw [hr]; show (plans exIn solver st 1).converged = true; rw [hpl1, hp1]
  · intro hA
    have hs : r.1.seq = (exAt .timeOpt q.seq false).storeState { (exAt .timeOpt q.seq false).guessOf x1 with h := (exAt .timeOpt q.seq false).angmom x1 } := by
      rw [hr]; show (plans exIn solver st 1).seq = _; rw [hpl1, hp1]
    have := hA 0 (by show 0 < 3; omega) 2 (by omega)
    set g : Guess := { (exAt .timeOpt q.seq false).guessOf x1 with h := (exAt .timeOpt q.seq false).angmom x1 } with hg
    rw [hs, store_h _ g 0 (by show 0 < 3; omega), store_time _ g 0 (by show 0 < 3; omega),
      if_pos (show (exAt .timeOpt q.seq false).s.heur = .timeOpt from rfl), atStart, if_pos (show 0 = 0 from rfl)] at this
    have l1 : g.h 0 2 = 1 / 10 := (if_pos rfl : (exAt .timeOpt q.seq false).angmom x1 0 2 = _).trans hang0
    have l2 : g.dt 0 = 9 / 100 := h1.dt rfl 0 (by show 0 < 3; omega)
    have l3 : inContact exIn.s exIn.p 0 (fun e => Ctx.cross (storedArm exIn.p ((exAt .timeOpt q.seq false).storeState g) 0 e)
        (fun b => exIn.s.mg * ((exAt .timeOpt q.seq false).storeState g 0).frc e b) 2 +
        exIn.p.rot 0 e 2 2 * ((exAt .timeOpt q.seq false).storeState g 0).trq e 2) = 1 := by
      show (∑ e ∈ range 1, if (decide (e = 0)) = true then _ else 0) = _
      rw [sum_range_one, if_pos (by simp), store_trq _ g 0 0 (by show 0 < 3; omega) one_pos rfl]
      have f0 : ∀ b < 3, ((exAt .timeOpt q.seq false).storeState g 0).frc 0 b = if b = 2 then 1 else 0 := by
        intro b hb
        rw [store_frc _ g 0 0 (by show 0 < 3; omega) one_pos rfl]; exact h1.f 0 (by show 0 < 3; omega) 0 one_pos rfl b hb
      have t0 : g.trq 0 ((exAt .timeOpt q.seq false).p.actId 0 0) = 1 := h1.trq 0 (by show 0 < 3; omega) 0 one_pos rfl
      rw [t0]
      simp only [Ctx.cross, f0 0 (by omega), f0 1 (by omega)]
      simp [exIn, exPlanZ]
    rw [l1, l2, l3] at this
    have i0 : exIn.p.iniH 2 = 0 := rfl
    rw [i0] at this
    norm_num at this

/-- C124 is violated: a run of two problems whose solutions satisfy all constraints, that counts as converged, but whose
stored angular momentum is not the integral of the stored moments over the stored durations. -/
theorem C124_violated : ∃ (i : DIn) (solver : Nat → DCtx → Nat → ℝ) (st : LoopState), i.s.heur = .timeOpt ∧
    (∀ k < 2, Limits (i.ctx (if k = 0 then st.seq else (plans i solver st (k - 1)).seq) (k == 0)) (solver k (i.ctx st.seq true)) 0 false
        (solver k (i.ctx st.seq true)) ∧
      Dynamics (i.ctx (if k = 0 then st.seq else (plans i solver st (k - 1)).seq) (k == 0)) (solver k (i.ctx st.seq true))) ∧
    (optimizeLoop i solver st.seq st.guess st.err).2 = 2 ∧
    (optimizeLoop i solver st.seq st.guess st.err).1.converged = true ∧
    ¬ AngMoves i.s i.p (optimizeLoop i solver st.seq st.guess st.err).1.seq := by
  obtain ⟨x0, x1, h0, h1, hr, he, hc, hε, hcv, hA⟩ := ex_run
  refine ⟨exIn, fun k _ => if k = 0 then x0 else x1, ⟨fun _ => exDState, (exD .timeOpt).guessOf (fun _ => 0), none, false⟩, rfl, ?_, ?_, hcv, hA⟩
  · intro k hk
    interval_cases k
    · exact h0
    · exact h1
  · rw [hr]

/-- C125 is violated: a run in which the first plan meets the tolerance, and which nevertheless goes on and returns a later plan
that does not, as converged. -/
theorem C125_violated : ∃ (i : DIn) (solver : Nat → DCtx → Nat → ℝ) (st : LoopState), i.s.heur = .timeOpt ∧
    (∃ ε, (plans i solver st 0).err = some ε ∧ ε < i.s.tolRes) ∧
    (optimizeLoop i solver st.seq st.guess st.err).2 = 2 ∧
    (optimizeLoop i solver st.seq st.guess st.err).1.converged = true ∧
    ∃ ε, (optimizeLoop i solver st.seq st.guess st.err).1.err = some ε ∧ i.s.tolRes ≤ ε := by
  obtain ⟨x0, x1, h0, h1, hr, he, hc, hε, hcv, hA⟩ := ex_run
  exact ⟨exIn, fun k _ => if k = 0 then x0 else x1, ⟨fun _ => exDState, (exD .timeOpt).guessOf (fun _ => 0), none, false⟩, rfl,
    ⟨0, he, by norm_num [exIn, exSet]⟩, by rw [hr], hcv, hε⟩

/-! ### C126: tracking weights -/

/-- The problem of a call of `optimize` without tracking objective. -/
noncomputable def plain (s : DSet) (p : DPlan) (r : DRef) (seq : Nat → DState) (first : Bool) : DCtx :=
  ⟨(trackingWeights s false).1, p, r, (trackingWeights s false).2, seq, first⟩

/-- C126, what holds: a call with `update_tracking_objective` replaces the momentum weights of the caller's settings by the
tracking weights and nothing else, a call without it changes nothing. -/
theorem C126_settings_partial (s : DSet) (p : DPlan) (r : DRef) (solver : Nat → DCtx → Nat → ℝ) (seq : Nat → DState) (g : Guess) (err : Option ℝ) :
    (optimizeCall s p r false solver seq g err).1 = s ∧
    (optimizeCall s p r true solver seq g err).1.wL = s.wTrL ∧ (optimizeCall s p r true solver seq g err).1.wH = s.wTrH ∧
    { (optimizeCall s p r true solver seq g err).1 with
      wL := s.wL
      wH := s.wH } = s := ⟨rfl, rfl, rfl, rfl⟩

/-- C126, effect: a call without tracking objective after one with it minimises a different objective than the same call before:
the momentum terms of all but the last time step are weighted by the tracking weights. -/
theorem C126_objective_after_tracking (s : DSet) (p p' : DPlan) (r r' : DRef) (solver : Nat → DCtx → Nat → ℝ) (seq seq' : Nat → DState) (g : Guess)
    (err : Option ℝ) (first : Bool) (x : Nat → ℝ) :
    dynCost (plain (optimizeCall s p' r' true solver seq' g err).1 p r seq first) x = dynCost (plain s p r seq first) x +
      ∑ t ∈ range s.T, ∑ a ∈ range 3, if t + 1 = s.T then 0 else
        (s.wTrL a - s.wL a) * (pL (plain s p r seq first).ctx x t a - r.l t a) ^ 2 +
        (s.wTrH a - s.wH a) * (pH (plain s p r seq first).ctx x t a - r.h t a) ^ 2 := by
  set D := plain s p r seq first with hD
  set D' := plain (optimizeCall s p' r' true solver seq' g err).1 p r seq first with hD'
  have h1 : ∀ t a, trackCost D' x t a = trackCost D x t a + if t + 1 = s.T then 0 else
        (s.wTrL a - s.wL a) * (pL D.ctx x t a - r.l t a) ^ 2 + (s.wTrH a - s.wH a) * (pH D.ctx x t a - r.h t a) ^ 2 := by
    intro t a
    have e1 : trackCost D' x t a = (if t + 1 = s.T then s.wCom a * (pCom D.ctx x t a - (p.iniCom a + s.motion a)) ^ 2 +
      s.wLfin a * (pL D.ctx x t a - r.l t a) ^ 2 + s.wHfin a * (pH D.ctx x t a - r.h t a) ^ 2
      else s.wTrL a * (pL D.ctx x t a - r.l t a) ^ 2 + s.wTrH a * (pH D.ctx x t a - r.h t a) ^ 2) +
      0 * (pCom D.ctx x t a - r.com t a) ^ 2 := rfl
    have e2 : trackCost D x t a = (if t + 1 = s.T then s.wCom a * (pCom D.ctx x t a - (p.iniCom a + s.motion a)) ^ 2 +
      s.wLfin a * (pL D.ctx x t a - r.l t a) ^ 2 + s.wHfin a * (pH D.ctx x t a - r.h t a) ^ 2
      else s.wL a * (pL D.ctx x t a - r.l t a) ^ 2 + s.wH a * (pH D.ctx x t a - r.h t a) ^ 2) +
      0 * (pCom D.ctx x t a - r.com t a) ^ 2 := rfl
    rw [e1, e2]
    split <;> ring
  have e0 : ∀ E, E = D ∨ E = D' → dynCost E x = (s.via.map fun v => ∑ a ∈ range 3, s.wVia a * (pCom D.ctx x (viaStep D v.1) a - v.2 a) ^ 2).sum +
      ∑ t ∈ range s.T, ((∑ a ∈ range 3, (trackCost E x t a + (rateCost D x t a + forceCost D x t a))) + torqueCost D x t + timeCost D x t) +
      penalty D x := by
    rintro E (rfl | rfl) <;> simp only [← add_assoc] <;> rfl
  rw [e0 D (Or.inl rfl), e0 D' (Or.inr rfl)]
  simp only [h1, sum_add_distrib]
  ring

/-- C126 is violated: a call with tracking objective changes what later calls without it minimise. -/
theorem C126_violated : ∃ (s : DSet) (p : DPlan) (r : DRef) (seq : Nat → DState) (x : Nat → ℝ),
    ∀ p' r' solver seq' g err, dynCost (plain (optimizeCall s p' r' true solver seq' g err).1 p r seq true) x ≠ dynCost (plain s p r seq true) x := by
  obtain ⟨x, hx⟩ := exists_vals (exD .trust) (exPlan_ok .trust) { exVals with l := fun _ _ => 1 }
  refine ⟨exSet .trust, exDPlan, ⟨fun _ _ => 0, fun _ _ => 0, fun _ _ => 0⟩, fun _ => exDState, x, fun p' r' solver seq' g err => ?_⟩
  rw [C126_objective_after_tracking]
  have hL : ∀ t < 3, ∀ a < 3, pL (plain (exSet .trust) exDPlan ⟨fun _ _ => 0, fun _ _ => 0, fun _ _ => 0⟩ (fun _ => exDState) true).ctx x t a = 1 :=
    fun t ht a ha => hx.l t ht a ha
  have hH : ∀ t < 3, ∀ a < 3, pH (plain (exSet .trust) exDPlan ⟨fun _ _ => 0, fun _ _ => 0, fun _ _ => 0⟩ (fun _ => exDState) true).ctx x t a = 0 :=
    fun t ht a ha => (hx.h t ht a ha).trans (by simp [exSpin])
  have hT : (exSet .trust).T = 3 := rfl
  have : (∑ t ∈ range (exSet .trust).T, ∑ a ∈ range 3, if t + 1 = (exSet .trust).T then (0 : ℝ) else
        ((exSet .trust).wTrL a - (exSet .trust).wL a) * (pL (plain (exSet .trust) exDPlan ⟨fun _ _ => 0, fun _ _ => 0, fun _ _ => 0⟩ (fun _ => exDState) true).ctx x t a - 0) ^ 2 +
        ((exSet .trust).wTrH a - (exSet .trust).wH a) * (pH (plain (exSet .trust) exDPlan ⟨fun _ _ => 0, fun _ _ => 0, fun _ _ => 0⟩ (fun _ => exDState) true).ctx x t a - 0) ^ 2) = 36 := by
    rw [hT, sum_congr rfl (fun t ht => sum_congr rfl (fun a ha => by rw [hL t (mem_range.1 ht) a (mem_range.1 ha), hH t (mem_range.1 ht) a (mem_range.1 ha)]))]
    norm_num [sum_range_succ, exSet]
  beta_reduce
  rw [this]
  linarith

end Dyn
end Verif
