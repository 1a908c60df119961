/-
Properties C225 and C226: what an optimal exit of the conic solver means for the motion plan and for a posture step of the kinematics
optimiser, with the tolerances of the solver. Constraints and objectives are those of `Verif.KinOpt`, the solver is the one of C219 and C220.
-/
import Verif.KinOptRun
import Verif.DynOptNear

namespace Verif
namespace Kin
open LinExpr Finset
open Dyn (Near)
open ConicEnd (softCount)

/-! ### specification -/

/-- `Plan` up to `ε`. -/
structure NearPlan (c : TCtx) (ε : ℝ) (x : Nat → ℝ) : Prop where
  com : ∀ t < c.st.T, ∀ a < 3, Near ε (qCom c.st x t a) (c.rb.com (c.seq t) a +
    c.st.kdt * ∑ d ∈ range (6 + c.st.nact), (c.rb.jac (c.seq t)).com a (c.st.ext d) * qQd c.st x t d)
  lmom : ∀ t < c.st.T, ∀ a < 3, Near ε (qL c.st x t a)
    (∑ d ∈ range (6 + c.st.nact), (c.rb.jac (c.seq t)).cmm a (c.st.ext d) * qTqd c.st x t d)
  amom : ∀ t < c.st.T, ∀ a < 3, Near ε (qH c.st x t a)
    (∑ d ∈ range (6 + c.st.nact), (c.rb.jac (c.seq t)).cmm (3 + a) (c.st.ext d) * qTqd c.st x t d)
  pos : ∀ t < c.st.T, ∀ e < c.st.neff, ∀ a < 3, Near ε (qPos c.st x t e a) (c.rb.eff (c.seq t) e a + c.st.kdt * qVel c.st x t e a)
  vel : ∀ t < c.st.T, ∀ e < c.st.neff, ∀ a < 3, Near ε (qVel c.st x t e a)
    (∑ d ∈ range (6 + c.st.nact), (c.rb.jac (c.seq t)).eff e a (c.st.ext d) * qQd c.st x t d)
  ground : ∀ t < c.st.T, ∀ e < c.st.neff, c.st.floor - ε ≤ qPos c.st x t e 2
  posture : ∀ t < c.st.T, ∀ d < 6 + c.st.nact, Near ε (qQ c.st x t d) (coord c.st c.rb (c.seq t) d + c.st.kdt * qQd c.st x t d)
  velocity : ∀ t < c.st.T, ∀ d < 6 + c.st.nact, Near ε (qTqd c.st x t d)
    ((qQ c.st x t d - if t = 0 then coord c.st c.rb c.ini d else qQ c.st x (t - 1) d) / (c.ref t).time)
  accel : ∀ t < c.st.T, ∀ d < 6 + c.st.nact, Near ε (qTqdd c.st x t d)
    ((qTqd c.st x t d - if t = 0 then 0 else qTqd c.st x (t - 1) d) / (c.ref t).time)
  limits : ∀ t < c.st.T, ∀ d < c.st.nact, c.st.minJ (c.st.active d) - ε ≤ qQ c.st x t (6 + d) ∧
    qQ c.st x t (6 + d) ≤ c.st.maxJ (c.st.active d) + ε

/-- `PostureStep` up to `ε`. -/
structure NearStep (c : PCtx) (ε : ℝ) (x : Nat → ℝ) : Prop where
  slack : ∀ k < c.j.ncons, -ε ≤ x (c.cSlack k) ∧
    (∑ d ∈ range (6 + c.st.nact), c.j.cmat k d * x (c.cQd d)) - c.j.cvec k ≤ x (c.cSlack k) + ε
  integrate : ∀ d < c.st.nact, Near ε (x (c.cQ d)) (c.cur.pos.jnt d + c.st.kdt * x (c.cQd (6 + d)))
  limits : ∀ d < c.st.nact, c.st.minJ d - ε ≤ x (c.cQ d) ∧ x (c.cQ d) ≤ c.st.maxJ d + ε

/-- Joint limits up to `δ`. -/
def NearWithin (st : Setting) (δ : ℝ) (s : KState) : Prop := ∀ d < st.nact, st.minJ d - δ ≤ s.pos.jnt d ∧ s.pos.jnt d ≤ st.maxJ d + δ

/-! ### constraints up to `ε` -/

section
variable (ε : ℝ) (x0 : Nat → ℝ) (thr : ℝ) (w : Bool) (x : Nat → ℝ)

theorem eq0_near (l : LinExpr ℝ) : (TCtx.eq0 l).NearlyHolds ε x0 thr w x ↔ |l.getValue x| ≤ ε := by
  simp [TCtx.eq0, Op.NearlyHolds]

theorem ge_near (v : Nat) (b : ℝ) : (Op.addLin (ofVar v) ">" (ofConst b)).NearlyHolds ε x0 thr w x ↔ b - ε ≤ x v := by
  simp [Op.NearlyHolds]

theorem le_near (v : Nat) (b : ℝ) : (Op.addLin (ofVar v) "<" (ofConst b)).NearlyHolds ε x0 thr w x ↔ x v ≤ b + ε := by
  simp [Op.NearlyHolds]

/-- A row that vanishes up to `ε` says that its two sides agree up to `ε`. -/
theorem near_row {l a b : ℝ} (h : |l| ≤ ε) (e : l = a - b ∨ l = b - a) : Near ε a b := by
  rcases e with e | e
  · rw [e] at h; exact h
  · rw [e, abs_sub_comm] at h; exact h

theorem near_plan (c : TCtx) (h : ∀ op ∈ (List.range c.st.T).flatMap c.consAt, op.NearlyHolds ε x0 thr w x) : NearPlan c ε x := by
  simp only [List.mem_flatMap, List.mem_range] at h
  have h' : ∀ t < c.st.T, ∀ op ∈ c.consAt t, op.NearlyHolds ε x0 thr w x := fun t ht op ho => h op ⟨t, ht, ho⟩
  have e : ∀ t < c.st.T, ∀ l, TCtx.eq0 l ∈ c.consAt t → |l.getValue x| ≤ ε :=
    fun t ht l hl => (eq0_near ε x0 thr w x l).1 (h' t ht _ hl)
  constructor
  · intro t ht a ha
    have := e t ht (c.comC t a) ((mem_consAt c t _).2 (Or.inl ⟨a, ha, Or.inl rfl⟩))
    rw [comC_value] at this; exact near_row ε this (Or.inr (by ring))
  · intro t ht a ha
    have := e t ht (c.lmomC t a) ((mem_consAt c t _).2 (Or.inl ⟨a, ha, Or.inr (Or.inl rfl)⟩))
    rw [lmomC_value] at this; exact near_row ε this (Or.inr (by ring))
  · intro t ht a ha
    have := e t ht (c.amomC t a) ((mem_consAt c t _).2 (Or.inl ⟨a, ha, Or.inr (Or.inr (Or.inl rfl))⟩))
    rw [amomC_value] at this; exact near_row ε this (Or.inr (by ring))
  · intro t ht ef he a ha
    have := e t ht (c.posC t ef a) ((mem_consAt c t _).2 (Or.inl ⟨a, ha, Or.inr (Or.inr (Or.inr ⟨ef, he, Or.inl rfl⟩))⟩))
    rw [posC_value] at this; exact near_row ε this (Or.inl (by ring))
  · intro t ht ef he a ha
    have := e t ht (c.velC t ef a) ((mem_consAt c t _).2 (Or.inl ⟨a, ha, Or.inr (Or.inr (Or.inr ⟨ef, he, Or.inr rfl⟩))⟩))
    rw [velC_value] at this; exact near_row ε this (Or.inr (by ring))
  · intro t ht ef he
    exact (ge_near ε x0 thr w x _ _).1 (h' t ht _ ((mem_consAt c t _).2 (Or.inr (Or.inl ⟨ef, he, rfl⟩))))
  · intro t ht d hd
    have := e t ht (c.postC t d) ((mem_consAt c t _).2 (Or.inr (Or.inr (Or.inl ⟨d, hd, Or.inl rfl⟩))))
    rw [postC_value] at this; exact near_row ε this (Or.inl (by ring))
  · intro t ht d hd
    have := e t ht (c.tqdC t d) ((mem_consAt c t _).2 (Or.inr (Or.inr (Or.inl ⟨d, hd, Or.inr (Or.inl rfl)⟩))))
    rw [tqdC_value] at this; exact near_row ε this (Or.inl rfl)
  · intro t ht d hd
    have := e t ht (c.tqddC t d) ((mem_consAt c t _).2 (Or.inr (Or.inr (Or.inl ⟨d, hd, Or.inr (Or.inr rfl)⟩))))
    rw [tqddC_value] at this; exact near_row ε this (Or.inl rfl)
  · intro t ht d hd
    exact ⟨(ge_near ε x0 thr w x _ _).1 (h' t ht _ ((mem_consAt c t _).2 (Or.inr (Or.inr (Or.inr ⟨d, hd, Or.inl rfl⟩))))),
      (le_near ε x0 thr w x _ _).1 (h' t ht _ ((mem_consAt c t _).2 (Or.inr (Or.inr (Or.inr ⟨d, hd, Or.inr rfl⟩)))))⟩

theorem near_step (c : PCtx) (h : ∀ op ∈ c.cons, op.NearlyHolds ε x0 thr w x) : NearStep c ε x := by
  refine ⟨fun k hk => ⟨?_, ?_⟩, fun d hd => ?_, fun d hd => ⟨?_, ?_⟩⟩
  · have := (ge_near ε x0 thr w x _ _).1 (h _ ((mem_cons c _).2 (Or.inl ⟨k, hk, Or.inl rfl⟩)))
    linarith
  · have := h _ ((mem_cons c _).2 (Or.inl ⟨k, hk, Or.inr rfl⟩))
    simpa [Op.NearlyHolds, penE_value] using this
  · have := (eq0_near ε x0 thr w x _).1 (h _ ((mem_cons c _).2 (Or.inr ⟨d, hd, Or.inl rfl⟩)))
    rw [intE_value] at this; exact near_row ε this (Or.inr (by ring))
  · exact (ge_near ε x0 thr w x _ _).1 (h _ ((mem_cons c _).2 (Or.inr ⟨d, hd, Or.inr (Or.inl rfl)⟩)))
  · exact (le_near ε x0 thr w x _ _).1 (h _ ((mem_cons c _).2 (Or.inr ⟨d, hd, Or.inr (Or.inr rfl)⟩)))

end

theorem soft_linear (cons : List Op) (hc : ∀ op ∈ cons, ∃ l s r, op = Op.addLin l s r) (x0 x : Nat → ℝ) :
    (cons.map (Op.softTerm x0 x)).sum = 0 ∧ softCount cons = 0 := by
  constructor
  · refine List.sum_eq_zero fun r hr => ?_
    obtain ⟨op, hm, rfl⟩ := List.mem_map.1 hr
    obtain ⟨l, s, r, rfl⟩ := hc op hm; rfl
  · unfold softCount
    rw [List.length_eq_zero_iff, List.filter_eq_nil_iff]
    intro op h; obtain ⟨l, s, r, rfl⟩ := hc op h; simp

/-- C219 and C220 for quadratic programs with linear constraints. -/
theorem qp_end (is : List Int) (inf : ℝ) (hinf : 0 ≤ inf) (guess : Int → ℝ) (ts : List (ℝ × LinExpr ℝ)) (cons : List Op)
    (hc : ∀ op ∈ cons, (∃ l s r, op = .addLin l s r) ∧ op.Ok (List.range is.length) ∧ op.Regular)
    (ht : ∀ p ∈ ts, OverN is.length p.2) (hw : ∀ p ∈ ts, 0 ≤ p.1) (x0 : Nat → ℝ) (thr w : ℝ) (hw0 : 0 ≤ w) (warm : Bool)
    (v : ConicEnd.Call) (hv : v.Sane) :
    ∃ f S0, (ApiState.init.run (Dyn.program is inf guess ts cons)).p.build x0 thr w warm = some f ∧ ConicStore.toStorage f = some S0 ∧
      let c := ConicStore.toCone f
      let x := Equil.ox c (v.res c S0)
      ∀ ε, v.Reports c S0 ε →
        (∀ op ∈ cons, op.NearlyHolds ε x0 thr warm x) ∧
        ∀ y, (∀ op ∈ cons, op.Holds x0 thr warm y) → ∃ y', (∀ k < is.length, y' k = y k) ∧ f.Feasible y' ∧
          (ts.map fun t => t.1 * (t.2.getValue x) ^ 2).sum ≤ (1 + sqErr ε) * ((ts.map fun t => t.1 * (t.2.getValue y) ^ 2).sum + v.gap c S0 y') +
            (sqErr ε + sqErr ε ^ 2) * (ts.map (·.1)).sum := by
  obtain ⟨f, S0, hf, hS, h⟩ := ConicEnd.program_end is inf hinf guess ts cons (by
    intro op ho; obtain ⟨⟨l, s, r, rfl⟩, b⟩ := hc op ho; exact ⟨trivial, b⟩) ht hw x0 thr w hw0 warm v hv
  refine ⟨f, S0, hf, hS, ?_⟩
  intro c x ε hr
  obtain ⟨h1, h2⟩ := h ε hr
  refine ⟨h1, fun y hy => ?_⟩
  obtain ⟨y', a1, a2, a3⟩ := h2 y hy
  refine ⟨y', a1, a2, ?_⟩
  have hs := fun u => (soft_linear cons (fun op ho => (hc op ho).1) x0 u).1
  have hn := (soft_linear cons (fun op ho => (hc op ho).1) x0 x0).2
  simp only [hs, mul_zero, ite_self, add_zero, ConicEnd.weight, hn, Nat.cast_zero] at a3
  exact a3

/-! ### C225: the motion plan -/

/-- C225: the problem of one motion plan is built, handed to the interior point solver and equilibrated. If the solver reports an optimal or
inaccurately optimal exit with an iterate inside the cones and `ε` covers the rows, the returned plan satisfies the linearised kinematics,
the ground and the joint limits up to `ε`, and its cost is at most that of any exact plan, up to the relative error `sqErr ε`, the gap of
the solver and a multiple of the sum of the weights. -/
theorem C225_plan (c : TCtx) (hinf : 0 ≤ c.st.inf) (guess : Int → ℝ)
    (hw : ∀ i, 0 ≤ c.st.wCom i ∧ 0 ≤ c.st.wL i ∧ 0 ≤ c.st.wH i ∧ 0 ≤ c.st.wLd i ∧ 0 ≤ c.st.wHd i ∧ 0 ≤ c.st.wEff i ∧ 0 ≤ c.st.wEffNa i ∧
      0 ≤ c.st.wDef i ∧ 0 ≤ c.st.wVel i ∧ 0 ≤ c.st.wAcc i)
    (x0 : Nat → ℝ) (thr w : ℝ) (hw0 : 0 ≤ w) (warm : Bool) (v : ConicEnd.Call) (hv : v.Sane) :
    ∃ f S0, (ApiState.init.run (c.ops guess)).p.build x0 thr w warm = some f ∧ ConicStore.toStorage f = some S0 ∧
      let k := ConicStore.toCone f
      let x := Equil.ox k (v.res k S0)
      ∀ ε, v.Reports k S0 ε → NearPlan c ε x ∧
        ∀ y, Plan c y → ∃ y', (∀ i < totalSize (trajDims c.st), y' i = y i) ∧ f.Feasible y' ∧
          planCost c x ≤ (1 + sqErr ε) * (planCost c y + v.gap k S0 y') +
            (sqErr ε + sqErr ε ^ 2) * (((List.range c.st.T).flatMap c.objAt).map (·.1)).sum := by
  obtain ⟨f, S0, hf, hS, h⟩ := qp_end ((trajOrder c.st).flatMap ids) c.st.inf hinf guess ((List.range c.st.T).flatMap c.objAt)
    ((List.range c.st.T).flatMap c.consAt) (traj_cons_ok c) (traj_obj_over c) (traj_weights c hw) x0 thr w hw0 warm v hv
  refine ⟨f, S0, hf, hS, ?_⟩
  intro k x ε hr
  obtain ⟨h1, h2⟩ := h ε hr
  refine ⟨near_plan ε x0 thr warm x c h1, fun y hy => ?_⟩
  obtain ⟨y', a1, a2, a3⟩ := h2 y ((C108_constraints c y x0 thr warm).2 hy)
  rw [traj_value, traj_value] at a3
  exact ⟨y', fun i hi => a1 i (by rw [traj_len]; exact hi), a2, a3⟩

/-! ### C226: a posture step -/

/-- C226: the same for the problem of one posture step. -/
theorem C226_posture (c : PCtx) (hinf : 0 ≤ c.st.inf) (guess : Int → ℝ)
    (hw : (∀ i, 0 ≤ c.st.wCom i ∧ 0 ≤ c.st.wL i ∧ 0 ≤ c.st.wH i ∧ 0 ≤ c.st.wEff i ∧ 0 ≤ c.st.wEffNa i ∧ 0 ≤ c.st.wDef i) ∧
      0 ≤ c.st.wReg ∧ 0 ≤ c.st.wSlack)
    (x0 : Nat → ℝ) (thr w : ℝ) (hw0 : 0 ≤ w) (warm : Bool) (v : ConicEnd.Call) (hv : v.Sane) :
    ∃ f S0, (ApiState.init.run (c.ops guess)).p.build x0 thr w warm = some f ∧ ConicStore.toStorage f = some S0 ∧
      let k := ConicStore.toCone f
      let x := Equil.ox k (v.res k S0)
      ∀ ε, v.Reports k S0 ε → NearStep c ε x ∧
        ∀ y, PostureStep c y → ∃ y', (∀ i < totalSize (postDims c.st c.j.ncons), y' i = y i) ∧ f.Feasible y' ∧
          moveCost c x + momCost c x ≤ (1 + sqErr ε) * (moveCost c y + momCost c y + v.gap k S0 y') +
            (sqErr ε + sqErr ε ^ 2) * (c.objTerms.map (·.1)).sum := by
  obtain ⟨f, S0, hf, hS, h⟩ := qp_end ((postOrder c.st c.j.ncons).flatMap ids) c.st.inf hinf guess c.objTerms c.cons (post_cons_ok c)
    (post_obj_over c) (post_weights c hw) x0 thr w hw0 warm v hv
  refine ⟨f, S0, hf, hS, ?_⟩
  intro k x ε hr
  obtain ⟨h1, h2⟩ := h ε hr
  refine ⟨near_step ε x0 thr warm x c h1, fun y hy => ?_⟩
  obtain ⟨y', a1, a2, a3⟩ := h2 y ((cons_iff c y x0 thr warm).2 hy)
  rw [objTerms_value, objTerms_value] at a3
  exact ⟨y', fun i hi => a1 i (by rw [post_len]; exact hi), a2, a3⟩

theorem near_store (c : PCtx) (rb : Robot) (start : KState) (ε : ℝ) (x : Nat → ℝ) (h : NearStep c ε x) :
    NearWithin c.st (2 * ε) (c.store rb start x) := by
  intro d hd
  have e : (c.store rb start x).pos.jnt d = c.cur.pos.jnt d + c.st.kdt * x (c.cQd (6 + d)) := by
    simp only [PCtx.store, Robot.differentiate, Robot.integrate]
    rw [if_pos (show 6 + d < c.st.next by simp only [Setting.next]; omega)]
    ring
  have a := abs_le.1 (h.integrate d hd)
  have b := h.limits d hd
  rw [e]; constructor <;> linarith [a.1, a.2, b.1, b.2]

theorem postLoop_near (st : Setting) (rb : Robot) (des : Ref) (start : KState) (solver : Nat → PCtx → Option (Nat → ℝ)) (ε : ℝ)
    (hs : ∀ k c x, solver k c = some x → NearStep c ε x) (n : Nat) (prev : Option ℝ) (k : Nat) (s : KState) :
    (postLoop st rb des start solver n prev k s).s.pos = s.pos ∨ NearWithin st (2 * ε) (postLoop st rb des start solver n prev k s).s := by
  induction n generalizing prev k s with
  | zero => exact Or.inl rfl
  | succ n ih =>
    rcases postLoop_succ st rb des start solver n prev k s with ⟨_, h⟩ | ⟨_, ⟨x, hx, h⟩ | ⟨_, h⟩⟩
    · rw [h]; exact Or.inl rfl
    · rw [h]
      rcases ih (some (trackingError st rb des s)) (k + 1) (PCtx.store ⟨st, rb.jac s, rb.update s, des⟩ rb start x) with h' | h'
      · right
        intro d hd
        rw [h']
        exact near_store ⟨st, rb.jac s, rb.update s, des⟩ rb start ε x (hs _ _ _ hx) d hd
      · exact Or.inr h'
    · rw [h]; exact ih _ _ _

/-- C226 (returned posture): if every call of the solver throws or returns a step that meets the constraints up to `ε`, the posture returned
after any number of iterations is the one passed in, or its joints are within their limits up to `2 ε`: errors do not add up. -/
theorem C226_limits (st : Setting) (rb : Robot) (des : Ref) (solver : Nat → PCtx → Option (Nat → ℝ)) (b : Bool) (s : KState) (ε : ℝ)
    (hs : ∀ k c x, solver k c = some x → NearStep c ε x) :
    (optimizePosture st rb des solver b s).s.pos = s.pos ∨ NearWithin st (2 * ε) (optimizePosture st rb des solver b s).s := by
  have := postLoop_near st rb des s solver ε hs st.maxConv none 0 s
  unfold optimizePosture
  cases b <;> exact this

/-! ### the hypotheses are met -/

theorem near_step_zero (c : PCtx) (x : Nat → ℝ) : NearStep c 0 x ↔ PostureStep c x := by
  constructor
  · intro h
    exact ⟨fun k hk => ⟨by simpa using (h.slack k hk).1, by simpa using (h.slack k hk).2⟩,
      fun d hd => sub_eq_zero.1 (abs_nonpos_iff.1 (h.integrate d hd)), fun d hd => by simpa using h.limits d hd⟩
  · intro h
    exact ⟨fun k hk => ⟨by simpa using (h.slack k hk).1, by simpa using (h.slack k hk).2⟩,
      fun d hd => abs_nonpos_iff.2 (sub_eq_zero.2 (h.integrate d hd)), fun d hd => by simpa using h.limits d hd⟩

/-- A call of the solver that reports an optimal exit. -/
theorem exists_report (is : List Int) (inf : ℝ) (hinf : 0 ≤ inf) (guess : Int → ℝ) (ts : List (ℝ × LinExpr ℝ)) (cons : List Op)
    (hc : ∀ op ∈ cons, (∃ l s r, op = .addLin l s r) ∧ op.Ok (List.range is.length) ∧ op.Regular)
    (ht : ∀ p ∈ ts, OverN is.length p.2) (hw : ∀ p ∈ ts, 0 ≤ p.1) (x0 : Nat → ℝ) (thr w : ℝ) (warm : Bool) :
    ∃ (v : ConicEnd.Call) (f : StdForm ℝ) (S0 : Equil.Storage) (ε : ℝ), v.Sane ∧
      (ApiState.init.run (Dyn.program is inf guess ts cons)).p.build x0 thr w warm = some f ∧ ConicStore.toStorage f = some S0 ∧
      v.Reports (ConicStore.toCone f) S0 ε := by
  obtain ⟨h1, h2, _⟩ := Dyn.conic_program is inf hinf guess ts cons (by
    intro op ho; obtain ⟨⟨l, s, r, rfl⟩, b⟩ := hc op ho; exact ⟨trivial, b⟩) ht hw x0 thr w warm
  obtain ⟨f, S0, hf, hS, _, hne⟩ := ConicStore.C218_storage _ h1 h2 x0 thr w warm
  obtain ⟨g, hg, ε, hrep⟩ := ConicEnd.exists_call (ConicStore.toCone f) hne S0 3 IP.exL rfl
    (⟨fun _ => 0, fun _ => 0, fun _ => 0, fun _ => 0, 0, 0⟩, ⟨0, 0, 0, 0, 0, 0, 0, 0, 0, 0⟩) ⟨fun _ => 0, fun _ => 0, fun _ => 0⟩
    ⟨fun _ => 0, fun _ => 0, fun _ => 0, fun _ => 0, 0, 0⟩ ⟨0, 0, 0, 0, 0, 0, 0, 0, 0, 0⟩
  exact ⟨_, f, S0, ε, hg, hf, hS, hrep⟩

/-- C225 is not vacuous: the example robot, a call that reports an optimal exit, and an exact plan to compare with. -/
example : ∃ (v : ConicEnd.Call) (f : StdForm ℝ) (S0 : Equil.Storage) (ε : ℝ), v.Sane ∧
    (ApiState.init.run (((slideIn 0).ctx fun _ => KState.zero).ops fun _ => 0)).p.build (fun _ => 0) 0 1 false = some f ∧
    ConicStore.toStorage f = some S0 ∧ v.Reports (ConicStore.toCone f) S0 ε ∧ Plan ((slideIn 0).ctx fun _ => KState.zero) (slidePlan 0) := by
  obtain ⟨v, f, S0, ε, h1, h2, h3, h4⟩ := exists_report ((trajOrder ((slideIn 0).ctx fun _ => KState.zero).st).flatMap ids) 1 zero_le_one (fun _ => 0)
    _ _ (traj_cons_ok ((slideIn 0).ctx fun _ => KState.zero)) (traj_obj_over _) (traj_weights _ (by
      intro i
      simp [TIn.ctx, slideIn, slideSet])) (fun _ => 0) 0 1 false
  exact ⟨v, f, S0, ε, h1, h2, h3, h4, slide_plan 0 (by omega)⟩

/-- C226 is not vacuous: the example posture problem, a call that reports an optimal exit, and an exact step to compare with; a solver that
returns steps for `C226_limits`. -/
example : (∃ (v : ConicEnd.Call) (f : StdForm ℝ) (S0 : Equil.Storage) (ε : ℝ), v.Sane ∧
    (ApiState.init.run (pullCtx.ops fun _ => 0)).p.build (fun _ => 0) 0 1 false = some f ∧
    ConicStore.toStorage f = some S0 ∧ v.Reports (ConicStore.toCone f) S0 ε ∧ PostureStep pullCtx (pullStep 0)) ∧
    ∃ solver : Nat → PCtx → Option (Nat → ℝ), (∀ k c x, solver k c = some x → NearStep c 0 x) ∧ solver 0 pullCtx = some (pullStep 0) := by
  constructor
  · obtain ⟨v, f, S0, ε, h1, h2, h3, h4⟩ := exists_report ((postOrder pullCtx.st pullCtx.j.ncons).flatMap ids) 1 zero_le_one (fun _ => 0)
      _ _ (post_cons_ok pullCtx) (post_obj_over _) (post_weights _ (by
        refine ⟨fun i => ?_, ?_, ?_⟩
        · show (0 : ℝ) ≤ 1 ∧ (0 : ℝ) ≤ 0 ∧ (0 : ℝ) ≤ 0 ∧ (0 : ℝ) ≤ 0 ∧ (0 : ℝ) ≤ 0 ∧ (0 : ℝ) ≤ 0
          norm_num
        · show (0 : ℝ) ≤ 1; norm_num
        · show (0 : ℝ) ≤ 0; norm_num)) (fun _ => 0) 0 1 false
    exact ⟨v, f, S0, ε, h1, h2, h3, h4, pull_feasible 0⟩
  · classical
    refine ⟨fun _ c => if PostureStep c (pullStep 0) then some (pullStep 0) else none, fun k c x h => ?_, if_pos (pull_feasible 0)⟩
    by_cases hc : PostureStep c (pullStep 0)
    · simp only [if_pos hc, Option.some.injEq] at h; subst h; exact (near_step_zero _ _).2 hc
    · simp only [if_neg hc] at h; cases h

end Kin
end Verif
