import Verif.ConicAssign
import Verif.ConicOpt

set_option linter.unusedSimpArgs false

/-!
Properties C05-C13 of the conic problem interface. The statements use only the model of the API
(`Conic.lean`, `ConicOpt.lean`) and the specification (`ConicSpec.lean`).
-/
namespace Verif

theorem h10 : ¬ ((1 : ℝ) < 0) := by norm_num

/-! ### C05: declaring variables -/

/-- C05: a call with lower bound above upper bound throws and changes nothing; every other call returns the
next column, and stores the variable with a guess inside its bounds, the nearest to the user's guess (hence equal to it if that was inside);
nothing already declared changes. -/
theorem C05_addVar (p : Problem ℝ) (ty : VarType) (lb ub g : ℝ) :
    (ub < lb → p.addVar ty lb ub g = (p, none)) ∧
    (lb ≤ ub → (p.addVar ty lb ub g).2 = some p.vars.length ∧
      ∃ r, (p.addVar ty lb ub g).1.vars = p.vars ++ [r] ∧ r.type = ty ∧ r.lb = lb ∧ r.ub = ub ∧
        lb ≤ r.guess ∧ r.guess ≤ ub ∧ (lb ≤ g → g ≤ ub → r.guess = g) ∧
        ∀ y, lb ≤ y → y ≤ ub → |r.guess - g| ≤ |y - g|) := by
  constructor
  · intro h; simp [Problem.addVar, h]
  · intro h
    have h' : ¬ lb > ub := not_lt.2 h
    refine ⟨?_, ⟨ty, lb, ub, Problem.clampGuess lb ub g⟩, ?_, rfl, rfl, rfl, ?_, ?_, ?_, ?_⟩
    · simp only [Problem.addVar, if_neg h', (pushVar_vars p ty lb ub g).1]
    · simp only [Problem.addVar, if_neg h', (pushVar_vars p ty lb ub g).2]
    · simp only [Problem.clampGuess]; split <;> (try split) <;> linarith
    · simp only [Problem.clampGuess]; split <;> (try split) <;> linarith
    · intro h1 h2
      simp only [Problem.clampGuess]
      rw [if_neg (by linarith), if_neg (by linarith)]
    · intro y h1 h2
      simp only [Problem.clampGuess]
      split
      · rw [abs_of_nonneg (by linarith), abs_of_nonneg (by linarith)]; linarith
      · split
        · rw [abs_of_nonpos (by linarith), abs_of_nonpos (by linarith)]; linarith
        · simp

/-- C05, numbering: whatever calls are made (failing ones included), the columns handed out to the user are
pairwise different, increasing, and smaller than the number of variables of the problem. -/
theorem C05_columns_distinct (ops : List Op) :
    List.Pairwise (· < ·) (ApiState.init.run ops).user ∧
    ∀ v ∈ (ApiState.init.run ops).user, v < (ApiState.init.run ops).p.vars.length := by
  have key : ∀ (ops : List Op) (st : ApiState), (List.Pairwise (· < ·) st.user ∧ ∀ v ∈ st.user, v < st.p.vars.length) →
      List.Pairwise (· < ·) (st.run ops).user ∧ ∀ v ∈ (st.run ops).user, v < (st.run ops).p.vars.length := by
    intro ops
    induction ops with
    | nil => intro st h; exact h
    | cons op ops ih =>
      intro st h
      refine ih (st.step op) ?_
      have hex : ∀ (n : Nat) (p : Problem ℝ), p.vars.length ≤ (p.addExtras n).1.vars.length := by
        intro n p; obtain ⟨vs, _, h2, _⟩ := addExtras_spec n p; rw [h2]; simp
      cases op with
      | addVar ty lb ub g =>
        by_cases hle : lb > ub
        · simpa [ApiState.step, Problem.addVar, hle] using h
        · have hs : st.step (.addVar ty lb ub g) = ⟨(st.p.pushVar ty lb ub g).1, st.user ++ [st.p.vars.length]⟩ := by
            simp only [ApiState.step, Problem.addVar, if_neg hle, (pushVar_vars _ _ _ _ _).1]
          rw [hs]
          constructor
          · rw [List.pairwise_append]
            exact ⟨h.1, by simp, fun a ha b hb => by simp at hb; rw [hb]; exact h.2 a ha⟩
          · intro v hv
            rw [(pushVar_vars _ _ _ _ _).2]
            simp only [List.length_append, List.length_singleton]
            rcases List.mem_append.1 hv with hv | hv
            · have := h.2 v hv; omega
            · simp at hv; omega
      | addLin l s r =>
        rw [(step_addLin st l s r).2.2.2.2]; exact h
      | addQua q s l ap =>
        refine ⟨h.1, fun v hv => lt_of_lt_of_le (h.2 v hv) ?_⟩
        cases ap <;> by_cases hs : s = "<"
        · simp only [ApiState.step, Problem.addQuaConstr, hs, if_true]; exact hex _ st.p
        · simp only [ApiState.step, Problem.addQuaConstr, hs, if_false]; exact hex _ st.p
        · simp only [ApiState.step, Problem.addQuaConstr, hs, if_true]; exact hex _ { st.p with numTrust := st.p.numTrust + 1 }
        · simp only [ApiState.step, Problem.addQuaConstr, hs, if_false]; exact hex _ { st.p with numTrust := st.p.numTrust + 1 }
        · simp only [ApiState.step, Problem.addQuaConstr, hs, if_true]
          exact le_trans (hex _ { st.p with numSoft := st.p.numSoft + 1 }) (hex _ _)
        · simp only [ApiState.step, Problem.addQuaConstr, hs, if_false, if_true]
          exact le_trans (hex _ { st.p with numSoft := st.p.numSoft + 1 }) (hex _ _)
      | addSoc q s l =>
        refine ⟨h.1, fun v hv => lt_of_lt_of_le (h.2 v hv) ?_⟩
        by_cases hs : s = "<"
        · simp only [ApiState.step, Problem.addSocConstr, hs, if_true]; exact hex _ st.p
        · simp only [ApiState.step, Problem.addSocConstr, hs, if_false]; exact hex _ st.p
      | setObj q l =>
        exact ⟨h.1, fun v hv => lt_of_lt_of_le (h.2 v hv) (hex _ st.p)⟩
  exact key ops _ (by simp [ApiState.init])

/-- C05, numbering: a program that only declares variables (successfully) gets the columns 0, 1, 2, ... -/
theorem C05_columns_consecutive (ds : List (VarType × ℝ × ℝ × ℝ)) (h : ∀ d ∈ ds, d.2.1 ≤ d.2.2.1) :
    (ApiState.init.run (ds.map (fun d => Op.addVar d.1 d.2.1 d.2.2.1 d.2.2.2))).user = List.range ds.length := by
  have key : ∀ (ds : List (VarType × ℝ × ℝ × ℝ)) (st : ApiState), (∀ d ∈ ds, d.2.1 ≤ d.2.2.1) →
      (st.run (ds.map (fun d => Op.addVar d.1 d.2.1 d.2.2.1 d.2.2.2))).user =
        st.user ++ List.range' st.p.vars.length ds.length := by
    intro ds
    induction ds with
    | nil => intro st _; simp [ApiState.run]
    | cons d ds ih =>
      intro st h
      have hd : ¬ d.2.1 > d.2.2.1 := not_lt.2 (h d (by simp))
      simp only [List.map_cons]
      rw [show ∀ (s : ApiState) o os, s.run (o :: os) = (s.step o).run os from fun _ _ _ => rfl]
      rw [ih _ (fun e he => h e (by simp [he]))]
      have hs : st.step (.addVar d.1 d.2.1 d.2.2.1 d.2.2.2) =
          ⟨(st.p.pushVar d.1 d.2.1 d.2.2.1 d.2.2.2).1, st.user ++ [st.p.vars.length]⟩ := by
        simp only [ApiState.step, Problem.addVar, if_neg hd, (pushVar_vars _ _ _ _ _).1]
      rw [hs]
      simp only
      rw [(pushVar_vars _ _ _ _ _).2]
      simp [List.range'_succ]
  rw [key ds _ h]
  simp [ApiState.init, Problem.empty, List.range_eq_range']

/-! ### C06: failed constraint calls -/

/-- C06 for linear constraints: an unsupported sense is rejected and nothing changes; a supported one is not rejected. -/
theorem C06_addLinConstr (p : Problem ℝ) (l r : LinExpr ℝ) (s : String) :
    ((p.addLinConstr l s r).2 = true ↔ s ≠ "=" ∧ s ≠ "<" ∧ s ≠ ">") ∧
    ((p.addLinConstr l s r).2 = true → (p.addLinConstr l s r).1 = p) := by
  unfold Problem.addLinConstr
  by_cases h1 : s = "="
  · simp [h1]
  · by_cases h2 : s = "<"
    · simp [h2]
    · by_cases h3 : s = ">"
      · simp [h3]
      · simp [h1, h2, h3]

/-- C06 is false of the code for quadratic and second-order-cone constraints: the rejected call leaves
auxiliary variables behind (and a trust-region/soft counter). -/
theorem C06_violated (p : Problem ℝ) (q : QuadExpr ℝ) (l : LinExpr ℝ) :
    (p.addSocConstr q ">" l).2 = true ∧ (p.addSocConstr q ">" l).1.vars.length = p.vars.length + 1 ∧
    (p.addQuaConstr q ">" l .trustRegion).2 = true ∧
    (p.addQuaConstr q ">" l .trustRegion).1.vars.length = p.vars.length + q.quad.length ∧
    (p.addQuaConstr q ">" l .trustRegion).1.numTrust = p.numTrust + 1 := by
  obtain ⟨vs, h1, h2, h3⟩ := addExtras_spec 1 p
  obtain ⟨vs', h1', h2', h3'⟩ := addExtras_spec q.quad.length { p with numTrust := p.numTrust + 1 }
  simp [Problem.addSocConstr, Problem.addQuaConstr, h2, h1, h2', h1']

/-- C06, the part that holds for quadratic and second-order-cone constraints: a rejected call leaves all stored
constraints, the objective and the declared variables (with their columns) unchanged, so a problem built
afterwards has the same constraint systems, cones and cost vector; only unused variables and the counters
differ. Missing: the state is not "exactly as it was" (`C06_violated`). -/
theorem C06_rejected_call_partial (p : Problem ℝ) (q : QuadExpr ℝ) (l : LinExpr ℝ) (s : String) (ap : QApprox)
    (p' : Problem ℝ) (h : p' = (p.addQuaConstr q s l ap).1 ∨ p' = (p.addSocConstr q s l).1) (hs : s ≠ "<")
    (x0 : Nat → ℝ) (thr w : ℝ) (warm : Bool) :
    p'.leq = p.leq ∧ p'.lineq = p.lineq ∧ p'.qineq = p.qineq ∧ p'.soc = p.soc ∧ p'.obj = p.obj ∧
    p'.bins = p.bins ∧ p.vars <+: p'.vars ∧
    (p'.build x0 thr w warm).map (fun f => (f.nleq, f.nlineq, f.q, f.eq, f.ineq, f.c)) =
      (p.build x0 thr w warm).map (fun f => (f.nleq, f.nlineq, f.q, f.eq, f.ineq, f.c)) := by
  have main : ∃ vs nt ns, p' = { p with vars := p.vars ++ vs, numTrust := nt, numSoft := ns } := by
    rcases h with h | h
    · cases ap
      · obtain ⟨vs, _, h2, _⟩ := addExtras_spec q.quad.length p
        exact ⟨vs, p.numTrust, p.numSoft, by simp [h, Problem.addQuaConstr, hs, h2]⟩
      · obtain ⟨vs, _, h2, _⟩ := addExtras_spec q.quad.length { p with numTrust := p.numTrust + 1 }
        exact ⟨vs, p.numTrust + 1, p.numSoft, by simp [h, Problem.addQuaConstr, hs, h2]⟩
      · obtain ⟨vs, _, h2, _⟩ := addExtras_spec q.quad.length { p with numSoft := p.numSoft + 1 }
        obtain ⟨vs', _, h2', _⟩ := addExtras_spec 1 { p with numSoft := p.numSoft + 1, vars := p.vars ++ vs }
        exact ⟨vs ++ vs', p.numTrust, p.numSoft + 1, by simp [h, Problem.addQuaConstr, hs, h2, h2']⟩
    · obtain ⟨vs, _, h2, _⟩ := addExtras_spec 1 p
      exact ⟨vs, p.numTrust, p.numSoft, by simp [h, Problem.addSocConstr, hs, h2]⟩
  obtain ⟨vs, nt, ns, rfl⟩ := main
  refine ⟨rfl, rfl, rfl, rfl, rfl, rfl, List.prefix_append _ _, ?_⟩
  unfold Problem.build
  by_cases hb : p.readsInBounds
  · have hb' : ({ p with vars := p.vars ++ vs, numTrust := nt, numSoft := ns } : Problem ℝ).readsInBounds := hb
    rw [if_pos hb']
    rw [if_pos hb]; rfl
  · have hb' : ¬ ({ p with vars := p.vars ++ vs, numTrust := nt, numSoft := ns } : Problem ℝ).readsInBounds := hb
    rw [if_neg hb']
    rw [if_neg hb]

/-! ### C07: the standard form -/

/-- C07: for every program of API calls (each call valid, weights of quadratic constraints nonnegative, no
linear constraint without variables, the objective set at most once), building the standard form is well
defined, and a point satisfies all constraints the user stated (and the unit range of the binaries) iff it
extends, without changing the user's variables, to a point feasible for the standard form. Trust-region
constraints contribute their linearised lower bound (see `Op.Holds`) unless the form is built for the warm
start. -/
theorem C07_standard_form (ops : List Op) (hok : ApiState.init.AllOk ops) (hone : OneObj ops)
    (hreg : ∀ op ∈ ops, op.Regular) (x0 : Nat → ℝ) (thr w : ℝ) (warm : Bool) :
    ∃ f, (ApiState.init.run ops).p.build x0 thr w warm = some f ∧ ∀ x : Nat → ℝ,
      ((∀ op ∈ ops, op.Holds x0 thr warm x) ∧ (ApiState.init.run ops).p.BinaryInUnit x) ↔
      ∃ x' : Nat → ℝ, (∀ v ∈ (ApiState.init.run ops).user, x' v = x v) ∧ f.Feasible x' := by
  have hi := inv_reachable ops hok hone
  have hr := reg_run ops _ reg_init hok hreg
  have hbo := binsOk_run ops _ binsOk_init
  have hsem : ∀ x, (ApiState.init.run ops).p.Sem x0 thr warm x ↔ ∀ op ∈ ops, op.Holds x0 thr warm x := fun x => by
    rw [sem_run ops x0 thr warm x _ hok]; exact and_iff_right (sem_init x0 thr warm x)
  have hbin : ∀ x, (ApiState.init.run ops).p.BinaryInUnit x ↔
      ∀ v ∈ (ApiState.init.run ops).p.bins, 0 ≤ x v ∧ x v ≤ 1 := by
    intro x
    constructor
    · intro h v hv
      obtain ⟨r, h1, h2⟩ := (hbo v).1 hv
      exact h v r h1 h2
    · intro h v r h1 h2
      exact h v ((hbo v).2 ⟨r, h1, h2⟩)
  refine ⟨_, build_some _ hi.wf.shape x0 thr w warm, fun x => ?_⟩
  constructor
  · rintro ⟨h1, h2⟩
    have := tight_feasible _ hi x0 thr w warm _ (build_some _ hi.wf.shape x0 thr w warm) x ((hsem x).2 h1) ((hbin x).1 h2)
    exact ⟨_, this.2.1, this.1⟩
  · rintro ⟨x', hx', hf⟩
    have h1 := feasible_sem _ hi.wf hr x0 thr w warm _ (build_some _ hi.wf.shape x0 thr w warm) x' hf
    refine ⟨(hsem x).1 (sem_congr _ hi hx' h1), (hbin x).2 fun v hv => ?_⟩
    have := ((feasible_iff _ hi.wf x0 thr w warm _ (build_some _ hi.wf.shape x0 thr w warm) x').1 hf).2.1 v hv
    rw [hx' v (hi.bins v hv)] at this
    exact this

/-- A program with every kind of constraint. -/
noncomputable def exampleOps : List Op :=
  [.addVar .continuous 0 1 0, .addVar .binary 0 1 0,
   .addLin ⟨0, [(0, 1)]⟩ "<" ⟨0, [(1, 1)]⟩,
   .addQua ⟨⟨-1, [(1, 1)]⟩, [(2, ⟨0, [(0, 1)]⟩), (1, ⟨1, [(1, 1)]⟩)]⟩ "<" ⟨3, []⟩ .trustRegion,
   .addQua ⟨⟨-1, [(1, 1)]⟩, [(2, ⟨0, [(0, 1)]⟩)]⟩ "<" ⟨3, []⟩ .softConstraint,
   .addSoc ⟨⟨0, [(0, 1)]⟩, [(1, ⟨0, [(1, 1)]⟩)]⟩ "<" ⟨3, []⟩,
   .setObj ⟨⟨0, [(0, 1)]⟩, [(1, ⟨0, [(1, 1)]⟩)]⟩ ⟨7, []⟩]

theorem exampleOps_user : (ApiState.init.run exampleOps).user = [0, 1] := by
  simp [exampleOps, ApiState.run, ApiState.step, ApiState.init, Problem.addVar, h10, Problem.pushVar, Problem.empty]

theorem exampleOps_ok : ApiState.init.AllOk exampleOps ∧ OneObj exampleOps ∧ ∀ op ∈ exampleOps, op.Regular := by
  refine ⟨?_, ?_, ?_⟩
  · simp [exampleOps, ApiState.AllOk, Op.Ok, ApiState.step, ApiState.init, Problem.addVar, h10, Problem.pushVar, Problem.empty,
      LinExpr.Over, QuadExpr.Over]
  · simp [OneObj, exampleOps, Op.isObj, List.filter_cons]
  · simp [exampleOps, Op.Regular, LinExpr.sub, LinExpr.mul, LinExpr.addAssign, LinExpr.clean, LinExpr.cleanStep]
    rintro a b (⟨rfl, _⟩ | ⟨rfl, _⟩) <;> norm_num

/-- The hypotheses of C07 are met by a program with all kinds of constraints, and its constraints are satisfiable. -/
example : ApiState.init.AllOk exampleOps ∧ OneObj exampleOps ∧ (∀ op ∈ exampleOps, op.Regular) ∧
    ∀ op ∈ exampleOps, op.Holds (fun _ => 0) 8 false (fun _ => 0) := by
  refine ⟨exampleOps_ok.1, exampleOps_ok.2.1, exampleOps_ok.2.2, ?_⟩
  simp [exampleOps, Op.Holds, LinExpr.getValue, LinExpr.sumLoop, sumSq, tangent]
  norm_num

/-- Without nonnegative weights the equivalence fails: the constraint `-x² ≤ -1` is violated at `x = 0`, but the standard
form has a feasible point with `x = 0` (the auxiliary variable bounds the square from above only). -/
theorem C07_negative_weight_violated :
    ∃ ops : List Op, ApiState.init.AllOk ops ∧ OneObj ops ∧ ∃ f x,
      (ApiState.init.run ops).p.build (fun _ => 0) 0 0 false = some f ∧ f.Feasible x ∧
      ¬ ∀ op ∈ ops, op.Holds (fun _ => 0) 0 false x := by
  let ops : List Op := [.addVar .continuous 0 1 0,
    .addQua ⟨⟨0, []⟩, [(-1, ⟨0, [(0, 1)]⟩)]⟩ "<" ⟨-1, []⟩ .none]
  have hok : ApiState.init.AllOk ops := by
    simp [ops, ApiState.AllOk, Op.Ok, ApiState.step, ApiState.init, Problem.addVar, h10, Problem.pushVar, Problem.empty,
      LinExpr.Over, QuadExpr.Over]
  have hone : OneObj ops := by simp [OneObj, ops, Op.isObj, List.filter_cons]
  have hi := inv_reachable ops hok hone
  refine ⟨ops, hok, hone, _, (fun v => if v = 0 then 0 else 1), build_some _ hi.wf.shape _ _ _ _, ?_, ?_⟩
  · rw [feasible_iff _ hi.wf _ _ _ _ _ (build_some _ hi.wf.shape _ _ _ _)]
    simp [ops, ApiState.run, ApiState.step, ApiState.init, Problem.addVar, h10, Problem.pushVar, Problem.empty,
      Problem.addQuaConstr, Problem.addExtras, Problem.addExtra, Rows.qlin, LinExpr.sub, LinExpr.mul, LinExpr.addAssign,
      LinExpr.clean, LinExpr.getValue, LinExpr.sumLoop, LinExpr.ofConst]
  · simp [ops, Op.Holds, sumSq, LinExpr.getValue, LinExpr.sumLoop]

/-- The bounds of continuous variables are not part of the standard form: they only limit the initial guess. -/
theorem C07_continuous_bounds_not_enforced :
    ∃ ops : List Op, ApiState.init.AllOk ops ∧ OneObj ops ∧ (∀ op ∈ ops, op.Regular) ∧ ∃ f x r,
      (ApiState.init.run ops).p.build (fun _ => 0) 0 0 false = some f ∧ f.Feasible x ∧
      (ApiState.init.run ops).p.vars[0]? = some r ∧ r.ub < x 0 := by
  let ops : List Op := [.addVar .continuous 0 1 0]
  have hok : ApiState.init.AllOk ops := by simp [ops, ApiState.AllOk, Op.Ok]
  have hone : OneObj ops := by simp [OneObj, ops, Op.isObj, List.filter_cons]
  have hi := inv_reachable ops hok hone
  refine ⟨ops, hok, hone, by simp [ops, Op.Regular], _, (fun _ => 2), ⟨.continuous, 0, 1, 0⟩,
    build_some _ hi.wf.shape _ _ _ _, ?_, ?_, by norm_num⟩
  · rw [feasible_iff _ hi.wf _ _ _ _ _ (build_some _ hi.wf.shape _ _ _ _)]
    simp [ops, ApiState.run, ApiState.step, ApiState.init, Problem.addVar, h10, Problem.pushVar, Problem.empty]
  · simp [ops, ApiState.run, ApiState.step, ApiState.init, Problem.addVar, h10, Problem.pushVar, Problem.empty, Problem.clampGuess]

/-! ### C08: the objective -/

/-- Value of the objective the user stated, with the penalty for soft constraints. -/
noncomputable def penalised (ops : List Op) (q : QuadExpr ℝ) (l : LinExpr ℝ) (w : ℝ) (warm : Bool) (x0 x : Nat → ℝ) : ℝ :=
  sumSq q.quad x + q.lin.getValue x + l.getValue x + (if warm then 0 else w * (ops.map (Op.softTerm x0 x)).sum)

/-- C08 (and C12): with nonnegative weights the linear cost of the standard form is, at every feasible point,
at least the user's objective without its constant (plus the weighted squared linearisations of the soft
constraints), and every feasible point can be changed in the auxiliary variables only to a feasible point
with equality. -/
theorem C08_objective (ops : List Op) (hok : ApiState.init.AllOk ops) (hone : OneObj ops)
    (hreg : ∀ op ∈ ops, op.Regular) (q : QuadExpr ℝ) (l : LinExpr ℝ) (hobj : Op.setObj q l ∈ ops)
    (hw : ∀ t ∈ q.quad, 0 ≤ t.1) (x0 : Nat → ℝ) (thr w : ℝ) (hw0 : 0 ≤ w) (warm : Bool) (f : StdForm ℝ)
    (hf : (ApiState.init.run ops).p.build x0 thr w warm = some f) (x : Nat → ℝ) (hx : f.Feasible x) :
    penalised ops q l w warm x0 x - (q.lin.const + l.const) ≤ f.cost x ∧
    ∃ x' : Nat → ℝ, f.Feasible x' ∧ (∀ v ∈ (ApiState.init.run ops).user, x' v = x v) ∧
      f.cost x' = penalised ops q l w warm x0 x - (q.lin.const + l.const) := by
  have hi := inv_reachable ops hok hone
  have hr := reg_run ops _ reg_init hok hreg
  obtain ⟨ho1, ho2⟩ := obj_run ops q l _ hok hone hobj
  have hsoft : ∀ y, (((ApiState.init.run ops).p.qineq.filter (·.soft)).map (CQuad.softTerm x0 y)).sum =
      (ops.map (Op.softTerm x0 y)).sum := by
    intro y
    have := softSum_run ops x0 y _ hok
    simpa [Problem.softSum, ApiState.init, Problem.empty] using this
  have hlin : ∀ y, LinExpr.tsum y (ApiState.init.run ops).p.obj.lin.terms =
      q.lin.getValue y + l.getValue y - (q.lin.const + l.const) := by
    intro y
    have h1 : (ApiState.init.run ops).p.obj.lin.getValue y = q.lin.getValue y + l.getValue y := by
      rw [ho2]; exact LinExpr.addAssign_value _ _ _
    have h2 : (ApiState.init.run ops).p.obj.lin.const = q.lin.const + l.const := by rw [ho2]; rfl
    rw [LinExpr.getValue_eq, h2] at h1
    linarith
  have hfe := (feasible_iff _ hi.wf x0 thr w warm f hf x).1 hx
  obtain ⟨_, hb, _, _, _, _, h7, h8, _, _⟩ := hfe
  have hsem := feasible_sem _ hi.wf hr x0 thr w warm f hf x hx
  have hlen : (ApiState.init.run ops).p.obj.quad.length ≤ (ApiState.init.run ops).p.obj.extra.length := by
    rw [hi.wf.obj]
  constructor
  · rw [cost_eq _ hi x0 thr w warm f hf x, hlin]
    have hq := sum_zip_le (l := (ApiState.init.run ops).p.obj.quad) (by rw [ho1]; exact hw) hlen h7
    have hs : (if warm then 0 else w * (ops.map (Op.softTerm x0 x)).sum) ≤
        (if warm then 0 else (((ApiState.init.run ops).p.qineq.filter (·.soft)).map (fun q => w * x (q.extra.getLastD 0))).sum) := by
      cases warm
      · simp only [if_neg Bool.false_ne_true]
        rw [← hsoft x, ← List.sum_map_mul_left]
        apply List.sum_le_sum
        intro q' hq'
        have hm := List.mem_filter.1 hq'
        have := h8 rfl q' hm.1 hm.2
        exact mul_le_mul_of_nonneg_left this hw0
      · simp
    rw [ho1] at hq
    unfold penalised
    rw [ho1]
    linarith
  · obtain ⟨t1, t2, t3, t4⟩ := tight_feasible _ hi x0 thr w warm f hf x hsem hb
    refine ⟨_, t1, t2, ?_⟩
    have t2' : ∀ v ∈ (ApiState.init.run ops).user,
      assign ((ApiState.init.run ops).p.tight x0 x) x v = x v := t2
    rw [cost_eq _ hi x0 thr w warm f hf, sum_zip_eq hlen t3, ho1]
    have hl2 : LinExpr.tsum (assign ((ApiState.init.run ops).p.tight x0 x) x) (ApiState.init.run ops).p.obj.lin.terms =
        LinExpr.tsum x (ApiState.init.run ops).p.obj.lin.terms := by
      have := value_congr hi.obj.1 t2'
      rw [LinExpr.getValue_eq, LinExpr.getValue_eq] at this
      linarith
    rw [hl2, hlin]
    have hs : (if warm then 0 else (((ApiState.init.run ops).p.qineq.filter (·.soft)).map
        (fun q => w * assign ((ApiState.init.run ops).p.tight x0 x) x (q.extra.getLastD 0))).sum) =
        (if warm then 0 else w * (ops.map (Op.softTerm x0 x)).sum) := by
      cases warm
      · simp only [if_neg Bool.false_ne_true]
        rw [← hsoft x, ← List.sum_map_mul_left]
        congr 1
        apply List.map_congr_left
        intro q' hq'
        have hm := List.mem_filter.1 hq'
        rw [t4 q' hm.1 hm.2]
      · simp
    rw [hs]
    unfold penalised
    linarith

/-- The objective only depends on the user's variables. -/
theorem penalised_congr (ops : List Op) (hok : ApiState.init.AllOk ops) (q : QuadExpr ℝ) (l : LinExpr ℝ) (hobj : Op.setObj q l ∈ ops)
    (x0 : Nat → ℝ) (w : ℝ) (warm : Bool) {y' y : Nat → ℝ} (hy' : ∀ v ∈ (ApiState.init.run ops).user, y' v = y v) :
    penalised ops q l w warm x0 y' = penalised ops q l w warm x0 y := by
  have hover : ∀ st : ApiState, ∀ os : List Op, st.AllOk os → ∀ o ∈ os, ∃ us, (∀ v ∈ us, v ∈ (st.run os).user) ∧ o.Ok us := by
    intro st os
    induction os generalizing st with
    | nil => intro _ o ho; simp at ho
    | cons o' os ih =>
      intro hall o ho
      have mono : ∀ (os : List Op) (s : ApiState), ∀ v ∈ s.user, v ∈ (s.run os).user := by
        intro os
        induction os with
        | nil => intro s v hv; exact hv
        | cons o'' os ih2 =>
          intro s v hv
          refine ih2 (s.step o'') v ?_
          cases o'' with
          | addVar ty lb ub g =>
            by_cases hle : lb > ub
            · simpa [ApiState.step, Problem.addVar, hle] using hv
            · simp only [ApiState.step, Problem.addVar, if_neg hle]; exact List.mem_append_left _ hv
          | addLin => exact hv
          | addQua => exact hv
          | addSoc => exact hv
          | setObj => exact hv
      rcases List.mem_cons.1 ho with rfl | ho
      · exact ⟨st.user, fun v hv => mono (o :: os) st v hv, hall.1⟩
      · exact ih (st.step o') hall.2 o ho
  obtain ⟨us, hus, hqo, hlo⟩ := hover _ ops hok _ hobj
  have hxy : ∀ v ∈ us, y' v = y v := fun v hv => hy' v (hus v hv)
  unfold penalised
  rw [sumSq_congr hqo.2 hxy, value_congr hqo.1 hxy, value_congr hlo hxy]
  have : ops.map (Op.softTerm x0 y') = ops.map (Op.softTerm x0 y) := by
    apply List.map_congr_left
    intro o ho
    obtain ⟨us', hus', hok'⟩ := hover _ ops hok o ho
    have hxy' : ∀ v ∈ us', y' v = y v := fun v hv => hy' v (hus' v hv)
    cases o with
    | addQua q' s' l' ap =>
      cases ap
      · rfl
      · rfl
      · simp only [Op.softTerm]
        rw [tangent_congr hok'.1.2 hxy', value_congr hok'.1.1 hxy', value_congr hok'.2.1 hxy']
    | addVar => rfl
    | addLin => rfl
    | addSoc => rfl
    | setObj => rfl
  rw [this]

/-- C08, minimisers: a feasible point of least cost of the standard form is, in the user's variables, a minimiser of the
user's (penalised) objective over all points that satisfy the user's constraints. -/
theorem C08_minimiser (ops : List Op) (hok : ApiState.init.AllOk ops) (hone : OneObj ops)
    (hreg : ∀ op ∈ ops, op.Regular) (q : QuadExpr ℝ) (l : LinExpr ℝ) (hobj : Op.setObj q l ∈ ops)
    (hw : ∀ t ∈ q.quad, 0 ≤ t.1) (x0 : Nat → ℝ) (thr w : ℝ) (hw0 : 0 ≤ w) (warm : Bool) (f : StdForm ℝ)
    (hf : (ApiState.init.run ops).p.build x0 thr w warm = some f) (x : Nat → ℝ) (hx : f.Feasible x)
    (hmin : ∀ y, f.Feasible y → f.cost x ≤ f.cost y) :
    ∀ y : Nat → ℝ, (∀ op ∈ ops, op.Holds x0 thr warm y) → (ApiState.init.run ops).p.BinaryInUnit y →
      penalised ops q l w warm x0 x ≤ penalised ops q l w warm x0 y := by
  intro y h1 h2
  obtain ⟨f', hf', he⟩ := C07_standard_form ops hok hone hreg x0 thr w warm
  obtain rfl : f = f' := Option.some.inj (hf.symm.trans hf')
  obtain ⟨y', hy', hfy'⟩ := (he y).1 ⟨h1, h2⟩
  obtain ⟨_, y'', hfy'', hu, hc⟩ := C08_objective ops hok hone hreg q l hobj hw x0 thr w hw0 warm f hf y' hfy'
  have hlow := (C08_objective ops hok hone hreg q l hobj hw x0 thr w hw0 warm f hf x hx).1
  have hm := hmin y'' hfy''
  have hpen := penalised_congr ops hok q l hobj x0 w warm hy'
  linarith

example : Op.setObj (⟨⟨0, [(0, 1)]⟩, [(1, ⟨0, [(1, 1)]⟩)]⟩ : QuadExpr ℝ) ⟨7, []⟩ ∈ exampleOps ∧
    ∀ t ∈ (⟨⟨0, [(0, 1)]⟩, [(1, ⟨0, [(1, 1)]⟩)]⟩ : QuadExpr ℝ).quad, 0 ≤ t.1 := by
  simp [exampleOps]

/-! ### C09: constant-only constraints -/

/-- C09 is false of the code: `1 = 0` (and `1 ≤ 0`) without variables is accepted and every point remains feasible. -/
theorem C09_violated : ∃ ops : List Op, ApiState.init.AllOk ops ∧ OneObj ops ∧
    (∀ x, ¬ ∀ op ∈ ops, op.Holds (fun _ => 0) 0 false x) ∧
    ∃ f, (ApiState.init.run ops).p.build (fun _ => 0) 0 0 false = some f ∧ ∀ x, f.Feasible x := by
  let ops : List Op := [.addLin ⟨1, []⟩ "=" ⟨0, []⟩, .addLin ⟨1, []⟩ "<" ⟨0, []⟩]
  have hok : ApiState.init.AllOk ops := by
    simp [ops, ApiState.AllOk, Op.Ok, LinExpr.Over]
  have hone : OneObj ops := by simp [OneObj, ops, Op.isObj, List.filter_cons]
  have hi := inv_reachable ops hok hone
  refine ⟨ops, hok, hone, ?_, _, build_some _ hi.wf.shape _ _ _ _, fun x => ?_⟩
  · intro x h
    have := h (.addLin ⟨1, []⟩ "=" ⟨0, []⟩) (by simp [ops])
    simp [Op.Holds, LinExpr.getValue, LinExpr.sumLoop] at this
  · rw [feasible_iff _ hi.wf _ _ _ _ _ (build_some _ hi.wf.shape _ _ _ _)]
    simp [ops, ApiState.run, ApiState.step, ApiState.init, Problem.empty, Problem.addLinConstr, Rows.lin,
      LinExpr.sub, LinExpr.mul, LinExpr.addAssign, LinExpr.clean, LinExpr.ofConst]

/-- C09, the part that holds: a constraint that is false at every point makes the standard form infeasible as long as a
linear one still mentions a variable (a cancelled variable whose zero coefficient is kept counts; quadratic
and second-order-cone constraints need no variable). Missing: linear constraints without any term. -/
theorem C09_false_constraint_partial (ops : List Op) (hok : ApiState.init.AllOk ops) (hone : OneObj ops)
    (hreg : ∀ op ∈ ops, op.Regular) (x0 : Nat → ℝ) (thr w : ℝ) (warm : Bool) (op : Op) (hop : op ∈ ops)
    (hfalse : ∀ x, ¬ op.Holds x0 thr warm x) :
    ∃ f, (ApiState.init.run ops).p.build x0 thr w warm = some f ∧ ∀ x, ¬ f.Feasible x := by
  obtain ⟨f, hf, he⟩ := C07_standard_form ops hok hone hreg x0 thr w warm
  refine ⟨f, hf, fun x hx => ?_⟩
  exact hfalse x (((he x).2 ⟨x, fun _ _ => rfl, hx⟩).1 op hop)

/-- `x + 1 = x` keeps a zero coefficient, is regular, and false everywhere. -/
example : (Op.addLin ⟨1, [(0, 1)]⟩ "=" ⟨0, [(0, 1)]⟩).Regular ∧
    ∀ x, ¬ (Op.addLin ⟨1, [(0, 1)]⟩ "=" ⟨0, [(0, 1)]⟩).Holds (fun _ => 0) 0 false x := by
  constructor
  · simp [Op.Regular, LinExpr.sub, LinExpr.mul, LinExpr.addAssign, LinExpr.clean, LinExpr.cleanStep]
  · intro x; simp [Op.Holds, LinExpr.getValue, LinExpr.sumLoop]

/-! ### C10: setting the objective again -/

/-- C10 is false of the code: after an objective with a quadratic term, setting any other objective makes
building the problem read past the end of the quadratic terms (undefined behaviour). -/
theorem C10_violated (ops : List Op) (hok : ApiState.init.AllOk ops) (hone : OneObj ops)
    (q1 q2 : QuadExpr ℝ) (l1 l2 : LinExpr ℝ) (h1 : Op.setObj q1 l1 ∈ ops) (hq : q1.quad ≠ [])
    (x0 : Nat → ℝ) (thr w : ℝ) (warm : Bool) :
    ((ApiState.init.run ops).step (.setObj q2 l2)).p.build x0 thr w warm = none := by
  have hi := inv_reachable ops hok hone
  have ho := (obj_run ops q1 l1 _ hok hone h1).1
  have hlen := hi.wf.obj
  rw [ho] at hlen
  obtain ⟨vs, e1, e2, e3⟩ := addExtras_spec q2.quad.length (ApiState.init.run ops).p
  have hpos := List.length_pos_of_ne_nil hq
  unfold Problem.build
  rw [if_neg]
  intro hb
  have := hb.1
  simp only [ApiState.step, Problem.setObjective, e2, e3, List.length_append, List.length_range'] at this
  omega

example : ∃ q : QuadExpr ℝ, ∃ l, Op.setObj q l ∈ exampleOps ∧ q.quad ≠ [] :=
  ⟨⟨⟨0, [(0, 1)]⟩, [(1, ⟨0, [(1, 1)]⟩)]⟩, ⟨7, []⟩, by simp [exampleOps], by simp⟩

/-- C10, the part that holds: if the objective replaced has no quadratic term, the problem after the second call
is exactly the one in which only the last objective was set. Missing: a replaced objective with quadratic terms (`C10_violated`). -/
theorem C10_replace_linear_partial (p : Problem ℝ) (q1 q2 : QuadExpr ℝ) (l1 l2 : LinExpr ℝ) (h : q1.quad = []) :
    (p.setObjective q1 l1).setObjective q2 l2 = p.setObjective q2 l2 := by
  have e0 : (p.addExtras q1.quad.length) = (p, []) := by rw [h]; rfl
  obtain ⟨vs, e1, e2, e3⟩ := addExtras_spec q2.quad.length p
  obtain ⟨vs', e1', e2', e3'⟩ := addExtras_spec q2.quad.length (p.setObjective q1 l1)
  have hv : vs' = vs := by
    have key : ∀ (n : Nat) (p p' : Problem ℝ), p.vars = p'.vars → (p.addExtras n).1.vars = (p'.addExtras n).1.vars := by
      intro n
      induction n with
      | zero => intro p p' h; exact h
      | succ n ih =>
        intro p p' h
        apply ih
        simp [Problem.addExtra, Problem.pushVar, h]
    have := key q2.quad.length (p.setObjective q1 l1) p (by simp [Problem.setObjective, e0])
    rw [e2, e2'] at this
    have h2 : (p.setObjective q1 l1).vars = p.vars := by simp [Problem.setObjective, e0]
    simp only [h2] at this
    exact List.append_cancel_left this
  have h2 : p.setObjective q1 l1 = { p with obj := { p.obj with quad := q1.quad, lin := q1.lin.add l1, extra := p.obj.extra } } := by
    simp [Problem.setObjective, e0]
  have e2'' := e2'
  have e3'' := e3'
  rw [show (p.setObjective q1 l1).setObjective q2 l2 = { ((p.setObjective q1 l1).addExtras q2.quad.length).1 with
      obj := { ((p.setObjective q1 l1).addExtras q2.quad.length).1.obj with
        quad := q2.quad, lin := q2.lin.add l2,
        extra := (p.setObjective q1 l1).obj.extra ++ ((p.setObjective q1 l1).addExtras q2.quad.length).2 } } from rfl]
  rw [show p.setObjective q2 l2 = { (p.addExtras q2.quad.length).1 with
      obj := { (p.addExtras q2.quad.length).1.obj with
        quad := q2.quad, lin := q2.lin.add l2, extra := p.obj.extra ++ (p.addExtras q2.quad.length).2 } } from rfl]
  rw [e2', e3', e2, e3, h2, hv]

/-! ### C11: trust regions -/

/-- C11: at every point feasible for the standard form of refinement iteration `k`, a trust-region constraint
`Σ c q² + lin ≤ l` (nonnegative weights) is violated from below by at most `τ^k` and never from above. -/
theorem C11_trust_region (ops : List Op) (hok : ApiState.init.AllOk ops) (hone : OneObj ops)
    (hreg : ∀ op ∈ ops, op.Regular) (q : QuadExpr ℝ) (l : LinExpr ℝ)
    (hop : Op.addQua q "<" l .trustRegion ∈ ops) (x0 : Nat → ℝ) (τ w : ℝ) (k : Nat) (f : StdForm ℝ)
    (hf : (ApiState.init.run ops).p.build x0 (τ ^ k) w false = some f) (x : Nat → ℝ) (hx : f.Feasible x) :
    -(τ ^ k) ≤ sumSq q.quad x + q.lin.getValue x - l.getValue x ∧
    sumSq q.quad x + q.lin.getValue x - l.getValue x ≤ 0 := by
  obtain ⟨f', hf', he⟩ := C07_standard_form ops hok hone hreg x0 (τ ^ k) w false
  obtain rfl : f = f' := Option.some.inj (hf.symm.trans hf')
  have h := ((he x).2 ⟨x, fun _ _ => rfl, hx⟩).1 _ hop
  have hq : ∀ t ∈ q.quad, 0 ≤ t.1 := hreg _ hop
  have hle : tangent q.quad x0 x ≤ sumSq q.quad x := by
    unfold tangent sumSq
    apply List.sum_le_sum
    intro t ht
    nlinarith [mul_nonneg (hq t ht) (sq_nonneg (t.2.getValue x - t.2.getValue x0))]
  constructor
  · have := h.2 rfl rfl; linarith
  · linarith [h.1]

/-- C11, exactness at the linearisation point: the current point (when it satisfies the other constraints) is cut off by the trust-region
rows only if it really violates a trust-region constraint by more than the threshold. -/
theorem C11_exact_at_current_point (ops : List Op) (hok : ApiState.init.AllOk ops) (hone : OneObj ops)
    (hreg : ∀ op ∈ ops, op.Regular) (x0 : Nat → ℝ) (τ w : ℝ) (k : Nat) (f : StdForm ℝ)
    (hf : (ApiState.init.run ops).p.build x0 (τ ^ k) w false = some f)
    (h : ∀ op ∈ ops, op.Holds x0 0 true x0) (hb : (ApiState.init.run ops).p.BinaryInUnit x0) :
    (∃ x, (∀ v ∈ (ApiState.init.run ops).user, x v = x0 v) ∧ f.Feasible x) ↔
    ∀ q l, Op.addQua q "<" l .trustRegion ∈ ops → -(τ ^ k) ≤ sumSq q.quad x0 + q.lin.getValue x0 - l.getValue x0 := by
  obtain ⟨f', hf', he⟩ := C07_standard_form ops hok hone hreg x0 (τ ^ k) w false
  obtain rfl : f = f' := Option.some.inj (hf.symm.trans hf')
  rw [← he x0]
  have ht : ∀ q : QuadExpr ℝ, tangent q.quad x0 x0 = sumSq q.quad x0 := by
    intro q
    unfold tangent sumSq
    congr 1
    apply List.map_congr_left
    intro t _
    ring
  constructor
  · intro hh q l hop
    have := (hh.1 _ hop).2 rfl rfl
    rw [ht] at this; linarith
  · intro hh
    refine ⟨fun op hop => ?_, hb⟩
    have h0 := h op hop
    cases op with
    | addQua q s l ap =>
      refine ⟨h0.1, ?_⟩
      intro hap _
      subst hap
      have hs : s = "<" := by
        have : ∀ (os : List Op) (st : ApiState), st.AllOk os → ∀ q s l ap, Op.addQua q s l ap ∈ os → s = "<" := by
          intro os
          induction os with
          | nil => intro st _ q s l ap h; simp at h
          | cons o os ih =>
            intro st hall q s l ap hm
            rcases List.mem_cons.1 hm with h | h
            · rw [← h] at hall; exact hall.1.2.2
            · exact ih _ hall.2 q s l ap h
        exact this ops _ hok q s l _ hop
      subst hs
      have := hh q l hop
      rw [ht]; linarith
    | addVar => exact h0
    | addLin => exact h0
    | addSoc => exact h0
    | setObj => exact h0

example : ∃ q : QuadExpr ℝ, ∃ l, Op.addQua q "<" l .trustRegion ∈ exampleOps :=
  ⟨⟨⟨-1, [(1, 1)]⟩, [(2, ⟨0, [(0, 1)]⟩), (1, ⟨1, [(1, 1)]⟩)]⟩, ⟨3, []⟩, by simp [exampleOps]⟩

/-! ### C12: soft constraints -/

/-- C12: the penalty carried by the standard form for soft constraints is at least the weighted sum of the squared
linearisations at the current solution `x0`, and the sum can be attained: with the objective itself zero, the cost of
a feasible point is bounded below by the penalty, with equality for suitable auxiliary variables. -/
theorem C12_soft_penalty (ops : List Op) (hok : ApiState.init.AllOk ops) (hone : OneObj ops)
    (hreg : ∀ op ∈ ops, op.Regular) (hobj : Op.setObj ⟨⟨0, []⟩, []⟩ ⟨0, []⟩ ∈ ops)
    (x0 : Nat → ℝ) (thr w : ℝ) (hw0 : 0 ≤ w) (f : StdForm ℝ)
    (hf : (ApiState.init.run ops).p.build x0 thr w false = some f) (x : Nat → ℝ) (hx : f.Feasible x) :
    w * (ops.map (Op.softTerm x0 x)).sum ≤ f.cost x ∧
    ∃ x' : Nat → ℝ, f.Feasible x' ∧ (∀ v ∈ (ApiState.init.run ops).user, x' v = x v) ∧
      f.cost x' = w * (ops.map (Op.softTerm x0 x)).sum := by
  have := C08_objective ops hok hone hreg _ _ hobj (by simp) x0 thr w hw0 false f hf x hx
  simpa [penalised, sumSq, LinExpr.getValue, LinExpr.sumLoop] using this

/-- The hypotheses of C12 are met by a program with a soft constraint. -/
example : ∃ ops : List Op, ApiState.init.AllOk ops ∧ OneObj ops ∧ (∀ op ∈ ops, op.Regular) ∧
    Op.setObj ⟨⟨0, []⟩, []⟩ ⟨0, []⟩ ∈ ops ∧
    (ops.map (Op.softTerm (fun _ => 1) (fun _ => 1))).sum = 4 := by
  refine ⟨[.addVar .continuous 0 1 0, .addQua ⟨⟨1, []⟩, [(1, ⟨0, [(0, 1)]⟩)]⟩ "<" ⟨0, []⟩ .softConstraint,
    .setObj ⟨⟨0, []⟩, []⟩ ⟨0, []⟩], ?_, ?_, ?_, by simp, ?_⟩
  · simp [ApiState.AllOk, Op.Ok, ApiState.step, ApiState.init, Problem.addVar, h10, Problem.pushVar, Problem.empty,
      LinExpr.Over, QuadExpr.Over]
  · simp [OneObj, Op.isObj, List.filter_cons]
  · simp [Op.Regular]
  · simp [Op.softTerm, tangent, LinExpr.getValue, LinExpr.sumLoop]; norm_num

/-! ### C13: the solve loop -/

/-- The solves `optimize` should perform for a problem with (`nc`) or without trust-region/soft constraints. -/
def expectedSolves (cfg : OptCfg) (nc : Bool) : List (Nat × Bool) :=
  (if cfg.warmStartIters > 0 ∧ nc then [(0, true)] else []) ++
  (if cfg.solverMaxIters > 0 then [(1, false)] else []) ++
  (if nc then (List.range cfg.refinements.toNat).map (fun i => (i + 2, false)) else [])

theorem refineLoop_trace (p : Problem ℝ) (solver) : ∀ (n ref : Nat) (s : OptState),
    ((p.refineLoop solver n ref s).trace.map (fun e => (e.exponent, e.warm)) =
      s.trace.map (fun e => (e.exponent, e.warm)) ++ (List.range n).map (fun i => (ref + 1 + i, false))) ∧
    (∀ e ∈ (p.refineLoop solver n ref s).trace, e ∈ s.trace ∨
      e.bnb = (decide (p.bins.length > 0) && (decide (p.countTrust = 0) && decide (p.countSoft = 0)))) ∧
    ((s.trace = [] → s.exit = .indeterminate) → (∀ tr ev, s.trace = tr ++ [ev] → s.exit = solver tr ev) →
      ((p.refineLoop solver n ref s).trace = [] → (p.refineLoop solver n ref s).exit = .indeterminate) ∧
      (∀ tr ev, (p.refineLoop solver n ref s).trace = tr ++ [ev] → (p.refineLoop solver n ref s).exit = solver tr ev)) := by
  intro n
  induction n with
  | zero => intro ref s; exact ⟨by simp [Problem.refineLoop], fun e he => Or.inl he, fun h1 h2 => ⟨h1, h2⟩⟩
  | succ n ih =>
    intro ref s
    obtain ⟨i1, i2, i3⟩ := ih (ref + 1) (p.buildAndSolve solver (ref + 1) false s)
    refine ⟨?_, ?_, ?_⟩
    · simp only [Problem.refineLoop]
      rw [i1]
      simp only [Problem.buildAndSolve, List.map_append, List.map_cons, List.map_nil, List.append_assoc]
      rw [List.range_succ_eq_map, List.map_cons, List.map_map]
      simp only [List.cons_append, List.nil_append, Nat.add_zero]
      congr 2
      apply List.map_congr_left
      intro i _
      simp only [Function.comp, Nat.succ_eq_add_one, Prod.mk.injEq, and_true]
      omega
    · intro e he
      rcases i2 e he with h | h
      · simp only [Problem.buildAndSolve, List.mem_append, List.mem_singleton] at h
        rcases h with h | h
        · exact Or.inl h
        · right; rw [h]
      · exact Or.inr h
    · intro _ _
      apply i3
      · intro h; simp [Problem.buildAndSolve] at h
      · intro tr ev h
        simp only [Problem.buildAndSolve] at h ⊢
        have := List.append_inj' h rfl
        obtain ⟨rfl, h2⟩ := this
        simp at h2
        rw [h2]

/-- C13: for a problem whose counters are right, `optimize` performs exactly the expected solves, each with branch and
bound iff there are binaries and no trust-region/soft constraints, and returns the exit code of the last one. -/
theorem C13_optimize (p : Problem ℝ) (cfg : OptCfg) (solver : List SolveEv → SolveEv → ExitCode)
    (ht : p.numTrust = p.countTrust) (hs : p.numSoft = p.countSoft) :
    (p.optimize cfg solver).trace.map (fun e => (e.exponent, e.warm)) =
      expectedSolves cfg (decide (p.countTrust > 0 ∨ p.countSoft > 0)) ∧
    (∀ e ∈ (p.optimize cfg solver).trace,
      e.bnb = (decide (p.bins.length > 0) && (decide (p.countTrust = 0) && decide (p.countSoft = 0)))) ∧
    ((p.optimize cfg solver).trace = [] → (p.optimize cfg solver).exit = .indeterminate) ∧
    (∀ tr ev, (p.optimize cfg solver).trace = tr ++ [ev] → (p.optimize cfg solver).exit = solver tr ev) := by
  have refn : ∀ (s : OptState), s.numTrust = p.countTrust → s.numSoft = p.countSoft →
      (∀ e ∈ s.trace, e.bnb = (decide (p.bins.length > 0) && (decide (p.countTrust = 0) && decide (p.countSoft = 0)))) →
      (s.trace = [] → s.exit = .indeterminate) → (∀ tr ev, s.trace = tr ++ [ev] → s.exit = solver tr ev) →
      ∀ s', s' = (if cfg.refinements > 0 ∧ (s.numTrust > 0 ∨ s.numSoft > 0) then p.refineLoop solver cfg.refinements.toNat 1 s else s) →
      s'.trace.map (fun e => (e.exponent, e.warm)) = s.trace.map (fun e => (e.exponent, e.warm)) ++
        (if decide (p.countTrust > 0 ∨ p.countSoft > 0) = true then
          (List.range cfg.refinements.toNat).map (fun i => (i + 2, false)) else []) ∧
      (∀ e ∈ s'.trace, e.bnb = (decide (p.bins.length > 0) && (decide (p.countTrust = 0) && decide (p.countSoft = 0)))) ∧
      (s'.trace = [] → s'.exit = .indeterminate) ∧ (∀ tr ev, s'.trace = tr ++ [ev] → s'.exit = solver tr ev) := by
    intro s h1 h2 h3 h4 h5 s' hs'
    rw [h1, h2] at hs'
    obtain ⟨r1, r2, r3⟩ := refineLoop_trace p solver cfg.refinements.toNat 1 s
    by_cases hc : cfg.refinements > 0 ∧ (p.countTrust > 0 ∨ p.countSoft > 0)
    · rw [if_pos hc] at hs'
      rw [if_pos (by simpa using hc.2), hs']
      refine ⟨?_, fun e he => ?_, (r3 h4 h5).1, (r3 h4 h5).2⟩
      · rw [r1]; congr 1; apply List.map_congr_left; intro i _; simp only [Prod.mk.injEq, and_true]; omega
      · rcases r2 e he with h | h
        · exact h3 e h
        · exact h
    · rw [if_neg hc] at hs'
      rw [hs']
      refine ⟨?_, h3, h4, h5⟩
      by_cases hn : p.countTrust > 0 ∨ p.countSoft > 0
      · have : cfg.refinements.toNat = 0 := by
          have : ¬ cfg.refinements > 0 := fun h => hc ⟨h, hn⟩
          omega
        simp [this]
      · rw [if_neg (by simpa using hn)]; simp
  have app1 : ∀ {α : Type} {a b : α} {tr : List α}, [a] = tr ++ [b] → tr = [] ∧ b = a := by
    intro α a b tr h
    cases tr with
    | nil => simp at h; exact ⟨rfl, h.symm⟩
    | cons c cs => simp at h
  have app2 : ∀ {α : Type} {a b c : α} {tr : List α}, [a, b] = tr ++ [c] → tr = [a] ∧ c = b := by
    intro α a b c tr h
    have := List.append_inj' (show [a] ++ [b] = tr ++ [c] from h) rfl
    exact ⟨this.1.symm, by simpa using this.2.symm⟩
  unfold Problem.optimize
  unfold expectedSolves
  simp only [ht, hs]
  by_cases hw : cfg.warmStartIters > 0 ∧ (p.countTrust > 0 ∨ p.countSoft > 0)
  · rw [if_pos hw]
    have hw' : cfg.warmStartIters > 0 ∧ decide (p.countTrust > 0 ∨ p.countSoft > 0) = true := ⟨hw.1, by simpa using hw.2⟩
    rw [if_pos hw']
    by_cases hm : cfg.solverMaxIters > 0
    · rw [if_pos hm, if_pos hm]
      refine refn _ rfl rfl ?_ ?_ ?_ _ rfl
      · simp [Problem.buildAndSolve]
      · simp [Problem.buildAndSolve]
      · intro tr ev h
        simp only [Problem.buildAndSolve, List.nil_append, List.cons_append] at h ⊢
        obtain ⟨rfl, rfl⟩ := app2 h; rfl
    · rw [if_neg hm, if_neg hm]
      refine refn _ rfl rfl ?_ ?_ ?_ _ rfl
      · simp [Problem.buildAndSolve]
      · simp [Problem.buildAndSolve]
      · intro tr ev h
        simp only [Problem.buildAndSolve, List.nil_append] at h ⊢
        obtain ⟨rfl, rfl⟩ := app1 h; rfl
  · rw [if_neg hw]
    have hw' : ¬ (cfg.warmStartIters > 0 ∧ decide (p.countTrust > 0 ∨ p.countSoft > 0) = true) :=
      fun h => hw ⟨h.1, by simpa using h.2⟩
    rw [if_neg hw']
    by_cases hm : cfg.solverMaxIters > 0
    · rw [if_pos hm, if_pos hm]
      refine refn _ rfl rfl ?_ ?_ ?_ _ rfl
      · simp [Problem.buildAndSolve]
      · simp [Problem.buildAndSolve]
      · intro tr ev h
        simp only [Problem.buildAndSolve, List.nil_append] at h ⊢
        obtain ⟨rfl, rfl⟩ := app1 h; rfl
    · rw [if_neg hm, if_neg hm]
      refine refn _ rfl rfl ?_ ?_ ?_ _ rfl
      · simp
      · simp
      · intro tr ev h; simp at h

/-- The counters are right after every program of valid calls. -/
theorem C13_counters (ops : List Op) (hok : ApiState.init.AllOk ops) :
    (ApiState.init.run ops).p.numTrust = (ApiState.init.run ops).p.countTrust ∧
    (ApiState.init.run ops).p.numSoft = (ApiState.init.run ops).p.countSoft := by
  have key : ∀ (ops : List Op) (st : ApiState), st.AllOk ops →
      (st.p.numTrust = st.p.countTrust ∧ st.p.numSoft = st.p.countSoft) →
      (st.run ops).p.numTrust = (st.run ops).p.countTrust ∧ (st.run ops).p.numSoft = (st.run ops).p.countSoft := by
    intro ops
    induction ops with
    | nil => intro st _ h; exact h
    | cons op ops ih =>
      intro st hok h
      refine ih (st.step op) hok.2 ?_
      have k5 := fun n (p : Problem ℝ) => congrArg Problem.qineq (addExtras_keep n p)
      have k6 := fun n (p : Problem ℝ) => congrArg Problem.numTrust (addExtras_keep n p)
      have k7 := fun n (p : Problem ℝ) => congrArg Problem.numSoft (addExtras_keep n p)
      simp only at k5 k6 k7
      unfold Problem.countTrust Problem.countSoft at *
      cases op with
      | addVar ty lb ub g =>
        have hle : ¬ lb > ub := not_lt.2 hok.1
        cases ty <;> simpa [ApiState.step, Problem.addVar, hle, Problem.pushVar] using h
      | addLin l s r =>
        obtain ⟨_, _, hs⟩ := hok.1
        rcases hs with rfl | rfl | rfl <;> simpa [ApiState.step, Problem.addLinConstr] using h
      | addQua q s l ap =>
        obtain ⟨_, _, rfl⟩ := hok.1
        cases ap <;> simp [ApiState.step, Problem.addQuaConstr, k5, k6, k7, List.filter_append, List.filter_cons, h]
      | addSoc q s l =>
        obtain ⟨_, _, rfl⟩ := hok.1
        simpa [ApiState.step, Problem.addSocConstr, k5, k6, k7] using h
      | setObj q l => simpa [ApiState.step, Problem.setObjective, k5, k6, k7] using h
  exact key ops _ hok (by simp [ApiState.init, Problem.empty, Problem.countTrust, Problem.countSoft])

/-- Non-vacuity and a concrete run: `exampleOps` has one trust-region and one soft constraint; with warm start and 2 refinements the
solves are 0 (warm), 1, 2, 3. -/
example (solver) : ((ApiState.init.run exampleOps).p.optimize ⟨5, 100, 2⟩ solver).trace.map (fun e => (e.exponent, e.warm))
    = [(0, true), (1, false), (2, false), (3, false)] := by
  have hc := C13_counters exampleOps exampleOps_ok.1
  rw [(C13_optimize _ ⟨5, 100, 2⟩ solver hc.1 hc.2).1]
  have : (ApiState.init.run exampleOps).p.countTrust = 1 := by
    rw [← hc.1]
    have k6 := fun n (p : Problem ℝ) => congrArg Problem.numTrust (addExtras_keep n p)
    simp only at k6
    simp [exampleOps, ApiState.run, ApiState.step, ApiState.init, Problem.addVar, h10, Problem.pushVar, Problem.empty,
      Problem.addLinConstr, Problem.addQuaConstr, Problem.addSocConstr, Problem.setObjective, k6]
  simp [expectedSolves, this]
  decide

/-- After a *rejected* trust-region call the counters are wrong, and `optimize` starts with a warm-start solve
although the problem has no such constraint. -/
theorem C13_rejected_call_violated : ∃ ops : List Op, ∀ solver,
    (ApiState.init.run ops).p.countTrust = 0 ∧ (ApiState.init.run ops).p.countSoft = 0 ∧
    ((ApiState.init.run ops).p.optimize ⟨1, 1, 0⟩ solver).trace.map (fun e => (e.exponent, e.warm)) =
      [(0, true), (1, false)] := by
  refine ⟨[.addQua ⟨⟨0, []⟩, []⟩ ">" ⟨0, []⟩ .trustRegion], fun solver => ?_⟩
  simp [ApiState.run, ApiState.step, ApiState.init, Problem.empty, Problem.addQuaConstr, Problem.addExtras,
    Problem.countTrust, Problem.countSoft, Problem.optimize, Problem.buildAndSolve]

end Verif
