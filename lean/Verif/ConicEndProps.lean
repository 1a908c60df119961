/-
Properties C219-C221: what an exit code of the interior point solver means for the constraints and the objective the user stated.
The whole chain is covered: API calls, standard form, hand-over to the solver, equilibration, interior point loop, exit code, scaling back.
-/
import Verif.ConicStoreProps
import Verif.ConicNear
import Verif.IPExitProps
import Verif.IPExamples

set_option linter.unusedSimpArgs false

namespace Verif
namespace ConicEnd
open Equil Finset IP

/-! ### the two forms of the cone constraints -/

theorem list_sum_range (n : Nat) (f : Nat → ℝ) : ((List.range n).map f).sum = ∑ i ∈ range n, f i := by
  induction n with
  | zero => rfl
  | succ n ih => rw [List.range_succ, List.map_append, List.sum_append, ih, Finset.sum_range_succ]; simp

theorem range_map_eq (n : Nat) (v : Nat → ℝ) (hn : 0 < n) :
    (List.range n).map v = v 0 :: (List.range (n - 1)).map (fun j => v (j + 1)) := by
  obtain ⟨m, rfl⟩ : ∃ m, n = m + 1 := ⟨n - 1, by omega⟩
  rw [List.range_succ_eq_map, List.map_cons, List.map_map, Nat.add_sub_cancel]
  rfl

theorem sum_sq_eq (n : Nat) (v : Nat → ℝ) : (((List.range (n - 1)).map (fun j => v (j + 1))).map (fun a => a ^ 2)).sum = ∑ j ∈ Ico 1 n, v j ^ 2 := by
  rw [List.map_map]
  have : ∀ m, ((List.range m).map ((fun a : ℝ => a ^ 2) ∘ fun j => v (j + 1))).sum = ∑ j ∈ range m, v (j + 1) ^ 2 := by
    intro m
    induction m with
    | zero => rfl
    | succ m ih => rw [List.range_succ, List.map_append, List.sum_append, ih, Finset.sum_range_succ]; simp
  rw [this, Finset.sum_Ico_eq_sum_range]
  exact sum_congr rfl fun j _ => by rw [add_comm]

/-- The cone of a block, written as in the solver and as in the specification of the standard form. -/
theorem inSoc_iff (n : Nat) (hn : 0 < n) (v : Nat → ℝ) : InSoc ((List.range n).map v) ↔ Real.sqrt (∑ j ∈ Ico 1 n, v j ^ 2) ≤ v 0 := by
  rw [range_map_eq n v hn]
  show Real.sqrt _ ≤ _ ↔ _
  rw [sum_sq_eq]

theorem forall2_range (n : Nat) (u v : Nat → ℝ) (ε : ℝ) (h : ∀ j < n, |u j - v j| ≤ ε) :
    List.Forall₂ (fun a b => |a - b| ≤ ε) ((List.range n).map u) ((List.range n).map v) := by
  rw [List.forall₂_map_left_iff, List.forall₂_map_right_iff, List.forall₂_same]
  exact fun j hj => h j (List.mem_range.1 hj)

/-- A point whose equations hold up to `ε` with a slack in the cone satisfies the standard form up to `ε`. -/
theorem nearly_of_slack (c : Cone) (hne : c.NoEmpty) (S : Storage) (f : StdForm ℝ) (hr : BnBLink.Rep c S f) (x s : Nat → ℝ) (hs : Mem c s) (ε : ℝ)
    (h1 : ∀ r < c.neq, |act S.A x r - pb c S r| ≤ ε) (h2 : ∀ r < c.sizecone, |act S.G x r + s r - ph c S r| ≤ ε) : f.Nearly ε x := by
  obtain ⟨rfl, _, ra, rg, _, rb, rh⟩ := hr
  have hsz : (⟨f.nvars, f.nleq, f.nlineq, f.q⟩ : Cone).sizecone = f.nlineq + f.q.sum := rfl
  have hph : ∀ r < f.nlineq + f.q.sum, |(f.ineq.rhs r - f.ineq.act x r) - s r| ≤ ε := by
    intro r hr'
    have := h2 r (by rw [hsz]; exact hr')
    rw [rg x r hr', show ph (⟨f.nvars, f.nleq, f.nlineq, f.q⟩ : Cone) S r = f.ineq.rhs r from rh r hr'] at this
    rw [← abs_neg]; convert this using 2; ring
  refine ⟨fun r hr' => ?_, fun r hr' => ?_, fun i hi => ?_⟩
  · have := h1 r hr'
    rwa [ra x r hr', show pb (⟨f.nvars, f.nleq, f.nlineq, f.q⟩ : Cone) S r = f.eq.rhs r from rb r hr'] at this
  · have a1 := (abs_le.1 (hph r (by omega))).1
    have a2 := hs.1 r hr'
    linarith
  · have hsize : (⟨f.nvars, f.nleq, f.nlineq, f.q⟩ : Cone).sizeSoc i = f.q[i] := by
      simp only [Cone.sizeSoc]; rw [List.getD_eq_getElem?_getD, List.getElem?_eq_getElem hi]; rfl
    have hpos : 0 < f.q[i] := by rw [← hsize]; exact hne i hi
    refine ⟨(List.range f.q[i]).map (fun j => s (startSoc f.nlineq f.q i + j)), ?_, ?_⟩
    · rw [inSoc_iff _ hpos]
      have := hs.2 i hi
      rw [hsize] at this
      exact this
    · apply forall2_range
      intro j hj
      apply hph
      have : (f.q.take i).sum + f.q[i] ≤ f.q.sum := by
        conv_rhs => rw [← List.take_append_drop i f.q, List.sum_append, List.drop_eq_getElem_cons hi, List.sum_cons]
        omega
      unfold startSoc; omega

/-- A feasible point of the standard form, with its slack, is feasible for the problem in the storage. -/
theorem feasible_slack (c : Cone) (hne : c.NoEmpty) (S : Storage) (f : StdForm ℝ) (hr : BnBLink.Rep c S f) (x : Nat → ℝ) (hx : f.Feasible x) :
    Feasible c S x (fun r => ph c S r - act S.G x r) := by
  obtain ⟨rfl, _, ra, rg, _, rb, rh⟩ := hr
  obtain ⟨x1, x2, x3⟩ := hx
  have hv : ∀ r < f.nlineq + f.q.sum, ph (⟨f.nvars, f.nleq, f.nlineq, f.q⟩ : Cone) S r - act S.G x r = f.ineq.rhs r - f.ineq.act x r := by
    intro r hr'
    rw [rg x r hr', show ph (⟨f.nvars, f.nleq, f.nlineq, f.q⟩ : Cone) S r = f.ineq.rhs r from rh r hr']
  refine ⟨fun r hr' => ?_, fun r _ => by ring, fun r hr' => ?_, fun i hi => ?_⟩
  · rw [ra x r hr']; exact (x1 r hr').trans (rb r hr').symm
  · have hr'' : r < f.nlineq := hr'
    dsimp only
    rw [hv r (by omega)]
    linarith [x2 r hr']
  · have hi' : i < f.q.length := hi
    have hsize : (⟨f.nvars, f.nleq, f.nlineq, f.q⟩ : Cone).sizeSoc i = f.q[i] := by
      simp only [Cone.sizeSoc]; rw [List.getD_eq_getElem?_getD, List.getElem?_eq_getElem hi']; rfl
    have hpos : 0 < f.q[i] := by rw [← hsize]; exact hne i hi
    have hb : ∀ j < f.q[i], startSoc f.nlineq f.q i + j < f.nlineq + f.q.sum := by
      intro j hj
      have : (f.q.take i).sum + f.q[i] ≤ f.q.sum := by
        conv_rhs => rw [← List.take_append_drop i f.q, List.sum_append, List.drop_eq_getElem_cons hi', List.sum_cons]
        omega
      unfold startSoc; omega
    have := (inSoc_iff _ hpos _).1 (x3 i hi')
    rw [hsize]
    have e : ∀ j < f.q[i], ph (⟨f.nvars, f.nleq, f.nlineq, f.q⟩ : Cone) S ((⟨f.nvars, f.nleq, f.nlineq, f.q⟩ : Cone).startSoc i + j) -
        act S.G x ((⟨f.nvars, f.nleq, f.nlineq, f.q⟩ : Cone).startSoc i + j) =
        f.ineq.rhs (startSoc f.nlineq f.q i + j) - f.ineq.act x (startSoc f.nlineq f.q i + j) := fun j hj => hv _ (hb j hj)
    dsimp only
    have e0 := e 0 hpos
    rw [Nat.add_zero] at e0
    rw [e0, sum_congr rfl (fun j hj => by rw [e j (mem_Ico.1 hj).2])]
    exact this

/-! ### the objective at a nearly feasible point -/

/-- Number of soft constraints of a program. -/
def softCount (ops : List Op) : Nat := (ops.filter (fun op => match op with | .addQua _ _ _ .softConstraint => true | _ => false)).length

theorem softCount_run (ops : List Op) : ∀ st : ApiState, st.AllOk ops →
    ((st.run ops).p.qineq.filter (·.soft)).length = (st.p.qineq.filter (·.soft)).length + softCount ops := by
  induction ops with
  | nil => intro st _; simp [ApiState.run, softCount]
  | cons op ops ih =>
    intro st h
    rw [show st.run (op :: ops) = (st.step op).run ops from rfl, ih _ h.2]
    have hstep : ((st.step op).p.qineq.filter (·.soft)).length = (st.p.qineq.filter (·.soft)).length + softCount [op] := by
      cases op with
      | addVar ty lb ub g => rw [(step_addVar st ty lb ub g).2.2.1]; simp [softCount]
      | addLin l s r => rw [(step_addLin st l s r).1]; simp [softCount]
      | addQua q s l ap =>
        obtain ⟨_, _, rfl⟩ := h.1
        obtain ⟨h1, h2, h3, _, _, ex, h4⟩ := step_addQua st q l ap
        rw [h4, List.filter_append, List.length_append]
        cases ap <;> simp [softCount, List.filter_cons]
      | addSoc q s l =>
        obtain ⟨_, _, rfl⟩ := h.1
        rw [(step_addSoc st q l).2.2.1]; simp [softCount]
      | setObj q l => rw [(step_setObj st q l).2.2.1]; simp [softCount]
    rw [hstep, show softCount (op :: ops) = softCount [op] + softCount ops by
      unfold softCount; rw [← List.length_append, ← List.filter_append]; rfl]
    omega

/-- The squares of the objective: what the user minimises, without its linear part. -/
noncomputable def squares (ops : List Op) (q : QuadExpr ℝ) (w : ℝ) (warm : Bool) (x0 x : Nat → ℝ) : ℝ :=
  sumSq q.quad x + (if warm then 0 else w * (ops.map (Op.softTerm x0 x)).sum)

/-- The total weight of the squares. -/
noncomputable def totalWeight (ops : List Op) (q : QuadExpr ℝ) (w : ℝ) (warm : Bool) : ℝ :=
  (q.quad.map (·.1)).sum + (if warm then 0 else w * softCount ops)

/-- The linear part of the objective. -/
noncomputable def linearPart (q : QuadExpr ℝ) (l : LinExpr ℝ) (x : Nat → ℝ) : ℝ := q.lin.getValue x + l.getValue x

theorem penalised_split (ops : List Op) (q : QuadExpr ℝ) (l : LinExpr ℝ) (w : ℝ) (warm : Bool) (x0 x : Nat → ℝ) :
    penalised ops q l w warm x0 x = squares ops q w warm x0 x + linearPart q l x := by
  unfold penalised squares linearPart; ring

theorem list_sum_near {α : Type} (l : List α) (a b : α → ℝ) (A B : ℝ) (h : ∀ t ∈ l, a t ≤ A * b t + B) :
    (l.map a).sum ≤ A * (l.map b).sum + B * l.length := by
  induction l with
  | nil => simp
  | cons t l ih =>
    have h1 := h t List.mem_cons_self
    have h2 := ih fun t ht => h t (List.mem_cons_of_mem _ ht)
    simp only [List.map_cons, List.sum_cons, List.length_cons, Nat.cast_add, Nat.cast_one]
    nlinarith

/-- The squares of the objective at a point that satisfies the standard form up to `ε`. -/
theorem near_cost (ops : List Op) (hok : ApiState.init.AllOk ops) (hone : OneObj ops)
    (q : QuadExpr ℝ) (l : LinExpr ℝ) (hobj : Op.setObj q l ∈ ops)
    (hw : ∀ t ∈ q.quad, 0 ≤ t.1) (x0 : Nat → ℝ) (thr w : ℝ) (hw0 : 0 ≤ w) (warm : Bool) (f : StdForm ℝ)
    (hf : (ApiState.init.run ops).p.build x0 thr w warm = some f) (ε : ℝ) (h0 : 0 ≤ ε) (x : Nat → ℝ) (hx : f.Nearly ε x) :
    squares ops q w warm x0 x ≤ (1 + sqErr ε) * (f.cost x - (linearPart q l x - (q.lin.const + l.const))) +
      (sqErr ε + sqErr ε ^ 2) * totalWeight ops q w warm := by
  have hi := inv_reachable ops hok hone
  obtain ⟨ho1, ho2⟩ := obj_run ops q l _ hok hone hobj
  have hsoft : (((ApiState.init.run ops).p.qineq.filter (·.soft)).map (CQuad.softTerm x0 x)).sum =
      (ops.map (Op.softTerm x0 x)).sum := by
    have := softSum_run ops x0 x _ hok
    simpa [Problem.softSum, ApiState.init, Problem.empty] using this
  have hcnt : ((ApiState.init.run ops).p.qineq.filter (·.soft)).length = softCount ops := by
    have := softCount_run ops _ hok
    simpa [ApiState.init, Problem.empty] using this
  have hlin : LinExpr.tsum x (ApiState.init.run ops).p.obj.lin.terms = linearPart q l x - (q.lin.const + l.const) := by
    have h1 : (ApiState.init.run ops).p.obj.lin.getValue x = q.lin.getValue x + l.getValue x := by
      rw [ho2]; exact LinExpr.addAssign_value _ _ _
    have h2 : (ApiState.init.run ops).p.obj.lin.const = q.lin.const + l.const := by rw [ho2]; rfl
    rw [LinExpr.getValue_eq, h2] at h1
    unfold linearPart
    linarith
  obtain ⟨_, _, _, _, _, _, h7, h8, _, _⟩ := nearly_stored _ hi.wf x0 thr w warm f hf ε h0 x hx
  have hlen : (ApiState.init.run ops).p.obj.quad.length ≤ (ApiState.init.run ops).p.obj.extra.length := by rw [hi.wf.obj]
  have hq := sum_zip_near (l := (ApiState.init.run ops).p.obj.quad) _ _ (by rw [ho1]; exact hw) hlen h7
  rw [cost_eq _ hi x0 thr w warm f hf x, hlin]
  rw [ho1] at hq ⊢
  unfold squares totalWeight
  cases warm
  · simp only [if_neg Bool.false_ne_true]
    have hs := list_sum_near ((ApiState.init.run ops).p.qineq.filter (·.soft)) (CQuad.softTerm x0 x) (fun q => x (q.extra.getLastD 0))
      (1 + sqErr ε) (sqErr ε + sqErr ε ^ 2) (fun q' hq' => by
        have hm := List.mem_filter.1 hq'
        exact h8 rfl q' hm.1 hm.2)
    rw [hsoft, hcnt] at hs
    rw [List.sum_map_mul_left]
    have := mul_le_mul_of_nonneg_left hs hw0
    nlinarith
  · simp only [if_true]
    nlinarith

/-! ### C219 -/

/-- The tolerance `ε` covers every row of the problem as posed. -/
def Covers (c : Cone) (g : Stg) (S : Storage) (e : Nat → ℝ) (q : Out) (ε : ℝ) : Prop :=
  (∀ r < c.neq, e (c.nvars + r) * (tolF g q.code * denY c S q.opt) ≤ ε) ∧
  (∀ r < c.sizecone, e (c.nvars + c.neq + r) * (tolF g q.code * denZ c S q.opt) ≤ ε)

theorem binary_near (ops : List Op) (x : Nat → ℝ) (ε : ℝ)
    (h : ∀ v ∈ (ApiState.init.run ops).p.bins, -ε ≤ x v ∧ x v ≤ 1 + ε) :
    ∀ v r, (ApiState.init.run ops).p.vars[v]? = some r → r.type = .binary → -ε ≤ x v ∧ x v ≤ 1 + ε :=
  fun v r h1 h2 => h v ((binsOk_run ops _ binsOk_init v).2 ⟨r, h1, h2⟩)

/-- C219: a program of API calls is built, handed to the interior point solver and equilibrated. If the solver then reports an optimal or
inaccurately optimal exit with an iterate inside the cones, the returned point satisfies every constraint the user stated up to `ε`, and
every binary lies between 0 and 1 up to `ε`, where `ε` is any bound on (row scaling) times (feasibility tolerance) times (denominator of the
residual test). -/
theorem C219_constraints (ops : List Op) (hok : ApiState.init.AllOk ops) (hone : OneObj ops) (hreg : ∀ op ∈ ops, op.Regular)
    (x0 : Nat → ℝ) (thr wt : ℝ) (warm : Bool) (g : Stg) (hg : g.Sane) (iters : Nat) (lin : LinOracle)
    (old : Pt × Info) (rhs2 : Tri) (o0 : Pt) (i0 : Info) (hm : 1 ≤ g.maxIters) (hnan : g.reltol ≤ nanv ∧ g.reltolInacc ≤ nanv) :
    ∃ f S0, (ApiState.init.run ops).p.build x0 thr wt warm = some f ∧ ConicStore.toStorage f = some S0 ∧
      let c := ConicStore.toCone f
      let S := (setEquilibration c iters S0).1
      let e := (setEquilibration c iters S0).2
      let q := (optimize c g S lin old rhs2 o0 i0).1
      let x := ox c (q.reported c e)
      q.code = .optimal ∨ q.code = .optimalInacc → Inside c q.opt → ∀ ε, 0 ≤ ε → Covers c g S e q ε →
        f.Nearly ε x ∧ (∀ op ∈ ops, op.NearlyHolds ε x0 thr warm x) ∧
        ∀ v r, (ApiState.init.run ops).p.vars[v]? = some r → r.type = .binary → -ε ≤ x v ∧ x v ≤ 1 + ε := by
  obtain ⟨f, S0, hf, hS, hrep, hne⟩ := ConicStore.C218_storage ops hok hone x0 thr wt warm
  refine ⟨f, S0, hf, hS, ?_⟩
  intro c S e q x hcode hin ε h0 hcov
  have hi := inv_reachable ops hok hone
  have hr := reg_run ops _ reg_init hok hreg
  obtain ⟨_, h2⟩ := C21_optimal c g hg iters S0 hrep.2.1 lin old rhs2 o0 i0 hm hnan hcode
  obtain ⟨b1, b2, _, _⟩ := h2 hin.2.2.1
  obtain ⟨m1, _, _⟩ := C21_near_optimal c hne g hg iters S0 hrep.2.1 lin old rhs2 o0 i0 hm hnan hcode hin
  have hn : f.Nearly ε x := nearly_of_slack c hne S0 f hrep x _ m1 ε
    (fun r hr' => (b1 r hr').le.trans (hcov.1 r hr')) (fun r hr' => (b2 r hr').le.trans (hcov.2 r hr'))
  refine ⟨hn, ?_, ?_⟩
  · have := nearly_sem _ hi.wf hr x0 thr wt warm f hf ε h0 x hn
    exact ((nearSem_run ops ε x0 thr warm x _ hok).1 this).2
  · exact binary_near ops x ε (nearly_stored _ hi.wf x0 thr wt warm f hf ε h0 x hn).2.1

/-! ### C220 -/

/-- C220: under the conditions of C219 and with nonnegative weights, every point `y` that satisfies the constraints of the user extends to a
feasible point `y'` of the standard form such that the squares of the objective at the returned point are at most those that `y` leaves
room for, up to the relative error `sqErr ε`, the complementarity product and tolerance-sized multiples of the distance to `y'` and of the
multipliers. For `ε = 0` and vanishing tolerances and product this is optimality: `penalised x ≤ penalised y`. -/
theorem C220_objective (ops : List Op) (hok : ApiState.init.AllOk ops) (hone : OneObj ops) (hreg : ∀ op ∈ ops, op.Regular)
    (qo : QuadExpr ℝ) (lo : LinExpr ℝ) (hobj : Op.setObj qo lo ∈ ops) (hw : ∀ t ∈ qo.quad, 0 ≤ t.1)
    (x0 : Nat → ℝ) (thr wt : ℝ) (hw0 : 0 ≤ wt) (warm : Bool) (g : Stg) (hg : g.Sane) (iters : Nat) (lin : LinOracle)
    (old : Pt × Info) (rhs2 : Tri) (o0 : Pt) (i0 : Info) (hm : 1 ≤ g.maxIters) (hnan : g.reltol ≤ nanv ∧ g.reltolInacc ≤ nanv) :
    ∃ f S0, (ApiState.init.run ops).p.build x0 thr wt warm = some f ∧ ConicStore.toStorage f = some S0 ∧
      let c := ConicStore.toCone f
      let S := (setEquilibration c iters S0).1
      let e := (setEquilibration c iters S0).2
      let q := (optimize c g S lin old rhs2 o0 i0).1
      let w := q.reported c e
      let x := ox c w
      q.code = .optimal ∨ q.code = .optimalInacc → Inside c q.opt → ∀ ε, 0 ≤ ε → Covers c g S e q ε →
      ∀ y : Nat → ℝ, (∀ op ∈ ops, op.Holds x0 thr warm y) → (ApiState.init.run ops).p.BinaryInUnit y →
        ∃ y' : Nat → ℝ, (∀ v ∈ (ApiState.init.run ops).user, y' v = y v) ∧ f.Feasible y' ∧
          squares ops qo wt warm x0 x ≤ (1 + sqErr ε) * (penalised ops qo lo wt warm x0 y - linearPart qo lo x
            + ∑ k ∈ range c.sizecone, os c w k * oz c w k
            + tolF g q.code * (denX c S q.opt * ∑ j ∈ range c.nvars, e j * |x j - y' j|
              + denY c S q.opt * ∑ r ∈ range c.neq, e (c.nvars + r) * |oy c w r|
              + denZ c S q.opt * ∑ r ∈ range c.sizecone, e (c.nvars + c.neq + r) * |oz c w r|))
            + (sqErr ε + sqErr ε ^ 2) * totalWeight ops qo wt warm := by
  obtain ⟨f, S0, hf, hS, hrep, hne⟩ := ConicStore.C218_storage ops hok hone x0 thr wt warm
  refine ⟨f, S0, hf, hS, ?_⟩
  intro c S e q w x hcode hin ε h0 hcov y hy hbin
  obtain ⟨_, h2⟩ := C21_optimal c g hg iters S0 hrep.2.1 lin old rhs2 o0 i0 hm hnan hcode
  obtain ⟨b1, b2, _, _⟩ := h2 hin.2.2.1
  obtain ⟨m1, _, m3⟩ := C21_near_optimal c hne g hg iters S0 hrep.2.1 lin old rhs2 o0 i0 hm hnan hcode hin
  have hn : f.Nearly ε x := nearly_of_slack c hne S0 f hrep x _ m1 ε
    (fun r hr' => (b1 r hr').le.trans (hcov.1 r hr')) (fun r hr' => (b2 r hr').le.trans (hcov.2 r hr'))
  obtain ⟨f', hf', he⟩ := C07_standard_form ops hok hone hreg x0 thr wt warm
  obtain rfl : f' = f := by rw [hf] at hf'; exact (Option.some.inj hf').symm
  obtain ⟨y1, hy1, hfy1⟩ := (he y).1 ⟨hy, hbin⟩
  obtain ⟨_, y', hfy', hu, hc⟩ := C08_objective ops hok hone hreg qo lo hobj hw x0 thr wt hw0 warm f' hf y1 hfy1
  refine ⟨y', fun v hv => (hu v hv).trans (hy1 v hv), hfy', ?_⟩
  have hpen := penalised_congr ops hok qo lo hobj x0 wt warm hy1
  have hnc := near_cost ops hok hone qo lo hobj hw x0 thr wt hw0 warm f' hf ε h0 x hn
  have hm3 := m3 y' _ (feasible_slack c hne S0 f' hrep y' hfy')
  have hcost : ∀ v : Nat → ℝ, ∑ j ∈ range c.nvars, pc c S0 j * v j = f'.cost v := by
    intro v
    unfold StdForm.cost
    rw [list_sum_range]
    exact sum_congr rfl fun j hj => by rw [show pc c S0 j = f'.c j from hrep.2.2.2.2.1 j (mem_range.1 hj)]
  rw [hcost, hcost, hc, hpen] at hm3
  refine hnc.trans ?_
  have hk : 0 ≤ 1 + sqErr ε := by have := sqErr_nonneg h0; linarith
  have := mul_le_mul_of_nonneg_left (show f'.cost x - (linearPart qo lo x - (qo.lin.const + lo.const)) ≤
      penalised ops qo lo wt warm x0 y - linearPart qo lo x
            + ∑ k ∈ range c.sizecone, os c w k * oz c w k
            + tolF g q.code * (denX c S q.opt * ∑ j ∈ range c.nvars, e j * |x j - y' j|
              + denY c S q.opt * ∑ r ∈ range c.neq, e (c.nvars + r) * |oy c w r|
              + denZ c S q.opt * ∑ r ∈ range c.sizecone, e (c.nvars + c.neq + r) * |oz c w r|) by
    have : x = ox c w := rfl
    linarith) hk
  linarith

/-! ### C221 -/

theorem mem_congr (c : Cone) (hne : c.NoEmpty) {u v : Nat → ℝ} (h : ∀ r < c.sizecone, u r = v r) (hm : Mem c u) : Mem c v := by
  refine ⟨fun i hi => ?_, fun i hi => ?_⟩
  · rw [← h i (by unfold Cone.sizecone; omega)]; exact hm.1 i hi
  · have hb : ∀ j < c.sizeSoc i, c.startSoc i + j < c.sizecone := by
      intro j hj
      have hi' : i < c.q.length := hi
      have hs : c.sizeSoc i = c.q[i] := by
        simp only [Cone.sizeSoc]; rw [List.getD_eq_getElem?_getD, List.getElem?_eq_getElem hi']; rfl
      have : (c.q.take i).sum + c.q[i] ≤ c.q.sum := by
        conv_rhs => rw [← List.take_append_drop i c.q, List.sum_append, List.drop_eq_getElem_cons hi', List.sum_cons]
        omega
      unfold Cone.startSoc Cone.sizecone Cone.ssoc; omega
    have h0 := hb 0 (hne i hi)
    rw [Nat.add_zero] at h0
    rw [← h _ h0, sum_congr rfl (fun j hj => by rw [← h _ (hb j (mem_Ico.1 hj).2)])]
    exact hm.2 i hi

/-- A feasible point of the problem as posed, scaled, is feasible for the equilibrated problem. -/
theorem feasible_scaled (c : Cone) (hne : c.NoEmpty) (iters : Nat) (S : Storage) (hf : Fits c S) (x s : Nat → ℝ) (h : Feasible c S x s) :
    Feasible c (setEquilibration c iters S).1 (fun j => (setEquilibration c iters S).2 j * x j)
      (fun r => s r / (setEquilibration c iters S).2 (c.nvars + c.neq + r)) := by
  set e := (setEquilibration c iters S).2 with he
  set P : Pt := ⟨fun j => e j * x j, fun _ => 0, fun _ => 0, fun r => s r / e (c.nvars + c.neq + r), 1, 1⟩ with hP
  obtain ⟨p1, p2, p3, p4, p5⟩ := flat_parts c P
  have ht : otau c (flat c P) = 1 := p5
  obtain ⟨r0, r1, r2, _⟩ := C20_residuals c iters S hf (flat c P) (by rw [ht]; norm_num)
  obtain ⟨m1, _⟩ := C20_cones c hne iters S (flat c P) (by rw [ht]; norm_num)
  simp only [← he] at r0 r1 r2 m1
  have sz : ∀ j < c.sizecone, c.nvars + c.neq + j < c.sizeproblem := fun j hj => by unfold Cone.sizeproblem Cone.sizeconstraints; omega
  have szx : ∀ j < c.nvars, j < c.sizeproblem := fun j hj => by unfold Cone.sizeproblem; omega
  have hx : ∀ j < c.nvars, ox c (scaleVariables c e (flat c P)) j = x j := by
    intro j hj
    have hj' := szx j hj
    show scaleVariables c e (flat c P) j = _
    simp only [scaleVariables]
    rw [Cone.wr_apply, if_neg (by simp only [Cone.vS]; omega), Cone.wr_apply, if_pos (by omega)]
    have e1 : flat c P j = e j * x j := p1 j hj
    have e2 : flat c P c.vTau.start = 1 := ht
    rw [Nat.sub_zero, e1, e2, mul_one, mul_div_cancel_left₀ _ (r0 j hj').ne']
  have hs : ∀ r < c.sizecone, os c (scaleVariables c e (flat c P)) r = s r := by
    intro r hr
    have hr' := r0 _ (sz r hr)
    have e1 : flat c P (c.sizeproblem + 2 + r) = s r / e (c.nvars + c.neq + r) := p4 r hr
    have e2 : flat c P c.vTau.start = 1 := ht
    show scaleVariables c e (flat c P) (c.sizeproblem + 2 + r) = _
    simp only [scaleVariables]
    rw [Cone.wr_apply, if_pos (by simp only [Cone.vS]; omega)]
    simp only [Cone.vS, show c.sizeproblem + 2 + r - (c.sizeproblem + 2) = r by omega]
    rw [Cone.wr_apply, if_neg (by omega), e1, e2, div_one]
    exact div_mul_cancel₀ _ hr'.ne'
  obtain ⟨f1, f2, f3⟩ := h
  have act_eq : ∀ (M : Sp) (u v : Nat → ℝ), M.length = c.nvars → (∀ j < c.nvars, u j = v j) → ∀ r, act M u r = act M v r := by
    intro M u v hM huv r
    unfold act
    rw [hM]
    exact sum_congr rfl fun j hj => by rw [huv j (mem_range.1 hj)]
  obtain ⟨g1, g2, _, _⟩ := fits_equil c iters S hf
  rw [ht] at r1 r2
  refine ⟨fun r hr => ?_, fun r hr => ?_, ?_⟩
  · have h1 := r1 r hr
    rw [act_eq S.A _ x hf.1 hx, f1 r hr, sub_self, mul_zero, one_mul, act_eq _ _ P.x g1 p1] at h1
    exact sub_eq_zero.1 h1
  · have h1 := r2 r hr
    rw [act_eq S.G _ x hf.2.1 hx, hs r hr, f2 r hr, sub_self, mul_zero, one_mul, act_eq _ _ P.x g2 p1, p4 r hr] at h1
    exact sub_eq_zero.1 h1
  · refine mem_congr c hne (fun r hr => p4 r hr) (m1.1 (mem_congr c hne (fun r hr => (hs r hr).symm) f3))

/-- C221: if the solver reports (inaccurate) primal infeasibility with an iterate inside the cones, every point that satisfies the
constraints of the user extends to a feasible point of the standard form whose scaled norm exceeds the relative tolerance over the
feasibility tolerance: there is no solution of moderate size. -/
theorem C221_infeasible (ops : List Op) (hok : ApiState.init.AllOk ops) (hone : OneObj ops) (hreg : ∀ op ∈ ops, op.Regular)
    (x0 : Nat → ℝ) (thr wt : ℝ) (warm : Bool) (g : Stg) (hg : g.Sane) (iters : Nat) (lin : LinOracle)
    (old : Pt × Info) (rhs2 : Tri) (o0 : Pt) (i0 : Info) (hm : 1 ≤ g.maxIters) (hnan : g.feastol ≤ nanv ∧ g.feastolInacc ≤ nanv) :
    ∃ f S0, (ApiState.init.run ops).p.build x0 thr wt warm = some f ∧ ConicStore.toStorage f = some S0 ∧
      let c := ConicStore.toCone f
      let S := (setEquilibration c iters S0).1
      let e := (setEquilibration c iters S0).2
      let q := (optimize c g S lin old rhs2 o0 i0).1
      q.code = .primalInf ∨ q.code = .primalInfInacc → Inside c q.opt →
      ∀ y : Nat → ℝ, (∀ op ∈ ops, op.Holds x0 thr warm y) → (ApiState.init.run ops).p.BinaryInUnit y →
        (∃ y', (∀ v ∈ (ApiState.init.run ops).user, y' v = y v) ∧ f.Feasible y') ∧
        ∀ y', (∀ v ∈ (ApiState.init.run ops).user, y' v = y v) → f.Feasible y' →
          g.reltol < tolF g q.code * IP.norm c.nvars (fun j => e j * y' j) := by
  obtain ⟨f, S0, hf, hS, hrep, hne⟩ := ConicStore.C218_storage ops hok hone x0 thr wt warm
  refine ⟨f, S0, hf, hS, ?_⟩
  intro c S e q hcode hin y hy hbin
  obtain ⟨f', hf', he⟩ := C07_standard_form ops hok hone hreg x0 thr wt warm
  obtain rfl : f' = f := by rw [hf] at hf'; exact (Option.some.inj hf').symm
  refine ⟨(he y).1 ⟨hy, hbin⟩, fun y' _ hfy' => ?_⟩
  exact C80_primal_infeasible c hne g hg S (fits_equil c iters S0 hrep.2.1) lin old rhs2 o0 i0 hm hnan hcode hin _ _
    (feasible_scaled c hne iters S0 hrep.2.1 y' _ (feasible_slack c hne S0 f' hrep y' hfy'))

/-! ### the hypotheses are met -/

/-- Minimise `x` subject to `x ≥ 0`. -/
noncomputable def exOps : List Op := [.addVar .continuous 0 1 0, .addLin ⟨0, [(0, 1)]⟩ ">" ⟨0, []⟩, .setObj ⟨⟨0, [(0, 1)]⟩, []⟩ ⟨0, []⟩]

theorem exOps_ok : ApiState.init.AllOk exOps ∧ OneObj exOps ∧ (∀ op ∈ exOps, op.Regular) ∧
    Op.setObj (⟨⟨0, [(0, 1)]⟩, []⟩ : QuadExpr ℝ) ⟨0, []⟩ ∈ exOps := by
  refine ⟨?_, ?_, ?_, ?_⟩
  · simp [exOps, ApiState.AllOk, Op.Ok, ApiState.step, ApiState.init, Problem.addVar, Problem.pushVar, Problem.empty,
      LinExpr.Over, QuadExpr.Over, show ¬ ((0 : ℝ) > 1) by norm_num]
  · simp [OneObj, exOps, Op.isObj, List.filter_cons]
  · simp [exOps, Op.Regular, LinExpr.sub, LinExpr.mul, LinExpr.addAssign, LinExpr.clean, LinExpr.cleanStep]
  · simp [exOps]

/-- The stored problem of `exOps`. -/
noncomputable def exP : Problem ℝ := { Problem.empty with
    vars := [⟨.continuous, 0, 1, Problem.clampGuess 0 1 0⟩]
    lineq := [⟨0, [(0, -1)]⟩]
    obj := ⟨⟨0, [(0, 1)]⟩, [], [], false, false⟩ }

theorem exOps_p : (ApiState.init.run exOps).p = exP := by
  simp [exP, exOps, ApiState.run, ApiState.step, ApiState.init, Problem.addVar, Problem.pushVar, Problem.empty, Problem.addLinConstr, Problem.addExtras,
      Problem.setObjective, show ¬ ((0 : ℝ) > 1) by norm_num, LinExpr.sub, LinExpr.mul, LinExpr.addAssign, LinExpr.add, LinExpr.clean, LinExpr.cleanStep]

theorem exOps_storage (x0 : Nat → ℝ) (thr wt : ℝ) (warm : Bool) : ∃ f, (ApiState.init.run exOps).p.build x0 thr wt warm = some f ∧
    ConicStore.toStorage f = some IP.exS ∧ ConicStore.toCone f = IP.exC := by
  have hi := inv_reachable exOps exOps_ok.1 exOps_ok.2.1
  refine ⟨_, build_some _ hi.wf.shape x0 thr wt warm, ?_, ?_⟩
  · rw [exOps_p]
    cases warm <;>
    simp [exP, Problem.empty, Problem.nlineq, Problem.coneSizes, Problem.countTrust, Problem.mextra, Problem.buildIneq, Problem.buildC, forIdx, forCount, forStart, Build.lineqBody,
      ConicStore.toStorage, ConicStore.fromTriplets, Sys.zero, Sys.add, Sys.set, ConicStore.entryOf, IP.exS, List.range_succ, Function.update, funext_iff]
  · rw [exOps_p]
    cases warm <;> simp [ConicStore.toCone, exP, Problem.empty, Problem.nlineq, Problem.coneSizes, Problem.countTrust, Problem.mextra, IP.exC]

/-- `x ≤ -1` and `x ≥ 1`. -/
noncomputable def inOps : List Op := [.addVar .continuous 0 1 0, .addLin ⟨0, [(0, 1)]⟩ "<" ⟨-1, []⟩, .addLin ⟨0, [(0, 1)]⟩ ">" ⟨1, []⟩]

theorem inOps_ok : ApiState.init.AllOk inOps ∧ OneObj inOps ∧ ∀ op ∈ inOps, op.Regular := by
  refine ⟨?_, ?_, ?_⟩
  · simp [inOps, ApiState.AllOk, Op.Ok, ApiState.step, ApiState.init, Problem.addVar, Problem.pushVar, Problem.empty,
      LinExpr.Over, QuadExpr.Over, show ¬ ((0 : ℝ) > 1) by norm_num]
  · simp [OneObj, inOps, Op.isObj, List.filter_cons]
  · simp [inOps, Op.Regular, LinExpr.sub, LinExpr.mul, LinExpr.addAssign, LinExpr.clean, LinExpr.cleanStep]

/-- The stored problem of `inOps`. -/
noncomputable def inP : Problem ℝ := { Problem.empty with
    vars := [⟨.continuous, 0, 1, Problem.clampGuess 0 1 0⟩]
    lineq := [⟨1, [(0, 1)]⟩, ⟨1, [(0, -1)]⟩] }

theorem inOps_p : (ApiState.init.run inOps).p = inP := by
  simp [inP, inOps, ApiState.run, ApiState.step, ApiState.init, Problem.addVar, Problem.pushVar, Problem.empty, Problem.addLinConstr, Problem.addExtras,
      Problem.setObjective, show ¬ ((0 : ℝ) > 1) by norm_num, LinExpr.sub, LinExpr.mul, LinExpr.addAssign, LinExpr.add, LinExpr.clean, LinExpr.cleanStep]

theorem inOps_storage (x0 : Nat → ℝ) (thr wt : ℝ) (warm : Bool) : ∃ f, (ApiState.init.run inOps).p.build x0 thr wt warm = some f ∧
    ConicStore.toStorage f = some IP.inS ∧ ConicStore.toCone f = IP.inC := by
  have hi := inv_reachable inOps inOps_ok.1 inOps_ok.2.1
  refine ⟨_, build_some _ hi.wf.shape x0 thr wt warm, ?_, ?_⟩
  · rw [inOps_p]
    cases warm <;>
    simp [inP, Problem.empty, Problem.nlineq, Problem.coneSizes, Problem.countTrust, Problem.mextra, Problem.buildIneq, Problem.buildC, forIdx, forCount, forStart, Build.lineqBody,
      ConicStore.toStorage, ConicStore.fromTriplets, Sys.zero, Sys.add, Sys.set, ConicStore.entryOf, IP.inS, LinExpr.ofConst, List.range_succ, Function.update, funext_iff] <;>
    (intro k; rcases k with _ | _ | _ | k <;> simp)
  · rw [inOps_p]
    cases warm <;> simp [ConicStore.toCone, inP, Problem.empty, Problem.nlineq, Problem.coneSizes, Problem.countTrust, Problem.mextra, IP.inC]


theorem equil_zero (c : Cone) (S : Storage) : (setEquilibration c 0 S).1 = S := by
  simp [setEquilibration, rounds]

/-- The hypotheses of C219 and C220 are met: the run of the solver on the program `exOps` ends with an optimal exit inside the cones, some
`ε` covers the rows, and the constraints of the user hold at 5. -/
example (old : Pt × Info) (rhs2 : Tri) (o0 : Pt) (i0 : Info) : ∃ f S0,
    (ApiState.init.run exOps).p.build (fun _ => 0) 0 0 false = some f ∧ ConicStore.toStorage f = some S0 ∧
    let c := ConicStore.toCone f
    let S := (setEquilibration c 0 S0).1
    let e := (setEquilibration c 0 S0).2
    let q := (optimize c exG S exL old rhs2 o0 i0).1
    q.code = .optimal ∧ Inside c q.opt ∧ (∃ ε, 0 ≤ ε ∧ Covers c exG S e q ε) ∧
    (∀ op ∈ exOps, op.Holds (fun _ => 0) 0 false (fun _ => 5)) ∧ (ApiState.init.run exOps).p.BinaryInUnit (fun _ => 5) := by
  obtain ⟨f, h1, h2, h3⟩ := exOps_storage (fun _ => 0) 0 0 false
  refine ⟨f, _, h1, h2, ?_⟩
  rw [h3]
  obtain ⟨r1, r2⟩ := ex_run old rhs2 o0 i0
  refine ⟨r1, r2, ?_, ?_, ?_⟩
  · set q := (optimize IP.exC exG (setEquilibration IP.exC 0 IP.exS).1 exL old rhs2 o0 i0).1
    refine ⟨|(setEquilibration IP.exC 0 IP.exS).2 (IP.exC.nvars + IP.exC.neq + 0) *
      (tolF exG q.code * denZ IP.exC (setEquilibration IP.exC 0 IP.exS).1 q.opt)|, abs_nonneg _, ?_, ?_⟩
    · intro r hr; exact absurd hr (Nat.not_lt_zero _)
    · intro r hr
      obtain rfl : r = 0 := by
        have : r < 1 := hr
        omega
      exact le_abs_self _
  · simp [exOps, Op.Holds, LinExpr.getValue, LinExpr.sumLoop]
  · rw [exOps_p]
    intro v r hv ht
    simp only [exP] at hv
    rcases v with _ | v
    · simp at hv; subst hv; simp at ht
    · simp at hv

/-- The hypotheses of C221 on the run are met by the program `inOps`. -/
example (old : Pt × Info) (rhs2 : Tri) (o0 : Pt) (i0 : Info) : ∃ f S0,
    (ApiState.init.run inOps).p.build (fun _ => 0) 0 0 false = some f ∧ ConicStore.toStorage f = some S0 ∧
    let c := ConicStore.toCone f
    let q := (optimize c inG (setEquilibration c 0 S0).1 inL old rhs2 o0 i0).1
    q.code = .primalInf ∧ Inside c q.opt := by
  obtain ⟨f, h1, h2, h3⟩ := inOps_storage (fun _ => 0) 0 0 false
  refine ⟨f, _, h1, h2, ?_⟩
  rw [h3]
  show (optimize inC inG (setEquilibration inC 0 inS).1 inL old rhs2 o0 i0).1.code = _ ∧ Inside _ (optimize inC inG (setEquilibration inC 0 inS).1 inL old rhs2 o0 i0).1.opt
  rw [equil_zero]
  obtain ⟨-, -, -, -, -, -, r1, r2⟩ := in_run old rhs2 o0 i0
  exact ⟨r1, r2⟩

end ConicEnd
end Verif
