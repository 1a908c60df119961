import Verif.ConicInv

set_option linter.unusedSimpArgs false
set_option linter.unusedSectionVars false

/-! Stored constraints of a reachable problem versus the calls that created them. -/
namespace Verif
open Sys Build

/-- All stored constraints hold at `x`. -/
def Problem.Sem (p : Problem ℝ) (x0 : Nat → ℝ) (thr : ℝ) (warm : Bool) (x : Nat → ℝ) : Prop :=
  (∀ e ∈ p.leq, e.getValue x = 0) ∧ (∀ e ∈ p.lineq, e.getValue x ≤ 0) ∧
  (∀ q ∈ p.qineq, sumSq q.quad x + q.lin.getValue x ≤ 0 ∧
    (q.trust = true → warm = false → tangent q.quad x0 x + q.lin.getValue x ≥ -thr)) ∧
  (∀ q ∈ p.soc, Real.sqrt ((q.quad.map (fun t => (t.2.getValue x) ^ 2)).sum) + q.lin.getValue x ≤ 0)

/-- No stored linear constraint is empty, all weights are nonnegative. -/
def Problem.Reg (p : Problem ℝ) : Prop :=
  (∀ e ∈ p.leq, e.terms ≠ []) ∧ (∀ e ∈ p.lineq, e.terms ≠ []) ∧ (∀ q ∈ p.qineq, ∀ t ∈ q.quad, 0 ≤ t.1)

/-- The penalised expression of a soft constraint. -/
noncomputable def CQuad.softTerm (x0 x : Nat → ℝ) (q : CQuad ℝ) : ℝ := (tangent q.quad x0 x + q.lin.getValue x) ^ 2

/-- Sum of the penalties of the soft constraints. -/
noncomputable def Problem.softSum (p : Problem ℝ) (x0 x : Nat → ℝ) : ℝ :=
  ((p.qineq.filter (·.soft)).map (CQuad.softTerm x0 x)).sum


theorem getValue_sub (e r : LinExpr ℝ) (x) : (e.sub r).getValue x = e.getValue x - r.getValue x :=
  LinExpr.sub_value e r x

theorem addExtras_keep (n : Nat) (p : Problem ℝ) : (p.addExtras n).1 = { p with vars := (p.addExtras n).1.vars } := by
  obtain ⟨vs, _, h2, _⟩ := addExtras_spec n p; rw [h2]

/-- Constraint lists after one call. -/
theorem step_addQua (st : ApiState) (q : QuadExpr ℝ) (l : LinExpr ℝ) (ap : QApprox) :
    (st.step (.addQua q "<" l ap)).p.leq = st.p.leq ∧ (st.step (.addQua q "<" l ap)).p.lineq = st.p.lineq ∧
    (st.step (.addQua q "<" l ap)).p.soc = st.p.soc ∧ (st.step (.addQua q "<" l ap)).p.obj = st.p.obj ∧
    (st.step (.addQua q "<" l ap)).p.bins = st.p.bins ∧
    ∃ ex, (st.step (.addQua q "<" l ap)).p.qineq = st.p.qineq ++ [⟨q.lin.sub l, q.quad, ex,
      decide (ap = .trustRegion), decide (ap = .softConstraint)⟩] := by
  have k1 := fun n (p : Problem ℝ) => congrArg Problem.leq (addExtras_keep n p)
  have k2 := fun n (p : Problem ℝ) => congrArg Problem.lineq (addExtras_keep n p)
  have k3 := fun n (p : Problem ℝ) => congrArg Problem.soc (addExtras_keep n p)
  have k4 := fun n (p : Problem ℝ) => congrArg Problem.obj (addExtras_keep n p)
  have k5 := fun n (p : Problem ℝ) => congrArg Problem.qineq (addExtras_keep n p)
  have k6 := fun n (p : Problem ℝ) => congrArg Problem.bins (addExtras_keep n p)
  simp only at k1 k2 k3 k4 k5 k6
  cases ap <;> simp [ApiState.step, Problem.addQuaConstr, k1, k2, k3, k4, k5, k6]

theorem step_addSoc (st : ApiState) (q : QuadExpr ℝ) (l : LinExpr ℝ) :
    (st.step (.addSoc q "<" l)).p.leq = st.p.leq ∧ (st.step (.addSoc q "<" l)).p.lineq = st.p.lineq ∧
    (st.step (.addSoc q "<" l)).p.qineq = st.p.qineq ∧ (st.step (.addSoc q "<" l)).p.obj = st.p.obj ∧
    (st.step (.addSoc q "<" l)).p.bins = st.p.bins ∧
    ∃ ex, (st.step (.addSoc q "<" l)).p.soc = st.p.soc ++ [⟨q.lin.sub l, q.quad, ex, false, false⟩] := by
  have k1 := fun n (p : Problem ℝ) => congrArg Problem.leq (addExtras_keep n p)
  have k2 := fun n (p : Problem ℝ) => congrArg Problem.lineq (addExtras_keep n p)
  have k3 := fun n (p : Problem ℝ) => congrArg Problem.soc (addExtras_keep n p)
  have k4 := fun n (p : Problem ℝ) => congrArg Problem.obj (addExtras_keep n p)
  have k5 := fun n (p : Problem ℝ) => congrArg Problem.qineq (addExtras_keep n p)
  have k6 := fun n (p : Problem ℝ) => congrArg Problem.bins (addExtras_keep n p)
  simp only at k1 k2 k3 k4 k5 k6
  simp [ApiState.step, Problem.addSocConstr, k1, k2, k3, k4, k5, k6]

theorem step_setObj (st : ApiState) (q : QuadExpr ℝ) (l : LinExpr ℝ) :
    (st.step (.setObj q l)).p.leq = st.p.leq ∧ (st.step (.setObj q l)).p.lineq = st.p.lineq ∧
    (st.step (.setObj q l)).p.qineq = st.p.qineq ∧ (st.step (.setObj q l)).p.soc = st.p.soc ∧
    (st.step (.setObj q l)).p.bins = st.p.bins ∧
    (st.step (.setObj q l)).p.obj.quad = q.quad ∧ (st.step (.setObj q l)).p.obj.lin = q.lin.add l := by
  have k1 := fun n (p : Problem ℝ) => congrArg Problem.leq (addExtras_keep n p)
  have k2 := fun n (p : Problem ℝ) => congrArg Problem.lineq (addExtras_keep n p)
  have k3 := fun n (p : Problem ℝ) => congrArg Problem.soc (addExtras_keep n p)
  have k4 := fun n (p : Problem ℝ) => congrArg Problem.obj (addExtras_keep n p)
  have k5 := fun n (p : Problem ℝ) => congrArg Problem.qineq (addExtras_keep n p)
  have k6 := fun n (p : Problem ℝ) => congrArg Problem.bins (addExtras_keep n p)
  simp only at k1 k2 k3 k4 k5 k6
  simp [ApiState.step, Problem.setObjective, k1, k2, k3, k4, k5, k6]

theorem step_addVar (st : ApiState) (ty lb ub g) :
    (st.step (.addVar ty lb ub g)).p.leq = st.p.leq ∧ (st.step (.addVar ty lb ub g)).p.lineq = st.p.lineq ∧
    (st.step (.addVar ty lb ub g)).p.qineq = st.p.qineq ∧ (st.step (.addVar ty lb ub g)).p.soc = st.p.soc ∧
    (st.step (.addVar ty lb ub g)).p.obj = st.p.obj := by
  by_cases hle : lb > ub
  · simp [ApiState.step, Problem.addVar, hle]
  · cases ty <;> simp [ApiState.step, Problem.addVar, hle, Problem.pushVar]

theorem step_addLin (st : ApiState) (l s r) :
    (st.step (.addLin l s r)).p.qineq = st.p.qineq ∧ (st.step (.addLin l s r)).p.soc = st.p.soc ∧
    (st.step (.addLin l s r)).p.obj = st.p.obj ∧ (st.step (.addLin l s r)).p.bins = st.p.bins ∧
    (st.step (.addLin l s r)).p.vars = st.p.vars := by
  simp only [ApiState.step, Problem.addLinConstr]
  split
  · simp
  · split
    · simp
    · split <;> simp

theorem forall_mem_concat {α : Type} (l : List α) (a : α) (P : α → Prop) :
    (∀ b ∈ l ++ [a], P b) ↔ (∀ b ∈ l, P b) ∧ P a := by
  rw [List.forall_mem_append]; simp

theorem sem_step (st : ApiState) (op : Op) (hok : op.Ok st.user) (x0 thr warm x) :
    (st.step op).p.Sem x0 thr warm x ↔ st.p.Sem x0 thr warm x ∧ op.Holds x0 thr warm x := by
  unfold Problem.Sem
  cases op with
  | addVar ty lb ub g =>
    obtain ⟨h1, h2, h3, h4, _⟩ := step_addVar st ty lb ub g
    simp only [h1, h2, h3, h4, Op.Holds, and_true]
  | addLin l s r =>
    obtain ⟨h3, h4, _, _, _⟩ := step_addLin st l s r
    obtain ⟨_, _, hs⟩ := hok
    simp only [h3, h4]
    rcases hs with rfl | rfl | rfl
    · have e1 : (st.step (.addLin l "=" r)).p.leq = st.p.leq ++ [l.sub r] := by
        simp [ApiState.step, Problem.addLinConstr]
      have e2 : (st.step (.addLin l "=" r)).p.lineq = st.p.lineq := by
        simp [ApiState.step, Problem.addLinConstr]
      rw [e1, e2, forall_mem_concat, getValue_sub]
      simp only [Op.Holds, if_true, sub_eq_zero]
      tauto
    · have e1 : (st.step (.addLin l "<" r)).p.leq = st.p.leq := by
        simp [ApiState.step, Problem.addLinConstr]
      have e2 : (st.step (.addLin l "<" r)).p.lineq = st.p.lineq ++ [l.sub r] := by
        simp [ApiState.step, Problem.addLinConstr]
      rw [e1, e2, forall_mem_concat, getValue_sub]
      simp only [Op.Holds, if_true, show ¬ (("<" : String) = "=") by decide, if_false, sub_nonpos]
      tauto
    · have e1 : (st.step (.addLin l ">" r)).p.leq = st.p.leq := by
        simp [ApiState.step, Problem.addLinConstr]
      have e2 : (st.step (.addLin l ">" r)).p.lineq = st.p.lineq ++ [r.sub l] := by
        simp [ApiState.step, Problem.addLinConstr]
      rw [e1, e2, forall_mem_concat, getValue_sub]
      simp only [Op.Holds, show ¬ ((">" : String) = "=") by decide, show ¬ ((">" : String) = "<") by decide,
        if_false, sub_nonpos, ge_iff_le]
      tauto
  | addQua q s l ap =>
    obtain ⟨_, _, rfl⟩ := hok
    obtain ⟨h1, h2, h3, _, _, ex, h4⟩ := step_addQua st q l ap
    rw [h1, h2, h3, h4, forall_mem_concat, getValue_sub]
    simp only [Op.Holds, decide_eq_true_eq, add_sub_assoc]
    rw [← add_sub_assoc, sub_nonpos]
    tauto
  | addSoc q s l =>
    obtain ⟨_, _, rfl⟩ := hok
    obtain ⟨h1, h2, h3, _, _, ex, h4⟩ := step_addSoc st q l
    rw [h1, h2, h3, h4, forall_mem_concat, getValue_sub]
    simp only [Op.Holds]
    rw [← add_sub_assoc, sub_nonpos]
    tauto
  | setObj q l =>
    obtain ⟨h1, h2, h3, h4, _⟩ := step_setObj st q l
    simp only [h1, h2, h3, h4, Op.Holds, and_true]

theorem sem_run (ops : List Op) (x0 thr warm x) : ∀ st : ApiState, st.AllOk ops →
    ((st.run ops).p.Sem x0 thr warm x ↔ st.p.Sem x0 thr warm x ∧ ∀ op ∈ ops, op.Holds x0 thr warm x) := by
  induction ops with
  | nil => intro st _; simp [ApiState.run]
  | cons op ops ih =>
    intro st h
    have := ih (st.step op) h.2
    rw [show st.run (op :: ops) = (st.step op).run ops from rfl, this, sem_step st op h.1]
    simp only [List.mem_cons, forall_eq_or_imp]
    tauto

theorem sem_init (x0 thr warm x) : ApiState.init.p.Sem x0 thr warm x := by
  simp [ApiState.init, Problem.empty, Problem.Sem]

theorem reg_step (st : ApiState) (op : Op) (h : st.p.Reg) (hok : op.Ok st.user) (hr : op.Regular) : (st.step op).p.Reg := by
  unfold Problem.Reg at *
  cases op with
  | addVar ty lb ub g =>
    obtain ⟨h1, h2, h3, h4, _⟩ := step_addVar st ty lb ub g
    simpa only [h1, h2, h3, h4] using h
  | addLin l s r =>
    obtain ⟨h3, h4, _, _, _⟩ := step_addLin st l s r
    obtain ⟨_, _, hs⟩ := hok
    simp only [h3]
    rcases hs with rfl | rfl | rfl
    · have e1 : (st.step (.addLin l "=" r)).p.leq = st.p.leq ++ [l.sub r] := by
        simp [ApiState.step, Problem.addLinConstr]
      have e2 : (st.step (.addLin l "=" r)).p.lineq = st.p.lineq := by
        simp [ApiState.step, Problem.addLinConstr]
      rw [e1, e2, forall_mem_concat]
      exact ⟨⟨h.1, hr.1⟩, h.2⟩
    · have e1 : (st.step (.addLin l "<" r)).p.leq = st.p.leq := by
        simp [ApiState.step, Problem.addLinConstr]
      have e2 : (st.step (.addLin l "<" r)).p.lineq = st.p.lineq ++ [l.sub r] := by
        simp [ApiState.step, Problem.addLinConstr]
      rw [e1, e2, forall_mem_concat]
      exact ⟨h.1, ⟨h.2.1, hr.1⟩, h.2.2⟩
    · have e1 : (st.step (.addLin l ">" r)).p.leq = st.p.leq := by
        simp [ApiState.step, Problem.addLinConstr]
      have e2 : (st.step (.addLin l ">" r)).p.lineq = st.p.lineq ++ [r.sub l] := by
        simp [ApiState.step, Problem.addLinConstr]
      rw [e1, e2, forall_mem_concat]
      exact ⟨h.1, ⟨h.2.1, hr.2⟩, h.2.2⟩
  | addQua q s l ap =>
    obtain ⟨_, _, rfl⟩ := hok
    obtain ⟨h1, h2, h3, _, _, ex, h4⟩ := step_addQua st q l ap
    rw [h1, h2, h4, forall_mem_concat]
    exact ⟨h.1, h.2.1, h.2.2, hr⟩
  | addSoc q s l =>
    obtain ⟨_, _, rfl⟩ := hok
    obtain ⟨h1, h2, h3, _, _, ex, h4⟩ := step_addSoc st q l
    rw [h1, h2, h3]; exact h
  | setObj q l =>
    obtain ⟨h1, h2, h3, h4, _⟩ := step_setObj st q l
    rw [h1, h2, h3]; exact h

theorem reg_run (ops : List Op) : ∀ st : ApiState, st.p.Reg → st.AllOk ops → (∀ op ∈ ops, op.Regular) →
    (st.run ops).p.Reg := by
  induction ops with
  | nil => intro st h _ _; exact h
  | cons op ops ih =>
    intro st h hok hr
    exact ih _ (reg_step st op h hok.1 (hr op (by simp))) hok.2 (fun o ho => hr o (by simp [ho]))

theorem reg_init : ApiState.init.p.Reg := by simp [ApiState.init, Problem.empty, Problem.Reg]

/-! ### soft constraints -/

theorem softSum_step (st : ApiState) (op : Op) (hok : op.Ok st.user) (x0 x) :
    (st.step op).p.softSum x0 x = st.p.softSum x0 x + op.softTerm x0 x := by
  unfold Problem.softSum
  cases op with
  | addVar ty lb ub g => rw [(step_addVar st ty lb ub g).2.2.1]; simp [Op.softTerm]
  | addLin l s r => rw [(step_addLin st l s r).1]; simp [Op.softTerm]
  | addQua q s l ap =>
    obtain ⟨_, _, rfl⟩ := hok
    obtain ⟨h1, h2, h3, _, _, ex, h4⟩ := step_addQua st q l ap
    rw [h4, List.filter_append, List.map_append, List.sum_append]
    cases ap <;> simp [List.filter_cons, Op.softTerm, CQuad.softTerm, getValue_sub, add_sub_assoc]
  | addSoc q s l =>
    obtain ⟨_, _, rfl⟩ := hok
    rw [(step_addSoc st q l).2.2.1]; simp [Op.softTerm]
  | setObj q l => rw [(step_setObj st q l).2.2.1]; simp [Op.softTerm]

theorem softSum_run (ops : List Op) (x0 x) : ∀ st : ApiState, st.AllOk ops →
    (st.run ops).p.softSum x0 x = st.p.softSum x0 x + (ops.map (Op.softTerm x0 x)).sum := by
  induction ops with
  | nil => intro st _; simp [ApiState.run]
  | cons op ops ih =>
    intro st h
    rw [show st.run (op :: ops) = (st.step op).run ops from rfl, ih _ h.2, softSum_step st op h.1]
    simp [add_assoc]

/-! ### objective -/

theorem obj_step (st : ApiState) (op : Op) (hok : op.Ok st.user) (h : op.isObj = false) : (st.step op).p.obj = st.p.obj := by
  cases op with
  | addVar ty lb ub g => exact (step_addVar st ty lb ub g).2.2.2.2
  | addLin l s r => exact (step_addLin st l s r).2.2.1
  | addQua q s l ap => obtain ⟨_, _, rfl⟩ := hok; exact (step_addQua st q l ap).2.2.2.1
  | addSoc q s l => obtain ⟨_, _, rfl⟩ := hok; exact (step_addSoc st q l).2.2.2.1
  | setObj q l => simp [Op.isObj] at h

theorem obj_run_none (ops : List Op) : ∀ st : ApiState, st.AllOk ops → (∀ op ∈ ops, op.isObj = false) →
    (st.run ops).p.obj = st.p.obj := by
  induction ops with
  | nil => intro st _ _; rfl
  | cons op ops ih =>
    intro st h hn
    rw [show st.run (op :: ops) = (st.step op).run ops from rfl, ih _ h.2 (fun o ho => hn o (by simp [ho])),
      obj_step st op h.1 (hn op (by simp))]

theorem obj_run (ops : List Op) (q : QuadExpr ℝ) (l : LinExpr ℝ) : ∀ st : ApiState, st.AllOk ops → OneObj ops →
    Op.setObj q l ∈ ops → (st.run ops).p.obj.quad = q.quad ∧ (st.run ops).p.obj.lin = q.lin.add l := by
  induction ops with
  | nil => intro st _ _ h; simp at h
  | cons op ops ih =>
    intro st h hone hm
    rw [show st.run (op :: ops) = (st.step op).run ops from rfl]
    rcases List.mem_cons.1 hm with rfl | hm'
    · have hn : ∀ o ∈ ops, o.isObj = false := by
        intro o ho
        by_contra hc
        have hc : o.isObj = true := by simpa using hc
        unfold OneObj at hone
        simp only [List.filter_cons, show Op.isObj (.setObj q l) = true from rfl, if_true, List.length_cons] at hone
        have : 0 < (ops.filter Op.isObj).length := List.length_pos_of_mem (List.mem_filter.2 ⟨ho, hc⟩)
        omega
      rw [obj_run_none ops _ h.2 hn]
      exact (step_setObj st q l).2.2.2.2.2
    · refine ih _ h.2 ?_ hm'
      unfold OneObj at *
      have := filter_length_cons op ops
      omega

/-! ### binaries -/

/-- The list of binary variables is right. -/
def Problem.BinsOk (p : Problem ℝ) : Prop := ∀ v, v ∈ p.bins ↔ ∃ r, p.vars[v]? = some r ∧ r.type = .binary

theorem binsOk_extras (n : Nat) (p : Problem ℝ) (h : p.BinsOk) : (p.addExtras n).1.BinsOk := by
  induction n generalizing p with
  | zero => exact h
  | succ n ih =>
    apply ih (p.addExtra).1
    intro v
    have : (p.addExtra).1.vars = p.vars ++ [⟨.continuous, 0, 1, Problem.clampGuess 0 1 (1/2)⟩] := by
      simp [Problem.addExtra, Problem.pushVar]
    rw [this]
    have hb : (p.addExtra).1.bins = p.bins := rfl
    rw [hb, h v, List.getElem?_append]
    split
    · rfl
    · rename_i hv
      rw [List.getElem?_eq_none (by omega)]
      constructor
      · rintro ⟨r, hr, _⟩; simp at hr
      · rintro ⟨r, hr, ht⟩
        have := List.mem_of_getElem? hr
        simp at this
        rw [this] at ht; simp at ht

theorem binsOk_step (st : ApiState) (op : Op) (h : st.p.BinsOk) : (st.step op).p.BinsOk := by
  cases op with
  | addVar ty lb ub g =>
    by_cases hle : lb > ub
    · simpa [ApiState.step, Problem.addVar, hle] using h
    · have hs : (st.step (.addVar ty lb ub g)).p = (st.p.pushVar ty lb ub g).1 := by
        simp [ApiState.step, Problem.addVar, hle]
      rw [hs]
      intro v
      rw [(pushVar_vars _ _ _ _ _).2, List.getElem?_append]
      have hh := h v
      cases ty
      · simp only [Problem.pushVar, List.mem_append, List.mem_singleton]
        by_cases hv : v < st.p.vars.length
        · rw [if_pos hv, hh]
          constructor
          · rintro (h1 | h1)
            · exact h1
            · omega
          · exact Or.inl
        · rw [if_neg hv]
          have hno : ¬ v ∈ st.p.bins := by
            rw [hh, List.getElem?_eq_none (by omega)]; simp
          constructor
          · rintro (h1 | rfl)
            · exact absurd h1 hno
            · simp
          · rintro ⟨r, hr, _⟩
            right
            have := List.getElem?_eq_some_iff.1 hr
            obtain ⟨hlt, _⟩ := this
            simp at hlt; omega
      · have hb : (st.p.pushVar VarType.continuous lb ub g).1.bins = st.p.bins := rfl
        rw [hb, hh]
        split
        · rfl
        · rename_i hv
          rw [List.getElem?_eq_none (by omega)]
          constructor
          · rintro ⟨r, hr, _⟩; simp at hr
          · rintro ⟨r, hr, ht⟩
            have := List.mem_of_getElem? hr
            simp at this
            rw [this] at ht; simp at ht
  | addLin l s r =>
    obtain ⟨_, _, _, h1, h2⟩ := step_addLin st l s r
    unfold Problem.BinsOk; rw [h1, h2]; exact h
  | addQua q s l ap =>
    have a := binsOk_extras
    cases ap <;> by_cases hs : s = "<"
    · simp only [ApiState.step, Problem.addQuaConstr, hs, if_true]; exact a _ _ h
    · simp only [ApiState.step, Problem.addQuaConstr, hs, if_false]; exact a _ _ h
    · simp only [ApiState.step, Problem.addQuaConstr, hs, if_true]
      exact a q.quad.length { st.p with numTrust := st.p.numTrust + 1 } h
    · simp only [ApiState.step, Problem.addQuaConstr, hs, if_false]
      exact a q.quad.length { st.p with numTrust := st.p.numTrust + 1 } h
    · simp only [ApiState.step, Problem.addQuaConstr, hs, if_true]
      exact a 1 _ (a q.quad.length { st.p with numSoft := st.p.numSoft + 1 } h)
    · simp only [ApiState.step, Problem.addQuaConstr, hs, if_false, if_true]
      exact a 1 _ (a q.quad.length { st.p with numSoft := st.p.numSoft + 1 } h)
  | addSoc q s l =>
    by_cases hs : s = "<"
    · simp only [ApiState.step, Problem.addSocConstr, hs, if_true]; exact binsOk_extras 1 _ h
    · simp only [ApiState.step, Problem.addSocConstr, hs, if_false]; exact binsOk_extras 1 _ h
  | setObj q l =>
    simp only [ApiState.step, Problem.setObjective]; exact binsOk_extras _ _ h

theorem binsOk_run (ops : List Op) : ∀ st : ApiState, st.p.BinsOk → (st.run ops).p.BinsOk := by
  induction ops with
  | nil => intro st h; exact h
  | cons op ops ih => intro st h; exact ih _ (binsOk_step st op h)

theorem binsOk_init : ApiState.init.p.BinsOk := by
  intro v; simp [ApiState.init, Problem.empty]

end Verif
