import Verif.ConicFeas

set_option linter.unusedSimpArgs false
set_option linter.unusedSectionVars false

/-! Invariant of the problem over API histories. -/
namespace Verif
open Sys Build

theorem pushVar_vars (p : Problem ℝ) (ty lb ub g) :
    (p.pushVar ty lb ub g).2 = p.vars.length ∧
    (p.pushVar ty lb ub g).1.vars = p.vars ++ [⟨ty, lb, ub, Problem.clampGuess lb ub g⟩] := by
  cases ty <;> simp [Problem.pushVar]

theorem addExtras_spec (n : Nat) : ∀ p : Problem ℝ, ∃ vs, vs.length = n ∧
    (p.addExtras n).1 = { p with vars := p.vars ++ vs } ∧ (p.addExtras n).2 = List.range' p.vars.length n := by
  induction n with
  | zero => intro p; exact ⟨[], rfl, by simp [Problem.addExtras], rfl⟩
  | succ n ih =>
    intro p
    obtain ⟨vs, h1, h2, h3⟩ := ih (p.addExtra).1
    refine ⟨⟨.continuous, 0, 1, Problem.clampGuess 0 1 (1/2)⟩ :: vs, by simp [h1], ?_, ?_⟩
    · simp only [Problem.addExtras, h2]
      simp [Problem.addExtra, Problem.pushVar]
    · simp only [Problem.addExtras, h3]
      simp [Problem.addExtra, Problem.pushVar, List.range'_succ]

/-- Auxiliary variables of the problem. -/
def Problem.extras (p : Problem ℝ) : List Nat :=
  p.obj.extra ++ p.qineq.flatMap (·.extra) ++ p.soc.flatMap (·.extra)

/-- All columns of a stored quadratic expression are among `us`. -/
def CQuad.Over (q : CQuad ℝ) (us : List Nat) : Prop := q.lin.Over us ∧ ∀ t ∈ q.quad, t.2.Over us

/-- Invariant of every reachable problem. -/
structure ApiState.Inv (st : ApiState) : Prop where
  wf : st.p.WF
  lt : ∀ v ∈ st.user ++ st.p.extras, v < st.p.vars.length
  nd : (st.user ++ st.p.extras).Nodup
  bins : ∀ v ∈ st.p.bins, v ∈ st.user
  leq : ∀ e ∈ st.p.leq, e.Over st.user
  lineq : ∀ e ∈ st.p.lineq, e.Over st.user
  qineq : ∀ q ∈ st.p.qineq, q.Over st.user
  soc : ∀ q ∈ st.p.soc, q.Over st.user
  obj : st.p.obj.Over st.user
  objnd : (st.p.obj.lin.terms.map Prod.fst).Nodup

/-- No objective has been set. -/
def ApiState.NoObj (st : ApiState) : Prop := st.p.obj = ⟨LinExpr.ofConst 0, [], [], false, false⟩

theorem Over.mono {e : LinExpr ℝ} {us vs : List Nat} (h : e.Over us) (hs : ∀ v ∈ us, v ∈ vs) : e.Over vs :=
  fun t ht => hs _ (h t ht)
theorem COver.mono {q : CQuad ℝ} {us vs : List Nat} (h : q.Over us) (hs : ∀ v ∈ us, v ∈ vs) : q.Over vs :=
  ⟨Over.mono h.1 hs, fun t ht => Over.mono (h.2 t ht) hs⟩

theorem over_iff_cols {e : LinExpr ℝ} {us} : e.Over us ↔ ∀ v ∈ LinExpr.cols e.terms, v ∈ us := by
  simp only [LinExpr.Over, LinExpr.cols, List.forall_mem_map]

theorem over_addAssign {e r : LinExpr ℝ} {us} (h1 : e.Over us) (h2 : r.Over us) : (e.addAssign r).Over us := by
  rw [over_iff_cols] at *
  intro v hv
  rcases LinExpr.addAssign_subset _ _ v hv with h | h
  · exact h1 v h
  · exact h2 v h

theorem over_sub {e r : LinExpr ℝ} {us} (h1 : e.Over us) (h2 : r.Over us) : (e.sub r).Over us := by
  apply over_addAssign h1
  rw [over_iff_cols] at *
  exact fun v hv => h2 v (LinExpr.mul_subset _ _ v hv)

theorem value_congr {e : LinExpr ℝ} {us} (h : e.Over us) {x y : Nat → ℝ} (hxy : ∀ v ∈ us, x v = y v) :
    e.getValue x = e.getValue y := by
  rw [LinExpr.getValue_eq, LinExpr.getValue_eq, LinExpr.tsum, LinExpr.tsum]
  congr 2
  apply List.map_congr_left
  intro t ht
  rw [hxy _ (h t ht)]

theorem inv_init : ApiState.init.Inv where
  wf := ⟨rfl, rfl, rfl, by simp [ApiState.init, Problem.empty], by simp [ApiState.init, Problem.empty]⟩
  lt := by simp [ApiState.init, Problem.empty, Problem.extras]
  nd := by simp [ApiState.init, Problem.empty, Problem.extras]
  bins := by simp [ApiState.init, Problem.empty]
  leq := by simp [ApiState.init, Problem.empty]
  lineq := by simp [ApiState.init, Problem.empty]
  qineq := by simp [ApiState.init, Problem.empty]
  soc := by simp [ApiState.init, Problem.empty]
  obj := by constructor <;> simp [ApiState.init, Problem.empty, LinExpr.Over, LinExpr.ofConst]
  objnd := by simp [ApiState.init, Problem.empty, LinExpr.ofConst]

/-- Appending fresh auxiliary variables somewhere keeps all variables distinct and in range. -/
theorem fresh_extras {us ex ex' : List Nat} {n k : Nat} (hp : ex'.Perm (ex ++ List.range' n k))
    (lt : ∀ v ∈ us ++ ex, v < n) (nd : (us ++ ex).Nodup) :
    (∀ v ∈ us ++ ex', v < n + k) ∧ (us ++ ex').Nodup := by
  have hp' : (us ++ ex').Perm ((us ++ ex) ++ List.range' n k) := by
    rw [List.append_assoc]; exact hp.append_left us
  constructor
  · intro v hv
    rcases List.mem_append.1 (hp'.mem_iff.1 hv) with h | h
    · have := lt v h; omega
    · rw [List.mem_range'_1] at h; omega
  · rw [hp'.nodup_iff, List.nodup_append]
    refine ⟨nd, List.nodup_range', ?_⟩
    intro a ha b hb hab
    have := lt a ha
    rw [List.mem_range'_1] at hb
    omega

theorem inv_step (st : ApiState) (op : Op) (h : st.Inv) (hok : op.Ok st.user)
    (hobj : op.isObj = true → st.NoObj) : (st.step op).Inv := by
  cases op with
  | addVar ty lb ub g =>
    have hle : ¬ lb > ub := not_lt.2 hok
    have hs : st.step (.addVar ty lb ub g) = ⟨(st.p.pushVar ty lb ub g).1, st.user ++ [st.p.vars.length]⟩ := by
      simp only [ApiState.step, Problem.addVar, if_neg hle, (pushVar_vars _ _ _ _ _).1]
    rw [hs]
    have hex : (st.p.pushVar ty lb ub g).1.extras = st.p.extras := by
      cases ty <;> rfl
    have hsub : ∀ v ∈ st.user, v ∈ st.user ++ [st.p.vars.length] := by simp +contextual
    have hl : (st.p.pushVar ty lb ub g).1.vars.length = st.p.vars.length + 1 := by
      rw [(pushVar_vars _ _ _ _ _).2]; simp
    constructor
    · have w := h.wf
      cases ty
      · exact ⟨by simp [Problem.pushVar], by simp [Problem.pushVar], w.obj, w.qi, w.so⟩
      · exact ⟨w.lo, w.up, w.obj, w.qi, w.so⟩
    · intro v hv
      rw [hex] at hv
      rw [hl]
      rcases List.mem_append.1 hv with h' | h'
      · rcases List.mem_append.1 h' with h' | h'
        · have := h.lt v (List.mem_append_left _ h'); omega
        · simp at h'; omega
      · have := h.lt v (List.mem_append_right _ h'); omega
    · rw [hex]
      have hp : (st.user ++ [st.p.vars.length] ++ st.p.extras).Perm ((st.user ++ st.p.extras) ++ [st.p.vars.length]) := by
        rw [List.append_assoc, List.append_assoc]
        exact (List.perm_append_comm).append_left _
      rw [hp.nodup_iff, List.nodup_append]
      refine ⟨h.nd, by simp, ?_⟩
      intro a ha b hb hab
      have := h.lt a ha
      simp at hb; omega
    · intro v hv
      cases ty
      · simp only [Problem.pushVar, List.mem_append, List.mem_singleton] at hv
        rcases hv with hv | hv
        · exact hsub v (h.bins v hv)
        · simp [hv]
      · exact hsub v (h.bins v hv)
    · intro e he; refine Over.mono (h.leq e ?_) hsub; cases ty <;> exact he
    · intro e he; refine Over.mono (h.lineq e ?_) hsub; cases ty <;> exact he
    · intro e he; refine COver.mono (h.qineq e ?_) hsub; cases ty <;> exact he
    · intro e he; refine COver.mono (h.soc e ?_) hsub; cases ty <;> exact he
    · cases ty <;> exact COver.mono h.obj hsub
    · cases ty <;> exact h.objnd
  | addLin l s r =>
    obtain ⟨hl, hr, hs⟩ := hok
    have w := h.wf
    rcases hs with rfl | rfl | rfl
    · exact ⟨⟨w.lo, w.up, w.obj, w.qi, w.so⟩, h.lt, h.nd, h.bins, by
        intro e he
        simp only [ApiState.step, Problem.addLinConstr, if_true, List.mem_append, List.mem_singleton] at he
        rcases he with he | rfl
        · exact h.leq e he
        · exact over_sub hl hr, h.lineq, h.qineq, h.soc, h.obj, h.objnd⟩
    · exact ⟨⟨w.lo, w.up, w.obj, w.qi, w.so⟩, h.lt, h.nd, h.bins, h.leq, by
        intro e he
        simp only [ApiState.step, Problem.addLinConstr, if_true, show ¬ (("<" : String) = "=") by decide,
          show ¬ ((">" : String) = "=") by decide, show ¬ ((">" : String) = "<") by decide, if_false,
          List.mem_append, List.mem_singleton] at he
        rcases he with he | rfl
        · exact h.lineq e he
        · exact over_sub hl hr, h.qineq, h.soc, h.obj, h.objnd⟩
    · exact ⟨⟨w.lo, w.up, w.obj, w.qi, w.so⟩, h.lt, h.nd, h.bins, h.leq, by
        intro e he
        simp only [ApiState.step, Problem.addLinConstr, if_true, show ¬ (("<" : String) = "=") by decide,
          show ¬ ((">" : String) = "=") by decide, show ¬ ((">" : String) = "<") by decide, if_false,
          List.mem_append, List.mem_singleton] at he
        rcases he with he | rfl
        · exact h.lineq e he
        · exact over_sub hr hl, h.qineq, h.soc, h.obj, h.objnd⟩
  | addQua q s l ap =>
    obtain ⟨hq, hl, rfl⟩ := hok
    have w := h.wf
    -- number of auxiliary variables
    obtain ⟨vs, hvs, k, hk, lo, so, nt, ns, heq⟩ : ∃ vs : List (VarRec ℝ), ∃ _ : vs.length = q.quad.length + (if ap = .softConstraint then 1 else 0),
        ∃ k, ∃ _ : k = q.quad.length + (if ap = .softConstraint then 1 else 0), ∃ lo so : Bool, ∃ nt ns : Nat,
        st.step (.addQua q "<" l ap) = ⟨{ st.p with
          vars := st.p.vars ++ vs, numTrust := nt, numSoft := ns,
          qineq := st.p.qineq ++ [⟨q.lin.sub l, q.quad, List.range' st.p.vars.length k,
            decide (ap = .trustRegion), decide (ap = .softConstraint)⟩] }, st.user⟩ := by
      cases ap
      · obtain ⟨vs, h1, h2, h3⟩ := addExtras_spec q.quad.length st.p
        refine ⟨vs, by simp [h1], _, rfl, false, false, st.p.numTrust, st.p.numSoft, ?_⟩
        simp [ApiState.step, Problem.addQuaConstr, h2, h3]
      · obtain ⟨vs, h1, h2, h3⟩ := addExtras_spec q.quad.length { st.p with numTrust := st.p.numTrust + 1 }
        refine ⟨vs, by simp [h1], _, rfl, false, false, st.p.numTrust + 1, st.p.numSoft, ?_⟩
        simp [ApiState.step, Problem.addQuaConstr, h2, h3]
      · obtain ⟨vs, h1, h2, h3⟩ := addExtras_spec q.quad.length { st.p with numSoft := st.p.numSoft + 1 }
        obtain ⟨vs', h1', h2', h3'⟩ := addExtras_spec 1 { st.p with numSoft := st.p.numSoft + 1, vars := st.p.vars ++ vs }
        refine ⟨vs ++ vs', by simp [h1, h1'], _, rfl, false, false, st.p.numTrust, st.p.numSoft + 1, ?_⟩
        simp only [ApiState.step, Problem.addQuaConstr, h2, h3, if_true, h2', h3']
        simp [h1, List.range'_concat]
    rw [heq]
    have hex : (({ st.p with
          vars := st.p.vars ++ vs, numTrust := nt, numSoft := ns,
          qineq := st.p.qineq ++ [⟨q.lin.sub l, q.quad, List.range' st.p.vars.length k,
            decide (ap = .trustRegion), decide (ap = .softConstraint)⟩] } : Problem ℝ).extras).Perm
          (st.p.extras ++ List.range' st.p.vars.length k) := by
      simp only [Problem.extras, List.flatMap_append, List.flatMap_cons, List.flatMap_nil, List.append_nil,
        List.append_assoc]
      exact ((List.perm_append_comm).append_left _).append_left _
    have hfr := fresh_extras hex h.lt h.nd
    constructor
    · refine ⟨w.lo, w.up, w.obj, ?_, w.so⟩
      intro q' hq'
      simp only [List.mem_append, List.mem_singleton] at hq'
      rcases hq' with hq' | rfl
      · exact w.qi q' hq'
      · simp [hk]
    · have hlen : (st.p.vars ++ vs).length = st.p.vars.length + k := by rw [List.length_append, hvs, hk]
      intro v hv
      have := hfr.1 v hv
      rw [← hlen] at this
      exact this
    · exact hfr.2
    · exact h.bins
    · exact h.leq
    · exact h.lineq
    · intro q' hq'
      simp only [List.mem_append, List.mem_singleton] at hq'
      rcases hq' with hq' | rfl
      · exact h.qineq q' hq'
      · exact ⟨over_sub hq.1 hl, hq.2⟩
    · exact h.soc
    · exact h.obj
    · exact h.objnd
  | addSoc q s l =>
    obtain ⟨hq, hl, rfl⟩ := hok
    have w := h.wf
    obtain ⟨vs, h1, h2, h3⟩ := addExtras_spec 1 st.p
    have heq : st.step (.addSoc q "<" l) = ⟨{ st.p with
        vars := st.p.vars ++ vs,
        soc := st.p.soc ++ [⟨q.lin.sub l, q.quad, List.range' st.p.vars.length 1, false, false⟩] }, st.user⟩ := by
      simp [ApiState.step, Problem.addSocConstr, h2, h3]
    rw [heq]
    have hex : (({ st.p with
          vars := st.p.vars ++ vs,
          soc := st.p.soc ++ [⟨q.lin.sub l, q.quad, List.range' st.p.vars.length 1, false, false⟩] } : Problem ℝ).extras).Perm
          (st.p.extras ++ List.range' st.p.vars.length 1) := by
      simp only [Problem.extras, List.flatMap_append, List.flatMap_cons, List.flatMap_nil, List.append_nil,
        List.append_assoc]
      exact List.Perm.refl _
    have hfr := fresh_extras hex h.lt h.nd
    constructor
    · refine ⟨w.lo, w.up, w.obj, w.qi, ?_⟩
      intro q' hq'
      simp only [List.mem_append, List.mem_singleton] at hq'
      rcases hq' with hq' | rfl
      · exact w.so q' hq'
      · simp
    · have hlen : (st.p.vars ++ vs).length = st.p.vars.length + 1 := by rw [List.length_append, h1]
      intro v hv
      have := hfr.1 v hv
      rw [← hlen] at this
      exact this
    · exact hfr.2
    · exact h.bins
    · exact h.leq
    · exact h.lineq
    · exact h.qineq
    · intro q' hq'
      simp only [List.mem_append, List.mem_singleton] at hq'
      rcases hq' with hq' | rfl
      · exact h.soc q' hq'
      · exact ⟨over_sub hq.1 hl, hq.2⟩
    · exact h.obj
    · exact h.objnd
  | setObj q l =>
    have hno := hobj rfl
    have w := h.wf
    obtain ⟨vs, h1, h2, h3⟩ := addExtras_spec q.quad.length st.p
    have heq : st.step (.setObj q l) = ⟨{ st.p with
        vars := st.p.vars ++ vs,
        obj := ⟨q.lin.add l, q.quad, List.range' st.p.vars.length q.quad.length, false, false⟩ }, st.user⟩ := by
      unfold ApiState.NoObj at hno
      simp [ApiState.step, Problem.setObjective, h2, h3, hno]
    rw [heq]
    have hex : (({ st.p with
          vars := st.p.vars ++ vs,
          obj := ⟨q.lin.add l, q.quad, List.range' st.p.vars.length q.quad.length, false, false⟩ } : Problem ℝ).extras).Perm
          (st.p.extras ++ List.range' st.p.vars.length q.quad.length) := by
      unfold ApiState.NoObj at hno
      simp only [Problem.extras, hno, List.nil_append, List.append_assoc]
      refine (List.perm_append_comm).trans ?_
      rw [List.append_assoc]
    have hfr := fresh_extras hex h.lt h.nd
    constructor
    · exact ⟨w.lo, w.up, by simp, w.qi, w.so⟩
    · have hlen : (st.p.vars ++ vs).length = st.p.vars.length + q.quad.length := by rw [List.length_append, h1]
      intro v hv
      have := hfr.1 v hv
      rw [← hlen] at this
      exact this
    · exact hfr.2
    · exact h.bins
    · exact h.leq
    · exact h.lineq
    · exact h.qineq
    · exact h.soc
    · exact ⟨over_addAssign hok.1.1 hok.2, hok.1.2⟩
    · exact LinExpr.addAssign_nodup _ _

theorem noObj_step (st : ApiState) (op : Op) (h : st.NoObj) (hn : op.isObj = false) : (st.step op).NoObj := by
  cases op with
  | addVar ty lb ub g =>
    unfold ApiState.NoObj at *
    by_cases hle : lb > ub
    · simpa [ApiState.step, Problem.addVar, hle] using h
    · cases ty <;> simpa [ApiState.step, Problem.addVar, hle, Problem.pushVar] using h
  | addLin l s r =>
    unfold ApiState.NoObj at *
    simp only [ApiState.step, Problem.addLinConstr]
    split
    · exact h
    · split
      · exact h
      · split <;> exact h
  | addQua q s l ap =>
    unfold ApiState.NoObj at *
    have key : ∀ (n : Nat) (p : Problem ℝ), (p.addExtras n).1.obj = p.obj := by
      intro n p; obtain ⟨vs, _, h2, _⟩ := addExtras_spec n p; rw [h2]
    cases ap <;> by_cases hs : s = "<" <;> simp [ApiState.step, Problem.addQuaConstr, hs, key, h]
  | addSoc q s l =>
    unfold ApiState.NoObj at *
    have key : ∀ (n : Nat) (p : Problem ℝ), (p.addExtras n).1.obj = p.obj := by
      intro n p; obtain ⟨vs, _, h2, _⟩ := addExtras_spec n p; rw [h2]
    by_cases hs : s = "<" <;> simp [ApiState.step, Problem.addSocConstr, hs, key, h]
  | setObj q l => simp [Op.isObj] at hn

theorem filter_length_cons (op : Op) (ops : List Op) :
    (ops.filter Op.isObj).length ≤ ((op :: ops).filter Op.isObj).length := by
  rw [List.filter_cons]; split <;> simp


theorem inv_run (ops : List Op) : ∀ st : ApiState, st.Inv → st.AllOk ops → OneObj ops →
    ((∃ op ∈ ops, op.isObj = true) → st.NoObj) → (st.run ops).Inv := by
  induction ops with
  | nil => intro st h _ _ _; exact h
  | cons op ops ih =>
    intro st h hok hone hno
    refine ih (st.step op) (inv_step st op h hok.1 (fun ho => hno ⟨op, by simp, ho⟩)) hok.2 ?_ ?_
    · unfold OneObj at *
      have := filter_length_cons op ops
      omega
    · rintro ⟨op', hop', ho'⟩
      have hop : op.isObj = false := by
        by_contra hc
        have hc : op.isObj = true := by simpa using hc
        unfold OneObj at hone
        simp only [List.filter_cons, hc, if_true, List.length_cons] at hone
        have : 0 < (ops.filter Op.isObj).length := List.length_pos_of_mem (List.mem_filter.2 ⟨hop', ho'⟩)
        omega
      exact noObj_step st op (hno ⟨op', by simp [hop'], ho'⟩) hop

theorem inv_reachable (ops : List Op) (hok : ApiState.init.AllOk ops) (hone : OneObj ops) :
    (ApiState.init.run ops).Inv :=
  inv_run ops _ inv_init hok hone (fun _ => rfl)

end Verif
