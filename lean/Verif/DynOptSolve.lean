import Verif.DynOptCost

/-! C121, C122: registration of the variables and the problem the solver sees. -/
namespace Verif
namespace Dyn
open LinExpr Kin Finset

/-! ### general statement about programs that declare variables, an objective and constraints -/

/-- A constraint. -/
def IsCons : Op → Prop
  | .addLin .. => True
  | .addQua .. => True
  | .addSoc .. => True
  | _ => False

theorem softTerm_agree (n : Nat) (op : Op) (hk : op.Ok (List.range n)) (hc : IsCons op) (x0 x y : Nat → ℝ) (h : ∀ v < n, x v = y v) :
    op.softTerm x0 x = op.softTerm x0 y := by
  cases op with
  | addQua q s l ap =>
    cases ap with
    | softConstraint =>
      obtain ⟨⟨h1, h2⟩, h3, _⟩ := hk
      have v : ∀ e : LinExpr ℝ, e.Over (List.range n) → e.getValue x = e.getValue y := fun e he => by
        rw [getValue_eq, getValue_eq, tsum_agree _ fun u hu => h _ (List.mem_range.1 (he u hu))]
      have t : tangent q.quad x0 x = tangent q.quad x0 y := by
        unfold tangent
        congr 1
        refine List.map_congr_left fun u hu => ?_
        rw [v _ (h2 u hu)]
      simp only [Op.softTerm, t, v _ h1, v _ h3]
    | _ => rfl
  | _ => rfl

/-- The calls: continuous variables, a weighted sum of squares, constraints. -/
noncomputable def program (is : List Int) (inf : ℝ) (guess : Int → ℝ) (ts : List (ℝ × LinExpr ℝ)) (cons : List Op) : List Op :=
  (is.map fun i => Op.addVar .continuous (-inf) inf (guess i)) ++ [.setObj (TCtx.quadOf ts) (ofConst 0)] ++ cons

/-- Such a program is admissible; what it demands are the constraints, what it minimises the squares plus the penalty. -/
theorem conic_program (is : List Int) (inf : ℝ) (hinf : 0 ≤ inf) (guess : Int → ℝ) (ts : List (ℝ × LinExpr ℝ)) (cons : List Op)
    (hc : ∀ op ∈ cons, IsCons op ∧ op.Ok (List.range is.length) ∧ op.Regular)
    (ht : ∀ p ∈ ts, OverN is.length p.2) (hw : ∀ p ∈ ts, 0 ≤ p.1) (x0 : Nat → ℝ) (thr w : ℝ) (warm : Bool) :
    let ops := program is inf guess ts cons
    ApiState.init.AllOk ops ∧ OneObj ops ∧ (∀ op ∈ ops, op.Regular) ∧ (ApiState.init.run ops).user = List.range is.length ∧
      (∀ x, (ApiState.init.run ops).p.BinaryInUnit x) ∧
      (∀ x, (∀ op ∈ ops, op.Holds x0 thr warm x) ↔ ∀ op ∈ cons, op.Holds x0 thr warm x) ∧
      Op.setObj (TCtx.quadOf ts) (ofConst 0) ∈ ops ∧ (∀ t ∈ (TCtx.quadOf ts).quad, 0 ≤ t.1) ∧
      ∀ y, penalised ops (TCtx.quadOf ts) (ofConst 0) w warm x0 y =
        wsum y ts + (if warm then 0 else w * (cons.map (Op.softTerm x0 y)).sum) := by
  intro ops
  have hu := addVars_user is inf guess hinf
  have nv : ∀ op, IsCons op → Op.NoVar op := fun op h => by cases op <;> first | trivial | exact h.elim
  have no : ∀ op, IsCons op → op.isObj = false := fun op h => by cases op <;> first | rfl | exact h.elim
  have hnv : ∀ op ∈ [Op.setObj (TCtx.quadOf ts) (ofConst 0)] ++ cons, Op.NoVar op ∧ op.Ok (List.range is.length) := by
    intro op ho
    rw [List.mem_append, List.mem_singleton] at ho
    rcases ho with rfl | ho
    · refine ⟨trivial, ⟨by rw [(quadOf_quad _).2]; exact over_range _ _ (Kin.over_ofConst _ _), fun t h => ?_⟩, over_range _ _ (Kin.over_ofConst _ _)⟩
      rw [(quadOf_quad _).1, List.mem_filter] at h
      exact over_range _ _ (ht t h.1)
    · exact ⟨nv _ (hc op ho).1, (hc op ho).2.1⟩
  have ho : ops = (is.map fun i => Op.addVar .continuous (-inf) inf (guess i)) ++ ([Op.setObj (TCtx.quadOf ts) (ofConst 0)] ++ cons) := by
    show program is inf guess ts cons = _
    rw [program, List.append_assoc]
  have h1 : ApiState.init.AllOk ops := by
    rw [ho, allOk_append]; exact ⟨allOk_addVars _ _ _ hinf _, allOk_noVar _ _ hnv _ hu⟩
  have h2 : OneObj ops := by
    rw [ho, OneObj, List.filter_append, List.filter_append, List.length_append, List.length_append]
    have e1 : (is.map fun i => Op.addVar .continuous (-inf) inf (guess i)).filter Op.isObj = [] := by
      rw [List.filter_eq_nil_iff]
      intro op h; obtain ⟨i, _, rfl⟩ := List.mem_map.1 h; simp [Op.isObj]
    have e2 : cons.filter Op.isObj = [] := by
      rw [List.filter_eq_nil_iff]; intro op h; rw [no op (hc op h).1]; simp
    rw [e1, e2]; simp [List.filter_cons, Op.isObj]
  have mem : ∀ op ∈ ops, (∃ i, op = Op.addVar .continuous (-inf) inf (guess i)) ∨ op = Op.setObj (TCtx.quadOf ts) (ofConst 0) ∨ op ∈ cons := by
    intro op h
    rw [ho, List.mem_append, List.mem_append, List.mem_singleton] at h
    rcases h with h | h | h
    · obtain ⟨i, _, rfl⟩ := List.mem_map.1 h; exact Or.inl ⟨i, rfl⟩
    · exact Or.inr (Or.inl h)
    · exact Or.inr (Or.inr h)
  have h3 : ∀ op ∈ ops, op.Regular := by
    intro op h
    rcases mem op h with ⟨i, rfl⟩ | rfl | h
    · trivial
    · trivial
    · exact (hc op h).2.2
  have h4 : (ApiState.init.run ops).user = List.range is.length := by
    rw [ho, run_append, run_noVar_user _ fun op h => (hnv op h).1, hu]
  have h5 : ∀ x, (ApiState.init.run ops).p.BinaryInUnit x := by
    intro x v r hr hb
    have := bins_addVars is inf guess _ (fun op h => (hnv op h).1) ApiState.init (by
      intro r hr; simp [ApiState.init, Problem.empty] at hr) r (by
      rw [ho] at hr; exact List.mem_of_getElem? hr)
    rw [this] at hb; cases hb
  have holds : ∀ x, (∀ op ∈ ops, op.Holds x0 thr warm x) ↔ ∀ op ∈ cons, op.Holds x0 thr warm x := by
    intro x
    constructor
    · intro h op hm; exact h op (by rw [ho]; simp [hm])
    · intro h op hm
      rcases mem op hm with ⟨i, rfl⟩ | rfl | hm
      · trivial
      · trivial
      · exact h op hm
  have hmem : Op.setObj (TCtx.quadOf ts) (ofConst 0) ∈ ops := by rw [ho]; simp
  have hwn : ∀ t ∈ (TCtx.quadOf ts).quad, 0 ≤ t.1 := by
    intro p hp
    rw [(quadOf_quad _).1, List.mem_filter] at hp
    exact hw p hp.1
  have hpen : ∀ y, penalised ops (TCtx.quadOf ts) (ofConst 0) w warm x0 y =
      wsum y ts + (if warm then 0 else w * (cons.map (Op.softTerm x0 y)).sum) := by
    intro y
    unfold penalised
    have hz : (ops.map (Op.softTerm x0 y)).sum = (cons.map (Op.softTerm x0 y)).sum := by
      rw [ho, List.map_append, List.sum_append, List.map_append, List.sum_append]
      have e1 : ((is.map fun i => Op.addVar .continuous (-inf) inf (guess i)).map (Op.softTerm x0 y)).sum = 0 := by
        refine List.sum_eq_zero fun r hr => ?_
        obtain ⟨op, hm, rfl⟩ := List.mem_map.1 hr
        obtain ⟨i, _, rfl⟩ := List.mem_map.1 hm; rfl
      rw [e1]; simp [Op.softTerm]
    rw [hz, sumSq_quadOf, (quadOf_quad _).2, ofConst_value]; simp [wsum]
  exact ⟨h1, h2, h3, h4, h5, holds, hmem, hwn, hpen⟩

/-- Declaring continuous variables, stating a weighted sum of squares and constraints: the standard form handed to
the solver exists, its feasible points satisfy the constraints, every point that satisfies them extends to a feasible point
whose cost is the stated objective plus the penalty of the soft constraints, and no feasible point costs less than that. -/
theorem conic_standard (is : List Int) (inf : ℝ) (hinf : 0 ≤ inf) (guess : Int → ℝ) (ts : List (ℝ × LinExpr ℝ)) (cons : List Op)
    (hc : ∀ op ∈ cons, IsCons op ∧ op.Ok (List.range is.length) ∧ op.Regular)
    (ht : ∀ p ∈ ts, OverN is.length p.2) (hw : ∀ p ∈ ts, 0 ≤ p.1) (x0 : Nat → ℝ) (thr w : ℝ) (hw0 : 0 ≤ w) (warm : Bool) :
    ∃ f, (ApiState.init.run ((is.map fun i => Op.addVar .continuous (-inf) inf (guess i)) ++ [.setObj (TCtx.quadOf ts) (ofConst 0)] ++ cons)).p.build
        x0 thr w warm = some f ∧
      (∀ x, f.Feasible x → (∀ op ∈ cons, op.Holds x0 thr warm x) ∧
        wsum x ts + (if warm then 0 else w * (cons.map (Op.softTerm x0 x)).sum) ≤ f.cost x) ∧
      ∀ x, (∀ op ∈ cons, op.Holds x0 thr warm x) → ∃ x', (∀ v < is.length, x' v = x v) ∧ f.Feasible x' ∧
        f.cost x' = wsum x ts + (if warm then 0 else w * (cons.map (Op.softTerm x0 x)).sum) := by
  obtain ⟨h1, h2, h3, h4, h5, holds, hmem, hwn, hpen⟩ := conic_program is inf hinf guess ts cons hc ht hw x0 thr w warm
  have hk : (TCtx.quadOf ts).lin.const + (ofConst (0 : ℝ)).const = 0 := by rw [(quadOf_quad _).2]; simp [ofConst]
  obtain ⟨f, hf, he⟩ := C07_standard_form _ h1 h2 h3 x0 thr w warm
  refine ⟨f, hf, fun x hx => ⟨(holds x).1 ((he x).2 ⟨x, fun _ _ => rfl, hx⟩).1, ?_⟩, fun x hx => ?_⟩
  · have := (C08_objective _ h1 h2 h3 _ _ hmem hwn x0 thr w hw0 warm f hf x hx).1
    rw [hpen, hk, sub_zero] at this; exact this
  · obtain ⟨x', a, b⟩ := (he x).1 ⟨(holds x).2 hx, h5 x⟩
    obtain ⟨_, x'', b'', a'', c''⟩ := C08_objective _ h1 h2 h3 _ _ hmem hwn x0 thr w hw0 warm f hf x' b
    rw [h4] at a a''
    have ag : ∀ v < is.length, x' v = x v := fun v hv => a v (List.mem_range.2 hv)
    refine ⟨x'', fun v hv => by rw [a'' v (List.mem_range.2 hv), ag v hv], b'', ?_⟩
    rw [c'', hpen, hk, sub_zero]
    have e1 : wsum x' ts = wsum x ts := by
      unfold wsum
      congr 1
      refine List.map_congr_left fun t hm => ?_
      have : t.2.getValue x' = t.2.getValue x := by
        rw [getValue_eq, getValue_eq, tsum_agree _ fun u hu => ag _ (ht t hm u hu)]
      rw [this]
    have e2 : cons.map (Op.softTerm x0 x') = cons.map (Op.softTerm x0 x) :=
      List.map_congr_left fun op ho => softTerm_agree _ _ (hc op ho).2.1 (hc op ho).1 x0 _ _ ag
    rw [e1, e2]

/-! ### every expression is over the registered variables -/

theorem over_add (n : Nat) (e r : LinExpr ℝ) (he : OverN n e) (hr : OverN n r) : OverN n (e.add r) := Kin.over_addAssign n e r he hr
theorem over_subC (n : Nat) (e : LinExpr ℝ) (k : ℝ) (he : OverN n e) : OverN n (e.subC k) := Kin.over_addAssign n e _ he (Kin.over_ofConst n _)
theorem over_negL (n : Nat) (e : LinExpr ℝ) (he : OverN n e) : OverN n (Ctx.negL e) := Kin.over_sub n _ _ (Kin.over_ofConst n _) he

theorem over_active (n : Nat) (c : Ctx) (t : Nat) (body : Nat → LinExpr ℝ → LinExpr ℝ) (l : LinExpr ℝ) (hl : OverN n l)
    (hb : ∀ e < c.neff, c.active t e = true → ∀ l, OverN n l → OverN n (body e l)) : OverN n (c.overActive t body l) := by
  unfold Ctx.overActive
  have : ∀ m ≤ c.neff, OverN n ((List.range m).foldl (fun l e => if c.active t e then body e l else l) l) := by
    intro m
    induction m with
    | zero => intro _; exact hl
    | succ m ih =>
      intro hm
      rw [List.range_succ, List.foldl_append, List.foldl_cons, List.foldl_nil]
      split
      · next h => exact hb m (by omega) h _ (ih (by omega))
      · exact ih (by omega)
  exact this _ le_rfl

section
variable (d : DCtx) (hp : d.p.Ok d.s)

/-- Number of decision variables. -/
def DCtx.nvar (d : DCtx) : Nat := totalSize (d.s.dims d.p.steps)

theorem oCom (a t : Nat) (ha : a < 3) (ht : t < d.s.T) : OverN d.nvar (d.ctx.vCom a t) :=
  Kin.over_ofVar _ _ _ (isVar_lt _ _ _ _ _ (isVar_base d.s d.p.steps 0 a t (by omega) ha ht))
theorem oL (a t : Nat) (ha : a < 3) (ht : t < d.s.T) : OverN d.nvar (d.ctx.vL a t) :=
  Kin.over_ofVar _ _ _ (isVar_lt _ _ _ _ _ (isVar_base d.s d.p.steps 1 a t (by omega) ha ht))
theorem oH (a t : Nat) (ha : a < 3) (ht : t < d.s.T) : OverN d.nvar (d.ctx.vH a t) :=
  Kin.over_ofVar _ _ _ (isVar_lt _ _ _ _ _ (isVar_base d.s d.p.steps 2 a t (by omega) ha ht))
theorem oDt (h : d.s.heur = .timeOpt) (t : Nat) (ht : t < d.s.T) : OverN d.nvar (d.ctx.vDt t) :=
  Kin.over_ofVar _ _ _ (isVar_lt _ _ _ _ _ (isVar_time d.s d.p.steps h 0 0 t (by omega) (by simp) ht))
theorem oLd (h : d.s.heur = .timeOpt) (a t : Nat) (ha : a < 3) (ht : t < d.s.T) : OverN d.nvar (d.ctx.vLd a t) :=
  Kin.over_ofVar _ _ _ (isVar_lt _ _ _ _ _ (isVar_time d.s d.p.steps h 1 a t (by omega) (by simpa using ha) ht))
theorem oHd (h : d.s.heur = .timeOpt) (a t : Nat) (ha : a < 3) (ht : t < d.s.T) : OverN d.nvar (d.ctx.vHd a t) :=
  Kin.over_ofVar _ _ _ (isVar_lt _ _ _ _ _ (isVar_time d.s d.p.steps h 2 a t (by omega) (by simpa using ha) ht))
include hp
theorem oLb (e a t : Nat) (ha : a < 3) (ht : t < d.s.T) (he : e < d.s.neff) (h : d.p.active t e = true) : OverN d.nvar (d.ctx.vLb e a t) :=
  Kin.over_ofVar _ _ _ (isVar_lt _ _ _ _ _ (isVar_eff d.s d.p.steps e 0 a _ he (by omega) (by simpa [effRows] using ha) (hp t ht e he h)))
theorem oUb (e a t : Nat) (ha : a < 3) (ht : t < d.s.T) (he : e < d.s.neff) (h : d.p.active t e = true) : OverN d.nvar (d.ctx.vUb e a t) :=
  Kin.over_ofVar _ _ _ (isVar_lt _ _ _ _ _ (isVar_eff d.s d.p.steps e 1 a _ he (by omega) (by simpa [effRows] using ha) (hp t ht e he h)))
theorem oF (e a t : Nat) (ha : a < 3) (ht : t < d.s.T) (he : e < d.s.neff) (h : d.p.active t e = true) : OverN d.nvar (d.ctx.vF e a t) :=
  Kin.over_ofVar _ _ _ (isVar_lt _ _ _ _ _ (isVar_eff d.s d.p.steps e 2 a _ he (by omega) (by simpa [effRows] using ha) (hp t ht e he h)))
theorem oCop (e a t : Nat) (ha : a < 2) (ht : t < d.s.T) (he : e < d.s.neff) (h : d.p.active t e = true) : OverN d.nvar (d.ctx.vCop e a t) :=
  Kin.over_ofVar _ _ _ (isVar_lt _ _ _ _ _ (isVar_eff d.s d.p.steps e 3 a _ he (by omega) (by simpa [effRows] using ha) (hp t ht e he h)))
theorem oTrq (e t : Nat) (ht : t < d.s.T) (he : e < d.s.neff) (h : d.p.active t e = true) : OverN d.nvar (d.ctx.vTrq e t) :=
  Kin.over_ofVar _ _ _ (isVar_lt _ _ _ _ _ (isVar_eff d.s d.p.steps e 4 0 _ he (by omega) (by simp [effRows]) (hp t ht e he h)))
theorem oLen (e a t : Nat) (ha : a < 3) (ht : t < d.s.T) (he : e < d.s.neff) (h : d.p.active t e = true) : OverN d.nvar (d.ctx.len t e a) :=
  over_add _ _ _ (over_add _ _ _ (Kin.over_sub _ _ _ (Kin.over_ofConst _ _) (oCom d a t ha ht)) (Kin.over_mul _ _ _ (oCop d hp e 0 t (by omega) ht he h)))
    (Kin.over_mul _ _ _ (oCop d hp e 1 t (by omega) ht he h))

theorem oRow (t e i : Nat) (ht : t < d.s.T) (he : e < d.s.neff) (h : d.p.active t e = true) (mu : ℝ) :
    OverN d.nvar (d.ctx.frictionRow mu t e i) :=
  Kin.over_foldl _ _ _ _ (Kin.over_ofConst _ _) fun a ha => Kin.over_mul _ _ _ (oF d hp e a t ha ht he h)
theorem oLocal (t e k : Nat) (ht : t < d.s.T) (he : e < d.s.neff) (h : d.p.active t e = true) :
    OverN d.nvar (d.ctx.localForce t e k) :=
  Kin.over_foldl _ _ _ _ (Kin.over_ofConst _ _) fun a ha => Kin.over_mul _ _ _ (oF d hp e a t ha ht he h)

omit hp in
theorem oPrev (v : Nat → Nat → LinExpr ℝ) (hv : ∀ t < d.s.T, ∀ a < 3, OverN d.nvar (v a t)) (t a : Nat) (ha : a < 3) (ht : t < d.s.T) (h : t ≠ 0) :
    OverN d.nvar (v a (t - 1)) := hv _ (by omega) a ha

theorem over_dyn : ∀ l ∈ d.dynExprs, OverN d.nvar l := by
  have com : ∀ t < d.s.T, ∀ a < 3, OverN d.nvar (d.ctx.comCons t a) := by
    intro t ht a ha
    unfold Ctx.comCons
    split
    · exact Kin.over_sub _ _ _ (Kin.over_sub _ _ _ (oCom d a t ha ht) (Kin.over_ofConst _ _)) (Kin.over_mul _ _ _ (oL d a t ha ht))
    · exact Kin.over_sub _ _ _ (Kin.over_sub _ _ _ (oCom d a t ha ht) (oCom d a _ ha (by omega))) (Kin.over_mul _ _ _ (oL d a t ha ht))
  unfold DCtx.dynExprs
  by_cases h : d.s.heur = .timeOpt
  · have lmd : ∀ t < d.s.T, ∀ a < 3, OverN d.nvar (d.ctx.lmomdCons t a) := fun t ht a ha =>
      over_active _ _ _ _ _ (Kin.over_sub _ _ _ (Kin.over_ofConst _ _) (oLd d h a t ha ht)) fun e he h l hl =>
        Kin.over_addAssign _ _ _ hl (Kin.over_mul _ _ _ (oF d hp e a t ha ht he h))
    have hmd : ∀ t < d.s.T, ∀ a < 3, OverN d.nvar (d.ctx.amomdCons t a) := fun t ht a ha =>
      over_active _ _ _ _ _ (Kin.over_sub _ _ _ (Kin.over_ofConst _ _) (oHd d h a t ha ht)) fun e he h l hl =>
        Kin.over_addAssign _ _ _ (Kin.over_addAssign _ _ _ hl (Kin.over_mul _ _ _ (Kin.over_mul _ _ _ (Kin.over_sub _ _ _ (oUb d hp e a t ha ht he h)
          (oLb d hp e a t ha ht he h))))) (Kin.over_mul _ _ _ (oTrq d hp e t ht he h))
    rw [if_pos h]
    by_cases hf : d.first = true
    · rw [if_pos hf]
      simp only [Ctx.timeConsFirst, forall_flat (β := LinExpr ℝ), List.forall_mem_append, forall_map]
      intro t ht
      refine ⟨⟨⟨⟨com t ht, fun a ha => ?_⟩, fun a ha => ?_⟩, lmd t ht⟩, hmd t ht⟩
      · unfold Ctx.tLmomCons
        split
        · exact Kin.over_sub _ _ _ (Kin.over_sub _ _ _ (oL d a t ha ht) (Kin.over_ofConst _ _)) (Kin.over_mul _ _ _ (oLd d h a t ha ht))
        · exact Kin.over_sub _ _ _ (Kin.over_sub _ _ _ (oL d a t ha ht) (oL d a _ ha (Nat.lt_of_le_of_lt (Nat.sub_le _ _) ht))) (Kin.over_mul _ _ _ (oLd d h a t ha ht))
      · unfold Ctx.tAmomCons
        split
        · exact Kin.over_sub _ _ _ (Kin.over_sub _ _ _ (oH d a t ha ht) (Kin.over_ofConst _ _)) (Kin.over_mul _ _ _ (oHd d h a t ha ht))
        · exact Kin.over_sub _ _ _ (Kin.over_sub _ _ _ (oH d a t ha ht) (oH d a _ ha (Nat.lt_of_le_of_lt (Nat.sub_le _ _) ht))) (Kin.over_mul _ _ _ (oHd d h a t ha ht))
    · rw [if_neg hf]
      have tp : ∀ u v : LinExpr ℝ, ∀ p q k : ℝ, OverN d.nvar u → OverN d.nvar v → OverN d.nvar (Ctx.tangentProd u v p q k) := by
        intro u v p q k hu hv
        exact Kin.over_sub _ _ _ (Kin.over_mul _ _ _ (over_add _ _ _ (Kin.over_ofConst _ _) (Kin.over_mul _ _ _ (Kin.over_mul _ _ _ (over_subC _ _ _ (over_add _ _ _ hu hv))))))
          (Kin.over_mul _ _ _ (over_add _ _ _ (Kin.over_ofConst _ _) (Kin.over_mul _ _ _ (Kin.over_mul _ _ _ (over_subC _ _ _ (Kin.over_sub _ _ _ hu hv))))))
      simp only [Ctx.timeConsLater, forall_flat (β := LinExpr ℝ), List.forall_mem_append, forall_map]
      intro t ht
      have ht' : t - 1 < d.s.T := Nat.lt_of_le_of_lt (Nat.sub_le _ _) ht
      refine ⟨⟨⟨⟨fun a ha => ?_, fun a ha => ?_⟩, fun a ha => ?_⟩, lmd t ht⟩, hmd t ht⟩
      · refine Kin.over_addAssign _ _ _ (Kin.over_addAssign _ _ _ (Kin.over_ofConst _ _) ?_) (tp _ _ _ _ _ (oDt d h t ht) (oL d a t ha ht))
        split
        · exact Kin.over_sub _ _ _ (Kin.over_ofConst _ _) (oCom d a t ha ht)
        · exact Kin.over_sub _ _ _ (oCom d a _ ha ht') (oCom d a t ha ht)
      · refine Kin.over_addAssign _ _ _ (Kin.over_addAssign _ _ _ (Kin.over_ofConst _ _) ?_) (tp _ _ _ _ _ (oDt d h t ht) (oLd d h a t ha ht))
        split
        · exact Kin.over_sub _ _ _ (Kin.over_ofConst _ _) (oL d a t ha ht)
        · exact Kin.over_sub _ _ _ (oL d a _ ha ht') (oL d a t ha ht)
      · refine Kin.over_addAssign _ _ _ (Kin.over_addAssign _ _ _ (Kin.over_ofConst _ _) ?_) (tp _ _ _ _ _ (oDt d h t ht) (oHd d h a t ha ht))
        split
        · exact Kin.over_sub _ _ _ (Kin.over_ofConst _ _) (oH d a t ha ht)
        · exact Kin.over_sub _ _ _ (oH d a _ ha ht') (oH d a t ha ht)
  · rw [if_neg h]
    simp only [Ctx.fixedCons, forall_flat (β := LinExpr ℝ), List.forall_mem_append, forall_map]
    intro t ht
    have ht' : t - 1 < d.s.T := Nat.lt_of_le_of_lt (Nat.sub_le _ _) ht
    refine ⟨⟨com t ht, fun a ha => ?_⟩, fun a ha => ?_⟩
    · have base : OverN d.nvar (if t = 0 then ((d.ctx.vL a t).sub (ofConst (d.ctx.dt t * (d.ctx.mass * d.ctx.grav a)))).sub (ofConst (d.ctx.iniL a))
          else ((d.ctx.vL a t).sub (ofConst (d.ctx.dt t * (d.ctx.mass * d.ctx.grav a)))).sub (d.ctx.vL a (t - 1))) := by
        split
        · exact Kin.over_sub _ _ _ (Kin.over_sub _ _ _ (oL d a t ha ht) (Kin.over_ofConst _ _)) (Kin.over_ofConst _ _)
        · exact Kin.over_sub _ _ _ (Kin.over_sub _ _ _ (oL d a t ha ht) (Kin.over_ofConst _ _)) (oL d a _ ha ht')
      have act := over_active d.nvar d.ctx t (fun e l => l.addAssign ((d.ctx.vF e a t).mul (-d.ctx.dt t * d.ctx.mg))) _ base
        fun e he h l hl => Kin.over_addAssign _ _ _ hl (Kin.over_mul _ _ _ (oF d hp e a t ha ht he h))
      unfold Ctx.lmomCons
      dsimp only
      split
      · next h0 => subst h0; exact Kin.over_addAssign _ _ _ act (Kin.over_mul _ _ _ (Kin.over_ofConst _ _))
      · next h0 => rw [if_neg h0] at act; exact act
    · unfold Ctx.amomCons
      refine over_active _ _ _ _ _ ?_ fun e he h l hl => Kin.over_addAssign _ _ _ (Kin.over_addAssign _ _ _ hl
        (Kin.over_mul _ _ _ (Kin.over_sub _ _ _ (oLb d hp e a t ha ht he h) (oUb d hp e a t ha ht he h)))) (Kin.over_mul _ _ _ (oTrq d hp e t ht he h))
      split
      · exact Kin.over_sub _ _ _ (oH d a t ha ht) (Kin.over_ofConst _ _)
      · exact Kin.over_sub _ _ _ (oH d a t ha ht) (oH d a _ ha ht')

omit hp in
theorem over_quad2 (n : Nat) (a b : LinExpr ℝ) (ha : OverN n a) (hb : OverN n b) :
    ((QuadExpr.empty.addQuaTerm 1 a).addQuaTerm 1 b).Over (List.range n) := by
  refine ⟨over_range _ _ ?_, fun t ht => ?_⟩
  · have : ((QuadExpr.empty.addQuaTerm 1 a).addQuaTerm 1 b).lin = ofConst 0 := by simp [QuadExpr.addQuaTerm, QuadExpr.empty]
    rw [this]; exact Kin.over_ofConst _ _
  · simp [QuadExpr.addQuaTerm, QuadExpr.empty] at ht
    rcases ht with rfl | rfl
    · exact over_range _ _ ha
    · exact over_range _ _ hb

theorem cons_ok : ∀ op ∈ d.cons, IsCons op ∧ op.Ok (List.range d.nvar) := by
  have lin : ∀ l r s, (s = "=" ∨ s = "<" ∨ s = ">") → OverN d.nvar l → OverN d.nvar r → IsCons (Op.addLin l s r) ∧ (Op.addLin l s r).Ok (List.range d.nvar) :=
    fun l r s hs hl hr => ⟨trivial, over_range _ _ hl, over_range _ _ hr, hs⟩
  have rng : ∀ v lo hi, OverN d.nvar v → ∀ op ∈ DCtx.range2 v lo hi, IsCons op ∧ op.Ok (List.range d.nvar) := by
    intro v lo hi hv op ho
    simp only [DCtx.range2, List.mem_cons, List.not_mem_nil, or_false] at ho
    rcases ho with rfl | rfl
    · exact lin _ _ _ (by simp) hv (Kin.over_ofConst _ _)
    · exact lin _ _ _ (by simp) hv (Kin.over_ofConst _ _)
  simp only [DCtx.cons, List.forall_mem_append]
  refine ⟨⟨⟨⟨⟨?_, ?_⟩, ?_⟩, ?_⟩, ?_⟩, ?_⟩
  · rw [DCtx.heightCons, forall_map]
    exact fun t ht => lin _ _ _ (by simp) (Kin.over_sub _ _ _ (oCom d 2 t (by omega) ht) (Kin.over_ofConst _ _)) (Kin.over_ofConst _ _)
  · rw [DCtx.horizonCons, forall_ite]
    intro h
    simp only [Bool.and_eq_true, decide_eq_true_eq] at h
    simp only [List.mem_singleton, forall_eq]
    exact lin _ _ _ (by simp) (Kin.over_foldl _ _ _ _ (Kin.over_ofConst _ _) fun t ht => oDt d h.2 t ht) (Kin.over_ofConst _ _)
  · simp only [DCtx.rangeCons, forall_flat (β := Op), List.forall_mem_append, forall_ite', forall_ite]
    exact fun t ht => ⟨fun h => rng _ _ _ (oDt d h t ht), fun e he h => ⟨⟨rng _ _ _ (oTrq d hp e t ht he h),
      rng _ _ _ (oCop d hp e 0 t (by omega) ht he h)⟩, rng _ _ _ (oCop d hp e 1 t (by omega) ht he h)⟩⟩
  · simp only [DCtx.frictionCons, forall_flat (β := Op)]
    intro t ht e he
    split
    · intro op ho; simp at ho
    rw [forall_ite]
    intro h
    split
    · rw [forall_map]
      exact fun i hi => lin _ _ _ (by simp) (oRow d hp t e i ht he h _) (Kin.over_ofConst _ _)
    · simp only [List.mem_singleton, forall_eq]
      exact ⟨trivial, over_quad2 _ _ _ (oLocal d hp t e 0 ht he h) (oLocal d hp t e 1 ht he h), over_range _ _ (Kin.over_mul _ _ _ (oLocal d hp t e 2 ht he h)), rfl⟩
  · simp only [List.forall_mem_map]
    exact fun l hl => lin _ _ _ (by simp) (over_dyn d hp l hl) (Kin.over_ofConst _ _)
  · simp only [DCtx.quadCons, forall_flat (β := Op), List.forall_mem_append, forall_ite, forall_map, List.mem_singleton, forall_eq]
    intro t ht e he h
    have ol := fun a ha => oLen d hp e a t ha ht he h
    have of := fun a ha => oF d hp e a t ha ht he h
    refine ⟨⟨fun a ha => ⟨trivial, ?_, over_range _ _ (oUb d hp e a t ha ht he h), rfl⟩,
      fun a ha => ⟨trivial, ?_, over_range _ _ (oLb d hp e a t ha ht he h), rfl⟩⟩, trivial, ?_, over_range _ _ (Kin.over_ofConst _ _), rfl⟩
    · match a with
      | 0 => exact over_quad2 _ _ _ (over_add _ _ _ (over_negL _ _ (ol 2 (by omega))) (of 1 (by omega))) (over_add _ _ _ (ol 1 (by omega)) (of 2 (by omega)))
      | 1 => exact over_quad2 _ _ _ (over_add _ _ _ (ol 2 (by omega)) (of 0 (by omega))) (over_add _ _ _ (over_negL _ _ (ol 0 (by omega))) (of 2 (by omega)))
      | a + 2 => exact over_quad2 _ _ _ (over_add _ _ _ (over_negL _ _ (ol 1 (by omega))) (of 0 (by omega))) (over_add _ _ _ (ol 0 (by omega)) (of 1 (by omega)))
    · match a with
      | 0 => exact over_quad2 _ _ _ (Kin.over_sub _ _ _ (over_negL _ _ (ol 2 (by omega))) (of 1 (by omega))) (Kin.over_sub _ _ _ (ol 1 (by omega)) (of 2 (by omega)))
      | 1 => exact over_quad2 _ _ _ (Kin.over_sub _ _ _ (ol 2 (by omega)) (of 0 (by omega))) (Kin.over_sub _ _ _ (over_negL _ _ (ol 0 (by omega))) (of 2 (by omega)))
      | a + 2 => exact over_quad2 _ _ _ (Kin.over_sub _ _ _ (over_negL _ _ (ol 1 (by omega))) (of 0 (by omega))) (Kin.over_sub _ _ _ (ol 0 (by omega)) (of 1 (by omega)))
    · refine ⟨over_range _ _ ?_, fun q hq => ?_⟩
      · have : (d.ctx.lengthQuad (d.s.off e) t e).lin = ofConst 0 := by simp [Ctx.lengthQuad, QuadExpr.addQuaTerm, QuadExpr.empty]
        rw [this]; exact Kin.over_ofConst _ _
      · simp [Ctx.lengthQuad, QuadExpr.addQuaTerm, QuadExpr.empty] at hq
        rcases hq with rfl | rfl | rfl
        · exact over_range _ _ (over_subC _ _ _ (ol 0 (by omega)))
        · exact over_range _ _ (over_subC _ _ _ (ol 1 (by omega)))
        · exact over_range _ _ (over_subC _ _ _ (ol 2 (by omega)))

theorem obj_over (hT : 0 < d.s.T) : ∀ q ∈ d.objTerms, OverN d.nvar q.2 := by
  simp only [DCtx.objTerms, List.forall_mem_append, forall_flat (β := ℝ × LinExpr ℝ)]
  refine ⟨⟨?_, fun t ht => ⟨⟨fun a ha => ⟨⟨⟨?_, ?_⟩, ?_⟩, ?_⟩, ?_⟩, ?_⟩⟩, ?_⟩
  · intro q hq
    simp only [DCtx.viaTerms, List.mem_flatMap, List.mem_map, List.mem_range] at hq
    obtain ⟨v, _, a, ha, rfl⟩ := hq
    refine Kin.over_sub _ _ _ ?_ (Kin.over_ofConst _ _)
    rw [via_col d hT]
    exact oCom d a _ ha (by unfold viaStep; omega)
  · simp only [DCtx.trackTerms, List.forall_mem_append]
    constructor
    · split
      · simp only [List.mem_cons, List.not_mem_nil, or_false, forall_eq_or_imp, forall_eq]
        exact ⟨Kin.over_sub _ _ _ (oCom d a t ha ht) (Kin.over_ofConst _ _), Kin.over_sub _ _ _ (oL d a t ha ht) (Kin.over_ofConst _ _),
          Kin.over_sub _ _ _ (oH d a t ha ht) (Kin.over_ofConst _ _)⟩
      · simp only [List.mem_cons, List.not_mem_nil, or_false, forall_eq_or_imp, forall_eq]
        exact ⟨Kin.over_sub _ _ _ (oL d a t ha ht) (Kin.over_ofConst _ _), Kin.over_sub _ _ _ (oH d a t ha ht) (Kin.over_ofConst _ _)⟩
    · simp only [List.mem_singleton, forall_eq]
      exact Kin.over_sub _ _ _ (oCom d a t ha ht) (Kin.over_ofConst _ _)
  · unfold DCtx.rateTerms
    have ht' : t - 1 < d.s.T := Nat.lt_of_le_of_lt (Nat.sub_le _ _) ht
    split
    · next h =>
      simp only [List.mem_cons, List.not_mem_nil, or_false, forall_eq_or_imp, forall_eq]
      exact ⟨oLd d h a t ha ht, oHd d h a t ha ht⟩
    · split
      · simp only [List.mem_cons, List.not_mem_nil, or_false, forall_eq_or_imp, forall_eq]
        exact ⟨Kin.over_mul _ _ _ (Kin.over_sub _ _ _ (oL d a t ha ht) (Kin.over_ofConst _ _)), Kin.over_mul _ _ _ (Kin.over_sub _ _ _ (oH d a t ha ht) (Kin.over_ofConst _ _))⟩
      · simp only [List.mem_cons, List.not_mem_nil, or_false, forall_eq_or_imp, forall_eq]
        exact ⟨Kin.over_mul _ _ _ (Kin.over_sub _ _ _ (oL d a t ha ht) (oL d a _ ha ht')), Kin.over_mul _ _ _ (Kin.over_sub _ _ _ (oH d a t ha ht) (oH d a _ ha ht'))⟩
  · simp only [DCtx.forceTerms, forall_flat (β := ℝ × LinExpr ℝ), forall_ite, List.mem_singleton, forall_eq]
    exact fun e he h => oF d hp e a t ha ht he h
  · simp only [DCtx.forceRateTerms, forall_flat (β := ℝ × LinExpr ℝ), forall_ite, List.mem_cons, List.not_mem_nil, or_false, forall_eq_or_imp, forall_eq]
    refine fun e he h => ⟨Kin.over_sub _ _ _ ?_ (oF d hp e a t ha ht he h), Kin.over_sub _ _ _ (oF d hp e a t ha ht he h) ?_⟩
    · unfold DCtx.nextForce
      split
      · exact oF d hp e a t ha ht he h
      · split
        · next h2 => exact oF d hp e a (t + 1) ha (by omega) he h2
        · exact Kin.over_ofConst _ _
    · unfold DCtx.prevForce
      split
      · exact Kin.over_ofConst _ _
      · split
        · next h2 => exact oF d hp e a (t - 1) ha (by omega) he h2
        · exact Kin.over_ofConst _ _
  · simp only [DCtx.torqueTerms, forall_flat (β := ℝ × LinExpr ℝ), forall_ite, List.mem_singleton, forall_eq]
    exact fun e he h => oTrq d hp e t ht he h
  · simp only [DCtx.timeTerms, forall_ite', List.mem_cons, List.not_mem_nil, or_false, forall_eq_or_imp, forall_eq]
    exact fun h => ⟨oDt d h t ht, Kin.over_sub _ _ _ (oDt d h t ht) (Kin.over_ofConst _ _)⟩
  · have lsq : ∀ p q b, OverN d.nvar p.1 → OverN d.nvar q.1 → OverN d.nvar b → OverN d.nvar (DCtx.linSquares [p, q] b) := by
      intro p q b h1 h2 h3
      simp only [DCtx.linSquares, List.foldl_cons, List.foldl_nil]
      exact Kin.over_sub _ _ _ (over_add _ _ _ (over_add _ _ _ (Kin.over_ofConst _ _) (Kin.over_mul _ _ _ (Kin.over_mul _ _ _ (over_subC _ _ _ h1))))
        (Kin.over_mul _ _ _ (Kin.over_mul _ _ _ (over_subC _ _ _ h2)))) h3
    simp only [DCtx.softTerms, forall_ite, forall_flat (β := ℝ × LinExpr ℝ), List.mem_cons, List.not_mem_nil, or_false, forall_eq_or_imp, forall_eq]
    intro _ t ht e he h a ha
    have ol := fun a ha => oLen d hp e a t ha ht he h
    have of := fun a ha => oF d hp e a t ha ht he h
    constructor
    · match a with
      | 0 => exact lsq _ _ _ (over_add _ _ _ (over_negL _ _ (ol 2 (by omega))) (of 1 (by omega))) (over_add _ _ _ (ol 1 (by omega)) (of 2 (by omega))) (oUb d hp e _ t ha ht he h)
      | 1 => exact lsq _ _ _ (over_add _ _ _ (ol 2 (by omega)) (of 0 (by omega))) (over_add _ _ _ (over_negL _ _ (ol 0 (by omega))) (of 2 (by omega))) (oUb d hp e _ t ha ht he h)
      | a + 2 => exact lsq _ _ _ (over_add _ _ _ (over_negL _ _ (ol 1 (by omega))) (of 0 (by omega))) (over_add _ _ _ (ol 0 (by omega)) (of 1 (by omega))) (oUb d hp e _ t ha ht he h)
    · match a with
      | 0 => exact lsq _ _ _ (Kin.over_sub _ _ _ (over_negL _ _ (ol 2 (by omega))) (of 1 (by omega))) (Kin.over_sub _ _ _ (ol 1 (by omega)) (of 2 (by omega))) (oLb d hp e _ t ha ht he h)
      | 1 => exact lsq _ _ _ (Kin.over_sub _ _ _ (ol 2 (by omega)) (of 0 (by omega))) (Kin.over_sub _ _ _ (over_negL _ _ (ol 0 (by omega))) (of 2 (by omega))) (oLb d hp e _ t ha ht he h)
      | a + 2 => exact lsq _ _ _ (Kin.over_sub _ _ _ (over_negL _ _ (ol 1 (by omega))) (of 0 (by omega))) (Kin.over_sub _ _ _ (ol 0 (by omega)) (of 1 (by omega))) (oLb d hp e _ t ha ht he h)

end

end Dyn
end Verif
