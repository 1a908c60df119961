import Verif.KinOptSteps

/-! C113, C114: the posture optimisation. -/
namespace Verif
namespace Kin
open LinExpr Finset

/-! ### a quadratic program with continuous variables and linear constraints, end to end -/

theorem tsum_agree {x y : Nat → ℝ} (ts : List (Nat × ℝ)) (h : ∀ t ∈ ts, x t.1 = y t.1) : tsum x ts = tsum y ts := by
  induction ts with
  | nil => rfl
  | cons t ts ih => rw [tsum_cons, tsum_cons, h t (by simp), ih fun u hu => h u (by simp [hu])]

/-- Declaring continuous variables, stating a weighted sum of squares and linear constraints: the standard form handed to
the solver exists, its feasible points satisfy the constraints, every point that satisfies them extends to a feasible point
whose cost is the stated objective, and no feasible point costs less than the stated objective. -/
theorem qp_standard (is : List Int) (inf : ℝ) (hinf : 0 ≤ inf) (guess : Int → ℝ) (ts : List (ℝ × LinExpr ℝ)) (cons : List Op)
    (hc : ∀ op ∈ cons, (∃ l s r, op = .addLin l s r) ∧ op.Ok (List.range is.length) ∧ op.Regular)
    (ht : ∀ p ∈ ts, OverN is.length p.2) (hw : ∀ p ∈ ts, 0 ≤ p.1) (x0 : Nat → ℝ) (thr w : ℝ) (hw0 : 0 ≤ w) (warm : Bool) :
    ∃ f, (ApiState.init.run ((is.map fun i => Op.addVar .continuous (-inf) inf (guess i)) ++ [.setObj (TCtx.quadOf ts) (ofConst 0)] ++ cons)).p.build
        x0 thr w warm = some f ∧
      (∀ x, f.Feasible x → (∀ op ∈ cons, op.Holds x0 thr warm x) ∧ (ts.map fun t => t.1 * (t.2.getValue x) ^ 2).sum ≤ f.cost x) ∧
      ∀ x, (∀ op ∈ cons, op.Holds x0 thr warm x) → ∃ x', (∀ v < is.length, x' v = x v) ∧ f.Feasible x' ∧
        f.cost x' = (ts.map fun t => t.1 * (t.2.getValue x) ^ 2).sum := by
  have hu := addVars_user is inf guess hinf
  have hnv : ∀ op ∈ [Op.setObj (TCtx.quadOf ts) (ofConst 0)] ++ cons, Op.NoVar op ∧ op.Ok (List.range is.length) := by
    intro op ho
    rw [List.mem_append, List.mem_singleton] at ho
    rcases ho with rfl | ho
    · refine ⟨trivial, ⟨by rw [(quadOf_quad _).2]; exact over_range _ _ (over_ofConst _ _), fun t h => ?_⟩, over_range _ _ (over_ofConst _ _)⟩
      rw [(quadOf_quad _).1, List.mem_filter] at h
      exact over_range _ _ (ht t h.1)
    · obtain ⟨⟨l, s, r, rfl⟩, h2, _⟩ := hc op ho
      exact ⟨trivial, h2⟩
  set ops := (is.map fun i => Op.addVar .continuous (-inf) inf (guess i)) ++ [Op.setObj (TCtx.quadOf ts) (ofConst 0)] ++ cons with hops
  have ho : ops = (is.map fun i => Op.addVar .continuous (-inf) inf (guess i)) ++ ([Op.setObj (TCtx.quadOf ts) (ofConst 0)] ++ cons) := by
    rw [hops, List.append_assoc]
  have h1 : ApiState.init.AllOk ops := by
    rw [ho, allOk_append]; exact ⟨allOk_addVars _ _ _ hinf _, allOk_noVar _ _ hnv _ hu⟩
  have h2 : OneObj ops := by
    rw [ho, OneObj, List.filter_append, List.filter_append, List.length_append, List.length_append]
    have e1 : (is.map fun i => Op.addVar .continuous (-inf) inf (guess i)).filter Op.isObj = [] := by
      rw [List.filter_eq_nil_iff]
      intro op h; obtain ⟨i, _, rfl⟩ := List.mem_map.1 h; simp [Op.isObj]
    have e2 : cons.filter Op.isObj = [] := by
      rw [List.filter_eq_nil_iff]; intro op h; obtain ⟨⟨l, s, r, rfl⟩, _⟩ := hc op h; simp [Op.isObj]
    rw [e1, e2]; simp [List.filter_cons, Op.isObj]
  have mem : ∀ op ∈ ops, (∃ i, op = Op.addVar .continuous (-inf) inf (guess i)) ∨ op = Op.setObj (TCtx.quadOf ts) (ofConst 0) ∨ op ∈ cons := by
    intro op h
    rw [ho, List.mem_append, List.mem_append, List.mem_singleton] at h
    rcases h with h | h | h
    · obtain ⟨i, _, rfl⟩ := List.mem_map.1 h; exact Or.inl ⟨i, rfl⟩
    · exact Or.inr (Or.inl h)
    · exact Or.inr (Or.inr h)
  have h3 : ∀ op ∈ ops, op.Regular := by
    intro op h
    rcases mem op h with ⟨i, rfl⟩ | rfl | h
    · trivial
    · trivial
    · exact (hc op h).2.2
  have h4 : (ApiState.init.run ops).user = List.range is.length := by
    rw [ho, run_append, run_noVar_user _ fun op h => (hnv op h).1, hu]
  have h5 : ∀ x, (ApiState.init.run ops).p.BinaryInUnit x := by
    intro x v r hr hb
    have := bins_addVars is inf guess _ (fun op h => (hnv op h).1) ApiState.init (by
      intro r hr; simp [ApiState.init, Problem.empty] at hr) r (by
      rw [ho] at hr; exact List.mem_of_getElem? hr)
    rw [this] at hb; cases hb
  have holds : ∀ x, (∀ op ∈ ops, op.Holds x0 thr warm x) ↔ ∀ op ∈ cons, op.Holds x0 thr warm x := by
    intro x
    constructor
    · intro h op hm; exact h op (by rw [ho]; simp [hm])
    · intro h op hm
      rcases mem op hm with ⟨i, rfl⟩ | rfl | hm
      · trivial
      · trivial
      · exact h op hm
  have hmem : Op.setObj (TCtx.quadOf ts) (ofConst 0) ∈ ops := by rw [ho]; simp
  have hwn : ∀ t ∈ (TCtx.quadOf ts).quad, 0 ≤ t.1 := by
    intro p hp
    rw [(quadOf_quad _).1, List.mem_filter] at hp
    exact hw p hp.1
  have hpen : ∀ y, penalised ops (TCtx.quadOf ts) (ofConst 0) w warm x0 y = (ts.map fun t => t.1 * (t.2.getValue y) ^ 2).sum := by
    intro y
    unfold penalised
    have hz : (ops.map (Op.softTerm x0 y)).sum = 0 := by
      refine List.sum_eq_zero fun r hr => ?_
      obtain ⟨op, hm, rfl⟩ := List.mem_map.1 hr
      rcases mem op hm with ⟨i, rfl⟩ | rfl | hm
      · rfl
      · rfl
      · obtain ⟨⟨l, s, r, rfl⟩, _⟩ := hc op hm; rfl
    rw [hz, sumSq_quadOf, (quadOf_quad _).2, ofConst_value]; simp
  have hk : (TCtx.quadOf ts).lin.const + (ofConst (0 : ℝ)).const = 0 := by rw [(quadOf_quad _).2]; simp [ofConst]
  obtain ⟨f, hf, he⟩ := C07_standard_form _ h1 h2 h3 x0 thr w warm
  refine ⟨f, hf, fun x hx => ⟨(holds x).1 ((he x).2 ⟨x, fun _ _ => rfl, hx⟩).1, ?_⟩, fun x hx => ?_⟩
  · have := (C08_objective _ h1 h2 h3 _ _ hmem hwn x0 thr w hw0 warm f hf x hx).1
    rw [hpen, hk, sub_zero] at this; exact this
  · obtain ⟨x', a, b⟩ := (he x).1 ⟨(holds x).2 hx, h5 x⟩
    obtain ⟨_, x'', b'', a'', c''⟩ := C08_objective _ h1 h2 h3 _ _ hmem hwn x0 thr w hw0 warm f hf x' b
    rw [h4] at a a''
    have ag : ∀ v < is.length, x' v = x v := fun v hv => a v (List.mem_range.2 hv)
    refine ⟨x'', fun v hv => by rw [a'' v (List.mem_range.2 hv), ag v hv], b'', ?_⟩
    rw [c'', hpen, hk, sub_zero]
    congr 1
    refine List.map_congr_left fun t hm => ?_
    have : t.2.getValue x' = t.2.getValue x := by
      rw [getValue_eq, getValue_eq, tsum_agree _ fun u hu => ag _ (ht t hm u hu)]
    rw [this]

/-! ### specification of one posture problem -/

/-- What the posture step must satisfy: joint positions are the current ones plus the displacement, within their limits; a
non-penetration constraint is violated by at most its nonnegative slack. -/
structure PostureStep (c : PCtx) (x : Nat → ℝ) : Prop where
  slack : ∀ k < c.j.ncons, 0 ≤ x (c.cSlack k) ∧ (∑ d ∈ range (6 + c.st.nact), c.j.cmat k d * x (c.cQd d)) - c.j.cvec k ≤ x (c.cSlack k)
  integrate : ∀ d < c.st.nact, x (c.cQ d) = c.cur.pos.jnt d + c.st.kdt * x (c.cQd (6 + d))
  limits : ∀ d < c.st.nact, c.st.minJ d ≤ x (c.cQ d) ∧ x (c.cQ d) ≤ c.st.maxJ d

/-- The part of the cost that concerns the displacement: tracking of the center of mass and of the end-effectors,
regularisation, slacks, default posture. -/
noncomputable def moveCost (c : PCtx) (x : Nat → ℝ) : ℝ :=
  (∑ a ∈ range 3, (c.st.wCom a * ((∑ d ∈ range (6 + c.st.nact), c.j.com a d * x (c.cQd d)) - (c.des.com a - c.cur.com a) / c.st.kdt) ^ 2 +
    ∑ e ∈ range c.st.neff, (if c.des.act e then c.st.wEff a else c.st.wEffNa a) *
      ((∑ d ∈ range (6 + c.st.nact), c.j.eff e a d * x (c.cQd d)) - (c.des.eff e a - c.cur.eff e a) / c.st.kdt) ^ 2)) +
  (∑ d ∈ range (6 + c.st.nact), c.st.wReg * x (c.cQd d) ^ 2) + (∑ k ∈ range c.j.ncons, c.st.wSlack * x (c.cSlack k) ^ 2) +
  ∑ d ∈ range c.st.nact, c.st.wDef d * (x (c.cQ d) - c.st.defJnt d) ^ 2

/-- The part of the cost that concerns the momentum. -/
noncomputable def momCost (c : PCtx) (x : Nat → ℝ) : ℝ :=
  (∑ a ∈ range 3, (c.st.wL a * ((∑ d ∈ range (6 + c.st.nact), (c.j.cmm a d * x (c.cQdd d) + c.j.cmmd a d * x (c.cTqd d))) -
      (c.des.lmom a - c.cur.lmom a) / c.st.kdt) ^ 2 +
    c.st.wH a * ((∑ d ∈ range (6 + c.st.nact), (c.j.cmm (3 + a) d * x (c.cQdd d) + c.j.cmmd (3 + a) d * x (c.cTqd d))) -
      (c.des.amom a - c.cur.amom a) / c.st.kdt) ^ 2)) +
  ∑ d ∈ range (6 + c.st.nact), c.st.wReg * x (c.cQdd d) ^ 2

theorem comE_value (c : PCtx) (x : Nat → ℝ) (a : Nat) : (c.comE a).getValue x =
    (∑ d ∈ range (6 + c.st.nact), c.j.com a d * x (c.cQd d)) - (c.des.com a - c.cur.com a) / c.st.kdt := by
  rw [PCtx.comE, foldl_value, ofConst_value, PCtx.dCom, Setting.next]; ring

theorem effE_value (c : PCtx) (x : Nat → ℝ) (e a : Nat) : (c.effE e a).getValue x =
    (∑ d ∈ range (6 + c.st.nact), c.j.eff e a d * x (c.cQd d)) - (c.des.eff e a - c.cur.eff e a) / c.st.kdt := by
  rw [PCtx.effE, foldl_value, ofConst_value, PCtx.dEff, Setting.next]; ring

theorem momE_value (c : PCtx) (x : Nat → ℝ) (k : Nat) (des : ℝ) (a : Nat) : (c.momE k des a).getValue x =
    (∑ d ∈ range (6 + c.st.nact), (c.j.cmm (k + a) d * x (c.cQdd d) + c.j.cmmd (k + a) d * x (c.cTqd d))) - des := by
  rw [PCtx.momE, foldl_value', ofConst_value, Setting.next, add_comm, ← sub_eq_add_neg]
  congr 1
  refine sum_congr rfl fun d _ => ?_
  rw [add, addAssign_value, ofVar_value, ofVar_value]

theorem penE_value (c : PCtx) (x : Nat → ℝ) (k : Nat) : (c.penE k).getValue x =
    (∑ d ∈ range (6 + c.st.nact), c.j.cmat k d * x (c.cQd d)) - c.j.cvec k := by
  rw [PCtx.penE, foldl_value, ofConst_value, Setting.next]; ring

theorem intE_value (c : PCtx) (x : Nat → ℝ) (d : Nat) : (c.intE d).getValue x =
    -x (c.cQ d) + c.cur.pos.jnt d + c.st.kdt * x (c.cQd (6 + d)) := by
  rw [PCtx.intE, add, addAssign_value, addC, addAssign_value, ofVar_value, ofConst_value, ofVar_value]; ring

/-- The constraints by kind. -/
theorem mem_cons (c : PCtx) (op : Op) : op ∈ c.cons ↔
    (∃ k < c.j.ncons, op = .addLin (ofVar (c.cSlack k)) ">" (ofConst 0) ∨ op = .addLin (c.penE k) "<" (ofVar (c.cSlack k))) ∨
    (∃ d < c.st.nact, op = TCtx.eq0 (c.intE d) ∨ op = .addLin (ofVar (c.cQ d)) ">" (ofConst (c.st.minJ d)) ∨
      op = .addLin (ofVar (c.cQ d)) "<" (ofConst (c.st.maxJ d))) := by
  simp only [PCtx.cons, List.mem_append, List.mem_flatMap, List.mem_range, List.mem_cons, List.not_mem_nil, or_false]

theorem cons_iff (c : PCtx) (x x0 : Nat → ℝ) (thr : ℝ) (w : Bool) : (∀ op ∈ c.cons, op.Holds x0 thr w x) ↔ PostureStep c x := by
  have hpen : ∀ k, (Op.addLin (c.penE k) "<" (ofVar (c.cSlack k))).Holds x0 thr w x ↔
      (∑ d ∈ range (6 + c.st.nact), c.j.cmat k d * x (c.cQd d)) - c.j.cvec k ≤ x (c.cSlack k) := by
    intro k; simp [Op.Holds, penE_value]
  constructor
  · intro h
    refine ⟨fun k hk => ⟨?_, ?_⟩, fun d hd => ?_, fun d hd => ⟨?_, ?_⟩⟩
    · exact (ge_holds _ _ x0 thr w x).1 (h _ ((mem_cons c _).2 (Or.inl ⟨k, hk, Or.inl rfl⟩)))
    · exact (hpen k).1 (h _ ((mem_cons c _).2 (Or.inl ⟨k, hk, Or.inr rfl⟩)))
    · have := (eq0_holds _ x0 thr w x).1 (h _ ((mem_cons c _).2 (Or.inr ⟨d, hd, Or.inl rfl⟩)))
      rw [intE_value] at this; linarith
    · exact (ge_holds _ _ x0 thr w x).1 (h _ ((mem_cons c _).2 (Or.inr ⟨d, hd, Or.inr (Or.inl rfl)⟩)))
    · exact (le_holds _ _ x0 thr w x).1 (h _ ((mem_cons c _).2 (Or.inr ⟨d, hd, Or.inr (Or.inr rfl)⟩)))
  · intro p op ho
    rcases (mem_cons c op).1 ho with ⟨k, hk, rfl | rfl⟩ | ⟨d, hd, rfl | rfl | rfl⟩
    · rw [ge_holds]; exact (p.slack k hk).1
    · rw [hpen]; exact (p.slack k hk).2
    · rw [eq0_holds, intE_value, p.integrate d hd]; ring
    · rw [ge_holds]; exact (p.limits d hd).1
    · rw [le_holds]; exact (p.limits d hd).2

theorem objTerms_value (c : PCtx) (x : Nat → ℝ) :
    (c.objTerms.map fun t => t.1 * (t.2.getValue x) ^ 2).sum = moveCost c x + momCost c x := by
  rw [PCtx.objTerms, List.map_append, List.map_append, List.map_append, List.sum_append, List.sum_append, List.sum_append, sum_flatMap',
    sum_flatMap', List.map_map, List.map_map, list_range_sum, list_range_sum, list_range_sum, list_range_sum, moveCost, momCost]
  have h1 : ∑ a ∈ range 3, (List.map (fun t : ℝ × LinExpr ℝ => t.1 * (t.2.getValue x) ^ 2)
      ([(c.st.wCom a, c.comE a), (c.st.wL a, c.momE 0 (c.dL a) a), (c.st.wH a, c.momE 3 (c.dH a) a)] ++
        (List.range c.st.neff).map fun e => (if c.des.act e then c.st.wEff a else c.st.wEffNa a, c.effE e a))).sum =
    (∑ a ∈ range 3, (c.st.wCom a * ((∑ d ∈ range (6 + c.st.nact), c.j.com a d * x (c.cQd d)) - (c.des.com a - c.cur.com a) / c.st.kdt) ^ 2 +
      ∑ e ∈ range c.st.neff, (if c.des.act e then c.st.wEff a else c.st.wEffNa a) *
        ((∑ d ∈ range (6 + c.st.nact), c.j.eff e a d * x (c.cQd d)) - (c.des.eff e a - c.cur.eff e a) / c.st.kdt) ^ 2)) +
    ∑ a ∈ range 3, (c.st.wL a * ((∑ d ∈ range (6 + c.st.nact), (c.j.cmm a d * x (c.cQdd d) + c.j.cmmd a d * x (c.cTqd d))) -
        (c.des.lmom a - c.cur.lmom a) / c.st.kdt) ^ 2 +
      c.st.wH a * ((∑ d ∈ range (6 + c.st.nact), (c.j.cmm (3 + a) d * x (c.cQdd d) + c.j.cmmd (3 + a) d * x (c.cTqd d))) -
        (c.des.amom a - c.cur.amom a) / c.st.kdt) ^ 2) := by
    rw [← sum_add_distrib]
    refine sum_congr rfl fun a _ => ?_
    rw [List.map_append, List.sum_append, List.map_map, list_range_sum]
    simp only [List.map_cons, List.map_nil, List.sum_cons, List.sum_nil, comE_value, momE_value, Function.comp, effE_value, Nat.zero_add,
      PCtx.dL, PCtx.dH]
    ring
  have h2 : ∑ d ∈ range c.st.next, (List.map (fun t : ℝ × LinExpr ℝ => t.1 * (t.2.getValue x) ^ 2)
      [(c.st.wReg, ofVar (c.cQd d)), (c.st.wReg, ofVar (c.cQdd d))]).sum =
      (∑ d ∈ range (6 + c.st.nact), c.st.wReg * x (c.cQd d) ^ 2) + ∑ d ∈ range (6 + c.st.nact), c.st.wReg * x (c.cQdd d) ^ 2 := by
    rw [← sum_add_distrib, Setting.next]
    refine sum_congr rfl fun d _ => ?_
    simp only [List.map_cons, List.map_nil, List.sum_cons, List.sum_nil, ofVar_value]; ring
  have h3 : ∑ k ∈ range c.j.ncons, ((fun t : ℝ × LinExpr ℝ => t.1 * (t.2.getValue x) ^ 2) ∘ fun k => (c.st.wSlack, ofVar (c.cSlack k))) k =
      ∑ k ∈ range c.j.ncons, c.st.wSlack * x (c.cSlack k) ^ 2 := by
    refine sum_congr rfl fun k _ => ?_
    simp only [Function.comp, ofVar_value]; ring
  have h4 : ∑ d ∈ range c.st.nact, ((fun t : ℝ × LinExpr ℝ => t.1 * (t.2.getValue x) ^ 2) ∘
      fun d => (c.st.wDef d, (ofVar (c.cQ d)).sub (ofConst (c.st.defJnt d)))) d =
      ∑ d ∈ range c.st.nact, c.st.wDef d * (x (c.cQ d) - c.st.defJnt d) ^ 2 := by
    refine sum_congr rfl fun d _ => ?_
    simp only [Function.comp, sub_value, ofVar_value, ofConst_value]; ring
  rw [h1, h2, h3, h4]; ring

/-- The columns are below the number of variables, and the blocks are disjoint. -/
theorem pcols_lt (c : PCtx) : (∀ k < c.j.ncons, c.cSlack k < ((postOrder c.st c.j.ncons).flatMap ids).length) ∧
    (∀ d < c.st.nact, c.cQ d < ((postOrder c.st c.j.ncons).flatMap ids).length) ∧
    (∀ d < 6 + c.st.nact, c.cQd d < ((postOrder c.st c.j.ncons).flatMap ids).length ∧
      c.cQdd d < ((postOrder c.st c.j.ncons).flatMap ids).length ∧ c.cTqd d < ((postOrder c.st c.j.ncons).flatMap ids).length) :=
  ⟨fun k hk => pcol_lt c 2 k (by omega) hk, fun d hd => pcol_lt c 3 d (by omega) hd,
    fun d hd => ⟨pcol_lt c 4 d (by omega) hd, pcol_lt c 5 d (by omega) hd, pcol_lt c 6 d (by omega) hd⟩⟩

theorem post_len (c : PCtx) : ((postOrder c.st c.j.ncons).flatMap ids).length = totalSize (postDims c.st c.j.ncons) := by
  rw [(postOrder_ids_perm c.st c.j.ncons).length_eq, postLayout, layout_ids]; simp

/-- The constraints are linear, over declared variables, and mention at least one variable. -/
theorem post_cons_ok (c : PCtx) (op : Op) (ho : op ∈ c.cons) : (∃ l s r, op = .addLin l s r) ∧
    op.Ok (List.range ((postOrder c.st c.j.ncons).flatMap ids).length) ∧ op.Regular := by
  obtain ⟨k1, k2, k3⟩ := pcols_lt c
  have one : ∀ v, ind v v = 1 := fun v => if_pos rfl
  have z : ∀ i j r r', i < 7 → j < 7 → r < postRows c.st c.j.ncons i → r' < postRows c.st c.j.ncons j → i ≠ j →
      ind (c.pcol (blk (postLayout c.st c.j.ncons) i) r) (c.pcol (blk (postLayout c.st c.j.ncons) j) r') = 0 := by
    intro i j r r' hi hj hr hr' hij
    rw [ind, if_neg]; intro h; exact hij (pcol_inj c j i r' r hj hi hr' hr h).1.symm
  rcases (mem_cons c op).1 ho with ⟨k, hk, rfl | rfl⟩ | ⟨d, hd, rfl | rfl | rfl⟩
  · exact ⟨⟨_, _, _, rfl⟩, ⟨over_range _ _ (over_ofVar _ _ _ (k1 k hk)), over_range _ _ (over_ofConst _ _), Or.inr (Or.inr rfl)⟩, regular_bound _ _ _⟩
  · refine ⟨⟨_, _, _, rfl⟩, ⟨over_range _ _ (over_foldl _ _ _ _ (over_ofConst _ _) fun d hd => over_ofVar _ _ _ (k3 d hd).1),
      over_range _ _ (over_ofVar _ _ _ (k1 k hk)), Or.inr (Or.inl rfl)⟩, ?_⟩
    have hz : ∀ d ∈ range (6 + c.st.nact), c.j.cmat k d * ind (c.cSlack k) (c.cQd d) = 0 := fun d hd => by
      rw [show ind (c.cSlack k) (c.cQd d) = 0 from z 2 4 k d (by omega) (by omega) hk (mem_range.1 hd) (by omega), mul_zero]
    refine ⟨terms_ne_nil _ (ind (c.cSlack k)) (fun _ => 0) ?_, terms_ne_nil _ (ind (c.cSlack k)) (fun _ => 0) ?_⟩ <;>
    · rw [sub_value, sub_value, penE_value, penE_value, ofVar_value, ofVar_value, sum_eq_zero hz, one]
      simp
  · refine ⟨⟨_, _, _, rfl⟩, eq0_ok _ _ (over_addAssign _ _ _ (over_addAssign _ _ _ (over_ofVar _ _ _ (k2 d hd)) (over_ofConst _ _))
      (over_ofVar _ _ _ (k3 (6 + d) (by omega)).1)), regular_eq0 _ (c.cQ d) ?_⟩
    rw [intE_value, intE_value, one, show ind (c.cQ d) (c.cQd (6 + d)) = 0 from
      z 3 4 d (6 + d) (by omega) (by omega) hd (show 6 + d < 6 + c.st.nact by omega) (by omega)]
    intro h; linarith
  · exact ⟨⟨_, _, _, rfl⟩, ⟨over_range _ _ (over_ofVar _ _ _ (k2 d hd)), over_range _ _ (over_ofConst _ _), Or.inr (Or.inr rfl)⟩, regular_bound _ _ _⟩
  · exact ⟨⟨_, _, _, rfl⟩, ⟨over_range _ _ (over_ofVar _ _ _ (k2 d hd)), over_range _ _ (over_ofConst _ _), Or.inr (Or.inl rfl)⟩, regular_bound _ _ _⟩

theorem post_obj_over (c : PCtx) (p : ℝ × LinExpr ℝ) (hp : p ∈ c.objTerms) : OverN ((postOrder c.st c.j.ncons).flatMap ids).length p.2 := by
  obtain ⟨k1, k2, k3⟩ := pcols_lt c
  simp only [PCtx.objTerms, List.mem_append, List.mem_flatMap, List.mem_range, List.mem_map, List.mem_cons, List.not_mem_nil, or_false] at hp
  rcases hp with ((⟨a, ha, (h | h | h) | ⟨e, he, h⟩⟩ | ⟨d, hd, h | h⟩) | ⟨k, hk, h⟩) | ⟨d, hd, h⟩ <;> subst h
  · exact over_foldl _ _ _ _ (over_ofConst _ _) fun d hd => over_ofVar _ _ _ (k3 d hd).1
  · exact over_foldl _ _ _ _ (over_ofConst _ _) fun d hd => over_addAssign _ _ _ (over_ofVar _ _ _ (k3 d hd).2.1) (over_ofVar _ _ _ (k3 d hd).2.2)
  · exact over_foldl _ _ _ _ (over_ofConst _ _) fun d hd => over_addAssign _ _ _ (over_ofVar _ _ _ (k3 d hd).2.1) (over_ofVar _ _ _ (k3 d hd).2.2)
  · exact over_foldl _ _ _ _ (over_ofConst _ _) fun d hd => over_ofVar _ _ _ (k3 d hd).1
  · exact over_ofVar _ _ _ (k3 d hd).1
  · exact over_ofVar _ _ _ (k3 d hd).2.1
  · exact over_ofVar _ _ _ (k1 k hk)
  · exact over_sub _ _ _ (over_ofVar _ _ _ (k2 d hd)) (over_ofConst _ _)

theorem post_weights (c : PCtx) (hw : (∀ i, 0 ≤ c.st.wCom i ∧ 0 ≤ c.st.wL i ∧ 0 ≤ c.st.wH i ∧ 0 ≤ c.st.wEff i ∧ 0 ≤ c.st.wEffNa i ∧ 0 ≤ c.st.wDef i) ∧
    0 ≤ c.st.wReg ∧ 0 ≤ c.st.wSlack) (p : ℝ × LinExpr ℝ) (hp : p ∈ c.objTerms) : 0 ≤ p.1 := by
  simp only [PCtx.objTerms, List.mem_append, List.mem_flatMap, List.mem_range, List.mem_map, List.mem_cons, List.not_mem_nil, or_false] at hp
  rcases hp with ((⟨a, ha, (h | h | h) | ⟨e, he, h⟩⟩ | ⟨d, hd, h | h⟩) | ⟨k, hk, h⟩) | ⟨d, hd, h⟩ <;> subst h <;> dsimp only
  · exact (hw.1 a).1
  · exact (hw.1 a).2.1
  · exact (hw.1 a).2.2.1
  · split
    · exact (hw.1 a).2.2.2.1
    · exact (hw.1 a).2.2.2.2.1
  · exact hw.2.1
  · exact hw.2.1
  · exact hw.2.2
  · exact (hw.1 d).2.2.2.2.2

/-- C113 (problem): the problem handed to the solver for one posture step exists; its feasible points are, on the declared
variables, exactly the steps that satisfy the joint limits and the non-penetration constraints up to slack, and its cost is
the tracking cost. -/
theorem C113_posture_problem (c : PCtx) (hinf : 0 ≤ c.st.inf) (guess : Int → ℝ)
    (hw : (∀ i, 0 ≤ c.st.wCom i ∧ 0 ≤ c.st.wL i ∧ 0 ≤ c.st.wH i ∧ 0 ≤ c.st.wEff i ∧ 0 ≤ c.st.wEffNa i ∧ 0 ≤ c.st.wDef i) ∧
      0 ≤ c.st.wReg ∧ 0 ≤ c.st.wSlack)
    (x0 : Nat → ℝ) (thr w : ℝ) (hw0 : 0 ≤ w) (warm : Bool) :
    ∃ f, (ApiState.init.run (c.ops guess)).p.build x0 thr w warm = some f ∧
      (∀ x, f.Feasible x → PostureStep c x ∧ moveCost c x + momCost c x ≤ f.cost x) ∧
      ∀ x, PostureStep c x → ∃ x', (∀ v < totalSize (postDims c.st c.j.ncons), x' v = x v) ∧ f.Feasible x' ∧
        f.cost x' = moveCost c x + momCost c x := by
  obtain ⟨f, hf, h1, h2⟩ := qp_standard ((postOrder c.st c.j.ncons).flatMap ids) c.st.inf hinf guess c.objTerms c.cons (post_cons_ok c)
    (post_obj_over c) (post_weights c hw) x0 thr w hw0 warm
  refine ⟨f, hf, fun x hx => ?_, fun x hx => ?_⟩
  · obtain ⟨a, b⟩ := h1 x hx
    exact ⟨(cons_iff c x x0 thr warm).1 a, by rw [← objTerms_value]; exact b⟩
  · obtain ⟨x', a, b, e⟩ := h2 x ((cons_iff c x x0 thr warm).2 hx)
    exact ⟨x', fun v hv => a v (by rw [post_len]; exact hv), b, by rw [e, objTerms_value]⟩

end Kin
end Verif
