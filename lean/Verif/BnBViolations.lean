import Verif.BnBProps

/-! C24, C26: witnesses of the two violations, and non-vacuity of the hypotheses of C24, C25, C26. -/
namespace Verif
namespace BnB

/-! ### evaluation lemmas -/

theorem upd_integral {nb : Nat} {V : Type} {O : Oracle nb V} {c : Setting} {s : State nb V} {id : Nat} {cd : Code} {v : V} (hl : legal (s.mat id))
    (hs : O.solve s.calls (s.mat id) = (cd, v)) (ha : accepted cd = true) (hi : ∀ i, |O.bin v i - cround (O.bin v i)| < c.intTol) :
    updateNodeBounds O c s id = .ok { s with
      nodes := Function.update s.nodes id ⟨.nonBranchable, (s.nodes id).pid, (O.obj v : EReal), (O.obj v : EReal)⟩
      opt := if (O.obj v : EReal) < s.ub then v else s.opt
      ub := if (O.obj v : EReal) < s.ub then (O.obj v : EReal) else s.ub
      calls := s.calls + 1
      log := (s.iteration, v) :: s.log } := by
  unfold updateNodeBounds
  rw [if_neg (not_not.mpr hl)]
  simp only [hs, ha, if_true]
  rw [if_pos hi]

theorem upd_viable {nb : Nat} {V : Type} {O : Oracle nb V} {c : Setting} {s : State nb V} {id : Nat} {cd cd' : Code} {v w : V} {p : Option (Fin nb)}
    (vec : Fin nb → Int) (hl : legal (s.mat id))
    (hs : O.solve s.calls (s.mat id) = (cd, v)) (ha : accepted cd = true) (hi : ∃ i, ¬ |O.bin v i - cround (O.bin v i)| < c.intTol)
    (hv : (fun i => cround (O.bin v i)) = vec) (hlv : legal vec) (hq : O.solve (s.calls + 1) vec = (cd', w)) (ho : isOptimal cd' = true)
    (hp : (selectVar (O.bin v) (List.finRange nb) ((s.nodes id).pid, 1)).1 = p) :
    updateNodeBounds O c s id = .ok { s with
      nodes := Function.update s.nodes id ⟨.branchable, p, (O.obj v : EReal), ⊤⟩
      opt := if (O.obj w : EReal) < s.ub then w else s.opt
      ub := if (O.obj w : EReal) < s.ub then (O.obj w : EReal) else s.ub
      calls := s.calls + 2
      log := (s.iteration, w) :: s.log } := by
  unfold updateNodeBounds
  rw [if_neg (not_not.mpr hl)]
  simp only [hs, ha, if_true]
  rw [if_neg (by push Not; obtain ⟨i, h⟩ := hi; exact ⟨i, not_lt.mp h⟩)]
  rw [if_neg (not_not.mpr (by simp only [hs, hv]; exact hlv))]
  simp only [hv]
  simp only [hq, ho, if_true, hp]

theorem upd_unviable {nb : Nat} {V : Type} {O : Oracle nb V} {c : Setting} {s : State nb V} {id : Nat} {cd cd' : Code} {v w : V} {p : Option (Fin nb)}
    (vec : Fin nb → Int) (hl : legal (s.mat id))
    (hs : O.solve s.calls (s.mat id) = (cd, v)) (ha : accepted cd = true) (hi : ∃ i, ¬ |O.bin v i - cround (O.bin v i)| < c.intTol)
    (hv : (fun i => cround (O.bin v i)) = vec) (hlv : legal vec) (hq : O.solve (s.calls + 1) vec = (cd', w)) (ho : isOptimal cd' = false)
    (hp : (selectVar (O.bin v) (List.finRange nb) ((s.nodes id).pid, 1)).1 = p) (ht : (s.nodes id).ub = ⊤) :
    updateNodeBounds O c s id = .ok { s with
      nodes := Function.update s.nodes id ⟨.branchable, p, (O.obj v : EReal), ⊤⟩
      calls := s.calls + 2 } := by
  unfold updateNodeBounds
  rw [if_neg (not_not.mpr hl)]
  simp only [hs, ha, if_true]
  rw [if_neg (by push Not; obtain ⟨i, h⟩ := hi; exact ⟨i, not_lt.mp h⟩)]
  rw [if_neg (not_not.mpr (by simp only [hs, hv]; exact hlv))]
  simp only [hv]
  simp only [hq, ho, hp, ht]
  simp

theorem create_ok {nb : Nat} {V : Type} {s : State nb V} {id : Nat} {p : Fin nb} (h : (s.nodes id).pid = some p) (hne : id ≠ s.iteration) :
    createBranches s id = .ok { s with
      nodes := Function.update (Function.update s.nodes s.iteration ⟨.notSolved, (s.nodes s.iteration).pid, (s.nodes id).lb, (s.nodes id).ub⟩) id
        ⟨.notSolved, some p, (s.nodes id).lb, (s.nodes id).ub⟩
      mat := Function.update (Function.update s.mat s.iteration (Function.update (s.mat id) p 1)) id (Function.update (s.mat id) p 0) } := by
  unfold createBranches
  simp only [h, Function.update_of_ne hne]

theorem cr0 : cround (0:ℝ) = 0 := by unfold cround; rw [if_pos le_rfl, Int.floor_eq_iff]; constructor <;> norm_num
theorem cr1 : cround (1:ℝ) = 1 := by unfold cround; rw [if_pos (by norm_num), Int.floor_eq_iff]; constructor <;> norm_num
theorem crHalf : cround (1/2:ℝ) = 1 := by unfold cround; rw [if_pos (by norm_num), Int.floor_eq_iff]; constructor <;> norm_num
theorem cr04 : cround (2/5:ℝ) = 0 := by unfold cround; rw [if_pos (by norm_num), Int.floor_eq_iff]; constructor <;> norm_num
theorem cr06 : cround (3/5:ℝ) = 1 := by unfold cround; rw [if_pos (by norm_num), Int.floor_eq_iff]; constructor <;> norm_num
theorem cr09 : cround (9/10:ℝ) = 1 := by unfold cround; rw [if_pos (by norm_num), Int.floor_eq_iff]; constructor <;> norm_num

/-! ### C24 violated -/

/-- A solver that reports PrimalInf for the node with the variable fixed to 0, with a residual fractional value. -/
noncomputable def badO : Oracle 1 (ℝ × ℝ) where
  solve _ d := if d 0 = -1 then (.optimal, (1/2, 0)) else if d 0 = 1 then (.optimal, (1, 10)) else (.primalInf, (2/5, 1))
  bin v _ := v.1
  obj v := v.2

/-- Settings of the example. -/
noncomputable def badC : Setting := ⟨10, 1/10, 0, 0⟩

/-- C24 fails in general: a leaf whose relaxation comes back with an accepted exit code and a fractional value of the variable it has already
decided is branched again on that variable, after which two leaves contain the same assignments. -/
theorem C24_violated : ¬ ∀ (nb : Nat) (O : Oracle nb (ℝ × ℝ)) (c : Setting), 0 ≤ c.absGap → ∀ nodes0 opt0 s, Reach O c nodes0 opt0 s →
    ∀ a i j, i ≤ s.iteration → j ≤ s.iteration → Box (s.mat i) a → Box (s.mat j) a → i = j := by
  intro hall
  let nodes0 : Nat → Node 1 := fun _ => ⟨.notSolved, none, ⊥, ⊤⟩
  have hroot : root badO badC nodes0 (0, 0) = .ok
      ⟨Function.update (Function.update nodes0 0 ⟨.notSolved, none, ⊥, ⊤⟩) 0 ⟨.branchable, some 0, ((0:ℝ):EReal), ⊤⟩, fun _ _ => -1, 0, some 0, ⊤, ((0:ℝ):EReal), (1, 10), 2, [(0, (1, 10))]⟩ := by
    unfold root
    rw [upd_viable (cd := .optimal) (v := (1/2, 0)) (cd' := .optimal) (w := (1, 10)) (p := some 0) (fun _ => 1) (fun v => .inr (.inr rfl))]
    · simp [bind, Except.bind, badO]
    · simp [badO]
    · rfl
    · refine ⟨0, ?_⟩; simp only [badO, crHalf, badC]; norm_num [abs_of_nonneg, abs_of_neg]
    · simp only [badO, crHalf]
    · exact fun v => .inl rfl
    · simp [badO]
    · rfl
    · simp [selectVar, List.finRange, badO]; norm_num
  have R0 := Reach.root hroot
  generalize hs0 : State.mk _ _ _ _ _ _ _ _ _ = s0 at R0
  obtain ⟨n0, m0, i0, k0, u0, l0, c0⟩ : s0.nodes 0 = ⟨.branchable, some 0, ((0:ℝ):EReal), ⊤⟩ ∧ s0.mat 0 = (fun _ => -1) ∧ s0.iteration = 0 ∧
      s0.nodeId = some 0 ∧ s0.ub = ⊤ ∧ s0.lb = ((0:ℝ):EReal) ∧ s0.calls = 2 := by
    subst hs0; simp
  have ck0 : check badC s0 := by
    refine ⟨?_, ?_, by rw [k0]; simp, by rw [i0]; simp [badC]⟩
    · unfold absExceeds; rw [u0, l0]; simp [badC]
    · unfold relExceeds; rw [u0, l0]; simp
  -- first iteration
  obtain ⟨s1, h1, n1, n1', m1, m1', i1, u1, c1⟩ : ∃ s1, createBranches { s0 with iteration := s0.iteration + 1 } 0 = .ok s1 ∧
      s1.nodes 0 = ⟨.notSolved, some 0, ((0:ℝ):EReal), ⊤⟩ ∧ (s1.nodes 1).ub = ⊤ ∧ s1.mat 0 = (fun _ => 0) ∧ s1.mat 1 = (fun _ => 1) ∧ s1.iteration = 1 ∧
      s1.ub = ⊤ ∧ s1.calls = 2 := by
    refine ⟨_, create_ok (p := 0) (by simp [n0]) (by simp), ?_, ?_, ?_, ?_, ?_, ?_, ?_⟩
    · simp [n0]
    · simp [n0, i0]
    · funext i; simp [m0, Subsingleton.elim i 0]
    · funext i; simp [i0, m0, Subsingleton.elim i 0]
    · simp [i0]
    · simp [u0]
    · simp [c0]
  obtain ⟨s2, h2, n2, n2', m2, i2, u2, c2⟩ : ∃ s2, updateNodeBounds badO badC s1 0 = .ok s2 ∧ s2.nodes 0 = ⟨.branchable, some 0, ((1:ℝ):EReal), ⊤⟩ ∧
      (s2.nodes 1).ub = ⊤ ∧ s2.mat = s1.mat ∧ s2.iteration = 1 ∧ s2.ub = ⊤ ∧ s2.calls = 4 := by
    refine ⟨_, upd_unviable (cd := .primalInf) (v := (2/5, 1)) (cd' := .primalInf) (w := (2/5, 1)) (p := some 0) (fun _ => 0) ?_ ?_ rfl ?_ ?_ ?_ ?_ rfl ?_ ?_,
      ?_, ?_, ?_, ?_, ?_, ?_⟩
    · rw [m1]; exact fun v => .inr (.inl rfl)
    · rw [m1]; simp [badO]
    · refine ⟨0, ?_⟩; simp only [badO, cr04, badC]; norm_num [abs_of_nonneg, abs_of_neg]
    · simp only [badO, cr04]
    · exact fun v => .inr (.inl rfl)
    · simp [badO]
    · simp [selectVar, List.finRange, badO]; norm_num [abs_lt]
    · rw [n1]
    · simp [badO]
    · simp [n1']
    · rfl
    · simp [i1]
    · simp [u1]
    · simp [c1]
  obtain ⟨s3, h3, n3, n3', m3, i3, u3⟩ : ∃ s3, updateNodeBounds badO badC s2 s2.iteration = .ok s3 ∧ s3.nodes 0 = ⟨.branchable, some 0, ((1:ℝ):EReal), ⊤⟩ ∧
      (s3.nodes 1).lb = ((10:ℝ):EReal) ∧ s3.mat = s1.mat ∧ s3.iteration = 1 ∧ s3.ub = ((10:ℝ):EReal) := by
    refine ⟨_, upd_integral (cd := .optimal) (v := (1, 10)) ?_ ?_ rfl ?_, ?_, ?_, ?_, ?_, ?_⟩
    · rw [m2, i2, m1']; exact fun v => .inl rfl
    · rw [m2, i2, m1']; simp [badO]
    · intro i; simp only [badO, cr1, badC]; norm_num
    · simp [i2, n2]
    · simp [i2, badO]
    · simp [m2]
    · simp [i2]
    · simp [u2, badO]
  have hb1 : body badO badC s0 0 = .ok { s3 with lb := lowerBound s3.nodes (s3.iteration + 1), nodeId := (selectNode s3.nodes (s3.iteration + 1)).1 } := by
    simp only [body, bind, Except.bind, h1, h2, h3]
  have R1 := Reach.step R0 ck0 k0 hb1
  generalize hs4 : State.mk _ _ _ _ _ _ _ _ _ = s4 at R1
  obtain ⟨n4, m4, m4', i4, k4, u4, l4⟩ : s4.nodes 0 = ⟨.branchable, some 0, ((1:ℝ):EReal), ⊤⟩ ∧ s4.mat 0 = (fun _ => 0) ∧ s4.mat 1 = (fun _ => 1) ∧
      s4.iteration = 1 ∧ s4.nodeId = some 0 ∧ s4.ub = ((10:ℝ):EReal) ∧ s4.lb = ((1:ℝ):EReal) := by
    have le : ((1:ℝ):EReal) ≤ ((10:ℝ):EReal) := by exact_mod_cast (by norm_num : (1:ℝ) ≤ 10)
    subst hs4
    refine ⟨n3, by rw [← m1]; simp [m3], by rw [← m1']; simp [m3], i3, ?_, u3, ?_⟩
    · have hlt : ((1:ℝ):EReal) < ⊤ := EReal.coe_lt_top 1
      simp only [i3, selectNode, n3, n3', true_and, if_pos hlt]
      rw [if_neg (fun h => absurd h.2 (not_lt.mpr le))]
    · simp only [i3, lowerBound, n3, n3']
      rw [min_eq_right le_top, min_eq_left le]
  have ck1 : check badC s4 := by
    refine ⟨?_, ?_, by rw [k4]; simp, by rw [i4]; simp [badC]⟩
    · unfold absExceeds; rw [u4, l4, ← EReal.coe_sub]
      exact_mod_cast (by norm_num [badC] : badC.absGap < 10 - 1)
    · unfold relExceeds
      rw [u4, l4, if_neg (EReal.coe_ne_top _), if_neg (EReal.coe_ne_top _), if_neg (by norm_num)]
      simp only [EReal.toReal_coe, badC]
      norm_num [abs_of_pos]
  -- second iteration
  obtain ⟨s5, h5, n5, m5, m5', m5'', i5⟩ : ∃ s5, createBranches { s4 with iteration := s4.iteration + 1 } 0 = .ok s5 ∧
      (s5.nodes 0).ub = ⊤ ∧ s5.mat 0 = (fun _ => 0) ∧ s5.mat 1 = (fun _ => 1) ∧ s5.mat 2 = (fun _ => 1) ∧ s5.iteration = 2 := by
    refine ⟨_, create_ok (p := 0) (by simp [n4]) (by simp), ?_, ?_, ?_, ?_, ?_⟩
    · simp [n4]
    · funext i; simp [m4, Subsingleton.elim i 0]
    · funext i; simp [i4, m4', Subsingleton.elim i 0]
    · funext i; simp [i4, m4, Subsingleton.elim i 0]
    · simp [i4]
  obtain ⟨s6, h6, m6, i6⟩ : ∃ s6, updateNodeBounds badO badC s5 0 = .ok s6 ∧ s6.mat = s5.mat ∧ s6.iteration = 2 := by
    refine ⟨_, upd_unviable (cd := .primalInf) (v := (2/5, 1)) (cd' := .primalInf) (w := (2/5, 1)) (fun _ => 0) ?_ ?_ rfl ?_ ?_ ?_ ?_ rfl rfl ?_, ?_, ?_⟩
    · rw [m5]; exact fun v => .inr (.inl rfl)
    · rw [m5]; simp [badO]
    · refine ⟨0, ?_⟩; simp only [badO, cr04, badC]; norm_num [abs_of_nonneg, abs_of_neg]
    · simp only [badO, cr04]
    · exact fun v => .inr (.inl rfl)
    · simp [badO]
    · exact n5
    · rfl
    · exact i5
  obtain ⟨s7, h7, m7, i7⟩ : ∃ s7, updateNodeBounds badO badC s6 s6.iteration = .ok s7 ∧ s7.mat = s5.mat ∧ s7.iteration = 2 := by
    refine ⟨_, upd_integral (cd := .optimal) (v := (1, 10)) ?_ ?_ rfl ?_, ?_, ?_⟩
    · rw [m6, i6, m5'']; exact fun v => .inl rfl
    · rw [m6, i6, m5'']; simp [badO]
    · intro i; simp only [badO, cr1, badC]; norm_num
    · simp [m6]
    · simp [i6]
  have hb2 : body badO badC s4 0 = .ok { s7 with lb := lowerBound s7.nodes (s7.iteration + 1), nodeId := (selectNode s7.nodes (s7.iteration + 1)).1 } := by
    simp only [body, bind, Except.bind, h5, h6, h7]
  have := hall 1 badO badC le_rfl nodes0 (0, 0) _ (Reach.step R1 ck1 k4 hb2) (fun _ => true) 1 2 (by simp [i7]) (by simp [i7])
    (by simp only [m7, m5']; exact fun v => .inr rfl) (by simp only [m7, m5'']; exact fun v => .inr rfl)
  omega

/-! ### C26 violated -/

/-- Decisions of two binary variables. -/
def dec (a b : Int) : Fin 2 → Int := fun i => if i = 0 then a else b

/-- Value of the second variable of `forgetO`. -/
noncomputable def fx (y : ℝ) (d : Int) : ℝ := if d = -1 then y else if d = 1 then 1 else 0

/-- Relaxation values 0 at the root, 5 if the first variable is 0; rounding the root gives a solution of value 1; vectors are (x₁, x₂, objective). -/
noncomputable def forgetO : Oracle 2 (ℝ × ℝ × ℝ) where
  solve _ d := if d 0 = -1 then (.optimal, (3/5, fx (9/10) (d 1), 0)) else if d 0 = 0 then (.optimal, (0, fx 0 (d 1), 5))
    else if d 1 = 0 then (.primalInf, (1, 0, 7)) else (.optimal, (1, fx (2/5) (d 1), 1))
  bin v i := if i = 0 then v.1 else v.2.1
  obj v := v.2.2

/-- Settings of the example. -/
noncomputable def forgetC : Setting := ⟨2, 1/10, 0, 0⟩

/-- Values of the assignments: infeasible for (1,0). -/
noncomputable def forgetVal (a : Fin 2 → Bool) : EReal := if a 0 then (if a 1 then ((1:ℝ):EReal) else ⊤) else ((5:ℝ):EReal)

theorem fx_spec {y : ℝ} (h0 : 0 ≤ y) (h1 : y ≤ 1) (d : Int) :
    (d = 1 → |fx y d - 1| ≤ 0) ∧ (d = 0 → |fx y d| ≤ 0) ∧ -0 ≤ fx y d ∧ fx y d ≤ 1 + 0 := by
  unfold fx
  refine ⟨fun h => ?_, fun h => ?_, ?_, ?_⟩
  · subst h; norm_num
  · subst h; norm_num
  · split <;> [skip; split] <;> linarith
  · split <;> [skip; split] <;> linarith

theorem forget_accurate : Accurate forgetO 0 := by
  intro k d _ v
  have hv : v = 0 ∨ v = 1 := by omega
  simp only [forgetO]
  rcases hv with rfl | rfl
  · simp only [if_true]
    by_cases h0 : d 0 = -1
    · simp only [h0, if_true]; norm_num
    by_cases h1 : d 0 = 0
    · simp only [h1, if_true]; norm_num
    simp only [h0, h1, if_false]
    split <;> norm_num
  · simp only [show ¬ ((1 : Fin 2) = 0) by decide, if_false]
    split
    · exact fx_spec (by norm_num) (by norm_num) _
    · split
      · exact fx_spec le_rfl zero_le_one _
      · split
        · next h => rw [h]; norm_num
        · exact fx_spec (by norm_num) (by norm_num) _

theorem forget_valid : ValidRelaxation forgetO forgetVal := by
  intro k d a ha
  have a0 := ha 0
  have a1 := ha 1
  constructor
  · intro _
    unfold forgetVal
    cases h0 : a 0
    · simp only [h0] at a0
      simp only [forgetO, Bool.false_eq_true, if_false]
      split
      · simp only; exact_mod_cast (by norm_num : (0:ℝ) ≤ 5)
      · rw [if_pos (by simpa using a0.resolve_left (by assumption))]
    · simp only [if_true]
      cases h1 : a 1
      · exact le_top
      · simp only [h0, h1, if_true] at a0 a1 ⊢
        simp only [forgetO]
        split
        · simp only; exact_mod_cast (by norm_num : (0:ℝ) ≤ 1)
        · rw [if_neg (by omega), if_neg (by omega)]
  · intro h
    exfalso; revert h
    simp only [forgetO]
    split <;> [skip; split <;> [skip; split]] <;> simp [Usable]

theorem legal_dec {a b : Int} (ha : a = 1 ∨ a = 0 ∨ a = -1) (hb : b = 1 ∨ b = 0 ∨ b = -1) : legal (dec a b) := by
  intro v; unfold dec; split
  · exact ha
  · exact hb

/-- C26 fails in general: the incumbent found by rounding at the root node is forgotten; here the relaxation solver respects all bounds and its values are
valid bounds, yet the solver returns value 5 although it evaluated a feasible integral solution of value 1. -/
theorem C26_violated : ¬ ∀ (nb : Nat) (O : Oracle nb (ℝ × ℝ × ℝ)) (c : Setting) (val : (Fin nb → Bool) → EReal), 0 ≤ c.absGap → Accurate O 0 →
    ValidRelaxation O val → 0 < c.intTol → ∀ nodes0 opt0 code s,
    Run O c nodes0 opt0 (.ok (code, s)) → code = .optimal ∨ code = .optimalInacc → ∀ e ∈ s.log, O.obj s.opt ≤ O.obj e.2 := by
  intro hall
  let nodes0 : Nat → Node 2 := fun _ => ⟨.notSolved, none, ⊥, ⊤⟩
  have hroot : root forgetO forgetC nodes0 (0, 0, 0) = .ok
      ⟨Function.update (Function.update nodes0 0 ⟨.notSolved, none, ⊥, ⊤⟩) 0 ⟨.branchable, some 0, ((0:ℝ):EReal), ⊤⟩, fun _ _ => -1, 0, some 0, ⊤, ((0:ℝ):EReal),
        (1, 1, 1), 2, [(0, (1, 1, 1))]⟩ := by
    unfold root
    rw [upd_viable (cd := .optimal) (v := (3/5, 9/10, 0)) (cd' := .optimal) (w := (1, 1, 1)) (p := some 0) (dec 1 1) (fun v => .inr (.inr rfl))]
    · have hlt : (forgetO.obj (1, 1, 1) : EReal) < ⊤ := EReal.coe_lt_top _
      simp only [bind, Except.bind, if_pos hlt, Function.update_self]
      rfl
    · simp [forgetO, fx]
    · rfl
    · refine ⟨0, ?_⟩; simp only [forgetO, if_true, cr06, forgetC]; norm_num [abs_of_nonneg, abs_of_neg]
    · funext i; simp only [forgetO, dec]; split
      · exact cr06
      · exact cr09
    · exact legal_dec (.inl rfl) (.inl rfl)
    · simp [forgetO, dec, fx]
    · rfl
    · simp [selectVar, List.finRange, forgetO]; norm_num [abs_lt, abs_of_pos]
  have R0 := Reach.root hroot
  generalize hs0 : State.mk _ _ _ _ _ _ _ _ _ = s0 at R0
  obtain ⟨n0, m0, i0, k0, u0, l0, c0, g0⟩ : s0.nodes 0 = ⟨.branchable, some 0, ((0:ℝ):EReal), ⊤⟩ ∧ s0.mat 0 = dec (-1) (-1) ∧ s0.iteration = 0 ∧
      s0.nodeId = some 0 ∧ s0.ub = ⊤ ∧ s0.lb = ((0:ℝ):EReal) ∧ s0.calls = 2 ∧ s0.log = [(0, (1, 1, 1))] := by
    subst hs0
    refine ⟨by simp, ?_, rfl, rfl, rfl, rfl, rfl, rfl⟩
    funext i; simp [dec]
  have ck0 : check forgetC s0 := by
    refine ⟨?_, ?_, by rw [k0]; simp, by rw [i0]; simp [forgetC]⟩
    · unfold absExceeds; rw [u0, l0]; simp [forgetC]
    · unfold relExceeds; rw [u0, l0]; simp
  obtain ⟨s1, h1, n1, n1', m1, m1', i1, u1, c1, g1⟩ : ∃ s1, createBranches { s0 with iteration := s0.iteration + 1 } 0 = .ok s1 ∧
      s1.nodes 0 = ⟨.notSolved, some 0, ((0:ℝ):EReal), ⊤⟩ ∧ (s1.nodes 1).ub = ⊤ ∧ s1.mat 0 = dec 0 (-1) ∧ s1.mat 1 = dec 1 (-1) ∧ s1.iteration = 1 ∧
      s1.ub = ⊤ ∧ s1.calls = 2 ∧ s1.log = [(0, (1, 1, 1))] := by
    refine ⟨_, create_ok (p := 0) (by simp [n0]) (by simp), ?_, ?_, ?_, ?_, ?_, ?_, ?_, ?_⟩
    · simp [n0]
    · simp [n0, i0]
    · funext i; simp [m0, dec, Function.update_apply]
    · funext i; simp [i0, m0, dec, Function.update_apply]
    · simp [i0]
    · simp [u0]
    · simp [c0]
    · simp [g0]
  obtain ⟨s2, h2, n2', m2, i2, u2, c2, o2, g2⟩ : ∃ s2, updateNodeBounds forgetO forgetC s1 0 = .ok s2 ∧
      (s2.nodes 1).ub = ⊤ ∧ s2.mat = s1.mat ∧ s2.iteration = 1 ∧ s2.ub = ((5:ℝ):EReal) ∧ s2.calls = 3 ∧ s2.opt = (0, 0, 5) ∧
      s2.log = [(1, (0, 0, 5)), (0, (1, 1, 1))] := by
    refine ⟨_, upd_integral (cd := .optimal) (v := (0, 0, 5)) ?_ ?_ rfl ?_, ?_, ?_, ?_, ?_, ?_, ?_, ?_⟩
    · rw [m1]; exact legal_dec (by simp) (by simp)
    · rw [m1]; simp [forgetO, dec, fx]
    · intro i; simp only [forgetO, ite_self, cr0, forgetC]; norm_num
    · simp [n1']
    · rfl
    · simp [i1]
    · simp [u1, forgetO]
    · simp [c1]
    · simp [u1, forgetO]
    · simp [i1, g1]
  obtain ⟨s3, h3, i3, u3, o3, g3⟩ : ∃ s3, updateNodeBounds forgetO forgetC s2 s2.iteration = .ok s3 ∧
      s3.iteration = 1 ∧ s3.ub = ((5:ℝ):EReal) ∧ s3.opt = (0, 0, 5) ∧ s3.log = [(1, (0, 0, 5)), (0, (1, 1, 1))] := by
    refine ⟨_, upd_unviable (cd := .optimal) (v := (1, 2/5, 1)) (cd' := .primalInf) (w := (1, 0, 7)) (dec 1 0) ?_ ?_ rfl ?_ ?_ ?_ ?_ rfl rfl ?_, ?_, ?_, ?_, ?_⟩
    · rw [m2, i2, m1']; exact legal_dec (by simp) (by simp)
    · rw [m2, i2, m1']; simp [forgetO, dec, fx]
    · refine ⟨1, ?_⟩; simp only [forgetO, show ¬ ((1 : Fin 2) = 0) by decide, if_false, cr04, forgetC]; norm_num [abs_of_nonneg, abs_of_neg]
    · funext i; simp only [forgetO, dec]; split
      · exact cr1
      · exact cr04
    · exact legal_dec (by simp) (by simp)
    · simp [forgetO, dec]
    · rw [i2, n2']
    · exact i2
    · exact u2
    · exact o2
    · exact g2
  have hb1 : body forgetO forgetC s0 0 = .ok { s3 with lb := lowerBound s3.nodes (s3.iteration + 1), nodeId := (selectNode s3.nodes (s3.iteration + 1)).1 } := by
    simp only [body, bind, Except.bind, h1, h2, h3]
  have R1 := Reach.step R0 ck0 k0 hb1
  have hrun := Run.done R1 (by intro h; have := h.2.2.2; simp [i3, forgetC] at this)
  have hcode : exitcode forgetC { s3 with lb := lowerBound s3.nodes (s3.iteration + 1), nodeId := (selectNode s3.nodes (s3.iteration + 1)).1 } = .optimalInacc := by
    unfold exitcode
    rw [if_neg (by simp [i3, forgetC]), if_neg (by simp only [u3]; exact EReal.coe_ne_top _), if_neg (by simp only [u3]; exact EReal.coe_ne_bot _)]
  rw [hcode] at hrun
  have := hall 2 forgetO forgetC forgetVal le_rfl forget_accurate forget_valid (by norm_num [forgetC]) _ _ _ _ hrun (.inr rfl) (0, (1, 1, 1)) (by simp [g3])
  simp only [o3, forgetO] at this
  norm_num at this

/-! ### non-vacuity -/

/-- `forgetO` meets the hypotheses of C24 and C25, and runs to the end. -/
example : Accurate forgetO 0 ∧ ValidRelaxation forgetO forgetVal ∧ (0:ℝ) < forgetC.intTol ∧ 0 ≤ forgetC.absGap ∧
    ∃ r, Run forgetO forgetC (fun _ => ⟨.notSolved, none, ⊥, ⊤⟩) (0, 0, 0) (.ok r) := by
  refine ⟨forget_accurate, forget_valid, by norm_num [forgetC], le_rfl, ?_⟩
  obtain ⟨r, hr⟩ := (C25_bounds forgetO forgetC le_rfl (fun _ => ⟨.notSolved, none, ⊥, ⊤⟩) (0, 0, 0)).1
  cases r with
  | error e => exact absurd hr (((C24_partition_partial forgetO forgetC le_rfl _ _).2 0 forget_accurate (by norm_num [forgetC]) (by norm_num)).2 e)
  | ok r => exact ⟨r, hr⟩

/-- One binary variable, values 3 and 2; the relaxation is tight. -/
noncomputable def tightO : Oracle 1 (ℝ × ℝ) where
  solve _ d := if d 0 = 0 then (.optimal, (0, 3)) else (.optimal, (1, 2))
  bin v _ := v.1
  obj v := v.2

/-- The hypotheses of `C25_optimal_within_gap` are met with exit code Optimal. -/
example : ∃ s, ValidRelaxation tightO (fun a => if a 0 then ((2:ℝ):EReal) else ((3:ℝ):EReal)) ∧
    SoundCandidates tightO badC (fun a => if a 0 then ((2:ℝ):EReal) else ((3:ℝ):EReal)) ∧
    Run tightO badC (fun _ => ⟨.notSolved, none, ⊥, ⊤⟩) (0, 0) (.ok (.optimal, s)) := by
  have hroot : root tightO badC (fun _ => ⟨.notSolved, none, ⊥, ⊤⟩) (0, 0) = .ok
      ⟨Function.update (Function.update (fun _ => ⟨.notSolved, none, ⊥, ⊤⟩) 0 ⟨.notSolved, none, ⊥, ⊤⟩) 0 ⟨.nonBranchable, none, ((2:ℝ):EReal), ((2:ℝ):EReal)⟩, fun _ _ => -1, 0,
        some 0, ((2:ℝ):EReal), ((2:ℝ):EReal), (1, 2), 1, [(0, (1, 2))]⟩ := by
    unfold root
    rw [upd_integral (cd := .optimal) (v := (1, 2)) (fun v => .inr (.inr rfl))]
    · simp [bind, Except.bind, tightO]
    · simp [tightO]
    · rfl
    · intro i; simp only [tightO, cr1, badC]; norm_num
  have R0 := Reach.root hroot
  generalize hs0 : State.mk _ _ _ _ _ _ _ _ _ = s0 at R0
  have hrun := Run.done R0 (by
    intro h; have := h.1; unfold absExceeds at this; rw [← hs0] at this
    simp only [badC, ← EReal.coe_sub] at this
    simp at this)
  have hcode : exitcode badC s0 = .optimal := by
    subst hs0
    unfold exitcode
    rw [if_pos (by simp [badC]), if_neg (EReal.coe_ne_top _), if_neg (EReal.coe_ne_bot _)]
  rw [hcode] at hrun
  refine ⟨s0, ?_, ?_, hrun⟩
  · intro k d a ha
    have a0 := ha 0
    simp only [tightO]
    cases h0 : a 0
    · simp only [h0] at a0
      split
      · exact ⟨fun _ => le_rfl, fun h => by simp [Usable] at h⟩
      · exact ⟨fun _ => by simp only [Bool.false_eq_true, if_false]; exact_mod_cast (by norm_num : (2:ℝ) ≤ 3), fun h => by simp [Usable] at h⟩
    · simp only [h0, if_true] at a0 ⊢
      rw [if_neg (by omega)]
      exact ⟨fun _ => le_rfl, fun h => by simp [Usable] at h⟩
  · intro k d _
    simp only [tightO]
    split
    · exact ⟨fun _ => false, by simp⟩
    · exact ⟨fun _ => true, by simp⟩

end BnB
end Verif
