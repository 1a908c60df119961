import Verif.BnBFloatProps
import Verif.IPFloatExamples

/-! Runs of branch and bound in floating-point arithmetic: non-vacuity of C274-C276 and the violations. -/
namespace Verif
namespace BnBF
open LbfgsF BnB IPF

/-- The laws of infinity hold of floating-point arithmetic with any rounding that has an infinity, for every gap that is not negative. -/
theorem infinity_fp {R : EReal → EReal} (h : Rounding R) (ht : R ⊤ = ⊤) (g : @Setting (FP R)) (hi : g.inf = .val ⟨⊤, ht⟩)
    (hg : (arith h).le ((arith h).lit 0) g.absGap = true) : letI := arith h; Infinity g := by
  letI := arith h
  have I : Ieee (FP R) := ieee_round h
  have num : ∀ a : FP R, Num a → ∃ x, a = .val x := fun a ha => by
    cases a with
    | nan => exact absurd (show LbfgsF.cmp (· ≤ ·) (FP.nan : FP R) FP.nan = true from ha) (by simp [LbfgsF.cmp])
    | val x => exact ⟨x, rfl⟩
  refine ⟨?_, fun a ha => ?_, fun a b h1 h2 => ?_, fun a => ?_⟩
  · rw [hi]; show LbfgsF.cmp (· ≤ ·) (FP.val ⟨⊤, ht⟩ : FP R) _ = true; simp [LbfgsF.cmp]
  · obtain ⟨x, rfl⟩ := num a ha
    rw [hi]; show LbfgsF.cmp (· ≤ ·) (FP.val x : FP R) _ = true; simp [LbfgsF.cmp]
  · obtain ⟨x, rfl⟩ := num a (I.le_num _ _ h1).1
    obtain ⟨y, rfl⟩ := num b (I.le_num _ _ h1).2
    have h1 : LbfgsF.cmp (· ≤ ·) (FP.val x : FP R) (.val y) = true := h1
    have h2 : LbfgsF.cmp (· ≤ ·) (FP.val y : FP R) (.val x) = true := h2
    show LbfgsF.cmp (· = ·) (FP.val x : FP R) (.val y) = true
    simp only [LbfgsF.cmp, decide_eq_true_eq] at h1 h2 ⊢
    exact le_antisymm h1 h2
  · by_cases hn : Num (a -. a)
    · obtain ⟨x, rfl⟩ := num a (I.sub_num _ _ hn).1
      refine I.le_not_lt _ _ (I.le_trans _ _ _ ?_ hg)
      have e : (FP.val x : FP R) -. FP.val x = (exAdd x.1 (-x.1)).elim .nan (LbfgsF.mk h) := rfl
      rw [e] at hn ⊢
      unfold exAdd at hn ⊢
      split at hn
      · exact absurd (show LbfgsF.cmp (· ≤ ·) (FP.nan : FP R) FP.nan = true from hn) (by simp [LbfgsF.cmp])
      · rename_i hc
        rw [if_neg hc]
        have : x.1 + -x.1 = 0 := by
          generalize x.1 = y at hc
          induction y with
          | bot => simp at hc
          | top => simp at hc
          | coe r => rw [← EReal.coe_neg, ← EReal.coe_add]; simp
        simp only [Option.elim_some, this]
        show LbfgsF.cmp (· ≤ ·) (LbfgsF.mk h 0) (LbfgsF.mk h (((0 : ℚ) : ℝ) : EReal)) = true
        simp [LbfgsF.cmp, LbfgsF.mk]
    · exact not_lt I (.inr hn)

section witness
variable {R : EReal → EReal} (h : Rounding R) (ht : R ⊤ = ⊤)

/-- Infinity of the format. -/
noncomputable def inf : FP R := .val ⟨⊤, ht⟩

/-- `std::round` on the three values that occur below, BnBSolver.cpp:123. -/
noncomputable def round3 (x : FP R) : Option Int := open Classical in if x = int h 0 then some 0 else if x = int h 1 ∨ x = v h 4 then some 1 else none

/-- Settings of the witnesses: integrality tolerance 1/8, no gap allowed. -/
noncomputable def stg (M : Int) : Setting (FP R) := ⟨M, v h 1, int h 0, int h 0, inf ht⟩

/-- A problem with one binary whose relaxation is integral with a NaN objective. -/
noncomputable def lostRoot : Oracle (FP R) 1 (FP R × FP R) := ⟨fun _ _ => (.optimal, (int h 0, .nan)), fun x _ => x.1, fun x => x.2, round3 h⟩

/-- A problem with one binary: the relaxation has the value 1 at 1/2 and cannot be rounded up, the leaf with the binary 0 has a NaN objective, the leaf with the
binary 1 the objective 5. -/
noncomputable def lostLeaf : Oracle (FP R) 1 (FP R × FP R) :=
  ⟨fun k d => if k = 1 then (.primalInf, (int h 1, int h 5)) else if d 0 = -1 then (.optimal, (v h 4, int h 1)) else if d 0 = 0 then (.optimal, (int h 0, .nan))
    else (.optimal, (int h 1, int h 5)), fun x _ => x.1, fun x => x.2, round3 h⟩

variable {h} (hR : Exact R)

include hR in
theorem v_abs {k : ℤ} (hk : k.natAbs ≤ 64) : (arith h).abs (v h k) = v h |k| := by
  rw [v_val hR hk]
  refine mk_congr h ?_
  rcases le_total 0 k with h0 | h0
  · have : (0 : ℝ) ≤ k := by exact_mod_cast h0
    rw [abs_of_nonneg h0, max_eq_left]
    rw [← EReal.coe_neg, EReal.coe_le_coe_iff]; linarith
  · have : (k : ℝ) ≤ 0 := by exact_mod_cast h0
    rw [abs_of_nonpos h0, max_eq_right]
    · rw [← EReal.coe_neg]; congr 1; push_cast; ring
    · rw [← EReal.coe_neg, EReal.coe_le_coe_iff]; linarith

omit hR in
theorem nan_lt (x : FP R) : (arith h).lt .nan x = false := by cases x <;> rfl
omit hR in
theorem lt_nan (x : FP R) : (arith h).lt x .nan = false := by cases x <;> rfl
omit hR in
theorem nan_le (x : FP R) : (arith h).le .nan x = false := by cases x <;> rfl
omit hR in
theorem nan_eq (x : FP R) : (arith h).eq .nan x = false := by cases x <;> rfl
omit hR in
theorem nan_sub (x : FP R) : (arith h).sub .nan x = .nan := by cases x <;> rfl
omit hR in
theorem not_num_nan : letI := arith h; ¬ Num (FP.nan : FP R) := fun e => by
  have : LbfgsF.cmp (· ≤ ·) (FP.nan : FP R) FP.nan = true := e
  simp [LbfgsF.cmp] at this

include hR in
theorem round3_int {n : ℤ} (hn : n = 0 ∨ n = 1) : round3 h (int h n) = some n := by
  unfold round3
  rcases hn with rfl | rfl
  · rw [if_pos rfl]
  · rw [if_neg (show ¬ int h 1 = int h 0 from v_ne (k := 8 * 1) (l := 8 * 0) hR (by norm_num) (by norm_num) (by norm_num)), if_pos (.inl rfl)]

include hR in
theorem round3_half : round3 h (v h 4) = some 1 := by
  unfold round3
  rw [if_neg (show ¬ v h 4 = int h 0 from v_ne (k := 4) (l := 8 * 0) hR (by norm_num) (by norm_num) (by norm_num)), if_pos (.inr rfl)]

include hR in
theorem near_int (M : Int) {n : ℤ} (hn : n = 0 ∨ n = 1) : letI := arith h; near (stg h ht M) (int h n) n = true := by
  letI := arith h
  show (arith h).lt ((arith h).abs ((arith h).sub (int h n) ((arith h).lit ((n : ℤ) : ℚ)))) (v h 1) = true
  rw [lit_int _ n rfl, int_sub hR (by omega) (by omega), sub_self]
  show (arith h).lt ((arith h).abs (v h 0)) (v h 1) = true
  rw [v_abs hR (by norm_num), v_lt hR (by norm_num) (by norm_num)]
  decide

include hR in
theorem near_half (M : Int) : letI := arith h; near (stg h ht M) (v h 4) 1 = false := by
  letI := arith h
  show (arith h).lt ((arith h).abs ((arith h).sub (v h 4) ((arith h).lit ((1 : ℤ) : ℚ)))) (v h 1) = false
  rw [v_lit _ 8 (by norm_num), v_sub hR (by norm_num) (by norm_num), v_abs hR (by norm_num), v_lt hR (by norm_num) (by norm_num)]
  decide

/-- An accepted relaxation whose binaries are integral. -/
theorem upd_integral {F : Type} [Arith F] {nb : Nat} {V : Type} (O : Oracle F nb V) (g : Setting F) (s : State F nb V) (id : Nat) (vec : Fin nb → Int) (x : V)
    (h1 : legal (s.mat id)) (ha : accepted (O.solve s.calls (s.mat id)).1 = true) (hx : (O.solve s.calls (s.mat id)).2 = x)
    (hr : ∀ i, O.round (O.bin x i) = some (vec i)) (hn : ∀ i, near g (O.bin x i) (vec i) = true) :
    updateNodeBounds O g s id = .ok { s with
      nodes := Function.update s.nodes id { s.nodes id with lb := O.obj x, ub := O.obj x, status := .nonBranchable }
      opt := if O.obj x <. s.ub then x else s.opt
      ub := if O.obj x <. s.ub then O.obj x else s.ub
      calls := s.calls + 1
      log := (s.iteration, x) :: s.log } := by
  unfold updateNodeBounds
  rw [if_neg (not_not.mpr h1)]
  simp only [ha, if_true, hx]
  rw [if_neg (by rintro ⟨i, hi⟩; rw [hr] at hi; cases hi), if_pos (fun i => by rw [hr]; exact hn i)]

/-- An accepted relaxation whose binaries are not integral, and whose rounding is not viable. -/
theorem upd_branch {F : Type} [Arith F] {nb : Nat} {V : Type} (O : Oracle F nb V) (g : Setting F) (s : State F nb V) (id : Nat) (vec : Fin nb → Int) (x : V)
    (h1 : legal (s.mat id)) (ha : accepted (O.solve s.calls (s.mat id)).1 = true) (hx : (O.solve s.calls (s.mat id)).2 = x)
    (hr : ∀ i, O.round (O.bin x i) = some (vec i)) (j : Fin nb) (hn : near g (O.bin x j) (vec j) = false) (h2 : legal vec)
    (hv : isOptimal (O.solve (s.calls + 1) vec).1 = false) (hu : ((s.nodes id).ub <. s.ub) = false) :
    updateNodeBounds O g s id = .ok { s with
      nodes := Function.update s.nodes id ⟨.branchable, (selectVar (O.bin x) (List.finRange nb) ((s.nodes id).pid, c 1)).1, O.obj x, (s.nodes id).ub⟩
      calls := s.calls + 2 } := by
  have e : (fun i => (O.round (O.bin x i)).getD 0) = vec := funext fun i => by rw [hr]; rfl
  unfold updateNodeBounds
  rw [if_neg (not_not.mpr h1)]
  simp only [ha, if_true, hx, e]
  rw [if_neg (by rintro ⟨i, hi⟩; rw [hr] at hi; cases hi),
    if_neg (fun hh => by have := hh j; rw [hr] at this; rw [show near g (O.bin x j) ((some (vec j)).getD 0) = false from hn] at this; cases this),
    if_neg (not_not.mpr (show legal (fun i => (O.round (O.bin (O.solve s.calls (s.mat id)).2 i)).getD 0) by rw [hx, e]; exact h2))]
  simp only [hv, Bool.false_eq_true, if_false, hu]

/-- The root from its update. -/
theorem root_eq {F : Type} [Arith F] {nb : Nat} {V : Type} {O : Oracle F nb V} {g : Setting F} {nodes0 : Nat → Node F nb} {opt0 : V} {s : State F nb V}
    (h : updateNodeBounds O g
      { nodes := Function.update nodes0 0 { nodes0 0 with status := .notSolved, lb := Arith.neg g.inf, ub := g.inf }
        mat := fun _ _ => -1, iteration := 0, nodeId := some 0, ub := g.inf, lb := Arith.neg g.inf, opt := opt0, calls := 0, log := [] } 0 = .ok s) :
    root O g nodes0 opt0 = .ok { s with lb := (s.nodes 0).lb, ub := (s.nodes 0).ub } := by
  unfold root
  rw [h]
  rfl

include hR in
/-- C275 is violated without the restriction: with a relaxation that is integral with a NaN objective, `optimize` reports Optimal although no solution was ever
stored; what the solver holds afterwards is what it held before. -/
theorem C275_violated (M : Int) (hM : 1 < M) (nodes0 : Nat → Node (FP R) 1) (opt0 : FP R × FP R) : letI := arith h
    ∃ s, Run (lostRoot h) (stg h ht M) nodes0 opt0 (.ok (.optimal, s)) ∧ s.opt = opt0 ∧ s.ub = .nan ∧ ∀ e ∈ s.log, ¬ Num ((lostRoot h).obj e.2) := by
  letI := arith h
  have hu := upd_integral (lostRoot h) (stg h ht M)
    { nodes := Function.update nodes0 0 { nodes0 0 with status := .notSolved, lb := Arith.neg (inf ht), ub := inf ht }
      mat := fun _ _ => -1, iteration := 0, nodeId := some 0, ub := inf ht, lb := Arith.neg (inf ht), opt := opt0, calls := 0, log := [] } 0
    (fun _ => 0) (int h 0, .nan) (fun _ => .inr (.inr rfl)) rfl rfl (fun _ => round3_int hR (.inl rfl)) (fun _ => near_int ht hR M (.inl rfl))
  have hlt : ((lostRoot h).obj (int h 0, .nan) <. inf ht) = false := nan_lt _
  simp only [hlt, Bool.false_eq_true, if_false] at hu
  have hr := root_eq hu
  have hcheck := Run.done (Reach.root hr) (fun hc => by
    have h1 := hc.1
    revert h1
    simp only [Function.update_self]
    rw [show (lostRoot h).obj (int h 0, .nan) -. (lostRoot h).obj (int h 0, .nan) = FP.nan from rfl, lt_nan]
    simp)
  have hfin : ∀ s : State (FP R) 1 (FP R × FP R), s.iteration = 0 → s.ub = .nan → exitcode (stg h ht M) s = .optimal := fun s h1 h2 => by
    unfold exitcode isinf
    rw [h1, h2, if_pos (show ((0 : ℕ) : ℤ) < (stg h ht M).maxIters - 1 from show ((0 : ℕ) : ℤ) < M - 1 by push_cast; omega), nan_eq, nan_eq]
    rfl
  rw [hfin _ rfl (by simp only [Function.update_self]; rfl)] at hcheck
  refine ⟨_, hcheck, rfl, by simp only [Function.update_self]; rfl, fun e he => ?_⟩
  simp only [List.mem_singleton] at he
  subst he
  exact not_num_nan

include hR in
theorem lt_inf {n : ℤ} (hn : n.natAbs ≤ 8) : (arith h).lt (int h n) (inf ht) = true := by
  unfold int inf
  rw [v_val hR (by omega)]
  refine (cmp_vv _ _ _).trans ?_
  simp only [decide_eq_true_eq]
  exact EReal.coe_lt_top _

include hR in
theorem inf_sub {n : ℤ} (hn : n.natAbs ≤ 8) : (arith h).sub (inf ht) (int h n) = inf ht := by
  unfold int inf
  rw [v_val hR (by omega)]
  refine lift2_eq _ ht _ ht ?_
  unfold exAdd
  rw [← EReal.coe_neg, if_neg (by simp)]
  simp

include hR in
theorem inf_div : (arith h).div (inf ht) (int h 1) = inf ht := by
  unfold int inf
  rw [v_val hR (by norm_num)]
  refine lift2_eq _ ht _ ht ?_
  have e : ((((8 * 1 : ℤ) : ℝ) / 8 : ℝ) : EReal) = ((1 : ℝ) : EReal) := by norm_num
  rw [e]
  unfold exDiv
  rw [if_neg (by simp only [EReal.coe_ne_top, EReal.coe_ne_bot]; simp), if_neg (by simp), EReal.coe_one, _root_.div_one]

theorem inf_abs : (arith h).abs (inf ht) = inf ht := by
  refine (mk_congr h (?_ : max (⊤ : EReal) (-⊤) = ⊤)).trans ?_
  · simp
  · unfold mk inf; simp [ht]

theorem inf_lt : (arith h).lt (inf ht) (inf ht) = false := by
  refine (cmp_vv _ _ _).trans ?_
  simp

theorem createBranches_eq {F : Type} {nb : Nat} {V : Type} {s : State F nb V} {id : Nat} {p : Fin nb} (h : (s.nodes id).pid = some p) :
    createBranches s id = .ok { s with
      nodes := Function.update (Function.update s.nodes s.iteration { s.nodes s.iteration with lb := (s.nodes id).lb, ub := (s.nodes id).ub, status := .notSolved }) id
        { Function.update s.nodes s.iteration { s.nodes s.iteration with lb := (s.nodes id).lb, ub := (s.nodes id).ub, status := .notSolved } id with status := .notSolved }
      mat := Function.update (Function.update s.mat s.iteration (Function.update (s.mat id) p 1)) id
        (Function.update (Function.update s.mat s.iteration (Function.update (s.mat id) p 1) id) p 0) } := by
  unfold createBranches
  rw [h]

/-- The body of the loop from its three steps. -/
theorem body_eq {F : Type} [Arith F] {nb : Nat} {V : Type} {O : Oracle F nb V} {g : Setting F} {s s1 s2 s3 : State F nb V} {id : Nat}
    (h1 : createBranches { s with iteration := s.iteration + 1 } id = .ok s1) (h2 : updateNodeBounds O g s1 id = .ok s2)
    (h3 : updateNodeBounds O g s2 s2.iteration = .ok s3) :
    body O g s id = .ok { s3 with lb := lowerBound g s3.nodes (s3.iteration + 1), nodeId := (selectNode g s3.nodes (s3.iteration + 1)).1 } := by
  unfold body
  rw [h1]
  change (updateNodeBounds O g s1 id >>= _) = _
  rw [h2]
  change (updateNodeBounds O g s2 s2.iteration >>= _) = _
  rw [h3]
  rfl

include hR in
theorem lostLeaf_root (M : Int) (nodes0 : Nat → Node (FP R) 1) (opt0 : FP R × FP R) : letI := arith h
    ∃ s, root (lostLeaf h) (stg h ht M) nodes0 opt0 = .ok s ∧ s.nodes 0 = ⟨.branchable, some 0, int h 1, inf ht⟩ ∧ s.mat = (fun _ _ => -1) ∧
      s.iteration = 0 ∧ s.nodeId = some 0 ∧ s.ub = inf ht ∧ s.lb = int h 1 ∧ s.calls = 2 ∧ s.log = [] := by
  letI := arith h
  have hsel : ∀ a : Option (Fin 1), (selectVar ((lostLeaf h).bin (v h 4, int h 1)) (List.finRange 1) (a, c 1)).1 = some 0 := fun a => by
    show (if (arith h).abs ((arith h).sub (v h 4) ((arith h).lit (1 / 2))) <. (arith h).lit 1 then _ else _ : Option (Fin 1) × FP R).1 = some 0
    rw [v_lit _ 4 (by norm_num), v_sub hR (by norm_num) (by norm_num), v_abs hR (by norm_num), v_lit _ 8 (by norm_num)]
    rw [if_pos (show (arith h).lt (v h |4 - 4|) (v h 8) = true by rw [v_lt hR (by norm_num) (by norm_num)]; decide)]
    rfl
  have hu := upd_branch (lostLeaf h) (stg h ht M)
    { nodes := Function.update nodes0 0 { nodes0 0 with status := .notSolved, lb := Arith.neg (inf ht), ub := inf ht }
      mat := fun _ _ => -1, iteration := 0, nodeId := some 0, ub := inf ht, lb := Arith.neg (inf ht), opt := opt0, calls := 0, log := [] } 0
    (fun _ => 1) (v h 4, int h 1) (fun _ => .inr (.inr rfl)) rfl rfl (fun _ => round3_half hR) 0 (near_half ht hR M) (fun _ => .inl rfl) rfl
    (by simp only [Function.update_self]; exact inf_lt ht)
  refine ⟨_, root_eq hu, ?_, rfl, rfl, rfl, ?_, ?_, rfl, rfl⟩
  · simp only [Function.update_self, hsel]; rfl
  · simp only [Function.update_self]
  · simp only [Function.update_self]; rfl

include hR in
theorem lostLeaf_body (M : Int) (s : State (FP R) 1 (FP R × FP R)) (h0 : s.nodes 0 = ⟨.branchable, some 0, int h 1, inf ht⟩)
    (h1 : s.mat = (fun _ _ => -1)) (h2 : s.iteration = 0) (h3 : s.ub = inf ht) (h4 : s.calls = 2) (h5 : s.log = []) : letI := arith h
    ∃ s', body (lostLeaf h) (stg h ht M) s 0 = .ok s' ∧ s'.mat 0 = (fun _ => 0) ∧ s'.iteration = 1 ∧ s'.nodeId = none ∧ s'.ub = int h 5 ∧
      s'.lb = int h 5 ∧ s'.opt = (int h 1, int h 5) ∧ s'.log = [(1, (int h 1, int h 5)), (1, (int h 0, .nan))] := by
  letI := arith h
  obtain ⟨s1, hb, m0, m1, b1, b2, b3, b4⟩ : ∃ s1, createBranches { s with iteration := s.iteration + 1 } 0 = .ok s1 ∧ s1.mat 0 = (fun _ => 0) ∧
      s1.mat 1 = (fun _ => 1) ∧ s1.iteration = 1 ∧ s1.ub = inf ht ∧ s1.calls = 2 ∧ s1.log = [] := by
    refine ⟨_, createBranches_eq (p := 0) (by simp only [h0]), ?_, ?_, by simp only [h2], h3, h4, h5⟩
    · funext j
      have : j = 0 := Subsingleton.elim _ _
      subst this
      simp only [Function.update_self]
    · funext j
      have : j = 0 := Subsingleton.elim _ _
      subst this
      simp only [h2, Function.update_of_ne (show (1 : ℕ) ≠ 0 by decide), Function.update_self, Nat.zero_add]
  have u1 := upd_integral (lostLeaf h) (stg h ht M) s1 0 (fun _ => 0) (int h 0, .nan) (fun _ => by rw [m0]; exact .inr (.inl rfl)) (by rw [m0, b3]; rfl)
    (by rw [m0, b3]; rfl) (fun _ => round3_int hR (.inl rfl)) (fun _ => near_int ht hR M (.inl rfl))
  simp only [b2, show ((lostLeaf h).obj (int h 0, .nan) <. inf ht) = false from nan_lt _, Bool.false_eq_true, if_false, b3, b4, b1] at u1
  obtain ⟨s2, u1, c1, c2, c3, c4, c5, c6⟩ : ∃ s2, updateNodeBounds (lostLeaf h) (stg h ht M) s1 0 = .ok s2 ∧ s2.mat = s1.mat ∧ s2.ub = inf ht ∧
      s2.iteration = 1 ∧ s2.calls = 3 ∧ s2.log = [(1, (int h 0, .nan))] ∧ (s2.nodes 0).lb = .nan ∧ (s2.nodes 0).status = .nonBranchable :=
    ⟨_, u1, rfl, rfl, rfl, rfl, rfl, by simp only [Function.update_self]; exact ⟨rfl, trivial⟩⟩
  have u2 := upd_integral (lostLeaf h) (stg h ht M) s2 1 (fun _ => 1) (int h 1, int h 5) (fun _ => by rw [c1, m1]; exact .inl rfl) (by rw [c1, m1, c4]; rfl)
    (by rw [c1, m1, c4]; rfl) (fun _ => round3_int hR (.inr rfl)) (fun _ => near_int ht hR M (.inr rfl))
  simp only [c2, show ((lostLeaf h).obj (int h 1, int h 5) <. inf ht) = true from lt_inf ht hR (by decide), if_true, c3, c4, c5] at u2
  have hbody := body_eq hb u1 (by rw [c3]; exact u2)
  have hobj : (lostLeaf h).obj (int h 1, int h 5) = int h 5 := rfl
  refine ⟨_, hbody, by simp only [c1, m0], rfl, ?_, rfl, ?_, rfl, rfl⟩
  · simp only [selectNode, Function.update_self, Function.update_of_ne (show (0 : ℕ) ≠ 1 by decide), c6.2]
    simp
  · simp only [lowerBound, Function.update_self, Function.update_of_ne (show (0 : ℕ) ≠ 1 by decide), c6.1]
    unfold fmin
    rw [show ((FP.nan : FP R) <. (stg h ht M).inf) = false from nan_lt _]
    simp only [Bool.false_eq_true, if_false, hobj]
    rw [if_pos (show ((int h 5 : FP R) <. (stg h ht M).inf) = true from lt_inf ht hR (by decide))]

include hR in
/-- C276 is violated without the restriction: a leaf with a NaN objective counts for nothing in the lower bound. Here the two leaves have the objectives NaN and
5, and `optimize` reports Optimal with lower and upper bound 5. -/
theorem C276_violated (M : Int) (hM : 2 < M) (nodes0 : Nat → Node (FP R) 1) (opt0 : FP R × FP R) : letI := arith h
    ∃ s, Run (lostLeaf h) (stg h ht M) nodes0 opt0 (.ok (.optimal, s)) ∧ s.lb = int h 5 ∧ s.ub = int h 5 ∧ s.opt = (int h 1, int h 5) ∧
      s.log = [(1, (int h 1, int h 5)), (1, (int h 0, .nan))] ∧
      ∃ i ≤ s.iteration, ∀ k, 1 < k → accepted ((lostLeaf h).solve k (s.mat i)).1 = true ∧
        (s.lb <=. (lostLeaf h).obj ((lostLeaf h).solve k (s.mat i)).2) = false := by
  letI := arith h
  obtain ⟨s, hr, h0, h1, h2, h3, h4, h5, h6, h7⟩ := lostLeaf_root ht hR M nodes0 opt0
  obtain ⟨s', hb, g1, g2, g3, g4, g5, g6, g7⟩ := lostLeaf_body ht hR M s h0 h1 h2 h4 h6 h7
  have hc : check (stg h ht M) s := by
    refine ⟨?_, ?_, by rw [h3]; simp, by rw [h2]; show ((0 : ℕ) : ℤ) < M - 1; omega⟩
    · rw [h4, h5]
      show (arith h).lt (int h 0) ((arith h).sub (inf ht) (int h 1)) = true
      rw [inf_sub ht hR (by decide), lt_inf ht hR (by decide)]
    · rw [h4, h5]
      show (arith h).lt (int h 0) ((arith h).abs ((arith h).sub ((arith h).div (inf ht) (int h 1)) ((arith h).lit 1))) = true
      rw [inf_div ht hR, lit_int 1 1 (by norm_num), inf_sub ht hR (by decide), inf_abs, lt_inf ht hR (by decide)]
  have hrun := Run.done (Reach.step (Reach.root hr) hc h3 hb) (fun hc => hc.2.2.1 g3)
  have hcode : exitcode (stg h ht M) s' = .optimal := by
    unfold exitcode isinf
    rw [g2, g4, if_pos (show ((1 : ℕ) : ℤ) < (stg h ht M).maxIters - 1 from show ((1 : ℕ) : ℤ) < M - 1 by push_cast; omega)]
    have e1 : ((int h 5 : FP R) ==. (stg h ht M).inf) = false := by
      show (arith h).eq (int h 5) (inf ht) = false
      unfold int inf
      rw [v_val hR (by norm_num)]
      refine (cmp_vv _ _ _).trans ?_
      rw [decide_eq_false_iff_not]
      exact EReal.coe_ne_top _
    have e2 : ((int h 5 : FP R) ==. Arith.neg (stg h ht M).inf) = false := by
      show (arith h).eq (int h 5) ((arith h).neg (inf ht)) = false
      unfold int inf
      rw [v_val hR (by norm_num)]
      refine (cmp_vv _ _ _).trans ?_
      rw [decide_eq_false_iff_not]
      intro e
      have h1 : R (-⊤) ≤ 0 := by rw [← h.zero]; exact h.mono _ _ (by simp)
      have h2 : ((((8 * 5 : ℤ) : ℝ) / 8 : ℝ) : EReal) ≤ ((0 : ℝ) : EReal) := e.trans_le h1
      have := EReal.coe_le_coe_iff.mp h2
      norm_num at this
    rw [e1, e2]
    rfl
  rw [hcode] at hrun
  refine ⟨s', hrun, g5, g4, g6, g7, 0, by omega, fun k hk => ?_⟩
  rw [g1]
  have e : (lostLeaf h).solve k (fun _ => 0) = (.optimal, (int h 0, .nan)) := if_neg (by omega)
  rw [e]
  exact ⟨rfl, by cases s'.lb <;> rfl⟩

include hR in
/-- The settings of the witnesses have the laws of infinity. -/
theorem stg_infinity (M : Int) : letI := arith h; Infinity (stg h ht M) :=
  infinity_fp h ht (stg h ht M) rfl (by rw [lit_int 0 0 (by norm_num)]; exact (int_le hR (by decide) (by decide)).trans (by decide))

/-- The hypotheses of C275_incumbent_partial and C276_lower_partial are met by the run of `C276_violated`: the root has the objective 1, the leaf evaluated second
has the objective 5 and is the one reported. -/
example (M : Int) (hM : 2 < M) (nodes0 : Nat → Node (FP R) 1) (opt0 : FP R × FP R) : letI := arith h
    Ieee (FP R) ∧ Infinity (stg h ht M) ∧ (accepted ((lostLeaf h).solve 0 fun _ => -1).1 = true ∧ Num ((lostLeaf h).obj ((lostLeaf h).solve 0 fun _ => -1).2)) ∧
      ∃ s, Run (lostLeaf h) (stg h ht M) nodes0 opt0 (.ok (.optimal, s)) ∧ (1, s.opt) ∈ s.log ∧ s.ub = int h 5 := by
  letI := arith h
  refine ⟨ieee_round h, stg_infinity ht hR M, ⟨rfl, ?_⟩, ?_⟩
  · show (arith h).le (int h 1) (int h 1) = true
    rw [int_le hR (by decide) (by decide)]; rfl
  · obtain ⟨s, h1, _, h3, h4, h5, _⟩ := C276_violated ht hR M hM nodes0 opt0
    exact ⟨s, h1, by rw [h5, h4]; simp, h3⟩

end witness
end BnBF
end Verif
