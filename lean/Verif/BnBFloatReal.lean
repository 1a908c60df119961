import Verif.BnBFloatProps
import Verif.BnBProps

/-!
The model of branch and bound in arbitrary arithmetic (BnBFloat.lean), read in the exact arithmetic of extended reals with NaN, is the model of BnB.lean: same
states, same outcomes.
-/
namespace Verif
namespace BnBF
open LbfgsF BnB

/-! ### the arithmetic -/

/-- No rounding. -/
theorem idRound : Rounding (fun x : EReal => x) := ⟨fun _ _ h => h, fun _ => rfl, rfl, rfl⟩

/-- Extended reals and NaN. -/
abbrev X := FP fun x : EReal => x

/-- Exact arithmetic. -/
@[reducible] noncomputable def exact : Arith X := arith idRound

attribute [local instance] exact

/-- The number `x`. -/
def em (x : EReal) : X := .val ⟨x, rfl⟩

theorem em_lt (a b : EReal) : (em a <. em b) = true ↔ a < b := by
  show LbfgsF.cmp (· < ·) (em a) (em b) = true ↔ _
  simp [em, LbfgsF.cmp]

theorem em_le (a b : EReal) : (em a <=. em b) = true ↔ a ≤ b := by
  show LbfgsF.cmp (· ≤ ·) (em a) (em b) = true ↔ _
  simp [em, LbfgsF.cmp]

theorem em_eq (a b : EReal) : (em a ==. em b) = true ↔ a = b := by
  show LbfgsF.cmp (· = ·) (em a) (em b) = true ↔ _
  simp [em, LbfgsF.cmp]

theorem em_lit (q : ℚ) : (c q : X) = em ((q : ℝ) : EReal) := rfl

theorem em_abs (x : EReal) : Arith.abs (em x) = em (max x (-x)) := rfl

theorem em_neg (x : EReal) : Arith.neg (em x) = em (-x) := rfl

theorem em_sub (x y : EReal) : em x -. em y = (exAdd x (-y)).elim .nan em := rfl

theorem em_div (x y : EReal) : em x /. em y = (exDiv x y).elim .nan em := rfl

theorem em_sub_real (x y : ℝ) : em x -. em y = em ((x - y : ℝ) : EReal) := by
  rw [em_sub]
  unfold exAdd
  rw [← EReal.coe_neg, if_neg (by simp)]
  rfl

theorem em_abs_real (x : ℝ) : Arith.abs (em x) = em ((|x| : ℝ) : EReal) := by
  rw [em_abs]
  congr 1

/-! ### the objects of the other model -/

/-- A node of `BnB.Node`, BnBSolver.hpp:22-26. -/
def emN {nb : Nat} (n : BnB.Node nb) : Node X nb := ⟨n.status, n.pid, em n.lb, em n.ub⟩

/-- A state of `BnB.State`, BnBSolver.hpp:56-67. -/
def emS {nb : Nat} {V : Type} (s : BnB.State nb V) : State X nb V :=
  ⟨fun i => emN (s.nodes i), s.mat, s.iteration, s.nodeId, em s.ub, em s.lb, s.opt, s.calls, s.log⟩

/-- Settings, SolverSetting.hpp:64-66. -/
noncomputable def emC (g : BnB.Setting) : Setting X := ⟨g.maxIters, em g.intTol, em g.absGap, em g.relGap, em ⊤⟩

/-- `std::round` and the conversion to `int`, BnBSolver.cpp:123 (without the range of `int`). -/
noncomputable def emRound : X → Option Int
  | .nan => none
  | .val x => open Classical in if x.1 = ⊤ ∨ x.1 = ⊥ then none else some (cround x.1.toReal)

/-- A relaxation solver, BnBSolver.cpp:112 and 135. -/
noncomputable def emO {nb : Nat} {V : Type} (O : BnB.Oracle nb V) : Oracle X nb V := ⟨O.solve, fun v i => em (O.bin v i), fun v => em (O.obj v), emRound⟩

/-- Faults, BnBSolver.cpp:19 and 89. -/
def emF : BnB.Fault → Fault
  | .throw => .throw
  | .undefinedPartition => .undefinedPartition

/-- Outcomes of a step, BnBSolver.cpp:206-217. -/
def emE {nb : Nat} {V : Type} : Except BnB.Fault (BnB.State nb V) → Except Fault (State X nb V)
  | .error e => .error (emF e)
  | .ok s => .ok (emS s)

/-- Outcomes of `optimize`, BnBSolver.cpp:196-222. -/
def emR {nb : Nat} {V : Type} : Except BnB.Fault (Code × BnB.State nb V) → Except Fault (Code × State X nb V)
  | .error e => .error (emF e)
  | .ok (k, s) => .ok (k, emS s)

theorem emRound_em (x : ℝ) : emRound (em x) = some (cround x) := by
  unfold emRound em
  simp

theorem emN_update {nb : Nat} (f : Nat → BnB.Node nb) (i : Nat) (n : BnB.Node nb) :
    (fun j => emN (Function.update f i n j)) = Function.update (fun j => emN (f j)) i (emN n) := by
  funext j
  by_cases h : j = i
  · subst h; simp
  · simp [Function.update_of_ne h]

theorem em_ite {P : Prop} [Decidable P] (a b : EReal) : em (if P then a else b) = if P then em a else em b := by split <;> rfl

/-! ### the functions agree -/

theorem near_em (g : BnB.Setting) (x : ℝ) (i : Int) : near (emC g) (em x) i = true ↔ |x - i| < g.intTol := by
  unfold near
  have e : (c ((i : Int) : ℚ) : X) = em ((i : ℝ) : EReal) := by rw [em_lit]; push_cast; rfl
  rw [e, em_sub_real, em_abs_real]
  exact (em_lt _ _).trans EReal.coe_lt_coe_iff

theorem selectVar_em {nb : Nat} (x : Fin nb → ℝ) : ∀ (l : List (Fin nb)) (p : Option (Fin nb)) (t : ℝ),
    selectVar (fun i => em (x i)) l (p, em t) = ((BnB.selectVar x l (p, t)).1, em (BnB.selectVar x l (p, t)).2)
  | [], p, t => rfl
  | v :: l, p, t => by
    unfold selectVar BnB.selectVar
    have e : Arith.abs (em (x v) -. c (1 / 2)) = em ((|x v - 0.5| : ℝ) : EReal) := by
      have e2 : (c (1 / 2) : X) = em (((0.5 : ℝ)) : EReal) := by rw [em_lit]; norm_num
      rw [e2, em_sub_real, em_abs_real]
    simp only [e]
    by_cases h : |x v - 0.5| < t
    · rw [if_pos h, if_pos ((em_lt _ _).mpr (EReal.coe_lt_coe_iff.mpr h))]
      exact selectVar_em x l _ _
    · rw [if_neg h, if_neg (fun h2 => h (EReal.coe_lt_coe_iff.mp ((em_lt _ _).mp h2)))]
      exact selectVar_em x l _ _

theorem createBranches_em {nb : Nat} {V : Type} (s : BnB.State nb V) (id : Nat) : createBranches (emS s) id = emE (BnB.createBranches s id) := by
  unfold createBranches BnB.createBranches
  have e : ((emS s).nodes id).pid = (s.nodes id).pid := rfl
  rw [e]
  cases (s.nodes id).pid with
  | none => rfl
  | some p =>
    show Except.ok _ = Except.ok (emS _)
    unfold emS
    simp only [emN_update]
    congr 2
    by_cases h : id = s.iteration
    · subst h; simp only [Function.update_self, emN]
    · simp only [Function.update_of_ne h, emN]

theorem update_em {nb : Nat} {V : Type} (O : BnB.Oracle nb V) (g : BnB.Setting) (s : BnB.State nb V) (id : Nat) :
    updateNodeBounds (emO O) (emC g) (emS s) id = emE (BnB.updateNodeBounds O g s id) := by
  unfold updateNodeBounds BnB.updateNodeBounds
  have e1 : (emS s).mat = s.mat := rfl
  rw [e1]
  by_cases h1 : ¬ legal (s.mat id)
  · rw [if_pos h1, if_pos h1]; rfl
  rw [if_neg h1, if_neg h1]
  have e2 : (emO O).solve (emS s).calls (s.mat id) = O.solve s.calls (s.mat id) := rfl
  simp only [e2]
  cases hacc : accepted (O.solve s.calls (s.mat id)).1 with
  | false =>
    simp only [Bool.false_eq_true, if_false]
    show Except.ok _ = Except.ok (emS _)
    unfold emS
    simp only [emN_update]
    rfl
  | true =>
    simp only [if_true]
    generalize hx : (O.solve s.calls (s.mat id)).2 = x
    have hr : ∀ i, (emO O).round ((emO O).bin x i) = some (cround (O.bin x i)) := fun i => emRound_em _
    rw [if_neg (by rintro ⟨i, hi⟩; rw [hr] at hi; cases hi)]
    simp only [hr, Option.getD_some]
    have hnear : (∀ i, near (emC g) ((emO O).bin x i) (cround (O.bin x i)) = true) ↔ ∀ i, |O.bin x i - cround (O.bin x i)| < g.intTol :=
      forall_congr' fun i => near_em g _ _
    by_cases h2 : ∀ i, |O.bin x i - cround (O.bin x i)| < g.intTol
    · rw [if_pos (hnear.mpr h2), if_pos h2]
      show Except.ok _ = Except.ok (emS _)
      unfold emS
      simp only [emN_update, em_ite]
      have hlt : ((emO O).obj x <. em s.ub) = true ↔ (O.obj x : EReal) < s.ub := em_lt _ _
      by_cases h3 : (O.obj x : EReal) < s.ub
      · simp only [if_pos h3, if_pos (hlt.mpr h3)]; rfl
      · simp only [if_neg h3, if_neg (fun h => h3 (hlt.mp h))]; rfl
    · rw [if_neg (fun h => h2 (hnear.mp h)), if_neg h2]
      have e6 : (fun i => ((emO O).round ((emO O).bin ((emO O).solve (emS s).calls (s.mat id)).2 i)).getD 0) = fun i => cround (O.bin x i) := by
        funext i; rw [e2, hx, hr]; rfl
      by_cases h3 : ¬ legal fun i => cround (O.bin x i)
      · rw [if_pos h3, if_pos (by rw [e6]; exact h3)]; rfl
      rw [if_neg h3, if_neg (by rw [e6]; exact h3)]
      have e3 : (emO O).solve ((emS s).calls + 1) (fun i => cround (O.bin x i)) = O.solve (s.calls + 1) (fun i => cround (O.bin x i)) := rfl
      have e4 : ∀ p : Option (Fin nb), (selectVar ((emO O).bin x) (List.finRange nb) (p, c 1)).1 = (BnB.selectVar (O.bin x) (List.finRange nb) (p, 1)).1 := fun p => by
        have := selectVar_em (O.bin x) (List.finRange nb) p 1
        have e : (c 1 : X) = em ((1 : ℝ) : EReal) := by rw [em_lit]; norm_num
        rw [e]
        exact congrArg Prod.fst this
      have e5 : ((emS s).nodes id).pid = (s.nodes id).pid := rfl
      simp only [e3, e4, e5]
      generalize O.solve (s.calls + 1) (fun i => cround (O.bin x i)) = q
      show Except.ok _ = Except.ok (emS _)
      have hlt : ∀ u : EReal, (em u <. em s.ub) = true ↔ u < s.ub := fun u => em_lt _ _
      cases hv : isOptimal q.1 with
      | true =>
        simp only [if_true]
        unfold emS
        simp only [emN_update, em_ite]
        have hl := hlt (O.obj q.2)
        by_cases h4 : (O.obj q.2 : EReal) < s.ub
        · simp only [if_pos h4, if_pos (show ((emO O).obj q.2 <. em s.ub) = true from hl.mpr h4)]; rfl
        · simp only [if_neg h4, if_neg (show ¬ ((emO O).obj q.2 <. em s.ub) = true from fun h => h4 (hl.mp h))]; rfl
      | false =>
        simp only [Bool.false_eq_true, if_false]
        unfold emS
        simp only [emN_update, em_ite]
        have hl := hlt (s.nodes id).ub
        by_cases h4 : (s.nodes id).ub < s.ub
        · simp only [if_pos h4, if_pos (show ((emN (s.nodes id)).ub <. em s.ub) = true from hl.mpr h4)]; rfl
        · simp only [if_neg h4, if_neg (show ¬ ((emN (s.nodes id)).ub <. em s.ub) = true from fun h => h4 (hl.mp h))]; rfl

theorem lowerBound_em {nb : Nat} (g : BnB.Setting) (nodes : Nat → BnB.Node nb) : ∀ k, lowerBound (emC g) (fun i => emN (nodes i)) k = em (BnB.lowerBound nodes k)
  | 0 => rfl
  | k + 1 => by
    unfold lowerBound BnB.lowerBound fmin
    rw [lowerBound_em g nodes k]
    show (if em (nodes k).lb <. _ then em (nodes k).lb else _) = _
    by_cases h : (nodes k).lb < BnB.lowerBound nodes k
    · rw [if_pos ((em_lt _ _).mpr h), min_eq_right h.le]
    · rw [if_neg (fun h2 => h ((em_lt _ _).mp h2)), min_eq_left (_root_.not_lt.mp h)]

theorem selectNode_em {nb : Nat} (g : BnB.Setting) (nodes : Nat → BnB.Node nb) : ∀ k,
    selectNode (emC g) (fun i => emN (nodes i)) k = ((BnB.selectNode nodes k).1, em (BnB.selectNode nodes k).2)
  | 0 => rfl
  | k + 1 => by
    unfold selectNode BnB.selectNode
    rw [selectNode_em g nodes k]
    have e : ((emN (nodes k)).status = .branchable ∧ ((emN (nodes k)).lb <. em (BnB.selectNode nodes k).2) = true) ↔
        ((nodes k).status = .branchable ∧ (nodes k).lb < (BnB.selectNode nodes k).2) := and_congr Iff.rfl (em_lt _ _)
    by_cases h : (nodes k).status = .branchable ∧ (nodes k).lb < (BnB.selectNode nodes k).2
    · simp only [if_pos h, if_pos (e.mpr h)]; rfl
    · simp only [if_neg h, if_neg (fun h2 => h (e.mp h2))]

theorem absExceeds_em (ub lb : EReal) (gap : ℝ) : (em gap <. em ub -. em lb) = true ↔ absExceeds ub lb gap := by
  rw [em_sub]
  unfold exAdd absExceeds
  split
  · rename_i h
    have : ub - lb = ⊥ := by rcases h with ⟨rfl, h⟩ | ⟨rfl, h⟩ <;> rw [sub_eq_add_neg, h] <;> rfl
    rw [this]
    show LbfgsF.cmp (· < ·) (em gap) FP.nan = true ↔ _
    simp [LbfgsF.cmp, em]
  · exact em_lt _ _

theorem nan_sub_em (y : EReal) : (FP.nan : X) -. em y = .nan := rfl
theorem abs_nan : Arith.abs (FP.nan : X) = .nan := rfl
theorem em_lt_nan (y : EReal) : (em y <. (FP.nan : X)) = false := rfl

theorem relExceeds_em (ub lb : EReal) (gap : ℝ) (h1 : ub ≠ ⊥) (h2 : lb ≠ ⊥) :
    (em gap <. Arith.abs (em ub /. em lb -. c 1)) = true ↔ relExceeds ub lb gap := by
  have e1 : (c 1 : X) = em ((1 : ℝ) : EReal) := by rw [em_lit]; norm_num
  have top : (em gap <. Arith.abs (em ⊤ -. em ((1 : ℝ) : EReal))) = true := by
    have : em ⊤ -. em ((1 : ℝ) : EReal) = em ⊤ := by
      rw [em_sub]; unfold exAdd
      rw [← EReal.coe_neg, if_neg (by simp only [EReal.coe_ne_top, EReal.coe_ne_bot]; simp)]
      show em _ = em _
      congr 1
    rw [this, em_abs, em_lt]; simp
  have bot : (em gap <. Arith.abs (em ⊥ -. em ((1 : ℝ) : EReal))) = true := by
    have : em ⊥ -. em ((1 : ℝ) : EReal) = em ⊥ := by
      rw [em_sub]; unfold exAdd
      rw [← EReal.coe_neg, if_neg (by simp only [EReal.coe_ne_top, EReal.coe_ne_bot]; simp)]
      show em _ = em _
      congr 1
    rw [this, em_abs, em_lt]; simp
  rw [e1]
  unfold relExceeds
  rw [em_div]
  unfold exDiv
  induction ub with
  | bot => exact absurd rfl h1
  | top =>
    rw [if_pos rfl]
    induction lb with
    | bot => exact absurd rfl h2
    | top => simp [nan_sub_em, abs_nan, em_lt_nan]
    | coe l =>
      rw [if_neg (by simp)]
      rcases lt_trichotomy l 0 with hl | rfl | hl
      · rw [if_neg (by simpa using hl.ne), EReal.top_div_of_neg_ne_bot (by exact_mod_cast hl) (by simp)]
        simpa using bot
      · rw [if_pos (by simp)]; simpa using top
      · rw [if_neg (by simpa using hl.ne'), EReal.top_div_of_pos_ne_top (by exact_mod_cast hl) (by simp)]
        simpa using top
  | coe u =>
    rw [if_neg (by simp : ¬ ((u : EReal) = ⊤))]
    induction lb with
    | bot => exact absurd rfl h2
    | top =>
      rw [if_neg (by simp), if_neg (by simp), if_pos rfl]
      show (em gap <. Arith.abs (em ((u : EReal) / ⊤) -. em ((1 : ℝ) : EReal))) = true ↔ _
      rw [EReal.div_top, show (0 : EReal) = ((0 : ℝ) : EReal) from rfl, em_sub_real, em_abs_real, em_lt, EReal.coe_lt_coe_iff]
      norm_num
    | coe l =>
      rw [if_neg (by simp : ¬ ((l : EReal) = ⊤))]
      by_cases hl : l = 0
      · subst hl
        rw [if_pos (show ((0 : ℝ) : EReal) = 0 from rfl)]
        by_cases hu : u = 0
        · subst hu
          rw [if_pos (by simp)]
          simp [nan_sub_em, abs_nan, em_lt_nan]
        · have : (u : EReal) ≠ 0 := by simpa using hu
          rw [if_neg (by simp [hu]), if_pos (show ((0 : ℝ) : EReal) = 0 from rfl)]
          refine iff_of_true ?_ this
          by_cases hp : 0 < (u : EReal)
          · rw [if_pos hp]; exact top
          · rw [if_neg hp]; exact bot
      · rw [if_neg (by simp [hl]), if_neg (by simpa using hl), if_neg (by simpa using hl)]
        show (em gap <. Arith.abs (em ((u : EReal) / l) -. em ((1 : ℝ) : EReal))) = true ↔ _
        rw [← EReal.coe_div, em_sub_real, em_abs_real, em_lt, EReal.coe_lt_coe_iff]
        simp

theorem check_em {nb : Nat} {V : Type} (g : BnB.Setting) (s : BnB.State nb V) (h1 : s.ub ≠ ⊥) (h2 : s.lb ≠ ⊥) : check (emC g) (emS s) ↔ BnB.check g s :=
  and_congr (absExceeds_em _ _ _) (and_congr (relExceeds_em _ _ _ h1 h2) Iff.rfl)

theorem exitcode_em {nb : Nat} {V : Type} (g : BnB.Setting) (s : BnB.State nb V) : exitcode (emC g) (emS s) = BnB.exitcode g s := by
  unfold exitcode BnB.exitcode isinf
  have a1 : ((emS s).ub ==. (emC g).inf) = true ↔ s.ub = ⊤ := em_eq _ _
  have a2 : ((emS s).ub ==. Arith.neg (emC g).inf) = true ↔ s.ub = ⊥ := by
    refine (em_eq _ (-⊤)).trans ?_
    simp
  have a3 : (c 0 <=. (emS s).ub) = true ↔ 0 ≤ s.ub := by
    have e : (c 0 : X) = em 0 := by rw [em_lit]; simp
    rw [e]; exact em_le _ _
  simp only [Bool.or_eq_true, a1, a2, a3]
  by_cases h1 : s.ub = ⊤
  · simp [h1]; rfl
  · by_cases h2 : s.ub = ⊥
    · simp [h2]; rfl
    · simp [h1, h2]; rfl

theorem root_em {nb : Nat} {V : Type} (O : BnB.Oracle nb V) (g : BnB.Setting) (nodes0 : Nat → BnB.Node nb) (opt0 : V) :
    root (emO O) (emC g) (fun i => emN (nodes0 i)) opt0 = emE (BnB.root O g nodes0 opt0) := by
  have h := update_em O g
    { nodes := Function.update nodes0 0 { nodes0 0 with status := .notSolved, lb := ⊥, ub := ⊤ }
      mat := fun _ _ => -1, iteration := 0, nodeId := some 0, ub := ⊤, lb := ⊥, opt := opt0, calls := 0, log := [] } 0
  have e : (emS ({ nodes := Function.update nodes0 0 { nodes0 0 with status := .notSolved, lb := ⊥, ub := ⊤ }
                   mat := fun _ _ => -1, iteration := 0, nodeId := some 0, ub := ⊤, lb := ⊥, opt := opt0, calls := 0, log := [] } : BnB.State nb V)) =
      { nodes := Function.update (fun i => emN (nodes0 i)) 0 { emN (nodes0 0) with status := .notSolved, lb := Arith.neg (emC g).inf, ub := (emC g).inf }
        mat := fun _ _ => -1, iteration := 0, nodeId := some 0, ub := (emC g).inf, lb := Arith.neg (emC g).inf, opt := opt0, calls := 0, log := [] } := by
    unfold emS
    simp only [emN_update]
    have : Arith.neg (emC g).inf = em ⊥ := by show em (-⊤) = em ⊥; simp
    rw [this]
    rfl
  rw [e] at h
  unfold root BnB.root
  rw [h]
  cases BnB.updateNodeBounds O g _ 0 with
  | error e => rfl
  | ok s => rfl

theorem body_em {nb : Nat} {V : Type} (O : BnB.Oracle nb V) (g : BnB.Setting) (s : BnB.State nb V) (id : Nat) :
    body (emO O) (emC g) (emS s) id = emE (BnB.body O g s id) := by
  unfold body BnB.body
  have h1 := createBranches_em { s with iteration := s.iteration + 1 } id
  change createBranches { emS s with iteration := (emS s).iteration + 1 } id = _ at h1
  rw [h1]
  cases BnB.createBranches { s with iteration := s.iteration + 1 } id with
  | error e => rfl
  | ok s1 =>
    change (updateNodeBounds (emO O) (emC g) (emS s1) id >>= _) = emE (BnB.updateNodeBounds O g s1 id >>= _)
    rw [update_em]
    cases BnB.updateNodeBounds O g s1 id with
    | error e => rfl
    | ok s2 =>
      change (updateNodeBounds (emO O) (emC g) (emS s2) s2.iteration >>= _) = emE (BnB.updateNodeBounds O g s2 s2.iteration >>= _)
      rw [update_em]
      cases BnB.updateNodeBounds O g s2 s2.iteration with
      | error e => rfl
      | ok s3 =>
        show Except.ok _ = Except.ok _
        congr 1
        show _ = emS _
        have e1 := lowerBound_em g s3.nodes (s3.iteration + 1)
        have e2 := selectNode_em g s3.nodes (s3.iteration + 1)
        unfold emS
        simp only
        rw [e1, e2]

/-! ### the runs agree -/

theorem reach_em {nb : Nat} {V : Type} (O : BnB.Oracle nb V) (g : BnB.Setting) (hgap : 0 ≤ g.absGap) (nodes0 : Nat → BnB.Node nb) (opt0 : V) (t : State X nb V) :
    Reach (emO O) (emC g) (fun i => emN (nodes0 i)) opt0 t ↔ ∃ s, BnB.Reach O g nodes0 opt0 s ∧ t = emS s := by
  constructor
  · intro h
    induction h with
    | root h =>
      rw [root_em] at h
      generalize hr : BnB.root O g nodes0 opt0 = r at h
      cases r with
      | error e => cases h
      | ok s => injection h with h; exact ⟨s, .root hr, h.symm⟩
    | @step t t' id h hc hid hs ih =>
      obtain ⟨s, hs1, rfl⟩ := ih
      have hc' := (check_em g s (inv_reach hgap hs1).notBot (lb_ne_bot hgap hs1)).mp hc
      rw [body_em] at hs
      generalize hr : BnB.body O g s id = r at hs
      cases r with
      | error e => cases hs
      | ok s' => injection hs with hs; exact ⟨s', .step hs1 hc' hid hr, hs.symm⟩
  · rintro ⟨s, h, rfl⟩
    induction h with
    | root h => exact .root (by rw [root_em, h]; rfl)
    | @step s s' id h hc hid hs ih =>
      exact .step ih ((check_em g s (inv_reach hgap h).notBot (lb_ne_bot hgap h)).mpr hc) hid (by rw [body_em, hs]; rfl)

/-- With exact arithmetic on extended reals with NaN, and a relaxation solver that answers with real numbers, the model in arbitrary arithmetic has exactly the
outcomes of the model of C24-C26, state for state. -/
theorem run_real {nb : Nat} {V : Type} (O : BnB.Oracle nb V) (g : BnB.Setting) (hgap : 0 ≤ g.absGap) (nodes0 : Nat → BnB.Node nb) (opt0 : V)
    (t : Except Fault (Code × State X nb V)) :
    Run (emO O) (emC g) (fun i => emN (nodes0 i)) opt0 t ↔ ∃ r, BnB.Run O g nodes0 opt0 r ∧ t = emR r := by
  constructor
  · intro h
    cases h with
    | rootFault h =>
      rw [root_em] at h
      generalize hr : BnB.root O g nodes0 opt0 = r at h
      cases r with
      | error e => injection h with h; exact ⟨_, .rootFault hr, by rw [← h]; rfl⟩
      | ok s => cases h
    | fault h hc hid hs =>
      obtain ⟨s, hs1, rfl⟩ := (reach_em O g hgap nodes0 opt0 _).mp h
      have hc' := (check_em g s (inv_reach hgap hs1).notBot (lb_ne_bot hgap hs1)).mp hc
      rw [body_em] at hs
      generalize hr : BnB.body O g s _ = r at hs
      cases r with
      | error e => injection hs with hs; exact ⟨_, .fault hs1 hc' hid hr, by rw [← hs]; rfl⟩
      | ok s' => cases hs
    | done h hc =>
      obtain ⟨s, hs1, rfl⟩ := (reach_em O g hgap nodes0 opt0 _).mp h
      exact ⟨_, .done hs1 (fun h2 => hc ((check_em g s (inv_reach hgap hs1).notBot (lb_ne_bot hgap hs1)).mpr h2)), by rw [exitcode_em]; rfl⟩
  · rintro ⟨r, h, rfl⟩
    cases h with
    | rootFault h => exact .rootFault (by rw [root_em, h]; rfl)
    | @fault s id e h hc hid hs =>
      exact .fault ((reach_em O g hgap nodes0 opt0 _).mpr ⟨s, h, rfl⟩) ((check_em g s (inv_reach hgap h).notBot (lb_ne_bot hgap h)).mpr hc) hid
        (by rw [body_em, hs]; rfl)
    | @done s h hc =>
      have := Run.done ((reach_em O g hgap nodes0 opt0 _).mpr ⟨s, h, rfl⟩)
        (fun h2 => hc ((check_em g s (inv_reach hgap h).notBot (lb_ne_bot hgap h)).mp h2))
      rw [exitcode_em] at this
      exact this

/-- There are such runs for every problem: the right-hand side of `run_real` is never empty. -/
example {nb : Nat} {V : Type} (O : BnB.Oracle nb V) (g : BnB.Setting) (hgap : 0 ≤ g.absGap) (nodes0 : Nat → BnB.Node nb) (opt0 : V) :
    ∃ r, Run (emO O) (emC g) (fun i => emN (nodes0 i)) opt0 (emR r) ∧ BnB.Run O g nodes0 opt0 r := by
  obtain ⟨r, h⟩ := exists_run O g nodes0 opt0
  exact ⟨r, (run_real O g hgap nodes0 opt0 _).mpr ⟨r, h, rfl⟩, h⟩

end BnBF
end Verif
