/-
C219 and C220 for programs that declare continuous variables, a weighted sum of squares and constraints (the dynamics and the kinematics
optimiser). No code is modelled here.
-/
import Verif.DynOptSolve
import Verif.ConicEndProps

namespace Verif
namespace ConicEnd
open Equil Finset IP LinExpr

/-- A call of the interior point solver: its settings, the number of equilibration rounds, the answers of the linear solver and what its
memory holds. -/
structure Call where
  g : Stg
  iters : Nat
  lin : LinOracle
  old : Pt × Info
  rhs2 : Tri
  o0 : Pt
  i0 : Info

/-- Sensible settings: steps are scaled by a factor in [0, 1), the minimal step is positive, at least one iteration, the relative tolerances
do not exceed the number that stands for an undefined value. -/
def Call.Sane (v : Call) : Prop := v.g.Sane ∧ 1 ≤ v.g.maxIters ∧ v.g.reltol ≤ nanv ∧ v.g.reltolInacc ≤ nanv

/-- The output of the solver for the equilibrated problem in the storage. -/
noncomputable def Call.out (v : Call) (c : Cone) (S0 : Storage) : Out :=
  (optimize c v.g (setEquilibration c v.iters S0).1 v.lin v.old v.rhs2 v.o0 v.i0).1

/-- The returned vector, scaled back. -/
noncomputable def Call.res (v : Call) (c : Cone) (S0 : Storage) : Nat → ℝ := (v.out c S0).reported c (setEquilibration c v.iters S0).2

/-- The solver reports an optimal or inaccurately optimal exit, its iterate is inside the cones and `ε` covers every row. -/
def Call.Reports (v : Call) (c : Cone) (S0 : Storage) (ε : ℝ) : Prop :=
  ((v.out c S0).code = .optimal ∨ (v.out c S0).code = .optimalInacc) ∧ Inside c (v.out c S0).opt ∧ 0 ≤ ε ∧
  Covers c v.g (setEquilibration c v.iters S0).1 (setEquilibration c v.iters S0).2 (v.out c S0) ε

/-- How far the cost of the returned point may exceed that of the feasible point `y`: the complementarity product plus tolerance-sized
multiples of the distance to `y` and of the multipliers. -/
noncomputable def Call.gap (v : Call) (c : Cone) (S0 : Storage) (y : Nat → ℝ) : ℝ :=
  let S := (setEquilibration c v.iters S0).1
  let e := (setEquilibration c v.iters S0).2
  let q := v.out c S0
  let w := v.res c S0
  ∑ k ∈ range c.sizecone, os c w k * oz c w k
    + tolF v.g q.code * (denX c S q.opt * ∑ j ∈ range c.nvars, e j * |ox c w j - y j|
      + denY c S q.opt * ∑ r ∈ range c.neq, e (c.nvars + r) * |oy c w r|
      + denZ c S q.opt * ∑ r ∈ range c.sizecone, e (c.nvars + c.neq + r) * |oz c w r|)

/-- Total weight of the squares. -/
noncomputable def weight (ts : List (ℝ × LinExpr ℝ)) (cons : List Op) (w : ℝ) (warm : Bool) : ℝ :=
  (ts.map (·.1)).sum + (if warm then 0 else w * softCount cons)

theorem weight_filter (ts : List (ℝ × LinExpr ℝ)) : ((ts.filter (fun t => t.1 ≠ 0)).map (·.1)).sum = (ts.map (·.1)).sum := by
  induction ts with
  | nil => rfl
  | cons t ts ih =>
    by_cases h : t.1 = 0
    · rw [List.filter_cons_of_neg (by simp [h]), ih]; simp [h]
    · rw [List.filter_cons_of_pos (by simp [h])]; simp only [List.map_cons, List.sum_cons, ih]

theorem softCount_append (l r : List Op) : softCount (l ++ r) = softCount l + softCount r := by
  unfold softCount; rw [List.filter_append, List.length_append]

theorem softCount_vars (is : List Int) (inf : ℝ) (guess : Int → ℝ) :
    softCount (is.map fun i => Op.addVar .continuous (-inf) inf (guess i)) = 0 := by
  unfold softCount
  rw [List.length_eq_zero_iff, List.filter_eq_nil_iff]
  intro op h; obtain ⟨i, _, rfl⟩ := List.mem_map.1 h; simp

theorem softCount_program (is : List Int) (inf : ℝ) (guess : Int → ℝ) (ts : List (ℝ × LinExpr ℝ)) (cons : List Op) :
    softCount (Dyn.program is inf guess ts cons) = softCount cons := by
  unfold Dyn.program
  rw [softCount_append, softCount_append, softCount_vars, zero_add, show softCount [Op.setObj (Kin.TCtx.quadOf ts) (ofConst 0)] = 0 from rfl, zero_add]

/-- C219 and C220 for such programs. -/
theorem program_end (is : List Int) (inf : ℝ) (hinf : 0 ≤ inf) (guess : Int → ℝ) (ts : List (ℝ × LinExpr ℝ)) (cons : List Op)
    (hc : ∀ op ∈ cons, Dyn.IsCons op ∧ op.Ok (List.range is.length) ∧ op.Regular)
    (ht : ∀ p ∈ ts, Kin.OverN is.length p.2) (hw : ∀ p ∈ ts, 0 ≤ p.1) (x0 : Nat → ℝ) (thr w : ℝ) (hw0 : 0 ≤ w) (warm : Bool)
    (v : Call) (hv : v.Sane) :
    ∃ f S0, (ApiState.init.run (Dyn.program is inf guess ts cons)).p.build x0 thr w warm = some f ∧ ConicStore.toStorage f = some S0 ∧
      let c := ConicStore.toCone f
      let x := ox c (v.res c S0)
      ∀ ε, v.Reports c S0 ε →
        (∀ op ∈ cons, op.NearlyHolds ε x0 thr warm x) ∧
        ∀ y, (∀ op ∈ cons, op.Holds x0 thr warm y) → ∃ y', (∀ k < is.length, y' k = y k) ∧ f.Feasible y' ∧
          Dyn.wsum x ts + (if warm then 0 else w * (cons.map (Op.softTerm x0 x)).sum) ≤
            (1 + sqErr ε) * (Dyn.wsum y ts + (if warm then 0 else w * (cons.map (Op.softTerm x0 y)).sum) + v.gap c S0 y') +
              (sqErr ε + sqErr ε ^ 2) * weight ts cons w warm := by
  obtain ⟨h1, h2, h3, h4, h5, holds, hmem, hwn, hpen⟩ := Dyn.conic_program is inf hinf guess ts cons hc ht hw x0 thr w warm
  obtain ⟨g1, g2, g3, g4⟩ := hv
  obtain ⟨f, S0, hf, hS, hA⟩ := C219_constraints _ h1 h2 h3 x0 thr w warm v.g g1 v.iters v.lin v.old v.rhs2 v.o0 v.i0 g2 ⟨g3, g4⟩
  obtain ⟨f', S', hf', hS', hB⟩ := C220_objective _ h1 h2 h3 _ _ hmem hwn x0 thr w hw0 warm v.g g1 v.iters v.lin v.old v.rhs2 v.o0 v.i0 g2 ⟨g3, g4⟩
  obtain rfl : f = f' := Option.some.inj (hf.symm.trans hf')
  obtain rfl : S0 = S' := Option.some.inj (hS.symm.trans hS')
  refine ⟨f, S0, hf, hS, ?_⟩
  intro c x ε hrep
  obtain ⟨r1, r2, r3, r4⟩ := hrep
  refine ⟨fun op ho => (hA r1 r2 ε r3 r4).2.1 op (by unfold Dyn.program; simp [ho]), fun y hy => ?_⟩
  obtain ⟨y', a1, a2, a3⟩ := hB r1 r2 ε r3 r4 y ((holds y).2 hy) (h5 y)
  rw [h4] at a1
  refine ⟨y', fun k hk => a1 k (List.mem_range.2 hk), a2, ?_⟩
  have hl : ∀ u, linearPart (Kin.TCtx.quadOf ts) (ofConst 0) u = 0 := by
    intro u; unfold linearPart; rw [(Kin.quadOf_quad _).2]; simp [LinExpr.ofConst_value]
  have hs : ∀ u, squares (Dyn.program is inf guess ts cons) (Kin.TCtx.quadOf ts) w warm x0 u =
      Dyn.wsum u ts + (if warm then 0 else w * (cons.map (Op.softTerm x0 u)).sum) := by
    intro u
    have := penalised_split (Dyn.program is inf guess ts cons) (Kin.TCtx.quadOf ts) (ofConst 0) w warm x0 u
    rw [hl, add_zero] at this
    rw [← this]; exact hpen u
  have ht' : totalWeight (Dyn.program is inf guess ts cons) (Kin.TCtx.quadOf ts) w warm = weight ts cons w warm := by
    unfold totalWeight weight
    rw [(Kin.quadOf_quad _).1, weight_filter, softCount_program]
  rw [hs, hpen, hl, sub_zero, ht', add_assoc (_ + _)] at a3
  exact a3

/-! ### the hypotheses are met -/

/-- Every problem has a call of the solver that reports an optimal exit, whatever the linear solver answers: with coarse enough tolerances
the first iterate is accepted. -/
theorem exists_call (c : Cone) (hne : c.NoEmpty) (S0 : Storage) (iters : Nat) (lin : LinOracle) (hl : lin.fact 0 = true)
    (old : Pt × Info) (rhs2 : Tri) (o0 : Pt) (i0 : Info) :
    ∃ g : Stg, (⟨g, iters, lin, old, rhs2, o0, i0⟩ : Call).Sane ∧ ∃ ε, (⟨g, iters, lin, old, rhs2, o0, i0⟩ : Call).Reports c S0 ε := by
  set S := (setEquilibration c iters S0).1 with hS
  set p := initPt c S lin rhs2 with hp
  set r := computeResiduals c S p with hr
  set i := updateStatistics c exG S p r with hi
  let g : Stg := { exG with feastol := |i.pres| + |i.dres| + 1, abstol := |i.gap| + |r.by_ + r.hz| + 1 }
  have hs : (updateStatistics c g S p r).pres = i.pres ∧ (updateStatistics c g S p r).dres = i.dres ∧
    (updateStatistics c g S p r).gap = i.gap := ⟨rfl, rfl, rfl⟩
  have hchk : convergenceCheck g true r (updateStatistics c g S p r) p = .optimal := by
    unfold convergenceCheck
    simp only [if_true]
    rw [if_pos]
    refine ⟨Or.inr ?_, ⟨?_, ?_⟩, Or.inl ?_⟩
    · show r.by_ + r.hz ≤ |i.gap| + |r.by_ + r.hz| + 1
      linarith [le_abs_self (r.by_ + r.hz), abs_nonneg i.gap]
    · rw [hs.1]; show i.pres < |i.pres| + |i.dres| + 1
      linarith [le_abs_self i.pres, abs_nonneg i.dres]
    · rw [hs.2.1]; show i.dres < |i.pres| + |i.dres| + 1
      linarith [le_abs_self i.dres, abs_nonneg i.pres]
    · rw [hs.2.2]; show i.gap < |i.gap| + |r.by_ + r.hz| + 1
      linarith [le_abs_self i.gap, abs_nonneg (r.by_ + r.hz)]
  have hout : (⟨g, iters, lin, old, rhs2, o0, i0⟩ : Call).out c S0 = ⟨.optimal, p, true, updateStatistics c g S p r, 0, 0⟩ :=
    optimize_first c g S lin old rhs2 o0 i0 hl (show (0 : Int) ≤ exG.maxIters by decide) .optimal (by simp) hchk
  refine ⟨g, ⟨⟨by norm_num [g, exG], by norm_num [g, exG], by norm_num [g, exG]⟩, (show (1 : Int) ≤ exG.maxIters by decide), by norm_num [g, exG, nanv], by norm_num [g, exG, nanv]⟩, ?_⟩
  let v : Call := ⟨g, iters, lin, old, rhs2, o0, i0⟩
  let e := (setEquilibration c iters S0).2
  refine ⟨∑ k ∈ range c.neq, |e (c.nvars + k) * (tolF g (v.out c S0).code * denY c S (v.out c S0).opt)| +
    ∑ k ∈ range c.sizecone, |e (c.nvars + c.neq + k) * (tolF g (v.out c S0).code * denZ c S (v.out c S0).opt)|, ?_, ?_, ?_, ?_, ?_⟩
  · left; rw [hout]
  · rw [hout]
    exact ⟨(Cone.C17_projection c hne _).1, (Cone.C17_projection c hne _).1, one_pos, one_pos⟩
  · exact add_nonneg (sum_nonneg fun _ _ => abs_nonneg _) (sum_nonneg fun _ _ => abs_nonneg _)
  · intro k hk
    refine (le_abs_self _).trans ((single_le_sum (f := fun k => |e (c.nvars + k) * (tolF g (v.out c S0).code * denY c S (v.out c S0).opt)|)
      (fun _ _ => abs_nonneg _) (mem_range.2 hk)).trans ?_)
    linarith [sum_nonneg (s := range c.sizecone) (f := fun k => |e (c.nvars + c.neq + k) * (tolF g (v.out c S0).code * denZ c S (v.out c S0).opt)|)
      fun _ _ => abs_nonneg _]
  · intro k hk
    refine (le_abs_self _).trans ((single_le_sum (f := fun k => |e (c.nvars + c.neq + k) * (tolF g (v.out c S0).code * denZ c S (v.out c S0).opt)|)
      (fun _ _ => abs_nonneg _) (mem_range.2 hk)).trans ?_)
    linarith [sum_nonneg (s := range c.neq) (f := fun k => |e (c.nvars + k) * (tolF g (v.out c S0).code * denY c S (v.out c S0).opt)|)
      fun _ _ => abs_nonneg _]

end ConicEnd
end Verif
