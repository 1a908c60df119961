import Verif.LinExprLemmas
import Mathlib.Data.Rat.Defs
import Mathlib.Algebra.Field.Rat
import Mathlib.Tactic.NormNum

/-! Properties C01-C04 (linear expressions). -/
namespace Verif

/-! ### Specification -/

/-- The arithmetic the user wrote, on the values of the variables. -/
def ExprProg.val {K : Type} [Field K] (x : Nat → K) : ExprProg K → K
  | .const a => a
  | .var v => x v
  | .term v a => a * x v
  | .varDiv v a => x v / a
  | .add e f => e.val x + f.val x
  | .sub e f => e.val x - f.val x
  | .neg e => - e.val x
  | .addC e a => e.val x + a
  | .subC e a => e.val x - a
  | .cSub a e => a - e.val x
  | .addV e v => e.val x + x v
  | .subV e v => e.val x - x v
  | .vSub v e => x v - e.val x
  | .mul e a => e.val x * a
  | .div e a => e.val x / a
  | .mulAssign e a => e.val x * a
  | .divAssign e a => e.val x / a

/-- The program never divides by zero (in C++ that would give infinities or NaN). -/
def ExprProg.DivSafe {K : Type} [Field K] : ExprProg K → Prop
  | .const _ | .var _ | .term _ _ => True
  | .varDiv _ a => a ≠ 0
  | .add e f | .sub e f => e.DivSafe ∧ f.DivSafe
  | .neg e | .addC e _ | .subC e _ | .cSub _ e | .addV e _ | .subV e _ | .vSub _ e
  | .mul e _ | .mulAssign e _ => e.DivSafe
  | .div e a | .divAssign e a => a ≠ 0 ∧ e.DivSafe

/-- The variables the user mentioned. -/
def ExprProg.vars {K : Type} : ExprProg K → List Nat
  | .const _ => []
  | .var v | .term v _ | .varDiv v _ => [v]
  | .add e f | .sub e f => e.vars ++ f.vars
  | .neg e | .addC e _ | .subC e _ | .cSub _ e
  | .mul e _ | .mulAssign e _ | .div e _ | .divAssign e _ => e.vars
  | .addV e v | .subV e v | .vSub v e => v :: e.vars

variable {K : Type} [Field K] [DecidableEq K]

/-! ### C01 -/

/-- C01: the value of the expression the library builds is the value of the arithmetic the user wrote. -/
theorem C01_expression_arithmetic (p : ExprProg K) (hd : p.DivSafe) (x : Nat → K) :
    p.run.getValue x = p.val x := by
  induction p with
  | const a => simp [ExprProg.run, ExprProg.val]
  | var v => simp [ExprProg.run, ExprProg.val]
  | term v a => simp [ExprProg.run, ExprProg.val]
  | varDiv v a => simp [ExprProg.run, ExprProg.val]; ring
  | add e f he hf =>
    simp only [ExprProg.run, ExprProg.val, LinExpr.add, LinExpr.addAssign_value, he hd.1, hf hd.2]
  | sub e f he hf =>
    simp only [ExprProg.run, ExprProg.val, LinExpr.sub_value, he hd.1, hf hd.2]
  | neg e he =>
    simp only [ExprProg.run, ExprProg.val, LinExpr.neg, LinExpr.sub_value, he hd, LinExpr.ofConst_value]
    ring
  | addC e a he =>
    simp only [ExprProg.run, ExprProg.val, LinExpr.addC, LinExpr.addAssign_value, he hd, LinExpr.ofConst_value]
  | subC e a he =>
    simp only [ExprProg.run, ExprProg.val, LinExpr.subC, LinExpr.addAssign_value, he hd, LinExpr.ofConst_value]
    ring
  | cSub a e he =>
    simp only [ExprProg.run, ExprProg.val, LinExpr.sub_value, he hd, LinExpr.ofConst_value]
  | addV e v he =>
    simp only [ExprProg.run, ExprProg.val, LinExpr.addV, LinExpr.addAssign_value, he hd, LinExpr.ofVar_value]
    ring
  | subV e v he =>
    simp only [ExprProg.run, ExprProg.val, LinExpr.subV, LinExpr.addAssign_value, he hd, LinExpr.ofVar_value]
    ring
  | vSub v e he =>
    simp only [ExprProg.run, ExprProg.val, LinExpr.sub_value, he hd, LinExpr.ofVar_value]
    ring
  | mul e a he => simp only [ExprProg.run, ExprProg.val, LinExpr.mul_value, he hd]
  | div e a he =>
    simp only [ExprProg.run, ExprProg.val, LinExpr.div, LinExpr.mul_value, he hd.2]; ring
  | mulAssign e a he =>
    have := he hd
    simp only [ExprProg.run, ExprProg.val, LinExpr.mulAssign, LinExpr.getValue_eq, LinExpr.tsum_scale] at *
    rw [← this]; ring
  | divAssign e a he =>
    have := he hd.2
    have h2 := LinExpr.tsum_scale x a⁻¹ e.run.terms
    simp only [ExprProg.run, ExprProg.val, LinExpr.divAssign, LinExpr.getValue_eq, div_eq_mul_inv, h2] at *
    rw [← this]; ring

/-- Non-vacuity: `((3 x0 + x1 - x0) * 2 - (x1/4)) /= 5` is division-safe and has a merged variable. -/
example : (ExprProg.divAssign (.sub (.mul (.subV (.addV (.term 0 3) 1) 0) 2) (.varDiv 1 4)) (5 : ℚ)).DivSafe := by
  simp [ExprProg.DivSafe]

/-- C01 for `DCPQuadExpr`: adding a quadratic term adds `c * l²` to the value (also when the
zero-weight term is dropped), and linear terms do not change it. -/
theorem C01_quadratic_value (q : QuadExpr K) (c : K) (l m : LinExpr K) (x : Nat → K) :
    ((q.addQuaTerm c l).addLinTerm m).getValue x = q.getValue x + c * (l.getValue x) ^ 2 ∧
    ((q.addQuaTerm c l).addLinTerm m).lin.getValue x = q.lin.getValue x + m.getValue x := by
  constructor
  · unfold QuadExpr.addLinTerm QuadExpr.addQuaTerm QuadExpr.getValue
    by_cases h : c = 0 <;> simp [h, List.foldl_append]
  · unfold QuadExpr.addLinTerm QuadExpr.addQuaTerm
    by_cases h : c = 0 <;> simp [h, LinExpr.addAssign_value]

/-! ### C02 -/

/-- C02: an expression built by any user program holds at most one term per variable, and only
variables the user mentioned. -/
theorem C02_one_term_per_variable (p : ExprProg K) :
    (p.run.terms.map Prod.fst).Nodup ∧ ∀ v ∈ p.run.terms.map Prod.fst, v ∈ p.vars := by
  change (LinExpr.cols p.run.terms).Nodup ∧ ∀ v ∈ LinExpr.cols p.run.terms, v ∈ p.vars
  have key : ∀ (e r : LinExpr K) (l : List Nat), (∀ v ∈ LinExpr.cols e.terms, v ∈ l) →
      (∀ v ∈ LinExpr.cols r.terms, v ∈ l) → (LinExpr.cols (e.addAssign r).terms).Nodup ∧
        ∀ v ∈ LinExpr.cols (e.addAssign r).terms, v ∈ l := by
    intro e r l h1 h2
    refine ⟨LinExpr.addAssign_nodup _ _, fun v hv => ?_⟩
    rcases LinExpr.addAssign_subset _ _ v hv with h | h
    · exact h1 v h
    · exact h2 v h
  have c0 : ∀ (a : K) (l : List Nat), ∀ v ∈ LinExpr.cols (LinExpr.ofConst a).terms, v ∈ l := by
    simp [LinExpr.cols, LinExpr.ofConst]
  have v0 : ∀ (u : Nat) (a : K) (l : List Nat), u ∈ l →
      ∀ v ∈ LinExpr.cols (LinExpr.ofVar u a).terms, v ∈ l := by
    intro u a l hu; simp [LinExpr.cols, LinExpr.ofVar, hu]
  have m0 : ∀ (e : LinExpr K) (a : K) (l : List Nat), (∀ v ∈ LinExpr.cols e.terms, v ∈ l) →
      ∀ v ∈ LinExpr.cols (e.mul a).terms, v ∈ l :=
    fun e a l h v hv => h v (LinExpr.mul_subset _ _ v hv)
  induction p with
  | const a => simp [ExprProg.run, LinExpr.ofConst, LinExpr.cols]
  | var v => simp [ExprProg.run, LinExpr.ofVar, LinExpr.cols, ExprProg.vars]
  | term v a => simp [ExprProg.run, LinExpr.ofVar, LinExpr.cols, ExprProg.vars]
  | varDiv v a => simp [ExprProg.run, LinExpr.ofVar, LinExpr.cols, ExprProg.vars]
  | add e f he hf =>
    exact key _ _ _ (fun v h => by simp [ExprProg.vars, he.2 v h]) (fun v h => by simp [ExprProg.vars, hf.2 v h])
  | sub e f he hf =>
    exact key _ _ _ (fun v h => by simp [ExprProg.vars, he.2 v h])
      (m0 _ _ _ fun v h => by simp [ExprProg.vars, hf.2 v h])
  | neg e he => exact key _ _ _ (c0 _ _) (m0 _ _ _ he.2)
  | addC e a he => exact key _ _ _ he.2 (c0 _ _)
  | subC e a he => exact key _ _ _ he.2 (c0 _ _)
  | cSub a e he => exact key _ _ _ (c0 _ _) (m0 _ _ _ he.2)
  | addV e v he =>
    exact key _ _ _ (fun w h => by simp [ExprProg.vars, he.2 w h]) (v0 _ _ _ (by simp [ExprProg.vars]))
  | subV e v he =>
    exact key _ _ _ (fun w h => by simp [ExprProg.vars, he.2 w h]) (v0 _ _ _ (by simp [ExprProg.vars]))
  | vSub v e he =>
    exact key _ _ _ (v0 _ _ _ (by simp [ExprProg.vars]))
      (m0 _ _ _ fun w h => by simp [ExprProg.vars, he.2 w h])
  | mul e a he => exact ⟨LinExpr.mul_nodup _ _, m0 _ _ _ he.2⟩
  | div e a he => exact ⟨LinExpr.mul_nodup _ _, m0 _ _ _ he.2⟩
  | mulAssign e a he =>
    simpa [ExprProg.run, LinExpr.mulAssign, LinExpr.cols_scale (fun t => t * a), ExprProg.vars] using he
  | divAssign e a he =>
    simpa [ExprProg.run, LinExpr.divAssign, LinExpr.cols_scale (fun t => t / a), ExprProg.vars] using he

/-! ### C03 -/

/-- C03 is false of the code: an exact cancellation leaves a zero coefficient behind, so the result of
`clean` need not be accepted by `isClean`, and cleaning it again changes it. -/
theorem C03_violated : ∃ e : LinExpr ℚ,
    (LinExpr.clean e).isClean = false ∧ LinExpr.clean (LinExpr.clean e) ≠ LinExpr.clean e :=
  ⟨⟨0, [(0, 1), (1, 1), (1, -1)]⟩, by decide +kernel, by decide +kernel⟩

/-- The same seen through the operators: `x0 + x1 - x1` is an expression `isClean` rejects. -/
theorem C03_violated_by_operators :
    (ExprProg.subV (.addV (.var 0) 1) 1 : ExprProg ℚ).run.isClean = false := by decide +kernel

/-- C03: `isClean` also accepts expressions that are not clean (zero coefficient in first position). -/
theorem C03_isClean_misses_first : ∃ e : LinExpr ℚ, e.isClean = true ∧ LinExpr.clean e ≠ e :=
  ⟨⟨0, [(0, 0)]⟩, by decide +kernel, by decide +kernel⟩

/-- C03, the part that holds: cleaning yields an expression without repeated variables and with the same
value; it is accepted by `isClean` and a fixed point of `clean` as soon as no coefficient cancelled;
cleaning twice always gives an expression accepted by `isClean` and stable under further cleaning. Missing: one `clean` does not suffice
after exact cancellation (`C03_violated`). -/
theorem C03_clean_partial (e : LinExpr K) :
    ((LinExpr.clean e).terms.map Prod.fst).Nodup ∧
    (∀ x, (LinExpr.clean e).getValue x = e.getValue x) ∧
    ((∀ t ∈ (LinExpr.clean e).terms, t.2 ≠ 0) →
      (LinExpr.clean e).isClean = true ∧ LinExpr.clean (LinExpr.clean e) = LinExpr.clean e) ∧
    (LinExpr.clean (LinExpr.clean e)).isClean = true ∧
    LinExpr.clean (LinExpr.clean (LinExpr.clean e)) = LinExpr.clean (LinExpr.clean e) := by
  have clean_of : ∀ f : LinExpr K, (LinExpr.cols f.terms).Nodup → (∀ t ∈ f.terms, t.2 ≠ 0) →
      f.isClean = true ∧ LinExpr.clean f = f := by
    intro f nd nz
    constructor
    · unfold LinExpr.isClean
      split
      · rfl
      · rename_i t ts heq
        rw [heq] at nd nz
        exact LinExpr.isCleanFrom_of ts [t] (by simpa using nd) (fun u hu => nz u (by simp [hu]))
    · obtain ⟨c, ts⟩ := f
      simp only [LinExpr.clean, LinExpr.mk.injEq, true_and]
      simpa using LinExpr.foldl_clean_of_clean ts [] (by simpa using nd) nz
  have h2 : (LinExpr.clean (LinExpr.clean e)).terms = (LinExpr.clean e).terms.filter (fun t => t.2 ≠ 0) := by
    have := LinExpr.foldl_clean_nodup (LinExpr.clean e).terms [] (by simpa using LinExpr.clean_nodup e)
    simpa [LinExpr.clean] using this
  have h3 := clean_of (LinExpr.clean (LinExpr.clean e)) (LinExpr.clean_nodup _) (by
    rw [h2]; intro t ht; simpa using (List.mem_filter.1 ht).2)
  exact ⟨LinExpr.clean_nodup e, LinExpr.clean_value e, clean_of _ (LinExpr.clean_nodup e), h3.1, h3.2⟩

/-- Non-vacuity of the no-cancellation hypothesis, with a real merge. -/
example : ∀ t ∈ (LinExpr.clean (⟨1, [(0, 1), (1, 2), (0, 3)]⟩ : LinExpr ℚ)).terms, t.2 ≠ 0 := by decide +kernel

/-! ### C04 -/

omit [Field K] [DecidableEq K] in
/-- C04 is false of the code: for every expression with at least one term, the loop of `e += e` is still
running after any number of iterations (and has appended that many terms). -/
theorem C04_self_add_diverges (e : LinExpr K) (he : e.terms ≠ []) (n : Nat) :
    ∃ ts, e.selfAddRun n = some (n, ts) ∧ ts.length = e.terms.length + n := by
  induction n with
  | zero => exact ⟨e.terms, rfl, rfl⟩
  | succ n ih =>
    obtain ⟨ts, h, hl⟩ := ih
    have hpos : 0 < e.terms.length := List.length_pos_of_ne_nil he
    have hn : n < ts.length := by omega
    refine ⟨ts ++ [ts[n]], ?_, by simp; omega⟩
    simp [LinExpr.selfAddRun, h, LinExpr.selfAddStep, List.getElem?_eq_getElem hn]

example : (⟨0, [(0, 1)]⟩ : LinExpr ℚ).terms ≠ [] := by decide

/-- C04, the part that holds: `e += e'` with `e'` an equal but distinct object doubles the value; and the
aliased loop exits immediately when the expression has no variables. Missing: the aliased call with
variables, see `C04_self_add_diverges`. -/
theorem C04_self_add_partial (e : LinExpr K) (x : Nat → K) :
    (e.addAssign e).getValue x = 2 * e.getValue x ∧
    (e.terms = [] → (e.selfAddRun 1) = none) := by
  constructor
  · rw [LinExpr.addAssign_value]; ring
  · intro h; simp [LinExpr.selfAddRun, LinExpr.selfAddStep, h]

end Verif
