import Verif.Conic
import Mathlib.Analysis.Real.Sqrt

/-!
Specification for the conic problem: what it means for a point to be feasible for the standard form, user
programs against the `ConicProblem` API, and what the constraints they state mean mathematically.
-/
namespace Verif

/-- A vector (first entry, rest) lies in the second-order cone. -/
def InSoc : List ℝ → Prop
  | [] => True
  | t :: v => Real.sqrt ((v.map (fun a => a ^ 2)).sum) ≤ t

/-- Start of the `i`-th second-order cone: `SOC_start_(i) = nineq_ + indices.head(i).sum()`, Cone.cpp:70. -/
def startSoc (nineq : Nat) (q : List Nat) (i : Nat) : Nat := nineq + (q.take i).sum

/-- `A x = b` and `h - G x` in the product of the nonnegative orthant (first `nlineq` rows) and the
second-order cones of sizes `q`. -/
def StdForm.Feasible (f : StdForm ℝ) (x : Nat → ℝ) : Prop :=
  (∀ r < f.nleq, f.eq.act x r = f.eq.rhs r) ∧
  (∀ r < f.nlineq, f.ineq.act x r ≤ f.ineq.rhs r) ∧
  (∀ i (_ : i < f.q.length), InSoc ((List.range f.q[i]).map (fun j =>
    f.ineq.rhs (startSoc f.nlineq f.q i + j) - f.ineq.act x (startSoc f.nlineq f.q i + j))))

/-- `c . x` over the variables of the problem. -/
noncomputable def StdForm.cost (f : StdForm ℝ) (x : Nat → ℝ) : ℝ := ((List.range f.nvars).map (fun v => f.c v * x v)).sum

/-- One call of a user against the API. -/
inductive Op where
  | addVar (ty : VarType) (lb ub guess : ℝ)
  | addLin (lhs : LinExpr ℝ) (sense : String) (rhs : LinExpr ℝ)
  | addQua (q : QuadExpr ℝ) (sense : String) (l : LinExpr ℝ) (ap : QApprox)
  | addSoc (q : QuadExpr ℝ) (sense : String) (l : LinExpr ℝ)
  | setObj (q : QuadExpr ℝ) (l : LinExpr ℝ)

/-- Problem state together with the variables handed out to the user so far. -/
structure ApiState where
  p : Problem ℝ
  user : List Nat

/-- Fresh problem. -/
noncomputable def ApiState.init : ApiState := ⟨Problem.empty, []⟩

/-- Effect of a call. -/
noncomputable def ApiState.step (st : ApiState) : Op → ApiState
  | .addVar ty lb ub g => match st.p.addVar ty lb ub g with
    | (p', some v) => ⟨p', st.user ++ [v]⟩
    | (p', none) => ⟨p', st.user⟩
  | .addLin l s r => ⟨(st.p.addLinConstr l s r).1, st.user⟩
  | .addQua q s l ap => ⟨(st.p.addQuaConstr q s l ap).1, st.user⟩
  | .addSoc q s l => ⟨(st.p.addSocConstr q s l).1, st.user⟩
  | .setObj q l => ⟨st.p.setObjective q l, st.user⟩

/-- A sequence of calls. -/
noncomputable def ApiState.run (st : ApiState) (ops : List Op) : ApiState := ops.foldl ApiState.step st

/-- The expression only mentions the given variables. -/
def LinExpr.Over (e : LinExpr ℝ) (us : List Nat) : Prop := ∀ t ∈ e.terms, t.1 ∈ us
/-- All columns of a quadratic expression are among `us`. -/
def QuadExpr.Over (q : QuadExpr ℝ) (us : List Nat) : Prop := q.lin.Over us ∧ ∀ t ∈ q.quad, t.2.Over us

/-- The call does not throw and only uses variables handed out before. -/
def Op.Ok (us : List Nat) : Op → Prop
  | .addVar _ lb ub _ => lb ≤ ub
  | .addLin l s r => l.Over us ∧ r.Over us ∧ (s = "=" ∨ s = "<" ∨ s = ">")
  | .addQua q s l _ => q.Over us ∧ l.Over us ∧ s = "<"
  | .addSoc q s l => q.Over us ∧ l.Over us ∧ s = "<"
  | .setObj q l => q.Over us ∧ l.Over us

/-- All calls of a program are fine. -/
def ApiState.AllOk (st : ApiState) : List Op → Prop
  | [] => True
  | op :: ops => op.Ok st.user ∧ (st.step op).AllOk ops

/-- `op` sets the objective. -/
def Op.isObj : Op → Bool
  | .setObj _ _ => true
  | _ => false

/-- Mathematical value of a weighted sum of squares. -/
noncomputable def sumSq (ts : List (ℝ × LinExpr ℝ)) (x : Nat → ℝ) : ℝ :=
  (ts.map (fun t => t.1 * (t.2.getValue x) ^ 2)).sum

/-- First-order expansion at `x0` of `Σ c q²`, evaluated at `x`. -/
noncomputable def tangent (ts : List (ℝ × LinExpr ℝ)) (x0 x : Nat → ℝ) : ℝ :=
  (ts.map (fun t => t.1 * (t.2.getValue x0) ^ 2 +
    2 * t.1 * t.2.getValue x0 * (t.2.getValue x - t.2.getValue x0))).sum

/-- What a call demands of the point `x`; `x0` is the linearisation point and `thr` the slack of the
trust-region rows. -/
def Op.Holds (x0 : Nat → ℝ) (thr : ℝ) (warm : Bool) (x : Nat → ℝ) : Op → Prop
  | .addVar .. => True
  | .addLin l s r =>
    if s = "=" then l.getValue x = r.getValue x
    else if s = "<" then l.getValue x ≤ r.getValue x
    else l.getValue x ≥ r.getValue x
  | .addQua q _ l ap =>
    sumSq q.quad x + q.lin.getValue x ≤ l.getValue x ∧
    (ap = .trustRegion → warm = false →
      tangent q.quad x0 x + q.lin.getValue x - l.getValue x ≥ -thr)
  | .addSoc q _ l =>
    Real.sqrt ((q.quad.map (fun t => (t.2.getValue x) ^ 2)).sum) + q.lin.getValue x ≤ l.getValue x
  | .setObj .. => True

/-- Squared linearisation (at `x0`, evaluated at `x`) of a soft constraint. -/
noncomputable def Op.softTerm (x0 x : Nat → ℝ) : Op → ℝ
  | .addQua q _ l .softConstraint => (tangent q.quad x0 x + q.lin.getValue x - l.getValue x) ^ 2
  | _ => 0

/-- The objective is set at most once. -/
def OneObj (ops : List Op) : Prop := (ops.filter Op.isObj).length ≤ 1

/-- All binary variables of the problem lie between 0 and 1. -/
def Problem.BinaryInUnit (p : Problem ℝ) (x : Nat → ℝ) : Prop :=
  ∀ v r, p.vars[v]? = some r → r.type = .binary → 0 ≤ x v ∧ x v ≤ 1

/-- Quadratic constraints are convex (the D in "disciplined convex"), and no linear constraint has lost all of
its variables. -/
def Op.Regular : Op → Prop
  | .addLin l _ r => (l.sub r).terms ≠ [] ∧ (r.sub l).terms ≠ []
  | .addQua q _ _ _ => ∀ t ∈ q.quad, 0 ≤ t.1
  | _ => True

end Verif
