/-
Model of `rt_solver::RtModel` (/repo/solver/include/solver/rt_optimizer/RtModel.h, RtModel.hpp): the
easy interface (`addLinConstr`), the assembly of one rank and the loop over the ranks.

Simplifications: `double` is `ℝ`, hence every entry is finite and the two finiteness checks
(RtModel.h:167-179) never fire; times (`qp_dur_`, `svd_wait_`) are left out; a sub-cost composer is a
`maxRank`, a function that changes the two stacked tasks, one that changes them after the reduction
(`addCostToHierarchyAfterReduction`) and a ghost counter of `updateAfterSolutionFound` calls is kept by
the caller; the hierarchical solver is an arbitrary state machine (its own model is separate).
-/
import Verif.RtMat
import Verif.LinExpr

namespace Verif
namespace Rt

/-- A stacked affine task: `next_eq_cost_mat_`, `next_eq_cost_vec_` (or the inequality pair),
RtModel.hpp:78-81. -/
abbrev Aff := Mat × Vec

/-- `rt_solver::RtHQPCost`, RtHQPCost.hpp:15-25. -/
structure Composer where
  maxRank : Int
  add : Int → Aff × Aff → Aff × Aff
  addAfter : Int → Aff × Aff → Aff × Aff

/-- The data of an `RtModel`, RtModel.hpp:64-81. -/
structure Model where
  nvars : Nat
  idx : Nat → Int
  eqs : List (Int × LinExpr ℝ)
  ineqs : List (Int × LinExpr ℝ)
  composers : List Composer
  noSlack : List Int

/-- Constructor, RtModel.h:18-28: identity variable map, no constraints. -/
def Model.new (n : Nat) : Model := ⟨n, fun i => i, [], [], [], []⟩

/-- The string argument `sense` of `addLinConstr`: the three accepted values and any other one (RtModel.h:230-236). -/
inductive Sense | eq | le | ge | other
  deriving DecidableEq, Repr

/-- `RtModel::addLinConstr`, RtModel.h:229-236; `none` is the exception. -/
noncomputable def Model.addLinConstr (m : Model) (lhs : LinExpr ℝ) (s : Sense) (rhs : LinExpr ℝ)
    (rank : Int) : Option Model :=
  match s with
  | .eq => some { m with eqs := m.eqs ++ [(rank, LinExpr.sub lhs rhs)] }
  | .le => some { m with ineqs := m.ineqs ++ [(rank, LinExpr.sub lhs rhs)] }
  | .ge => some { m with ineqs := m.ineqs ++ [(rank, LinExpr.sub rhs lhs)] }
  | .other => none

/-- `RtModel::clean`, RtModel.h:214-219. -/
def Model.clean (m : Model) : Model := { m with eqs := [], ineqs := [] }

/-- `RtModel::checkIfHigherRanksLeft`, RtModel.h:238-247. -/
def Model.higherRanksLeft (m : Model) (rank : Int) : Bool :=
  if m.eqs.any (fun c => decide (c.1 > rank)) then true
  else if m.ineqs.any (fun c => decide (c.1 > rank)) then true
  else false

/-- The loop over the variables of one constraint, RtModel.h:271-272 and 297-298: the coefficient is
assigned (not added) to its column. -/
def writeCoeffs (m : Mat) (row : Nat) : List (Nat × ℝ) → Mat
  | [] => m
  | (v, c) :: ts => writeCoeffs { m with at' := fun i j => if i = row ∧ j = v then c else m.at' i j } row ts

/-- The loop over the constraints, RtModel.h:268-274 and 294-300. -/
def writeRows (rank : Int) (old : Nat) : List (Int × LinExpr ℝ) → (added : Nat) → Aff → Aff
  | [], _, a => a
  | c :: cs, added, a =>
    if c.1 = rank then
      writeRows rank old cs (added + 1)
        (writeCoeffs a.1 (old + added) c.2.terms,
         { a.2 with at' := fun i => if i = old + added then c.2.const else a.2.at' i })
    else writeRows rank old cs added a

/-- Number of constraints of the rank, RtModel.h:254-256 and 280-282. -/
def rankCount (rank : Int) : List (Int × LinExpr ℝ) → Nat → Nat
  | [], n => n
  | c :: cs, n => rankCount rank cs (if c.1 = rank then n + 1 else n)

/-- One half of `RtModel::addCostsToHierarchy`, RtModel.h:252-276 (equalities) and 279-302
(inequalities). -/
def addCosts (jm : Nat → Nat → ℝ) (jv : Nat → ℝ) (rank : Int) (cs : List (Int × LinExpr ℝ)) (a : Aff) :
    Aff :=
  let n := rankCount rank cs 0
  if n > 0 then
    let old := a.1.rows
    let m := (a.1.conservativeResize jm (old + n) a.1.cols).setBlock old 0 n a.1.cols (fun _ _ => 0)
    let v := (a.2.conservativeResize jv (old + n)).setBlock old n (fun _ => 0)
    writeRows rank old cs 0 (m, v)
  else a

/-- The cleared tasks at the start of a rank, RtModel.h:148-152. -/
def emptyAff (jm : Nat → Nat → ℝ) (jv : Nat → ℝ) (n : Nat) : Aff := (Mat.resize jm 0 n, ⟨0, jv⟩)

/-- The tasks of one rank handed to the hierarchical solver, RtModel.h:148-191. -/
noncomputable def Model.buildTask (jm : Nat → Nat → ℝ) (jv : Nat → ℝ) (m : Model) (rank : Int) :
    Aff × Aff :=
  let t0 := (emptyAff jm jv m.nvars, emptyAff jm jv m.nvars)
  let t1 := m.composers.foldl (fun t c => c.add rank t) t0
  let t2 := (addCosts jm jv rank m.eqs t1.1, addCosts jm jv rank m.ineqs t1.2)
  let red := fun (a : Aff) => affRemoveZeroRows (reduceColumns m.idx m.nvars a.1) a.2
  let t3 := (red t2.1, red t2.2)
  m.composers.foldl (fun t c => c.addAfter rank t) t3

/-- The final value of `higher_ranks_left` in one iteration, RtModel.h:159-164 and 187-191. -/
def Model.moreRanks (m : Model) (rank : Int) : Bool :=
  m.composers.foldl (fun b c => if c.maxRank > rank then true else b)
    (m.composers.foldl (fun b c => if c.maxRank > rank then true else b) (m.higherRanksLeft rank))

/-- `RtModel::checkSlacknessOfHierarchy`, RtModel.h:305-312, as a function of the flag
`apply_ineq_slacks_`. -/
def checkSlackness (noSlack : List Int) (rank : Int) (flag : Bool) : Bool :=
  let _flag' := noSlack.foldl (fun f r => if r = rank then false else f) flag
  true

/-- The hierarchical solver as seen by `RtModel`: `reset(n)`, `applyIneqSlacks()`, `solveNextTask`,
`nullspaceDimension()` (RtHQPSolver.hpp:20-91, called in RtModel.h:139-212). -/
structure Hqp (H : Type) where
  reset : Nat → H → H
  slacks : H → Bool
  setSlacks : Bool → H → H
  solveNextTask : Aff → Aff → H → H × Bool
  nullDim : H → Nat

/-- What a call of `solve` leaves behind. `log` (ghost) lists the ranks and tasks handed over and the
slack flag in force (RtModel.h:139-212). -/
structure Result (H : Type) where
  hqp : H
  solved : Nat
  valid : Bool
  log : List (Int × (Aff × Aff) × Bool)

/-- The `for` loop of `RtModel::solve`, RtModel.h:146-205, started at `rank`; `none`: not finished after
`fuel` iterations. `num_variables_optimized_` is `nopt`. -/
noncomputable def Model.solveLoop {H : Type} (S : Hqp H) (jm : Nat → Nat → ℝ) (jv : Nat → ℝ) (m : Model)
    (nopt : Nat) : (fuel : Nat) → (rank : Int) → Result H → Option (Result H)
  | 0, _, _ => none
  | fuel + 1, rank, r =>
    let h0 := if m.noSlack.length > 0 then S.setSlacks (checkSlackness m.noSlack rank (S.slacks r.hqp)) r.hqp
              else r.hqp
    let higher := m.moreRanks rank
    let t := m.buildTask jm jv rank
    let h1 := if rank = 0 then S.reset nopt h0 else h0
    let s := S.solveNextTask t.1 t.2 h1
    let r' : Result H := ⟨s.1, if s.2 then r.solved + 1 else r.solved, if s.2 then r.valid else false,
      r.log ++ [(rank, t, S.slacks h1)]⟩
    if higher && decide (S.nullDim s.1 ≠ 0) && r'.valid then
      solveLoop S jm jv m nopt fuel (rank + 1) r'
    else some r'

/-- `RtModel::solve`, RtModel.h:139-211 (the first test of the loop condition always succeeds). -/
noncomputable def Model.solve {H : Type} (S : Hqp H) (jm : Nat → Nat → ℝ) (jv : Nat → ℝ) (m : Model)
    (nopt : Nat) (fuel : Nat) (h : H) : Option (Result H) :=
  m.solveLoop S jm jv nopt fuel 0 ⟨h, 0, true, []⟩

end Rt
end Verif
