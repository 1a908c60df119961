/-
Model of `solver::LinExpr` and `solver::DCPQuadExpr`
(/repo/solver/include/solver/interface/Exprs.hpp, /repo/solver/src/solver/interface/Exprs.cpp).

Simplifications: `double` is an exact ordered field `K` (instantiated with the rationals for
executable checks and with the reals for the theorems about the solver); a `Var` is identified with its
column number (all comparisons in the modelled code go through `col_no_`); the two parallel vectors
`vars_`, `coeffs_`, which every modelled function pushes to together, are one list of pairs.
-/
import Mathlib.Algebra.Order.Field.Basic
import Mathlib.Algebra.BigOperators.Group.List.Basic

namespace Verif

/-- `class LinExpr`, Exprs.hpp:19-75: `constant_`, and `vars_`/`coeffs_` zipped. -/
structure LinExpr (K : Type) where
  const : K
  terms : List (Nat × K)
  deriving DecidableEq, Repr

namespace LinExpr
variable {K : Type} [Field K] [DecidableEq K]

/-- `LinExpr(double constant=0.0)`, Exprs.hpp:22. -/
def ofConst (c : K) : LinExpr K := ⟨c, []⟩

/-- `LinExpr(Var var, double coeff=1.0)`, Exprs.hpp:23. -/
def ofVar (v : Nat) (c : K := 1) : LinExpr K := ⟨0, [(v, c)]⟩

/-- The loop of `LinExpr::getValue`, Exprs.cpp:19-20, starting from the value accumulated so far;
`x` gives the attribute `SolverDoubleParam_X` of each variable. -/
def sumLoop (x : Nat → K) : K → List (Nat × K) → K
  | acc, [] => acc
  | acc, (v, c) :: ts => sumLoop x (acc + c * x v) ts

/-- `LinExpr::getValue`, Exprs.cpp:17-22. -/
def getValue (e : LinExpr K) (x : Nat → K) : K := sumLoop x e.const e.terms

/-- One iteration of the outer loop of `LinExpr::clean`, Exprs.cpp:40-52: the inner loop adds the
coefficient to every term with the same column and sets the flag; otherwise a non-zero term is pushed. -/
def cleanStep (acc : List (Nat × K)) (t : Nat × K) : List (Nat × K) :=
  if acc.any (fun u => u.1 == t.1) then
    acc.map (fun u => if u.1 = t.1 then (u.1, u.2 + t.2) else u)
  else if t.2 ≠ 0 then acc ++ [t]
  else acc

/-- `LinExpr::clean`, Exprs.cpp:36-54. -/
def clean (e : LinExpr K) : LinExpr K := ⟨e.const, e.terms.foldl cleanStep []⟩

/-- The double loop of `LinExpr::isClean`, Exprs.cpp:25-33, over the terms not yet visited; `prev` are
the terms already passed. -/
def isCleanFrom (prev : List (Nat × K)) : List (Nat × K) → Bool
  | [] => true
  | t :: ts =>
    if prev.any (fun u => u.1 == t.1) then false
    else if t.2 = 0 then false
    else isCleanFrom (prev ++ [t]) ts

/-- `LinExpr::isClean`, Exprs.cpp:24-34: the outer loop starts at `i = 1`. -/
def isClean (e : LinExpr K) : Bool :=
  match e.terms with
  | [] => true
  | t :: ts => isCleanFrom [t] ts

/-- `LinExpr::operator*(double)`, Exprs.cpp:56-65. -/
def mul (e : LinExpr K) (f : K) : LinExpr K :=
  if f ≠ 0 then clean ⟨e.const * f, e.terms.map (fun t => (t.1, t.2 * f))⟩ else ofConst 0

/-- `LinExpr::operator+=(const LinExpr&)`, Exprs.cpp:67-75, for a right-hand side that is a different
object (for the aliased call see `selfAddStep`). -/
def addAssign (e r : LinExpr K) : LinExpr K := clean ⟨e.const + r.const, e.terms ++ r.terms⟩

/-- `operator+(const LinExpr&)`, Exprs.hpp:45: copy, then `+=`. -/
def add (e r : LinExpr K) : LinExpr K := addAssign e r

/-- `operator-(const LinExpr&)`, Exprs.hpp:46 (and `operator-=`, Exprs.hpp:39). -/
def sub (e r : LinExpr K) : LinExpr K := addAssign e (mul r (-1))

/-- `operator+(double)`, `operator+=(double)`, Exprs.hpp:37,41. -/
def addC (e : LinExpr K) (a : K) : LinExpr K := addAssign e (ofConst a)

/-- `operator-(double)`, `operator-=(double)`, Exprs.hpp:38,42. -/
def subC (e : LinExpr K) (a : K) : LinExpr K := addAssign e (ofConst (-a))

/-- `operator+(Var)`, Exprs.hpp:43. -/
def addV (e : LinExpr K) (v : Nat) : LinExpr K := addAssign e (ofVar v 1)

/-- `operator-(Var)`, Exprs.hpp:44. -/
def subV (e : LinExpr K) (v : Nat) : LinExpr K := addAssign e (ofVar v (-1))

/-- `operator/(double)`, Exprs.hpp:40. -/
def div (e : LinExpr K) (a : K) : LinExpr K := mul e (1 / a)

/-- Unary `operator-(const LinExpr&)`, Exprs.hpp:63: `LinExpr()-rhs`. -/
def neg (e : LinExpr K) : LinExpr K := sub (ofConst 0) e

/-- `operator*=(double)`, Exprs.hpp:48: no clean. -/
def mulAssign (e : LinExpr K) (a : K) : LinExpr K := ⟨e.const * a, e.terms.map (fun t => (t.1, t.2 * a))⟩

/-- `operator/=(double)`, Exprs.hpp:49: no clean. -/
def divAssign (e : LinExpr K) (a : K) : LinExpr K := ⟨e.const / a, e.terms.map (fun t => (t.1, t.2 / a))⟩

/-- One iteration of the loop of `operator+=`, Exprs.cpp:69-72, when `rhs` is `*this`: the bound
`rhs.size()` is read again from the vector that is being extended. `none` = the loop has exited. -/
def selfAddStep (s : Nat × List (Nat × K)) : Option (Nat × List (Nat × K)) :=
  match s.2[s.1]? with
  | some t => some (s.1 + 1, s.2 ++ [t])
  | none => none

/-- `n` iterations of the aliased loop of `e += e`, started at index 0 (Exprs.cpp:67-75). -/
def selfAddRun (e : LinExpr K) : Nat → Option (Nat × List (Nat × K))
  | 0 => some (0, e.terms)
  | n + 1 => (selfAddRun e n).bind selfAddStep

end LinExpr

/-- A user program that builds a linear expression: the overloads of Exprs.hpp:22-23,35-67. -/
inductive ExprProg (K : Type) where
  | const (a : K)                            -- LinExpr(a)
  | var (v : Nat)                            -- LinExpr(x)
  | term (v : Nat) (a : K)                   -- a*x, x*a (Exprs.hpp:53-54)
  | varDiv (v : Nat) (a : K)                 -- x/a (Exprs.hpp:57)
  | add (e f : ExprProg K)
  | sub (e f : ExprProg K)
  | neg (e : ExprProg K)
  | addC (e : ExprProg K) (a : K)
  | subC (e : ExprProg K) (a : K)
  | cSub (a : K) (e : ExprProg K)            -- a - e (Exprs.hpp:66)
  | addV (e : ExprProg K) (v : Nat)
  | subV (e : ExprProg K) (v : Nat)
  | vSub (v : Nat) (e : ExprProg K)          -- x - e (Exprs.hpp:64)
  | mul (e : ExprProg K) (a : K)
  | div (e : ExprProg K) (a : K)
  | mulAssign (e : ExprProg K) (a : K)
  | divAssign (e : ExprProg K) (a : K)

namespace ExprProg
variable {K : Type} [Field K] [DecidableEq K]

/-- What the library computes for the program (one overload per constructor, Exprs.hpp:22-67). -/
def run : ExprProg K → LinExpr K
  | const a => LinExpr.ofConst a
  | var v => LinExpr.ofVar v
  | term v a => LinExpr.ofVar v a
  | varDiv v a => LinExpr.ofVar v (1 / a)
  | add e f => (run e).add (run f)
  | sub e f => (run e).sub (run f)
  | neg e => (run e).neg
  | addC e a => (run e).addC a
  | subC e a => (run e).subC a
  | cSub a e => (LinExpr.ofConst a).sub (run e)
  | addV e v => (run e).addV v
  | subV e v => (run e).subV v
  | vSub v e => (LinExpr.ofVar v).sub (run e)
  | mul e a => (run e).mul a
  | div e a => (run e).div a
  | mulAssign e a => (run e).mulAssign a
  | divAssign e a => (run e).divAssign a

end ExprProg

/-- `class DCPQuadExpr`, Exprs.hpp:100-135, `qexpr_` and `coeffs_` zipped (they are pushed together in
`addQuaTerm`); the auxiliary fields (`sense_`, `extra_vars_`, flags) are in the conic-problem model. -/
structure QuadExpr (K : Type) where
  lin : LinExpr K
  quad : List (K × LinExpr K)

namespace QuadExpr
variable {K : Type} [Field K] [DecidableEq K]

/-- `DCPQuadExpr()`, Exprs.hpp:103. -/
def empty : QuadExpr K := ⟨LinExpr.ofConst 0, []⟩

/-- `addLinTerm`, Exprs.hpp:107. -/
def addLinTerm (q : QuadExpr K) (l : LinExpr K) : QuadExpr K := { q with lin := q.lin.addAssign l }

/-- `addQuaTerm`, Exprs.hpp:109. -/
def addQuaTerm (q : QuadExpr K) (c : K) (l : LinExpr K) : QuadExpr K :=
  if c ≠ 0 then { q with quad := q.quad ++ [(c, l)] } else q

/-- `DCPQuadExpr::getValue`, Exprs.cpp:85-90 (the linear part is not included). -/
def getValue (q : QuadExpr K) (x : Nat → K) : K :=
  q.quad.foldl (fun acc t => acc + t.1 * (t.2.getValue x) ^ 2) 0

end QuadExpr
end Verif
