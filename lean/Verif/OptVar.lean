/-
Model of `solver::OptimizationVariable` index arithmetic,
/repo/solver/include/solver/interface/OptVar.hpp:41, /repo/solver/src/solver/interface/OptVar.cpp:14-98.

Simplifications: dimensions are natural numbers (the code's `int` without overflow); bounds and guesses are
left out (they do not influence the indexing).
-/
import Mathlib.Order.Basic
import Mathlib.Data.List.Basic

namespace Verif

/-- The members that determine indices, OptVar.hpp:63-66. -/
structure OptVar where
  pos : Int
  rows : Nat
  cols : Nat

namespace OptVar

/-- The common effect of the seven `initialize` overloads on the indices, OptVar.cpp:20,32,44,54,65,78,91:
`indexPosition_ = start; start += rows*cols`. -/
def init (rows cols : Nat) (start : Int) : OptVar × Int := (⟨start, rows, cols⟩, start + rows * cols)

/-- `getRowBndInd`, `getColBndInd`, OptVar.cpp:92-104 (`n` is `rows_` resp. `cols_`). -/
def bnd (n : Nat) (i : Int) : Int := if i ≥ n then n - 1 else if i ≤ 0 then 0 else i

/-- `id(row, col)`, OptVar.hpp:41. -/
def id (v : OptVar) (row col : Int) : Int := v.pos + bnd v.cols col * v.rows + bnd v.rows row

/-- Consecutive `initialize` calls with the same running `start` (DynamicsOptimizer.cpp:30-55). -/
def layout : List (Nat × Nat) → Int → List OptVar × Int
  | [], s => ([], s)
  | d :: ds, s =>
    let (v, s1) := init d.1 d.2 s
    let (vs, s2) := layout ds s1
    (v :: vs, s2)

end OptVar
end Verif
