import Mathlib.Data.Real.Basic
import Mathlib.Logic.Function.Basic

/-! Model of the sparse LDL' factorisation `linalg::SparseCholesky`, /repo/solver/src/solver/optimizer/SparseCholesky.cpp:51-181.

Simplifications: exact reals for `double`; an array is a function from indices; a compressed sparse matrix with `n` columns is given by
its columns, each the list of its stored (row, value) pairs in storage order; `-1` in `Parent` is `none`; a loop that follows `Parent`
gets `n + 1` passes and answers `none` if it has not stopped by then or leaves the array (both are shown not to happen). -/
namespace Verif
namespace Ldl

/-- Columns of an `Eigen::SparseMatrix<double>`: the pairs visited by `InnerIterator`, SparseCholesky.cpp:74 and 116-118. -/
abbrev Cols := Nat → List (Nat × ℝ)

/-- The `m` entries of an array from position `a` on (SparseCholesky.cpp:110-145). -/
def slice {α : Type} (f : Nat → α) (a m : Nat) : List α := (List.range m).map fun i => f (a + i)

/-! ### analyzePattern -/

/-- `Flag`, `Lnnz` and `Parent`, SparseCholesky.cpp:66-68. -/
structure Sym where
  flag : Nat → Int
  lnnz : Nat → Nat
  parent : Nat → Option Nat

/-- The loop `for (int row=it.row(); Flag[row]!=k; row=Parent[row])`, SparseCholesky.cpp:75-79. -/
def symWalk (k : Nat) : Nat → Nat → Sym → Option Sym
  | 0, _, _ => none
  | f + 1, row, s =>
    if s.flag row = k then some s
    else
      let parent := if s.parent row = none then Function.update s.parent row (some k) else s.parent
      let s' : Sym := ⟨Function.update s.flag row k, Function.update s.lnnz row (s.lnnz row + 1), parent⟩
      match parent row with
      | none => none
      | some r => symWalk k f r s'

/-- The loop over the stored entries of column `k`, SparseCholesky.cpp:74-79. -/
def symCol (n k : Nat) : List (Nat × ℝ) → Sym → Option Sym
  | [], s => some s
  | e :: r, s => (symWalk k (n + 1) e.1 s).bind (symCol n k r)

/-- One pass of the loop over columns, SparseCholesky.cpp:70-80. -/
def symStep (n : Nat) (A : Cols) (k : Nat) (s : Sym) : Option Sym :=
  symCol n k (A k) ⟨Function.update s.flag k k, Function.update s.lnnz k 0, Function.update s.parent k none⟩

/-- The first `k` passes (SparseCholesky.cpp:70-80). -/
def symLoop (n : Nat) (A : Cols) : Nat → Sym → Option Sym
  | 0, s => some s
  | k + 1, s => (symLoop n A k s).bind (symStep n A k)

/-- The loop of `analyzePattern`, SparseCholesky.cpp:70-80, for a matrix with `n` columns; `s` is the uninitialised or old content. -/
def analyze (n : Nat) (A : Cols) (s : Sym) : Option Sym := symLoop n A n s

/-- `L_.outerIndexPtr()` after SparseCholesky.cpp:82-86: column `j` of `L_` gets `Lnnz[j]` entries (with different rows, as
`Lnnz[j] < n_`, so `setFromTriplets` merges none of them). -/
def outer (cnt : Nat → Nat) : Nat → Nat
  | 0 => 0
  | j + 1 => outer cnt j + cnt j

/-! ### factorize -/

/-- The arrays `factorize` works on: `Y`, `D`, `Flag`, `Lnnz`, `Pattern`, `Li`, `Lx`, SparseCholesky.cpp:91-100. -/
structure Num where
  y : Nat → ℝ
  d : Nat → ℝ
  flag : Nat → Int
  lnnz : Nat → Nat
  pat : Nat → Nat
  li : Nat → Nat
  lx : Nat → ℝ

/-- The loop `for (len=0; Flag[row]!=k; row=Parent[row])`, SparseCholesky.cpp:119-122: `len`, `Flag` and `Pattern` afterwards. -/
def numWalk (parent : Nat → Option Nat) (k : Nat) : Nat → Nat → Nat → (Nat → Int) → (Nat → Nat) → Option (Nat × (Nat → Int) × (Nat → Nat))
  | 0, _, _, _, _ => none
  | f + 1, row, len, flag, pat =>
    if flag row = k then some (len, flag, pat)
    else
      match parent row with
      | none => none
      | some r => numWalk parent k f r (len + 1) (Function.update flag row k) (Function.update pat len row)

/-- `while (len>0) Pattern[--top] = Pattern[--len]`, SparseCholesky.cpp:123: `top` and `Pattern` afterwards. -/
def pushPath : Nat → Nat → (Nat → Nat) → Nat × (Nat → Nat)
  | 0, top, pat => (top, pat)
  | len + 1, top, pat => pushPath len (top - 1) (Function.update pat (top - 1) (pat len))

/-- The loop over the stored entries of column `k`, SparseCholesky.cpp:116-124: `top` and the arrays afterwards. -/
noncomputable def scatter (n : Nat) (parent : Nat → Option Nat) (k : Nat) : List (Nat × ℝ) → Nat → Num → Option (Nat × Num)
  | [], top, s => some (top, s)
  | e :: r, top, s => do
    let (len, flag, pat) ← numWalk parent k (n + 1) e.1 0 s.flag s.pat
    let (top', pat') := pushPath len top pat
    scatter n parent k r top' { s with y := Function.update s.y e.1 e.2, flag := flag, pat := pat' }

/-- The body of the loop over the pattern for `Pattern[top] = i`, SparseCholesky.cpp:130-138. -/
noncomputable def elim (lp : Nat → Nat) (k : Nat) (s : Num) (i : Nat) : Num :=
  let yi := s.y i
  let y := (List.range (s.lnnz i)).foldl (fun y q => Function.update y (s.li (lp i + q)) (y (s.li (lp i + q)) - s.lx (lp i + q) * yi))
    (Function.update s.y i 0)
  let p := lp i + s.lnnz i
  let l := yi / s.d i
  { s with y := y, d := Function.update s.d k (s.d k - l * yi), li := Function.update s.li p k, lx := Function.update s.lx p l,
           lnnz := Function.update s.lnnz i (s.lnnz i + 1) }

/-- Dynamic regularisation of a pivot, SparseCholesky.cpp:142. -/
noncomputable def regularize (eps delta sign d : ℝ) : ℝ := if sign * d ≤ eps then sign * delta else d

/-- One pass of the loop over columns, SparseCholesky.cpp:110-143. -/
noncomputable def numStep (n : Nat) (A : Cols) (parent : Nat → Option Nat) (lp : Nat → Nat) (eps delta : ℝ) (sign : Nat → ℝ) (k : Nat) (s : Num) :
    Option Num := do
  let (top, s1) ← scatter n parent k (A k) n
    { s with y := Function.update s.y k 0, lnnz := Function.update s.lnnz k 0, flag := Function.update s.flag k k }
  let s2 := { s1 with d := Function.update s1.d k (s1.y k), y := Function.update s1.y k 0 }
  let s3 := (slice s2.pat top (n - top)).foldl (elim lp k) s2
  some { s3 with d := Function.update s3.d k (regularize eps delta (sign k) (s3.d k)) }

/-- The first `k` passes (SparseCholesky.cpp:110-145). -/
noncomputable def numLoop (n : Nat) (A : Cols) (parent : Nat → Option Nat) (lp : Nat → Nat) (eps delta : ℝ) (sign : Nat → ℝ) : Nat → Num → Option Num
  | 0, s => some s
  | k + 1, s => (numLoop n A parent lp eps delta sign k s).bind (numStep n A parent lp eps delta sign k)

/-- `factorize`, SparseCholesky.cpp:89-145, after an `analyzePattern` that left `parent` and the column pointers `lp`; `s` is the old
content of the arrays. The function always returns `n_`. -/
noncomputable def factorize (n : Nat) (A : Cols) (parent : Nat → Option Nat) (lp : Nat → Nat) (eps delta : ℝ) (sign : Nat → ℝ) (s : Num) : Option Num :=
  numLoop n A parent lp eps delta sign n s

/-! ### solve -/

/-- `for (int p=Lp[j]; p<Lp[j+1]; p++) x[Li[p]] -= Lx[p]*x[j]`, SparseCholesky.cpp:158-159. -/
noncomputable def fwdCol (lp : Nat → Nat) (s : Num) (x : Nat → ℝ) (j : Nat) : Nat → ℝ :=
  (List.range (lp (j + 1) - lp j)).foldl (fun x q => Function.update x (s.li (lp j + q)) (x (s.li (lp j + q)) - s.lx (lp j + q) * x j)) x

/-- `for (int p=Lp[j]; p<Lp[j+1]; p++) x[j] -= Lx[p]*x[Li[p]]`, SparseCholesky.cpp:164-165. -/
noncomputable def bwdCol (lp : Nat → Nat) (s : Num) (x : Nat → ℝ) (j : Nat) : Nat → ℝ :=
  (List.range (lp (j + 1) - lp j)).foldl (fun x q => Function.update x j (x j - s.lx (lp j + q) * x (s.li (lp j + q)))) x

/-- `solve`, SparseCholesky.cpp:147-166 (the second version, lines 168-181, performs the same operations through `InnerIterator`). -/
noncomputable def solve (n : Nat) (lp : Nat → Nat) (s : Num) (b : Nat → ℝ) : Nat → ℝ :=
  let x1 := (List.range n).foldl (fwdCol lp s) b
  let x2 := (List.range n).foldl (fun x j => Function.update x j (x j / s.d j)) x1
  (List.range n).reverse.foldl (bwdCol lp s) x2

end Ldl
end Verif
