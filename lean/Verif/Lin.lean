import Verif.IP
import Verif.Ldl

/-! Model of `solver::LinSolver`, /repo/solver/src/solver/optimizer/LinSolver.cpp:15-266: assembly of the extended KKT matrix, symmetric
permutation, index tables into the permuted matrix, value updates, and the solve with iterative refinement.

Simplifications: exact reals for `double`; arrays are functions from indices; the matrix `kkt_` is the list of its stored entries in storage
order; the fill-reducing ordering (`Eigen::AMDOrdering`) is an arbitrary permutation; `Atmatrix()`, `Gtmatrix()` are the transposes set in
IPSolver.cpp:44-45 (`IP.transpose`); the Cholesky solver is a function in `solve` (it is modelled in `Verif.Ldl`). -/
namespace Verif
namespace Lin
open Cone Equil

/-- `Eigen::Triplet<double>` (LinSolver.cpp:31-85). -/
structure Tr where
  row : Nat
  col : Nat
  val : ℝ

/-- `Gtmatrix().leftCols(k).nonZeros()`, LinSolver.cpp:60 and 63. -/
def leftNnz (M : Sp) (k : Nat) : Nat := nnz (M.take k)

/-- `Gtmatrix().col(j).nonZeros()`, LinSolver.cpp:70 and 72. -/
def colNnz (M : Sp) (j : Nat) : Nat := (M.getD j []).length

/-- The inner loops over one column of `A'` or `G'`, LinSolver.cpp:51-52, 57-58, 67-68: entries of column `j` put into column `col`. -/
def colTr (M : Sp) (j col : Nat) : List Tr := (M.getD j []).map fun e => ⟨e.1, col, e.2⟩

/-- What `buildProblem` pushes for second-order cone `l`, LinSolver.cpp:66-82. -/
noncomputable def socTr (c : Cone) (Gt : Sp) (l : Nat) : List Tr :=
  ((List.range (c.sizeSoc l)).flatMap fun id =>
      colTr Gt (c.startSoc l + id) (c.nvars + c.neq + 2 * l + (c.startSoc l + id)) ++
        [⟨c.nvars + c.neq + c.startSoc l + 2 * l + id, c.nvars + c.neq + c.startSoc l + 2 * l + id, -1⟩]) ++
    ((List.range (c.sizeSoc l - 1)).map fun k =>
      ⟨c.nvars + c.neq + c.startSoc l + 2 * l + (k + 1), c.nvars + c.neq + c.startSoc l + 2 * l + c.sizeSoc l, 0⟩) ++
    [⟨c.nvars + c.neq + c.startSoc l + 2 * l + c.sizeSoc l, c.nvars + c.neq + c.startSoc l + 2 * l + c.sizeSoc l, -1⟩] ++
    ((List.range (c.sizeSoc l)).map fun k =>
      ⟨c.nvars + c.neq + c.startSoc l + 2 * l + k, c.nvars + c.neq + c.startSoc l + 2 * l + c.sizeSoc l + 1, 0⟩) ++
    [⟨c.nvars + c.neq + c.startSoc l + 2 * l + c.sizeSoc l + 1, c.nvars + c.neq + c.startSoc l + 2 * l + c.sizeSoc l + 1, 1⟩]

/-- `coeffs` of `buildProblem`, LinSolver.cpp:44-83, in the order in which the triplets are pushed; `δ` is `static_regularization_`. -/
noncomputable def coeffs (c : Cone) (δ : ℝ) (At Gt : Sp) : List Tr :=
  ((List.range c.nvars).map fun id => ⟨id, id, δ⟩) ++
    ((List.range At.length).flatMap fun id => colTr At id (c.nvars + id) ++ [⟨c.nvars + id, c.nvars + id, -δ⟩]) ++
    ((List.range c.nineq).flatMap fun id =>
      colTr Gt id (c.nvars + c.neq + id) ++ [⟨c.nvars + c.neq + id, c.nvars + c.neq + id, -1⟩]) ++
    (List.range c.nsoc).flatMap (socTr c Gt)

/-- One triplet goes into a sparse column: rows in increasing order, values of equal rows added (`setFromTriplets`, Eigen) (LinSolver.cpp:85). -/
noncomputable def insertRow (r : Nat) (v : ℝ) : List (Nat × ℝ) → List (Nat × ℝ)
  | [] => [(r, v)]
  | e :: l => if r < e.1 then (r, v) :: e :: l else if r = e.1 then (r, e.2 + v) :: l else e :: insertRow r v l

/-- `kkt_.setFromTriplets(...)`, LinSolver.cpp:85, for a matrix with `N` columns: the stored entries in storage order. -/
noncomputable def setFromTriplets (N : Nat) (ts : List Tr) : List Tr :=
  (List.range N).flatMap fun j =>
    (((ts.filter fun t => t.col = j).foldl (fun col t => insertRow t.row t.val col) []).map fun e => ⟨e.1, j, e.2⟩)

/-- `indexLpc(id)` set by `buildProblem`, LinSolver.cpp:60. -/
def indexLpc0 (c : Cone) (At Gt : Sp) (id : Nat) : Nat := c.nvars + c.neq + nnz At + leftNnz Gt (id + 1) + id

/-- The counter `k` inside cone `l` after `id` passes of the loop over its entries, LinSolver.cpp:66-73; it is `k0` before the loop. -/
def kIn (c : Cone) (Gt : Sp) (l k0 : Nat) : Nat → Nat
  | 0 => k0
  | id + 1 => kIn c Gt l k0 id + (colNnz Gt (c.startSoc l + id) + 1)

/-- The counter `k` at the beginning of pass `l` of the loop over the second-order cones, LinSolver.cpp:63-74. -/
def kSoc (c : Cone) (At Gt : Sp) : Nat → Nat
  | 0 => c.nvars + c.neq + nnz At + leftNnz Gt c.nineq + c.nineq
  | l + 1 => kIn c Gt l (kSoc c At Gt l) (c.sizeSoc l) + (2 * c.sizeSoc l + 1)

/-- `soc(l).indexSoc(id)` set by `buildProblem` for `id < sizeSoc(l)`, LinSolver.cpp:70. -/
def indexSoc0 (c : Cone) (At Gt : Sp) (l id : Nat) : Nat := kIn c Gt l (kSoc c At Gt l) id + colNnz Gt (c.startSoc l + id)

/-- `sign_`, LinSolver.cpp:36-41. -/
noncomputable def sign (c : Cone) : Nat → ℝ :=
  (List.range c.nsoc).foldl (fun s i => Function.update s (c.extStartSoc i + (c.sizeSoc i + 1)) 1)
    (wr c.lpconestart c.extsizecone (fun _ => -1) (wr c.nvars c.neq (fun _ => -1) (wr 0 c.nvars (fun _ => 1) fun _ => 0)))

/-! ### the symmetric permutation -/

/-- Column of the permuted upper triangle that receives an entry: `max(ip, jp)` (Eigen `permute_symm_to_symm<Upper,Upper>` behind
`twistedBy`, LinSolver.cpp:98; the same maximum is written out in LinSolver.cpp:194-195). -/
def destCol (ip : Nat → Nat) (t : Tr) : Nat := if ip t.row > ip t.col then ip t.row else ip t.col
/-- Row of the permuted upper triangle that receives an entry: `min(ip, jp)` (Eigen `permute_symm_to_symm`, LinSolver.cpp:98). -/
def destRow (ip : Nat → Nat) (t : Tr) : Nat := if ip t.row > ip t.col then ip t.col else ip t.row

/-- The compressed arrays of `permKkt_`: `outerIndexPtr`, `innerIndexPtr`, `valuePtr` (LinSolver.cpp:188, 213). -/
structure Csc where
  outer : Nat → Nat
  inner : Nat → Nat
  value : Nat → ℝ

/-- Entries per column of the permuted matrix: the counting pass of `permute_symm_to_symm`, LinSolver.cpp:98. Entries below the diagonal are
skipped. -/
def colCount (ip : Nat → Nat) (ts : List Tr) (j : Nat) : Nat := (ts.filter fun t => t.row ≤ t.col ∧ destCol ip t = j).length

/-- The copying pass of `permute_symm_to_symm`, LinSolver.cpp:98: `count` holds the next free position of every column. -/
noncomputable def twistLoop (ip : Nat → Nat) : List Tr → (Nat → Nat) → (Nat → Nat) → (Nat → ℝ) → (Nat → Nat) × (Nat → ℝ)
  | [], _, inner, value => (inner, value)
  | t :: r, count, inner, value =>
    if t.row ≤ t.col then
      twistLoop ip r (Function.update count (destCol ip t) (count (destCol ip t) + 1))
        (Function.update inner (count (destCol ip t)) (destRow ip t)) (Function.update value (count (destCol ip t)) t.val)
    else twistLoop ip r count inner value

/-- `permKkt_.selfadjointView<Upper>() = kkt_.selfadjointView<Upper>().twistedBy(invPerm_)`, LinSolver.cpp:98; the arrays start with
arbitrary content `inner0`, `value0`. -/
noncomputable def twistedBy (ip : Nat → Nat) (ts : List Tr) (inner0 : Nat → Nat) (value0 : Nat → ℝ) : Csc :=
  let outer := Ldl.outer (colCount ip ts)
  let r := twistLoop ip ts outer inner0 value0
  ⟨outer, r.1, r.2⟩

/-- The loop that fills `permK_`, LinSolver.cpp:188-197: `index` is the copy of the outer array, `nnz` the counter. -/
def permKLoop (ip : Nat → Nat) : List Tr → Nat → (Nat → Nat) → (Nat → Nat) → (Nat → Nat)
  | [], _, _, permK => permK
  | t :: r, nnz, index, permK =>
    if t.row ≤ t.col then
      permKLoop ip r (nnz + 1) (Function.update index (destCol ip t) (index (destCol ip t) + 1))
        (Function.update permK nnz (index (destCol ip t)))
    else permKLoop ip r nnz index permK

/-- The members of `LinSolver` and of the cone that `initialize` leaves behind (LinSolver.hpp:59-69). -/
structure St where
  K : Csc
  permSign : Nat → ℝ
  idxLp : Nat → Nat
  idxSoc : Nat → Nat → Nat

/-- `initialize`, LinSolver.cpp:176-209 (with `buildProblem` 31-87 and `findPermutation` 89-99), for the permutation `perm` with inverse
`ip` that the ordering returned; `inner0`, `value0`, `permK0` are the old contents of the arrays, `idx0` the old content of the index
table of the cones beyond the entries set by `buildProblem`. -/
noncomputable def init (c : Cone) (δ : ℝ) (S : Storage) (perm ip : Nat → Nat) (inner0 : Nat → Nat) (value0 : Nat → ℝ) (permK0 : Nat → Nat)
    (idx0 : Nat → Nat → Nat) : St :=
  let At := IP.transpose c.neq S.A
  let Gt := IP.transpose c.sizecone S.G
  let kkt := setFromTriplets c.extsizeproblem (coeffs c δ At Gt)
  let K := twistedBy ip kkt inner0 value0
  let permK := permKLoop ip kkt 0 K.outer permK0
  { K := K
    permSign := fun i => sign c (perm i)
    idxLp := fun id => permK (indexLpc0 c At Gt id)
    idxSoc := fun i k =>
      if k < c.sizeSoc i then permK (indexSoc0 c At Gt i k)
      else if k < c.sizeSoc i + (2 * c.sizeSoc i + 1) then permK (indexSoc0 c At Gt i (c.sizeSoc i - 1) + (k - c.sizeSoc i + 1))
      else idx0 i k }

/-! ### value updates -/

/-- The places of the matrix that `initializeMatrix` and `updateMatrix` write: the diagonal of a linear row; for second-order cone `l` the
diagonal entry `k`, entry `k` of the column `v`, its diagonal, entry `k` of the column `u`, its diagonal (LinSolver.cpp:211-266). -/
inductive Slot where
  | lp (i : Nat)
  | sd (l k : Nat)
  | sv (l k : Nat)
  | svd (l : Nat)
  | su (l k : Nat)
  | sud (l : Nat)
  deriving DecidableEq

/-- The places written for cone `l`, in program order, LinSolver.cpp:221-232 and 253-264. -/
def socSlots (c : Cone) (l : Nat) : List Slot :=
  (List.range (c.sizeSoc l)).map (Slot.sd l) ++ (List.range (c.sizeSoc l - 1)).map (Slot.sv l) ++ [Slot.svd l] ++
    (List.range (c.sizeSoc l)).map (Slot.su l) ++ [Slot.sud l]

/-- All places, in program order, LinSolver.cpp:216-233 and 244-265. -/
def slots (c : Cone) : List Slot := (List.range c.nineq).map Slot.lp ++ (List.range c.nsoc).flatMap (socSlots c)

/-- The position in `valuePtr` written for a place, LinSolver.cpp:217, 221-232, 245, 253-264. -/
def St.addr (s : St) (c : Cone) : Slot → Nat
  | .lp i => s.idxLp i
  | .sd l k => s.idxSoc l k
  | .sv l k => s.idxSoc l (c.sizeSoc l + k)
  | .svd l => s.idxSoc l (2 * c.sizeSoc l - 1)
  | .su l k => s.idxSoc l (2 * c.sizeSoc l + k)
  | .sud l => s.idxSoc l (3 * c.sizeSoc l)

/-- The values written by `initializeMatrix`, LinSolver.cpp:211-234. -/
noncomputable def initVal : Slot → ℝ
  | .lp _ => -1
  | .sd _ _ => -1
  | .sv _ _ => 0
  | .svd _ => -1
  | .su _ _ => 0
  | .sud _ => 1

/-- The values written by `updateMatrix`, LinSolver.cpp:236-266. -/
noncomputable def updVal (δ : ℝ) (W : Scalings) : Slot → ℝ
  | .lp i => -W.lpSq i - δ
  | .sd l k => if k = 0 then -(W.soc l).etaSq * (W.soc l).d1 - δ else -(W.soc l).etaSq - δ
  | .sv l k => -(W.soc l).etaSq * (W.soc l).v1 * (W.soc l).w (k + 1)
  | .svd l => -(W.soc l).etaSq
  | .su l k => if k = 0 then -(W.soc l).etaSq * (W.soc l).u0 else -(W.soc l).etaSq * (W.soc l).u1 * (W.soc l).w k
  | .sud l => (W.soc l).etaSq + δ

/-- The assignments `value[addr] = V` in program order (LinSolver.cpp:211-266). -/
noncomputable def St.write (s : St) (c : Cone) (V : Slot → ℝ) : St :=
  { s with K := { s.K with value := (slots c).foldl (fun v σ => Function.update v (s.addr c σ) (V σ)) s.K.value } }

/-- `initializeMatrix`, LinSolver.cpp:211-234. -/
noncomputable def St.initializeMatrix (s : St) (c : Cone) : St := s.write c initVal

/-- `updateMatrix`, LinSolver.cpp:236-266. -/
noncomputable def St.updateMatrix (s : St) (c : Cone) (δ : ℝ) (W : Scalings) : St := s.write c (updVal δ W)

/-- What `InnerIterator` visits in column `j` of `permKkt_` (the argument of `analyzePattern` and `factorize`, LinSolver.cpp:103 and 108). -/
noncomputable def St.cols (s : St) : Ldl.Cols := fun j =>
  (List.range (s.K.outer (j + 1) - s.K.outer j)).map fun i => (s.K.inner (s.K.outer j + i), s.K.value (s.K.outer j + i))

/-! ### solve with iterative refinement -/

/-- Second-order cones of the extended vector, one after the other (loops LinSolver.cpp:151-155, Cone.cpp:204-222): entry `j < n + 2` of
block `l` becomes `blk l j`; before them the linear entries. -/
noncomputable def extBlocks (c : Cone) (lp : Nat → ℝ) (blk : Nat → Nat → ℝ) (e : Nat → ℝ) : Nat → ℝ :=
  (List.range c.nsoc).foldl (fun e l => wr (c.startSoc l + 2 * l) (c.sizeSoc l + 2) (blk l) e) (wr 0 c.nineq lp e)

/-- `conicNTScaling2(x, y)`, Cone.cpp:193-220. -/
noncomputable def conicNTScaling2 (c : Cone) (W : Scalings) (x y : Nat → ℝ) : Nat → ℝ :=
  extBlocks c (fun i => y i + W.lpSq i * x i)
    (fun l j => y (c.startSoc l + 2 * l + j) + scale2Blk (c.sizeSoc l) (W.soc l) (shift x (c.startSoc l + 2 * l)) j) y

/-- `unpermuteSolution`, Cone.cpp:222-259: the parts of the search direction taken from `Px`; `old` is the old content of `dz`. -/
noncomputable def unpermute (c : Cone) (ip : Nat → Nat) (px old : Nat → ℝ) : IP.Tri :=
  ⟨fun i => px (ip i), fun i => px (ip (i + c.nvars)), c.unpermuteZ (fun k => px (ip k)) old⟩

/-- `err` of the refinement loop for the current `permX_`, LinSolver.cpp:134-157: its `x`, `y` and (extended) `z` part. `W = none` is
`is_initialization`. -/
noncomputable def resid (c : Cone) (δ : ℝ) (S : Storage) (ip : Nat → Nat) (W : Option Scalings) (b px old : Nat → ℝ) : IP.Tri :=
  let d := unpermute c ip px old
  let permdZ := fun i => px (ip (i + c.lpconestart))
  let ex := fun i => b (ip i)
  let ey := fun i => b (ip (c.nvars + i))
  let ez := fun i => b (ip (c.lpconestart + i))
  let ex := IP.mtv S.A d.y ex false false
  let ex := IP.mtv S.G d.z ex false false
  let ex := fun i => ex i - δ * d.x i
  let ey := if nnz S.A > 0 then (fun i => IP.mtv (IP.transpose c.neq S.A) d.x ey false false i + δ * d.y i) else ey
  let gdx := IP.mtv (IP.transpose c.sizecone S.G) d.x (fun _ => 0) true true
  let ez := extBlocks c (fun i => ez i + (-gdx i + δ * d.z i))
    (fun l j =>
      if j < c.sizeSoc l - 1 then ez (c.startSoc l + 2 * l + j) + (-gdx (c.startSoc l + j) + δ * d.z (c.startSoc l + j))
      else if j = c.sizeSoc l - 1 then ez (c.startSoc l + 2 * l + j) - (gdx (c.startSoc l + j) + δ * d.z (c.startSoc l + j))
      else ez (c.startSoc l + 2 * l + j)) ez
  let ez := match W with
    | none => fun i => ez i + permdZ i
    | some W => conicNTScaling2 c W permdZ ez
  ⟨ex, ey, ez⟩

/-- The extended vector made of its three parts (`ExtendedVector::x`, `y`, `z`, Cone.hpp:298-300). -/
def join (c : Cone) (t : IP.Tri) : Nat → ℝ := fun i =>
  if i < c.nvars then t.x i else if i < c.nvars + c.neq then t.y (i - c.nvars) else t.z (i - (c.nvars + c.neq))

/-- `lpNorm<Eigen::Infinity>()` of the first `n` entries, LinSolver.cpp:123 and 160. -/
noncomputable def infNorm (n : Nat) (v : Nat → ℝ) : ℝ := (List.range n).foldl (fun m i => max m |v i|) 0

/-- The settings read by `solve`: `NumIterRefinementsLinSolve`, `LinearSystemAccuracy`, `ErrorReductionFactor` (LinSolver.cpp:112-174). -/
structure RefStg where
  numRefs : Int
  accuracy : ℝ
  reduction : ℝ

/-- The refinement loop, LinSolver.cpp:132-169. `err` computes `err` from `permX_`, `chol` is the Cholesky solve, `perm` takes the error to
permuted order (line 166); `left` is `NumIterRefinementsLinSolve - numRefs`. Answer: `permX_` and `numRefs`. -/
noncomputable def refine (N : Nat) (err : (Nat → ℝ) → Nat → ℝ) (toPerm : (Nat → ℝ) → Nat → ℝ) (chol : (Nat → ℝ) → Nat → ℝ)
    (thresh reduction : ℝ) : Nat → Nat → (Nat → ℝ) → (Nat → ℝ) → ℝ → (Nat → ℝ) × Int
  | left, k, px, pdx, prev =>
    let e := err px
    let cur := infNorm N e
    if k > 0 ∧ cur > prev then (fun i => px i - pdx i, (k : Int) - 1)
    else if left = 0 ∨ cur < thresh ∨ (k > 0 ∧ prev < reduction * cur) then (px, k)
    else match left with
      | 0 => (px, k)
      | left + 1 =>
        let pdx := chol (toPerm e)
        refine N err toPerm chol thresh reduction left (k + 1) (fun i => px i + pdx i) pdx cur

/-- `Pe_[Pinv[i]] = err[i]`, LinSolver.cpp:166, for `i < N`; `old` is the old content. -/
noncomputable def toPerm (N : Nat) (ip : Nat → Nat) (old : Nat → ℝ) (e : Nat → ℝ) : Nat → ℝ :=
  (List.range N).foldl (fun p i => Function.update p (ip i) (e i)) old

/-- `solve`, LinSolver.cpp:112-174: the search direction and the returned number of refinements. -/
noncomputable def solve (c : Cone) (δ : ℝ) (g : RefStg) (S : Storage) (ip : Nat → Nat) (chol : (Nat → ℝ) → Nat → ℝ) (W : Option Scalings)
    (permB pe0 dx0 old : Nat → ℝ) : IP.Tri × Int :=
  let N := c.extsizeproblem
  let px := chol permB
  let r := if g.numRefs < 0 then (px, 0)
    else refine N (fun px => join c (resid c δ S ip W permB px old)) (toPerm N ip pe0) chol
      ((1 + if N > 0 then infNorm N permB else 0) * g.accuracy) g.reduction g.numRefs.toNat 0 px dx0 IP.nanv
  (unpermute c ip r.1 old, r.2)

end Lin
end Verif
