/-
Model of `solver::Cone` (layout, cone product/division/projection, Nesterov-Todd scalings) and of the views of
`OptimizationVector`, `Vector`, `ExtendedVector`:
/repo/solver/src/solver/interface/Cone.cpp:24-389, /repo/solver/include/solver/interface/Cone.hpp:187-361.

Simplifications: exact reals for `double`; a vector is a function from indices, a pointer `p+k` is the shifted function;
counted loops that add into one accumulator are finite sums; the loops over the entries of one cone are written as
"entry j of block i := ..." in program order (`blockwise`).
-/
import Mathlib.Analysis.Real.Sqrt
import Mathlib.Algebra.BigOperators.Group.Finset.Basic
import Mathlib.Algebra.Order.BigOperators.Group.Finset
import Mathlib.Algebra.BigOperators.Intervals

namespace Verif
open Finset

/-- The arguments of `Cone::initialize`, Cone.cpp:31-50. -/
structure Cone where
  nvars : Nat
  neq : Nat
  nineq : Nat
  q : List Nat

namespace Cone

/-! Sizes and offsets, Cone.cpp:33-44. -/
/-- Cone.cpp:36. -/
def nsoc (c : Cone) : Nat := c.q.length
/-- Cone.cpp:35. -/
def ssoc (c : Cone) : Nat := c.q.sum
/-- Cone.cpp:37. -/
def extssoc (c : Cone) : Nat := c.ssoc + 2 * c.nsoc
/-- Cone.cpp:38. -/
def lpconestart (c : Cone) : Nat := c.nvars + c.neq
/-- Cone.cpp:39. -/
def soconestart (c : Cone) : Nat := c.nvars + c.neq + c.nineq
/-- Cone.cpp:40. -/
def sizecone (c : Cone) : Nat := c.nineq + c.ssoc
/-- Cone.cpp:41. -/
def extsizecone (c : Cone) : Nat := c.sizecone + 2 * c.nsoc
/-- Cone.cpp:42. -/
def sizeconstraints (c : Cone) : Nat := c.neq + c.sizecone
/-- Cone.cpp:43. -/
def sizeproblem (c : Cone) : Nat := c.nvars + c.sizeconstraints
/-- Cone.cpp:44. -/
def extsizeproblem (c : Cone) : Nat := c.sizeproblem + 2 * c.nsoc

/-- `sizeSoc(i)`, Cone.hpp (`q_(i)`) (Cone.hpp:107). -/
def sizeSoc (c : Cone) (i : Nat) : Nat := c.q.getD i 0

/-- `startSoc(i)` = `SOC_start_(i)`, Cone.cpp:70. -/
def startSoc (c : Cone) (i : Nat) : Nat := c.nineq + (c.q.take i).sum

/-- `optStartSoc(i)`, Cone.cpp:71. -/
def optStartSoc (c : Cone) (i : Nat) : Nat := c.nvars + c.neq + c.startSoc i

/-- `extStartSoc(i)`, Cone.cpp:72. -/
def extStartSoc (c : Cone) (i : Nat) : Nat := c.nvars + c.neq + c.startSoc i + 2 * i

/-- `safeDivision`, Cone.cpp:76-79. -/
noncomputable def safeDiv (x y : ℝ) : ℝ := if y < 1e-13 then x / 1e-13 else x / y

/-- `conicResidual(u, size)`, Cone.cpp:81-85. -/
noncomputable def residual (u : Nat → ℝ) (n : Nat) : ℝ := u 0 * u 0 - ∑ j ∈ Ico 1 n, u j ^ 2

/-- Pointer arithmetic `u + s` (used throughout Cone.cpp:81-317). -/
def shift (u : Nat → ℝ) (s : Nat) : Nat → ℝ := fun j => u (s + j)

/-- `for (j = 0; j < n; j++) w[s+j] = f(j)` (the copy loops of Cone.cpp:81-317). -/
noncomputable def wr (s n : Nat) (f : Nat → ℝ) (w : Nat → ℝ) : Nat → ℝ :=
  (List.range n).foldl (fun w j => Function.update w (s + j) (f j)) w

/-- Linear entries first, then cone after cone: the loop structure of Cone.cpp:112-124, 135-146, 176-190. -/
noncomputable def blockwise (c : Cone) (lp : Nat → ℝ) (blk : Nat → Nat → ℝ) (w : Nat → ℝ) : Nat → ℝ :=
  (List.range c.nsoc).foldl (fun w i => wr (c.startSoc i) (c.sizeSoc i) (blk i) w) (wr 0 c.nineq lp w)

/-- Entry `j` of the product in one cone, Cone.cpp:116-121. -/
noncomputable def prodBlk (n : Nat) (u v : Nat → ℝ) (j : Nat) : ℝ :=
  if j = 0 then ∑ k ∈ range n, u k * v k else u 0 * v j + v 0 * u j

/-- `conicProduct`, Cone.cpp:104-126: the vector written (`w` is its previous content). -/
noncomputable def conicProduct (c : Cone) (u v w : Nat → ℝ) : Nat → ℝ :=
  blockwise c (fun i => u i * v i)
    (fun i => prodBlk (c.sizeSoc i) (shift u (c.startSoc i)) (shift v (c.startSoc i))) w

/-- `conicProduct`, return value, Cone.cpp:113,123,125. -/
noncomputable def conicProductMu (c : Cone) (u v w : Nat → ℝ) : ℝ :=
  ∑ i ∈ range c.nineq, |c.conicProduct u v w i| + ∑ i ∈ range c.nsoc, |c.conicProduct u v w (c.startSoc i)|

/-- Entry `j` of the quotient in one cone, Cone.cpp:140-145. -/
noncomputable def divBlk (n : Nat) (u w : Nat → ℝ) (j : Nat) : ℝ :=
  let rho := residual u n
  let uwn := ∑ k ∈ Ico 1 n, u k * w k
  let factor := safeDiv (safeDiv uwn (u 0) - w 0) rho
  if j = 0 then safeDiv (u 0 * w 0 - uwn) rho else factor * u j + safeDiv (w j) (u 0)

/-- `conicDivision`, Cone.cpp:128-147. -/
noncomputable def conicDivision (c : Cone) (u w v : Nat → ℝ) : Nat → ℝ :=
  blockwise c (fun i => safeDiv (w i) (u i))
    (fun i => divBlk (c.sizeSoc i) (shift u (c.startSoc i)) (shift w (c.startSoc i))) v

/-- Violation of one cone, Cone.cpp:156-158. -/
noncomputable def socViolation (n : Nat) (s : Nat → ℝ) : ℝ :=
  max (Real.sqrt (∑ j ∈ range (n - 1), s (1 + j) ^ 2) - s 0) 0

/-- The largest violation, Cone.cpp:153-160. -/
noncomputable def maxResidual (c : Cone) (s : Nat → ℝ) : ℝ :=
  (List.range c.nsoc).foldl (fun m i =>
      if socViolation (c.sizeSoc i) (shift s (c.startSoc i)) > m
      then socViolation (c.sizeSoc i) (shift s (c.startSoc i)) else m)
    ((List.range c.nineq).foldl (fun m i => if s i < 0 then max m |s i| else m) 0)

/-- `conicProjection`, Cone.cpp:149-166. -/
noncomputable def conicProjection (c : Cone) (s : Nat → ℝ) : Nat → ℝ :=
  let m := c.maxResidual s
  (List.range c.nsoc).foldl (fun s i => Function.update s (c.startSoc i) (s (c.startSoc i) + (m + 1)))
    (wr 0 c.nineq (fun i => s i + (m + 1)) s)

/-- `class NesterovToddScaling` after `updateNTScalings`, Cone.hpp (eta, etaSquare, scaling point, and the four numbers of
the sparse representation) (Cone.hpp:46-80). -/
structure NT where
  eta : ℝ
  etaSq : ℝ
  w : Nat → ℝ
  d1 : ℝ
  u0 : ℝ
  u1 : ℝ
  v1 : ℝ

/-- The sparse representation computed from the scaling point `w`, Cone.cpp:302-312; `none` is `ConeStatus::Outside`. -/
noncomputable def ntFinish (n : Nat) (eta etaSq : ℝ) (w : Nat → ℝ) : Option NT :=
  let w0 := w 0
  let wn := ∑ i ∈ Ico 1 n, w i ^ 2
  let alpha := 1 + w0 + safeDiv wn (1 + w0)
  let beta := 1 + safeDiv 2 (1 + w0) + safeDiv wn ((1 + w0) ^ 2)
  let d1 := max (0.5 * (w0 * w0 + wn * (1 - safeDiv (alpha * alpha) (1 + wn * beta)))) 0
  let u0 := Real.sqrt (w0 * w0 + wn - d1)
  let u1 := safeDiv alpha u0
  let v1 := u1 ^ 2 - beta
  if v1 ≤ 0 then none else some ⟨eta, etaSq, w, d1, u0, u1, Real.sqrt v1⟩

/-- The scaling point, Cone.cpp:293-300, from the normalised slack `sk` and dual `zk`. -/
noncomputable def ntPoint (n : Nat) (sk zk : Nat → ℝ) : Nat → ℝ :=
  let normalizer := safeDiv 0.5 (Real.sqrt (0.5 + 0.5 * ∑ i ∈ range n, sk i * zk i))
  fun i => if i = 0 then normalizer * (sk 0 + zk 0) else normalizer * (sk i - zk i)

/-- One iteration of the second-order-cone loop of `updateNTScalings`, Cone.cpp:279-312; `none` is
`ConeStatus::Outside`. -/
noncomputable def updateBlk (n : Nat) (s z : Nat → ℝ) : Option NT :=
  let sres := residual s n
  let zres := residual z n
  if sres ≤ 0 ∨ zres ≤ 0 then none
  else
    let si := safeDiv 1 (Real.sqrt sres)
    let zi := safeDiv 1 (Real.sqrt zres)
    let etaSq := safeDiv (Real.sqrt sres) (Real.sqrt zres)
    ntFinish n (Real.sqrt etaSq) etaSq (ntPoint n (fun i => s i * si) (fun i => z i * zi))

/-- Entry `j` of `W z` in one cone, Cone.cpp:184-189. -/
noncomputable def scaleBlk (n : Nat) (t : NT) (z : Nat → ℝ) (j : Nat) : ℝ :=
  let lzero := ∑ k ∈ Ico 1 n, t.w k * z k
  let factor := z 0 + safeDiv lzero (1 + t.w 0)
  if j = 0 then t.eta * (t.w 0 * z 0 + lzero) else t.eta * (z j + factor * t.w j)

/-- The scalings stored by the cone: linear part and one `NT` per second-order cone (members `LP_scaling_`, `LP_sq_scaling_` (Cone.cpp:54-57) and the scalings of the second-order cones). -/
structure Scalings where
  lp : Nat → ℝ
  lpSq : Nat → ℝ
  soc : Nat → NT

/-- `conicNTScaling`, Cone.cpp:173-191. -/
noncomputable def conicNTScaling (c : Cone) (S : Scalings) (z lam : Nat → ℝ) : Nat → ℝ :=
  blockwise c (fun i => S.lp i * z i) (fun i => scaleBlk (c.sizeSoc i) (S.soc i) (shift z (c.startSoc i))) lam

/-- `updateNTScalings`, Cone.cpp:261-317: `none` is `ConeStatus::Outside`; otherwise the new scalings (second-order cones in
order, failing at the first that fails) and `lambda`. -/
noncomputable def updateNTScalings (c : Cone) (s z lam : Nat → ℝ) : Option (Scalings × (Nat → ℝ)) :=
  if h : ∀ i : Fin c.nsoc, (updateBlk (c.sizeSoc i) (shift s (c.startSoc i)) (shift z (c.startSoc i))).isSome then
    let S : Scalings := ⟨fun i => Real.sqrt (safeDiv (s i) (z i)), fun i => safeDiv (s i) (z i),
      fun i => if hi : i < c.nsoc then (updateBlk (c.sizeSoc i) (shift s (c.startSoc i)) (shift z (c.startSoc i))).get (h ⟨i, hi⟩)
        else ⟨0, 0, fun _ => 0, 0, 0, 0, 0⟩⟩
    some (S, c.conicNTScaling S z lam)
  else none

/-- One cone of `conicNTScaling2`, Cone.cpp:205-218: what is added to the `conesize + 2` entries of `y`
(entry `n` and `n+1` are the two auxiliary rows). -/
noncomputable def scale2Blk (n : Nat) (t : NT) (x : Nat → ℝ) (j : Nat) : ℝ :=
  if j = 0 then t.etaSq * (t.d1 * x 0 + t.u0 * x (n + 1))
  else if j < n then t.etaSq * (x j + (t.v1 * x n + t.u1 * x (n + 1)) * t.w j)
  else if j = n then t.etaSq * (t.v1 * (∑ k ∈ Ico 1 n, t.w k * x k) + x n)
  else t.etaSq * (t.u0 * x 0 + t.u1 * (∑ k ∈ Ico 1 n, t.w k * x k) - x (n + 1))

/-- `ExtendedVector::zRtoE`, Cone.cpp:399-406 on the `z` part of the extended vector (`e` is indexed from `lpConeStart`). -/
noncomputable def zRtoE (c : Cone) (r e : Nat → ℝ) : Nat → ℝ :=
  (List.range c.nsoc).foldl (fun e i =>
      wr (c.startSoc i + 2 * i) (c.sizeSoc i) (shift r (c.startSoc i))
        (wr (c.startSoc i + 2 * i + c.sizeSoc i) 2 (fun _ => 0) e))
    (wr 0 c.nineq r e)

/-- The `z` part of `unpermuteSolution`, Cone.cpp:230-238: `px` is the permuted-back vector `Px[perm[.]]`; the state is
(`k`, `j`, `dz`). -/
noncomputable def unpermuteZ (c : Cone) (px dz : Nat → ℝ) : Nat → ℝ :=
  ((List.range c.nsoc).foldl (fun (st : Nat × Nat × (Nat → ℝ)) i =>
      let st' := (List.range (c.sizeSoc i)).foldl (fun (st : Nat × Nat × (Nat → ℝ)) _ =>
        (st.1 + 1, st.2.1 + 1, Function.update st.2.2 st.2.1 (px st.1))) st
      (st'.1 + 2, st'.2.1, st'.2.2))
    (c.soconestart, c.nineq, wr 0 c.nineq (fun i => px (i + c.lpconestart)) dz)).2.2

/-! ### views of `OptimizationVector`: (start, length), Cone.hpp:342-358, size Cone.cpp:412 -/

/-- A segment `(start, length)` of a vector, Cone.hpp:342-358. -/
structure View where
  start : Nat
  len : Nat
  deriving DecidableEq

/-- The size of an `OptimizationVector`, Cone.cpp:412. -/
def optVecSize (c : Cone) : Nat := c.sizeproblem + c.nineq + c.ssoc + 2
/-- `x()`, Cone.hpp:342. -/
def vX (c : Cone) : View := ⟨0, c.nvars⟩
/-- `y()`, Cone.hpp:343. -/
def vY (c : Cone) : View := ⟨c.nvars, c.neq⟩
/-- `z()`, Cone.hpp:344. -/
def vZ (c : Cone) : View := ⟨c.lpconestart, c.sizecone⟩
/-- `s()`, Cone.hpp:345. -/
def vS (c : Cone) : View := ⟨c.sizeproblem + 2, c.sizecone⟩
/-- `tau()`, Cone.hpp:348. -/
def vTau (c : Cone) : View := ⟨c.sizeproblem, 1⟩
/-- `kappa()`, Cone.hpp:349. -/
def vKappa (c : Cone) : View := ⟨c.sizeproblem + 1, 1⟩
/-! const overloads, Cone.hpp:351-358 -/
/-- const `x()`, Cone.hpp:351. -/
def vXc (c : Cone) : View := ⟨0, c.nvars⟩
/-- const `y()`, Cone.hpp:352. -/
def vYc (c : Cone) : View := ⟨c.nvars, c.neq⟩
/-- const `s()`, Cone.hpp:353. -/
def vSc (c : Cone) : View := ⟨c.lpconestart, c.sizecone⟩
/-- const `z()`, Cone.hpp:354. -/
def vZc (c : Cone) : View := ⟨c.sizeproblem + 2, c.sizecone⟩
/-- const `tau()`, Cone.hpp:357. -/
def vTauc (c : Cone) : View := ⟨c.sizeproblem, 1⟩
/-- const `kappa()`, Cone.hpp:358. -/
def vKappac (c : Cone) : View := ⟨c.sizeproblem + 1, 1⟩

end Cone
end Verif
