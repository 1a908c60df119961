/-
Model of the dual active-set QP solver of the real-time optimizer,
`rt_solver::RtQPSolver` (/repo/solver/include/solver/rt_optimizer/RtQPSolver.hpp:65-508).

  min x' Hess x + 2 g0' x   s.t.  CE x + ce0 = 0,  CI x + ci0 <= 0

Simplifications: `double` is `ℝ`; vectors and matrices are total functions of the indices, of which only
the entries below the sizes are used; Eigen's Cholesky factorisation is external: its result enters as a
matrix `J0` (`Hessian_factor_inv_`, `L^{-T}`), about which the theorems assume only
`Hess * J0 * J0' = 1`, and `chol_.solve(g0)` is `J0 * J0' * g0`; Eigen's triangular solve is back
substitution. `is_inverse_provided_` is never set (RtQPSolver.hpp:23). The `goto` program is a transition
function on states with a program counter; reading or writing outside a vector ends in `ub`.
-/
import Mathlib.Data.Real.Basic
import Mathlib.Analysis.Real.Sqrt
import Mathlib.Algebra.BigOperators.Intervals

namespace Verif
namespace RtQP

/-- Problem data, RtQPSolver.hpp:225-229. `n` variables, `p` equalities, `m` inequalities; `eps` is
`std::numeric_limits<double>::epsilon()`. -/
structure Data where
  n : Nat
  p : Nat
  m : Nat
  H : Nat → Nat → ℝ
  g : Nat → ℝ
  CE : Nat → Nat → ℝ
  ce0 : Nat → ℝ
  CI : Nat → Nat → ℝ
  ci0 : Nat → ℝ
  J0 : Nat → Nat → ℝ
  eps : ℝ

/-- Dot product of two vectors of length `n` (Eigen's `dot`) (RtQPSolver.hpp:323). -/
noncomputable def dot (n : Nat) (a b : Nat → ℝ) : ℝ := ∑ i ∈ Finset.range n, a i * b i

/-- `distance`, RtQPSolver.hpp:67-81. -/
noncomputable def distance (a b : ℝ) : ℝ :=
  let a1 := |a|
  let b1 := |b|
  if a1 > b1 then
    let t := b1 / a1
    a1 * Real.sqrt (1 + t * t)
  else if b1 > a1 then
    let t := a1 / b1
    b1 * Real.sqrt (1 + t * t)
  else a1 * Real.sqrt 2

/-- `computeD`, RtQPSolver.hpp:84-86: `d = J' np`. -/
noncomputable def computeD (n : Nat) (J : Nat → Nat → ℝ) (np : Nat → ℝ) (k : Nat) : ℝ :=
  ∑ i ∈ Finset.range n, J i k * np i

/-- `updateZ`, RtQPSolver.hpp:88-91: the product of the last `n - iq` columns of `J` with the tail of `d`. -/
noncomputable def updateZ (n : Nat) (J : Nat → Nat → ℝ) (d : Nat → ℝ) (iq i : Nat) : ℝ :=
  ∑ k ∈ Finset.Ico iq n, J i k * d k

/-- The last `t` rows of the back substitution in `updateR` (RtQPSolver.hpp:93-95). -/
noncomputable def backSolve (R : Nat → Nat → ℝ) (d : Nat → ℝ) (iq : Nat) : Nat → Nat → ℝ
  | 0 => fun _ => 0
  | t + 1 =>
    let r := backSolve R d iq t
    let k := iq - 1 - t
    fun i => if i = k then (d k - ∑ c ∈ Finset.Ico (k + 1) iq, R k c * r c) / R k k else r i

/-- `updateR`, RtQPSolver.hpp:93-95: triangular solve with the leading `iq` rows and columns of `R`. -/
noncomputable def updateR (R : Nat → Nat → ℝ) (d : Nat → ℝ) (iq : Nat) : Nat → ℝ := backSolve R d iq iq

/-- The loop over the rows of two columns `a`, `b` of `J`, RtQPSolver.hpp:135-141 and 210-215. -/
noncomputable def rotCols (J : Nat → Nat → ℝ) (a b : Nat) (cc ss : ℝ) : Nat → Nat → ℝ :=
  let xny := ss / (1 + cc)
  fun k j =>
    let t1 := J k a
    let t2 := J k b
    let v := t1 * cc + t2 * ss
    if j = a then v else if j = b then xny * (t1 + v) - t2 else J k j

/-- One iteration of the loop of `addConstraint`, RtQPSolver.hpp:118-141. -/
noncomputable def addRot (j : Nat) (s : (Nat → Nat → ℝ) × (Nat → ℝ)) : (Nat → Nat → ℝ) × (Nat → ℝ) :=
  let J := s.1
  let d := s.2
  let cc := d (j - 1)
  let ss := d j
  let h := distance cc ss
  if h = 0 then s
  else
    let ss1 := ss / h
    let cc1 := cc / h
    let flip := cc1 < 0
    open Classical in
    let cc2 := if flip then -cc1 else cc1
    open Classical in
    let ss2 := if flip then -ss1 else ss1
    open Classical in
    let hd := if flip then -h else h
    (rotCols J (j - 1) j cc2 ss2, fun i => if i = j - 1 then hd else if i = j then 0 else d i)

/-- The loop `for (j=n-1; j>=iq+1; j--)` of `addConstraint`, RtQPSolver.hpp:109-142, from `j` on. -/
noncomputable def addLoop (iq : Nat) : Nat → (Nat → Nat → ℝ) × (Nat → ℝ) → (Nat → Nat → ℝ) × (Nat → ℝ)
  | 0, s => s
  | j + 1, s => if iq + 1 ≤ j + 1 then addLoop iq j (addRot (j + 1) s) else s

/-- `addConstraint`, RtQPSolver.hpp:98-154, with the new number of constraints `iq + 1`; the last
component is the returned flag. -/
noncomputable def addConstraint (n : Nat) (eps : ℝ) (R J : Nat → Nat → ℝ) (d : Nat → ℝ) (iq : Nat)
    (Rnorm : ℝ) : (Nat → Nat → ℝ) × (Nat → Nat → ℝ) × ℝ × Bool :=
  let s := addLoop iq (n - 1) (J, d)
  let R' := fun k c => if c = iq ∧ k < iq + 1 then s.2 k else R k c
  open Classical in
  if |s.2 iq| ≤ eps * Rnorm then (R', s.1, Rnorm, false)
  else (R', s.1, max Rnorm |s.2 iq|, true)

/-- The search of `deleteConstraint`, RtQPSolver.hpp:166-168: first `i` in `[i, iq)` with `A(i) = l`,
else the initial value 0. -/
def findQq (A : Nat → Nat) (l : Nat) : (fuel i : Nat) → Nat
  | 0, _ => 0
  | fuel + 1, i => if A i = l then i else findQq A l fuel (i + 1)

/-- One iteration of the last loop of `deleteConstraint`, RtQPSolver.hpp:190-215; `iq` is the decreased
number of constraints. -/
noncomputable def delRot (iq j : Nat) (s : (Nat → Nat → ℝ) × (Nat → Nat → ℝ)) :
    (Nat → Nat → ℝ) × (Nat → Nat → ℝ) :=
  let R := s.1
  let J := s.2
  let cc := R j j
  let ss := R (j + 1) j
  let h := distance cc ss
  if h = 0 then s
  else
    let cc1 := cc / h
    let ss1 := ss / h
    let flip := cc1 < 0
    open Classical in
    let hd := if flip then -h else h
    open Classical in
    let cc2 := if flip then -cc1 else cc1
    open Classical in
    let ss2 := if flip then -ss1 else ss1
    let xny := ss2 / (1 + cc2)
    let R1 := fun r k => if k = j then (if r = j + 1 then 0 else if r = j then hd else R r k) else R r k
    let R2 := fun r k =>
      if j + 1 ≤ k ∧ k < iq then
        let t1 := R1 j k
        let t2 := R1 (j + 1) k
        let v := t1 * cc2 + t2 * ss2
        if r = j then v else if r = j + 1 then xny * (t1 + v) - t2 else R1 r k
      else R1 r k
    (R2, rotCols J j (j + 1) cc2 ss2)

/-- The last loop of `deleteConstraint`, from `j` on, `fuel = iq - j` (RtQPSolver.hpp:189-216). -/
noncomputable def delLoop (iq : Nat) : (fuel j : Nat) → (Nat → Nat → ℝ) × (Nat → Nat → ℝ) →
    (Nat → Nat → ℝ) × (Nat → Nat → ℝ)
  | 0, _, s => s
  | fuel + 1, j, s => delLoop iq fuel (j + 1) (delRot iq j s)

/-- The arrays `deleteConstraint` works on (RtQPSolver.hpp:156-158). -/
structure Act where
  R : Nat → Nat → ℝ
  J : Nat → Nat → ℝ
  A : Nat → Nat
  u : Nat → ℝ
  iq : Nat

/-- `deleteConstraint`, RtQPSolver.hpp:156-217. The entries of `A` below `p` stand for equalities and are
never compared. -/
noncomputable def deleteConstraint (p l : Nat) (a : Act) : Act :=
  let qq := findQq a.A l (a.iq - p) p
  -- 171-175: shift left
  let A1 := fun i => if qq ≤ i ∧ i < a.iq - 1 then a.A (i + 1) else a.A i
  let u1 := fun i => if qq ≤ i ∧ i < a.iq - 1 then a.u (i + 1) else a.u i
  let R1 := fun k c => if qq ≤ c ∧ c < a.iq - 1 then a.R k (c + 1) else a.R k c
  -- 177-182
  let A2 := fun i => if i = a.iq then 0 else if i = a.iq - 1 then A1 a.iq else A1 i
  let u2 := fun i => if i = a.iq then 0 else if i = a.iq - 1 then u1 a.iq else u1 i
  let R2 := fun k c => if c = a.iq - 1 ∧ k < a.iq then 0 else R1 k c
  let iq := a.iq - 1
  if iq = 0 then ⟨R2, a.J, A2, u2, iq⟩
  else
    let s := delLoop iq (iq - qq) qq (R2, a.J)
    ⟨s.1, s.2, A2, u2, iq⟩

/-- Program counter: the labels of RtQPSolver.hpp:350,383,407; `ret none` is `return inf`. -/
inductive Pc
  | l1 | l2 | l2a
  | ret (v : Option ℝ)
  | ub

/-- The local variables of `solveQP`, RtQPSolver.hpp:231-262. `iai i = true` means `iai(i) != -1`. -/
structure St where
  pc : Pc
  x : Nat → ℝ
  u : Nat → ℝ
  J : Nat → Nat → ℝ
  R : Nat → Nat → ℝ
  A : Nat → Nat
  iq : Nat
  f : ℝ
  Rnorm : ℝ
  s : Nat → ℝ
  ss : ℝ
  ip : Nat
  iai : Nat → Bool
  iaexcl : Nat → Bool
  uOld : Nat → ℝ
  AOld : Nat → Nat
  xOld : Nat → ℝ

namespace Data

/-- Trace of the Hessian, `c1`, RtQPSolver.hpp:269. -/
noncomputable def c1 (q : Data) : ℝ := ∑ i ∈ Finset.range q.n, q.H i i

/-- `c2`, RtQPSolver.hpp:294. -/
noncomputable def c2 (q : Data) : ℝ := ∑ i ∈ Finset.range q.n, q.J0 i i

/-- The state before the equalities are added, RtQPSolver.hpp:275-311. -/
noncomputable def start (q : Data) : St :=
  let x := fun i => -(∑ k ∈ Finset.range q.n, q.J0 i k * computeD q.n q.J0 q.g k)
  { pc := .l1, x := x, u := fun _ => 0, J := q.J0, R := fun _ _ => 0, A := fun _ => 0, iq := 0,
    f := 1 / 2 * dot q.n q.g x, Rnorm := 1, s := fun _ => 0, ss := 0, ip := 0, iai := fun _ => true,
    iaexcl := fun _ => true, uOld := fun _ => 0, AOld := fun _ => 0, xOld := fun _ => 0 }

open Classical in
/-- One iteration of the loop over the equalities, RtQPSolver.hpp:314-343. -/
noncomputable def eqStep (q : Data) (i : Nat) (st : St) : St :=
  let np := q.CE i
  let d := computeD q.n st.J np
  let z := updateZ q.n st.J d st.iq
  let r := updateR st.R d st.iq
  let t2 := if |dot q.n z z| > q.eps then (-(dot q.n np st.x) - q.ce0 i) / dot q.n z np else 0
  let u1 := fun k => if k = st.iq then t2 else st.u k
  let u2 := fun k => if k < st.iq then u1 k - t2 * r k else u1 k
  let a := addConstraint q.n q.eps st.R st.J d st.iq st.Rnorm
  if q.n ≤ st.iq then { st with pc := .ub }     -- column `iq` of `R` does not exist
  else
    let st' := { st with
      x := fun k => st.x k + t2 * z k
      u := u2
      f := st.f + 1 / 2 * (t2 * t2) * dot q.n z np
      R := a.1, J := a.2.1, Rnorm := a.2.2.1, iq := st.iq + 1 }
    if a.2.2.2 then st' else { st' with pc := .ret (some st'.f) }

/-- The loop over the equalities, RtQPSolver.hpp:312-344. -/
noncomputable def eqPhase (q : Data) : (fuel i : Nat) → St → St
  | 0, _, st => st
  | fuel + 1, i, st =>
    match st.pc with
    | .l1 => eqPhase q fuel (i + 1) (eqStep q i st)
    | _ => st

/-- The state at the first visit of `l1`, RtQPSolver.hpp:265-348. -/
noncomputable def init (q : Data) : St := eqPhase q q.p 0 q.start

/-- `s(i) = -(CI.row(i).dot(x) + ci0(i))`, RtQPSolver.hpp:366. -/
noncomputable def slack (q : Data) (x : Nat → ℝ) (i : Nat) : ℝ := -(dot q.n (q.CI i) x + q.ci0 i)

open Classical in
/-- From `l1` to `l2`, RtQPSolver.hpp:350-381. -/
noncomputable def stepL1 (q : Data) (st : St) : St :=
  let iai := fun i => if ∃ k, q.p ≤ k ∧ k < st.iq ∧ st.A k = i then false else st.iai i
  let s := q.slack st.x
  let psi := ∑ i ∈ Finset.range q.m, min 0 (s i)
  let st1 := { st with iai := iai, ss := 0, ip := 0, iaexcl := fun _ => true, s := s }
  if |psi| ≤ q.m * q.eps * q.c1 * q.c2 * 100 then { st1 with pc := .ret (some st.f) }
  else { st1 with
    pc := .l2
    uOld := fun i => if i < st.iq then st.u i else st.uOld i
    AOld := fun i => if i < st.iq then st.A i else st.AOld i
    xOld := st.x }

open Classical in
/-- The search of step 2, RtQPSolver.hpp:384-391, over the first `k` constraints. -/
noncomputable def pick (st : St) : (k : Nat) → ℝ × Nat
  | 0 => (st.ss, st.ip)
  | k + 1 =>
    let b := pick st k
    if st.s k < b.1 ∧ st.iai k = true ∧ st.iaexcl k = true then (st.s k, k) else b

open Classical in
/-- From `l2` to `l2a`, RtQPSolver.hpp:383-405. -/
noncomputable def stepL2 (q : Data) (st : St) : St :=
  let b := pick st q.m
  let st1 := { st with ss := b.1, ip := b.2 }
  if b.1 ≥ 0 then { st1 with pc := .ret (some st.f) }
  else if q.p + q.m ≤ st.iq then { st1 with pc := .ub }     -- `u(iq)`, `A(iq)` out of range
  else { st1 with
    pc := .l2a
    u := fun k => if k = st.iq then 0 else st.u k
    A := fun k => if k = st.iq then b.2 else st.A k }

open Classical in
/-- The ratio test, RtQPSolver.hpp:426-434, over `k = p, .., p + j - 1`: `t1` (`none` = `inf`) and the
position of the minimum. -/
noncomputable def ratio (q : Data) (u r : Nat → ℝ) : (j : Nat) → Option (ℝ × Nat)
  | 0 => none
  | j + 1 =>
    let b := ratio q u r j
    let k := q.p + j
    if r k > 0 ∧ (match b with | none => True | some t => u k / r k < t.1) then some (u k / r k, k) else b

/-- The direction in the primal space at `l2a`, RtQPSolver.hpp:409-419. -/
noncomputable def dir (q : Data) (st : St) : Nat → ℝ :=
  let np := fun i => -(q.CI st.ip i)
  if q.n ≤ st.iq then fun _ => 0 else updateZ q.n st.J (computeD q.n st.J np) st.iq

open Classical in
/-- Step 2a to 2c, RtQPSolver.hpp:407-507. -/
noncomputable def stepL2a (q : Data) (st : St) : St :=
  let np := fun i => -(q.CI st.ip i)
  let d := computeD q.n st.J np
  let z := q.dir st
  let r := updateR st.R d st.iq
  let t1 := q.ratio st.u r (st.iq - q.p)
  let t2 : Option ℝ := if |dot q.n z z| > q.eps then some (-(st.s st.ip) / dot q.n z np) else none
  match t1, t2 with
  | none, none => { st with pc := .ret none }
  | some (t, k), none =>
    -- 460-468: step in the dual space, drop the constraint at position `k`
    let l := st.A k
    let u := fun i => if i = st.iq then st.u i + t else if i < st.iq then st.u i - t * r i else st.u i
    let a := deleteConstraint q.p l ⟨st.R, st.J, st.A, u, st.iq⟩
    { st with R := a.R, J := a.J, A := a.A, u := a.u, iq := a.iq
              iai := fun i => if i = l then true else st.iai i, pc := .l2a }
  | t1, some t2 =>
    let t := match t1 with | none => t2 | some (t, _) => min t t2
    let x := fun i => st.x i + t * z i
    let f := st.f + t * dot q.n z np * (1 / 2 * t + st.u st.iq)
    let u := fun i => if i = st.iq then st.u i + t else if i < st.iq then st.u i - t * r i else st.u i
    if t = t2 then
      -- 482-499: full step
      let a := addConstraint q.n q.eps st.R st.J d st.iq st.Rnorm
      if a.2.2.2 then
        { st with x := x, f := f, u := u, R := a.1, J := a.2.1, Rnorm := a.2.2.1, iq := st.iq + 1
                  iai := fun i => if i = st.ip then false else st.iai i, pc := .l1 }
      else if q.p + q.m ≤ st.iq + 1 then { st with pc := .ub }   -- 177: `A(iq)` out of range
      else
        let b := deleteConstraint q.p st.ip ⟨a.1, a.2.1, st.A, u, st.iq + 1⟩
        if 0 < q.p ∧ 0 < b.iq then { st with pc := .ub }          -- 494: `iai(A(0))` with `A(0) = -1`
        else
        { st with x := st.xOld, f := f, R := b.R, J := b.J, Rnorm := a.2.2.1, iq := b.iq
                  A := fun i => if i < b.iq then st.AOld i else b.A i
                  u := fun i => if i < b.iq then st.uOld i else b.u i
                  iai := fun i => if i < q.m then !(decide (∃ k, k < b.iq ∧ st.AOld k = i)) else st.iai i
                  iaexcl := fun i => if i = st.ip then false else st.iaexcl i, pc := .l2 }
    else
      -- 502-507: partial step
      match t1 with
      | none => { st with pc := .ub }    -- not reachable: then `t = t2`
      | some (_, k) =>
        let l := st.A k
        let a := deleteConstraint q.p l ⟨st.R, st.J, st.A, u, st.iq⟩
        { st with x := x, f := f, R := a.R, J := a.J, A := a.A, u := a.u, iq := a.iq
                  iai := fun i => if i = l then true else st.iai i
                  s := fun i => if i = st.ip then q.slack x st.ip else st.s i, pc := .l2a }

/-- One block of the program (RtQPSolver.hpp:350-507). -/
noncomputable def step (q : Data) (st : St) : St :=
  match st.pc with
  | .l1 => q.stepL1 st
  | .l2 => q.stepL2 st
  | .l2a => q.stepL2a st
  | .ret _ => st
  | .ub => st

/-- `solveQP` after `k` blocks (RtQPSolver.hpp:225-508). -/
noncomputable def run (q : Data) (k : Nat) : St := q.step^[k] q.init

end Data
end RtQP
end Verif
