/-
Model of the dual active-set QP solver `rt_solver::RtQPSolver` (/repo/solver/include/solver/rt_optimizer/RtQPSolver.hpp:28-508) in machine arithmetic: the same
`goto` program as in `RtQP.lean`, but every `double` operation and comparison is an operation of an arbitrary arithmetic `F` (see `LbfgsFloat.lean`), in
particular with NaN and infinities.

Simplifications: expressions are evaluated as written, sums (Eigen's `dot`, products) from the left; what Eigen's Cholesky factorisation delivers
(`Hessian_factor_inv_` and `chol_.solve(g0)`) is arbitrary; `is_inverse_provided_` is never set (RtQPSolver.hpp:23). The step lengths `t1`, `t2` that equal
infinity are `none`; comparison with infinity is given by two tests of the arithmetic, `below` (`x < inf`) and `atLeast` (`x >= inf`). Reading or writing outside a vector ends
in `ub`.
-/
import Verif.LbfgsFloat
import Verif.RtQP

namespace Verif
namespace RtQPF
open LbfgsF

variable {F : Type} [Arith F]

/-- Problem data, RtQPSolver.hpp:225-229; `J0` and `x0` are what the factorisation delivers (lines 275-305), `eps` is
`std::numeric_limits<double>::epsilon()`, `below` and `atLeast` the comparisons with `inf`. -/
structure Data (F : Type) where
  n : Nat
  p : Nat
  m : Nat
  H : Nat → Nat → F
  g : Nat → F
  CE : Nat → Nat → F
  ce0 : Nat → F
  CI : Nat → Nat → F
  ci0 : Nat → F
  J0 : Nat → Nat → F
  x0 : Nat → F
  eps : F
  below : F → Bool
  atLeast : F → Bool

/-- `f(a) + f(a+1) + ...`, `k` terms, from the left (Eigen's products, e.g. RtQPSolver.hpp:84-91). -/
def sum (a : Nat) (f : Nat → F) : Nat → F
  | 0 => c 0
  | k + 1 => sum a f k +. f (a + k)

/-- Eigen's `dot` of vectors of length `n` (RtQPSolver.hpp:323). -/
def dot (n : Nat) (a b : Nat → F) : F := sum 0 (fun i => a i *. b i) n

/-- `distance`, RtQPSolver.hpp:67-81. -/
def distance (a b : F) : F :=
  let a1 := Arith.abs a
  let b1 := Arith.abs b
  if b1 <. a1 then
    let t := b1 /. a1
    a1 *. Arith.sqrt (c 1 +. t *. t)
  else if a1 <. b1 then
    let t := a1 /. b1
    b1 *. Arith.sqrt (c 1 +. t *. t)
  else a1 *. Arith.sqrt (c 2)

/-- `computeD`, RtQPSolver.hpp:84-86: `d = J' np`. -/
def computeD (n : Nat) (J : Nat → Nat → F) (np : Nat → F) (k : Nat) : F := sum 0 (fun i => J i k *. np i) n

/-- `updateZ`, RtQPSolver.hpp:88-91. -/
def updateZ (n : Nat) (J : Nat → Nat → F) (d : Nat → F) (iq i : Nat) : F := sum iq (fun k => J i k *. d k) (n - iq)

/-- The last `t` rows of the back substitution in `updateR` (RtQPSolver.hpp:93-95). -/
def backSolve (R : Nat → Nat → F) (d : Nat → F) (iq : Nat) : Nat → Nat → F
  | 0 => fun _ => c 0
  | t + 1 =>
    let r := backSolve R d iq t
    let k := iq - 1 - t
    fun i => if i = k then (d k -. sum (k + 1) (fun j => R k j *. r j) (iq - (k + 1))) /. R k k else r i

/-- `updateR`, RtQPSolver.hpp:93-95. -/
def updateR (R : Nat → Nat → F) (d : Nat → F) (iq : Nat) : Nat → F := backSolve R d iq iq

/-- The loop over the rows of two columns `a`, `b` of `J`, RtQPSolver.hpp:135-141 and 210-215. -/
def rotCols (J : Nat → Nat → F) (a b : Nat) (cc ss : F) : Nat → Nat → F :=
  let xny := ss /. (c 1 +. cc)
  fun k j =>
    let t1 := J k a
    let t2 := J k b
    let v := t1 *. cc +. t2 *. ss
    if j = a then v else if j = b then xny *. (t1 +. v) -. t2 else J k j

/-- One iteration of the loop of `addConstraint`, RtQPSolver.hpp:118-141. -/
def addRot (j : Nat) (s : (Nat → Nat → F) × (Nat → F)) : (Nat → Nat → F) × (Nat → F) :=
  let J := s.1
  let d := s.2
  let cc := d (j - 1)
  let ss := d j
  let h := distance cc ss
  if h ==. c 0 then s
  else
    let ss1 := ss /. h
    let cc1 := cc /. h
    let cc2 := if cc1 <. c 0 then Arith.neg cc1 else cc1
    let ss2 := if cc1 <. c 0 then Arith.neg ss1 else ss1
    let hd := if cc1 <. c 0 then Arith.neg h else h
    (rotCols J (j - 1) j cc2 ss2, fun i => if i = j - 1 then hd else if i = j then c 0 else d i)

/-- The loop `for (j=n-1; j>=iq+1; j--)` of `addConstraint`, RtQPSolver.hpp:109-142, from `j` on. -/
def addLoop (iq : Nat) : Nat → (Nat → Nat → F) × (Nat → F) → (Nat → Nat → F) × (Nat → F)
  | 0, s => s
  | j + 1, s => if iq + 1 ≤ j + 1 then addLoop iq j (addRot (j + 1) s) else s

/-- `addConstraint`, RtQPSolver.hpp:98-154; the last component is the returned flag. -/
def addConstraint (n : Nat) (eps : F) (R J : Nat → Nat → F) (d : Nat → F) (iq : Nat) (Rnorm : F) :
    (Nat → Nat → F) × (Nat → Nat → F) × F × Bool :=
  let s := addLoop iq (n - 1) (J, d)
  let R' := fun k j => if j = iq ∧ k < iq + 1 then s.2 k else R k j
  if Arith.abs (s.2 iq) <=. eps *. Rnorm then (R', s.1, Rnorm, false)
  else (R', s.1, fmax Rnorm (Arith.abs (s.2 iq)), true)

/-- One iteration of the last loop of `deleteConstraint`, RtQPSolver.hpp:190-215. -/
def delRot (iq j : Nat) (s : (Nat → Nat → F) × (Nat → Nat → F)) : (Nat → Nat → F) × (Nat → Nat → F) :=
  let R := s.1
  let J := s.2
  let cc := R j j
  let ss := R (j + 1) j
  let h := distance cc ss
  if h ==. c 0 then s
  else
    let cc1 := cc /. h
    let ss1 := ss /. h
    let hd := if cc1 <. c 0 then Arith.neg h else h
    let cc2 := if cc1 <. c 0 then Arith.neg cc1 else cc1
    let ss2 := if cc1 <. c 0 then Arith.neg ss1 else ss1
    let xny := ss2 /. (c 1 +. cc2)
    let R1 := fun r k => if k = j then (if r = j + 1 then c 0 else if r = j then hd else R r k) else R r k
    let R2 := fun r k =>
      if j + 1 ≤ k ∧ k < iq then
        let t1 := R1 j k
        let t2 := R1 (j + 1) k
        let v := t1 *. cc2 +. t2 *. ss2
        if r = j then v else if r = j + 1 then xny *. (t1 +. v) -. t2 else R1 r k
      else R1 r k
    (R2, rotCols J j (j + 1) cc2 ss2)

/-- The last loop of `deleteConstraint`, from `j` on, `fuel = iq - j` (RtQPSolver.hpp:189-216). -/
def delLoop (iq : Nat) : (fuel j : Nat) → (Nat → Nat → F) × (Nat → Nat → F) → (Nat → Nat → F) × (Nat → Nat → F)
  | 0, _, s => s
  | fuel + 1, j, s => delLoop iq fuel (j + 1) (delRot iq j s)

/-- The arrays `deleteConstraint` works on (RtQPSolver.hpp:156-158). -/
structure Act (F : Type) where
  R : Nat → Nat → F
  J : Nat → Nat → F
  A : Nat → Nat
  u : Nat → F
  iq : Nat

/-- `deleteConstraint`, RtQPSolver.hpp:156-217. -/
def deleteConstraint (p l : Nat) (a : Act F) : Act F :=
  let qq := RtQP.findQq a.A l (a.iq - p) p
  let A1 := fun i => if qq ≤ i ∧ i < a.iq - 1 then a.A (i + 1) else a.A i
  let u1 := fun i => if qq ≤ i ∧ i < a.iq - 1 then a.u (i + 1) else a.u i
  let R1 := fun k j => if qq ≤ j ∧ j < a.iq - 1 then a.R k (j + 1) else a.R k j
  let A2 := fun i => if i = a.iq then 0 else if i = a.iq - 1 then A1 a.iq else A1 i
  let u2 := fun i => if i = a.iq then c 0 else if i = a.iq - 1 then u1 a.iq else u1 i
  let R2 := fun k j => if j = a.iq - 1 ∧ k < a.iq then c 0 else R1 k j
  let iq := a.iq - 1
  if iq = 0 then ⟨R2, a.J, A2, u2, iq⟩
  else
    let s := delLoop iq (iq - qq) qq (R2, a.J)
    ⟨s.1, s.2, A2, u2, iq⟩

/-- Program counter: the labels of RtQPSolver.hpp:350,383,407; `ret none` is `return inf`. -/
inductive Pc (F : Type)
  | l1 | l2 | l2a
  | ret (v : Option F)
  | ub

/-- The local variables of `solveQP`, RtQPSolver.hpp:231-262. `iai i = true` means `iai(i) != -1`. -/
structure St (F : Type) where
  pc : Pc F
  x : Nat → F
  u : Nat → F
  J : Nat → Nat → F
  R : Nat → Nat → F
  A : Nat → Nat
  iq : Nat
  f : F
  Rnorm : F
  s : Nat → F
  ss : F
  ip : Nat
  iai : Nat → Bool
  iaexcl : Nat → Bool
  uOld : Nat → F
  AOld : Nat → Nat
  xOld : Nat → F

namespace Data

/-- Trace of the Hessian, `c1`, RtQPSolver.hpp:269. -/
def c1 (q : Data F) : F := sum 0 (fun i => q.H i i) q.n

/-- `c2`, RtQPSolver.hpp:294. -/
def c2 (q : Data F) : F := sum 0 (fun i => q.J0 i i) q.n

/-- The state before the equalities are added, RtQPSolver.hpp:275-311. -/
def start (q : Data F) : St F :=
  let x := fun i => Arith.neg (q.x0 i)
  { pc := .l1, x := x, u := fun _ => c 0, J := q.J0, R := fun _ _ => c 0, A := fun _ => 0, iq := 0,
    f := c (1 / 2) *. dot q.n q.g x, Rnorm := c 1, s := fun _ => c 0, ss := c 0, ip := 0, iai := fun _ => true,
    iaexcl := fun _ => true, uOld := fun _ => c 0, AOld := fun _ => 0, xOld := fun _ => c 0 }

/-- One iteration of the loop over the equalities, RtQPSolver.hpp:314-343. -/
def eqStep (q : Data F) (i : Nat) (st : St F) : St F :=
  let np := q.CE i
  let d := computeD q.n st.J np
  let z := updateZ q.n st.J d st.iq
  let r := updateR st.R d st.iq
  let t2 := if q.eps <. Arith.abs (dot q.n z z) then (Arith.neg (dot q.n np st.x) -. q.ce0 i) /. dot q.n z np else c 0
  let u1 := fun k => if k = st.iq then t2 else st.u k
  let u2 := fun k => if k < st.iq then u1 k -. t2 *. r k else u1 k
  let a := addConstraint q.n q.eps st.R st.J d st.iq st.Rnorm
  if q.n ≤ st.iq then { st with pc := .ub }
  else
    let st' := { st with
      x := fun k => st.x k +. t2 *. z k
      u := u2
      f := st.f +. c (1 / 2) *. (t2 *. t2) *. dot q.n z np
      R := a.1, J := a.2.1, Rnorm := a.2.2.1, iq := st.iq + 1 }
    if a.2.2.2 then st' else { st' with pc := .ret (some st'.f) }

/-- The loop over the equalities, RtQPSolver.hpp:312-344. -/
def eqPhase (q : Data F) : (fuel i : Nat) → St F → St F
  | 0, _, st => st
  | fuel + 1, i, st =>
    match st.pc with
    | .l1 => eqPhase q fuel (i + 1) (eqStep q i st)
    | _ => st

/-- The state at the first visit of `l1`, RtQPSolver.hpp:265-348. -/
def init (q : Data F) : St F := eqPhase q q.p 0 q.start

/-- `s(i) = -(CI.row(i).dot(x) + ci0(i))`, RtQPSolver.hpp:366. -/
def slack (q : Data F) (x : Nat → F) (i : Nat) : F := Arith.neg (dot q.n (q.CI i) x +. q.ci0 i)

/-- `psi`, RtQPSolver.hpp:358-368. -/
def psi (q : Data F) (x : Nat → F) : F := sum 0 (fun i => fmin (c 0) (q.slack x i)) q.m

/-- The threshold of RtQPSolver.hpp:370. -/
def threshold (q : Data F) : F := c (q.m : ℚ) *. q.eps *. q.c1 *. q.c2 *. c 100

/-- From `l1` to `l2`, RtQPSolver.hpp:350-381. -/
def stepL1 (q : Data F) (st : St F) : St F :=
  let iai := fun i => if (List.range st.iq).any (fun k => decide (q.p ≤ k) && decide (st.A k = i)) then false else st.iai i
  let st1 := { st with iai := iai, ss := c 0, ip := 0, iaexcl := fun _ => true, s := q.slack st.x }
  if Arith.abs (q.psi st.x) <=. q.threshold then { st1 with pc := .ret (some st.f) }
  else { st1 with
    pc := .l2
    uOld := fun i => if i < st.iq then st.u i else st.uOld i
    AOld := fun i => if i < st.iq then st.A i else st.AOld i
    xOld := st.x }

/-- The search of step 2, RtQPSolver.hpp:384-391, over the first `k` constraints. -/
def pick (st : St F) : (k : Nat) → F × Nat
  | 0 => (st.ss, st.ip)
  | k + 1 =>
    let b := pick st k
    if (st.s k <. b.1) = true ∧ st.iai k = true ∧ st.iaexcl k = true then (st.s k, k) else b

/-- From `l2` to `l2a`, RtQPSolver.hpp:383-405. -/
def stepL2 (q : Data F) (st : St F) : St F :=
  let b := pick st q.m
  let st1 := { st with ss := b.1, ip := b.2 }
  if c 0 <=. b.1 then { st1 with pc := .ret (some st.f) }
  else if q.p + q.m ≤ st.iq then { st1 with pc := .ub }
  else { st1 with
    pc := .l2a
    u := fun k => if k = st.iq then c 0 else st.u k
    A := fun k => if k = st.iq then b.2 else st.A k }

/-- `tmp < t1` in the ratio test, RtQPSolver.hpp:429. -/
def less (q : Data F) (tmp : F) : Option (F × Nat) → Bool
  | none => q.below tmp
  | some t => tmp <. t.1

/-- The ratio test, RtQPSolver.hpp:426-434, over `k = p, .., p + j - 1`: `t1` (`none` = `inf`) and the position of the minimum. -/
def ratio (q : Data F) (u r : Nat → F) : (j : Nat) → Option (F × Nat)
  | 0 => none
  | j + 1 =>
    let b := ratio q u r j
    let k := q.p + j
    if (c 0 <. r k) = true ∧ q.less (u k /. r k) b = true then some (u k /. r k, k) else b

/-- The direction in the primal space at `l2a`, RtQPSolver.hpp:409-419. -/
def dir (q : Data F) (st : St F) : Nat → F :=
  let np := fun i => Arith.neg (q.CI st.ip i)
  if q.n ≤ st.iq then fun _ => c 0 else updateZ q.n st.J (computeD q.n st.J np) st.iq

/-- The full step length `t2`, RtQPSolver.hpp:436-439; `none` = `inf`. -/
def full (q : Data F) (st : St F) : Option F :=
  let t := Arith.neg (st.s st.ip) /. dot q.n (q.dir st) (fun i => Arith.neg (q.CI st.ip i))
  if q.eps <. Arith.abs (dot q.n (q.dir st) (q.dir st)) then (if q.atLeast t then none else some t) else none

/-- The step in both spaces with length `t`, RtQPSolver.hpp:470-507; `full` says whether `t == t2`, `l` is the constraint to drop otherwise. -/
def move (q : Data F) (st : St F) (t : F) (full : Bool) (l : Nat) : St F :=
  let np := fun i => Arith.neg (q.CI st.ip i)
  let d := computeD q.n st.J np
  let z := q.dir st
  let r := updateR st.R d st.iq
  let x := fun i => st.x i +. t *. z i
  let f := st.f +. t *. dot q.n z np *. (c (1 / 2) *. t +. st.u st.iq)
  let u := fun i => if i = st.iq then st.u i +. t else if i < st.iq then st.u i -. t *. r i else st.u i
  if full then
    let a := addConstraint q.n q.eps st.R st.J d st.iq st.Rnorm
    if a.2.2.2 then
      { st with x := x, f := f, u := u, R := a.1, J := a.2.1, Rnorm := a.2.2.1, iq := st.iq + 1
                iai := fun i => if i = st.ip then false else st.iai i, pc := .l1 }
    else if q.p + q.m ≤ st.iq + 1 then { st with pc := .ub }
    else
      let b := deleteConstraint q.p st.ip ⟨a.1, a.2.1, st.A, u, st.iq + 1⟩
      if 0 < q.p ∧ 0 < b.iq then { st with pc := .ub }
      else
      { st with x := st.xOld, f := f, R := b.R, J := b.J, Rnorm := a.2.2.1, iq := b.iq
                A := fun i => if i < b.iq then st.AOld i else b.A i
                u := fun i => if i < b.iq then st.uOld i else b.u i
                iai := fun i => if i < q.m then !((List.range b.iq).any (fun k => decide (st.AOld k = i))) else st.iai i
                iaexcl := fun i => if i = st.ip then false else st.iaexcl i, pc := .l2 }
  else
    let a := deleteConstraint q.p l ⟨st.R, st.J, st.A, u, st.iq⟩
    { st with x := x, f := f, R := a.R, J := a.J, A := a.A, u := a.u, iq := a.iq
              iai := fun i => if i = l then true else st.iai i
              s := fun i => if i = st.ip then q.slack x st.ip else st.s i, pc := .l2a }

/-- Step 2a to 2c, RtQPSolver.hpp:407-507; `t = std::min(t1, t2)` (line 442). -/
def stepL2a (q : Data F) (st : St F) : St F :=
  let r := updateR st.R (computeD q.n st.J (fun i => Arith.neg (q.CI st.ip i))) st.iq
  match q.ratio st.u r (st.iq - q.p), q.full st with
  | none, none => { st with pc := .ret none }
  | some (t, k), none =>
    let l := st.A k
    let u := fun i => if i = st.iq then st.u i +. t else if i < st.iq then st.u i -. t *. r i else st.u i
    let a := deleteConstraint q.p l ⟨st.R, st.J, st.A, u, st.iq⟩
    { st with R := a.R, J := a.J, A := a.A, u := a.u, iq := a.iq
              iai := fun i => if i = l then true else st.iai i, pc := .l2a }
  | none, some t2 => if q.below t2 then q.move st t2 (t2 ==. t2) 0 else { st with pc := .ret none }
  | some (t1, k), some t2 => q.move st (fmin t1 t2) (fmin t1 t2 ==. t2) (st.A k)

/-- One block of the program (RtQPSolver.hpp:350-507). -/
def step (q : Data F) (st : St F) : St F :=
  match st.pc with
  | .l1 => q.stepL1 st
  | .l2 => q.stepL2 st
  | .l2a => q.stepL2a st
  | .ret _ => st
  | .ub => st

/-- `solveQP` after `k` blocks (RtQPSolver.hpp:225-508). -/
def run (q : Data F) (k : Nat) : St F := q.step^[k] q.init

/-- `isOptimized()` for the value returned by `solveQP`, RtQPSolver.hpp:39: any value but `inf`. -/
def optimized (isInf : F → Bool) : Option F → Bool
  | none => false
  | some v => !isInf v

end Data
end RtQPF
end Verif
