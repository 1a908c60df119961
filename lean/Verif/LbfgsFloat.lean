/-
Model of the L-BFGS solver, /repo/solver/src/solver/optimizer/LbfgsSolver.cpp, in machine arithmetic: the same function as in `Lbfgs.lean`, but every `double`
operation and comparison of the source is an operation of an arbitrary arithmetic `F`, in the order of the source. Nothing is assumed of the arithmetic in the
model; the theorems that need it assume the laws `Ieee` (comparisons with NaN are false, NaN propagates, addition and multiplication are rounded monotonically).

Simplifications: expressions are evaluated as written (no contraction into fused operations, no excess precision); vectors are functions on `Fin n`; memory
allocation succeeds; `int` does not overflow. The objective callback is an arbitrary function returning a value and a vector; the progress callback is arbitrary.
-/
import Verif.Lbfgs

namespace Verif
namespace LbfgsF
open Lbfgs (LsErr ParErr Ret)

/-- The operations on `double` used in LbfgsSolver.cpp:87-1016. `lit` converts a literal of the source. -/
class Arith (F : Type) where
  lit : ℚ → F
  add : F → F → F
  sub : F → F → F
  mul : F → F → F
  div : F → F → F
  neg : F → F
  sqrt : F → F
  abs : F → F
  lt : F → F → Bool
  le : F → F → Bool
  eq : F → F → Bool

/-- `a + b` on doubles (LbfgsSolver.cpp:106). -/
scoped infixl:65 " +. " => Arith.add
/-- `a - b` on doubles (LbfgsSolver.cpp:112). -/
scoped infixl:65 " -. " => Arith.sub
/-- `a * b` on doubles (LbfgsSolver.cpp:106). -/
scoped infixl:70 " *. " => Arith.mul
/-- `a / b` on doubles (LbfgsSolver.cpp:141). -/
scoped infixl:70 " /. " => Arith.div
/-- `a < b` on doubles (LbfgsSolver.cpp:322). -/
scoped infix:50 " <. " => Arith.lt
/-- `a <= b` on doubles (LbfgsSolver.cpp:323). -/
scoped infix:50 " <=. " => Arith.le
/-- `a == b` on doubles (LbfgsSolver.cpp:659). -/
scoped infix:50 " ==. " => Arith.eq

variable {F : Type} [Arith F]

/-- A literal of the source, e.g. `1.0` (LbfgsSolver.cpp:322). -/
abbrev c (q : ℚ) : F := Arith.lit q

/-- A vector of `n` doubles, e.g. `x` of `lbfgs` (LbfgsSolver.cpp:189). -/
abbrev Vec (F : Type) (n : Nat) := Fin n → F

/-- Value and gradient callback `lbfgs_evaluate_t` (LbfgsSolver.hpp:299). -/
abbrev Eval (F : Type) (n : Nat) := Vec F n → F × Vec F n

/-- Progress callback `lbfgs_progress_t` (LbfgsSolver.hpp:321-323): `x`, `g`, `fx`, `xnorm`, `gnorm`, `step`, `k`, `ls`. -/
abbrev Prog (F : Type) (n : Nat) := Vec F n → Vec F n → F → F → F → F → Nat → Nat → Int

/-- `vecdot`, LbfgsSolver.cpp:125-130: summation from the left, starting with 0. -/
def dot {n : Nat} (x y : Vec F n) : F := (List.finRange n).foldl (fun s i => s +. x i *. y i) (c 0)

/-- `vec2norm`, LbfgsSolver.cpp:132-136. -/
def norm2 {n : Nat} (x : Vec F n) : F := Arith.sqrt (dot x x)

/-- `vecadd`, LbfgsSolver.cpp:103-107: `y + a x`. -/
def vecadd {n : Nat} (y x : Vec F n) (a : F) : Vec F n := fun i => y i +. a *. x i

/-- `std::min` (used e.g. in LbfgsSolver.cpp:622). -/
def fmin (a b : F) : F := if b <. a then b else a

/-- `std::max` (used e.g. in LbfgsSolver.cpp:623). -/
def fmax (a b : F) : F := if a <. b then b else a

/-- `max2`, LbfgsSolver.cpp:79. -/
def max2 (a b : F) : F := if b <=. a then a else b

/-- `max3`, LbfgsSolver.cpp:80. -/
def max3 (a b d : F) : F := max2 (max2 a b) d

/-- `lbfgs_parameter_t`, LbfgsSolver.hpp:157-279. -/
structure Params (F : Type) where
  m : Int
  epsilon : F
  past : Int
  delta : F
  maxIterations : Int
  linesearch : Int
  maxLinesearch : Int
  minStep : F
  maxStep : F
  ftol : F
  wolfe : F
  gtol : F
  xtol : F

/-- The defaults, LbfgsSolver.cpp:160-164. -/
def defparam : Params F :=
  ⟨6, c (1 / 10 ^ 5), 0, c (1 / 10 ^ 5), 0, 0, 40, c (1 / 10 ^ 20), c (10 ^ 20), c (1 / 10 ^ 4), c (9 / 10), c (9 / 10), c (1 / 10 ^ 16)⟩

/-- Parameter validation, LbfgsSolver.cpp:217-265 (`none`: accepted). -/
def validate (n : Int) (p : Params F) : Option ParErr :=
  if n ≤ 0 then some .n
  else if p.epsilon <. c 0 then some .epsilon
  else if p.past < 0 then some .testPeriod
  else if p.delta <. c 0 then some .delta
  else if p.minStep <. c 0 then some .minStep
  else if p.maxStep <. p.minStep then some .maxStep
  else if p.ftol <. c 0 then some .ftol
  else if (p.linesearch = 2 ∨ p.linesearch = 3) ∧ (p.wolfe <=. p.ftol ∨ c 1 <=. p.wolfe) then some .wolfe
  else if p.gtol <. c 0 then some .gtol
  else if p.xtol <. c 0 then some .xtol
  else if p.maxLinesearch ≤ 0 then some .maxLinesearch
  else if ¬ (p.linesearch = 0 ∨ p.linesearch = 1 ∨ p.linesearch = 2 ∨ p.linesearch = 3) then some .linesearch
  else none

/-- What a line search leaves behind: `x`, `f`, `g`, `stp`, the number of evaluations, and its return value (LbfgsSolver.cpp:489-741). -/
structure LsOut (F : Type) (n : Nat) where
  x : Vec F n
  f : F
  g : Vec F n
  stp : F
  evals : Nat
  ret : Except LsErr Nat

/-- The decision on a trial point, LbfgsSolver.cpp:523-550: `none` accepts, `some w` scales the step by `w`. -/
def btDecide (p : Params F) (finit dginit stp f dg : F) : Option F :=
  if finit +. stp *. (p.ftol *. dginit) <. f then some (c (1 / 2))
  else if p.linesearch = 1 then none
  else if dg <. p.wolfe *. dginit then some (c (21 / 10))
  else if p.linesearch = 2 then none
  else if Arith.neg p.wolfe *. dginit <. dg then some (c (1 / 2))
  else none

/-- The loop of `line_search_backtracking`, LbfgsSolver.cpp:514-566; `count` evaluations were made before. -/
def btLoop {n : Nat} (p : Params F) (ev : Eval F n) (xp d : Vec F n) (finit dginit : F) (count : Nat) (stp : F) : LsOut F n :=
  let x := vecadd xp d stp
  let f := (ev x).1
  let g := (ev x).2
  let k := count + 1
  match btDecide p finit dginit stp f (dot g d) with
  | none => ⟨x, f, g, stp, k, .ok k⟩
  | some w =>
    if stp <. p.minStep then ⟨x, f, g, stp, k, .error .minimumStep⟩
    else if p.maxStep <. stp then ⟨x, f, g, stp, k, .error .maximumStep⟩
    else if p.maxLinesearch ≤ k then ⟨x, f, g, stp, k, .error .maximumLinesearch⟩
    else btLoop p ev xp d finit dginit k (stp *. w)
termination_by (p.maxLinesearch - count).toNat
decreasing_by omega

/-- `line_search_backtracking`, LbfgsSolver.cpp:489-567. -/
def backtracking {n : Nat} (p : Params F) (ev : Eval F n) (xp : Vec F n) (f : F) (gp d : Vec F n) (stp : F) : LsOut F n :=
  if stp <=. c 0 then ⟨xp, f, gp, stp, 0, .error .invalidParameters⟩
  else if c 0 <. dot gp d then ⟨xp, f, gp, stp, 0, .error .increaseGradient⟩
  else btLoop p ev xp d f (dot gp d) 0 stp

/-- `CUBIC_MINIMIZER`, LbfgsSolver.cpp:759-772. -/
def cubicMin (u fu du v fv dv : F) : F :=
  let d := v -. u
  let theta := (fu -. fv) *. c 3 /. d +. du +. dv
  let s := max3 (Arith.abs theta) (Arith.abs du) (Arith.abs dv)
  let a := theta /. s
  let gamma0 := s *. Arith.sqrt (a *. a -. (du /. s) *. (dv /. s))
  let gamma := if v <. u then Arith.neg gamma0 else gamma0
  u +. (gamma -. du +. theta) /. (gamma -. du +. gamma +. dv) *. d

/-- `CUBIC_MINIMIZER2`, LbfgsSolver.cpp:786-805. -/
def cubicMin2 (u fu du v fv dv xmin xmax : F) : F :=
  let d := v -. u
  let theta := (fu -. fv) *. c 3 /. d +. du +. dv
  let s := max3 (Arith.abs theta) (Arith.abs du) (Arith.abs dv)
  let a := theta /. s
  let gamma0 := s *. Arith.sqrt (max2 (c 0) (a *. a -. (du /. s) *. (dv /. s)))
  let gamma := if u <. v then Arith.neg gamma0 else gamma0
  let r := (gamma -. dv +. theta) /. (gamma -. dv +. gamma +. du)
  if r <. c 0 ∧ ¬ gamma ==. c 0 then v -. r *. d
  else if a <. c 0 then xmax
  else xmin

/-- `QUARD_MINIMIZER`, LbfgsSolver.cpp:816-818. -/
def quadMin (u fu du v fv : F) : F := u +. du /. ((fu -. fv) /. (v -. u) +. du) /. c 2 *. (v -. u)

/-- `QUARD_MINIMIZER2`, LbfgsSolver.cpp:828-830. -/
def quadMin2 (u du v dv : F) : F := v +. dv /. (dv -. du) *. (u -. v)

/-- The interval of uncertainty: best point `x`, other endpoint `y`, with values and slopes; `brackt` (LbfgsSolver.cpp:861-1016). -/
structure Interval (F : Type) where
  x : F
  fx : F
  dx : F
  y : F
  fy : F
  dy : F
  brackt : Bool

/-- Trial value selection, LbfgsSolver.cpp:887-965: new trial value, `bound`, new `brackt`. -/
def selectTrial (I : Interval F) (t ft dt tmin tmax : F) (dsign : Bool) : F × Bool × Bool :=
  if I.fx <. ft then
    let mc := cubicMin I.x I.fx I.dx t ft dt
    let mq := quadMin I.x I.fx I.dx t ft
    (if Arith.abs (mc -. I.x) <. Arith.abs (mq -. I.x) then mc else mc +. c (1 / 2) *. (mq -. mc), true, true)
  else if dsign then
    let mc := cubicMin I.x I.fx I.dx t ft dt
    let mq := quadMin2 I.x I.dx t dt
    (if Arith.abs (mq -. t) <. Arith.abs (mc -. t) then mc else mq, false, true)
  else if Arith.abs dt <. Arith.abs I.dx then
    let mc := cubicMin2 I.x I.fx I.dx t ft dt tmin tmax
    let mq := quadMin2 I.x I.dx t dt
    (if I.brackt then (if Arith.abs (t -. mc) <. Arith.abs (t -. mq) then mc else mq)
      else (if Arith.abs (t -. mq) <. Arith.abs (t -. mc) then mc else mq), true, I.brackt)
  else
    (if I.brackt then cubicMin t ft dt I.y I.fy I.dy else if I.x <. t then tmax else tmin, false, I.brackt)

/-- `update_trial_interval`, LbfgsSolver.cpp:861-1016. `none`: an error code is returned and nothing changed; else the new interval and the new trial value. -/
def updateTrial (I : Interval F) (t ft dt tmin tmax : F) : Option (Interval F × F) :=
  if I.brackt = true ∧ (t <=. fmin I.x I.y ∨ fmax I.x I.y <=. t ∨ c 0 <=. I.dx *. (t -. I.x) ∨ tmax <. tmin) then none
  else
    let dsign : Bool := dt *. (I.dx /. Arith.abs I.dx) <. c 0
    let sel := selectTrial I t ft dt tmin tmax dsign
    let I' : Interval F :=
      if I.fx <. ft then { I with y := t, fy := ft, dy := dt, brackt := sel.2.2 }
      else if dsign then { x := t, fx := ft, dx := dt, y := I.x, fy := I.fx, dy := I.dx, brackt := sel.2.2 }
      else { I with x := t, fx := ft, dx := dt, brackt := sel.2.2 }
    let n1 := if tmax <. sel.1 then tmax else sel.1
    let n2 := if n1 <. tmin then tmin else n1
    let mq := I'.x +. c (66 / 100) *. (I'.y -. I'.x)
    let n3 := if I'.brackt = true ∧ sel.2.1 = true then
        (if I'.x <. I'.y then (if mq <. n2 then mq else n2) else (if n2 <. mq then mq else n2))
      else n2
    some (I', n3)

/-- Loop variables of `line_search_morethuente`, LbfgsSolver.cpp:572-579. -/
structure MtState (F : Type) where
  I : Interval F
  stage1 : Bool
  uinfo : Bool
  width : F
  prevWidth : F
  stp : F

/-- The step after clipping and the "unusual termination" rule, with the current interval, LbfgsSolver.cpp:617-641. -/
def mtStep (p : Params F) (s : MtState F) (count : Nat) : F × F × F :=
  let stmin := if s.I.brackt then fmin s.I.x s.I.y else s.I.x
  let stmax := if s.I.brackt then fmax s.I.x s.I.y else s.stp +. c 4 *. (s.stp -. s.I.x)
  let s1 := if s.stp <. p.minStep then p.minStep else s.stp
  let s2 := if p.maxStep <. s1 then p.maxStep else s1
  let stp := if (s.I.brackt = true ∧ ((s2 <=. stmin ∨ stmax <=. s2) ∨ p.maxLinesearch ≤ count + 1 ∨ s.uinfo = true)) ∨
      (s.I.brackt = true ∧ stmax -. stmin <=. p.xtol *. stmax) then s.I.x else s2
  (stmin, stmax, stp)

/-- The update after an unsuccessful trial, LbfgsSolver.cpp:683-737. -/
def mtNext (p : Params F) (s : MtState F) (dginit dgtest ftest1 stmin stmax stp f dg : F) : MtState F :=
  let stage1 := if s.stage1 = true ∧ f <=. ftest1 ∧ fmin p.ftol p.gtol *. dginit <=. dg then false else s.stage1
  let r : Interval F × F × Bool :=
    if stage1 = true ∧ ftest1 <. f ∧ f <=. s.I.fx then
      let Im : Interval F := { s.I with
        fx := s.I.fx -. s.I.x *. dgtest, fy := s.I.fy -. s.I.y *. dgtest, dx := s.I.dx -. dgtest, dy := s.I.dy -. dgtest }
      let (Im', t, u) := match updateTrial Im stp (f -. stp *. dgtest) (dg -. dgtest) stmin stmax with
        | none => (Im, stp, true)
        | some (J, t) => (J, t, false)
      ({ Im' with fx := Im'.fx +. Im'.x *. dgtest, fy := Im'.fy +. Im'.y *. dgtest, dx := Im'.dx +. dgtest, dy := Im'.dy +. dgtest }, t, u)
    else match updateTrial s.I stp f dg stmin stmax with
      | none => (s.I, stp, true)
      | some (J, t) => (J, t, false)
  if r.1.brackt then
    { I := r.1, stage1 := stage1, uinfo := r.2.2
      stp := if c (66 / 100) *. s.prevWidth <=. Arith.abs (r.1.y -. r.1.x) then r.1.x +. c (1 / 2) *. (r.1.y -. r.1.x) else r.2.1
      prevWidth := s.width
      width := Arith.abs (r.1.y -. r.1.x) }
  else { I := r.1, stage1 := stage1, uinfo := r.2.2, width := s.width, prevWidth := s.prevWidth, stp := r.2.1 }

/-- The loop of `line_search_morethuente`, LbfgsSolver.cpp:616-738. -/
def mtLoop {n : Nat} (p : Params F) (ev : Eval F n) (xp d : Vec F n) (finit dginit : F) (count : Nat) (s : MtState F) : LsOut F n :=
  let dgtest := p.ftol *. dginit
  let st := mtStep p s count
  let stmin := st.1
  let stmax := st.2.1
  let stp := st.2.2
  let x := vecadd xp d stp
  let f := (ev x).1
  let g := (ev x).2
  let dg := dot g d
  let ftest1 := finit +. stp *. dgtest
  let k := count + 1
  if s.I.brackt = true ∧ ((stp <=. stmin ∨ stmax <=. stp) ∨ s.uinfo = true) then ⟨x, f, g, stp, k, .error .roundingError⟩
  else if stp ==. p.maxStep ∧ f <=. ftest1 ∧ dg <=. dgtest then ⟨x, f, g, stp, k, .error .maximumStep⟩
  else if stp ==. p.minStep ∧ (ftest1 <. f ∨ dgtest <=. dg) then ⟨x, f, g, stp, k, .error .minimumStep⟩
  else if s.I.brackt = true ∧ stmax -. stmin <=. p.xtol *. stmax then ⟨x, f, g, stp, k, .error .widthTooSmall⟩
  else if p.maxLinesearch ≤ k then ⟨x, f, g, stp, k, .error .maximumLinesearch⟩
  else if f <=. ftest1 ∧ Arith.abs dg <=. p.gtol *. Arith.neg dginit then ⟨x, f, g, stp, k, .ok k⟩
  else mtLoop p ev xp d finit dginit k (mtNext p s dginit dgtest ftest1 stmin stmax stp f dg)
termination_by (p.maxLinesearch - count).toNat
decreasing_by omega

/-- `line_search_morethuente`, LbfgsSolver.cpp:569-741. -/
def moreThuente {n : Nat} (p : Params F) (ev : Eval F n) (xp : Vec F n) (f : F) (gp d : Vec F n) (stp : F) : LsOut F n :=
  if stp <=. c 0 then ⟨xp, f, gp, stp, 0, .error .invalidParameters⟩
  else if c 0 <. dot gp d then ⟨xp, f, gp, stp, 0, .error .increaseGradient⟩
  else
    let dginit := dot gp d
    mtLoop p ev xp d f dginit 0
      { I := ⟨c 0, f, dginit, c 0, f, dginit, false⟩, stage1 := true, uinfo := false,
        width := p.maxStep -. p.minStep, prevWidth := c 2 *. (p.maxStep -. p.minStep), stp := stp }

/-- The selected line search, LbfgsSolver.cpp:254-265. -/
def lineSearch {n : Nat} (p : Params F) (ev : Eval F n) (xp : Vec F n) (f : F) (gp d : Vec F n) (stp : F) : LsOut F n :=
  if p.linesearch = 0 then moreThuente p ev xp f gp d stp else backtracking p ev xp f gp d stp

/-- `iteration_data_t`, LbfgsSolver.cpp:152-157. -/
structure Entry (F : Type) (n : Nat) where
  alpha : F
  s : Vec F n
  y : Vec F n
  ys : F

/-- First loop, LbfgsSolver.cpp:435-444; `b` iterations left. -/
def loop1 {n : Nat} (m : Nat) : Nat → Nat → (Nat → Entry F n) → Vec F n → Nat × (Nat → Entry F n) × Vec F n
  | 0, j, lm, d => (j, lm, d)
  | b + 1, j, lm, d =>
    let j' := (j + m - 1) % m
    let e := lm j'
    let alpha := dot e.s d /. e.ys
    loop1 m b j' (Function.update lm j' { e with alpha := alpha }) (vecadd d e.y (Arith.neg alpha))

/-- Second loop, LbfgsSolver.cpp:448-456. -/
def loop2 {n : Nat} (m : Nat) : Nat → Nat → (Nat → Entry F n) → Vec F n → Vec F n
  | 0, _, _, d => d
  | b + 1, j, lm, d =>
    let e := lm j
    let beta := dot e.y d /. e.ys
    loop2 m b ((j + 1) % m) lm (vecadd d e.s (e.alpha -. beta))

/-- Search direction, LbfgsSolver.cpp:431-456 (`vecncpy`, first loop, `vecscale`, second loop). -/
def direction {n : Nat} (m b e : Nat) (lm : Nat → Entry F n) (γ : F) (g : Vec F n) : Vec F n × (Nat → Entry F n) :=
  let r := loop1 m b e lm (fun i => Arith.neg (g i))
  (loop2 m b r.1 r.2.1 (fun i => r.2.2 i *. γ), r.2.1)

/-- Variables of `lbfgs`, LbfgsSolver.cpp:192-212. `evals` counts calls of the objective (ghost). -/
structure LState (F : Type) (n : Nat) where
  x : Vec F n
  fx : F
  g : Vec F n
  d : Vec F n
  step : F
  k : Nat
  e : Nat
  lm : Nat → Entry F n
  pf : Nat → F
  evals : Nat

/-- Result of `lbfgs`: return code, point, the value stored in `*ptr_fx`, and the number of evaluations (ghost) (LbfgsSolver.cpp:464-487). -/
structure Result (F : Type) (n : Nat) where
  ret : Ret
  x : Vec F n
  fx : F
  evals : Nat

/-- The gradient test `gnorm / xnorm <= epsilon` with `xnorm` at least 1, LbfgsSolver.cpp:318-323, 347-348, 364-365. -/
def converged {n : Nat} (p : Params F) (x g : Vec F n) : Bool :=
  norm2 g /. (if norm2 x <. c 1 then c 1 else norm2 x) <=. p.epsilon

/-- One iteration of the main loop, LbfgsSolver.cpp:334-462. -/
def iter {n : Nat} (p : Params F) (ev : Eval F n) (prog : Prog F n) (s : LState F n) : LState F n ⊕ Result F n :=
  let r := lineSearch p ev s.x s.fx s.g s.d s.step
  let calls := s.evals + r.evals
  match r.ret with
  | .error e => .inr ⟨.linesearch e, s.x, r.f, calls⟩
  | .ok ls =>
    let code := prog r.x r.g r.f (norm2 r.x) (norm2 r.g) r.stp s.k ls
    if code ≠ 0 then .inr ⟨.aborted code, r.x, r.f, calls⟩
    else if converged p r.x r.g then .inr ⟨.success, r.x, r.f, calls⟩
    else if 0 < p.past ∧ p.past ≤ s.k ∧ (s.pf (s.k % p.past.toNat) -. r.f) /. r.f <. p.delta then .inr ⟨.stop, r.x, r.f, calls⟩
    else if p.maxIterations ≠ 0 ∧ p.maxIterations < s.k + 1 then .inr ⟨.maximumIteration, r.x, r.f, calls⟩
    else if p.m ≤ 0 then .inr ⟨.undefined, r.x, r.f, calls⟩
    else
      let m := p.m.toNat
      let sv : Vec F n := fun i => r.x i -. s.x i
      let yv : Vec F n := fun i => r.g i -. s.g i
      let ys := dot yv sv
      let yy := dot yv yv
      let lm := Function.update s.lm s.e { alpha := (s.lm s.e).alpha, s := sv, y := yv, ys := ys }
      let bound := if m ≤ s.k then m else s.k
      let e' := (s.e + 1) % m
      let dir := direction m bound e' lm (ys /. yy) r.g
      .inl { x := r.x, fx := r.f, g := r.g, d := dir.1, step := c 1, k := s.k + 1, e := e', lm := dir.2
             pf := if 0 < p.past then Function.update s.pf (s.k % p.past.toNat) r.f else s.pf
             evals := calls }

/-- Execution of the main loop from a state (LbfgsSolver.cpp:334-462). -/
inductive Loop {n : Nat} (p : Params F) (ev : Eval F n) (prog : Prog F n) : LState F n → Nat → Result F n → Prop
  | done {s r} (h : iter p ev prog s = .inr r) : Loop p ev prog s 1 r
  | next {s s' i r} (h : iter p ev prog s = .inl s') (hr : Loop p ev prog s' i r) : Loop p ev prog s (i + 1) r

/-- The state before the first iteration, LbfgsSolver.cpp:303-333. -/
def start {n : Nat} (p : Params F) (ev : Eval F n) (x0 : Vec F n) : LState F n where
  x := x0
  fx := (ev x0).1
  g := (ev x0).2
  d := fun i => Arith.neg ((ev x0).2 i)
  step := c 1 /. norm2 (fun i => Arith.neg ((ev x0).2 i))
  k := 1
  e := 0
  lm := fun _ => ⟨c 0, fun _ => c 0, fun _ => c 0, c 0⟩
  pf := fun i => if i = 0 ∧ 0 < p.past then (ev x0).1 else c 0
  evals := 1

/-- `lbfgs`, LbfgsSolver.cpp:189-487: `fx0` is the previous content of `*ptr_fx`; the last argument but one counts iterations of the main loop. -/
inductive Run {n : Nat} (p : Params F) (ev : Eval F n) (prog : Prog F n) (x0 : Vec F n) (fx0 : F) : Nat → Result F n → Prop
  | invalid {e} (h : validate n p = some e) : Run p ev prog x0 fx0 0 ⟨.invalid e, x0, fx0, 0⟩
  | already (h : validate n p = none) (hg : converged p x0 (ev x0).2 = true) :
      Run p ev prog x0 fx0 0 ⟨.alreadyMinimized, x0, (ev x0).1, 1⟩
  | run {i r} (h : validate n p = none) (hg : converged p x0 (ev x0).2 = false)
      (hr : Loop p ev prog (start p ev x0) i r) : Run p ev prog x0 fx0 i r

/-- The states at the head of the main loop of a run with accepted parameters after `i` iterations (LbfgsSolver.cpp:334-462). -/
inductive Head {n : Nat} (p : Params F) (ev : Eval F n) (prog : Prog F n) (x0 : Vec F n) : Nat → LState F n → Prop
  | start (h : validate n p = none) (hg : converged p x0 (ev x0).2 = false) : Head p ev prog x0 0 (start p ev x0)
  | step {i s s'} (h : Head p ev prog x0 i s) (hs : iter p ev prog s = .inl s') : Head p ev prog x0 (i + 1) s'

end LbfgsF
end Verif
