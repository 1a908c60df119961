/-
Model of the L-BFGS solver, /repo/solver/src/solver/optimizer/LbfgsSolver.cpp and
/repo/solver/include/solver/optimizer/LbfgsSolver.hpp.

Simplifications: real numbers instead of doubles (no rounding, overflow or NaN; where a C division by zero decides a
branch, the branch taken by IEEE arithmetic is modelled explicitly); vectors are functions on `Fin n` and the elementary
loops `vecdot`, `vecadd`, ... (LbfgsSolver.cpp:87-140) are the corresponding vector operations; memory allocation succeeds.
The objective callback is an arbitrary function `ev` returning a value and a vector; the progress callback is arbitrary.
-/
import Mathlib.Analysis.Real.Sqrt
import Mathlib.Algebra.BigOperators.Fin
import Mathlib.Algebra.BigOperators.Pi
import Mathlib.Algebra.Module.Pi
import Mathlib.Algebra.Order.BigOperators.Group.Finset

namespace Verif
namespace Lbfgs
open Classical

/-- A vector of `n` doubles, e.g. `x` of `lbfgs` (LbfgsSolver.cpp:189). -/
abbrev Vec (n : Nat) := Fin n → ℝ

/-- `vecdot`, LbfgsSolver.cpp:125-130. -/
def dot {n : Nat} (x y : Vec n) : ℝ := ∑ i, x i * y i

/-- `vec2norm`, LbfgsSolver.cpp:132-136. -/
noncomputable def norm2 {n : Nat} (x : Vec n) : ℝ := Real.sqrt (dot x x)

/-- Value and gradient callback, LbfgsSolver.hpp (`lbfgs_evaluate_t`) (LbfgsSolver.hpp:299). -/
abbrev Eval (n : Nat) := Vec n → ℝ × Vec n

/-- `lbfgs_parameter_t`, LbfgsSolver.hpp:157-279. -/
structure Params where
  m : Int
  epsilon : ℝ
  past : Int
  delta : ℝ
  maxIterations : Int
  linesearch : Int
  maxLinesearch : Int
  minStep : ℝ
  maxStep : ℝ
  ftol : ℝ
  wolfe : ℝ
  gtol : ℝ
  xtol : ℝ

/-- Line search failures, LbfgsSolver.hpp:86-105. -/
inductive LsErr
  | invalidParameters | increaseGradient | minimumStep | maximumStep | maximumLinesearch | roundingError | widthTooSmall
  deriving DecidableEq

/-- Errors found by parameter validation, LbfgsSolver.hpp:56-78. -/
inductive ParErr
  | n | epsilon | testPeriod | delta | minStep | maxStep | ftol | wolfe | gtol | xtol | maxLinesearch | linesearch
  deriving DecidableEq

/-- Return codes of `lbfgs`. `undefined` marks undefined behaviour (out-of-bounds access, division by zero) (LbfgsSolver.hpp:43-106). -/
inductive Ret
  | success | stop | alreadyMinimized | invalid (e : ParErr) | linesearch (e : LsErr) | maximumIteration | aborted (c : Int)
  | undefined

/-- The defaults, LbfgsSolver.cpp:160-164. -/
noncomputable def defparam : Params :=
  ⟨6, 1e-5, 0, 1e-5, 0, 0, 40, 1e-20, 1e20, 1e-4, 0.9, 0.9, 1.0e-16⟩

/-- Parameter validation, LbfgsSolver.cpp:217-265 (`none`: accepted). -/
noncomputable def validate (n : Int) (p : Params) : Option ParErr :=
  if n ≤ 0 then some .n
  else if p.epsilon < 0 then some .epsilon
  else if p.past < 0 then some .testPeriod
  else if p.delta < 0 then some .delta
  else if p.minStep < 0 then some .minStep
  else if p.maxStep < p.minStep then some .maxStep
  else if p.ftol < 0 then some .ftol
  else if (p.linesearch = 2 ∨ p.linesearch = 3) ∧ (p.wolfe ≤ p.ftol ∨ 1 ≤ p.wolfe) then some .wolfe
  else if p.gtol < 0 then some .gtol
  else if p.xtol < 0 then some .xtol
  else if p.maxLinesearch ≤ 0 then some .maxLinesearch
  else if ¬ (p.linesearch = 0 ∨ p.linesearch = 1 ∨ p.linesearch = 2 ∨ p.linesearch = 3) then some .linesearch
  else none

/-- What a line search leaves behind: `x`, `f`, `g`, `stp`, the number of evaluations, and its return value
(`ok count` for a positive, `error` for a negative one) (LbfgsSolver.cpp:489-567, 569-850). -/
structure LsOut (n : Nat) where
  x : Vec n
  f : ℝ
  g : Vec n
  stp : ℝ
  evals : Nat
  ret : Except LsErr Nat

/-! ### backtracking line search -/

/-- The decision on a trial point, LbfgsSolver.cpp:523-550: `none` accepts, `some w` scales the step by `w`. -/
noncomputable def btDecide (p : Params) (finit dginit stp f dg : ℝ) : Option ℝ :=
  if f > finit + stp * (p.ftol * dginit) then some 0.5
  else if p.linesearch = 1 then none
  else if dg < p.wolfe * dginit then some 2.1
  else if p.linesearch = 2 then none
  else if dg > -p.wolfe * dginit then some 0.5
  else none

/-- The loop of `line_search_backtracking`, LbfgsSolver.cpp:514-566; `count` evaluations were made before. -/
noncomputable def btLoop {n : Nat} (p : Params) (ev : Eval n) (xp d : Vec n) (finit dginit : ℝ) (count : Nat) (stp : ℝ) : LsOut n :=
  let x := xp + stp • d
  let f := (ev x).1
  let g := (ev x).2
  let c := count + 1
  match btDecide p finit dginit stp f (dot g d) with
  | none => ⟨x, f, g, stp, c, .ok c⟩
  | some w =>
    if stp < p.minStep then ⟨x, f, g, stp, c, .error .minimumStep⟩
    else if stp > p.maxStep then ⟨x, f, g, stp, c, .error .maximumStep⟩
    else if p.maxLinesearch ≤ c then ⟨x, f, g, stp, c, .error .maximumLinesearch⟩
    else btLoop p ev xp d finit dginit c (stp * w)
termination_by (p.maxLinesearch - count).toNat
decreasing_by omega

/-- `line_search_backtracking`, LbfgsSolver.cpp:489-567. On early errors nothing is evaluated. -/
noncomputable def backtracking {n : Nat} (p : Params) (ev : Eval n) (xp : Vec n) (f : ℝ) (gp d : Vec n) (stp : ℝ) : LsOut n :=
  if stp ≤ 0 then ⟨xp, f, gp, stp, 0, .error .invalidParameters⟩
  else if 0 < dot gp d then ⟨xp, f, gp, stp, 0, .error .increaseGradient⟩
  else btLoop p ev xp d f (dot gp d) 0 stp

/-! ### More-Thuente line search -/

/-- `max3`, LbfgsSolver.cpp:79-80. -/
noncomputable def max3 (a b c : ℝ) : ℝ := max (max a b) c

/-- `CUBIC_MINIMIZER`, LbfgsSolver.cpp:759-772. -/
noncomputable def cubicMin (u fu du v fv dv : ℝ) : ℝ :=
  let d := v - u
  let theta := (fu - fv) * 3 / d + du + dv
  let s := max3 |theta| |du| |dv|
  let a := theta / s
  let gamma0 := s * Real.sqrt (a * a - (du / s) * (dv / s))
  let gamma := if v < u then -gamma0 else gamma0
  u + (gamma - du + theta) / (gamma - du + gamma + dv) * d

/-- `CUBIC_MINIMIZER2`, LbfgsSolver.cpp:786-805. -/
noncomputable def cubicMin2 (u fu du v fv dv xmin xmax : ℝ) : ℝ :=
  let d := v - u
  let theta := (fu - fv) * 3 / d + du + dv
  let s := max3 |theta| |du| |dv|
  let a := theta / s
  let gamma0 := s * Real.sqrt (max 0 (a * a - (du / s) * (dv / s)))
  let gamma := if u < v then -gamma0 else gamma0
  let r := (gamma - dv + theta) / (gamma - dv + gamma + du)
  if r < 0 ∧ gamma ≠ 0 then v - r * d
  else if a < 0 then xmax
  else xmin

/-- `QUARD_MINIMIZER`, LbfgsSolver.cpp:816-818. -/
noncomputable def quadMin (u fu du v fv : ℝ) : ℝ := u + du / ((fu - fv) / (v - u) + du) / 2 * (v - u)

/-- `QUARD_MINIMIZER2`, LbfgsSolver.cpp:828-830. -/
noncomputable def quadMin2 (u du v dv : ℝ) : ℝ := v + dv / (dv - du) * (u - v)

/-- The interval of uncertainty: best point `x`, other endpoint `y`, with values and slopes; `brackt` (LbfgsSolver.cpp:861-1016). -/
structure Interval where
  x : ℝ
  fx : ℝ
  dx : ℝ
  y : ℝ
  fy : ℝ
  dy : ℝ
  brackt : Bool

/-- Trial value selection, LbfgsSolver.cpp:887-965: new trial value, `bound`, new `brackt`. -/
noncomputable def selectTrial (I : Interval) (t ft dt tmin tmax : ℝ) (dsign : Prop) : ℝ × Bool × Bool :=
  if I.fx < ft then
    let mc := cubicMin I.x I.fx I.dx t ft dt
    let mq := quadMin I.x I.fx I.dx t ft
    (if |mc - I.x| < |mq - I.x| then mc else mc + 0.5 * (mq - mc), true, true)
  else if dsign then
    let mc := cubicMin I.x I.fx I.dx t ft dt
    let mq := quadMin2 I.x I.dx t dt
    (if |mc - t| > |mq - t| then mc else mq, false, true)
  else if |dt| < |I.dx| then
    let mc := cubicMin2 I.x I.fx I.dx t ft dt tmin tmax
    let mq := quadMin2 I.x I.dx t dt
    (if I.brackt then (if |t - mc| < |t - mq| then mc else mq) else (if |t - mc| > |t - mq| then mc else mq), true, I.brackt)
  else
    (if I.brackt then cubicMin t ft dt I.y I.fy I.dy else if I.x < t then tmax else tmin, false, I.brackt)

/-- `update_trial_interval`, LbfgsSolver.cpp:861-1016. `none`: an error code is returned and nothing changed; else the new interval
and the new trial value. -/
noncomputable def updateTrial (I : Interval) (t ft dt tmin tmax : ℝ) : Option (Interval × ℝ) :=
  if I.brackt = true ∧ (t ≤ min I.x I.y ∨ max I.x I.y ≤ t ∨ 0 ≤ I.dx * (t - I.x) ∨ tmax < tmin) then none
  else
    let dsign : Prop := dt * (I.dx / |I.dx|) < 0
    let sel := selectTrial I t ft dt tmin tmax dsign
    let I' : Interval :=
      if I.fx < ft then { I with y := t, fy := ft, dy := dt, brackt := sel.2.2 }
      else if dsign then { x := t, fx := ft, dx := dt, y := I.x, fy := I.fx, dy := I.dx, brackt := sel.2.2 }
      else { I with x := t, fx := ft, dx := dt, brackt := sel.2.2 }
    let n1 := if tmax < sel.1 then tmax else sel.1
    let n2 := if n1 < tmin then tmin else n1
    let mq := I'.x + 0.66 * (I'.y - I'.x)
    let n3 := if I'.brackt = true ∧ sel.2.1 = true then
        (if I'.x < I'.y then (if mq < n2 then mq else n2) else (if n2 < mq then mq else n2))
      else n2
    some (I', n3)

/-- Loop variables of `line_search_morethuente`, LbfgsSolver.cpp:572-579. -/
structure MtState where
  I : Interval
  stage1 : Bool
  uinfo : Bool
  width : ℝ
  prevWidth : ℝ
  stp : ℝ

/-- The step after clipping and the "unusual termination" rule, with the current interval, LbfgsSolver.cpp:617-641. -/
noncomputable def mtStep (p : Params) (s : MtState) (count : Nat) : ℝ × ℝ × ℝ :=
  let stmin := if s.I.brackt then min s.I.x s.I.y else s.I.x
  let stmax := if s.I.brackt then max s.I.x s.I.y else s.stp + 4 * (s.stp - s.I.x)
  let s1 := if s.stp < p.minStep then p.minStep else s.stp
  let s2 := if p.maxStep < s1 then p.maxStep else s1
  let stp := if (s.I.brackt = true ∧ ((s2 ≤ stmin ∨ stmax ≤ s2) ∨ p.maxLinesearch ≤ count + 1 ∨ s.uinfo = true)) ∨
      (s.I.brackt = true ∧ stmax - stmin ≤ p.xtol * stmax) then s.I.x else s2
  (stmin, stmax, stp)

/-- The update after an unsuccessful trial, LbfgsSolver.cpp:683-737. -/
noncomputable def mtNext (p : Params) (s : MtState) (dginit dgtest ftest1 stmin stmax stp f dg : ℝ) : MtState :=
  let stage1 := if s.stage1 = true ∧ f ≤ ftest1 ∧ min p.ftol p.gtol * dginit ≤ dg then false else s.stage1
  let r : Interval × ℝ × Bool :=
    if stage1 = true ∧ ftest1 < f ∧ f ≤ s.I.fx then
      let Im : Interval := { s.I with
        fx := s.I.fx - s.I.x * dgtest, fy := s.I.fy - s.I.y * dgtest, dx := s.I.dx - dgtest, dy := s.I.dy - dgtest }
      let (Im', t, u) := match updateTrial Im stp (f - stp * dgtest) (dg - dgtest) stmin stmax with
        | none => (Im, stp, true)
        | some (J, t) => (J, t, false)
      ({ Im' with fx := Im'.fx + Im'.x * dgtest, fy := Im'.fy + Im'.y * dgtest, dx := Im'.dx + dgtest, dy := Im'.dy + dgtest }, t, u)
    else match updateTrial s.I stp f dg stmin stmax with
      | none => (s.I, stp, true)
      | some (J, t) => (J, t, false)
  if r.1.brackt then
    { I := r.1, stage1 := stage1, uinfo := r.2.2
      stp := if 0.66 * s.prevWidth ≤ |r.1.y - r.1.x| then r.1.x + 0.5 * (r.1.y - r.1.x) else r.2.1
      prevWidth := s.width
      width := |r.1.y - r.1.x| }
  else { I := r.1, stage1 := stage1, uinfo := r.2.2, width := s.width, prevWidth := s.prevWidth, stp := r.2.1 }

/-- The loop of `line_search_morethuente`, LbfgsSolver.cpp:616-738. -/
noncomputable def mtLoop {n : Nat} (p : Params) (ev : Eval n) (xp d : Vec n) (finit dginit : ℝ) (count : Nat) (s : MtState) : LsOut n :=
  let dgtest := p.ftol * dginit
  let st := mtStep p s count
  let stmin := st.1
  let stmax := st.2.1
  let stp := st.2.2
  let x := xp + stp • d
  let f := (ev x).1
  let g := (ev x).2
  let dg := dot g d
  let ftest1 := finit + stp * dgtest
  let c := count + 1
  if s.I.brackt = true ∧ ((stp ≤ stmin ∨ stmax ≤ stp) ∨ s.uinfo = true) then ⟨x, f, g, stp, c, .error .roundingError⟩
  else if stp = p.maxStep ∧ f ≤ ftest1 ∧ dg ≤ dgtest then ⟨x, f, g, stp, c, .error .maximumStep⟩
  else if stp = p.minStep ∧ (ftest1 < f ∨ dgtest ≤ dg) then ⟨x, f, g, stp, c, .error .minimumStep⟩
  else if s.I.brackt = true ∧ stmax - stmin ≤ p.xtol * stmax then ⟨x, f, g, stp, c, .error .widthTooSmall⟩
  else if p.maxLinesearch ≤ c then ⟨x, f, g, stp, c, .error .maximumLinesearch⟩
  else if f ≤ ftest1 ∧ |dg| ≤ p.gtol * (-dginit) then ⟨x, f, g, stp, c, .ok c⟩
  else mtLoop p ev xp d finit dginit c (mtNext p s dginit dgtest ftest1 stmin stmax stp f dg)
termination_by (p.maxLinesearch - count).toNat
decreasing_by omega

/-- `line_search_morethuente`, LbfgsSolver.cpp:569-741. -/
noncomputable def moreThuente {n : Nat} (p : Params) (ev : Eval n) (xp : Vec n) (f : ℝ) (gp d : Vec n) (stp : ℝ) : LsOut n :=
  if stp ≤ 0 then ⟨xp, f, gp, stp, 0, .error .invalidParameters⟩
  else if 0 < dot gp d then ⟨xp, f, gp, stp, 0, .error .increaseGradient⟩
  else
    let dginit := dot gp d
    mtLoop p ev xp d f dginit 0
      { I := ⟨0, f, dginit, 0, f, dginit, false⟩, stage1 := true, uinfo := false,
        width := p.maxStep - p.minStep, prevWidth := 2 * (p.maxStep - p.minStep), stp := stp }

/-- The selected line search, LbfgsSolver.cpp:254-265. -/
noncomputable def lineSearch {n : Nat} (p : Params) (ev : Eval n) (xp : Vec n) (f : ℝ) (gp d : Vec n) (stp : ℝ) : LsOut n :=
  if p.linesearch = 0 then moreThuente p ev xp f gp d stp else backtracking p ev xp f gp d stp

/-! ### two-loop recursion -/

/-- `iteration_data_t`, LbfgsSolver.cpp:152-157. -/
structure Entry (n : Nat) where
  alpha : ℝ
  s : Vec n
  y : Vec n
  ys : ℝ

/-- First loop, LbfgsSolver.cpp:435-444; `b` iterations left. -/
noncomputable def loop1 {n : Nat} (m : Nat) : Nat → Nat → (Nat → Entry n) → Vec n → Nat × (Nat → Entry n) × Vec n
  | 0, j, lm, d => (j, lm, d)
  | b + 1, j, lm, d =>
    let j' := (j + m - 1) % m
    let e := lm j'
    let alpha := dot e.s d / e.ys
    loop1 m b j' (Function.update lm j' { e with alpha := alpha }) (d + (-alpha) • e.y)

/-- Second loop, LbfgsSolver.cpp:448-456. -/
noncomputable def loop2 {n : Nat} (m : Nat) : Nat → Nat → (Nat → Entry n) → Vec n → Vec n
  | 0, _, _, d => d
  | b + 1, j, lm, d =>
    let e := lm j
    let beta := dot e.y d / e.ys
    loop2 m b ((j + 1) % m) lm (d + (e.alpha - beta) • e.s)

/-- Search direction, LbfgsSolver.cpp:431-456: ring buffer `lm` of length `m`, next free position `e`, `b` entries used, scaling `γ = ys/yy`. -/
noncomputable def direction {n : Nat} (m b e : Nat) (lm : Nat → Entry n) (γ : ℝ) (g : Vec n) : Vec n × (Nat → Entry n) :=
  let r := loop1 m b e lm (-g)
  (loop2 m b r.1 r.2.1 (γ • r.2.2), r.2.1)

/-! ### main loop -/

/-- Variables of `lbfgs`, LbfgsSolver.cpp:192-212. `evals` counts calls of the objective (ghost). -/
structure LState (n : Nat) where
  x : Vec n
  fx : ℝ
  g : Vec n
  d : Vec n
  step : ℝ
  k : Nat
  e : Nat
  lm : Nat → Entry n
  pf : Nat → ℝ

/-- Result of `lbfgs`: return code, point, and the value stored in `*ptr_fx` (LbfgsSolver.cpp:464-487). -/
structure Result (n : Nat) where
  ret : Ret
  x : Vec n
  fx : ℝ

/-- The test `rate < delta` with `rate = (pf - fx) / fx`, LbfgsSolver.cpp:381-384. For `fx = 0` the IEEE quotient is infinite or NaN and the
test holds iff `pf < fx`. -/
noncomputable def rateBelow (pf fx delta : ℝ) : Prop := if fx = 0 then pf < fx else (pf - fx) / fx < delta

/-- One iteration of the main loop, LbfgsSolver.cpp:334-462. -/
noncomputable def iter {n : Nat} (p : Params) (ev : Eval n) (prog : Vec n → Vec n → ℝ → Nat → Int) (s : LState n) :
    LState n ⊕ Result n :=
  let r := lineSearch p ev s.x s.fx s.g s.d s.step
  match r.ret with
  | .error e => .inr ⟨.linesearch e, s.x, r.f⟩
  | .ok _ =>
    if prog r.x r.g r.f s.k ≠ 0 then .inr ⟨.aborted (prog r.x r.g r.f s.k), r.x, r.f⟩
    else if norm2 r.g / max (norm2 r.x) 1 ≤ p.epsilon then .inr ⟨.success, r.x, r.f⟩
    else if 0 < p.past ∧ p.past ≤ s.k ∧ rateBelow (s.pf (s.k % p.past.toNat)) r.f p.delta then .inr ⟨.stop, r.x, r.f⟩
    else if p.maxIterations ≠ 0 ∧ p.maxIterations < s.k + 1 then .inr ⟨.maximumIteration, r.x, r.f⟩
    else if p.m ≤ 0 then .inr ⟨.undefined, r.x, r.f⟩
    else
      let m := p.m.toNat
      let sv := r.x - s.x
      let yv := r.g - s.g
      let ys := dot yv sv
      let yy := dot yv yv
      let lm := Function.update s.lm s.e { alpha := (s.lm s.e).alpha, s := sv, y := yv, ys := ys }
      let bound := if m ≤ s.k then m else s.k
      let e' := (s.e + 1) % m
      let dir := direction m bound e' lm (ys / yy) r.g
      .inl { x := r.x, fx := r.f, g := r.g, d := dir.1, step := 1, k := s.k + 1, e := e', lm := dir.2
             pf := if 0 < p.past then Function.update s.pf (s.k % p.past.toNat) r.f else s.pf }

/-- Execution of the main loop from a state (LbfgsSolver.cpp:334-462). -/
inductive Loop {n : Nat} (p : Params) (ev : Eval n) (prog : Vec n → Vec n → ℝ → Nat → Int) : LState n → Nat → Result n → Prop
  | done {s r} (h : iter p ev prog s = .inr r) : Loop p ev prog s 1 r
  | next {s s' i r} (h : iter p ev prog s = .inl s') (hr : Loop p ev prog s' i r) : Loop p ev prog s (i + 1) r

/-- States at the head of the main loop (LbfgsSolver.cpp:334-462). -/
inductive Reach {n : Nat} (p : Params) (ev : Eval n) (prog : Vec n → Vec n → ℝ → Nat → Int) (s0 : LState n) : LState n → Prop
  | start : Reach p ev prog s0 s0
  | step {s s'} (h : Reach p ev prog s0 s) (hs : iter p ev prog s = .inl s') : Reach p ev prog s0 s'

/-- The state before the first iteration, LbfgsSolver.cpp:303-333. -/
noncomputable def start {n : Nat} (p : Params) (ev : Eval n) (x0 : Vec n) : LState n where
  x := x0
  fx := (ev x0).1
  g := (ev x0).2
  d := -(ev x0).2
  step := 1 / norm2 (-(ev x0).2)
  k := 1
  e := 0
  lm := fun _ => ⟨0, 0, 0, 0⟩
  pf := fun i => if i = 0 ∧ 0 < p.past then (ev x0).1 else 0

/-- `lbfgs`, LbfgsSolver.cpp:189-487: `fx0` is the previous content of `*ptr_fx`; the last argument but one counts iterations of the main loop. -/
inductive Run {n : Nat} (p : Params) (ev : Eval n) (prog : Vec n → Vec n → ℝ → Nat → Int) (x0 : Vec n) (fx0 : ℝ) :
    Nat → Result n → Prop
  | invalid {e} (h : validate n p = some e) : Run p ev prog x0 fx0 0 ⟨.invalid e, x0, fx0⟩
  | already (h : validate n p = none) (hg : norm2 (ev x0).2 / max (norm2 x0) 1 ≤ p.epsilon) :
      Run p ev prog x0 fx0 0 ⟨.alreadyMinimized, x0, (ev x0).1⟩
  | run {i r} (h : validate n p = none) (hg : ¬ norm2 (ev x0).2 / max (norm2 x0) 1 ≤ p.epsilon)
      (hr : Loop p ev prog (start p ev x0) i r) : Run p ev prog x0 fx0 i r

/-! ### penalised objective -/

/-- The problem description read by the wrapper: bounds on variables and constraints, constraints, objective (NlpDescription.hpp:28-45). -/
structure Nlp (n c : Nat) where
  xl : Vec n
  xu : Vec n
  gl : Vec c
  gu : Vec c
  cons : Vec n → Vec c
  obj : Vec n → ℝ

/-- Penalty terms of one quantity, LbfgsSolver.cpp:1096-1097 and 1101-1102. -/
noncomputable def penalty1 (v l u : ℝ) : ℝ := (if v ≤ l then (v - l) ^ 2 else 0) + (if v ≥ u then (v - u) ^ 2 else 0)

/-- `evaluate_objective_function`, LbfgsSolver.cpp:1083-1106. -/
noncomputable def penalised {n c : Nat} (P : Nlp n c) (w : ℝ) (x : Vec n) : ℝ :=
  P.obj x + w * ((∑ i, penalty1 (x i) (P.xl i) (P.xu i)) + ∑ i, penalty1 (P.cons x i) (P.gl i) (P.gu i))

/-- The perturbation `2^-17`, LbfgsSolver.cpp:1067. -/
noncomputable def prt : ℝ := 1 / 2 ^ 17

/-- One round of the difference loop, LbfgsSolver.cpp:1069-1076: perturb component `i` by `+h`, `-2h`, `+h`; returns the work vector and the entry. -/
noncomputable def diffStep {n : Nat} (F : Vec n → ℝ) (x : Vec n) (i : Fin n) : Vec n × ℝ :=
  let x1 := Function.update x i (x i + prt)
  let gp := F x1
  let x2 := Function.update x1 i (x1 i - 2 * prt)
  let gm := F x2
  (Function.update x2 i (x2 i + prt), (gp - gm) / (2 * prt))

/-- `evaluate`, LbfgsSolver.cpp:1059-1081: gradient by central differences, component after component on one work vector, then the value. -/
noncomputable def evaluate {n : Nat} (F : Vec n → ℝ) (x : Vec n) : ℝ × Vec n :=
  let r := (List.finRange n).foldl (fun (a : Vec n × Vec n) i =>
    let q := diffStep F a.1 i
    (q.1, Function.update a.2 i q.2)) (x, 0)
  (F r.1, r.2)

end Lbfgs
end Verif
