import Verif.DynOptLoop

/-! Model of `DynamicsOptimizer::saveToFile` (DynamicsOptimizer.cpp:677-736), which writes the plan to a YAML file. -/
namespace Verif
namespace Dyn

/-- `mat_guess_`, a dense matrix: number of rows, and the columns (DynamicsOptimizer.hpp:193). -/
structure Grid where
  rows : Nat
  cols : List (List ℝ)

/-- `resize(rows, cols)` and `setZero`, DynamicsOptimizer.cpp:703, 708, 716, 722. -/
noncomputable def Grid.zero (rows n : Nat) : Grid := ⟨rows, List.replicate n (List.replicate rows 0)⟩

/-- `mat_guess_.col(t) = v`: a column is not resized, so that a vector of another length (an assertion, or an access outside of it) and an
index outside of the matrix are failures (`none`), DynamicsOptimizer.cpp:698-705, 718. -/
def Grid.setCol (m : Grid) (t : Nat) (v : List ℝ) : Option Grid :=
  if t < m.cols.length ∧ v.length = m.rows then some { m with cols := m.cols.set t v } else none

/-- `for (time_id<T) { mat_guess_.col(time_id) = f(time_id) }`; reading the source may fail, too (DynamicsOptimizer.cpp:698-705). -/
def fillCols (T : Nat) (f : Nat → Option (List ℝ)) (m : Grid) : Option Grid :=
  (List.range T).foldl (fun m t => m.bind fun m => (f t).bind fun v => m.setCol t v) (some m)

/-- `getGuessValue` of a variable with `rows` rows and `n` columns: `v k a` is entry `a` of column `k` (DynamicsOptimizer.cpp:693-695, 728). -/
def Grid.ofGuess (rows n : Nat) (v : Nat → Nat → ℝ) : Grid := ⟨rows, (List.range n).map fun k => (List.range rows).map (v k)⟩

/-- What is read of a `KinematicsState` (DynamicsOptimizer.cpp:698-705; KinematicsState.hpp:76-90). -/
structure KState where
  com : Nat → ℝ
  l : Nat → ℝ
  h : Nat → ℝ
  qd : List ℝ
  qdd : List ℝ

/-- The first three entries as a column. -/
def vec3 (v : Nat → ℝ) : List ℝ := [v 0, v 1, v 2]

/-- The entries of `dynopt_params` (the copied `contact_plan` is left out), DynamicsOptimizer.cpp:684-729. -/
structure PlanFile where
  timeStep : ℝ
  endCom : List ℝ
  mass : ℝ
  nEff : Nat
  iniCom : List ℝ
  horizon : ℝ
  com : Grid
  l : Grid
  h : Grid
  comRef : Grid
  lRef : Grid
  hRef : Grid
  qd : Grid
  qdd : Grid
  timeVec : Grid
  frc : List Grid
  trq : List Grid
  cop : List Grid

/-- The settings only used here: `NumExtendedActiveDofs`, `TimeHorizon`, and the goal of the centre of mass (DynamicsOptimizer.cpp:685-690, 703). -/
structure SaveSet where
  store : Bool
  extDofs : Nat
  horizon : ℝ
  goal : Nat → ℝ

/-- The time vector, lines 708-711: entry 0 is written first (a failure without time steps), then sums. -/
noncomputable def timeGrid (T : Nat) (time : Nat → ℝ) : Option Grid :=
  if 0 < T then
    some ⟨1, ((List.range (T - 1)).foldl (fun (acc : List ℝ × ℝ) t => (acc.1 ++ [acc.2 + time (t + 1)], acc.2 + time (t + 1)))
      ([time 0], time 0)).1.map fun z => [z]⟩
  else none

/-- Lines 716-720 and 722-726: zero, overwritten in the time steps in which the end-effector is active. -/
noncomputable def activeGrid (rows T : Nat) (active : Nat → Bool) (v : Nat → List ℝ) : Grid :=
  ⟨rows, (List.range T).map fun t => if active t then v t else List.replicate rows 0⟩

/-- `saveToFile`, DynamicsOptimizer.cpp:677-736: `none` is a failure, `some none` means that nothing is written. -/
noncomputable def saveToFile (w : SaveSet) (i : DIn) (kin : List KState) (st : LoopState) : Option (Option PlanFile) :=
  if w.store = false then some none
  else
    let T := i.s.T
    let com := Grid.ofGuess 3 T st.guess.com
    let l := Grid.ofGuess 3 T st.guess.l
    let h := Grid.ofGuess 3 T st.guess.h
    (fillCols T (fun t => (kin[t]?).map fun k => vec3 k.com) h).bind fun comRef =>
    (fillCols T (fun t => (kin[t]?).map fun k => vec3 k.l) comRef).bind fun lRef =>
    (fillCols T (fun t => (kin[t]?).map fun k => vec3 k.h) lRef).bind fun hRef =>
    (fillCols T (fun t => (kin[t]?).map fun k => k.qd) (Grid.zero w.extDofs T)).bind fun qd =>
    (fillCols T (fun t => (kin[t]?).map fun k => k.qdd) qd).bind fun qdd =>
    (timeGrid T (fun t => (st.seq t).time)).bind fun tv =>
    some (some
      { timeStep := i.s.step, endCom := vec3 w.goal, mass := i.s.mass, nEff := i.s.neff, iniCom := vec3 i.p.iniCom, horizon := w.horizon
        com := com, l := l, h := h, comRef := comRef, lRef := lRef, hRef := hRef, qd := qd, qdd := qdd, timeVec := tv
        frc := (List.range i.s.neff).map fun e => activeGrid 3 T (fun t => i.p.active t e) fun t => vec3 ((st.seq t).frc e)
        trq := (List.range i.s.neff).map fun e => activeGrid 1 T (fun t => i.p.active t e) fun t => [(st.seq t).trq e 2]
        cop := (List.range i.s.neff).map fun e => Grid.ofGuess 2 (i.p.steps e) (st.guess.cop e) })

end Dyn
end Verif
