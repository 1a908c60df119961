/-
Model of the solve loop of `solver::ConicProblem`: `optimize` and `solveProblem`,
/repo/solver/src/solver/interface/ConicProblem.cpp:101-113 (counters), 319-363.

Simplifications: the convex solvers are an oracle that maps the solves done so far and the next one to an
exit code; a solve is recorded by its trust-region exponent, the warm-start flag and which solver ran.
-/
import Verif.Conic

namespace Verif

/-- `enum class ExitCode`, SolverSetting.hpp:20-33. -/
inductive ExitCode
  | optimal | optimalInacc | primalInf | primalInfInacc | dualInf | dualInfInacc
  | reachMaxIters | notConverged | indeterminate | prSearchDirection | prSlacksLeaveCone | prProjection
  deriving DecidableEq, Repr

/-- One call `buildProblem(exponent, warm); solveProblem()`; `bnb` = branch and bound was used (ConicProblem.cpp:319-333). -/
structure SolveEv where
  exponent : Nat
  warm : Bool
  bnb : Bool
  deriving DecidableEq

/-- The settings read by `optimize` (ConicProblem.cpp:335-365). -/
structure OptCfg where
  warmStartIters : Int
  solverMaxIters : Int
  refinements : Int

/-- What `optimize` changes (ConicProblem.cpp:335-365). -/
structure OptState where
  numTrust : Nat
  numSoft : Nat
  trace : List SolveEv
  exit : ExitCode

namespace Problem
variable {K : Type} [Field K] [LinearOrder K]

/-- `this->buildProblem(k, warm); exit_code_ = this->solveProblem();`: buildProblem recounts the two counters
(ConicProblem.cpp:104-113), solveProblem chooses the solver (ConicProblem.cpp:322). -/
def buildAndSolve (p : Problem K) (solver : List SolveEv → SolveEv → ExitCode) (k : Nat) (warm : Bool) (s : OptState) : OptState :=
  let nt := p.countTrust
  let ns := p.countSoft
  let ev : SolveEv := ⟨k, warm, decide (p.bins.length > 0) && (decide (nt = 0) && decide (ns = 0))⟩
  ⟨nt, ns, s.trace ++ [ev], solver s.trace ev⟩

/-- The refinement loop, ConicProblem.cpp:355-359, with `n` iterations left, the next being `ref`. -/
def refineLoop (p : Problem K) (solver : List SolveEv → SolveEv → ExitCode) : Nat → Nat → OptState → OptState
  | 0, _, s => s
  | n + 1, ref, s => refineLoop p solver n (ref + 1) (p.buildAndSolve solver (ref + 1) false s)

/-- `ConicProblem::optimize`, ConicProblem.cpp:335-363. -/
def optimize (p : Problem K) (cfg : OptCfg) (solver : List SolveEv → SolveEv → ExitCode) : OptState :=
  let s : OptState := ⟨p.numTrust, p.numSoft, [], .indeterminate⟩
  let s := if cfg.warmStartIters > 0 ∧ (s.numTrust > 0 ∨ s.numSoft > 0) then p.buildAndSolve solver 0 true s else s
  let s := if cfg.solverMaxIters > 0 then p.buildAndSolve solver 1 false s else s
  if cfg.refinements > 0 ∧ (s.numTrust > 0 ∨ s.numSoft > 0) then p.refineLoop solver cfg.refinements.toNat 1 s else s

end Problem
end Verif
