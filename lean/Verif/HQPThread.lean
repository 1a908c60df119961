/-
Model of the two-thread protocol of the hierarchical QP solver,
/repo/solver/include/solver/rt_optimizer/RtHQPSolver.h:32-256 and RtMutex.hpp:16-55 (pthread mutex and condition variables).

An interleaving transition system: every step is one access to the mutex, a condition variable or a shared flag, or one critical
computation. Condition variables follow POSIX: `wait` atomically releases the mutex and sleeps; a broadcast wakes the sleeper, which
then has to reacquire the mutex; sleepers may also wake up spuriously.
Simplifications: sequentially consistent memory; one main thread (the code is not meant for several callers); the user calls
`initialize` before `solveNextTask` and destroys the object only when no call is in progress; the numerical content is left
out, only the counters of requests and decompositions (ghost variables) and `cur_rank_` are kept.
-/
import Mathlib.Logic.Basic
import Mathlib.Data.Nat.Basic

namespace Verif
namespace HQP

/-- Position of the main thread (RtHQPSolver.h:112-256). -/
inductive MPc
  | idle          -- no call in progress
  | dead          -- destroyed
  | tLock         -- RtHQPSolver.h:126 `mutex_.lock()`
  | tRead         -- 129-184: uses `K_`, writes `B_Nprev_` (holding the mutex)
  | tEarly        -- 129: early return, `mutex_.unlock()`
  | tPublish      -- 187-188: `is_svd_computed_ = false; problem2svd_converter_.broadcast()`
  | tUnlock       -- 189 `mutex_.unlock()`
  | tQp           -- 192-225: QP solve, no shared data
  | tLock2        -- 229 `mutex_.lock()`
  | tTest         -- 230 `while (!is_svd_computed_)`
  | tWait         -- 230 asleep in `svd2problem_converter_.wait`
  | tWoken        -- 230 woken, has to reacquire the mutex
  | tUnlock2      -- 231 `mutex_.unlock()`
  | tUpdate       -- 237-253: update of the solution, no shared data
  | rLock         -- 94 `mutex_.lock()` in `reset`
  | rWrite        -- 95-98: writes `cur_rank_`, `is_svd_computed_`, `K_`, `B_Nprev_`
  | rUnlock       -- 99 `mutex_.unlock()`
  | iSet          -- 41: `is_svd_computed_ = true` in `initialize` (no mutex)
  | sLock (restart : Bool)   -- 82 `mutex_.lock()` in `stopSVD2ProblemConverter`
  | sSet (restart : Bool)    -- 83-84: `stop_svd2problem_converter_ = true; problem2svd_converter_.broadcast()`
  | sUnlock (restart : Bool) -- 85
  | sJoin (restart : Bool)   -- 86 `join()`
  | iStart        -- 48-50: `stop_svd2problem_converter_ = false`, new thread
  deriving DecidableEq, Repr

/-- Position of the worker, `doSVDComputations`, RtHQPSolver.h:55-75. -/
inductive WPc
  | none          -- no thread was started
  | wTest         -- 57 `while (!stop_svd2problem_converter_)` (no mutex)
  | wLock         -- 59 `mutex_.lock()`
  | wCheck        -- 60 `while (!stop && is_svd_computed_)`
  | wWait         -- 60 asleep in `problem2svd_converter_.wait`
  | wWoken        -- 60 woken, has to reacquire the mutex
  | wDecide       -- 61 `if (stop) { unlock; break; }`
  | wCompute      -- 63-68: decomposition, writes `K_`, `prev_K_`, `cur_rank_`
  | wSignal       -- 71-72: `is_svd_computed_ = true; svd2problem_converter_.broadcast()`
  | wUnlock       -- 73
  | exited
  deriving DecidableEq, Repr

/-- The thread of the caller and the thread of RtHQPSolver.h:49-50. -/
inductive Thread | main | worker
  deriving DecidableEq, Repr

/-- Shared state. `req` and `don` are ghost counters: requests published and decompositions made; `rank` is `cur_rank_`;
`since` is a ghost counter of requests published since `cur_rank_` was last set to 0 (RtHQPSolver.hpp:60-89). -/
structure State where
  m : MPc
  w : WPc
  owner : Option Thread
  comp : Bool
  stop : Bool
  req : Nat
  don : Nat
  rank : Nat
  since : Nat
  deriving DecidableEq, Repr

/-- Who makes a step: the caller of the interface starting a call, one of the threads, or a spurious wake-up (RtHQPSolver.h:54-256). -/
inductive Label | call | main | worker | spurious
  deriving DecidableEq, Repr

/-- Effect of `problem2svd_converter_.broadcast()` on the worker (RtHQPSolver.h:84, 188). -/
def wakeW (w : WPc) : WPc := if w = .wWait then .wWoken else w

/-- Effect of `svd2problem_converter_.broadcast()` on the main thread (RtHQPSolver.h:72). -/
def wakeM (m : MPc) : MPc := if m = .tWait then .tWoken else m

/-- The state after construction, RtHQPSolver.h:22-29 and 92-107: no thread, `is_svd_computed_ = true`. -/
def init : State := ⟨.idle, .none, none, true, false, 0, 0, 0, 0⟩

/-- The transition relation (RtHQPSolver.h:22-256). -/
inductive Step : State → Label → State → Prop
  -- calls (only when no call is in progress)
  | callTask (s) (hm : s.m = .idle) (hw : s.w ≠ .none) : Step s .call { s with m := .tLock }
  | callReset (s) (hm : s.m = .idle) : Step s .call { s with m := .rLock }
  | callInit (s) (hm : s.m = .idle) : Step s .call { s with m := .iSet }
  -- destructor, 32-35: nothing to do without a thread
  | callDestroy (s) (hm : s.m = .idle) (hw : s.w ≠ .none) : Step s .call { s with m := .sLock false }
  | callDestroy0 (s) (hm : s.m = .idle) (hw : s.w = .none) : Step s .call { s with m := .dead }
  -- solveNextTask
  | tLock (s) (hm : s.m = .tLock) (ho : s.owner = none) : Step s .main { s with m := .tRead, owner := some .main }
  | tEarly (s) (hm : s.m = .tRead) : Step s .main { s with m := .tEarly }
  | tEarlyU (s) (hm : s.m = .tEarly) : Step s .main { s with m := .idle, owner := none }
  | tRead (s) (hm : s.m = .tRead) : Step s .main { s with m := .tPublish }
  | tPublish (s) (hm : s.m = .tPublish) : Step s .main { s with m := .tUnlock, comp := false, w := wakeW s.w, req := s.req + 1, since := s.since + 1 }
  | tUnlock (s) (hm : s.m = .tUnlock) : Step s .main { s with m := .tQp, owner := none }
  | tQp (s) (hm : s.m = .tQp) : Step s .main { s with m := .tLock2 }
  | tLock2 (s) (hm : s.m = .tLock2) (ho : s.owner = none) : Step s .main { s with m := .tTest, owner := some .main }
  | tSleep (s) (hm : s.m = .tTest) (hc : s.comp = false) : Step s .main { s with m := .tWait, owner := none }
  | tDone (s) (hm : s.m = .tTest) (hc : s.comp = true) : Step s .main { s with m := .tUnlock2 }
  | tReacq (s) (hm : s.m = .tWoken) (ho : s.owner = none) : Step s .main { s with m := .tTest, owner := some .main }
  | tUnlock2 (s) (hm : s.m = .tUnlock2) : Step s .main { s with m := .tUpdate, owner := none }
  | tUpdate (s) (hm : s.m = .tUpdate) : Step s .main { s with m := .idle }
  -- reset
  | rLock (s) (hm : s.m = .rLock) (ho : s.owner = none) : Step s .main { s with m := .rWrite, owner := some .main }
  | rWrite (s) (hm : s.m = .rWrite) : Step s .main { s with m := .rUnlock, comp := true, rank := 0, since := 0 }
  | rUnlock (s) (hm : s.m = .rUnlock) : Step s .main { s with m := .idle, owner := none }
  -- initialize
  | iSet (s) (hm : s.m = .iSet) (hw : s.w ≠ .none) : Step s .main { s with m := .sLock true, comp := true }
  | iSet0 (s) (hm : s.m = .iSet) (hw : s.w = .none) : Step s .main { s with m := .iStart, comp := true }
  | iStart (s) (hm : s.m = .iStart) : Step s .main { s with m := .idle, stop := false, w := .wTest }
  -- stopSVD2ProblemConverter
  | sLock (s r) (hm : s.m = .sLock r) (ho : s.owner = none) : Step s .main { s with m := .sSet r, owner := some .main }
  | sSet (s r) (hm : s.m = .sSet r) : Step s .main { s with m := .sUnlock r, stop := true, w := wakeW s.w }
  | sUnlock (s r) (hm : s.m = .sUnlock r) : Step s .main { s with m := .sJoin r, owner := none }
  | sJoinR (s) (hm : s.m = .sJoin true) (hw : s.w = .exited) : Step s .main { s with m := .iStart }
  | sJoinD (s) (hm : s.m = .sJoin false) (hw : s.w = .exited) : Step s .main { s with m := .dead }
  -- worker
  | wExit (s) (hw : s.w = .wTest) (h : s.stop = true) : Step s .worker { s with w := .exited }
  | wEnter (s) (hw : s.w = .wTest) (h : s.stop = false) : Step s .worker { s with w := .wLock }
  | wLock (s) (hw : s.w = .wLock) (ho : s.owner = none) : Step s .worker { s with w := .wCheck, owner := some .worker }
  | wSleep (s) (hw : s.w = .wCheck) (h : s.stop = false ∧ s.comp = true) : Step s .worker { s with w := .wWait, owner := none }
  | wPass (s) (hw : s.w = .wCheck) (h : ¬ (s.stop = false ∧ s.comp = true)) : Step s .worker { s with w := .wDecide }
  | wReacq (s) (hw : s.w = .wWoken) (ho : s.owner = none) : Step s .worker { s with w := .wCheck, owner := some .worker }
  | wBreak (s) (hw : s.w = .wDecide) (h : s.stop = true) : Step s .worker { s with w := .exited, owner := none }
  | wGo (s) (hw : s.w = .wDecide) (h : s.stop = false) : Step s .worker { s with w := .wCompute }
  | wCompute (s) (hw : s.w = .wCompute) : Step s .worker { s with w := .wSignal, don := s.don + 1, rank := s.rank + 1 }
  | wSignal (s) (hw : s.w = .wSignal) : Step s .worker { s with w := .wUnlock, comp := true, m := wakeM s.m }
  | wUnlock (s) (hw : s.w = .wUnlock) : Step s .worker { s with w := .wTest, owner := none }
  -- spurious wake-ups
  | spurW (s) (hw : s.w = .wWait) : Step s .spurious { s with w := .wWoken }
  | spurM (s) (hm : s.m = .tWait) : Step s .spurious { s with m := .tWoken }

/-- Reachable states: any history of calls, any schedule, any spurious wake-ups (RtHQPSolver.h:22-256). -/
inductive Reach : State → Prop
  | init : Reach init
  | step {s l s'} (h : Reach s) (hs : Step s l s') : Reach s'

/-- A sequence of `n` steps of the two threads (no new call, no spurious wake-up) (RtHQPSolver.h:54-256). -/
inductive Run : Nat → State → State → Prop
  | nil (s) : Run 0 s s
  | cons {n s l s' s''} (hl : l = .main ∨ l = .worker) (h : Step s l s') (hr : Run n s' s'') : Run (n + 1) s s''

/-- Main thread positions at which it uses the matrices shared with the worker (`K_`, `B_Nprev_`, `prev_K_`, `cur_rank_`); in `idle` the
caller may query `nullspaceDimension()`, RtHQPSolver.hpp:45. -/
def mainUses : MPc → Bool
  | .idle | .tRead | .tEarly | .tPublish | .rWrite => true
  | _ => false

end HQP
end Verif
