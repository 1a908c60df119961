import Verif.HQPThread
import Mathlib.Tactic.Common

/-! Inductive invariant of the two-thread protocol. -/
namespace Verif
namespace HQP

/-! ### the inductive invariant -/

/-- Positions of the main thread that hold the mutex. -/
def mHolds : MPc → Bool
  | .tRead | .tEarly | .tPublish | .tUnlock | .tTest | .tUnlock2 | .rWrite | .rUnlock | .sSet _ | .sUnlock _ => true
  | _ => false

/-- Positions of the worker that hold the mutex. -/
def wHolds : WPc → Bool
  | .wCheck | .wDecide | .wCompute | .wSignal | .wUnlock => true
  | _ => false

/-- Positions at which a request may be pending. -/
def mPending : MPc → Bool
  | .tUnlock | .tQp | .tLock2 | .tTest | .tWait | .tWoken => true
  | _ => false

/-- Positions inside `solveNextTask`. -/
def mTask : MPc → Bool
  | .tLock | .tRead | .tEarly | .tPublish | .tUnlock | .tQp | .tLock2 | .tTest | .tWait | .tWoken | .tUnlock2 | .tUpdate => true
  | _ => false

/-- Positions at which the stop flag is set. -/
def mStop : MPc → Bool
  | .sUnlock _ | .sJoin _ => true
  | _ => false

/-- Invariant of all reachable states. -/
structure Inv (s : State) : Prop where
  om : s.owner = some .main ↔ mHolds s.m = true
  ow : s.owner = some .worker ↔ wHolds s.w = true
  cnt : s.req = s.don + (if s.comp = false ∧ s.w ≠ .wSignal then 1 else 0)
  sig : s.w = .wSignal ∨ s.w = .wCompute → s.comp = false ∧ s.stop = false
  pend : s.comp = false → mPending s.m = true
  slW : s.w = .wWait → s.comp = true ∧ s.stop = false
  slM : s.m = .tWait → s.comp = false
  st1 : mStop s.m = true → s.stop = true
  st2 : s.stop = true → mStop s.m = true ∨ s.m = .iStart ∨ s.m = .dead
  exi : s.w = .exited → (mStop s.m = true ∨ s.m = .iStart ∨ s.m = .dead)
  non : s.w = .none → s.m = .idle ∨ s.m = .rLock ∨ s.m = .rWrite ∨ s.m = .rUnlock ∨ s.m = .iSet ∨ s.m = .iStart ∨ s.m = .dead
  fin : s.m = .iStart ∨ s.m = .dead → s.w = .none ∨ s.w = .exited
  dec : s.w = .wDecide → s.stop = true ∨ s.comp = false
  upd : s.m = .tUnlock2 → s.comp = true
  snc : s.since = s.rank + (if s.comp = false ∧ s.w ≠ .wSignal then 1 else 0)

theorem inv_init : Inv init := by
  constructor <;> simp [init, mHolds, wHolds, mPending, mStop]

set_option maxHeartbeats 4000000 in
theorem inv_step {s l s'} (h : Inv s) (hs : Step s l s') : Inv s' := by
  obtain ⟨m, w, owner, comp, stop, req, don, rank, since⟩ := s
  obtain ⟨h1, h2, h3, h4, h5, h6, h7, h8, h9, h10, h11, h12, h13, h14, h15⟩ := h
  simp only at h1 h2 h3 h4 h5 h6 h7 h8 h9 h10 h11 h12 h13 h14 h15
  cases hs <;> simp only at * <;> subst_vars <;>
    first
    | (constructor <;> simp_all [mHolds, wHolds, mPending, mStop, wakeW, wakeM] <;> done)
    | (cases w <;> constructor <;> simp_all [mHolds, wHolds, mPending, mStop, wakeW, wakeM] <;> done)
    | (cases m <;> constructor <;> simp_all [mHolds, wHolds, mPending, mStop, wakeW, wakeM] <;> done)

theorem reach_inv {s} (h : Reach s) : Inv s := by
  induction h with
  | init => exact inv_init
  | step _ hs ih => exact inv_step ih hs

end HQP
end Verif
