import Verif.HQPThreadInv
import Mathlib.Tactic.Common

/-! C34, C60, C61: the background decomposition thread. -/
namespace Verif
namespace HQP

/-! ### termination measure -/

/-- Number of steps left for the main thread. -/
def mRank : MPc → Nat
  | .idle | .dead => 0
  | .tUpdate => 1 | .tUnlock2 => 2 | .tWait => 2 | .tTest => 3 | .tWoken => 4 | .tLock2 => 5 | .tQp => 6 | .tUnlock => 7
  | .tPublish => 24 | .tRead => 25 | .tEarly => 1 | .tLock => 26
  | .rUnlock => 1 | .rWrite => 2 | .rLock => 3
  | .iStart => 10 | .sJoin _ => 11 | .sUnlock _ => 12 | .sSet _ => 18 | .sLock _ => 19 | .iSet => 20

/-- Number of steps left for the worker. -/
def wRank : WPc → Nat
  | .none | .exited => 0
  | .wWait => 1 | .wSignal => 2 | .wCompute => 3 | .wDecide => 4 | .wCheck => 5 | .wWoken => 6 | .wLock => 7 | .wTest => 8 | .wUnlock => 9

/-- Decreasing measure of the protocol. -/
def measure (s : State) : Nat := mRank s.m + wRank s.w + (if s.comp = false then 10 else 0)

theorem step_decreases {s l s'} (h : Inv s) (hs : Step s l s') (hl : l = .main ∨ l = .worker) : measure s' < measure s := by
  have hsig := h.sig
  have hw : wRank (wakeW s.w) ≤ wRank s.w + 5 := by cases s.w <;> simp [wakeW, wRank]
  have hm : mRank (wakeM s.m) ≤ mRank s.m + 2 := by cases s.m <;> simp [wakeM, mRank]
  clear h
  cases hs with
  | callTask | callReset | callInit | callDestroy | callDestroy0 | spurW | spurM => simp at hl
  | tPublish hh => simp only [measure, hh, mRank] at *; split <;> simp_all <;> omega
  | sSet r hh => simp only [measure, hh, mRank] at *; omega
  | wSignal hh =>
    have := hsig (.inl hh)
    simp only [measure, hh, wRank, this.1] at *; simp; omega
  | rWrite hh => simp only [measure, hh, mRank]; cases s.comp <;> simp <;> omega
  | iSet hh => simp only [measure, hh, mRank]; cases s.comp <;> simp <;> omega
  | iSet0 hh => simp only [measure, hh, mRank]; cases s.comp <;> simp <;> omega
  | iStart hh => simp only [measure, hh, mRank, wRank] at *; omega
  | _ => simp_all only [measure, mRank, wRank]; omega

theorem can_step {s} (h : Inv s) (hm : s.m ≠ .idle) (hd : s.m ≠ .dead) : ∃ l s', (l = .main ∨ l = .worker) ∧ Step s l s' := by
  have hw : ∀ w, s.w = w → wHolds w = true → ∃ l s', (l = .main ∨ l = .worker) ∧ Step s l s' := by
    intro w e hh
    cases w <;> simp [wHolds] at hh
    · by_cases hc : s.stop = false ∧ s.comp = true
      · exact ⟨_, _, .inr rfl, .wSleep s e hc⟩
      · exact ⟨_, _, .inr rfl, .wPass s e hc⟩
    · cases hc : s.stop
      · exact ⟨_, _, .inr rfl, .wGo s e hc⟩
      · exact ⟨_, _, .inr rfl, .wBreak s e hc⟩
    · exact ⟨_, _, .inr rfl, .wCompute s e⟩
    · exact ⟨_, _, .inr rfl, .wSignal s e⟩
    · exact ⟨_, _, .inr rfl, .wUnlock s e⟩
  -- the worker can move unless it sleeps, does not exist or has exited, provided main does not hold the mutex
  have hw2 : mHolds s.m = false → s.w ≠ .wWait → s.w ≠ .none → s.w ≠ .exited → ∃ l s', (l = .main ∨ l = .worker) ∧ Step s l s' := by
    intro hmh a b c
    by_cases hh : wHolds s.w = true
    · exact hw _ rfl hh
    · have ho : s.owner = none := by
        have h1 := h.om; have h2 := h.ow
        cases ho : s.owner with
        | none => rfl
        | some t => cases t <;> simp_all
      cases e : s.w with
      | none => exact absurd e b
      | wTest =>
        cases hc : s.stop
        · exact ⟨_, _, .inr rfl, .wEnter s e hc⟩
        · exact ⟨_, _, .inr rfl, .wExit s e hc⟩
      | wLock => exact ⟨_, _, .inr rfl, .wLock s e ho⟩
      | wWait => exact absurd e a
      | wWoken => exact ⟨_, _, .inr rfl, .wReacq s e ho⟩
      | exited => exact absurd e c
      | _ => rw [e] at hh; simp [wHolds] at hh
  -- at a lock position main can move or the worker holds the mutex and can move
  have lk : mHolds s.m = false → (s.owner = none → ∃ l s', (l = .main ∨ l = .worker) ∧ Step s l s') →
      ∃ l s', (l = .main ∨ l = .worker) ∧ Step s l s' := by
    intro hmh hf
    cases ho : s.owner with
    | none => exact hf ho
    | some t =>
      cases t with
      | main => have := h.om.mp ho; rw [hmh] at this; exact absurd this (by decide)
      | worker => exact hw _ rfl (h.ow.mp ho)
  cases e : s.m with
  | idle => exact absurd e hm
  | dead => exact absurd e hd
  | tLock => exact lk (by rw [e]; rfl) fun ho => ⟨_, _, .inl rfl, .tLock s e ho⟩
  | tRead => exact ⟨_, _, .inl rfl, .tRead s e⟩
  | tEarly => exact ⟨_, _, .inl rfl, .tEarlyU s e⟩
  | tPublish => exact ⟨_, _, .inl rfl, .tPublish s e⟩
  | tUnlock => exact ⟨_, _, .inl rfl, .tUnlock s e⟩
  | tQp => exact ⟨_, _, .inl rfl, .tQp s e⟩
  | tLock2 => exact lk (by rw [e]; rfl) fun ho => ⟨_, _, .inl rfl, .tLock2 s e ho⟩
  | tTest =>
    cases hc : s.comp
    · exact ⟨_, _, .inl rfl, .tSleep s e hc⟩
    · exact ⟨_, _, .inl rfl, .tDone s e hc⟩
  | tWait =>
    have hc := h.slM e
    refine hw2 (by rw [e]; rfl) (fun hx => ?_) (fun hx => ?_) (fun hx => ?_)
    · have := (h.slW hx).1; rw [hc] at this; exact absurd this (by decide)
    · have := h.non hx; rw [e] at this; simp at this
    · have := h.exi hx; rw [e] at this; simp [mStop] at this
  | tWoken => exact lk (by rw [e]; rfl) fun ho => ⟨_, _, .inl rfl, .tReacq s e ho⟩
  | tUnlock2 => exact ⟨_, _, .inl rfl, .tUnlock2 s e⟩
  | tUpdate => exact ⟨_, _, .inl rfl, .tUpdate s e⟩
  | rLock => exact lk (by rw [e]; rfl) fun ho => ⟨_, _, .inl rfl, .rLock s e ho⟩
  | rWrite => exact ⟨_, _, .inl rfl, .rWrite s e⟩
  | rUnlock => exact ⟨_, _, .inl rfl, .rUnlock s e⟩
  | iSet =>
    by_cases hx : s.w = .none
    · exact ⟨_, _, .inl rfl, .iSet0 s e hx⟩
    · exact ⟨_, _, .inl rfl, .iSet s e hx⟩
  | sLock r => exact lk (by rw [e]; rfl) fun ho => ⟨_, _, .inl rfl, .sLock s r e ho⟩
  | sSet r => exact ⟨_, _, .inl rfl, .sSet s r e⟩
  | sUnlock r => exact ⟨_, _, .inl rfl, .sUnlock s r e⟩
  | sJoin r =>
    by_cases hx : s.w = .exited
    · cases r
      · exact ⟨_, _, .inl rfl, .sJoinD s e hx⟩
      · exact ⟨_, _, .inl rfl, .sJoinR s e hx⟩
    · have hs := h.st1 (by rw [e]; rfl)
      refine hw2 (by rw [e]; rfl) (fun hy => ?_) (fun hy => ?_) hx
      · have := (h.slW hy).2; rw [hs] at this; exact absurd this (by decide)
      · have := h.non hy; rw [e] at this; simp at this
  | iStart => exact ⟨_, _, .inl rfl, .iStart s e⟩

/-! ### C34 -/

/-- C34, one decomposition per request, for every history of calls, every schedule and any spurious wake-ups: the number of
decompositions never exceeds the number of requests and lags by at most one; whenever no call is in progress, and whenever a call
has passed its wait for the decomposition, every request has been answered by exactly one decomposition. -/
theorem C34_one_answer_per_request {s : State} (h : Reach s) :
    s.don ≤ s.req ∧ s.req ≤ s.don + 1 ∧
    (s.m = .idle ∨ s.m = .dead ∨ s.m = .tUnlock2 ∨ s.m = .tUpdate → s.req = s.don ∧ s.comp = true) := by
  have hi := reach_inv h
  have hc := hi.cnt
  refine ⟨?_, ?_, ?_⟩
  · omega
  · split at hc <;> omega
  · intro hm
    have hcomp : s.comp = true := by
      cases hx : s.comp with
      | true => rfl
      | false => have := hi.pend hx; rcases hm with e | e | e | e <;> rw [e] at this <;> simp [mPending] at this
    rw [hcomp] at hc
    exact ⟨by simpa using hc, hcomp⟩

/-- C34, exclusive access: while the worker decomposes (or has not yet released the result), the main thread neither uses the shared
matrices nor is outside a call; and the worker only ever decomposes while it holds the mutex and the main thread does not. -/
theorem C34_exclusive_access {s : State} (h : Reach s) (hw : s.w = .wCompute) :
    mainUses s.m = false ∧ (s.m ≠ .idle ∧ s.m ≠ .tRead ∧ s.m ≠ .tEarly ∧ s.m ≠ .tPublish ∧ s.m ≠ .rWrite) ∧ s.owner = some .worker ∧ mHolds s.m = false := by
  have hi := reach_inv h
  have ho : s.owner = some .worker := hi.ow.mpr (by rw [hw]; rfl)
  have hp := hi.pend (hi.sig (.inr hw)).1
  have hm : mHolds s.m = false := by
    cases hx : mHolds s.m with
    | false => rfl
    | true => have := hi.om.mpr hx; rw [ho] at this; simp at this
  refine ⟨?_, ?_, ho, hm⟩
  · cases e : s.m <;> rw [e] at hp <;> simp [mPending] at hp <;> rfl
  · cases e : s.m <;> rw [e] at hp <;> simp [mPending] at hp <;> simp

/-- C34, no lost wake-up: in every reachable state in which a call is in progress one of the two threads can make a step
without a spurious wake-up; in particular a sleeping worker never has a request or stop flag to see, and a sleeping main thread
never has an answer to see. -/
theorem C34_no_lost_wakeup {s : State} (h : Reach s) :
    (s.m ≠ .idle → s.m ≠ .dead → ∃ l s', (l = .main ∨ l = .worker) ∧ Step s l s') ∧
    (s.w = .wWait → s.comp = true ∧ s.stop = false) ∧ (s.m = .tWait → s.comp = false) :=
  ⟨can_step (reach_inv h), (reach_inv h).slW, (reach_inv h).slM⟩

theorem run_bound {n s s'} (h : Reach s) (hr : Run n s s') : n + measure s' ≤ measure s ∧ Reach s' := by
  induction hr with
  | nil => exact ⟨by omega, h⟩
  | cons hl hs _ ih =>
    obtain ⟨a, b⟩ := ih (.step h hs)
    have := step_decreases (reach_inv h) hs hl
    exact ⟨by omega, b⟩

/-- C34, every call completes, under every schedule: from every reachable state the two threads can make at most 45 steps before a new call
(or a spurious wake-up), and when no step is possible any more the call has returned. -/
theorem C34_calls_complete {s : State} (h : Reach s) :
    (∀ n s', Run n s s' → n ≤ 45) ∧
    (∀ n s', Run n s s' → (¬ ∃ l s'', (l = .main ∨ l = .worker) ∧ Step s' l s'') → s'.m = .idle ∨ s'.m = .dead) := by
  refine ⟨fun n s' hr => ?_, fun n s' hr hno => ?_⟩
  · have h1 := (run_bound h hr).1
    have hi := reach_inv h
    have hm : mRank s.m ≤ 26 := by cases s.m <;> simp [mRank]
    have hw : wRank s.w ≤ 9 := by cases s.w <;> simp [wRank]
    have : measure s ≤ 45 := by unfold measure; split <;> omega
    omega
  · by_contra hc
    push Not at hc
    exact hno (can_step (reach_inv (run_bound h hr).2) hc.1 hc.2)

/-- C34, shutdown: when the object has been destroyed (or before a new worker is started) the worker has terminated or never existed; it stays so. -/
theorem C34_shutdown {s : State} (h : Reach s) (hd : s.m = .dead ∨ s.m = .iStart) : s.w = .none ∨ s.w = .exited :=
  (reach_inv h).fin hd.symm

/-! ### concrete executions -/

/-- One complete request: start the solver, request, decompose, return. -/
theorem ex_run : ∃ s, Reach s ∧ s.m = .idle ∧ s.req = 1 ∧ s.don = 1 ∧ s.w = .wTest := by
  have h0 : Reach init := .init
  have h1 := h0.step (.callInit _ rfl)
  have h2 := h1.step (.iSet0 _ rfl rfl)
  have h3 := h2.step (.iStart _ rfl)
  have h4 := h3.step (.wEnter _ rfl rfl)
  have h5 := h4.step (.wLock _ rfl rfl)
  have h6 := h5.step (.wSleep _ rfl ⟨rfl, rfl⟩)
  have h7 := h6.step (.callTask _ rfl (by decide))
  have h8 := h7.step (.tLock _ rfl rfl)
  have h9 := h8.step (.tRead _ rfl)
  have h10 := h9.step (.tPublish _ rfl)
  have h11 := h10.step (.tUnlock _ rfl)
  have h12 := h11.step (.tQp _ rfl)
  have h13 := h12.step (.tLock2 _ rfl rfl)
  have h14 := h13.step (.tSleep _ rfl rfl)
  have h15 := h14.step (.wReacq _ rfl rfl)
  have h16 := h15.step (.wPass _ rfl (by decide))
  have h17 := h16.step (.wGo _ rfl rfl)
  have h18 := h17.step (.wCompute _ rfl)
  have h19 := h18.step (.wSignal _ rfl)
  have h20 := h19.step (.wUnlock _ rfl)
  have h21 := h20.step (.tReacq _ rfl rfl)
  have h22 := h21.step (.tDone _ rfl rfl)
  have h23 := h22.step (.tUnlock2 _ rfl)
  exact ⟨_, h23.step (.tUpdate _ rfl), rfl, rfl, rfl, rfl⟩

/-- The worker can be in the middle of a decomposition (C34_exclusive_access is not vacuous) with any value of `cur_rank_`, if the
caller makes that many requests without a reset. -/
theorem reach_idle_rank (n : Nat) : ∃ s, Reach s ∧ s.m = .idle ∧ s.w = .wTest ∧ s.rank = n ∧ s.owner = none ∧ s.comp = true ∧ s.stop = false ∧
    ∃ s', Reach s' ∧ s'.w = .wCompute ∧ s'.rank = n := by
  have loop : ∀ s, Reach s → s.m = .idle → s.w = .wTest → s.owner = none → s.comp = true → s.stop = false →
      (∃ s', Reach s' ∧ s'.w = .wCompute ∧ s'.rank = s.rank) ∧
      ∃ s', Reach s' ∧ s'.m = .idle ∧ s'.w = .wTest ∧ s'.rank = s.rank + 1 ∧ s'.owner = none ∧ s'.comp = true ∧ s'.stop = false := by
    rintro ⟨m, w, owner, comp, stop, req, don, rank, since⟩ h hm hw ho hc hst
    simp only at hm hw ho hc hst
    subst hm hw ho hc hst
    have h1 := h.step (.callTask _ rfl (by simp))
    have h2 := h1.step (.tLock _ rfl rfl)
    have h3 := h2.step (.tRead _ rfl)
    have h4 := h3.step (.tPublish _ rfl)
    have h5 := h4.step (.tUnlock _ rfl)
    have h6 := h5.step (.wEnter _ rfl rfl)
    have h7 := h6.step (.wLock _ rfl rfl)
    have h8 := h7.step (.wPass _ rfl (by simp))
    have h9 := h8.step (.wGo _ rfl rfl)
    have h10 := h9.step (.wCompute _ rfl)
    have h11 := h10.step (.wSignal _ rfl)
    have h12 := h11.step (.wUnlock _ rfl)
    have h13 := h12.step (.tQp _ rfl)
    have h14 := h13.step (.tLock2 _ rfl rfl)
    have h15 := h14.step (.tDone _ rfl rfl)
    have h16 := h15.step (.tUnlock2 _ rfl)
    exact ⟨⟨_, h9, rfl, rfl⟩, _, h16.step (.tUpdate _ rfl), rfl, rfl, rfl, rfl, rfl, rfl⟩
  induction n with
  | zero =>
    have h1 := Reach.init.step (.callInit _ rfl)
    have h2 := h1.step (.iSet0 _ rfl rfl)
    have h3 := h2.step (.iStart _ rfl)
    exact ⟨_, h3, rfl, rfl, rfl, rfl, rfl, rfl, (loop _ h3 rfl rfl rfl rfl rfl).1⟩
  | succ n ih =>
    obtain ⟨s, h, a, b, c, d, e, f, _⟩ := ih
    obtain ⟨s', h', a', b', c', d', e', f'⟩ := (loop s h a b d e f).2
    have hr : s'.rank = n + 1 := by rw [c', c]
    refine ⟨s', h', a', b', hr, d', e', f', ?_⟩
    obtain ⟨s2, x, y, z⟩ := (loop s' h' a' b' d' e' f').1
    exact ⟨s2, x, y, z.trans hr⟩

/-! ### C60: unsynchronised flag -/

/-- C60 is false of the code: a state is reachable in which the main thread is about to write the stop flag while the worker is
about to read it without holding the mutex (a data race on a plain `bool`). -/
theorem C60_violated : ∃ s s1 s2, Reach s ∧ Step s .main s1 ∧ s1.stop ≠ s.stop ∧ Step s .worker s2 ∧ s.w = .wTest ∧
    wHolds s.w = false ∧ s.owner = some .main := by
  obtain ⟨s, h, hm, hw, _, ho, hc, hst, _⟩ := reach_idle_rank 0
  obtain ⟨m, w, owner, comp, stop, req, don, rank, since⟩ := s
  simp only at hm hw ho hc hst
  subst hm hw ho hc hst
  have h1 := h.step (.callDestroy _ rfl (by simp))
  have h2 := h1.step (.sLock _ false rfl rfl)
  exact ⟨_, _, _, h2, .sSet _ false rfl, by simp, .wEnter _ rfl rfl, rfl, rfl, rfl⟩

/-- C60, what holds: every other access of either thread to `is_svd_computed_`, `cur_rank_` and the shared matrices happens while the
accessing thread holds the mutex, or while the other thread cannot access them: any step that changes `comp` or `rank` is made by
the owner of the mutex, except the write in `initialize`, which never changes the value. Missing: the reads of the
stop flag at the head of the worker loop. -/
theorem C60_flag_writes_partial {s l s'} (h : Reach s) (hs : Step s l s') :
    (s'.comp ≠ s.comp ∨ s'.rank ≠ s.rank → (l = .main ∧ s.owner = some .main) ∨ (l = .worker ∧ s.owner = some .worker)) ∧
    (s'.stop = true → s.stop = false → l = .main ∧ s.owner = some .main) := by
  have hi := reach_inv h
  have hM : ∀ m, s.m = m → mHolds m = true → s.owner = some .main := fun m e he => hi.om.mpr (by rw [e]; exact he)
  have hW : ∀ w, s.w = w → wHolds w = true → s.owner = some .worker := fun w e he => hi.ow.mpr (by rw [e]; exact he)
  have hcomp : mPending s.m = false → s.comp = true := fun hp => by
    cases hx : s.comp with
    | true => rfl
    | false => have := hi.pend hx; rw [hp] at this; exact absurd this (by decide)
  cases hs with
  | tPublish hh => exact ⟨fun _ => .inl ⟨rfl, hM _ hh rfl⟩, fun a b => by simp_all⟩
  | rWrite hh => exact ⟨fun _ => .inl ⟨rfl, hM _ hh rfl⟩, fun a b => by simp_all⟩
  | sSet r hh => exact ⟨fun hx => by simp at hx, fun _ _ => ⟨rfl, hM _ hh rfl⟩⟩
  | wCompute hh => exact ⟨fun _ => .inr ⟨rfl, hW _ hh rfl⟩, fun a b => by simp_all⟩
  | wSignal hh => exact ⟨fun _ => .inr ⟨rfl, hW _ hh rfl⟩, fun a b => by simp_all⟩
  | iSet hh =>
    have := hcomp (by rw [hh]; rfl)
    exact ⟨fun hx => by simp [this] at hx, fun a b => by simp_all⟩
  | iSet0 hh =>
    have := hcomp (by rw [hh]; rfl)
    exact ⟨fun hx => by simp [this] at hx, fun a b => by simp_all⟩
  | iStart hh => exact ⟨fun hx => by simp at hx, fun a _ => by simp at a⟩
  | _ => exact ⟨fun hx => by simp at hx, fun a b => by simp_all⟩

/-! ### C61: index of the stored nullspace maps -/

/-- C61 is false of the code: for every number of stored maps (7 in the code, RtHQPSolver.hpp:23) a decomposition that writes at
or beyond that index is reachable, if the caller makes that many requests without a reset. -/
theorem C61_violated (size : Nat) : ∃ s, Reach s ∧ s.w = .wCompute ∧ ¬ s.rank < size := by
  obtain ⟨_, _, _, _, _, _, _, _, s', h, hw, hr⟩ := reach_idle_rank size
  exact ⟨s', h, hw, by omega⟩

/-- C61, what holds: the index written by a decomposition is one less than the number of requests since the last reset, so callers that make
at most `size` requests between resets stay in bounds. Missing: a bound enforced by the code. -/
theorem C61_index_partial {s : State} (h : Reach s) (hw : s.w = .wCompute) :
    s.rank + 1 = s.since ∧ ∀ size, s.since ≤ size → s.rank < size := by
  have hi := reach_inv h
  have h1 := hi.snc
  rw [(hi.sig (.inr hw)).1, hw] at h1
  simp at h1
  exact ⟨h1.symm, fun size hs => by omega⟩

end HQP
end Verif
