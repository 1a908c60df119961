import Verif.LbfgsNlp
import Verif.LbfgsProps
import Verif.LbfgsWrapProps

/-! # C205, C206: the class around L-BFGS -/

namespace Verif
namespace Lbfgs

/-! ### Specification -/

/-- What a program may assume about solver `a`: `none` it does not exist, `some none` it has not been initialised, `some (some (k, w, p))` it
works on description `k` with weight `w` and parameters `p`. -/
abbrev Status := Option (Option (Nat × ℝ × Params))

/-- How a call changes that: a constructor starts afresh, `initialize` sets description and weight and resets the parameters to the defaults,
assigning parameters changes those of an initialised solver. -/
noncomputable def Status.next (a : Nat) (s : Status) : Call → Status
  | .create b => if b = a then some none else s
  | .copy _ _ => s
  | .destroy b => if b = a then none else s
  | .init b k w => if b = a then s.map fun _ => some (k, w, defparam) else s
  | .setParams b p => if b = a then s.map fun t => t.map fun q => (q.1, q.2.1, p) else s
  | .optimize _ => s

/-- The status of solver `a` after a history. -/
noncomputable def statusOf (a : Nat) (l : List Call) : Status := l.foldl (Status.next a) none

/-- No solver is copied. -/
def NoCopy (l : List Call) : Prop := ∀ d s, Call.copy d s ∉ l

theorem callback_self (P : Nat → Prob) (o : Obj) (h : o.init = true) :
    callback P o (P o.prob).n = some (evaluate (penalised (P o.prob).nlp o.weight)) := by
  simp [callback, h]

/-- Invariant of executions without copies: every buffer points to its own object, and the members are as the history says. -/
theorem exec_inv {P : Nat → Prob} {vec : (k : Nat) → Vec (P k).n} {val : Nat → ℝ} {l : List Call} {W : World P}
    (h : Exec P (World.empty vec val) l W) (hn : NoCopy l) (a : Nat) :
    (W.obj a = none ∧ statusOf a l = none) ∨
    (∃ s, W.obj a = some s ∧ s.self = a ∧ s.init = false ∧ statusOf a l = some none) ∨
    (∃ s, W.obj a = some s ∧ s.self = a ∧ s.init = true ∧ statusOf a l = some (some (s.prob, s.weight, s.params))) := by
  generalize hW : World.empty vec val = W0 at h
  induction h with
  | nil => subst hW; exact .inl ⟨rfl, rfl⟩
  | @snoc l W1 c W2 h hs ih =>
    have ih := ih (fun d s hm => hn d s (List.mem_append_left _ hm))
    have hst : statusOf a (l ++ [c]) = Status.next a (statusOf a l) c := by simp [statusOf]
    rw [hst]
    cases hs with
    | create b k p =>
      by_cases hb : b = a
      · subst hb; exact .inr (.inl ⟨_, Function.update_self .., rfl, rfl, by simp [Status.next]⟩)
      · simpa [Status.next, hb, Function.update_of_ne (Ne.symm hb)] using ih
    | copy dst src s hsrc => exact absurd (by simp) (hn dst src)
    | destroy b =>
      by_cases hb : b = a
      · subst hb; exact .inl (by simp [Status.next])
      · simpa [Status.next, hb, Function.update_of_ne (Ne.symm hb)] using ih
    | init b k w s hb' =>
      by_cases hb : b = a
      · subst hb
        refine .inr (.inr ?_)
        rcases ih with ⟨h1, -⟩ | ⟨s', h1, h2, -, h4⟩ | ⟨s', h1, h2, -, h4⟩
        · rw [hb'] at h1; cases h1
        · rw [hb'] at h1; cases h1
          exact ⟨_, Function.update_self .., h2, rfl, by simp [Status.next, h4]⟩
        · rw [hb'] at h1; cases h1
          exact ⟨_, Function.update_self .., h2, rfl, by simp [Status.next, h4]⟩
      · simpa [Status.next, hb, Function.update_of_ne (Ne.symm hb)] using ih
    | setParams b p s hb' =>
      by_cases hb : b = a
      · subst hb
        rcases ih with ⟨h1, -⟩ | ⟨s', h1, h2, h3, h4⟩ | ⟨s', h1, h2, h3, h4⟩
        · rw [hb'] at h1; cases h1
        · rw [hb'] at h1; cases h1
          exact .inr (.inl ⟨_, Function.update_self .., h2, h3, by simp [Status.next, h4]⟩)
        · rw [hb'] at h1; cases h1
          exact .inr (.inr ⟨_, Function.update_self .., h2, h3, by simp [Status.next, h4]⟩)
      · simpa [Status.next, hb, Function.update_of_ne (Ne.symm hb)] using ih
    | idle b s hb hi => exact ih
    | optimize b s o ev i r hb hi ho hc hr => exact ih

/-- C205, partial: in every history in which no solver is copied, `optimize` of a solver that was never initialised since its construction
changes nothing; otherwise it runs L-BFGS on the description, with the penalty weight and the parameters of the last `initialize` (and later
assignments), from the starting point the description gives and not from the result of an earlier call, stores point and value in that
description and changes nothing else; whenever that run of L-BFGS has an outcome, `optimize` has it. Missing: histories with copies, where it is
false (`C205_violated`). -/
theorem C205_wrapper_partial (P : Nat → Prob) (vec : (k : Nat) → Vec (P k).n) (val : Nat → ℝ) (l : List Call) (W : World P)
    (h : Exec P (World.empty vec val) l W) (hn : NoCopy l) (a : Nat) :
    (statusOf a l = some none → ∀ W', Step P W (.optimize a) W' ↔ W' = W) ∧
    (∀ k w p, statusOf a l = some (some (k, w, p)) → ∀ W', Step P W (.optimize a) W' ↔
      ∃ i r, Run p (evaluate (penalised (P k).nlp w)) (fun _ _ _ _ => 0) (P k).x0 (W.val k) i r ∧
        W'.vec k = r.x ∧ W'.val k = r.fx ∧ W'.obj = W.obj ∧ ∀ j, j ≠ k → W'.vec j = W.vec j ∧ W'.val j = W.val j) := by
  have hI := exec_inv h hn a
  constructor
  · intro hs W'
    rcases hI with ⟨-, h4⟩ | ⟨s, h1, h2, h3, h4⟩ | ⟨s, h1, h2, h3, h4⟩
    · rw [hs] at h4; cases h4
    · constructor
      · intro hst
        cases hst with
        | idle => rfl
        | optimize _ s' o ev i r hb hi => rw [h1] at hb; cases hb; rw [h3] at hi; cases hi
      · rintro rfl; exact .idle _ a s h1 h3
    · rw [hs] at h4; cases h4
  · intro k w p hs W'
    rcases hI with ⟨-, h4⟩ | ⟨s, h1, h2, h3, h4⟩ | ⟨s, h1, h2, h3, h4⟩
    · rw [hs] at h4; cases h4
    · rw [hs] at h4; cases h4
    · rw [hs] at h4
      injection h4 with h4; injection h4 with h4
      obtain ⟨rfl, rfl, rfl⟩ : k = s.prob ∧ w = s.weight ∧ p = s.params := by simpa using h4
      constructor
      · intro hst
        cases hst with
        | idle _ s' hb hi => rw [h1] at hb; cases hb; rw [h3] at hi; cases hi
        | optimize _ s' o ev i r hb hi ho hc hr =>
          rw [h1] at hb; cases hb
          rw [h2, h1] at ho; cases ho
          rw [callback_self P s h3] at hc; cases hc
          exact ⟨i, r, hr, by simp, by simp, rfl, fun j hj => by simp [Function.update_of_ne hj]⟩
      · rintro ⟨i, r, hr, e1, e2, e3, e4⟩
        have hst := Step.optimize W a s s _ i r h1 h3 (by rw [h2]; exact h1) (callback_self P s h3) hr
        convert hst using 1
        obtain ⟨o', v', f'⟩ := W'
        simp only at e1 e2 e3 e4
        congr 1
        · funext j
          by_cases hj : j = s.prob
          · subst hj; simp [e1]
          · rw [Function.update_of_ne hj]; exact (e4 j hj).1
        · funext j
          by_cases hj : j = s.prob
          · subst hj; simp [e2]
          · rw [Function.update_of_ne hj]; exact (e4 j hj).2

/-- The functions of the examples: `(x - t)²` with `t = 3` for description 1 and `t = 0` for all others; no constraints, bounds far away. -/
noncomputable def sampleNlp (k : Nat) : Nlp 1 0 :=
  ⟨fun _ => -10, fun _ => 10, fun _ => 0, fun _ => 0, fun _ => 0, fun x => (x 0 - if k = 1 then 3 else 0) ^ 2⟩

/-- The descriptions of the examples, all with starting point zero. -/
noncomputable def sample (k : Nat) : Prob := ⟨1, 0, sampleNlp k, fun _ => 0⟩

theorem penalised_sample {k : Nat} (w : ℝ) {x : Vec 1} (h : |x 0| < 10) : penalised (sampleNlp k) w x = (x 0 - if k = 1 then 3 else 0) ^ 2 := by
  obtain ⟨h1, h2⟩ := abs_lt.mp h
  have h3 : ¬ x 0 ≤ -10 := by linarith
  have h4 : ¬ 10 ≤ x 0 := by linarith
  unfold penalised sampleNlp penalty1
  rw [Fin.sum_univ_one, Fin.sum_univ_zero]
  simp [h3, h4]

theorem run_sample (fx0 : ℝ) (w : ℝ) : Run defparam (evaluate (penalised (sampleNlp 0) w)) (progress 1) (fun _ => 0) fx0 0 ⟨.alreadyMinimized, fun _ => 0, 0⟩ := by
  have hp0 : 0 < prt := by unfold prt; positivity
  have hp1 : prt < 10 := by unfold prt; norm_num
  have hev : evaluate (penalised (sampleNlp 0) w) (fun _ => 0 : Vec 1) = (0, fun _ => 0) := by
    rw [evaluate_eq]
    ext i
    · show penalised (sampleNlp 0) w (fun _ => 0 : Vec 1) = 0
      rw [penalised_sample w (by norm_num)]; norm_num
    · have hi : i = 0 := Subsingleton.elim _ _
      subst hi
      show (penalised (sampleNlp 0) w _ - penalised (sampleNlp 0) w _) / _ = 0
      rw [penalised_sample w (by simpa [abs_of_pos hp0] using hp1), penalised_sample w (by simpa [abs_of_pos hp0] using hp1)]
      simp
  have h := Run.already (p := defparam) (ev := evaluate (penalised (sampleNlp 0) w)) (prog := progress 1) (x0 := fun _ => 0) (fx0 := fx0)
    (by simpa using (validate_iff 1 defparam).mpr (by
      have := C32_example.1
      exact ⟨by norm_num, this.2⟩)) (by
        rw [hev]
        simp [norm2, dot, defparam]; try norm_num)
  rw [hev] at h
  exact h

/-- C205 is false with copies: a solver is copied and the copy initialised with another description (`(x - 3)²`); optimising the copy evaluates
the description of the original (`x²`): it stores the point 0 and the value 0 in the new description, whose value there is 9. If the original
is destroyed first, there is no defined behaviour. -/
theorem C205_violated : ∃ (P : Nat → Prob) (W W' : World P) (l : List Call), (P 1).n = 1 ∧
    Exec P (World.empty (fun k => (P k).x0) (fun _ => 0)) l W ∧
    l = [.create 0, .init 0 0 1, .copy 1 0, .init 1 1 1] ∧ Step P W (.optimize 1) W' ∧
    W'.vec 1 = (P 1).x0 ∧ W'.val 1 = 0 ∧ penalised (P 1).nlp 1 (W'.vec 1) = 9 ∧
    ∃ V, Step P W (.destroy 0) V ∧ ∀ V', ¬ Step P V (.optimize 1) V' := by
  let W0 : World sample := World.empty (fun k => (sample k).x0) (fun _ => 0)
  have e1 : Exec sample W0 [.create 0] _ := .snoc (l := []) (.nil _) (.create _ 0 0 defparam)
  have e2 : Exec sample W0 [.create 0, .init 0 0 1] _ := .snoc (l := [_]) e1 (.init _ 0 0 1 ⟨0, 1, false, defparam, 0⟩ (by simp))
  have e3 : Exec sample W0 [.create 0, .init 0 0 1, .copy 1 0] _ := .snoc (l := [_, _]) e2 (.copy _ 1 0 ⟨0, 1, true, defparam, 0⟩ (by simp))
  have e4 : Exec sample W0 [.create 0, .init 0 0 1, .copy 1 0, .init 1 1 1] _ :=
    .snoc (l := [_, _, _]) e3 (.init _ 1 1 1 ⟨0, 1, true, defparam, 0⟩ (by simp))
  refine ⟨sample, _, _, _, rfl, e4, rfl, .optimize _ 1 ⟨1, 1, true, defparam, 0⟩ ⟨0, 1, true, defparam, 0⟩
    (evaluate (penalised (sampleNlp 0) 1)) 0 ⟨.alreadyMinimized, fun _ => 0, 0⟩ (by simp) rfl (by simp) ?_ ?_, ?_, ?_, ?_, _, .destroy _ 0, ?_⟩
  · exact callback_self sample ⟨0, 1, true, defparam, 0⟩ rfl
  · exact run_sample _ 1
  · simp; rfl
  · simp
  · simp only [Function.update_self]
    exact (penalised_sample (k := 1) 1 (x := fun _ => 0) (by norm_num)).trans (by norm_num)
  · intro V' hV
    cases hV with
    | idle _ s h hi => simp at h; subst h; cases hi
    | optimize _ s o ev i r h hi ho => simp at h; subst h; simp at ho

/-- Whatever the outcome of L-BFGS, the point it leaves is not worse than the starting point. -/
theorem run_point_le {n : Nat} {p : Params} {ev : Eval n} {prog : Vec n → Vec n → ℝ → Nat → Int} {x0 : Vec n} {fx0 : ℝ} {i : Nat} {r : Result n}
    (h : Run p ev prog x0 fx0 i r) : (ev r.x).1 ≤ (ev x0).1 := by
  cases h with
  | invalid _ => exact le_rfl
  | already _ _ => exact le_rfl
  | run hv hg hr =>
    obtain ⟨s, l, hh, hi, -⟩ := loop_last hr _ .start
    have hI := inv_hist hv hh
    obtain ⟨a1, a2⟩ := eval_split hI.eval
    rcases iter_inr ev hi with ⟨e, -, he⟩ | ⟨c, hc, hx, hf, hcase⟩
    · rw [he]
      show (ev s.x).1 ≤ (ev x0).1
      rw [← a1]
      have h0 := hI.head
      have h1 := hI.last
      rcases Nat.eq_or_lt_of_le hI.kpos with hk | hk
      · rw [← hk] at h1
        rw [show (1 : Nat) - 1 = 0 from rfl, h0] at h1
        injection h1 with h1
        exact h1.ge
      · obtain ⟨q0, e0⟩ := List.getElem?_eq_some_iff.mp h0
        obtain ⟨q1, e1⟩ := List.getElem?_eq_some_iff.mp h1
        have := List.pairwise_iff_getElem.mp hI.sorted 0 (s.k - 1) q0 q1 (by omega)
        rw [e0, e1] at this
        exact this
    · have h1 := (C30_monotone p hv ev prog x0).2.2 fx0 i r (.run hv hg hr) (by
        intro e he
        rcases hcase with ⟨h1, -⟩ | ⟨h1, -⟩ | ⟨h1, -⟩ | ⟨h1, -⟩ | ⟨h1, -⟩ <;> rw [h1] at he <;> cases he)
      rw [a1, a2] at hc hx hf
      obtain ⟨b1, -⟩ := lineSearch_ok hv ev s.x s.d s.step hc
      rw [hx, ← b1.2, ← hf]
      exact h1

/-- C206. In every history without copies, whatever the parameters and however L-BFGS ends (also with a failed line search or rejected
parameters, which a program cannot find out), after `optimize` the penalised objective of the description's point is not larger than at its
starting point; for a feasible starting point and a weight that is not negative the user's objective is not larger either; and for a
description without variables, or with parameters out of range, the point is the starting point and the old value stays. -/
theorem C206_no_worse (P : Nat → Prob) (vec : (k : Nat) → Vec (P k).n) (val : Nat → ℝ) (l : List Call) (W W' : World P)
    (h : Exec P (World.empty vec val) l W) (hn : NoCopy l) (a k : Nat) (w : ℝ) (p : Params) (hs : statusOf a l = some (some (k, w, p)))
    (ho : Step P W (.optimize a) W') :
    penalised (P k).nlp w (W'.vec k) ≤ penalised (P k).nlp w (P k).x0 ∧
    (0 ≤ w → Feasible (P k).nlp (P k).x0 → (P k).nlp.obj (W'.vec k) ≤ (P k).nlp.obj (P k).x0) ∧
    (¬ Valid (P k).n p → W'.vec k = (P k).x0 ∧ W'.val k = W.val k) := by
  obtain ⟨i, r, hr, e1, e2, -, -⟩ := ((C205_wrapper_partial P vec val l W h hn a).2 k w p hs W').mp ho
  have hle := run_point_le hr
  rw [(C33_gradient _).1, (C33_gradient _).1] at hle
  rw [e1]
  refine ⟨hle, fun hw hf => ?_, fun hv => ?_⟩
  · rw [(C33_penalty _ w _).1 hf] at hle
    exact ((C33_penalty _ w _).2.1 hw).trans hle
  · obtain ⟨e, he⟩ := (C32_validation_partial p (P k).x0 (W.val k)).1 hv
    obtain ⟨-, rfl⟩ := (he _ _ _ _).mp hr
    exact ⟨rfl, e2⟩

/-- Non-vacuity of C205 and C206: two solvers without copies, the second initialised with description 0; it is optimised. -/
theorem C205_example : ∃ (W W' : World sample) (l : List Call), NoCopy l ∧ Exec sample (World.empty (fun k => (sample k).x0) (fun _ => 5)) l W ∧
    statusOf 1 l = some (some (0, 2, defparam)) ∧ statusOf 0 l = some (some (1, 1, defparam)) ∧ Step sample W (.optimize 1) W' ∧ W'.val 0 = 0 ∧ W'.val 1 = 5 := by
  let W0 : World sample := World.empty (fun k => (sample k).x0) (fun _ => 5)
  have e1 : Exec sample W0 [.create 0] _ := .snoc (l := []) (.nil _) (.create _ 0 0 defparam)
  have e2 : Exec sample W0 [.create 0, .init 0 1 1] _ := .snoc (l := [_]) e1 (.init _ 0 1 1 ⟨0, 1, false, defparam, 0⟩ (by simp))
  have e3 : Exec sample W0 [.create 0, .init 0 1 1, .create 1] _ := .snoc (l := [_, _]) e2 (.create _ 1 0 defparam)
  have e4 : Exec sample W0 [.create 0, .init 0 1 1, .create 1, .init 1 0 2] _ :=
    .snoc (l := [_, _, _]) e3 (.init _ 1 0 2 ⟨0, 1, false, defparam, 1⟩ (by simp))
  refine ⟨_, _, _, ?_, e4, ?_, ?_, .optimize _ 1 ⟨0, 2, true, defparam, 1⟩ ⟨0, 2, true, defparam, 1⟩
    (evaluate (penalised (sampleNlp 0) 2)) 0 ⟨.alreadyMinimized, fun _ => 0, 0⟩ (by simp) rfl (by simp) ?_ ?_, ?_, ?_⟩
  · intro d s; simp
  · simp [statusOf, Status.next]
  · simp [statusOf, Status.next]
  · exact callback_self sample ⟨0, 2, true, defparam, 1⟩ rfl
  · exact run_sample _ 2
  · simp
  · simp [W0, World.empty]

end Lbfgs
end Verif
