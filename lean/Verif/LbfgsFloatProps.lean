import Verif.LbfgsFloat
import Verif.FloatTime
import Mathlib.Data.EReal.Operations
import Mathlib.Tactic.Linarith
import Mathlib.Tactic.NormNum

/-!
Properties C266-C269: what holds of the L-BFGS solver in machine arithmetic, not only in real arithmetic.

C266 and C267 hold in every arithmetic whatsoever (nothing at all is assumed of `+`, `*`, `<`, ...), so in particular for IEEE doubles with any rounding mode,
infinities and NaN. C268 and C269 assume the laws `Ieee` below, which hold of IEEE arithmetic; `ieee_round` shows them for every arithmetic that rounds the exact
extended-real result monotonically, and `double_round` that rounding to the nearest double with overflow to infinity is one.
-/
namespace Verif
namespace LbfgsF
open Lbfgs (LsErr ParErr Ret)

variable {F : Type} [Arith F]

/-! ### specification -/

/-- `x` is a number, i.e. not a NaN: the only values that compare unequal to themselves are NaNs. -/
def Num (x : F) : Prop := (x <=. x) = true

/-- The laws of floating-point arithmetic that C268 and C269 use. -/
structure Ieee (F : Type) [Arith F] : Prop where
  le_num : ∀ a b : F, (a <=. b) = true → Num a ∧ Num b
  lt_num : ∀ a b : F, (a <. b) = true → Num a ∧ Num b
  le_trans : ∀ a b d : F, (a <=. b) = true → (b <=. d) = true → (a <=. d) = true
  lt_or_le : ∀ a b : F, Num a → Num b → (a <. b) = true ∨ (b <=. a) = true
  lt_le : ∀ a b : F, (a <. b) = true → (a <=. b) = true
  le_not_lt : ∀ a b : F, (a <=. b) = true → (b <. a) = false
  add_num : ∀ a b : F, Num (a +. b) → Num a ∧ Num b
  sub_num : ∀ a b : F, Num (a -. b) → Num a ∧ Num b
  mul_num : ∀ a b : F, Num (a *. b) → Num a ∧ Num b
  div_num : ∀ a b : F, Num (a /. b) → Num a ∧ Num b
  neg_num : ∀ a : F, Num (Arith.neg a) → Num a
  sqrt_num : ∀ a : F, Num (Arith.sqrt a) → Num a
  mul_pos_neg : ∀ a b : F, (c 0 <=. a) = true → (b <=. c 0) = true → Num (a *. b) → (a *. b <=. c 0) = true
  mul_pos_pos : ∀ a b : F, (c 0 <=. a) = true → (c 0 <=. b) = true → Num (a *. b) → (c 0 <=. a *. b) = true
  add_neg : ∀ a b : F, (b <=. c 0) = true → Num (a +. b) → (a +. b <=. a) = true
  lit_mono : ∀ q q' : ℚ, q ≤ q' → ((c q : F) <=. c q') = true
  one_pos : ((c 1 : F) <=. c 0) = false

/-- The line search returned a point of its ray, with the value and the gradient there; its return value is the number of evaluations. -/
structure Sound {n : Nat} (ev : Eval F n) (xp d : Vec F n) (o : LsOut F n) : Prop where
  ray : o.x = fun i => xp i +. o.stp *. d i
  value : (o.f, o.g) = ev o.x
  count : ∀ k, o.ret = .ok k → k = o.evals ∧ 0 < k

/-! ### C266: work and termination in every arithmetic -/

theorem btLoop_sound {n : Nat} (p : Params F) (ev : Eval F n) (xp d : Vec F n) (finit dginit : F) (count : Nat) (stp : F) :
    Sound ev xp d (btLoop p ev xp d finit dginit count stp) ∧
    ((btLoop p ev xp d finit dginit count stp).evals : Int) ≤ max p.maxLinesearch (count + 1) := by
  fun_induction btLoop p ev xp d finit dginit count stp with
  | case1 count stp x f g k h => exact ⟨⟨rfl, rfl, fun j hj => by cases hj; exact ⟨rfl, Nat.succ_pos _⟩⟩, by push_cast; exact le_max_right _ _⟩
  | case2 count stp x f g k w h h1 => exact ⟨⟨rfl, rfl, fun j hj => by cases hj⟩, by push_cast; exact le_max_right _ _⟩
  | case3 count stp x f g k w h h1 h2 => exact ⟨⟨rfl, rfl, fun j hj => by cases hj⟩, by push_cast; exact le_max_right _ _⟩
  | case4 count stp x f g k w h h1 h2 h3 => exact ⟨⟨rfl, rfl, fun j hj => by cases hj⟩, by push_cast; exact le_max_right _ _⟩
  | case5 count stp x f g k w h h1 h2 h3 ih => exact ⟨ih.1, ih.2.trans (by omega)⟩

theorem mtLoop_sound {n : Nat} (p : Params F) (ev : Eval F n) (xp d : Vec F n) (finit dginit : F) (count : Nat) (s : MtState F) :
    Sound ev xp d (mtLoop p ev xp d finit dginit count s) ∧
    ((mtLoop p ev xp d finit dginit count s).evals : Int) ≤ max p.maxLinesearch (count + 1) := by
  fun_induction mtLoop p ev xp d finit dginit count s with
  | case7 => rename_i ih; exact ⟨ih.1, ih.2.trans (by omega)⟩
  | case6 => exact ⟨⟨rfl, rfl, fun j hj => by cases hj; exact ⟨rfl, Nat.succ_pos _⟩⟩, by push_cast; exact le_max_right _ _⟩
  | _ => exact ⟨⟨rfl, rfl, fun j hj => by cases hj⟩, by push_cast; exact le_max_right _ _⟩

theorem btLoop_evals {n : Nat} (p : Params F) (ev : Eval F n) (xp d : Vec F n) (finit dginit : F) (count : Nat) (stp : F) :
    0 < (btLoop p ev xp d finit dginit count stp).evals := by
  fun_induction btLoop p ev xp d finit dginit count stp with
  | case5 => assumption
  | _ => exact Nat.succ_pos _

theorem mtLoop_evals {n : Nat} (p : Params F) (ev : Eval F n) (xp d : Vec F n) (finit dginit : F) (count : Nat) (s : MtState F) :
    0 < (mtLoop p ev xp d finit dginit count s).evals := by
  fun_induction mtLoop p ev xp d finit dginit count s with
  | case7 => assumption
  | _ => exact Nat.succ_pos _

theorem skip {P : Prop} [Decidable P] {e : ParErr} {x : Option ParErr} (h : (if P then some e else x) = none) : ¬ P ∧ x = none := by
  by_cases hp : P
  · rw [if_pos hp] at h; cases h
  · rw [if_neg hp] at h; exact ⟨hp, h⟩

/-- What parameter validation guarantees; comparisons with NaN are false, so NaN parameters pass. -/
theorem validate_none {n : Int} {p : Params F} (h : validate n p = none) :
    0 < n ∧ (p.minStep <. c 0) = false ∧ (p.maxStep <. p.minStep) = false ∧ (p.ftol <. c 0) = false ∧ 0 < p.maxLinesearch ∧
    (p.linesearch = 0 ∨ p.linesearch = 1 ∨ p.linesearch = 2 ∨ p.linesearch = 3) ∧ 0 ≤ p.past := by
  unfold validate at h
  obtain ⟨h1, h⟩ := skip h
  obtain ⟨h2, h⟩ := skip h
  obtain ⟨h3, h⟩ := skip h
  obtain ⟨h4, h⟩ := skip h
  obtain ⟨h5, h⟩ := skip h
  obtain ⟨h6, h⟩ := skip h
  obtain ⟨h7, h⟩ := skip h
  obtain ⟨h8, h⟩ := skip h
  obtain ⟨h9, h⟩ := skip h
  obtain ⟨h10, h⟩ := skip h
  obtain ⟨h11, h⟩ := skip h
  obtain ⟨h12, h⟩ := skip h
  exact ⟨by omega, by simpa using h5, by simpa using h6, by simpa using h7, by omega, by tauto, by omega⟩

theorem maxLinesearch_pos {n : Int} {p : Params F} (h : validate n p = none) : 0 < p.maxLinesearch := (validate_none h).2.2.2.2.1

/-- C266, one line search, in every arithmetic: at most `max_linesearch` evaluations; if the objective was evaluated at all, the result is a point of the search ray
with its own value and gradient and a success reports the number of evaluations; otherwise the start is left as it was and an error is reported. -/
theorem C266_line_search {n : Nat} (p : Params F) (hv : validate n p = none) (ev : Eval F n) (xp : Vec F n) (f : F) (gp d : Vec F n) (stp : F) :
    let o := lineSearch p ev xp f gp d stp
    (o.evals : Int) ≤ p.maxLinesearch ∧ (0 < o.evals → Sound ev xp d o) ∧
    (o.evals = 0 → o.x = xp ∧ o.f = f ∧ o.g = gp ∧ ∃ e, o.ret = .error e) := by
  have hm := maxLinesearch_pos hv
  intro o
  have hb : ∀ q : LsOut F n, q = o → Sound ev xp d q ∧ (q.evals : Int) ≤ max p.maxLinesearch ((0 : Nat) + 1) → 0 < q.evals →
      (o.evals : Int) ≤ p.maxLinesearch ∧ (0 < o.evals → Sound ev xp d o) ∧ (o.evals = 0 → o.x = xp ∧ o.f = f ∧ o.g = gp ∧ ∃ e, o.ret = .error e) := by
    rintro q rfl ⟨h1, h2⟩ h3
    exact ⟨by rw [max_eq_left (by push_cast; omega)] at h2; exact h2, fun _ => h1, fun h => by omega⟩
  by_cases hls : p.linesearch = 0
  · have ho : o = moreThuente p ev xp f gp d stp := by simp only [o, lineSearch, if_pos hls]
    unfold moreThuente at ho
    split at ho
    · rw [ho]; exact ⟨by push_cast; omega, fun h => absurd h (lt_irrefl 0), fun _ => ⟨rfl, rfl, rfl, _, rfl⟩⟩
    split at ho
    · rw [ho]; exact ⟨by push_cast; omega, fun h => absurd h (lt_irrefl 0), fun _ => ⟨rfl, rfl, rfl, _, rfl⟩⟩
    exact hb _ ho.symm (mtLoop_sound ..) (mtLoop_evals ..)
  · have ho : o = backtracking p ev xp f gp d stp := by simp only [o, lineSearch, if_neg hls]
    unfold backtracking at ho
    split at ho
    · rw [ho]; exact ⟨by push_cast; omega, fun h => absurd h (lt_irrefl 0), fun _ => ⟨rfl, rfl, rfl, _, rfl⟩⟩
    split at ho
    · rw [ho]; exact ⟨by push_cast; omega, fun h => absurd h (lt_irrefl 0), fun _ => ⟨rfl, rfl, rfl, _, rfl⟩⟩
    exact hb _ ho.symm (btLoop_sound ..) (btLoop_evals ..)

/-- What one iteration of the main loop does, in terms of its line search. -/
theorem iter_cases {n : Nat} (p : Params F) (ev : Eval F n) (prog : Prog F n) (s : LState F n) :
    let o := lineSearch p ev s.x s.fx s.g s.d s.step
    (∃ s', iter p ev prog s = .inl s' ∧ (∃ k, o.ret = .ok k) ∧ s'.x = o.x ∧ s'.fx = o.f ∧ s'.g = o.g ∧ s'.step = c 1 ∧ s'.k = s.k + 1 ∧
      s'.evals = s.evals + o.evals ∧ converged p o.x o.g = false ∧ ¬ (p.maxIterations ≠ 0 ∧ p.maxIterations < s.k + 1)) ∨
    (∃ r, iter p ev prog s = .inr r ∧ r.evals = s.evals + o.evals ∧ r.fx = o.f ∧
      ((∃ e, o.ret = .error e ∧ r.ret = .linesearch e ∧ r.x = s.x) ∨
       (∃ k, o.ret = .ok k) ∧ r.x = o.x ∧
        ((∃ z, z ≠ 0 ∧ r.ret = .aborted z) ∨ (r.ret = .success ∧ converged p o.x o.g = true) ∨
         (r.ret = .stop ∧ 0 < p.past ∧ p.past ≤ s.k ∧ ((s.pf (s.k % p.past.toNat) -. o.f) /. o.f <. p.delta) = true) ∨
         (r.ret = .maximumIteration ∧ p.maxIterations ≠ 0 ∧ p.maxIterations < s.k + 1) ∨ (r.ret = .undefined ∧ p.m ≤ 0)))) := by
  intro o
  unfold iter
  cases hr : (lineSearch p ev s.x s.fx s.g s.d s.step).ret with
  | error e => exact Or.inr ⟨⟨.linesearch e, s.x, o.f, s.evals + o.evals⟩, by simp only [hr]; rfl, rfl, rfl, Or.inl ⟨e, rfl, rfl, rfl⟩⟩
  | ok k =>
    simp only [hr]
    split
    · rename_i h; exact Or.inr ⟨_, rfl, rfl, rfl, Or.inr ⟨⟨k, rfl⟩, rfl, Or.inl ⟨_, h, rfl⟩⟩⟩
    split
    · rename_i h; exact Or.inr ⟨_, rfl, rfl, rfl, Or.inr ⟨⟨k, rfl⟩, rfl, Or.inr (Or.inl ⟨rfl, h⟩)⟩⟩
    rename_i hc
    split
    · rename_i h; exact Or.inr ⟨_, rfl, rfl, rfl, Or.inr ⟨⟨k, rfl⟩, rfl, Or.inr (Or.inr (Or.inl ⟨rfl, h⟩))⟩⟩
    split
    · rename_i h; exact Or.inr ⟨_, rfl, rfl, rfl, Or.inr ⟨⟨k, rfl⟩, rfl, Or.inr (Or.inr (Or.inr (Or.inl ⟨rfl, h⟩)))⟩⟩
    rename_i hm
    split
    · rename_i h; exact Or.inr ⟨_, rfl, rfl, rfl, Or.inr ⟨⟨k, rfl⟩, rfl, Or.inr (Or.inr (Or.inr (Or.inr ⟨rfl, h⟩)))⟩⟩
    exact Or.inl ⟨_, rfl, ⟨k, rfl⟩, rfl, rfl, rfl, rfl, rfl, rfl, by simpa using hc, hm⟩

theorem loop_unique {n : Nat} {p : Params F} {ev : Eval F n} {prog : Prog F n} {s : LState F n} {i j : Nat} {r r' : Result F n}
    (h : Loop p ev prog s i r) (h' : Loop p ev prog s j r') : i = j ∧ r = r' := by
  induction h generalizing j r' with
  | done h => cases h' with
    | done h' => rw [h] at h'; exact ⟨rfl, by injection h'⟩
    | next h' _ => rw [h] at h'; cases h'
  | next h _ ih => cases h' with
    | done h' => rw [h] at h'; cases h'
    | next h' hr' =>
      rw [h] at h'; injection h' with h'; subst h'
      obtain ⟨a, b⟩ := ih hr'; exact ⟨by rw [a], b⟩

theorem loop_ends {n : Nat} (p : Params F) (hv : validate n p = none) (ev : Eval F n) (prog : Prog F n) (hmax : 0 < p.maxIterations) (m : Nat) :
    ∀ s : LState F n, (s.k : Int) + m = p.maxIterations → ∃ i r, Loop p ev prog s i r ∧ i ≤ m + 1 ∧
      (r.evals : Int) ≤ s.evals + i * p.maxLinesearch := by
  induction m with
  | zero =>
    intro s hs
    have hls := (C266_line_search p hv ev s.x s.fx s.g s.d s.step).1
    rcases iter_cases p ev prog s with ⟨s', h, _, _, _, _, _, _, _, _, hm⟩ | ⟨r, h, he, _⟩
    · exact absurd ⟨by omega, by push_cast at hs; omega⟩ hm
    · exact ⟨1, r, .done h, le_refl _, by rw [he]; push_cast; omega⟩
  | succ m ih =>
    intro s hs
    have hls := (C266_line_search p hv ev s.x s.fx s.g s.d s.step).1
    rcases iter_cases p ev prog s with ⟨s', h, _, _, _, _, _, hk, he, _⟩ | ⟨r, h, he, _⟩
    · obtain ⟨i, r, hl, hi, hev⟩ := ih s' (by rw [hk]; push_cast at hs ⊢; omega)
      refine ⟨i + 1, r, .next h hl, by omega, ?_⟩
      rw [he] at hev
      push_cast at hev ⊢
      rw [add_mul]
      omega
    · exact ⟨1, r, .done h, by omega, by rw [he]; push_cast; omega⟩

/-- C266, the whole minimisation, in every arithmetic and for every objective and progress callback: with a positive iteration limit the call returns, in exactly one
way, after at most `max_iterations` iterations and `1 + max_iterations * max_linesearch` evaluations of the objective. -/
theorem C266_terminates {n : Nat} (p : Params F) (ev : Eval F n) (prog : Prog F n) (x0 : Vec F n) (fx0 : F) (hmax : 0 < p.maxIterations) :
    ∃ i r, Run p ev prog x0 fx0 i r ∧ (i : Int) ≤ p.maxIterations ∧ (validate n p = none → (r.evals : Int) ≤ 1 + p.maxIterations * p.maxLinesearch) ∧
      (validate n p ≠ none → r.evals = 0 ∧ r.x = x0 ∧ r.fx = fx0) ∧ ∀ j r', Run p ev prog x0 fx0 j r' → j = i ∧ r' = r := by
  cases hv : validate n p with
  | some e =>
    refine ⟨0, _, .invalid hv, by push_cast; omega, fun h => by simp at h, fun _ => ⟨rfl, rfl, rfl⟩, ?_⟩
    intro j r' h
    cases h with
    | invalid h => rw [hv] at h; injection h with h; subst h; exact ⟨rfl, rfl⟩
    | already h => rw [hv] at h; cases h
    | run h => rw [hv] at h; cases h
  | none =>
    have hml := maxLinesearch_pos hv
    have hpos : 0 ≤ p.maxIterations * p.maxLinesearch := by positivity
    cases hc : converged p x0 (ev x0).2 with
    | true =>
      refine ⟨0, _, .already hv hc, by push_cast; omega, fun _ => by push_cast; omega, fun h => absurd rfl h, ?_⟩
      intro j r' h
      cases h with
      | invalid h => rw [hv] at h; cases h
      | already h => exact ⟨rfl, rfl⟩
      | run _ hg => rw [hc] at hg; cases hg
    | false =>
      obtain ⟨i, r, hl, hi, he⟩ := loop_ends p hv ev prog hmax (p.maxIterations.toNat - 1) (start p ev x0) (by simp only [start]; push_cast; omega)
      refine ⟨i, r, .run hv hc hl, by omega, fun _ => ?_, fun h => absurd rfl h, ?_⟩
      · have h1 : (i : Int) * p.maxLinesearch ≤ p.maxIterations * p.maxLinesearch := mul_le_mul_of_nonneg_right (by omega) hml.le
        simp only [start] at he
        push_cast at he
        omega
      · intro j r' h
        cases h with
        | invalid h => rw [hv] at h; cases h
        | already _ hg => rw [hc] at hg; cases hg
        | run _ _ hl' => obtain ⟨a, b⟩ := loop_unique hl hl'; exact ⟨a.symm, b.symm⟩

/-! ### C267: meaning of the result in every arithmetic -/

theorem ls_sound {n : Nat} (p : Params F) (hv : validate n p = none) (ev : Eval F n) (xp : Vec F n) (f : F) (gp d : Vec F n) (stp : F) {k : Nat}
    (h : (lineSearch p ev xp f gp d stp).ret = .ok k) : Sound ev xp d (lineSearch p ev xp f gp d stp) := by
  obtain ⟨_, h2, h3⟩ := C266_line_search p hv ev xp f gp d stp
  rcases Nat.eq_zero_or_pos (lineSearch p ev xp f gp d stp).evals with h0 | h0
  · obtain ⟨_, _, _, e, he⟩ := h3 h0; rw [h] at he; cases he
  · exact h2 h0

theorem head_valid {n : Nat} {p : Params F} {ev : Eval F n} {prog : Prog F n} {x0 : Vec F n} {i : Nat} {s : LState F n} (h : Head p ev prog x0 i s) :
    validate n p = none := by
  induction h with
  | start h _ => exact h
  | step _ _ ih => exact ih

/-- At the head of the main loop the point, its value and its gradient belong together, and the gradient test has failed. -/
theorem head_inv {n : Nat} {p : Params F} {ev : Eval F n} {prog : Prog F n} {x0 : Vec F n} {i : Nat} {s : LState F n} (h : Head p ev prog x0 i s) :
    s.k = i + 1 ∧ (s.fx, s.g) = ev s.x ∧ converged p s.x s.g = false ∧ (i = 0 → s = start p ev x0) := by
  induction h with
  | start h hg => exact ⟨rfl, rfl, hg, fun _ => rfl⟩
  | step h hs ih =>
    rename_i i s s'
    rcases iter_cases p ev prog s with ⟨s'', h', ⟨k, hk⟩, hx, hf, hg, _, hk', _, hc, _⟩ | ⟨r, h', _⟩
    · rw [hs] at h'; injection h' with h'; subst h'
      have := (ls_sound p (head_valid h) ev _ _ _ _ _ hk).value
      exact ⟨by rw [hk', ih.1], by rw [hf, hg, hx]; exact this, by rw [hx, hg]; exact hc, fun h => by omega⟩
    · rw [hs] at h'; cases h'

/-- A finished loop, seen from the start: the last iteration begins in some head state and produces the result. -/
theorem loop_last {n : Nat} {p : Params F} {ev : Eval F n} {prog : Prog F n} {x0 : Vec F n} {s : LState F n} {i j : Nat} {r : Result F n}
    (hh : Head p ev prog x0 j s) (h : Loop p ev prog s i r) : ∃ s', Head p ev prog x0 (j + i - 1) s' ∧ iter p ev prog s' = .inr r ∧ 0 < i := by
  induction h generalizing j with
  | done h => exact ⟨_, hh, h, by omega⟩
  | next h _ ih => obtain ⟨s', a, b, d⟩ := ih (.step hh h); exact ⟨s', by convert a using 1; omega, b, by omega⟩

/-- C267, in every arithmetic: "success" and "already minimized" are only reported if the gradient test, computed in machine arithmetic, holds at the returned point;
unless the parameters were rejected or the line search failed, the reported value is the value of the objective at the returned point; after a failed line search the
returned point is the last accepted one (the start, or a point whose value was accepted before), and its gradient test had failed; "maximum iteration" and
"stop" mean what they say; no other code is returned. -/
theorem C267_result {n : Nat} (p : Params F) (ev : Eval F n) (prog : Prog F n) (x0 : Vec F n) (fx0 : F) (i : Nat) (r : Result F n)
    (h : Run p ev prog x0 fx0 i r) :
    (r.ret = .success ∨ r.ret = .alreadyMinimized → (norm2 (ev r.x).2 /. (if norm2 r.x <. c 1 then c 1 else norm2 r.x) <=. p.epsilon) = true) ∧
    ((∀ e, r.ret ≠ .invalid e) → (∀ e, r.ret ≠ .linesearch e) → r.fx = (ev r.x).1) ∧
    (∀ e, r.ret = .linesearch e → ∃ s, Head p ev prog x0 (i - 1) s ∧ r.x = s.x ∧ s.fx = (ev r.x).1 ∧ (i = 1 → r.x = x0) ∧
      converged p r.x (ev r.x).2 = false) ∧
    (r.ret = .maximumIteration → p.maxIterations ≠ 0 ∧ p.maxIterations ≤ i) ∧
    (r.ret = .stop → 0 < p.past ∧ p.past ≤ i) ∧
    (∀ e, r.ret = .invalid e → r.x = x0 ∧ r.fx = fx0 ∧ r.evals = 0) := by
  cases h with
  | invalid h => exact ⟨by simp, fun h => absurd rfl (h _), by simp, by simp, by simp, fun _ _ => ⟨rfl, rfl, rfl⟩⟩
  | already h hg => exact ⟨fun _ => hg, fun _ _ => rfl, by simp, by simp, by simp, by simp⟩
  | run h hg hl =>
    obtain ⟨s, hs, hi, hpos⟩ := loop_last (.start h hg) hl
    rw [Nat.zero_add] at hs
    obtain ⟨hk, hval, hcs, h0⟩ := head_inv hs
    rcases iter_cases p ev prog s with ⟨s', h', _⟩ | ⟨r', h', _, hf, hr⟩
    · rw [hi] at h'; cases h'
    · rw [hi] at h'; injection h' with h'; subst h'
      rcases hr with ⟨e, he, hre, hx⟩ | ⟨⟨k, hok⟩, hx, hr⟩
      · refine ⟨by simp [hre], fun _ h => absurd hre (h e), fun _ _ => ⟨s, hs, hx, by rw [hx, ← hval], fun h1 => ?_, by rw [hx, ← hval]; exact hcs⟩,
          by simp [hre], by simp [hre], by simp [hre]⟩
        rw [hx, h0 (by omega)]; rfl
      · have hsd := (ls_sound p h ev _ _ _ _ _ hok).value
        have hv : r.fx = (ev r.x).1 := by rw [hf, hx, ← hsd]
        have hg' : (ev r.x).2 = (lineSearch p ev s.x s.fx s.g s.d s.step).g := by rw [hx, ← hsd]
        rcases hr with ⟨z, _, hz⟩ | ⟨hz, hc⟩ | ⟨hz, h1, h2, _⟩ | ⟨hz, h1, h2⟩ | ⟨hz, _⟩
        · exact ⟨by simp [hz], fun _ _ => hv, by simp [hz], by simp [hz], by simp [hz], by simp [hz]⟩
        · exact ⟨fun _ => by rw [hg', hx]; exact hc, fun _ _ => hv, by simp [hz], by simp [hz], by simp [hz], by simp [hz]⟩
        · exact ⟨by simp [hz], fun _ _ => hv, by simp [hz], by simp [hz], fun _ => ⟨h1, by omega⟩, by simp [hz]⟩
        · exact ⟨by simp [hz], fun _ _ => hv, by simp [hz], fun _ => ⟨h1, by omega⟩, by simp [hz], by simp [hz]⟩
        · exact ⟨by simp [hz], fun _ _ => hv, by simp [hz], by simp [hz], by simp [hz], by simp [hz]⟩

/-! ### C268: the objective never increases in floating-point arithmetic -/

theorem Ieee.nonneg (I : Ieee F) {a : F} (ha : Num a) (h : (a <. c 0) = false) : (c 0 <=. a) = true := by
  rcases I.lt_or_le a (c 0) ha (I.lit_mono 0 0 le_rfl) with h' | h'
  · rw [h] at h'; cases h'
  · exact h'

theorem Ieee.nonpos (I : Ieee F) {a : F} (ha : Num a) (h : (c 0 <. a) = false) : (a <=. c 0) = true := by
  rcases I.lt_or_le (c 0) a (I.lit_mono 0 0 le_rfl) ha with h' | h'
  · rw [h] at h'; cases h'
  · exact h'

/-- A threshold of sufficient decrease that is a number is at most the initial value. -/
theorem Ieee.threshold (I : Ieee F) {finit stp ftol dginit : F} (h1 : Num (finit +. stp *. (ftol *. dginit))) (hs : Num stp → (c 0 <=. stp) = true)
    (hf : (ftol <. c 0) = false) (hd : (c 0 <. dginit) = false) : (finit +. stp *. (ftol *. dginit) <=. finit) = true := by
  have hp := (I.add_num _ _ h1).2
  obtain ⟨h2, h3⟩ := I.mul_num _ _ hp
  obtain ⟨h4, h5⟩ := I.mul_num _ _ h3
  exact I.add_neg _ _ (I.mul_pos_neg _ _ (hs h2) (I.mul_pos_neg _ _ (I.nonneg h4 hf) (I.nonpos h5 hd) h3) hp) h1

theorem pick {P : Prop} [Decidable P] {α : Type} {q : α → Prop} {a b : α} (ha : q a) (hb : q b) : q (if P then a else b) := by
  split
  · exact ha
  · exact hb

theorem mtStep_pos (I : Ieee F) {p : Params F} (h1 : Num p.minStep) (h2 : Num p.maxStep) (h3 : (p.minStep <. c 0) = false)
    (h4 : (p.maxStep <. p.minStep) = false) (s : MtState F) (count : Nat) (hx : Num s.I.x → (c 0 <=. s.I.x) = true) :
    Num (mtStep p s count).2.2 → (c 0 <=. (mtStep p s count).2.2) = true := by
  have hmin := I.nonneg h1 h3
  have hmax : (c 0 <=. p.maxStep) = true := by
    rcases I.lt_or_le _ _ h2 h1 with h | h
    · rw [h4] at h; cases h
    · exact I.le_trans _ _ _ hmin h
  have hs1 : Num (if s.stp <. p.minStep then p.minStep else s.stp) → (c 0 <=. (if s.stp <. p.minStep then p.minStep else s.stp)) = true := by
    split
    · exact fun _ => hmin
    · rename_i h
      intro hn
      rcases I.lt_or_le _ _ hn h1 with h' | h'
      · exact absurd h' h
      · exact I.le_trans _ _ _ hmin h'
  unfold mtStep
  dsimp only
  generalize (if s.stp <. p.minStep then p.minStep else s.stp) = s1 at *
  refine pick (q := fun z => Num z → (c 0 <=. z) = true) hx ?_
  exact pick (q := fun z => Num z → (c 0 <=. z) = true) (fun _ => hmax) hs1

theorem updateTrial_x {I J : Interval F} {t ft dt tmin tmax t' : F} (h : updateTrial I t ft dt tmin tmax = some (J, t')) : J.x = I.x ∨ J.x = t := by
  unfold updateTrial at h
  split at h
  · cases h
  · dsimp only at h
    injection h with h
    injection h with h _
    rw [← h]
    split
    · exact Or.inl rfl
    split
    · exact Or.inr rfl
    · exact Or.inr rfl

theorem mtNext_x (p : Params F) (s : MtState F) (dginit dgtest ftest1 stmin stmax stp f dg : F) :
    (mtNext p s dginit dgtest ftest1 stmin stmax stp f dg).I.x = s.I.x ∨ (mtNext p s dginit dgtest ftest1 stmin stmax stp f dg).I.x = stp := by
  unfold mtNext
  dsimp only
  generalize (if s.stage1 = true ∧ f <=. ftest1 ∧ fmin p.ftol p.gtol *. dginit <=. dg then false else s.stage1) = st
  by_cases hc : st = true ∧ ftest1 <. f ∧ f <=. s.I.fx
  · simp only [if_pos hc]
    split
    · dsimp only
      split <;> exact Or.inl rfl
    · rename_i h
      dsimp only
      have := updateTrial_x h
      split <;> exact this
  · simp only [if_neg hc]
    split
    · dsimp only
      split <;> exact Or.inl rfl
    · rename_i h
      dsimp only
      split <;> exact updateTrial_x h

theorem mtLoop_decrease (I : Ieee F) {n : Nat} {p : Params F} (h1 : Num p.minStep) (h2 : Num p.maxStep) (h3 : (p.minStep <. c 0) = false)
    (h4 : (p.maxStep <. p.minStep) = false) (hf : (p.ftol <. c 0) = false) (ev : Eval F n) (xp d : Vec F n) (finit dginit : F)
    (hd : (c 0 <. dginit) = false) (count : Nat) (s : MtState F) (hx : Num s.I.x → (c 0 <=. s.I.x) = true) :
    ∀ k, (mtLoop p ev xp d finit dginit count s).ret = .ok k → ((mtLoop p ev xp d finit dginit count s).f <=. finit) = true := by
  fun_induction mtLoop p ev xp d finit dginit count s with
  | case6 count s dgtest st stmin stmax stp x f g dg ftest1 k _ _ _ _ _ h =>
    intro _ _
    exact I.le_trans _ _ _ h.1 (I.threshold (I.le_num _ _ h.1).2 (mtStep_pos I h1 h2 h3 h4 s count hx) hf hd)
  | case7 count s dgtest st stmin stmax stp x f g dg ftest1 k _ _ _ _ _ _ ih =>
    refine ih ?_
    rcases mtNext_x p s dginit dgtest ftest1 stmin stmax stp f dg with h | h
    · rw [h]; exact hx
    · rw [h]; exact mtStep_pos I h1 h2 h3 h4 s count hx
  | _ => intro k hk; cases hk

theorem mtLoop_num (I : Ieee F) {n : Nat} (p : Params F) (ev : Eval F n) (xp d : Vec F n) (finit dginit : F) (count : Nat) (s : MtState F) :
    ∀ k, (mtLoop p ev xp d finit dginit count s).ret = .ok k → Num finit := by
  fun_induction mtLoop p ev xp d finit dginit count s with
  | case6 count s dgtest st stmin stmax stp x f g dg ftest1 k _ _ _ _ _ h =>
    intro _ _
    exact (I.add_num _ _ (I.le_num _ _ h.1).2).1
  | case7 count s dgtest st stmin stmax stp x f g dg ftest1 k _ _ _ _ _ _ ih => exact ih
  | _ => intro k hk; cases hk

theorem btLoop_decrease (I : Ieee F) {n : Nat} {p : Params F} (hf : (p.ftol <. c 0) = false) (ev : Eval F n) (xp d : Vec F n) (finit dginit : F)
    (hd : (c 0 <. dginit) = false) (count : Nat) (stp : F) (hs : Num stp → (c 0 <=. stp) = true) :
    ∀ k, (btLoop p ev xp d finit dginit count stp).ret = .ok k → Num (btLoop p ev xp d finit dginit count stp).f →
      Num (finit +. (btLoop p ev xp d finit dginit count stp).stp *. (p.ftol *. dginit)) →
      ((btLoop p ev xp d finit dginit count stp).f <=. finit) = true := by
  fun_induction btLoop p ev xp d finit dginit count stp with
  | case1 count stp x f g k h =>
    intro _ _ hnf hnt
    refine I.le_trans _ _ _ ?_ (I.threshold hnt hs hf hd)
    rcases I.lt_or_le _ _ hnt hnf with h' | h'
    · unfold btDecide at h; rw [if_pos h'] at h; cases h
    · exact h'
  | case5 count stp x f g k w h _ _ _ ih =>
    refine ih fun hn => ?_
    have hw : (c 0 <=. w) = true := by
      have e1 : (0 : ℚ) ≤ 1 / 2 := by norm_num
      have e2 : (0 : ℚ) ≤ 21 / 10 := by norm_num
      unfold btDecide at h
      split at h
      · injection h with h; rw [← h]; exact I.lit_mono _ _ e1
      split at h
      · cases h
      split at h
      · injection h with h; rw [← h]; exact I.lit_mono _ _ e2
      split at h
      · cases h
      split at h
      · injection h with h; rw [← h]; exact I.lit_mono _ _ e1
      · cases h
    exact I.mul_pos_pos _ _ (hs (I.mul_num _ _ hn).1) hw hn
  | _ => intro k hk; cases hk

/-- A More-Thuente search that succeeds from `f` returns a value that compares `<=` to `f`. -/
theorem mt_decrease (I : Ieee F) {n : Nat} {p : Params F} (hv : validate n p = none) (hls : p.linesearch = 0) (h1 : Num p.minStep) (h2 : Num p.maxStep)
    (ev : Eval F n) (xp : Vec F n) (f : F) (gp d : Vec F n) (stp : F) {k : Nat} (h : (lineSearch p ev xp f gp d stp).ret = .ok k) :
    ((lineSearch p ev xp f gp d stp).f <=. f) = true := by
  obtain ⟨_, h3, h4, hf, _⟩ := validate_none hv
  have e : lineSearch p ev xp f gp d stp = moreThuente p ev xp f gp d stp := by unfold lineSearch; rw [if_pos hls]
  rw [e] at h ⊢
  unfold moreThuente at h ⊢
  by_cases hc1 : (stp <=. c 0) = true
  · rw [if_pos hc1] at h; cases h
  rw [if_neg hc1] at h ⊢
  by_cases hc2 : (c 0 <. dot gp d) = true
  · rw [if_pos hc2] at h; cases h
  rw [if_neg hc2] at h ⊢
  exact mtLoop_decrease I h1 h2 h3 h4 hf ev xp d f (dot gp d) (by simpa using hc2) 0 _ (fun _ => I.lit_mono 0 0 le_rfl) k h

/-- C268 for the default More-Thuente search, in every floating-point arithmetic with NaN, infinities and rounding: every accepted step leads to a number that compares
`<=` to the value before, and the returned point is the start or has a value that compares `<=` to the value at the start.
Missing for the full C268: the backtracking searches, which accept NaN and then any value (`C268_violated`); they satisfy it as long as the new value and
the threshold of sufficient decrease are numbers (`C268_backtracking_partial`). -/
theorem C268_monotone_partial (I : Ieee F) {n : Nat} (p : Params F) (hls : p.linesearch = 0) (h1 : Num p.minStep) (h2 : Num p.maxStep)
    (ev : Eval F n) (prog : Prog F n) (x0 : Vec F n) :
    (∀ i s s', Head p ev prog x0 i s → iter p ev prog s = .inl s' → ((ev s'.x).1 <=. (ev s.x).1) = true ∧ Num (ev s'.x).1) ∧
    (∀ fx0 i r, Run p ev prog x0 fx0 i r → r.x = x0 ∨ ((ev r.x).1 <=. (ev x0).1) = true) := by
  have step : ∀ i s, Head p ev prog x0 i s → ∀ k, (lineSearch p ev s.x s.fx s.g s.d s.step).ret = .ok k →
      ((ev (lineSearch p ev s.x s.fx s.g s.d s.step).x).1 <=. (ev s.x).1) = true := by
    intro i s hh k hk
    have hval := (head_inv hh).2.1
    have hs := (ls_sound p (head_valid hh) ev _ _ _ _ _ hk).value
    have := mt_decrease I (head_valid hh) hls h1 h2 ev s.x s.fx s.g s.d s.step hk
    rw [← hs, ← hval]; exact this
  have mono : ∀ i s s', Head p ev prog x0 i s → iter p ev prog s = .inl s' → ((ev s'.x).1 <=. (ev s.x).1) = true := by
    intro i s s' hh hi
    rcases iter_cases p ev prog s with ⟨s'', h', ⟨k, hk⟩, hx, _⟩ | ⟨r, h', _⟩
    · rw [hi] at h'; injection h' with h'; subst h'
      rw [hx]; exact step i s hh k hk
    · rw [hi] at h'; cases h'
  have all : ∀ i s, Head p ev prog x0 i s → s.x = x0 ∨ ((ev s.x).1 <=. (ev x0).1) = true := by
    intro i s hh
    induction hh with
    | start => exact Or.inl rfl
    | step hh hs ih =>
      have := mono _ _ _ hh hs
      rcases ih with h | h
      · rw [h] at this; exact Or.inr this
      · exact Or.inr (I.le_trans _ _ _ this h)
  refine ⟨fun i s s' hh hi => ⟨mono i s s' hh hi, (I.le_num _ _ (mono i s s' hh hi)).1⟩, fun fx0 i r h => ?_⟩
  cases h with
  | invalid h => exact Or.inl rfl
  | already h hg => exact Or.inl rfl
  | run h hg hl =>
    obtain ⟨s, hs, hi, _⟩ := loop_last (.start h hg) hl
    rcases iter_cases p ev prog s with ⟨s', h', _⟩ | ⟨r', h', _, hf, hr⟩
    · rw [hi] at h'; cases h'
    · rw [hi] at h'; injection h' with h'; subst h'
      rcases hr with ⟨e, _, _, hx⟩ | ⟨⟨k, hok⟩, hx, _⟩
      · rw [hx]; exact all _ _ hs
      · have := step _ _ hs k hok
        rw [← hx] at this
        rcases all _ _ hs with h | h
        · rw [h] at this; exact Or.inr this
        · exact Or.inr (I.le_trans _ _ _ this h)

/-- C268 for one successful backtracking search: if the value and the threshold of sufficient decrease it was compared to are numbers, the value compares `<=` to the
value before. -/
theorem C268_backtracking_partial (I : Ieee F) {n : Nat} (p : Params F) (hv : validate n p = none) (hls : p.linesearch ≠ 0) (ev : Eval F n)
    (xp : Vec F n) (f : F) (gp d : Vec F n) (stp : F) :
    let o := lineSearch p ev xp f gp d stp
    ∀ k, o.ret = .ok k → Num o.f → Num (f +. o.stp *. (p.ftol *. dot gp d)) → (o.f <=. f) = true := by
  obtain ⟨_, _, _, hf, _⟩ := validate_none hv
  intro o k h
  have e : o = backtracking p ev xp f gp d stp := by simp only [o, lineSearch, if_neg hls]
  rw [e] at h ⊢
  unfold backtracking at h ⊢
  by_cases hc1 : (stp <=. c 0) = true
  · rw [if_pos hc1] at h; cases h
  rw [if_neg hc1] at h ⊢
  by_cases hc2 : (c 0 <. dot gp d) = true
  · rw [if_pos hc2] at h; cases h
  rw [if_neg hc2] at h ⊢
  refine btLoop_decrease I hf ev xp d f (dot gp d) (by simpa using hc2) 0 stp (fun hn => ?_) k h
  rcases I.lt_or_le (c 0) stp (I.lit_mono 0 0 le_rfl) hn with h' | h'
  · exact I.lt_le _ _ h'
  · exact absurd h' hc1

/-! ### C269: objectives that are not a number -/

theorem dot_num (I : Ieee F) {n : Nat} (x y : Vec F n) (h : Num (dot x y)) (i : Fin n) : Num (x i) ∧ Num (y i) := by
  have key : ∀ (l : List (Fin n)) (s : F), Num (l.foldl (fun s i => s +. x i *. y i) s) → Num s ∧ ∀ i ∈ l, Num (x i *. y i) := by
    intro l
    induction l with
    | nil => exact fun s h => ⟨h, by simp⟩
    | cons j l ih =>
      intro s h
      obtain ⟨h1, h2⟩ := ih _ h
      obtain ⟨h3, h4⟩ := I.add_num _ _ h1
      refine ⟨h3, fun i hi => ?_⟩
      rcases List.mem_cons.mp hi with rfl | hi
      · exact h4
      · exact h2 i hi
  exact I.mul_num _ _ ((key _ _ h).2 i (List.mem_finRange i))

/-- C269 for the default More-Thuente search: if the objective is not a number at the start, the call returns, after at most one line search, with an error (or with
"already minimized", judging by the gradient), and leaves the start unchanged.
Missing for the full C269: the backtracking searches, which need not return at all (`C269_violated`). -/
theorem C269_nan_partial (I : Ieee F) {n : Nat} (p : Params F) (hv : validate n p = none) (hls : p.linesearch = 0) (ev : Eval F n) (prog : Prog F n)
    (x0 : Vec F n) (fx0 : F) (hn : ¬ Num (ev x0).1) :
    ∃ i r, Run p ev prog x0 fx0 i r ∧ i ≤ 1 ∧ (r.ret = .alreadyMinimized ∨ ∃ e, r.ret = .linesearch e) ∧ r.x = x0 ∧ (r.evals : Int) ≤ 1 + p.maxLinesearch := by
  have hml := maxLinesearch_pos hv
  cases hc : converged p x0 (ev x0).2 with
  | true => exact ⟨0, _, .already hv hc, by omega, Or.inl rfl, rfl, by push_cast; omega⟩
  | false =>
    have hb := (C266_line_search p hv ev x0 (ev x0).1 (ev x0).2 (start p ev x0).d (start p ev x0).step).1
    rcases iter_cases p ev prog (start p ev x0) with ⟨s', h', ⟨k, hk⟩, _⟩ | ⟨r', h', he, hf, hr⟩
    · exact absurd (nan_fails k hk) hn
    · rcases hr with ⟨e, _, hre, hx⟩ | ⟨⟨k, hok⟩, _⟩
      · exact ⟨1, r', .run hv hc (.done h'), le_rfl, Or.inr ⟨e, hre⟩, hx, by rw [he]; simp only [start] at hb ⊢; push_cast; omega⟩
      · exact absurd (nan_fails k hok) hn
where
  nan_fails (k : Nat) (h : (lineSearch p ev (start p ev x0).x (start p ev x0).fx (start p ev x0).g (start p ev x0).d (start p ev x0).step).ret = .ok k) :
      Num (ev x0).1 := by
    unfold lineSearch moreThuente at h
    rw [if_pos hls] at h
    split at h
    · cases h
    split at h
    · cases h
    exact mtLoop_num I _ _ _ _ _ _ _ _ k h

/-- C269 is false: with a backtracking search and the default iteration limit 0 the call never returns if value and gradient of the objective are not numbers (the gradient
of the wrapper is a difference quotient of values, so it is NaN where the values are): every trial point is accepted, and no test ever stops the loop. -/
theorem C269_violated (I : Ieee F) (nan : F) (hnan : ¬ Num nan) {n : Nat} (p : Params F) (hv : validate n p = none) (hls : p.linesearch ≠ 0)
    (hmax : p.maxIterations = 0) (hm : 0 < p.m) (x0 : Vec F n) (fx0 : F) :
    let ev : Eval F n := fun _ => (nan, fun _ => nan)
    let prog : Prog F n := fun _ _ _ _ _ _ _ _ => 0
    (¬ ∃ i r, Run p ev prog x0 fx0 i r) ∧ ∀ i, ∃ s, Head p ev prog x0 i s := by
  intro ev prog
  obtain ⟨hn, _, _, _, hml, hlv, _⟩ := validate_none hv
  have hn : 0 < n := by omega
  have notle : ∀ a b : F, ¬ Num a → (a <=. b) = false := fun a b h => by
    cases hh : (a <=. b) with
    | true => exact absurd (I.le_num _ _ hh).1 h
    | false => rfl
  have notlt : ∀ a b : F, ¬ Num a ∨ ¬ Num b → (a <. b) = false := fun a b h => by
    cases hh : (a <. b) with
    | true => rcases h with h | h; exact absurd (I.lt_num _ _ hh).1 h; exact absurd (I.lt_num _ _ hh).2 h
    | false => rfl
  have dotnan : ∀ x y : Vec F n, (∀ i, ¬ Num (x i)) → ¬ Num (dot x y) := fun x y h hd => h ⟨0, hn⟩ (dot_num I x y hd ⟨0, hn⟩).1
  have nconv : ∀ x : Vec F n, converged p x (fun _ => nan) = false := fun x => by
    unfold converged
    exact notle _ _ fun h => dotnan _ _ (fun _ => hnan) (I.sqrt_num _ (I.div_num _ _ h).1)
  have ls : ∀ (x : Vec F n) (f : F) (d : Vec F n) (stp : F), (stp <=. c 0) = false →
      (lineSearch p ev x f (fun _ => nan) d stp) = ⟨vecadd x d stp, nan, fun _ => nan, stp, 1, .ok 1⟩ := by
    intro x f d stp hs
    have hd : ¬ Num (dot (fun _ => nan) d : F) := dotnan _ _ fun _ => hnan
    unfold lineSearch backtracking
    rw [if_neg hls, if_neg (by simp [hs]), if_neg (by rw [notlt _ _ (Or.inr hd)]; exact Bool.false_ne_true)]
    unfold btLoop
    have hbt : btDecide p f (dot (fun _ => nan) d) stp nan (dot (fun _ => nan) d) = none := by
      unfold btDecide
      rw [if_neg (by rw [notlt _ _ (Or.inr hnan)]; exact Bool.false_ne_true)]
      split
      · rfl
      rw [if_neg (by rw [notlt _ _ (Or.inl hd)]; exact Bool.false_ne_true)]
      split
      · rfl
      rw [if_neg (by rw [notlt _ _ (Or.inr hd)]; exact Bool.false_ne_true)]
    simp only [ev, hbt]
  have st : ∀ s : LState F n, s.g = (fun _ => nan) → (s.step <=. c 0) = false →
      ∃ s', iter p ev prog s = .inl s' ∧ s'.g = (fun _ => nan) ∧ (s'.step <=. c 0) = false := by
    intro s hg hs
    have hl := ls s.x s.fx s.d s.step hs
    rw [← hg] at hl
    rcases iter_cases p ev prog s with ⟨s', h', _, _, _, hg', hstep, _⟩ | ⟨r, h', _, _, hr⟩
    · exact ⟨s', h', by rw [hg', hl, hg], by rw [hstep]; exact I.one_pos⟩
    · exfalso
      rcases hr with ⟨e, he, _⟩ | ⟨_, _, hr⟩
      · rw [hl] at he; cases he
      · rcases hr with ⟨z, hz, hz'⟩ | ⟨_, hc⟩ | ⟨_, _, _, hd⟩ | ⟨_, hz, _⟩ | ⟨_, hz⟩
        · unfold iter at h'
          simp only [hl, prog] at h'
          rw [if_neg (by simp)] at h'
          split at h'
          · injection h' with h'; rw [← h'] at hz'; cases hz'
          split at h'
          · injection h' with h'; rw [← h'] at hz'; cases hz'
          split at h'
          · injection h' with h'; rw [← h'] at hz'; cases hz'
          split at h'
          · injection h' with h'; rw [← h'] at hz'; cases hz'
          cases h'
        · rw [hl, hg, nconv] at hc; cases hc
        · rw [hl] at hd
          exact hnan (I.div_num _ _ (I.lt_num _ _ hd).1).2
        · exact hz hmax
        · omega
  have hstart : (start p ev x0).g = (fun _ => nan) ∧ ((start p ev x0).step <=. c 0) = false :=
    ⟨rfl, notle _ _ fun h => dotnan _ _ (fun _ h => hnan (I.neg_num _ h)) (I.sqrt_num _ (I.div_num _ _ h).2)⟩
  have inf : ∀ i, ∃ s, Head p ev prog x0 i s ∧ s.g = (fun _ => nan) ∧ (s.step <=. c 0) = false := by
    intro i
    induction i with
    | zero => exact ⟨_, .start hv (nconv x0), hstart⟩
    | succ i ih =>
      obtain ⟨s, h1, h2, h3⟩ := ih
      obtain ⟨s', a, b, d⟩ := st s h2 h3
      exact ⟨s', .step h1 a, b, d⟩
  have noend : ∀ (s : LState F n) i r, Loop p ev prog s i r → s.g = (fun _ => nan) → (s.step <=. c 0) = false → False := by
    intro s i r h
    induction h with
    | done h =>
      intro h2 h3
      obtain ⟨s', a, _⟩ := st _ h2 h3
      rw [h] at a; cases a
    | next h _ ih =>
      intro h2 h3
      obtain ⟨s', a, b, d⟩ := st _ h2 h3
      rw [h] at a; injection a with a; subst a
      exact ih b d
  refine ⟨?_, fun i => let ⟨s, h, _⟩ := inf i; ⟨s, h⟩⟩
  rintro ⟨i, r, h⟩
  cases h with
  | invalid h => rw [hv] at h; cases h
  | already _ hg => rw [nconv] at hg; cases hg
  | run _ _ hl => exact noend _ _ _ hl hstart.1 hstart.2

/-! ### the laws hold of rounded arithmetic with infinities and NaN -/

/-- What is needed of the rounding of an exact extended-real result; every IEEE rounding direction satisfies it. -/
structure Rounding (R : EReal → EReal) : Prop where
  mono : ∀ x y, x ≤ y → R x ≤ R y
  idem : ∀ x, R (R x) = R x
  zero : R 0 = 0
  one : R 1 = 1

/-- The values of a floating-point format: NaN, or an extended real that rounding leaves unchanged. (The sign of zero is not represented.) -/
inductive FP (R : EReal → EReal) : Type
  | nan
  | val (x : {x : EReal // R x = x})

/-- The value nearest to `x` in the sense of the rounding. -/
def mk {R : EReal → EReal} (h : Rounding R) (x : EReal) : FP R := .val ⟨R x, h.idem x⟩

/-- Exact sum, where it exists. -/
noncomputable def exAdd (a b : EReal) : Option EReal := open Classical in if (a = ⊤ ∧ b = ⊥) ∨ (a = ⊥ ∧ b = ⊤) then none else some (a + b)
/-- Exact product, where it exists. -/
noncomputable def exMul (a b : EReal) : Option EReal :=
  open Classical in if (a = 0 ∧ (b = ⊤ ∨ b = ⊥)) ∨ ((a = ⊤ ∨ a = ⊥) ∧ b = 0) then none else some (a * b)
/-- Exact quotient, where it exists; a division by zero gives an infinity. -/
noncomputable def exDiv (a b : EReal) : Option EReal :=
  open Classical in
  if (a = 0 ∧ b = 0) ∨ ((a = ⊤ ∨ a = ⊥) ∧ (b = ⊤ ∨ b = ⊥)) then none else if b = 0 then some (if 0 < a then ⊤ else ⊥) else some (a / b)
/-- Exact square root, where it exists. -/
noncomputable def exSqrt (a : EReal) : Option EReal :=
  open Classical in if a < 0 then none else if a = ⊤ then some ⊤ else some (Real.sqrt a.toReal : EReal)

/-- Rounded binary operation; NaN propagates. -/
def lift2 {R : EReal → EReal} (h : Rounding R) (op : EReal → EReal → Option EReal) : FP R → FP R → FP R
  | .val a, .val b => (op a.1 b.1).elim .nan (mk h)
  | _, _ => .nan
/-- Rounded unary operation; NaN propagates. -/
def lift1 {R : EReal → EReal} (h : Rounding R) (op : EReal → Option EReal) : FP R → FP R
  | .val a => (op a.1).elim .nan (mk h)
  | .nan => .nan
/-- Comparison; false if one side is NaN. -/
noncomputable def cmp {R : EReal → EReal} (rel : EReal → EReal → Prop) : FP R → FP R → Bool
  | .val a, .val b => open Classical in decide (rel a.1 b.1)
  | _, _ => false

/-- Floating-point arithmetic with the rounding `R`. -/
@[reducible] noncomputable def arith {R : EReal → EReal} (h : Rounding R) : Arith (FP R) where
  lit q := mk h ((q : ℝ) : EReal)
  add := lift2 h exAdd
  sub := lift2 h fun a b => exAdd a (-b)
  mul := lift2 h exMul
  div := lift2 h exDiv
  neg := lift1 h fun a => some (-a)
  sqrt := lift1 h exSqrt
  abs := lift1 h fun a => some (max a (-a))
  lt := cmp (· < ·)
  le := cmp (· ≤ ·)
  eq := cmp (· = ·)

theorem lift2_val {R : EReal → EReal} (h : Rounding R) {op : EReal → EReal → Option EReal} {a b : FP R} {r : {x : EReal // R x = x}}
    (e : lift2 h op a b = .val r) : ∃ x y z, a = .val x ∧ b = .val y ∧ op x.1 y.1 = some z ∧ r.1 = R z := by
  cases a with
  | nan => cases e
  | val a =>
    cases b with
    | nan => cases e
    | val b =>
      have e : (op a.1 b.1).elim .nan (mk h) = FP.val r := e
      cases ho : op a.1 b.1 with
      | none => rw [ho] at e; cases e
      | some z =>
        rw [ho] at e
        refine ⟨a, b, z, rfl, rfl, ho, ?_⟩
        have e : FP.val ⟨R z, h.idem z⟩ = FP.val r := e
        injection e with e
        rw [← e]

/-- The laws hold of floating-point arithmetic with any rounding. -/
theorem ieee_round {R : EReal → EReal} (h : Rounding R) : @Ieee (FP R) (arith h) := by
  letI := arith h
  have num : ∀ a : FP R, Num a ↔ ∃ x, a = .val x := fun a => by
    cases a with
    | nan => exact ⟨fun h => (by cases h), fun h => (by obtain ⟨_, h⟩ := h; cases h)⟩
    | val x => exact ⟨fun _ => ⟨x, rfl⟩, fun _ => by show cmp _ (.val x) (.val x) = true; simp [cmp]⟩
  have cmpnum : ∀ (rel : EReal → EReal → Prop) (a b : FP R), cmp rel a b = true → ∃ x y, a = .val x ∧ b = .val y ∧ rel x.1 y.1 := fun rel a b e => by
    cases a with
    | nan => cases e
    | val a =>
      cases b with
      | nan => cases e
      | val b => exact ⟨a, b, rfl, rfl, by simpa [cmp] using e⟩
  have le_iff : ∀ x y : {x : EReal // R x = x}, ((FP.val x : FP R) <=. (FP.val y : FP R)) = true ↔ x.1 ≤ y.1 := fun x y => by
    show cmp _ (.val x) (.val y) = true ↔ _
    simp [cmp]
  have lt_iff : ∀ x y : {x : EReal // R x = x}, ((FP.val x : FP R) <. (FP.val y : FP R)) = true ↔ x.1 < y.1 := fun x y => by
    show cmp _ (.val x) (.val y) = true ↔ _
    simp [cmp]
  have lift_num : ∀ (op : EReal → EReal → Option EReal) (a b : FP R), Num (lift2 h op a b) → Num a ∧ Num b := fun op a b hn => by
    obtain ⟨r, e⟩ := (num _).mp hn
    obtain ⟨x, y, z, hx, hy, _⟩ := lift2_val h e
    exact ⟨(num _).mpr ⟨x, hx⟩, (num _).mpr ⟨y, hy⟩⟩
  have lift1_num : ∀ (op : EReal → Option EReal) (a : FP R), Num (lift1 h op a) → Num a := fun op a hn => by
    cases a with
    | nan => exact absurd hn fun h => by cases h
    | val x => exact (num _).mpr ⟨x, rfl⟩
  have zero : (c 0 : FP R) = FP.val ⟨0, h.zero⟩ := by
    show mk h _ = _
    unfold mk
    congr 2
    simp [h.zero]
  refine ⟨?_, ?_, ?_, ?_, ?_, ?_, lift_num _, lift_num _, lift_num _, lift_num _, lift1_num _, lift1_num _, ?_, ?_, ?_, ?_, ?_⟩
  · intro a b e
    obtain ⟨x, y, hx, hy, _⟩ := cmpnum _ a b e
    exact ⟨(num _).mpr ⟨x, hx⟩, (num _).mpr ⟨y, hy⟩⟩
  · intro a b e
    obtain ⟨x, y, hx, hy, _⟩ := cmpnum _ a b e
    exact ⟨(num _).mpr ⟨x, hx⟩, (num _).mpr ⟨y, hy⟩⟩
  · intro a b d e1 e2
    obtain ⟨x, y, rfl, rfl, h1⟩ := cmpnum _ _ _ e1
    obtain ⟨y', z, hy', rfl, h2⟩ := cmpnum _ _ _ e2
    injection hy' with hy'; subst hy'
    exact (le_iff _ _).mpr (h1.trans h2)
  · intro a b ha hb
    obtain ⟨x, rfl⟩ := (num _).mp ha
    obtain ⟨y, rfl⟩ := (num _).mp hb
    rcases lt_or_ge x.1 y.1 with h' | h'
    · exact Or.inl ((lt_iff _ _).mpr h')
    · exact Or.inr ((le_iff _ _).mpr h')
  · intro a b e
    obtain ⟨x, y, rfl, rfl, h1⟩ := cmpnum _ _ _ e
    exact (le_iff _ _).mpr h1.le
  · intro a b e
    obtain ⟨x, y, rfl, rfl, h1⟩ := cmpnum _ _ _ e
    exact Bool.eq_false_iff.mpr fun h' => absurd ((lt_iff _ _).mp h') (not_lt.mpr h1)
  · intro a b ha hb hn
    rw [zero] at *
    obtain ⟨r, e⟩ := (num _).mp hn
    obtain ⟨x, y, z, rfl, rfl, hz, hr⟩ := lift2_val h e
    rw [e]
    refine (le_iff _ _).mpr ?_
    have hx : 0 ≤ x.1 := (le_iff _ _).mp ha
    have hy : y.1 ≤ 0 := (le_iff _ _).mp hb
    unfold exMul at hz
    split at hz
    · cases hz
    injection hz with hz
    show r.1 ≤ 0
    rw [hr, ← hz, ← h.zero]
    exact h.mono _ _ (EReal.mul_nonpos_iff.mpr (Or.inl ⟨hx, hy⟩))
  · intro a b ha hb hn
    rw [zero] at *
    obtain ⟨r, e⟩ := (num _).mp hn
    obtain ⟨x, y, z, rfl, rfl, hz, hr⟩ := lift2_val h e
    rw [e]
    refine (le_iff _ _).mpr ?_
    have hx : 0 ≤ x.1 := (le_iff _ _).mp ha
    have hy : 0 ≤ y.1 := (le_iff _ _).mp hb
    unfold exMul at hz
    split at hz
    · cases hz
    injection hz with hz
    show 0 ≤ r.1
    rw [hr, ← hz, ← h.zero]
    exact h.mono _ _ (mul_nonneg hx hy)
  · intro a b hb hn
    rw [zero] at *
    obtain ⟨r, e⟩ := (num _).mp hn
    obtain ⟨x, y, z, rfl, rfl, hz, hr⟩ := lift2_val h e
    rw [e]
    refine (le_iff _ _).mpr ?_
    have hy : y.1 ≤ 0 := (le_iff _ _).mp hb
    unfold exAdd at hz
    split at hz
    · cases hz
    injection hz with hz
    rw [hr, ← hz, ← x.2]
    refine h.mono _ _ ?_
    rw [x.2]
    calc x.1 + y.1 ≤ x.1 + 0 := add_le_add le_rfl hy
      _ = x.1 := add_zero _
  · intro q q' hq
    refine (le_iff _ _).mpr (h.mono _ _ ?_)
    exact_mod_cast hq
  · refine Bool.eq_false_iff.mpr fun h' => ?_
    have := (le_iff _ _).mp h'
    have e1 : R (((1 : ℚ) : ℝ) : EReal) = 1 := by simpa using h.one
    have e0 : R (((0 : ℚ) : ℝ) : EReal) = 0 := by simpa using h.zero
    have this : R (((1 : ℚ) : ℝ) : EReal) ≤ R (((0 : ℚ) : ℝ) : EReal) := this
    rw [e1, e0] at this
    exact absurd this (by norm_num)

/-- Rounding to the nearest double, with overflow to infinity from `2^1024 - 2^970` on (IEEE 754). -/
noncomputable def toDouble (fl : ℝ → ℝ) (x : EReal) : EReal :=
  open Classical in
  if (((2 : ℝ) ^ 1024 - 2 ^ 970 : ℝ) : EReal) ≤ x then ⊤ else if x ≤ ((-((2 : ℝ) ^ 1024 - 2 ^ 970) : ℝ) : EReal) then ⊥ else (fl x.toReal : EReal)

theorem double_lt {x : ℝ} (h : Fl.IsDouble x) : |x| < (2 : ℝ) ^ 1024 - 2 ^ 970 := by
  obtain ⟨m, e, hm, _, he, rfl⟩ := h
  have h1 : (|(m : ℝ)|) ≤ 2 ^ 53 - 1 := by
    have : |m| ≤ 2 ^ 53 - 1 := by omega
    exact_mod_cast this
  have h2 : (2 : ℝ) ^ e ≤ 2 ^ 971 := by
    have := zpow_le_zpow_right₀ (by norm_num : (1 : ℝ) ≤ 2) he
    exact_mod_cast this
  have h3 : (0 : ℝ) < 2 ^ e := by positivity
  rw [abs_mul, abs_of_pos h3]
  calc |(m : ℝ)| * 2 ^ e ≤ (2 ^ 53 - 1) * 2 ^ 971 := mul_le_mul h1 h2 h3.le (by norm_num)
    _ < 2 ^ 1024 - 2 ^ 970 := by
      rw [show (2 : ℝ) ^ 971 = 2 * 2 ^ 970 by rw [← pow_succ'], show (2 : ℝ) ^ 1024 = 2 ^ 54 * 2 ^ 970 by rw [← pow_add]]
      have : (0 : ℝ) < 2 ^ 970 := by positivity
      generalize (2 : ℝ) ^ 970 = P at this ⊢
      norm_num
      linarith only [this]

/-- IEEE double precision is such an arithmetic. -/
theorem double_round {fl : ℝ → ℝ} (hf : Fl.Nearest fl) : Rounding (toDouble fl) := by
  have hT : (1 : ℝ) < (2 : ℝ) ^ 1024 - 2 ^ 970 := by
    rw [show (2 : ℝ) ^ 1024 = 2 ^ 54 * 2 ^ 970 by rw [← pow_add]]
    have : (1 : ℝ) ≤ 2 ^ 970 := one_le_pow₀ (by norm_num)
    generalize (2 : ℝ) ^ 970 = P at this ⊢
    norm_num
    linarith only [this]
  generalize hTe : (2 : ℝ) ^ 1024 - 2 ^ 970 = T at hT
  have hd : ∀ x, Fl.IsDouble x → |x| < T := fun x h => hTe ▸ double_lt h
  have big : ∀ x : EReal, (T : EReal) ≤ x → toDouble fl x = ⊤ := fun x h => by unfold toDouble; rw [hTe, if_pos h]
  have small : ∀ x : EReal, x ≤ ((-T : ℝ) : EReal) → toDouble fl x = ⊥ := fun x h => by
    unfold toDouble
    rw [hTe, if_neg, if_pos h]
    intro h'
    have := h'.trans h
    rw [EReal.coe_le_coe_iff] at this
    linarith only [this, hT]
  have mid : ∀ x : ℝ, -T < x → x < T → toDouble fl x = (fl x : EReal) := fun x h1 h2 => by
    unfold toDouble
    rw [hTe, if_neg (by rw [EReal.coe_le_coe_iff]; linarith), if_neg (by rw [EReal.coe_le_coe_iff]; linarith), EReal.toReal_coe]
  have real : ∀ x : EReal, ¬ (T : EReal) ≤ x → ¬ x ≤ ((-T : ℝ) : EReal) → ∃ r : ℝ, x = r ∧ -T < r ∧ r < T := fun x h1 h2 => by
    induction x with
    | bot => exact absurd bot_le h2
    | top => exact absurd le_top h1
    | coe r => exact ⟨r, rfl, by rw [EReal.coe_le_coe_iff] at h2; linarith, by rw [EReal.coe_le_coe_iff] at h1; linarith⟩
  have fix : ∀ r : ℝ, Fl.IsDouble r → toDouble fl r = r := fun r h => by
    have := abs_lt.mp (hd r h)
    rw [mid r this.1 this.2, Fl.fl_double hf h]
  refine ⟨fun x y hxy => ?_, fun x => ?_, ?_, ?_⟩
  · by_cases h1 : (T : EReal) ≤ y
    · rw [big y h1]; exact le_top
    by_cases h2 : x ≤ ((-T : ℝ) : EReal)
    · rw [small x h2]; exact bot_le
    obtain ⟨r, rfl, hr1, hr2⟩ := real x (fun h => h1 (h.trans hxy)) h2
    obtain ⟨q, rfl, hq1, hq2⟩ := real y h1 (fun h => h2 (hxy.trans h))
    rw [mid r hr1 hr2, mid q hq1 hq2]
    exact EReal.coe_le_coe_iff.mpr (Fl.fl_mono hf (EReal.coe_le_coe_iff.mp hxy))
  · by_cases h1 : (T : EReal) ≤ x
    · rw [big x h1, big ⊤ le_top]
    by_cases h2 : x ≤ ((-T : ℝ) : EReal)
    · rw [small x h2, small ⊥ bot_le]
    obtain ⟨r, rfl, hr1, hr2⟩ := real x h1 h2
    rw [mid r hr1 hr2, fix _ (hf.isDouble r)]
  · have := fix 0 (by simpa using Fl.double_int (n := 0) (by norm_num))
    simpa using this
  · have := fix 1 (by simpa using Fl.double_int (n := 1) (by norm_num))
    simpa using this

/-! ### a run that accepts NaN, and examples -/

/-- The eighths up to 8 in magnitude are exact in the format (they are in every IEEE format). -/
def Exact (R : EReal → EReal) : Prop := ∀ k : ℤ, k.natAbs ≤ 64 → R (((k : ℝ) / 8 : ℝ) : EReal) = (((k : ℝ) / 8 : ℝ) : EReal)

section witness
variable {R : EReal → EReal} (h : Rounding R)

/-- The floating-point number `k/8`. -/
noncomputable def v (k : ℤ) : FP R := mk h (((k : ℝ) / 8 : ℝ) : EReal)

theorem lift2_vv (op : EReal → EReal → Option EReal) (a b : {x : EReal // R x = x}) :
    lift2 h op (.val a) (.val b) = (op a.1 b.1).elim .nan (mk h) := rfl

omit h in
theorem cmp_vv (rel : EReal → EReal → Prop) (a b : {x : EReal // R x = x}) :
    cmp rel (FP.val a : FP R) (.val b) = (open Classical in decide (rel a.1 b.1)) := rfl

theorem mk_congr {x y : EReal} (e : x = y) : (mk h x : FP R) = mk h y := by rw [e]

variable {h} (hR : Exact R)
include hR

theorem v_val {k : ℤ} (hk : k.natAbs ≤ 64) : (v h k : FP R) = .val ⟨(((k : ℝ) / 8 : ℝ) : EReal), hR k hk⟩ := by
  unfold v mk
  congr 2
  exact hR k hk

theorem v_add {k l : ℤ} (hk : k.natAbs ≤ 64) (hl : l.natAbs ≤ 64) : (arith h).add (v h k) (v h l) = v h (k + l) := by
  rw [v_val hR hk, v_val hR hl]
  refine (lift2_vv h _ _ _).trans ?_
  unfold exAdd
  rw [if_neg (by simp)]
  refine mk_congr h ?_
  rw [← EReal.coe_add]
  congr 1; push_cast; ring

theorem v_sub {k l : ℤ} (hk : k.natAbs ≤ 64) (hl : l.natAbs ≤ 64) : (arith h).sub (v h k) (v h l) = v h (k - l) := by
  rw [v_val hR hk, v_val hR hl]
  refine (lift2_vv h _ _ _).trans ?_
  unfold exAdd
  rw [← EReal.coe_neg, if_neg (by simp)]
  refine mk_congr h ?_
  rw [← EReal.coe_add]
  congr 1; push_cast; ring

theorem v_neg {k : ℤ} (hk : k.natAbs ≤ 64) : (arith h).neg (v h k) = v h (-k) := by
  rw [v_val hR hk]
  refine mk_congr h ?_
  rw [← EReal.coe_neg]
  congr 1; push_cast; ring

theorem v_mul {k l m : ℤ} (hk : k.natAbs ≤ 64) (hl : l.natAbs ≤ 64) (hm : k * l = 8 * m) : (arith h).mul (v h k) (v h l) = v h m := by
  rw [v_val hR hk, v_val hR hl]
  show (exMul _ _).elim FP.nan (mk h) = _
  unfold exMul
  rw [if_neg (by simp)]
  refine mk_congr h ?_
  rw [← EReal.coe_mul]
  congr 1
  have : (k : ℝ) * l = 8 * m := by exact_mod_cast hm
  linarith

theorem v_div {k l m : ℤ} (hk : k.natAbs ≤ 64) (hl : l.natAbs ≤ 64) (h0 : l ≠ 0) (hm : k * 8 = l * m) : (arith h).div (v h k) (v h l) = v h m := by
  rw [v_val hR hk, v_val hR hl]
  show (exDiv _ _).elim FP.nan (mk h) = _
  have h0' : (l : ℝ) ≠ 0 := by exact_mod_cast h0
  have hz : ((((l : ℝ) / 8 : ℝ) : EReal)) ≠ 0 := by
    rw [← EReal.coe_zero]; exact fun e => div_ne_zero h0' (by norm_num) (EReal.coe_eq_coe_iff.mp e)
  unfold exDiv
  rw [if_neg (by simp [hz]), if_neg hz]
  refine mk_congr h ?_
  rw [← EReal.coe_div]
  congr 1
  have : (k : ℝ) * 8 = l * m := by exact_mod_cast hm
  field_simp
  linarith

theorem v_sqrt {k m : ℤ} (hk : k.natAbs ≤ 64) (h0 : 0 ≤ m) (hm : m * m = 8 * k) : (arith h).sqrt (v h k) = v h m := by
  rw [v_val hR hk]
  show (exSqrt _).elim FP.nan (mk h) = _
  have hm' : (m : ℝ) * m = 8 * k := by exact_mod_cast hm
  have hm0 : (0 : ℝ) ≤ m := by exact_mod_cast h0
  have e : (k : ℝ) / 8 = (m / 8) * (m / 8) := by linarith
  have hk0 : (0 : ℝ) ≤ k / 8 := by rw [e]; positivity
  unfold exSqrt
  rw [if_neg (by rw [not_lt]; exact EReal.coe_nonneg.mpr hk0), if_neg (by simp)]
  refine mk_congr h ?_
  rw [EReal.toReal_coe, e, Real.sqrt_mul_self (by positivity)]

theorem v_lt {k l : ℤ} (hk : k.natAbs ≤ 64) (hl : l.natAbs ≤ 64) : (arith h).lt (v h k) (v h l) = decide (k < l) := by
  rw [v_val hR hk, v_val hR hl]
  refine (cmp_vv _ _ _).trans ?_
  refine decide_eq_decide.mpr ?_
  rw [EReal.coe_lt_coe_iff, div_lt_div_iff_of_pos_right (by norm_num : (0 : ℝ) < 8)]
  exact Int.cast_lt

theorem v_le {k l : ℤ} (hk : k.natAbs ≤ 64) (hl : l.natAbs ≤ 64) : (arith h).le (v h k) (v h l) = decide (k ≤ l) := by
  rw [v_val hR hk, v_val hR hl]
  refine (cmp_vv _ _ _).trans ?_
  refine decide_eq_decide.mpr ?_
  rw [EReal.coe_le_coe_iff, div_le_div_iff_of_pos_right (by norm_num : (0 : ℝ) < 8)]
  exact Int.cast_le

theorem v_ne {k l : ℤ} (hk : k.natAbs ≤ 64) (hl : l.natAbs ≤ 64) (hkl : k ≠ l) : (v h k : FP R) ≠ v h l := by
  rw [v_val hR hk, v_val hR hl]
  intro e
  injection e with e
  injection e with e
  have := EReal.coe_eq_coe_iff.mp e
  have : (k : ℝ) = l := by linarith
  exact hkl (by exact_mod_cast this)

omit hR in
theorem v_lit (q : ℚ) (k : ℤ) (e : q = k / 8) : (arith h).lit q = v h k := by
  refine mk_congr h ?_
  rw [e]; push_cast; rfl

end witness

/-- The objective of the witness: 0 at 0 with slope -1, NaN at 1 with slope -1/2, 5 elsewhere with slope -1. -/
noncomputable def bumpy {R : EReal → EReal} (h : Rounding R) : Eval (FP R) 1 := fun x =>
  open Classical in if x 0 = v h 0 then (v h 0, fun _ => v h (-8)) else if x 0 = v h 8 then (.nan, fun _ => v h (-4)) else (v h 40, fun _ => v h (-8))

/-- The parameters of the witness: Armijo backtracking, two iterations, tolerances 0, steps in `[0,8]`. -/
noncomputable def bumpyPar {R : EReal → EReal} (h : Rounding R) : Params (FP R) :=
  ⟨6, v h 0, 0, v h 0, 2, 1, 40, v h 0, v h 64, v h 0, v h 0, v h 0, v h 0⟩

theorem bumpy_valid {R : EReal → EReal} (h : Rounding R) (hR : Exact R) :
    letI := arith h
    validate 1 (bumpyPar h) = none := by
  let _ := arith h
  have l0 : (c 0 : FP R) = v h 0 := v_lit 0 0 (by norm_num)
  have lt : ∀ k l : ℤ, k.natAbs ≤ 64 → l.natAbs ≤ 64 → ((v h k : FP R) <. v h l) = decide (k < l) := fun k l a b => v_lt hR a b
  unfold validate bumpyPar
  simp [l0, lt]

/-- C268 is false of the backtracking searches, in IEEE double precision too: on an objective that is 0 at the start 0, NaN at 1 and 5 at 2, with the Armijo search, the
NaN is accepted, after it every value is accepted, and the call ends regularly at the point 2 with the value 5. -/
theorem C268_violated {R : EReal → EReal} (h : Rounding R) (hR : Exact R) :
    letI := arith h
    ∃ r, Run (bumpyPar h) (bumpy h) (fun _ _ _ _ _ _ _ _ => 0) (fun _ => v h 0) (v h 0) 2 r ∧ r.ret = .maximumIteration ∧ r.x = (fun _ => v h 16) ∧
      r.fx = v h 40 ∧ (bumpy h (fun _ => v h 0)).1 = v h 0 ∧ (v h 0 <. v h 40) = true := by
  let _ := arith h
  have l0 : (c 0 : FP R) = v h 0 := v_lit 0 0 (by norm_num)
  have l1 : (c 1 : FP R) = v h 8 := v_lit 1 8 (by norm_num)
  have dotv : ∀ k l m : ℤ, k.natAbs ≤ 64 → l.natAbs ≤ 64 → m.natAbs ≤ 64 → k * l = 8 * m →
      dot (fun _ : Fin 1 => (v h k : FP R)) (fun _ => v h l) = v h m := fun k l m hk hl hm e => by
    have : dot (fun _ : Fin 1 => (v h k : FP R)) (fun _ => v h l) = Arith.add (c 0) (Arith.mul (v h k) (v h l)) := rfl
    rw [this, l0, v_mul hR hk hl e, v_add hR (by norm_num) hm, zero_add]
  have norm : ∀ k m a : ℤ, k.natAbs ≤ 64 → m.natAbs ≤ 64 → k * k = 8 * m → 0 ≤ a → a * a = 8 * m →
      norm2 (fun _ : Fin 1 => (v h k : FP R)) = v h a := fun k m a hk hm e ha e' => by
    unfold norm2
    rw [dotv k k m hk hk hm e]
    exact v_sqrt hR hm ha e'
  have ne1 : (v h 8 : FP R) ≠ v h 0 := v_ne hR (by decide) (by decide) (by decide)
  have ne2 : (v h 16 : FP R) ≠ v h 0 := v_ne hR (by decide) (by decide) (by decide)
  have ne3 : (v h 16 : FP R) ≠ v h 8 := v_ne hR (by decide) (by decide) (by decide)
  have b0 : bumpy h (fun _ => v h 0) = (v h 0, fun _ => v h (-8)) := by unfold bumpy; rw [if_pos rfl]
  have b1 : bumpy h (fun _ => v h 8) = (.nan, fun _ => v h (-4)) := by unfold bumpy; rw [if_neg ne1, if_pos rfl]
  have b2 : bumpy h (fun _ => v h 16) = (v h 40, fun _ => v h (-8)) := by unfold bumpy; rw [if_neg ne2, if_neg ne3]
  have lt : ∀ k l : ℤ, k.natAbs ≤ 64 → l.natAbs ≤ 64 → ((v h k : FP R) <. v h l) = decide (k < l) := fun k l a b => v_lt hR a b
  have le : ∀ k l : ℤ, k.natAbs ≤ 64 → l.natAbs ≤ 64 → ((v h k : FP R) <=. v h l) = decide (k ≤ l) := fun k l a b => v_le hR a b
  have hv := bumpy_valid h hR
  -- the gradient test at the three points
  have conv : ∀ (x g : Vec (FP R) 1) (a b q : ℤ), norm2 x = v h a → norm2 g = v h b → a.natAbs ≤ 64 → b.natAbs ≤ 64 → q.natAbs ≤ 64 → 0 < q →
      b * 8 = (if a < 8 then 8 else a) * q → 0 ≤ a → converged (bumpyPar h) x g = false := fun x g a b q hx hg ha hb hq hq0 e ha0 => by
    unfold converged
    rw [hx, hg, l1, lt a 8 ha (by decide)]
    by_cases h8 : a < 8
    · rw [if_pos h8] at e
      rw [if_pos (by simpa using h8), v_div hR hb (by decide) (by decide) e]
      show (v h q <=. v h 0) = false
      rw [le q 0 hq (by decide)]
      simpa using hq0
    · rw [if_neg h8] at e
      rw [if_neg (by simpa using h8), v_div hR hb ha (by omega) e]
      show (v h q <=. v h 0) = false
      rw [le q 0 hq (by decide)]
      simpa using hq0
  have c0 : converged (bumpyPar h) (fun _ => v h 0) (bumpy h (fun _ => v h 0)).2 = false := by
    rw [b0]
    exact conv _ _ 0 8 8 (norm 0 0 0 (by decide) (by decide) (by decide) (by decide) (by decide)) (norm (-8) 8 8 (by decide) (by decide) (by decide) (by decide) (by decide))
      (by decide) (by decide) (by decide) (by decide) (by decide) (by decide)
  have c1 : converged (bumpyPar h) (fun _ => v h 8) (fun _ => v h (-4)) = false :=
    conv _ _ 8 4 4 (norm 8 8 8 (by decide) (by decide) (by decide) (by decide) (by decide)) (norm (-4) 2 4 (by decide) (by decide) (by decide) (by decide) (by decide))
      (by decide) (by decide) (by decide) (by decide) (by decide) (by decide)
  have c2 : converged (bumpyPar h) (fun _ => v h 16) (fun _ => v h (-8)) = false :=
    conv _ _ 16 8 4 (norm 16 32 16 (by decide) (by decide) (by decide) (by decide) (by decide)) (norm (-8) 8 8 (by decide) (by decide) (by decide) (by decide) (by decide))
      (by decide) (by decide) (by decide) (by decide) (by decide) (by decide)
  -- the two line searches
  have ls : ∀ (a b g : ℤ) (f f' : FP R) (g' : Vec (FP R) 1), a.natAbs ≤ 8 → b = a + 8 → g.natAbs ≤ 64 → g < 0 → bumpy h (fun _ => v h b) = (f', g') →
      ((f +. v h 8 *. (v h 0 *. v h g)) <. f') = false →
      lineSearch (bumpyPar h) (bumpy h) (fun _ => v h a) f (fun _ => v h g) (fun _ => v h 8) (v h 8) = ⟨fun _ => v h b, f', g', v h 8, 1, .ok 1⟩ := by
    intro a b g f f' g' ha hb hg hg0 hbb hlt
    have hd := dotv g 8 g hg (by decide) hg (by ring)
    have hx : vecadd (fun _ : Fin 1 => (v h a : FP R)) (fun _ => v h 8) (v h 8) = fun _ => v h b := by
      funext i
      show (v h a +. v h 8 *. v h 8 : FP R) = _
      rw [v_mul hR (m := 8) (by decide) (by decide) (by decide), v_add hR (by omega) (by decide), hb]
    unfold lineSearch backtracking
    rw [if_neg (fun e : (bumpyPar h).linesearch = 0 => absurd (show (1 : Int) = 0 from e) (by decide)), l0, le 8 0 (by decide) (by decide), if_neg (by decide), hd, lt 0 g (by decide) hg, if_neg (by simp; omega)]
    unfold btLoop
    simp only [hx, hbb]
    have : btDecide (bumpyPar h) f (v h g) (v h 8) f' (dot g' fun _ => v h 8) = none := by
      unfold btDecide
      rw [if_neg (by show ¬ ((f +. v h 8 *. (v h 0 *. v h g)) <. f') = true; rw [hlt]; decide), if_pos (by rfl)]
    rw [this]
  have nanlt : ∀ x : FP R, (x <. FP.nan) = false := fun x => by cases x <;> rfl
  have nanadd : ∀ x y : FP R, ((FP.nan +. x) <. y) = false := fun x y => by cases y <;> rfl
  -- the start
  have st : start (bumpyPar h) (bumpy h) (fun _ => v h 0) = ⟨fun _ => v h 0, v h 0, fun _ => v h (-8), fun _ => v h 8, v h 8, 1, 0,
      fun _ => ⟨v h 0, fun _ => v h 0, fun _ => v h 0, v h 0⟩, fun _ => v h 0, 1⟩ := by
    have hn : (Arith.neg (v h (-8)) : FP R) = v h 8 := v_neg hR (by decide)
    unfold start
    rw [b0]
    simp only [hn, l0, l1]
    congr 1
    · rw [norm 8 8 8 (by decide) (by decide) (by decide) (by decide) (by decide)]
      exact v_div hR (by decide) (by decide) (by decide) (by decide)
    · funext i; split <;> rfl
  have it1 : ∃ s', iter (bumpyPar h) (bumpy h) (fun _ _ _ _ _ _ _ _ => 0) (start (bumpyPar h) (bumpy h) (fun _ => v h 0)) = .inl s' ∧
      s'.x = (fun _ => v h 8) ∧ s'.fx = .nan ∧ s'.g = (fun _ => v h (-4)) ∧ s'.d = (fun _ => v h 8) ∧ s'.step = v h 8 ∧ s'.k = 2 := by
    have hl := ls 0 8 (-8) (v h 0) .nan (fun _ => v h (-4)) (by decide) (by decide) (by decide) (by decide) b1 (nanlt _)
    rw [st]
    unfold iter
    simp only [hl]
    rw [if_neg (by decide), c1, if_neg (by decide), if_neg (fun hh => absurd hh.1 (show ¬ (0 : Int) < 0 by decide)),
      if_neg (fun hh => absurd hh.2 (show ¬ (2 : Int) < 1 + 1 by decide)), if_neg (fun e : (bumpyPar h).m ≤ 0 => absurd (show (6 : Int) ≤ 0 from e) (by decide))]
    refine ⟨_, rfl, rfl, rfl, rfl, ?_, l1, rfl⟩
    have e1 : (v h 8 -. v h 0 : FP R) = v h 8 := v_sub hR (by decide) (by decide)
    have e2 : (v h (-4) -. v h (-8) : FP R) = v h 4 := v_sub hR (by decide) (by decide)
    have e3 : (v h 4 /. v h 2 : FP R) = v h 16 := v_div hR (by decide) (by decide) (by decide) (by decide)
    have e4 : (v h 4 /. v h 4 : FP R) = v h 8 := v_div hR (by decide) (by decide) (by decide) (by decide)
    have e5 : (Arith.neg (v h (-4)) : FP R) = v h 4 := v_neg hR (by decide)
    have e6 : (Arith.neg (v h 8) : FP R) = v h (-8) := v_neg hR (by decide)
    have e7 : (v h 4 +. v h (-8) *. v h 4 : FP R) = v h 0 := by
      rw [v_mul hR (m := -4) (by decide) (by decide) (by decide), v_add hR (by decide) (by decide)]; rfl
    have e8 : (v h 0 *. v h 16 : FP R) = v h 0 := v_mul hR (by decide) (by decide) (by decide)
    have e9 : (v h 0 /. v h 4 : FP R) = v h 0 := v_div hR (by decide) (by decide) (by decide) (by decide)
    have e10 : (v h 0 +. (v h 8 -. v h 0) *. v h 8 : FP R) = v h 8 := by
      rw [e1, v_mul hR (m := 8) (by decide) (by decide) (by decide), v_add hR (by decide) (by decide)]; rfl
    have d1 := dotv 4 8 4 (by decide) (by decide) (by decide) (by decide)
    have d2 := dotv 4 4 2 (by decide) (by decide) (by decide) (by decide)
    have d3 := dotv 8 4 4 (by decide) (by decide) (by decide) (by decide)
    have d4 := dotv 4 0 0 (by decide) (by decide) (by decide) (by decide)
    have hm : (bumpyPar h).m.toNat = 6 := rfl
    simp only [hm, e1, e2, d1, d2, e3, direction]
    norm_num [loop1, loop2, e5, d3, e4, e6, vecadd, e7, e8, d4, e9]
    funext i
    exact e10
  obtain ⟨s', hs, hx, hf, hg, hd, hstep, hk⟩ := it1
  have it2 : iter (bumpyPar h) (bumpy h) (fun _ _ _ _ _ _ _ _ => 0) s' = .inr ⟨.maximumIteration, fun _ => v h 16, v h 40, s'.evals + 1⟩ := by
    have hl := ls 8 16 (-4) .nan (v h 40) (fun _ => v h (-8)) (by decide) (by decide) (by decide) (by decide) b2 (nanadd _ _)
    unfold iter
    rw [hx, hf, hg, hd, hstep, hk]
    simp only [hl]
    rw [if_neg (by decide), c2, if_neg (by decide), if_neg (fun hh => absurd hh.1 (show ¬ (0 : Int) < 0 by decide)),
      if_pos (show (bumpyPar h).maxIterations ≠ 0 ∧ (bumpyPar h).maxIterations < ((2 : Nat) : Int) + 1 from
        ⟨show (2 : Int) ≠ 0 by decide, show (2 : Int) < ((2 : Nat) : Int) + 1 by decide⟩)]
  exact ⟨_, .run hv c0 (.next hs (.done it2)), rfl, rfl, rfl, by rw [b0], by rw [lt 0 40 (by decide) (by decide)]; decide⟩

/-! ### examples -/

/-- IEEE double precision has exact eighths. -/
theorem double_exact {fl : ℝ → ℝ} (hf : Fl.Nearest fl) : Exact (toDouble fl) := fun k hk => by
  have hd : Fl.IsDouble ((k : ℝ) / 8) := ⟨k, -3, by rw [Int.abs_eq_natAbs]; omega, by norm_num, by norm_num, by norm_num [zpow_neg]; ring⟩
  have := double_lt hd
  generalize hTe : (2 : ℝ) ^ 1024 - 2 ^ 970 = T at this
  have := abs_lt.mp this
  unfold toDouble
  rw [hTe, if_neg (by rw [EReal.coe_le_coe_iff]; linarith only [this.2]), if_neg (by rw [EReal.coe_le_coe_iff]; linarith only [this.1]), EReal.toReal_coe,
    Fl.fl_double hf hd]

/-- C268_violated and the laws apply to IEEE double precision. -/
example {fl : ℝ → ℝ} (hf : Fl.Nearest fl) : @Ieee _ (arith (double_round hf)) ∧ Exact (toDouble fl) := ⟨ieee_round _, double_exact hf⟩

/-- C266: accepted parameters with a positive iteration limit exist in double precision; the objective may be anything, e.g. one with NaN. -/
example {fl : ℝ → ℝ} (hf : Fl.Nearest fl) (x0 : Vec (FP (toDouble fl)) 1) :
    letI := arith (double_round hf)
    validate 1 (bumpyPar (double_round hf)) = none ∧ 0 < (bumpyPar (double_round hf)).maxIterations ∧
    ∃ i r, Run (bumpyPar (double_round hf)) (bumpy (double_round hf)) (fun _ _ _ _ _ _ _ _ => 0) x0 .nan i r ∧ i ≤ 2 ∧ r.evals ≤ 81 := by
  let _ := arith (double_round hf)
  have hv := bumpy_valid (double_round hf) (double_exact hf)
  refine ⟨hv, show (0 : Int) < 2 by decide, ?_⟩
  obtain ⟨i, r, h1, h2, h3, _⟩ := C266_terminates (bumpyPar (double_round hf)) (bumpy (double_round hf)) (fun _ _ _ _ _ _ _ _ => 0) x0 .nan
    (show (0 : Int) < 2 by decide)
  refine ⟨i, r, h1, ?_, ?_⟩
  · have h2 : (i : Int) ≤ 2 := h2
    omega
  · have h3 : (r.evals : Int) ≤ 1 + 2 * 40 := h3 hv
    omega

/-- C269_violated: in double precision, with the Armijo search and no iteration limit, the call does not return. -/
example {fl : ℝ → ℝ} (hf : Fl.Nearest fl) (x0 : Vec (FP (toDouble fl)) 1) :
    letI := arith (double_round hf)
    ¬ ∃ i r, Run { bumpyPar (double_round hf) with maxIterations := 0 } (fun _ => (.nan, fun _ => .nan)) (fun _ _ _ _ _ _ _ _ => 0) x0 .nan i r := by
  let _ := arith (double_round hf)
  refine (C269_violated (ieee_round (double_round hf)) .nan (fun h => by cases h) { bumpyPar (double_round hf) with maxIterations := 0 } ?_
    (show (1 : Int) ≠ 0 by decide) rfl (show (0 : Int) < 6 by decide) x0 .nan).1
  exact bumpy_valid (double_round hf) (double_exact hf)

/-- C267, C268, C269 with the default search: the same parameters with More-Thuente are accepted, and their step bounds are numbers. -/
example {fl : ℝ → ℝ} (hf : Fl.Nearest fl) :
    letI := arith (double_round hf)
    validate 1 { bumpyPar (double_round hf) with linesearch := 0 } = none ∧ Num (bumpyPar (double_round hf)).minStep ∧ Num (bumpyPar (double_round hf)).maxStep ∧
    ¬ Num (.nan : FP (toDouble fl)) := by
  let _ := arith (double_round hf)
  refine ⟨?_, ?_, ?_, fun h => by cases h⟩
  · have l0 : (c 0 : FP (toDouble fl)) = v (double_round hf) 0 := v_lit 0 0 (by norm_num)
    have lt : ∀ k l : ℤ, k.natAbs ≤ 64 → l.natAbs ≤ 64 → ((v (double_round hf) k : FP (toDouble fl)) <. v (double_round hf) l) = decide (k < l) :=
      fun k l a b => v_lt (double_exact hf) a b
    unfold validate bumpyPar
    simp [l0, lt]
  · show ((v (double_round hf) 0 : FP (toDouble fl)) <=. v (double_round hf) 0) = true
    rw [v_le (double_exact hf) (by decide) (by decide)]; decide
  · show ((v (double_round hf) 64 : FP (toDouble fl)) <=. v (double_round hf) 64) = true
    rw [v_le (double_exact hf) (by decide) (by decide)]; decide

end LbfgsF
end Verif
