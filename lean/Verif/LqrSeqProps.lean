/-
Properties C200-C204: sequences, initialisation, storing of the LQR solver and order of its integration.
-/
import Verif.LqrSeq
import Mathlib.Analysis.Calculus.Taylor
import Mathlib.Analysis.Calculus.Deriv.Pi
import Mathlib.Analysis.Calculus.Deriv.Prod
import Mathlib.Analysis.SpecialFunctions.ExpDeriv
import Mathlib.Analysis.Calculus.ContDiff.Basic
import Mathlib.Topology.Algebra.Module.FiniteDimension
import Mathlib.Analysis.Normed.Module.FiniteDimension
import Mathlib.Tactic.NormNum
import Mathlib.Tactic.Linarith
import Mathlib.Tactic.FieldSimp
import Mathlib.Tactic.Positivity

namespace Verif
namespace LqrSeq

open Lqr Matrix

variable {nx nu : Nat}

/-! ### C200: arithmetic of control sequences -/

theorem add_spec (u v : CSeq nx nu) (h : u.length ≤ v.length) :
    ∃ w, add u v = some w ∧ w.length = u.length ∧ ∀ t (hu : t < u.length), w[t]? = some (u[t].add (v[t]'(by omega))) := by
  induction u generalizing v with
  | nil => exact ⟨[], rfl, rfl, fun t ht => absurd ht (by simp)⟩
  | cons a us ih =>
    cases v with
    | nil => simp at h
    | cons b vs =>
      obtain ⟨w, h1, h2, h3⟩ := ih vs (by simpa using h)
      refine ⟨a.add b :: w, by simp [add, h1], by simp [h2], fun t ht => ?_⟩
      cases t with
      | zero => simp
      | succ t => simpa using h3 t (by simpa using ht)

/-- C200: `u + a * v` for a sequence `v` at least as long as `u`: as many controls as `u`, the feedforwards are
combined, the feedback is that of `v`. -/
theorem C200_update (a : ℝ) (u v : CSeq nx nu) (h : u.length ≤ v.length) :
    ∃ w, add u (scale a v) = some w ∧ w.length = u.length ∧
      ∀ t (ht : t < u.length), w[t]? = some ⟨u[t].ff + a • (v[t]'(by omega)).ff, (v[t]'(by omega)).fb⟩ := by
  obtain ⟨w, h1, h2, h3⟩ := add_spec u (scale a v) (by simpa [scale] using h)
  refine ⟨w, h1, h2, fun t ht => ?_⟩
  rw [h3 t ht]
  simp [scale, Control.add, Control.scale]

/-- C200: a shorter right operand is read beyond its end. -/
theorem C200_short (u v : CSeq nx nu) (h : v.length < u.length) : add u v = none := by
  induction u generalizing v with
  | nil => simp at h
  | cons a us ih =>
    cases v with
    | nil => rfl
    | cons b vs => simp [add, ih vs (by simpa using h)]

/-- C200: scaling is compatible with multiplication and keeps every feedback. -/
theorem C200_scale (a b : ℝ) (u : CSeq nx nu) :
    scale a (scale b u) = scale (a * b) u ∧ scale 1 u = u ∧ (scale a u).map Control.fb = u.map Control.fb ∧
    (scale a u).map Control.ff = u.map fun c => a • c.ff := by
  have h1 : Control.scale (nx := nx) (nu := nu) 1 = id := by
    funext c; simp [Control.scale]
  refine ⟨?_, by rw [scale, h1, List.map_id], ?_, ?_⟩ <;> simp [scale, Control.scale, Function.comp_def, mul_smul]

theorem copyLoop_other (rhs acc : CSeq nx nu) (k : Nat) (hk : k ≤ rhs.length) (hl : acc.length = rhs.length) :
    copyLoop false rhs k acc = rhs.take k ++ acc.drop k := by
  induction k with
  | zero => simp [copyLoop]
  | succ k ih =>
    have hk' : k < rhs.length := hk
    simp only [copyLoop, ih (by omega)]
    rw [if_neg (by simp)]
    rw [List.getElem?_eq_getElem hk']
    dsimp only
    rw [List.set_append_right _ _ (by simp)]
    have hd : acc.drop k = acc[k]'(by omega) :: acc.drop (k + 1) := (List.drop_eq_getElem_cons (by omega))
    rw [hd]
    rw [List.length_take, Nat.min_eq_left hk'.le, Nat.sub_self, List.set_cons_zero, List.take_succ_eq_append_getElem hk',
      List.append_assoc]
    rfl

theorem copyLoop_self (rhs acc : CSeq nx nu) (k : Nat) : copyLoop true rhs k acc = acc := by
  induction k with
  | zero => rfl
  | succ k ih =>
    simp only [copyLoop, ih, if_true]
    cases h : acc[k]? with
    | none => rfl
    | some u =>
      dsimp only
      rw [List.getElem?_eq_some_iff] at h
      obtain ⟨h1, h2⟩ := h
      rw [← h2]
      exact List.set_getElem_self h1

/-- C200, partial: assigning a non-empty sequence that is another object copies it, whatever was there. -/
theorem C200_assign_partial (lhs rhs : CSeq nx nu) (h : rhs ≠ []) : assign false lhs rhs = some rhs := by
  cases rhs with
  | nil => exact absurd rfl h
  | cons u us =>
    simp only [assign]
    rw [copyLoop_other _ _ _ le_rfl (by simp [resize])]
    simp [resize]

/-- C200 violated: `u = u` replaces every control by zero; the copy of an empty sequence reads a control that does not
exist. -/
theorem C200_violated (u : CSeq nx nu) (h : u ≠ []) :
    assign true u u = some (List.replicate u.length (Control.zero nx nu)) ∧ assign false u [] = none := by
  refine ⟨?_, rfl⟩
  cases u with
  | nil => exact absurd rfl h
  | cons v vs => simp only [assign, copyLoop_self]; rfl

example : assign true [(⟨fun _ => 1, 0⟩ : Control 1 1)] [⟨fun _ => 1, 0⟩] ≠ some [(⟨fun _ => 1, 0⟩ : Control 1 1)] := by
  rw [(C200_violated [(⟨fun _ => 1, 0⟩ : Control 1 1)] (by simp)).1]
  intro h
  have := congrArg (fun o => o.map fun l => l.map fun c => c.ff 0) h
  simp [Control.zero] at this

/-! ### C201: initialisation of a problem -/

/-- What `initialize` promises: `tdim + 1` zero states of dimension `xdim` and `tdim` zero controls. -/
def Obj.Zero (tdim xdim udim : Nat) (o : Obj) : Prop :=
  o.states.length = tdim + 1 ∧ (∀ x ∈ o.states, x = List.replicate xdim 0) ∧
  o.controls.length = tdim ∧ ∀ u ∈ o.controls, u = (List.replicate udim 0, List.replicate udim (List.replicate xdim 0))

/-- C201, partial: for a new problem. -/
theorem C201_first_partial (tdim xdim udim : Nat) : (Obj.fresh.initialize tdim xdim udim).Zero tdim xdim udim := by
  refine ⟨by simp [Obj.initialize, Obj.fresh, stateResize], ?_, by simp [Obj.initialize], ?_⟩
  · intro x hx
    simp only [Obj.initialize, Obj.fresh, stateResize, List.nil_append] at hx
    exact List.eq_of_mem_replicate hx
  · intro u hu
    exact List.eq_of_mem_replicate hu

/-- C201 violated: a problem that is initialised again keeps all its states in front of the new ones; only the
controls start afresh. -/
theorem C201_violated (tdim xdim udim : Nat) (o : Obj) (h : o.states ≠ []) :
    ¬ (o.initialize tdim xdim udim).Zero tdim xdim udim ∧
    (o.initialize tdim xdim udim).states.length = o.states.length + (tdim + 1) ∧
    ∀ t < o.states.length, (o.initialize tdim xdim udim).states[t]? = o.states[t]? := by
  have hl : (o.initialize tdim xdim udim).states.length = o.states.length + (tdim + 1) := by
    simp [Obj.initialize, stateResize]
  refine ⟨fun hz => ?_, hl, fun t ht => ?_⟩
  · have := hz.1
    rw [hl] at this
    have := List.length_pos_of_ne_nil h
    omega
  · simp only [Obj.initialize, stateResize]
    rw [List.getElem?_append_left ht]

/-- Two initialisations with horizons one: four states. -/
example : ((Obj.fresh.initialize 1 2 1).initialize 1 2 1).states.length = 4 := by
  rw [(C201_violated 1 2 1 (Obj.fresh.initialize 1 2 1) (by simp [Obj.initialize, stateResize])).2.1]
  rfl

/-! ### C202: initialisation of the solver -/

variable {ι : Type}

/-- C202, partial: after the first `initialize`, or any number of calls with the same problem, all parts work on it. -/
theorem C202_same_partial (i : ι) (n : Nat) :
    (Parts.initialize i)^[n + 1] Parts.fresh = ⟨some i, some i, some i, some i⟩ := by
  induction n with
  | zero => rfl
  | succ n ih => rw [Function.iterate_succ_apply', ih]; rfl

/-- C202 violated: after any calls for other problems the finite differences stay with the first one: the
derivatives used for the last problem are those of the first along its own trajectory. -/
theorem C202_violated (i j : ι) (l : List ι) (tbl : ι → Prob nx nu) (c : Setting nu) :
    let p := Parts.initialize j (l.foldl (fun p k => Parts.initialize k p) (Parts.initialize i Parts.fresh))
    p.ocp = some j ∧ p.fwd = some j ∧ p.bwd = some j ∧ p.fd = some i ∧
    p.derivs tbl c = some (derivatives (tbl i).ocp c (tbl i).xs (tbl i).us) := by
  have h : ∀ p : Parts ι, p.fd = some i → (l.foldl (fun p k => Parts.initialize k p) p).fd = some i := by
    induction l with
    | nil => intro p hp; exact hp
    | cons k l ih =>
      intro p hp
      exact ih _ (by simp [Parts.initialize, hp])
  have h' := h (Parts.initialize i Parts.fresh) rfl
  intro p
  have hf : p.fd = some i := by
    show (match (l.foldl (fun p k => Parts.initialize k p) (Parts.initialize i Parts.fresh)).fd with
      | none => some j
      | some j => some j) = some i
    rw [h']
  refine ⟨rfl, rfl, rfl, hf, ?_⟩
  simp [Parts.derivs, hf]

/-- Two scalar problems, `x' = x + u` and `x' = 2 x + u`, both with the cost zero. -/
noncomputable def tblEx (b : Bool) : Prob 1 1 :=
  { ocp := ⟨1, fun x u _ => fun k => (if b then x k else 0) + u.ff k, fun _ _ _ _ => 0⟩, xs := fun _ => 0, us := fun _ => Control.zero 1 1 }

/-- The derivative used for the second problem is wrong. -/
example (c : Setting 1) (hc : c.rk = false) :
    ((derivatives (tblEx false).ocp c (tblEx false).xs (tblEx false).us).fx 0) 0 0 = 1 ∧
    ((derivatives (tblEx true).ocp c (tblEx true).xs (tblEx true).us).fx 0) 0 0 = 2 := by
  constructor <;> simp [derivatives, fdFx, step, hc, tblEx, bump, Control.zero, hStep] <;> norm_num

/-! ### C203: storing and loading -/

/-- C203: the file contains the states `0..tdim`, and the feedforward and feedback of the controls `0..tdim-1`. -/
theorem C203_store (tdim : Nat) (o : Obj) (hx : o.states.length = tdim + 1) (hu : o.controls.length = tdim) :
    (store tdim o).states = o.states ∧ (store tdim o).controlFf.zip (store tdim o).controlFb = o.controls := by
  refine ⟨by simp [store, ← hx], ?_⟩
  simp only [store, ← hu, List.take_length]
  rw [List.zip_map']
  simp

theorem loadLoop_spec (f : File) : ∀ (fuel t : Nat) (o : Obj), o.controls.length = t + fuel → f.controlFb.length = t + fuel →
    (loadLoop f fuel t o).states = o.states ∧ (loadLoop f fuel t o).controls.length = o.controls.length ∧
    ∀ k, (loadLoop f fuel t o).controls[k]? =
      if t ≤ k then (match o.controls[k]?, f.controlFb[k]? with
        | some u, some fb => some (u.1, fb)
        | _, _ => none) else o.controls[k]? := by
  intro fuel
  induction fuel with
  | zero =>
    intro t o ho hf
    refine ⟨rfl, rfl, fun k => ?_⟩
    simp only [loadLoop]
    split
    · rename_i hk
      rw [List.getElem?_eq_none (by omega)]
    · rfl
  | succ fuel ih =>
    intro t o ho hf
    have h1 : t < f.controlFb.length := by omega
    have h2 : t < o.controls.length := by omega
    simp only [loadLoop]
    rw [List.getElem?_eq_getElem h1, List.getElem?_eq_getElem h2]
    dsimp only
    obtain ⟨a, b, c⟩ := ih (t + 1) { o with controls := o.controls.set t (o.controls[t].1, f.controlFb[t]) }
      (by simp only [List.length_set]; omega) (by omega)
    refine ⟨a, by rw [b]; simp, fun k => ?_⟩
    rw [c]
    dsimp only
    by_cases hk : k = t
    · subst hk
      rw [if_neg (by omega), if_pos le_rfl, List.getElem?_set_self h2, List.getElem?_eq_getElem h2,
        List.getElem?_eq_getElem h1]
    · by_cases hle : t ≤ k
      · rw [if_pos (by omega), if_pos hle, List.getElem?_set_ne (by omega)]
      · rw [if_neg (by omega), if_neg hle, List.getElem?_set_ne (by omega)]

/-- C203, partial: loading restores the feedback of every control; states and feedforward stay as they are. -/
theorem C203_load_partial (tdim : Nat) (o o' : Obj) (hu : o.controls.length = tdim) (hu' : o'.controls.length = tdim) :
    (load tdim (store tdim o) o').controls.map Prod.snd = o.controls.map Prod.snd ∧
    (load tdim (store tdim o) o').controls.map Prod.fst = o'.controls.map Prod.fst ∧
    (load tdim (store tdim o) o').states = o'.states := by
  have hfl : (store tdim o).controlFb.length = 0 + tdim := by simp [store, hu]
  obtain ⟨a, b, c⟩ := loadLoop_spec (store tdim o) tdim 0 o' (by omega) hfl
  have hfb : ∀ k : Nat, (store tdim o).controlFb[k]? = (o.controls[k]?).map Prod.snd := by
    intro k
    simp [store, ← hu]
  refine ⟨?_, ?_, a⟩
  · apply List.ext_getElem?
    intro k
    rw [List.getElem?_map, List.getElem?_map]
    show Option.map Prod.snd (loadLoop (store tdim o) tdim 0 o').controls[k]? = _
    rw [c, if_pos (Nat.zero_le _), hfb]
    by_cases hk : k < tdim
    · rw [List.getElem?_eq_getElem (by omega : k < o.controls.length), List.getElem?_eq_getElem (by omega : k < o'.controls.length)]
      simp
    · rw [List.getElem?_eq_none (by omega : o.controls.length ≤ k), List.getElem?_eq_none (by omega : o'.controls.length ≤ k)]
  · apply List.ext_getElem?
    intro k
    rw [List.getElem?_map, List.getElem?_map]
    show Option.map Prod.fst (loadLoop (store tdim o) tdim 0 o').controls[k]? = _
    rw [c, if_pos (Nat.zero_le _), hfb]
    by_cases hk : k < tdim
    · rw [List.getElem?_eq_getElem (by omega : k < o.controls.length), List.getElem?_eq_getElem (by omega : k < o'.controls.length)]
      simp
    · rw [List.getElem?_eq_none (by omega : o.controls.length ≤ k), List.getElem?_eq_none (by omega : o'.controls.length ≤ k)]

/-- C203 violated: a problem of one step whose solution has the control `1` and the states `0, 1`: after loading the
stored solution into the initialised problem the control and the states are still zero. -/
theorem C203_violated : ∃ o : Obj, o.states.length = 2 ∧ o.controls.length = 1 ∧
    load 1 (store 1 o) (Obj.fresh.initialize 1 1 1) ≠ o ∧
    (load 1 (store 1 o) (Obj.fresh.initialize 1 1 1)).states ≠ o.states ∧
    (load 1 (store 1 o) (Obj.fresh.initialize 1 1 1)).controls.map Prod.fst ≠ o.controls.map Prod.fst := by
  refine ⟨⟨[[0], [1]], [([1], [[0]])]⟩, rfl, rfl, ?_⟩
  obtain ⟨-, h1, h2⟩ := C203_load_partial 1 ⟨[[0], [1]], [([1], [[0]])]⟩ (Obj.fresh.initialize 1 1 1) rfl
    (by simp [Obj.initialize])
  have hs : (load 1 (store 1 ⟨[[0], [1]], [([1], [[0]])]⟩) (Obj.fresh.initialize 1 1 1)).states ≠ [[0], [1]] := by
    rw [h2]
    simp [Obj.initialize, Obj.fresh, stateResize, List.replicate]
  refine ⟨fun h => hs (by rw [h]), hs, ?_⟩
  rw [h1]
  simp [Obj.initialize]

/-! ### C204: order of the integration -/

/-- The problem's `dynamics` is the increment of a linear system over the time `h`: `h (A x + B u)`. -/
def Linear (o : Ocp nx nu) (h : ℝ) (A : Mat nx nx) (B : Mat nx nu) : Prop :=
  ∀ x u t, o.dyn x u t = h • (A *ᵥ x + B *ᵥ u.ff)

/-- C204: closed form of the step: the Taylor polynomial of degree four with Runge-Kutta, of degree one without. -/
theorem C204_step (o : Ocp nx nu) (c : Setting nu) (h : ℝ) (A : Mat nx nx) (B : Mat nx nu) (hl : Linear o h A B)
    (x : Vec nx) (u : Control nx nu) (t : Nat) :
    step o c x u t = x + if c.rk then
        h • (A *ᵥ x + B *ᵥ u.ff) + (h ^ 2 / 2) • (A *ᵥ (A *ᵥ x + B *ᵥ u.ff)) +
        (h ^ 3 / 6) • (A *ᵥ (A *ᵥ (A *ᵥ x + B *ᵥ u.ff))) +
        (h ^ 4 / 24) • (A *ᵥ (A *ᵥ (A *ᵥ (A *ᵥ x + B *ᵥ u.ff))))
      else h • (A *ᵥ x + B *ᵥ u.ff) := by
  have e : ∀ y, A *ᵥ (x + y) + B *ᵥ u.ff = (A *ᵥ x + B *ᵥ u.ff) + A *ᵥ y := by
    intro y; rw [mulVec_add]; abel
  unfold step
  cases c.rk with
  | false =>
    show x + o.dyn x u t = x + h • (A *ᵥ x + B *ᵥ u.ff)
    rw [hl]
  | true =>
    simp only [if_true]
    unfold Linear at hl
    rw [show (0.5 : ℝ) = 1 / 2 by norm_num, show (6.0 : ℝ) = 6 by norm_num, show (3.0 : ℝ) = 3 by norm_num]
    simp only [hl, e]
    generalize A *ᵥ x + B *ᵥ u.ff = f
    simp only [mulVec_add, mulVec_smul, smul_add, smul_smul]
    ext i
    simp only [Pi.add_apply, Pi.smul_apply, smul_eq_mul]
    ring

/-- `y` follows the linear system under the constant control `u`. -/
def Follows (A : Mat nx nx) (B : Mat nx nu) (u : Vec nu) (y : ℝ → Vec nx) : Prop :=
  ∀ s, HasDerivAt y (A *ᵥ y s + B *ᵥ u) s

theorem deriv_mulVec (M : Mat nx nx) {y : ℝ → Vec nx} {d : Vec nx} {s : ℝ} (h : HasDerivAt y d s) :
    HasDerivAt (fun r => M *ᵥ y r) (M *ᵥ d) s := by
  exact (LinearMap.toContinuousLinearMap (Matrix.mulVecLin M)).hasFDerivAt.comp_hasDerivAt s h

theorem iter_deriv (A : Mat nx nx) (B : Mat nx nu) (u : Vec nu) (y : ℝ → Vec nx) (hy : Follows A B u y) (k : Nat) :
    iteratedDeriv (k + 1) y = fun s => (A ^ k) *ᵥ (A *ᵥ y s + B *ᵥ u) := by
  induction k with
  | zero =>
    rw [zero_add, iteratedDeriv_one]
    funext s
    rw [(hy s).deriv]; simp
  | succ k ih =>
    rw [iteratedDeriv_succ, ih]
    funext s
    have h1 : HasDerivAt (fun r => A *ᵥ y r + B *ᵥ u) (A *ᵥ (A *ᵥ y s + B *ᵥ u)) s := (deriv_mulVec A (hy s)).add_const _
    rw [(deriv_mulVec (A ^ k) h1).deriv, mulVec_mulVec, pow_succ]

theorem follows_contDiff (A : Mat nx nx) (B : Mat nx nu) (u : Vec nu) (y : ℝ → Vec nx) (hy : Follows A B u y) (n : ℕ) :
    ContDiff ℝ n y := by
  induction n with
  | zero =>
    rw [Nat.cast_zero, contDiff_zero]
    exact continuous_iff_continuousAt.2 fun s => (hy s).continuousAt
  | succ n ih =>
    rw [Nat.cast_add, Nat.cast_one, contDiff_succ_iff_deriv]
    refine ⟨fun s => (hy s).differentiableAt, fun h => by simp at h, ?_⟩
    have e : deriv y = fun s => A *ᵥ y s + B *ᵥ u := funext fun s => (hy s).deriv
    rw [e]
    have h1 : ContDiff ℝ n fun s => A *ᵥ y s := by
      have := (LinearMap.toContinuousLinearMap (Matrix.mulVecLin A)).contDiff (n := n) |>.comp ih
      simpa [Function.comp_def] using this
    exact h1.add contDiff_const

theorem taylor_rest (A : Mat nx nx) (B : Mat nx nu) (u : Vec nu) (y : ℝ → Vec nx) (hy : Follows A B u y) (n : Nat) (h K : ℝ)
    (h0 : 0 < h) (hK : ∀ s ∈ Set.Icc 0 h, ‖(A ^ n) *ᵥ (A *ᵥ y s + B *ᵥ u)‖ ≤ K) :
    ‖y h - taylorWithinEval y n (Set.Icc 0 h) 0 h‖ ≤ K * h ^ (n + 1) / (n.factorial : ℝ) := by
  have hU := uniqueDiffOn_Icc h0
  have hc := follows_contDiff A B u y hy
  have := taylor_mean_remainder_bound (f := y) (a := 0) (b := h) (C := K) (x := h) (n := n) h0.le
    (by exact_mod_cast (hc (n + 1)).contDiffOn) ⟨h0.le, le_rfl⟩ (by
      intro s hs
      rw [iteratedDerivWithin_eq_iteratedDeriv hU (by exact_mod_cast (hc (n + 1)).contDiffAt) hs, iter_deriv A B u y hy]
      exact hK s hs)
  simpa using this

/-- C204: local error on a linear system: if the fifth (second) derivative of the exact motion is bounded by `K` over the
step, the Runge-Kutta (Euler) step is off by at most `K h^5 / 24` (`K h^2`). -/
theorem C204_error (o : Ocp nx nu) (c : Setting nu) (h : ℝ) (h0 : 0 ≤ h) (A : Mat nx nx) (B : Mat nx nu) (hl : Linear o h A B)
    (u : Control nx nu) (t : Nat) (y : ℝ → Vec nx) (hy : Follows A B u.ff y) (K : ℝ)
    (hK : ∀ s ∈ Set.Icc 0 h, ‖(A ^ (if c.rk then 4 else 1)) *ᵥ (A *ᵥ y s + B *ᵥ u.ff)‖ ≤ K) :
    ‖y h - step o c (y 0) u t‖ ≤ if c.rk then K * h ^ 5 / 24 else K * h ^ 2 := by
  rcases h0.eq_or_lt with rfl | hpos
  · rw [C204_step o c 0 A B hl]
    split <;> simp
  have hU := uniqueDiffOn_Icc hpos
  have hmem : (0 : ℝ) ∈ Set.Icc 0 h := ⟨le_rfl, h0⟩
  have hc := follows_contDiff A B u.ff y hy
  have hd : ∀ k : Nat, iteratedDerivWithin (k + 1) y (Set.Icc 0 h) 0 = (A ^ k) *ᵥ (A *ᵥ y 0 + B *ᵥ u.ff) := by
    intro k
    rw [iteratedDerivWithin_eq_iteratedDeriv hU (by exact_mod_cast (hc (k + 1)).contDiffAt) hmem, iter_deriv A B u.ff y hy]
  rw [C204_step o c h A B hl]
  by_cases hrk : c.rk
  · simp only [hrk, if_true] at hK ⊢
    have := taylor_rest A B u.ff y hy 4 h K hpos hK
    rw [taylorWithinEval_succ, taylorWithinEval_succ, taylorWithinEval_succ, taylorWithinEval_succ, taylor_within_zero_eval,
      hd 0, hd 1, hd 2, hd 3] at this
    have e4 : ((4 : Nat).factorial : ℝ) = 24 := by norm_num [Nat.factorial]
    rw [e4] at this
    convert this using 3
    have p2 : A ^ 2 = A * A := pow_two A
    have p3 : A ^ 3 = A * (A * A) := by rw [pow_succ', pow_two]
    rw [p2, p3, pow_one, pow_zero, one_mulVec, ← mulVec_mulVec, ← mulVec_mulVec, ← mulVec_mulVec]
    norm_num [Nat.factorial]
    ext i
    simp only [Pi.add_apply, Pi.smul_apply, smul_eq_mul]
    ring
  · simp only [hrk] at hK ⊢
    have := taylor_rest A B u.ff y hy 1 h K hpos (by simpa using hK)
    rw [taylorWithinEval_succ, taylor_within_zero_eval, hd 0] at this
    simpa using this

/-- C204: the error is of fifth (second) order, with a constant that does not depend on the step. -/
theorem C204_order (A : Mat nx nx) (B : Mat nx nu) (u : Control nx nu) (y : ℝ → Vec nx) (hy : Follows A B u.ff y) :
    ∃ C, ∀ (h : ℝ) (o : Ocp nx nu) (c : Setting nu) (t : Nat), 0 ≤ h → h ≤ 1 → Linear o h A B →
      ‖y h - step o c (y 0) u t‖ ≤ C * h ^ (if c.rk then 5 else 2) := by
  have hb : ∀ k : Nat, ∃ K, ∀ s ∈ Set.Icc (0 : ℝ) 1, ‖(A ^ k) *ᵥ (A *ᵥ y s + B *ᵥ u.ff)‖ ≤ K := by
    intro k
    have hcont : Continuous fun s => (A ^ k) *ᵥ (A *ᵥ y s + B *ᵥ u.ff) := by
      have : Continuous (iteratedDeriv (k + 1) y) :=
        (follows_contDiff A B u.ff y hy (k + 1)).continuous_iteratedDeriv (k + 1) (by norm_cast)
      rwa [iter_deriv A B u.ff y hy] at this
    obtain ⟨K, hK⟩ := (isCompact_Icc (a := (0 : ℝ)) (b := 1)).exists_bound_of_continuousOn hcont.continuousOn
    exact ⟨K, hK⟩
  obtain ⟨K4, h4⟩ := hb 4
  obtain ⟨K1, h1⟩ := hb 1
  refine ⟨max (|K4|) (|K1|), fun h o c t h0 h1' hl => ?_⟩
  have hsub : ∀ s ∈ Set.Icc 0 h, s ∈ Set.Icc (0 : ℝ) 1 := fun s hs => ⟨hs.1, hs.2.trans h1'⟩
  by_cases hrk : c.rk
  · have := C204_error o c h h0 A B hl u t y hy K4 (by simp only [hrk, if_true]; exact fun s hs => h4 s (hsub s hs))
    simp only [hrk, if_true] at this ⊢
    have hp : 0 ≤ h ^ 5 := by positivity
    calc _ ≤ K4 * h ^ 5 / 24 := this
      _ ≤ |K4| * h ^ 5 := by
        have := le_abs_self K4
        have := abs_nonneg K4
        nlinarith [mul_le_mul_of_nonneg_right (le_abs_self K4) hp, mul_nonneg (abs_nonneg K4) hp]
      _ ≤ _ := mul_le_mul_of_nonneg_right (le_max_left _ _) hp
  · have := C204_error o c h h0 A B hl u t y hy K1 (by simp only [hrk]; exact fun s hs => h1 s (hsub s hs))
    simp only [hrk] at this ⊢
    have hp : 0 ≤ h ^ 2 := by positivity
    calc _ ≤ K1 * h ^ 2 := by simpa using this
      _ ≤ |K1| * h ^ 2 := mul_le_mul_of_nonneg_right (le_abs_self _) hp
      _ ≤ _ := by simpa using mul_le_mul_of_nonneg_right (le_max_right (|K4|) (|K1|)) hp

/-- `x' = x`: `exp` follows the system, and `dynamics = h x` is its increment. -/
example (h : ℝ) : Follows (1 : Mat 1 1) (0 : Mat 1 1) 0 (fun s _ => Real.exp s) ∧
    Linear (⟨1, fun x _ _ => h • x, fun _ _ _ _ => 0⟩ : Ocp 1 1) h 1 0 := by
  refine ⟨fun s => ?_, fun x u t => by simp⟩
  rw [hasDerivAt_pi]
  intro i
  simpa using Real.hasDerivAt_exp s

end LqrSeq
end Verif
