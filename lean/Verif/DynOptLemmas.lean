import Verif.DynOpt
import Verif.DynProps
import Verif.KinOptProps

/-! Lemmas about the dynamics optimiser model: columns of the variables. -/
namespace Verif
namespace Dyn
open LinExpr Kin Finset

/-! ### columns of a layout -/

theorem blk_get (dims : List (Nat × Nat)) (i : Nat) (hi : i < dims.length) :
    (OptVar.layout dims 0).1[i]? = some (blk (OptVar.layout dims 0).1 i) := by
  have hl := layout_length dims 0
  rw [blk, List.getD_eq_getElem?_getD, List.getElem?_eq_getElem (by omega)]; rfl

/-- Entries of a layout have nonnegative handles below the total size. -/
theorem id_bounds (dims : List (Nat × Nat)) (i r c : Nat) (hi : i < dims.length)
    (hr : r < (blk (OptVar.layout dims 0).1 i).rows) (hc : c < (blk (OptVar.layout dims 0).1 i).cols) :
    0 ≤ (blk (OptVar.layout dims 0).1 i).id r c ∧ (blk (OptVar.layout dims 0).1 i).id r c < totalSize dims := by
  obtain ⟨_, _, h3, _⟩ := C14_bijection dims 0
  obtain ⟨b1, b2⟩ := (h3 i _ (blk_get dims i hi)).2 r c hr hc
  constructor <;> omega

theorem col_lt (dims : List (Nat × Nat)) (i r c : Nat) (hi : i < dims.length)
    (hr : r < (blk (OptVar.layout dims 0).1 i).rows) (hc : c < (blk (OptVar.layout dims 0).1 i).cols) :
    vcol (blk (OptVar.layout dims 0).1 i) r c < totalSize dims := by
  obtain ⟨h1, h2⟩ := id_bounds dims i r c hi hr hc
  unfold vcol; omega

theorem col_inj (dims : List (Nat × Nat)) (i j r c r' c' : Nat) (hi : i < dims.length) (hj : j < dims.length)
    (hr : r < (blk (OptVar.layout dims 0).1 i).rows) (hc : c < (blk (OptVar.layout dims 0).1 i).cols)
    (hr' : r' < (blk (OptVar.layout dims 0).1 j).rows) (hc' : c' < (blk (OptVar.layout dims 0).1 j).cols)
    (h : vcol (blk (OptVar.layout dims 0).1 i) r c = vcol (blk (OptVar.layout dims 0).1 j) r' c') : i = j ∧ r = r' ∧ c = c' := by
  obtain ⟨h1, h2⟩ := id_bounds dims i r c hi hr hc
  obtain ⟨h1', h2'⟩ := id_bounds dims j r' c' hj hr' hc'
  refine layout_id_inj dims i j r c r' c' hi hj hr hc hr' hc' ?_
  unfold vcol at h; omega

/-- Registering the blocks in the order of the layout gives every handle the column with its own number. -/
theorem colOf_layout (dims : List (Nat × Nat)) (k : Nat) (hk : k < totalSize dims) :
    colOf (OptVar.layout dims 0).1 (k : Int) = k := by
  have hl : ((OptVar.layout dims 0).1.flatMap ids).length = totalSize dims := by rw [layout_ids]; simp
  have hg : ((OptVar.layout dims 0).1.flatMap ids)[k]'(by omega) = (k : Int) := by
    simp only [layout_ids]; simp
  have := assign_get _ 0 (fun _ => 0) (layout_ids_nodup dims 0) k (by omega)
  rw [hg] at this
  rw [colOf, this]; omega

/-! ### the blocks of the optimiser -/

/-- Rows of the `j`-th block of an end-effector: lower bounds, upper bounds, force, center of pressure, torque. -/
def effRows (j : Nat) : Nat := if j < 3 then 3 else if j = 3 then 2 else 1

theorem flat5_length (n : Nat) (f : Nat → List (Nat × Nat)) (hf : ∀ e, (f e).length = 5) :
    ((List.range n).flatMap f).length = 5 * n := by
  induction n with
  | zero => rfl
  | succ n ih => rw [List.range_succ, List.flatMap_append, List.length_append, ih]; simp [hf]; omega

theorem flat5_get (n : Nat) (f : Nat → List (Nat × Nat)) (hf : ∀ e, (f e).length = 5) (e j : Nat) (he : e < n) (hj : j < 5) :
    ((List.range n).flatMap f)[5 * e + j]? = (f e)[j]? := by
  induction n with
  | zero => omega
  | succ n ih =>
    rw [List.range_succ, List.flatMap_append]
    have hl := flat5_length n f hf
    by_cases h : e < n
    · rw [List.getElem?_append_left (by omega), ih h]
    · obtain rfl : e = n := by omega
      rw [List.getElem?_append_right (by omega), hl]
      simp

theorem dims_length (s : DSet) (steps : Nat → Nat) : (s.dims steps).length = s.base + 5 * s.neff := by
  unfold DSet.dims DSet.base
  rw [List.length_append, List.length_append, flat5_length _ _ (fun _ => rfl)]
  split <;> simp

theorem dims_eff (s : DSet) (steps : Nat → Nat) (e j : Nat) (he : e < s.neff) (hj : j < 5) :
    (s.dims steps)[s.base + (5 * e + j)]? = some (effRows j, steps e) := by
  unfold DSet.dims
  have hb : ([(3, s.T), (3, s.T), (3, s.T)] ++ (if s.heur = Heur.timeOpt then [(1, s.T), (3, s.T), (3, s.T)] else [] : List (Nat × Nat))).length =
      s.base := by unfold DSet.base; split <;> rfl
  rw [List.getElem?_append_right (by rw [hb]; omega), hb, Nat.add_sub_cancel_left, flat5_get _ _ (fun _ => rfl) e j he hj]
  match j, hj with
  | 0, _ | 1, _ | 2, _ | 3, _ | 4, _ => rfl

theorem dims_base (s : DSet) (steps : Nat → Nat) (i : Nat) (hi : i < 3) : (s.dims steps)[i]? = some (3, s.T) := by
  unfold DSet.dims
  rw [List.append_assoc, List.getElem?_append_left (by simpa using hi)]
  match i, hi with
  | 0, _ | 1, _ | 2, _ => rfl

theorem dims_time (s : DSet) (steps : Nat → Nat) (h : s.heur = .timeOpt) (i : Nat) (hi : i < 3) :
    (s.dims steps)[3 + i]? = some (if i = 0 then 1 else 3, s.T) := by
  unfold DSet.dims
  rw [if_pos h, List.getElem?_append_left (by simp; omega)]
  match i, hi with
  | 0, _ | 1, _ | 2, _ => rfl

theorem base_le (s : DSet) : 3 ≤ s.base := by unfold DSet.base; split <;> omega
theorem base_time (s : DSet) (h : s.heur = .timeOpt) : s.base = 6 := by unfold DSet.base; rw [if_pos h]

/-- Every active step of an end-effector has a variable. -/
def DPlan.Ok (s : DSet) (p : DPlan) : Prop := ∀ t < s.T, ∀ e < s.neff, p.active t e = true → p.actId t e < p.steps e

/-- A decision variable: block, row, column. -/
def IsVar (s : DSet) (steps : Nat → Nat) (i r c : Nat) : Prop :=
  i < (s.dims steps).length ∧ r < (blk (s.layout steps) i).rows ∧ c < (blk (s.layout steps) i).cols

theorem isVar_base (s : DSet) (steps : Nat → Nat) (i a t : Nat) (hi : i < 3) (ha : a < 3) (ht : t < s.T) : IsVar s steps i a t := by
  obtain ⟨h1, h2⟩ := layout_dims (s.dims steps) 0 i _ (dims_base s steps i hi)
  exact ⟨by rw [dims_length]; have := base_le s; omega, by rw [DSet.layout, h1]; exact ha, by rw [DSet.layout, h2]; exact ht⟩

theorem isVar_time (s : DSet) (steps : Nat → Nat) (h : s.heur = .timeOpt) (i a t : Nat) (hi : i < 3) (ha : a < if i = 0 then 1 else 3)
    (ht : t < s.T) : IsVar s steps (3 + i) a t := by
  obtain ⟨h1, h2⟩ := layout_dims (s.dims steps) 0 (3 + i) _ (dims_time s steps h i hi)
  exact ⟨by rw [dims_length, base_time s h]; omega, by rw [DSet.layout, h1]; exact ha, by rw [DSet.layout, h2]; exact ht⟩

theorem isVar_eff (s : DSet) (steps : Nat → Nat) (e j a k : Nat) (he : e < s.neff) (hj : j < 5) (ha : a < effRows j) (hk : k < steps e) :
    IsVar s steps (s.base + (5 * e + j)) a k := by
  obtain ⟨h1, h2⟩ := layout_dims (s.dims steps) 0 _ _ (dims_eff s steps e j he hj)
  exact ⟨by rw [dims_length]; omega, by rw [DSet.layout, h1]; exact ha, by rw [DSet.layout, h2]; exact hk⟩

theorem isVar_lt (s : DSet) (steps : Nat → Nat) (i r c : Nat) (h : IsVar s steps i r c) :
    vcol (blk (s.layout steps) i) r c < totalSize (s.dims steps) := col_lt _ i r c h.1 h.2.1 h.2.2

theorem isVar_inj (s : DSet) (steps : Nat → Nat) (i r c i' r' c' : Nat) (h : IsVar s steps i r c) (h' : IsVar s steps i' r' c')
    (e : vcol (blk (s.layout steps) i) r c = vcol (blk (s.layout steps) i') r' c') : i = i' ∧ r = r' ∧ c = c' :=
  col_inj _ i i' r c r' c' h.1 h'.1 h.2.1 h.2.2 h'.2.1 h'.2.2 e

/-- The unit vector of one variable vanishes on all others. -/
theorem ind_var (s : DSet) (steps : Nat → Nat) (i r c i' r' c' : Nat) (h : IsVar s steps i r c) (h' : IsVar s steps i' r' c')
    (ne : i ≠ i' ∨ r ≠ r' ∨ c ≠ c') : ind (vcol (blk (s.layout steps) i) r c) (vcol (blk (s.layout steps) i') r' c') = 0 := by
  rw [ind, if_neg]
  intro e
  obtain ⟨a, b, c⟩ := isVar_inj s steps i' r' c' i r _ h' h e
  rcases ne with n | n | n <;> exact n (by omega)

/-! ### points with given values -/

/-- There is a point with any given values of the variables. -/
theorem exists_point (s : DSet) (steps : Nat → Nat) (val : Nat → Nat → Nat → ℝ) :
    ∃ x : Nat → ℝ, ∀ i r c, IsVar s steps i r c → x (vcol (blk (s.layout steps) i) r c) = val i r c := by
  classical
  refine ⟨fun v => if h : ∃ q : Nat × Nat × Nat, IsVar s steps q.1 q.2.1 q.2.2 ∧ vcol (blk (s.layout steps) q.1) q.2.1 q.2.2 = v
    then val h.choose.1 h.choose.2.1 h.choose.2.2 else 0, fun i r c hv => ?_⟩
  have h : ∃ q : Nat × Nat × Nat, IsVar s steps q.1 q.2.1 q.2.2 ∧
      vcol (blk (s.layout steps) q.1) q.2.1 q.2.2 = vcol (blk (s.layout steps) i) r c := ⟨(i, r, c), hv, rfl⟩
  beta_reduce
  rw [dif_pos h]
  obtain ⟨e1, e2, e3⟩ := isVar_inj s steps _ _ _ _ _ _ h.choose_spec.1 hv h.choose_spec.2
  rw [e1, e2, e3]

/-- Values of a plan: time and axis, or end-effector, active step and axis. -/
structure Vals where
  com : Nat → Nat → ℝ
  l : Nat → Nat → ℝ
  h : Nat → Nat → ℝ
  dt : Nat → ℝ
  ld : Nat → Nat → ℝ
  hd : Nat → Nat → ℝ
  lb : Nat → Nat → Nat → ℝ
  ub : Nat → Nat → Nat → ℝ
  f : Nat → Nat → Nat → ℝ
  cop : Nat → Nat → Nat → ℝ
  trq : Nat → Nat → ℝ

/-- A point has the given values. -/
structure HasVals (d : DCtx) (v : Vals) (x : Nat → ℝ) : Prop where
  com : ∀ t < d.s.T, ∀ a < 3, pCom d.ctx x t a = v.com t a
  l : ∀ t < d.s.T, ∀ a < 3, pL d.ctx x t a = v.l t a
  h : ∀ t < d.s.T, ∀ a < 3, pH d.ctx x t a = v.h t a
  dt : d.s.heur = .timeOpt → ∀ t < d.s.T, pDt d.ctx x t = v.dt t
  ld : d.s.heur = .timeOpt → ∀ t < d.s.T, ∀ a < 3, pLd d.ctx x t a = v.ld t a
  hd : d.s.heur = .timeOpt → ∀ t < d.s.T, ∀ a < 3, pHd d.ctx x t a = v.hd t a
  lb : ∀ t < d.s.T, ∀ e < d.s.neff, d.p.active t e = true → ∀ a < 3, pLb d.ctx x t e a = v.lb e (d.p.actId t e) a
  ub : ∀ t < d.s.T, ∀ e < d.s.neff, d.p.active t e = true → ∀ a < 3, pUb d.ctx x t e a = v.ub e (d.p.actId t e) a
  f : ∀ t < d.s.T, ∀ e < d.s.neff, d.p.active t e = true → ∀ a < 3, pF d.ctx x t e a = v.f e (d.p.actId t e) a
  cop : ∀ t < d.s.T, ∀ e < d.s.neff, d.p.active t e = true → ∀ a < 2, pCop d.ctx x t e a = v.cop e (d.p.actId t e) a
  trq : ∀ t < d.s.T, ∀ e < d.s.neff, d.p.active t e = true → pTrq d.ctx x t e = v.trq e (d.p.actId t e)

theorem exists_vals (d : DCtx) (hp : d.p.Ok d.s) (v : Vals) : ∃ x, HasVals d v x := by
  obtain ⟨x, hx⟩ := exists_point d.s d.p.steps fun i r c =>
    if i = 0 then v.com c r else if i = 1 then v.l c r else if i = 2 then v.h c r
    else if i < d.s.base then (if i = 3 then v.dt c else if i = 4 then v.ld c r else v.hd c r)
    else
      if (i - d.s.base) % 5 = 0 then v.lb ((i - d.s.base) / 5) c r
      else if (i - d.s.base) % 5 = 1 then v.ub ((i - d.s.base) / 5) c r
      else if (i - d.s.base) % 5 = 2 then v.f ((i - d.s.base) / 5) c r
      else if (i - d.s.base) % 5 = 3 then v.cop ((i - d.s.base) / 5) c r
      else v.trq ((i - d.s.base) / 5) c
  have hb := base_le d.s
  have heff : ∀ e j a t, e < d.s.neff → j < 5 → a < effRows j → t < d.s.T → d.p.active t e = true →
      x (vcol (blk (d.s.layout d.p.steps) (d.s.base + (5 * e + j))) a (d.p.actId t e)) =
      if j = 0 then v.lb e (d.p.actId t e) a else if j = 1 then v.ub e (d.p.actId t e) a
      else if j = 2 then v.f e (d.p.actId t e) a else if j = 3 then v.cop e (d.p.actId t e) a else v.trq e (d.p.actId t e) := by
    intro e j a t he hj ha ht hact
    rw [hx _ _ _ (isVar_eff d.s d.p.steps e j a _ he hj ha (hp t ht e he hact))]
    rw [if_neg (by omega), if_neg (by omega), if_neg (by omega), if_neg (by omega), Nat.add_sub_cancel_left,
      show (5 * e + j) % 5 = j by omega, show (5 * e + j) / 5 = e by omega]
  refine ⟨x, ?_, ?_, ?_, ?_, ?_, ?_, ?_, ?_, ?_, ?_, ?_⟩
  · intro t ht a ha; exact (hx 0 a t (isVar_base d.s d.p.steps 0 a t (by omega) ha ht)).trans (if_pos rfl)
  · intro t ht a ha
    refine (hx 1 a t (isVar_base d.s d.p.steps 1 a t (by omega) ha ht)).trans ?_
    rw [if_neg (by omega), if_pos rfl]
  · intro t ht a ha
    refine (hx 2 a t (isVar_base d.s d.p.steps 2 a t (by omega) ha ht)).trans ?_
    rw [if_neg (by omega), if_neg (by omega), if_pos rfl]
  · intro hh t ht
    refine (hx 3 0 t (isVar_time d.s d.p.steps hh 0 0 t (by omega) (by simp) ht)).trans ?_
    rw [if_neg (by omega), if_neg (by omega), if_neg (by omega), if_pos (by rw [base_time d.s hh]; omega), if_pos rfl]
  · intro hh t ht a ha
    refine (hx 4 a t (isVar_time d.s d.p.steps hh 1 a t (by omega) (by simpa using ha) ht)).trans ?_
    rw [if_neg (by omega), if_neg (by omega), if_neg (by omega), if_pos (by rw [base_time d.s hh]; omega), if_neg (by omega), if_pos rfl]
  · intro hh t ht a ha
    refine (hx 5 a t (isVar_time d.s d.p.steps hh 2 a t (by omega) (by simpa using ha) ht)).trans ?_
    rw [if_neg (by omega), if_neg (by omega), if_neg (by omega), if_pos (by rw [base_time d.s hh]; omega), if_neg (by omega), if_neg (by omega)]
  · intro t ht e he hact a ha; exact heff e 0 a t he (by omega) ha ht hact
  · intro t ht e he hact a ha; exact heff e 1 a t he (by omega) ha ht hact
  · intro t ht e he hact a ha; exact heff e 2 a t he (by omega) ha ht hact
  · intro t ht e he hact a ha; exact heff e 3 a t he (by omega) ha ht hact
  · intro t ht e he hact; exact heff e 4 0 t he (by omega) (by decide) ht hact

/-! ### an example -/

/-- A robot of unit mass with one foot below it, three time steps; all numbers are multiples of its weight. -/
noncomputable def exSet (h : Heur) : DSet where
  T := 3
  neff := 1
  heur := h
  step := 1 / 10
  mass := 1
  mg := 1
  grav := fun a => if a = 2 then -1 else 0
  ext := fun _ => 0
  mu := 1 / 2
  linCone := false
  minH := 1 / 2
  fixHor := true
  dtLo := 1 / 20
  dtHi := 1 / 5
  trqLo := -1
  trqHi := 1
  copR := fun _ k => if k % 2 = 0 then -1 / 10 else 1 / 10
  off := fun _ _ => 0
  maxLen := fun _ => 2
  via := [(1 / 10, fun _ => 0)]
  motion := fun _ => 0
  wVia := fun _ => 1
  wCom := fun _ => 1
  wL := fun _ => 1
  wH := fun _ => 1
  wLfin := fun _ => 1
  wHfin := fun _ => 1
  wLd := fun _ => 1
  wHd := fun _ => 1
  wLegF := fun _ => 1
  wArmF := fun _ => 1
  wLegFd := fun _ => 1
  wArmFd := fun _ => 1
  wLegT := 1
  wArmT := 1
  wTime := 1
  wTimeReg := 1
  wTrCom := fun _ => 5
  wTrL := fun _ => 7
  wTrH := fun _ => 7
  wSoft := 1
  maxIter := 2
  tolRes := 1 / 1000
  tolImp := 1 / 10000
  inf := 1

/-- The foot is in contact at height `z t` below or above the initial center of mass. -/
noncomputable def exPlanZ (z : Nat → ℝ) : DPlan where
  active := fun _ e => e = 0
  actId := fun t _ => t
  steps := fun _ => 3
  rot := fun _ _ a b => if a = b then 1 else 0
  loc := fun t _ a => if a = 2 then z t else 0
  full := fun _ _ => false
  iniCom := fun _ => 0
  iniL := fun _ => 0
  iniH := fun _ => 0
  iniF := fun _ a => if a = 2 then 1 else 0

/-- The foot is on the ground, one unit below the initial center of mass, throughout. -/
noncomputable abbrev exDPlan : DPlan := exPlanZ fun _ => -1

/-- The state before the first call. -/
noncomputable def exDState : DState := ⟨1 / 10, fun _ => 0, fun _ => 0, fun _ => 0, fun _ => 0, fun _ => 0, fun _ _ => 0, fun _ _ => 0, fun _ _ => 0, fun _ _ => 0⟩

/-- A problem of the example: heights of the contact, sequence at entry, whether it is the first. -/
noncomputable def exAtZ (z : Nat → ℝ) (h : Heur) (seq : Nat → DState) (first : Bool) : DCtx :=
  ⟨exSet h, exPlanZ z, ⟨fun _ _ => 0, fun _ _ => 0, fun _ _ => 0⟩, fun _ => 0, seq, first⟩

/-- The same on flat ground. -/
noncomputable abbrev exAt (h : Heur) (seq : Nat → DState) (first : Bool) : DCtx := exAtZ (fun _ => -1) h seq first

/-- The first problem. -/
noncomputable abbrev exD (h : Heur) : DCtx := exAt h (fun _ => exDState) true

/-- The robot stands still, with a contact torque `τ` about the vertical axis, time steps `dt` and angular momenta `am`. -/
noncomputable def exSpin (τ : ℝ) (dt am : Nat → ℝ) : Vals := ⟨fun _ _ => 0, fun _ _ => 0, fun t a => if a = 2 then am t else 0, dt,
  fun _ _ => 0, fun _ a => if a = 2 then τ else 0,
  fun _ _ a => if a = 2 then 0 else 2, fun _ _ a => if a = 2 then 0 else 2, fun _ _ a => if a = 2 then 1 else 0, fun _ _ _ => 0, fun _ _ => τ⟩

/-- The robot stands still without torque. -/
noncomputable abbrev exVals : Vals := exSpin 0 (fun _ => 1 / 10) (fun _ => 0)

theorem exAtZ_ok (z : Nat → ℝ) (h : Heur) (seq : Nat → DState) (first : Bool) : (exAtZ z h seq first).p.Ok (exAtZ z h seq first).s := by
  intro t ht e he hact; exact ht

theorem exPlan_ok (h : Heur) : (exD h).p.Ok (exD h).s := by
  intro t ht e he hact; exact ht

end Dyn
end Verif
