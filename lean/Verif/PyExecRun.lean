import Verif.PyExecProps
import Mathlib.Data.List.TakeWhile
import Mathlib.Tactic.FinCases
import Mathlib.Data.Fintype.Card
import Mathlib.Data.Fin.VecNotation
import Mathlib.LinearAlgebra.Matrix.Notation

/-! Properties C145-C149: replaying a plan in the simulator. -/
namespace Verif
namespace PyExec

/-! ### C145: joint order and frames of the simulator -/

lemma assignAll_hit {n : Nat} (a : Nat → ℝ) (f : Fin n → Nat) (hf : Function.Injective f) (v : Fin n → ℝ) (i : Fin n) : assignAll a f v (f i) = v i := by
  unfold assignAll
  suffices h : ∀ (l : List (Fin n)) (a : Nat → ℝ), (i ∈ l ∨ a (f i) = v i) → l.foldl (fun a i c => if c = f i then v i else a c) a (f i) = v i from
    h _ _ (Or.inl (List.mem_finRange i))
  intro l
  induction l with
  | nil => intro a h; simpa using h
  | cons j l ih =>
    intro a h
    rw [List.foldl_cons]
    apply ih
    by_cases hj : i = j
    · right; simp [hj]
    · rcases h with h | h
      · left
        rcases List.mem_cons.1 h with h | h
        · exact absurd h hj
        · exact h
      · right
        beta_reduce
        rw [if_neg (fun e => hj (hf e)), h]

lemma assignAll_miss {n : Nat} (a : Nat → ℝ) (f : Fin n → Nat) (v : Fin n → ℝ) (c : Nat) (hc : ∀ i, f i ≠ c) : assignAll a f v c = a c := by
  unfold assignAll
  generalize List.finRange n = l
  induction l generalizing a with
  | nil => rfl
  | cons j l ih => rw [List.foldl_cons, ih]; exact if_neg (fun e => hc j e.symm)

/-- The pinocchio ids of the listed joints are those of all the actuated joints of the model, each once, in any order (0 is the universe and 1 the floating base). -/
def Joints.Complete {n : Nat} (j : Joints n) : Prop := Function.Injective j.pinId ∧ ∀ i, 2 ≤ j.pinId i ∧ j.pinId i < n + 2

lemma Joints.Complete.surj {n : Nat} {j : Joints n} (h : j.Complete) (k : Fin n) : ∃ i, j.pinId i = k + 2 := by
  let g : Fin n → Fin n := fun i => ⟨j.pinId i - 2, by have := h.2 i; omega⟩
  have hg : Function.Injective g := fun a b e => h.1 (by
    have e' : j.pinId a - 2 = j.pinId b - 2 := congrArg Fin.val e
    have := h.2 a
    have := h.2 b
    omega)
  obtain ⟨i, hi⟩ := (Finite.injective_iff_surjective.1 hg) k
  refine ⟨i, ?_⟩
  have e' : j.pinId i - 2 = k := congrArg Fin.val hi
  have := h.2 i
  omega

open Matrix in
/-- C145. Resetting the simulator to a configuration and velocity and reading the state back gives the same configuration (all `7 + n` entries) and velocity (all `6 + n` entries),
whatever the order of the joints in the simulator; `rot` maps a quaternion to its rotation matrix. -/
theorem C145_roundtrip {n : Nat} (j : Joints n) (hj : j.Complete) (rot : (Fin 4 → ℝ) → Matrix (Fin 3) (Fin 3) ℝ) (x : Pin)
    (hrot : (rot fun i => x.q (3 + i))ᵀ * rot (fun i => x.q (3 + i)) = 1) :
    (∀ c, c < 7 + n → (j.get rot (j.reset rot x)).q c = x.q c) ∧ ∀ c, c < 6 + n → (j.get rot (j.reset rot x)).dq c = x.dq c := by
  have inj : ∀ d, Function.Injective fun i => d + j.pinId i := fun d a b e => h_inj hj.1 d a b e
  have hv : ∀ v : Fin 3 → ℝ, (rot fun i => x.q (3 + i))ᵀ *ᵥ (rot (fun i => x.q (3 + i)) *ᵥ v) = v := fun v => by rw [mulVec_mulVec, hrot, one_mulVec]
  constructor
  · intro c hc
    by_cases h7 : c < 7
    · simp only [Joints.get, Joints.reset]
      rw [assignAll_miss _ _ _ _ (fun i => by have := hj.2 i; omega)]
      by_cases h3 : c < 3
      · rw [dif_pos h3]
      · rw [dif_neg h3, dif_pos (show c - 3 < 4 by omega)]
        show x.q (3 + (c - 3)) = x.q c
        congr 1; omega
    · obtain ⟨i, hi⟩ := hj.surj ⟨c - 7, by omega⟩
      have e : c = 5 + j.pinId i := by simp only at hi; omega
      simp only [Joints.get, Joints.reset]
      rw [e, assignAll_hit _ _ (inj 5)]
  · intro c hc
    by_cases h6 : c < 6
    · simp only [Joints.get, Joints.reset]
      rw [assignAll_miss _ _ _ _ (fun i => by have := hj.2 i; omega)]
      by_cases h3 : c < 3
      · rw [dif_pos h3, hv]
      · rw [dif_neg h3, dif_pos (show c - 3 < 3 by omega), hv]
        show x.dq (3 + (c - 3)) = x.dq c
        congr 1; omega
    · obtain ⟨i, hi⟩ := hj.surj ⟨c - 6, by omega⟩
      have e : c = 4 + j.pinId i := by simp only at hi; omega
      simp only [Joints.get, Joints.reset]
      rw [e, assignAll_hit _ _ (inj 4)]
where
  h_inj {n : Nat} {f : Fin n → Nat} (hf : Function.Injective f) (d : Nat) (a b : Fin n) (e : d + f a = d + f b) : a = b := hf (by omega)

/-- The rotation matrix of a quarter turn about the vertical axis meets the hypothesis on `rot`. -/
example : (!![0, -1, 0; 1, 0, 0; 0, 0, 1] : Matrix (Fin 3) (Fin 3) ℝ).transpose * !![0, -1, 0; 1, 0, 0; 0, 0, 1] = 1 := by
  ext i k
  fin_cases i <;> fin_cases k <;> simp [Matrix.mul_apply, Fin.sum_univ_succ]

/-- The torque meant for the joint listed at position `i`: `tau` has one entry per actuated joint in pinocchio's order, like `dq[6:]`, where that joint is entry `pinId i - 2`. -/
def Joints.meant {n : Nat} (j : Joints n) (tau : Fin n → ℝ) (i : Fin n) : Option ℝ := if h : j.pinId i - 2 < n then some (tau ⟨j.pinId i - 2, h⟩) else none

lemma Joints.pin2bullet_some {n : Nat} (j : Joints n) (hj : j.Complete) (k i : Fin n) : j.pin2bullet k = some i ↔ j.pinId i = k + 2 := by
  constructor
  · intro h
    simpa using List.find?_some h
  · intro h
    obtain ⟨i', hi'⟩ : ∃ i', j.pin2bullet k = some i' := by
      rw [← Option.isSome_iff_exists, Joints.pin2bullet, List.find?_isSome]
      exact ⟨i, List.mem_finRange i, by simpa using h⟩
    have : j.pinId i' = k + 2 := by simpa using List.find?_some hi'
    rw [hi', hj.1 (this.trans h.symm)]

/-- C145, partial: every joint receives the torque computed for it, for all torques, exactly when the order of the joints in the list is an involution relative to pinocchio's order
(the joint at the position given by the id of the joint at position `i` has the id given by `i`). Missing: arbitrary joint orders (see `C145_torque_violated`). -/
theorem C145_torque_partial {n : Nat} (j : Joints n) (hj : j.Complete) :
    (∀ (tau : Fin n → ℝ) (i : Fin n), j.send tau i = j.meant tau i) ↔ ∀ i k : Fin n, j.pinId i = k + 2 → j.pinId k = i + 2 := by
  have meant : ∀ (tau : Fin n → ℝ) (i k : Fin n), j.pinId i = k + 2 → j.meant tau i = some (tau k) := fun tau i k h => by
    have : j.pinId i - 2 = k := by omega
    rw [Joints.meant, dif_pos (by omega)]
    congr 2
    exact Fin.ext this
  constructor
  · intro h i k hk
    have h1 := h (fun m => (m : ℕ)) i
    obtain ⟨l, hl⟩ := hj.surj i
    rw [meant _ i k hk, Joints.send, (j.pin2bullet_some hj i l).2 hl] at h1
    simp only [Option.map_some, Option.some.injEq, Nat.cast_inj] at h1
    rw [← Fin.ext h1]; exact hl
  · intro h tau i
    have h2 := hj.2 i
    have hk := h i ⟨j.pinId i - 2, by omega⟩ (by simp only; omega)
    rw [meant tau i ⟨j.pinId i - 2, by omega⟩ (by simp only; omega), Joints.send, (j.pin2bullet_some hj i _).2 hk]
    rfl

/-- The eight joints of motion_execution.py:264 for a model that lists the front legs first: an involution, so the torques are right. -/
def soloJoints : Joints 8 := ⟨fun i => (i + 4) % 8 + 2⟩

example : soloJoints.Complete ∧ ∀ i k : Fin 8, soloJoints.pinId i = k + 2 → soloJoints.pinId k = i + 2 := by
  refine ⟨⟨?_, ?_⟩, ?_⟩
  · intro a b h; simp only [soloJoints] at h; omega
  · intro i; simp only [soloJoints]; omega
  · intro i k h; simp only [soloJoints] at h ⊢; omega

/-- C145 is violated for other joint orders: with three joints listed in a cyclic order the torque of joint 1 (pinocchio's second actuated joint, listed first) is sent to another joint. -/
theorem C145_torque_violated : ∃ j : Joints 3, j.Complete ∧ ∃ (tau : Fin 3 → ℝ) (i : Fin 3), j.send tau i ≠ j.meant tau i := by
  have hc : (⟨fun i => (i + 1) % 3 + 2⟩ : Joints 3).Complete := by
    refine ⟨?_, ?_⟩
    · intro a b h; simp only at h; omega
    · intro i; simp only; omega
  refine ⟨_, hc, ?_⟩
  by_contra hcon
  push Not at hcon
  have := (C145_torque_partial _ hc).1 hcon 0 1 (by decide)
  simp at this

/-! ### C146: which forces are applied when -/

/-- Consecutive entries of the time vector are at least a millisecond apart (every time step lasts at least as long as one pass). -/
def Spaced (times : List ℝ) : Prop := ∀ i (h : i + 1 < times.length), times[i] + 1 / 1000 ≤ times[i + 1]

lemma Spaced.mono {times : List ℝ} (h : Spaced times) (i j : Nat) (hij : i ≤ j) (hj : j < times.length) : times[i] ≤ times[j] := by
  induction j with
  | zero => have : i = 0 := by omega
            subst this; exact le_rfl
  | succ j ih =>
    rcases Nat.lt_or_eq_of_le hij with h' | h'
    · have := ih (by omega) (by omega)
      have := h j hj
      linarith
    · subst h'; exact le_rfl

/-- Specification: `k` is the first time step of the plan whose time is not before `t`. -/
def FirstAfter (times : List ℝ) (t : ℝ) (k : Nat) : Prop := ∃ h : k < times.length, t ≤ times[k] ∧ ∀ i (hi : i < times.length), i < k → times[i] < t

lemma timeId_some (times : List ℝ) (hsp : Spaced times) (hfst : ∀ h : 0 < times.length, (0 : ℝ) ≤ times[0]) :
    ∀ n k, timeId times n = some k → FirstAfter times (n / 1000) k
  | 0, k, h => by
    rw [timeId, tick] at h
    by_cases h1 : 0 < times.length
    swap
    · rw [dif_neg h1] at h; cases h
    rw [dif_pos h1] at h
    have := hfst h1
    have hneg : ¬ times[0] < ((0 : ℕ) : ℝ) / 1000 := by push_cast; linarith
    simp only [hneg, if_false, h1, if_true, Option.some.injEq] at h
    subst h
    exact ⟨h1, by push_cast; linarith, fun i _ hi => by omega⟩
  | n + 1, k, h => by
    rw [timeId] at h
    obtain ⟨id, hid, ht⟩ := Option.bind_eq_some_iff.1 h
    obtain ⟨hl, hle, hlt⟩ := timeId_some times hsp hfst n id hid
    rw [tick, dif_pos hl] at ht
    have hnn : ((n + 1 : ℕ) : ℝ) / 1000 = (n : ℝ) / 1000 + 1 / 1000 := by push_cast; ring
    by_cases hc : times[id] < ((n + 1 : ℕ) : ℝ) / 1000
    · simp only [hc, if_true] at ht
      split_ifs at ht with h2
      simp only [Option.some.injEq] at ht
      subst ht
      refine ⟨h2, ?_, ?_⟩
      · have := hsp id h2
        rw [hnn]; linarith
      · intro i hi hik
        exact lt_of_le_of_lt (hsp.mono i id (by omega) hl) hc
    · simp only [hc, if_false, hl, if_true, Option.some.injEq] at ht
      subst ht
      refine ⟨hl, not_lt.1 hc, fun i hi hik => ?_⟩
      have := hlt i hi hik
      rw [hnn]; linarith

/-- C146. If the time steps last at least a millisecond, the pass of the control loop at time `t = n / 1000`, if it is reached, applies the planned forces of the first time step of the plan
whose time is not before `t`; and it is reached as long as `t` is not beyond the end of the plan. -/
theorem C146_time_step (times : List ℝ) (hsp : Spaced times) (hfst : ∀ h : 0 < times.length, (0 : ℝ) ≤ times[0]) (n : Nat) :
    (∀ k, timeId times n = some k → FirstAfter times (n / 1000) k) ∧
    ((∃ k, timeId times n = some k) ↔ ∃ h : times.length - 1 < times.length, (n : ℝ) / 1000 ≤ times[times.length - 1]) := by
  refine ⟨timeId_some times hsp hfst n, ?_, ?_⟩
  · rintro ⟨k, hk⟩
    obtain ⟨h, h1, -⟩ := timeId_some times hsp hfst n k hk
    exact ⟨by omega, h1.trans (hsp.mono k _ (by omega) (by omega))⟩
  · rintro ⟨hl, h⟩
    induction n with
    | zero =>
      have h0 : 0 < times.length := by omega
      have := hfst h0
      have hneg : ¬ times[0] < ((0 : ℕ) : ℝ) / 1000 := by push_cast; linarith
      refine ⟨0, ?_⟩
      rw [timeId, tick, dif_pos h0]
      simp only [hneg, if_false, h0, if_true]
    | succ n ih =>
      have hnn : ((n + 1 : ℕ) : ℝ) / 1000 = (n : ℝ) / 1000 + 1 / 1000 := by push_cast; ring
      obtain ⟨id, hid⟩ := ih (by rw [hnn] at h; linarith)
      obtain ⟨hi, hle, -⟩ := timeId_some times hsp hfst n id hid
      rw [timeId, hid]
      simp only [Option.bind_some, tick, dif_pos hi]
      by_cases hc : times[id] < ((n + 1 : ℕ) : ℝ) / 1000
      · have : id ≠ times.length - 1 := by
          rintro rfl
          linarith
        refine ⟨id + 1, ?_⟩
        simp only [hc, if_true]
        rw [if_pos (by omega)]
      · refine ⟨id, ?_⟩
        simp only [hc, if_false, hi, if_true]

/-- The time vector of a four second plan with 41 steps of a tenth of a second. -/
example : Spaced ((List.range 41).map fun i : Nat => (i : ℝ) / 10) ∧ ∃ h : 40 < ((List.range 41).map fun i : Nat => (i : ℝ) / 10).length,
    ((3999 : ℕ) : ℝ) / 1000 ≤ ((List.range 41).map fun i : Nat => (i : ℝ) / 10)[40] := by
  refine ⟨?_, by simp, by norm_num⟩
  intro i h
  simp only [List.getElem_map, List.getElem_range]
  push_cast
  linarith

/-- C146 is violated for shorter plans: the loop always runs for 4000 passes, so executing any plan (with steps of at least a millisecond) that ends before 3.999 s fails with an `IndexError`. -/
theorem C146_short_plan_violated (times : List ℝ) (hsp : Spaced times) (hfst : ∀ h : 0 < times.length, (0 : ℝ) ≤ times[0])
    (hend : ∀ h : times.length - 1 < times.length, times[times.length - 1] < 3999 / 1000) : ∃ n, n < maxIterations ∧ timeId times n = none := by
  refine ⟨3999, by decide, ?_⟩
  by_contra h
  obtain ⟨k, hk⟩ := Option.ne_none_iff_exists'.1 h
  obtain ⟨hl, h1⟩ := (C146_time_step times hsp hfst 3999).2.1 ⟨k, hk⟩
  have := hend hl
  push_cast at h1
  linarith

/-- A two second plan is such a plan. -/
example : ∃ n, n < maxIterations ∧ timeId [0, 1, 2] n = none :=
  C146_short_plan_violated [0, 1, 2] (by intro i h; have : i < 2 := by { simp only [List.length_cons, List.length_nil] at h; omega }
                                         interval_cases i <;> norm_num) (by norm_num) (by norm_num)

/-- C146: with steps shorter than a millisecond the applied forces lag behind the plan: the third pass, at 2 ms, still uses step 2 of a plan that is already past it. -/
theorem C146_lag_violated : timeId [0, 1 / 4000, 2 / 4000, 1, 2] 2 = some 2 ∧ ¬ FirstAfter [0, 1 / 4000, 2 / 4000, 1, 2] (2 / 1000) 2 := by
  refine ⟨?_, ?_⟩
  · have h0 : tick [0, 1 / 4000, 2 / 4000, 1, 2] 0 0 = some 0 := by simp [tick]
    have h1 : tick [0, 1 / 4000, 2 / 4000, 1, 2] 0 1 = some 1 := by simp [tick]
    have h2 : tick [0, 1 / 4000, 2 / 4000, 1, 2] 1 2 = some 2 := by norm_num [tick]
    rw [timeId, timeId, timeId, h0]
    simp only [Option.bind_some]
    rw [h1]
    simp only [Option.bind_some]
    exact h2
  · rintro ⟨_, h, -⟩
    norm_num at h

/-! ### C147: the velocity behind the momentum feedback -/

/-- C147 is violated: for any pass after the first the configuration change of the last millisecond is divided by the time since the start of the motion, so the velocity fed back is the true one
divided by the number of the pass. -/
theorem C147_velocity_violated (n : Nat) (h1 : 1 ≤ n) (h2 : n < maxIterations) (v : ℝ) :
    momentumVelocity n (v * (1 / 1000)) = v / n := by
  have hn : (1 : ℝ) ≤ n := by exact_mod_cast h1
  have hd : deltaT n = (n : ℝ) / 1000 := by
    have hm : ¬ maxIterations - 1 < n := by omega
    rw [deltaT, if_neg (by omega), tVec, if_neg hm, sub_zero]
  have h3 : ¬ deltaT n < 1 / 100000000 := by rw [hd]; intro h; linarith
  rw [momentumVelocity, if_neg h3, hd]
  field_simp

example : momentumVelocity 100 (1 * (1 / 1000)) = 1 / 100 := by
  have := C147_velocity_violated 100 (by norm_num) (by decide) 1
  simpa using this

/-- C147, partial: the velocity fed back is right in the second pass (one millisecond into the motion). Missing: every later pass (see `C147_velocity_violated`). -/
theorem C147_velocity_partial (v : ℝ) : momentumVelocity 1 (v * (1 / 1000)) = v := by
  have := C147_velocity_violated 1 le_rfl (by decide) v
  simpa using this

/-! ### C148: torque limits -/

/-- C148. For limits in order the commanded torque is within them, unchanged if it was, and otherwise the nearer limit. -/
theorem C148_limit (lo hi t : ℝ) (h : lo ≤ hi) :
    lo ≤ limitTorque lo hi t ∧ limitTorque lo hi t ≤ hi ∧ (lo ≤ t → t ≤ hi → limitTorque lo hi t = t) ∧ (t < lo → limitTorque lo hi t = lo) ∧ (hi < t → limitTorque lo hi t = hi) := by
  unfold limitTorque
  refine ⟨?_, ?_, ?_, ?_, ?_⟩
  · dsimp only; split_ifs <;> linarith
  · dsimp only; split_ifs <;> linarith
  · intro h1 h2; dsimp only; rw [if_neg (not_lt.2 h1), if_neg (not_lt.2 h2)]
  · intro h1; dsimp only; rw [if_pos h1, if_neg (not_lt.2 h)]
  · intro h1; dsimp only; rw [if_neg (show ¬ t < lo by linarith), if_pos h1]

example : limitTorque (-2) 2 5 = 2 ∧ limitTorque (-2) 2 (-5) = -2 ∧ limitTorque (-2) 2 1 = 1 := by
  have h := C148_limit (-2) 2
  exact ⟨(h 5 (by norm_num)).2.2.2.2 (by norm_num), (h (-5) (by norm_num)).2.2.2.1 (by norm_num), (h 1 (by norm_num)).2.2.1 (by norm_num) (by norm_num)⟩

/-! ### C149: swing times -/

/-- Specification: `Swings rs l` if `l` lists the maximal runs of unloaded readings of `rs`, each from the time of its first reading to that of the first loaded reading after it,
with no end if there is none. -/
inductive Swings : List (ℝ × Bool) → List (ℝ × Option ℝ) → Prop
  | none (ground : List (ℝ × Bool)) : (∀ r ∈ ground, r.2 = false) → Swings ground []
  | open (ground : List (ℝ × Bool)) (a : ℝ) (air : List (ℝ × Bool)) : (∀ r ∈ ground, r.2 = false) → (∀ r ∈ air, r.2 = true) →
      Swings (ground ++ (a, true) :: air) [(a, Option.none)]
  | closed (ground : List (ℝ × Bool)) (a : ℝ) (air : List (ℝ × Bool)) (b : ℝ) (rest : List (ℝ × Bool)) (l : List (ℝ × Option ℝ)) :
      (∀ r ∈ ground, r.2 = false) → (∀ r ∈ air, r.2 = true) → Swings ((b, false) :: rest) l →
      Swings (ground ++ (a, true) :: air ++ (b, false) :: rest) ((a, some b) :: l)

lemma fold_ground (ground : List (ℝ × Bool)) (h : ∀ r ∈ ground, r.2 = false) (l : List (ℝ × Option ℝ)) (hl : ∀ a, l.getLast? ≠ some (a, none)) :
    ground.foldl swingStep l = l := by
  induction ground with
  | nil => rfl
  | cons r g ih =>
    rw [List.foldl_cons]
    have : swingStep l r = l := by
      rw [swingStep, if_neg (by simp [h r (by simp)])]
      split
      · rename_i a e; exact absurd e (hl a)
      · rfl
    rw [this]
    exact ih fun r hr => h r (by simp [hr])

lemma fold_air (air : List (ℝ × Bool)) (h : ∀ r ∈ air, r.2 = true) (l : List (ℝ × Option ℝ)) (a : ℝ) (hl : l.getLast? = some (a, none)) : air.foldl swingStep l = l := by
  induction air with
  | nil => rfl
  | cons r g ih =>
    rw [List.foldl_cons]
    have : swingStep l r = l := by rw [swingStep, if_pos (h r (by simp)), hl]
    rw [this]
    exact ih fun r hr => h r (by simp [hr])

lemma step_start (l : List (ℝ × Option ℝ)) (hl : ∀ a, l.getLast? ≠ some (a, none)) (a : ℝ) : swingStep l (a, true) = l ++ [(a, none)] := by
  rw [swingStep, if_pos rfl]
  split
  · rename_i e; rw [List.getLast?_eq_none_iff.1 e]; rfl
  · rfl
  · rename_i a' e; exact absurd e (hl a')

lemma step_end (l : List (ℝ × Option ℝ)) (a b : ℝ) : swingStep (l ++ [(a, none)]) (b, false) = l ++ [(a, some b)] := by
  rw [swingStep, if_neg (by simp)]
  simp

lemma fold_acc : ∀ (rs : List (ℝ × Bool)) (acc l : List (ℝ × Option ℝ)), (∀ a, acc.getLast? ≠ some (a, none)) →
    rs.foldl swingStep (acc ++ l) = acc ++ rs.foldl swingStep l
  | [], acc, l, _ => rfl
  | r :: rs, acc, l, h => by
    rw [List.foldl_cons, List.foldl_cons, ← fold_acc rs acc _ h]
    congr 1
    rcases List.eq_nil_or_concat l with rfl | ⟨l', x, rfl⟩
    · rw [List.append_nil]
      cases hr : r.2
      · rw [swingStep, if_neg (by simp [hr]), swingStep, if_neg (by simp [hr])]
        split
        · rename_i a e; exact absurd e (h a)
        · simp
      · have hr' : r = (r.1, true) := by rw [← hr]
        rw [hr', step_start acc h, step_start [] (by simp)]
        rfl
    · rw [List.concat_eq_append]
      have e1 : (acc ++ (l' ++ [x])).getLast? = some x := by rw [← List.append_assoc, List.getLast?_concat]
      have e2 : (l' ++ [x]).getLast? = some x := List.getLast?_concat
      simp only [swingStep, e1, e2]
      rcases x with ⟨a, o⟩
      have hd : (acc ++ (l' ++ [(a, o)])).dropLast = acc ++ l' := by rw [← List.append_assoc, List.dropLast_concat]
      have hd2 : (l' ++ [(a, o)]).dropLast = l' := List.dropLast_concat
      cases o <;> cases hr : r.2 <;> simp only [hd, hd2, if_true, Bool.false_eq_true, if_false, List.append_assoc]

lemma swings_exists : ∀ (n : Nat) (rs : List (ℝ × Bool)), rs.length ≤ n → Swings rs (swingTimes rs) := by
  intro n
  induction n with
  | zero =>
    intro rs h
    have : rs = [] := List.length_eq_zero_iff.1 (by omega)
    subst this
    exact Swings.none [] (by simp)
  | succ n ih =>
    intro rs hlen
    obtain ⟨ground, rest, hrs, hg, hrest⟩ : ∃ ground rest, rs = ground ++ rest ∧ (∀ r ∈ ground, r.2 = false) ∧ ∀ r, rest.head? = some r → r.2 = true := by
      refine ⟨rs.takeWhile (fun r => !r.2), rs.dropWhile (fun r => !r.2), List.takeWhile_append_dropWhile.symm, ?_, ?_⟩
      · intro r hr; simpa using List.mem_takeWhile_imp hr
      · intro r hr
        have := List.head?_dropWhile_not (fun r : ℝ × Bool => !r.2) rs
        rw [hr] at this
        simpa using this
    cases rest with
    | nil =>
      rw [List.append_nil] at hrs
      subst hrs
      have : swingTimes rs = [] := fold_ground rs hg [] (by simp)
      rw [this]
      exact Swings.none rs hg
    | cons r rest =>
      obtain ⟨a, b0⟩ := r
      have hb : b0 = true := hrest _ rfl
      subst hb
      have hstart : swingTimes rs = rest.foldl swingStep [(a, none)] := by
        rw [hrs, swingTimes, List.foldl_append, fold_ground ground hg [] (by simp), List.foldl_cons, step_start [] (by simp)]; rfl
      obtain ⟨air, tail, ht, ha, htail⟩ : ∃ air tail, rest = air ++ tail ∧ (∀ r ∈ air, r.2 = true) ∧ ∀ r, tail.head? = some r → r.2 = false := by
        refine ⟨rest.takeWhile (fun r => r.2), rest.dropWhile (fun r => r.2), List.takeWhile_append_dropWhile.symm, ?_, ?_⟩
        · intro r hr; simpa using List.mem_takeWhile_imp hr
        · intro r hr
          have := List.head?_dropWhile_not (fun r : ℝ × Bool => r.2) rest
          rw [hr] at this
          simpa using this
      cases tail with
      | nil =>
        rw [List.append_nil] at ht
        subst ht
        rw [hstart, fold_air rest ha _ a rfl, hrs]
        exact Swings.open ground a rest hg ha
      | cons r tail =>
        obtain ⟨b, c0⟩ := r
        have hc : c0 = false := htail _ rfl
        subst hc
        have hlen' : ((b, false) :: tail).length ≤ n := by
          rw [hrs, ht] at hlen
          simp at hlen ⊢
          omega
        have h1 : swingTimes rs = (a, some b) :: swingTimes ((b, false) :: tail) := by
          rw [hstart, ht, List.foldl_append, fold_air air ha _ a rfl, List.foldl_cons]
          have e := step_end [] a b
          simp only [List.nil_append] at e
          rw [e]
          have e2 := fold_acc tail [(a, some b)] [] (by simp)
          rw [List.append_nil] at e2
          rw [e2, swingTimes, List.foldl_cons]
          have e3 : swingStep [] (b, false) = [] := by simp [swingStep]
          rw [e3]; rfl
        rw [h1, hrs, ht]
        have := Swings.closed ground a air b tail _ hg ha (ih _ hlen')
        simpa using this

/-- C149. The swing times recorded for an end-effector are the maximal runs of unloaded force readings, for every sequence of readings. -/
theorem C149_swing_times (rs : List (ℝ × Bool)) : Swings rs (swingTimes rs) := swings_exists _ rs le_rfl

example : swingTimes [(0, false), (1, true), (2, true), (3, false), (4, true)] = [(1, some 3), (4, none)] := by
  simp [swingTimes, swingStep]

/-- C149 is violated as a record of swing phases: while an end-effector is clear of the ground the simulator reports no contact point for it, hence no reading, and the phase leaves no trace: whatever the
end-effector did in the passes without contact points, the recorded swing times are empty when all reported forces are at least 1e-3. -/
theorem C149_clear_of_ground_violated (passes : List (ℝ × List ℝ)) (h : ∀ r ∈ passes, ∀ s ∈ r.2, 1 / 1000 ≤ s) : swingTimes (footReadings passes) = [] := by
  refine fold_ground _ ?_ [] (by simp)
  intro r hr
  simp only [footReadings, List.mem_flatMap, List.mem_map] at hr
  obtain ⟨p, hp, s, hs, rfl⟩ := hr
  have := h p hp s hs
  simp only [decide_eq_false_iff_not, not_lt]
  exact this

/-- Contact, then two seconds in the air without a contact point, then contact. -/
example : swingTimes (footReadings [(0, [10]), (1, []), (2, []), (3, [10])]) = [] :=
  C149_clear_of_ground_violated _ (by simp; norm_num)

end PyExec
end Verif
