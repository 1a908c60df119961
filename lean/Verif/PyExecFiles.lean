import Verif.PyExecProps
import Mathlib.Tactic.FinCases

/-! Properties C143, C144, C150: the exported files. -/
namespace Verif
namespace PyExec

/-! ### C143: create_file -/

lemma getLastD_eq (times : List ℝ) (h : times.length - 1 < times.length) : times.getLastD 0 = times[times.length - 1] := by
  cases times with
  | nil => simp at h
  | cons x l =>
    rw [List.getLastD_cons, List.getLastD_eq_getLast?, List.getLast?_eq_getElem?]
    cases l with
    | nil => simp
    | cons y l => simp

lemma pyRound_spec (x : ℝ) : |(pyRound x : ℝ) - x| ≤ 1 / 2 := by
  have h1 := Int.floor_le x
  have h2 := Int.lt_floor_add_one x
  rw [pyRound, abs_le]
  split_ifs with a b c <;> push_cast <;> constructor <;> linarith

lemma filePoints_bounds (times : List ℝ) (h : 0 ≤ times.getLastD 0) : |(filePoints times : ℝ) - 1000 * times.getLastD 0| ≤ 1 / 2 := by
  have h1 := pyRound_spec (times.getLastD 0 * 1000)
  have h2 : 0 ≤ pyRound (times.getLastD 0 * 1000) := by
    have h3 := (abs_le.1 h1).1
    have h4 : (-1 : ℝ) < (pyRound (times.getLastD 0 * 1000) : ℝ) := by nlinarith
    have h5 : (-1 : ℤ) < pyRound (times.getLastD 0 * 1000) := by exact_mod_cast h4
    omega
  have h3 : ((filePoints times : ℕ) : ℝ) = (pyRound (times.getLastD 0 * 1000) : ℝ) := by
    rw [filePoints]
    have := Int.toNat_of_nonneg h2
    exact_mod_cast congrArg (fun z : ℤ => (z : ℝ)) this
  rw [h3, mul_comm 1000]
  exact h1

/-- C143. The files written by `create_file` have one row per millisecond up to the end of the plan (to within half a millisecond), every row lies inside the plan, and row `i` holds
`scale` times the interpolated quantity at `i` milliseconds (the scale is 1, or the robot weight for the forces, which the plan stores divided by it). -/
theorem C143_rows (times : List ℝ) (state : Nat → ℝ) (scale : ℝ) (h0 : times ≠ []) (hs : times.Pairwise (· < ·)) (h00 : times.head h0 = 0) :
    |(filePoints times : ℝ) - 1000 * times.getLastD 0| ≤ 1 / 2 ∧
    ∀ i, i < filePoints times → 0 ≤ (i : ℝ) / 1000 ∧ (i : ℝ) / 1000 < times.getLastD 0 ∧
      ∃ v, dumpEntry times state scale i = some (scale * v) ∧ Interp times state (i / 1000) v := by
  have hn : 0 < times.length := List.length_pos_iff.2 h0
  have hl : 0 ≤ times.getLastD 0 := by
    rw [getLastD_eq times (by omega), ← h00, List.head_eq_getElem]
    rw [List.pairwise_iff_getElem] at hs
    by_cases h1 : times.length = 1
    · simp [h1]
    · exact (hs 0 (times.length - 1) hn (by omega) (by omega)).le
  have hb := filePoints_bounds times hl
  refine ⟨hb, fun i hi => ⟨by positivity, ?_, ?_⟩⟩
  · have h1 := (abs_le.1 hb).2
    have h2 : ((i : ℝ) + 1) ≤ filePoints times := by exact_mod_cast hi
    linarith
  · obtain ⟨v, hv, hi⟩ := C141_interpolation times state (i / 1000) h0 hs
    exact ⟨v, by rw [dumpEntry, hv]; rfl, hi⟩

example : [(0 : ℝ), 1 / 10, 1 / 2] ≠ [] ∧ [(0 : ℝ), 1 / 10, 1 / 2].Pairwise (· < ·) ∧ 7 < filePoints [(0 : ℝ), 1 / 10, 1 / 2] := by
  refine ⟨by simp, by norm_num, ?_⟩
  have h := (abs_le.1 (filePoints_bounds [(0 : ℝ), 1 / 10, 1 / 2] (by norm_num))).1
  have : (7 : ℝ) < filePoints [(0 : ℝ), 1 / 10, 1 / 2] := by norm_num at h; linarith
  exact_mod_cast this

/-- Squared norm of the exported base quaternion of a row (absent if the row cannot be computed). -/
noncomputable def quatNormSq (times : List ℝ) (p : Plan) (i : Nat) : Option ℝ := do
  let a ← dumpEntry times (fun it => p.quat it 0) 1 i
  let b ← dumpEntry times (fun it => p.quat it 1) 1 i
  let c ← dumpEntry times (fun it => p.quat it 2) 1 i
  let d ← dumpEntry times (fun it => p.quat it 3) 1 i
  return a ^ 2 + b ^ 2 + c ^ 2 + d ^ 2

lemma Interp.common {times : List ℝ} (h0 : times ≠ []) (hs : times.Pairwise (· < ·)) (t : ℝ) :
    ∃ (i j : Nat) (θ : ℝ), i < times.length ∧ j < times.length ∧ 0 ≤ θ ∧ θ ≤ 1 ∧ ∀ state v, Interp times state t v → v = (1 - θ) * state i + θ * state j := by
  have hn : 0 < times.length := List.length_pos_iff.2 h0
  rw [List.pairwise_iff_getElem] at hs
  rcases cover times h0 t with ⟨h, h'⟩ | ⟨h, h'⟩ | ⟨i, h, h', h''⟩
  · exact ⟨0, 0, 0, hn, hn, le_rfl, zero_le_one, fun s v hv => by rw [hv.1 h h']; ring⟩
  · exact ⟨_, _, 0, h, h, le_rfl, zero_le_one, fun s v hv => by rw [hv.2.1 h h']; ring⟩
  · have hd : 0 < times[i + 1] - times[i] := sub_pos.2 (hs i (i + 1) (by omega) h (by omega))
    exact ⟨i, i + 1, _, by omega, h, div_nonneg (by linarith) hd.le, (div_le_one hd).2 (by linarith), fun s v hv => hv.2.2 i h h' h''⟩

/-- C143, partial: what holds of the exported base orientation is that its norm never exceeds one. Missing: norm one (see `C143_quaternion_violated`). -/
theorem C143_quaternion_partial (times : List ℝ) (p : Plan) (i : Nat) (h0 : times ≠ []) (hs : times.Pairwise (· < ·))
    (hq : ∀ it, it < times.length → p.quat it 0 ^ 2 + p.quat it 1 ^ 2 + p.quat it 2 ^ 2 + p.quat it 3 ^ 2 = 1) :
    ∃ s, quatNormSq times p i = some s ∧ s ≤ 1 := by
  obtain ⟨k, l, θ, hk, hl, t0, t1, hc⟩ := Interp.common h0 hs ((i : ℝ) / 1000)
  obtain ⟨a, ha, ia⟩ := C141_interpolation times (fun it => p.quat it 0) (i / 1000) h0 hs
  obtain ⟨b, hb, ib⟩ := C141_interpolation times (fun it => p.quat it 1) (i / 1000) h0 hs
  obtain ⟨c, hcc, ic⟩ := C141_interpolation times (fun it => p.quat it 2) (i / 1000) h0 hs
  obtain ⟨d, hd, id⟩ := C141_interpolation times (fun it => p.quat it 3) (i / 1000) h0 hs
  refine ⟨a ^ 2 + b ^ 2 + c ^ 2 + d ^ 2, by simp [quatNormSq, dumpEntry, ha, hb, hcc, hd], ?_⟩
  have ea := hc _ _ ia
  have eb := hc _ _ ib
  have ec := hc _ _ ic
  have ed := hc _ _ id
  have q1 := hq k hk
  have q2 := hq l hl
  beta_reduce at ea eb ec ed
  have hθ : 0 ≤ θ * (1 - θ) := mul_nonneg t0 (by linarith)
  have key : 0 ≤ θ * (1 - θ) * ((p.quat k 0 - p.quat l 0) ^ 2 + (p.quat k 1 - p.quat l 1) ^ 2 + (p.quat k 2 - p.quat l 2) ^ 2 + (p.quat k 3 - p.quat l 3) ^ 2) :=
    mul_nonneg hθ (by positivity)
  have : a ^ 2 + b ^ 2 + c ^ 2 + d ^ 2 =
      (1 - θ) * (p.quat k 0 ^ 2 + p.quat k 1 ^ 2 + p.quat k 2 ^ 2 + p.quat k 3 ^ 2) + θ * (p.quat l 0 ^ 2 + p.quat l 1 ^ 2 + p.quat l 2 ^ 2 + p.quat l 3 ^ 2) -
        θ * (1 - θ) * ((p.quat k 0 - p.quat l 0) ^ 2 + (p.quat k 1 - p.quat l 1) ^ 2 + (p.quat k 2 - p.quat l 2) ^ 2 + (p.quat k 3 - p.quat l 3) ^ 2) := by
    rw [ea, eb, ec, ed]; ring
  rw [this, q1, q2]
  linarith

/-- A plan whose entries are all zero except as given below. -/
def zeroPlan (n : Nat) : Plan :=
  ⟨n, fun _ _ => 0, fun _ _ => 0, fun _ _ _ => 0, fun _ _ _ => 0, fun _ _ _ => 0, fun _ _ _ => 0, fun _ _ => 0, fun _ _ => 0, fun _ _ => 0, fun _ _ => 0,
    fun _ _ => 0, fun _ _ _ => 0, fun _ _ _ => 0, fun _ _ => 0⟩

/-- A plan turning the base by a half turn about its x axis in one second: unit quaternions (0,0,0,1) and (1,0,0,0). -/
def turnPlan : Plan := { zeroPlan 4 with quat := fun it k => if (it = 0 ∧ k = 3) ∨ (it = 1 ∧ k = 0) then 1 else 0 }

lemma two_times : [(0 : ℝ), 1] ≠ [] ∧ [(0 : ℝ), 1].Pairwise (· < ·) := ⟨by simp, by norm_num⟩

lemma eval_two (state : Nat → ℝ) (t : ℝ) (h0 : 0 ≤ t) (h1 : t ≤ 1) : evalAt [0, 1] state t = some ((1 - t) * state 0 + t * state 1) := by
  obtain ⟨v, hv, -, -, h⟩ := C141_interpolation [0, 1] state t two_times.1 two_times.2
  rw [hv, h 0 (by simp) (by simpa using h0) (by simpa using h1)]
  simp

/-- C143 is violated: between two unit quaternions the exported one is not a unit quaternion (here its squared norm is 1/2). -/
theorem C143_quaternion_violated :
    (∀ it, it < 2 → turnPlan.quat it 0 ^ 2 + turnPlan.quat it 1 ^ 2 + turnPlan.quat it 2 ^ 2 + turnPlan.quat it 3 ^ 2 = 1) ∧
      500 < filePoints [0, 1] ∧ quatNormSq [0, 1] turnPlan 500 = some (1 / 2) := by
  refine ⟨?_, ?_, ?_⟩
  · intro it h; interval_cases it <;> simp [turnPlan]
  · have h := (abs_le.1 (filePoints_bounds [0, 1] (by norm_num))).1
    have : (500 : ℝ) < filePoints [0, 1] := by norm_num at h; linarith
    exact_mod_cast this
  · have e : ((500 : ℕ) : ℝ) / 1000 = 1 / 2 := by norm_num
    simp only [quatNormSq, dumpEntry, e]
    rw [eval_two _ _ (by norm_num) (by norm_num), eval_two _ _ (by norm_num) (by norm_num), eval_two _ _ (by norm_num) (by norm_num),
      eval_two _ _ (by norm_num) (by norm_num)]
    simp [turnPlan]
    norm_num

/-! ### C144: create_qp_files, create_lqr_files -/

/-- The legs in the order of the planner and in the order the impedance controller expects (comment in create_data_file.py:122-124). -/
inductive Leg
  | FR | FL | HR | HL

/-- Leg of end-effector `e` of the plan. -/
def planLeg : Fin 4 → Leg
  | 0 => .FR
  | 1 => .FL
  | 2 => .HR
  | 3 => .HL

/-- Leg of block `e` of a row of a file. -/
def fileLeg : Fin 4 → Leg
  | 0 => .FL
  | 1 => .FR
  | 2 => .HL
  | 3 => .HR

/-- C144. In the files of `create_qp_files` the block of leg `e` in the controller's order holds the interpolated quantity of that same leg, whatever the trajectories of the legs are. -/
theorem C144_leg_order (times : List ℝ) (state : Nat → Nat → Nat → ℝ) (traj : Leg → Nat → Nat → ℝ) (h0 : times ≠ []) (hs : times.Pairwise (· < ·))
    (hst : ∀ it (e : Fin 4) k, state it e k = traj (planLeg e) it k) (i : Nat) (e : Fin 4) (k : Nat) (hk : k < 3) :
    ∃ v, qpFinal times state i e k = some v ∧ qpLeg times state i e k = some v ∧ Interp times (fun it => traj (fileLeg e) it k) (i / 1000) v := by
  obtain ⟨v, hv, hi⟩ := C141_interpolation times (fun it => traj (fileLeg e) it k) (i / 1000) h0 hs
  have h0' : ∀ it, state it 0 k = traj .FR it k := fun it => hst it 0 k
  have h1' : ∀ it, state it 1 k = traj .FL it k := fun it => hst it 1 k
  have h2' : ∀ it, state it 2 k = traj .HR it k := fun it => hst it 2 k
  have h3' : ∀ it, state it 3 k = traj .HL it k := fun it => hst it 3 k
  have : qpLeg times state i e k = some v := by
    rw [← hv]
    fin_cases e
    · simp only [qpLeg, swapPairs, fileLeg, h1']
    · simp only [qpLeg, swapPairs, fileLeg, h0']
    · simp only [qpLeg, swapPairs, fileLeg, h3']
    · simp only [qpLeg, swapPairs, fileLeg, h2']
  exact ⟨v, by rw [qpFinal, if_pos hk, this], this, hi⟩

/-- C144: the rotational half of the six entries of a leg is zero, and the exported velocity of the center of mass is the interpolated linear momentum divided by the mass (weight / 9.81). -/
theorem C144_rest (times : List ℝ) (p : Plan) (w : ℝ) (state : Nat → Nat → Nat → ℝ) (h0 : times ≠ []) (hs : times.Pairwise (· < ·)) (i e k : Nat) :
    (3 ≤ k → qpFinal times state i e k = some 0) ∧
    ∃ v, qpComVel times p w i k = some (v / (w / (981 / 100))) ∧ Interp times (fun it => p.lmom it k) (i / 1000) v := by
  refine ⟨fun h => by rw [qpFinal, if_neg (by omega)], ?_⟩
  obtain ⟨v, hv, hi⟩ := C141_interpolation times (fun it => p.lmom it k) (i / 1000) h0 hs
  exact ⟨v, by rw [qpComVel, hv]; rfl, hi⟩

/-- C144: the rows cover the plan: the number of rows is a multiple of 1000 within one millisecond below and one second above the end of the plan; the rows after the end repeat the last sample. -/
theorem C144_points (times : List ℝ) (state : Nat → ℝ) (h0 : times ≠ []) (hs : times.Pairwise (· < ·)) (hl : 0 ≤ times.getLastD 0) :
    1000 ∣ qpPoints times ∧ 1000 * times.getLastD 0 - 1 ≤ qpPoints times ∧ (qpPoints times : ℝ) < 1000 * times.getLastD 0 + 1000 ∧
    ∀ i : Nat, times.getLastD 0 ≤ (i : ℝ) / 1000 → evalAt times state (i / 1000) = some (state (times.length - 1)) := by
  have hn : 0 < times.length := List.length_pos_iff.2 h0
  set T := times.getLastD 0 with hT
  have h1 := Int.floor_le T
  have h2 := Int.lt_floor_add_one T
  have h3 : 0 ≤ ⌊T⌋ := Int.floor_nonneg.2 hl
  have h4 : ((⌊T⌋.toNat : ℕ) : ℝ) = (⌊T⌋ : ℝ) := by
    exact_mod_cast congrArg (fun z : ℤ => (z : ℝ)) (Int.toNat_of_nonneg h3)
  refine ⟨Dvd.intro_left _ rfl, ?_, ?_, ?_⟩
  · simp only [qpPoints, ← hT]
    split_ifs with h <;> push_cast <;> rw [h4] <;> linarith
  · simp only [qpPoints, ← hT]
    split_ifs with h <;> push_cast <;> rw [h4] <;> linarith
  · intro i hi
    obtain ⟨v, hv, -, h, -⟩ := C141_interpolation times state (i / 1000) h0 hs
    rw [hv, h (by omega) (by rw [← getLastD_eq times (by omega)]; exact hi)]

example : 0 ≤ [(0 : ℝ), 1 / 2, 3 / 2].getLastD 0 ∧ [(0 : ℝ), 1 / 2, 3 / 2].Pairwise (· < ·) := by norm_num

/-- C144: the exported centroidal wrench is the total of the contact forces in newtons and of their moments about the center of mass. -/
theorem C144_centroidal (p : Plan) (w : ℝ) (it k : Nat) :
    centroidalForce p w it k = ∑ e ∈ Finset.range p.neff, w * p.force it e k ∧
    centroidalMoment p w it 0 = ∑ e ∈ Finset.range p.neff,
      ((p.dynEff it e 1 - p.dynCom it 1) * (w * p.force it e 2) - (p.dynEff it e 2 - p.dynCom it 2) * (w * p.force it e 1)) ∧
    centroidalMoment p w it 1 = ∑ e ∈ Finset.range p.neff,
      ((p.dynEff it e 2 - p.dynCom it 2) * (w * p.force it e 0) - (p.dynEff it e 0 - p.dynCom it 0) * (w * p.force it e 2)) ∧
    centroidalMoment p w it 2 = ∑ e ∈ Finset.range p.neff,
      ((p.dynEff it e 0 - p.dynCom it 0) * (w * p.force it e 1) - (p.dynEff it e 1 - p.dynCom it 1) * (w * p.force it e 0)) := by
  have fold : ∀ (n : Nat) (f : Nat → ℝ), (List.range n).foldl (fun a e => a + f e) 0 = ∑ e ∈ Finset.range n, f e := by
    intro n f
    induction n with
    | zero => simp
    | succ n ih => rw [List.range_succ, List.foldl_append, ih, Finset.sum_range_succ]; rfl
  refine ⟨?_, ?_, ?_, ?_⟩
  · rw [centroidalForce, fold]; exact Finset.sum_congr rfl fun e _ => by ring
  all_goals
    rw [centroidalMoment, fold]
    exact Finset.sum_congr rfl fun e _ => by simp only [cross]; ring

/-- A plan in which the joints move and the feet do not move relative to the hips. -/
def jointPlan : Plan := { zeroPlan 4 with q := fun it c => if c = 0 then it else 0, dq := fun _ c => if c = 0 then 1 else 0 }

/-- C144 is violated: `create_qp_files` writes the joint positions to quadruped_positions.dat but end-effector velocities to quadruped_velocities.dat: here joint 0 moves at unit speed
and its position rises in the file while its column of the velocity file is 0. -/
theorem C144_velocities_violated :
    (∀ it : Nat, evalAt [0, 1] (fun it => jointPlan.dq it 0) (it / 1000 : ℝ) = some 1 ∨ 1000 < it) ∧
    qpPositionFile [0, 1] jointPlan 500 0 = some (1 / 2) ∧ qpVelocityFile [0, 1] jointPlan 500 0 = some 0 := by
  have e : ((500 : ℕ) : ℝ) / 1000 = 1 / 2 := by norm_num
  refine ⟨?_, ?_, ?_⟩
  · intro it
    by_cases h : 1000 < it
    · exact Or.inr h
    · left
      have h' : ((it : ℕ) : ℝ) ≤ 1000 := by exact_mod_cast not_lt.1 h
      rw [eval_two _ _ (by positivity) (by rw [div_le_one (by norm_num)]; exact h')]
      simp [jointPlan]
  · rw [qpPositionFile, e, eval_two _ _ (by norm_num) (by norm_num)]; simp [jointPlan]
  · simp only [qpVelocityFile, qpFinal, qpLeg, swapPairs, e]
    rw [eval_two _ _ (by norm_num) (by norm_num)]
    simp [jointPlan, zeroPlan]

/-- A plan in which leg FR (end-effector 0) alone stands at a height of one metre. -/
def highPlan : Plan := { zeroPlan 4 with effPosAbs := fun _ e k => if e = 0 ∧ k = 2 then 1 else 0 }

/-- C144 is violated: the two functions that export absolute end-effector positions order the legs differently: the leg in block 1 of the one is in block 3 of the other. -/
theorem C144_abs_order_violated :
    qpAbsFile [0, 1] highPlan 0 1 2 = some 1 ∧ qpAbsFile [0, 1] highPlan 0 3 2 = some 0 ∧
    lqrAbsFile [0, 1] highPlan 0 1 2 = some 0 ∧ lqrAbsFile [0, 1] highPlan 0 3 2 = some 1 := by
  have e : ((0 : ℕ) : ℝ) / 1000 = 0 := by norm_num
  refine ⟨?_, ?_, ?_, ?_⟩ <;> simp only [qpAbsFile, lqrAbsFile, qpLeg, swapPairs, swapOuter, e] <;>
    rw [eval_two _ _ (by norm_num) (by norm_num)] <;> simp [highPlan]

/-! ### C150: contact activation -/

/-- C150, partial: for planned normal forces that are not negative the contact flag of a leg is raised exactly when one of the two samples around the row has a positive normal force for
that leg (the one sample, at a sample time or beyond the ends). Missing: agreement with the phase the plan is in (see `C150_contact_violated`). -/
theorem C150_contact_partial (times : List ℝ) (p : Plan) (traj : Leg → Nat → ℝ) (hs : times.Pairwise (· < ·))
    (hst : ∀ it (e : Fin 4), p.force it e 2 = traj (planLeg e) it) (hpos : ∀ l it, 0 ≤ traj l it) (i : Nat) (j : Fin 4) :
    (∀ s (h : s + 1 < times.length), times[s] < (i : ℝ) / 1000 → (i : ℝ) / 1000 < times[s + 1] →
      qpContact times p i j = some (decide (0 < traj (fileLeg j) s ∨ 0 < traj (fileLeg j) (s + 1)))) ∧
    ∀ s (h : s < times.length), (i : ℝ) / 1000 = times[s] → qpContact times p i j = some (decide (0 < traj (fileLeg j) s)) := by
  have leg : ∀ v, evalAt times (fun it => traj (fileLeg j) it) (i / 1000) = some v → qpContact times p i j = some (decide (0 < v)) := by
    intro v hv
    have h0' : ∀ it, p.force it 0 2 = traj .FR it := fun it => hst it 0
    have h1' : ∀ it, p.force it 1 2 = traj .FL it := fun it => hst it 1
    have h2' : ∀ it, p.force it 2 2 = traj .HR it := fun it => hst it 2
    have h3' : ∀ it, p.force it 3 2 = traj .HL it := fun it => hst it 3
    have : qpLeg times p.force i j 2 = some v := by
      rw [← hv]
      fin_cases j
      · simp only [qpLeg, swapPairs, fileLeg, h1']
      · simp only [qpLeg, swapPairs, fileLeg, h0']
      · simp only [qpLeg, swapPairs, fileLeg, h3']
      · simp only [qpLeg, swapPairs, fileLeg, h2']
    rw [qpContact, this]; rfl
  constructor
  · intro s h h1 h2
    have h0 : times ≠ [] := by rintro rfl; simp at h
    obtain ⟨v, hv, -, -, h3⟩ := C141_interpolation times (fun it => traj (fileLeg j) it) (i / 1000) h0 hs
    rw [leg v hv, h3 s h h1.le h2.le]
    beta_reduce
    congr 1
    rw [decide_eq_decide]
    have hd : 0 < times[s + 1] - times[s] := by linarith
    have a1 : 0 < ((i : ℝ) / 1000 - times[s]) / (times[s + 1] - times[s]) := div_pos (by linarith) hd
    have a2 : ((i : ℝ) / 1000 - times[s]) / (times[s + 1] - times[s]) < 1 := (div_lt_one hd).2 (by linarith)
    have p1 := hpos (fileLeg j) s
    have p2 := hpos (fileLeg j) (s + 1)
    constructor
    · intro hh
      by_contra hc
      push Not at hc
      have e1 : traj (fileLeg j) s = 0 := le_antisymm hc.1 p1
      have e2 : traj (fileLeg j) (s + 1) = 0 := le_antisymm hc.2 p2
      rw [e1, e2] at hh
      simp at hh
    · rintro (hh | hh)
      · have := mul_pos (sub_pos.2 a2) hh
        have := mul_nonneg a1.le p2
        linarith
      · have := mul_nonneg (sub_pos.2 a2).le p1
        have := mul_pos a1 hh
        linarith
  · intro s h h1
    have := (C141_samples_and_bounds times (fun it => traj (fileLeg j) it) hs).1 s h
    rw [← h1] at this
    exact leg _ this

/-- A plan in which leg FR is unloaded at the first sample and loaded at the second. -/
def landPlan : Plan := { zeroPlan 4 with force := fun it e k => if it = 1 ∧ e = 0 ∧ k = 2 then 1 else 0 }

/-- C150 is violated: the leg is unloaded during the whole first time step of the plan (it lands at one second), but the exported flag reports contact from its first millisecond on. -/
theorem C150_contact_violated : landPlan.force 0 0 2 = 0 ∧ qpContact [0, 1] landPlan 0 1 = some false ∧ qpContact [0, 1] landPlan 1 1 = some true := by
  refine ⟨by simp [landPlan], ?_, ?_⟩
  · simp only [qpContact, qpLeg, swapPairs]
    rw [eval_two _ _ (by norm_num) (by norm_num)]
    simp [landPlan]
  · simp only [qpContact, qpLeg, swapPairs]
    rw [eval_two _ _ (by norm_num) (by norm_num)]
    simp [landPlan]

/-- The hypotheses of the theorems about legs are met by `landPlan`. -/
example : ∃ traj : Leg → Nat → ℝ, (∀ it (e : Fin 4), landPlan.force it e 2 = traj (planLeg e) it) ∧ ∀ l it, 0 ≤ traj l it := by
  refine ⟨fun l it => match l with | .FR => if it = 1 then 1 else 0 | _ => 0, ?_, ?_⟩
  · intro it e; fin_cases e <;> simp [landPlan, planLeg]
  · intro l it; cases l <;> simp; split_ifs <;> norm_num

end PyExec
end Verif
