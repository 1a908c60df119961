import Verif.PyMkoProps

/-!
Witnesses and non-vacuity for C134 – C140.
-/
namespace Verif
namespace PyMko
open Matrix PyIk

/-! ### C139: the recorded end-effector velocity is not the one of the recorded state -/

/-- A robot with one end-effector whose Jacobian depends on the position of the single joint. -/
def wBody : Body ℝ 1 where
  rb := { ne := 1, Ag := fun _ r c => if r = (c : Nat) then 1 else 0, com := fun _ _ => 0,
          jac := fun q _ _ c => if (c : Nat) = 6 then q else 0, pos := fun _ _ _ => 0 }
  hipPos := fun _ _ _ => 0
  hipJac := fun _ _ _ => 0
  integ := fun q x => q + x 6
  ori := fun _ _ _ => 0
  joints := fun q _ => q

/-- Only the joints are tracked. -/
def wGains : Gains := ⟨0, 0, 0, 0, 1, 0, 0, false⟩

/-- Two time steps in contact; the joint is asked to move to 1. -/
def wPlan : Plan where
  T := 2
  dt := 1
  weight := 1
  regOri := 1
  regJoint := 1
  com := fun _ _ => 0
  lmom := fun _ _ => 0
  amom := fun _ _ => 0
  act := fun _ _ => true
  pos := fun _ _ _ => 0
  vel := fun _ _ _ => 0
  contact := fun _ _ => true
  jointDes := fun _ _ => 1
  baseDes := fun _ _ => 0

theorem wNonneg : wGains.Nonneg := by unfold Gains.Nonneg wGains; norm_num

theorem wFull (q : ℝ) (m : Nat → ℝ) : ∃ y : Vec 7, ∀ k, k < 6 → wBody.rb.Ag q k ⬝ᵥ y = m k := by
  refine ⟨fun c => m c, fun k hk => ?_⟩
  simp only [wBody, dotProduct, ite_mul, one_mul, zero_mul]
  rw [Finset.sum_eq_single ⟨k, by omega⟩]
  · simp
  · intro c _ hc
    rw [if_neg]
    intro h
    exact hc (Fin.ext h.symm)
  · intro h; exact absurd (Finset.mem_univ _) h

/-- C139, violated: the recorded end-effector velocity need not be the velocity of the end-effector in the recorded state. -/
theorem C139_velocity_violated : ∃ (s : Quadprog) (o o' : Obj ℝ 1) (i : Init) (recs : List (Rec ℝ 1)) (r : Rec ℝ 1), s.Ok ∧
    optimize wBody s wGains 50 (fun _ => 0) o i (fun _ => wPlan) = some (o', recs) ∧ recs[1]? = some r ∧
    r.vel 0 0 ≠ wBody.rb.jac r.q 0 0 ⬝ᵥ r.dq := by
  obtain ⟨s, hs⟩ := quadprog_ok_exists
  have hc : InContact wBody wPlan 0 := ⟨0, by simp [wBody], rfl⟩
  obtain ⟨⟨o', recs⟩, h⟩ := C136_returns_partial wBody s hs wGains wNonneg 50 (fun _ => 0) ⟨some 0, ⟨none, 0⟩, none, fun _ _ => 0⟩
    ⟨fun _ => 0, fun _ _ => 0⟩ (fun _ => wPlan) 0 rfl hc wFull
  obtain ⟨q, hq, hlen, h0, hstep⟩ := C134_trajectory wBody s hs wGains wNonneg 50 _ _ o' _ _ recs h
  have hq0 : q = 0 := by
    obtain ⟨q', J, c, st, hq', hsame, -⟩ := optimize_loop wBody s wGains 50 _ _ o' _ _ recs h
    have := hsame 0 rfl
    rw [hq] at hq'
    simp only [Option.some.injEq] at hq'
    rw [hq', ← this]
  subst hq0
  have hl : recs.length = 2 := hlen
  obtain ⟨r0, hr0⟩ : ∃ r, recs[0]? = some r := ⟨_, List.getElem?_eq_getElem (by omega)⟩
  obtain ⟨r1, hr1⟩ : ∃ r, recs[1]? = some r := ⟨_, List.getElem?_eq_getElem (by omega)⟩
  obtain ⟨e1, e2⟩ := hstep 0 r0 r1 hr0 hr1
  obtain ⟨g1, -⟩ := h0 r0 hr0
  have hv := (C139_recorded_partial wBody s wGains 50 _ _ o' _ _ recs h).2.2 0 r0 r1 hr0 hr1 0 0 (by simp [wBody]) (by omega)
  refine ⟨s, _, o', _, recs, r1, hs, h, hr1, ?_⟩
  have hj : ∀ (q : ℝ) (x : Vec 7), wBody.rb.jac q 0 0 ⬝ᵥ x = q * x 6 := by
    intro q x
    simp only [wBody, dotProduct, ite_mul, zero_mul]
    rw [Finset.sum_eq_single 6]
    · simp
    · intro c _ hc
      rw [if_neg]
      intro hh
      exact hc (Fin.ext hh)
    · intro hh; exact absurd (Finset.mem_univ _) hh
  rw [hv, hj, hj, g1, e1, g1]
  have hdt : wPlan.dt = 1 := rfl
  simp only [wBody, hdt]
  -- the joint moves
  have hne : r1.dq 6 ≠ 0 := by
    intro hz
    have hb := (e2 hc).best (fun c => if c = 6 then 1 / 2 else 0) (fun h => by simp [wanted] at h)
    unfold trackCost at hb
    have f6 : (Fin.natAdd 6 (0 : Fin 1) : Fin 7) = 6 := rfl
    simp only [wGains, wanted, wPlan, zero_mul, Finset.univ_unique, Fin.default_eq_zero, Finset.sum_singleton, ite_self, Finset.sum_const_zero, zero_add, one_mul, g1] at hb
    have f6' : (Fin.natAdd 6 (0 : Fin 1)) = (6 : Fin (6 + 1)) := rfl
    rw [f6'] at hb
    have hz' : r1.dq (6 : Fin (6 + 1)) = 0 := hz
    rw [hz'] at hb
    have hpos : 0 ≤ ∑ c, r1.dq c ^ 2 := Finset.sum_nonneg fun _ _ => sq_nonneg _
    have hs1 : ∑ c : Fin (6 + 1), ((if c = 6 then 1 / 2 else 0 : ℝ)) ^ 2 = 1 / 4 := by
      rw [Finset.sum_eq_single (6 : Fin (6 + 1))]
      · norm_num
      · intro c _ hc; rw [if_neg hc]; norm_num
      · intro hh; exact absurd (Finset.mem_univ _) hh
    rw [hs1] at hb
    simp [wBody] at hb
    norm_num at hb
    nlinarith
  intro hcontra
  have : r1.dq 6 * r1.dq 6 = 0 := by linarith
  exact hne (mul_self_eq_zero.mp this)

/-! ### A plan with a flight phase -/

/-- Five steps: contact, contact, flight, flight, contact. -/
noncomputable def fPlan : Plan := { wPlan with T := 5, act := fun it _ => decide (it < 2 ∨ 4 ≤ it), lmom := fun it k => it + k, weight := 10, dt := 1 / 2 }

theorem fContact (it : Nat) : InContact wBody fPlan it ↔ it < 2 ∨ 4 ≤ it := by
  unfold InContact fPlan
  simp [wBody]

/-- C134, C135, C136, C137, C138, C139: such a run exists; its rows 2 and 3 are in a flight phase that started after row 1. -/
example : ∃ (s : Quadprog) (o o' : Obj ℝ 1) (i : Init) (recs : List (Rec ℝ 1)), s.Ok ∧ wGains.Nonneg ∧
    optimize wBody s wGains 50 (fun _ => 0) o i (fun _ => fPlan) = some (o', recs) ∧ recs.length = 5 ∧
    (∀ r r', recs[3]? = some r → recs[4]? = some r' → wBody.rb.Ag r.q 2 ⬝ᵥ r'.dq = 3 - 10) := by
  obtain ⟨s, hs⟩ := quadprog_ok_exists
  have hc : InContact wBody fPlan 0 := (fContact 0).mpr (by omega)
  obtain ⟨⟨o', recs⟩, h⟩ := C136_returns_partial wBody s hs wGains wNonneg 50 (fun _ => 0) ⟨some 0, ⟨none, 0⟩, none, fun _ _ => 0⟩
    ⟨fun _ => 0, fun _ _ => 0⟩ (fun _ => fPlan) 0 rfl hc wFull
  obtain ⟨q, -, hlen, -⟩ := C134_trajectory wBody s hs wGains wNonneg 50 _ _ o' _ _ recs h
  obtain ⟨q', -, hf⟩ := C135_flight wBody s hs wGains wNonneg 50 _ _ o' _ _ recs h
  refine ⟨s, _, o', _, recs, hs, wNonneg, h, hlen, fun r r' hr hr' => ?_⟩
  have := (hf 1 3 r r' hr hr' (by omega) ((fContact 1).mpr (by omega)) fun j a b => by rw [fContact]; omega).2.1
  rw [this]
  simp only [fPlan]
  norm_num

/-- C136: a plan that starts in the air. -/
example (s : Quadprog) (o : Obj ℝ 1) (i : Init) :
    optimize wBody s wGains 50 (fun _ => 0) o i (fun _ => { wPlan with act := fun it _ => decide (0 < it) }) = none :=
  C136_flight_start_violated wBody s wGains 50 _ o i _ (fun _ => by simp [wPlan]) (fun _ => by simp [InContact])

/-- C137: contact at step 0, flight at step 1; the run exists. -/
example : ∃ (s : Quadprog) (o o' : Obj ℝ 1) (i : Init) (recs : List (Rec ℝ 1)),
    optimize wBody s wGains 50 (fun _ => 0) o i (fun _ => { wPlan with act := fun it _ => decide (it = 0) }) = some (o', recs) ∧ o'.lmomDyn 0 2 = -1 := by
  obtain ⟨s, hs⟩ := quadprog_ok_exists
  have hc : InContact wBody { wPlan with act := fun it _ => decide (it = 0) } 0 := ⟨0, by simp [wBody], by simp⟩
  obtain ⟨⟨o', recs⟩, h⟩ := C136_returns_partial wBody s hs wGains wNonneg 50 (fun _ => 0) ⟨some 0, ⟨none, 0⟩, none, fun _ _ => 0⟩
    ⟨fun _ => 0, fun _ _ => 0⟩ (fun _ => { wPlan with act := fun it _ => decide (it = 0) }) 0 rfl hc wFull
  obtain ⟨q, -, e⟩ := C137_dynamics_data_violated wBody s wGains 50 _ _ o' _ _ recs (fun _ => rfl) (fun _ => hc) (fun _ => by simp [InContact]) h
  refine ⟨s, _, o', _, recs, h, ?_⟩
  rw [e]
  simp [wPlan]

/-- C140: a robot at its goal finds the configuration in the first iteration (all references are met by the zero velocity). -/
example : ∃ (s : Quadprog) (r : InitRes ℝ 1), initPos wBody s wGains 1 ⟨fun _ => 0, fun _ _ => 0⟩ 0 ⟨none, 0⟩ none = some (r, true) ∧ r.found = true := by
  obtain ⟨s, hs⟩ := quadprog_ok_exists
  obtain ⟨h1, h2⟩ := C132_ik_optimal wBody.rb s hs ⟨none, 0⟩ (Reach.fresh 0) wGains wNonneg 0 0 (initRefs wBody ⟨fun _ => 0, fun _ _ => 0⟩ 0)
  obtain ⟨dq, hdq⟩ := h2 (fun h => by simp [initRefs] at h)
  have hb := (h1 dq hdq).unique 0 (fun h => by simp [initRefs] at h) ?_
  · obtain ⟨r, hr⟩ := C140_failed_though_found_violated wBody s wGains ⟨fun _ => 0, fun _ _ => 0⟩ 0 ⟨none, 0⟩ none dq hdq (by rw [← hb]; simp)
    exact ⟨s, r, hr⟩
  · have hz : trackCost wBody.rb wGains 0 (initRefs wBody ⟨fun _ => 0, fun _ _ => 0⟩ 0) 0 = 0 := by
      simp [trackCost, wGains, initRefs]
    rw [hz]
    unfold trackCost
    simp only [wGains, zero_mul, ite_self, Finset.sum_const_zero, zero_add]
    positivity

end PyMko
end Verif
