import Verif.DynOptLoop
import Mathlib.Tactic.LinearCombination

/-! C127-C130: torque at the contact point, height of the center of mass, accuracy of the trust region, penalty of the later
time iterations. -/
namespace Verif
namespace Dyn
open LinExpr Kin Finset

/-! ### C127 -/

/-- A right-handed orthonormal frame: the rows are orthonormal, each column is the cross product of the other two. -/
structure RightHanded (R : Nat → Nat → ℝ) : Prop where
  rows : ∀ a < 3, ∀ b < 3, R a 0 * R b 0 + R a 1 * R b 1 + R a 2 * R b 2 = if a = b then 1 else 0
  cols : ∀ a < 3, Ctx.cross (fun b => R b 1) (fun b => R b 2) a = R a 0 ∧ Ctx.cross (fun b => R b 2) (fun b => R b 0) a = R a 1 ∧
    Ctx.cross (fun b => R b 0) (fun b => R b 1) a = R a 2

theorem rot_cross (R : Nat → Nat → ℝ) (hR : RightHanded R) (u F : Nat → ℝ) (a : Nat) (ha : a < 3) :
    R a 0 * Ctx.cross u (fun k => R 0 k * F 0 + R 1 k * F 1 + R 2 k * F 2) 0 + R a 1 * Ctx.cross u (fun k => R 0 k * F 0 + R 1 k * F 1 + R 2 k * F 2) 1 +
      R a 2 * Ctx.cross u (fun k => R 0 k * F 0 + R 1 k * F 1 + R 2 k * F 2) 2 =
    Ctx.cross (fun b => R b 0 * u 0 + R b 1 * u 1 + R b 2 * u 2) F a := by
  set v : Nat → ℝ := fun k => R 0 k * F 0 + R 1 k * F 1 + R 2 k * F 2 with hv
  have hF : ∀ b < 3, R b 0 * v 0 + R b 1 * v 1 + R b 2 * v 2 = F b := by
    intro b hb
    have h0 := hR.rows b hb 0 (by omega)
    have h1 := hR.rows b hb 1 (by omega)
    have h2 := hR.rows b hb 2 (by omega)
    have : R b 0 * v 0 + R b 1 * v 1 + R b 2 * v 2 = (R b 0 * R 0 0 + R b 1 * R 0 1 + R b 2 * R 0 2) * F 0 +
        (R b 0 * R 1 0 + R b 1 * R 1 1 + R b 2 * R 1 2) * F 1 + (R b 0 * R 2 0 + R b 1 * R 2 1 + R b 2 * R 2 2) * F 2 := by
      simp only [hv]; ring
    rw [this, h0, h1, h2]
    interval_cases b <;> simp
  clear_value v
  obtain ⟨c0, c1, c2⟩ := hR.cols a ha
  have F0 := hF 0 (by omega)
  have F1 := hF 1 (by omega)
  have F2 := hF 2 (by omega)
  interval_cases a <;> simp only [Ctx.cross] at * <;> simp only [← F0, ← F1, ← F2] <;>
    linear_combination -(u 1 * v 2 - u 2 * v 1) * c0 - (u 2 * v 0 - u 0 * v 2) * c1 - (u 0 * v 1 - u 1 * v 0) * c2

/-- C127: the stored torque at the contact point of an active contact, rotated into the world frame, is the moment of the
contact force about the contact location plus the contact torque about the normal of the contact. -/
theorem C127_contact_point_torque (d : DCtx) (g : Guess) (t e : Nat) (ht : t < d.s.T) (he : e < d.s.neff) (hact : d.p.active t e = true)
    (hR : RightHanded (d.p.rot t e)) (a : Nat) (ha : a < 3) :
    d.p.rot t e a 0 * (d.storeState g t).trqCp e 0 + d.p.rot t e a 1 * (d.storeState g t).trqCp e 1 + d.p.rot t e a 2 * (d.storeState g t).trqCp e 2 =
      Ctx.cross (fun b => d.p.rot t e b 0 * (d.storeState g t).cop e 0 + d.p.rot t e b 1 * (d.storeState g t).cop e 1)
        (fun b => d.s.mg * (d.storeState g t).frc e b) a + d.p.rot t e a 2 * (d.storeState g t).trq e 2 := by
  have hb : (decide (t < d.s.T) && decide (e < d.s.neff) && d.p.active t e) = true := by simp [ht, he, hact]
  have hcp : ∀ k, (d.storeState g t).trqCp e k = (d.storeState g t).trq e k + Ctx.cross ((d.storeState g t).cop e)
      (fun j => d.s.mg * (d.p.rot t e 0 j * (d.storeState g t).frc e 0 + d.p.rot t e 1 j * (d.storeState g t).frc e 1 +
        d.p.rot t e 2 j * (d.storeState g t).frc e 2)) k := fun k => if_pos hb
  have hc2 : (d.storeState g t).cop e 2 = 0 := by
    show (if (decide (t < d.s.T) && decide (e < d.s.neff) && d.p.active t e) = true then (if 2 < 2 then _ else (0 : ℝ)) else _) = 0
    rw [if_pos hb]; rfl
  have ht01 : (d.storeState g t).trq e 0 = 0 ∧ (d.storeState g t).trq e 1 = 0 := by
    constructor
    · show (if (decide (t < d.s.T) && decide (e < d.s.neff) && d.p.active t e) = true then (if 0 = 2 then _ else (0 : ℝ)) else _) = 0
      rw [if_pos hb]; rfl
    · show (if (decide (t < d.s.T) && decide (e < d.s.neff) && d.p.active t e) = true then (if 1 = 2 then _ else (0 : ℝ)) else _) = 0
      rw [if_pos hb]; rfl
  have key := rot_cross (d.p.rot t e) hR ((d.storeState g t).cop e) (fun b => d.s.mg * (d.storeState g t).frc e b) a ha
  have e1 : (fun j => d.s.mg * (d.p.rot t e 0 j * (d.storeState g t).frc e 0 + d.p.rot t e 1 j * (d.storeState g t).frc e 1 +
        d.p.rot t e 2 j * (d.storeState g t).frc e 2)) = fun k => d.p.rot t e 0 k * (d.s.mg * (d.storeState g t).frc e 0) +
        d.p.rot t e 1 k * (d.s.mg * (d.storeState g t).frc e 1) + d.p.rot t e 2 k * (d.s.mg * (d.storeState g t).frc e 2) := by
    funext j; ring
  rw [hcp 0, hcp 1, hcp 2, ht01.1, ht01.2, e1]
  rw [hc2] at key
  simp only [mul_zero, add_zero] at key
  rw [← key]; ring

/-- C127 is not vacuous: the frame of the example is right-handed, and so is one tilted by a quarter turn. -/
example : RightHanded ((exD .trust).p.rot 0 0) ∧ RightHanded (fun a b => if a = 0 ∧ b = 0 then 1 else if a = 1 ∧ b = 2 then -1 else if a = 2 ∧ b = 1 then 1 else 0) := by
  constructor
  · constructor
    · intro a ha b hb; interval_cases a <;> interval_cases b <;> simp [exAtZ, exPlanZ]
    · intro a ha; interval_cases a <;> simp [exAtZ, exPlanZ, Ctx.cross]
  · constructor
    · intro a ha b hb; interval_cases a <;> interval_cases b <;> simp
    · intro a ha; interval_cases a <;> simp [Ctx.cross]

/-! ### C128 -/

/-- C128 is violated: a plan that satisfies all limits and the dynamics although the center of mass is, at every step but the
first, below the contact that supports the robot (the minimum height is positive). -/
theorem C128_violated (h : Heur) : ∃ (d : DCtx) (x : Nat → ℝ), d.s.heur = h ∧ 0 < d.s.minH ∧ Limits d x 0 false x ∧ Dynamics d x ∧
    ∀ t < d.s.T, 0 < t → ∃ e < d.s.neff, d.p.active t e = true ∧ pCom d.ctx x t 2 < d.p.loc t e 2 := by
  let z : Nat → ℝ := fun t => if t = 0 then -1 else 1
  obtain ⟨x, hx⟩ := exists_vals (exAtZ z h (fun _ => exDState) true) (exAtZ_ok z h _ true) exVals
  refine ⟨_, x, rfl, by norm_num [exAtZ, exSet], ex_limits (fun t => by simp only [z]; split <;> norm_num) rfl hx (by norm_num) (by norm_num)
    (fun _ _ => by norm_num) 0 le_rfl false, ex_dynamics hx (fun t _ => by simp) (fun _ h => by simp at h), ?_⟩
  intro t ht h0
  refine ⟨0, one_pos, rfl, ?_⟩
  rw [hx.com t ht 2 (by omega)]
  have : (exAtZ z h (fun _ => exDState) true).p.loc t 0 2 = 1 := by
    simp only [exAtZ, exPlanZ, z]; simp; omega
  rw [this]
  simp [exSpin]

/-- C128, what holds: the center of mass stays at least the minimum height above the contact that supports end-effector 0 at the
first time step. -/
theorem C128_first_contact_partial (d : DCtx) (hm : d.s.mass ≠ 0) (x0 : Nat → ℝ) (thr : ℝ) (w : Bool) (x : Nat → ℝ)
    (h : ∀ op ∈ d.cons, op.Holds x0 thr w x) : ∀ t < d.s.T, d.s.minH ≤ pCom d.ctx x t 2 - d.p.loc 0 0 2 :=
  ((C119_constraints d hm x0 thr w x).1 h).1.height

/-! ### C129: the trust region -/

theorem sq_cross (l f : Nat → ℝ) (a : Nat) (ha : a < 3) : 0.25 * (sqUb l f a - sqLb l f a) = Ctx.cross l f a := by
  interval_cases a <;> simp only [sqUb, sqLb, Ctx.cross] <;> ring

theorem sq_nonneg' (l f : Nat → ℝ) (a : Nat) : 0 ≤ sqUb l f a ∧ 0 ≤ sqLb l f a := by
  match a with | 0 | 1 | a + 2 => exact ⟨by simp only [sqUb]; positivity, by simp only [sqLb]; positivity⟩

/-- C129: with the trust-region heuristic (cold started), every solution of the constraints has bounds that exceed the squares
by at most the threshold, wherever the trust region is centered; so the angular momentum of the solver deviates from the one
recomputed from forces and lever arms by at most a quarter of the weight times the threshold, integrated over the time in
contact. -/
theorem C129_trust_region_accuracy (d : DCtx) (hh : d.s.heur = .trust) (hmg : 0 ≤ d.s.mg) (hdt : ∀ t < d.s.T, 0 ≤ (d.seq t).time)
    (x0 : Nat → ℝ) (thr : ℝ) (x : Nat → ℝ) (hl : Limits d x0 thr false x) (hd : Dynamics d x) :
    (∀ t < d.s.T, ∀ e < d.s.neff, d.p.active t e = true → ∀ a < 3,
      |0.25 * (pUb d.ctx x t e a - pLb d.ctx x t e a) - Ctx.cross (pArm d.ctx x t e) (pF d.ctx x t e) a| ≤ 0.25 * thr) ∧
    ∀ t < d.s.T, ∀ a < 3, |pH d.ctx x t a - d.angmom x t a| ≤
      ∑ k ∈ range (t + 1), (d.seq k).time * inContact d.s d.p k (fun _ => 0.25 * d.s.mg * thr) := by
  have hne : ¬ d.s.heur = .timeOpt := by rw [hh]; simp
  have key : ∀ t < d.s.T, ∀ e < d.s.neff, d.p.active t e = true → ∀ a < 3,
      |0.25 * (pUb d.ctx x t e a - pLb d.ctx x t e a) - Ctx.cross (pArm d.ctx x t e) (pF d.ctx x t e) a| ≤ 0.25 * thr := by
    intro t ht e he hact a ha
    rw [← sq_cross _ _ a ha]
    obtain ⟨b1, b2⟩ := hl.bounds t ht e he hact a ha
    obtain ⟨t1, t2⟩ := hl.trust hh rfl t ht e he hact a ha
    have n1 := (sq_nonneg' (vsub (pArm d.ctx x t e) (pArm d.ctx x0 t e)) (vsub (pF d.ctx x t e) (pF d.ctx x0 t e)) a).1
    have n2 := (sq_nonneg' (vsub (pArm d.ctx x t e) (pArm d.ctx x0 t e)) (vsub (pF d.ctx x t e) (pF d.ctx x0 t e)) a).2
    rw [abs_le]; constructor <;> linarith
  refine ⟨key, fun t ht a ha => ?_⟩
  have hstep : ∀ k < d.s.T, |torqueSum d x k a - sumActive d.ctx k (fun e => Ctx.cross (pArm d.ctx x k e) (fun b => d.s.mg * pF d.ctx x k e b) a +
      d.p.rot k e a 2 * pTrq d.ctx x k e)| ≤ inContact d.s d.p k (fun _ => 0.25 * d.s.mg * thr) := by
    intro k hk
    rw [torqueSum]
    unfold sumActive inContact
    have hT : d.ctx.neff = d.s.neff := rfl
    rw [hT, ← sum_sub_distrib]
    refine le_trans (abs_sum_le_sum_abs _ _) (sum_le_sum fun e he => ?_)
    have hA : d.ctx.active k e = d.p.active k e := rfl
    rw [hA]
    split
    · rename_i hact
      have := key k hk e (mem_range.1 he) hact a ha
      have hc : Ctx.cross (pArm d.ctx x k e) (fun b => d.s.mg * pF d.ctx x k e b) a = d.s.mg * Ctx.cross (pArm d.ctx x k e) (pF d.ctx x k e) a := by
        interval_cases a <;> simp only [Ctx.cross] <;> ring
      beta_reduce
      rw [hc]
      have e1 : 0.25 * d.s.mg * (pUb d.ctx x k e a - pLb d.ctx x k e a) + d.p.rot k e a 2 * pTrq d.ctx x k e -
          (d.s.mg * Ctx.cross (pArm d.ctx x k e) (pF d.ctx x k e) a + d.p.rot k e a 2 * pTrq d.ctx x k e) =
          d.s.mg * (0.25 * (pUb d.ctx x k e a - pLb d.ctx x k e a) - Ctx.cross (pArm d.ctx x k e) (pF d.ctx x k e) a) := by ring
      rw [e1, abs_mul, abs_of_nonneg hmg]
      calc d.s.mg * |0.25 * (pUb d.ctx x k e a - pLb d.ctx x k e a) - Ctx.cross (pArm d.ctx x k e) (pF d.ctx x k e) a|
          ≤ d.s.mg * (0.25 * thr) := mul_le_mul_of_nonneg_left this hmg
        _ = 0.25 * d.s.mg * thr := by ring
    · simp
  have hH : ∀ n, n ≤ t → pH d.ctx x n a = d.p.iniH a + ∑ k ∈ range (n + 1), (d.seq k).time * torqueSum d x k a := by
    intro n hn
    induction n with
    | zero =>
      have := hd 0 (by omega) a ha
      rw [if_neg hne] at this
      rw [this.2.2, before, if_pos rfl, zero_add, sum_range_one]
    | succ n ih =>
      have := hd (n + 1) (by omega) a ha
      rw [if_neg hne] at this
      rw [this.2.2, before, if_neg (by omega), Nat.add_sub_cancel, ih (by omega), sum_range_succ _ (n + 1)]; ring
  have hang : d.angmom x t a = d.ctx.angmom x t a := if_neg hne
  rw [hH t le_rfl, hang, angmom_eq]
  have e2 : d.p.iniH a + ∑ k ∈ range (t + 1), (d.seq k).time * torqueSum d x k a - (d.ctx.iniH a + ∑ k ∈ range (t + 1), d.ctx.dt k *
      sumActive d.ctx k (fun e => Ctx.cross (pArm d.ctx x k e) (fun b => d.ctx.mg * pF d.ctx x k e b) a + d.ctx.rot k e a 2 * pTrq d.ctx x k e)) =
      ∑ k ∈ range (t + 1), (d.seq k).time * (torqueSum d x k a - sumActive d.ctx k (fun e => Ctx.cross (pArm d.ctx x k e) (fun b => d.s.mg * pF d.ctx x k e b) a +
      d.p.rot k e a 2 * pTrq d.ctx x k e)) := by
    have : d.ctx.iniH a = d.p.iniH a := rfl
    rw [this, add_sub_add_left_eq_sub, ← sum_sub_distrib]
    exact sum_congr rfl fun k _ => by rw [mul_sub]; rfl
  rw [e2]
  refine le_trans (abs_sum_le_sum_abs _ _) (sum_le_sum fun k hk => ?_)
  have hkT : k < d.s.T := by have := mem_range.1 hk; omega
  rw [abs_mul, abs_of_nonneg (hdt k hkT)]
  exact mul_le_mul_of_nonneg_left (hstep k hkT) (hdt k hkT)

/-- C129 on the example. -/
example : ∃ x, Limits (exD .trust) x (1 / 1000) false x ∧ Dynamics (exD .trust) x ∧ ∀ t < 3, 0 ≤ ((exD .trust).seq t).time := by
  obtain ⟨x, hx⟩ := exists_vals (exD .trust) (exPlan_ok .trust) exVals
  obtain ⟨h1, h2⟩ := ex_standing .trust x hx (1 / 1000) (by norm_num) false
  exact ⟨x, h1, h2, fun _ _ => by norm_num [exAtZ, exDState]⟩

/-! ### C130: the penalty of the later time iterations -/

/-- Displacement of the center of mass during time step `t`, none for the first. -/
noncomputable def shift (d : DCtx) (x : Nat → ℝ) (t a : Nat) : ℝ := if t = 0 then 0 else pCom d.ctx x t a - pCom d.ctx x (t - 1) a

/-- C130: let an iteration return `x` and the next one return `x` again, with bounds equal to the squares they bound. The penalty
of the next problem is not zero but a sum of fourth powers of the displacements of the center of mass, because the stored plan
the squares are linearised at is shifted by one time step. -/
theorem C130_penalty_at_fixed_point (i : DIn) (hf : i.s.heur = .timeOpt) (st : LoopState) (first : Bool) (x : Nat → ℝ)
    (htight : ∀ t < i.s.T, ∀ e < i.s.neff, i.p.active t e = true → ∀ a < 3,
      sqUb (pArm (i.ctx st.seq first).ctx x t e) (pF (i.ctx st.seq first).ctx x t e) a = pUb (i.ctx st.seq first).ctx x t e a ∧
      sqLb (pArm (i.ctx st.seq first).ctx x t e) (pF (i.ctx st.seq first).ctx x t e) a = pLb (i.ctx st.seq first).ctx x t e a) :
    penalty (i.ctx (internalOptimize i st first x).seq false) x = ∑ t ∈ range i.s.T, inContact i.s i.p t fun _ => 2 * i.s.wSoft *
      ((shift (i.ctx st.seq first) x t 1 ^ 2 + shift (i.ctx st.seq first) x t 2 ^ 2) ^ 2 +
       (shift (i.ctx st.seq first) x t 0 ^ 2 + shift (i.ctx st.seq first) x t 2 ^ 2) ^ 2 +
       (shift (i.ctx st.seq first) x t 0 ^ 2 + shift (i.ctx st.seq first) x t 1 ^ 2) ^ 2) := by
  obtain ⟨_, h2⟩ := timeOpt_result i hf st first x
  set d := i.ctx st.seq first with hdd
  set r := internalOptimize i st first x
  set g : Guess := if r.converged then { d.guessOf x with h := d.angmom x } else d.guessOf x with hg
  have gcom : g.com = (d.guessOf x).com := by rw [hg]; split <;> rfl
  have gfrc : g.frc = (d.guessOf x).frc := by rw [hg]; split <;> rfl
  have gcop : g.cop = (d.guessOf x).cop := by rw [hg]; split <;> rfl
  set d' := i.ctx r.seq false with hd'
  rw [penalty, if_pos (show d'.s.heur = .timeOpt ∧ d'.first = false from ⟨hf, rfl⟩)]
  refine sum_congr rfl fun t ht => ?_
  have htT : t < i.s.T := mem_range.1 ht
  refine sum_congr rfl fun e he => ?_
  have heN : e < i.s.neff := mem_range.1 he
  have hA : d'.ctx.active t e = i.p.active t e := rfl
  rw [hA]
  split
  swap
  · rfl
  rename_i hact
  have hf1 : ∀ b, vsub (pF d'.ctx x t e) ((d'.seq t).frc e) b = 0 := by
    intro b
    have : (d'.seq t).frc e b = pF d'.ctx x t e b := by
      show (r.seq t).frc e b = _
      rw [h2, store_frc d g t e htT heN hact b, gfrc]; rfl
    rw [vsub, this, sub_self]
  have hcom : ∀ b, (d'.seq t).com b = if t = 0 then pCom d.ctx x 0 b else pCom d.ctx x (t - 1) b := by
    intro b
    show (r.seq t).com b = _
    rw [h2]
    cases t with
    | zero =>
      rw [if_pos rfl, show (d.storeState g 0).com = g.com 0 from rfl, gcom]; rfl
    | succ t => rw [store_com d g t (by show t < i.s.T; omega), gcom, if_neg (by omega)]; rfl
  have hl1 : ∀ b, vsub (pArm d'.ctx x t e) (armPrev d' t e) b = -shift d x t b := by
    intro b
    have hc : ∀ k < 2, (d'.seq t).cop e k = pCop d.ctx x t e k := by
      intro k hk
      show (r.seq t).cop e k = _
      rw [h2, store_cop d g t e htT heN hact k hk, gcop]; rfl
    have e1 : pArm d'.ctx x t e b = i.p.loc t e b + (i.p.rot t e b 0 * pCop d.ctx x t e 0 + i.p.rot t e b 1 * pCop d.ctx x t e 1) - pCom d.ctx x t b := rfl
    have e2 : armPrev d' t e b = i.p.loc t e b + (i.p.rot t e b 0 * (d'.seq t).cop e 0 + i.p.rot t e b 1 * (d'.seq t).cop e 1) - (d'.seq t).com b := rfl
    rw [vsub, e1, e2, hc 0 (by omega), hc 1 (by omega), hcom b, shift]
    by_cases h0 : t = 0
    · rw [if_pos h0, if_pos h0, h0]; ring
    · rw [if_neg h0, if_neg h0]; ring
  have hu : ∀ a < 3, sqUb (pArm d'.ctx x t e) (pF d'.ctx x t e) a = pUb d'.ctx x t e a := fun a ha => (htight t htT e heN hact a ha).1
  have hl : ∀ a < 3, sqLb (pArm d'.ctx x t e) (pF d'.ctx x t e) a = pLb d'.ctx x t e a := fun a ha => (htight t htT e heN hact a ha).2
  have hs : d'.s.wSoft = i.s.wSoft := rfl
  beta_reduce
  rw [sum_congr rfl (fun a ha => by rw [hu a (mem_range.1 ha), hl a (mem_range.1 ha)])]
  simp only [sum_range_succ, sum_range_zero, sqUb, sqLb, hf1, hl1, hs]
  ring

/-- C130, consequence: with a positive weight the penalty vanishes only if the center of mass does not move in any time step with
contact after the first. -/
theorem C130_violated (i : DIn) (hf : i.s.heur = .timeOpt) (hw : 0 < i.s.wSoft) (st : LoopState) (first : Bool) (x : Nat → ℝ)
    (htight : ∀ t < i.s.T, ∀ e < i.s.neff, i.p.active t e = true → ∀ a < 3,
      sqUb (pArm (i.ctx st.seq first).ctx x t e) (pF (i.ctx st.seq first).ctx x t e) a = pUb (i.ctx st.seq first).ctx x t e a ∧
      sqLb (pArm (i.ctx st.seq first).ctx x t e) (pF (i.ctx st.seq first).ctx x t e) a = pLb (i.ctx st.seq first).ctx x t e a)
    (t e a : Nat) (ht : t + 1 < i.s.T) (he : e < i.s.neff) (hact : i.p.active (t + 1) e = true) (ha : a < 3)
    (hmove : pCom (i.ctx st.seq first).ctx x (t + 1) a ≠ pCom (i.ctx st.seq first).ctx x t a) :
    0 < penalty (i.ctx (internalOptimize i st first x).seq false) x := by
  rw [C130_penalty_at_fixed_point i hf st first x htight]
  have hpos : ∀ k, 0 ≤ 2 * i.s.wSoft *
      ((shift (i.ctx st.seq first) x k 1 ^ 2 + shift (i.ctx st.seq first) x k 2 ^ 2) ^ 2 +
       (shift (i.ctx st.seq first) x k 0 ^ 2 + shift (i.ctx st.seq first) x k 2 ^ 2) ^ 2 +
       (shift (i.ctx st.seq first) x k 0 ^ 2 + shift (i.ctx st.seq first) x k 1 ^ 2) ^ 2) := fun k => by positivity
  refine sum_pos' (fun k _ => sum_nonneg fun e _ => ?_) ⟨t + 1, mem_range.2 ht, sum_pos' (fun e _ => ?_) ⟨e, mem_range.2 he, ?_⟩⟩
  · split
    · exact hpos k
    · exact le_rfl
  · split
    · exact hpos _
    · exact le_rfl
  · rw [if_pos hact]
    have hs : shift (i.ctx st.seq first) x (t + 1) a ≠ 0 := by
      rw [shift, if_neg (by omega), Nat.add_sub_cancel]; exact sub_ne_zero.2 hmove
    have hs2 : 0 < shift (i.ctx st.seq first) x (t + 1) a ^ 2 := by positivity
    refine mul_pos (by linarith) ?_
    interval_cases a
    · have : 0 < (shift (i.ctx st.seq first) x (t + 1) 0 ^ 2 + shift (i.ctx st.seq first) x (t + 1) 2 ^ 2) ^ 2 := by positivity
      positivity
    · have : 0 < (shift (i.ctx st.seq first) x (t + 1) 1 ^ 2 + shift (i.ctx st.seq first) x (t + 1) 2 ^ 2) ^ 2 := by positivity
      positivity
    · have : 0 < (shift (i.ctx st.seq first) x (t + 1) 1 ^ 2 + shift (i.ctx st.seq first) x (t + 1) 2 ^ 2) ^ 2 := by positivity
      positivity

/-- C130 is not vacuous: a plan of the example with tight bounds whose center of mass rises by one per time step. -/
example : ∃ x, (∀ t < 3, ∀ e < 1, exDPlan.active t e = true → ∀ a < 3,
      sqUb (pArm (exD .timeOpt).ctx x t e) (pF (exD .timeOpt).ctx x t e) a = pUb (exD .timeOpt).ctx x t e a ∧
      sqLb (pArm (exD .timeOpt).ctx x t e) (pF (exD .timeOpt).ctx x t e) a = pLb (exD .timeOpt).ctx x t e a) ∧
    pCom (exD .timeOpt).ctx x 1 2 ≠ pCom (exD .timeOpt).ctx x 0 2 := by
  obtain ⟨x, hx⟩ := exists_vals (exD .timeOpt) (exPlan_ok .timeOpt) { exVals with
    com := fun t a => if a = 2 then t else 0
    ub := fun _ k a => if a = 2 then 0 else 1 + (1 + k) ^ 2
    lb := fun _ k a => if a = 2 then 0 else 1 + (1 + k) ^ 2 }
  refine ⟨x, fun t ht e he _ a ha => ?_, ?_⟩
  · obtain rfl : e = 0 := by omega
    have hF : ∀ a < 3, pF (exD .timeOpt).ctx x t 0 a = if a = 2 then 1 else 0 := fun a ha => hx.f t ht 0 one_pos rfl a ha
    have hA : ∀ a < 3, pArm (exD .timeOpt).ctx x t 0 a = if a = 2 then -1 - (t : ℝ) else 0 := by
      intro a ha
      rw [pArm, show pCop (exD .timeOpt).ctx x t 0 0 = 0 from hx.cop t ht 0 one_pos rfl 0 (by omega),
        show pCop (exD .timeOpt).ctx x t 0 1 = 0 from hx.cop t ht 0 one_pos rfl 1 (by omega), hx.com t ht a ha]
      interval_cases a <;> simp [exAtZ, DCtx.ctx, exPlanZ]
    have hU : pUb (exD .timeOpt).ctx x t 0 a = if a = 2 then 0 else 1 + (1 + (t : ℝ)) ^ 2 := hx.ub t ht 0 one_pos rfl a ha
    have hL : pLb (exD .timeOpt).ctx x t 0 a = if a = 2 then 0 else 1 + (1 + (t : ℝ)) ^ 2 := hx.lb t ht 0 one_pos rfl a ha
    rw [hU, hL]
    interval_cases a <;> simp only [sqUb, sqLb, hA 0 (by omega), hA 1 (by omega), hA 2 (by omega), hF 0 (by omega), hF 1 (by omega), hF 2 (by omega)] <;>
      norm_num <;> constructor <;> ring
  · rw [hx.com 1 (by norm_num [exAtZ, exSet]) 2 (by omega), hx.com 0 (by norm_num [exAtZ, exSet]) 2 (by omega)]; simp

end Dyn
end Verif
