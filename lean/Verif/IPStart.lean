import Verif.IPRate

/-!
C277: the starting point of the interior-point method (`initializeVariables`, /repo/solver/src/solver/optimizer/IPSolver.cpp:66-109, the model `initPt`
of `IP.lean`), when the linear solver answers its two systems exactly, and what it means for the later iterates of `optimize` (IPSolver.cpp:293-411).
The member `rhs2_` keeps what an earlier call of `optimize` wrote into its y and z parts (lines 268-289); only its x part is overwritten (line 96).
-/
namespace Verif
namespace IP
open Cone Equil Finset

/-! ### specification -/

/-- `d` solves the system `[0 A' G'; A 0 0; G 0 -1] d = b` (the matrix of the initialisation: scalings equal to the identity). -/
def Solves1 (c : Cone) (S : Storage) (b d : Tri) : Prop :=
  (∀ j < c.nvars, actT S.A d.y j + actT S.G d.z j = b.x j) ∧ (∀ r < c.neq, act S.A d.x r = b.y r) ∧
  (∀ r < c.sizecone, act S.G d.x r - d.z r = b.z r)

/-- The two systems of the initialisation are solved exactly. -/
def ExactStart (c : Cone) (S : Storage) (lin : LinOracle) (rhs2 : Tri) : Prop :=
  Solves1 c S ⟨fun _ => 0, pb c S, ph c S⟩ (lin.solve 0 ⟨fun _ => 0, pb c S, ph c S⟩) ∧
  Solves1 c S ⟨fun k => -pc c S k, rhs2.y, rhs2.z⟩ (lin.solve 1 ⟨fun k => -pc c S k, rhs2.y, rhs2.z⟩)

/-- `v` is `u` moved into the interior of the cone by a multiple, at least 1, of the identity element. -/
def PushedIn (c : Cone) (u v : Nat → ℝ) : Prop :=
  c.Interior v ∧ ∃ a : ℝ, 1 ≤ a ∧ ∀ e, c.IsIdentity e → ∀ k < c.sizecone, v k = u k + a * e k

/-! ### lemmas -/

theorem act_sub' (M : Sp) (u v : Nat → ℝ) (r : Nat) : act M (fun k => u k - v k) r = act M u r - act M v r := by
  have h := act_lin M u v (-1) r
  simp only [neg_mul, one_mul, ← sub_eq_add_neg] at h
  exact h

theorem actT_sub' (M : Sp) (u v : Nat → ℝ) (r : Nat) : actT M (fun k => u k - v k) r = actT M u r - actT M v r := by
  have h := actT_lin M u v (-1) r
  simp only [neg_mul, one_mul, ← sub_eq_add_neg] at h
  exact h

/-- For a direction `d` in the kernel of `A` and a pair with `A'y + G'z = 0`, the products of `z` and `G d` cancel. -/
theorem cancel (c : Cone) (S : Storage) (hS : Fits c S) (x y z : Nat → ℝ) (hx : ∀ r < c.neq, act S.A x r = 0)
    (hyz : ∀ j < c.nvars, actT S.A y j + actT S.G z j = 0) : ∑ r ∈ range c.sizecone, act S.G x r * z r = 0 := by
  obtain ⟨f1, f2, f3, f4⟩ := hS
  have e1 := act_adjoint S.G c.sizecone c.nvars f2 f4 x z
  have e2 := act_adjoint S.A c.neq c.nvars f1 f3 x y
  have e3 : ∑ r ∈ range c.neq, act S.A x r * y r = 0 := sum_eq_zero fun r hr => by rw [hx r (mem_range.1 hr), zero_mul]
  have e4 : ∑ j ∈ range c.nvars, actT S.A y j * x j + ∑ j ∈ range c.nvars, actT S.G z j * x j = 0 := by
    rw [← sum_add_distrib]
    exact sum_eq_zero fun j hj => by rw [← add_mul, hyz j (mem_range.1 hj), zero_mul]
  linarith

/-! ### theorems -/

/-- C277, primal side: the starting `x` solves the equality constraints, minimises the squared slacks `h - G x` among all points that do, and the starting slacks are `h - G x`
pushed into the interior of the cone; `tau` and `kappa` are 1. -/
theorem C277_primal (c : Cone) (hne : c.NoEmpty) (S : Storage) (hS : Fits c S) (lin : LinOracle) (rhs2 : Tri) (hE : ExactStart c S lin rhs2) :
    let o := initPt c S lin rhs2
    (∀ r < c.neq, act S.A o.x r = pb c S r) ∧
    (∀ x', (∀ r < c.neq, act S.A x' r = pb c S r) →
      ∑ k ∈ range c.sizecone, (ph c S k - act S.G o.x k) ^ 2 ≤ ∑ k ∈ range c.sizecone, (ph c S k - act S.G x' k) ^ 2) ∧
    PushedIn c (fun k => ph c S k - act S.G o.x k) o.s ∧ o.tau = 1 ∧ o.kappa = 1 := by
  intro o
  obtain ⟨⟨k1, k2, k3⟩, -⟩ := hE
  set d := lin.solve 0 ⟨fun _ => 0, pb c S, ph c S⟩ with hd
  have ox : o.x = d.x := rfl
  have os : o.s = c.conicProjection (fun k => -d.z k) := rfl
  refine ⟨fun r hr => k2 r hr, fun x' hx' => ?_, ?_, rfl, rfl⟩
  · have hk := cancel c S hS (fun k => x' k - d.x k) d.y d.z (fun r hr => by rw [act_sub', hx' r hr, k2 r hr, sub_self]) (fun j hj => k1 j hj)
    have e : ∑ k ∈ range c.sizecone, (ph c S k - act S.G x' k) ^ 2 = ∑ k ∈ range c.sizecone, (ph c S k - act S.G d.x k) ^ 2
        + 2 * ∑ r ∈ range c.sizecone, act S.G (fun k => x' k - d.x k) r * d.z r + ∑ r ∈ range c.sizecone, act S.G (fun k => x' k - d.x k) r ^ 2 := by
      rw [mul_sum, ← sum_add_distrib, ← sum_add_distrib]
      refine sum_congr rfl fun r hr => ?_
      have h3 : act S.G d.x r - d.z r = ph c S r := k3 r (mem_range.1 hr)
      rw [act_sub', ← h3]; ring
    rw [ox, e, hk]
    have : 0 ≤ ∑ r ∈ range c.sizecone, act S.G (fun k => x' k - d.x k) r ^ 2 := sum_nonneg fun _ _ => sq_nonneg _
    linarith
  · obtain ⟨p1, a, p2, p3⟩ := C17_projection c hne (fun k => -d.z k)
    refine ⟨p1, a, p2, fun e he k hk => ?_⟩
    have h3 : act S.G d.x k - d.z k = ph c S k := k3 k hk
    rw [os, p3 e he k hk, ox]
    show -d.z k + a * e k = ph c S k - act S.G d.x k + a * e k
    rw [← h3]; ring

/-- C277, dual side (partial: the minimality only when the y and z parts of `rhs2_` are zero, as after `initialize`): the starting `y` and some `z` solve the dual equations, the starting
`z` is that one pushed into the interior of the cone, and in a first call it has least norm among all solutions of the dual equations. -/
theorem C277_dual_partial (c : Cone) (hne : c.NoEmpty) (S : Storage) (hS : Fits c S) (lin : LinOracle) (rhs2 : Tri) (hE : ExactStart c S lin rhs2) :
    let o := initPt c S lin rhs2
    ∃ z, (∀ j < c.nvars, actT S.A o.y j + actT S.G z j + pc c S j = 0) ∧ PushedIn c z o.z ∧
      ((∀ r < c.neq, rhs2.y r = 0) → (∀ r < c.sizecone, rhs2.z r = 0) →
        ∀ y' z', (∀ j < c.nvars, actT S.A y' j + actT S.G z' j + pc c S j = 0) → ∑ k ∈ range c.sizecone, z k ^ 2 ≤ ∑ k ∈ range c.sizecone, z' k ^ 2) := by
  intro o
  obtain ⟨-, ⟨k1, k2, k3⟩⟩ := hE
  set d := lin.solve 1 ⟨fun k => -pc c S k, rhs2.y, rhs2.z⟩ with hd
  have h1 : ∀ j < c.nvars, actT S.A d.y j + actT S.G d.z j + pc c S j = 0 := fun j hj => by
    have : actT S.A d.y j + actT S.G d.z j = -pc c S j := k1 j hj
    rw [this]; ring
  refine ⟨d.z, h1, C17_projection c hne d.z, fun hy hz y' z' h' => ?_⟩
  have hk := cancel c S hS d.x (fun k => y' k - d.y k) (fun k => z' k - d.z k) (fun r hr => by rw [k2 r hr]; exact hy r hr)
    (fun j hj => by rw [actT_sub', actT_sub']; linarith [h1 j hj, h' j hj])
  have e : ∑ k ∈ range c.sizecone, z' k ^ 2 = ∑ k ∈ range c.sizecone, d.z k ^ 2 + 2 * ∑ r ∈ range c.sizecone, act S.G d.x r * (z' r - d.z r)
      + ∑ r ∈ range c.sizecone, (z' r - d.z r) ^ 2 := by
    rw [mul_sum, ← sum_add_distrib, ← sum_add_distrib]
    refine sum_congr rfl fun r hr => ?_
    have h3 : act S.G d.x r - d.z r = rhs2.z r := k3 r (mem_range.1 hr)
    rw [hz r (mem_range.1 hr)] at h3
    have : act S.G d.x r = d.z r := by linarith
    rw [this]; ring
  rw [e, hk]
  have : 0 ≤ ∑ r ∈ range c.sizecone, (z' r - d.z r) ^ 2 := sum_nonneg fun _ _ => sq_nonneg _
  linarith

/-- C277 over a whole run: at the head of every pass `A x = tau b` exactly, and the residuals of the dual equations and of the slack equations are a multiple `q` of one fixed vector, the
multiples of the identity element that the projections added. -/
theorem C277_run (c : Cone) (hne : c.NoEmpty) (g : Stg) (hg : g.Steps) (S : Storage) (hS : Fits c S) (lin : LinOracle) (old : Pt × Info) (rhs2 : Tri) (hE : ExactStart c S lin rhs2)
    (hR : ExactRun c g S lin (start c S lin old rhs2)) :
    ∃ a b : ℝ, 1 ≤ a ∧ 1 ≤ b ∧ ∀ e, c.IsIdentity e → ∀ n st, Visits c g S lin (start c S lin old rhs2) n st →
      ∃ q : ℝ, 0 < q ∧ q ≤ 1 ∧ (∀ r < c.neq, act S.A st.opt.x r = st.opt.tau * pb c S r) ∧
        (∀ r < c.sizecone, act S.G st.opt.x r + st.opt.s r - st.opt.tau * ph c S r = q * (a * e r)) ∧
        ∀ j < c.nvars, actT S.A st.opt.y j + actT S.G st.opt.z j + st.opt.tau * pc c S j = q * (b * actT S.G e j) := by
  obtain ⟨p1, -, ⟨p3, a, ha, p4⟩, pt, pk⟩ := C277_primal c hne S hS lin rhs2 hE
  obtain ⟨z, d1, ⟨d2, b, hb, d3⟩, -⟩ := C277_dual_partial c hne S hS lin rhs2 hE
  refine ⟨a, b, ha, hb, fun e he n st hv => ?_⟩
  have h0 : Inside c (start c S lin old rhs2).opt := ⟨p3, d2, one_pos, one_pos⟩
  obtain ⟨q, q0, q1, ⟨sx, sy, sz, -⟩, -⟩ := C248_rate hne hg hS hR h0 0 le_rfl (fun n st hv h => by
    cases hv with
    | start => exact absurd h (lt_irrefl 0)
    | next hv hb => exact le_trans (mul_nonneg hg.sane.min0.le hg.sane.scal0) (step_rate hne hg hS hR h0 hv hb).2.1) n st hv
  have hfac : g.factor 0 = 1 := by unfold Stg.factor; ring
  rw [hfac, one_pow] at q1
  refine ⟨q, q0, q1, fun r hr => ?_, fun r hr => ?_, fun j hj => ?_⟩
  · have h := sy r hr
    have h0' : rY c S (start c S lin old rhs2).opt r = 0 := by
      show act S.A (initPt c S lin rhs2).x r - (initPt c S lin rhs2).tau * pb c S r = 0
      rw [p1 r hr, pt]; ring
    rw [h0', mul_zero] at h
    unfold rY at h
    linarith
  · have h := sz r hr
    have h0' : rZ c S (start c S lin old rhs2).opt r = a * e r := by
      show act S.G (initPt c S lin rhs2).x r + (initPt c S lin rhs2).s r - (initPt c S lin rhs2).tau * ph c S r = _
      rw [p4 e he r hr, pt]; ring
    rw [h0'] at h
    exact h
  · have h := sx j hj
    have h0' : rX c S (start c S lin old rhs2).opt j = b * actT S.G e j := by
      show actT S.A (initPt c S lin rhs2).y j + actT S.G (initPt c S lin rhs2).z j + (initPt c S lin rhs2).tau * pc c S j = _
      have : actT S.G (initPt c S lin rhs2).z j = actT S.G z j + b * actT S.G e j := by
        rw [← actT_lin]
        have hc : ∀ t ∈ S.G.getD j [], t.1 < c.sizecone := by
          intro t ht
          have hj' : j < S.G.length := by rw [hS.2.1]; exact hj
          rw [List.getD_eq_getElem?_getD, List.getElem?_eq_getElem hj', Option.getD_some] at ht
          exact hS.2.2.2 _ (List.getElem_mem hj') t ht
        unfold actT
        exact congrArg List.sum (List.map_congr_left fun t ht => by rw [d3 e he t.1 (hc t ht)])
      rw [this, pt]
      have := d1 j hj
      linarith
    rw [h0'] at h
    exact h

/-! ### example and violation -/

/-- `min x` subject to `x ≥ 1` and `x ≥ 2`, written `-x + s = -1`, `-x + s = -2`. -/
def stsS : Storage := ⟨[[]], [[(0, -1), (1, -1)]], fun k => if k = 0 then 1 else if k = 1 then -1 else if k = 2 then -2 else 0⟩
/-- Its cone. -/
def stsC : Cone := ⟨1, 0, 2, []⟩
/-- An exact solver for the matrix `[0 -1 -1; -1 -1 0; -1 0 -1]`. -/
noncomputable def stsL : LinOracle :=
  ⟨fun _ b => let x := (b.x 0 - (b.z 0 + b.z 1)) / 2
    ⟨fun _ => x, fun _ => 0, fun k => -x - b.z k⟩, fun _ => true⟩

theorem sts_fits : Fits stsC stsS := by
  refine ⟨rfl, rfl, ?_, ?_⟩
  · intro col hc t ht; simp [stsS] at hc; subst hc; simp at ht
  · intro col hc t ht; simp [stsS] at hc; subst hc; simp at ht
    rcases ht with rfl | rfl <;> (rw [show stsC.sizecone = 2 from rfl]; norm_num)

theorem sts_solves (k : Nat) (b : Tri) : Solves1 stsC stsS b (stsL.solve k b) := by
  refine ⟨fun j hj => ?_, fun r hr => absurd hr (Nat.not_lt_zero _), fun r hr => ?_⟩
  · have : j = 0 := by have : j < 1 := hj; omega
    subst this
    simp [actT, stsS, stsL]; ring
  · have : r < 2 := hr
    interval_cases r <;> simp [act, stsS, stsL]

/-- The hypotheses of C277 are met, for any content of `rhs2_`, by a problem that is not trivial. -/
example (rhs2 : Tri) : stsC.NoEmpty ∧ Fits stsC stsS ∧ ExactStart stsC stsS stsL rhs2 :=
  ⟨fun i hi => absurd hi (Nat.not_lt_zero _), sts_fits, sts_solves _ _, sts_solves _ _⟩

/-- An exact solver for the two systems of the initialisation of `min x` subject to `x ≥ 0`, and for the three systems of the pass that follows, in which the scaling is `1/√2`. -/
noncomputable def rsL : LinOracle := ⟨fun k b => if k < 2 then stSol b else ⟨fun _ => b.x 0 / 2 - b.z 0, fun _ => 0, fun _ => -b.x 0⟩, fun _ => true⟩

/-- The hypotheses of `C277_run` are met by a run that makes a step, for any content of `rhs2_`. -/
example (old : Pt × Info) (rhs2 : Tri) :
    let st0 := start exC exS rsL old rhs2
    exC.NoEmpty ∧ rtG.Steps ∧ Fits exC exS ∧ ExactStart exC exS rsL rhs2 ∧ ExactRun exC rtG exS rsL st0 ∧ (∃ st', body exC rtG exS rsL 0 st0 = .next st') := by
  intro st0
  have hne : exC.NoEmpty := fun i hi => absurd hi (Nat.not_lt_zero _)
  have ps : st0.opt.s 0 = 1 := by
    show exC.conicProjection (fun k => -(-(0 : ℝ))) 0 = 1
    rw [ex_proj _ (by simp)]; norm_num
  have pz : st0.opt.z 0 = 2 := by
    show exC.conicProjection (fun k => -(-(1 : ℝ))) 0 = 2
    rw [ex_proj _ (by simp)]; norm_num
  have px : st0.opt.x 0 = 0 := by
    show (0 : ℝ) - exS.cbh (1 + 0 + 0) = 0
    simp [exS]
  have pt : st0.opt.tau = 1 := rfl
  have pk : st0.opt.kappa = 1 := rfl
  have hdom : exC.ScalingDomain st0.opt.s st0.opt.z := by
    refine ⟨fun i hi => ?_, fun i hi => absurd hi (Nat.not_lt_zero _)⟩
    have : i = 0 := by have : i < 1 := hi; omega
    subst this
    rw [ps, pz]; norm_num
  obtain ⟨W, hu, hW, -⟩ := updateNT_some exC hne st0.opt.s st0.opt.z (fun _ => 0) hdom
  have hlp : W.lp 0 * W.lp 0 = 1 / 2 := by
    rw [(hW 0).1, ps, pz, Real.mul_self_sqrt] <;> simp [safeDiv] <;> norm_num
  have hlp0 : 0 ≤ W.lp 0 := by rw [(hW 0).1]; exact Real.sqrt_nonneg _
  have first : ∀ n st, Visits exC rtG exS rsL st0 n st → n = 0 → st = st0 := by
    intro n st hv hn
    cases hv with
    | start => rfl
    | next _ _ => exact absurd hn (Nat.succ_ne_zero _)
  have only : ∀ n st st', Visits exC rtG exS rsL st0 n st → body exC rtG exS rsL n st = .next st' → st = st0 := by
    intro n st st' hv hb
    rcases Nat.eq_zero_or_pos n with h | h
    · exact first n st hv h
    · exfalso
      cases hv with
      | start => exact absurd h (lt_irrefl 0)
      | @next k s _ hv' hb' =>
        obtain ⟨_, _, _, _, _, _, _, hm, _⟩ := body_next hb
        obtain ⟨_, _, _, _, _, _, _, hm', _⟩ := body_next hb'
        have hk : k = 0 := by
          rcases Nat.eq_zero_or_pos k with h | h
          · exact h
          · exfalso
            have : ∀ m s, Visits exC rtG exS rsL st0 m s → m ≤ 1 := by
              intro m s hv
              induction hv with
              | start => omega
              | @next m s s' hv hb ih =>
                obtain ⟨_, _, _, _, _, _, _, hmm, _⟩ := body_next hb
                have : (m : Int) ≠ 1 := hmm
                omega
            have := this _ _ (Visits.next hv' hb')
            omega
        subst hk
        exact hm rfl
  have hlam : 1 ≤ exC.conicNTScaling W st0.opt.z (fun _ => 0) 0 := by rw [st_nt, pz]; nlinarith
  have solves : ∀ b, Solves1 exC exS b (stSol b) := by
    refine fun b => ⟨fun j hj => ?_, fun r hr => absurd hr (Nat.not_lt_zero _), fun r hr => ?_⟩
    · have : j = 0 := by have : j < 1 := hj; omega
      subst this
      simp [actT, exS, stSol]
    · have : r = 0 := by have : r < 1 := hr; omega
      subst this
      simp [act, exS, stSol]
  refine ⟨hne, ⟨⟨by norm_num [rtG, stG], by norm_num [rtG, stG], by norm_num [rtG, stG]⟩, by norm_num [rtG, stG], by norm_num [rtG, stG], by norm_num [rtG, stG], by norm_num [rtG, stG],
    by norm_num [rtG, stG]⟩, ex_fits, ⟨solves _, solves _⟩, ⟨?_, ?_, ?_⟩, ?_⟩
  · intro n st st' hv hb; rw [only n st st' hv hb]; exact hdom
  · intro n st st' hv hb W' lam' hu'
    rw [only n st st' hv hb, hu] at hu'
    cases hu'
    refine ⟨fun i hi => ?_, fun i hi => absurd hi (Nat.not_lt_zero _)⟩
    have : i = 0 := by have : i < 1 := hi; omega
    subst this
    exact le_trans (by norm_num) hlam
  · intro n st st' hv hb W' lam' hu' i hi b
    rw [only n st st' hv hb] at hu' ⊢
    rw [hu] at hu'
    cases hu'
    have : rsL.solve (st0.calls + i) b = ⟨fun _ => b.x 0 / 2 - b.z 0, fun _ => 0, fun _ => -b.x 0⟩ := if_neg (by show ¬ 2 + i < 2; omega)
    rw [this]
    refine ⟨fun j hj => ?_, fun r hr => absurd hr (Nat.not_lt_zero _), fun r hr => ?_⟩
    · have : j = 0 := by have : j < 1 := hj; omega
      subst this
      simp [actT, exS]
    · have : r = 0 := by have : r < 1 := hr; omega
      subst this
      rw [st_nt, st_nt, ← mul_assoc, hlp]
      simp [act, exS]; ring
  · have hchk : convergenceCheck rtG true (computeResiduals exC exS st0.opt) (updateStatistics exC rtG exS st0.opt (computeResiduals exC exS st0.opt)) st0.opt = .notConverged := by
      obtain ⟨_, _, s3, _⟩ := computeResiduals_spec exC exS st0.opt
      set r := computeResiduals exC exS st0.opt with hr
      have rz : r.z 0 = 1 := by
        rw [s3 0 (by simp [exC, sizecone])]; unfold rZ act
        simp [exS, ps, px, pt, ph, exC]
      have cx : r.cx = 0 := by
        show dot 1 (sc exC exS) st0.opt.x = 0
        unfold dot; rw [sum_range_one, px, mul_zero]
      have hzby : r.hz + r.by_ = 0 := by
        show dot 1 (sh exC exS) st0.opt.z + dot 0 (sb exC exS) st0.opt.y = 0
        unfold dot sh; rw [sum_range_one]; simp [exS, exC]
      have hdinf : (updateStatistics exC rtG exS st0.opt r).dinf = nanv := by
        show (if r.cx / _ < -rtG.reltol then _ else nanv) = nanv
        rw [if_neg]; rw [cx, zero_div]; norm_num [rtG, stG]
      have hpinf : (updateStatistics exC rtG exS st0.opt r).pinf = nanv := by
        show (if (r.hz + r.by_) / _ < -rtG.reltol then _ else nanv) = nanv
        rw [if_neg]; rw [hzby, zero_div]; norm_num [rtG, stG]
      unfold convergenceCheck
      simp only [if_true]
      rw [if_neg, if_neg, if_neg]
      · rintro (⟨⟨h, -⟩, -⟩ | ⟨h, -⟩)
        · exact h hpinf
        · rw [pt] at h; norm_num [rtG, stG] at h
      · rintro ⟨h, -⟩; exact h hdinf
      · rintro ⟨-, ⟨h, -⟩, -⟩
        have h' : max (norm 0 r.y / max (iniY exC exS + norm 1 st0.opt.x) 1) (norm 1 r.z / max (iniZ exC exS + norm 1 st0.opt.x + norm 1 st0.opt.s) 1) / st0.opt.tau < rtG.feastol := h
        rw [norm_zero, norm_one, norm_one, norm_one, px, ps, rz, pt] at h'
        have : iniZ exC exS = 1 := by
          unfold iniZ; rw [show exC.sizecone = 1 from rfl, norm_one]; unfold sh; simp [exC, exS]
        rw [this] at h'
        norm_num [rtG, stG] at h'
    unfold body
    simp only []
    rw [if_neg (fun h => absurd h.1 (lt_irrefl 0)), hchk]
    simp only []
    rw [if_neg (fun h => absurd h.1 (lt_irrefl 0)), if_neg (by norm_num [rtG])]
    rw [hu]
    exact ⟨_, rfl⟩

/-- C277, violated after an earlier call: with what that call left in `rhs2_` the dual starting point is not the pushed-in solution of least norm, and it depends on what was left, so two solver objects that are given
the same problem start from different points. -/
theorem C277_violated : ∃ (c : Cone) (S : Storage) (lin : LinOracle) (rhs2 rhs2' : Tri), c.NoEmpty ∧ Fits c S ∧ (∀ k b, Solves1 c S b (lin.solve k b)) ∧
    ¬ (∃ z, (∀ j < c.nvars, actT S.A (initPt c S lin rhs2).y j + actT S.G z j + pc c S j = 0) ∧ PushedIn c z (initPt c S lin rhs2).z ∧
      ∀ y' z', (∀ j < c.nvars, actT S.A y' j + actT S.G z' j + pc c S j = 0) → ∑ k ∈ range c.sizecone, z k ^ 2 ≤ ∑ k ∈ range c.sizecone, z' k ^ 2) ∧
    (initPt c S lin rhs2).z 0 - (initPt c S lin rhs2).z 1 ≠ (initPt c S lin rhs2').z 0 - (initPt c S lin rhs2').z 1 := by
  have hne : stsC.NoEmpty := fun i hi => absurd hi (Nat.not_lt_zero _)
  have hid : stsC.IsIdentity (fun _ => 1) := ⟨fun _ _ => rfl, fun i hi => absurd hi (Nat.not_lt_zero _)⟩
  have key : ∀ rhs2 : Tri, (initPt stsC stsS stsL rhs2).z 0 - (initPt stsC stsS stsL rhs2).z 1 = rhs2.z 1 - rhs2.z 0 := by
    intro rhs2
    obtain ⟨-, a, -, h⟩ := C17_projection stsC hne (stsL.solve 1 ⟨fun k => -sc stsC stsS k, rhs2.y, rhs2.z⟩).z
    have h0 := h _ hid 0 (by rw [show stsC.sizecone = 2 from rfl]; norm_num)
    have h1 := h _ hid 1 (by rw [show stsC.sizecone = 2 from rfl]; norm_num)
    show stsC.conicProjection (stsL.solve 1 ⟨fun k => -sc stsC stsS k, rhs2.y, rhs2.z⟩).z 0 - stsC.conicProjection (stsL.solve 1 ⟨fun k => -sc stsC stsS k, rhs2.y, rhs2.z⟩).z 1 = _
    rw [h0, h1]
    simp [stsL]
  refine ⟨stsC, stsS, stsL, ⟨fun _ => 0, fun _ => 0, fun k => if k = 0 then 1 else 0⟩, ⟨fun _ => 0, fun _ => 0, fun _ => 0⟩, hne, sts_fits, sts_solves, ?_, ?_⟩
  · rintro ⟨z, hz, ⟨-, a, -, ha⟩, hmin⟩
    have k := key ⟨fun _ => 0, fun _ => 0, fun k => if k = 0 then 1 else 0⟩
    rw [ha _ hid 0 (by rw [show stsC.sizecone = 2 from rfl]; norm_num), ha _ hid 1 (by rw [show stsC.sizecone = 2 from rfl]; norm_num)] at k
    simp at k
    have hm := hmin (fun _ => 0) (fun _ => 1 / 2) (fun j hj => by
      have : j = 0 := by have : j < 1 := hj; omega
      subst this
      simp [actT, stsS, pc]; norm_num)
    have h0 := hz 0 (by simp [stsC])
    simp [actT, stsS, pc] at h0
    have hs : stsC.sizecone = 2 := rfl
    rw [hs] at hm
    simp [sum_range_succ] at hm
    nlinarith [sq_nonneg (z 0 - z 1)]
  · rw [key, key]; simp

end IP
end Verif
