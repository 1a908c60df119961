import Verif.IPExitProps
import Verif.IPBestProps
import Verif.IPGapProps
import Mathlib.Tactic.NormNum

/-! Concrete executions that meet the hypotheses of C21, C22, C77-C80, and the witness against C21 without an iteration. -/
namespace Verif
namespace IP
open Cone Equil Finset

/-- A first pass that converges. -/
theorem body_first (c : Cone) (g : Stg) (S : Storage) (lin : LinOracle) (old : Pt × Info) (rhs2 : Tri)
    (code : ExitCode) (hc : code ≠ .notConverged)
    (h : convergenceCheck g true (computeResiduals c S (initPt c S lin rhs2))
      (updateStatistics c g S (initPt c S lin rhs2) (computeResiduals c S (initPt c S lin rhs2))) (initPt c S lin rhs2) = code) :
    body c g S lin 0 (start c S lin old rhs2) = .stop ⟨code, initPt c S lin rhs2, true,
      updateStatistics c g S (initPt c S lin rhs2) (computeResiduals c S (initPt c S lin rhs2)), 0, 0⟩ := by
  unfold body
  simp only [lt_irrefl, false_and, if_false, gt_iff_lt]
  rw [show (start c S lin old rhs2).opt = initPt c S lin rhs2 from rfl, h]
  cases code <;> first | exact absurd rfl hc | rfl

/-- An execution that converges in the first pass. -/
theorem optimize_first (c : Cone) (g : Stg) (S : Storage) (lin : LinOracle) (old : Pt × Info) (rhs2 : Tri) (o0 : Pt) (i0 : Info)
    (hf : lin.fact 0 = true) (hm : 0 ≤ g.maxIters) (code : ExitCode) (hc : code ≠ .notConverged)
    (h : convergenceCheck g true (computeResiduals c S (initPt c S lin rhs2))
      (updateStatistics c g S (initPt c S lin rhs2) (computeResiduals c S (initPt c S lin rhs2))) (initPt c S lin rhs2) = code) :
    (optimize c g S lin old rhs2 o0 i0).1 = ⟨code, initPt c S lin rhs2, true,
      updateStatistics c g S (initPt c S lin rhs2) (computeResiduals c S (initPt c S lin rhs2)), 0, 0⟩ := by
  have hfu : (g.maxIters + 1).toNat = g.maxIters.toNat + 1 := by omega
  unfold optimize
  rw [if_pos hf, hfu, loop]
  have hb := body_first c g S lin old rhs2 code hc h
  rw [show ({ opt := initPt c S lin rhs2, best := old.1, bestInfo := old.2, prev := nanv, step := 0, calls := 2, facts := 1 } : St)
    = start c S lin old rhs2 from rfl, hb]

/-- min x subject to x ≥ 0: one variable, one linear inequality `-x + s = 0`. -/
def exS : Storage := ⟨[[]], [[(0, -1)]], fun k => if k = 0 then 1 else 0⟩
/-- Its cone. -/
def exC : Cone := ⟨1, 0, 1, []⟩
/-- Coarse tolerances, default step parameters. -/
noncomputable def exG : Stg := ⟨1, 3, 1, 2, 4, 2, 500, 1e-6, 0.999, 0.99, 1e-4, 1, 2e-7, 10⟩
/-- The answers of an exact linear solver to the two systems of the initialisation. -/
def exL : LinOracle := ⟨fun k _ => if k = 0 then ⟨fun _ => 0, fun _ => 0, fun _ => 0⟩ else ⟨fun _ => -1, fun _ => 0, fun _ => 1⟩, fun _ => true⟩

theorem ex_proj (v : Nat → ℝ) (h : 0 ≤ v 0) : exC.conicProjection v 0 = v 0 + 1 := by
  have hm : exC.maxResidual v = 0 := by
    simp only [maxResidual, exC, nsoc, List.length_nil, List.range_zero, List.foldl_nil, List.range_one, List.foldl_cons]
    rw [if_neg (not_lt.2 h)]
  simp only [conicProjection, hm]
  simp [exC, nsoc, wr]

theorem ex_sane : exG.Sane := ⟨by norm_num [exG], by norm_num [exG], by norm_num [exG]⟩

theorem ex_fits : Fits exC exS := by
  refine ⟨rfl, rfl, ?_, ?_⟩
  · intro col hc t ht; simp [exS] at hc; subst hc; simp at ht
  · intro col hc t ht; simp [exS] at hc; subst hc; simp at ht; subst ht; simp [exC, sizecone]

theorem norm_one (v : Nat → ℝ) : norm 1 v = |v 0| := by
  unfold norm; rw [sum_range_one, Real.sqrt_sq_eq_abs]

theorem norm_zero (v : Nat → ℝ) : norm 0 v = 0 := by unfold norm; simp

theorem ex_data (k : Nat) : (setEquilibration exC 0 exS).1.cbh k = if k = 0 then 1 else 0 := by
  show (if k < exC.sizeproblem then exS.cbh k / 1 else exS.cbh k) = _
  simp [exS]

theorem ex_init (rhs2 : Tri) : (initPt exC (setEquilibration exC 0 exS).1 exL rhs2).s 0 = 1 ∧
    (initPt exC (setEquilibration exC 0 exS).1 exL rhs2).z 0 = 2 := by
  constructor
  · show exC.conicProjection (fun k => -(0 : ℝ)) 0 = 1
    rw [ex_proj _ (by simp)]; norm_num
  · show exC.conicProjection (fun k => (1 : ℝ)) 0 = 2
    rw [ex_proj _ (by simp)]; norm_num

theorem ex_check (rhs2 : Tri) :
    let S := (setEquilibration exC 0 exS).1
    let p := initPt exC S exL rhs2
    convergenceCheck exG true (computeResiduals exC S p) (updateStatistics exC exG S p (computeResiduals exC S p)) p = .optimal := by
  intro S p
  have hA : S.A = [[]] := rfl
  have hG : S.G = [[(0, -1)]] := rfl
  have hc : ∀ k, S.cbh k = if k = 0 then 1 else 0 := ex_data
  have px : p.x 0 = 0 := rfl
  obtain ⟨ps, pz⟩ : p.s 0 = 1 ∧ p.z 0 = 2 := ex_init rhs2
  have pt : p.tau = 1 := rfl
  have pk : p.kappa = 1 := rfl
  obtain ⟨s1, s2, s3, s4⟩ := computeResiduals_spec exC S p
  set r := computeResiduals exC S p with hr
  have rx : r.x 0 = 1 := by
    rw [s1]; unfold rX actT; simp [hA, hG, pz, pt, pc, hc]; norm_num
  have rz : r.z 0 = 1 := by
    rw [s3 0 (by simp [exC, sizecone])]; unfold rZ act
    simp [hG, ps, px, pt, ph, hc, exC]
  have byv : r.by_ = 0 := by show dot 0 (sb exC S) p.y = 0; simp [dot]
  have hz : r.hz = 0 := by
    show dot 1 (sh exC S) p.z = 0
    unfold dot sh; rw [sum_range_one, hc]; simp [exC]
  unfold convergenceCheck
  simp only [if_true]
  rw [if_pos]
  refine ⟨Or.inr (by rw [byv, hz]; norm_num [exG]), ⟨?_, ?_⟩, Or.inl ?_⟩
  · show max (norm 0 r.y / max (iniY exC S + norm 1 p.x) 1) (norm 1 r.z / max (iniZ exC S + norm 1 p.x + norm 1 p.s) 1) / p.tau < exG.feastol
    rw [norm_zero, norm_one, norm_one, norm_one, px, ps, rz, pt]
    have : iniZ exC S = 1 := by
      unfold iniZ; rw [show exC.sizecone = 1 from rfl, norm_one]; unfold sh; rw [hc]; simp [exC]
    rw [this]
    norm_num [exG]
  · show norm 1 r.x / max (iniX exC S + norm 0 p.y + norm 1 p.z) 1 / p.tau < exG.feastol
    rw [norm_zero, norm_one, norm_one, pz, rx, pt]
    have : iniX exC S = 1 := by
      unfold iniX; rw [show exC.nvars = 1 from rfl, norm_one]; unfold sc; rw [hc]; simp
    rw [this]
    norm_num [exG]
  · show dot 1 p.s p.z < exG.abstol
    unfold dot; rw [sum_range_one, ps, pz]; norm_num [exG]

theorem ex_run (old : Pt × Info) (rhs2 : Tri) (o0 : Pt) (i0 : Info) :
    (optimize exC exG (setEquilibration exC 0 exS).1 exL old rhs2 o0 i0).1.code = .optimal ∧
    Inside exC (optimize exC exG (setEquilibration exC 0 exS).1 exL old rhs2 o0 i0).1.opt := by
  rw [optimize_first exC exG _ exL old rhs2 o0 i0 rfl (by decide) .optimal (by simp) (ex_check rhs2)]
  refine ⟨rfl, ⟨fun i hi => ?_, fun i hi => ?_⟩, ⟨fun i hi => ?_, fun i hi => ?_⟩, one_pos, one_pos⟩
  · have : i = 0 := by have : i < 1 := hi; omega
    subst this; rw [(ex_init rhs2).1]; norm_num
  · exact absurd hi (Nat.not_lt_zero _)
  · have : i = 0 := by have : i < 1 := hi; omega
    subst this; rw [(ex_init rhs2).2]; norm_num
  · exact absurd hi (Nat.not_lt_zero _)

/-- The hypotheses of `C21_info_describes`, `C21_optimal` and `C21_near_optimal` are met by a run that ends optimally. -/
example (old : Pt × Info) (rhs2 : Tri) (o0 : Pt) (i0 : Info) :
    exC.NoEmpty ∧ exG.Sane ∧ Fits exC exS ∧ 1 ≤ exG.maxIters ∧ exG.reltol ≤ nanv ∧ exG.reltolInacc ≤ nanv ∧ exL.fact 0 = true ∧
    (optimize exC exG (setEquilibration exC 0 exS).1 exL old rhs2 o0 i0).1.code = .optimal ∧
    Inside exC (optimize exC exG (setEquilibration exC 0 exS).1 exL old rhs2 o0 i0).1.opt ∧
    Feasible exC exS (fun _ => 5) (fun _ => 5) := by
  refine ⟨fun i hi => absurd hi (Nat.not_lt_zero _), ex_sane, ex_fits, by decide, by norm_num [exG, nanv], by norm_num [exG, nanv], rfl,
    (ex_run old rhs2 o0 i0).1, (ex_run old rhs2 o0 i0).2, fun r hr => absurd hr (Nat.not_lt_zero _), fun r hr => ?_, fun i _ => ?_, fun i hi => ?_⟩
  · have : r = 0 := by have : r < 1 := hr; omega
    subst this
    unfold act ph; simp [exS, exC]
  · norm_num
  · exact absurd hi (Nat.not_lt_zero _)

/-- `C21_returned_inside`: its hypothesis about the iterates holds in that run, whose only iterate is the initial one. -/
example (old : Pt × Info) (rhs2 : Tri) : ∀ n st st',
    Visits exC exG (setEquilibration exC 0 exS).1 exL (start exC (setEquilibration exC 0 exS).1 exL old rhs2) n st →
    body exC exG (setEquilibration exC 0 exS).1 exL n st = .next st' → exC.ScalingDomain st.opt.s st.opt.z := by
  have key : ∀ n st, Visits exC exG (setEquilibration exC 0 exS).1 exL
      (start exC (setEquilibration exC 0 exS).1 exL old rhs2) n st →
      n = 0 ∧ st = start exC (setEquilibration exC 0 exS).1 exL old rhs2 := by
    intro n st hv
    induction hv with
    | start => exact ⟨rfl, rfl⟩
    | @next n st st' hv hb ih =>
      exfalso
      obtain ⟨rfl, rfl⟩ := ih
      rw [body_first exC exG _ exL old rhs2 .optimal (by simp) (ex_check rhs2)] at hb
      cases hb
  intro n st st' hv _
  rw [(key n st hv).2]
  refine ⟨fun i hi => ?_, fun i hi => absurd hi (Nat.not_lt_zero _)⟩
  have : i = 0 := by have : i < 1 := hi; omega
  subst this
  show 0 < (initPt exC (setEquilibration exC 0 exS).1 exL rhs2).s 0 ∧ _ ≤ (initPt exC (setEquilibration exC 0 exS).1 exL rhs2).z 0
  rw [(ex_init rhs2).1, (ex_init rhs2).2]
  norm_num

/-! ### an infeasible problem: `x ≤ -1` and `x ≥ 1` -/

/-- `G = (1, -1)`, `h = (-1, -1)`. -/
def inS : Storage := ⟨[[]], [[(0, 1), (1, -1)]], fun k => if k = 1 then -1 else if k = 2 then -1 else 0⟩
/-- Its cone. -/
def inC : Cone := ⟨1, 0, 2, []⟩
/-- Coarse tolerances. -/
noncomputable def inG : Stg := ⟨2, 1, 1, 2, 1, 1, 500, 1e-6, 0.999, 0.99, 1e-4, 1, 2e-7, 10⟩
/-- The linear solver answers so that the initial dual point is `(10, 10)`. -/
def inL : LinOracle := ⟨fun k _ => if k = 0 then ⟨fun _ => 0, fun _ => 0, fun _ => 0⟩ else ⟨fun _ => 0, fun _ => 0, fun _ => 9⟩, fun _ => true⟩

theorem in_proj (a : ℝ) (h : 0 ≤ a) (i : Nat) (hi : i < 2) : inC.conicProjection (fun _ => a) i = a + 1 := by
  have hm : inC.maxResidual (fun _ => a) = 0 := by
    simp only [maxResidual, inC, nsoc, List.length_nil, List.range_zero, List.foldl_nil]
    rw [show List.range 2 = [0, 1] from rfl]
    simp only [List.foldl_cons, List.foldl_nil, if_neg (not_lt.2 h)]
  simp only [conicProjection, hm]
  rw [show inC.nsoc = 0 from rfl]
  simp only [List.range_zero, List.foldl_nil]
  rw [wr_apply, if_pos ⟨Nat.zero_le _, by simpa [inC] using hi⟩]
  ring

theorem norm_two (v : Nat → ℝ) (a : ℝ) (ha : 0 ≤ a) (h0 : |v 0| = a) (h1 : |v 1| = a) : norm 2 v = a * Real.sqrt 2 := by
  unfold norm
  rw [sum_range_succ, sum_range_one, ← sq_abs (v 0), ← sq_abs (v 1), h0, h1, show a ^ 2 + a ^ 2 = a ^ 2 * 2 by ring,
    Real.sqrt_mul (sq_nonneg a), Real.sqrt_sq ha]

theorem in_check (rhs2 : Tri) :
    let p := initPt inC inS inL rhs2
    convergenceCheck inG true (computeResiduals inC inS p) (updateStatistics inC inG inS p (computeResiduals inC inS p)) p = .primalInf := by
  intro p
  have px : p.x 0 = 0 := rfl
  have ps : ∀ i < 2, p.s i = 1 := by
    intro i hi
    show inC.conicProjection (fun k => -(0 : ℝ)) i = 1
    rw [in_proj _ (by simp) i hi]; norm_num
  have pz : ∀ i < 2, p.z i = 10 := by
    intro i hi
    show inC.conicProjection (fun k => (9 : ℝ)) i = 10
    rw [in_proj _ (by simp) i hi]; norm_num
  have pt : p.tau = 1 := rfl
  have pk : p.kappa = 1 := rfl
  set r := computeResiduals inC inS p with hr
  have s2p : 0 < Real.sqrt 2 := Real.sqrt_pos.2 (by norm_num)
  have s2a : (1.4 : ℝ) < Real.sqrt 2 := by
    rw [Real.lt_sqrt (by norm_num)]; norm_num
  have s2b : Real.sqrt 2 < 1.5 := by
    rw [Real.sqrt_lt' (by norm_num)]; norm_num
  have cx : r.cx = 0 := by
    show dot 1 (sc inC inS) p.x = 0
    unfold dot; rw [sum_range_one, px, mul_zero]
  have byv : r.by_ = 0 := by show dot 0 (sb inC inS) p.y = 0; simp [dot]
  have hz : r.hz = -20 := by
    show dot 2 (sh inC inS) p.z = -20
    unfold dot sh; rw [sum_range_succ, sum_range_one, pz 0 (by norm_num), pz 1 (by norm_num)]; simp [inS, inC]; norm_num
  have hgap : dot 2 p.s p.z = 20 := by
    unfold dot; rw [sum_range_succ, sum_range_one, pz 0 (by norm_num), pz 1 (by norm_num), ps 0 (by norm_num), ps 1 (by norm_num)]; norm_num
  have hnz : norm 2 p.z = 10 * Real.sqrt 2 :=
    norm_two _ _ (by norm_num) (by rw [pz 0 (by norm_num)]; norm_num) (by rw [pz 1 (by norm_num)]; norm_num)
  have hnx : r.nx = 0 := by
    show norm 1 _ = 0
    rw [norm_one, (mtv_neg inS.G p.z _ 0).2, (mtv_neg inS.A p.y _ 0).1]
    simp [actT, inS, pz 0 (by norm_num), pz 1 (by norm_num)]
  have hpinf : (updateStatistics inC inG inS p r).pinf = 0 := by
    show (if (r.hz + r.by_) / max (norm 0 p.y + norm 2 p.z) 1 < -inG.reltol then r.nx / max (norm 0 p.y + norm 2 p.z) 1 else nanv) = 0
    rw [hz, byv, hnx, norm_zero, hnz, if_pos, zero_div]
    have h1 : max (0 + 10 * Real.sqrt 2) 1 < 20 := max_lt (by linarith) (by norm_num)
    have h2 : 0 < max (0 + 10 * Real.sqrt 2) 1 := lt_of_lt_of_le one_pos (le_max_right _ _)
    rw [div_lt_iff₀ h2]
    norm_num [inG]
    simpa using h1
  unfold convergenceCheck
  simp only [if_true]
  rw [if_neg, if_neg, if_pos]
  · exact Or.inr ⟨by rw [pt]; norm_num [inG], by rw [pk]; norm_num [inG], by rw [hpinf]; norm_num [inG]⟩
  · rintro ⟨h, -, -⟩
    apply h
    show (if r.cx / max (norm 1 p.x) 1 < -inG.reltol then _ else nanv) = nanv
    rw [if_neg]
    rw [cx, zero_div]; norm_num [inG]
  · rintro ⟨-, -, h⟩
    have hg : (updateStatistics inC inG inS p r).gap = 20 := hgap
    have hrel : (updateStatistics inC inG inS p r).relgap = 1 := by
      show (if r.cx / p.tau < 0 then dot 2 p.s p.z / (-(r.cx / p.tau)) else if -(r.hz + r.by_) / p.tau > 0 then dot 2 p.s p.z / (-(r.hz + r.by_) / p.tau) else nanv) = 1
      rw [cx, hz, byv, pt, hgap]; norm_num
    rw [hg, hrel] at h
    norm_num [inG] at h

/-- The hypotheses of `C80_primal_infeasible` are met by a run on an infeasible problem. -/
theorem in_run (old : Pt × Info) (rhs2 : Tri) (o0 : Pt) (i0 : Info) :
    inC.NoEmpty ∧ inG.Sane ∧ Fits inC inS ∧ 1 ≤ inG.maxIters ∧ inG.feastol ≤ nanv ∧ inG.feastolInacc ≤ nanv ∧
    (optimize inC inG inS inL old rhs2 o0 i0).1.code = .primalInf ∧
    Inside inC (optimize inC inG inS inL old rhs2 o0 i0).1.opt := by
  rw [optimize_first inC inG inS inL old rhs2 o0 i0 rfl (by decide) .primalInf (by simp) (in_check rhs2)]
  have hne : inC.NoEmpty := fun i hi => absurd hi (Nat.not_lt_zero _)
  refine ⟨hne, ⟨by norm_num [inG], by norm_num [inG], by norm_num [inG]⟩, ⟨rfl, rfl, ?_, ?_⟩, by decide, by norm_num [inG, nanv],
    by norm_num [inG, nanv], rfl, (C17_projection inC hne _).1, (C17_projection inC hne _).1, one_pos, one_pos⟩
  · intro col hc t ht; simp [inS] at hc; subst hc; simp at ht
  · intro col hc t ht
    simp [inS] at hc; subst hc; simp at ht
    rcases ht with rfl | rfl <;> (show _ < 2; norm_num)

/-! ### one step, with an exact linear solver -/

/-- A point of the problem `exS`. -/
def stP : Pt := ⟨fun _ => 1, fun _ => 0, fun _ => 1, fun _ => 1, 1, 1⟩
/-- Settings with no centering. -/
noncomputable def stG : Stg := ⟨1e-7, 1e-7, 1e-7, 1e-4, 1e-5, 5e-5, 500, 1e-6, 0.999, 0.99, 0, 0, 2e-7, 10⟩
/-- The exact solution of the KKT system of `exS` at that point. -/
def stSol (b : Tri) : Tri := ⟨fun _ => b.x 0 - b.z 0, fun _ => 0, fun _ => -b.x 0⟩

theorem st_dom : exC.ScalingDomain stP.s stP.z :=
  ⟨fun i _ => by norm_num [stP], fun i hi => absurd hi (Nat.not_lt_zero _)⟩

theorem st_nt (W : Scalings) (v o : Nat → ℝ) : exC.conicNTScaling W v o 0 = W.lp 0 * v 0 := by
  rw [conicNTScaling, blockwise_lp _ _ _ _ _ (by simp [exC])]

/-- The hypotheses of `C78_iterate_stays_inside` (including the one on the step) and of `C79_residuals_shrink` are met. -/
example : ∃ W lam, exC.updateNTScalings stP.s stP.z (fun _ => 0) = some (W, lam) ∧
    0 < stP.tau ∧ 0 < stP.kappa ∧ 0 ≤ stG.stepScaling ∧ stG.stepScaling < 1 ∧ 0 < stG.minStep ∧
    (∀ b, KKT exC exS W b (stSol b)) ∧
    KKT exC exS W ⟨fun k => -pc exC exS k, pb exC exS, ph exC exS⟩ (stSol ⟨fun k => -pc exC exS k, pb exC exS, ph exC exS⟩) ∧
    stP.kappa / stP.tau - dot exC.nvars (pc exC exS) (stSol ⟨fun k => -pc exC exS k, pb exC exS, ph exC exS⟩).x
      - dot exC.neq (pb exC exS) (stSol ⟨fun k => -pc exC exS k, pb exC exS, ph exC exS⟩).y
      - dot exC.sizecone (ph exC exS) (stSol ⟨fun k => -pc exC exS k, pb exC exS, ph exC exS⟩).z ≠ 0 ∧
    (newton exC stG exS stP ⟨fun _ => 0, fun _ => 0, fun _ => 0, 0, 0, 0, 0, 0, 0, 0⟩ 1 W lam ⟨fun _ => 0, fun _ => 0, fun _ => 0⟩
      (fun _ => ⟨fun _ => 0, fun _ => 0, fun _ => 0⟩) (fun _ => ⟨fun _ => 0, fun _ => 0, fun _ => 0⟩)).step
      ≠ stG.minStep * stG.stepScaling := by
  have hne : exC.NoEmpty := fun i hi => absurd hi (Nat.not_lt_zero _)
  obtain ⟨W, hu, hW, -⟩ := updateNT_some exC hne stP.s stP.z (fun _ => 0) st_dom
  have hlp : W.lp 0 = 1 := by
    rw [(hW 0).1]; simp [stP, safeDiv]; norm_num
  have hl0 : exC.conicNTScaling W stP.z (fun _ => 0) 0 = 1 := by rw [st_nt, hlp]; simp [stP]
  have kkt : ∀ b, KKT exC exS W b (stSol b) := by
    intro b
    refine ⟨fun j hj => ?_, fun r hr => absurd hr (Nat.not_lt_zero _), fun r hr => ?_⟩
    · have : j = 0 := by have : j < 1 := hj; omega
      subst this
      simp [actT, exS, stSol]
    · have : r = 0 := by have : r < 1 := hr; omega
      subst this
      rw [st_nt, st_nt, hlp]
      simp [act, exS, stSol]
  refine ⟨W, _, hu, by norm_num [stP], by norm_num [stP], by norm_num [stG], by norm_num [stG], by norm_num [stG], kkt, kkt _, ?_, ?_⟩
  · have : dot exC.nvars (pc exC exS) (stSol ⟨fun k => -pc exC exS k, pb exC exS, ph exC exS⟩).x = -1 := by
      show dot 1 _ _ = _
      unfold dot; rw [sum_range_one]; simp [pc, exS, stSol, ph, exC]
    have h2 : dot exC.neq (pb exC exS) (stSol ⟨fun k => -pc exC exS k, pb exC exS, ph exC exS⟩).y = 0 := by simp [dot, exC]
    have h3 : dot exC.sizecone (ph exC exS) (stSol ⟨fun k => -pc exC exS k, pb exC exS, ph exC exS⟩).z = 0 := by
      show dot 1 _ _ = _
      unfold dot; rw [sum_range_one]; simp [ph, exS, exC]
    rw [this, h2, h3]; norm_num [stP]
  · set lam := exC.conicNTScaling W stP.z (fun _ => 0) with hlam
    set nw := newton exC stG exS stP ⟨fun _ => 0, fun _ => 0, fun _ => 0, 0, 0, 0, 0, 0, 0, 0⟩ 1 W lam ⟨fun _ => 0, fun _ => 0, fun _ => 0⟩
      (fun _ => ⟨fun _ => 0, fun _ => 0, fun _ => 0⟩) (fun _ => ⟨fun _ => 0, fun _ => 0, fun _ => 0⟩) with hnw
    have hdot : ∀ n u, dot n u (fun _ => 0) = 0 := fun n u => by simp [dot]
    have hsig : nw.sigma = 0 := by
      show max (min _ stG.maxCentering) stG.minCentering = 0
      rw [show stG.maxCentering = 0 from rfl, show stG.minCentering = 0 from rfl]
      exact max_eq_right (min_le_right _ _)
    have hs : nw.step = lineSearch exC stG lam nw.dsByW nw.wDz 1 nw.d.tau 1 nw.d.kappa * stG.stepScaling := rfl
    have hdt : nw.d.tau = -1 := by
      show ((1 - nw.sigma) * 0 - (1 * 1 + (-1 - 1 / 1 * ((0 - 1 + dot _ _ (fun _ => 0) + dot _ _ (fun _ => 0) + dot _ _ (fun _ => 0)) /
        (1 / 1 - dot _ _ (fun _ => 0) - dot _ _ (fun _ => 0) - dot _ _ (fun _ => 0)))) *
        ((0 - 1 + dot _ _ (fun _ => 0) + dot _ _ (fun _ => 0) + dot _ _ (fun _ => 0)) /
        (1 / 1 - dot _ _ (fun _ => 0) - dot _ _ (fun _ => 0) - dot _ _ (fun _ => 0))) - nw.sigma * 1) / 1 +
        dot _ _ (fun _ => 0) + dot _ _ (fun _ => 0) + dot _ _ (fun _ => 0)) /
        (1 / 1 - dot _ _ (fun _ => 0) - dot _ _ (fun _ => 0) - dot _ _ (fun _ => 0)) = -1
      simp only [hdot, hsig]; norm_num
    have hdz : nw.d.z = fun _ => 0 := by
      funext k
      show (0 : ℝ) + nw.d.tau * 0 = 0
      ring
    have hwdz : nw.wDz 0 = 0 := by
      show exC.conicNTScaling W nw.d.z (fun _ => 0) 0 = 0
      rw [st_nt, hdz, mul_zero]
    have hdk : nw.d.kappa = 0 := by
      show -((1 * 1 + (-1 - 1 / 1 * ((0 - 1 + dot _ _ (fun _ => 0) + dot _ _ (fun _ => 0) + dot _ _ (fun _ => 0)) /
        (1 / 1 - dot _ _ (fun _ => 0) - dot _ _ (fun _ => 0) - dot _ _ (fun _ => 0)))) *
        ((0 - 1 + dot _ _ (fun _ => 0) + dot _ _ (fun _ => 0) + dot _ _ (fun _ => 0)) /
        (1 / 1 - dot _ _ (fun _ => 0) - dot _ _ (fun _ => 0) - dot _ _ (fun _ => 0))) - nw.sigma * 1) + 1 * nw.d.tau) / 1 = 0
      rw [hdt]
      simp only [hdot, hsig]; norm_num
    have hds : nw.dsByW 0 = -1 := by
      obtain ⟨dsA, wA, hA0, hval⟩ : ∃ dsA wA : Nat → ℝ, wA 0 = 0 ∧ nw.dsByW 0 = -(exC.conicDivision lam
          (subId exC (fun i => exC.conicProduct lam lam (fun _ => 0) i + exC.conicProduct dsA wA (fun _ => 0) i) (nw.sigma * 1))
          (fun _ => 0) 0 + nw.wDz 0) :=
        ⟨_, _, by rw [st_nt]; simp, rfl⟩
      rw [hval, hwdz, hsig, conicDivision, blockwise_lp _ _ _ _ _ (by simp [exC])]
      simp only [subId, show exC.nsoc = 0 from rfl, List.range_zero, List.foldl_nil]
      rw [wr_apply, if_pos ⟨Nat.le_refl _, by simp [exC]⟩, conicProduct, blockwise_lp _ _ _ _ _ (by simp [exC]), conicProduct,
        blockwise_lp _ _ _ _ _ (by simp [exC])]
      simp only [Nat.sub_zero, hA0, hl0]
      norm_num [safeDiv]
    have hraw : 1 / 2 < rawStep exC stG lam nw.dsByW nw.wDz 1 nw.d.tau 1 nw.d.kappa := by
      have hr : ∀ d, minRatio exC lam d = d 0 := by
        intro d
        show (List.range (1 - 1)).foldl _ (d 0 / lam 0) = _
        rw [hl0]; simp
      simp only [rawStep, hr, hds, hwdz, hdt, hdk, show exC.nsoc = 0 from rfl, List.range_zero, List.foldl_nil]
      norm_num
    rw [hs]
    unfold lineSearch
    have h1 : 1 / 2 < max (min (rawStep exC stG lam nw.dsByW nw.wDz 1 nw.d.tau 1 nw.d.kappa) stG.maxStep) stG.minStep :=
      lt_of_lt_of_le (lt_min hraw (by norm_num [stG])) (le_max_left _ _)
    have h2 : stG.minStep < 1 / 2 := by norm_num [stG]
    have h3 : (0 : ℝ) < stG.stepScaling := by norm_num [stG]
    exact ((mul_lt_mul_of_pos_right (lt_trans h2 h1) h3).ne')

/-- The hypotheses of `C87_gap` and `C87_gap_rate` beyond those of the previous example are met at the same point. -/
example : ∃ W lam, exC.updateNTScalings stP.s stP.z (fun _ => 0) = some (W, lam) ∧ exC.WellInside lam ∧ Fits exC exS ∧
    gapOf exC stP = 2 ∧ 0 ≤ stG.minCentering ∧ stG.minCentering ≤ 1 ∧ stG.maxCentering ≤ 1 := by
  have hne : exC.NoEmpty := fun i hi => absurd hi (Nat.not_lt_zero _)
  obtain ⟨W, hu, hW, -⟩ := updateNT_some exC hne stP.s stP.z (fun _ => 0) st_dom
  have hlp : W.lp 0 = 1 := by
    rw [(hW 0).1]; simp [stP, safeDiv]; norm_num
  have hl0 : exC.conicNTScaling W stP.z (fun _ => 0) 0 = 1 := by rw [st_nt, hlp]; simp [stP]
  refine ⟨W, _, hu, ⟨fun i hi => ?_, fun i hi => absurd hi (Nat.not_lt_zero _)⟩, ex_fits, ?_, by norm_num [stG], by norm_num [stG],
    by norm_num [stG]⟩
  · have : i = 0 := by have : i < 1 := hi; omega
    subst this
    rw [hl0]; norm_num
  · unfold gapOf
    rw [show exC.sizecone = 1 from rfl, sum_range_one]
    norm_num [stP]

/-! ### without an iteration -/

/-- C21 fails when `SolverMaxIters = 0`: the "best" iterate restored at the iteration limit was never set by this call, so an
`OptimalInacc` result may carry a vector and numbers that have nothing to do with the problem. -/
theorem C21_info_violated : ∃ (c : Cone) (g : Stg) (S : Storage) (lin : LinOracle) (old : Pt × Info) (rhs2 : Tri) (o0 : Pt) (i0 : Info),
    g.Sane ∧ g.maxIters = 0 ∧ lin.fact 0 = true ∧
    (optimize c g S lin old rhs2 o0 i0).1.code = .optimalInacc ∧
    ¬ Describes c g S (optimize c g S lin old rhs2 o0 i0).1.opt (optimize c g S lin old rhs2 o0 i0).1.info := by
  have hs0 : ({exG with maxIters := 0, feastol := 0} : Stg).Sane := ⟨by norm_num [exG], by norm_num [exG], by norm_num [exG]⟩
  set g : Stg := {exG with maxIters := 0, feastol := 0} with hg
  set S := (setEquilibration exC 0 exS).1
  set T : Tri := ⟨fun _ => 0, fun _ => 0, fun _ => 0⟩
  set P : Pt := ⟨fun _ => 0, fun _ => 0, fun _ => 0, fun _ => 7, 1, 1⟩ with hP
  set I : Info := ⟨0, 0, 0, 0, 0, 0, 0, 0, 0, 0⟩ with hI
  refine ⟨exC, g, S, exL, (P, I), T, P, I, hs0, rfl, rfl, ?_⟩
  set p := initPt exC S exL T with hp
  obtain ⟨ps, pz⟩ : p.s 0 = 1 ∧ p.z 0 = 2 := ex_init T
  set r := computeResiduals exC S p with hr
  set i := updateStatistics exC g S p r with hi
  have byv : r.by_ = 0 := by show dot 0 (sb exC S) p.y = 0; simp [dot]
  have hz : r.hz = 0 := by
    show dot 1 (sh exC S) p.z = 0
    unfold dot sh; rw [sum_range_one, ex_data]; simp [exC]
  have cx : r.cx = 0 := by
    show dot 1 (sc exC S) p.x = 0
    unfold dot; rw [sum_range_one, show p.x 0 = 0 from rfl, mul_zero]
  have hpres : 0 ≤ i.pres := by
    show 0 ≤ max (norm _ r.y / max (iniY exC S + norm _ p.x) 1) (norm _ r.z / max (iniZ exC S + norm _ p.x + norm _ p.s) 1) / 1
    rw [div_one]
    exact le_max_of_le_left (div_nonneg (Real.sqrt_nonneg _) (le_trans zero_le_one (le_max_right _ _)))
  have hn1 : i.pinf = nanv := by
    show (if (r.hz + r.by_) / _ < -g.reltol then _ else nanv) = nanv
    rw [if_neg]; rw [byv, hz, add_zero, zero_div]; norm_num [hg, exG]
  have hn2 : i.dinf = nanv := by
    show (if r.cx / _ < -g.reltol then _ else nanv) = nanv
    rw [if_neg]; rw [cx, zero_div]; norm_num [hg, exG]
  have hfull : convergenceCheck g true r i p = .notConverged := by
    unfold convergenceCheck
    simp only [if_true]
    rw [if_neg, if_neg, if_neg]
    · rw [hn1]
      rintro (⟨⟨h, -⟩, -⟩ | ⟨-, -, h⟩)
      · exact h rfl
      · norm_num [hg, nanv] at h
    · rw [hn2]; rintro ⟨h, -⟩; exact h rfl
    · rintro ⟨-, ⟨h, -⟩, -⟩
      have : g.feastol = 0 := rfl
      linarith
  have hred : convergenceCheck g false r I P = .optimalInacc := by
    unfold convergenceCheck
    simp only [Bool.false_eq_true, if_false]
    rw [if_pos]
    exact ⟨Or.inr (by rw [byv, hz]; norm_num [hg, exG]), ⟨by norm_num [hI, hg, exG], by norm_num [hI, hg, exG]⟩, Or.inl (by norm_num [hI, hg, exG])⟩
  have hbet : isBetterThan i I = false := by
    unfold isBetterThan
    rw [if_neg (by rw [hn1]; simp)]
    rw [decide_eq_false_iff_not]
    rintro ⟨⟨h1, h2, -⟩, -⟩
    simp [hI] at h2
  have hb : body exC g S exL 0 (start exC S exL (P, I) T) = .stop ⟨.optimalInacc, P, true, I, 0, 0⟩ := by
    unfold body
    simp only [lt_irrefl, false_and, if_false, gt_iff_lt]
    rw [show (start exC S exL (P, I) T).opt = p from rfl, ← hr, ← hi, hfull]
    simp only [if_pos (show ((0 : Nat) : Int) = g.maxIters from rfl)]
    rw [show (start exC S exL (P, I) T).bestInfo = I from rfl, hbet]
    simp only [Bool.false_eq_true, if_false]
    unfold reduced
    rw [show (start exC S exL (P, I) T).best = P from rfl, hred]
    rfl
  have hq : (optimize exC g S exL (P, I) T P I).1 = ⟨.optimalInacc, P, true, I, 0, 0⟩ := by
    unfold optimize
    rw [if_pos (show exL.fact 0 = true from rfl), show (g.maxIters + 1).toNat = 0 + 1 from rfl, loop]
    rw [show ({ opt := initPt exC S exL T, best := (P, I).1, bestInfo := (P, I).2, prev := nanv, step := 0, calls := 2, facts := 1 } : St)
      = start exC S exL (P, I) T from rfl, hb]
  rw [hq]
  refine ⟨rfl, fun h => ?_⟩
  have h1 : I.kot = P.kappa / P.tau := congrArg Info.kot h
  norm_num [hI, hP] at h1

/-! ### C86: an execution that falls back -/

theorem norm_nonneg' (n : Nat) (v : Nat → ℝ) : 0 ≤ norm n v := Real.sqrt_nonneg _

/-- With negative tolerances nothing is accepted at a point with nonnegative gap. -/
theorem never_converged (c : Cone) (g : Stg) (S : Storage) (o : Pt) (hf : g.feastol < 0) (ha : g.abstol < 0) (hr : g.reltol < 0)
    (hgap : 0 ≤ (updateStatistics c g S o (computeResiduals c S o)).gap) :
    convergenceCheck g true (computeResiduals c S o) (updateStatistics c g S o (computeResiduals c S o)) o = .notConverged := by
  set r := computeResiduals c S o
  set i := updateStatistics c g S o r with hi
  have hnan : (0 : ℝ) ≤ nanv := by norm_num [nanv]
  have hpos : ∀ x : ℝ, 0 ≤ max x 1 := fun x => le_trans zero_le_one (le_max_right _ _)
  have h1 : 0 ≤ i.pinf := by
    show 0 ≤ (if _ < -g.reltol then _ else nanv)
    split
    · exact div_nonneg (norm_nonneg' _ _) (hpos _)
    · exact hnan
  have h2 : 0 ≤ i.dinf := by
    show 0 ≤ (if _ < -g.reltol then _ else nanv)
    split
    · exact le_max_of_le_left (div_nonneg (norm_nonneg' _ _) (hpos _))
    · exact hnan
  have h3 : 0 ≤ i.relgap := by
    show 0 ≤ (if i.pcost < 0 then i.gap / (-i.pcost) else if i.dcost > 0 then i.gap / i.dcost else nanv)
    split
    · exact div_nonneg hgap (by linarith)
    · split
      · exact div_nonneg hgap (by linarith)
      · exact hnan
  unfold convergenceCheck
  simp only [if_true]
  rw [if_neg, if_neg, if_neg]
  · rintro (⟨⟨-, h⟩, -⟩ | ⟨-, -, h⟩) <;> linarith
  · rintro ⟨-, h, -⟩; linarith
  · rintro ⟨-, -, h | h⟩ <;> linarith

theorem falls_back {c : Cone} {g : Stg} {S : Storage} {lin : LinOracle} {n : Nat} {st : St} {q : Out}
    (hf : g.feastol < 0) (ha : g.abstol < 0) (hr : g.reltol < 0) (hfact : ∀ k, lin.fact k = true)
    (h0 : n = 0 → 0 ≤ (updateStatistics c g S st.opt (computeResiduals c S st.opt)).gap)
    (h : body c g S lin n st = .stop q) : q.code ∉ [ExitCode.optimal, .dualInf, .primalInf, .indeterminate] := by
  have red : ∀ r o i fb sc n s, fb ∈ [ExitCode.prSearchDirection, .reachMaxIters, .prSlacksLeaveCone] →
      (reduced g r o i fb sc n s).code ∉ [ExitCode.optimal, .dualInf, .primalInf, .indeterminate] := by
    intro r o i fb sc n s hfb hc
    rcases reduced_code g r o i fb sc n s with ⟨h1, -⟩ | ⟨h1, h2, -⟩
    · rw [h1] at hc
      simp only [List.mem_cons, List.not_mem_nil, or_false] at hfb hc
      rcases hfb with h | h | h <;> rw [h] at hc <;> simp at hc
    · have := check_codes g false r i o
      rw [h1] at this
      simp only [Bool.false_eq_true, if_false, List.mem_cons, List.not_mem_nil, or_false] at this hc
      rcases this with h | h | h | h <;> rw [h] at hc <;> simp at hc
  unfold body at h
  simp only [] at h
  split at h
  · cases h; exact red _ _ _ _ _ _ _ (by simp)
  · rename_i hg
    have hgap : 0 ≤ (updateStatistics c g S st.opt (computeResiduals c S st.opt)).gap := by
      rcases Nat.eq_zero_or_pos n with hn | hn
      · exact h0 hn
      · by_contra hc
        exact hg ⟨hn, Or.inr (not_le.1 hc)⟩
    rw [never_converged c g S st.opt hf ha hr hgap] at h
    simp only [] at h
    split at h
    · cases h; exact red _ _ _ _ _ _ _ (by simp)
    · split at h
      · split at h <;> (cases h; exact red _ _ _ _ _ _ _ (by simp))
      · split at h
        · cases h; exact red _ _ _ _ _ _ _ (by simp)
        · rw [if_pos (hfact _)] at h
          cases h

/-- The hypotheses of `C86_fallback_not_worse` are met: with tolerances that cannot be reached every execution of the example
falls back. -/
example (old : Pt × Info) (rhs2 : Tri) (o0 : Pt) (i0 : Info) :
    let g : Stg := {exG with feastol := -1, abstol := -1, reltol := -1, maxIters := 5}
    exL.fact 0 = true ∧ 1 ≤ g.maxIters ∧
    (optimize exC g (setEquilibration exC 0 exS).1 exL old rhs2 o0 i0).1.code ∉
      [ExitCode.optimal, .dualInf, .primalInf, .indeterminate] := by
  intro g
  refine ⟨rfl, by norm_num [g], ?_⟩
  obtain ⟨n, st, hv, h2, h3, h4⟩ := optimize_end exC g (setEquilibration exC 0 exS).1 exL old rhs2 o0 i0 rfl (by norm_num [g])
  refine falls_back (by norm_num [g]) (by norm_num [g]) (by norm_num [g]) (fun _ => rfl) (fun hn => ?_) h3
  subst hn
  rw [visits_zero hv]
  obtain ⟨ps, pz⟩ := ex_init rhs2
  show 0 ≤ dot 1 _ _
  unfold dot
  rw [sum_range_one]
  show 0 ≤ (initPt exC (setEquilibration exC 0 exS).1 exL rhs2).s 0 * (initPt exC (setEquilibration exC 0 exS).1 exL rhs2).z 0
  rw [ps, pz]; norm_num

/-- A pair for which one iterate is better than another, as in `C86_kept_iterate_improves`. -/
example : isBetterThan ⟨0, 0, 1, 1, 1, 0.5, 1, 1, nanv, nanv⟩ ⟨0, 0, 2, 2, 2, 0.75, 2, 2, nanv, nanv⟩ = true := by
  unfold isBetterThan
  rw [if_neg (by simp), decide_eq_true_eq]
  norm_num

end IP
end Verif
