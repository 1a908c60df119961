import Verif.IPGapProps
import Verif.IPExamples

/-!
C248-C250: how fast the interior-point method converges when the linear solver is exact, over whole runs of `IPSolver::optimize`
(/repo/solver/src/solver/optimizer/IPSolver.cpp:293-413; model in `IP.lean`).
-/
namespace Verif
namespace IP
open Cone Equil Finset

/-! ### specification -/

/-- In the passes of this run that make a step, the iterate is in the range in which the scalings are computed without the guards against small numbers, and the linear
solver solves its three systems exactly (no static or dynamic regularisation, no rounding). -/
structure ExactRun (c : Cone) (g : Stg) (S : Storage) (lin : LinOracle) (st0 : St) : Prop where
  domain : ∀ n st st', Visits c g S lin st0 n st → body c g S lin n st = .next st' → c.ScalingDomain st.opt.s st.opt.z
  scaled : ∀ n st st', Visits c g S lin st0 n st → body c g S lin n st = .next st' → ∀ W lam, c.updateNTScalings st.opt.s st.opt.z (fun _ => 0) = some (W, lam) → c.WellInside lam
  solved : ∀ n st st', Visits c g S lin st0 n st → body c g S lin n st = .next st' → ∀ W lam, c.updateNTScalings st.opt.s st.opt.z (fun _ => 0) = some (W, lam) →
    ∀ i < 3, ∀ b, KKT c S W b (lin.solve (st.calls + i) b)

/-- The parameters of the steps are in the order the defaults have. -/
structure Stg.Steps (g : Stg) : Prop where
  sane : g.Sane
  min1 : g.minStep ≤ 1
  max1 : g.maxStep ≤ 1
  cen0 : 0 ≤ g.minCentering
  cen1 : g.minCentering ≤ 1
  cen2 : g.maxCentering ≤ 1

/-- All four residuals of `p` are `q` times those of `p0`. -/
def Scaled (c : Cone) (S : Storage) (q : ℝ) (p0 p : Pt) : Prop :=
  (∀ j < c.nvars, rX c S p j = q * rX c S p0 j) ∧ (∀ r < c.neq, rY c S p r = q * rY c S p0 r) ∧
  (∀ r < c.sizecone, rZ c S p r = q * rZ c S p0 r) ∧ rT c S p = q * rT c S p0

/-- The largest centering that the settings allow. -/
noncomputable def Stg.centering (g : Stg) : ℝ := max ((1 - g.minStep) ^ 3) g.minCentering

/-- The factor of a step of length `a`. -/
noncomputable def Stg.factor (g : Stg) (a : ℝ) : ℝ := 1 - a * (1 - g.centering)

theorem Stg.Steps.centering_le {g : Stg} (h : g.Steps) : g.centering ≤ 1 :=
  max_le (pow_le_one₀ (by linarith [h.min1]) (by linarith [h.sane.min0])) h.cen1

/-- With less than full minimum centering, every step of positive length shrinks. -/
theorem Stg.Steps.factor_lt {g : Stg} (h : g.Steps) (h1 : g.minCentering < 1) {a : ℝ} (ha : 0 < a) : g.factor a < 1 := by
  have : g.centering < 1 := max_lt (pow_lt_one₀ (by linarith [h.min1]) (by linarith [h.sane.min0]) (by norm_num)) h1
  unfold Stg.factor
  nlinarith

theorem Stg.Steps.factor_nonneg {g : Stg} (h : g.Steps) {a : ℝ} (h0 : 0 ≤ a) (h1 : a ≤ 1) : 0 ≤ g.factor a := by
  have : 0 ≤ g.centering := le_trans h.cen0 (le_max_right _ _)
  unfold Stg.factor
  nlinarith [h.centering_le]

/-! ### the division of the step -/

/-- C248, no division by zero: with an exact solution of the first system, the number that the step of `tau` is divided by is positive. -/
theorem C248_denominator (c : Cone) (hne : c.NoEmpty) (S : Storage) (hS : Fits c S) (W : Scalings) (hW : GoodW c W) (d : Tri) (tau kappa : ℝ) (ht : 0 < tau) (hk : 0 < kappa)
    (h : KKT c S W ⟨fun k => -pc c S k, pb c S, ph c S⟩ d) :
    0 < kappa / tau - dot c.nvars (pc c S) d.x - dot c.neq (pb c S) d.y - dot c.sizecone (ph c S) d.z := by
  obtain ⟨h1, h2, h3⟩ := h
  obtain ⟨l1, l2, m1, m2⟩ := hS
  have a1 := act_adj S.A c.neq m1 d.x d.y
  have a2 := act_adj S.G c.sizecone m2 d.x d.z
  rw [l1] at a1
  rw [l2] at a2
  have e1 : dot c.nvars (pc c S) d.x = -(∑ r ∈ range c.neq, d.y r * pb c S r + ∑ r ∈ range c.sizecone, d.z r * act S.G d.x r) := by
    have : dot c.nvars (pc c S) d.x = -(∑ j ∈ range c.nvars, d.x j * actT S.A d.y j + ∑ j ∈ range c.nvars, d.x j * actT S.G d.z j) := by
      unfold dot
      rw [← sum_add_distrib, ← sum_neg_distrib]
      refine sum_congr rfl fun j hj => ?_
      have := h1 j (mem_range.1 hj)
      simp only at this
      linear_combination (d.x j) * this
    rw [this, a1, a2]
    congr 2
    exact sum_congr rfl fun r hr => by rw [h2 r (mem_range.1 hr)]
  have e2 : ∑ r ∈ range c.sizecone, d.z r * act S.G d.x r = ∑ r ∈ range c.sizecone, ph c S r * d.z r +
      ∑ r ∈ range c.sizecone, (c.conicNTScaling W d.z (fun _ => 0) r) ^ 2 := by
    have := nt_symm c hne W hW (c.conicNTScaling W d.z (fun _ => 0)) d.z (fun _ => 0) (fun _ => 0)
    rw [show ∑ r ∈ range c.sizecone, (c.conicNTScaling W d.z (fun _ => 0) r) ^ 2 =
      ∑ r ∈ range c.sizecone, c.conicNTScaling W d.z (fun _ => 0) r * c.conicNTScaling W d.z (fun _ => 0) r from sum_congr rfl fun r _ => pow_two _, ← this, ← sum_add_distrib]
    refine sum_congr rfl fun r hr => ?_
    have := h3 r (mem_range.1 hr)
    simp only at this
    linear_combination d.z r * this
  have e3 : dot c.neq (pb c S) d.y = ∑ r ∈ range c.neq, d.y r * pb c S r := sum_congr rfl fun r _ => mul_comm _ _
  have e4 : dot c.sizecone (ph c S) d.z = ∑ r ∈ range c.sizecone, ph c S r * d.z r := rfl
  have e5 : 0 ≤ ∑ r ∈ range c.sizecone, (c.conicNTScaling W d.z (fun _ => 0) r) ^ 2 := sum_nonneg fun r _ => sq_nonneg _
  have := div_pos hk ht
  rw [e1, e2, e3, e4]
  linarith

/-! ### one pass -/

/-- What a pass that continues does, with the calls of the linear solver. -/
theorem body_next_calls {c : Cone} {g : Stg} {S : Storage} {lin : LinOracle} {n : Nat} {st st' : St} (h : body c g S lin n st = .next st') :
    ∃ W lam, c.updateNTScalings st.opt.s st.opt.z (fun _ => 0) = some (W, lam) ∧ ¬ (n > 0 ∧ st.step = g.minStep * g.stepScaling) ∧
      (let r := computeResiduals c S st.opt
       let i := updateStatistics c g S st.opt r
       let nw := newton c g S st.opt r i.merit W lam (lin.solve st.calls (rhs1 c S)) (lin.solve (st.calls + 1)) (lin.solve (st.calls + 2))
       st'.opt = advance st.opt nw.d nw.step ∧ st'.step = nw.step) := by
  unfold body at h
  simp only [] at h
  split at h
  · cases h
  · split at h
    · split at h
      · cases h
      · rename_i hns
        split at h
        · split at h <;> cases h
        · split at h
          · cases h
          · rename_i W lam hu
            split at h
            · cases h
              exact ⟨W, lam, hu, hns, rfl, rfl⟩
            · cases h
    · cases h

theorem lineSearch_range {c : Cone} {g : Stg} (h : g.Steps) (lam ds dz : Nat → ℝ) (t dt k dk : ℝ) :
    g.minStep ≤ lineSearch c g lam ds dz t dt k dk ∧ lineSearch c g lam ds dz t dt k dk ≤ 1 :=
  ⟨le_max_right _ _, max_le ((min_le_right _ _).trans h.max1) h.min1⟩

/-- The centering and the length of a step are in the ranges of the settings. -/
theorem newton_range {c : Cone} {g : Stg} (hg : g.Steps) (S : Storage) (o : Pt) (r : Res) (merit : ℝ) (W : Scalings) (lam : Nat → ℝ) (d2 : Tri) (solve1 solve2 : Tri → Tri) :
    let nw := newton c g S o r merit W lam d2 solve1 solve2
    0 ≤ nw.sigma ∧ nw.sigma ≤ g.centering ∧ g.minStep * g.stepScaling ≤ nw.step ∧ nw.step < 1 := by
  intro nw
  obtain ⟨aA, hA, hs⟩ : ∃ aA, (g.minStep ≤ aA ∧ aA ≤ 1) ∧ nw.sigma = max (min ((1 - aA) ^ 3) g.maxCentering) g.minCentering :=
    ⟨_, lineSearch_range hg _ _ _ _ _ _ _, rfl⟩
  obtain ⟨l, hl, hst⟩ : ∃ l, (g.minStep ≤ l ∧ l ≤ 1) ∧ nw.step = l * g.stepScaling := ⟨_, lineSearch_range hg _ _ _ _ _ _ _, rfl⟩
  have h0 := hg.sane.min0
  have h1 := hg.sane.scal0
  have h2 := hg.sane.scal1
  refine ⟨?_, ?_, ?_, ?_⟩
  · rw [hs]; exact le_trans hg.cen0 (le_max_right _ _)
  · rw [hs]
    refine max_le_max ((min_le_left _ _).trans ?_) le_rfl
    exact pow_le_pow_left₀ (by linarith) (by linarith) 3
  · rw [hst]; exact mul_le_mul_of_nonneg_right hl.1 h1
  · rw [hst]; nlinarith [hl.1, hl.2]

/-! ### whole runs -/

section
variable {c : Cone} {g : Stg} {S : Storage} {lin : LinOracle} {st0 : St}

/-- One step of an exact run: all residuals get the same factor, the gap at most that factor. -/
theorem step_rate (hne : c.NoEmpty) (hg : g.Steps) (hS : Fits c S) (hE : ExactRun c g S lin st0) (h0 : Inside c st0.opt)
    {n : Nat} {st st' : St} (hv : Visits c g S lin st0 n st) (hb : body c g S lin n st = .next st') :
    Inside c st.opt ∧ g.minStep * g.stepScaling ≤ st'.step ∧ st'.step < 1 ∧ ∃ sigma, 0 ≤ sigma ∧ sigma ≤ g.centering ∧
      Scaled c S (1 - st'.step * (1 - sigma)) st.opt st'.opt ∧ gapOf c st'.opt ≤ (1 - st'.step * (1 - sigma)) * gapOf c st.opt := by
  obtain ⟨W, lam, hu, hns, e1, e2⟩ := body_next_calls hb
  have hin : Inside c st.opt := (visit_inside c hne g hg.sane S lin st0 h0 hE.domain n st hv).2.resolve_right hns
  have hd := hE.domain n st st' hv hb
  have hwl := hE.scaled n st st' hv hb W lam hu
  have hk := hE.solved n st st' hv hb W lam hu
  obtain ⟨hW, -, -, -⟩ := good_of_update c hne st.opt.s st.opt.z _ hd W lam hu
  have hden := (C248_denominator c hne S hS W hW (lin.solve st.calls (rhs1 c S)) st.opt.tau st.opt.kappa hin.2.2.1 hin.2.2.2
    (by have := hk 0 (by omega) (rhs1 c S); rwa [Nat.add_zero] at this)).ne'
  have hk0 : KKT c S W ⟨fun k => -pc c S k, pb c S, ph c S⟩ (lin.solve st.calls (rhs1 c S)) := by
    have := hk 0 (by omega) (rhs1 c S); rwa [Nat.add_zero] at this
  obtain ⟨r1, r2, r3, r4⟩ := newton_range (c := c) hg S st.opt (computeResiduals c S st.opt)
    (updateStatistics c g S st.opt (computeResiduals c S st.opt)).merit W lam (lin.solve st.calls (rhs1 c S)) (lin.solve (st.calls + 1)) (lin.solve (st.calls + 2))
  set nw := newton c g S st.opt (computeResiduals c S st.opt)
    (updateStatistics c g S st.opt (computeResiduals c S st.opt)).merit W lam (lin.solve st.calls (rhs1 c S)) (lin.solve (st.calls + 1)) (lin.solve (st.calls + 2)) with hnw
  have hpos : 0 ≤ nw.step := le_trans (mul_nonneg hg.sane.min0.le hg.sane.scal0) r3
  have hres := C79_residuals_shrink c hne g S st.opt (updateStatistics c g S st.opt (computeResiduals c S st.opt)).merit W lam (lin.solve st.calls (rhs1 c S))
    (lin.solve (st.calls + 1)) (lin.solve (st.calls + 2)) hd hu hin.2.2.1.ne' hden hk0 (hk 2 (by omega)) nw.step
  refine ⟨hin, by rw [e2]; exact r3, by rw [e2]; exact r4, nw.sigma, r1, r2, ?_, ?_⟩
  · rw [e1, e2]; exact hres
  · rw [e1, e2]
    exact (C87_gap_rate c hne g S hS st.opt W lam (lin.solve st.calls (rhs1 c S)) (lin.solve (st.calls + 1)) (lin.solve (st.calls + 2)) hd hu hwl hin.2.2.1 hin.2.2.2.le
      hg.cen0 hg.cen1 hg.cen2 hden hk0 (hk 1 (by omega)) (hk 2 (by omega)) nw.step hpos r4.le).1

theorem gap_nonneg (hne : c.NoEmpty) {p : Pt} (h : Inside c p) : 0 ≤ gapOf c p := by
  have := inner_nonneg c hne p.s p.z (Interior.mem h.1) (Interior.mem h.2.1)
  have := mul_nonneg h.2.2.2.le h.2.2.1.le
  unfold gapOf
  linarith

theorem Scaled.refl (p : Pt) : Scaled c S 1 p p := ⟨fun _ _ => (one_mul _).symm, fun _ _ => (one_mul _).symm, fun _ _ => (one_mul _).symm, (one_mul _).symm⟩

theorem Scaled.trans {q q' : ℝ} {p0 p p' : Pt} (h : Scaled c S q p0 p) (h' : Scaled c S q' p p') : Scaled c S (q' * q) p0 p' :=
  ⟨fun j hj => by rw [h'.1 j hj, h.1 j hj, mul_assoc], fun j hj => by rw [h'.2.1 j hj, h.2.1 j hj, mul_assoc], fun j hj => by rw [h'.2.2.1 j hj, h.2.2.1 j hj, mul_assoc],
    by rw [h'.2.2.2, h.2.2.2, mul_assoc]⟩

/-- C248: in a run with an exact linear solver whose steps have at least the length `a`, the residuals at the head of pass `n` are all the same multiple of the initial ones, and this multiple and the
fraction that is left of the complementarity gap are at most the `n`-th power of a factor given by the settings. -/
theorem C248_rate (hne : c.NoEmpty) (hg : g.Steps) (hS : Fits c S) (hE : ExactRun c g S lin st0) (h0 : Inside c st0.opt) (a : ℝ) (ha : 0 ≤ a)
    (hstep : ∀ n st, Visits c g S lin st0 n st → 0 < n → a ≤ st.step) (n : Nat) (st : St) (hv : Visits c g S lin st0 n st) :
    ∃ q, 0 < q ∧ q ≤ g.factor a ^ n ∧ Scaled c S q st0.opt st.opt ∧ gapOf c st.opt ≤ q * gapOf c st0.opt := by
  induction hv with
  | start => exact ⟨1, one_pos, by simp, Scaled.refl _, by rw [one_mul]⟩
  | @next n st st' hv hb ih =>
    obtain ⟨q, q0, q1, q2, q3⟩ := ih
    obtain ⟨_, s1, s2, sigma, t0, t1, t2, t3⟩ := step_rate hne hg hS hE h0 hv hb
    have hc := hg.centering_le
    have hst := hstep (n + 1) st' (.next hv hb) (Nat.succ_pos n)
    have f0 : 0 < 1 - st'.step * (1 - sigma) := by nlinarith
    have f1 : 1 - st'.step * (1 - sigma) ≤ g.factor a := by
      unfold Stg.factor
      have h1 : a * (1 - g.centering) ≤ st'.step * (1 - g.centering) := mul_le_mul_of_nonneg_right hst (by linarith)
      have h2 : st'.step * (1 - g.centering) ≤ st'.step * (1 - sigma) := mul_le_mul_of_nonneg_left (by linarith) (by linarith)
      linarith
    refine ⟨(1 - st'.step * (1 - sigma)) * q, mul_pos f0 q0, ?_, q2.trans t2, ?_⟩
    · rw [pow_succ, mul_comm]
      exact mul_le_mul q1 f1 f0.le (le_trans q0.le q1)
    · refine t3.trans ?_
      rw [mul_assoc]
      exact mul_le_mul_of_nonneg_left q3 f0.le

/-- C248, without an assumption about the steps: the settings give a least length. -/
theorem C248_least_step (hne : c.NoEmpty) (hg : g.Steps) (hS : Fits c S) (hE : ExactRun c g S lin st0) (h0 : Inside c st0.opt) (n : Nat) (st : St) (hv : Visits c g S lin st0 n st) :
    (0 < n → g.minStep * g.stepScaling ≤ st.step) ∧
    ∃ q, 0 < q ∧ q ≤ g.factor (g.minStep * g.stepScaling) ^ n ∧ Scaled c S q st0.opt st.opt ∧ gapOf c st.opt ≤ q * gapOf c st0.opt := by
  have key : ∀ n st, Visits c g S lin st0 n st → 0 < n → g.minStep * g.stepScaling ≤ st.step := by
    intro n st hv hn
    cases hv with
    | start => exact absurd hn (lt_irrefl 0)
    | next hv hb => exact (step_rate hne hg hS hE h0 hv hb).2.1
  exact ⟨key n st hv, C248_rate hne hg hS hE h0 _ (mul_nonneg hg.sane.min0.le hg.sane.scal0) key n st hv⟩

/-! ### the exit -/

theorem norm_scaled {m : Nat} {u v : Nat → ℝ} {q : ℝ} (hq : 0 ≤ q) (h : ∀ k < m, v k = q * u k) : norm m v = q * norm m u := by
  unfold norm
  rw [show ∑ k ∈ range m, v k ^ 2 = q ^ 2 * ∑ k ∈ range m, u k ^ 2 by
    rw [mul_sum]; exact sum_congr rfl fun k hk => by rw [h k (mem_range.1 hk), mul_pow], Real.sqrt_mul (sq_nonneg q), Real.sqrt_sq hq]

/-- The size of the residuals of a point. -/
noncomputable def errorOf (c : Cone) (S : Storage) (p : Pt) : ℝ := max (norm c.nvars (rX c S p)) (max (norm c.neq (rY c S p)) (norm c.sizecone (rZ c S p)))

/-- The point meets the tolerances of an optimal exit once its residuals and its gap are small enough in comparison with `tau`. -/
theorem check_optimal (g : Stg) {p0 p : Pt} {q : ℝ} (hq : 0 ≤ q) (hs : Scaled c S q p0 p) (hk : 0 < p.kappa) {t : ℝ} (ht0 : 0 < t) (ht : t ≤ p.tau)
    (hgap : gapOf c p < g.abstol) (hT : q * rT c S p0 ≤ g.abstol) (hR : q * errorOf c S p0 < g.feastol * t) :
    convergenceCheck g true (computeResiduals c S p) (updateStatistics c g S p (computeResiduals c S p)) p = .optimal := by
  obtain ⟨s1, s2, s3, s4⟩ := computeResiduals_spec c S p
  have htau : 0 < p.tau := lt_of_lt_of_le ht0 ht
  have nX : norm c.nvars (computeResiduals c S p).x = q * norm c.nvars (rX c S p0) := by
    rw [← norm_scaled hq hs.1, ← norm_neg c.nvars (rX c S p)]
    exact congrArg _ (funext fun j => s1 j)
  have nY : norm c.neq (computeResiduals c S p).y = q * norm c.neq (rY c S p0) := norm_scaled hq fun r hr => by rw [s2 r hr, hs.2.1 r hr]
  have nZ : norm c.sizecone (computeResiduals c S p).z = q * norm c.sizecone (rZ c S p0) := norm_scaled hq fun r hr => by rw [s3 r hr, hs.2.2.1 r hr]
  have hle : ∀ {v : ℝ}, 0 ≤ v → ∀ d : ℝ, v / max d 1 ≤ v := fun hv d => div_le_self hv (le_max_right _ _)
  have hb : ∀ {v : ℝ}, v ≤ errorOf c S p0 → q * v < g.feastol * p.tau := fun hv => by
    have h1 := mul_le_mul_of_nonneg_left hv hq
    have h2 : 0 ≤ errorOf c S p0 := le_trans (Real.sqrt_nonneg _) (le_max_left _ _)
    have h3 : 0 < g.feastol := by
      have := mul_nonneg hq h2
      by_contra hc
      have := mul_nonpos_of_nonpos_of_nonneg (not_lt.1 hc) ht0.le
      linarith
    have := mul_le_mul_of_nonneg_left ht h3.le
    linarith
  unfold convergenceCheck
  simp only [if_true]
  rw [if_pos]
  refine ⟨?_, ⟨?_, ?_⟩, Or.inl ?_⟩
  · by_cases hc : (computeResiduals c S p).cx < 0
    · exact Or.inl hc
    · right
      have e : p.kappa + (computeResiduals c S p).cx + (computeResiduals c S p).by_ + (computeResiduals c S p).hz = q * rT c S p0 := by
        rw [← hs.2.2.2, ← s4]; rfl
      linarith [not_lt.1 hc]
  · show max (norm c.neq _ / max _ 1) (norm c.sizecone _ / max _ 1) / p.tau < _
    rw [div_lt_iff₀ htau]
    refine max_lt (lt_of_le_of_lt (hle (Real.sqrt_nonneg _) _) ?_) (lt_of_le_of_lt (hle (Real.sqrt_nonneg _) _) ?_)
    · show norm c.neq (computeResiduals c S p).y < _
      rw [nY]; exact hb (le_trans (le_max_left _ _) (le_max_right _ _))
    · show norm c.sizecone (computeResiduals c S p).z < _
      rw [nZ]; exact hb (le_trans (le_max_right _ _) (le_max_right _ _))
  · show norm c.nvars _ / max _ 1 / p.tau < _
    rw [div_lt_iff₀ htau]
    refine lt_of_le_of_lt (hle (Real.sqrt_nonneg _) _) ?_
    show norm c.nvars (computeResiduals c S p).x < _
    rw [nX]; exact hb (le_max_left _ _)
  · show dot c.sizecone p.s p.z < _
    have : dot c.sizecone p.s p.z = gapOf c p - p.kappa * p.tau := by unfold gapOf dot; ring
    have h2 := mul_pos hk htau
    linarith

/-- C249: let the steps have at least the length `a`, let `tau` be at least `t` at the head of pass `n`, and let `n` be so large that the `n`-th power of the factor has brought the initial residuals and gap below the
tolerances. Then that pass is the last one. It returns the current iterate as optimal, unless the test for a bad direction compares its primal residual with that of the pass before and stops the method, or the
last step was raised to the least length and left the cones. -/
theorem C249_stops (hne : c.NoEmpty) (hg : g.Steps) (hS : Fits c S) (hE : ExactRun c g S lin st0) (h0 : Inside c st0.opt) (a : ℝ) (ha : 0 ≤ a)
    (hstep : ∀ n st, Visits c g S lin st0 n st → 0 < n → a ≤ st.step) (n : Nat) (st : St) (hv : Visits c g S lin st0 n st) (t : ℝ) (ht0 : 0 < t) (ht : t ≤ st.opt.tau)
    (hgap : g.factor a ^ n * gapOf c st0.opt < g.abstol) (hT : g.factor a ^ n * |rT c S st0.opt| ≤ g.abstol) (hR : g.factor a ^ n * errorOf c S st0.opt < g.feastol * t) :
    ∃ r, body c g S lin n st = .stop r ∧
      ((r.code = .optimal ∧ r.opt = st.opt ∧ r.scaled = true) ∨
       (0 < n ∧ g.safeguard * st.prev < (updateStatistics c g S st.opt (computeResiduals c S st.opt)).pres) ∨
       (0 < n ∧ st.step = g.minStep * g.stepScaling)) := by
  obtain ⟨q, q0, q1, q2, q3⟩ := C248_rate hne hg hS hE h0 a ha hstep n st hv
  have hin := (visit_inside c hne g hg.sane S lin st0 h0 hE.domain n st hv).2
  have hG := gap_nonneg hne h0
  have hE0 : 0 ≤ errorOf c S st0.opt := le_trans (Real.sqrt_nonneg _) (le_max_left _ _)
  by_cases hms : 0 < n ∧ st.step = g.minStep * g.stepScaling
  · cases hb : body c g S lin n st with
    | stop r => exact ⟨r, rfl, Or.inr (Or.inr hms)⟩
    | next st' => exact absurd hms (body_next_calls hb).choose_spec.choose_spec.2.1
  · have hi := hin.resolve_right hms
    have hc := check_optimal g q0.le q2 hi.2.2.2 ht0 ht (lt_of_le_of_lt (q3.trans (mul_le_mul_of_nonneg_right q1 hG)) hgap)
      ((mul_le_mul_of_nonneg_left (le_abs_self _) q0.le).trans ((mul_le_mul_of_nonneg_right q1 (abs_nonneg _)).trans hT))
      (lt_of_le_of_lt (mul_le_mul_of_nonneg_right q1 hE0) hR)
    have hg0 : ¬ (updateStatistics c g S st.opt (computeResiduals c S st.opt)).gap < 0 :=
      not_lt.2 (inner_nonneg c hne st.opt.s st.opt.z (Interior.mem hi.1) (Interior.mem hi.2.1))
    by_cases hsg : n > 0 ∧ g.safeguard * st.prev < (updateStatistics c g S st.opt (computeResiduals c S st.opt)).pres
    · refine ⟨reduced g (computeResiduals c S st.opt) st.best st.bestInfo .prSearchDirection true n st.step, ?_, Or.inr (Or.inl hsg)⟩
      · unfold body
        simp only []
        rw [if_pos ⟨hsg.1, Or.inl hsg.2⟩]
    · refine ⟨⟨.optimal, st.opt, true, updateStatistics c g S st.opt (computeResiduals c S st.opt), n, st.step⟩, ?_, Or.inl ⟨rfl, rfl, rfl⟩⟩
      unfold body
      simp only []
      rw [if_neg (fun h => h.2.elim (fun h' => hsg ⟨h.1, h'⟩) hg0), hc]

/-- C249, the number of passes: no pass follows the one of `C249_stops`. -/
theorem C249_passes (hne : c.NoEmpty) (hg : g.Steps) (hS : Fits c S) (hE : ExactRun c g S lin st0) (h0 : Inside c st0.opt) (a : ℝ) (ha : 0 ≤ a)
    (hstep : ∀ n st, Visits c g S lin st0 n st → 0 < n → a ≤ st.step) (n : Nat) (t : ℝ) (ht0 : 0 < t) (ht : ∀ st, Visits c g S lin st0 n st → t ≤ st.opt.tau)
    (hgap : g.factor a ^ n * gapOf c st0.opt < g.abstol) (hT : g.factor a ^ n * |rT c S st0.opt| ≤ g.abstol) (hR : g.factor a ^ n * errorOf c S st0.opt < g.feastol * t)
    (m : Nat) (st : St) (hv : Visits c g S lin st0 m st) : m ≤ n := by
  by_contra hm
  have key : ∀ m st, Visits c g S lin st0 m st → n < m → ∃ st₁ st₂, Visits c g S lin st0 n st₁ ∧ body c g S lin n st₁ = .next st₂ := by
    intro m st hv
    induction hv with
    | start => intro h; exact absurd h (Nat.not_lt_zero _)
    | @next k s s' hv hb ih =>
      intro h
      rcases Nat.lt_succ_iff_lt_or_eq.1 h with h | h
      · exact ih h
      · subst h; exact ⟨s, s', hv, hb⟩
  obtain ⟨s₁, s₂, h1, h2⟩ := key m st hv (not_le.1 hm)
  obtain ⟨r, h3, -⟩ := C249_stops hne hg hS hE h0 a ha hstep n s₁ h1 t ht0 (ht s₁ h1) hgap hT hR
  rw [h2] at h3
  cases h3

/-- C249, a number of passes that depends only on the settings, on a lower bound of `tau` and on bounds of the residuals and the gap of the initial iterate: no exact run exceeds it, however large the limit on the iterations. -/
theorem C249_finite (c : Cone) (hne : c.NoEmpty) (g : Stg) (hg : g.Steps) (hc : g.minCentering < 1) (hs : 0 < g.stepScaling) (hf : 0 < g.feastol) (hab : 0 < g.abstol) (t : ℝ) (ht0 : 0 < t) (B : ℝ) :
    ∃ N : Nat, ∀ (S : Storage) (lin : LinOracle) (st0 : St) (m : Int), Fits c S → ExactRun c { g with maxIters := m } S lin st0 → Inside c st0.opt →
      gapOf c st0.opt ≤ B → |rT c S st0.opt| ≤ B → errorOf c S st0.opt ≤ B → (∀ n st, Visits c { g with maxIters := m } S lin st0 n st → t ≤ st.opt.tau) →
      ∀ n st, Visits c { g with maxIters := m } S lin st0 n st → n ≤ N := by
  have ha : 0 < g.minStep * g.stepScaling := mul_pos hg.sane.min0 hs
  have hle : g.minStep * g.stepScaling ≤ 1 := by nlinarith [hg.min1, hg.sane.scal1, hg.sane.min0]
  have h1 := hg.factor_lt hc ha
  have h0 := hg.factor_nonneg ha.le hle
  have hB : 0 < max B 1 := lt_of_lt_of_le one_pos (le_max_right _ _)
  obtain ⟨N, hN⟩ := exists_pow_lt_of_lt_one (show 0 < min g.abstol (g.feastol * t) / max B 1 from div_pos (lt_min hab (mul_pos hf ht0)) hB) h1
  rw [lt_div_iff₀ hB] at hN
  refine ⟨N, fun S lin st0 m hS hE hI b1 b2 b3 htau n st hv => ?_⟩
  have hg' : ({ g with maxIters := m } : Stg).Steps := ⟨⟨hg.sane.scal0, hg.sane.scal1, hg.sane.min0⟩, hg.min1, hg.max1, hg.cen0, hg.cen1, hg.cen2⟩
  have hp := pow_nonneg h0 N
  have key : ∀ v, v ≤ B → g.factor (g.minStep * g.stepScaling) ^ N * v < min g.abstol (g.feastol * t) := fun v hv' =>
    lt_of_le_of_lt (mul_le_mul_of_nonneg_left (hv'.trans (le_max_left _ _)) hp) hN
  exact C249_passes hne hg' hS hE hI (g.minStep * g.stepScaling) ha.le (fun n st hv hn => (C248_least_step hne hg' hS hE hI n st hv).1 hn) N t ht0 (fun st hv => htau N st hv)
    (lt_of_lt_of_le (key _ b1) (min_le_left _ _)) ((key _ b2).le.trans (min_le_left _ _)) (lt_of_lt_of_le (key _ b3) (min_le_right _ _)) n st hv

/-! ### C250: where the iterates can go -/

theorem test_scaled {q : ℝ} {p0 p : Pt} (h : Scaled c S q p0 p) (r : Pt) : test c S p r = q * test c S p0 r := by
  have e1 : ∑ j ∈ range c.nvars, r.x j * rX c S p j = q * ∑ j ∈ range c.nvars, r.x j * rX c S p0 j := by
    rw [mul_sum]; exact sum_congr rfl fun j hj => by rw [h.1 j (mem_range.1 hj)]; ring
  have e2 : ∑ j ∈ range c.neq, r.y j * rY c S p j = q * ∑ j ∈ range c.neq, r.y j * rY c S p0 j := by
    rw [mul_sum]; exact sum_congr rfl fun j hj => by rw [h.2.1 j (mem_range.1 hj)]; ring
  have e3 : ∑ j ∈ range c.sizecone, r.z j * rZ c S p j = q * ∑ j ∈ range c.sizecone, r.z j * rZ c S p0 j := by
    rw [mul_sum]; exact sum_congr rfl fun j hj => by rw [h.2.2.1 j (mem_range.1 hj)]; ring
  unfold test
  rw [e1, e2, e3, h.2.2.2]; ring

/-- C250, the iterates stay bounded: in an exact run, slacks, multipliers, `tau` and `kappa`, weighted with those of the initial iterate, never exceed twice the initial gap. -/
theorem C250_bounded (hne : c.NoEmpty) (hg : g.Steps) (hS : Fits c S) (hE : ExactRun c g S lin st0) (h0 : Inside c st0.opt) (n : Nat) (st : St) (hv : Visits c g S lin st0 n st) :
    ∑ k ∈ range c.sizecone, st.opt.s k * st0.opt.z k + ∑ k ∈ range c.sizecone, st0.opt.s k * st.opt.z k + st.opt.tau * st0.opt.kappa + st0.opt.tau * st.opt.kappa ≤ 2 * gapOf c st0.opt := by
  obtain ⟨_, q, q0, q1, q2, q3⟩ := C248_least_step hne hg hS hE h0 n st hv
  have ha0 := mul_nonneg hg.sane.min0.le hg.sane.scal0
  have hle : g.minStep * g.stepScaling ≤ 1 := by nlinarith [hg.min1, hg.sane.scal1, hg.sane.min0, hg.sane.scal0]
  have hq1 : q ≤ 1 := q1.trans (pow_le_one₀ (hg.factor_nonneg ha0 hle) (by unfold Stg.factor; nlinarith [hg.centering_le]))
  have hG := gap_nonneg hne h0
  have s1 := skew c S hS st.opt st0.opt
  have s2 := skew c S hS st.opt st.opt
  have s3 := skew c S hS st0.opt st0.opt
  rw [test_scaled q2] at s1 s2
  have g1 := gap_compl c st.opt
  have g2 := gap_compl c st0.opt
  have key : q * compl c st.opt st0.opt = q ^ 2 * gapOf c st0.opt + gapOf c st.opt := by
    rw [g1, g2, ← s1, ← s2, ← s3]; ring
  have : q * compl c st.opt st0.opt ≤ q * (2 * gapOf c st0.opt) := by
    rw [key]
    have := mul_le_mul_of_nonneg_right hq1 (mul_nonneg q0.le hG)
    nlinarith
  exact le_of_mul_le_mul_left this q0

/-- The complementarity of an iterate with any point without residuals shrinks like the residuals. -/
theorem compl_rate (hS : Fits c S) {q : ℝ} {p0 p r : Pt} (hs : Scaled c S q p0 p) (hr : Scaled c S 0 p0 r) : compl c p r = q * compl c p0 r := by
  have s1 := skew c S hS p r
  have s2 := skew c S hS p0 r
  rw [test_scaled hs, test_scaled hr] at s1
  rw [test_scaled hr] at s2
  rw [← s1, ← s2]; ring

/-- C250, solvable problems: if the problem and its dual have a complementary pair of solutions, then `kappa` and the complementarity of the iterate with the solution go to zero at the rate of C248. -/
theorem C250_solvable (hne : c.NoEmpty) (hg : g.Steps) (hS : Fits c S) (hE : ExactRun c g S lin st0) (h0 : Inside c st0.opt) (a : ℝ) (ha : 0 ≤ a)
    (hstep : ∀ n st, Visits c g S lin st0 n st → 0 < n → a ≤ st.step) (x y z s : Nat → ℝ) (hsol : Solves c S 1 x y z s) (n : Nat) (st : St) (hv : Visits c g S lin st0 n st) :
    ∑ k ∈ range c.sizecone, st.opt.s k * z k + ∑ k ∈ range c.sizecone, s k * st.opt.z k + st.opt.kappa ≤
      g.factor a ^ n * (∑ k ∈ range c.sizecone, st0.opt.s k * z k + ∑ k ∈ range c.sizecone, s k * st0.opt.z k + st0.opt.kappa) := by
  obtain ⟨q, q0, q1, q2, _⟩ := C248_rate hne hg hS hE h0 a ha hstep n st hv
  obtain ⟨b1, b2, b3, b4, b5, b6⟩ := hsol
  set r : Pt := ⟨x, y, z, s, 1, 0⟩ with hr
  have rx : ∀ j < c.nvars, rX c S r j = 0 := b3
  have ry : ∀ j < c.neq, rY c S r j = 0 := fun j hj => by unfold rY; linarith [b1 j hj]
  have rz : ∀ j < c.sizecone, rZ c S r j = 0 := fun j hj => by unfold rZ; linarith [b2 j hj]
  have rt : rT c S r = 0 := by
    have := skew c S hS r r
    have h1 : compl c r r = 0 := by
      have : compl c r r = 2 * ∑ k ∈ range c.sizecone, s k * z k := by unfold compl; simp only [hr]; ring
      rw [this, b6, mul_zero]
    have h2 : test c S r r = rT c S r := by
      unfold test
      rw [sum_eq_zero fun j hj => by rw [rx j (mem_range.1 hj), mul_zero], sum_eq_zero fun j hj => by rw [ry j (mem_range.1 hj), mul_zero],
        sum_eq_zero fun j hj => by rw [rz j (mem_range.1 hj), mul_zero]]
      show 1 * _ - 0 + 0 + 0 = _; ring
    rw [h1, h2] at this
    linarith
  have hz : Scaled c S 0 st0.opt r := ⟨fun j hj => by rw [rx j hj, zero_mul], fun j hj => by rw [ry j hj, zero_mul], fun j hj => by rw [rz j hj, zero_mul], by rw [rt, zero_mul]⟩
  have key := compl_rate hS q2 hz
  have e : ∀ p : Pt, compl c p r = ∑ k ∈ range c.sizecone, p.s k * z k + ∑ k ∈ range c.sizecone, s k * p.z k + p.kappa := fun p => by unfold compl; simp only [hr]; ring
  rw [e, e] at key
  rw [key]
  refine mul_le_mul_of_nonneg_right q1 ?_
  have h1 := inner_nonneg c hne st0.opt.s z (Interior.mem h0.1) b5
  have h2 := inner_nonneg c hne s st0.opt.z b4 (Interior.mem h0.2.1)
  linarith [h0.2.2.2]

/-- C250, infeasible problems: if the problem has a certificate of infeasibility (`A'y + G'z = 0`, `z` in the cones, `b'y + h'z = -1`), or its dual has one (`Ax = 0`, `Gx + s = 0`, `s` in the cones, `c'x = -1`), then
`tau` goes to zero at the rate of C248. -/
theorem C250_infeasible (hne : c.NoEmpty) (hg : g.Steps) (hS : Fits c S) (hE : ExactRun c g S lin st0) (h0 : Inside c st0.opt) (a : ℝ) (ha : 0 ≤ a)
    (hstep : ∀ n st, Visits c g S lin st0 n st → 0 < n → a ≤ st.step) (n : Nat) (st : St) (hv : Visits c g S lin st0 n st) (hin : Inside c st.opt) :
    (∀ y z, (∀ j < c.nvars, actT S.A y j + actT S.G z j = 0) → Mem c z → ∑ r ∈ range c.neq, pb c S r * y r + ∑ r ∈ range c.sizecone, ph c S r * z r = -1 →
      st.opt.tau ≤ g.factor a ^ n * (∑ k ∈ range c.sizecone, st0.opt.s k * z k + st0.opt.tau)) ∧
    (∀ x s, (∀ r < c.neq, act S.A x r = 0) → (∀ r < c.sizecone, act S.G x r + s r = 0) → Mem c s → ∑ j ∈ range c.nvars, pc c S j * x j = -1 →
      st.opt.tau ≤ g.factor a ^ n * (∑ k ∈ range c.sizecone, s k * st0.opt.z k + st0.opt.tau)) := by
  obtain ⟨q, q0, q1, q2, _⟩ := C248_rate hne hg hS hE h0 a ha hstep n st hv
  have z1 : ∀ M : Sp, ∀ k, actT M (fun _ => 0) k = 0 := fun M k => by simp [actT]
  have z2 : ∀ M : Sp, ∀ k, act M (fun _ => 0) k = 0 := fun M k => by simp [act]
  constructor
  · intro y z b1 b2 b3
    set r : Pt := ⟨fun _ => 0, y, z, fun _ => 0, 0, 1⟩ with hr
    have hz : Scaled c S 0 st0.opt r := by
      refine ⟨fun j hj => ?_, fun j hj => ?_, fun j hj => ?_, ?_⟩
      · rw [zero_mul]; unfold rX; simp only [hr]; rw [zero_mul, add_zero]; exact b1 j hj
      · rw [zero_mul]; unfold rY; simp only [hr]; rw [z2]; ring
      · rw [zero_mul]; unfold rZ; simp only [hr]; rw [z2]; ring
      · rw [zero_mul]; unfold rT; simp only [hr, mul_zero, sum_const_zero]; linarith
    have key := compl_rate hS q2 hz
    have e : ∀ p : Pt, compl c p r = ∑ k ∈ range c.sizecone, p.s k * z k + p.tau := fun p => by unfold compl; simp only [hr, zero_mul, sum_const_zero]; ring
    rw [e, e] at key
    have h1 := inner_nonneg c hne st.opt.s z (Interior.mem hin.1) b2
    have h2 := inner_nonneg c hne st0.opt.s z (Interior.mem h0.1) b2
    have h3 := mul_le_mul_of_nonneg_right q1 (add_nonneg h2 h0.2.2.1.le)
    linarith
  · intro x s b1 b2 b3 b4
    set r : Pt := ⟨x, fun _ => 0, fun _ => 0, s, 0, 1⟩ with hr
    have hz : Scaled c S 0 st0.opt r := by
      refine ⟨fun j hj => ?_, fun j hj => ?_, fun j hj => ?_, ?_⟩
      · rw [zero_mul]; unfold rX; simp only [hr]; rw [z1, z1]; ring
      · rw [zero_mul]; unfold rY; simp only [hr]; rw [b1 j hj]; ring
      · rw [zero_mul]; unfold rZ; simp only [hr]; rw [b2 j hj]; ring
      · rw [zero_mul]; unfold rT; simp only [hr, mul_zero, sum_const_zero]; linarith
    have key := compl_rate hS q2 hz
    have e : ∀ p : Pt, compl c p r = ∑ k ∈ range c.sizecone, s k * p.z k + p.tau := fun p => by unfold compl; simp only [hr, mul_zero, sum_const_zero]; ring
    rw [e, e] at key
    have h1 := inner_nonneg c hne s st.opt.z b3 (Interior.mem hin.2.1)
    have h2 := inner_nonneg c hne s st0.opt.z b3 (Interior.mem h0.2.1)
    have h3 := mul_le_mul_of_nonneg_right q1 (add_nonneg h2 h0.2.2.1.le)
    linarith

end

/-! ### example -/

/-- One iteration on `min x` subject to `x ≥ 0`. -/
noncomputable def rtG : Stg := { stG with maxIters := 1 }
/-- Answers zero in the initialisation and exactly afterwards. -/
def rtL : LinOracle := ⟨fun k b => if k < 2 then ⟨fun _ => 0, fun _ => 0, fun _ => 0⟩ else stSol b, fun _ => true⟩

/-- The hypotheses of C248 and C249 are met by this run, which makes a step. -/
example (old : Pt × Info) (rhs2 : Tri) :
    let st0 := start exC exS rtL old rhs2
    exC.NoEmpty ∧ rtG.Steps ∧ rtG.minCentering < 1 ∧ 0 < rtG.stepScaling ∧ 0 < rtG.feastol ∧ 0 < rtG.abstol ∧ Fits exC exS ∧ ExactRun exC rtG exS rtL st0 ∧ Inside exC st0.opt ∧
    (∃ st', body exC rtG exS rtL 0 st0 = .next st') ∧ (∃ t, 0 < t ∧ ∀ n st, Visits exC rtG exS rtL st0 n st → n = 0 → t ≤ st.opt.tau) ∧ 0 < gapOf exC st0.opt := by
  intro st0
  have hne : exC.NoEmpty := fun i hi => absurd hi (Nat.not_lt_zero _)
  have ps : st0.opt.s 0 = 1 := by
    show exC.conicProjection (fun k => -(0 : ℝ)) 0 = 1
    rw [ex_proj _ (by simp)]; norm_num
  have pz : st0.opt.z 0 = 1 := by
    show exC.conicProjection (fun k => (0 : ℝ)) 0 = 1
    rw [ex_proj _ (by simp)]; norm_num
  have px : st0.opt.x 0 = 0 := rfl
  have pt : st0.opt.tau = 1 := rfl
  have pk : st0.opt.kappa = 1 := rfl
  have hdom : exC.ScalingDomain st0.opt.s st0.opt.z := by
    refine ⟨fun i hi => ?_, fun i hi => absurd hi (Nat.not_lt_zero _)⟩
    have : i = 0 := by have : i < 1 := hi; omega
    subst this
    rw [ps, pz]; norm_num
  obtain ⟨W, hu, hW, -⟩ := updateNT_some exC hne st0.opt.s st0.opt.z (fun _ => 0) hdom
  have hlp : W.lp 0 = 1 := by
    rw [(hW 0).1, ps, pz]; simp [safeDiv]; norm_num
  have first : ∀ n st, Visits exC rtG exS rtL st0 n st → n = 0 → st = st0 := by
    intro n st hv hn
    cases hv with
    | start => rfl
    | next _ _ => exact absurd hn (Nat.succ_ne_zero _)
  have only : ∀ n st st', Visits exC rtG exS rtL st0 n st → body exC rtG exS rtL n st = .next st' → st = st0 := by
    intro n st st' hv hb
    rcases Nat.eq_zero_or_pos n with h | h
    · exact first n st hv h
    · exfalso
      cases hv with
      | start => exact absurd h (lt_irrefl 0)
      | @next k s _ hv' hb' =>
        obtain ⟨_, _, _, _, _, _, _, hm, _⟩ := body_next hb
        obtain ⟨_, _, _, _, _, _, _, hm', _⟩ := body_next hb'
        have hk : k = 0 := by
          rcases Nat.eq_zero_or_pos k with h | h
          · exact h
          · exfalso
            have : ∀ m s, Visits exC rtG exS rtL st0 m s → m ≤ 1 := by
              intro m s hv
              induction hv with
              | start => omega
              | @next m s s' hv hb ih =>
                obtain ⟨_, _, _, _, _, _, _, hmm, _⟩ := body_next hb
                have : (m : Int) ≠ 1 := hmm
                omega
            have := this _ _ (Visits.next hv' hb')
            omega
        subst hk
        exact hm rfl
  have hlam : exC.conicNTScaling W st0.opt.z (fun _ => 0) 0 = 1 := by rw [st_nt, hlp, pz, mul_one]
  refine ⟨hne, ⟨⟨by norm_num [rtG, stG], by norm_num [rtG, stG], by norm_num [rtG, stG]⟩, by norm_num [rtG, stG], by norm_num [rtG, stG], by norm_num [rtG, stG], by norm_num [rtG, stG],
    by norm_num [rtG, stG]⟩, by norm_num [rtG, stG], by norm_num [rtG, stG], by norm_num [rtG, stG], by norm_num [rtG, stG], ex_fits, ⟨?_, ?_, ?_⟩, ⟨(C17_projection exC hne _).1,
    (C17_projection exC hne _).1, one_pos, one_pos⟩, ?_, ⟨1, one_pos, fun n st hv hn => by rw [first n st hv hn, pt]⟩, ?_⟩
  · intro n st st' hv hb; rw [only n st st' hv hb]; exact hdom
  · intro n st st' hv hb W' lam' hu'
    rw [only n st st' hv hb, hu] at hu'
    cases hu'
    refine ⟨fun i hi => ?_, fun i hi => absurd hi (Nat.not_lt_zero _)⟩
    have : i = 0 := by have : i < 1 := hi; omega
    subst this
    rw [hlam]; norm_num
  · intro n st st' hv hb W' lam' hu' i hi b
    rw [only n st st' hv hb] at hu' ⊢
    rw [hu] at hu'
    cases hu'
    have : rtL.solve (st0.calls + i) b = stSol b := if_neg (by show ¬ 2 + i < 2; omega)
    rw [this]
    refine ⟨fun j hj => ?_, fun r hr => absurd hr (Nat.not_lt_zero _), fun r hr => ?_⟩
    · have : j = 0 := by have : j < 1 := hj; omega
      subst this
      simp [actT, exS, stSol]
    · have : r = 0 := by have : r < 1 := hr; omega
      subst this
      rw [st_nt, st_nt, hlp]
      simp [act, exS, stSol]
  · have hchk : convergenceCheck rtG true (computeResiduals exC exS st0.opt) (updateStatistics exC rtG exS st0.opt (computeResiduals exC exS st0.opt)) st0.opt = .notConverged := by
      obtain ⟨_, _, s3, _⟩ := computeResiduals_spec exC exS st0.opt
      set r := computeResiduals exC exS st0.opt with hr
      have rz : r.z 0 = 1 := by
        rw [s3 0 (by simp [exC, sizecone])]; unfold rZ act
        simp [exS, ps, px, pt, ph, exC]
      have cx : r.cx = 0 := by
        show dot 1 (sc exC exS) st0.opt.x = 0
        unfold dot; rw [sum_range_one, px, mul_zero]
      have hzby : r.hz + r.by_ = 0 := by
        show dot 1 (sh exC exS) st0.opt.z + dot 0 (sb exC exS) st0.opt.y = 0
        unfold dot sh; rw [sum_range_one]; simp [exS, exC]
      have hdinf : (updateStatistics exC rtG exS st0.opt r).dinf = nanv := by
        show (if r.cx / _ < -rtG.reltol then _ else nanv) = nanv
        rw [if_neg]; rw [cx, zero_div]; norm_num [rtG, stG]
      have hpinf : (updateStatistics exC rtG exS st0.opt r).pinf = nanv := by
        show (if (r.hz + r.by_) / _ < -rtG.reltol then _ else nanv) = nanv
        rw [if_neg]; rw [hzby, zero_div]; norm_num [rtG, stG]
      unfold convergenceCheck
      simp only [if_true]
      rw [if_neg, if_neg, if_neg]
      · rintro (⟨⟨h, -⟩, -⟩ | ⟨h, -⟩)
        · exact h hpinf
        · rw [pt] at h; norm_num [rtG, stG] at h
      · rintro ⟨h, -⟩; exact h hdinf
      · rintro ⟨-, ⟨h, -⟩, -⟩
        have h' : max (norm 0 r.y / max (iniY exC exS + norm 1 st0.opt.x) 1) (norm 1 r.z / max (iniZ exC exS + norm 1 st0.opt.x + norm 1 st0.opt.s) 1) / st0.opt.tau < rtG.feastol := h
        rw [norm_zero, norm_one, norm_one, norm_one, px, ps, rz, pt] at h'
        have : iniZ exC exS = 1 := by
          unfold iniZ; rw [show exC.sizecone = 1 from rfl, norm_one]; unfold sh; simp [exC, exS]
        rw [this] at h'
        norm_num [rtG, stG] at h'
    unfold body
    simp only []
    rw [if_neg (fun h => absurd h.1 (lt_irrefl 0)), hchk]
    simp only []
    rw [if_neg (fun h => absurd h.1 (lt_irrefl 0)), if_neg (by norm_num [rtG])]
    rw [hu]
    exact ⟨_, rfl⟩
  · unfold gapOf
    rw [show exC.sizecone = 1 from rfl, sum_range_one, ps, pz, pt, pk]; norm_num

/-- That problem has a complementary pair of solutions, as `C250_solvable` asks: `x = 0` with multiplier 1. -/
example : Solves exC exS 1 (fun _ => 0) (fun _ => 0) (fun _ => 1) (fun _ => 0) := by
  refine ⟨fun r hr => absurd hr (Nat.not_lt_zero _), fun r hr => ?_, fun j hj => ?_, ⟨fun i hi => le_rfl, fun i hi => absurd hi (Nat.not_lt_zero _)⟩,
    ⟨fun i hi => zero_le_one, fun i hi => absurd hi (Nat.not_lt_zero _)⟩, by simp⟩
  · simp [act, ph, exS, exC]
  · have : j = 0 := by have : j < 1 := hj; omega
    subst this
    simp [actT, pc, exS]

/-- An infeasible problem has a certificate, as `C250_infeasible` asks. -/
example : (∀ j < inC.nvars, actT inS.A (fun _ => 0) j + actT inS.G (fun _ => 1 / 2) j = 0) ∧ Mem inC (fun _ => 1 / 2) ∧
    ∑ r ∈ range inC.neq, pb inC inS r * 0 + ∑ r ∈ range inC.sizecone, ph inC inS r * (1 / 2) = -1 := by
  refine ⟨fun j hj => ?_, ⟨fun i hi => by norm_num, fun i hi => absurd hi (Nat.not_lt_zero _)⟩, ?_⟩
  · have : j = 0 := by have : j < 1 := hj; omega
    subst this
    simp [actT, inS]
  · rw [show inC.neq = 0 from rfl, show inC.sizecone = 2 from rfl, sum_range_zero, sum_range_succ, sum_range_one]
    simp [ph, inS, inC]
    norm_num

end IP
end Verif
