import Verif.LinProps
import Verif.LdlProps

/-! C89, C90: the factorised matrix is quasi-definite, the solution is the regularised Newton direction, and the iterative refinement. -/
namespace Verif
namespace Lin
open Function Cone Equil Finset

/-! ### C89 -/

/-- The quadratic form with the signs, in the original order. -/
theorem quad_unperm {c : Cone} {perm ip : Nat → Nat} (hp : IsPerm c.extsizeproblem perm ip) (A : Ldl.Cols) (sg : Nat → ℝ) (hsg : sg = fun i => sign c (perm i))
    (v : Fin c.extsizeproblem → ℝ) : ∃ x px q : Nat → ℝ, (∀ i < c.extsizeproblem, px (ip i) = x i) ∧
      (∀ (i : Nat) (hi : i < c.extsizeproblem), q i = (Ldl.full c.extsizeproblem A).mulVec (fun i : Fin c.extsizeproblem => px i) ⟨ip i, hp.ip_lt i hi⟩) ∧
      ∑ i, v i ^ 2 = ∑ i ∈ range c.extsizeproblem, x i ^ 2 ∧
      ∑ i : Fin c.extsizeproblem, sg i * v i * (Ldl.full c.extsizeproblem A).mulVec v i = ∑ i ∈ range c.extsizeproblem, sign c i * x i * q i := by
  set px : Nat → ℝ := fun i => if hi : i < c.extsizeproblem then v ⟨i, hi⟩ else 0 with hpx
  set x : Nat → ℝ := fun i => px (ip i) with hx
  have hv : (fun i : Fin c.extsizeproblem => px i) = v := by funext i; simp [hpx]
  set q : Nat → ℝ := fun i => if hi : i < c.extsizeproblem then
    (Ldl.full c.extsizeproblem A).mulVec (fun i : Fin c.extsizeproblem => px i) ⟨ip i, hp.ip_lt i hi⟩ else 0 with hqd
  have hsum : ∀ f : Fin c.extsizeproblem → ℝ, ∑ i, f i = ∑ i ∈ range c.extsizeproblem, (if hi : i < c.extsizeproblem then f ⟨ip i, hp.ip_lt i hi⟩ else 0) := by
    intro f
    rw [Finset.sum_range]
    symm
    apply Finset.sum_bij (fun (i : Fin c.extsizeproblem) _ => (⟨ip i, hp.ip_lt i i.2⟩ : Fin c.extsizeproblem))
    · intro i _; exact mem_univ _
    · intro i _ j _ e
      have : ip i = ip j := congrArg Fin.val e
      apply Fin.ext
      rw [← hp.left i i.2, ← hp.left j j.2, this]
    · intro j _
      exact ⟨⟨perm j, hp.perm_lt j j.2⟩, mem_univ _, Fin.ext (hp.right j j.2)⟩
    · intro i _
      simp
  refine ⟨x, px, q, fun i _ => rfl, fun i hi => by simp only [hqd, dif_pos hi], ?_, ?_⟩
  · rw [hsum]
    apply Finset.sum_congr rfl
    intro i hi
    have hi := mem_range.1 hi
    simp only [hx, hpx, dif_pos hi, dif_pos (hp.ip_lt i hi)]
  · rw [hsum]
    apply Finset.sum_congr rfl
    intro i hi
    have hi := mem_range.1 hi
    rw [dif_pos hi]
    simp only [hx, hpx, hqd, dif_pos hi, dif_pos (hp.ip_lt i hi), hsg, hp.left i hi]
    congr 2
    funext j
    simp

/-- The matrix of the initialisation is quasi-definite. -/
theorem holds_quasidefinite_init {c : Cone} {S : Storage} (h : Data c S) {δ₀ mu : ℝ} {perm ip : Nat → Nat} (hp : IsPerm c.extsizeproblem perm ip) {s : St}
    (hs : Holds c δ₀ S perm ip s initVal) (h0 : mu ≤ δ₀) (h1 : mu ≤ 1) :
    Ldl.QuasiDefinite c.extsizeproblem (Ldl.full c.extsizeproblem s.cols) s.permSign mu := by
  intro v
  obtain ⟨x, px, q, hx, hq, e1, e2⟩ := quad_unperm hp s.cols s.permSign hs.sgn v
  have hr := rows_of_holds h hp hs x px hx q hq
  rw [e1, e2, sum_ext c, sum_ext c]
  obtain ⟨g1, g2, g3, g4⟩ := sign_spec c
  have r1 : ∑ i ∈ range c.nvars, sign c i * x i * q i = δ₀ * ∑ i ∈ range c.nvars, x i ^ 2 +
      ∑ i ∈ range c.nvars, actT S.A (fun k => x (c.nvars + k)) i * x i + ∑ i ∈ range c.nvars, actT S.G (zpart c x) i * x i := by
    rw [mul_sum, ← sum_add_distrib, ← sum_add_distrib]
    apply sum_congr rfl
    intro i hi
    rw [g1 i (mem_range.1 hi), hr.rx i (mem_range.1 hi)]; ring
  have r2 : ∑ i ∈ range c.neq, sign c (c.nvars + i) * x (c.nvars + i) * q (c.nvars + i) =
      -∑ i ∈ range c.neq, act S.A x i * x (c.nvars + i) + δ₀ * ∑ i ∈ range c.neq, x (c.nvars + i) ^ 2 := by
    rw [mul_sum, ← sum_neg_distrib, ← sum_add_distrib]
    apply sum_congr rfl
    intro i hi
    rw [g2 i (mem_range.1 hi), hr.ry i (mem_range.1 hi)]; ring
  have r3 : ∑ i ∈ range c.nineq, sign c (c.nvars + c.neq + i) * x (c.nvars + c.neq + i) * q (c.nvars + c.neq + i) =
      -∑ i ∈ range c.nineq, act S.G x i * zpart c x i + ∑ i ∈ range c.nineq, x (c.nvars + c.neq + i) ^ 2 := by
    rw [← sum_neg_distrib, ← sum_add_distrib]
    apply sum_congr rfl
    intro i hi
    rw [g3 i (mem_range.1 hi), hr.rl i (mem_range.1 hi), zpart_lp c x (mem_range.1 hi), initVal]; ring
  have r4 : ∀ l < c.nsoc, ∑ j ∈ range (c.sizeSoc l + 2), sign c (base c l + j) * x (base c l + j) * q (base c l + j) =
      -∑ j ∈ range (c.sizeSoc l), act S.G x (c.startSoc l + j) * zpart c x (c.startSoc l + j) + ∑ j ∈ range (c.sizeSoc l + 2), x (base c l + j) ^ 2 := by
    intro l hl
    have hin : ∑ j ∈ range (c.sizeSoc l), sign c (base c l + j) * x (base c l + j) * q (base c l + j) =
        -∑ j ∈ range (c.sizeSoc l), act S.G x (c.startSoc l + j) * zpart c x (c.startSoc l + j) + ∑ j ∈ range (c.sizeSoc l), x (base c l + j) ^ 2 := by
      rw [← sum_neg_distrib, ← sum_add_distrib]
      apply sum_congr rfl
      intro j hj
      have hj := mem_range.1 hj
      rw [(g4 l hl).1 j (by omega), hr.rs l hl j hj, zpart_soc c x hl hj]
      simp only [initVal]
      split <;> ring
    rw [show c.sizeSoc l + 2 = c.sizeSoc l + 1 + 1 from rfl, Finset.sum_range_succ, Finset.sum_range_succ, Finset.sum_range_succ, Finset.sum_range_succ, hin,
      (g4 l hl).2, (g4 l hl).1 (c.sizeSoc l) (by omega), hr.ra l hl, hr.rb l hl]
    simp only [initVal, zero_mul, sum_const_zero]
    ring
  rw [Finset.sum_congr rfl fun l hl => r4 l (mem_range.1 hl), sum_add_distrib, sum_neg_distrib]
  have adjA := IP.act_adjoint S.A c.neq c.nvars h.fits.1 h.fits.2.2.1 x (fun k => x (c.nvars + k))
  have adjG := IP.act_adjoint S.G c.sizecone c.nvars h.fits.2.1 h.fits.2.2.2 x (zpart c x)
  rw [IP.sum_split c] at adjG
  rw [r1, r2, r3]
  have n1 : mu * ∑ i ∈ range c.nvars, x i ^ 2 ≤ δ₀ * ∑ i ∈ range c.nvars, x i ^ 2 := mul_le_mul_of_nonneg_right h0 (sum_nonneg fun _ _ => sq_nonneg _)
  have n2 : mu * ∑ i ∈ range c.neq, x (c.nvars + i) ^ 2 ≤ δ₀ * ∑ i ∈ range c.neq, x (c.nvars + i) ^ 2 :=
    mul_le_mul_of_nonneg_right h0 (sum_nonneg fun _ _ => sq_nonneg _)
  have n3 : mu * ∑ i ∈ range c.nineq, x (c.nvars + c.neq + i) ^ 2 ≤ 1 * ∑ i ∈ range c.nineq, x (c.nvars + c.neq + i) ^ 2 :=
    mul_le_mul_of_nonneg_right h1 (sum_nonneg fun _ _ => sq_nonneg _)
  have n4 : mu * ∑ l ∈ range c.nsoc, ∑ j ∈ range (c.sizeSoc l + 2), x (base c l + j) ^ 2 ≤
      1 * ∑ l ∈ range c.nsoc, ∑ j ∈ range (c.sizeSoc l + 2), x (base c l + j) ^ 2 :=
    mul_le_mul_of_nonneg_right h1 (sum_nonneg fun _ _ => sum_nonneg fun _ _ => sq_nonneg _)
  linarith

theorem sign_pm (c : Cone) (k : Nat) (hk : k < c.extsizeproblem) : sign c k = 1 ∨ sign c k = -1 := by
  obtain ⟨g1, g2, g3, g4⟩ := sign_spec c
  have key : ∀ m ≤ c.nsoc, k < base c m → sign c k = 1 ∨ sign c k = -1 := by
    intro m
    induction m with
    | zero =>
      intro _ hk
      have hb0 : base c 0 = c.nvars + c.neq + c.nineq := by unfold base; rw [c.startSoc_zero]; omega
      rw [hb0] at hk
      by_cases h1 : k < c.nvars
      · exact Or.inl (g1 k h1)
      · by_cases h2 : k < c.nvars + c.neq
        · have := g2 (k - c.nvars) (by omega)
          rw [show c.nvars + (k - c.nvars) = k by omega] at this; exact Or.inr this
        · have := g3 (k - (c.nvars + c.neq)) (by omega)
          rw [show c.nvars + c.neq + (k - (c.nvars + c.neq)) = k by omega] at this; exact Or.inr this
    | succ m ih =>
      intro hm hk
      by_cases h1 : k < base c m
      · exact ih (by omega) h1
      · rw [base_succ c hm] at hk
        obtain ⟨a, b⟩ := g4 m hm
        by_cases h2 : k - base c m < c.sizeSoc m + 1
        · have := a _ h2
          rw [show base c m + (k - base c m) = k by omega] at this; exact Or.inr this
        · rw [show base c m + (c.sizeSoc m + 1) = k by omega] at b; exact Or.inl b
  exact key c.nsoc le_rfl (by rw [base_end]; exact hk)

/-- The scalings satisfy what the linear solver needs. -/
theorem lpSq_nonneg {c : Cone} (hne : c.NoEmpty) {s z o : Nat → ℝ} (hd : c.ScalingDomain s z) {W : Scalings} {lam : Nat → ℝ}
    (hu : c.updateNTScalings s z o = some (W, lam)) : (∀ i < c.nineq, 0 ≤ W.lpSq i) ∧ ∀ l < c.nsoc, ∃ s₀ z₀, GoodNT (c.sizeSoc l) s₀ z₀ (W.soc l) := by
  obtain ⟨S', h1, h2, h3⟩ := updateNT_some c hne s z o hd
  rw [hu] at h1
  simp only [Option.some.injEq, Prod.mk.injEq] at h1
  obtain ⟨rfl, -⟩ := h1
  refine ⟨fun i hi => ?_, fun l hl => ⟨_, _, h3 l hl⟩⟩
  rw [(h2 i).2, safeDiv]
  have := hd.1 i hi
  have hz : 0 ≤ z i := le_trans (by norm_num) this.2
  split
  · exact div_nonneg this.1.le (by norm_num)
  · exact div_nonneg this.1.le hz

/-- **C89** (factorisation). For scalings obtained from an interior point, whatever the ordering and the history of updates: if the static
regularisation and `η² d₁` of every second-order cone exceed the threshold of the dynamic regularisation, then the pattern analysed by
`initialize` fits, the factorisation of the updated matrix succeeds with pivots of the expected signs, none of them regularised, and the
solution of the Cholesky solver, put back into the original order, satisfies the extended regularised KKT system exactly. -/
theorem C89_factorization (c : Cone) (S : Storage) (h : Data c S) (δ₀ δ : ℝ) (perm ip : Nat → Nat) (hp : IsPerm c.extsizeproblem perm ip)
    (inner0 : Nat → Nat) (value0 : Nat → ℝ) (permK0 : Nat → Nat) (idx0 : Nat → Nat → Nat) (hist : List Call)
    (s z o : Nat → ℝ) (hd : c.ScalingDomain s z) (W : Scalings) (lam : Nat → ℝ) (hu : c.updateNTScalings s z o = some (W, lam))
    (eps delta mu : ℝ) (heps : 0 ≤ eps) (hdelta : 0 < delta) (hmu : eps < mu) (h0 : mu ≤ δ₀) (h1 : mu ≤ δ)
    (h2 : ∀ l < c.nsoc, mu ≤ (W.soc l).etaSq * (W.soc l).d1) (t0 : Ldl.Sym) (f0 : Ldl.Num) :
    ∃ t f, Ldl.analyze c.extsizeproblem (init c δ₀ S perm ip inner0 value0 permK0 idx0).cols t0 = some t ∧
      Ldl.factorize c.extsizeproblem ((run c (init c δ₀ S perm ip inner0 value0 permK0 idx0) hist).updateMatrix c δ W).cols t.parent (Ldl.outer t.lnnz) eps delta
        ((run c (init c δ₀ S perm ip inner0 value0 permK0 idx0) hist).updateMatrix c δ W).permSign f0 = some f ∧
      (∀ i < c.extsizeproblem, mu ≤ sign c (perm i) * f.d i) ∧
      ∀ b x z' : Nat → ℝ, (∀ i < c.extsizeproblem, x i = Ldl.solve c.extsizeproblem (Ldl.outer t.lnnz) f b (ip i)) → DualPart c x z' →
        KktProd c δ₀ δ S W x z' (fun i => b (ip i)) := by
  obtain ⟨hlp, hW⟩ := lpSq_nonneg h.noEmpty hd hu
  have hI := init_holds h δ₀ perm ip inner0 value0 permK0 idx0
  obtain ⟨V, hV⟩ := run_holds h hist hI
  have hU := write_holds h hV (updVal δ W)
  obtain ⟨t, f, e1, e2, -, e4, e5⟩ := Ldl.C23_quasidefinite c.extsizeproblem _ _ (holds_upper h hp hI) (holds_pattern hI hU) eps delta mu _ heps hdelta
    (fun i hi => by rw [hU.sgn]; exact sign_pm c _ (hp.perm_lt i hi)) (holds_quasidefinite h hp hU hlp hW h0 h1 h2) hmu t0 f0
  refine ⟨t, f, e1, e2, fun i hi => by have := e4 i hi; rwa [hU.sgn] at this, fun b x z' hx hz => ?_⟩
  refine kktProd_of_rows h hz (rows_of_holds h hp hU x (fun i => Ldl.solve c.extsizeproblem (Ldl.outer t.lnnz) f b i) (fun i hi => (hx i hi).symm) _ ?_)
  intro i hi
  exact (congrFun (e5 b) ⟨ip i, hp.ip_lt i hi⟩).symm

/-- **C89** (factorisation, initial point). The same for the matrix of the initial point; no condition on scalings. -/
theorem C89_initial (c : Cone) (S : Storage) (h : Data c S) (δ₀ : ℝ) (perm ip : Nat → Nat) (hp : IsPerm c.extsizeproblem perm ip)
    (inner0 : Nat → Nat) (value0 : Nat → ℝ) (permK0 : Nat → Nat) (idx0 : Nat → Nat → Nat) (hist : List Call)
    (eps delta : ℝ) (heps : 0 ≤ eps) (hdelta : 0 < delta) (h0 : eps < δ₀) (h1 : eps < 1) (t0 : Ldl.Sym) (f0 : Ldl.Num) :
    ∃ t f, Ldl.analyze c.extsizeproblem (init c δ₀ S perm ip inner0 value0 permK0 idx0).cols t0 = some t ∧
      Ldl.factorize c.extsizeproblem ((run c (init c δ₀ S perm ip inner0 value0 permK0 idx0) hist).initializeMatrix c).cols t.parent (Ldl.outer t.lnnz) eps delta
        ((run c (init c δ₀ S perm ip inner0 value0 permK0 idx0) hist).initializeMatrix c).permSign f0 = some f ∧
      (∀ i < c.extsizeproblem, 0 < sign c (perm i) * f.d i) ∧
      ∀ b x z : Nat → ℝ, (∀ i < c.extsizeproblem, x i = Ldl.solve c.extsizeproblem (Ldl.outer t.lnnz) f b (ip i)) → DualPart c x z →
        (∀ i < c.nvars, δ₀ * x i + actT S.A (fun k => x (c.nvars + k)) i + actT S.G z i = b (ip i)) ∧
        (∀ i < c.neq, act S.A x i - δ₀ * x (c.nvars + i) = b (ip (c.nvars + i))) ∧
        (∀ i < c.nineq, act S.G x i - z i = b (ip (c.nvars + c.neq + i))) ∧
        (∀ l < c.nsoc, ∀ j < c.sizeSoc l, act S.G x (c.startSoc l + j) - z (c.startSoc l + j) = b (ip (at_ c l j))) := by
  have hI := init_holds h δ₀ perm ip inner0 value0 permK0 idx0
  obtain ⟨V, hV⟩ := run_holds h hist hI
  have hU := write_holds h hV initVal
  have hmu : eps < min δ₀ 1 := lt_min h0 h1
  obtain ⟨t, f, e1, e2, -, e4, e5⟩ := Ldl.C23_quasidefinite c.extsizeproblem _ _ (holds_upper h hp hI) (holds_pattern hI hU) eps delta (min δ₀ 1) _ heps hdelta
    (fun i hi => by rw [hU.sgn]; exact sign_pm c _ (hp.perm_lt i hi)) (holds_quasidefinite_init h hp hU (min_le_left _ _) (min_le_right _ _)) hmu t0 f0
  refine ⟨t, f, e1, e2, fun i hi => by have := e4 i hi; rw [hU.sgn] at this; linarith, fun b x z hx hz => ?_⟩
  have K := C88_initial c S h δ₀ perm ip hp inner0 value0 permK0 idx0 hist x z (fun i => Ldl.solve c.extsizeproblem (Ldl.outer t.lnnz) f b i)
    (fun i => b (ip i)) (fun i hi => (hx i hi).symm) hz (fun i hi => (congrFun (e5 b) ⟨ip i, hp.ip_lt i hi⟩).symm)
  exact ⟨fun i hi => (K.1 i hi).symm, fun i hi => (K.2.1 i hi).symm, fun i hi => (K.2.2.1 i hi).symm, fun l hl j hj => ((K.2.2.2 l hl).1 j hj).symm⟩

/-- `u` of the sparse form of `W²`, entry `j`. -/
noncomputable def uvec (t : NT) (j : Nat) : ℝ := if j = 0 then t.u0 else t.u1 * t.w j

/-- **C89** (direction). A solution of the extended regularised system whose right-hand side is zero in the auxiliary rows is a solution of
`δ dx + A' dy + G' dz = bx`, `A dx - δ dy = by`, `G dx - (W² + δ) dz + (η² δ / (η² + δ)) u (u·dz) = bz`: the auxiliary entries are eliminated, the last term is the
trace of the regularisation of the last auxiliary pivot. -/
theorem C89_direction (c : Cone) (S : Storage) (hne : c.NoEmpty) (δ₀ δ : ℝ) (hδ : 0 ≤ δ)
    (s z o : Nat → ℝ) (hd : c.ScalingDomain s z) (W : Scalings) (lam : Nat → ℝ) (hu : c.updateNTScalings s z o = some (W, lam))
    (x dz b : Nat → ℝ) (hz : DualPart c x dz) (K : KktProd c δ₀ δ S W x dz b)
    (haux : ∀ l < c.nsoc, b (at_ c l (c.sizeSoc l)) = 0 ∧ b (at_ c l (c.sizeSoc l + 1)) = 0) :
    (∀ i < c.nvars, δ₀ * x i + actT S.A (fun k => x (c.nvars + k)) i + actT S.G dz i = b i) ∧
    (∀ i < c.neq, act S.A x i - δ₀ * x (c.nvars + i) = b (c.nvars + i)) ∧
    (∀ i < c.nineq, act S.G x i - (c.conicNTScaling W (c.conicNTScaling W dz o) o i + δ * dz i) = b (c.nvars + c.neq + i)) ∧
    ∀ l < c.nsoc, ∀ j < c.sizeSoc l, act S.G x (c.startSoc l + j) -
      (c.conicNTScaling W (c.conicNTScaling W dz o) o (c.startSoc l + j) + δ * dz (c.startSoc l + j)) +
      (W.soc l).etaSq * δ / ((W.soc l).etaSq + δ) * (uvec (W.soc l) j * ∑ k ∈ range (c.sizeSoc l), uvec (W.soc l) k * dz (c.startSoc l + k)) =
      b (at_ c l j) := by
  obtain ⟨S', h1, h2, h3⟩ := updateNT_some c hne s z o hd
  rw [hu] at h1
  simp only [Option.some.injEq, Prod.mk.injEq] at h1
  obtain ⟨rfl, -⟩ := h1
  refine ⟨fun i hi => (K.primal i hi).symm, fun i hi => (K.eqs i hi).symm, fun i hi => ?_, fun l hl j hj => ?_⟩
  · rw [K.lin i hi]
    simp only [conicNTScaling]
    rw [blockwise_lp _ _ _ _ _ hi, blockwise_lp _ _ _ _ _ hi, (h2 i).1, (h2 i).2]
    have := hd.1 i hi
    have hz : 0 < z i := lt_of_lt_of_le (by norm_num) this.2
    have hs : 0 ≤ safeDiv (s i) (z i) := by
      rw [safeDiv]; split
      · exact div_nonneg this.1.le (by norm_num)
      · exact div_nonneg this.1.le hz.le
    rw [← mul_assoc, Real.mul_self_sqrt hs]; ring
  · have hn := hne l hl
    have g := h3 l hl
    set t := W.soc l with ht
    have hη : 0 < t.etaSq := by rw [← g.eta_sq]; exact pow_pos g.eta_pos 2
    have hηδ : t.etaSq + δ ≠ 0 := by linarith
    set y : Nat → ℝ := shift dz (c.startSoc l) with hy
    set X := ∑ k ∈ Ico 1 (c.sizeSoc l), t.w k * y k with hX
    have hyk : ∀ k, dz (c.startSoc l + k) = y k := fun k => rfl
    have hy0 : dz (c.startSoc l) = y 0 := rfl
    have qa := K.auxV l hl
    have qb := K.auxU l hl
    rw [(haux l hl).1] at qa
    rw [(haux l hl).2] at qb
    set a := x (at_ c l (c.sizeSoc l)) with ha
    set b' := x (at_ c l (c.sizeSoc l + 1)) with hb
    have qa' : 0 = -t.etaSq * (t.v1 * X + a) := qa
    have qb' : 0 = -t.etaSq * (t.u0 * y 0 + t.u1 * X) + (t.etaSq + δ) * b' := qb
    have ea : a = -t.v1 * X := by
      have := mul_eq_zero.1 qa'.symm
      rcases this with h | h
      · linarith
      · linarith
    have hudot : ∑ k ∈ range (c.sizeSoc l), uvec t k * dz (c.startSoc l + k) = t.u0 * y 0 + t.u1 * X := by
      rw [sum_range_split _ hn, hX, mul_sum]
      congr 1
      apply sum_congr rfl
      intro k hk
      have := (mem_Ico.1 hk).1
      rw [uvec, if_neg (by omega), hyk]; ring
    set U := t.u0 * y 0 + t.u1 * X with hU
    have eb : b' = t.etaSq * U / (t.etaSq + δ) := by field_simp; linarith
    rw [hudot]
    have hWW : c.conicNTScaling W (c.conicNTScaling W dz o) o (c.startSoc l + j) = scaleBlk (c.sizeSoc l) t (scaleBlk (c.sizeSoc l) t y) j := by
      simp only [conicNTScaling]
      rw [blockwise_soc _ _ _ _ _ _ hl hj]
      refine scaleBlk_congr _ _ _ _ hn (fun k hk => ?_) j hj
      show blockwise _ _ _ _ (c.startSoc l + k) = _
      rw [blockwise_soc _ _ _ _ _ _ hl hk]
    rw [hWW]
    have hW : ∀ s' : Nat → ℝ, (t.etaSq * (2 * t.w 0 * (t.w 0 * y 0 + X) - y 0) = s' 0) →
        (∀ j, 0 < j → j < c.sizeSoc l → t.etaSq * (2 * t.w j * (t.w 0 * y 0 + X) + y j) = s' j) →
        scaleBlk (c.sizeSoc l) t (scaleBlk (c.sizeSoc l) t y) j = s' j := fun s' a b =>
      scale_scale (c.sizeSoc l) s' y t ⟨g.eta_pos, g.eta_sq, g.w0, g.unit, a, b, g.u0_pos, g.d1u0, g.u01, g.u1v1, g.v1_pos, g.d1_pos, g.d1_eq⟩ j hj
    rw [hW (fun k => if k = 0 then t.etaSq * (2 * t.w 0 * (t.w 0 * y 0 + X) - y 0)
      else t.etaSq * (2 * t.w k * (t.w 0 * y 0 + X) + y k)) (by simp) (fun k hk _ => by simp only [show k ≠ 0 by omega, if_false])]
    have hd1 := g.d1u0; have hu1 := g.u01; have hv := g.u1v1; have hun := g.unit
    have hd' : t.d1 = 2 * t.w 0 ^ 2 - 1 - t.u0 ^ 2 := by linarith
    have hkey : t.etaSq * b' = t.etaSq * U - t.etaSq * δ / (t.etaSq + δ) * U := by
      rw [eb]; field_simp; ring
    by_cases h0 : j = 0
    · subst h0
      have q0 := K.head l hl
      rw [hy0] at q0
      have q0' : b (at_ c l 0) = act S.G x (c.startSoc l) - (t.etaSq * (t.d1 * y 0 + t.u0 * b') + δ * y 0) := q0
      rw [q0', hyk]
      simp only [if_true, uvec, Nat.add_zero]
      rw [hd']
      linear_combination t.u0 * hkey + t.etaSq * X * hu1 + t.etaSq * t.u0 * hU
    · have qj := K.tail l hl j (by omega) hj
      rw [hyk] at qj
      have qj' : b (at_ c l j) = act S.G x (c.startSoc l + j) - (t.etaSq * (y j + t.v1 * t.w j * a + t.u1 * t.w j * b') + δ * y j) := qj
      rw [qj', hyk]
      simp only [h0, if_false, uvec]
      rw [ea]
      linear_combination (t.u1 * t.w j) * hkey + t.etaSq * t.w j * y 0 * hu1 + t.etaSq * t.w j * X * hv + t.etaSq * t.u1 * t.w j * hU

end Lin
end Verif
