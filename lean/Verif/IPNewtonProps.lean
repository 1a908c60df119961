import Verif.IPStepProps
import Verif.EquilProps

/-! C78, C79: the iterates of the interior-point method stay strictly inside the cones, and every residual shrinks by the
same factor. -/
namespace Verif
namespace IP
open Cone Equil Finset

/-! ### the scaling is linear and maps the interior of the cone onto itself -/

theorem GoodNT.retarget {n : Nat} {s z : Nat → ℝ} {t : NT} (g : GoodNT n s z t) (x : Nat → ℝ) :
    GoodNT n (fun k => if k = 0 then t.etaSq * (2 * t.w 0 * (t.w 0 * x 0 + ∑ k ∈ Ico 1 n, t.w k * x k) - x 0)
      else t.etaSq * (2 * t.w k * (t.w 0 * x 0 + ∑ k ∈ Ico 1 n, t.w k * x k) + x k)) x t :=
  ⟨g.eta_pos, g.eta_sq, g.w0, g.unit, by simp, fun k hk _ => by simp only [show k ≠ 0 by omega, if_false],
    g.u0_pos, g.d1u0, g.u01, g.u1v1, g.v1_pos, g.d1_pos, g.d1_eq⟩

theorem scaleBlk_linear (n : Nat) (t : NT) (hw : 1 ≤ t.w 0) (u v : Nat → ℝ) (b : ℝ) (j : Nat) :
    scaleBlk n t (fun k => u k + b * v k) j = scaleBlk n t u j + b * scaleBlk n t v j := by
  have sd1 : ∀ x, safeDiv x (1 + t.w 0) = x / (1 + t.w 0) := fun x => safeDiv_eq _ _ (by linarith)
  have hs : ∑ k ∈ Ico 1 n, t.w k * (u k + b * v k) = ∑ k ∈ Ico 1 n, t.w k * u k + b * ∑ k ∈ Ico 1 n, t.w k * v k := by
    rw [mul_sum, ← sum_add_distrib]; exact sum_congr rfl fun k _ => by ring
  have h1 : (1 + t.w 0) ≠ 0 := by linarith
  simp only [scaleBlk, sd1, hs]
  split
  · ring
  · field_simp; ring

/-- The facts about stored scalings used below. -/
structure GoodW (c : Cone) (W : Scalings) : Prop where
  lp : ∀ i < c.nineq, 0 < W.lp i
  soc : ∀ i < c.nsoc, ∃ s z, GoodNT (c.sizeSoc i) s z (W.soc i)

theorem nt_linear (c : Cone) (W : Scalings) (hW : GoodW c W) (u v o o1 o2 : Nat → ℝ) (b : ℝ) (k : Nat) (hk : k < c.sizecone) :
    c.conicNTScaling W (fun k => u k + b * v k) o k = c.conicNTScaling W u o1 k + b * c.conicNTScaling W v o2 k := by
  by_cases hl : k < c.nineq
  · simp only [conicNTScaling]
    rw [blockwise_lp _ _ _ _ _ hl, blockwise_lp _ _ _ _ _ hl, blockwise_lp _ _ _ _ _ hl]; ring
  · obtain ⟨i, j, hi, hj, rfl⟩ := c.covered k hk (by omega)
    simp only [conicNTScaling]
    rw [blockwise_soc _ _ _ _ _ _ hi hj, blockwise_soc _ _ _ _ _ _ hi hj, blockwise_soc _ _ _ _ _ _ hi hj]
    obtain ⟨s, z, g⟩ := hW.soc i hi
    exact scaleBlk_linear _ _ g.w0 _ _ _ _

theorem nt_congr (c : Cone) (hne : c.NoEmpty) (W : Scalings) (u v o o' : Nat → ℝ) (h : ∀ k < c.sizecone, u k = v k)
    (k : Nat) (hk : k < c.sizecone) : c.conicNTScaling W u o k = c.conicNTScaling W v o' k := by
  by_cases hl : k < c.nineq
  · simp only [conicNTScaling]
    rw [blockwise_lp _ _ _ _ _ hl, blockwise_lp _ _ _ _ _ hl, h k hk]
  · obtain ⟨i, j, hi, hj, rfl⟩ := c.covered k hk (by omega)
    simp only [conicNTScaling]
    rw [blockwise_soc _ _ _ _ _ _ hi hj, blockwise_soc _ _ _ _ _ _ hi hj]
    refine scaleBlk_congr _ _ _ _ (hne i hi) (fun t ht => ?_) j hj
    have := c.startSoc_lt hi le_rfl
    rw [startSoc_end] at this
    exact h _ (by omega)

/-- `W v` is strictly inside the cone iff `v` is. -/
theorem nt_interior (c : Cone) (hne : c.NoEmpty) (W : Scalings) (hW : GoodW c W) (v o : Nat → ℝ) :
    c.Interior (c.conicNTScaling W v o) ↔ c.Interior v := by
  rw [interior_iff_residual c hne, interior_iff_residual c hne]
  apply and_congr
  · apply forall₂_congr
    intro i hi
    rw [conicNTScaling, blockwise_lp _ _ _ _ _ hi]
    exact mul_pos_iff_of_pos_left (hW.lp i hi)
  · apply forall₂_congr
    intro i hi
    obtain ⟨s, z, g⟩ := hW.soc i hi
    have hsh : ∀ j < c.sizeSoc i, shift (c.conicNTScaling W v o) (c.startSoc i) j =
        scaleBlk (c.sizeSoc i) (W.soc i) (shift v (c.startSoc i)) j := fun j hj => by
      rw [shift, conicNTScaling, blockwise_soc _ _ _ _ _ _ hi hj]
    have hres : Cone.residual (shift (c.conicNTScaling W v o) (c.startSoc i)) (c.sizeSoc i) =
        Cone.residual (scaleBlk (c.sizeSoc i) (W.soc i) (shift v (c.startSoc i))) (c.sizeSoc i) := by
      unfold Cone.residual
      rw [hsh 0 (hne i hi)]
      congr 1
      exact sum_congr rfl fun j hj => by rw [hsh j (mem_Ico.1 hj).2]
    rw [hsh 0 (hne i hi), hres]
    set x := shift v (c.startSoc i) with hx
    set n := c.sizeSoc i with hn
    set t := W.soc i with ht
    have hr := scale_residual n _ x t (GoodNT.retarget g x)
    have hpe : 0 < t.etaSq := by rw [← g.eta_sq]; exact pow_pos g.eta_pos 2
    rw [hr]
    have hpos : ∀ y : Nat → ℝ, 0 < y 0 → 0 < Cone.residual y n → 0 < scaleBlk n t y 0 :=
      fun y h0 h1 => scale_pos n _ y t (GoodNT.retarget g y) h0 h1
    constructor
    · rintro ⟨h0, h1⟩
      have hxr : 0 < Cone.residual x n := (mul_pos_iff_of_pos_left hpe).1 h1
      refine ⟨?_, hxr⟩
      rcases lt_trichotomy (x 0) 0 with hneg | hz | hpos'
      · exfalso
        have hm := hpos (fun k => -x k) (by linarith) (by
          unfold Cone.residual at hxr ⊢
          have : ∑ j ∈ Ico 1 n, (-x j) ^ 2 = ∑ j ∈ Ico 1 n, x j ^ 2 := sum_congr rfl fun j _ => by ring
          rw [this]; nlinarith)
        have hl := scaleBlk_linear n t g.w0 (fun _ => 0) x (-1) 0
        have hz0 : scaleBlk n t (fun _ => 0) 0 = 0 := by simp [scaleBlk]
        have he : (fun k => (0 : ℝ) + -1 * x k) = fun k => -x k := by funext k; ring
        rw [he, hz0] at hl
        rw [hl] at hm; linarith
      · exfalso
        unfold Cone.residual at hxr
        rw [hz] at hxr
        have := Finset.sum_nonneg (s := Ico 1 n) (f := fun j => x j ^ 2) (fun _ _ => sq_nonneg _)
        nlinarith
      · exact hpos'
    · rintro ⟨h0, h1⟩
      exact ⟨hpos x h0 h1, mul_pos hpe h1⟩

theorem interior_congr (c : Cone) (hne : c.NoEmpty) (u v : Nat → ℝ) (h : ∀ k < c.sizecone, u k = v k) :
    c.Interior u → c.Interior v := by
  have hin : ∀ i j, i < c.nsoc → j < c.sizeSoc i → c.startSoc i + j < c.sizecone := by
    intro i j hi hj
    have := c.startSoc_lt hi le_rfl; rw [startSoc_end] at this; omega
  rintro ⟨h1, h2⟩
  refine ⟨fun i hi => by rw [← h i (by unfold sizecone; omega)]; exact h1 i hi, fun i hi => ?_⟩
  have := h2 i hi
  have e : ∑ j ∈ Ico 1 (c.sizeSoc i), c.entry u i j ^ 2 = ∑ j ∈ Ico 1 (c.sizeSoc i), c.entry v i j ^ 2 :=
    sum_congr rfl fun j hj => by unfold entry; rw [h _ (hin i j hi (mem_Ico.1 hj).2)]
  have e0 : c.entry u i 0 = c.entry v i 0 := by unfold entry; rw [h _ (hin i 0 hi (hne i hi))]
  rwa [e, e0] at this

theorem good_of_update (c : Cone) (hne : c.NoEmpty) (s z o : Nat → ℝ) (h : c.ScalingDomain s z) (W : Scalings) (lam : Nat → ℝ)
    (hu : c.updateNTScalings s z o = some (W, lam)) :
    GoodW c W ∧ lam = c.conicNTScaling W z o ∧ (∀ k < c.sizecone, c.conicNTScaling W lam (fun _ => 0) k = s k) ∧
      c.Interior lam := by
  obtain ⟨S, h1, h2, h3⟩ := updateNT_some c hne s z o h
  obtain ⟨S', lam', g1, g2, g3, g4⟩ := C18_scaling c hne s z o h
  rw [hu] at h1 g1
  simp only [Option.some.injEq, Prod.mk.injEq] at h1 g1
  obtain ⟨rfl, e1⟩ := h1
  obtain ⟨rfl, rfl⟩ := g1
  refine ⟨⟨fun i hi => ?_, fun i hi => ⟨_, _, h3 i hi⟩⟩, e1, fun k hk => g3 _ k hk, g4⟩
  rw [(h2 i).1]
  have hz : 0 < z i := lt_of_lt_of_le (by norm_num) (h.1 i hi).2
  rw [safeDiv_eq _ _ (h.1 i hi).2]
  exact Real.sqrt_pos.2 (div_pos (h.1 i hi).1 hz)

/-! ### C78 -/

/-- C78: whatever the linear solver answers, one iteration started strictly inside the cones (within the range of the safe
division) with positive tau and kappa ends strictly inside the cones with positive tau and kappa, unless the step had to be
raised to the minimum step length (in which case the next pass stops the method). -/
theorem C78_iterate_stays_inside (c : Cone) (hne : c.NoEmpty) (g : Stg) (S : Storage) (o : Pt) (r : Res) (merit : ℝ) (W : Scalings)
    (lam : Nat → ℝ) (d2 : Tri) (solve1 solve2 : Tri → Tri)
    (hd : c.ScalingDomain o.s o.z) (hu : c.updateNTScalings o.s o.z (fun _ => 0) = some (W, lam))
    (ht : 0 < o.tau) (hk : 0 < o.kappa) (hf0 : 0 ≤ g.stepScaling) (hf1 : g.stepScaling < 1) (hmin : 0 < g.minStep) :
    let nw := newton c g S o r merit W lam d2 solve1 solve2
    let o' := advance o nw.d nw.step
    nw.step ≠ g.minStep * g.stepScaling →
    c.Interior o'.s ∧ c.Interior o'.z ∧ 0 < o'.tau ∧ 0 < o'.kappa := by
  intro nw o' hstep
  obtain ⟨hW, hlam, hWl, hint⟩ := good_of_update c hne o.s o.z _ hd W lam hu
  have hs : nw.step = lineSearch c g lam nw.dsByW nw.wDz o.tau nw.d.tau o.kappa nw.d.kappa * g.stepScaling := rfl
  have hns : g.minStep < lineSearch c g lam nw.dsByW nw.wDz o.tau nw.d.tau o.kappa nw.d.kappa := by
    refine lt_of_le_of_ne (le_max_right _ _) (fun h => hstep ?_)
    rw [hs]; exact congrArg (· * g.stepScaling) h.symm
  obtain ⟨i1, i2, i3, i4⟩ := C77_step_safe c hne g lam nw.dsByW nw.wDz o.tau nw.d.tau o.kappa nw.d.kappa g.stepScaling
    hint ht hk hf0 hf1 hmin hns
  rw [← hs] at i1 i2 i3 i4
  refine ⟨?_, ?_, i3, i4⟩
  · refine interior_congr c hne _ _ (fun k hk => ?_)
      ((nt_interior c hne W hW (fun k => lam k + nw.step * nw.dsByW k) (fun _ => 0)).2 i1)
    rw [nt_linear c W hW lam nw.dsByW _ (fun _ => 0) (fun _ => 0) nw.step k hk, hWl k hk]
    rfl
  · refine (nt_interior c hne W hW _ (fun _ => 0)).1 (interior_congr c hne _ _ (fun k hk => ?_) i2)
    have e : c.conicNTScaling W o'.z (fun _ => 0) k =
        c.conicNTScaling W o.z (fun _ => 0) k + nw.step * c.conicNTScaling W nw.d.z (fun _ => 0) k :=
      nt_linear c W hW o.z nw.d.z _ _ _ nw.step k hk
    rw [e, ← hlam]
    rfl

/-! ### the residuals -/

theorem foldl_add (l : Col) (x : Nat → ℝ) (a : ℝ) :
    l.foldl (fun a t => a + t.2 * x t.1) a = a + (l.map (fun t => t.2 * x t.1)).sum := by
  induction l generalizing a with
  | nil => simp
  | cons t l ih => simp only [List.foldl_cons, List.map_cons, List.sum_cons]; rw [ih]; ring

theorem foldl_sub (l : Col) (x : Nat → ℝ) (a : ℝ) :
    l.foldl (fun a t => a - t.2 * x t.1) a = a - (l.map (fun t => t.2 * x t.1)).sum := by
  induction l generalizing a with
  | nil => simp
  | cons t l ih => simp only [List.foldl_cons, List.map_cons, List.sum_cons]; rw [ih]; ring

theorem zipIdx_sum (f : Col → Nat → ℝ) : ∀ (M : Sp) (k : Nat),
    ((M.zipIdx k).map (fun cj => f cj.1 cj.2)).sum = ∑ j ∈ range M.length, f (M.getD j []) (k + j)
  | [], k => by simp
  | a :: M, k => by
    rw [List.zipIdx_cons, List.map_cons, List.sum_cons, zipIdx_sum f M (k + 1), List.length_cons, Finset.sum_range_succ']
    simp only [List.getD_cons_succ, List.getD_cons_zero, Nat.add_zero]
    rw [add_comm]
    congr 1
    apply sum_congr rfl
    intro j _
    congr 1; omega

theorem sum_flatMap' {α : Type} (l : List α) (f : α → List ℝ) : (l.flatMap f).sum = (l.map (fun a => (f a).sum)).sum := by
  induction l with
  | nil => simp
  | cons a l ih => simp [List.flatMap_cons, ih]

theorem mtv_transpose (m : Nat) (M : Sp) (x y : Nat → ℝ) (r : Nat) (hr : r < m) :
    mtv (transpose m M) x y true true r = act M x r := by
  have hg : (transpose m M).getD r [] =
      M.zipIdx.flatMap (fun cj => (cj.1.filter (fun t => t.1 = r)).map (fun t => (cj.2, t.2))) := by
    simp [transpose, List.getD_eq_getElem?_getD, List.getElem?_map, List.getElem?_range hr]
  simp only [mtv, if_true]
  rw [foldl_add, hg, zero_add, List.map_flatMap, sum_flatMap']
  rw [zipIdx_sum (fun col j => (((col.filter (fun t => t.1 = r)).map (fun t => (j, t.2))).map (fun t => t.2 * x t.1)).sum)]
  unfold act
  apply sum_congr rfl
  intro j _
  rw [List.map_map, zero_add, ← List.sum_map_mul_right]
  rfl

theorem mtv_neg (M : Sp) (x y : Nat → ℝ) (col : Nat) :
    mtv M x y false true col = -actT M x col ∧ mtv M x y false false col = y col - actT M x col := by
  simp only [mtv, Bool.false_eq_true, if_false, if_true]
  rw [foldl_sub, foldl_sub]
  exact ⟨by rw [zero_sub]; rfl, rfl⟩

/-- The residuals of the homogeneous problem at a point. -/
noncomputable def rX (c : Cone) (S : Storage) (o : Pt) (j : Nat) : ℝ := actT S.A o.y j + actT S.G o.z j + o.tau * pc c S j
/-- Spec: residual of the equalities. -/
noncomputable def rY (c : Cone) (S : Storage) (o : Pt) (r : Nat) : ℝ := act S.A o.x r - o.tau * pb c S r
/-- Spec: residual of the inequalities. -/
noncomputable def rZ (c : Cone) (S : Storage) (o : Pt) (r : Nat) : ℝ := act S.G o.x r + o.s r - o.tau * ph c S r
/-- Spec: residual of the gap equation. -/
noncomputable def rT (c : Cone) (S : Storage) (o : Pt) : ℝ :=
  o.kappa + ∑ j ∈ range c.nvars, pc c S j * o.x j + ∑ r ∈ range c.neq, pb c S r * o.y r + ∑ r ∈ range c.sizecone, ph c S r * o.z r

/-- `computeResiduals` computes these residuals (the dual one with the opposite sign). -/
theorem computeResiduals_spec (c : Cone) (S : Storage) (o : Pt) :
    (∀ j, (computeResiduals c S o).x j = -rX c S o j) ∧
    (∀ r < c.neq, (computeResiduals c S o).y r = rY c S o r) ∧
    (∀ r < c.sizecone, (computeResiduals c S o).z r = rZ c S o r) ∧
    (computeResiduals c S o).t = rT c S o := by
  refine ⟨fun j => ?_, fun r hr => ?_, fun r hr => ?_, rfl⟩
  · show mtv S.G o.z _ false false j - o.tau * sc c S j = _
    rw [(mtv_neg S.G o.z _ j).2, (mtv_neg S.A o.y _ j).1]
    unfold rX; show _ - _ * pc c S j = _; ring
  · show mtv (transpose c.neq S.A) o.x _ true true r - o.tau * sb c S r = _
    rw [mtv_transpose _ _ _ _ _ hr]; rfl
  · show mtv (transpose c.sizecone S.G) o.x _ true true r + o.s r - o.tau * sh c S r = _
    rw [mtv_transpose _ _ _ _ _ hr]; rfl

/-- `d` solves the (unregularised) KKT system with scaling `W` for the right-hand side `b`. -/
def KKT (c : Cone) (S : Storage) (W : Scalings) (b d : Tri) : Prop :=
  (∀ j < c.nvars, actT S.A d.y j + actT S.G d.z j = b.x j) ∧
  (∀ r < c.neq, act S.A d.x r = b.y r) ∧
  (∀ r < c.sizecone, act S.G d.x r - c.conicNTScaling W (c.conicNTScaling W d.z (fun _ => 0)) (fun _ => 0) r = b.z r)

theorem act_lin (M : Sp) (u v : Nat → ℝ) (b : ℝ) (r : Nat) : act M (fun k => u k + b * v k) r = act M u r + b * act M v r := by
  unfold act
  rw [mul_sum, ← sum_add_distrib]; exact sum_congr rfl fun j _ => by ring

theorem actT_lin (M : Sp) (u v : Nat → ℝ) (b : ℝ) (j : Nat) : actT M (fun k => u k + b * v k) j = actT M u j + b * actT M v j := by
  unfold actT
  induction M.getD j [] with
  | nil => simp
  | cons t l ih => simp only [List.map_cons, List.sum_cons]; rw [ih]; ring

theorem sum_lin (n : Nat) (p u v : Nat → ℝ) (b : ℝ) :
    ∑ k ∈ range n, p k * (u k + b * v k) = ∑ k ∈ range n, p k * u k + b * ∑ k ∈ range n, p k * v k := by
  rw [mul_sum, ← sum_add_distrib]; exact sum_congr rfl fun j _ => by ring

/-- C79: if the linear solver solves its three systems exactly, then moving along the search direction by any amount `a`
multiplies every residual (dual, equality, inequality and gap equation) by the same factor `1 - a (1 - sigma)`. -/
theorem C79_residuals_shrink (c : Cone) (hne : c.NoEmpty) (g : Stg) (S : Storage) (o : Pt) (merit : ℝ) (W : Scalings)
    (lam : Nat → ℝ) (d2 : Tri) (solve1 solve2 : Tri → Tri)
    (hd : c.ScalingDomain o.s o.z) (hu : c.updateNTScalings o.s o.z (fun _ => 0) = some (W, lam)) (ht : o.tau ≠ 0)
    (hden : o.kappa / o.tau - dot c.nvars (pc c S) d2.x - dot c.neq (pb c S) d2.y - dot c.sizecone (ph c S) d2.z ≠ 0)
    (h2 : KKT c S W ⟨fun k => -pc c S k, pb c S, ph c S⟩ d2) (hsol : ∀ b, KKT c S W b (solve2 b)) (a : ℝ) :
    let nw := newton c g S o (computeResiduals c S o) merit W lam d2 solve1 solve2
    let o' := advance o nw.d a
    let q := 1 - a * (1 - nw.sigma)
    (∀ j < c.nvars, rX c S o' j = q * rX c S o j) ∧ (∀ r < c.neq, rY c S o' r = q * rY c S o r) ∧
    (∀ r < c.sizecone, rZ c S o' r = q * rZ c S o r) ∧ rT c S o' = q * rT c S o := by
  intro nw o' q
  obtain ⟨hW, hlam, hWl, hint⟩ := good_of_update c hne o.s o.z _ hd W lam hu
  obtain ⟨s1, s2, s3, s4⟩ := computeResiduals_spec c S o
  set r := computeResiduals c S o with hr
  -- the pieces of the step
  obtain ⟨u, dkC, b, e, hbx, hby, hbz, he, hdt, hdx, hdy, hdz, hds, hdk⟩ :
      ∃ (u : Nat → ℝ) (dkC : ℝ) (b e : Tri),
        (∀ k, b.x k = (1 - nw.sigma) * r.x k) ∧ (∀ k, b.y k = (1 - nw.sigma) * -r.y k) ∧
        (∀ k, b.z k = (nw.sigma - 1) * r.z k + c.conicNTScaling W u (fun _ => 0) k) ∧ e = solve2 b ∧
        nw.d.tau = ((1 - nw.sigma) * r.t - dkC / o.tau + dot c.nvars (pc c S) e.x + dot c.neq (pb c S) e.y
          + dot c.sizecone (ph c S) e.z) /
          (o.kappa / o.tau - dot c.nvars (pc c S) d2.x - dot c.neq (pb c S) d2.y - dot c.sizecone (ph c S) d2.z) ∧
        (∀ k, nw.d.x k = e.x k + nw.d.tau * d2.x k) ∧ (∀ k, nw.d.y k = e.y k + nw.d.tau * d2.y k) ∧
        (nw.d.z = fun k => e.z k + nw.d.tau * d2.z k) ∧
        (nw.d.s = c.conicNTScaling W (fun i => -(u i + c.conicNTScaling W nw.d.z (fun _ => 0) i)) (fun _ => 0)) ∧
        nw.d.kappa = -(dkC + o.kappa * nw.d.tau) / o.tau :=
    ⟨_, _, _, _, fun _ => rfl, fun _ => rfl, fun _ => rfl, rfl, rfl, fun _ => rfl, fun _ => rfl, rfl, rfl, rfl⟩
  obtain ⟨k1, k2, k3⟩ := hsol b
  rw [← he] at k1 k2 k3
  obtain ⟨m1, m2, m3⟩ := h2
  set dt := nw.d.tau with hdtdef
  set sg := nw.sigma with hsg
  have hdx' : nw.d.x = fun k => e.x k + dt * d2.x k := funext hdx
  have hdy' : nw.d.y = fun k => e.y k + dt * d2.y k := funext hdy
  refine ⟨fun j hj => ?_, fun i hi => ?_, fun i hi => ?_, ?_⟩
  · unfold rX
    show actT S.A (fun k => o.y k + a * nw.d.y k) j + actT S.G (fun k => o.z k + a * nw.d.z k) j + (o.tau + a * dt) * _ = _
    rw [actT_lin, actT_lin, hdy', hdz, actT_lin, actT_lin]
    have e1 := k1 j hj
    have e2 := m1 j hj
    rw [hbx, s1] at e1
    unfold rX at e1
    show _ = (1 - a * (1 - sg)) * _
    simp only [] at e2
    linear_combination a * e1 + a * dt * e2
  · unfold rY
    show act S.A (fun k => o.x k + a * nw.d.x k) i - (o.tau + a * dt) * _ = (1 - a * (1 - sg)) * _
    rw [act_lin, hdx', act_lin]
    have e1 := k2 i hi
    have e2 := m2 i hi
    rw [hby, s2 i hi] at e1
    unfold rY at e1
    simp only [] at e2
    linear_combination a * e1 + a * dt * e2
  · unfold rZ
    show act S.G (fun k => o.x k + a * nw.d.x k) i + (o.s i + a * nw.d.s i) - (o.tau + a * dt) * _ = (1 - a * (1 - sg)) * _
    rw [act_lin, hdx', act_lin, hds]
    have e1 := k3 i hi
    have e2 := m3 i hi
    rw [hbz, s3 i hi] at e1
    unfold rZ at e1
    simp only [] at e2
    -- W (-(u + W dz)) = -W u - W W e.z - dt W W d2.z
    have w1 : c.conicNTScaling W (fun i => -(u i + c.conicNTScaling W nw.d.z (fun _ => 0) i)) (fun _ => 0) i
        = -(c.conicNTScaling W u (fun _ => 0) i) - c.conicNTScaling W (c.conicNTScaling W nw.d.z (fun _ => 0)) (fun _ => 0) i := by
      have h0 : ∀ k < c.sizecone, c.conicNTScaling W (fun _ => 0) (fun _ => 0) k = 0 := by
        intro k hk
        have := nt_linear c W hW (fun _ => 0) (fun _ => 0) (fun _ => 0) (fun _ => 0) (fun _ => 0) 1 k hk
        simp only [mul_zero, add_zero, one_mul] at this
        linarith
      have a1 := nt_linear c W hW (fun _ => 0) (fun i => u i + 1 * c.conicNTScaling W nw.d.z (fun _ => 0) i) (fun _ => 0)
        (fun _ => 0) (fun _ => 0) (-1) i hi
      have a2 := nt_linear c W hW u (c.conicNTScaling W nw.d.z (fun _ => 0)) (fun _ => 0) (fun _ => 0) (fun _ => 0) 1 i hi
      rw [h0 i hi, a2] at a1
      have e : (fun i => -(u i + c.conicNTScaling W nw.d.z (fun _ => 0) i)) =
          fun k => (0 : ℝ) + -1 * (u k + 1 * c.conicNTScaling W nw.d.z (fun _ => 0) k) := by funext k; ring
      rw [e, a1]; ring
    have w2 : c.conicNTScaling W (c.conicNTScaling W nw.d.z (fun _ => 0)) (fun _ => 0) i
        = c.conicNTScaling W (c.conicNTScaling W e.z (fun _ => 0)) (fun _ => 0) i
          + dt * c.conicNTScaling W (c.conicNTScaling W d2.z (fun _ => 0)) (fun _ => 0) i := by
      rw [← nt_linear c W hW (c.conicNTScaling W e.z (fun _ => 0)) (c.conicNTScaling W d2.z (fun _ => 0)) (fun _ => 0) _ _ dt i hi]
      refine nt_congr c hne W _ _ _ _ (fun k hk => ?_) i hi
      rw [hdz]
      exact nt_linear c W hW e.z d2.z _ _ _ dt k hk
    rw [w1, w2]
    linear_combination a * e1 + a * dt * e2
  · unfold rT
    show (o.kappa + a * nw.d.kappa) + ∑ j ∈ range c.nvars, pc c S j * (o.x j + a * nw.d.x j)
      + ∑ j ∈ range c.neq, pb c S j * (o.y j + a * nw.d.y j) + ∑ j ∈ range c.sizecone, ph c S j * (o.z j + a * nw.d.z j)
      = (1 - a * (1 - sg)) * _
    rw [sum_lin, sum_lin, sum_lin, hdx', hdy', hdz, sum_lin, sum_lin, sum_lin, hdk]
    rw [eq_div_iff hden] at hdt
    rw [s4] at hdt
    unfold rT at hdt
    simp only [dot] at hdt
    field_simp at hdt ⊢
    linear_combination -a * hdt

end IP
end Verif
