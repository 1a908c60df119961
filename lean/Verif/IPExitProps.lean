import Verif.IPLoopProps
import Mathlib.Algebra.Order.BigOperators.Ring.Finset

/-! C21, C80: what the exit codes mean for the problem that was posed. -/
namespace Verif
namespace IP
open Cone Equil Finset

/-! ### duality -/

theorem sum_split (c : Cone) (f : Nat → ℝ) : ∑ k ∈ range c.sizecone, f k =
    ∑ k ∈ range c.nineq, f k + ∑ i ∈ range c.nsoc, ∑ j ∈ range (c.sizeSoc i), f (c.startSoc i + j) := by
  have key : ∀ m, m ≤ c.nsoc → ∑ k ∈ range (c.startSoc m), f k =
      ∑ k ∈ range c.nineq, f k + ∑ i ∈ range m, ∑ j ∈ range (c.sizeSoc i), f (c.startSoc i + j) := by
    intro m
    induction m with
    | zero => intro _; simp [startSoc]
    | succ m ih =>
      intro hm
      rw [sum_range_succ, ← add_assoc, ← ih (by omega), startSoc_succ c m (by omega), sum_range_add]
  have := key c.nsoc le_rfl
  rwa [startSoc_end] at this

/-- The cone is self-dual: two of its elements have a nonnegative inner product. -/
theorem inner_nonneg (c : Cone) (hne : c.NoEmpty) (s z : Nat → ℝ) (hs : Mem c s) (hz : Mem c z) :
    0 ≤ ∑ k ∈ range c.sizecone, s k * z k := by
  rw [sum_split]
  refine add_nonneg (sum_nonneg fun k hk => mul_nonneg (hs.1 k (mem_range.1 hk)) (hz.1 k (mem_range.1 hk)))
    (sum_nonneg fun i hi => ?_)
  have h1 := hs.2 i (mem_range.1 hi)
  have h2 := hz.2 i (mem_range.1 hi)
  have hn := hne i (mem_range.1 hi)
  rw [range_eq_Ico, sum_eq_sum_Ico_succ_bot hn]
  simp only [Nat.add_zero, Nat.zero_add]
  have a1 : 0 ≤ Real.sqrt (∑ j ∈ Ico 1 (c.sizeSoc i), s (c.startSoc i + j) ^ 2) := Real.sqrt_nonneg _
  have a2 : 0 ≤ Real.sqrt (∑ j ∈ Ico 1 (c.sizeSoc i), z (c.startSoc i + j) ^ 2) := Real.sqrt_nonneg _
  have cs := sum_mul_sq_le_sq_mul_sq (Ico 1 (c.sizeSoc i)) (fun j => s (c.startSoc i + j)) (fun j => z (c.startSoc i + j))
  have b1 : Real.sqrt (∑ j ∈ Ico 1 (c.sizeSoc i), s (c.startSoc i + j) ^ 2) ^ 2 = _ :=
    Real.sq_sqrt (sum_nonneg fun _ _ => sq_nonneg _)
  have b2 : Real.sqrt (∑ j ∈ Ico 1 (c.sizeSoc i), z (c.startSoc i + j) ^ 2) ^ 2 = _ :=
    Real.sq_sqrt (sum_nonneg fun _ _ => sq_nonneg _)
  rw [← b1, ← b2, ← mul_pow] at cs
  have h3 := abs_le_of_sq_le_sq cs (mul_nonneg a1 a2)
  have h4 := mul_le_mul h1 h2 a2 (le_trans a1 h1)
  have := neg_le_of_abs_le h3
  linarith

/-- `(A x)·y = x·(Aᵀ y)`. -/
theorem act_adjoint (M : Sp) (m n : Nat) (hn : M.length = n) (hm : ∀ col ∈ M, ∀ t ∈ col, t.1 < m) (x y : Nat → ℝ) :
    ∑ r ∈ range m, act M x r * y r = ∑ j ∈ range n, actT M y j * x j := by
  unfold act actT
  rw [hn]
  simp_rw [sum_mul]
  rw [sum_comm]
  refine sum_congr rfl fun j hj => ?_
  have hcol : ∀ t ∈ M.getD j [], t.1 < m := by
    intro t ht
    have hj' : j < M.length := by rw [hn]; exact mem_range.1 hj
    rw [List.getD_eq_getElem?_getD, List.getElem?_eq_getElem hj', Option.getD_some] at ht
    exact hm _ (List.getElem_mem hj') t ht
  revert hcol
  generalize M.getD j [] = l
  intro hcol
  induction l with
  | nil => simp
  | cons t l ih =>
    have := ih (fun u hu => hcol u (List.mem_cons_of_mem _ hu))
    rw [List.map_cons, List.sum_cons, add_mul, ← this]
    have ht := hcol t List.mem_cons_self
    have e : ∀ r, ((((t :: l).filter (fun u => u.1 = r)).map (fun u => u.2)).sum * x j) * y r =
        (if r = t.1 then t.2 * y t.1 * x j else 0) + (((l.filter (fun u => u.1 = r)).map (fun u => u.2)).sum * x j) * y r := by
      intro r
      by_cases h : t.1 = r
      · subst h
        simp only [List.filter_cons, decide_true, if_true, List.map_cons, List.sum_cons]; ring
      · rw [List.filter_cons, if_neg (by simpa using h), if_neg (fun h' => h h'.symm)]; ring
    rw [sum_congr rfl (fun r _ => e r), sum_add_distrib, sum_ite_eq' (range m), if_pos (mem_range.2 ht)]

theorem dot_le_norm (n : Nat) (u v : Nat → ℝ) : |∑ k ∈ range n, u k * v k| ≤ norm n u * norm n v := by
  have cs := sum_mul_sq_le_sq_mul_sq (range n) u v
  have b1 : norm n u ^ 2 = _ := Real.sq_sqrt (sum_nonneg (s := range n) (f := fun k => u k ^ 2) fun _ _ => sq_nonneg _)
  have b2 : norm n v ^ 2 = _ := Real.sq_sqrt (sum_nonneg (s := range n) (f := fun k => v k ^ 2) fun _ _ => sq_nonneg _)
  rw [← b1, ← b2, ← mul_pow] at cs
  exact abs_le_of_sq_le_sq' cs (mul_nonneg (Real.sqrt_nonneg _) (Real.sqrt_nonneg _)) |> abs_le.2

/-- The point `(x, s)` is feasible for the problem `A x = b, G x + s = h, s ∈ K`. -/
def Feasible (c : Cone) (S : Storage) (x s : Nat → ℝ) : Prop :=
  (∀ r < c.neq, act S.A x r = pb c S r) ∧ (∀ r < c.sizecone, act S.G x r + s r = ph c S r) ∧ Mem c s

/-- The point `(y, z)` is feasible for the dual problem `Aᵀ y + Gᵀ z + c = 0, z ∈ K`. -/
def DualFeasible (c : Cone) (S : Storage) (y z : Nat → ℝ) : Prop :=
  (∀ j < c.nvars, actT S.A y j + actT S.G z j + pc c S j = 0) ∧ Mem c z

/-- For every feasible point the objective is at least that of a candidate minus its complementarity product, up to terms
weighted by the residuals of the candidate. -/
theorem suboptimality (c : Cone) (hne : c.NoEmpty) (S : Storage) (hf : Fits c S) (x y z s : Nat → ℝ) (hz : Mem c z)
    (x' s' : Nat → ℝ) (hx' : Feasible c S x' s') :
    ∑ j ∈ range c.nvars, pc c S j * x j ≤ ∑ j ∈ range c.nvars, pc c S j * x' j + ∑ k ∈ range c.sizecone, s k * z k
      + ∑ j ∈ range c.nvars, (actT S.A y j + actT S.G z j + pc c S j) * (x j - x' j)
      - ∑ r ∈ range c.neq, (act S.A x r - pb c S r) * y r
      - ∑ r ∈ range c.sizecone, (act S.G x r + s r - ph c S r) * z r := by
  obtain ⟨f1, f2, f3, f4⟩ := hf
  obtain ⟨p1, p2, p3⟩ := hx'
  have h0 := inner_nonneg c hne s' z p3 hz
  have e1 : ∑ r ∈ range c.neq, (act S.A x r - pb c S r) * y r = ∑ r ∈ range c.neq, act S.A x r * y r - ∑ r ∈ range c.neq, act S.A x' r * y r := by
    rw [← sum_sub_distrib]
    exact sum_congr rfl fun r hr => by rw [p1 r (mem_range.1 hr)]; ring
  have e2 : ∑ r ∈ range c.sizecone, (act S.G x r + s r - ph c S r) * z r =
      ∑ r ∈ range c.sizecone, act S.G x r * z r - ∑ r ∈ range c.sizecone, act S.G x' r * z r
      + ∑ k ∈ range c.sizecone, s k * z k - ∑ k ∈ range c.sizecone, s' k * z k := by
    rw [← sum_sub_distrib, ← sum_add_distrib, ← sum_sub_distrib]
    exact sum_congr rfl fun r hr => by rw [← p2 r (mem_range.1 hr)]; ring
  rw [act_adjoint S.A c.neq c.nvars f1 f3, act_adjoint S.A c.neq c.nvars f1 f3] at e1
  rw [act_adjoint S.G c.sizecone c.nvars f2 f4, act_adjoint S.G c.sizecone c.nvars f2 f4] at e2
  have e3 : ∑ j ∈ range c.nvars, (actT S.A y j + actT S.G z j + pc c S j) * (x j - x' j) =
      (∑ j ∈ range c.nvars, actT S.A y j * x j - ∑ j ∈ range c.nvars, actT S.A y j * x' j)
      + (∑ j ∈ range c.nvars, actT S.G z j * x j - ∑ j ∈ range c.nvars, actT S.G z j * x' j)
      + (∑ j ∈ range c.nvars, pc c S j * x j - ∑ j ∈ range c.nvars, pc c S j * x' j) := by
    rw [← sum_sub_distrib, ← sum_sub_distrib, ← sum_sub_distrib, ← sum_add_distrib, ← sum_add_distrib]
    exact sum_congr rfl fun j _ => by ring
  rw [e1, e2, e3]
  linarith

/-! ### C21: optimal results -/

theorem div_lt_bound {a d t f : ℝ} (hd : 0 < d) (ht : 0 < t) (h : a / d / t < f) : a < f * d * t := by
  rw [div_lt_iff₀ ht, div_lt_iff₀ hd] at h
  linarith

/-- The denominators of the relative residuals: one, or the size of the stored right-hand side, plus the size of the iterate. -/
noncomputable def denY (c : Cone) (S : Storage) (o : Pt) : ℝ := max (max 1 (norm c.neq (sb c S)) + norm c.nvars o.x) 1
/-- See `denY`: inequality rows. -/
noncomputable def denZ (c : Cone) (S : Storage) (o : Pt) : ℝ := max (max 1 (norm c.sizecone (sh c S)) + norm c.nvars o.x + norm c.sizecone o.s) 1
/-- See `denY`: dual rows. -/
noncomputable def denX (c : Cone) (S : Storage) (o : Pt) : ℝ := max (max 1 (norm c.nvars (sc c S)) + norm c.neq o.y + norm c.sizecone o.z) 1

/-- Small reported residuals are small residuals of the equations the solver works on. -/
theorem residual_bounds (c : Cone) (g : Stg) (S : Storage) (o : Pt) (ht : 0 < o.tau) (f : ℝ)
    (hp : (updateStatistics c g S o (computeResiduals c S o)).pres < f)
    (hd : (updateStatistics c g S o (computeResiduals c S o)).dres < f) :
    (∀ r < c.neq, |rY c S o r| < f * denY c S o * o.tau) ∧ (∀ r < c.sizecone, |rZ c S o r| < f * denZ c S o * o.tau) ∧
    (∀ j < c.nvars, |rX c S o j| < f * denX c S o * o.tau) := by
  obtain ⟨s1, s2, s3, _⟩ := computeResiduals_spec c S o
  have hp' : max (norm c.neq (computeResiduals c S o).y / denY c S o) (norm c.sizecone (computeResiduals c S o).z / denZ c S o) / o.tau < f := hp
  rw [div_lt_iff₀ ht, max_lt_iff, ← div_lt_iff₀ ht, ← div_lt_iff₀ ht] at hp'
  have one : ∀ a : ℝ, 0 < max a 1 := fun a => lt_of_lt_of_le one_pos (le_max_right _ _)
  have b1 := div_lt_bound (one _) ht hp'.1
  have b2 := div_lt_bound (one _) ht hp'.2
  have b3 : norm c.nvars (computeResiduals c S o).x < f * denX c S o * o.tau := div_lt_bound (one _) ht hd
  refine ⟨fun r hr => ?_, fun r hr => ?_, fun j hj => ?_⟩
  · rw [← s2 r hr]; exact lt_of_le_of_lt (abs_le_norm _ _ _ hr) b1
  · rw [← s3 r hr]; exact lt_of_le_of_lt (abs_le_norm _ _ _ hr) b2
  · have : |rX c S o j| = |(computeResiduals c S o).x j| := by rw [s1 j, abs_neg]
    rw [this]; exact lt_of_le_of_lt (abs_le_norm _ _ _ hj) b3

theorem act_congr (M : Sp) (n : Nat) (hM : M.length = n) (x x' : Nat → ℝ) (h : ∀ k < n, x k = x' k) (r : Nat) : act M x r = act M x' r := by
  unfold act
  exact sum_congr rfl fun j hj => by rw [h j (by rw [← hM]; exact mem_range.1 hj)]

theorem actT_congr (M : Sp) (m : Nat) (hM : ∀ col ∈ M, ∀ t ∈ col, t.1 < m) (y y' : Nat → ℝ) (h : ∀ k < m, y k = y' k) (j : Nat) :
    actT M y j = actT M y' j := by
  unfold actT
  congr 1
  apply List.map_congr_left
  intro t ht
  have hj : j < M.length := by
    by_contra hj
    rw [List.getD_eq_getElem?_getD, List.getElem?_eq_none (by omega)] at ht
    simp at ht
  rw [List.getD_eq_getElem?_getD, List.getElem?_eq_getElem hj, Option.getD_some] at ht
  rw [h _ (hM _ (List.getElem_mem hj) t ht)]

theorem fits_equil (c : Cone) (iters : Nat) (S : Storage) (hf : Fits c S) : Fits c (setEquilibration c iters S).1 := by
  have h := scaled c S iters
  obtain ⟨f1, f2, f3, f4⟩ := hf
  have hA : (setEquilibration c iters S).1.A = equilibrate c.nvars 0 (setEquilibration c iters S).2 S.A := h.hA
  have hG : (setEquilibration c iters S).1.G = equilibrate c.lpconestart 0 (setEquilibration c iters S).2 S.G := h.hG
  have hmem : ∀ (ro : Nat) (e : Nat → ℝ) (M : Sp) (m : Nat), (∀ col ∈ M, ∀ t ∈ col, t.1 < m) →
      ∀ col ∈ equilibrate ro 0 e M, ∀ t ∈ col, t.1 < m := by
    intro ro e M m hM col hc t ht
    simp only [equilibrate, List.mem_mapIdx] at hc
    obtain ⟨i, hi, rfl⟩ := hc
    obtain ⟨u, hu, rfl⟩ := List.mem_map.1 ht
    exact hM _ (List.getElem_mem hi) u hu
  exact ⟨by rw [hA, equilibrate_length, f1], by rw [hG, equilibrate_length, f2], by rw [hA]; exact hmem _ _ _ _ f3,
    by rw [hG]; exact hmem _ _ _ _ f4⟩

/-- C21: an (inaccurately) optimal exit code is a statement about the problem as it was posed, before equilibration. Let `w`
be the returned vector. Every equation `A x = b`, `G x + s = h` and `Aᵀ y + Gᵀ z + c = 0` holds at `w` up to the tolerance in
force times the denominators used by the solver and the scaling of the row; and the complementarity product of `w` is below
the absolute tolerance over tau², or below the relative tolerance (over tau²) of a negative primal or positive dual cost. -/
theorem C21_optimal (c : Cone) (g : Stg) (hg : g.Sane) (iters : Nat) (S0 : Storage) (hfit : Fits c S0) (lin : LinOracle)
    (old : Pt × Info) (rhs2 : Tri) (o0 : Pt) (i0 : Info) (hm : 1 ≤ g.maxIters) (hnan : g.reltol ≤ nanv ∧ g.reltolInacc ≤ nanv) :
    let S := (setEquilibration c iters S0).1
    let e := (setEquilibration c iters S0).2
    let q := (optimize c g S lin old rhs2 o0 i0).1
    let w := q.reported c e
    let gap := ∑ k ∈ range c.sizecone, os c w k * oz c w k
    let pcost := ∑ j ∈ range c.nvars, pc c S0 j * ox c w j
    let dcost := -(∑ r ∈ range c.sizecone, ph c S0 r * oz c w r + ∑ r ∈ range c.neq, pb c S0 r * oy c w r)
    q.code = .optimal ∨ q.code = .optimalInacc →
    (0 < q.opt.tau ∨ (0 < q.iter ∧ q.step = g.minStep * g.stepScaling)) ∧
    (0 < q.opt.tau →
      (∀ r < c.neq, |act S0.A (ox c w) r - pb c S0 r| < e (c.nvars + r) * (tolF g q.code * denY c S q.opt)) ∧
      (∀ r < c.sizecone, |act S0.G (ox c w) r + os c w r - ph c S0 r| <
        e (c.nvars + c.neq + r) * (tolF g q.code * denZ c S q.opt)) ∧
      (∀ j < c.nvars, |actT S0.A (oy c w) j + actT S0.G (oz c w) j + pc c S0 j| < e j * (tolF g q.code * denX c S q.opt)) ∧
      (gap < tolA g q.code / q.opt.tau ^ 2 ∨ (pcost < 0 ∧ gap < tolR g q.code / q.opt.tau ^ 2 * -pcost) ∨
        (0 < dcost ∧ gap < tolR g q.code / q.opt.tau ^ 2 * dcost))) := by
  intro S e q w gap pcost dcost hcode
  have hmem : q.code ∈ [ExitCode.optimal, .optimalInacc, .dualInf, .dualInfInacc, .primalInf, .primalInfInacc] := by
    rcases hcode with h | h <;> rw [h] <;> simp
  obtain ⟨⟨full, rr, hck⟩, hsc⟩ := exit_check c g S lin old rhs2 o0 i0 hmem
  have hf : lin.fact 0 = true := by
    by_contra hf
    have hq : q = ⟨.indeterminate, o0, false, i0, 0, 0⟩ := by
      show (optimize c g S lin old rhs2 o0 i0).1 = _
      unfold optimize; rw [if_neg hf]
    rw [hq] at hcode; simp at hcode
  obtain ⟨hdesc, htau⟩ := C21_info_describes c g hg S lin old rhs2 o0 i0 hf hm
  refine ⟨htau.imp (fun h => h.1) (fun h => h.2), fun ht => ?_⟩
  have hck' : q.code = convergenceCheck g full rr q.info q.opt := hck
  obtain ⟨c1, _, _⟩ := check_spec g full rr q.info q.opt
  rw [← hck'] at c1
  obtain ⟨k1, k2, k3⟩ := c1 hcode
  have hd' : q.info = updateStatistics c g S q.opt (computeResiduals c S q.opt) := hdesc
  rw [hd'] at k1 k2
  obtain ⟨b1, b2, b3⟩ := residual_bounds c g S q.opt ht _ k1 k2
  obtain ⟨p1, p2, p3, p4, p5⟩ := flat_parts c q.opt
  have hw : w = scaleVariables c e (flat c q.opt) := by
    show (if q.scaled then _ else _) = _
    rw [if_pos hsc]
  have ht' : otau c (flat c q.opt) ≠ 0 := by rw [p5]; exact ht.ne'
  obtain ⟨r0, r1, r2, r3, r4, r5, r6, r7⟩ := C20_residuals c iters S0 hfit (flat c q.opt) ht'
  obtain ⟨g1, g2, g3, g4⟩ := fits_equil c iters S0 hfit
  rw [p5] at r1 r2 r3 r4 r5 r6 r7
  have bnd : ∀ (a b f d : ℝ), 0 < f → a = q.opt.tau / f * b → |a| < tolF g q.code * d * q.opt.tau →
      |b| < f * (tolF g q.code * d) := by
    intro a b f d hf h1 h2
    rw [h1, abs_mul, abs_of_pos (div_pos ht hf), div_mul_eq_mul_div, div_lt_iff₀ hf] at h2
    have : q.opt.tau * |b| < q.opt.tau * (f * (tolF g q.code * d)) := by linarith
    exact lt_of_mul_lt_mul_left this ht.le
  have hsp : c.sizeproblem = c.nvars + (c.neq + c.sizecone) := rfl
  refine ⟨fun r hr => ?_, fun r hr => ?_, fun j hj => ?_, ?_⟩
  · have h1 := r1 r hr
    rw [← hw] at h1
    refine bnd _ _ _ _ (r0 _ (by omega)) h1 ?_
    have := b1 r hr
    unfold rY at this
    rwa [act_congr _ c.nvars g1 (ox c (flat c q.opt)) q.opt.x p1]
  · have h1 := r2 r hr
    rw [← hw] at h1
    refine bnd _ _ _ _ (r0 _ (by omega)) h1 ?_
    have := b2 r hr
    unfold rZ at this
    rwa [act_congr _ c.nvars g2 (ox c (flat c q.opt)) q.opt.x p1, p4 r hr]
  · have h1 := r3 j hj
    rw [← hw] at h1
    refine bnd _ _ _ _ (r0 _ (by omega)) h1 ?_
    have := b3 j hj
    unfold rX at this
    rwa [actT_congr _ c.neq g3 (oy c (flat c q.opt)) q.opt.y p2, actT_congr _ c.sizecone g4 (oz c (flat c q.opt)) q.opt.z p3]
  · have hgap : dot c.sizecone q.opt.s q.opt.z = q.opt.tau ^ 2 * gap := by
      rw [← hw] at r4
      rw [← r4]
      exact sum_congr rfl fun k hk => by rw [p3 k (mem_range.1 hk), p4 k (mem_range.1 hk)]
    have hpc : dot c.nvars (sc c S) q.opt.x / q.opt.tau = pcost := by
      rw [← hw] at r5
      rw [div_eq_iff ht.ne']
      have : dot c.nvars (sc c S) q.opt.x = ∑ j ∈ range c.nvars, pc c S j * ox c (flat c q.opt) j :=
        sum_congr rfl fun k hk => by rw [p1 k (mem_range.1 hk)]; rfl
      rw [this]; rw [mul_comm]; exact r5
    have hdc : -(dot c.sizecone (sh c S) q.opt.z + dot c.neq (sb c S) q.opt.y) / q.opt.tau = dcost := by
      rw [← hw] at r6 r7
      rw [div_eq_iff ht.ne']
      have e1 : dot c.sizecone (sh c S) q.opt.z = ∑ j ∈ range c.sizecone, ph c S j * oz c (flat c q.opt) j :=
        sum_congr rfl fun k hk => by rw [p3 k (mem_range.1 hk)]; rfl
      have e2 : dot c.neq (sb c S) q.opt.y = ∑ j ∈ range c.neq, pb c S j * oy c (flat c q.opt) j :=
        sum_congr rfl fun k hk => by rw [p2 k (mem_range.1 hk)]; rfl
      rw [e1, e2, r6, r7]
      show _ = -(_ + _) * _
      ring
    have ht2 : 0 < q.opt.tau ^ 2 := pow_pos ht 2
    rw [hd'] at k3
    rcases k3 with h | h
    · left
      have h' : dot c.sizecone q.opt.s q.opt.z < tolA g q.code := h
      rw [hgap] at h'
      rw [lt_div_iff₀ ht2]; linarith
    · right
      have h' : (if dot c.nvars (sc c S) q.opt.x / q.opt.tau < 0 then
          dot c.sizecone q.opt.s q.opt.z / (-(dot c.nvars (sc c S) q.opt.x / q.opt.tau))
        else if -(dot c.sizecone (sh c S) q.opt.z + dot c.neq (sb c S) q.opt.y) / q.opt.tau > 0 then
          dot c.sizecone q.opt.s q.opt.z / (-(dot c.sizecone (sh c S) q.opt.z + dot c.neq (sb c S) q.opt.y) / q.opt.tau) else nanv)
          < tolR g q.code := h
      rw [hpc, hdc, hgap] at h'
      split at h'
      · rename_i hneg
        left
        rw [div_lt_iff₀ (by linarith)] at h'
        refine ⟨hneg, ?_⟩
        rw [div_mul_eq_mul_div, lt_div_iff₀ ht2]; linarith
      · split at h'
        · rename_i hpos
          right
          rw [div_lt_iff₀ hpos] at h'
          refine ⟨hpos, ?_⟩
          rw [div_mul_eq_mul_div, lt_div_iff₀ ht2]; linarith
        · exfalso
          have : tolR g q.code ≤ nanv := by unfold tolR; split; exact hnan.1; exact hnan.2
          linarith

theorem Interior.mem {c : Cone} {s : Nat → ℝ} (h : c.Interior s) : Mem c s :=
  ⟨fun i hi => (h.1 i hi).le, fun i hi => (h.2 i hi).le⟩

/-- C21: near optimality of the returned vector `w` in the problem as posed. If the returned iterate is inside the cones (see
`C21_returned_inside`), then slack and dual of `w` are in the cones and no feasible point of the problem has an objective
value below that of `w` by more than the complementarity product of `w` plus tolerance-sized multiples of the distance to that
point and of the multipliers. -/
theorem C21_near_optimal (c : Cone) (hne : c.NoEmpty) (g : Stg) (hg : g.Sane) (iters : Nat) (S0 : Storage) (hfit : Fits c S0)
    (lin : LinOracle) (old : Pt × Info) (rhs2 : Tri) (o0 : Pt) (i0 : Info) (hm : 1 ≤ g.maxIters)
    (hnan : g.reltol ≤ nanv ∧ g.reltolInacc ≤ nanv) :
    let S := (setEquilibration c iters S0).1
    let e := (setEquilibration c iters S0).2
    let q := (optimize c g S lin old rhs2 o0 i0).1
    let w := q.reported c e
    q.code = .optimal ∨ q.code = .optimalInacc → Inside c q.opt →
    Mem c (os c w) ∧ Mem c (oz c w) ∧
    ∀ x' s', Feasible c S0 x' s' →
      ∑ j ∈ range c.nvars, pc c S0 j * ox c w j ≤ ∑ j ∈ range c.nvars, pc c S0 j * x' j
        + ∑ k ∈ range c.sizecone, os c w k * oz c w k
        + tolF g q.code * (denX c S q.opt * ∑ j ∈ range c.nvars, e j * |ox c w j - x' j|
          + denY c S q.opt * ∑ r ∈ range c.neq, e (c.nvars + r) * |oy c w r|
          + denZ c S q.opt * ∑ r ∈ range c.sizecone, e (c.nvars + c.neq + r) * |oz c w r|) := by
  intro S e q w hcode hin
  obtain ⟨_, h2⟩ := C21_optimal c g hg iters S0 hfit lin old rhs2 o0 i0 hm hnan hcode
  obtain ⟨b1, b2, b3, _⟩ := h2 hin.2.2.1
  have hmem : q.code ∈ [ExitCode.optimal, .optimalInacc, .dualInf, .dualInfInacc, .primalInf, .primalInfInacc] := by
    rcases hcode with h | h <;> rw [h] <;> simp
  obtain ⟨_, hsc⟩ := exit_check c g S lin old rhs2 o0 i0 hmem
  obtain ⟨p1, p2, p3, p4, p5⟩ := flat_parts c q.opt
  have hw : w = scaleVariables c e (flat c q.opt) := by
    show (if q.scaled then _ else _) = _
    rw [if_pos hsc]
  obtain ⟨m1, m2⟩ := C20_cones c hne iters S0 (flat c q.opt) (by rw [p5]; exact hin.2.2.1)
  rw [show scaleVariables c (setEquilibration c iters S0).2 (flat c q.opt) = w from hw.symm] at m1 m2
  have hs : Mem c (os c w) := m1.2 (Interior.mem (interior_congr c hne _ _ (fun k hk => (p4 k hk).symm) hin.1))
  have hz : Mem c (oz c w) := m2.2 (Interior.mem (interior_congr c hne _ _ (fun k hk => (p3 k hk).symm) hin.2.1))
  refine ⟨hs, hz, fun x' s' hx' => ?_⟩
  have hsub := suboptimality c hne S0 hfit (ox c w) (oy c w) (oz c w) (os c w) hz x' s' hx'
  have t1 : ∑ j ∈ range c.nvars, (actT S0.A (oy c w) j + actT S0.G (oz c w) j + pc c S0 j) * (ox c w j - x' j) ≤
      tolF g q.code * (denX c S q.opt * ∑ j ∈ range c.nvars, e j * |ox c w j - x' j|) := by
    rw [mul_sum, mul_sum]
    refine sum_le_sum fun j hj => ?_
    have h := mul_le_mul_of_nonneg_right (b3 j (mem_range.1 hj)).le (abs_nonneg (ox c w j - x' j))
    rw [← abs_mul] at h
    have := le_trans (le_abs_self _) h
    calc _ ≤ _ := this
      _ = _ := by ring
  have t2 : -∑ r ∈ range c.neq, (act S0.A (ox c w) r - pb c S0 r) * oy c w r ≤
      tolF g q.code * (denY c S q.opt * ∑ r ∈ range c.neq, e (c.nvars + r) * |oy c w r|) := by
    rw [mul_sum, mul_sum, ← sum_neg_distrib]
    refine sum_le_sum fun j hj => ?_
    have h := mul_le_mul_of_nonneg_right (b1 j (mem_range.1 hj)).le (abs_nonneg (oy c w j))
    rw [← abs_mul] at h
    have := le_trans (neg_le_abs _) h
    calc _ ≤ _ := this
      _ = _ := by ring
  have t3 : -∑ r ∈ range c.sizecone, (act S0.G (ox c w) r + os c w r - ph c S0 r) * oz c w r ≤
      tolF g q.code * (denZ c S q.opt * ∑ r ∈ range c.sizecone, e (c.nvars + c.neq + r) * |oz c w r|) := by
    rw [mul_sum, mul_sum, ← sum_neg_distrib]
    refine sum_le_sum fun j hj => ?_
    have h := mul_le_mul_of_nonneg_right (b2 j (mem_range.1 hj)).le (abs_nonneg (oz c w j))
    rw [← abs_mul] at h
    have := le_trans (neg_le_abs _) h
    calc _ ≤ _ := this
      _ = _ := by ring
  rw [mul_add, mul_add]
  linarith

/-! ### C80: infeasibility certificates -/

/-- C80: a (possibly inaccurate) "primal infeasible" exit code carries a certificate: if the returned iterate is inside the
cones, every feasible point of the equilibrated problem is farther from the origin than the ratio of the relative tolerance
and the feasibility tolerance in force. -/
theorem C80_primal_infeasible (c : Cone) (hne : c.NoEmpty) (g : Stg) (hg : g.Sane) (S : Storage) (hfit : Fits c S)
    (lin : LinOracle) (old : Pt × Info) (rhs2 : Tri) (o0 : Pt) (i0 : Info) (hm : 1 ≤ g.maxIters)
    (hnan : g.feastol ≤ nanv ∧ g.feastolInacc ≤ nanv) :
    let q := (optimize c g S lin old rhs2 o0 i0).1
    q.code = .primalInf ∨ q.code = .primalInfInacc → Inside c q.opt →
    ∀ x s, Feasible c S x s → g.reltol < tolF g q.code * norm c.nvars x := by
  intro q hcode hin x s hx
  have hmem : q.code ∈ [ExitCode.optimal, .optimalInacc, .dualInf, .dualInfInacc, .primalInf, .primalInfInacc] := by
    rcases hcode with h | h <;> rw [h] <;> simp
  obtain ⟨⟨full, rr, hck⟩, hsc⟩ := exit_check c g S lin old rhs2 o0 i0 hmem
  have hf : lin.fact 0 = true := by
    by_contra hf
    have hq : q = ⟨.indeterminate, o0, false, i0, 0, 0⟩ := by
      show (optimize c g S lin old rhs2 o0 i0).1 = _
      unfold optimize; rw [if_neg hf]
    rw [hq] at hcode; simp at hcode
  have hd' : q.info = updateStatistics c g S q.opt (computeResiduals c S q.opt) :=
    (C21_info_describes c g hg S lin old rhs2 o0 i0 hf hm).1
  have hck' : q.code = convergenceCheck g full rr q.info q.opt := hck
  obtain ⟨_, _, c3⟩ := check_spec g full rr q.info q.opt
  rw [← hck'] at c3
  obtain ⟨k1, _⟩ := c3 hcode
  have htol : tolF g q.code ≤ nanv := by unfold tolF; split; exact hnan.1; exact hnan.2
  rw [hd'] at k1
  have k1' : (if (dot c.sizecone (sh c S) q.opt.z + dot c.neq (sb c S) q.opt.y) / max (norm c.neq q.opt.y + norm c.sizecone q.opt.z) 1 < -g.reltol
      then (computeResiduals c S q.opt).nx / max (norm c.neq q.opt.y + norm c.sizecone q.opt.z) 1 else nanv) < tolF g q.code := k1
  set D := max (norm c.neq q.opt.y + norm c.sizecone q.opt.z) 1 with hD
  have hDp : 0 < D := lt_of_lt_of_le one_pos (le_max_right _ _)
  split at k1'
  swap
  · linarith
  rename_i h1
  rw [div_lt_iff₀ hDp] at h1 k1'
  obtain ⟨f1, f2, f3, f4⟩ := hfit
  obtain ⟨x1, x2, x3⟩ := hx
  have hin0 := inner_nonneg c hne s q.opt.z x3 (Interior.mem hin.2.1)
  have e1 : ∑ r ∈ range c.sizecone, ph c S r * q.opt.z r = ∑ r ∈ range c.sizecone, act S.G x r * q.opt.z r
      + ∑ r ∈ range c.sizecone, s r * q.opt.z r := by
    rw [← sum_add_distrib]
    exact sum_congr rfl fun r hr => by rw [← x2 r (mem_range.1 hr)]; ring
  have e2 : ∑ r ∈ range c.neq, pb c S r * q.opt.y r = ∑ r ∈ range c.neq, act S.A x r * q.opt.y r :=
    sum_congr rfl fun r hr => by rw [← x1 r (mem_range.1 hr)]
  rw [act_adjoint S.G c.sizecone c.nvars f2 f4] at e1
  rw [act_adjoint S.A c.neq c.nvars f1 f3] at e2
  have hnx : (computeResiduals c S q.opt).nx = norm c.nvars (fun j => actT S.A q.opt.y j + actT S.G q.opt.z j) := by
    rw [← norm_neg c.nvars (fun j => actT S.A q.opt.y j + actT S.G q.opt.z j)]
    refine norm_congr _ _ _ fun j _ => ?_
    rw [(mtv_neg S.G q.opt.z _ j).2, (mtv_neg S.A q.opt.y _ j).1]; ring
  have hcs := dot_le_norm c.nvars (fun j => actT S.A q.opt.y j + actT S.G q.opt.z j) x
  have h2 := neg_le_of_abs_le hcs
  have e3 : ∑ j ∈ range c.nvars, (actT S.A q.opt.y j + actT S.G q.opt.z j) * x j =
      ∑ j ∈ range c.nvars, actT S.A q.opt.y j * x j + ∑ j ∈ range c.nvars, actT S.G q.opt.z j * x j := by
    rw [← sum_add_distrib]; exact sum_congr rfl fun j _ => by ring
  have h3 : dot c.sizecone (sh c S) q.opt.z + dot c.neq (sb c S) q.opt.y =
      ∑ r ∈ range c.sizecone, ph c S r * q.opt.z r + ∑ r ∈ range c.neq, pb c S r * q.opt.y r := rfl
  rw [h3, e1, e2] at h1
  rw [hnx] at k1'
  have hx0 : 0 ≤ norm c.nvars x := Real.sqrt_nonneg _
  have h4 : g.reltol * D < norm c.nvars (fun j => actT S.A q.opt.y j + actT S.G q.opt.z j) * norm c.nvars x := by
    linarith [e3]
  have h5 := mul_le_mul_of_nonneg_right k1'.le hx0
  have h6 : D * g.reltol < D * (tolF g q.code * norm c.nvars x) := by linarith
  exact lt_of_mul_lt_mul_left h6 hDp.le

/-- C80: likewise for "dual infeasible" (unbounded): every dual feasible point is large. -/
theorem C80_dual_infeasible (c : Cone) (hne : c.NoEmpty) (g : Stg) (hg : g.Sane) (S : Storage) (hfit : Fits c S)
    (lin : LinOracle) (old : Pt × Info) (rhs2 : Tri) (o0 : Pt) (i0 : Info) (hm : 1 ≤ g.maxIters) :
    let q := (optimize c g S lin old rhs2 o0 i0).1
    q.code = .dualInf ∨ q.code = .dualInfInacc → Inside c q.opt →
    ∀ y z, DualFeasible c S y z →
      g.reltol * max (norm c.nvars q.opt.x) 1 < tolF g q.code * (norm c.neq y * max (norm c.nvars q.opt.x) 1 +
        norm c.sizecone z * max (norm c.nvars q.opt.x + norm c.sizecone q.opt.s) 1) := by
  intro q hcode hin y z hyz
  have hmem : q.code ∈ [ExitCode.optimal, .optimalInacc, .dualInf, .dualInfInacc, .primalInf, .primalInfInacc] := by
    rcases hcode with h | h <;> rw [h] <;> simp
  obtain ⟨⟨full, rr, hck⟩, hsc⟩ := exit_check c g S lin old rhs2 o0 i0 hmem
  have hf : lin.fact 0 = true := by
    by_contra hf
    have hq : q = ⟨.indeterminate, o0, false, i0, 0, 0⟩ := by
      show (optimize c g S lin old rhs2 o0 i0).1 = _
      unfold optimize; rw [if_neg hf]
    rw [hq] at hcode; simp at hcode
  have hd' : q.info = updateStatistics c g S q.opt (computeResiduals c S q.opt) :=
    (C21_info_describes c g hg S lin old rhs2 o0 i0 hf hm).1
  have hck' : q.code = convergenceCheck g full rr q.info q.opt := hck
  obtain ⟨_, c2, _⟩ := check_spec g full rr q.info q.opt
  rw [← hck'] at c2
  obtain ⟨k0, k1, _⟩ := c2 hcode
  rw [hd'] at k0 k1
  set D1 := max (norm c.nvars q.opt.x) 1 with hD1
  set D2 := max (norm c.nvars q.opt.x + norm c.sizecone q.opt.s) 1 with hD2
  have hp1 : 0 < D1 := lt_of_lt_of_le one_pos (le_max_right _ _)
  have hp2 : 0 < D2 := lt_of_lt_of_le one_pos (le_max_right _ _)
  have e : (updateStatistics c g S q.opt (computeResiduals c S q.opt)).dinf =
      if dot c.nvars (sc c S) q.opt.x / D1 < -g.reltol
      then max ((computeResiduals c S q.opt).ny / D1) ((computeResiduals c S q.opt).nz / D2) else nanv := rfl
  rw [e] at k0 k1
  split at k1
  swap
  · rename_i h; rw [if_neg h] at k0; exact absurd rfl k0
  rename_i h1
  rw [max_lt_iff, div_lt_iff₀ hp1, div_lt_iff₀ hp2] at k1
  rw [div_lt_iff₀ hp1] at h1
  obtain ⟨f1, f2, f3, f4⟩ := hfit
  obtain ⟨y1, y2⟩ := hyz
  have hin0 := inner_nonneg c hne q.opt.s z (Interior.mem hin.1) y2
  have hny : (computeResiduals c S q.opt).ny = norm c.neq (act S.A q.opt.x) :=
    norm_congr _ _ _ fun r hr => mtv_transpose _ _ _ _ _ hr
  have hnz : (computeResiduals c S q.opt).nz = norm c.sizecone (fun r => act S.G q.opt.x r + q.opt.s r) :=
    norm_congr _ _ _ fun r hr => by rw [mtv_transpose _ _ _ _ _ hr]
  rw [hny, hnz] at k1
  have d1 := neg_le_of_abs_le (dot_le_norm c.neq (act S.A q.opt.x) y)
  have d2 := neg_le_of_abs_le (dot_le_norm c.sizecone (fun r => act S.G q.opt.x r + q.opt.s r) z)
  have a1 := act_adjoint S.A c.neq c.nvars f1 f3 q.opt.x y
  have a2 := act_adjoint S.G c.sizecone c.nvars f2 f4 q.opt.x z
  have e3 : ∑ r ∈ range c.sizecone, (act S.G q.opt.x r + q.opt.s r) * z r =
      ∑ r ∈ range c.sizecone, act S.G q.opt.x r * z r + ∑ r ∈ range c.sizecone, q.opt.s r * z r := by
    rw [← sum_add_distrib]; exact sum_congr rfl fun j _ => by ring
  have e4 : dot c.nvars (sc c S) q.opt.x = -(∑ j ∈ range c.nvars, actT S.A y j * q.opt.x j)
      - ∑ j ∈ range c.nvars, actT S.G z j * q.opt.x j := by
    rw [← sum_neg_distrib, ← sum_sub_distrib]
    refine sum_congr rfl fun j hj => ?_
    have : sc c S j = pc c S j := rfl
    rw [this]
    linear_combination q.opt.x j * y1 j (mem_range.1 hj)
  have u1 := le_of_abs_le (dot_le_norm c.neq (act S.A q.opt.x) y)
  have u2 := le_of_abs_le (dot_le_norm c.sizecone (fun r => act S.G q.opt.x r + q.opt.s r) z)
  have hy0 : 0 ≤ norm c.neq y := Real.sqrt_nonneg _
  have hz0 : 0 ≤ norm c.sizecone z := Real.sqrt_nonneg _
  have m1 := mul_le_mul_of_nonneg_right k1.1.le hy0
  have m2 := mul_le_mul_of_nonneg_right k1.2.le hz0
  rw [e4, ← a1, ← a2] at h1
  rw [e3] at u2
  nlinarith

end IP
end Verif
