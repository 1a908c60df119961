import Verif.IPNewtonProps

/-! C87: how the complementarity gap changes along the search direction. -/
namespace Verif
namespace IP
open Cone Equil Finset

/-! ### sums over the cone -/

theorem sum_cone (c : Cone) (f : Nat → ℝ) : ∑ k ∈ range c.sizecone, f k =
    ∑ k ∈ range c.nineq, f k + ∑ i ∈ range c.nsoc, ∑ j ∈ range (c.sizeSoc i), f (c.startSoc i + j) := by
  have hsplit : ∀ m, m ≤ c.nsoc → ∑ k ∈ range (c.startSoc m), f k =
      ∑ k ∈ range c.nineq, f k + ∑ i ∈ range m, ∑ j ∈ range (c.sizeSoc i), f (c.startSoc i + j) := by
    intro m
    induction m with
    | zero => intro _; simp [startSoc_zero]
    | succ m ih =>
      intro hm
      rw [c.startSoc_succ m hm, Finset.sum_range_add, ih (by omega), Finset.sum_range_succ, add_assoc]
  have := hsplit c.nsoc le_rfl
  rwa [startSoc_end] at this

/-- Inner product with the identity element: linear entries and heads of the second-order cones. -/
noncomputable def trace (c : Cone) (v : Nat → ℝ) : ℝ := ∑ k ∈ range c.nineq, v k + ∑ i ∈ range c.nsoc, v (c.startSoc i)

theorem trace_congr (c : Cone) (hne : c.NoEmpty) (u v : Nat → ℝ) (h : ∀ k < c.sizecone, u k = v k) : trace c u = trace c v := by
  unfold trace
  congr 1
  · exact sum_congr rfl fun k hk => h k (by have := mem_range.1 hk; unfold sizecone; omega)
  · refine sum_congr rfl fun i hi => h _ ?_
    have hi := mem_range.1 hi
    have := c.startSoc_lt hi le_rfl; rw [startSoc_end] at this
    have := hne i hi
    omega

theorem trace_product (c : Cone) (hne : c.NoEmpty) (u v o : Nat → ℝ) :
    trace c (c.conicProduct u v o) = ∑ k ∈ range c.sizecone, u k * v k := by
  rw [sum_cone]
  unfold trace
  congr 1
  · exact sum_congr rfl fun k hk => by rw [conicProduct, blockwise_lp _ _ _ _ _ (mem_range.1 hk)]
  · refine sum_congr rfl fun i hi => ?_
    have hi := mem_range.1 hi
    have e := blockwise_soc c (fun i => u i * v i)
      (fun i => prodBlk (c.sizeSoc i) (shift u (c.startSoc i)) (shift v (c.startSoc i))) o i 0 hi (hne i hi)
    rw [Nat.add_zero] at e
    rw [conicProduct, e]
    simp [prodBlk, shift]

theorem trace_subId (c : Cone) (hne : c.NoEmpty) (v : Nat → ℝ) (a : ℝ) :
    trace c (subId c v a) = trace c v - a * (c.nineq + c.nsoc) := by
  have hf : subId c v a = (List.range c.nsoc).foldl (fun w i => Function.update w (c.startSoc i) (w (c.startSoc i) + -a))
      (wr 0 c.nineq (fun i => v i - a) v) := by
    unfold subId
    simp only [sub_eq_add_neg]
  obtain ⟨h1, h2⟩ := proj_fold c hne (-a) (wr 0 c.nineq (fun i => v i - a) v) c.nsoc le_rfl
  rw [← hf] at h1 h2
  have hl : ∀ k < c.nineq, subId c v a k = v k - a := by
    intro k hk
    rw [h2 k (fun i hi => by have := c.nineq_le_startSoc i; omega), wr_apply, if_pos ⟨by omega, by omega⟩]
    rfl
  have hs : ∀ i < c.nsoc, subId c v a (c.startSoc i) = v (c.startSoc i) - a := by
    intro i hi
    rw [h1 i hi, wr_apply, if_neg (by have := c.nineq_le_startSoc i; omega)]; ring
  unfold trace
  rw [sum_congr rfl (fun k hk => hl k (mem_range.1 hk)), sum_congr rfl (fun i hi => hs i (mem_range.1 hi)),
    sum_sub_distrib, sum_sub_distrib]
  simp only [sum_const, card_range, nsmul_eq_mul]
  ring

/-- The scaling is symmetric. -/
theorem nt_symm (c : Cone) (hne : c.NoEmpty) (W : Scalings) (hW : GoodW c W) (u v o o' : Nat → ℝ) :
    ∑ k ∈ range c.sizecone, c.conicNTScaling W u o k * v k = ∑ k ∈ range c.sizecone, u k * c.conicNTScaling W v o' k := by
  rw [sum_cone, sum_cone]
  congr 1
  · refine sum_congr rfl fun k hk => ?_
    rw [conicNTScaling, blockwise_lp _ _ _ _ _ (mem_range.1 hk), conicNTScaling, blockwise_lp _ _ _ _ _ (mem_range.1 hk)]
    ring
  · refine sum_congr rfl fun i hi => ?_
    have hi := mem_range.1 hi
    obtain ⟨s, z, g⟩ := hW.soc i hi
    set n := c.sizeSoc i with hn
    set t := W.soc i with ht
    set x := shift u (c.startSoc i) with hx
    set y := shift v (c.startSoc i) with hy
    have e1 : ∀ j ∈ range n, c.conicNTScaling W u o (c.startSoc i + j) * v (c.startSoc i + j) = scaleBlk n t x j * y j :=
      fun j hj => by rw [conicNTScaling, blockwise_soc _ _ _ _ _ _ hi (mem_range.1 hj)]; rfl
    have e2 : ∀ j ∈ range n, u (c.startSoc i + j) * c.conicNTScaling W v o' (c.startSoc i + j) = x j * scaleBlk n t y j :=
      fun j hj => by rw [conicNTScaling, blockwise_soc _ _ _ _ _ _ hi (mem_range.1 hj)]; rfl
    rw [sum_congr rfl e1, sum_congr rfl e2, sum_range_split n (hne i hi), sum_range_split n (hne i hi)]
    have sd1 : ∀ x, safeDiv x (1 + t.w 0) = x / (1 + t.w 0) := fun x => safeDiv_eq _ _ (by linarith [g.w0])
    have f1 : ∀ a b : Nat → ℝ, ∑ j ∈ Ico 1 n, scaleBlk n t a j * b j = t.eta * ∑ j ∈ Ico 1 n, a j * b j +
        t.eta * (a 0 + (∑ k ∈ Ico 1 n, t.w k * a k) / (1 + t.w 0)) * ∑ j ∈ Ico 1 n, t.w j * b j := by
      intro a b
      rw [mul_sum, mul_sum, ← sum_add_distrib]
      refine sum_congr rfl fun j hj => ?_
      have : j ≠ 0 := by have := mem_Ico.1 hj; omega
      simp only [scaleBlk, this, if_false, sd1]
      ring
    rw [f1 x y]
    have f2 : ∑ j ∈ Ico 1 n, x j * scaleBlk n t y j = ∑ j ∈ Ico 1 n, scaleBlk n t y j * x j :=
      sum_congr rfl fun j _ => mul_comm _ _
    rw [f2, f1 y x]
    have f3 : ∑ j ∈ Ico 1 n, y j * x j = ∑ j ∈ Ico 1 n, x j * y j := sum_congr rfl fun j _ => mul_comm _ _
    rw [f3]
    simp only [scaleBlk, if_true]
    ring

/-- Transposition of a sparse matrix. -/
theorem act_adj (M : Sp) (m : Nat) (hM : ∀ col ∈ M, ∀ t ∈ col, t.1 < m) (x y : Nat → ℝ) :
    ∑ j ∈ range M.length, x j * actT M y j = ∑ r ∈ range m, y r * act M x r := by
  have h : ∀ (l : Col), (∀ t ∈ l, t.1 < m) → (l.map (fun t => t.2 * y t.1)).sum =
      ∑ r ∈ range m, y r * ((l.filter (fun t => t.1 = r)).map (fun t => t.2)).sum := by
    intro l
    induction l with
    | nil => intro _; simp
    | cons t l ih =>
      intro hl
      rw [List.map_cons, List.sum_cons, ih (fun t' ht' => hl t' (List.mem_cons_of_mem _ ht'))]
      have ht := hl t (List.mem_cons_self ..)
      have : ∀ r ∈ range m, y r * (((t :: l).filter (fun t => t.1 = r)).map (fun t => t.2)).sum =
          (if r = t.1 then y r * t.2 else 0) + y r * ((l.filter (fun t => t.1 = r)).map (fun t => t.2)).sum := by
        intro r _
        rw [List.filter_cons]
        by_cases hr : t.1 = r
        · rw [if_pos (by simpa using hr), if_pos hr.symm, List.map_cons, List.sum_cons]; ring
        · rw [if_neg (by simpa using hr), if_neg (fun h => hr h.symm)]; ring
      rw [sum_congr rfl this, sum_add_distrib, sum_ite_eq' (range m) t.1, if_pos (mem_range.2 ht)]
      ring
  unfold act
  simp only [mul_sum]
  rw [sum_comm]
  refine sum_congr rfl fun j hj => ?_
  have hj := mem_range.1 hj
  unfold actT
  rw [h _ (fun t ht => hM _ (by rw [List.getD_eq_getElem?_getD, List.getElem?_eq_getElem hj, Option.getD_some]; exact List.getElem_mem _) t ht), mul_sum]
  refine sum_congr rfl fun r _ => by ring

/-! ### the homogeneous embedding is skew -/

/-- The complementarity of two points. -/
noncomputable def compl (c : Cone) (p q : Pt) : ℝ :=
  ∑ k ∈ range c.sizecone, p.s k * q.z k + ∑ k ∈ range c.sizecone, q.s k * p.z k + p.tau * q.kappa + q.tau * p.kappa

/-- The residuals of `p` tested with `q`. -/
noncomputable def test (c : Cone) (S : Storage) (p q : Pt) : ℝ :=
  q.tau * rT c S p - ∑ j ∈ range c.nvars, q.x j * rX c S p j + ∑ r ∈ range c.neq, q.y r * rY c S p r +
    ∑ r ∈ range c.sizecone, q.z r * rZ c S p r

theorem skew (c : Cone) (S : Storage) (hS : Fits c S) (p q : Pt) : test c S p q + test c S q p = compl c p q := by
  obtain ⟨l1, l2, m1, m2⟩ := hS
  have a1 := act_adj S.A c.neq m1 q.x p.y
  have a2 := act_adj S.G c.sizecone m2 q.x p.z
  have a3 := act_adj S.A c.neq m1 p.x q.y
  have a4 := act_adj S.G c.sizecone m2 p.x q.z
  rw [l1] at a1 a3
  rw [l2] at a2 a4
  have ex : ∀ a b : Pt, ∑ j ∈ range c.nvars, a.x j * rX c S b j = ∑ j ∈ range c.nvars, a.x j * actT S.A b.y j +
      ∑ j ∈ range c.nvars, a.x j * actT S.G b.z j + b.tau * ∑ j ∈ range c.nvars, pc c S j * a.x j := by
    intro a b
    rw [mul_sum, ← sum_add_distrib, ← sum_add_distrib]
    exact sum_congr rfl fun j _ => by unfold rX; ring
  have ey : ∀ a b : Pt, ∑ j ∈ range c.neq, a.y j * rY c S b j = ∑ j ∈ range c.neq, a.y j * act S.A b.x j
      - b.tau * ∑ j ∈ range c.neq, pb c S j * a.y j := by
    intro a b
    rw [mul_sum, ← sum_sub_distrib]
    exact sum_congr rfl fun j _ => by unfold rY; ring
  have ez : ∀ a b : Pt, ∑ j ∈ range c.sizecone, a.z j * rZ c S b j = ∑ j ∈ range c.sizecone, a.z j * act S.G b.x j
      + ∑ j ∈ range c.sizecone, b.s j * a.z j - b.tau * ∑ j ∈ range c.sizecone, ph c S j * a.z j := by
    intro a b
    rw [mul_sum, ← sum_add_distrib, ← sum_sub_distrib]
    exact sum_congr rfl fun j _ => by unfold rZ; ring
  unfold test compl
  rw [ex, ex, ey, ey, ez, ez]
  unfold rT
  linear_combination -a1 - a2 - a3 - a4

theorem compl_lin (c : Cone) (p q r : Pt) (b : ℝ) : compl c r (advance p q b) = compl c r p + b * compl c r q := by
  unfold compl advance
  simp only []
  rw [sum_lin]
  have : ∑ k ∈ range c.sizecone, (p.s k + b * q.s k) * r.z k =
      ∑ k ∈ range c.sizecone, p.s k * r.z k + b * ∑ k ∈ range c.sizecone, q.s k * r.z k := by
    rw [mul_sum, ← sum_add_distrib]; exact sum_congr rfl fun j _ => by ring
  rw [this]; ring

theorem compl_comm (c : Cone) (p q : Pt) : compl c p q = compl c q p := by unfold compl; ring

/-- The residuals are linear. -/
theorem res_lin (c : Cone) (S : Storage) (o d : Pt) (a : ℝ) :
    (∀ j, rX c S (advance o d a) j = rX c S o j + a * rX c S d j) ∧ (∀ r, rY c S (advance o d a) r = rY c S o r + a * rY c S d r) ∧
    (∀ r, rZ c S (advance o d a) r = rZ c S o r + a * rZ c S d r) ∧ rT c S (advance o d a) = rT c S o + a * rT c S d := by
  refine ⟨fun j => ?_, fun r => ?_, fun r => ?_, ?_⟩
  · unfold rX advance; simp only []; rw [actT_lin, actT_lin]; ring
  · unfold rY advance; simp only []; rw [act_lin]; ring
  · unfold rZ advance; simp only []; rw [act_lin]; ring
  · unfold rT advance; simp only []; rw [sum_lin, sum_lin, sum_lin]; ring

/-- A direction along which all residuals shrink at rate `η` and whose first-order change of the complementarity is `L`. -/
theorem second_order (c : Cone) (S : Storage) (hS : Fits c S) (o d : Pt) (eta : ℝ)
    (hx : ∀ j < c.nvars, rX c S d j = -eta * rX c S o j) (hy : ∀ j < c.neq, rY c S d j = -eta * rY c S o j)
    (hz : ∀ j < c.sizecone, rZ c S d j = -eta * rZ c S o j) (ht : rT c S d = -eta * rT c S o) :
    compl c d d = -2 * eta * (compl c o d + eta * (compl c o o / 2)) := by
  have htest : ∀ q, test c S d q = -eta * test c S o q := by
    intro q
    have e1 : ∑ j ∈ range c.nvars, q.x j * rX c S d j = ∑ j ∈ range c.nvars, q.x j * (-eta * rX c S o j) :=
      sum_congr rfl fun j hj => by rw [hx j (mem_range.1 hj)]
    have e2 : ∑ j ∈ range c.neq, q.y j * rY c S d j = ∑ j ∈ range c.neq, q.y j * (-eta * rY c S o j) :=
      sum_congr rfl fun j hj => by rw [hy j (mem_range.1 hj)]
    have e3 : ∑ j ∈ range c.sizecone, q.z j * rZ c S d j = ∑ j ∈ range c.sizecone, q.z j * (-eta * rZ c S o j) :=
      sum_congr rfl fun j hj => by rw [hz j (mem_range.1 hj)]
    unfold test
    rw [ht, e1, e2, e3]
    have : ∀ (n : Nat) (a b : Nat → ℝ), ∑ j ∈ range n, a j * (-eta * b j) = -eta * ∑ j ∈ range n, a j * b j := by
      intro n a b; rw [mul_sum]; exact sum_congr rfl fun j _ => by ring
    rw [this, this, this]; ring
  have s1 := skew c S hS d d
  have s2 := skew c S hS o d
  have s3 := skew c S hS o o
  rw [htest] at s1 s2
  linear_combination -s1 - 2 * eta * s2 - eta ^ 2 * s3

/-- All residuals shrink at rate `eta` along the direction built from an exact solution `e` of the system with right-hand side
`(-eta r, W u - eta rZ)` and the exact solution `d2` of the constant system (IPSolver.cpp:374-403, both directions). -/
theorem direction (c : Cone) (hne : c.NoEmpty) (S : Storage) (o d : Pt) (W : Scalings) (hW : GoodW c W) (eta dk : ℝ)
    (u : Nat → ℝ) (b e d2 : Tri) (ht : o.tau ≠ 0)
    (hden : o.kappa / o.tau - dot c.nvars (pc c S) d2.x - dot c.neq (pb c S) d2.y - dot c.sizecone (ph c S) d2.z ≠ 0)
    (h2 : KKT c S W ⟨fun k => -pc c S k, pb c S, ph c S⟩ d2) (he : KKT c S W b e)
    (hbx : ∀ j < c.nvars, b.x j = -eta * rX c S o j) (hby : ∀ r < c.neq, b.y r = -eta * rY c S o r)
    (hbz : ∀ r < c.sizecone, b.z r = -eta * rZ c S o r + c.conicNTScaling W u (fun _ => 0) r)
    (hdt : d.tau = (eta * rT c S o - dk / o.tau + dot c.nvars (pc c S) e.x + dot c.neq (pb c S) e.y
          + dot c.sizecone (ph c S) e.z) /
          (o.kappa / o.tau - dot c.nvars (pc c S) d2.x - dot c.neq (pb c S) d2.y - dot c.sizecone (ph c S) d2.z))
    (hdx : d.x = fun k => e.x k + d.tau * d2.x k) (hdy : d.y = fun k => e.y k + d.tau * d2.y k)
    (hdz : d.z = fun k => e.z k + d.tau * d2.z k)
    (hds : ∀ r < c.sizecone, d.s r = c.conicNTScaling W (fun i => -(u i + c.conicNTScaling W d.z (fun _ => 0) i)) (fun _ => 0) r)
    (hdk : d.kappa = -(dk + o.kappa * d.tau) / o.tau) :
    (∀ j < c.nvars, rX c S d j = -eta * rX c S o j) ∧ (∀ r < c.neq, rY c S d r = -eta * rY c S o r) ∧
    (∀ r < c.sizecone, rZ c S d r = -eta * rZ c S o r) ∧ rT c S d = -eta * rT c S o := by
  obtain ⟨k1, k2, k3⟩ := he
  obtain ⟨m1, m2, m3⟩ := h2
  refine ⟨fun j hj => ?_, fun i hi => ?_, fun i hi => ?_, ?_⟩
  · rw [← hbx j hj, ← k1 j hj]
    have e2 := m1 j hj
    simp only [] at e2
    rw [rX, hdy, hdz, actT_lin, actT_lin]
    linear_combination d.tau * e2
  · rw [← hby i hi, ← k2 i hi]
    have e2 := m2 i hi
    simp only [] at e2
    rw [rY, hdx, act_lin]
    linear_combination d.tau * e2
  · have e1 := k3 i hi
    have e2 := m3 i hi
    rw [hbz i hi] at e1
    simp only [] at e2
    have w1 : c.conicNTScaling W (fun i => -(u i + c.conicNTScaling W d.z (fun _ => 0) i)) (fun _ => 0) i
        = -(c.conicNTScaling W u (fun _ => 0) i) - c.conicNTScaling W (c.conicNTScaling W d.z (fun _ => 0)) (fun _ => 0) i := by
      have h0 : ∀ k < c.sizecone, c.conicNTScaling W (fun _ => 0) (fun _ => 0) k = 0 := by
        intro k hk
        have := nt_linear c W hW (fun _ => 0) (fun _ => 0) (fun _ => 0) (fun _ => 0) (fun _ => 0) 1 k hk
        simp only [mul_zero, add_zero, one_mul] at this
        linarith
      have a1 := nt_linear c W hW (fun _ => 0) (fun i => u i + 1 * c.conicNTScaling W d.z (fun _ => 0) i) (fun _ => 0)
        (fun _ => 0) (fun _ => 0) (-1) i hi
      have a2 := nt_linear c W hW u (c.conicNTScaling W d.z (fun _ => 0)) (fun _ => 0) (fun _ => 0) (fun _ => 0) 1 i hi
      rw [h0 i hi, a2] at a1
      have e : (fun i => -(u i + c.conicNTScaling W d.z (fun _ => 0) i)) =
          fun k => (0 : ℝ) + -1 * (u k + 1 * c.conicNTScaling W d.z (fun _ => 0) k) := by funext k; ring
      rw [e, a1]; ring
    have w2 : c.conicNTScaling W (c.conicNTScaling W d.z (fun _ => 0)) (fun _ => 0) i
        = c.conicNTScaling W (c.conicNTScaling W e.z (fun _ => 0)) (fun _ => 0) i
          + d.tau * c.conicNTScaling W (c.conicNTScaling W d2.z (fun _ => 0)) (fun _ => 0) i := by
      rw [← nt_linear c W hW (c.conicNTScaling W e.z (fun _ => 0)) (c.conicNTScaling W d2.z (fun _ => 0)) (fun _ => 0) _ _ d.tau i hi]
      refine nt_congr c hne W _ _ _ _ (fun k hk => ?_) i hi
      rw [hdz]
      exact nt_linear c W hW e.z d2.z _ _ _ d.tau k hk
    rw [rZ, hds i hi, w1, w2, hdx, act_lin]
    linear_combination e1 + d.tau * e2
  · unfold rT
    rw [hdk]
    have hdx' : ∀ (p : Nat → ℝ) (n : Nat), ∑ j ∈ range n, p j * d.x j = ∑ j ∈ range n, p j * e.x j + d.tau * ∑ j ∈ range n, p j * d2.x j := by
      intro p n; rw [← sum_lin]; exact sum_congr rfl fun j _ => by rw [hdx]
    have hdy' : ∀ (p : Nat → ℝ) (n : Nat), ∑ j ∈ range n, p j * d.y j = ∑ j ∈ range n, p j * e.y j + d.tau * ∑ j ∈ range n, p j * d2.y j := by
      intro p n; rw [← sum_lin]; exact sum_congr rfl fun j _ => by rw [hdy]
    have hdz' : ∀ (p : Nat → ℝ) (n : Nat), ∑ j ∈ range n, p j * d.z j = ∑ j ∈ range n, p j * e.z j + d.tau * ∑ j ∈ range n, p j * d2.z j := by
      intro p n; rw [← sum_lin]; exact sum_congr rfl fun j _ => by rw [hdz]
    rw [hdx', hdy', hdz']
    rw [eq_div_iff hden] at hdt
    unfold rT at hdt
    simp only [dot] at hdt
    field_simp at hdt ⊢
    linear_combination -hdt

/-! ### C87 -/

/-- The complementarity gap of a point, `s · z + kappa tau`. -/
noncomputable def gapOf (c : Cone) (p : Pt) : ℝ := ∑ k ∈ range c.sizecone, p.s k * p.z k + p.kappa * p.tau

theorem gap_compl (c : Cone) (p : Pt) : gapOf c p = compl c p p / 2 := by unfold gapOf compl; ring

theorem gap_advance (c : Cone) (o d : Pt) (a : ℝ) :
    gapOf c (advance o d a) = gapOf c o + a * compl c o d + a ^ 2 * (compl c d d / 2) := by
  rw [gap_compl, gap_compl, compl_lin, compl_comm c (advance o d a) o, compl_lin, compl_comm c (advance o d a) d, compl_lin,
    compl_comm c d o]
  ring

/-- First-order change of the complementarity along a direction given by scaled slack and dual directions. -/
theorem first_order (c : Cone) (hne : c.NoEmpty) (W : Scalings) (hW : GoodW c W) (o d : Pt) (lam ds : Nat → ℝ)
    (hlam : lam = c.conicNTScaling W o.z (fun _ => 0)) (hs : ∀ k < c.sizecone, c.conicNTScaling W lam (fun _ => 0) k = o.s k)
    (hds : ∀ k < c.sizecone, d.s k = c.conicNTScaling W ds (fun _ => 0) k) :
    compl c o d = ∑ k ∈ range c.sizecone, lam k * (ds k + c.conicNTScaling W d.z (fun _ => 0) k) + o.tau * d.kappa + d.tau * o.kappa ∧
    ∑ k ∈ range c.sizecone, o.s k * o.z k = ∑ k ∈ range c.sizecone, lam k * lam k ∧
    ∑ k ∈ range c.sizecone, d.s k * d.z k = ∑ k ∈ range c.sizecone, ds k * c.conicNTScaling W d.z (fun _ => 0) k := by
  have e1 : ∑ k ∈ range c.sizecone, o.s k * d.z k = ∑ k ∈ range c.sizecone, lam k * c.conicNTScaling W d.z (fun _ => 0) k := by
    rw [← nt_symm c hne W hW lam d.z (fun _ => 0)]
    exact sum_congr rfl fun k hk => by rw [hs k (mem_range.1 hk)]
  have e2 : ∑ k ∈ range c.sizecone, d.s k * o.z k = ∑ k ∈ range c.sizecone, lam k * ds k := by
    have := nt_symm c hne W hW ds o.z (fun _ => 0) (fun _ => 0)
    rw [← hlam] at this
    rw [sum_congr rfl (fun k hk => by rw [hds k (mem_range.1 hk)]), this]
    exact sum_congr rfl fun k _ => mul_comm _ _
  refine ⟨?_, ?_, ?_⟩
  · unfold compl
    rw [e1, e2]
    simp only [mul_add, sum_add_distrib]
    ring
  · have := nt_symm c hne W hW lam o.z (fun _ => 0) (fun _ => 0)
    rw [← hlam] at this
    rw [← this]
    exact sum_congr rfl fun k hk => by rw [hs k (mem_range.1 hk)]
  · rw [← nt_symm c hne W hW ds d.z (fun _ => 0)]
    exact sum_congr rfl fun k hk => by rw [hds k (mem_range.1 hk)]

/-- C87: if the linear solver solves its three systems exactly, then after moving by any amount `a` along the search direction
the complementarity gap is
`gap + a (sigma mu (D + 1) - gap) - a² (1 - sigma) sigma (mu (D + 1) - gap)`, where `mu` is the merit value of the current iterate
and `D` the number of linear entries plus the number of second-order cones: no second-order error remains, because the
corrector cancels it. -/
theorem C87_gap (c : Cone) (hne : c.NoEmpty) (g : Stg) (S : Storage) (hS : Fits c S) (o : Pt) (merit : ℝ) (W : Scalings)
    (lam : Nat → ℝ) (d2 : Tri) (solve1 solve2 : Tri → Tri)
    (hd : c.ScalingDomain o.s o.z) (hu : c.updateNTScalings o.s o.z (fun _ => 0) = some (W, lam)) (hwl : c.WellInside lam)
    (ht : o.tau ≠ 0)
    (hden : o.kappa / o.tau - dot c.nvars (pc c S) d2.x - dot c.neq (pb c S) d2.y - dot c.sizecone (ph c S) d2.z ≠ 0)
    (h2 : KKT c S W ⟨fun k => -pc c S k, pb c S, ph c S⟩ d2) (hsol1 : ∀ b, KKT c S W b (solve1 b))
    (hsol2 : ∀ b, KKT c S W b (solve2 b)) (a : ℝ) :
    let nw := newton c g S o (computeResiduals c S o) merit W lam d2 solve1 solve2
    gapOf c (advance o nw.d a) = gapOf c o + a * (nw.sigma * merit * (c.nineq + c.nsoc + 1) - gapOf c o)
      - a ^ 2 * (1 - nw.sigma) * nw.sigma * (merit * (c.nineq + c.nsoc + 1) - gapOf c o) := by
  intro nw
  obtain ⟨hW, hlam, hWl, hint⟩ := good_of_update c hne o.s o.z _ hd W lam hu
  obtain ⟨s1, s2, s3, s4⟩ := computeResiduals_spec c S o
  set r := computeResiduals c S o with hr
  -- the pieces of the affine direction
  obtain ⟨dA, dsA, wA, hA1, hA2, hA3, hA4, hA5, hA6, hA7, dsC, u, dkC, hdsC, hu', hdkC, hds, hdk, hdt⟩ :
      ∃ (dA : Pt) (dsA wA : Nat → ℝ),
        (dA.x = fun k => (solve1 (rhsAffine o r)).x k + dA.tau * d2.x k) ∧
        (dA.y = fun k => (solve1 (rhsAffine o r)).y k + dA.tau * d2.y k) ∧
        (dA.z = fun k => (solve1 (rhsAffine o r)).z k + dA.tau * d2.z k) ∧
        dA.tau = (r.t - o.kappa + dot c.nvars (pc c S) (solve1 (rhsAffine o r)).x + dot c.neq (pb c S) (solve1 (rhsAffine o r)).y
          + dot c.sizecone (ph c S) (solve1 (rhsAffine o r)).z) /
          (o.kappa / o.tau - dot c.nvars (pc c S) d2.x - dot c.neq (pb c S) d2.y - dot c.sizecone (ph c S) d2.z) ∧
        dA.kappa = -o.kappa - o.kappa / o.tau * dA.tau ∧
        (wA = c.conicNTScaling W dA.z (fun _ => 0) ∧ dsA = fun i => -wA i - lam i) ∧
        dA.s = c.conicNTScaling W dsA (fun _ => 0) ∧
        ∃ (dsC u : Nat → ℝ) (dkC : ℝ),
          dsC = subId c (fun i => c.conicProduct lam lam (fun _ => 0) i + c.conicProduct dsA wA (fun _ => 0) i) (nw.sigma * merit) ∧
          u = c.conicDivision lam dsC (fun _ => 0) ∧ dkC = o.kappa * o.tau + dA.kappa * dA.tau - nw.sigma * merit ∧
          nw.d.s = c.conicNTScaling W (fun i => -(u i + c.conicNTScaling W nw.d.z (fun _ => 0) i)) (fun _ => 0) ∧
          nw.d.kappa = -(dkC + o.kappa * nw.d.tau) / o.tau ∧
          ∃ b e : Tri, e = solve2 b ∧
            (∀ k, b.x k = (1 - nw.sigma) * r.x k) ∧ (∀ k, b.y k = (1 - nw.sigma) * -r.y k) ∧
            (∀ k, b.z k = (nw.sigma - 1) * r.z k + c.conicNTScaling W u (fun _ => 0) k) ∧
            nw.d.tau = ((1 - nw.sigma) * r.t - dkC / o.tau + dot c.nvars (pc c S) e.x + dot c.neq (pb c S) e.y
              + dot c.sizecone (ph c S) e.z) /
              (o.kappa / o.tau - dot c.nvars (pc c S) d2.x - dot c.neq (pb c S) d2.y - dot c.sizecone (ph c S) d2.z) ∧
            (nw.d.x = fun k => e.x k + nw.d.tau * d2.x k) ∧ (nw.d.y = fun k => e.y k + nw.d.tau * d2.y k) ∧
            (nw.d.z = fun k => e.z k + nw.d.tau * d2.z k) := by
    let d1 := solve1 (rhsAffine o r)
    let dtA : ℝ := (r.t - o.kappa + dot c.nvars (pc c S) d1.x + dot c.neq (pb c S) d1.y + dot c.sizecone (ph c S) d1.z) /
          (o.kappa / o.tau - dot c.nvars (pc c S) d2.x - dot c.neq (pb c S) d2.y - dot c.sizecone (ph c S) d2.z)
    let dzA : Nat → ℝ := fun k => d1.z k + dtA * d2.z k
    let wA : Nat → ℝ := c.conicNTScaling W dzA (fun _ => 0)
    let dsA : Nat → ℝ := fun i => -wA i - lam i
    exact ⟨⟨fun k => d1.x k + dtA * d2.x k, fun k => d1.y k + dtA * d2.y k, dzA, c.conicNTScaling W dsA (fun _ => 0), dtA,
      -o.kappa - o.kappa / o.tau * dtA⟩, dsA, wA, rfl, rfl, rfl, rfl, rfl, ⟨rfl, rfl⟩, rfl, _, _, _, rfl, rfl, rfl, rfl, rfl,
      _, _, rfl, fun _ => rfl, fun _ => rfl, fun _ => rfl, rfl, rfl, rfl, rfl⟩
  obtain ⟨b, e, hbe, hbx, hby, hbz, hdt, hdx, hdy, hdz⟩ := hdt
  obtain ⟨hwA, hdsA⟩ := hA6
  -- the affine direction: residuals and complementarity
  have hdA : ∀ k < c.sizecone, dA.s k = c.conicNTScaling W (fun i => -(lam i + c.conicNTScaling W dA.z (fun _ => 0) i)) (fun _ => 0) k := by
    intro k _
    rw [hA7, hdsA, hwA]
    congr 1
    funext i; ring
  have rA := direction c hne S o dA W hW 1 (o.kappa * o.tau) lam (rhsAffine o r) (solve1 (rhsAffine o r)) d2 ht hden h2 (hsol1 _)
    (fun j hj => by show r.x j = _; rw [s1]; ring)
    (fun j hj => by show -r.y j = _; rw [s2 j hj]; ring)
    (fun j hj => by show o.s j - r.z j = _; rw [s3 j hj, hWl j hj]; ring)
    (by rw [hA4, s4]; congr 1; field_simp) hA1 hA2 hA3 hdA (by rw [hA5]; field_simp; ring)
  have fA := first_order c hne W hW o dA lam dsA hlam hWl (fun k _ => by rw [hA7])
  have hLA : compl c o dA = -gapOf c o := by
    rw [fA.1, hA5, gapOf, fA.2.1, ← hwA]
    have : ∀ k ∈ range c.sizecone, lam k * (dsA k + wA k) = -(lam k * lam k) := fun k _ => by rw [hdsA]; ring
    rw [sum_congr rfl this, sum_neg_distrib]
    field_simp
    ring
  have hQA := second_order c S hS o dA 1 (fun j hj => rA.1 j hj) (fun j hj => rA.2.1 j hj) (fun j hj => rA.2.2.1 j hj) rA.2.2.2
  have hcorr : ∑ k ∈ range c.sizecone, dsA k * wA k + dA.kappa * dA.tau = 0 := by
    have : ∑ k ∈ range c.sizecone, dsA k * wA k + dA.kappa * dA.tau = compl c dA dA / 2 := by
      rw [← gap_compl, gapOf, fA.2.2, ← hwA]
    rw [this, hQA, hLA, gap_compl]; ring
  -- the combined direction
  have rC := direction c hne S o nw.d W hW (1 - nw.sigma) dkC u b e d2 ht hden h2 (hbe ▸ hsol2 b)
    (fun j hj => by rw [hbx, s1]; ring) (fun j hj => by rw [hby, s2 j hj]; ring)
    (fun j hj => by rw [hbz, s3 j hj]; ring) (by rw [hdt, s4]) hdx hdy hdz (fun k _ => by rw [hds]) hdk
  have fC := first_order c hne W hW o nw.d lam _ hlam hWl (fun k _ => by rw [hds])
  have htr : ∑ k ∈ range c.sizecone, lam k * u k = ∑ k ∈ range c.sizecone, lam k * lam k + ∑ k ∈ range c.sizecone, dsA k * wA k
      - nw.sigma * merit * (c.nineq + c.nsoc) := by
    rw [← trace_product c hne lam u (fun _ => 0)]
    have h1 : trace c (c.conicProduct lam u (fun _ => 0)) = trace c dsC :=
      trace_congr c hne _ _ fun k hk => by rw [hu']; exact (C16_product_division c hne lam dsC _ _ hwl k hk).2
    rw [h1, hdsC, trace_subId c hne, ← trace_product c hne lam lam (fun _ => 0), ← trace_product c hne dsA wA (fun _ => 0)]
    congr 1
    unfold trace
    rw [sum_add_distrib, sum_add_distrib]; ring
  have hLC : compl c o nw.d = nw.sigma * merit * (c.nineq + c.nsoc + 1) - gapOf c o := by
    rw [fC.1, hdk]
    have : ∀ k ∈ range c.sizecone, lam k * (-(u k + c.conicNTScaling W nw.d.z (fun _ => 0) k) + c.conicNTScaling W nw.d.z (fun _ => 0) k)
        = -(lam k * u k) := fun k _ => by ring
    rw [sum_congr rfl this, sum_neg_distrib, htr, gapOf, fC.2.1, hdkC]
    field_simp
    linear_combination -hcorr
  have hQC := second_order c S hS o nw.d (1 - nw.sigma) rC.1 rC.2.1 rC.2.2.1 rC.2.2.2
  rw [gap_advance, hQC, hLC, gap_compl]
  ring

theorem soc_le_ssoc (c : Cone) (hne : c.NoEmpty) : c.nsoc ≤ c.ssoc := by
  have h : ∀ m, m ≤ c.nsoc → c.nineq + m ≤ c.startSoc m := by
    intro m
    induction m with
    | zero => intro _; simp [startSoc_zero]
    | succ m ih =>
      intro hm
      rw [c.startSoc_succ m hm]
      have := ih (by omega)
      have := hne m hm
      omega
  have := h c.nsoc le_rfl
  rw [startSoc_end] at this
  unfold sizecone at this
  omega

/-- C87: the complementarity gap shrinks at least as fast as the residuals of C79. With the merit value the program computes, a
step of length `a` between 0 and 1 leaves at most the fraction `1 - a (1 - sigma)` of the gap, and exactly that fraction when
there are no second-order cones. -/
theorem C87_gap_rate (c : Cone) (hne : c.NoEmpty) (g : Stg) (S : Storage) (hS : Fits c S) (o : Pt) (W : Scalings)
    (lam : Nat → ℝ) (d2 : Tri) (solve1 solve2 : Tri → Tri)
    (hd : c.ScalingDomain o.s o.z) (hu : c.updateNTScalings o.s o.z (fun _ => 0) = some (W, lam)) (hwl : c.WellInside lam)
    (ht : 0 < o.tau) (hk : 0 ≤ o.kappa) (hc0 : 0 ≤ g.minCentering) (hc1 : g.minCentering ≤ 1) (hc2 : g.maxCentering ≤ 1)
    (hden : o.kappa / o.tau - dot c.nvars (pc c S) d2.x - dot c.neq (pb c S) d2.y - dot c.sizecone (ph c S) d2.z ≠ 0)
    (h2 : KKT c S W ⟨fun k => -pc c S k, pb c S, ph c S⟩ d2) (hsol1 : ∀ b, KKT c S W b (solve1 b))
    (hsol2 : ∀ b, KKT c S W b (solve2 b)) (a : ℝ) (ha0 : 0 ≤ a) (ha1 : a ≤ 1) :
    let r := computeResiduals c S o
    let nw := newton c g S o r (updateStatistics c g S o r).merit W lam d2 solve1 solve2
    gapOf c (advance o nw.d a) ≤ (1 - a * (1 - nw.sigma)) * gapOf c o ∧
    (c.q = [] → gapOf c (advance o nw.d a) = (1 - a * (1 - nw.sigma)) * gapOf c o) ∧ 0 ≤ nw.sigma ∧ nw.sigma ≤ 1 := by
  intro r nw
  have hgap := C87_gap c hne g S hS o (updateStatistics c g S o r).merit W lam d2 solve1 solve2 hd hu hwl ht.ne' hden h2 hsol1 hsol2 a
  have hsg0 : 0 ≤ nw.sigma := le_trans hc0 (le_max_right _ _)
  have hsg1 : nw.sigma ≤ 1 := max_le ((min_le_right _ _).trans hc2) hc1
  have hm : (updateStatistics c g S o r).merit = gapOf c o / (c.sizecone + 1) := rfl
  have hpos : (0 : ℝ) < (c.sizecone : ℝ) + 1 := by positivity
  have hg0 : 0 ≤ gapOf c o := by
    obtain ⟨hW, hlam, hWl, hint⟩ := good_of_update c hne o.s o.z _ hd W lam hu
    unfold gapOf
    have h1 : 0 ≤ ∑ k ∈ range c.sizecone, o.s k * o.z k := by
      have := nt_symm c hne W hW lam o.z (fun _ => 0) (fun _ => 0)
      rw [← hlam] at this
      rw [sum_congr rfl (fun k hk => by rw [← hWl k (mem_range.1 hk)]), this]
      exact sum_nonneg fun k _ => mul_self_nonneg _
    have := mul_nonneg hk ht.le
    linarith
  have hD : ((c.nineq : ℝ) + c.nsoc + 1) ≤ (c.sizecone : ℝ) + 1 := by
    have := soc_le_ssoc c hne
    have h2 : c.nineq + c.nsoc ≤ c.sizecone := by unfold sizecone; omega
    have : ((c.nineq + c.nsoc : Nat) : ℝ) ≤ (c.sizecone : ℝ) := by exact_mod_cast h2
    push_cast at this
    linarith
  set rho := ((c.nineq : ℝ) + c.nsoc + 1) / ((c.sizecone : ℝ) + 1) with hrho
  have hrho1 : rho ≤ 1 := by rw [hrho, div_le_one hpos]; exact hD
  have e : (updateStatistics c g S o r).merit * ((c.nineq : ℝ) + c.nsoc + 1) = rho * gapOf c o := by rw [hm, hrho]; ring
  have hval : gapOf c (advance o nw.d a) = (1 - a * (1 - nw.sigma)) * gapOf c o
      - a * nw.sigma * gapOf c o * (1 - rho) * (1 - a * (1 - nw.sigma)) := by
    rw [hgap]
    linear_combination (a * nw.sigma - a ^ 2 * (1 - nw.sigma) * nw.sigma) * e
  refine ⟨?_, fun hq => ?_, hsg0, hsg1⟩
  · rw [hval]
    have : 0 ≤ a * nw.sigma * gapOf c o * (1 - rho) * (1 - a * (1 - nw.sigma)) := by
      refine mul_nonneg (mul_nonneg (mul_nonneg (mul_nonneg ha0 hsg0) hg0) (by linarith)) ?_
      nlinarith
    linarith
  · have : rho = 1 := by
      rw [hrho, div_eq_one_iff_eq hpos.ne']
      simp [sizecone, ssoc, nsoc, hq]
    rw [hval, this]; ring

end IP
end Verif
