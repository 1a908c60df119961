import Verif.LinSolveProps

/-! C90: iterative refinement of the linear solver. -/
namespace Verif
namespace Lin
open Function Cone Equil Finset

/-! ### the loop -/

theorem infNorm_nonneg (n : Nat) (v : Nat → ℝ) : 0 ≤ infNorm n v := by
  unfold infNorm
  suffices h : ∀ (l : List Nat) (m : ℝ), 0 ≤ m → 0 ≤ l.foldl (fun m i => max m |v i|) m from h _ _ le_rfl
  intro l
  induction l with
  | nil => intro m hm; exact hm
  | cons a l ih => intro m hm; exact ih _ (le_max_of_le_left hm)

theorem refine_spec (N : Nat) (err : (Nat → ℝ) → Nat → ℝ) (toP : (Nat → ℝ) → Nat → ℝ) (chol : (Nat → ℝ) → Nat → ℝ) (thresh red E0 : ℝ) :
    ∀ left k px pdx prev, (k = 0 → infNorm N (err px) ≤ E0) → (0 < k → prev ≤ E0 ∧ infNorm N (err fun i => px i - pdx i) = prev) →
      infNorm N (err (refine N err toP chol thresh red left k px pdx prev).1) ≤ E0 ∧
      0 ≤ (refine N err toP chol thresh red left k px pdx prev).2 ∧ (refine N err toP chol thresh red left k px pdx prev).2 ≤ (k + left : Nat) := by
  intro left
  induction left with
  | zero =>
    intro k px pdx prev h0 h1
    unfold refine
    simp only
    split
    · rename_i hc
      exact ⟨(h1 hc.1).2 ▸ (h1 hc.1).1, by have := hc.1; omega, by push_cast; omega⟩
    · rename_i hc
      rw [if_pos (Or.inl trivial)]
      refine ⟨?_, by simp, by simp⟩
      rcases Nat.eq_zero_or_pos k with hk | hk
      · exact h0 hk
      · have : infNorm N (err px) ≤ prev := by
          by_contra hn; exact hc ⟨hk, not_le.1 hn⟩
        exact this.trans (h1 hk).1
  | succ left ih =>
    intro k px pdx prev h0 h1
    unfold refine
    simp only
    split
    · rename_i hc
      exact ⟨(h1 hc.1).2 ▸ (h1 hc.1).1, by have := hc.1; omega, by push_cast; omega⟩
    · rename_i hc
      have hcur : infNorm N (err px) ≤ E0 := by
        rcases Nat.eq_zero_or_pos k with hk | hk
        · exact h0 hk
        · have : infNorm N (err px) ≤ prev := by
            by_contra hn; exact hc ⟨hk, not_le.1 hn⟩
          exact this.trans (h1 hk).1
      split
      · exact ⟨hcur, by simp, by push_cast; omega⟩
      · have := ih (k + 1) (fun i => px i + chol (toP (err px)) i) (chol (toP (err px))) (infNorm N (err px)) (by omega)
          (fun _ => ⟨hcur, by congr 1; congr 1; funext i; ring⟩)
        refine ⟨this.1, this.2.1, this.2.2.trans (by push_cast; omega)⟩

/-- **C90**. For every right-hand side, every content of the work arrays and every answer of the factorisation (also a useless one): the
number of refinements returned lies between 0 and `NumIterRefinementsLinSolve`, and the permuted solution used for the direction is one whose
error, as measured by the code, is not larger (maximum norm) than that of the unrefined solution. -/
theorem C90_refinement (c : Cone) (δ : ℝ) (g : RefStg) (S : Storage) (ip : Nat → Nat) (chol : (Nat → ℝ) → Nat → ℝ) (W : Option Scalings)
    (permB pe0 dx0 old : Nat → ℝ) (hg : 0 ≤ g.numRefs) :
    0 ≤ (solve c δ g S ip chol W permB pe0 dx0 old).2 ∧ (solve c δ g S ip chol W permB pe0 dx0 old).2 ≤ g.numRefs ∧
    ∃ px : Nat → ℝ, (solve c δ g S ip chol W permB pe0 dx0 old).1 = unpermute c ip px old ∧
      infNorm c.extsizeproblem (join c (resid c δ S ip W permB px old)) ≤
        infNorm c.extsizeproblem (join c (resid c δ S ip W permB (chol permB) old)) := by
  have := refine_spec c.extsizeproblem (fun px => join c (resid c δ S ip W permB px old)) (toPerm c.extsizeproblem ip pe0) chol
    ((1 + if c.extsizeproblem > 0 then infNorm c.extsizeproblem permB else 0) * g.accuracy) g.reduction _ g.numRefs.toNat 0 (chol permB) dx0 IP.nanv
    (fun _ => le_rfl) (by omega)
  unfold solve
  simp only [if_neg (not_lt.2 hg)]
  refine ⟨this.2.1, this.2.2.trans (by push_cast; omega), _, rfl, this.1⟩

/-- **C90** (no refinement). With a negative `NumIterRefinementsLinSolve` the loop is not entered. -/
theorem C90_none (c : Cone) (δ : ℝ) (g : RefStg) (S : Storage) (ip : Nat → Nat) (chol : (Nat → ℝ) → Nat → ℝ) (W : Option Scalings)
    (permB pe0 dx0 old : Nat → ℝ) (hg : g.numRefs < 0) :
    solve c δ g S ip chol W permB pe0 dx0 old = (unpermute c ip (chol permB) old, 0) := by
  unfold solve
  simp only [if_pos hg]

/-! ### what the loop measures -/

theorem extBlocks_eq (c : Cone) (lp : Nat → ℝ) (blk : Nat → Nat → ℝ) (e : Nat → ℝ) : extBlocks c lp blk e = c.expand.blockwise lp blk e := by
  unfold extBlocks blockwise
  rw [expand_nsoc]
  show (List.range c.nsoc).foldl _ (wr 0 c.nineq lp e) = (List.range c.nsoc).foldl _ (wr 0 c.nineq lp e)
  suffices h : ∀ l : List Nat, (∀ i ∈ l, i < c.nsoc) → ∀ e, l.foldl (fun e l => wr (c.startSoc l + 2 * l) (c.sizeSoc l + 2) (blk l) e) e =
      l.foldl (fun w i => wr (c.expand.startSoc i) (c.expand.sizeSoc i) (blk i) w) e from h _ (fun i hi => List.mem_range.1 hi) _
  intro l
  induction l with
  | nil => intro _ _; rfl
  | cons i l ih =>
    intro hl e
    have hi := hl i (by simp)
    rw [List.foldl_cons, List.foldl_cons, ih fun k hk => hl k (by simp [hk]), expand_start c i hi.le, expand_size c i hi]

theorem extBlocks_lp (c : Cone) (lp : Nat → ℝ) (blk : Nat → Nat → ℝ) (e : Nat → ℝ) {k : Nat} (hk : k < c.nineq) : extBlocks c lp blk e k = lp k := by
  rw [extBlocks_eq]; exact blockwise_lp c.expand lp blk e k hk

theorem extBlocks_soc (c : Cone) (lp : Nat → ℝ) (blk : Nat → Nat → ℝ) (e : Nat → ℝ) {l j : Nat} (hl : l < c.nsoc) (hj : j < c.sizeSoc l + 2) :
    extBlocks c lp blk e (c.startSoc l + 2 * l + j) = blk l j := by
  rw [extBlocks_eq, ← expand_start c l hl.le]
  exact blockwise_soc c.expand lp blk e l j (by rw [expand_nsoc]; exact hl) (by rw [expand_size c l hl]; exact hj)

theorem dual_unpermute (c : Cone) (ip : Nat → Nat) (px old : Nat → ℝ) : DualPart c (fun i => px (ip i)) (unpermute c ip px old).z := by
  refine ⟨fun k hk => ?_, fun l hl j hj => ?_⟩
  · simp only [unpermute, unpermuteZ_eq]
    rw [blockwise_lp _ _ _ _ _ hk]
    simp only [lpconestart]
    congr 2; omega
  · simp only [unpermute, unpermuteZ_eq]
    rw [blockwise_soc _ _ _ _ _ _ hl hj]
    rfl

/-- What the code subtracts from the right-hand side differs from the regularised KKT product by this vector. -/
structure ResidSpec (c : Cone) (δ : ℝ) (S : Storage) (b q v z : Nat → ℝ) (e : IP.Tri) : Prop where
  x : ∀ i < c.nvars, e.x i = b i - q i
  y : ∀ i < c.neq, e.y i = if 0 < nnz S.A then b (c.nvars + i) - q (c.nvars + i) else b (c.nvars + i)
  lin : ∀ i < c.nineq, e.z i = b (c.nvars + c.neq + i) - q (c.nvars + c.neq + i)
  soc : ∀ l < c.nsoc, ∀ j, j + 1 < c.sizeSoc l → e.z (c.startSoc l + 2 * l + j) = b (at_ c l j) - q (at_ c l j)
  last : ∀ l < c.nsoc, e.z (c.startSoc l + 2 * l + (c.sizeSoc l - 1)) = b (at_ c l (c.sizeSoc l - 1)) - q (at_ c l (c.sizeSoc l - 1)) -
    2 * δ * z (c.startSoc l + (c.sizeSoc l - 1))
  auxV : ∀ l < c.nsoc, e.z (c.startSoc l + 2 * l + c.sizeSoc l) = b (at_ c l (c.sizeSoc l)) - q (at_ c l (c.sizeSoc l))
  auxU : ∀ l < c.nsoc, e.z (c.startSoc l + 2 * l + (c.sizeSoc l + 1)) = b (at_ c l (c.sizeSoc l + 1)) - q (at_ c l (c.sizeSoc l + 1)) +
    δ * v (at_ c l (c.sizeSoc l + 1))

/-- **C90** (what is measured). The error computed by the refinement loop is the residual of the regularised system except: in the last entry
of every second-order cone the regularisation has the wrong sign, in the second auxiliary row it is missing, and the rows of the
equations are not subtracted when `A` has no stored entry. -/
theorem C90_residual (c : Cone) (S : Storage) (h : Data c S) (δ : ℝ) (ip : Nat → Nat) (W : Scalings) (permB px old q : Nat → ℝ)
    (K : KktProd c δ δ S W (fun i => px (ip i)) (unpermute c ip px old).z q) :
    ResidSpec c δ S (fun i => permB (ip i)) q (fun i => px (ip i)) (unpermute c ip px old).z (resid c δ S ip (some W) permB px old) := by
  have hz := dual_unpermute c ip px old
  set d := unpermute c ip px old with hd
  have hzz : ∀ l < c.nsoc, ∀ j < c.sizeSoc l, px (ip (at_ c l j)) = d.z (c.startSoc l + j) := fun l hl j hj => (hz.2 l hl j hj).symm
  have hdx : d.x = fun i => px (ip i) := rfl
  have hdy : d.y = fun k => px (ip (c.nvars + k)) := by funext k; show px (ip (k + c.nvars)) = _; rw [Nat.add_comm]
  have hgdx : ∀ r < c.sizecone, IP.mtv (IP.transpose c.sizecone S.G) d.x (fun _ => 0) true true r = act S.G (fun i => px (ip i)) r :=
    fun r hr => IP.mtv_transpose _ _ _ _ _ hr
  have hin : ∀ l < c.nsoc, ∀ j < c.sizeSoc l, c.startSoc l + j < c.sizecone := by
    intro l hl j hj
    have := c.startSoc_lt hl le_rfl
    rw [c.startSoc_end] at this; omega
  have hat : ∀ l j, c.lpconestart + (c.startSoc l + 2 * l + j) = at_ c l j := by intro l j; unfold lpconestart at_; omega
  have hat' : ∀ l j, c.startSoc l + 2 * l + j + c.lpconestart = at_ c l j := by intro l j; unfold lpconestart at_; omega
  refine ⟨?_, ?_, ?_, ?_, ?_, ?_, ?_⟩
  · intro i hi
    have := K.primal i hi
    simp only [resid]
    rw [← hd, (IP.mtv_neg _ _ _ _).2, (IP.mtv_neg _ _ _ _).2, this, hdy]
    show _ - _ - _ - δ * px (ip i) = _
    ring
  · intro i hi
    have := K.eqs i hi
    simp only [resid]
    by_cases hA : 0 < nnz S.A
    · rw [if_pos hA, if_pos hA, ← hd, (IP.mtv_neg _ _ _ _).2, this, hdy, actT_transpose _ _ _ _ hi, hdx]
      ring
    · rw [if_neg hA, if_neg hA]
  · intro i hi
    have := K.lin i hi
    simp only [resid, conicNTScaling2]
    rw [extBlocks_lp c _ _ _ hi, extBlocks_lp c _ _ _ hi, ← hd, hgdx i (by unfold sizecone; omega), this]
    have e1 : c.lpconestart + i = c.nvars + c.neq + i := by unfold lpconestart; omega
    have e2 : i + c.lpconestart = c.nvars + c.neq + i := by unfold lpconestart; omega
    rw [e1, e2, hz.1 i hi]; ring
  · intro l hl j hj
    simp only [resid, conicNTScaling2]
    rw [extBlocks_soc c _ _ _ hl (by omega), extBlocks_soc c _ _ _ hl (by omega), if_pos (by omega), ← hd, hgdx _ (hin l hl j (by omega)), hat]
    by_cases h0 : j = 0
    · subst h0
      have := K.head l hl
      rw [this]
      simp only [scale2Blk, if_true, shift, hat', Nat.add_zero]
      rw [show c.startSoc l + 2 * l + c.lpconestart = at_ c l 0 from hat' l 0, hzz l hl 0 (by omega)]
      simp only [Nat.add_zero]
      ring
    · have := K.tail l hl j (by omega) (by omega)
      rw [this]
      simp only [scale2Blk, h0, if_false, show j < c.sizeSoc l by omega, if_true, shift, hat']
      rw [hzz l hl j (by omega)]
      ring
  · intro l hl
    have hn := h.noEmpty l hl
    simp only [resid, conicNTScaling2]
    rw [extBlocks_soc c _ _ _ hl (by omega), extBlocks_soc c _ _ _ hl (by omega), if_neg (by omega), if_pos rfl, ← hd,
      hgdx _ (hin l hl _ (by omega)), hat]
    by_cases h0 : c.sizeSoc l - 1 = 0
    · have := K.head l hl
      rw [h0, this]
      simp only [scale2Blk, if_true, shift, hat', Nat.add_zero]
      rw [show c.startSoc l + 2 * l + c.lpconestart = at_ c l 0 from hat' l 0, hzz l hl 0 (by omega)]
      simp only [Nat.add_zero]
      ring
    · have := K.tail l hl (c.sizeSoc l - 1) (by omega) (by omega)
      rw [this]
      simp only [scale2Blk, h0, if_false, show c.sizeSoc l - 1 < c.sizeSoc l by omega, if_true, shift, hat']
      rw [hzz l hl (c.sizeSoc l - 1) (by omega)]
      ring
  · intro l hl
    have hn := h.noEmpty l hl
    have hsum : ∑ k ∈ Ico 1 (c.sizeSoc l), (W.soc l).w k * px (ip (at_ c l k)) = ∑ k ∈ Ico 1 (c.sizeSoc l), (W.soc l).w k * d.z (c.startSoc l + k) :=
      sum_congr rfl fun k hk => by rw [hz.2 l hl k (mem_Ico.1 hk).2]
    simp only [resid, conicNTScaling2]
    rw [extBlocks_soc c _ _ _ hl (by omega), extBlocks_soc c _ _ _ hl (by omega), if_neg (by omega), if_neg (by omega), hat, K.auxV l hl]
    simp only [scale2Blk, show c.sizeSoc l ≠ 0 by omega, lt_irrefl, if_false, if_true, shift, hat']
    rw [hsum]
    ring
  · intro l hl
    have hn := h.noEmpty l hl
    have hsum : ∑ k ∈ Ico 1 (c.sizeSoc l), (W.soc l).w k * px (ip (at_ c l k)) = ∑ k ∈ Ico 1 (c.sizeSoc l), (W.soc l).w k * d.z (c.startSoc l + k) :=
      sum_congr rfl fun k hk => by rw [hz.2 l hl k (mem_Ico.1 hk).2]
    simp only [resid, conicNTScaling2]
    rw [extBlocks_soc c _ _ _ hl (by omega), extBlocks_soc c _ _ _ hl (by omega), if_neg (by omega), if_neg (by omega), hat, K.auxU l hl]
    simp only [scale2Blk, show ¬ c.sizeSoc l + 1 = 0 by omega, show ¬ c.sizeSoc l + 1 < c.sizeSoc l by omega, show ¬ c.sizeSoc l + 1 = c.sizeSoc l by omega,
      if_false, shift, hat']
    rw [hsum, show px (ip (at_ c l 0)) = d.z (c.startSoc l) from (hz.2 l hl 0 hn).symm]
    ring

/-- **C90** (what is measured at the initial point). The matrix of the initial point has no regularisation in the rows of the cone, but the error
adds `δ dz` there (subtracts it in the last entry of a second-order cone). -/
theorem C90_residual_init (c : Cone) (S : Storage) (h : Data c S) (δ : ℝ) (ip : Nat → Nat) (permB px old : Nat → ℝ) :
    (∀ i < c.nineq, (resid c δ S ip none permB px old).z i = permB (ip (c.nvars + c.neq + i)) -
      (act S.G (fun i => px (ip i)) i - (unpermute c ip px old).z i) + δ * (unpermute c ip px old).z i) ∧
    ∀ l < c.nsoc,
      (∀ j, j + 1 < c.sizeSoc l → (resid c δ S ip none permB px old).z (c.startSoc l + 2 * l + j) = permB (ip (at_ c l j)) -
        (act S.G (fun i => px (ip i)) (c.startSoc l + j) - (unpermute c ip px old).z (c.startSoc l + j)) + δ * (unpermute c ip px old).z (c.startSoc l + j)) ∧
      (resid c δ S ip none permB px old).z (c.startSoc l + 2 * l + (c.sizeSoc l - 1)) = permB (ip (at_ c l (c.sizeSoc l - 1))) -
        (act S.G (fun i => px (ip i)) (c.startSoc l + (c.sizeSoc l - 1)) - (unpermute c ip px old).z (c.startSoc l + (c.sizeSoc l - 1))) -
        δ * (unpermute c ip px old).z (c.startSoc l + (c.sizeSoc l - 1)) ∧
      (∀ j, j < 2 → (resid c δ S ip none permB px old).z (c.startSoc l + 2 * l + (c.sizeSoc l + j)) =
        permB (ip (at_ c l (c.sizeSoc l + j))) + px (ip (at_ c l (c.sizeSoc l + j)))) := by
  have hz := dual_unpermute c ip px old
  set d := unpermute c ip px old with hd
  have hzz : ∀ l < c.nsoc, ∀ j < c.sizeSoc l, px (ip (at_ c l j)) = d.z (c.startSoc l + j) := fun l hl j hj => (hz.2 l hl j hj).symm
  have hgdx : ∀ r < c.sizecone, IP.mtv (IP.transpose c.sizecone S.G) d.x (fun _ => 0) true true r = act S.G (fun i => px (ip i)) r :=
    fun r hr => IP.mtv_transpose _ _ _ _ _ hr
  have hin : ∀ l < c.nsoc, ∀ j < c.sizeSoc l, c.startSoc l + j < c.sizecone := by
    intro l hl j hj
    have := c.startSoc_lt hl le_rfl
    rw [c.startSoc_end] at this; omega
  have hat : ∀ l j, c.lpconestart + (c.startSoc l + 2 * l + j) = at_ c l j := by intro l j; unfold lpconestart at_; omega
  have hat' : ∀ l j, c.startSoc l + 2 * l + j + c.lpconestart = at_ c l j := by intro l j; unfold lpconestart at_; omega
  refine ⟨fun i hi => ?_, fun l hl => ⟨fun j hj => ?_, ?_, fun j hj => ?_⟩⟩
  · simp only [resid]
    rw [extBlocks_lp c _ _ _ hi, ← hd, hgdx i (by unfold sizecone; omega)]
    have e1 : c.lpconestart + i = c.nvars + c.neq + i := by unfold lpconestart; omega
    have e2 : i + c.lpconestart = c.nvars + c.neq + i := by unfold lpconestart; omega
    rw [e1, e2, hz.1 i hi]; ring
  · simp only [resid]
    rw [extBlocks_soc c _ _ _ hl (by omega), if_pos (by omega), ← hd, hgdx _ (hin l hl j (by omega)), hat, hat', hzz l hl j (by omega)]
    ring
  · have hn := h.noEmpty l hl
    simp only [resid]
    rw [extBlocks_soc c _ _ _ hl (by omega), if_neg (by omega), if_pos rfl, ← hd, hgdx _ (hin l hl _ (by omega)), hat, hat', hzz l hl _ (by omega)]
    ring
  · have hn := h.noEmpty l hl
    simp only [resid]
    rw [extBlocks_soc c _ _ _ hl (by omega), if_neg (by omega), if_neg (by omega), hat, hat']

theorem infNorm_le_iff (n : Nat) (v : Nat → ℝ) (r : ℝ) (hr : 0 ≤ r) : infNorm n v ≤ r ↔ ∀ i < n, |v i| ≤ r := by
  unfold infNorm
  induction n with
  | zero => simp [hr]
  | succ n ih =>
    rw [List.range_succ, List.foldl_append, List.foldl_cons, List.foldl_nil, max_le_iff, ih]
    constructor
    · rintro ⟨a, b⟩ i hi
      rcases Nat.lt_succ_iff_lt_or_eq.1 hi with h | rfl
      · exact a i h
      · exact b
    · exact fun h => ⟨fun i hi => h i (by omega), h n (by omega)⟩

/-- **C90** (exact solver, linear cone). Without second-order cones, and with a stored entry in `A` or no equations, an exact solution of the
regularised system has error zero: it is returned without refinement. -/
theorem C90_exact (c : Cone) (S : Storage) (h : Data c S) (δ : ℝ) (g : RefStg) (ip : Nat → Nat) (chol : (Nat → ℝ) → Nat → ℝ) (W : Scalings)
    (permB pe0 dx0 old : Nat → ℝ) (hacc : 0 < g.accuracy) (hns : c.nsoc = 0) (hA : 0 < nnz S.A ∨ c.neq = 0)
    (K : KktProd c δ δ S W (fun i => chol permB (ip i)) (unpermute c ip (chol permB) old).z (fun i => permB (ip i))) :
    solve c δ g S ip chol (some W) permB pe0 dx0 old = (unpermute c ip (chol permB) old, 0) := by
  by_cases hg : g.numRefs < 0
  · exact C90_none c δ g S ip chol (some W) permB pe0 dx0 old hg
  have R := C90_residual c S h δ ip W permB (chol permB) old _ K
  have hN : c.extsizeproblem = c.nvars + c.neq + c.nineq := by
    have h1 : c.ssoc = 0 := by
      have := c.startSoc_end; rw [hns, c.startSoc_zero] at this; unfold sizecone at this; omega
    unfold extsizeproblem sizeproblem sizeconstraints sizecone; omega
  have hzero : infNorm c.extsizeproblem (join c (resid c δ S ip (some W) permB (chol permB) old)) = 0 := by
    apply le_antisymm _ (infNorm_nonneg _ _)
    rw [infNorm_le_iff _ _ _ le_rfl]
    intro i hi
    have : join c (resid c δ S ip (some W) permB (chol permB) old) i = 0 := by
      unfold join
      by_cases h1 : i < c.nvars
      · rw [if_pos h1, R.x i h1]; ring
      · rw [if_neg h1]
        by_cases h2 : i < c.nvars + c.neq
        · rw [if_pos h2, R.y _ (by omega), if_pos (by omega)]; ring
        · rw [if_neg h2, R.lin _ (by omega)]; ring
    rw [this, abs_zero]
  have hth : 0 < (1 + if c.extsizeproblem > 0 then infNorm c.extsizeproblem permB else 0) * g.accuracy := by
    apply mul_pos _ hacc
    have := infNorm_nonneg c.extsizeproblem permB
    split <;> linarith
  unfold solve
  simp only [if_neg hg]
  unfold refine
  simp only [lt_irrefl, gt_iff_lt, false_and, if_false]
  rw [if_pos (Or.inr (Or.inl (by rw [hzero]; exact hth)))]
  rfl

/-- **C90** fails with second-order cones: an exact solution of the regularised system is measured as wrong by at least `2 δ |dz|` of the last
entry of every cone. -/
theorem C90_exact_violated (c : Cone) (S : Storage) (h : Data c S) (δ : ℝ) (ip : Nat → Nat) (W : Scalings) (permB px old : Nat → ℝ)
    (K : KktProd c δ δ S W (fun i => px (ip i)) (unpermute c ip px old).z (fun i => permB (ip i))) (l : Nat) (hl : l < c.nsoc) :
    |2 * δ * (unpermute c ip px old).z (c.startSoc l + (c.sizeSoc l - 1))| ≤
      infNorm c.extsizeproblem (join c (resid c δ S ip (some W) permB px old)) := by
  have R := C90_residual c S h δ ip W permB px old _ K
  have hn := h.noEmpty l hl
  have := (infNorm_le_iff c.extsizeproblem (join c (resid c δ S ip (some W) permB px old)) _ (infNorm_nonneg _ _)).1 le_rfl (at_ c l (c.sizeSoc l - 1))
    (by
      have hb : base c l + (c.sizeSoc l + 2) ≤ c.extsizeproblem := by
        rw [← base_end]
        have := c.startSoc_lt hl le_rfl
        unfold base; omega
      unfold base at hb; unfold at_; omega)
  have hj : join c (resid c δ S ip (some W) permB px old) (at_ c l (c.sizeSoc l - 1)) =
      -(2 * δ * (unpermute c ip px old).z (c.startSoc l + (c.sizeSoc l - 1))) := by
    unfold join
    rw [if_neg (by unfold at_; omega), if_neg (by unfold at_; omega)]
    rw [show at_ c l (c.sizeSoc l - 1) - (c.nvars + c.neq) = c.startSoc l + 2 * l + (c.sizeSoc l - 1) by unfold at_; omega, R.last l hl]
    ring
  rw [hj, abs_neg] at this
  exact this

/-! ### a concrete problem -/

/-- One variable, one linear inequality and one second-order cone of size 2. -/
def exC : Cone := ⟨1, 0, 1, [2]⟩
/-- `G` has one column with an entry in the linear row and one in the head of the cone. -/
def exS : Storage := ⟨[[]], [[(0, -1), (1, -1)]], fun _ => 1⟩
/-- An interior point. -/
noncomputable def exP : Nat → ℝ := fun k => if k = 2 then 0 else 1

theorem exData : Data exC exS := by
  refine ⟨?_, ⟨rfl, rfl, ?_, ?_⟩, ?_, ?_⟩
  · intro i hi
    have : i = 0 := by simp [exC, nsoc] at hi; exact hi
    subst this; simp [exC, sizeSoc]
  · intro col hc t ht; simp [exS] at hc; subst hc; simp at ht
  · intro col hc t ht; simp [exS] at hc; subst hc; simp at ht
    rcases ht with rfl | rfl <;> simp [exC, sizecone, ssoc]
  · intro col hc; simp [exS] at hc; subst hc; simp
  · intro col hc; simp [exS] at hc; subst hc; simp

theorem exDomain : exC.ScalingDomain exP exP := by
  refine ⟨?_, ?_⟩
  · intro i hi
    have : i = 0 := by simp [exC] at hi; exact hi
    subst this; norm_num [exP]
  · intro i hi
    have : i = 0 := by simp [exC, nsoc] at hi; exact hi
    subst this
    have h0 : exC.entry exP 0 0 = 1 := by simp [entry, exC, startSoc, exP]
    have h1 : exC.entry exP 0 1 = 0 := by simp [entry, exC, startSoc, exP]
    have hs : exC.sizeSoc 0 = 2 := rfl
    rw [hs, show Ico 1 2 = {1} from rfl, sum_singleton, h0, h1]
    norm_num

theorem exScaling : ∃ W lam, exC.updateNTScalings exP exP (fun _ => 0) = some (W, lam) ∧ ∀ l < exC.nsoc, (W.soc l).etaSq * (W.soc l).d1 = 1 / 2 := by
  obtain ⟨W, h1, -, h3⟩ := updateNT_some exC exData.noEmpty exP exP (fun _ => 0) exDomain
  refine ⟨W, _, h1, fun l hl => ?_⟩
  have : l = 0 := by simp [exC, nsoc] at hl; exact hl
  subst this
  have g := h3 0 hl
  have hs : exC.sizeSoc 0 = 2 := rfl
  have hst : exC.startSoc 0 = 1 := rfl
  rw [hs, hst] at g
  have hη : 0 < (W.soc 0).etaSq := by rw [← g.eta_sq]; exact pow_pos g.eta_pos 2
  have q0 := g.sq0
  have q1 := g.sqj 1 (by omega) (by omega)
  have un := g.unit
  rw [show Ico 1 2 = {1} from rfl, sum_singleton] at q0 q1 un
  simp only [shift, exP] at q0 q1
  norm_num at q0 q1
  have hw0 := g.w0
  have hw1 : (W.soc 0).w 1 = 0 := by
    rcases q1 with h | h | h
    · linarith
    · exact h
    · linarith
  rw [hw1] at un
  have hw : (W.soc 0).w 0 ^ 2 = 1 := by linarith
  have he : (W.soc 0).etaSq = 1 := by
    have : (W.soc 0).etaSq * (2 * (W.soc 0).w 0 ^ 2 - 1) = 1 := by linarith [q0]
    rw [hw] at this; linarith
  have hd := g.d1_eq
  rw [hw] at hd
  rw [he]; linarith

theorem exPerm : IsPerm exC.extsizeproblem (fun i => 5 - i) (fun i => 5 - i) := by
  have : exC.extsizeproblem = 6 := rfl
  rw [this]
  exact ⟨fun i hi => by omega, fun i hi => by omega, fun i hi => by omega, fun i hi => by omega⟩

/-- C89 applies to the concrete problem with the default parameters (`StaticRegularization = 7e-8`, threshold `1e-13`, `DynReg = 2e-7`), for the
reversed ordering. -/
example : ∃ W lam, exC.updateNTScalings exP exP (fun _ => 0) = some (W, lam) ∧ ∃ (t : Ldl.Sym) (f : Ldl.Num),
    Ldl.factorize exC.extsizeproblem ((run exC (init exC 7e-8 exS (fun i => 5 - i) (fun i => 5 - i) (fun _ => 0) (fun _ => 0) (fun _ => 0) fun _ _ => 0)
        [.initMat]).updateMatrix exC 7e-8 W).cols t.parent (Ldl.outer t.lnnz) 1e-13 2e-7
      ((run exC (init exC 7e-8 exS (fun i => 5 - i) (fun i => 5 - i) (fun _ => 0) (fun _ => 0) (fun _ => 0) fun _ _ => 0)
        [.initMat]).updateMatrix exC 7e-8 W).permSign ⟨fun _ => 0, fun _ => 0, fun _ => 0, fun _ => 0, fun _ => 0, fun _ => 0, fun _ => 0⟩ = some f ∧
    ∀ b : Nat → ℝ, KktProd exC 7e-8 7e-8 exS W (fun i => Ldl.solve exC.extsizeproblem (Ldl.outer t.lnnz) f b (5 - i))
      (unpermute exC (fun i => 5 - i) (Ldl.solve exC.extsizeproblem (Ldl.outer t.lnnz) f b) (fun _ => 0)).z (fun i => b (5 - i)) := by
  obtain ⟨W, lam, hu, he⟩ := exScaling
  obtain ⟨t, f, -, h2, -, h4⟩ := C89_factorization exC exS exData 7e-8 7e-8 _ _ exPerm (fun _ => 0) (fun _ => 0) (fun _ => 0) (fun _ _ => 0) [.initMat]
    exP exP (fun _ => 0) exDomain W lam hu 1e-13 2e-7 7e-8 (by norm_num) (by norm_num) (by norm_num) le_rfl le_rfl
    (fun l hl => by rw [he l hl]; norm_num) ⟨fun _ => 0, fun _ => 0, fun _ => none⟩ ⟨fun _ => 0, fun _ => 0, fun _ => 0, fun _ => 0, fun _ => 0, fun _ => 0, fun _ => 0⟩
  exact ⟨W, lam, hu, t, f, h2, fun b => h4 b _ _ (fun i _ => rfl) (dual_unpermute exC _ _ _)⟩

/-- C88 and C90: an exact solution of the concrete regularised system that the refinement loop regards as wrong. -/
example : ∃ (W : Scalings) (px permB : Nat → ℝ), KktProd exC 7e-8 7e-8 exS W (fun i => px (5 - i)) (unpermute exC (fun i => 5 - i) px fun _ => 0).z
      (fun i => permB (5 - i)) ∧
    0 < infNorm exC.extsizeproblem (join exC (resid exC 7e-8 exS (fun i => 5 - i) (some W) permB px fun _ => 0)) := by
  obtain ⟨W, lam, hu, he⟩ := exScaling
  set q : Nat → ℝ := fun i => if hi : i < exC.extsizeproblem then
    (Ldl.full exC.extsizeproblem ((run exC (init exC 7e-8 exS (fun i => 5 - i) (fun i => 5 - i) (fun _ => 0) (fun _ => 0) (fun _ => 0) fun _ _ => 0)
      []).updateMatrix exC 7e-8 W).cols).mulVec (fun _ : Fin exC.extsizeproblem => (1 : ℝ)) ⟨5 - i, exPerm.ip_lt i hi⟩ else 0 with hq
  have K0 : KktProd exC 7e-8 7e-8 exS W (fun i => (fun _ => (1 : ℝ)) (5 - i)) (unpermute exC (fun i => 5 - i) (fun _ => 1) fun _ => 0).z q :=
    C88_operator exC exS exData 7e-8 7e-8 _ _ exPerm (fun _ => 0) (fun _ => 0) (fun _ => 0) (fun _ _ => 0) [] W _ _ (fun _ => 1) q (fun i _ => rfl)
      (dual_unpermute exC _ _ _) (fun i hi => by simp only [hq, dif_pos hi])
  have K : KktProd exC 7e-8 7e-8 exS W (fun i => (fun _ => (1 : ℝ)) (5 - i)) (unpermute exC (fun i => 5 - i) (fun _ => 1) fun _ => 0).z
      (fun i => (fun k => q (5 - k)) (5 - i)) := by
    have e : ∀ i < 6, (fun i => (fun k => q (5 - k)) (5 - i)) i = q i := by
      intro i hi; simp only; congr 1; omega
    have hns : exC.nsoc = 1 := rfl
    have hat : ∀ j < 4, at_ exC 0 j < 6 := by intro j hj; show 1 + 0 + 1 + 2 * 0 + j < 6; omega
    have hs0 : exC.sizeSoc 0 = 2 := rfl
    have l0 : ∀ l < exC.nsoc, l = 0 := fun l hl => by rw [hns] at hl; omega
    refine ⟨fun i hi => ?_, fun i hi => absurd hi (by simp [exC]), fun i hi => ?_, fun l hl => ?_, fun l hl j h1 hj => ?_, fun l hl => ?_, fun l hl => ?_⟩
    · rw [e i (by have : exC.nvars = 1 := rfl; omega)]; exact K0.primal i hi
    · rw [e _ (by have : exC.nvars = 1 := rfl; have : exC.nineq = 1 := rfl; have : exC.neq = 0 := rfl; omega)]; exact K0.lin i hi
    · obtain rfl := l0 l hl; rw [e _ (hat _ (by omega))]; exact K0.head 0 hl
    · obtain rfl := l0 l hl; rw [e _ (hat _ (by omega))]; exact K0.tail 0 hl j h1 hj
    · obtain rfl := l0 l hl; rw [e _ (hat _ (by omega))]; exact K0.auxV 0 hl
    · obtain rfl := l0 l hl; rw [e _ (hat _ (by omega))]; exact K0.auxU 0 hl
  refine ⟨W, fun _ => 1, fun k => q (5 - k), K, lt_of_lt_of_le ?_
    (C90_exact_violated exC exS exData 7e-8 (fun i => 5 - i) W (fun k => q (5 - k)) (fun _ => 1) (fun _ => 0) K 0 (by simp [exC, nsoc]))⟩
  rw [(dual_unpermute exC (fun i => 5 - i) (fun _ => 1) fun _ => 0).2 0 (by simp [exC, nsoc]) _ (by simp [exC, sizeSoc])]
  norm_num

/-- C90_exact: the same problem without the cone. -/
example : ∃ (c : Cone) (S : Storage) (W : Scalings) (permB : Nat → ℝ) (chol : (Nat → ℝ) → Nat → ℝ), Data c S ∧ c.nsoc = 0 ∧ c.neq = 0 ∧ 0 < c.nineq ∧ permB 0 ≠ 0 ∧
    KktProd c 1 1 S W (fun i => chol permB i) (unpermute c id (chol permB) fun _ => 0).z permB := by
  refine ⟨⟨1, 0, 1, []⟩, ⟨[[]], [[(0, -1)]], fun _ => 1⟩, ⟨fun _ => 1, fun _ => 1, fun _ => ⟨0, 0, fun _ => 0, 0, 0, 0, 0⟩⟩, fun k => if k = 0 then -1 else -5,
    fun _ i => if i = 0 then 1 else 2, ?_, rfl, rfl, by simp, by norm_num, ?_⟩
  · refine ⟨?_, ⟨rfl, rfl, ?_, ?_⟩, ?_, ?_⟩
    · intro i hi; simp [nsoc] at hi
    · intro col hc t ht; simp at hc; subst hc; simp at ht
    · intro col hc t ht; simp at hc; subst hc; simp at ht; subst ht; simp [sizecone]
    · intro col hc; simp at hc; subst hc; simp
    · intro col hc; simp at hc; subst hc; simp
  · have hz := (dual_unpermute ⟨1, 0, 1, []⟩ id (fun i => if i = 0 then (1 : ℝ) else 2) fun _ => 0).1 0 (by simp)
    refine ⟨fun i hi => ?_, fun i hi => absurd hi (by simp), fun i hi => ?_, fun l hl => absurd hl (by simp [nsoc]), fun l hl => absurd hl (by simp [nsoc]),
      fun l hl => absurd hl (by simp [nsoc]), fun l hl => absurd hl (by simp [nsoc])⟩
    · have : i = 0 := by simpa using hi
      subst this
      simp only [actT, List.getD_cons_zero, List.map_nil, List.map_cons, List.sum_cons, List.sum_nil]
      rw [hz]; norm_num
    · have : i = 0 := by simpa using hi
      subst this
      rw [hz]
      norm_num [act]

end Lin
end Verif
