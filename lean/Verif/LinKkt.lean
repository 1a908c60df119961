import Verif.LinOp

/-! The bilinear form of the assembled matrix, block by block, and the rows of the stored operator. -/
namespace Verif
namespace Lin
open Function Cone Equil Finset

theorem bil_flatMap (f : Nat → List Tr) (y x : Nat → ℝ) : ∀ m, bil ((List.range m).flatMap f) y x = ∑ i ∈ range m, bil (f i) y x
  | 0 => by simp [bil]
  | m + 1 => by rw [List.range_succ, List.flatMap_append, bil_append, bil_flatMap f y x m, Finset.sum_range_succ]; simp

theorem bil_map (f : Nat → Tr) (y x : Nat → ℝ) : ∀ m, bil ((List.range m).map f) y x =
    ∑ i ∈ range m, (f i).val * (y (f i).row * x (f i).col + if (f i).row = (f i).col then 0 else y (f i).col * x (f i).row)
  | 0 => by simp [bil]
  | m + 1 => by rw [List.range_succ, List.map_append, bil_append, bil_map f y x m, Finset.sum_range_succ]; simp [bil]

theorem bil_one (t : Tr) (y x : Nat → ℝ) : bil [t] y x = t.val * (y t.row * x t.col + if t.row = t.col then 0 else y t.col * x t.row) := by simp [bil]

theorem bil_colTr {n : Nat} {M : Sp} (h : Sorted n M) (j col : Nat) (hn : n ≤ col) (y x : Nat → ℝ) :
    bil (colTr M j col) y x = x col * actT M y j + y col * actT M x j := by
  have hlt := (h.getD j).2
  rw [bil, colTr, actT, actT, List.map_map]
  generalize M.getD j [] = L at hlt
  induction L with
  | nil => simp
  | cons e l ih =>
    have := hlt e (by simp)
    simp only [List.map_cons, List.sum_cons, ih fun e he => hlt e (by simp [he]), comp]
    rw [if_neg (show e.1 ≠ col by omega)]
    ring

/-- The bilinear form of one second-order cone without the rows of `G`. -/
noncomputable def socForm (V : Slot → ℝ) (n l : Nat) (y x : Nat → ℝ) : ℝ :=
  ∑ k ∈ range n, V (.sd l k) * (y k * x k) + ∑ k ∈ range (n - 1), V (.sv l k) * (y (k + 1) * x n + y n * x (k + 1)) + V (.svd l) * (y n * x n) +
    ∑ k ∈ range n, V (.su l k) * (y k * x (n + 1) + y (n + 1) * x k) + V (.sud l) * (y (n + 1) * x (n + 1))

theorem bil_lsoc (c : Cone) {Gt : Sp} (hG : Sorted c.nvars Gt) (V : Slot → ℝ) (l : Nat) (y x : Nat → ℝ) :
    bil ((lsoc c Gt l).map (LT.ev V)) y x =
      ∑ k ∈ range (c.sizeSoc l), (x (base c l + k) * actT Gt y (c.startSoc l + k) + y (base c l + k) * actT Gt x (c.startSoc l + k)) +
        socForm V (c.sizeSoc l) l (fun k => y (base c l + k)) (fun k => x (base c l + k)) := by
  have hz : ∀ k, bil ((lsocZ c Gt l k).map (LT.ev V)) y x =
      (x (base c l + k) * actT Gt y (c.startSoc l + k) + y (base c l + k) * actT Gt x (c.startSoc l + k)) +
        V (.sd l k) * (y (base c l + k) * x (base c l + k)) := by
    intro k
    have e : c.nvars + c.neq + 2 * l + (c.startSoc l + k) = base c l + k := by unfold base; omega
    rw [lsocZ, List.map_append, lcol_ev, bil_append, bil_colTr hG _ _ (by omega), e]
    simp [LT.ev, bil_one]
  have h1 : bil ((List.range (c.sizeSoc l - 1)).map (LT.ev V ∘ fun k => (⟨base c l + (k + 1), base c l + c.sizeSoc l, .var (.sv l k)⟩ : LT))) y x =
      ∑ k ∈ range (c.sizeSoc l - 1), V (.sv l k) * (y (base c l + (k + 1)) * x (base c l + c.sizeSoc l) + y (base c l + c.sizeSoc l) * x (base c l + (k + 1))) := by
    rw [bil_map]
    apply Finset.sum_congr rfl
    intro k hk
    have := mem_range.1 hk
    exact congrArg (_ * ·) (congrArg (_ + ·) (if_neg (by simp only [comp, LT.ev]; omega)))
  have h2 : bil ((List.range (c.sizeSoc l)).map (LT.ev V ∘ fun k => (⟨base c l + k, base c l + c.sizeSoc l + 1, .var (.su l k)⟩ : LT))) y x =
      ∑ k ∈ range (c.sizeSoc l), V (.su l k) * (y (base c l + k) * x (base c l + c.sizeSoc l + 1) + y (base c l + c.sizeSoc l + 1) * x (base c l + k)) := by
    rw [bil_map]
    apply Finset.sum_congr rfl
    intro k hk
    have := mem_range.1 hk
    exact congrArg (_ * ·) (congrArg (_ + ·) (if_neg (by simp only [comp, LT.ev]; omega)))
  rw [lsoc, lsocAux, List.map_append, List.map_flatMap, List.map_append, List.map_append, List.map_append, List.map_map, List.map_map,
    bil_append, bil_append, bil_append, bil_append, h1, h2, bil_flatMap]
  simp only [List.map_cons, List.map_nil, bil_one, hz, LT.ev, if_true, add_zero]
  rw [Finset.sum_add_distrib, socForm]
  simp only [Nat.add_assoc]
  ring

/-- The dual part of an extended vector, without the auxiliary entries. -/
noncomputable def zpart (c : Cone) (x : Nat → ℝ) : Nat → ℝ := c.unpermuteZ x fun _ => 0

theorem zpart_lp (c : Cone) (x : Nat → ℝ) {k : Nat} (hk : k < c.nineq) : zpart c x k = x (c.nvars + c.neq + k) := by
  rw [zpart, unpermuteZ_eq, blockwise_lp c _ _ _ k hk]
  congr 1; unfold lpconestart; omega

theorem zpart_soc (c : Cone) (x : Nat → ℝ) {l j : Nat} (hl : l < c.nsoc) (hj : j < c.sizeSoc l) : zpart c x (c.startSoc l + j) = x (base c l + j) := by
  rw [zpart, unpermuteZ_eq, blockwise_soc c _ _ _ l j hl hj]; rfl

/-- The bilinear form of the whole matrix. -/
theorem bil_ents {c : Cone} {S : Storage} (h : Data c S) (δ : ℝ) (V : Slot → ℝ) (y x : Nat → ℝ) :
    bil ((ents c δ S).map (LT.ev V)) y x =
      ∑ i ∈ range c.nvars, δ * (y i * x i) +
      (∑ i ∈ range c.neq, (x (c.nvars + i) * act S.A y i + y (c.nvars + i) * act S.A x i) - ∑ i ∈ range c.neq, δ * (y (c.nvars + i) * x (c.nvars + i))) +
      ∑ k ∈ range c.sizecone, (zpart c x k * act S.G y k + zpart c y k * act S.G x k) +
      ∑ i ∈ range c.nineq, V (.lp i) * (y (c.nvars + c.neq + i) * x (c.nvars + c.neq + i)) +
      ∑ l ∈ range c.nsoc, socForm V (c.sizeSoc l) l (fun k => y (base c l + k)) (fun k => x (base c l + k)) := by
  have hA := transpose_sorted c.neq S.A h.nodupA
  have hG := transpose_sorted c.sizecone S.G h.nodupG
  rw [h.fits.1] at hA; rw [h.fits.2.1] at hG
  rw [ents, lcoeffs, List.map_append, List.map_append, List.map_append, List.map_flatMap, List.map_flatMap, List.map_flatMap, List.map_map,
    bil_append, bil_append, bil_append, bil_map, bil_flatMap, bil_flatMap, bil_flatMap, transpose_length]
  have h1 : ∀ i ∈ range c.neq, bil ((leq c δ (IP.transpose c.neq S.A) i).map (LT.ev V)) y x =
      (x (c.nvars + i) * act S.A y i + y (c.nvars + i) * act S.A x i) - δ * (y (c.nvars + i) * x (c.nvars + i)) := by
    intro i hi
    have hi := mem_range.1 hi
    rw [leq, List.map_append, lcol_ev, bil_append, bil_colTr hA _ _ (by omega), actT_transpose _ _ _ _ hi, actT_transpose _ _ _ _ hi]
    simp only [List.map_cons, List.map_nil, bil_one, LT.ev, if_true]; ring
  have h2 : ∀ i ∈ range c.nineq, bil ((llp c (IP.transpose c.sizecone S.G) i).map (LT.ev V)) y x =
      (zpart c x i * act S.G y i + zpart c y i * act S.G x i) + V (.lp i) * (y (c.nvars + c.neq + i) * x (c.nvars + c.neq + i)) := by
    intro i hi
    have hi := mem_range.1 hi
    have hi' : i < c.sizecone := by unfold sizecone; omega
    rw [llp, List.map_append, lcol_ev, bil_append, bil_colTr hG _ _ (by omega), actT_transpose _ _ _ _ hi', actT_transpose _ _ _ _ hi',
      zpart_lp c x hi, zpart_lp c y hi]
    simp only [List.map_cons, List.map_nil, bil_one, LT.ev, if_true]; ring
  have h3 : ∀ l ∈ range c.nsoc, bil ((lsoc c (IP.transpose c.sizecone S.G) l).map (LT.ev V)) y x =
      ∑ k ∈ range (c.sizeSoc l), (zpart c x (c.startSoc l + k) * act S.G y (c.startSoc l + k) + zpart c y (c.startSoc l + k) * act S.G x (c.startSoc l + k)) +
        socForm V (c.sizeSoc l) l (fun k => y (base c l + k)) (fun k => x (base c l + k)) := by
    intro l hl
    have hl := mem_range.1 hl
    rw [bil_lsoc c hG]
    congr 1
    apply Finset.sum_congr rfl
    intro k hk
    have hk := mem_range.1 hk
    have hlt : c.startSoc l + k < c.sizecone := by
      have := c.startSoc_lt hl le_rfl
      rw [c.startSoc_end] at this; omega
    rw [actT_transpose _ _ _ _ hlt, actT_transpose _ _ _ _ hlt, zpart_soc c x hl hk, zpart_soc c y hl hk]
  rw [Finset.sum_congr rfl h1, Finset.sum_congr rfl h2, Finset.sum_congr rfl h3, IP.sum_split c]
  simp only [Finset.sum_add_distrib, Finset.sum_sub_distrib, comp, LT.ev, if_true, add_zero]
  ring

/-- The rows of the matrix for values `V`, applied to an extended vector `x`. -/
structure Rows (c : Cone) (δ : ℝ) (S : Storage) (V : Slot → ℝ) (x q : Nat → ℝ) : Prop where
  rx : ∀ i < c.nvars, q i = δ * x i + actT S.A (fun k => x (c.nvars + k)) i + actT S.G (zpart c x) i
  ry : ∀ i < c.neq, q (c.nvars + i) = act S.A x i - δ * x (c.nvars + i)
  rl : ∀ i < c.nineq, q (c.nvars + c.neq + i) = act S.G x i + V (.lp i) * x (c.nvars + c.neq + i)
  rs : ∀ l < c.nsoc, ∀ j < c.sizeSoc l, q (base c l + j) = act S.G x (c.startSoc l + j) + V (.sd l j) * x (base c l + j) +
    (if j = 0 then 0 else V (.sv l (j - 1)) * x (base c l + c.sizeSoc l)) + V (.su l j) * x (base c l + (c.sizeSoc l + 1))
  ra : ∀ l < c.nsoc, q (base c l + c.sizeSoc l) =
    ∑ k ∈ range (c.sizeSoc l - 1), V (.sv l k) * x (base c l + (k + 1)) + V (.svd l) * x (base c l + c.sizeSoc l)
  rb : ∀ l < c.nsoc, q (base c l + (c.sizeSoc l + 1)) =
    ∑ k ∈ range (c.sizeSoc l), V (.su l k) * x (base c l + k) + V (.sud l) * x (base c l + (c.sizeSoc l + 1))

theorem base_disj (c : Cone) {l l' j j' : Nat} (hl : l < c.nsoc) (hl' : l' < c.nsoc) (hj : j < c.sizeSoc l + 2) (hj' : j' < c.sizeSoc l' + 2)
    (e : base c l + j = base c l' + j') : l = l' ∧ j = j' := by
  have hmono : ∀ {a b : Nat}, a < b → b < c.nsoc → base c a + (c.sizeSoc a + 2) ≤ base c b := by
    intro a b hab hb
    have := c.startSoc_lt hab hb.le
    unfold base; omega
  rcases lt_trichotomy l l' with h | h | h
  · have := hmono h hl'; omega
  · subst h; exact ⟨rfl, by omega⟩
  · have := hmono h hl; omega

theorem base_ge (c : Cone) (l : Nat) : c.nvars + c.neq + c.nineq ≤ base c l := by
  have := c.nineq_le_startSoc l
  unfold base; omega

theorem act_zero (M : Sp) (x : Nat → ℝ) (h : ∀ j < M.length, x j = 0) (r : Nat) : act M x r = 0 := by
  unfold act; apply Finset.sum_eq_zero; intro j hj; rw [h j (mem_range.1 hj), mul_zero]

theorem zpart_zero (c : Cone) (x : Nat → ℝ) (h : ∀ k < c.nineq, x (c.nvars + c.neq + k) = 0)
    (h' : ∀ l < c.nsoc, ∀ j < c.sizeSoc l, x (base c l + j) = 0) (k : Nat) (hk : k < c.sizecone) : zpart c x k = 0 := by
  by_cases hl : k < c.nineq
  · rw [zpart_lp c x hl, h k hl]
  · obtain ⟨l, j, hl', hj, rfl⟩ := c.covered k hk (by omega)
    rw [zpart_soc c x hl' hj, h' l hl' j hj]

theorem socForm_zero (V : Slot → ℝ) (n l : Nat) (y x : Nat → ℝ) (h : ∀ k < n + 2, y k = 0) : socForm V n l y x = 0 := by
  unfold socForm
  rw [h n (by omega), h (n + 1) (by omega), Finset.sum_eq_zero, Finset.sum_eq_zero, Finset.sum_eq_zero]
  · simp
  · intro k hk; rw [h k (by have := mem_range.1 hk; omega)]; ring
  · intro k hk; rw [h (k + 1) (by have := mem_range.1 hk; omega)]; ring
  · intro k hk; rw [h k (by have := mem_range.1 hk; omega)]; ring

theorem adjoint_single (M : Sp) (m i : Nat) (hi : i < M.length) (hm : ∀ col ∈ M, ∀ t ∈ col, t.1 < m) (u : Nat → ℝ) :
    ∑ r ∈ range m, u r * act M (fun k => if k = i then 1 else 0) r = actT M u i := by
  have := IP.act_adjoint M m M.length rfl hm (fun k => if k = i then 1 else 0) u
  rw [Finset.sum_congr rfl fun r _ => mul_comm _ _, this, Finset.sum_eq_single i]
  · simp
  · intro j _ hj; simp [hj]
  · intro hn; exact absurd (mem_range.2 hi) hn

/-- The stored matrix has these rows. -/
theorem rows_of_holds {c : Cone} {S : Storage} (h : Data c S) {δ : ℝ} {perm ip : Nat → Nat} (hp : IsPerm c.extsizeproblem perm ip) {s : St} {V : Slot → ℝ}
    (hs : Holds c δ S perm ip s V) (x px : Nat → ℝ) (hx : ∀ i < c.extsizeproblem, px (ip i) = x i) (q : Nat → ℝ)
    (hq : ∀ (i : Nat) (hi : i < c.extsizeproblem),
      q i = (Ldl.full c.extsizeproblem s.cols).mulVec (fun i : Fin c.extsizeproblem => px i) ⟨ip i, hp.ip_lt i hi⟩) : Rows c δ S V x q := by
  have hts : ∀ t ∈ (ents c δ S).map (LT.ev V), t.row < c.extsizeproblem ∧ t.col < c.extsizeproblem := by
    intro t ht
    obtain ⟨e, he, rfl⟩ := List.mem_map.1 ht
    have h1 := (ents_seg h δ).upper e he
    have h2 := ((ents_seg h δ).cols e he).2
    exact ⟨by show e.row < _; omega, h2⟩
  have hbil : ∀ (y : Nat → ℝ), bil ((ents c δ S).map (LT.ev V)) y (fun i => px (ip i)) = bil ((ents c δ S).map (LT.ev V)) y x := by
    intro y
    unfold bil
    congr 1
    apply List.map_congr_left
    intro t ht
    have := hts t ht
    simp only [hx _ this.1, hx _ this.2]
  have hrow : ∀ a < c.extsizeproblem, q a = bil ((ents c δ S).map (LT.ev V)) (fun i => if i = a then 1 else 0) x := by
    intro a ha
    rw [hq a ha, full_mul hp s.cols px a ha _ hts (cols_eq hs), hbil]
  have hN : c.extsizeproblem = c.nvars + c.neq + c.nineq + c.ssoc + 2 * c.nsoc := by
    unfold extsizeproblem sizeproblem sizeconstraints sizecone; omega
  have hbN : ∀ l < c.nsoc, base c l + (c.sizeSoc l + 2) ≤ c.extsizeproblem := by
    intro l hl
    rw [← base_end]
    have := c.startSoc_lt hl le_rfl
    unfold base; omega
  have hsz : c.sizecone = c.nineq + c.ssoc := rfl
  refine ⟨?_, ?_, ?_, ?_, ?_, ?_⟩
  · -- rows of x
    intro i hi
    rw [hrow i (by omega), bil_ents h]
    have e1 : ∑ k ∈ range c.nvars, δ * ((if k = i then (1 : ℝ) else 0) * x k) = δ * x i := by
      rw [Finset.sum_eq_single i]
      · simp
      · intro j _ hj; simp [hj]
      · intro hn; exact absurd (mem_range.2 hi) hn
    have e2 : ∑ k ∈ range c.neq, (x (c.nvars + k) * act S.A (fun i' => if i' = i then 1 else 0) k + (if c.nvars + k = i then (1 : ℝ) else 0) * act S.A x k) =
        actT S.A (fun k => x (c.nvars + k)) i := by
      rw [← adjoint_single S.A c.neq i (by rw [h.fits.1]; exact hi) h.fits.2.2.1]
      apply Finset.sum_congr rfl
      intro k _
      rw [if_neg (by omega)]; ring
    have e3 : ∑ k ∈ range c.neq, δ * ((if c.nvars + k = i then (1 : ℝ) else 0) * x (c.nvars + k)) = 0 := by
      apply Finset.sum_eq_zero
      intro k _
      rw [if_neg (by omega)]; ring
    have e4 : ∑ k ∈ range c.sizecone, (zpart c x k * act S.G (fun i' => if i' = i then 1 else 0) k +
        zpart c (fun i' => if i' = i then 1 else 0) k * act S.G x k) = actT S.G (zpart c x) i := by
      rw [← adjoint_single S.G c.sizecone i (by rw [h.fits.2.1]; exact hi) h.fits.2.2.2]
      apply Finset.sum_congr rfl
      intro k hk
      rw [zpart_zero c (fun i' => if i' = i then 1 else 0) _ _ k (mem_range.1 hk)]
      · ring
      · intro k _; exact if_neg (by omega)
      · intro l _ j _; exact if_neg (by have := base_ge c l; omega)
    have e5 : ∑ k ∈ range c.nineq, V (.lp k) * ((if c.nvars + c.neq + k = i then (1 : ℝ) else 0) * x (c.nvars + c.neq + k)) = 0 := by
      apply Finset.sum_eq_zero
      intro k _
      rw [if_neg (by omega)]; ring
    have e6 : ∑ l ∈ range c.nsoc, socForm V (c.sizeSoc l) l (fun k => if base c l + k = i then 1 else 0) (fun k => x (base c l + k)) = 0 := by
      apply Finset.sum_eq_zero
      intro l _
      apply socForm_zero
      intro k _; exact if_neg (by have := base_ge c l; omega)
    rw [e1, e2, e3, e4, e5, e6]; ring
  · -- rows of y
    intro i hi
    rw [hrow _ (by omega), bil_ents h]
    have e1 : ∑ k ∈ range c.nvars, δ * ((if k = c.nvars + i then (1 : ℝ) else 0) * x k) = 0 := by
      apply Finset.sum_eq_zero; intro k hk; have := mem_range.1 hk; rw [if_neg (by omega)]; ring
    have hz : ∀ (M : Sp), M.length = c.nvars → ∀ k, act M (fun i' => if i' = c.nvars + i then 1 else 0) k = 0 := fun M hM k =>
      act_zero M _ (fun j hj => if_neg (by omega)) k
    have e2 : ∑ k ∈ range c.neq, (x (c.nvars + k) * act S.A (fun i' => if i' = c.nvars + i then 1 else 0) k + (if c.nvars + k = c.nvars + i then (1 : ℝ) else 0) * act S.A x k) =
        act S.A x i := by
      rw [Finset.sum_eq_single i]
      · rw [hz _ h.fits.1]; simp
      · intro j _ hj; rw [hz _ h.fits.1, if_neg (by omega)]; ring
      · intro hn; exact absurd (mem_range.2 hi) hn
    have e3 : ∑ k ∈ range c.neq, δ * ((if c.nvars + k = c.nvars + i then (1 : ℝ) else 0) * x (c.nvars + k)) = δ * x (c.nvars + i) := by
      rw [Finset.sum_eq_single i]
      · simp
      · intro j _ hj; rw [if_neg (by omega)]; ring
      · intro hn; exact absurd (mem_range.2 hi) hn
    have e4 : ∑ k ∈ range c.sizecone, (zpart c x k * act S.G (fun i' => if i' = c.nvars + i then 1 else 0) k +
        zpart c (fun i' => if i' = c.nvars + i then 1 else 0) k * act S.G x k) = 0 := by
      apply Finset.sum_eq_zero
      intro k hk
      rw [zpart_zero c (fun i' => if i' = c.nvars + i then 1 else 0) _ _ k (mem_range.1 hk), hz _ h.fits.2.1]
      · ring
      · intro k _; exact if_neg (by omega)
      · intro l _ j _; exact if_neg (by have := base_ge c l; omega)
    have e5 : ∑ k ∈ range c.nineq, V (.lp k) * ((if c.nvars + c.neq + k = c.nvars + i then (1 : ℝ) else 0) * x (c.nvars + c.neq + k)) = 0 := by
      apply Finset.sum_eq_zero
      intro k _
      rw [if_neg (by omega)]; ring
    have e6 : ∑ l ∈ range c.nsoc, socForm V (c.sizeSoc l) l (fun k => if base c l + k = c.nvars + i then 1 else 0) (fun k => x (base c l + k)) = 0 := by
      apply Finset.sum_eq_zero
      intro l _
      apply socForm_zero
      intro k _; exact if_neg (by have := base_ge c l; omega)
    rw [e1, e2, e3, e4, e5, e6]; ring
  · -- linear rows
    intro i hi
    rw [hrow _ (by omega), bil_ents h]
    have e1 : ∑ k ∈ range c.nvars, δ * ((if k = c.nvars + c.neq + i then (1 : ℝ) else 0) * x k) = 0 := by
      apply Finset.sum_eq_zero; intro k hk; have := mem_range.1 hk; rw [if_neg (by omega)]; ring
    have hz : ∀ (M : Sp), M.length = c.nvars → ∀ k, act M (fun i' => if i' = c.nvars + c.neq + i then 1 else 0) k = 0 := fun M hM k =>
      act_zero M _ (fun j hj => if_neg (by omega)) k
    have e2 : ∑ k ∈ range c.neq, (x (c.nvars + k) * act S.A (fun i' => if i' = c.nvars + c.neq + i then 1 else 0) k +
        (if c.nvars + k = c.nvars + c.neq + i then (1 : ℝ) else 0) * act S.A x k) = 0 := by
      apply Finset.sum_eq_zero; intro k hk; have := mem_range.1 hk
      rw [hz _ h.fits.1, if_neg (by omega)]; ring
    have e3 : ∑ k ∈ range c.neq, δ * ((if c.nvars + k = c.nvars + c.neq + i then (1 : ℝ) else 0) * x (c.nvars + k)) = 0 := by
      apply Finset.sum_eq_zero; intro k hk; have := mem_range.1 hk
      rw [if_neg (by omega)]; ring
    have hsoc : ∀ l < c.nsoc, ∀ j < c.sizeSoc l, (fun i' : Nat => if i' = c.nvars + c.neq + i then (1 : ℝ) else 0) (base c l + j) = 0 := by
      intro l _ j _; exact if_neg (by have := base_ge c l; omega)
    have e4 : ∑ k ∈ range c.sizecone, (zpart c x k * act S.G (fun i' => if i' = c.nvars + c.neq + i then 1 else 0) k +
        zpart c (fun i' => if i' = c.nvars + c.neq + i then 1 else 0) k * act S.G x k) = act S.G x i := by
      rw [Finset.sum_eq_single i]
      · rw [hz _ h.fits.2.1, zpart_lp c (fun i' => if i' = c.nvars + c.neq + i then 1 else 0) hi]; simp
      · intro k hk hki
        rw [hz _ h.fits.2.1]
        have : zpart c (fun i' => if i' = c.nvars + c.neq + i then 1 else 0) k = 0 := by
          by_cases hl : k < c.nineq
          · rw [zpart_lp c _ hl]; exact if_neg (by omega)
          · obtain ⟨l, j, hl', hj, rfl⟩ := c.covered k (mem_range.1 hk) (by omega)
            rw [zpart_soc c _ hl' hj]; exact hsoc l hl' j hj
        rw [this]; ring
      · intro hn; exact absurd (mem_range.2 (by omega)) hn
    have e5 : ∑ k ∈ range c.nineq, V (.lp k) * ((if c.nvars + c.neq + k = c.nvars + c.neq + i then (1 : ℝ) else 0) * x (c.nvars + c.neq + k)) =
        V (.lp i) * x (c.nvars + c.neq + i) := by
      rw [Finset.sum_eq_single i]
      · simp
      · intro j _ hj; rw [if_neg (by omega)]; ring
      · intro hn; exact absurd (mem_range.2 hi) hn
    have e6 : ∑ l ∈ range c.nsoc, socForm V (c.sizeSoc l) l (fun k => if base c l + k = c.nvars + c.neq + i then 1 else 0) (fun k => x (base c l + k)) = 0 := by
      apply Finset.sum_eq_zero
      intro l _
      apply socForm_zero
      intro k _; exact if_neg (by have := base_ge c l; omega)
    rw [e1, e2, e3, e4, e5, e6]; ring
  all_goals
    -- rows of a second-order cone
    have hgen : ∀ l < c.nsoc, ∀ j < c.sizeSoc l + 2, q (base c l + j) =
        (if j < c.sizeSoc l then act S.G x (c.startSoc l + j) else 0) +
          socForm V (c.sizeSoc l) l (fun k => if k = j then 1 else 0) (fun k => x (base c l + k)) := by
      intro l hl j hj
      have hb := base_ge c l
      have hbn := hbN l hl
      rw [hrow _ (by omega), bil_ents h]
      have e1 : ∑ k ∈ range c.nvars, δ * ((if k = base c l + j then (1 : ℝ) else 0) * x k) = 0 := by
        apply Finset.sum_eq_zero; intro k hk; have := mem_range.1 hk; rw [if_neg (by omega)]; ring
      have hz : ∀ (M : Sp), M.length = c.nvars → ∀ k, act M (fun i' => if i' = base c l + j then 1 else 0) k = 0 := fun M hM k =>
        act_zero M _ (fun j hj => if_neg (by omega)) k
      have e2 : ∑ k ∈ range c.neq, (x (c.nvars + k) * act S.A (fun i' => if i' = base c l + j then 1 else 0) k +
          (if c.nvars + k = base c l + j then (1 : ℝ) else 0) * act S.A x k) = 0 := by
        apply Finset.sum_eq_zero; intro k hk; have := mem_range.1 hk
        rw [hz _ h.fits.1, if_neg (by omega)]; ring
      have e3 : ∑ k ∈ range c.neq, δ * ((if c.nvars + k = base c l + j then (1 : ℝ) else 0) * x (c.nvars + k)) = 0 := by
        apply Finset.sum_eq_zero; intro k hk; have := mem_range.1 hk
        rw [if_neg (by omega)]; ring
      have hzp : ∀ k < c.sizecone, zpart c (fun i' => if i' = base c l + j then (1 : ℝ) else 0) k = if j < c.sizeSoc l ∧ k = c.startSoc l + j then 1 else 0 := by
        intro k hk
        by_cases hkl : k < c.nineq
        · rw [zpart_lp c _ hkl, if_neg (by omega), if_neg]
          rintro ⟨_, rfl⟩
          have := c.nineq_le_startSoc l; omega
        · obtain ⟨l', j', hl', hj', rfl⟩ := c.covered k hk (by omega)
          rw [zpart_soc c _ hl' hj']
          by_cases e : base c l' + j' = base c l + j
          · obtain ⟨rfl, rfl⟩ := base_disj c hl' hl (by omega) hj e
            simp [hj']
          · rw [if_neg e, if_neg]
            rintro ⟨h1, h2⟩
            obtain ⟨rfl, rfl⟩ := c.loc_inj hl' hl hj' h1 h2
            exact e rfl
      have e4 : ∑ k ∈ range c.sizecone, (zpart c x k * act S.G (fun i' => if i' = base c l + j then 1 else 0) k +
          zpart c (fun i' => if i' = base c l + j then 1 else 0) k * act S.G x k) = if j < c.sizeSoc l then act S.G x (c.startSoc l + j) else 0 := by
        have : ∀ k ∈ range c.sizecone, zpart c x k * act S.G (fun i' => if i' = base c l + j then 1 else 0) k +
            zpart c (fun i' => if i' = base c l + j then 1 else 0) k * act S.G x k = if j < c.sizeSoc l ∧ k = c.startSoc l + j then act S.G x k else 0 := by
          intro k hk
          rw [hz _ h.fits.2.1, hzp k (mem_range.1 hk)]
          split <;> ring
        rw [Finset.sum_congr rfl this]
        by_cases hjs : j < c.sizeSoc l
        · rw [if_pos hjs, Finset.sum_eq_single (c.startSoc l + j)]
          · rw [if_pos ⟨hjs, rfl⟩]
          · intro k _ hk; exact if_neg fun h => hk h.2
          · intro hn
            have := c.startSoc_lt hl le_rfl
            rw [c.startSoc_end] at this
            exact absurd (mem_range.2 (by omega)) hn
        · rw [if_neg hjs]; apply Finset.sum_eq_zero; intro k _; exact if_neg fun h => hjs h.1
      have e5 : ∑ k ∈ range c.nineq, V (.lp k) * ((if c.nvars + c.neq + k = base c l + j then (1 : ℝ) else 0) * x (c.nvars + c.neq + k)) = 0 := by
        apply Finset.sum_eq_zero; intro k hk; have := mem_range.1 hk
        rw [if_neg (by omega)]; ring
      have e6 : ∑ l' ∈ range c.nsoc, socForm V (c.sizeSoc l') l' (fun k => if base c l' + k = base c l + j then 1 else 0) (fun k => x (base c l' + k)) =
          socForm V (c.sizeSoc l) l (fun k => if k = j then 1 else 0) (fun k => x (base c l + k)) := by
        rw [Finset.sum_eq_single l]
        · simp only [Nat.add_left_cancel_iff]
        · intro l' hl' hne
          apply socForm_zero
          intro k hk
          exact if_neg fun e => hne (base_disj c (mem_range.1 hl') hl hk hj e).1
        · intro hn; exact absurd (mem_range.2 hl) hn
      rw [e1, e2, e3, e4, e5, e6]; ring
  · intro l hl j hj
    rw [hgen l hl j (by omega), if_pos hj, socForm]
    have s1 : ∑ k ∈ range (c.sizeSoc l), V (.sd l k) * ((if k = j then (1 : ℝ) else 0) * x (base c l + k)) = V (.sd l j) * x (base c l + j) := by
      rw [Finset.sum_eq_single j]
      · simp
      · intro k _ hk; rw [if_neg hk]; ring
      · intro hn; exact absurd (mem_range.2 hj) hn
    have s2 : ∑ k ∈ range (c.sizeSoc l - 1), V (.sv l k) * ((if k + 1 = j then (1 : ℝ) else 0) * x (base c l + c.sizeSoc l) +
        (if c.sizeSoc l = j then 1 else 0) * x (base c l + (k + 1))) = if j = 0 then 0 else V (.sv l (j - 1)) * x (base c l + c.sizeSoc l) := by
      by_cases h0 : j = 0
      · subst h0
        rw [if_pos rfl]; apply Finset.sum_eq_zero; intro k _
        rw [if_neg (by omega), if_neg (by omega)]; ring
      · rw [if_neg h0, Finset.sum_eq_single (j - 1)]
        · rw [if_pos (by omega), if_neg (by omega)]; ring
        · intro k _ hk; rw [if_neg (by omega), if_neg (by omega)]; ring
        · intro hn; exact absurd (mem_range.2 (by omega)) hn
    have s3 : ∑ k ∈ range (c.sizeSoc l), V (.su l k) * ((if k = j then (1 : ℝ) else 0) * x (base c l + (c.sizeSoc l + 1)) +
        (if c.sizeSoc l + 1 = j then 1 else 0) * x (base c l + k)) = V (.su l j) * x (base c l + (c.sizeSoc l + 1)) := by
      rw [Finset.sum_eq_single j]
      · rw [if_pos rfl, if_neg (by omega)]; ring
      · intro k _ hk; rw [if_neg hk, if_neg (by omega)]; ring
      · intro hn; exact absurd (mem_range.2 hj) hn
    rw [s1, s2, s3, if_neg (show c.sizeSoc l ≠ j by omega), if_neg (show c.sizeSoc l + 1 ≠ j by omega)]
    ring
  · intro l hl
    rw [hgen l hl _ (by omega), if_neg (by omega), socForm, Finset.sum_eq_zero, if_pos rfl, if_neg (by omega)]
    · rw [Finset.sum_congr rfl fun k hk => by rw [if_neg (show k + 1 ≠ c.sizeSoc l by have := mem_range.1 hk; omega)]]
      rw [Finset.sum_eq_zero (s := range (c.sizeSoc l)) fun k hk => by
        rw [if_neg (show k ≠ c.sizeSoc l by have := mem_range.1 hk; omega)]; ring]
      simp
    · intro k hk
      rw [if_neg (by have := mem_range.1 hk; omega)]; ring
  · intro l hl
    rw [hgen l hl _ (by omega), if_neg (by omega), socForm, Finset.sum_eq_zero, Finset.sum_eq_zero, if_pos rfl, if_neg (by omega)]
    · rw [Finset.sum_congr rfl fun k hk => by rw [if_neg (show k ≠ c.sizeSoc l + 1 by have := mem_range.1 hk; omega)]]
      simp
    · intro k hk
      rw [if_neg (by have := mem_range.1 hk; omega), if_neg (by omega)]; ring
    · intro k hk
      rw [if_neg (by have := mem_range.1 hk; omega)]; ring

end Lin
end Verif
