import Verif.LinKkt
import Verif.IPNewtonProps

/-! C88, C89: the matrix that the linear solver keeps and what its solution means. -/
namespace Verif
namespace Lin
open Function Cone Equil Finset

/-! ### specification -/

/-- A call that changes the values of the matrix: `initializeMatrix`, or `updateMatrix` with the regularisation and the scalings of the moment. -/
inductive Call where
  | initMat
  | upd (δ : ℝ) (W : Scalings)

/-- The effect of a history of calls. -/
noncomputable def run (c : Cone) (s : St) (hist : List Call) : St :=
  hist.foldl (fun s a => match a with | .initMat => s.initializeMatrix c | .upd δ W => s.updateMatrix c δ W) s

/-- Position of entry `j` of second-order cone `l` in an extended vector (variables, equations, linear rows, then each cone followed by its two
auxiliary rows). -/
def at_ (c : Cone) (l j : Nat) : Nat := c.nvars + c.neq + c.startSoc l + 2 * l + j

/-- `z` is the dual part of the extended vector `x`: the auxiliary entries are left out. -/
def DualPart (c : Cone) (x z : Nat → ℝ) : Prop :=
  (∀ k < c.nineq, z k = x (c.nvars + c.neq + k)) ∧ ∀ l < c.nsoc, ∀ j < c.sizeSoc l, z (c.startSoc l + j) = x (at_ c l j)

/-- `q` is the extended, regularised KKT operator applied to `x`:
`[δ₀ A' G'; A -δ₀ 0; G 0 -W²-δ]`, with the block of every second-order cone expanded by the vectors `v` and `u` of the sparse form of `W²`. -/
structure KktProd (c : Cone) (δ₀ δ : ℝ) (S : Storage) (W : Scalings) (x z q : Nat → ℝ) : Prop where
  primal : ∀ i < c.nvars, q i = δ₀ * x i + actT S.A (fun k => x (c.nvars + k)) i + actT S.G z i
  eqs : ∀ i < c.neq, q (c.nvars + i) = act S.A x i - δ₀ * x (c.nvars + i)
  lin : ∀ i < c.nineq, q (c.nvars + c.neq + i) = act S.G x i - (W.lpSq i + δ) * z i
  head : ∀ l < c.nsoc, q (at_ c l 0) = act S.G x (c.startSoc l) -
    ((W.soc l).etaSq * ((W.soc l).d1 * z (c.startSoc l) + (W.soc l).u0 * x (at_ c l (c.sizeSoc l + 1))) + δ * z (c.startSoc l))
  tail : ∀ l < c.nsoc, ∀ j, 0 < j → j < c.sizeSoc l → q (at_ c l j) = act S.G x (c.startSoc l + j) -
    ((W.soc l).etaSq * (z (c.startSoc l + j) + (W.soc l).v1 * (W.soc l).w j * x (at_ c l (c.sizeSoc l)) +
      (W.soc l).u1 * (W.soc l).w j * x (at_ c l (c.sizeSoc l + 1))) + δ * z (c.startSoc l + j))
  auxV : ∀ l < c.nsoc, q (at_ c l (c.sizeSoc l)) =
    -(W.soc l).etaSq * ((W.soc l).v1 * ∑ k ∈ Ico 1 (c.sizeSoc l), (W.soc l).w k * z (c.startSoc l + k) + x (at_ c l (c.sizeSoc l)))
  auxU : ∀ l < c.nsoc, q (at_ c l (c.sizeSoc l + 1)) =
    -(W.soc l).etaSq * ((W.soc l).u0 * z (c.startSoc l) + (W.soc l).u1 * ∑ k ∈ Ico 1 (c.sizeSoc l), (W.soc l).w k * z (c.startSoc l + k)) +
      ((W.soc l).etaSq + δ) * x (at_ c l (c.sizeSoc l + 1))

/-! ### lemmas -/

theorem run_holds {c : Cone} {S : Storage} (h : Data c S) {δ : ℝ} {perm ip : Nat → Nat} : ∀ (hist : List Call) {s : St} {V : Slot → ℝ},
    Holds c δ S perm ip s V → ∃ V', Holds c δ S perm ip (run c s hist) V'
  | [], _, V, hs => ⟨V, hs⟩
  | .initMat :: r, _, _, hs => run_holds h r (write_holds h hs initVal)
  | .upd δ' W :: r, _, _, hs => run_holds h r (write_holds h hs (updVal δ' W))

theorem sum_Ico_shift (n : Nat) (hn : 0 < n) (f : Nat → ℝ) : ∑ k ∈ Ico 1 n, f k = ∑ k ∈ range (n - 1), f (k + 1) := by
  rw [Finset.sum_Ico_eq_sum_range]
  apply Finset.sum_congr rfl
  intro k _
  rw [Nat.add_comm]

theorem actT_zpart {c : Cone} {S : Storage} (h : Data c S) {x z : Nat → ℝ} (hz : DualPart c x z) (i : Nat) : actT S.G (zpart c x) i = actT S.G z i := by
  apply IP.actT_congr S.G c.sizecone h.fits.2.2.2
  intro k hk
  by_cases hl : k < c.nineq
  · rw [zpart_lp c x hl, hz.1 k hl]
  · obtain ⟨l, j, hl', hj, rfl⟩ := c.covered k hk (by omega)
    rw [zpart_soc c x hl' hj, hz.2 l hl' j hj]; rfl

theorem kktProd_of_rows {c : Cone} {S : Storage} (h : Data c S) {δ₀ δ : ℝ} {W : Scalings} {x z q : Nat → ℝ} (hz : DualPart c x z)
    (hr : Rows c δ₀ S (updVal δ W) x q) : KktProd c δ₀ δ S W x z q := by
  refine ⟨?_, hr.ry, ?_, ?_, ?_, ?_, ?_⟩
  · intro i hi; rw [hr.rx i hi, actT_zpart h hz]
  · intro i hi; rw [hr.rl i hi, hz.1 i hi, updVal]; ring
  · intro l hl
    have := hr.rs l hl 0 (h.noEmpty l hl)
    have hz0 := hz.2 l hl 0 (h.noEmpty l hl)
    rw [at_, this, if_pos rfl]
    simp only [updVal, if_true, Nat.add_zero] at *
    rw [hz0]
    unfold at_ base
    simp only [Nat.add_zero]
    ring
  · intro l hl j hj0 hj
    have := hr.rs l hl j hj
    rw [at_, this, if_neg (by omega), hz.2 l hl j hj]
    simp only [updVal, if_neg (show j ≠ 0 by omega), show j - 1 + 1 = j by omega]
    unfold at_ base
    ring
  · intro l hl
    have hn := h.noEmpty l hl
    have hw : ∑ k ∈ Ico 1 (c.sizeSoc l), (W.soc l).w k * z (c.startSoc l + k) =
        ∑ k ∈ range (c.sizeSoc l - 1), (W.soc l).w (k + 1) * x (base c l + (k + 1)) := by
      rw [sum_Ico_shift _ hn]
      exact Finset.sum_congr rfl fun k hk => by rw [hz.2 l hl (k + 1) (by have := mem_range.1 hk; omega)]; rfl
    rw [hw]
    show q (base c l + c.sizeSoc l) = _
    rw [hr.ra l hl, Finset.mul_sum, mul_add, Finset.mul_sum]
    simp only [updVal]
    congr 1
    apply Finset.sum_congr rfl
    intro k _; ring
  · intro l hl
    have hn := h.noEmpty l hl
    have hw : ∑ k ∈ Ico 1 (c.sizeSoc l), (W.soc l).w k * z (c.startSoc l + k) =
        ∑ k ∈ range (c.sizeSoc l - 1), (W.soc l).w (k + 1) * x (base c l + (k + 1)) := by
      rw [sum_Ico_shift _ hn]
      exact Finset.sum_congr rfl fun k hk => by rw [hz.2 l hl (k + 1) (by have := mem_range.1 hk; omega)]; rfl
    have hz0 : z (c.startSoc l) = x (base c l + 0) := hz.2 l hl 0 hn
    rw [hw, hz0]
    show q (base c l + (c.sizeSoc l + 1)) = _
    rw [hr.rb l hl]
    have hsplit : ∀ f : Nat → ℝ, ∑ k ∈ range (c.sizeSoc l), f k = ∑ k ∈ range (c.sizeSoc l - 1), f (k + 1) + f 0 := by
      intro f
      rw [← Finset.sum_range_succ', Nat.sub_add_cancel hn]
    rw [hsplit]
    simp only [updVal, if_true, Nat.succ_ne_zero, if_false]
    rw [mul_add, ← mul_assoc (-(W.soc l).etaSq) (W.soc l).u1, Finset.mul_sum]
    have : ∀ k ∈ range (c.sizeSoc l - 1), -(W.soc l).etaSq * (W.soc l).u1 * (W.soc l).w (k + 1) * x (base c l + (k + 1)) =
        -(W.soc l).etaSq * (W.soc l).u1 * ((W.soc l).w (k + 1) * x (base c l + (k + 1))) := fun k _ => by ring
    rw [Finset.sum_congr rfl this]
    unfold at_ base
    ring

/-- **C88**. Whatever ordering was found, whatever values the arrays held and whatever updates were made before, after `updateMatrix` the
permuted matrix that is factorised acts as the extended regularised KKT operator: the row that belongs to entry `i` of a vector stands at
position `ip i`. -/
theorem C88_operator (c : Cone) (S : Storage) (h : Data c S) (δ₀ δ : ℝ) (perm ip : Nat → Nat) (hp : IsPerm c.extsizeproblem perm ip)
    (inner0 : Nat → Nat) (value0 : Nat → ℝ) (permK0 : Nat → Nat) (idx0 : Nat → Nat → Nat) (hist : List Call) (W : Scalings)
    (x z px q : Nat → ℝ) (hx : ∀ i < c.extsizeproblem, px (ip i) = x i) (hz : DualPart c x z)
    (hq : ∀ (i : Nat) (hi : i < c.extsizeproblem), q i =
      (Ldl.full c.extsizeproblem ((run c (init c δ₀ S perm ip inner0 value0 permK0 idx0) hist).updateMatrix c δ W).cols).mulVec
        (fun i : Fin c.extsizeproblem => px i) ⟨ip i, hp.ip_lt i hi⟩) :
    KktProd c δ₀ δ S W x z q := by
  obtain ⟨V, hV⟩ := run_holds h hist (init_holds h δ₀ perm ip inner0 value0 permK0 idx0)
  exact kktProd_of_rows h hz (rows_of_holds h hp (write_holds h hV (updVal δ W)) x px hx q hq)

/-- **C88** (initial matrix). After `initializeMatrix` the matrix is `[δ₀ A' G'; A -δ₀ 0; G 0 -I]`; the auxiliary rows are decoupled. -/
theorem C88_initial (c : Cone) (S : Storage) (h : Data c S) (δ₀ : ℝ) (perm ip : Nat → Nat) (hp : IsPerm c.extsizeproblem perm ip)
    (inner0 : Nat → Nat) (value0 : Nat → ℝ) (permK0 : Nat → Nat) (idx0 : Nat → Nat → Nat) (hist : List Call)
    (x z px q : Nat → ℝ) (hx : ∀ i < c.extsizeproblem, px (ip i) = x i) (hz : DualPart c x z)
    (hq : ∀ (i : Nat) (hi : i < c.extsizeproblem), q i =
      (Ldl.full c.extsizeproblem ((run c (init c δ₀ S perm ip inner0 value0 permK0 idx0) hist).initializeMatrix c).cols).mulVec
        (fun i : Fin c.extsizeproblem => px i) ⟨ip i, hp.ip_lt i hi⟩) :
    (∀ i < c.nvars, q i = δ₀ * x i + actT S.A (fun k => x (c.nvars + k)) i + actT S.G z i) ∧
    (∀ i < c.neq, q (c.nvars + i) = act S.A x i - δ₀ * x (c.nvars + i)) ∧
    (∀ i < c.nineq, q (c.nvars + c.neq + i) = act S.G x i - z i) ∧
    (∀ l < c.nsoc, (∀ j < c.sizeSoc l, q (at_ c l j) = act S.G x (c.startSoc l + j) - z (c.startSoc l + j)) ∧
      q (at_ c l (c.sizeSoc l)) = -x (at_ c l (c.sizeSoc l)) ∧ q (at_ c l (c.sizeSoc l + 1)) = x (at_ c l (c.sizeSoc l + 1))) := by
  obtain ⟨V, hV⟩ := run_holds h hist (init_holds h δ₀ perm ip inner0 value0 permK0 idx0)
  have hr := rows_of_holds h hp (write_holds h hV initVal) x px hx q hq
  refine ⟨fun i hi => by rw [hr.rx i hi, actT_zpart h hz], hr.ry, fun i hi => by rw [hr.rl i hi, hz.1 i hi, initVal]; ring, fun l hl => ⟨?_, ?_, ?_⟩⟩
  · intro j hj
    rw [at_, hr.rs l hl j hj, hz.2 l hl j hj]
    simp only [initVal]; unfold at_ base
    split <;> ring
  · show q (base c l + c.sizeSoc l) = -x (base c l + c.sizeSoc l)
    rw [hr.ra l hl]; simp [initVal]
  · show q (base c l + (c.sizeSoc l + 1)) = x (base c l + (c.sizeSoc l + 1))
    rw [hr.rb l hl]; simp [initVal]

/-! ### the pattern -/

theorem holds_upper {c : Cone} {S : Storage} (h : Data c S) {δ : ℝ} {perm ip : Nat → Nat} (hp : IsPerm c.extsizeproblem perm ip) {s : St} {V : Slot → ℝ}
    (hs : Holds c δ S perm ip s V) : Ldl.Upper c.extsizeproblem s.cols := by
  have hseg := ents_seg h δ
  have hinj : ∀ {i j}, i < c.extsizeproblem → j < c.extsizeproblem → ip i = ip j → i = j := fun hi hj e => by rw [← hp.left _ hi, ← hp.left _ hj, e]
  intro k hk
  rw [cols_eq hs k]
  refine ⟨?_, ?_⟩
  · intro e he
    obtain ⟨t, ht, rfl⟩ := List.mem_map.1 he
    have : destCol ip t = k := by simpa using (List.mem_filter.1 ht).2
    rw [← this]
    show destRow ip t ≤ destCol ip t
    unfold destRow destCol; split <;> omega
  · rw [List.map_map, List.Nodup, List.pairwise_map, List.pairwise_filter, List.pairwise_map]
    have hm : (ents c δ S).Pairwise fun s t => LBefore s t ∧ (s.row ≤ s.col ∧ s.col < c.extsizeproblem) ∧ t.row ≤ t.col ∧ t.col < c.extsizeproblem := by
      rw [List.pairwise_iff_forall_sublist]
      intro s t hst
      have h1 : s ∈ ents c δ S := hst.subset (by simp)
      have h2 : t ∈ ents c δ S := hst.subset (by simp)
      exact ⟨List.pairwise_iff_forall_sublist.1 hseg.sorted hst, ⟨hseg.upper s h1, (hseg.cols s h1).2⟩, hseg.upper t h2, (hseg.cols t h2).2⟩
    refine hm.imp ?_
    rintro s t ⟨hb, ⟨hs1, hs2⟩, ht1, ht2⟩ hc hc' hr
    simp only [decide_eq_true_eq] at hc hc'
    have hr' : destRow ip (s.ev V) = destRow ip (t.ev V) := hr
    have hcc : destCol ip (s.ev V) = destCol ip (t.ev V) := hc.trans hc'.symm
    have e1 : ∀ u : LT, (u.ev V).row = u.row := fun _ => rfl
    have e2 : ∀ u : LT, (u.ev V).col = u.col := fun _ => rfl
    unfold destRow at hr'; unfold destCol at hcc
    rw [e1, e1, e2, e2] at hr' hcc
    have hsame : (s.row = t.row ∧ s.col = t.col) ∨ (s.row = t.col ∧ s.col = t.row) := by
      by_cases g1 : ip s.row > ip s.col <;> by_cases g2 : ip t.row > ip t.col
      · rw [if_pos g1, if_pos g2] at hr' hcc
        exact Or.inl ⟨hinj (by omega) (by omega) hcc, hinj (by omega) (by omega) hr'⟩
      · rw [if_pos g1, if_neg g2] at hr' hcc
        exact Or.inr ⟨hinj (by omega) (by omega) hcc, hinj (by omega) (by omega) hr'⟩
      · rw [if_neg g1, if_pos g2] at hr' hcc
        exact Or.inr ⟨hinj (by omega) (by omega) hr', hinj (by omega) (by omega) hcc⟩
      · rw [if_neg g1, if_neg g2] at hr' hcc
        exact Or.inl ⟨hinj (by omega) (by omega) hr', hinj (by omega) (by omega) hcc⟩
    rcases hb with hb | hb <;> rcases hsame with h | h <;> omega

theorem holds_pattern {c : Cone} {S : Storage} {δ : ℝ} {perm ip : Nat → Nat} {s s' : St} {V V' : Slot → ℝ} (hs : Holds c δ S perm ip s V)
    (hs' : Holds c δ S perm ip s' V') : Ldl.SamePattern c.extsizeproblem s.cols s'.cols := by
  intro k _
  rw [cols_eq hs k, cols_eq hs' k, List.map_map, List.map_map, List.filter_map, List.filter_map, List.map_map, List.map_map]
  rfl

/-! ### quasi-definiteness -/

theorem foldl_update_one (c : Cone) (s0 : Nat → ℝ) : ∀ m, ∀ k,
    (List.range m).foldl (fun s i => update s (c.extStartSoc i + (c.sizeSoc i + 1)) 1) s0 k =
      if ∃ i < m, k = c.extStartSoc i + (c.sizeSoc i + 1) then 1 else s0 k := by
  intro m
  induction m with
  | zero => intro k; simp
  | succ m ih =>
    intro k
    rw [List.range_succ, List.foldl_append, List.foldl_cons, List.foldl_nil, update_apply, ih]
    by_cases h : k = c.extStartSoc m + (c.sizeSoc m + 1)
    · rw [if_pos h, if_pos ⟨m, by omega, h⟩]
    · rw [if_neg h]
      congr 1
      apply propext
      constructor
      · rintro ⟨i, hi, e⟩; exact ⟨i, by omega, e⟩
      · rintro ⟨i, hi, e⟩
        refine ⟨i, ?_, e⟩
        by_contra hn
        have : i = m := by omega
        subst this; exact h e

theorem base_eq (c : Cone) (l : Nat) : c.extStartSoc l = base c l := rfl

theorem sign_spec (c : Cone) : (∀ i < c.nvars, sign c i = 1) ∧ (∀ i < c.neq, sign c (c.nvars + i) = -1) ∧
    (∀ i < c.nineq, sign c (c.nvars + c.neq + i) = -1) ∧
    ∀ l < c.nsoc, (∀ j < c.sizeSoc l + 1, sign c (base c l + j) = -1) ∧ sign c (base c l + (c.sizeSoc l + 1)) = 1 := by
  have hs : ∀ k, sign c k = if ∃ i < c.nsoc, k = base c i + (c.sizeSoc i + 1) then 1 else
      if c.nvars + c.neq ≤ k ∧ k < c.nvars + c.neq + c.extsizecone then -1 else if c.nvars ≤ k ∧ k < c.nvars + c.neq then -1
      else if k < c.nvars then 1 else 0 := by
    intro k
    rw [sign, foldl_update_one]
    simp only [wr_apply, base_eq, lpconestart, Nat.zero_le, true_and, Nat.zero_add]
  have hext : c.nvars + c.neq + c.extsizecone = c.extsizeproblem := by
    unfold extsizecone extsizeproblem sizeproblem sizeconstraints; omega
  have hle : ∀ l < c.nsoc, base c l + (c.sizeSoc l + 2) ≤ c.extsizeproblem := by
    intro l hl
    rw [← base_end]
    have := c.startSoc_lt hl le_rfl
    unfold base; omega
  have hsz : c.extsizeproblem = c.nvars + c.neq + c.nineq + c.ssoc + 2 * c.nsoc := by
    unfold extsizeproblem sizeproblem sizeconstraints sizecone; omega
  have hno : ∀ k, k < c.nvars + c.neq + c.nineq → ¬ ∃ i < c.nsoc, k = base c i + (c.sizeSoc i + 1) := by
    rintro k hk ⟨i, _, e⟩
    have := base_ge c i; omega
  refine ⟨?_, ?_, ?_, ?_⟩
  · intro i hi
    rw [hs, if_neg (hno i (by omega)), if_neg (by omega), if_neg (by omega), if_pos hi]
  · intro i hi
    rw [hs, if_neg (hno _ (by omega)), if_neg (by omega), if_pos (by omega)]
  · intro i hi
    rw [hs, if_neg (hno _ (by omega)), if_pos (by omega)]
  · intro l hl
    have hb := base_ge c l
    have hbn := hle l hl
    refine ⟨?_, ?_⟩
    · intro j hj
      rw [hs, if_neg, if_pos (by omega)]
      rintro ⟨i, hi, e⟩
      have := base_disj c hl hi (by omega) (by omega) e
      obtain ⟨rfl, h2⟩ := this
      omega
    · rw [hs, if_pos ⟨l, hl, rfl⟩]

/-- A sum over an extended vector, block by block. -/
theorem sum_ext (c : Cone) (f : Nat → ℝ) : ∑ k ∈ range c.extsizeproblem, f k =
    ∑ i ∈ range c.nvars, f i + ∑ i ∈ range c.neq, f (c.nvars + i) + ∑ i ∈ range c.nineq, f (c.nvars + c.neq + i) +
      ∑ l ∈ range c.nsoc, ∑ j ∈ range (c.sizeSoc l + 2), f (base c l + j) := by
  have key : ∀ m ≤ c.nsoc, ∑ k ∈ range (base c m), f k =
      ∑ i ∈ range c.nvars, f i + ∑ i ∈ range c.neq, f (c.nvars + i) + ∑ i ∈ range c.nineq, f (c.nvars + c.neq + i) +
        ∑ l ∈ range m, ∑ j ∈ range (c.sizeSoc l + 2), f (base c l + j) := by
    intro m
    induction m with
    | zero =>
      intro _
      have hb0 : base c 0 = c.nvars + c.neq + c.nineq := by unfold base; rw [c.startSoc_zero]; omega
      rw [hb0, Finset.sum_range_add, Finset.sum_range_add]; simp
    | succ m ih =>
      intro hm
      rw [base_succ c hm, Finset.sum_range_add, ih (by omega),
        Finset.sum_range_succ (fun l => ∑ j ∈ range (c.sizeSoc l + 2), f (base c l + j)) m]; ring
  rw [← base_end]; exact key _ le_rfl

theorem soc_margin (n : Nat) (hn : 0 < n) (t : NT) (s₀ z₀ : Nat → ℝ) (g : GoodNT n s₀ z₀ t) (δ mu : ℝ) (hδ : mu ≤ δ) (hmu : mu ≤ t.etaSq * t.d1) (z : Nat → ℝ) (a b : ℝ) :
    mu * (∑ j ∈ range n, z j ^ 2 + a ^ 2 + b ^ 2) ≤
      t.etaSq * (t.d1 * z 0 ^ 2 + ∑ k ∈ Ico 1 n, z k ^ 2 + 2 * t.v1 * a * ∑ k ∈ Ico 1 n, t.w k * z k + a ^ 2) + t.etaSq * b ^ 2 +
        δ * (∑ j ∈ range n, z j ^ 2 + b ^ 2) := by
  have hη : 0 < t.etaSq := by rw [← g.eta_sq]; exact pow_pos g.eta_pos 2
  set T := ∑ k ∈ Ico 1 n, z k ^ 2 with hT
  set X := ∑ k ∈ Ico 1 n, t.w k * z k with hX
  set w2 := ∑ k ∈ Ico 1 n, t.w k ^ 2 with hw2
  have hT0 : 0 ≤ T := sum_nonneg fun _ _ => sq_nonneg _
  have hw20 : 0 ≤ w2 := sum_nonneg fun _ _ => sq_nonneg _
  -- `t.d1 ≤ 1 - v1² w2`
  have hc : 1 ≤ 2 * t.w 0 ^ 2 - 1 := by nlinarith [g.w0]
  set cc := 2 * t.w 0 ^ 2 - 1 with hcc
  have hunit : w2 = (cc - 1) / 2 := by have := g.unit; rw [hcc]; linarith
  have hd1 : t.d1 = 1 / (2 * cc) := by
    have := g.d1_eq
    rw [eq_div_iff (by positivity)]; linarith
  have hu0 : t.u0 ^ 2 = cc - 1 / (2 * cc) := by have := g.d1u0; rw [hd1, ← hw2, hunit] at this; linarith
  have hu0p : 0 < t.u0 ^ 2 := pow_pos g.u0_pos 2
  have hv : t.v1 ^ 2 * t.u0 ^ 2 = 2 + 1 / cc := by
    have h1 : t.u1 ^ 2 * t.u0 ^ 2 = 2 * (cc + 1) := by
      have := g.u01
      have e : t.u1 ^ 2 * t.u0 ^ 2 = (t.u0 * t.u1) ^ 2 := by ring
      rw [e, this, hcc]; ring
    have h2 : t.v1 ^ 2 = t.u1 ^ 2 - 2 := by linarith [g.u1v1]
    rw [h2, sub_mul, h1, hu0]; field_simp; ring
  have hvw : t.d1 ≤ 1 - t.v1 ^ 2 * w2 := by
    have h1 : (1 - t.v1 ^ 2 * w2 - t.d1) * t.u0 ^ 2 = 1 / (4 * cc ^ 2) := by
      have : (1 - t.v1 ^ 2 * w2 - t.d1) * t.u0 ^ 2 = t.u0 ^ 2 - (t.v1 ^ 2 * t.u0 ^ 2) * w2 - t.d1 * t.u0 ^ 2 := by ring
      rw [this, hv, hu0, hd1, hunit]; field_simp; ring
    have h2 : 0 < 1 / (4 * cc ^ 2) := by positivity
    by_contra hcon
    push Not at hcon
    have : (1 - t.v1 ^ 2 * w2 - t.d1) * t.u0 ^ 2 < 0 := mul_neg_of_neg_of_pos (by linarith) hu0p
    linarith
  have hsq : X ^ 2 ≤ w2 * T := by
    rw [hX, hw2, hT]
    exact Finset.sum_mul_sq_le_sq_mul_sq _ _ _
  -- complete the square
  have hform : t.d1 * a ^ 2 ≤ T + 2 * t.v1 * a * X + a ^ 2 := by
    have h1 : (t.v1 * a * X) ^ 2 ≤ (t.v1 ^ 2 * w2 * a ^ 2) * T := by nlinarith [mul_le_mul_of_nonneg_left hsq (sq_nonneg (t.v1 * a))]
    have hp := g.d1_pos
    set p := t.v1 ^ 2 * w2 * a ^ 2 with hpdef
    have hp0 : 0 ≤ p := by positivity
    have h3 : |t.v1 * a * X| ≤ (p + T) / 2 := by
      apply abs_le_of_sq_le_sq _ (by linarith)
      nlinarith [sq_nonneg (p - T)]
    have h4 := neg_le_of_abs_le h3
    have h5 : p ≤ (1 - t.d1) * a ^ 2 := by
      rw [hpdef]; apply mul_le_mul_of_nonneg_right _ (sq_nonneg a); linarith
    nlinarith
  rw [sum_range_split n hn (fun j => z j ^ 2)]
  have e1 : mu * (z 0 ^ 2 + T) ≤ δ * (z 0 ^ 2 + T) := mul_le_mul_of_nonneg_right hδ (by positivity)
  have e2 : mu * b ^ 2 ≤ δ * b ^ 2 := mul_le_mul_of_nonneg_right hδ (sq_nonneg b)
  have e3 : mu * a ^ 2 ≤ t.etaSq * (t.d1 * a ^ 2) := by rw [← mul_assoc]; exact mul_le_mul_of_nonneg_right hmu (sq_nonneg a)
  have e4 : t.etaSq * (t.d1 * a ^ 2) ≤ t.etaSq * (T + 2 * t.v1 * a * X + a ^ 2) := mul_le_mul_of_nonneg_left hform hη.le
  have e5 : 0 ≤ t.etaSq * (t.d1 * z 0 ^ 2) := by have := g.d1_pos; positivity
  have e6 : 0 ≤ t.etaSq * b ^ 2 := by positivity
  nlinarith

/-- The stored matrix is quasi-definite. -/
theorem holds_quasidefinite {c : Cone} {S : Storage} (h : Data c S) {δ₀ δ mu : ℝ} {perm ip : Nat → Nat} (hp : IsPerm c.extsizeproblem perm ip) {s : St}
    {W : Scalings} (hs : Holds c δ₀ S perm ip s (updVal δ W)) (hlp : ∀ i < c.nineq, 0 ≤ W.lpSq i)
    (hW : ∀ l < c.nsoc, ∃ s₀ z₀, GoodNT (c.sizeSoc l) s₀ z₀ (W.soc l)) (h0 : mu ≤ δ₀) (h1 : mu ≤ δ)
    (h2 : ∀ l < c.nsoc, mu ≤ (W.soc l).etaSq * (W.soc l).d1) :
    Ldl.QuasiDefinite c.extsizeproblem (Ldl.full c.extsizeproblem s.cols) s.permSign mu := by
  intro v
  -- extended vector in the original order
  set px : Nat → ℝ := fun i => if hi : i < c.extsizeproblem then v ⟨i, hi⟩ else 0 with hpx
  set x : Nat → ℝ := fun i => px (ip i) with hx
  have hv : (fun i : Fin c.extsizeproblem => px i) = v := by funext i; simp [hpx]
  set q : Nat → ℝ := fun i => if hi : i < c.extsizeproblem then
    (Ldl.full c.extsizeproblem s.cols).mulVec (fun i : Fin c.extsizeproblem => px i) ⟨ip i, hp.ip_lt i hi⟩ else 0 with hqd
  have hz : DualPart c x (zpart c x) := ⟨fun k hk => zpart_lp c x hk, fun l hl j hj => zpart_soc c x hl hj⟩
  have K := kktProd_of_rows h hz (rows_of_holds h hp hs x px (fun i _ => rfl) q (fun i hi => by simp only [hqd, dif_pos hi]))
  have hsum : ∀ f : Fin c.extsizeproblem → ℝ, ∑ i, f i = ∑ i ∈ range c.extsizeproblem, (if hi : i < c.extsizeproblem then f ⟨ip i, hp.ip_lt i hi⟩ else 0) := by
    intro f
    rw [Finset.sum_range]
    symm
    apply Finset.sum_bij (fun (i : Fin c.extsizeproblem) _ => (⟨ip i, hp.ip_lt i i.2⟩ : Fin c.extsizeproblem))
    · intro i _; exact mem_univ _
    · intro i _ j _ e
      have : ip i = ip j := congrArg Fin.val e
      apply Fin.ext
      rw [← hp.left i i.2, ← hp.left j j.2, this]
    · intro j _
      exact ⟨⟨perm j, hp.perm_lt j j.2⟩, mem_univ _, Fin.ext (hp.right j j.2)⟩
    · intro i _
      simp
  rw [hsum, hsum]
  have hL : ∑ i ∈ range c.extsizeproblem, (if hi : i < c.extsizeproblem then v ⟨ip i, hp.ip_lt i hi⟩ ^ 2 else 0) = ∑ i ∈ range c.extsizeproblem, x i ^ 2 := by
    apply Finset.sum_congr rfl
    intro i hi
    have hi := mem_range.1 hi
    simp only [hx, hpx, dif_pos hi, dif_pos (hp.ip_lt i hi)]
  have hR : ∑ i ∈ range c.extsizeproblem, (if hi : i < c.extsizeproblem then s.permSign (⟨ip i, hp.ip_lt i hi⟩ : Fin c.extsizeproblem) * v ⟨ip i, hp.ip_lt i hi⟩ *
      (Ldl.full c.extsizeproblem s.cols).mulVec v ⟨ip i, hp.ip_lt i hi⟩ else 0) = ∑ i ∈ range c.extsizeproblem, sign c i * x i * q i := by
    apply Finset.sum_congr rfl
    intro i hi
    have hi := mem_range.1 hi
    rw [dif_pos hi]
    simp only [hx, hpx, hqd, dif_pos hi, dif_pos (hp.ip_lt i hi), hs.sgn, hp.left i hi]
    congr 2
    funext j
    simp
  rw [hL, hR, sum_ext c, sum_ext c]
  obtain ⟨g1, g2, g3, g4⟩ := sign_spec c
  -- rows
  have r1 : ∑ i ∈ range c.nvars, sign c i * x i * q i = δ₀ * ∑ i ∈ range c.nvars, x i ^ 2 +
      ∑ i ∈ range c.nvars, actT S.A (fun k => x (c.nvars + k)) i * x i + ∑ i ∈ range c.nvars, actT S.G (zpart c x) i * x i := by
    rw [mul_sum, ← sum_add_distrib, ← sum_add_distrib]
    apply sum_congr rfl
    intro i hi
    rw [g1 i (mem_range.1 hi), K.primal i (mem_range.1 hi)]; ring
  have r2 : ∑ i ∈ range c.neq, sign c (c.nvars + i) * x (c.nvars + i) * q (c.nvars + i) =
      -∑ i ∈ range c.neq, act S.A x i * x (c.nvars + i) + δ₀ * ∑ i ∈ range c.neq, x (c.nvars + i) ^ 2 := by
    rw [mul_sum, ← sum_neg_distrib, ← sum_add_distrib]
    apply sum_congr rfl
    intro i hi
    rw [g2 i (mem_range.1 hi), K.eqs i (mem_range.1 hi)]; ring
  have r3 : ∑ i ∈ range c.nineq, sign c (c.nvars + c.neq + i) * x (c.nvars + c.neq + i) * q (c.nvars + c.neq + i) =
      -∑ i ∈ range c.nineq, act S.G x i * zpart c x i + ∑ i ∈ range c.nineq, (W.lpSq i + δ) * x (c.nvars + c.neq + i) ^ 2 := by
    rw [← sum_neg_distrib, ← sum_add_distrib]
    apply sum_congr rfl
    intro i hi
    rw [g3 i (mem_range.1 hi), K.lin i (mem_range.1 hi), zpart_lp c x (mem_range.1 hi)]; ring
  have r4 : ∀ l < c.nsoc, -∑ j ∈ range (c.sizeSoc l), act S.G x (c.startSoc l + j) * zpart c x (c.startSoc l + j) +
      mu * ∑ j ∈ range (c.sizeSoc l + 2), x (base c l + j) ^ 2 ≤
      ∑ j ∈ range (c.sizeSoc l + 2), sign c (base c l + j) * x (base c l + j) * q (base c l + j) := by
    intro l hl
    have hn := h.noEmpty l hl
    obtain ⟨s₀, z₀, g⟩ := hW l hl
    set t := W.soc l with ht
    set zz : Nat → ℝ := fun j => x (base c l + j) with hzz
    set a := x (base c l + c.sizeSoc l) with ha
    set b := x (base c l + (c.sizeSoc l + 1)) with hb
    have hzp : ∀ j < c.sizeSoc l, zpart c x (c.startSoc l + j) = zz j := fun j hj => zpart_soc c x hl hj
    have hm := soc_margin (c.sizeSoc l) hn t s₀ z₀ g δ mu h1 (h2 l hl) zz a b
    rw [show c.sizeSoc l + 2 = c.sizeSoc l + 1 + 1 from rfl, Finset.sum_range_succ, Finset.sum_range_succ, Finset.sum_range_succ, Finset.sum_range_succ]
    rw [(g4 l hl).2, (g4 l hl).1 (c.sizeSoc l) (by omega)]
    have hzs : ∑ k ∈ Ico 1 (c.sizeSoc l), t.w k * zpart c x (c.startSoc l + k) = ∑ k ∈ Ico 1 (c.sizeSoc l), t.w k * zz k :=
      sum_congr rfl fun k hk => by rw [hzp k (mem_Ico.1 hk).2]
    have hz0 : zpart c x (c.startSoc l) = zz 0 := hzp 0 hn
    have qa := K.auxV l hl
    have qb := K.auxU l hl
    rw [hzs] at qa qb
    rw [hz0] at qb
    have qa' : q (base c l + c.sizeSoc l) = -t.etaSq * (t.v1 * ∑ k ∈ Ico 1 (c.sizeSoc l), t.w k * zz k + a) := qa
    have qb' : q (base c l + (c.sizeSoc l + 1)) = -t.etaSq * (t.u0 * zz 0 + t.u1 * ∑ k ∈ Ico 1 (c.sizeSoc l), t.w k * zz k) + (t.etaSq + δ) * b := qb
    rw [qa', qb']
    have hrow : ∑ j ∈ range (c.sizeSoc l), sign c (base c l + j) * x (base c l + j) * q (base c l + j) =
        -∑ j ∈ range (c.sizeSoc l), act S.G x (c.startSoc l + j) * zpart c x (c.startSoc l + j) +
        (t.etaSq * (t.d1 * zz 0 ^ 2 + ∑ k ∈ Ico 1 (c.sizeSoc l), zz k ^ 2 + t.u0 * zz 0 * b + (t.v1 * a + t.u1 * b) * ∑ k ∈ Ico 1 (c.sizeSoc l), t.w k * zz k) +
          δ * ∑ j ∈ range (c.sizeSoc l), zz j ^ 2) := by
      rw [sum_range_split _ hn, sum_range_split _ hn, sum_range_split _ hn]
      have q0 := K.head l hl
      rw [hz0] at q0
      have q0' : q (base c l + 0) = act S.G x (c.startSoc l) - (t.etaSq * (t.d1 * zz 0 + t.u0 * b) + δ * zz 0) := q0
      rw [(g4 l hl).1 0 (by omega), q0', Nat.add_zero (c.startSoc l), hz0]
      have hrest : ∑ j ∈ Ico 1 (c.sizeSoc l), sign c (base c l + j) * x (base c l + j) * q (base c l + j) =
          -∑ j ∈ Ico 1 (c.sizeSoc l), act S.G x (c.startSoc l + j) * zpart c x (c.startSoc l + j) +
          (t.etaSq * (∑ k ∈ Ico 1 (c.sizeSoc l), zz k ^ 2 + (t.v1 * a + t.u1 * b) * ∑ k ∈ Ico 1 (c.sizeSoc l), t.w k * zz k) +
            δ * ∑ j ∈ Ico 1 (c.sizeSoc l), zz j ^ 2) := by
        rw [mul_add, mul_sum, mul_sum, mul_sum, mul_sum, ← sum_neg_distrib, ← sum_add_distrib, ← sum_add_distrib, ← sum_add_distrib]
        apply sum_congr rfl
        intro j hj
        have hj := mem_Ico.1 hj
        have qj := K.tail l hl j (by omega) hj.2
        rw [hzp j hj.2] at qj
        have qj' : q (base c l + j) = act S.G x (c.startSoc l + j) -
            (t.etaSq * (zz j + t.v1 * t.w j * a + t.u1 * t.w j * b) + δ * zz j) := qj
        rw [(g4 l hl).1 j (by omega), qj', hzp j hj.2]
        show -1 * zz j * _ = _
        ring
      rw [hrest]
      show -1 * zz 0 * _ + _ = _
      ring
    rw [hrow]
    have hbv : ∑ j ∈ range (c.sizeSoc l), x (base c l + j) ^ 2 = ∑ j ∈ range (c.sizeSoc l), zz j ^ 2 := rfl
    rw [hbv]
    show -∑ j ∈ range (c.sizeSoc l), act S.G x (c.startSoc l + j) * zpart c x (c.startSoc l + j) + mu * (∑ j ∈ range (c.sizeSoc l), zz j ^ 2 + a ^ 2 + b ^ 2) ≤
      _ + -1 * a * _ + 1 * b * _
    linarith
  have r4' := Finset.sum_le_sum fun l hl => r4 l (mem_range.1 hl)
  rw [sum_add_distrib, sum_neg_distrib, ← mul_sum] at r4'
  have adjA := IP.act_adjoint S.A c.neq c.nvars h.fits.1 h.fits.2.2.1 x (fun k => x (c.nvars + k))
  have adjG := IP.act_adjoint S.G c.sizecone c.nvars h.fits.2.1 h.fits.2.2.2 x (zpart c x)
  rw [IP.sum_split c] at adjG
  rw [r1, r2, r3]
  have n1 : mu * ∑ i ∈ range c.nvars, x i ^ 2 ≤ δ₀ * ∑ i ∈ range c.nvars, x i ^ 2 := mul_le_mul_of_nonneg_right h0 (sum_nonneg fun _ _ => sq_nonneg _)
  have n2 : mu * ∑ i ∈ range c.neq, x (c.nvars + i) ^ 2 ≤ δ₀ * ∑ i ∈ range c.neq, x (c.nvars + i) ^ 2 :=
    mul_le_mul_of_nonneg_right h0 (sum_nonneg fun _ _ => sq_nonneg _)
  have n3 : mu * ∑ i ∈ range c.nineq, x (c.nvars + c.neq + i) ^ 2 ≤ ∑ i ∈ range c.nineq, (W.lpSq i + δ) * x (c.nvars + c.neq + i) ^ 2 := by
    rw [mul_sum]
    apply sum_le_sum
    intro i hi
    apply mul_le_mul_of_nonneg_right _ (sq_nonneg _)
    have := hlp i (mem_range.1 hi); linarith
  linarith

end Lin
end Verif
