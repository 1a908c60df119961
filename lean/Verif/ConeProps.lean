import Verif.ConeSoc
import Mathlib.Tactic.IntervalCases

/-! C15-C19, C56: cone layout, product/division, projection, Nesterov-Todd scaling, views of the solution vector. -/
namespace Verif
open Finset
namespace Cone

/-! ### specification -/

/-- Entry `j` of second-order cone `i` of a slack vector. -/
def entry (c : Cone) (s : Nat → ℝ) (i j : Nat) : ℝ := s (c.startSoc i + j)

/-- `s` is strictly inside the cone: positive linear entries, `‖tail‖ < head` in every second-order cone. -/
def Interior (c : Cone) (s : Nat → ℝ) : Prop :=
  (∀ i < c.nineq, 0 < s i) ∧
  ∀ i < c.nsoc, Real.sqrt (∑ j ∈ Ico 1 (c.sizeSoc i), c.entry s i j ^ 2) < c.entry s i 0

/-- `s` is inside the cone with the distance to the boundary above the threshold of the safe division (1e-13). -/
def WellInside (c : Cone) (s : Nat → ℝ) : Prop :=
  (∀ i < c.nineq, 1e-13 ≤ s i) ∧
  ∀ i < c.nsoc, 1e-13 ≤ c.entry s i 0 ∧ 1e-13 ≤ c.entry s i 0 ^ 2 - ∑ j ∈ Ico 1 (c.sizeSoc i), c.entry s i j ^ 2

/-- No empty second-order cone. -/
def NoEmpty (c : Cone) : Prop := ∀ i < c.nsoc, 0 < c.sizeSoc i

theorem WellInside.interior {c : Cone} {s : Nat → ℝ} (h : c.WellInside s) : c.Interior s := by
  refine ⟨fun i hi => lt_of_lt_of_le (by norm_num) (h.1 i hi), fun i hi => ?_⟩
  obtain ⟨h1, h2⟩ := h.2 i hi
  have h1' : (0 : ℝ) < c.entry s i 0 := lt_of_lt_of_le (by norm_num) h1
  rw [Real.sqrt_lt' h1']
  have : (0 : ℝ) < 1e-13 := by norm_num
  linarith

/-! ### C15: layout -/

/-- C15: the second-order cones start right after the linear entries, one after the other; every slack index is either a
linear entry or entry `j` of cone `i` for exactly one pair `(i, j)`; the sizes add up. -/
theorem C15_layout (c : Cone) :
    c.startSoc 0 = c.nineq ∧ (∀ i, i < c.nsoc → c.startSoc (i + 1) = c.startSoc i + c.sizeSoc i) ∧
    c.startSoc c.nsoc = c.nineq + c.q.sum ∧ c.sizecone = c.nineq + c.q.sum ∧
    (∀ i j, i < c.nsoc → j < c.sizeSoc i → c.nineq ≤ c.startSoc i + j ∧ c.startSoc i + j < c.sizecone) ∧
    ∀ k, c.nineq ≤ k → k < c.sizecone → ∃! p : Nat × Nat, p.1 < c.nsoc ∧ p.2 < c.sizeSoc p.1 ∧ c.startSoc p.1 + p.2 = k := by
  refine ⟨c.startSoc_zero, c.startSoc_succ, c.startSoc_end, rfl, fun i j hi hj => ?_, fun k h1 h2 => ?_⟩
  · have := c.nineq_le_startSoc i
    have h := c.startSoc_lt hi le_rfl
    rw [startSoc_end] at h
    omega
  · obtain ⟨i, j, hi, hj, rfl⟩ := c.covered k h2 h1
    refine ⟨(i, j), ⟨hi, hj, rfl⟩, fun ⟨i', j'⟩ ⟨h1, h2, h3⟩ => ?_⟩
    obtain ⟨rfl, rfl⟩ := c.loc_inj h1 hi h2 hj h3
    rfl

/-- The cone with two more rows per second-order cone. -/
def expand (c : Cone) : Cone := { c with q := c.q.map (· + 2) }

theorem expand_start (c : Cone) (i : Nat) (hi : i ≤ c.nsoc) : c.expand.startSoc i = c.startSoc i + 2 * i := by
  induction i with
  | zero => simp [startSoc, expand]
  | succ i ih =>
    have e : c.expand.sizeSoc i = c.sizeSoc i + 2 := by
      have h' : i < c.q.length := hi
      simp [sizeSoc, expand, List.getD_eq_getElem?_getD, h']
    rw [startSoc_succ _ i (by simp [expand, nsoc]; exact hi), startSoc_succ c i hi, ih (by omega), e]; ring

theorem expand_size (c : Cone) (i : Nat) (hi : i < c.nsoc) : c.expand.sizeSoc i = c.sizeSoc i + 2 := by
  have h' : i < c.q.length := hi
  simp [sizeSoc, expand, List.getD_eq_getElem?_getD, h']

theorem expand_nsoc (c : Cone) : c.expand.nsoc = c.nsoc := by simp [expand, nsoc]

theorem expand_sizecone (c : Cone) : c.expand.sizecone = c.extsizecone := by
  rw [← startSoc_end, expand_nsoc, expand_start c _ le_rfl, startSoc_end, extsizecone]

/-- C15, extended layout: cone `i` occupies `sizeSoc i + 2` consecutive rows from `extStartSoc i`; the rows after
`lpconestart` are the linear rows and exactly one row `(i, j)`, `j < sizeSoc i + 2`; nothing is left over. -/
theorem C15_extended_layout (c : Cone) :
    c.extsizeproblem = c.lpconestart + c.extsizecone ∧
    (∀ i j, i < c.nsoc → j < c.sizeSoc i + 2 →
      c.lpconestart + c.nineq ≤ c.extStartSoc i + j ∧ c.extStartSoc i + j < c.extsizeproblem) ∧
    (∀ i, i + 1 < c.nsoc → c.extStartSoc (i + 1) = c.extStartSoc i + (c.sizeSoc i + 2)) ∧
    (∀ i, i < c.nsoc → c.optStartSoc i = c.lpconestart + c.startSoc i) ∧
    ∀ k, c.lpconestart + c.nineq ≤ k → k < c.extsizeproblem →
      ∃! p : Nat × Nat, p.1 < c.nsoc ∧ p.2 < c.sizeSoc p.1 + 2 ∧ c.extStartSoc p.1 + p.2 = k := by
  have hext : ∀ i, i < c.nsoc → c.extStartSoc i = c.lpconestart + c.expand.startSoc i := fun i hi => by
    rw [expand_start c i (by omega)]; simp only [extStartSoc, lpconestart]; omega
  have hsz : c.extsizeproblem = c.lpconestart + c.extsizecone := by
    simp only [extsizeproblem, sizeproblem, sizeconstraints, lpconestart, extsizecone]; omega
  obtain ⟨l1, l2, l3, l4, l5, l6⟩ := C15_layout c.expand
  rw [expand_nsoc, expand_sizecone] at *
  refine ⟨hsz, fun i j hi hj => ?_, fun i hi => ?_, fun i _ => rfl, fun k h1 h2 => ?_⟩
  · have := l5 i j hi (by rw [expand_size c i hi]; exact hj)
    have e : c.expand.nineq = c.nineq := rfl
    rw [hext i hi, hsz]; omega
  · rw [hext _ hi, hext i (by omega), l2 i (by omega), expand_size c i (by omega)]; omega
  · obtain ⟨⟨i, j⟩, ⟨p1, p2, p3⟩, p4⟩ := l6 (k - c.lpconestart) (by show c.nineq ≤ _; omega) (by omega)
    rw [expand_size c i p1] at p2
    refine ⟨(i, j), ⟨p1, p2, ?_⟩, fun ⟨i', j'⟩ ⟨h1', h2', h3'⟩ => ?_⟩
    · simp only at p3 ⊢; rw [hext i p1]; omega
    · refine p4 (i', j') ⟨h1', ?_, ?_⟩
      · simp only at h2' ⊢; rw [expand_size c i' h1']; exact h2'
      · simp only at h3' ⊢; rw [hext i' h1'] at h3'; omega

example : (Cone.mk 4 1 2 [3, 1]).startSoc 1 = 5 ∧ (Cone.mk 4 1 2 [3, 1]).extStartSoc 1 = 12 := by decide

theorem zRtoE_eq (c : Cone) (r e : Nat → ℝ) : c.zRtoE r e =
    c.expand.blockwise r (fun i j => if j < c.sizeSoc i then r (c.startSoc i + j) else 0) e := by
  unfold zRtoE blockwise
  rw [expand_nsoc]
  show (List.range c.nsoc).foldl _ (wr 0 c.nineq r e) = (List.range c.nsoc).foldl _ (wr 0 c.nineq r e)
  suffices h : ∀ l : List Nat, (∀ i ∈ l, i < c.nsoc) → ∀ e, l.foldl (fun e i =>
      wr (c.startSoc i + 2 * i) (c.sizeSoc i) (shift r (c.startSoc i))
        (wr (c.startSoc i + 2 * i + c.sizeSoc i) 2 (fun _ => 0) e)) e = l.foldl (fun w i => wr (c.expand.startSoc i)
        (c.expand.sizeSoc i) (fun j => if j < c.sizeSoc i then r (c.startSoc i + j) else 0) w) e from
    h _ (fun i hi => List.mem_range.mp hi) _
  intro l
  induction l with
  | nil => intro _ _; rfl
  | cons i l ih =>
    intro hl e
    rw [List.foldl_cons, List.foldl_cons, ih (fun k hk => hl k (List.mem_cons_of_mem _ hk))]
    congr 1
    have hi := hl i List.mem_cons_self
    rw [expand_start c i (by omega), expand_size c i hi]
    funext k
    rw [wr_apply, wr_apply, wr_apply]
    by_cases h1 : c.startSoc i + 2 * i ≤ k ∧ k < c.startSoc i + 2 * i + c.sizeSoc i
    · rw [if_pos h1, if_pos (by omega), if_pos (by omega)]; rfl
    · rw [if_neg h1]
      by_cases h2 : c.startSoc i + 2 * i + c.sizeSoc i ≤ k ∧ k < c.startSoc i + 2 * i + c.sizeSoc i + 2
      · rw [if_pos h2, if_pos (by omega), if_neg (by omega)]
      · rw [if_neg h2, if_neg (by omega)]

theorem unpermute_inner (px : Nat → ℝ) (n k j : Nat) (dz : Nat → ℝ) :
    (List.range n).foldl (fun (st : Nat × Nat × (Nat → ℝ)) _ =>
      (st.1 + 1, st.2.1 + 1, Function.update st.2.2 st.2.1 (px st.1))) (k, j, dz) =
    (k + n, j + n, wr j n (fun t => px (k + t)) dz) := by
  induction n with
  | zero => simp [wr]
  | succ n ih =>
    rw [List.range_succ, List.foldl_append, ih]
    simp only [List.foldl_cons, List.foldl_nil, wr, List.range_succ, List.foldl_append]
    rfl

theorem unpermuteZ_eq (c : Cone) (px dz : Nat → ℝ) : c.unpermuteZ px dz =
    c.blockwise (fun i => px (i + c.lpconestart)) (fun i j => px (c.extStartSoc i + j)) dz := by
  unfold unpermuteZ blockwise
  suffices h : ∀ m, m ≤ c.nsoc → ∀ dz, (List.range m).foldl (fun (st : Nat × Nat × (Nat → ℝ)) i =>
      let st' := (List.range (c.sizeSoc i)).foldl (fun (st : Nat × Nat × (Nat → ℝ)) _ =>
        (st.1 + 1, st.2.1 + 1, Function.update st.2.2 st.2.1 (px st.1))) st
      (st'.1 + 2, st'.2.1, st'.2.2)) (c.soconestart, c.nineq, dz) =
      (c.nvars + c.neq + c.startSoc m + 2 * m, c.startSoc m,
        (List.range m).foldl (fun w i => wr (c.startSoc i) (c.sizeSoc i) (fun j => px (c.extStartSoc i + j)) w) dz) by
    rw [h _ le_rfl]
  intro m
  induction m with
  | zero => intro _ dz; simp [startSoc_zero, soconestart]
  | succ m ih =>
    intro hm dz
    rw [List.range_succ, List.foldl_append, List.foldl_append, ih (by omega)]
    simp only [List.foldl_cons, List.foldl_nil, unpermute_inner]
    rw [c.startSoc_succ m hm]
    refine Prod.ext (by simp only; omega) (Prod.ext rfl rfl)

/-- C15, extended vectors: writing the dual part `r` into an extended vector and reading it back (through the permuted-back
vector `px`) returns `r`, whatever the vectors contained before; the two extra rows of each cone are zero. -/
theorem C15_extended_roundtrip (c : Cone) (r e px dz : Nat → ℝ) (hpx : ∀ k, px (c.lpconestart + k) = c.zRtoE r e k) :
    (∀ k < c.sizecone, c.unpermuteZ px dz k = r k) ∧
    (∀ i < c.nsoc, px (c.extStartSoc i + c.sizeSoc i) = 0 ∧ px (c.extStartSoc i + c.sizeSoc i + 1) = 0) := by
  have hE : ∀ i j, i < c.nsoc → j < c.sizeSoc i + 2 →
      px (c.extStartSoc i + j) = if j < c.sizeSoc i then r (c.startSoc i + j) else 0 := fun i j hi hj => by
    have : c.extStartSoc i + j = c.lpconestart + (c.expand.startSoc i + j) := by
      rw [expand_start c i (by omega)]; simp only [extStartSoc, lpconestart]; omega
    rw [this, hpx, zRtoE_eq, blockwise_soc _ _ _ _ _ _ (by rw [expand_nsoc]; exact hi)
      (by rw [expand_size c i hi]; exact hj)]
  refine ⟨fun k hk => ?_, fun i hi => ⟨?_, ?_⟩⟩
  · rw [unpermuteZ_eq]
    by_cases h : k < c.nineq
    · rw [blockwise_lp _ _ _ _ _ h, Nat.add_comm, hpx, zRtoE_eq]
      exact blockwise_lp c.expand _ _ _ _ h
    · obtain ⟨i, j, hi, hj, rfl⟩ := c.covered k hk (by omega)
      rw [blockwise_soc _ _ _ _ _ _ hi hj, hE i j hi (by omega), if_pos hj]
  · rw [hE i _ hi (by omega), if_neg (by omega)]
  · rw [Nat.add_assoc, hE i _ hi (by omega), if_neg (by omega)]

/-! ### C16: product and division -/

/-- C16: dividing the cone product `u ∘ v` by `u` returns `v`, and multiplying `w / u` by `u` returns `w`, on every entry of
the slack vector, for every `u` well inside the cone and all `v`, `w`. The last arguments are the previous contents of the
output vectors. -/
theorem C16_product_division (c : Cone) (hne : c.NoEmpty) (u v o1 o2 : Nat → ℝ) (hu : c.WellInside u) :
    ∀ k < c.sizecone, c.conicDivision u (c.conicProduct u v o1) o2 k = v k ∧
      c.conicProduct u (c.conicDivision u v o1) o2 k = v k := by
  intro k hk
  have hres : ∀ i < c.nsoc, 1e-13 ≤ residual (shift u (c.startSoc i)) (c.sizeSoc i) := fun i hi => by
    have := (hu.2 i hi).2
    simpa [residual, shift, entry, sq] using this
  have h0 : ∀ i < c.nsoc, 1e-13 ≤ shift u (c.startSoc i) 0 := fun i hi => (hu.2 i hi).1
  by_cases h : k < c.nineq
  · have hk1 : safeDiv (u k * v k) (u k) = v k ∧ u k * safeDiv (v k) (u k) = v k := by
      have hp : u k ≠ 0 := (lt_of_lt_of_le (by norm_num) (hu.1 k h)).ne'
      rw [safeDiv_eq _ _ (hu.1 k h), safeDiv_eq _ _ (hu.1 k h)]
      exact ⟨by field_simp, by field_simp⟩
    constructor
    · rw [conicDivision, blockwise_lp _ _ _ _ _ h, conicProduct, blockwise_lp _ _ _ _ _ h]; exact hk1.1
    · rw [conicProduct, blockwise_lp _ _ _ _ _ h, conicDivision, blockwise_lp _ _ _ _ _ h]; exact hk1.2
  · obtain ⟨i, j, hi, hj, rfl⟩ := c.covered k hk (by omega)
    constructor
    · rw [conicDivision, blockwise_soc _ _ _ _ _ _ hi hj]
      rw [divBlk_congr _ _ _ (prodBlk (c.sizeSoc i) (shift u (c.startSoc i)) (shift v (c.startSoc i))) (hne i hi)
        (fun t ht => by rw [shift, conicProduct, blockwise_soc _ _ _ _ _ _ hi ht]) j hj]
      exact div_prod _ (hne i hi) _ _ (h0 i hi) (hres i hi) j hj
    · rw [conicProduct, blockwise_soc _ _ _ _ _ _ hi hj]
      rw [prodBlk_congr _ _ _ (divBlk (c.sizeSoc i) (shift u (c.startSoc i)) (shift v (c.startSoc i))) (hne i hi)
        (fun t ht => by rw [shift, conicDivision, blockwise_soc _ _ _ _ _ _ hi ht]) j hj]
      exact prod_div _ (hne i hi) _ _ (h0 i hi) (hres i hi) j hj

/-- A non-trivial cone and interior point: two linear entries, a cone of size 3 and one of size 1. -/
example : (Cone.mk 4 1 2 [3, 1]).NoEmpty ∧ (Cone.mk 4 1 2 [3, 1]).WellInside (fun k => if k = 2 then 3 else 1) := by
  refine ⟨fun i hi => ?_, fun i hi => ?_, fun i hi => ?_⟩
  · have : i < 2 := hi
    interval_cases i <;> decide
  · have : i < 2 := hi
    simp only [show i ≠ 2 by omega, if_false]; norm_num
  · have : i < 2 := hi
    interval_cases i
    · simp [entry, startSoc, sizeSoc, Finset.sum_Ico_eq_sum_range]; norm_num
    · simp [entry, startSoc, sizeSoc]; norm_num

/-- C16, value returned by the product: the inner product `u·v` whenever both points are in the cone. -/
theorem C16_product_returns_inner_product (c : Cone) (hne : c.NoEmpty) (u v o : Nat → ℝ) (hu : c.Interior u)
    (hv : c.Interior v) : c.conicProductMu u v o = ∑ k ∈ range c.sizecone, u k * v k := by
  have hsplit : ∀ m, m ≤ c.nsoc → ∑ k ∈ range (c.startSoc m), u k * v k =
      ∑ k ∈ range c.nineq, u k * v k + ∑ i ∈ range m, ∑ j ∈ range (c.sizeSoc i), c.entry u i j * c.entry v i j := by
    intro m
    induction m with
    | zero => intro _; simp [startSoc_zero]
    | succ m ih =>
      intro hm
      rw [c.startSoc_succ m hm, Finset.sum_range_add, ih (by omega), Finset.sum_range_succ, add_assoc]; rfl
  have := hsplit c.nsoc le_rfl
  rw [startSoc_end] at this
  rw [this, conicProductMu]
  congr 1
  · refine sum_congr rfl fun k hk => ?_
    have hk' := mem_range.mp hk
    rw [conicProduct, blockwise_lp _ _ _ _ _ hk', abs_of_pos (mul_pos (hu.1 k hk') (hv.1 k hk'))]
  · refine sum_congr rfl fun i hi => ?_
    have hi' := mem_range.mp hi
    have e := blockwise_soc c (fun i => u i * v i)
      (fun i => prodBlk (c.sizeSoc i) (shift u (c.startSoc i)) (shift v (c.startSoc i))) o i 0 hi' (hne i hi')
    rw [Nat.add_zero] at e
    rw [conicProduct, e, prodBlk, if_pos rfl, abs_of_nonneg]
    · rfl
    · rw [sum_range_split _ (hne i hi')]
      have f : ∀ s, c.Interior s → 0 < shift s (c.startSoc i) 0 ∧
          0 < residual (shift s (c.startSoc i)) (c.sizeSoc i) := fun s hs => by
        have h1 := hs.2 i hi'
        have h0 : 0 < c.entry s i 0 := lt_of_le_of_lt (Real.sqrt_nonneg _) h1
        rw [Real.sqrt_lt' h0] at h1
        refine ⟨h0, ?_⟩
        rw [residual]; simp only [shift, entry] at h1 ⊢; nlinarith
      obtain ⟨u0, ur⟩ := f u hu
      obtain ⟨v0, vr⟩ := f v hv
      refine le_trans (mul_nonneg (Real.sqrt_nonneg _) (Real.sqrt_nonneg _))
        (dot_ge _ _ _ _ _ u0 v0 (Real.sqrt_nonneg _) (Real.sqrt_nonneg _) (Real.sq_sqrt ur.le).symm (Real.sq_sqrt vr.le).symm)

/-! ### C17: projection -/

/-- The identity element of the cone. -/
def IsIdentity (c : Cone) (e : Nat → ℝ) : Prop :=
  (∀ i < c.nineq, e i = 1) ∧ (∀ i < c.nsoc, c.entry e i 0 = 1 ∧ ∀ j, 0 < j → j < c.sizeSoc i → c.entry e i j = 0)

theorem proj_fold (c : Cone) (hne : c.NoEmpty) (d : ℝ) (s0 : Nat → ℝ) (m : Nat) (hm : m ≤ c.nsoc) :
    let r := (List.range m).foldl (fun s i => Function.update s (c.startSoc i) (s (c.startSoc i) + d)) s0
    (∀ i, i < m → r (c.startSoc i) = s0 (c.startSoc i) + d) ∧ (∀ k, (∀ i < m, k ≠ c.startSoc i) → r k = s0 k) := by
  induction m with
  | zero => exact ⟨fun i hi => absurd hi (by omega), fun k _ => rfl⟩
  | succ m ih =>
    obtain ⟨h1, h2⟩ := ih (by omega)
    have hlt : ∀ i, i < m → c.startSoc i ≠ c.startSoc m := fun i hi => by
      have := c.startSoc_lt hi (by omega)
      have := hne i (by omega)
      omega
    simp only [List.range_succ, List.foldl_append, List.foldl_cons, List.foldl_nil]
    refine ⟨fun i hi => ?_, fun k hk => ?_⟩
    · rcases Nat.lt_succ_iff_lt_or_eq.mp hi with h | rfl
      · rw [Function.update_of_ne (hlt i h)]; exact h1 i h
      · rw [Function.update_self, h2 _ (fun j hj => (hlt j hj).symm)]
    · rw [Function.update_of_ne (hk m (by omega))]; exact h2 k fun i hi => hk i (by omega)

theorem fold_max_ge (l : List Nat) (f : Nat → ℝ) (m0 : ℝ) :
    m0 ≤ l.foldl (fun m i => if f i > m then f i else m) m0 ∧
    ∀ i ∈ l, f i ≤ l.foldl (fun m i => if f i > m then f i else m) m0 := by
  induction l generalizing m0 with
  | nil => simp
  | cons a l ih =>
    rw [List.foldl_cons]
    obtain ⟨h1, h2⟩ := ih (if f a > m0 then f a else m0)
    have ha : m0 ≤ (if f a > m0 then f a else m0) ∧ f a ≤ (if f a > m0 then f a else m0) := by
      split
      · next h => exact ⟨le_of_lt h, le_rfl⟩
      · next h => exact ⟨le_rfl, not_lt.mp h⟩
    refine ⟨ha.1.trans h1, fun i hi => ?_⟩
    rcases List.mem_cons.mp hi with rfl | h
    · exact ha.2.trans h1
    · exact h2 i h

theorem fold_neg_ge (l : List Nat) (s : Nat → ℝ) (m0 : ℝ) :
    m0 ≤ l.foldl (fun m i => if s i < 0 then max m |s i| else m) m0 ∧
    ∀ i ∈ l, -s i ≤ max 0 (l.foldl (fun m i => if s i < 0 then max m |s i| else m) m0) := by
  induction l generalizing m0 with
  | nil => simp
  | cons a l ih =>
    rw [List.foldl_cons]
    obtain ⟨h1, h2⟩ := ih (if s a < 0 then max m0 |s a| else m0)
    have ha : m0 ≤ (if s a < 0 then max m0 |s a| else m0) := by split <;> simp
    refine ⟨ha.trans h1, fun i hi => ?_⟩
    rcases List.mem_cons.mp hi with rfl | h
    · by_cases hn : s i < 0
      · rw [if_pos hn] at h1 ⊢
        rw [abs_of_neg hn] at h1 ⊢
        exact le_trans ((le_max_right _ _).trans h1) (le_max_right _ _)
      · exact le_trans (by linarith) (le_max_left _ _)
    · exact h2 i h

/-- C17: for every vector the projection returns a point strictly inside the cone, of the form `s + a e` with `e` the
identity element and `a ≥ 1`; entries beyond the slack vector are unchanged. -/
theorem C17_projection (c : Cone) (hne : c.NoEmpty) (s : Nat → ℝ) :
    c.Interior (c.conicProjection s) ∧
    ∃ a : ℝ, 1 ≤ a ∧ ∀ e, c.IsIdentity e → ∀ k < c.sizecone, c.conicProjection s k = s k + a * e k := by
  set m := c.maxResidual s with hm
  have hm0 : 0 ≤ m ∧ (∀ i < c.nineq, -s i ≤ m) ∧
      ∀ i < c.nsoc, socViolation (c.sizeSoc i) (shift s (c.startSoc i)) ≤ m := by
    obtain ⟨a1, a2⟩ := fold_neg_ge (List.range c.nineq) s 0
    obtain ⟨b1, b2⟩ := fold_max_ge (List.range c.nsoc) (fun i => socViolation (c.sizeSoc i) (shift s (c.startSoc i)))
      ((List.range c.nineq).foldl (fun m i => if s i < 0 then max m |s i| else m) 0)
    refine ⟨a1.trans b1, fun i hi => ?_, fun i hi => b2 i (List.mem_range.mpr hi)⟩
    have := a2 i (List.mem_range.mpr hi)
    rw [max_eq_right a1] at this
    exact this.trans b1
  obtain ⟨p1, p2⟩ := proj_fold c hne (m + 1) (wr 0 c.nineq (fun i => s i + (m + 1)) s) c.nsoc le_rfl
  have hpe : c.conicProjection s = (List.range c.nsoc).foldl
      (fun s i => Function.update s (c.startSoc i) (s (c.startSoc i) + (m + 1)))
      (wr 0 c.nineq (fun i => s i + (m + 1)) s) := rfl
  have hlp : ∀ k < c.nineq, c.conicProjection s k = s k + (m + 1) := fun k hk => by
    rw [hpe, p2 k (fun i hi => by have := c.nineq_le_startSoc i; omega), wr_apply, if_pos (by omega)]; rfl
  have hh : ∀ i < c.nsoc, c.conicProjection s (c.startSoc i) = s (c.startSoc i) + (m + 1) := fun i hi => by
    rw [hpe, p1 i hi, wr_apply, if_neg (by have := c.nineq_le_startSoc i; omega)]
  have ht : ∀ i < c.nsoc, ∀ j, 0 < j → j < c.sizeSoc i → c.conicProjection s (c.startSoc i + j) = s (c.startSoc i + j) :=
    fun i hi j h0 hj => by
      rw [hpe, p2 _ (fun i' hi' h => ?_), wr_apply, if_neg (by have := c.nineq_le_startSoc i; omega)]
      have := (c.loc_inj hi hi' hj (hne i' hi') (by omega : c.startSoc i + j = c.startSoc i' + 0)).2
      omega
  refine ⟨⟨fun k hk => ?_, fun i hi => ?_⟩, m + 1, by linarith [hm0.1], fun e he k hk => ?_⟩
  · rw [hlp k hk]; linarith [hm0.2.1 k hk]
  · have e1 : ∑ j ∈ Ico 1 (c.sizeSoc i), c.entry (c.conicProjection s) i j ^ 2 =
        ∑ j ∈ range (c.sizeSoc i - 1), shift s (c.startSoc i) (1 + j) ^ 2 := by
      rw [Finset.sum_Ico_eq_sum_range]
      refine sum_congr rfl fun j hj => ?_
      have := mem_range.mp hj
      rw [entry, ht i hi (1 + j) (by omega) (by omega)]; rfl
    have e2 : c.entry (c.conicProjection s) i 0 = s (c.startSoc i) + (m + 1) := by rw [entry, Nat.add_zero, hh i hi]
    rw [e1, e2]
    have := hm0.2.2 i hi
    rw [socViolation, max_le_iff] at this
    have h := this.1
    simp only [shift, Nat.add_zero] at h ⊢
    linarith
  · by_cases h : k < c.nineq
    · rw [hlp k h, he.1 k h]; ring
    · obtain ⟨i, j, hi, hj, rfl⟩ := c.covered k hk (by omega)
      obtain ⟨g0, g1⟩ := he.2 i hi
      rcases Nat.eq_zero_or_pos j with rfl | hpos
      · rw [Nat.add_zero, hh i hi]
        rw [entry, Nat.add_zero] at g0
        rw [g0]; ring
      · rw [ht i hi j hpos hj]
        have := g1 j hpos hj
        rw [entry] at this
        rw [this]; ring

/-- An identity element exists for a non-trivial cone, so the last clause of C17 speaks about an actual vector. -/
example : (Cone.mk 4 1 2 [3, 1]).IsIdentity (fun k => if k = 3 ∨ k = 4 then 0 else 1) := by
  refine ⟨fun i hi => ?_, fun i hi => ?_⟩
  · have : i < 2 := hi
    simp only [show ¬ (i = 3 ∨ i = 4) by omega, if_false]
  · have : i < 2 := hi
    interval_cases i
    · refine ⟨by simp [entry, startSoc], fun j h1 h2 => ?_⟩
      have : j < 3 := h2
      interval_cases j <;> simp [entry, startSoc]
    · refine ⟨by simp [entry, startSoc], fun j h1 h2 => ?_⟩
      have : j < 1 := h2
      omega

/-! ### C18: Nesterov-Todd scaling -/

/-- What the scaling needs: linear dual entries at least 1e-13 (positive slack), both points strictly inside every
second-order cone with `√residual ≥ 1e-13` (the threshold of the safe division). -/
def ScalingDomain (c : Cone) (s z : Nat → ℝ) : Prop :=
  (∀ i < c.nineq, 0 < s i ∧ 1e-13 ≤ z i) ∧
  ∀ i < c.nsoc, (0 < c.entry s i 0 ∧ 1e-26 ≤ c.entry s i 0 ^ 2 - ∑ j ∈ Ico 1 (c.sizeSoc i), c.entry s i j ^ 2) ∧
    (0 < c.entry z i 0 ∧ 1e-26 ≤ c.entry z i 0 ^ 2 - ∑ j ∈ Ico 1 (c.sizeSoc i), c.entry z i j ^ 2)

theorem updateNT_some (c : Cone) (hne : c.NoEmpty) (s z lam : Nat → ℝ) (h : c.ScalingDomain s z) :
    ∃ S, c.updateNTScalings s z lam = some (S, c.conicNTScaling S z lam) ∧
      (∀ i, S.lp i = Real.sqrt (safeDiv (s i) (z i)) ∧ S.lpSq i = safeDiv (s i) (z i)) ∧
      ∀ i < c.nsoc, GoodNT (c.sizeSoc i) (shift s (c.startSoc i)) (shift z (c.startSoc i)) (S.soc i) := by
  have key : ∀ i < c.nsoc, ∃ t, updateBlk (c.sizeSoc i) (shift s (c.startSoc i)) (shift z (c.startSoc i)) = some t ∧
      GoodNT (c.sizeSoc i) (shift s (c.startSoc i)) (shift z (c.startSoc i)) t := fun i hi => by
    obtain ⟨⟨s0, sr⟩, z0, zr⟩ := h.2 i hi
    have e : ∀ v : Nat → ℝ, residual (shift v (c.startSoc i)) (c.sizeSoc i) =
        c.entry v i 0 ^ 2 - ∑ j ∈ Ico 1 (c.sizeSoc i), c.entry v i j ^ 2 := fun v => by
      simp [residual, shift, entry, sq]
    have hq : ∀ v : Nat → ℝ, 1e-26 ≤ residual (shift v (c.startSoc i)) (c.sizeSoc i) →
        1e-13 ≤ Real.sqrt (residual (shift v (c.startSoc i)) (c.sizeSoc i)) := fun v hv => by
      apply Real.le_sqrt_of_sq_le
      refine le_trans ?_ hv
      norm_num
    rw [← e] at sr zr
    exact updateBlk_good _ _ _ s0 z0 sr zr (hne i hi) (hq z zr) (hq s sr)
  have hs : ∀ i : Fin c.nsoc,
      (updateBlk (c.sizeSoc i) (shift s (c.startSoc i)) (shift z (c.startSoc i))).isSome := fun i => by
    obtain ⟨t, ht, _⟩ := key i i.2
    rw [ht]; rfl
  refine ⟨_, by rw [updateNTScalings, dif_pos hs], fun i => ⟨rfl, rfl⟩, fun i hi => ?_⟩
  obtain ⟨t, ht, hg⟩ := key i hi
  simp only [dif_pos hi]
  have : ((updateBlk (c.sizeSoc i) (shift s (c.startSoc i)) (shift z (c.startSoc i))).get (hs ⟨i, hi⟩)) = t := by
    simp only [ht, Option.get_some]
  rw [this]; exact hg

/-- C18: for every slack `s` and dual `z` strictly inside the cone the update reports success and produces scalings `W` and
`lam` with `W z = lam`, `W lam = s` (that is `lam = W⁻¹ s`) and `lam` strictly inside the cone; applying the stored scaling
again to `z` gives `lam` whatever the output vector contained. -/
theorem C18_scaling (c : Cone) (hne : c.NoEmpty) (s z o : Nat → ℝ) (h : c.ScalingDomain s z) :
    ∃ S lam, c.updateNTScalings s z o = some (S, lam) ∧
      (∀ o' k, k < c.sizecone → c.conicNTScaling S z o' k = lam k) ∧
      (∀ o' k, k < c.sizecone → c.conicNTScaling S lam o' k = s k) ∧
      c.Interior lam := by
  obtain ⟨S, h1, h2, h3⟩ := updateNT_some c hne s z o h
  have hsoc : ∀ o' i j, i < c.nsoc → j < c.sizeSoc i →
      c.conicNTScaling S z o' (c.startSoc i + j) = scaleBlk (c.sizeSoc i) (S.soc i) (shift z (c.startSoc i)) j :=
    fun o' i j hi hj => by rw [conicNTScaling, blockwise_soc _ _ _ _ _ _ hi hj]
  have hz : ∀ k, k < c.nineq → 0 < z k := fun k hk => lt_of_lt_of_le (by norm_num) (h.1 k hk).2
  refine ⟨S, c.conicNTScaling S z o, h1, fun o' k hk => ?_, fun o' k hk => ?_, fun k hk => ?_, fun i hi => ?_⟩
  · by_cases hl : k < c.nineq
    · rw [conicNTScaling, conicNTScaling, blockwise_lp _ _ _ _ _ hl, blockwise_lp _ _ _ _ _ hl]
    · obtain ⟨i, j, hi, hj, rfl⟩ := c.covered k hk (by omega)
      rw [hsoc _ i j hi hj, hsoc _ i j hi hj]
  · by_cases hl : k < c.nineq
    · rw [conicNTScaling, conicNTScaling, blockwise_lp _ _ _ _ _ hl, blockwise_lp _ _ _ _ _ hl, (h2 k).1, ← mul_assoc,
        Real.mul_self_sqrt, safeDiv_eq _ _ (h.1 k hl).2, div_mul_cancel₀ _ (hz k hl).ne']
      rw [safeDiv_eq _ _ (h.1 k hl).2]
      exact div_nonneg (h.1 k hl).1.le (hz k hl).le
    · obtain ⟨i, j, hi, hj, rfl⟩ := c.covered k hk (by omega)
      rw [conicNTScaling, blockwise_soc _ _ _ _ _ _ hi hj, scaleBlk_congr _ _ _
        (scaleBlk (c.sizeSoc i) (S.soc i) (shift z (c.startSoc i))) (hne i hi)
        (fun t ht => by rw [shift]; exact hsoc o i t hi ht) j hj]
      exact scale_scale _ _ _ _ (h3 i hi) j hj
  · rw [conicNTScaling, blockwise_lp _ _ _ _ _ hk, (h2 k).1]
    refine mul_pos (Real.sqrt_pos.mpr ?_) (hz k hk)
    rw [safeDiv_eq _ _ (h.1 k hk).2]
    exact div_pos (h.1 k hk).1 (hz k hk)
  · obtain ⟨-, z0, zr⟩ := h.2 i hi
    have zr' : 0 < residual (shift z (c.startSoc i)) (c.sizeSoc i) := by
      refine lt_of_lt_of_le (show (0 : ℝ) < 1e-26 by norm_num) (le_trans zr (le_of_eq ?_))
      simp [residual, shift, entry, sq]
    have hp := scale_pos _ _ (shift z (c.startSoc i)) _ (h3 i hi) z0 zr'
    have hr := scale_residual _ _ _ _ (h3 i hi)
    have hr' : 0 < residual (scaleBlk (c.sizeSoc i) (S.soc i) (shift z (c.startSoc i))) (c.sizeSoc i) := by
      rw [hr, ← (h3 i hi).eta_sq]; exact mul_pos (pow_pos (h3 i hi).eta_pos 2) zr'
    have e0 : c.entry (c.conicNTScaling S z o) i 0 = scaleBlk (c.sizeSoc i) (S.soc i) (shift z (c.startSoc i)) 0 :=
      hsoc o i 0 hi (hne i hi)
    have e1 : ∑ j ∈ Ico 1 (c.sizeSoc i), c.entry (c.conicNTScaling S z o) i j ^ 2 =
        ∑ j ∈ Ico 1 (c.sizeSoc i), scaleBlk (c.sizeSoc i) (S.soc i) (shift z (c.startSoc i)) j ^ 2 :=
      sum_congr rfl fun j hj => by rw [entry, hsoc o i j hi (mem_Ico.mp hj).2]
    rw [e0, e1, Real.sqrt_lt' hp]
    rw [residual] at hr'
    nlinarith

/-- The hypotheses of C18 hold for a non-trivial cone and points. -/
example : (Cone.mk 4 1 2 [3, 1]).ScalingDomain (fun k => if k = 2 then 3 else 1) (fun k => if k = 2 then 5 else 2) := by
  refine ⟨fun i hi => ?_, fun i hi => ?_⟩
  · have : i < 2 := hi
    simp only [show i ≠ 2 by omega, if_false]; norm_num
  · have : i < 2 := hi
    interval_cases i
    · simp [entry, startSoc, sizeSoc, Finset.sum_Ico_eq_sum_range]; norm_num
    · simp [entry, startSoc, sizeSoc]; norm_num

/-- C18, second half, is false of the code: a slack in the *negative* second-order cone is accepted, because only the sign of
the residual `s₀² - ‖s₁‖²` is tested. -/
theorem C18_outside_violated : ∃ (c : Cone) (s z o : Nat → ℝ), c.NoEmpty ∧ ¬ c.Interior s ∧ c.entry s 0 0 < 0 ∧
    (c.updateNTScalings s z o).isSome := by
  refine ⟨⟨2, 0, 0, [2]⟩, fun k => if k = 0 then -1 else 0, fun k => if k = 0 then 1 else 0, fun _ => 0, ?_, ?_, ?_, ?_⟩
  · intro i hi
    have : i < 1 := hi
    interval_cases i; decide
  · intro h
    have := h.2 0 (by decide)
    have h0 := Real.sqrt_nonneg (∑ j ∈ Ico 1 ((Cone.mk 2 0 0 [2]).sizeSoc 0),
      (Cone.mk 2 0 0 [2]).entry (fun k => if k = 0 then -1 else 0) 0 j ^ 2)
    have e : (Cone.mk 2 0 0 [2]).entry (fun k => if k = 0 then (-1 : ℝ) else 0) 0 0 = -1 := by simp [entry, startSoc]
    rw [e] at this
    linarith
  · simp [entry, startSoc]
  · have key : (updateBlk 2 (fun k => if k = 0 then (-1 : ℝ) else 0) (fun k => if k = 0 then (1 : ℝ) else 0)).isSome := by
      have r1 : residual (fun k => if k = 0 then (-1 : ℝ) else 0) 2 = 1 := by simp [residual]
      have r2 : residual (fun k => if k = 0 then (1 : ℝ) else 0) 2 = 1 := by simp [residual]
      have sd : safeDiv 1 1 = 1 := by rw [safeDiv_eq _ _ (by norm_num)]; norm_num
      unfold updateBlk
      simp only [r1, r2, Real.sqrt_one, sd]
      rw [if_neg (by norm_num)]
      have hpt : ntPoint 2 (fun i => (if i = 0 then (-1 : ℝ) else 0) * 1) (fun i => (if i = 0 then (1 : ℝ) else 0) * 1) =
          fun _ => 0 := by
        funext i
        unfold ntPoint
        by_cases hi : i = 0 <;> simp [hi]
      rw [hpt]
      unfold ntFinish
      have s1 : safeDiv 0 1 = 0 := by rw [safeDiv_eq _ _ (by norm_num)]; norm_num
      have s3 : safeDiv 2 1 = 2 := by rw [safeDiv_eq _ _ (by norm_num)]; norm_num
      have s4 : safeDiv 1 0 = 1e13 := by rw [safeDiv, if_pos (by norm_num)]; norm_num
      have hsum : ∑ i ∈ Ico 1 2, (0 : ℝ) ^ 2 = 0 := by simp
      simp only [hsum, mul_zero, zero_mul, add_zero, max_self, sub_zero, Real.sqrt_zero, one_pow, s1, s3, s4]
      rw [if_neg (by norm_num)]; rfl
    rw [updateNTScalings, dif_pos]
    · rfl
    · intro ⟨i, hi⟩
      have : i < 1 := hi
      obtain rfl : i = 0 := by omega
      have e : ∀ v : Nat → ℝ, shift v ((Cone.mk 2 0 0 [2]).startSoc 0) = v := fun v => by
        funext j; simp [shift, startSoc]
      simp only [e]
      exact key

/-- C18, second half, the part that holds: the update reports failure as soon as in some second-order cone the slack or the
dual violates `‖tail‖ < |head|`. Missing: points with a negative head (previous theorem) and negative linear entries. -/
theorem C18_outside_partial (c : Cone) (s z o : Nat → ℝ) (i : Nat) (hi : i < c.nsoc)
    (h : c.entry s i 0 ^ 2 ≤ ∑ j ∈ Ico 1 (c.sizeSoc i), c.entry s i j ^ 2 ∨
         c.entry z i 0 ^ 2 ≤ ∑ j ∈ Ico 1 (c.sizeSoc i), c.entry z i j ^ 2) : c.updateNTScalings s z o = none := by
  rw [updateNTScalings, dif_neg]
  intro hall
  have := hall ⟨i, hi⟩
  have e : ∀ v : Nat → ℝ, residual (shift v (c.startSoc i)) (c.sizeSoc i) =
      c.entry v i 0 ^ 2 - ∑ j ∈ Ico 1 (c.sizeSoc i), c.entry v i j ^ 2 := fun v => by
    simp [residual, shift, entry, sq]
  rw [updateBlk] at this
  simp only [e] at this
  rw [if_pos (by rcases h with h | h <;> [left; right] <;> linarith)] at this
  simp at this

example : (Cone.mk 2 0 0 [2]).updateNTScalings (fun _ => 1) (fun _ => 1) (fun _ => 0) = none :=
  C18_outside_partial _ _ _ _ 0 (by decide) (Or.inl (by simp [entry, sizeSoc]))

/-! ### C56: the expanded scaling matrix -/

/-- C56: the expanded (sparse) form of the squared scaling that goes into the linear system is `W²`: for every extended
vector whose two auxiliary entries make the two auxiliary rows vanish, the remaining rows are `W (W x)`; and such auxiliary
entries always exist and are unique. -/
theorem C56_expanded_scaling (c : Cone) (hne : c.NoEmpty) (s z o : Nat → ℝ) (h : c.ScalingDomain s z) :
    ∃ S lam, c.updateNTScalings s z o = some (S, lam) ∧ ∀ i < c.nsoc, ∀ x : Nat → ℝ,
      (∃! p : ℝ × ℝ, scale2Blk (c.sizeSoc i) (S.soc i) (fun k => if k = c.sizeSoc i then p.1 else if k = c.sizeSoc i + 1 then p.2 else x k) (c.sizeSoc i) = 0 ∧
        scale2Blk (c.sizeSoc i) (S.soc i) (fun k => if k = c.sizeSoc i then p.1 else if k = c.sizeSoc i + 1 then p.2 else x k) (c.sizeSoc i + 1) = 0) ∧
      (scale2Blk (c.sizeSoc i) (S.soc i) x (c.sizeSoc i) = 0 → scale2Blk (c.sizeSoc i) (S.soc i) x (c.sizeSoc i + 1) = 0 →
        ∀ j < c.sizeSoc i, scale2Blk (c.sizeSoc i) (S.soc i) x j =
          scaleBlk (c.sizeSoc i) (S.soc i) (scaleBlk (c.sizeSoc i) (S.soc i) x) j) := by
  obtain ⟨S, h1, -, h3⟩ := updateNT_some c hne s z o h
  refine ⟨S, _, h1, fun i hi x => ⟨?_, fun a b j hj => scale2_eliminate _ _ _ _ (h3 i hi) x a b j hj⟩⟩
  set n := c.sizeSoc i with hn
  set t := S.soc i
  have hn0 : 0 < n := hne i hi
  have hp : t.etaSq ≠ 0 := by
    have := (h3 i hi).eta_sq
    have h' := (h3 i hi).eta_pos
    rw [← this]; positivity
  have hsum : ∀ p : ℝ × ℝ, ∑ k ∈ Ico 1 n, t.w k * (if k = n then p.1 else if k = n + 1 then p.2 else x k) =
      ∑ k ∈ Ico 1 n, t.w k * x k := fun p => sum_congr rfl fun k hk => by
    have := (mem_Ico.mp hk).2
    rw [if_neg (by omega), if_neg (by omega)]
  have e1 : ∀ p : ℝ × ℝ, scale2Blk n t (fun k => if k = n then p.1 else if k = n + 1 then p.2 else x k) n =
      t.etaSq * (t.v1 * (∑ k ∈ Ico 1 n, t.w k * x k) + p.1) := fun p => by
    rw [scale2Blk, if_neg (by omega), if_neg (by omega), if_pos rfl, hsum p, if_pos rfl]
  have e2 : ∀ p : ℝ × ℝ, scale2Blk n t (fun k => if k = n then p.1 else if k = n + 1 then p.2 else x k) (n + 1) =
      t.etaSq * (t.u0 * x 0 + t.u1 * (∑ k ∈ Ico 1 n, t.w k * x k) - p.2) := fun p => by
    rw [scale2Blk, if_neg (by omega), if_neg (by omega), if_neg (by omega), hsum p, if_neg (by omega), if_neg (by omega),
      if_neg (by omega), if_pos rfl]
  refine ⟨(-(t.v1 * ∑ k ∈ Ico 1 n, t.w k * x k), t.u0 * x 0 + t.u1 * ∑ k ∈ Ico 1 n, t.w k * x k), ⟨?_, ?_⟩, ?_⟩
  · rw [e1]; simp
  · rw [e2]; simp
  · rintro ⟨p1, p2⟩ ⟨a, b⟩
    rw [e1] at a
    rw [e2] at b
    have a' := (mul_eq_zero.mp a).resolve_left hp
    have b' := (mul_eq_zero.mp b).resolve_left hp
    simp only at a' b'
    exact Prod.ext (by simp only; linarith) (by simp only; linarith)

/-! ### C19: views -/

/-- C19 is false of the code: the read-only `s()` and `z()` are exchanged whenever there is at least one cone row. -/
theorem C19_violated (c : Cone) (h : 0 < c.sizecone) : c.vSc ≠ c.vS ∧ c.vZc ≠ c.vZ ∧ c.vSc = c.vZ ∧ c.vZc = c.vS := by
  refine ⟨fun e => ?_, fun e => ?_, rfl, rfl⟩
  · have := congrArg View.start e
    simp only [vSc, vS, lpconestart, sizeproblem, sizeconstraints] at this; omega
  · have := congrArg View.start e
    simp only [vZc, vZ, lpconestart, sizeproblem, sizeconstraints] at this; omega

example : 0 < (Cone.mk 4 1 2 [3, 1]).sizecone := by decide

/-- C19, what holds: the read-only views of x, y, tau, kappa are the mutable ones; the six mutable views are pairwise
disjoint, lie inside the vector and together cover it. Missing: s and z. -/
theorem C19_views_partial (c : Cone) :
    c.vXc = c.vX ∧ c.vYc = c.vY ∧ c.vTauc = c.vTau ∧ c.vKappac = c.vKappa ∧
    (∀ v ∈ [c.vX, c.vY, c.vZ, c.vTau, c.vKappa, c.vS], v.start + v.len ≤ c.optVecSize) ∧
    ∀ k < c.optVecSize, ∃ i < 6, ∀ i' < 6, ((([c.vX, c.vY, c.vZ, c.vTau, c.vKappa, c.vS].getD i' c.vX).start ≤ k ∧
      k < ([c.vX, c.vY, c.vZ, c.vTau, c.vKappa, c.vS].getD i' c.vX).start +
        ([c.vX, c.vY, c.vZ, c.vTau, c.vKappa, c.vS].getD i' c.vX).len) ↔ i' = i) := by
  refine ⟨rfl, rfl, rfl, rfl, ?_, fun k hk => ?_⟩
  · simp only [List.mem_cons, List.not_mem_nil, or_false, forall_eq_or_imp, forall_eq, vX, vY, vZ, vTau, vKappa, vS, optVecSize,
      sizeproblem, sizeconstraints, lpconestart, sizecone]
    omega
  · have key : ∀ i, i < 6 → ((([c.vX, c.vY, c.vZ, c.vTau, c.vKappa, c.vS].getD i c.vX).start ≤ k ∧
        k < ([c.vX, c.vY, c.vZ, c.vTau, c.vKappa, c.vS].getD i c.vX).start +
          ([c.vX, c.vY, c.vZ, c.vTau, c.vKappa, c.vS].getD i c.vX).len)) →
        ∀ i' < 6, ((([c.vX, c.vY, c.vZ, c.vTau, c.vKappa, c.vS].getD i' c.vX).start ≤ k ∧
      k < ([c.vX, c.vY, c.vZ, c.vTau, c.vKappa, c.vS].getD i' c.vX).start +
        ([c.vX, c.vY, c.vZ, c.vTau, c.vKappa, c.vS].getD i' c.vX).len) ↔ i' = i) := by
      intro i hi hk i' hi'
      refine ⟨fun h => ?_, fun h => h ▸ hk⟩
      interval_cases i <;> interval_cases i' <;>
        simp [vX, vY, vZ, vTau, vKappa, vS, sizeproblem, sizeconstraints, lpconestart, sizecone] at hk h ⊢ <;> omega
    simp only [optVecSize, sizeproblem, sizeconstraints, sizecone] at hk
    by_cases h0 : k < c.nvars
    · exact ⟨0, by omega, key 0 (by omega) (by simp [vX]; omega)⟩
    by_cases h1 : k < c.nvars + c.neq
    · exact ⟨1, by omega, key 1 (by omega) (by simp [vY]; omega)⟩
    by_cases h2 : k < c.nvars + c.neq + (c.nineq + c.ssoc)
    · exact ⟨2, by omega, key 2 (by omega) (by simp [vZ, lpconestart, sizecone]; omega)⟩
    by_cases h3 : k < c.nvars + (c.neq + (c.nineq + c.ssoc)) + 1
    · exact ⟨3, by omega, key 3 (by omega) (by simp [vTau, sizeproblem, sizeconstraints, sizecone]; omega)⟩
    by_cases h4 : k < c.nvars + (c.neq + (c.nineq + c.ssoc)) + 2
    · exact ⟨4, by omega, key 4 (by omega) (by simp [vKappa, sizeproblem, sizeconstraints, sizecone]; omega)⟩
    · exact ⟨5, by omega, key 5 (by omega) (by simp [vS, sizeproblem, sizeconstraints, sizecone]; omega)⟩

end Cone
end Verif
