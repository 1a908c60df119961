import Verif.LdlNum

/-! All passes of `factorize`, and the triangular solves. -/
namespace Verif
namespace Ldl
open Function

/-- Entry `(i, j)`, `i ≤ j`, of the upper triangle as stored. -/
noncomputable def ent (A : Cols) (i j : Nat) : ℝ := rowSum (A j) i

/-- Entry `(i, j)` of the unit lower triangular factor. -/
noncomputable def lf (lp : Nat → Nat) (s : Num) (i j : Nat) : ℝ := if i = j then 1 else rowSum (colOf lp s j) i

/-- Along one path the smaller node comes first. -/
theorem reach_linear {n : Nat} {par : Nat → Option Nat} (hg : Good n par) {e i r : Nat} (he : e < n) (hi : Reach par e i) (hr : Reach par e r)
    (hir : i ≤ r) : Reach par i r := by
  induction hi using Relation.ReflTransGen.head_induction_on with
  | refl => exact hr
  | @head a b hab hbi ih =>
    have hb := hg a he b hab
    rcases Relation.ReflTransGen.cases_head hr with h | ⟨c, hac, hcr⟩
    · have := (reach_le hg hb.2 hbi).1; omega
    · rw [hab] at hac; cases hac
      exact ih hb.2 hcr

open Classical in
/-- What holds before pass `k`. -/
structure NumInv (A : Cols) (par : Nat → Option Nat) (cnt : Nat → Nat) (eps delta : ℝ) (sign : Nat → ℝ) (k : Nat) (s : Num) : Prop where
  zero : ∀ i < k, s.y i = 0
  flag : ∀ i < k, s.flag i < k
  rows : ∀ i < k, ∀ e ∈ colOf (outer cnt) s i, e.1 < k ∧ i < e.1 ∧ Reach par i e.1
  lnnz : ∀ i < k, s.lnnz i = ((Finset.range k).filter fun k' => InRow A par k' i).card
  off : ∀ c < k, ∀ i < c, ent A i c = ∑ m ∈ Finset.range c, lf (outer cnt) s i m * (s.d m * lf (outer cnt) s c m)
  diag : ∀ c < k, s.d c = regularize eps delta (sign c)
    (ent A c c - ∑ m ∈ Finset.range c, lf (outer cnt) s c m * (s.d m * lf (outer cnt) s c m))

theorem regularize_ne_zero {eps delta sign d : ℝ} (heps : 0 ≤ eps) (hdelta : delta ≠ 0) (hsign : sign ≠ 0) : regularize eps delta sign d ≠ 0 := by
  unfold regularize
  split
  · exact mul_ne_zero hsign hdelta
  · intro h; rename_i h1; rw [h, mul_zero] at h1; exact h1 heps

theorem NumInv.lf_zero {A : Cols} {par : Nat → Option Nat} {cnt : Nat → Nat} {eps delta : ℝ} {sign : Nat → ℝ} {k : Nat} {s : Num}
    (h : NumInv A par cnt eps delta sign k s) {i j : Nat} (hj : j < k) (hij : i < j) : lf (outer cnt) s i j = 0 := by
  rw [lf, if_neg (by omega)]
  apply rowSum_eq_zero
  intro e he h1
  have := h.rows j hj e he
  omega

theorem numStep_spec (n : Nat) (A : Cols) (hA : Upper n A) (par : Nat → Option Nat) (hg : Good n par)
    (hreach : ∀ k' < n, ∀ e ∈ A k', Reach par e.1 k') (cnt : Nat → Nat)
    (hcnt : by classical exact ∀ i < n, cnt i = ((Finset.range n).filter fun k' => InRow A par k' i).card)
    (eps delta : ℝ) (sign : Nat → ℝ) (heps : 0 ≤ eps) (hdelta : delta ≠ 0) (hsign : ∀ i < n, sign i ≠ 0) (k : Nat) (hk : k < n) (s : Num)
    (w : NumInv A par cnt eps delta sign k s) :
    ∃ s', numStep n A par (outer cnt) eps delta sign k s = some s' ∧ NumInv A par cnt eps delta sign (k + 1) s' := by
  classical
  have hA1 := hA k hk
  have hnk : ∀ i < k, i ≠ k := fun i hi => by omega
  set s0 : Num := { s with y := update s.y k 0, lnnz := update s.lnnz k 0, flag := update s.flag k k } with hs0
  obtain ⟨T, s1, t1, t2, t3, t4, t5, t6, -, t8, t9, t10, t11, t12, t13⟩ := scatter_spec n par hg k hk (A k)
    (fun e he => ⟨hA1.1 e he, hreach k hk e he⟩) [] s0 trivial (by simp [slice]) (by simp [hs0])
    (by
      intro i hi
      have := w.flag i hi
      simp only [hs0, update_of_ne (hnk i hi), List.not_mem_nil, iff_false]
      omega)
    (by
      intro i hi
      simp only [hs0, update_of_ne (hnk i hi)]
      exact (w.flag i hi).le)
  set s2 : Num := { s1 with d := update s1.d k (s1.y k), y := update s1.y k 0 } with hs2
  -- the work vector holds column `k`
  have hy1 : ∀ i ≤ k, s1.y i = ent A i k := by
    intro i hi
    rw [t9, load_spec _ hA1.2]
    split
    · rfl
    · rename_i hm
      have h0 : s0.y i = 0 := by
        simp only [hs0]
        rcases hi.lt_or_eq with h | h
        · rw [update_of_ne (hnk i h)]; exact w.zero i h
        · rw [h, update_self]
      rw [h0, ent, rowSum_eq_zero]
      intro e he h
      exact hm (List.mem_map.2 ⟨e, he, h⟩)
  have hcol2 : ∀ i < k, colOf (outer cnt) s2 i = colOf (outer cnt) s i := by
    intro i hi
    unfold colOf
    have e1 : s2.lnnz i = s.lnnz i := by simp only [hs2, t11, hs0, update_of_ne (hnk i hi)]
    have e2 : s2.li = s.li := by simp only [hs2, t12, hs0]
    have e3 : s2.lx = s.lx := by simp only [hs2, t13, hs0]
    rw [e1, e2, e3]
  have hln2 : ∀ i < k, s2.lnnz i = s.lnnz i := by
    intro i hi; simp only [hs2, t11, hs0, update_of_ne (hnk i hi)]
  have hlnk : s2.lnnz k = 0 := by simp only [hs2, t11, hs0, update_self]
  have hd2 : ∀ i < k, s2.d i = s.d i := by
    intro i hi; simp only [hs2, t10, hs0, update_of_ne (hnk i hi)]
  have hd2k : s2.d k = ent A k k := by simp only [hs2, update_self]; exact hy1 k le_rfl
  -- the pattern is the row pattern
  have hTiff : ∀ i < k, i ∈ T ↔ InRow A par k i := by
    intro i hi
    constructor
    · intro h
      rcases t8 i h with h | ⟨e, he, hr⟩
      · simp at h
      · exact ⟨hi, e, he, hr⟩
    · rintro ⟨-, e, he, hr⟩
      rcases t6 e he with h | h
      · have := (reach_le hg (by rw [h]; exact hk) hr).1; omega
      · exact t2.closed hg hk h hr hi
  have hle : ∀ i < k, s.lnnz i ≤ cnt i := by
    intro i hi
    rw [w.lnnz i hi, hcnt i (by omega)]
    apply Finset.card_le_card
    apply Finset.filter_subset_filter
    exact Finset.range_subset_range.2 hk.le
  have hlt : ∀ i ∈ T, s.lnnz i < cnt i := by
    intro i hi
    have hik := t2.lt i hi
    rw [w.lnnz i hik, hcnt i (by omega)]
    apply Finset.card_lt_card
    rw [Finset.ssubset_iff_of_subset]
    · refine ⟨k, ?_, ?_⟩
      · exact Finset.mem_filter.2 ⟨Finset.mem_range.2 hk, (hTiff i hik).1 hi⟩
      · simp
    · apply Finset.filter_subset_filter
      exact Finset.range_subset_range.2 hk.le
  obtain ⟨y, b1, b2, b3, b4, b5, b6, b7⟩ := elim_fold n par hg cnt k hk T s2 t2
    (by
      intro j hj e he
      rw [hcol2 j (t2.lt j hj)] at he
      exact w.rows j (t2.lt j hj) e he)
    (by intro j hj; rw [hln2 j hj]; exact hle j hj)
    (by intro j hj; rw [hln2 j (t2.lt j hj)]; exact hlt j hj)
  set s3 := T.foldl (elim (outer cnt) k) s2 with hs3
  have hlen := t2.length_le
  have htop : n - (n - T.length) = T.length := by omega
  refine ⟨{ s3 with d := update s3.d k (regularize eps delta (sign k) (s3.d k)) }, ?_, ?_⟩
  · rw [numStep]
    simp only [List.length_nil, Nat.sub_zero] at t1
    rw [t1]
    simp only [Option.bind_eq_bind, Option.bind_some]
    rw [htop]
    have e1 : slice s2.pat (n - T.length) T.length = T := t3
    rw [e1]
  set s' : Num := { s3 with d := update s3.d k (regularize eps delta (sign k) (s3.d k)) } with hs'
  have hkT : k ∉ T := fun h => by have := t2.lt k h; omega
  have hd' : ∀ i < k, s'.d i = s.d i := by
    intro i hi
    simp only [hs', update_of_ne (hnk i hi), b4]
    exact hd2 i hi
  have hdne : ∀ i < k, s.d i ≠ 0 := by
    intro i hi
    rw [w.diag i hi]
    exact regularize_ne_zero heps hdelta (hsign i (by omega))
  have hcol' : ∀ j < k, colOf (outer cnt) s' j = colOf (outer cnt) s j ++ if j ∈ T then [(k, y j / s.d j)] else [] := by
    intro j hj
    have : colOf (outer cnt) s' j = colOf (outer cnt) s3 j := rfl
    rw [this, b5 j hj, hcol2 j hj, hd2 j hj]
  have hcolk : colOf (outer cnt) s' k = [] := by
    have : s'.lnnz k = 0 := by
      have := b6 k
      rw [hlnk, if_neg hkT] at this
      exact this
    rw [colOf, this]; rfl
  have hold : ∀ i < k, ∀ m < k, lf (outer cnt) s' i m = lf (outer cnt) s i m := by
    intro i hi m hm
    rw [lf, lf, hcol' m hm, rowSum_append]
    have : rowSum (if m ∈ T then [(k, y m / s.d m)] else []) i = 0 := by
      apply rowSum_eq_zero
      intro e he
      split at he
      · simp only [List.mem_singleton] at he; rw [he]; simp only; omega
      · simp at he
    rw [this, add_zero]
  have hnew : ∀ m < k, lf (outer cnt) s' k m = y m / s.d m := by
    intro m hm
    rw [lf, if_neg (by omega), hcol' m hm, rowSum_append]
    have : rowSum (colOf (outer cnt) s m) k = 0 := by
      apply rowSum_eq_zero
      intro e he h
      have := (w.rows m hm e he).1; omega
    rw [this, zero_add]
    split
    · simp [rowSum]
    · rename_i h; rw [b1 m h]; simp [rowSum]
  have hDL : ∀ m < k, s.d m * lf (outer cnt) s' k m = y m := by
    intro m hm
    rw [hnew m hm]
    field_simp [hdne m hm]
  have hcolumn : ∀ i < k, ent A i k = y i + ∑ j ∈ Finset.range k, rowSum (colOf (outer cnt) s j) i * y j := by
    intro i hi
    by_cases hiT : i ∈ T
    · have h1 := b2 i hiT
      have h2 : s2.y i = ent A i k := by
        simp only [hs2, update_of_ne (hnk i hi)]; exact hy1 i hi.le
      rw [h2] at h1
      rw [h1]
      congr 1
      apply Finset.sum_congr rfl
      intro j hj
      rw [hcol2 j (Finset.mem_range.1 hj)]
    · rw [b1 i hiT]
      have h1 : ent A i k = 0 := by
        apply rowSum_eq_zero
        intro e he h
        rcases t6 e he with h' | h'
        · omega
        · exact hiT (h ▸ h')
      rw [h1, Finset.sum_eq_zero, add_zero]
      intro j hj
      by_cases hjT : j ∈ T
      · rw [rowSum_eq_zero, zero_mul]
        intro e he h
        have := w.rows j (Finset.mem_range.1 hj) e he
        exact hiT (h ▸ t2.closed hg hk hjT this.2.2 this.1)
      · rw [b1 j hjT, mul_zero]
  refine ⟨?_, ?_, ?_, ?_, ?_, ?_⟩
  · intro i hi
    show s3.y i = 0
    rw [b3]
    rcases Nat.lt_succ_iff_lt_or_eq.1 hi with h | h
    · split
      · rfl
      · rename_i hiT
        have h2 : s2.y i = ent A i k := by
          simp only [hs2, update_of_ne (hnk i h)]; exact hy1 i h.le
        rw [h2]
        apply rowSum_eq_zero
        intro e he h'
        rcases t6 e he with h3 | h3
        · omega
        · exact hiT (h' ▸ h3)
    · subst h
      rw [if_neg hkT]
      simp only [hs2, update_self]
  · intro i hi
    show s3.flag i < _
    rw [b7]
    have : s2.flag = s1.flag := rfl
    rw [this]
    rcases Nat.lt_succ_iff_lt_or_eq.1 hi with h | h
    · have := t5 i h; push_cast; omega
    · rw [h, t4]; push_cast; omega
  · intro i hi e he
    rcases Nat.lt_succ_iff_lt_or_eq.1 hi with h | h
    · rw [hcol' i h] at he
      rcases List.mem_append.1 he with he | he
      · have := w.rows i h e he
        exact ⟨by omega, this.2⟩
      · split at he
        · rename_i hiT
          simp only [List.mem_singleton] at he
          subst he
          refine ⟨by simp, h, ?_⟩
          obtain ⟨-, e0, he0, hr0⟩ := (hTiff i h).1 hiT
          have := hA1.1 e0 he0
          exact reach_linear hg (by omega) hr0 (hreach k hk e0 he0) h.le
        · simp at he
    · subst h; rw [hcolk] at he; simp at he
  · intro i hi
    show s3.lnnz i = _
    rw [b6, Finset.range_add_one, Finset.filter_insert]
    rcases Nat.lt_succ_iff_lt_or_eq.1 hi with h | h
    · rw [hln2 i h, w.lnnz i h]
      by_cases hiT : i ∈ T
      · rw [if_pos hiT, if_pos ((hTiff i h).1 hiT), Finset.card_insert_of_notMem (by simp)]
      · rw [if_neg hiT, if_neg fun h' => hiT ((hTiff i h).2 h')]; rfl
    · subst h
      rw [hlnk, if_neg hkT, if_neg (fun h => absurd h.1 (lt_irrefl _))]
      symm
      rw [Nat.add_zero, Finset.card_eq_zero, Finset.filter_eq_empty_iff]
      intro k' hk' h
      have := Finset.mem_range.1 hk'
      have := h.1
      omega
  · intro c hc i hi
    rcases Nat.lt_succ_iff_lt_or_eq.1 hc with h | h
    · rw [w.off c h i hi]
      apply Finset.sum_congr rfl
      intro m hm
      have := Finset.mem_range.1 hm
      rw [hold i (by omega) m (by omega), hold c h m (by omega), hd' m (by omega)]
    · subst h
      rw [hcolumn i hi]
      have e1 : ∀ m ∈ Finset.range c, lf (outer cnt) s' i m * (s'.d m * lf (outer cnt) s' c m) =
          (if m = i then y i else 0) + rowSum (colOf (outer cnt) s m) i * y m := by
        intro m hm
        have hm' := Finset.mem_range.1 hm
        rw [hold i hi m hm', hd' m hm', hDL m hm', lf]
        by_cases h : i = m
        · subst h
          rw [if_pos rfl, if_pos rfl, rowSum_eq_zero, one_mul, zero_mul, add_zero]
          intro e he h
          have := (w.rows i hm' e he).2.1; omega
        · rw [if_neg h, if_neg (Ne.symm h), zero_add]
      rw [Finset.sum_congr rfl e1, Finset.sum_add_distrib, Finset.sum_ite_eq' (Finset.range c) i, if_pos (Finset.mem_range.2 hi)]
  · intro c hc
    rcases Nat.lt_succ_iff_lt_or_eq.1 hc with h | h
    · rw [hd' c h, w.diag c h]
      congr 2
      apply Finset.sum_congr rfl
      intro m hm
      have := Finset.mem_range.1 hm
      rw [hold c h m (by omega), hd' m (by omega)]
    · subst h
      have e1 : s'.d c = regularize eps delta (sign c) (s3.d c) := by simp only [hs', update_self]
      rw [e1, b4, update_self, hd2k]
      congr 2
      apply Finset.sum_congr rfl
      intro m hm
      have hm' := Finset.mem_range.1 hm
      rw [hd' m hm', hDL m hm', hnew m hm', hd2 m hm']

/-- `factorize` after `analyzePattern` never fails, whatever the arrays held before. -/
theorem factorize_spec (n : Nat) (A : Cols) (hA : Upper n A) (t : Sym) (ht : SymInv A n t) (eps delta : ℝ) (sign : Nat → ℝ) (heps : 0 ≤ eps)
    (hdelta : delta ≠ 0) (hsign : ∀ i < n, sign i ≠ 0) (s : Num) :
    ∃ s', factorize n A t.parent (outer t.lnnz) eps delta sign s = some s' ∧ NumInv A t.parent t.lnnz eps delta sign n s' := by
  have key : ∀ k, k ≤ n → ∃ s', numLoop n A t.parent (outer t.lnnz) eps delta sign k s = some s' ∧
      NumInv A t.parent t.lnnz eps delta sign k s' := by
    intro k hk
    induction k with
    | zero =>
      exact ⟨s, rfl, ⟨fun i h => by omega, fun i h => by omega, fun i h => by omega, fun i h => by omega, fun i h => by omega,
        fun i h => by omega⟩⟩
    | succ k ih =>
      obtain ⟨s1, h1, h2⟩ := ih (by omega)
      obtain ⟨s2, h3, h4⟩ := numStep_spec n A hA t.parent ht.good ht.reach t.lnnz ht.cnt eps delta sign heps hdelta hsign k (by omega) s1 h2
      exact ⟨s2, by rw [numLoop, h1]; exact h3, h4⟩
  exact key n le_rfl

/-! ### the triangular solves -/

/-- Both phases agree on the sizes of the columns, so that `solve` reads exactly what `factorize` wrote. -/
theorem full_col {n : Nat} {A : Cols} {t : Sym} (ht : SymInv A n t) {eps delta : ℝ} {sign : Nat → ℝ} {s : Num}
    (w : NumInv A t.parent t.lnnz eps delta sign n s) {j : Nat} (hj : j < n) :
    outer t.lnnz (j + 1) - outer t.lnnz j = s.lnnz j := by
  have : outer t.lnnz (j + 1) = outer t.lnnz j + t.lnnz j := rfl
  rw [this, w.lnnz j hj, ht.cnt j hj]; omega

theorem fwdCol_eq {n : Nat} {A : Cols} {t : Sym} (ht : SymInv A n t) {eps delta : ℝ} {sign : Nat → ℝ} {s : Num}
    (w : NumInv A t.parent t.lnnz eps delta sign n s) {j : Nat} (hj : j < n) (x : Nat → ℝ) (r : Nat) :
    fwdCol (outer t.lnnz) s x j r = x r - rowSum (colOf (outer t.lnnz) s j) r * x j := by
  have key : ∀ (l : List (Nat × ℝ)) (x : Nat → ℝ), (∀ e ∈ l, e.1 ≠ j) →
      l.foldl (fun x e => update x e.1 (x e.1 - e.2 * x j)) x r = x r - rowSum l r * x j := by
    intro l
    induction l with
    | nil => intro x _; simp [rowSum_nil]
    | cons e l ih =>
      intro x h
      have he := h e (by simp)
      rw [List.foldl_cons, ih _ fun e he => h e (List.mem_cons_of_mem _ he), rowSum_cons, update_of_ne (Ne.symm he)]
      by_cases her : e.1 = r
      · subst her; rw [update_self, if_pos rfl]; ring
      · rw [update_of_ne (Ne.symm her), if_neg her]; ring
  have h1 : fwdCol (outer t.lnnz) s x j = (colOf (outer t.lnnz) s j).foldl (fun x e => update x e.1 (x e.1 - e.2 * x j)) x := by
    rw [colOf, slice, List.foldl_map, fwdCol, full_col ht w hj]
  rw [h1, key _ _ fun e he h => by have := (w.rows j hj e he).2.1; omega]

theorem bwdCol_eq {n : Nat} {A : Cols} {t : Sym} (ht : SymInv A n t) {eps delta : ℝ} {sign : Nat → ℝ} {s : Num}
    (w : NumInv A t.parent t.lnnz eps delta sign n s) {j : Nat} (hj : j < n) (x : Nat → ℝ) :
    bwdCol (outer t.lnnz) s x j = update x j (x j - ∑ m ∈ Finset.range n, rowSum (colOf (outer t.lnnz) s j) m * x m) := by
  have key : ∀ (l : List (Nat × ℝ)) (x : Nat → ℝ), (∀ e ∈ l, e.1 ≠ j ∧ e.1 < n) →
      l.foldl (fun x e => update x j (x j - e.2 * x e.1)) x = update x j (x j - ∑ m ∈ Finset.range n, rowSum l m * x m) := by
    intro l
    induction l with
    | nil => intro x _; simp [rowSum_nil]
    | cons e l ih =>
      intro x h
      have he := h e (by simp)
      have hl : ∀ e ∈ l, e.1 ≠ j ∧ e.1 < n := fun e he => h e (List.mem_cons_of_mem _ he)
      rw [List.foldl_cons, ih _ hl, update_idem, update_self]
      congr 1
      have h1 : ∑ m ∈ Finset.range n, rowSum l m * update x j (x j - e.2 * x e.1) m = ∑ m ∈ Finset.range n, rowSum l m * x m := by
        apply Finset.sum_congr rfl
        intro m _
        by_cases hm : m = j
        · subst hm
          rw [rowSum_eq_zero fun e he h => (hl e he).1 h, zero_mul, zero_mul]
        · rw [update_of_ne hm]
      have h2 : ∑ m ∈ Finset.range n, rowSum (e :: l) m * x m = e.2 * x e.1 + ∑ m ∈ Finset.range n, rowSum l m * x m := by
        simp only [rowSum_cons, add_mul, Finset.sum_add_distrib, ite_mul, zero_mul]
        rw [Finset.sum_ite_eq (Finset.range n) e.1, if_pos (Finset.mem_range.2 he.2)]
      rw [h1, h2]; ring
  have h1 : bwdCol (outer t.lnnz) s x j = (colOf (outer t.lnnz) s j).foldl (fun x e => update x j (x j - e.2 * x e.1)) x := by
    rw [colOf, slice, List.foldl_map, bwdCol, full_col ht w hj]
  rw [h1, key _ _ fun e he => by have := w.rows j hj e he; omega]

/-- The forward substitution solves with the lower triangular factor. -/
theorem fwd_spec {n : Nat} {A : Cols} {t : Sym} (ht : SymInv A n t) {eps delta : ℝ} {sign : Nat → ℝ} {s : Num}
    (w : NumInv A t.parent t.lnnz eps delta sign n s) (b : Nat → ℝ) (i : Nat) (hi : i < n) :
    ∑ j ∈ Finset.range n, lf (outer t.lnnz) s i j * (List.range n).foldl (fwdCol (outer t.lnnz) s) b j = b i := by
  set L := lf (outer t.lnnz) s with hL
  -- after `m` columns
  have key : ∀ m ≤ n, ∀ i < n, (∑ j ∈ Finset.range m, (if i = j then 0 else L i j) *
      (List.range m).foldl (fwdCol (outer t.lnnz) s) b j) + (List.range m).foldl (fwdCol (outer t.lnnz) s) b i = b i := by
    intro m hm
    induction m with
    | zero => simp
    | succ m ih =>
      intro i hi
      have hmn : m < n := by omega
      rw [List.range_succ, List.foldl_append, List.foldl_cons, List.foldl_nil]
      set X := (List.range m).foldl (fwdCol (outer t.lnnz) s) b with hX
      have hcol : ∀ r, fwdCol (outer t.lnnz) s X m r = X r - rowSum (colOf (outer t.lnnz) s m) r * X m := fun r => fwdCol_eq ht w hmn X r
      have hlow : ∀ r ≤ m, fwdCol (outer t.lnnz) s X m r = X r := by
        intro r hr
        rw [hcol, rowSum_eq_zero, zero_mul, sub_zero]
        intro e he h
        have := (w.rows m hmn e he).2.1; omega
      rw [Finset.sum_range_succ, hlow m le_rfl]
      have h1 : ∑ j ∈ Finset.range m, (if i = j then 0 else L i j) * fwdCol (outer t.lnnz) s X m j =
          ∑ j ∈ Finset.range m, (if i = j then 0 else L i j) * X j := by
        apply Finset.sum_congr rfl
        intro j hj
        rw [hlow j (Finset.mem_range.1 hj).le]
      rw [h1, hcol i]
      have h2 := ih (by omega) i hi
      by_cases him : i = m
      · subst him
        rw [if_pos rfl, rowSum_eq_zero]
        · linarith
        · intro e he h
          have := (w.rows i hmn e he).2.1; omega
      · rw [if_neg him]
        have : L i m = rowSum (colOf (outer t.lnnz) s m) i := by rw [hL, lf, if_neg him]
        rw [this]; linarith
  have h := key n le_rfl i hi
  rw [← h]
  set X := (List.range n).foldl (fwdCol (outer t.lnnz) s) b
  have : ∀ j ∈ Finset.range n, L i j * X j = (if i = j then 0 else L i j) * X j + if j = i then X i else 0 := by
    intro j _
    by_cases hij : i = j
    · subst hij; simp [hL, lf]
    · rw [if_neg hij, if_neg (Ne.symm hij), add_zero]
  rw [Finset.sum_congr rfl this, Finset.sum_add_distrib, Finset.sum_ite_eq' (Finset.range n) i, if_pos (Finset.mem_range.2 hi)]

theorem div_spec (n : Nat) (d x : Nat → ℝ) (i : Nat) :
    (List.range n).foldl (fun x j => update x j (x j / d j)) x i = if i < n then x i / d i else x i := by
  induction n with
  | zero => simp
  | succ n ih =>
    rw [List.range_succ, List.foldl_append, List.foldl_cons, List.foldl_nil]
    by_cases h : i = n
    · subst h
      rw [update_self]
      have : (List.range i).foldl (fun x j => update x j (x j / d j)) x i = x i := by
        rw [ih, if_neg (lt_irrefl _)]
      rw [this, if_pos (by omega)]
    · rw [update_of_ne h, ih]
      by_cases h1 : i < n
      · rw [if_pos h1, if_pos (by omega)]
      · rw [if_neg h1, if_neg (by omega)]

/-- The backward substitution solves with the transposed factor. -/
theorem bwd_spec {n : Nat} {A : Cols} {t : Sym} (ht : SymInv A n t) {eps delta : ℝ} {sign : Nat → ℝ} {s : Num}
    (w : NumInv A t.parent t.lnnz eps delta sign n s) (b : Nat → ℝ) (j : Nat) (hj : j < n) :
    ∑ i ∈ Finset.range n, lf (outer t.lnnz) s i j * (List.range n).reverse.foldl (bwdCol (outer t.lnnz) s) b i = b j := by
  -- the columns from `n - 1` down to `m` have been treated
  have key : ∀ m ≤ n, ∀ x : Nat → ℝ,
      (∀ j < n, m ≤ j → x j + ∑ i ∈ Finset.range n, rowSum (colOf (outer t.lnnz) s j) i * x i = b j) → (∀ j < m, x j = b j) →
      ∀ j < n, (List.range m).reverse.foldl (bwdCol (outer t.lnnz) s) x j + ∑ i ∈ Finset.range n, rowSum (colOf (outer t.lnnz) s j) i *
        (List.range m).reverse.foldl (bwdCol (outer t.lnnz) s) x i = b j := by
    intro m
    induction m with
    | zero => intro _ x h1 _ j hj; exact h1 j hj (by omega)
    | succ m ih =>
      intro hm x h1 h2 j hj
      rw [List.range_succ, List.reverse_append, List.reverse_cons, List.reverse_nil, List.nil_append, List.singleton_append, List.foldl_cons]
      have hmn : m < n := by omega
      rw [bwdCol_eq ht w hmn]
      have hdiag : ∀ j < n, m ≤ j → rowSum (colOf (outer t.lnnz) s j) m = 0 := by
        intro j hj hmj
        apply rowSum_eq_zero
        intro e he h
        have := (w.rows j hj e he).2.1; omega
      have hsame : ∀ j < n, m ≤ j → ∀ v, ∑ i ∈ Finset.range n, rowSum (colOf (outer t.lnnz) s j) i * update x m v i =
          ∑ i ∈ Finset.range n, rowSum (colOf (outer t.lnnz) s j) i * x i := by
        intro j hj hmj v
        apply Finset.sum_congr rfl
        intro i _
        by_cases him : i = m
        · subst him; rw [hdiag j hj hmj, zero_mul, zero_mul]
        · rw [update_of_ne him]
      refine ih (by omega) _ ?_ ?_ j hj
      · intro j hj hmj
        rw [hsame j hj hmj]
        by_cases hjm : j = m
        · subst hjm; rw [update_self, h2 j (by omega)]; ring
        · rw [update_of_ne hjm]; exact h1 j hj (by omega)
      · intro j hj
        rw [update_of_ne (by omega)]; exact h2 j (by omega)
  have h := key n le_rfl b (fun j h1 h2 => by omega) (fun _ _ => rfl) j hj
  rw [← h]
  set X := (List.range n).reverse.foldl (bwdCol (outer t.lnnz) s) b
  have : ∀ i ∈ Finset.range n, lf (outer t.lnnz) s i j * X i = rowSum (colOf (outer t.lnnz) s j) i * X i + if i = j then X j else 0 := by
    intro i _
    by_cases hij : i = j
    · subst hij
      rw [lf, if_pos rfl, if_pos rfl, rowSum_eq_zero, one_mul, zero_mul, zero_add]
      intro e he h
      have := (w.rows i hj e he).2.1; omega
    · rw [lf, if_neg hij, if_neg hij, add_zero]
  rw [Finset.sum_congr rfl this, Finset.sum_add_distrib, Finset.sum_ite_eq' (Finset.range n) j, if_pos (Finset.mem_range.2 hj)]
  ring

end Ldl
end Verif
