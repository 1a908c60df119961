import Verif.LinBuild
import Verif.LdlProps
import Verif.IPExitProps

/-! The operator stored in the permuted matrix of `LinSolver`. -/
namespace Verif
namespace Lin
open Function Cone Equil Finset

/-! ### transposes -/

theorem short_pairwise : ∀ l : List (Nat × ℝ), l.length ≤ 1 → l.Pairwise fun a b => a.1 < b.1
  | [], _ => List.Pairwise.nil
  | [a], _ => List.pairwise_singleton _ _
  | a :: b :: l, h => by simp at h

theorem transpose_rows (r : Nat) : ∀ (M : Sp) (k : Nat), (∀ col ∈ M, (col.map Prod.fst).Nodup) →
    (((M.zipIdx k).flatMap fun cj => (cj.1.filter fun t => t.1 = r).map fun t => (cj.2, t.2)).Pairwise fun a b => a.1 < b.1) ∧
    ∀ e ∈ (M.zipIdx k).flatMap (fun cj => (cj.1.filter fun t => t.1 = r).map fun t => (cj.2, t.2)), k ≤ e.1 ∧ e.1 < k + M.length
  | [], k, _ => by simp
  | col :: M, k, h => by
    have ih := transpose_rows r M (k + 1) fun c hc => h c (by simp [hc])
    have hcol := h col (by simp)
    have h1 : ((col.filter fun t => t.1 = r).map fun t => ((k : Nat), t.2)).length ≤ 1 := by
      rw [List.length_map]
      have hnd : ((col.filter fun t => t.1 = r).map Prod.fst).Nodup := hcol.sublist ((List.filter_sublist).map _)
      have hall : ∀ a ∈ (col.filter fun t => t.1 = r).map Prod.fst, a = r := by
        intro a ha
        obtain ⟨t, ht, rfl⟩ := List.mem_map.1 ha
        simpa using (List.mem_filter.1 ht).2
      have := (List.nodup_iff_count_le_one.1 hnd) r
      rw [List.count_eq_length.2 fun b hb => (hall b hb).symm, List.length_map] at this
      exact this
    rw [List.zipIdx_cons, List.flatMap_cons]
    refine ⟨List.pairwise_append.2 ⟨?_, ih.1, ?_⟩, ?_⟩
    · exact short_pairwise _ h1
    · intro a ha b hb
      obtain ⟨t, _, rfl⟩ := List.mem_map.1 ha
      have := (ih.2 b hb).1
      show k < b.1
      omega
    · intro e he
      rw [List.length_cons]
      rcases List.mem_append.1 he with he | he
      · obtain ⟨t, _, rfl⟩ := List.mem_map.1 he
        exact ⟨le_rfl, by show k < _; omega⟩
      · have := ih.2 e he; omega

theorem transpose_sorted (m : Nat) (M : Sp) (h : ∀ col ∈ M, (col.map Prod.fst).Nodup) : Sorted M.length (IP.transpose m M) := by
  intro col hc
  rw [IP.transpose, List.mem_map] at hc
  obtain ⟨r, _, rfl⟩ := hc
  have := transpose_rows r M 0 h
  exact ⟨this.1, fun e he => by have := (this.2 e he).2; omega⟩

theorem transpose_length (m : Nat) (M : Sp) : (IP.transpose m M).length = m := by simp [IP.transpose]

theorem actT_transpose (m : Nat) (M : Sp) (x : Nat → ℝ) (r : Nat) (hr : r < m) : actT (IP.transpose m M) x r = act M x r := by
  rw [← IP.mtv_transpose m M x (fun _ => 0) r hr]
  simp only [IP.mtv, if_true]
  rw [IP.foldl_add, zero_add]; rfl

/-! ### the state -/

/-- The problem data agree with the cone, no cone is empty, and no entry of `A` or `G` is stored twice. -/
structure Data (c : Cone) (S : Storage) : Prop where
  noEmpty : c.NoEmpty
  fits : Fits c S
  nodupA : ∀ col ∈ S.A, (col.map Prod.fst).Nodup
  nodupG : ∀ col ∈ S.G, (col.map Prod.fst).Nodup

/-- `perm` and `ip` are permutations of `0..N-1`, inverse to each other. -/
structure IsPerm (N : Nat) (perm ip : Nat → Nat) : Prop where
  ip_lt : ∀ i < N, ip i < N
  perm_lt : ∀ i < N, perm i < N
  left : ∀ i < N, perm (ip i) = i
  right : ∀ i < N, ip (perm i) = i

/-- The labelled entries. -/
noncomputable def ents (c : Cone) (δ : ℝ) (S : Storage) : List LT := lcoeffs c δ (IP.transpose c.neq S.A) (IP.transpose c.sizecone S.G)

theorem ents_seg {c : Cone} {S : Storage} (h : Data c S) (δ : ℝ) : Seg 0 c.extsizeproblem (ents c δ S) := by
  have hA := transpose_sorted c.neq S.A h.nodupA
  have hG := transpose_sorted c.sizecone S.G h.nodupG
  rw [h.fits.1] at hA; rw [h.fits.2.1] at hG
  exact lcoeffs_seg c h.noEmpty δ hA (transpose_length _ _) hG

/-- The columns of the entries after the permutation do not depend on the values. -/
theorem keys_ev (ip : Nat → Nat) (L : List LT) (V V' : Slot → ℝ) : keys ip (L.map (LT.ev V)) = keys ip (L.map (LT.ev V')) := by
  simp only [keys, List.map_map]; rfl

/-- The state holds the matrix with values `V` at the places. -/
structure Holds (c : Cone) (δ : ℝ) (S : Storage) (perm ip : Nat → Nat) (s : St) (V : Slot → ℝ) : Prop where
  outer : s.K.outer = Ldl.outer (fun j => (keys ip ((ents c δ S).map (LT.ev V))).count j)
  vals : ∀ t (h : t < (ents c δ S).length), s.K.inner (kpos (keys ip ((ents c δ S).map (LT.ev V))) t) = destRow ip ((ents c δ S)[t].ev V) ∧
    s.K.value (kpos (keys ip ((ents c δ S).map (LT.ev V))) t) = ((ents c δ S)[t].ev V).val
  addr : ∀ σ ∈ slots c, s.addr c σ = kpos (keys ip ((ents c δ S).map (LT.ev V))) (index0 c (IP.transpose c.neq S.A) (IP.transpose c.sizecone S.G) σ)
  sgn : s.permSign = fun i => sign c (perm i)

theorem index0_get {c : Cone} {S : Storage} (h : Data c S) (δ : ℝ) (σ : Slot) (hσ : σ ∈ slots c) :
    ∃ ht : index0 c (IP.transpose c.neq S.A) (IP.transpose c.sizecone S.G) σ < (ents c δ S).length,
      (ents c δ S)[index0 c (IP.transpose c.neq S.A) (IP.transpose c.sizecone S.G) σ] = ⟨(σ.rc c).1, (σ.rc c).2, .var σ⟩ := by
  have := index0_spec c δ (At := IP.transpose c.neq S.A) (Gt := IP.transpose c.sizecone S.G) h.noEmpty (transpose_length _ _)
    (by rw [transpose_length]; unfold sizecone; omega) σ hσ
  exact List.getElem?_eq_some_iff.1 this

theorem init_holds {c : Cone} {S : Storage} (h : Data c S) (δ : ℝ) (perm ip : Nat → Nat) (inner0 : Nat → Nat) (value0 : Nat → ℝ)
    (permK0 : Nat → Nat) (idx0 : Nat → Nat → Nat) : Holds c δ S perm ip (init c δ S perm ip inner0 value0 permK0 idx0) initVal := by
  have hA := transpose_sorted c.neq S.A h.nodupA
  have hG := transpose_sorted c.sizecone S.G h.nodupG
  rw [h.fits.1] at hA; rw [h.fits.2.1] at hG
  have hk := kkt_eq c h.noEmpty δ hA (transpose_length c.neq S.A) hG
  have hu : ∀ t ∈ (ents c δ S).map (LT.ev initVal), t.row ≤ t.col := by
    intro t ht
    obtain ⟨e, he, rfl⟩ := List.mem_map.1 ht
    exact (ents_seg h δ).upper e he
  have htw := twistedBy_spec ip ((ents c δ S).map (LT.ev initVal)) hu inner0 value0
  have hpk := permK_spec ip ((ents c δ S).map (LT.ev initVal)) hu inner0 value0 permK0
  rw [List.length_map] at hpk
  have hlt : ∀ σ ∈ slots c, index0 c (IP.transpose c.neq S.A) (IP.transpose c.sizecone S.G) σ < (ents c δ S).length :=
    fun σ hσ => (index0_get h δ σ hσ).1
  refine ⟨?_, ?_, ?_, rfl⟩
  · simp only [init, hk]; exact htw.1
  · intro t ht
    have := htw.2 t (by simpa using ht)
    simp only [init, hk]
    rw [List.getElem_map] at this
    exact this
  · intro σ hσ
    have hl := hpk _ (hlt σ hσ)
    rw [← hl]
    have hm := (mem_slots c σ).1 hσ
    rcases σ with i | ⟨l, k⟩ | ⟨l, k⟩ | l | ⟨l, k⟩ | l <;> simp only [init, St.addr, hk, index0] at hm ⊢
    · rfl
    · rw [if_pos hm.2]; rfl
    · rw [if_neg (by omega), if_pos (by omega), Nat.add_sub_cancel_left]; rfl
    · have := h.noEmpty l hm
      rw [if_neg (by omega), if_pos (by omega), show 2 * c.sizeSoc l - 1 - c.sizeSoc l + 1 = c.sizeSoc l by omega]; rfl
    · have := h.noEmpty l hm.1
      rw [if_neg (by omega), if_pos (by omega), show 2 * c.sizeSoc l + k - c.sizeSoc l + 1 = c.sizeSoc l + k + 1 by omega]; rfl
    · have := h.noEmpty l hm
      rw [if_neg (by omega), if_pos (by omega), show 3 * c.sizeSoc l - c.sizeSoc l + 1 = 2 * c.sizeSoc l + 1 by omega]; rfl

theorem foldl_update_not_mem {α : Type} (a : α → Nat) (V : α → ℝ) (p : Nat) : ∀ (l : List α) (v : Nat → ℝ), (∀ σ ∈ l, a σ ≠ p) →
    l.foldl (fun v σ => update v (a σ) (V σ)) v p = v p
  | [], v, _ => rfl
  | σ :: l, v, h => by
    rw [List.foldl_cons, foldl_update_not_mem a V p l _ fun σ' h' => h σ' (by simp [h']), update_of_ne (Ne.symm (h σ (by simp)))]

theorem foldl_update_mem {α : Type} (a : α → Nat) (V : α → ℝ) (p : Nat) (x : ℝ) : ∀ (l : List α) (v : Nat → ℝ), (∃ σ ∈ l, a σ = p) →
    (∀ σ ∈ l, a σ = p → V σ = x) → l.foldl (fun v σ => update v (a σ) (V σ)) v p = x
  | [], v, h, _ => by simp at h
  | σ :: l, v, h, hx => by
    rw [List.foldl_cons]
    by_cases hl : ∃ σ' ∈ l, a σ' = p
    · exact foldl_update_mem a V p x l _ hl fun σ' h' => hx σ' (by simp [h'])
    · push Not at hl
      rw [foldl_update_not_mem a V p l _ hl]
      obtain ⟨σ', h', e⟩ := h
      rw [List.mem_cons] at h'
      rcases h' with h' | h'
      · subst h'; rw [← e, update_self, hx σ' (by simp) e]
      · exact absurd e (hl σ' h')

/-- Two entries at the same row and column are the same entry. -/
theorem ents_unique {c : Cone} {S : Storage} (h : Data c S) (δ : ℝ) {t t' : Nat} (ht : t < (ents c δ S).length) (ht' : t' < (ents c δ S).length)
    (hr : (ents c δ S)[t].row = (ents c δ S)[t'].row) (hc : (ents c δ S)[t].col = (ents c δ S)[t'].col) : t = t' := by
  have hs := (ents_seg h δ).sorted
  rw [List.pairwise_iff_getElem] at hs
  rcases lt_trichotomy t t' with hl | hl | hl
  · rcases hs t t' ht ht' hl with h | h <;> omega
  · exact hl
  · rcases hs t' t ht' ht hl with h | h <;> omega

theorem write_holds {c : Cone} {S : Storage} (h : Data c S) {δ : ℝ} {perm ip : Nat → Nat} {s : St} {V : Slot → ℝ} (hs : Holds c δ S perm ip s V)
    (V' : Slot → ℝ) : Holds c δ S perm ip (s.write c V') V' := by
  have hk := keys_ev ip (ents c δ S) V V'
  have ha : ∀ σ, (s.write c V').addr c σ = s.addr c σ := fun σ => by cases σ <;> rfl
  have hl : ∀ t, t < (ents c δ S).length → t < (keys ip ((ents c δ S).map (LT.ev V'))).length := fun t ht => by simpa [keys] using ht
  have haddr : ∀ σ ∈ slots c, s.addr c σ = kpos (keys ip ((ents c δ S).map (LT.ev V'))) (index0 c (IP.transpose c.neq S.A) (IP.transpose c.sizecone S.G) σ) :=
    fun σ hσ => by rw [hs.addr σ hσ, hk]
  refine ⟨by rw [← hk]; exact hs.outer, ?_, fun σ hσ => by rw [ha]; exact haddr σ hσ, hs.sgn⟩
  intro t ht
  refine ⟨by rw [← hk]; exact (hs.vals t ht).1, ?_⟩
  have hpos : ∀ σ ∈ slots c, s.addr c σ = kpos (keys ip ((ents c δ S).map (LT.ev V'))) t →
      (ents c δ S)[t].lab = .var σ := by
    intro σ hσ e
    rw [haddr σ hσ] at e
    obtain ⟨h1, h2⟩ := index0_get h δ σ hσ
    have e' := kpos_inj _ (hl _ h1) (hl _ ht) e
    subst e'
    rw [h2]
  show (slots c).foldl (fun v σ => update v (s.addr c σ) (V' σ)) s.K.value _ = _
  cases hlab : (ents c δ S)[t].lab with
  | con v =>
    rw [foldl_update_not_mem]
    · rw [← hk, (hs.vals t ht).2, LT.ev, LT.ev, hlab]
    · intro σ hσ e
      have := hpos σ hσ e
      rw [hlab] at this
      exact absurd this (by simp)
  | var σ =>
    rw [foldl_update_mem (x := V' σ)]
    · rw [LT.ev, hlab]
    · have h3 := lab_rc c δ _ _ _ (List.getElem_mem ht) σ hlab
      obtain ⟨h1, h2⟩ := index0_get h δ σ h3.1
      refine ⟨σ, h3.1, ?_⟩
      rw [haddr σ h3.1]
      congr 1
      apply ents_unique h δ h1 ht
      · rw [h2]; exact h3.2.1.symm
      · rw [h2]; exact h3.2.2.symm
    · intro σ' hσ' e
      have := hpos σ' hσ' e
      rw [hlab] at this
      cases this; rfl

/-! ### columns -/

theorem filter_range_map {α β : Type} (l : List α) (p : α → Bool) (g : α → β) (p' : Nat → Bool) (g' : Nat → β)
    (hp : ∀ t (h : t < l.length), p' t = p l[t] ∧ g' t = g l[t]) :
    ((List.range l.length).filter p').map g' = (l.filter p).map g := by
  have h1 : l = (List.range l.length).attach.map fun t => l[t.1]'(List.mem_range.1 t.2) := by
    apply List.ext_getElem
    · simp
    · intro n h1 h2; simp
  conv_rhs => rw [h1, List.filter_map, List.map_map]
  have h2 : List.range l.length = (List.range l.length).attach.map Subtype.val := by simp
  conv_lhs => rw [h2, List.filter_map, List.map_map]
  have h3 : List.filter (p' ∘ Subtype.val) (List.range l.length).attach =
      List.filter (p ∘ fun t => l[t.1]'(List.mem_range.1 t.2)) (List.range l.length).attach := by
    apply List.filter_congr
    intro t _
    exact (hp t.1 (List.mem_range.1 t.2)).1
  rw [h3]
  apply List.map_congr_left
  intro t _
  exact (hp t.1 (List.mem_range.1 t.2)).2

theorem cols_eq {c : Cone} {S : Storage} {δ : ℝ} {perm ip : Nat → Nat} {s : St} {V : Slot → ℝ} (hs : Holds c δ S perm ip s V) (j : Nat) :
    s.cols j = (((ents c δ S).map (LT.ev V)).filter fun t => destCol ip t = j).map fun t => (destRow ip t, t.val) := by
  have h1 := cols_spec (keys ip ((ents c δ S).map (LT.ev V))) s.K.inner s.K.value
    (fun t => if h : t < (ents c δ S).length then destRow ip ((ents c δ S)[t].ev V) else 0)
    (fun t => if h : t < (ents c δ S).length then ((ents c δ S)[t].ev V).val else 0) (fun t ht => by
      have ht' : t < (ents c δ S).length := by simpa [keys] using ht
      simp only [dif_pos ht']
      exact hs.vals t ht') j
  rw [St.cols]
  simp only [hs.outer]
  rw [h1, show (keys ip ((ents c δ S).map (LT.ev V))).length = ((ents c δ S).map (LT.ev V)).length by simp [keys]]
  apply filter_range_map
  intro t ht
  have ht' : t < (ents c δ S).length := by simpa using ht
  refine ⟨?_, ?_⟩
  · have : (keys ip ((ents c δ S).map (LT.ev V))).getD t 0 = destCol ip ((ents c δ S).map (LT.ev V))[t] := by
      rw [keys, List.getD_eq_getElem?_getD, List.getElem?_map, List.getElem?_eq_getElem ht]; rfl
    rw [this]
  · simp [dif_pos ht']

/-! ### products with the stored matrix -/

/-- The symmetric bilinear form of a list of upper-triangular entries. -/
noncomputable def bil (ts : List Tr) (y x : Nat → ℝ) : ℝ :=
  (ts.map fun t => t.val * (y t.row * x t.col + if t.row = t.col then 0 else y t.col * x t.row)).sum

theorem bil_append (l r : List Tr) (y x : Nat → ℝ) : bil (l ++ r) y x = bil l y x + bil r y x := by simp [bil]

theorem full_single {N : Nat} {perm ip : Nat → Nat} (hp : IsPerm N perm ip) (t : Tr) (ht : t.row < N ∧ t.col < N) (px : Nat → ℝ) (a : Nat) (ha : a < N) :
    ∑ j ∈ range N, (if ip a ≤ j then (if destCol ip t = j ∧ destRow ip t = ip a then t.val else 0)
      else (if destCol ip t = ip a ∧ destRow ip t = j then t.val else 0)) * px j =
    t.val * ((if t.row = a then px (ip t.col) else 0) + if t.row = t.col then 0 else if t.col = a then px (ip t.row) else 0) := by
  have hinj : ∀ {i j}, i < N → j < N → ip i = ip j → i = j := fun hi hj e => by rw [← hp.left _ hi, ← hp.left _ hj, e]
  have hr := hp.ip_lt _ ht.1; have hc := hp.ip_lt _ ht.2
  have hle : destRow ip t ≤ destCol ip t := by unfold destRow destCol; split <;> omega
  by_cases hrc : t.row = t.col
  · have e1 : destCol ip t = ip t.row := by unfold destCol; rw [hrc]; simp
    have e2 : destRow ip t = ip t.row := by unfold destRow; rw [hrc]; simp
    rw [e1, e2, if_pos hrc, add_zero]
    by_cases h : t.row = a
    · subst h
      rw [if_pos rfl, Finset.sum_eq_single (ip t.row), if_pos le_rfl, if_pos ⟨rfl, rfl⟩, hrc]
      · intro j _ hj
        split
        · rw [if_neg (fun h => hj h.1.symm), zero_mul]
        · rw [if_neg (fun h => hj h.2.symm), zero_mul]
      · intro h; exact absurd (mem_range.2 hr) h
    · rw [if_neg h, mul_zero]
      apply Finset.sum_eq_zero
      intro j _
      have hne : ip t.row ≠ ip a := fun e => h (hinj ht.1 ha e)
      split
      · rw [if_neg (fun h => hne h.2), zero_mul]
      · rw [if_neg (fun h => hne h.1), zero_mul]
  · have hne : ip t.row ≠ ip t.col := fun e => hrc (hinj ht.1 ht.2 e)
    have hlt : destRow ip t < destCol ip t := by unfold destRow destCol; split <;> omega
    rw [if_neg hrc]
    -- the row and column are `{ip row, ip col}`
    have hset : (destRow ip t = ip t.row ∧ destCol ip t = ip t.col) ∨ (destRow ip t = ip t.col ∧ destCol ip t = ip t.row) := by
      unfold destRow destCol; split <;> simp
    have hdr : destRow ip t < N := by omega
    have hdc : destCol ip t < N := by rcases hset with h | h <;> omega
    have key : ∑ j ∈ range N, (if ip a ≤ j then (if destCol ip t = j ∧ destRow ip t = ip a then t.val else 0)
        else (if destCol ip t = ip a ∧ destRow ip t = j then t.val else 0)) * px j =
        t.val * ((if destRow ip t = ip a then px (destCol ip t) else 0) + if destCol ip t = ip a then px (destRow ip t) else 0) := by
      by_cases h1 : destRow ip t = ip a
      · rw [if_pos h1, if_neg (show destCol ip t ≠ ip a by omega), add_zero, Finset.sum_eq_single (destCol ip t), if_pos (by omega), if_pos ⟨rfl, h1⟩]
        · intro j _ hj
          split
          · rw [if_neg (fun h => hj h.1.symm), zero_mul]
          · rw [if_neg (fun h => by omega), zero_mul]
        · intro h; exact absurd (mem_range.2 hdc) h
      · rw [if_neg h1, zero_add]
        by_cases h2 : destCol ip t = ip a
        · rw [if_pos h2, Finset.sum_eq_single (destRow ip t), if_neg (by omega), if_pos ⟨h2, rfl⟩]
          · intro j _ hj
            split
            · rw [if_neg (fun h => h1 h.2), zero_mul]
            · rw [if_neg (fun h => hj h.2.symm), zero_mul]
          · intro h; exact absurd (mem_range.2 hdr) h
        · rw [if_neg h2, mul_zero]
          apply Finset.sum_eq_zero
          intro j _
          split
          · rw [if_neg (fun h => h1 h.2), zero_mul]
          · rw [if_neg (fun h => h2 h.1), zero_mul]
    rw [key]
    have ea : ∀ i < N, (ip i = ip a ↔ i = a) := fun i hi => ⟨hinj hi ha, fun e => by rw [e]⟩
    rcases hset with ⟨e1, e2⟩ | ⟨e1, e2⟩
    · rw [e1, e2]
      simp only [ea _ ht.1, ea _ ht.2]
    · rw [e1, e2]
      simp only [ea _ ht.1, ea _ ht.2]
      ring

/-- Row `ip a` of the product of the stored matrix with a permuted vector. -/
theorem full_mul {N : Nat} {perm ip : Nat → Nat} (hp : IsPerm N perm ip) (A : Ldl.Cols) (px : Nat → ℝ) (a : Nat) (ha : a < N) : ∀ ts : List Tr,
    (∀ t ∈ ts, t.row < N ∧ t.col < N) → (∀ j, A j = (ts.filter fun t => destCol ip t = j).map fun t => (destRow ip t, t.val)) →
    (Ldl.full N A).mulVec (fun i : Fin N => px i) ⟨ip a, hp.ip_lt a ha⟩ = bil ts (fun i => if i = a then 1 else 0) (fun i => px (ip i)) := by
  intro ts hts hA
  have hent : ∀ i j : Nat, ((A j).map fun e => if e.1 = i then e.2 else 0).sum =
      (ts.map fun t => if destCol ip t = j ∧ destRow ip t = i then t.val else 0).sum := by
    intro i j
    rw [hA, List.map_map]
    clear hA hts
    induction ts with
    | nil => rfl
    | cons t ts ih =>
      rw [List.map_cons, List.sum_cons, ← ih]
      by_cases h : destCol ip t = j
      · rw [List.filter_cons_of_pos (by simpa using h), List.map_cons, List.sum_cons]
        simp [h]
      · rw [List.filter_cons_of_neg (by simpa using h)]
        simp [h]
  have hfull : (Ldl.full N A).mulVec (fun i : Fin N => px i) ⟨ip a, hp.ip_lt a ha⟩ =
      ∑ j ∈ range N, (if ip a ≤ j then (ts.map fun t => if destCol ip t = j ∧ destRow ip t = ip a then t.val else 0).sum
        else (ts.map fun t => if destCol ip t = ip a ∧ destRow ip t = j then t.val else 0).sum) * px j := by
    rw [Finset.sum_range, Matrix.mulVec, dotProduct]
    apply Finset.sum_congr rfl
    intro j _
    simp only [Ldl.full, Matrix.of_apply, Fin.le_def, hent]
  rw [hfull]
  clear hA hent hfull
  induction ts with
  | nil => simp [bil]
  | cons t ts ih =>
    have ih' := ih fun t' h' => hts t' (by simp [h'])
    rw [show t :: ts = [t] ++ ts from rfl, bil_append, ← ih']
    have h1 := full_single hp t (hts t (by simp)) px a ha
    have h2 : bil [t] (fun i => if i = a then 1 else 0) (fun i => px (ip i)) =
        t.val * ((if t.row = a then px (ip t.col) else 0) + if t.row = t.col then 0 else if t.col = a then px (ip t.row) else 0) := by
      simp [bil]
    rw [h2, ← h1, ← Finset.sum_add_distrib]
    apply Finset.sum_congr rfl
    intro j _
    rw [← add_mul]
    congr 1
    split <;> simp

end Lin
end Verif
