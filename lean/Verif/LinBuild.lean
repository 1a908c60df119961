import Verif.LinPerm
import Verif.ConeLemmas

/-! The matrix assembled by `LinSolver::buildProblem`: its entries are pushed in storage order, and the index tables point at the entries
that depend on the scalings. -/
namespace Verif
namespace Lin
open Function Cone Equil

/-- What an entry of the matrix holds: a fixed number or the value of a place. -/
inductive Lab where
  | con (v : ℝ)
  | var (σ : Slot)

/-- An entry with its label. -/
structure LT where
  row : Nat
  col : Nat
  lab : Lab

/-- The entry for given values of the places. -/
def LT.ev (V : Slot → ℝ) (t : LT) : Tr := ⟨t.row, t.col, match t.lab with | .con v => v | .var σ => V σ⟩

/-- Entries of one column of `A'` or `G'`. -/
def lcol (M : Sp) (j col : Nat) : List LT := (M.getD j []).map fun e => ⟨e.1, col, .con e.2⟩

/-- First row of block `l`. -/
abbrev base (c : Cone) (l : Nat) : Nat := c.nvars + c.neq + c.startSoc l + 2 * l

/-- Labelled version of `socTr`: the columns of the cone entries. -/
def lsocZ (c : Cone) (Gt : Sp) (l id : Nat) : List LT :=
  lcol Gt (c.startSoc l + id) (c.nvars + c.neq + 2 * l + (c.startSoc l + id)) ++ [⟨base c l + id, base c l + id, .var (.sd l id)⟩]

/-- Labelled version of `socTr`: the two auxiliary columns. -/
def lsocAux (c : Cone) (l : Nat) : List LT :=
  ((List.range (c.sizeSoc l - 1)).map fun k => ⟨base c l + (k + 1), base c l + c.sizeSoc l, .var (.sv l k)⟩) ++
    [⟨base c l + c.sizeSoc l, base c l + c.sizeSoc l, .var (.svd l)⟩] ++
    ((List.range (c.sizeSoc l)).map fun k => ⟨base c l + k, base c l + c.sizeSoc l + 1, .var (.su l k)⟩) ++
    [⟨base c l + c.sizeSoc l + 1, base c l + c.sizeSoc l + 1, .var (.sud l)⟩]

/-- Labelled version of `socTr`. -/
def lsoc (c : Cone) (Gt : Sp) (l : Nat) : List LT := (List.range (c.sizeSoc l)).flatMap (lsocZ c Gt l) ++ lsocAux c l

/-- Labelled version of one pass of the loop over the equations. -/
def leq (c : Cone) (δ : ℝ) (At : Sp) (id : Nat) : List LT := lcol At id (c.nvars + id) ++ [⟨c.nvars + id, c.nvars + id, .con (-δ)⟩]

/-- Labelled version of one pass of the loop over the linear inequalities. -/
def llp (c : Cone) (Gt : Sp) (id : Nat) : List LT :=
  lcol Gt id (c.nvars + c.neq + id) ++ [⟨c.nvars + c.neq + id, c.nvars + c.neq + id, .var (.lp id)⟩]

/-- Labelled version of `coeffs`. -/
def lcoeffs (c : Cone) (δ : ℝ) (At Gt : Sp) : List LT :=
  ((List.range c.nvars).map fun id => ⟨id, id, .con δ⟩) ++ (List.range At.length).flatMap (leq c δ At) ++
    (List.range c.nineq).flatMap (llp c Gt) ++ (List.range c.nsoc).flatMap (lsoc c Gt)

theorem lcol_ev (V : Slot → ℝ) (M : Sp) (j col : Nat) : (lcol M j col).map (LT.ev V) = colTr M j col := by
  rw [lcol, colTr, List.map_map]; rfl

theorem coeffs_eq (c : Cone) (δ : ℝ) (At Gt : Sp) : coeffs c δ At Gt = (lcoeffs c δ At Gt).map (LT.ev initVal) := by
  unfold coeffs lcoeffs
  simp only [List.map_append, List.map_flatMap, List.map_map]
  congr 1
  · congr 1
    · congr 1
      apply List.flatMap_congr
      intro id _
      rw [leq, List.map_append, lcol_ev]; rfl
    · apply List.flatMap_congr
      intro id _
      rw [llp, List.map_append, lcol_ev]; rfl
  · apply List.flatMap_congr
    intro l _
    rw [socTr, lsoc, lsocAux]
    simp only [List.map_append, List.map_flatMap, List.map_map, lsocZ, lcol_ev, ← List.append_assoc]
    rfl

/-! ### triplets in storage order are stored as they are -/

theorem insertRow_end (r : Nat) (v : ℝ) : ∀ l : List (Nat × ℝ), (∀ e ∈ l, e.1 < r) → insertRow r v l = l ++ [(r, v)]
  | [], _ => rfl
  | e :: l, h => by
    have h1 := h e (by simp)
    rw [insertRow, if_neg (by omega), if_neg (by omega), insertRow_end r v l fun e he => h e (by simp [he])]; rfl

theorem insert_sorted : ∀ (l : List Tr) (acc : List (Nat × ℝ)), l.Pairwise (fun s t => s.row < t.row) →
    (∀ e ∈ acc, ∀ t ∈ l, e.1 < t.row) → l.foldl (fun col t => insertRow t.row t.val col) acc = acc ++ l.map fun t => (t.row, t.val)
  | [], acc, _, _ => by simp
  | t :: l, acc, hp, ha => by
    rw [List.pairwise_cons] at hp
    rw [List.foldl_cons, insertRow_end _ _ acc fun e he => ha e he t (by simp), insert_sorted l _ hp.2]
    · simp
    · intro e he s hs
      rw [List.mem_append, List.mem_singleton] at he
      rcases he with he | he
      · exact ha e he s (by simp [hs])
      · rw [he]; exact hp.1 s hs

theorem filter_lt_succ (N : Nat) : ∀ l : List Tr, l.Pairwise (fun s t => s.col ≤ t.col) →
    l.filter (fun t => t.col < N + 1) = l.filter (fun t => t.col < N) ++ l.filter (fun t => t.col = N)
  | [], _ => rfl
  | t :: l, hp => by
    rw [List.pairwise_cons] at hp
    have ih := filter_lt_succ N l hp.2
    rcases lt_trichotomy t.col N with h | h | h
    · rw [List.filter_cons_of_pos (by simp; omega), List.filter_cons_of_pos (by simpa using h), List.filter_cons_of_neg (by simp; omega), ih]; rfl
    · have h0 : l.filter (fun s => decide (s.col < N)) = [] := by
        rw [List.filter_eq_nil_iff]; intro s hs; have := hp.1 s hs; simp; omega
      rw [List.filter_cons_of_pos (by simp; omega), List.filter_cons_of_neg (by simp; omega), List.filter_cons_of_pos (by simpa using h), ih, h0]; rfl
    · rw [List.filter_cons_of_neg (by simp; omega), List.filter_cons_of_neg (by simp; omega), List.filter_cons_of_neg (by simp; omega), ih]

theorem flatMap_filter (l : List Tr) (hp : l.Pairwise (fun s t => s.col ≤ t.col)) : ∀ N,
    (List.range N).flatMap (fun j => l.filter (fun t => t.col = j)) = l.filter (fun t => t.col < N)
  | 0 => by simp
  | N + 1 => by rw [List.range_succ, List.flatMap_append, flatMap_filter l hp N, filter_lt_succ N l hp]; simp

/-- Storage order: by columns, rows increasing. -/
def Before (s t : Tr) : Prop := s.col < t.col ∨ s.col = t.col ∧ s.row < t.row

theorem setFromTriplets_sorted (N : Nat) (l : List Tr) (hp : l.Pairwise Before) (hc : ∀ t ∈ l, t.col < N) : setFromTriplets N l = l := by
  have h1 : l.Pairwise (fun s t => s.col ≤ t.col) := hp.imp fun h => by rcases h with h | h <;> omega
  have h2 : ∀ j, (((l.filter fun t => t.col = j).foldl (fun col t => insertRow t.row t.val col) []).map fun e => (⟨e.1, j, e.2⟩ : Tr)) =
      l.filter (fun t => t.col = j) := by
    intro j
    rw [insert_sorted _ []]
    · rw [List.nil_append, List.map_map]
      conv_rhs => rw [← List.map_id (l.filter fun t => t.col = j)]
      apply List.map_congr_left
      intro t ht
      have : t.col = j := by simpa using (List.mem_filter.1 ht).2
      simp only [comp, id, ← this]
    · rw [List.pairwise_filter]
      apply hp.imp
      intro s t h hs ht
      simp only [decide_eq_true_eq] at hs ht
      rcases h with h | h
      · omega
      · exact h.2
    · simp
  rw [setFromTriplets]
  simp only [h2]
  rw [flatMap_filter l h1, List.filter_eq_self]
  intro t ht; simpa using hc t ht

/-! ### the triplets are in storage order -/

/-- A sparse matrix whose columns hold increasing rows below `n`. -/
def Sorted (n : Nat) (M : Sp) : Prop := ∀ col ∈ M, col.Pairwise (fun a b => a.1 < b.1) ∧ ∀ e ∈ col, e.1 < n

theorem Sorted.getD {n : Nat} {M : Sp} (h : Sorted n M) (j : Nat) :
    (M.getD j []).Pairwise (fun a b => a.1 < b.1) ∧ ∀ e ∈ M.getD j [], e.1 < n := by
  by_cases hj : j < M.length
  · rw [List.getD_eq_getElem?_getD, List.getElem?_eq_getElem hj]; exact h _ (List.getElem_mem hj)
  · rw [List.getD_eq_getElem?_getD, List.getElem?_eq_none (by omega)]; simp

/-- Storage order of labelled entries. -/
def LBefore (s t : LT) : Prop := s.col < t.col ∨ s.col = t.col ∧ s.row < t.row

/-- A list of entries in storage order, in the upper triangle, with columns from `a` to `b`. -/
structure Seg (a b : Nat) (l : List LT) : Prop where
  sorted : l.Pairwise LBefore
  cols : ∀ t ∈ l, a ≤ t.col ∧ t.col < b
  upper : ∀ t ∈ l, t.row ≤ t.col

theorem Seg.append {a b d : Nat} {l r : List LT} (hl : Seg a b l) (hr : Seg b d r) (hab : a ≤ b) (hbd : b ≤ d) : Seg a d (l ++ r) := by
  refine ⟨List.pairwise_append.2 ⟨hl.sorted, hr.sorted, fun s hs t ht => Or.inl ?_⟩, ?_, ?_⟩
  · have := (hl.cols s hs).2; have := (hr.cols t ht).1; omega
  · intro t ht
    rcases List.mem_append.1 ht with h | h
    · have := hl.cols t h; omega
    · have := hr.cols t h; omega
  · intro t ht
    rcases List.mem_append.1 ht with h | h
    · exact hl.upper t h
    · exact hr.upper t h

theorem Seg.nil (a b : Nat) : Seg a b [] := ⟨List.Pairwise.nil, by simp, by simp⟩

theorem Seg.flatMap (f : Nat → List LT) (s : Nat → Nat) (hs : ∀ i, s i ≤ s (i + 1)) :
    ∀ m, (∀ i < m, Seg (s i) (s (i + 1)) (f i)) → Seg (s 0) (s m) ((List.range m).flatMap f)
  | 0, _ => Seg.nil _ _
  | m + 1, h => by
    rw [List.range_succ, List.flatMap_append]
    have hm : ∀ m, s 0 ≤ s m := fun m => by
      induction m with
      | zero => exact le_rfl
      | succ k ih => exact le_trans ih (hs k)
    refine Seg.append (Seg.flatMap f s hs m fun i hi => h i (by omega)) ?_ (hm m) (hs m)
    simpa using h m (by omega)

/-- One column: entries with increasing rows below the diagonal entry, then the diagonal entry. -/
theorem Seg.col {n : Nat} (l : List LT) (j : Nat) (lab : Lab) (hl : l.Pairwise (fun s t => s.row < t.row)) (hc : ∀ t ∈ l, t.col = j ∧ t.row < n)
    (hn : n ≤ j) : Seg j (j + 1) (l ++ [⟨j, j, lab⟩]) := by
  refine ⟨List.pairwise_append.2 ⟨?_, List.pairwise_singleton _ _, ?_⟩, ?_, ?_⟩
  · rw [List.pairwise_iff_forall_sublist] at *
    intro s t hst
    have h1 := hl hst
    have hs := hc s (hst.subset (by simp)); have ht := hc t (hst.subset (by simp))
    exact Or.inr ⟨hs.1.trans ht.1.symm, h1⟩
  · intro s hs t ht
    rw [List.mem_singleton] at ht
    subst ht
    have := hc s hs
    exact Or.inr ⟨this.1, by show s.row < j; omega⟩
  · intro t ht
    rcases List.mem_append.1 ht with h | h
    · have := hc t h; omega
    · rw [List.mem_singleton] at h; subst h; simp
  · intro t ht
    rcases List.mem_append.1 ht with h | h
    · have := hc t h; omega
    · rw [List.mem_singleton] at h; subst h; exact le_rfl

theorem lcol_seg {n : Nat} {M : Sp} (h : Sorted n M) (i j : Nat) (lab : Lab) (hj : n ≤ j) : Seg j (j + 1) (lcol M i j ++ [⟨j, j, lab⟩]) := by
  refine Seg.col (n := n) _ j lab ?_ ?_ hj
  · rw [lcol, List.pairwise_map]; exact (h.getD i).1
  · intro t ht
    rw [lcol, List.mem_map] at ht
    obtain ⟨e, he, rfl⟩ := ht
    exact ⟨rfl, (h.getD i).2 e he⟩

theorem range_map_pairwise (m : Nat) (f : Nat → LT) (hf : ∀ i j, i < j → (f i).row < (f j).row) :
    ((List.range m).map f).Pairwise (fun s t => s.row < t.row) := by
  rw [List.pairwise_map]
  exact List.pairwise_lt_range.imp fun h => hf _ _ h

theorem lsocAux_seg (c : Cone) (l : Nat) (hs : 0 < c.sizeSoc l) : Seg (base c l + c.sizeSoc l) (base c l + (c.sizeSoc l + 2)) (lsocAux c l) := by
  have h1 : Seg (base c l + c.sizeSoc l) (base c l + c.sizeSoc l + 1)
      (((List.range (c.sizeSoc l - 1)).map fun k => (⟨base c l + (k + 1), base c l + c.sizeSoc l, .var (.sv l k)⟩ : LT)) ++
        [⟨base c l + c.sizeSoc l, base c l + c.sizeSoc l, .var (.svd l)⟩]) := by
    refine Seg.col (n := base c l + c.sizeSoc l) _ _ _ (range_map_pairwise _ _ fun i j h => by show base c l + (i + 1) < base c l + (j + 1); omega) ?_ le_rfl
    intro t ht
    rw [List.mem_map] at ht
    obtain ⟨k, hk, rfl⟩ := ht
    rw [List.mem_range] at hk
    exact ⟨rfl, by show base c l + (k + 1) < base c l + c.sizeSoc l; omega⟩
  have h2 : Seg (base c l + c.sizeSoc l + 1) (base c l + c.sizeSoc l + 1 + 1)
      (((List.range (c.sizeSoc l)).map fun k => (⟨base c l + k, base c l + c.sizeSoc l + 1, .var (.su l k)⟩ : LT)) ++
        [⟨base c l + c.sizeSoc l + 1, base c l + c.sizeSoc l + 1, .var (.sud l)⟩]) := by
    refine Seg.col (n := base c l + c.sizeSoc l + 1) _ _ _ (range_map_pairwise _ _ fun i j h => by show base c l + i < base c l + j; omega) ?_ le_rfl
    intro t ht
    rw [List.mem_map] at ht
    obtain ⟨k, hk, rfl⟩ := ht
    rw [List.mem_range] at hk
    exact ⟨rfl, by show base c l + k < base c l + c.sizeSoc l + 1; omega⟩
  have := h1.append h2 (by omega) (by omega)
  rw [lsocAux]
  simpa [List.append_assoc, Nat.add_assoc] using this

theorem lsoc_seg (c : Cone) {Gt : Sp} (hG : Sorted c.nvars Gt) (l : Nat) (hs : 0 < c.sizeSoc l) :
    Seg (base c l) (base c l + (c.sizeSoc l + 2)) (lsoc c Gt l) := by
  have h1 : Seg (base c l + 0) (base c l + c.sizeSoc l) ((List.range (c.sizeSoc l)).flatMap (lsocZ c Gt l)) := by
    refine Seg.flatMap (lsocZ c Gt l) (fun i => base c l + i) (fun i => by omega) _ fun i hi => ?_
    have e : c.nvars + c.neq + 2 * l + (c.startSoc l + i) = base c l + i := by unfold base; omega
    show Seg (base c l + i) (base c l + (i + 1)) _
    rw [lsocZ, e]
    exact lcol_seg hG _ _ _ (by unfold base; omega)
  rw [lsoc]
  exact h1.append (lsocAux_seg c l hs) (by omega) (by omega)

theorem base_succ (c : Cone) {l : Nat} (h : l < c.nsoc) : base c (l + 1) = base c l + (c.sizeSoc l + 2) := by
  unfold base; rw [c.startSoc_succ l h]; omega

theorem base_end (c : Cone) : base c c.nsoc = c.extsizeproblem := by
  unfold base; rw [c.startSoc_end]; unfold extsizeproblem sizeproblem sizeconstraints; omega

theorem lcoeffs_seg (c : Cone) (hne : ∀ l < c.nsoc, 0 < c.sizeSoc l) (δ : ℝ) {At Gt : Sp} (hA : Sorted c.nvars At) (hAl : At.length = c.neq)
    (hG : Sorted c.nvars Gt) : Seg 0 c.extsizeproblem (lcoeffs c δ At Gt) := by
  have h1 : Seg 0 c.nvars ((List.range c.nvars).map fun id => (⟨id, id, .con δ⟩ : LT)) := by
    refine ⟨?_, ?_, ?_⟩
    · rw [List.pairwise_map]; exact List.pairwise_lt_range.imp fun h => Or.inl h
    · intro t ht
      rw [List.mem_map] at ht
      obtain ⟨k, hk, rfl⟩ := ht
      exact ⟨Nat.zero_le _, List.mem_range.1 hk⟩
    · intro t ht
      rw [List.mem_map] at ht
      obtain ⟨k, hk, rfl⟩ := ht
      exact le_rfl
  have h2 : Seg (c.nvars + 0) (c.nvars + c.neq) ((List.range At.length).flatMap (leq c δ At)) := by
    rw [hAl]
    exact Seg.flatMap (leq c δ At) (fun i => c.nvars + i) (fun i => by omega) _ fun i hi => lcol_seg hA _ _ _ (by omega)
  have h3 : Seg (c.nvars + c.neq + 0) (c.nvars + c.neq + c.nineq) ((List.range c.nineq).flatMap (llp c Gt)) :=
    Seg.flatMap (llp c Gt) (fun i => c.nvars + c.neq + i) (fun i => by omega) _ fun i hi => lcol_seg hG _ _ _ (by omega)
  have h4 : Seg (base c 0) (base c c.nsoc) ((List.range c.nsoc).flatMap (lsoc c Gt)) := by
    have hmono : ∀ i, (fun l => if l ≤ c.nsoc then base c l else base c c.nsoc) i ≤ (fun l => if l ≤ c.nsoc then base c l else base c c.nsoc) (i + 1) := by
      intro i
      show (if i ≤ c.nsoc then base c i else base c c.nsoc) ≤ (if i + 1 ≤ c.nsoc then base c (i + 1) else base c c.nsoc)
      by_cases h : i + 1 ≤ c.nsoc
      · rw [if_pos (by omega), if_pos h, base_succ c (by omega)]; omega
      · rw [if_neg h]
        by_cases h' : i ≤ c.nsoc
        · have : i = c.nsoc := by omega
          rw [if_pos h', this]
        · rw [if_neg h']
    have := Seg.flatMap (lsoc c Gt) (fun l => if l ≤ c.nsoc then base c l else base c c.nsoc) hmono c.nsoc (fun i hi => by
      simp only [if_pos (show i ≤ c.nsoc by omega), if_pos (show i + 1 ≤ c.nsoc by omega)]
      rw [base_succ c hi]; exact lsoc_seg c hG i (hne i hi))
    simpa using this
  rw [base_end] at h4
  have hb0 : base c 0 = c.nvars + c.neq + c.nineq := by unfold base; rw [c.startSoc_zero]; omega
  have hext : c.nvars + c.neq + c.nineq ≤ c.extsizeproblem := by
    unfold extsizeproblem sizeproblem sizeconstraints sizecone; omega
  rw [hb0] at h4
  exact ((h1.append h2 (by omega) (by omega)).append h3 (by omega) (by omega)).append h4 (by omega) (by omega)

theorem kkt_eq (c : Cone) (hne : ∀ l < c.nsoc, 0 < c.sizeSoc l) (δ : ℝ) {At Gt : Sp} (hA : Sorted c.nvars At) (hAl : At.length = c.neq)
    (hG : Sorted c.nvars Gt) : setFromTriplets c.extsizeproblem (coeffs c δ At Gt) = (lcoeffs c δ At Gt).map (LT.ev initVal) := by
  have h := lcoeffs_seg c hne δ hA hAl hG
  rw [coeffs_eq]
  apply setFromTriplets_sorted
  · rw [List.pairwise_map]; exact h.sorted.imp fun hb => hb
  · intro t ht
    rw [List.mem_map] at ht
    obtain ⟨e, he, rfl⟩ := ht
    exact (h.cols e he).2

/-! ### the index tables -/

theorem getElem?_append_at {α : Type} (l r : List α) (n : Nat) : (l ++ r)[l.length + n]? = r[n]? := by
  rw [List.getElem?_append_right (by omega)]; congr 1; omega

theorem length_flatMap_range {α : Type} (f : Nat → List α) : ∀ m, ((List.range m).flatMap f).length = ∑ i ∈ Finset.range m, (f i).length
  | 0 => rfl
  | m + 1 => by rw [List.range_succ, List.flatMap_append, List.length_append, length_flatMap_range f m, Finset.sum_range_succ]; simp

theorem getElem?_flatMap_range {α : Type} (f : Nat → List α) (a b : Nat) : ∀ m, a < m → b < (f a).length →
    ((List.range m).flatMap f)[(∑ i ∈ Finset.range a, (f i).length) + b]? = (f a)[b]?
  | 0, h, _ => absurd h (by omega)
  | m + 1, h, hb => by
    rw [List.range_succ, List.flatMap_append]
    by_cases ha : a = m
    · subst ha
      rw [← length_flatMap_range, getElem?_append_at]; simp
    · rw [List.getElem?_append_left, getElem?_flatMap_range f a b m (by omega) hb]
      rw [length_flatMap_range]
      have h1 : (∑ i ∈ Finset.range a, (f i).length) + (f a).length = ∑ i ∈ Finset.range (a + 1), (f i).length := (Finset.sum_range_succ _ _).symm
      have h2 : ∑ i ∈ Finset.range (a + 1), (f i).length ≤ ∑ i ∈ Finset.range m, (f i).length :=
        Finset.sum_le_sum_of_subset (Finset.range_subset_range.2 (by omega))
      omega

theorem lcol_length (M : Sp) (j col : Nat) : (lcol M j col).length = colNnz M j := by simp [lcol, colNnz]

theorem colNnz_sum (M : Sp) : ∀ k, k ≤ M.length → ∑ i ∈ Finset.range k, colNnz M i = leftNnz M k
  | 0, _ => by simp [leftNnz, nnz]
  | k + 1, h => by
    rw [Finset.sum_range_succ, colNnz_sum M k (by omega), leftNnz, leftNnz, List.take_add_one, List.getElem?_eq_getElem (by omega), colNnz,
      List.getD_eq_getElem?_getD, List.getElem?_eq_getElem (by omega), nnz, nnz, List.map_append, List.sum_append]
    simp

theorem leftNnz_all (M : Sp) : leftNnz M M.length = nnz M := by rw [leftNnz, List.take_length]

/-- The position of a place in the list of entries, as the index tables give it before the permutation. -/
def index0 (c : Cone) (At Gt : Sp) : Slot → Nat
  | .lp i => indexLpc0 c At Gt i
  | .sd l k => indexSoc0 c At Gt l k
  | .sv l k => indexSoc0 c At Gt l (c.sizeSoc l - 1) + (k + 1)
  | .svd l => indexSoc0 c At Gt l (c.sizeSoc l - 1) + c.sizeSoc l
  | .su l k => indexSoc0 c At Gt l (c.sizeSoc l - 1) + (c.sizeSoc l + k + 1)
  | .sud l => indexSoc0 c At Gt l (c.sizeSoc l - 1) + (2 * c.sizeSoc l + 1)

/-- Row and column of a place. -/
def Slot.rc (c : Cone) : Slot → Nat × Nat
  | .lp i => (c.nvars + c.neq + i, c.nvars + c.neq + i)
  | .sd l k => (base c l + k, base c l + k)
  | .sv l k => (base c l + (k + 1), base c l + c.sizeSoc l)
  | .svd l => (base c l + c.sizeSoc l, base c l + c.sizeSoc l)
  | .su l k => (base c l + k, base c l + c.sizeSoc l + 1)
  | .sud l => (base c l + c.sizeSoc l + 1, base c l + c.sizeSoc l + 1)

theorem mem_slots (c : Cone) (σ : Slot) : σ ∈ slots c ↔ match σ with
    | .lp i => i < c.nineq
    | .sd l k => l < c.nsoc ∧ k < c.sizeSoc l
    | .sv l k => l < c.nsoc ∧ k < c.sizeSoc l - 1
    | .svd l => l < c.nsoc
    | .su l k => l < c.nsoc ∧ k < c.sizeSoc l
    | .sud l => l < c.nsoc := by
  rcases σ with i | ⟨l, k⟩ | ⟨l, k⟩ | l | ⟨l, k⟩ | l <;> simp [slots, socSlots]

theorem kIn_eq (c : Cone) (Gt : Sp) (l k0 : Nat) : ∀ id, kIn c Gt l k0 id = k0 + ∑ i ∈ Finset.range id, (lsocZ c Gt l i).length
  | 0 => by simp [kIn]
  | id + 1 => by
    rw [kIn, kIn_eq c Gt l k0 id, Finset.sum_range_succ, lsocZ, List.length_append, lcol_length]; simp; omega

theorem lsocAux_length (c : Cone) (l : Nat) (hs : 0 < c.sizeSoc l) : (lsocAux c l).length = 2 * c.sizeSoc l + 1 := by
  simp [lsocAux]; omega

/-- The part of the list before the second-order cones. -/
def lhead (c : Cone) (δ : ℝ) (At Gt : Sp) : List LT :=
  ((List.range c.nvars).map fun id => ⟨id, id, .con δ⟩) ++ (List.range At.length).flatMap (leq c δ At) ++ (List.range c.nineq).flatMap (llp c Gt)

theorem leq_sum (c : Cone) (δ : ℝ) (At : Sp) : ∑ i ∈ Finset.range At.length, (leq c δ At i).length = nnz At + At.length := by
  have : ∀ i, (leq c δ At i).length = colNnz At i + 1 := fun i => by rw [leq, List.length_append, lcol_length]; rfl
  simp only [this, Finset.sum_add_distrib, colNnz_sum At _ le_rfl, leftNnz_all]
  simp

theorem llp_sum (c : Cone) (Gt : Sp) (m : Nat) (hm : m ≤ Gt.length) :
    ∑ i ∈ Finset.range m, (llp c Gt i).length = leftNnz Gt m + m := by
  have : ∀ i, (llp c Gt i).length = colNnz Gt i + 1 := fun i => by rw [llp, List.length_append, lcol_length]; rfl
  simp only [this, Finset.sum_add_distrib, colNnz_sum Gt _ hm]
  simp

theorem lhead_length (c : Cone) (δ : ℝ) (At Gt : Sp) (hAl : At.length = c.neq) (hGl : c.nineq ≤ Gt.length) :
    (lhead c δ At Gt).length = kSoc c At Gt 0 := by
  rw [lhead, List.length_append, List.length_append, length_flatMap_range, length_flatMap_range, leq_sum, llp_sum c Gt _ hGl, kSoc]
  simp [hAl]; omega

theorem kSoc_eq (c : Cone) (At Gt : Sp) (hne : ∀ l < c.nsoc, 0 < c.sizeSoc l) : ∀ l ≤ c.nsoc,
    kSoc c At Gt l = kSoc c At Gt 0 + ∑ i ∈ Finset.range l, (lsoc c Gt i).length
  | 0, _ => by simp
  | l + 1, h => by
    have e : kSoc c At Gt (l + 1) = kIn c Gt l (kSoc c At Gt l) (c.sizeSoc l) + (2 * c.sizeSoc l + 1) := rfl
    rw [e, kIn_eq, kSoc_eq c At Gt hne l (by omega), Finset.sum_range_succ, lsoc, List.length_append, length_flatMap_range,
      lsocAux_length c l (hne l (by omega))]
    omega

theorem lsoc_at (c : Cone) (δ : ℝ) {At Gt : Sp} (hne : ∀ l < c.nsoc, 0 < c.sizeSoc l) (hAl : At.length = c.neq) (hGl : c.nineq ≤ Gt.length)
    {l n : Nat} (hl : l < c.nsoc) (hn : n < (lsoc c Gt l).length) : (lcoeffs c δ At Gt)[kSoc c At Gt l + n]? = (lsoc c Gt l)[n]? := by
  show (lhead c δ At Gt ++ _)[_]? = _
  rw [kSoc_eq c At Gt hne l (by omega), ← lhead_length c δ At Gt hAl hGl, Nat.add_assoc, getElem?_append_at,
    getElem?_flatMap_range _ _ _ _ hl hn]

theorem aux_at (c : Cone) (δ : ℝ) {At Gt : Sp} (hne : ∀ l < c.nsoc, 0 < c.sizeSoc l) (hAl : At.length = c.neq) (hGl : c.nineq ≤ Gt.length)
    {l n : Nat} (hl : l < c.nsoc) (hn : n < 2 * c.sizeSoc l + 1) :
    (lcoeffs c δ At Gt)[indexSoc0 c At Gt l (c.sizeSoc l - 1) + (n + 1)]? = (lsocAux c l)[n]? := by
  have hs := hne l hl
  have h1 : indexSoc0 c At Gt l (c.sizeSoc l - 1) + (n + 1) = kSoc c At Gt l + (((List.range (c.sizeSoc l)).flatMap (lsocZ c Gt l)).length + n) := by
    rw [indexSoc0, kIn_eq, length_flatMap_range]
    conv_rhs => rw [show c.sizeSoc l = c.sizeSoc l - 1 + 1 by omega]
    rw [Finset.sum_range_succ, lsocZ, List.length_append, lcol_length]
    simp; omega
  rw [h1, lsoc_at c δ hne hAl hGl hl, lsoc, getElem?_append_at]
  rw [lsoc, List.length_append, lsocAux_length c l hs]; omega

/-- The index tables point at the entries of the places. -/
theorem index0_spec (c : Cone) (δ : ℝ) {At Gt : Sp} (hne : ∀ l < c.nsoc, 0 < c.sizeSoc l) (hAl : At.length = c.neq) (hGl : c.nineq ≤ Gt.length)
    (σ : Slot) (hσ : σ ∈ slots c) : (lcoeffs c δ At Gt)[index0 c At Gt σ]? = some ⟨(σ.rc c).1, (σ.rc c).2, .var σ⟩ := by
  rw [mem_slots] at hσ
  rcases σ with i | ⟨l, k⟩ | ⟨l, k⟩ | l | ⟨l, k⟩ | l
  · simp only at hσ
    have h0 : index0 c At Gt (.lp i) = (((List.range c.nvars).map fun id => (⟨id, id, .con δ⟩ : LT)) ++ (List.range At.length).flatMap (leq c δ At)).length +
        ((∑ j ∈ Finset.range i, (llp c Gt j).length) + colNnz Gt i) := by
      rw [index0, indexLpc0, List.length_append, length_flatMap_range, leq_sum, llp_sum c Gt i (by omega), ← colNnz_sum Gt (i + 1) (by omega),
        Finset.sum_range_succ, colNnz_sum Gt i (by omega)]
      simp [hAl]; omega
    rw [h0, lcoeffs, List.append_assoc, getElem?_append_at, List.getElem?_append_left, getElem?_flatMap_range _ _ _ _ hσ]
    · rw [llp, ← lcol_length Gt i (c.nvars + c.neq + i), ← Nat.add_zero (lcol Gt i _).length, getElem?_append_at]; rfl
    · rw [llp, List.length_append, lcol_length]; simp
    · rw [length_flatMap_range]
      have h1 : (∑ j ∈ Finset.range i, (llp c Gt j).length) + (llp c Gt i).length = ∑ j ∈ Finset.range (i + 1), (llp c Gt j).length :=
        (Finset.sum_range_succ _ _).symm
      have h2 : ∑ j ∈ Finset.range (i + 1), (llp c Gt j).length ≤ ∑ j ∈ Finset.range c.nineq, (llp c Gt j).length :=
        Finset.sum_le_sum_of_subset (Finset.range_subset_range.2 (by omega))
      have h3 : colNnz Gt i < (llp c Gt i).length := by rw [llp, List.length_append, lcol_length]; simp
      omega
  · simp only at hσ
    have h0 : index0 c At Gt (.sd l k) = kSoc c At Gt l + ((∑ j ∈ Finset.range k, (lsocZ c Gt l j).length) + colNnz Gt (c.startSoc l + k)) := by
      rw [index0, indexSoc0, kIn_eq]; omega
    have h3 : colNnz Gt (c.startSoc l + k) < (lsocZ c Gt l k).length := by rw [lsocZ, List.length_append, lcol_length]; simp
    have h4 : (∑ j ∈ Finset.range k, (lsocZ c Gt l j).length) + colNnz Gt (c.startSoc l + k) < ((List.range (c.sizeSoc l)).flatMap (lsocZ c Gt l)).length := by
      rw [length_flatMap_range]
      have h1 : (∑ j ∈ Finset.range k, (lsocZ c Gt l j).length) + (lsocZ c Gt l k).length = ∑ j ∈ Finset.range (k + 1), (lsocZ c Gt l j).length :=
        (Finset.sum_range_succ _ _).symm
      have h2 : ∑ j ∈ Finset.range (k + 1), (lsocZ c Gt l j).length ≤ ∑ j ∈ Finset.range (c.sizeSoc l), (lsocZ c Gt l j).length :=
        Finset.sum_le_sum_of_subset (Finset.range_subset_range.2 (by omega))
      omega
    rw [h0, lsoc_at c δ hne hAl hGl hσ.1, lsoc, List.getElem?_append_left h4, getElem?_flatMap_range _ _ _ _ hσ.2 h3]
    · rw [lsocZ, ← lcol_length Gt (c.startSoc l + k) (c.nvars + c.neq + 2 * l + (c.startSoc l + k)), ← Nat.add_zero (lcol Gt _ _).length,
        getElem?_append_at]; rfl
    · rw [lsoc, List.length_append]; omega
  · simp only at hσ
    rw [index0, aux_at c δ hne hAl hGl hσ.1 (by omega), lsocAux, List.append_assoc, List.append_assoc, List.getElem?_append_left (by simpa using hσ.2),
      List.getElem?_map, List.getElem?_range hσ.2]; rfl
  · simp only at hσ
    have hs := hne l hσ
    have e : index0 c At Gt (.svd l) = indexSoc0 c At Gt l (c.sizeSoc l - 1) + (c.sizeSoc l - 1 + 1) := by rw [index0]; omega
    rw [e, aux_at c δ hne hAl hGl hσ (by omega), lsocAux, List.append_assoc, List.append_assoc]
    have e2 : c.sizeSoc l - 1 = ((List.range (c.sizeSoc l - 1)).map fun k => (⟨base c l + (k + 1), base c l + c.sizeSoc l, .var (.sv l k)⟩ : LT)).length + 0 := by
      simp
    conv_lhs => arg 2; rw [e2]
    rw [getElem?_append_at]; rfl
  · simp only at hσ
    have hs := hne l hσ.1
    rw [index0, aux_at c δ hne hAl hGl hσ.1 (by omega), lsocAux, List.append_assoc]
    have e2 : c.sizeSoc l + k = (((List.range (c.sizeSoc l - 1)).map fun k => (⟨base c l + (k + 1), base c l + c.sizeSoc l, .var (.sv l k)⟩ : LT)) ++
        [(⟨base c l + c.sizeSoc l, base c l + c.sizeSoc l, .var (.svd l)⟩ : LT)]).length + k := by
      simp; omega
    conv_lhs => arg 2; rw [e2]
    rw [getElem?_append_at, List.getElem?_append_left (by simpa using hσ.2), List.getElem?_map, List.getElem?_range hσ.2]; rfl
  · simp only at hσ
    have hs := hne l hσ
    rw [index0, aux_at c δ hne hAl hGl hσ (by omega), lsocAux]
    have e2 : 2 * c.sizeSoc l = ((((List.range (c.sizeSoc l - 1)).map fun k => (⟨base c l + (k + 1), base c l + c.sizeSoc l, .var (.sv l k)⟩ : LT)) ++
        [(⟨base c l + c.sizeSoc l, base c l + c.sizeSoc l, .var (.svd l)⟩ : LT)]) ++
        ((List.range (c.sizeSoc l)).map fun k => (⟨base c l + k, base c l + c.sizeSoc l + 1, .var (.su l k)⟩ : LT))).length + 0 := by
      simp; omega
    conv_lhs => arg 2; rw [e2]
    rw [getElem?_append_at]; rfl

/-- A labelled entry is at the place of its label. -/
theorem lab_rc (c : Cone) (δ : ℝ) (At Gt : Sp) (t : LT) (ht : t ∈ lcoeffs c δ At Gt) (σ : Slot) (hl : t.lab = .var σ) :
    σ ∈ slots c ∧ t.row = (σ.rc c).1 ∧ t.col = (σ.rc c).2 := by
  simp only [lcoeffs, List.mem_append, List.mem_map, List.mem_flatMap, List.mem_range, leq, llp, lsoc, lsocZ, lsocAux, lcol, List.mem_singleton] at ht
  rw [mem_slots]
  rcases ht with ((⟨i, hi, rfl⟩ | ⟨i, hi, ⟨e, he, rfl⟩ | rfl⟩) | ⟨i, hi, ⟨e, he, rfl⟩ | rfl⟩) | ⟨l, hi, ⟨k, hk, ⟨e, he, rfl⟩ | rfl⟩ | ((⟨k, hk, rfl⟩ | rfl) | ⟨k, hk, rfl⟩) | rfl⟩ <;>
    simp only [reduceCtorEq, Lab.var.injEq] at hl <;> subst hl <;> simp_all [Slot.rc]

end Lin
end Verif
