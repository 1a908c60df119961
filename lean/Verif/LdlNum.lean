import Verif.LdlSym
import Mathlib.Algebra.BigOperators.Group.Finset.Basic
import Mathlib.Algebra.BigOperators.Ring.Finset
import Mathlib.Algebra.BigOperators.Fin
import Mathlib.Data.List.Nodup
import Mathlib.Data.Finset.Dedup
import Mathlib.Tactic.Ring
import Mathlib.Tactic.FieldSimp

/-! The numeric phase: `factorize` follows the elimination tree and computes the factors. -/
namespace Verif
namespace Ldl
open Function

/-! ### arrays -/

theorem slice_length {α : Type} (f : Nat → α) (a m : Nat) : (slice f a m).length = m := by simp [slice]

theorem slice_snoc {α : Type} (f : Nat → α) (a m : Nat) : slice f a (m + 1) = slice f a m ++ [f (a + m)] := by
  simp [slice, List.range_succ]

theorem slice_cons {α : Type} (f : Nat → α) (a m : Nat) : slice f a (m + 1) = f a :: slice f (a + 1) m := by
  simp only [slice, List.range_succ_eq_map, List.map_cons, List.map_map, Nat.add_zero]
  congr 1
  apply List.map_congr_left
  intro i _
  simp only [comp_apply]
  congr 1; omega

theorem slice_congr {α : Type} {f g : Nat → α} {a m : Nat} (h : ∀ i, a ≤ i → i < a + m → f i = g i) : slice f a m = slice g a m := by
  apply List.map_congr_left
  intro i hi
  have := List.mem_range.1 hi
  exact h _ (by omega) (by omega)

theorem mem_slice {α : Type} {f : Nat → α} {a m : Nat} {x : α} : x ∈ slice f a m ↔ ∃ i < m, f (a + i) = x := by
  simp [slice]

theorem outer_le {cnt : Nat → Nat} {i j : Nat} (h : i ≤ j) : outer cnt i ≤ outer cnt j := by
  induction h with
  | refl => exact le_rfl
  | step _ ih => rw [outer]; omega

/-- The segments of different columns do not overlap. -/
theorem outer_disjoint {cnt : Nat → Nat} {i j a b : Nat} (hij : i ≠ j) (ha : a < cnt i) (hb : b < cnt j) : outer cnt i + a ≠ outer cnt j + b := by
  rcases Nat.lt_or_gt_of_ne hij with h | h
  · have h1 := outer_le (cnt := cnt) (Nat.succ_le_of_lt h)
    have h2 : outer cnt (i + 1) = outer cnt i + cnt i := rfl
    have h3 : outer cnt (Nat.succ i) = outer cnt (i + 1) := rfl
    omega
  · have h1 := outer_le (cnt := cnt) (Nat.succ_le_of_lt h)
    have h2 : outer cnt (j + 1) = outer cnt j + cnt j := rfl
    have h3 : outer cnt (Nat.succ j) = outer cnt (j + 1) := rfl
    omega

/-! ### the pattern of a row -/

/-- Every node is followed by its parent (or its parent is `k`); no repetitions. -/
def Topo (par : Nat → Option Nat) (k : Nat) : List Nat → Prop
  | [] => True
  | a :: v => a < k ∧ a ∉ v ∧ (∃ p, par a = some p ∧ (p = k ∨ p ∈ v)) ∧ Topo par k v

theorem Topo.lt {par : Nat → Option Nat} {k : Nat} {v : List Nat} (h : Topo par k v) : ∀ i ∈ v, i < k := by
  induction v with
  | nil => simp
  | cons a v ih =>
    intro i hi
    rcases List.mem_cons.1 hi with rfl | hi
    · exact h.1
    · exact ih h.2.2.2 i hi

theorem Topo.nodup {par : Nat → Option Nat} {k : Nat} {v : List Nat} (h : Topo par k v) : v.Nodup := by
  induction v with
  | nil => simp
  | cons a v ih => exact List.nodup_cons.2 ⟨h.2.1, ih h.2.2.2⟩

theorem Topo.length_le {par : Nat → Option Nat} {k : Nat} {v : List Nat} (h : Topo par k v) : v.length ≤ k := by
  have h1 : v.toFinset ⊆ Finset.range k := by
    intro i hi
    exact Finset.mem_range.2 (h.lt i (List.mem_toFinset.1 hi))
  have := Finset.card_le_card h1
  rwa [List.toFinset_card_of_nodup h.nodup, Finset.card_range] at this

theorem Topo.closed {par : Nat → Option Nat} {n k : Nat} (hg : Good n par) (hk : k < n) {v : List Nat} (h : Topo par k v) {a r : Nat} (ha : a ∈ v)
    (hr : Reach par a r) (hrk : r < k) : r ∈ v := by
  have hpar : ∀ a ∈ v, ∃ p, par a = some p ∧ (p = k ∨ p ∈ v) := by
    clear ha hr a
    induction v with
    | nil => simp
    | cons b v ih =>
      intro a ha
      rcases List.mem_cons.1 ha with rfl | ha
      · obtain ⟨p, hp, e | e⟩ := h.2.2.1
        · exact ⟨p, hp, .inl e⟩
        · exact ⟨p, hp, .inr (List.mem_cons_of_mem _ e)⟩
      · obtain ⟨p, hp, e | e⟩ := ih h.2.2.2 a ha
        · exact ⟨p, hp, .inl e⟩
        · exact ⟨p, hp, .inr (List.mem_cons_of_mem _ e)⟩
  induction hr using Relation.ReflTransGen.head_induction_on with
  | refl => exact ha
  | @head a b hab hbr ih =>
    obtain ⟨p, hp, e⟩ := hpar a ha
    rw [hab] at hp; cases hp
    rcases e with e | e
    · subst e
      have := (reach_le hg hk hbr).1; omega
    · exact ih e

/-- The walk from `row` towards `k` until a marked node. -/
theorem numWalk_spec (n : Nat) (par : Nat → Option Nat) (hg : Good n par) (k : Nat) (hk : k < n) (T : List Nat) (hT : Topo par k T)
    (f row len : Nat) (flag : Nat → Int) (pat : Nat → Nat) (hrow : row ≤ k) (hr : Reach par row k) (hf : k < f + row) (hfk : flag k = k)
    (hfl : ∀ i, row ≤ i → i < k → (flag i = k ↔ i ∈ T)) :
    ∃ P pat', numWalk par k f row len flag pat = some (len + P.length, (fun i => if i ∈ P then (k : Int) else flag i), pat') ∧
      slice pat' len P.length = P ∧ (∀ j, j < len ∨ len + P.length ≤ j → pat' j = pat j) ∧ Topo par k (P ++ T) ∧
      (row = k ∨ row ∈ P ++ T) ∧ (∀ i ∈ P, row ≤ i ∧ Reach par row i) := by
  induction f generalizing row len flag pat with
  | zero => omega
  | succ f ih =>
    rw [numWalk]
    by_cases h : flag row = k
    · rw [if_pos h]
      refine ⟨[], pat, by simp, by simp [slice], by simp, hT, ?_, by simp⟩
      rcases hrow.lt_or_eq with h' | h'
      · exact .inr ((hfl row le_rfl h').1 h)
      · exact .inl h'
    · rw [if_neg h]
      have hlt : row < k := by
        rcases hrow.lt_or_eq with h' | h'
        · exact h'
        · exact absurd (h' ▸ hfk) h
      obtain ⟨p, hp, hpk⟩ : ∃ p, par row = some p ∧ Reach par p k := by
        rcases Relation.ReflTransGen.cases_head hr with e | ⟨p, hp, hpk⟩
        · omega
        · exact ⟨p, hp, hpk⟩
      have hp1 := hg row (by omega) p hp
      have hp2 := (reach_le hg hp1.2 hpk).1
      simp only [hp]
      obtain ⟨P, pat', e1, e2, e3, e4, e5, e6⟩ := ih p (len + 1) (update flag row k) (update pat len row) hp2 hpk (by omega)
        (by rw [update_of_ne (by omega)]; exact hfk)
        (fun i hi hik => by rw [update_of_ne (by omega)]; exact hfl i (by omega) hik)
      refine ⟨row :: P, pat', ?_, ?_, ?_, ?_, by simp, ?_⟩
      · rw [e1]
        refine congrArg some (Prod.ext (by simp; omega) (Prod.ext ?_ rfl))
        funext i
        simp only [List.mem_cons]
        by_cases hir : i = row
        · subst hir; simp
        · simp [hir]
      · simp only [List.length_cons]
        rw [slice_cons, e2, e3 len (by omega), update_self]
      · intro j hj
        simp only [List.length_cons] at hj
        rw [e3 j (by omega), update_of_ne (by omega)]
      · refine ⟨hlt, ?_, ⟨p, hp, e5⟩, e4⟩
        intro hm
        rcases List.mem_append.1 hm with hm | hm
        · have := (e6 row hm).1; omega
        · exact h ((hfl row le_rfl hlt).2 hm)
      · intro i hi
        rcases List.mem_cons.1 hi with rfl | hi
        · exact ⟨le_rfl, .refl⟩
        · have := e6 i hi
          exact ⟨by omega, Relation.ReflTransGen.head hp this.2⟩

theorem pushPath_spec (P T : List Nat) (top m : Nat) (pat : Nat → Nat) (hle : P.length ≤ top) (hP : slice pat 0 P.length = P)
    (hT : slice pat top m = T) :
    ∃ pat', pushPath P.length top pat = (top - P.length, pat') ∧ slice pat' (top - P.length) (P.length + m) = P ++ T := by
  induction P using List.reverseRecOn generalizing top m T pat with
  | nil => exact ⟨pat, by simp [pushPath], by simpa using hT⟩
  | append_singleton P x ih =>
    simp only [List.length_append, List.length_singleton] at hle hP ⊢
    rw [slice_snoc] at hP
    obtain ⟨h1, h2⟩ := List.append_inj' hP rfl
    simp only [Nat.zero_add, List.cons.injEq, and_true] at h2
    rw [pushPath, h2]
    obtain ⟨pat', e1, e2⟩ := ih (x :: T) (top - 1) (m + 1) (update pat (top - 1) x) (by omega)
      (by
        rw [← h1]
        conv_lhs => rw [h1]
        apply slice_congr
        intro i _ hi
        rw [update_of_ne (by omega)])
      (by
        rw [slice_cons, update_self, ← hT]
        congr 1
        have : top - 1 + 1 = top := by omega
        rw [this]
        apply slice_congr
        intro i hi _
        rw [update_of_ne (by omega)])
    refine ⟨pat', by rw [e1]; congr 1; omega, ?_⟩
    have e3 : top - 1 - P.length = top - (P.length + 1) := by omega
    have e4 : P.length + (m + 1) = P.length + 1 + m := by omega
    rw [e3, e4] at e2
    rw [e2]; simp

/-- Sum of the values stored for row `r`. -/
noncomputable def rowSum (l : List (Nat × ℝ)) (r : Nat) : ℝ := (l.map fun e => if e.1 = r then e.2 else 0).sum

theorem rowSum_nil (r : Nat) : rowSum [] r = 0 := rfl
theorem rowSum_cons (e : Nat × ℝ) (l : List (Nat × ℝ)) (r : Nat) : rowSum (e :: l) r = (if e.1 = r then e.2 else 0) + rowSum l r := by
  simp [rowSum]
theorem rowSum_append (l l' : List (Nat × ℝ)) (r : Nat) : rowSum (l ++ l') r = rowSum l r + rowSum l' r := by simp [rowSum]

theorem rowSum_eq_zero {l : List (Nat × ℝ)} {r : Nat} (h : ∀ e ∈ l, e.1 ≠ r) : rowSum l r = 0 := by
  induction l with
  | nil => rfl
  | cons e l ih =>
    rw [rowSum_cons, if_neg (h e (by simp)), ih fun e he => h e (List.mem_cons_of_mem _ he), add_zero]

theorem exists_of_rowSum_ne {l : List (Nat × ℝ)} {r : Nat} (h : rowSum l r ≠ 0) : ∃ e ∈ l, e.1 = r := by
  by_contra hn
  push Not at hn
  exact h (rowSum_eq_zero hn)

/-- The entries loaded into the work vector. -/
theorem load_spec (l : List (Nat × ℝ)) (hl : (l.map Prod.fst).Nodup) (y : Nat → ℝ) (i : Nat) :
    l.foldl (fun y e => update y e.1 e.2) y i = if i ∈ l.map Prod.fst then rowSum l i else y i := by
  induction l generalizing y with
  | nil => simp
  | cons e l ih =>
    simp only [List.map_cons, List.nodup_cons] at hl
    rw [List.foldl_cons, ih hl.2]
    by_cases hi : i ∈ l.map Prod.fst
    · have hne : e.1 ≠ i := fun h => hl.1 (h ▸ hi)
      rw [if_pos hi, if_pos (by simp only [List.map_cons, List.mem_cons]; exact .inr hi), rowSum_cons, if_neg hne, zero_add]
    · rw [if_neg hi]
      by_cases he : i = e.1
      · subst he
        rw [update_self, if_pos (by simp), rowSum_cons, if_pos rfl, rowSum_eq_zero, add_zero]
        intro e' he' h
        exact hi (List.mem_map.2 ⟨e', he', h⟩)
      · rw [update_of_ne he, if_neg (by simp only [List.map_cons, List.mem_cons]; tauto)]

/-- The first loop of a pass finds the pattern of the row in topological order. -/
theorem scatter_spec (n : Nat) (par : Nat → Option Nat) (hg : Good n par) (k : Nat) (hk : k < n) (l : List (Nat × ℝ))
    (hl : ∀ e ∈ l, e.1 ≤ k ∧ Reach par e.1 k) (T : List Nat) (s : Num) (hT : Topo par k T) (hpat : slice s.pat (n - T.length) T.length = T)
    (hfk : s.flag k = k) (hfl : ∀ i < k, s.flag i = k ↔ i ∈ T) (hle : ∀ i < k, s.flag i ≤ k) :
    ∃ T' s', scatter n par k l (n - T.length) s = some (n - T'.length, s') ∧ Topo par k T' ∧ slice s'.pat (n - T'.length) T'.length = T' ∧
      s'.flag k = k ∧ (∀ i < k, s'.flag i ≤ k) ∧ (∀ e ∈ l, e.1 = k ∨ e.1 ∈ T') ∧ (∀ i ∈ T, i ∈ T') ∧
      (∀ i ∈ T', i ∈ T ∨ ∃ e ∈ l, Reach par e.1 i) ∧
      s'.y = l.foldl (fun y e => update y e.1 e.2) s.y ∧ s'.d = s.d ∧ s'.lnnz = s.lnnz ∧ s'.li = s.li ∧ s'.lx = s.lx := by
  induction l generalizing T s with
  | nil => exact ⟨T, s, rfl, hT, hpat, hfk, hle, by simp, fun _ h => h, fun _ h => .inl h, rfl, rfl, rfl, rfl, rfl⟩
  | cons e l ih =>
    have he := hl e (by simp)
    obtain ⟨P, pat1, e1, e2, e3, e4, e5, e6⟩ := numWalk_spec n par hg k hk T hT (n + 1) e.1 0 s.flag s.pat he.1 he.2 (by omega) hfk
      (fun i _ hi => hfl i hi)
    have hlen := e4.length_le
    rw [List.length_append] at hlen
    rw [Nat.zero_add] at e1 e3
    obtain ⟨pat2, p1, p2⟩ := pushPath_spec P T (n - T.length) T.length pat1 (by omega) e2 (by
      rw [← hpat]
      conv_lhs => rw [hpat]
      apply slice_congr
      intro i hi _
      exact e3 i (by omega))
    have hlen2 : n - T.length - P.length = n - (P ++ T).length := by rw [List.length_append]; omega
    rw [hlen2] at p1 p2
    rw [← List.length_append] at p2
    obtain ⟨T', s', c1, c2, c3, c4, c5, c6, c7, c8, c9, c10⟩ := ih (fun e h => hl e (List.mem_cons_of_mem _ h)) (P ++ T)
      { s with y := update s.y e.1 e.2, flag := fun i => if i ∈ P then (k : Int) else s.flag i, pat := pat2 } e4 p2
      (by show (if k ∈ P then (k : Int) else s.flag k) = k; split <;> [rfl; exact hfk])
      (by
        intro i hi
        show (if i ∈ P then (k : Int) else s.flag i) = k ↔ _
        rw [List.mem_append]
        split
        · rename_i h; simp [h]
        · rename_i h; simp [h, hfl i hi])
      (by
        intro i hi
        show (if i ∈ P then (k : Int) else s.flag i) ≤ k
        split
        · exact le_rfl
        · exact hle i hi)
    refine ⟨T', s', ?_, c2, c3, c4, c5, ?_, ?_, ?_, ?_, c10⟩
    · rw [scatter, e1]
      simp only [Option.bind_eq_bind, Option.bind_some, p1]
      exact c1
    · intro e' he'
      rcases List.mem_cons.1 he' with rfl | h
      · rcases e5 with h | h
        · exact .inl h
        · exact .inr (c7 _ h)
      · exact c6 e' h
    · intro i hi; exact c7 i (List.mem_append_right _ hi)
    · intro i hi
      rcases c8 i hi with h | ⟨e', he', h⟩
      · rcases List.mem_append.1 h with h | h
        · exact .inr ⟨e, by simp, (e6 i h).2⟩
        · exact .inl h
      · exact .inr ⟨e', List.mem_cons_of_mem _ he', h⟩
    · rw [c9]; rfl

/-! ### elimination -/

/-- The filled part of column `i` of the factor. -/
def colOf (lp : Nat → Nat) (s : Num) (i : Nat) : List (Nat × ℝ) := slice (fun p => (s.li p, s.lx p)) (lp i) (s.lnnz i)

theorem axpy_spec (l : List (Nat × ℝ)) (c : ℝ) (y : Nat → ℝ) (r : Nat) :
    l.foldl (fun y e => update y e.1 (y e.1 - e.2 * c)) y r = y r - rowSum l r * c := by
  induction l generalizing y with
  | nil => simp [rowSum_nil]
  | cons e l ih =>
    rw [List.foldl_cons, ih, rowSum_cons]
    by_cases h : e.1 = r
    · subst h; rw [update_self, if_pos rfl]; ring
    · rw [update_of_ne (Ne.symm h), if_neg h]; ring

theorem elim_y (lp : Nat → Nat) (k : Nat) (s : Num) (i r : Nat) :
    (elim lp k s i).y r = update s.y i 0 r - rowSum (colOf lp s i) r * s.y i := by
  have : (elim lp k s i).y = (colOf lp s i).foldl (fun y e => update y e.1 (y e.1 - e.2 * s.y i)) (update s.y i 0) := by
    rw [colOf, slice, List.foldl_map]; rfl
  rw [this, axpy_spec]

/-- Elimination with one column appends one entry to it and leaves the other columns alone. -/
theorem elim_col (cnt : Nat → Nat) (k : Nat) (s : Num) (i j : Nat) (hi : s.lnnz i < cnt i) (hj : s.lnnz j ≤ cnt j) :
    colOf (outer cnt) (elim (outer cnt) k s i) j =
      if j = i then colOf (outer cnt) s i ++ [(k, s.y i / s.d i)] else colOf (outer cnt) s j := by
  split
  · rename_i h; subst h
    unfold colOf
    have : (elim (outer cnt) k s j).lnnz j = s.lnnz j + 1 := by simp [elim]
    rw [this, slice_snoc]
    congr 1
    · apply slice_congr
      intro p _ hp
      have hne : p ≠ outer cnt j + s.lnnz j := by omega
      simp [elim, update_of_ne hne]
    · simp [elim]
  · rename_i h
    unfold colOf
    have : (elim (outer cnt) k s i).lnnz j = s.lnnz j := by simp [elim, update_of_ne h]
    rw [this]
    apply slice_congr
    intro p hp1 hp2
    have hne : p ≠ outer cnt i + s.lnnz i := by
      have := outer_disjoint (cnt := cnt) (i := j) (j := i) (a := p - outer cnt j) (b := s.lnnz i) h (by omega) hi
      omega
    simp [elim, update_of_ne hne]

/-- The elimination loop solves the triangular system for row `k` of the factor. -/
theorem elim_fold (n : Nat) (par : Nat → Option Nat) (hg : Good n par) (cnt : Nat → Nat) (k : Nat) (hk : k < n) (v : List Nat) (s : Num)
    (hT : Topo par k v)
    (hcol : ∀ j ∈ v, ∀ e ∈ colOf (outer cnt) s j, e.1 < k ∧ j < e.1 ∧ Reach par j e.1)
    (hcap : ∀ j < k, s.lnnz j ≤ cnt j) (hcap' : ∀ j ∈ v, s.lnnz j < cnt j) :
    ∃ y : Nat → ℝ, (∀ i, i ∉ v → y i = 0) ∧
      (∀ i ∈ v, s.y i = y i + ∑ j ∈ Finset.range k, rowSum (colOf (outer cnt) s j) i * y j) ∧
      (∀ i, (v.foldl (elim (outer cnt) k) s).y i = if i ∈ v then 0 else s.y i) ∧
      (v.foldl (elim (outer cnt) k) s).d = update s.d k (s.d k - ∑ j ∈ Finset.range k, y j / s.d j * y j) ∧
      (∀ j < k, colOf (outer cnt) (v.foldl (elim (outer cnt) k) s) j =
        colOf (outer cnt) s j ++ if j ∈ v then [(k, y j / s.d j)] else []) ∧
      (∀ j, (v.foldl (elim (outer cnt) k) s).lnnz j = s.lnnz j + if j ∈ v then 1 else 0) ∧
      (v.foldl (elim (outer cnt) k) s).flag = s.flag := by
  induction v generalizing s with
  | nil => exact ⟨fun _ => 0, by simp, by simp, by simp, by simp, by simp, by simp, rfl⟩
  | cons a w ih =>
    obtain ⟨hak, haw, hpar, hTw⟩ := hT
    have hTaw : Topo par k (a :: w) := ⟨hak, haw, hpar, hTw⟩
    set s1 := elim (outer cnt) k s a with hs1
    have hca := hcap' a (by simp)
    have hcol1 : ∀ j < k, colOf (outer cnt) s1 j =
        if j = a then colOf (outer cnt) s a ++ [(k, s.y a / s.d a)] else colOf (outer cnt) s j :=
      fun j hj => elim_col cnt k s a j hca (hcap j hj)
    have hln1 : ∀ j, s1.lnnz j = s.lnnz j + if j = a then 1 else 0 := by
      intro j
      rw [hs1]
      by_cases h : j = a
      · subst h; simp [elim]
      · simp [elim, update_of_ne h, h]
    have hne : ∀ j ∈ w, j ≠ a := fun j hj e => haw (e ▸ hj)
    have hd1 : ∀ j < k, s1.d j = s.d j := by
      intro j hj
      rw [hs1]; simp [elim, update_of_ne (show j ≠ k by omega)]
    obtain ⟨y', b1, b2, b3, b4, b5, b6, b7⟩ := ih s1 hTw
      (by
        intro j hj e he
        rw [hcol1 j (hTw.lt j hj), if_neg (hne j hj)] at he
        exact hcol j (List.mem_cons_of_mem _ hj) e he)
      (by
        intro j hj
        rw [hln1]
        by_cases h : j = a
        · subst h; rw [if_pos rfl]; exact hca
        · rw [if_neg h]; exact hcap j hj)
      (by
        intro j hj
        rw [hln1, if_neg (hne j hj)]
        exact hcap' j (List.mem_cons_of_mem _ hj))
    have hya : y' a = 0 := b1 a haw
    -- sums with the columns of `s1` are sums with the columns of `s`
    have hsum : ∀ i, ∑ j ∈ Finset.range k, rowSum (colOf (outer cnt) s1 j) i * y' j =
        ∑ j ∈ Finset.range k, rowSum (colOf (outer cnt) s j) i * y' j := by
      intro i
      apply Finset.sum_congr rfl
      intro j hj
      by_cases h : j = a
      · subst h; rw [hya, mul_zero, mul_zero]
      · rw [hcol1 j (Finset.mem_range.1 hj), if_neg h]
    set y : Nat → ℝ := fun j => y' j + if j = a then s.y a else 0 with hy
    have hsplit : ∀ i, ∑ j ∈ Finset.range k, rowSum (colOf (outer cnt) s j) i * y j =
        (∑ j ∈ Finset.range k, rowSum (colOf (outer cnt) s j) i * y' j) + rowSum (colOf (outer cnt) s a) i * s.y a := by
      intro i
      simp only [hy, mul_add, Finset.sum_add_distrib, mul_ite, mul_zero]
      rw [Finset.sum_ite_eq' (Finset.range k) a, if_pos (Finset.mem_range.2 hak)]
    have hyw : ∀ i, i ≠ a → y i = y' i := by intro i hi; simp [hy, hi]
    have hyaa : y a = s.y a := by simp [hy, hya]
    -- no column of `a :: w` has an entry in row `a`
    have hrowa : ∀ j ∈ a :: w, rowSum (colOf (outer cnt) s j) a = 0 := by
      intro j hj
      apply rowSum_eq_zero
      intro e he h
      have := hcol j hj e he
      rcases List.mem_cons.1 hj with rfl | hj'
      · omega
      · exact haw (h ▸ hTw.closed hg hk hj' this.2.2 this.1)
    have hmem : ∀ i, i ∈ a :: w ↔ i = a ∨ i ∈ w := fun i => List.mem_cons
    refine ⟨y, ?_, ?_, ?_, ?_, ?_, ?_, ?_⟩
    · intro i hi
      rw [hmem] at hi; push Not at hi
      rw [hyw i hi.1, b1 i hi.2]
    · intro i hi
      rcases List.mem_cons.1 hi with rfl | hi'
      · rw [hyaa]
        have : ∑ j ∈ Finset.range k, rowSum (colOf (outer cnt) s j) i * y j = 0 := by
          apply Finset.sum_eq_zero
          intro j _
          by_cases hj : j ∈ i :: w
          · rw [hrowa j hj, zero_mul]
          · rw [hmem] at hj; push Not at hj
            rw [hyw j hj.1, b1 j hj.2, mul_zero]
        rw [this, add_zero]
      · have h1 := b2 i hi'
        rw [hsum, hs1, elim_y, update_of_ne (hne i hi')] at h1
        rw [hsplit, hyw i (hne i hi')]
        linarith
    · intro i
      rw [List.foldl_cons, b3]
      by_cases hiw : i ∈ w
      · rw [if_pos hiw, if_pos (List.mem_cons_of_mem _ hiw)]
      · rw [if_neg hiw, hs1, elim_y]
        by_cases hia : i = a
        · subst hia
          rw [update_self, hrowa i (by simp), if_pos (by simp)]; ring
        · rw [update_of_ne hia, if_neg (by rw [hmem]; tauto)]
          have : rowSum (colOf (outer cnt) s a) i = 0 := by
            apply rowSum_eq_zero
            intro e he h
            have := hcol a (by simp) e he
            have := hTaw.closed hg hk (by simp) this.2.2 this.1
            rw [h, hmem] at this
            tauto
          rw [this]; ring
    · rw [List.foldl_cons, b4]
      have e1 : s1.d = update s.d k (s.d k - s.y a / s.d a * s.y a) := by rw [hs1]; rfl
      rw [e1, update_idem, update_self]
      congr 1
      have : ∑ j ∈ Finset.range k, y j / s.d j * y j = (∑ j ∈ Finset.range k, y' j / s.d j * y' j) + s.y a / s.d a * s.y a := by
        have h : ∀ j ∈ Finset.range k, y j / s.d j * y j = y' j / s.d j * y' j + if j = a then s.y a / s.d a * s.y a else 0 := by
          intro j _
          by_cases h : j = a
          · subst h; rw [hyaa, hya, if_pos rfl]; ring
          · rw [hyw j h, if_neg h, add_zero]
        rw [Finset.sum_congr rfl h, Finset.sum_add_distrib, Finset.sum_ite_eq' (Finset.range k) a, if_pos (Finset.mem_range.2 hak)]
      rw [this]
      have h2 : ∑ j ∈ Finset.range k, y' j / update s.d k (s.d k - s.y a / s.d a * s.y a) j * y' j =
          ∑ j ∈ Finset.range k, y' j / s.d j * y' j := by
        apply Finset.sum_congr rfl
        intro j hj
        rw [update_of_ne (by have := Finset.mem_range.1 hj; omega)]
      rw [h2]; ring
    · intro j hj
      rw [List.foldl_cons, b5 j hj, hcol1 j hj]
      by_cases hja : j = a
      · subst hja
        rw [if_pos rfl, if_neg haw, if_pos (by simp), hyaa, List.append_nil]
      · rw [if_neg hja, hd1 j hj, hyw j hja]
        congr 1
        simp [hja]
    · intro j
      rw [List.foldl_cons, b6, hln1]
      by_cases hja : j = a
      · subst hja; simp [haw]
      · simp [hja]
    · rw [List.foldl_cons, b7, hs1]; rfl

end Ldl
end Verif
