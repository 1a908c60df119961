import Verif.LdlFac
import Mathlib.LinearAlgebra.Matrix.Notation
import Mathlib.Data.Matrix.Mul
import Mathlib.LinearAlgebra.Matrix.Block
import Mathlib.LinearAlgebra.Matrix.NonsingularInverse
import Mathlib.Data.Matrix.Diagonal
import Mathlib.Data.Fin.VecNotation
import Mathlib.Tactic.IntervalCases

/-! C23: the sparse factorisation reproduces the matrix and `solve` solves the system. -/
namespace Verif
namespace Ldl
open Function Matrix

/-- The symmetric matrix whose upper triangle is stored: entry `(i, j)` with `i ≤ j` is the sum of what column `j` holds for row `i`. -/
noncomputable def full (n : Nat) (A : Cols) : Matrix (Fin n) (Fin n) ℝ :=
  of fun i j => if i ≤ j then ((A j).map fun e => if e.1 = i.val then e.2 else 0).sum else ((A i).map fun e => if e.1 = j.val then e.2 else 0).sum

/-- The unit lower triangular matrix held in `L_`: the stored entries below a diagonal of ones. -/
noncomputable def factorL (n : Nat) (lp : Nat → Nat) (s : Num) : Matrix (Fin n) (Fin n) ℝ :=
  of fun i j => if i = j then 1 else
    ((List.range (lp (j.val + 1) - lp j)).map fun q => if s.li (lp j + q) = i.val then s.lx (lp j + q) else 0).sum

/-- `B` has the same stored positions as `A`. -/
def SamePattern (n : Nat) (A B : Cols) : Prop := ∀ k < n, (A k).map Prod.fst = (B k).map Prod.fst

theorem SamePattern.inRow {n : Nat} {A B : Cols} (h : SamePattern n A B) (par : Nat → Option Nat) {k : Nat} (hk : k < n) (i : Nat) :
    InRow A par k i ↔ InRow B par k i := by
  have key : ∀ {A B : Cols}, SamePattern n A B → InRow A par k i → InRow B par k i := by
    rintro A B h ⟨h1, e, he, hr⟩
    have hm : e.1 ∈ (B k).map Prod.fst := h k hk ▸ List.mem_map.2 ⟨e, he, rfl⟩
    obtain ⟨e', he', h'⟩ := List.mem_map.1 hm
    exact ⟨h1, e', he', h' ▸ hr⟩
  exact ⟨key h, key fun k hk => (h k hk).symm⟩

theorem SamePattern.symInv {n : Nat} {A B : Cols} (h : SamePattern n A B) {t : Sym} (ht : SymInv A n t) : SymInv B n t := by
  classical
  refine ⟨ht.good, ?_, ?_, ht.flag⟩
  · intro k hk e he
    have hm : e.1 ∈ (A k).map Prod.fst := h k hk ▸ List.mem_map.2 ⟨e, he, rfl⟩
    obtain ⟨e', he', h'⟩ := List.mem_map.1 hm
    exact h' ▸ ht.reach k hk e' he'
  · intro i hi
    rw [ht.cnt i hi]
    congr 1
    apply Finset.filter_congr
    intro k hk
    exact h.inRow _ (Finset.mem_range.1 hk) i

theorem SamePattern.upper {n : Nat} {A B : Cols} (h : SamePattern n A B) (hA : Upper n A) : Upper n B := by
  intro k hk
  refine ⟨?_, h k hk ▸ (hA k hk).2⟩
  intro e he
  have hm : e.1 ∈ (A k).map Prod.fst := h k hk ▸ List.mem_map.2 ⟨e, he, rfl⟩
  obtain ⟨e', he', h'⟩ := List.mem_map.1 hm
  exact h' ▸ (hA k hk).1 e' he'

theorem factorL_eq {n : Nat} {A : Cols} {t : Sym} (ht : SymInv A n t) {eps delta : ℝ} {sign : Nat → ℝ} {s : Num}
    (w : NumInv A t.parent t.lnnz eps delta sign n s) (i j : Fin n) : factorL n (outer t.lnnz) s i j = lf (outer t.lnnz) s i j := by
  simp only [factorL, of_apply, lf]
  by_cases h : i = j
  · rw [if_pos h, if_pos (by rw [h])]
  · rw [if_neg h, if_neg (fun e => h (Fin.ext e)), full_col ht w j.2, rowSum, colOf, slice, List.map_map]
    rfl

/-- The pivots before regularisation. -/
noncomputable def pivot (A : Cols) (lp : Nat → Nat) (s : Num) (c : Nat) : ℝ :=
  ent A c c - ∑ m ∈ Finset.range c, lf lp s c m * (s.d m * lf lp s c m)

theorem ldl_entry {n : Nat} {A : Cols} {t : Sym} {eps delta : ℝ} {sign : Nat → ℝ} {s : Num}
    (w : NumInv A t.parent t.lnnz eps delta sign n s) {i c : Nat} (hi : i ≤ c) (hc : c < n) :
    ∑ m ∈ Finset.range n, lf (outer t.lnnz) s i m * (s.d m * lf (outer t.lnnz) s c m) =
      ent A i c + if i = c then s.d c - pivot A (outer t.lnnz) s c else 0 := by
  set L := lf (outer t.lnnz) s with hL
  have hsplit : ∑ m ∈ Finset.range n, L i m * (s.d m * L c m) = ∑ m ∈ Finset.range (c + 1), L i m * (s.d m * L c m) := by
    symm
    apply Finset.sum_subset (Finset.range_subset_range.2 (by omega))
    intro m hm hm'
    rw [Finset.mem_range] at hm hm'
    rw [hL, w.lf_zero (i := c) hm (by omega)]; ring
  rw [hsplit, Finset.sum_range_succ]
  have hcc : L c c = 1 := by rw [hL, lf, if_pos rfl]
  rcases hi.lt_or_eq with h | h
  · rw [if_neg (by omega), w.off c hc i h, hL, w.lf_zero (i := i) hc h]; ring
  · subst h
    rw [if_pos rfl, hcc, pivot, ← hL]; ring

/-- **C23** (factorisation). Let a matrix be analysed once (whatever the arrays held) and factorised with any values in the same
positions (whatever was factorised before). Both functions finish; the result is a unit lower triangular `L` and nonzero pivots `D` with
`L D Lᵀ = K + E`, where `E` is diagonal and vanishes for every pivot that passes the test of the dynamic regularisation; a pivot that does
not pass is replaced by the configured value with the required sign. -/
theorem C23_factorization (n : Nat) (A0 A : Cols) (hA : Upper n A0) (hp : SamePattern n A0 A) (eps delta : ℝ) (sign : Nat → ℝ) (heps : 0 ≤ eps)
    (hdelta : 0 < delta) (hsign : ∀ i < n, sign i = 1 ∨ sign i = -1) (t0 : Sym) (s0 : Num) :
    ∃ t s, analyze n A0 t0 = some t ∧ factorize n A t.parent (outer t.lnnz) eps delta sign s0 = some s ∧
      (∀ i j, i < j → factorL n (outer t.lnnz) s i j = 0) ∧ (∀ i, factorL n (outer t.lnnz) s i i = 1) ∧
      (∀ i < n, 0 < sign i * s.d i) ∧
      ∃ E : Fin n → ℝ, factorL n (outer t.lnnz) s * diagonal (fun i : Fin n => s.d i) * (factorL n (outer t.lnnz) s)ᵀ = full n A + diagonal E ∧
        ∀ i : Fin n, (eps < sign i * (s.d i - E i) → E i = 0) ∧ (sign i * (s.d i - E i) ≤ eps → s.d i = sign i * delta) := by
  obtain ⟨t, h1, ht0⟩ := analyze_spec n A0 hA t0
  have ht := hp.symInv ht0
  have hne : ∀ i < n, sign i ≠ 0 := by
    intro i hi h
    rcases hsign i hi with e | e <;> rw [e] at h <;> norm_num at h
  obtain ⟨s, h2, w⟩ := factorize_spec n A (hp.upper hA) t ht eps delta sign heps hdelta.ne' hne s0
  refine ⟨t, s, h1, h2, ?_, ?_, ?_, fun i => s.d i - pivot A (outer t.lnnz) s i, ?_, ?_⟩
  · intro i j hij
    rw [factorL_eq ht w]
    exact w.lf_zero j.2 hij
  · intro i; rw [factorL_eq ht w, lf, if_pos rfl]
  · intro i hi
    rw [w.diag i hi, regularize]
    have hs : sign i * sign i = 1 := by rcases hsign i hi with e | e <;> rw [e] <;> norm_num
    split
    · rw [← mul_assoc, hs, one_mul]; exact hdelta
    · rename_i h; push Not at h; linarith
  · ext i j
    rw [Matrix.mul_apply]
    simp only [Matrix.mul_diagonal, Matrix.transpose_apply, factorL_eq ht w, Matrix.add_apply]
    have hsum : ∀ a b : Nat, (∑ m : Fin n, lf (outer t.lnnz) s a m * s.d m * lf (outer t.lnnz) s b m) =
        ∑ m ∈ Finset.range n, lf (outer t.lnnz) s a m * (s.d m * lf (outer t.lnnz) s b m) := by
      intro a b
      rw [Finset.sum_range]
      exact Finset.sum_congr rfl fun m _ => by ring
    rw [hsum]
    rcases le_total i j with hij | hij
    · rw [ldl_entry w hij j.2, full, of_apply, if_pos hij]
      congr 1
      by_cases h : i = j
      · subst h; rw [if_pos rfl, diagonal_apply_eq]
      · rw [if_neg (fun e => h (Fin.ext e)), diagonal_apply_ne _ h]
    · have hc : ∑ m ∈ Finset.range n, lf (outer t.lnnz) s i m * (s.d m * lf (outer t.lnnz) s j m) =
          ∑ m ∈ Finset.range n, lf (outer t.lnnz) s j m * (s.d m * lf (outer t.lnnz) s i m) :=
        Finset.sum_congr rfl fun m _ => by ring
      rw [hc, ldl_entry w hij i.2, full, of_apply]
      by_cases h : i = j
      · subst h; rw [if_pos rfl, if_pos le_rfl, diagonal_apply_eq]; rfl
      · have hlt : ¬ i ≤ j := fun h' => h (le_antisymm h' hij)
        rw [if_neg (fun e => h (Fin.ext e).symm), if_neg hlt, diagonal_apply_ne _ h]; rfl
  · intro i
    have hd := w.diag i i.2
    have hpv : s.d i - (s.d i - pivot A (outer t.lnnz) s i) = pivot A (outer t.lnnz) s i := by ring
    simp only [hpv]
    change s.d i = regularize eps delta (sign i) (pivot A (outer t.lnnz) s i) at hd
    rw [regularize] at hd
    constructor
    · intro h; rw [if_neg (not_le.2 h)] at hd; rw [hd, sub_self]
    · intro h; rw [if_pos h] at hd; exact hd

/-- **C23** (solve). With the factors of the previous theorem, `solve` returns the solution of the system with the matrix that was
factorised, for every right-hand side. -/
theorem C23_solve (n : Nat) (A0 A : Cols) (hA : Upper n A0) (hp : SamePattern n A0 A) (eps delta : ℝ) (sign : Nat → ℝ) (heps : 0 ≤ eps)
    (hdelta : 0 < delta) (hsign : ∀ i < n, sign i = 1 ∨ sign i = -1) (t0 t : Sym) (s0 s : Num) (h1 : analyze n A0 t0 = some t)
    (h2 : factorize n A t.parent (outer t.lnnz) eps delta sign s0 = some s) (b : Nat → ℝ) :
    (factorL n (outer t.lnnz) s * diagonal (fun i : Fin n => s.d i) * (factorL n (outer t.lnnz) s)ᵀ) *ᵥ (fun i : Fin n => solve n (outer t.lnnz) s b i) =
      fun i : Fin n => b i := by
  obtain ⟨t', h1', ht0⟩ := analyze_spec n A0 hA t0
  rw [h1] at h1'; cases h1'
  have ht := hp.symInv ht0
  have hne : ∀ i < n, sign i ≠ 0 := by
    intro i hi h
    rcases hsign i hi with e | e <;> rw [e] at h <;> norm_num at h
  obtain ⟨s', h2', w⟩ := factorize_spec n A (hp.upper hA) t ht eps delta sign heps hdelta.ne' hne s0
  rw [h2] at h2'; cases h2'
  have hdne : ∀ i < n, s.d i ≠ 0 := fun i hi => by
    rw [w.diag i hi]; exact regularize_ne_zero heps hdelta.ne' (hne i hi)
  set x1 := (List.range n).foldl (fwdCol (outer t.lnnz) s) b with hx1
  set x2 := (List.range n).foldl (fun x j => update x j (x j / s.d j)) x1 with hx2
  have hx : solve n (outer t.lnnz) s b = (List.range n).reverse.foldl (bwdCol (outer t.lnnz) s) x2 := rfl
  rw [← Matrix.mulVec_mulVec, ← Matrix.mulVec_mulVec]
  have e1 : (factorL n (outer t.lnnz) s)ᵀ *ᵥ (fun i : Fin n => solve n (outer t.lnnz) s b i) = fun i : Fin n => x2 i := by
    funext j
    rw [Matrix.mulVec, dotProduct]
    simp only [Matrix.transpose_apply, factorL_eq ht w, hx]
    rw [← bwd_spec ht w x2 j j.2, Finset.sum_range]
  have e2 : diagonal (fun i : Fin n => s.d i) *ᵥ (fun i : Fin n => x2 i) = fun i : Fin n => x1 i := by
    funext i
    rw [Matrix.mulVec_diagonal, hx2, div_spec, if_pos i.2, mul_div_cancel₀ _ (hdne i i.2)]
  rw [e1, e2]
  funext i
  rw [Matrix.mulVec, dotProduct]
  simp only [factorL_eq ht w]
  rw [← fwd_spec ht w b i i.2, Finset.sum_range]

/-- `K` is quasi-definite with margin `mu`: after changing the sign of the rows that belong to negative pivots, its symmetric part is at
least `mu` times the identity. -/
def QuasiDefinite (n : Nat) (K : Matrix (Fin n) (Fin n) ℝ) (sign : Nat → ℝ) (mu : ℝ) : Prop :=
  ∀ v : Fin n → ℝ, mu * ∑ i, v i ^ 2 ≤ ∑ i : Fin n, sign i * v i * (K *ᵥ v) i

/-- Back substitution: `Lᵀ x = e_k` has a solution that ends at `k` with `x k = 1`. -/
theorem exists_unit_column (n : Nat) (L : Matrix (Fin n) (Fin n) ℝ) (hlow : ∀ i j, i < j → L i j = 0) (hone : ∀ i, L i i = 1) (k : Fin n) :
    ∃ x : Fin n → ℝ, x k = 1 ∧ (∀ i, k < i → x i = 0) ∧ Lᵀ *ᵥ x = Pi.single k 1 := by
  have hdet : Lᵀ.det = 1 := by
    rw [det_transpose, det_of_isLowerTriangular L (fun i j h => hlow i j h)]
    simp [hone]
  have hu : IsUnit Lᵀ.det := by rw [hdet]; exact isUnit_one
  set x := Lᵀ⁻¹ *ᵥ Pi.single k 1 with hx
  have hxe : Lᵀ *ᵥ x = Pi.single k 1 := by
    rw [hx, mulVec_mulVec, mul_nonsing_inv _ hu, one_mulVec]
  -- row `i` of the system: `x i + Σ_{j > i} L j i * x j = δ`
  have hrow : ∀ i, x i + ∑ j ∈ Finset.univ.filter (fun j => i < j), L j i * x j = (Pi.single k 1 : Fin n → ℝ) i := by
    intro i
    have := congrFun hxe i
    rw [mulVec, dotProduct] at this
    rw [← this, ← Finset.add_sum_erase Finset.univ _ (Finset.mem_univ i)]
    simp only [transpose_apply, hone, one_mul]
    congr 1
    apply Finset.sum_subset
    · intro j hj
      rw [Finset.mem_filter] at hj
      exact Finset.mem_erase.2 ⟨hj.2.ne', Finset.mem_univ _⟩
    · intro j hj hj'
      rw [Finset.mem_filter] at hj'
      have h1 := (Finset.mem_erase.1 hj).1
      have : j < i := lt_of_le_of_ne (not_lt.1 fun h => hj' ⟨Finset.mem_univ _, h⟩) h1
      rw [hlow j i this, zero_mul]
  have hzero : ∀ m : Nat, ∀ i : Fin n, n - i.val = m → k < i → x i = 0 := by
    intro m
    induction m using Nat.strong_induction_on with
    | _ m ih =>
      intro i him hki
      have h := hrow i
      rw [Finset.sum_eq_zero, add_zero] at h
      · rw [h, Pi.single_eq_of_ne hki.ne']
      · intro j hj
        have hij := (Finset.mem_filter.1 hj).2
        have hij' : i.val < j.val := hij
        rw [ih (n - j.val) (by have := j.2; omega) j rfl (hki.trans hij), mul_zero]
  refine ⟨x, ?_, fun i hi => hzero _ i rfl hi, hxe⟩
  have h := hrow k
  rw [Finset.sum_eq_zero, add_zero] at h
  · rw [h, Pi.single_eq_same]
  · intro j hj
    rw [hzero _ j rfl (Finset.mem_filter.1 hj).2, mul_zero]

/-- **C23** (quasi-definite matrices). If the matrix is quasi-definite with a margin above the threshold of the dynamic regularisation, no
pivot is changed: the factorisation is exact and `solve` returns the exact solution of `K x = b`. No ordering of the rows has to be
assumed. -/
theorem C23_quasidefinite (n : Nat) (A0 A : Cols) (hA : Upper n A0) (hp : SamePattern n A0 A) (eps delta mu : ℝ) (sign : Nat → ℝ) (heps : 0 ≤ eps)
    (hdelta : 0 < delta) (hsign : ∀ i < n, sign i = 1 ∨ sign i = -1) (hq : QuasiDefinite n (full n A) sign mu) (hmu : eps < mu)
    (t0 : Sym) (s0 : Num) :
    ∃ t s, analyze n A0 t0 = some t ∧ factorize n A t.parent (outer t.lnnz) eps delta sign s0 = some s ∧
      factorL n (outer t.lnnz) s * diagonal (fun i : Fin n => s.d i) * (factorL n (outer t.lnnz) s)ᵀ = full n A ∧
      (∀ i < n, mu ≤ sign i * s.d i) ∧
      ∀ b : Nat → ℝ, full n A *ᵥ (fun i : Fin n => solve n (outer t.lnnz) s b i) = fun i : Fin n => b i := by
  obtain ⟨t, s, h1, h2, hlow, hone, hpos, E, hE, hE2⟩ := C23_factorization n A0 A hA hp eps delta sign heps hdelta hsign t0 s0
  set L := factorL n (outer t.lnnz) s with hL
  set D : Fin n → ℝ := fun i => s.d i with hD
  -- pivots before regularisation, in order
  have key : ∀ m : Nat, ∀ k : Fin n, k.val = m → mu ≤ sign k * (D k - E k) := by
    intro m
    induction m using Nat.strong_induction_on with
    | _ m ih =>
      intro k hk
      have hEz : ∀ i : Fin n, i < k → E i = 0 := by
        intro i hi
        have := ih i (by rw [← hk]; exact hi) i rfl
        exact (hE2 i).1 (lt_of_lt_of_le hmu this)
      obtain ⟨x, hxk, hx0, hLx⟩ := exists_unit_column n L hlow hone k
      -- (K + E) x = D_k L e_k
      have hmul : (full n A + diagonal E) *ᵥ x = fun i => L i k * D k := by
        rw [← hE, ← mulVec_mulVec, hLx, ← mulVec_mulVec]
        funext i
        rw [mulVec, dotProduct, Finset.sum_eq_single k]
        · rw [mulVec_diagonal, Pi.single_eq_same]; ring
        · intro j _ hj; rw [mulVec_diagonal, Pi.single_eq_of_ne hj]; ring
        · simp
      have hKx : ∀ i, (full n A *ᵥ x) i = L i k * D k - E i * x i := by
        intro i
        have := congrFun hmul i
        rw [add_mulVec, Pi.add_apply, mulVec_diagonal] at this
        linarith
      have hsum : ∑ i : Fin n, sign i * x i * (full n A *ᵥ x) i = sign k * (D k - E k) := by
        rw [Finset.sum_eq_single k]
        · rw [hKx, hone, hxk]; ring
        · intro i _ hi
          rw [hKx]
          rcases lt_or_gt_of_ne hi with h | h
          · rw [hlow i k h, hEz i h]; ring
          · rw [hx0 i h]; ring
        · simp
      have hle := hq x
      rw [hsum] at hle
      have h1 : 1 ≤ ∑ i, x i ^ 2 := by
        have := Finset.single_le_sum (f := fun i => x i ^ 2) (fun i _ => sq_nonneg (x i)) (Finset.mem_univ k)
        simpa [hxk] using this
      have hmu0 : 0 ≤ mu := heps.trans hmu.le
      nlinarith
  have hE0 : E = 0 := funext fun i => (hE2 i).1 (lt_of_lt_of_le hmu (key _ i rfl))
  rw [hE0] at hE
  have hEq : L * diagonal D * Lᵀ = full n A := by rw [hE]; simp
  refine ⟨t, s, h1, h2, hEq, ?_, ?_⟩
  · intro i hi
    have := key _ ⟨i, hi⟩ rfl
    rw [hE0] at this
    simpa [hD] using this
  · intro b
    rw [← hEq]
    exact C23_solve n A0 A hA hp eps delta sign heps hdelta hsign t0 t s0 s h1 h2 b

/-- Three unknowns, stored upper triangle with two columns joined by the third. -/
def exCols : Cols := fun k => if k = 0 then [(0, 2)] else if k = 1 then [(1, -2)] else [(0, 1), (1, 1), (2, 3)]

/-- The signs of its pivots. -/
def exSign : Nat → ℝ := fun k => if k = 1 then -1 else 1

/-- The hypotheses of the C23 theorems hold for it, with margin 1. -/
example : Upper 3 exCols ∧ SamePattern 3 exCols exCols ∧ (∀ i < 3, exSign i = 1 ∨ exSign i = -1) ∧
    QuasiDefinite 3 (full 3 exCols) exSign 1 := by
  refine ⟨?_, fun _ _ => rfl, ?_, ?_⟩
  · intro k hk
    interval_cases k <;> simp [exCols]
  · intro i _
    unfold exSign; split <;> simp
  · intro v
    simp only [Fin.sum_univ_three, mulVec, dotProduct, full, of_apply]
    simp [exCols, exSign]
    nlinarith [sq_nonneg (v 0 + v 2), sq_nonneg (v 1), sq_nonneg (v 2)]

end Ldl
end Verif
