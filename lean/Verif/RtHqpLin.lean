/-
Linear algebra used by the proofs about `rt_solver::RtHQPSolver` (`Verif.RtHqp`).
-/
import Verif.RtHqpSpec
import Verif.RtCompact
import Mathlib.Tactic.Ring
import Mathlib.Tactic.Linarith
import Mathlib.Tactic.NormNum
import Mathlib.Tactic.Positivity

namespace Verif
namespace RtHqp

open Rt

theorem mulV_congr (m : Mat) {u v : Nat → ℝ} (h : ∀ i < m.cols, u i = v i) (i : Nat) :
    mulV m u i = mulV m v i :=
  Finset.sum_congr rfl fun k hk => by rw [h k (Finset.mem_range.1 hk)]

theorem mulV_add (m : Mat) (u v : Nat → ℝ) (i : Nat) :
    mulV m (fun k => u k + v k) i = mulV m u i + mulV m v i := by
  simp only [mulV, mul_add, Finset.sum_add_distrib]

theorem mulV_sub (m : Mat) (u v : Nat → ℝ) (i : Nat) :
    mulV m (fun k => u k - v k) i = mulV m u i - mulV m v i := by
  simp only [mulV, mul_sub, Finset.sum_sub_distrib]

theorem mulV_zero (m : Mat) (i : Nat) : mulV m (fun _ => 0) i = 0 := by simp [mulV]

theorem mulV_mul (a b : Mat) (v : Nat → ℝ) (i : Nat) : mulV (mul a b) v i = mulV a (mulV b v) i := by
  simp only [mulV, mul, Finset.sum_mul, Finset.mul_sum]
  rw [Finset.sum_comm]
  exact Finset.sum_congr rfl fun k _ => Finset.sum_congr rfl fun j _ => by ring

theorem mulV_ident (n : Nat) (v : Nat → ℝ) (i : Nat) (hi : i < n) : mulV (ident n) v i = v i := by
  simp only [mulV, ident, ite_mul, one_mul, zero_mul]
  rw [Finset.sum_ite_eq]
  rw [if_pos (Finset.mem_range.2 hi)]

theorem sq_congr {n : Nat} {u v : Nat → ℝ} (h : ∀ i < n, u i = v i) : sq n u = sq n v :=
  Finset.sum_congr rfl fun i hi => by rw [h i (Finset.mem_range.1 hi)]

theorem sq_nonneg' (n : Nat) (v : Nat → ℝ) : 0 ≤ sq n v := Finset.sum_nonneg fun _ _ => sq_nonneg _

theorem sq_eq_zero {n : Nat} {v : Nat → ℝ} (h : sq n v = 0) : ∀ i < n, v i = 0 := by
  intro i hi
  have := (Finset.sum_eq_zero_iff_of_nonneg (fun i _ => sq_nonneg (v i))).1 h i (Finset.mem_range.2 hi)
  exact pow_eq_zero_iff (two_ne_zero) |>.1 this

theorem sq_zero (n : Nat) : sq n (fun _ => 0) = 0 := by simp [sq]

/-- `M` preserves norms: its columns are orthonormal. -/
def Iso (m : Mat) : Prop := ∀ v, sq m.rows (mulV m v) = sq m.cols v

theorem Iso.ident (n : Nat) : Iso (ident n) := fun v => sq_congr fun i hi => mulV_ident n v i hi

theorem Iso.mul {a b : Mat} (ha : Iso a) (hb : Iso b) (h : a.cols = b.rows) : Iso (mul a b) := by
  intro v
  have h1 : sq (RtHqp.mul a b).rows (mulV (RtHqp.mul a b) v) = sq a.rows (mulV a (mulV b v)) :=
    sq_congr fun i _ => mulV_mul a b v i
  rw [h1, ha, h, hb]
  rfl

/-- A vector with `r` zeros in front. -/
def shift (r : Nat) (v : Nat → ℝ) (i : Nat) : ℝ := if i < r then 0 else v (i - r)

theorem sum_shift (r c : Nat) (hr : r ≤ c) (f : Nat → ℝ → ℝ) (h0 : ∀ i, f i 0 = 0) (v : Nat → ℝ) :
    ∑ i ∈ Finset.range c, f i (shift r v i) = ∑ j ∈ Finset.range (c - r), f (r + j) (v j) := by
  obtain ⟨d, rfl⟩ := Nat.exists_eq_add_of_le hr
  rw [Finset.sum_range_add, Nat.add_sub_cancel_left]
  rw [Finset.sum_eq_zero (s := Finset.range r), zero_add]
  · apply Finset.sum_congr rfl
    intro j _
    simp only [shift]
    rw [if_neg (by omega), Nat.add_sub_cancel_left]
  · intro i hi
    simp only [shift]
    rw [if_pos (Finset.mem_range.1 hi), h0]

theorem dimRange_spec (thr : ℝ) (sv : Nat → ℝ) (size : Nat) :
    dimRange thr sv size ≤ size ∧ (∀ i < dimRange thr sv size, 0 < sv i ∧ sv 0 / sv i ≤ thr) ∧
    (dimRange thr sv size < size → sv (dimRange thr sv size) ≤ 0 ∨ sv 0 / sv (dimRange thr sv size) > thr) := by
  obtain ⟨h1, h2, h3⟩ := searchFrom_spec (fun i => decide (sv i ≤ 0) || decide (sv 0 / sv i > thr)) size 0
  refine ⟨h3 (Nat.zero_le _), ?_, ?_⟩
  · intro i hi
    have := h1 i (Nat.zero_le _) hi
    simp only [Bool.or_eq_false_iff, decide_eq_false_iff_not, not_le, gt_iff_lt, not_lt] at this
    exact this
  · intro h
    have := h2 h
    simp only [Bool.or_eq_true, decide_eq_true_eq] at this
    exact this

theorem mulV_null (thr : ℝ) (B : Mat) (s : Svd) (v : Nat → ℝ) (i : Nat) :
    mulV (nullspaceMap thr B s) v i =
      mulV ⟨B.cols, B.cols, s.V⟩ (shift (dimRange thr s.sv (min B.rows B.cols)) v) i := by
  have hr := (dimRange_spec thr s.sv (min B.rows B.cols)).1
  have := sum_shift (dimRange thr s.sv (min B.rows B.cols)) B.cols (by omega) (fun j x => s.V i j * x)
    (fun _ => mul_zero _) v
  simp only [mulV, nullspaceMap]
  exact this.symm

theorem Iso.null {B : Mat} {s : Svd} (h : SvdOk B s) (thr : ℝ) : Iso (nullspaceMap thr B s) := by
  intro v
  have hr := (dimRange_spec thr s.sv (min B.rows B.cols)).1
  have e : sq (nullspaceMap thr B s).rows (mulV (nullspaceMap thr B s) v) =
      sq B.cols (mulV ⟨B.cols, B.cols, s.V⟩ (shift (dimRange thr s.sv (min B.rows B.cols)) v)) :=
    sq_congr fun i _ => mulV_null thr B s v i
  rw [e, h.iso]
  exact sum_shift _ B.cols (by omega) (fun _ x => x ^ 2) (fun _ => by norm_num) v

/-- The directions kept change `B x` by at most the largest singular value over the threshold. -/
theorem null_small {B : Mat} {s : Svd} (h : SvdOk B s) {thr : ℝ} (ht : 0 < thr) (v : Nat → ℝ) :
    sq B.rows (mulV B (mulV (nullspaceMap thr B s) v)) ≤
      (if min B.rows B.cols = 0 then 0 else s.sv 0 / thr) ^ 2 * sq (nullspaceMap thr B s).cols v := by
  have e : sq B.rows (mulV B (mulV (nullspaceMap thr B s) v)) =
      sq B.rows (mulV B (mulV ⟨B.cols, B.cols, s.V⟩ (shift (dimRange thr s.sv (min B.rows B.cols)) v))) :=
    sq_congr fun i _ => mulV_congr B (fun k _ => mulV_null thr B s v k) i
  rw [e, h.act]
  obtain ⟨hr, h1, h2⟩ := dimRange_spec thr s.sv (min B.rows B.cols)
  rw [sum_shift _ _ hr (fun i x => (s.sv i * x) ^ 2) (fun _ => by norm_num)]
  by_cases hm : min B.rows B.cols = 0
  · rw [if_pos hm]
    have : min B.rows B.cols - dimRange thr s.sv (min B.rows B.cols) = 0 := by omega
    rw [this]; simp
  · rw [if_neg hm]
    generalize hd : dimRange thr s.sv (min B.rows B.cols) = r at *
    have h3 : ∀ j ∈ Finset.range (min B.rows B.cols - r), (s.sv (r + j) * v j) ^ 2 ≤ (s.sv 0 / thr) ^ 2 * v j ^ 2 := by
      intro j hj
      have hj := Finset.mem_range.1 hj
      rw [mul_pow]
      apply mul_le_mul_of_nonneg_right _ (sq_nonneg _)
      have h0 := (h.sorted 0 0 le_rfl (by omega)).1
      have hs := h.sorted r (r + j) (by omega) (by omega)
      have hle : s.sv r ≤ s.sv 0 / thr := by
        rcases h2 (by omega) with h2 | h2
        · exact h2.trans (div_nonneg h0 ht.le)
        · have hp : 0 < s.sv r := by
            by_contra hc
            have : s.sv r = 0 := le_antisymm (not_lt.1 hc) (hs.1.trans hs.2)
            rw [this, div_zero] at h2
            exact absurd h2 (not_lt.2 ht.le)
          rw [gt_iff_lt, lt_div_iff₀ hp] at h2
          rw [le_div_iff₀ ht]
          linarith
      exact pow_le_pow_left₀ hs.1 (hs.2.trans hle) 2
    refine (Finset.sum_le_sum h3).trans ?_
    rw [← Finset.mul_sum]
    apply mul_le_mul_of_nonneg_left _ (sq_nonneg _)
    apply Finset.sum_le_sum_of_subset_of_nonneg
    · intro j hj
      have := Finset.mem_range.1 hj
      simp only [nullspaceMap, hd]
      exact Finset.mem_range.2 (by omega)
    · intro j _ _; exact sq_nonneg _

/-- The largest singular value is at most any Lipschitz constant. -/
theorem sv_le {B : Mat} {s : Svd} (h : SvdOk B s) {L : ℝ} (hL : 0 ≤ L)
    (hl : ∀ v, sq B.rows (mulV B v) ≤ L ^ 2 * sq B.cols v) (hm : min B.rows B.cols ≠ 0) : s.sv 0 ≤ L := by
  have h0 := (h.sorted 0 0 le_rfl (by omega)).1
  have := h.act (fun i => if i = 0 then 1 else 0)
  have h1 : sq B.rows (mulV B (mulV ⟨B.cols, B.cols, s.V⟩ (fun i => if i = 0 then 1 else 0))) ≤ L ^ 2 := by
    refine (hl _).trans ?_
    rw [h.iso]
    have : sq B.cols (fun i => if i = 0 then (1 : ℝ) else 0) = 1 := by
      simp only [sq, ite_pow, one_pow]
      rw [Finset.sum_eq_single 0]
      · simp
      · intro b _ hb; simp [hb]
      · intro hn; exact absurd (Finset.mem_range.2 (by omega)) hn
    rw [this, mul_one]
  rw [this, Finset.sum_eq_single 0] at h1
  · simp only [if_true, mul_one] at h1
    exact le_of_sq_le_sq₀ h1 hL
  · intro b _ hb; simp [hb]
  · intro hn; exact absurd (Finset.mem_range.2 (by omega)) hn
where
  le_of_sq_le_sq₀ {a b : ℝ} (h : a ^ 2 ≤ b ^ 2) (hb : 0 ≤ b) : a ≤ b := by
    by_contra hc
    push Not at hc
    nlinarith

theorem null_lip {B : Mat} {s : Svd} (h : SvdOk B s) {thr L : ℝ} (ht : 0 < thr) (hL : 0 ≤ L)
    (hl : ∀ v, sq B.rows (mulV B v) ≤ L ^ 2 * sq B.cols v) (v : Nat → ℝ) :
    sq B.rows (mulV B (mulV (nullspaceMap thr B s) v)) ≤ (L / thr) ^ 2 * sq (nullspaceMap thr B s).cols v := by
  refine (null_small h ht v).trans ?_
  apply mul_le_mul_of_nonneg_right _ (sq_nonneg' _ _)
  by_cases hm : min B.rows B.cols = 0
  · rw [if_pos hm, zero_pow two_ne_zero]; exact sq_nonneg _
  · rw [if_neg hm]
    have h0 := (h.sorted 0 0 le_rfl (by omega)).1
    apply pow_le_pow_left₀ (div_nonneg h0 ht.le)
    exact div_le_div_of_nonneg_right (sv_le h hL hl hm) ht.le

/-- Every vector of the kernel is in the range of the map. -/
theorem null_complete {B : Mat} {s : Svd} (h : SvdOk B s) (thr : ℝ) {u : Nat → ℝ}
    (hu : ∀ k < B.rows, mulV B u k = 0) : ∃ y, ∀ i < B.cols, mulV (nullspaceMap thr B s) y i = u i := by
  obtain ⟨v, hv⟩ := h.surj u
  have ha := h.act v
  obtain ⟨hr, h1, -⟩ := dimRange_spec thr s.sv (min B.rows B.cols)
  have h0 : sq B.rows (mulV B (mulV ⟨B.cols, B.cols, s.V⟩ v)) = 0 := by
    rw [← sq_zero B.rows]
    apply sq_congr
    intro k hk
    rw [mulV_congr B hv k, hu k hk]
  rw [h0] at ha
  have hz := (Finset.sum_eq_zero_iff_of_nonneg (fun i _ => sq_nonneg (s.sv i * v i))).1 ha.symm
  refine ⟨fun j => v (dimRange thr s.sv (min B.rows B.cols) + j), fun i hi => ?_⟩
  rw [mulV_null, ← hv i hi]
  apply mulV_congr
  intro k _
  simp only [shift]
  by_cases hk : k < dimRange thr s.sv (min B.rows B.cols)
  · rw [if_pos hk]
    have := hz k (Finset.mem_range.2 (by omega))
    have := pow_eq_zero_iff (two_ne_zero) |>.1 this
    rcases mul_eq_zero.1 this with h' | h'
    · exact absurd h' (h1 k hk).1.ne'
    · exact h'.symm
  · rw [if_neg hk]
    congr 1
    omega

/-- With no direction removed the map is onto. -/
theorem null_surj {B : Mat} {s : Svd} (h : SvdOk B s) (thr : ℝ)
    (hs : (nullspaceMap thr B s).cols = (nullspaceMap thr B s).rows) (u : Nat → ℝ) :
    ∃ y, ∀ i < B.cols, mulV (nullspaceMap thr B s) y i = u i := by
  have hr := (dimRange_spec thr s.sv (min B.rows B.cols)).1
  have h0 : dimRange thr s.sv (min B.rows B.cols) = 0 := by
    simp only [nullspaceMap] at hs
    omega
  obtain ⟨v, hv⟩ := h.surj u
  refine ⟨v, fun i hi => ?_⟩
  rw [mulV_null, ← hv i hi]
  apply mulV_congr
  intro k _
  simp only [shift, h0]
  simp

end RtHqp
end Verif
