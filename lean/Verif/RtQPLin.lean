/-
Linear algebra of the dual active-set QP solver: Givens reflections, back substitution, and the effect
of `addConstraint`/`deleteConstraint` on the factorisation.
-/
import Verif.RtQPSpec
import Mathlib.Tactic.Ring
import Mathlib.Tactic.Linarith
import Mathlib.Tactic.FieldSimp
import Mathlib.Tactic.Positivity
import Mathlib.Tactic.LinearCombination
import Mathlib.Algebra.Order.BigOperators.Ring.Finset

namespace Verif
namespace RtQP

/-- `distance` is the Euclidean norm. -/
theorem distance_eq (a b : ℝ) : distance a b = Real.sqrt (a ^ 2 + b ^ 2) := by
  unfold distance
  simp only []
  have key : ∀ x y : ℝ, |x| > |y| → |x| * Real.sqrt (1 + |y| / |x| * (|y| / |x|)) = Real.sqrt (x ^ 2 + y ^ 2) := by
    intro x y h
    have hx : 0 < |x| := lt_of_le_of_lt (abs_nonneg y) h
    rw [← Real.sqrt_sq hx.le, ← Real.sqrt_mul (sq_nonneg _), Real.sqrt_sq hx.le]
    congr 1
    rw [← sq_abs x, ← sq_abs y]
    field_simp
  split_ifs with h1 h2
  · exact key a b h1
  · rw [key b a h2, add_comm]
  · have h : |a| = |b| := le_antisymm (not_lt.1 h1) (not_lt.1 h2)
    rw [← sq_abs a, ← sq_abs b, ← h, ← two_mul, mul_comm, Real.sqrt_mul (by norm_num), Real.sqrt_sq (abs_nonneg a)]

theorem distance_sq (a b : ℝ) : distance a b ^ 2 = a ^ 2 + b ^ 2 := by
  rw [distance_eq, Real.sq_sqrt (by positivity)]

theorem distance_nonneg (a b : ℝ) : 0 ≤ distance a b := by
  rw [distance_eq]; exact Real.sqrt_nonneg _

theorem distance_zero {a b : ℝ} (h : distance a b = 0) : a = 0 ∧ b = 0 := by
  have := distance_sq a b
  rw [h] at this
  constructor <;> nlinarith [sq_nonneg a, sq_nonneg b]

/-- Columns `a`, `b` after a reflection with `cc ^ 2 + ss ^ 2 = 1`, `cc ≥ 0`. -/
theorem rotCols_eq (J : Nat → Nat → ℝ) (a b : Nat) (cc ss : ℝ) (h1 : cc ^ 2 + ss ^ 2 = 1) (h2 : 0 ≤ cc)
    (k j : Nat) :
    rotCols J a b cc ss k j =
      if j = a then cc * J k a + ss * J k b else if j = b then ss * J k a - cc * J k b else J k j := by
  unfold rotCols
  simp only []
  have h3 : 1 + cc ≠ 0 := by linarith
  split_ifs
  · ring
  · field_simp
    have : ss ^ 2 = 1 - cc ^ 2 := by linarith
    linear_combination (J k b) * this
  · rfl


/-- Splitting two indices out of a sum. -/
theorem sum_split_two {n a b : Nat} (hab : a ≠ b) (ha : a < n) (hb : b < n) (f : Nat → ℝ) :
    ∑ k ∈ Finset.range n, f k = f a + f b + ∑ k ∈ ((Finset.range n).erase a).erase b, f k := by
  rw [← Finset.add_sum_erase _ f (Finset.mem_range.2 ha),
    ← Finset.add_sum_erase ((Finset.range n).erase a) f
      (Finset.mem_erase.2 ⟨Ne.symm hab, Finset.mem_range.2 hb⟩)]
  ring

theorem gram_rotCols (n : Nat) (J : Nat → Nat → ℝ) (a b : Nat) (cc ss : ℝ) (h1 : cc ^ 2 + ss ^ 2 = 1)
    (h2 : 0 ≤ cc) (hab : a ≠ b) (ha : a < n) (hb : b < n) (i l : Nat) :
    gram n (rotCols J a b cc ss) i l = gram n J i l := by
  unfold gram
  rw [sum_split_two hab ha hb, sum_split_two hab ha hb]
  congr 1
  · simp only [rotCols_eq J a b cc ss h1 h2, if_true, if_neg (Ne.symm hab)]
    linear_combination (J i a * J l a + J i b * J l b) * h1
  · apply Finset.sum_congr rfl
    intro k hk
    simp only [Finset.mem_erase] at hk
    rw [rotCols_eq J a b cc ss h1 h2, rotCols_eq J a b cc ss h1 h2, if_neg hk.2.1, if_neg hk.1,
      if_neg hk.2.1, if_neg hk.1]

theorem computeD_rotCols (n : Nat) (J : Nat → Nat → ℝ) (a b : Nat) (cc ss : ℝ)
    (h1 : cc ^ 2 + ss ^ 2 = 1) (h2 : 0 ≤ cc) (v : Nat → ℝ) (k : Nat) :
    computeD n (rotCols J a b cc ss) v k =
      if k = a then cc * computeD n J v a + ss * computeD n J v b
      else if k = b then ss * computeD n J v a - cc * computeD n J v b else computeD n J v k := by
  unfold computeD
  simp only [rotCols_eq J a b cc ss h1 h2]
  split_ifs
  · rw [Finset.mul_sum, Finset.mul_sum, ← Finset.sum_add_distrib]
    exact Finset.sum_congr rfl (fun i _ => by ring)
  · rw [Finset.mul_sum, Finset.mul_sum, ← Finset.sum_sub_distrib]
    exact Finset.sum_congr rfl (fun i _ => by ring)
  · rfl

/-- The normalised and sign-adjusted pair of the Givens computation. -/
theorem givens_pair (cc ss h : ℝ) (hh : h = distance cc ss) (hne : h ≠ 0) :
    ∃ c s e : ℝ, c ^ 2 + s ^ 2 = 1 ∧ 0 ≤ c ∧ c * cc + s * ss = e ∧ s * cc - c * ss = 0 ∧ |e| = h ∧
      (open Classical in
      (if cc / h < 0 then -(cc / h) else cc / h) = c ∧ (if cc / h < 0 then -(ss / h) else ss / h) = s ∧
      (if cc / h < 0 then -h else h) = e) := by
  have hpos : 0 < h := lt_of_le_of_ne (hh ▸ distance_nonneg cc ss) (Ne.symm hne)
  have hsq : h ^ 2 = cc ^ 2 + ss ^ 2 := by rw [hh, distance_sq]
  by_cases hf : cc / h < 0
  · refine ⟨-(cc / h), -(ss / h), -h, ?_, by linarith, ?_, ?_, ?_, ?_⟩
    · field_simp; linarith
    · field_simp; linarith
    · field_simp; ring
    · rw [abs_neg, abs_of_pos hpos]
    · simp [hf]
  · refine ⟨cc / h, ss / h, h, ?_, by linarith, ?_, ?_, ?_, ?_⟩
    · field_simp; linarith
    · field_simp; linarith
    · field_simp; ring
    · rw [abs_of_pos hpos]
    · simp [hf]

/-- What one or several reflections of the columns `≥ iq` preserve. -/
structure SameUpTo (n iq : Nat) (J J' : Nat → Nat → ℝ) : Prop where
  gram : ∀ i l, gram n J' i l = gram n J i l
  low : ∀ k < iq, ∀ i, J' i k = J i k
  zero : ∀ v : Nat → ℝ, (∀ k, iq ≤ k → k < n → computeD n J v k = 0) →
    ∀ k, iq ≤ k → k < n → computeD n J' v k = 0

theorem SameUpTo.refl (n iq : Nat) (J : Nat → Nat → ℝ) : SameUpTo n iq J J :=
  ⟨fun _ _ => rfl, fun _ _ _ => rfl, fun _ h => h⟩

theorem SameUpTo.trans {n iq : Nat} {J J' J'' : Nat → Nat → ℝ} (h : SameUpTo n iq J J')
    (h' : SameUpTo n iq J' J'') : SameUpTo n iq J J'' :=
  ⟨fun i l => (h'.gram i l).trans (h.gram i l), fun k hk i => (h'.low k hk i).trans (h.low k hk i),
   fun v hv => h'.zero v (h.zero v hv)⟩

theorem addRot_spec (n iq j : Nat) (hj : iq + 1 ≤ j) (hjn : j < n) (J : Nat → Nat → ℝ) (d : Nat → ℝ)
    (np : Nat → ℝ) (hd : ∀ k < n, d k = computeD n J np k) (hz : ∀ k, j < k → k < n → d k = 0) :
    SameUpTo n iq J (addRot j (J, d)).1 ∧
    (∀ k < n, (addRot j (J, d)).2 k = computeD n (addRot j (J, d)).1 np k) ∧
    (∀ k, j - 1 < k → k < n → (addRot j (J, d)).2 k = 0) ∧
    (∀ k, k < j - 1 → (addRot j (J, d)).2 k = d k) := by
  unfold addRot
  simp only []
  by_cases h0 : distance (d (j - 1)) (d j) = 0
  · rw [if_pos h0]
    refine ⟨SameUpTo.refl _ _ _, hd, ?_, fun _ _ => rfl⟩
    intro k h1 h2
    rcases Nat.eq_or_lt_of_le (show j ≤ k by omega) with h | h
    · rw [← h]; exact (distance_zero h0).2
    · exact hz k h h2
  · rw [if_neg h0]
    obtain ⟨c, s, e, g1, g2, g3, g4, g5, g6, g7, g8⟩ := givens_pair (d (j - 1)) (d j) _ rfl h0
    simp only [g6, g7, g8]
    have hne : j - 1 ≠ j := by omega
    refine ⟨⟨?_, ?_, ?_⟩, ?_, ?_, ?_⟩
    · intro i l
      exact gram_rotCols n J (j - 1) j c s g1 g2 hne (by omega) hjn i l
    · intro k hk i
      rw [rotCols_eq J _ _ c s g1 g2, if_neg (by omega), if_neg (by omega)]
    · intro v hv k h1 h2
      rw [computeD_rotCols n J _ _ c s g1 g2, hv (j - 1) (by omega) (by omega), hv j (by omega) hjn, hv k h1 h2]
      simp
    · intro k hk
      rw [computeD_rotCols n J _ _ c s g1 g2, ← hd (j - 1) (by omega), ← hd j hjn]
      split_ifs
      · exact g3.symm
      · exact g4.symm
      · exact hd k hk
    · intro k h1 h2
      rw [if_neg (by omega)]
      by_cases hk : k = j
      · rw [if_pos hk]
      · rw [if_neg hk]; exact hz k (by omega) h2
    · intro k hk
      rw [if_neg (by omega), if_neg (by omega)]

theorem addLoop_spec (n iq : Nat) (np : Nat → ℝ) : ∀ (j : Nat) (J : Nat → Nat → ℝ) (d : Nat → ℝ),
    j < n → (∀ k < n, d k = computeD n J np k) → (∀ k, j < k → k < n → d k = 0) →
    SameUpTo n iq J (addLoop iq j (J, d)).1 ∧
    (∀ k < n, (addLoop iq j (J, d)).2 k = computeD n (addLoop iq j (J, d)).1 np k) ∧
    (∀ k, iq < k → k < n → (addLoop iq j (J, d)).2 k = 0) ∧
    (∀ k < iq, (addLoop iq j (J, d)).2 k = d k) := by
  intro j
  induction j with
  | zero =>
    intro J d _ hd hz
    exact ⟨SameUpTo.refl _ _ _, hd, fun k h1 h2 => hz k (by omega) h2, fun _ _ => rfl⟩
  | succ j ih =>
    intro J d hj hd hz
    rw [addLoop]
    by_cases h : iq + 1 ≤ j + 1
    · rw [if_pos h]
      obtain ⟨a1, a2, a3, a4⟩ := addRot_spec n iq (j + 1) h hj J d np hd hz
      obtain ⟨b1, b2, b3, b4⟩ := ih (addRot (j + 1) (J, d)).1 (addRot (j + 1) (J, d)).2 (by omega) a2
        (fun k h1 h2 => a3 k (by omega) h2)
      exact ⟨a1.trans b1, b2, b3, fun k hk => (b4 k hk).trans (a4 k (by omega))⟩
    · rw [if_neg h]
      exact ⟨SameUpTo.refl _ _ _, hd, fun k h1 h2 => hz k (by omega) h2, fun _ _ => rfl⟩

/-- The factorisation kept by the solver: `J J'` is `G`, and `J' N = [R; 0]` with `R` upper triangular
and invertible, for the first `iq` normals `N 0, .., N (iq-1)`. -/
structure Fac (n : Nat) (G : Nat → Nat → ℝ) (J R N : Nat → Nat → ℝ) (iq : Nat) : Prop where
  le : iq ≤ n
  gram : ∀ i < n, ∀ l < n, gram n J i l = G i l
  fac : ∀ c < iq, ∀ k < n, computeD n J (N c) k = if k ≤ c then R k c else 0
  diag : ∀ c < iq, R c c ≠ 0

theorem computeD_congr (n : Nat) (J : Nat → Nat → ℝ) (v w : Nat → ℝ) (h : ∀ i < n, v i = w i) (k : Nat) :
    computeD n J v k = computeD n J w k :=
  Finset.sum_congr rfl (fun i hi => by rw [h i (Finset.mem_range.1 hi)])

theorem computeD_congrJ (n : Nat) (J J' : Nat → Nat → ℝ) (v : Nat → ℝ) (k : Nat)
    (h : ∀ i, J i k = J' i k) : computeD n J v k = computeD n J' v k :=
  Finset.sum_congr rfl (fun i _ => by rw [h i])

/-- `addConstraint` extends the factorisation by the normal `N iq` when it returns `true`; whatever it
returns, the part for the old normals is kept. -/
theorem addConstraint_spec {n : Nat} {G J R N : Nat → Nat → ℝ} {iq : Nat} (h : Fac n G J R N iq)
    (hlt : iq < n) (eps Rnorm : ℝ) (heps : 0 ≤ eps * Rnorm) :
    let a := addConstraint n eps R J (computeD n J (N iq)) iq Rnorm
    (a.2.2.2 = true → Fac n G a.2.1 a.1 N (iq + 1)) ∧
    Fac n G a.2.1 a.1 N iq ∧ SameUpTo n iq J a.2.1 ∧
    (a.2.2.2 = true → Rnorm ≤ a.2.2.1) ∧ (a.2.2.2 = false → a.2.2.1 = Rnorm) ∧
    (∀ k c, ¬ (c = iq ∧ k < iq + 1) → a.1 k c = R k c) := by
  intro a
  obtain ⟨s1, s2, s3, s4⟩ := addLoop_spec n iq (N iq) (n - 1) J (computeD n J (N iq)) (by omega)
    (fun _ _ => rfl) (fun k h1 h2 => by omega)
  have ha1 : a.1 = fun k c => if c = iq ∧ k < iq + 1 then
      (addLoop iq (n - 1) (J, computeD n J (N iq))).2 k else R k c := by
    simp only [a, addConstraint]; split_ifs <;> rfl
  have ha2 : a.2.1 = (addLoop iq (n - 1) (J, computeD n J (N iq))).1 := by
    simp only [a, addConstraint]; split_ifs <;> rfl
  have hold : ∀ c < iq, ∀ k < n, computeD n a.2.1 (N c) k = if k ≤ c then a.1 k c else 0 := by
    intro c hc k hk
    rw [ha1]
    simp only
    rw [if_neg (show ¬ (c = iq ∧ k < iq + 1) by omega), ha2]
    by_cases hki : k < iq
    · rw [computeD_congrJ n _ J _ k (fun i => s1.low k hki i)]
      exact h.fac c hc k hk
    · rw [if_neg (by omega)]
      refine s1.zero (N c) (fun k' h1 h2 => ?_) k (by omega) hk
      rw [h.fac c hc k' h2, if_neg (by omega)]
  have hgram : ∀ i < n, ∀ l < n, gram n a.2.1 i l = G i l := by
    intro i hi l hl
    rw [ha2, s1.gram, h.gram i hi l hl]
  have hdiag : ∀ c < iq, a.1 c c ≠ 0 := by
    intro c hc
    rw [ha1]
    simp only
    rw [if_neg (by omega)]
    exact h.diag c hc
  refine ⟨?_, ⟨h.le, hgram, hold, hdiag⟩, ha2 ▸ s1, ?_, ?_, ?_⟩
  · intro hflag
    have hne : (addLoop iq (n - 1) (J, computeD n J (N iq))).2 iq ≠ 0 := by
      intro h0
      simp only [a, addConstraint, h0, abs_zero] at hflag
      rw [if_pos heps] at hflag
      simp at hflag
    refine ⟨hlt, hgram, ?_, ?_⟩
    · intro c hc k hk
      by_cases hci : c < iq
      · exact hold c hci k hk
      · have : c = iq := by omega
        subst this
        rw [ha2, ← s2 k hk, ha1]
        simp only
        by_cases hkc : k ≤ c
        · rw [if_pos hkc, if_pos ⟨by trivial, by omega⟩]
        · rw [if_neg hkc]
          exact s3 k (by omega) hk
    · intro c hc
      by_cases hci : c < iq
      · exact hdiag c hci
      · have : c = iq := by omega
        subst this
        rw [ha1]
        simp only
        rw [if_pos ⟨by trivial, by omega⟩]
        exact hne
  · intro hflag
    simp only [a, addConstraint] at hflag ⊢
    split_ifs at hflag ⊢ with h1
    exact le_max_left _ _
  · intro hflag
    simp only [a, addConstraint] at hflag ⊢
    split_ifs at hflag ⊢ with h1
    rfl
  · intro k c hkc
    rw [ha1]
    simp only
    rw [if_neg hkc]

/-! ### Deleting a constraint -/

/-- Factorisation in the middle of `deleteConstraint`: columns `< j` are triangular, columns `≥ j` have
one more entry below the diagonal. -/
structure Hess (n : Nat) (G : Nat → Nat → ℝ) (J R N : Nat → Nat → ℝ) (iq j : Nat) : Prop where
  gram : ∀ i < n, ∀ l < n, gram n J i l = G i l
  fac : ∀ c < iq, ∀ k < n, computeD n J (N c) k = if k ≤ (if c < j then c else c + 1) then R k c else 0
  diag : ∀ c < iq, c < j → R c c ≠ 0
  sub : ∀ c < iq, j ≤ c → R (c + 1) c ≠ 0

theorem delRot_spec {n : Nat} {G J R N : Nat → Nat → ℝ} {iq j : Nat} (h : Hess n G J R N iq j)
    (hj : j < iq) (hn : iq < n) : Hess n G (delRot iq j (R, J)).2 (delRot iq j (R, J)).1 N iq (j + 1) := by
  unfold delRot
  simp only []
  have hne : distance (R j j) (R (j + 1) j) ≠ 0 := fun h0 => h.sub j hj le_rfl (distance_zero h0).2
  rw [if_neg hne]
  obtain ⟨c, s, e, g1, g2, g3, g4, g5, g6, g7, g8⟩ := givens_pair (R j j) (R (j + 1) j) _ rfl hne
  simp only [g6, g7, g8]
  have hc1 : 1 + c ≠ 0 := by linarith
  have hrot : ∀ t1 t2 : ℝ, s / (1 + c) * (t1 + (t1 * c + t2 * s)) - t2 = s * t1 - c * t2 := by
    intro t1 t2
    field_simp
    have : s ^ 2 = 1 - c ^ 2 := by linarith
    linear_combination t2 * this
  simp only [hrot]
  have hjj : j ≠ j + 1 := by omega
  constructor
  · intro i hi l hl
    rw [gram_rotCols n J j (j + 1) c s g1 g2 hjj (by omega) (by omega)]
    exact h.gram i hi l hl
  · intro c' hc' k hk
    rw [computeD_rotCols n J j (j + 1) c s g1 g2, h.fac c' hc' j (by omega), h.fac c' hc' (j + 1) (by omega),
      h.fac c' hc' k hk]
    by_cases h1 : c' < j
    · have e1 : ¬ j ≤ c' := by omega
      have e2 : ¬ j + 1 ≤ c' := by omega
      have e3 : ¬ (j + 1 ≤ c' ∧ c' < iq) := by omega
      have e4 : c' < j + 1 := by omega
      have e5 : c' ≠ j := by omega
      simp only [if_pos h1, if_neg e1, if_neg e2, if_neg e3, if_pos e4, if_neg e5, mul_zero, add_zero, sub_zero]
      by_cases hk1 : k = j
      · rw [if_pos hk1, if_neg (by omega)]
      · rw [if_neg hk1]
        by_cases hk2 : k = j + 1
        · rw [if_pos hk2, if_neg (by omega)]
        · rw [if_neg hk2]
    · by_cases h2 : c' = j
      · subst h2
        have e3 : ¬ (c' + 1 ≤ c' ∧ c' < iq) := by omega
        simp only [if_neg (lt_irrefl c'), if_neg e3, if_pos (show c' < c' + 1 by omega), if_true,
          if_pos (show c' ≤ c' + 1 by omega), le_refl]
        by_cases hk1 : k = c'
        · subst hk1
          simp only [if_true, le_refl, if_neg hjj]
          exact g3
        · rw [if_neg hk1]
          by_cases hk2 : k = c' + 1
          · rw [if_pos hk2, if_neg (by omega)]
            exact g4
          · rw [if_neg hk2]
            by_cases hk3 : k ≤ c'
            · rw [if_pos (by omega), if_pos hk3, if_neg hk2, if_neg hk1]
            · rw [if_neg (by omega), if_neg hk3]
      · have e3 : j + 1 ≤ c' ∧ c' < iq := by omega
        have e4 : ¬ c' < j + 1 := by omega
        simp only [if_neg h1, if_pos e3, if_neg e4, if_neg h2, if_pos (show j ≤ c' + 1 by omega),
          if_pos (show j + 1 ≤ c' + 1 by omega)]
        by_cases hk1 : k = j
        · rw [if_pos hk1, if_pos (by omega), if_pos hk1]; ring
        · rw [if_neg hk1]
          by_cases hk2 : k = j + 1
          · rw [if_pos hk2, if_pos (by omega), if_neg hk1, if_pos hk2]
          · rw [if_neg hk2]
            by_cases hk3 : k ≤ c' + 1
            · rw [if_pos hk3, if_pos hk3, if_neg hk1, if_neg hk2]
            · rw [if_neg hk3, if_neg hk3]
  · intro c' hc' h1
    have e3 : ¬ (j + 1 ≤ c' ∧ c' < iq) := by omega
    simp only [if_neg e3]
    by_cases h2 : c' = j
    · subst h2
      simp only [if_true, if_neg hjj]
      intro h0
      rw [h0, abs_zero] at g5
      exact hne g5.symm
    · rw [if_neg h2]
      exact h.diag c' hc' (by omega)
  · intro c' hc' h1
    have e3 : j + 1 ≤ c' ∧ c' < iq := by omega
    simp only [if_pos e3]
    rw [if_neg (by omega), if_neg (by omega), if_neg (by omega)]
    exact h.sub c' hc' (by omega)

theorem delLoop_spec {n : Nat} {G N : Nat → Nat → ℝ} {iq : Nat} (hn : iq < n) :
    ∀ (fuel j : Nat) (R J : Nat → Nat → ℝ), j + fuel = iq → Hess n G J R N iq j →
      Hess n G (delLoop iq fuel j (R, J)).2 (delLoop iq fuel j (R, J)).1 N iq iq := by
  intro fuel
  induction fuel with
  | zero => intro j R J hj h; rw [delLoop]; rw [show j = iq by omega] at h; exact h
  | succ fuel ih =>
    intro j R J hj h
    rw [delLoop]
    exact ih (j + 1) _ _ (by omega) (delRot_spec h (by omega) hn)

theorem findQq_spec (A : Nat → Nat) (l : Nat) : ∀ (fuel i k : Nat), i ≤ k → k < i + fuel → A k = l →
    i ≤ findQq A l fuel i ∧ findQq A l fuel i ≤ k ∧ A (findQq A l fuel i) = l := by
  intro fuel
  induction fuel with
  | zero => intro i k h1 h2; omega
  | succ fuel ih =>
    intro i k h1 h2 h3
    rw [findQq]
    by_cases h : A i = l
    · rw [if_pos h]; exact ⟨le_rfl, h1, h⟩
    · rw [if_neg h]
      have hne : i ≠ k := fun h' => h (h' ▸ h3)
      obtain ⟨a, b, c⟩ := ih (i + 1) k (by omega) (by omega) h3
      exact ⟨by omega, b, c⟩

/-- The normals after position `qq` has been removed. -/
def dropAt {α : Type} (qq : Nat) (N : Nat → α) : Nat → α := fun c => if c < qq then N c else N (c + 1)

/-- `deleteConstraint` for an active constraint `l` (at the only position `k`): the factorisation, the
active set, the multipliers and the pending pair lose position `k`. -/
theorem deleteConstraint_spec {n : Nat} {G N : Nat → Nat → ℝ} {p l k : Nat} {a : Act}
    (h : Fac n G a.J a.R N a.iq) (hk1 : p ≤ k) (hk2 : k < a.iq) (hk : a.A k = l)
    (huniq : ∀ k', p ≤ k' → k' < a.iq → a.A k' = l → k' = k) :
    let b := deleteConstraint p l a
    b.iq = a.iq - 1 ∧ Fac n G b.J b.R (dropAt k N) b.iq ∧
    (∀ i ≤ b.iq, b.A i = dropAt k a.A i) ∧ (∀ i ≤ b.iq, b.u i = dropAt k a.u i) := by
  intro b
  have hqq : findQq a.A l (a.iq - p) p = k := by
    obtain ⟨f1, f2, f3⟩ := findQq_spec a.A l (a.iq - p) p k hk1 (by omega) hk
    exact huniq _ f1 (by omega) f3
  have hA : ∀ i ≤ a.iq - 1, b.A i = dropAt k a.A i := by
    intro i hi
    have : b.A = fun i => if i = a.iq then 0 else if i = a.iq - 1 then
        (if k ≤ a.iq ∧ a.iq < a.iq - 1 then a.A (a.iq + 1) else a.A a.iq)
        else (if k ≤ i ∧ i < a.iq - 1 then a.A (i + 1) else a.A i) := by
      simp only [b, deleteConstraint, hqq]; split_ifs <;> rfl
    rw [this]
    simp only [dropAt]
    rw [if_neg (by omega)]
    by_cases h1 : i = a.iq - 1
    · rw [if_pos h1, if_neg (by omega), if_neg (by omega)]
      congr 1; omega
    · rw [if_neg h1]
      by_cases h2 : i < k
      · rw [if_neg (by omega), if_pos h2]
      · rw [if_pos (by omega), if_neg h2]
  have hu : ∀ i ≤ a.iq - 1, b.u i = dropAt k a.u i := by
    intro i hi
    have : b.u = fun i => if i = a.iq then 0 else if i = a.iq - 1 then
        (if k ≤ a.iq ∧ a.iq < a.iq - 1 then a.u (a.iq + 1) else a.u a.iq)
        else (if k ≤ i ∧ i < a.iq - 1 then a.u (i + 1) else a.u i) := by
      simp only [b, deleteConstraint, hqq]; split_ifs <;> rfl
    rw [this]
    simp only [dropAt]
    rw [if_neg (by omega)]
    by_cases h1 : i = a.iq - 1
    · rw [if_pos h1, if_neg (by omega), if_neg (by omega)]
      congr 1; omega
    · rw [if_neg h1]
      by_cases h2 : i < k
      · rw [if_neg (by omega), if_pos h2]
      · rw [if_pos (by omega), if_neg h2]
  have hiq : b.iq = a.iq - 1 := by
    simp only [b, deleteConstraint]; split_ifs <;> rfl
  refine ⟨hiq, ?_, fun i hi => hA i (by omega), fun i hi => hu i (by omega)⟩
  set R2 : Nat → Nat → ℝ := fun r c => if c = a.iq - 1 ∧ r < a.iq then 0 else
    if k ≤ c ∧ c < a.iq - 1 then a.R r (c + 1) else a.R r c with hR2
  have hle := h.le
  have hess : Hess n G a.J R2 (dropAt k N) (a.iq - 1) k := by
    constructor
    · exact h.gram
    · intro c hc r hr
      have e1 : ¬ (c = a.iq - 1 ∧ r < a.iq) := by omega
      simp only [hR2, if_neg e1, dropAt]
      by_cases h1 : c < k
      · rw [if_pos h1, if_neg (show ¬ (k ≤ c ∧ c < a.iq - 1) by omega), if_pos h1]
        exact h.fac c (by omega) r hr
      · rw [if_neg h1, if_pos (show k ≤ c ∧ c < a.iq - 1 by omega), if_neg h1]
        exact h.fac (c + 1) (by omega) r hr
    · intro c hc h1
      simp only [hR2]
      rw [if_neg (by omega), if_neg (by omega)]
      exact h.diag c (by omega)
    · intro c hc h1
      simp only [hR2]
      rw [if_neg (by omega), if_pos (by omega)]
      exact h.diag (c + 1) (by omega)
  by_cases h0 : a.iq - 1 = 0
  · have hb : b.J = a.J := by simp only [b, deleteConstraint, h0, if_true]
    have hiq0 : b.iq = 0 := by omega
    rw [hiq0, hb]
    exact ⟨by omega, h.gram, fun c hc => by omega, fun c hc => by omega⟩
  · have hRJ : b.R = (delLoop (a.iq - 1) (a.iq - 1 - k) k (R2, a.J)).1 ∧
        b.J = (delLoop (a.iq - 1) (a.iq - 1 - k) k (R2, a.J)).2 := by
      simp only [b, deleteConstraint, hqq, if_neg h0, hR2]
      exact ⟨by trivial, by trivial⟩
    have := delLoop_spec (show a.iq - 1 < n by omega) (a.iq - 1 - k) k R2 a.J (by omega) hess
    rw [← hRJ.1, ← hRJ.2] at this
    rw [hiq]
    refine ⟨by omega, this.gram, ?_, fun c hc => this.diag c hc hc⟩
    intro c hc r hr
    have h2 := this.fac c hc r hr
    rw [if_pos hc] at h2
    exact h2

/-! ### Back substitution and the step direction -/

theorem backSolve_spec (R : Nat → Nat → ℝ) (d : Nat → ℝ) (iq : Nat) (hdiag : ∀ c < iq, R c c ≠ 0) :
    ∀ t ≤ iq, ∀ k, iq - t ≤ k → k < iq →
      ∑ c ∈ Finset.Ico k iq, R k c * backSolve R d iq t c = d k := by
  intro t
  induction t with
  | zero => intro _ k h1 h2; omega
  | succ t ih =>
    intro ht k h1 h2
    have hother : ∀ c, c ≠ iq - 1 - t → backSolve R d iq (t + 1) c = backSolve R d iq t c := by
      intro c hc
      rw [backSolve]
      simp only
      rw [if_neg hc]
    by_cases hk : k = iq - 1 - t
    · rw [Finset.sum_eq_sum_Ico_succ_bot h2]
      have hsum : ∑ c ∈ Finset.Ico (k + 1) iq, R k c * backSolve R d iq (t + 1) c =
          ∑ c ∈ Finset.Ico (k + 1) iq, R k c * backSolve R d iq t c := by
        apply Finset.sum_congr rfl
        intro c hc
        rw [hother c (by have := Finset.mem_Ico.1 hc; omega)]
      rw [hsum, backSolve]
      simp only
      rw [← hk, if_pos rfl]
      have := hdiag k h2
      field_simp
      ring
    · rw [← ih (by omega) k (by omega) h2]
      apply Finset.sum_congr rfl
      intro c hc
      rw [hother c (by have := Finset.mem_Ico.1 hc; omega)]

theorem updateR_spec (R : Nat → Nat → ℝ) (d : Nat → ℝ) (iq : Nat) (hdiag : ∀ c < iq, R c c ≠ 0) (k : Nat)
    (hk : k < iq) : ∑ c ∈ Finset.Ico k iq, R k c * updateR R d iq c = d k :=
  backSolve_spec R d iq hdiag iq le_rfl k (by omega) hk

theorem dot_updateZ (n : Nat) (J : Nat → Nat → ℝ) (d : Nat → ℝ) (iq : Nat) (v : Nat → ℝ) :
    dot n (updateZ n J d iq) v = ∑ k ∈ Finset.Ico iq n, d k * computeD n J v k := by
  unfold dot updateZ computeD
  simp only [Finset.sum_mul, Finset.mul_sum]
  rw [Finset.sum_comm]
  exact Finset.sum_congr rfl (fun k _ => Finset.sum_congr rfl (fun i _ => by ring))

/-- The facts about the step direction `z` and the dual direction `r` for a new normal `np`. -/
theorem direction {n : Nat} {H G J R N : Nat → Nat → ℝ} {iq : Nat} (h : Fac n G J R N iq)
    (hinv : Inverse n H G) (np : Nat → ℝ) :
    let d := computeD n J np
    let z := updateZ n J d iq
    let r := updateR R d iq
    (∀ i < n, mulV n H z i = np i - ∑ c ∈ Finset.range iq, r c * N c i) ∧
    (∀ c < iq, dot n z (N c) = 0) ∧
    dot n z np = ∑ k ∈ Finset.Ico iq n, d k ^ 2 := by
  intro d z r
  refine ⟨?_, ?_, ?_⟩
  · intro i hi
    set w : Nat → ℝ := fun i => np i - ∑ c ∈ Finset.range iq, r c * N c i with hw
    have hDw : ∀ k < n, computeD n J w k = if k < iq then 0 else d k := by
      intro k hk
      have e1 : computeD n J w k = d k - ∑ c ∈ Finset.range iq, r c * computeD n J (N c) k := by
        simp only [computeD, hw, d, mul_sub, Finset.sum_sub_distrib, Finset.mul_sum]
        congr 1
        rw [Finset.sum_comm]
        exact Finset.sum_congr rfl (fun c _ => Finset.sum_congr rfl (fun i _ => by ring))
      rw [e1]
      by_cases hki : k < iq
      · rw [if_pos hki]
        have e2 : ∑ c ∈ Finset.range iq, r c * computeD n J (N c) k =
            ∑ c ∈ Finset.Ico k iq, R k c * r c := by
          rw [Finset.range_eq_Ico, ← Finset.sum_Ico_consecutive _ (Nat.zero_le k) hki.le,
            Finset.sum_eq_zero, zero_add]
          · apply Finset.sum_congr rfl
            intro c hc
            have := Finset.mem_Ico.1 hc
            rw [h.fac c this.2 k hk, if_pos this.1, mul_comm]
          · intro c hc
            have := Finset.mem_Ico.1 hc
            rw [h.fac c (by omega) k hk, if_neg (by omega), mul_zero]
        rw [e2, updateR_spec R d iq h.diag k hki, sub_self]
      · rw [if_neg hki, Finset.sum_eq_zero, sub_zero]
        intro c hc
        have := Finset.mem_range.1 hc
        rw [h.fac c this k hk, if_neg (by omega), mul_zero]
    have hz : ∀ i, z i = ∑ k ∈ Finset.range n, J i k * computeD n J w k := by
      intro i
      rw [Finset.range_eq_Ico, ← Finset.sum_Ico_consecutive _ (Nat.zero_le iq) h.le,
        Finset.sum_eq_zero, zero_add]
      · simp only [z, updateZ]
        apply Finset.sum_congr rfl
        intro k hk
        have := Finset.mem_Ico.1 hk
        rw [hDw k this.2, if_neg (by omega)]
      · intro k hk
        have := Finset.mem_Ico.1 hk
        rw [hDw k (by have := h.le; omega), if_pos this.2, mul_zero]
    have hzG : ∀ i < n, z i = ∑ l ∈ Finset.range n, G i l * w l := by
      intro i hi
      rw [hz]
      simp only [computeD, Finset.mul_sum]
      rw [Finset.sum_comm]
      apply Finset.sum_congr rfl
      intro l hl
      rw [← h.gram i hi l (Finset.mem_range.1 hl), gram, Finset.sum_mul]
      exact Finset.sum_congr rfl (fun k _ => by ring)
    have : mulV n H z i = ∑ l ∈ Finset.range n, (∑ k ∈ Finset.range n, H i k * G k l) * w l := by
      unfold mulV
      rw [Finset.sum_congr rfl (fun k hk => by rw [hzG k (Finset.mem_range.1 hk)])]
      simp only [Finset.mul_sum, Finset.sum_mul]
      rw [Finset.sum_comm]
      exact Finset.sum_congr rfl (fun l _ => Finset.sum_congr rfl (fun k _ => by ring))
    rw [this, Finset.sum_congr rfl (fun l hl => by rw [hinv i hi l (Finset.mem_range.1 hl)])]
    simp only [ite_mul, one_mul, zero_mul, Finset.sum_ite_eq, Finset.mem_range, hi, if_true, hw]
  · intro c hc
    rw [dot_updateZ]
    apply Finset.sum_eq_zero
    intro k hk
    have := Finset.mem_Ico.1 hk
    rw [h.fac c hc k this.2, if_neg (by omega), mul_zero]
  · rw [dot_updateZ]
    exact Finset.sum_congr rfl (fun k _ => by simp only [d]; ring)

end RtQP
end Verif
