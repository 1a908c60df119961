import Verif.Cone
import Mathlib.Tactic.Linarith
import Mathlib.Tactic.Ring
import Mathlib.Tactic.FieldSimp
import Mathlib.Tactic.NormNum
import Mathlib.Tactic.Positivity
import Mathlib.Algebra.Order.BigOperators.Ring.Finset

/-! Lemmas about the cone layout and about one second-order cone. -/
namespace Verif
open Finset
namespace Cone

theorem wr_apply (s n : Nat) (f w : Nat → ℝ) (k : Nat) :
    wr s n f w k = if s ≤ k ∧ k < s + n then f (k - s) else w k := by
  induction n with
  | zero => simp only [wr, List.range_zero, List.foldl_nil]; rw [if_neg (by omega)]
  | succ n ih =>
    have : wr s (n + 1) f w = Function.update (wr s n f w) (s + n) (f n) := by
      simp only [wr, List.range_succ, List.foldl_append, List.foldl_cons, List.foldl_nil]
    rw [this, Function.update_apply]
    by_cases h : k = s + n
    · rw [if_pos h, if_pos (by omega)]; congr 1; omega
    · rw [if_neg h, ih]
      by_cases h2 : s ≤ k ∧ k < s + n
      · rw [if_pos h2, if_pos (by omega)]
      · rw [if_neg h2, if_neg (by omega)]

theorem startSoc_zero (c : Cone) : c.startSoc 0 = c.nineq := by simp [startSoc]

theorem startSoc_succ (c : Cone) (i : Nat) (h : i < c.nsoc) : c.startSoc (i + 1) = c.startSoc i + c.sizeSoc i := by
  have h' : i < c.q.length := h
  unfold startSoc sizeSoc
  rw [List.take_add_one, List.sum_append, List.getElem?_eq_getElem h', List.getD_eq_getElem?_getD,
    List.getElem?_eq_getElem h']
  simp; omega

theorem startSoc_end (c : Cone) : c.startSoc c.nsoc = c.sizecone := by
  simp [startSoc, nsoc, sizecone, ssoc]

theorem startSoc_mono (c : Cone) : ∀ {i j : Nat}, i ≤ j → c.startSoc i ≤ c.startSoc j := by
  intro i j h
  unfold startSoc
  obtain ⟨d, rfl⟩ := Nat.exists_eq_add_of_le h
  rw [List.take_add, List.sum_append]; omega

theorem nineq_le_startSoc (c : Cone) (i : Nat) : c.nineq ≤ c.startSoc i := by simp [startSoc]

theorem startSoc_lt (c : Cone) {i j : Nat} (h : i < j) (hj : j ≤ c.nsoc) : c.startSoc i + c.sizeSoc i ≤ c.startSoc j := by
  rw [← c.startSoc_succ i (by omega)]; exact c.startSoc_mono h

/-- Values written by `blockwise` after `m` cones. -/
theorem blockwise_aux (c : Cone) (lp : Nat → ℝ) (blk : Nat → Nat → ℝ) (w : Nat → ℝ) (m : Nat) (hm : m ≤ c.nsoc) :
    let r := (List.range m).foldl (fun w i => wr (c.startSoc i) (c.sizeSoc i) (blk i) w) (wr 0 c.nineq lp w)
    (∀ k, k < c.nineq → r k = lp k) ∧
    (∀ i j, i < m → j < c.sizeSoc i → r (c.startSoc i + j) = blk i j) ∧
    (∀ k, c.startSoc m ≤ k → r k = w k) := by
  induction m with
  | zero =>
    refine ⟨fun k hk => ?_, fun i j hi => absurd hi (by omega), fun k hk => ?_⟩
    · simp only [List.range_zero, List.foldl_nil]; rw [wr_apply, if_pos (by omega)]; simp
    · rw [startSoc_zero] at hk
      simp only [List.range_zero, List.foldl_nil]; rw [wr_apply, if_neg (by omega)]
  | succ m ih =>
    obtain ⟨h1, h2, h3⟩ := ih (by omega)
    simp only [List.range_succ, List.foldl_append, List.foldl_cons, List.foldl_nil]
    refine ⟨fun k hk => ?_, fun i j hi hj => ?_, fun k hk => ?_⟩
    · rw [wr_apply, if_neg (by have := c.nineq_le_startSoc m; omega)]; exact h1 k hk
    · rw [wr_apply]
      rcases Nat.lt_succ_iff_lt_or_eq.mp hi with hi' | rfl
      · rw [if_neg (by have := c.startSoc_lt hi' (by omega); omega)]; exact h2 i j hi' hj
      · rw [if_pos (by omega)]; congr 1; omega
    · rw [c.startSoc_succ m (by omega)] at hk
      rw [wr_apply, if_neg (by omega)]; exact h3 k (by omega)

theorem blockwise_lp (c : Cone) (lp : Nat → ℝ) (blk : Nat → Nat → ℝ) (w : Nat → ℝ) (k : Nat) (hk : k < c.nineq) :
    blockwise c lp blk w k = lp k := (blockwise_aux c lp blk w c.nsoc le_rfl).1 k hk

theorem blockwise_soc (c : Cone) (lp : Nat → ℝ) (blk : Nat → Nat → ℝ) (w : Nat → ℝ) (i j : Nat) (hi : i < c.nsoc)
    (hj : j < c.sizeSoc i) : blockwise c lp blk w (c.startSoc i + j) = blk i j :=
  (blockwise_aux c lp blk w c.nsoc le_rfl).2.1 i j hi hj

theorem blockwise_out (c : Cone) (lp : Nat → ℝ) (blk : Nat → Nat → ℝ) (w : Nat → ℝ) (k : Nat) (hk : c.sizecone ≤ k) :
    blockwise c lp blk w k = w k := (blockwise_aux c lp blk w c.nsoc le_rfl).2.2 k (by rw [startSoc_end]; exact hk)

/-- Every index of the slack vector is in the linear part or in exactly one cone. -/
theorem covered (c : Cone) (k : Nat) (hk : k < c.sizecone) (hl : c.nineq ≤ k) :
    ∃ i j, i < c.nsoc ∧ j < c.sizeSoc i ∧ k = c.startSoc i + j := by
  suffices h : ∀ m, m ≤ c.nsoc → k < c.startSoc m → ∃ i j, i < m ∧ j < c.sizeSoc i ∧ k = c.startSoc i + j by
    obtain ⟨i, j, h1, h2, h3⟩ := h c.nsoc le_rfl (by rw [startSoc_end]; exact hk)
    exact ⟨i, j, h1, h2, h3⟩
  intro m
  induction m with
  | zero => intro _ h; rw [startSoc_zero] at h; omega
  | succ m ih =>
    intro hm h
    by_cases hlt : k < c.startSoc m
    · obtain ⟨i, j, h1, h2, h3⟩ := ih (by omega) hlt
      exact ⟨i, j, by omega, h2, h3⟩
    · rw [c.startSoc_succ m (by omega)] at h
      exact ⟨m, k - c.startSoc m, by omega, by omega, by omega⟩

theorem loc_inj (c : Cone) {i i' j j' : Nat} (hi : i < c.nsoc) (hi' : i' < c.nsoc) (hj : j < c.sizeSoc i)
    (hj' : j' < c.sizeSoc i') (h : c.startSoc i + j = c.startSoc i' + j') : i = i' ∧ j = j' := by
  rcases Nat.lt_trichotomy i i' with hlt | rfl | hlt
  · have := c.startSoc_lt hlt (by omega); omega
  · exact ⟨rfl, by omega⟩
  · have := c.startSoc_lt hlt (by omega); omega

theorem safeDiv_eq (x y : ℝ) (h : 1e-13 ≤ y) : safeDiv x y = x / y := by
  unfold safeDiv; rw [if_neg (not_lt.mpr h)]

theorem sum_range_split (n : Nat) (hn : 0 < n) (f : Nat → ℝ) : ∑ k ∈ range n, f k = f 0 + ∑ k ∈ Ico 1 n, f k := by
  rw [← Nat.Ico_zero_eq_range, Finset.sum_eq_sum_Ico_succ_bot hn]

end Cone
end Verif
