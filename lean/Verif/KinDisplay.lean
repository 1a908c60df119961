import Verif.KinOptRun

/-! C118: replay of the planned motion, KinematicsOptimizer.cpp:486-506. -/
namespace Verif
namespace Kin
open Finset

/-- The interpolated posture of `displayMotion`, lines 502-505; `slerp` is Eigen's spherical interpolation. -/
noncomputable def blend (slerp : ℝ → (Nat → ℝ) → (Nat → ℝ) → Nat → ℝ) (f : ℝ) (p q : Posture) : Posture :=
  ⟨fun i => p.base i + f * (q.base i - p.base i), slerp f p.ori q.ori, fun j => p.jnt j + f * (q.jnt j - p.jnt j)⟩

/-- `displayMotion`, lines 487-508: the postures shown and the time each is held (`n` is `NumSubsamples`). -/
noncomputable def displayed (slerp : ℝ → (Nat → ℝ) → (Nat → ℝ) → Nat → ℝ) (T n : Nat) (time : Nat → ℝ) (ini : KState) (seq : Nat → KState) :
    List (Posture × ℝ) :=
  (List.range T).flatMap fun t => (List.range n).map fun (k : Nat) =>
    (blend slerp ((k : ℝ) / n) (if t = 0 then ini else seq (t - 1)).pos (seq t).pos, time t / n)

/-- C118: the replay shows `NumSubsamples` postures per time step; it takes the planned time if `NumSubsamples` is positive;
the first posture of a time step is the planned one at its beginning; and the shown joints stay within any limits that the
planned postures satisfy. -/
theorem C118_replay (slerp : ℝ → (Nat → ℝ) → (Nat → ℝ) → Nat → ℝ) (hs : ∀ p q, slerp 0 p q = p) (T n : Nat) (hn : 0 < n) (time : Nat → ℝ)
    (ini : KState) (seq : Nat → KState) :
    (displayed slerp T n time ini seq).length = T * n ∧
    ((displayed slerp T n time ini seq).map Prod.snd).sum = ∑ t ∈ range T, time t ∧
    (∀ t < T, (displayed slerp T n time ini seq)[t * n]? = some ((before ini seq t).pos, time t / n)) ∧
    ∀ j lo hi, (lo ≤ ini.pos.jnt j ∧ ini.pos.jnt j ≤ hi) → (∀ t < T, lo ≤ (seq t).pos.jnt j ∧ (seq t).pos.jnt j ≤ hi) →
      ∀ p ∈ displayed slerp T n time ini seq, lo ≤ p.1.jnt j ∧ p.1.jnt j ≤ hi := by
  have hn' : (0 : ℝ) < n := by exact_mod_cast hn
  have hlen : ∀ T, (displayed slerp T n time ini seq).length = T * n := by
    intro T
    induction T with
    | zero => simp [displayed]
    | succ T ih =>
      have : displayed slerp (T + 1) n time ini seq = displayed slerp T n time ini seq ++ (List.range n).map fun (k : Nat) =>
        (blend slerp ((k : ℝ) / n) (if T = 0 then ini else seq (T - 1)).pos (seq T).pos, time T / n) := by
        simp only [displayed, List.range_succ, List.flatMap_append, List.flatMap_singleton]
      rw [this, List.length_append, ih, List.length_map, List.length_range, Nat.succ_mul]
  have hsucc : ∀ T, displayed slerp (T + 1) n time ini seq = displayed slerp T n time ini seq ++ (List.range n).map fun (k : Nat) =>
      (blend slerp ((k : ℝ) / n) (if T = 0 then ini else seq (T - 1)).pos (seq T).pos, time T / n) := by
    intro T
    simp only [displayed, List.range_succ, List.flatMap_append, List.flatMap_singleton]
  refine ⟨hlen T, ?_, ?_, ?_⟩
  · induction T with
    | zero => simp [displayed]
    | succ T ih =>
      rw [hsucc, List.map_append, List.sum_append, ih, sum_range_succ, List.map_map]
      congr 1
      rw [list_range_sum]
      show ∑ i ∈ range n, time T / n = time T
      rw [sum_const, card_range, nsmul_eq_mul]
      field_simp
  · intro t ht
    induction T with
    | zero => omega
    | succ T ih =>
      rw [hsucc]
      rcases Nat.lt_or_ge t T with h | h
      · rw [List.getElem?_append_left]
        · exact ih h
        · rw [hlen]; exact Nat.mul_lt_mul_of_pos_right h hn
      · obtain rfl : t = T := by omega
        rw [List.getElem?_append_right (by rw [hlen]), hlen, Nat.sub_self, List.getElem?_map, List.getElem?_range hn]
        simp only [Option.map_some, blend, Nat.cast_zero, zero_div, zero_mul, add_zero, hs, before]
  · intro j lo hi h0 h1 p hp
    simp only [displayed, List.mem_flatMap, List.mem_range, List.mem_map] at hp
    obtain ⟨t, ht, k, hk, rfl⟩ := hp
    have a : lo ≤ (if t = 0 then ini else seq (t - 1)).pos.jnt j ∧ (if t = 0 then ini else seq (t - 1)).pos.jnt j ≤ hi := by
      split
      · exact h0
      · exact h1 _ (by omega)
    have b := h1 t ht
    have f0 : 0 ≤ (k : ℝ) / n := by positivity
    have f1 : (k : ℝ) / n ≤ 1 := by
      rw [div_le_one hn']; exact_mod_cast hk.le
    simp only [blend]
    constructor <;> nlinarith

/-- The last planned posture is not shown, unless nothing moves: every joint shown in the last time step is short of its
final position by at least one subsample of the way. -/
theorem C118_last_not_shown (slerp : ℝ → (Nat → ℝ) → (Nat → ℝ) → Nat → ℝ) (t n : Nat) (time : Nat → ℝ) (ini : KState) (seq : Nat → KState)
    (j : Nat) (p : Posture × ℝ)
    (hp : p ∈ (displayed slerp (t + 1) n time ini seq).drop (t * n)) :
    |(seq t).pos.jnt j - (before ini seq t).pos.jnt j| / n ≤ |(seq t).pos.jnt j - p.1.jnt j| := by
  have hlen : ∀ T, (displayed slerp T n time ini seq).length = T * n := by
    intro T; simp [displayed, List.length_flatMap]
  have hsucc : displayed slerp (t + 1) n time ini seq = displayed slerp t n time ini seq ++ (List.range n).map fun (k : Nat) =>
      (blend slerp ((k : ℝ) / n) (if t = 0 then ini else seq (t - 1)).pos (seq t).pos, time t / n) := by
    simp only [displayed, List.range_succ, List.flatMap_append, List.flatMap_singleton]
  rw [hsucc, List.drop_left' (hlen t)] at hp
  obtain ⟨k, hk, rfl⟩ := List.mem_map.1 hp
  have hk' : (k : ℝ) + 1 ≤ n := by exact_mod_cast List.mem_range.1 hk
  have hn' : (0 : ℝ) < n := by have : (0 : ℝ) ≤ k := Nat.cast_nonneg k; linarith
  set a := (before ini seq t).pos.jnt j
  set b := (seq t).pos.jnt j
  have e : b - (blend slerp ((k : ℝ) / n) (if t = 0 then ini else seq (t - 1)).pos (seq t).pos).jnt j = (1 - (k : ℝ) / n) * (b - a) := by
    show b - (a + (k : ℝ) / n * (b - a)) = _
    ring
  rw [e, abs_mul]
  have h1 : 1 / (n : ℝ) ≤ 1 - (k : ℝ) / n := by
    rw [le_sub_iff_add_le, ← add_div, div_le_one hn']; linarith
  have h2 : 1 / (n : ℝ) ≤ |1 - (k : ℝ) / n| := h1.trans (le_abs_self _)
  calc |b - a| / n = 1 / n * |b - a| := by ring
    _ ≤ |1 - (k : ℝ) / n| * |b - a| := mul_le_mul_of_nonneg_right h2 (abs_nonneg _)

/-- An interpolation that starts at its first argument. -/
example : ∃ slerp : ℝ → (Nat → ℝ) → (Nat → ℝ) → Nat → ℝ, (∀ p q, slerp 0 p q = p) ∧ ∀ p q, slerp 1 p q = q :=
  ⟨fun f p q i => (1 - f) * p i + f * q i, fun p q => by funext i; ring, fun p q => by funext i; ring⟩

end Kin
end Verif
