import Verif.IP
import Verif.ConeProps
import Mathlib.Tactic.FieldSimp
import Mathlib.Tactic.LinearCombination

/-! C77: the step length keeps the iterates strictly inside the cones. -/
namespace Verif
namespace IP
open Cone Finset

/-! ### lemmas -/

/-- The direction seen from the frame of `l`: residual and head of `l + b d`. -/
theorem frame_spec (n : Nat) (l d : Nat → ℝ) (h0 : 0 < l 0) (hr : 0 < residual l n) (b : ℝ) :
    let w : Nat → ℝ := fun j => (if j = 0 then 1 else 0) + b * frame n l d j
    residual (fun j => l j + b * d j) n = residual l n * residual w n ∧
    l 0 + b * d 0 = l 0 * w 0 + ∑ j ∈ Ico 1 n, l j * w j := by
  intro w
  set r := residual l n with hrdef
  set q := Real.sqrt r with hq
  have hqp : 0 < q := Real.sqrt_pos.2 hr
  have hqq : q * q = r := Real.mul_self_sqrt hr.le
  set a := l 0 / q with ha
  have hap : 0 < a := div_pos h0 hqp
  set cd := a * d 0 - ∑ j ∈ Ico 1 n, l j / q * d j with hcd
  set f := (cd + d 0) / (a + 1) with hf
  have ha1 : a + 1 ≠ 0 := by positivity
  have hf' : f * (a + 1) = cd + d 0 := by rw [hf]; field_simp
  have fr0 : frame n l d 0 = 1 / q * cd := by simp [frame, ← hrdef, ← hq, ← ha, ← hcd]
  have frj : ∀ j ∈ Ico 1 n, frame n l d j = 1 / q * (d j - f * (l j / q)) := by
    intro j hj
    have : j ≠ 0 := by have := (mem_Ico.1 hj).1; omega
    simp [frame, this, ← hrdef, ← hq, ← ha, ← hcd, ← hf]
  have w0 : w 0 = 1 + b * (1 / q * cd) := by simp only [w, fr0, if_true]
  have wj : ∀ j ∈ Ico 1 n, w j = b * (1 / q * (d j - f * (l j / q))) := by
    intro j hj
    have h : j ≠ 0 := by have := (mem_Ico.1 hj).1; omega
    simp only [w, frj j hj, if_neg h, zero_add]
  set LL := ∑ j ∈ Ico 1 n, l j ^ 2 with hLL
  set LD := ∑ j ∈ Ico 1 n, l j * d j with hLD
  set DD := ∑ j ∈ Ico 1 n, d j ^ 2 with hDD
  have eLL : l 0 * l 0 - LL = q * q := by rw [hqq]; rfl
  have el0 : l 0 = a * q := by rw [ha]; field_simp
  have ecd : q * cd = l 0 * d 0 - LD := by
    have : ∑ j ∈ Ico 1 n, l j / q * d j = LD / q := by
      rw [hLD, Finset.sum_div]; apply Finset.sum_congr rfl; intro j _; ring
    rw [hcd, this, ha]; field_simp
  have sw : ∑ j ∈ Ico 1 n, w j ^ 2 = b ^ 2 / q ^ 2 * (DD - 2 * (f / q) * LD + (f / q) ^ 2 * LL) := by
    rw [hDD, hLD, hLL, Finset.mul_sum, Finset.mul_sum, ← Finset.sum_sub_distrib, ← Finset.sum_add_distrib, Finset.mul_sum]
    apply Finset.sum_congr rfl
    intro j hj
    rw [wj j hj]; field_simp; ring
  have sl : ∑ j ∈ Ico 1 n, l j * w j = b / q * (LD - f / q * LL) := by
    rw [hLD, hLL, Finset.mul_sum, ← Finset.sum_sub_distrib, Finset.mul_sum]
    apply Finset.sum_congr rfl
    intro j hj
    rw [wj j hj]; field_simp
  have sv : ∑ j ∈ Ico 1 n, (l j + b * d j) ^ 2 = LL + 2 * b * LD + b ^ 2 * DD := by
    rw [hDD, hLD, hLL, Finset.mul_sum, Finset.mul_sum, ← Finset.sum_add_distrib, ← Finset.sum_add_distrib]
    apply Finset.sum_congr rfl
    intro j _; ring
  have hq0 : q ≠ 0 := hqp.ne'
  have eLL' : LL = (a ^ 2 - 1) * q ^ 2 := by rw [el0] at eLL; linear_combination -eLL
  have eLD' : LD = q * (a * d 0 - cd) := by rw [el0] at ecd; linear_combination ecd
  constructor
  · show (l 0 + b * d 0) * (l 0 + b * d 0) - ∑ j ∈ Ico 1 n, (l j + b * d j) ^ 2 = r * (w 0 * w 0 - ∑ j ∈ Ico 1 n, w j ^ 2)
    rw [sv, sw, w0, ← hqq, eLL', eLD', el0]
    have e1 : q * q * ((1 + b * (1 / q * cd)) * (1 + b * (1 / q * cd)) -
        b ^ 2 / q ^ 2 * (DD - 2 * (f / q) * (q * (a * d 0 - cd)) + (f / q) ^ 2 * ((a ^ 2 - 1) * q ^ 2)))
        = (q + b * cd) ^ 2 - b ^ 2 * (DD - 2 * f * (a * d 0 - cd) + f ^ 2 * (a ^ 2 - 1)) := by
      field_simp
    rw [e1]
    have e2 : f ^ 2 * (a ^ 2 - 1) = (cd + d 0) * (f * (a - 1)) := by
      rw [← hf']; ring
    have e3 : f * (a - 1) = cd + d 0 - 2 * f := by rw [← hf']; ring
    rw [e2, e3]
    linear_combination (-2 * b ^ 2 * (d 0)) * hf'
  · rw [sl, w0, eLL', eLD', el0]
    field_simp
    linear_combination (b * (a - 1)) * hf'

/-- If `b` is below the bound of the cone then `l + b d` stays strictly inside. -/
theorem soc_inside (n : Nat) (l d : Nat → ℝ) (h0 : 0 < l 0) (hr : 0 < residual l n) (b : ℝ) (hb : 0 ≤ b)
    (hlt : b * max (excess n (frame n l d)) 0 < 1) :
    0 < l 0 + b * d 0 ∧ 0 < residual (fun j => l j + b * d j) n := by
  obtain ⟨h1, h2⟩ := frame_spec n l d h0 hr b
  set w : Nat → ℝ := fun j => (if j = 0 then 1 else 0) + b * frame n l d j with hw
  set t := Real.sqrt (∑ j ∈ Ico 1 n, frame n l d j ^ 2) with ht
  have ht0 : 0 ≤ t := Real.sqrt_nonneg _
  have htt : t ^ 2 = ∑ j ∈ Ico 1 n, frame n l d j ^ 2 := Real.sq_sqrt (Finset.sum_nonneg (fun _ _ => sq_nonneg _))
  have hw0 : w 0 = 1 + b * frame n l d 0 := by simp [hw]
  have hwj : ∑ j ∈ Ico 1 n, w j ^ 2 = (b * t) ^ 2 := by
    rw [mul_pow, htt, Finset.mul_sum]
    apply Finset.sum_congr rfl
    intro j hj
    have h : j ≠ 0 := by have := (mem_Ico.1 hj).1; omega
    simp only [hw, if_neg h]; ring
  have hex : b * (t - frame n l d 0) < 1 :=
    lt_of_le_of_lt (mul_le_mul_of_nonneg_left (le_max_left _ _) hb) hlt
  have hwin : b * t < w 0 := by rw [hw0]; nlinarith
  have hbt : 0 ≤ b * t := mul_nonneg hb ht0
  have hresw : 0 < residual w n := by
    unfold Cone.residual; rw [hwj]; nlinarith
  refine ⟨?_, by rw [h1]; exact mul_pos hr hresw⟩
  rw [h2]
  have hl : (∑ j ∈ Ico 1 n, l j ^ 2) < l 0 ^ 2 := by unfold Cone.residual at hr; nlinarith
  have hcs := tail_cs n l w
  rw [hwj] at hcs
  have hlow : -(l 0 * (b * t)) ≤ ∑ j ∈ Ico 1 n, l j * w j := by
    have h3 : (∑ j ∈ Ico 1 n, l j * w j) ^ 2 ≤ (l 0 * (b * t)) ^ 2 := by
      refine le_trans hcs ?_
      rw [mul_pow (l 0)]
      exact mul_le_mul_of_nonneg_right hl.le (sq_nonneg _)
    exact (abs_le_of_sq_le_sq' h3 (mul_nonneg h0.le hbt)).1
  nlinarith

theorem socStep_le (n : Nat) (l ds dz : Nat → ℝ) (a : ℝ) : socStep n l ds dz a ≤ a := by
  unfold socStep
  split
  · exact le_rfl
  · simp only []
    split
    · exact le_rfl
    · exact min_le_left _ _

theorem socFold_le (c : Cone) (lam ds dz : Nat → ℝ) (l : List Nat) (a : ℝ) :
    l.foldl (fun a i => socStep (c.sizeSoc i) (shift lam (c.startSoc i)) (shift ds (c.startSoc i)) (shift dz (c.startSoc i)) a) a ≤ a := by
  induction l generalizing a with
  | nil => exact le_rfl
  | cons i l ih => exact le_trans (ih _) (socStep_le _ _ _ _ _)

theorem socFold_bound (c : Cone) (lam ds dz : Nat → ℝ) (l : List Nat) (a : ℝ) (i : Nat) (hi : i ∈ l) :
    ∃ a', l.foldl (fun a i => socStep (c.sizeSoc i) (shift lam (c.startSoc i)) (shift ds (c.startSoc i))
      (shift dz (c.startSoc i)) a) a ≤ socStep (c.sizeSoc i) (shift lam (c.startSoc i)) (shift ds (c.startSoc i))
      (shift dz (c.startSoc i)) a' := by
  induction l generalizing a with
  | nil => exact absurd hi (by simp)
  | cons k l ih =>
    rcases List.mem_cons.1 hi with rfl | hi
    · exact ⟨a, socFold_le c lam ds dz l _⟩
    · exact ih _ hi

theorem rawStep_le_first (c : Cone) (g : Stg) (lam ds dz : Nat → ℝ) (tau dtau kappa dkappa : ℝ) :
    rawStep c g lam ds dz tau dtau kappa dkappa ≤
      (if min (minRatio c lam dz) (minRatio c lam ds) < 0 then -1 / min (minRatio c lam dz) (minRatio c lam ds)
        else 1 / g.dynRegThresh) ∧
    (0 < -tau / dtau → rawStep c g lam ds dz tau dtau kappa dkappa ≤ -tau / dtau) ∧
    (0 < -kappa / dkappa → rawStep c g lam ds dz tau dtau kappa dkappa ≤ -kappa / dkappa) := by
  set a0 := (if min (minRatio c lam dz) (minRatio c lam ds) < 0 then -1 / min (minRatio c lam dz) (minRatio c lam ds)
        else 1 / g.dynRegThresh) with ha0
  set a1 := if -tau / dtau > 0 ∧ -tau / dtau < a0 then -tau / dtau else a0 with ha1
  set a2 := if -kappa / dkappa > 0 ∧ -kappa / dkappa < a1 then -kappa / dkappa else a1 with ha2
  have h := socFold_le c lam ds dz (List.range c.nsoc) a2
  have hraw : rawStep c g lam ds dz tau dtau kappa dkappa ≤ a2 := h
  have h21 : a2 ≤ a1 := by rw [ha2]; split <;> linarith
  have h10 : a1 ≤ a0 := by rw [ha1]; split <;> linarith
  refine ⟨by linarith, fun hp => ?_, fun hp => ?_⟩
  · have : a1 ≤ -tau / dtau := by
      rw [ha1]; split
      · exact le_rfl
      · rename_i hn; push Not at hn; exact hn hp
    linarith
  · have : a2 ≤ -kappa / dkappa := by
      rw [ha2]; split
      · exact le_rfl
      · rename_i hn; push Not at hn; exact hn hp
    linarith

theorem minRatio_le (c : Cone) (lam d : Nat → ℝ) (i : Nat) (hi : i < c.nineq) : minRatio c lam d ≤ d i / lam i := by
  unfold minRatio
  have key : ∀ (l : List Nat) (m : ℝ), l.foldl (fun m i => if d (i + 1) / lam (i + 1) < m then d (i + 1) / lam (i + 1) else m) m ≤ m ∧
      ∀ k ∈ l, l.foldl (fun m i => if d (i + 1) / lam (i + 1) < m then d (i + 1) / lam (i + 1) else m) m ≤ d (k + 1) / lam (k + 1) := by
    intro l
    induction l with
    | nil => intro m; exact ⟨le_rfl, fun k hk => absurd hk (by simp)⟩
    | cons a l ih =>
      intro m
      simp only [List.foldl_cons]
      set m' := if d (a + 1) / lam (a + 1) < m then d (a + 1) / lam (a + 1) else m with hm'
      have h1 : m' ≤ m := by rw [hm']; split <;> linarith
      have h2 : m' ≤ d (a + 1) / lam (a + 1) := by rw [hm']; split <;> linarith
      refine ⟨le_trans (ih m').1 h1, fun k hk => ?_⟩
      rcases List.mem_cons.1 hk with rfl | hk
      · exact le_trans (ih m').1 h2
      · exact (ih m').2 k hk
  rcases Nat.eq_zero_or_pos i with rfl | hp
  · exact (key _ _).1
  · have := (key (List.range (c.nineq - 1)) (d 0 / lam 0)).2 (i - 1) (List.mem_range.2 (by omega))
    rwa [show i - 1 + 1 = i by omega] at this

/-! ### properties -/

theorem interior_iff_residual (c : Cone) (_ : c.NoEmpty) (s : Nat → ℝ) : c.Interior s ↔
    (∀ i < c.nineq, 0 < s i) ∧ ∀ i < c.nsoc, 0 < shift s (c.startSoc i) 0 ∧ 0 < residual (shift s (c.startSoc i)) (c.sizeSoc i) := by
  unfold Interior
  refine and_congr Iff.rfl (forall₂_congr fun i hi => ?_)
  have e : ∑ j ∈ Ico 1 (c.sizeSoc i), c.entry s i j ^ 2 = ∑ j ∈ Ico 1 (c.sizeSoc i), shift s (c.startSoc i) j ^ 2 := rfl
  have e0 : c.entry s i 0 = shift s (c.startSoc i) 0 := rfl
  rw [e, e0]
  have hs : 0 ≤ ∑ j ∈ Ico 1 (c.sizeSoc i), shift s (c.startSoc i) j ^ 2 := Finset.sum_nonneg (fun _ _ => sq_nonneg _)
  constructor
  · intro h
    have h0 : 0 < shift s (c.startSoc i) 0 := lt_of_le_of_lt (Real.sqrt_nonneg _) h
    rw [Real.sqrt_lt' h0] at h
    refine ⟨h0, ?_⟩
    unfold Cone.residual; nlinarith
  · rintro ⟨h0, h1⟩
    rw [Real.sqrt_lt' h0]
    unfold Cone.residual at h1; nlinarith

/-- C77: whatever directions are passed, moving from a point strictly inside the cone by any step strictly below the raw step
length keeps slack and dual (both in the scaled space) strictly inside the cone, and tau and kappa positive. -/
theorem C77_raw_step_safe (c : Cone) (hne : c.NoEmpty) (g : Stg) (lam ds dz : Nat → ℝ) (tau dtau kappa dkappa : ℝ)
    (hl : c.Interior lam) (ht : 0 < tau) (hk : 0 < kappa) (b : ℝ) (hb : 0 ≤ b)
    (hlt : b < rawStep c g lam ds dz tau dtau kappa dkappa) :
    c.Interior (fun k => lam k + b * ds k) ∧ c.Interior (fun k => lam k + b * dz k) ∧
    0 < tau + b * dtau ∧ 0 < kappa + b * dkappa := by
  obtain ⟨h1, h2, h3⟩ := rawStep_le_first c g lam ds dz tau dtau kappa dkappa
  rw [interior_iff_residual c hne] at hl
  have scal : ∀ x dx : ℝ, 0 < x → (0 < -x / dx → rawStep c g lam ds dz tau dtau kappa dkappa ≤ -x / dx) → 0 < x + b * dx := by
    intro x dx hx hle
    rcases le_or_gt 0 dx with hd | hd
    · have := mul_nonneg hb hd; linarith
    · have hp : 0 < -x / dx := div_pos_of_neg_of_neg (by linarith) hd
      have h4 : b < -x / dx := lt_of_lt_of_le hlt (hle hp)
      rw [lt_div_iff_of_neg hd] at h4
      linarith
  have lin : ∀ d : Nat → ℝ, min (minRatio c lam dz) (minRatio c lam ds) ≤ minRatio c lam d → ∀ i < c.nineq, 0 < lam i + b * d i := by
    intro d hd i hi
    have hm := le_trans hd (minRatio_le c lam d i hi)
    have hli := hl.1 i hi
    set m := min (minRatio c lam dz) (minRatio c lam ds) with hmdef
    have e : lam i + b * d i = lam i * (1 + b * (d i / lam i)) := by field_simp
    rw [e]
    apply mul_pos hli
    have h5 : b * m ≤ b * (d i / lam i) := mul_le_mul_of_nonneg_left hm hb
    rcases lt_or_ge m 0 with hneg | hnn
    · rw [if_pos hneg] at h1
      have h6 : b < -1 / m := lt_of_lt_of_le hlt h1
      rw [lt_div_iff_of_neg hneg] at h6
      linarith
    · have := mul_nonneg hb hnn; linarith
  have soc : ∀ d : Nat → ℝ, (∀ i < c.nsoc, excess (c.sizeSoc i) (frame (c.sizeSoc i) (shift lam (c.startSoc i)) (shift d (c.startSoc i))) ≤
      max (excess (c.sizeSoc i) (frame (c.sizeSoc i) (shift lam (c.startSoc i)) (shift ds (c.startSoc i))))
        (excess (c.sizeSoc i) (frame (c.sizeSoc i) (shift lam (c.startSoc i)) (shift dz (c.startSoc i))))) →
      ∀ i < c.nsoc, 0 < shift (fun k => lam k + b * d k) (c.startSoc i) 0 ∧
        0 < residual (shift (fun k => lam k + b * d k) (c.startSoc i)) (c.sizeSoc i) := by
    intro d hd i hi
    obtain ⟨l0, lr⟩ := hl.2 i hi
    apply soc_inside (c.sizeSoc i) (shift lam (c.startSoc i)) (shift d (c.startSoc i)) l0 lr b hb
    obtain ⟨a', ha'⟩ := socFold_bound c lam ds dz (List.range c.nsoc)
      (let a := if min (minRatio c lam dz) (minRatio c lam ds) < 0 then -1 / min (minRatio c lam dz) (minRatio c lam ds) else 1 / g.dynRegThresh
       let a := if -tau / dtau > 0 ∧ -tau / dtau < a then -tau / dtau else a
       if -kappa / dkappa > 0 ∧ -kappa / dkappa < a then -kappa / dkappa else a) i (List.mem_range.2 hi)
    have h7 : b < socStep (c.sizeSoc i) (shift lam (c.startSoc i)) (shift ds (c.startSoc i)) (shift dz (c.startSoc i)) a' :=
      lt_of_lt_of_le hlt ha'
    unfold socStep at h7
    rw [if_neg (not_le.2 lr)] at h7
    simp only [] at h7
    set m := max (max (excess (c.sizeSoc i) (frame (c.sizeSoc i) (shift lam (c.startSoc i)) (shift ds (c.startSoc i))))
        (excess (c.sizeSoc i) (frame (c.sizeSoc i) (shift lam (c.startSoc i)) (shift dz (c.startSoc i))))) 0 with hm
    have hmd : max (excess (c.sizeSoc i) (frame (c.sizeSoc i) (shift lam (c.startSoc i)) (shift d (c.startSoc i)))) 0 ≤ m :=
      max_le_max (hd i hi) le_rfl
    refine lt_of_le_of_lt (mul_le_mul_of_nonneg_left hmd hb) ?_
    by_cases hm0 : m = 0
    · rw [hm0, mul_zero]; exact one_pos
    · rw [if_neg hm0] at h7
      have hmp : 0 < m := lt_of_le_of_ne (le_max_right _ _) (Ne.symm hm0)
      have h8 : b < 1 / m := lt_of_lt_of_le h7 (min_le_right _ _)
      rwa [lt_div_iff₀ hmp] at h8
  refine ⟨?_, ?_, scal tau dtau ht h2, scal kappa dkappa hk h3⟩
  · rw [interior_iff_residual c hne]
    exact ⟨lin ds (min_le_right _ _), soc ds (fun i _ => le_max_left _ _)⟩
  · rw [interior_iff_residual c hne]
    exact ⟨lin dz (min_le_left _ _), soc dz (fun i _ => le_max_right _ _)⟩

/-- C77: the step of the line search, damped by a factor below one, is safe unless it was raised to the minimum step length. -/
theorem C77_step_safe (c : Cone) (hne : c.NoEmpty) (g : Stg) (lam ds dz : Nat → ℝ) (tau dtau kappa dkappa f : ℝ)
    (hl : c.Interior lam) (ht : 0 < tau) (hk : 0 < kappa) (hf0 : 0 ≤ f) (hf1 : f < 1) (hmin : 0 < g.minStep)
    (hns : g.minStep < lineSearch c g lam ds dz tau dtau kappa dkappa) :
    let b := lineSearch c g lam ds dz tau dtau kappa dkappa * f
    c.Interior (fun k => lam k + b * ds k) ∧ c.Interior (fun k => lam k + b * dz k) ∧
    0 < tau + b * dtau ∧ 0 < kappa + b * dkappa := by
  intro b
  have h1 : lineSearch c g lam ds dz tau dtau kappa dkappa ≤ rawStep c g lam ds dz tau dtau kappa dkappa := by
    unfold lineSearch at hns ⊢
    rcases le_total (min (rawStep c g lam ds dz tau dtau kappa dkappa) g.maxStep) g.minStep with h | h
    · rw [max_eq_right h] at hns; exact absurd hns (lt_irrefl _)
    · rw [max_eq_left h]; exact min_le_left _ _
  have hpos : 0 < lineSearch c g lam ds dz tau dtau kappa dkappa := lt_trans hmin hns
  refine C77_raw_step_safe c hne g lam ds dz tau dtau kappa dkappa hl ht hk b (mul_nonneg hpos.le hf0) ?_
  have : b < lineSearch c g lam ds dz tau dtau kappa dkappa := by
    show _ * f < _
    nlinarith
  linarith

/-- C77: the step length always lies between the configured bounds. -/
theorem C77_step_bounds (c : Cone) (g : Stg) (lam ds dz : Nat → ℝ) (tau dtau kappa dkappa : ℝ) (h : g.minStep ≤ g.maxStep) :
    g.minStep ≤ lineSearch c g lam ds dz tau dtau kappa dkappa ∧ lineSearch c g lam ds dz tau dtau kappa dkappa ≤ g.maxStep :=
  ⟨le_max_right _ _, max_le (min_le_right _ _) h⟩

end IP
end Verif
