import Verif.ConeLemmas
import Mathlib.Tactic.LinearCombination
import Mathlib.Algebra.BigOperators.Field
import Mathlib.Tactic.NormNum.BigOperators

/-! Algebra of one second-order cone: product/division, Nesterov-Todd scaling point and its sparse expansion. -/
namespace Verif
open Finset
namespace Cone

theorem divBlk_congr (n : Nat) (u w w' : Nat → ℝ) (hn : 0 < n) (h : ∀ k < n, w k = w' k) (j : Nat) (hj : j < n) :
    divBlk n u w j = divBlk n u w' j := by
  have h1 : ∑ k ∈ Ico 1 n, u k * w k = ∑ k ∈ Ico 1 n, u k * w' k :=
    sum_congr rfl fun k hk => by rw [h k (mem_Ico.mp hk).2]
  unfold divBlk
  simp only [h1, h 0 hn, h j hj]

theorem prodBlk_congr (n : Nat) (u w w' : Nat → ℝ) (hn : 0 < n) (h : ∀ k < n, w k = w' k) (j : Nat) (hj : j < n) :
    prodBlk n u w j = prodBlk n u w' j := by
  have h1 : ∑ k ∈ range n, u k * w k = ∑ k ∈ range n, u k * w' k :=
    sum_congr rfl fun k hk => by rw [h k (mem_range.mp hk)]
  unfold prodBlk
  simp only [h1, h 0 hn, h j hj]

theorem scaleBlk_congr (n : Nat) (t : NT) (w w' : Nat → ℝ) (hn : 0 < n) (h : ∀ k < n, w k = w' k) (j : Nat) (hj : j < n) :
    scaleBlk n t w j = scaleBlk n t w' j := by
  have h1 : ∑ k ∈ Ico 1 n, t.w k * w k = ∑ k ∈ Ico 1 n, t.w k * w' k :=
    sum_congr rfl fun k hk => by rw [h k (mem_Ico.mp hk).2]
  unfold scaleBlk
  simp only [h1, h 0 hn, h j hj]

theorem div_prod (n : Nat) (hn : 0 < n) (u v : Nat → ℝ) (h0 : 1e-13 ≤ u 0) (hr : 1e-13 ≤ residual u n) (j : Nat) (hj : j < n) :
    divBlk n u (prodBlk n u v) j = v j := by
  have p0 : (0 : ℝ) < u 0 := lt_of_lt_of_le (by norm_num) h0
  have pr : (0 : ℝ) < residual u n := lt_of_lt_of_le (by norm_num) hr
  set T := ∑ k ∈ Ico 1 n, u k * v k with hT
  set N := ∑ k ∈ Ico 1 n, u k ^ 2 with hN
  have hres : residual u n = u 0 * u 0 - N := rfl
  have hw0 : prodBlk n u v 0 = u 0 * v 0 + T := by
    simp only [prodBlk, if_true]; rw [sum_range_split n hn]
  have hwk : ∀ k, k ≠ 0 → prodBlk n u v k = u 0 * v k + v 0 * u k := fun k hk => by simp [prodBlk, hk]
  have huw : ∑ k ∈ Ico 1 n, u k * prodBlk n u v k = u 0 * T + v 0 * N := by
    rw [hT, hN, mul_sum, mul_sum, ← sum_add_distrib]
    refine sum_congr rfl fun k hk => ?_
    rw [hwk k (by have := (mem_Ico.mp hk).1; omega)]; ring
  unfold divBlk
  simp only [huw, safeDiv_eq _ _ hr, safeDiv_eq _ _ h0, hw0]
  rw [hres] at pr ⊢
  obtain ⟨rho, hrho⟩ : ∃ rho, rho = u 0 * u 0 - N := ⟨_, rfl⟩
  have hNr : N = u 0 * u 0 - rho := by linarith
  rw [← hrho] at pr ⊢
  have hne : rho ≠ 0 := pr.ne'
  rw [hNr]
  split
  · next h => subst h; field_simp; ring
  · next h =>
    rw [hwk j h]
    have hf : (((u 0 * T + v 0 * (u 0 * u 0 - rho)) / u 0 - (u 0 * v 0 + T)) / rho) = - v 0 / u 0 := by
      field_simp; ring
    rw [hf]; field_simp; ring

theorem prod_div (n : Nat) (hn : 0 < n) (u w : Nat → ℝ) (h0 : 1e-13 ≤ u 0) (hr : 1e-13 ≤ residual u n) (j : Nat) (hj : j < n) :
    prodBlk n u (divBlk n u w) j = w j := by
  have p0 : (0 : ℝ) < u 0 := lt_of_lt_of_le (by norm_num) h0
  have pr : (0 : ℝ) < residual u n := lt_of_lt_of_le (by norm_num) hr
  set T := ∑ k ∈ Ico 1 n, u k * w k with hT
  set N := ∑ k ∈ Ico 1 n, u k ^ 2 with hN
  have hres : residual u n = u 0 * u 0 - N := rfl
  have hv0 : divBlk n u w 0 = (u 0 * w 0 - T) / (u 0 * u 0 - N) := by
    simp only [divBlk, if_true]; rw [safeDiv_eq _ _ hr]; rfl
  have hvk : ∀ k, k ≠ 0 → divBlk n u w k = (T / u 0 - w 0) / (u 0 * u 0 - N) * u k + w k / u 0 := fun k hk => by
    simp only [divBlk, hk, if_false]; rw [safeDiv_eq _ _ hr, safeDiv_eq _ _ h0, safeDiv_eq _ _ h0]; rfl
  rw [hres] at pr
  obtain ⟨rho, hrho⟩ : ∃ rho, rho = u 0 * u 0 - N := ⟨_, rfl⟩
  have hNr : N = u 0 * u 0 - rho := by linarith
  rw [← hrho] at pr hv0 hvk
  have hne : rho ≠ 0 := pr.ne'
  have hne0 : u 0 ≠ 0 := p0.ne'
  unfold prodBlk
  split
  · next h =>
    subst h
    rw [sum_range_split n hn, hv0]
    have : ∑ k ∈ Ico 1 n, u k * divBlk n u w k = (T / u 0 - w 0) / rho * N + T / u 0 := by
      have : ∀ k ∈ Ico 1 n, u k * divBlk n u w k = (T / u 0 - w 0) / rho * u k ^ 2 + u k * w k / u 0 := fun k hk => by
        rw [hvk k (by have := (mem_Ico.mp hk).1; omega)]; ring
      rw [sum_congr rfl this, sum_add_distrib, ← mul_sum, ← sum_div]
    rw [this, hNr]; field_simp; ring
  · next h => rw [hv0, hvk j h]; field_simp; ring

/-- Cauchy-Schwarz for the tails. -/
theorem tail_cs (n : Nat) (u v : Nat → ℝ) :
    (∑ k ∈ Ico 1 n, u k * v k) ^ 2 ≤ (∑ k ∈ Ico 1 n, u k ^ 2) * ∑ k ∈ Ico 1 n, v k ^ 2 :=
  sum_mul_sq_le_sq_mul_sq _ _ _

/-- Two points of the open cone have a positive inner product; quantitative form. -/
theorem dot_ge (n : Nat) (u v : Nat → ℝ) (a b : ℝ) (hu : 0 < u 0) (hv : 0 < v 0) (ha : 0 ≤ a) (hb : 0 ≤ b)
    (hau : residual u n = a ^ 2) (hbv : residual v n = b ^ 2) :
    a * b ≤ u 0 * v 0 + ∑ k ∈ Ico 1 n, u k * v k := by
  have cs := tail_cs n u v
  set T := ∑ k ∈ Ico 1 n, u k * v k
  have hN : ∑ k ∈ Ico 1 n, u k ^ 2 = u 0 ^ 2 - a ^ 2 := by rw [← hau, residual]; ring
  have hM : ∑ k ∈ Ico 1 n, v k ^ 2 = v 0 ^ 2 - b ^ 2 := by rw [← hbv, residual]; ring
  have hN0 : 0 ≤ u 0 ^ 2 - a ^ 2 := by rw [← hN]; exact sum_nonneg fun _ _ => sq_nonneg _
  have hM0 : 0 ≤ v 0 ^ 2 - b ^ 2 := by rw [← hM]; exact sum_nonneg fun _ _ => sq_nonneg _
  rw [hN, hM] at cs
  have hua : a ≤ u 0 := by nlinarith
  have hvb : b ≤ v 0 := by nlinarith
  have hab : a * b ≤ u 0 * v 0 := mul_le_mul hua hvb hb hu.le
  by_contra hlt
  push Not at hlt
  have h1 : 0 ≤ u 0 * v 0 - a * b := by linarith
  have h2 : (u 0 * v 0 - a * b) < -T := by linarith
  have h3 : (u 0 * v 0 - a * b) ^ 2 < T ^ 2 := by nlinarith
  nlinarith [sq_nonneg (u 0 * b - v 0 * a)]

/-- The scaling point found by `updateNTScalings` (everything the later code relies on). -/
structure GoodNT (n : Nat) (s z : Nat → ℝ) (t : NT) : Prop where
  eta_pos : 0 < t.eta
  eta_sq : t.eta ^ 2 = t.etaSq
  w0 : 1 ≤ t.w 0
  unit : t.w 0 ^ 2 - ∑ k ∈ Ico 1 n, t.w k ^ 2 = 1
  /-- `W² z = s` -/
  sq0 : t.etaSq * (2 * t.w 0 * (t.w 0 * z 0 + ∑ k ∈ Ico 1 n, t.w k * z k) - z 0) = s 0
  sqj : ∀ j, 0 < j → j < n → t.etaSq * (2 * t.w j * (t.w 0 * z 0 + ∑ k ∈ Ico 1 n, t.w k * z k) + z j) = s j
  /-- relations of the sparse representation -/
  u0_pos : 0 < t.u0
  d1u0 : t.d1 + t.u0 ^ 2 = t.w 0 ^ 2 + ∑ k ∈ Ico 1 n, t.w k ^ 2
  u01 : t.u0 * t.u1 = 2 * t.w 0
  u1v1 : t.u1 ^ 2 - t.v1 ^ 2 = 2
  v1_pos : 0 < t.v1
  d1_pos : 0 < t.d1
  d1_eq : t.d1 * (2 * (2 * t.w 0 ^ 2 - 1)) = 1

set_option maxHeartbeats 1000000 in
theorem updateBlk_good (n : Nat) (s z : Nat → ℝ) (hs0 : 0 < s 0) (hz0 : 0 < z 0)
    (hs : 1e-26 ≤ residual s n) (hz : 1e-26 ≤ residual z n)
    (hn : 0 < n) (hsz : 1e-13 ≤ Real.sqrt (residual z n)) (hss : 1e-13 ≤ Real.sqrt (residual s n)) :
    ∃ t, updateBlk n s z = some t ∧ GoodNT n s z t := by
  set a := Real.sqrt (residual s n) with ha
  set b := Real.sqrt (residual z n) with hb
  have ps : 0 < residual s n := lt_of_lt_of_le (by norm_num) hs
  have pz : 0 < residual z n := lt_of_lt_of_le (by norm_num) hz
  have a2 : residual s n = a ^ 2 := (Real.sq_sqrt ps.le).symm
  have b2 : residual z n = b ^ 2 := (Real.sq_sqrt pz.le).symm
  have pa : 0 < a := Real.sqrt_pos.mpr ps
  have pb : 0 < b := Real.sqrt_pos.mpr pz
  have sda : safeDiv 1 a = 1 / a := safeDiv_eq _ _ hss
  have sdb : safeDiv 1 b = 1 / b := safeDiv_eq _ _ hsz
  have sde : safeDiv a b = a / b := safeDiv_eq _ _ hsz
  set D := ∑ k ∈ range n, s k * (1 / a) * (z k * (1 / b)) with hD
  have hDe : D = (s 0 * z 0 + ∑ k ∈ Ico 1 n, s k * z k) / (a * b) := by
    rw [hD, ← sum_range_split n hn (fun k => s k * z k), sum_div]
    refine sum_congr rfl fun k _ => ?_
    field_simp
  have hD1 : 1 ≤ D := by
    rw [hDe, le_div_iff₀ (by positivity), one_mul]
    exact dot_ge n s z a b hs0 hz0 pa.le pb.le a2 b2
  set g := Real.sqrt (0.5 + 0.5 * D) with hg
  have hg2 : g ^ 2 = 0.5 + 0.5 * D := Real.sq_sqrt (by linarith)
  have hg1 : 1 ≤ g := by rw [hg]; exact Real.one_le_sqrt.mpr (by linarith)
  have sdg : safeDiv 0.5 g = 0.5 / g := safeDiv_eq _ _ (by linarith)
  set w : Nat → ℝ := fun i => if i = 0 then 0.5 / g * (s 0 * (1 / a) + z 0 * (1 / b))
    else 0.5 / g * (s i * (1 / a) - z i * (1 / b)) with hw
  have hw0 : w 0 = 0.5 / g * (s 0 * (1 / a) + z 0 * (1 / b)) := by simp [hw]
  have hwj : ∀ j, j ≠ 0 → w j = 0.5 / g * (s j * (1 / a) - z j * (1 / b)) := fun j hj => by simp [hw, hj]
  set wn := ∑ i ∈ Ico 1 n, w i ^ 2 with hwn
  have pg : 0 < g := by linarith
  -- sums
  have hNs : ∑ k ∈ Ico 1 n, s k ^ 2 = s 0 ^ 2 - a ^ 2 := by rw [← a2, residual]; ring
  have hNz : ∑ k ∈ Ico 1 n, z k ^ 2 = z 0 ^ 2 - b ^ 2 := by rw [← b2, residual]; ring
  set P := ∑ k ∈ Ico 1 n, s k * z k with hP
  have hPD : P = D * (a * b) - s 0 * z 0 := by rw [hDe]; field_simp; ring
  have hwn' : wn = (0.5 / g) ^ 2 * ((s 0 ^ 2 - a ^ 2) / a ^ 2 - 2 * P / (a * b) + (z 0 ^ 2 - b ^ 2) / b ^ 2) := by
    rw [← hNs, ← hNz, hwn, hP, mul_sum, sum_div, sum_div, sum_div, ← sum_sub_distrib, ← sum_add_distrib, mul_sum]
    refine sum_congr rfl fun k hk => ?_
    rw [hwj k (by have := (mem_Ico.mp hk).1; omega)]; field_simp; ring
  have hunit : w 0 ^ 2 - wn = 1 := by
    rw [hwn', hw0, hPD]
    have : D = 2 * g ^ 2 - 1 := by rw [hg2]; ring
    rw [this]; field_simp; ring
  have hwz : w 0 * z 0 + ∑ k ∈ Ico 1 n, w k * z k = g * b := by
    have : ∑ k ∈ Ico 1 n, w k * z k = 0.5 / g * (P / a - (z 0 ^ 2 - b ^ 2) / b) := by
      rw [← hNz, hP, sum_div, sum_div, ← sum_sub_distrib, mul_sum]
      refine sum_congr rfl fun k hk => ?_
      rw [hwj k (by have := (mem_Ico.mp hk).1; omega)]; field_simp
    rw [this, hw0, hPD]
    have : D = 2 * g ^ 2 - 1 := by rw [hg2]; ring
    rw [this]; field_simp; ring
  have hwn0 : 0 ≤ wn := sum_nonneg fun _ _ => sq_nonneg _
  have hw0p : 0 < w 0 := by rw [hw0]; positivity
  have hw1 : 1 ≤ w 0 := by nlinarith
  have hwnv : wn = w 0 ^ 2 - 1 := by linarith
  have sd1 : ∀ x, safeDiv x (1 + w 0) = x / (1 + w 0) := fun x => safeDiv_eq _ _ (by linarith)
  have sd2 : ∀ x, safeDiv x ((1 + w 0) ^ 2) = x / (1 + w 0) ^ 2 := fun x => safeDiv_eq _ _ (by nlinarith)
  have halpha : 1 + w 0 + safeDiv wn (1 + w 0) = 2 * w 0 := by
    rw [sd1, hwnv]; field_simp; ring
  have hbeta : 1 + safeDiv 2 (1 + w 0) + safeDiv wn ((1 + w 0) ^ 2) = 2 := by
    rw [sd1, sd2, hwnv]; field_simp; ring
  set c := 2 * w 0 ^ 2 - 1 with hc
  have hc1 : 1 ≤ c := by nlinarith
  have sd3 : safeDiv (2 * w 0 * (2 * w 0)) (1 + wn * 2) = 4 * w 0 ^ 2 / c := by
    rw [safeDiv_eq _ _ (by linarith)]
    have : 1 + wn * 2 = c := by rw [hwnv, hc]; ring
    rw [this]; ring
  have hd1 : max (0.5 * (w 0 * w 0 + wn * (1 - 4 * w 0 ^ 2 / c))) 0 = 1 / (2 * c) := by
    have : 0.5 * (w 0 * w 0 + wn * (1 - 4 * w 0 ^ 2 / c)) = 1 / (2 * c) := by
      have hcne : c ≠ 0 := by linarith
      have hw2 : w 0 ^ 2 = (c + 1) / 2 := by rw [hc]; ring
      rw [hwnv, show w 0 * w 0 = w 0 ^ 2 by ring, hw2]; field_simp; ring
    rw [this]; exact max_eq_left (by positivity)
  have hu2 : w 0 * w 0 + wn - 1 / (2 * c) = c - 1 / (2 * c) := by rw [hwnv, hc]; ring
  have hinv : 1 / (2 * c) ≤ 1 / 2 := by
    apply one_div_le_one_div_of_le <;> linarith
  have hu2p : 1 / 2 ≤ c - 1 / (2 * c) := by linarith
  set u0 := Real.sqrt (c - 1 / (2 * c)) with hu0
  have hu0sq : u0 ^ 2 = c - 1 / (2 * c) := Real.sq_sqrt (by linarith)
  have hu0p : 0 < u0 := Real.sqrt_pos.mpr (by linarith)
  have hu0q : (1e-13 : ℝ) ≤ u0 := by
    rw [hu0]; apply Real.le_sqrt_of_sq_le; norm_num at *; linarith
  have sd4 : safeDiv (2 * w 0) u0 = 2 * w 0 / u0 := safeDiv_eq _ _ hu0q
  have hv : (2 * w 0 / u0) ^ 2 - 2 = (2 + 1 / c) / u0 ^ 2 := by
    have hcne : c ≠ 0 := by linarith
    have : (2 * w 0 / u0) ^ 2 = 2 * (c + 1) / u0 ^ 2 := by rw [hc]; field_simp; ring
    rw [this, hu0sq]
    have hne : c - 1 / (2 * c) ≠ 0 := by linarith
    rw [eq_div_iff hne, sub_mul, div_mul_cancel₀ _ hne]; field_simp; ring
  have hvp : 0 < (2 * w 0 / u0) ^ 2 - 2 := by rw [hv]; positivity
  refine ⟨⟨Real.sqrt (a / b), a / b, w, 1 / (2 * c), u0, 2 * w 0 / u0, Real.sqrt ((2 * w 0 / u0) ^ 2 - 2)⟩, ?_, ?_⟩
  · unfold updateBlk
    simp only [← ha, ← hb, sda, sdb, sde]
    rw [if_neg (by push Not; exact ⟨ps, pz⟩)]
    have hpt : ntPoint n (fun i => s i * (1 / a)) (fun i => z i * (1 / b)) = w := by
      unfold ntPoint; simp only [← hD, ← hg, sdg]; rfl
    rw [hpt]
    unfold ntFinish
    simp only [← hwn, halpha, hbeta, sd3, hd1, hu2, ← hu0, sd4]
    rw [if_neg (not_le.mpr hvp)]
  · refine ⟨Real.sqrt_pos.mpr (by positivity), Real.sq_sqrt (by positivity), hw1, hunit, ?_, ?_, hu0p, ?_, ?_, ?_,
      Real.sqrt_pos.mpr hvp, by show 0 < 1 / (2 * c); positivity,
      by show 1 / (2 * c) * (2 * c) = 1; rw [one_div, inv_mul_cancel₀ (by positivity)]⟩
    · show a / b * (2 * w 0 * (w 0 * z 0 + ∑ k ∈ Ico 1 n, w k * z k) - z 0) = s 0
      rw [hwz, hw0]; field_simp; ring
    · intro j hj hjn
      show a / b * (2 * w j * (w 0 * z 0 + ∑ k ∈ Ico 1 n, w k * z k) + z j) = s j
      rw [hwz, hwj j (by omega)]; field_simp; ring
    · show 1 / (2 * c) + u0 ^ 2 = _
      rw [hu0sq, ← hwn, hwnv, hc]; ring
    · show u0 * (2 * w 0 / u0) = 2 * w 0
      field_simp
    · show (2 * w 0 / u0) ^ 2 - Real.sqrt ((2 * w 0 / u0) ^ 2 - 2) ^ 2 = 2
      rw [Real.sq_sqrt hvp.le]; ring

/-- `W (W z) = s`. -/
theorem scale_scale (n : Nat) (s z : Nat → ℝ) (t : NT) (g : GoodNT n s z t) (j : Nat) (hj : j < n) :
    scaleBlk n t (scaleBlk n t z) j = s j := by
  have hw1 := g.w0
  have sd1 : ∀ x, safeDiv x (1 + t.w 0) = x / (1 + t.w 0) := fun x => safeDiv_eq _ _ (by linarith)
  set Z := ∑ k ∈ Ico 1 n, t.w k * z k with hZ
  set wn := ∑ k ∈ Ico 1 n, t.w k ^ 2 with hwn
  have hwnv : wn = t.w 0 ^ 2 - 1 := by have := g.unit; linarith
  have h0 : scaleBlk n t z 0 = t.eta * (t.w 0 * z 0 + Z) := by simp [scaleBlk, hZ]
  have hk : ∀ k, k ≠ 0 → scaleBlk n t z k = t.eta * (z k + (z 0 + Z / (1 + t.w 0)) * t.w k) := fun k hk => by
    simp only [scaleBlk, hk, if_false, sd1]; rfl
  have hsum : ∑ k ∈ Ico 1 n, t.w k * scaleBlk n t z k = t.eta * (Z + (z 0 + Z / (1 + t.w 0)) * wn) := by
    rw [hZ, hwn, mul_sum (s := Ico 1 n) (f := fun k => t.w k ^ 2), ← sum_add_distrib, mul_sum]
    refine sum_congr rfl fun k hk' => ?_
    rw [hk k (by have := (mem_Ico.mp hk').1; omega)]; ring
  by_cases h : j = 0
  · subst h
    rw [← g.sq0, ← g.eta_sq, scaleBlk]
    simp only [if_true]
    rw [hsum, h0, hwnv]; field_simp; ring
  · rw [← g.sqj j (by omega) hj, ← g.eta_sq, scaleBlk]
    simp only [h, if_false]
    rw [sd1, hsum, h0, hk j h, hwnv]; field_simp; ring

/-- `W` scales the cone residual by `η²`. -/
theorem scale_residual (n : Nat) (s z : Nat → ℝ) (t : NT) (g : GoodNT n s z t) :
    residual (scaleBlk n t z) n = t.etaSq * residual z n := by
  have hw1 := g.w0
  have sd1 : ∀ x, safeDiv x (1 + t.w 0) = x / (1 + t.w 0) := fun x => safeDiv_eq _ _ (by linarith)
  set Z := ∑ k ∈ Ico 1 n, t.w k * z k with hZ
  set wn := ∑ k ∈ Ico 1 n, t.w k ^ 2 with hwn
  have hwnv : wn = t.w 0 ^ 2 - 1 := by have := g.unit; linarith
  have h0 : scaleBlk n t z 0 = t.eta * (t.w 0 * z 0 + Z) := by simp [scaleBlk, hZ]
  have hk : ∀ k, k ≠ 0 → scaleBlk n t z k = t.eta * (z k + (z 0 + Z / (1 + t.w 0)) * t.w k) := fun k hk => by
    simp only [scaleBlk, hk, if_false, sd1]; rfl
  set f := z 0 + Z / (1 + t.w 0) with hf
  have hsum : ∑ k ∈ Ico 1 n, scaleBlk n t z k ^ 2 =
      t.eta ^ 2 * (∑ k ∈ Ico 1 n, z k ^ 2 + 2 * f * Z + f ^ 2 * wn) := by
    rw [hZ, hwn, mul_sum (s := Ico 1 n) (f := fun k => t.w k ^ 2), mul_sum (s := Ico 1 n) (f := fun k => t.w k * z k),
      ← sum_add_distrib, ← sum_add_distrib, mul_sum]
    refine sum_congr rfl fun k hk' => ?_
    rw [hk k (by have := (mem_Ico.mp hk').1; omega)]; ring
  rw [residual, residual, hsum, h0, g.eta_sq, ← g.eta_sq, hwnv, hf]; field_simp; ring

/-- `W z` has a positive first entry. -/
theorem scale_pos (n : Nat) (s z : Nat → ℝ) (t : NT) (g : GoodNT n s z t) (hz0 : 0 < z 0) (hz : 0 < residual z n) :
    0 < scaleBlk n t z 0 := by
  have h0 : scaleBlk n t z 0 = t.eta * (t.w 0 * z 0 + ∑ k ∈ Ico 1 n, t.w k * z k) := by simp [scaleBlk]
  have := dot_ge n t.w z 1 (Real.sqrt (residual z n)) (by have := g.w0; linarith) hz0 (by norm_num) (Real.sqrt_nonneg _)
    (by rw [residual]; have := g.unit; nlinarith) (Real.sq_sqrt hz.le).symm
  rw [h0]
  have hp := Real.sqrt_pos.mpr hz
  have := g.eta_pos
  apply mul_pos this; linarith

/-- Eliminating the two auxiliary rows of the sparse representation gives `W²`. -/
theorem scale2_eliminate (n : Nat) (s z : Nat → ℝ) (t : NT) (g : GoodNT n s z t) (x : Nat → ℝ)
    (h1 : scale2Blk n t x n = 0) (h2 : scale2Blk n t x (n + 1) = 0) (j : Nat) (hj : j < n) :
    scale2Blk n t x j = scaleBlk n t (scaleBlk n t x) j := by
  have hp : 0 < t.etaSq := by rw [← g.eta_sq]; exact pow_pos g.eta_pos 2
  set X := ∑ k ∈ Ico 1 n, t.w k * x k with hX
  have e1 : x n = - t.v1 * X := by
    have : t.etaSq * (t.v1 * X + x n) = 0 := by
      rw [← h1, scale2Blk, if_neg (by omega), if_neg (by omega), if_pos rfl]
    rcases mul_eq_zero.mp this with h | h
    · exact absurd h hp.ne'
    · linarith
  have e2 : x (n + 1) = t.u0 * x 0 + t.u1 * X := by
    have : t.etaSq * (t.u0 * x 0 + t.u1 * X - x (n + 1)) = 0 := by
      rw [← h2, scale2Blk, if_neg (by omega), if_neg (by omega), if_neg (by omega)]
    rcases mul_eq_zero.mp this with h | h
    · exact absurd h hp.ne'
    · linarith
  -- `W² x` explicitly
  have hw1 := g.w0
  have hW : ∀ s' : Nat → ℝ, (t.etaSq * (2 * t.w 0 * (t.w 0 * x 0 + X) - x 0) = s' 0) →
      (∀ j, 0 < j → j < n → t.etaSq * (2 * t.w j * (t.w 0 * x 0 + X) + x j) = s' j) →
      scaleBlk n t (scaleBlk n t x) j = s' j := fun s' a b =>
    scale_scale n s' x t ⟨g.eta_pos, g.eta_sq, g.w0, g.unit, a, b, g.u0_pos, g.d1u0, g.u01, g.u1v1, g.v1_pos, g.d1_pos, g.d1_eq⟩ j hj
  rw [hW (fun k => if k = 0 then t.etaSq * (2 * t.w 0 * (t.w 0 * x 0 + X) - x 0)
    else t.etaSq * (2 * t.w k * (t.w 0 * x 0 + X) + x k)) (by simp) (fun k hk _ => by
      simp only [show k ≠ 0 by omega, if_false])]
  have hd := g.d1u0; have hu := g.u01; have hv := g.u1v1; have hun := g.unit
  by_cases h : j = 0
  · subst h
    simp only [scale2Blk, if_true]
    rw [e2]
    have hd' : t.d1 = 2 * t.w 0 ^ 2 - 1 - t.u0 ^ 2 := by linarith
    rw [hd']; linear_combination (t.etaSq * X) * hu
  · simp only [scale2Blk, h, if_false, hj, if_true]
    rw [e1, e2]; linear_combination (t.etaSq * t.w j * x 0) * hu + (t.etaSq * t.w j * X) * hv

end Cone
end Verif
