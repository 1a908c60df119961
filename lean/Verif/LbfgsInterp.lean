/-
Properties C227 and C228: the interpolation formulas of the More-Thuente line search (LbfgsSolver.cpp:745-965, modelled in `Verif.Lbfgs`).
-/
import Verif.LbfgsMtProps
import Mathlib.Analysis.Calculus.Deriv.Pow
import Mathlib.Analysis.Calculus.Deriv.Add
import Mathlib.Analysis.Calculus.Deriv.Mul
import Mathlib.Tactic.LinearCombination

namespace Verif
namespace Lbfgs

/-! ### specification -/

/-- A polynomial of degree at most three. -/
structure Cubic where
  a0 : ℝ
  a1 : ℝ
  a2 : ℝ
  a3 : ℝ

/-- Its value. -/
def Cubic.at (p : Cubic) (z : ℝ) : ℝ := p.a0 + p.a1 * z + p.a2 * z ^ 2 + p.a3 * z ^ 3
/-- Its derivative. -/
def Cubic.slope (p : Cubic) (z : ℝ) : ℝ := p.a1 + 2 * p.a2 * z + 3 * p.a3 * z ^ 2
/-- Its second derivative. -/
def Cubic.curv (p : Cubic) (z : ℝ) : ℝ := 2 * p.a2 + 6 * p.a3 * z

theorem Cubic.hasDerivAt (p : Cubic) (z : ℝ) : HasDerivAt p.at (p.slope z) z ∧ HasDerivAt p.slope (p.curv z) z := by
  constructor
  · have h := ((((hasDerivAt_id z).const_mul p.a1).const_add p.a0).add ((hasDerivAt_pow 2 z).const_mul p.a2)).add ((hasDerivAt_pow 3 z).const_mul p.a3)
    refine HasDerivAt.congr_deriv (f := p.at) h ?_
    simp only [Cubic.slope]; norm_num; ring
  · have h := ((((hasDerivAt_id z).const_mul (2 * p.a2)).const_add p.a1)).add ((hasDerivAt_pow 2 z).const_mul (3 * p.a3))
    refine HasDerivAt.congr_deriv (f := p.slope) h ?_
    simp only [Cubic.curv]; norm_num; ring

/-- The polynomial has the given values and slopes at `u` and `v`. -/
structure Cubic.Fits (p : Cubic) (u fu du v fv dv : ℝ) : Prop where
  fu : p.at u = fu
  du : p.slope u = du
  fv : p.at v = fv
  dv : p.slope v = dv

/-- There is exactly one such polynomial. -/
theorem exists_fits (u fu du v fv dv : ℝ) (h : u ≠ v) : ∃ p : Cubic, p.Fits u fu du v fv dv := by
  have hd : v - u ≠ 0 := sub_ne_zero.2 h.symm
  set d := v - u with hdd
  set th := (fu - fv) * 3 / d + du + dv with hth
  set b := -(du + th) / d with hb
  set c := (2 * th + du + dv) / (3 * d ^ 2) with hc
  -- value `fu + du y + b y² + c y³` with `y = z - u`
  have hbd : b * d = -(du + th) := by rw [hb]; field_simp
  have hcd : 3 * (c * d ^ 2) = 2 * th + du + dv := by rw [hc]; field_simp
  have htd : (th - du - dv) * d = 3 * (fu - fv) := by rw [hth]; field_simp; ring
  have hv : v = u + d := by rw [hdd]; ring
  refine ⟨⟨fu - du * u + b * u ^ 2 - c * u ^ 3, du - 2 * b * u + 3 * c * u ^ 2, b - 3 * c * u, c⟩, ?_, ?_, ?_, ?_⟩
  · simp only [Cubic.at]; ring
  · simp only [Cubic.slope]; ring
  · simp only [Cubic.at]; rw [hv]
    have : fu + du * d + (b * d) * d + (c * d ^ 2) * d = fv := by
      have e : c * d ^ 2 = (2 * th + du + dv) / 3 := by linarith
      rw [hbd, e]; linarith
    linear_combination this
  · simp only [Cubic.slope]; rw [hv]
    linear_combination 2 * hbd + hcd

/-! ### the formulas -/

/-- `theta` of the code, LbfgsSolver.cpp:761, 788. -/
noncomputable def theta (u fu du v fv dv : ℝ) : ℝ := (fu - fv) * 3 / (v - u) + du + dv

/-- The scaling by `s` cancels. -/
theorem gamma_eq (th du dv : ℝ) (x : ℝ) (hx : x = th / max3 |th| |du| |dv| * (th / max3 |th| |du| |dv|) - du / max3 |th| |du| |dv| * (dv / max3 |th| |du| |dv|)) :
    max3 |th| |du| |dv| * Real.sqrt x = Real.sqrt (th ^ 2 - du * dv) ∧
    max3 |th| |du| |dv| * Real.sqrt (max 0 x) = Real.sqrt (th ^ 2 - du * dv) := by
  have h0 : 0 ≤ max3 |th| |du| |dv| := (abs_nonneg th).trans ((le_max_left _ _).trans (le_max_left _ _))
  have key : max3 |th| |du| |dv| ^ 2 * x = th ^ 2 - du * dv := by
    rcases h0.eq_or_lt with h | h
    · have a : |th| ≤ 0 := by rw [h]; exact (le_max_left _ _).trans (le_max_left _ _)
      have b : |du| ≤ 0 := by rw [h]; exact (le_max_right _ _).trans (le_max_left _ _)
      rw [abs_nonpos_iff] at a b
      rw [← h, a, b]; ring
    · rw [hx]; field_simp
  have e : ∀ y : ℝ, max3 |th| |du| |dv| * Real.sqrt y = Real.sqrt (max3 |th| |du| |dv| ^ 2 * y) := by
    intro y; rw [Real.sqrt_mul (sq_nonneg _), Real.sqrt_sq h0]
  constructor
  · rw [e, key]
  · rw [e]
    rcases le_total 0 x with h | h
    · rw [max_eq_right h, key]
    · rw [max_eq_left h, mul_zero, Real.sqrt_zero, Real.sqrt_eq_zero'.2]
      rw [← key]; exact mul_nonpos_of_nonneg_of_nonpos (sq_nonneg _) h

/-- The sign that `gamma` gets, LbfgsSolver.cpp:767. -/
noncomputable def side (u v : ℝ) : ℝ := if v < u then -1 else 1

/-- The minimiser formula in normal form. -/
theorem cubicMin_eq (u fu du v fv dv g : ℝ) (hg : g = side u v * Real.sqrt (theta u fu du v fv dv ^ 2 - du * dv)) :
    cubicMin u fu du v fv dv = u + (g - du + theta u fu du v fv dv) / (2 * g - du + dv) * (v - u) := by
  have h := (gamma_eq (theta u fu du v fv dv) du dv _ rfl).1
  have e : (if v < u then -Real.sqrt (theta u fu du v fv dv ^ 2 - du * dv) else Real.sqrt (theta u fu du v fv dv ^ 2 - du * dv)) = g := by
    rw [hg, side]; split <;> ring
  unfold theta at h e ⊢
  unfold cubicMin
  dsimp only
  rw [h, e]
  congr 3; ring

/-- The second formula in normal form. -/
theorem cubicMin2_eq (u fu du v fv dv xmin xmax g : ℝ) (hg : g = side v u * Real.sqrt (theta u fu du v fv dv ^ 2 - du * dv)) :
    cubicMin2 u fu du v fv dv xmin xmax =
      if (g - dv + theta u fu du v fv dv) / (2 * g - dv + du) < 0 ∧ g ≠ 0 then
        v - (g - dv + theta u fu du v fv dv) / (2 * g - dv + du) * (v - u)
      else if theta u fu du v fv dv / max3 |theta u fu du v fv dv| |du| |dv| < 0 then xmax else xmin := by
  have h := (gamma_eq (theta u fu du v fv dv) du dv _ rfl).2
  have e : (if u < v then -Real.sqrt (theta u fu du v fv dv ^ 2 - du * dv) else Real.sqrt (theta u fu du v fv dv ^ 2 - du * dv)) = g := by
    rw [hg, side]; split <;> ring
  have r : g - dv + g + du = 2 * g - dv + du := by ring
  unfold theta at h e ⊢
  unfold cubicMin2
  dsimp only
  rw [h, e, r]

/-! ### the cubic along the line from `u` to `v` -/

/-- Slope, curvature and value at `u + ρ (v - u)` in terms of the data. -/
theorem fits_line (p : Cubic) (u fu du v fv dv : ℝ) (huv : u ≠ v) (h : p.Fits u fu du v fv dv) (ρ : ℝ) :
    p.slope (u + ρ * (v - u)) = du - 2 * (du + theta u fu du v fv dv) * ρ + (2 * theta u fu du v fv dv + du + dv) * ρ ^ 2 ∧
    p.curv (u + ρ * (v - u)) * (v - u) = -2 * (du + theta u fu du v fv dv) + 2 * (2 * theta u fu du v fv dv + du + dv) * ρ ∧
    p.at (u + ρ * (v - u)) = fu + (v - u) * (du * ρ - (du + theta u fu du v fv dv) * ρ ^ 2 + (2 * theta u fu du v fv dv + du + dv) / 3 * ρ ^ 3) := by
  have hd : v - u ≠ 0 := sub_ne_zero.2 huv.symm
  obtain ⟨h1, h2, h3, h4⟩ := h
  simp only [Cubic.at, Cubic.slope] at h1 h2 h3 h4
  set d := v - u with hdd
  have hv : v = u + d := by rw [hdd]; ring
  have ht : theta u fu du v fv dv = -du - (p.a2 * d + 3 * p.a3 * u * d) := by
    unfold theta
    rw [← hdd, ← h1, ← h3, ← h4, ← h2, hv]
    field_simp
    ring
  have hc : 2 * theta u fu du v fv dv + du + dv = 3 * p.a3 * d ^ 2 := by
    rw [ht, ← h2, ← h4, hv]; ring
  refine ⟨?_, ?_, ?_⟩
  · rw [hc, ht]; simp only [Cubic.slope]; rw [← h2]; ring
  · rw [hc, ht]; simp only [Cubic.curv]; ring
  · rw [hc, ht]; simp only [Cubic.at]; rw [← h1, ← h2]; ring

/-- The stationary point of the formula: slope zero, curvature `2 g / (v - u)`, and the cubic around it. -/
theorem stationary (p : Cubic) (u fu du v fv dv g r : ℝ) (huv : u ≠ v) (h : p.Fits u fu du v fv dv)
    (hg : g ^ 2 = theta u fu du v fv dv ^ 2 - du * dv) (hD : 2 * g - du + dv ≠ 0)
    (hr : r = (g - du + theta u fu du v fv dv) / (2 * g - du + dv)) :
    p.slope (u + r * (v - u)) = 0 ∧ p.curv (u + r * (v - u)) * (v - u) = 2 * g ∧
    ∀ ρ, p.at (u + ρ * (v - u)) - p.at (u + r * (v - u)) =
      (v - u) * (ρ - r) ^ 2 * ((1 - ρ) * (2 * g - du - theta u fu du v fv dv) + ρ * (2 * g + theta u fu du v fv dv + dv)) / 3 := by
  set th := theta u fu du v fv dv with hth
  have hN : r * (2 * g - du + dv) = g - du + th := by rw [hr, div_mul_cancel₀ _ hD]
  -- `C r = g + du + θ`
  have hC : (2 * th + du + dv) * r = g + du + th := by
    have : ((2 * th + du + dv) * r - (g + du + th)) * (2 * g - du + dv) = 0 := by
      linear_combination (2 * th + du + dv) * hN - 2 * hg
    rcases mul_eq_zero.1 this with h | h
    · linarith
    · exact absurd h hD
  have hS : du - 2 * (du + th) * r + (2 * th + du + dv) * r ^ 2 = 0 := by
    have : du - 2 * (du + th) * r + (2 * th + du + dv) * r ^ 2 = du + (g - du - th) * r := by linear_combination r * hC
    rw [this]
    have : (du + (g - du - th) * r) * (2 * g - du + dv) = 0 := by linear_combination (g - du - th) * hN + hg
    rcases mul_eq_zero.1 this with h | h
    · exact h
    · exact absurd h hD
  refine ⟨?_, ?_, fun ρ => ?_⟩
  · rw [(fits_line p u fu du v fv dv huv h r).1, ← hth]; exact hS
  · rw [(fits_line p u fu du v fv dv huv h r).2.1, ← hth]; linarith
  · rw [(fits_line p u fu du v fv dv huv h r).2.2, (fits_line p u fu du v fv dv huv h ρ).2.2, ← hth]
    have e1 : 2 * g - du - th = 3 * g - (2 * th + du + dv) * r := by linarith
    have e2 : 2 * g + th + dv = 3 * g + (2 * th + du + dv) * (1 - r) := by linarith
    have e3 : g = (2 * th + du + dv) * r - du - th := by linarith
    rw [e1, e2, e3]
    linear_combination (v - u) * (ρ - r) * hS

theorem rad_pos {A B T : ℝ} (hA : A < 0) (h : T < A + B ∨ 0 < B) : 0 < T ^ 2 - A * B := by
  by_cases hB : 0 < B
  · nlinarith [mul_pos (neg_pos.2 hA) hB, sq_nonneg T]
  · have hT := h.resolve_right hB
    have : T ^ 2 > (A + B) ^ 2 := by nlinarith
    nlinarith [mul_nonneg (neg_pos.2 hA).le (neg_nonneg.2 (not_lt.1 hB)), sq_nonneg (A + B), sq_pos_of_neg hA]

/-- The signs that put the stationary point inside. -/
theorem core_signs {A B T G : ℝ} (hA : A < 0) (hG : 0 < G) (hG2 : G ^ 2 = T ^ 2 - A * B) (h : T < A + B ∨ 0 < B) :
    0 < G - A + T ∧ G - A + T < 2 * G - A + B ∧ 0 < 2 * G - A - T ∧ 0 < 2 * G + T + B := by
  by_cases hB : 0 < B
  · have hab : A * B < 0 := mul_neg_of_neg_of_pos hA hB
    have h1 : |T| < G := abs_lt_of_sq_lt_sq (by nlinarith) hG.le
    obtain ⟨h2, h3⟩ := abs_lt.1 h1
    refine ⟨by linarith, by linarith, by linarith, by linarith⟩
  · have hT := h.resolve_right hB
    have hB' := not_lt.1 hB
    have hab : 0 ≤ A * B := mul_nonneg_of_nonpos_of_nonpos hA.le hB'
    have p1 : A - T < G := by
      by_contra hc
      have : G ^ 2 ≤ (A - T) ^ 2 := by nlinarith
      nlinarith
    have p2 : -(T + B) < 2 * G := by
      by_contra hc
      have : (2 * G) ^ 2 ≤ (T + B) ^ 2 := by nlinarith
      nlinarith [sq_pos_of_neg hA]
    refine ⟨by linarith, by linarith, by linarith, by linarith⟩

theorem side_cases {u v : ℝ} (h : u ≠ v) : (side u v = 1 ∧ 0 < v - u) ∨ (side u v = -1 ∧ v - u < 0) := by
  unfold side
  rcases lt_or_gt_of_ne h with h | h
  · left; rw [if_neg (by linarith)]; exact ⟨rfl, by linarith⟩
  · right; rw [if_pos h]; exact ⟨rfl, by linarith⟩

/-! ### C227: the interpolants are minimised -/

/-- `z` lies strictly between `u` and `v`. -/
def Inside (u v z : ℝ) : Prop := ∃ r, 0 < r ∧ r < 1 ∧ z = u + r * (v - u)

/-- C227 (cubic): if the function decreases from `u` towards `v`, and is higher at `v` or increases there, then the point the code computes
lies strictly between `u` and `v`, the polynomial of degree three with the given values and slopes has slope zero there, and it is the
only minimiser of that polynomial between `u` and `v`. -/
theorem C227_cubic (p : Cubic) (u fu du v fv dv : ℝ) (hp : p.Fits u fu du v fv dv) (hdu : du * (v - u) < 0)
    (hv : fu < fv ∨ 0 < dv * (v - u)) :
    Inside u v (cubicMin u fu du v fv dv) ∧ p.slope (cubicMin u fu du v fv dv) = 0 ∧ 0 < p.curv (cubicMin u fu du v fv dv) ∧
    ∀ ρ, 0 ≤ ρ → ρ ≤ 1 → u + ρ * (v - u) ≠ cubicMin u fu du v fv dv → p.at (cubicMin u fu du v fv dv) < p.at (u + ρ * (v - u)) := by
  have huv : u ≠ v := by rintro rfl; simp at hdu
  set th := theta u fu du v fv dv with hth
  set σ := side u v with hσ
  have hσ2 : σ ^ 2 = 1 := by rcases side_cases huv with ⟨h, _⟩ | ⟨h, _⟩ <;> rw [hσ, h] <;> norm_num
  have hσd : 0 < σ * (v - u) := by rcases side_cases huv with ⟨h, h'⟩ | ⟨h, h'⟩ <;> rw [hσ, h] <;> linarith
  have hA : σ * du < 0 := by
    have : (σ * du) * (σ * (v - u)) < 0 := by
      have : (σ * du) * (σ * (v - u)) = σ ^ 2 * (du * (v - u)) := by ring
      rw [this, hσ2, one_mul]; exact hdu
    by_contra hc
    nlinarith [mul_nonneg (not_lt.1 hc) hσd.le]
  have hTB : σ * th < σ * du + σ * dv ∨ 0 < σ * dv := by
    rcases hv with h | h
    · left
      have e : th * (v - u) = (fu - fv) * 3 + (du + dv) * (v - u) := by
        rw [hth, theta]; field_simp [sub_ne_zero.2 huv.symm]; ring
      have : (σ * th - (σ * du + σ * dv)) * (σ * (v - u)) < 0 := by
        have : (σ * th - (σ * du + σ * dv)) * (σ * (v - u)) = σ ^ 2 * ((fu - fv) * 3) := by
          linear_combination σ ^ 2 * e
        rw [this, hσ2]; linarith
      by_contra hc
      nlinarith [mul_nonneg (sub_nonneg.2 (not_lt.1 hc)) hσd.le]
    · right
      have : (σ * dv) * (σ * (v - u)) = dv * (v - u) := by linear_combination dv * (v - u) * hσ2
      by_contra hc
      nlinarith [mul_nonneg (neg_nonneg.2 (not_lt.1 hc)) hσd.le]
  have hrad : (σ * th) ^ 2 - (σ * du) * (σ * dv) = th ^ 2 - du * dv := by linear_combination (th ^ 2 - du * dv) * hσ2
  have hpos : 0 < th ^ 2 - du * dv := by rw [← hrad]; exact rad_pos hA hTB
  set G := Real.sqrt (th ^ 2 - du * dv) with hG
  have hG0 : 0 < G := Real.sqrt_pos.2 hpos
  have hG2 : G ^ 2 = th ^ 2 - du * dv := Real.sq_sqrt hpos.le
  obtain ⟨s1, s2, s3, s4⟩ := core_signs hA hG0 (by rw [hG2, hrad]) hTB
  have hD : 0 < 2 * G - σ * du + σ * dv := s1.trans s2
  have hDσ : 2 * (σ * G) - du + dv = σ * (2 * G - σ * du + σ * dv) := by linear_combination (du - dv) * hσ2
  have hNσ : σ * G - du + th = σ * (G - σ * du + σ * th) := by linear_combination (du - th) * hσ2
  have hσ0 : σ ≠ 0 := by rintro h; rw [h] at hσ2; norm_num at hσ2
  have hDne : 2 * (σ * G) - du + dv ≠ 0 := by rw [hDσ]; exact mul_ne_zero hσ0 hD.ne'
  set r := (σ * G - du + th) / (2 * (σ * G) - du + dv) with hr
  have hr' : r = (G - σ * du + σ * th) / (2 * G - σ * du + σ * dv) := by rw [hr, hDσ, hNσ, mul_div_mul_left _ _ hσ0]
  have hr0 : 0 < r := by rw [hr']; exact div_pos s1 hD
  have hr1 : r < 1 := by rw [hr', div_lt_one hD]; exact s2
  have hc : cubicMin u fu du v fv dv = u + r * (v - u) := cubicMin_eq u fu du v fv dv (σ * G) rfl
  obtain ⟨q1, q2, q3⟩ := stationary p u fu du v fv dv (σ * G) r huv hp (by rw [mul_pow, hσ2, one_mul, hG2]) hDne rfl
  rw [hc]
  refine ⟨⟨r, hr0, hr1, rfl⟩, q1, ?_, fun ρ h0 h1 hne => ?_⟩
  · have : p.curv (u + r * (v - u)) * (σ * (v - u)) = 2 * G := by linear_combination σ * q2 + 2 * G * hσ2
    by_contra hcv
    nlinarith [mul_nonneg (neg_nonneg.2 (not_lt.1 hcv)) hσd.le]
  · have hρr : ρ - r ≠ 0 := by
      intro h; apply hne; rw [sub_eq_zero.1 h]
    have e : p.at (u + ρ * (v - u)) - p.at (u + r * (v - u)) =
        (σ * (v - u)) * (ρ - r) ^ 2 * ((1 - ρ) * (2 * G - σ * du - σ * th) + ρ * (2 * G + σ * th + σ * dv)) / 3 := by
      rw [q3 ρ]
      linear_combination (v - u) * (ρ - r) ^ 2 * ((1 - ρ) * (-du - th) + ρ * (th + dv)) / 3 * (-hσ2)
    have hpos2 : 0 < (1 - ρ) * (2 * G - σ * du - σ * th) + ρ * (2 * G + σ * th + σ * dv) := by
      rcases h0.eq_or_lt with h | h
      · rw [← h]; linarith
      · nlinarith [mul_nonneg (sub_nonneg.2 h1) s3.le, mul_pos h s4]
    have := mul_pos (mul_pos hσd (pow_pos (abs_pos.2 hρr) 2)) hpos2
    rw [sq_abs] at this
    linarith

/-- C227 (quadratic): the polynomial of degree two with the given values and the given slope at `u`, where the function decreases towards
the higher point `v`: the computed point is its only minimiser, and lies strictly inside the half of the interval next to `u`. -/
theorem C227_quadratic (k u fu du v fv : ℝ) (hk : fu + du * (v - u) + k * (v - u) ^ 2 = fv) (hdu : du * (v - u) < 0) (hv : fu < fv) :
    Inside u (u + (v - u) / 2) (quadMin u fu du v fv) ∧
    ∀ z, z ≠ quadMin u fu du v fv → fu + du * (quadMin u fu du v fv - u) + k * (quadMin u fu du v fv - u) ^ 2 <
      fu + du * (z - u) + k * (z - u) ^ 2 := by
  have huv : v - u ≠ 0 := by intro h; rw [h] at hdu; simp at hdu
  set d := v - u with hd
  have hd2 : 0 < d ^ 2 := by positivity
  have hk0 : 0 < k := by
    have : 0 < k * d ^ 2 := by linarith
    exact pos_of_mul_pos_left this hd2.le
  have e : (fu - fv) / d + du = -(k * d) := by rw [← hk]; field_simp; ring
  have hq : quadMin u fu du v fv = u - du / (2 * k) := by
    unfold quadMin
    rw [← hd, e]
    field_simp
    ring
  have hr : quadMin u fu du v fv = u + (-(du * d) / (k * d ^ 2)) * ((u + d / 2) - u) := by
    rw [hq]; field_simp; ring
  refine ⟨⟨_, ?_, ?_, hr⟩, fun z hz => ?_⟩
  · exact div_pos (by linarith) (by positivity)
  · rw [div_lt_one (by positivity)]; linarith
  · rw [hq] at hz ⊢
    have hz' : z - u + du / (2 * k) ≠ 0 := fun h => hz (by linarith)
    have : fu + du * (z - u) + k * (z - u) ^ 2 - (fu + du * (u - du / (2 * k) - u) + k * (u - du / (2 * k) - u) ^ 2) =
        k * (z - u + du / (2 * k)) ^ 2 := by field_simp; ring
    have : 0 < k * (z - u + du / (2 * k)) ^ 2 := by positivity
    linarith

/-- C227 (secant): the polynomial of degree two with the given slopes has slope zero at the computed point; if its slope increases from `u`
to `v`, that is its only minimiser. -/
theorem C227_secant (k b c u du v dv : ℝ) (hu : b + 2 * k * u = du) (hv : b + 2 * k * v = dv) (hne : du ≠ dv) :
    b + 2 * k * quadMin2 u du v dv = 0 ∧
    (0 < (dv - du) * (v - u) → ∀ z, z ≠ quadMin2 u du v dv →
      c + b * quadMin2 u du v dv + k * quadMin2 u du v dv ^ 2 < c + b * z + k * z ^ 2) := by
  have hd : dv - du ≠ 0 := sub_ne_zero.2 hne.symm
  have e : dv - du = 2 * k * (v - u) := by linarith
  have h0 : b + 2 * k * quadMin2 u du v dv = 0 := by
    have : dv / (dv - du) * (2 * k * (v - u)) = dv := by rw [← e]; field_simp
    unfold quadMin2
    linear_combination hv - this
  refine ⟨h0, fun hp z hz => ?_⟩
  have hk : 0 < k := by
    rw [e] at hp
    have hvu : v - u ≠ 0 := by intro h; rw [h] at hp; simp at hp
    have : 0 < 2 * (v - u) ^ 2 := by positivity
    by_contra hc
    nlinarith [mul_nonneg (neg_nonneg.2 (not_lt.1 hc)) this.le]
  have : c + b * z + k * z ^ 2 - (c + b * quadMin2 u du v dv + k * quadMin2 u du v dv ^ 2) = k * (z - quadMin2 u du v dv) ^ 2 := by
    linear_combination (z - quadMin2 u du v dv) * h0
  have h2 : z - quadMin2 u du v dv ≠ 0 := sub_ne_zero.2 hz
  have : 0 < k * (z - quadMin2 u du v dv) ^ 2 := by positivity
  linarith

theorem Cubic.Fits.swap {p : Cubic} {u fu du v fv dv : ℝ} (h : p.Fits u fu du v fv dv) : p.Fits v fv dv u fu du := ⟨h.fv, h.dv, h.fu, h.du⟩

theorem theta_swap (u fu du v fv dv : ℝ) : theta v fv dv u fu du = theta u fu du v fv dv := by
  unfold theta
  rw [← neg_sub v u, ← neg_sub fu fv, neg_mul, neg_div_neg_eq]; ring

/-- C227 (extrapolation): the function decreases from `u` to `v` and beyond, less steeply at `v`. If the interpolating cubic has a minimum
beyond `v`, the computed point is that minimum; otherwise it is one of the limits. -/
theorem C227_extrapolate (p : Cubic) (u fu du v fv dv xmin xmax : ℝ) (hp : p.Fits u fu du v fv dv) (hdu : du * (v - u) < 0)
    (hdv : dv * (v - u) < 0) (hlt : |dv| < |du|) :
    (∀ z, 0 < (z - v) * (v - u) → p.slope z = 0 → 0 < p.curv z → cubicMin2 u fu du v fv dv xmin xmax = z) ∧
    ((¬ ∃ z, 0 < (z - v) * (v - u) ∧ p.slope z = 0 ∧ 0 < p.curv z) →
      cubicMin2 u fu du v fv dv xmin xmax = xmin ∨ cubicMin2 u fu du v fv dv xmin xmax = xmax) := by
  have huv : u ≠ v := by rintro rfl; simp at hdu
  have hd0 : v - u ≠ 0 := sub_ne_zero.2 huv.symm
  set th := theta u fu du v fv dv with hth
  set σ := side v u with hσ
  have hσ2 : σ ^ 2 = 1 := by rcases side_cases huv.symm with ⟨h, _⟩ | ⟨h, _⟩ <;> rw [hσ, h] <;> norm_num
  have hσd : 0 < σ * (u - v) := by rcases side_cases huv.symm with ⟨h, h'⟩ | ⟨h, h'⟩ <;> rw [hσ, h] <;> linarith
  set G := Real.sqrt (th ^ 2 - du * dv) with hG
  have hG0 : 0 ≤ G := Real.sqrt_nonneg _
  have hc := cubicMin2_eq u fu du v fv dv xmin xmax (σ * G) rfl
  rw [← hth] at hc
  -- the denominator has the sign of `σ`
  have hσu : 0 < σ * du ∧ 0 < σ * dv := by
    have e : ∀ y, (σ * y) * (σ * (u - v)) = -(y * (v - u)) := fun y => by linear_combination -(y * (v - u)) * hσ2
    constructor
    · by_contra hc; nlinarith [e du, mul_nonneg (neg_nonneg.2 (not_lt.1 hc)) hσd.le]
    · by_contra hc; nlinarith [e dv, mul_nonneg (neg_nonneg.2 (not_lt.1 hc)) hσd.le]
  have habs : ∀ y, 0 < σ * y → |y| = σ * y := by
    intro y hy
    have : |σ| = 1 := by rw [← sq_abs] at hσ2; nlinarith [abs_nonneg σ]
    rw [← abs_of_pos hy, abs_mul, this, one_mul]
  have hBA : σ * dv < σ * du := by rw [← habs _ hσu.1, ← habs _ hσu.2]; exact hlt
  have hD : 0 < 2 * G - σ * dv + σ * du := by linarith
  have hσ0 : σ ≠ 0 := by rintro h; rw [h] at hσ2; norm_num at hσ2
  have hDσ : 2 * (σ * G) - dv + du = σ * (2 * G - σ * dv + σ * du) := by linear_combination (dv - du) * hσ2
  have hDne : 2 * (σ * G) - dv + du ≠ 0 := by rw [hDσ]; exact mul_ne_zero hσ0 hD.ne'
  constructor
  · intro z hz hs hcv
    obtain ⟨ρ, rfl⟩ : ∃ ρ, z = u + ρ * (v - u) := ⟨(z - u) / (v - u), by field_simp; ring⟩
    obtain ⟨l1, l2, _⟩ := fits_line p u fu du v fv dv huv hp ρ
    rw [l1, ← hth] at hs
    rw [← hth] at l2
    have hρ : 1 < ρ := by
      have : (u + ρ * (v - u) - v) * (v - u) = (ρ - 1) * (v - u) ^ 2 := by ring
      rw [this] at hz
      have := pos_of_mul_pos_left hz (sq_nonneg _)
      linarith
    set g := (2 * th + du + dv) * ρ - du - th with hg
    have hg2 : g ^ 2 = th ^ 2 - du * dv := by rw [hg]; linear_combination (2 * th + du + dv) * hs
    have hgs : 0 < -(σ * g) := by
      have : p.curv (u + ρ * (v - u)) * (σ * (u - v)) = -(2 * (σ * g)) := by rw [hg]; linear_combination (-σ) * l2
      nlinarith [mul_pos hcv hσd]
    have hGg : G = -(σ * g) := by
      rw [hG, ← hg2, show g ^ 2 = (-(σ * g)) ^ 2 by linear_combination -(g ^ 2) * hσ2, Real.sqrt_sq hgs.le]
    have hσG : σ * G = -g := by rw [hGg]; linear_combination (-g) * hσ2
    rw [hσG] at hc hDne
    have hr : (-g - dv + th) / (2 * -g - dv + du) = 1 - ρ := by
      rw [div_eq_iff hDne, hg]; linear_combination -2 * hs
    have hne : -g ≠ 0 := by
      intro h; rw [neg_eq_zero] at h; rw [h] at hgs; simp at hgs
    rw [hc, hr, if_pos ⟨by linarith, hne⟩]
    ring
  · intro hno
    rw [hc]
    split_ifs with h1 h2
    · exfalso
      obtain ⟨hr, hg⟩ := h1
      have hGpos : 0 < G := lt_of_le_of_ne hG0 fun h => hg (by rw [← h, mul_zero])
      have hrad : 0 ≤ th ^ 2 - du * dv := by
        by_contra hn
        rw [hG, Real.sqrt_eq_zero_of_nonpos (not_le.1 hn).le] at hGpos; exact lt_irrefl _ hGpos
      obtain ⟨q1, q2, _⟩ := stationary p v fv dv u fu du (σ * G) ((σ * G - dv + th) / (2 * (σ * G) - dv + du)) huv.symm hp.swap
        (by rw [theta_swap, ← hth, mul_pow, hσ2, one_mul, Real.sq_sqrt hrad]; ring) hDne (by rw [theta_swap])
      refine hno ⟨_, ?_, q1, ?_⟩
      · have : (v + (σ * G - dv + th) / (2 * (σ * G) - dv + du) * (u - v) - v) * (v - u) =
            -((σ * G - dv + th) / (2 * (σ * G) - dv + du)) * (v - u) ^ 2 := by ring
        rw [this]; exact mul_pos (by linarith) (by positivity)
      · by_contra hcv
        have : p.curv (v + (σ * G - dv + th) / (2 * (σ * G) - dv + du) * (u - v)) * (σ * (u - v)) = 2 * G := by
          linear_combination σ * q2 + 2 * G * hσ2
        nlinarith [mul_nonneg (neg_nonneg.2 (not_lt.1 hcv)) hσd.le]
    · exact Or.inr rfl
    · exact Or.inl rfl

/-! ### the trial step -/

theorem Inside.of_lt {u v z : ℝ} (h : u < z ∧ z < v) : Inside u v z := by
  have hd : 0 < v - u := by linarith [h.1, h.2]
  exact ⟨(z - u) / (v - u), div_pos (by linarith [h.1]) hd, by rw [div_lt_one hd]; linarith [h.2], by field_simp; ring⟩

theorem Inside.of_gt {u v z : ℝ} (h : v < z ∧ z < u) : Inside u v z := by
  have hd : v - u < 0 := by linarith [h.1, h.2]
  exact ⟨(z - u) / (v - u), div_pos_of_neg_of_neg (by linarith [h.2]) hd, by rw [div_lt_one_of_neg hd]; linarith [h.1],
    by field_simp [hd.ne]; ring⟩

theorem Inside.mid {u v a b w : ℝ} (ha : Inside u v a) (hb : Inside u v b) (h0 : 0 ≤ w) (h1 : w ≤ 1) : Inside u v (a + w * (b - a)) := by
  obtain ⟨r, r0, r1, rfl⟩ := ha
  obtain ⟨s, s0, s1, rfl⟩ := hb
  refine ⟨r + w * (s - r), ?_, ?_, by ring⟩
  · rcases h1.eq_or_lt with h | h
    · rw [h]; linarith
    · nlinarith [mul_pos (sub_pos.2 h) r0, mul_nonneg h0 s0.le]
  · rcases h1.eq_or_lt with h | h
    · rw [h]; linarith
    · nlinarith [mul_pos (sub_pos.2 h) (sub_pos.2 r1), mul_nonneg h0 (sub_nonneg.2 s1.le)]

theorem Inside.half {u v z : ℝ} (h : Inside u (u + (v - u) / 2) z) : Inside u v z := by
  obtain ⟨r, r0, r1, rfl⟩ := h
  exact ⟨r / 2, by linarith, by linarith, by ring⟩

theorem Inside.range {u v z a b : ℝ} (h : Inside u v z) (h1 : a ≤ u) (h2 : a ≤ v) (h3 : u ≤ b) (h4 : v ≤ b) : a ≤ z ∧ z ≤ b := by
  obtain ⟨r, r0, r1, rfl⟩ := h
  constructor
  · nlinarith [mul_nonneg (sub_nonneg.2 r1.le) (sub_nonneg.2 h1), mul_nonneg r0.le (sub_nonneg.2 h2)]
  · nlinarith [mul_nonneg (sub_nonneg.2 r1.le) (sub_nonneg.2 h3), mul_nonneg r0.le (sub_nonneg.2 h4)]

/-- C227 (trial step): when the trial point is higher than the best point or the slope changes its sign, the next trial step lies strictly
between the two: strictly inside the interval that is now known to contain a minimum. -/
theorem C227_inside (I : Interval) (t ft dt tmin tmax : ℝ) (hc : Config I t tmin tmax) (hb : I.fx < ft ∨ dt * I.dx < 0) :
    ∃ J t', updateTrial I t ft dt tmin tmax = some (J, t') ∧ Inside I.x t t' ∧ J.brackt = true ∧
      ((J.x = I.x ∧ J.y = t) ∨ (J.x = t ∧ J.y = I.x)) := by
  obtain ⟨h1, h2, h3⟩ := hc
  have hdx : I.dx ≠ 0 := by rintro h; rw [h] at h1; simp at h1
  have hxt : I.x ≠ t := by rintro h; rw [h] at h1; simp at h1
  have hmm : tmin ≤ I.x ∧ I.x ≤ tmax ∧ tmin ≤ t ∧ t ≤ tmax := by
    cases hb : I.brackt with
    | true =>
      obtain ⟨a, b, rfl, rfl⟩ := h2 hb
      exact ⟨min_le_left _ _, le_max_left _ _, a.le, b.le⟩
    | false =>
      obtain ⟨rfl, a, b⟩ := h3 hb
      exact ⟨le_rfl, by linarith, a.le, b⟩
  obtain ⟨m1, m2, m3, m4⟩ := hmm
  have hnot : ¬ (I.brackt = true ∧ (t ≤ min I.x I.y ∨ max I.x I.y ≤ t ∨ 0 ≤ I.dx * (t - I.x) ∨ tmax < tmin)) := by
    rintro ⟨hb, h⟩
    obtain ⟨a, b, c, d⟩ := h2 hb
    rcases h with h | h | h | h <;> linarith
  have clip : ∀ z, Inside I.x t z → (if (if tmax < z then tmax else z) < tmin then tmin else (if tmax < z then tmax else z)) = z := by
    intro z hz
    obtain ⟨a, b⟩ := hz.range m1 m3 m2 m4
    rw [if_neg (not_lt.2 b), if_neg (not_lt.2 a)]
  obtain ⟨p, hp⟩ := exists_fits I.x I.fx I.dx t ft dt hxt
  unfold updateTrial
  rw [if_neg hnot]
  simp only [dsign_iff hdx]
  by_cases hf : I.fx < ft
  · have hm := (C227_cubic p I.x I.fx I.dx t ft dt hp h1 (Or.inl hf)).1
    have hd : (t - I.x) ^ 2 ≠ 0 := pow_ne_zero 2 (sub_ne_zero.2 hxt.symm)
    have hq := (C227_quadratic ((ft - I.fx - I.dx * (t - I.x)) / (t - I.x) ^ 2) I.x I.fx I.dx t ft (by rw [div_mul_cancel₀ _ hd]; ring) h1 hf).1.half
    have hs : Inside I.x t (selectTrial I t ft dt tmin tmax (dt * I.dx < 0)).1 := by
      unfold selectTrial; rw [if_pos hf]
      dsimp only
      split
      · exact hm
      · exact hm.mid hq (by norm_num) (by norm_num)
    have hs2 : (selectTrial I t ft dt tmin tmax (dt * I.dx < 0)).2 = (true, true) := by unfold selectTrial; rw [if_pos hf]
    refine ⟨_, _, rfl, ?_, ?_, ?_⟩
    · simp only [if_pos hf, clip _ hs, hs2, and_self, if_true]
      have hq' : Inside I.x t (I.x + 0.66 * (t - I.x)) := ⟨0.66, by norm_num, by norm_num, rfl⟩
      split_ifs
      · exact hq'
      · exact hs
      · exact hq'
      · exact hs
    · simp only [if_pos hf, hs2]
    · left; simp only [if_pos hf, and_self]
  · have hdt := hb.resolve_left hf
    have hv : 0 < dt * (t - I.x) := by
      have : (dt * I.dx) * (I.dx * (t - I.x)) = I.dx ^ 2 * (dt * (t - I.x)) := by ring
      have h := mul_pos_of_neg_of_neg hdt h1
      rw [this] at h
      exact pos_of_mul_pos_right h (sq_nonneg _)
    have hm := (C227_cubic p I.x I.fx I.dx t ft dt hp h1 (Or.inr hv)).1
    have hne : dt - I.dx ≠ 0 := by
      intro h
      have : dt = I.dx := by linarith
      rw [this] at hdt; nlinarith [sq_nonneg I.dx]
    have hq : Inside I.x t (quadMin2 I.x I.dx t dt) := by
      refine ⟨1 - dt / (dt - I.dx), ?_, ?_, ?_⟩
      · have : 1 - dt / (dt - I.dx) = (-I.dx * (t - I.x)) / ((dt - I.dx) * (t - I.x)) := by
          field_simp [sub_ne_zero.2 hxt.symm]; ring
        rw [this]; exact div_pos (by linarith) (by linarith)
      · have : dt / (dt - I.dx) = (dt * (t - I.x)) / ((dt - I.dx) * (t - I.x)) := by
          field_simp [sub_ne_zero.2 hxt.symm]
        have : 0 < dt / (dt - I.dx) := by rw [this]; exact div_pos hv (by linarith)
        linarith
      · unfold quadMin2; ring
    have hs : Inside I.x t (selectTrial I t ft dt tmin tmax (dt * I.dx < 0)).1 := by
      unfold selectTrial; rw [if_neg hf, if_pos hdt]
      dsimp only
      split
      · exact hm
      · exact hq
    have hs2 : (selectTrial I t ft dt tmin tmax (dt * I.dx < 0)).2 = (false, true) := by unfold selectTrial; rw [if_neg hf, if_pos hdt]
    refine ⟨_, _, rfl, ?_, ?_, ?_⟩
    · simp only [if_neg hf, if_pos hdt, clip _ hs, hs2, Bool.false_eq_true, and_false, if_false]
      exact hs
    · simp only [if_neg hf, if_pos hdt, hs2]
    · right; simp only [if_neg hf, if_pos hdt, and_self]

/-- Non-vacuity of C227: a bracketing pair and a pair to extrapolate from, and a first trial step that is higher. -/
theorem C227_example : (∃ p : Cubic, p.Fits 0 0 (-1) 1 1 2) ∧ (-1 : ℝ) * (1 - 0) < 0 ∧ ((0 : ℝ) < 1 ∨ (0 : ℝ) < 2 * (1 - 0)) ∧
    (∃ p : Cubic, p.Fits 0 0 (-4) 1 (-2) (-1)) ∧ (-4 : ℝ) * (1 - 0) < 0 ∧ (-1 : ℝ) * (1 - 0) < 0 ∧ |(-1 : ℝ)| < |(-4 : ℝ)| ∧
    (0 : ℝ) + (-1) * (1 - 0) + 2 * (1 - 0) ^ 2 = 1 ∧ (-1 : ℝ) + 2 * (3 / 2) * 0 = -1 ∧ (-1 : ℝ) + 2 * (3 / 2) * 1 = 2 ∧
    Config ⟨0, 0, -1, 0, 0, -1, false⟩ 1 0 5 ∧ (⟨0, 0, -1, 0, 0, -1, false⟩ : Interval).fx < 1 := by
  refine ⟨exists_fits _ _ _ _ _ _ (by norm_num), by norm_num, by norm_num, exists_fits _ _ _ _ _ _ (by norm_num), by norm_num, by norm_num, ?_,
    by norm_num, by norm_num, by norm_num, C62_example.1, by norm_num⟩
  norm_num [abs_of_pos, abs_of_neg]

/-! ### C228: steps get longer until a minimum is bracketed -/

/-- A slope that is positive somewhere makes the radicand positive. -/
theorem rad_pos_of_slope (p : Cubic) (u fu du v fv dv z : ℝ) (huv : u ≠ v) (hp : p.Fits u fu du v fv dv) (hz : 0 < p.slope z)
    (hdu : du < 0) (hdv : dv < 0) (hne : du ≠ dv) : 0 < theta u fu du v fv dv ^ 2 - du * dv := by
  have hd0 : v - u ≠ 0 := sub_ne_zero.2 huv.symm
  obtain ⟨ρ, rfl⟩ : ∃ ρ, z = u + ρ * (v - u) := ⟨(z - u) / (v - u), by field_simp; ring⟩
  rw [(fits_line p u fu du v fv dv huv hp ρ).1] at hz
  set th := theta u fu du v fv dv
  by_contra hc
  have hc' : th ^ 2 ≤ du * dv := by linarith
  have hC : 2 * th + du + dv < 0 := by
    by_contra hC
    have h1 : 0 ≤ -(du + dv) := by linarith
    have h2 : -(du + dv) ≤ 2 * th := by linarith
    have : (-(du + dv)) ^ 2 ≤ (2 * th) ^ 2 := pow_le_pow_left₀ h1 h2 2
    have : 0 < (du - dv) ^ 2 := by have := sub_ne_zero.2 hne; positivity
    nlinarith
  have e : (2 * th + du + dv) * (du - 2 * (du + th) * ρ + (2 * th + du + dv) * ρ ^ 2) =
      ((2 * th + du + dv) * ρ - (du + th)) ^ 2 - (th ^ 2 - du * dv) := by ring
  have := mul_neg_of_neg_of_pos hC hz
  rw [e] at this
  nlinarith [sq_nonneg ((2 * th + du + dv) * ρ - (du + th))]

/-- C228 (partial): no minimum is bracketed, the trial `t` is not higher than the best point and the function still decreases there, at least as
steeply as at the best point or such that the interpolating cubic increases somewhere. Then the next trial step is longer than `t`, at most the
limit, and the best point is now `t`. The full statement, without the condition on the slopes, is false of the code: `C228_violated`. -/
theorem C228_partial (I : Interval) (t ft dt tmin tmax : ℝ) (hc : Config I t tmin tmax) (hbr : I.brackt = false) (hmax : t < tmax)
    (hf : ft ≤ I.fx) (hdt : dt < 0)
    (hs : |I.dx| ≤ |dt| ∨ ∃ p : Cubic, p.Fits I.x I.fx I.dx t ft dt ∧ ∃ z, 0 < p.slope z) :
    ∃ J t', updateTrial I t ft dt tmin tmax = some (J, t') ∧ t < t' ∧ t' ≤ tmax ∧ J.x = t ∧ J.fx = ft ∧ J.dx = dt ∧ J.brackt = false := by
  obtain ⟨h1, -, h3⟩ := hc
  obtain ⟨rfl, hx, -⟩ := h3 hbr
  have hdx : I.dx < 0 := by
    by_contra h
    nlinarith [mul_nonneg (not_lt.1 h) (sub_pos.2 hx).le]
  have hnot : ¬ (I.brackt = true ∧ (t ≤ min I.x I.y ∨ max I.x I.y ≤ t ∨ 0 ≤ I.dx * (t - I.x) ∨ tmax < I.x)) := by simp [hbr]
  have hsg : ¬ dt * I.dx < 0 := not_lt.2 (mul_nonneg_of_nonpos_of_nonpos hdt.le hdx.le)
  have hsel : t < (selectTrial I t ft dt I.x tmax (dt * I.dx < 0)).1 ∧ (selectTrial I t ft dt I.x tmax (dt * I.dx < 0)).2.2 = false := by
    unfold selectTrial
    rw [if_neg (not_lt.2 hf), if_neg hsg]
    by_cases hlt : |dt| < |I.dx|
    · rw [if_pos hlt]
      simp only [hbr, Bool.false_eq_true, if_false, and_true]
      obtain ⟨p, hp, z, hz⟩ := hs.resolve_left (not_le.2 hlt)
      rw [abs_of_neg hdt, abs_of_neg hdx] at hlt
      have hmq : t < quadMin2 I.x I.dx t dt := by
        unfold quadMin2
        have : 0 < dt / (dt - I.dx) * (I.x - t) := mul_pos_of_neg_of_neg (div_neg_of_neg_of_pos hdt (by linarith)) (by linarith)
        linarith
      have hrad := rad_pos_of_slope p _ _ _ _ _ _ z hx.ne hp hz hdx hdt (by linarith)
      have hmc : t < cubicMin2 I.x I.fx I.dx t ft dt I.x tmax := by
        rw [cubicMin2_eq _ _ _ _ _ _ _ _ _ rfl]
        set th := theta I.x I.fx I.dx t ft dt
        set G := Real.sqrt (th ^ 2 - I.dx * dt) with hG
        have hG0 : 0 < G := Real.sqrt_pos.2 hrad
        have hG2 : G ^ 2 = th ^ 2 - I.dx * dt := Real.sq_sqrt hrad.le
        have hside : side t I.x = -1 := by unfold side; rw [if_pos hx]
        rw [hside, neg_one_mul]
        by_cases hr : (-G - dt + th) / (2 * -G - dt + I.dx) < 0
        · rw [if_pos ⟨hr, by simpa using hG0.ne'⟩]
          nlinarith [mul_pos (neg_pos.2 hr) (sub_pos.2 hx)]
        · rw [if_neg (fun h => hr h.1)]
          have hD : 2 * -G - dt + I.dx < 0 := by linarith
          have hN : -G - dt + th ≤ 0 := by
            by_contra hN
            exact hr (div_neg_of_pos_of_neg (not_le.1 hN) hD)
          have hth : th < 0 := by
            by_contra h0
            have : G < th := by
              by_contra hn
              have : th ^ 2 ≤ G ^ 2 := pow_le_pow_left₀ (not_lt.1 h0) (not_lt.1 hn) 2
              nlinarith [mul_pos_of_neg_of_neg hdx hdt]
            linarith [mul_pos_of_neg_of_neg hdx hdt, show G ^ 2 < th ^ 2 from by nlinarith [mul_pos_of_neg_of_neg hdx hdt],
              pow_le_pow_left₀ (show (0:ℝ) ≤ G - 0 by linarith) (show G - 0 ≤ th by linarith) 2, hN]
          have hm : 0 < max3 |th| |I.dx| |dt| := (abs_pos.2 hth.ne).trans_le ((le_max_left _ _).trans (le_max_left _ _))
          rw [if_pos (div_neg_of_neg_of_pos hth hm)]
          exact hmax
      split <;> assumption
    · rw [if_neg hlt]
      simp only [hbr, Bool.false_eq_true, if_false, if_pos hx, and_true]
      exact hmax
  unfold updateTrial
  rw [if_neg hnot]
  simp only [dsign_iff hdx.ne]
  rw [if_neg (not_lt.2 hf), if_neg hsg]
  refine ⟨_, _, rfl, ?_, ?_, rfl, rfl, rfl, hsel.2⟩
  · simp only [hsel.2, Bool.false_eq_true, false_and, if_false]
    split_ifs <;> linarith [hsel.1]
  · simp only [hsel.2, Bool.false_eq_true, false_and, if_false]
    split_ifs <;> linarith

/-- Non-vacuity of C228: the steepening case, and a flattening case with an interpolating cubic (`z^2 / 2 - 4 z` here) that turns upwards. -/
example : Config ⟨0, 0, -1, 0, 0, -1, false⟩ 1 0 5 ∧ (1 : ℝ) < 5 ∧ (-2 : ℝ) ≤ 0 ∧ (-3 : ℝ) < 0 ∧ |(-1 : ℝ)| ≤ |(-3 : ℝ)| := by
  refine ⟨C62_example.1, by norm_num, by norm_num, by norm_num, ?_⟩
  norm_num [abs_of_neg]

example : Config ⟨0, 0, -4, 0, 0, -4, false⟩ 1 0 5 ∧ (-3.5 : ℝ) ≤ 0 ∧
    ∃ p : Cubic, p.Fits 0 0 (-4) 1 (-3.5) (-3) ∧ ∃ z, 0 < p.slope z := by
  refine ⟨by constructor <;> norm_num, by norm_num, ⟨0, -4, 1 / 2, 0⟩, ⟨?_, ?_, ?_, ?_⟩, 5, ?_⟩ <;> simp only [Cubic.at, Cubic.slope] <;> norm_num

/-- The default parameters with a tighter curvature condition. -/
noncomputable def tightParam : Params := { defparam with gtol := 0.1 }

/-- An objective that decreases for ever: `-4 z + 3 z^2 - z^3`. -/
noncomputable def falling : Eval 1 := fun x => (-4 * x 0 + 3 * x 0 ^ 2 - x 0 ^ 3, fun _ => -4 + 6 * x 0 - 3 * x 0 ^ 2)

/-- C228 is violated: the objective decreases along the whole ray, the first step 1 is lower and not yet acceptable, and the parameters are
accepted; the search then tries the smallest permitted step instead of a longer one. -/
theorem C228_violated : validate 1 tightParam = none ∧ (∀ z : ℝ, (falling (fun _ => z)).2 0 < 0) ∧
    (falling (fun _ => 1)).1 < (falling 0).1 ∧
    ∃ s : MtState, s.I.brackt = false ∧ s.I.x = 1 ∧
      moreThuente tightParam falling 0 (falling 0).1 (falling 0).2 (fun _ => 1) 1 = mtLoop tightParam falling 0 (fun _ => 1) (falling 0).1 (-4) 1 s ∧
      (mtStep tightParam s 1).2.2 = tightParam.minStep ∧ tightParam.minStep < 1 := by
  refine ⟨?_, fun z => ?_, ?_, ?_⟩
  · simp [validate, tightParam, defparam]; norm_num
  · simp only [falling]; nlinarith [sq_nonneg (z - 1)]
  · simp [falling]; norm_num
  have hmc : cubicMin2 0 0 (-4) 1 (-2) (-1) 0 5 = 0 := by
    have ht : theta 0 0 (-4) 1 (-2) (-1) = 1 := by unfold theta; norm_num
    rw [cubicMin2_eq _ _ _ _ _ _ _ _ _ rfl, ht]
    have h0 : Real.sqrt ((1:ℝ) ^ 2 - -4 * -1) = 0 := Real.sqrt_eq_zero_of_nonpos (by norm_num)
    rw [h0, mul_zero, if_neg (by simp), if_neg]
    exact not_lt.2 (div_nonneg zero_le_one ((abs_nonneg _).trans ((le_max_left _ _).trans (le_max_left _ _))))
  have hu : updateTrial ⟨0, 0, -4, 0, 0, -4, false⟩ 1 (-2) (-1) 0 5 = some (⟨1, -2, -1, 0, 0, -4, false⟩, 0) := by
    have hsel : selectTrial ⟨0, 0, -4, 0, 0, -4, false⟩ 1 (-2) (-1) 0 5 ((-1 : ℝ) * -4 < 0) = (0, true, false) := by
      unfold selectTrial
      rw [if_neg (by norm_num), if_neg (by norm_num), if_pos (by norm_num [abs_of_neg])]
      simp only [hmc, quadMin2, Bool.false_eq_true, if_false]
      rw [if_pos (by norm_num [abs_of_neg, abs_of_pos])]
    unfold updateTrial
    rw [if_neg (by simp)]
    simp only [dsign_iff (show (-4 : ℝ) ≠ 0 by norm_num), hsel]
    norm_num
  refine ⟨{ I := ⟨1, -2, -1, 0, 0, -4, false⟩, stage1 := true, uinfo := false, width := tightParam.maxStep - tightParam.minStep, prevWidth := 2 * (tightParam.maxStep - tightParam.minStep), stp := 0 }, rfl, rfl, ?_, ?_, ?_⟩
  · have h1 : dot (falling 0).2 (fun _ => 1) = -4 := by simp [dot, falling]
    have h2 : (falling 0).1 = 0 := by simp [falling]
    unfold moreThuente
    rw [if_neg (by norm_num), h1, if_neg (by norm_num), h2]
    dsimp only
    rw [mtLoop]
    have hs : mtStep tightParam { I := ⟨0, 0, -4, 0, 0, -4, false⟩, stage1 := true, uinfo := false, width := tightParam.maxStep - tightParam.minStep, prevWidth := 2 * (tightParam.maxStep - tightParam.minStep), stp := 1 } 0 = (0, 5, 1) := by
      simp [mtStep, tightParam, defparam]; norm_num
    have hfx : falling (0 + (1:ℝ) • fun _ => (1:ℝ)) = (-2, fun _ => -1) := by
      simp only [falling]; norm_num
    have hg : dot (fun _ : Fin 1 => (-1:ℝ)) (fun _ => 1) = -1 := by simp [dot]
    have hn : mtNext tightParam { I := ⟨0, 0, -4, 0, 0, -4, false⟩, stage1 := true, uinfo := false, width := tightParam.maxStep - tightParam.minStep, prevWidth := 2 * (tightParam.maxStep - tightParam.minStep), stp := 1 } (-4) (tightParam.ftol * -4) (0 + 1 * (tightParam.ftol * -4)) 0 5 1 (-2) (-1) =
        { I := ⟨1, -2, -1, 0, 0, -4, false⟩, stage1 := true, uinfo := false, width := tightParam.maxStep - tightParam.minStep, prevWidth := 2 * (tightParam.maxStep - tightParam.minStep), stp := 0 } := by
      unfold mtNext
      have c1 : ¬ ((true : Bool) = true ∧ (-2 : ℝ) ≤ 0 + 1 * (tightParam.ftol * -4) ∧ min tightParam.ftol tightParam.gtol * -4 ≤ -1) := by
        rintro ⟨-, -, h⟩
        have hf : tightParam.ftol = 1e-4 := rfl
        have hg' : tightParam.gtol = 0.1 := rfl
        rw [hf, hg', min_eq_left (by norm_num)] at h
        norm_num at h
      dsimp only
      rw [if_neg c1]
      have c2 : ¬ ((true : Bool) = true ∧ 0 + 1 * (tightParam.ftol * -4) < (-2 : ℝ) ∧ (-2 : ℝ) ≤ 0) := by
        rintro ⟨-, h, -⟩
        have hf : tightParam.ftol = 1e-4 := rfl
        rw [hf] at h; norm_num at h
      rw [if_neg c2, hu]
      simp
    simp only [hs, hfx, hg, hn]
    simp [tightParam, defparam]; norm_num
  · simp [mtStep, tightParam, defparam]; norm_num
  · simp [tightParam, defparam]; norm_num

end Lbfgs
end Verif
