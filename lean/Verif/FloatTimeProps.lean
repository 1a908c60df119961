import Verif.FloatTime
import Mathlib.Algebra.BigOperators.Group.Finset.Basic
import Mathlib.Algebra.Order.BigOperators.Group.Finset

/-! C261-C263: number of time steps, activation of contacts and millisecond counts in double precision. -/
namespace Verif
namespace Fl

variable {fl : ℝ → ℝ}

/-- Magnitudes covered by the theorems: between `2⁻⁵⁰⁰` and `2⁵⁰⁰`. -/
def Ordinary (x : ℝ) : Prop := (2 : ℝ) ^ (-500 : ℤ) ≤ x ∧ x ≤ (2 : ℝ) ^ (500 : ℤ)

theorem Ordinary.pos {x : ℝ} (h : Ordinary x) : 0 < x := lt_of_lt_of_le (by positivity) h.1

theorem pow_split (a b : ℤ) : (2 : ℝ) ^ (a + b) = (2 : ℝ) ^ a * (2 : ℝ) ^ b := zpow_add₀ (by norm_num) a b

theorem Ordinary.rel (hf : Nearest fl) {x : ℝ} (h : Ordinary x) : x * (1 - u) ≤ fl x ∧ fl x ≤ x * (1 + u) :=
  (fl_rel hf (h.1.trans' (zpow_le_zpow_right₀ (by norm_num) (by norm_num))) (h.2.trans (zpow_le_zpow_right₀ (by norm_num) (by norm_num)))).2

theorem u_small : u ≤ 1 / 2 ^ 53 := by unfold u; norm_num
theorem u_le : u ≤ 1 / 100 := u_small.trans (by norm_num)

/-- Rounding of the product of two rounded numbers. -/
theorem fl_prod (hf : Nearest fl) {x y : ℝ} (hx : Ordinary x) (hy : Ordinary y) : x * y * (1 - 4 * u) ≤ fl (fl x * fl y) ∧ fl (fl x * fl y) ≤ x * y * (1 + 4 * u) := by
  have ux := hx.rel hf
  have uy := hy.rel hf
  have px := hx.pos
  have py := hy.pos
  have hu := u_pos
  have hu' := u_le
  have fx : 0 < fl x := lt_of_lt_of_le (by apply mul_pos px; linarith) ux.1
  have fy : 0 < fl y := lt_of_lt_of_le (by apply mul_pos py; linarith) uy.1
  have lo : x * y * (1 - u) ^ 2 ≤ fl x * fl y := by
    calc x * y * (1 - u) ^ 2 = (x * (1 - u)) * (y * (1 - u)) := by ring
      _ ≤ fl x * fl y := mul_le_mul ux.1 uy.1 (mul_nonneg py.le (by linarith)) fx.le
  have up : fl x * fl y ≤ x * y * (1 + u) ^ 2 := by
    calc fl x * fl y ≤ (x * (1 + u)) * (y * (1 + u)) := mul_le_mul ux.2 uy.2 fy.le (mul_nonneg px.le (by linarith))
      _ = x * y * (1 + u) ^ 2 := by ring
  have pxy : 0 < x * y := mul_pos px py
  have h1 : (2 : ℝ) ^ (-1000 : ℤ) ≤ x * y := by
    rw [show (-1000 : ℤ) = -500 + -500 by norm_num, pow_split]; exact mul_le_mul hx.1 hy.1 (by positivity) px.le
  have h2 : x * y ≤ (2 : ℝ) ^ (1000 : ℤ) := by
    rw [show (1000 : ℤ) = 500 + 500 by norm_num, pow_split]; exact mul_le_mul hx.2 hy.2 py.le (by positivity)
  have h1' : (2 : ℝ) ^ (-1010 : ℤ) ≤ fl x * fl y := by
    refine le_trans ?_ lo
    have : (2 : ℝ) ^ (-1010 : ℤ) * 2 ≤ (2 : ℝ) ^ (-1000 : ℤ) := by
      rw [show (2 : ℝ) ^ (-1010 : ℤ) * 2 = (2 : ℝ) ^ (-1009 : ℤ) by rw [show (-1009 : ℤ) = -1010 + 1 by norm_num, pow_split, zpow_one]]
      exact zpow_le_zpow_right₀ (by norm_num) (by norm_num)
    have hh : 1 / 2 ≤ (1 - u) ^ 2 := by nlinarith
    nlinarith
  have h2' : fl x * fl y ≤ (2 : ℝ) ^ (1010 : ℤ) := by
    refine le_trans up ?_
    have : 2 * (2 : ℝ) ^ (1000 : ℤ) ≤ (2 : ℝ) ^ (1010 : ℤ) := by
      rw [show 2 * (2 : ℝ) ^ (1000 : ℤ) = (2 : ℝ) ^ (1001 : ℤ) by rw [show (1001 : ℤ) = 1 + 1000 by norm_num, pow_split, zpow_one]]
      exact zpow_le_zpow_right₀ (by norm_num) (by norm_num)
    have hh : (1 + u) ^ 2 ≤ 2 := by nlinarith
    refine le_trans ?_ this
    rw [mul_comm 2]
    exact mul_le_mul h2 hh (by positivity) (by positivity)
  have hr := (fl_rel hf h1' h2').2
  constructor
  · refine le_trans ?_ hr.1
    calc x * y * (1 - 4 * u) ≤ x * y * (1 - u) ^ 2 * (1 - u) := by
          rw [mul_assoc (x * y)]; apply mul_le_mul_of_nonneg_left _ pxy.le; nlinarith [sq_nonneg u, mul_nonneg hu.le (sq_nonneg u)]
      _ ≤ _ := mul_le_mul_of_nonneg_right lo (by linarith)
  · refine le_trans hr.2 ?_
    calc fl x * fl y * (1 + u) ≤ x * y * (1 + u) ^ 2 * (1 + u) := mul_le_mul_of_nonneg_right up (by linarith)
      _ ≤ _ := by rw [mul_assoc (x * y)]; apply mul_le_mul_of_nonneg_left _ pxy.le; nlinarith [mul_nonneg hu.le (sub_nonneg.mpr hu'), mul_nonneg (sq_nonneg u) (sub_nonneg.mpr hu')]

/-- Rounding of the quotient of two rounded numbers. -/
theorem fl_quot (hf : Nearest fl) {x y : ℝ} (hx : Ordinary x) (hy : Ordinary y) : x / y * (1 - 4 * u) ≤ fl (fl x / fl y) ∧ fl (fl x / fl y) ≤ x / y * (1 + 4 * u) := by
  have ux := hx.rel hf
  have uy := hy.rel hf
  have px := hx.pos
  have py := hy.pos
  have hu := u_pos
  have hu' := u_le
  have h1u : 0 < 1 - u := by linarith
  have h1v : 0 < 1 + u := by linarith
  have fx : 0 < fl x := lt_of_lt_of_le (mul_pos px h1u) ux.1
  have fy : 0 < fl y := lt_of_lt_of_le (mul_pos py h1u) uy.1
  have lo : x / y * ((1 - u) / (1 + u)) ≤ fl x / fl y := by
    calc x / y * ((1 - u) / (1 + u)) = (x * (1 - u)) / (y * (1 + u)) := by rw [div_mul_div_comm]
      _ ≤ fl x / fl y := div_le_div₀ fx.le ux.1 fy uy.2
  have up : fl x / fl y ≤ x / y * ((1 + u) / (1 - u)) := by
    calc fl x / fl y ≤ (x * (1 + u)) / (y * (1 - u)) := div_le_div₀ (mul_pos px h1v).le ux.2 (mul_pos py h1u) uy.1
      _ = x / y * ((1 + u) / (1 - u)) := by rw [div_mul_div_comm]
  have pxy : 0 < x / y := div_pos px py
  have h1 : (2 : ℝ) ^ (-1000 : ℤ) ≤ x / y := by
    rw [le_div_iff₀ py]
    calc (2 : ℝ) ^ (-1000 : ℤ) * y ≤ (2 : ℝ) ^ (-1000 : ℤ) * (2 : ℝ) ^ (500 : ℤ) := mul_le_mul_of_nonneg_left hy.2 (by positivity)
      _ = (2 : ℝ) ^ (-500 : ℤ) := by rw [← pow_split]; norm_num
      _ ≤ x := hx.1
  have h2 : x / y ≤ (2 : ℝ) ^ (1000 : ℤ) := by
    rw [div_le_iff₀ py]
    calc x ≤ (2 : ℝ) ^ (500 : ℤ) := hx.2
      _ = (2 : ℝ) ^ (1000 : ℤ) * (2 : ℝ) ^ (-500 : ℤ) := by rw [← pow_split]; norm_num
      _ ≤ (2 : ℝ) ^ (1000 : ℤ) * y := mul_le_mul_of_nonneg_left hy.1 (by positivity)
  have r1 : 1 - 2 * u ≤ (1 - u) / (1 + u) := by rw [le_div_iff₀ h1v]; nlinarith
  have r2 : (1 + u) / (1 - u) ≤ 1 + 5 / 2 * u := by rw [div_le_iff₀ h1u]; nlinarith
  have lo' : x / y * (1 - 2 * u) ≤ fl x / fl y := (mul_le_mul_of_nonneg_left r1 pxy.le).trans lo
  have up' : fl x / fl y ≤ x / y * (1 + 5 / 2 * u) := up.trans (mul_le_mul_of_nonneg_left r2 pxy.le)
  have h1' : (2 : ℝ) ^ (-1010 : ℤ) ≤ fl x / fl y := by
    refine le_trans ?_ lo'
    have : (2 : ℝ) ^ (-1010 : ℤ) * 2 ≤ (2 : ℝ) ^ (-1000 : ℤ) := by
      rw [show (2 : ℝ) ^ (-1010 : ℤ) * 2 = (2 : ℝ) ^ (-1009 : ℤ) by rw [show (-1009 : ℤ) = -1010 + 1 by norm_num, pow_split, zpow_one]]
      exact zpow_le_zpow_right₀ (by norm_num) (by norm_num)
    have hh : 1 / 2 ≤ 1 - 2 * u := by linarith
    nlinarith
  have h2' : fl x / fl y ≤ (2 : ℝ) ^ (1010 : ℤ) := by
    refine le_trans up' ?_
    have : 2 * (2 : ℝ) ^ (1000 : ℤ) ≤ (2 : ℝ) ^ (1010 : ℤ) := by
      rw [show 2 * (2 : ℝ) ^ (1000 : ℤ) = (2 : ℝ) ^ (1001 : ℤ) by rw [show (1001 : ℤ) = 1 + 1000 by norm_num, pow_split, zpow_one]]
      exact zpow_le_zpow_right₀ (by norm_num) (by norm_num)
    have hh : 1 + 5 / 2 * u ≤ 2 := by linarith
    refine le_trans ?_ this
    rw [mul_comm 2]
    exact mul_le_mul h2 hh (by linarith) (by positivity)
  have hr := (fl_rel hf h1' h2').2
  constructor
  · refine le_trans ?_ hr.1
    calc x / y * (1 - 4 * u) ≤ x / y * (1 - 2 * u) * (1 - u) := by
          rw [mul_assoc]; apply mul_le_mul_of_nonneg_left _ pxy.le; nlinarith
      _ ≤ _ := mul_le_mul_of_nonneg_right lo' (by linarith)
  · refine le_trans hr.2 ?_
    calc fl x / fl y * (1 + u) ≤ x / y * (1 + 5 / 2 * u) * (1 + u) := mul_le_mul_of_nonneg_right up' (by linarith)
      _ ≤ _ := by rw [mul_assoc]; apply mul_le_mul_of_nonneg_left _ pxy.le; nlinarith

/-! ### C261: number of time steps -/

/-- The integer part of a quotient computed in double precision. -/
theorem quot_floor (hf : Nearest fl) {T d : ℝ} (hT : Ordinary T) (hd : Ordinary d) (n : ℤ) :
    ((n : ℝ) ≤ T / d * (1 - 4 * u) → n ≤ ⌊fl (fl T / fl d)⌋) ∧ (T / d * (1 + 4 * u) < n → ⌊fl (fl T / fl d)⌋ < n) := by
  have h := fl_quot hf hT hd
  exact ⟨fun hn => Int.le_floor.mpr (hn.trans h.1), fun hn => Int.floor_lt.mpr (h.2.trans_lt hn)⟩

theorem floor_band (hf : Nearest fl) {T d : ℝ} (hT : Ordinary T) (hd : Ordinary d) (n : ℕ) (hn : n ≤ 2 ^ 50) :
    (T = n * d → ⌊fl (fl T / fl d)⌋ = n ∨ ⌊fl (fl T / fl d)⌋ = n - 1) ∧
    (n * d * (1 + 1 / 2 ^ 50) ≤ T → T * (1 + 1 / 2 ^ 50) < (n + 1) * d → ⌊fl (fl T / fl d)⌋ = n) := by
  have hu := u_pos
  have hu' := u_small
  have hn' : (n : ℝ) ≤ 2 ^ 50 := by exact_mod_cast hn
  have hn0 : (0 : ℝ) ≤ n := by positivity
  have pd := hd.pos
  constructor
  · rintro h
    have hq : T / d = n := by rw [h]; field_simp
    have h1 := (quot_floor hf hT hd ((n : ℤ) - 1)).1 (by rw [hq]; push_cast; nlinarith)
    have h2 := (quot_floor hf hT hd ((n : ℤ) + 1)).2 (by rw [hq]; push_cast; nlinarith)
    omega
  · intro h1 h2
    have q1 : (n : ℝ) * (1 + 1 / 2 ^ 50) ≤ T / d := by rw [le_div_iff₀ pd]; linarith
    have q2 : T / d * (1 + 1 / 2 ^ 50) < n + 1 := by rw [div_mul_eq_mul_div, div_lt_iff₀ pd]; exact h2
    have q0 : 0 ≤ T / d := div_nonneg hT.pos.le pd.le
    have h3 := (quot_floor hf hT hd (n : ℤ)).1 (by push_cast; nlinarith)
    have h4 := (quot_floor hf hT hd ((n : ℤ) + 1)).2 (by push_cast; nlinarith)
    omega

/-- C261, what holds: if the horizon is written as a whole number of time steps, the number of time steps used is that number or one less; if it is not (up to one part in `2⁵⁰`),
it is the number of whole time steps that fit. -/
theorem C261_steps_partial (hf : Nearest fl) (T d : ℝ) (hT : Ordinary T) (hd : Ordinary d) (n : ℕ) (hn : n ≤ 2 ^ 50) :
    (T = n * d → numSteps fl T d = n ∨ numSteps fl T d = n - 1) ∧
    (n * d * (1 + 1 / 2 ^ 50) ≤ T → T * (1 + 1 / 2 ^ 50) < (n + 1) * d → numSteps fl T d = n) := floor_band hf hT hd n hn

/-- C261, what holds: horizon and time step that are exactly representable (such as 1.5 and 0.125) give the exact number. -/
theorem C261_exact (hf : Nearest fl) (T d : ℝ) (hT : IsDouble T) (hd : IsDouble d) (hd0 : d ≠ 0) (n : ℕ) (hn : n < 2 ^ 53) (h : T = n * d) : numSteps fl T d = n := by
  unfold numSteps
  rw [fl_double hf hT, fl_double hf hd, h, mul_div_cancel_right₀ _ hd0, fl_double hf (double_nat hn)]
  exact Int.floor_natCast n

/-- The double next to 0.1, and so on. -/
theorem fl_tenth (hf : Nearest fl) : fl (1 / 10) = ((7205759403792794 : ℤ) : ℝ) * (2 : ℝ) ^ (-56 : ℤ) :=
  fl_eq hf (by norm_num) (by norm_num) (by norm_num) (by norm_num) (by rw [abs_lt]; constructor <;> norm_num)

/-- C261 is false: with a time step of 0.1 and a horizon of 1.2, the planner uses 11 time steps instead of 12 (for every rule of rounding ties). -/
theorem C261_violated (hf : Nearest fl) : numSteps fl 1.2 0.1 = 11 := by
  unfold numSteps
  have h1 : fl 1.2 = ((5404319552844595 : ℤ) : ℝ) * (2 : ℝ) ^ (-52 : ℤ) :=
    fl_eq hf (by norm_num) (by norm_num) (by norm_num) (by norm_num) (by rw [abs_lt]; constructor <;> norm_num)
  have h2 : fl 0.1 = ((7205759403792794 : ℤ) : ℝ) * (2 : ℝ) ^ (-56 : ℤ) := by rw [← fl_tenth hf]; norm_num
  have h3 : fl (fl 1.2 / fl 0.1) = ((6755399441055743 : ℤ) : ℝ) * (2 : ℝ) ^ (-49 : ℤ) := by
    rw [h1, h2]
    exact fl_eq hf (by norm_num) (by norm_num) (by norm_num) (by norm_num) (by rw [abs_lt]; constructor <;> norm_num)
  rw [h3, Int.floor_eq_iff]
  constructor <;> norm_num

/-- Rounding to a double that is an integer below `2⁵²`, from a number closer than `2⁻⁴⁴`. -/
theorem fl_nat_near (hf : Nearest fl) {x : ℝ} {m e : ℤ} (n : ℕ) (hm1 : 2 ^ 52 < m) (hm2 : m < 2 ^ 53) (he1 : -1074 ≤ e) (he2 : e ≤ 971)
    (hn : (n : ℝ) = m * (2 : ℝ) ^ e) (h : |m * (2 : ℝ) ^ e - x| < 1 / 2 * (2 : ℝ) ^ e) : ⌊fl x⌋ = n := by
  rw [fl_eq hf hm1 hm2 he1 he2 h, ← hn]; exact Int.floor_natCast n

theorem fl_two_hundredth (hf : Nearest fl) : fl 0.005 = ((5764607523034235 : ℤ) : ℝ) * (2 : ℝ) ^ (-60 : ℤ) :=
  fl_eq hf (by norm_num) (by norm_num) (by norm_num) (by norm_num) (by rw [abs_lt]; constructor <;> norm_num)

theorem fl_hundredth (hf : Nearest fl) : fl 0.01 = ((5764607523034235 : ℤ) : ℝ) * (2 : ℝ) ^ (-59 : ℤ) :=
  fl_eq hf (by norm_num) (by norm_num) (by norm_num) (by norm_num) (by rw [abs_lt]; constructor <;> norm_num)

theorem fl_half_int (hf : Nearest fl) (k : ℤ) (h : |k| < 2 ^ 53) : fl (k / 2) = k / 2 :=
  fl_double hf ⟨k, -1, h, by norm_num, by norm_num, by rw [zpow_neg, zpow_one]; ring⟩

theorem fl_tenth' (hf : Nearest fl) : fl 0.1 = ((7205759403792794 : ℤ) : ℝ) * (2 : ℝ) ^ (-56 : ℤ) := by rw [← fl_tenth hf]; norm_num

theorem ordinary_of {x : ℝ} (h1 : 1 / 1024 ≤ x) (h2 : x ≤ 1024) : Ordinary x := by
  constructor
  · refine le_trans ?_ h1
    rw [show (1 / 1024 : ℝ) = (2 : ℝ) ^ (-10 : ℤ) by norm_num]
    exact zpow_le_zpow_right₀ (by norm_num) (by norm_num)
  · refine h2.trans ?_
    rw [show (1024 : ℝ) = (2 : ℝ) ^ (10 : ℤ) by norm_num]
    exact zpow_le_zpow_right₀ (by norm_num) (by norm_num)

/-- C261 holds for the horizons and time steps of the shipped configuration files. -/
theorem C261_shipped (hf : Nearest fl) : numSteps fl 2.5 0.005 = 500 ∧ numSteps fl 3.0 0.005 = 600 ∧ numSteps fl 4.0 0.01 = 400 ∧ numSteps fl 3.0 0.01 = 300 ∧
    numSteps fl 10.0 0.01 = 1000 ∧ numSteps fl 9.5 0.1 = 95 ∧ numSteps fl 29.5 0.15 = 196 ∧ numSteps fl 12.8 0.15 = 85 := by
  refine ⟨?_, ?_, ?_, ?_, ?_, ?_, ?_, ?_⟩ <;> unfold numSteps
  · have h1 : fl (2.5) = ((5 : ℤ) : ℝ) / 2 := by rw [← fl_half_int hf 5 (by norm_num)]; norm_num
    rw [h1, fl_two_hundredth hf]
    exact fl_nat_near hf 500 (m := 8796093022208000) (e := -44) (by norm_num) (by norm_num) (by norm_num) (by norm_num) (by norm_num) (by rw [abs_lt]; constructor <;> norm_num)
  · have h1 : fl (3.0) = ((6 : ℤ) : ℝ) / 2 := by rw [← fl_half_int hf 6 (by norm_num)]; norm_num
    rw [h1, fl_two_hundredth hf]
    exact fl_nat_near hf 600 (m := 5277655813324800) (e := -43) (by norm_num) (by norm_num) (by norm_num) (by norm_num) (by norm_num) (by rw [abs_lt]; constructor <;> norm_num)
  · have h1 : fl (4.0) = ((8 : ℤ) : ℝ) / 2 := by rw [← fl_half_int hf 8 (by norm_num)]; norm_num
    rw [h1, fl_hundredth hf]
    exact fl_nat_near hf 400 (m := 7036874417766400) (e := -44) (by norm_num) (by norm_num) (by norm_num) (by norm_num) (by norm_num) (by rw [abs_lt]; constructor <;> norm_num)
  · have h1 : fl (3.0) = ((6 : ℤ) : ℝ) / 2 := by rw [← fl_half_int hf 6 (by norm_num)]; norm_num
    rw [h1, fl_hundredth hf]
    exact fl_nat_near hf 300 (m := 5277655813324800) (e := -44) (by norm_num) (by norm_num) (by norm_num) (by norm_num) (by norm_num) (by rw [abs_lt]; constructor <;> norm_num)
  · have h1 : fl (10.0) = ((20 : ℤ) : ℝ) / 2 := by rw [← fl_half_int hf 20 (by norm_num)]; norm_num
    rw [h1, fl_hundredth hf]
    exact fl_nat_near hf 1000 (m := 8796093022208000) (e := -43) (by norm_num) (by norm_num) (by norm_num) (by norm_num) (by norm_num) (by rw [abs_lt]; constructor <;> norm_num)
  · have h1 : fl (9.5) = ((19 : ℤ) : ℝ) / 2 := by rw [← fl_half_int hf 19 (by norm_num)]; norm_num
    rw [h1, fl_tenth' hf]
    exact fl_nat_near hf 95 (m := 6685030696878080) (e := -46) (by norm_num) (by norm_num) (by norm_num) (by norm_num) (by norm_num) (by rw [abs_lt]; constructor <;> norm_num)
  · exact (floor_band hf (ordinary_of (by norm_num) (by norm_num)) (ordinary_of (by norm_num) (by norm_num)) 196 (by norm_num)).2 (by norm_num) (by norm_num)
  · exact (floor_band hf (ordinary_of (by norm_num) (by norm_num)) (ordinary_of (by norm_num) (by norm_num)) 85 (by norm_num)).2 (by norm_num) (by norm_num)

/-- C261: the time step of a via point of the centre of mass follows the same rule: the intended step or the one before; the step before for a via point at 1.2 s with steps of 0.1 s. -/
theorem C261_via_partial (hf : Nearest fl) : (∀ (T d : ℝ) (n : ℕ), Ordinary T → Ordinary d → n ≤ 2 ^ 50 → T = n * d → viaStep fl T d = n ∨ viaStep fl T d = n - 1) ∧
    (∀ (T d : ℝ) (n : ℕ), Ordinary T → Ordinary d → n ≤ 2 ^ 50 → n * d * (1 + 1 / 2 ^ 50) ≤ T → T * (1 + 1 / 2 ^ 50) < (n + 1) * d → viaStep fl T d = n) ∧ viaStep fl 1.2 0.1 = 11 :=
  ⟨fun _ _ n hT hd hn => (floor_band hf hT hd n hn).1, fun _ _ n hT hd hn => (floor_band hf hT hd n hn).2, C261_violated hf⟩

/-- The hypotheses of C261 are met: some rounding exists, and 1.2 and 0.1 are ordinary, with 12 intended steps; 1.5 and 0.125 are representable. -/
example : (∃ fl, Nearest fl) ∧ Ordinary 1.2 ∧ Ordinary 0.1 ∧ (1.2 : ℝ) = (12 : ℕ) * 0.1 ∧ IsDouble 1.5 ∧ IsDouble 0.125 ∧ (1.5 : ℝ) = (12 : ℕ) * 0.125 :=
  ⟨exists_nearest, ordinary_of (by norm_num) (by norm_num), ordinary_of (by norm_num) (by norm_num), by norm_num,
    ⟨3, -1, by norm_num, by norm_num, by norm_num, by norm_num⟩, ⟨1, -3, by norm_num, by norm_num, by norm_num, by norm_num⟩, by norm_num⟩

/-! ### C262: activation of contacts -/

/-- The time of step `t` in double precision. -/
theorem currentTime_bounds (hf : Nearest fl) {d : ℝ} (hd : Ordinary d) (t : ℕ) (ht : t + 1 < 2 ^ 53) :
    currentTime fl d t = fl ((t + 1) * fl d) ∧ (t + 1) * d * (1 - 4 * u) ≤ currentTime fl d t ∧ currentTime fl d t ≤ (t + 1) * d * (1 + 4 * u) := by
  have hint : fl ((t : ℝ) + 1) = t + 1 := by
    have := fl_double hf (double_nat ht); push_cast at this; exact this
  have ho : Ordinary ((t : ℝ) + 1) := by
    constructor
    · refine le_trans ?_ (by linarith [(Nat.cast_nonneg t : (0 : ℝ) ≤ t)] : (1 : ℝ) ≤ t + 1)
      rw [show (1 : ℝ) = (2 : ℝ) ^ (0 : ℤ) by norm_num]; exact zpow_le_zpow_right₀ (by norm_num) (by norm_num)
    · have h : ((t + 1 : ℕ) : ℝ) ≤ (2 : ℝ) ^ (53 : ℤ) := by
        rw [show (2 : ℝ) ^ (53 : ℤ) = ((2 ^ 53 : ℕ) : ℝ) by norm_num]; exact_mod_cast ht.le
      push_cast at h
      exact h.trans (zpow_le_zpow_right₀ (by norm_num) (by norm_num))
  exact ⟨by unfold currentTime; rw [hint], (fl_prod hf ho hd)⟩

theorem fl_zero (hf : Nearest fl) : fl 0 = 0 := fl_double hf ⟨0, 0, by norm_num, by norm_num, by norm_num, by simp⟩

theorem fl_multiple (hf : Nearest fl) {d : ℝ} (hd : Ordinary d) (a : ℕ) (ha : a ≤ 2 ^ 49) : a * d * (1 - u) ≤ fl (a * d) ∧ fl (a * d) ≤ a * d * (1 + u) := by
  rcases Nat.eq_zero_or_pos a with rfl | hp
  · simp [fl_zero hf]
  · have h1 : (1 : ℝ) ≤ a := by exact_mod_cast hp
    have h2 : (a : ℝ) ≤ (2 : ℝ) ^ (49 : ℤ) := by
      rw [show (2 : ℝ) ^ (49 : ℤ) = ((2 ^ 49 : ℕ) : ℝ) by norm_num]; exact_mod_cast ha
    refine (fl_rel hf ?_ ?_).2
    · calc (2 : ℝ) ^ (-1010 : ℤ) ≤ (2 : ℝ) ^ (-500 : ℤ) := zpow_le_zpow_right₀ (by norm_num) (by norm_num)
        _ ≤ d := hd.1
        _ ≤ a * d := by nlinarith [hd.pos]
    · calc (a : ℝ) * d ≤ (2 : ℝ) ^ (49 : ℤ) * (2 : ℝ) ^ (500 : ℤ) := mul_le_mul h2 hd.2 hd.pos.le (by positivity)
        _ = (2 : ℝ) ^ (549 : ℤ) := by rw [← pow_split]; norm_num
        _ ≤ (2 : ℝ) ^ (1010 : ℤ) := zpow_le_zpow_right₀ (by norm_num) (by norm_num)

/-- Steps before and after the multiple `a` of the time step are told apart. -/
theorem compare_multiple (hf : Nearest fl) {d : ℝ} (hd : Ordinary d) (a t : ℕ) (ha : a ≤ 2 ^ 49) (ht : t < 2 ^ 49) :
    (t + 1 < a → currentTime fl d t < fl (a * d)) ∧ (a < t + 1 → fl (a * d) < currentTime fl d t) := by
  obtain ⟨-, h1, h2⟩ := currentTime_bounds hf hd t (by omega)
  obtain ⟨h3, h4⟩ := fl_multiple hf hd a ha
  have pd := hd.pos
  have hu := u_pos
  have hu' : u * 2 ^ 53 ≤ 1 := by unfold u; norm_num
  have ha' : (a : ℝ) ≤ 2 ^ 49 := by exact_mod_cast ha
  have ht' : (t : ℝ) + 1 ≤ 2 ^ 49 := by exact_mod_cast ht
  constructor
  · intro h
    have hl : (t : ℝ) + 1 + 1 ≤ a := by exact_mod_cast h
    refine lt_of_le_of_lt h2 (lt_of_lt_of_le ?_ h3)
    have key : ((t : ℝ) + 1) * (1 + 4 * u) < a * (1 - u) := by nlinarith
    nlinarith
  · intro h
    have hl : (a : ℝ) + 1 ≤ t + 1 := by exact_mod_cast h
    refine lt_of_le_of_lt h4 (lt_of_lt_of_le ?_ h1)
    have key : (a : ℝ) * (1 + u) < (t + 1) * (1 - 4 * u) := by nlinarith
    nlinarith

/-- C262, what holds: for contact times written as multiples `a` and `b` of the time step, every time step strictly inside the contact is active and every one strictly outside is not:
only the steps at the very beginning and end can be wrong. -/
theorem C262_inside_partial (hf : Nearest fl) (d : ℝ) (hd : Ordinary d) (a b t : ℕ) (ha : a ≤ 2 ^ 49) (hb : b ≤ 2 ^ 49) (ht : t < 2 ^ 49) :
    (a < t + 1 → t + 1 < b → inContact fl d (a * d) (b * d) t) ∧ (t + 1 < a ∨ b < t + 1 → ¬ inContact fl d (a * d) (b * d) t) := by
  have h1 := compare_multiple hf hd a t ha ht
  have h2 := compare_multiple hf hd b t hb ht
  refine ⟨fun ha hb => ⟨(h1.2 ha).le, h2.1 hb⟩, ?_⟩
  rintro (h | h) ⟨h3, h4⟩
  · exact absurd (h1.1 h) (not_lt.mpr h3)
  · exact absurd (h2.2 h) (not_lt.mpr h4.le)

/-- C262, what holds: if the time step stored is not below the one written (as for 0.1, 0.05, 0.01 and 0.005), the active steps are exactly the intended ones. -/
theorem C262_rounded_up (hf : Nearest fl) (d : ℝ) (hd : Ordinary d) (hup : d ≤ fl d) (a b t : ℕ) (ha : a ≤ 2 ^ 49) (hb : b ≤ 2 ^ 49) (ht : t < 2 ^ 49) :
    inContact fl d (a * d) (b * d) t ↔ a ≤ t + 1 ∧ t + 1 < b := by
  have key : ∀ c : ℕ, c ≤ 2 ^ 49 → (fl (c * d) ≤ currentTime fl d t ↔ c ≤ t + 1) := fun c hc => by
    have h1 := compare_multiple hf hd c t hc ht
    constructor
    · intro h
      by_contra hlt
      exact absurd (h1.1 (by omega)) (not_lt.mpr h)
    · intro h
      rcases h.lt_or_eq with h | h
      · exact (h1.2 h).le
      · rw [(currentTime_bounds hf hd t (by omega)).1]
        apply fl_mono hf
        rw [h]
        push_cast
        exact mul_le_mul_of_nonneg_left hup (by positivity)
  unfold inContact
  rw [ge_iff_le, key a ha, ← not_le, key b hb, not_le]

/-- C262, what holds: for contact times that are not multiples of the time step: unless the time of the step agrees with a contact time to one part in `2⁵⁰`, the test is decided as for real
numbers. -/
theorem C262_apart (hf : Nearest fl) (d s e : ℝ) (hd : Ordinary d) (hs : s = 0 ∨ Ordinary s) (he : e = 0 ∨ Ordinary e) (t : ℕ) (ht : t + 1 < 2 ^ 53)
    (h1 : (t + 1) * d * (1 + 1 / 2 ^ 50) < s ∨ s * (1 + 1 / 2 ^ 50) < (t + 1) * d) (h2 : (t + 1) * d * (1 + 1 / 2 ^ 50) < e ∨ e * (1 + 1 / 2 ^ 50) < (t + 1) * d) :
    inContact fl d s e t ↔ s ≤ (t + 1) * d ∧ (t + 1) * d < e := by
  obtain ⟨-, c1, c2⟩ := currentTime_bounds hf hd t ht
  have hu := u_pos
  have hu' : u * 2 ^ 53 ≤ 1 := by unfold u; norm_num
  have hp : 0 < (t + 1) * d := mul_pos (by positivity) hd.pos
  have key : ∀ x : ℝ, (x = 0 ∨ Ordinary x) → ((t + 1) * d * (1 + 1 / 2 ^ 50) < x ∨ x * (1 + 1 / 2 ^ 50) < (t + 1) * d) →
      (fl x ≤ currentTime fl d t ↔ x ≤ (t + 1) * d) := fun x hx h => by
    have hb : x * (1 - u) ≤ fl x ∧ fl x ≤ x * (1 + u) ∧ 0 ≤ x := by
      rcases hx with rfl | hx
      · simp [fl_zero hf]
      · exact ⟨(hx.rel hf).1, (hx.rel hf).2, hx.pos.le⟩
    obtain ⟨b1, b2, b3⟩ := hb
    generalize ((t : ℝ) + 1) * d = y at *
    have hyu : y * u * 2 ^ 53 ≤ y := by nlinarith
    have hxu : x * u * 2 ^ 53 ≤ x := by nlinarith
    rcases h with h | h
    · have n1 : ¬ x ≤ y := by push Not; linarith
      have n2 : ¬ fl x ≤ currentTime fl d t := by push Not; linarith
      exact iff_of_false n2 n1
    · have n1 : x ≤ y := by linarith
      have n2 : fl x ≤ currentTime fl d t := by linarith
      exact iff_of_true n2 n1
  unfold inContact
  rw [ge_iff_le, key s hs h1, ← not_le, key e he h2, not_le]

/-- C262: the shipped time steps other than 0.15 are stored rounded up. -/
theorem C262_shipped (hf : Nearest fl) : (0.1 : ℝ) ≤ fl 0.1 ∧ (0.01 : ℝ) ≤ fl 0.01 ∧ (0.005 : ℝ) ≤ fl 0.005 := by
  rw [fl_tenth' hf, fl_hundredth hf, fl_two_hundredth hf]
  refine ⟨?_, ?_, ?_⟩ <;> norm_num

/-- C262, what holds: whatever the rounding, a contact that begins when another one ends takes over at once: at every time step exactly one of the two tests at the common time
succeeds, so no time step is claimed by both or, between them, by none. -/
theorem C262_handover (d s m e : ℝ) (t : ℕ) (h1 : fl s ≤ fl m) (h2 : fl m ≤ fl e) :
    (inContact fl d s m t ∨ inContact fl d m e t ↔ inContact fl d s e t) ∧ ¬ (inContact fl d s m t ∧ inContact fl d m e t) := by
  unfold inContact
  refine ⟨⟨?_, fun ⟨h3, h4⟩ => ?_⟩, fun ⟨h3, h4⟩ => absurd h3.2 (not_lt.mpr h4.1)⟩
  · rintro (⟨h3, h4⟩ | ⟨h3, h4⟩)
    · exact ⟨h3, h4.trans_le h2⟩
    · exact ⟨h1.trans h3, h4⟩
  · rcases lt_or_ge (currentTime fl d t) (fl m) with h | h
    · exact .inl ⟨h3, h⟩
    · exact .inr ⟨h, h4⟩

/-- C262 is false: with the shipped time step of 0.15, a contact from 1.35 (step 9) to 2.7 (step 18) is inactive at step 9 and active at step 18 (for every rule of rounding ties). -/
theorem C262_violated (hf : Nearest fl) : ¬ inContact fl 0.15 1.35 2.7 8 ∧ inContact fl 0.15 1.35 2.7 17 := by
  have h0 : fl 0.15 = ((5404319552844595 : ℤ) : ℝ) * (2 : ℝ) ^ (-55 : ℤ) :=
    fl_eq hf (by norm_num) (by norm_num) (by norm_num) (by norm_num) (by rw [abs_lt]; constructor <;> norm_num)
  have h1 : fl 1.35 = ((6079859496950170 : ℤ) : ℝ) * (2 : ℝ) ^ (-52 : ℤ) :=
    fl_eq hf (by norm_num) (by norm_num) (by norm_num) (by norm_num) (by rw [abs_lt]; constructor <;> norm_num)
  have h2 : fl 2.7 = ((6079859496950170 : ℤ) : ℝ) * (2 : ℝ) ^ (-51 : ℤ) :=
    fl_eq hf (by norm_num) (by norm_num) (by norm_num) (by norm_num) (by rw [abs_lt]; constructor <;> norm_num)
  have ho : Ordinary (0.15 : ℝ) := ordinary_of (by norm_num) (by norm_num)
  have h3 : currentTime fl 0.15 8 = ((6079859496950169 : ℤ) : ℝ) * (2 : ℝ) ^ (-52 : ℤ) := by
    rw [(currentTime_bounds hf ho 8 (by norm_num)).1, h0]
    exact fl_eq hf (by norm_num) (by norm_num) (by norm_num) (by norm_num) (by rw [abs_lt]; constructor <;> norm_num)
  have h4 : currentTime fl 0.15 17 = ((6079859496950169 : ℤ) : ℝ) * (2 : ℝ) ^ (-51 : ℤ) := by
    rw [(currentTime_bounds hf ho 17 (by norm_num)).1, h0]
    exact fl_eq hf (by norm_num) (by norm_num) (by norm_num) (by norm_num) (by rw [abs_lt]; constructor <;> norm_num)
  unfold inContact
  rw [h1, h2, h3, h4]
  constructor
  · rintro ⟨h, -⟩; norm_num at h
  · constructor <;> norm_num

/-- The hypotheses of C262 are met by the time step 0.1 and a contact from step 3 to step 7 (at step 5), and by a contact from 0 to 0.55. -/
example (hf : Nearest fl) : ((((4 : ℕ) : ℝ) + 1) * 0.1 * (1 + 1 / 2 ^ 50) < 0.55 ∧ (0 : ℝ) * (1 + 1 / 2 ^ 50) < (((4 : ℕ) : ℝ) + 1) * 0.1 ∧ Ordinary 0.55) ∧
    Ordinary 0.1 ∧ (0.1 : ℝ) ≤ fl 0.1 ∧ inContact fl 0.1 ((3 : ℕ) * 0.1) ((7 : ℕ) * 0.1) 4 ∧ fl 1.5 ≤ fl 2 := by
  have ho : Ordinary (0.1 : ℝ) := ordinary_of (by norm_num) (by norm_num)
  exact ⟨⟨by norm_num, by norm_num, ordinary_of (by norm_num) (by norm_num)⟩, ho, (C262_shipped hf).1, (C262_inside_partial hf 0.1 ho 3 7 4 (by norm_num) (by norm_num) (by norm_num)).1 (by norm_num) (by norm_num), fl_mono hf (by norm_num)⟩

/-! ### C263: counts of milliseconds -/

/-- C263, what holds: the number of inner steps of the second-order inverse kinematics for a time step of `n` milliseconds is `n` or `n - 1`. -/
theorem C263_inner_partial (hf : Nearest fl) (n : ℕ) (h1 : 1 ≤ n) (h2 : n ≤ 2 ^ 50) : innerSteps fl (n / 1000) = n ∨ innerSteps fl (n / 1000) = n - 1 := by
  have ho : Ordinary (0.001 : ℝ) := ⟨le_trans (zpow_le_zpow_right₀ (by norm_num) (by norm_num : (-500 : ℤ) ≤ -10)) (by norm_num),
    le_trans (by norm_num : (0.001 : ℝ) ≤ 1) (by rw [show (1 : ℝ) = (2 : ℝ) ^ (0 : ℤ) by norm_num]; exact zpow_le_zpow_right₀ (by norm_num) (by norm_num))⟩
  have h1' : (1 : ℝ) ≤ n := by exact_mod_cast h1
  have h2' : (n : ℝ) ≤ 2 ^ 50 := by exact_mod_cast h2
  have hn : Ordinary ((n : ℝ) / 1000) := ⟨le_trans (zpow_le_zpow_right₀ (by norm_num) (by norm_num : (-500 : ℤ) ≤ -10)) (le_trans (by norm_num : (2 : ℝ) ^ (-10 : ℤ) ≤ 1 / 1000) (by linarith)),
    le_trans (by linarith : (n : ℝ) / 1000 ≤ 2 ^ 50) (by rw [← zpow_natCast]; exact zpow_le_zpow_right₀ (by norm_num) (by norm_num))⟩
  exact (floor_band hf hn ho n h2).1 (by norm_num; ring)

/-- C263 is false: a time step of 43 milliseconds is integrated with 42 inner steps of one millisecond. -/
theorem C263_inner_violated (hf : Nearest fl) : innerSteps fl 0.043 = 42 := by
  unfold innerSteps
  have h1 : fl 0.043 = ((6196953087261802 : ℤ) : ℝ) * (2 : ℝ) ^ (-57 : ℤ) :=
    fl_eq hf (by norm_num) (by norm_num) (by norm_num) (by norm_num) (by rw [abs_lt]; constructor <;> norm_num)
  have h2 : fl 0.001 = ((4611686018427388 : ℤ) : ℝ) * (2 : ℝ) ^ (-62 : ℤ) :=
    fl_eq hf (by norm_num) (by norm_num) (by norm_num) (by norm_num) (by rw [abs_lt]; constructor <;> norm_num)
  have h3 : fl (fl 0.043 / fl 0.001) = ((6051711999279103 : ℤ) : ℝ) * (2 : ℝ) ^ (-47 : ℤ) := by
    rw [h1, h2]
    exact fl_eq hf (by norm_num) (by norm_num) (by norm_num) (by norm_num) (by rw [abs_lt]; constructor <;> norm_num)
  rw [h3, Int.floor_eq_iff]
  constructor <;> norm_num

/-- Accumulated times of equal durations. -/
theorem timeVec_bounds (hf : Nearest fl) {d : ℝ} (hd : Ordinary d) (N : ℕ) (hN : N ≤ 2 ^ 20) :
    N * d * (1 - 2 * (N + 1) * u) ≤ timeVec fl (fun _ => fl d) N ∧ timeVec fl (fun _ => fl d) N ≤ N * d * (1 + 2 * (N + 1) * u) := by
  have pd := hd.pos
  have hu := u_pos
  have hu' : u * 2 ^ 53 ≤ 1 := by unfold u; norm_num
  induction N with
  | zero => simp [timeVec]
  | succ N ih =>
    obtain ⟨i1, i2⟩ := ih (by omega)
    obtain ⟨r1, r2⟩ := hd.rel hf
    have hN' : (N : ℝ) + 1 ≤ 2 ^ 20 := by exact_mod_cast hN
    have hN0 : (0 : ℝ) ≤ N := by positivity
    have hNu : N * u ≤ 1 / 2 ^ 30 := by
      have : (N : ℝ) * u ≤ 2 ^ 20 * u := mul_le_mul_of_nonneg_right (by linarith) hu.le
      nlinarith
    simp only [timeVec]
    set s := timeVec fl (fun _ => fl d) N + fl d with hs
    set c : ℝ := N * (1 - 2 * (N + 1) * u) + (1 - u) with hc
    set c' : ℝ := N * (1 + 2 * (N + 1) * u) + (1 + u) with hc'
    have lo : d * c ≤ s := by rw [hs, hc]; nlinarith
    have up : s ≤ d * c' := by rw [hs, hc']; nlinarith
    have hN2u : (N : ℝ) * (N * u) ≤ N * (1 / 2 ^ 30) := mul_le_mul_of_nonneg_left hNu hN0
    have cl : 1 / 2 ≤ c := by
      rw [hc]; nlinarith
    have cu : c' ≤ 2 ^ 22 := by rw [hc']; nlinarith
    have s1 : (2 : ℝ) ^ (-1010 : ℤ) ≤ s := by
      refine le_trans ?_ (le_trans (by nlinarith : d * (1 / 2) ≤ d * c) lo)
      have : (2 : ℝ) ^ (-501 : ℤ) = (2 : ℝ) ^ (-500 : ℤ) * (1 / 2) := by rw [show (-501 : ℤ) = -500 + -1 by norm_num, pow_split]; norm_num
      calc (2 : ℝ) ^ (-1010 : ℤ) ≤ (2 : ℝ) ^ (-501 : ℤ) := zpow_le_zpow_right₀ (by norm_num) (by norm_num)
        _ = (2 : ℝ) ^ (-500 : ℤ) * (1 / 2) := this
        _ ≤ d * (1 / 2) := mul_le_mul_of_nonneg_right hd.1 (by norm_num)
    have s2 : s ≤ (2 : ℝ) ^ (1010 : ℤ) := by
      refine up.trans ?_
      calc d * c' ≤ (2 : ℝ) ^ (500 : ℤ) * (2 : ℝ) ^ (22 : ℤ) := mul_le_mul hd.2 (by exact_mod_cast cu) (by rw [hc']; positivity) (by positivity)
        _ = (2 : ℝ) ^ (522 : ℤ) := by rw [← pow_split]; norm_num
        _ ≤ (2 : ℝ) ^ (1010 : ℤ) := zpow_le_zpow_right₀ (by norm_num) (by norm_num)
    obtain ⟨-, t1, t2⟩ := fl_rel hf s1 s2
    push_cast
    constructor
    · refine le_trans ?_ t1
      refine le_trans ?_ (mul_le_mul_of_nonneg_right lo (by nlinarith : (0 : ℝ) ≤ 1 - u))
      rw [show ((N : ℝ) + 1) * d * (1 - 2 * (N + 1 + 1) * u) = d * ((N + 1) * (1 - 2 * (N + 1 + 1) * u)) by ring, mul_assoc d]
      apply mul_le_mul_of_nonneg_left _ pd.le
      rw [hc]
      nlinarith [mul_nonneg hN0 hu.le, mul_nonneg (mul_nonneg hN0 hN0) (sq_nonneg u), mul_nonneg hN0 (sq_nonneg u), sq_nonneg u]
    · refine le_trans t2 ?_
      refine le_trans (mul_le_mul_of_nonneg_right up (by linarith : (0 : ℝ) ≤ 1 + u)) ?_
      rw [show ((N : ℝ) + 1) * d * (1 + 2 * (N + 1 + 1) * u) = d * ((N + 1) * (1 + 2 * (N + 1 + 1) * u)) by ring, mul_assoc d]
      apply mul_le_mul_of_nonneg_left _ pd.le
      rw [hc']
      have k1 : N * (N * u) * u ≤ N * u := by
        have : N * u ≤ 1 := hNu.trans (by norm_num)
        nlinarith [mul_nonneg hN0 hu.le]
      have k2 : N * u * u ≤ N * u := by nlinarith [mul_nonneg hN0 hu.le]
      have k3 : u * u ≤ u := by nlinarith
      nlinarith [mul_nonneg hN0 hu.le]

/-- C263, what holds: the data files of a plan of `N + 1` time steps of `m` milliseconds have exactly `N m` rows, although the times are summed up in double precision: rounding to
the nearest integer absorbs the error. -/
theorem C263_rows (hf : Nearest fl) (N m : ℕ) (hm : 1 ≤ m) (hN : N ≤ 2 ^ 20) (hNm : N * m ≤ 2 ^ 29) (hm2 : m ≤ 2 ^ 29) :
    numPoints fl (timeVec fl (fun _ => fl (m / 1000)) N) = N * m := by
  have hm' : (1 : ℝ) ≤ m := by exact_mod_cast hm
  have hm2' : (m : ℝ) ≤ 2 ^ 29 := by exact_mod_cast hm2
  have ho : Ordinary ((m : ℝ) / 1000) := ⟨le_trans (zpow_le_zpow_right₀ (by norm_num) (by norm_num : (-500 : ℤ) ≤ -10)) (le_trans (by norm_num : (2 : ℝ) ^ (-10 : ℤ) ≤ 1 / 1000) (by linarith)),
    le_trans (by linarith : (m : ℝ) / 1000 ≤ 2 ^ 29) (by rw [← zpow_natCast]; exact zpow_le_zpow_right₀ (by norm_num) (by norm_num))⟩
  unfold numPoints
  rcases Nat.eq_zero_or_pos N with rfl | hp
  · simp [timeVec, fl_zero hf]
  obtain ⟨b1, b2⟩ := timeVec_bounds hf ho N hN
  set s := timeVec fl (fun _ => fl ((m : ℝ) / 1000)) N
  have hu := u_pos
  have hu' : u * 2 ^ 53 ≤ 1 := by unfold u; norm_num
  have hN1 : (1 : ℝ) ≤ N := by exact_mod_cast hp
  have hN' : (N : ℝ) ≤ 2 ^ 20 := by exact_mod_cast hN
  have hNm' : (N : ℝ) * m ≤ 2 ^ 29 := by exact_mod_cast hNm
  set P : ℝ := N * m with hP
  have hP1 : 1 ≤ P := by rw [hP]; nlinarith
  have hNu : 2 * ((N : ℝ) + 1) * u ≤ 1 / 2 ^ 31 := by
    have : 2 * ((N : ℝ) + 1) * u ≤ 2 * (2 ^ 20 + 2 ^ 20) * u := mul_le_mul_of_nonneg_right (by linarith) hu.le
    nlinarith
  have hNu0 : 0 ≤ 2 * ((N : ℝ) + 1) * u := by positivity
  set w := 2 * ((N : ℝ) + 1) * u
  have c1 : P * (1 - w) ≤ s * 1000 := by rw [hP]; nlinarith
  have c2 : s * 1000 ≤ P * (1 + w) := by rw [hP]; nlinarith
  have d1 : 1 / 2 ≤ s * 1000 := by nlinarith
  have d2 : s * 1000 ≤ 2 ^ 30 := by nlinarith
  obtain ⟨e, -, -⟩ := fl_rel (x := s * 1000) hf (le_trans (zpow_le_zpow_right₀ (by norm_num) (by norm_num : (-1010 : ℤ) ≤ -1)) (by norm_num; linarith))
    (d2.trans (by rw [← zpow_natCast]; exact zpow_le_zpow_right₀ (by norm_num) (by norm_num)))
  have e1 := abs_le.mp e
  have hw : P * w ≤ 1 / 4 := by nlinarith
  have f1 : u * (s * 1000) ≤ 1 / 8 := by nlinarith
  have hfin : |fl (s * 1000) - ((N * m : ℤ) : ℝ)| < 1 / 2 := by
    push_cast
    rw [← hP, abs_lt]
    constructor <;> linarith [e1.1, e1.2]
  rw [round_eq, Int.floor_eq_iff]
  have := abs_lt.mp hfin
  constructor <;> linarith [this.1, this.2]

/-- The hypotheses are met: a plan of 4001 time steps of 10 milliseconds. -/
example : (1 : ℕ) ≤ 10 ∧ 4000 ≤ 2 ^ 20 ∧ 4000 * 10 ≤ 2 ^ 29 ∧ 10 ≤ 2 ^ 29 := by norm_num

/-! ### C264: accumulated times -/

/-- The true sum of the first `i` durations (specification). -/
noncomputable def elapsed (dt : ℕ → ℝ) (i : ℕ) : ℝ := ∑ k ∈ Finset.range i, dt k

/-- C264: for every plan of up to `2²⁰` time steps whose durations lie between `D` and `2²⁰ D`, the accumulated times are those of the plan up to a relative error of `2 i` units of roundoff, and they are
strictly increasing, as the interpolation of the plan requires (C141). -/
theorem C264_times (hf : Nearest fl) (dt : ℕ → ℝ) (D : ℝ) (hD : (2 : ℝ) ^ (-500 : ℤ) ≤ D ∧ D ≤ (2 : ℝ) ^ (400 : ℤ)) (N : ℕ) (hN : N ≤ 2 ^ 20)
    (hdt : ∀ i < N, D ≤ dt i ∧ dt i ≤ 2 ^ 20 * D) :
    timeVec fl dt 0 = 0 ∧ (∀ i ≤ N, |timeVec fl dt i - elapsed dt i| ≤ 2 * i * (2 : ℝ) ^ (-53 : ℤ) * elapsed dt i) ∧ ∀ i < N, timeVec fl dt i < timeVec fl dt (i + 1) := by
  have hu := u_pos
  have hu' : u * 2 ^ 53 ≤ 1 := by unfold u; norm_num
  have pD : 0 < D := lt_of_lt_of_le (by positivity) hD.1
  have hN' : (N : ℝ) ≤ 2 ^ 20 := by exact_mod_cast hN
  have hsum : ∀ i ≤ N, 0 ≤ elapsed dt i ∧ elapsed dt i ≤ i * (2 ^ 20 * D) := fun i hi => by
    unfold elapsed
    constructor
    · exact Finset.sum_nonneg fun k hk => pD.le.trans (hdt k (lt_of_lt_of_le (Finset.mem_range.mp hk) hi)).1
    · calc ∑ k ∈ Finset.range i, dt k ≤ ∑ _k ∈ Finset.range i, 2 ^ 20 * D := Finset.sum_le_sum fun k hk => (hdt k (lt_of_lt_of_le (Finset.mem_range.mp hk) hi)).2
        _ = i * (2 ^ 20 * D) := by rw [Finset.sum_const, Finset.card_range, nsmul_eq_mul]
  have hiu : ∀ i ≤ N, (i : ℝ) * u ≤ 1 / 2 ^ 30 := fun i hi => by
    have h1 : (i : ℝ) ≤ N := by exact_mod_cast hi
    have : (i : ℝ) * u ≤ 2 ^ 20 * u := mul_le_mul_of_nonneg_right (by linarith) hu.le
    nlinarith
  -- size of the argument of one rounding
  have hstep : ∀ i < N, elapsed dt i * (1 - 2 * i * u) ≤ timeVec fl dt i → timeVec fl dt i ≤ elapsed dt i * (1 + 2 * i * u) →
      (timeVec fl dt i + dt i) * (1 - u) ≤ timeVec fl dt (i + 1) ∧ timeVec fl dt (i + 1) ≤ (timeVec fl dt i + dt i) * (1 + u) := fun i hi h1 h2 => by
    obtain ⟨s1, s2⟩ := hsum i hi.le
    obtain ⟨d1, d2⟩ := hdt i hi
    have hi' := hiu i hi.le
    have hi0 : (0 : ℝ) ≤ i * u := by positivity
    have hiN : (i : ℝ) ≤ 2 ^ 20 := by have : (i : ℝ) ≤ N := by exact_mod_cast hi.le
                                      linarith
    have ht0 : 0 ≤ timeVec fl dt i := le_trans (mul_nonneg s1 (by nlinarith)) h1
    have htu : timeVec fl dt i ≤ 2 ^ 42 * D := by
      have a1 : elapsed dt i ≤ 2 ^ 40 * D := s2.trans (by nlinarith)
      have a2 : 1 + 2 * i * u ≤ 2 := by nlinarith
      nlinarith
    refine (fl_rel hf ?_ ?_).2
    · calc (2 : ℝ) ^ (-1010 : ℤ) ≤ (2 : ℝ) ^ (-500 : ℤ) := zpow_le_zpow_right₀ (by norm_num) (by norm_num)
        _ ≤ D := hD.1
        _ ≤ _ := by linarith
    · calc timeVec fl dt i + dt i ≤ D * 2 ^ 43 := by nlinarith
        _ ≤ (2 : ℝ) ^ (400 : ℤ) * (2 : ℝ) ^ (43 : ℤ) := mul_le_mul hD.2 (by norm_num) (by norm_num) (by positivity)
        _ = (2 : ℝ) ^ (443 : ℤ) := by rw [← pow_split]; norm_num
        _ ≤ (2 : ℝ) ^ (1010 : ℤ) := zpow_le_zpow_right₀ (by norm_num) (by norm_num)
  have hb : ∀ i ≤ N, elapsed dt i * (1 - 2 * i * u) ≤ timeVec fl dt i ∧ timeVec fl dt i ≤ elapsed dt i * (1 + 2 * i * u) := fun i => by
    induction i with
    | zero => intro _; simp [timeVec, elapsed]
    | succ i ih =>
      intro hi
      obtain ⟨h1, h2⟩ := ih (by omega)
      obtain ⟨h3, h4⟩ := hstep i (by omega) h1 h2
      obtain ⟨s1, -⟩ := hsum i (by omega)
      obtain ⟨d1, -⟩ := hdt i (by omega)
      have hi' := hiu i (by omega)
      have hi0 : (0 : ℝ) ≤ i * u := by positivity
      have hS : elapsed dt (i + 1) = elapsed dt i + dt i := Finset.sum_range_succ _ _
      have hd0 : 0 ≤ dt i := by linarith
      rw [hS]
      push_cast
      set S := elapsed dt i
      set x := (i : ℝ) * u with hx
      have hS' : 0 ≤ S + dt i := by linarith
      have hu1 : u ≤ 1 / 100 := u_le
      constructor
      · refine le_trans ?_ h3
        have a1 : (S + dt i) * (1 - 2 * x) ≤ timeVec fl dt i + dt i := by nlinarith
        calc (S + dt i) * (1 - 2 * (i + 1) * u) ≤ (S + dt i) * ((1 - 2 * x) * (1 - u)) := by
              apply mul_le_mul_of_nonneg_left _ hS'; rw [hx]; nlinarith [mul_nonneg hi0 hu.le]
          _ = (S + dt i) * (1 - 2 * x) * (1 - u) := by ring
          _ ≤ _ := mul_le_mul_of_nonneg_right a1 (by linarith)
      · refine le_trans h4 ?_
        have a1 : timeVec fl dt i + dt i ≤ (S + dt i) * (1 + 2 * x) := by nlinarith
        calc (timeVec fl dt i + dt i) * (1 + u) ≤ (S + dt i) * (1 + 2 * x) * (1 + u) := mul_le_mul_of_nonneg_right a1 (by linarith)
          _ = (S + dt i) * ((1 + 2 * x) * (1 + u)) := by ring
          _ ≤ (S + dt i) * (1 + 2 * (i + 1) * u) := by
            apply mul_le_mul_of_nonneg_left _ hS'
            have : x * u ≤ 1 / 4 * u := mul_le_mul_of_nonneg_right (by linarith) hu.le
            have e : 1 + 2 * ((i : ℝ) + 1) * u = 1 + 2 * x + 2 * u := by rw [hx]; ring
            rw [e]; nlinarith
  refine ⟨rfl, fun i hi => ?_, fun i hi => ?_⟩
  · obtain ⟨h1, h2⟩ := hb i hi
    change _ ≤ 2 * i * u * _
    rw [abs_le]
    constructor <;> linarith
  · obtain ⟨h1, h2⟩ := hb i hi.le
    obtain ⟨h3, -⟩ := hstep i hi h1 h2
    obtain ⟨s1, s2⟩ := hsum i hi.le
    obtain ⟨d1, -⟩ := hdt i hi
    have hi' := hiu i hi.le
    have hiN : (i : ℝ) ≤ 2 ^ 20 := by have : (i : ℝ) ≤ N := by exact_mod_cast hi.le
                                      linarith
    have htu : timeVec fl dt i ≤ 2 ^ 42 * D := by
      have a1 : elapsed dt i ≤ 2 ^ 40 * D := s2.trans (by nlinarith)
      have a2 : 1 + 2 * i * u ≤ 2 := by nlinarith
      nlinarith
    refine lt_of_lt_of_le ?_ h3
    have k1 : timeVec fl dt i * u ≤ 2 ^ 42 * D * u := mul_le_mul_of_nonneg_right htu hu.le
    have k2 : 2 ^ 42 * D * u ≤ D / 2 := by nlinarith
    have k3 : dt i * (1 - u) ≥ dt i * (3 / 4) := by
      apply mul_le_mul_of_nonneg_left _ (by linarith); linarith [u_le]
    nlinarith

/-- The hypotheses are met: 500 time steps of 5 or 10 milliseconds in turns. -/
example : (2 : ℝ) ^ (-500 : ℤ) ≤ (1 / 200 : ℝ) ∧ (1 / 200 : ℝ) ≤ (2 : ℝ) ^ (400 : ℤ) ∧ (500 : ℕ) ≤ 2 ^ 20 ∧
    ∀ i < 500, (1 / 200 : ℝ) ≤ (if i % 2 = 0 then 1 / 200 else 1 / 100) ∧ (if i % 2 = 0 then 1 / 200 else 1 / 100 : ℝ) ≤ 2 ^ 20 * (1 / 200) := by
  refine ⟨le_trans (zpow_le_zpow_right₀ (by norm_num) (by norm_num : (-500 : ℤ) ≤ -10)) (by norm_num), le_trans (by norm_num : (1 / 200 : ℝ) ≤ (2 : ℝ) ^ (0 : ℤ)) (zpow_le_zpow_right₀ (by norm_num) (by norm_num)),
    by norm_num, fun i _ => ?_⟩
  split <;> norm_num

end Fl
end Verif
