import Mathlib.Analysis.SpecialFunctions.Pow.Real
import Mathlib.Data.Int.Log
import Mathlib.Algebra.Order.Round
import Mathlib.Order.Interval.Finset.Basic
import Mathlib.Order.Interval.Set.Infinite
import Mathlib.Data.Int.Interval
import Mathlib.Tactic.Linarith
import Mathlib.Tactic.FieldSimp

/-!
Time grids in double precision: PlannerSetting.cpp:224 (number of time steps), ContactPlanInterface.cpp:28-31 (activation of contacts), DynamicsOptimizer.cpp:127 (time step of a
via point), second_order_ik.py:198, create_data_file.py:34 (milliseconds).

The other modules of this development compute with real numbers. Here the same quantities are computed with a rounding after every operation and after reading every number from the
file. The rounding is any function that returns a nearest double (IEEE 754 round-to-nearest, with any rule for ties); results beyond the largest double, which IEEE arithmetic
replaces by infinities, do not occur for the ranges in the theorems.
-/
namespace Verif
namespace Fl

/-! ### specification of double precision -/

/-- The finite IEEE 754 double precision numbers (PlannerSetting.hpp:69-77 declares the quantities of this file as `double`). -/
def IsDouble (x : ℝ) : Prop := ∃ m e : ℤ, |m| < 2 ^ 53 ∧ -1074 ≤ e ∧ e ≤ 971 ∧ x = m * (2 : ℝ) ^ e

/-- Rounding to a nearest double; ties are resolved in any way. -/
structure Nearest (fl : ℝ → ℝ) : Prop where
  isDouble : ∀ x, IsDouble (fl x)
  near : ∀ x d, IsDouble d → |fl x - x| ≤ |d - x|

/-! ### model -/

/-- `num_timesteps_ = std::floor(time_horizon_/time_step_)`, PlannerSetting.cpp:224, for the numbers written in the file (rounded when they are read, PlannerSetting.cpp:68,70). -/
noncomputable def numSteps (fl : ℝ → ℝ) (horizon step : ℝ) : ℤ := ⌊fl (fl horizon / fl step)⌋

/-- `current_time = double(time_id+1.0)*TimeStep`, ContactPlanInterface.cpp:29. -/
noncomputable def currentTime (fl : ℝ → ℝ) (step : ℝ) (t : ℕ) : ℝ := fl (fl (t + 1) * fl step)

/-- The condition under which time step `t` is in contact, ContactPlanInterface.cpp:30-31; `ini` and `fin` are the times written in the file. -/
def inContact (fl : ℝ → ℝ) (step ini fin : ℝ) (t : ℕ) : Prop := currentTime fl step t ≥ fl ini ∧ currentTime fl step t < fl fin

/-- Time step of a via point of the centre of mass, `int(viapoint(0)/TimeStep)`, DynamicsOptimizer.cpp:127 (nonnegative times: truncation is the integer part). -/
noncomputable def viaStep (fl : ℝ → ℝ) (time step : ℝ) : ℤ := ⌊fl (fl time / fl step)⌋

/-- `inner_steps = int(dt/0.001)`, second_order_ik.py:198. -/
noncomputable def innerSteps (fl : ℝ → ℝ) (dt : ℝ) : ℤ := ⌊fl (fl dt / fl 0.001)⌋

/-- `create_time_vector`, motion_planner.py:24-31, entry `i`; `dt` are the durations held by the states. -/
noncomputable def timeVec (fl : ℝ → ℝ) (dt : ℕ → ℝ) : ℕ → ℝ
  | 0 => 0
  | i + 1 => fl (timeVec fl dt i + dt i)

/-- `num_points = int(round(time_vector[-1] * sample_frequency))`, create_data_file.py:16,34 (Python rounds halves to even, `round` of Mathlib upwards; halves do not occur in the theorems). -/
noncomputable def numPoints (fl : ℝ → ℝ) (last : ℝ) : ℤ := round (fl (last * 1000))

/-! ### facts about rounding -/

/-- Some rounding function exists. -/
theorem exists_nearest : ∃ fl : ℝ → ℝ, Nearest fl := by
  have hfin : {x : ℝ | IsDouble x}.Finite := by
    refine Set.Finite.subset ((Set.finite_Icc (-(2 ^ 53 : ℤ)) (2 ^ 53)).prod (Set.finite_Icc (-1074 : ℤ) 971) |>.image (fun p : ℤ × ℤ => (p.1 : ℝ) * (2 : ℝ) ^ p.2)) ?_
    rintro x ⟨m, e, hm, h1, h2, rfl⟩
    exact ⟨(m, e), ⟨⟨by linarith [(abs_lt.mp hm).1], by linarith [(abs_lt.mp hm).2]⟩, ⟨h1, h2⟩⟩, rfl⟩
  have h0 : IsDouble 0 := ⟨0, 0, by norm_num, by norm_num, by norm_num, by simp⟩
  have key : ∀ x : ℝ, ∃ d, IsDouble d ∧ ∀ d', IsDouble d' → |d - x| ≤ |d' - x| := fun x => by
    obtain ⟨d, hd, hmin⟩ := Set.exists_min_image _ (fun d => |d - x|) hfin ⟨0, h0⟩
    exact ⟨d, hd, fun d' hd' => hmin d' hd'⟩
  choose fl h1 h2 using key
  exact ⟨fl, h1, h2⟩

variable {fl : ℝ → ℝ}

theorem fl_double (hf : Nearest fl) {d : ℝ} (h : IsDouble d) : fl d = d := by
  have := hf.near d d h
  rw [sub_self, abs_zero] at this
  exact sub_eq_zero.mp (abs_nonpos_iff.mp this)

theorem double_int {n : ℤ} (h : |n| < 2 ^ 53) : IsDouble n := ⟨n, 0, h, by norm_num, by norm_num, by simp⟩

theorem double_nat {n : ℕ} (h : n < 2 ^ 53) : IsDouble n := by
  have := double_int (n := n) (by rw [abs_of_nonneg (by positivity)]; exact_mod_cast h)
  exact_mod_cast this

theorem fl_mono (hf : Nearest fl) {x y : ℝ} (h : x ≤ y) : fl x ≤ fl y := by
  rcases h.eq_or_lt with rfl | h
  · exact le_rfl
  by_contra hlt
  push Not at hlt
  have h1 := hf.near x _ (hf.isDouble y)
  have h2 := hf.near y _ (hf.isDouble x)
  rcases abs_cases (fl x - x) with ⟨a, a'⟩ | ⟨a, a'⟩ <;> rcases abs_cases (fl y - x) with ⟨b, b'⟩ | ⟨b, b'⟩ <;>
    rcases abs_cases (fl y - y) with ⟨c, c'⟩ | ⟨c, c'⟩ <;> rcases abs_cases (fl x - y) with ⟨d, d'⟩ | ⟨d, d'⟩ <;> rw [a, b] at h1 <;> rw [c, d] at h2 <;> linarith

/-- The unit roundoff. -/
noncomputable def u : ℝ := (2 : ℝ) ^ (-53 : ℤ)

theorem u_pos : 0 < u := by unfold u; positivity
theorem u_lt : u < 1 / 2 ^ 52 := by unfold u; norm_num

/-- Relative error of rounding for numbers in a wide range. -/
theorem fl_rel (hf : Nearest fl) {x : ℝ} (h1 : (2 : ℝ) ^ (-1010 : ℤ) ≤ x) (h2 : x ≤ (2 : ℝ) ^ (1010 : ℤ)) : |fl x - x| ≤ u * x ∧ x * (1 - u) ≤ fl x ∧ fl x ≤ x * (1 + u) := by
  have hx : 0 < x := lt_of_lt_of_le (by positivity) h1
  suffices h : |fl x - x| ≤ u * x from ⟨h, by linarith [(abs_le.mp h).1], by linarith [(abs_le.mp h).2]⟩
  set e := Int.log 2 x with he
  have e1 : (2 : ℝ) ^ e ≤ x := by exact_mod_cast Int.zpow_log_le_self (b := 2) (by norm_num) hx
  have e2 : x < (2 : ℝ) ^ (e + 1) := by exact_mod_cast Int.lt_zpow_succ_log_self (b := 2) (by norm_num) x
  have b1 : -1010 < e + 1 := (zpow_lt_zpow_iff_right₀ (by norm_num : (1 : ℝ) < 2)).mp (lt_of_le_of_lt h1 e2)
  have b2 : e ≤ 1010 := (zpow_le_zpow_iff_right₀ (by norm_num : (1 : ℝ) < 2)).mp (le_trans e1 h2)
  set g := (2 : ℝ) ^ (e - 52) with hg
  have gpos : 0 < g := by positivity
  have ge : (2 : ℝ) ^ e = 2 ^ 52 * g := by rw [hg, ← zpow_natCast, ← zpow_add₀ (by norm_num)]; norm_num
  have ge1 : (2 : ℝ) ^ (e + 1) = 2 ^ 53 * g := by rw [hg, ← zpow_natCast, ← zpow_add₀ (by norm_num)]; congr 1; push_cast; ring
  set m := round (x / g) with hm
  have herr : |x / g - m| ≤ 1 / 2 := abs_sub_round _
  have hmle : m ≤ 2 ^ 53 := by
    have : x / g < 2 ^ 53 := by rw [div_lt_iff₀ gpos, ← ge1]; exact e2
    have h3 := (abs_le.mp herr).1
    have h4 : (m : ℝ) < (2 ^ 53 : ℤ) + 1 := by push_cast; linarith
    have h5 : m < 2 ^ 53 + 1 := by exact_mod_cast h4
    omega
  have hmge : 0 ≤ m := by
    have : 0 < x / g := by positivity
    have h3 := (abs_le.mp herr).2
    have h4 : (-1 : ℝ) < m := by linarith
    have h5 : -1 < m := by exact_mod_cast h4
    omega
  have hd : IsDouble (m * g) := by
    rcases hmle.lt_or_eq with h | h
    · exact ⟨m, e - 52, by rw [abs_of_nonneg hmge]; exact h, by omega, by omega, rfl⟩
    · refine ⟨2 ^ 52, e - 51, by norm_num, by omega, by omega, ?_⟩
      have : (2 : ℝ) ^ (e - 51) = 2 * g := by rw [hg, ← zpow_one_add₀ (by norm_num)]; congr 1; ring
      rw [h, this]; push_cast; ring
  refine (hf.near x _ hd).trans ?_
  have h6 : m * g - x = -((x / g - m) * g) := by field_simp; ring
  rw [h6, abs_neg, abs_mul, abs_of_pos gpos]
  have h7 : u * (2 : ℝ) ^ e = 1 / 2 * g := by rw [ge]; unfold u; norm_num; ring
  have h8 : u * (2 : ℝ) ^ e ≤ u * x := mul_le_mul_of_nonneg_left e1 u_pos.le
  nlinarith

/-- A number closer than half a unit in the last place to a double is rounded to it. -/
theorem fl_eq (hf : Nearest fl) {x : ℝ} {m e : ℤ} (hm1 : 2 ^ 52 < m) (hm2 : m < 2 ^ 53) (he1 : -1074 ≤ e) (he2 : e ≤ 971) (h : |m * (2 : ℝ) ^ e - x| < 1 / 2 * (2 : ℝ) ^ e) :
    fl x = m * (2 : ℝ) ^ e := by
  have hd : IsDouble (m * (2 : ℝ) ^ e) := ⟨m, e, by rw [abs_of_pos (by linarith)]; exact hm2, he1, he2, rfl⟩
  have hn := hf.near x _ hd
  obtain ⟨m', e', h1, h2, h3, h4⟩ := hf.isDouble x
  have gpos : 0 < (2 : ℝ) ^ e := by positivity
  have hclose : |fl x - m * (2 : ℝ) ^ e| < (2 : ℝ) ^ e := by
    calc |fl x - m * (2 : ℝ) ^ e| = |(fl x - x) - (m * (2 : ℝ) ^ e - x)| := by congr 1; ring
      _ ≤ |fl x - x| + |m * (2 : ℝ) ^ e - x| := abs_sub _ _
      _ < (2 : ℝ) ^ e := by linarith
  rcases le_or_gt e e' with hle | hlt
  · obtain ⟨k, hk⟩ := Int.eq_ofNat_of_zero_le (sub_nonneg.mpr hle)
    have hp : (2 : ℝ) ^ e' = 2 ^ k * (2 : ℝ) ^ e := by
      rw [show e' = k + e by omega, zpow_add₀ (by norm_num), zpow_natCast]
    rw [h4, hp] at hclose ⊢
    have hint : ((m' * 2 ^ k - m : ℤ) : ℝ) * (2 : ℝ) ^ e = m' * (2 ^ k * (2 : ℝ) ^ e) - m * (2 : ℝ) ^ e := by push_cast; ring
    rw [← hint, abs_mul, abs_of_pos gpos, mul_lt_iff_lt_one_left gpos] at hclose
    have hz : |m' * 2 ^ k - m| < 1 := by exact_mod_cast hclose
    have hz' : m' * 2 ^ k - m = 0 := Int.abs_lt_one_iff.mp hz
    rw [hz'] at hint
    push_cast at hint
    linarith
  · exfalso
    have hb : |fl x| < 2 ^ 53 * (2 : ℝ) ^ e' := by
      rw [h4, abs_mul, abs_of_pos (by positivity : 0 < (2 : ℝ) ^ e')]
      have : |(m' : ℝ)| < 2 ^ 53 := by exact_mod_cast h1
      exact mul_lt_mul_of_pos_right this (by positivity)
    have hp : 2 * (2 : ℝ) ^ e' ≤ (2 : ℝ) ^ e := by
      rw [← zpow_one_add₀ (by norm_num)]
      exact zpow_le_zpow_right₀ (by norm_num) (by omega)
    have hm3 : (2 ^ 52 + 1 : ℝ) ≤ m := by exact_mod_cast hm1
    have h5 := (abs_lt.mp hclose).1
    have h6 : fl x < 2 ^ 52 * (2 : ℝ) ^ e := by nlinarith [le_abs_self (fl x)]
    nlinarith

end Fl
end Verif
