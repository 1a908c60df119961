import Verif.LbfgsWrapProps
import Verif.LbfgsProps
import Mathlib.Analysis.Convex.Deriv
import Mathlib.Analysis.Calculus.MeanValue
import Mathlib.Analysis.Calculus.Deriv.Pi
import Mathlib.Analysis.Calculus.FDeriv.Pi
import Mathlib.Analysis.Calculus.Deriv.Pow
import Mathlib.Analysis.Calculus.Deriv.Shift
import Mathlib.Tactic.LinearCombination

/-! # C207, C208, C209: what the penalty, the differences and a success of L-BFGS mean for the problem described -/

namespace Verif
namespace Lbfgs

/-! ### Specification -/

/-- Distance of a number from an interval. -/
noncomputable def excess (v l u : ℝ) : ℝ := max (max (l - v) (v - u)) 0

/-- Violation of bounds and constraints: the sum of the squared distances. -/
noncomputable def violation {n c : Nat} (P : Nlp n c) (x : Vec n) : ℝ :=
  (∑ i, excess (x i) (P.xl i) (P.xu i) ^ 2) + ∑ i, excess (P.cons x i) (P.gl i) (P.gu i) ^ 2

theorem penalty1_eq {v l u : ℝ} (h : l ≤ u) : penalty1 v l u = excess v l u ^ 2 := by
  unfold penalty1 excess
  rcases le_or_gt v l with h1 | h1 <;> rcases le_or_gt u v with h2 | h2
  · have e1 : v = l := le_antisymm h1 (h.trans h2)
    have e2 : u = l := le_antisymm (h2.trans h1) h
    subst e1; simp [e2]
  · rw [if_pos h1, if_neg (not_le.mpr h2), max_eq_left (by linarith : v - u ≤ l - v), max_eq_left (by linarith)]; ring
  · rw [if_neg (not_le.mpr h1), if_pos h2, max_eq_right (by linarith : l - v ≤ v - u), max_eq_left (by linarith)]; ring
  · rw [if_neg (not_le.mpr h1), if_neg (not_le.mpr h2), max_eq_right (max_le (by linarith) (by linarith))]; norm_num

/-- The bounds of the description are consistent. -/
def Consistent {n c : Nat} (P : Nlp n c) : Prop := (∀ i, P.xl i ≤ P.xu i) ∧ ∀ i, P.gl i ≤ P.gu i

theorem penalised_eq {n c : Nat} {P : Nlp n c} (h : Consistent P) (w : ℝ) (x : Vec n) : penalised P w x = P.obj x + w * violation P x := by
  unfold penalised violation
  rw [Finset.sum_congr rfl fun i _ => penalty1_eq (h.1 i), Finset.sum_congr rfl fun i _ => penalty1_eq (h.2 i)]

theorem violation_nonneg {n c : Nat} (P : Nlp n c) (x : Vec n) : 0 ≤ violation P x :=
  add_nonneg (Finset.sum_nonneg fun _ _ => sq_nonneg _) (Finset.sum_nonneg fun _ _ => sq_nonneg _)

/-- `x` is a minimiser of `F`. -/
def Min {n : Nat} (F : Vec n → ℝ) (x : Vec n) : Prop := ∀ y, F x ≤ F y

/-- C207. For every description with consistent bounds and every positive weight: what L-BFGS minimises is the objective plus the weight
times the violation; a minimiser of it is never worse than any feasible point, its violation is at most what the objective gains over any feasible
point, divided by the weight; with a larger weight the violation does not increase and the objective does not decrease; a feasible minimiser
solves the problem described. -/
theorem C207_penalty_method {n c : Nat} (P : Nlp n c) (hP : Consistent P) :
    (∀ w x, penalised P w x = P.obj x + w * violation P x) ∧
    (∀ w x, 0 < w → Min (penalised P w) x → ∀ y, Feasible P y → P.obj x ≤ P.obj y ∧ violation P x ≤ (P.obj y - P.obj x) / w) ∧
    (∀ w1 w2 x1 x2, 0 < w1 → w1 < w2 → Min (penalised P w1) x1 → Min (penalised P w2) x2 →
      P.obj x1 ≤ P.obj x2 ∧ violation P x2 ≤ violation P x1) ∧
    (∀ w x, 0 < w → Min (penalised P w) x → Feasible P x → ∀ y, Feasible P y → P.obj x ≤ P.obj y) := by
  have key : ∀ w x, 0 < w → Min (penalised P w) x → ∀ y, Feasible P y → P.obj x + w * violation P x ≤ P.obj y := by
    intro w x hw hx y hy
    have := hx y
    rwa [(C33_penalty P w y).1 hy, penalised_eq hP] at this
  refine ⟨penalised_eq hP, fun w x hw hx y hy => ?_, fun w1 w2 x1 x2 h1 h12 m1 m2 => ?_, fun w x hw hx _ y hy => ?_⟩
  · have h := key w x hw hx y hy
    have hv := mul_nonneg hw.le (violation_nonneg P x)
    exact ⟨by linarith, by rw [le_div_iff₀ hw]; linarith⟩
  · have a := m1 x2
    have b := m2 x1
    rw [penalised_eq hP, penalised_eq hP] at a b
    have hc : violation P x2 ≤ violation P x1 := by
      by_contra hc
      push Not at hc
      nlinarith
    exact ⟨by nlinarith, hc⟩
  · have h := key w x hw hx y hy
    have hv := mul_nonneg hw.le (violation_nonneg P x)
    linarith

/-- Non-vacuity of C207: minimise `x` subject to `0 ≤ x ≤ 2`; for every positive weight the penalised minimiser is `-1/(2w)`. -/
theorem C207_example : ∃ P : Nlp 1 0, Consistent P ∧ Feasible P (fun _ => 1) ∧ ∀ w, 0 < w → Min (penalised P w) (fun _ => -(1 / (2 * w))) := by
  refine ⟨⟨fun _ => 0, fun _ => 2, fun _ => 0, fun _ => 0, fun _ => 0, fun x => x 0⟩, ⟨fun _ => by norm_num, fun i => i.elim0⟩,
    ⟨fun _ => by norm_num, fun i => i.elim0⟩, fun w hw y => ?_⟩
  have hpos : 0 < 1 / (2 * w) := by positivity
  have e : w * (1 / (2 * w)) = 1 / 2 := by field_simp
  set t := 1 / (2 * w)
  unfold penalised penalty1
  simp only [Fin.sum_univ_one, Fin.sum_univ_zero, add_zero]
  rw [if_pos (by linarith), if_neg (by linarith)]
  have hsq := mul_nonneg hw.le (sq_nonneg (y 0 + t))
  split_ifs with h1 h2 h2
  · linarith
  · nlinarith
  · push Not at h1
    have := mul_nonneg hw.le (sq_nonneg (y 0 - 2))
    nlinarith
  · push Not at h1
    nlinarith

/-! ### C208: accuracy of the differences -/

/-- `g` is the gradient of `F`. -/
def HasGrad {n : Nat} (F : Vec n → ℝ) (g : Vec n → Vec n) : Prop :=
  ∀ x, HasFDerivAt F (∑ i, g x i • (ContinuousLinearMap.proj i : Vec n →L[ℝ] ℝ)) x

/-- Along every coordinate, its own partial derivative changes at most by `L` times the displacement. -/
def CoordLipschitz {n : Nat} (L : ℝ) (g : Vec n → Vec n) : Prop :=
  ∀ x i t, |g (Function.update x i (x i + t)) i - g x i| ≤ L * |t|

theorem hasDerivAt_coord {n : Nat} {F : Vec n → ℝ} {g : Vec n → Vec n} (h : HasGrad F g) (x : Vec n) (i : Fin n) (t : ℝ) :
    HasDerivAt (fun t => F (Function.update x i (x i + t))) (g (Function.update x i (x i + t)) i) t := by
  have h1 : HasDerivAt (fun s => F (Function.update x i s)) (g (Function.update x i (x i + t)) i) (x i + t) := by
    have := (h (Function.update x i (x i + t))).comp_hasDerivAt (x i + t) (hasDerivAt_update x i (x i + t))
    refine this.congr_deriv ?_
    simp [Pi.single_apply]
  exact h1.comp_const_add (x i) t

/-- A function that vanishes at 0 with `|f'| ≤ B'` on `[0, h]` stays below `B`. -/
theorem abs_le_of_deriv {f f' B B' : ℝ → ℝ} {h : ℝ} (hh : 0 ≤ h) (hf : ∀ t, HasDerivAt f (f' t) t) (hB : ∀ t, HasDerivAt B (B' t) t)
    (f0 : f 0 = 0) (B0 : B 0 = 0) (hb : ∀ t, 0 ≤ t → |f' t| ≤ B' t) : |f h| ≤ B h := by
  have := image_norm_le_of_norm_deriv_right_le_deriv_boundary (f := f) (f' := f') (B := B) (B' := B') (a := 0) (b := h)
    (fun x _ => (hf x).continuousAt.continuousWithinAt) (fun x _ => (hf x).hasDerivWithinAt) (by simp [f0, B0]) hB
    (fun x hx => by simpa using hb x hx.1) (Set.right_mem_Icc.mpr hh)
  simpa using this

theorem prt_pos : 0 < prt := by unfold prt; positivity

theorem central_lip {φ φ' : ℝ → ℝ} {L : ℝ} (hφ : ∀ t, HasDerivAt φ (φ' t) t) (hl : ∀ t, |φ' t - φ' 0| ≤ L * |t|) {h : ℝ} (hh : 0 < h) :
    |(φ h - φ (-h)) / (2 * h) - φ' 0| ≤ L * h / 2 := by
  have hd : ∀ t, HasDerivAt (fun t => φ t - φ (-t) - 2 * t * φ' 0) (φ' t + φ' (-t) - 2 * φ' 0) t := by
    intro t
    have h1 := (hφ (-t)).comp t (hasDerivAt_neg t)
    have h2 : HasDerivAt (fun t : ℝ => 2 * t * φ' 0) (2 * φ' 0) t := by
      simpa using ((hasDerivAt_id t).const_mul 2).mul_const (φ' 0)
    exact (((hφ t).sub h1).sub h2).congr_deriv (by ring)
  have hB : ∀ t, HasDerivAt (fun t : ℝ => L * t ^ 2) (2 * L * t) t := by
    intro t
    exact ((hasDerivAt_pow 2 t).const_mul L).congr_deriv (by norm_num; ring)
  have := abs_le_of_deriv hh.le hd hB (by simp) (by simp) (fun t ht => by
    have a := hl t
    have b := hl (-t)
    rw [abs_neg] at b
    rw [abs_of_nonneg ht] at a b
    rw [show φ' t + φ' (-t) - 2 * φ' 0 = (φ' t - φ' 0) + (φ' (-t) - φ' 0) by ring]
    exact (abs_add_le _ _).trans (by linarith))
  rw [show (φ h - φ (-h)) / (2 * h) - φ' 0 = (φ h - φ (-h) - 2 * h * φ' 0) / (2 * h) by field_simp, abs_div, abs_of_pos (by linarith : (0:ℝ) < 2 * h),
    div_le_iff₀ (by linarith)]
  nlinarith

theorem central_smooth {φ φ' φ'' : ℝ → ℝ} {M : ℝ} (hφ : ∀ t, HasDerivAt φ (φ' t) t) (hφ' : ∀ t, HasDerivAt φ' (φ'' t) t)
    (hl : ∀ t, |φ'' t - φ'' 0| ≤ M * |t|) {h : ℝ} (hh : 0 < h) :
    |(φ h - φ (-h)) / (2 * h) - φ' 0| ≤ M * h ^ 2 / 6 := by
  have hd : ∀ t, HasDerivAt (fun t => φ t - φ (-t) - 2 * t * φ' 0) (φ' t + φ' (-t) - 2 * φ' 0) t := by
    intro t
    have h1 := (hφ (-t)).comp t (hasDerivAt_neg t)
    have h2 : HasDerivAt (fun t : ℝ => 2 * t * φ' 0) (2 * φ' 0) t := by
      simpa using ((hasDerivAt_id t).const_mul 2).mul_const (φ' 0)
    exact (((hφ t).sub h1).sub h2).congr_deriv (by ring)
  have hd' : ∀ t, HasDerivAt (fun t => φ' t + φ' (-t) - 2 * φ' 0) (φ'' t - φ'' (-t)) t := by
    intro t
    have h1 := (hφ' (-t)).comp t (hasDerivAt_neg t)
    exact (((hφ' t).add h1).sub_const (2 * φ' 0)).congr_deriv (by ring)
  have hB : ∀ t, HasDerivAt (fun t : ℝ => M / 3 * t ^ 3) (M * t ^ 2) t := by
    intro t
    exact ((hasDerivAt_pow 3 t).const_mul (M / 3)).congr_deriv (by norm_num; ring)
  have hB' : ∀ t, HasDerivAt (fun t : ℝ => M * t ^ 2) (2 * M * t) t := by
    intro t
    exact ((hasDerivAt_pow 2 t).const_mul M).congr_deriv (by norm_num; ring)
  have := abs_le_of_deriv hh.le hd hB (by simp) (by simp) (fun s hs => by
    refine abs_le_of_deriv hs hd' hB' (by simp; ring) (by simp) (fun t ht => ?_)
    have a := hl t
    have b := hl (-t)
    rw [abs_neg] at b
    rw [abs_of_nonneg ht] at a b
    rw [show φ'' t - φ'' (-t) = (φ'' t - φ'' 0) - (φ'' (-t) - φ'' 0) by ring]
    exact (abs_sub _ _).trans (by linarith))
  rw [show (φ h - φ (-h)) / (2 * h) - φ' 0 = (φ h - φ (-h) - 2 * h * φ' 0) / (2 * h) by field_simp, abs_div, abs_of_pos (by linarith : (0:ℝ) < 2 * h),
    div_le_iff₀ (by linarith)]
  nlinarith

/-- C208. The gradient handed to L-BFGS at any point differs in every component from the partial derivative by at most `2⁻¹⁸ L` if that
derivative changes along its coordinate at most `L` times the displacement, and by at most `2⁻³⁴ M / 6` if it is differentiable along its coordinate and its
own derivative changes at most `M` times the displacement. -/
theorem C208_difference_accuracy {n : Nat} (F : Vec n → ℝ) (g : Vec n → Vec n) (hg : HasGrad F g) (x : Vec n) (i : Fin n) :
    (∀ L, (∀ t, |g (Function.update x i (x i + t)) i - g x i| ≤ L * |t|) → |(evaluate F x).2 i - g x i| ≤ L / 2 ^ 18) ∧
    (∀ M (H : ℝ → ℝ), (∀ t, HasDerivAt (fun t => g (Function.update x i (x i + t)) i) (H t) t) → (∀ t, |H t - H 0| ≤ M * |t|) →
      |(evaluate F x).2 i - g x i| ≤ M / 2 ^ 34 / 6) := by
  have hφ := hasDerivAt_coord hg x i
  have h0 : g (Function.update x i (x i + 0)) i = g x i := by simp
  rw [evaluate_eq]
  constructor
  · intro L hl
    have := central_lip (φ := fun t => F (Function.update x i (x i + t))) (L := L) hφ (fun t => by simpa using hl t) prt_pos
    rw [h0] at this
    rw [show L / 2 ^ 18 = L * prt / 2 by unfold prt; ring]
    exact this
  · intro M H hH hl
    have := central_smooth (φ := fun t => F (Function.update x i (x i + t))) (M := M) hφ hH hl prt_pos
    rw [h0] at this
    rw [show M / 2 ^ 34 / 6 = M * prt ^ 2 / 6 by unfold prt; ring]
    exact this

/-- Non-vacuity of C208: `x³` in one variable, with the constants 6 (along the interval of its hypotheses the second derivative changes 6 times
the displacement). -/
theorem C208_example : ∃ (F : Vec 1 → ℝ) (g : Vec 1 → Vec 1), HasGrad F g ∧ (∀ x i, ∃ H : ℝ → ℝ,
    (∀ t, HasDerivAt (fun t => g (Function.update x i (x i + t)) i) (H t) t) ∧ ∀ t, |H t - H 0| ≤ 6 * |t|) ∧
    (evaluate F (fun _ => 1)).2 0 ≠ g (fun _ => 1) 0 := by
  refine ⟨fun x => x 0 ^ 3, fun x _ => 3 * x 0 ^ 2, fun x => ?_, fun x i => ⟨fun t => 6 * (x i + t), fun t => ?_, fun t => ?_⟩, ?_⟩
  · have h1 : HasFDerivAt (fun x : Vec 1 => x 0) (ContinuousLinearMap.proj 0 : Vec 1 →L[ℝ] ℝ) x := hasFDerivAt_apply 0 x
    have := h1.pow 3
    refine this.congr_fderiv ?_
    ext v
    simp
  · have hi : i = 0 := Subsingleton.elim _ _
    subst hi
    have h1 : HasDerivAt (fun t => x 0 + t) 1 t := by simpa using (hasDerivAt_id t).const_add (x 0)
    have h2 : HasDerivAt (fun t => 3 * (x 0 + t) ^ 2) (6 * (x 0 + t)) t := ((h1.pow 2).const_mul 3).congr_deriv (by norm_num; ring)
    simpa using h2
  · simp only [add_zero]
    rw [show 6 * (x i + t) - 6 * x i = 6 * t by ring, abs_mul]
    norm_num
  · rw [evaluate_eq]
    simp [prt]
    norm_num

/-! ### C209: success on convex problems -/

/-- Derivative of the penalty of one quantity. -/
noncomputable def dpen (v l u : ℝ) : ℝ := (if v ≤ l then 2 * (v - l) else 0) + (if v ≥ u then 2 * (v - u) else 0)

theorem hasDerivAt_of_sq {f : ℝ → ℝ} {f' x : ℝ} (C : ℝ) (h : ∀ y, |f y - f x - (y - x) * f'| ≤ C * (y - x) ^ 2) : HasDerivAt f f' x := by
  rw [hasDerivAt_iff_isLittleO]
  refine Asymptotics.IsBigO.trans_isLittleO (g := fun y => (y - x) ^ 2) ?_ ?_
  · refine Asymptotics.IsBigO.of_bound C (Filter.Eventually.of_forall fun y => ?_)
    have := h y
    simpa [abs_of_nonneg (sq_nonneg (y - x))] using this
  · have h2 : (fun y : ℝ => (y - x) ^ 2) = fun y => (y - x) * (y - x) := by funext y; ring
    rw [h2]
    have h3 : (fun y : ℝ => y - x) =o[nhds x] fun _ => (1 : ℝ) := by
      rw [Asymptotics.isLittleO_one_iff]
      have h4 : Continuous fun y : ℝ => y - x := continuous_id.sub continuous_const
      have h5 := h4.tendsto x
      rwa [sub_self] at h5
    simpa using (Asymptotics.isBigO_refl (fun y : ℝ => y - x) (nhds x)).mul_isLittleO h3

theorem hasDerivAt_low (l v : ℝ) : HasDerivAt (fun v => if v ≤ l then (v - l) ^ 2 else 0) (if v ≤ l then 2 * (v - l) else 0) v := by
  refine hasDerivAt_of_sq 1 fun y => ?_
  rw [abs_le]
  split_ifs with h1 h2 h2 <;> try push Not at h1 <;> try push Not at h2
  all_goals constructor <;> nlinarith [sq_nonneg (y - v), sq_nonneg (y - l), sq_nonneg (v - l)]

theorem hasDerivAt_high (u v : ℝ) : HasDerivAt (fun v => if v ≥ u then (v - u) ^ 2 else 0) (if v ≥ u then 2 * (v - u) else 0) v := by
  refine hasDerivAt_of_sq 1 fun y => ?_
  rw [abs_le]
  split_ifs with h1 h2 h2 <;> try push Not at h1 <;> try push Not at h2
  all_goals constructor <;> nlinarith [sq_nonneg (y - v), sq_nonneg (y - u), sq_nonneg (v - u)]

theorem hasDerivAt_penalty1 (l u v : ℝ) : HasDerivAt (fun v => penalty1 v l u) (dpen v l u) v :=
  (hasDerivAt_low l v).add (hasDerivAt_high u v)

theorem dpen_lip {l u : ℝ} (h : l ≤ u) (v w : ℝ) : |dpen v l u - dpen w l u| ≤ 2 * |v - w| := by
  unfold dpen
  rcases le_total v w with hvw | hvw
  · rw [abs_of_nonpos (by linarith : v - w ≤ 0), abs_le]
    constructor <;> split_ifs <;> linarith
  · rw [abs_of_nonneg (by linarith : 0 ≤ v - w), abs_le]
    constructor <;> split_ifs <;> linarith

theorem convex_penalty1 (l u : ℝ) : ConvexOn ℝ Set.univ fun v => penalty1 v l u := by
  have h1 : ConvexOn ℝ Set.univ fun v : ℝ => if v ≤ l then (v - l) ^ 2 else 0 := by
    refine ⟨convex_univ, fun x _ y _ a b ha hb hab => ?_⟩
    obtain rfl : b = 1 - a := by linarith
    simp only [smul_eq_mul]
    have hx : ∀ z : ℝ, (if z ≤ l then (z - l) ^ 2 else 0) = (min (z - l) 0) ^ 2 := by
      intro z
      split_ifs with h
      · rw [min_eq_left (by linarith)]
      · rw [min_eq_right (by push Not at h; linarith)]; norm_num
    rw [hx, hx, hx]
    have m1 : a * min (x - l) 0 + (1 - a) * min (y - l) 0 ≤ min (a * x + (1 - a) * y - l) 0 := by
      refine le_min ?_ ?_
      · nlinarith [min_le_left (x - l) 0, min_le_left (y - l) 0]
      · nlinarith [min_le_right (x - l) 0, min_le_right (y - l) 0]
    have m2 : min (a * x + (1 - a) * y - l) 0 ≤ 0 := min_le_right _ _
    have m3 : (min (a * x + (1 - a) * y - l) 0) ^ 2 ≤ (a * min (x - l) 0 + (1 - a) * min (y - l) 0) ^ 2 := by nlinarith
    refine m3.trans ?_
    nlinarith [mul_nonneg (mul_nonneg ha hb) (sq_nonneg (min (x - l) 0 - min (y - l) 0))]
  have h2 : ConvexOn ℝ Set.univ fun v : ℝ => if v ≥ u then (v - u) ^ 2 else 0 := by
    refine ⟨convex_univ, fun x _ y _ a b ha hb hab => ?_⟩
    obtain rfl : b = 1 - a := by linarith
    simp only [smul_eq_mul]
    have hx : ∀ z : ℝ, (if z ≥ u then (z - u) ^ 2 else 0) = (max (z - u) 0) ^ 2 := by
      intro z
      split_ifs with h
      · rw [max_eq_left (by linarith)]
      · rw [max_eq_right (by push Not at h; linarith)]; norm_num
    rw [hx, hx, hx]
    have m1 : max (a * x + (1 - a) * y - u) 0 ≤ a * max (x - u) 0 + (1 - a) * max (y - u) 0 := by
      refine max_le ?_ ?_
      · nlinarith [le_max_left (x - u) 0, le_max_left (y - u) 0]
      · nlinarith [le_max_right (x - u) 0, le_max_right (y - u) 0]
    have m2 : 0 ≤ max (a * x + (1 - a) * y - u) 0 := le_max_right _ _
    have m3 : (max (a * x + (1 - a) * y - u) 0) ^ 2 ≤ (a * max (x - u) 0 + (1 - a) * max (y - u) 0) ^ 2 := by nlinarith
    refine m3.trans ?_
    nlinarith [mul_nonneg (mul_nonneg ha hb) (sq_nonneg (max (x - u) 0 - max (y - u) 0))]
  exact h1.add h2

/-- The constraints are affine: `cons x = A x + b`. -/
def Affine {n c : Nat} (P : Nlp n c) (A : Fin c → Fin n → ℝ) (b : Vec c) : Prop := ∀ x j, P.cons x j = (∑ i, A j i * x i) + b j

/-- The gradient of the penalised objective for affine constraints. -/
noncomputable def penGrad {n c : Nat} (P : Nlp n c) (w : ℝ) (A : Fin c → Fin n → ℝ) (g : Vec n → Vec n) (x : Vec n) : Vec n := fun i =>
  g x i + w * (dpen (x i) (P.xl i) (P.xu i) + ∑ j, dpen (P.cons x j) (P.gl j) (P.gu j) * A j i)

theorem hasGrad_penalised {n c : Nat} {P : Nlp n c} {A : Fin c → Fin n → ℝ} {b : Vec c} (hA : Affine P A b) (w : ℝ) {g : Vec n → Vec n}
    (hg : HasGrad P.obj g) : HasGrad (penalised P w) (penGrad P w A g) := by
  intro x
  have h1 : HasFDerivAt (fun x : Vec n => ∑ i, penalty1 (x i) (P.xl i) (P.xu i))
      (∑ i, dpen (x i) (P.xl i) (P.xu i) • (ContinuousLinearMap.proj i : Vec n →L[ℝ] ℝ)) x := by
    refine HasFDerivAt.fun_sum fun i _ => ?_
    exact (hasDerivAt_penalty1 _ _ _).comp_hasFDerivAt x (hasFDerivAt_apply i x)
  have h2 : HasFDerivAt (fun x : Vec n => ∑ j, penalty1 (P.cons x j) (P.gl j) (P.gu j))
      (∑ j, dpen (P.cons x j) (P.gl j) (P.gu j) • (∑ i, A j i • (ContinuousLinearMap.proj i : Vec n →L[ℝ] ℝ))) x := by
    refine HasFDerivAt.fun_sum fun j _ => ?_
    have hc : HasFDerivAt (fun x => P.cons x j) (∑ i, A j i • (ContinuousLinearMap.proj i : Vec n →L[ℝ] ℝ)) x := by
      have e : (fun x => P.cons x j) = fun x => (∑ i, A j i * x i) + b j := funext fun x => hA x j
      rw [e]
      refine (HasFDerivAt.fun_sum fun i _ => ?_).add_const _
      exact (hasFDerivAt_apply i x).const_mul (A j i)
    exact (hasDerivAt_penalty1 _ _ _).comp_hasFDerivAt x hc
  have h3 := (hg x).add ((h1.add h2).const_mul w)
  refine h3.congr_fderiv ?_
  ext v
  simp only [penGrad, add_apply, smul_apply, sum_apply, ContinuousLinearMap.proj_apply,
    smul_eq_mul]
  have e2 : ∑ j, dpen (P.cons x j) (P.gl j) (P.gu j) * ∑ i, A j i * v i = ∑ i, (∑ j, dpen (P.cons x j) (P.gl j) (P.gu j) * A j i) * v i := by
    simp only [Finset.mul_sum, Finset.sum_mul]
    rw [Finset.sum_comm]
    exact Finset.sum_congr rfl fun _ _ => Finset.sum_congr rfl fun _ _ => by ring
  rw [e2, ← Finset.sum_add_distrib, Finset.mul_sum, ← Finset.sum_add_distrib]
  exact Finset.sum_congr rfl fun i _ => by ring

theorem penGrad_lip {n c : Nat} {P : Nlp n c} (hP : Consistent P) {A : Fin c → Fin n → ℝ} {b : Vec c} (hA : Affine P A b) {w : ℝ} (hw : 0 ≤ w)
    {g : Vec n → Vec n} {L S : ℝ} (hL : CoordLipschitz L g) (hS : ∀ i, ∑ j, A j i ^ 2 ≤ S) :
    CoordLipschitz (L + 2 * w * (1 + S)) (penGrad P w A g) := by
  intro x i t
  have hc : ∀ j, P.cons (Function.update x i (x i + t)) j - P.cons x j = A j i * t := by
    intro j
    rw [hA, hA, add_sub_add_right_eq_sub, ← Finset.sum_sub_distrib]
    rw [Finset.sum_eq_single i]
    · simp; ring
    · intro k _ hk; simp [hk]
    · simp
  have h1 := hL x i t
  have h2 := dpen_lip (hP.1 i) (x i + t) (x i)
  rw [add_sub_cancel_left] at h2
  have h3 : |(∑ j, dpen (P.cons (Function.update x i (x i + t)) j) (P.gl j) (P.gu j) * A j i) - ∑ j, dpen (P.cons x j) (P.gl j) (P.gu j) * A j i|
      ≤ 2 * S * |t| := by
    rw [← Finset.sum_sub_distrib]
    refine (Finset.abs_sum_le_sum_abs _ _).trans ?_
    have : ∀ j ∈ Finset.univ, |dpen (P.cons (Function.update x i (x i + t)) j) (P.gl j) (P.gu j) * A j i - dpen (P.cons x j) (P.gl j) (P.gu j) * A j i|
        ≤ 2 * |t| * A j i ^ 2 := by
      intro j _
      rw [← sub_mul, abs_mul]
      have := dpen_lip (hP.2 j) (P.cons (Function.update x i (x i + t)) j) (P.cons x j)
      rw [hc, abs_mul] at this
      have h4 := mul_le_mul_of_nonneg_right this (abs_nonneg (A j i))
      refine h4.trans (le_of_eq ?_)
      rw [← sq_abs (A j i)]; ring
    refine (Finset.sum_le_sum this).trans ?_
    rw [← Finset.mul_sum]
    nlinarith [hS i, abs_nonneg t]
  unfold penGrad
  simp only [Function.update_self]
  set a := g (Function.update x i (x i + t)) i
  set d1 := dpen (x i + t) (P.xl i) (P.xu i)
  set s1 := ∑ j, dpen (P.cons (Function.update x i (x i + t)) j) (P.gl j) (P.gu j) * A j i
  have e : a + w * (d1 + s1) - (g x i + w * (dpen (x i) (P.xl i) (P.xu i) + ∑ j, dpen (P.cons x j) (P.gl j) (P.gu j) * A j i)) =
      (a - g x i) + w * ((d1 - dpen (x i) (P.xl i) (P.xu i)) + (s1 - ∑ j, dpen (P.cons x j) (P.gl j) (P.gu j) * A j i)) := by ring
  rw [e]
  refine (abs_add_le _ _).trans ?_
  rw [abs_mul, abs_of_nonneg hw]
  have h5 := mul_le_mul_of_nonneg_left ((abs_add_le (d1 - dpen (x i) (P.xl i) (P.xu i)) (s1 - ∑ j, dpen (P.cons x j) (P.gl j) (P.gu j) * A j i)).trans
    (add_le_add h2 h3)) hw
  nlinarith

theorem convex_penalised {n c : Nat} {P : Nlp n c} {A : Fin c → Fin n → ℝ} {b : Vec c} (hA : Affine P A b) {w : ℝ} (hw : 0 ≤ w)
    (ho : ConvexOn ℝ Set.univ P.obj) : ConvexOn ℝ Set.univ (penalised P w) := by
  refine ⟨convex_univ, fun x _ y _ s t hs ht hst => ?_⟩
  have h0 := ho.2 (Set.mem_univ x) (Set.mem_univ y) hs ht hst
  have h1 : ∀ i, penalty1 ((s • x + t • y) i) (P.xl i) (P.xu i) ≤ s * penalty1 (x i) (P.xl i) (P.xu i) + t * penalty1 (y i) (P.xl i) (P.xu i) := by
    intro i
    simpa using (convex_penalty1 (P.xl i) (P.xu i)).2 (Set.mem_univ (x i)) (Set.mem_univ (y i)) hs ht hst
  have h2 : ∀ j, penalty1 (P.cons (s • x + t • y) j) (P.gl j) (P.gu j) ≤ s * penalty1 (P.cons x j) (P.gl j) (P.gu j) + t * penalty1 (P.cons y j) (P.gl j) (P.gu j) := by
    intro j
    have e : P.cons (s • x + t • y) j = s * P.cons x j + t * P.cons y j := by
      rw [hA, hA, hA]
      simp only [Pi.add_apply, Pi.smul_apply, smul_eq_mul, mul_add, Finset.sum_add_distrib, Finset.mul_sum]
      have : b j = s * b j + t * b j := by rw [← add_mul, hst, one_mul]
      have e1 : ∑ i, A j i * (s * x i) = ∑ i, s * (A j i * x i) := Finset.sum_congr rfl fun _ _ => by ring
      have e2 : ∑ i, A j i * (t * y i) = ∑ i, t * (A j i * y i) := Finset.sum_congr rfl fun _ _ => by ring
      rw [e1, e2]; linarith
    rw [e]
    simpa using (convex_penalty1 (P.gl j) (P.gu j)).2 (Set.mem_univ (P.cons x j)) (Set.mem_univ (P.cons y j)) hs ht hst
  have s1 := Finset.sum_le_sum fun i (_ : i ∈ Finset.univ) => h1 i
  have s2 := Finset.sum_le_sum fun j (_ : j ∈ Finset.univ) => h2 j
  rw [Finset.sum_add_distrib, ← Finset.mul_sum, ← Finset.mul_sum] at s1 s2
  unfold penalised
  simp only [smul_eq_mul] at h0 ⊢
  nlinarith [mul_le_mul_of_nonneg_left (add_le_add s1 s2) hw]

/-- A convex function lies above its tangents. -/
theorem tangent_le {n : Nat} {F : Vec n → ℝ} {g : Vec n → Vec n} (hc : ConvexOn ℝ Set.univ F) (hg : HasGrad F g) (x y : Vec n) :
    F x + dot (g x) (y - x) ≤ F y := by
  have hl : HasDerivAt (fun t : ℝ => F (x + t • (y - x))) (dot (g x) (y - x)) 0 := by
    have h1 : HasDerivAt (fun t : ℝ => x + t • (y - x)) (y - x) 0 := by
      simpa using ((hasDerivAt_id (0 : ℝ)).smul_const (y - x)).const_add x
    have h2 := (show HasFDerivAt F _ (x + (0 : ℝ) • (y - x)) by simpa using hg x).comp_hasDerivAt (0 : ℝ) h1
    refine h2.congr_deriv ?_
    simp [dot]
  have h1 := hl.tendsto_slope_zero_right
  have h2 : dot (g x) (y - x) ≤ F y - F x := by
    refine le_of_tendsto h1 ?_
    filter_upwards [Ioo_mem_nhdsGT (zero_lt_one' ℝ)] with t ht
    have h3 := hc.2 (Set.mem_univ x) (Set.mem_univ y) (by linarith [ht.2] : 0 ≤ 1 - t) ht.1.le (by ring)
    have e : (1 - t) • x + t • y = x + (0 + t) • (y - x) := by
      funext i
      simp only [Pi.add_apply, Pi.smul_apply, Pi.sub_apply, smul_eq_mul]; ring
    rw [e] at h3
    simp only [smul_eq_mul, zero_smul, add_zero] at h3 ⊢
    rw [inv_mul_le_iff₀ ht.1]
    linarith
  linarith

theorem dot_le {n : Nat} (x y : Vec n) : dot x y ≤ norm2 x * norm2 y := by
  unfold norm2 dot
  have := Real.sum_mul_le_sqrt_mul_sqrt Finset.univ x y
  simpa [sq] using this

theorem norm2_le {n : Nat} {x : Vec n} {c : ℝ} (hc : 0 ≤ c) (h : ∀ i, |x i| ≤ c) : norm2 x ≤ Real.sqrt n * c := by
  unfold norm2 dot
  rw [← Real.sqrt_sq hc, ← Real.sqrt_mul (Nat.cast_nonneg n)]
  refine Real.sqrt_le_sqrt ?_
  have : ∀ i ∈ Finset.univ, x i * x i ≤ c ^ 2 := fun i _ => by
    rw [← sq, ← sq_abs]
    exact pow_le_pow_left₀ (abs_nonneg _) (h i) 2
  refine (Finset.sum_le_sum this).trans ?_
  simp

/-- C209. For every convex objective whose partial derivatives change along their coordinate at most `L` times the displacement, affine constraints
whose columns have squared norm at most `S`, consistent bounds and a weight `w` that is not negative: if L-BFGS ends with success or reports
that the start was already a minimiser, then the penalised objective of the returned point exceeds that of any other point at most by
`(ε max(‖x‖, 1) + √n 2⁻¹⁸ (L + 2 w (1 + S)))` times the distance; in particular the user's objective is not larger than that of any feasible point
plus the same. -/
theorem C209_success_convex {n c : Nat} (P : Nlp n c) (hP : Consistent P) (A : Fin c → Fin n → ℝ) (b : Vec c) (hA : Affine P A b) (w : ℝ) (hw : 0 ≤ w)
    (ho : ConvexOn ℝ Set.univ P.obj) (g : Vec n → Vec n) (hg : HasGrad P.obj g) (L S : ℝ) (hL : CoordLipschitz L g)
    (hS : ∀ i, ∑ j, A j i ^ 2 ≤ S) (p : Params) (prog : Vec n → Vec n → ℝ → Nat → Int) (x0 : Vec n) (fx0 : ℝ) (i : Nat) (r : Result n)
    (h : Run p (evaluate (penalised P w)) prog x0 fx0 i r) (hr : r.ret = .success ∨ r.ret = .alreadyMinimized) (y : Vec n) :
    penalised P w r.x ≤ penalised P w y + (p.epsilon * max (norm2 r.x) 1 + Real.sqrt n * ((L + 2 * w * (1 + S)) / 2 ^ 18)) * norm2 (r.x - y) ∧
    (Feasible P y → P.obj r.x ≤ P.obj y + (p.epsilon * max (norm2 r.x) 1 + Real.sqrt n * ((L + 2 * w * (1 + S)) / 2 ^ 18)) * norm2 (r.x - y)) := by
  have hG := hasGrad_penalised hA w hg
  have hLip := penGrad_lip hP hA hw hL hS
  have hsmall := (C30_exit_codes p _ prog x0 fx0 i r h).1 hr
  set F := penalised P w with hF
  set G := penGrad P w A g
  set K := L + 2 * w * (1 + S)
  have ht := tangent_le (convex_penalised hA hw ho) hG r.x y
  have herr : ∀ i, |(G r.x - (evaluate F r.x).2) i| ≤ K / 2 ^ 18 := by
    intro i
    rw [Pi.sub_apply, abs_sub_comm]
    exact (C208_difference_accuracy F G hG r.x i).1 K (hLip r.x i)
  have hK : 0 ≤ norm2 (G r.x - (evaluate F r.x).2) → norm2 (G r.x - (evaluate F r.x).2) ≤ Real.sqrt n * (K / 2 ^ 18) := by
    intro _
    rcases Nat.eq_zero_or_pos n with rfl | hn
    · simp [norm2, dot]
    · exact norm2_le ((abs_nonneg _).trans (herr ⟨0, hn⟩)) herr
  have hn2 : ∀ v : Vec n, 0 ≤ norm2 v := fun v => Real.sqrt_nonneg _
  have e1 : dot (G r.x) (y - r.x) = -(dot (evaluate F r.x).2 (r.x - y) + dot (G r.x - (evaluate F r.x).2) (r.x - y)) := by
    rw [← add_dot, add_sub_cancel, ← dot_neg, neg_sub]
  have d1 := dot_le (evaluate F r.x).2 (r.x - y)
  have d2 := dot_le (G r.x - (evaluate F r.x).2) (r.x - y)
  have d3 := mul_le_mul_of_nonneg_right hsmall (hn2 (r.x - y))
  have d4 := mul_le_mul_of_nonneg_right (hK (hn2 _)) (hn2 (r.x - y))
  have main : F r.x ≤ F y + (p.epsilon * max (norm2 r.x) 1 + Real.sqrt n * (K / 2 ^ 18)) * norm2 (r.x - y) := by
    rw [e1] at ht
    rw [add_mul]
    linarith
  refine ⟨main, fun hy => ?_⟩
  have q1 := (C33_penalty P w y).1 hy
  have q2 := (C33_penalty P w r.x).2.1 hw
  rw [← hF] at q1 q2
  rw [← q1]
  exact q2.trans main

/-- Non-vacuity of C209: `x²` on `[-10, 10]` with the constraint `-1 ≤ x ≤ 1`; from zero L-BFGS reports that the start is a minimiser. -/
theorem C209_example : ∃ (P : Nlp 1 1) (A : Fin 1 → Fin 1 → ℝ) (b : Vec 1) (g : Vec 1 → Vec 1) (r : Result 1), Consistent P ∧ Affine P A b ∧
    ConvexOn ℝ Set.univ P.obj ∧ HasGrad P.obj g ∧ CoordLipschitz 2 g ∧ (∀ i, ∑ j, A j i ^ 2 ≤ 1) ∧
    Run defparam (evaluate (penalised P 3)) (fun _ _ _ _ => 0) (fun _ => 0) 7 0 r ∧ r.ret = .alreadyMinimized := by
  have hconv : ConvexOn ℝ Set.univ fun x : Vec 1 => x 0 ^ 2 := by
    refine ⟨convex_univ, fun x _ y _ s t hs ht hst => ?_⟩
    obtain rfl : t = 1 - s := by linarith
    simp only [Pi.add_apply, Pi.smul_apply, smul_eq_mul]
    nlinarith [mul_nonneg (mul_nonneg hs ht) (sq_nonneg (x 0 - y 0))]
  refine ⟨⟨fun _ => -10, fun _ => 10, fun _ => -1, fun _ => 1, fun x => x, fun x => x 0 ^ 2⟩, fun _ _ => 1, fun _ => 0, fun x _ => 2 * x 0,
    ⟨.alreadyMinimized, fun _ => 0, _⟩, ⟨fun _ => by norm_num, fun _ => by norm_num⟩, ?_, hconv, ?_, ?_, fun _ => by norm_num, .already ?_ ?_, rfl⟩
  · intro x j
    have : j = 0 := Subsingleton.elim _ _
    subst this; simp
  · intro x
    have h1 : HasFDerivAt (fun x : Vec 1 => x 0) (ContinuousLinearMap.proj 0 : Vec 1 →L[ℝ] ℝ) x := hasFDerivAt_apply 0 x
    refine (h1.pow 2).congr_fderiv ?_
    ext v
    simp
  · intro x i t
    have : i = 0 := Subsingleton.elim _ _
    subst this
    simp only [Function.update_self]
    rw [show 2 * (x 0 + t) - 2 * x 0 = 2 * t by ring, abs_mul]; norm_num
  · simpa using (validate_iff 1 defparam).mpr ⟨by norm_num, C32_example.1.2⟩
  · have : (evaluate (penalised (⟨fun _ => -10, fun _ => 10, fun _ => -1, fun _ => 1, fun x => x, fun x => x 0 ^ 2⟩ : Nlp 1 1) 3) (fun _ => 0)).2 = 0 := by
      rw [evaluate_eq]
      funext i
      have hi : i = 0 := Subsingleton.elim _ _
      subst hi
      have hp0 := prt_pos
      have hp1 : prt < 1 := by unfold prt; norm_num
      have a1 : ¬ prt ≤ -10 := by linarith
      have a2 : ¬ 10 ≤ prt := by linarith
      have a3 : ¬ prt ≤ -1 := by linarith
      have a4 : ¬ 1 ≤ prt := by linarith
      have a5 : ¬ 10 ≤ -prt := by linarith
      have a6 : ¬ 1 ≤ -prt := by linarith
      simp [penalised, penalty1, a1, a2, a3, a4, a5, a6]
    rw [this]
    simp [norm2, dot, defparam]; try norm_num

end Lbfgs
end Verif
