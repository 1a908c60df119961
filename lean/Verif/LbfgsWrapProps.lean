import Verif.LbfgsProps
import Mathlib.Tactic.FieldSimp

/-! C32, C33: parameter validation and the penalised objective. -/
namespace Verif
namespace Lbfgs

/-! ### C32 -/

/-- The documented parameter ranges. -/
def Valid (n : Int) (p : Params) : Prop :=
  0 < n ∧ 0 ≤ p.epsilon ∧ 0 ≤ p.past ∧ 0 ≤ p.delta ∧ 0 ≤ p.minStep ∧ p.minStep ≤ p.maxStep ∧ 0 ≤ p.ftol ∧
  ((p.linesearch = 2 ∨ p.linesearch = 3) → p.ftol < p.wolfe ∧ p.wolfe < 1) ∧ 0 ≤ p.gtol ∧ 0 ≤ p.xtol ∧ 0 < p.maxLinesearch ∧
  (p.linesearch = 0 ∨ p.linesearch = 1 ∨ p.linesearch = 2 ∨ p.linesearch = 3)

theorem validate_iff (n : Int) (p : Params) : validate n p = none ↔ Valid n p := by
  refine ⟨validate_none, fun ⟨h1, h2, h3, h4, h5, h6, h7, h8, h9, h10, h11, h12⟩ => ?_⟩
  unfold validate
  rw [if_neg (by omega), if_neg (not_lt.mpr h2), if_neg (by omega), if_neg (not_lt.mpr h4), if_neg (not_lt.mpr h5),
    if_neg (not_lt.mpr h6), if_neg (not_lt.mpr h7), if_neg, if_neg (not_lt.mpr h9), if_neg (not_lt.mpr h10), if_neg (by omega),
    if_neg (not_not.mpr h12)]
  rintro ⟨a, b⟩
  obtain ⟨c, d⟩ := h8 a
  rcases b with b | b <;> linarith

/-- C32, partial: parameters outside the documented ranges give an error code, the point and the reported value are untouched, and
the outcome does not depend on the objective or progress callback; within the ranges, if moreover the memory length is positive, nothing undefined
happens. Missing: a non-positive memory length is accepted (`C32_violated`). -/
theorem C32_validation_partial {n : Nat} (p : Params) (x0 : Vec n) (fx0 : ℝ) :
    (¬ Valid n p → ∃ e, ∀ (ev : Eval n) (prog : Vec n → Vec n → ℝ → Nat → Int) i r,
      Run p ev prog x0 fx0 i r ↔ (i = 0 ∧ r = ⟨.invalid e, x0, fx0⟩)) ∧
    (Valid n p → ∀ (ev : Eval n) (prog : Vec n → Vec n → ℝ → Nat → Int) i r, Run p ev prog x0 fx0 i r →
      (∀ e, r.ret ≠ .invalid e) ∧ (0 < p.m → r.ret ≠ .undefined)) := by
  constructor
  · intro hnv
    cases hv : validate n p with
    | none => exact absurd ((validate_iff n p).mp hv) hnv
    | some e =>
      refine ⟨e, fun ev prog i r => ⟨fun h => ?_, ?_⟩⟩
      · cases h with
        | invalid h => rw [hv] at h; injection h with h; subst h; exact ⟨rfl, rfl⟩
        | already h => rw [hv] at h; cases h
        | run h => rw [hv] at h; cases h
      · rintro ⟨rfl, rfl⟩; exact .invalid hv
  · intro hvalid ev prog i r h
    have hv := (validate_iff n p).mpr hvalid
    cases h with
    | invalid h => rw [hv] at h; cases h
    | already _ _ => simp
    | run _ _ hr =>
      obtain ⟨s, l, hh, hi, -⟩ := loop_last hr _ .start
      rcases iter_inr ev hi with ⟨e, he, rfl⟩ | ⟨c, hc, hx, hf, hcase⟩
      · simp
      · rcases hcase with ⟨h1, -⟩ | ⟨h1, -⟩ | ⟨h1, -⟩ | ⟨h1, -⟩ | ⟨h1, h2⟩ <;> rw [h1] <;> simp
        exact h2

/-- C32 is false of the code: a memory length of zero passes validation and leads to undefined behaviour (division by zero and
access to an empty array), here on `f(x) = x^2` from 2. -/
theorem C32_violated :
    let ev : Eval 1 := fun x => (x 0 ^ 2, fun _ => 2 * x 0)
    let p : Params := { defparam with m := 0, linesearch := 1 }
    Valid 1 p ∧ ∃ r, Run p ev (fun _ _ _ _ => 0) (fun _ => 2) 0 1 r ∧ r.ret = .undefined := by
  intro ev p
  have hval : Valid 1 p := by simp [Valid, p, defparam]; norm_num
  refine ⟨hval, ⟨.undefined, fun _ => 1, 1⟩, ?_, rfl⟩
  have nrm : ∀ c : ℝ, norm2 (fun _ : Fin 1 => c) = |c| := by
    intro c
    have : dot (fun _ : Fin 1 => c) (fun _ => c) = c ^ 2 := by simp [dot]; ring
    unfold norm2
    rw [this, Real.sqrt_sq_eq_abs]
  have hg : (ev fun _ => 2).2 = fun _ => 4 := by simp [ev]; norm_num
  have hng : -(ev fun _ => 2).2 = fun _ => -4 := by rw [hg]; rfl
  refine .run ((validate_iff _ _).mpr hval) ?_ (.done ?_)
  · rw [hg, nrm, nrm]; simp [p, defparam]; norm_num
  · have hst : 1 / norm2 (-(ev fun _ => 2).2) = 1/4 := by rw [hng, nrm]; norm_num
    have hx : (fun _ : Fin 1 => (2:ℝ)) + (1/4 : ℝ) • (fun _ => -4) = fun _ => 1 := by
      funext i; simp; norm_num
    have hls : lineSearch p ev (fun _ => 2) (ev fun _ => 2).1 (ev fun _ => 2).2 (-(ev fun _ => 2).2) (1/4) =
        ⟨fun _ => 1, 1, fun _ => 2, 1/4, 1, .ok 1⟩ := by
      unfold lineSearch
      rw [if_neg (by simp [p])]
      unfold backtracking
      have hd : dot (ev fun _ => 2).2 (-(ev fun _ => 2).2) = -16 := by simp [dot, ev]; norm_num
      rw [if_neg (by norm_num), hd, if_neg (by norm_num), btLoop]
      have hdec : btDecide p (ev fun _ => 2).1 (-16) (1/4) (ev fun _ => 1).1 (dot (ev fun _ => 1).2 (fun _ => -4)) = none := by
        unfold btDecide
        rw [if_neg, if_pos rfl]
        simp [ev, p, defparam]; norm_num
      simp only [hng, hx, hdec]
      simp [ev]
    have hstart : start p ev (fun _ => 2) = { start p ev (fun _ => 2) with step := 1/4 } := by
      unfold start; rw [hst]
    have hls' : lineSearch p ev (start p ev fun _ => 2).x (start p ev fun _ => 2).fx (start p ev fun _ => 2).g (start p ev fun _ => 2).d
        (start p ev fun _ => 2).step = ⟨fun _ => 1, 1, fun _ => 2, 1/4, 1, .ok 1⟩ := by
      rw [hstart]; exact hls
    unfold iter
    simp only
    have c1 : ¬ norm2 (fun _ : Fin 1 => (2 : ℝ)) / max (norm2 (fun _ : Fin 1 => (1 : ℝ))) 1 ≤ p.epsilon := by
      rw [nrm, nrm]; simp [p, defparam]; norm_num
    have c2 : ¬ (0 < p.past) := by simp [p, defparam]
    have c3 : ¬ (p.maxIterations ≠ 0) := by simp [p, defparam]
    have c4 : p.m ≤ 0 := by simp [p]
    rw [hls']
    simp [c1, c2, c4]
    simp [p, defparam]

/-- Non-vacuity of C32: both kinds of parameters exist. -/
theorem C32_example : Valid 3 defparam ∧ ¬ Valid 3 { defparam with wolfe := 1, linesearch := 2 } := by
  constructor
  · simp [Valid, defparam]; norm_num
  · simp [Valid, defparam]

/-! ### C33 -/

/-- Points that satisfy the bounds and the constraints. -/
def Feasible {n c : Nat} (P : Nlp n c) (x : Vec n) : Prop :=
  (∀ i, P.xl i ≤ x i ∧ x i ≤ P.xu i) ∧ ∀ i, P.gl i ≤ P.cons x i ∧ P.cons x i ≤ P.gu i

theorem penalty1_nonneg (v l u : ℝ) : 0 ≤ penalty1 v l u := by
  unfold penalty1
  split_ifs <;> positivity

theorem penalty1_zero_iff (v l u : ℝ) : penalty1 v l u = 0 ↔ l ≤ v ∧ v ≤ u := by
  unfold penalty1
  constructor
  · intro h
    split_ifs at h with h1 h2 h2
    · have e1 : (v - l) ^ 2 = 0 := by nlinarith [sq_nonneg (v - l), sq_nonneg (v - u)]
      have e2 : (v - u) ^ 2 = 0 := by nlinarith [sq_nonneg (v - l), sq_nonneg (v - u)]
      have e3 := pow_eq_zero_iff (two_ne_zero) |>.mp e1
      have e4 := pow_eq_zero_iff (two_ne_zero) |>.mp e2
      constructor <;> linarith
    · have e1 : (v - l) ^ 2 = 0 := by linarith
      have e3 := pow_eq_zero_iff (two_ne_zero) |>.mp e1
      constructor <;> linarith
    · have e1 : (v - u) ^ 2 = 0 := by linarith
      have e3 := pow_eq_zero_iff (two_ne_zero) |>.mp e1
      constructor <;> linarith
    · constructor <;> linarith
  · rintro ⟨h1, h2⟩
    split_ifs with h3 h4 h4
    · have : v = l := le_antisymm h3 h1
      have : v = u := le_antisymm h2 h4
      simp_all
    · have : v = l := le_antisymm h3 h1
      simp [this]
    · have : v = u := le_antisymm h2 h4
      simp [this]
    · simp

/-- C33, penalty: on feasible points the minimised function is the user's objective; for a non-negative weight it is nowhere below it, and
for a positive weight it exceeds it exactly at the infeasible points. -/
theorem C33_penalty {n c : Nat} (P : Nlp n c) (w : ℝ) (x : Vec n) :
    (Feasible P x → penalised P w x = P.obj x) ∧ (0 ≤ w → P.obj x ≤ penalised P w x) ∧
    (0 < w → (penalised P w x = P.obj x ↔ Feasible P x)) := by
  have hs1 : 0 ≤ ∑ i, penalty1 (x i) (P.xl i) (P.xu i) := Finset.sum_nonneg fun i _ => penalty1_nonneg _ _ _
  have hs2 : 0 ≤ ∑ i, penalty1 (P.cons x i) (P.gl i) (P.gu i) := Finset.sum_nonneg fun i _ => penalty1_nonneg _ _ _
  have hf : Feasible P x ↔ (∑ i, penalty1 (x i) (P.xl i) (P.xu i)) + ∑ i, penalty1 (P.cons x i) (P.gl i) (P.gu i) = 0 := by
    constructor
    · rintro ⟨h1, h2⟩
      rw [Finset.sum_eq_zero fun i _ => (penalty1_zero_iff _ _ _).mpr (h1 i), Finset.sum_eq_zero fun i _ => (penalty1_zero_iff _ _ _).mpr (h2 i), add_zero]
    · intro h
      have e1 : ∑ i, penalty1 (x i) (P.xl i) (P.xu i) = 0 := by linarith
      have e2 : ∑ i, penalty1 (P.cons x i) (P.gl i) (P.gu i) = 0 := by linarith
      rw [Finset.sum_eq_zero_iff_of_nonneg fun i _ => penalty1_nonneg _ _ _] at e1 e2
      exact ⟨fun i => (penalty1_zero_iff _ _ _).mp (e1 i (Finset.mem_univ _)), fun i => (penalty1_zero_iff _ _ _).mp (e2 i (Finset.mem_univ _))⟩
  unfold penalised
  refine ⟨fun h => by rw [hf.mp h]; ring, fun hw => ?_, fun hw => ?_⟩
  · have := mul_nonneg hw (add_nonneg hs1 hs2)
    linarith
  · rw [hf]
    constructor
    · intro h
      have : w * ((∑ i, penalty1 (x i) (P.xl i) (P.xu i)) + ∑ i, penalty1 (P.cons x i) (P.gl i) (P.gu i)) = 0 := by linarith
      exact (mul_eq_zero.mp this).resolve_left hw.ne'
    · intro h; rw [h]; ring

theorem diffStep_eq {n : Nat} (F : Vec n → ℝ) (x : Vec n) (i : Fin n) :
    diffStep F x i = (x, (F (Function.update x i (x i + prt)) - F (Function.update x i (x i - prt))) / (2 * prt)) := by
  unfold diffStep
  simp only [Function.update_self, Function.update_idem]
  have e1 : x i + prt - 2 * prt = x i - prt := by ring
  have e2 : x i - prt + prt = x i := by ring
  rw [e1, e2, Function.update_eq_self]

theorem evaluate_fold {n : Nat} (F : Vec n → ℝ) (x : Vec n) : ∀ (l : List (Fin n)) (g : Vec n),
    l.foldl (fun (a : Vec n × Vec n) i => ((diffStep F a.1 i).1, Function.update a.2 i (diffStep F a.1 i).2)) (x, g) =
      (x, fun i => if i ∈ l then (F (Function.update x i (x i + prt)) - F (Function.update x i (x i - prt))) / (2 * prt) else g i) := by
  intro l
  induction l with
  | nil => intro g; simp
  | cons j l ih =>
    intro g
    rw [List.foldl_cons]
    simp only [diffStep_eq] at ih ⊢
    rw [ih]
    congr 1
    funext i
    by_cases hi : i ∈ l
    · simp [hi]
    · by_cases hij : i = j
      · subst hij; simp [hi]
      · simp [hi, hij]

/-- Work vector restored, gradient by central differences, for every function. -/
theorem evaluate_eq {n : Nat} (F : Vec n → ℝ) (x : Vec n) :
    evaluate F x = (F x, fun i => (F (Function.update x i (x i + prt)) - F (Function.update x i (x i - prt))) / (2 * prt)) := by
  unfold evaluate
  rw [evaluate_fold]
  simp

/-- The value of a quadratic function with matrix `Q` (not necessarily symmetric), linear part `b` and constant `c`. -/
def quad {n : Nat} (Q : Fin n → Fin n → ℝ) (b : Vec n) (c : ℝ) (x : Vec n) : ℝ :=
  (∑ i, ∑ j, Q i j * x i * x j) + (∑ i, b i * x i) + c

theorem quad_update {n : Nat} (Q : Fin n → Fin n → ℝ) (b : Vec n) (c : ℝ) (x : Vec n) (k : Fin n) (h : ℝ) :
    quad Q b c (Function.update x k (x k + h)) =
      quad Q b c x + h * ((∑ j, (Q k j + Q j k) * x j) + b k) + h ^ 2 * Q k k := by
  obtain ⟨δ, hu, hδ⟩ : ∃ δ : Vec n, (Function.update x k (x k + h) = fun i => x i + h * δ i) ∧ ∀ f : Vec n, ∑ i, f i * δ i = f k := by
    refine ⟨fun i => if i = k then 1 else 0, ?_, fun f => by simp⟩
    funext i
    by_cases hi : i = k
    · subst hi; simp
    · simp [hi]
  rw [hu]
  unfold quad
  have e1 : ∀ i j, Q i j * (x i + h * δ i) * (x j + h * δ j) =
      Q i j * x i * x j + h * (Q i j * x i * δ j) + h * (Q i j * x j) * δ i + h ^ 2 * (Q i j * δ j * δ i) := by intro i j; ring
  have e0 : ∀ i, ∑ j, Q i j * (x i + h * δ i) * (x j + h * δ j) =
      (∑ j, Q i j * x i * x j) + h * (Q i k * x i) + (h * ∑ j, Q i j * x j) * δ i + (h ^ 2 * Q i k) * δ i := by
    intro i
    simp only [e1, Finset.sum_add_distrib]
    rw [← Finset.mul_sum, hδ (fun j => Q i j * x i), ← Finset.sum_mul, ← Finset.mul_sum, ← Finset.mul_sum, ← Finset.sum_mul, hδ (fun j => Q i j)]
    ring
  simp only [e0, Finset.sum_add_distrib]
  rw [hδ (fun i => h * ∑ j, Q i j * x j), hδ (fun i => h ^ 2 * Q i k), ← Finset.mul_sum]
  have e2 : ∑ i, b i * (x i + h * δ i) = (∑ i, b i * x i) + h * b k := by
    have : ∀ i, b i * (x i + h * δ i) = b i * x i + h * b i * δ i := by intro i; ring
    simp only [this, Finset.sum_add_distrib]
    rw [hδ (fun i => h * b i)]
  have e3 : ∑ j, (Q k j + Q j k) * x j = (∑ j, Q k j * x j) + ∑ j, Q j k * x j := by
    rw [← Finset.sum_add_distrib]
    exact Finset.sum_congr rfl fun j _ => by ring
  rw [e2, e3]
  ring

/-- C33, gradient: the callback handed to L-BFGS returns the function value at the unperturbed point for every function, and its gradient
is exact for every quadratic function. -/
theorem C33_gradient {n : Nat} (x : Vec n) :
    (∀ F : Vec n → ℝ, (evaluate F x).1 = F x) ∧
    (∀ (Q : Fin n → Fin n → ℝ) (b : Vec n) (c : ℝ), (evaluate (quad Q b c) x).2 = fun k => (∑ j, (Q k j + Q j k) * x j) + b k) := by
  refine ⟨fun F => by rw [evaluate_eq], fun Q b c => ?_⟩
  rw [evaluate_eq]
  funext k
  have hp : prt ≠ 0 := by unfold prt; positivity
  simp only [sub_eq_add_neg (x k) prt, quad_update]
  field_simp
  ring

/-- Non-vacuity of C33: a problem with a feasible and an infeasible point. -/
theorem C33_example : ∃ P : Nlp 1 1, Feasible P (fun _ => 1) ∧ ¬ Feasible P (fun _ => 3) :=
  ⟨⟨fun _ => 0, fun _ => 2, fun _ => 0, fun _ => 5, fun x => fun _ => 2 * x 0, fun x => x 0⟩,
    ⟨fun _ => by norm_num, fun _ => by norm_num⟩, fun h => by have := (h.1 0).2; norm_num at this⟩

end Lbfgs
end Verif
