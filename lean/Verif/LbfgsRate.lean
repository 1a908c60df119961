import Verif.LbfgsStop
import Verif.LbfgsConvexProps
import Mathlib.Tactic.LinearCombination
import Mathlib.Tactic.Linarith
import Mathlib.Tactic.Positivity

/-! C257: L-BFGS on smooth strongly convex objectives: linear rate, number of iterations, total correctness with backtracking. -/
namespace Verif
namespace Lbfgs

/-! ### specification -/

/-- The callback returns value and gradient of an objective that is `μ`-strongly convex and whose gradient is Lipschitz with constant `L`. -/
structure Smooth {n : Nat} (ev : Eval n) (μ L : ℝ) : Prop where
  pos : 0 < μ
  strong : ∀ x y, (ev x).1 + dot (ev x).2 (y - x) + μ / 2 * dot (y - x) (y - x) ≤ (ev y).1
  lip : ∀ x y, norm2 ((ev x).2 - (ev y).2) ≤ L * norm2 (x - y)

/-- Bound on `|H|` times the strong convexity, for a memory of `m` pairs. -/
noncomputable def spread (μ L : ℝ) (m : Nat) : ℝ := (m + 1) * (1 + L / μ) ^ (2 * m)

/-- Lower bound of the cosine between the search direction and the steepest descent direction. -/
noncomputable def cosBound (μ L : ℝ) (m : Nat) : ℝ := (μ / L) ^ 2 / ((m + 1) * spread μ L m)

/-- The margin left by the line search conditions. -/
noncomputable def margin (p : Params) : ℝ :=
  if p.linesearch = 0 then 1 - p.gtol else if p.linesearch = 1 then (1 - p.ftol) / 2 else 1 - p.wolfe

/-- Guaranteed decrease of an iteration, in units of the squared gradient norm. -/
noncomputable def gain (p : Params) (μ L : ℝ) : ℝ := p.ftol * margin p * cosBound μ L p.m.toNat ^ 2 / L

/-- The linear rate. -/
noncomputable def rate (p : Params) (μ L : ℝ) : ℝ := 1 - 2 * μ * gain p μ L

/-- Parameters with which the line searches enforce a decrease. -/
def Decreasing (p : Params) : Prop := 0 < p.m ∧ 0 < p.ftol ∧ p.ftol < 1 ∧ (p.linesearch = 0 → p.gtol < 1)

/-- The first iteration of the Armijo search, which starts from a normalised step, is not counted. -/
def lag (p : Params) : Nat := if p.linesearch = 1 then 1 else 0

/-- The Armijo search accepts every step up to this length. -/
noncomputable def stepBound (p : Params) (μ L : ℝ) : ℝ :=
  (1 - p.ftol) / L * min 1 (μ ^ 3 / (L ^ 2 * (p.m.toNat + 1) * spread μ L p.m.toNat ^ 2))

/-! ### norms -/

theorem norm2_nonneg {n : Nat} (x : Vec n) : 0 ≤ norm2 x := Real.sqrt_nonneg _

theorem norm2_sq {n : Nat} (x : Vec n) : norm2 x ^ 2 = dot x x := Real.sq_sqrt (dot_self_nonneg x)

theorem norm2_smul {n : Nat} (c : ℝ) (x : Vec n) : norm2 (c • x) = |c| * norm2 x := by
  unfold norm2
  rw [dot_smul, smul_dot, ← mul_assoc, Real.sqrt_mul (mul_self_nonneg c), Real.sqrt_mul_self_eq_abs]

theorem norm2_neg {n : Nat} (x : Vec n) : norm2 (-x) = norm2 x := by
  rw [← neg_one_smul ℝ x, norm2_smul]; simp

theorem norm2_add {n : Nat} (x y : Vec n) : norm2 (x + y) ≤ norm2 x + norm2 y := by
  refine Real.sqrt_le_iff.mpr ⟨add_nonneg (norm2_nonneg _) (norm2_nonneg _), ?_⟩
  have h1 := dot_le x y
  have h2 := norm2_sq x
  have h3 := norm2_sq y
  rw [add_dot, dot_add, dot_add, dot_comm y x]
  nlinarith

theorem norm2_sub {n : Nat} (x y : Vec n) : norm2 (x - y) ≤ norm2 x + norm2 y := by
  rw [sub_eq_add_neg, ← norm2_neg y]; exact norm2_add _ _

theorem abs_dot_le {n : Nat} (x y : Vec n) : |dot x y| ≤ norm2 x * norm2 y := by
  rw [abs_le]
  have := dot_le (-x) y
  rw [neg_dot, norm2_neg] at this
  exact ⟨by linarith, dot_le x y⟩

/-! ### the objective -/

namespace Smooth
variable {n : Nat} {ev : Eval n} {μ L : ℝ}

theorem mono (h : Smooth ev μ L) (x y : Vec n) : μ * dot (y - x) (y - x) ≤ dot ((ev y).2 - (ev x).2) (y - x) := by
  have h1 := h.strong x y
  have h2 := h.strong y x
  have e1 : dot (x - y) (x - y) = dot (y - x) (y - x) := by rw [← neg_sub y x, dot_neg, neg_dot, neg_neg]
  have e2 : dot (ev y).2 (x - y) = -dot (ev y).2 (y - x) := by rw [← neg_sub y x, dot_neg]
  rw [e1, e2] at h2
  rw [sub_dot (ev y).2 (ev x).2]
  linarith

theorem grad_sq (h : Smooth ev μ L) (x y : Vec n) :
    dot ((ev y).2 - (ev x).2) ((ev y).2 - (ev x).2) ≤ L ^ 2 * dot (y - x) (y - x) := by
  rw [← norm2_sq, ← norm2_sq, ← mul_pow]
  exact pow_le_pow_left₀ (norm2_nonneg _) (h.lip y x) 2

/-- The descent lemma (without the factor 1/2). -/
theorem descent (h : Smooth ev μ L) (x y : Vec n) : (ev y).1 ≤ (ev x).1 + dot (ev x).2 (y - x) + L * dot (y - x) (y - x) := by
  have h1 := h.strong y x
  have e2 : dot (ev y).2 (x - y) = -dot (ev y).2 (y - x) := by rw [← neg_sub y x, dot_neg]
  have h3 : dot ((ev y).2 - (ev x).2) (y - x) ≤ L * dot (y - x) (y - x) := by
    refine (dot_le _ _).trans ?_
    have := mul_le_mul_of_nonneg_right (h.lip y x) (norm2_nonneg (y - x))
    rw [← norm2_sq]
    linarith [this, sq (norm2 (y - x))]
  rw [sub_dot] at h3
  have h4 := mul_nonneg (half_pos h.pos).le (dot_self_nonneg (x - y))
  rw [e2] at h1
  linarith

/-- Values differ from any other by at most the squared gradient. -/
theorem lower (h : Smooth ev μ L) (x y : Vec n) : (ev x).1 - (ev y).1 ≤ norm2 (ev x).2 ^ 2 / (2 * μ) := by
  have h1 := h.strong x y
  have h2 := dot_self_nonneg ((ev x).2 + μ • (y - x))
  rw [add_dot, dot_add, dot_add, dot_smul, smul_dot, dot_smul, smul_dot, dot_comm (y - x) (ev x).2] at h2
  have hp := h.pos
  rw [le_div_iff₀ (by linarith), norm2_sq]
  nlinarith

theorem one_le (h : Smooth ev μ L) (hn : 0 < n) : μ ≤ L := by
  let x : Vec n := 0
  let y : Vec n := fun _ => 1
  have h1 := h.mono x y
  have h2 := h.lip y x
  have hp : 0 < dot (y - x) (y - x) := dot_self_pos (by
    intro e
    have := congrFun e ⟨0, hn⟩
    simp [x, y] at this)
  have h3 := dot_le ((ev y).2 - (ev x).2) (y - x)
  have h4 := mul_le_mul_of_nonneg_right h2 (norm2_nonneg (y - x))
  have h5 := norm2_sq (y - x)
  by_contra hc
  push Not at hc
  have h6 : L * norm2 (y - x) * norm2 (y - x) = L * dot (y - x) (y - x) := by rw [← h5]; ring
  have h7 := mul_lt_mul_of_pos_right hc hp
  linarith

/-- The squared gradient is at most `4 L` times what can still be gained. -/
theorem grad_le (h : Smooth ev μ L) (hL : 0 < L) (x : Vec n) : ∃ y, norm2 (ev x).2 ^ 2 ≤ 4 * L * ((ev x).1 - (ev y).1) := by
  refine ⟨x + (-(1 / (2 * L))) • (ev x).2, ?_⟩
  have h1 := h.descent x (x + (-(1 / (2 * L))) • (ev x).2)
  rw [add_sub_cancel_left, dot_smul, dot_smul, smul_dot, ← norm2_sq] at h1
  have e : L * (-(1 / (2 * L)) * (-(1 / (2 * L)) * norm2 (ev x).2 ^ 2)) = norm2 (ev x).2 ^ 2 / (4 * L) := by
    field_simp; ring
  have e2 : -(1 / (2 * L)) * norm2 (ev x).2 ^ 2 = - 2 * (norm2 (ev x).2 ^ 2 / (4 * L)) := by
    field_simp; ring
  rw [e, e2] at h1
  have : norm2 (ev x).2 ^ 2 / (4 * L) ≤ (ev x).1 - (ev (x + (-(1 / (2 * L))) • (ev x).2)).1 := by linarith
  rwa [div_le_iff₀ (by positivity), mul_comm] at this

end Smooth

/-! ### the operator -/

/-- A stored pair obtained from a smooth strongly convex objective. -/
structure Pair {n : Nat} (μ L : ℝ) (e : Entry n) : Prop where
  ys : e.ys = dot e.y e.s
  pos : 0 < dot e.s e.s
  low : μ * dot e.s e.s ≤ e.ys
  up : dot e.y e.y ≤ L ^ 2 * dot e.s e.s

namespace Pair
variable {n : Nat} {μ L : ℝ} {e : Entry n}

theorem ys_pos (h : Pair μ L e) (hμ : 0 < μ) : 0 < e.ys := (mul_pos hμ h.pos).trans_le h.low

theorem yy_le (h : Pair μ L e) (hμ : 0 < μ) : dot e.y e.y ≤ L ^ 2 / μ * e.ys := by
  have h1 := mul_le_mul_of_nonneg_left h.low (div_nonneg (sq_nonneg L) hμ.le)
  have e1 : L ^ 2 / μ * (μ * dot e.s e.s) = L ^ 2 * dot e.s e.s := by field_simp
  rw [e1] at h1
  exact h.up.trans h1

theorem ss_le (h : Pair μ L e) (hμ : 0 < μ) : norm2 e.s * norm2 e.s / e.ys ≤ 1 / μ := by
  rw [← sq, norm2_sq, div_le_div_iff₀ (h.ys_pos hμ) hμ]
  linarith [h.low]

theorem ny_le (h : Pair μ L e) (hL : 0 ≤ L) : norm2 e.y ≤ L * norm2 e.s := by
  rw [← abs_of_nonneg (norm2_nonneg e.y), ← abs_of_nonneg (mul_nonneg hL (norm2_nonneg e.s))]
  refine sq_le_sq.mp ?_
  rw [mul_pow, norm2_sq, norm2_sq]
  exact h.up

theorem sy_le (h : Pair μ L e) (hμ : 0 < μ) (hL : 0 ≤ L) : norm2 e.s * norm2 e.y / e.ys ≤ L / μ := by
  have h1 := h.ss_le hμ
  have h2 := mul_le_mul_of_nonneg_left (h.ny_le hL) (norm2_nonneg e.s)
  have hy := h.ys_pos hμ
  calc norm2 e.s * norm2 e.y / e.ys ≤ norm2 e.s * (L * norm2 e.s) / e.ys := by gcongr
    _ = L * (norm2 e.s * norm2 e.s / e.ys) := by ring
    _ ≤ L * (1 / μ) := by gcongr
    _ = L / μ := by ring

end Pair

theorem invHess_lower {n : Nat} {μ L γ : ℝ} (hμ : 0 < μ) (hL : 0 < L) (hγ : 0 < γ) (hγ2 : 1 / γ ≤ L ^ 2 / μ) :
    ∀ (es : List (Entry n)), (∀ e ∈ es, Pair μ L e) → ∀ q, dot q q ≤ L ^ 2 / μ * (es.length + 1) * dot q (invHess γ es q) := by
  intro es
  induction es with
  | nil =>
    intro _ q
    simp only [invHess, List.length_nil, Nat.cast_zero, zero_add, mul_one]
    rw [dot_smul, ← mul_assoc]
    have : 1 ≤ L ^ 2 / μ * γ := by rwa [div_le_iff₀ hγ] at hγ2
    nlinarith [dot_self_nonneg q]
  | cons e es ih =>
    intro hes q
    have he := hes e List.mem_cons_self
    have hy := he.ys_pos hμ
    have ih' := ih fun e' h' => hes e' (List.mem_cons_of_mem _ h')
    rw [dot_invHess_cons _ _ _ _ _ hy.ne']
    set a := dot e.s q / e.ys with ha
    set v := q - a • e.y with hv
    have hq : q = v + a • e.y := by rw [hv]; abel
    have h1 := ih' v
    clear_value v
    generalize dot v (invHess γ es v) = X at h1 ⊢
    have h2 := he.yy_le hμ
    have hC : 0 < L ^ 2 / μ := by positivity
    generalize L ^ 2 / μ = C at *
    have hK : 0 < C * (es.length + 1 : ℝ) := by positivity
    have hlen : ((e :: es).length : ℝ) = es.length + 1 := by simp
    rw [hlen]
    generalize (es.length : ℝ) + 1 = l at *
    have hl : 0 < l := by
      by_contra hc; push Not at hc; nlinarith
    have hqq : dot q q = dot v v + 2 * a * dot v e.y + a ^ 2 * dot e.y e.y := by
      rw [hq, add_dot, dot_add, dot_add, dot_smul, smul_dot, dot_smul, smul_dot, dot_comm e.y v]; ring
    have h3 := dot_self_nonneg (v - (l * a) • e.y)
    rw [sub_dot, dot_sub, dot_sub, dot_smul, smul_dot, dot_smul, smul_dot, dot_comm e.y v] at h3
    -- 2 l a (v.y) ≤ |v|² + l² a² |y|²
    have h4 : a ^ 2 * dot e.y e.y ≤ C * (a ^ 2 * e.ys) := by nlinarith [mul_le_mul_of_nonneg_left h2 (sq_nonneg a)]
    have h5 : 2 * a * dot v e.y ≤ C * X + l * (C * (a ^ 2 * e.ys)) := by
      have : l * (2 * a * dot v e.y) ≤ l * (C * X + l * (C * (a ^ 2 * e.ys))) := by nlinarith [mul_le_mul_of_nonneg_left h4 (mul_pos hl hl).le]
      exact le_of_mul_le_mul_left this hl
    rw [hqq]
    nlinarith

theorem invHess_upper {n : Nat} {μ L γ : ℝ} (hμ : 0 < μ) (hL : 0 < L) (hγ : 0 < γ) (hγ2 : γ ≤ 1 / μ) :
    ∀ (es : List (Entry n)), (∀ e ∈ es, Pair μ L e) → ∀ q, norm2 (invHess γ es q) ≤ spread μ L es.length / μ * norm2 q := by
  intro es
  induction es with
  | nil =>
    intro _ q
    simp only [invHess, List.length_nil, spread]
    rw [norm2_smul, abs_of_pos hγ]
    refine mul_le_mul_of_nonneg_right ?_ (norm2_nonneg q)
    simpa using hγ2
  | cons e es ih =>
    intro hes q
    have he := hes e List.mem_cons_self
    have hy := he.ys_pos hμ
    have ih' := ih fun e' h' => hes e' (List.mem_cons_of_mem _ h')
    have hsy := he.sy_le hμ hL.le
    have hss := he.ss_le hμ
    simp only [invHess]
    set a := dot e.s q / e.ys with ha
    set v := q - a • e.y with hv
    have h1 := ih' v
    set r := invHess γ es v with hr
    have hc : 1 ≤ 1 + L / μ := by have := div_pos hL hμ; linarith
    set c := 1 + L / μ with hcdef
    have nq := norm2_nonneg q
    have nr := norm2_nonneg r
    have ha' : |a| ≤ norm2 e.s * norm2 q / e.ys := by
      rw [ha, abs_div, abs_of_pos hy]; gcongr; exact abs_dot_le _ _
    have hvn : norm2 v ≤ c * norm2 q := by
      have := norm2_sub q (a • e.y)
      rw [norm2_smul] at this
      have h2 : |a| * norm2 e.y ≤ L / μ * norm2 q := by
        calc |a| * norm2 e.y ≤ norm2 e.s * norm2 q / e.ys * norm2 e.y := by gcongr; exact norm2_nonneg _
          _ = norm2 e.s * norm2 e.y / e.ys * norm2 q := by ring
          _ ≤ L / μ * norm2 q := by gcongr
      rw [hcdef]; linarith
    have has : |a| * norm2 e.s ≤ 1 / μ * norm2 q := by
      calc |a| * norm2 e.s ≤ norm2 e.s * norm2 q / e.ys * norm2 e.s := by gcongr; exact norm2_nonneg _
        _ = norm2 e.s * norm2 e.s / e.ys * norm2 q := by ring
        _ ≤ 1 / μ * norm2 q := by gcongr
    have hbs : |dot e.y r / e.ys| * norm2 e.s ≤ L / μ * norm2 r := by
      rw [abs_div, abs_of_pos hy]
      calc |dot e.y r| / e.ys * norm2 e.s ≤ norm2 e.y * norm2 r / e.ys * norm2 e.s := by
            gcongr
            · exact norm2_nonneg _
            · exact abs_dot_le _ _
        _ = norm2 e.s * norm2 e.y / e.ys * norm2 r := by ring
        _ ≤ L / μ * norm2 r := by gcongr
    have hsum : norm2 (r + (a - dot e.y r / e.ys) • e.s) ≤ c * norm2 r + 1 / μ * norm2 q := by
      have h2 := norm2_add r ((a - dot e.y r / e.ys) • e.s)
      rw [norm2_smul] at h2
      have h3 : |a - dot e.y r / e.ys| * norm2 e.s ≤ (|a| + |dot e.y r / e.ys|) * norm2 e.s := by
        gcongr
        · exact norm2_nonneg _
        · exact abs_sub _ _
      rw [hcdef]; linarith
    have hlen : ((e :: es).length) = es.length + 1 := by simp
    rw [hlen]
    have hsp : c * (spread μ L es.length / μ * (c * norm2 q)) + 1 / μ * norm2 q ≤ spread μ L (es.length + 1) / μ * norm2 q := by
      have e1 : c * (spread μ L es.length / μ * (c * norm2 q)) + 1 / μ * norm2 q = (c ^ 2 * spread μ L es.length + 1) / μ * norm2 q := by ring
      rw [e1]
      gcongr
      simp only [spread, ← hcdef]
      have e2 : c ^ (2 * (es.length + 1)) = c ^ 2 * c ^ (2 * es.length) := by rw [← pow_add]; congr 1; ring
      rw [e2]
      push_cast
      have : 1 ≤ c ^ 2 * c ^ (2 * es.length) := by
        rw [← pow_add]; exact one_le_pow₀ hc
      nlinarith
    refine hsum.trans (le_trans ?_ hsp)
    have h0 : 0 ≤ c := by linarith
    have hs0 : 0 ≤ spread μ L es.length / μ := by unfold spread; positivity
    gcongr
    exact h1.trans (by gcongr)

theorem recent_length {n : Nat} (m b : Nat) : ∀ (j : Nat) (lm : Nat → Entry n), (recent m b j lm).length = b := by
  induction b with
  | zero => intro j lm; rfl
  | succ b ih => intro j lm; simp [recent, ih]

theorem spread_pos {μ L : ℝ} (hμ : 0 < μ) (hL : 0 < L) (m : Nat) : 0 < spread μ L m := by unfold spread; positivity

theorem spread_mono {μ L : ℝ} (hμ : 0 < μ) (hL : 0 < L) {b m : Nat} (h : b ≤ m) : spread μ L b ≤ spread μ L m := by
  unfold spread
  have hc : 1 ≤ 1 + L / μ := by have := div_pos hL hμ; linarith
  have h1 : (b : ℝ) ≤ m := by exact_mod_cast h
  have h2 : (1 + L / μ) ^ (2 * b) ≤ (1 + L / μ) ^ (2 * m) := pow_le_pow_right₀ hc (by omega)
  have h0 : (0 : ℝ) ≤ (1 + L / μ) ^ (2 * b) := by positivity
  have h3 : (0 : ℝ) ≤ m := Nat.cast_nonneg m
  gcongr

theorem spread_one {μ L : ℝ} (hμ : 0 < μ) (hL : 0 < L) (m : Nat) : 1 ≤ spread μ L m := by
  have := spread_mono hμ hL (Nat.zero_le m)
  simpa [spread] using this

/-! ### line searches -/

theorem long_gain {n : Nat} {ev : Eval n} {L : ℝ} (hL : 0 < L) {x d : Vec n} {t ftol θ κ : ℝ}
    (hd : dot (ev x).2 d < 0) (hf : 0 < ftol) (hθ : 0 < θ) (hκ : 0 ≤ κ) (hcos : κ * norm2 (ev x).2 * norm2 d ≤ -dot (ev x).2 d)
    (ha : (ev (x + t • d)).1 ≤ (ev x).1 + ftol * t * dot (ev x).2 d) (h4 : θ * (-dot (ev x).2 d) ≤ L * t * norm2 d ^ 2) :
    (ev (x + t • d)).1 ≤ (ev x).1 - ftol * θ * κ ^ 2 / L * norm2 (ev x).2 ^ 2 := by
  set G := norm2 (ev x).2
  set D := norm2 d
  set a := -dot (ev x).2 d with ha'
  have hG : 0 ≤ G := norm2_nonneg _
  have hD : 0 ≤ D := norm2_nonneg _
  have hapos : 0 < a := by rw [ha']; linarith
  have hDpos : 0 < D := by
    rcases hD.lt_or_eq with h | h
    · exact h
    · rw [← h] at h4
      have := mul_pos hθ hapos
      nlinarith
  -- a² ≥ κ² G² D²
  have h5 : κ ^ 2 * G ^ 2 * D ^ 2 ≤ a ^ 2 := by
    have h0 : 0 ≤ κ * G * D := by positivity
    nlinarith [mul_self_le_mul_self h0 hcos]
  have h6 : θ * (κ ^ 2 * G ^ 2) * D ^ 2 ≤ L * t * a * D ^ 2 := by
    have := mul_le_mul_of_nonneg_left h5 hθ.le
    have h7 := mul_le_mul_of_nonneg_right h4 hapos.le
    nlinarith
  have h8 : θ * (κ ^ 2 * G ^ 2) ≤ L * t * a := le_of_mul_le_mul_right h6 (by positivity)
  have h9 : θ * (κ ^ 2 * G ^ 2) / L ≤ t * a := by rw [div_le_iff₀ hL]; linarith
  have h10 := mul_le_mul_of_nonneg_left h9 hf.le
  have e1 : ftol * θ * κ ^ 2 / L * G ^ 2 = ftol * (θ * (κ ^ 2 * G ^ 2) / L) := by ring
  rw [e1]
  have e2 : ftol * t * dot (ev x).2 d = -(ftol * (t * a)) := by rw [ha']; ring
  rw [e2] at ha
  linarith

/-- The curvature condition excludes short steps. -/
theorem wolfe_long {n : Nat} {ev : Eval n} {μ L : ℝ} (hS : Smooth ev μ L) {x d : Vec n} {t w : ℝ} (ht : 0 < t)
    (hc : w * dot (ev x).2 d ≤ dot (ev (x + t • d)).2 d) : (1 - w) * (-dot (ev x).2 d) ≤ L * t * norm2 d ^ 2 := by
  have h1 := hS.lip (x + t • d) x
  rw [add_sub_cancel_left, norm2_smul, abs_of_pos ht] at h1
  have h2 := dot_le ((ev (x + t • d)).2 - (ev x).2) d
  rw [sub_dot] at h2
  have h3 := mul_le_mul_of_nonneg_right h1 (norm2_nonneg d)
  nlinarith

/-- A step rejected by the Armijo test is long. -/
theorem reject_long {n : Nat} {ev : Eval n} {μ L : ℝ} (hS : Smooth ev μ L) {x d : Vec n} {t ftol : ℝ} (ht : 0 < t)
    (h : (ev x).1 + t * (ftol * dot (ev x).2 d) < (ev (x + t • d)).1) : (1 - ftol) * (-dot (ev x).2 d) < L * t * norm2 d ^ 2 := by
  have h1 := hS.descent x (x + t • d)
  rw [add_sub_cancel_left, dot_smul, dot_smul, smul_dot, ← norm2_sq] at h1
  have h2 : t * ((1 - ftol) * (-dot (ev x).2 d)) < t * (L * t * norm2 d ^ 2) := by nlinarith
  exact lt_of_mul_lt_mul_left h2 ht.le

/-- The Armijo search accepts the first step or one whose double it rejected. -/
theorem bt_halving {n : Nat} {p : Params} (h1 : p.linesearch = 1) (ev : Eval n) (xp d : Vec n) (finit dginit stp0 : ℝ) :
    ∀ (k count : Nat) (stp : ℝ), (p.maxLinesearch - count).toNat = k →
      (stp = stp0 ∨ finit + 2 * stp * (p.ftol * dginit) < (ev (xp + (2 * stp) • d)).1) →
      ∀ c, (btLoop p ev xp d finit dginit count stp).ret = .ok c →
      ((btLoop p ev xp d finit dginit count stp).stp = stp0 ∨
        finit + 2 * (btLoop p ev xp d finit dginit count stp).stp * (p.ftol * dginit) <
          (ev (xp + (2 * (btLoop p ev xp d finit dginit count stp).stp) • d)).1) := by
  intro k
  induction k with
  | zero =>
    intro count stp hk hs c
    rw [btLoop]
    cases hdec : btDecide p finit dginit stp (ev (xp + stp • d)).1 (dot (ev (xp + stp • d)).2 d) with
    | none => intro _; exact hs
    | some w =>
      simp only
      split
      · intro h; cases h
      split
      · intro h; cases h
      split
      · intro h; cases h
      next h => omega
  | succ k ih =>
    intro count stp hk hs c
    rw [btLoop]
    cases hdec : btDecide p finit dginit stp (ev (xp + stp • d)).1 (dot (ev (xp + stp • d)).2 d) with
    | none => intro _; exact hs
    | some w =>
      simp only
      split
      · intro h; cases h
      split
      · intro h; cases h
      split
      · intro h; cases h
      next h =>
      have hw : w = 0.5 ∧ finit + stp * (p.ftol * dginit) < (ev (xp + stp • d)).1 := by
        unfold btDecide at hdec
        split at hdec
        next ha => injection hdec with h; exact ⟨h.symm, ha⟩
        · first | (cases hdec; done) | (rw [if_pos h1] at hdec; cases hdec)
      obtain ⟨rfl, hw⟩ := hw
      refine ih (count + 1) (stp * 0.5) (by push_cast; omega) (.inr ?_) c
      rw [show 2 * (stp * 0.5) = stp by ring]
      exact hw

/-- The Armijo search succeeds if short steps are accepted and there are enough trials. -/
theorem bt_ok {n : Nat} {p : Params} (h1 : p.linesearch = 1) (ev : Eval n) (xp d : Vec n) (finit dginit stp0 T : ℝ)
    (hT : ∀ t, 0 < t → finit + t * (p.ftol * dginit) < (ev (xp + t • d)).1 → T < t) (hs0 : 0 < stp0) (hmin : p.minStep ≤ T)
    (hmax : stp0 ≤ p.maxStep) (hls : stp0 / 2 ^ (p.maxLinesearch.toNat - 1) ≤ T) :
    ∀ (k count : Nat), (p.maxLinesearch - count).toNat = k → (count : Int) + 1 ≤ p.maxLinesearch →
      ∃ c, (btLoop p ev xp d finit dginit count (stp0 / 2 ^ count)).ret = .ok c := by
  intro k
  induction k with
  | zero => intro count hk hc; omega
  | succ k ih =>
    intro count hk hc
    have hpos : 0 < stp0 / 2 ^ count := by positivity
    rw [btLoop]
    cases hdec : btDecide p finit dginit (stp0 / 2 ^ count) (ev (xp + (stp0 / 2 ^ count) • d)).1 (dot (ev (xp + (stp0 / 2 ^ count) • d)).2 d) with
    | none => exact ⟨_, rfl⟩
    | some w =>
      simp only
      have hw : w = 0.5 ∧ finit + (stp0 / 2 ^ count) * (p.ftol * dginit) < (ev (xp + (stp0 / 2 ^ count) • d)).1 := by
        unfold btDecide at hdec
        split at hdec
        next ha => injection hdec with h; exact ⟨h.symm, ha⟩
        · first | (cases hdec; done) | (rw [if_pos h1] at hdec; cases hdec)
      obtain ⟨rfl, hw⟩ := hw
      have hlt := hT _ hpos hw
      have hle : stp0 / 2 ^ count ≤ stp0 := div_le_self hs0.le (one_le_pow₀ (by norm_num))
      rw [if_neg (by linarith), if_neg (by linarith), if_neg]
      · obtain ⟨c, hc'⟩ := ih (count + 1) (by push_cast; omega) (by
          by_contra hcon
          have : count = p.maxLinesearch.toNat - 1 := by push_cast at hcon; omega
          rw [← this] at hls
          linarith)
        refine ⟨c, ?_⟩
        rw [← hc']
        congr 2
        rw [pow_succ]; ring
      · intro hcon
        have : count = p.maxLinesearch.toNat - 1 := by push_cast at hcon; omega
        rw [← this] at hls
        linarith

/-! ### the iteration -/

/-- Invariant of the main loop on smooth strongly convex objectives. -/
structure InvR {n : Nat} (p : Params) (ev : Eval n) (μ L : ℝ) (x0 : Vec n) (s : LState n) : Prop where
  e : s.e = (s.k - 1) % p.m.toNat
  pairs : ∀ i, i < p.m.toNat → i < s.k - 1 → Pair μ L (s.lm i)
  big : ¬ norm2 s.g / max (norm2 s.x) 1 ≤ p.epsilon
  first : s.k = 1 → s.x = x0 ∧ s.d = -s.g ∧ s.step = 1 / norm2 s.g
  step : 1 < s.k → s.step = 1
  low : 1 < s.k → dot s.g s.g ≤ L ^ 2 / μ * (p.m.toNat + 1) * -dot s.g s.d
  up : 1 < s.k → norm2 s.d ≤ spread μ L p.m.toNat / μ * norm2 s.g

theorem InvR.descent {n : Nat} {p : Params} {ev : Eval n} {μ L : ℝ} {x0 : Vec n} {s : LState n} (h : InvR p ev μ L x0 s) (hk : 0 < s.k)
    (heps : 0 ≤ p.epsilon) (hμ : 0 < μ) (hL : 0 < L) : dot s.g s.d < 0 ∧ 0 < s.step := by
  have hg := dot_self_pos (ne_zero_of_not_small heps h.big)
  rcases Nat.lt_or_ge 1 s.k with h1 | h1
  · refine ⟨?_, by rw [h.step h1]; exact one_pos⟩
    have := h.low h1
    by_contra hc
    push Not at hc
    have hC : 0 ≤ L ^ 2 / μ * (p.m.toNat + 1 : ℝ) := by positivity
    nlinarith
  · obtain ⟨-, h2, h3⟩ := h.first (by omega)
    rw [h2, h3, dot_neg]
    exact ⟨by linarith, one_div_pos.mpr (Real.sqrt_pos.mpr hg)⟩

theorem ls_pos {n : Nat} {p : Params} (hv : validate n p = none) (hp : Decreasing p) (ev : Eval n) (x d : Vec n) (stp : ℝ) {c : Nat}
    (hd : dot (ev x).2 d < 0) (hok : (lineSearch p ev x (ev x).1 (ev x).2 d stp).ret = .ok c) :
    0 < (lineSearch p ev x (ev x).1 (ev x).2 d stp).stp := by
  by_cases h0 : p.linesearch = 0
  · exact (lineSearch_curv hv (.inl ⟨h0, hp.2.2.2 h0⟩) ev x d stp hd hok).1
  · exact (lineSearch_ok hv ev x d stp hok).2.2.1 h0

theorem invR_hist {n : Nat} {p : Params} (hv : validate n p = none) (hp : Decreasing p) {ev : Eval n} {μ L : ℝ} (hS : Smooth ev μ L) (hL : 0 < L)
    {prog : Vec n → Vec n → ℝ → Nat → Int} {x0 : Vec n} (hg : ¬ norm2 (ev x0).2 / max (norm2 x0) 1 ≤ p.epsilon) {s : LState n} {l : List ℝ}
    (h : Hist p ev prog x0 s l) : InvR p ev μ L x0 s := by
  have heps := (validate_none hv).2.1
  have hμ := hS.pos
  induction h with
  | start =>
    refine ⟨by simp [start], fun i _ hi => by simp [start] at hi, hg, fun _ => ⟨rfl, rfl, ?_⟩, fun h => by simp [start] at h,
      fun h => by simp [start] at h, fun h => by simp [start] at h⟩
    simp only [start]
    rw [norm2_neg]
  | @step s s' l h hs ih =>
    have hI := inv_hist hv h
    have hk := hI.kpos
    obtain ⟨c, h1, h2, h3, h4, h5, h6, h7, -, hm, -, h10, h11, h12⟩ := iter_inl ev hs
    obtain ⟨a1, a2⟩ := eval_split hI.eval
    rw [a1, a2] at h1 h2 h3 h4
    obtain ⟨⟨r1, r2⟩, -⟩ := lineSearch_ok hv ev s.x s.d s.step h1
    have hdesc := (ih.descent hk heps hμ hL).1
    have hdne : s.d ≠ 0 := by rintro h0; rw [h0, dot_zero] at hdesc; exact lt_irrefl _ hdesc
    rw [a2] at hdesc
    have c1 := ls_pos hv hp ev s.x s.d s.step hdesc h1
    have hsx : s'.x - s.x = (lineSearch p ev s.x (ev s.x).1 (ev s.x).2 s.d s.step).stp • s.d := by
      rw [h2, r1]; abel
    have hgx : s'.g = (ev s'.x).2 := by rw [h4, h2, ← r2]
    have hss : 0 < dot (s'.x - s.x) (s'.x - s.x) := by
      rw [hsx]; exact dot_self_pos (smul_ne_zero c1.ne' hdne)
    have hpair : ∀ al, Pair μ L (⟨al, s'.x - s.x, s'.g - s.g, dot (s'.g - s.g) (s'.x - s.x)⟩ : Entry n) := fun al =>
      ⟨rfl, hss, by rw [hgx, a2]; exact hS.mono s.x s'.x, by rw [hgx, a2]; exact hS.grad_sq s.x s'.x⟩
    have hp0 := hpair 0
    have hys : 0 < dot (s'.g - s.g) (s'.x - s.x) := hp0.ys_pos hμ
    have hyne : s'.g - s.g ≠ 0 := by
      intro h0; rw [h0, zero_dot] at hys; exact lt_irrefl _ hys
    have hyy := dot_self_pos hyne
    have hgam : 0 < dot (s'.g - s.g) (s'.x - s.x) / dot (s'.g - s.g) (s'.g - s.g) := div_pos hys hyy
    have hgam1 : 1 / (dot (s'.g - s.g) (s'.x - s.x) / dot (s'.g - s.g) (s'.g - s.g)) ≤ L ^ 2 / μ := by
      rw [one_div_div, div_le_iff₀ hys]
      exact hp0.yy_le hμ
    have hgam2 : dot (s'.g - s.g) (s'.x - s.x) / dot (s'.g - s.g) (s'.g - s.g) ≤ 1 / μ := by
      rw [div_le_div_iff₀ hyy hμ, one_mul]
      -- ys μ ≤ yy : ys² ≤ yy ss ≤ yy ys / μ
      have b1 := dot_le (s'.g - s.g) (s'.x - s.x)
      have b2 := norm2_sq (s'.g - s.g)
      have b3 := norm2_sq (s'.x - s.x)
      have b4 := hp0.low
      simp only at b4
      have b5 : dot (s'.g - s.g) (s'.x - s.x) ^ 2 ≤ dot (s'.g - s.g) (s'.g - s.g) * dot (s'.x - s.x) (s'.x - s.x) := by
        rw [← b2, ← b3, ← mul_pow]
        exact pow_le_pow_left₀ hys.le b1 2
      have b6 : dot (s'.g - s.g) (s'.x - s.x) * (dot (s'.g - s.g) (s'.x - s.x) * μ) ≤
          dot (s'.g - s.g) (s'.x - s.x) * dot (s'.g - s.g) (s'.g - s.g) := by nlinarith
      exact le_of_mul_le_mul_left b6 hys
    have hm' : 0 < p.m.toNat := by omega
    have he' : s'.e < p.m.toNat := by rw [h10]; exact Nat.mod_lt _ hm'
    have hse := ih.e
    have hek : s'.e = s.k % p.m.toNat := by
      rw [h10, hse, Nat.mod_add_mod]; congr 1; omega
    have hpos : ∀ i, i < p.m.toNat → i < s.k →
        Pair μ L ((Function.update s.lm s.e { alpha := (s.lm s.e).alpha, s := s'.x - s.x, y := s'.g - s.g, ys := dot (s'.g - s.g) (s'.x - s.x) } : Nat → Entry n) i) := by
      intro i hi hik
      by_cases hie : i = s.e
      · subst hie; simpa using hpair _
      · rw [Function.update_of_ne hie]
        refine ih.pairs i hi ?_
        rcases Nat.lt_or_ge i (s.k - 1) with h | h
        · exact h
        · exfalso
          have : i = s.k - 1 := by omega
          subst this
          rw [hse, Nat.mod_eq_of_lt hi] at hie
          exact hie rfl
    generalize hlm : (Function.update s.lm s.e { alpha := (s.lm s.e).alpha, s := s'.x - s.x, y := s'.g - s.g, ys := dot (s'.g - s.g) (s'.x - s.x) } : Nat → Entry n) = lm at h11 h12 hpos
    have hb : (if p.m.toNat ≤ s.k then p.m.toNat else s.k) ≤ p.m.toNat := by split <;> omega
    have hrec : ∀ x ∈ recent p.m.toNat (if p.m.toNat ≤ s.k then p.m.toNat else s.k) s'.e lm, Pair μ L x := by
      intro x hx
      obtain ⟨i, i1, i2, rfl⟩ := mem_recent hx he'
      apply hpos _ (Nat.mod_lt _ hm')
      by_cases hmk : p.m.toNat ≤ s.k
      · exact lt_of_lt_of_le (Nat.mod_lt _ hm') hmk
      · rw [if_neg hmk] at i2 ⊢
        have hsk : s'.e = s.k := by rw [hek]; exact Nat.mod_eq_of_lt (by omega)
        rw [hsk]
        have e1 : s.k + s.k * p.m.toNat - i = (s.k - i) + s.k * p.m.toNat := by omega
        rw [e1, Nat.add_mul_mod_self_right, Nat.mod_eq_of_lt (by omega)]
        omega
    have hd' : s'.d = -invHess (dot (s'.g - s.g) (s'.x - s.x) / dot (s'.g - s.g) (s'.g - s.g))
        (recent p.m.toNat (if p.m.toNat ≤ s.k then p.m.toNat else s.k) s'.e lm) s'.g := by
      rw [h11, direction_eq _ _ _ _ _ _ hb he', ← neg_one_smul ℝ s'.g, invHess_smul, neg_one_smul]
    have hlow := invHess_lower hμ hL hgam hgam1 _ hrec s'.g
    have hup := invHess_upper hμ hL hgam hgam2 _ hrec s'.g
    rw [recent_length] at hlow hup
    generalize (if p.m.toNat ≤ s.k then p.m.toNat else s.k) = b at *
    refine ⟨by rw [hek, h5]; rfl, fun i hi hik => ?_, h7, fun h => by omega, fun _ => h6, fun _ => ?_, fun _ => ?_⟩
    · rw [h12]
      unfold direction
      simp only
      obtain ⟨f1, f2, f3⟩ := (loop1_frame p.m.toNat hm' b s'.e lm (-s'.g) he').2.2.2 i
      have := hpos i hi (by omega)
      exact ⟨by rw [f1, f2, f3]; exact this.ys, by rw [f1]; exact this.pos, by rw [f1, f3]; exact this.low, by rw [f1, f2]; exact this.up⟩
    · rw [hd', dot_neg, neg_neg]
      refine hlow.trans ?_
      have hbm : (b : ℝ) ≤ p.m.toNat := by exact_mod_cast hb
      have hnn : 0 ≤ dot s'.g (invHess (dot (s'.g - s.g) (s'.x - s.x) / dot (s'.g - s.g) (s'.g - s.g)) (recent p.m.toNat b s'.e lm) s'.g) := by
        by_contra hc
        push Not at hc
        have := dot_self_nonneg s'.g
        have hC : 0 < L ^ 2 / μ * (b + 1 : ℝ) := by positivity
        nlinarith
      gcongr
    · rw [hd', norm2_neg]
      refine hup.trans ?_
      have := spread_mono hμ hL hb
      have := norm2_nonneg s'.g
      gcongr

theorem cos_pos {μ L : ℝ} (hμ : 0 < μ) (hL : 0 < L) (m : Nat) : 0 < cosBound μ L m := by
  have := spread_pos hμ hL m
  unfold cosBound; positivity

theorem cos_le {μ L : ℝ} (hμ : 0 < μ) (hL : μ ≤ L) (m : Nat) : cosBound μ L m ≤ (μ / L) ^ 2 / (m + 1) ∧ cosBound μ L m ≤ 1 := by
  have hL0 := hμ.trans_le hL
  have h1 := spread_one hμ hL0 m
  have h2 : (0 : ℝ) < m + 1 := by positivity
  have h3 : cosBound μ L m ≤ (μ / L) ^ 2 / (m + 1) := by
    unfold cosBound
    apply div_le_div_of_nonneg_left (by positivity) h2
    nlinarith
  refine ⟨h3, h3.trans ?_⟩
  have h4 : μ / L ≤ 1 := by rw [div_le_one hL0]; exact hL
  rw [div_le_one h2]
  have h5 : (μ / L) ^ 2 ≤ 1 := pow_le_one₀ (by positivity) h4
  have h6 : (0 : ℝ) ≤ m := Nat.cast_nonneg m
  linarith

theorem margin_pos {n : Int} {p : Params} (hv : validate n p = none) (hp : Decreasing p) : 0 < margin p ∧ margin p ≤ 1 := by
  obtain ⟨-, -, -, -, -, -, -, hw, hg, -, -, hls⟩ := validate_none hv
  obtain ⟨-, hf, hf1, hg1⟩ := hp
  unfold margin
  by_cases h0 : p.linesearch = 0
  · rw [if_pos h0]; exact ⟨by linarith [hg1 h0], by linarith⟩
  rw [if_neg h0]
  by_cases h1 : p.linesearch = 1
  · rw [if_pos h1]; exact ⟨by linarith, by linarith⟩
  rw [if_neg h1]
  have := hw (by omega)
  exact ⟨by linarith, by linarith⟩

theorem gain_pos {n : Int} {p : Params} (hv : validate n p = none) (hp : Decreasing p) {μ L : ℝ} (hμ : 0 < μ) (hL : 0 < L) : 0 < gain p μ L := by
  have h1 := (margin_pos hv hp).1
  have h2 := cos_pos hμ hL p.m.toNat
  have h3 := hp.2.1
  unfold gain; positivity

theorem rate_bounds {n : Int} {p : Params} (hv : validate n p = none) (hp : Decreasing p) {μ L : ℝ} (hμ : 0 < μ) (hL : μ ≤ L) :
    0 ≤ rate p μ L ∧ rate p μ L < 1 := by
  have hL0 := hμ.trans_le hL
  have h0 := gain_pos hv hp hμ hL0
  refine ⟨?_, by unfold rate; nlinarith⟩
  obtain ⟨m1, m2⟩ := margin_pos hv hp
  obtain ⟨c1, -⟩ := cos_le hμ hL p.m.toNat
  have c0 := cos_pos hμ hL0 p.m.toNat
  obtain ⟨pm, f0, f1, -⟩ := hp
  have hm : (1 : ℝ) ≤ p.m.toNat := by exact_mod_cast (by omega : 1 ≤ p.m.toNat)
  have h4 : μ / L ≤ 1 := by rw [div_le_one hL0]; exact hL
  have h4' : 0 < μ / L := by positivity
  have hc : cosBound μ L p.m.toNat ≤ 1 / 2 := by
    refine c1.trans ?_
    rw [div_le_div_iff₀ (by positivity) (by norm_num)]
    have h5 : (μ / L) ^ 2 ≤ 1 := pow_le_one₀ h4'.le h4
    linarith
  have hc2 : cosBound μ L p.m.toNat ^ 2 ≤ 1 / 4 := by nlinarith
  have e : 2 * μ * gain p μ L = 2 * (p.ftol * margin p * cosBound μ L p.m.toNat ^ 2 * (μ / L)) := by unfold gain; ring
  have h6 : p.ftol * margin p ≤ 1 := by nlinarith
  have h7 : p.ftol * margin p * cosBound μ L p.m.toNat ^ 2 ≤ 1 / 4 := by
    have := mul_pos f0 m1
    nlinarith [sq_nonneg (cosBound μ L p.m.toNat)]
  have h8 : 0 ≤ p.ftol * margin p * cosBound μ L p.m.toNat ^ 2 := by positivity
  unfold rate
  rw [e]
  nlinarith

theorem InvR.cos {n : Nat} {p : Params} {ev : Eval n} {μ L : ℝ} {x0 : Vec n} {s : LState n} (h : InvR p ev μ L x0 s) (hk : 0 < s.k)
    (hμ : 0 < μ) (hL : μ ≤ L) : cosBound μ L p.m.toNat * norm2 s.g * norm2 s.d ≤ -dot s.g s.d := by
  have hL0 := hμ.trans_le hL
  have c0 := cos_pos hμ hL0 p.m.toNat
  rcases Nat.lt_or_ge 1 s.k with h1 | h1
  · have hlow := h.low h1
    have hup := h.up h1
    have hs := spread_pos hμ hL0 p.m.toNat
    rw [← norm2_sq] at hlow
    have h2 := mul_le_mul_of_nonneg_left hup (mul_nonneg c0.le (norm2_nonneg s.g))
    refine h2.trans ?_
    have e1 : cosBound μ L p.m.toNat * norm2 s.g * (spread μ L p.m.toNat / μ * norm2 s.g) =
        cosBound μ L p.m.toNat * spread μ L p.m.toNat / μ * norm2 s.g ^ 2 := by ring
    rw [e1]
    have h3 := mul_le_mul_of_nonneg_left hlow (by positivity : 0 ≤ cosBound μ L p.m.toNat * spread μ L p.m.toNat / μ)
    refine h3.trans (le_of_eq ?_)
    unfold cosBound
    field_simp
  · obtain ⟨-, h2, -⟩ := h.first (by omega)
    rw [h2, norm2_neg, dot_neg, neg_neg, ← norm2_sq]
    have := (cos_le hμ hL p.m.toNat).2
    nlinarith [sq_nonneg (norm2 s.g)]

/-- Every iteration (after the first one of the Armijo search) gains a multiple of the squared gradient. -/
theorem iter_gain {n : Nat} {p : Params} (hv : validate n p = none) (hp : Decreasing p) {ev : Eval n} {μ L : ℝ} (hS : Smooth ev μ L) (hL : μ ≤ L)
    {prog : Vec n → Vec n → ℝ → Nat → Int} {x0 : Vec n} (hg : ¬ norm2 (ev x0).2 / max (norm2 x0) 1 ≤ p.epsilon) {s s' : LState n} {l : List ℝ}
    (h : Hist p ev prog x0 s l) (hs : iter p ev prog s = .inl s') (hfirst : p.linesearch ≠ 1 ∨ 1 < s.k) :
    (ev s'.x).1 ≤ (ev s.x).1 - gain p μ L * norm2 (ev s.x).2 ^ 2 := by
  have hμ := hS.pos
  have hL0 := hμ.trans_le hL
  have heps := (validate_none hv).2.1
  have hR := invR_hist hv hp hS hL0 hg h
  have hI := inv_hist hv h
  have hk := hI.kpos
  obtain ⟨c, h1, h2, -⟩ := iter_inl ev hs
  obtain ⟨a1, a2⟩ := eval_split hI.eval
  rw [a1, a2] at h1 h2
  obtain ⟨⟨r1, r2⟩, -, -, -, harm, hsw, hw⟩ := lineSearch_ok hv ev s.x s.d s.step h1
  have hd := (hR.descent hk heps hμ hL0).1
  have hcos := hR.cos hk hμ hL
  rw [a2] at hd hcos
  have hpos := ls_pos hv hp ev s.x s.d s.step hd h1
  have c0 := cos_pos hμ hL0 p.m.toNat
  obtain ⟨m1, m2⟩ := margin_pos hv hp
  have hf := hp.2.1
  generalize ho : lineSearch p ev s.x (ev s.x).1 (ev s.x).2 s.d s.step = o at *
  have hof : o.f = (ev (s.x + o.stp • s.d)).1 := by rw [← r1, ← r2]
  have hog : o.g = (ev (s.x + o.stp • s.d)).2 := by rw [← r1, ← r2]
  unfold Armijo at harm
  rw [hof] at harm
  rw [hog] at hsw hw
  rw [h2, r1]
  unfold gain
  by_cases l0 : p.linesearch = 0
  · refine long_gain hL0 hd hf m1 c0.le hcos harm ?_
    have e : margin p = 1 - p.gtol := by unfold margin; rw [if_pos l0]
    rw [e]
    refine wolfe_long hS hpos ?_
    have := hsw l0
    unfold StrongWolfe at this
    rw [abs_of_neg hd, abs_le] at this
    linarith [this.1]
  by_cases l1 : p.linesearch = 1
  · have hk1 : 1 < s.k := by
      rcases hfirst with h | h
      · exact absurd l1 h
      · exact h
    have hstep := hR.step hk1
    have e : margin p = (1 - p.ftol) / 2 := by unfold margin; rw [if_neg l0, if_pos l1]
    have hhalf : o.stp = s.step ∨ (ev s.x).1 + 2 * o.stp * (p.ftol * dot (ev s.x).2 s.d) < (ev (s.x + (2 * o.stp) • s.d)).1 := by
      have e2 : o = btLoop p ev s.x s.d (ev s.x).1 (dot (ev s.x).2 s.d) 0 s.step := by
        rw [← ho]
        unfold lineSearch backtracking
        rw [if_neg l0, if_neg (by rw [hstep]; norm_num), if_neg (by linarith)]
      rw [e2] at h1 ⊢
      exact bt_halving l1 ev s.x s.d _ _ s.step _ 0 s.step rfl (.inl rfl) c h1
    rcases hhalf with h3 | h3
    · -- the full step
      rw [h3, hstep] at harm ⊢
      have hlow := hR.low hk1
      rw [a2, ← norm2_sq] at hlow
      obtain ⟨c1, c2⟩ := cos_le hμ hL p.m.toNat
      have hC : (0 : ℝ) < L ^ 2 / μ * (p.m.toNat + 1) := by positivity
      have h5 : margin p * cosBound μ L p.m.toNat ^ 2 / L * (L ^ 2 / μ * (p.m.toNat + 1)) ≤ 1 := by
        have h6 : cosBound μ L p.m.toNat ^ 2 ≤ (μ / L) ^ 2 / (p.m.toNat + 1) := by nlinarith
        have h7 : margin p * cosBound μ L p.m.toNat ^ 2 / L * (L ^ 2 / μ * (p.m.toNat + 1)) =
            margin p * (cosBound μ L p.m.toNat ^ 2 * (L * (p.m.toNat + 1) / μ)) := by field_simp
        rw [h7]
        have h8 : cosBound μ L p.m.toNat ^ 2 * (L * (p.m.toNat + 1) / μ) ≤ (μ / L) ^ 2 / (p.m.toNat + 1) * (L * (p.m.toNat + 1) / μ) := by
          gcongr
        have h9 : (μ / L) ^ 2 / (p.m.toNat + 1 : ℝ) * (L * (p.m.toNat + 1) / μ) = μ / L := by field_simp
        rw [h9] at h8
        have h10 : μ / L ≤ 1 := by rw [div_le_one hL0]; exact hL
        have h11 : 0 ≤ cosBound μ L p.m.toNat ^ 2 * (L * (p.m.toNat + 1) / μ) := by positivity
        nlinarith
      have h12 : margin p * cosBound μ L p.m.toNat ^ 2 / L * norm2 (ev s.x).2 ^ 2 ≤ -dot (ev s.x).2 s.d := by
        have h13 : 0 ≤ margin p * cosBound μ L p.m.toNat ^ 2 / L := by positivity
        have h14 := mul_le_mul_of_nonneg_left hlow h13
        have h15 : 0 < -dot (ev s.x).2 s.d := by linarith
        have h16 := mul_le_mul_of_nonneg_right h5 h15.le
        rw [← mul_assoc] at h14
        linarith
      have h17 := mul_le_mul_of_nonneg_left h12 hf.le
      have e3 : p.ftol * margin p * cosBound μ L p.m.toNat ^ 2 / L * norm2 (ev s.x).2 ^ 2 =
        p.ftol * (margin p * cosBound μ L p.m.toNat ^ 2 / L * norm2 (ev s.x).2 ^ 2) := by ring
      rw [e3]
      linarith
    · refine long_gain hL0 hd hf m1 c0.le hcos harm ?_
      rw [e]
      have := reject_long hS (by linarith : 0 < 2 * o.stp) h3
      nlinarith
  · refine long_gain hL0 hd hf m1 c0.le hcos harm ?_
    have e : margin p = 1 - p.wolfe := by unfold margin; rw [if_neg l0, if_neg l1]
    rw [e]
    refine wolfe_long hS hpos ?_
    have hls := (validate_none hv).2.2.2.2.2.2.2.2.2.2.2
    exact hw (by omega)

theorem smooth_le {n : Nat} {p : Params} (hv : validate n p = none) {ev : Eval n} {μ L : ℝ} (hS : Smooth ev μ L) : μ ≤ L :=
  hS.one_le (by have := (validate_none hv).1; exact_mod_cast this)

theorem rate_hist {n : Nat} {p : Params} (hv : validate n p = none) (hp : Decreasing p) {ev : Eval n} {μ L : ℝ} (hS : Smooth ev μ L)
    {prog : Vec n → Vec n → ℝ → Nat → Int} {x0 : Vec n} (hg : ¬ norm2 (ev x0).2 / max (norm2 x0) 1 ≤ p.epsilon) {s : LState n} {l : List ℝ}
    (h : Hist p ev prog x0 s l) (y : Vec n) : (ev s.x).1 - (ev y).1 ≤ rate p μ L ^ (s.k - 1 - lag p) * ((ev x0).1 - (ev y).1) := by
  have hL := smooth_le hv hS
  have hμ := hS.pos
  obtain ⟨r0, r1⟩ := rate_bounds hv hp hμ hL
  induction h with
  | start => simp [start]
  | @step s s' l h hs ih =>
    have hI := inv_hist hv h
    have hk := hI.kpos
    obtain ⟨c, -, -, -, -, h5, -⟩ := iter_inl ev hs
    by_cases hfirst : p.linesearch ≠ 1 ∨ 1 < s.k
    · have hgain := iter_gain hv hp hS hL hg h hs hfirst
      have hlow := hS.lower s.x y
      have hgp := gain_pos hv hp hμ (hμ.trans_le hL)
      rw [le_div_iff₀ (by linarith)] at hlow
      have h1 := mul_le_mul_of_nonneg_left hlow hgp.le
      have h2 : (ev s'.x).1 - (ev y).1 ≤ rate p μ L * ((ev s.x).1 - (ev y).1) := by
        unfold rate; linarith
      have e : s'.k - 1 - lag p = (s.k - 1 - lag p) + 1 := by
        unfold lag
        rcases hfirst with h | h
        · rw [if_neg h]; omega
        · split <;> omega
      rw [e, pow_succ']
      refine h2.trans ?_
      rw [mul_assoc]
      exact mul_le_mul_of_nonneg_left ih r0
    · push Not at hfirst
      have e : s'.k - 1 - lag p = 0 := by unfold lag; rw [if_pos hfirst.1]; omega
      rw [e, pow_zero, one_mul]
      have := (hist_le hv (.step h hs)).1
      have hI' := inv_hist hv (.step h hs)
      rw [(eval_split hI'.eval).1] at this
      linarith

/-- C257, rate: on a smooth strongly convex objective the iterates of L-BFGS, with any of the four line searches, any memory and any
starting point, approach the infimum at a linear rate fixed by the parameters and the constants of the objective: the value, the gradient and
the distance to the minimiser. -/
theorem C257_rate {n : Nat} (p : Params) (hv : validate n p = none) (hp : Decreasing p) (ev : Eval n) (μ L : ℝ) (hS : Smooth ev μ L)
    (prog : Vec n → Vec n → ℝ → Nat → Int) (x0 : Vec n) (hg : ¬ SmallGradient ev p.epsilon x0) :
    0 ≤ rate p μ L ∧ rate p μ L < 1 ∧
    ∀ s l, Hist p ev prog x0 s l →
      (∀ y, (ev s.x).1 - (ev y).1 ≤ rate p μ L ^ (l.length - 1 - lag p) * ((ev x0).1 - (ev y).1)) ∧
      norm2 (ev s.x).2 ^ 2 ≤ 2 * L / μ * rate p μ L ^ (l.length - 1 - lag p) * norm2 (ev x0).2 ^ 2 ∧
      (∀ y, (∀ z, (ev y).1 ≤ (ev z).1) → μ / 2 * norm2 (s.x - y) ^ 2 ≤ rate p μ L ^ (l.length - 1 - lag p) * ((ev x0).1 - (ev y).1)) := by
  have hL := smooth_le hv hS
  have hμ := hS.pos
  have hL0 := hμ.trans_le hL
  obtain ⟨r0, r1⟩ := rate_bounds hv hp hμ hL
  refine ⟨r0, r1, fun s l h => ?_⟩
  have hg' : ¬ norm2 (ev x0).2 / max (norm2 x0) 1 ≤ p.epsilon := fun h => hg (small_of_div h)
  rw [(inv_hist hv h).len]
  have key := rate_hist hv hp hS hg' h
  set q := rate p μ L ^ (s.k - 1 - lag p) with hq
  have hq0 : 0 ≤ q := pow_nonneg r0 _
  refine ⟨key, ?_, ?_⟩
  · obtain ⟨y, hy⟩ := hS.grad_le hL0 s.x
    have h1 := key y
    have h2 := mul_le_mul_of_nonneg_left (hS.lower x0 y) hq0
    have h3 := mul_le_mul_of_nonneg_left (h1.trans h2) (by linarith : 0 ≤ 4 * L)
    refine (hy.trans h3).trans (le_of_eq ?_)
    field_simp
    ring
  · intro y hy
    obtain ⟨z, hz⟩ := hS.grad_le hL0 y
    have h0 : (ev y).2 = 0 := by
      by_contra hne
      have := dot_self_pos hne
      rw [norm2_sq] at hz
      have := hy z
      nlinarith
    have h1 := hS.strong y s.x
    rw [h0, zero_dot, ← norm2_sq] at h1
    have := key y
    linarith

/-! ### number of iterations -/

theorem iterations_le {n : Nat} {p : Params} (hv : validate n p = none) (hp : Decreasing p) {ev : Eval n} {μ L : ℝ} (hS : Smooth ev μ L)
    {prog : Vec n → Vec n → ℝ → Nat → Int} {x0 : Vec n} (hg : ¬ SmallGradient ev p.epsilon x0) {s : LState n} {l : List ℝ}
    (h : Hist p ev prog x0 s l) {K : Nat} (hK : 2 * L / μ * rate p μ L ^ K * norm2 (ev x0).2 ^ 2 ≤ p.epsilon ^ 2) : s.k ≤ K + lag p := by
  obtain ⟨r0, r1, hr⟩ := C257_rate p hv hp ev μ L hS prog x0 hg
  have hL0 := hS.pos.trans_le (smooth_le hv hS)
  have hμ := hS.pos
  have hg' : ¬ norm2 (ev x0).2 / max (norm2 x0) 1 ≤ p.epsilon := fun h => hg (small_of_div h)
  have hI := inv_hist hv h
  have hbig := (invR_hist hv hp hS hL0 hg' h).big
  have heps := (validate_none hv).2.1
  obtain ⟨-, h2, -⟩ := hr s l h
  rw [hI.len] at h2
  by_contra hc
  have hpow : rate p μ L ^ (s.k - 1 - lag p) ≤ rate p μ L ^ K := pow_le_pow_of_le_one r0 r1.le (by omega)
  have h3 : 2 * L / μ * rate p μ L ^ (s.k - 1 - lag p) * norm2 (ev x0).2 ^ 2 ≤ 2 * L / μ * rate p μ L ^ K * norm2 (ev x0).2 ^ 2 := by gcongr
  have h4 := (h2.trans h3).trans hK
  rw [(eval_split hI.eval).2] at hbig
  refine hbig ?_
  rw [div_le_iff₀ (lt_of_lt_of_le one_pos (le_max_right _ _))]
  have h5 : norm2 (ev s.x).2 ≤ p.epsilon := by
    have := sq_le_sq.mp h4
    rwa [abs_of_nonneg (norm2_nonneg _), abs_of_nonneg heps] at this
  exact h5.trans (le_mul_of_one_le_right heps (le_max_right _ _))

theorem loop_of_bound {n : Nat} {p : Params} {ev : Eval n} {prog : Vec n → Vec n → ℝ → Nat → Int} {x0 : Vec n} {B : Nat}
    (hB : ∀ s l, Hist p ev prog x0 s l → s.k ≤ B) : ∀ (f : Nat) (s : LState n) (l : List ℝ), Hist p ev prog x0 s l → B - s.k ≤ f →
      ∃ i r, Loop p ev prog s i r := by
  intro f
  induction f with
  | zero =>
    intro s l h hs
    cases hi : iter p ev prog s with
    | inr r => exact ⟨1, r, .done hi⟩
    | inl s' =>
      obtain ⟨c, -, -, -, -, h5, -⟩ := iter_inl ev hi
      have h1 := hB _ _ (.step h hi)
      have h2 := hB _ _ h
      omega
  | succ f ih =>
    intro s l h hs
    cases hi : iter p ev prog s with
    | inr r => exact ⟨1, r, .done hi⟩
    | inl s' =>
      obtain ⟨c, -, -, -, -, h5, -⟩ := iter_inl ev hi
      obtain ⟨i, r, h⟩ := ih s' _ (.step h hi) (by omega)
      exact ⟨_, r, .next hi h⟩

theorem exists_K {p : Params} {μ L : ℝ} (r0 : 0 ≤ rate p μ L) (r1 : rate p μ L < 1) (hμ : 0 < μ) (hL : 0 < L) (he : 0 < p.epsilon) (G : ℝ) :
    ∃ K : Nat, 2 * L / μ * rate p μ L ^ K * G ^ 2 ≤ p.epsilon ^ 2 := by
  have hC : 0 < 2 * L / μ * (G ^ 2 + 1) := by positivity
  obtain ⟨K, hK⟩ := exists_pow_lt_of_lt_one (div_pos (pow_pos he 2) hC) r1
  refine ⟨K, ?_⟩
  rw [lt_div_iff₀ hC] at hK
  have h1 : 0 ≤ 2 * L / μ * rate p μ L ^ K := mul_nonneg (by positivity) (pow_nonneg r0 K)
  nlinarith

/-- C257, iterations: with a positive gradient tolerance the method always ends, also without an iteration limit, and the number of
iterations is at most the number `K` after which the rate has brought the gradient below the tolerance (plus one for the Armijo search). -/
theorem C257_iterations {n : Nat} (p : Params) (hv : validate n p = none) (hp : Decreasing p) (he : 0 < p.epsilon) (ev : Eval n) (μ L : ℝ)
    (hS : Smooth ev μ L) (prog : Vec n → Vec n → ℝ → Nat → Int) (x0 : Vec n) (fx0 : ℝ) :
    (∃ i r, Run p ev prog x0 fx0 i r) ∧
    (∃ K : Nat, 2 * L / μ * rate p μ L ^ K * norm2 (ev x0).2 ^ 2 ≤ p.epsilon ^ 2) ∧
    ∀ i r (K : Nat), Run p ev prog x0 fx0 i r → 2 * L / μ * rate p μ L ^ K * norm2 (ev x0).2 ^ 2 ≤ p.epsilon ^ 2 → i ≤ K + lag p := by
  have hL := smooth_le hv hS
  have hμ := hS.pos
  have hL0 := hμ.trans_le hL
  obtain ⟨r0, r1⟩ := rate_bounds hv hp hμ hL
  obtain ⟨K, hK⟩ := exists_K r0 r1 hμ hL0 he (norm2 (ev x0).2)
  refine ⟨?_, ⟨K, hK⟩, ?_⟩
  · by_cases hg : norm2 (ev x0).2 / max (norm2 x0) 1 ≤ p.epsilon
    · exact ⟨0, _, .already hv hg⟩
    · have hg' : ¬ SmallGradient ev p.epsilon x0 := fun h => hg (by
        rw [div_le_iff₀ (lt_of_lt_of_le one_pos (le_max_right _ _))]; exact h)
      obtain ⟨i, r, h⟩ := loop_of_bound (fun s l h => iterations_le hv hp hS hg' h hK) _ _ _ (Hist.start (p := p) (ev := ev) (prog := prog)) le_rfl
      exact ⟨i, r, .run hv hg h⟩
  · intro i r K h hK
    cases h with
    | invalid h => exact Nat.zero_le _
    | already _ _ => exact Nat.zero_le _
    | run _ hg hr =>
      have hg' : ¬ SmallGradient ev p.epsilon x0 := fun h => hg (by
        rw [div_le_iff₀ (lt_of_lt_of_le one_pos (le_max_right _ _))]; exact h)
      obtain ⟨s, l, hh, -, hk⟩ := loop_last hr _ .start
      have hki : s.k = i := by have : (start p ev x0).k = 1 := rfl; omega
      rw [← hki]
      exact iterations_le hv hp hS hg' hh hK

/-! ### total correctness of the Armijo search -/

theorem armijo_ok {n : Nat} {p : Params} (hv : validate n p = none) (hp : Decreasing p) (h1 : p.linesearch = 1) {ev : Eval n} {μ L : ℝ}
    (hS : Smooth ev μ L) {prog : Vec n → Vec n → ℝ → Nat → Int} {x0 : Vec n} (hg : ¬ norm2 (ev x0).2 / max (norm2 x0) 1 ≤ p.epsilon)
    (hmin : p.minStep ≤ stepBound p μ L) (hmax : max 1 (1 / norm2 (ev x0).2) ≤ p.maxStep)
    (hls : max 1 (1 / norm2 (ev x0).2) ≤ stepBound p μ L * 2 ^ (p.maxLinesearch.toNat - 1))
    {s : LState n} {l : List ℝ} (h : Hist p ev prog x0 s l) : ∃ c, (lineSearch p ev s.x s.fx s.g s.d s.step).ret = .ok c := by
  have hL := smooth_le hv hS
  have hμ := hS.pos
  have hL0 := hμ.trans_le hL
  have heps := (validate_none hv).2.1
  have hR := invR_hist hv hp hS hL0 hg h
  have hI := inv_hist hv h
  have hk := hI.kpos
  obtain ⟨a1, a2⟩ := eval_split hI.eval
  obtain ⟨hd, hst⟩ := hR.descent hk heps hμ hL0
  have hf1 : 0 < 1 - p.ftol := by have := hp.2.2.1; linarith
  have hspr := spread_pos hμ hL0 p.m.toNat
  have hle : s.step ≤ max 1 (1 / norm2 (ev x0).2) := by
    rcases Nat.lt_or_ge 1 s.k with hk1 | hk1
    · rw [hR.step hk1]; exact le_max_left _ _
    · obtain ⟨b1, -, b3⟩ := hR.first (by omega)
      rw [b3, a2, b1]; exact le_max_right _ _
  have hD : 0 < norm2 s.d ^ 2 := by
    rw [norm2_sq]
    refine dot_self_pos ?_
    rintro h0; rw [h0, dot_zero] at hd; exact lt_irrefl _ hd
  -- short steps
  have hT : stepBound p μ L * (L * norm2 s.d ^ 2) ≤ (1 - p.ftol) * (-dot s.g s.d) := by
    have e : stepBound p μ L * (L * norm2 s.d ^ 2) =
        (1 - p.ftol) * (min 1 (μ ^ 3 / (L ^ 2 * (p.m.toNat + 1) * spread μ L p.m.toNat ^ 2)) * norm2 s.d ^ 2) := by
      unfold stepBound; field_simp
    rw [e]
    refine mul_le_mul_of_nonneg_left ?_ hf1.le
    rcases Nat.lt_or_ge 1 s.k with hk1 | hk1
    · have hlow := hR.low hk1
      have hup := hR.up hk1
      have hup2 := pow_le_pow_left₀ (norm2_nonneg s.d) hup 2
      rw [← norm2_sq] at hlow
      have hm0 : (0 : ℝ) < p.m.toNat + 1 := by positivity
      calc min 1 (μ ^ 3 / (L ^ 2 * (p.m.toNat + 1) * spread μ L p.m.toNat ^ 2)) * norm2 s.d ^ 2
          ≤ μ ^ 3 / (L ^ 2 * (p.m.toNat + 1) * spread μ L p.m.toNat ^ 2) * norm2 s.d ^ 2 := by gcongr; exact min_le_right _ _
        _ ≤ μ ^ 3 / (L ^ 2 * (p.m.toNat + 1) * spread μ L p.m.toNat ^ 2) * (spread μ L p.m.toNat / μ * norm2 s.g) ^ 2 := by gcongr
        _ = μ / (L ^ 2 * (p.m.toNat + 1)) * norm2 s.g ^ 2 := by field_simp
        _ ≤ μ / (L ^ 2 * (p.m.toNat + 1)) * (L ^ 2 / μ * (p.m.toNat + 1) * -dot s.g s.d) := by gcongr
        _ = -dot s.g s.d := by field_simp
    · obtain ⟨-, b2, -⟩ := hR.first (by omega)
      rw [b2, norm2_neg, dot_neg, neg_neg, ← norm2_sq]
      have := min_le_left 1 (μ ^ 3 / (L ^ 2 * (p.m.toNat + 1) * spread μ L p.m.toNat ^ 2))
      have := sq_nonneg (norm2 s.g)
      nlinarith
  unfold lineSearch backtracking
  rw [if_neg (by rw [h1]; norm_num), if_neg (not_le.mpr hst), if_neg (not_lt.mpr hd.le)]
  have key := bt_ok h1 ev s.x s.d s.fx (dot s.g s.d) s.step (stepBound p μ L) ?_ hst hmin (hle.trans hmax) ?_ _ 0 rfl (by
    have := (validate_none hv).2.2.2.2.2.2.2.2.2.2.1; push_cast; omega)
  · simpa using key
  · intro t ht hrej
    rw [a1, a2] at hrej
    have := reject_long hS ht hrej
    rw [a2] at hT
    have h2 : stepBound p μ L * (L * norm2 s.d ^ 2) < t * (L * norm2 s.d ^ 2) := by linarith
    exact lt_of_mul_lt_mul_right h2 (by positivity)
  · rw [div_le_iff₀ (by positivity)]
    exact hle.trans hls

/-- C257, total correctness: with the Armijo line search, limits that leave room for the steps of the objective, no stopping rule other
than the gradient and no interruption, the method always ends, reports success (or that the start was good), and the point it returns is
within `ε max(|x|, 1) / μ` of the minimiser. -/
theorem C257_backtracking_total {n : Nat} (p : Params) (hv : validate n p = none) (hp : Decreasing p) (h1 : p.linesearch = 1)
    (he : 0 < p.epsilon) (hpast : p.past = 0) (hmaxit : p.maxIterations = 0) (ev : Eval n) (μ L : ℝ) (hS : Smooth ev μ L) (x0 : Vec n)
    (hmin : p.minStep ≤ stepBound p μ L) (hmax : max 1 (1 / norm2 (ev x0).2) ≤ p.maxStep)
    (hls : max 1 (1 / norm2 (ev x0).2) ≤ stepBound p μ L * 2 ^ (p.maxLinesearch.toNat - 1)) (fx0 : ℝ) :
    (∃ i r, Run p ev (fun _ _ _ _ => 0) x0 fx0 i r) ∧
    ∀ i r, Run p ev (fun _ _ _ _ => 0) x0 fx0 i r →
      (r.ret = .success ∨ r.ret = .alreadyMinimized) ∧ r.fx = (ev r.x).1 ∧ SmallGradient ev p.epsilon r.x ∧
      ∀ y, (∀ z, (ev y).1 ≤ (ev z).1) → norm2 (r.x - y) ≤ p.epsilon * max (norm2 r.x) 1 / μ := by
  have hμ := hS.pos
  have hL0 := hμ.trans_le (smooth_le hv hS)
  refine ⟨(C257_iterations p hv hp he ev μ L hS _ x0 fx0).1, fun i r h => ?_⟩
  have hret : r.ret = .success ∨ r.ret = .alreadyMinimized := by
    cases h with
    | invalid h => rw [hv] at h; cases h
    | already _ _ => exact .inr rfl
    | run _ hg hr =>
      obtain ⟨s, l, hh, hi, -⟩ := loop_last hr _ .start
      obtain ⟨c, hc⟩ := armijo_ok hv hp h1 hS hg hmin hmax hls hh
      rcases iter_inr ev hi with ⟨e, h2, -⟩ | ⟨c', -, -, -, hcase⟩
      · rw [hc] at h2; cases h2
      · rcases hcase with ⟨-, h3⟩ | ⟨h3, -⟩ | ⟨-, h3, -⟩ | ⟨-, h3, -⟩ | ⟨-, h3⟩
        · exact absurd rfl h3
        · exact .inl h3
        · omega
        · exact absurd hmaxit h3
        · have := hp.1; omega
  have hsm := (C30_exit_codes p ev _ x0 fx0 i r h).1 hret
  refine ⟨hret, ?_, hsm, ?_⟩
  · refine C29_reported_value_partial p ev _ x0 fx0 i r h (fun e => ?_) (fun e => ?_) <;> rcases hret with h | h <;> rw [h] <;> simp
  · intro y hy
    obtain ⟨z, hz⟩ := hS.grad_le hL0 y
    have h0 : (ev y).2 = 0 := by
      by_contra hne
      have := dot_self_pos hne
      rw [norm2_sq] at hz
      have := hy z
      nlinarith
    have h2 := hS.mono y r.x
    rw [h0, sub_zero, ← norm2_sq] at h2
    have h3 := dot_le (ev r.x).2 (r.x - y)
    rw [le_div_iff₀ hμ]
    unfold SmallGradient at hsm
    refine le_trans ?_ hsm
    rcases (norm2_nonneg (r.x - y)).lt_or_eq with hpos | hz
    · have h4 : norm2 (r.x - y) * (norm2 (r.x - y) * μ) ≤ norm2 (r.x - y) * norm2 (ev r.x).2 := by nlinarith
      exact le_of_mul_le_mul_left h4 hpos
    · rw [← hz, zero_mul]; exact norm2_nonneg _

/-! ### sample -/

/-- The sample objective `|x|²/2`. -/
noncomputable def half {n : Nat} : Eval n := fun x => (dot x x / 2, x)

theorem half_smooth {n : Nat} : Smooth (half (n := n)) 1 1 := by
  refine ⟨one_pos, fun x y => ?_, fun x y => by simp [half]⟩
  simp only [half]
  rw [dot_sub x y x, sub_dot, dot_sub, dot_sub, dot_comm y x]
  linarith

/-- The hypotheses of `C257_rate` and `C257_iterations` are met by the default parameters. -/
example : validate 2 defparam = none ∧ Decreasing defparam ∧ 0 < defparam.epsilon ∧ Smooth (half (n := 2)) 1 1 ∧
    ¬ SmallGradient (half (n := 2)) defparam.epsilon (fun _ => 1) := by
  refine ⟨?_, ?_, by norm_num [defparam], half_smooth, ?_⟩
  · simp [validate, defparam]; norm_num
  · refine ⟨?_, ?_, ?_, fun _ => ?_⟩ <;> norm_num [defparam]
  · unfold SmallGradient
    have h : norm2 (fun _ : Fin 2 => (1:ℝ)) = Real.sqrt 2 := by simp [norm2, dot]
    have h2 : (half (n := 2) fun _ => 1).2 = fun _ => 1 := rfl
    have h3 : 1 ≤ Real.sqrt 2 := by rw [Real.one_le_sqrt]; norm_num
    rw [h2, h, max_eq_left h3, not_le]
    have : defparam.epsilon < 1 := by norm_num [defparam]
    nlinarith

/-- The hypotheses of `C257_backtracking_total` are met by the default limits. -/
example : ∃ p : Params, p = { defparam with linesearch := 1 } ∧ validate 1 p = none ∧ Decreasing p ∧ p.linesearch = 1 ∧ 0 < p.epsilon ∧ p.past = 0 ∧
    p.maxIterations = 0 ∧ p.minStep ≤ stepBound p 1 1 ∧ max 1 (1 / norm2 (half (n := 1) fun _ => 3).2) ≤ p.maxStep ∧
    max 1 (1 / norm2 (half (n := 1) fun _ => 3).2) ≤ stepBound p 1 1 * 2 ^ (p.maxLinesearch.toNat - 1) := by
  have h2 : (half (n := 1) fun _ => 3).2 = fun _ => 3 := rfl
  have hsb : stepBound { defparam with linesearch := 1 } 1 1 = 9999 / 10000 * (1 / (7 * (7 * 2 ^ 12) ^ 2)) := by
    unfold stepBound spread
    simp only [defparam, show Int.toNat 6 = 6 from rfl]
    rw [min_eq_right (by norm_num)]
    norm_num
  refine ⟨_, rfl, ?_, ?_, rfl, ?_, rfl, rfl, ?_, ?_, ?_⟩
  · simp [validate, defparam]; norm_num
  · refine ⟨?_, ?_, ?_, fun h => ?_⟩
    · norm_num [defparam]
    · norm_num [defparam]
    · norm_num [defparam]
    · norm_num at h
  · norm_num [defparam]
  · rw [hsb]; norm_num [defparam]
  · rw [h2, norm_one (by norm_num)]; norm_num [defparam]
  · rw [h2, norm_one (by norm_num), hsb]; norm_num [defparam, show Int.toNat 40 = 40 from rfl]

end Lbfgs
end Verif
