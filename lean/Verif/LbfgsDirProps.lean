import Verif.LbfgsMtProps
import Mathlib.Tactic.FieldSimp
import Mathlib.Tactic.Module

/-! C31: the two-loop recursion. -/
namespace Verif
namespace Lbfgs

/-! ### specification: the recursion as an operator on vectors -/

/-- The L-BFGS inverse Hessian applied to `q`: pairs from newest to oldest, initial scaling `γ`. `H(e::es) q = Vᵀ H(es) (V q) + s (s·q)/ys`
with `V q = q - (s·q)/ys y`. -/
noncomputable def invHess {n : Nat} (γ : ℝ) : List (Entry n) → Vec n → Vec n
  | [], q => γ • q
  | e :: es, q =>
    let a := dot e.s q / e.ys
    let r := invHess γ es (q - a • e.y)
    r + (a - dot e.y r / e.ys) • e.s

/-- The `b` most recent pairs of a ring buffer of length `m` whose next free position is `j`, newest first. -/
def recent {n : Nat} (m : Nat) : Nat → Nat → (Nat → Entry n) → List (Entry n)
  | 0, _, _ => []
  | b + 1, j, lm => lm ((j + m - 1) % m) :: recent m b ((j + m - 1) % m) lm

/-! ### vector algebra -/

theorem dot_comm {n : Nat} (x y : Vec n) : dot x y = dot y x := by
  unfold dot; exact Finset.sum_congr rfl fun i _ => mul_comm _ _

theorem dot_add {n : Nat} (x y z : Vec n) : dot x (y + z) = dot x y + dot x z := by
  unfold dot; rw [← Finset.sum_add_distrib]; exact Finset.sum_congr rfl fun i _ => by simp [mul_add]

theorem dot_smul {n : Nat} (c : ℝ) (x y : Vec n) : dot x (c • y) = c * dot x y := by
  unfold dot; rw [Finset.mul_sum]; exact Finset.sum_congr rfl fun i _ => by simp; ring

theorem dot_neg {n : Nat} (x y : Vec n) : dot x (-y) = -dot x y := by
  rw [← neg_one_smul ℝ y, dot_smul]; ring

theorem dot_sub {n : Nat} (x y z : Vec n) : dot x (y - z) = dot x y - dot x z := by
  rw [sub_eq_add_neg, dot_add, dot_neg]; ring

theorem sub_dot {n : Nat} (x y z : Vec n) : dot (x - y) z = dot x z - dot y z := by
  rw [dot_comm, dot_sub, dot_comm z x, dot_comm z y]

theorem smul_dot {n : Nat} (c : ℝ) (x y : Vec n) : dot (c • x) y = c * dot x y := by
  rw [dot_comm, dot_smul, dot_comm]

theorem add_dot {n : Nat} (x y z : Vec n) : dot (x + y) z = dot x z + dot y z := by
  rw [dot_comm, dot_add, dot_comm z x, dot_comm z y]

theorem neg_dot {n : Nat} (x y : Vec n) : dot (-x) y = -dot x y := by rw [dot_comm, dot_neg, dot_comm]

theorem dot_zero {n : Nat} (x : Vec n) : dot x 0 = 0 := by simp [dot]

theorem zero_dot {n : Nat} (x : Vec n) : dot 0 x = 0 := by simp [dot]

theorem dot_self_nonneg {n : Nat} (x : Vec n) : 0 ≤ dot x x := Finset.sum_nonneg fun _ _ => mul_self_nonneg _

theorem dot_self_pos {n : Nat} {x : Vec n} (h : x ≠ 0) : 0 < dot x x := by
  obtain ⟨i, hi⟩ := Function.ne_iff.mp h
  exact Finset.sum_pos' (fun i _ => mul_self_nonneg _) ⟨i, Finset.mem_univ _, mul_self_pos.mpr hi⟩

/-! ### properties of the operator -/

theorem dot_invHess_cons {n : Nat} (γ : ℝ) (e : Entry n) (es : List (Entry n)) (p q : Vec n) (h : e.ys ≠ 0) :
    dot p (invHess γ (e :: es) q) =
      dot (p - (dot e.s p / e.ys) • e.y) (invHess γ es (q - (dot e.s q / e.ys) • e.y)) +
        (dot e.s p / e.ys) * (dot e.s q / e.ys) * e.ys := by
  simp only [invHess]
  generalize invHess γ es (q - (dot e.s q / e.ys) • e.y) = r
  rw [dot_add, dot_smul, sub_dot, smul_dot, dot_comm p e.s]
  field_simp
  ring

theorem invHess_pos {n : Nat} (γ : ℝ) (hγ : 0 < γ) (es : List (Entry n)) (hes : ∀ e ∈ es, 0 < e.ys) (q : Vec n) (hq : q ≠ 0) :
    0 < dot q (invHess γ es q) := by
  induction es generalizing q with
  | nil => rw [invHess, dot_smul]; exact mul_pos hγ (dot_self_pos hq)
  | cons e es ih =>
    have he : 0 < e.ys := hes e List.mem_cons_self
    have ih' := ih fun e' h' => hes e' (List.mem_cons_of_mem _ h')
    rw [dot_invHess_cons _ _ _ _ _ he.ne']
    by_cases h0 : q - (dot e.s q / e.ys) • e.y = 0
    · rw [h0, zero_dot, zero_add]
      have ha : dot e.s q / e.ys ≠ 0 := by
        intro ha; rw [ha, zero_smul, sub_zero] at h0; exact hq h0
      have := mul_self_pos.mpr ha
      positivity
    · have h1 := ih' _ h0
      have h2 := mul_self_nonneg (dot e.s q / e.ys)
      have h3 := mul_nonneg h2 he.le
      linarith

theorem invHess_symm {n : Nat} (γ : ℝ) (es : List (Entry n)) (hes : ∀ e ∈ es, e.ys ≠ 0) (p q : Vec n) :
    dot p (invHess γ es q) = dot q (invHess γ es p) := by
  induction es generalizing p q with
  | nil => rw [invHess, invHess, dot_smul, dot_smul, dot_comm]
  | cons e es ih =>
    have he := hes e List.mem_cons_self
    rw [dot_invHess_cons _ _ _ _ _ he, dot_invHess_cons _ _ _ _ _ he, ih fun e' h' => hes e' (List.mem_cons_of_mem _ h')]
    ring

theorem invHess_zero {n : Nat} (γ : ℝ) (es : List (Entry n)) : invHess γ es (0 : Vec n) = 0 := by
  induction es with
  | nil => simp [invHess]
  | cons e es ih => simp [invHess, dot_zero, ih]

theorem invHess_add {n : Nat} (γ : ℝ) (es : List (Entry n)) (p q : Vec n) : invHess γ es (p + q) = invHess γ es p + invHess γ es q := by
  induction es generalizing p q with
  | nil => simp [invHess]
  | cons e es ih =>
    simp only [invHess]
    have : p + q - (dot e.s (p + q) / e.ys) • e.y = (p - (dot e.s p / e.ys) • e.y) + (q - (dot e.s q / e.ys) • e.y) := by
      rw [dot_add, add_div, add_smul]; abel
    rw [this, ih]
    generalize invHess γ es (p - (dot e.s p / e.ys) • e.y) = a
    generalize invHess γ es (q - (dot e.s q / e.ys) • e.y) = b
    rw [dot_add, dot_add, add_div, add_div]
    module

theorem invHess_smul {n : Nat} (γ : ℝ) (es : List (Entry n)) (c : ℝ) (q : Vec n) : invHess γ es (c • q) = c • invHess γ es q := by
  induction es generalizing q with
  | nil => simp only [invHess]; module
  | cons e es ih =>
    simp only [invHess]
    have : c • q - (dot e.s (c • q) / e.ys) • e.y = c • (q - (dot e.s q / e.ys) • e.y) := by
      rw [dot_smul, mul_div_assoc]; module
    rw [this, ih]
    generalize invHess γ es (q - (dot e.s q / e.ys) • e.y) = a
    rw [dot_smul, dot_smul, mul_div_assoc, mul_div_assoc]
    module

theorem invHess_secant {n : Nat} (γ : ℝ) (e : Entry n) (es : List (Entry n)) (he : e.ys = dot e.y e.s) (h0 : e.ys ≠ 0) :
    invHess γ (e :: es) e.y = e.s := by
  simp only [invHess]
  have : dot e.s e.y / e.ys = 1 := by rw [dot_comm, ← he, div_self h0]
  rw [this, one_smul, sub_self, invHess_zero, dot_zero]
  simp

/-! ### the loops compute the operator -/

theorem mod_pred_ne {m j i : Nat} (hj : j < m) (hi : 0 < i) (him : i < m) : (j + m - i) % m ≠ j := by
  intro h
  rcases Nat.lt_or_ge j i with hji | hji
  · rw [Nat.mod_eq_of_lt (by omega)] at h; omega
  · have : j + m - i = (j - i) + m := by omega
    rw [this, Nat.add_mod_right, Nat.mod_eq_of_lt (by omega)] at h; omega

/-- Loop 1 visits the positions `j-1, ..., j-b`; the others are unchanged; pairs are unchanged everywhere. -/
theorem loop1_frame {n : Nat} (m : Nat) (hm : 0 < m) (b : Nat) : ∀ (j : Nat) (lm : Nat → Entry n) (d : Vec n), j < m →
    (loop1 m b j lm d).1 < m ∧ ((loop1 m b j lm d).1 + b) % m = j ∧
    (∀ p, (∀ i, 1 ≤ i → i ≤ b → p ≠ (j + b * m - i) % m) → (loop1 m b j lm d).2.1 p = lm p) ∧
    (∀ p, ((loop1 m b j lm d).2.1 p).s = (lm p).s ∧ ((loop1 m b j lm d).2.1 p).y = (lm p).y ∧ ((loop1 m b j lm d).2.1 p).ys = (lm p).ys) := by
  induction b with
  | zero => intro j lm d hj; refine ⟨hj, by simpa [loop1] using Nat.mod_eq_of_lt hj, fun p _ => rfl, fun p => ⟨rfl, rfl, rfl⟩⟩
  | succ b ih =>
    intro j lm d hj
    rw [loop1]
    obtain ⟨h1, h2, h3, h4⟩ := ih ((j + m - 1) % m) (Function.update lm ((j + m - 1) % m) { lm ((j + m - 1) % m) with alpha := dot (lm ((j + m - 1) % m)).s d / (lm ((j + m - 1) % m)).ys })
      (d + (-(dot (lm ((j + m - 1) % m)).s d / (lm ((j + m - 1) % m)).ys)) • (lm ((j + m - 1) % m)).y) (Nat.mod_lt _ hm)
    refine ⟨h1, ?_, ?_, ?_⟩
    · rw [← Nat.add_assoc, Nat.add_mod, h2, ← Nat.add_mod]
      have : j + m - 1 + 1 = j + m := by omega
      rw [this, Nat.add_mod_right, Nat.mod_eq_of_lt hj]
    · intro p hp
      rw [h3 p, Function.update_of_ne]
      · have := hp 1 le_rfl (by omega)
        have e : j + (b + 1) * m - 1 = (j + m - 1) + b * m := by rw [Nat.add_mul, Nat.one_mul]; omega
        rw [e, Nat.add_mul_mod_self_right] at this
        exact this
      · intro i hi hib
        have := hp (i + 1) (by omega) (by omega)
        have hbm : b ≤ b * m := Nat.le_mul_of_pos_right b hm
        have e2 : ((j + m - 1) % m + b * m - i) % m = (j + (b + 1) * m - (i + 1)) % m := by
          have e3 : (j + m - 1) % m + b * m - i = (j + m - 1) % m + (b * m - i) := by omega
          have e4 : j + (b + 1) * m - (i + 1) = (j + m - 1) + (b * m - i) := by rw [Nat.add_mul, Nat.one_mul]; omega
          rw [e3, e4, Nat.mod_add_mod]
        rw [e2]; exact this
    · intro p
      obtain ⟨a1, a2, a3⟩ := h4 p
      rw [a1, a2, a3]
      by_cases hp : p = (j + m - 1) % m
      · subst hp; simp
      · rw [Function.update_of_ne hp]; exact ⟨rfl, rfl, rfl⟩

theorem recent_congr {n : Nat} (m b : Nat) : ∀ (j : Nat) (lm lm' : Nat → Entry n),
    (∀ p, (lm p).s = (lm' p).s ∧ (lm p).y = (lm' p).y ∧ (lm p).ys = (lm' p).ys) → ∀ γ q,
    invHess γ (recent m b j lm) q = invHess γ (recent m b j lm') q := by
  induction b with
  | zero => intro j lm lm' h γ q; rfl
  | succ b ih =>
    intro j lm lm' h γ q
    obtain ⟨h1, h2, h3⟩ := h ((j + m - 1) % m)
    simp only [recent, invHess, h1, h2, h3]
    rw [ih _ _ _ h]

/-- The last iteration of loop 2. -/
theorem loop2_succ {n : Nat} (m b : Nat) : ∀ (j : Nat) (lm : Nat → Entry n) (d : Vec n), j < m → 
    loop2 m (b + 1) j lm d = (let r := loop2 m b j lm d; let e := lm ((j + b) % m); r + (e.alpha - dot e.y r / e.ys) • e.s) := by
  induction b with
  | zero => intro j lm d hj; simp [loop2, Nat.mod_eq_of_lt hj]
  | succ b ih =>
    intro j lm d hj
    rw [loop2, ih _ _ _ (Nat.mod_lt _ (by omega))]
    simp only [loop2]
    have : ((j + 1) % m + b) % m = (j + (b + 1)) % m := by
      rw [Nat.mod_add_mod]; congr 1; omega
    rw [this]

theorem loop2_loop1 {n : Nat} (m : Nat) (γ : ℝ) (b : Nat) : ∀ (j : Nat) (lm : Nat → Entry n) (d : Vec n), b ≤ m → j < m →
    loop2 m b (loop1 m b j lm d).1 (loop1 m b j lm d).2.1 (γ • (loop1 m b j lm d).2.2) = invHess γ (recent m b j lm) d := by
  induction b with
  | zero => intro j lm d _ _; rfl
  | succ b ih =>
    intro j lm d hb hj
    have hm : 0 < m := by omega
    rw [loop1]
    generalize hj' : (j + m - 1) % m = j'
    have hj'm : j' < m := hj' ▸ Nat.mod_lt _ hm
    generalize ha : dot (lm j').s d / (lm j').ys = a
    generalize hlm' : Function.update lm j' { lm j' with alpha := a } = lm'
    obtain ⟨h1, h2, h3, h4⟩ := loop1_frame m hm b j' lm' (d + -a • (lm j').y) hj'm
    have ih' := ih j' lm' (d + -a • (lm j').y) (by omega) hj'm
    rw [loop2_succ _ _ _ _ _ h1]
    simp only
    rw [ih', h2]
    have hsame : (loop1 m b j' lm' (d + -a • (lm j').y)).2.1 j' = lm' j' := by
      apply h3
      intro i hi hib
      have hbm : b ≤ b * m := Nat.le_mul_of_pos_right b hm
      have : (j' + b * m - i) % m = (j' + m - i) % m := by
        have e : j' + b * m - i = (j' + m - i) + (b - 1) * m := by
          have : b * m = (b - 1) * m + m := by rw [← Nat.succ_mul]; congr 1; omega
          omega
        rw [e, Nat.add_mul_mod_self_right]
      rw [this]
      exact (mod_pred_ne hj'm hi (by omega)).symm
    rw [hsame]
    have hpairs : ∀ p, (lm' p).s = (lm p).s ∧ (lm' p).y = (lm p).y ∧ (lm' p).ys = (lm p).ys := by
      intro p
      rw [← hlm']
      by_cases hp : p = j'
      · subst hp; simp
      · rw [Function.update_of_ne hp]; exact ⟨rfl, rfl, rfl⟩
    obtain ⟨q1, q2, q3⟩ := hpairs j'
    have hal : (lm' j').alpha = a := by rw [← hlm']; simp
    rw [hal, q1, q2, q3, recent_congr m b j' lm' lm hpairs]
    simp only [recent, hj', invHess, ha]
    have : d + -a • (lm j').y = d - a • (lm j').y := by rw [neg_smul, sub_eq_add_neg]
    rw [this]

/-- The loops compute the operator applied to the negative gradient, for every memory length, ring position and number of pairs. -/
theorem direction_eq {n : Nat} (m b e : Nat) (lm : Nat → Entry n) (γ : ℝ) (g : Vec n) (hb : b ≤ m) (he : e < m) :
    (direction m b e lm γ g).1 = invHess γ (recent m b e lm) (-g) := by
  unfold direction
  exact loop2_loop1 m γ b e lm (-g) hb he

/-- C31. For every memory length `m`, ring position `e` and number of stored pairs `b ≤ m`: the code's search direction is minus a fixed
operator applied to the gradient; the operator is linear, symmetric and, if the stored curvature products and the scaling are positive, positive
definite, so the direction is a descent direction for every non-zero gradient; it satisfies the secant equation for the newest pair. -/
theorem C31_direction {n : Nat} (m b e : Nat) (lm : Nat → Entry n) (γ : ℝ) (hb : b ≤ m) (he : e < m) (hγ : 0 < γ)
    (hys : ∀ x ∈ recent m b e lm, 0 < x.ys) :
    ∃ H : Vec n → Vec n, (∀ g, (direction m b e lm γ g).1 = -H g) ∧
      (∀ p q, H (p + q) = H p + H q) ∧ (∀ (c : ℝ) q, H (c • q) = c • H q) ∧
      (∀ p q, dot p (H q) = dot q (H p)) ∧ (∀ q, q ≠ 0 → 0 < dot q (H q)) ∧
      (∀ g, g ≠ 0 → dot g (direction m b e lm γ g).1 < 0) ∧
      (0 < b → (lm ((e + m - 1) % m)).ys = dot (lm ((e + m - 1) % m)).y (lm ((e + m - 1) % m)).s →
        H (lm ((e + m - 1) % m)).y = (lm ((e + m - 1) % m)).s) := by
  have hdir : ∀ g, (direction m b e lm γ g).1 = -invHess γ (recent m b e lm) g := by
    intro g
    rw [direction_eq m b e lm γ g hb he, ← neg_one_smul ℝ g, invHess_smul, neg_one_smul]
  refine ⟨invHess γ (recent m b e lm), hdir, invHess_add _ _, fun c q => invHess_smul _ _ c q,
    invHess_symm _ _ (fun x hx => (hys x hx).ne'), fun q hq => invHess_pos γ hγ _ hys q hq, ?_, ?_⟩
  · intro g hg
    rw [hdir, dot_neg]
    exact neg_neg_of_pos (invHess_pos γ hγ _ hys g hg)
  · intro hb0 hsec
    obtain ⟨b, rfl⟩ := Nat.exists_eq_succ_of_ne_zero hb0.ne'
    exact invHess_secant γ _ _ hsec (hys _ (by simp [recent])).ne'

/-- Non-vacuity of C31: memory 2, both positions used. -/
theorem C31_example : ∃ (lm : Nat → Entry 2), ∀ x ∈ recent 2 2 1 lm, 0 < x.ys ∧ x.ys = dot x.y x.s := by
  refine ⟨fun i => if i = 0 then ⟨0, ![1, 2], ![1, 1], 3⟩ else ⟨0, ![2, -1], ![1, 0], 2⟩, fun x hx => ?_⟩
  simp [recent] at hx
  rcases hx with rfl | rfl <;> norm_num [dot, Fin.sum_univ_two]

end Lbfgs
end Verif
