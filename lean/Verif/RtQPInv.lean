/-
Invariant of the dual active-set QP solver.
-/
import Verif.RtQPLin

namespace Verif
namespace RtQP

theorem dot_comm (n : Nat) (a b : Nat → ℝ) : dot n a b = dot n b a :=
  Finset.sum_congr rfl (fun _ _ => mul_comm _ _)

theorem dot_congr {n : Nat} {a a' b b' : Nat → ℝ} (h : ∀ i < n, a i = a' i) (h' : ∀ i < n, b i = b' i) :
    dot n a b = dot n a' b' :=
  Finset.sum_congr rfl (fun i hi => by rw [h i (Finset.mem_range.1 hi), h' i (Finset.mem_range.1 hi)])

theorem dot_add_smul (n : Nat) (a x z : Nat → ℝ) (t : ℝ) :
    dot n a (fun i => x i + t * z i) = dot n a x + t * dot n a z := by
  simp only [dot, mul_add, Finset.sum_add_distrib, Finset.mul_sum]
  congr 1
  exact Finset.sum_congr rfl (fun _ _ => by ring)

theorem dot_sum (n k : Nat) (a : Nat → ℝ) (u : Nat → ℝ) (N : Nat → Nat → ℝ) :
    dot n a (fun i => ∑ c ∈ Finset.range k, u c * N c i) = ∑ c ∈ Finset.range k, u c * dot n (N c) a := by
  simp only [dot, Finset.mul_sum]
  rw [Finset.sum_comm]
  exact Finset.sum_congr rfl (fun _ _ => Finset.sum_congr rfl (fun _ _ => by ring))

theorem mulV_add_smul (n : Nat) (H : Nat → Nat → ℝ) (x z : Nat → ℝ) (t : ℝ) (i : Nat) :
    mulV n H (fun i => x i + t * z i) i = mulV n H x i + t * mulV n H z i := by
  simp only [mulV, mul_add, Finset.sum_add_distrib, Finset.mul_sum]
  congr 1
  exact Finset.sum_congr rfl (fun _ _ => by ring)

theorem dot_mulV_symm {q : Data} (hv : q.Valid) (a b : Nat → ℝ) :
    dot q.n a (mulV q.n q.H b) = dot q.n b (mulV q.n q.H a) := by
  simp only [dot, mulV, Finset.mul_sum]
  rw [Finset.sum_comm]
  apply Finset.sum_congr rfl
  intro i hi
  apply Finset.sum_congr rfl
  intro k hk
  rw [hv.symm i (Finset.mem_range.1 hi) k (Finset.mem_range.1 hk)]
  ring

theorem gram_symm (n : Nat) (J : Nat → Nat → ℝ) (i l : Nat) : gram n J i l = gram n J l i :=
  Finset.sum_congr rfl (fun _ _ => mul_comm _ _)

/-- `v = J J' (H v)`. -/
theorem eq_gram_mulV {q : Data} (hv : q.Valid) (v : Nat → ℝ) (i : Nat) (hi : i < q.n) :
    v i = ∑ k ∈ Finset.range q.n, q.J0 i k * computeD q.n q.J0 (mulV q.n q.H v) k := by
  have e1 : ∑ k ∈ Finset.range q.n, q.J0 i k * computeD q.n q.J0 (mulV q.n q.H v) k =
      ∑ l ∈ Finset.range q.n, gram q.n q.J0 i l * mulV q.n q.H v l := by
    simp only [computeD, gram, Finset.mul_sum, Finset.sum_mul]
    rw [Finset.sum_comm]
    exact Finset.sum_congr rfl (fun _ _ => Finset.sum_congr rfl (fun _ _ => by ring))
  have e2 : ∑ l ∈ Finset.range q.n, gram q.n q.J0 i l * mulV q.n q.H v l =
      ∑ k ∈ Finset.range q.n, (∑ l ∈ Finset.range q.n, q.H k l * gram q.n q.J0 l i) * v k := by
    simp only [mulV, Finset.mul_sum, Finset.sum_mul]
    rw [Finset.sum_comm]
    apply Finset.sum_congr rfl
    intro k hk
    apply Finset.sum_congr rfl
    intro l hl
    rw [hv.symm l (Finset.mem_range.1 hl) k (Finset.mem_range.1 hk), gram_symm q.n q.J0 i l]
    ring
  rw [e1, e2, Finset.sum_congr rfl (fun k hk => by rw [hv.inv k (Finset.mem_range.1 hk) i hi])]
  simp [hi]

theorem quad_eq {q : Data} (hv : q.Valid) (v : Nat → ℝ) :
    dot q.n v (mulV q.n q.H v) = ∑ k ∈ Finset.range q.n, computeD q.n q.J0 (mulV q.n q.H v) k ^ 2 := by
  have : dot q.n v (mulV q.n q.H v) =
      dot q.n (fun i => ∑ k ∈ Finset.range q.n, q.J0 i k * computeD q.n q.J0 (mulV q.n q.H v) k)
        (mulV q.n q.H v) := dot_congr (fun i hi => eq_gram_mulV hv v i hi) (fun _ _ => rfl)
  rw [this]
  generalize mulV q.n q.H v = w
  simp only [dot, Finset.sum_mul]
  rw [Finset.sum_comm]
  apply Finset.sum_congr rfl
  intro k _
  rw [pow_two]
  have e : computeD q.n q.J0 w k * computeD q.n q.J0 w k =
      ∑ i ∈ Finset.range q.n, (q.J0 i k * w i) * computeD q.n q.J0 w k := by
    rw [← Finset.sum_mul]; rfl
  rw [e]
  exact Finset.sum_congr rfl (fun _ _ => by ring)

theorem quad_nonneg {q : Data} (hv : q.Valid) (v : Nat → ℝ) : 0 ≤ dot q.n v (mulV q.n q.H v) := by
  rw [quad_eq hv]
  exact Finset.sum_nonneg (fun _ _ => sq_nonneg _)

theorem quad_zero {q : Data} (hv : q.Valid) (v : Nat → ℝ) (h : dot q.n v (mulV q.n q.H v) = 0) (i : Nat)
    (hi : i < q.n) : v i = 0 := by
  rw [quad_eq hv] at h
  have h0 := (Finset.sum_eq_zero_iff_of_nonneg (fun _ _ => sq_nonneg _)).1 h
  rw [eq_gram_mulV hv v i hi]
  apply Finset.sum_eq_zero
  intro k hk
  rw [pow_eq_zero_iff (by norm_num)|>.1 (h0 k hk), mul_zero]

theorem dot_self_zero {n : Nat} {v : Nat → ℝ} (h : dot n v v = 0) (i : Nat) (hi : i < n) : v i = 0 := by
  have h0 := (Finset.sum_eq_zero_iff_of_nonneg (fun i _ => mul_self_nonneg (v i))).1 h
  exact mul_self_eq_zero.1 (h0 i (Finset.mem_range.2 hi))

theorem dot_self_nonneg (n : Nat) (v : Nat → ℝ) : 0 ≤ dot n v v :=
  Finset.sum_nonneg (fun i _ => mul_self_nonneg (v i))

/-- The gradient `H x + g`. -/
noncomputable def grad (q : Data) (x : Nat → ℝ) (i : Nat) : ℝ := mulV q.n q.H x i + q.g i

theorem objective_add {q : Data} (hv : q.Valid) (x z : Nat → ℝ) (t : ℝ) :
    q.objective (fun i => x i + t * z i) =
      q.objective x + 2 * t * dot q.n z (grad q x) + t ^ 2 * dot q.n z (mulV q.n q.H z) := by
  have e1 : dot q.n (fun i => x i + t * z i) (mulV q.n q.H (fun i => x i + t * z i)) =
      dot q.n x (mulV q.n q.H x) + 2 * t * dot q.n z (mulV q.n q.H x) +
        t ^ 2 * dot q.n z (mulV q.n q.H z) := by
    rw [dot_congr (fun _ _ => rfl) (fun i _ => mulV_add_smul q.n q.H x z t i), dot_add_smul, dot_comm,
      dot_comm q.n (fun i => x i + t * z i) (mulV q.n q.H z), dot_add_smul, dot_add_smul,
      dot_comm q.n _ x, dot_comm q.n _ z, dot_comm q.n _ x, dot_comm q.n _ z, dot_mulV_symm hv x z]
    ring
  have e2 : dot q.n z (grad q x) = dot q.n z (mulV q.n q.H x) + dot q.n q.g z := by
    rw [dot_comm q.n q.g]
    simp only [dot, grad, mul_add, Finset.sum_add_distrib]
  unfold Data.objective
  rw [e1, dot_add_smul, e2]
  ring

/-- Normal of the constraint at position `c` of the active set. -/
def nrm (q : Data) (A : Nat → Nat) (c : Nat) : Nat → ℝ :=
  if c < q.p then q.CE c else fun i => -(q.CI (A c) i)

/-- Offset: the constraint is `nrm . x = off` (equality) or `nrm . x >= off` (inequality). -/
def off (q : Data) (A : Nat → Nat) (c : Nat) : ℝ := if c < q.p then -(q.ce0 c) else q.ci0 (A c)

theorem dot_neg (n : Nat) (a x : Nat → ℝ) : dot n (fun i => -(a i)) x = -(dot n a x) := by
  simp [dot]

/-- The part of the invariant about the iterate and the active set. `e = 1` at `l2a`, where the pending
constraint is at position `iq`. -/
structure Core (q : Data) (x u : Nat → ℝ) (J R : Nat → Nat → ℝ) (A : Nat → Nat) (iq e : Nat) : Prop where
  fac : Fac q.n (gram q.n q.J0) J R (nrm q A) iq
  le : q.p ≤ iq
  stat : ∀ i < q.n, grad q x i = ∑ c ∈ Finset.range (iq + e), u c * nrm q A c i
  act : ∀ c < iq, dot q.n (nrm q A c) x = off q A c
  dual : ∀ c, q.p ≤ c → c < iq + e → 0 ≤ u c
  lt : ∀ c, q.p ≤ c → c < iq + e → A c < q.m
  inj : ∀ c c', q.p ≤ c → c < iq + e → q.p ≤ c' → c' < iq + e → A c = A c' → c = c'

theorem feasible_nrm {q : Data} {y : Nat → ℝ} (hy : q.Feasible y) {A : Nat → Nat} {c : Nat}
    (h : q.p ≤ c → A c < q.m) : off q A c ≤ dot q.n (nrm q A c) y ∧
      (c < q.p → dot q.n (nrm q A c) y = off q A c) := by
  unfold nrm off
  by_cases hc : c < q.p
  · simp only [hc, if_true, forall_const]
    have := hy.1 c hc
    constructor <;> linarith
  · simp only [hc, if_false, false_imp_iff, and_true]
    rw [dot_neg]
    have := hy.2 _ (h (by omega))
    linarith

/-- At a stationary point with nonnegative multipliers no point that meets the equalities and violates no
inequality more has a smaller objective. -/
theorem Core.optimal_relaxed {q : Data} (hv : q.Valid) {x u : Nat → ℝ} {J R : Nat → Nat → ℝ} {A : Nat → Nat}
    {iq : Nat} (h : Core q x u J R A iq 0) {y : Nat → ℝ} (hye : q.EqHold y)
    (hyi : ∀ i < q.m, dot q.n (q.CI i) y + q.ci0 i ≤ max 0 (dot q.n (q.CI i) x + q.ci0 i)) :
    q.objective x ≤ q.objective y := by
  have e : q.objective y = q.objective (fun i => x i + 1 * (y i - x i)) := by
    congr 1; funext i; ring
  rw [e, objective_add hv]
  have h1 := quad_nonneg hv (fun i => y i - x i)
  have h2 : 0 ≤ dot q.n (fun i => y i - x i) (grad q x) := by
    rw [dot_congr (fun _ _ => rfl) h.stat, dot_sum]
    apply Finset.sum_nonneg
    intro c hc
    have hc := Finset.mem_range.1 hc
    have e2 : dot q.n (nrm q A c) (fun i => y i - x i) = dot q.n (nrm q A c) y - off q A c := by
      rw [← h.act c (by omega)]
      simp only [dot, mul_sub, Finset.sum_sub_distrib]
    rw [e2]
    by_cases hcp : c < q.p
    · have f2 : dot q.n (nrm q A c) y = off q A c := by
        unfold nrm off
        simp only [hcp, if_true]
        have := hye c hcp
        linarith
      rw [f2]; simp
    · have hlt := h.lt c (by omega) hc
      have ha := h.act c (by omega)
      have f1 : off q A c ≤ dot q.n (nrm q A c) y := by
        unfold nrm off at ha ⊢
        simp only [hcp, if_false] at ha ⊢
        rw [dot_neg] at ha ⊢
        have := hyi _ hlt
        rw [show dot q.n (q.CI (A c)) x + q.ci0 (A c) = 0 by linarith, max_self] at this
        linarith
      exact mul_nonneg (h.dual c (by omega) hc) (by linarith)
  nlinarith

/-- At a stationary point with nonnegative multipliers no feasible point has a smaller objective. -/
theorem Core.optimal {q : Data} (hv : q.Valid) {x u : Nat → ℝ} {J R : Nat → Nat → ℝ} {A : Nat → Nat}
    {iq : Nat} (h : Core q x u J R A iq 0) {y : Nat → ℝ} (hy : q.Feasible y) :
    q.objective x ≤ q.objective y :=
  h.optimal_relaxed hv hy.1 (fun i hi => (hy.2 i hi).trans (le_max_left _ _))

theorem Fac.congrN {n : Nat} {G J R N N' : Nat → Nat → ℝ} {iq : Nat} (h : Fac n G J R N iq)
    (hN : ∀ c < iq, ∀ i < n, N' c i = N c i) : Fac n G J R N' iq :=
  ⟨h.le, h.gram, fun c hc k hk => by rw [computeD_congr n J _ _ (hN c hc), h.fac c hc k hk], h.diag⟩

theorem sum_dropAt (k : Nat) (f : Nat → ℝ) : ∀ m, k ≤ m →
    ∑ c ∈ Finset.range (m + 1), f c = f k + ∑ c ∈ Finset.range m, dropAt k f c := by
  intro m hm
  induction m, hm using Nat.le_induction with
  | base =>
    rw [Finset.sum_range_succ, add_comm]
    congr 1
    exact Finset.sum_congr rfl (fun c hc => by rw [dropAt, if_pos (Finset.mem_range.1 hc)])
  | succ m hm ih =>
    rw [Finset.sum_range_succ, ih, Finset.sum_range_succ (dropAt k f), dropAt, if_neg (by omega)]
    ring

theorem Core.drop {q : Data} {x u : Nat → ℝ} {J R : Nat → Nat → ℝ} {A : Nat → Nat}
    {iq k : Nat} (h : Core q x u J R A iq 1) (hk1 : q.p ≤ k) (hk2 : k < iq) (hu : u k = 0) :
    let b := deleteConstraint q.p (A k) ⟨R, J, A, u, iq⟩
    Core q x b.u b.J b.R b.A b.iq 1 ∧ b.iq = iq - 1 ∧ b.A b.iq = A iq ∧ b.u b.iq = u iq ∧
    (∀ i, (∃ c, q.p ≤ c ∧ c < b.iq ∧ b.A c = i) ↔ (∃ c, q.p ≤ c ∧ c < iq ∧ A c = i) ∧ i ≠ A k) := by
  intro b
  obtain ⟨d1, d2, d3, d4⟩ := deleteConstraint_spec (a := ⟨R, J, A, u, iq⟩) h.fac hk1 hk2 rfl
    (fun k' h1 h2 h3 => h.inj k' k h1 (by simp only at h2; omega) hk1 (by omega) h3)
  simp only at d1 d2 d3 d4
  change b.iq = iq - 1 at d1
  change Fac _ _ b.J b.R _ b.iq at d2
  change ∀ i ≤ b.iq, b.A i = _ at d3
  change ∀ i ≤ b.iq, b.u i = _ at d4
  have hN : ∀ c ≤ b.iq, nrm q b.A c = dropAt k (nrm q A) c := by
    intro c hc
    unfold nrm
    rw [d3 c hc]
    unfold dropAt
    by_cases hck : c < k
    · simp [hck]
    · simp only [hck, if_false]
      rw [if_neg (by omega), if_neg (by omega)]
  have hO : ∀ c ≤ b.iq, off q b.A c = dropAt k (off q A) c := by
    intro c hc
    unfold off
    rw [d3 c hc]
    unfold dropAt
    by_cases hck : c < k
    · simp [hck]
    · simp only [hck, if_false]
      rw [if_neg (by omega), if_neg (by omega)]
  refine ⟨⟨?_, by omega, ?_, ?_, ?_, ?_, ?_⟩, d1, ?_, ?_, ?_⟩
  · exact d2.congrN (fun c hc i _ => by rw [hN c (by omega)])
  · intro i hi
    rw [h.stat i hi, show iq + 1 = iq - 1 + 1 + 1 by omega, sum_dropAt k _ (iq - 1 + 1) (by omega), hu,
      zero_mul, zero_add, d1]
    apply Finset.sum_congr rfl
    intro c hc
    have hc := Finset.mem_range.1 hc
    rw [d4 c (by omega), hN c (by omega)]
    unfold dropAt
    split_ifs <;> rfl
  · intro c hc
    rw [hN c (by omega), hO c (by omega)]
    unfold dropAt
    split_ifs
    · exact h.act c (by omega)
    · exact h.act (c + 1) (by omega)
  · intro c hc1 hc2
    rw [d4 c (by omega)]
    unfold dropAt
    split_ifs
    · exact h.dual c hc1 (by omega)
    · exact h.dual (c + 1) (by omega) (by omega)
  · intro c hc1 hc2
    rw [d3 c (by omega)]
    unfold dropAt
    split_ifs
    · exact h.lt c hc1 (by omega)
    · exact h.lt (c + 1) (by omega) (by omega)
  · intro c c' h1 h2 h3 h4 h5
    rw [d3 c (by omega), d3 c' (by omega)] at h5
    unfold dropAt at h5
    split_ifs at h5 with g1 g2 g2
    · exact h.inj c c' h1 (by omega) h3 (by omega) h5
    · have := h.inj c (c' + 1) h1 (by omega) (by omega) (by omega) h5; omega
    · have := h.inj (c + 1) c' (by omega) (by omega) h3 (by omega) h5; omega
    · have := h.inj (c + 1) (c' + 1) (by omega) (by omega) (by omega) (by omega) h5; omega
  · rw [d3 _ le_rfl, dropAt, if_neg (by omega)]; congr 1; omega
  · rw [d4 _ le_rfl, dropAt, if_neg (by omega)]; congr 1; omega
  · intro i
    constructor
    · rintro ⟨c, h1, h2, h3⟩
      rw [d3 c (by omega)] at h3
      unfold dropAt at h3
      split_ifs at h3 with g1
      · refine ⟨⟨c, h1, by omega, h3⟩, ?_⟩
        rintro rfl
        have := h.inj c k h1 (by omega) hk1 (by omega) h3; omega
      · refine ⟨⟨c + 1, by omega, by omega, h3⟩, ?_⟩
        rintro rfl
        have := h.inj (c + 1) k (by omega) (by omega) hk1 (by omega) h3; omega
    · rintro ⟨⟨c, h1, h2, h3⟩, h4⟩
      have hck : c ≠ k := by rintro rfl; exact h4 h3.symm
      by_cases hlt : c < k
      · exact ⟨c, h1, by omega, by rw [d3 c (by omega), dropAt, if_pos hlt, h3]⟩
      · refine ⟨c - 1, by omega, by omega, ?_⟩
        rw [d3 (c - 1) (by omega), dropAt, if_neg (by omega), ← h3]
        congr 1; omega

/-- The primal direction used by the solver. -/
theorem dir_eq (q : Data) (st : St) (h : st.iq ≤ q.n) :
    q.dir st = updateZ q.n st.J (computeD q.n st.J (fun i => -(q.CI st.ip i))) st.iq := by
  unfold Data.dir
  simp only
  split_ifs with h1
  · funext i
    rw [updateZ, show st.iq = q.n by omega]; simp
  · rfl

theorem Core.move {q : Data} (hv : q.Valid) {x u : Nat → ℝ} {J R : Nat → Nat → ℝ} {A : Nat → Nat}
    {iq : Nat} (h : Core q x u J R A iq 1) {t : ℝ} (ht : 0 ≤ t) (z r : Nat → ℝ)
    (hz : z = updateZ q.n J (computeD q.n J (nrm q A iq)) iq)
    (hr : r = updateR R (computeD q.n J (nrm q A iq)) iq)
    (hmin : ∀ k, q.p ≤ k → k < iq → 0 < r k → t ≤ u k / r k) :
    Core q (fun i => x i + t * z i)
      (fun i => if i = iq then u i + t else if i < iq then u i - t * r i else u i) J R A iq 1 ∧
    q.objective (fun i => x i + t * z i) / 2 =
      q.objective x / 2 + t * dot q.n z (nrm q A iq) * (1 / 2 * t + u iq) ∧
    dot q.n z (mulV q.n q.H z) = dot q.n z (nrm q A iq) := by
  obtain ⟨D1, D2, D3⟩ := direction h.fac hv.inv (nrm q A iq)
  rw [← hz, ← hr] at D1
  rw [← hz] at D2 D3
  have hzH : dot q.n z (mulV q.n q.H z) = dot q.n z (nrm q A iq) := by
    rw [dot_congr (fun _ _ => rfl) D1]
    have : dot q.n z (fun i => nrm q A iq i - ∑ c ∈ Finset.range iq, r c * nrm q A c i) =
        dot q.n z (nrm q A iq) - dot q.n z (fun i => ∑ c ∈ Finset.range iq, r c * nrm q A c i) := by
      simp only [dot, mul_sub, Finset.sum_sub_distrib]
    rw [this, dot_sum, Finset.sum_eq_zero, sub_zero]
    intro c hc
    rw [dot_comm, D2 c (Finset.mem_range.1 hc), mul_zero]
  refine ⟨⟨h.fac, h.le, ?_, ?_, ?_, h.lt, h.inj⟩, ?_, hzH⟩
  · intro i hi
    have e : grad q (fun i => x i + t * z i) i = grad q x i + t * mulV q.n q.H z i := by
      unfold grad; rw [mulV_add_smul]; ring
    rw [e, h.stat i hi, D1 i hi, Finset.sum_range_succ, Finset.sum_range_succ, if_pos rfl]
    have : ∀ c ∈ Finset.range iq, (if c = iq then u c + t else if c < iq then u c - t * r c else u c) *
        nrm q A c i = u c * nrm q A c i - t * (r c * nrm q A c i) := by
      intro c hc
      have := Finset.mem_range.1 hc
      rw [if_neg (by omega), if_pos this]; ring
    rw [Finset.sum_congr rfl this, Finset.sum_sub_distrib, ← Finset.mul_sum]
    ring
  · intro c hc
    rw [dot_add_smul, h.act c hc, dot_comm, D2 c hc, mul_zero, add_zero]
  · intro c hc1 hc2
    by_cases hc : c = iq
    · subst hc
      rw [if_pos rfl]
      have := h.dual c hc1 hc2
      linarith
    · rw [if_neg hc, if_pos (by omega)]
      have hu := h.dual c hc1 hc2
      rcases lt_or_ge 0 (r c) with hr' | hr'
      · have := hmin c hc1 (by omega) hr'
        rw [le_div_iff₀ hr'] at this
        linarith
      · nlinarith
  · rw [objective_add hv, hzH]
    have : dot q.n z (grad q x) = u iq * dot q.n z (nrm q A iq) := by
      rw [dot_congr (fun _ _ => rfl) h.stat, dot_sum, Finset.sum_range_succ, Finset.sum_eq_zero, zero_add,
        dot_comm]
      intro c hc
      rw [dot_comm, D2 c (Finset.mem_range.1 hc), mul_zero]
    rw [this]
    ring

theorem ratio_none (q : Data) (u r : Nat → ℝ) : ∀ j, q.ratio u r j = none →
    ∀ k, q.p ≤ k → k < q.p + j → r k ≤ 0 := by
  intro j
  induction j with
  | zero => intro _ k h1 h2; omega
  | succ j ih =>
    intro h k h1 h2
    unfold Data.ratio at h
    simp only at h
    split_ifs at h with hc
    have := ih h
    by_cases hk : k < q.p + j
    · exact this k h1 hk
    · have hk : k = q.p + j := by omega
      subst hk
      by_contra hr
      push Not at hr
      apply hc
      rw [h]
      exact ⟨hr, trivial⟩

theorem ratio_some (q : Data) (u r : Nat → ℝ) : ∀ j t k, q.ratio u r j = some (t, k) →
    q.p ≤ k ∧ k < q.p + j ∧ 0 < r k ∧ t = u k / r k ∧
    ∀ k', q.p ≤ k' → k' < q.p + j → 0 < r k' → t ≤ u k' / r k' := by
  intro j
  induction j with
  | zero => intro t k h; simp [Data.ratio] at h
  | succ j ih =>
    intro t k h
    unfold Data.ratio at h
    simp only at h
    split_ifs at h with hc
    · simp only [Option.some.injEq, Prod.mk.injEq] at h
      obtain ⟨h1, h2⟩ := h
      subst h2
      refine ⟨by omega, by omega, hc.1, h1.symm, ?_⟩
      intro k' g1 g2 g3
      by_cases hk : k' < q.p + j
      · cases hb : q.ratio u r j with
        | none =>
          have := ratio_none q u r j hb k' g1 hk
          linarith
        | some b =>
          obtain ⟨t', k2⟩ := b
          have h3 := hc.2
          rw [hb] at h3
          simp only at h3
          have := (ih t' k2 hb).2.2.2.2 k' g1 hk g3
          linarith
      · have : k' = q.p + j := by omega
        subst this
        linarith
    · obtain ⟨a1, a2, a3, a4, a5⟩ := ih t k h
      refine ⟨a1, by omega, a3, a4, ?_⟩
      intro k' g1 g2 g3
      by_cases hk : k' < q.p + j
      · exact a5 k' g1 hk g3
      · have : k' = q.p + j := by omega
        subst this
        by_contra hlt
        push Not at hlt
        apply hc
        rw [h]
        exact ⟨g3, hlt⟩

/-- The invariant at the three labels. -/
structure Inv (q : Data) (st : St) (e : Nat) : Prop where
  core : Core q st.x st.u st.J st.R st.A st.iq e
  fval : st.f = q.objective st.x / 2
  rnorm : 0 ≤ st.Rnorm
  iai : ∀ i < q.m, st.iai i = false ↔ ∃ c, q.p ≤ c ∧ c < st.iq ∧ st.A c = i

/-- At `l2`: the slacks are current, the search starts from zero. -/
structure Inv2 (q : Data) (st : St) : Prop where
  inv : Inv q st 0
  s : ∀ i, st.s i = q.slack st.x i
  ss : st.ss = 0
  excl : ∀ i, st.iaexcl i = true

/-- At `l2a`: the pending constraint is violated, not active and sits at position `iq`. -/
structure Inv2a (q : Data) (st : St) : Prop where
  inv : Inv q st 1
  ip : st.A st.iq = st.ip
  s : st.s st.ip = q.slack st.x st.ip
  neg : st.s st.ip < 0

/-- The numerical tests at `l2a` decide correctly: a direction treated as zero is zero, and a constraint
with a nonzero direction is accepted by `addConstraint`. -/
def Decisive (q : Data) (st : St) : Prop :=
  st.pc = .l2a →
    (dot q.n (q.dir st) (q.dir st) ≤ q.eps → ∀ i < q.n, q.dir st i = 0) ∧
    (q.eps < dot q.n (q.dir st) (q.dir st) →
      (addConstraint q.n q.eps st.R st.J (computeD q.n st.J (fun i => -(q.CI st.ip i))) st.iq
        st.Rnorm).2.2.2 = true)

/-- The invariant of the main loop. -/
def Good (q : Data) (st : St) : Prop :=
  match st.pc with
  | .l1 => Inv q st 0
  | .l2 => Inv2 q st
  | .l2a => Inv2a q st
  | .ret (some v) => v = q.objective st.x / 2 ∧ Inv q st 0 ∧
      q.violation st.x ≤ q.m * q.eps * q.c1 * q.c2 * 100
  | .ret none => ∀ y, ¬ q.Feasible y
  | .ub => False

theorem tol_nonneg {q : Data} (hv : q.Valid) : 0 ≤ q.m * q.eps * q.c1 * q.c2 * 100 := by
  have h1 : 0 ≤ q.c1 := by
    apply Finset.sum_nonneg
    intro i hi
    have h := quad_nonneg hv (fun k => if k = i then 1 else 0)
    have e : dot q.n (fun k => if k = i then (1 : ℝ) else 0)
        (mulV q.n q.H (fun k => if k = i then (1 : ℝ) else 0)) = q.H i i := by
      simp [dot, mulV, Finset.mem_range.1 hi]
    rwa [e] at h
  have h2 : 0 ≤ q.c2 := Finset.sum_nonneg (fun i hi => hv.diag i (Finset.mem_range.1 hi))
  have := hv.eps
  positivity

theorem pick_spec (st : St) (hss : st.ss = 0) (k : Nat) :
    (Data.pick st k).1 ≤ 0 ∧
    ((Data.pick st k).1 < 0 → ((Data.pick st k).2 < k ∧ st.s (Data.pick st k).2 = (Data.pick st k).1 ∧
      st.iai (Data.pick st k).2 = true)) ∧
    ∀ i < k, st.iai i = true → st.iaexcl i = true → (Data.pick st k).1 ≤ st.s i := by
  induction k with
  | zero => simp [Data.pick, hss]
  | succ k ih =>
    obtain ⟨h1, h2, h3⟩ := ih
    unfold Data.pick
    simp only
    split_ifs with hc
    · refine ⟨by simp only; linarith [hc.1], fun _ => ⟨by simp, rfl, hc.2.1⟩, ?_⟩
      intro i hi h4 h5
      by_cases hik : i = k
      · subst hik; exact le_rfl
      · exact hc.1.le.trans (h3 i (by omega) h4 h5)
    · refine ⟨h1, fun h => ?_, ?_⟩
      · obtain ⟨a, b, c⟩ := h2 h
        exact ⟨by omega, b, c⟩
      · intro i hi h4 h5
        by_cases hik : i = k
        · subst hik
          by_contra hlt
          exact hc ⟨not_le.1 hlt, h4, h5⟩
        · exact h3 i (by omega) h4 h5

theorem slack_active {q : Data} {st : St} {e : Nat} (h : Inv q st e) {i : Nat} (hi : i < q.m)
    (ha : st.iai i = false) : q.slack st.x i = 0 := by
  obtain ⟨c, h1, h2, h3⟩ := (h.iai i hi).1 ha
  have := h.core.act c h2
  unfold nrm off at this
  rw [if_neg (by omega), if_neg (by omega), dot_neg, h3] at this
  unfold Data.slack
  linarith

open Classical in
theorem stepL1_good {q : Data} {st : St} (h : Inv q st 0) :
    Good q (q.stepL1 st) := by
  have key : ∀ i < q.m, 
      (if ∃ k, q.p ≤ k ∧ k < st.iq ∧ st.A k = i then false else st.iai i) = false ↔
      ∃ c, q.p ≤ c ∧ c < st.iq ∧ st.A c = i := by
    intro i hi
    split_ifs with h1
    · simp [h1]
    · rw [h.iai i hi]
  unfold Data.stepL1
  simp only
  split_ifs with hpsi
  · simp only [Good]
    refine ⟨h.fval, ⟨h.core, h.fval, h.rnorm, key⟩, ?_⟩
    refine le_trans (le_of_eq ?_) hpsi
    have : ∑ i ∈ Finset.range q.m, min 0 (q.slack st.x i) = - q.violation st.x := by
      unfold Data.violation
      rw [← Finset.sum_neg_distrib]
      apply Finset.sum_congr rfl
      intro i _
      unfold Data.slack
      rw [← neg_zero, min_neg_neg, neg_zero]
    rw [this, abs_neg, abs_of_nonneg]
    exact Finset.sum_nonneg (fun i _ => le_max_left _ _)
  · simp only [Good]
    exact ⟨⟨h.core, h.fval, h.rnorm, key⟩, fun _ => rfl, rfl, fun _ => rfl⟩

theorem injOn_le {q : Data} {A : Nat → Nat} {k : Nat} (hlt : ∀ c, q.p ≤ c → c < k → A c < q.m)
    (hinj : ∀ c c', q.p ≤ c → c < k → q.p ≤ c' → c' < k → A c = A c' → c = c') : k - q.p ≤ q.m := by
  have := Finset.card_le_card_of_injOn (s := Finset.Ico q.p k) (t := Finset.range q.m) A
    (fun c hc => by
      have := Finset.mem_Ico.1 hc
      exact Finset.mem_coe.2 (Finset.mem_range.2 (hlt c this.1 this.2)))
    (fun c hc c' hc' h => by
      have h1 := Finset.mem_Ico.1 (Finset.mem_coe.1 hc)
      have h2 := Finset.mem_Ico.1 (Finset.mem_coe.1 hc')
      exact hinj c c' h1.1 h1.2 h2.1 h2.2 h)
  simpa using this

theorem stepL2_good {q : Data} (hv : q.Valid) {st : St} (h : Inv2 q st) :
    Good q (q.stepL2 st) := by
  obtain ⟨p1, p2, p3⟩ := pick_spec st h.ss q.m
  unfold Data.stepL2
  simp only
  split_ifs with hss hub
  · simp only [Good]
    refine ⟨h.inv.fval, ⟨h.inv.core, h.inv.fval, h.inv.rnorm, h.inv.iai⟩, ?_⟩
    have : q.violation st.x = 0 := by
      apply Finset.sum_eq_zero
      intro i hi
      have hi := Finset.mem_range.1 hi
      have hs : 0 ≤ q.slack st.x i := by
        cases hia : st.iai i with
        | false => exact (slack_active h.inv hi hia).ge
        | true =>
          have := p3 i hi hia (h.excl i)
          rw [h.s i] at this
          linarith
      unfold Data.slack at hs
      exact max_eq_left (by linarith)
    rw [this]
    exact tol_nonneg hv
  all_goals
    obtain ⟨k1, k2, k3⟩ := p2 (not_le.1 hss)
    have hnew : ∀ c, q.p ≤ c → c < st.iq → st.A c ≠ (Data.pick st q.m).2 := by
      intro c h1 h2 h3
      have := (h.inv.iai _ k1).2 ⟨c, h1, h2, h3⟩
      rw [k3] at this
      exact absurd this (by simp)
    have c1 : ∀ c, q.p ≤ c → c < st.iq + 1 →
        (if c = st.iq then (Data.pick st q.m).2 else st.A c) < q.m := by
      intro c h1 h2
      split_ifs with h3
      · exact k1
      · exact h.inv.core.lt c h1 (by omega)
    have c2 : ∀ c c', q.p ≤ c → c < st.iq + 1 → q.p ≤ c' → c' < st.iq + 1 →
        (if c = st.iq then (Data.pick st q.m).2 else st.A c) =
        (if c' = st.iq then (Data.pick st q.m).2 else st.A c') → c = c' := by
      intro c c' h1 h2 h3 h4 h5
      split_ifs at h5 with g1 g2 g2
      · omega
      · exact absurd h5.symm (hnew c' h3 (by omega))
      · exact absurd h5 (hnew c h1 (by omega))
      · exact h.inv.core.inj c c' h1 (by omega) h3 (by omega) h5
  · have := injOn_le c1 c2
    have := h.inv.core.le
    omega
  · simp only [Good]
    have hA : ∀ c < st.iq, nrm q (fun k => if k = st.iq then (Data.pick st q.m).2 else st.A k) c =
        nrm q st.A c := by
      intro c hc
      unfold nrm
      simp only
      rw [if_neg (show c ≠ st.iq by omega)]
    have hO : ∀ c < st.iq, off q (fun k => if k = st.iq then (Data.pick st q.m).2 else st.A k) c =
        off q st.A c := by
      intro c hc
      unfold off
      simp only
      rw [if_neg (show c ≠ st.iq by omega)]
    have core : Core q st.x (fun k => if k = st.iq then 0 else st.u k) st.J st.R
        (fun k => if k = st.iq then (Data.pick st q.m).2 else st.A k) st.iq 1 := by
      refine ⟨?_, h.inv.core.le, ?_, ?_, ?_, c1, c2⟩
      · exact h.inv.core.fac.congrN (fun c hc i _ => by rw [hA c hc])
      · intro i hi
        rw [h.inv.core.stat i hi, Finset.sum_range_succ, if_pos rfl, zero_mul, add_zero, add_zero]
        apply Finset.sum_congr rfl
        intro c hc
        have := Finset.mem_range.1 hc
        rw [hA c (by omega), if_neg (by omega)]
      · intro c hc
        rw [hA c hc, hO c hc, h.inv.core.act c hc]
      · intro c h1 h2
        split_ifs with g
        · exact le_rfl
        · exact h.inv.core.dual c h1 (by omega)
    have hiai : ∀ i < q.m, st.iai i = false ↔ ∃ c, q.p ≤ c ∧ c < st.iq ∧
        (if c = st.iq then (Data.pick st q.m).2 else st.A c) = i := by
      intro i hi
      rw [h.inv.iai i hi]
      constructor
      · rintro ⟨c, h1, h2, h3⟩
        exact ⟨c, h1, h2, by rw [if_neg (by omega), h3]⟩
      · rintro ⟨c, h1, h2, h3⟩
        exact ⟨c, h1, h2, by rw [if_neg (by omega)] at h3; exact h3⟩
    exact ⟨⟨core, h.inv.fval, h.inv.rnorm, hiai⟩, by simp, h.s _, by
      simp only
      rw [k2]
      exact not_le.1 hss⟩

theorem nrm_pending {q : Data} {st : St} (h : Inv2a q st) :
    nrm q st.A st.iq = fun i => -(q.CI st.ip i) := by
  unfold nrm
  rw [if_neg (by have := h.inv.core.le; omega), h.ip]

theorem slack_move (q : Data) (x z : Nat → ℝ) (t : ℝ) (i : Nat) :
    q.slack (fun k => x k + t * z k) i = q.slack x i + t * dot q.n z (fun k => -(q.CI i k)) := by
  unfold Data.slack
  rw [dot_add_smul, dot_comm q.n z, dot_neg]
  ring

/-- No feasible point when the new normal is a combination of active ones with the wrong signs. -/
theorem infeasible {q : Data} (hv : q.Valid) {st : St} (h : Inv2a q st)
    (hz : ∀ i < q.n, q.dir st i = 0)
    (hr : ∀ k, q.p ≤ k → k < st.iq →
      updateR st.R (computeD q.n st.J (fun i => -(q.CI st.ip i))) st.iq k ≤ 0) :
    ∀ y, ¬ q.Feasible y := by
  intro y hy
  obtain ⟨D1, -, -⟩ := direction h.inv.core.fac hv.inv (nrm q st.A st.iq)
  rw [nrm_pending h] at D1
  rw [← dir_eq q st h.inv.core.fac.le] at D1
  generalize updateR st.R (computeD q.n st.J (fun i => -(q.CI st.ip i))) st.iq = r at *
  have hnp : ∀ i < q.n, -(q.CI st.ip i) = ∑ c ∈ Finset.range st.iq, r c * nrm q st.A c i := by
    intro i hi
    have := D1 i hi
    rw [show mulV q.n q.H (q.dir st) i = 0 from
      Finset.sum_eq_zero (fun k hk => by rw [hz k (Finset.mem_range.1 hk), mul_zero])] at this
    linarith
  have e : ∀ w, dot q.n (q.CI st.ip) w = -∑ c ∈ Finset.range st.iq, r c * dot q.n (nrm q st.A c) w := by
    intro w
    rw [← dot_sum, ← dot_congr (fun _ _ => rfl) hnp, dot_comm q.n w, dot_neg, neg_neg]
  have h1 := hy.2 st.ip (by rw [← h.ip]; exact h.inv.core.lt _ h.inv.core.le (by omega))
  have h2 := h.neg
  rw [h.s] at h2
  unfold Data.slack at h2
  rw [e] at h1 h2
  have h3 : ∑ c ∈ Finset.range st.iq, r c * dot q.n (nrm q st.A c) y ≤
      ∑ c ∈ Finset.range st.iq, r c * dot q.n (nrm q st.A c) st.x := by
    apply Finset.sum_le_sum
    intro c hc
    have hc := Finset.mem_range.1 hc
    rw [h.inv.core.act c hc]
    obtain ⟨f1, f2⟩ := feasible_nrm hy (A := st.A) (c := c) (fun hp => h.inv.core.lt c hp (by omega))
    by_cases hcp : c < q.p
    · rw [f2 hcp]
    · exact mul_le_mul_of_nonpos_left f1 (hr c (by omega) hc)
  linarith

/-- What one block at `l2a` achieves: it declares infeasibility, or drops a constraint without decreasing
the objective, or activates the pending constraint and increases the objective. -/
theorem stepL2a_good {q : Data} (hv : q.Valid) {st : St} (hpc : st.pc = .l2a) (h : Inv2a q st)
    (hd : Decisive q st) :
    ((q.stepL2a st).pc = .ret none ∧ ∀ y, ¬ q.Feasible y) ∨
    ((q.stepL2a st).pc = .l2a ∧ Inv2a q (q.stepL2a st) ∧ (q.stepL2a st).iq + 1 = st.iq ∧
      st.f ≤ (q.stepL2a st).f) ∨
    ((q.stepL2a st).pc = .l1 ∧ Inv q (q.stepL2a st) 0 ∧ st.f < (q.stepL2a st).f) := by
  obtain ⟨hd1, hd2⟩ := hd hpc
  have hle := h.inv.core.fac.le
  have hzdef := dir_eq q st hle
  have hp := h.inv.core.le
  have hnp := nrm_pending h
  set np : Nat → ℝ := fun i => -(q.CI st.ip i) with hnpdef
  set z := q.dir st with hz
  set r := updateR st.R (computeD q.n st.J np) st.iq with hr
  have hzz : |dot q.n z z| = dot q.n z z := abs_of_nonneg (dot_self_nonneg _ _)
  have hip : st.ip < q.m := by rw [← h.ip]; exact h.inv.core.lt _ hp (by omega)
  have hnotact : ∀ c, q.p ≤ c → c < st.iq → st.A c ≠ st.ip := by
    intro c h1 h2 h3
    rw [← h.ip] at h3
    have := h.inv.core.inj c st.iq h1 (by omega) hp (by omega) h3
    omega
  have hmv := fun t ht hmin => h.inv.core.move hv (t := t) ht z r (by rw [hzdef, hnp]) (by rw [hr, hnp]) hmin
  have hzH : dot q.n z (mulV q.n q.H z) = dot q.n z np := by
    have := (hmv 0 le_rfl (fun k h1 h2 h3 =>
      div_nonneg (h.inv.core.dual k h1 (by omega)) h3.le)).2.2
    rwa [hnp] at this
  rw [hnp] at hmv
  -- position dropped by the ratio test
  have hdrop : ∀ t k, q.ratio st.u r (st.iq - q.p) = some (t, k) →
      q.p ≤ k ∧ k < st.iq ∧ 0 ≤ t ∧ (st.u k - t * r k = 0) ∧
      (∀ k', q.p ≤ k' → k' < st.iq → 0 < r k' → t ≤ st.u k' / r k') := by
    intro t k hk
    obtain ⟨a1, a2, a3, a4, a5⟩ := ratio_some q st.u r _ t k hk
    refine ⟨a1, by omega, ?_, ?_, fun k' g1 g2 => a5 k' g1 (by omega)⟩
    · rw [a4]; exact div_nonneg (h.inv.core.dual k a1 (by omega)) a3.le
    · rw [a4, div_mul_cancel₀ _ a3.ne', sub_self]
  have hstep : q.stepL2a st = q.stepL2a st := rfl
  conv at hstep => rhs; unfold Data.stepL2a
  simp only [← hnpdef, ← hz, ← hr] at hstep
  rw [hzz] at hstep
  by_cases hbig : dot q.n z z > q.eps
  · -- a step in the primal space
    have hpos : 0 < dot q.n z np := by
      rw [← hzH]
      rcases (quad_nonneg hv z).lt_or_eq with h0 | h0
      · exact h0
      · exfalso
        have : dot q.n z z = 0 := Finset.sum_eq_zero (fun i hi => by
          rw [quad_zero hv z h0.symm i (Finset.mem_range.1 hi), mul_zero])
        have := hv.eps
        linarith
    have hacc := hd2 hbig
    rw [if_pos hbig] at hstep
    set t2 := -(st.s st.ip) / dot q.n z np with ht2
    have ht2pos : 0 < t2 := div_pos (by have := h.neg; linarith) hpos
    -- the full step
    have hfull : (∀ k, q.p ≤ k → k < st.iq → 0 < r k → t2 ≤ st.u k / r k) →
        ∀ a, a = addConstraint q.n q.eps st.R st.J (computeD q.n st.J np) st.iq st.Rnorm →
        Inv q { st with x := fun i => st.x i + t2 * z i
                        f := st.f + t2 * dot q.n z np * (1 / 2 * t2 + st.u st.iq)
                        u := fun i => if i = st.iq then st.u i + t2 else
                          if i < st.iq then st.u i - t2 * r i else st.u i
                        R := a.1, J := a.2.1, Rnorm := a.2.2.1, iq := st.iq + 1
                        iai := fun i => if i = st.ip then false else st.iai i, pc := .l1 } 0 ∧
        st.f < st.f + t2 * dot q.n z np * (1 / 2 * t2 + st.u st.iq) := by
      intro hmin a ha
      obtain ⟨m1, m2, -⟩ := hmv t2 ht2pos.le hmin
      have hlt : st.iq < q.n := by
        rcases hle.lt_or_eq with h0 | h0
        · exact h0
        · exfalso
          have : dot q.n z z = 0 := Finset.sum_eq_zero (fun i hi => by
            rw [hzdef, updateZ, h0]; simp)
          have := hv.eps
          linarith
      have had := addConstraint_spec h.inv.core.fac hlt q.eps st.Rnorm (mul_nonneg hv.eps h.inv.rnorm)
      simp only [hnp] at had
      rw [← ha] at had hacc
      obtain ⟨f1, -, -, f4, -, -⟩ := had
      refine ⟨⟨⟨f1 hacc, by simp only; omega, m1.stat, ?_, ?_, m1.lt, m1.inj⟩, ?_, ?_, ?_⟩, ?_⟩
      · intro c hc
        simp only at hc ⊢
        by_cases hci : c < st.iq
        · exact m1.act c hci
        · have hci : c = st.iq := by omega
          subst hci
          rw [hnp, dot_add_smul, dot_comm q.n np z, ht2, div_mul_cancel₀ _ hpos.ne', h.s, hnpdef, dot_neg]
          unfold off Data.slack
          rw [if_neg (by omega), h.ip]
          ring
      · exact m1.dual
      · simp only
        rw [m2, h.inv.fval]
      · exact h.inv.rnorm.trans (f4 hacc)
      · intro i hi
        simp only
        constructor
        · intro h0
          split_ifs at h0 with h1
          · exact ⟨st.iq, hp, by omega, by rw [h.ip, h1]⟩
          · obtain ⟨c, h1, h2, h3⟩ := (h.inv.iai i hi).1 h0
            exact ⟨c, h1, by omega, h3⟩
        · rintro ⟨c, h1, h2, h3⟩
          by_cases hci : c = st.iq
          · rw [if_pos (by rw [← h3, hci, h.ip])]
          · split_ifs with h4
            · rfl
            · exact (h.inv.iai i hi).2 ⟨c, h1, by omega, h3⟩
      · have h1 := h.inv.core.dual st.iq hp (by omega)
        have : 0 < t2 * dot q.n z np * (1 / 2 * t2 + st.u st.iq) := by positivity
        linarith
    cases hrat : q.ratio st.u r (st.iq - q.p) with
    | none =>
      rw [hrat] at hstep
      simp only [if_true, hacc] at hstep
      have := hfull (fun k h1 h2 h3 => absurd (ratio_none q st.u r _ hrat k h1 (by omega)) (by linarith)) _ rfl
      right; right
      rw [hstep]
      exact ⟨rfl, this.1, this.2⟩
    | some b =>
      obtain ⟨t, k⟩ := b
      obtain ⟨k1, k2, k3, k4, k5⟩ := hdrop t k hrat
      rw [hrat] at hstep
      simp only at hstep
      by_cases htt : min t t2 = t2
      · rw [if_pos htt] at hstep
        simp only [if_true, hacc, htt] at hstep
        have := hfull (fun k' h1 h2 h3 => (min_eq_right_iff.1 htt).trans (k5 k' h1 h2 h3)) _ rfl
        right; right
        rw [hstep]
        exact ⟨rfl, this.1, this.2⟩
      · rw [if_neg htt] at hstep
        have hlt : t < t2 := by
          by_contra h0
          exact htt (min_eq_right (not_lt.1 h0))
        rw [min_eq_left hlt.le] at hstep
        obtain ⟨m1, m2, -⟩ := hmv t k3 k5
        obtain ⟨d1, d2, d3, d4, d5⟩ := m1.drop k1 k2 (by
          rw [if_neg (by omega), if_pos k2]; exact k4)
        right; left
        rw [hstep]
        refine ⟨rfl, ⟨⟨d1, ?_, h.inv.rnorm, ?_⟩, ?_, ?_, ?_⟩, ?_, ?_⟩
        · simp only
          rw [m2, h.inv.fval]
        · intro i hi
          simp only
          rw [d5 i]
          split_ifs with h1
          · simp [h1]
          · rw [h.inv.iai i hi]
            simp [h1]
        · simp only
          rw [d3, h.ip]
        · simp
        · simp only [if_true]
          rw [slack_move, ← h.s]
          have := (lt_div_iff₀ hpos).1 (ht2 ▸ hlt)
          linarith
        · simp only
          rw [d2]; omega
        · simp only
          have h1 := h.inv.core.dual st.iq hp (by omega)
          have : 0 ≤ t * dot q.n z np * (1 / 2 * t + st.u st.iq) := by positivity
          linarith
  · rw [if_neg hbig] at hstep
    have hz0 := hd1 (not_lt.1 hbig)
    cases hrat : q.ratio st.u r (st.iq - q.p) with
    | none =>
      rw [hrat] at hstep
      simp only at hstep
      left
      rw [hstep]
      refine ⟨rfl, infeasible hv h hz0 ?_⟩
      intro k h1 h2
      exact ratio_none q st.u r _ hrat k h1 (by omega)
    | some b =>
      obtain ⟨t, k⟩ := b
      obtain ⟨k1, k2, k3, k4, k5⟩ := hdrop t k hrat
      rw [hrat] at hstep
      simp only at hstep
      obtain ⟨m1, m2, -⟩ := hmv t k3 k5
      have m1' : Core q st.x (fun i => if i = st.iq then st.u i + t else
          if i < st.iq then st.u i - t * r i else st.u i) st.J st.R st.A st.iq 1 := by
        refine ⟨m1.fac, m1.le, ?_, h.inv.core.act, m1.dual, m1.lt, m1.inj⟩
        intro i hi
        rw [← m1.stat i hi]
        unfold grad
        rw [mulV_add_smul, show mulV q.n q.H z i = 0 from
          Finset.sum_eq_zero (fun k hk => by rw [hz0 k (Finset.mem_range.1 hk), mul_zero])]
        ring
      obtain ⟨d1, d2, d3, d4, d5⟩ := m1'.drop k1 k2 (by
        rw [if_neg (by omega), if_pos k2]; exact k4)
      right; left
      rw [hstep]
      refine ⟨rfl, ⟨⟨d1, h.inv.fval, h.inv.rnorm, ?_⟩, ?_, h.s, h.neg⟩, ?_, le_rfl⟩
      · intro i hi
        simp only
        rw [d5 i]
        split_ifs with h1
        · simp [h1]
        · rw [h.inv.iai i hi]
          simp [h1]
      · simp only
        rw [d3, h.ip]
      · simp only
        rw [d2]; omega

theorem step_good {q : Data} (hv : q.Valid) {st : St} (h : Good q st) (hd : Decisive q st) :
    Good q (q.step st) := by
  unfold Data.step
  cases hpc : st.pc with
  | l1 => exact stepL1_good (by simpa [Good, hpc] using h)
  | l2 => exact stepL2_good hv (by simpa [Good, hpc] using h)
  | l2a =>
    have h' : Inv2a q st := by simpa [Good, hpc] using h
    rcases stepL2a_good hv hpc h' hd with ⟨a, b⟩ | ⟨a, b, -, -⟩ | ⟨a, b, -⟩
    · simp only [Good, a]; exact b
    · simp only [Good, a]; exact b
    · simp only [Good, a]; exact b
  | ret v => simpa [hpc] using h
  | ub => simpa [hpc] using h

end RtQP
end Verif
