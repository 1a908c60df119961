import Verif.Traj
import Mathlib.Algebra.Polynomial.FieldDivision
import Mathlib.Algebra.Polynomial.Roots
import Mathlib.Analysis.Calculus.Deriv.Polynomial
import Mathlib.LinearAlgebra.Matrix.ToLinearEquiv
import Mathlib.LinearAlgebra.Matrix.NonsingularInverse
import Mathlib.Tactic.Linarith
import Mathlib.Tactic.NormNum
import Mathlib.Tactic.Ring
import Mathlib.Tactic.FieldSimp

/-! C53 (interpolated trajectories meet their conditions) and C82 (swing trajectories join the contacts). -/
namespace Verif
namespace Traj
open Polynomial

/-- A linear solver that solves every nonsingular system exactly (and does anything on singular ones). -/
def Qr.Exact (qr : Qr) : Prop := ∀ (n : ℕ) (M : Matrix (Fin n) (Fin n) ℝ) (v : Fin n → ℝ), M.det ≠ 0 → M.mulVec (qr n M v) = v

/-- The polynomial with the computed coefficients. -/
noncomputable def Interp.poly (p : Interp) : ℝ[X] := ∑ i ∈ Finset.range p.size, C (p.coeffs i) * X ^ i

theorem sumOpt_some (f : ℕ → ℝ) (term : ℕ → Option ℝ) (n : ℕ) (h : ∀ i < n, term i = some (f i)) :
    sumOpt term n = some (∑ i ∈ Finset.range n, f i) := by
  induction n with
  | zero => rfl
  | succ n ih =>
    rw [Finset.sum_range_succ, sumOpt, ih fun i hi => h i (by omega), h n (by omega)]
    rfl

theorem eval_sum (c : ℕ → ℝ) (n : ℕ) (t : ℝ) :
    (∑ i ∈ Finset.range n, C (c i) * X ^ i : ℝ[X]).eval t = ∑ i ∈ Finset.range n, c i * posRow t i := by
  rw [eval_finsetSum]; exact Finset.sum_congr rfl fun i _ => by simp [posRow]

theorem eval_deriv_sum (c : ℕ → ℝ) (n : ℕ) (t : ℝ) :
    (derivative (∑ i ∈ Finset.range n, C (c i) * X ^ i : ℝ[X])).eval t = ∑ i ∈ Finset.range n, c i * velRow t i := by
  rw [derivative_sum, eval_finsetSum]
  refine Finset.sum_congr rfl fun i _ => ?_
  rw [derivative_C_mul_X_pow]
  unfold velRow
  rcases Nat.eq_zero_or_pos i with rfl | hi
  · simp
  · rw [if_pos (show 1 ≤ i from hi)]; simp; ring

theorem eval_deriv2_sum (c : ℕ → ℝ) (n : ℕ) (t : ℝ) :
    (derivative (derivative (∑ i ∈ Finset.range n, C (c i) * X ^ i : ℝ[X]))).eval t = ∑ i ∈ Finset.range n, c i * accRow t i := by
  rw [derivative_sum, derivative_sum, eval_finsetSum]
  refine Finset.sum_congr rfl fun i _ => ?_
  rw [derivative_C_mul_X_pow, derivative_C_mul_X_pow]
  unfold accRow
  rcases Nat.lt_or_ge i 2 with hi | hi
  · rw [if_neg (by omega)]
    interval_cases i <;> simp
  · rw [if_pos hi]
    obtain ⟨k, rfl⟩ : ∃ k, i = k + 2 := ⟨i - 2, by omega⟩
    simp; ring

theorem position_eq (p : Interp) (t : ℝ) : position p t = some (p.poly.eval (queryTime p t)) := by
  unfold position
  rw [sumOpt_some (fun i => p.coeffs i * posRow (queryTime p t) i), Interp.poly, eval_sum]
  intro i _
  have : ¬ (queryTime p t = 0 ∧ ((i : ℕ) : ℤ) < 0) := fun h => by omega
  simp only [powd, if_neg this, Option.bind_eq_bind, Option.bind_some, posRow, zpow_natCast]

theorem velocity_eq (p : Interp) (t : ℝ) (h : queryTime p t ≠ 0) :
    velocity p t = some ((derivative p.poly).eval (queryTime p t)) := by
  unfold velocity
  rw [sumOpt_some (fun i => p.coeffs i * velRow (queryTime p t) i), Interp.poly, eval_deriv_sum]
  intro i _
  simp only [powd, h, false_and, if_false, Option.bind_eq_bind, Option.bind_some, Option.some.injEq]
  unfold velRow
  rcases Nat.eq_zero_or_pos i with rfl | hi
  · simp
  · rw [if_pos (show 1 ≤ i from hi)]
    obtain ⟨k, rfl⟩ : ∃ k, i = k + 1 := ⟨i - 1, by omega⟩
    have : ((k + 1 : ℕ) : ℤ) - 1 = (k : ℤ) := by push_cast; ring
    rw [this, zpow_natCast, Nat.add_sub_cancel]; ring

theorem acceleration_eq (p : Interp) (t : ℝ) (h : queryTime p t ≠ 0) :
    acceleration p t = some ((derivative (derivative p.poly)).eval (queryTime p t)) := by
  unfold acceleration
  rw [sumOpt_some (fun i => p.coeffs i * accRow (queryTime p t) i), Interp.poly, eval_deriv2_sum]
  intro i _
  simp only [powd, h, false_and, if_false, Option.bind_eq_bind, Option.bind_some, Option.some.injEq]
  unfold accRow
  rcases Nat.lt_or_ge i 2 with hi | hi
  · rw [if_neg (by omega)]
    interval_cases i <;> simp
  · rw [if_pos hi]
    obtain ⟨k, rfl⟩ : ∃ k, i = k + 2 := ⟨i - 2, by omega⟩
    have : ((k + 2 : ℕ) : ℤ) - 2 = (k : ℤ) := by push_cast; ring
    rw [this, zpow_natCast, Nat.add_sub_cancel]; ring

theorem rows_length (pos vel acc : InterpMat) : (rows pos vel acc).length = pos.length + vel.length + acc.length := by
  simp [rows]; omega

theorem minCoeff_le (l : List ℝ) (x : ℝ) (h : x ∈ l) : minCoeff l ≤ x := by
  have key : ∀ (l : List ℝ) (a : ℝ), l.foldl min a ≤ a ∧ ∀ y ∈ l, l.foldl min a ≤ y := by
    intro l
    induction l with
    | nil => intro a; simp
    | cons b l ih =>
      intro a
      obtain ⟨h1, h2⟩ := ih (min a b)
      refine ⟨h1.trans (min_le_left _ _), fun y hy => ?_⟩
      rcases List.mem_cons.1 hy with rfl | hy
      · exact h1.trans (min_le_right _ _)
      · exact h2 y hy
  cases l with
  | nil => simp at h
  | cons a l =>
    rcases List.mem_cons.1 h with rfl | hy
    · exact (key l _).1
    · exact (key l a).2 x hy

theorem le_maxCoeff (l : List ℝ) (x : ℝ) (h : x ∈ l) : x ≤ maxCoeff l := by
  have key : ∀ (l : List ℝ) (a : ℝ), a ≤ l.foldl max a ∧ ∀ y ∈ l, y ≤ l.foldl max a := by
    intro l
    induction l with
    | nil => intro a; simp
    | cons b l ih =>
      intro a
      obtain ⟨h1, h2⟩ := ih (max a b)
      refine ⟨(le_max_left _ _).trans h1, fun y hy => ?_⟩
      rcases List.mem_cons.1 hy with rfl | hy
      · exact (le_max_right _ _).trans h1
      · exact h2 y hy
  cases l with
  | nil => simp at h
  | cons a l =>
    rcases List.mem_cons.1 h with rfl | hy
    · exact (key l _).1
    · exact (key l a).2 x hy

/-- Every time at which a condition is imposed is queried as it is. -/
theorem query_node (qr : Qr) (pos vel acc : InterpMat) (t v : ℝ) (h : (t, v) ∈ pos ++ vel ++ acc) :
    queryTime (initInterp qr pos vel acc) t = t := by
  have h1 : (initInterp qr pos vel acc).lo ≤ t := by
    show min (min _ _) _ ≤ t
    rcases List.mem_append.1 h with h | h
    · rcases List.mem_append.1 h with h | h
      · exact (min_le_left _ _).trans ((min_le_left _ _).trans (minCoeff_le _ _ (List.mem_map.2 ⟨_, h, rfl⟩)))
      · exact (min_le_left _ _).trans ((min_le_right _ _).trans (minCoeff_le _ _ (List.mem_map.2 ⟨_, h, rfl⟩)))
    · exact (min_le_right _ _).trans (minCoeff_le _ _ (List.mem_map.2 ⟨_, h, rfl⟩))
  have h2 : t ≤ (initInterp qr pos vel acc).hi := by
    show t ≤ max (max _ _) _
    rcases List.mem_append.1 h with h | h
    · rcases List.mem_append.1 h with h | h
      · exact (le_maxCoeff _ t (List.mem_map.2 ⟨_, h, rfl⟩)).trans ((le_max_left _ _).trans (le_max_left _ _))
      · exact (le_maxCoeff _ t (List.mem_map.2 ⟨_, h, rfl⟩)).trans ((le_max_right _ _).trans (le_max_left _ _))
    · exact (le_maxCoeff _ t (List.mem_map.2 ⟨_, h, rfl⟩)).trans (le_max_right _ _)
  unfold queryTime
  rw [max_eq_left h1, min_eq_left h2]

/-- The rows of the linear system. -/
theorem solved_rows (qr : Qr) (hq : qr.Exact) (pos vel acc : InterpMat) (hd : (regMat pos vel acc).det ≠ 0)
    (r : (ℕ → ℝ) × ℝ) (hr : r ∈ rows pos vel acc) :
    ∑ i ∈ Finset.range (initInterp qr pos vel acc).size, (initInterp qr pos vel acc).coeffs i * r.1 i = r.2 := by
  obtain ⟨k, hk⟩ := List.get_of_mem hr
  have h := congrFun (hq _ (regMat pos vel acc) (regVec pos vel acc) hd) k
  have e1 : (initInterp qr pos vel acc).size = (rows pos vel acc).length := (rows_length pos vel acc).symm
  rw [e1, Finset.sum_range]
  have e2 : regVec pos vel acc k = r.2 := by unfold regVec; rw [hk]
  rw [← e2, ← h, Matrix.mulVec, dotProduct]
  refine Finset.sum_congr rfl fun j _ => ?_
  have e3 : regMat pos vel acc k j = r.1 j := by unfold regMat; rw [Matrix.of_apply, hk]
  rw [e3, mul_comm]
  congr 1
  simp [initInterp]

/-- C53: if the linear system is nonsingular and solved exactly, the trajectory takes every prescribed position at its time, and every
prescribed velocity and acceleration at its time unless that time is 0. -/
theorem C53_conditions (qr : Qr) (hq : qr.Exact) (pos vel acc : InterpMat) (hd : (regMat pos vel acc).det ≠ 0) :
    (∀ q ∈ pos, position (initInterp qr pos vel acc) q.1 = some q.2) ∧
    (∀ q ∈ vel, q.1 ≠ 0 → velocity (initInterp qr pos vel acc) q.1 = some q.2) ∧
    (∀ q ∈ acc, q.1 ≠ 0 → acceleration (initInterp qr pos vel acc) q.1 = some q.2) := by
  refine ⟨fun q hqm => ?_, fun q hqm h0 => ?_, fun q hqm h0 => ?_⟩
  · rw [position_eq, query_node qr pos vel acc q.1 q.2 (by simp [hqm]), Interp.poly, eval_sum]
    exact congrArg some (solved_rows qr hq pos vel acc hd (posRow q.1, q.2)
      (by unfold rows; simp only [List.mem_append]; exact .inl (.inl (List.mem_map.2 ⟨q, hqm, rfl⟩))))
  · have e := query_node qr pos vel acc q.1 q.2 (by simp [hqm])
    rw [velocity_eq _ _ (by rw [e]; exact h0), e, Interp.poly, eval_deriv_sum]
    exact congrArg some (solved_rows qr hq pos vel acc hd (velRow q.1, q.2)
      (by unfold rows; simp only [List.mem_append]; exact .inl (.inr (List.mem_map.2 ⟨q, hqm, rfl⟩))))
  · have e := query_node qr pos vel acc q.1 q.2 (by simp [hqm])
    rw [acceleration_eq _ _ (by rw [e]; exact h0), e, Interp.poly, eval_deriv2_sum]
    exact congrArg some (solved_rows qr hq pos vel acc hd (accRow q.1, q.2)
      (by unfold rows; simp only [List.mem_append]; exact .inr (List.mem_map.2 ⟨q, hqm, rfl⟩)))

/-- C53: the system is nonsingular whenever no time occurs twice among the conditions of one kind, velocities are prescribed only where
a position is, and accelerations only where a velocity is; for any number of conditions. -/
theorem C53_nonsingular (pos vel acc : InterpMat) (h1 : (pos.map Prod.fst).Nodup) (h2 : (vel.map Prod.fst).Nodup)
    (h3 : (acc.map Prod.fst).Nodup) (h4 : ∀ q ∈ vel, q.1 ∈ pos.map Prod.fst) (h5 : ∀ q ∈ acc, q.1 ∈ vel.map Prod.fst) :
    (regMat pos vel acc).det ≠ 0 := by
  intro hdet
  obtain ⟨v, hv, hMv⟩ := Matrix.exists_mulVec_eq_zero_iff.2 hdet
  obtain ⟨n, hn⟩ : ∃ n, n = (rows pos vel acc).length := ⟨_, rfl⟩
  obtain ⟨c, hc⟩ : ∃ c : ℕ → ℝ, ∀ i : Fin (rows pos vel acc).length, c i = v i :=
    ⟨fun i => if h : i < (rows pos vel acc).length then v ⟨i, h⟩ else 0, fun i => by simp⟩
  set p : ℝ[X] := ∑ i ∈ Finset.range n, C (c i) * X ^ i with hp
  have hcoef : ∀ i, p.coeff i = if i < n then c i else 0 := by
    intro i
    rw [hp, finsetSum_coeff]
    simp only [coeff_C_mul, coeff_X_pow, mul_ite, mul_one, mul_zero]
    rw [Finset.sum_ite_eq]
    simp
  have hp0 : p ≠ 0 := by
    intro h0
    apply hv
    funext i
    have := hcoef i
    rw [h0, coeff_zero, if_pos (hn ▸ i.2), hc] at this
    exact this.symm
  have hrow : ∀ r ∈ rows pos vel acc, ∑ i ∈ Finset.range n, c i * r.1 i = 0 := by
    intro r hr
    obtain ⟨k, hk⟩ := List.get_of_mem hr
    have h := congrFun hMv k
    rw [hn, Finset.sum_range]
    rw [Matrix.mulVec, dotProduct] at h
    rw [Pi.zero_apply] at h
    rw [← h]
    refine Finset.sum_congr rfl fun j _ => ?_
    have e3 : regMat pos vel acc k j = r.1 j := by unfold regMat; rw [Matrix.of_apply, hk]
    rw [e3, mul_comm, hc]
  have hpos : ∀ t ∈ pos.map Prod.fst, p.eval t = 0 := by
    intro t ht
    obtain ⟨q, hq, rfl⟩ := List.mem_map.1 ht
    rw [hp, eval_sum]
    exact hrow (posRow q.1, q.2) (by unfold rows; simp only [List.mem_append]; exact .inl (.inl (List.mem_map.2 ⟨q, hq, rfl⟩)))
  have hvel : ∀ t ∈ vel.map Prod.fst, (derivative p).eval t = 0 := by
    intro t ht
    obtain ⟨q, hq, rfl⟩ := List.mem_map.1 ht
    rw [hp, eval_deriv_sum]
    exact hrow (velRow q.1, q.2) (by unfold rows; simp only [List.mem_append]; exact .inl (.inr (List.mem_map.2 ⟨q, hq, rfl⟩)))
  have hacc : ∀ t ∈ acc.map Prod.fst, (derivative (derivative p)).eval t = 0 := by
    intro t ht
    obtain ⟨q, hq, rfl⟩ := List.mem_map.1 ht
    rw [hp, eval_deriv2_sum]
    exact hrow (accRow q.1, q.2) (by unfold rows; simp only [List.mem_append]; exact .inr (List.mem_map.2 ⟨q, hq, rfl⟩))
  have hvp : ∀ t ∈ vel.map Prod.fst, t ∈ pos.map Prod.fst := by
    intro t ht; obtain ⟨q, hq, rfl⟩ := List.mem_map.1 ht; exact h4 q hq
  have hav : ∀ t ∈ acc.map Prod.fst, t ∈ vel.map Prod.fst := by
    intro t ht; obtain ⟨q, hq, rfl⟩ := List.mem_map.1 ht; exact h5 q hq
  have hle : ((pos.map Prod.fst ++ vel.map Prod.fst ++ acc.map Prod.fst : List ℝ) : Multiset ℝ) ≤ p.roots := by
    rw [Multiset.le_iff_count]
    intro t
    rw [count_roots, Multiset.coe_count, List.count_append, List.count_append, h1.count, h2.count, h3.count]
    by_cases ha : t ∈ acc.map Prod.fst
    · have hvv := hav t ha
      have hpp := hvp t hvv
      have : 2 < p.rootMultiplicity t := lt_rootMultiplicity_of_isRoot_iterate_derivative hp0 (by
        intro m hm
        interval_cases m
        · exact hpos t hpp
        · exact hvel t hvv
        · exact hacc t ha)
      rw [if_pos ha, if_pos hvv, if_pos hpp]; omega
    · by_cases hvv : t ∈ vel.map Prod.fst
      · have hpp := hvp t hvv
        have : 1 < p.rootMultiplicity t := lt_rootMultiplicity_of_isRoot_iterate_derivative hp0 (by
          intro m hm
          interval_cases m
          · exact hpos t hpp
          · exact hvel t hvv)
        rw [if_neg ha, if_pos hvv, if_pos hpp]; omega
      · by_cases hpp : t ∈ pos.map Prod.fst
        · have : 0 < p.rootMultiplicity t := (rootMultiplicity_pos hp0).2 (hpos t hpp)
          rw [if_neg ha, if_neg hvv, if_pos hpp]; omega
        · rw [if_neg ha, if_neg hvv, if_neg hpp]; omega
  have hcard := Multiset.card_le_card hle
  have hdeg := card_roots' p
  have hn2 : n = pos.length + vel.length + acc.length := hn.trans (rows_length pos vel acc)
  rw [Multiset.coe_card, List.length_append, List.length_append, List.length_map, List.length_map, List.length_map, ← hn2] at hcard
  have hnd : p.natDegree < n := by
    by_contra hge
    push Not at hge
    have := hcoef p.natDegree
    rw [if_neg (by omega)] at this
    exact hp0 (leadingCoeff_eq_zero.1 this)
  omega

/-- C53: one direction of a swing trajectory with different start and end times: start, via and end position are met, and velocity and
acceleration vanish at both ends (unless the time is 0). -/
theorem C53_trajectory (qr : Qr) (hq : qr.Exact) (tini ini tend fin via : ℝ) (ht : tini ≠ tend) :
    let p := initTraj qr tini ini tend fin via
    position p tini = some ini ∧ position p ((tini + tend) / 2) = some via ∧ position p tend = some fin ∧
    (tini ≠ 0 → velocity p tini = some 0 ∧ acceleration p tini = some 0) ∧
    (tend ≠ 0 → velocity p tend = some 0 ∧ acceleration p tend = some 0) := by
  have hm1 : tini ≠ 0.5 * (tini + tend) := fun h => ht (by linarith)
  have hm2 : 0.5 * (tini + tend) ≠ tend := fun h => ht (by linarith)
  have hd := C53_nonsingular [(tini, ini), (0.5 * (tini + tend), via), (tend, fin)] [(tini, 0), (tend, 0)] [(tini, 0), (tend, 0)]
    (by simp [hm1, hm2, ht]) (by simp [ht]) (by simp [ht]) (by simp) (by simp)
  obtain ⟨a, b, c⟩ := C53_conditions qr hq _ _ _ hd
  refine ⟨a (tini, ini) (by simp), ?_, a (tend, fin) (by simp), fun h => ⟨b (tini, 0) (by simp) h, c (tini, 0) (by simp) h⟩,
    fun h => ⟨b (tend, 0) (by simp) h, c (tend, 0) (by simp) h⟩⟩
  have := a (0.5 * (tini + tend), via) (by simp)
  have e : (tini + tend) / 2 = 0.5 * (tini + tend) := by ring
  rw [e]; exact this

/-- C53: position, velocity and acceleration belong together: inside the time interval (except at time 0) there are the position function
and its first and second derivative. -/
theorem C53_derivatives (p : Interp) (t : ℝ) (h1 : p.lo < t) (h2 : t < p.hi) (h0 : t ≠ 0) :
    ∃ x v a : ℝ, position p t = some x ∧ velocity p t = some v ∧ acceleration p t = some a ∧
      HasDerivAt (fun s => (position p s).getD 0) v t ∧ HasDerivAt (fun s => (velocity p s).getD 0) a t := by
  have hq : queryTime p t = t := by unfold queryTime; rw [max_eq_left h1.le, min_eq_left h2.le]
  have hev : ∀ᶠ s in nhds t, queryTime p s = s ∧ s ≠ 0 := by
    filter_upwards [lt_mem_nhds h1, gt_mem_nhds h2, isOpen_ne.mem_nhds h0] with s a b c
    exact ⟨by unfold queryTime; rw [max_eq_left a.le, min_eq_left b.le], c⟩
  refine ⟨_, _, _, position_eq p t, velocity_eq p t (by rw [hq]; exact h0), acceleration_eq p t (by rw [hq]; exact h0), ?_, ?_⟩
  · rw [hq]
    refine (p.poly.hasDerivAt t).congr_of_eventuallyEq ?_
    filter_upwards [hev] with s hs
    rw [position_eq, hs.1]; rfl
  · rw [hq]
    refine ((derivative p.poly).hasDerivAt t).congr_of_eventuallyEq ?_
    filter_upwards [hev] with s hs
    rw [velocity_eq _ _ (by rw [hs.1]; exact hs.2), hs.1]; rfl

/-- C53: queries before the first or after the last prescribed time are answered like the first or last time. -/
theorem C53_clamped (p : Interp) (h : p.lo ≤ p.hi) (t : ℝ) :
    (t ≤ p.lo → position p t = position p p.lo ∧ velocity p t = velocity p p.lo ∧ acceleration p t = acceleration p p.lo) ∧
    (p.hi ≤ t → position p t = position p p.hi ∧ velocity p t = velocity p p.hi ∧ acceleration p t = acceleration p p.hi) := by
  constructor
  · intro ht
    have : queryTime p t = queryTime p p.lo := by unfold queryTime; rw [max_eq_right ht, max_self]
    unfold position velocity acceleration
    rw [this]; exact ⟨rfl, rfl, rfl⟩
  · intro ht
    have : queryTime p t = queryTime p p.hi := by
      unfold queryTime; rw [max_eq_left (h.trans ht), min_eq_right ht, max_eq_left h, min_self]
    unfold position velocity acceleration
    rw [this]; exact ⟨rfl, rfl, rfl⟩

/-- C53 is false of the code at time 0: velocity and acceleration are not numbers, whatever the conditions. -/
theorem C53_time_zero_violated (qr : Qr) (pos vel acc : InterpMat) (h : pos ≠ []) (t : ℝ)
    (ht : queryTime (initInterp qr pos vel acc) t = 0) :
    velocity (initInterp qr pos vel acc) t = none ∧ acceleration (initInterp qr pos vel acc) t = none := by
  have key : ∀ (term : ℕ → Option ℝ) (n : ℕ), term 0 = none → sumOpt term (n + 1) = none := by
    intro term n h0
    induction n with
    | zero => rw [sumOpt, h0]; rfl
    | succ n ih => rw [sumOpt, ih]; rfl
  obtain ⟨n, hn⟩ : ∃ n, (initInterp qr pos vel acc).size = n + 1 := by
    have : 0 < pos.length := List.length_pos_iff.2 h
    exact ⟨pos.length + vel.length + acc.length - 1, by show pos.length + vel.length + acc.length = _; omega⟩
  unfold velocity acceleration
  rw [hn, ht]
  exact ⟨key _ _ (by simp [powd]), key _ _ (by simp [powd])⟩

/-- A swing from 0 to 1 through height 2 between times 1 and 3 with an exact solver. -/
noncomputable def exactQr : Qr := fun _ M v => M⁻¹.mulVec v

theorem exactQr_exact : exactQr.Exact := by
  intro n M v h
  unfold exactQr
  rw [Matrix.mulVec_mulVec, Matrix.mul_nonsing_inv _ (isUnit_iff_ne_zero.2 h), Matrix.one_mulVec]

example : position (initTraj exactQr 1 0 3 1 2) 2 = some 2 ∧ velocity (initTraj exactQr 1 0 3 1 2) 7 = some 0 := by
  obtain ⟨_, h2, _, _, h5⟩ := C53_trajectory exactQr exactQr_exact 1 0 3 1 2 (by norm_num)
  have hspan : (initTraj exactQr 1 0 3 1 2).lo = 1 ∧ (initTraj exactQr 1 0 3 1 2).hi = 3 := by
    constructor
    · show min (min _ _) _ = _
      norm_num [minCoeff]
    · show max (max _ _) _ = _
      norm_num [maxCoeff]
  refine ⟨by have := h2; norm_num at this; exact this, ?_⟩
  have := ((C53_clamped (initTraj exactQr 1 0 3 1 2) (by rw [hspan.1, hspan.2]; norm_num) 7).2 (by rw [hspan.2]; norm_num)).2.1
  rw [this, hspan.2]
  exact (h5 (by norm_num)).1

/-! ### C82: swing trajectories join the contacts -/

theorem mapTime_eq (dt : ℕ → ℝ) (n : ℕ) : mapTime dt n = ∑ t ∈ Finset.range n, dt t := by
  induction n with
  | zero => simp [mapTime]
  | succ n ih =>
    rw [Finset.sum_range_succ, ← ih]
    unfold mapTime
    rw [List.range_succ, List.foldl_append]; rfl

/-- C82: with positive time steps, a flight phase of at least two steps writes exactly the steps of the phase; the end-effector is at
its old place at the first step, at its new place at the last step, and at rest with zero acceleration at both. -/
theorem C82_flight_phase_partial (qr : Qr) (hq : qr.Exact) (dt : ℕ → ℝ) (hdt : ∀ t, 0 < dt t) (start fin : ℕ) (h : start < fin)
    (ini goal via : Fin 3 → ℝ) :
    (∀ t, (flightPhase qr dt start fin ini goal via t).isSome ↔ start ≤ t ∧ t ≤ fin) ∧
    flightPhase qr dt start fin ini goal via start = some ⟨fun d => some (ini d), fun _ => some 0, fun _ => some 0⟩ ∧
    flightPhase qr dt start fin ini goal via fin = some ⟨fun d => some (goal d), fun _ => some 0, fun _ => some 0⟩ := by
  have hlt : mapTime dt (start + 1) < mapTime dt (fin + 1) := by
    rw [mapTime_eq, mapTime_eq]
    exact Finset.sum_lt_sum_of_subset (Finset.range_subset_range.2 (by omega)) (i := fin) (by simp) (by simp; omega) (hdt fin)
      fun j _ _ => (hdt j).le
  have hpos : ∀ n, mapTime dt (n + 1) ≠ 0 := fun n => by
    rw [mapTime_eq]; exact (Finset.sum_pos (fun i _ => hdt i) ⟨0, by simp⟩).ne'
  have hs := fun d : Fin 3 => C53_trajectory qr hq (mapTime dt (start + 1)) (ini d) (mapTime dt (fin + 1)) (goal d) (via d) hlt.ne
  refine ⟨fun t => ?_, ?_, ?_⟩
  · unfold flightPhase; by_cases hh : start ≤ t ∧ t ≤ fin <;> simp [hh]
  · unfold flightPhase
    rw [if_pos ⟨le_rfl, h.le⟩]
    congr 1
    simp only [Pose.mk.injEq]
    exact ⟨funext fun d => (hs d).1, funext fun d => ((hs d).2.2.2.1 (hpos _)).1, funext fun d => ((hs d).2.2.2.1 (hpos _)).2⟩
  · unfold flightPhase
    rw [if_pos ⟨h.le, le_rfl⟩]
    congr 1
    simp only [Pose.mk.injEq]
    exact ⟨funext fun d => (hs d).2.2.1, funext fun d => ((hs d).2.2.2.2 (hpos _)).1, funext fun d => ((hs d).2.2.2.2 (hpos _)).2⟩

example : ∃ p, flightPhase exactQr (fun _ => 1 / 10) 3 7 ![0, 0, 0] ![1, 0, 0] ![1 / 2, 0, 1 / 5] 3 = some p ∧ p.pos 0 = some 0 ∧
    ∃ q, flightPhase exactQr (fun _ => 1 / 10) 3 7 ![0, 0, 0] ![1, 0, 0] ![1 / 2, 0, 1 / 5] 7 = some q ∧ q.pos 0 = some 1 := by
  obtain ⟨_, h1, h2⟩ := C82_flight_phase_partial exactQr exactQr_exact (fun _ => 1 / 10) (fun _ => by norm_num) 3 7 (by norm_num)
    ![0, 0, 0] ![1, 0, 0] ![1 / 2, 0, 1 / 5]
  exact ⟨_, h1, rfl, _, h2, rfl⟩

/-- C82 is false of the code for flight phases of a single step: the conditions contradict each other (no coefficients satisfy them) and
their matrix is singular, so the end-effector cannot be both at its old and at its new place. -/
theorem C82_single_step_violated (qr : Qr) (dt : ℕ → ℝ) (s : ℕ) (ini goal via : Fin 3 → ℝ) (d : Fin 3) (hne : ini d ≠ goal d) :
    (∀ p, flightPhase qr dt s s ini goal via s = some p → ¬ (p.pos d = some (ini d) ∧ p.pos d = some (goal d))) ∧
    (regMat [(mapTime dt (s + 1), ini d), (0.5 * (mapTime dt (s + 1) + mapTime dt (s + 1)), via d), (mapTime dt (s + 1), goal d)]
      [(mapTime dt (s + 1), 0), (mapTime dt (s + 1), 0)] [(mapTime dt (s + 1), 0), (mapTime dt (s + 1), 0)]).det = 0 := by
  refine ⟨fun p _ h => hne (Option.some.inj (h.1.symm.trans h.2)), ?_⟩
  exact Matrix.det_zero_of_row_eq (i := ⟨0, by simp [rows]⟩) (j := ⟨2, by simp [rows]⟩) (by simp [Fin.ext_iff]) (by
    funext j; rfl)

end Traj
end Verif
