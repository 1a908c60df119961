import Verif.MinJerkProps
import Mathlib.Analysis.Calculus.Deriv.Comp

/-! C83 (contact plan read off the activations), C84 (end-effector references), C85 (interpolation through via points). -/
namespace Verif
namespace MinJerk

/-! ### C83 -/

/-- Steps `a` to `b` are a contact phase that ends at step `b`: in contact throughout, not extendable on either side. -/
def IsRun (act : ℕ → Bool) (a b : ℕ) : Prop :=
  a ≤ b ∧ (∀ t, a ≤ t → t ≤ b → act t = true) ∧ (a = 0 ∨ act (a - 1) = false) ∧ act (b + 1) = false

/-- The invariant of the loop. -/
theorem plan_inv {P : Type} (act : ℕ → Bool) (pos : ℕ → P) (h0 : act 0 = true) (n : ℕ) :
    let s := (List.range n).foldl (planStep act pos) ⟨0, 1, []⟩
    (s.count % 2 = 1 ↔ act n = true) ∧
    (act n = true → s.start ≤ n ∧ (∀ t, s.start ≤ t → t ≤ n → act t = true) ∧ (s.start = 0 ∨ act (s.start - 1) = false) ∧
      ∀ c ∈ s.plan, c.2.1 + 1 < s.start) ∧
    (∀ a b p, (a, b, p) ∈ s.plan ↔ IsRun act a b ∧ b < n ∧ p = pos b) ∧
    s.plan.Pairwise (fun c d => c.2.1 + 1 < d.1) := by
  induction n with
  | zero =>
    refine ⟨by simp [h0], fun _ => ⟨le_rfl, fun t _ h2 => by rw [Nat.le_zero.1 h2]; exact h0, .inl rfl, by simp⟩, by simp, by simp⟩
  | succ n ih =>
    rw [List.range_succ, List.foldl_append]
    generalize (List.range n).foldl (planStep act pos) ⟨0, 1, []⟩ = s at ih
    obtain ⟨i1, i2, i3, i4⟩ := ih
    simp only [List.foldl_cons, List.foldl_nil]
    unfold planStep
    by_cases hch : act n = act (n + 1)
    · rw [if_neg (by simp [hch])]
      refine ⟨by rw [i1, hch], fun ha => ?_, fun a b p => ?_, i4⟩
      · obtain ⟨a1, a2, a3, a4⟩ := i2 (by rw [hch]; exact ha)
        refine ⟨by omega, fun t h1 h2 => ?_, a3, a4⟩
        rcases Nat.lt_or_ge n t with h | h
        · rw [show t = n + 1 by omega]; exact ha
        · exact a2 t h1 h
      · rw [i3]
        constructor
        · rintro ⟨r, hb, e⟩; exact ⟨r, by omega, e⟩
        · rintro ⟨r, hb, e⟩
          refine ⟨r, ?_, e⟩
          rcases Nat.lt_or_ge b n with h | h
          · exact h
          · have hbn : b = n := by omega
            subst hbn
            have h1 := r.2.1 b r.1 le_rfl
            have h2 := r.2.2.2
            rw [hch, h2] at h1; exact absurd h1 (by simp)
    · rw [if_pos hch]
      cases hn : act n with
      | true =>
        have hn1 : act (n + 1) = false := by
          cases h : act (n + 1) with
          | true => rw [hn, h] at hch; exact absurd rfl hch
          | false => rfl
        have hodd := i1.2 hn
        obtain ⟨a1, a2, a3, a4⟩ := i2 hn
        rw [if_neg (by omega)]
        refine ⟨?_, fun h => by rw [hn1] at h; exact absurd h (by simp), fun a b p => ?_, ?_⟩
        · rw [hn1]; simp only [Bool.false_eq_true, iff_false]; omega
        · simp only [List.mem_append, List.mem_singleton]
          rw [i3]
          constructor
          · rintro (⟨r, hb, e⟩ | e)
            · exact ⟨r, by omega, e⟩
            · obtain ⟨rfl, rfl, rfl⟩ : a = s.start ∧ b = n ∧ p = pos n := by simpa using e
              exact ⟨⟨a1, a2, a3, hn1⟩, by omega, rfl⟩
          · rintro ⟨r, hb, e⟩
            rcases Nat.lt_or_ge b n with h | h
            · exact .inl ⟨r, h, e⟩
            · right
              have hbn : b = n := by omega
              subst hbn
              have : a = s.start := by
                rcases Nat.lt_trichotomy a s.start with h | h | h
                · rcases a3 with h3 | h3
                  · omega
                  · rw [r.2.1 (s.start - 1) (by omega) (by omega)] at h3; exact absurd h3 (by simp)
                · exact h
                · rcases r.2.2.1 with h3 | h3
                  · omega
                  · rw [a2 (a - 1) (by omega) (by have := r.1; omega)] at h3; exact absurd h3 (by simp)
              rw [this, e]
        · rw [List.pairwise_append]
          refine ⟨i4, by simp, fun c hc d hd => ?_⟩
          rw [List.mem_singleton.1 hd]
          exact a4 c hc
      | false =>
        have hn1 : act (n + 1) = true := by
          cases h : act (n + 1) with
          | true => rfl
          | false => rw [hn, h] at hch; exact absurd rfl hch
        have hev : s.count % 2 = 0 := by
          have := mt i1.1 (by rw [hn]; simp)
          omega
        rw [if_pos hev]
        refine ⟨by rw [hn1]; simp only [iff_true]; omega, fun _ => ⟨le_rfl, fun t h1 h2 => ?_, .inr (by simpa using hn), fun c hc => ?_⟩,
          fun a b p => ?_, i4⟩
        · rw [show t = n + 1 by simp only at h1; omega]; exact hn1
        · obtain ⟨a, b, p⟩ := c
          have := ((i3 a b p).1 hc).2.1
          show b + 1 < n + 1
          omega
        · rw [i3]
          constructor
          · rintro ⟨r, hb, e⟩; exact ⟨r, by omega, e⟩
          · rintro ⟨r, hb, e⟩
            refine ⟨r, ?_, e⟩
            rcases Nat.lt_or_ge b n with h | h
            · exact h
            · have hbn : b = n := by omega
              subst hbn
              rw [r.2.1 b r.1 le_rfl] at hn; exact absurd hn (by simp)

/-- C83, the part that holds: for an end-effector in contact at the first step, the contact plan consists exactly of the contact
phases that end before the last step, each with the position of its last step, in order and separated. -/
theorem C83_contact_plan_partial {P : Type} (T : ℕ) (act : ℕ → Bool) (pos : ℕ → P) (h0 : act 0 = true) :
    (∀ a b p, (a, b, p) ∈ contactPlan T act pos ↔ IsRun act a b ∧ b + 1 < T ∧ p = pos b) ∧
    (contactPlan T act pos).Pairwise (fun c d => c.2.1 + 1 < d.1) := by
  obtain ⟨-, -, h3, h4⟩ := plan_inv act pos h0 (T - 1)
  refine ⟨fun a b p => ?_, h4⟩
  rw [contactPlan, h3]
  constructor
  · rintro ⟨r, hb, e⟩; exact ⟨r, by omega, e⟩
  · rintro ⟨r, hb, e⟩; exact ⟨r, by omega, e⟩

/-- C83 is false of the code for the contact phase that lasts until the end of the horizon: no entry of the plan covers the last step,
although the end-effector is in contact there; in particular an end-effector that never moves has an empty plan. -/
theorem C83_last_contact_violated {P : Type} (T : ℕ) (act : ℕ → Bool) (pos : ℕ → P) (h0 : act 0 = true) :
    (∀ c ∈ contactPlan T act pos, ¬ (c.1 ≤ T - 1 ∧ T - 1 ≤ c.2.1)) ∧ ((∀ t, act t = true) → contactPlan T act pos = []) := by
  obtain ⟨h1, -⟩ := C83_contact_plan_partial T act pos h0
  constructor
  · rintro ⟨a, b, p⟩ hc ⟨-, h⟩
    have := ((h1 a b p).1 hc).2.1
    simp only at h
    omega
  · intro hall
    rw [List.eq_nil_iff_forall_not_mem]
    rintro ⟨a, b, p⟩ hc
    have := ((h1 a b p).1 hc).1.2.2.2
    rw [hall] at this; exact absurd this (by simp)

/-- C83 is false of the code for an end-effector that starts in the air: its first swing is entered as a contact phase. -/
theorem C83_initial_swing_violated {P : Type} (pos : ℕ → P) :
    contactPlan 4 (fun t => decide (2 ≤ t)) pos = [(0, 1, pos 1)] := by
  simp [contactPlan, List.range_succ, planStep]

/-- On, on, off, on, off: two contacts. -/
example : contactPlan 5 (fun t => decide (t ≠ 2 ∧ t ≠ 4)) (fun t => t) = [(0, 1, 1), (3, 3, 3)] := by decide

/-! ### glueing -/

theorem glue {h g h' g' : ℝ → ℝ} {b : ℝ} (hh : ∀ t ≤ b, HasDerivAt h (h' t) t) (hg : ∀ t, b ≤ t → HasDerivAt g (g' t) t)
    (e : h b = g b) (e' : h' b = g' b) (t : ℝ) :
    HasDerivAt (fun t => if b < t then g t else h t) (if b < t then g' t else h' t) t := by
  rcases lt_trichotomy t b with hlt | rfl | hgt
  · rw [if_neg (not_lt.2 hlt.le)]
    refine (hh t hlt.le).congr_of_eventuallyEq ?_
    filter_upwards [gt_mem_nhds hlt] with y hy
    rw [if_neg (not_lt.2 hy.le)]
  · rw [if_neg (lt_irrefl _)]
    have h1 : HasDerivWithinAt (fun y => if t < y then g y else h y) (h' t) (Set.Iic t) t := by
      refine (hh t le_rfl).hasDerivWithinAt.congr (fun y hy => ?_) ?_
      · rw [if_neg (not_lt.2 hy)]
      · rw [if_neg (lt_irrefl _)]
    have h2 : HasDerivWithinAt (fun y => if t < y then g y else h y) (h' t) (Set.Ici t) t := by
      rw [e']
      refine (hg t le_rfl).hasDerivWithinAt.congr (fun y hy => ?_) ?_
      · rcases (Set.mem_Ici.1 hy).lt_or_eq with h | h
        · rw [if_pos h]
        · rw [← h, if_neg (lt_irrefl _), e]
      · rw [if_neg (lt_irrefl _), e]
    have := h1.union h2
    rw [Set.Iic_union_Ici] at this
    exact this.hasDerivAt Filter.univ_mem
  · rw [if_pos hgt]
    refine (hg t hgt.le).congr_of_eventuallyEq ?_
    filter_upwards [lt_mem_nhds hgt] with y hy
    rw [if_pos hy]

/-- A piecewise polynomial answers every query, and its reported velocity is the derivative of its reported position everywhere. -/
def Smooth (l : PolyList) : Prop :=
  ∀ t, ∃ v d, evalList l t = some v ∧ devalList l t = some d ∧ HasDerivAt (fun y => (evalList l y).getD 0) d t

theorem evalList_cons (s s' : (ℝ × ℝ) × Poly) (r : PolyList) (t : ℝ) :
    evalList (s :: s' :: r) t = (if s.1.2 < t then evalList (s' :: r) t else s.2.eval t) ∧
    devalList (s :: s' :: r) t = (if s.1.2 < t then devalList (s' :: r) t else s.2.deval t) := by
  unfold evalList devalList
  rw [getPoly]
  split <;> exact ⟨rfl, rfl⟩

/-- A polynomial that answers every query with its derivative. -/
def Good (p : Poly) : Prop := ∀ t, ∃ v d, p.eval t = some v ∧ p.deval t = some d ∧ HasDerivAt (fun y => (p.eval y).getD 0) d t

theorem good_constant (x : ℝ) : Good (constantPoly x) := fun t =>
  C55_derivative_partial _ rfl (.inr (by simp [constantPoly, Poly.ofCoeffs])) t

theorem smooth_single (s : (ℝ × ℝ) × Poly) (h : Good s.2) : Smooth [s] := h

/-- Putting a segment in front of a smooth list that starts with the same value and velocity. -/
theorem smooth_cons (s s' : (ℝ × ℝ) × Poly) (r : PolyList) (h : Good s.2) (hr : Smooth (s' :: r))
    (e1 : s.2.eval s.1.2 = evalList (s' :: r) s.1.2) (e2 : s.2.deval s.1.2 = devalList (s' :: r) s.1.2) : Smooth (s :: s' :: r) := by
  choose v d hv hd hh using h
  choose v' d' hv' hd' hh' using hr
  intro t
  refine ⟨if s.1.2 < t then v' t else v t, if s.1.2 < t then d' t else d t, ?_, ?_, ?_⟩
  · rw [(evalList_cons s s' r t).1]; split
    · rw [hv']
    · rw [hv]
  · rw [(evalList_cons s s' r t).2]; split
    · rw [hd']
    · rw [hd]
  · have e : (fun y => (evalList (s :: s' :: r) y).getD 0) =
        fun y => if s.1.2 < y then (evalList (s' :: r) y).getD 0 else (s.2.eval y).getD 0 := by
      funext y; rw [(evalList_cons s s' r y).1]; split <;> rfl
    rw [e]
    refine glue (fun t _ => hh t) (fun t _ => hh' t) (by rw [e1]) ?_ t
    have := e2
    rw [hd, hd'] at this
    exact Option.some.inj this

theorem constant_eval (x t : ℝ) : (constantPoly x).eval t = some x ∧ (constantPoly x).deval t = some 0 := by
  simp [constantPoly, Poly.ofCoeffs, Poly.eval, Poly.deval, evalCoeffs]

/-! ### C84 -/

/-- Contacts (first time, last time, position) in order, with swings of positive duration between them. -/
def Ordered (plan : List (ℝ × ℝ × ℝ)) : Prop := (∀ c ∈ plan, c.1 ≤ c.2.1) ∧ plan.IsChain (fun c d => c.2.1 < d.1)

theorem ordered_tail {c : ℝ × ℝ × ℝ} {r : List (ℝ × ℝ × ℝ)} (h : Ordered (c :: r)) : Ordered r :=
  ⟨fun d hd => h.1 d (List.mem_cons_of_mem _ hd), h.2.tail⟩

theorem ordered_after {c : ℝ × ℝ × ℝ} {r : List (ℝ × ℝ × ℝ)} (h : Ordered (c :: r)) : ∀ d ∈ r, c.2.1 < d.1 := by
  induction r generalizing c with
  | nil => simp
  | cons c' r ih =>
    intro d hd
    have h1 : c.2.1 < c'.1 := (List.isChain_cons_cons.1 h.2).1
    rcases List.mem_cons.1 hd with rfl | hd
    · exact h1
    · have := ih (ordered_tail h) d hd
      have := h.1 c' (by simp)
      linarith

/-- C84: for every contact plan with at least one contact, phases in order and swings of positive duration: the trajectory exists; it stays
at the contact position with zero velocity during every contact, before the first and after the last one; half way through every swing
it is at the mean of the two contacts, or, on the vertical axis, `z_offset` above the contact that is left; and everywhere the
velocity is the derivative of the position. -/
theorem C84_end_effector_trajectory (solve : Solver) (hs : solve.Exact) (zoff : Option ℝ) (plan : List (ℝ × ℝ × ℝ)) (hne : plan ≠ [])
    (ho : Ordered plan) :
    ∃ l, effAxis solve zoff plan = some l ∧ l ≠ [] ∧
      (∀ c ∈ plan, ∀ t, c.1 ≤ t → t ≤ c.2.1 → evalList l t = some c.2.2 ∧ devalList l t = some 0) ∧
      (∀ t, t ≤ (plan.head hne).2.1 → evalList l t = some (plan.head hne).2.2 ∧ devalList l t = some 0) ∧
      (∀ t, (plan.getLast hne).1 ≤ t → evalList l t = some (plan.getLast hne).2.2 ∧ devalList l t = some 0) ∧
      (∀ i (h : i + 1 < plan.length), evalList l ((plan[i].2.1 + plan[i + 1].1) / 2) =
        some (match zoff with | some z => z + plan[i].2.2 | none => (plan[i].2.2 + plan[i + 1].2.2) / 2)) ∧
      Smooth l := by
  induction plan with
  | nil => exact absurd rfl hne
  | cons c r ih =>
    cases r with
    | nil =>
      refine ⟨[((c.1, c.2.1), constantPoly c.2.2)], rfl, by simp, ?_, ?_, ?_, ?_, smooth_single _ (good_constant _)⟩
      · intro d hd t _ _
        rw [List.mem_singleton.1 hd]
        exact constant_eval _ _
      · intro t _; exact constant_eval _ _
      · intro t _; exact constant_eval _ _
      · intro i h; simp at h
    | cons c' r =>
      obtain ⟨l, hl, hlne, a1, a2, a3, a4, a5⟩ := ih (by simp) (ordered_tail ho)
      have hlt : c.2.1 < c'.1 := (List.isChain_cons_cons.1 ho.2).1
      have hc := ho.1 c (by simp)
      have hc' := ho.1 c' (by simp)
      have haft := ordered_after (ordered_tail ho)
      obtain ⟨p, hp, p1, p2, -, p4, p5, -, p7, p8⟩ :=
        (C55_poly_points solve hs c.2.1 c'.1 c.2.2 c'.2.2 (zoff.map (· + c.2.2))).2 hlt.ne
      obtain ⟨s', l', rfl⟩ : ∃ s' l', l = s' :: l' := List.exists_cons_of_ne_nil hlne
      obtain ⟨b1, b2⟩ := a2 c'.1 hc'
      have hE : ∀ t, evalList (((c.1, c.2.1), constantPoly c.2.2) :: ((c.2.1, c'.1), p) :: s' :: l') t =
          if c.2.1 < t then (if c'.1 < t then evalList (s' :: l') t else p.eval t) else some c.2.2 := by
        intro t
        rw [(evalList_cons _ _ _ t).1, (evalList_cons _ _ _ t).1, (constant_eval _ _).1]
      have hD : ∀ t, devalList (((c.1, c.2.1), constantPoly c.2.2) :: ((c.2.1, c'.1), p) :: s' :: l') t =
          if c.2.1 < t then (if c'.1 < t then devalList (s' :: l') t else p.deval t) else some 0 := by
        intro t
        rw [(evalList_cons _ _ _ t).2, (evalList_cons _ _ _ t).2, (constant_eval _ _).2]
      refine ⟨((c.1, c.2.1), constantPoly c.2.2) :: ((c.2.1, c'.1), p) :: s' :: l', ?_, by simp, ?_, ?_, ?_, ?_, ?_⟩
      · rw [effAxis]; simp only [hp, hl, Option.bind_eq_bind, Option.bind_some]
      · intro d hd t h1 h2
        rw [hE, hD]
        rcases List.mem_cons.1 hd with rfl | hd'
        · rw [if_neg (not_lt.2 h2), if_neg (not_lt.2 h2)]; exact ⟨rfl, rfl⟩
        · have hge : c'.1 ≤ d.1 := by
            rcases List.mem_cons.1 hd' with rfl | h
            · exact le_rfl
            · have := haft d h; linarith
          have hbt : c.2.1 < t := by linarith
          rw [if_pos hbt, if_pos hbt]
          rcases (hge.trans h1).lt_or_eq with h | h
          · rw [if_pos h, if_pos h]; exact a1 d hd' t h1 h2
          · have hn : ¬ c'.1 < t := by rw [h]; exact lt_irrefl _
            rw [if_neg hn, if_neg hn, ← h]
            have : d = c' := by
              rcases List.mem_cons.1 hd' with e | hm
              · exact e
              · have := haft d hm; linarith
            rw [this]; exact ⟨p4, p5⟩
      · intro t ht
        simp only [List.head_cons] at ht ⊢
        rw [hE, hD, if_neg (not_lt.2 ht), if_neg (not_lt.2 ht)]; exact ⟨rfl, rfl⟩
      · intro t ht
        have hlast : (c :: c' :: r).getLast hne = (c' :: r).getLast (by simp) := by simp
        rw [hlast] at ht ⊢
        have hge : c'.1 ≤ ((c' :: r).getLast (by simp)).1 := by
          rcases List.mem_cons.1 (List.getLast_mem (l := c' :: r) (by simp)) with h | h
          · rw [h]
          · have := haft _ h; linarith
        have hbt : c.2.1 < t := by linarith
        rw [hE, hD, if_pos hbt, if_pos hbt]
        rcases (hge.trans ht).lt_or_eq with h | h
        · rw [if_pos h, if_pos h]; exact a3 t ht
        · have h3 := a3 t ht
          rw [← h, b1, b2] at h3
          have hn : ¬ c'.1 < t := by rw [h]; exact lt_irrefl _
          rw [if_neg hn, if_neg hn, ← h, p4, p5]
          exact h3
      · intro i hi
        cases i with
        | zero =>
          simp only [List.getElem_cons_zero, List.getElem_cons_succ, Nat.zero_add]
          rw [hE, if_pos (by linarith), if_neg (not_lt.2 (by linarith)), p7]
          cases zoff <;> rfl
        | succ i =>
          have hi' : i + 1 < (c' :: r).length := by simpa using hi
          have := a4 i hi'
          simp only [List.getElem_cons_succ] at this ⊢
          have hmem : (c' :: r)[i] ∈ c' :: r := List.getElem_mem _
          have hge : c'.1 ≤ (c' :: r)[i].1 := by
            rcases List.mem_cons.1 hmem with h | h
            · rw [h]
            · have := haft _ h; linarith
          have h1 := ho.1 _ (List.mem_cons_of_mem _ hmem)
          have h2 : (c' :: r)[i].2.1 < (c' :: r)[i + 1].1 := List.isChain_iff_getElem.1 (ordered_tail ho).2 i hi'
          simp only [List.getElem_cons_succ] at h2
          rw [hE, if_pos (by linarith), if_pos (by linarith)]
          exact this
      · refine smooth_cons _ _ _ (good_constant _) (smooth_cons _ _ _ p8 a5 ?_ ?_) ?_ ?_
        · show p.eval c'.1 = _; rw [p4, b1]; rfl
        · show p.deval c'.1 = _; rw [p5, b2]
        · show (constantPoly c.2.2).eval c.2.1 = _
          rw [(constant_eval _ _).1, (evalList_cons _ _ _ _).1, if_neg (not_lt.2 hlt.le), p1]
        · show (constantPoly c.2.2).deval c.2.1 = _
          rw [(constant_eval _ _).2, (evalList_cons _ _ _ _).2, if_neg (not_lt.2 hlt.le), p2]

example : Ordered [(0, 1, 5), (3, 4, 7)] := by constructor <;> simp <;> norm_num

/-- C84 for whole plans: an end-effector that is in contact at the first step and leaves the ground at least once before the last step gets
references at every step: the position of the contact phase and zero velocity during every phase that ends before the last step. -/
theorem C84_references_partial (solve : Solver) (hs : solve.Exact) (zoff : Option ℝ) (dt : ℝ) (T : ℕ) (act : ℕ → Bool) (pos : ℕ → ℝ)
    (h0 : act 0 = true) (k : ℕ) (hk : k + 1 < T) (hoff : act (k + 1) = false) :
    (∀ it, (effRef solve zoff dt T act pos it).isSome) ∧
    ∀ a b, IsRun act a b → b + 1 < T → ∀ it, a ≤ it → it ≤ b → effRef solve zoff dt T act pos it = some (pos b, 0) := by
  obtain ⟨h1, h2⟩ := C83_contact_plan_partial T act pos h0
  set plan := (contactPlan T act pos).map fun c => ((c.1 : ℝ), (c.2.1 : ℝ), c.2.2) with hplan
  have hne : plan ≠ [] := by
    -- the contact phase that begins at step 0
    obtain ⟨n, hn, hmin⟩ : ∃ n, act (n + 1) = false ∧ ∀ m < n, act (m + 1) ≠ false :=
      have hex : ∃ n, act (n + 1) = false := ⟨k, hoff⟩
      ⟨Nat.find hex, Nat.find_spec hex, fun m hm => Nat.find_min hex hm⟩
    have hnk : n ≤ k := by
      by_contra hlt
      exact hmin k (by omega) hoff
    have hrun : IsRun act 0 n := by
      refine ⟨Nat.zero_le _, fun t _ ht => ?_, .inl rfl, hn⟩
      cases t with
      | zero => exact h0
      | succ t => simpa using hmin t (by omega)
    have hmem := (h1 0 n (pos n)).2 ⟨hrun, by omega, rfl⟩
    intro he
    rw [hplan, List.map_eq_nil_iff] at he
    rw [he] at hmem
    simp at hmem
  have ho : Ordered plan := by
    constructor
    · intro c hc
      obtain ⟨⟨a, b, p⟩, hm, rfl⟩ := List.mem_map.1 hc
      have := ((h1 a b p).1 hm).1.1
      exact (Nat.cast_le (α := ℝ)).2 this
    · rw [hplan, List.isChain_map]
      refine h2.isChain.imp fun c d h => ?_
      have : c.2.1 < d.1 := by omega
      exact (Nat.cast_lt (α := ℝ)).2 this
  obtain ⟨l, hl, -, a1, -, -, -, a5⟩ := C84_end_effector_trajectory solve hs zoff plan hne ho
  have heff : ∀ it : ℕ, effRef solve zoff dt T act pos it = (evalList l it).bind fun x => (devalList l it).bind fun v => some (x, v / dt) := by
    intro it
    unfold effRef
    rw [← hplan, hl]; rfl
  refine ⟨fun it => ?_, fun a b hr hb it h3 h4 => ?_⟩
  · obtain ⟨v, d, e1, e2, -⟩ := a5 it
    rw [heff, e1, e2]; rfl
  · have hm := (h1 a b (pos b)).2 ⟨hr, hb, rfl⟩
    obtain ⟨e1, e2⟩ := a1 ((a : ℝ), (b : ℝ), pos b) (List.mem_map.2 ⟨_, hm, rfl⟩) it ((Nat.cast_le (α := ℝ)).2 h3) ((Nat.cast_le (α := ℝ)).2 h4)
    rw [heff, e1, e2]; simp

/-- C84 is false of the code for an end-effector that never leaves the ground: asking for its references raises. -/
theorem C84_standing_violated (solve : Solver) (zoff : Option ℝ) (dt : ℝ) (T : ℕ) (pos : ℕ → ℝ) (it : ℕ) :
    effRef solve zoff dt T (fun _ => true) pos it = none := by
  have : contactPlan T (fun _ => true) pos = [] := (C83_last_contact_violated T (fun _ => true) pos rfl).2 fun _ => rfl
  simp [effRef, this, effAxis, evalList, getPoly]

/-- C84 is false of the code for the last contact: with contact, swing, contact until the end, the end-effector is kept at its
first contact although the plan moves it. -/
theorem C84_last_contact_violated (solve : Solver) (zoff : Option ℝ) (dt : ℝ) :
    effRef solve zoff dt 3 (fun t => decide (t ≠ 1)) (fun t => (t : ℝ)) 2 = some (0, 0) := by
  have : contactPlan 3 (fun t => decide (t ≠ 1)) (fun t => (t : ℝ)) = [(0, 0, 0)] := by
    simp [contactPlan, List.range_succ, planStep]
  unfold effRef
  rw [this]
  simp [effAxis, evalList, devalList, getPoly, constant_eval]

/-- The reference velocity belongs to real time: with steps of length `dt`, the derivative of the position with respect to time is
`deval / dt`. -/
theorem C84_velocity_per_time (l : PolyList) (h : Smooth l) (dt : ℝ) (τ : ℝ) :
    ∃ d, devalList l (τ / dt) = some d ∧ HasDerivAt (fun s => (evalList l (s / dt)).getD 0) (d / dt) τ := by
  obtain ⟨v, d, -, hd, hh⟩ := h (τ / dt)
  refine ⟨d, hd, ?_⟩
  have := hh.comp τ ((hasDerivAt_id τ).div_const dt)
  rw [mul_one_div] at this
  exact this

/-! ### C85 -/

/-- Facts about a trajectory from the via point `(t0, x0)` on. -/
theorem interpFrom_spec (solve : Solver) (hs : solve.Exact) (steps goal : ℝ) (vias : List (ℝ × ℝ)) (t0 x0 : ℝ)
    (hc : List.IsChain (fun a b : ℝ × ℝ => a.1 < b.1) ((t0, x0) :: vias)) (hlast : ∀ v ∈ (t0, x0) :: vias, v.1 ≤ steps) :
    ∃ l, interpFrom solve steps goal t0 x0 vias = some l ∧ (l = [] ↔ vias = [] ∧ t0 = steps) ∧
      (l ≠ [] → Smooth l ∧ evalList l t0 = some x0 ∧ devalList l t0 = some 0 ∧
        (∀ v ∈ vias, evalList l v.1 = some v.2 ∧ devalList l v.1 = some 0) ∧
        ((∀ v ∈ (t0, x0) :: vias, v.1 < steps) → evalList l steps = some goal ∧ devalList l steps = some 0)) := by
  induction vias generalizing t0 x0 with
  | nil =>
    rw [interpFrom]
    by_cases ht : t0 = steps
    · rw [if_neg (by simpa using ht)]
      exact ⟨[], rfl, by simp [ht], by simp⟩
    · rw [if_pos ht]
      obtain ⟨p, hp, p1, p2, -, p4, p5, -, -, p8⟩ := (C55_poly_points solve hs t0 steps x0 goal none).2 ht
      refine ⟨[((t0, steps), p)], by simp [hp], by simp [ht], fun _ => ⟨smooth_single _ p8, p1, p2, by simp, fun _ => ⟨p4, p5⟩⟩⟩
  | cons v r ih =>
    obtain ⟨t1, x1⟩ := v
    rw [List.isChain_cons_cons] at hc
    have hlt : t0 < t1 := hc.1
    obtain ⟨l, hl, hl0, hl1⟩ := ih t1 x1 hc.2 (fun v hv => hlast v (List.mem_cons_of_mem _ hv))
    obtain ⟨p, hp, p1, p2, -, p4, p5, -, -, p8⟩ := (C55_poly_points solve hs t0 t1 x0 x1 none).2 hlt.ne
    refine ⟨((t0, t1), p) :: l, by rw [interpFrom]; simp [hp, hl], by simp, fun _ => ?_⟩
    have hafter : ∀ v ∈ r, t1 < v.1 := by
      have hp := (List.isChain_iff_pairwise (R := fun a b : ℝ × ℝ => a.1 < b.1)).1 hc.2
      exact fun v hv => (List.pairwise_cons.1 hp).1 v hv
    cases l with
    | nil =>
      obtain ⟨rfl, rfl⟩ := hl0.1 rfl
      refine ⟨smooth_single _ p8, p1, p2, ?_, fun h => ?_⟩
      · intro v hv
        rw [List.mem_singleton.1 hv]
        exact ⟨p4, p5⟩
      · exact absurd (h (t1, x1) (by simp)) (lt_irrefl _)
    | cons s l =>
      obtain ⟨b1, b2, b3, b4, b5⟩ := hl1 (by simp)
      refine ⟨smooth_cons _ _ _ p8 b1 ?_ ?_, ?_, ?_, ?_, ?_⟩
      · show p.eval t1 = _; rw [p4, b2]
      · show p.deval t1 = _; rw [p5, b3]
      · rw [(evalList_cons _ _ _ _).1, if_neg (not_lt.2 hlt.le), p1]
      · rw [(evalList_cons _ _ _ _).2, if_neg (not_lt.2 hlt.le), p2]
      · intro v hv
        rw [(evalList_cons _ _ _ _).1, (evalList_cons _ _ _ _).2]
        rcases List.mem_cons.1 hv with rfl | hv
        · rw [if_neg (lt_irrefl _), if_neg (lt_irrefl _)]; exact ⟨p4, p5⟩
        · rw [if_pos (hafter v hv), if_pos (hafter v hv)]; exact b4 v hv
      · intro h
        have h1 := h (t1, x1) (by simp)
        rw [(evalList_cons _ _ _ _).1, (evalList_cons _ _ _ _).2, if_pos h1, if_pos h1]
        exact b5 fun v hv => h v (List.mem_cons_of_mem _ hv)

/-- C85: for via points at strictly increasing times between 0 (excluded) and the number of steps, the interpolation exists, starts at
rest at the initial value, passes at rest through every via point at its time, ends at rest at the final value after the last step (if
the last via point is not already there), and its velocity is everywhere the derivative of its position. -/
theorem C85_via_points (solve : Solver) (hs : solve.Exact) (steps init goal : ℝ) (vias : List (ℝ × ℝ)) (hne : vias ≠ [])
    (hc : List.IsChain (fun a b : ℝ × ℝ => a.1 < b.1) ((0, init) :: vias)) (hlast : ∀ v ∈ vias, v.1 ≤ steps) :
    ∃ l, interpTraj solve steps init goal vias = some l ∧ Smooth l ∧
      evalList l 0 = some init ∧ devalList l 0 = some 0 ∧
      (∀ v ∈ vias, evalList l v.1 = some v.2 ∧ devalList l v.1 = some 0) ∧
      ((∀ v ∈ vias, v.1 < steps) → evalList l steps = some goal ∧ devalList l steps = some 0) := by
  obtain ⟨⟨t1, x1⟩, r, rfl⟩ := List.exists_cons_of_ne_nil hne
  have h0 : 0 < t1 := (List.isChain_cons_cons.1 hc).1
  have hst : 0 < steps := lt_of_lt_of_le h0 (hlast (t1, x1) (by simp))
  obtain ⟨l, hl, hl0, hl1⟩ := interpFrom_spec solve hs steps goal ((t1, x1) :: r) 0 init hc (by
    intro v hv
    rcases List.mem_cons.1 hv with rfl | hv
    · exact hst.le
    · exact hlast v hv)
  have hlne : l ≠ [] := fun h => by simpa using hl0.1 h
  obtain ⟨b1, b2, b3, b4, b5⟩ := hl1 hlne
  refine ⟨l, hl, b1, b2, b3, b4, fun h => b5 ?_⟩
  intro v hv
  rcases List.mem_cons.1 hv with rfl | hv
  · exact hst
  · exact h v hv

/-- Two via points within ten steps. -/
example : List.IsChain (fun a b : ℝ × ℝ => a.1 < b.1) [(0, 1), (4, 2), (10, 3)] ∧ ∀ v ∈ [((4 : ℝ), (2 : ℝ)), (10, 3)], v.1 ≤ (10 : ℝ) := by
  constructor <;> simp <;> norm_num

/-- C85 needs via points: without any the code raises. -/
theorem C85_no_via (solve : Solver) (steps init goal : ℝ) : interpTraj solve steps init goal [] = none := rfl

end MinJerk
end Verif
