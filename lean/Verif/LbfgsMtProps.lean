import Verif.LbfgsLsProps

/-! C28, C62: the More-Thuente line search. -/
namespace Verif
namespace Lbfgs

/-! ### C62: update of the interval of uncertainty -/

/-- Specification: `t` lies between `a` and `b` (in either order). -/
def Between (a b t : ℝ) : Prop := min a b ≤ t ∧ t ≤ max a b

/-- Specification: a configuration in which the interval update is called: the best point's slope points towards the trial point; a
bracketing interval contains the trial point strictly and its end points are the limits; otherwise the trial is ahead of the best point. -/
structure Config (I : Interval) (t tmin tmax : ℝ) : Prop where
  toward : I.dx * (t - I.x) < 0
  inside : I.brackt = true → min I.x I.y < t ∧ t < max I.x I.y ∧ tmin = min I.x I.y ∧ tmax = max I.x I.y
  ahead : I.brackt = false → tmin = I.x ∧ I.x < t ∧ t ≤ tmax

theorem clamp_range {a b c : ℝ} (h : a ≤ b) : a ≤ (if (if b < c then b else c) < a then a else (if b < c then b else c)) ∧
    (if (if b < c then b else c) < a then a else (if b < c then b else c)) ≤ b := by
  by_cases h1 : b < c
  · simp only [if_pos h1]; split
    · exact ⟨le_rfl, h⟩
    · exact ⟨h, le_rfl⟩
  · simp only [if_neg h1]; split
    · exact ⟨le_rfl, h⟩
    · exact ⟨by linarith, by linarith⟩

/-- The two possible new best points. -/
theorem updateTrial_best {I J : Interval} {t ft dt a b t' : ℝ} (h : updateTrial I t ft dt a b = some (J, t')) :
    (I.fx < ft ∧ J.x = I.x ∧ J.fx = I.fx ∧ J.dx = I.dx) ∨ (ft ≤ I.fx ∧ J.x = t ∧ J.fx = ft ∧ J.dx = dt) := by
  unfold updateTrial at h
  split at h
  · cases h
  simp only at h
  injection h with h
  injection h with h1 h2
  rw [← h1]
  by_cases hf : I.fx < ft
  · left; rw [if_pos hf]; exact ⟨hf, rfl, rfl, rfl⟩
  · right; rw [if_neg hf]
    refine ⟨not_lt.mp hf, ?_⟩
    split <;> exact ⟨rfl, rfl, rfl⟩

theorem dsign_iff {dx dt : ℝ} (h : dx ≠ 0) : dt * (dx / |dx|) < 0 ↔ dt * dx < 0 := by
  have ha : 0 < |dx| := abs_pos.mpr h
  rw [← mul_div_assoc, div_lt_iff₀ ha, zero_mul]

/-- C62. Every update of the interval of uncertainty from a consistent configuration succeeds; the new best value is the smaller one of the
best and the trial value; the next trial step stays within the limits; a bracketing interval stays bracketing, stays
within the limits, shrinks strictly, and the slope at its best end points into it. -/
theorem C62_interval_update (I : Interval) (t ft dt tmin tmax : ℝ) (hc : Config I t tmin tmax) :
    ∃ J t', updateTrial I t ft dt tmin tmax = some (J, t') ∧ J.fx = min I.fx ft ∧ tmin ≤ t' ∧ t' ≤ tmax ∧
      (I.brackt = true → J.brackt = true) ∧
      (J.brackt = true → J.x ≠ J.y ∧ J.dx * (J.y - J.x) ≤ 0 ∧ tmin ≤ J.x ∧ J.x ≤ tmax ∧ tmin ≤ J.y ∧ J.y ≤ tmax) ∧
      (I.brackt = true → |J.y - J.x| < |I.y - I.x|) := by
  obtain ⟨h1, h2, h3⟩ := hc
  have hdx : I.dx ≠ 0 := by rintro h; rw [h] at h1; simp at h1
  have hmm : tmin ≤ tmax ∧ tmin ≤ I.x ∧ I.x ≤ tmax ∧ tmin ≤ t ∧ t ≤ tmax := by
    cases hb : I.brackt with
    | true =>
      obtain ⟨a, b, rfl, rfl⟩ := h2 hb
      exact ⟨by linarith, min_le_left _ _, le_max_left _ _, a.le, b.le⟩
    | false =>
      obtain ⟨rfl, a, b⟩ := h3 hb
      exact ⟨by linarith, le_rfl, by linarith, a.le, b⟩
  obtain ⟨hm, hx1, hx2, ht1, ht2⟩ := hmm
  have hnot : ¬ (I.brackt = true ∧ (t ≤ min I.x I.y ∨ max I.x I.y ≤ t ∨ 0 ≤ I.dx * (t - I.x) ∨ tmax < tmin)) := by
    rintro ⟨hb, h⟩
    obtain ⟨a, b, c, d⟩ := h2 hb
    rcases h with h | h | h | h <;> linarith
  have hxt : I.x ≠ t := by rintro h; rw [h] at h1; simp at h1
  unfold updateTrial
  rw [if_neg hnot]
  simp only [dsign_iff hdx]
  -- facts about the new interval, independent of the trial selection
  have hpost : ∀ (br : Bool) (J : Interval), (I.brackt = true → br = true) → (I.brackt = false → br = true → I.fx < ft ∨ dt * I.dx < 0) →
      J = (if I.fx < ft then { I with y := t, fy := ft, dy := dt, brackt := br }
        else if dt * I.dx < 0 then { x := t, fx := ft, dx := dt, y := I.x, fy := I.fx, dy := I.dx, brackt := br }
        else { I with x := t, fx := ft, dx := dt, brackt := br }) →
      J.fx = min I.fx ft ∧ J.brackt = br ∧
      (J.brackt = true → J.x ≠ J.y ∧ J.dx * (J.y - J.x) ≤ 0 ∧ tmin ≤ J.x ∧ J.x ≤ tmax ∧ tmin ≤ J.y ∧ J.y ≤ tmax) ∧
      (I.brackt = true → |J.y - J.x| < |I.y - I.x|) := by
    intro br J hbr1 hbr2 hJ
    have hshrink : I.brackt = true → |t - I.x| < |I.y - I.x| ∧ |I.y - t| < |I.y - I.x| ∧ I.y ≠ t ∧ 0 < (I.y - t) * (t - I.x) := by
      intro hb
      obtain ⟨a, b, -, -⟩ := h2 hb
      rcases le_total I.x I.y with hle | hle
      · rw [min_eq_left hle] at a; rw [max_eq_right hle] at b
        rw [abs_of_pos (by linarith : 0 < t - I.x), abs_of_nonneg (by linarith : 0 ≤ I.y - I.x), abs_of_pos (by linarith : 0 < I.y - t)]
        exact ⟨by linarith, by linarith, b.ne', mul_pos (by linarith) (by linarith)⟩
      · rw [min_eq_right hle] at a; rw [max_eq_left hle] at b
        rw [abs_of_neg (by linarith : t - I.x < 0), abs_of_nonpos (by linarith : I.y - I.x ≤ 0), abs_of_neg (by linarith : I.y - t < 0)]
        exact ⟨by linarith, by linarith, a.ne, mul_pos_of_neg_of_neg (by linarith) (by linarith)⟩
    by_cases hf : I.fx < ft
    · rw [if_pos hf] at hJ
      subst hJ
      refine ⟨(min_eq_left hf.le).symm, rfl, fun _ => ⟨hxt, h1.le, hx1, hx2, ht1, ht2⟩, fun hb => (hshrink hb).1⟩
    · rw [if_neg hf] at hJ
      by_cases hs : dt * I.dx < 0
      · rw [if_pos hs] at hJ
        subst hJ
        refine ⟨(min_eq_right (not_lt.mp hf)).symm, rfl, fun _ => ⟨hxt.symm, ?_, ht1, ht2, hx1, hx2⟩, fun hb => ?_⟩
        · have h5 : 0 < (dt * I.dx) * (I.dx * (t - I.x)) := mul_pos_of_neg_of_neg hs h1
          have h6 : 0 < I.dx ^ 2 := by positivity
          by_contra hcon
          rw [not_le] at hcon
          simp only at hcon
          have : 0 < (dt * (I.x - t)) * I.dx ^ 2 := mul_pos hcon h6
          nlinarith
        · have := (hshrink hb).1
          rw [abs_sub_comm] at this
          exact this
      · rw [if_neg hs] at hJ
        subst hJ
        refine ⟨(min_eq_right (not_lt.mp hf)).symm, rfl, fun hbt => ?_, fun hb => (hshrink hb).2.1⟩
        have hb : I.brackt = true := by
          by_contra hb
          rcases hbr2 (by simpa using hb) hbt with h | h
          · exact hf h
          · exact hs h
        obtain ⟨-, -, hyt, hpos⟩ := hshrink hb
        obtain ⟨a, b, c, d⟩ := h2 hb
        refine ⟨hyt.symm, ?_, ht1, ht2, c ▸ min_le_right _ _, d ▸ le_max_right _ _⟩
        simp only
        by_contra hcon
        rw [not_le] at hcon
        have h5 := mul_pos_of_neg_of_neg h1 (neg_neg_of_pos (mul_pos hcon hpos))
        have h6 : 0 ≤ dt * I.dx := not_lt.mp hs
        have h7 : 0 ≤ (dt * I.dx) * ((I.y - t) ^ 2 * ((t - I.x) ^ 2)) := by positivity
        nlinarith
  have hsel : (I.brackt = true → (selectTrial I t ft dt tmin tmax (dt * I.dx < 0)).2.2 = true) ∧
      (I.brackt = false → (selectTrial I t ft dt tmin tmax (dt * I.dx < 0)).2.2 = true → I.fx < ft ∨ dt * I.dx < 0) := by
    unfold selectTrial
    by_cases hf : I.fx < ft
    · simp [hf]
    · rw [if_neg hf]
      by_cases hs : dt * I.dx < 0
      · simp [hs]
      · rw [if_neg hs]
        split <;> (refine ⟨fun h => h, fun h1 h2 => ?_⟩; rw [h1] at h2; cases h2)
  generalize hJ : (if I.fx < ft then ({ I with y := t, fy := ft, dy := dt, brackt := (selectTrial I t ft dt tmin tmax (dt * I.dx < 0)).2.2 } : Interval)
        else if dt * I.dx < 0 then { x := t, fx := ft, dx := dt, y := I.x, fy := I.fx, dy := I.dx, brackt := (selectTrial I t ft dt tmin tmax (dt * I.dx < 0)).2.2 }
        else { I with x := t, fx := ft, dx := dt, brackt := (selectTrial I t ft dt tmin tmax (dt * I.dx < 0)).2.2 }) = J
  obtain ⟨p1, p2, p3, p4⟩ := hpost _ J hsel.1 hsel.2 hJ.symm
  have hcl := clamp_range (c := (selectTrial I t ft dt tmin tmax (dt * I.dx < 0)).1) hm
  have hfin : ∀ n2 : ℝ, tmin ≤ n2 → n2 ≤ tmax → ∀ bd : Bool, ∀ n3 : ℝ,
      n3 = (if J.brackt = true ∧ bd = true then
        (if J.x < J.y then (if J.x + 0.66 * (J.y - J.x) < n2 then J.x + 0.66 * (J.y - J.x) else n2)
          else (if n2 < J.x + 0.66 * (J.y - J.x) then J.x + 0.66 * (J.y - J.x) else n2))
      else n2) → tmin ≤ n3 ∧ n3 ≤ tmax := by
    intro n2 a b bd n3 hn
    by_cases hbb : J.brackt = true ∧ bd = true
    · rw [if_pos hbb] at hn
      obtain ⟨-, -, q1, q2, q3, q4⟩ := p3 hbb.1
      have e1 : tmin ≤ J.x + 0.66 * (J.y - J.x) := by linarith
      have e2 : J.x + 0.66 * (J.y - J.x) ≤ tmax := by linarith
      rw [hn]
      split <;> split <;> first | exact ⟨e1, e2⟩ | exact ⟨a, b⟩
    · rw [if_neg hbb] at hn
      exact hn ▸ ⟨a, b⟩
  have hf := hfin _ hcl.1 hcl.2 (selectTrial I t ft dt tmin tmax (dt * I.dx < 0)).2.1 _ rfl
  exact ⟨_, _, rfl, p1, hf.1, hf.2, fun hb => p2.trans (hsel.1 hb), p3, p4⟩

/-- Non-vacuity of C62: two steps of a search, unbracketed with a trial ahead, and bracketed with a trial inside. -/
theorem C62_example : Config ⟨0, 0, -1, 0, 0, -1, false⟩ 1 0 5 ∧ Config ⟨1, -1, 1, 0, 0, -1, true⟩ (1/2) 0 1 := by
  constructor <;> constructor <;> norm_num

/-! ### C28 -/

/-- Step lengths permitted by the parameters. -/
def InRange (p : Params) (t : ℝ) : Prop := p.minStep ≤ t ∧ t ≤ p.maxStep

/-- What is known about the best point of the search: start or permitted step, with its own value, not above the initial value. -/
structure Best {n : Nat} (p : Params) (ev : Eval n) (xp d : Vec n) (finit : ℝ) (I : Interval) : Prop where
  range : I.x = 0 ∨ InRange p I.x
  value : I.fx = (ev (xp + I.x • d)).1
  slope : I.dx = dot (ev (xp + I.x • d)).2 d
  le : I.fx ≤ finit

theorem best_mtNext {n : Nat} {p : Params} {ev : Eval n} {xp d : Vec n} {finit : ℝ} {s : MtState} (h : Best p ev xp d finit s.I)
    (dginit dgtest ftest1 stmin stmax stp : ℝ) (hr : stp = s.I.x ∨ InRange p stp) :
    Best p ev xp d finit
      (mtNext p s dginit dgtest ftest1 stmin stmax stp (ev (xp + stp • d)).1 (dot (ev (xp + stp • d)).2 d)).I := by
  generalize hf : (ev (xp + stp • d)).1 = f
  generalize hg : dot (ev (xp + stp • d)).2 d = dg
  have hr' : stp = 0 ∨ InRange p stp := by
    rcases hr with rfl | hr
    · exact h.range
    · exact .inr hr
  have key : ∀ (J : Interval) (t : ℝ), updateTrial s.I stp f dg stmin stmax = some (J, t) → Best p ev xp d finit J := by
    intro J t hu
    rcases updateTrial_best hu with ⟨-, a, b, c⟩ | ⟨hle, a, b, c⟩
    · exact ⟨a ▸ h.range, by rw [a, b]; exact h.value, by rw [a, c]; exact h.slope, b ▸ h.le⟩
    · exact ⟨a ▸ hr', by rw [a, b, hf], by rw [a, c, hg], by rw [b]; exact hle.trans h.le⟩
  have keym : f ≤ s.I.fx → ∀ (J : Interval) (t : ℝ),
      updateTrial { s.I with fx := s.I.fx - s.I.x * dgtest, fy := s.I.fy - s.I.y * dgtest, dx := s.I.dx - dgtest, dy := s.I.dy - dgtest }
        stp (f - stp * dgtest) (dg - dgtest) stmin stmax = some (J, t) →
      Best p ev xp d finit { J with fx := J.fx + J.x * dgtest, fy := J.fy + J.y * dgtest, dx := J.dx + dgtest, dy := J.dy + dgtest } := by
    intro hle J t hu
    rcases updateTrial_best hu with ⟨-, a, b, c⟩ | ⟨-, a, b, c⟩
    · simp only at a b c
      refine ⟨a ▸ h.range, ?_, ?_, ?_⟩ <;> simp only [a, b, c]
      · rw [← h.value]; ring
      · rw [← h.slope]; ring
      · have := h.le; linarith
    · refine ⟨a ▸ hr', ?_, ?_, ?_⟩ <;> simp only [a, b, c]
      · rw [hf]; ring
      · rw [hg]; ring
      · have := h.le; linarith
  unfold mtNext
  simp only
  generalize hst : (if s.stage1 = true ∧ f ≤ ftest1 ∧ min p.ftol p.gtol * dginit ≤ dg then false else s.stage1) = st
  by_cases hc : st = true ∧ ftest1 < f ∧ f ≤ s.I.fx
  · simp only [if_pos hc]
    cases hu : updateTrial { s.I with fx := s.I.fx - s.I.x * dgtest, fy := s.I.fy - s.I.y * dgtest, dx := s.I.dx - dgtest, dy := s.I.dy - dgtest }
        stp (f - stp * dgtest) (dg - dgtest) stmin stmax with
    | none =>
      simp only
      have : Best p ev xp d finit { s.I with fx := s.I.fx - s.I.x * dgtest + s.I.x * dgtest, fy := s.I.fy - s.I.y * dgtest + s.I.y * dgtest, dx := s.I.dx - dgtest + dgtest, dy := s.I.dy - dgtest + dgtest } := by
        refine ⟨h.range, ?_, ?_, ?_⟩
        · simp only [sub_add_cancel]; exact h.value
        · simp only [sub_add_cancel]; exact h.slope
        · simp only [sub_add_cancel]; exact h.le
      split <;> exact this
    | some q =>
      obtain ⟨J, t⟩ := q
      simp only
      split <;> exact keym hc.2.2 J t hu
  · simp only [if_neg hc]
    cases hu : updateTrial s.I stp f dg stmin stmax with
    | none => simp only; split <;> exact h
    | some q =>
      obtain ⟨J, t⟩ := q
      simp only
      split <;> exact key J t hu

/-- The step actually tried: a permitted step, or the best step, and then it is an end point of the bracketing interval. -/
theorem mtStep_spec (p : Params) (hmm : p.minStep ≤ p.maxStep) (s : MtState) (count : Nat) :
    let st := mtStep p s count
    (InRange p st.2.2 ∧ ¬ (s.I.brackt = true ∧ ((st.2.2 ≤ st.1 ∨ st.2.1 ≤ st.2.2) ∨ s.uinfo = true)) ∧
        ¬ (s.I.brackt = true ∧ st.2.1 - st.1 ≤ p.xtol * st.2.1)) ∨
      (st.2.2 = s.I.x ∧ s.I.brackt = true ∧ (st.2.2 ≤ st.1 ∨ st.2.1 ≤ st.2.2)) := by
  simp only [mtStep]
  generalize hs2 : (if p.maxStep < (if s.stp < p.minStep then p.minStep else s.stp) then p.maxStep
    else (if s.stp < p.minStep then p.minStep else s.stp)) = s2
  have hr : InRange p s2 := by
    rw [← hs2]
    unfold InRange
    split_ifs <;> constructor <;> linarith
  cases hb : s.I.brackt with
  | false =>
    left
    simp only [Bool.false_eq_true, if_false, false_and, or_self, not_false_eq_true, and_true]
    exact hr
  | true =>
    simp only [if_true, true_and]
    split
    · right
      refine ⟨rfl, ?_⟩
      rcases le_total s.I.x s.I.y with h | h
      · left; rw [min_eq_left h]
      · right; rw [max_eq_left h]
    · next hc =>
      left
      exact ⟨hr, by tauto, by tauto⟩

theorem mtLoop_spec {n : Nat} (p : Params) (hmm : p.minStep ≤ p.maxStep) (ev : Eval n) (xp d : Vec n) (finit dginit : ℝ) (hd : dginit ≤ 0) :
    ∀ (k count : Nat) (s : MtState), (p.maxLinesearch - count).toNat = k → (count : Int) + 1 ≤ p.maxLinesearch →
      Best p ev xp d finit s.I →
      let o := mtLoop p ev xp d finit dginit count s
      count < o.evals ∧ (o.evals : Int) ≤ p.maxLinesearch ∧ OnRay ev xp d o ∧ (o.stp = 0 ∨ InRange p o.stp) ∧
      (∀ c, o.ret = .ok c → c = o.evals ∧ (o.evals : Int) < p.maxLinesearch ∧ InRange p o.stp ∧
        Armijo p.ftol finit dginit o.stp o.f ∧ StrongWolfe p.gtol dginit (dot o.g d)) ∧
      (o.ret = .error .roundingError → o.f ≤ finit) ∧
      o.ret ≠ .error .widthTooSmall ∧ o.ret ≠ .error .invalidParameters ∧ o.ret ≠ .error .increaseGradient := by
  intro k
  induction k with
  | zero => intro count s hk hc; omega
  | succ k ih =>
    intro count s hk hc hB
    have hst := mtStep_spec p hmm s count
    simp only at hst
    rw [mtLoop]
    generalize mtStep p s count = st at hst ⊢
    obtain ⟨stmin, stmax, stp⟩ := st
    simp only at hst ⊢
    have hr1 : stp = s.I.x ∨ InRange p stp := by
      rcases hst with ⟨h, -⟩ | ⟨h, -⟩
      · exact .inr h
      · exact .inl h
    have hr : stp = 0 ∨ InRange p stp := by
      rcases hr1 with rfl | hr
      · exact hB.range
      · exact .inr hr
    have hE : ((count + 1 : Nat) : Int) ≤ p.maxLinesearch := by push_cast; omega
    by_cases hc1 : s.I.brackt = true ∧ ((stp ≤ stmin ∨ stmax ≤ stp) ∨ s.uinfo = true)
    · rw [if_pos hc1]
      have hx : stp = s.I.x := by
        rcases hst with ⟨-, h, -⟩ | ⟨h, -⟩
        · exact absurd hc1 h
        · exact h
      refine ⟨by simp, hE, ⟨rfl, rfl⟩, hr, fun c h => (by cases h), fun _ => ?_, by simp, by simp, by simp⟩
      subst hx
      show (ev _).1 ≤ finit
      rw [← hB.value]; exact hB.le
    rw [if_neg hc1]
    have hrng : InRange p stp ∧ ¬ (s.I.brackt = true ∧ stmax - stmin ≤ p.xtol * stmax) := by
      rcases hst with ⟨h, -, h'⟩ | ⟨-, h1, h2⟩
      · exact ⟨h, h'⟩
      · exact absurd ⟨h1, .inl h2⟩ hc1
    split
    · exact ⟨by simp, hE, ⟨rfl, rfl⟩, hr, fun c h => (by cases h), fun h => by simp at h, by simp, by simp, by simp⟩
    split
    · exact ⟨by simp, hE, ⟨rfl, rfl⟩, hr, fun c h => (by cases h), fun h => by simp at h, by simp, by simp, by simp⟩
    rw [if_neg hrng.2]
    split
    · exact ⟨by simp, hE, ⟨rfl, rfl⟩, hr, fun c h => (by cases h), fun h => by simp at h, by simp, by simp, by simp⟩
    next hmax =>
    split
    · next hok =>
      refine ⟨by simp, hE, ⟨rfl, rfl⟩, hr, fun c h => ?_, fun h => by simp at h, by simp, by simp, by simp⟩
      have hc' : count + 1 = c := by injection h
      refine ⟨hc'.symm, not_le.mp hmax, hrng.1, ?_, ?_⟩
      · unfold Armijo
        calc _ ≤ _ := hok.1
          _ = _ := by ring
      · unfold StrongWolfe
        rw [abs_of_nonpos hd]; exact hok.2
    · have := ih (count + 1) (mtNext p s dginit (p.ftol * dginit) (finit + stp * (p.ftol * dginit)) stmin stmax stp (ev (xp + stp • d)).1 (dot (ev (xp + stp • d)).2 d))
        (by push_cast; omega) (by push_cast at *; omega) (best_mtNext hB _ _ _ _ _ _ hr1)
      obtain ⟨a, b⟩ := this
      exact ⟨by omega, b⟩

/-- C28, More-Thuente line search, for every callback, start (whose value and gradient are those of the callback), direction, step and
accepted parameters: at most `max_linesearch` evaluations; the result is a point of the ray with its own value and gradient, at step 0 or a step
within `[min_step, max_step]`; on success the count is the number of evaluations, the step is within `[min_step, max_step]`, and the strong Wolfe
conditions hold; a rounding-error exit never worsens the objective; the exit "width too small" never happens. -/
theorem C28_more_thuente {n : Nat} (p : Params) (hv : validate n p = none) (ev : Eval n) (xp d : Vec n) (stp : ℝ) :
    let f := (ev xp).1
    let gp := (ev xp).2
    let o := moreThuente p ev xp f gp d stp
    (o.evals : Int) ≤ p.maxLinesearch ∧ OnRay ev xp d { o with stp := if o.evals = 0 then 0 else o.stp } ∧
    (0 < o.evals → o.stp = 0 ∨ (p.minStep ≤ o.stp ∧ o.stp ≤ p.maxStep)) ∧
    (o.evals = 0 ↔ stp ≤ 0 ∨ 0 < dot gp d) ∧
    (∀ c, o.ret = .ok c → c = o.evals ∧ 0 < o.evals ∧ (o.evals : Int) < p.maxLinesearch ∧ p.minStep ≤ o.stp ∧ o.stp ≤ p.maxStep ∧
      Armijo p.ftol f (dot gp d) o.stp o.f ∧ StrongWolfe p.gtol (dot gp d) (dot o.g d)) ∧
    (o.ret = .error .roundingError → o.f ≤ f) ∧ o.ret ≠ .error .widthTooSmall := by
  obtain ⟨-, -, -, -, -, hmm, -, -, -, -, hmax, -⟩ := validate_none hv
  intro f gp
  unfold moreThuente
  split
  · next h => exact ⟨by simp; omega, by simp [OnRay, f, gp], fun hx => by simp at hx, by simp [h], fun c hx => (by cases hx), fun hx => by simp at hx, by simp⟩
  split
  · next h => exact ⟨by simp; omega, by simp [OnRay, f, gp], fun hx => by simp at hx, by simp [h], fun c hx => (by cases hx), fun hx => by simp at hx, by simp⟩
  next h1 h2 =>
  have hB : Best p ev xp d f ⟨0, f, dot gp d, 0, f, dot gp d, false⟩ :=
    ⟨.inl rfl, by simp [f], by simp [gp], le_rfl⟩
  obtain ⟨a, b, c, d', e, e', e'', -⟩ := mtLoop_spec p hmm ev xp d f (dot gp d) (not_lt.mp h2) _ 0
    { I := ⟨0, f, dot gp d, 0, f, dot gp d, false⟩, stage1 := true, uinfo := false,
      width := p.maxStep - p.minStep, prevWidth := 2 * (p.maxStep - p.minStep), stp := stp } rfl (by push_cast; omega) hB
  refine ⟨b, ?_, fun _ => d', ⟨fun h => absurd h a.ne', fun h => absurd h (by tauto)⟩, fun k hk => ?_, e', e''⟩
  · simp only
    rw [if_neg (by omega)]; exact c
  · obtain ⟨e1, e2, e3, e4, e5⟩ := e k hk
    exact ⟨e1, by omega, e2, e3.1, e3.2, e4, e5⟩

/-- Non-vacuity of C28: with the default parameters the search succeeds on `f(x) = (x-1)^2` from 0 in direction 1 with first step 1. -/
theorem C28_example :
    let ev : Eval 1 := fun x => ((x 0 - 1) ^ 2, fun _ => 2 * (x 0 - 1))
    validate 1 defparam = none ∧ (moreThuente defparam ev 0 (ev 0).1 (ev 0).2 (fun _ => 1) 1).ret = .ok 1 := by
  intro ev
  constructor
  · simp [validate, defparam]; norm_num
  · unfold moreThuente
    have h1 : dot (ev 0).2 (fun _ => 1) = -2 := by simp [dot, ev]
    rw [if_neg (by norm_num), h1, if_neg (by norm_num)]
    simp only
    rw [mtLoop]
    have hs : mtStep defparam { I := ⟨0, (ev 0).1, -2, 0, (ev 0).1, -2, false⟩, stage1 := true, uinfo := false, width := defparam.maxStep - defparam.minStep, prevWidth := 2 * (defparam.maxStep - defparam.minStep), stp := 1 } 0 = (0, 5, 1) := by
      simp [mtStep, defparam]; norm_num
    simp only [hs]
    simp [ev, dot, defparam]; norm_num

end Lbfgs
end Verif
