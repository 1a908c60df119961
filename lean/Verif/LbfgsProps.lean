import Verif.LbfgsDirProps
import Mathlib.Algebra.Order.Group.Unbundled.Int
import Mathlib.Data.List.Pairwise

/-! C29-C33, C63: the L-BFGS main loop and the wrapper. -/
namespace Verif
namespace Lbfgs

/-! ### specification -/

/-- The line search of these parameters enforces a curvature condition that rules out non-positive curvature. -/
def Curvature (p : Params) : Prop := (p.linesearch = 0 ∧ p.gtol < 1) ∨ p.linesearch = 2 ∨ p.linesearch = 3

/-- The gradient test: small gradient relative to the point. -/
def SmallGradient {n : Nat} (ev : Eval n) (eps : ℝ) (x : Vec n) : Prop := norm2 (ev x).2 ≤ eps * max (norm2 x) 1

/-- A state of the main loop together with the objective values accepted so far, the value at the starting point first. -/
inductive Hist {n : Nat} (p : Params) (ev : Eval n) (prog : Vec n → Vec n → ℝ → Nat → Int) (x0 : Vec n) : LState n → List ℝ → Prop
  | start : Hist p ev prog x0 (start p ev x0) [(ev x0).1]
  | step {s s' l} (h : Hist p ev prog x0 s l) (hs : iter p ev prog s = .inl s') : Hist p ev prog x0 s' (l ++ [(ev s'.x).1])

/-! ### line searches -/

theorem lineSearch_ok {n : Nat} {p : Params} (hv : validate n p = none) (ev : Eval n) (xp d : Vec n) (stp : ℝ) {c : Nat}
    (hok : (lineSearch p ev xp (ev xp).1 (ev xp).2 d stp).ret = .ok c) :
    let o := lineSearch p ev xp (ev xp).1 (ev xp).2 d stp
    OnRay ev xp d o ∧ 0 ≤ o.stp ∧ (p.linesearch ≠ 0 → 0 < o.stp) ∧ dot (ev xp).2 d ≤ 0 ∧
    Armijo p.ftol (ev xp).1 (dot (ev xp).2 d) o.stp o.f ∧
    (p.linesearch = 0 → StrongWolfe p.gtol (dot (ev xp).2 d) (dot o.g d)) ∧
    (p.linesearch = 2 ∨ p.linesearch = 3 → Wolfe p.wolfe (dot (ev xp).2 d) (dot o.g d)) := by
  have hmin := (validate_none hv).2.2.2.2.1
  unfold lineSearch at hok ⊢
  by_cases h0 : p.linesearch = 0
  · simp only [if_pos h0] at hok ⊢
    obtain ⟨-, h2, -, h4, h5, -⟩ := C28_more_thuente p hv ev xp d stp
    obtain ⟨e1, e2, e3, e4, e5, e6, e7⟩ := h5 c hok
    simp only [if_neg e2.ne'] at h2
    refine ⟨h2, le_trans hmin e4, fun h => absurd h0 h, ?_, e6, fun _ => e7, fun h => by omega⟩
    by_contra hcon
    exact e2.ne' (h4.mpr (.inr (not_le.mp hcon)))
  · simp only [if_neg h0] at hok ⊢
    obtain ⟨-, h2, -, h4⟩ := C27_backtracking_partial p hv h0 ev xp (ev xp).1 (ev xp).2 d stp
    obtain ⟨e1, e2, e3, e4, e5, -⟩ := h4 c hok
    exact ⟨(h2 e2).2, (h2 e2).1.le, fun _ => (h2 e2).1, e3, e4, fun h => absurd h h0, fun h => e5 (by omega)⟩

/-- With a curvature condition the step is positive and the slope increases. -/
theorem lineSearch_curv {n : Nat} {p : Params} (hv : validate n p = none) (hp : Curvature p) (ev : Eval n) (xp d : Vec n) (stp : ℝ) {c : Nat}
    (hd : dot (ev xp).2 d < 0) (hok : (lineSearch p ev xp (ev xp).1 (ev xp).2 d stp).ret = .ok c) :
    0 < (lineSearch p ev xp (ev xp).1 (ev xp).2 d stp).stp ∧
    dot (ev xp).2 d < dot (lineSearch p ev xp (ev xp).1 (ev xp).2 d stp).g d := by
  obtain ⟨h1, h2, h3, -, h5, h6, h7⟩ := lineSearch_ok hv ev xp d stp hok
  have hw := (validate_none hv).2.2.2.2.2.2.2.1
  have hslope : dot (ev xp).2 d < dot (lineSearch p ev xp (ev xp).1 (ev xp).2 d stp).g d := by
    rcases hp with ⟨h0, hg⟩ | h0 | h0
    · have := h6 h0
      unfold StrongWolfe at this
      rw [abs_of_neg hd] at this
      have h8 := neg_le_of_abs_le this
      nlinarith
    · have := h7 (.inl h0)
      unfold Wolfe at this
      have := (hw (.inl h0)).2
      nlinarith
    · have := h7 (.inr h0)
      unfold Wolfe at this
      have := (hw (.inr h0)).2
      nlinarith
  refine ⟨?_, hslope⟩
  rcases h2.lt_or_eq with h | h
  · exact h
  · exfalso
    obtain ⟨ha, hb⟩ := h1
    rw [← h, zero_smul, add_zero] at ha
    rw [ha] at hb
    have : (lineSearch p ev xp (ev xp).1 (ev xp).2 d stp).g = (ev xp).2 := congrArg Prod.snd hb
    rw [this] at hslope
    exact lt_irrefl _ hslope

/-! ### one iteration -/

/-- What an iteration that continues does. -/
theorem iter_inl {n : Nat} {p : Params} (ev : Eval n) {prog : Vec n → Vec n → ℝ → Nat → Int} {s s' : LState n}
    (h : iter p ev prog s = .inl s') :
    ∃ c, (lineSearch p ev s.x s.fx s.g s.d s.step).ret = .ok c ∧
      s'.x = (lineSearch p ev s.x s.fx s.g s.d s.step).x ∧ s'.fx = (lineSearch p ev s.x s.fx s.g s.d s.step).f ∧
      s'.g = (lineSearch p ev s.x s.fx s.g s.d s.step).g ∧ s'.k = s.k + 1 ∧ s'.step = 1 ∧
      ¬ norm2 s'.g / max (norm2 s'.x) 1 ≤ p.epsilon ∧ ¬ (p.maxIterations ≠ 0 ∧ p.maxIterations < s.k + 1) ∧ 0 < p.m ∧
      s'.pf = (if 0 < p.past then Function.update s.pf (s.k % p.past.toNat) s'.fx else s.pf) ∧
      s'.e = (s.e + 1) % p.m.toNat ∧
      (let lm := Function.update s.lm s.e { alpha := (s.lm s.e).alpha, s := s'.x - s.x, y := s'.g - s.g, ys := dot (s'.g - s.g) (s'.x - s.x) }
       let dir := direction p.m.toNat (if p.m.toNat ≤ s.k then p.m.toNat else s.k) s'.e lm (dot (s'.g - s.g) (s'.x - s.x) / dot (s'.g - s.g) (s'.g - s.g)) s'.g
       s'.d = dir.1 ∧ s'.lm = dir.2) := by
  unfold iter at h
  simp only at h
  generalize lineSearch p ev s.x s.fx s.g s.d s.step = r at h ⊢
  cases hr : r.ret with
  | error e => rw [hr] at h; simp at h
  | ok c =>
    rw [hr] at h
    simp only at h
    by_cases h1 : prog r.x r.g r.f s.k ≠ 0
    · rw [if_pos h1] at h; cases h
    rw [if_neg h1] at h
    by_cases h2 : norm2 r.g / max (norm2 r.x) 1 ≤ p.epsilon
    · rw [if_pos h2] at h; cases h
    rw [if_neg h2] at h
    by_cases h3 : 0 < p.past ∧ p.past ≤ s.k ∧ rateBelow (s.pf (s.k % p.past.toNat)) r.f p.delta
    · rw [if_pos h3] at h; cases h
    rw [if_neg h3] at h
    by_cases h4 : p.maxIterations ≠ 0 ∧ p.maxIterations < s.k + 1
    · rw [if_pos h4] at h; cases h
    rw [if_neg h4] at h
    by_cases h5 : p.m ≤ 0
    · rw [if_pos h5] at h; cases h
    rw [if_neg h5] at h
    injection h with h
    subst h
    exact ⟨c, rfl, rfl, rfl, rfl, rfl, rfl, h2, h4, not_le.mp h5, rfl, rfl, rfl, rfl⟩

/-- What an iteration that ends does. -/
theorem iter_inr {n : Nat} {p : Params} (ev : Eval n) {prog : Vec n → Vec n → ℝ → Nat → Int} {s : LState n} {r : Result n}
    (h : iter p ev prog s = .inr r) :
    let o := lineSearch p ev s.x s.fx s.g s.d s.step
    (∃ e, o.ret = .error e ∧ r = ⟨.linesearch e, s.x, o.f⟩) ∨
    (∃ c, o.ret = .ok c ∧ r.x = o.x ∧ r.fx = o.f ∧
      ((r.ret = .aborted (prog o.x o.g o.f s.k) ∧ prog o.x o.g o.f s.k ≠ 0) ∨
       (r.ret = .success ∧ norm2 o.g / max (norm2 o.x) 1 ≤ p.epsilon) ∨
       (r.ret = .stop ∧ 0 < p.past ∧ p.past ≤ s.k ∧ rateBelow (s.pf (s.k % p.past.toNat)) o.f p.delta) ∨
       (r.ret = .maximumIteration ∧ p.maxIterations ≠ 0 ∧ p.maxIterations < s.k + 1) ∨
       (r.ret = .undefined ∧ p.m ≤ 0))) := by
  unfold iter at h
  simp only at h ⊢
  generalize lineSearch p ev s.x s.fx s.g s.d s.step = o at h ⊢
  cases hr : o.ret with
  | error e => rw [hr] at h; simp at h; exact .inl ⟨e, rfl, h.symm⟩
  | ok c =>
    right
    refine ⟨c, rfl, ?_⟩
    rw [hr] at h
    simp only at h
    by_cases h1 : prog o.x o.g o.f s.k ≠ 0
    · rw [if_pos h1] at h; injection h with h; subst h; exact ⟨rfl, rfl, .inl ⟨rfl, h1⟩⟩
    rw [if_neg h1] at h
    by_cases h2 : norm2 o.g / max (norm2 o.x) 1 ≤ p.epsilon
    · rw [if_pos h2] at h; injection h with h; subst h; exact ⟨rfl, rfl, .inr (.inl ⟨rfl, h2⟩)⟩
    rw [if_neg h2] at h
    by_cases h3 : 0 < p.past ∧ p.past ≤ s.k ∧ rateBelow (s.pf (s.k % p.past.toNat)) o.f p.delta
    · rw [if_pos h3] at h; injection h with h; subst h; exact ⟨rfl, rfl, .inr (.inr (.inl ⟨rfl, h3⟩))⟩
    rw [if_neg h3] at h
    by_cases h4 : p.maxIterations ≠ 0 ∧ p.maxIterations < s.k + 1
    · rw [if_pos h4] at h; injection h with h; subst h; exact ⟨rfl, rfl, .inr (.inr (.inr (.inl ⟨rfl, h4⟩)))⟩
    rw [if_neg h4] at h
    by_cases h5 : p.m ≤ 0
    · rw [if_pos h5] at h; injection h with h; subst h; exact ⟨rfl, rfl, .inr (.inr (.inr (.inr ⟨rfl, h5⟩)))⟩
    rw [if_neg h5] at h
    cases h

/-! ### invariant of the main loop -/

/-- Invariant: value and gradient belong to the point, values are stored in order, the ring buffer of past values is right. -/
structure Inv {n : Nat} (p : Params) (ev : Eval n) (x0 : Vec n) (s : LState n) (l : List ℝ) : Prop where
  eval : (s.fx, s.g) = ev s.x
  kpos : 0 < s.k
  len : l.length = s.k
  head : l[0]? = some (ev x0).1
  last : l[s.k - 1]? = some s.fx
  past : 0 < p.past → ∀ j, j < s.k → s.k ≤ j + p.past.toNat → l[j]? = some (s.pf (j % p.past.toNat))
  sorted : l.Pairwise (· ≥ ·)

theorem ray_eval {n : Nat} {ev : Eval n} {xp d : Vec n} {o : LsOut n} (h : OnRay ev xp d o) : (o.f, o.g) = ev o.x := h.2

theorem eval_split {n : Nat} {ev : Eval n} {s : LState n} (h : (s.fx, s.g) = ev s.x) : s.fx = (ev s.x).1 ∧ s.g = (ev s.x).2 := by
  rw [← h]; exact ⟨rfl, rfl⟩

theorem armijo_le {c f0 m0 st f : ℝ} (hc : 0 ≤ c) (hm : m0 ≤ 0) (hs : 0 ≤ st) (h : Armijo c f0 m0 st f) : f ≤ f0 := by
  unfold Armijo at h
  have := mul_nonneg (mul_nonneg hc hs) (neg_nonneg.mpr hm)
  nlinarith

theorem pairwise_snoc {l : List ℝ} {R : ℝ → ℝ → Prop} (hR : ∀ a b c, R a b → R b c → R a c) (h : l.Pairwise R) {a b : ℝ}
    (hlast : l[l.length - 1]? = some a) (hab : R a b) : (l ++ [b]).Pairwise R := by
  rw [List.pairwise_append]
  refine ⟨h, List.pairwise_singleton _ _, fun x hx y hy => ?_⟩
  rw [List.mem_singleton] at hy
  subst hy
  obtain ⟨i, hi, rfl⟩ := List.getElem_of_mem hx
  have hl : l.length - 1 < l.length := by omega
  rw [List.getElem?_eq_getElem hl] at hlast
  injection hlast with hlast
  rcases Nat.lt_or_ge i (l.length - 1) with hlt | hge
  · exact hR _ _ _ (hlast ▸ List.pairwise_iff_getElem.mp h i _ hi hl hlt) hab
  · have : i = l.length - 1 := by omega
    subst this
    rw [hlast]; exact hab

theorem inv_hist {n : Nat} {p : Params} (hv : validate n p = none) {ev : Eval n} {prog : Vec n → Vec n → ℝ → Nat → Int} {x0 : Vec n}
    {s : LState n} {l : List ℝ} (h : Hist p ev prog x0 s l) : Inv p ev x0 s l := by
  have hftol := (validate_none hv).2.2.2.2.2.2.1
  induction h with
  | start =>
    refine ⟨rfl, by simp [start], rfl, rfl, rfl, fun hp j hj _ => ?_, List.pairwise_singleton _ _⟩
    simp only [start, Nat.lt_one_iff] at hj
    subst hj
    simp [start, hp]
  | @step s s' l h hs ih =>
    obtain ⟨c, h1, h2, h3, h4, h5, -, -, -, -, h9, -⟩ := iter_inl ev hs
    obtain ⟨a1, a2⟩ := eval_split ih.eval
    rw [a1, a2] at h1 h2 h3 h4
    obtain ⟨b1, b2, -, b4, b5, -⟩ := lineSearch_ok hv ev s.x s.d s.step h1
    have he : (s'.fx, s'.g) = ev s'.x := by rw [h2, h3, h4]; exact b1.2
    have hk := ih.kpos
    have hlen := ih.len
    have hfx : s'.fx = (ev s'.x).1 := (eval_split he).1
    have hle : s'.fx ≤ s.fx := by
      rw [h3, a1]; exact armijo_le hftol b4 b2 b5
    refine ⟨he, by omega, by simp [hlen, h5], ?_, ?_, ?_, ?_⟩
    · rw [List.getElem?_append_left (by omega)]; exact ih.head
    · rw [h5, Nat.add_sub_cancel, List.getElem?_append_right (by omega), hlen, Nat.sub_self, hfx]; rfl
    · intro hp j hj hjk
      rw [h9, if_pos hp]
      rw [h5] at hj hjk
      rcases Nat.lt_or_ge j s.k with hlt | hge
      · rw [List.getElem?_append_left (by omega), ih.past hp j hlt (by omega), Function.update_of_ne]
        intro hmod
        have hpp : 0 < p.past.toNat := by omega
        have h1 := Nat.div_add_mod j p.past.toNat
        have h2 := Nat.div_add_mod s.k p.past.toNat
        rw [hmod] at h1
        have h3 : p.past.toNat * (j / p.past.toNat) < p.past.toNat * (s.k / p.past.toNat) := by omega
        have h4 : j / p.past.toNat < s.k / p.past.toNat := Nat.lt_of_mul_lt_mul_left h3
        have h5 : p.past.toNat * (j / p.past.toNat + 1) ≤ p.past.toNat * (s.k / p.past.toNat) := Nat.mul_le_mul_left _ h4
        rw [Nat.mul_add, Nat.mul_one] at h5
        omega
      · have : j = s.k := by omega
        subst this
        rw [List.getElem?_append_right (by omega), hlen, Nat.sub_self, Function.update_self, hfx]; rfl
    · refine pairwise_snoc (R := (· ≥ ·)) (fun a b c h1 h2 => le_trans h2 h1) ih.sorted (a := s.fx) ?_ (hfx ▸ hle)
      rw [hlen]; exact ih.last

/-- Every execution of the main loop ends with a last iteration at a state with history. -/
theorem loop_last {n : Nat} {p : Params} {ev : Eval n} {prog : Vec n → Vec n → ℝ → Nat → Int} {x0 : Vec n} {s : LState n} {i : Nat} {r : Result n}
    (h : Loop p ev prog s i r) : ∀ l, Hist p ev prog x0 s l → ∃ s' l', Hist p ev prog x0 s' l' ∧ iter p ev prog s' = .inr r ∧ s'.k + 1 = s.k + i := by
  induction h with
  | done hr => intro l hl; exact ⟨_, _, hl, hr, rfl⟩
  | @next s s' i r hs hr ih =>
    intro l hl
    obtain ⟨t, l', h1, h2, h3⟩ := ih _ (.step hl hs)
    obtain ⟨c, -, -, -, -, h5, -⟩ := iter_inl ev hs
    exact ⟨t, l', h1, h2, by omega⟩

/-! ### C29 -/

/-- C29, partial: unless the parameters were rejected or the line search failed, the reported value is the objective value of the returned
point. Missing: the exits after a failed line search, where it is false (`C29_violated`). -/
theorem C29_reported_value_partial {n : Nat} (p : Params) (ev : Eval n) (prog : Vec n → Vec n → ℝ → Nat → Int) (x0 : Vec n) (fx0 : ℝ)
    (i : Nat) (r : Result n) (h : Run p ev prog x0 fx0 i r) (h1 : ∀ e, r.ret ≠ .invalid e) (h2 : ∀ e, r.ret ≠ .linesearch e) :
    r.fx = (ev r.x).1 := by
  cases h with
  | invalid _ => exact absurd rfl (h1 _)
  | already _ _ => rfl
  | run hv hg hr =>
    obtain ⟨s, l, hh, hi, -⟩ := loop_last hr _ .start
    have hI := inv_hist hv hh
    obtain ⟨a1, a2⟩ := eval_split hI.eval
    rcases iter_inr ev hi with ⟨e, -, he⟩ | ⟨c, hc, hx, hf, -⟩
    · exact absurd (by rw [he]) (h2 e)
    · rw [a1, a2] at hc hx hf
      obtain ⟨b1, -⟩ := lineSearch_ok hv ev s.x s.d s.step hc
      rw [hx, hf, ← b1.2]

/-- C29 is false: on `f(x) = x²` from `1/4` with one evaluation per line search, the line search fails, the point is reset, but the
value of the rejected trial point (9/16) is reported instead of 1/16. -/
theorem C29_violated :
    let ev : Eval 1 := fun x => (x 0 ^ 2, fun _ => 2 * x 0)
    let p : Params := { defparam with linesearch := 1, maxLinesearch := 1 }
    ∃ r, Run p ev (fun _ _ _ _ => 0) (fun _ => 1/4) 0 1 r ∧ r.ret = .linesearch .maximumLinesearch ∧ r.x = (fun _ => 1/4) ∧
      r.fx = 9/16 ∧ (ev r.x).1 = 1/16 := by
  intro ev p
  refine ⟨⟨.linesearch .maximumLinesearch, fun _ => 1/4, 9/16⟩, ?_, rfl, rfl, rfl, by norm_num [ev]⟩
  have hn : norm2 (ev fun _ => 1/4).2 = 1/2 := by
    have : dot (ev fun _ => 1/4).2 (ev fun _ => 1/4).2 = (1/2) ^ 2 := by simp [dot, ev]; norm_num
    unfold norm2
    rw [this, Real.sqrt_sq (by norm_num)]
  have hn2 : norm2 (-(ev fun _ => 1/4).2) = 1/2 := by
    have : dot (-(ev fun _ => 1/4).2) (-(ev fun _ => 1/4).2) = (1/2) ^ 2 := by simp [dot, ev]; norm_num
    unfold norm2
    rw [this, Real.sqrt_sq (by norm_num)]
  have hnx : norm2 (fun _ : Fin 1 => (1/4 : ℝ)) = 1/4 := by
    have : dot (fun _ : Fin 1 => (1/4 : ℝ)) (fun _ => 1/4) = (1/4) ^ 2 := by simp [dot]; norm_num
    unfold norm2
    rw [this, Real.sqrt_sq (by norm_num)]
  refine .run ?_ ?_ (.done ?_)
  · simp [validate, p, defparam]; norm_num
  · rw [hn, hnx]; simp [p, defparam]; norm_num
  · have hls : lineSearch p ev (fun _ => 1/4) (ev fun _ => 1/4).1 (ev fun _ => 1/4).2 (-(ev fun _ => 1/4).2) 2 =
        ⟨(fun _ => 1/4) + (2 : ℝ) • (-(ev fun _ => 1/4).2), 9/16, (ev ((fun _ => 1/4) + (2 : ℝ) • (-(ev fun _ => 1/4).2))).2, 2, 1, .error .maximumLinesearch⟩ := by
      unfold lineSearch
      rw [if_neg (by simp [p])]
      unfold backtracking
      have hd : dot (ev fun _ => 1/4).2 (-(ev fun _ => 1/4).2) = -1/4 := by simp [dot, ev]; norm_num
      rw [if_neg (by norm_num), hd, if_neg (by norm_num), btLoop]
      have hf : (ev ((fun _ => 1/4) + (2 : ℝ) • (-(ev fun _ => 1/4).2))).1 = 9/16 := by simp [ev]; norm_num
      have hdec : btDecide p (ev fun _ => 1/4).1 (-1/4) 2 (9/16) (dot (ev ((fun _ => 1/4) + (2 : ℝ) • (-(ev fun _ => 1/4).2))).2 (-(ev fun _ => 1/4).2)) = some 0.5 := by
        unfold btDecide
        rw [if_pos]
        simp [ev, p, defparam]; norm_num
      simp only [hf, hdec]
      rw [if_neg (by simp [p, defparam]; norm_num), if_neg (by simp [p, defparam]; norm_num), if_pos (by simp [p])]
    have hst : 1 / norm2 (-(ev fun _ => 1/4).2) = 2 := by rw [hn2]; norm_num
    unfold iter
    simp only [start, hst, hls]

/-! ### C30 -/

/-- C30, values: the values accepted during a run never increase and the last point reported without error is at least as good as the
start; a continuing iteration strictly decreases the value if `ftol > 0` and the slope along the direction is not zero. -/
theorem C30_monotone {n : Nat} (p : Params) (hv : validate n p = none) (ev : Eval n) (prog : Vec n → Vec n → ℝ → Nat → Int) (x0 : Vec n) :
    (∀ s l, Hist p ev prog x0 s l → l.Pairwise (· ≥ ·)) ∧
    (∀ s l s', Hist p ev prog x0 s l → iter p ev prog s = .inl s' → (p.linesearch ≠ 0 ∨ p.gtol < 1) → 0 < p.ftol → dot s.g s.d ≠ 0 →
      (ev s'.x).1 < (ev s.x).1) ∧
    (∀ fx0 i r, Run p ev prog x0 fx0 i r → (∀ e, r.ret ≠ .linesearch e) → r.fx ≤ (ev x0).1) := by
  have hftol := (validate_none hv).2.2.2.2.2.2.1
  refine ⟨fun s l h => (inv_hist hv h).sorted, ?_, ?_⟩
  · intro s l s' h hs hls hf hd
    have hI := inv_hist hv h
    obtain ⟨c, h1, h2, h3, h4, -⟩ := iter_inl ev hs
    obtain ⟨a1, a2⟩ := eval_split hI.eval
    rw [a1, a2] at h1 h2 h3 h4
    obtain ⟨b1, b2, b3, b4, b5, -⟩ := lineSearch_ok hv ev s.x s.d s.step h1
    rw [a2] at hd
    have hd' : dot (ev s.x).2 s.d < 0 := lt_of_le_of_ne b4 hd
    have hpos : 0 < (lineSearch p ev s.x (ev s.x).1 (ev s.x).2 s.d s.step).stp := by
      by_cases h0 : p.linesearch = 0
      · refine (lineSearch_curv hv (.inl ⟨h0, ?_⟩) ev s.x s.d s.step hd' h1).1
        rcases hls with h | h
        · exact absurd h0 h
        · exact h
      · exact b3 h0
    have hb : (ev s'.x).1 = (lineSearch p ev s.x (ev s.x).1 (ev s.x).2 s.d s.step).f := by rw [h2, ← b1.2]
    rw [hb]
    unfold Armijo at b5
    have := mul_pos (mul_pos hf hpos) (neg_pos.mpr hd')
    nlinarith
  · intro fx0 i r h hne
    cases h with
    | invalid he => rw [hv] at he; cases he
    | already _ _ => exact le_rfl
    | run _ hg hr =>
      obtain ⟨s, l, hh, hi, -⟩ := loop_last hr _ .start
      have hI := inv_hist hv hh
      obtain ⟨a1, a2⟩ := eval_split hI.eval
      rcases iter_inr ev hi with ⟨e, -, he⟩ | ⟨c, hc, hx, hf, -⟩
      · exact absurd (by rw [he]) (hne e)
      · rw [a1, a2] at hc hx hf
        obtain ⟨b1, b2, -, b4, b5, -⟩ := lineSearch_ok hv ev s.x s.d s.step hc
        rw [hf]
        refine le_trans (armijo_le hftol b4 b2 b5) ?_
        rw [← a1]
        have hk := hI.kpos
        have hlen := hI.len
        have h0 := hI.head
        have h1 := hI.last
        rw [List.getElem?_eq_getElem (by omega)] at h0 h1
        injection h0 with h0
        injection h1 with h1
        rcases Nat.eq_zero_or_pos (s.k - 1) with hz | hz
        · have : s.fx = (ev x0).1 := by rw [← h0, ← h1]; congr
          exact this.le
        · have := List.pairwise_iff_getElem.mp hI.sorted 0 (s.k - 1) (by omega) (by omega) hz
          rw [h0, h1] at this
          exact this

theorem loop_bound {n : Nat} {p : Params} {ev : Eval n} {prog : Vec n → Vec n → ℝ → Nat → Int} {s : LState n} {i : Nat} {r : Result n}
    (h : Loop p ev prog s i r) (hmax : p.maxIterations ≠ 0) : i ≤ 1 ∨ (s.k : Int) + i ≤ p.maxIterations + 1 := by
  induction h with
  | done _ => exact .inl le_rfl
  | @next s s' i r hs hr ih =>
    obtain ⟨c, -, -, -, -, h5, -, -, h8, -⟩ := iter_inl ev hs
    right
    have : ¬ p.maxIterations < s.k + 1 := fun h => h8 ⟨hmax, h⟩
    rcases ih with h | h
    · push_cast; omega
    · push_cast; omega

theorem loop_exists {n : Nat} (p : Params) (ev : Eval n) (prog : Vec n → Vec n → ℝ → Nat → Int) (hmax : p.maxIterations ≠ 0) :
    ∀ (f : Nat) (s : LState n), (p.maxIterations - s.k).toNat ≤ f → ∃ i r, Loop p ev prog s i r := by
  intro f
  induction f with
  | zero =>
    intro s hs
    cases hi : iter p ev prog s with
    | inr r => exact ⟨1, r, .done hi⟩
    | inl s' =>
      obtain ⟨c, -, -, -, -, h5, -, -, h8, -⟩ := iter_inl ev hi
      exact absurd ⟨hmax, by omega⟩ h8
  | succ f ih =>
    intro s hs
    cases hi : iter p ev prog s with
    | inr r => exact ⟨1, r, .done hi⟩
    | inl s' =>
      obtain ⟨c, -, -, -, -, h5, -⟩ := iter_inl ev hi
      obtain ⟨i, r, h⟩ := ih s' (by omega)
      exact ⟨_, r, .next hi h⟩

theorem loop_det {n : Nat} {p : Params} {ev : Eval n} {prog : Vec n → Vec n → ℝ → Nat → Int} {s : LState n} {i : Nat} {r : Result n}
    (h : Loop p ev prog s i r) : ∀ {j r'}, Loop p ev prog s j r' → i = j ∧ r = r' := by
  induction h with
  | done hi =>
    intro j r' h'
    cases h' with
    | done hi' => rw [hi] at hi'; injection hi' with e; exact ⟨rfl, e⟩
    | next hi' _ => rw [hi] at hi'; cases hi'
  | next hs hr ih =>
    intro j r' h'
    cases h' with
    | done hi' => rw [hs] at hi'; cases hi'
    | next hi' hr' =>
      rw [hs] at hi'; injection hi' with e; subst e
      obtain ⟨a, b⟩ := ih hr'
      exact ⟨by rw [a], b⟩

/-- C30, termination: with a positive iteration limit the method has exactly one outcome and makes at most that many iterations. -/
theorem C30_terminates {n : Nat} (p : Params) (ev : Eval n) (prog : Vec n → Vec n → ℝ → Nat → Int) (x0 : Vec n) (fx0 : ℝ)
    (hmax : 0 < p.maxIterations) :
    ∃ i r, Run p ev prog x0 fx0 i r ∧ (i : Int) ≤ p.maxIterations ∧ ∀ j r', Run p ev prog x0 fx0 j r' → j = i ∧ r' = r := by
  cases hv : validate n p with
  | some e =>
    refine ⟨0, _, .invalid hv, by simpa using hmax.le, fun j r' h => ?_⟩
    cases h with
    | invalid h => rw [hv] at h; injection h with h; subst h; exact ⟨rfl, rfl⟩
    | already h => rw [hv] at h; cases h
    | run h => rw [hv] at h; cases h
  | none =>
    by_cases hg : norm2 (ev x0).2 / max (norm2 x0) 1 ≤ p.epsilon
    · refine ⟨0, _, .already hv hg, by simpa using hmax.le, fun j r' h => ?_⟩
      cases h with
      | invalid h => rw [hv] at h; cases h
      | already h => exact ⟨rfl, rfl⟩
      | run h hg' => exact absurd hg hg'
    · obtain ⟨i, r, h⟩ := loop_exists p ev prog hmax.ne' _ (start p ev x0) le_rfl
      refine ⟨i, r, .run hv hg h, ?_, fun j r' h' => ?_⟩
      · have hk : (start p ev x0).k = 1 := rfl
        rcases loop_bound h hmax.ne' with hb | hb
        · omega
        · rw [hk] at hb; push_cast at hb; omega
      · cases h' with
        | invalid h' => rw [hv] at h'; cases h'
        | already _ h' => exact absurd h' hg
        | run _ _ h' => obtain ⟨a, b⟩ := loop_det h h'; exact ⟨a.symm, b.symm⟩

theorem small_of_div {n : Nat} {g x : Vec n} {eps : ℝ} (h : norm2 g / max (norm2 x) 1 ≤ eps) : norm2 g ≤ eps * max (norm2 x) 1 := by
  rwa [div_le_iff₀ (lt_of_lt_of_le one_pos (le_max_right _ _))] at h

/-- C30, meaning of the exit codes: success and "already minimized" are only reported with a small gradient at the returned point; "stop" only
if the value improved, relative to the reported value, by less than `delta` within the last `past` iterations; "maximum iteration" only
if the limit is reached. -/
theorem C30_exit_codes {n : Nat} (p : Params) (ev : Eval n) (prog : Vec n → Vec n → ℝ → Nat → Int) (x0 : Vec n) (fx0 : ℝ)
    (i : Nat) (r : Result n) (h : Run p ev prog x0 fx0 i r) :
    (r.ret = .success ∨ r.ret = .alreadyMinimized → SmallGradient ev p.epsilon r.x) ∧
    (r.ret = .alreadyMinimized → r.x = x0 ∧ i = 0) ∧
    (r.ret = .stop → ∃ s l v, Hist p ev prog x0 s l ∧ l.length = i ∧ 0 < p.past ∧ p.past ≤ i ∧ l[i - p.past.toNat]? = some v ∧
      rateBelow v r.fx p.delta) ∧
    (r.ret = .maximumIteration → p.maxIterations ≠ 0 ∧ p.maxIterations ≤ i) := by
  cases h with
  | invalid _ => simp
  | already hv hg => exact ⟨fun _ => small_of_div hg, by simp, by simp, by simp⟩
  | run hv hg hr =>
    obtain ⟨s, l, hh, hi, hk⟩ := loop_last hr _ .start
    have hki : s.k = i := by have : (start p ev x0).k = 1 := rfl; omega
    have hI := inv_hist hv hh
    obtain ⟨a1, a2⟩ := eval_split hI.eval
    rcases iter_inr ev hi with ⟨e, -, he⟩ | ⟨c, hc, hx, hf, hcase⟩
    · subst he; simp
    · rw [a1, a2] at hc hx hf hcase
      obtain ⟨b1, -⟩ := lineSearch_ok hv ev s.x s.d s.step hc
      rcases hcase with ⟨h1, -⟩ | ⟨h1, h2⟩ | ⟨h1, h2, h3, h4⟩ | ⟨h1, h2, h3⟩ | ⟨h1, -⟩
      · simp [h1]
      · refine ⟨fun _ => ?_, by simp [h1], by simp [h1], by simp [h1]⟩
        unfold SmallGradient
        rw [hx, ← b1.2]
        exact small_of_div h2
      · refine ⟨by simp [h1], by simp [h1], fun _ => ?_, by simp [h1]⟩
        refine ⟨s, l, s.pf (s.k % p.past.toNat), hh, hI.len.trans hki, h2, by omega, ?_, by rw [hf]; exact h4⟩
        have := hI.past h2 (s.k - p.past.toNat) (by omega) (by omega)
        rw [← hki, this]
        congr 2
        exact (Nat.mod_eq_sub_mod (by omega)).symm
      · exact ⟨by simp [h1], by simp [h1], by simp [h1], fun _ => ⟨h2, by omega⟩⟩
      · simp [h1]

/-! ### C63: every direction is a descent direction -/

/-- Invariant about the stored pairs. -/
structure Inv2 {n : Nat} (p : Params) (s : LState n) : Prop where
  e : 0 < p.m → s.e = (s.k - 1) % p.m.toNat
  ys : 0 < p.m → ∀ i, i < p.m.toNat → i < s.k - 1 → 0 < (s.lm i).ys
  descent : dot s.g s.d < 0
  step : 0 < s.step

theorem ne_zero_of_not_small {n : Nat} {g x : Vec n} {eps : ℝ} (h0 : 0 ≤ eps) (h : ¬ norm2 g / max (norm2 x) 1 ≤ eps) : g ≠ 0 := by
  rintro rfl
  apply h
  have : norm2 (0 : Vec n) = 0 := by simp [norm2, dot]
  rw [this, zero_div]; exact h0

theorem mem_recent {n : Nat} {m b j : Nat} {lm : Nat → Entry n} {x : Entry n} (h : x ∈ recent m b j lm) (hj : j < m) :
    ∃ i, 1 ≤ i ∧ i ≤ b ∧ x = lm ((j + b * m - i) % m) := by
  induction b generalizing j with
  | zero => simp [recent] at h
  | succ b ih =>
    rw [recent, List.mem_cons] at h
    rcases h with rfl | h
    · refine ⟨1, le_rfl, by omega, ?_⟩
      have e : j + (b + 1) * m - 1 = (j + m - 1) + b * m := by rw [Nat.add_mul, Nat.one_mul]; omega
      rw [e, Nat.add_mul_mod_self_right]
    · obtain ⟨i, h1, h2, h3⟩ := ih h (Nat.mod_lt _ (by omega))
      refine ⟨i + 1, by omega, by omega, ?_⟩
      rw [h3]
      have hbm : b ≤ b * m := Nat.le_mul_of_pos_right b (by omega)
      have e3 : (j + m - 1) % m + b * m - i = (j + m - 1) % m + (b * m - i) := by omega
      have e4 : j + (b + 1) * m - (i + 1) = (j + m - 1) + (b * m - i) := by rw [Nat.add_mul, Nat.one_mul]; omega
      rw [e3, e4, Nat.mod_add_mod]

theorem inv2_hist {n : Nat} {p : Params} (hv : validate n p = none) (hp : Curvature p) {ev : Eval n} {prog : Vec n → Vec n → ℝ → Nat → Int}
    {x0 : Vec n} (hg : ¬ norm2 (ev x0).2 / max (norm2 x0) 1 ≤ p.epsilon) {s : LState n} {l : List ℝ} (h : Hist p ev prog x0 s l) :
    Inv2 p s := by
  have heps := (validate_none hv).2.1
  induction h with
  | start =>
    have hg0 := ne_zero_of_not_small heps hg
    refine ⟨fun _ => by simp [start], fun _ i _ hi => by simp [start] at hi, ?_, ?_⟩
    · simp only [start]; rw [dot_neg]; exact neg_neg_of_pos (dot_self_pos hg0)
    · simp only [start]
      apply one_div_pos.mpr
      exact Real.sqrt_pos.mpr (dot_self_pos (neg_ne_zero.mpr hg0))
  | @step s s' l h hs ih =>
    have hI := inv_hist hv h
    have hk := hI.kpos
    obtain ⟨c, h1, h2, h3, h4, h5, h6, h7, -, hm, -, h10, h11, h12⟩ := iter_inl ev hs
    obtain ⟨a1, a2⟩ := eval_split hI.eval
    rw [a1, a2] at h1 h2 h3 h4
    obtain ⟨⟨r1, r2⟩, -⟩ := lineSearch_ok hv ev s.x s.d s.step h1
    have hdesc := ih.descent
    rw [a2] at hdesc
    obtain ⟨c1, c2⟩ := lineSearch_curv hv hp ev s.x s.d s.step hdesc h1
    rw [← h4] at c2
    have hsx : s'.x - s.x = (lineSearch p ev s.x (ev s.x).1 (ev s.x).2 s.d s.step).stp • s.d := by
      rw [h2, r1]; abel
    have hys : 0 < dot (s'.g - s.g) (s'.x - s.x) := by
      rw [hsx, dot_smul, sub_dot, a2]
      exact mul_pos c1 (by linarith)
    have hyne : s'.g - s.g ≠ 0 := by
      intro h0; rw [h0, zero_dot] at hys; exact lt_irrefl _ hys
    have hgam : 0 < dot (s'.g - s.g) (s'.x - s.x) / dot (s'.g - s.g) (s'.g - s.g) := div_pos hys (dot_self_pos hyne)
    have hgne : s'.g ≠ 0 := ne_zero_of_not_small heps h7
    have hm' : 0 < p.m.toNat := by omega
    have he' : s'.e < p.m.toNat := by rw [h10]; exact Nat.mod_lt _ hm'
    have hse := ih.e hm
    have hek : s'.e = s.k % p.m.toNat := by
      rw [h10, hse, Nat.mod_add_mod]; congr 1; omega
    have hpos : ∀ i, i < p.m.toNat → i < s.k →
        0 < ((Function.update s.lm s.e { alpha := (s.lm s.e).alpha, s := s'.x - s.x, y := s'.g - s.g, ys := dot (s'.g - s.g) (s'.x - s.x) } : Nat → Entry n) i).ys := by
      intro i hi hik
      by_cases hie : i = s.e
      · subst hie; simpa using hys
      · rw [Function.update_of_ne hie]
        refine ih.ys hm i hi ?_
        rcases Nat.lt_or_ge i (s.k - 1) with h | h
        · exact h
        · exfalso
          have : i = s.k - 1 := by omega
          subst this
          rw [hse, Nat.mod_eq_of_lt hi] at hie
          exact hie rfl
    generalize hlm : (Function.update s.lm s.e { alpha := (s.lm s.e).alpha, s := s'.x - s.x, y := s'.g - s.g, ys := dot (s'.g - s.g) (s'.x - s.x) } : Nat → Entry n) = lm at h11 h12 hpos
    have hb : (if p.m.toNat ≤ s.k then p.m.toNat else s.k) ≤ p.m.toNat := by split <;> omega
    refine ⟨fun _ => by rw [hek, h5]; rfl, fun _ i hi hik => ?_, ?_, by rw [h6]; exact one_pos⟩
    · rw [h12]
      unfold direction
      simp only
      rw [((loop1_frame p.m.toNat hm' _ s'.e lm (-s'.g) he').2.2.2 i).2.2]
      exact hpos i hi (by omega)
    · rw [h11]
      obtain ⟨H, -, -, -, -, -, hH, -⟩ := C31_direction p.m.toNat (if p.m.toNat ≤ s.k then p.m.toNat else s.k) s'.e lm _ hb he' hgam (by
        intro x hx
        obtain ⟨i, i1, i2, rfl⟩ := mem_recent hx he'
        apply hpos _ (Nat.mod_lt _ hm')
        by_cases hmk : p.m.toNat ≤ s.k
        · exact lt_of_lt_of_le (Nat.mod_lt _ hm') hmk
        · rw [if_neg hmk] at i2 ⊢
          have hsk : s'.e = s.k := by rw [hek]; exact Nat.mod_eq_of_lt (by omega)
          rw [hsk]
          have e1 : s.k + s.k * p.m.toNat - i = (s.k - i) + s.k * p.m.toNat := by omega
          rw [e1, Nat.add_mul_mod_self_right, Nat.mod_eq_of_lt (by omega)]
          omega)
      exact hH _ hgne

/-- C63. With a line search that enforces a curvature condition (More-Thuente with `gtol < 1`, or either Wolfe backtracking), for every
objective, start and history: at the head of every iteration the direction is a strict descent direction and the step is positive; so the
run never ends with the errors "increasing gradient" or "invalid step", and with `ftol > 0` the accepted values strictly decrease. -/
theorem C63_descent_invariant {n : Nat} (p : Params) (hv : validate n p = none) (hp : Curvature p) (ev : Eval n)
    (prog : Vec n → Vec n → ℝ → Nat → Int) (x0 : Vec n) (hg : ¬ SmallGradient ev p.epsilon x0) :
    (∀ s l, Hist p ev prog x0 s l → dot (ev s.x).2 s.d < 0 ∧ 0 < s.step) ∧
    (0 < p.ftol → ∀ s l, Hist p ev prog x0 s l → l.Pairwise (· > ·)) ∧
    (∀ fx0 i r, Run p ev prog x0 fx0 i r → r.ret ≠ .linesearch .increaseGradient ∧ r.ret ≠ .linesearch .invalidParameters) := by
  have hg' : ¬ norm2 (ev x0).2 / max (norm2 x0) 1 ≤ p.epsilon := fun h => hg (small_of_div h)
  have hdesc : ∀ s l, Hist p ev prog x0 s l → dot (ev s.x).2 s.d < 0 ∧ 0 < s.step := by
    intro s l h
    have h2 := inv2_hist hv hp hg' h
    have h3 := h2.descent
    rw [(eval_split (inv_hist hv h).eval).2] at h3
    exact ⟨h3, h2.step⟩
  refine ⟨hdesc, ?_, ?_⟩
  · intro hf s l h
    induction h with
    | start => exact List.pairwise_singleton _ _
    | @step s s' l h hs ih =>
      have hI := inv_hist hv h
      obtain ⟨a1, a2⟩ := eval_split hI.eval
      refine pairwise_snoc (R := (· > ·)) (fun a b c h1 h2 => lt_trans h2 h1) ih (a := s.fx) (by rw [hI.len]; exact hI.last) ?_
      rw [a1]
      refine (C30_monotone p hv ev prog x0).2.1 s l s' h hs ?_ hf ?_
      · rcases hp with ⟨-, h⟩ | h | h
        · exact .inr h
        · exact .inl (by omega)
        · exact .inl (by omega)
      · rw [a2]; exact (hdesc s l h).1.ne
  · intro fx0 i r h
    cases h with
    | invalid he => rw [hv] at he; cases he
    | already _ _ => simp
    | run _ hgr hr =>
      obtain ⟨s, l, hh, hi, -⟩ := loop_last hr _ .start
      obtain ⟨d1, d2⟩ := hdesc s l hh
      obtain ⟨a1, a2⟩ := eval_split (inv_hist hv hh).eval
      have hns : (lineSearch p ev s.x s.fx s.g s.d s.step).ret ≠ .error .increaseGradient ∧
          (lineSearch p ev s.x s.fx s.g s.d s.step).ret ≠ .error .invalidParameters := by
        obtain ⟨-, -, -, -, -, hmm, -, -, -, -, hmax, -⟩ := validate_none hv
        rw [a1, a2]
        unfold lineSearch
        split
        · unfold moreThuente
          rw [if_neg (not_le.mpr d2), if_neg (not_lt.mpr d1.le)]
          have hB : Best p ev s.x s.d (ev s.x).1 ⟨0, (ev s.x).1, dot (ev s.x).2 s.d, 0, (ev s.x).1, dot (ev s.x).2 s.d, false⟩ :=
            ⟨.inl rfl, by simp, by simp, le_rfl⟩
          obtain ⟨-, -, -, -, -, -, -, w1, w2⟩ := mtLoop_spec p hmm ev s.x s.d (ev s.x).1 _ d1.le _ 0
            { I := ⟨0, (ev s.x).1, dot (ev s.x).2 s.d, 0, (ev s.x).1, dot (ev s.x).2 s.d, false⟩, stage1 := true, uinfo := false,
              width := p.maxStep - p.minStep, prevWidth := 2 * (p.maxStep - p.minStep), stp := s.step } rfl (by push_cast; omega) hB
          exact ⟨w2, w1⟩
        · next h0 =>
          obtain ⟨-, -, hz, -⟩ := C27_backtracking_partial p hv h0 ev s.x (ev s.x).1 (ev s.x).2 s.d s.step
          constructor
          · intro hc
            have := btLoop_err p ev s.x s.d (ev s.x).1 (dot (ev s.x).2 s.d) _ 0 s.step rfl
            unfold backtracking at hc
            rw [if_neg (not_le.mpr d2), if_neg (not_lt.mpr d1.le)] at hc
            exact this.1 hc
          · intro hc
            have := btLoop_err p ev s.x s.d (ev s.x).1 (dot (ev s.x).2 s.d) _ 0 s.step rfl
            unfold backtracking at hc
            rw [if_neg (not_le.mpr d2), if_neg (not_lt.mpr d1.le)] at hc
            exact this.2 hc
      rcases iter_inr ev hi with ⟨e, he, rfl⟩ | ⟨c, hc, hx, hf, hcase⟩
      · constructor
        · intro hx; injection hx with hx; subst hx; exact hns.1 he
        · intro hx; injection hx with hx; subst hx; exact hns.2 he
      · rcases hcase with ⟨h1, -⟩ | ⟨h1, -⟩ | ⟨h1, -⟩ | ⟨h1, -⟩ | ⟨h1, -⟩ <;> rw [h1] <;> simp

/-- Non-vacuity of C30 and C63: the default parameters are accepted and enforce a curvature condition; `f(x) = x²` at 1 has no small gradient. -/
theorem C63_example : validate 1 defparam = none ∧ Curvature defparam ∧ 0 < defparam.ftol ∧
    ¬ SmallGradient (n := 1) (fun x => (x 0 ^ 2, fun _ => 2 * x 0)) defparam.epsilon (fun _ => 1) := by
  refine ⟨?_, .inl ⟨rfl, ?_⟩, ?_, ?_⟩
  · simp [validate, defparam]; norm_num
  · norm_num [defparam]
  · norm_num [defparam]
  · have h1 : norm2 (fun _ : Fin 1 => (1 : ℝ)) = 1 := by simp [norm2, dot]
    have h2 : norm2 (fun _ : Fin 1 => (2 * 1 : ℝ)) = 2 := by
      have : dot (fun _ : Fin 1 => (2 * 1 : ℝ)) (fun _ => 2 * 1) = 2 ^ 2 := by simp [dot]; norm_num
      unfold norm2
      rw [this, Real.sqrt_sq (by norm_num)]
    unfold SmallGradient
    rw [h1, h2]
    simp [defparam]; norm_num

end Lbfgs
end Verif
