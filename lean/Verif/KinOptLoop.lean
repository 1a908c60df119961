import Verif.KinOptPosture
import Mathlib.Tactic.Positivity

/-! C113 (loop), C114, C117: the posture loop, what influences it, and the whole optimisation. -/
namespace Verif
namespace Kin
open LinExpr Finset

/-! ### C113: the posture loop -/

/-- The position of a robot state does not depend on the momenta and end-effector positions stored in it. -/
structure Robot.Proper (rb : Robot) : Prop where
  com : ∀ s s' : KState, s.pos = s'.pos → s.vel = s'.vel → rb.com s = rb.com s'
  lmom : ∀ s s' : KState, s.pos = s'.pos → s.vel = s'.vel → rb.lmom s = rb.lmom s'
  amom : ∀ s s' : KState, s.pos = s'.pos → s.vel = s'.vel → rb.amom s = rb.amom s'
  eff : ∀ s s' : KState, s.pos = s'.pos → s.vel = s'.vel → rb.eff s = rb.eff s'

/-- Distance (as a velocity over the integration step) between what a state realises and the reference: center of mass,
momenta and end-effectors. -/
noncomputable def trackingError (st : Setting) (rb : Robot) (des : Ref) (s : KState) : ℝ :=
  PCtx.error ⟨st, rb.jac s, rb.update s, des⟩

theorem error_update (st : Setting) (rb : Robot) (des : Ref) (s : KState) (hp : rb.Proper) :
    trackingError st rb des (rb.update s) = trackingError st rb des s := by
  have h1 := hp.com (rb.update s) s rfl rfl
  have h2 := hp.lmom (rb.update s) s rfl rfl
  have h3 := hp.amom (rb.update s) s rfl rfl
  have h4 := hp.eff (rb.update s) s rfl rfl
  have e : rb.update (rb.update s) = rb.update s := by
    have : ∀ s, rb.update s = { s with com := rb.com s, lmom := rb.lmom s, amom := rb.amom s, eff := rb.eff s } := fun _ => rfl
    rw [this (rb.update s), h1, h2, h3, h4]; rfl
  unfold trackingError
  rw [e]; rfl

theorem postLoop_succ (st : Setting) (rb : Robot) (des : Ref) (start : KState) (solver : Nat → PCtx → Option (Nat → ℝ)) (n : Nat) (prev : Option ℝ)
    (k : Nat) (s : KState) :
    (trackingError st rb des s < st.tol ∨ (∃ p, prev = some p ∧ |p - trackingError st rb des s| < st.tol)) ∧
      postLoop st rb des start solver (n + 1) prev k s = ⟨rb.update s, k⟩ ∨
    (¬ trackingError st rb des s < st.tol ∧ ∀ p, prev = some p → ¬ |p - trackingError st rb des s| < st.tol) ∧
    ((∃ x, solver k ⟨st, rb.jac s, rb.update s, des⟩ = some x ∧ postLoop st rb des start solver (n + 1) prev k s =
        postLoop st rb des start solver n (some (trackingError st rb des s)) (k + 1) (PCtx.store ⟨st, rb.jac s, rb.update s, des⟩ rb start x)) ∨
      (solver k ⟨st, rb.jac s, rb.update s, des⟩ = none ∧ postLoop st rb des start solver (n + 1) prev k s =
        postLoop st rb des start solver n (some (trackingError st rb des s)) (k + 1) (rb.update s))) := by
  have hstuck : (match prev with
      | none => False
      | some p => |p - PCtx.error ⟨st, rb.jac s, rb.update s, des⟩| < st.tol) ↔ ∃ p, prev = some p ∧ |p - trackingError st rb des s| < st.tol := by
    cases prev with
    | none => simp
    | some p => simp [trackingError]
  simp only [postLoop]
  split_ifs with h
  · left
    refine ⟨?_, rfl⟩
    rcases h with h | h
    · exact Or.inl h
    · exact Or.inr (hstuck.1 h)
  · right
    refine ⟨⟨fun h' => h (Or.inl h'), fun p hp h' => h (Or.inr (hstuck.2 ⟨p, hp, h'⟩))⟩, ?_⟩
    cases hs : solver k ⟨st, rb.jac s, rb.update s, des⟩ with
    | some x => exact Or.inl ⟨x, rfl, rfl⟩
    | none => exact Or.inr ⟨rfl, rfl⟩

theorem postLoop_solves (st : Setting) (rb : Robot) (des : Ref) (start : KState) (solver : Nat → PCtx → Option (Nat → ℝ)) (n : Nat) (prev : Option ℝ)
    (k : Nat) (s : KState) : k ≤ (postLoop st rb des start solver n prev k s).solves ∧ (postLoop st rb des start solver n prev k s).solves ≤ k + n := by
  induction n generalizing prev k s with
  | zero => exact ⟨le_rfl, le_rfl⟩
  | succ n ih =>
    rcases postLoop_succ st rb des start solver n prev k s with ⟨_, h⟩ | ⟨_, ⟨x, _, h⟩ | ⟨_, h⟩⟩
    · rw [h]; exact ⟨le_rfl, by simp⟩
    · rw [h]; have := ih (some (trackingError st rb des s)) (k + 1) (PCtx.store ⟨st, rb.jac s, rb.update s, des⟩ rb start x); omega
    · rw [h]; have := ih (some (trackingError st rb des s)) (k + 1) (rb.update s); omega

/-- Joint limits. -/
def Within (st : Setting) (s : KState) : Prop := ∀ d < st.nact, st.minJ d ≤ s.pos.jnt d ∧ s.pos.jnt d ≤ st.maxJ d

theorem store_within (c : PCtx) (rb : Robot) (start : KState) (x : Nat → ℝ) (h : PostureStep c x) : Within c.st (c.store rb start x) := by
  intro d hd
  have : (c.store rb start x).pos.jnt d = x (c.cQ d) := by
    rw [h.integrate d hd]
    simp only [PCtx.store, Robot.differentiate, Robot.integrate]
    rw [if_pos (show 6 + d < c.st.next by simp only [Setting.next]; omega)]
    ring
  rw [this]; exact h.limits d hd

theorem postLoop_within (st : Setting) (rb : Robot) (des : Ref) (start : KState) (solver : Nat → PCtx → Option (Nat → ℝ))
    (hs : ∀ k c x, solver k c = some x → PostureStep c x) (n : Nat) (prev : Option ℝ) (k : Nat) (s : KState) :
    (postLoop st rb des start solver n prev k s).s.pos = s.pos ∨ Within st (postLoop st rb des start solver n prev k s).s := by
  induction n generalizing prev k s with
  | zero => exact Or.inl rfl
  | succ n ih =>
    rcases postLoop_succ st rb des start solver n prev k s with ⟨_, h⟩ | ⟨_, ⟨x, hx, h⟩ | ⟨_, h⟩⟩
    · rw [h]; exact Or.inl rfl
    · rw [h]
      rcases ih (some (trackingError st rb des s)) (k + 1) (PCtx.store ⟨st, rb.jac s, rb.update s, des⟩ rb start x) with h' | h'
      · right
        intro d hd
        rw [h']
        exact store_within ⟨st, rb.jac s, rb.update s, des⟩ rb start x (hs _ _ _ hx) d hd
      · exact Or.inr h'
    · rw [h]; exact ih _ _ _

/-- C113 (joint limits): if the solver throws or returns feasible steps, the posture returned is the one passed in, or its
joints are within their limits. -/
theorem C113_limits (st : Setting) (rb : Robot) (des : Ref) (solver : Nat → PCtx → Option (Nat → ℝ)) (b : Bool) (s : KState)
    (hs : ∀ k c x, solver k c = some x → PostureStep c x) :
    (optimizePosture st rb des solver b s).s.pos = s.pos ∨ Within st (optimizePosture st rb des solver b s).s := by
  have := postLoop_within st rb des s solver hs st.maxConv none 0 s
  unfold optimizePosture
  cases b <;> exact this

/-- C113 (termination): at most `MaxKinConvergenceIterations` problems are solved for one posture; none if the reference is
already met; and after a call that throws no further problem is solved. -/
theorem C113_solves (st : Setting) (rb : Robot) (des : Ref) (solver : Nat → PCtx → Option (Nat → ℝ)) (b : Bool) (s : KState) :
    (optimizePosture st rb des solver b s).solves ≤ st.maxConv ∧
    (trackingError st rb des s < st.tol → (optimizePosture st rb des solver b s).solves = 0 ∧ (optimizePosture st rb des solver b s).s.pos = s.pos) ∧
    (rb.Proper → 0 < st.tol → ∀ k, (∀ c, solver k c = none) → (optimizePosture st rb des solver b s).solves ≤ k + 1) := by
  have e1 : (optimizePosture st rb des solver b s).solves = (postLoop st rb des s solver st.maxConv none 0 s).solves := by
    unfold optimizePosture; cases b <;> rfl
  have e2 : (optimizePosture st rb des solver b s).s.pos = (postLoop st rb des s solver st.maxConv none 0 s).s.pos := by
    unfold optimizePosture; cases b <;> rfl
  rw [e1, e2]
  refine ⟨?_, fun h => ?_, fun hp ht k hk => ?_⟩
  · have := (postLoop_solves st rb des s solver st.maxConv none 0 s).2; omega
  · cases hn : st.maxConv with
    | zero => exact ⟨rfl, rfl⟩
    | succ n =>
      rcases postLoop_succ st rb des s solver n none 0 s with ⟨_, h'⟩ | ⟨h', _⟩
      · rw [h']; exact ⟨rfl, rfl⟩
      · exact absurd h h'.1
  · have main : ∀ n prev j s', j ≤ k → (postLoop st rb des s solver n prev j s').solves ≤ k + 1 := by
      intro n
      induction n with
      | zero => intro prev j s' hj; show j ≤ k + 1; omega
      | succ n ih =>
        intro prev j s' hj
        rcases postLoop_succ st rb des s solver n prev j s' with ⟨_, h⟩ | ⟨_, ⟨x, hx, h⟩ | ⟨hx, h⟩⟩
        · rw [h]; show j ≤ k + 1; omega
        · rw [h]
          refine ih _ _ _ ?_
          rcases Nat.lt_or_ge j k with h' | h'
          · omega
          · have : j = k := by omega
            subst this; rw [hk] at hx; cases hx
        · rw [h]
          cases n with
          | zero => show j + 1 ≤ k + 1; omega
          | succ n =>
            rcases postLoop_succ st rb des s solver n (some (trackingError st rb des s')) (j + 1) (rb.update s') with ⟨_, h'⟩ | ⟨h', _⟩
            · rw [h']; show j + 1 ≤ k + 1; omega
            · exfalso
              refine h'.2 _ rfl ?_
              rw [error_update st rb des s' hp, sub_self, abs_zero]; exact ht
    exact main _ _ _ _ (Nat.zero_le k)

/-- A robot that meets the hypothesis. -/
example : slider.Proper :=
  ⟨fun s s' h _ => by simp only [slider, h], fun _ _ _ _ => rfl, fun _ _ _ _ => rfl, fun _ _ _ _ => rfl⟩

/-! ### C114: the momentum references do not influence the posture -/

/-- The same posture problem with other momenta, momentum references and weights, and centroidal momentum matrices. -/
def PCtx.withMomentum (c : PCtx) (wL wH : Nat → ℝ) (cmm cmmd : Nat → Nat → ℝ) (l h dl dh : Nat → ℝ) : PCtx :=
  ⟨{ c.st with
      wL := wL
      wH := wH }, { c.j with
      cmm := cmm
      cmmd := cmmd }, { c.cur with
      lmom := l
      amom := h }, { c.des with
      lmom := dl
      amom := dh }⟩

/-- Optimal for the posture problem. -/
def PCtx.Optimal (c : PCtx) (x : Nat → ℝ) : Prop :=
  PostureStep c x ∧ ∀ y, PostureStep c y → moveCost c x + momCost c x ≤ moveCost c y + momCost c y

/-- Columns of the accelerations and of the total velocities. -/
def PCtx.IsMom (c : PCtx) (v : Nat) : Prop := ∃ d < 6 + c.st.nact, v = c.cQdd d ∨ v = c.cTqd d

/-- Values of `x` on the momentum columns, of `y` elsewhere. -/
noncomputable def PCtx.mix (c : PCtx) (x y : Nat → ℝ) (v : Nat) : ℝ :=
  open Classical in
  if c.IsMom v then x v else y v

theorem mix_mom (c : PCtx) (x y : Nat → ℝ) (d : Nat) (hd : d < 6 + c.st.nact) :
    c.mix x y (c.cQdd d) = x (c.cQdd d) ∧ c.mix x y (c.cTqd d) = x (c.cTqd d) :=
  ⟨if_pos ⟨d, hd, Or.inl rfl⟩, if_pos ⟨d, hd, Or.inr rfl⟩⟩

theorem not_mom (c : PCtx) (i r : Nat) (hi : i < 5) (hr : r < postRows c.st c.j.ncons i) :
    ¬ c.IsMom (c.pcol (blk (postLayout c.st c.j.ncons) i) r) := by
  rintro ⟨d, hd, h | h⟩
  · have := (pcol_inj c i 5 r d (by omega) (by omega) hr hd h).1; omega
  · have := (pcol_inj c i 6 r d (by omega) (by omega) hr hd h).1; omega

theorem mix_move (c : PCtx) (x y : Nat → ℝ) :
    (∀ d < 6 + c.st.nact, c.mix x y (c.cQd d) = y (c.cQd d)) ∧ (∀ d < c.st.nact, c.mix x y (c.cQ d) = y (c.cQ d)) ∧
    ∀ k < c.j.ncons, c.mix x y (c.cSlack k) = y (c.cSlack k) :=
  ⟨fun d hd => if_neg (not_mom c 4 d (by omega) hd), fun d hd => if_neg (not_mom c 3 d (by omega) hd),
    fun k hk => if_neg (not_mom c 2 k (by omega) hk)⟩

theorem sum_agree (n : Nat) (f g h : Nat → ℝ) (e : ∀ d < n, g d = h d) : ∑ d ∈ range n, f d * g d = ∑ d ∈ range n, f d * h d :=
  sum_congr rfl fun d hd => by rw [e d (mem_range.1 hd)]

/-- The step and its cost only depend on the displacement, the joint positions and the slacks. -/
theorem step_agree (c : PCtx) (x y : Nat → ℝ) (h1 : ∀ d < 6 + c.st.nact, x (c.cQd d) = y (c.cQd d)) (h2 : ∀ d < c.st.nact, x (c.cQ d) = y (c.cQ d))
    (h3 : ∀ k < c.j.ncons, x (c.cSlack k) = y (c.cSlack k)) : (PostureStep c y → PostureStep c x) ∧ moveCost c x = moveCost c y := by
  have hs : ∀ f : Nat → ℝ, ∑ d ∈ range (6 + c.st.nact), f d * x (c.cQd d) = ∑ d ∈ range (6 + c.st.nact), f d * y (c.cQd d) :=
    fun f => sum_agree _ f (fun d => x (c.cQd d)) (fun d => y (c.cQd d)) h1
  constructor
  · intro h
    refine ⟨fun k hk => ?_, fun d hd => ?_, fun d hd => ?_⟩
    · rw [hs, h3 k hk]; exact h.slack k hk
    · rw [h2 d hd, h1 _ (by omega)]; exact h.integrate d hd
    · rw [h2 d hd]; exact h.limits d hd
  · unfold moveCost
    congr 1
    · congr 1
      · congr 1
        · refine sum_congr rfl fun a _ => ?_
          rw [hs]
          congr 1
          exact sum_congr rfl fun e _ => by rw [hs]
        · exact sum_congr rfl fun d hd => by rw [h1 d (mem_range.1 hd)]
      · exact sum_congr rfl fun k hk => by rw [h3 k (mem_range.1 hk)]
    · exact sum_congr rfl fun d hd => by rw [h2 d (mem_range.1 hd)]

theorem momCost_mix (c : PCtx) (x y : Nat → ℝ) : momCost c (c.mix x y) = momCost c x := by
  have hs : ∀ f g : Nat → ℝ, ∑ d ∈ range (6 + c.st.nact), (f d * c.mix x y (c.cQdd d) + g d * c.mix x y (c.cTqd d)) =
      ∑ d ∈ range (6 + c.st.nact), (f d * x (c.cQdd d) + g d * x (c.cTqd d)) := fun f g => sum_congr rfl fun d hd => by
    rw [(mix_mom c x y d (mem_range.1 hd)).1, (mix_mom c x y d (mem_range.1 hd)).2]
  unfold momCost
  congr 1
  · exact sum_congr rfl fun a _ => by rw [hs, hs]
  · exact sum_congr rfl fun d hd => by rw [(mix_mom c x y d (mem_range.1 hd)).1]

/-- An optimal point has the least displacement cost of all steps. -/
theorem optimal_move (c : PCtx) (x : Nat → ℝ) (h : c.Optimal x) (y : Nat → ℝ) (hy : PostureStep c y) : moveCost c x ≤ moveCost c y := by
  obtain ⟨m1, m2, m3⟩ := mix_move c x y
  obtain ⟨a, b⟩ := step_agree c (c.mix x y) y m1 m2 m3
  have := h.2 _ (a hy)
  rw [b, momCost_mix] at this
  linarith

theorem sum_mid (n : Nat) (f : Nat → ℝ) (g x y : Nat → ℝ) (e : ∀ d < n, g d = (x d + y d) / 2) :
    ∑ d ∈ range n, f d * g d = (∑ d ∈ range n, f d * x d + ∑ d ∈ range n, f d * y d) / 2 := by
  rw [eq_div_iff two_ne_zero, sum_mul, ← sum_add_distrib]
  exact sum_congr rfl fun d hd => by rw [e d (mem_range.1 hd)]; ring

theorem sq_mid (w u v k : ℝ) (hw : 0 ≤ w) : 2 * (w * ((u + v) / 2 - k) ^ 2) ≤ w * (u - k) ^ 2 + w * (v - k) ^ 2 := by
  have : 0 ≤ w * (u - v) ^ 2 := by positivity
  nlinarith

/-- Steps with the same least displacement cost have the same displacement, if it is regularised. -/
theorem move_unique (c : PCtx) (hw : (∀ i, 0 ≤ c.st.wCom i ∧ 0 ≤ c.st.wEff i ∧ 0 ≤ c.st.wEffNa i ∧ 0 ≤ c.st.wDef i) ∧ 0 < c.st.wReg ∧ 0 ≤ c.st.wSlack)
    (x y : Nat → ℝ) (hx : PostureStep c x) (hy : PostureStep c y) (hmx : ∀ z, PostureStep c z → moveCost c x ≤ moveCost c z)
    (hmy : moveCost c y ≤ moveCost c x) : ∀ d < 6 + c.st.nact, x (c.cQd d) = y (c.cQd d) := by
  set m : Nat → ℝ := fun v => (x v + y v) / 2 with hm
  have sm : ∀ f : Nat → ℝ, ∑ d ∈ range (6 + c.st.nact), f d * m (c.cQd d) =
      (∑ d ∈ range (6 + c.st.nact), f d * x (c.cQd d) + ∑ d ∈ range (6 + c.st.nact), f d * y (c.cQd d)) / 2 := fun f =>
    sum_mid _ f (fun d => m (c.cQd d)) (fun d => x (c.cQd d)) (fun d => y (c.cQd d)) fun d _ => rfl
  have hmid : PostureStep c m := by
    refine ⟨fun k hk => ?_, fun d hd => ?_, fun d hd => ?_⟩
    · have a := hx.slack k hk; have b := hy.slack k hk
      rw [sm]; simp only [hm]; constructor <;> linarith
    · have a := hx.integrate d hd; have b := hy.integrate d hd
      simp only [hm]; rw [a, b]; ring
    · have a := hx.limits d hd; have b := hy.limits d hd
      simp only [hm]; constructor <;> linarith
  have h1 := hmx m hmid
  have key : 2 * moveCost c m + (1 / 2) * ∑ d ∈ range (6 + c.st.nact), c.st.wReg * (x (c.cQd d) - y (c.cQd d)) ^ 2 ≤ moveCost c x + moveCost c y := by
    unfold moveCost
    have p1 : ∀ w k : ℝ, 0 ≤ w → ∀ f : Nat → ℝ, 2 * (w * ((∑ d ∈ range (6 + c.st.nact), f d * m (c.cQd d)) - k) ^ 2) ≤
        w * ((∑ d ∈ range (6 + c.st.nact), f d * x (c.cQd d)) - k) ^ 2 + w * ((∑ d ∈ range (6 + c.st.nact), f d * y (c.cQd d)) - k) ^ 2 :=
      fun w k hw f => by rw [sm]; exact sq_mid w _ _ k hw
    have t1 : 2 * (∑ a ∈ range 3, (c.st.wCom a * ((∑ d ∈ range (6 + c.st.nact), c.j.com a d * m (c.cQd d)) - (c.des.com a - c.cur.com a) / c.st.kdt) ^ 2 +
        ∑ e ∈ range c.st.neff, (if c.des.act e then c.st.wEff a else c.st.wEffNa a) *
          ((∑ d ∈ range (6 + c.st.nact), c.j.eff e a d * m (c.cQd d)) - (c.des.eff e a - c.cur.eff e a) / c.st.kdt) ^ 2)) ≤
        (∑ a ∈ range 3, (c.st.wCom a * ((∑ d ∈ range (6 + c.st.nact), c.j.com a d * x (c.cQd d)) - (c.des.com a - c.cur.com a) / c.st.kdt) ^ 2 +
        ∑ e ∈ range c.st.neff, (if c.des.act e then c.st.wEff a else c.st.wEffNa a) *
          ((∑ d ∈ range (6 + c.st.nact), c.j.eff e a d * x (c.cQd d)) - (c.des.eff e a - c.cur.eff e a) / c.st.kdt) ^ 2)) +
        (∑ a ∈ range 3, (c.st.wCom a * ((∑ d ∈ range (6 + c.st.nact), c.j.com a d * y (c.cQd d)) - (c.des.com a - c.cur.com a) / c.st.kdt) ^ 2 +
        ∑ e ∈ range c.st.neff, (if c.des.act e then c.st.wEff a else c.st.wEffNa a) *
          ((∑ d ∈ range (6 + c.st.nact), c.j.eff e a d * y (c.cQd d)) - (c.des.eff e a - c.cur.eff e a) / c.st.kdt) ^ 2)) := by
      rw [mul_sum, ← sum_add_distrib]
      refine sum_le_sum fun a _ => ?_
      have e1 := p1 (c.st.wCom a) ((c.des.com a - c.cur.com a) / c.st.kdt) (hw.1 a).1 (c.j.com a)
      have e2 : 2 * (∑ e ∈ range c.st.neff, (if c.des.act e then c.st.wEff a else c.st.wEffNa a) *
          ((∑ d ∈ range (6 + c.st.nact), c.j.eff e a d * m (c.cQd d)) - (c.des.eff e a - c.cur.eff e a) / c.st.kdt) ^ 2) ≤
          (∑ e ∈ range c.st.neff, (if c.des.act e then c.st.wEff a else c.st.wEffNa a) *
          ((∑ d ∈ range (6 + c.st.nact), c.j.eff e a d * x (c.cQd d)) - (c.des.eff e a - c.cur.eff e a) / c.st.kdt) ^ 2) +
          (∑ e ∈ range c.st.neff, (if c.des.act e then c.st.wEff a else c.st.wEffNa a) *
          ((∑ d ∈ range (6 + c.st.nact), c.j.eff e a d * y (c.cQd d)) - (c.des.eff e a - c.cur.eff e a) / c.st.kdt) ^ 2) := by
        rw [mul_sum, ← sum_add_distrib]
        refine sum_le_sum fun e _ => p1 _ _ ?_ (c.j.eff e a)
        split
        · exact (hw.1 a).2.1
        · exact (hw.1 a).2.2.1
      linarith
    have t2 : 2 * (∑ d ∈ range (6 + c.st.nact), c.st.wReg * m (c.cQd d) ^ 2) + (1 / 2) * ∑ d ∈ range (6 + c.st.nact), c.st.wReg * (x (c.cQd d) - y (c.cQd d)) ^ 2 =
        (∑ d ∈ range (6 + c.st.nact), c.st.wReg * x (c.cQd d) ^ 2) + ∑ d ∈ range (6 + c.st.nact), c.st.wReg * y (c.cQd d) ^ 2 := by
      rw [mul_sum, mul_sum, ← sum_add_distrib, ← sum_add_distrib]
      refine sum_congr rfl fun d _ => ?_
      simp only [hm]; ring
    have t3 : 2 * (∑ k ∈ range c.j.ncons, c.st.wSlack * m (c.cSlack k) ^ 2) ≤
        (∑ k ∈ range c.j.ncons, c.st.wSlack * x (c.cSlack k) ^ 2) + ∑ k ∈ range c.j.ncons, c.st.wSlack * y (c.cSlack k) ^ 2 := by
      rw [mul_sum, ← sum_add_distrib]
      refine sum_le_sum fun k _ => ?_
      have := sq_mid c.st.wSlack (x (c.cSlack k)) (y (c.cSlack k)) 0 hw.2.2
      simpa [hm] using this
    have t4 : 2 * (∑ d ∈ range c.st.nact, c.st.wDef d * (m (c.cQ d) - c.st.defJnt d) ^ 2) ≤
        (∑ d ∈ range c.st.nact, c.st.wDef d * (x (c.cQ d) - c.st.defJnt d) ^ 2) + ∑ d ∈ range c.st.nact, c.st.wDef d * (y (c.cQ d) - c.st.defJnt d) ^ 2 := by
      rw [mul_sum, ← sum_add_distrib]
      exact sum_le_sum fun d _ => sq_mid _ _ _ _ (hw.1 d).2.2.2
    linarith
  have hz : ∑ d ∈ range (6 + c.st.nact), c.st.wReg * (x (c.cQd d) - y (c.cQd d)) ^ 2 ≤ 0 := by linarith
  have hnn : ∀ d ∈ range (6 + c.st.nact), 0 ≤ c.st.wReg * (x (c.cQd d) - y (c.cQd d)) ^ 2 := fun d _ => by
    have := hw.2.1.le; positivity
  intro d hd
  have := (sum_eq_zero_iff_of_nonneg hnn).1 (le_antisymm hz (sum_nonneg hnn)) d (mem_range.2 hd)
  have h0 : (x (c.cQd d) - y (c.cQd d)) ^ 2 = 0 := by
    rcases mul_eq_zero.1 this with h | h
    · exact absurd h hw.2.1.ne'
    · exact h
  have := pow_eq_zero_iff (two_ne_zero) |>.1 h0
  linarith

/-- C114: with a positive regularisation, the posture and the velocity stored after an optimal posture step are the same
for all momenta, momentum references, momentum weights and centroidal momentum matrices: momentum tracking has no effect
on the posture. -/
theorem C114_momentum_ignored (c : PCtx) (wL wH : Nat → ℝ) (cmm cmmd : Nat → Nat → ℝ) (l h dl dh : Nat → ℝ)
    (hw : (∀ i, 0 ≤ c.st.wCom i ∧ 0 ≤ c.st.wEff i ∧ 0 ≤ c.st.wEffNa i ∧ 0 ≤ c.st.wDef i) ∧ 0 < c.st.wReg ∧ 0 ≤ c.st.wSlack)
    (x x' : Nat → ℝ) (hx : c.Optimal x) (hx' : (c.withMomentum wL wH cmm cmmd l h dl dh).Optimal x') (rb : Robot) (start : KState) :
    (c.store rb start x).pos = ((c.withMomentum wL wH cmm cmmd l h dl dh).store rb start x').pos ∧
    (c.store rb start x).vel = ((c.withMomentum wL wH cmm cmmd l h dl dh).store rb start x').vel := by
  have hst : ∀ y, PostureStep (c.withMomentum wL wH cmm cmmd l h dl dh) y ↔ PostureStep c y := fun y =>
    ⟨fun p => ⟨p.slack, p.integrate, p.limits⟩, fun p => ⟨p.slack, p.integrate, p.limits⟩⟩
  have hmc : ∀ y, moveCost (c.withMomentum wL wH cmm cmmd l h dl dh) y = moveCost c y := fun y => rfl
  have e := move_unique c hw x x' hx.1 ((hst x').1 hx'.1) (optimal_move c x hx) (by
    have := optimal_move _ x' hx' x ((hst x).2 hx.1)
    rw [hmc, hmc] at this; exact this)
  have hv : (fun i => if i < c.st.next then x (c.cQd i) else c.cur.vel i) = fun i => if i < c.st.next then x' (c.cQd i) else c.cur.vel i := by
    funext i
    by_cases hi : i < c.st.next
    · rw [if_pos hi, if_pos hi]; exact e i hi
    · rw [if_neg hi, if_neg hi]
  have hi : rb.integrate { c.cur with vel := fun i => if i < c.st.next then x (c.cQd i) else c.cur.vel i } c.st.kdt =
      rb.integrate { c.cur with vel := fun i => if i < c.st.next then x' (c.cQd i) else c.cur.vel i } c.st.kdt := by rw [hv]
  have hs : c.store rb start x = c.store rb start x' := by unfold PCtx.store; rw [hi]
  rw [hs]
  exact ⟨rfl, rfl⟩

/-- A posture problem with one joint that moves the center of mass along the first axis, which should be at 2; the momentum
is to be tracked with a reference of 2. -/
noncomputable def pullCtx : PCtx :=
  ⟨⟨1, 1, 0, fun _ => 0, 1, 1 / 2, 3, 1, 0, fun _ => 0, fun _ => -5, fun _ => 5, fun _ => 1, fun _ => 0, fun _ => 0, fun _ => 0, fun _ => 0, fun _ => 0,
    fun _ => 0, fun _ => 0, fun _ => 0, fun _ => 0, 1, 0, 1⟩,
   ⟨fun a k => if a = 0 ∧ k = 6 then 1 else 0, fun _ _ => 0, fun _ _ => 0, fun _ _ _ => 0, 0, fun _ => 0, fun _ _ => 0⟩, KState.zero,
   ⟨1, fun a => if a = 0 then 2 else 0, fun _ => 0, fun _ => 0, fun _ => false, fun _ _ => 0⟩⟩

/-- The same with a tracked linear momentum reference of 2 along the first axis. -/
noncomputable def pullMom : PCtx :=
  pullCtx.withMomentum (fun _ => 1) (fun _ => 0) (fun a k => if a = 0 ∧ k = 6 then 1 else 0) (fun _ _ => 0) (fun _ => 0) (fun _ => 0)
    (fun a => if a = 0 then 2 else 0) (fun _ => 0)

/-- The step: joint and displacement 1; `m` is the planned acceleration. -/
noncomputable def pullStep (m : ℝ) (v : Nat) : ℝ :=
  if v = pullCtx.cQd 6 ∨ v = pullCtx.cQ 0 then 1 else if v = pullCtx.cQdd 6 then m else 0

theorem pull_vals (m : ℝ) : (∀ d < 7, pullStep m (pullCtx.cQd d) = if d = 6 then 1 else 0) ∧ pullStep m (pullCtx.cQ 0) = 1 ∧
    (∀ d < 7, pullStep m (pullCtx.cQdd d) = if d = 6 then m else 0) := by
  have i44 : ∀ d < 7, pullCtx.cQd d = pullCtx.cQd 6 → d = 6 := fun d hd h =>
    (pcol_inj pullCtx 4 4 d 6 (by omega) (by omega) hd (show 6 < 7 by omega) h).2
  have i55 : ∀ d < 7, pullCtx.cQdd d = pullCtx.cQdd 6 → d = 6 := fun d hd h =>
    (pcol_inj pullCtx 5 5 d 6 (by omega) (by omega) hd (show 6 < 7 by omega) h).2
  have n43 : ∀ d < 7, pullCtx.cQd d ≠ pullCtx.cQ 0 := fun d hd h => by
    have := (pcol_inj pullCtx 4 3 d 0 (by omega) (by omega) hd (show 0 < 1 by omega) h).1; omega
  have n45 : ∀ d < 7, pullCtx.cQd d ≠ pullCtx.cQdd 6 := fun d hd h => by
    have := (pcol_inj pullCtx 4 5 d 6 (by omega) (by omega) hd (show 6 < 7 by omega) h).1; omega
  have n54 : ∀ d < 7, pullCtx.cQdd d ≠ pullCtx.cQd 6 := fun d hd h => by
    have := (pcol_inj pullCtx 5 4 d 6 (by omega) (by omega) hd (show 6 < 7 by omega) h).1; omega
  have n53 : ∀ d < 7, pullCtx.cQdd d ≠ pullCtx.cQ 0 := fun d hd h => by
    have := (pcol_inj pullCtx 5 3 d 0 (by omega) (by omega) hd (show 0 < 1 by omega) h).1; omega
  refine ⟨fun d hd => ?_, if_pos (Or.inr rfl), fun d hd => ?_⟩
  · by_cases h : d = 6
    · subst h; rw [if_pos rfl]; exact if_pos (Or.inl rfl)
    · rw [if_neg h, pullStep, if_neg, if_neg (n45 d hd)]
      rintro (e | e)
      · exact h (i44 d hd e)
      · exact n43 d hd e
  · have hne : ¬ (pullCtx.cQdd d = pullCtx.cQd 6 ∨ pullCtx.cQdd d = pullCtx.cQ 0) := by
      rintro (e | e)
      · exact n54 d hd e
      · exact n53 d hd e
    by_cases h : d = 6
    · subst h; rw [if_pos rfl, pullStep, if_neg hne, if_pos rfl]
    · rw [if_neg h, pullStep, if_neg hne, if_neg fun e => h (i55 d hd e)]

theorem pull_move (x : Nat → ℝ) : moveCost pullCtx x = (x (pullCtx.cQd 6) - 2) ^ 2 + ∑ d ∈ range 7, x (pullCtx.cQd d) ^ 2 := by
  have h1 : ∀ a, (∑ d ∈ range (6 + pullCtx.st.nact), pullCtx.j.com a d * x (pullCtx.cQd d)) = if a = 0 then x (pullCtx.cQd 6) else 0 := by
    intro a
    show (∑ d ∈ range 7, (if a = 0 ∧ d = 6 then (1 : ℝ) else 0) * x (pullCtx.cQd d)) = _
    rw [sum_eq_single 6]
    · by_cases h : a = 0 <;> simp [h]
    · intro d _ hd; rw [if_neg (fun h => hd h.2), zero_mul]
    · intro h; simp at h
  unfold moveCost
  simp only [h1]
  simp [sum_range_succ, pullCtx, KState.zero]

theorem pull_mom (x : Nat → ℝ) : momCost pullMom x = (x (pullCtx.cQdd 6) - 2) ^ 2 + ∑ d ∈ range 7, x (pullCtx.cQdd d) ^ 2 := by
  have h1 : ∀ a, (∑ d ∈ range (6 + pullMom.st.nact), (pullMom.j.cmm a d * x (pullMom.cQdd d) + pullMom.j.cmmd a d * x (pullMom.cTqd d))) =
      if a = 0 then x (pullCtx.cQdd 6) else 0 := by
    intro a
    show (∑ d ∈ range 7, ((if a = 0 ∧ d = 6 then (1 : ℝ) else 0) * x (pullCtx.cQdd d) + 0 * x (pullCtx.cTqd d))) = _
    rw [sum_eq_single 6]
    · by_cases h : a = 0 <;> simp [h]
    · intro d _ hd; rw [if_neg (fun h => hd h.2)]; simp
    · intro h; simp at h
  unfold momCost
  simp only [h1]
  have hw : ∀ a, pullMom.st.wL a = 1 ∧ pullMom.st.wH a = 0 := fun a => ⟨rfl, rfl⟩
  have hd : ∀ a, (pullMom.des.lmom a - pullMom.cur.lmom a) / pullMom.st.kdt = if a = 0 then 2 else 0 := by
    intro a
    show ((if a = 0 then (2 : ℝ) else 0) - 0) / 1 = _
    rw [sub_zero, div_one]
  simp only [(hw _).1, (hw _).2, hd]
  have hr : ∑ d ∈ range (6 + pullMom.st.nact), pullMom.st.wReg * x (pullMom.cQdd d) ^ 2 = ∑ d ∈ range 7, x (pullCtx.cQdd d) ^ 2 :=
    sum_congr rfl fun d _ => by show 1 * x (pullCtx.cQdd d) ^ 2 = _; rw [one_mul]
  rw [hr]
  congr 1
  simp [sum_range_succ]

theorem pull_mom0 (x : Nat → ℝ) : momCost pullCtx x = ∑ d ∈ range 7, x (pullCtx.cQdd d) ^ 2 := by
  unfold momCost
  have h1 : ∀ a, pullCtx.st.wL a = 0 ∧ pullCtx.st.wH a = 0 := fun a => ⟨rfl, rfl⟩
  simp only [(h1 _).1, (h1 _).2, zero_mul, add_zero, sum_const_zero, zero_add]
  refine sum_congr rfl fun d _ => ?_
  show 1 * _ = _; rw [one_mul]

theorem pull_feasible (m : ℝ) : PostureStep pullCtx (pullStep m) := by
  obtain ⟨h1, h2, _⟩ := pull_vals m
  refine ⟨fun k hk => absurd hk (Nat.not_lt_zero k), fun d hd => ?_, fun d hd => ?_⟩
  · have hd' : d < 1 := hd
    obtain rfl : d = 0 := by omega
    rw [h2, h1 (6 + 0) (by omega)]
    show (1 : ℝ) = 0 + 1 * _
    simp
  · have hd' : d < 1 := hd
    obtain rfl : d = 0 := by omega
    rw [h2]
    show (-5 : ℝ) ≤ 1 ∧ (1 : ℝ) ≤ 5
    norm_num

theorem seven_sum (f : Nat → ℝ) (h : ∀ d < 7, 0 ≤ f d) : f 6 ≤ ∑ d ∈ range 7, f d :=
  single_le_sum (f := f) (fun d hd => h d (mem_range.1 hd)) (by simp)

/-- The hypotheses of `C114_momentum_ignored`: optimal steps for a problem without and with a momentum reference (the
planned acceleration differs, the displacement does not). -/
example : ((∀ i, 0 ≤ pullCtx.st.wCom i ∧ 0 ≤ pullCtx.st.wEff i ∧ 0 ≤ pullCtx.st.wEffNa i ∧ 0 ≤ pullCtx.st.wDef i) ∧ 0 < pullCtx.st.wReg ∧
    0 ≤ pullCtx.st.wSlack) ∧ pullCtx.Optimal (pullStep 0) ∧ pullMom.Optimal (pullStep 1) := by
  refine ⟨⟨fun i => ?_, ?_, ?_⟩, ⟨pull_feasible 0, fun y _ => ?_⟩, ⟨?_, fun y _ => ?_⟩⟩
  · show (0 : ℝ) ≤ 1 ∧ (0 : ℝ) ≤ 0 ∧ (0 : ℝ) ≤ 0 ∧ (0 : ℝ) ≤ 0
    norm_num
  · show (0 : ℝ) < 1; norm_num
  · show (0 : ℝ) ≤ 0; norm_num
  · rw [pull_move, pull_move, pull_mom0, pull_mom0]
    obtain ⟨h1, h2, h3⟩ := pull_vals 0
    have e1 : ∑ d ∈ range 7, pullStep 0 (pullCtx.cQd d) ^ 2 = 1 := by
      rw [sum_congr rfl fun d hd => by rw [h1 d (mem_range.1 hd)]]; simp [sum_range_succ]
    have e2 : ∑ d ∈ range 7, pullStep 0 (pullCtx.cQdd d) ^ 2 = 0 := by
      rw [sum_congr rfl fun d hd => by rw [h3 d (mem_range.1 hd)]]; simp
    rw [e1, e2, h1 6 (by omega)]
    have a := seven_sum (fun d => y (pullCtx.cQd d) ^ 2) fun d _ => sq_nonneg _
    have b := seven_sum (fun d => y (pullCtx.cQdd d) ^ 2) fun d _ => sq_nonneg _
    have b0 := sq_nonneg (y (pullCtx.cQdd 6))
    have c0 := sq_nonneg (y (pullCtx.cQd 6) - 1)
    norm_num
    nlinarith
  · exact ⟨(pull_feasible 1).slack, (pull_feasible 1).integrate, (pull_feasible 1).limits⟩
  · rw [show moveCost pullMom (pullStep 1) = moveCost pullCtx (pullStep 1) from rfl, show moveCost pullMom y = moveCost pullCtx y from rfl,
      pull_move, pull_move, pull_mom, pull_mom]
    obtain ⟨h1, h2, h3⟩ := pull_vals 1
    have e1 : ∑ d ∈ range 7, pullStep 1 (pullCtx.cQd d) ^ 2 = 1 := by
      rw [sum_congr rfl fun d hd => by rw [h1 d (mem_range.1 hd)]]; simp [sum_range_succ]
    have e2 : ∑ d ∈ range 7, pullStep 1 (pullCtx.cQdd d) ^ 2 = 1 := by
      rw [sum_congr rfl fun d hd => by rw [h3 d (mem_range.1 hd)]]; simp [sum_range_succ]
    rw [e1, e2, h1 6 (by omega), h3 6 (by omega)]
    have a := seven_sum (fun d => y (pullCtx.cQd d) ^ 2) fun d _ => sq_nonneg _
    have b := seven_sum (fun d => y (pullCtx.cQdd d) ^ 2) fun d _ => sq_nonneg _
    have b0 := sq_nonneg (y (pullCtx.cQdd 6) - 1)
    have c0 := sq_nonneg (y (pullCtx.cQd 6) - 1)
    norm_num
    nlinarith

/-- The problem of the example is one that `C113_posture_problem` applies to. -/
example : 0 ≤ pullCtx.st.inf ∧ PostureStep pullCtx (pullStep 0) := ⟨by show (0 : ℝ) ≤ 1; norm_num, pull_feasible 0⟩

end Kin
end Verif
