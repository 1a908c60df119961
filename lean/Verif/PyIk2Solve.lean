import Verif.PyIk2Props
import Verif.PyMkoEx
import Mathlib.Tactic.Positivity

/-! C153, C154: the motion computed by the second-order inverse kinematics. -/
namespace Verif
namespace PyIk2
open Matrix PyIk

variable {Q O : Type} {nj : Nat}

/-! ### Specification -/

/-- `n` steps of one millisecond of semi-implicit Euler integration from `(q, dq)` at time `t` to `(q', dq')`, the acceleration at every instant being one of `acc` at the current configuration,
velocity and time. -/
def Simulated (integ : Q → Vec (6 + nj) → Q) (acc : Q → Vec (6 + nj) → ℝ → Vec (6 + nj) → Prop) (n : Nat) (t : ℝ) (q : Q) (dq : Vec (6 + nj)) (q' : Q) (dq' : Vec (6 + nj)) : Prop :=
  ∃ (c : Nat → Q) (v a : Nat → Vec (6 + nj)), c 0 = q ∧ v 0 = dq ∧ c n = q' ∧ v n = dq' ∧
    ∀ j < n, acc (c j) (v j) (t + j / 1000) (a j) ∧ (∀ k, v (j + 1) k = v j k + a j k / 1000) ∧ c (j + 1) = integ (c j) (fun k => v (j + 1) k / 1000)

/-- `x` is the unique acceleration with the smallest weighted error. -/
def BestAcc (b : Robot2 Q O nj) (g : Gains2) (f : Ref2 O) (q : Q) (dq : Vec (6 + nj)) (x : Vec (6 + nj)) : Prop :=
  (∀ y, accCost b g q dq f x ≤ accCost b g q dq f y) ∧ ∀ y, accCost b g q dq f y ≤ accCost b g q dq f x → y = x

/-! ### The loops -/

section
variable (b : Robot2 Q O nj) (s : Quadprog) (pinv : Pinv) (hier : Bool) (g : Gains2) (ref : Nat → ℝ → Ref2 O)

lemma inner_spec (it : Nat) (x y : SSt Q nj) (h : inner b s pinv hier g ref it x = some y) :
    ∃ a, step b s pinv hier g x.q x.dq (ref it x.t) = some a ∧ y.dq = (fun k => x.dq k + a k / 1000) ∧ y.q = b.integ x.q (fun k => y.dq k / 1000) ∧ y.t = x.t + 1 / 1000 ∧ y.ddq = some a := by
  unfold inner at h
  split at h
  · simp at h
  · rename_i a ha
    simp only [Option.some.injEq] at h
    subst h
    refine ⟨a, ha, ?_, ?_, rfl, rfl⟩
    · funext k; simp only; ring
    · simp only
      congr 1
      funext k
      ring

lemma inners_time (it : Nat) (x y : SSt Q nj) (n : Nat) (h : inners b s pinv hier g ref it x n = some y) : y.t = x.t + n / 1000 := by
  induction n generalizing y with
  | zero => simp only [inners, Option.some.injEq] at h; subst h; simp
  | succ n ih =>
    rw [inners, Option.bind_eq_some_iff] at h
    obtain ⟨z, hz, hy⟩ := h
    obtain ⟨-, -, -, -, ht, -⟩ := inner_spec b s pinv hier g ref it z y hy
    rw [ht, ih z hz]
    push_cast
    ring

lemma inners_spec (it : Nat) (x y : SSt Q nj) (n : Nat) (h : inners b s pinv hier g ref it x n = some y) :
    Simulated b.integ (fun q dq t a => step b s pinv hier g q dq (ref it t) = some a) n x.t x.q x.dq y.q y.dq ∧ (0 < n → y.ddq ≠ none) ∧ (n = 0 → y = x) := by
  induction n generalizing y with
  | zero =>
    simp only [inners, Option.some.injEq] at h
    subst h
    exact ⟨⟨fun _ => x.q, fun _ => x.dq, fun _ => 0, rfl, rfl, rfl, rfl, fun j hj => by omega⟩, fun h => by omega, fun _ => rfl⟩
  | succ n ih =>
    rw [inners, Option.bind_eq_some_iff] at h
    obtain ⟨z, hz, hy⟩ := h
    obtain ⟨⟨c, v, a, c0, v0, cn, vn, hstep⟩, -⟩ := ih z hz
    have ht := inners_time b s pinv hier g ref it x z n hz
    obtain ⟨a', h1, h2, h3, -, h5⟩ := inner_spec b s pinv hier g ref it z y hy
    refine ⟨⟨fun j => if j ≤ n then c j else y.q, fun j => if j ≤ n then v j else y.dq, fun j => if j < n then a j else a', ?_, ?_, ?_, ?_, fun j hj => ?_⟩, fun _ => by rw [h5]; simp, fun h => by omega⟩
    · simp [c0]
    · simp [v0]
    · simp
    · simp
    · by_cases hjn : j < n
      · simp only [if_pos hjn, if_pos (show j ≤ n by omega), if_pos (show j + 1 ≤ n by omega)]
        exact hstep j hjn
      · have : j = n := by omega
        subst this
        simp only [if_neg hjn, if_pos (le_refl j), if_neg (show ¬ j + 1 ≤ j by omega)]
        rw [cn, vn, ← ht]
        exact ⟨h1, fun k => by rw [h2], h3⟩

lemma outer_spec (dt : ℝ) (q0 : Q) (dq0 : Vec (6 + nj)) (n : Nat) (x : SSt Q nj) (rows : List (Row2 Q nj)) (h : outer b s pinv hier g ref dt q0 dq0 n = some (x, rows)) :
    rows.length = n + 1 ∧ rows[0]? = some (record b q0 dq0) ∧ rows[n]? = some (record b x.q x.dq) ∧ x.t = (n * innerSteps dt : Nat) / 1000 ∧ (∀ r ∈ rows, r = record b r.q r.dq) ∧
    (0 < n → 0 < innerSteps dt) ∧
    ∀ it r r', rows[it]? = some r → rows[it + 1]? = some r' →
      Simulated b.integ (fun q dq t a => step b s pinv hier g q dq (ref (it + 1) t) = some a) (innerSteps dt) ((it * innerSteps dt : Nat) / 1000) r.q r.dq r'.q r'.dq := by
  induction n generalizing x rows with
  | zero =>
    simp only [outer, Option.some.injEq, Prod.mk.injEq] at h
    obtain ⟨rfl, rfl⟩ := h
    refine ⟨rfl, rfl, rfl, by simp, fun r hr => ?_, fun h => by omega, fun it r r' _ h => by simp at h⟩
    simp only [List.mem_singleton] at hr
    subst hr; rfl
  | succ n ih =>
    unfold outer at h
    split at h
    · simp at h
    · rename_i z rows' hz
      obtain ⟨i1, i2, i3, i4, i5, i6, i7⟩ := ih z rows' hz
      split at h
      · simp at h
      · rename_i y hy
        split at h
        · simp at h
        · rename_i hd
          simp only [Option.some.injEq, Prod.mk.injEq] at h
          obtain ⟨rfl, rfl⟩ := h
          obtain ⟨j1, -, j3⟩ := inners_spec b s pinv hier g ref (n + 1) z y _ hy
          have jt := inners_time b s pinv hier g ref (n + 1) z y _ hy
          have hlast : (rows' ++ [record b y.q y.dq])[n + 1]? = some (record b y.q y.dq) := by
            rw [List.getElem?_append_right (by omega), i1]; simp
          refine ⟨by simp [i1], ?_, hlast, ?_, fun r hr => ?_, fun _ => ?_, fun it r r' hr hr' => ?_⟩
          · rw [List.getElem?_append_left (by omega)]; exact i2
          · rw [jt, i4]; push_cast; ring
          · rcases List.mem_append.1 hr with hr | hr
            · exact i5 r hr
            · simp only [List.mem_singleton] at hr
              subst hr; rfl
          · rcases Nat.eq_zero_or_pos n with hn | hn
            · by_contra hcon
              have h0 : innerSteps dt = 0 := by omega
              have := j3 h0
              subst this
              subst hn
              simp only [outer, Option.some.injEq, Prod.mk.injEq] at hz
              exact hd (by rw [← hz.1])
            · exact i6 hn
          · have hit : it + 1 < n + 2 := by
              have := (List.getElem?_eq_some_iff.mp hr').1
              simpa [i1] using this
            rw [List.getElem?_append_left (by omega)] at hr
            by_cases hi : it + 1 < n + 1
            · rw [List.getElem?_append_left (by omega)] at hr'
              exact i7 it r r' hr hr'
            · have : it = n := by omega
              subst this
              rw [hlast, Option.some.injEq] at hr'
              rw [i3, Option.some.injEq] at hr
              subst hr hr'
              rw [i4] at j1
              exact j1

end

/-! ### C153 -/

/-- C153 (what holds): `solve` returns one row per time step; the first is the initial state, and every other one is the result of as many milliseconds of simulation as fit into one time step,
from the row before, under the accelerations that `step` returns (without the hierarchy: the unique best ones), for the contacts of the row and the references at the simulated time; this time is the
time of the plan when the time step is a whole number of milliseconds.
Missing: other time steps (`C153_plan_time_violated`, `C153_short_step_violated`). -/
theorem C153_motion_partial (b : Robot2 Q O nj) (s : Quadprog) (pinv : Pinv) (hier : Bool) (g : Gains2) (ref : Nat → ℝ → Ref2 O) (dt : ℝ) (T : Nat) (hT : 0 < T) (q0 : Q) (dq0 : Vec (6 + nj))
    (rows : List (Row2 Q nj)) (h : solve b s pinv hier g ref dt T q0 dq0 = some rows) :
    rows.length = T ∧ (∀ r, rows[0]? = some r → r.q = q0 ∧ r.dq = dq0) ∧
    (∀ it r r', rows[it]? = some r → rows[it + 1]? = some r' →
      Simulated b.integ (fun q dq t a => step b s pinv hier g q dq (ref (it + 1) t) = some a) ⌊dt * 1000⌋₊ (it * ⌊dt * 1000⌋₊ / 1000) r.q r.dq r'.q r'.dq ∧
      (s.Ok → g.toGains.Nonneg → hier = false →
        Simulated b.integ (fun q dq t a => BestAcc b g (ref (it + 1) t) q dq a) ⌊dt * 1000⌋₊ (it * ⌊dt * 1000⌋₊ / 1000) r.q r.dq r'.q r'.dq)) ∧
    ∀ n : Nat, dt = n / 1000 → ⌊dt * 1000⌋₊ = n ∧ ∀ it : Nat, (it * ⌊dt * 1000⌋₊ / 1000 : ℝ) = it * dt := by
  unfold solve at h
  rw [Option.map_eq_some_iff] at h
  obtain ⟨⟨x, rows'⟩, hx, rfl⟩ := h
  obtain ⟨h1, h2, -, -, -, -, h7⟩ := outer_spec b s pinv hier g ref dt q0 dq0 _ x rows' hx
  have hin : innerSteps dt = ⌊dt * 1000⌋₊ := by unfold innerSteps; congr 1; ring
  rw [hin] at h7
  refine ⟨by show rows'.length = T; omega, fun r hr => ?_, fun it r r' hr hr' => ?_, fun n hn => ?_⟩
  · have hr : rows'[0]? = some r := hr
    rw [h2, Option.some.injEq] at hr
    subst hr
    exact ⟨rfl, rfl⟩
  · have hs := h7 it r r' hr hr'
    have ec : ((it * ⌊dt * 1000⌋₊ : Nat) : ℝ) = it * ⌊dt * 1000⌋₊ := by push_cast; ring
    rw [ec] at hs
    refine ⟨hs, fun hok hg hh => ?_⟩
    subst hh
    obtain ⟨c, v, a, e1, e2, e3, e4, e5⟩ := hs
    refine ⟨c, v, a, e1, e2, e3, e4, fun j hj => ?_⟩
    obtain ⟨f1, f2, f3⟩ := e5 j hj
    obtain ⟨x', hx', m1, m2⟩ := C151_weighted b s hok pinv g hg (c j) (v j) (ref (it + 1) (it * ⌊dt * 1000⌋₊ / 1000 + j / 1000))
    rw [f1, Option.some.injEq] at hx'
    subst hx'
    exact ⟨⟨m1, m2⟩, f2, f3⟩
  · have : dt * 1000 = n := by rw [hn]; ring
    rw [this, Nat.floor_natCast]
    refine ⟨rfl, fun it => ?_⟩
    rw [hn]; ring

lemma inner_congr (b : Robot2 Q O nj) (s : Quadprog) (pinv : Pinv) (hier : Bool) (g : Gains2) (r1 r2 : Nat → ℝ → Ref2 O) (it : Nat) (x : SSt Q nj) (h : r1 it x.t = r2 it x.t) :
    inner b s pinv hier g r1 it x = inner b s pinv hier g r2 it x := by unfold inner; rw [h]

lemma inners_congr (b : Robot2 Q O nj) (s : Quadprog) (pinv : Pinv) (hier : Bool) (g : Gains2) (r1 r2 : Nat → ℝ → Ref2 O) (it : Nat) (x : SSt Q nj) (n : Nat)
    (h : ∀ t, t < x.t + n / 1000 → r1 it t = r2 it t) : inners b s pinv hier g r1 it x n = inners b s pinv hier g r2 it x n := by
  induction n with
  | zero => rfl
  | succ n ih =>
    rw [inners, inners, ← ih (fun t ht => h t (by push_cast; linarith))]
    cases hc : inners b s pinv hier g r1 it x n with
    | none => rfl
    | some y =>
      have ht := inners_time b s pinv hier g r1 it x y n hc
      exact inner_congr b s pinv hier g r1 r2 it y (h _ (by rw [ht]; push_cast; linarith))

/-- The references after the last simulated instant have no influence. -/
lemma outer_congr (b : Robot2 Q O nj) (s : Quadprog) (pinv : Pinv) (hier : Bool) (g : Gains2) (r1 r2 : Nat → ℝ → Ref2 O) (dt : ℝ) (q0 : Q) (dq0 : Vec (6 + nj)) (n : Nat)
    (h : ∀ it t, t < ((n * innerSteps dt : Nat) : ℝ) / 1000 → r1 it t = r2 it t) : outer b s pinv hier g r1 dt q0 dq0 n = outer b s pinv hier g r2 dt q0 dq0 n := by
  induction n with
  | zero => rfl
  | succ n ih =>
    rw [outer, outer, ← ih (fun it t ht => h it t (lt_of_lt_of_le ht (by
      push_cast
      have : (0 : ℝ) ≤ innerSteps dt := Nat.cast_nonneg _
      have : ((n : ℝ) * innerSteps dt) ≤ (n + 1) * innerSteps dt := by nlinarith
      linarith)))]
    cases hc : outer b s pinv hier g r1 dt q0 dq0 n with
    | none => rfl
    | some p =>
      obtain ⟨x, rows⟩ := p
      have ht := (outer_spec b s pinv hier g r1 dt q0 dq0 n x rows hc).2.2.2.1
      have := inners_congr b s pinv hier g r1 r2 (n + 1) x (innerSteps dt) (fun t h' => h _ t (by
        rw [ht] at h'
        push_cast at h' ⊢
        linarith))
      simp only [this]

/-- C153 is violated when the time step is not a whole number of milliseconds: with a time step of 1.5 ms the plan of `T` steps lasts `1.5 (T - 1)` ms, but `solve` follows only the first
`T - 1` ms of it: two plans that agree there give the same motion. -/
theorem C153_plan_time_violated (b : Robot2 Q O nj) (s : Quadprog) (pinv : Pinv) (hier : Bool) (g : Gains2) (r1 r2 : Nat → ℝ → Ref2 O) (T : Nat) (q0 : Q) (dq0 : Vec (6 + nj))
    (h : ∀ it t, t < ((T - 1 : Nat) : ℝ) / 1000 → r1 it t = r2 it t) : solve b s pinv hier g r1 (3 / 2000) T q0 dq0 = solve b s pinv hier g r2 (3 / 2000) T q0 dq0 := by
  unfold solve
  have hin : innerSteps (3 / 2000) = 1 := by
    unfold innerSteps
    rw [Nat.floor_eq_iff (by norm_num)]
    norm_num
  rw [outer_congr b s pinv hier g r1 r2 (3 / 2000) q0 dq0 (T - 1) (fun it t ht => h it t (by rw [hin, Nat.mul_one] at ht; exact ht))]

/-- C153 is violated for time steps below one millisecond: `solve` raises (a local variable is never bound). -/
theorem C153_short_step_violated (b : Robot2 Q O nj) (s : Quadprog) (pinv : Pinv) (hier : Bool) (g : Gains2) (ref : Nat → ℝ → Ref2 O) (dt : ℝ) (hdt : dt < 1 / 1000) (T : Nat) (hT : 2 ≤ T)
    (q0 : Q) (dq0 : Vec (6 + nj)) : solve b s pinv hier g ref dt T q0 dq0 = none := by
  unfold solve
  rw [Option.map_eq_none_iff]
  cases hc : outer b s pinv hier g ref dt q0 dq0 (T - 1) with
  | none => rfl
  | some p =>
    have := (outer_spec b s pinv hier g ref dt q0 dq0 _ p.1 p.2 hc).2.2.2.2.2.1 (by omega)
    unfold innerSteps at this
    rw [Nat.floor_pos] at this
    rw [div_div_eq_mul_div, le_div_iff₀ (by norm_num)] at this
    exfalso
    linarith

/-- `solve` never raises when the weights are nonnegative and the time step is at least a millisecond. -/
lemma inners_returns (b : Robot2 Q O nj) (s : Quadprog) (pinv : Pinv) (hier : Bool) (g : Gains2) (ref : Nat → ℝ → Ref2 O) (hs : s.Ok) (hg : g.toGains.Nonneg) (it : Nat) (x : SSt Q nj) (n : Nat) :
    ∃ y, inners b s pinv hier g ref it x n = some y := by
  induction n with
  | zero => exact ⟨x, rfl⟩
  | succ n ih =>
    obtain ⟨y, hy⟩ := ih
    rw [inners, hy, Option.bind_some]
    have : ∃ a, step b s pinv hier g y.q y.dq (ref it y.t) = some a := by
      cases hier with
      | true => exact ⟨_, rfl⟩
      | false =>
        obtain ⟨a, ha, -⟩ := C151_weighted b s hs pinv g hg y.q y.dq (ref it y.t)
        exact ⟨a, ha⟩
    obtain ⟨a, ha⟩ := this
    unfold inner
    rw [ha]
    exact ⟨_, rfl⟩

/-- C153: `solve` returns when the weights are nonnegative and the time step is at least one millisecond. -/
theorem C153_returns (b : Robot2 Q O nj) (s : Quadprog) (hs : s.Ok) (pinv : Pinv) (hier : Bool) (g : Gains2) (hg : g.toGains.Nonneg) (ref : Nat → ℝ → Ref2 O) (dt : ℝ) (hdt : 1 / 1000 ≤ dt)
    (T : Nat) (q0 : Q) (dq0 : Vec (6 + nj)) : ∃ rows, solve b s pinv hier g ref dt T q0 dq0 = some rows := by
  have hin : 0 < innerSteps dt := by
    unfold innerSteps
    rw [Nat.floor_pos, div_div_eq_mul_div, le_div_iff₀ (by norm_num)]
    linarith
  have : ∀ n, ∃ p, outer b s pinv hier g ref dt q0 dq0 n = some p := by
    intro n
    induction n with
    | zero => exact ⟨_, rfl⟩
    | succ n ih =>
      obtain ⟨⟨x, rows⟩, hx⟩ := ih
      obtain ⟨y, hy⟩ := inners_returns b s pinv hier g ref hs hg (n + 1) x (innerSteps dt)
      have hd := (inners_spec b s pinv hier g ref (n + 1) x y _ hy).2.1 hin
      rw [outer, hx]
      simp only [hy, if_neg hd]
      exact ⟨_, rfl⟩
  obtain ⟨p, hp⟩ := this (T - 1)
  exact ⟨p.2, by unfold solve; rw [hp]; rfl⟩

/-! ### C154 -/

/-- C154 (what holds): every row that `solve` returns is consistent: center of mass, momentum, end-effector positions and velocities are those of the row's configuration and velocity. -/
theorem C154_solve (b : Robot2 Q O nj) (s : Quadprog) (pinv : Pinv) (hier : Bool) (g : Gains2) (ref : Nat → ℝ → Ref2 O) (dt : ℝ) (T : Nat) (q0 : Q) (dq0 : Vec (6 + nj))
    (rows : List (Row2 Q nj)) (h : solve b s pinv hier g ref dt T q0 dq0 = some rows) (r : Row2 Q nj) (hr : r ∈ rows) :
    (∀ k, r.com k = b.rb.com r.q k) ∧ (∀ k, r.mom k = b.rb.Ag r.q k ⬝ᵥ r.dq) ∧ (∀ i k, r.pos i k = b.rb.pos r.q i k) ∧
      ∀ i < b.rb.ne, ∀ k < 3, r.vel i k = b.rb.jac r.q i k ⬝ᵥ r.dq := by
  have hrec : r = record b r.q r.dq := by
    unfold solve at h
    rw [Option.map_eq_some_iff] at h
    obtain ⟨p, hp, rfl⟩ := h
    exact (outer_spec b s pinv hier g ref dt q0 dq0 _ p.1 p.2 hp).2.2.2.2.1 r hr
  refine ⟨fun k => by rw [hrec]; rfl, fun k => by rw [hrec]; rfl, fun i k => by rw [hrec]; rfl, fun i hi k hk => ?_⟩
  rw [hrec]
  show b.rb.J r.q (6 + (3 * i + k)) ⬝ᵥ r.dq = _
  rw [J_eff b.rb r.q i k hi hk]
  rfl

/-- C154 (what holds of `optimize`): the stored motion is the one `solve` computes from the initial configuration at rest, and center of mass, momentum and end-effector positions (also relative to
the hip) are those of the stored configuration and velocity. Missing: the end-effector velocities (`C154_velocity_violated`). -/
theorem C154_optimize_partial (b : PyMko.Body Q nj) (b2 : Robot2 Q O nj) (s : Quadprog) (pinv : Pinv) (hier : Bool) (g : Gains) (g2 : Gains2) (mi : Nat) (start : PyMko.Init → Q)
    (o : PyMko.Obj Q nj) (i : PyMko.Init) (ref : Q → Nat → ℝ → Ref2 O) (dt : ℝ) (T : Nat) (q0 : Q) (recs : List (PyMko.Rec Q nj))
    (h : optimize2 b b2 s pinv hier g g2 mi start o i ref dt T = some (q0, recs)) :
    (∃ rows, solve b2 s pinv hier g2 (ref q0) dt T q0 0 = some rows ∧ recs.map (fun r => (r.q, r.dq)) = rows.map fun r => (r.q, r.dq)) ∧ (∀ q, o.qInit = some q → q0 = q) ∧
    ∀ r ∈ recs, r.com = b.rb.com r.q ∧ (∀ k, r.mom k = b.rb.Ag r.q k ⬝ᵥ r.dq) ∧ r.traj = b.rb.pos r.q ∧ ∀ e k, r.trajBase e k = b.rb.pos r.q e k - b.hipPos r.q e k := by
  unfold optimize2 at h
  simp only at h
  split at h
  · simp at h
  · rename_i q J hJ
    rw [Option.map_eq_some_iff] at h
    obtain ⟨rows, h', e⟩ := h
    rw [Prod.mk.injEq] at e
    obtain ⟨rfl, rfl⟩ := e
    refine ⟨⟨rows, h', by simp [refill, PyMko.fillResult]⟩, fun q' hq' => ?_, fun r hr => ?_⟩
    · rw [hq'] at hJ
      simp only [Option.some.injEq, Prod.mk.injEq] at hJ
      exact hJ.1.symm
    · obtain ⟨r0, -, rfl⟩ := List.mem_map.1 hr
      exact ⟨rfl, fun _ => rfl, rfl, fun _ _ => rfl⟩

/-- The robot of C139 for the second-order inverse kinematics. -/
def wBody2 : Robot2 ℝ Unit 1 where
  rb := PyMko.wBody.rb
  dAg := fun _ _ _ => 0
  djac := fun _ _ _ _ => 0
  ori := fun _ _ _ => 0
  joints := fun q _ => q
  integ := PyMko.wBody.integ

/-- Only the joints are tracked. -/
def wGains2 : Gains2 := { PyMko.wGains with dEff := 0, pOri := 0, dOri := 0, pMom := fun _ => 0, pJoint := 1, dJoint := 0 }

/-- The joint is asked to move to 1. -/
def wRef2 : Ref2 Unit :=
  { com := fun _ => 0, lmom := fun _ => 0, amom := fun _ => 0, pos := fun _ _ => 0, vel := fun _ _ => 0, contact := fun _ => true, joint := some fun _ => 1, flight := false,
    ori := (), dmom := fun _ => 0, acc := fun _ _ => 0 }

lemma wNonneg2 : wGains2.toGains.Nonneg := PyMko.wNonneg

lemma w_moves (x : Vec 7) (h : BestAcc wBody2 wGains2 wRef2 (0 : ℝ) 0 x) : x 6 ≠ 0 := by
  intro hz
  have hb := h.1 (fun c => if c = 6 then 1 / 2 else 0)
  have hpos : 0 ≤ ∑ c, x c ^ 2 := Finset.sum_nonneg fun _ _ => sq_nonneg _
  have f6 : (Fin.natAdd 6 (0 : Fin 1)) = (6 : Fin (6 + 1)) := rfl
  have hs1 : ∑ c : Fin (6 + 1), ((if c = 6 then 1 / 2 else 0 : ℝ)) ^ 2 = 1 / 4 := by
    rw [Finset.sum_eq_single (6 : Fin (6 + 1))]
    · norm_num
    · intro c _ hc; rw [if_neg hc]; norm_num
    · intro hh; exact absurd (Finset.mem_univ _) hh
  have hz' : x (6 : Fin (6 + 1)) = 0 := hz
  simp only [accCost, wGains2, PyMko.wGains, wRef2, zero_mul, ite_self, Finset.sum_const_zero, zero_add, one_mul, Finset.univ_unique, Fin.default_eq_zero, Finset.sum_singleton, jointAim, f6, hz', hs1,
    wBody2] at hb
  norm_num at hb
  nlinarith

lemma w_jac (q : ℝ) (x : Vec 7) : PyMko.wBody.rb.jac q 0 0 ⬝ᵥ x = q * x 6 := by
  simp only [PyMko.wBody, dotProduct, ite_mul, zero_mul]
  rw [Finset.sum_eq_single 6]
  · simp
  · intro c _ hc
    rw [if_neg]
    intro hh
    exact hc (Fin.ext hh)
  · intro hh; exact absurd (Finset.mem_univ _) hh

lemma w_still (s : Quadprog) (hs : s.Ok) (c : Cache ℝ 1) (hc : Reach PyMko.wBody.rb s c) (J : Option ℝ) :
    ∃ r f, PyMko.initPos PyMko.wBody s { PyMko.wGains with init := true } 50 ⟨fun _ => 0, fun _ _ => 0⟩ 0 c J = some (r, f) ∧ r.q = 0 ∧ r.J = some 0 := by
  have hg : Gains.Nonneg { PyMko.wGains with init := true } := PyMko.wNonneg
  obtain ⟨h1, h2⟩ := C132_ik_optimal PyMko.wBody.rb s hs c hc { PyMko.wGains with init := true } hg 0 0 (PyMko.initRefs PyMko.wBody ⟨fun _ => 0, fun _ _ => 0⟩ 0)
  obtain ⟨x, hx⟩ := h2 (fun h => by simp [PyMko.initRefs] at h)
  have hu := (h1 x hx).unique 0 (fun h => by simp [PyMko.initRefs] at h) (by
    have hp : 0 ≤ trackCost PyMko.wBody.rb { PyMko.wGains with init := true } 0 (PyMko.initRefs PyMko.wBody ⟨fun _ => 0, fun _ _ => 0⟩ 0) x := by
      simp only [trackCost, PyMko.wGains, zero_mul, ite_self, Finset.sum_const_zero, zero_add, one_mul]
      positivity
    refine le_trans (le_of_eq ?_) hp
    simp [trackCost, PyMko.wGains, PyMko.initRefs])
  have hdata : (compute PyMko.wBody.rb s { PyMko.wGains with init := true } c 0 0 (PyMko.initRefs PyMko.wBody ⟨fun _ => 0, fun _ _ => 0⟩ 0)).1.data = 0 := by
    unfold compute
    simp only
    split
    · rfl
    · rename_i hc'
      push Not at hc'
      obtain ⟨e1, -⟩ := hc'
      cases hl : c.last with
      | none => rw [hl] at e1; simp at e1
      | some ab =>
        rw [hl] at e1
        simp only [Option.map_some, Option.some.injEq] at e1
        rw [← e1]
        exact reach_inv PyMko.wBody.rb s c hc ab.1 ab.2 hl
  refine ⟨_, _, by unfold PyMko.initPos PyMko.initLoop; simp only [hx, ← hu]; rw [if_pos (by norm_num)], ?_, ?_⟩
  · simp [PyMko.wBody]
  · simp only [hdata]

/-- C154 is violated by the end-effector velocities that `optimize` stores: here, on a fresh object, the search for the initial configuration ends immediately, then a step of 1 ms is simulated, and the
velocity stored for it is not the velocity of the end-effector in the stored state. -/
theorem C154_velocity_violated : ∃ (s : Quadprog) (pinv : Pinv) (recs : List (PyMko.Rec ℝ 1)) (r : PyMko.Rec ℝ 1), s.Ok ∧ pinv.Ok ∧
    optimize2 PyMko.wBody wBody2 s pinv false PyMko.wGains wGains2 50 (fun _ => 0) ⟨none, ⟨none, 0⟩, none, fun _ _ => 0⟩ ⟨fun _ => 0, fun _ _ => 0⟩ (fun _ _ _ => wRef2) (1 / 1000) 2 = some (0, recs) ∧
    recs[1]? = some r ∧ r.vel 0 0 ≠ PyMko.wBody.rb.jac r.q 0 0 ⬝ᵥ r.dq := by
  obtain ⟨s, hs⟩ := quadprog_ok_exists
  obtain ⟨pinv, hp⟩ := pinv_ok_exists
  obtain ⟨r0, f, h0, hq, hJ⟩ := w_still s hs ⟨none, 0⟩ (Reach.fresh 0) none
  obtain ⟨rows, hrows⟩ := C153_returns wBody2 s hs pinv false wGains2 wNonneg2 (fun _ _ => wRef2) (1 / 1000) (le_refl _) 2 0 0
  obtain ⟨hl, hfirst, hstep, htime⟩ := C153_motion_partial wBody2 s pinv false wGains2 (fun _ _ => wRef2) (1 / 1000) 2 (by omega) 0 0 rows hrows
  have hopt : optimize2 PyMko.wBody wBody2 s pinv false PyMko.wGains wGains2 50 (fun _ => 0) ⟨none, ⟨none, 0⟩, none, fun _ _ => 0⟩ ⟨fun _ => 0, fun _ _ => 0⟩ (fun _ _ _ => wRef2) (1 / 1000) 2 =
      some (0, refill PyMko.wBody (some 0) rows) := by
    unfold optimize2
    simp only [h0, hq, hJ, hrows, Option.map_some]
  obtain ⟨a0, ha0⟩ : ∃ r, rows[0]? = some r := ⟨_, List.getElem?_eq_getElem (by omega)⟩
  obtain ⟨a1, ha1⟩ : ∃ r, rows[1]? = some r := ⟨_, List.getElem?_eq_getElem (by omega)⟩
  refine ⟨s, pinv, _, PyMko.fillResult PyMko.wBody (some 0) a1.q a1.dq, hs, hp, hopt, by simp [refill, ha1], ?_⟩
  obtain ⟨b1, b2⟩ := hfirst a0 ha0
  have hsim := (hstep 0 a0 a1 ha0 ha1).2 hs wNonneg2 rfl
  rw [(htime 1 (by norm_num)).1, b1, b2] at hsim
  obtain ⟨c, v, a, c0, v0, c1, v1, hj⟩ := hsim
  obtain ⟨j1, j2, j3⟩ := hj 0 (by omega)
  rw [c0, v0] at j1
  have hne := w_moves (a 0) j1
  have hv : (PyMko.fillResult PyMko.wBody (some 0) a1.q a1.dq).vel 0 0 = PyMko.wBody.rb.jac 0 0 0 ⬝ᵥ a1.dq := rfl
  rw [hv, w_jac]
  show (0 : ℝ) * _ ≠ PyMko.wBody.rb.jac a1.q 0 0 ⬝ᵥ a1.dq
  rw [w_jac, ← c1, ← v1]
  have e1 : v (0 + 1) 6 = a 0 6 / 1000 := by rw [j2 6, v0]; simp
  have e2 : c (0 + 1) = a 0 6 / 1000 / 1000 := by
    rw [j3, c0]
    show (0 : ℝ) + v (0 + 1) 6 / 1000 = _
    rw [e1]; ring
  simp only [Nat.zero_add] at e1 e2
  rw [e1, e2]
  intro hcon
  have : a 0 6 * a 0 6 = 0 := by linarith
  exact hne (mul_self_eq_zero.mp this)

/-- C153, C154: such runs exist, for example three steps of 2 ms. -/
example : ∃ (s : Quadprog) (pinv : Pinv) (rows : List (Row2 ℝ 1)), s.Ok ∧ pinv.Ok ∧ wGains2.toGains.Nonneg ∧
    solve wBody2 s pinv false wGains2 (fun _ _ => wRef2) (2 / 1000) 3 0 0 = some rows ∧ rows.length = 3 := by
  obtain ⟨s, hs⟩ := quadprog_ok_exists
  obtain ⟨pinv, hp⟩ := pinv_ok_exists
  obtain ⟨rows, hrows⟩ := C153_returns wBody2 s hs pinv false wGains2 wNonneg2 (fun _ _ => wRef2) (2 / 1000) (by norm_num) 3 0 0
  exact ⟨s, pinv, rows, hs, hp, wNonneg2, hrows, (C153_motion_partial wBody2 s pinv false wGains2 (fun _ _ => wRef2) (2 / 1000) 3 (by omega) 0 0 rows hrows).1⟩

/-- C153: two references that differ after the first millisecond, and a plan of 1.5 ms. -/
example (s : Quadprog) (pinv : Pinv) : solve wBody2 s pinv false wGains2 (fun _ _ => wRef2) (3 / 2000) 2 0 0 =
    solve wBody2 s pinv false wGains2 (fun _ t => if t < 1 / 1000 then wRef2 else legRef) (3 / 2000) 2 0 0 :=
  C153_plan_time_violated wBody2 s pinv false wGains2 _ _ 2 0 0 (fun it t ht => by
    have : t < 1 / 1000 := by simpa using ht
    rw [if_pos this])

end PyIk2
end Verif
