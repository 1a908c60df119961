import Verif.PyMko
import Verif.PyIkExist

/-!
C134 – C140: the first-order kinematics optimizer of the Python front end.

Specification: `wanted` (the references of a time step), `IkSol` of PyIkProps (what a tracked velocity is).
-/
namespace Verif
namespace PyMko
open Matrix PyIk

variable {Q : Type} {nj : Nat}

/-! ### Specification -/

/-- The references of time step `it` at configuration `q` for given momentum references. -/
noncomputable def wanted (b : Body Q nj) (p : Plan) (it : Nat) (q : Q) (lmom amom : Nat → ℝ) (flight : Bool) : Ref :=
  ⟨p.com it, lmom, amom, p.pos it, p.vel it, p.contact it, some fun j => p.regJoint * (p.jointDes it j - b.joints q j), flight⟩

/-- Some end-effector is in contact at time `it`. -/
def InContact (b : Body Q nj) (p : Plan) (it : Nat) : Prop := ∃ e < b.rb.ne, p.act it e = true

/-! ### The loop -/

section loop
variable (b : Body Q nj) (s : Quadprog) (g : Gains) (p : Plan) (st0 : St Q nj)

theorem flight_iff (it : Nat) : p.flight b.rb.ne it = true ↔ ¬ InContact b p it := by
  unfold Plan.flight InContact
  simp only [List.all_eq_true, List.mem_range, Bool.not_eq_true']
  constructor
  · rintro h ⟨e, he, ha⟩; rw [h e he] at ha; simp at ha
  · intro h e he
    by_contra hc
    exact h ⟨e, he, by simpa using hc⟩

theorem loop_prefix (n : Nat) (st : St Q nj) (h : loop b s g p st0 n = some st) (k : Nat) (hk : k ≤ n) :
    ∃ st', loop b s g p st0 k = some st' := by
  induction n generalizing st with
  | zero => exact ⟨st, by rw [show k = 0 by omega]; exact h⟩
  | succ n ih =>
    rcases Nat.lt_or_ge k (n + 1) with hlt | hge
    · unfold loop at h
      obtain ⟨s1, h1, -⟩ := Option.bind_eq_some_iff.mp h
      exact ih s1 h1 (by omega)
    · exact ⟨st, by rw [show k = n + 1 by omega]; exact h⟩

/-- What a successful pass does. -/
theorem step_spec (it : Nat) (st st' : St Q nj) (h : step b s g p it st = some st') :
    b.rb.ne ≠ 0 ∧ ∃ arr r am dq, momRefs b p it st = some (arr, r, am) ∧
      b.rb.solve s g st.q st.q (refs b p it st.q (arr r) am) = some dq ∧
      st'.q = b.integ st.q (fun c => dq c * p.dt) ∧ st'.dq = dq ∧ st'.lmomDyn = arr ∧ st'.lref = some r ∧
      st'.momFlight = (if p.flight b.rb.ne it then st.momFlight else some fun k => jDot b.rb st.J k st.dq) ∧
      st'.J = some st.q ∧ st'.recs = st.recs ++ [fillResult b st.J st.q st.dq] := by
  unfold step at h
  split at h
  · simp at h
  · rename_i hne
    refine ⟨hne, ?_⟩
    split at h
    · simp at h
    · rename_i arr r am hm
      simp only at h
      have hc : Reach b.rb s (st.cache.forward st.q st.dq) :=
        Reach.step (Reach.fresh (rb := b.rb) (s := s) st.q) (Call.forward st.q st.dq)
      have hd : (compute b.rb s g (st.cache.forward st.q st.dq) st.q st.dq (refs b p it st.q (arr r) am)).1.data = st.q := by
        unfold compute
        simp only
        split <;> rfl
      rw [compute_data b.rb s _ hc] at h
      split at h
      · simp at h
      · rename_i dq hdq
        simp only [Option.some.injEq] at h
        subst h
        exact ⟨arr, r, am, dq, hm, hdq, rfl, rfl, rfl, rfl, rfl, by rw [hd], rfl⟩

theorem loop_recs (h0 : st0.recs = []) (n : Nat) (st : St Q nj) (h : loop b s g p st0 n = some st) :
    st.recs.length = n ∧ ∀ k, k < n → ∀ sk, loop b s g p st0 k = some sk → st.recs[k]? = some (fillResult b sk.J sk.q sk.dq) := by
  induction n generalizing st with
  | zero =>
    simp only [loop, Option.some.injEq] at h
    subst h
    simp [h0]
  | succ n ih =>
    unfold loop at h
    obtain ⟨s1, h1, h2⟩ := Option.bind_eq_some_iff.mp h
    obtain ⟨hl, hr⟩ := ih s1 h1
    obtain ⟨-, arr, r, am, dq, -, -, -, -, -, -, -, -, hrec⟩ := step_spec b s g p n s1 st h2
    rw [hrec]
    refine ⟨by simp [hl], fun k hk sk hsk => ?_⟩
    rcases Nat.lt_or_ge k n with hlt | hge
    · rw [List.getElem?_append_left (by omega)]
      exact hr k hlt sk hsk
    · have : k = n := by omega
      subst this
      rw [List.getElem?_append_right (by omega), hl]
      rw [h1] at hsk
      simp only [Option.some.injEq] at hsk
      subst hsk
      simp

/-- Rows of `lmom_dyn` from the current step on are those of the plan; `J` belongs to the previous configuration. -/
theorem loop_inv (hl : st0.lmomDyn = p.lmom) (hr : st0.lref = none) (n : Nat) (st : St Q nj) (h : loop b s g p st0 n = some st) :
    (∀ r, st.lref = some r → r < n) ∧ ∀ t, n ≤ t → st.lmomDyn t = p.lmom t := by
  induction n generalizing st with
  | zero =>
    simp only [loop, Option.some.injEq] at h
    subst h
    exact ⟨fun r h => by rw [hr] at h; simp at h, fun t _ => by rw [hl]⟩
  | succ n ih =>
    unfold loop at h
    obtain ⟨s1, h1, h2⟩ := Option.bind_eq_some_iff.mp h
    obtain ⟨ha, hb⟩ := ih s1 h1
    obtain ⟨-, arr, r, am, dq, hm, -, -, -, harr, hlr, -⟩ := step_spec b s g p n s1 st h2
    unfold momRefs at hm
    split at hm
    · split at hm
      · rename_i r' m hr' hm'
        simp only [Option.some.injEq, Prod.mk.injEq] at hm
        obtain ⟨e1, e2, e3⟩ := hm
        have hlt := ha r' hr'
        refine ⟨fun x hx => ?_, fun t ht => ?_⟩
        · rw [hlr] at hx
          simp only [Option.some.injEq] at hx
          omega
        · rw [harr, ← e1]
          funext k
          unfold writeFlight
          rw [if_neg (by omega), hb t (by omega)]
      · simp at hm
    · simp only [Option.some.injEq, Prod.mk.injEq] at hm
      obtain ⟨e1, e2, e3⟩ := hm
      refine ⟨fun x hx => ?_, fun t ht => ?_⟩
      · rw [hlr] at hx
        simp only [Option.some.injEq] at hx
        omega
      · rw [harr, ← e1]; exact hb t (by omega)

theorem loop_J (n : Nat) (s1 st : St Q nj) (h1 : loop b s g p st0 n = some s1) (h : loop b s g p st0 (n + 1) = some st) : st.J = some s1.q := by
  unfold loop at h
  rw [h1] at h
  obtain ⟨-, arr, r, am, dq, -, -, -, -, -, -, -, hj, -⟩ := step_spec b s g p n s1 st h
  exact hj

theorem refs_eq (it : Nat) (q : Q) (lm am : Nat → ℝ) : refs b p it q lm am = wanted b p it q lm am (p.flight b.rb.ne it) := rfl

/-- The momentum reference through a flight phase: after contact at `c` and flight at `c+1 … c+d`. -/
theorem loop_flight (hl : st0.lmomDyn = p.lmom) (hr : st0.lref = none) (c d : Nat) (hc : InContact b p c)
    (hd : ∀ j, c < j → j < c + 1 + d → ¬ InContact b p j) (sc st : St Q nj) (h1 : loop b s g p st0 c = some sc)
    (h : loop b s g p st0 (c + 1 + d) = some st) :
    st.lref = some c ∧ st.momFlight = some (fun k => jDot b.rb sc.J k sc.dq) ∧
    (0 < d → ∀ k, k < 2 → st.lmomDyn c k = jDot b.rb sc.J k sc.dq) ∧
    st.lmomDyn c 2 = p.lmom c 2 - d * (p.weight * p.dt) := by
  induction d generalizing st with
  | zero =>
    have hi := loop_inv b s g p st0 hl hr c sc h1
    rw [Nat.add_zero] at h
    unfold loop at h
    rw [h1] at h
    obtain ⟨-, arr, r, am, dq, hm, -, -, -, harr, hlr, hmf, -⟩ := step_spec b s g p c sc st h
    have hf : ¬ p.flight b.rb.ne c = true := by rw [flight_iff]; exact not_not.mpr hc
    unfold momRefs at hm
    rw [if_neg hf] at hm
    simp only [Option.some.injEq, Prod.mk.injEq] at hm
    obtain ⟨e1, e2, e3⟩ := hm
    rw [if_neg hf] at hmf
    refine ⟨by rw [hlr, e2], hmf, fun h => absurd h (by omega), ?_⟩
    rw [harr, ← e1, hi.2 c (le_refl _)]
    simp
  | succ d ih =>
    have e : c + 1 + (d + 1) = (c + 1 + d) + 1 := by omega
    rw [e] at h hd
    obtain ⟨s1, h2⟩ := loop_prefix b s g p st0 _ st h (c + 1 + d) (by omega)
    obtain ⟨i1, i2, i3, i4⟩ := ih (fun j a b => hd j a (by omega)) s1 h2
    unfold loop at h
    rw [h2] at h
    obtain ⟨-, arr, r, am, dq, hm, -, -, -, harr, hlr, hmf, -⟩ := step_spec b s g p (c + 1 + d) s1 st h
    have hf : p.flight b.rb.ne (c + 1 + d) = true := by rw [flight_iff]; exact hd _ (by omega) (by omega)
    unfold momRefs at hm
    rw [if_pos hf, i1, i2] at hm
    simp only [Option.some.injEq, Prod.mk.injEq] at hm
    obtain ⟨e1, e2, e3⟩ := hm
    rw [if_pos hf] at hmf
    refine ⟨by rw [hlr, e2], by rw [hmf, i2], fun _ k hk => ?_, ?_⟩
    · rw [harr, ← e1]
      unfold writeFlight
      rw [if_pos rfl, if_pos hk]
    · rw [harr, ← e1]
      unfold writeFlight
      rw [if_pos rfl, if_neg (by omega), if_pos rfl, i4]
      push_cast
      ring

end loop

theorem jDot_zero (rb : Robot Q nj) (J : Option Q) (r : Nat) : jDot rb J r 0 = 0 := by
  unfold jDot
  cases J <;> simp

/-- The row the optimizer starts the loop with. -/
def start0 (q : Q) (p : Plan) (J : Option Q) (c : Cache Q nj) : St Q nj := ⟨q, 0, p.lmom, none, none, J, c, []⟩

/-- A successful `optimize` is a successful loop from the initial configuration kept in the object. -/
theorem optimize_loop (b : Body Q nj) (s : Quadprog) (g : Gains) (mi : Nat) (start : Init → Q) (o o' : Obj Q nj) (i : Init) (p : Q → Plan)
    (recs : List (Rec Q nj)) (h : optimize b s g mi start o i p = some (o', recs)) :
    ∃ q J c st, o'.qInit = some q ∧ (∀ q0, o.qInit = some q0 → q0 = q) ∧
      loop b s { g with init := false } (p q) (start0 q (p q) J c) (p q).T = some st ∧ st.recs = recs ∧ o'.lmomDyn = st.lmomDyn ∧ o'.cache = st.cache ∧ o'.J = st.J := by
  unfold optimize at h
  simp only at h
  split at h
  · simp at h
  · rename_i o1 q hfirst
    split at h
    · simp at h
    · rename_i st hst
      simp only [Option.some.injEq, Prod.mk.injEq] at h
      obtain ⟨h1, h2⟩ := h
      subst h1
      refine ⟨q, o1.J, o1.cache, st, rfl, ?_, hst, h2, rfl, rfl, rfl⟩
      intro q0 hq0
      rw [hq0] at hfirst
      simp only [Option.some.injEq, Prod.mk.injEq] at hfirst
      exact hfirst.2

/-! ### C134, C135, C139 -/

/-- C134: the computed motion starts at the initial configuration at rest; every configuration is the previous one moved for one time step with
the recorded velocity; and the velocity recorded at `it + 1` is, for nonnegative weights, the unique best tracking velocity at the
configuration recorded at `it` for the references of time `it` of the plan (for a time step with a contact). -/
theorem C134_trajectory (b : Body Q nj) (s : Quadprog) (hs : s.Ok) (g : Gains) (hg : g.Nonneg) (mi : Nat) (start : Init → Q) (o o' : Obj Q nj)
    (i : Init) (p : Q → Plan) (recs : List (Rec Q nj)) (h : optimize b s g mi start o i p = some (o', recs)) :
    ∃ q, o'.qInit = some q ∧ recs.length = (p q).T ∧
      (∀ r, recs[0]? = some r → r.q = q ∧ r.dq = 0) ∧
      ∀ it r r', recs[it]? = some r → recs[it + 1]? = some r' →
        r'.q = b.integ r.q (fun c => r'.dq c * (p q).dt) ∧
        (InContact b (p q) it → IkSol b.rb { g with init := false } r.q
          (wanted b (p q) it r.q ((p q).lmom it) (fun k => (p q).regOri * b.ori ((p q).baseDes it) r.q k + (p q).amom it k) false) r'.dq) := by
  obtain ⟨q, J, c, st, hq, -, hloop, hrecs, -⟩ := optimize_loop b s g mi start o o' i p recs h
  obtain ⟨hlen, hrec⟩ := loop_recs b s { g with init := false } (p q) (start0 q (p q) J c) rfl _ st hloop
  rw [hrecs] at hlen hrec
  refine ⟨q, hq, hlen, fun r hr => ?_, fun it r r' hr hr' => ?_⟩
  · have hT : 0 < (p q).T := by
      rw [← hlen]
      exact (List.getElem?_eq_some_iff.mp hr).1
    have := hrec 0 hT _ rfl
    rw [hr] at this
    simp only [Option.some.injEq] at this
    rw [this]
    exact ⟨rfl, rfl⟩
  · have hT : it + 1 < (p q).T := by
      rw [← hlen]
      exact (List.getElem?_eq_some_iff.mp hr').1
    obtain ⟨s1, h1⟩ := loop_prefix b s _ (p q) _ _ st hloop it (by omega)
    obtain ⟨s2, h2⟩ := loop_prefix b s _ (p q) _ _ st hloop (it + 1) (by omega)
    have e1 := hrec it (by omega) s1 h1
    have e2 := hrec (it + 1) hT s2 h2
    rw [hr, Option.some.injEq] at e1
    rw [hr', Option.some.injEq] at e2
    have h2' := h2
    unfold loop at h2'
    rw [h1] at h2'
    obtain ⟨-, arr, row, am, dq, hm, hsol, hq', hdq, -⟩ := step_spec b s _ (p q) it s1 s2 h2'
    have a1 : r.q = s1.q := by rw [e1]; rfl
    have a2 : r'.q = s2.q := by rw [e2]; rfl
    have a3 : r'.dq = dq := by rw [e2, ← hdq]; rfl
    rw [a1, a2, a3]
    refine ⟨hq', fun hc => ?_⟩
    have hf : ¬ (p q).flight b.rb.ne it = true := by rw [flight_iff]; exact not_not.mpr hc
    unfold momRefs at hm
    rw [if_neg hf] at hm
    simp only [Option.some.injEq, Prod.mk.injEq] at hm
    obtain ⟨m1, m2, m3⟩ := hm
    have hi := (loop_inv b s _ (p q) _ rfl rfl it s1 h1).2 it (le_refl _)
    rw [refs_eq, ← m1, ← m2, hi, ← m3, Bool.eq_false_iff.mpr hf] at hsol
    exact (solve_ok b.rb s hs { g with init := false } hg s1.q _).1 dq hsol

/-- The momentum a recorded row carries over into the following flight phase: that of its velocity at the configuration recorded before it
(zero for the first row). -/
noncomputable def carried (b : Body Q nj) (recs : List (Rec Q nj)) (c : Nat) (k : Nat) : ℝ :=
  match c with
  | 0 => 0
  | c' + 1 => match recs[c']?, recs[c' + 1]? with
    | some r, some r' => b.rb.Ag r.q k ⬝ᵥ r'.dq
    | _, _ => 0

/-- C135: through a flight phase the commanded motion has exactly ballistic momentum: with `c` the last step in contact before step `it` of the flight
phase, the velocity recorded at `it + 1` has at the configuration recorded at `it` the horizontal and angular momentum carried over from
step `c`, and the vertical momentum planned for step `c` reduced by weight times time step for every step of the phase; and among the
velocities with this momentum it is the unique best for the other references. -/
theorem C135_flight (b : Body Q nj) (s : Quadprog) (hs : s.Ok) (g : Gains) (hg : g.Nonneg) (mi : Nat) (start : Init → Q) (o o' : Obj Q nj)
    (i : Init) (p : Q → Plan) (recs : List (Rec Q nj)) (h : optimize b s g mi start o i p = some (o', recs)) :
    ∃ q, o'.qInit = some q ∧ ∀ c it r r', recs[it]? = some r → recs[it + 1]? = some r' → c < it → InContact b (p q) c →
      (∀ j, c < j → j ≤ it → ¬ InContact b (p q) j) →
      (∀ k, k < 2 → b.rb.Ag r.q k ⬝ᵥ r'.dq = carried b recs c k) ∧
      b.rb.Ag r.q 2 ⬝ᵥ r'.dq = (p q).lmom c 2 - ((it - c : Nat) : ℝ) * ((p q).weight * (p q).dt) ∧
      (∀ k, k < 3 → b.rb.Ag r.q (3 + k) ⬝ᵥ r'.dq = carried b recs c (3 + k)) ∧
      ∃ lm am, IkSol b.rb { g with init := false } r.q (wanted b (p q) it r.q lm am true) r'.dq := by
  obtain ⟨q, J, c0, st, hq, -, hloop, hrecs, -⟩ := optimize_loop b s g mi start o o' i p recs h
  obtain ⟨hlen, hrec⟩ := loop_recs b s { g with init := false } (p q) (start0 q (p q) J c0) rfl _ st hloop
  rw [hrecs] at hlen hrec
  refine ⟨q, hq, fun c it r r' hr hr' hci hc hfl => ?_⟩
  have hT : it + 1 < (p q).T := by
    rw [← hlen]
    exact (List.getElem?_eq_some_iff.mp hr').1
  obtain ⟨sc, hsc⟩ := loop_prefix b s _ (p q) _ _ st hloop c (by omega)
  obtain ⟨s1, h1⟩ := loop_prefix b s _ (p q) _ _ st hloop it (by omega)
  obtain ⟨s2, h2⟩ := loop_prefix b s _ (p q) _ _ st hloop (it + 1) (by omega)
  have e1 := hrec it (by omega) s1 h1
  have e2 := hrec (it + 1) hT s2 h2
  rw [hr, Option.some.injEq] at e1
  rw [hr', Option.some.injEq] at e2
  have h2' := h2
  unfold loop at h2'
  rw [h1] at h2'
  obtain ⟨-, arr, row, am, dq, hm, hsol, -, hdq, harr, hlr, -⟩ := step_spec b s _ (p q) it s1 s2 h2'
  have a1 : r.q = s1.q := by rw [e1]; rfl
  have a3 : r'.dq = dq := by rw [e2, ← hdq]; rfl
  have hf : (p q).flight b.rb.ne it = true := by rw [flight_iff]; exact hfl it hci (le_refl _)
  -- the momentum carried over
  have hcar : ∀ k, k < 6 → carried b recs c k = jDot b.rb sc.J k sc.dq := by
    intro k hk
    unfold carried
    rcases c with _ | c'
    · simp only [loop, Option.some.injEq] at hsc
      subst hsc
      exact (jDot_zero _ _ _).symm
    · obtain ⟨s0, h0⟩ := loop_prefix b s _ (p q) _ _ st hloop c' (by omega)
      have f1 := hrec c' (by omega) s0 h0
      have f2 := hrec (c' + 1) (by omega) sc hsc
      simp only [f1, f2]
      have hj := loop_J b s _ (p q) _ c' s0 sc h0 hsc
      unfold jDot
      rw [hj]
      simp only [fillResult]
      unfold Robot.J
      rw [if_pos hk]
  -- the reference of step it
  obtain ⟨d, rfl⟩ : ∃ d, it = c + 1 + d := ⟨it - c - 1, by omega⟩
  obtain ⟨i1, i2, -, -⟩ := loop_flight b s _ (p q) _ rfl rfl c d hc (fun j a b' => hfl j a (by omega)) sc s1 hsc h1
  have hfl' := loop_flight b s _ (p q) _ rfl rfl c (d + 1) hc (fun j a b' => hfl j a (by omega)) sc s2 hsc h2
  obtain ⟨-, -, j3, j4⟩ := hfl'
  unfold momRefs at hm
  rw [if_pos hf, i1, i2] at hm
  simp only [Option.some.injEq, Prod.mk.injEq] at hm
  obtain ⟨m1, m2, m3⟩ := hm
  rw [refs_eq, hf] at hsol
  have hik := (solve_ok b.rb s hs { g with init := false } hg s1.q _).1 dq hsol
  have hmom := hik.mom rfl
  rw [a1, a3]
  refine ⟨fun k hk => ?_, ?_, fun k hk => ?_, arr row, am, hik⟩
  · rw [(hmom k (by omega)).1, hcar k (by omega), ← j3 (by omega) k hk, harr, m2]
    rfl
  · rw [(hmom 2 (by omega)).1]
    have : arr row 2 = (p q).lmom c 2 - ((d + 1 : Nat) : ℝ) * ((p q).weight * (p q).dt) := by
      rw [← j4, harr, m2]
    rw [show c + 1 + d - c = d + 1 by omega]
    exact this
  · rw [(hmom k hk).2, hcar (3 + k) (by omega), ← m3]
    rfl

/-- C139 (what holds): every recorded row is consistent: center of mass, momentum and end-effector positions are those of the recorded
configuration and velocity. The recorded end-effector velocities, however, use the Jacobian of the previously recorded configuration. -/
theorem C139_recorded_partial (b : Body Q nj) (s : Quadprog) (g : Gains) (mi : Nat) (start : Init → Q) (o o' : Obj Q nj)
    (i : Init) (p : Q → Plan) (recs : List (Rec Q nj)) (h : optimize b s g mi start o i p = some (o', recs)) :
    (∀ (it : Nat) (r : Rec Q nj), recs[it]? = some r → r.com = b.rb.com r.q ∧ (∀ k, r.mom k = b.rb.Ag r.q k ⬝ᵥ r.dq) ∧ r.traj = b.rb.pos r.q ∧
      (∀ e k, r.trajBase e k = b.rb.pos r.q e k - b.hipPos r.q e k) ∧ (∀ e k, r.velBase e k = r.vel e k - b.hipJac r.q e k ⬝ᵥ r.dq)) ∧
    (∀ r : Rec Q nj, recs[0]? = some r → ∀ e k, r.vel e k = 0) ∧
    ∀ (it : Nat) (r r' : Rec Q nj), recs[it]? = some r → recs[it + 1]? = some r' → ∀ e k, e < b.rb.ne → k < 3 → r'.vel e k = b.rb.jac r.q e k ⬝ᵥ r'.dq := by
  obtain ⟨q, J, c, st, hq, -, hloop, hrecs, -⟩ := optimize_loop b s g mi start o o' i p recs h
  obtain ⟨hlen, hrec⟩ := loop_recs b s { g with init := false } (p q) (start0 q (p q) J c) rfl _ st hloop
  rw [hrecs] at hlen hrec
  refine ⟨fun it r hr => ?_, fun r hr e k => ?_, fun it r r' hr hr' e k he hk => ?_⟩
  · have hT : it < (p q).T := by
      rw [← hlen]
      exact (List.getElem?_eq_some_iff.mp hr).1
    obtain ⟨s1, h1⟩ := loop_prefix b s _ (p q) _ _ st hloop it (by omega)
    have e1 := hrec it hT s1 h1
    rw [hr, Option.some.injEq] at e1
    subst e1
    exact ⟨rfl, fun _ => rfl, rfl, fun _ _ => rfl, fun _ _ => rfl⟩
  · have hT : 0 < (p q).T := by
      rw [← hlen]
      exact (List.getElem?_eq_some_iff.mp hr).1
    have e1 := hrec 0 hT _ rfl
    rw [hr, Option.some.injEq] at e1
    subst e1
    exact jDot_zero _ _ _
  · have hT : it + 1 < (p q).T := by
      rw [← hlen]
      exact (List.getElem?_eq_some_iff.mp hr').1
    obtain ⟨s1, h1⟩ := loop_prefix b s _ (p q) _ _ st hloop it (by omega)
    obtain ⟨s2, h2⟩ := loop_prefix b s _ (p q) _ _ st hloop (it + 1) (by omega)
    have e1 := hrec it (by omega) s1 h1
    have e2 := hrec (it + 1) hT s2 h2
    rw [hr, Option.some.injEq] at e1
    rw [hr', Option.some.injEq] at e2
    subst e1 e2
    have hj := loop_J b s _ (p q) _ it s1 s2 h1 h2
    simp only [fillResult, jDot, hj]
    unfold Robot.J
    rw [if_neg (by omega), if_pos (by omega), show (6 + (3 * e + k) - 6) / 3 = e by omega, show (6 + (3 * e + k) - 6) % 3 = k by omega]

/-! ### C136: when `optimize` returns -/

/-- C136, violated: a plan whose first time step has no contact makes `optimize` raise (the flight phase reads local variables that are set in
contact only), whatever the robot. -/
theorem C136_flight_start_violated (b : Body Q nj) (s : Quadprog) (g : Gains) (mi : Nat) (start : Init → Q) (o : Obj Q nj) (i : Init) (p : Q → Plan)
    (hT : ∀ q, 0 < (p q).T) (hf : ∀ q, ¬ InContact b (p q) 0) : optimize b s g mi start o i p = none := by
  by_contra hne
  obtain ⟨⟨o', recs⟩, h⟩ := Option.ne_none_iff_exists'.mp hne
  obtain ⟨q, J, c, st, hq, -, hloop, -⟩ := optimize_loop b s g mi start o o' i p recs h
  obtain ⟨s1, h1⟩ := loop_prefix b s _ (p q) _ _ st hloop 1 (hT q)
  unfold loop at h1
  simp only [loop, Option.bind_some] at h1
  obtain ⟨-, arr, row, am, dq, hm, -⟩ := step_spec b s _ (p q) 0 _ s1 h1
  unfold momRefs at hm
  rw [if_pos ((flight_iff b (p q) 0).mpr (hf q))] at hm
  simp [start0] at hm

/-- C136 (what holds): when the first step has a contact, the weights are nonnegative and at every configuration every momentum is attained by
some velocity (as for a floating base), `optimize` with a known initial configuration returns. -/
theorem C136_returns_partial (b : Body Q nj) (s : Quadprog) (hs : s.Ok) (g : Gains) (hg : g.Nonneg) (mi : Nat) (start : Init → Q) (o : Obj Q nj)
    (i : Init) (p : Q → Plan) (q : Q) (hq : o.qInit = some q) (hc : InContact b (p q) 0)
    (hfull : ∀ (q : Q) (m : Nat → ℝ), ∃ y : Vec (6 + nj), ∀ k, k < 6 → b.rb.Ag q k ⬝ᵥ y = m k) :
    ∃ r, optimize b s g mi start o i p = some r := by
  have hne : b.rb.ne ≠ 0 := by obtain ⟨e, he, -⟩ := hc; omega
  have key : ∀ n, ∃ st, loop b s { g with init := false } (p q) (start0 q (p q) o.J o.cache) n = some st ∧
      (0 < n → st.lref ≠ none ∧ st.momFlight ≠ none) := by
    intro n
    induction n with
    | zero => exact ⟨_, rfl, fun h => absurd h (by omega)⟩
    | succ n ih =>
      obtain ⟨st, hst, hdef⟩ := ih
      have hm : ∃ x, momRefs b (p q) n st = some x := by
        unfold momRefs
        split
        · rename_i hf
          have hn : 0 < n := by
            rcases Nat.eq_zero_or_pos n with h0 | h0
            · subst h0
              exact absurd hc ((flight_iff b (p q) 0).mp hf)
            · exact h0
          obtain ⟨h1, h2⟩ := hdef hn
          obtain ⟨a, ha⟩ := Option.ne_none_iff_exists'.mp h1
          obtain ⟨m, hm⟩ := Option.ne_none_iff_exists'.mp h2
          rw [ha, hm]
          exact ⟨_, rfl⟩
        · exact ⟨_, rfl⟩
      obtain ⟨⟨arr, r, am⟩, hm⟩ := hm
      have hreach : Reach b.rb s (st.cache.forward st.q st.dq) :=
        Reach.step (Reach.fresh (rb := b.rb) (s := s) st.q) (Call.forward st.q st.dq)
      obtain ⟨dq, hdq⟩ : ∃ dq, (compute b.rb s { g with init := false } (st.cache.forward st.q st.dq) st.q st.dq
          (refs b (p q) n st.q (arr r) am)).2 = some dq := by
        refine (C132_ik_optimal b.rb s hs _ hreach { g with init := false } hg st.q st.dq _).2 fun _ => ?_
        obtain ⟨y, hy⟩ := hfull st.q (fun k => if k < 3 then arr r k else am (k - 3))
        refine ⟨y, fun k hk => ⟨?_, ?_⟩⟩
        · rw [hy k (by omega), if_pos hk]; rfl
        · rw [hy (3 + k) (by omega), if_neg (by omega), show 3 + k - 3 = k by omega]; rfl
      have hstep : ∃ st', step b s { g with init := false } (p q) n st = some st' := by
        unfold step
        rw [if_neg hne, hm]
        simp only [hdq]
        exact ⟨_, rfl⟩
      obtain ⟨st', hst'⟩ := hstep
      refine ⟨st', ?_, fun _ => ?_⟩
      · unfold loop
        rw [hst]
        exact hst'
      · obtain ⟨-, arr', r', am', dq', hm', -, -, -, -, hlr, hmf, -⟩ := step_spec b s _ (p q) n st st' hst'
        rw [hlr, hmf]
        refine ⟨by simp, ?_⟩
        split
        · rename_i hf
          have hn : 0 < n := by
            rcases Nat.eq_zero_or_pos n with h0 | h0
            · subst h0
              exact absurd hc ((flight_iff b (p q) 0).mp hf)
            · exact h0
          exact (hdef hn).2
        · simp
  obtain ⟨st, hst, -⟩ := key (p q).T
  unfold optimize
  simp only [hq]
  unfold start0 at hst
  rw [hst]
  exact ⟨_, rfl⟩

/-! ### C137: the copy of the dynamics plan -/

/-- C137, violated: the momentum of the dynamics plan held by the object is changed by a flight phase: with contact at step 0 and none at step 1,
a run over two steps leaves the vertical momentum of step 0 reduced by weight times time step. -/
theorem C137_dynamics_data_violated (b : Body Q nj) (s : Quadprog) (g : Gains) (mi : Nat) (start : Init → Q) (o o' : Obj Q nj) (i : Init)
    (p : Q → Plan) (recs : List (Rec Q nj)) (hT : ∀ q, (p q).T = 2) (h0 : ∀ q, InContact b (p q) 0) (h1 : ∀ q, ¬ InContact b (p q) 1)
    (h : optimize b s g mi start o i p = some (o', recs)) :
    ∃ q, o'.qInit = some q ∧ o'.lmomDyn 0 2 = (p q).lmom 0 2 - (p q).weight * (p q).dt := by
  obtain ⟨q, J, c, st, hq, -, hloop, -, hl, -⟩ := optimize_loop b s g mi start o o' i p recs h
  rw [hT] at hloop
  have := loop_flight b s _ (p q) _ rfl rfl 0 1 (h0 q) (fun j a b' => by rw [show j = 1 by omega]; exact h1 q) _ st rfl hloop
  refine ⟨q, hq, ?_⟩
  rw [hl, this.2.2.2]
  simp

/-- C137 (what holds): after any run, the rows of steps not followed by a flight phase are those of the plan; so are all rows when every step has a contact. -/
theorem C137_dynamics_data_partial (b : Body Q nj) (s : Quadprog) (g : Gains) (mi : Nat) (start : Init → Q) (o o' : Obj Q nj) (i : Init)
    (p : Q → Plan) (recs : List (Rec Q nj)) (h : optimize b s g mi start o i p = some (o', recs)) :
    ∃ q, o'.qInit = some q ∧ ∀ t, (InContact b (p q) t → InContact b (p q) (t + 1) ∨ (p q).T ≤ t + 1) → o'.lmomDyn t = (p q).lmom t := by
  obtain ⟨q, J, c, st, hq, -, hloop, -, hl, -⟩ := optimize_loop b s g mi start o o' i p recs h
  refine ⟨q, hq, fun t ht => ?_⟩
  rw [hl]
  have key : ∀ n st, n ≤ (p q).T → loop b s { g with init := false } (p q) (start0 q (p q) J c) n = some st →
      (∀ r, st.lref = some r → r < n ∧ InContact b (p q) r ∧ ∀ j, r < j → j < n → ¬ InContact b (p q) j) ∧ st.lmomDyn t = (p q).lmom t := by
    intro n
    induction n with
    | zero =>
      intro st _ hst
      simp only [loop, Option.some.injEq] at hst
      subst hst
      exact ⟨fun r h => by simp [start0] at h, rfl⟩
    | succ n ih =>
      intro st hn hst
      obtain ⟨s1, h1⟩ := loop_prefix b s _ (p q) _ _ st hst n (by omega)
      obtain ⟨k1, k2⟩ := ih s1 (by omega) h1
      unfold loop at hst
      rw [h1] at hst
      obtain ⟨-, arr, r, am, dq, hm, -, -, -, harr, hlr, -⟩ := step_spec b s _ (p q) n s1 st hst
      unfold momRefs at hm
      split at hm
      · rename_i hf
        have hf := (flight_iff b (p q) n).mp hf
        split at hm
        · rename_i r' m hr' hm'
          simp only [Option.some.injEq, Prod.mk.injEq] at hm
          obtain ⟨e1, e2, e3⟩ := hm
          obtain ⟨l1, l2, l3⟩ := k1 r' hr'
          refine ⟨fun x hx => ?_, ?_⟩
          · rw [hlr, Option.some.injEq] at hx
            subst hx
            subst e2
            refine ⟨by omega, l2, fun j a b' => ?_⟩
            rcases Nat.lt_or_ge j n with hj | hj
            · exact l3 j a hj
            · rw [show j = n by omega]; exact hf
          · rw [harr, ← e1]
            funext k
            unfold writeFlight
            rw [if_neg, k2]
            intro htr
            subst htr
            rcases ht l2 with h' | h'
            · rcases Nat.lt_or_ge (t + 1) n with hj | hj
              · exact l3 (t + 1) (by omega) hj h'
              · rw [show t + 1 = n by omega] at h'; exact hf h'
            · omega
        · simp at hm
      · rename_i hf
        have hf : InContact b (p q) n := by
          by_contra hc
          exact hf ((flight_iff b (p q) n).mpr hc)
        simp only [Option.some.injEq, Prod.mk.injEq] at hm
        obtain ⟨e1, e2, e3⟩ := hm
        refine ⟨fun x hx => ?_, ?_⟩
        · rw [hlr, Option.some.injEq] at hx
          subst hx
          subst e2
          exact ⟨by omega, hf, fun j a b' => by omega⟩
        · rw [harr, ← e1, k2]
  exact (key _ st (le_refl _) hloop).2

/-! ### C138: histories -/

/-- C138, violated: once an initial configuration is known, the initial state given to `optimize` has no influence on the result. -/
theorem C138_initial_state_violated (b : Body Q nj) (s : Quadprog) (g : Gains) (mi : Nat) (start : Init → Q) (o : Obj Q nj) (q : Q)
    (hq : o.qInit = some q) (i i' : Init) (p : Q → Plan) : optimize b s g mi start o i p = optimize b s g mi start o i' p := by
  unfold optimize
  simp only [hq]

/-- Two loop states with the same visible part; the matrix `J` may differ as long as the velocity is zero. -/
def Same (a c : St Q nj) : Prop :=
  a.q = c.q ∧ a.dq = c.dq ∧ a.lmomDyn = c.lmomDyn ∧ a.lref = c.lref ∧ a.momFlight = c.momFlight ∧ a.recs = c.recs ∧ (a.J = c.J ∨ a.dq = 0)

theorem jDot_same (rb : Robot Q nj) (a c : St Q nj) (h : Same a c) (r : Nat) : jDot rb a.J r a.dq = jDot rb c.J r c.dq := by
  obtain ⟨-, h2, -, -, -, -, h7⟩ := h
  rcases h7 with h | h
  · rw [h, h2]
  · rw [← h2, h, jDot_zero, jDot_zero]

theorem step_same (b : Body Q nj) (s : Quadprog) (g : Gains) (p : Plan) (it : Nat) (a c a' : St Q nj) (h : Same a c)
    (ha : step b s g p it a = some a') : ∃ c', step b s g p it c = some c' ∧ Same a' c' := by
  have hj := jDot_same b.rb a c h
  obtain ⟨h1, h2, h3, h4, h5, h6, -⟩ := h
  obtain ⟨hne, arr, r, am, dq, hm, hsol, x1, x2, x3, x4, x5, x6, x7⟩ := step_spec b s g p it a a' ha
  have hm' : momRefs b p it c = some (arr, r, am) := by
    rw [← hm]
    unfold momRefs
    rw [h1, h3, h4, h5]
  have hreach : Reach b.rb s (c.cache.forward c.q c.dq) :=
    Reach.step (Reach.fresh (rb := b.rb) (s := s) c.q) (Call.forward c.q c.dq)
  obtain ⟨c', hc'⟩ : ∃ c', step b s g p it c = some c' := by
    unfold step
    rw [if_neg hne, hm']
    simp only
    rw [compute_data b.rb s _ hreach, ← h1, hsol]
    exact ⟨_, rfl⟩
  refine ⟨c', hc', ?_⟩
  obtain ⟨-, arr', r', am', dq', hm2, hsol', y1, y2, y3, y4, y5, y6, y7⟩ := step_spec b s g p it c c' hc'
  rw [hm'] at hm2
  simp only [Option.some.injEq, Prod.mk.injEq] at hm2
  obtain ⟨e1, e2, e3⟩ := hm2
  subst e1 e2 e3
  rw [← h1, hsol, Option.some.injEq] at hsol'
  subst hsol'
  refine ⟨by rw [x1, y1, h1], by rw [x2, y2], by rw [x3, y3], by rw [x4, y4], ?_, ?_, Or.inl (by rw [x6, y6, h1])⟩
  · rw [x5, y5, h5]
    simp only [hj]
  · rw [x7, y7, h6]
    have : fillResult b a.J a.q a.dq = fillResult b c.J c.q c.dq := by
      unfold fillResult
      simp only [hj]
      rw [h1, h2]
    rw [this]

theorem loop_same (b : Body Q nj) (s : Quadprog) (g : Gains) (p : Plan) (a c : St Q nj) (h : Same a c) (n : Nat) (a' : St Q nj)
    (ha : loop b s g p a n = some a') : ∃ c', loop b s g p c n = some c' ∧ Same a' c' := by
  induction n generalizing a' with
  | zero =>
    simp only [loop, Option.some.injEq] at ha
    subst ha
    exact ⟨c, rfl, h⟩
  | succ n ih =>
    unfold loop at ha
    obtain ⟨s1, h1, h2⟩ := Option.bind_eq_some_iff.mp ha
    obtain ⟨c1, hc1, hs1⟩ := ih s1 h1
    obtain ⟨c', hc', hs'⟩ := step_same b s g p n s1 c1 a' hs1 h2
    refine ⟨c', ?_, hs'⟩
    unfold loop
    rw [hc1]
    exact hc'

/-- C138 (what holds): nothing else of the past matters: two objects with the same initial configuration compute the same motion, however different
their histories (matrices and data left in them). So in the alternation of dynamics and kinematics the kinematics result depends on the latest dynamics
plan only. -/
theorem C138_history_partial (b : Body Q nj) (s : Quadprog) (g : Gains) (mi : Nat) (start : Init → Q) (o1 o2 : Obj Q nj) (q : Q)
    (h1 : o1.qInit = some q) (h2 : o2.qInit = some q) (i1 i2 : Init) (p : Q → Plan) :
    (optimize b s g mi start o1 i1 p).map (fun x => (x.2, x.1.lmomDyn, x.1.qInit)) =
    (optimize b s g mi start o2 i2 p).map (fun x => (x.2, x.1.lmomDyn, x.1.qInit)) := by
  have aux : ∀ (o1 o2 : Obj Q nj) (i1 i2 : Init) (x : Obj Q nj × List (Rec Q nj)), o1.qInit = some q → o2.qInit = some q →
      optimize b s g mi start o1 i1 p = some x →
      ∃ y, optimize b s g mi start o2 i2 p = some y ∧ y.2 = x.2 ∧ y.1.lmomDyn = x.1.lmomDyn ∧ y.1.qInit = x.1.qInit := by
    intro o1 o2 i1 i2 x h1 h2 hx
    unfold optimize at hx
    simp only [h1] at hx
    split at hx
    · simp at hx
    · rename_i st hst
      simp only [Option.some.injEq] at hx
      subst hx
      obtain ⟨c', hc', hs⟩ := loop_same b s _ (p q) (start0 q (p q) o1.J o1.cache) (start0 q (p q) o2.J o2.cache) ⟨rfl, rfl, rfl, rfl, rfl, rfl, Or.inr rfl⟩ _ st hst
      unfold optimize
      simp only [h2]
      unfold start0 at hc'
      rw [hc']
      obtain ⟨-, -, e3, -, -, e6, -⟩ := hs
      exact ⟨_, rfl, e6.symm, e3.symm, rfl⟩
  rcases hx : optimize b s g mi start o1 i1 p with _ | x
  · rcases hy : optimize b s g mi start o2 i2 p with _ | y
    · rfl
    · obtain ⟨z, hz, -⟩ := aux o2 o1 i2 i1 y h2 h1 hy
      rw [hz] at hx; simp at hx
  · obtain ⟨y, hy, e1, e2, e3⟩ := aux o1 o2 i1 i2 x h1 h2 hx
    rw [hy]
    simp [e1, e2, e3]

/-! ### C140: the initial configuration -/

theorem initLoop_iters (b : Body Q nj) (s : Quadprog) (g : Gains) (i : Init) (n k : Nat) (r r' : InitRes Q nj)
    (h : initLoop b s g i n k r = some r') (hr : r.found = false) :
    (r'.found = false → (n = 0 ∧ r' = r) ∨ (0 < n ∧ r'.iters = some (k + n - 1))) ∧
    (r'.found = true → ∃ q dq, (∑ c, dq c ^ 2 < (1 / 10 ^ 3) ^ 2) ∧ r'.q = b.integ q dq ∧ (∃ ca, (compute b.rb s g ca q 0 (initRefs b i q)).2 = some dq) ∧
      ∃ m, r'.iters = some m ∧ m < k + n) := by
  induction n generalizing k r with
  | zero =>
    simp only [initLoop, Option.some.injEq] at h
    subst h
    exact ⟨fun _ => Or.inl ⟨rfl, rfl⟩, fun hf => by rw [hr] at hf; simp at hf⟩
  | succ n ih =>
    unfold initLoop at h
    simp only at h
    split at h
    · simp at h
    · rename_i dq hdq
      split at h
      · rename_i hn
        simp only [Option.some.injEq] at h
        subst h
        exact ⟨fun hf => by simp at hf, fun _ => ⟨r.q, dq, hn, rfl, ⟨r.cache, hdq⟩, k, rfl, by omega⟩⟩
      · obtain ⟨a, c⟩ := ih (k + 1) _ h rfl
        refine ⟨fun hf => ?_, fun hf => ?_⟩
        · rcases a hf with ⟨h0, h1⟩ | ⟨h0, h1⟩
          · subst h0 h1
            exact Or.inr ⟨by omega, by simp⟩
          · refine Or.inr ⟨by omega, ?_⟩
            rw [h1]
            congr 1
            omega
        · obtain ⟨q, dq', e1, e2, e3, m, e4, e5⟩ := c hf
          exact ⟨q, dq', e1, e2, e3, m, e4, by omega⟩

theorem initLoop_reach (b : Body Q nj) (s : Quadprog) (g : Gains) (i : Init) (n k : Nat) (r r' : InitRes Q nj) (h : initLoop b s g i n k r = some r')
    (hr : r.found = false) (hc : Reach b.rb s r.cache) (hf : r'.found = true) :
    ∃ q dq, (∑ c, dq c ^ 2 < (1 / 10 ^ 3) ^ 2) ∧ r'.q = b.integ q dq ∧ b.rb.solve s g q q (initRefs b i q) = some dq := by
  induction n generalizing k r with
  | zero =>
    simp only [initLoop, Option.some.injEq] at h
    subst h
    rw [hr] at hf; simp at hf
  | succ n ih =>
    unfold initLoop at h
    simp only at h
    split at h
    · simp at h
    · rename_i dq hdq
      split at h
      · rename_i hn
        simp only [Option.some.injEq] at h
        subst h
        exact ⟨r.q, dq, hn, rfl, by rw [← compute_data b.rb s r.cache hc g r.q 0, hdq]⟩
      · exact ih (k + 1) _ h rfl (Reach.step hc (Call.compute g r.q 0 (initRefs b i r.q)))

/-- The references while the initial configuration is searched: the given center of mass and end-effector positions, everything at rest, all end-effectors in contact, and an angular
momentum of a tenth of the rotation that levels the base. -/
noncomputable def levelRef (b : Body Q nj) (i : Init) (q : Q) : Ref :=
  ⟨i.com, fun _ => 0, fun k => b.ori (fun _ => 0) q k / 10, i.pos, fun _ _ => 0, fun _ => true, none, false⟩

/-- C140 (what holds): when "Found initial configuration" was printed, the returned configuration was reached by a step shorter than 1e-3, and this step is the unique best tracking
velocity for the given center of mass and end-effector positions; when it was not, "Failed to converge" was printed. -/
theorem C140_initial_partial (b : Body Q nj) (s : Quadprog) (hs : s.Ok) (g : Gains) (hg : g.Nonneg) (mi : Nat) (i : Init) (q0 : Q) (c : Cache Q nj)
    (hc : Reach b.rb s c) (J : Option Q) (r : InitRes Q nj) (failed : Bool) (h : initPos b s g mi i q0 c J = some (r, failed)) :
    (r.found = true → ∃ q dq, (∑ c, dq c ^ 2 < (1 / 10 ^ 3) ^ 2) ∧ r.q = b.integ q dq ∧ IkSol b.rb g q (levelRef b i q) dq) ∧
    (r.found = false → failed = true) := by
  unfold initPos at h
  split at h
  · simp at h
  · rename_i r1 hr1
    split at h
    · simp at h
    · rename_i k hk
      simp only [Option.some.injEq, Prod.mk.injEq] at h
      obtain ⟨rfl, rfl⟩ := h
      obtain ⟨h1, -⟩ := initLoop_iters b s g i mi 0 _ r1 hr1 rfl
      refine ⟨fun hf => ?_, fun hf => ?_⟩
      · obtain ⟨q, dq, e1, e2, e3⟩ := initLoop_reach b s g i mi 0 _ r1 hr1 rfl hc hf
        have e : levelRef b i q = initRefs b i q := by
          unfold levelRef initRefs
          congr 1
          funext k
          ring
        exact ⟨q, dq, e1, e2, by rw [e]; exact (solve_ok b.rb s hs g hg q _).1 dq e3⟩
      · rcases h1 hf with ⟨h0, e⟩ | ⟨h0, e⟩
        · rw [e] at hk; simp at hk
        · rw [e, Option.some.injEq] at hk
          simp only [decide_eq_true_eq]
          omega

/-- C140, violated: with a budget of one iteration, "Failed to converge" is printed also when the configuration was found. -/
theorem C140_failed_though_found_violated (b : Body Q nj) (s : Quadprog) (g : Gains) (i : Init) (q0 : Q) (c : Cache Q nj) (J : Option Q)
    (dq : Vec (6 + nj)) (h : (compute b.rb s g c q0 0 (initRefs b i q0)).2 = some dq) (hn : ∑ c, dq c ^ 2 < (1 / 10 ^ 3) ^ 2) :
    ∃ r, initPos b s g 1 i q0 c J = some (r, true) ∧ r.found = true := by
  unfold initPos initLoop
  simp only [h, if_pos hn]
  exact ⟨_, rfl, rfl⟩

/-- C140, violated: with no iterations the method raises (`iters` is unbound). -/
theorem C140_no_iterations_violated (b : Body Q nj) (s : Quadprog) (g : Gains) (i : Init) (q0 : Q) (c : Cache Q nj) (J : Option Q) :
    initPos b s g 0 i q0 c J = none := rfl

end PyMko
end Verif
