import Verif.Swing

/-! C241 (swing trajectories, from the contact plan to the states of the sequence) and C242 (what a swing trajectory depends on). -/
namespace Verif
namespace Swing
open Cont

/-! ### one phase -/

theorem clock_eq (dt : Nat → ℝ) (t : Nat) : Traj.mapTime dt (t + 1) = clock dt t := Traj.mapTime_eq dt (t + 1)

theorem clock_pos {dt : Nat → ℝ} (h : ∀ t, 0 < dt t) (t : Nat) : 0 < clock dt t := Finset.sum_pos (fun i _ => h i) ⟨0, by simp⟩

theorem clock_mono {dt : Nat → ℝ} (h : ∀ t, 0 < dt t) {s t : Nat} (hst : s ≤ t) : clock dt s ≤ clock dt t :=
  Finset.sum_le_sum_of_subset_of_nonneg (Finset.range_subset_range.2 (by omega)) fun i _ _ => (h i).le

theorem clock_lt {dt : Nat → ℝ} (h : ∀ t, 0 < dt t) {s t : Nat} (hst : s < t) : clock dt s < clock dt t :=
  lt_of_lt_of_le (by unfold clock; rw [Finset.sum_range_succ _ (s + 1)]; linarith [h (s + 1)]) (clock_mono h (show s + 1 ≤ t from hst))

open Polynomial in
theorem poly_degree (p : Traj.Interp) (h : 0 < p.size) : p.poly.natDegree < p.size := by
  have : p.poly.natDegree ≤ p.size - 1 := natDegree_sum_le_of_forall_le _ _ fun i hi =>
    (natDegree_C_mul_X_pow_le _ _).trans (by have := Finset.mem_range.1 hi; omega)
  omega

/-- A phase of at least two steps is a swing. -/
theorem fly_swings (env : Env) (hq : env.qr.Exact) (hdt : ∀ t, 0 < env.dt t) (l : Leg) (h : l.start < l.fin) (st : St) (r : Nat → Foot)
    (hr : ∀ t, l.start ≤ t → t ≤ l.fin → r t = (fly env l st).2 t) : Swings env.dt env.vias l.start l.fin l.id l.p0 l.p1 l.q0 l.q1 r := by
  have hlt := clock_lt hdt h
  set via := Traj.findActiveViapoint st.1 env.vias l.id with hvia
  have hT := fun d => Traj.C53_trajectory env.qr hq (clock env.dt l.start) (l.p0 d) (clock env.dt l.fin) (l.p1 d) (via d) hlt.ne
  let tr := fun d => Traj.initTraj env.qr (clock env.dt l.start) (l.p0 d) (clock env.dt l.fin) (l.p1 d) (via d)
  have hpose : ∀ t, l.start ≤ t → t ≤ l.fin → r t = ⟨(st.2 t).act, fun d => Traj.position (tr d) (clock env.dt t), fun d => Traj.velocity (tr d) (clock env.dt t),
      fun d => Traj.acceleration (tr d) (clock env.dt t), Slerp.slerp l.q0 l.q1 (ContactPlan.queryTime l.start l.fin t)⟩ := by
    intro t h1 h2
    rw [hr t h1 h2]
    simp only [fly, Traj.flightPhase, if_pos (And.intro h1 h2), clock_eq, Traj.initTraj3]
    rfl
  have hqt : ∀ d x, clock env.dt l.start ≤ x → x ≤ clock env.dt l.fin → Traj.queryTime (tr d) x = x := by
    intro d x h1 h2
    have n1 := Traj.query_node env.qr [(clock env.dt l.start, l.p0 d), (0.5 * (clock env.dt l.start + clock env.dt l.fin), via d), (clock env.dt l.fin, l.p1 d)]
      [(clock env.dt l.start, 0), (clock env.dt l.fin, 0)] [(clock env.dt l.start, 0), (clock env.dt l.fin, 0)] (clock env.dt l.start) (l.p0 d) (by simp)
    have n2 := Traj.query_node env.qr [(clock env.dt l.start, l.p0 d), (0.5 * (clock env.dt l.start + clock env.dt l.fin), via d), (clock env.dt l.fin, l.p1 d)]
      [(clock env.dt l.start, 0), (clock env.dt l.fin, 0)] [(clock env.dt l.start, 0), (clock env.dt l.fin, 0)] (clock env.dt l.fin) (l.p1 d) (by simp)
    change Traj.queryTime (tr d) _ = _ at n1 n2
    unfold Traj.queryTime at *
    generalize (tr d).lo = lo at *
    generalize (tr d).hi = hi at *
    have hlo : lo ≤ x := by
      have : min (max (clock env.dt l.start) lo) hi ≤ max (clock env.dt l.start) lo := min_le_left _ _
      by_contra hx
      push Not at hx
      have e1 : max (clock env.dt l.start) lo = lo := max_eq_right (by linarith)
      rw [e1] at n1
      have e2 : hi = clock env.dt l.start := by
        rcases le_total lo hi with hh | hh
        · rw [min_eq_left hh] at n1; linarith
        · rw [min_eq_right hh] at n1; exact n1
      have : min (max (clock env.dt l.fin) lo) hi ≤ hi := min_le_right _ _
      rw [n2, e2] at this; linarith
    have hhi : x ≤ hi := by
      have : min (max (clock env.dt l.fin) lo) hi ≤ hi := min_le_right _ _
      rw [n2] at this; linarith
    rw [max_eq_left hlo, min_eq_left hhi]
  have hP : ∀ d x, clock env.dt l.start ≤ x → x ≤ clock env.dt l.fin → Traj.position (tr d) x = some ((tr d).poly.eval x) := fun d x h1 h2 => by
    rw [Traj.position_eq, hqt d x h1 h2]
  have h0 : ∀ x, clock env.dt l.start ≤ x → x ≠ 0 := fun x hx => (lt_of_lt_of_le (clock_pos hdt _) hx).ne'
  have hV : ∀ d x, clock env.dt l.start ≤ x → x ≤ clock env.dt l.fin → Traj.velocity (tr d) x = some ((tr d).poly.derivative.eval x) := fun d x h1 h2 => by
    rw [Traj.velocity_eq _ _ (by rw [hqt d x h1 h2]; exact h0 x h1), hqt d x h1 h2]
  have hA : ∀ d x, clock env.dt l.start ≤ x → x ≤ clock env.dt l.fin → Traj.acceleration (tr d) x = some ((tr d).poly.derivative.derivative.eval x) := fun d x h1 h2 => by
    rw [Traj.acceleration_eq _ _ (by rw [hqt d x h1 h2]; exact h0 x h1), hqt d x h1 h2]
  refine ⟨⟨fun d => (tr d).poly, ?_, ?_, ?_⟩, ?_, ?_, ?_⟩
  · intro t h1 h2 d
    rw [hpose t h1 h2]
    exact ⟨hP d _ (clock_mono hdt h1) (clock_mono hdt h2), hV d _ (clock_mono hdt h1) (clock_mono hdt h2), hA d _ (clock_mono hdt h1) (clock_mono hdt h2)⟩
  · intro d
    obtain ⟨t1, t2, t3, t4, t5⟩ := hT d
    change Traj.position (tr d) _ = _ at t1
    change Traj.position (tr d) _ = _ at t3
    obtain ⟨t4, t4'⟩ := t4 (h0 _ le_rfl)
    obtain ⟨t5, t5'⟩ := t5 (h0 _ hlt.le)
    change Traj.velocity (tr d) _ = _ at t4
    change Traj.velocity (tr d) _ = _ at t5
    change Traj.acceleration (tr d) _ = _ at t4'
    change Traj.acceleration (tr d) _ = _ at t5'
    rw [hP d _ le_rfl hlt.le] at t1
    rw [hP d _ hlt.le le_rfl] at t3
    rw [hV d _ le_rfl hlt.le] at t4
    rw [hV d _ hlt.le le_rfl] at t5
    rw [hA d _ le_rfl hlt.le] at t4'
    rw [hA d _ hlt.le le_rfl] at t5'
    exact ⟨poly_degree (tr d) (by show 0 < 3 + 2 + 2; omega), Option.some.inj t1, Option.some.inj t3, Option.some.inj t4, Option.some.inj t5, Option.some.inj t4',
      Option.some.inj t5'⟩
  · intro v hv d
    have h2 := (hT d).2.1
    change Traj.position (tr d) _ = _ at h2
    rw [hP d _ (by linarith) (by linarith)] at h2
    rw [Option.some.inj h2, hvia, Traj.findActiveViapoint, hv]
  · rw [hpose _ le_rfl h.le]
    rw [(ContactPlan.C81_swing_orientation l.start l.fin).1]
    exact (Slerp.C239_ends l.q0 l.q1).1
  · rw [hpose _ h.le le_rfl]
    rw [((ContactPlan.C81_swing_orientation l.start l.fin).2.2.2.1 l.fin h.le le_rfl).2 (by omega)]
    exact (Slerp.C239_ends l.q0 l.q1).2.2
  · intro t h1 h2
    rw [hpose t h1 h2]; rfl

/-! ### one end-effector -/

/-- The states of an end-effector after its trajectories were generated: during contacts it stays at the contact, between two contacts it swings from one to the other, before the first one it comes from its
initial pose, after the last one it goes to its initial pose, shifted by the planned motion of the center of mass. Phases of a single step are not covered (see C82). -/
structure Planned (T : Nat) (dt : Nat → ℝ) (vias : List (Int × V)) (cs : List Contact) (ivs : List (Nat × Nat)) (home : Home) (com : V) (feet r : Nat → Foot) : Prop where
  act : ∀ t, (r t).act = (feet t).act
  stay : ∀ t, (∃ iv ∈ ivs, iv.1 ≤ t ∧ t < iv.2) → r t = feet t
  first : ∀ c iv, cs[0]? = some c → ivs[0]? = some iv → 1 < iv.1 → Swings dt vias 0 (iv.1 - 1) (-1) home.pos c.pos home.ori c.ori r
  between : ∀ (k : Nat) c c' iv iv', cs[k]? = some c → cs[k + 1]? = some c' → ivs[k]? = some iv → ivs[k + 1]? = some iv' → iv.2 + 1 < iv'.1 →
    Swings dt vias iv.2 (iv'.1 - 1) k c.pos c'.pos c.ori c'.ori r
  last : ∀ c iv, cs.getLast? = some c → ivs.getLast? = some iv → iv.2 + 1 < T →
    Swings dt vias iv.2 (T - 1) ((cs.length : Int) - 1) c.pos (fun d => home.pos d + com d) c.ori home.ori r

theorem getD_of {α : Type} {l : List α} {i : Nat} {c d : α} (h : l[i]? = some c) : l.getD i d = c := by
  rw [List.getD_eq_getElem?_getD, h]; rfl

theorem effector_planned (T : Nat) (env : Env) (hq : env.qr.Exact) (hdt : ∀ t, 0 < env.dt t) (cs : List Contact) (home : Home) (com : V) (st : St) (ivs : List (Nat × Nat))
    (hne : ivs ≠ []) (hlen : cs.length = ivs.length) (hsep : ContactPlan.Separated T 0 ivs) (hact : ContactPlan.ActiveOn T st.act ivs)
    (hini : home.act = true ↔ ∃ iv, ivs[0]? = some iv ∧ iv.1 = 0) :
    ∃ st', effector T env cs home com st = some st' ∧ Planned T env.dt env.vias cs ivs home com st.2 st'.2 := by
  obtain ⟨⟨a, b⟩, r, rfl⟩ := List.exists_cons_of_ne_nil hne
  obtain ⟨c0, hc0⟩ : ∃ c, cs[0]? = some c := ⟨cs[0]'(by simp at hlen; omega), List.getElem?_eq_getElem _⟩
  have hini' : home.act = decide (a = 0) := by
    rw [Bool.eq_iff_iff, hini]; simp
  refine ⟨_, effector_legs T env cs home com c0 st a b r (by simpa using hlen) hsep hact hini', ?_⟩
  obtain ⟨s1, s2⟩ := allLegs_spec T cs home com c0 a b r hsep
  obtain ⟨m1, m2⟩ := mem_legs T cs home com c0 r 0 b a
  have hin : ∀ l ∈ allLegs T cs home com c0 a b r, l.start < l.fin →
      Swings env.dt env.vias l.start l.fin l.id l.p0 l.p1 l.q0 l.q1 (flyAll env (allLegs T cs home com c0 a b r) st).2 := by
    intro l hl hlt
    obtain ⟨old, ho⟩ := flyAll_in env _ st s2 (fun l hl => (s1 l hl).1) l hl
    exact fly_swings env hq hdt l hlt old _ ho
  refine ⟨fun t => congrFun (flyAll_act env _ st) t, ?_, ?_, ?_, ?_⟩
  · rintro t ⟨iv, hiv, h1, h2⟩
    exact flyAll_out _ _ _ _ fun l hl => (s1 l hl).2.2 iv hiv t h1 h2
  · intro c iv hc hiv h1
    simp at hiv; subst hiv
    simp only at h1
    have := hin ⟨0, a - 1, -1, home.pos, (cs.getD 0 c0).pos, home.ori, (cs.getD 0 c0).ori⟩ (by rw [allLegs, if_pos (by omega)]; simp) (by simp only; omega)
    rw [getD_of hc] at this
    exact this
  · intro k c c' iv iv' hc hc' hiv hiv' hlt
    have hm := m1 k iv iv' hiv hiv'
    rw [Nat.zero_add, getD_of hc, getD_of hc'] at hm
    exact hin _ (by rw [allLegs]; exact List.mem_append_right _ hm) (by simp only; omega)
  · intro c iv hc hiv hlt
    have hm := m2 iv hiv (by omega)
    have hl : 0 + r.length = cs.length - 1 := by simp at hlen; omega
    rw [List.getLast?_eq_getElem?] at hc
    rw [hl, getD_of hc] at hm
    have := hin _ (by rw [allLegs]; exact List.mem_append_right _ hm) (by simp only; omega)
    simp only at this
    rw [show ((cs.length - 1 : Nat) : Int) = (cs.length : Int) - 1 by simp at hlen; omega] at this
    exact this

/-! ### all end-effectors -/

theorem loop_spec (i : Input) : ∀ (r e : Nat) (st : V × (Nat → Nat → Foot)),
    (∀ k, e ≤ k → k < e + r → ∀ v, effector i.T ⟨i.qr, i.dt, i.vias k⟩ (i.cs k) (i.home k) i.com (v, st.2 k) ≠ none) →
    ∃ st', loop i r e st = some st' ∧ (∀ k, (k < e ∨ e + r ≤ k) → st'.2 k = st.2 k) ∧
      ∀ k, e ≤ k → k < e + r → ∃ v p, effector i.T ⟨i.qr, i.dt, i.vias k⟩ (i.cs k) (i.home k) i.com (v, st.2 k) = some p ∧ st'.2 k = p.2 := by
  intro r
  induction r with
  | zero => intro e st _; exact ⟨st, rfl, fun k _ => rfl, fun k h1 h2 => by omega⟩
  | succ r ih =>
    intro e st hs
    obtain ⟨p, hp⟩ := Option.ne_none_iff_exists'.1 (hs e le_rfl (by omega) st.1)
    have hv : visit i e st = some (p.1, Function.update st.2 e p.2) := by
      unfold visit; rw [hp]; rfl
    obtain ⟨st', h1, h2, h3⟩ := ih (e + 1) (p.1, Function.update st.2 e p.2) (fun k hk1 hk2 v => by
      rw [show ((p.1, Function.update st.2 e p.2) : V × (Nat → Nat → Foot)).2 k = st.2 k from Function.update_of_ne (by omega) _ _]
      exact hs k (by omega) (by omega) v)
    refine ⟨st', by rw [loop, hv]; exact h1, fun k hk => ?_, fun k hk1 hk2 => ?_⟩
    · rw [h2 k (by omega)]; exact Function.update_of_ne (by omega) _ _
    · by_cases hke : k = e
      · subst hke
        refine ⟨st.1, p, hp, ?_⟩
        rw [h2 k (by omega)]; exact Function.update_self ..
      · obtain ⟨v, q, h4, h5⟩ := h3 k (by omega) (by omega)
        refine ⟨v, q, ?_, h5⟩
        rw [show ((p.1, Function.update st.2 e p.2) : V × (Nat → Nat → Foot)).2 k = st.2 k from Function.update_of_ne hke _ _] at h4
        exact h4

/-- The states of all end-effectors in a filled sequence (`vel`, `acc`: whatever is stored there). -/
noncomputable def feetOf (q : ContactPlan.Seq V Quat) (vel acc : Nat → Nat → V) : Nat → Nat → Foot :=
  fun e t => ⟨(q.slot t e).active, fun d => some ((q.slot t e).pos d), fun d => some (vel e t d), fun d => some (acc e t d), (q.slot t e).ori⟩

theorem filled_pose (n : Nat) (s : Dyn.DSet) (cs : Nat → List Contact) (q : ContactPlan.Seq V Quat) (t e : Nat) (ht : t < s.T) (he : e < n) (c : Contact)
    (hc : DynPlan.Carries cs s.step t e c) : ((DynPlan.filled n s cs q).slot t e).pos = c.pos ∧ ((DynPlan.filled n s cs q).slot t e).ori = c.ori := by
  obtain ⟨h1, h2, h3⟩ := ContactPlan.fillFrom_spec s.T s.step ((cs e).map DynPlan.entry) 0 ((fun t => q.slot t e), 0)
  have hs : (DynPlan.filled n s cs q).slot t e = (ContactPlan.fillFrom s.T s.step 0 ((cs e).map DynPlan.entry) ((fun t => q.slot t e), 0)).1 t := by
    rw [DynPlan.filled, ContactPlan.fill_slot, if_pos he]
  obtain ⟨c', hc', hcov⟩ := DynPlan.exists_carries.1 ⟨c, hc⟩
  obtain ⟨j, d, hj, hd, hmax, h4⟩ := h3 t ht ⟨DynPlan.entry c', List.mem_map.2 ⟨c', hc', rfl⟩, hcov⟩
  rw [List.getElem?_map, Option.map_eq_some_iff] at hj
  obtain ⟨d', hj', rfl⟩ := hj
  have hd' : DynPlan.Carries cs s.step t e d' := ⟨j, hj', hd, fun k g hk hg => hmax k (DynPlan.entry g) (by rw [List.getElem?_map, hk]; rfl) hg⟩
  rw [DynPlan.carries_unique hc hd', hs, h4]
  exact ⟨rfl, rfl⟩

theorem timed_active {T : Nat} {step : ℝ} {cs : List Contact} {ivs : List (Nat × Nat)} (h : Timed T step cs ivs) (t : Nat) (ht : t < T) :
    (∃ c ∈ cs, DynPlan.InTime step c t) ↔ ∃ p ∈ ivs, p.1 ≤ t ∧ t < p.2 := by
  have h1 := h.1
  clear h
  induction h1 with
  | nil => simp
  | cons hc _ ih => simp only [List.mem_cons, exists_eq_or_imp, ih, hc t ht]

theorem timed_carries {T : Nat} {step : ℝ} {cs : Nat → List Contact} {e : Nat} {ivs : List (Nat × Nat)} (h : Timed T step (cs e) ivs) (k : Nat) (c : Contact) (iv : Nat × Nat)
    (hc : (cs e)[k]? = some c) (hiv : ivs[k]? = some iv) (t : Nat) (h1 : iv.1 ≤ t) (h2 : t < iv.2) : DynPlan.Carries cs step t e c := by
  obtain ⟨hf, hs⟩ := h
  have hget : ∀ (j : Nat) (d : Contact) (jv : Nat × Nat), (cs e)[j]? = some d → ivs[j]? = some jv → ∀ t < T, DynPlan.InTime step d t ↔ jv.1 ≤ t ∧ t < jv.2 := by
    intro j d jv hd hj
    obtain ⟨l1, rfl⟩ := List.getElem?_eq_some_iff.1 hd
    obtain ⟨l2, rfl⟩ := List.getElem?_eq_some_iff.1 hj
    exact (List.forall₂_iff_get.1 hf).2 j l1 l2
  have hT := (ContactPlan.sep_ge T ivs 0 hs iv (List.mem_of_getElem? hiv)).2.2
  refine ⟨k, hc, (hget k c iv hc hiv t (by omega)).2 ⟨h1, h2⟩, fun j d hd hin => ?_⟩
  have hjl : j < ivs.length := by rw [← hf.length_eq]; exact (List.getElem?_eq_some_iff.1 hd).1
  have hj := (hget j d ivs[j] hd (List.getElem?_eq_getElem hjl) t (by omega)).1 hin
  by_contra hlt
  push Not at hlt
  have hp := ContactPlan.sep_pairwise T ivs 0 hs
  obtain ⟨l2, he⟩ := List.getElem?_eq_some_iff.1 hiv
  have := List.pairwise_iff_getElem.1 hp k j l2 hjl hlt
  rw [he] at this
  omega

/-- C241: generating the trajectories of a filled sequence. Let every end-effector with contacts have contacts whose time spans cover successive ranges of steps with a step in the air between them, and an initial
state that is in contact exactly if its first contact starts with the first step. Then, whatever the via point variable holds, no state outside of the sequence is read; at every step of a contact the end-effector
is where the contact is; in between it swings from contact to contact as described by `Swings`; end-effectors without contacts are left alone. Without `LoadKinematics` nothing is changed. -/
theorem C241_swing (i : Input) (s : Dyn.DSet) (hs : s.T = i.T) (q : ContactPlan.Seq V Quat) (vel acc : Nat → Nat → V) (via0 : V) (hfresh : DynPlan.Fresh q) (hq : i.qr.Exact)
    (hdt : ∀ t, 0 < i.dt t) (ivs : Nat → List (Nat × Nat)) (htimed : ∀ e < i.n, Timed i.T s.step (i.cs e) (ivs e))
    (hini : ∀ e < i.n, i.cs e ≠ [] → ((i.home e).act = true ↔ ∃ iv, (ivs e)[0]? = some iv ∧ iv.1 = 0)) :
    let feet := feetOf (DynPlan.filled i.n s i.cs q) vel acc
    ∃ r, update i via0 feet = some r ∧ (i.kin = false → r = feet) ∧
      (∀ e, i.n ≤ e ∨ i.cs e = [] → r e = feet e) ∧
      (i.kin = true → ∀ e < i.n, i.cs e ≠ [] → Planned i.T i.dt (i.vias e) (i.cs e) (ivs e) (i.home e) i.com (feet e) (r e)) ∧
      (∀ e < i.n, ∀ (k : Nat) c iv, (i.cs e)[k]? = some c → (ivs e)[k]? = some iv → ∀ t, iv.1 ≤ t → t < iv.2 →
        (∀ d, (r e t).pos d = some (c.pos d)) ∧ (r e t).ori = c.ori ∧ (∀ d, (r e t).vel d = some (vel e t d)) ∧ (∀ d, (r e t).acc d = some (acc e t d))) := by
  intro feet
  have hact : ∀ e < i.n, ContactPlan.ActiveOn i.T (fun t => (feet e t).act) (ivs e) := by
    intro e he t ht
    rw [← timed_active (htimed e he) t ht, ← DynPlan.exists_carries (cs := i.cs)]
    exact DynPlan.active_iff i.n s i.cs q (fun _ _ => ⟨false, 0, .free, 0, 0, 0, 0, ⟨0, 0, 0, 0⟩⟩) ⟨0, 0, 0, fun _ => false, 0, fun _ => ⟨0, 0, 0, 0⟩, 0⟩ hfresh t e
      (by omega) he
  have hstay : ∀ e < i.n, ∀ (k : Nat) c iv, (i.cs e)[k]? = some c → (ivs e)[k]? = some iv → ∀ t, iv.1 ≤ t → t < iv.2 →
      (∀ d, (feet e t).pos d = some (c.pos d)) ∧ (feet e t).ori = c.ori ∧ (∀ d, (feet e t).vel d = some (vel e t d)) ∧ (∀ d, (feet e t).acc d = some (acc e t d)) := by
    intro e he k c iv hc hiv t h1 h2
    have hT := (ContactPlan.sep_ge i.T (ivs e) 0 (htimed e he).2 iv (List.mem_of_getElem? hiv)).2.2
    obtain ⟨p1, p2⟩ := filled_pose i.n s i.cs q t e (by omega) he c (timed_carries (htimed e he) k c iv hc hiv t h1 h2)
    exact ⟨fun d => congrArg some (congrFun p1 d), p2, fun _ => rfl, fun _ => rfl⟩
  by_cases hk : i.kin = true
  · have heff : ∀ e < i.n, ∀ v, i.cs e ≠ [] → ∃ st', effector i.T ⟨i.qr, i.dt, i.vias e⟩ (i.cs e) (i.home e) i.com (v, feet e) = some st' ∧
        Planned i.T i.dt (i.vias e) (i.cs e) (ivs e) (i.home e) i.com (feet e) st'.2 := by
      intro e he v hne
      have hlen := (htimed e he).1.length_eq
      exact effector_planned i.T ⟨i.qr, i.dt, i.vias e⟩ hq hdt (i.cs e) (i.home e) i.com (v, feet e) (ivs e) (by rintro h; rw [h] at hlen; exact hne (List.length_eq_zero_iff.1 hlen)) hlen
        (htimed e he).2 (hact e he) (hini e he hne)
    have hempty : ∀ e v, i.cs e = [] → effector i.T ⟨i.qr, i.dt, i.vias e⟩ (i.cs e) (i.home e) i.com (v, feet e) = some (v, feet e) := by
      intro e v h; unfold effector; rw [if_pos h]
    obtain ⟨st', l1, l2, l3⟩ := loop_spec i i.n 0 (via0, feet) (fun k _ hk v => by
      by_cases hne : i.cs k = []
      · rw [hempty k v hne]; simp
      · obtain ⟨p, hp, _⟩ := heff k (by omega) v hne
        rw [hp]; simp)
    have hr : ∀ e < i.n, i.cs e ≠ [] → Planned i.T i.dt (i.vias e) (i.cs e) (ivs e) (i.home e) i.com (feet e) (st'.2 e) := by
      intro e he hne
      obtain ⟨v, p, h1, h2⟩ := l3 e (by omega) (by omega)
      obtain ⟨p', h3, h4⟩ := heff e he v hne
      rw [h3] at h1
      rw [h2, ← Option.some.inj h1]; exact h4
    refine ⟨st'.2, by simp only [update, if_pos hk, l1, Option.map_some], (fun h => by rw [hk] at h; cases h), fun e he => ?_, fun _ => hr, ?_⟩
    · rcases Nat.lt_or_ge e i.n with hlt | hge
      · obtain ⟨v, p, h1, h2⟩ := l3 e (by omega) (by omega)
        rcases he with he | he
        · omega
        · rw [hempty e v he] at h1
          rw [h2, ← Option.some.inj h1]
      · exact l2 e (by omega)
    · intro e he k c iv hc hiv t h1 h2
      have hne : i.cs e ≠ [] := by rintro h; rw [h] at hc; simp at hc
      rw [(hr e he hne).stay t ⟨iv, List.mem_of_getElem? hiv, h1, h2⟩]
      exact hstay e he k c iv hc hiv t h1 h2
  · exact ⟨feet, by rw [update, if_neg hk], fun _ => rfl, fun _ _ => rfl, fun h => absurd h hk, hstay⟩

/-! ### what a trajectory depends on -/

/-- Every phase of the end-effector has a via point: those before, between and after its contacts. -/
def HasVias (vias : List (Int × V)) (m : Nat) : Prop := ∀ id : Int, -1 ≤ id → id < m → ∃ v, vias.find? (fun q => q.1 == id) = some (id, v)

theorem fly_own (env : Env) (l : Leg) (st st' : St) (h : st.2 = st'.2) (v : V) (hv : env.vias.find? (fun q => q.1 == l.id) = some (l.id, v)) : fly env l st = fly env l st' := by
  have e1 : ∀ w, Traj.findActiveViapoint w env.vias l.id = v := fun w => by rw [Traj.findActiveViapoint, hv]
  simp only [fly, e1, h]

theorem mid_own (T : Nat) (env : Env) (cs : List Contact) (hv : HasVias env.vias cs.length) : ∀ (k i e : Nat) (st st' : St), st.2 = st'.2 → i + k < cs.length →
    (mid T env cs k i e st).map (fun p => (p.1, p.2.2)) = (mid T env cs k i e st').map (fun p => (p.1, p.2.2)) := by
  intro k
  induction k with
  | zero => intro i e st st' h _; simp [mid, h]
  | succ k ih =>
    intro i e st st' h hi
    have ha : st.act = st'.act := by funext t; simp only [St.act, h]
    simp only [mid, ha, Option.bind_eq_bind]
    cases ContactPlan.findBreak T st'.act e with
    | none => rfl
    | some b =>
      simp only [Option.bind_some]
      cases ContactPlan.findMake T st'.act b with
      | none => rfl
      | some m =>
        simp only [Option.bind_some]
        cases cs[i]? with
        | none => rfl
        | some c =>
          simp only [Option.bind_some]
          cases cs[i + 1]? with
          | none => rfl
          | some c' =>
            simp only [Option.bind_some]
            obtain ⟨v, hv'⟩ := hv (i : Int) (by omega) (by omega)
            rw [fly_own env ⟨b, m, i, c.pos, c'.pos, c.ori, c'.ori⟩ st st' h v hv']

theorem effector_own (T : Nat) (env : Env) (cs : List Contact) (home : Home) (com : V) (hv : HasVias env.vias cs.length) (st st' : St) (h : st.2 = st'.2) :
    (effector T env cs home com st).map Prod.snd = (effector T env cs home com st').map Prod.snd := by
  have tail : ∀ (k e : Nat) (s s' : St), s.2 = s'.2 → k < cs.length →
      ((mid T env cs k 0 e s).bind fun p => if T = 0 then none else if p.2.act (T - 1) then some p.2 else
        (ContactPlan.findBreak T p.2.act p.1).bind fun b => cs.getLast?.bind fun c =>
          some (fly env ⟨b, T - 1, (cs.length : Int) - 1, c.pos, fun d => home.pos d + com d, c.ori, home.ori⟩ p.2)).map Prod.snd =
      ((mid T env cs k 0 e s').bind fun p => if T = 0 then none else if p.2.act (T - 1) then some p.2 else
        (ContactPlan.findBreak T p.2.act p.1).bind fun b => cs.getLast?.bind fun c =>
          some (fly env ⟨b, T - 1, (cs.length : Int) - 1, c.pos, fun d => home.pos d + com d, c.ori, home.ori⟩ p.2)).map Prod.snd := by
    intro k e s s' hss hk
    have hm := mid_own T env cs hv k 0 e s s' hss (by omega)
    cases h1 : mid T env cs k 0 e s with
    | none =>
      rw [h1] at hm
      cases h2 : mid T env cs k 0 e s' with
      | none => rfl
      | some p => rw [h2] at hm; simp at hm
    | some p =>
      rw [h1] at hm
      cases h2 : mid T env cs k 0 e s' with
      | none => rw [h2] at hm; simp at hm
      | some p' =>
        rw [h2] at hm
        simp only [Option.map_some, Option.some.injEq, Prod.mk.injEq] at hm
        obtain ⟨hm1, hm2⟩ := hm
        have ha : p.2.act = p'.2.act := by funext t; simp only [St.act, hm2]
        simp only [Option.bind_some, ha, hm1]
        split
        · rfl
        · split
          · simp [hm2]
          · cases ContactPlan.findBreak T p'.2.act p'.1 with
            | none => rfl
            | some b =>
              cases cs.getLast? with
              | none => rfl
              | some c =>
                obtain ⟨v, hv'⟩ := hv ((cs.length : Int) - 1) (by omega) (by omega)
                simp only [Option.bind_some]
                rw [fly_own env ⟨b, T - 1, (cs.length : Int) - 1, c.pos, fun d => home.pos d + com d, c.ori, home.ori⟩ p.2 p'.2 hm2 v hv']
  have ha : st.act = st'.act := by funext t; simp only [St.act, h]
  unfold effector
  by_cases hne : cs = []
  · rw [if_pos hne, if_pos hne]; simp [h]
  · rw [if_neg hne, if_neg hne]
    have hk : cs.length - 1 < cs.length := by
      have := List.length_pos_iff.2 hne; omega
    by_cases hh : home.act = true
    · simp only [hh, if_true, Option.bind_eq_bind, Option.bind_some]
      exact tail _ _ _ _ h hk
    · simp only [hh, Bool.false_eq_true, if_false, Option.bind_eq_bind, ha]
      cases ContactPlan.findMake T st'.act 0 with
      | none => rfl
      | some e =>
        cases cs[0]? with
        | none => rfl
        | some c =>
          simp only [Option.bind_some]
          obtain ⟨v, hv'⟩ := hv (-1) (by omega) (by omega)
          rw [fly_own env ⟨0, e, -1, home.pos, c.pos, home.ori, c.ori⟩ st st' h v hv']

/-- C242, what holds: the trajectory of an end-effector that has a via point for each of its phases depends on nothing but its own contacts, via points, poses and the shared settings: two runs that agree on these, whatever
the other end-effectors do and whatever the via point variable holds at the start, give it the same states. -/
theorem C242_own_partial (i i' : Input) (v v' : V) (feet feet' r r' : Nat → Nat → Foot) (e : Nat) (he : e < i.n) (he' : e < i'.n) (hr : update i v feet = some r) (hr' : update i' v' feet' = some r')
    (hT : i.T = i'.T) (hk : i.kin = i'.kin) (hcom : i.com = i'.com) (hqr : i.qr = i'.qr) (hdt : i.dt = i'.dt) (hcs : i.cs e = i'.cs e) (hvias : i.vias e = i'.vias e)
    (hhome : i.home e = i'.home e) (hfeet : feet e = feet' e) (hv : HasVias (i.vias e) (i.cs e).length) : r e = r' e := by
  have key : ∀ (i : Input) (n e0 : Nat) (st st' : V × (Nat → Nat → Foot)), loop i n e0 st = some st' → ∀ k,
      ((k < e0 ∨ e0 + n ≤ k) → st'.2 k = st.2 k) ∧
      (e0 ≤ k → k < e0 + n → ∃ w p, effector i.T ⟨i.qr, i.dt, i.vias k⟩ (i.cs k) (i.home k) i.com (w, st.2 k) = some p ∧ st'.2 k = p.2) := by
    intro i n
    induction n with
    | zero =>
      intro e0 st st' h k
      simp only [loop, Option.some.injEq] at h
      subst h
      exact ⟨fun _ => rfl, fun h1 h2 => by omega⟩
    | succ n ih =>
      intro e0 st st' h k
      rw [loop, Option.bind_eq_some_iff] at h
      obtain ⟨st1, h1, h2⟩ := h
      simp only [visit, Option.bind_eq_bind, Option.bind_eq_some_iff, Option.some.injEq] at h1
      obtain ⟨p, hp, rfl⟩ := h1
      obtain ⟨i1, i2⟩ := ih _ _ _ h2 k
      constructor
      · intro hkk; rw [i1 (by omega)]; exact Function.update_of_ne (by omega) _ _
      · intro h3 h4
        by_cases hke : k = e0
        · subst hke
          refine ⟨st.1, p, hp, ?_⟩
          rw [i1 (by omega)]; exact Function.update_self ..
        · obtain ⟨w, p', h5, h6⟩ := i2 (by omega) (by omega)
          rw [show ((p.1, Function.update st.2 e0 p.2) : V × (Nat → Nat → Foot)).2 k = st.2 k from Function.update_of_ne hke _ _] at h5
          exact ⟨w, p', h5, h6⟩
  unfold update at hr hr'
  by_cases hkin : i.kin = true
  · rw [if_pos hkin, Option.map_eq_some_iff] at hr
    rw [if_pos (hk ▸ hkin), Option.map_eq_some_iff] at hr'
    obtain ⟨a, ha, rfl⟩ := hr
    obtain ⟨b, hb, rfl⟩ := hr'
    obtain ⟨w, p, h1, h2⟩ := (key i _ _ _ _ ha e).2 (by omega) (by omega)
    obtain ⟨w', p', h1', h2'⟩ := (key i' _ _ _ _ hb e).2 (by omega) (by omega)
    have := effector_own i.T ⟨i.qr, i.dt, i.vias e⟩ (i.cs e) (i.home e) i.com hv (w, feet e) (w', feet e) rfl
    rw [h1] at this
    rw [hT, hqr, hdt, hvias, hcs, hhome, hcom] at this
    simp only at h1'
    rw [← hfeet] at h1'
    rw [h1'] at this
    simp only [Option.map_some, Option.some.injEq] at this
    rw [h2, h2', this]
  · rw [if_neg hkin] at hr
    rw [if_neg (hk ▸ hkin)] at hr'
    rw [← Option.some.inj hr, ← Option.some.inj hr', hfeet]

/-! ### examples -/

/-- A contact at height zero at `x`, in force from `a` to `b`. -/
noncomputable def at_ (x a b : ℝ) : Contact := ⟨true, ![x, 0, 0], .flat, a, b, 0, 0, ⟨1, 0, 0, 0⟩⟩

/-- Two end-effectors stepping from 0 to 1: in contact at step 0, in the air during the steps 1 to 3, in contact at step 4; only the first one may have via points. -/
noncomputable def exWith (vias : List (Int × V)) : Input where
  n := 2
  T := 5
  kin := true
  com := 0
  cs := fun _ => [at_ 0 1 2, at_ 1 5 6]
  vias := fun e => if e = 0 then vias else []
  home := fun _ => ⟨true, 0, ⟨1, 0, 0, 0⟩⟩
  qr := Traj.exactQr
  dt := fun _ => 1

/-- The first end-effector has to rise. -/
noncomputable def exIn : Input := exWith [(0, ![1 / 2, 0, 1 / 4])]

/-- The intervals of the example. -/
def exIvs : List (Nat × Nat) := [(0, 1), (4, 5)]

theorem ex_timed (e : Nat) : Timed exIn.T 1 (exIn.cs e) exIvs := by
  refine ⟨?_, by simp [exIvs, exIn, exWith, ContactPlan.Separated]⟩
  refine List.Forall₂.cons (fun t ht => ?_) (List.Forall₂.cons (fun t ht => ?_) List.Forall₂.nil)
  · simp only [exIn, exWith] at ht
    interval_cases t <;> norm_num [DynPlan.InTime, at_]
  · simp only [exIn, exWith] at ht
    interval_cases t <;> norm_num [DynPlan.InTime, at_]

/-- The settings of the example. -/
noncomputable def exSet : Dyn.DSet := { Dyn.exSet .soft with T := 5, step := 1 }

/-- A new sequence of states. -/
noncomputable def exSeq : ContactPlan.Seq V Quat := ⟨fun _ _ => ContactPlan.Slot.fresh 0 ⟨1, 0, 0, 0⟩, fun _ => 0⟩

/-- The states of the example. -/
noncomputable def exFeet : Nat → Nat → Foot := feetOf (DynPlan.filled 2 exSet exIn.cs exSeq) 0 0

/-- The example meets the hypotheses: both end-effectors swing from 0 to 1, the first one through its via point. -/
theorem ex_swings (via0 : V) : ∃ r, update exIn via0 exFeet = some r ∧ Swings (fun _ => 1) [(0, ![1 / 2, 0, 1 / 4])] 1 3 0 ![0, 0, 0] ![1, 0, 0] ⟨1, 0, 0, 0⟩ ⟨1, 0, 0, 0⟩ (r 0) ∧
    Swings (fun _ => 1) [] 1 3 0 ![0, 0, 0] ![1, 0, 0] ⟨1, 0, 0, 0⟩ ⟨1, 0, 0, 0⟩ (r 1) := by
  obtain ⟨r, h1, _, _, h2, _⟩ := C241_swing exIn exSet rfl exSeq 0 0 via0 (fun _ _ => rfl) Traj.exactQr_exact (fun _ => by norm_num [exIn, exWith]) (fun _ => exIvs) (fun e _ => ex_timed e)
    (fun e _ _ => by simp [exIn, exWith, exIvs])
  exact ⟨r, h1, (h2 rfl 0 (by simp [exIn, exWith]) (by simp [exIn, exWith])).between 0 _ _ (0, 1) (4, 5) rfl rfl rfl rfl (by norm_num),
    (h2 rfl 1 (by simp [exIn, exWith]) (by simp [exIn, exWith])).between 0 _ _ (0, 1) (4, 5) rfl rfl rfl rfl (by norm_num)⟩

example (via0 : V) : ∃ r, update exIn via0 exFeet = some r ∧ (r 0 2).pos 2 = some (1 / 4) ∧ (r 0 3).pos 0 = some 1 ∧ (r 0 1).vel 0 = some 0 := by
  obtain ⟨r, h1, h2, _⟩ := ex_swings via0
  obtain ⟨f, hf, hg, hv⟩ := h2.curve
  have c1 : clock (fun _ => 1) 1 = 2 := by norm_num [clock]
  have c2 : clock (fun _ => 1) 2 = 3 := by norm_num [clock]
  have c3 : clock (fun _ => 1) 3 = 4 := by norm_num [clock]
  refine ⟨r, h1, ?_, ?_, ?_⟩
  · rw [(hf 2 (by omega) (by omega) 2).1]
    have := hv ![1 / 2, 0, 1 / 4] rfl 2
    rw [c1, c3] at this
    rw [c2, show (3 : ℝ) = (2 + 4) / 2 by norm_num, this]; simp
  · rw [(hf 3 (by omega) (by omega) 0).1, (hg 0).2.2.1]; simp
  · rw [(hf 1 (by omega) (by omega) 0).2.1, (hg 0).2.2.2.1]

theorem ex_act (e : Nat) (he : e < 2) : ContactPlan.ActiveOn 5 (fun t => (exFeet e t).act) exIvs := by
  intro t ht
  rw [← timed_active (ex_timed e) t ht, ← DynPlan.exists_carries (cs := exIn.cs)]
  exact DynPlan.active_iff 2 exSet exIn.cs exSeq (fun _ _ => ⟨false, 0, .free, 0, 0, 0, 0, ⟨0, 0, 0, 0⟩⟩) ⟨0, 0, 0, fun _ => false, 0, fun _ => ⟨0, 0, 0, 0⟩, 0⟩ (fun _ _ => rfl) t e ht he

/-- In the example the end-effector is, half way, where the via point variable says. -/
theorem ex_half (e : Nat) (he : e < 2) (vias : List (Int × V)) (v : V) : ∃ st', effector 5 ⟨Traj.exactQr, fun _ => 1, vias⟩ (exIn.cs e) (exIn.home e) 0 (v, exFeet e) = some st' ∧
    st'.1 = Traj.findActiveViapoint v vias 0 ∧ ∀ d, (st'.2 2).pos d = some (st'.1 d) := by
  refine ⟨_, effector_legs 5 ⟨Traj.exactQr, fun _ => 1, vias⟩ (exIn.cs e) (exIn.home e) 0 (at_ 0 0 0) (v, exFeet e) 0 1 [(4, 5)] rfl (ex_timed e).2 (ex_act e he) rfl, rfl, fun d => ?_⟩
  show ((fly _ ⟨1, 3, 0, ![0, 0, 0], ![1, 0, 0], ⟨1, 0, 0, 0⟩, ⟨1, 0, 0, 0⟩⟩ (v, exFeet e)).2 2).pos d = _
  have c1 : clock (fun _ => 1) 1 = 2 := by norm_num [clock]
  have c2 : clock (fun _ => 1) 2 = 3 := by norm_num [clock]
  have c3 : clock (fun _ => 1) 3 = 4 := by norm_num [clock]
  simp only [fly, Traj.flightPhase, clock_eq, c1, c2, c3, Traj.initTraj3]
  rw [if_pos (by omega)]
  have := (Traj.C53_trajectory Traj.exactQr Traj.exactQr_exact 2 ((![0, 0, 0] : V) d) 4 ((![1, 0, 0] : V) d) (Traj.findActiveViapoint v vias 0 d) (by norm_num)).2.1
  rw [show ((2 : ℝ) + 4) / 2 = 3 by norm_num] at this
  exact this

theorem ex_run (vias : List (Int × V)) (v : V) : ∃ r, update (exWith vias) v exFeet = some r ∧
    (∀ d, (r 0 2).pos d = some (Traj.findActiveViapoint v vias 0 d)) ∧ ∀ d, (r 1 2).pos d = some (Traj.findActiveViapoint v vias 0 d) := by
  obtain ⟨s0, a1, a2, a3⟩ := ex_half 0 (by omega) vias v
  obtain ⟨s1, b1, b2, b3⟩ := ex_half 1 (by omega) [] s0.1
  have hv0 : visit (exWith vias) 0 (v, exFeet) = some (s0.1, Function.update exFeet 0 s0.2) := by
    unfold visit
    change ((effector 5 ⟨Traj.exactQr, fun _ => 1, vias⟩ (exIn.cs 0) (exIn.home 0) 0 (v, exFeet 0)).bind fun r => some (r.1, Function.update exFeet 0 r.2)) = _
    rw [a1]; rfl
  have hv1 : visit (exWith vias) 1 (s0.1, Function.update exFeet 0 s0.2) = some (s1.1, Function.update (Function.update exFeet 0 s0.2) 1 s1.2) := by
    unfold visit
    change ((effector 5 ⟨Traj.exactQr, fun _ => 1, []⟩ (exIn.cs 1) (exIn.home 1) 0 (s0.1, Function.update exFeet 0 s0.2 1)).bind fun r =>
      some (r.1, Function.update (Function.update exFeet 0 s0.2) 1 r.2)) = _
    rw [Function.update_of_ne (by omega), b1]; rfl
  refine ⟨Function.update (Function.update exFeet 0 s0.2) 1 s1.2, ?_, fun d => ?_, fun d => ?_⟩
  · show ((loop (exWith vias) 2 0 (v, exFeet)).map Prod.snd) = _
    rw [loop, hv0, Option.bind_some, loop, hv1, Option.bind_some, loop]; rfl
  · rw [Function.update_of_ne (by omega), Function.update_self, a3, a2]
  · rw [Function.update_self, b3, b2, a2]; rfl

/-- C242 is false of the code without via points: in a plan that meets all hypotheses of C241 the end-effector passes, half way, through whatever the uninitialised variable holds; and an end-effector without via points
passes through the via point of another end-effector. -/
theorem C242_violated : (∀ v, ∃ r, update (exWith []) v exFeet = some r ∧ ∀ d, (r 0 2).pos d = some (v d)) ∧
    (∀ w v, ∃ r, update (exWith [(0, w)]) v exFeet = some r ∧ ∀ d, (r 1 2).pos d = some (w d)) := by
  constructor
  · intro v
    obtain ⟨r, h1, h2, _⟩ := ex_run [] v
    exact ⟨r, h1, h2⟩
  · intro w v
    obtain ⟨r, h1, _, h2⟩ := ex_run [(0, w)] v
    exact ⟨r, h1, h2⟩

/-- The hypotheses of `C242_own_partial` are met by an end-effector with three via points. -/
example : HasVias [(-1, ![0, 0, 1]), (0, ![1, 0, 1]), (1, ![2, 0, 1])] (exIn.cs 0).length := by
  intro id h1 h2
  have : id = -1 ∨ id = 0 ∨ id = 1 := by
    have : (exIn.cs 0).length = 2 := rfl
    omega
  rcases this with rfl | rfl | rfl
  · exact ⟨_, rfl⟩
  · exact ⟨_, rfl⟩
  · exact ⟨_, rfl⟩

end Swing
end Verif
