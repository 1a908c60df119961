import Verif.SwingProps

/-!
Model of the via points: `ViapointState` and `ViapointSequence`, /repo/momentumopt/src/momentumopt/cntopt/ContactState.cpp:116-177 and ContactState.hpp:118-170, and the property C243.

Simplifications: as in `Cont`: a file is the function that gives, for every end-effector, the list found under its name or `none` when `YAML::ReadParameter` throws; a list of numbers of a via point that is too short
(Eigen rejects it with an assertion only) is `none` too. Not modelled: `toString`.
-/
namespace Verif
namespace Swing
open Cont

/-! ### model -/

/-- `ViapointState`, ContactState.hpp:118-146. -/
structure Via where
  /-- `viapoint_id_`. -/
  id : Int
  /-- `optimization_id_`. -/
  optId : Int
  /-- `position_`. -/
  pos : V
  /-- `orientation_`. -/
  ori : Quat

/-- The constructor from the parameters of the file, ContactState.cpp:125-131. -/
noncomputable def Via.ofParams (p : Fin 8 → ℝ) (opt : Int) : Via := ⟨toInt (p 0), opt, ![p 1, p 2, p 3], ⟨p 4, p 5, p 6, p 7⟩⟩

/-- `ViapointSequence`, ContactState.hpp:148-172; the number of via points is not initialised (`none`) before the first load. -/
structure ViaSeq where
  /-- `num_optimization_viapoints_`. -/
  num : Option Nat
  /-- `endeffector_viapoints_`. -/
  vias : Nat → List Via

/-- The inner loop of `loadFromFile`, ContactState.cpp:167-168. -/
noncomputable def pushVias : List (Fin 8 → ℝ) → Nat → List Via
  | [], _ => []
  | p :: ps, k => Via.ofParams p k :: pushVias ps (k + 1)

/-- The loop over the end-effectors of `loadFromFile` from `e` on, ContactState.cpp:162-169; `k` is `num_optimization_viapoints_`. It stops at the first list that cannot be read. -/
noncomputable def loadViasFrom (plan : Nat → Option (List (Fin 8 → ℝ))) : Nat → Nat → Nat → (Nat → List Via) → ViaSeq
  | 0, _, k, c => ⟨some k, c⟩
  | r + 1, e, k, c =>
    match plan e with
    | none => ⟨some k, c⟩
    | some ps => loadViasFrom plan r (e + 1) (k + ps.length) (Function.update c e (pushVias ps k))

/-- `ViapointSequence::loadFromFile`, ContactState.cpp:142-177, for `n` end-effectors: `none` when the file cannot be opened. -/
noncomputable def loadVias (n : Nat) (file : Option (Nat → Option (List (Fin 8 → ℝ)))) (s : ViaSeq) : ViaSeq :=
  match file with
  | none => s
  | some plan => loadViasFrom plan n 0 0 s.vias

/-- The via points as `findActiveViapoints` reads them, ContactPlanInterface.cpp:133-136. -/
def ViaSeq.asInput (s : ViaSeq) (e : Nat) : List (Int × V) := (s.vias e).map fun v => (v.id, v.pos)

/-! ### C243 -/

/-- The via point holds the parameters of the file. -/
def HoldsVia (p : Fin 8 → ℝ) (v : Via) : Prop :=
  (∀ k : Int, p 0 = k → v.id = k) ∧ (∀ i : Fin 3, v.pos i = p ⟨i + 1, by omega⟩) ∧ v.ori = ⟨p 4, p 5, p 6, p 7⟩

theorem pushVias_spec (ps : List (Fin 8 → ℝ)) (k : Nat) : (pushVias ps k).map Via.optId = (List.range' k ps.length).map Int.ofNat ∧ List.Forall₂ HoldsVia ps (pushVias ps k) := by
  induction ps generalizing k with
  | nil => simp [pushVias]
  | cons p ps ih =>
    obtain ⟨h1, h2⟩ := ih (k + 1)
    refine ⟨?_, ?_⟩
    · simp only [pushVias, List.map_cons, h1, List.length_cons, List.range'_succ]
      rfl
    · refine List.Forall₂.cons ⟨fun j hj => ?_, fun i => ?_, rfl⟩ h2
      · simp only [Via.ofParams]; rw [hj, toInt_int]
      · fin_cases i <;> rfl

/-- The via points read before end-effector `m`. -/
def viasBefore (plan : Nat → Option (List (Fin 8 → ℝ))) (m : Nat) : Nat := ((List.range m).map fun e => ((plan e).getD []).length).sum

theorem viasBefore_succ (plan : Nat → Option (List (Fin 8 → ℝ))) (m : Nat) : viasBefore plan (m + 1) = viasBefore plan m + ((plan m).getD []).length := by
  simp [viasBefore, List.range_succ]

theorem loadViasFrom_spec (plan : Nat → Option (List (Fin 8 → ℝ))) (r : Nat) : ∀ (e : Nat) (c : Nat → List Via), ∃ m, m ≤ r ∧ (∀ j, j < m → plan (e + j) ≠ none) ∧ (m < r → plan (e + m) = none) ∧
    (loadViasFrom plan r e (viasBefore plan e) c).num = some (viasBefore plan (e + m)) ∧
    ∀ j, (loadViasFrom plan r e (viasBefore plan e) c).vias j = if e ≤ j ∧ j < e + m then pushVias ((plan j).getD []) (viasBefore plan j) else c j := by
  induction r with
  | zero =>
    intro e c
    refine ⟨0, le_rfl, by simp, by simp, rfl, fun j => ?_⟩
    rw [if_neg (by omega)]; rfl
  | succ r ih =>
    intro e c
    cases hp : plan e with
    | none =>
      refine ⟨0, by omega, by simp, fun _ => hp, ?_, fun j => ?_⟩
      · simp only [loadViasFrom, hp]; rfl
      · simp only [loadViasFrom, hp]; rw [if_neg (by omega)]
    | some ps =>
      have hb : viasBefore plan (e + 1) = viasBefore plan e + ps.length := by rw [viasBefore_succ, hp]; rfl
      obtain ⟨m, h1, h2, h3, h4, h5⟩ := ih (e + 1) (Function.update c e (pushVias ps (viasBefore plan e)))
      have hl : loadViasFrom plan (r + 1) e (viasBefore plan e) c = loadViasFrom plan r (e + 1) (viasBefore plan (e + 1)) (Function.update c e (pushVias ps (viasBefore plan e))) := by
        simp only [loadViasFrom, hp, hb]
      refine ⟨m + 1, by omega, fun j hj => ?_, fun hm => ?_, ?_, fun j => ?_⟩
      · cases j with
        | zero => rw [Nat.add_zero, hp]; simp
        | succ j =>
          have := h2 j (by omega)
          rwa [show e + (j + 1) = e + 1 + j by omega]
      · have := h3 (by omega)
        rwa [show e + (m + 1) = e + 1 + m by omega]
      · rw [hl, h4]; congr 2; omega
      · rw [hl, h5]
        by_cases hj : j = e
        · subst hj
          rw [if_neg (by omega), if_pos (by omega), Function.update_self, hp]; rfl
        · by_cases hin : e + 1 ≤ j ∧ j < e + 1 + m
          · rw [if_pos hin, if_pos (by omega)]
          · rw [if_neg hin, if_neg (by omega), Function.update_of_ne hj]

/-- All via points of a sequence of `n` end-effectors. -/
def ViaSeq.all (s : ViaSeq) (n : Nat) : List Via := (List.range n).flatMap s.vias

theorem all_via_ids (vias : Nat → List Via) (plan : Nat → Option (List (Fin 8 → ℝ))) (m : Nat) (h : ∀ j, j < m → vias j = pushVias ((plan j).getD []) (viasBefore plan j)) :
    ((List.range m).flatMap vias).map Via.optId = (List.range (viasBefore plan m)).map Int.ofNat := by
  induction m with
  | zero => simp [viasBefore]
  | succ m ih =>
    rw [List.range_succ, List.flatMap_append, List.map_append, ih fun j hj => h j (by omega), viasBefore_succ]
    simp only [List.flatMap_cons, List.flatMap_nil, List.append_nil]
    rw [h m (by omega), (pushVias_spec _ _).1, ← List.map_append, List.range_eq_range', List.range_eq_range']
    have := List.range'_append_1 (s := 0) (m := viasBefore plan m) (n := ((plan m).getD []).length)
    rw [Nat.zero_add] at this
    rw [this]

/-- C243: when all lists can be read, the sequence holds exactly the via points of the file, in order, none of an earlier plan, numbered `0, 1, 2, …` through all end-effectors. -/
theorem C243_load (n : Nat) (plan : Nat → Option (List (Fin 8 → ℝ))) (s : ViaSeq) (h : ∀ e, e < n → plan e ≠ none) :
    (∀ e ps, e < n → plan e = some ps → List.Forall₂ HoldsVia ps ((loadVias n (some plan) s).vias e)) ∧
    ((loadVias n (some plan) s).all n).map Via.optId = (List.range ((loadVias n (some plan) s).all n).length).map Int.ofNat ∧
    (loadVias n (some plan) s).num = some ((loadVias n (some plan) s).all n).length := by
  obtain ⟨m, h1, h2, h3, h4, h5⟩ := loadViasFrom_spec plan n 0 s.vias
  have hm : m = n := by
    rcases Nat.lt_or_ge m n with hlt | hge
    · have h3' := h3 hlt
      rw [Nat.zero_add] at h3'
      exact absurd h3' (h m hlt)
    · omega
  subst hm
  rw [Nat.zero_add] at h4
  have hb0 : viasBefore plan 0 = 0 := rfl
  rw [hb0] at h4 h5
  have hld : loadVias m (some plan) s = loadViasFrom plan m 0 0 s.vias := rfl
  have hids := all_via_ids (loadVias m (some plan) s).vias plan m (fun j hj => by rw [hld, h5, if_pos (by omega)])
  have hlen : ((loadVias m (some plan) s).all m).length = viasBefore plan m := by
    have := congrArg List.length hids
    simpa [ViaSeq.all] using this
  refine ⟨fun e ps he hp => ?_, ?_, ?_⟩
  · rw [hld, h5, if_pos (by omega), hp]
    exact (pushVias_spec _ _).2
  · rw [hlen]; exact hids
  · rw [hlen, hld, h4]

theorem find_vias {ps : List (Fin 8 → ℝ)} {vs : List Via} (h : List.Forall₂ HoldsVia ps vs) (hint : ∀ p ∈ ps, ∃ k : Int, p 0 = k) (id : Int) (p : Fin 8 → ℝ)
    (hp : ∃ l r, ps = l ++ p :: r ∧ p 0 = id ∧ ∀ q ∈ l, q 0 ≠ id) : (vs.map fun v => (v.id, v.pos)).find? (fun q => q.1 == id) = some (id, ![p 1, p 2, p 3]) := by
  obtain ⟨l, r, rfl, hid, hl⟩ := hp
  induction l generalizing vs with
  | nil =>
    cases h with
    | cons hv _ =>
      obtain ⟨h1, h2, _⟩ := hv
      rw [List.map_cons, List.find?_cons_of_pos (by simp [h1 id hid]), h1 id hid]
      congr 2
      funext i; rw [h2]; fin_cases i <;> rfl
  | cons q l ih =>
    cases h with
    | cons hv hr =>
      obtain ⟨k, hk⟩ := hint q (by simp)
      have hne : k ≠ id := fun e => hl q (by simp) (by rw [hk, e])
      rw [List.map_cons, List.find?_cons_of_neg (by simp [hv.1 k hk, hne])]
      exact ih hr (fun p hp => hint p (by simp at hp ⊢; tauto)) fun q hq => hl q (by simp [hq])

/-- C243, what the via points do: in a run with the via points of the file, in the setting of C241, the end-effector passes, half way in time between contacts `k` and `k + 1`, through the position in the first row of its
list that carries the number `k`. -/
theorem C243_passes (i : Input) (s : Dyn.DSet) (hs : s.T = i.T) (q : ContactPlan.Seq V Quat) (vel acc : Nat → Nat → V) (via0 : V) (hfresh : DynPlan.Fresh q) (hq : i.qr.Exact)
    (hdt : ∀ t, 0 < i.dt t) (ivs : Nat → List (Nat × Nat)) (htimed : ∀ e < i.n, Timed i.T s.step (i.cs e) (ivs e))
    (hini : ∀ e < i.n, i.cs e ≠ [] → ((i.home e).act = true ↔ ∃ iv, (ivs e)[0]? = some iv ∧ iv.1 = 0)) (hkin : i.kin = true)
    (plan : Nat → Option (List (Fin 8 → ℝ))) (sv : ViaSeq) (hplan : ∀ e, e < i.n → plan e ≠ none) (hv : i.vias = (loadVias i.n (some plan) sv).asInput)
    (e : Nat) (he : e < i.n) (k : Nat) (iv iv' : Nat × Nat) (h1 : (ivs e)[k]? = some iv) (h2 : (ivs e)[k + 1]? = some iv') (hlt : iv.2 + 1 < iv'.1)
    (ps l tl : List (Fin 8 → ℝ)) (p : Fin 8 → ℝ) (hps : plan e = some ps) (hint : ∀ p ∈ ps, ∃ k : Int, p 0 = k) (hrow : ps = l ++ p :: tl) (hp : p 0 = k) (hl : ∀ q ∈ l, q 0 ≠ k) :
    ∃ r, update i via0 (feetOf (DynPlan.filled i.n s i.cs q) vel acc) = some r ∧
      ∀ t, iv.2 ≤ t → t < iv'.1 → clock i.dt t = (clock i.dt iv.2 + clock i.dt (iv'.1 - 1)) / 2 → ∀ d : Fin 3, (r e t).pos d = some (p ⟨d + 1, by omega⟩) := by
  obtain ⟨r, r1, _, _, r2, _⟩ := C241_swing i s hs q vel acc via0 hfresh hq hdt ivs htimed hini
  refine ⟨r, r1, fun t t1 t2 ht d => ?_⟩
  have hlen := (htimed e he).1.length_eq
  have l1 := (List.getElem?_eq_some_iff.1 h2).1
  obtain ⟨c, hc⟩ : ∃ c, (i.cs e)[k]? = some c := ⟨(i.cs e)[k]'(by omega), List.getElem?_eq_getElem _⟩
  obtain ⟨c', hc'⟩ : ∃ c, (i.cs e)[k + 1]? = some c := ⟨(i.cs e)[k + 1]'(by omega), List.getElem?_eq_getElem _⟩
  obtain ⟨f, hf, _, hg⟩ := ((r2 hkin e he (by rintro h; rw [h] at hc; simp at hc)).between k c c' iv iv' hc hc' h1 h2 hlt).curve
  have hfind := find_vias ((C243_load i.n plan sv hplan).1 e ps he hps) hint (k : Int) p ⟨l, tl, hrow, by exact_mod_cast hp, fun q hq => by exact_mod_cast hl q hq⟩
  rw [(hf t t1 (by omega) d).1, ht, hg ![p 1, p 2, p 3] (by rw [hv]; exact hfind) d]
  fin_cases d <;> rfl

/-- A file with via points for the first of the two end-effectors of `exIn`. -/
example : ∃ r, update exIn 0 exFeet = some r ∧ ∀ d : Fin 3, (r 0 2).pos d = some ((![0, 1 / 2, 0, 1 / 4, 1, 0, 0, 0] : Fin 8 → ℝ) ⟨d + 1, by omega⟩) := by
  have hT := toInt_int 0
  push_cast at hT
  obtain ⟨r, h1, h2⟩ := C243_passes exIn exSet rfl exSeq 0 0 0 (fun _ _ => rfl) Traj.exactQr_exact (fun _ => by norm_num [exIn, exWith]) (fun _ => exIvs) (fun e _ => ex_timed e)
    (fun e _ _ => by simp [exIn, exWith, exIvs]) rfl (fun e => if e = 0 then some [![0, 1 / 2, 0, 1 / 4, 1, 0, 0, 0]] else some []) ⟨none, fun _ => []⟩
    (fun e _ => by split_ifs <;> simp)
    (by
      funext e
      simp only [exIn, exWith, ViaSeq.asInput, loadVias, loadViasFrom]
      by_cases h0 : e = 0
      · subst h0; simp [pushVias, Via.ofParams, hT]
      · by_cases h1 : e = 1
        · subst h1; simp [pushVias]
        · simp [h0, h1])
    0 (by simp [exIn, exWith]) 0 (0, 1) (4, 5) rfl rfl (by norm_num) [![0, 1 / 2, 0, 1 / 4, 1, 0, 0, 0]] [] [] ![0, 1 / 2, 0, 1 / 4, 1, 0, 0, 0] rfl (fun p hp => ⟨0, by
      rw [List.mem_singleton] at hp; subst hp; simp⟩) rfl (by simp) (by simp)
  exact ⟨r, h1, fun d => h2 2 (by omega) (by omega) (by norm_num [clock, exIn, exWith, Finset.sum_range_succ]) d⟩

end Swing
end Verif
