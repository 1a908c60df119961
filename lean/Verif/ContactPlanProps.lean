import Verif.ContactPlan
import Mathlib.Order.Interval.Finset.Nat
import Mathlib.Data.Nat.Count
import Mathlib.Algebra.BigOperators.Group.Finset.Basic
import Mathlib.Data.Finset.Card
import Mathlib.Data.Rat.Floor
import Mathlib.Tactic.Linarith
import Mathlib.Tactic.NormNum
import Mathlib.Tactic.Ring
import Mathlib.Data.Finset.Image

/-! C43, C44, C59: from a contact plan to activations and flight phases. -/
namespace Verif
namespace ContactPlan

variable {K P Q : Type} [Field K] [LinearOrder K]

/-! ### specification -/

/-- A contact covers time step `t` if it is selected and the end `(t+1)*dt` of the step lies in `[ini, fin)`. -/
def Covers (dt : K) (c : Contact K P Q) (t : Nat) : Prop :=
  c.selected = true ∧ c.ini ≤ ((t : K) + 1) * dt ∧ ((t : K) + 1) * dt < c.fin

instance (dt : K) (c : Contact K P Q) (t : Nat) : Decidable (Covers dt c t) := by unfold Covers; infer_instance

/-- No two contacts of the list cover the same time step. -/
def NonOverlapping (T : Nat) (dt : K) (cs : List (Contact K P Q)) : Prop :=
  ∀ (i j : Nat) (c d : Contact K P Q), cs[i]? = some c → cs[j]? = some d → i ≠ j → ∀ t < T, ¬ (Covers dt c t ∧ Covers dt d t)

/-! ### lemmas -/

theorem covers_iff (dt : K) (c : Contact K P Q) (t : Nat) : Covers dt c t ↔ c.selected = true ∧ inside dt c t = true := by
  simp [Covers, inside]

theorem fillContact_spec (T : Nat) (dt : K) (i : Nat) (c : Contact K P Q) (s : (Nat → Slot P Q) × Nat) :
    (fillContact T dt i c s).2 = s.2 + Nat.count (fun t => inside dt c t = true) T ∧
    ∀ t, (fillContact T dt i c s).1 t = if t < T ∧ inside dt c t = true
      then ⟨true, i, (s.2 + Nat.count (fun t => inside dt c t = true) t : Nat), c.pos, c.ori⟩ else s.1 t := by
  unfold fillContact
  induction T with
  | zero => simp
  | succ n ih =>
    rw [List.range_succ, List.foldl_append, List.foldl_cons, List.foldl_nil]
    obtain ⟨h1, h2⟩ := ih
    by_cases hi : inside dt c n = true
    · rw [if_pos hi]
      refine ⟨by rw [h1, Nat.count_succ, if_pos hi]; ring, fun t => ?_⟩
      rcases Nat.lt_trichotomy t n with h | h | h
      · dsimp only; rw [Function.update_of_ne (Nat.ne_of_lt h), h2]; simp [h, Nat.lt_succ_of_lt h]
      · subst h; dsimp only; rw [Function.update_self, if_pos ⟨by omega, hi⟩, h1]
      · dsimp only; rw [Function.update_of_ne (Nat.ne_of_gt h), h2, if_neg (by omega), if_neg (by omega)]
    · rw [if_neg hi]
      refine ⟨by rw [h1, Nat.count_succ, if_neg hi]; ring, fun t => ?_⟩
      rw [h2]
      rcases Nat.lt_trichotomy t n with h | h | h
      · simp [h, Nat.lt_succ_of_lt h]
      · subst h; simp [hi]
      · rw [if_neg (by omega), if_neg (by omega)]

/-- Number of steps covered by a contact. -/
def total (T : Nat) (dt : K) (c : Contact K P Q) : Nat := Nat.count (fun t => Covers dt c t) T

theorem step_spec (T : Nat) (dt : K) (i : Nat) (c : Contact K P Q) (s : (Nat → Slot P Q) × Nat) :
    (if c.selected then fillContact T dt i c s else s).2 = s.2 + total T dt c ∧
    ∀ t, (if c.selected then fillContact T dt i c s else s).1 t = if t < T ∧ Covers dt c t
      then ⟨true, i, (s.2 + Nat.count (fun t => Covers dt c t) t : Nat), c.pos, c.ori⟩ else s.1 t := by
  have hc : ∀ n, c.selected = true → Nat.count (fun t => inside dt c t = true) n = Nat.count (fun t => Covers dt c t) n := by
    intro n hs
    congr 1; funext t; rw [covers_iff]; simp [hs]
  cases hs : c.selected with
  | true =>
    obtain ⟨h1, h2⟩ := fillContact_spec T dt i c s
    refine ⟨by rw [if_pos rfl, h1, hc T hs, total], fun t => ?_⟩
    rw [if_pos rfl, h2, hc t hs]
    simp only [covers_iff, hs, true_and]
  | false =>
    have hn : ∀ t, ¬ Covers dt c t := fun t h => by rw [covers_iff, hs] at h; exact absurd h.1 (by decide)
    refine ⟨?_, fun t => ?_⟩
    · rw [if_neg (by decide), total, Nat.count_eq_card_filter_range, Finset.filter_false_of_mem (fun t _ => hn t)]; rfl
    · rw [if_neg (by decide), if_neg (fun h => hn t h.2)]

/-- Counter value before contact `j`. -/
def offset (T : Nat) (dt : K) (cs : List (Contact K P Q)) (j : Nat) : Nat := ((cs.take j).map (total T dt)).sum

theorem fillFrom_spec (T : Nat) (dt : K) (cs : List (Contact K P Q)) : ∀ (i : Nat) (s : (Nat → Slot P Q) × Nat),
    (fillFrom T dt i cs s).2 = s.2 + (cs.map (total T dt)).sum ∧
    (∀ t, (T ≤ t ∨ ∀ c ∈ cs, ¬ Covers dt c t) → (fillFrom T dt i cs s).1 t = s.1 t) ∧
    (∀ t < T, (∃ c ∈ cs, Covers dt c t) → ∃ (j : Nat) (c : Contact K P Q), cs[j]? = some c ∧ Covers dt c t ∧
      (∀ (k : Nat) (d : Contact K P Q), cs[k]? = some d → Covers dt d t → k ≤ j) ∧
      (fillFrom T dt i cs s).1 t = ⟨true, (i + j : Nat), (s.2 + offset T dt cs j + Nat.count (fun t => Covers dt c t) t : Nat), c.pos, c.ori⟩) := by
  induction cs with
  | nil => intro i s; refine ⟨rfl, fun _ _ => rfl, ?_⟩; rintro t _ ⟨c, hc, _⟩; simp at hc
  | cons c cs ih =>
    intro i s
    obtain ⟨a1, a2⟩ := step_spec T dt i c s
    rw [fillFrom]
    obtain ⟨b1, b2, b3⟩ := ih (i + 1) (if c.selected then fillContact T dt i c s else s)
    refine ⟨by rw [b1, a1, List.map_cons, List.sum_cons]; ring, fun t ht => ?_, fun t hT hcov => ?_⟩
    · rw [b2 t (ht.imp id fun h d hd => h d (List.mem_cons_of_mem _ hd)), a2, if_neg]
      rintro ⟨h1, h2⟩
      rcases ht with h | h
      · omega
      · exact h c List.mem_cons_self h2
    · by_cases hlater : ∃ d ∈ cs, Covers dt d t
      · obtain ⟨j, d, h1, h2, h3, h4⟩ := b3 t hT hlater
        refine ⟨j + 1, d, by simpa using h1, h2, ?_, ?_⟩
        · rintro (_ | k) d' hk hd'
          · omega
          · have := h3 k d' (by simpa using hk) hd'; omega
        · rw [h4, a1]
          simp only [offset, List.take_succ_cons, List.map_cons, List.sum_cons]
          congr 2 <;> ring
      · push Not at hlater
        have hc : Covers dt c t := by
          obtain ⟨d, hd, hdt⟩ := hcov
          rcases List.mem_cons.mp hd with rfl | h
          · exact hdt
          · exact absurd hdt (hlater d h)
        refine ⟨0, c, rfl, hc, ?_, ?_⟩
        · rintro (_ | k) d' hk hd'
          · exact le_rfl
          · exact absurd hd' (hlater d' (List.mem_of_getElem? (by simpa using hk)))
        · rw [b2 t (.inr hlater), a2, if_pos ⟨hT, hc⟩]
          simp [offset]

theorem seq_fold (T : Nat) (dt : K) (plan : Nat → List (Contact K P Q)) (s : Seq P Q) (n : Nat) (e : Nat) :
    (∀ t, ((List.range n).foldl (fillEff T dt plan) s).slot t e =
      if e < n then (fillFrom T dt 0 (plan e) (fun t => s.slot t e, 0)).1 t else s.slot t e) ∧
    ((List.range n).foldl (fillEff T dt plan) s).steps e =
      if e < n then (fillFrom T dt 0 (plan e) (fun t => s.slot t e, 0)).2 else s.steps e := by
  induction n with
  | zero => simp
  | succ n ih =>
    rw [List.range_succ, List.foldl_append, List.foldl_cons, List.foldl_nil]
    generalize (List.range n).foldl (fillEff T dt plan) s = s' at ih ⊢
    obtain ⟨h1, h2⟩ := ih
    unfold fillEff
    by_cases he : e = n
    · subst he
      have : (fun t => s'.slot t e) = fun t => s.slot t e := by funext t; rw [h1]; simp
      simp [this]
    · have hlt : e < n + 1 ↔ e < n := by omega
      simp only [he, if_false, hlt, Function.update_of_ne (Ne.symm (Ne.symm he))]
      exact ⟨h1, h2⟩

theorem fill_slot (n T : Nat) (dt : K) (plan : Nat → List (Contact K P Q)) (s : Seq P Q) (t e : Nat) :
    (fillDynamicsSequence n T dt plan s).slot t e =
      if e < n then (fillFrom T dt 0 (plan e) (fun t => s.slot t e, 0)).1 t else s.slot t e :=
  (seq_fold T dt plan _ n e).1 t

theorem fill_steps (n T : Nat) (dt : K) (plan : Nat → List (Contact K P Q)) (s : Seq P Q) (e : Nat) :
    (fillDynamicsSequence n T dt plan s).steps e =
      if e < n then (fillFrom T dt 0 (plan e) (fun t => s.slot t e, 0)).2 else 0 :=
  (seq_fold T dt plan _ n e).2

theorem offset_succ (T : Nat) (dt : K) (cs : List (Contact K P Q)) (j : Nat) (c : Contact K P Q) (h : cs[j]? = some c) :
    offset T dt cs (j + 1) = offset T dt cs j + total T dt c := by
  unfold offset
  rw [List.take_add_one, h]; simp

theorem offset_mono (T : Nat) (dt : K) (cs : List (Contact K P Q)) {i j : Nat} (h : i ≤ j) : offset T dt cs i ≤ offset T dt cs j := by
  unfold offset
  obtain ⟨k, rfl⟩ := Nat.exists_eq_add_of_le h
  rw [List.take_add]; simp

theorem offset_le (T : Nat) (dt : K) (cs : List (Contact K P Q)) (j : Nat) : offset T dt cs j ≤ (cs.map (total T dt)).sum := by
  have : (cs.map (total T dt)).sum = offset T dt cs (max j cs.length) := by
    unfold offset; rw [List.take_of_length_le (le_max_right _ _)]
  rw [this]; exact offset_mono T dt cs (le_max_left _ _)

/-- Steps covered by some contact. -/
def coveredSteps (T : Nat) (dt : K) (cs : List (Contact K P Q)) : Finset Nat :=
  (Finset.range T).filter fun t => ∃ c ∈ cs, Covers dt c t

theorem card_covered (T : Nat) (dt : K) (cs : List (Contact K P Q)) (h : NonOverlapping T dt cs) :
    (coveredSteps T dt cs).card = (cs.map (total T dt)).sum := by
  induction cs with
  | nil => simp [coveredSteps]
  | cons c cs ih =>
    have hsub : NonOverlapping T dt cs := fun i j a b hi hj hij =>
      h (i + 1) (j + 1) a b (by simpa using hi) (by simpa using hj) (by omega)
    rw [List.map_cons, List.sum_cons, ← ih hsub, total, Nat.count_eq_card_filter_range]
    rw [← Finset.card_union_of_disjoint]
    · congr 1; ext t
      simp only [coveredSteps, Finset.mem_filter, Finset.mem_union, List.mem_cons, Finset.mem_range]
      constructor
      · rintro ⟨h1, d, rfl | hd, hdt⟩
        · exact .inl ⟨h1, hdt⟩
        · exact .inr ⟨h1, d, hd, hdt⟩
      · rintro (⟨h1, h2⟩ | ⟨h1, d, hd, hdt⟩)
        · exact ⟨h1, c, .inl rfl, h2⟩
        · exact ⟨h1, d, .inr hd, hdt⟩
    · rw [Finset.disjoint_left]
      intro t ht ht'
      simp only [coveredSteps, Finset.mem_filter, Finset.mem_range] at ht ht'
      obtain ⟨_, d, hd, hdt⟩ := ht'
      obtain ⟨k, hk⟩ := List.mem_iff_getElem?.mp hd
      exact h 0 (k + 1) c d rfl (by simpa using hk) (by omega) t ht.1 ⟨ht.2, hdt⟩

/-! ### C43 -/

/-- C43, general part, for every plan (also with overlapping contacts) and every previously inactive sequence: an end-effector is active
at a time step iff one of its selected contacts covers it; contact id, position and orientation are those of the last covering
contact; activation ids are distinct and below the reported number of steps; nothing outside the sequence or of other
end-effectors changes. Missing for the full C43: without the assumption that contacts do not overlap the ids need not fill
`0..n-1` (`C43_violated`); with it they do (`C43_activation_ids`). -/
theorem C43_activation_partial (n T : Nat) (dt : K) (plan : Nat → List (Contact K P Q)) (s : Seq P Q)
    (hs : ∀ t e, (s.slot t e).active = false) (e : Nat) (he : e < n) :
    let r := fillDynamicsSequence n T dt plan s
    (∀ t < T, (r.slot t e).active = true ↔ ∃ c ∈ plan e, Covers dt c t) ∧
    (∀ t < T, (r.slot t e).active = true → ∃ (j : Nat) (c : Contact K P Q), (r.slot t e).cntId = j ∧ (plan e)[j]? = some c ∧
      Covers dt c t ∧ (∀ (k : Nat) (d : Contact K P Q), (plan e)[k]? = some d → Covers dt d t → k ≤ j) ∧
      (r.slot t e).pos = c.pos ∧ (r.slot t e).ori = c.ori) ∧
    (∀ t < T, (r.slot t e).active = true → 0 ≤ (r.slot t e).actId ∧ (r.slot t e).actId < r.steps e) ∧
    (∀ t < T, ∀ t' < T, (r.slot t e).active = true → (r.slot t' e).active = true →
      (r.slot t e).actId = (r.slot t' e).actId → t = t') ∧
    (∀ t < T, (r.slot t e).active = false → r.slot t e = s.slot t e) ∧
    (∀ t e', T ≤ t ∨ n ≤ e' → r.slot t e' = s.slot t e') := by
  intro r
  obtain ⟨h1, h2, h3⟩ := fillFrom_spec T dt (plan e) 0 ((fun t => s.slot t e), 0)
  have hslot : ∀ t, r.slot t e = (fillFrom T dt 0 (plan e) ((fun t => s.slot t e), 0)).1 t := fun t => by
    show (fillDynamicsSequence n T dt plan s).slot t e = _; rw [fill_slot, if_pos he]
  have hsteps : r.steps e = ((plan e).map (total T dt)).sum := by
    show (fillDynamicsSequence n T dt plan s).steps e = _; rw [fill_steps, if_pos he, h1, zero_add]
  have hact : ∀ t < T, (r.slot t e).active = true ↔ ∃ c ∈ plan e, Covers dt c t := by
    intro t ht
    constructor
    · intro ha; by_contra hno; push Not at hno
      rw [hslot, h2 t (.inr hno)] at ha; simp only [hs] at ha; exact absurd ha (by decide)
    · intro hc
      obtain ⟨j, c, _, _, _, h4⟩ := h3 t ht hc
      rw [hslot, h4]
  have hdet : ∀ t < T, (r.slot t e).active = true → ∃ (j : Nat) (c : Contact K P Q), (plan e)[j]? = some c ∧ Covers dt c t ∧
      (∀ (k : Nat) (d : Contact K P Q), (plan e)[k]? = some d → Covers dt d t → k ≤ j) ∧
      r.slot t e = ⟨true, (j : Nat), (offset T dt (plan e) j + Nat.count (fun t => Covers dt c t) t : Nat), c.pos, c.ori⟩ := by
    intro t ht ha
    obtain ⟨j, c, a, b, d, h4⟩ := h3 t ht ((hact t ht).mp ha)
    refine ⟨j, c, a, b, d, ?_⟩
    rw [hslot, h4]; simp
  have hbelow : ∀ t < T, ∀ (j : Nat) (c : Contact K P Q), (plan e)[j]? = some c → Covers dt c t →
      offset T dt (plan e) j + Nat.count (fun t => Covers dt c t) t < offset T dt (plan e) (j + 1) := by
    intro t ht j c hj hc
    rw [offset_succ T dt _ j c hj]
    have := Nat.count_strict_mono (p := fun t => Covers dt c t) hc ht
    unfold total; omega
  refine ⟨hact, fun t ht ha => ?_, fun t ht ha => ?_, fun t ht t' ht' ha ha' hid => ?_, fun t ht ha => ?_, fun t e' h => ?_⟩
  · obtain ⟨j, c, a, b, d, h4⟩ := hdet t ht ha
    exact ⟨j, c, by rw [h4], a, b, d, by rw [h4], by rw [h4]⟩
  · obtain ⟨j, c, a, b, d, h4⟩ := hdet t ht ha
    rw [h4, hsteps]
    have := hbelow t ht j c a b
    have := offset_le T dt (plan e) (j + 1)
    exact ⟨Int.natCast_nonneg _, by push_cast; omega⟩
  · obtain ⟨j, c, a, b, _, h4⟩ := hdet t ht ha
    obtain ⟨j', c', a', b', _, h4'⟩ := hdet t' ht' ha'
    rw [h4, h4'] at hid; dsimp only at hid
    have hid : offset T dt (plan e) j + Nat.count (fun t => Covers dt c t) t =
        offset T dt (plan e) j' + Nat.count (fun t => Covers dt c' t) t' := by exact_mod_cast hid
    have u := hbelow t ht j c a b
    have u' := hbelow t' ht' j' c' a' b'
    rcases Nat.lt_trichotomy j j' with h | h | h
    · have := offset_mono T dt (plan e) (show j + 1 ≤ j' from h); omega
    · subst h
      obtain rfl : c = c' := by rw [a] at a'; exact Option.some.inj a'
      rcases Nat.lt_trichotomy t t' with g | g | g
      · have := Nat.count_strict_mono (p := fun t => Covers dt c t) b g; omega
      · exact g
      · have := Nat.count_strict_mono (p := fun t => Covers dt c t) b' g; omega
    · have := offset_mono T dt (plan e) (show j' + 1 ≤ j from h); omega
  · rw [hslot, h2 t (.inr ?_)]
    intro c hc hcov
    have := (hact t ht).mpr ⟨c, hc, hcov⟩
    rw [ha] at this; exact absurd this (by decide)
  · show (fillDynamicsSequence n T dt plan s).slot t e' = _
    rw [fill_slot]
    split
    · rcases h with h | h
      · rw [(fillFrom_spec T dt (plan e') 0 ((fun t => s.slot t e'), 0)).2.1 t (.inl h)]
      · omega
    · rfl

/-- C43, activation ids: if no two contacts of the end-effector cover the same time step, the reported number of active steps is the
number of active time steps, and the activation ids of the active steps are exactly `0..n-1`, each used once. -/
theorem C43_activation_ids (n T : Nat) (dt : K) (plan : Nat → List (Contact K P Q)) (s : Seq P Q)
    (hs : ∀ t e, (s.slot t e).active = false) (e : Nat) (he : e < n) (hno : NonOverlapping T dt (plan e)) :
    let r := fillDynamicsSequence n T dt plan s
    r.steps e = ((Finset.range T).filter fun t => (r.slot t e).active = true).card ∧
    ∀ k < r.steps e, ∃ t, t < T ∧ (r.slot t e).active = true ∧ (r.slot t e).actId = k ∧
      ∀ t' < T, (r.slot t' e).active = true → (r.slot t' e).actId = k → t' = t := by
  intro r
  obtain ⟨p1, _, p3, p4, _⟩ := C43_activation_partial n T dt plan s hs e he
  have hset : ((Finset.range T).filter fun t => (r.slot t e).active = true) = coveredSteps T dt (plan e) := by
    ext t; simp only [Finset.mem_filter, Finset.mem_range, coveredSteps]
    exact and_congr_right fun ht => p1 t ht
  have hcard : r.steps e = (coveredSteps T dt (plan e)).card := by
    rw [card_covered T dt _ hno]
    show (fillDynamicsSequence n T dt plan s).steps e = _
    rw [fill_steps, if_pos he, (fillFrom_spec T dt (plan e) 0 _).1, zero_add]
  refine ⟨by rw [hset, hcard], fun k hk => ?_⟩
  have hm : ∀ t ∈ coveredSteps T dt (plan e), t < T ∧ (r.slot t e).active = true := fun t ht => by
    rw [← hset] at ht; simpa using ht
  have himg : (coveredSteps T dt (plan e)).image (fun t => (r.slot t e).actId.toNat) = Finset.range (r.steps e) := by
    apply Finset.eq_of_subset_of_card_le
    · intro k hk
      obtain ⟨t, ht, rfl⟩ := Finset.mem_image.mp hk
      obtain ⟨a, b⟩ := p3 t (hm t ht).1 (hm t ht).2
      rw [Finset.mem_range]
      have b' : (r.slot t e).actId < r.steps e := b
      omega
    · rw [Finset.card_range, hcard, Finset.card_image_of_injOn]
      intro t ht t' ht' heq
      obtain ⟨a, _⟩ := p3 t (hm t ht).1 (hm t ht).2
      obtain ⟨a', _⟩ := p3 t' (hm t' ht').1 (hm t' ht').2
      have a1 : 0 ≤ (r.slot t e).actId := a
      have a2 : 0 ≤ (r.slot t' e).actId := a'
      refine p4 t (hm t ht).1 t' (hm t' ht').1 (hm t ht).2 (hm t' ht').2 ?_
      have heq : (r.slot t e).actId.toNat = (r.slot t' e).actId.toNat := heq
      show (r.slot t e).actId = (r.slot t' e).actId
      omega
  have hk' : k ∈ (coveredSteps T dt (plan e)).image (fun t => (r.slot t e).actId.toNat) := by
    rw [himg]; exact Finset.mem_range.mpr hk
  obtain ⟨t, ht, hkt⟩ := Finset.mem_image.mp hk'
  obtain ⟨a, _⟩ := p3 t (hm t ht).1 (hm t ht).2
  have a1 : 0 ≤ (r.slot t e).actId := a
  have hid : (r.slot t e).actId = k := by
    have hkt : (r.slot t e).actId.toNat = k := hkt
    omega
  exact ⟨t, (hm t ht).1, (hm t ht).2, hid, fun t' ht' ha' hid' =>
    p4 t' ht' t (hm t ht).1 ha' (hm t ht).2 (hid'.trans hid.symm)⟩

/-- A plan with two non-overlapping contacts, and one with overlapping contacts. -/
def exPlan : List (Contact ℚ Nat Nat) := [⟨true, 0, 1/4, 7, 1⟩, ⟨true, 1/2, 1, 8, 2⟩]
/-- Two contacts that overlap in time. -/
def exOverlap : List (Contact ℚ Nat Nat) := [⟨true, 0, 1/2, 7, 1⟩, ⟨true, 1/4, 1, 8, 2⟩]
/-- An empty sequence. -/
def exSeq : Seq Nat Nat := ⟨fun _ _ => Slot.fresh 0 0, fun _ => 0⟩

theorem exPlan_ok : NonOverlapping 9 (1/10) exPlan := by
  intro i j c d hi hj hij t _ ⟨h1, h2⟩
  have hi2 : i < 2 := by
    by_contra h
    rw [List.getElem?_eq_none (show exPlan.length ≤ i by simp [exPlan]; omega)] at hi; simp at hi
  have hj2 : j < 2 := by
    by_contra h
    rw [List.getElem?_eq_none (show exPlan.length ≤ j by simp [exPlan]; omega)] at hj; simp at hj
  have e0 : exPlan[0]? = some ⟨true, 0, 1/4, 7, 1⟩ := rfl
  have e1 : exPlan[1]? = some ⟨true, 1/2, 1, 8, 2⟩ := rfl
  obtain ⟨rfl, rfl⟩ | ⟨rfl, rfl⟩ : (i = 0 ∧ j = 1) ∨ (i = 1 ∧ j = 0) := by omega
  · rw [e0] at hi; rw [e1] at hj
    obtain rfl := Option.some.inj hi; obtain rfl := Option.some.inj hj
    obtain ⟨_, _, a⟩ := h1; obtain ⟨_, b, _⟩ := h2
    simp only at a b; linarith
  · rw [e1] at hi; rw [e0] at hj
    obtain rfl := Option.some.inj hi; obtain rfl := Option.some.inj hj
    obtain ⟨_, a, _⟩ := h1; obtain ⟨_, _, b⟩ := h2
    simp only at a b; linarith

/-- C43 is false of the code for plans with overlapping contacts: here 5 activations are reported for 4 active time steps, and
activation id 1 belongs to no time step. -/
theorem C43_violated : ∃ (plan : Nat → List (Contact ℚ Nat Nat)) (T : Nat) (dt : ℚ),
    let r := fillDynamicsSequence 1 T dt plan exSeq
    (∀ t e, (exSeq.slot t e).active = false) ∧
    r.steps 0 ≠ ((Finset.range T).filter fun t => (r.slot t 0).active = true).card ∧
    ∃ k < r.steps 0, ∀ t < T, (r.slot t 0).active = true → (r.slot t 0).actId ≠ k := by
  refine ⟨fun _ => exOverlap, 4, 1/5, fun _ _ => rfl, ?_, 1, ?_, ?_⟩
  · decide +kernel
  · decide +kernel
  · decide +kernel

example : let r := fillDynamicsSequence 1 9 (1/10) (fun _ => exPlan) exSeq
    r.steps 0 = 7 ∧ (r.slot 1 0).active = true ∧ (r.slot 2 0).active = false ∧ (r.slot 4 0).cntId = 1 ∧ (r.slot 4 0).actId = 2 := by
  decide +kernel

/-! ### C44 -/

/-- C44 is false of the code: a time step that was active before is active after filling with any other plan, and if the new plan does not cover
it, it keeps the old contact id, activation id and pose. -/
theorem C44_violated (n T : Nat) (dt : K) (plan : Nat → List (Contact K P Q)) (s : Seq P Q) (t e : Nat)
    (ha : (s.slot t e).active = true) : ((fillDynamicsSequence n T dt plan s).slot t e).active = true ∧
    ((∀ c ∈ plan e, ¬ Covers dt c t) → (fillDynamicsSequence n T dt plan s).slot t e = s.slot t e) := by
  rw [fill_slot]
  split
  · obtain ⟨_, h2, h3⟩ := fillFrom_spec T dt (plan e) 0 ((fun t => s.slot t e), 0)
    refine ⟨?_, fun h => h2 t (.inr h)⟩
    by_cases hc : t < T ∧ ∃ c ∈ plan e, Covers dt c t
    · obtain ⟨j, c, _, _, _, h4⟩ := h3 t hc.1 hc.2
      rw [h4]
    · rw [h2 t ?_]
      · exact ha
      · by_cases hT : t < T
        · right; intro c hcm hcc; exact hc ⟨hT, c, hcm, hcc⟩
        · left; omega
  · exact ⟨ha, fun _ => rfl⟩

/-- A concrete instance: refilling with the empty plan leaves 7 active steps although 0 are reported. -/
example : let r := fillDynamicsSequence 1 9 (1/10) (fun _ => exPlan) exSeq
    let r' := fillDynamicsSequence 1 9 (1/10 : ℚ) (fun _ => ([] : List (Contact ℚ Nat Nat))) r
    r'.steps 0 = 0 ∧ (r'.slot 1 0).active = true := by
  decide +kernel

/-- C44, what holds: whatever the sequence contained, the steps covered by the new plan and the reported numbers of active steps are those of a fill of
a fresh sequence, and all other steps are untouched. Missing: stale activations of uncovered steps are not cleared. -/
theorem C44_refill_partial (n T : Nat) (dt : K) (plan : Nat → List (Contact K P Q)) (s s0 : Seq P Q) :
    (∀ e, (fillDynamicsSequence n T dt plan s).steps e = (fillDynamicsSequence n T dt plan s0).steps e) ∧
    (∀ e < n, ∀ t < T, (∃ c ∈ plan e, Covers dt c t) →
      (fillDynamicsSequence n T dt plan s).slot t e = (fillDynamicsSequence n T dt plan s0).slot t e) ∧
    (∀ e t, (∀ c ∈ plan e, ¬ Covers dt c t) → (fillDynamicsSequence n T dt plan s).slot t e = s.slot t e) := by
  refine ⟨fun e => ?_, fun e he t ht hc => ?_, fun e t hc => ?_⟩
  · rw [fill_steps, fill_steps, (fillFrom_spec T dt (plan e) 0 _).1, (fillFrom_spec T dt (plan e) 0 _).1]
  · rw [fill_slot, fill_slot, if_pos he, if_pos he]
    obtain ⟨j, c, a, b, d, h4⟩ := (fillFrom_spec T dt (plan e) 0 ((fun t => s.slot t e), 0)).2.2 t ht hc
    obtain ⟨j', c', a', b', d', h4'⟩ := (fillFrom_spec T dt (plan e) 0 ((fun t => s0.slot t e), 0)).2.2 t ht hc
    have hj : j = j' := le_antisymm (d' j c a b) (d j' c' a' b')
    subst hj
    obtain rfl : c = c' := by rw [a] at a'; exact Option.some.inj a'
    rw [h4, h4']
  · rw [fill_slot]
    split
    · exact (fillFrom_spec T dt (plan e) 0 ((fun t => s.slot t e), 0)).2.1 t (.inr hc)
    · rfl

/-! ### C59: flight phases -/

theorem findMake_eq (T : Nat) (act : Nat → Bool) (e : Nat) (he : e + 1 < T) (h0 : act e = false) (h1 : act (e + 1) = true) :
    ∀ s ≤ e, (∀ k, s ≤ k → k < e → ¬ (act k = false ∧ act (k + 1) = true)) → findMake T act s = some e := by
  intro s hs hk
  induction hd : e - s generalizing s with
  | zero =>
    obtain rfl : s = e := by omega
    rw [findMake, if_pos he, if_pos ⟨h0, h1⟩]
  | succ d ih =>
    rw [findMake, if_pos (by omega), if_neg (hk s le_rfl (by omega))]
    exact ih (s + 1) (by omega) (fun k a b => hk k (by omega) b) (by omega)

theorem findBreak_eq (T : Nat) (act : Nat → Bool) (e : Nat) (he : e + 1 < T) (h0 : act e = true) (h1 : act (e + 1) = false) :
    ∀ s ≤ e, (∀ k, s ≤ k → k < e → ¬ (act k = true ∧ act (k + 1) = false)) → findBreak T act s = some (e + 1) := by
  intro s hs hk
  induction hd : e - s generalizing s with
  | zero =>
    obtain rfl : s = e := by omega
    rw [findBreak, if_pos he, if_pos ⟨h0, h1⟩]
  | succ d ih =>
    rw [findBreak, if_pos (by omega), if_neg (hk s le_rfl (by omega))]
    exact ih (s + 1) (by omega) (fun k a b => hk k (by omega) b) (by omega)

theorem findBreak_none (T : Nat) (act : Nat → Bool) (s : Nat)
    (h : ∀ k, s ≤ k → k + 1 < T → ¬ (act k = true ∧ act (k + 1) = false)) : findBreak T act s = none := by
  induction hd : T - s generalizing s with
  | zero => rw [findBreak, if_neg (by omega)]
  | succ d ih =>
    rw [findBreak]
    split
    · next hlt => rw [if_neg (h s le_rfl hlt)]; exact ih (s + 1) (fun k a b => h k (by omega) b) (by omega)
    · rfl

/-- The contact intervals `[a, b)` (in time steps) of an end-effector: non-empty, in order, separated by at least one step
without contact, starting at or after `p`, ending by `T`. -/
def Separated (T : Nat) : Nat → List (Nat × Nat) → Prop
  | _, [] => True
  | p, (a, b) :: r => p ≤ a ∧ a < b ∧ b ≤ T ∧ Separated T (b + 1) r

/-- `act` is exactly the union of the intervals. -/
def ActiveOn (T : Nat) (act : Nat → Bool) (ivs : List (Nat × Nat)) : Prop :=
  ∀ t < T, act t = true ↔ ∃ p ∈ ivs, p.1 ≤ t ∧ t < p.2

theorem sep_ge (T : Nat) : ∀ ivs p, Separated T p ivs → ∀ q ∈ ivs, p ≤ q.1 ∧ q.1 < q.2 ∧ q.2 ≤ T := by
  intro ivs
  induction ivs with
  | nil => intro p _ q hq; simp at hq
  | cons x r ih =>
    rintro p ⟨h1, h2, h3, h4⟩ q hq
    rcases List.mem_cons.mp hq with rfl | h
    · exact ⟨h1, h2, h3⟩
    · obtain ⟨a, b, c⟩ := ih _ h4 q h; exact ⟨by omega, b, c⟩

/-- Activity from step `p` on is given by the remaining intervals. -/
def ActiveFrom (T : Nat) (act : Nat → Bool) (p : Nat) (ivs : List (Nat × Nat)) : Prop :=
  ∀ t, p ≤ t → t < T → (act t = true ↔ ∃ q ∈ ivs, q.1 ≤ t ∧ t < q.2)

/-- Gaps between the intervals, from `p` on. -/
def gaps (T : Nat) : Nat → List (Nat × Nat) → List (Nat × Nat)
  | p, [] => if p < T then [(p, T - 1)] else []
  | p, (a, b) :: r => (if p < a then [(p, a - 1)] else []) ++ gaps T b r

/-- From inside the current contact `[a,b)` (or just before it, at `e = a-1`), the remaining phases are the gaps after it. -/
theorem mid_gaps (T : Nat) (act : Nat → Bool) : ∀ (r : List (Nat × Nat)) (a b e : Nat), a < b → b ≤ T → e ≤ a → a ≤ e + 1 →
    (∀ t, e ≤ t → t < a → act t = false) →
    Separated T a ((a, b) :: r) → ActiveFrom T act a ((a, b) :: r) →
    ∃ ps e2, midPhases T act r.length e = some (ps, e2) ∧
      (if T = 0 then none else if act (T - 1) then some ps else
        (findBreak T act e2).bind fun i => some (ps ++ [(i, T - 1)])) = some (gaps T b r) := by
  intro r
  induction r with
  | nil =>
    intro a b e hab hbT hea hae hbefore hsep hact
    refine ⟨[], e, rfl, ?_⟩
    rw [if_neg (by omega)]
    have hin : ∀ t, a ≤ t → t < T → (act t = true ↔ t < b) := fun t h1 h2 => by
      rw [hact t h1 h2]; simp [h1]
    by_cases hT : b < T
    · have hl : act (T - 1) = false := by
        rw [Bool.eq_false_iff]; intro h
        rw [hin _ (by omega) (by omega)] at h; omega
      rw [hl, if_neg (by decide)]
      rw [findBreak_eq T act (b - 1) (by omega) ((hin _ (by omega) (by omega)).mpr (by omega))
        (by rw [Bool.eq_false_iff]; intro h; rw [hin _ (by omega) (by omega)] at h; omega) e (by omega)]
      · rw [Option.bind_some, gaps, if_pos hT, show b - 1 + 1 = b by omega]; rfl
      · rintro k hk1 hk2 ⟨h1, h2⟩
        by_cases hka : k < a
        · rw [hbefore k hk1 hka] at h1; exact absurd h1 (by decide)
        · have := (hin (k + 1) (by omega) (by omega)).mpr (by omega)
          rw [this] at h2; exact absurd h2 (by decide)
    · have hl : act (T - 1) = true := (hin _ (by omega) (by omega)).mpr (by omega)
      rw [hl, if_pos rfl, gaps, if_neg hT]
  | cons x r ih =>
    obtain ⟨a', b'⟩ := x
    intro a b e hab hbT hea hae hbefore hsep hact
    obtain ⟨_, _, _, h4⟩ := hsep
    obtain ⟨g1, g2, g3, g4⟩ := h4
    have hge := sep_ge T r (b' + 1) g4
    have hin : ∀ t, a ≤ t → t < b → act t = true := fun t h1 h2 =>
      (hact t h1 (by omega)).mpr ⟨(a, b), List.mem_cons_self, h1, h2⟩
    have hgap : ∀ t, b ≤ t → t < a' → act t = false := fun t h1 h2 => by
      rw [Bool.eq_false_iff]; intro h
      obtain ⟨q, hq, q1, q2⟩ := (hact t (by omega) (by omega)).mp h
      rcases List.mem_cons.mp hq with rfl | hq
      · simp only at q2; omega
      · rcases List.mem_cons.mp hq with rfl | hq
        · simp only at q1; omega
        · have := hge q hq; omega
    have hb : findBreak T act e = some b := by
      rw [findBreak_eq T act (b - 1) (by omega) (hin _ (by omega) (by omega))
        (by rw [show b - 1 + 1 = b by omega]; exact hgap b le_rfl (by omega)) e (by omega), show b - 1 + 1 = b by omega]
      rintro k hk1 hk2 ⟨h1, h2⟩
      by_cases hka : k < a
      · rw [hbefore k hk1 hka] at h1; exact absurd h1 (by decide)
      · rw [hin (k + 1) (by omega) (by omega)] at h2; exact absurd h2 (by decide)
    have hactA' : act a' = true := (hact a' (by omega) (by omega)).mpr ⟨(a', b'), by simp, le_rfl, g2⟩
    have hm : findMake T act b = some (a' - 1) := by
      refine findMake_eq T act (a' - 1) (by omega) (hgap _ (by omega) (by omega))
        (by rw [show a' - 1 + 1 = a' by omega]; exact hactA') b (by omega) ?_
      rintro k hk1 hk2 ⟨_, h2⟩
      rw [hgap (k + 1) (by omega) (by omega)] at h2; exact absurd h2 (by decide)
    obtain ⟨ps, e2, i1, i2⟩ := ih a' b' (a' - 1) g2 g3 (by omega) (by omega) (fun t t1 t2 => hgap t (by omega) t2)
      ⟨le_rfl, g2, g3, g4⟩ (fun t t1 t2 => by
        rw [hact t (by omega) t2]
        constructor
        · rintro ⟨q, hq, q1, q2⟩
          rcases List.mem_cons.mp hq with rfl | hq
          · simp only at q2; omega
          · exact ⟨q, hq, q1, q2⟩
        · rintro ⟨q, hq, q1, q2⟩; exact ⟨q, List.mem_cons_of_mem _ hq, q1, q2⟩)
    refine ⟨(b, a' - 1) :: ps, e2, ?_, ?_⟩
    · simp [midPhases, hb, hm, i1]
    · rw [gaps, if_pos (show b < a' by omega), List.singleton_append]
      rw [if_neg (show ¬ T = 0 by omega)] at i2 ⊢
      split
      · next h => rw [if_pos h] at i2; rw [Option.some.inj i2]
      · next h =>
        rw [if_neg h] at i2
        cases hf : findBreak T act e2 with
        | none => rw [hf] at i2; simp at i2
        | some i =>
          rw [hf, Option.bind_some] at i2
          rw [Option.bind_some, List.cons_append, Option.some.inj i2]

theorem gaps_spec (T : Nat) : ∀ (r : List (Nat × Nat)) (p : Nat), (∀ q ∈ r, p ≤ q.1) → p ≤ T → (∀ q ∈ r, q.1 < q.2 ∧ q.2 ≤ T) →
    List.Pairwise (fun x y => x.2 ≤ y.1) r →
    (∀ g ∈ gaps T p r, p ≤ g.1 ∧ g.1 ≤ g.2 ∧ g.2 < T) ∧
    (∀ t, p ≤ t → t < T → ((∃ g ∈ gaps T p r, g.1 ≤ t ∧ t ≤ g.2) ↔ ¬ ∃ q ∈ r, q.1 ≤ t ∧ t < q.2)) ∧
    List.Pairwise (fun g h => g.2 < h.1) (gaps T p r) := by
  intro r
  induction r with
  | nil =>
    intro p _ hp _ _
    rw [gaps]
    split
    · refine ⟨?_, ?_, by simp⟩
      · simp; omega
      · intro t h1 h2; simp; omega
    · exact ⟨by simp, fun t h1 h2 => by omega, by simp⟩
  | cons x r ih =>
    obtain ⟨a, b⟩ := x
    intro p hge hp hne hpw
    have hpa : p ≤ a := hge (a, b) List.mem_cons_self
    obtain ⟨hab, hbT⟩ := hne (a, b) List.mem_cons_self
    simp only at hab hbT
    rw [List.pairwise_cons] at hpw
    have hb' : ∀ q ∈ r, b ≤ q.1 := fun q hq => hpw.1 q hq
    obtain ⟨i1, i2, i3⟩ := ih b hb' hbT (fun q hq => hne q (List.mem_cons_of_mem _ hq)) hpw.2
    rw [gaps]
    refine ⟨?_, ?_, ?_⟩
    · intro g hg
      rcases List.mem_append.mp hg with h | h
      · split at h
        · rw [List.mem_singleton] at h; subst h; simp only; omega
        · simp at h
      · obtain ⟨c1, c2, c3⟩ := i1 g h; exact ⟨by omega, c2, c3⟩
    · intro t h1 h2
      constructor
      · rintro ⟨g, hg, g1, g2⟩ ⟨q, hq, q1, q2⟩
        rcases List.mem_append.mp hg with h | h
        · split at h
          · rw [List.mem_singleton] at h; subst h; simp only at g1 g2
            rcases List.mem_cons.mp hq with rfl | hq
            · simp only at q1; omega
            · have := hb' q hq; omega
          · simp at h
        · have hbt := (i1 g h).1
          rcases List.mem_cons.mp hq with rfl | hq
          · simp only at q2; omega
          · exact (i2 t (by omega) h2).mp ⟨g, h, g1, g2⟩ ⟨q, hq, q1, q2⟩
      · intro hno
        by_cases hta : t < a
        · exact ⟨(p, a - 1), List.mem_append_left _ (by rw [if_pos (by omega)]; simp), h1, by simp only; omega⟩
        · have hbt : b ≤ t := by
            by_contra h
            exact hno ⟨(a, b), List.mem_cons_self, by simp only; omega, by simp only; omega⟩
          obtain ⟨g, hg, g1, g2⟩ := (i2 t hbt h2).mpr (fun ⟨q, hq, q1, q2⟩ => hno ⟨q, List.mem_cons_of_mem _ hq, q1, q2⟩)
          exact ⟨g, List.mem_append_right _ hg, g1, g2⟩
    · rw [List.pairwise_append]
      refine ⟨by split <;> simp, i3, fun g hg h hh => ?_⟩
      split at hg
      · rw [List.mem_singleton] at hg; subst hg
        have := (i1 h hh).1; simp only; omega
      · simp at hg

theorem sep_pairwise (T : Nat) : ∀ ivs p, Separated T p ivs → List.Pairwise (fun x y => x.2 ≤ y.1) ivs := by
  intro ivs
  induction ivs with
  | nil => intro _ _; exact List.Pairwise.nil
  | cons x r ih =>
    rintro p ⟨_, _, _, h4⟩
    exact List.Pairwise.cons (fun q hq => by have := (sep_ge T r _ h4 q hq).1; omega) (ih _ h4)

/-- C59: if the end-effector has at least one contact, its contact intervals are separated by steps without contact, every
contact lies within the horizon, and the initial activation agrees with the first step, then generating the flight phases reads
only existing states, and every generated phase is a non-empty range of existing steps without contact; every step without contact
belongs to exactly one phase, so contact steps keep their contact pose and every other step gets a swing pose exactly once. -/
theorem C59_flight_phases_partial (T : Nat) (act : Nat → Bool) (iniAct : Bool) (ivs : List (Nat × Nat)) (hne : ivs ≠ [])
    (hsep : Separated T 0 ivs) (hact : ActiveOn T act ivs) (hini : iniAct = act 0) :
    ∃ ps, flightPhases T act iniAct ivs.length = some ps ∧
      (∀ g ∈ ps, g.1 ≤ g.2 ∧ g.2 < T ∧ ∀ t, g.1 ≤ t → t ≤ g.2 → act t = false) ∧
      (∀ t < T, act t = false → ∃ g ∈ ps, g.1 ≤ t ∧ t ≤ g.2) ∧
      List.Pairwise (fun g h => g.2 < h.1) ps := by
  have hge := sep_ge T ivs 0 hsep
  have hpw := sep_pairwise T ivs 0 hsep
  obtain ⟨s1, s2, s3⟩ := gaps_spec T ivs 0 (fun q hq => (hge q hq).1) (Nat.zero_le _) (fun q hq => (hge q hq).2) hpw
  refine ⟨gaps T 0 ivs, ?_, ?_, ?_, s3⟩
  · cases ivs with
    | nil => exact absurd rfl hne
    | cons x r =>
      obtain ⟨a, b⟩ := x
      obtain ⟨_, hab, hbT, h4⟩ := hsep
      have hgr := sep_ge T r (b + 1) h4
      have hfrom : ActiveFrom T act a ((a, b) :: r) := fun t _ h2 => hact t h2
      have hpre : ∀ t, t < a → act t = false := fun t ht => by
        rw [Bool.eq_false_iff]; intro h
        obtain ⟨q, hq, q1, q2⟩ := (hact t (by omega)).mp h
        rcases List.mem_cons.mp hq with rfl | hq
        · simp only at q1; omega
        · have := hgr q hq; omega
      have ha : act a = true := (hact a (by omega)).mpr ⟨(a, b), by simp, le_rfl, hab⟩
      unfold flightPhases
      rw [if_neg (by simp)]
      rw [show ((a, b) :: r).length - 1 = r.length by simp]
      by_cases ha0 : a = 0
      · subst ha0
        obtain ⟨ps, e2, i1, i2⟩ := mid_gaps T act r 0 b 0 hab hbT le_rfl (by omega) (fun t h1 h2 => by omega)
          ⟨le_rfl, hab, hbT, h4⟩ hfrom
        rw [hini, ha]
        simp only [if_true, Option.bind_eq_bind, Option.bind_some, i1, List.nil_append]
        rw [gaps, if_neg (show ¬ 0 < 0 by omega), List.nil_append]
        exact i2
      · obtain ⟨ps, e2, i1, i2⟩ := mid_gaps T act r a b (a - 1) hab hbT (by omega) (by omega) (fun t h1 h2 => hpre t h2)
          ⟨le_rfl, hab, hbT, h4⟩ hfrom
        have hm : findMake T act 0 = some (a - 1) := by
          refine findMake_eq T act (a - 1) (by omega) (hpre _ (by omega)) (by rw [show a - 1 + 1 = a by omega]; exact ha) 0
            (by omega) ?_
          rintro k hk1 hk2 ⟨_, h2⟩
          rw [hpre (k + 1) (by omega)] at h2; exact absurd h2 (by decide)
        rw [hini, hpre 0 (by omega)]
        simp only [Bool.false_eq_true, if_false, Option.bind_eq_bind, Option.bind_some, i1, hm]
        rw [gaps, if_pos (show 0 < a by omega)]
        rw [if_neg (show ¬ T = 0 by omega)] at i2 ⊢
        split
        · next h => rw [if_pos h] at i2; rw [Option.some.inj i2]
        · next h =>
          rw [if_neg h] at i2
          cases hf : findBreak T act e2 with
          | none => rw [hf] at i2; simp at i2
          | some i =>
            rw [hf, Option.bind_some] at i2
            rw [Option.bind_some, List.append_assoc, Option.some.inj i2]
  · intro g hg
    obtain ⟨a, b, c⟩ := s1 g hg
    refine ⟨b, c, fun t t1 t2 => ?_⟩
    rw [Bool.eq_false_iff]; intro h
    exact (s2 t (Nat.zero_le _) (by omega)).mp ⟨g, hg, t1, t2⟩ ((hact t (by omega)).mp h)
  · intro t ht hf
    refine (s2 t (Nat.zero_le _) ht).mpr fun h => ?_
    rw [(hact t ht).mpr h] at hf; exact absurd hf (by decide)

/-- The hypotheses are met by a plan with two contacts. -/
example : Separated 9 0 [(0, 2), (4, 9)] ∧ ActiveOn 9 (fun t => decide (t < 2 ∨ 4 ≤ t)) [(0, 2), (4, 9)] ∧
    flightPhases 9 (fun t => decide (t < 2 ∨ 4 ≤ t)) true 2 = some [(2, 3)] := by
  refine ⟨by simp [Separated], fun t ht => by simp; omega, ?_⟩
  decide +kernel

/-- C59 is false of the code for two contacts without a gap between them: whenever an end-effector with at least two contacts never
leaves the ground, the search for the flight phase reads beyond the end of the sequence; and if the initial state says
"no contact" although step 0 is in contact, the first phase covers steps in contact or the search reads beyond the end. -/
theorem C59_violated (T : Nat) (act : Nat → Bool) (m : Nat) :
    (2 ≤ m → (∀ t < T, act t = true) → flightPhases T act true m = none) ∧
    (1 ≤ m → act 0 = true → ∀ ps, flightPhases T act false m = some ps → ∃ g ∈ ps, g.1 ≤ 0 ∧ act 0 = true) := by
  refine ⟨fun hm ha => ?_, fun hm ha ps hps => ?_⟩
  · obtain ⟨k, rfl⟩ : ∃ k, m = k + 2 := ⟨m - 2, by omega⟩
    have : findBreak T act 0 = none := findBreak_none T act 0 fun k _ hk h => by
      rw [ha (k + 1) hk] at h; exact absurd h.2 (by decide)
    simp [flightPhases, midPhases, this]
  · unfold flightPhases at hps
    rw [if_neg (by omega)] at hps
    simp only [Bool.false_eq_true, if_false, Option.bind_eq_bind] at hps
    cases hf : findMake T act 0 with
    | none => rw [hf] at hps; simp at hps
    | some e =>
      rw [hf] at hps
      simp only [Option.bind_some] at hps
      cases hmid : midPhases T act (m - 1) e with
      | none => rw [hmid] at hps; simp at hps
      | some q =>
        rw [hmid] at hps
        simp only [Option.bind_some] at hps
        have : (0, e) ∈ ps := by
          split at hps
          · simp at hps
          · split at hps
            · rw [← Option.some.inj hps]; simp
            · cases hb : findBreak T act q.2 with
              | none => rw [hb] at hps; simp at hps
              | some i => rw [hb, Option.bind_some] at hps; rw [← Option.some.inj hps]; simp
        exact ⟨_, this, le_rfl, ha⟩

/-! ### C81: orientation during a flight phase -/

/-- C81: the interpolation parameter of the orientation during a flight phase from step `start` to step `fin` starts at 0, never
decreases, stays within [0, 1], and the target orientation is reached exactly at the steps in the second half of the phase
(from `start + (fin + 1 - start) / 2` on). -/
theorem C81_swing_orientation [IsStrictOrderedRing K] (start fin : Nat) :
    queryTime (K := K) start fin start = 0 ∧
    (∀ t, start ≤ t → t ≤ fin → 0 ≤ queryTime (K := K) start fin t ∧ queryTime (K := K) start fin t ≤ 1) ∧
    (∀ t u, start ≤ t → t ≤ u → u ≤ fin → queryTime (K := K) start fin t ≤ queryTime (K := K) start fin u) ∧
    (∀ t, start ≤ t → t ≤ fin → (queryTime (K := K) start fin t = 1 ↔ fin + 1 - start ≤ 2 * (t - start))) ∧
    (∀ t, start ≤ t → t ≤ fin → 2 * (t - start) < fin + 1 - start →
      queryTime (K := K) start fin t * ((fin + 1 - start : Nat) : K) = ((2 * (t - start) : Nat) : K)) := by
  have hd : ∀ t, start ≤ t → t ≤ fin → (0 : K) < (fin : K) + 1 - start ∧ ((fin : K) + 1 - start) = ((fin + 1 - start : Nat) : K) ∧
      2 * ((t : K) - start) = ((2 * (t - start) : Nat) : K) := by
    intro t h1 h2
    have e1 : ((fin : K) + 1 - start) = ((fin + 1 - start : Nat) : K) := by rw [Nat.cast_sub (by omega)]; push_cast; ring
    have e2 : 2 * ((t : K) - start) = ((2 * (t - start) : Nat) : K) := by push_cast [Nat.cast_sub h1]; ring
    refine ⟨?_, e1, e2⟩
    rw [e1]; exact_mod_cast (by omega : 0 < fin + 1 - start)
  refine ⟨by simp [queryTime], ?_, ?_, ?_, ?_⟩
  · intro t h1 h2
    obtain ⟨a, _, b⟩ := hd t h1 h2
    refine ⟨le_min (div_nonneg ?_ a.le) zero_le_one, min_le_right _ _⟩
    rw [b]; exact Nat.cast_nonneg _
  · intro t u h1 h2 h3
    obtain ⟨a, _, b⟩ := hd t h1 (h2.trans h3)
    refine min_le_min_right _ (div_le_div_of_nonneg_right ?_ a.le)
    have : (t : K) ≤ u := by exact_mod_cast h2
    linarith
  · intro t h1 h2
    obtain ⟨a, e, b⟩ := hd t h1 h2
    unfold queryTime
    rw [min_eq_right_iff, le_div_iff₀ a, one_mul, e, b]
    exact Nat.cast_le
  · intro t h1 h2 h3
    obtain ⟨a, e, b⟩ := hd t h1 h2
    unfold queryTime
    rw [min_eq_left, ← e, div_mul_cancel₀ _ a.ne', b]
    rw [div_le_iff₀ a, one_mul, e, b]
    exact_mod_cast h3.le

/-- A phase of 5 steps: half way at the second one, arrived at the fourth. -/
example : queryTime (K := ℚ) 3 7 4 = 2 / 5 ∧ queryTime (K := ℚ) 3 7 6 = 1 := by norm_num [queryTime]

end ContactPlan
end Verif
