import Verif.PyExec
import Mathlib.Tactic.Linarith
import Mathlib.Tactic.FieldSimp
import Mathlib.Tactic.Ring
import Mathlib.Tactic.NormNum
import Mathlib.Tactic.LinearCombination
import Mathlib.Tactic.IntervalCases
import Mathlib.Tactic.Positivity
import Mathlib.Data.List.GetD

/-! Properties C141-C150: interpolating, exporting and replaying a plan. -/
namespace Verif
namespace PyExec

/-! ### C142: the time vector -/

lemma timeAt_sum (dts : List ℝ) : ∀ i, i ≤ dts.length → timeAt dts i = (dts.take i).sum
  | 0, _ => by simp [timeAt]
  | i + 1, h => by
    have hi : i < dts.length := h
    rw [timeAt, timeAt_sum dts i hi.le, List.sum_take_succ dts i hi, List.getD_eq_getElem _ _ hi]

lemma timeAt_lt (dts : List ℝ) (hp : ∀ d ∈ dts, 0 < d) (i j : Nat) (hij : i < j) (hj : j ≤ dts.length) : timeAt dts i < timeAt dts j := by
  induction j with
  | zero => omega
  | succ j ih =>
    have hjl : j < dts.length := hj
    have : 0 < dts.getD j 0 := by rw [List.getD_eq_getElem _ _ hjl]; exact hp _ (List.getElem_mem _)
    rw [timeAt]
    rcases Nat.lt_succ_iff_lt_or_eq.1 hij with h | h
    · have := ih h hjl.le
      linarith
    · subst h; linarith

/-- C142. The time vector has one entry per time step, entry `i` is the total duration of the steps before it (so it starts at 0 and consecutive entries differ by the duration of
the step), and it increases strictly when the durations are positive. -/
theorem C142_time_vector (dts : List ℝ) :
    (timeVector dts).length = dts.length ∧
    (∀ i (h : i < dts.length), (timeVector dts).getD i 0 = (dts.take i).sum) ∧
    (∀ i (h : i + 1 < dts.length), (timeVector dts).getD (i + 1) 0 - (timeVector dts).getD i 0 = dts[i]) ∧
    ((∀ d ∈ dts, 0 < d) → (timeVector dts).Pairwise (· < ·)) := by
  have hl : (timeVector dts).length = dts.length := by simp [timeVector]
  have hg : ∀ i, i < dts.length → (timeVector dts).getD i 0 = timeAt dts i := fun i h => by
    rw [List.getD_eq_getElem _ _ (by omega)]
    simp [timeVector]
  refine ⟨hl, fun i h => by rw [hg i h, timeAt_sum dts i h.le], fun i h => ?_, fun hp => ?_⟩
  · rw [hg _ h, hg i (by omega), timeAt, List.getD_eq_getElem _ _ (by omega : i < dts.length)]
    ring
  · rw [List.pairwise_iff_getElem]
    intro i j hi hj hij
    rw [hl] at hi hj
    simp only [timeVector, List.getElem_map, List.getElem_range]
    exact timeAt_lt dts hp i j hij hj.le

example : timeVector [(1 : ℝ), 2, 3] = [0, 1, 3] ∧ ∀ d ∈ [(1 : ℝ), 2, 3], 0 < d := by
  refine ⟨?_, by simp⟩
  simp [timeVector, timeAt, List.range_succ]
  norm_num

/-! ### C141: interpolation -/

lemma argminFrom_spec : ∀ (l : List ℝ) (k best : Nat) (v : ℝ),
    (argminFrom l k best v = best ∧ ∀ x ∈ l, v ≤ x) ∨
    ∃ j, ∃ h : j < l.length, argminFrom l k best v = k + j ∧ l[j] < v ∧ (∀ x ∈ l, l[j] ≤ x)
  | [], k, best, v => Or.inl ⟨rfl, by simp⟩
  | x :: l, k, best, v => by
    rw [argminFrom]
    split_ifs with hx
    · rcases argminFrom_spec l (k + 1) k x with ⟨h1, h2⟩ | ⟨j, hj, h1, h2, h3⟩
      · refine Or.inr ⟨0, by simp, by simpa using h1, by simpa using hx, ?_⟩
        intro y hy
        rcases List.mem_cons.1 hy with rfl | hy
        · simp
        · simpa using h2 y hy
      · refine Or.inr ⟨j + 1, by simpa using hj, by rw [h1]; omega, by simpa using h2.trans hx, ?_⟩
        intro y hy
        rcases List.mem_cons.1 hy with rfl | hy
        · simpa using h2.le
        · simpa using h3 y hy
    · rcases argminFrom_spec l (k + 1) best v with ⟨h1, h2⟩ | ⟨j, hj, h1, h2, h3⟩
      · refine Or.inl ⟨h1, ?_⟩
        intro y hy
        rcases List.mem_cons.1 hy with rfl | hy
        · exact not_lt.1 hx
        · exact h2 y hy
      · refine Or.inr ⟨j + 1, by simpa using hj, by rw [h1]; omega, by simpa using h2, ?_⟩
        intro y hy
        rcases List.mem_cons.1 hy with rfl | hy
        · simpa using h2.le.trans (not_lt.1 hx)
        · simpa using h3 y hy

lemma argmin_spec (l : List ℝ) (hl : l ≠ []) : ∃ c, ∃ h : c < l.length, argmin l = some c ∧ ∀ x ∈ l, l[c] ≤ x := by
  cases l with
  | nil => exact absurd rfl hl
  | cons x l =>
    rcases argminFrom_spec l 1 0 x with ⟨h1, h2⟩ | ⟨j, hj, h1, h2, h3⟩
    · refine ⟨0, by simp, by rw [argmin, h1], ?_⟩
      intro y hy
      rcases List.mem_cons.1 hy with rfl | hy
      · simp
      · simpa using h2 y hy
    · refine ⟨j + 1, by simpa using hj, by rw [argmin, h1, Nat.add_comm], ?_⟩
      intro y hy
      rcases List.mem_cons.1 hy with rfl | hy
      · simpa using h2.le
      · simpa using h3 y hy

/-- Specification of linear interpolation with constant extension: `v` is the value at `t` of the function through the samples `state i` at `times[i]`. -/
def Interp (times : List ℝ) (state : Nat → ℝ) (t v : ℝ) : Prop :=
  (∀ h : 0 < times.length, t ≤ times[0] → v = state 0) ∧
  (∀ h : times.length - 1 < times.length, times[times.length - 1] ≤ t → v = state (times.length - 1)) ∧
  ∀ i (h : i + 1 < times.length), times[i] ≤ t → t ≤ times[i + 1] →
    v = (1 - (t - times[i]) / (times[i + 1] - times[i])) * state i + (t - times[i]) / (times[i + 1] - times[i]) * state (i + 1)

/-- Every time is before the first sample, after the last one, or between two neighbours, so that `Interp` fixes the value. -/
lemma cover (times : List ℝ) (h0 : times ≠ []) (t : ℝ) :
    (∃ h : 0 < times.length, t ≤ times[0]) ∨ (∃ h : times.length - 1 < times.length, times[times.length - 1] ≤ t) ∨
      ∃ i, ∃ h : i + 1 < times.length, times[i] ≤ t ∧ t ≤ times[i + 1] := by
  have hn : 0 < times.length := List.length_pos_iff.2 h0
  by_cases h1 : t ≤ times[0]
  · exact Or.inl ⟨hn, h1⟩
  have key : ∀ m (hm : m < times.length), times[m] ≤ t ∨ ∃ i, ∃ h : i + 1 < times.length, times[i] ≤ t ∧ t ≤ times[i + 1] := by
    intro m
    induction m with
    | zero => intro _; exact Or.inl (not_le.1 h1).le
    | succ m ih =>
      intro hm
      rcases ih (by omega) with h | h
      · by_cases h2 : times[m + 1] ≤ t
        · exact Or.inl h2
        · exact Or.inr ⟨m, hm, h, (not_le.1 h2).le⟩
      · exact Or.inr h
  rcases key (times.length - 1) (by omega) with h | h
  · exact Or.inr (Or.inl ⟨by omega, h⟩)
  · exact Or.inr (Or.inr h)

theorem Interp.unique {times : List ℝ} {state : Nat → ℝ} {t v w : ℝ} (h0 : times ≠ []) (hv : Interp times state t v) (hw : Interp times state t w) : v = w := by
  rcases cover times h0 t with ⟨h, h'⟩ | ⟨h, h'⟩ | ⟨i, h, h1, h2⟩
  · rw [hv.1 h h', hw.1 h h']
  · rw [hv.2.1 h h', hw.2.1 h h']
  · rw [hv.2.2 i h h1 h2, hw.2.2 i h h1 h2]

/-- C141. Evaluating an interpolated quantity never fails for a non-empty, strictly increasing time vector, and gives the piecewise linear function through the samples, held constant before the first and after the last. -/
theorem C141_interpolation (times : List ℝ) (state : Nat → ℝ) (t : ℝ) (h0 : times ≠ []) (hs : times.Pairwise (· < ·)) :
    ∃ v, evalAt times state t = some v ∧ Interp times state t v := by
  have hn : 0 < times.length := List.length_pos_iff.2 h0
  rw [List.pairwise_iff_getElem] at hs
  have hle : ∀ i j (hi : i < times.length) (hj : j < times.length), i ≤ j → times[i] ≤ times[j] := fun i j hi hj hij => by
    rcases Nat.lt_or_eq_of_le hij with h | h
    · exact (hs i j hi hj h).le
    · subst h; exact le_rfl
  have hlt' : ∀ i j (hi : i < times.length) (hj : j < times.length), times[i] < times[j] → i < j := fun i j hi hj h => by
    by_contra hc
    exact absurd (hle j i hj hi (by omega)) (not_le.2 h)
  -- a bracketing interval determines the interpolant
  have bracket : ∀ c (hc : c + 1 < times.length), times[c] ≤ t → t ≤ times[c + 1] →
      Interp times state t ((state (c + 1) - state c) / (times[c + 1] - times[c]) * (t - times[c]) + state c) := by
    intro c hc h1 h2
    have hd : times[c + 1] - times[c] ≠ 0 := (sub_pos.2 (hs c (c + 1) (by omega) hc (by omega))).ne'
    have atL : t = times[c] → (state (c + 1) - state c) / (times[c + 1] - times[c]) * (t - times[c]) + state c = state c := by
      intro e; rw [e]; ring
    have atR : t = times[c + 1] → (state (c + 1) - state c) / (times[c + 1] - times[c]) * (t - times[c]) + state c = state (c + 1) := by
      intro e; rw [e]; field_simp; ring
    refine ⟨?_, ?_, ?_⟩
    · intro h h'
      have e : t = times[c] := le_antisymm (h'.trans (hle 0 c h (by omega) (by omega))) h1
      have : c = 0 := by
        by_contra hne
        have := hs 0 c h (by omega) (by omega)
        linarith
      subst this
      exact atL e
    · intro h h'
      have hc' : c + 1 = times.length - 1 := by
        by_contra hne
        have := hs (c + 1) (times.length - 1) hc h (by omega)
        linarith
      have e : t = times[c + 1] := by
        refine le_antisymm h2 ?_
        simp only [hc']; exact h'
      rw [atR e, hc']
    · intro i hi h3 h4
      have hdi : times[i + 1] - times[i] ≠ 0 := (sub_pos.2 (hs i (i + 1) (by omega) hi (by omega))).ne'
      rcases Nat.lt_trichotomy i c with h | h | h
      · have h5 := hle (i + 1) c hi (by omega) (by omega)
        have e : t = times[c] := le_antisymm (h4.trans h5) h1
        have e' : t = times[i + 1] := le_antisymm h4 (h5.trans h1)
        have hic : i + 1 = c := by
          by_contra hne
          have := hs (i + 1) c hi (by omega) (by omega)
          linarith
        subst hic
        rw [atL e]
        rw [e', div_self hdi]; ring
      · subst h
        field_simp
        ring
      · have h5 := hle (c + 1) i hc (by omega) (by omega)
        have e : t = times[c + 1] := le_antisymm h2 (h5.trans h3)
        have e' : t = times[i] := le_antisymm (h2.trans h5) h3
        have hic : c + 1 = i := by
          by_contra hne
          have := hs (c + 1) i hc (by omega) (by omega)
          linarith
        subst hic
        rw [atR e, e']; simp
  obtain ⟨c, hc, hcm, hmin⟩ := argmin_spec (times.map fun x => |x - t|) (by simpa using h0)
  have hc' : c < times.length := by simpa using hc
  have hmin' : ∀ i (hi : i < times.length), |times[c] - t| ≤ |times[i] - t| := fun i hi => by
    have := hmin |times[i] - t| (List.mem_map.2 ⟨times[i], List.getElem_mem _, rfl⟩)
    simpa using this
  rw [evalAt, hcm]
  simp only [List.getD_eq_getElem _ _ hc']
  by_cases htc : t < times[c]
  · rw [if_pos htc, if_pos htc]
    by_cases hc0 : c = 0
    · subst hc0
      refine ⟨state 0, by simp, ?_, ?_, ?_⟩
      · intro _ _; rfl
      · intro h h'
        have := hle 0 (times.length - 1) hn h (by omega)
        linarith
      · intro i hi h1 _
        have := hle 0 i hn (by omega) (by omega)
        linarith
    · have hp : times[c - 1] ≤ t := by
        by_contra hcon
        have h1 := hmin' (c - 1) (by omega)
        have h2 := hs (c - 1) c (by omega) hc' (by omega)
        rw [abs_of_pos (by linarith), abs_of_pos (by linarith [not_le.1 hcon])] at h1
        linarith
      rw [if_neg (by omega), if_neg (by omega), List.getD_eq_getElem _ _ (by omega : c - 1 < times.length), List.getD_eq_getElem _ _ hc']
      obtain ⟨d, rfl⟩ : ∃ d, c = d + 1 := ⟨c - 1, by omega⟩
      exact ⟨_, rfl, bracket d hc' hp htc.le⟩
  · rw [if_neg htc, if_neg htc]
    have htc' := not_lt.1 htc
    by_cases hlast : times.length - 1 ≤ c
    · have hce : c = times.length - 1 := by omega
      refine ⟨state c, by rw [if_pos hlast, ite_self], ?_, ?_, ?_⟩
      · intro h h'
        by_contra hne
        have hc0 : c ≠ 0 := fun e => hne (by rw [e])
        have := hs 0 c h hc' (by omega)
        linarith
      · intro _ _; rw [hce]
      · intro i hi h1 h2
        have h3 := hle (i + 1) c hi hc' (by omega)
        have hic : i + 1 = c := by
          by_contra hne
          have := hs (i + 1) c hi hc' (by omega)
          linarith
        have e : t = times[i + 1] := by
          refine le_antisymm h2 ?_
          simp only [hic]; exact htc'
        have hdi : times[i + 1] - times[i] ≠ 0 := (sub_pos.2 (hs i (i + 1) (by omega) hi (by omega))).ne'
        rw [e, div_self hdi, hic]; ring
    · have hm : min (c + 1) (times.length - 1) = c + 1 := by omega
      rw [hm, if_neg (by omega), if_neg hlast, List.getD_eq_getElem _ _ (by omega : c + 1 < times.length), List.getD_eq_getElem _ _ hc']
      refine ⟨_, rfl, bracket c (by omega) htc' ?_⟩
      by_contra hcon
      have h1 := hmin' (c + 1) (by omega)
      have h2 := hs c (c + 1) hc' (by omega) (by omega)
      rw [abs_of_nonpos (by linarith), abs_of_nonpos (by linarith [not_le.1 hcon])] at h1
      linarith

/-- C141, consequences: at a sample time the sample itself is returned, and a bound met by every sample is met between the samples. -/
theorem C141_samples_and_bounds (times : List ℝ) (state : Nat → ℝ) (hs : times.Pairwise (· < ·)) :
    (∀ i (h : i < times.length), evalAt times state times[i] = some (state i)) ∧
    ∀ t lo hi, times ≠ [] → (∀ i, i < times.length → lo ≤ state i ∧ state i ≤ hi) → ∃ v, evalAt times state t = some v ∧ lo ≤ v ∧ v ≤ hi := by
  have hp := hs
  rw [List.pairwise_iff_getElem] at hp
  constructor
  · intro i h
    have h0 : times ≠ [] := by rintro rfl; simp at h
    obtain ⟨v, hv, h1, h2, h3⟩ := C141_interpolation times state times[i] h0 hs
    rw [hv]
    by_cases hi : i + 1 < times.length
    · rw [h3 i hi le_rfl (hp i (i + 1) h hi (by omega)).le]; simp
    · have : i = times.length - 1 := by omega
      rw [h2 (by omega) (by simp only [← this]; exact le_rfl), ← this]
  · intro t lo hi h0 hb
    obtain ⟨v, hv, h1, h2, h3⟩ := C141_interpolation times state t h0 hs
    refine ⟨v, hv, ?_⟩
    have hn : 0 < times.length := List.length_pos_iff.2 h0
    rcases cover times h0 t with ⟨h, h'⟩ | ⟨h, h'⟩ | ⟨i, h, h', h''⟩
    · rw [h1 h h']; exact hb 0 hn
    · rw [h2 h h']; exact hb _ h
    · rw [h3 i h h' h'']
      have hd : 0 < times[i + 1] - times[i] := sub_pos.2 (hp i (i + 1) (by omega) h (by omega))
      have ha : 0 ≤ (t - times[i]) / (times[i + 1] - times[i]) := div_nonneg (by linarith) hd.le
      have hb1 : (t - times[i]) / (times[i + 1] - times[i]) ≤ 1 := (div_le_one hd).2 (by linarith)
      obtain ⟨l1, u1⟩ := hb i (by omega)
      obtain ⟨l2, u2⟩ := hb (i + 1) h
      constructor <;> nlinarith

/-- A time vector with three samples meets the hypotheses of C141, and the value between the first two is interpolated. -/
example : [(0 : ℝ), 1, 3] ≠ [] ∧ [(0 : ℝ), 1, 3].Pairwise (· < ·) ∧ Interp [(0 : ℝ), 1, 3] (fun i => (i : ℝ)) 2 (3 / 2) := by
  refine ⟨by simp, by norm_num, ?_, ?_, ?_⟩
  · intro _ h; norm_num at h
  · intro _ h; norm_num at h
  · intro i h h1 h2
    have hi : i < 2 := by simp only [List.length_cons, List.length_nil] at h; omega
    interval_cases i
    · norm_num at h2
    · norm_num

end PyExec
end Verif
