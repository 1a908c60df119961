import Verif.Lin
import Verif.LdlNum
import Mathlib.Data.List.Basic

/-! The symmetric permutation of `LinSolver` is a bucket sort: where every entry goes, and what a write through `permK_` does. -/
namespace Verif
namespace Lin
open Function

/-- The position that a running index per column gives to entry `t` when the columns of the entries are `ks`. -/
def kpos (ks : List Nat) (t : Nat) : Nat := Ldl.outer (fun j => ks.count j) (ks.getD t 0) + (ks.take t).count (ks.getD t 0)

theorem take_succ_getD (ks : List Nat) {t : Nat} (h : t < ks.length) : ks.take (t + 1) = ks.take t ++ [ks.getD t 0] := by
  rw [List.take_add_one, List.getD_eq_getElem?_getD, List.getElem?_eq_getElem h]; rfl

theorem count_take_le (ks : List Nat) (t j : Nat) : (ks.take t).count j ≤ ks.count j := (List.take_sublist t ks).count_le j

theorem count_take_succ (ks : List Nat) {t : Nat} (h : t < ks.length) (j : Nat) :
    (ks.take (t + 1)).count j = (ks.take t).count j + if ks.getD t 0 = j then 1 else 0 := by
  rw [take_succ_getD ks h, List.count_append, List.count_singleton]
  simp [beq_iff_eq]

theorem count_take_lt (ks : List Nat) {t : Nat} (h : t < ks.length) : (ks.take t).count (ks.getD t 0) < ks.count (ks.getD t 0) := by
  have h1 := count_take_succ ks h (ks.getD t 0)
  rw [if_pos rfl] at h1
  have := count_take_le ks (t + 1) (ks.getD t 0)
  omega

theorem count_take_mono (ks : List Nat) {t t' : Nat} (h : t ≤ t') (j : Nat) : (ks.take t).count j ≤ (ks.take t').count j := by
  have : ks.take t = (ks.take t').take t := by rw [List.take_take, min_eq_left h]
  rw [this]; exact count_take_le _ _ _

theorem kpos_inj (ks : List Nat) {t t' : Nat} (h : t < ks.length) (h' : t' < ks.length) (e : kpos ks t = kpos ks t') : t = t' := by
  by_cases hk : ks.getD t 0 = ks.getD t' 0
  · rw [kpos, kpos, hk] at e
    have e' : (ks.take t).count (ks.getD t' 0) = (ks.take t').count (ks.getD t' 0) := by omega
    rcases lt_trichotomy t t' with hl | hl | hl
    · have h1 := count_take_succ ks h (ks.getD t' 0)
      rw [if_pos hk] at h1
      have := count_take_mono ks (show t + 1 ≤ t' from hl) (ks.getD t' 0)
      omega
    · exact hl
    · have h1 := count_take_succ ks h' (ks.getD t' 0)
      rw [if_pos rfl] at h1
      have := count_take_mono ks (show t' + 1 ≤ t from hl) (ks.getD t' 0)
      omega
  · exact absurd e (Ldl.outer_disjoint hk (count_take_lt ks h) (count_take_lt ks h'))

theorem kpos_slice (ks : List Nat) (j : Nat) : ∀ T ≤ ks.length,
    ((List.range T).filter fun t => ks.getD t 0 = j).map (kpos ks) =
      (List.range ((ks.take T).count j)).map fun i => Ldl.outer (fun j => ks.count j) j + i
  | 0, _ => by simp
  | T + 1, h => by
    have ih := kpos_slice ks j T (by omega)
    rw [List.range_succ, List.filter_append, List.map_append, ih, count_take_succ ks h]
    by_cases hk : ks.getD T 0 = j
    · rw [if_pos hk, List.range_succ, List.map_append]
      congr 1
      rw [List.filter_singleton, decide_eq_true hk]
      simp only [cond_true, List.map_cons, List.map_nil, kpos, hk]
    · rw [if_neg hk, List.filter_singleton, decide_eq_false hk]
      simp

/-- The columns of the entries after the permutation. -/
def keys (ip : Nat → Nat) (ts : List Tr) : List Nat := ts.map (destCol ip)

theorem colCount_eq (ip : Nat → Nat) (ts : List Tr) (hu : ∀ t ∈ ts, t.row ≤ t.col) (j : Nat) : colCount ip ts j = (keys ip ts).count j := by
  rw [colCount, keys, List.count_eq_length_filter, List.filter_map, List.length_map]
  congr 1
  apply List.filter_congr
  intro t ht
  rw [Bool.eq_iff_iff]
  simp [hu t ht]

theorem getD_append_length (ip : Nat → Nat) (d : List Tr) (t : Tr) (r : List Tr) : (keys ip (d ++ t :: r)).getD d.length 0 = destCol ip t := by
  rw [keys, List.map_append, List.getD_eq_getElem?_getD, List.getElem?_append_right (by simp)]
  simp

theorem take_append_length (ip : Nat → Nat) (d r : List Tr) : (keys ip (d ++ r)).take d.length = keys ip d := by
  rw [keys, List.map_append]
  conv_lhs => rw [show d.length = (d.map (destCol ip)).length by simp]
  rw [List.take_left]; rfl

/-- State of the copying loop after the entries `d`. -/
theorem twistLoop_spec (ip : Nat → Nat) (ts : List Tr) (hu : ∀ t ∈ ts, t.row ≤ t.col) : ∀ (r d : List Tr), ts = d ++ r →
    ∀ (count inner : Nat → Nat) (value : Nat → ℝ),
    (∀ j, count j = Ldl.outer (fun j => (keys ip ts).count j) j + (keys ip d).count j) →
    (∀ t (h : t < ts.length), t < d.length → inner (kpos (keys ip ts) t) = destRow ip ts[t] ∧ value (kpos (keys ip ts) t) = ts[t].val) →
    ∀ t (h : t < ts.length), (twistLoop ip r count inner value).1 (kpos (keys ip ts) t) = destRow ip ts[t] ∧
      (twistLoop ip r count inner value).2 (kpos (keys ip ts) t) = ts[t].val
  | [], d, hts, count, inner, value, _, hv => by
    intro t h
    exact hv t h (by rw [hts] at h; simpa using h)
  | e :: r, d, hts, count, inner, value, hc, hv => by
    have he : e.row ≤ e.col := hu e (by rw [hts]; simp)
    have hlen : d.length < ts.length := by rw [hts]; simp
    have hpos : count (destCol ip e) = kpos (keys ip ts) d.length := by
      rw [hc, kpos, hts, getD_append_length, take_append_length]
    have hget : ts[d.length] = e := by simp [hts]
    rw [twistLoop, if_pos he]
    apply twistLoop_spec ip ts hu r (d ++ [e]) (by simp [hts])
    · intro j
      simp only [update_apply, hc, keys, List.map_append, List.count_append, List.map_cons, List.map_nil, List.count_singleton]
      by_cases hj : j = destCol ip e
      · subst hj; simp; omega
      · simp [hj, Ne.symm hj]
    · intro t h htd
      rw [List.length_append, List.length_singleton] at htd
      have hl : ∀ t, t < ts.length → t < (keys ip ts).length := fun t h => by simpa [keys] using h
      by_cases ht : t = d.length
      · subst ht
        rw [hpos, update_self, update_self, hget]
        exact ⟨rfl, rfl⟩
      · have hne : kpos (keys ip ts) t ≠ count (destCol ip e) := by
          rw [hpos]; intro h'; exact ht (kpos_inj _ (hl t h) (hl _ hlen) h')
        rw [update_of_ne hne, update_of_ne hne]
        exact hv t h (by omega)

/-- `permK_` gives exactly the positions of the copying loop. -/
theorem permKLoop_spec (ip : Nat → Nat) (ts : List Tr) (hu : ∀ t ∈ ts, t.row ≤ t.col) : ∀ (r d : List Tr), ts = d ++ r →
    ∀ (index permK : Nat → Nat), (∀ j, index j = Ldl.outer (fun j => (keys ip ts).count j) j + (keys ip d).count j) →
    (∀ t < d.length, permK t = kpos (keys ip ts) t) → ∀ t < ts.length, permKLoop ip r d.length index permK t = kpos (keys ip ts) t
  | [], d, hts, index, permK, _, hv => by
    intro t h
    exact hv t (by rw [hts] at h; simpa using h)
  | e :: r, d, hts, index, permK, hc, hv => by
    have he : e.row ≤ e.col := hu e (by rw [hts]; simp)
    have hpos : index (destCol ip e) = kpos (keys ip ts) d.length := by
      rw [hc, kpos, hts, getD_append_length, take_append_length]
    rw [permKLoop, if_pos he, show d.length + 1 = (d ++ [e]).length by simp]
    apply permKLoop_spec ip ts hu r (d ++ [e]) (by simp [hts])
    · intro j
      simp only [update_apply, hc, keys, List.map_append, List.count_append, List.map_cons, List.map_nil, List.count_singleton]
      by_cases hj : j = destCol ip e
      · subst hj; simp; omega
      · simp [hj, Ne.symm hj]
    · intro t h
      rw [List.length_append, List.length_singleton] at h
      by_cases ht : t = d.length
      · subst ht; rw [update_self, hpos]
      · rw [update_of_ne ht]; exact hv t (by omega)

theorem twistedBy_spec (ip : Nat → Nat) (ts : List Tr) (hu : ∀ t ∈ ts, t.row ≤ t.col) (inner0 : Nat → Nat) (value0 : Nat → ℝ) :
    (twistedBy ip ts inner0 value0).outer = Ldl.outer (fun j => (keys ip ts).count j) ∧
    ∀ t (h : t < ts.length), (twistedBy ip ts inner0 value0).inner (kpos (keys ip ts) t) = destRow ip ts[t] ∧
      (twistedBy ip ts inner0 value0).value (kpos (keys ip ts) t) = ts[t].val := by
  have h1 : colCount ip ts = fun j => (keys ip ts).count j := funext fun j => colCount_eq ip ts hu j
  refine ⟨by rw [twistedBy]; simp only [h1], ?_⟩
  apply twistLoop_spec ip ts hu ts [] rfl
  · intro j; rw [h1]; simp [keys]
  · intro t h h'; simp at h'

theorem permK_spec (ip : Nat → Nat) (ts : List Tr) (hu : ∀ t ∈ ts, t.row ≤ t.col) (inner0 : Nat → Nat) (value0 : Nat → ℝ) (permK0 : Nat → Nat)
    (t : Nat) (ht : t < ts.length) : permKLoop ip ts 0 (twistedBy ip ts inner0 value0).outer permK0 t = kpos (keys ip ts) t := by
  apply permKLoop_spec ip ts hu ts [] rfl
  · intro j; rw [(twistedBy_spec ip ts hu inner0 value0).1]; simp [keys]
  · intro t h; simp at h
  · exact ht

/-- Columns read from arrays that hold row `f t` and value `v t` at the position of entry `t`. -/
theorem cols_spec (ks : List Nat) (inner : Nat → Nat) (value : Nat → ℝ) (f : Nat → Nat) (v : Nat → ℝ)
    (h : ∀ t < ks.length, inner (kpos ks t) = f t ∧ value (kpos ks t) = v t) (j : Nat) :
    ((List.range (Ldl.outer (fun j => ks.count j) (j + 1) - Ldl.outer (fun j => ks.count j) j)).map fun i =>
      (inner (Ldl.outer (fun j => ks.count j) j + i), value (Ldl.outer (fun j => ks.count j) j + i))) =
    ((List.range ks.length).filter fun t => ks.getD t 0 = j).map fun t => (f t, v t) := by
  have h1 : Ldl.outer (fun j => ks.count j) (j + 1) - Ldl.outer (fun j => ks.count j) j = ks.count j := by
    rw [Ldl.outer]; omega
  have h2 := kpos_slice ks j ks.length le_rfl
  rw [List.take_length] at h2
  rw [h1]
  have h3 : ((List.range (ks.count j)).map fun i => (inner (Ldl.outer (fun j => ks.count j) j + i), value (Ldl.outer (fun j => ks.count j) j + i))) =
      ((List.range (ks.count j)).map fun i => Ldl.outer (fun j => ks.count j) j + i).map fun p => (inner p, value p) := by
    rw [List.map_map]; rfl
  rw [h3, ← h2, List.map_map]
  apply List.map_congr_left
  intro t ht
  have ht' := List.mem_range.1 (List.mem_filter.1 ht).1
  simp only [comp]
  rw [(h t ht').1, (h t ht').2]

end Lin
end Verif
