import Verif.LinExpr
import Mathlib.Tactic.Ring
import Mathlib.Tactic.FieldSimp
import Mathlib.Tactic.Linarith

/-! Helper lemmas about the `LinExpr` model. -/
namespace Verif
namespace LinExpr
variable {K : Type} [Field K] [DecidableEq K]

/-- Sum of the terms, as a plain list sum. -/
def tsum (x : Nat → K) (ts : List (Nat × K)) : K := (ts.map (fun t => t.2 * x t.1)).sum

omit [DecidableEq K] in
@[simp] theorem tsum_nil (x : Nat → K) : tsum x [] = 0 := rfl
omit [DecidableEq K] in
@[simp] theorem tsum_cons (x : Nat → K) (t) (ts) : tsum x (t :: ts) = t.2 * x t.1 + tsum x ts := by
  simp [tsum]
omit [DecidableEq K] in
@[simp] theorem tsum_append (x : Nat → K) (a b) : tsum x (a ++ b) = tsum x a + tsum x b := by
  simp [tsum]

omit [DecidableEq K] in
theorem sumLoop_eq (x : Nat → K) (ts) : ∀ acc, sumLoop x acc ts = acc + tsum x ts := by
  induction ts with
  | nil => intro acc; simp [sumLoop]
  | cons t ts ih => intro acc; obtain ⟨v, c⟩ := t; simp [sumLoop, ih]; ring

omit [DecidableEq K] in
theorem getValue_eq (e : LinExpr K) (x) : e.getValue x = e.const + tsum x e.terms := sumLoop_eq _ _ _

/-- columns -/
def cols (ts : List (Nat × K)) : List Nat := ts.map Prod.fst

omit [Field K] [DecidableEq K] in
theorem any_iff (acc : List (Nat × K)) (v : Nat) :
    (acc.any (fun u => u.1 == v) = true) ↔ v ∈ cols acc := by
  simp [cols]

omit [DecidableEq K] in
theorem tsum_map_other (v : Nat) (c : K) (acc : List (Nat × K)) (h : v ∉ cols acc) :
    acc.map (fun u => if u.1 = v then (u.1, u.2 + c) else u) = acc := by
  induction acc with
  | nil => rfl
  | cons a as ih =>
    simp only [cols, List.map_cons, List.mem_cons, not_or] at h
    simp [Ne.symm h.1, ih h.2]

omit [DecidableEq K] in
theorem tsum_map_same (x : Nat → K) (v : Nat) (c : K) (acc : List (Nat × K)) (h : v ∈ cols acc)
    (nd : (cols acc).Nodup) :
    tsum x (acc.map (fun u => if u.1 = v then (u.1, u.2 + c) else u)) = tsum x acc + c * x v := by
  induction acc with
  | nil => simp [cols] at h
  | cons a as ih =>
    simp only [cols, List.map_cons, List.nodup_cons] at nd
    by_cases hv : a.1 = v
    · subst hv
      have := tsum_map_other a.1 c as nd.1
      simp only [List.map_cons, if_true, tsum_cons, this]
      ring
    · have : v ∈ cols as := by
        simp only [cols, List.map_cons, List.mem_cons] at h
        rcases h with h | h
        · exact absurd h.symm hv
        · exact h
      simp only [List.map_cons, hv, if_false, tsum_cons, ih this nd.2]
      ring

omit [DecidableEq K] in
theorem cols_map (v : Nat) (c : K) (acc : List (Nat × K)) :
    cols (acc.map (fun u => if u.1 = v then (u.1, u.2 + c) else u)) = cols acc := by
  simp only [cols, List.map_map]
  apply List.map_congr_left
  intro a _
  simp only [Function.comp]
  split <;> rfl

theorem cleanStep_cols (acc : List (Nat × K)) (t) (nd : (cols acc).Nodup) :
    (cols (cleanStep acc t)).Nodup ∧ (∀ v ∈ cols (cleanStep acc t), v ∈ cols acc ∨ v = t.1) := by
  unfold cleanStep
  split
  · rw [cols_map]; exact ⟨nd, fun v hv => Or.inl hv⟩
  · rename_i h
    rw [any_iff] at h
    split
    · constructor
      · rw [cols, List.map_append, List.nodup_append]
        refine ⟨nd, by simp, ?_⟩
        intro a ha b hb
        simp at hb
        rw [hb]
        rintro rfl
        exact h ha
      · intro v hv
        simp [cols] at hv
        rcases hv with ⟨w, hw⟩ | hv
        · left; simp [cols]; exact ⟨w, hw⟩
        · right; exact hv
    · exact ⟨nd, fun v hv => Or.inl hv⟩

theorem cleanStep_tsum (x : Nat → K) (acc : List (Nat × K)) (t) (nd : (cols acc).Nodup) :
    tsum x (cleanStep acc t) = tsum x acc + t.2 * x t.1 := by
  unfold cleanStep
  split
  · rename_i h
    rw [any_iff] at h
    exact tsum_map_same x _ _ _ h nd
  · split
    · simp
    · rename_i h
      simp at h
      simp [h]

theorem foldl_clean (x : Nat → K) (ts) : ∀ acc : List (Nat × K), (cols acc).Nodup →
    (cols (ts.foldl cleanStep acc)).Nodup ∧ tsum x (ts.foldl cleanStep acc) = tsum x acc + tsum x ts
    ∧ ∀ v ∈ cols (ts.foldl cleanStep acc), v ∈ cols acc ∨ v ∈ cols ts := by
  induction ts with
  | nil => intro acc nd; exact ⟨nd, by simp, fun v hv => Or.inl hv⟩
  | cons t ts ih =>
    intro acc nd
    obtain ⟨h1, h2, h3⟩ := ih _ (cleanStep_cols acc t nd).1
    refine ⟨h1, ?_, ?_⟩
    · rw [List.foldl_cons, h2, cleanStep_tsum x acc t nd, tsum_cons]; ring
    · intro v hv
      rcases h3 v hv with h | h
      · rcases (cleanStep_cols acc t nd).2 v h with h | h
        · exact Or.inl h
        · right; simp [cols, h]
      · right; simp only [cols, List.map_cons, List.mem_cons]; exact Or.inr h

theorem clean_value (e : LinExpr K) (x) : (clean e).getValue x = e.getValue x := by
  have := (foldl_clean x e.terms [] (by simp [cols])).2.1
  simp [getValue_eq, clean, this]

theorem clean_nodup (e : LinExpr K) : (cols (clean e).terms).Nodup :=
  (foldl_clean (fun _ => 0) e.terms [] (by simp [cols])).1

theorem clean_subset (e : LinExpr K) : ∀ v ∈ cols (clean e).terms, v ∈ cols e.terms := by
  intro v hv
  rcases (foldl_clean (fun _ => 0) e.terms [] (by simp [cols])).2.2 v hv with h | h
  · simp [cols] at h
  · exact h

omit [DecidableEq K] in
theorem tsum_scale (x : Nat → K) (f : K) (ts : List (Nat × K)) :
    tsum x (ts.map (fun t => (t.1, t.2 * f))) = f * tsum x ts := by
  induction ts with
  | nil => simp
  | cons t ts ih => simp [ih]; ring

omit [Field K] [DecidableEq K] in
theorem cols_scale (f : K → K) (ts : List (Nat × K)) :
    cols (ts.map (fun t => (t.1, f t.2))) = cols ts := by
  simp [cols, Function.comp]

theorem mul_value (e : LinExpr K) (f : K) (x) : (mul e f).getValue x = e.getValue x * f := by
  unfold mul
  split
  · rw [clean_value]; simp only [getValue_eq, tsum_scale]; ring
  · rename_i h; simp at h; simp [h, getValue_eq, ofConst]

theorem addAssign_value (e r : LinExpr K) (x) :
    (addAssign e r).getValue x = e.getValue x + r.getValue x := by
  unfold addAssign
  rw [clean_value]; simp only [getValue_eq, tsum_append]; ring

theorem sub_value (e r : LinExpr K) (x) : (sub e r).getValue x = e.getValue x - r.getValue x := by
  unfold sub; rw [addAssign_value, mul_value]; ring

omit [DecidableEq K] in
@[simp] theorem ofConst_value (a : K) (x) : (ofConst a).getValue x = a := by
  simp [getValue_eq, ofConst]
omit [DecidableEq K] in
@[simp] theorem ofVar_value (v) (a : K) (x) : (ofVar v a).getValue x = a * x v := by
  simp [getValue_eq, ofVar]

theorem mul_nodup (e : LinExpr K) (f : K) : (cols (mul e f).terms).Nodup := by
  unfold mul; split
  · exact clean_nodup _
  · simp [ofConst, cols]

theorem mul_subset (e : LinExpr K) (f : K) : ∀ v ∈ cols (mul e f).terms, v ∈ cols e.terms := by
  unfold mul; split
  · intro v hv
    have := clean_subset _ v hv
    simpa [cols_scale (fun a => a * f)] using this
  · simp [ofConst, cols]

theorem addAssign_nodup (e r : LinExpr K) : (cols (addAssign e r).terms).Nodup := clean_nodup _

theorem addAssign_subset (e r : LinExpr K) :
    ∀ v ∈ cols (addAssign e r).terms, v ∈ cols e.terms ∨ v ∈ cols r.terms := by
  intro v hv
  have := clean_subset _ v hv
  simpa [cols] using this

theorem foldl_clean_of_clean (ts : List (Nat × K)) : ∀ acc, (cols (acc ++ ts)).Nodup →
    (∀ t ∈ ts, t.2 ≠ 0) → ts.foldl cleanStep acc = acc ++ ts := by
  induction ts with
  | nil => simp
  | cons t ts ih =>
    intro acc nd nz
    have hstep : cleanStep acc t = acc ++ [t] := by
      unfold cleanStep
      have : ¬ (acc.any (fun u => u.1 == t.1) = true) := by
        rw [any_iff]
        intro h
        rw [cols, List.map_append, List.nodup_append] at nd
        exact nd.2.2 _ h t.1 (by simp) rfl
      rw [if_neg this, if_pos (nz t (by simp))]
    rw [List.foldl_cons, hstep, ih]
    · simp
    · simpa using nd
    · intro u hu; exact nz u (by simp [hu])

theorem foldl_clean_nodup (ts : List (Nat × K)) : ∀ acc, (cols (acc ++ ts)).Nodup →
    ts.foldl cleanStep acc = acc ++ ts.filter (fun t => t.2 ≠ 0) := by
  induction ts with
  | nil => simp
  | cons t ts ih =>
    intro acc nd
    have hn : ¬ (acc.any (fun u => u.1 == t.1) = true) := by
      rw [any_iff]
      intro h
      rw [cols, List.map_append, List.nodup_append] at nd
      exact nd.2.2 _ h t.1 (by simp) rfl
    rw [List.foldl_cons]
    by_cases hz : t.2 = 0
    · have : cleanStep acc t = acc := by unfold cleanStep; simp [hn, hz]
      rw [this, ih]
      · simp [hz]
      · simp only [cols, List.map_append, List.map_cons] at nd ⊢
        exact nd.sublist (by simp)
    · have : cleanStep acc t = acc ++ [t] := by unfold cleanStep; simp [hn, hz]
      rw [this, ih]
      · simp [hz]
      · simpa using nd

theorem isCleanFrom_of (ts : List (Nat × K)) : ∀ prev, (cols (prev ++ ts)).Nodup →
    (∀ t ∈ ts, t.2 ≠ 0) → isCleanFrom prev ts = true := by
  induction ts with
  | nil => simp [isCleanFrom]
  | cons t ts ih =>
    intro prev nd nz
    have hn : ¬ (prev.any (fun u => u.1 == t.1) = true) := by
      rw [any_iff]
      intro h
      rw [cols, List.map_append, List.nodup_append] at nd
      exact nd.2.2 _ h t.1 (by simp) rfl
    unfold isCleanFrom
    rw [if_neg hn, if_neg (nz t (by simp))]
    apply ih
    · simpa using nd
    · intro u hu; exact nz u (by simp [hu])

end LinExpr
end Verif
