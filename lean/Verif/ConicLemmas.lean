import Verif.Conic
import Verif.LinExprLemmas

set_option linter.unusedSimpArgs false
set_option linter.unusedSectionVars false

/-! Helper lemmas: which rows each block of `buildProblem` writes and what they contain. -/
namespace Verif
open LinExpr (tsum)
variable {K : Type} [Field K]

namespace Sys

@[simp] theorem rhs_add (row col : Nat) (v : K) (s : Sys K) : (s.add row col v).rhs = s.rhs := rfl
@[simp] theorem touched_add (row col : Nat) (v : K) (s : Sys K) : (s.add row col v).touched = s.touched := rfl
@[simp] theorem trip_set (row : Nat) (v : K) (s : Sys K) : (s.set row v).trip = s.trip := rfl
@[simp] theorem act_set (row : Nat) (v : K) (s : Sys K) (x r) : (s.set row v).act x r = s.act x r := rfl
@[simp] theorem rhs_set_self (row : Nat) (v : K) (s : Sys K) : (s.set row v).rhs row = v := by
  simp [set]
theorem rhs_set_ne {row r : Nat} (h : r ≠ row) (v : K) (s : Sys K) : (s.set row v).rhs r = s.rhs r := by
  simp [set, h]
theorem act_add (row col : Nat) (v : K) (s : Sys K) (x r) :
    (s.add row col v).act x r = s.act x r + if row = r then v * x col else 0 := by
  unfold act add
  by_cases h : row = r <;> simp [List.filter_append, List.filter_cons, h]
@[simp] theorem act_add_self (row col : Nat) (v : K) (s : Sys K) (x) :
    (s.add row col v).act x row = s.act x row + v * x col := by simp [act_add]
theorem act_add_ne {row r : Nat} (h : row ≠ r) (col : Nat) (v : K) (s : Sys K) (x) :
    (s.add row col v).act x r = s.act x r := by simp [act_add, h]

/-- Row `r` has not been written. -/
def Fresh (s : Sys K) (r : Nat) : Prop := s.rhs r = 0 ∧ r ∉ s.touched ∧ ∀ t ∈ s.trip, t.1 ≠ r

theorem Fresh.act {s : Sys K} {r} (h : s.Fresh r) (x) : s.act x r = 0 := by
  unfold Sys.act
  have : s.trip.filter (fun t => decide (t.1 = r)) = [] := by
    rw [List.filter_eq_nil_iff]; intro t ht; simpa using h.2.2 t ht
  simp [this]

/-- `s'` differs from `s` at most in rows `lo ≤ r < hi`. -/
def Local (s s' : Sys K) (lo hi : Nat) : Prop :=
  ∀ r, (r < lo ∨ hi ≤ r) → s'.rhs r = s.rhs r ∧ (∀ x, s'.act x r = s.act x r) ∧ (s.Fresh r → s'.Fresh r)

theorem Local.refl (s : Sys K) (lo hi) : Local s s lo hi := fun _ _ => ⟨rfl, fun _ => rfl, id⟩
theorem Local.trans {s s' s'' : Sys K} {lo hi} (h : Local s s' lo hi) (h' : Local s' s'' lo hi) :
    Local s s'' lo hi := fun r hr =>
  ⟨(h' r hr).1.trans (h r hr).1, fun x => ((h' r hr).2.1 x).trans ((h r hr).2.1 x),
    fun hf => (h' r hr).2.2 ((h r hr).2.2 hf)⟩
theorem Local.add {s s' : Sys K} {lo hi row} (h : Local s s' lo hi) (h1 : lo ≤ row) (h2 : row < hi) (col) (v : K) :
    Local s (s'.add row col v) lo hi := by
  refine h.trans fun r hr => ?_
  have hne : row ≠ r := by omega
  refine ⟨rfl, fun x => act_add_ne hne _ _ _ _, fun hf => ⟨hf.1, hf.2.1, ?_⟩⟩
  intro t ht
  simp only [Sys.add, List.mem_append, List.mem_singleton] at ht
  rcases ht with ht | rfl
  · exact hf.2.2 t ht
  · exact hne
theorem Local.set {s s' : Sys K} {lo hi row} (h : Local s s' lo hi) (h1 : lo ≤ row) (h2 : row < hi) (v : K) :
    Local s (s'.set row v) lo hi := by
  refine h.trans fun r hr => ?_
  have hne : r ≠ row := by omega
  refine ⟨rhs_set_ne hne _ _, fun x => rfl, fun hf => ⟨?_, ?_, hf.2.2⟩⟩
  · rw [rhs_set_ne hne]; exact hf.1
  · simp only [Sys.set, List.mem_append, List.mem_singleton, not_or]; exact ⟨hf.2.1, hne⟩
theorem Local.foldl {α : Type} {s : Sys K} {lo hi} (f : Sys K → α → Sys K) (l : List α)
    (hf : ∀ s' a, Local s s' lo hi → Local s (f s' a) lo hi) :
    ∀ s', Local s s' lo hi → Local s (l.foldl f s') lo hi := by
  induction l with
  | nil => intro s' h; exact h
  | cons a as ih => intro s' h; exact ih _ (hf _ _ h)
theorem Local.addTerms {s s' : Sys K} {lo hi row} (h : Local s s' lo hi) (h1 : lo ≤ row) (h2 : row < hi)
    (k : K) (ts) : Local s (s'.addTerms row k ts) lo hi :=
  Local.foldl _ _ (fun _ _ hh => hh.add h1 h2 _ _) _ h
theorem Local.mono {s s' : Sys K} {lo hi lo' hi'} (h : Local s s' lo hi) (h1 : lo' ≤ lo) (h2 : hi ≤ hi') :
    Local s s' lo' hi' := fun r hr => h r (by omega)

@[simp] theorem rhs_addTerms (row : Nat) (k : K) (ts) : ∀ s : Sys K, (s.addTerms row k ts).rhs = s.rhs := by
  induction ts with
  | nil => intro s; rfl
  | cons t ts ih => intro s; exact (ih _).trans rfl
theorem act_addTerms (row : Nat) (k : K) (x r) (ts) : ∀ s : Sys K,
    (s.addTerms row k ts).act x r = s.act x r + if row = r then k * tsum x ts else 0 := by
  induction ts with
  | nil => intro s; simp [addTerms]
  | cons t ts ih =>
    intro s
    have := ih (s.add row t.1 (k * t.2))
    simp only [addTerms, List.foldl_cons] at this ⊢
    rw [this, act_add]
    by_cases h : row = r <;> simp [h]; ring
@[simp] theorem act_addTerms_self (row : Nat) (k : K) (x) (ts) (s : Sys K) :
    (s.addTerms row k ts).act x row = s.act x row + k * tsum x ts := by simp [act_addTerms]
theorem act_addTerms_ne {row r : Nat} (h : row ≠ r) (k : K) (x) (ts) (s : Sys K) :
    (s.addTerms row k ts).act x r = s.act x r := by simp [act_addTerms, h]

/-- `s'` extends `s` by the given rows, starting at row `lo`. -/
structure Ext (s s' : Sys K) (lo : Nat) (rows : List ((Nat → K) → K)) : Prop where
  below : ∀ r < lo, ∀ x, s'.slack x r = s.slack x r
  at_ : ∀ i (h : i < rows.length), ∀ x, s'.slack x (lo + i) = rows[i] x
  above : ∀ r ≥ lo + rows.length, s'.Fresh r

theorem Ext.refl {s : Sys K} {lo} (h : ∀ r ≥ lo, s.Fresh r) : Ext s s lo [] :=
  ⟨fun _ _ _ => rfl, fun i h => absurd h (by simp), by simpa using h⟩

theorem Ext.trans {s s' s'' : Sys K} {lo rows rows'} (h : Ext s s' lo rows)
    (h' : Ext s' s'' (lo + rows.length) rows') : Ext s s'' lo (rows ++ rows') := by
  refine ⟨fun r hr x => ?_, fun i hi x => ?_, fun r hr => ?_⟩
  · rw [h'.below r (by omega), h.below r hr]
  · by_cases hlt : i < rows.length
    · rw [h'.below (lo + i) (by omega), h.at_ i hlt, List.getElem_append_left hlt]
    · have := h'.at_ (i - rows.length) (by simp at hi; omega) x
      rw [List.getElem_append_right (by omega), ← this]
      congr 1; omega
  · exact h'.above r (by simp at hr; omega)

theorem Ext.of_local {s s' : Sys K} {lo rows} (hf : ∀ r ≥ lo, s.Fresh r)
    (hl : Local s s' lo (lo + rows.length))
    (hv : ∀ i (h : i < rows.length), ∀ x, s'.slack x (lo + i) = rows[i] x) : Ext s s' lo rows := by
  refine ⟨fun r hr x => ?_, hv, fun r hr => ?_⟩
  · have := hl r (Or.inl hr); simp [slack, this.1, this.2.1]
  · exact (hl r (Or.inr hr)).2.2 (hf r (by omega))

theorem Ext.of_local1 {s s' : Sys K} {lo} {f : (Nat → K) → K} (hf : ∀ r ≥ lo, s.Fresh r)
    (hl : Local s s' lo (lo + 1)) (h0 : ∀ x, s'.slack x lo = f x) : Ext s s' lo [f] := by
  refine Ext.of_local hf hl ?_
  intro i hi x
  have : i = 0 := by simpa using hi
  subst this
  exact h0 x

theorem Ext.of_local2 {s s' : Sys K} {lo} {f g : (Nat → K) → K} (hf : ∀ r ≥ lo, s.Fresh r)
    (hl : Local s s' lo (lo + 2)) (h0 : ∀ x, s'.slack x lo = f x) (h1 : ∀ x, s'.slack x (lo + 1) = g x) :
    Ext s s' lo [f, g] := by
  refine Ext.of_local hf hl ?_
  intro i hi x
  have : i = 0 ∨ i = 1 := by simp at hi; omega
  rcases this with rfl | rfl
  · exact h0 x
  · exact h1 x

theorem Ext.of_local3 {s s' : Sys K} {lo} {f g k : (Nat → K) → K} (hf : ∀ r ≥ lo, s.Fresh r)
    (hl : Local s s' lo (lo + 3)) (h0 : ∀ x, s'.slack x lo = f x) (h1 : ∀ x, s'.slack x (lo + 1) = g x)
    (h2 : ∀ x, s'.slack x (lo + 2) = k x) : Ext s s' lo [f, g, k] := by
  refine Ext.of_local hf hl ?_
  intro i hi x
  have : i = 0 ∨ i = 1 ∨ i = 2 := by simp at hi; omega
  rcases this with rfl | rfl | rfl
  · exact h0 x
  · exact h1 x
  · exact h2 x

/-- Constant-width loop. -/
theorem Ext.forIdx {α : Type} (f : Nat → α → Sys K → Sys K) (rows : α → List ((Nat → K) → K)) (w lo : Nat)
    (l : List α) (hw : ∀ a ∈ l, (rows a).length = w)
    (hb : ∀ i, ∀ a ∈ l, ∀ s : Sys K, (∀ r ≥ lo + w * i, s.Fresh r) → Ext s (f i a s) (lo + w * i) (rows a)) :
    ∀ i (s : Sys K), (∀ r ≥ lo + w * i, s.Fresh r) →
      Ext s (Verif.forIdx f i l s) (lo + w * i) (l.flatMap rows) := by
  induction l with
  | nil => intro i s hs; exact Ext.refl hs
  | cons a as ih =>
    intro i s hs
    have h1 := hb i a (by simp) s hs
    have hwa := hw a (by simp)
    have h2 := ih (fun b hb' => hw b (by simp [hb'])) (fun i b hb' => hb i b (by simp [hb'])) (i + 1)
      (f i a s) (by
        intro r hr; apply h1.above; rw [hwa]; rw [Nat.mul_add] at hr; omega)
    have e : lo + w * (i + 1) = lo + w * i + (rows a).length := by rw [hwa, Nat.mul_add]; omega
    rw [e] at h2
    simpa [Verif.forIdx, List.flatMap_cons] using h1.trans h2

theorem forCount_eq {α σ : Type} (p : α → Bool) (f : Nat → α → σ → σ) (l : List α) : ∀ i (s : σ),
    forCount p f i l s = Verif.forIdx f i (l.filter p) s := by
  induction l with
  | nil => intro i s; rfl
  | cons a as ih =>
    intro i s
    by_cases h : p a <;> simp [forCount, h, Verif.forIdx, ih]

/-- Loop with running row start. -/
theorem Ext.forStart {α : Type} (width : α → Nat) (f : Nat → α → Sys K → Sys K)
    (rows : α → List ((Nat → K) → K)) (l : List α) (hw : ∀ a ∈ l, (rows a).length = width a)
    (hb : ∀ lo, ∀ a ∈ l, ∀ s : Sys K, (∀ r ≥ lo, s.Fresh r) → Ext s (f lo a s) lo (rows a)) :
    ∀ lo (s : Sys K), (∀ r ≥ lo, s.Fresh r) →
      Ext s (Verif.forStart width f lo l s) lo (l.flatMap rows) := by
  induction l with
  | nil => intro lo s hs; exact Ext.refl hs
  | cons a as ih =>
    intro lo s hs
    have h1 := hb lo a (by simp) s hs
    have hwa := hw a (by simp)
    have h2 := ih (fun b hb' => hw b (by simp [hb'])) (fun i b hb' => hb i b (by simp [hb'])) (lo + width a)
      (f lo a s) (by intro r hr; apply h1.above; omega)
    rw [← hwa] at h2
    simpa [Verif.forStart, List.flatMap_cons, hwa] using h1.trans h2

theorem fresh_zero (r : Nat) : (zero : Sys K).Fresh r := ⟨rfl, by simp [zero], by simp [zero]⟩

end Sys

/-! ### The rows of the individual blocks -/
namespace Rows
open Sys Build

/-- Row of a linear constraint (the slack is `-e`), which is silently empty if `e` has no variables. -/
def lin (e : LinExpr K) : (Nat → K) → K := fun x => if e.terms = [] then 0 else - e.getValue x

/-- The two rows of a binary variable. -/
def bin (b : Nat × K × K) : List ((Nat → K) → K) := [fun x => b.2.1 + x b.1, fun x => b.2.2 - x b.1]

/-- The linear row of a quadratic constraint. -/
def qlin (q : CQuad K) : (Nat → K) → K := fun x =>
  -(((q.quad.zip q.extra).map (fun t => t.1.1 * x t.2)).sum + q.lin.getValue x)

/-- The linear row of a second-order cone constraint. -/
def socLin (q : CQuad K) : (Nat → K) → K := fun x => -(x (q.extra.headD 0) + q.lin.getValue x)

/-- Linearisation of `Σ c q² + l` at `x0`. -/
def linearisation (q : CQuad K) (x0 x : Nat → K) : K :=
  (q.quad.map (fun t => t.1 * (t.2.getValue x0) ^ 2 +
      2 * t.1 * t.2.getValue x0 * (t.2.getValue x - t.2.getValue x0))).sum + q.lin.getValue x

/-- The row of a trust region constraint. -/
def trust (x0 : Nat → K) (thr : K) (q : CQuad K) : (Nat → K) → K := fun x => linearisation q x0 x + thr

/-- The three entries of the cone of a square. -/
def quad3 (t : Nat × LinExpr K) : List ((Nat → K) → K) :=
  [fun x => 1 + x t.1, fun x => x t.1 - 1, fun x => 2 * t.2.getValue x]

/-- The three entries of the cone of a soft constraint. -/
def soft3 (x0 : Nat → K) (q : CQuad K) : List ((Nat → K) → K) :=
  [fun x => 1 + x (q.extra.getLastD 0), fun x => x (q.extra.getLastD 0) - 1, fun x => 2 * linearisation q x0 x]

/-- The cone entries of a quadratic constraint. -/
def qcone (q : CQuad K) : List ((Nat → K) → K) := (q.extra.zip (q.quad.map Prod.snd)).flatMap quad3

/-- The cone entries of a second-order cone constraint. -/
def socCone (q : CQuad K) : List ((Nat → K) → K) :=
  (fun x => x (q.extra.headD 0)) :: q.quad.map (fun t x => t.2.getValue x)

theorem foldl_lin (row : Nat) (cst : K) (ts : List (Nat × K)) : ∀ s : Sys K,
    let s' := ts.foldl (fun s t => (s.add row t.1 t.2).set row cst) s
    (∀ x, s'.act x row = s.act x row + tsum x ts) ∧ s'.rhs row = if ts = [] then s.rhs row else cst := by
  induction ts with
  | nil => intro s; simp
  | cons t ts ih =>
    intro s
    obtain ⟨h1, h2⟩ := ih ((s.add row t.1 t.2).set row cst)
    simp only [List.foldl_cons]
    refine ⟨fun x => ?_, ?_⟩
    · rw [h1]; simp; ring
    · rw [h2]; simp

theorem ext_lineq (start i : Nat) (e : LinExpr K) (s : Sys K) (hs : ∀ r ≥ start + i, s.Fresh r) :
    Ext s (lineqBody start i e s) (start + i) [lin e] := by
  apply Ext.of_local1 hs
  · exact Local.foldl _ _ (fun s' a h => (h.add (by omega) (by simp) _ _).set (by omega) (by simp) _) _
      (Local.refl _ _ _)
  · intro x
    obtain ⟨h1, h2⟩ := foldl_lin (start + i) (-e.const) e.terms s
    have hf := hs (start + i) (by omega)
    simp only [slack, lineqBody, Nat.add_zero, h1, h2, hf.act, lin, LinExpr.getValue_eq]
    by_cases h : e.terms = []
    · simp [h, hf.1]
    · simp [h]; ring

theorem ext_eq (i : Nat) (e : LinExpr K) (s : Sys K) (hs : ∀ r ≥ 0 + 1 * i, s.Fresh r) :
    Ext s (eqBody i e s) (0 + 1 * i) [lin e] := by
  have := ext_lineq 0 i e s (by simpa using hs)
  simpa [eqBody, lineqBody] using this

theorem ext_bin (start i : Nat) (b : Nat × K × K) (s : Sys K) (hs : ∀ r ≥ start + 2 * i, s.Fresh r) :
    Ext s (binBody start i b s) (start + 2 * i) (bin b) := by
  have f0 := hs (start + 2 * i) (by omega)
  have f1 := hs (start + 2 * i + 1) (by omega)
  have ne : start + 2 * i ≠ start + 2 * i + 1 := by omega
  apply Ext.of_local2 hs
  · unfold binBody
    refine (((((Local.refl s _ _).add ?_ ?_ _ _).add ?_ ?_ _ _).set ?_ ?_ _).set ?_ ?_ _) <;> omega
  · intro x
    simp only [slack, binBody, Nat.add_zero, act_set, act_add_ne ne.symm, act_add_self, f0.act, rhs_set_ne ne,
        rhs_set_self]
    ring
  · intro x
    simp only [slack, binBody, act_set, act_add_ne ne, act_add_self, f1.act,
        rhs_set_self]
    ring

theorem foldl_add (row : Nat) {α : Type} (g : α → Nat) (v : α → K) (l : List α) : ∀ s : Sys K,
    let s' := l.foldl (fun s t => s.add row (g t) (v t)) s
    (∀ x, s'.act x row = s.act x row + (l.map (fun t => v t * x (g t))).sum) ∧ s'.rhs = s.rhs := by
  induction l with
  | nil => intro s; simp
  | cons t ts ih =>
    intro s
    obtain ⟨h1, h2⟩ := ih (s.add row (g t) (v t))
    simp only [List.foldl_cons]
    refine ⟨fun x => ?_, ?_⟩
    · rw [h1]; simp; ring
    · rw [h2]; simp

theorem ext_qlin (start i : Nat) (q : CQuad K) (s : Sys K) (hs : ∀ r ≥ start + i, s.Fresh r) :
    Ext s (qlinBody start i q s) (start + i) [qlin q] := by
  apply Ext.of_local1 hs
  · unfold qlinBody
    refine Local.set (Local.addTerms ?_ (by omega) (by simp) _ _) (by omega) (by simp) _
    exact Local.foldl _ _ (fun s' a h => (h.add (by omega) (by simp) _ _)) _ (Local.refl _ _ _)
  · intro x
    obtain ⟨h1, h2⟩ := foldl_add (start + i) (fun t : (K × LinExpr K) × Nat => t.2) (fun t => t.1.1) (q.quad.zip q.extra) s
    have hf := hs (start + i) (by omega)
    simp only [slack, qlinBody, Nat.add_zero, act_set, act_addTerms_self, h1, hf.act, rhs_set_self, qlin,
      LinExpr.getValue_eq]
    ring

theorem ext_socLin (start i : Nat) (q : CQuad K) (s : Sys K) (hs : ∀ r ≥ start + i, s.Fresh r) :
    Ext s (socLinBody start i q s) (start + i) [socLin q] := by
  apply Ext.of_local1 hs
  · unfold socLinBody
    exact Local.set (Local.addTerms ((Local.refl _ _ _).add (by omega) (by simp) _ _) (by omega) (by simp) _ _)
      (by omega) (by simp) _
  · intro x
    have hf := hs (start + i) (by omega)
    simp only [slack, socLinBody, Nat.add_zero, act_set, act_addTerms_self, act_add_self, hf.act, rhs_set_self,
      socLin, LinExpr.getValue_eq]
    ring

theorem ext_quad (start i : Nat) (t : Nat × LinExpr K) (s : Sys K) (hs : ∀ r ≥ start + 3 * i, s.Fresh r) :
    Ext s (quadBody start i t s) (start + 3 * i) (quad3 t) := by
  have f0 := hs (start + 3 * i) (by omega)
  have f1 := hs (start + 3 * i + 1) (by omega)
  have f2 := hs (start + 3 * i + 2) (by omega)
  have n01 : start + 3 * i ≠ start + 3 * i + 1 := by omega
  have n02 : start + 3 * i ≠ start + 3 * i + 2 := by omega
  have n12 : start + 3 * i + 1 ≠ start + 3 * i + 2 := by omega
  apply Ext.of_local3 hs
  · unfold quadBody
    refine Local.set (Local.set (Local.set (Local.addTerms (((Local.refl s _ _).add ?_ ?_ _ _).add ?_ ?_ _ _)
      ?_ ?_ _ _) ?_ ?_ _) ?_ ?_ _) ?_ ?_ _ <;> omega
  · intro x; simp only [slack, quadBody, Nat.add_zero, act_set, act_addTerms_ne n02.symm, act_add_ne n01.symm,
        act_add_self, f0.act, rhs_set_ne n01, rhs_set_ne n02, rhs_set_self]
    ring
  · intro x; simp only [slack, quadBody, Nat.add_zero, act_set, act_addTerms_ne n12.symm, act_add_ne n01,
        act_add_self, f1.act, rhs_set_ne n12, rhs_set_self]
    ring
  · intro x; simp only [slack, quadBody, Nat.add_zero, act_set, act_addTerms_self, act_add_ne n02, act_add_ne n12,
        f2.act, rhs_set_self, LinExpr.getValue_eq]
    ring

/-- Inner loop of the trust-region / soft blocks over the terms of one squared expression. -/
theorem fold_inner (row : Nat) (k m : K) (x0 : Nat → K) (ts : List (Nat × K)) : ∀ s : Sys K,
    let s' := ts.foldl (fun s u =>
      let s' := s.add row u.1 (k * u.2)
      s'.set row (s'.rhs row - m * u.2 * x0 u.1)) s
    (∀ x, s'.act x row = s.act x row + k * tsum x ts) ∧ s'.rhs row = s.rhs row - m * tsum x0 ts := by
  induction ts with
  | nil => intro s; simp
  | cons t ts ih =>
    intro s
    obtain ⟨h1, h2⟩ := ih ((s.add row t.1 (k * t.2)).set row ((s.add row t.1 (k * t.2)).rhs row - m * t.2 * x0 t.1))
    simp only [List.foldl_cons]
    refine ⟨fun x => ?_, ?_⟩
    · rw [h1]; simp; ring
    · rw [h2]; simp; ring

theorem fold_outer (row : Nat) (k m : K) (x0 : Nat → K) (qs : List (K × LinExpr K)) : ∀ s : Sys K,
    let s' := qs.foldl (fun s t => t.2.terms.foldl (fun s u =>
      let s' := s.add row u.1 (k * t.1 * t.2.getValue x0 * u.2)
      s'.set row (s'.rhs row - m * t.1 * t.2.getValue x0 * u.2 * x0 u.1)) s) s
    (∀ x, s'.act x row = s.act x row + (qs.map (fun t => k * t.1 * t.2.getValue x0 * tsum x t.2.terms)).sum) ∧
    s'.rhs row = s.rhs row - (qs.map (fun t => m * t.1 * t.2.getValue x0 * tsum x0 t.2.terms)).sum := by
  induction qs with
  | nil => intro s; simp
  | cons t ts ih =>
    intro s
    obtain ⟨g1, g2⟩ := fold_inner row (k * t.1 * t.2.getValue x0) (m * t.1 * t.2.getValue x0) x0 t.2.terms s
    obtain ⟨h1, h2⟩ := ih (t.2.terms.foldl (fun s u =>
      let s' := s.add row u.1 (k * t.1 * t.2.getValue x0 * u.2)
      s'.set row (s'.rhs row - m * t.1 * t.2.getValue x0 * u.2 * x0 u.1)) s)
    simp only [List.foldl_cons]
    refine ⟨fun x => ?_, ?_⟩
    · rw [h1, g1]; simp only [List.map_cons, List.sum_cons]; ring
    · rw [h2, g2]; simp only [List.map_cons, List.sum_cons]; ring

theorem local_outer {s : Sys K} {lo hi : Nat} (row : Nat) (h1 : lo ≤ row) (h2 : row < hi) (k m : K) (x0 : Nat → K)
    (qs : List (K × LinExpr K)) (s0 : Sys K) (h : Local s s0 lo hi) :
    Local s (qs.foldl (fun s t => t.2.terms.foldl (fun s u =>
      let s' := s.add row u.1 (k * t.1 * t.2.getValue x0 * u.2)
      s'.set row (s'.rhs row - m * t.1 * t.2.getValue x0 * u.2 * x0 u.1)) s) s0) lo hi := by
  refine Local.foldl _ _ (fun s' t h' => ?_) _ h
  exact Local.foldl _ _ (fun s'' u h'' => (h''.add h1 h2 _ _).set h1 h2 _) _ h'

theorem foldl_sum {α : Type} (f : α → K) (l : List α) : ∀ a : K,
    l.foldl (fun acc t => acc + f t) a = a + (l.map f).sum := by
  induction l with
  | nil => intro a; simp
  | cons b bs ih => intro a; simp [ih]; ring

theorem quadValue_eq (q : CQuad K) (x) :
    quadValue q x = (q.quad.map (fun t => t.1 * (t.2.getValue x) ^ 2)).sum := by
  simp [quadValue, foldl_sum]

theorem linearisation_eq (q : CQuad K) (x0 x : Nat → K) :
    linearisation q x0 x = (q.quad.map (fun t => 2 * t.1 * t.2.getValue x0 * tsum x t.2.terms)).sum -
      (q.quad.map (fun t => 2 * t.1 * t.2.getValue x0 * tsum x0 t.2.terms)).sum +
      quadValue q x0 + q.lin.getValue x := by
  unfold linearisation
  rw [quadValue_eq]
  congr 1
  induction q.quad with
  | nil => simp
  | cons t ts ih =>
    simp only [List.map_cons, List.sum_cons, ih, LinExpr.getValue_eq t.2]
    ring

theorem ext_trust (x0 : Nat → K) (thr : K) (start i : Nat) (q : CQuad K) (s : Sys K)
    (hs : ∀ r ≥ start + i, s.Fresh r) :
    Ext s (trustBody x0 thr start i q s) (start + i) [trust x0 thr q] := by
  apply Ext.of_local1 hs
  · unfold trustBody
    refine Local.set (Local.addTerms ?_ (by omega) (by simp) _ _) (by omega) (by simp) _
    exact local_outer _ (by omega) (by simp) (-2) 2 x0 _ _ ((Local.refl _ _ _).set (by omega) (by simp) _)
  · intro x
    have hf := hs (start + i) (by omega)
    obtain ⟨h1, h2⟩ := fold_outer (start + i) (-2) 2 x0 q.quad (s.set (start + i) 0)
    simp only [slack, trustBody, Nat.add_zero, act_set, rhs_set_self, act_addTerms_self, rhs_addTerms, h1, h2, hf.act,
      trust, linearisation_eq]
    have : (q.quad.map (fun t => -2 * t.1 * t.2.getValue x0 * tsum x t.2.terms)).sum
        = - (q.quad.map (fun t => 2 * t.1 * t.2.getValue x0 * tsum x t.2.terms)).sum := by
      induction q.quad with
      | nil => simp
      | cons t ts ih => simp only [List.map_cons, List.sum_cons, ih]; ring
    rw [this, LinExpr.getValue_eq]
    ring

theorem ext_soft (x0 : Nat → K) (start i : Nat) (q : CQuad K) (s : Sys K)
    (hs : ∀ r ≥ start + 3 * i, s.Fresh r) :
    Ext s (softBody x0 start i q s) (start + 3 * i) (soft3 x0 q) := by
  have f0 := hs (start + 3 * i) (by omega)
  have f1 := hs (start + 3 * i + 1) (by omega)
  have f2 := hs (start + 3 * i + 2) (by omega)
  have n01 : start + 3 * i ≠ start + 3 * i + 1 := by omega
  have n02 : start + 3 * i ≠ start + 3 * i + 2 := by omega
  have n12 : start + 3 * i + 1 ≠ start + 3 * i + 2 := by omega
  -- state before the loops
  let s1 : Sys K := (((((s.set (start + 3 * i + 0) 1).set (start + 3 * i + 1) (-1)).set (start + 3 * i + 2) 0).add
    (start + 3 * i + 0) (q.extra.getLastD 0) (-1)).add (start + 3 * i + 1) (q.extra.getLastD 0) (-1))
  have l1 : Local s s1 (start + 3 * i) (start + 3 * i + 3) := by
    refine (((((Local.refl s _ _).set ?_ ?_ _).set ?_ ?_ _).set ?_ ?_ _).add ?_ ?_ _ _).add ?_ ?_ _ _ <;> omega
  -- what happens from `s1` on concerns only the third row
  have l2 : Local s1 (softBody x0 start i q s) (start + 3 * i + 2) (start + 3 * i + 3) := by
    unfold softBody
    refine Local.set (Local.set (Local.addTerms ?_ ?_ ?_ _ _) ?_ ?_ _) ?_ ?_ _ <;> try omega
    exact local_outer _ (by omega) (by omega) (-4) 2 x0 _ _ (Local.refl _ _ _)
  apply Ext.of_local3 hs
  · exact l1.trans (l2.mono (by omega) (by omega))
  · intro x
    · have := l2 (start + 3 * i) (Or.inl (by omega))
      simp only [slack, Nat.add_zero, this.1, this.2.1, s1, rhs_add, act_set, act_add_ne n01.symm, act_add_self,
        f0.act, rhs_set_ne n01, rhs_set_ne n02, rhs_set_self]
      ring
  · intro x
    · have := l2 (start + 3 * i + 1) (Or.inl (by omega))
      simp only [slack, Nat.add_zero, this.1, this.2.1, s1, rhs_add, act_set, act_add_ne n01, act_add_self,
        f1.act, rhs_set_ne n12, rhs_set_self]
      ring
  · intro x
    · obtain ⟨h1, h2⟩ := fold_outer (start + 3 * i + 2) (-4) 2 x0 q.quad s1
      have e1 : s1.act x (start + 3 * i + 2) = 0 := by
        simp only [s1, Nat.add_zero, act_add_ne n12, act_add_ne n02, act_set, f2.act]
      have e2 : s1.rhs (start + 3 * i + 2) = 0 := by simp [s1]
      have hb : softBody x0 start i q s =
        let s2 := q.quad.foldl (fun s t => t.2.terms.foldl (fun s u =>
          let s' := s.add (start + 3 * i + 2) u.1 (-4 * t.1 * t.2.getValue x0 * u.2)
          s'.set (start + 3 * i + 2) (s'.rhs (start + 3 * i + 2) - 2 * t.1 * t.2.getValue x0 * u.2 * x0 u.1)) s) s1
        let s3 := s2.addTerms (start + 3 * i + 2) (-2) q.lin.terms
        let s4 := s3.set (start + 3 * i + 2) (s3.rhs (start + 3 * i + 2) + (q.lin.const + quadValue q x0))
        s4.set (start + 3 * i + 2) (2 * s4.rhs (start + 3 * i + 2)) := rfl
      simp only [slack, hb, act_set, rhs_set_self, act_addTerms_self, rhs_addTerms, h1, h2, e1, e2,
        linearisation_eq]
      have : (q.quad.map (fun t => -4 * t.1 * t.2.getValue x0 * tsum x t.2.terms)).sum
          = - 2 * (q.quad.map (fun t => 2 * t.1 * t.2.getValue x0 * tsum x t.2.terms)).sum := by
        induction q.quad with
        | nil => simp
        | cons t ts ih => simp only [List.map_cons, List.sum_cons, ih]; ring
      rw [this, LinExpr.getValue_eq]
      ring

theorem ext_qcone (start : Nat) (q : CQuad K) (s : Sys K) (hs : ∀ r ≥ start, s.Fresh r) :
    Ext s (qconeBody start q s) start (qcone q) := by
  have := Ext.forIdx (quadBody start) quad3 3 start (q.extra.zip (q.quad.map Prod.snd)) (by simp [quad3])
    (fun i a _ s hs => ext_quad start i a s hs) 0 s (by simpa using hs)
  simpa [qconeBody, qcone] using this

theorem ext_soc (start : Nat) (q : CQuad K) (s : Sys K) (hs : ∀ r ≥ start, s.Fresh r) :
    Ext s (socBody start q s) start (socCone q) := by
  have f0 := hs start (by omega)
  have h1 : Ext s ((s.add (start + 0) (q.extra.headD 0) (-1)).set (start + 0) 0) start
      [fun x => x (q.extra.headD 0)] := by
    apply Ext.of_local1 hs
    · exact ((Local.refl s _ _).add (by omega) (by simp) _ _).set (by omega) (by simp) _
    · intro x
      simp only [slack, Nat.add_zero, act_set, act_add_self, rhs_set_self, f0.act]; ring
  have h2 := Ext.forIdx (fun i (t : K × LinExpr K) s =>
    (s.addTerms (start + i + 1) (-1) t.2.terms).set (start + i + 1) t.2.const)
    (fun t => [fun x => t.2.getValue x]) 1 (start + 1) q.quad (by simp) (by
      intro i t _ s hs
      have hr : start + 1 + 1 * i = start + i + 1 := by omega
      rw [hr] at hs ⊢
      apply Ext.of_local1 hs
      · exact Local.set ((Local.refl s _ _).addTerms (by omega) (by simp) _ _) (by omega) (by simp) _
      · intro x
        have f := hs (start + i + 1) (by omega)
        simp only [slack, Nat.add_zero, act_set, act_addTerms_self, rhs_set_self, f.act,
          LinExpr.getValue_eq]
        ring) 0 _ (by simpa using h1.above)
  have := h1.trans (by simpa using h2)
  have e : q.quad.flatMap (fun t => [fun x => t.2.getValue x]) = q.quad.map (fun t x => t.2.getValue x) := by
    induction q.quad with
    | nil => rfl
    | cons a as ih => simp [ih]
  rw [e] at this
  simpa [socBody, socCone] using this

end Rows
end Verif
