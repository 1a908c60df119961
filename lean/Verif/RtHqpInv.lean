/-
Invariants of `rt_solver::RtHQPSolver` over a sequence of tasks (`Verif.RtHqp`).
-/
import Verif.RtHqpLin

namespace Verif
namespace RtHqp

open Rt

/-- The map from the remaining free directions to the variables, as the next task will use it. -/
noncomputable def eff (s : State) : Mat := mulIfFits s.N s.K

/-- Invariant kept by `solveNextTask`. -/
structure Inv (E : Ext) (P : Params) (n : Nat) (s : State) : Prop where
  slack : s.slacks = true
  xsz : s.x.size = n
  nrows : s.N.rows = n
  niso : Iso s.N
  kiso : Iso s.K
  kfit : s.K.rows = s.N.cols ∨ s.K.cols = s.N.cols
  kB : s.B.rows ≠ 0 → s.K = nullspaceMap P.thr s.B (E.svd s.B)
  ksq : s.K.rows = s.K.cols → ∀ u : Nat → ℝ, ∃ v, ∀ i < s.K.rows, mulV s.K v i = u i
  acol : s.A.cols = s.N.cols
  arow : s.A.rows = s.a.size
  zsz : s.a.size ≠ 0 → s.z.size = s.N.cols
  wsz : s.w.size ≤ s.a.size

theorem Inv.start (E : Ext) (P : Params) (n : Nat) (s0 : State) : Inv E P n (start E n s0) where
  slack := rfl
  xsz := rfl
  nrows := rfl
  niso := Iso.ident n
  kiso := Iso.ident n
  kfit := Or.inl rfl
  kB := fun h => absurd rfl h
  ksq := fun _ u => ⟨u, fun i hi => mulV_ident n u i hi⟩
  acol := rfl
  arow := rfl
  zsz := fun h => absurd rfl h
  wsz := le_rfl

section
variable {E : Ext} {P : Params} {n : Nat} {s : State}

theorem Inv.eff_rows (h : Inv E P n s) : (eff s).rows = n := by
  unfold eff mulIfFits
  split
  · exact h.nrows
  · exact h.nrows

theorem Inv.eff_cols (h : Inv E P n s) : (eff s).cols = s.K.cols := by
  unfold eff mulIfFits
  split
  · rfl
  · rename_i hc
    rcases h.kfit with h' | h'
    · exact absurd h'.symm hc
    · exact h'.symm

theorem Inv.eff_iso (h : Inv E P n s) : Iso (eff s) := by
  unfold eff mulIfFits
  split
  · rename_i hc
    exact h.niso.mul h.kiso hc
  · exact h.niso

theorem prepare_N (t : Task) : (prepare E P t s).N = eff s := rfl

theorem Inv.a1_size (P : Params) (s : State) : (updA1 P s).size = s.a.size := by
  unfold updA1
  split
  · split <;> rfl
  · rfl

theorem prepare_a_size (t : Task) : (prepare E P t s).a.size = s.a.size + t.ineq.1.rows := by
  simp only [prepare]
  by_cases h : t.ineq.1.rows = 0
  · simp only [h, ne_eq, not_true, if_false]
    rw [Inv.a1_size]; rfl
  · simp only [h, ne_eq, not_false_eq_true, if_true]
    simp only [Vec.append, Vec.setBlock, Vec.conservativeResize]
    rw [Inv.a1_size]

theorem Inv.A1_cols (h : Inv E P n s) : (mulIfFits s.A s.K).cols = (eff s).cols := by
  unfold eff mulIfFits
  rw [h.acol]
  split
  · rfl
  · exact h.acol

theorem A1_rows : (mulIfFits s.A s.K).rows = s.A.rows := by
  unfold mulIfFits
  split <;> rfl

theorem Inv.prepare_A_cols (h : Inv E P n s) (t : Task) : (prepare E P t s).A.cols = (eff s).cols := by
  simp only [prepare]
  by_cases h0 : t.ineq.1.rows = 0
  · simp only [h0, ne_eq, not_true, if_false]
    exact h.A1_cols
  · simp only [h0, ne_eq, not_false_eq_true, if_true]
    unfold Mat.append
    split
    · rfl
    · exact h.A1_cols

theorem Inv.prepare_A_rows (h : Inv E P n s) (t : Task) :
    (prepare E P t s).A.rows = s.a.size + t.ineq.1.rows := by
  simp only [prepare]
  by_cases h0 : t.ineq.1.rows = 0
  · simp only [h0, ne_eq, not_true, if_false]
    rw [A1_rows, h.arow]; rfl
  · simp only [h0, ne_eq, not_false_eq_true, if_true]
    unfold Mat.append
    split
    · rename_i h1
      rw [A1_rows, h.arow] at h1
      rw [h1, Nat.zero_add]; rfl
    · show (mulIfFits s.A s.K).rows + (mul t.ineq.1 _).rows = _
      rw [A1_rows, h.arow]; rfl

/-- What the SVD step leaves. -/
theorem svdStep_eq (s' : State) : (svdStep E P s').N = s'.N ∧ (svdStep E P s').x = s'.x ∧
    (svdStep E P s').A = s'.A ∧ (svdStep E P s').a = s'.a ∧ (svdStep E P s').w = s'.w ∧
    (svdStep E P s').slacks = s'.slacks ∧ (svdStep E P s').B = s'.B ∧
    (svdStep E P s').K = if s'.B.rows ≠ 0 then nullspaceMap P.thr s'.B (E.svd s'.B) else s'.K := by
  unfold svdStep
  split
  · exact ⟨rfl, rfl, rfl, rfl, rfl, rfl, rfl, rfl⟩
  · exact ⟨rfl, rfl, rfl, rfl, rfl, rfl, rfl, rfl⟩

theorem step_skip {t : Task} (h : skips t s = true) : solveNextTask E P t s = (s, true) := by
  unfold solveNextTask; rw [if_pos h]

theorem step_run {t : Task} (h : skips t s = false) :
    (solveNextTask E P t s).1 = finish E t (outcome E P t s) (svdStep E P (prepare E P t s)) := by
  unfold solveNextTask; rw [if_neg (by rw [h]; exact Bool.false_ne_true)]

/-- The new search direction of a task. -/
noncomputable def zOf (E : Ext) (P : Params) (t : Task) (s : State) : Nat → ℝ :=
  match outcome E P t s with
  | some y => y
  | none => fun _ => 0

/-- The new slacks of a task. -/
noncomputable def wOf (E : Ext) (P : Params) (t : Task) (s : State) : Nat → ℝ :=
  match outcome E P t s with
  | some y => fun i => y ((eff s).cols + i)
  | none => fun _ => 0

/-- The state after a task that is not skipped, when slacks are applied. -/
theorem step_fields {t : Task} (hs : s.slacks = true) (h : skips t s = false) :
    (solveNextTask E P t s).1.N = eff s ∧
    (solveNextTask E P t s).1.x = ⟨s.x.size, fun i => s.x.at' i + mulV (eff s) (zOf E P t s) i⟩ ∧
    (solveNextTask E P t s).1.A = (prepare E P t s).A ∧
    (solveNextTask E P t s).1.a = (prepare E P t s).a ∧
    (solveNextTask E P t s).1.z = ⟨(eff s).cols, zOf E P t s⟩ ∧
    (solveNextTask E P t s).1.w = (if t.ineq.1.rows ≠ 0 then ⟨t.ineq.1.rows, wOf E P t s⟩ else s.w) ∧
    (solveNextTask E P t s).1.slacks = true ∧
    (solveNextTask E P t s).1.B = (prepare E P t s).B ∧
    (solveNextTask E P t s).1.K = (if (prepare E P t s).B.rows ≠ 0 then
      nullspaceMap P.thr (prepare E P t s).B (E.svd (prepare E P t s).B) else s.K) := by
  rw [step_run h]
  obtain ⟨e1, e2, e3, e4, e5, e6, e7, e8⟩ := svdStep_eq (E := E) (P := P) (prepare E P t s)
  have e6' : (svdStep E P (prepare E P t s)).slacks = true := e6.trans hs
  have ez : (finish E t (outcome E P t s) (svdStep E P (prepare E P t s))).z = ⟨(eff s).cols, zOf E P t s⟩ := by
    simp only [finish, e6', zOf, Bool.not_true]
    rw [e1, prepare_N]
    cases outcome E P t s <;> rfl
  refine ⟨?_, ?_, e3, e4, ez, ?_, e6', e7, e8⟩
  · simp only [finish]; rw [e1]; rfl
  · have : (finish E t (outcome E P t s) (svdStep E P (prepare E P t s))).x =
        ⟨(svdStep E P (prepare E P t s)).x.size, fun i => (svdStep E P (prepare E P t s)).x.at' i +
          mulV (svdStep E P (prepare E P t s)).N
            (finish E t (outcome E P t s) (svdStep E P (prepare E P t s))).z.at' i⟩ := rfl
    rw [this, ez, e1, e2]
    rfl
  · simp only [finish, e6', wOf]
    rw [e1, prepare_N, e5]
    cases outcome E P t s <;> rfl

theorem Inv.kB_new (h : Inv E P n s) {t : Task} (h0 : t.eq.1.rows = 0) :
    (if (prepare E P t s).B.rows ≠ 0 then
      nullspaceMap P.thr (prepare E P t s).B (E.svd (prepare E P t s).B) else s.K) = s.K := by
  have : (prepare E P t s).B = s.B := by simp only [prepare]; rw [if_neg (by simpa using h0)]
  rw [this]
  split
  · rename_i h1; exact (h.kB h1).symm
  · rfl

theorem Inv.step {τ : ℝ} (h : Inv E P n s) {t : Task} (ok : StepOk E P τ t s) :
    Inv E P n (solveNextTask E P t s).1 := by
  by_cases hk : skips t s = true
  · rw [step_skip hk]; exact h
  · replace hk : skips t s = false := by simpa using hk
    obtain ⟨e1, e2, e3, e4, e5, e6, e7, e8, e9⟩ := step_fields (E := E) (P := P) h.slack hk
    obtain ⟨ok1, -⟩ := ok hk
    have hBeq : t.eq.1.rows ≠ 0 → (prepare E P t s).B = mul t.eq.1 (eff s) := by
      intro h0; simp only [prepare]; rw [if_pos h0]; rfl
    refine ⟨e7, by rw [e2]; exact h.xsz, by rw [e1]; exact h.eff_rows, by rw [e1]; exact h.eff_iso, ?_, ?_, ?_,
      ?_, by rw [e3, e1]; exact h.prepare_A_cols t, by rw [e3, e4, prepare_a_size]; exact h.prepare_A_rows t,
      fun _ => by rw [e5, e1], ?_⟩
    · rw [e9]
      split
      · rename_i h1; exact Iso.null (ok1 h1) P.thr
      · exact h.kiso
    · rw [e9, e1]
      by_cases h0 : t.eq.1.rows = 0
      · right
        rw [h.kB_new h0, h.eff_cols]
      · left
        rw [hBeq h0]
        rw [if_pos (show (mul t.eq.1 (eff s)).rows ≠ 0 from h0)]
        rfl
    · rw [e8, e9]
      intro h1
      rw [if_pos h1]
    · rw [e9]
      split
      · rename_i h1
        intro hsq u
        exact null_surj (ok1 h1) P.thr hsq.symm u
      · exact h.ksq
    · rw [e4, e6, prepare_a_size]
      split
      · show t.ineq.1.rows ≤ _; omega
      · have := h.wsz; omega

theorem solveAll_cons (t : Task) (ts : List Task) :
    solveAll E P s (t :: ts) = solveAll E P (solveNextTask E P t s).1 ts := rfl

theorem solveAll_append (ts us : List Task) :
    solveAll E P s (ts ++ us) = solveAll E P (solveAll E P s ts) us := List.foldl_append

theorem RunOk.append {τ : ℝ} {ts us : List Task} (h : RunOk E P τ s (ts ++ us)) :
    RunOk E P τ s ts ∧ RunOk E P τ (solveAll E P s ts) us := by
  induction ts generalizing s with
  | nil => exact ⟨trivial, h⟩
  | cons t ts ih =>
    obtain ⟨h1, h2⟩ := h
    obtain ⟨h3, h4⟩ := ih h2
    exact ⟨⟨h1, h3⟩, h4⟩

theorem Inv.run {τ : ℝ} (h : Inv E P n s) {ts : List Task} (ok : RunOk E P τ s ts) :
    Inv E P n (solveAll E P s ts) := by
  induction ts generalizing s with
  | nil => exact h
  | cons t ts ih => exact ih (h.step ok.1) ok.2

/-- After a task the remaining directions are among those before. -/
theorem Inv.eff_step (h : Inv E P n s) (t : Task) (y : Nat → ℝ) :
    ∃ y', ∀ i, mulV (eff (solveNextTask E P t s).1) y i = mulV (eff s) y' i := by
  by_cases hk : skips t s = true
  · rw [step_skip hk]; exact ⟨y, fun _ => rfl⟩
  · replace hk : skips t s = false := by simpa using hk
    have e1 := (step_fields (E := E) (P := P) h.slack hk).1
    unfold eff at e1 ⊢
    rw [e1]
    generalize mulIfFits s.N s.K = M
    unfold mulIfFits
    split
    · exact ⟨_, fun i => mulV_mul _ _ _ _⟩
    · exact ⟨y, fun _ => rfl⟩

theorem Inv.x_step (h : Inv E P n s) (t : Task) :
    ∃ y, ∀ i, (solveNextTask E P t s).1.x.at' i = s.x.at' i + mulV (eff s) y i := by
  by_cases hk : skips t s = true
  · rw [step_skip hk]; exact ⟨fun _ => 0, fun i => by rw [mulV_zero, add_zero]⟩
  · replace hk : skips t s = false := by simpa using hk
    have e2 := (step_fields (E := E) (P := P) h.slack hk).2.1
    rw [e2]
    exact ⟨_, fun i => rfl⟩

/-- All later changes of the solution are along the remaining directions. -/
theorem Inv.x_run {τ : ℝ} (h : Inv E P n s) {ts : List Task} (ok : RunOk E P τ s ts) :
    ∃ y, ∀ i, (solveAll E P s ts).x.at' i = s.x.at' i + mulV (eff s) y i := by
  induction ts generalizing s with
  | nil => exact ⟨fun _ => 0, fun i => by rw [mulV_zero, add_zero]; rfl⟩
  | cons t ts ih =>
    obtain ⟨y1, h1⟩ := h.x_step t
    obtain ⟨y2, h2⟩ := ih (h.step ok.1) ok.2
    obtain ⟨y3, h3⟩ := h.eff_step t y2
    refine ⟨fun k => y1 k + y3 k, fun i => ?_⟩
    rw [solveAll_cons, h2, h1, h3, mulV_add, add_assoc]

/-- The remaining directions contain every direction that leaves the equalities of all tasks so far
unchanged. -/
def Complete (n : Nat) (done : List Task) (s : State) : Prop :=
  ∀ d : Nat → ℝ, (∀ t ∈ done, ∀ k < t.eq.1.rows, mulV t.eq.1 d k = 0) →
    ∃ y, ∀ i < n, mulV (eff s) y i = d i

theorem Complete.start (E : Ext) (n : Nat) (s0 : State) : Complete n [] (start E n s0) := by
  intro d _
  refine ⟨d, fun i hi => ?_⟩
  have : eff (RtHqp.start E n s0) = mul (ident n) (ident n) := by
    unfold eff mulIfFits
    exact if_pos rfl
  rw [this, mulV_mul, mulV_ident _ _ _ hi, mulV_ident _ _ _ hi]

theorem Complete.step {τ : ℝ} {done : List Task} (hc : Complete n done s) (h : Inv E P n s) {t : Task}
    (hs : t.Sized n) (ok : StepOk E P τ t s) : Complete n (done ++ [t]) (solveNextTask E P t s).1 := by
  intro d hd
  obtain ⟨y, hy⟩ := hc d (fun u hu => hd u (List.mem_append_left _ hu))
  by_cases hk : skips t s = true
  · rw [step_skip hk]; exact ⟨y, hy⟩
  · replace hk : skips t s = false := by simpa using hk
    obtain ⟨e1, -, -, -, -, -, -, e8, e9⟩ := step_fields (E := E) (P := P) h.slack hk
    have hE : eff (solveNextTask E P t s).1 = mulIfFits (eff s) (solveNextTask E P t s).1.K := by
      conv_lhs => unfold eff
      rw [e1]
    rw [hE, e9]
    by_cases h0 : t.eq.1.rows = 0
    · rw [h.kB_new h0]
      unfold mulIfFits
      split
      · rename_i h1
        rw [h.eff_cols] at h1
        obtain ⟨v, hv⟩ := h.ksq h1.symm y
        refine ⟨v, fun i hi => ?_⟩
        rw [mulV_mul, ← hy i hi]
        apply mulV_congr
        intro k hk'
        exact hv k (by rw [← h1]; rwa [h.eff_cols] at hk')
      · exact ⟨y, hy⟩
    · have hB : (prepare E P t s).B = mul t.eq.1 (eff s) := by
        simp only [prepare]; rw [if_pos h0]; rfl
      have hBr : (prepare E P t s).B.rows ≠ 0 := by rw [hB]; exact h0
      have hok := (ok hk).1 hBr
      rw [if_pos hBr]
      rw [hB] at hok ⊢
      have hker : ∀ k < (mul t.eq.1 (eff s)).rows, mulV (mul t.eq.1 (eff s)) y k = 0 := by
        intro k hk'
        rw [mulV_mul, mulV_congr t.eq.1 (v := d) (fun i hi => hy i (by rwa [hs.ec] at hi))]
        exact hd t (List.mem_append_right _ (List.mem_singleton.2 rfl)) k hk'
      obtain ⟨v, hv⟩ := null_complete hok P.thr hker
      unfold mulIfFits
      rw [if_pos (show (eff s).cols = (nullspaceMap P.thr (mul t.eq.1 (eff s)) _).rows from rfl)]
      refine ⟨v, fun i hi => ?_⟩
      rw [mulV_mul, ← hy i hi]
      exact mulV_congr (eff s) hv i

theorem Complete.run {τ : ℝ} {done ts : List Task} (hc : Complete n done s) (h : Inv E P n s)
    (hs : ∀ t ∈ ts, t.Sized n) (ok : RunOk E P τ s ts) : Complete n (done ++ ts) (solveAll E P s ts) := by
  induction ts generalizing s done with
  | nil => rw [List.append_nil]; exact hc
  | cons t ts ih =>
    have := ih (hc.step h (hs t List.mem_cons_self) ok.1) (h.step ok.1)
      (fun u hu => hs u (List.mem_cons_of_mem _ hu)) ok.2
    rw [List.append_assoc] at this
    exact this

end

end RtHqp
end Verif
