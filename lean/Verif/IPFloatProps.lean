import Verif.IPFloat
import Verif.LbfgsFloatProps

/-!
Properties C271-C273: the interior-point solver in machine arithmetic. C271 (first part) holds in every arithmetic whatsoever; the rest assumes the laws `Ieee` of
LbfgsFloatProps, which hold of IEEE arithmetic with any rounding (`ieee_round`).
-/
namespace Verif
namespace IPF
open LbfgsF Cone

variable {F : Type} [Arith F]

/-! ### specification -/

/-- No entry of the point that takes part in the problem is a NaN. -/
structure NoNan (k : Cone) (o : Pt F) : Prop where
  x : ∀ i < k.nvars, Num (o.x i)
  y : ∀ i < k.neq, Num (o.y i)
  z : ∀ i < k.sizecone, Num (o.z i)
  s : ∀ i < k.sizecone, Num (o.s i)
  tau : Num o.tau

/-- Matrices, cost and right-hand side of the equalities contain no NaN. -/
structure DataNum (k : Cone) (S : Data F) : Prop where
  A : ∀ col < k.nvars, ∀ t ∈ S.A.getD col [], Num t.2
  G : ∀ col < k.nvars, ∀ t ∈ S.G.getD col [], Num t.2
  c : ∀ i < k.nvars, Num (S.c i)
  b : ∀ i < k.neq, Num (S.b i)

/-- All entries of the point are NaN. -/
structure Lost (o : Pt F) : Prop where
  x : ∀ i, ¬ Num (o.x i)
  y : ∀ i, ¬ Num (o.y i)
  z : ∀ i, ¬ Num (o.z i)
  s : ∀ i, ¬ Num (o.s i)
  tau : ¬ Num o.tau
  kappa : ¬ Num o.kappa

/-! ### NaN propagates through the operations -/

theorem foldl_num {α : Type} (f : F → α → F) (P : α → Prop) (hf : ∀ a t, Num (f a t) → Num a ∧ P t) :
    ∀ (l : List α) (a : F), Num (l.foldl f a) → Num a ∧ ∀ t ∈ l, P t := by
  intro l
  induction l with
  | nil => exact fun a h => ⟨h, by simp⟩
  | cons t l ih =>
    intro a h
    obtain ⟨h1, h2⟩ := ih _ h
    obtain ⟨h3, h4⟩ := hf _ _ h1
    refine ⟨h3, fun u hu => ?_⟩
    rcases List.mem_cons.mp hu with rfl | hu
    · exact h4
    · exact h2 u hu

theorem dot_num (I : Ieee F) {n : Nat} {u v : Nat → F} (h : Num (dot n u v)) : ∀ i < n, Num (u i) ∧ Num (v i) := fun i hi =>
  (foldl_num (fun a k => a +. u k *. v k) (fun k => Num (u k) ∧ Num (v k))
    (fun a t h => ⟨(I.add_num _ _ h).1, I.mul_num _ _ (I.add_num _ _ h).2⟩) _ _ h).2 i (List.mem_range.mpr hi)

theorem norm_num (I : Ieee F) {n : Nat} {v : Nat → F} (h : Num (norm n v)) : ∀ i < n, Num (v i) := fun i hi =>
  (dot_num I (I.sqrt_num _ h) i hi).1

theorem tailSq_num (I : Ieee F) {n : Nat} {v : Nat → F} (h : Num (tailSq n v)) : ∀ j, j + 1 < n → Num (v (j + 1)) := fun j hj =>
  (foldl_num (fun a j => a +. v (j + 1) *. v (j + 1)) (fun j => Num (v (j + 1)))
    (fun a t h => ⟨(I.add_num _ _ h).1, (I.mul_num _ _ (I.add_num _ _ h).2).1⟩) _ _ h).2 j (List.mem_range.mpr (by omega))

theorem mtv_num (I : Ieee F) {M : SpF F} {x y : Nat → F} {add new : Bool} {col : Nat} (h : Num (mtv M x y add new col)) :
    (new = false → Num (y col)) ∧ ∀ t ∈ M.getD col [], Num t.2 ∧ Num (x t.1) := by
  unfold mtv at h
  simp only [] at h
  split at h
  · obtain ⟨h1, h2⟩ := foldl_num (fun a (t : Nat × F) => a +. t.2 *. x t.1) (fun t => Num t.2 ∧ Num (x t.1))
      (fun a t h => ⟨(I.add_num _ _ h).1, I.mul_num _ _ (I.add_num _ _ h).2⟩) _ _ h
    refine ⟨fun hn => ?_, h2⟩
    rw [hn] at h1; exact h1
  · obtain ⟨h1, h2⟩ := foldl_num (fun a (t : Nat × F) => a -. t.2 *. x t.1) (fun t => Num t.2 ∧ Num (x t.1))
      (fun a t h => ⟨(I.sub_num _ _ h).1, I.mul_num _ _ (I.sub_num _ _ h).2⟩) _ _ h
    refine ⟨fun hn => ?_, h2⟩
    rw [hn] at h1; exact h1

/-- `std::max(a, b)` of a NaN and something is that NaN. -/
theorem fmax_fst (I : Ieee F) {a b : F} (h : Num (fmax a b)) : Num a := by
  unfold fmax at h
  split at h
  · rename_i h1; exact (I.lt_num _ _ h1).1
  · exact h

/-- `std::max(a, b)` of something and a NaN is the former. -/
theorem fmax_snd (I : Ieee F) {a b : F} (h : ¬ Num b) : fmax a b = a := by
  unfold fmax
  rw [if_neg]
  exact fun h1 => h (I.lt_num _ _ h1).2

theorem not_lt (I : Ieee F) {a b : F} (h : ¬ Num a ∨ ¬ Num b) : (a <. b) = false :=
  Bool.eq_false_iff.mpr fun h1 => h.elim (fun h => h (I.lt_num _ _ h1).1) fun h => h (I.lt_num _ _ h1).2

theorem not_le (I : Ieee F) {a b : F} (h : ¬ Num a ∨ ¬ Num b) : (a <=. b) = false :=
  Bool.eq_false_iff.mpr fun h1 => h.elim (fun h => h (I.le_num _ _ h1).1) fun h => h (I.le_num _ _ h1).2

/-! ### the cases of one pass -/

theorem reduced_fields (g : Stg F) (r : Res F) (o : Pt F) (i : Info F) (fb : ExitCode) (sc : Bool) (n : Nat) (s : F) :
    (reduced g r o i fb sc n s).opt = o ∧ (reduced g r o i fb sc n s).info = i ∧ (reduced g r o i fb sc n s).iter = n := by
  unfold reduced; split <;> exact ⟨rfl, rfl, rfl⟩

theorem reduced_code (g : Stg F) (r : Res F) (o : Pt F) (i : Info F) (fb : ExitCode) (sc : Bool) (n : Nat) (s : F) :
    ((reduced g r o i fb sc n s).code = fb ∧ convergenceCheck g false r i o = .notConverged) ∨
    (convergenceCheck g false r i o = (reduced g r o i fb sc n s).code ∧ (reduced g r o i fb sc n s).code ≠ .notConverged) := by
  unfold reduced
  split
  · exact Or.inl ⟨rfl, by assumption⟩
  · rename_i h
    exact Or.inr ⟨rfl, fun hc => h hc⟩

theorem check_codes (g : Stg F) (full : Bool) (r : Res F) (i : Info F) (o : Pt F) :
    convergenceCheck g full r i o ∈ (if full then [ExitCode.optimal, .dualInf, .primalInf, .notConverged]
      else [ExitCode.optimalInacc, .dualInfInacc, .primalInfInacc, .notConverged]) := by
  unfold convergenceCheck
  cases full <;> simp only [Bool.false_eq_true, if_false, if_true] <;> (split; simp) <;> (split; simp) <;> split <;> simp

/-- What an optimal answer of the convergence check means. -/
theorem check_optimal {g : Stg F} {full : Bool} {r : Res F} {i : Info F} {o : Pt F}
    (h : convergenceCheck g full r i o = .optimal ∨ convergenceCheck g full r i o = .optimalInacc) :
    ∃ feastol abstol reltol : F, (reltol = g.reltol ∨ reltol = g.reltolInacc) ∧ (r.cx <. c 0 ∨ r.by_ +. r.hz <=. abstol) ∧
      (i.pres <. feastol) = true ∧ (i.dres <. feastol) = true ∧ (i.gap <. abstol ∨ i.relgap <. reltol) := by
  have pick : ∀ {P Q R : Prop} [Decidable P] [Decidable Q] [Decidable R] {a b d e : ExitCode},
      (if P then a else if Q then b else if R then d else e) = .optimal ∨ (if P then a else if Q then b else if R then d else e) = .optimalInacc →
      b ≠ .optimal → b ≠ .optimalInacc → d ≠ .optimal → d ≠ .optimalInacc → e ≠ .optimal → e ≠ .optimalInacc → P := by
    intro P Q R _ _ _ a b d e h h1 h2 h3 h4 h5 h6
    by_contra hp
    rw [if_neg hp] at h
    split at h
    · exact h.elim h1 h2
    · split at h
      · exact h.elim h3 h4
      · exact h.elim h5 h6
  unfold convergenceCheck at h
  cases full
  · have h1 := pick h (by simp) (by simp) (by simp) (by simp) (by simp) (by simp)
    exact ⟨_, _, _, Or.inr rfl, h1.1, h1.2.1.1, h1.2.1.2, h1.2.2⟩
  · have h1 := pick h (by simp) (by simp) (by simp) (by simp) (by simp) (by simp)
    exact ⟨_, _, _, Or.inl rfl, h1.1, h1.2.1.1, h1.2.1.2, h1.2.2⟩

/-- The ways in which a pass stops the method. -/
theorem body_stop {k : Cone} {g : Stg F} {S : Data F} {orc : Orc F} {n : Nat} {st : St F} {q : Out F} (h : body k g S orc n st = .stop q) :
    let r := computeResiduals k S st.opt
    let i := updateStatistics k g S st.opt r
    (q.code = convergenceCheck g true r i st.opt ∧ q.code ≠ .notConverged ∧ q.opt = st.opt ∧ q.info = i ∧ q.iter = n) ∨
    (q = ⟨.indeterminate, st.opt, false, i, n, st.step⟩ ∧ orc.fact (n + 1) = false) ∨
    ∃ o io fb sc, q = reduced g r o io fb sc n st.step ∧
      ((0 < n ∧ o = st.best ∧ io = st.bestInfo) ∨ (o = st.opt ∧ io = i ∧ (n = 0 ∨ isBetterThan i st.bestInfo = true)) ∨
       (n = 0 ∧ g.maxIters = 0 ∧ o = st.best ∧ io = st.bestInfo)) ∧
      (fb = .prSearchDirection ∨ (fb = .reachMaxIters ∧ (n : Int) = g.maxIters) ∨ fb = .prSlacksLeaveCone) := by
  intro r i
  unfold body at h
  simp only [] at h
  split at h
  · rename_i h1
    cases h
    exact Or.inr (Or.inr ⟨_, _, _, _, rfl, Or.inl ⟨h1.1, rfl, rfl⟩, Or.inl rfl⟩)
  · split at h
    · split at h
      · rename_i h1
        cases h
        exact Or.inr (Or.inr ⟨_, _, _, _, rfl, Or.inl ⟨h1.1, rfl, rfl⟩, Or.inl rfl⟩)
      · split at h
        · rename_i hm
          split at h
          · rename_i hb
            cases h
            exact Or.inr (Or.inr ⟨_, _, _, _, rfl, Or.inr (Or.inl ⟨rfl, rfl, Or.inr hb⟩), Or.inr (Or.inl ⟨rfl, hm⟩)⟩)
          · cases h
            refine Or.inr (Or.inr ⟨_, _, _, _, rfl, ?_, Or.inr (Or.inl ⟨rfl, hm⟩)⟩)
            rcases Nat.eq_zero_or_pos n with h0 | h0
            · exact Or.inr (Or.inr ⟨h0, by rw [h0] at hm; exact hm.symm, rfl, rfl⟩)
            · exact Or.inl ⟨h0, rfl, rfl⟩
        · split at h
          · cases h
            refine Or.inr (Or.inr ⟨_, _, _, _, rfl, ?_, Or.inr (Or.inr rfl)⟩)
            split
            · rename_i hsv
              rw [Bool.or_eq_true, decide_eq_true_eq] at hsv
              exact Or.inr (Or.inl ⟨rfl, rfl, hsv⟩)
            · rename_i hsv
              rw [Bool.or_eq_true, decide_eq_true_eq] at hsv
              exact Or.inl ⟨by omega, rfl, rfl⟩
          · split at h
            · cases h
            · rename_i hf
              cases h
              exact Or.inr (Or.inl ⟨rfl, by simpa using hf⟩)
    · rename_i hc
      cases h
      exact Or.inl ⟨rfl, fun hh => hc hh, rfl, rfl, rfl⟩

/-- What a pass that continues does. -/
theorem body_next {k : Cone} {g : Stg F} {S : Data F} {orc : Orc F} {n : Nat} {st st' : St F} (h : body k g S orc n st = .next st') :
    let i := updateStatistics k g S st.opt (computeResiduals k S st.opt)
    (n : Int) ≠ g.maxIters ∧
    ((st'.best = st.opt ∧ st'.bestInfo = i ∧ (n = 0 ∨ isBetterThan i st.bestInfo = true)) ∨
      (0 < n ∧ st'.best = st.best ∧ st'.bestInfo = st.bestInfo)) := by
  intro i
  unfold body at h
  simp only [] at h
  split at h
  · cases h
  · split at h
    · split at h
      · cases h
      · split at h
        · split at h <;> cases h
        · rename_i hm
          split at h
          · cases h
          · split at h
            · cases h
              refine ⟨hm, ?_⟩
              by_cases hsv : (decide (n = 0) || isBetterThan i st.bestInfo) = true
              · refine Or.inl ⟨if_pos hsv, if_pos hsv, ?_⟩
                rwa [Bool.or_eq_true, decide_eq_true_eq] at hsv
              · refine Or.inr ⟨?_, if_neg hsv, if_neg hsv⟩
                rw [Bool.or_eq_true, decide_eq_true_eq] at hsv
                omega
            · cases h
    · cases h

/-! ### C271 -/

theorem loop_count (k : Cone) (g : Stg F) (S : Data F) (orc : Orc F) : ∀ (fuel n : Nat) (st : St F) (i0 : Info F),
    (loop k g S orc fuel n st i0).2 ≤ fuel := by
  intro fuel
  induction fuel with
  | zero => exact fun n st i0 => le_rfl
  | succ fuel ih =>
    intro n st i0
    unfold loop
    split
    · simp
    · exact Nat.succ_le_succ (ih _ _ _)

/-- An invariant of the states and a consequence for the results carry over to the whole method. -/
theorem loop_result {k : Cone} {g : Stg F} {S : Data F} {orc : Orc F} (P : Nat → St F → Prop) (Q : Out F → Prop)
    (hnext : ∀ n st st', P n st → body k g S orc n st = .next st' → P (n + 1) st')
    (hstop : ∀ n st q, P n st → body k g S orc n st = .stop q → Q q) :
    ∀ (fuel n : Nat) (st : St F) (i0 : Info F), P n st → 0 < fuel → (n : Int) + fuel = g.maxIters + 1 → Q (loop k g S orc fuel n st i0).1 := by
  intro fuel
  induction fuel with
  | zero => exact fun n st i0 _ h => absurd h (lt_irrefl 0)
  | succ fuel ih =>
    intro n st i0 hp _ hn
    unfold loop
    split
    · rename_i q h
      exact hstop _ _ _ hp h
    · rename_i st' h
      have hm := (body_next h).1
      refine ih _ _ _ (hnext _ _ _ hp h) ?_ (by push_cast at hn ⊢; omega)
      push_cast at hn
      omega

theorem optimize_result {k : Cone} {g : Stg F} {S : Data F} {orc : Orc F} {old : Pt F × Info F} {o0 : Pt F} {i0 : Info F}
    (P : Nat → St F → Prop) (Q : Out F → Prop) (hstart : P 0 (start orc old))
    (hnext : ∀ n st st', P n st → body k g S orc n st = .next st' → P (n + 1) st')
    (hstop : ∀ n st q, P n st → body k g S orc n st = .stop q → Q q) (hf : orc.fact 0 = true) (hm : 0 ≤ g.maxIters) :
    Q (optimize k g S orc old o0 i0).1 := by
  unfold optimize
  rw [if_pos hf]
  exact loop_result P Q hnext hstop _ _ _ _ hstart (by omega) (by push_cast; omega)

/-- C271, in every arithmetic: at most `SolverMaxIters + 1` passes, whatever the linear solver answers and however the operations round or overflow. -/
theorem C271_terminates (k : Cone) (g : Stg F) (S : Data F) (orc : Orc F) (old : Pt F × Info F) (o0 : Pt F) (i0 : Info F) :
    ((optimize k g S orc old o0 i0).2 : Int) ≤ max (g.maxIters + 1) 0 := by
  unfold optimize
  split
  · refine le_trans (Int.ofNat_le.mpr (loop_count k g S orc _ _ _ _)) ?_
    rw [Int.toNat_eq_max]
  · push_cast; exact le_max_right _ _

/-- C271, in every arithmetic: the exit code is a verdict; the iteration limit is reported only when it was reached, and an indeterminate result only when a
factorisation failed (or the limit is negative). -/
theorem C271_exit_code (k : Cone) (g : Stg F) (S : Data F) (orc : Orc F) (old : Pt F × Info F) (o0 : Pt F) (i0 : Info F) :
    let q := (optimize k g S orc old o0 i0).1
    q.code ≠ .notConverged ∧ (q.code = .reachMaxIters → (q.iter : Int) = g.maxIters) ∧
    (q.code = .indeterminate → (∃ n, orc.fact n = false) ∨ g.maxIters < 0) := by
  intro q
  by_cases hf : orc.fact 0 = true
  · by_cases hm : 0 ≤ g.maxIters
    · refine optimize_result (fun _ _ => True)
        (fun q => q.code ≠ .notConverged ∧ (q.code = .reachMaxIters → (q.iter : Int) = g.maxIters) ∧
          (q.code = .indeterminate → (∃ n, orc.fact n = false) ∨ g.maxIters < 0)) trivial (fun _ _ _ _ _ => trivial) ?_ hf hm
      intro n st q _ h
      rcases body_stop h with ⟨h1, h2, _⟩ | ⟨h1, h2⟩ | ⟨o, io, fb, sc, h1, _, h3⟩
      · have hc := check_codes g true (computeResiduals k S st.opt) (updateStatistics k g S st.opt (computeResiduals k S st.opt)) st.opt
        rw [← h1] at hc
        refine ⟨h2, fun h4 => ?_, fun h4 => ?_⟩ <;> · rw [h4] at hc; simp at hc
      · subst h1
        exact ⟨by simp, by simp, fun _ => Or.inl ⟨_, h2⟩⟩
      · have hi := (reduced_fields g (computeResiduals k S st.opt) o io fb sc n st.step).2.2
        rcases reduced_code g (computeResiduals k S st.opt) o io fb sc n st.step with ⟨h4, _⟩ | ⟨h4, h5⟩
        · rw [← h1] at h4 hi
          rw [h4, hi]
          rcases h3 with rfl | ⟨rfl, h3⟩ | rfl
          · simp
          · exact ⟨by simp, fun _ => h3, by simp⟩
          · simp
        · have hc := check_codes g false (computeResiduals k S st.opt) io o
          rw [h4, ← h1] at hc
          rw [← h1] at h5
          refine ⟨h5, fun h6 => ?_, fun h6 => ?_⟩ <;> · rw [h6] at hc; simp at hc
    · have hz : (g.maxIters + 1).toNat = 0 := by omega
      simp only [q, optimize, if_pos hf, hz, loop]
      exact ⟨by simp, by simp, fun _ => Or.inr (by omega)⟩
  · simp only [q, optimize, if_neg hf]
    exact ⟨by simp, by simp, fun _ => Or.inl ⟨0, by simpa using hf⟩⟩

/-- Numbers that describe the point `o` and pass the optimality test leave no room for a NaN. -/
theorem clean (I : Ieee F) {k : Cone} {g : Stg F} {S : Data F} {o : Pt F} {feastol abstol reltol : F} (hr : ((nanv : F) <. reltol) = false)
    (hp : ((updateStatistics k g S o (computeResiduals k S o)).pres <. feastol) = true)
    (hd : ((updateStatistics k g S o (computeResiduals k S o)).dres <. feastol) = true)
    (hg : (updateStatistics k g S o (computeResiduals k S o)).gap <. abstol ∨ (updateStatistics k g S o (computeResiduals k S o)).relgap <. reltol) :
    NoNan k o ∧ DataNum k S := by
  have hpn := (I.lt_num _ _ hp).1
  have hdn := (I.lt_num _ _ hd).1
  have hgap : Num (dot k.sizecone o.s o.z) := by
    rcases hg with hg | hg
    · exact (I.lt_num _ _ hg).1
    · have h1 := (I.lt_num _ _ hg).1
      have h2 : ∀ a : F, Num (dot k.sizecone o.s o.z /. a) → Num (dot k.sizecone o.s o.z) := fun a h => (I.div_num _ _ h).1
      unfold updateStatistics at hg h1
      simp only [] at hg h1
      split at hg
      · rename_i hc
        rw [if_pos hc] at h1; exact h2 _ h1
      · rename_i hc
        rw [if_neg hc] at h1
        split at hg
        · rename_i hc'
          rw [if_pos hc'] at h1; exact h2 _ h1
        · rw [hr] at hg; cases hg
  have hpx : Num (eqRes k S o (computeResiduals k S o)) := fmax_fst I (I.div_num _ _ hpn).1
  obtain ⟨hry, hx⟩ := I.div_num _ _ hpx
  have hx := norm_num I (I.add_num _ _ (fmax_fst I hx)).2
  have hry := norm_num I hry
  obtain ⟨h1, htau⟩ := I.div_num _ _ hdn
  obtain ⟨hrx, hyz⟩ := I.div_num _ _ h1
  have hy := norm_num I (I.add_num _ _ (I.add_num _ _ (fmax_fst I hyz)).1).2
  have hrx := norm_num I hrx
  refine ⟨⟨hx, hy, fun i hi => (dot_num I hgap i hi).2, fun i hi => (dot_num I hgap i hi).1, htau⟩, ?_, ?_, ?_, ?_⟩
  · intro col hc t ht
    have h2 : Num (mtv S.G o.z (mtv S.A o.y (fun _ => c 0) false true) false false col) := (I.sub_num _ _ (hrx col hc)).1
    exact ((mtv_num I ((mtv_num I h2).1 rfl)).2 t ht).1
  · intro col hc t ht
    have h2 : Num (mtv S.G o.z (mtv S.A o.y (fun _ => c 0) false true) false false col) := (I.sub_num _ _ (hrx col hc)).1
    exact ((mtv_num I h2).2 t ht).1
  · intro i hi
    exact (I.mul_num _ _ (I.sub_num _ _ (hrx i hi)).2).2
  · intro i hi
    exact (I.mul_num _ _ (I.sub_num _ _ (hry i hi)).2).2

/-- The best iterate comes with its own numbers, once it was set. -/
def BestOk (k : Cone) (g : Stg F) (S : Data F) (n : Nat) (st : St F) : Prop :=
  n = 0 ∨ st.bestInfo = updateStatistics k g S st.best (computeResiduals k S st.best)

theorem bestOk_next {k : Cone} {g : Stg F} {S : Data F} {orc : Orc F} {n : Nat} {st st' : St F} (hp : BestOk k g S n st)
    (h : body k g S orc n st = .next st') : BestOk k g S (n + 1) st' := by
  rcases (body_next h).2 with ⟨h1, h2, _⟩ | ⟨h1, h2, h3⟩
  · exact Or.inr (by rw [h1, h2])
  · rcases hp with hp | hp
    · omega
    · exact Or.inr (by rw [h2, h3]; exact hp)

/-- C271, for IEEE arithmetic: if the method reports `Optimal` or `OptimalInacc` (with at least one iteration allowed), then the iterate it returns contains no NaN,
and neither do the matrices, the cost and the right-hand side of the equalities: a problem with a NaN there is never reported as solved. -/
theorem C271_optimal_no_nan (I : Ieee F) (k : Cone) (g : Stg F) (hr : ((nanv : F) <. g.reltol) = false ∧ ((nanv : F) <. g.reltolInacc) = false)
    (hm : 1 ≤ g.maxIters) (S : Data F) (orc : Orc F) (old : Pt F × Info F) (o0 : Pt F) (i0 : Info F)
    (h : (optimize k g S orc old o0 i0).1.code = .optimal ∨ (optimize k g S orc old o0 i0).1.code = .optimalInacc) :
    NoNan k (optimize k g S orc old o0 i0).1.opt ∧ DataNum k S := by
  have hf : orc.fact 0 = true := by
    by_contra hf
    unfold optimize at h
    rw [if_neg hf] at h
    rcases h with h | h <;> cases h
  revert h
  refine optimize_result (BestOk k g S) (fun q => q.code = .optimal ∨ q.code = .optimalInacc → NoNan k q.opt ∧ DataNum k S) (Or.inl rfl)
    (fun _ _ _ => bestOk_next) ?_ hf (by omega)
  have hrel : ∀ reltol : F, reltol = g.reltol ∨ reltol = g.reltolInacc → ((nanv : F) <. reltol) = false := by
    rintro _ (rfl | rfl)
    · exact hr.1
    · exact hr.2
  intro n st q hp hb hq
  rcases body_stop hb with ⟨h1, _, h2, h3, _⟩ | ⟨h1, _⟩ | ⟨o, io, fb, sc, h1, h2, h3⟩
  · rw [h1] at hq
    obtain ⟨f, a, r, e1, _, e2, e3, e4⟩ := check_optimal hq
    rw [h2]
    exact clean I (hrel r e1) e2 e3 e4
  · subst h1
    rcases hq with h | h <;> cases h
  · have hopt := (reduced_fields g (computeResiduals k S st.opt) o io fb sc n st.step).1
    rcases reduced_code g (computeResiduals k S st.opt) o io fb sc n st.step with ⟨h4, _⟩ | ⟨h4, _⟩
    · rw [← h1] at h4
      rw [h4] at hq
      rcases h3 with rfl | ⟨rfl, _⟩ | rfl <;> rcases hq with h | h <;> cases h
    · rw [← h1] at h4
      rw [← h4] at hq
      obtain ⟨f, a, r, e1, _, e2, e3, e4⟩ := check_optimal hq
      rw [← h1] at hopt
      rw [hopt]
      have hio : io = updateStatistics k g S o (computeResiduals k S o) := by
        rcases h2 with ⟨h0, rfl, rfl⟩ | ⟨rfl, rfl, _⟩ | ⟨_, h0, _⟩
        · rcases hp with hp | hp
          · omega
          · exact hp
        · rfl
        · omega
      subst hio
      exact clean I (hrel r e1) e2 e3 e4

/-! ### C272: what happens when an iterate is lost to NaN -/

theorem minRatio_nan (I : Ieee F) (k : Cone) (lam d : Nat → F) (h : ∀ i, ¬ Num (d i)) : ¬ Num (minRatio k lam d) := by
  have key : ∀ (l : List Nat) (m : F), ¬ Num m →
      ¬ Num (l.foldl (fun m i => if d (i + 1) /. lam (i + 1) <. m then d (i + 1) /. lam (i + 1) else m) m) := by
    intro l
    induction l with
    | nil => exact fun m h => h
    | cons j l ih =>
      intro m hm
      refine ih _ ?_
      show ¬ Num (if d (j + 1) /. lam (j + 1) <. m then d (j + 1) /. lam (j + 1) else m)
      rw [not_lt I (Or.inr hm)]
      exact hm
  exact key _ _ fun h1 => h 0 (I.div_num _ _ h1).1

theorem excess_nan (I : Ieee F) (n : Nat) (l d : Nat → F) (h : ∀ i, ¬ Num (d i)) : ¬ Num (excess n (frame n l d)) := by
  intro h1
  have h2 := (I.sub_num _ _ h1).2
  unfold frame at h2
  simp only [if_true] at h2
  have h3 := (I.mul_num _ _ h2).2
  exact h 0 (I.mul_num _ _ (foldl_num _ (fun _ => True) (fun a t h => ⟨(I.sub_num _ _ h).1, trivial⟩) _ _ h3).1).2

/-- With a direction that is NaN the line search answers as if nothing were in the way: the largest step. -/
theorem lineSearch_nan (I : Ieee F) (k : Cone) (g : Stg F) (lam ds dz : Nat → F) (tau dtau kappa dkappa : F) (h1 : ∀ i, ¬ Num (ds i))
    (h2 : ∀ i, ¬ Num (dz i)) (h3 : ¬ Num dtau) (h4 : ¬ Num dkappa) :
    lineSearch k g lam ds dz tau dtau kappa dkappa = fmax (fmin (c 1 /. g.dynRegThresh) g.maxStep) g.minStep := by
  have e1 : ¬ Num (fmin (minRatio k lam dz) (minRatio k lam ds)) := by
    unfold fmin
    rw [not_lt I (Or.inl (minRatio_nan I k lam ds h1))]
    exact minRatio_nan I k lam dz h2
  have e3 : ¬ Num (Arith.neg tau /. dtau) := fun h => h3 (I.div_num _ _ h).2
  have e4 : ¬ Num (Arith.neg kappa /. dkappa) := fun h => h4 (I.div_num _ _ h).2
  have soc : ∀ (l : List Nat) (a : F), l.foldl (fun a i =>
      socStep (k.sizeSoc i) (shift lam (k.startSoc i)) (shift ds (k.startSoc i)) (shift dz (k.startSoc i)) a) a = a := by
    intro l
    induction l with
    | nil => exact fun a => rfl
    | cons j l ih =>
      intro a
      rw [List.foldl_cons, ih]
      unfold socStep
      split
      · rfl
      · have hm : ¬ Num (c 1 /. fmax (fmax (excess (k.sizeSoc j) (frame (k.sizeSoc j) (shift lam (k.startSoc j)) (shift ds (k.startSoc j))))
            (excess (k.sizeSoc j) (frame (k.sizeSoc j) (shift lam (k.startSoc j)) (shift dz (k.startSoc j))))) (c 0)) := fun h =>
          excess_nan I _ _ _ (fun i => h1 _) (fmax_fst I (fmax_fst I (I.div_num _ _ h).2))
        unfold fmin
        rw [not_lt I (Or.inl hm)]
        rfl
  unfold lineSearch
  simp only [soc, not_lt I (Or.inl e1), not_lt I (Or.inr e3), not_lt I (Or.inr e4), Bool.false_eq_true, false_and, if_false]

theorem lost_advance (I : Ieee F) {o d : Pt F} (h : Lost o) (a : F) : Lost (advance o d a) :=
  ⟨fun i h' => h.x i (I.add_num _ _ h').1, fun i h' => h.y i (I.add_num _ _ h').1, fun i h' => h.z i (I.add_num _ _ h').1,
    fun i h' => h.s i (I.add_num _ _ h').1, fun h' => h.tau (I.add_num _ _ h').1, fun h' => h.kappa (I.add_num _ _ h').1⟩

/-- The conditions on settings and on the linear solver under which C272 speaks: the line search does not hit its lower bound when it returns the largest step,
factorisations succeed, and from an iterate that is NaN the linear solver computes NaN. -/
structure Blind (k : Cone) (g : Stg F) (orc : Orc F) : Prop where
  dims : 0 < k.nvars ∧ 0 < k.sizecone
  tol : ((nanv : F) <. g.feastol) = false ∧ ((nanv : F) <. g.reltol) = false ∧ ((nanv : F) <. g.reltolInacc) = false
  bounds : (fmax (fmin (c 1 /. g.dynRegThresh) g.maxStep) g.minStep *. g.stepScaling ==. g.minStep *. g.stepScaling) = false
  fact : ∀ n, orc.fact n = true
  nan : ∀ n o, Lost o → (∀ i, ¬ Num ((orc.dir n o).dsByW i)) ∧ (∀ i, ¬ Num ((orc.dir n o).wDz i)) ∧ ¬ Num (orc.dir n o).d.tau ∧
    ¬ Num (orc.dir n o).d.kappa

theorem safeDiv_num (I : Ieee F) {x y : F} (h : Num (safeDiv x y)) : Num x ∧ Num y := by
  unfold safeDiv at h
  split at h
  · rename_i h1; exact ⟨(I.div_num _ _ h).1, (I.lt_num _ _ h1).1⟩
  · exact I.div_num _ _ h

theorem ntV1_num (I : Ieee F) {n : Nat} {w : Nat → F} (h : Num (ntV1 n w)) : Num (w 0) :=
  (I.add_num _ _ (safeDiv_num I (I.add_num _ _ (I.add_num _ _ (I.sub_num _ _ h).2).1).2).2).2

theorem ntPoint_num (I : Ieee F) {n : Nat} {sk zk : Nat → F} (h : Num (ntPoint n sk zk 0)) : Num (sk 0) ∧ Num (zk 0) :=
  I.add_num _ _ (I.mul_num _ _ (by unfold ntPoint at h; exact h)).2

theorem outside_nan (I : Ieee F) (k : Cone) (s z : Nat → F) (hs : ∀ i, ¬ Num (s i)) (hz : ∀ i, ¬ Num (z i)) : outside k s z = false := by
  have hr : ∀ (n st : Nat) (u : Nat → F), (∀ i, ¬ Num (u i)) → (residual n (shift u st) <=. c 0) = false := fun n st u hu =>
    not_le I (Or.inl fun h => hu _ (I.mul_num _ _ (I.sub_num _ _ h).1).1)
  unfold outside
  rw [Bool.eq_false_iff]
  intro h
  obtain ⟨l, _, h⟩ := List.any_eq_true.mp h
  unfold outsideBlk at h
  rw [hr _ _ _ hs, hr _ _ _ hz] at h
  simp only [Bool.or_self, Bool.false_eq_true, if_false] at h
  rw [not_le I (Or.inl fun h' => hs _ (I.mul_num _ _ (ntPoint_num I (ntV1_num I h')).1).1)] at h
  cases h

/-- The statistics of a lost iterate. -/
theorem lost_stats (I : Ieee F) {k : Cone} {g : Stg F} (hd : 0 < k.nvars ∧ 0 < k.sizecone) (S : Data F) {o : Pt F} (h : Lost o) :
    let r := computeResiduals k S o
    let i := updateStatistics k g S o r
    ¬ Num r.cx ∧ ¬ Num (r.by_ +. r.hz) ∧ ¬ Num i.gap ∧ ¬ Num i.pres ∧ i.dinf = nanv ∧ i.pinf = nanv := by
  intro r i
  have hcx : ¬ Num r.cx := fun h' => h.x 0 (dot_num I h' 0 hd.1).2
  have hhz : ¬ Num r.hz := fun h' => h.z 0 (dot_num I h' 0 hd.2).2
  refine ⟨hcx, fun h' => hhz (I.add_num _ _ h').2, fun h' => h.s 0 (dot_num I h' 0 hd.2).1, fun h' => h.tau (I.div_num _ _ h').2, ?_, ?_⟩
  · exact if_neg (Bool.eq_false_iff.mp (not_lt I (Or.inl fun h' => hcx (I.div_num _ _ h').1)))
  · exact if_neg (Bool.eq_false_iff.mp (not_lt I (Or.inl fun h' => hhz (I.add_num _ _ (I.div_num _ _ h').1).1)))

/-- A lost iterate passes every test of the convergence check as "not converged", and it is not better than any other. -/
theorem lost_check (I : Ieee F) {k : Cone} {g : Stg F} {orc : Orc F} (B : Blind k g orc) (S : Data F) {o : Pt F} (h : Lost o) :
    let r := computeResiduals k S o
    let i := updateStatistics k g S o r
    convergenceCheck g true r i o = .notConverged ∧ ∀ j, isBetterThan i j = false := by
  intro r i
  obtain ⟨h1, h2, h3, h4, h5, h6⟩ := lost_stats (g := g) I B.dims S h
  refine ⟨?_, fun j => ?_⟩
  · unfold convergenceCheck
    simp only [if_true]
    rw [if_neg, if_neg, if_neg]
    · rintro (⟨_, h7⟩ | ⟨h7, _⟩)
      · rw [not_lt I (Or.inl h.tau)] at h7; cases h7
      · rw [not_lt I (Or.inl h.tau)] at h7; cases h7
    · rintro ⟨_, _, h7⟩
      rw [not_lt I (Or.inl h.tau)] at h7; cases h7
    · rintro ⟨h7 | h7, _⟩
      · rw [not_lt I (Or.inl h1)] at h7; cases h7
      · rw [not_le I (Or.inl h2)] at h7; cases h7
  · have hg : (c 0 <. i.gap) = false := not_lt I (Or.inr h3)
    unfold isBetterThan
    simp only [hg, Bool.false_eq_true, false_and, decide_false, ite_self]

/-- One pass at a lost iterate: nothing stops the method but the iteration limit. -/
theorem lost_body (I : Ieee F) {k : Cone} {g : Stg F} {orc : Orc F} (B : Blind k g orc) (S : Data F) {n : Nat} (hn : 0 < n) {st : St F} (h : Lost st.opt)
    (hs : (st.step ==. g.minStep *. g.stepScaling) = false) :
    ((n : Int) ≠ g.maxIters → ∃ st', body k g S orc n st = .next st' ∧ Lost st'.opt ∧ (st'.step ==. g.minStep *. g.stepScaling) = false ∧
      st'.best = st.best ∧ st'.bestInfo = st.bestInfo) ∧
    ((n : Int) = g.maxIters → body k g S orc n st =
      .stop (reduced g (computeResiduals k S st.opt) st.best st.bestInfo .reachMaxIters true n st.step)) := by
  obtain ⟨_, _, h3, h4, _, _⟩ := lost_stats (g := g) I B.dims S h
  obtain ⟨c1, c2⟩ := lost_check I B S h
  have e1 : (g.safeguard *. st.prev <. (updateStatistics k g S st.opt (computeResiduals k S st.opt)).pres) = false := not_lt I (Or.inr h4)
  have e2 : ((updateStatistics k g S st.opt (computeResiduals k S st.opt)).gap <. c 0) = false := not_lt I (Or.inl h3)
  have e3 : ¬ n = 0 := by omega
  constructor
  · intro hm
    obtain ⟨n1, n2, n3, n4⟩ := B.nan n _ h
    unfold body
    simp only [e1, e2, c1, c2, hs, hm, e3, outside_nan I k _ _ h.s h.z, B.fact, Bool.false_eq_true, or_self, and_false, if_false, if_true, decide_false,
      lineSearch_nan I k g _ _ _ _ _ _ _ n1 n2 n3 n4]
    exact ⟨_, rfl, lost_advance I h _, B.bounds, rfl, rfl⟩
  · intro hm
    unfold body
    simp only [e1, e2, c1, c2, hs, hm, Bool.false_eq_true, or_self, and_false, if_false, if_true]

/-- C272 (violated expectation), for IEEE arithmetic: once an iterate is lost to NaN, no test notices: all remaining iterations are made, and then the best
iterate is returned with a verdict that is never `OptimalInacc`, because the test looks at cost products left over from the NaN iterate - even if the returned
iterate meets the reduced tolerances. -/
theorem C272_nan_unnoticed (I : Ieee F) {k : Cone} {g : Stg F} {orc : Orc F} (B : Blind k g orc) (S : Data F) (i0 : Info F) :
    ∀ (m n : Nat) (st : St F), 0 < n → (n : Int) + m = g.maxIters → Lost st.opt → (st.step ==. g.minStep *. g.stepScaling) = false →
      let q := loop k g S orc (m + 1) n st i0
      q.2 = m + 1 ∧ (q.1.iter : Int) = g.maxIters ∧ q.1.opt = st.best ∧ q.1.info = st.bestInfo ∧
      (q.1.code = .reachMaxIters ∨ q.1.code = .dualInfInacc ∨ q.1.code = .primalInfInacc) := by
  intro m
  induction m with
  | zero =>
    intro n st hn hm h hs
    have hm : (n : Int) = g.maxIters := by simpa using hm
    unfold loop
    rw [(lost_body I B S hn h hs).2 hm]
    obtain ⟨f1, f2, f3⟩ := reduced_fields g (computeResiduals k S st.opt) st.best st.bestInfo .reachMaxIters true n st.step
    refine ⟨rfl, by rw [f3]; exact hm, f1, f2, ?_⟩
    rcases reduced_code g (computeResiduals k S st.opt) st.best st.bestInfo .reachMaxIters true n st.step with ⟨h1, _⟩ | ⟨h1, h2⟩
    · exact Or.inl h1
    · have hc := check_codes g false (computeResiduals k S st.opt) st.bestInfo st.best
      rw [h1] at hc
      simp only [Bool.false_eq_true, if_false, List.mem_cons, List.not_mem_nil, or_false] at hc
      rcases hc with hc | hc | hc | hc
      · exfalso
        rw [hc] at h1
        obtain ⟨_, _, _, _, h3, _⟩ := check_optimal (Or.inr h1)
        obtain ⟨g1, g2, _⟩ := lost_stats (g := g) I B.dims S h
        rw [not_lt I (Or.inl g1), not_le I (Or.inl g2)] at h3
        simp at h3
      · exact Or.inr (Or.inl hc)
      · exact Or.inr (Or.inr hc)
      · exact absurd hc h2
  | succ m ih =>
    intro n st hn hm h hs
    obtain ⟨st', e, h1, h2, h3, h4⟩ := (lost_body I B S hn h hs).1 (by push_cast at hm; omega)
    have := ih (n + 1) st' (by omega) (by push_cast at hm ⊢; omega) h1 h2
    intro q
    have hq : q = ((loop k g S orc (m + 1) (n + 1) st' i0).1, (loop k g S orc (m + 1) (n + 1) st' i0).2 + 1) := by
      show loop k g S orc (m + 1 + 1) n st i0 = _
      rw [loop, e]
    rw [hq, ← h3, ← h4]
    exact ⟨by rw [this.1], this.2⟩

/-- A point whose slack, dual, tau and kappa are numbers. -/
structure ConeNum (k : Cone) (o : Pt F) : Prop where
  z : ∀ i < k.sizecone, Num (o.z i)
  s : ∀ i < k.sizecone, Num (o.s i)
  tau : Num o.tau
  kappa : Num o.kappa

/-- An iterate that replaces the best one has numbers in slack and dual, tau and kappa. -/
theorem better_num (I : Ieee F) {k : Cone} {g : Stg F} {S : Data F} {o : Pt F} {j : Info F}
    (h : isBetterThan (updateStatistics k g S o (computeResiduals k S o)) j = true) : ConeNum k o := by
  have hm : (c 0 <. (updateStatistics k g S o (computeResiduals k S o)).merit) = true := by
    unfold isBetterThan at h
    split at h
    · split at h
      · exact (of_decide_eq_true h).2.2.1
      · exact (of_decide_eq_true h).2.1
    · exact (of_decide_eq_true h).2.2.2.2.1
  have h1 := I.add_num _ _ (I.div_num _ _ (I.lt_num _ _ hm).2).1
  obtain ⟨h2, h3⟩ := I.mul_num _ _ h1.2
  exact ⟨fun i hi => (dot_num I h1.1 i hi).2, fun i hi => (dot_num I h1.1 i hi).1, h3, h2⟩

/-- C272, what does hold: if the starting point has numbers in slack, dual, tau and kappa, then so has the iterate returned with an inaccurate verdict or with
one of the codes for "iteration limit", "search direction" and "slacks leave the cone" - a NaN iterate is never returned under these codes.
Missing: the NaN is not reported, and all remaining iterations are spent on it (`C272_nan_unnoticed`). -/
theorem C272_restored_partial (I : Ieee F) (k : Cone) (g : Stg F) (hm : 1 ≤ g.maxIters) (S : Data F) (orc : Orc F) (hi : ConeNum k orc.init)
    (old : Pt F × Info F) (o0 : Pt F) (i0 : Info F)
    (h : (optimize k g S orc old o0 i0).1.code ∈
      [ExitCode.reachMaxIters, .prSearchDirection, .prSlacksLeaveCone, .optimalInacc, .dualInfInacc, .primalInfInacc]) :
    ConeNum k (optimize k g S orc old o0 i0).1.opt := by
  have hf : orc.fact 0 = true := by
    by_contra hf
    unfold optimize at h
    rw [if_neg hf] at h
    simp at h
  revert h
  refine optimize_result (fun n st => (n = 0 ∧ st.opt = orc.init) ∨ (0 < n ∧ ConeNum k st.best)) (fun q => q.code ∈
      [ExitCode.reachMaxIters, .prSearchDirection, .prSlacksLeaveCone, .optimalInacc, .dualInfInacc, .primalInfInacc] → ConeNum k q.opt)
    (Or.inl ⟨rfl, rfl⟩) ?_ ?_ hf (by omega)
  · intro n st st' hp hb
    refine Or.inr ⟨by omega, ?_⟩
    rcases (body_next hb).2 with ⟨h1, _, h2⟩ | ⟨h0, h1, _⟩
    · rw [h1]
      rcases h2 with h2 | h2
      · rcases hp with ⟨_, hp⟩ | ⟨hp, _⟩
        · rw [hp]; exact hi
        · omega
      · exact better_num I h2
    · rcases hp with ⟨hp, _⟩ | ⟨_, hp⟩
      · omega
      · rw [h1]; exact hp
  · intro n st q hp hb hq
    rcases body_stop hb with ⟨h1, _⟩ | ⟨h1, _⟩ | ⟨o, io, fb, sc, h1, h2, _⟩
    · exfalso
      have hc := check_codes g true (computeResiduals k S st.opt) (updateStatistics k g S st.opt (computeResiduals k S st.opt)) st.opt
      rw [← h1] at hc
      revert hc hq
      cases q.code <;> simp
    · subst h1
      simp at hq
    · have hopt := (reduced_fields g (computeResiduals k S st.opt) o io fb sc n st.step).1
      rw [← h1] at hopt
      rw [hopt]
      rcases h2 with ⟨h0, rfl, _⟩ | ⟨rfl, rfl, h2⟩ | ⟨_, h0, _⟩
      · rcases hp with ⟨hp, _⟩ | ⟨_, hp⟩
        · omega
        · exact hp
      · rcases h2 with h2 | h2
        · rcases hp with ⟨_, hp⟩ | ⟨hp, _⟩
          · rw [hp]; exact hi
          · omega
        · exact better_num I h2
      · omega

/-! ### C273: a residual that is not a number is not counted -/

/-- C273, what does hold: if the relative residual of the inequalities is a number, an optimal verdict bounds both relative residuals: each is at most a number
whose quotient by tau is below the tolerance.
Missing: if it is not a number (for instance an infinite right-hand side), it is not counted at all (`C273_dropped`, `C273_violated`). -/
theorem C273_optimal_partial (I : Ieee F) (k : Cone) (g : Stg F) (hm : 1 ≤ g.maxIters) (S : Data F) (orc : Orc F) (old : Pt F × Info F) (o0 : Pt F) (i0 : Info F)
    (h : (optimize k g S orc old o0 i0).1.code = .optimal ∨ (optimize k g S orc old o0 i0).1.code = .optimalInacc) :
    let o := (optimize k g S orc old o0 i0).1.opt
    let r := computeResiduals k S o
    Num (coneRes k S o r) → ∃ m tol : F, (tol = g.feastol ∨ tol = g.feastolInacc) ∧ (eqRes k S o r <=. m) = true ∧ (coneRes k S o r <=. m) = true ∧
      (m /. o.tau <. tol) = true := by
  have hf : orc.fact 0 = true := by
    by_contra hf
    unfold optimize at h
    rw [if_neg hf] at h
    rcases h with h | h <;> cases h
  have res : ∀ (o : Pt F) (full : Bool) (r : Res F),
      (convergenceCheck g full r (updateStatistics k g S o (computeResiduals k S o)) o = .optimal ∨
        convergenceCheck g full r (updateStatistics k g S o (computeResiduals k S o)) o = .optimalInacc) →
      Num (coneRes k S o (computeResiduals k S o)) → ∃ m tol : F, (tol = g.feastol ∨ tol = g.feastolInacc) ∧
        (eqRes k S o (computeResiduals k S o) <=. m) = true ∧ (coneRes k S o (computeResiduals k S o) <=. m) = true ∧ (m /. o.tau <. tol) = true := by
    intro o full r hq hn
    have hp : ((updateStatistics k g S o (computeResiduals k S o)).pres <. (if full then g.feastol else g.feastolInacc)) = true := by
      have pick : ∀ {P Q R : Prop} [Decidable P] [Decidable Q] [Decidable R] {a b d e : ExitCode},
          (if P then a else if Q then b else if R then d else e) = .optimal ∨ (if P then a else if Q then b else if R then d else e) = .optimalInacc →
          b ≠ .optimal → b ≠ .optimalInacc → d ≠ .optimal → d ≠ .optimalInacc → e ≠ .optimal → e ≠ .optimalInacc → P := by
        intro P Q R _ _ _ a b d e h h1 h2 h3 h4 h5 h6
        by_contra hp
        rw [if_neg hp] at h
        split at h
        · exact h.elim h1 h2
        · split at h
          · exact h.elim h3 h4
          · exact h.elim h5 h6
      unfold convergenceCheck at hq
      cases full
      · exact (pick hq (by simp) (by simp) (by simp) (by simp) (by simp) (by simp)).2.1.1
      · exact (pick hq (by simp) (by simp) (by simp) (by simp) (by simp) (by simp)).2.1.1
    have he : Num (eqRes k S o (computeResiduals k S o)) := fmax_fst I (I.div_num _ _ (I.lt_num _ _ hp).1).1
    refine ⟨fmax (eqRes k S o (computeResiduals k S o)) (coneRes k S o (computeResiduals k S o)), _, ?_, ?_, ?_, hp⟩
    · cases full <;> simp
    · unfold fmax
      split
      · rename_i h1; exact I.lt_le _ _ h1
      · exact he
    · unfold fmax
      split
      · exact hn
      · rename_i h1
        exact (I.lt_or_le _ _ he hn).resolve_left h1
  revert h
  refine optimize_result (BestOk k g S) (fun q => q.code = .optimal ∨ q.code = .optimalInacc →
    Num (coneRes k S q.opt (computeResiduals k S q.opt)) → ∃ m tol : F, (tol = g.feastol ∨ tol = g.feastolInacc) ∧
      (eqRes k S q.opt (computeResiduals k S q.opt) <=. m) = true ∧ (coneRes k S q.opt (computeResiduals k S q.opt) <=. m) = true ∧
      (m /. q.opt.tau <. tol) = true) (Or.inl rfl) (fun _ _ _ => bestOk_next) ?_ hf (by omega)
  intro n st q hp hb hq
  rcases body_stop hb with ⟨h1, _, h2, h3, _⟩ | ⟨h1, _⟩ | ⟨o, io, fb, sc, h1, h2, h3⟩
  · rw [h1] at hq
    rw [h2]
    exact res _ _ _ hq
  · subst h1
    rcases hq with h | h <;> cases h
  · have hopt := (reduced_fields g (computeResiduals k S st.opt) o io fb sc n st.step).1
    rcases reduced_code g (computeResiduals k S st.opt) o io fb sc n st.step with ⟨h4, _⟩ | ⟨h4, _⟩
    · rw [← h1] at h4
      rw [h4] at hq
      rcases h3 with rfl | ⟨rfl, _⟩ | rfl <;> rcases hq with h | h <;> cases h
    · rw [← h1] at h4
      rw [← h4] at hq
      rw [← h1] at hopt
      rw [hopt]
      have hio : io = updateStatistics k g S o (computeResiduals k S o) := by
        rcases h2 with ⟨h0, rfl, rfl⟩ | ⟨rfl, rfl, _⟩ | ⟨_, h0, _⟩
        · rcases hp with hp | hp
          · omega
          · exact hp
        · rfl
        · omega
      subst hio
      exact res _ _ _ hq

/-- C273: a relative residual of the inequalities that is not a number is dropped: the reported primal residual is that of the equalities alone. -/
theorem C273_dropped (I : Ieee F) (k : Cone) (g : Stg F) (S : Data F) (o : Pt F) (r : Res F) (h : ¬ Num (coneRes k S o r)) :
    (updateStatistics k g S o r).pres = eqRes k S o r /. o.tau := by
  show fmax (eqRes k S o r) (coneRes k S o r) /. o.tau = _
  rw [fmax_snd I h]

end IPF
end Verif
