import Verif.BnBInv
import Mathlib.Tactic.FinCases
import Mathlib.Tactic.Ring

/-! C24, C25, C26: branch and bound. -/
namespace Verif
namespace BnB

/-! ### specification -/

/-- The exit codes of the relaxation solver after which a node is evaluated, also those that report infeasibility. -/
def Usable (c : Code) : Prop :=
  c = .optimal ∨ c = .optimalInacc ∨ c = .dualInf ∨ c = .dualInfInacc ∨ c = .primalInf ∨ c = .primalInfInacc ∨ c = .reachMaxIters

theorem usable_of {c : Code} (h : accepted c = true) : Usable c := by
  cases c <;> simp_all [accepted, Usable]

theorem not_usable_of {c : Code} (h : accepted c = false) : ¬ Usable c := by
  cases c <;> simp_all [accepted, Usable]

/-- The relaxation solver respects the bounds of the binary variables up to `ε` whenever it returns an exit code the method accepts. -/
def Accurate {nb : Nat} {V : Type} (O : Oracle nb V) (ε : ℝ) : Prop :=
  ∀ k d, Usable (O.solve k d).1 → ∀ v,
    (d v = 1 → |O.bin (O.solve k d).2 v - 1| ≤ ε) ∧ (d v = 0 → |O.bin (O.solve k d).2 v| ≤ ε) ∧
    -ε ≤ O.bin (O.solve k d).2 v ∧ O.bin (O.solve k d).2 v ≤ 1 + ε

/-- `val a` is the optimal value for the binary assignment `a` (`⊤`: infeasible). Relaxations are valid: an accepted relaxation value
is a lower bound for the assignments of the node, a rejected relaxation has no feasible assignment. -/
def ValidRelaxation {nb : Nat} {V : Type} (O : Oracle nb V) (val : (Fin nb → Bool) → EReal) : Prop :=
  ∀ k d a, Box d a → (Usable (O.solve k d).1 → (O.obj (O.solve k d).2 : EReal) ≤ val a) ∧
    (¬ Usable (O.solve k d).1 → val a = ⊤)

/-- Integral solutions accepted as candidates are attained by some assignment. -/
def SoundCandidates {nb : Nat} {V : Type} (O : Oracle nb V) (c : Setting) (val : (Fin nb → Bool) → EReal) : Prop :=
  ∀ k d, ((Usable (O.solve k d).1 ∧ ∀ i, |O.bin (O.solve k d).2 i - cround (O.bin (O.solve k d).2 i)| < c.intTol) ∨
      (isOptimal (O.solve k d).1 = true ∧ ∃ v, d = fun i => cround (O.bin v i))) →
    ∃ a, val a ≤ (O.obj (O.solve k d).2 : EReal)

/-! ### C24 -/

theorem cround_cases {x ε : ℝ} (hε : ε < 1/2) (h1 : -ε ≤ x) (h2 : x ≤ 1 + ε) : cround x = 0 ∧ |x| ≤ 1/2 ∨ cround x = 1 ∧ |x - 1| ≤ 1/2 := by
  unfold cround
  split
  · next h0 =>
    rcases lt_or_ge x (1/2) with h | h
    · left
      refine ⟨?_, by rw [abs_of_nonneg h0]; linarith⟩
      rw [Int.floor_eq_iff]; constructor <;> push_cast <;> linarith
    · right
      refine ⟨?_, by rw [abs_le]; constructor <;> linarith⟩
      rw [Int.floor_eq_iff]; constructor <;> push_cast <;> linarith
  · next h0 =>
    left
    refine ⟨?_, by rw [abs_le]; constructor <;> linarith⟩
    rw [Int.ceil_eq_iff]; constructor <;> push_cast <;> linarith

theorem selectVar_spec {nb : Nat} (x : Fin nb → ℝ) : ∀ (l : List (Fin nb)) (a : Option (Fin nb) × ℝ),
    ((selectVar x l a).1 = a.1 ∧ (selectVar x l a).2 = a.2 ∨ ∃ v ∈ l, (selectVar x l a).1 = some v ∧ (selectVar x l a).2 = |x v - 0.5|) ∧
    (selectVar x l a).2 ≤ a.2 ∧ (∀ v ∈ l, (selectVar x l a).2 ≤ |x v - 0.5|) := by
  intro l
  induction l with
  | nil => intro a; exact ⟨.inl ⟨rfl, rfl⟩, le_rfl, fun v hv => by cases hv⟩
  | cons w l ih =>
    intro a
    rw [selectVar]
    by_cases hw : |x w - 0.5| < a.2
    · rw [if_pos hw]
      obtain ⟨h1, h2, h3⟩ := ih (some w, |x w - 0.5|)
      refine ⟨?_, h2.trans hw.le, ?_⟩
      · rcases h1 with ⟨h, h'⟩ | ⟨v, hv, h⟩
        · exact .inr ⟨w, List.mem_cons_self, h, h'⟩
        · exact .inr ⟨v, List.mem_cons_of_mem _ hv, h⟩
      · intro v hv
        rw [List.mem_cons] at hv
        rcases hv with rfl | hv
        · exact h2
        · exact h3 v hv
    · rw [if_neg hw]
      obtain ⟨h1, h2, h3⟩ := ih a
      refine ⟨?_, h2, ?_⟩
      · rcases h1 with h | ⟨v, hv, h⟩
        · exact .inl h
        · exact .inr ⟨v, List.mem_cons_of_mem _ hv, h⟩
      · intro v hv
        rw [List.mem_cons] at hv
        rcases hv with rfl | hv
        · exact h2.trans (not_lt.mp hw)
        · exact h3 v hv

/-- With an accurate relaxation solver the partition variable of a fractional node exists and is undecided. -/
theorem select_undecided {nb : Nat} {x : Fin nb → ℝ} {d : Fin nb → Int} {ε tol : ℝ} (hε : ε < tol) (hε2 : ε < 1/2) (hd : legal d)
    (hx : ∀ v, (d v = 1 → |x v - 1| ≤ ε) ∧ (d v = 0 → |x v| ≤ ε) ∧ -ε ≤ x v ∧ x v ≤ 1 + ε)
    (hf : ∃ i, ¬ |x i - cround (x i)| < tol) (o : Option (Fin nb)) :
    ∃ p, (selectVar x (List.finRange nb) (o, 1)).1 = some p ∧ d p = -1 := by
  obtain ⟨i, hi⟩ := hf
  rw [not_lt] at hi
  obtain ⟨h1, h2, h3, h4⟩ := hx i
  have htol : tol ≤ 1/2 ∧ |x i - 0.5| ≤ 1/2 - tol := by
    rcases cround_cases hε2 h3 h4 with ⟨hc, hb⟩ | ⟨hc, hb⟩
    · rw [hc] at hi
      push_cast at hi
      rw [sub_zero] at hi
      refine ⟨hi.trans hb, ?_⟩
      have hx0 : 0 ≤ x i := by
        by_contra hneg
        rw [abs_of_neg (not_le.mp hneg)] at hi
        linarith
      rw [abs_of_nonneg hx0] at hi hb
      rw [abs_le]; constructor <;> linarith
    · rw [hc] at hi
      push_cast at hi
      refine ⟨hi.trans hb, ?_⟩
      have hx0 : x i ≤ 1 := by
        by_contra hneg
        rw [abs_of_pos (by linarith)] at hi
        linarith
      rw [abs_of_nonpos (by linarith)] at hi hb
      rw [abs_le]; constructor <;> linarith
  obtain ⟨s1, s2, s3⟩ := selectVar_spec x (List.finRange nb) (o, 1)
  have hle := s3 i (List.mem_finRange i)
  have hlt : (selectVar x (List.finRange nb) (o, 1)).2 < 1 / 2 - ε := by linarith [htol.2]
  rcases s1 with ⟨-, h⟩ | ⟨p, -, hp, hv⟩
  · exfalso
    simp only at h
    rw [h] at hlt
    have h0 := abs_nonneg (x i - 0.5)
    have : (0:ℝ) ≤ 1 + ε := by linarith
    linarith
  · refine ⟨p, hp, ?_⟩
    rw [hv] at hlt
    obtain ⟨q1, q2, -, -⟩ := hx p
    rcases hd p with h | h | h
    · exfalso
      have := q1 h
      rw [abs_le] at this
      rw [abs_lt] at hlt
      linarith
    · exfalso
      have := q2 h
      rw [abs_le] at this
      rw [abs_lt] at hlt
      linarith
    · exact h

/-- Additional invariant with an accurate solver: branchable nodes have an undecided partition variable, boxes are disjoint. -/
structure Inv2 {nb : Nat} {V : Type} (s : State nb V) : Prop where
  undecided : ∀ i, i ≤ s.iteration → (s.nodes i).status = .branchable → ∃ p, (s.nodes i).pid = some p ∧ s.mat i p = -1
  disjoint : ∀ a i j, i ≤ s.iteration → j ≤ s.iteration → Box (s.mat i) a → Box (s.mat j) a → i = j

theorem upd_undecided {nb : Nat} {V : Type} {O : Oracle nb V} {c : Setting} {ε : ℝ} (hA : Accurate O ε) (h1 : ε < c.intTol) (h2 : ε < 1/2)
    {s s' : State nb V} {id : Nat} (hl : legal (s.mat id)) (u : Upd O c s s' id) (hb : (s'.nodes id).status = .branchable) :
    ∃ p, (s'.nodes id).pid = some p ∧ s'.mat id p = -1 := by
  obtain ⟨b1, b2, b3⟩ := u.branch hb
  obtain ⟨p, hp, hd⟩ := select_undecided h1 h2 hl (hA s.calls (s.mat id) (usable_of b1)) b2 (s.nodes id).pid
  exact ⟨p, b3.trans hp, by rw [u.mat]; exact hd⟩

theorem explored_branchable {nb : Nat} {V : Type} {O : Oracle nb V} {c : Setting} (hgap : 0 ≤ c.absGap) {s : State nb V} (hI : Inv O c s) (hc : check c s)
    {id : Nat} (hid : s.nodeId = some id) : id ≤ s.iteration ∧ (s.nodes id).status = .branchable := by
  obtain ⟨hle, hst⟩ := hI.nid id hid
  refine ⟨hle, ?_⟩
  rcases hst with h | h
  · exact h
  · exfalso
    have := hc.1
    unfold absExceeds at this
    rw [h] at this
    have h0 : s.lb - s.lb ≤ 0 := by
      induction s.lb with
      | bot => simp
      | top => simp
      | coe r => rw [← EReal.coe_sub]; simp
    have h2 : (0 : EReal) ≤ (c.absGap : EReal) := by exact_mod_cast hgap
    exact absurd (lt_of_lt_of_le this h0) (not_lt.mpr h2)

theorem inv2_reach {nb : Nat} {V : Type} {O : Oracle nb V} {c : Setting} (hgap : 0 ≤ c.absGap) {ε : ℝ} (hA : Accurate O ε) (h1 : ε < c.intTol) (h2 : ε < 1/2)
    {nodes0 : Nat → Node nb} {opt0 : V} {s : State nb V} (h : Reach O c nodes0 opt0 s) : Inv2 s := by
  induction h with
  | @root s h =>
    obtain ⟨s1, u, rfl⟩ := root_spec h
    have hit : s1.iteration = 0 := u.iteration
    refine ⟨fun i hi hb => ?_, fun a i j hi hj _ _ => ?_⟩
    · simp only [hit] at hi
      have : i = 0 := by omega
      subst this
      exact upd_undecided hA h1 h2 (s' := s1) (fun v => .inr (.inr rfl)) u hb
    · simp only [hit] at hi hj
      omega
  | @step s s' id hR hc hid hs ih =>
    have hI := inv_reach hgap hR
    obtain ⟨hle, hbr⟩ := explored_branchable hgap hI hc hid
    obtain ⟨s1, s2, s3, p, hb, u1, u2, rfl⟩ := body_spec hle hs
    have hidne : id ≠ s.iteration + 1 := by omega
    have hit3 : s3.iteration = s.iteration + 1 := u2.iteration.trans (u1.iteration.trans hb.iteration)
    have hmat : s3.mat = s1.mat := u2.mat.trans u1.mat
    obtain ⟨p', hp', hdp⟩ := ih.undecided id hle hbr
    have hpp : p' = p := by
      have := hb.pid
      simp only at this
      rw [hp'] at this
      injection this
    subst hpp
    refine ⟨fun i hi hbi => ?_, ?_⟩
    · simp only [hit3] at hi hbi ⊢
      by_cases e1 : i = s.iteration + 1
      · subst e1
        refine upd_undecided hA h1 h2 ?_ u2 hbi
        rw [u1.mat, hb.matNew]
        exact legal_update (hI.legal id) p' 1 (by simp)
      · rw [u2.other i e1] at hbi ⊢
        by_cases e2 : i = id
        · subst e2
          obtain ⟨q, hq, hm⟩ := upd_undecided hA h1 h2 (by rw [hb.matOld]; exact legal_update (hI.legal _) p' 0 (by simp)) u1 hbi
          exact ⟨q, hq, by rw [u2.mat]; exact hm⟩
        · rw [u1.other i e2, hb.other i e2 e1] at hbi ⊢
          rw [hmat, hb.matOther i e2 e1]
          exact ih.undecided i (by omega) hbi
    · have hone : ∀ a, Box (Function.update (s.mat id) p' 1) a → Box (Function.update (s.mat id) p' 0) a → False := by
        intro a ha hb'
        have q1 := ha p'
        have q2 := hb' p'
        simp only [Function.update_self] at q1 q2
        cases hap : a p' <;> simp [hap] at q1 q2
      have hdis : ∀ a i, i ≤ s.iteration → i ≠ id → Box (s.mat i) a → ∀ z, Box (Function.update (s.mat id) p' z) a → False := by
        intro a i hi hne hbi z hz
        exact hne (ih.disjoint a i id hi hle hbi (box_sub hdp hz))
      intro a i j hi hj hbi hbj
      simp only [hit3, hmat] at hi hj hbi hbj
      by_cases i1 : i = s.iteration + 1
      · subst i1
        rw [hb.matNew] at hbi
        by_cases j1 : j = s.iteration + 1
        · exact j1.symm
        · by_cases j2 : j = id
          · subst j2; rw [hb.matOld] at hbj; exact (hone a hbi hbj).elim
          · rw [hb.matOther j j2 j1] at hbj; exact (hdis a j (by omega) j2 hbj 1 hbi).elim
      · by_cases i2 : i = id
        · subst i2
          rw [hb.matOld] at hbi
          by_cases j1 : j = s.iteration + 1
          · subst j1; rw [hb.matNew] at hbj; exact (hone a hbj hbi).elim
          · by_cases j2 : j = i
            · exact j2.symm
            · rw [hb.matOther j j2 j1] at hbj; exact (hdis a j (by omega) j2 hbj 0 hbi).elim
        · rw [hb.matOther i i2 i1] at hbi
          by_cases j1 : j = s.iteration + 1
          · subst j1; rw [hb.matNew] at hbj; exact (hdis a i (by omega) i2 hbi 1 hbj).elim
          · by_cases j2 : j = id
            · subst j2; rw [hb.matOld] at hbj; exact (hdis a i (by omega) i2 hbi 0 hbj).elim
            · rw [hb.matOther j j2 j1] at hbj
              exact ih.disjoint a i j (by omega) (by omega) hbi hbj

/-- Under an accurate solver `updateNodeBounds` does not fault. -/
theorem upd_ok {nb : Nat} {V : Type} {O : Oracle nb V} {c : Setting} {ε : ℝ} (hA : Accurate O ε) (h2 : ε < 1/2) {s : State nb V} {id : Nat}
    (hl : legal (s.mat id)) : ∃ s', updateNodeBounds O c s id = .ok s' := by
  unfold updateNodeBounds
  rw [if_neg (not_not.mpr hl)]
  simp only
  cases hacc : accepted (O.solve s.calls (s.mat id)).1 with
  | false => simp
  | true =>
    simp only [if_true]
    split
    · exact ⟨_, rfl⟩
    · have : legal fun i => cround (O.bin (O.solve s.calls (s.mat id)).2 i) := by
        intro v
        obtain ⟨-, -, a, b⟩ := hA _ _ (usable_of hacc) v
        rcases cround_cases h2 a b with h | h
        · exact .inr (.inl h.1)
        · exact .inl h.1
      rw [if_neg (not_not.mpr this)]
      exact ⟨_, rfl⟩

/-- C24, partial: at every loop head and for every oracle, every 0/1 assignment belongs to some leaf `0..iteration`; if the relaxation solver
respects bounds on the binary variables up to less than the integrality tolerance, it belongs to exactly one, and no exception or use of an unassigned
partition index occurs. Missing: exclusivity for solvers that return fractional values for decided variables with an accepted
exit code, where it is false (`C24_violated`). -/
theorem C24_partition_partial {nb : Nat} {V : Type} (O : Oracle nb V) (c : Setting) (hgap : 0 ≤ c.absGap) (nodes0 : Nat → Node nb) (opt0 : V) :
    (∀ s, Reach O c nodes0 opt0 s → ∀ a, ∃ i, i ≤ s.iteration ∧ Box (s.mat i) a) ∧
    (∀ ε, Accurate O ε → ε < c.intTol → ε < 1/2 →
      (∀ s, Reach O c nodes0 opt0 s → ∀ a, ∃ i, (i ≤ s.iteration ∧ Box (s.mat i) a) ∧ ∀ j, j ≤ s.iteration → Box (s.mat j) a → j = i) ∧
      (∀ e, ¬ Run O c nodes0 opt0 (.error e))) := by
  refine ⟨fun s h => (inv_reach hgap h).covers, fun ε hA h1 h2 => ⟨fun s h a => ?_, fun e hrun => ?_⟩⟩
  · obtain ⟨i, hi, hb⟩ := (inv_reach hgap h).covers a
    exact ⟨i, ⟨hi, hb⟩, fun j hj hbj => (inv2_reach hgap hA h1 h2 h).disjoint a j i hj hi hbj hb⟩
  · cases hrun with
    | rootFault h =>
      unfold root at h
      obtain ⟨s', hs'⟩ := upd_ok (c := c) (s := (⟨Function.update nodes0 0 ⟨.notSolved, (nodes0 0).pid, ⊥, ⊤⟩, fun _ _ => -1, 0, some 0, ⊤, ⊥, opt0, 0, []⟩ :
        State nb V)) (id := 0) hA h2 (fun v => .inr (.inr rfl))
      simp only at h
      rw [hs'] at h
      cases h
    | @fault s id _ h hc hid hs =>
      have hI := inv_reach hgap h
      have hI2 := inv2_reach hgap hA h1 h2 h
      obtain ⟨hle, hbr⟩ := explored_branchable hgap hI hc hid
      obtain ⟨p, hp, -⟩ := hI2.undecided id hle hbr
      unfold body at hs
      cases hcb : createBranches { s with iteration := s.iteration + 1 } id with
      | error e' => unfold createBranches at hcb; simp only [hp] at hcb; cases hcb
      | ok s1 =>
        obtain ⟨q, hb⟩ := createBranches_spec (s := { s with iteration := s.iteration + 1 }) (by simp only; omega) hcb
        rw [hcb] at hs
        simp only [bind, Except.bind] at hs
        obtain ⟨s2, hs2⟩ := upd_ok (c := c) (s := s1) (id := id) hA h2 (by rw [hb.matOld]; exact legal_update (hI.legal _) q 0 (by simp))
        rw [hs2] at hs
        simp only at hs
        have u1 := updateNodeBounds_spec hs2
        obtain ⟨s3, hs3⟩ := upd_ok (c := c) (s := s2) (id := s2.iteration) hA h2 (by
          rw [u1.mat, u1.iteration, hb.iteration, hb.matNew]; exact legal_update (hI.legal _) q 1 (by simp))
        rw [hs3] at hs
        cases hs

/-! ### C25 -/

theorem exists_run {nb : Nat} {V : Type} (O : Oracle nb V) (c : Setting) (nodes0 : Nat → Node nb) (opt0 : V) : ∃ r, Run O c nodes0 opt0 r := by
  have key : ∀ (f : Nat) (s : State nb V), (c.maxIters - s.iteration).toNat ≤ f → (∀ id, s.nodeId = some id → id ≤ s.iteration) →
      Reach O c nodes0 opt0 s → ∃ r, Run O c nodes0 opt0 r := by
    intro f
    induction f with
    | zero =>
      intro s hf _ hR
      exact ⟨_, .done hR fun hc => by have := hc.2.2.2; omega⟩
    | succ f ih =>
      intro s hf hn hR
      by_cases hc : check c s
      · obtain ⟨id, hid⟩ := Option.ne_none_iff_exists'.mp hc.2.2.1
        cases hb : body O c s id with
        | error e => exact ⟨_, .fault hR hc hid hb⟩
        | ok s' =>
          refine ih s' ?_ ?_ (.step hR hc hid hb)
          · obtain ⟨s1, s2, s3, p, hbr, u1, u2, rfl⟩ := body_spec (hn id hid) hb
            have hit3 : s3.iteration = s.iteration + 1 := u2.iteration.trans (u1.iteration.trans hbr.iteration)
            simp only [hit3]
            have := hc.2.2.2
            push_cast
            omega
          · obtain ⟨s1, s2, s3, p, hbr, u1, u2, rfl⟩ := body_spec (hn id hid) hb
            have hit3 : s3.iteration = s.iteration + 1 := u2.iteration.trans (u1.iteration.trans hbr.iteration)
            intro j hj
            simp only [hit3] at hj ⊢
            have := ((selectNode_spec s3.nodes (s.iteration + 2)).1 j hj).1
            omega
      · exact ⟨_, .done hR hc⟩
  cases hr : root O c nodes0 opt0 with
  | error e => exact ⟨_, .rootFault hr⟩
  | ok s => exact key _ s le_rfl (fun id hid => ((inv_root hr).nid id hid).1) (.root hr)

/-- Node bounds are valid. -/
theorem valid_nodes {nb : Nat} {V : Type} {O : Oracle nb V} {c : Setting} (hgap : 0 ≤ c.absGap) {val : (Fin nb → Bool) → EReal} (hV : ValidRelaxation O val)
    {nodes0 : Nat → Node nb} {opt0 : V} {s : State nb V} (h : Reach O c nodes0 opt0 s) :
    ∀ i, i ≤ s.iteration → ∀ a, Box (s.mat i) a → (s.nodes i).lb ≤ val a := by
  have upd : ∀ {s s' : State nb V} {id : Nat}, Upd O c s s' id → ∀ a, Box (s'.mat id) a → (s'.nodes id).lb ≤ val a := by
    intro s s' id u a ha
    rw [u.mat] at ha
    obtain ⟨v1, v2⟩ := hV s.calls (s.mat id) a ha
    rcases u.node with ⟨v, hv, hacc, rfl⟩ | ⟨hv, hacc⟩
    · rw [hv]; exact v1 (usable_of hacc)
    · rw [v2 (not_usable_of hacc)]; exact le_top
  induction h with
  | @root s h =>
    obtain ⟨s1, u, rfl⟩ := root_spec h
    have hit : s1.iteration = 0 := u.iteration
    intro i hi a ha
    simp only [hit] at hi
    have : i = 0 := by omega
    subst this
    exact upd u a ha
  | @step s s' id hR hc hid hs ih =>
    have hI := inv_reach hgap hR
    obtain ⟨hle, -⟩ := hI.nid id hid
    obtain ⟨s1, s2, s3, p, hb, u1, u2, rfl⟩ := body_spec hle hs
    have hit3 : s3.iteration = s.iteration + 1 := u2.iteration.trans (u1.iteration.trans hb.iteration)
    intro i hi a ha
    simp only [hit3] at hi ha ⊢
    by_cases e1 : i = s.iteration + 1
    · subst e1; exact upd u2 a ha
    · rw [u2.other i e1]
      rw [u2.mat] at ha
      by_cases e2 : i = id
      · subst e2; exact upd u1 a ha
      · rw [u1.other i e2, hb.other i e2 e1]
        rw [u1.mat, hb.matOther i e2 e1] at ha
        exact ih i (by omega) a ha

/-- Lower bounds are never minus infinity at loop heads. -/
theorem lb_ne_bot {nb : Nat} {V : Type} {O : Oracle nb V} {c : Setting} (hgap : 0 ≤ c.absGap)
    {nodes0 : Nat → Node nb} {opt0 : V} {s : State nb V} (h : Reach O c nodes0 opt0 s) : s.lb ≠ ⊥ := by
  have hn : ∀ i, i ≤ s.iteration → (s.nodes i).lb ≠ ⊥ := by
    have upd : ∀ {s s' : State nb V} {id : Nat}, Upd O c s s' id → (s'.nodes id).lb ≠ ⊥ := by
      intro s s' id u
      rcases u.node with ⟨v, hv, -⟩ | ⟨hv, -⟩
      · rw [hv]; exact EReal.coe_ne_bot _
      · rw [hv]; exact top_ne_bot
    induction h with
    | @root s h =>
      obtain ⟨s1, u, rfl⟩ := root_spec h
      have hit : s1.iteration = 0 := u.iteration
      intro i hi
      simp only [hit] at hi
      have : i = 0 := by omega
      subst this
      exact upd (s' := s1) u
    | @step s s' id hR hc hid hs ih =>
      have hI := inv_reach hgap hR
      obtain ⟨hle, -⟩ := hI.nid id hid
      obtain ⟨s1, s2, s3, p, hb, u1, u2, rfl⟩ := body_spec hle hs
      have hit3 : s3.iteration = s.iteration + 1 := u2.iteration.trans (u1.iteration.trans hb.iteration)
      intro i hi
      simp only [hit3] at hi ⊢
      by_cases e1 : i = s.iteration + 1
      · subst e1; exact upd u2
      · rw [u2.other i e1]
        by_cases e2 : i = id
        · subst e2; exact upd u1
        · rw [u1.other i e2, hb.other i e2 e1]
          exact ih i (by omega)
  rw [(inv_reach hgap h).lb]
  have : ∀ k, k ≤ s.iteration + 1 → lowerBound s.nodes k ≠ ⊥ := by
    intro k
    induction k with
    | zero => intro _; exact top_ne_bot
    | succ k ih =>
      intro hk
      rw [lowerBound]
      rcases min_choice (lowerBound s.nodes k) (s.nodes k).lb with h | h
      · rw [h]; exact ih (by omega)
      · rw [h]; exact hn k (by omega)
  exact this _ le_rfl

/-- Every logged solution comes from a solve accepted as candidate. -/
theorem log_source {nb : Nat} {V : Type} {O : Oracle nb V} {c : Setting} (hgap : 0 ≤ c.absGap) {nodes0 : Nat → Node nb} {opt0 : V} {s : State nb V}
    (h : Reach O c nodes0 opt0 s) : ∀ e ∈ s.log, ∃ k d, legal d ∧ (O.solve k d).2 = e.2 ∧
    ((accepted (O.solve k d).1 = true ∧ ∀ i, |O.bin e.2 i - cround (O.bin e.2 i)| < c.intTol) ∨
      (isOptimal (O.solve k d).1 = true ∧ ∃ k' d', legal d' ∧ accepted (O.solve k' d').1 = true ∧
        d = fun i => cround (O.bin (O.solve k' d').2 i))) := by
  induction h with
  | @root s h =>
    obtain ⟨s1, u, rfl⟩ := root_spec h
    intro e he
    rcases u.source e he with h | h
    · cases h
    · exact h
  | @step s s' id hR hc hid hs ih =>
    have hI := inv_reach hgap hR
    obtain ⟨hle, -⟩ := hI.nid id hid
    obtain ⟨s1, s2, s3, p, hb, u1, u2, rfl⟩ := body_spec hle hs
    intro e he
    rcases u2.source e he with h | h
    · rcases u1.source e h with h | h
      · rw [hb.log] at h; exact ih e h
      · exact h
    · exact h

/-- C25. For every oracle and non-negative absolute gap: `optimize` has an outcome, with at most `BnBMaxIters - 1` iterations (none if that is not
positive), at most `2 + 4·iterations` relaxations; all node indices used are below `BnBMaxIters` if that is positive; if node relaxations
are valid, the reported lower bound is below the value of every assignment; if the exit code is Optimal, there is an incumbent of finite value `u`, and
the upper bound is not above the lower bound, or the absolute or the relative gap is within tolerance. -/
theorem C25_bounds {nb : Nat} {V : Type} (O : Oracle nb V) (c : Setting) (hgap : 0 ≤ c.absGap) (nodes0 : Nat → Node nb) (opt0 : V) :
    (∃ r, Run O c nodes0 opt0 r) ∧
    ∀ code s, Run O c nodes0 opt0 (.ok (code, s)) →
      (s.iteration = 0 ∨ (s.iteration : Int) ≤ c.maxIters - 1) ∧ s.calls ≤ 2 + 4 * s.iteration ∧
      (0 < c.maxIters → (s.iteration : Int) < c.maxIters) ∧
      (∀ val, ValidRelaxation O val → ∀ a, s.lb ≤ val a) ∧
      (code = .optimal → ∃ u : ℝ, s.ub = u ∧ u = O.obj s.opt ∧ ((u : EReal) ≤ s.lb ∨
        ∃ l : ℝ, s.lb = l ∧ (u - l ≤ c.absGap ∨ |u / l - 1| ≤ c.relGap))) := by
  refine ⟨exists_run O c nodes0 opt0, fun code s hrun => ?_⟩
  cases hrun with
  | done h hc =>
    have hI := inv_reach hgap h
    refine ⟨hI.iter, hI.calls, fun h0 => ?_, fun val hV a => ?_, fun hcode => ?_⟩
    · rcases hI.iter with h | h <;> omega
    · obtain ⟨i, hi, hb⟩ := hI.covers a
      rw [hI.lb]
      exact (lowerBound_le s.nodes _ i (by omega)).trans (valid_nodes hgap hV h i hi a hb)
    · unfold exitcode at hcode
      by_cases hit : (s.iteration : Int) < c.maxIters - 1
      · rw [if_pos hit] at hcode
        by_cases ht : s.ub = ⊤
        · rw [if_pos ht] at hcode; cases hcode
        · obtain ⟨k, -, hk⟩ := hI.opt ht
          refine ⟨O.obj s.opt, hk, rfl, ?_⟩
          by_cases hn : s.nodeId = none
          · left
            rw [hI.lb, ← hk]
            apply le_lowerBound
            intro i hi
            rcases hI.solved i (by omega) with h' | h'
            · exact absurd h'.1 (hI.nidNone hn i (by omega))
            · exact h'.2
          · have hc' : ¬ (absExceeds s.ub s.lb c.absGap ∧ relExceeds s.ub s.lb c.relGap) := fun h' => hc ⟨h'.1, h'.2, hn, hit⟩
            rw [hk] at hc' ht
            generalize O.obj s.opt = u at hc' ht
            have hbot := lb_ne_bot hgap h
            generalize s.lb = L at hc' hbot
            induction L with
            | bot => exact absurd rfl hbot
            | top => left; exact le_top
            | coe l =>
              by_cases hul : u ≤ l
              · left; exact_mod_cast hul
              right
              refine ⟨l, rfl, ?_⟩
              by_contra hcon
              rw [not_or, not_le, not_le] at hcon
              apply hc'
              constructor
              · unfold absExceeds
                rw [← EReal.coe_sub]
                exact_mod_cast hcon.1
              · unfold relExceeds
                rw [if_neg ht, if_neg (EReal.coe_ne_top _)]
                by_cases hl : (l : EReal) = 0
                · rw [if_pos hl]
                  have hl' : l = 0 := by exact_mod_cast hl
                  rw [hl', not_le] at hul
                  exact_mod_cast hul.ne'
                · rw [if_neg hl]
                  exact hcon.2
      · rw [if_neg hit] at hcode
        split at hcode
        · cases hcode
        · split at hcode <;> cases hcode

/-- C25, meaning of the exit code Optimal when node relaxations are valid and candidates are attained: the reported solution's value `u` is attained
by some assignment, and no assignment is better than `u` by more than the configured gaps. -/
theorem C25_optimal_within_gap {nb : Nat} {V : Type} (O : Oracle nb V) (c : Setting) (hgap : 0 ≤ c.absGap) (nodes0 : Nat → Node nb) (opt0 : V)
    (val : (Fin nb → Bool) → EReal) (hV : ValidRelaxation O val) (hS : SoundCandidates O c val) (s : State nb V)
    (hrun : Run O c nodes0 opt0 (.ok (.optimal, s))) :
    (∃ a, val a ≤ (O.obj s.opt : EReal)) ∧
    ((∀ a, (O.obj s.opt : EReal) ≤ val a) ∨
      ∃ l : ℝ, (∀ a, (l : EReal) ≤ val a) ∧ (O.obj s.opt - l ≤ c.absGap ∨ |O.obj s.opt / l - 1| ≤ c.relGap)) := by
  obtain ⟨-, hB⟩ := C25_bounds O c hgap nodes0 opt0
  obtain ⟨-, -, -, h4, h5⟩ := hB .optimal s hrun
  obtain ⟨u, hu, hobj, hcase⟩ := h5 rfl
  subst hobj
  constructor
  · generalize hq : Code.optimal = q at hrun
    cases hrun with
    | done h hc =>
      obtain ⟨k, hmem, -⟩ := (inv_reach hgap h).opt (by rw [hu]; exact EReal.coe_ne_top _)
      obtain ⟨k', d, -, he, hsrc⟩ := log_source hgap h _ hmem
      simp only at he hsrc
      rw [← he] at hsrc ⊢
      refine hS k' d ?_
      rcases hsrc with h | ⟨h1, k2, d2, -, -, h2⟩
      · exact .inl ⟨usable_of h.1, h.2⟩
      · exact .inr ⟨h1, _, h2⟩
  · rcases hcase with h | ⟨l, hl, h⟩
    · exact .inl fun a => h.trans (h4 val hV a)
    · exact .inr ⟨l, fun a => hl ▸ h4 val hV a, h⟩

/-! ### C26 -/

/-- C26, partial: the reported solution is one of the integral solutions evaluated, it has the reported value, and it is the best of those evaluated
after the root node; if no incumbent is reported, none was found after the root. Missing: a candidate found by rounding at the root is
forgotten (`C26_violated`). -/
theorem C26_incumbent_partial {nb : Nat} {V : Type} (O : Oracle nb V) (c : Setting) (hgap : 0 ≤ c.absGap) (nodes0 : Nat → Node nb) (opt0 : V)
    (code : Code) (s : State nb V) (hrun : Run O c nodes0 opt0 (.ok (code, s))) :
    (code = .optimal ∨ code = .optimalInacc → ∃ k, (k, s.opt) ∈ s.log ∧ s.ub = (O.obj s.opt : EReal) ∧
      ∀ e ∈ s.log, 0 < e.1 → O.obj s.opt ≤ O.obj e.2) ∧
    (code = .primalInf ∨ code = .primalInfInacc → ∀ e ∈ s.log, e.1 = 0) ∧
    (code = .optimal ∨ code = .optimalInacc ∨ code = .primalInf ∨ code = .primalInfInacc) := by
  cases hrun with
  | done h hc =>
    have hI := inv_reach hgap h
    have hcode : exitcode c s = (if (s.iteration : Int) < c.maxIters - 1 then (if s.ub = ⊤ then .primalInf else .optimal)
        else (if s.ub = ⊤ then .primalInfInacc else .optimalInacc)) := by
      unfold exitcode
      simp only [if_neg hI.notBot]
    rw [hcode]
    by_cases ht : s.ub = ⊤
    · refine ⟨fun h' => ?_, fun _ e he => ?_, ?_⟩
      · exfalso; revert h'; simp only [if_pos ht]; split <;> simp
      · by_contra h0
        have := hI.log e he (by omega)
        rw [ht, top_le_iff] at this
        exact EReal.coe_ne_top _ this
      · simp only [if_pos ht]; split <;> simp
    · refine ⟨fun _ => ?_, fun h' => ?_, ?_⟩
      · obtain ⟨k, h1, h2⟩ := hI.opt ht
        refine ⟨k, h1, h2, fun e he h0 => ?_⟩
        have := hI.log e he h0
        rw [h2] at this
        exact_mod_cast this
      · exfalso; revert h'; simp only [if_neg ht]; split <;> simp
      · simp only [if_neg ht]; split <;> simp

end BnB
end Verif
