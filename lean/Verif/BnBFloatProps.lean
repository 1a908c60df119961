import Verif.BnBFloat

/-!
Properties C274-C276: branch and bound in machine arithmetic. C274 holds in every arithmetic whatsoever; C275 and C276 assume the laws `Ieee` of LbfgsFloatProps
and of `Infinity` below, which hold of IEEE arithmetic with any rounding.
-/
namespace Verif
namespace BnBF
open LbfgsF BnB

variable {F : Type} [Arith F]

/-! ### specification -/

/-- The infinity of the settings is a number and the greatest; two numbers each at most the other compare equal; subtracting a number from itself does not exceed
the absolute gap. -/
structure Infinity (g : Setting F) : Prop where
  num : Num g.inf
  top : ∀ a : F, Num a → (a <=. g.inf) = true
  eq : ∀ a b : F, (a <=. b) = true → (b <=. a) = true → (a ==. b) = true
  gap : ∀ a : F, (g.absGap <. a -. a) = false

/-! ### what one update does -/

/-- What `updateNodeBounds` does on success, in every arithmetic. -/
structure Upd {nb : Nat} {V : Type} (O : Oracle F nb V) (g : Setting F) (s s' : State F nb V) (id : Nat) : Prop where
  mat : s'.mat = s.mat
  iteration : s'.iteration = s.iteration
  nodeId : s'.nodeId = s.nodeId
  lb : s'.lb = s.lb
  other : ∀ i, i ≠ id → s'.nodes i = s.nodes i
  calls : s.calls < s'.calls ∧ s'.calls ≤ s.calls + 2
  node : (accepted (O.solve s.calls (s.mat id)).1 = true ∧ (s'.nodes id).lb = O.obj (O.solve s.calls (s.mat id)).2) ∨
    (accepted (O.solve s.calls (s.mat id)).1 = false ∧ (s'.nodes id).lb = g.inf)
  /-- nothing evaluated, or one candidate, which becomes the incumbent if it compares below -/
  cand : (s'.log = s.log ∧ (∃ u : F, (u = (s.nodes id).ub ∨ u = g.inf) ∧ ((u <. s.ub) = false → s'.ub = s.ub ∧ s'.opt = s.opt))) ∨
    ∃ v : V, s'.log = (s.iteration, v) :: s.log ∧ ((O.obj v <. s.ub) = true ∧ s'.ub = O.obj v ∧ s'.opt = v ∨
      (O.obj v <. s.ub) = false ∧ s'.ub = s.ub ∧ s'.opt = s.opt)
  branch : (s'.nodes id).status = .branchable → (s'.nodes id).ub = g.inf ∨ (s'.nodes id).ub = (s.nodes id).ub
  /-- a node that cannot be branched carries the value of the candidate, or infinity -/
  leaf : (s'.nodes id).status ≠ .branchable → (s'.nodes id).ub = (s'.nodes id).lb ∧
    (s'.log = s.log ∧ (s'.nodes id).lb = g.inf ∨ ∃ v, s'.log = (s.iteration, v) :: s.log ∧ (s'.nodes id).lb = O.obj v)

theorem updateNodeBounds_spec {nb : Nat} {V : Type} {O : Oracle F nb V} {g : Setting F} {s s' : State F nb V} {id : Nat}
    (h : updateNodeBounds O g s id = .ok s') : Upd O g s s' id := by
  unfold updateNodeBounds at h
  by_cases h1 : ¬ legal (s.mat id)
  · rw [if_pos h1] at h; cases h
  rw [if_neg h1] at h
  simp only at h
  cases hacc : accepted (O.solve s.calls (s.mat id)).1 with
  | false =>
    rw [hacc] at h
    simp only [Bool.false_eq_true, if_false] at h
    injection h with h
    subst h
    exact { mat := rfl, iteration := rfl, nodeId := rfl, lb := rfl, other := fun i hi => by simp [hi], calls := by simp, node := .inr ⟨hacc, by simp⟩
            cand := .inl ⟨rfl, g.inf, .inr rfl, fun _ => ⟨rfl, rfl⟩⟩, branch := fun h => by simp at h, leaf := fun _ => ⟨by simp, .inl ⟨rfl, by simp⟩⟩ }
  | true =>
    rw [hacc] at h
    simp only [if_true] at h
    generalize hv : (O.solve s.calls (s.mat id)).2 = v at h
    by_cases hc : ∃ i, O.round (O.bin v i) = none
    · rw [if_pos hc] at h; cases h
    rw [if_neg hc] at h
    by_cases hint : ∀ i, near g (O.bin v i) ((O.round (O.bin v i)).getD 0) = true
    · rw [if_pos hint] at h
      injection h with h
      subst h
      refine { mat := rfl, iteration := rfl, nodeId := rfl, lb := rfl, other := fun i hi => by simp [hi], calls := by simp
               node := .inl ⟨hacc, by simp [hv]⟩, cand := .inr ⟨v, rfl, ?_⟩, branch := fun h => by simp at h
               leaf := fun _ => ⟨by simp, .inr ⟨v, rfl, by simp⟩⟩ }
      cases hlt : (O.obj v <. s.ub) with
      | true => exact .inl ⟨rfl, by simp [hlt], by simp [hlt]⟩
      | false => exact .inr ⟨rfl, by simp [hlt], by simp [hlt]⟩
    · rw [if_neg hint] at h
      by_cases hleg : legal fun i => (O.round (O.bin v i)).getD 0
      · rw [if_neg (not_not.mpr hleg)] at h
        generalize O.solve (s.calls + 1) (fun i => (O.round (O.bin v i)).getD 0) = q at h
        injection h with h
        cases hvia : isOptimal q.1 with
        | false =>
          rw [hvia] at h
          simp only [Bool.false_eq_true, if_false] at h
          subst h
          refine { mat := rfl, iteration := rfl, nodeId := rfl, lb := rfl, other := fun i hi => by simp [hi], calls := by simp
                   node := .inl ⟨hacc, by simp [hv]⟩, cand := .inl ⟨rfl, _, .inl rfl, fun hlt => ?_⟩, branch := fun _ => .inr (by simp)
                   leaf := fun h => by simp at h }
          simp [hlt]
        | true =>
          rw [hvia] at h
          simp only [if_true] at h
          subst h
          refine { mat := rfl, iteration := rfl, nodeId := rfl, lb := rfl, other := fun i hi => by simp [hi], calls := by simp
                   node := .inl ⟨hacc, by simp [hv]⟩, cand := .inr ⟨q.2, rfl, ?_⟩, branch := fun _ => .inl (by simp)
                   leaf := fun h => by simp at h }
          cases hlt : (O.obj q.2 <. s.ub) with
          | true => exact .inl ⟨rfl, by simp [hlt], by simp [hlt]⟩
          | false => exact .inr ⟨rfl, by simp [hlt], by simp [hlt]⟩
      · rw [if_pos hleg] at h; cases h

/-- What `createBranches` does on success, for a node below the current iteration. -/
structure Branched {nb : Nat} {V : Type} (s s' : State F nb V) (id : Nat) (p : Fin nb) : Prop where
  iteration : s'.iteration = s.iteration
  ub : s'.ub = s.ub
  lb : s'.lb = s.lb
  calls : s'.calls = s.calls
  log : s'.log = s.log
  opt : s'.opt = s.opt
  new : (s'.nodes s.iteration).ub = (s.nodes id).ub
  old : (s'.nodes id).ub = (s.nodes id).ub
  other : ∀ i, i ≠ id → i ≠ s.iteration → s'.nodes i = s.nodes i
  matNew : s'.mat s.iteration = Function.update (s.mat id) p 1
  matOld : s'.mat id = Function.update (s.mat id) p 0
  matOther : ∀ i, i ≠ id → i ≠ s.iteration → s'.mat i = s.mat i

theorem createBranches_spec {nb : Nat} {V : Type} {s s' : State F nb V} {id : Nat} (hid : id ≠ s.iteration)
    (h : createBranches s id = .ok s') : ∃ p, Branched s s' id p := by
  unfold createBranches at h
  cases hp : (s.nodes id).pid with
  | none => rw [hp] at h; cases h
  | some p =>
    rw [hp] at h
    simp only at h
    injection h with h
    subst h
    exact ⟨p, { iteration := rfl, ub := rfl, lb := rfl, calls := rfl, log := rfl, opt := rfl, new := by simp [hid.symm], old := by simp [hid]
                other := fun i h1 h2 => by simp [h1, h2], matNew := by simp [hid.symm], matOld := by simp [hid]
                matOther := fun i h1 h2 => by simp [h1, h2] }⟩

theorem body_spec {nb : Nat} {V : Type} {O : Oracle F nb V} {g : Setting F} {s s' : State F nb V} {id : Nat} (hid : id ≤ s.iteration)
    (h : body O g s id = .ok s') :
    ∃ s1 s2 s3 p, Branched { s with iteration := s.iteration + 1 } s1 id p ∧ Upd O g s1 s2 id ∧ Upd O g s2 s3 (s.iteration + 1) ∧
      s' = { s3 with lb := lowerBound g s3.nodes (s.iteration + 2), nodeId := (selectNode g s3.nodes (s.iteration + 2)).1 } := by
  unfold body at h
  cases h1 : createBranches { s with iteration := s.iteration + 1 } id with
  | error e => rw [h1] at h; cases h
  | ok s1 =>
    rw [h1] at h
    simp only [bind, Except.bind] at h
    cases h2 : updateNodeBounds O g s1 id with
    | error e => rw [h2] at h; cases h
    | ok s2 =>
      rw [h2] at h
      simp only at h
      cases h3 : updateNodeBounds O g s2 s2.iteration with
      | error e => rw [h3] at h; cases h
      | ok s3 =>
        rw [h3] at h
        simp only at h
        injection h with h
        obtain ⟨p, hb⟩ := createBranches_spec (s := { s with iteration := s.iteration + 1 }) (by simp only; omega) h1
        have u1 := updateNodeBounds_spec h2
        have u2 := updateNodeBounds_spec h3
        have hi : s2.iteration = s.iteration + 1 := u1.iteration.trans hb.iteration
        rw [hi] at u2
        have hi3 : s3.iteration = s.iteration + 1 := u2.iteration.trans hi
        refine ⟨s1, s2, s3, p, hb, u1, u2, ?_⟩
        rw [← h, hi3]

theorem selectNode_lt {nb : Nat} (g : Setting F) (nodes : Nat → Node F nb) : ∀ (k i : Nat), (selectNode g nodes k).1 = some i →
    i < k ∧ (nodes i).status = .branchable := by
  intro k
  induction k with
  | zero => intro i h; cases h
  | succ k ih =>
    intro i h
    unfold selectNode at h
    simp only at h
    split at h
    · rename_i h1
      injection h with h
      subst h
      exact ⟨Nat.lt_succ_self _, h1.1⟩
    · exact ⟨(ih i h).1.trans (Nat.lt_succ_self _), (ih i h).2⟩

/-! ### C274: termination and work, in every arithmetic -/

/-- Counters at the head of the loop. -/
structure Count {nb : Nat} {V : Type} (g : Setting F) (s : State F nb V) : Prop where
  limit : s.iteration = 0 ∨ (s.iteration : Int) ≤ g.maxIters - 1
  calls : s.calls ≤ 2 + 4 * s.iteration
  node : ∀ i, s.nodeId = some i → i ≤ s.iteration

theorem root_spec {nb : Nat} {V : Type} {O : Oracle F nb V} {g : Setting F} {nodes0 : Nat → Node F nb} {opt0 : V} {s : State F nb V}
    (h : root O g nodes0 opt0 = .ok s) : ∃ s1, Upd O g { nodes := Function.update nodes0 0 { nodes0 0 with status := .notSolved, lb := Arith.neg g.inf, ub := g.inf }, mat := fun _ _ => -1, iteration := 0, nodeId := some 0, ub := g.inf, lb := Arith.neg g.inf, opt := opt0, calls := 0, log := [] } s1 0 ∧
      s = { s1 with lb := (s1.nodes 0).lb, ub := (s1.nodes 0).ub } := by
  unfold root at h
  cases h1 : updateNodeBounds O g
    { nodes := Function.update nodes0 0 { nodes0 0 with status := .notSolved, lb := Arith.neg g.inf, ub := g.inf }
      mat := fun _ _ => -1, iteration := 0, nodeId := some 0, ub := g.inf, lb := Arith.neg g.inf, opt := opt0, calls := 0, log := [] } 0 with
  | error e => rw [h1] at h; cases h
  | ok s1 =>
    rw [h1] at h
    simp only [bind, Except.bind] at h
    injection h with h
    exact ⟨s1, updateNodeBounds_spec h1, h.symm⟩

theorem reach_count {nb : Nat} {V : Type} {O : Oracle F nb V} {g : Setting F} {nodes0 : Nat → Node F nb} {opt0 : V} {s : State F nb V}
    (h : Reach O g nodes0 opt0 s) : Count g s := by
  induction h with
  | root h =>
    obtain ⟨s1, u, rfl⟩ := root_spec h
    have hi : s1.iteration = 0 := u.iteration
    refine ⟨.inl hi, ?_, fun i hn => ?_⟩
    · have := u.calls.2
      simp only [hi] at this ⊢; omega
    · have : some 0 = some i := u.nodeId.symm.trans hn
      injection this with this
      exact this ▸ Nat.zero_le _
  | @step s s' id h hc hid hs ih =>
    obtain ⟨s1, s2, s3, p, hb, u1, u2, rfl⟩ := body_spec (ih.node id hid) hs
    have hi : s3.iteration = s.iteration + 1 := u2.iteration.trans (u1.iteration.trans hb.iteration)
    refine ⟨.inr ?_, ?_, fun i hn => ?_⟩
    · have := hc.2.2.2
      simp only [hi]; push_cast; omega
    · have h1 := u1.calls.2
      have h2 := u2.calls.2
      have h3 := hb.calls
      have h4 := ih.calls
      simp only at h3 ⊢
      rw [hi]; omega
    · have := (selectNode_lt g s3.nodes _ i hn).1
      simp only [hi]; omega

/-- C274, in every arithmetic and for every relaxation solver: `optimize` has an outcome; it makes at most `BnBMaxIters - 1` iterations, solves at most two
relaxations and four more per iteration, uses no node beyond the allocated ones, and its exit code is a verdict. -/
theorem C274_terminates {nb : Nat} {V : Type} (O : Oracle F nb V) (g : Setting F) (nodes0 : Nat → Node F nb) (opt0 : V) :
    (∃ r, Run O g nodes0 opt0 r) ∧
    ∀ code s, Run O g nodes0 opt0 (.ok (code, s)) →
      (s.iteration = 0 ∨ (s.iteration : Int) ≤ g.maxIters - 1) ∧ s.calls ≤ 2 + 4 * s.iteration ∧ (0 < g.maxIters → (s.iteration : Int) < g.maxIters) ∧
      code ∈ [Code.optimal, .optimalInacc, .primalInf, .primalInfInacc, .dualInf, .dualInfInacc] := by
  constructor
  · cases hr : root O g nodes0 opt0 with
    | error e => exact ⟨_, .rootFault hr⟩
    | ok s =>
      have key : ∀ m : Nat, ∀ s : State F nb V, Reach O g nodes0 opt0 s → (g.maxIters - 1 - s.iteration).toNat ≤ m → ∃ r, Run O g nodes0 opt0 r := by
        intro m
        induction m with
        | zero =>
          intro s hs hm
          exact ⟨_, .done hs fun hc => by have := hc.2.2.2; omega⟩
        | succ m ih =>
          intro s hs hm
          by_cases hc : check g s
          · obtain ⟨id, hid⟩ := Option.ne_none_iff_exists'.mp hc.2.2.1
            cases hb : body O g s id with
            | error e => exact ⟨_, .fault hs hc hid hb⟩
            | ok s' =>
              refine ih s' (.step hs hc hid hb) ?_
              obtain ⟨s1, s2, s3, p, hb', u1, u2, rfl⟩ := body_spec ((reach_count hs).node id hid) hb
              have hi : s3.iteration = s.iteration + 1 := u2.iteration.trans (u1.iteration.trans hb'.iteration)
              have := hc.2.2.2
              simp only [hi]; push_cast; omega
          · exact ⟨_, .done hs hc⟩
      exact key _ s (.root hr) le_rfl
  · intro code s h
    cases h with
    | done h hc =>
      have C := reach_count h
      refine ⟨C.limit, C.calls, fun hp => ?_, ?_⟩
      · rcases C.limit with h | h
        · rw [h]; exact_mod_cast hp
        · omega
      · unfold exitcode
        split <;> split <;> try split
        all_goals simp

/-! ### C275: the incumbent -/

theorem lt_le_trans (I : Ieee F) {a b d : F} (h1 : (a <. b) = true) (h2 : (b <=. d) = true) : (a <=. d) = true :=
  I.le_trans _ _ _ (I.lt_le _ _ h1) h2

/-- The incumbent at the head of the loop. -/
structure Inc {nb : Nat} {V : Type} (O : Oracle F nb V) (g : Setting F) (s : State F nb V) : Prop where
  num : Num s.ub
  opt : (s.ub <. g.inf) = true → ∃ k, (k, s.opt) ∈ s.log ∧ s.ub = O.obj s.opt
  log : ∀ e ∈ s.log, 0 < e.1 → Num (O.obj e.2) → (s.ub <=. O.obj e.2) = true

theorem inc_upd (I : Ieee F) {nb : Nat} {V : Type} {O : Oracle F nb V} {g : Setting F} (hg : Infinity g) {s s' : State F nb V} {id : Nat}
    (u : Upd O g s s' id) (hub : (s.nodes id).ub = g.inf) (h : Inc O g s) : Inc O g s' := by
  rcases u.cand with ⟨hl, w, hw, hk⟩ | ⟨v, hl, ⟨h1, h2, h3⟩ | ⟨h1, h2, h3⟩⟩
  · have hw : w = g.inf := hw.elim (fun e => e.trans hub) fun e => e
    obtain ⟨h1, h2⟩ := hk (by rw [hw]; exact I.le_not_lt _ _ (hg.top _ h.num))
    exact ⟨by rw [h1]; exact h.num, by rw [h1, h2, hl]; exact h.opt, by rw [h1, hl]; exact h.log⟩
  · refine ⟨by rw [h2]; exact (I.lt_num _ _ h1).1, fun _ => ⟨s.iteration, by rw [hl, h3]; exact List.mem_cons_self, by rw [h2, h3]⟩, fun e he hp hn => ?_⟩
    rw [hl] at he
    rw [h2]
    rcases List.mem_cons.mp he with rfl | he
    · exact hn
    · exact lt_le_trans I h1 (h.log e he hp hn)
  · refine ⟨by rw [h2]; exact h.num, fun hlt => ?_, fun e he hp hn => ?_⟩
    · rw [h2] at hlt
      obtain ⟨k, h4, h5⟩ := h.opt hlt
      exact ⟨k, by rw [hl, h3]; exact List.mem_cons_of_mem _ h4, by rw [h2, h3]; exact h5⟩
    · rw [hl] at he
      rw [h2]
      rcases List.mem_cons.mp he with rfl | he
      · rcases I.lt_or_le _ _ hn h.num with h4 | h4
        · rw [h1] at h4; cases h4
        · exact h4
      · exact h.log e he hp hn

/-- All nodes that can be branched have an infinite upper bound. -/
def OpenInf {nb : Nat} {V : Type} (g : Setting F) (s : State F nb V) : Prop :=
  ∀ i ≤ s.iteration, (s.nodes i).status = .branchable → (s.nodes i).ub = g.inf

theorem reach_inc (I : Ieee F) {nb : Nat} {V : Type} {O : Oracle F nb V} {g : Setting F} (hg : Infinity g) {nodes0 : Nat → Node F nb} {opt0 : V}
    (hroot : accepted (O.solve 0 fun _ => -1).1 = true → Num (O.obj (O.solve 0 fun _ => -1).2)) {s : State F nb V} (h : Reach O g nodes0 opt0 s) :
    Inc O g s ∧ OpenInf g s ∧ (∀ i, check g s → s.nodeId = some i → (s.nodes i).status = .branchable) := by
  induction h with
  | root h =>
    obtain ⟨s1, u, rfl⟩ := root_spec h
    have hinc := inc_upd I hg u (by simp) ⟨hg.num, fun h => absurd h (by rw [I.le_not_lt _ _ hg.num]; exact Bool.false_ne_true), fun e he => by cases he⟩
    have hzero : ∀ e ∈ s1.log, e.1 = 0 := by
      intro e he
      rcases u.cand with ⟨hl, _⟩ | ⟨v, hl, _⟩
      · rw [hl] at he; cases he
      · rw [hl] at he
        rcases List.mem_cons.mp he with rfl | he
        · rfl
        · cases he
    have hopen : OpenInf g s1 := fun i hi hs => by
      have : i = 0 := by have := u.iteration; simp only at this; omega
      subst this
      rcases u.branch hs with h | h
      · exact h
      · rw [h]; simp
    by_cases hs : (s1.nodes 0).status = .branchable
    · have hub := hopen 0 (Nat.zero_le _) hs
      refine ⟨⟨by simp only [hub]; exact hg.num, fun h => ?_, fun e he hp => ?_⟩, hopen, fun i _ hi => ?_⟩
      · simp only [hub] at h
        rw [I.le_not_lt _ _ hg.num] at h; cases h
      · exact absurd (hzero e he) (by omega)
      · have : some 0 = some i := u.nodeId.symm.trans hi
        injection this with this
        rw [← this]; exact hs
    · obtain ⟨h1, h2⟩ := u.leaf hs
      have hchk : ¬ check g { s1 with lb := (s1.nodes 0).lb, ub := (s1.nodes 0).ub } := fun hc => by
        have := hc.1
        simp only [h1] at this
        rw [hg.gap] at this; cases this
      refine ⟨?_, hopen, fun i hc _ => absurd hc hchk⟩
      rcases h2 with ⟨hl, h2⟩ | ⟨v, hl, h2⟩
      · refine ⟨by simp only [h1, h2]; exact hg.num, fun h => ?_, fun e he hp => absurd (hzero e he) (by omega)⟩
        simp only [h1, h2] at h
        rw [I.le_not_lt _ _ hg.num] at h; cases h
      · have hn : Num (O.obj v) := by
          rcases u.node with ⟨ha, hb⟩ | ⟨ha, hb⟩
          · rw [← h2, hb]; exact hroot ha
          · rw [← h2, hb]; exact hg.num
        refine ⟨by simp only [h1, h2]; exact hn, fun h => ?_, fun e he hp => absurd (hzero e he) (by omega)⟩
        simp only [h1, h2] at h
        rcases u.cand with ⟨hl', _⟩ | ⟨v', hl', ⟨h3, h4, h5⟩ | ⟨h3, h4, h5⟩⟩
        · rw [hl] at hl'; cases hl'
        · rw [hl] at hl'
          injection hl' with e1 e2
          injection e1 with _ e1
          subst e1
          exact ⟨0, by rw [hl, h5]; exact List.mem_cons_self, by simp only [h1, h2, h5]⟩
        · rw [hl] at hl'
          injection hl' with e1 e2
          injection e1 with _ e1
          subst e1
          rw [h] at h3; cases h3
  | @step s s' id h hc hid hs ih =>
    obtain ⟨hinc, hopen, hsel⟩ := ih
    have hle := (reach_count h).node id hid
    obtain ⟨s1, s2, s3, p, hb, u1, u2, rfl⟩ := body_spec hle hs
    have hub : (s.nodes id).ub = g.inf := hopen id hle (hsel id hc hid)
    have i1 : Inc O g s1 := ⟨by rw [hb.ub]; exact hinc.num, by rw [hb.ub, hb.opt, hb.log]; exact hinc.opt, by rw [hb.ub, hb.log]; exact hinc.log⟩
    have i2 := inc_upd I hg u1 (hb.old.trans hub) i1
    have hne : s.iteration + 1 ≠ id := by omega
    have hnew : (s2.nodes (s.iteration + 1)).ub = g.inf := by rw [u1.other _ hne]; exact hb.new.trans hub
    have i3 := inc_upd I hg u2 hnew i2
    have hi : s3.iteration = s.iteration + 1 := u2.iteration.trans (u1.iteration.trans hb.iteration)
    have hopen3 : OpenInf g s3 := fun i hle hst => by
      by_cases h1 : i = s.iteration + 1
      · subst h1
        rcases u2.branch hst with h | h
        · exact h
        · rw [h]; exact hnew
      · rw [u2.other i h1] at hst ⊢
        by_cases h2 : i = id
        · subst h2
          rcases u1.branch hst with h | h
          · exact h
          · rw [h]; exact hb.old.trans hub
        · rw [u1.other i h2] at hst ⊢
          rw [hb.other i h2 (by simpa using h1)] at hst ⊢
          exact hopen i (by omega) hst
    refine ⟨⟨i3.num, i3.opt, i3.log⟩, hopen3, fun i _ hn => (selectNode_lt g s3.nodes _ i hn).2⟩

/-- C275, partial: if the objective of the root relaxation, as computed, is a number, a solution reported under Optimal or OptimalInacc is one of the integral
solutions evaluated, the reported value is its objective, a number below infinity, and no integral solution evaluated after the root has a smaller one;
those with a NaN objective are never reported. -/
theorem C275_incumbent_partial (I : Ieee F) {nb : Nat} {V : Type} (O : Oracle F nb V) (g : Setting F) (hg : Infinity g) (nodes0 : Nat → Node F nb) (opt0 : V)
    (hroot : accepted (O.solve 0 fun _ => -1).1 = true → Num (O.obj (O.solve 0 fun _ => -1).2)) (code : Code) (s : State F nb V)
    (h : Run O g nodes0 opt0 (.ok (code, s))) (hcode : code = .optimal ∨ code = .optimalInacc) :
    (∃ k, (k, s.opt) ∈ s.log) ∧ s.ub = O.obj s.opt ∧ Num (O.obj s.opt) ∧ (O.obj s.opt <. g.inf) = true ∧
    ∀ e ∈ s.log, 0 < e.1 → Num (O.obj e.2) → (O.obj s.opt <=. O.obj e.2) = true := by
  cases h with
  | done h hc =>
    obtain ⟨hinc, _, _⟩ := reach_inc I hg hroot h
    have hlt : (s.ub <. g.inf) = true := by
      rcases I.lt_or_le _ _ hinc.num hg.num with h1 | h1
      · exact h1
      · exfalso
        have he : isinf g s.ub = true := by unfold isinf; rw [hg.eq _ _ (hg.top _ hinc.num) h1]; rfl
        unfold exitcode at hcode
        rw [he] at hcode
        revert hcode
        simp only [if_true]
        split <;> split <;> simp
    obtain ⟨k, h1, h2⟩ := hinc.opt hlt
    exact ⟨⟨k, h1⟩, h2, by rw [← h2]; exact hinc.num, by rw [← h2]; exact hlt, fun e he hp hn => by rw [← h2]; exact hinc.log e he hp hn⟩

/-! ### C276: the lower bound -/

theorem fmin_spec (I : Ieee F) {a b : F} (ha : Num a) : Num (fmin a b) ∧ (fmin a b <=. a) = true ∧ (Num b → (fmin a b <=. b) = true) := by
  unfold fmin
  split
  · rename_i h
    exact ⟨(I.lt_num _ _ h).1, I.lt_le _ _ h, fun h => h⟩
  · rename_i h
    refine ⟨ha, ha, fun hb => ?_⟩
    rcases I.lt_or_le _ _ hb ha with h1 | h1
    · exact absurd h1 h
    · exact h1

theorem lowerBound_spec (I : Ieee F) {nb : Nat} {g : Setting F} (hg : Infinity g) (nodes : Nat → Node F nb) : ∀ k : Nat,
    Num (lowerBound g nodes k) ∧ ∀ i < k, Num (nodes i).lb → (lowerBound g nodes k <=. (nodes i).lb) = true := by
  intro k
  induction k with
  | zero => exact ⟨hg.num, fun i hi => absurd hi (Nat.not_lt_zero _)⟩
  | succ k ih =>
    obtain ⟨h1, h2, h3⟩ := fmin_spec I (b := (nodes k).lb) ih.1
    refine ⟨h1, fun i hi hn => ?_⟩
    rcases Nat.lt_succ_iff_lt_or_eq.mp hi with hi | rfl
    · exact I.le_trans _ _ _ h2 (ih.2 i hi hn)
    · exact h3 hn

/-- Every leaf has been solved. -/
def Solved {nb : Nat} {V : Type} (O : Oracle F nb V) (g : Setting F) (s : State F nb V) : Prop := ∀ i ≤ s.iteration, ∃ k,
  (accepted (O.solve k (s.mat i)).1 = true ∧ (s.nodes i).lb = O.obj (O.solve k (s.mat i)).2) ∨
    (accepted (O.solve k (s.mat i)).1 = false ∧ (s.nodes i).lb = g.inf)

theorem reach_lower (I : Ieee F) {nb : Nat} {V : Type} {O : Oracle F nb V} {g : Setting F} (hg : Infinity g) {nodes0 : Nat → Node F nb} {opt0 : V}
    {s : State F nb V} (h : Reach O g nodes0 opt0 s) : Solved O g s ∧ ∀ i ≤ s.iteration, Num (s.nodes i).lb → (s.lb <=. (s.nodes i).lb) = true := by
  induction h with
  | root h =>
    obtain ⟨s1, u, rfl⟩ := root_spec h
    have hi : ∀ i ≤ s1.iteration, i = 0 := fun i hi => by have := u.iteration; simp only at this; omega
    refine ⟨fun i hle => ?_, fun i hle hn => ?_⟩
    · have := hi i hle
      subst this
      refine ⟨0, ?_⟩
      simp only [u.mat]
      exact u.node
    · have := hi i hle
      subst this
      exact hn
  | @step s s' id h hc hid hs ih =>
    obtain ⟨hsol, _⟩ := ih
    have hle := (reach_count h).node id hid
    obtain ⟨s1, s2, s3, p, hb, u1, u2, rfl⟩ := body_spec hle hs
    have hi : s3.iteration = s.iteration + 1 := u2.iteration.trans (u1.iteration.trans hb.iteration)
    refine ⟨fun i hle => ?_, fun i hle hn => ?_⟩
    · simp only [hi] at hle
      simp only []
      by_cases h1 : i = s.iteration + 1
      · subst h1
        exact ⟨s2.calls, by rw [u2.mat]; exact u2.node⟩
      · rw [u2.other i h1, u2.mat]
        by_cases h2 : i = id
        · subst h2
          exact ⟨s1.calls, by rw [u1.mat]; exact u1.node⟩
        · rw [u1.other i h2, u1.mat, hb.other i h2 (by simpa using h1), hb.matOther i h2 (by simpa using h1)]
          exact hsol i (by omega)
    · simp only [hi] at hle
      exact (lowerBound_spec I hg s3.nodes (s.iteration + 2)).2 i (by omega) hn

/-- C276, partial: when branch and bound ends, every leaf has been solved with its decisions, and the reported lower bound is at most the objective of its
relaxation, provided that objective is a number. -/
theorem C276_lower_partial (I : Ieee F) {nb : Nat} {V : Type} (O : Oracle F nb V) (g : Setting F) (hg : Infinity g) (nodes0 : Nat → Node F nb) (opt0 : V)
    (code : Code) (s : State F nb V) (h : Run O g nodes0 opt0 (.ok (code, s))) : ∀ i ≤ s.iteration, ∃ k, let r := O.solve k (s.mat i)
      accepted r.1 = true → Num (O.obj r.2) → (s.lb <=. O.obj r.2) = true := by
  cases h with
  | done h hc =>
    obtain ⟨h1, h2⟩ := reach_lower I hg h
    intro i hi
    obtain ⟨k, h3⟩ := h1 i hi
    refine ⟨k, fun ha hn => ?_⟩
    rcases h3 with ⟨_, h3⟩ | ⟨h3, _⟩
    · rw [← h3] at hn ⊢
      exact h2 i hi hn
    · rw [ha] at h3; cases h3

end BnBF
end Verif
