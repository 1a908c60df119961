import Verif.BnB
import Mathlib.Tactic.Linarith
import Mathlib.Tactic.NormNum

/-! Invariants of branch and bound. -/
namespace Verif
namespace BnB

/-- The 0/1 assignments compatible with the decisions of a node. -/
def Box {nb : Nat} (d : Fin nb → Int) (a : Fin nb → Bool) : Prop := ∀ v, d v = -1 ∨ d v = if a v then 1 else 0

/-- Status of a solved node relative to the problem's upper bound. -/
def Solved {nb : Nat} (n : Node nb) (ub : EReal) : Prop :=
  (n.status = .branchable ∧ n.ub = ⊤ ∧ n.lb ≠ ⊤) ∨ (n.status = .nonBranchable ∧ ub ≤ n.lb)

theorem Solved.mono {nb : Nat} {n : Node nb} {ub ub' : EReal} (h : Solved n ub) (hle : ub' ≤ ub) : Solved n ub' := by
  rcases h with h | ⟨h1, h2⟩
  · exact .inl h
  · exact .inr ⟨h1, hle.trans h2⟩

/-- The incumbent is a logged solution with value `ub`. -/
def OptOk {nb : Nat} {V : Type} (O : Oracle nb V) (s : State nb V) : Prop := s.ub ≠ ⊤ → ∃ k, (k, s.opt) ∈ s.log ∧ s.ub = (O.obj s.opt : EReal)

/-- What `updateNodeBounds` does on success. -/
structure Upd {nb : Nat} {V : Type} (O : Oracle nb V) (c : Setting) (s s' : State nb V) (id : Nat) : Prop where
  mat : s'.mat = s.mat
  iteration : s'.iteration = s.iteration
  nodeId : s'.nodeId = s.nodeId
  lb : s'.lb = s.lb
  other : ∀ i, i ≠ id → s'.nodes i = s.nodes i
  ub : s'.ub ≤ s.ub
  calls : s'.calls ≤ s.calls + 2
  solved : (s.nodes id).ub = ⊤ → Solved (s'.nodes id) s'.ub
  opt : (s.nodes id).ub = ⊤ → OptOk O s → OptOk O s'
  log : (s.nodes id).ub = ⊤ → ∃ l, s'.log = l ++ s.log ∧ ∀ e ∈ l, e.1 = s.iteration ∧ s'.ub ≤ (O.obj e.2 : EReal)
  rootUb : s.ub = ⊤ → (s.nodes id).ub = ⊤ → (s'.nodes id).status = .nonBranchable → (s'.nodes id).ub = s'.ub ∧ (s'.nodes id).lb = s'.ub
  node : (∃ v : V, (s'.nodes id).lb = (O.obj v : EReal) ∧ (accepted (O.solve s.calls (s.mat id)).1 = true ∧ v = (O.solve s.calls (s.mat id)).2)) ∨
    ((s'.nodes id).lb = ⊤ ∧ accepted (O.solve s.calls (s.mat id)).1 = false)
  branch : (s'.nodes id).status = .branchable → accepted (O.solve s.calls (s.mat id)).1 = true ∧
    (∃ i, ¬ |O.bin (O.solve s.calls (s.mat id)).2 i - cround (O.bin (O.solve s.calls (s.mat id)).2 i)| < c.intTol) ∧
    (s'.nodes id).pid = (selectVar (O.bin (O.solve s.calls (s.mat id)).2) (List.finRange nb) ((s.nodes id).pid, 1)).1
  /-- new log entries are integral solutions of the node's relaxation or optimal solutions for fixed binary variables -/
  source : ∀ e ∈ s'.log, e ∈ s.log ∨ ∃ k d, legal d ∧ (O.solve k d).2 = e.2 ∧
    ((accepted (O.solve k d).1 = true ∧ ∀ i, |O.bin e.2 i - cround (O.bin e.2 i)| < c.intTol) ∨
      (isOptimal (O.solve k d).1 = true ∧ ∃ k' d', legal d' ∧ accepted (O.solve k' d').1 = true ∧
        d = fun i => cround (O.bin (O.solve k' d').2 i)))

theorem ite_min (a b : EReal) : (if a < b then a else b) = min a b := by
  split
  · next h => exact (min_eq_left h.le).symm
  · next h => exact (min_eq_right (not_lt.mp h)).symm

theorem updateNodeBounds_spec {nb : Nat} {V : Type} {O : Oracle nb V} {c : Setting} {s s' : State nb V} {id : Nat}
    (h : updateNodeBounds O c s id = .ok s') : Upd O c s s' id := by
  unfold updateNodeBounds at h
  by_cases h1 : ¬ legal (s.mat id)
  · rw [if_pos h1] at h; cases h
  rw [if_neg h1] at h
  simp only at h
  cases hacc : accepted (O.solve s.calls (s.mat id)).1 with
  | false =>
    rw [hacc] at h
    simp only [Bool.false_eq_true, if_false] at h
    injection h with h
    subst h
    exact { mat := rfl, iteration := rfl, nodeId := rfl, lb := rfl, other := fun i hi => by simp [hi], ub := le_rfl, calls := by simp
            solved := fun _ => .inr (by simp), opt := fun _ h => h, log := fun _ => ⟨[], rfl, fun e he => by cases he⟩
            rootUb := fun h _ _ => by simp [h], node := .inr (by simp [hacc]), branch := fun h => by simp at h, source := fun e he => .inl he }
  | true =>
    rw [hacc] at h
    simp only [if_true] at h
    generalize hv : (O.solve s.calls (s.mat id)).2 = v at h
    by_cases hint : ∀ i, |O.bin v i - cround (O.bin v i)| < c.intTol
    · rw [if_pos hint] at h
      injection h with h
      subst h
      refine { mat := rfl, iteration := rfl, nodeId := rfl, lb := rfl, other := fun i hi => by simp [hi], ub := ?_, calls := by simp
               solved := fun _ => .inr ?_, opt := fun _ h => ?_, log := fun _ => ⟨[(s.iteration, v)], rfl, fun e he => ?_⟩
               rootUb := fun h _ _ => ?_, node := .inl ⟨v, by simp, hacc, hv.symm⟩, branch := fun h => by simp at h, source := fun e he => ?_ }
      · simp only [ite_min]; exact min_le_right _ _
      · simp only [Function.update_self, ite_min]; exact ⟨trivial, min_le_left _ _⟩
      · intro hne
        simp only at hne ⊢
        split
        · exact ⟨s.iteration, by simp, rfl⟩
        · next hlt =>
          rw [if_neg hlt] at hne
          obtain ⟨k, h2, h3⟩ := h hne
          exact ⟨k, List.mem_cons_of_mem _ h2, h3⟩
      · rw [List.mem_singleton] at he; subst he
        refine ⟨rfl, ?_⟩
        simp only [ite_min]; exact min_le_left _ _
      · simp only [Function.update_self, h]
        rw [if_pos (EReal.coe_lt_top _)]; exact ⟨rfl, rfl⟩
      · simp only [List.mem_cons] at he
        rcases he with rfl | he
        · exact .inr ⟨_, _, not_not.mp h1, hv, .inl ⟨hacc, hint⟩⟩
        · exact .inl he
    · rw [if_neg hint] at h
      by_cases hleg : legal fun i => cround (O.bin v i)
      · rw [if_neg (not_not.mpr hleg)] at h
        generalize hq : O.solve (s.calls + 1) (fun i => cround (O.bin v i)) = q at h
        injection h with h
        have hni : ∃ i, ¬ |O.bin v i - cround (O.bin v i)| < c.intTol := not_forall.mp hint
        cases hvia : isOptimal q.1 with
        | false =>
          rw [hvia] at h
          simp only [Bool.false_eq_true, if_false] at h
          subst h
          have hn : (s.nodes id).ub = ⊤ → ¬ (s.nodes id).ub < s.ub := fun h => by rw [h]; exact not_top_lt
          refine { mat := rfl, iteration := rfl, nodeId := rfl, lb := rfl, other := fun i hi => by simp [hi], ub := ?_, calls := by simp
                   solved := fun ht => .inl (by simp [ht]), opt := fun ht h => ?_, log := fun ht => ⟨[], rfl, fun e he => by cases he⟩
                   rootUb := fun h _ h' => by simp at h', node := .inl ⟨v, by simp, hacc, hv.symm⟩, branch := fun _ => ⟨hacc, by rw [hv]; exact hni, by rw [hv]; simp⟩
                   source := fun e he => .inl he }
          · simp only [ite_min]; exact min_le_right _ _
          · intro hne
            simp only [if_neg (hn ht)] at hne ⊢
            exact h hne
        | true =>
          rw [hvia] at h
          simp only [if_true] at h
          subst h
          refine { mat := rfl, iteration := rfl, nodeId := rfl, lb := rfl, other := fun i hi => by simp [hi], ub := ?_, calls := by simp
                   solved := fun ht => .inl (by simp), opt := fun ht h => ?_, log := fun ht => ⟨[(s.iteration, q.2)], rfl, fun e he => ?_⟩
                   rootUb := fun h _ h' => by simp at h', node := .inl ⟨v, by simp, hacc, hv.symm⟩, branch := fun _ => ⟨hacc, by rw [hv]; exact hni, by rw [hv]; simp⟩
                   source := fun e he => ?_ }
          · simp only [ite_min]; exact min_le_right _ _
          · intro hne
            simp only at hne ⊢
            split
            · exact ⟨s.iteration, by simp, rfl⟩
            · next hlt =>
              rw [if_neg hlt] at hne
              obtain ⟨k, h2, h3⟩ := h hne
              exact ⟨k, List.mem_cons_of_mem _ h2, h3⟩
          · rw [List.mem_singleton] at he; subst he
            refine ⟨rfl, ?_⟩
            simp only [ite_min]; exact min_le_left _ _
          · simp only [List.mem_cons] at he
            rcases he with rfl | he
            · exact .inr ⟨s.calls + 1, fun i => cround (O.bin v i), hleg, by rw [hq], .inr ⟨by rw [hq]; exact hvia, _, _, not_not.mp h1, hacc, by rw [hv]⟩⟩
            · exact .inl he
      · rw [if_pos hleg] at h; cases h

/-- What `createBranches` does on success, for a node below the current iteration. -/
structure Branched {nb : Nat} {V : Type} (s s' : State nb V) (id : Nat) (p : Fin nb) : Prop where
  pid : (s.nodes id).pid = some p
  iteration : s'.iteration = s.iteration
  ub : s'.ub = s.ub
  lb : s'.lb = s.lb
  calls : s'.calls = s.calls
  log : s'.log = s.log
  opt : s'.opt = s.opt
  new : (s'.nodes s.iteration).ub = (s.nodes id).ub ∧ (s'.nodes s.iteration).lb = (s.nodes id).lb
  old : (s'.nodes id).ub = (s.nodes id).ub ∧ (s'.nodes id).lb = (s.nodes id).lb
  other : ∀ i, i ≠ id → i ≠ s.iteration → s'.nodes i = s.nodes i
  matNew : s'.mat s.iteration = Function.update (s.mat id) p 1
  matOld : s'.mat id = Function.update (s.mat id) p 0
  matOther : ∀ i, i ≠ id → i ≠ s.iteration → s'.mat i = s.mat i

theorem createBranches_spec {nb : Nat} {V : Type} {s s' : State nb V} {id : Nat} (hid : id ≠ s.iteration)
    (h : createBranches s id = .ok s') : ∃ p, Branched s s' id p := by
  unfold createBranches at h
  cases hp : (s.nodes id).pid with
  | none => rw [hp] at h; cases h
  | some p =>
    rw [hp] at h
    simp only at h
    injection h with h
    subst h
    exact ⟨p, { pid := hp, iteration := rfl, ub := rfl, lb := rfl, calls := rfl, log := rfl, opt := rfl, new := by simp [hid.symm], old := by simp [hid]
                other := fun i h1 h2 => by simp [h1, h2], matNew := by simp [hid.symm], matOld := by simp [hid]
                matOther := fun i h1 h2 => by simp [h1, h2] }⟩

/-- One pass of the main loop. -/
theorem body_spec {nb : Nat} {V : Type} {O : Oracle nb V} {c : Setting} {s s' : State nb V} {id : Nat} (hid : id ≤ s.iteration)
    (h : body O c s id = .ok s') :
    ∃ s1 s2 s3 p, Branched { s with iteration := s.iteration + 1 } s1 id p ∧ Upd O c s1 s2 id ∧ Upd O c s2 s3 (s.iteration + 1) ∧
      s' = { s3 with lb := lowerBound s3.nodes (s.iteration + 2), nodeId := (selectNode s3.nodes (s.iteration + 2)).1 } := by
  unfold body at h
  cases h1 : createBranches { s with iteration := s.iteration + 1 } id with
  | error e => rw [h1] at h; cases h
  | ok s1 =>
    rw [h1] at h
    simp only [bind, Except.bind] at h
    cases h2 : updateNodeBounds O c s1 id with
    | error e => rw [h2] at h; cases h
    | ok s2 =>
      rw [h2] at h
      simp only at h
      cases h3 : updateNodeBounds O c s2 s2.iteration with
      | error e => rw [h3] at h; cases h
      | ok s3 =>
        rw [h3] at h
        simp only at h
        injection h with h
        obtain ⟨p, hb⟩ := createBranches_spec (s := { s with iteration := s.iteration + 1 }) (by simp only; omega) h1
        have u1 := updateNodeBounds_spec h2
        have u2 := updateNodeBounds_spec h3
        have hi : s2.iteration = s.iteration + 1 := u1.iteration.trans hb.iteration
        have hi3 : s3.iteration = s.iteration + 1 := u2.iteration.trans hi
        rw [hi] at u2
        refine ⟨s1, s2, s3, p, hb, u1, u2, ?_⟩
        rw [← h, hi3]

theorem lowerBound_le {nb : Nat} (nodes : Nat → Node nb) (k : Nat) : ∀ i, i < k → lowerBound nodes k ≤ (nodes i).lb := by
  induction k with
  | zero => intro i hi; omega
  | succ k ih =>
    intro i hi
    rw [lowerBound]
    rcases Nat.lt_or_ge i k with h | h
    · exact (min_le_left _ _).trans (ih i h)
    · have : i = k := by omega
      subst this; exact min_le_right _ _

theorem le_lowerBound {nb : Nat} (nodes : Nat → Node nb) (k : Nat) (x : EReal) (h : ∀ i, i < k → x ≤ (nodes i).lb) : x ≤ lowerBound nodes k := by
  induction k with
  | zero => exact le_top
  | succ k ih => exact le_min (ih fun i hi => h i (by omega)) (h k (by omega))

theorem selectNode_spec {nb : Nat} (nodes : Nat → Node nb) (k : Nat) :
    (∀ i, (selectNode nodes k).1 = some i → i < k ∧ (nodes i).status = .branchable ∧ (nodes i).lb = (selectNode nodes k).2) ∧
    ((selectNode nodes k).1 = none → (selectNode nodes k).2 = ⊤) ∧
    (∀ i, i < k → (nodes i).status = .branchable → (selectNode nodes k).2 ≤ (nodes i).lb) := by
  induction k with
  | zero => exact ⟨fun i h => (by simp [selectNode] at h), fun _ => rfl, fun i h => by omega⟩
  | succ k ih =>
    obtain ⟨h1, h2, h3⟩ := ih
    rw [selectNode]
    split
    · next hc =>
      refine ⟨fun i hi => ?_, fun h => by simp at h, fun i hi hb => ?_⟩
      · simp only [Option.some.injEq] at hi; subst hi; exact ⟨by omega, hc.1, rfl⟩
      · rcases Nat.lt_or_ge i k with h | h
        · exact hc.2.le.trans (h3 i h hb)
        · have : i = k := by omega
          subst this; exact le_rfl
    · next hc =>
      refine ⟨fun i hi => ?_, h2, fun i hi hb => ?_⟩
      · obtain ⟨a, b⟩ := h1 i hi; exact ⟨by omega, b⟩
      · rcases Nat.lt_or_ge i k with h | h
        · exact h3 i h hb
        · have : i = k := by omega
          subst this
          by_contra hlt
          exact hc ⟨hb, not_le.mp hlt⟩

/-- Invariant at the head of the main loop, for every oracle. -/
structure Inv {nb : Nat} {V : Type} (O : Oracle nb V) (c : Setting) (s : State nb V) : Prop where
  nid : ∀ id, s.nodeId = some id → id ≤ s.iteration ∧ ((s.nodes id).status = .branchable ∨ s.ub = s.lb)
  nidNone : s.nodeId = none → ∀ i, i ≤ s.iteration → (s.nodes i).status ≠ .branchable
  legal : ∀ i, legal (s.mat i)
  covers : ∀ a, ∃ i, i ≤ s.iteration ∧ Box (s.mat i) a
  solved : ∀ i, i ≤ s.iteration → Solved (s.nodes i) s.ub
  lb : s.lb = lowerBound s.nodes (s.iteration + 1)
  notBot : s.ub ≠ ⊥
  iter : s.iteration = 0 ∨ (s.iteration : Int) ≤ c.maxIters - 1
  calls : s.calls ≤ 2 + 4 * s.iteration
  log : ∀ e ∈ s.log, 0 < e.1 → s.ub ≤ (O.obj e.2 : EReal)
  opt : OptOk O s

theorem root_spec {nb : Nat} {V : Type} {O : Oracle nb V} {c : Setting} {nodes0 : Nat → Node nb} {opt0 : V} {s : State nb V}
    (h : root O c nodes0 opt0 = .ok s) :
    ∃ s1, Upd O c { nodes := Function.update nodes0 0 { nodes0 0 with status := .notSolved, lb := ⊥, ub := ⊤ }
                    mat := fun _ _ => -1, iteration := 0, nodeId := some 0, ub := ⊤, lb := ⊥, opt := opt0, calls := 0, log := [] } s1 0 ∧
      s = { s1 with lb := (s1.nodes 0).lb, ub := (s1.nodes 0).ub } := by
  unfold root at h
  generalize hu : updateNodeBounds O c _ 0 = r at h
  cases r with
  | error e => cases h
  | ok s1 =>
    simp only [bind, Except.bind] at h
    injection h with h
    exact ⟨s1, updateNodeBounds_spec hu, h.symm⟩

theorem inv_root {nb : Nat} {V : Type} {O : Oracle nb V} {c : Setting} {nodes0 : Nat → Node nb} {opt0 : V} {s : State nb V}
    (h : root O c nodes0 opt0 = .ok s) : Inv O c s := by
  obtain ⟨s1, u, rfl⟩ := root_spec h
  have hit : s1.iteration = 0 := u.iteration
  have hnid : s1.nodeId = some 0 := u.nodeId
  have hub0 : (Function.update nodes0 0 { nodes0 0 with status := .notSolved, lb := ⊥, ub := ⊤ } 0).ub = (⊤ : EReal) := by simp
  have hsol := u.solved hub0
  have hopt := u.opt hub0 (fun h => absurd rfl h)
  have hroot := u.rootUb rfl hub0
  obtain ⟨l, hl, hle⟩ := u.log hub0
  simp only [List.append_nil] at hl
  have hmat : s1.mat = fun _ _ => -1 := u.mat
  refine ⟨?_, ?_, ?_, ?_, ?_, ?_, ?_, .inl hit, ?_, ?_, ?_⟩
  · intro id hid
    simp only at hid ⊢
    rw [hnid] at hid
    injection hid with hid
    subst hid
    refine ⟨by omega, ?_⟩
    rcases hsol with h | h
    · exact .inl h.1
    · obtain ⟨a, b⟩ := hroot h.1
      exact .inr (a.trans b.symm)
  · intro hn; simp only at hn; rw [hnid] at hn; cases hn
  · intro i; simp only [hmat]; intro v; right; right; rfl
  · intro a; exact ⟨0, by simp, by simp only [hmat]; exact fun v => .inl rfl⟩
  · intro i hi
    simp only [hit] at hi ⊢
    have : i = 0 := by omega
    subst this
    rcases hsol with h | h
    · exact .inl h
    · exact .inr ⟨h.1, by rw [(hroot h.1).1, (hroot h.1).2]⟩
  · simp only [hit, lowerBound]
    exact (min_eq_right le_top).symm
  · simp only
    rcases hsol with h | h
    · rw [h.2.1]; exact (top_ne_bot : (⊤ : EReal) ≠ ⊥)
    · rw [(hroot h.1).1, ← (hroot h.1).2]
      rcases u.node with ⟨v, hv, -⟩ | ⟨hv, -⟩
      · rw [hv]; exact EReal.coe_ne_bot _
      · rw [hv]; exact (top_ne_bot : (⊤ : EReal) ≠ ⊥)
  · have := u.calls
    simp only at this ⊢
    omega
  · intro e he h0
    simp only at he
    rw [hl] at he
    have := (hle e he).1
    simp only at this
    omega
  · intro hne
    simp only at hne ⊢
    rcases hsol with h | h
    · exact absurd h.2.1 hne
    · obtain ⟨a, b⟩ := hroot h.1
      rw [a] at hne ⊢
      exact hopt hne

theorem box_cover {nb : Nat} {d : Fin nb → Int} {a : Fin nb → Bool} (h : Box d a) (p : Fin nb) :
    Box (Function.update d p 1) a ∨ Box (Function.update d p 0) a := by
  cases ha : a p with
  | true =>
    left; intro v
    by_cases hv : v = p
    · subst hv; right; simp [ha]
    · rw [Function.update_of_ne hv]; exact h v
  | false =>
    right; intro v
    by_cases hv : v = p
    · subst hv; right; simp [ha]
    · rw [Function.update_of_ne hv]; exact h v

theorem box_sub {nb : Nat} {d : Fin nb → Int} {a : Fin nb → Bool} {p : Fin nb} (hp : d p = -1) {z : Int} (h : Box (Function.update d p z) a) : Box d a := by
  intro v
  by_cases hv : v = p
  · subst hv; exact .inl hp
  · have := h v; rwa [Function.update_of_ne hv] at this

theorem legal_update {nb : Nat} {d : Fin nb → Int} (h : legal d) (p : Fin nb) (z : Int) (hz : z = 1 ∨ z = 0 ∨ z = -1) : legal (Function.update d p z) := by
  intro v
  by_cases hv : v = p
  · subst hv; simpa using hz
  · rw [Function.update_of_ne hv]; exact h v

theorem inv_step {nb : Nat} {V : Type} {O : Oracle nb V} {c : Setting} (hgap : 0 ≤ c.absGap) {s s' : State nb V} {id : Nat} (hI : Inv O c s) (hc : check c s)
    (hid : s.nodeId = some id) (h : body O c s id = .ok s') : Inv O c s' := by
  obtain ⟨hle, hst⟩ := hI.nid id hid
  have hbr : (s.nodes id).status = .branchable := by
    rcases hst with h | h
    · exact h
    · exfalso
      have := hc.1
      unfold absExceeds at this
      rw [h] at this
      have h0 : s.lb - s.lb ≤ 0 := by
        induction s.lb with
        | bot => simp
        | top => simp
        | coe r => rw [← EReal.coe_sub]; simp
      have h2 : (0 : EReal) ≤ (c.absGap : EReal) := by exact_mod_cast hgap
      exact absurd (lt_of_lt_of_le this h0) (not_lt.mpr h2)
  have hubid : (s.nodes id).ub = ⊤ := by
    rcases hI.solved id hle with h | h
    · exact h.2.1
    · rw [hbr] at h; cases h.1
  obtain ⟨s1, s2, s3, p, hb, u1, u2, rfl⟩ := body_spec hle h
  have hidne : id ≠ s.iteration + 1 := by omega
  have hub1 : (s1.nodes id).ub = ⊤ := by rw [hb.old.1]; exact hubid
  have hub2 : (s2.nodes (s.iteration + 1)).ub = ⊤ := by
    rw [u1.other _ hidne.symm, hb.new.1]; exact hubid
  have hit1 : s1.iteration = s.iteration + 1 := hb.iteration
  have hit2 : s2.iteration = s.iteration + 1 := u1.iteration.trans hit1
  have hit3 : s3.iteration = s.iteration + 1 := u2.iteration.trans hit2
  have hmat : s3.mat = s1.mat := u2.mat.trans u1.mat
  have hubs : s3.ub ≤ s.ub := by rw [← show s1.ub = s.ub from hb.ub]; exact u2.ub.trans u1.ub
  have hsolved : ∀ i, i ≤ s.iteration + 1 → Solved (s3.nodes i) s3.ub := by
    intro i hi
    by_cases h1 : i = s.iteration + 1
    · subst h1; exact u2.solved hub2
    · rw [u2.other i h1]
      by_cases h2 : i = id
      · subst h2; exact (u1.solved hub1).mono u2.ub
      · rw [u1.other i h2, hb.other i h2 h1]
        exact (hI.solved i (by omega)).mono hubs
  have hO1 : OptOk O s1 := by
    intro hne
    rw [show s1.ub = s.ub from hb.ub] at hne ⊢
    rw [hb.opt, hb.log]
    exact hI.opt hne
  refine ⟨?_, ?_, ?_, ?_, ?_, ?_, ?_, .inr ?_, ?_, ?_, ?_⟩
  · intro i hi
    simp only at hi ⊢
    obtain ⟨a, b, -⟩ := (selectNode_spec s3.nodes (s.iteration + 2)).1 i hi
    exact ⟨by omega, .inl b⟩
  · intro hn i hi hcon
    simp only at hn hi hcon
    obtain ⟨-, h2, h3⟩ := selectNode_spec s3.nodes (s.iteration + 2)
    have := h3 i (by omega) hcon
    rw [h2 hn, top_le_iff] at this
    rcases hsolved i (by omega) with h | h
    · exact h.2.2 this
    · rw [hcon] at h; cases h.1
  · intro i
    simp only [hmat]
    by_cases h1 : i = s.iteration + 1
    · subst h1; rw [hb.matNew]; exact legal_update (hI.legal id) p 1 (by simp)
    · by_cases h2 : i = id
      · subst h2; rw [hb.matOld]; exact legal_update (hI.legal _) p 0 (by simp)
      · rw [hb.matOther i h2 h1]; exact hI.legal i
  · intro a
    simp only [hmat, hit3]
    obtain ⟨i, hi, hbox⟩ := hI.covers a
    by_cases h2 : i = id
    · subst h2
      rcases box_cover hbox p with h | h
      · exact ⟨s.iteration + 1, le_rfl, by rw [hb.matNew]; exact h⟩
      · exact ⟨i, by omega, by rw [hb.matOld]; exact h⟩
    · exact ⟨i, by omega, by rw [hb.matOther i h2 (by simp only; omega)]; exact hbox⟩
  · intro i hi
    simp only [hit3] at hi
    exact hsolved i hi
  · simp only [hit3]
  · intro hbot
    simp only at hbot
    have hO := u2.opt hub2 (u1.opt hub1 hO1)
    by_cases ht : s3.ub = ⊤
    · rw [ht] at hbot; exact (top_ne_bot : (⊤ : EReal) ≠ ⊥) hbot
    · obtain ⟨k, -, hk⟩ := hO ht
      rw [hk] at hbot
      exact EReal.coe_ne_bot _ hbot
  · have := hc.2.2.2
    simp only [hit3]
    push_cast
    omega
  · have h1 := hI.calls
    have h2 := u1.calls
    have h3 := u2.calls
    have h4 : s1.calls = s.calls := hb.calls
    simp only [hit3]
    omega
  · intro e he h0
    simp only at he ⊢
    obtain ⟨l2, hl2, hle2⟩ := u2.log hub2
    obtain ⟨l1, hl1, hle1⟩ := u1.log hub1
    rw [hl2, hl1, List.mem_append, List.mem_append] at he
    rcases he with he | he | he
    · exact (hle2 e he).2
    · exact u2.ub.trans (hle1 e he).2
    · rw [hb.log] at he
      exact hubs.trans (hI.log e he h0)
  · exact u2.opt hub2 (u1.opt hub1 hO1)

theorem inv_reach {nb : Nat} {V : Type} {O : Oracle nb V} {c : Setting} (hgap : 0 ≤ c.absGap) {nodes0 : Nat → Node nb} {opt0 : V} {s : State nb V}
    (h : Reach O c nodes0 opt0 s) : Inv O c s := by
  induction h with
  | root h => exact inv_root h
  | step _ hc hid hs ih => exact inv_step hgap ih hc hid hs

end BnB
end Verif
