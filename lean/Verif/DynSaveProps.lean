import Verif.DynSave

/-! C229, C230: the file with the plan. -/
namespace Verif
namespace Dyn
open Finset

/-! ### specification -/

/-- Column `t` of a saved matrix is `v`. -/
def Grid.Col (m : Grid) (t : Nat) (v : List ℝ) : Prop := m.cols[t]? = some v

/-- The parts of the file that hold the plan stored in the dynamics sequence, column by column: column `t` of centre of mass and momenta is the
state at the end of time step `t`; column `t` of the time vector the time passed until then; column `t` of forces and torques those of time
step `t`, zero for an end-effector that is not in contact. -/
structure PlanFile.Holds (f : PlanFile) (s : DSet) (p : DPlan) (seq : Nat → DState) : Prop where
  com : f.com.cols.length = s.T ∧ ∀ t < s.T, f.com.Col t [(seq (t + 1)).com 0, (seq (t + 1)).com 1, (seq (t + 1)).com 2]
  l : f.l.cols.length = s.T ∧ ∀ t < s.T, f.l.Col t [(seq (t + 1)).l 0, (seq (t + 1)).l 1, (seq (t + 1)).l 2]
  h : f.h.cols.length = s.T ∧ ∀ t < s.T, f.h.Col t [(seq (t + 1)).h 0, (seq (t + 1)).h 1, (seq (t + 1)).h 2]
  time : f.timeVec.cols.length = s.T ∧ ∀ t < s.T, f.timeVec.Col t [∑ k ∈ range (t + 1), (seq k).time]
  frc : f.frc.length = s.neff ∧ ∀ e < s.neff, ∃ m, f.frc[e]? = some m ∧ m.cols.length = s.T ∧
    ∀ t < s.T, m.Col t (if p.active t e then [(seq t).frc e 0, (seq t).frc e 1, (seq t).frc e 2] else [0, 0, 0])
  trq : f.trq.length = s.neff ∧ ∀ e < s.neff, ∃ m, f.trq[e]? = some m ∧ m.cols.length = s.T ∧
    ∀ t < s.T, m.Col t (if p.active t e then [(seq t).trq e 2] else [0])

/-- The same for the centres of pressure. -/
def PlanFile.HoldsCop (f : PlanFile) (s : DSet) (p : DPlan) (seq : Nat → DState) : Prop :=
  ∀ e < s.neff, ∃ m, f.cop[e]? = some m ∧ m.cols.length = s.T ∧ ∀ t < s.T, p.active t e = true → m.Col t [(seq t).cop e 0, (seq t).cop e 1]

/-- The centres of pressure by active time step instead. -/
def PlanFile.HoldsCopById (f : PlanFile) (s : DSet) (p : DPlan) (seq : Nat → DState) : Prop :=
  ∀ e < s.neff, ∃ m, f.cop[e]? = some m ∧ m.cols.length = p.steps e ∧
    ∀ t < s.T, p.active t e = true → m.Col (p.actId t e) [(seq t).cop e 0, (seq t).cop e 1]

/-- The references and joint trajectories of the file are those of the kinematics sequence. -/
structure PlanFile.Refs (f : PlanFile) (T : Nat) (kin : List KState) : Prop where
  len : f.comRef.cols.length = T ∧ f.lRef.cols.length = T ∧ f.hRef.cols.length = T ∧ f.qd.cols.length = T ∧ f.qdd.cols.length = T
  com : ∀ t < T, ∃ k, kin[t]? = some k ∧ f.comRef.Col t [k.com 0, k.com 1, k.com 2]
  l : ∀ t < T, ∃ k, kin[t]? = some k ∧ f.lRef.Col t [k.l 0, k.l 1, k.l 2]
  h : ∀ t < T, ∃ k, kin[t]? = some k ∧ f.hRef.Col t [k.h 0, k.h 1, k.h 2]
  qd : ∀ t < T, ∃ k, kin[t]? = some k ∧ f.qd.Col t k.qd
  qdd : ∀ t < T, ∃ k, kin[t]? = some k ∧ f.qdd.Col t k.qdd

/-! ### lemmas -/

theorem fillCols_spec (T : Nat) (f : Nat → Option (List ℝ)) (v : Nat → List ℝ) (m : Grid) (hm : T ≤ m.cols.length)
    (hf : ∀ t < T, f t = some (v t)) (hv : ∀ t < T, (v t).length = m.rows) :
    ∃ m', fillCols T f m = some m' ∧ m'.rows = m.rows ∧ m'.cols.length = m.cols.length ∧ ∀ t < T, m'.Col t (v t) := by
  unfold fillCols
  have : ∀ n ≤ T, ∃ m', (List.range n).foldl (fun m t => m.bind fun m => (f t).bind fun v => m.setCol t v) (some m) = some m' ∧
      m'.rows = m.rows ∧ m'.cols.length = m.cols.length ∧ ∀ t < n, m'.Col t (v t) := by
    intro n
    induction n with
    | zero => intro _; exact ⟨m, rfl, rfl, rfl, by omega⟩
    | succ n ih =>
      intro hn
      obtain ⟨m', h1, h2, h3, h4⟩ := ih (by omega)
      rw [List.range_succ, List.foldl_append, h1]
      refine ⟨{ m' with cols := m'.cols.set n (v n) }, ?_, h2, by simp [h3], fun t ht => ?_⟩
      · simp only [List.foldl_cons, List.foldl_nil, Option.bind_some, hf n (by omega)]
        unfold Grid.setCol
        rw [if_pos ⟨by omega, by rw [h2]; exact hv n (by omega)⟩]
      · unfold Grid.Col
        simp only [List.getElem?_set]
        by_cases htn : n = t
        · subst htn; simp; omega
        · rw [if_neg htn]; exact h4 t (by omega)
  exact this T le_rfl

/-- A failing column makes the loop fail. -/
theorem fillCols_none (T : Nat) (f : Nat → Option (List ℝ)) (m : Grid) (t : Nat) (ht : t < T)
    (h : f t = none ∨ ∃ v, f t = some v ∧ v.length ≠ m.rows) : fillCols T f m = none := by
  unfold fillCols
  have key : ∀ n, ∀ m', (List.range n).foldl (fun m t => m.bind fun m => (f t).bind fun v => m.setCol t v) (some m) = some m' → m'.rows = m.rows ∧ n ≤ T → n ≤ t := by
    intro n
    induction n with
    | zero => intro _ _ _; omega
    | succ n ih =>
      intro m' h1 h2
      rw [List.range_succ, List.foldl_append] at h1
      cases hp : (List.range n).foldl (fun m t => m.bind fun m => (f t).bind fun v => m.setCol t v) (some m) with
      | none => rw [hp] at h1; simp at h1
      | some m1 =>
        rw [hp] at h1
        simp only [List.foldl_cons, List.foldl_nil, Option.bind_some] at h1
        cases hfn : f n with
        | none => rw [hfn] at h1; simp at h1
        | some v =>
          rw [hfn] at h1
          simp only [Option.bind_some, Grid.setCol] at h1
          split at h1
          · next hc =>
            have hr : m1.rows = m.rows := by injection h1 with h1; rw [← h1] at h2; exact h2.1
            have := ih m1 hp ⟨hr, by omega⟩
            rcases Nat.lt_or_ge n t with hlt | hge
            · exact hlt
            · have : n = t := by omega
              subst this
              rcases h with h | ⟨v', h, h'⟩
              · rw [h] at hfn; cases hfn
              · rw [h] at hfn; injection hfn with hfn
                rw [hfn, hc.2, hr] at h'; exact absurd rfl h'
          · cases h1
  have hrows : ∀ n, ∀ m', (List.range n).foldl (fun m t => m.bind fun m => (f t).bind fun v => m.setCol t v) (some m) = some m' → m'.rows = m.rows := by
    intro n
    induction n with
    | zero => intro m' h; simp at h; rw [h]
    | succ n ih =>
      intro m' h1
      rw [List.range_succ, List.foldl_append] at h1
      cases hp : (List.range n).foldl (fun m t => m.bind fun m => (f t).bind fun v => m.setCol t v) (some m) with
      | none => rw [hp] at h1; simp at h1
      | some m1 =>
        rw [hp] at h1
        simp only [List.foldl_cons, List.foldl_nil, Option.bind_some] at h1
        cases hfn : f n with
        | none => rw [hfn] at h1; simp at h1
        | some v =>
          rw [hfn] at h1
          simp only [Option.bind_some, Grid.setCol] at h1
          split at h1
          · injection h1 with h1; rw [← h1]; exact ih m1 hp
          · cases h1
  cases hp : (List.range T).foldl (fun m t => m.bind fun m => (f t).bind fun v => m.setCol t v) (some m) with
  | none => rfl
  | some m' => exact absurd (key T m' hp ⟨hrows T m' hp, le_rfl⟩) (by omega)

theorem ofGuess_length (rows n : Nat) (v : Nat → Nat → ℝ) : (Grid.ofGuess rows n v).cols.length = n := by simp [Grid.ofGuess]

theorem ofGuess_col (rows n : Nat) (v : Nat → Nat → ℝ) (k : Nat) (hk : k < n) : (Grid.ofGuess rows n v).Col k ((List.range rows).map (v k)) := by
  simp [Grid.ofGuess, Grid.Col, hk]

theorem timeGrid_spec (T : Nat) (time : Nat → ℝ) (hT : 0 < T) :
    ∃ m, timeGrid T time = some m ∧ m.cols.length = T ∧ ∀ t < T, m.Col t [∑ k ∈ range (t + 1), time k] := by
  unfold timeGrid
  rw [if_pos hT]
  refine ⟨_, rfl, ?_⟩
  have : ∀ n, (List.range n).foldl (fun (acc : List ℝ × ℝ) t => (acc.1 ++ [acc.2 + time (t + 1)], acc.2 + time (t + 1))) ([time 0], time 0) =
      ((List.range (n + 1)).map fun t => ∑ k ∈ range (t + 1), time k, ∑ k ∈ range (n + 1), time k) := by
    intro n
    induction n with
    | zero => simp
    | succ n ih =>
      rw [List.range_succ, List.foldl_append, ih]
      simp only [List.foldl_cons, List.foldl_nil]
      rw [List.range_succ (n := n + 1), List.map_append, sum_range_succ _ (n + 1)]
      simp [sum_range_succ]
  rw [this (T - 1), show T - 1 + 1 = T by omega]
  constructor
  · simp
  · intro t ht
    simp [Grid.Col, ht]

theorem activeGrid_col (rows T : Nat) (active : Nat → Bool) (v : Nat → List ℝ) (t : Nat) (ht : t < T) :
    (activeGrid rows T active v).Col t (if active t then v t else List.replicate rows 0) := by
  simp [activeGrid, Grid.Col, ht]

/-- After `optimize` the dynamics sequence is the one stored from the guesses. -/
theorem loop_stored (i : DIn) (solver : Nat → DCtx → Nat → ℝ) (seq : Nat → DState) (g : Guess) (err : Option ℝ) :
    ∃ seq0 first, (optimizeLoop i solver seq g err).1.seq = (i.ctx seq0 first).storeState (optimizeLoop i solver seq g err).1.guess := by
  have one : ∀ (st : LoopState) (first : Bool) (x : Nat → ℝ), ∃ seq0 first', (internalOptimize i st first x).seq =
      (i.ctx seq0 first').storeState (internalOptimize i st first x).guess := by
    intro st first x
    refine ⟨st.seq, first, ?_⟩
    unfold internalOptimize
    dsimp only
    split
    · split <;> split <;> rfl
    · rfl
  have many : ∀ n k st, (∃ seq0 first', st.seq = (i.ctx seq0 first').storeState st.guess) →
      ∃ seq0 first', (timeLoop i solver n k st).1.seq = (i.ctx seq0 first').storeState (timeLoop i solver n k st).1.guess := by
    intro n
    induction n with
    | zero => intro k st h; exact h
    | succ n ih =>
      intro k st _
      unfold timeLoop
      dsimp only
      split
      · exact one _ _ _
      · exact ih _ _ (one _ _ _)
  unfold optimizeLoop
  dsimp only
  split
  · exact many _ _ _ (one _ _ _)
  · exact one _ _ _

theorem store_trq2 (d : DCtx) (g : Guess) (t e : Nat) (ht : t < d.s.T) (he : e < d.s.neff) (ha : d.p.active t e = true) :
    (d.storeState g t).trq e 2 = g.trq e (d.p.actId t e) := store_trq d g t e ht he ha

/-! ### C229 -/

/-- C229 (partial): with storing switched on, at least one time step, a kinematics sequence with a state for every time step and joint
trajectories of as many entries as there are extended active joints, the file written at the end of `optimize` holds the plan, time step by time
step, and the references and joint trajectories of the kinematics sequence; the centres of pressure are there by active time step. That they are not
in the column of their time step is `C229_violated`. -/
theorem C229_partial (w : SaveSet) (hw : w.store = true) (i : DIn) (hT : 0 < i.s.T) (hp : i.p.Ok i.s) (kin : List KState)
    (hk : i.s.T ≤ kin.length) (hq : ∀ k ∈ kin, k.qd.length = w.extDofs ∧ k.qdd.length = w.extDofs)
    (solver : Nat → DCtx → Nat → ℝ) (seq : Nat → DState) (g : Guess) (err : Option ℝ) :
    ∃ f, saveToFile w i kin (optimizeLoop i solver seq g err).1 = some (some f) ∧
      f.Holds i.s i.p (optimizeLoop i solver seq g err).1.seq ∧ f.HoldsCopById i.s i.p (optimizeLoop i solver seq g err).1.seq ∧
      f.Refs i.s.T kin ∧ f.timeStep = i.s.step ∧ f.mass = i.s.mass ∧ f.nEff = i.s.neff ∧ f.horizon = w.horizon ∧
      f.endCom = [w.goal 0, w.goal 1, w.goal 2] ∧ f.iniCom = [i.p.iniCom 0, i.p.iniCom 1, i.p.iniCom 2] := by
  obtain ⟨seq0, first, hst⟩ := loop_stored i solver seq g err
  set st := (optimizeLoop i solver seq g err).1
  have hkin : ∀ t < i.s.T, ∃ k, kin[t]? = some k ∧ k ∈ kin := by
    intro t ht
    have : t < kin.length := by omega
    exact ⟨kin[t], List.getElem?_eq_getElem this, List.getElem_mem this⟩
  haveI : Nonempty KState := ⟨⟨fun _ => 0, fun _ => 0, fun _ => 0, [], []⟩⟩
  choose! kt hkt hmem using hkin
  obtain ⟨m1, e1, r1, l1, c1⟩ := fillCols_spec i.s.T (fun t => (kin[t]?).map fun k => vec3 k.com) (fun t => vec3 (kt t).com)
    (Grid.ofGuess 3 i.s.T st.guess.h) (by rw [ofGuess_length]) (fun t ht => by rw [hkt t ht]; rfl) (fun t _ => rfl)
  obtain ⟨m2, e2, r2, l2, c2⟩ := fillCols_spec i.s.T (fun t => (kin[t]?).map fun k => vec3 k.l) (fun t => vec3 (kt t).l)
    m1 (by rw [l1, ofGuess_length]) (fun t ht => by rw [hkt t ht]; rfl) (fun t _ => by rw [r1]; rfl)
  obtain ⟨m3, e3, r3, l3, c3⟩ := fillCols_spec i.s.T (fun t => (kin[t]?).map fun k => vec3 k.h) (fun t => vec3 (kt t).h)
    m2 (by rw [l2, l1, ofGuess_length]) (fun t ht => by rw [hkt t ht]; rfl) (fun t _ => by rw [r2, r1]; rfl)
  obtain ⟨m4, e4, r4, l4, c4⟩ := fillCols_spec i.s.T (fun t => (kin[t]?).map fun k => k.qd) (fun t => (kt t).qd)
    (Grid.zero w.extDofs i.s.T) (by simp [Grid.zero]) (fun t ht => by rw [hkt t ht]; rfl) (fun t ht => (hq _ (hmem t ht)).1)
  obtain ⟨m5, e5, r5, l5, c5⟩ := fillCols_spec i.s.T (fun t => (kin[t]?).map fun k => k.qdd) (fun t => (kt t).qdd)
    m4 (by rw [l4]; simp [Grid.zero]) (fun t ht => by rw [hkt t ht]; rfl) (fun t ht => by rw [r4]; exact (hq _ (hmem t ht)).2)
  obtain ⟨m6, e6, l6, c6⟩ := timeGrid_spec i.s.T (fun t => (st.seq t).time) hT
  unfold saveToFile
  rw [if_neg (by simp [hw])]
  dsimp only
  rw [e1, Option.bind_some, e2, Option.bind_some, e3, Option.bind_some, e4, Option.bind_some, e5, Option.bind_some, e6, Option.bind_some]
  refine ⟨_, rfl, ⟨⟨ofGuess_length _ _ _, fun t ht => ?_⟩, ⟨ofGuess_length _ _ _, fun t ht => ?_⟩, ⟨ofGuess_length _ _ _, fun t ht => ?_⟩,
    ⟨l6, c6⟩, ⟨by simp, fun e he => ?_⟩, ⟨by simp, fun e he => ?_⟩⟩, fun e he => ?_,
    ⟨⟨by rw [l1, ofGuess_length], by rw [l2, l1, ofGuess_length], by rw [l3, l2, l1, ofGuess_length], by rw [l4]; simp [Grid.zero],
      by rw [l5, l4]; simp [Grid.zero]⟩, fun t ht => ⟨kt t, hkt t ht, c1 t ht⟩, fun t ht => ⟨kt t, hkt t ht, c2 t ht⟩, fun t ht => ⟨kt t, hkt t ht, c3 t ht⟩,
      fun t ht => ⟨kt t, hkt t ht, c4 t ht⟩, fun t ht => ⟨kt t, hkt t ht, c5 t ht⟩⟩, rfl, rfl, rfl, rfl, rfl, rfl⟩
  · rw [hst, store_com (i.ctx seq0 first) _ t ht]; exact ofGuess_col _ _ _ t ht
  · rw [hst, store_l (i.ctx seq0 first) _ t ht]; exact ofGuess_col _ _ _ t ht
  · rw [hst, store_h (i.ctx seq0 first) _ t ht]; exact ofGuess_col _ _ _ t ht
  · exact ⟨_, by simp only [List.getElem?_map, List.getElem?_range he]; rfl, by simp [activeGrid], fun t ht => activeGrid_col 3 _ _ _ t ht⟩
  · exact ⟨_, by simp only [List.getElem?_map, List.getElem?_range he]; rfl, by simp [activeGrid], fun t ht => activeGrid_col 1 _ _ _ t ht⟩
  · refine ⟨_, by simp only [List.getElem?_map, List.getElem?_range he]; rfl, ofGuess_length _ _ _, fun t ht ha => ?_⟩
    rw [hst, store_cop (i.ctx seq0 first) _ t e ht he ha 0 (by norm_num), store_cop (i.ctx seq0 first) _ t e ht he ha 1 (by norm_num)]
    exact ofGuess_col 2 _ _ _ (hp t ht e he ha)

/-- A flight phase first: the foot of `exDPlan`, in contact from time step 1 on. -/
noncomputable def landPlan : DPlan := { exDPlan with active := fun t e => decide (1 ≤ t) && decide (e = 0), actId := fun t _ => t - 1, steps := fun _ => 2 }

/-- The kinematics sequence after `resize(T, n)`, KinematicsState.cpp:82-87; KinematicsState.hpp:76-79: joint trajectories with `n+6` zeros. -/
def resized (T n : Nat) : List KState :=
  List.replicate T ⟨fun _ => 0, fun _ => 0, fun _ => 0, List.replicate (n + 6) 0, List.replicate (n + 6) 0⟩

/-- Non-vacuity of C229: the example plan, all eight joints active. -/
theorem C229_example : ∃ (w : SaveSet) (i : DIn) (kin : List KState), w.store = true ∧ 0 < i.s.T ∧ i.p.Ok i.s ∧ i.s.T ≤ kin.length ∧
    (∀ k ∈ kin, k.qd.length = w.extDofs ∧ k.qdd.length = w.extDofs) ∧ i.p.active 0 0 = false ∧ i.p.active 1 0 = true := by
  refine ⟨⟨true, 14, 1, fun _ => 0⟩, ⟨exSet .timeOpt, landPlan, ⟨fun _ _ => 0, fun _ _ => 0, fun _ _ => 0⟩, fun _ => 0⟩, resized 3 8, rfl,
    by norm_num [exSet], ?_, by simp [exSet, resized], ?_, by simp [landPlan], by simp [landPlan]⟩
  · intro t ht e _ ha
    simp only [landPlan, Bool.and_eq_true, decide_eq_true_eq] at ha ⊢
    simp only [exSet] at ht
    omega
  · intro k hk
    rw [resized, List.mem_replicate] at hk
    rw [hk.2]; simp

/-- C229 is violated: whenever an end-effector is in contact in fewer time steps than there are, no file holds its centres of pressure by time
step; and there are such plans. -/
theorem C229_violated : (∀ (w : SaveSet) (i : DIn) (kin : List KState) (st : LoopState) (f : PlanFile) (e : Nat), e < i.s.neff → i.p.steps e ≠ i.s.T →
      saveToFile w i kin st = some (some f) → ¬ f.HoldsCop i.s i.p st.seq) ∧
    ∃ (w : SaveSet) (i : DIn) (kin : List KState), i.p.Ok i.s ∧ (∃ e < i.s.neff, i.p.steps e ≠ i.s.T) ∧
      ∀ (solver : Nat → DCtx → Nat → ℝ) (seq : Nat → DState) (g : Guess) (err : Option ℝ),
        ∃ f, saveToFile w i kin (optimizeLoop i solver seq g err).1 = some (some f) := by
  constructor
  · intro w i kin st f e he hs hsv hc
    obtain ⟨m, h1, h2, -⟩ := hc e he
    unfold saveToFile at hsv
    split at hsv
    · cases hsv
    · dsimp only at hsv
      simp only [Option.bind_eq_some_iff] at hsv
      obtain ⟨_, _, _, _, _, _, _, _, _, _, _, _, hf⟩ := hsv
      injection hf with hf
      injection hf with hf
      rw [← hf] at h1
      simp only [List.getElem?_map, List.getElem?_range he, Option.map_some, Option.some.injEq] at h1
      rw [← h1, ofGuess_length] at h2
      exact hs h2
  · refine ⟨⟨true, 14, 1, fun _ => 0⟩, ⟨exSet .timeOpt, landPlan, ⟨fun _ _ => 0, fun _ _ => 0, fun _ _ => 0⟩, fun _ => 0⟩, resized 3 8, ?_,
      ⟨0, by norm_num [exSet], by norm_num [exSet, landPlan]⟩, fun solver seq g err => ?_⟩
    · intro t ht e _ ha
      simp only [landPlan, Bool.and_eq_true, decide_eq_true_eq] at ha ⊢
      simp only [exSet] at ht
      omega
    · obtain ⟨f, hf, -⟩ := C229_partial ⟨true, 14, 1, fun _ => 0⟩ rfl
        ⟨exSet .timeOpt, landPlan, ⟨fun _ _ => 0, fun _ _ => 0, fun _ _ => 0⟩, fun _ => 0⟩ (by norm_num [exSet]) (by
          intro t ht e _ ha
          simp only [landPlan, Bool.and_eq_true, decide_eq_true_eq] at ha ⊢
          simp only [exSet] at ht
          omega) (resized 3 8) (by simp [exSet, resized]) (by
          intro k hk
          rw [resized, List.mem_replicate] at hk
          rw [hk.2]; simp) solver seq g err
      exact ⟨f, hf⟩

/-! ### C230 -/

/-- C230 (partial): exactly when saving works, whatever the state of the optimiser. -/
theorem C230_partial (w : SaveSet) (i : DIn) (kin : List KState) (st : LoopState) :
    (∃ r, saveToFile w i kin st = some r) ↔ w.store = false ∨
      (0 < i.s.T ∧ i.s.T ≤ kin.length ∧ ∀ t < i.s.T, ∀ k, kin[t]? = some k → k.qd.length = w.extDofs ∧ k.qdd.length = w.extDofs) := by
  cases hw : w.store with
  | false => simp [saveToFile, hw]
  | true =>
    simp only [Bool.true_eq_false, false_or]
    constructor
    · rintro ⟨r, hr⟩
      unfold saveToFile at hr
      rw [if_neg (by simp [hw])] at hr
      dsimp only at hr
      simp only [Option.bind_eq_some_iff] at hr
      obtain ⟨m1, e1, m2, e2, m3, e3, m4, e4, m5, e5, m6, e6, -⟩ := hr
      have hT : 0 < i.s.T := by
        by_contra h
        unfold timeGrid at e6
        rw [if_neg h] at e6; cases e6
      have hlen : i.s.T ≤ kin.length := by
        by_contra h
        rw [fillCols_none i.s.T _ _ kin.length (by omega) (Or.inl (by simp))] at e1
        cases e1
      refine ⟨hT, hlen, fun t ht k hk => ?_⟩
      have h4 : ∀ t < i.s.T, ∀ k, kin[t]? = some k → k.qd.length = w.extDofs := by
        intro t ht k hk
        by_contra hne
        rw [fillCols_none i.s.T _ _ t ht (Or.inr ⟨k.qd, by rw [hk]; rfl, hne⟩)] at e4
        cases e4
      refine ⟨h4 t ht k hk, ?_⟩
      by_contra hne
      haveI : Nonempty KState := ⟨⟨fun _ => 0, fun _ => 0, fun _ => 0, [], []⟩⟩
      have hkin : ∀ t < i.s.T, ∃ k, kin[t]? = some k := fun t ht => ⟨kin[t]'(by omega), List.getElem?_eq_getElem (by omega)⟩
      choose! kt hkt using hkin
      obtain ⟨m4', e4', r4, -⟩ := fillCols_spec i.s.T (fun t => (kin[t]?).map fun k => k.qd) (fun t => (kt t).qd)
        (Grid.zero w.extDofs i.s.T) (by simp [Grid.zero]) (fun t ht => by rw [hkt t ht]; rfl) (fun t ht => h4 t ht _ (hkt t ht))
      rw [e4] at e4'
      injection e4' with e4'
      rw [fillCols_none i.s.T _ m4 t ht (Or.inr ⟨k.qdd, by rw [hk]; rfl, by rw [e4', r4]; exact hne⟩)] at e5
      cases e5
    · rintro ⟨hT, hlen, hq⟩
      haveI : Nonempty KState := ⟨⟨fun _ => 0, fun _ => 0, fun _ => 0, [], []⟩⟩
      have hkin : ∀ t < i.s.T, ∃ k, kin[t]? = some k := fun t ht => ⟨kin[t]'(by omega), List.getElem?_eq_getElem (by omega)⟩
      choose! kt hkt using hkin
      obtain ⟨m1, e1, r1, l1, -⟩ := fillCols_spec i.s.T (fun t => (kin[t]?).map fun k => vec3 k.com) (fun t => vec3 (kt t).com)
        (Grid.ofGuess 3 i.s.T st.guess.h) (by rw [ofGuess_length]) (fun t ht => by rw [hkt t ht]; rfl) (fun t _ => rfl)
      obtain ⟨m2, e2, r2, l2, -⟩ := fillCols_spec i.s.T (fun t => (kin[t]?).map fun k => vec3 k.l) (fun t => vec3 (kt t).l)
        m1 (by rw [l1, ofGuess_length]) (fun t ht => by rw [hkt t ht]; rfl) (fun t _ => by rw [r1]; rfl)
      obtain ⟨m3, e3, -⟩ := fillCols_spec i.s.T (fun t => (kin[t]?).map fun k => vec3 k.h) (fun t => vec3 (kt t).h)
        m2 (by rw [l2, l1, ofGuess_length]) (fun t ht => by rw [hkt t ht]; rfl) (fun t _ => by rw [r2, r1]; rfl)
      obtain ⟨m4, e4, r4, l4, -⟩ := fillCols_spec i.s.T (fun t => (kin[t]?).map fun k => k.qd) (fun t => (kt t).qd)
        (Grid.zero w.extDofs i.s.T) (by simp [Grid.zero]) (fun t ht => by rw [hkt t ht]; rfl) (fun t ht => (hq t ht _ (hkt t ht)).1)
      obtain ⟨m5, e5, -⟩ := fillCols_spec i.s.T (fun t => (kin[t]?).map fun k => k.qdd) (fun t => (kt t).qdd)
        m4 (by rw [l4]; simp [Grid.zero]) (fun t ht => by rw [hkt t ht]; rfl) (fun t ht => by rw [r4]; exact (hq t ht _ (hkt t ht)).2)
      obtain ⟨m6, e6, -⟩ := timeGrid_spec i.s.T (fun t => (st.seq t).time) hT
      unfold saveToFile
      rw [if_neg (by simp [hw])]
      dsimp only
      rw [e1, Option.bind_some, e2, Option.bind_some, e3, Option.bind_some, e4, Option.bind_some, e5, Option.bind_some, e6, Option.bind_some]
      exact ⟨_, rfl⟩

/-- C230 is violated: with storing switched on and the joint numbers of `config/cfg_solo12_jump.yaml` (12 joints, 8 of them active), every call fails
at the end, whatever the plan. -/
theorem C230_violated : ∃ (w : SaveSet) (dofs act : Nat), w.store = true ∧ act ≤ dofs ∧ w.extDofs = act + 6 ∧
    ∀ (i : DIn) (st : LoopState), 0 < i.s.T → saveToFile w i (resized i.s.T dofs) st = none := by
  refine ⟨⟨true, 8 + 6, 1, fun _ => 0⟩, 12, 8, rfl, by norm_num, rfl, fun i st hT => ?_⟩
  by_contra h
  obtain ⟨r, hr⟩ := Option.ne_none_iff_exists'.1 h
  have := (C230_partial _ i (resized i.s.T 12) st).1 ⟨r, hr⟩
  rcases this with h | ⟨-, -, h⟩
  · cases h
  · have hk : (resized i.s.T 12)[0]? = some ⟨fun _ => 0, fun _ => 0, fun _ => 0, List.replicate (12 + 6) 0, List.replicate (12 + 6) 0⟩ := by
      simp [resized, hT]
    have := (h 0 hT _ hk).1
    simp at this

/-- Non-vacuity of C230: all joints active. -/
example (i : DIn) (st : LoopState) (hT : 0 < i.s.T) : ∃ r, saveToFile ⟨true, 8 + 6, 1, fun _ => 0⟩ i (resized i.s.T 8) st = some r := by
  refine (C230_partial _ i _ st).2 (Or.inr ⟨hT, by simp [resized], fun t ht k hk => ?_⟩)
  rw [resized, List.getElem?_replicate, if_pos ht] at hk
  injection hk with hk
  rw [← hk]; simp

end Dyn
end Verif
