/-
Properties C91-C93: the tasks that `RtModel` hands to the hierarchical solver and the loop over the ranks
(/repo/solver/include/solver/rt_optimizer/RtModel.h).
-/
import Verif.RtModel
import Verif.RtMatProps
import Verif.LinExprLemmas

namespace Verif
namespace Rt
open LinExpr

/-! ### Writing one constraint -/

theorem writeCoeffs_dims (ts : List (Nat × ℝ)) (row : Nat) : ∀ m : Mat,
    (writeCoeffs m row ts).rows = m.rows ∧ (writeCoeffs m row ts).cols = m.cols := by
  induction ts with
  | nil => intro m; exact ⟨rfl, rfl⟩
  | cons t ts ih => intro m; exact ih _

theorem writeCoeffs_other (ts : List (Nat × ℝ)) (row : Nat) : ∀ (m : Mat) (i j : Nat),
    (i ≠ row ∨ j ∉ cols ts) → (writeCoeffs m row ts).at' i j = m.at' i j := by
  induction ts with
  | nil => intro m i j _; rfl
  | cons t ts ih =>
    intro m i j h
    rw [writeCoeffs, ih]
    · simp only
      rw [if_neg]
      rintro ⟨h1, h2⟩
      rcases h with h | h
      · exact h h1
      · exact h (by simp [cols, h2])
    · rcases h with h | h
      · exact Or.inl h
      · right
        intro h'
        exact h (by simp only [cols, List.map_cons, List.mem_cons]; exact Or.inr h')

theorem writeCoeffs_sum (ts : List (Nat × ℝ)) (row n : Nat) (x : Nat → ℝ) : ∀ (m : Mat),
    (cols ts).Nodup → (∀ v ∈ cols ts, v < n) → (∀ v ∈ cols ts, m.at' row v = 0) →
    ∑ j ∈ Finset.range n, (writeCoeffs m row ts).at' row j * x j =
      ∑ j ∈ Finset.range n, m.at' row j * x j + tsum x ts := by
  induction ts with
  | nil => intro m _ _ _; simp [writeCoeffs]
  | cons t ts ih =>
    intro m hnd hlt hz
    obtain ⟨v, c⟩ := t
    have hnd' : v ∉ cols ts ∧ (cols ts).Nodup := by simpa [cols] using hnd
    rw [writeCoeffs, ih _ hnd'.2 (fun w hw => hlt w (by simp [cols] at hw ⊢; tauto))]
    · have hv : v < n := hlt v (by simp [cols])
      have hm : m.at' row v = 0 := hz v (by simp [cols])
      have : ∑ j ∈ Finset.range n, (if row = row ∧ j = v then c else m.at' row j) * x j =
          ∑ j ∈ Finset.range n, m.at' row j * x j + c * x v := by
        have h2 : ∀ j ∈ Finset.range n, (if row = row ∧ j = v then c else m.at' row j) * x j =
            m.at' row j * x j + (if j = v then c * x v else 0) := by
          intro j _
          by_cases hj : j = v
          · subst hj; simp [hm]
          · simp [hj]
        rw [Finset.sum_congr rfl h2, Finset.sum_add_distrib]
        simp [hv]
      rw [this, tsum_cons]
      ring
    · intro w hw
      simp only
      rw [if_neg]
      · exact hz w (by simp [cols] at hw ⊢; tauto)
      · rintro ⟨_, h⟩
        exact hnd'.1 (h ▸ hw)

theorem rankCount_eq (rank : Int) (cs : List (Int × LinExpr ℝ)) : ∀ n,
    rankCount rank cs n = n + (cs.filter (fun c => decide (c.1 = rank))).length := by
  induction cs with
  | nil => intro n; simp [rankCount]
  | cons c cs ih =>
    intro n
    rw [rankCount, ih, List.filter_cons]
    by_cases h : c.1 = rank
    · simp [h]; omega
    · simp [h]

/-- The constraints of one rank, in order. -/
def ofRank (rank : Int) (cs : List (Int × LinExpr ℝ)) : List (Int × LinExpr ℝ) :=
  cs.filter (fun c => decide (c.1 = rank))

theorem writeRows_spec (rank : Int) (old n : Nat) (cs : List (Int × LinExpr ℝ))
    (hcs : ∀ c ∈ cs, (cols c.2.terms).Nodup ∧ ∀ v ∈ cols c.2.terms, v < n) :
    ∀ (added : Nat) (a : Aff),
      (∀ i, old + added ≤ i → ∀ j < n, i < old + added + (ofRank rank cs).length → a.1.at' i j = 0) →
      (writeRows rank old cs added a).1.rows = a.1.rows ∧
      (writeRows rank old cs added a).1.cols = a.1.cols ∧
      (writeRows rank old cs added a).2.size = a.2.size ∧
      (∀ i < old + added, (∀ j, (writeRows rank old cs added a).1.at' i j = a.1.at' i j) ∧
        (writeRows rank old cs added a).2.at' i = a.2.at' i) ∧
      ∀ k (hk : k < (ofRank rank cs).length), ∀ x : Nat → ℝ,
        ∑ j ∈ Finset.range n, (writeRows rank old cs added a).1.at' (old + added + k) j * x j +
          (writeRows rank old cs added a).2.at' (old + added + k) =
        ((ofRank rank cs)[k]).2.getValue x := by
  induction cs with
  | nil =>
    intro added a _
    exact ⟨rfl, rfl, rfl, fun i _ => ⟨fun j => rfl, rfl⟩, fun k hk => absurd hk (by simp [ofRank])⟩
  | cons c cs ih =>
    intro added a hz
    have ih' := ih (fun c' hc' => hcs c' (List.mem_cons_of_mem _ hc'))
    rw [writeRows]
    by_cases hr : c.1 = rank
    · rw [if_pos hr]
      have hof : ofRank rank (c :: cs) = c :: ofRank rank cs := by simp [ofRank, hr]
      have hc := hcs c (List.mem_cons_self ..)
      have hd := writeCoeffs_dims c.2.terms (old + added) a.1
      obtain ⟨i1, i2, i3, i4, i5⟩ := ih' (added + 1)
        (writeCoeffs a.1 (old + added) c.2.terms,
          { a.2 with at' := fun i => if i = old + added then c.2.const else a.2.at' i })
        (by
          intro i h1 j h2 h3
          rw [writeCoeffs_other _ _ _ _ _ (Or.inl (by omega))]
          exact hz i (by omega) j h2 (by rw [hof, List.length_cons]; omega))
      refine ⟨i1.trans hd.1, i2.trans hd.2, i3, ?_, ?_⟩
      · intro i hi
        obtain ⟨q1, q2⟩ := i4 i (by omega)
        refine ⟨fun j => ?_, ?_⟩
        · rw [q1 j]
          exact writeCoeffs_other _ _ _ _ _ (Or.inl (by omega))
        · rw [q2]
          simp only
          rw [if_neg (by omega)]
      · intro k hk x
        cases k with
        | zero =>
          obtain ⟨q1, q2⟩ := i4 (old + added) (by omega)
          simp only [Nat.add_zero, hof, List.getElem_cons_zero]
          rw [q2, Finset.sum_congr rfl (fun j _ => by rw [q1 j])]
          simp only [if_true]
          rw [writeCoeffs_sum _ _ n x a.1 hc.1 hc.2]
          · rw [Finset.sum_eq_zero, getValue_eq]
            · ring
            · intro j hj
              rw [hz (old + added) le_rfl j (Finset.mem_range.1 hj) (by rw [hof, List.length_cons]; omega)]
              ring
          · intro v hv
            exact hz (old + added) le_rfl v (hc.2 v hv) (by rw [hof, List.length_cons]; omega)
        | succ k =>
          have hk' : k < (ofRank rank cs).length := by rw [hof, List.length_cons] at hk; omega
          have := i5 k hk' x
          simp only [hof, List.getElem_cons_succ]
          rw [show old + added + (k + 1) = old + (added + 1) + k by omega]
          exact this
    · rw [if_neg hr]
      have hof : ofRank rank (c :: cs) = ofRank rank cs := by simp [ofRank, hr]
      have := ih' added a (by rw [hof] at hz; exact hz)
      simpa only [hof] using this

/-- The stacked rows after `addCostsToHierarchy`: the old ones, then one per constraint of the rank. -/
theorem addCosts_spec (jm : Nat → Nat → ℝ) (jv : Nat → ℝ) (rank : Int) (cs : List (Int × LinExpr ℝ))
    (a : Aff) (ha : a.2.size = a.1.rows)
    (hcs : ∀ c ∈ cs, (cols c.2.terms).Nodup ∧ ∀ v ∈ cols c.2.terms, v < a.1.cols) :
    (addCosts jm jv rank cs a).1.rows = a.1.rows + (ofRank rank cs).length ∧
    (addCosts jm jv rank cs a).1.cols = a.1.cols ∧
    (addCosts jm jv rank cs a).2.size = a.1.rows + (ofRank rank cs).length ∧
    (∀ i < a.1.rows, (∀ j < a.1.cols, (addCosts jm jv rank cs a).1.at' i j = a.1.at' i j) ∧
      (addCosts jm jv rank cs a).2.at' i = a.2.at' i) ∧
    ∀ k (hk : k < (ofRank rank cs).length), ∀ x : Nat → ℝ,
      ∑ j ∈ Finset.range a.1.cols, (addCosts jm jv rank cs a).1.at' (a.1.rows + k) j * x j +
        (addCosts jm jv rank cs a).2.at' (a.1.rows + k) =
      ((ofRank rank cs)[k]).2.getValue x := by
  have hcount : rankCount rank cs 0 = (ofRank rank cs).length := by
    rw [rankCount_eq]; simp [ofRank]
  rw [addCosts, hcount]
  by_cases hn : (ofRank rank cs).length > 0
  · rw [if_pos hn]
    obtain ⟨w1, w2, w3, w4, w5⟩ := writeRows_spec rank a.1.rows a.1.cols cs hcs 0
      ((a.1.conservativeResize jm (a.1.rows + (ofRank rank cs).length) a.1.cols).setBlock a.1.rows 0
          (ofRank rank cs).length a.1.cols (fun _ _ => 0),
        (a.2.conservativeResize jv (a.1.rows + (ofRank rank cs).length)).setBlock a.1.rows
          (ofRank rank cs).length (fun _ => 0))
      (by
        intro i h1 j h2 h3
        simp only [Mat.setBlock]
        rw [if_pos (by omega)])
    refine ⟨w1, w2, w3, ?_, ?_⟩
    · intro i hi
      obtain ⟨q1, q2⟩ := w4 i (by omega)
      refine ⟨fun j hj => ?_, ?_⟩
      · rw [q1]
        simp only [Mat.setBlock, Mat.conservativeResize]
        rw [if_neg (by omega), if_pos ⟨hi, hj⟩]
      · rw [q2]
        simp only [Vec.setBlock, Vec.conservativeResize]
        rw [if_neg (by omega), if_pos (by omega)]
    · intro k hk x
      exact w5 k hk x
  · rw [if_neg hn]
    refine ⟨by omega, rfl, by omega, fun i _ => ⟨fun j _ => rfl, rfl⟩, fun k hk => by omega⟩

/-! ### C91 -/

/-- A call of `addLinConstr` by the user. -/
structure Call where
  lhs : LinExpr ℝ
  sense : Sense
  rhs : LinExpr ℝ
  rank : Int

/-- The calls of a program, made one after the other; `none`: one of them threw. -/
noncomputable def addAll : Model → List Call → Option Model
  | m, [] => some m
  | m, c :: cs => (m.addLinConstr c.lhs c.sense c.rhs c.rank).bind (fun m' => addAll m' cs)

/-- What the constraint says: `lhs - rhs` has to vanish (sense "="), or the returned quantity must not
be positive ("<": `lhs - rhs`, ">": `rhs - lhs`). -/
noncomputable def Call.residual (c : Call) (x : Nat → ℝ) : ℝ :=
  match c.sense with
  | .ge => c.rhs.getValue x - c.lhs.getValue x
  | _ => c.lhs.getValue x - c.rhs.getValue x

/-- The equality calls of one rank, in order. -/
def eqCalls (cs : List Call) (rank : Int) : List Call :=
  cs.filter (fun c => decide (c.sense = .eq ∧ c.rank = rank))

/-- The inequality calls of one rank, in order. -/
def ineqCalls (cs : List Call) (rank : Int) : List Call :=
  cs.filter (fun c => decide ((c.sense = .le ∨ c.sense = .ge) ∧ c.rank = rank))

/-- The stored form of a call. -/
noncomputable def Call.stored (c : Call) : Int × LinExpr ℝ :=
  (c.rank, match c.sense with | .ge => LinExpr.sub c.rhs c.lhs | _ => LinExpr.sub c.lhs c.rhs)

theorem addAll_spec (cs : List Call) : ∀ (m m' : Model), addAll m cs = some m' →
    m'.nvars = m.nvars ∧ m'.idx = m.idx ∧ m'.composers = m.composers ∧ m'.noSlack = m.noSlack ∧
    m'.eqs = m.eqs ++ (cs.filter (fun c => decide (c.sense = .eq))).map Call.stored ∧
    m'.ineqs = m.ineqs ++ (cs.filter (fun c => decide (c.sense = .le ∨ c.sense = .ge))).map Call.stored := by
  induction cs with
  | nil => intro m m' h; simp only [addAll, Option.some.injEq] at h; subst h; simp
  | cons c cs ih =>
    intro m m' h
    rw [addAll, Option.bind_eq_some_iff] at h
    obtain ⟨m1, h1, h2⟩ := h
    obtain ⟨a1, a2, a3, a4, a5, a6⟩ := ih m1 m' h2
    rcases hs : c.sense with _ | _ | _ | _ <;>
      simp only [Model.addLinConstr, hs, Option.some.injEq, reduceCtorEq] at h1 <;> subst h1 <;>
      refine ⟨a1, a2, a3, a4, ?_, ?_⟩ <;> simp only [a5, a6, List.filter_cons, hs] <;>
      simp [Call.stored, hs]

/-- C91: after `clean` a model is as good as new: the program written next is the same as on a new model, whatever was in the model before. -/
theorem C91_clean (n : Nat) (before after : List Call) (m : Model) (h : addAll (Model.new n) before = some m) :
    addAll m.clean after = addAll (Model.new n) after := by
  obtain ⟨h1, h2, h3, h4, -, -⟩ := addAll_spec before _ _ h
  have : m.clean = Model.new n := by
    cases m
    simp only [Model.clean, Model.new] at *
    subst h1 h2 h3 h4
    rfl
  rw [this]

/-- The hypothesis of `C91_clean` is met by a program of one equality and one inequality. -/
example : ∃ m, addAll (Model.new 1) [⟨⟨0, [(0, 1)]⟩, .eq, ⟨1, []⟩, 0⟩, ⟨⟨0, [(0, 1)]⟩, .ge, ⟨2, []⟩, 1⟩] = some m ∧ m.eqs.length = 1 ∧ m.ineqs.length = 1 :=
  ⟨_, rfl, rfl, rfl⟩

theorem stored_value (c : Call) (x : Nat → ℝ) : c.stored.2.getValue x = c.residual x := by
  rcases hs : c.sense with _ | _ | _ | _ <;> simp [Call.stored, Call.residual, hs, sub_value]

theorem sub_nodup (a b : LinExpr ℝ) : (cols (LinExpr.sub a b).terms).Nodup := addAssign_nodup _ _

theorem sub_cols_lt (a b : LinExpr ℝ) (n : Nat) (ha : ∀ v ∈ cols a.terms, v < n)
    (hb : ∀ v ∈ cols b.terms, v < n) : ∀ v ∈ cols (LinExpr.sub a b).terms, v < n := by
  intro v hv
  have := addAssign_subset a (mul b (-1)) v hv
  rcases this with h | h
  · exact ha v h
  · exact hb v (mul_subset _ _ v h)

/-- The program only uses variables of the model. -/
def InRange (n : Nat) (cs : List Call) : Prop :=
  ∀ c ∈ cs, (∀ v ∈ cols c.lhs.terms, v < n) ∧ (∀ v ∈ cols c.rhs.terms, v < n)

theorem stored_ok (n : Nat) (cs : List Call) (h : InRange n cs) (p : Call → Bool) :
    ∀ c ∈ (cs.filter p).map Call.stored, (cols c.2.terms).Nodup ∧ ∀ v ∈ cols c.2.terms, v < n := by
  intro c hc
  obtain ⟨c', hc', rfl⟩ := List.mem_map.1 hc
  have hmem := h c' (List.mem_filter.1 hc').1
  rcases hs : c'.sense with _ | _ | _ | _ <;> simp only [Call.stored, hs]
  · exact ⟨sub_nodup _ _, sub_cols_lt _ _ n hmem.1 hmem.2⟩
  · exact ⟨sub_nodup _ _, sub_cols_lt _ _ n hmem.1 hmem.2⟩
  · exact ⟨sub_nodup _ _, sub_cols_lt _ _ n hmem.2 hmem.1⟩
  · exact ⟨sub_nodup _ _, sub_cols_lt _ _ n hmem.1 hmem.2⟩

theorem ofRank_stored (cs : List Call) (p : Call → Bool) (rank : Int) :
    ofRank rank ((cs.filter p).map Call.stored) =
      (cs.filter (fun c => p c && decide (c.rank = rank))).map Call.stored := by
  induction cs with
  | nil => rfl
  | cons c cs ih =>
    by_cases hp : p c <;> by_cases hr : c.rank = rank
    · simp [ofRank, hp, hr, Call.stored] at ih ⊢; exact ih
    · simp [ofRank, hp, hr, Call.stored] at ih ⊢; exact ih
    · simp [ofRank, hp] at ih ⊢; exact ih
    · simp [ofRank, hp] at ih ⊢; exact ih

/-- The affine task `t` over `n` variables consists of the constraints `E` at the positions `L` (in
order): each row evaluates to the residual of its constraint, and no constraint was dropped unless it
does not depend (up to `1e-12` times the size of the point) on the variables. -/
structure Represents (n : Nat) (E : List Call) (t : Aff) (L : List Nat) : Prop where
  sorted : L.Pairwise (· < ·)
  lt : ∀ i ∈ L, i < E.length
  rows : t.1.rows = L.length
  size : t.2.size = L.length
  cols : t.1.cols = n
  value : ∀ k (hk : k < L.length) (hE : L[k] < E.length), ∀ x : Nat → ℝ,
    ∑ j ∈ Finset.range n, t.1.at' k j * x j + t.2.at' k = (E[L[k]]).residual x
  dropped : ∀ i (hi : i < E.length), i ∉ L → ∀ (x : Nat → ℝ) (B : ℝ), 0 ≤ B →
    (∀ j < n, |x j| ≤ B) → |(E[i]).residual x - (E[i]).residual (fun _ => 0)| ≤ 1e-12 * B

theorem reduce_identity (n : Nat) (m : Mat) :
    (reduceColumns (fun i : Nat => (i : Int)) n m).rows = m.rows ∧
    (reduceColumns (fun i : Nat => (i : Int)) n m).cols = n ∧
    ∀ i < m.rows, ∀ j < n, (reduceColumns (fun i : Nat => (i : Int)) n m).at' i j = m.at' i j := by
  obtain ⟨L, h1, h2, h3, h4, h5⟩ := C36_columns (fun i : Nat => (i : Int)) n m
  have hL : L = List.range n := by
    apply List.Perm.eq_of_pairwise (le := (· < ·))
    · intro a b _ _ hab hba; omega
    · exact h1
    · exact List.pairwise_lt_range
    · rw [List.perm_ext_iff_of_nodup]
      · intro a
        rw [h2, List.mem_range]
        simp
      · exact h1.imp (fun h => Nat.ne_of_lt h)
      · exact List.nodup_range
  subst hL
  refine ⟨h3, by simpa using h4, fun i hi j hj => ?_⟩
  have := h5 j (by simpa using hj) i hi
  simpa using this

theorem represents_of (jm : Nat → Nat → ℝ) (jv : Nat → ℝ) (n : Nat) (rank : Int) (cs : List Call)
    (hin : InRange n cs) (p : Call → Bool) :
    ∃ L, Represents n (cs.filter (fun c => p c && decide (c.rank = rank)))
      (affRemoveZeroRows
        (reduceColumns (fun i : Nat => (i : Int)) n
          (addCosts jm jv rank ((cs.filter p).map Call.stored) (emptyAff jm jv n)).1)
        (addCosts jm jv rank ((cs.filter p).map Call.stored) (emptyAff jm jv n)).2) L := by
  set E := cs.filter (fun c => p c && decide (c.rank = rank)) with hE
  obtain ⟨a1, a2, a3, -, a5⟩ := addCosts_spec jm jv rank ((cs.filter p).map Call.stored)
    (emptyAff jm jv n) rfl (stored_ok n cs hin p)
  set A := addCosts jm jv rank ((cs.filter p).map Call.stored) (emptyAff jm jv n)
  have hof := ofRank_stored cs p rank
  have hlen : (ofRank rank ((cs.filter p).map Call.stored)).length = E.length := by
    rw [hof, List.length_map]
  have hr0 : (emptyAff jm jv n).1.rows = 0 := rfl
  have hc0 : (emptyAff jm jv n).1.cols = n := rfl
  rw [hr0, hlen, Nat.zero_add] at a1 a3
  rw [hc0] at a2
  obtain ⟨b1, b2, b3⟩ := reduce_identity n A.1
  set R := reduceColumns (fun i : Nat => (i : Int)) n A.1
  have hval : ∀ i (hi : i < E.length) (x : Nat → ℝ),
      ∑ j ∈ Finset.range n, R.at' i j * x j + A.2.at' i = (E[i]).residual x := by
    intro i hi x
    have := a5 i (by rw [hlen]; exact hi) x
    rw [hr0, Nat.zero_add, hc0] at this
    have h2 : ((ofRank rank ((cs.filter p).map Call.stored))[i]'(by rw [hlen]; exact hi)).2.getValue x =
        (E[i]).residual x := by
      rw [← stored_value]
      simp only [hof, List.getElem_map]
      rfl
    rw [← h2, ← this]
    congr 1
    apply Finset.sum_congr rfl
    intro j hj
    rw [b3 i (by omega) j (Finset.mem_range.1 hj)]
  obtain ⟨L, h1, h2, h3, h4, h5, h6, h7, h8⟩ := C36_block R A.2
  rw [b1, a1] at h2 h3
  refine ⟨L, ⟨h1, h2, h5, h6, h7.trans b2, ?_, ?_⟩⟩
  · intro k hk hkE x
    rw [← hval (L[k]) hkE x, (h8 k hk).1]
    congr 1
    apply Finset.sum_congr rfl
    intro j hj
    rw [(h8 k hk).2 j (by rw [b2]; exact Finset.mem_range.1 hj)]
  · intro i hi hiL x B hB hx
    have hno : ¬ 1e-12 < R.absSum i := fun h => hiL (h3 i hi h)
    have hb := C36_removed_row_bound R i hno x B (by rw [b2]; exact hx) hB
    rw [b2] at hb
    rw [← hval i hi x, ← hval i hi (fun _ => 0)]
    simpa using hb

/-- C91: a model built by any sequence of successful `addLinConstr` calls hands to the hierarchical
solver, at rank `r`, exactly the equality constraints of rank `r` and exactly the inequality constraints
of rank `r`, in the order of the calls, each as a row that evaluates to `lhs - rhs` (`rhs - lhs` for the
sense ">") at every point; only rows without significant coefficients are left out. -/
theorem C91_task_of_rank (jm : Nat → Nat → ℝ) (jv : Nat → ℝ) (n : Nat) (cs : List Call) (m : Model)
    (hin : InRange n cs) (hm : addAll (Model.new n) cs = some m) (rank : Int) :
    (∃ L, Represents n (eqCalls cs rank) (m.buildTask jm jv rank).1 L) ∧
    (∃ L, Represents n (ineqCalls cs rank) (m.buildTask jm jv rank).2 L) := by
  obtain ⟨a1, a2, a3, -, a5, a6⟩ := addAll_spec cs _ _ hm
  have hcomp : m.composers = [] := a3
  have hidx : m.idx = fun i : Nat => (i : Int) := a2
  have hnv : m.nvars = n := a1
  have he : m.eqs = (cs.filter (fun c => decide (c.sense = .eq))).map Call.stored := by
    rw [a5]; rfl
  have hi : m.ineqs = (cs.filter (fun c => decide (c.sense = .le ∨ c.sense = .ge))).map Call.stored := by
    rw [a6]; rfl
  simp only [Model.buildTask, hcomp, List.foldl_nil, hidx, hnv, he, hi]
  constructor
  · obtain ⟨L, hL⟩ := represents_of jm jv n rank cs hin (fun c => decide (c.sense = .eq))
    refine ⟨L, ?_⟩
    convert hL using 2
    simp [eqCalls]
  · obtain ⟨L, hL⟩ := represents_of jm jv n rank cs hin (fun c => decide (c.sense = .le ∨ c.sense = .ge))
    refine ⟨L, ?_⟩
    convert hL using 2
    simp [ineqCalls]

/-- A program with a repeated variable: `x0 + x1 < 2 x0 + 3` at rank 0, `x1 = 4` at rank 1. -/
noncomputable def exCalls : List Call :=
  [⟨⟨0, [(0, 1), (1, 1)]⟩, .le, ⟨3, [(0, 2)]⟩, 0⟩, ⟨⟨0, [(1, 1)]⟩, .eq, ⟨4, []⟩, 1⟩]

example : InRange 2 exCalls ∧ ∃ m, addAll (Model.new 2) exCalls = some m := by
  refine ⟨?_, _, rfl⟩
  intro c hc
  simp only [exCalls, List.mem_cons, List.not_mem_nil, or_false] at hc
  rcases hc with h | h <;> subst h <;> simp [cols]

/-! ### C92: the loop over the ranks -/

theorem foldl_max (l : List Composer) (rank : Int) : ∀ b : Bool,
    l.foldl (fun b c => if c.maxRank > rank then true else b) b = true ↔
      b = true ∨ ∃ c ∈ l, c.maxRank > rank := by
  induction l with
  | nil => intro b; simp
  | cons c l ih =>
    intro b
    rw [List.foldl_cons, ih]
    by_cases h : c.maxRank > rank
    · simp [h]
    · simp [h]

/-- More ranks follow exactly when some constraint or composer has a higher rank. -/
theorem moreRanks_iff (m : Model) (rank : Int) : m.moreRanks rank = true ↔
    (∃ c ∈ m.eqs, c.1 > rank) ∨ (∃ c ∈ m.ineqs, c.1 > rank) ∨ (∃ c ∈ m.composers, c.maxRank > rank) := by
  rw [Model.moreRanks, foldl_max, foldl_max]
  have : m.higherRanksLeft rank = true ↔ (∃ c ∈ m.eqs, c.1 > rank) ∨ (∃ c ∈ m.ineqs, c.1 > rank) := by
    rw [Model.higherRanksLeft]
    by_cases h1 : m.eqs.any (fun c => decide (c.1 > rank))
    · simp only [h1, if_true, true_iff]
      left; simpa using h1
    · by_cases h2 : m.ineqs.any (fun c => decide (c.1 > rank))
      · simp only [h1, h2, if_true, if_false, Bool.false_eq_true, true_iff]
        right; simpa using h2
      · simp only [h1, h2, if_false, Bool.false_eq_true, false_iff]
        simp only [List.any_eq_true, decide_eq_true_eq, not_exists, not_and] at h1 h2
        push Not
        exact ⟨fun c hc => not_lt.1 (h1 c hc), fun c hc => not_lt.1 (h2 c hc)⟩
  rw [this]
  grind

/-- No rank above `B` is used. -/
def RanksBelow (m : Model) (B : Int) : Prop :=
  (∀ c ∈ m.eqs, c.1 ≤ B) ∧ (∀ c ∈ m.ineqs, c.1 ≤ B) ∧ (∀ c ∈ m.composers, c.maxRank ≤ B)

/-- The tasks of a run: entry `k` of the log carries the rank `r0 + k` and the task built for it. -/
def LogOk (jm : Nat → Nat → ℝ) (jv : Nat → ℝ) (m : Model) (r0 : Int)
    (log : List (Int × (Aff × Aff) × Bool)) : Prop :=
  ∀ k (h : k < log.length), (log[k]).1 = r0 + k ∧ (log[k]).2.1 = m.buildTask jm jv (r0 + k)

theorem solveLoop_spec {H : Type} (S : Hqp H) (jm : Nat → Nat → ℝ) (jv : Nat → ℝ) (m : Model)
    (nopt : Nat) (B : Int) (hB : RanksBelow m B) : ∀ (fuel : Nat) (rank : Int) (r : Result H),
    (B - rank < fuel) → 0 < fuel → r.valid = true → r.solved = r.log.length →
    LogOk jm jv m 0 r.log → (rank = r.log.length) →
    ∃ r', m.solveLoop S jm jv nopt fuel rank r = some r' ∧ LogOk jm jv m 0 r'.log ∧
      r.log.length < r'.log.length ∧
      (r'.valid = true → r'.solved = r'.log.length) ∧
      (r'.valid = false → r'.solved + 1 = r'.log.length) ∧
      (r'.valid = true → S.nullDim r'.hqp ≠ 0 → m.moreRanks ((r'.log.length : Int) - 1) = false) := by
  intro fuel
  induction fuel with
  | zero => intro rank r _ h; omega
  | succ fuel ih =>
    intro rank r hf _ hv hs hlog hrank
    rw [Model.solveLoop]
    simp only []
    set h0 := if m.noSlack.length > 0 then S.setSlacks (checkSlackness m.noSlack rank (S.slacks r.hqp)) r.hqp
              else r.hqp
    set h1 := if rank = 0 then S.reset nopt h0 else h0
    set s := S.solveNextTask (m.buildTask jm jv rank).1 (m.buildTask jm jv rank).2 h1
    have hlog' : LogOk jm jv m 0 (r.log ++ [(rank, m.buildTask jm jv rank, S.slacks h1)]) := by
      intro k hk
      rw [List.length_append, List.length_singleton] at hk
      by_cases hk2 : k < r.log.length
      · simp only [List.getElem_append_left hk2]
        exact hlog k hk2
      · have : k = r.log.length := by omega
        subst this
        simp [hrank]
    by_cases hb : s.2 = true
    · simp only [hb, if_true, hv, Bool.and_true]
      by_cases hc : (m.moreRanks rank && decide (S.nullDim s.1 ≠ 0)) = true
      · rw [if_pos hc]
        have hmore : m.moreRanks rank = true := by
          simp only [Bool.and_eq_true] at hc; exact hc.1
        have hlt : rank < B := by
          rcases (moreRanks_iff m rank).1 hmore with ⟨c, hc, h⟩ | ⟨c, hc, h⟩ | ⟨c, hc, h⟩
          · have := hB.1 c hc; omega
          · have := hB.2.1 c hc; omega
          · have := hB.2.2 c hc; omega
        obtain ⟨r', e1, e2, e3, e4⟩ := ih (rank + 1)
          ⟨s.1, r.solved + 1, true, r.log ++ [(rank, m.buildTask jm jv rank, S.slacks h1)]⟩
          (by push_cast at hf; omega) (by push_cast at hf; omega) rfl (by simp [hs]) hlog' (by simp [hrank])
        refine ⟨r', e1, e2, ?_, e4⟩
        simp only [List.length_append, List.length_singleton] at e3
        omega
      · rw [if_neg hc]
        refine ⟨_, rfl, hlog', by simp, fun _ => by simp [hs], fun h => by simp at h, fun _ hnd => ?_⟩
        simp only [List.length_append, List.length_singleton]
        rw [show ((r.log.length + 1 : ℕ) : Int) - 1 = rank by push_cast; omega]
        simp only [Bool.and_eq_true, decide_eq_true_eq, not_and] at hc
        cases hm : m.moreRanks rank
        · rfl
        · exact absurd hnd (hc hm)
    · have hb' : s.2 = false := by simpa using hb
      simp only [hb', Bool.false_eq_true, if_false, Bool.and_false]
      exact ⟨_, rfl, hlog', by simp, fun h => by simp at h, fun _ => by simp [hs], fun h => by simp at h⟩

/-- C92: `solve` terminates; it hands over the tasks of the ranks `0, 1, .., k` in this order, each once;
a reported success means that the solver accepted all of them, a failure that it rejected exactly the
last one; and if it succeeds with degrees of freedom left, no constraint or composer of a higher rank was
left out. -/
theorem C92_solve_ranks {H : Type} (S : Hqp H) (jm : Nat → Nat → ℝ) (jv : Nat → ℝ) (m : Model)
    (nopt : Nat) (h : H) (B : Nat) (hB : RanksBelow m B) :
    ∃ r, m.solve S jm jv nopt (B + 1) h = some r ∧ r.log ≠ [] ∧
      (∀ k (hk : k < r.log.length), (r.log[k]).1 = (k : Int) ∧
        (r.log[k]).2.1 = m.buildTask jm jv (k : Int)) ∧
      (r.valid = true → r.solved = r.log.length) ∧
      (r.valid = false → r.solved + 1 = r.log.length) ∧
      (r.valid = true → S.nullDim r.hqp ≠ 0 →
        (∀ c ∈ m.eqs, c.1 < r.log.length) ∧ (∀ c ∈ m.ineqs, c.1 < r.log.length) ∧
        (∀ c ∈ m.composers, c.maxRank < r.log.length)) := by
  obtain ⟨r, e1, e2, e3, e4, e5, e6⟩ := solveLoop_spec S jm jv m nopt B hB (B + 1) 0 ⟨h, 0, true, []⟩
    (by push_cast; omega) (by omega) rfl rfl (fun k hk => by simp at hk) rfl
  refine ⟨r, e1, ?_, ?_, e4, e5, ?_⟩
  · intro hl; rw [hl] at e3; simp at e3
  · intro k hk
    have := e2 k hk
    simpa using this
  · intro hv hn
    have := e6 hv hn
    have hnot : ¬ (m.moreRanks ((r.log.length : Int) - 1) = true) := by rw [this]; simp
    rw [moreRanks_iff] at hnot
    push Not at hnot
    refine ⟨fun c hc => ?_, fun c hc => ?_, fun c hc => ?_⟩
    · have := hnot.1 c hc; omega
    · have := hnot.2.1 c hc; omega
    · have := hnot.2.2 c hc; omega

/-- A constraint with a negative rank is accepted by `addLinConstr` but is part of no task that `solve`
hands over: the tasks are the same without it. -/
theorem C92_negative_rank_ignored (jm : Nat → Nat → ℝ) (jv : Nat → ℝ) (m : Model) (c : Int × LinExpr ℝ)
    (hc : c.1 < 0) (k : Nat) :
    ({ m with eqs := m.eqs ++ [c] } : Model).buildTask jm jv (k : Int) = m.buildTask jm jv (k : Int) ∧
    ({ m with ineqs := m.ineqs ++ [c] } : Model).buildTask jm jv (k : Int) = m.buildTask jm jv (k : Int) := by
  have hcnt : ∀ (cs : List (Int × LinExpr ℝ)) n, rankCount k (cs ++ [c]) n = rankCount k cs n := by
    intro cs n
    rw [rankCount_eq, rankCount_eq, List.filter_append]
    have : ¬ c.1 = (k : Int) := by omega
    simp [this]
  have hwr : ∀ (old : Nat) (cs : List (Int × LinExpr ℝ)) (added : Nat) (a : Aff),
      writeRows k old (cs ++ [c]) added a = writeRows k old cs added a := by
    intro old cs
    induction cs with
    | nil =>
      intro added a
      have : ¬ c.1 = (k : Int) := by omega
      simp [writeRows, this]
    | cons d cs ih =>
      intro added a
      rw [List.cons_append, writeRows, writeRows]
      split
      · exact ih _ _
      · exact ih _ _
  have hadd : ∀ cs a, addCosts jm jv k (cs ++ [c]) a = addCosts jm jv k cs a := by
    intro cs a
    simp only [addCosts, hcnt, hwr]
  exact ⟨by simp only [Model.buildTask, hadd], by simp only [Model.buildTask, hadd]⟩

example : RanksBelow
    { Model.new 2 with eqs := [(0, ⟨1, [(0, 1)]⟩), (3, ⟨0, [(1, 2)]⟩)], ineqs := [(1, ⟨0, []⟩)] } 3 := by
  refine ⟨?_, ?_, ?_⟩ <;> simp [Model.new]

/-! ### C93: levels declared without slacks -/

/-- The accessors of the solver flag behave like a variable that `reset` does not touch
(RtHQPSolver.hpp:40, RtHQPSolver.h:91-107). -/
structure FlagLaws {H : Type} (S : Hqp H) : Prop where
  set : ∀ b h, S.slacks (S.setSlacks b h) = b
  reset : ∀ n h, S.slacks (S.reset n h) = S.slacks h

/-- C93 is violated: declaring hierarchy levels without slacks never has an effect. In every run in
which some level was declared, every rank - declared or not - is solved with slacks. -/
theorem C93_violated {H : Type} (S : Hqp H) (hS : FlagLaws S) (jm : Nat → Nat → ℝ) (jv : Nat → ℝ)
    (m : Model) (hne : m.noSlack ≠ []) (nopt fuel : Nat) (h : H) (r : Result H)
    (hr : m.solve S jm jv nopt fuel h = some r) : ∀ e ∈ r.log, e.2.2 = true := by
  have key : ∀ (fuel : Nat) (rank : Int) (r0 r : Result H), (∀ e ∈ r0.log, e.2.2 = true) →
      m.solveLoop S jm jv nopt fuel rank r0 = some r → ∀ e ∈ r.log, e.2.2 = true := by
    intro fuel
    induction fuel with
    | zero => intro rank r0 r _ h; simp [Model.solveLoop] at h
    | succ fuel ih =>
      intro rank r0 r h0 h
      have hpos : m.noSlack.length > 0 := List.length_pos_of_ne_nil hne
      rw [Model.solveLoop] at h
      simp only [hpos, if_true] at h
      have hlog : ∀ e ∈ r0.log ++ [(rank, m.buildTask jm jv rank, S.slacks (if rank = 0 then
          S.reset nopt (S.setSlacks (checkSlackness m.noSlack rank (S.slacks r0.hqp)) r0.hqp)
          else S.setSlacks (checkSlackness m.noSlack rank (S.slacks r0.hqp)) r0.hqp))], e.2.2 = true := by
        intro e he
        rcases List.mem_append.1 he with he | he
        · exact h0 e he
        · rw [List.mem_singleton] at he
          subst he
          simp only
          split
          · rw [hS.reset, hS.set]; rfl
          · rw [hS.set]; rfl
      set h1 := (if rank = 0 then
          S.reset nopt (S.setSlacks (checkSlackness m.noSlack rank (S.slacks r0.hqp)) r0.hqp)
          else S.setSlacks (checkSlackness m.noSlack rank (S.slacks r0.hqp)) r0.hqp) with hh1
      clear_value h1
      split_ifs at h
      all_goals first
        | exact ih _ _ _ hlog h
        | (simp only [Option.some.injEq] at h
           subst h
           exact hlog)
  exact key fuel 0 _ r (by simp) hr

/-- A solver with a flag. -/
def exHqp : Hqp (Bool × Nat) where
  reset := fun n h => (h.1, n)
  slacks := fun h => h.1
  setSlacks := fun b h => (b, h.2)
  solveNextTask := fun a _ h => ((h.1, h.2 - a.1.rows), true)
  nullDim := fun h => h.2

example : FlagLaws exHqp := ⟨fun _ _ => rfl, fun _ _ => rfl⟩

end Rt
end Verif
