import Verif.Equil
import Verif.ConeLemmas
import Mathlib.Tactic.FieldSimp
import Mathlib.Tactic.Ring
import Mathlib.Tactic.Positivity
import Mathlib.Tactic.IntervalCases

/-! C20: equilibration of the conic problem is undone exactly and preserves solutions. -/
namespace Verif
namespace Equil
open Cone Finset

/-! ### specification -/

/-- Entry `r` of the product of a sparse matrix with a vector. -/
noncomputable def act (M : Sp) (x : Nat → ℝ) (r : Nat) : ℝ :=
  ∑ j ∈ range M.length, (((M.getD j []).filter (fun t => t.1 = r)).map (fun t => t.2)).sum * x j

/-- Entry `j` of the product of the transposed sparse matrix with a vector. -/
noncomputable def actT (M : Sp) (y : Nat → ℝ) (j : Nat) : ℝ := ((M.getD j []).map (fun t => t.2 * y t.1)).sum

/-- The sizes of the problem data agree with the cone: `A` is `neq × nvars`, `G` is `sizecone × nvars`. -/
def Fits (c : Cone) (S : Storage) : Prop :=
  S.A.length = c.nvars ∧ S.G.length = c.nvars ∧
  (∀ col ∈ S.A, ∀ t ∈ col, t.1 < c.neq) ∧ (∀ col ∈ S.G, ∀ t ∈ col, t.1 < c.sizecone)

/-- Membership in the product of the nonnegative orthant and the second-order cones. -/
def Mem (c : Cone) (s : Nat → ℝ) : Prop :=
  (∀ i < c.nineq, 0 ≤ s i) ∧
  ∀ i < c.nsoc, Real.sqrt (∑ j ∈ Ico 1 (c.sizeSoc i), s (c.startSoc i + j) ^ 2) ≤ s (c.startSoc i)

/-- The parts of an `OptimizationVector` (x, y, z, s, tau). -/
def ox (_ : Cone) (o : Nat → ℝ) : Nat → ℝ := o
/-- Spec: the part `y`. -/
def oy (c : Cone) (o : Nat → ℝ) : Nat → ℝ := fun k => o (c.nvars + k)
/-- Spec: the part `z`. -/
def oz (c : Cone) (o : Nat → ℝ) : Nat → ℝ := fun k => o (c.nvars + c.neq + k)
/-- Spec: the part `s`. -/
def os (c : Cone) (o : Nat → ℝ) : Nat → ℝ := fun k => o (c.sizeproblem + 2 + k)
/-- Spec: `tau`. -/
def otau (c : Cone) (o : Nat → ℝ) : ℝ := o c.sizeproblem

/-- The parts of `cbh`: objective, right-hand side of the equations, right-hand side of the inequalities. -/
def pc (_ : Cone) (S : Storage) : Nat → ℝ := S.cbh
/-- Spec: the part `b` of the data. -/
def pb (c : Cone) (S : Storage) : Nat → ℝ := fun k => S.cbh (c.nvars + k)
/-- Spec: the part `h` of the data. -/
def ph (c : Cone) (S : Storage) : Nat → ℝ := fun k => S.cbh (c.nvars + c.neq + k)

/-- The point solves the problem `min c'x, Ax = b, Gx + s = h, s in K` together with its dual, in the homogeneous scaling `t`
(`t = 1` is the problem itself): feasibility of both and complementarity. -/
def Solves (c : Cone) (S : Storage) (t : ℝ) (x y z s : Nat → ℝ) : Prop :=
  (∀ r < c.neq, act S.A x r = t * pb c S r) ∧
  (∀ r < c.sizecone, act S.G x r + s r = t * ph c S r) ∧
  (∀ j < c.nvars, actT S.A y j + actT S.G z j + t * pc c S j = 0) ∧
  Mem c s ∧ Mem c z ∧ ∑ k ∈ range c.sizecone, s k * z k = 0

/-! ### lemmas -/

theorem equilibrate_length (ro co : Nat) (e : Nat → ℝ) (M : Sp) : (equilibrate ro co e M).length = M.length := by
  simp [equilibrate]

theorem equilibrate_getD (ro co : Nat) (e : Nat → ℝ) (M : Sp) (j : Nat) :
    (equilibrate ro co e M).getD j [] = (M.getD j []).map (fun t => (t.1, t.2 / (e (co + j) * e (ro + t.1)))) := by
  simp only [equilibrate, List.getD_eq_getElem?_getD, List.getElem?_mapIdx]
  cases M[j]? <;> simp

theorem equilibrate_zero (ro co : Nat) (e : Nat → ℝ) (M : Sp) (h : ¬ nnz M > 0) : equilibrate ro co e M = M := by
  have h0 : ∀ col ∈ M, col = [] := by
    intro col hc
    have h1 : nnz M = 0 := by omega
    have := (List.sum_eq_zero_iff.1 h1) col.length (List.mem_map.2 ⟨col, hc, rfl⟩)
    exact List.length_eq_zero_iff.1 this
  apply List.ext_getElem (equilibrate_length ro co e M)
  intro j h1 h2
  simp only [equilibrate, List.getElem_mapIdx]
  rw [h0 _ (List.getElem_mem h2)]; rfl

theorem unequilibrate_zero (ro co : Nat) (e : Nat → ℝ) (M : Sp) (h : ¬ nnz M > 0) : unequilibrate ro co e M = M := by
  have h0 : ∀ col ∈ M, col = [] := by
    intro col hc
    have h1 : nnz M = 0 := by omega
    have := (List.sum_eq_zero_iff.1 h1) col.length (List.mem_map.2 ⟨col, hc, rfl⟩)
    exact List.length_eq_zero_iff.1 this
  apply List.ext_getElem (by simp [unequilibrate])
  intro j h1 h2
  simp only [unequilibrate, List.getElem_mapIdx]
  rw [h0 _ (List.getElem_mem h2)]; rfl

theorem equilibrate_comp (ro co : Nat) (e f : Nat → ℝ) (M : Sp) :
    equilibrate ro co f (equilibrate ro co e M) = equilibrate ro co (fun i => e i * f i) M := by
  apply List.ext_getElem (by simp [equilibrate])
  intro j h1 h2
  simp only [equilibrate, List.getElem_mapIdx, List.map_map]
  apply List.map_congr_left
  intro t _
  simp only [Function.comp, Prod.mk.injEq, true_and]
  rw [div_div]; congr 1; ring

theorem nnz_equilibrate (ro co : Nat) (e : Nat → ℝ) (M : Sp) : nnz (equilibrate ro co e M) = nnz M := by
  unfold nnz; congr 1
  apply List.ext_getElem (by simp [equilibrate])
  intro j h1 h2
  simp [equilibrate]

/-! nonnegativity and constancy of the scaling of one round -/

theorem maxAbs_nonneg (col : Col) : 0 ≤ maxAbs col := by
  unfold maxAbs
  have : ∀ (l : Col) (m : ℝ), 0 ≤ m → 0 ≤ l.foldl (fun m e => max m |e.2|) m := by
    intro l
    induction l with
    | nil => intro m h; exact h
    | cons t l ih => intro m h; exact ih _ (le_trans h (le_max_left _ _))
  exact this col 0 le_rfl

theorem maxCol_nonneg (ro co : Nat) (e : Nat → ℝ) (j : Nat) (col : Col) (h : ∀ i, 0 ≤ e i) (i : Nat) :
    0 ≤ maxCol ro co e j col i := by
  unfold maxCol
  split
  · have : ∀ (l : Col) (e : Nat → ℝ), (∀ i, 0 ≤ e i) → ∀ i,
        0 ≤ l.foldl (fun e t => Function.update e (ro + t.1) (max |t.2| (e (ro + t.1)))) e i := by
      intro l
      induction l with
      | nil => intro e h; exact h
      | cons t l ih =>
        intro e h
        refine ih _ (fun i => ?_)
        show 0 ≤ Function.update e (ro + t.1) (max |t.2| (e (ro + t.1))) i
        rw [Function.update_apply]; split
        · exact le_trans (abs_nonneg _) (le_max_left _ _)
        · exact h i
    refine this col _ (fun i => ?_) i
    rw [Function.update_apply]; split
    · exact maxAbs_nonneg col
    · exact h i
  · exact h i

theorem maxRowsCols_nonneg (ro co : Nat) (M : Sp) (e : Nat → ℝ) (h : ∀ i, 0 ≤ e i) (i : Nat) :
    0 ≤ maxRowsCols ro co M e i := by
  unfold maxRowsCols
  have : ∀ (l : List (Col × Nat)) (e : Nat → ℝ), (∀ i, 0 ≤ e i) → ∀ i,
      0 ≤ l.foldl (fun e cj => maxCol ro co e cj.2 cj.1) e i := by
    intro l
    induction l with
    | nil => intro e h; exact h
    | cons t l ih => intro e h; exact ih _ (maxCol_nonneg ro co e t.2 t.1 h)
  exact this _ e h i

theorem sumSocs_spec (c : Cone) (e : Nat → ℝ) (he : ∀ i, 0 ≤ e i) :
    (∀ i, 0 ≤ sumSocs c e i) ∧
    ∀ i j, i < c.nsoc → j < c.sizeSoc i → sumSocs c e (c.optStartSoc i + j) = sumSocs c e (c.optStartSoc i) := by
  have key : ∀ m, m ≤ c.nsoc →
      let r := (List.range m).foldl (fun e i =>
        wr (c.optStartSoc i) (c.sizeSoc i) (fun _ => ∑ j ∈ Finset.range (c.sizeSoc i), e (c.optStartSoc i + j)) e) e
      (∀ i, 0 ≤ r i) ∧ ∀ i j, i < m → j < c.sizeSoc i → r (c.optStartSoc i + j) = r (c.optStartSoc i) := by
    intro m
    induction m with
    | zero => intro _; exact ⟨he, fun i j h => absurd h (by omega)⟩
    | succ m ih =>
      intro hm
      obtain ⟨h1, h2⟩ := ih (by omega)
      simp only [List.range_succ, List.foldl_append, List.foldl_cons, List.foldl_nil]
      refine ⟨fun i => ?_, fun i j hi hj => ?_⟩
      · rw [wr_apply]; split
        · exact Finset.sum_nonneg (fun j _ => h1 _)
        · exact h1 i
      · rcases Nat.lt_succ_iff_lt_or_eq.mp hi with hi' | rfl
        · have hlt := c.startSoc_lt hi' (by omega)
          rw [wr_apply, wr_apply, if_neg (by unfold optStartSoc; omega), if_neg (by unfold optStartSoc; omega)]
          exact h2 i j hi' hj
        · rw [wr_apply, wr_apply, if_pos (by omega), if_pos (by omega)]
  exact key c.nsoc le_rfl

theorem rootOrOne_pos (v : ℝ) (h : 0 ≤ v) : 0 < rootOrOne v := by
  unfold rootOrOne
  split
  · exact one_pos
  · rename_i hv
    rw [abs_of_nonneg h] at hv
    exact Real.sqrt_pos.2 (lt_of_lt_of_le (by norm_num) (not_lt.1 hv))

theorem optStart_lt (c : Cone) (i j : Nat) (hi : i < c.nsoc) (hj : j < c.sizeSoc i) :
    c.optStartSoc i + j < c.sizeproblem := by
  have := c.startSoc_lt hi le_rfl
  rw [startSoc_end] at this
  unfold optStartSoc sizeproblem sizeconstraints; omega

theorem roundVec_spec (c : Cone) (S : Storage) :
    (∀ k < c.sizeproblem, 0 < roundVec c S k) ∧
    ∀ i j, i < c.nsoc → j < c.sizeSoc i → roundVec c S (c.optStartSoc i + j) = roundVec c S (c.optStartSoc i) := by
  have h0 : ∀ i : Nat, (0 : ℝ) ≤ (fun _ => (0 : ℝ)) i := fun _ => le_rfl
  have h1 : ∀ i, 0 ≤ (if nnz S.A > 0 then maxRowsCols c.nvars 0 S.A (fun _ => 0) else fun _ => (0 : ℝ)) i := by
    intro i; split
    · exact maxRowsCols_nonneg _ _ _ _ h0 i
    · exact le_rfl
  have h2 : ∀ i, 0 ≤ (if nnz S.G > 0 then maxRowsCols c.lpconestart 0 S.G
      (if nnz S.A > 0 then maxRowsCols c.nvars 0 S.A (fun _ => 0) else fun _ => (0 : ℝ)) else
      (if nnz S.A > 0 then maxRowsCols c.nvars 0 S.A (fun _ => 0) else fun _ => (0 : ℝ))) i := by
    intro i
    by_cases hG : nnz S.G > 0
    · rw [if_pos hG]; exact maxRowsCols_nonneg _ _ _ _ h1 i
    · rw [if_neg hG]; exact h1 i
  obtain ⟨h3, h4⟩ := sumSocs_spec c _ h2
  constructor
  · intro k hk
    unfold roundVec
    rw [wr_apply, if_pos (by omega)]
    exact rootOrOne_pos _ (h3 _)
  · intro i j hi hj
    unfold roundVec
    have o1 := optStart_lt c i j hi hj
    have o2 := optStart_lt c i 0 hi (by omega)
    rw [Nat.add_zero] at o2
    have e1 : ∀ (g : Nat → ℝ) k, k < c.sizeproblem → wr 0 c.sizeproblem (fun i => rootOrOne (g i)) g k = rootOrOne (g k) := by
      intro g k hk
      rw [wr_apply, if_pos (by omega), Nat.sub_zero]
    show wr 0 c.sizeproblem _ _ _ = wr 0 c.sizeproblem _ _ _
    rw [e1 _ _ o1, e1 _ _ o2, h4 i j hi hj]

/-- Relation between the original data and the state after some rounds. -/
structure Scaled (c : Cone) (S : Storage) (st : Storage × (Nat → ℝ)) : Prop where
  hA : st.1.A = equilibrate c.nvars 0 st.2 S.A
  hG : st.1.G = equilibrate c.lpconestart 0 st.2 S.G
  hc : st.1.cbh = S.cbh
  pos : ∀ k < c.sizeproblem, 0 < st.2 k
  cst : ∀ i j, i < c.nsoc → j < c.sizeSoc i → st.2 (c.optStartSoc i + j) = st.2 (c.optStartSoc i)

theorem Scaled.round {c : Cone} {S : Storage} {st : Storage × (Nat → ℝ)} (h : Scaled c S st) :
    Scaled c S (round c st) := by
  obtain ⟨p1, p2⟩ := roundVec_spec c st.1
  constructor
  · show (if nnz st.1.A > 0 then equilibrate c.nvars 0 (roundVec c st.1) st.1.A else st.1.A) =
      equilibrate c.nvars 0 (fun i => st.2 i * roundVec c st.1 i) S.A
    rw [← equilibrate_comp, ← h.hA]
    split
    · rfl
    · rename_i hn; rw [equilibrate_zero _ _ _ _ hn]
  · show (if nnz st.1.G > 0 then equilibrate c.lpconestart 0 (roundVec c st.1) st.1.G else st.1.G) =
      equilibrate c.lpconestart 0 (fun i => st.2 i * roundVec c st.1 i) S.G
    rw [← equilibrate_comp, ← h.hG]
    split
    · rfl
    · rename_i hn; rw [equilibrate_zero _ _ _ _ hn]
  · exact h.hc
  · intro k hk; exact mul_pos (h.pos k hk) (p1 k hk)
  · intro i j hi hj
    show st.2 _ * roundVec c st.1 _ = st.2 _ * roundVec c st.1 _
    rw [h.cst i j hi hj, p2 i j hi hj]

theorem Scaled.rounds {c : Cone} {S : Storage} : ∀ (n : Nat) {st : Storage × (Nat → ℝ)}, Scaled c S st →
    Scaled c S (rounds c n st)
  | 0, _, h => h
  | n + 1, _, h => Scaled.rounds n h.round

theorem Scaled.init (c : Cone) (S : Storage) : Scaled c S (S, fun _ => 1) := by
  have h1 : ∀ ro co (M : Sp), equilibrate ro co (fun _ => 1) M = M := by
    intro ro co M
    apply List.ext_getElem (by simp [equilibrate])
    intro j h1 h2
    simp [equilibrate]
  exact ⟨(h1 _ _ _).symm, (h1 _ _ _).symm, rfl, fun _ _ => one_pos, fun _ _ _ _ => rfl⟩

theorem scaled (c : Cone) (S : Storage) (n : Nat) : Scaled c S (Equil.rounds c n (S, fun _ => 1)) :=
  Scaled.rounds n (Scaled.init c S)

/-! ### properties -/

/-- C20: removing the equilibration after any number of rounds gives back the problem data exactly. -/
theorem C20_unset (c : Cone) (iters : Nat) (S : Storage) (hf : Fits c S) :
    unsetEquilibration c (setEquilibration c iters S).2 (setEquilibration c iters S).1 = S := by
  have h := scaled c S iters
  set r := Equil.rounds c iters (S, fun _ => 1) with hr
  have key : ∀ (ro n : Nat) (M : Sp), M.length ≤ c.sizeproblem → (∀ col ∈ M, ∀ t ∈ col, ro + t.1 < c.sizeproblem) →
      unequilibrate ro 0 r.2 (equilibrate ro 0 r.2 M) = M := by
    intro ro n M hl hrow
    apply List.ext_getElem (by simp [equilibrate, unequilibrate])
    intro j h1 h2
    simp only [equilibrate, unequilibrate, List.getElem_mapIdx, List.map_map]
    conv_rhs => rw [← List.map_id M[j]]
    apply List.map_congr_left
    intro t ht
    have e1 := h.pos j (by omega)
    have e2 := h.pos (ro + t.1) (hrow _ (List.getElem_mem h2) t ht)
    simp only [Function.comp, id, zero_add]
    ext
    · rfl
    · show t.2 / (r.2 j * r.2 (ro + t.1)) * (r.2 (ro + t.1) * r.2 j) = t.2
      have := e1.ne'; have := e2.ne'
      field_simp
  obtain ⟨f1, f2, f3, f4⟩ := hf
  have sA : unequilibrate c.nvars 0 r.2 r.1.A = S.A := by
    rw [h.hA]
    exact key c.nvars 0 S.A (by rw [f1]; unfold sizeproblem; omega)
      (fun col hc t ht => by have := f3 col hc t ht; unfold sizeproblem sizeconstraints; omega)
  have sG : unequilibrate c.lpconestart 0 r.2 r.1.G = S.G := by
    rw [h.hG]
    exact key c.lpconestart 0 S.G (by rw [f2]; unfold sizeproblem; omega)
      (fun col hc t ht => by have := f4 col hc t ht; unfold lpconestart sizeproblem sizeconstraints; omega)
  have gA : (if nnz r.1.A > 0 then unequilibrate c.nvars 0 r.2 r.1.A else r.1.A) = S.A := by
    split
    · exact sA
    · rename_i hn; rw [← sA, unequilibrate_zero _ _ _ _ hn]
  have gG : (if nnz r.1.G > 0 then unequilibrate c.lpconestart 0 r.2 r.1.G else r.1.G) = S.G := by
    split
    · exact sG
    · rename_i hn; rw [← sG, unequilibrate_zero _ _ _ _ hn]
  have gc : (fun k => if k < c.sizeproblem then (if k < c.sizeproblem then r.1.cbh k / r.2 k else r.1.cbh k) * r.2 k
      else (if k < c.sizeproblem then r.1.cbh k / r.2 k else r.1.cbh k)) = S.cbh := by
    funext k
    by_cases hk : k < c.sizeproblem
    · rw [if_pos hk, if_pos hk, h.hc, div_mul_cancel₀ _ (h.pos k hk).ne']
    · rw [if_neg hk, if_neg hk, h.hc]
  show Storage.mk _ _ _ = S
  cases S
  simp only [Storage.mk.injEq]
  exact ⟨gA, gG, gc⟩

/-- Sums of the entries of a column after equilibration. -/
theorem act_equilibrate (ro : Nat) (e : Nat → ℝ) (M : Sp) (x x' : Nat → ℝ) (t : ℝ) (r : Nat) (ht : t ≠ 0)
    (he : ∀ k < M.length, e k ≠ 0) (hx : ∀ j < M.length, x j = x' j / (e j * t)) :
    act (equilibrate ro 0 e M) x' r = t / e (ro + r) * act M x r := by
  unfold act
  rw [equilibrate_length, Finset.mul_sum]
  apply Finset.sum_congr rfl
  intro j hj
  have hj' := Finset.mem_range.1 hj
  rw [equilibrate_getD, List.filter_map, List.map_map, hx j hj']
  have h1 : ∀ l : Col, ((l.filter ((fun t : Nat × ℝ => decide (t.1 = r)) ∘ fun t => (t.1, t.2 / (e (0 + j) * e (ro + t.1))))).map
      ((fun t : Nat × ℝ => t.2) ∘ fun t => (t.1, t.2 / (e (0 + j) * e (ro + t.1))))).sum
      = ((l.filter (fun t => decide (t.1 = r))).map (fun t => t.2)).sum / (e j * e (ro + r)) := by
    intro l
    induction l with
    | nil => simp
    | cons a l ih =>
      by_cases ha : a.1 = r
      · simp only [List.filter_cons, Function.comp, ha, decide_true, if_true, List.map_cons, List.sum_cons] at ih ⊢
        rw [ih, zero_add, add_div]
      · simp only [List.filter_cons, Function.comp, ha, decide_false] at ih ⊢
        exact ih
  rw [h1]
  have := he j hj'
  field_simp

theorem actT_equilibrate (ro : Nat) (e : Nat → ℝ) (M : Sp) (y y' : Nat → ℝ) (t : ℝ) (j : Nat) (ht : t ≠ 0)
    (he : ∀ col ∈ M, ∀ a ∈ col, e (ro + a.1) ≠ 0) (hy : ∀ col ∈ M, ∀ a ∈ col, y a.1 = y' a.1 / (e (ro + a.1) * t)) :
    actT (equilibrate ro 0 e M) y' j = t / e j * actT M y j := by
  unfold actT
  rw [equilibrate_getD, List.map_map]
  by_cases hj : j < M.length
  · have hm : M.getD j [] ∈ M := by
      rw [List.getD_eq_getElem?_getD, List.getElem?_eq_getElem hj]; exact List.getElem_mem hj
    have h1 : ∀ l : Col, (∀ a ∈ l, a ∈ M.getD j []) →
        (l.map ((fun a : Nat × ℝ => a.2 * y' a.1) ∘ fun a => (a.1, a.2 / (e (0 + j) * e (ro + a.1))))).sum
        = t / e j * (l.map (fun a => a.2 * y a.1)).sum := by
      intro l
      induction l with
      | nil => intro _; simp
      | cons a l ih =>
        intro hl
        have hmem := hl a (by simp)
        simp only [List.map_cons, List.sum_cons, Function.comp] at ih ⊢
        rw [ih (fun b hb => hl b (by simp [hb])), mul_add, hy _ hm a hmem, zero_add]
        congr 1
        have := he _ hm a hmem
        by_cases h0 : e j = 0
        · simp [h0]
        · field_simp
    exact h1 _ (fun a h => h)
  · rw [List.getD_eq_getElem?_getD, List.getElem?_eq_none (by omega)]; simp

/-- C20: residuals. Let `p` be any vector of the scaled problem with `tau ≠ 0` and `q` what the solver reports for it. Then
every residual of the scaled (homogeneous) equations at `p` is the corresponding residual of the original problem at `q`,
times `tau` over the scaling of that row; the duality gap and both objectives agree up to powers of `tau`. -/
theorem C20_residuals (c : Cone) (iters : Nat) (S : Storage) (hf : Fits c S) (p : Nat → ℝ) (ht : otau c p ≠ 0) :
    let S' := (setEquilibration c iters S).1
    let e := (setEquilibration c iters S).2
    let q := scaleVariables c e p
    let t := otau c p
    (∀ k < c.sizeproblem, 0 < e k) ∧
    (∀ r < c.neq, act S'.A (ox c p) r - t * pb c S' r = t / e (c.nvars + r) * (act S.A (ox c q) r - pb c S r)) ∧
    (∀ r < c.sizecone, act S'.G (ox c p) r + os c p r - t * ph c S' r
      = t / e (c.nvars + c.neq + r) * (act S.G (ox c q) r + os c q r - ph c S r)) ∧
    (∀ j < c.nvars, actT S'.A (oy c p) j + actT S'.G (oz c p) j + t * pc c S' j
      = t / e j * (actT S.A (oy c q) j + actT S.G (oz c q) j + pc c S j)) ∧
    (∑ k ∈ range c.sizecone, os c p k * oz c p k = t ^ 2 * ∑ k ∈ range c.sizecone, os c q k * oz c q k) ∧
    (∑ j ∈ range c.nvars, pc c S' j * ox c p j = t * ∑ j ∈ range c.nvars, pc c S j * ox c q j) ∧
    (∑ r ∈ range c.neq, pb c S' r * oy c p r = t * ∑ r ∈ range c.neq, pb c S r * oy c q r) ∧
    (∑ r ∈ range c.sizecone, ph c S' r * oz c p r = t * ∑ r ∈ range c.sizecone, ph c S r * oz c q r) := by
  have h := scaled c S iters
  intro S' e q t
  have hte : t ≠ 0 := ht
  have he : e = (Equil.rounds c iters (S, fun _ => 1)).2 := rfl
  have hpos : ∀ k < c.sizeproblem, 0 < e k := h.pos
  have hne : ∀ k < c.sizeproblem, e k ≠ 0 := fun k hk => (hpos k hk).ne'
  have hq : ∀ k < c.sizeproblem, q k = p k / (e k * t) := by
    intro k hk
    show scaleVariables c e p k = _
    simp only [scaleVariables]
    rw [wr_apply, if_neg (by simp only [vS]; omega), wr_apply, if_pos (by omega)]
    rfl
  have hs : ∀ k < c.sizecone, os c q k = os c p k * (e (c.lpconestart + k) / t) := by
    intro k hk
    show scaleVariables c e p (c.sizeproblem + 2 + k) = _
    simp only [scaleVariables]
    rw [wr_apply, if_pos (by simp only [vS]; omega)]
    simp only [vS, show c.sizeproblem + 2 + k - (c.sizeproblem + 2) = k by omega]
    rw [wr_apply, if_neg (by omega)]
    rfl
  have hA : S'.A = equilibrate c.nvars 0 e S.A := h.hA
  have hG : S'.G = equilibrate c.lpconestart 0 e S.G := h.hG
  have hcb : ∀ k < c.sizeproblem, S'.cbh k = S.cbh k / e k := by
    intro k hk
    show (if k < c.sizeproblem then (Equil.rounds c iters (S, fun _ => 1)).1.cbh k / e k else _) = _
    rw [if_pos hk, h.hc]
  obtain ⟨f1, f2, f3, f4⟩ := hf
  have sx : ∀ j < c.nvars, j < c.sizeproblem := fun j hj => by unfold sizeproblem; omega
  have sy : ∀ j < c.neq, c.nvars + j < c.sizeproblem := fun j hj => by unfold sizeproblem sizeconstraints; omega
  have sz : ∀ j < c.sizecone, c.nvars + c.neq + j < c.sizeproblem := fun j hj => by
    unfold sizeproblem sizeconstraints; omega
  have hlp : c.lpconestart = c.nvars + c.neq := rfl
  refine ⟨hpos, ?_, ?_, ?_, ?_, ?_, ?_, ?_⟩
  · intro r hr
    rw [hA, act_equilibrate c.nvars e S.A (ox c q) (ox c p) t r hte (fun k hk => hne k (sx k (by omega)))
      (fun j hj => hq j (sx j (by omega)))]
    unfold pb
    rw [hcb _ (sy r hr)]
    have := hne _ (sy r hr)
    field_simp
  · intro r hr
    rw [hG, act_equilibrate c.lpconestart e S.G (ox c q) (ox c p) t r hte (fun k hk => hne k (sx k (by omega)))
      (fun j hj => hq j (sx j (by omega))), hs r hr]
    unfold ph
    rw [hcb _ (sz r hr), hlp]
    have := hne _ (sz r hr)
    field_simp
  · intro j hj
    rw [hA, hG, actT_equilibrate c.nvars e S.A (oy c q) (oy c p) t j hte
        (fun col hc a ha => hne _ (sy _ (f3 col hc a ha))) (fun col hc a ha => hq _ (sy _ (f3 col hc a ha))),
      actT_equilibrate c.lpconestart e S.G (oz c q) (oz c p) t j hte
        (fun col hc a ha => hne _ (sz _ (f4 col hc a ha))) (fun col hc a ha => hq _ (sz _ (f4 col hc a ha)))]
    unfold pc
    rw [hcb _ (sx j hj)]
    have := hne _ (sx j hj)
    field_simp
  · rw [Finset.mul_sum]
    apply Finset.sum_congr rfl
    intro k hk
    have hk' := Finset.mem_range.1 hk
    rw [hs k hk']
    show _ = t ^ 2 * (_ * q (c.nvars + c.neq + k))
    rw [hq _ (sz k hk'), hlp]
    have := hne _ (sz k hk')
    show os c p k * p (c.nvars + c.neq + k) = _
    field_simp
  · rw [Finset.mul_sum]
    apply Finset.sum_congr rfl
    intro j hj
    have hj' := Finset.mem_range.1 hj
    show S'.cbh j * p j = t * (S.cbh j * q j)
    rw [hq _ (sx j hj'), hcb _ (sx j hj')]
    have := hne _ (sx j hj')
    field_simp
  · rw [Finset.mul_sum]
    apply Finset.sum_congr rfl
    intro j hj
    have hj' := Finset.mem_range.1 hj
    show S'.cbh (c.nvars + j) * p (c.nvars + j) = t * (S.cbh (c.nvars + j) * q (c.nvars + j))
    rw [hq _ (sy j hj'), hcb _ (sy j hj')]
    have := hne _ (sy j hj')
    field_simp
  · rw [Finset.mul_sum]
    apply Finset.sum_congr rfl
    intro j hj
    have hj' := Finset.mem_range.1 hj
    show S'.cbh (c.nvars + c.neq + j) * p (c.nvars + c.neq + j) = t * (S.cbh (c.nvars + c.neq + j) * q (c.nvars + c.neq + j))
    rw [hq _ (sz j hj'), hcb _ (sz j hj')]
    have := hne _ (sz j hj')
    field_simp

/-- Multiplying by positive numbers that are constant on every second-order cone does not change membership. -/
theorem mem_scale (c : Cone) (hne : ∀ i < c.nsoc, 0 < c.sizeSoc i) (s f : Nat → ℝ) (hf : ∀ k < c.sizecone, 0 < f k)
    (hc : ∀ i j, i < c.nsoc → j < c.sizeSoc i → f (c.startSoc i + j) = f (c.startSoc i)) (s' : Nat → ℝ)
    (hs : ∀ k < c.sizecone, s' k = s k * f k) : Mem c s' ↔ Mem c s := by
  have hin : ∀ i j, i < c.nsoc → j < c.sizeSoc i → c.startSoc i + j < c.sizecone := by
    intro i j hi hj
    have := c.startSoc_lt hi le_rfl; rw [startSoc_end] at this; omega
  unfold Mem
  apply and_congr
  · apply forall₂_congr
    intro i hi
    rw [hs i (by unfold sizecone; omega)]
    have := hf i (by unfold sizecone; omega)
    constructor
    · intro h; exact nonneg_of_mul_nonneg_left h this
    · intro h; exact mul_nonneg h this.le
  · apply forall₂_congr
    intro i hi
    have h0 := hf _ (hin i 0 hi (hne i hi))
    rw [Nat.add_zero] at h0
    have e1 : ∑ j ∈ Ico 1 (c.sizeSoc i), s' (c.startSoc i + j) ^ 2
        = f (c.startSoc i) ^ 2 * ∑ j ∈ Ico 1 (c.sizeSoc i), s (c.startSoc i + j) ^ 2 := by
      rw [Finset.mul_sum]
      apply Finset.sum_congr rfl
      intro j hj
      have hj' := (Finset.mem_Ico.1 hj).2
      rw [hs _ (hin i j hi hj'), hc i j hi hj']; ring
    have e2 := hs _ (hin i 0 hi (hne i hi))
    rw [Nat.add_zero] at e2
    rw [e1, e2, Real.sqrt_mul (sq_nonneg _), Real.sqrt_sq h0.le, mul_comm (s _)]
    exact mul_le_mul_iff_of_pos_left h0

/-- C20: cones. With `tau > 0`, slack and dual of the scaled problem lie in the cone iff the reported ones do. -/
theorem C20_cones (c : Cone) (hne : ∀ i < c.nsoc, 0 < c.sizeSoc i) (iters : Nat) (S : Storage) (p : Nat → ℝ)
    (ht : 0 < otau c p) :
    let q := scaleVariables c (setEquilibration c iters S).2 p
    (Mem c (os c q) ↔ Mem c (os c p)) ∧ (Mem c (oz c q) ↔ Mem c (oz c p)) := by
  have h := scaled c S iters
  intro q
  set e := (setEquilibration c iters S).2 with he
  have hpos : ∀ k < c.sizeproblem, 0 < e k := h.pos
  have hcst : ∀ i j, i < c.nsoc → j < c.sizeSoc i → e (c.optStartSoc i + j) = e (c.optStartSoc i) := h.cst
  have sz : ∀ j < c.sizecone, c.nvars + c.neq + j < c.sizeproblem := fun j hj => by
    unfold sizeproblem sizeconstraints; omega
  constructor
  · apply mem_scale c hne (os c p) (fun k => e (c.lpconestart + k) / otau c p)
    · intro k hk; exact div_pos (hpos _ (sz k hk)) ht
    · intro i j hi hj
      have := hcst i j hi hj
      unfold optStartSoc at this
      simp only [lpconestart]
      rw [show c.nvars + c.neq + (c.startSoc i + j) = c.nvars + c.neq + c.startSoc i + j by omega, this]
    · intro k hk
      show scaleVariables c e p (c.sizeproblem + 2 + k) = _
      simp only [scaleVariables]
      rw [wr_apply, if_pos (by simp only [vS]; omega)]
      simp only [vS, show c.sizeproblem + 2 + k - (c.sizeproblem + 2) = k by omega]
      rw [wr_apply, if_neg (by omega)]
      rfl
  · apply mem_scale c hne (oz c p) (fun k => 1 / (e (c.lpconestart + k) * otau c p))
    · intro k hk; exact div_pos one_pos (mul_pos (hpos _ (sz k hk)) ht)
    · intro i j hi hj
      have := hcst i j hi hj
      unfold optStartSoc at this
      simp only [lpconestart]
      rw [show c.nvars + c.neq + (c.startSoc i + j) = c.nvars + c.neq + c.startSoc i + j by omega, this]
    · intro k hk
      show scaleVariables c e p (c.nvars + c.neq + k) = _
      simp only [scaleVariables]
      rw [wr_apply, if_neg (by have := sz k hk; simp only [vS]; omega), wr_apply, if_pos (by have := sz k hk; omega)]
      show p _ / _ = p _ * _
      simp only [Nat.sub_zero, lpconestart]
      rw [mul_one_div]; rfl

/-- C20: a vector with `tau > 0` solves the scaled (homogeneous) primal-dual problem iff what the solver reports for it solves
the original problem. -/
theorem C20_solutions (c : Cone) (hne : ∀ i < c.nsoc, 0 < c.sizeSoc i) (iters : Nat) (S : Storage) (hf : Fits c S)
    (p : Nat → ℝ) (ht : 0 < otau c p) :
    let q := scaleVariables c (setEquilibration c iters S).2 p
    Solves c (setEquilibration c iters S).1 (otau c p) (ox c p) (oy c p) (oz c p) (os c p) ↔
      Solves c S 1 (ox c q) (oy c q) (oz c q) (os c q) := by
  obtain ⟨h0, h1, h2, h3, h4, _⟩ := C20_residuals c iters S hf p ht.ne'
  obtain ⟨m1, m2⟩ := C20_cones c hne iters S p ht
  intro q
  have zero : ∀ a b f : ℝ, 0 < f → a = otau c p / f * b → (a = 0 ↔ b = 0) := by
    intro a b f hf h
    have hfac : otau c p / f ≠ 0 := (div_pos ht hf).ne'
    rw [h]; exact ⟨fun h => (mul_eq_zero.1 h).resolve_left hfac, fun h => by rw [h, mul_zero]⟩
  unfold Solves
  refine and_congr ?_ (and_congr ?_ (and_congr ?_ (and_congr m1.symm (and_congr m2.symm ?_))))
  · apply forall₂_congr
    intro r hr
    rw [← sub_eq_zero, zero _ _ _ (h0 _ (by unfold sizeproblem sizeconstraints; omega)) (h1 r hr), sub_eq_zero, one_mul]
  · apply forall₂_congr
    intro r hr
    rw [← sub_eq_zero, zero _ _ _ (h0 _ (by unfold sizeproblem sizeconstraints; omega)) (h2 r hr), sub_eq_zero, one_mul]
  · apply forall₂_congr
    intro j hj
    rw [zero _ _ _ (h0 _ (by unfold sizeproblem; omega)) (h3 j hj), one_mul]
  · rw [h4]
    exact ⟨fun h => (mul_eq_zero.1 h).resolve_left (pow_ne_zero 2 ht.ne'), fun h => by rw [h, mul_zero]⟩

/-- C20: changing an entry of `h` through the solver (as branch and bound does between solves) has the effect of changing it
in the original data before equilibrating, for the equilibration in use. -/
theorem C20_updateEquilH (c : Cone) (iters : Nat) (S : Storage) (hf : Fits c S) (id : Nat) (hid : id < c.sizecone) (v : ℝ) :
    unsetEquilibration c (setEquilibration c iters S).2
      (updateEquilH c (setEquilibration c iters S).2 (setEquilibration c iters S).1 id v)
      = { S with cbh := Function.update S.cbh (c.nvars + c.neq + id) v } := by
  have h := scaled c S iters
  have h20 := C20_unset c iters S hf
  have hA := congrArg Storage.A h20
  have hG := congrArg Storage.G h20
  have hc := congrArg Storage.cbh h20
  have sz : c.nvars + c.neq + id < c.sizeproblem := by unfold sizeproblem sizeconstraints; omega
  have hpos : 0 < (setEquilibration c iters S).2 (c.nvars + c.neq + id) := h.pos _ sz
  simp only [unsetEquilibration] at hA hG hc
  simp only [unsetEquilibration, updateEquilH, Storage.mk.injEq]
  refine ⟨hA, hG, ?_⟩
  funext k
  have hk := congrFun hc k
  simp only [lpconestart]
  by_cases hkk : k = c.nvars + c.neq + id
  · subst hkk
    rw [Function.update_self, Function.update_self, if_pos sz, div_mul_cancel₀ _ hpos.ne']
  · rw [Function.update_of_ne hkk, Function.update_of_ne hkk]; exact hk

/-! ### non-vacuity -/

/-- One variable, one equation, one linear inequality, one cone of size 2. -/
def exCone : Cone := ⟨1, 1, 1, [2]⟩

/-- `4 x = 8`, `x + s0 = 3`, `(s1, s2) = (2, 0) - (-x, 0)`. -/
noncomputable def exS : Storage := ⟨[[(0, 4)]], [[(0, 1), (1, -1)]], fun k => [1, 8, 3, 2, 0].getD k 0⟩

example : Fits exCone exS ∧ (∀ i < exCone.nsoc, 0 < exCone.sizeSoc i) ∧
    ∃ x y z s, Solves exCone exS 1 x y z s := by
  refine ⟨⟨rfl, rfl, ?_, ?_⟩, ?_, ?_⟩
  · intro col hc t ht
    simp [exS] at hc; subst hc; simp at ht; subst ht; decide
  · intro col hc t ht
    simp [exS] at hc; subst hc; simp at ht
    rcases ht with rfl | rfl <;> decide
  · intro i hi
    have : i = 0 := by simp [exCone, nsoc] at hi; exact hi
    subst this; decide
  · refine ⟨fun _ => 2, fun _ => -1 / 4, fun _ => 0, fun k => [1, 4, 0].getD k 0, ?_, ?_, ?_, ?_, ?_, ?_⟩
    · intro r hr
      have : r = 0 := by simp [exCone] at hr; exact hr
      subst this
      simp [act, exS, pb, exCone]; norm_num
    · intro r hr
      simp only [exCone, sizecone, ssoc] at hr
      simp at hr
      interval_cases r <;> simp [act, exS, ph, exCone] <;> norm_num
    · intro j hj
      have : j = 0 := by simp [exCone] at hj; exact hj
      subst this
      simp [actT, exS, pc]; norm_num
    · refine ⟨fun i hi => ?_, fun i hi => ?_⟩
      · have : i = 0 := by simp [exCone] at hi; exact hi
        subst this; simp
      · have : i = 0 := by simp [exCone, nsoc] at hi; exact hi
        subst this
        simp [exCone, sizeSoc, startSoc]
    · refine ⟨fun i hi => le_rfl, fun i hi => ?_⟩
      simp
    · simp
example : 0 < otau exCone (fun _ => 2) := by simp [otau]

end Equil
end Verif
