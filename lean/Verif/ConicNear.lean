/-
Specification and proofs: points that satisfy the standard form up to a tolerance satisfy what the user stated up to a tolerance
(used for C219, C220). No code is modelled here.
-/
import Verif.ConicProps

set_option linter.unusedSimpArgs false

namespace Verif
open Sys Build

/-! ### specification -/

/-- The vector is within `ε`, entry by entry, of a vector of the second-order cone. -/
def NearSoc (ε : ℝ) (v : List ℝ) : Prop := ∃ s, InSoc s ∧ List.Forall₂ (fun a b => |a - b| ≤ ε) v s

/-- The point satisfies every row of the standard form up to `ε`. -/
def StdForm.Nearly (f : StdForm ℝ) (ε : ℝ) (x : Nat → ℝ) : Prop :=
  (∀ r < f.nleq, |f.eq.act x r - f.eq.rhs r| ≤ ε) ∧
  (∀ r < f.nlineq, f.ineq.act x r ≤ f.ineq.rhs r + ε) ∧
  (∀ i (_ : i < f.q.length), NearSoc ε ((List.range f.q[i]).map (fun j =>
    f.ineq.rhs (startSoc f.nlineq f.q i + j) - f.ineq.act x (startSoc f.nlineq f.q i + j))))

/-- The relative error of a square whose cone is met up to `ε`. -/
noncomputable def sqErr (ε : ℝ) : ℝ := 3 * ε / 2

/-- What a call demands of the point `x`, up to `ε` (compare `Op.Holds`; for `ε = 0` they agree, `nearly_zero`). -/
def Op.NearlyHolds (ε : ℝ) (x0 : Nat → ℝ) (thr : ℝ) (warm : Bool) (x : Nat → ℝ) : Op → Prop
  | .addVar .. => True
  | .addLin l s r =>
    if s = "=" then |l.getValue x - r.getValue x| ≤ ε
    else if s = "<" then l.getValue x ≤ r.getValue x + ε
    else l.getValue x ≥ r.getValue x - ε
  | .addQua q _ l ap =>
    sumSq q.quad x ≤ (1 + sqErr ε) * (l.getValue x - q.lin.getValue x + ε) + (sqErr ε + sqErr ε ^ 2) * (q.quad.map (·.1)).sum ∧
    (ap = .trustRegion → warm = false →
      tangent q.quad x0 x + q.lin.getValue x - l.getValue x ≥ -thr - ε)
  | .addSoc q _ l =>
    Real.sqrt ((q.quad.map (fun t => (t.2.getValue x) ^ 2)).sum) + q.lin.getValue x ≤
      l.getValue x + (2 + Real.sqrt q.quad.length) * ε
  | .setObj .. => True

theorem nearly_zero (x0 : Nat → ℝ) (thr : ℝ) (warm : Bool) (x : Nat → ℝ) (op : Op) :
    op.NearlyHolds 0 x0 thr warm x ↔ op.Holds x0 thr warm x := by
  cases op with
  | addVar => rfl
  | addLin l s r =>
    simp only [Op.NearlyHolds, Op.Holds]
    split
    · rw [abs_nonpos_iff, sub_eq_zero]
    · simp
  | addQua q s l ap =>
    simp only [Op.NearlyHolds, Op.Holds, sqErr]
    have : sumSq q.quad x ≤ (1 + 3 * 0 / 2) * (l.getValue x - q.lin.getValue x + 0) + (3 * 0 / 2 + (3 * 0 / 2) ^ 2) * (q.quad.map (·.1)).sum ↔
        sumSq q.quad x + q.lin.getValue x ≤ l.getValue x := by
      constructor <;> intro h <;> linarith
    rw [this, sub_zero]
  | addSoc q s l => simp [Op.NearlyHolds, Op.Holds]
  | setObj => rfl

/-! ### rows -/

/-- The rows of the standard form, as functions of the point. -/
theorem rows_eq (f : StdForm ℝ) (eqRows lp : List ((Nat → ℝ) → ℝ)) (bs : List (List ((Nat → ℝ) → ℝ)))
    (he : Ext Sys.zero f.eq 0 eqRows) (hi : Ext Sys.zero f.ineq 0 (lp ++ bs.flatten))
    (h2 : f.nlineq = lp.length) (h3 : f.q = bs.map List.length) (x : Nat → ℝ) :
    (∀ i (h : i < eqRows.length), f.eq.rhs i - f.eq.act x i = eqRows[i] x) ∧
    (∀ i (h : i < lp.length), f.ineq.rhs i - f.ineq.act x i = lp[i] x) ∧
    ∀ i (hib : i < bs.length), (List.range (bs[i].length)).map (fun j =>
        f.ineq.rhs (startSoc f.nlineq f.q i + j) - f.ineq.act x (startSoc f.nlineq f.q i + j)) = bs[i].map (fun g => g x) := by
  refine ⟨fun i h => ?_, fun i h => ?_, fun i hib => ?_⟩
  · have := he.at_ i h x
    simpa only [Nat.zero_add, slack] using this
  · have := hi.at_ i (by rw [List.length_append]; omega) x
    simpa only [Nat.zero_add, List.getElem_append_left h, slack] using this
  · apply List.ext_getElem
    · simp
    · intro j hj1 hj2
      simp only [List.length_map, List.length_range] at hj1
      simp only [List.getElem_map, List.getElem_range]
      have hget := take_sum_succ bs i hib j hj1
      have hlt : ((bs.map List.length).take i).sum + j < bs.flatten.length := by
        by_contra hc
        rw [List.getElem?_eq_none (by omega)] at hget
        exact absurd hget (by simp)
      have := hi.at_ (lp.length + (((bs.map List.length).take i).sum + j)) (by
        rw [List.length_append]; omega) x
      simp only [slack] at this
      have e : startSoc f.nlineq f.q i + j = 0 + (lp.length + (((bs.map List.length).take i).sum + j)) := by
        rw [startSoc, h2, h3]; omega
      rw [e, this]
      rw [List.getElem_append_right (by omega)]
      rw [List.getElem?_eq_getElem hlt] at hget
      have hget := Option.some.inj hget
      rw [← hget]
      have e3 : ∀ (a b : Nat) (ha : a < bs.flatten.length) (hb : b < bs.flatten.length), a = b →
          bs.flatten[a] x = bs.flatten[b] x := by intro a b ha hb h; subst h; rfl
      exact e3 _ _ _ _ (by omega)

theorem nearly_rows (f : StdForm ℝ) (eqRows lp : List ((Nat → ℝ) → ℝ)) (bs : List (List ((Nat → ℝ) → ℝ)))
    (he : Ext Sys.zero f.eq 0 eqRows) (hi : Ext Sys.zero f.ineq 0 (lp ++ bs.flatten))
    (h1 : f.nleq = eqRows.length) (h2 : f.nlineq = lp.length) (h3 : f.q = bs.map List.length) (ε : ℝ) (x : Nat → ℝ) (h : f.Nearly ε x) :
    (∀ g ∈ eqRows, |g x| ≤ ε) ∧ (∀ g ∈ lp, -ε ≤ g x) ∧ (∀ b ∈ bs, NearSoc ε (b.map (fun g => g x))) := by
  obtain ⟨r1, r2, r3⟩ := rows_eq f eqRows lp bs he hi h2 h3 x
  obtain ⟨k1, k2, k3⟩ := h
  refine ⟨fun g hg => ?_, fun g hg => ?_, fun b hb => ?_⟩
  · obtain ⟨i, hi', rfl⟩ := List.getElem_of_mem hg
    rw [← r1 i hi', abs_sub_comm]
    exact k1 i (by omega)
  · obtain ⟨i, hi', rfl⟩ := List.getElem_of_mem hg
    rw [← r2 i hi']
    linarith [k2 i (by omega)]
  · obtain ⟨i, hib, rfl⟩ := List.getElem_of_mem hb
    have := k3 i (by rw [h3]; simpa using hib)
    rw [← r3 i hib]
    convert this using 3
    simp [h3]

/-! ### cones -/

/-- The triangle inequality of the Euclidean norm of lists. -/
theorem sqrt_near (v s : List ℝ) (ε : ℝ) (h0 : 0 ≤ ε) (h : List.Forall₂ (fun a b => |a - b| ≤ ε) v s) :
    Real.sqrt ((v.map (fun a => a ^ 2)).sum) ≤ Real.sqrt ((s.map (fun a => a ^ 2)).sum) + Real.sqrt v.length * ε := by
  have hnn : ∀ l : List ℝ, 0 ≤ (l.map (fun a => a ^ 2)).sum := fun l => List.sum_nonneg (by
    intro a ha; obtain ⟨b, _, rfl⟩ := List.mem_map.1 ha; positivity)
  have key : (v.map (fun a => a ^ 2)).sum ≤ (s.map (fun a => a ^ 2)).sum +
      2 * Real.sqrt ((s.map (fun a => a ^ 2)).sum) * (Real.sqrt v.length * ε) + v.length * ε ^ 2 := by
    -- by induction on the sum of |s_i|, bounded by Cauchy-Schwarz
    have a1 : (v.map (fun a => a ^ 2)).sum ≤ (s.map (fun a => a ^ 2)).sum + 2 * ε * (s.map (fun a => |a|)).sum + v.length * ε ^ 2 := by
      induction h with
      | nil => simp
      | @cons a b v s hab h ih =>
        simp only [List.map_cons, List.sum_cons, List.length_cons, Nat.cast_add, Nat.cast_one]
        have h1 := abs_le.1 hab
        have : a ^ 2 ≤ b ^ 2 + 2 * ε * |b| + ε ^ 2 := by
          have e : a ^ 2 = b ^ 2 + 2 * b * (a - b) + (a - b) ^ 2 := by ring
          have e1 : 2 * b * (a - b) ≤ 2 * ε * |b| := by
            have := abs_mul b (a - b)
            have h2 := le_abs_self (b * (a - b))
            have h3 : |b| * |a - b| ≤ |b| * ε := mul_le_mul_of_nonneg_left hab (abs_nonneg _)
            linarith
          have e2 : (a - b) ^ 2 ≤ ε ^ 2 := sq_le_sq' h1.1 h1.2
          linarith
        linarith
    have a2 : (s.map (fun a => |a|)).sum ≤ Real.sqrt ((s.map (fun a => a ^ 2)).sum) * Real.sqrt v.length := by
      rw [← Real.sqrt_mul (hnn s)]
      apply Real.le_sqrt_of_sq_le
      rw [h.length_eq]
      clear a1 h
      have cs : ∀ l : List ℝ, ((l.map (fun a => |a|)).sum) ^ 2 ≤ (l.map (fun a => a ^ 2)).sum * l.length := by
        intro l
        induction l with
        | nil => simp
        | cons a l ih =>
          simp only [List.map_cons, List.sum_cons, List.length_cons, Nat.cast_add, Nat.cast_one]
          set A := (l.map (fun a => |a|)).sum
          set B := (l.map (fun a => a ^ 2)).sum
          have hB : 0 ≤ B := hnn l
          have hn : (0 : ℝ) ≤ l.length := Nat.cast_nonneg _
          have ha := sq_abs a
          -- 2 |a| A ≤ a² n + B
          rcases hn.eq_or_lt with h0 | hpos
          · have hl : l = [] := List.eq_nil_of_length_eq_zero (by exact_mod_cast h0.symm)
            subst hl
            simp [A, B]
          · have hm : 2 * |a| * A ≤ a ^ 2 * l.length + B := by
              have h1 : 0 ≤ (|a| * l.length - A) ^ 2 := sq_nonneg _
              have h2 : 2 * |a| * A * l.length ≤ (a ^ 2 * l.length + B) * l.length := by
                have e : (|a| * l.length - A) ^ 2 = a ^ 2 * (l.length : ℝ) ^ 2 - 2 * |a| * A * l.length + A ^ 2 := by
                  rw [sub_sq, mul_pow, ha]; ring
                rw [e] at h1
                nlinarith
              exact le_of_mul_le_mul_right h2 hpos
            nlinarith
      exact cs s
    nlinarith [Real.sqrt_nonneg ((s.map (fun a => a ^ 2)).sum), Real.sqrt_nonneg (v.length : ℝ)]
  rw [Real.sqrt_le_left (by positivity)]
  rw [add_sq, mul_pow, Real.sq_sqrt (hnn s), Real.sq_sqrt (Nat.cast_nonneg _)]
  linarith

/-- A square whose cone is met up to `ε`. -/
theorem nearSoc3 (t a ε : ℝ) (h0 : 0 ≤ ε) (h : NearSoc ε [1 + t, t - 1, 2 * a]) :
    a ^ 2 ≤ (1 + sqErr ε) * t + (sqErr ε + sqErr ε ^ 2) := by
  obtain ⟨s, hs, h⟩ := h
  match s, h with
  | [s0, s1, s2], h =>
    simp only [List.forall₂_cons, List.Forall₂.nil, and_true] at h
    obtain ⟨e0, e1, e2⟩ := h
    simp only [InSoc, List.map_cons, List.map_nil, List.sum_cons, List.sum_nil, add_zero] at hs
    have hf : List.Forall₂ (fun a b => |a - b| ≤ ε) [t - 1, 2 * a] [s1, s2] := by
      simp only [List.forall₂_cons, List.Forall₂.nil, and_true]; exact ⟨e1, e2⟩
    have hn := sqrt_near _ _ ε h0 hf
    simp only [List.map_cons, List.map_nil, List.sum_cons, List.sum_nil, add_zero, List.length_cons, List.length_nil] at hn
    have h2 : Real.sqrt ((0 + 1 + 1 : ℕ) : ℝ) ≤ 2 := by
      rw [Real.sqrt_le_left (by norm_num)]; norm_num
    have h3 : Real.sqrt ((0 + 1 + 1 : ℕ) : ℝ) * ε ≤ 2 * ε := mul_le_mul_of_nonneg_right h2 h0
    have h4 := (abs_le.1 e0).1
    have h5 : Real.sqrt ((t - 1) ^ 2 + (2 * a) ^ 2) ≤ 1 + t + 3 * ε := by linarith
    have h6 : 0 ≤ 1 + t + 3 * ε := le_trans (Real.sqrt_nonneg _) h5
    have h7 := (Real.sqrt_le_left h6).1 h5
    unfold sqErr
    nlinarith

theorem nearSoc_cons (t : ℝ) (v : List ℝ) (ε : ℝ) (h0 : 0 ≤ ε) (h : NearSoc ε (t :: v)) :
    Real.sqrt ((v.map (fun a => a ^ 2)).sum) ≤ t + (1 + Real.sqrt v.length) * ε := by
  obtain ⟨s, hs, h⟩ := h
  match s, h with
  | s0 :: s, h =>
    simp only [List.forall₂_cons] at h
    obtain ⟨e0, h⟩ := h
    have hn := sqrt_near v s ε h0 h
    have h4 := (abs_le.1 e0).1
    simp only [InSoc] at hs
    linarith

/-! ### stored constraints -/

/-- All stored constraints hold at `x` up to `ε`. -/
def Problem.NearSem (p : Problem ℝ) (ε : ℝ) (x0 : Nat → ℝ) (thr : ℝ) (warm : Bool) (x : Nat → ℝ) : Prop :=
  (∀ e ∈ p.leq, |e.getValue x| ≤ ε) ∧ (∀ e ∈ p.lineq, e.getValue x ≤ ε) ∧
  (∀ q ∈ p.qineq, sumSq q.quad x ≤ (1 + sqErr ε) * (-q.lin.getValue x + ε) + (sqErr ε + sqErr ε ^ 2) * (q.quad.map (·.1)).sum ∧
    (q.trust = true → warm = false → tangent q.quad x0 x + q.lin.getValue x ≥ -thr - ε)) ∧
  (∀ q ∈ p.soc, Real.sqrt ((q.quad.map (fun t => (t.2.getValue x) ^ 2)).sum) + q.lin.getValue x ≤ (2 + Real.sqrt q.quad.length) * ε)

theorem nearSem_step (st : ApiState) (op : Op) (hok : op.Ok st.user) (ε : ℝ) (x0 thr warm x) :
    (st.step op).p.NearSem ε x0 thr warm x ↔ st.p.NearSem ε x0 thr warm x ∧ op.NearlyHolds ε x0 thr warm x := by
  unfold Problem.NearSem
  cases op with
  | addVar ty lb ub g =>
    obtain ⟨h1, h2, h3, h4, _⟩ := step_addVar st ty lb ub g
    simp only [h1, h2, h3, h4, Op.NearlyHolds, and_true]
  | addLin l s r =>
    obtain ⟨h3, h4, _, _, _⟩ := step_addLin st l s r
    obtain ⟨_, _, hs⟩ := hok
    simp only [h3, h4]
    rcases hs with rfl | rfl | rfl
    · have e1 : (st.step (.addLin l "=" r)).p.leq = st.p.leq ++ [l.sub r] := by
        simp [ApiState.step, Problem.addLinConstr]
      have e2 : (st.step (.addLin l "=" r)).p.lineq = st.p.lineq := by
        simp [ApiState.step, Problem.addLinConstr]
      rw [e1, e2, forall_mem_concat, getValue_sub]
      simp only [Op.NearlyHolds, if_true]
      tauto
    · have e1 : (st.step (.addLin l "<" r)).p.leq = st.p.leq := by
        simp [ApiState.step, Problem.addLinConstr]
      have e2 : (st.step (.addLin l "<" r)).p.lineq = st.p.lineq ++ [l.sub r] := by
        simp [ApiState.step, Problem.addLinConstr]
      rw [e1, e2, forall_mem_concat, getValue_sub]
      simp only [Op.NearlyHolds, if_true, show ¬ (("<" : String) = "=") by decide, if_false, sub_le_iff_le_add']
      tauto
    · have e1 : (st.step (.addLin l ">" r)).p.leq = st.p.leq := by
        simp [ApiState.step, Problem.addLinConstr]
      have e2 : (st.step (.addLin l ">" r)).p.lineq = st.p.lineq ++ [r.sub l] := by
        simp [ApiState.step, Problem.addLinConstr]
      rw [e1, e2, forall_mem_concat, getValue_sub]
      simp only [Op.NearlyHolds, show ¬ ((">" : String) = "=") by decide, show ¬ ((">" : String) = "<") by decide,
        if_false, ge_iff_le]
      rw [sub_le_comm]
      tauto
  | addQua q s l ap =>
    obtain ⟨_, _, rfl⟩ := hok
    obtain ⟨h1, h2, h3, _, _, ex, h4⟩ := step_addQua st q l ap
    rw [h1, h2, h3, h4, forall_mem_concat, getValue_sub]
    simp only [Op.NearlyHolds, decide_eq_true_eq, neg_sub, add_sub_assoc]
    tauto
  | addSoc q s l =>
    obtain ⟨_, _, rfl⟩ := hok
    obtain ⟨h1, h2, h3, _, _, ex, h4⟩ := step_addSoc st q l
    rw [h1, h2, h3, h4, forall_mem_concat, getValue_sub]
    simp only [Op.NearlyHolds]
    rw [← add_sub_assoc, sub_le_iff_le_add']
    tauto
  | setObj q l =>
    obtain ⟨h1, h2, h3, h4, _⟩ := step_setObj st q l
    simp only [h1, h2, h3, h4, Op.NearlyHolds, and_true]

theorem nearSem_run (ops : List Op) (ε : ℝ) (x0 thr warm x) : ∀ st : ApiState, st.AllOk ops →
    ((st.run ops).p.NearSem ε x0 thr warm x ↔ st.p.NearSem ε x0 thr warm x ∧ ∀ op ∈ ops, op.NearlyHolds ε x0 thr warm x) := by
  induction ops with
  | nil => intro st _; simp [ApiState.run]
  | cons op ops ih =>
    intro st h
    have := ih (st.step op) h.2
    rw [show st.run (op :: ops) = (st.step op).run ops from rfl, this, nearSem_step st op h.1]
    simp only [List.mem_cons, forall_eq_or_imp]
    tauto

theorem sum_zip_near {l : List (ℝ × LinExpr ℝ)} {ex : List Nat} {x : Nat → ℝ} (A B : ℝ)
    (hw : ∀ t ∈ l, 0 ≤ t.1) (hlen : l.length ≤ ex.length)
    (h : ∀ t ∈ ex.zip (l.map Prod.snd), (t.2.getValue x) ^ 2 ≤ A * x t.1 + B) :
    sumSq l x ≤ A * ((l.zip ex).map (fun t => t.1.1 * x t.2)).sum + B * (l.map (·.1)).sum := by
  induction l generalizing ex with
  | nil => simp [sumSq]
  | cons a as ih =>
    cases ex with
    | nil => simp at hlen
    | cons e es =>
      have h1 := ih (ex := es) (fun t ht => hw t (by simp [ht])) (by simpa using hlen)
        (fun t ht => h t (by simp [ht]))
      have h2 := h (e, a.2) (by simp)
      have h3 := hw a (by simp)
      simp only [sumSq, List.map_cons, List.sum_cons, List.zip_cons_cons] at h1 ⊢
      have := mul_le_mul_of_nonneg_left h2 h3
      simp only at this
      linarith

/-- A point that satisfies the standard form up to `ε`, in terms of the stored constraints. -/
theorem nearly_stored (p : Problem ℝ) (hp : p.WF) (x0) (thr w : ℝ) (warm : Bool) (f : StdForm ℝ)
    (hf : p.build x0 thr w warm = some f) (ε : ℝ) (h0 : 0 ≤ ε) (x : Nat → ℝ) (h : f.Nearly ε x) :
      (∀ e ∈ p.leq, |Rows.lin e x| ≤ ε) ∧ (∀ v ∈ p.bins, -ε ≤ x v ∧ x v ≤ 1 + ε) ∧ (∀ e ∈ p.lineq, -ε ≤ Rows.lin e x) ∧
      (∀ q ∈ p.qineq, -ε ≤ Rows.qlin q x) ∧ (∀ q ∈ p.soc, -ε ≤ Rows.socLin q x) ∧
      (warm = false → ∀ q ∈ p.qineq, q.trust → -ε ≤ Rows.trust x0 thr q x) ∧
      (∀ t ∈ p.obj.extra.zip (p.obj.quad.map Prod.snd), (t.2.getValue x) ^ 2 ≤ (1 + sqErr ε) * x t.1 + (sqErr ε + sqErr ε ^ 2)) ∧
      (warm = false → ∀ q ∈ p.qineq, q.soft → (Rows.linearisation q x0 x) ^ 2 ≤
        (1 + sqErr ε) * x (q.extra.getLastD 0) + (sqErr ε + sqErr ε ^ 2)) ∧
      (∀ q ∈ p.qineq, ∀ t ∈ q.extra.zip (q.quad.map Prod.snd), (t.2.getValue x) ^ 2 ≤ (1 + sqErr ε) * x t.1 + (sqErr ε + sqErr ε ^ 2)) ∧
      (∀ q ∈ p.soc, Real.sqrt ((q.quad.map (fun t => (t.2.getValue x) ^ 2)).sum) ≤
        x (q.extra.headD 0) + (1 + Real.sqrt q.quad.length) * ε) := by
  rw [build_some p hp.shape] at hf
  have hf := (Option.some.inj hf).symm
  have he : Ext Sys.zero f.eq 0 (p.leq.flatMap (fun e => [Rows.lin e])) := by
    have := Ext.forIdx (eqBody (K := ℝ)) (fun e => [Rows.lin e]) 1 0 p.leq (by simp)
      (fun i a _ s hs => Rows.ext_eq i a s hs) 0 Sys.zero (fun r _ => fresh_zero r)
    rw [hf]; simpa using this
  have hi : Ext Sys.zero f.ineq 0 (p.lpRows x0 thr warm ++ (p.blocks x0 warm).flatten) := by
    rw [hf]; exact buildIneq_ext p hp.shape x0 thr warm
  obtain ⟨k1, k2, k3⟩ := nearly_rows f _ _ _ he hi (by rw [hf, flatMap_single_length]) (by rw [hf, lpRows_length p hp.shape])
    (by rw [hf, coneSizes_eq p hp.shape x0]) ε x h
  unfold Problem.lpRows at k2
  unfold Problem.blocks at k3
  rw [List.forall_mem_append, List.forall_mem_append, List.forall_mem_append, List.forall_mem_append] at k2
  rw [List.forall_mem_append, List.forall_mem_append, List.forall_mem_append] at k3
  obtain ⟨⟨⟨⟨a1, a2⟩, a3⟩, a4⟩, a5⟩ := k2
  obtain ⟨⟨⟨b1, b2⟩, b3⟩, b4⟩ := k3
  refine ⟨fun e he' => k1 _ (List.mem_flatMap.2 ⟨e, he', by simp⟩), fun v hv => ?_,
    fun e he' => a2 _ (List.mem_flatMap.2 ⟨e, he', by simp⟩), fun q hq => a3 _ (List.mem_flatMap.2 ⟨q, hq, by simp⟩),
    fun q hq => a4 _ (List.mem_flatMap.2 ⟨q, hq, by simp⟩), fun hw q hq ht => ?_, fun t ht => ?_, fun hw q hq hs => ?_,
    fun q hq t ht => ?_, fun q hq => ?_⟩
  · rw [hp.lo, hp.up, List.zip_replicate'] at a1
    have hz : p.bins.zip (List.replicate p.bins.length ((0 : ℝ), (1 : ℝ))) = p.bins.map (fun v => (v, 0, 1)) := by
      induction p.bins with
      | nil => rfl
      | cons a as ih => simp [List.replicate_succ, ih]
    rw [hz] at a1
    have hm : ∀ g ∈ Rows.bin ((v, 0, 1) : Nat × ℝ × ℝ), -ε ≤ g x := fun g hg =>
      a1 g (List.mem_flatMap.2 ⟨_, List.mem_map_of_mem hv, hg⟩)
    have g1 := hm (fun x => 0 + x v) (by simp [Rows.bin])
    have g2 := hm (fun x => 1 - x v) (by simp [Rows.bin])
    constructor <;> linarith
  · rw [hw] at a5
    simp only [Bool.false_eq_true, if_false] at a5
    exact a5 _ (List.mem_flatMap.2 ⟨q, List.mem_filter.2 ⟨hq, ht⟩, by simp⟩)
  · exact nearSoc3 _ _ ε h0 (b1 _ (List.mem_map_of_mem ht))
  · rw [hw] at b2
    simp only [Bool.false_eq_true, if_false] at b2
    exact nearSoc3 _ _ ε h0 (b2 _ (List.mem_map_of_mem (List.mem_filter.2 ⟨hq, hs⟩)))
  · exact nearSoc3 _ _ ε h0 (b3 _ (List.mem_flatMap.2 ⟨q, hq, List.mem_map_of_mem ht⟩))
  · have := nearSoc_cons _ _ ε h0 (b4 _ (List.mem_map_of_mem hq))
    simpa [Rows.socCone, Function.comp_def] using this

theorem sqErr_nonneg {ε : ℝ} (h : 0 ≤ ε) : 0 ≤ sqErr ε := by unfold sqErr; positivity

theorem nearly_sem (p : Problem ℝ) (hp : p.WF) (hr : p.Reg) (x0) (thr w : ℝ) (warm : Bool) (f : StdForm ℝ)
    (hf : p.build x0 thr w warm = some f) (ε : ℝ) (h0 : 0 ≤ ε) (x : Nat → ℝ) (h : f.Nearly ε x) : p.NearSem ε x0 thr warm x := by
  obtain ⟨h1, h2, h3, h4, h5, h6, h7, h8, h9, h10⟩ := nearly_stored p hp x0 thr w warm f hf ε h0 x h
  refine ⟨fun e he => ?_, fun e he => ?_, fun q hq => ⟨?_, ?_⟩, fun q hq => ?_⟩
  · have := h1 e he
    rwa [Rows.lin, if_neg (hr.1 e he), abs_neg] at this
  · have := h3 e he
    rw [Rows.lin, if_neg (hr.2.1 e he)] at this; linarith
  · have h := h4 q hq
    have hl : q.quad.length ≤ q.extra.length := by rw [hp.qi q hq]; omega
    have hs := sum_zip_near _ _ (hr.2.2 q hq) hl (h9 q hq)
    rw [Rows.qlin] at h
    refine hs.trans ?_
    have hk : 0 ≤ 1 + sqErr ε := by have := sqErr_nonneg h0; linarith
    have := mul_le_mul_of_nonneg_left (show ((q.quad.zip q.extra).map (fun t => t.1.1 * x t.2)).sum ≤ -q.lin.getValue x + ε by linarith) hk
    linarith
  · intro ht hwm
    have := h6 hwm q hq ht
    rw [Rows.trust, linearisation_eq] at this
    linarith
  · have h := h5 q hq
    have := h10 q hq
    rw [Rows.socLin] at h
    linarith

end Verif
