import Verif.IPFloatProps
import Mathlib.Tactic.NormNum

/-! Runs of the interior-point model in floating-point arithmetic: non-vacuity of C271-C273 and the violations. -/
namespace Verif
namespace IPF
open LbfgsF Cone

section witness
variable {R : EReal → EReal} (h : Rounding R)

/-- The floating-point number `n`. -/
noncomputable def int (n : ℤ) : FP R := v h (8 * n)

variable {h} (hR : Exact R)
include hR

theorem int_add {n m : ℤ} (hn : n.natAbs ≤ 8) (hm : m.natAbs ≤ 8) : (arith h).add (int h n) (int h m) = int h (n + m) := by
  unfold int
  rw [v_add hR (by omega) (by omega)]
  congr 1; ring

theorem int_sub {n m : ℤ} (hn : n.natAbs ≤ 8) (hm : m.natAbs ≤ 8) : (arith h).sub (int h n) (int h m) = int h (n - m) := by
  unfold int
  rw [v_sub hR (by omega) (by omega)]
  congr 1; ring

theorem int_mul {n m : ℤ} (hn : n.natAbs ≤ 8) (hm : m.natAbs ≤ 8) : (arith h).mul (int h n) (int h m) = int h (n * m) := by
  unfold int
  exact v_mul hR (by omega) (by omega) (by ring)

theorem int_neg {n : ℤ} (hn : n.natAbs ≤ 8) : (arith h).neg (int h n) = int h (-n) := by
  unfold int
  rw [v_neg hR (by omega)]
  congr 1; ring

theorem zero_div {m : ℤ} (hm : m.natAbs ≤ 8) (h0 : m ≠ 0) : (arith h).div (int h 0) (int h m) = int h 0 := by
  unfold int
  exact v_div hR (by omega) (by omega) (by omega) (by ring)

theorem div_one {n : ℤ} (hn : n.natAbs ≤ 8) : (arith h).div (int h n) (int h 1) = int h n := by
  unfold int
  exact v_div hR (by omega) (by omega) (by omega) (by ring)

theorem sqrt_zero : (arith h).sqrt (int h 0) = int h 0 := by
  unfold int
  exact v_sqrt hR (by omega) (by omega) (by ring)

theorem sqrt_one : (arith h).sqrt (int h 1) = int h 1 := by
  unfold int
  exact v_sqrt hR (by omega) (by omega) (by ring)

theorem int_lt {n m : ℤ} (hn : n.natAbs ≤ 8) (hm : m.natAbs ≤ 8) : (arith h).lt (int h n) (int h m) = decide (n < m) := by
  unfold int
  rw [v_lt hR (by omega) (by omega)]
  exact decide_eq_decide.mpr (by omega)

theorem int_le {n m : ℤ} (hn : n.natAbs ≤ 8) (hm : m.natAbs ≤ 8) : (arith h).le (int h n) (int h m) = decide (n ≤ m) := by
  unfold int
  rw [v_le hR (by omega) (by omega)]
  exact decide_eq_decide.mpr (by omega)

omit hR in
theorem lit_int (q : ℚ) (n : ℤ) (e : q = n) : (arith h).lit q = int h n := v_lit q _ (by rw [e]; push_cast; ring)

theorem int_eq {n m : ℤ} (hn : n.natAbs ≤ 8) (hm : m.natAbs ≤ 8) (hnm : n ≠ m) : (arith h).eq (int h n) (int h m) = false := by
  unfold int
  rw [v_val hR (by omega), v_val hR (by omega)]
  refine (cmp_vv _ _ _).trans ?_
  rw [decide_eq_false_iff_not]
  intro e
  have := EReal.coe_eq_coe_iff.mp e
  have : (n : ℝ) = m := by push_cast at this; linarith
  exact hnm (by exact_mod_cast this)

omit hR in
theorem eq_self (q : ℚ) : (arith h).eq ((arith h).lit q) ((arith h).lit q) = true := by
  show LbfgsF.cmp _ (LbfgsF.mk h _) (LbfgsF.mk h _) = true
  unfold LbfgsF.mk
  simp [LbfgsF.cmp]

end witness

/-- The cone of the examples: one variable, no equality, one linear inequality. -/
def k1 : Cone := ⟨1, 0, 1, []⟩

section run
variable {R : EReal → EReal} (h : Rounding R)

/-- The problem `min -x` subject to `x <= h0`. -/
noncomputable def lp (h0 : FP R) : Data (FP R) := ⟨[[]], [[(0, int h 1)]], fun _ => int h (-1), fun _ => int h 0, fun _ => h0⟩

/-- The point `x = 1`, `z = 1`, `s = 0`, `tau = 1`, `kappa = 0`: the solution for `h0 = 1`. -/
noncomputable def o1 : Pt (FP R) := ⟨fun _ => int h 1, fun _ => int h 0, fun _ => int h 1, fun _ => int h 0, int h 1, int h 0⟩

/-- Settings with feasibility tolerance `ft` and reduced feasibility tolerance 1; the largest step is 1. -/
noncomputable def g1 (ft : ℤ) (M : Int) : Stg (FP R) :=
  ⟨int h ft, int h 1, int h 2, int h 1, int h 1, int h 2, int h 1, int h 0, int h 1, int h 1, int h 1, M⟩

/-- A linear solver that starts at `o1` and answers NaN to everything else. -/
noncomputable def orc1 : Orc (FP R) :=
  ⟨o1 h, fun _ => true, fun _ _ => ⟨⟨fun _ => .nan, fun _ => .nan, fun _ => .nan, fun _ => .nan, .nan, .nan⟩, fun _ => .nan, fun _ => .nan, fun _ => .nan⟩⟩

/-- Left over from nothing. -/
noncomputable def old1 : Pt (FP R) × Info (FP R) :=
  (o1 h, ⟨int h 0, int h 0, int h 0, int h 0, int h 0, int h 0, int h 0, int h 0, int h 0, int h 0⟩)

variable {h} (hR : Exact R)
include hR

/-- The numbers at `o1`. -/
theorem o1_stats (h0 : FP R) (ft : ℤ) (M : Int)
    (hc : @coneRes _ (arith h) k1 (lp h h0) (o1 h) (@computeResiduals _ (arith h) k1 (lp h h0) (o1 h)) = int h 0 ∨
      ¬ @Num _ (arith h) (@coneRes _ (arith h) k1 (lp h h0) (o1 h) (@computeResiduals _ (arith h) k1 (lp h h0) (o1 h)))) :
    letI := arith h
    let r := computeResiduals k1 (lp h h0) (o1 h)
    let i := updateStatistics k1 (g1 h ft M) (lp h h0) (o1 h) r
    r.cx = int h (-1) ∧ i.pres = int h 0 ∧ i.dres = int h 0 ∧ i.gap = int h 0 ∧ i.dinf = nanv := by
  letI := arith h
  have z0 : (c 0 : FP R) = int h 0 := lit_int 0 0 (by norm_num)
  have z1 : (c 1 : FP R) = int h 1 := lit_int 1 1 (by norm_num)
  have hcx : (computeResiduals k1 (lp h h0) (o1 h)).cx = int h (-1) := by
    show (c 0 : FP R) +. int h (-1) *. int h 1 = _
    rw [z0, int_mul hR (by decide) (by decide), int_add hR (by decide) (by decide)]
    rfl
  have n0 : ∀ (v : Nat → FP R) , norm 0 v = int h 0 := fun v => by
    show Arith.sqrt (c 0 : FP R) = _
    rw [z0, sqrt_zero hR]
  have n1 : ∀ (v : Nat → FP R) (n : ℤ), n * n = 1 → n.natAbs ≤ 8 → v 0 = int h n → norm 1 v = int h 1 := fun v n e hn hv => by
    show Arith.sqrt ((c 0 : FP R) +. v 0 *. v 0) = _
    rw [z0, hv, int_mul hR hn hn, e, int_add hR (by decide) (by decide)]
    exact sqrt_one hR
  have n10 : ∀ (v : Nat → FP R), v 0 = int h 0 → norm 1 v = int h 0 := fun v hv => by
    show Arith.sqrt ((c 0 : FP R) +. v 0 *. v 0) = _
    rw [z0, hv, int_mul hR (by decide) (by decide), int_add hR (by decide) (by decide)]
    exact sqrt_zero hR
  have mx : ∀ n m : ℤ, n.natAbs ≤ 8 → m.natAbs ≤ 8 → fmax (int h n) (int h m) = (int h (max n m) : FP R) := fun n m hn hm => by
    unfold fmax
    rw [int_lt hR hn hm]
    by_cases hnm : n < m
    · simp only [hnm, decide_true, if_true, max_eq_right hnm.le]
    · simp only [hnm, decide_false, Bool.false_eq_true, if_false, max_eq_left (_root_.not_lt.mp hnm)]
  have heq : eqRes k1 (lp h h0) (o1 h) (computeResiduals k1 (lp h h0) (o1 h)) = int h 0 := by
    show norm 0 _ /. fmax (fmax (c 1) (norm 0 _) +. norm 1 _) (c 1) = _
    rw [n0, n0, n1 _ 1 (by norm_num) (by decide) rfl, z1, mx 1 0 (by decide) (by decide), int_add hR (by decide) (by decide), mx _ _ (by decide) (by decide)]
    exact zero_div hR (by decide) (by decide)
  have hrx : (computeResiduals k1 (lp h h0) (o1 h)).x 0 = int h 0 := by
    show ((c 0 : FP R) -. int h 1 *. int h 1) -. int h 1 *. int h (-1) = _
    rw [z0, int_mul hR (by decide) (by decide), int_mul hR (by decide) (by decide), int_sub hR (by decide) (by decide), int_sub hR (by decide) (by decide)]
    rfl
  refine ⟨hcx, ?_, ?_, ?_, ?_⟩
  · show fmax (eqRes _ _ _ _) (coneRes _ _ _ _) /. int h 1 = _
    rw [heq]
    rcases hc with hc | hc
    · rw [hc, mx 0 0 (by decide) (by decide)]
      exact zero_div hR (by decide) (by decide)
    · rw [fmax_snd (ieee_round h) hc]
      exact zero_div hR (by decide) (by decide)
  · show norm 1 _ /. fmax (fmax (c 1) (norm 1 _) +. norm 0 _ +. norm 1 _) (c 1) /. int h 1 = _
    rw [n10 _ hrx, n0, n1 (lp h h0).c (-1) (by norm_num) (by decide) rfl, n1 (o1 h).z 1 (by norm_num) (by decide) rfl, z1,
      mx 1 1 (by decide) (by decide), int_add hR (by decide) (by decide), int_add hR (by decide) (by decide), mx _ _ (by decide) (by decide),
      zero_div hR (by decide) (by decide)]
    exact zero_div hR (by decide) (by decide)
  · show (c 0 : FP R) +. int h 0 *. int h 1 = _
    rw [z0, int_mul hR (by decide) (by decide), int_add hR (by decide) (by decide)]
    rfl
  · refine if_neg ?_
    show ¬ ((computeResiduals k1 (lp h h0) (o1 h)).cx /. fmax (norm 1 _) (c 1) <. Arith.neg (int h 2)) = true
    rw [hcx, n1 _ 1 (by norm_num) (by decide) rfl, z1, mx 1 1 (by decide) (by decide), int_neg hR (by decide)]
    rw [show (int h (max 1 1) : FP R) = int h 1 from rfl, div_one hR (by decide), int_lt hR (by decide) (by decide)]
    decide

/-- With a positive tolerance the method answers `Optimal` at `o1` if the residual of the inequality is zero or not a number. -/
theorem run_optimal (h0 : FP R)
    (hc : @coneRes _ (arith h) k1 (lp h h0) (o1 h) (@computeResiduals _ (arith h) k1 (lp h h0) (o1 h)) = int h 0 ∨
      ¬ @Num _ (arith h) (@coneRes _ (arith h) k1 (lp h h0) (o1 h) (@computeResiduals _ (arith h) k1 (lp h h0) (o1 h)))) :
    letI := arith h
    let q := (optimize k1 (g1 h 1 1) (lp h h0) (orc1 h) (old1 h) (o1 h) (old1 h).2).1
    q.code = .optimal ∧ q.opt = o1 h := by
  letI := arith h
  obtain ⟨h1, h2, h3, h4, _⟩ := o1_stats hR h0 1 1 hc
  have z0 : (c 0 : FP R) = int h 0 := lit_int 0 0 (by norm_num)
  have hcheck : convergenceCheck (g1 h 1 1) true (computeResiduals k1 (lp h h0) (o1 h))
      (updateStatistics k1 (g1 h 1 1) (lp h h0) (o1 h) (computeResiduals k1 (lp h h0) (o1 h))) (o1 h) = .optimal := by
    unfold convergenceCheck
    simp only [if_true]
    rw [if_pos]
    rw [h1, h2, h3, h4, z0]
    refine ⟨Or.inl ?_, ⟨?_, ?_⟩, Or.inl ?_⟩
    · rw [int_lt hR (by decide) (by decide)]; decide
    all_goals
      show (arith h).lt (int h 0) (int h 1) = true
      rw [int_lt hR (by decide) (by decide)]; decide
  have hb : body k1 (g1 h 1 1) (lp h h0) (orc1 h) 0 (start (orc1 h) (old1 h)) =
      .stop ⟨.optimal, o1 h, true, updateStatistics k1 (g1 h 1 1) (lp h h0) (o1 h) (computeResiduals k1 (lp h h0) (o1 h)), 0, c 0⟩ := by
    unfold body
    simp only [gt_iff_lt, lt_irrefl, false_and, if_false]
    rw [show (start (orc1 h) (old1 h)).opt = o1 h from rfl, hcheck]
    rfl
  show (optimize k1 (g1 h 1 1) (lp h h0) (orc1 h) (old1 h) (o1 h) (old1 h).2).1.code = _ ∧ (optimize k1 (g1 h 1 1) (lp h h0) (orc1 h) (old1 h) (o1 h) (old1 h).2).1.opt = _
  unfold optimize
  rw [if_pos (show (orc1 h).fact 0 = true from rfl)]
  show (loop k1 (g1 h 1 1) (lp h h0) (orc1 h) 2 0 _ _).1.code = _ ∧ (loop k1 (g1 h 1 1) (lp h h0) (orc1 h) 2 0 _ _).1.opt = _
  unfold loop
  rw [hb]
  exact ⟨rfl, rfl⟩

/-- The residual of the inequality at `o1` for the right-hand side 1. -/
theorem coneRes_one : letI := arith h; coneRes k1 (lp h (int h 1)) (o1 h) (computeResiduals k1 (lp h (int h 1)) (o1 h)) = int h 0 := by
  letI := arith h
  have z0 : (c 0 : FP R) = int h 0 := lit_int 0 0 (by norm_num)
  have z1 : (c 1 : FP R) = int h 1 := lit_int 1 1 (by norm_num)
  have hz : (computeResiduals k1 (lp h (int h 1)) (o1 h)).z 0 = int h 0 := by
    show (((c 0 : FP R) +. int h 1 *. int h 1) +. int h 0) -. int h 1 *. int h 1 = _
    rw [z0, int_mul hR (by decide) (by decide), int_add hR (by decide) (by decide), int_add hR (by decide) (by decide), int_sub hR (by decide) (by decide)]
    rfl
  have hn : norm 1 (computeResiduals k1 (lp h (int h 1)) (o1 h)).z = int h 0 := by
    show Arith.sqrt ((c 0 : FP R) +. (computeResiduals k1 (lp h (int h 1)) (o1 h)).z 0 *. (computeResiduals k1 (lp h (int h 1)) (o1 h)).z 0) = _
    rw [hz, z0, int_mul hR (by decide) (by decide), int_add hR (by decide) (by decide)]
    exact sqrt_zero hR
  have e1 : norm 1 (fun _ => int h 1) = (int h 1 : FP R) := by
    show Arith.sqrt ((c 0 : FP R) +. int h 1 *. int h 1) = _
    rw [z0, int_mul hR (by decide) (by decide), int_add hR (by decide) (by decide)]
    exact sqrt_one hR
  have e0 : norm 1 (fun _ => int h 0) = (int h 0 : FP R) := by
    show Arith.sqrt ((c 0 : FP R) +. int h 0 *. int h 0) = _
    rw [z0, int_mul hR (by decide) (by decide), int_add hR (by decide) (by decide)]
    exact sqrt_zero hR
  show norm 1 (computeResiduals k1 (lp h (int h 1)) (o1 h)).z /. fmax (fmax (c 1) (norm 1 (fun _ => int h 1)) +. norm 1 (fun _ => int h 1) +.
    norm 1 (fun _ => int h 0)) (c 1) = _
  rw [hn, e1, e0, z1]
  have m1 : fmax (int h 1) (int h 1) = (int h 1 : FP R) := by unfold fmax; split <;> rfl
  rw [m1, int_add hR (by decide) (by decide), int_add hR (by decide) (by decide)]
  have m2 : fmax (int h (1 + 1 + 0)) (int h 1) = (int h 2 : FP R) := by
    unfold fmax; rw [int_lt hR (by decide) (by decide)]; rfl
  rw [m2]
  exact zero_div hR (by decide) (by decide)

omit hR in
/-- An operation on two values, evaluated. -/
theorem lift2_eq (op : EReal → EReal → Option EReal) {a b d : EReal} (ha : R a = a) (hb : R b = b) (hd : R d = d) (e : op a b = some d) :
    lift2 h op (.val ⟨a, ha⟩) (.val ⟨b, hb⟩) = .val ⟨d, hd⟩ := by
  show (op a b).elim FP.nan (LbfgsF.mk h) = _
  rw [e]
  show LbfgsF.mk h d = _
  unfold LbfgsF.mk
  congr 2

/-- The residual of the inequality at `o1` for a right-hand side that is NaN or infinite is not a number. -/
theorem coneRes_bad (h0 : FP R) (hb : h0 = .nan ∨ (R ⊥ = ⊥ ∧ ∃ ht : R ⊤ = ⊤, h0 = .val ⟨⊤, ht⟩)) :
    letI := arith h; ¬ Num (coneRes k1 (lp h h0) (o1 h) (computeResiduals k1 (lp h h0) (o1 h))) := by
  letI := arith h
  have I : Ieee (FP R) := ieee_round h
  have z0 : (c 0 : FP R) = int h 0 := lit_int 0 0 (by norm_num)
  have z1 : (c 1 : FP R) = int h 1 := lit_int 1 1 (by norm_num)
  intro hn
  obtain ⟨hz, hd⟩ := I.div_num _ _ hn
  have hz0 : Num ((computeResiduals k1 (lp h h0) (o1 h)).z 0) := norm_num I hz 0 (by decide)
  rcases hb with rfl | ⟨hbot, ht, rfl⟩
  · exact absurd (I.mul_num _ _ (I.sub_num _ _ hz0).2).2 fun h => by cases h
  · have r0 : R ((0 : ℝ) : EReal) = ((0 : ℝ) : EReal) := by rw [EReal.coe_zero]; exact h.zero
    have r1 : R ((1 : ℝ) : EReal) = ((1 : ℝ) : EReal) := by rw [EReal.coe_one]; exact h.one
    have i0 : (int h 0 : FP R) = .val ⟨((0 : ℝ) : EReal), r0⟩ := by
      unfold int v LbfgsF.mk; congr 2; simp [h.zero]
    have i1 : (int h 1 : FP R) = .val ⟨((1 : ℝ) : EReal), r1⟩ := by
      unfold int v LbfgsF.mk; congr 2; norm_num [h.one]
    have mt : (arith h).mul (FP.val ⟨((1 : ℝ) : EReal), r1⟩) (FP.val ⟨⊤, ht⟩) = .val ⟨⊤, ht⟩ :=
      lift2_eq _ r1 ht ht (by unfold exMul; rw [if_neg (by simp [-EReal.coe_one])]; simp only [EReal.coe_one, one_mul])
    have st : (arith h).sub (FP.val ⟨((1 : ℝ) : EReal), r1⟩) (FP.val ⟨⊤, ht⟩) = .val ⟨⊥, hbot⟩ :=
      lift2_eq _ r1 ht hbot (by unfold exAdd; rw [if_neg (by simp [-EReal.coe_one])]; rfl)
    have bb : (arith h).mul (FP.val ⟨⊥, hbot⟩) (FP.val ⟨⊥, hbot⟩) = .val ⟨⊤, ht⟩ :=
      lift2_eq _ hbot hbot ht (by unfold exMul; rw [if_neg (by simp [-EReal.coe_one])]; rfl)
    have tt : (arith h).mul (FP.val ⟨⊤, ht⟩) (FP.val ⟨⊤, ht⟩) = .val ⟨⊤, ht⟩ :=
      lift2_eq _ ht ht ht (by unfold exMul; rw [if_neg (by simp [-EReal.coe_one])]; rfl)
    have zt : (arith h).add (FP.val ⟨((0 : ℝ) : EReal), r0⟩) (FP.val ⟨⊤, ht⟩) = .val ⟨⊤, ht⟩ :=
      lift2_eq _ r0 ht ht (by unfold exAdd; rw [if_neg (by simp [-EReal.coe_one])]; rw [EReal.coe_add_top])
    have t1 : (arith h).add (FP.val ⟨⊤, ht⟩) (FP.val ⟨((1 : ℝ) : EReal), r1⟩) = .val ⟨⊤, ht⟩ :=
      lift2_eq _ ht r1 ht (by unfold exAdd; rw [if_neg (by simp [-EReal.coe_one])]; rw [EReal.top_add_coe])
    have t0 : (arith h).add (FP.val ⟨⊤, ht⟩) (FP.val ⟨((0 : ℝ) : EReal), r0⟩) = .val ⟨⊤, ht⟩ :=
      lift2_eq _ ht r0 ht (by unfold exAdd; rw [if_neg (by simp [-EReal.coe_one])]; rw [EReal.top_add_coe])
    have sq : (arith h).sqrt (FP.val ⟨⊤, ht⟩) = .val ⟨⊤, ht⟩ := by
      show (exSqrt ⊤).elim FP.nan (LbfgsF.mk h) = _
      unfold exSqrt
      rw [if_neg (by simp), if_pos rfl]
      show LbfgsF.mk h ⊤ = _
      unfold LbfgsF.mk; congr 2
    have mx1 : fmax (FP.val ⟨((1 : ℝ) : EReal), r1⟩) (FP.val ⟨⊤, ht⟩) = (.val ⟨⊤, ht⟩ : FP R) := by
      unfold fmax; split <;> rename_i hh
      · rfl
      · exact absurd (show LbfgsF.cmp (· < ·) _ _ = true by simp [LbfgsF.cmp, -EReal.coe_one]) hh
    have mx2 : fmax (FP.val ⟨⊤, ht⟩) (FP.val ⟨((1 : ℝ) : EReal), r1⟩) = (.val ⟨⊤, ht⟩ : FP R) := by
      unfold fmax; split <;> rename_i hh
      · have hh : LbfgsF.cmp (· < ·) (FP.val ⟨⊤, ht⟩ : FP R) (FP.val ⟨((1 : ℝ) : EReal), r1⟩) = true := hh
        simp [LbfgsF.cmp] at hh
      · rfl
    have hrz : (computeResiduals k1 (lp h (.val ⟨⊤, ht⟩)) (o1 h)).z 0 = .val ⟨⊥, hbot⟩ := by
      show (((c 0 : FP R) +. int h 1 *. int h 1) +. int h 0) -. int h 1 *. FP.val ⟨⊤, ht⟩ = _
      rw [z0, int_mul hR (by decide) (by decide), int_add hR (by decide) (by decide), int_add hR (by decide) (by decide)]
      rw [show (int h (0 + 1 * 1 + 0) : FP R) = int h 1 from rfl, i1, mt, st]
    have hnz : norm 1 (computeResiduals k1 (lp h (.val ⟨⊤, ht⟩)) (o1 h)).z = .val ⟨⊤, ht⟩ := by
      show Arith.sqrt ((c 0 : FP R) +. (computeResiduals k1 (lp h (.val ⟨⊤, ht⟩)) (o1 h)).z 0 *. (computeResiduals k1 (lp h (.val ⟨⊤, ht⟩)) (o1 h)).z 0) = _
      rw [hrz, z0, bb, i0, zt, sq]
    have hnh : norm 1 (lp h (.val ⟨⊤, ht⟩)).h = .val ⟨⊤, ht⟩ := by
      show Arith.sqrt ((c 0 : FP R) +. FP.val ⟨⊤, ht⟩ *. FP.val ⟨⊤, ht⟩) = _
      rw [tt, z0, i0, zt, sq]
    have e1 : norm 1 (o1 h).x = (int h 1 : FP R) := by
      show Arith.sqrt ((c 0 : FP R) +. int h 1 *. int h 1) = _
      rw [z0, int_mul hR (by decide) (by decide), int_add hR (by decide) (by decide)]
      exact sqrt_one hR
    have e0 : norm 1 (o1 h).s = (int h 0 : FP R) := by
      show Arith.sqrt ((c 0 : FP R) +. int h 0 *. int h 0) = _
      rw [z0, int_mul hR (by decide) (by decide), int_add hR (by decide) (by decide)]
      exact sqrt_zero hR
    have hfin : coneRes k1 (lp h (.val ⟨⊤, ht⟩)) (o1 h) (computeResiduals k1 (lp h (.val ⟨⊤, ht⟩)) (o1 h)) = (.nan : FP R) := by
      show norm 1 (computeResiduals k1 (lp h (.val ⟨⊤, ht⟩)) (o1 h)).z /. fmax (fmax (c 1) (norm 1 (lp h (.val ⟨⊤, ht⟩)).h) +. norm 1 (o1 h).x +.
        norm 1 (o1 h).s) (c 1) = _
      rw [hnz, hnh, e1, e0, z1, i1, mx1, t1, i0, t0, mx2]
      show (exDiv ⊤ ⊤).elim FP.nan (LbfgsF.mk h) = _
      unfold exDiv
      rw [if_pos (by simp)]
      rfl
    rw [hfin] at hn
    cases hn

/-- C273 (violation): `min -x` subject to `x <= h0` where `h0` is NaN or infinite. From the point `x = 1`, `s = 0`, whose inequality residual is infinite or NaN, the method
reports `Optimal` at once - for `h0` infinite, on an unbounded problem. -/
theorem C273_violated (h0 : FP R) (hb : h0 = .nan ∨ (R ⊥ = ⊥ ∧ ∃ ht : R ⊤ = ⊤, h0 = .val ⟨⊤, ht⟩)) :
    letI := arith h
    let q := (optimize k1 (g1 h 1 1) (lp h h0) (orc1 h) (old1 h) (o1 h) (old1 h).2).1
    q.code = .optimal ∧ q.opt = o1 h ∧ ¬ Num (coneRes k1 (lp h h0) q.opt (computeResiduals k1 (lp h h0) q.opt)) := by
  letI := arith h
  have hc := coneRes_bad (h := h) hR h0 hb
  obtain ⟨h1, h2⟩ := run_optimal hR h0 (Or.inr hc)
  exact ⟨h1, h2, by rw [h2]; exact hc⟩

/-- C271, C273: a run that meets the hypotheses: `min -x` subject to `x <= 1`. -/
theorem C271_example :
    letI := arith h
    let q := (optimize k1 (g1 h 1 1) (lp h (int h 1)) (orc1 h) (old1 h) (o1 h) (old1 h).2).1
    Ieee (FP R) ∧ 1 ≤ (g1 h 1 1 : Stg (FP R)).maxIters ∧ ((nanv : FP R) <. (g1 h 1 1).reltol) = false ∧ ((nanv : FP R) <. (g1 h 1 1).reltolInacc) = false ∧
    q.code = .optimal ∧ q.opt = o1 h ∧ Num (coneRes k1 (lp h (int h 1)) q.opt (computeResiduals k1 (lp h (int h 1)) q.opt)) := by
  letI := arith h
  have I : Ieee (FP R) := ieee_round h
  have hc := coneRes_one (h := h) hR
  obtain ⟨h1, h2⟩ := run_optimal hR (int h 1) (Or.inl hc)
  have hnan : ((nanv : FP R) <. int h 2) = false := by
    rw [← lit_int (h := h) 2 2 (by norm_num)]
    exact I.le_not_lt _ _ (I.lit_mono _ _ (by norm_num))
  refine ⟨I, le_rfl, hnan, hnan, h1, h2, ?_⟩
  rw [h2, hc]
  show (arith h).le _ _ = true
  rw [int_le hR (by decide) (by decide)]; decide

/-- C272 (violation): `min -x` subject to `x <= 1`, tolerance 0, reduced tolerance 1. The method starts at the solution; the first step loses the iterate to NaN; all
remaining iterations are made; the start is returned, but not as `OptimalInacc`, although its own numbers pass the reduced test. -/
theorem C272_violated (M : Int) (hM : 1 ≤ M) :
    letI := arith h
    let S := lp h (int h 1)
    let g := g1 h 0 M
    let q := optimize k1 g S (orc1 h) (old1 h) (o1 h) (old1 h).2
    Blind k1 g (orc1 h) ∧ ConeNum k1 (orc1 h).init ∧ q.2 = M + 1 ∧ (q.1.iter : Int) = M ∧ q.1.opt = o1 h ∧
    (q.1.code = .reachMaxIters ∨ q.1.code = .dualInfInacc ∨ q.1.code = .primalInfInacc) ∧
    convergenceCheck g false (computeResiduals k1 S q.1.opt) (updateStatistics k1 g S q.1.opt (computeResiduals k1 S q.1.opt)) q.1.opt = .optimalInacc := by
  letI := arith h
  have I : Ieee (FP R) := ieee_round h
  have z0 : (c 0 : FP R) = int h 0 := lit_int 0 0 (by norm_num)
  have z1 : (c 1 : FP R) = int h 1 := lit_int 1 1 (by norm_num)
  have nn : ¬ Num (.nan : FP R) := fun h => by cases h
  obtain ⟨s1, s2, s3, s4, s5⟩ := o1_stats hR (int h 1) 0 M (Or.inl (coneRes_one (h := h) hR))
  have num : ∀ n : ℤ, n.natAbs ≤ 8 → Num (int h n : FP R) := fun n hn => by
    show (arith h).le _ _ = true
    rw [int_le hR hn hn]; simp
  have big : ∀ n : ℤ, n.natAbs ≤ 8 → ((nanv : FP R) <. int h n) = false := fun n hn => by
    rw [← lit_int (h := h) (n : ℚ) n rfl]
    refine I.le_not_lt _ _ (I.lit_mono _ _ ?_)
    have : (n : ℚ) ≤ 8 := by exact_mod_cast (by omega : n ≤ 8)
    exact this.trans (by norm_num)
  have m11 : fmax (int h 1) (int h 0) = (int h 1 : FP R) := by unfold fmax; rw [int_lt hR (by decide) (by decide)]; rfl
  have mn : fmin (int h 1) (int h 1) = (int h 1 : FP R) := by unfold fmin; split <;> rfl
  have hstep : (fmax (fmin ((c 1 : FP R) /. int h 1) (int h 1)) (int h 0) *. int h 1 ==. int h 0 *. int h 1) = false := by
    rw [z1, div_one hR (by decide), mn, m11, int_mul hR (by decide) (by decide), int_mul hR (by decide) (by decide)]
    exact int_eq hR (by decide) (by decide) (by decide)
  have B : Blind k1 (g1 h 0 M) (orc1 h) :=
    ⟨⟨by decide, by decide⟩, ⟨big 0 (by decide), big 2 (by decide), big 2 (by decide)⟩, hstep, fun _ => rfl,
      fun _ _ _ => ⟨fun _ => nn, fun _ => nn, nn, nn⟩⟩
  have hinf : (updateStatistics k1 (g1 h 0 M) (lp h (int h 1)) (o1 h) (computeResiduals k1 (lp h (int h 1)) (o1 h))).pinf = nanv := by
    refine if_neg ?_
    show ¬ (((computeResiduals k1 (lp h (int h 1)) (o1 h)).hz +. (computeResiduals k1 (lp h (int h 1)) (o1 h)).by_) /. fmax (norm 0 _ +. norm 1 _) (c 1) <.
      Arith.neg (int h 2)) = true
    have a1 : (computeResiduals k1 (lp h (int h 1)) (o1 h)).hz = int h 1 := by
      show (c 0 : FP R) +. int h 1 *. int h 1 = _
      rw [z0, int_mul hR (by decide) (by decide), int_add hR (by decide) (by decide)]
      rfl
    have a2 : (computeResiduals k1 (lp h (int h 1)) (o1 h)).by_ = int h 0 := z0
    have a3 : norm 0 (o1 h).y = (int h 0 : FP R) := by
      show Arith.sqrt (c 0 : FP R) = _
      rw [z0, sqrt_zero hR]
    have a4 : norm 1 (o1 h).z = (int h 1 : FP R) := by
      show Arith.sqrt ((c 0 : FP R) +. int h 1 *. int h 1) = _
      rw [z0, int_mul hR (by decide) (by decide), int_add hR (by decide) (by decide)]
      exact sqrt_one hR
    rw [a1, a2, a3, a4, z1, int_add hR (by decide) (by decide), int_add hR (by decide) (by decide), int_neg hR (by decide)]
    rw [show (int h (1 + 0) : FP R) = int h 1 from rfl, show (int h (0 + 1) : FP R) = int h 1 from rfl]
    have : fmax (int h 1) (int h 1) = (int h 1 : FP R) := by unfold fmax; split <;> rfl
    rw [this, div_one hR (by decide), int_lt hR (by decide) (by decide)]
    decide
  have hred : convergenceCheck (g1 h 0 M) false (computeResiduals k1 (lp h (int h 1)) (o1 h))
      (updateStatistics k1 (g1 h 0 M) (lp h (int h 1)) (o1 h) (computeResiduals k1 (lp h (int h 1)) (o1 h))) (o1 h) = .optimalInacc := by
    unfold convergenceCheck
    simp only [Bool.false_eq_true, if_false]
    rw [if_pos]
    rw [s1, s2, s3, s4, z0]
    refine ⟨Or.inl ?_, ⟨?_, ?_⟩, Or.inl ?_⟩
    · rw [int_lt hR (by decide) (by decide)]; decide
    all_goals
      show (arith h).lt (int h 0) (int h 1) = true
      rw [int_lt hR (by decide) (by decide)]; decide
  have hfull : convergenceCheck (g1 h 0 M) true (computeResiduals k1 (lp h (int h 1)) (o1 h))
      (updateStatistics k1 (g1 h 0 M) (lp h (int h 1)) (o1 h) (computeResiduals k1 (lp h (int h 1)) (o1 h))) (o1 h) = .notConverged := by
    have nt : ((int h 0 : FP R) <. (g1 h 0 M).feastol) = false := by
      show (arith h).lt (int h 0) (int h 0) = false
      rw [int_lt hR (by decide) (by decide)]; decide
    have tk : ((o1 h).tau <. (o1 h).kappa) = false := by
      show (arith h).lt (int h 1) (int h 0) = false
      rw [int_lt hR (by decide) (by decide)]; decide
    have tf : ((o1 h).tau <. (g1 h 0 M).feastol) = false := by
      show (arith h).lt (int h 1) (int h 0) = false
      rw [int_lt hR (by decide) (by decide)]; decide
    unfold convergenceCheck
    simp only [if_true]
    rw [s2, s3, nt, tk, tf]
    simp
  obtain ⟨st', e, h1, h2, h3, h4⟩ : ∃ st', body k1 (g1 h 0 M) (lp h (int h 1)) (orc1 h) 0 (start (orc1 h) (old1 h)) = .next st' ∧ Lost st'.opt ∧
      (st'.step ==. (g1 h 0 M).minStep *. (g1 h 0 M).stepScaling) = false ∧ st'.best = o1 h ∧
      st'.bestInfo = updateStatistics k1 (g1 h 0 M) (lp h (int h 1)) (o1 h) (computeResiduals k1 (lp h (int h 1)) (o1 h)) := by
    have h0M : ((0 : Nat) : Int) = (g1 h 0 M).maxIters ↔ False := ⟨fun e => by have : (0 : Int) = M := e; omega, False.elim⟩
    unfold body
    simp only [gt_iff_lt, lt_irrefl, false_and, if_false]
    rw [show (start (orc1 h) (old1 h)).opt = o1 h from rfl, hfull]
    simp only [h0M, if_false, decide_true, Bool.true_or, if_true]
    rw [show outside k1 (o1 h).s (o1 h).z = false from rfl, show (orc1 h).fact (0 + 1) = true from rfl]
    simp only [Bool.false_eq_true, if_false, if_true]
    refine ⟨_, rfl, ?_, ?_, rfl, rfl⟩
    · exact ⟨fun _ h' => nn (I.mul_num _ _ (I.add_num _ _ h').2).2, fun _ h' => nn (I.mul_num _ _ (I.add_num _ _ h').2).2,
        fun _ h' => nn (I.mul_num _ _ (I.add_num _ _ h').2).2, fun _ h' => nn (I.mul_num _ _ (I.add_num _ _ h').2).2,
        fun h' => nn (I.mul_num _ _ (I.add_num _ _ h').2).2, fun h' => nn (I.mul_num _ _ (I.add_num _ _ h').2).2⟩
    · show (lineSearch k1 (g1 h 0 M) _ _ _ _ _ _ _ *. (g1 h 0 M).stepScaling ==. _) = false
      rw [lineSearch_nan I k1 (g1 h 0 M) ((orc1 h).dir 0 (o1 h)).lam ((orc1 h).dir 0 (o1 h)).dsByW ((orc1 h).dir 0 (o1 h)).wDz (o1 h).tau
        ((orc1 h).dir 0 (o1 h)).d.tau (o1 h).kappa ((orc1 h).dir 0 (o1 h)).d.kappa (fun _ => nn) (fun _ => nn) nn nn]
      exact B.bounds
  have hl := C272_nan_unnoticed I B (lp h (int h 1)) (old1 h).2 (M - 1).toNat 1 st' one_pos (by
    show ((1 : Nat) : Int) + ((M - 1).toNat : Int) = M
    omega) h1 h2
  have hq : optimize k1 (g1 h 0 M) (lp h (int h 1)) (orc1 h) (old1 h) (o1 h) (old1 h).2 =
      ((loop k1 (g1 h 0 M) (lp h (int h 1)) (orc1 h) ((M - 1).toNat + 1) 1 st' (old1 h).2).1,
        (loop k1 (g1 h 0 M) (lp h (int h 1)) (orc1 h) ((M - 1).toNat + 1) 1 st' (old1 h).2).2 + 1) := by
    unfold optimize
    rw [if_pos (show (orc1 h).fact 0 = true from rfl)]
    rw [show ((g1 h 0 M).maxIters + 1).toNat = (M - 1).toNat + 1 + 1 by show (M + 1).toNat = _; omega]
    rw [loop, e]
  intro S g q
  have hq' : q = _ := hq
  rw [hq']
  obtain ⟨l1, l2, l3, l4, l5⟩ := hl
  refine ⟨B, ⟨fun _ _ => num 1 (by decide), fun _ _ => num 0 (by decide), num 1 (by decide), num 0 (by decide)⟩, ?_, l2, by rw [l3, h3], l5, ?_⟩
  · simp only [l1]; push_cast; omega
  · rw [l3, h3]; exact hred

end run

/-- The hypotheses on the format hold of IEEE double precision, where infinities are values. -/
example {fl : ℝ → ℝ} (hf : Fl.Nearest fl) : Exact (toDouble fl) ∧ toDouble fl ⊥ = ⊥ ∧ toDouble fl ⊤ = ⊤ :=
  ⟨double_exact hf, by unfold toDouble; rw [if_neg (by rw [le_bot_iff]; exact EReal.coe_ne_bot _), if_pos bot_le], by unfold toDouble; rw [if_pos le_top]⟩

end IPF
end Verif
