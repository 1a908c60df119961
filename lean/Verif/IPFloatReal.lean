import Verif.IPFloat
import Verif.LbfgsFloatReal
import Mathlib.Tactic.NormNum

/-!
The interior-point model over an arbitrary arithmetic (`IPFloat.lean`), read in exact real arithmetic, is the model over the real numbers (`IP.lean`): the same
residuals, statistics, tests, and the same passes of the loop, so that C271-C273 speak of the same program as C21, C22 and C77-C80.
-/
namespace Verif
namespace IPF
open LbfgsF Cone Classical

attribute [local instance] realArith

/-- The same point in the other model. -/
def toPt (o : Pt ℝ) : IP.Pt := ⟨o.x, o.y, o.z, o.s, o.tau, o.kappa⟩
/-- The same numbers in the other model. -/
def toInfo (i : Info ℝ) : IP.Info := ⟨i.pcost, i.dcost, i.gap, i.kot, i.merit, i.relgap, i.pres, i.dres, i.pinf, i.dinf⟩
/-- The same residuals in the other model. -/
def toRes (r : Res ℝ) : IP.Res := ⟨r.x, r.y, r.z, r.nx, r.ny, r.nz, r.t, r.cx, r.by_, r.hz⟩
/-- The same result in the other model. -/
def toOut (q : Out ℝ) : IP.Out := ⟨q.code, toPt q.opt, q.scaled, toInfo q.info, q.iter, q.step⟩
/-- The settings of the other model, without those that only its linear solver reads. -/
def ofStg (g : IP.Stg) : Stg ℝ :=
  ⟨g.feastol, g.abstol, g.reltol, g.feastolInacc, g.abstolInacc, g.reltolInacc, g.safeguard, g.minStep, g.maxStep, g.stepScaling, g.dynRegThresh, g.maxIters⟩
/-- The data of the other model. -/
def ofData (k : Cone) (S : Equil.Storage) : Data ℝ := ⟨S.A, S.G, IP.sc k S, IP.sb k S, IP.sh k S⟩

theorem foldl_sum (f : Nat → ℝ) : ∀ n : Nat, (List.range n).foldl (fun a k => a + f k) 0 = ∑ k ∈ Finset.range n, f k := by
  intro n
  induction n with
  | zero => rfl
  | succ n ih => rw [List.range_succ, List.foldl_append, ih, Finset.sum_range_succ]; rfl

theorem dot_real (n : Nat) (u v : Nat → ℝ) : dot n u v = IP.dot n u v := by
  unfold dot IP.dot
  simp only [lit_r, Rat.cast_zero]
  exact foldl_sum (fun k => u k * v k) n

theorem norm_real (n : Nat) (v : Nat → ℝ) : norm n v = IP.norm n v := by
  unfold norm IP.norm
  rw [dot_real, sqrt_r]
  unfold IP.dot
  simp only [sq]

theorem mtv_real (M : SpF ℝ) (x y : Nat → ℝ) (add new : Bool) : mtv M x y add new = IP.mtv M x y add new := by
  funext col
  unfold mtv IP.mtv
  simp only [lit_r, Rat.cast_zero]
  rfl

theorem nanv_real : (nanv : ℝ) = IP.nanv := by
  unfold nanv IP.nanv
  rw [lit_r]; norm_num

theorem residuals_real (k : Cone) (S : Equil.Storage) (o : Pt ℝ) :
    toRes (computeResiduals k (ofData k S) o) = IP.computeResiduals k S (toPt o) := by
  unfold computeResiduals IP.computeResiduals toRes
  simp only [mtv_real, norm_real, dot_real, lit_r, Rat.cast_zero]
  rfl

theorem stats_real (k : Cone) (g : IP.Stg) (S : Equil.Storage) (o : Pt ℝ) :
    toInfo (updateStatistics k (ofStg g) (ofData k S) o (computeResiduals k (ofData k S) o)) =
      IP.updateStatistics k g S (toPt o) (IP.computeResiduals k S (toPt o)) := by
  rw [← residuals_real]
  unfold updateStatistics IP.updateStatistics toInfo eqRes coneRes iniX iniY iniZ IP.iniX IP.iniY IP.iniZ
  simp only [norm_real, dot_real, fmax_real, lt_r, lit_r, nanv_real, add_r, mul_r, div_r, neg_r, Rat.cast_zero, Rat.cast_one, Rat.cast_add, Rat.cast_natCast, gt_iff_lt]
  rfl

theorem check_real (g : IP.Stg) (full : Bool) (r : Res ℝ) (i : Info ℝ) (o : Pt ℝ) :
    convergenceCheck (ofStg g) full r i o = IP.convergenceCheck g full (toRes r) (toInfo i) (toPt o) := by
  unfold convergenceCheck IP.convergenceCheck
  simp only [lt_r, le_r, eq_r, lit_r, nanv_real, add_r, Rat.cast_zero]
  cases full <;> rfl

theorem better_real (i j : Info ℝ) : isBetterThan i j = IP.isBetterThan (toInfo i) (toInfo j) := by
  unfold isBetterThan IP.isBetterThan
  simp only [lt_r, eq_r, lit_r, nanv_real, Rat.cast_zero, Rat.cast_one, gt_iff_lt]
  rfl

theorem reduced_real (g : IP.Stg) (r : Res ℝ) (o : Pt ℝ) (i : Info ℝ) (fb : ExitCode) (sc : Bool) (n : Nat) (s : ℝ) :
    toOut (reduced (ofStg g) r o i fb sc n s) = IP.reduced g (toRes r) (toPt o) (toInfo i) fb sc n s := by
  unfold reduced IP.reduced
  rw [check_real]
  split <;> rename_i h
  · rw [h]; rfl
  · split
    · rename_i h'; exact absurd h' h
    · rfl

theorem tailSq_real (n : Nat) (u : Nat → ℝ) : tailSq n u = ∑ j ∈ Finset.Ico 1 n, u j ^ 2 := by
  unfold tailSq
  simp only [lit_r, Rat.cast_zero]
  rw [show (List.range (n - 1)).foldl (fun a j => a +. u (j + 1) *. u (j + 1)) (0 : ℝ) = ∑ j ∈ Finset.range (n - 1), u (j + 1) * u (j + 1) from
    foldl_sum (fun j => u (j + 1) * u (j + 1)) (n - 1), Finset.sum_Ico_eq_sum_range]
  exact Finset.sum_congr rfl fun j _ => by rw [add_comm 1 j, sq]

theorem residual_real (n : Nat) (u : Nat → ℝ) : residual n u = Cone.residual u n := by
  unfold residual Cone.residual
  rw [tailSq_real]; rfl

theorem safeDiv_real (x y : ℝ) : safeDiv x y = Cone.safeDiv x y := by
  unfold safeDiv Cone.safeDiv
  simp only [lt_r, lit_r, div_r]
  norm_num

theorem ntPoint_real (n : Nat) (sk zk : Nat → ℝ) : ntPoint n sk zk = Cone.ntPoint n sk zk := by
  funext i
  unfold ntPoint Cone.ntPoint
  simp only [safeDiv_real, dot_real, lit_r, add_r, mul_r, sub_r, sqrt_r]
  rw [show (((1 / 2 : ℚ) : ℚ) : ℝ) = 0.5 by norm_num]
  rfl

theorem ntV1_real (n : Nat) (eta etaSq : ℝ) (w : Nat → ℝ) : ntV1 n w ≤ 0 ↔ ntFinish n eta etaSq w = none := by
  unfold ntV1 ntFinish
  simp only [safeDiv_real, tailSq_real, fmax_real, lit_r, add_r, mul_r, sub_r, sqrt_r, Rat.cast_one, Rat.cast_zero]
  rw [show (((1 / 2 : ℚ) : ℚ) : ℝ) = 0.5 by norm_num, show (((2 : ℚ) : ℚ) : ℝ) = 2 by norm_num]
  simp only [← sq, ite_eq_left_iff, reduceCtorEq, imp_false, not_not]

theorem outsideBlk_real (n : Nat) (s z : Nat → ℝ) : outsideBlk n s z = true ↔ updateBlk n s z = none := by
  unfold outsideBlk updateBlk
  simp only [Bool.or_eq_true, le_r, lit_r, Rat.cast_zero, residual_real, safeDiv_real, sqrt_r, Rat.cast_one, ntPoint_real]
  split
  · simp
  · rw [le_r, ntV1_real]; rfl

/-- The cone test answers as in the other model. -/
theorem outside_real (k : Cone) (s z lam : Nat → ℝ) : outside k s z = true ↔ k.updateNTScalings s z lam = none := by
  unfold outside
  rw [List.any_eq_true]
  unfold Cone.updateNTScalings
  simp only [List.mem_range, outsideBlk_real]
  split
  · rename_i h
    constructor
    · rintro ⟨l, hl, h'⟩
      have := h ⟨l, hl⟩
      rw [show updateBlk (k.sizeSoc (⟨l, hl⟩ : Fin k.nsoc)) (Cone.shift s (k.startSoc (⟨l, hl⟩ : Fin k.nsoc))) (Cone.shift z (k.startSoc (⟨l, hl⟩ : Fin k.nsoc))) = none from h'] at this
      cases this
    · intro h'; cases h'
  · rename_i h
    push Not at h
    obtain ⟨i, hi⟩ := h
    refine ⟨fun _ => rfl, fun _ => ⟨i, i.2, ?_⟩⟩
    exact Option.not_isSome_iff_eq_none.mp hi

/-! ### the line search and the loop -/

theorem minRatio_real (k : Cone) (lam d : Nat → ℝ) : minRatio k lam d = IP.minRatio k lam d := by
  unfold minRatio IP.minRatio
  simp only [lt_r, div_r]

theorem foldl_sub (f : Nat → ℝ) (a : ℝ) : ∀ n : Nat, (List.range n).foldl (fun a k => a - f k) a = a - ∑ k ∈ Finset.range n, f k := by
  intro n
  induction n with
  | zero => simp
  | succ n ih => rw [List.range_succ, List.foldl_append, ih, Finset.sum_range_succ]; simp only [List.foldl_cons, List.foldl_nil]; ring

theorem frame_real (n : Nat) (l d : Nat → ℝ) : frame n l d = IP.frame n l d := by
  funext j
  unfold frame IP.frame
  simp only [residual_real, lit_r, add_r, mul_r, sub_r, div_r, sqrt_r, Rat.cast_one]
  rw [foldl_sub (fun j => l (j + 1) / Real.sqrt (Cone.residual l n) * d (j + 1)), Finset.sum_Ico_eq_sum_range]
  simp only [add_comm 1]

theorem excess_real (n : Nat) (v : Nat → ℝ) : excess n v = IP.excess n v := by
  unfold excess IP.excess
  rw [tailSq_real]; rfl

/-- What the line search allows at most in one second-order cone, IPSolver.cpp:187: the inverse of the result. -/
noncomputable def limit (n : Nat) (l ds dz : Nat → ℝ) : ℝ :=
  max (max (IP.excess n (IP.frame n l ds)) (IP.excess n (IP.frame n l dz))) 0

theorem socStep_real (n : Nat) (l ds dz : Nat → ℝ) (a : ℝ) (h : 0 < Cone.residual l n → limit n l ds dz ≠ 0) :
    socStep n l ds dz a = IP.socStep n l ds dz a := by
  unfold socStep IP.socStep
  simp only [residual_real, le_r, lit_r, Rat.cast_zero, Rat.cast_one, fmax_real, fmin_real, excess_real, frame_real, div_r]
  by_cases h0 : Cone.residual l n ≤ 0
  · rw [if_pos h0, if_pos h0]
  · rw [if_neg h0, if_neg h0]
    exact (if_neg (h (lt_of_not_ge h0))).symm

/-- Every second-order cone restricts the step: then no division by zero takes place (in the code it gives infinity, in real arithmetic zero). -/
def Restricts (k : Cone) (lam ds dz : Nat → ℝ) : Prop := ∀ i < k.nsoc,
  0 < Cone.residual (Cone.shift lam (k.startSoc i)) (k.sizeSoc i) →
    limit (k.sizeSoc i) (Cone.shift lam (k.startSoc i)) (Cone.shift ds (k.startSoc i)) (Cone.shift dz (k.startSoc i)) ≠ 0

theorem foldl_congr' {α β : Type} {f g : α → β → α} : ∀ {l : List β} {a : α}, (∀ a, ∀ t ∈ l, f a t = g a t) → l.foldl f a = l.foldl g a := by
  intro l
  induction l with
  | nil => intro a _; rfl
  | cons t l ih => intro a h; rw [List.foldl_cons, List.foldl_cons, h a t (by simp), ih fun a t ht => h a t (by simp [ht])]

theorem lineSearch_real (k : Cone) (g : IP.Stg) (lam ds dz : Nat → ℝ) (tau dtau kappa dkappa : ℝ) (h : Restricts k lam ds dz) :
    lineSearch k (ofStg g) lam ds dz tau dtau kappa dkappa = IP.lineSearch k g lam ds dz tau dtau kappa dkappa := by
  unfold lineSearch IP.lineSearch IP.rawStep
  simp only [minRatio_real, lt_r, lit_r, Rat.cast_zero, Rat.cast_one, Rat.cast_neg, fmax_real, fmin_real, div_r, neg_r, gt_iff_lt]
  rw [foldl_congr' (f := fun a i => socStep (k.sizeSoc i) (shift lam (k.startSoc i)) (shift ds (k.startSoc i)) (shift dz (k.startSoc i)) a)
    (g := fun a i => IP.socStep (k.sizeSoc i) (Cone.shift lam (k.startSoc i)) (Cone.shift ds (k.startSoc i))
    (Cone.shift dz (k.startSoc i)) a) fun a i hi => socStep_real _ _ _ _ a (h i (List.mem_range.mp hi))]
  rfl

theorem advance_real (o d : Pt ℝ) (a : ℝ) : toPt (advance o d a) = IP.advance (toPt o) (toPt d) a := rfl

/-- A point of the other model. -/
def ofPt (o : IP.Pt) : Pt ℝ := ⟨o.x, o.y, o.z, o.s, o.tau, o.kappa⟩

/-- What the other model computes in iteration `n` at the point `o` (three calls of the linear solver per iteration, IPSolver.cpp:355-404). -/
noncomputable def newtonAt (k : Cone) (g : IP.Stg) (S : Equil.Storage) (lin : IP.LinOracle) (n : Nat) (o : Pt ℝ) (W : Cone.Scalings)
    (lam : Nat → ℝ) : IP.Newton :=
  IP.newton k g S (toPt o) (IP.computeResiduals k S (toPt o)) (IP.updateStatistics k g S (toPt o) (IP.computeResiduals k S (toPt o))).merit W lam
    (lin.solve (2 + 3 * n) (IP.rhs1 k S)) (lin.solve (2 + 3 * n + 1)) (lin.solve (2 + 3 * n + 2))

/-- The linear solver and the scalings of the other model as an oracle of this one (IPSolver.cpp:66-109, 355-404). -/
noncomputable def orcOf (k : Cone) (g : IP.Stg) (S : Equil.Storage) (lin : IP.LinOracle) (rhs2 : IP.Tri) : Orc ℝ where
  init := ofPt (IP.initPt k S lin rhs2)
  fact := lin.fact
  dir n o := match k.updateNTScalings o.s o.z (fun _ => 0) with
    | none => ⟨o, o.s, o.s, o.s⟩
    | some (W, lam) => let nw := newtonAt k g S lin n o W lam; ⟨ofPt nw.d, nw.dsByW, nw.wDz, lam⟩

/-- Every combined step meets a restriction in every second-order cone. -/
def StepsRestrict (k : Cone) (g : IP.Stg) (S : Equil.Storage) (lin : IP.LinOracle) : Prop := ∀ n o W lam,
  k.updateNTScalings o.s o.z (fun _ => 0) = some (W, lam) →
    Restricts k lam (newtonAt k g S lin n o W lam).dsByW (newtonAt k g S lin n o W lam).wDz

/-- The same state in the other model, in iteration `n`: two calls of the linear solver before the loop, three in each pass. -/
def toSt (n : Nat) (st : St ℝ) : IP.St := ⟨toPt st.opt, toPt st.best, toInfo st.bestInfo, st.prev, st.step, 2 + 3 * n, n + 1⟩

/-- The same outcome of a pass in the other model, the next iteration being `n`. -/
def toPass (n : Nat) : Pass ℝ → IP.Pass
  | .stop r => .stop (toOut r)
  | .next st => .next (toSt n st)

/-- One pass of the loop is the same in both models. -/
theorem body_real (k : Cone) (g : IP.Stg) (S : Equil.Storage) (lin : IP.LinOracle) (rhs2 : IP.Tri) (hr : StepsRestrict k g S lin) (n : Nat) (st : St ℝ) :
    toPass (n + 1) (body k (ofStg g) (ofData k S) (orcOf k g S lin rhs2) n st) = IP.body k g S lin n (toSt n st) := by
  unfold body IP.body
  simp only []
  have e1 := residuals_real k S st.opt
  have e2 := stats_real k g S st.opt
  rw [show (toSt n st).opt = toPt st.opt from rfl, ← e2, ← e1]
  generalize hR : computeResiduals k (ofData k S) st.opt = r at *
  generalize hI : updateStatistics k (ofStg g) (ofData k S) st.opt r = i at *
  rw [← check_real]
  by_cases h0 : n > 0 ∧ ((toInfo i).pres > g.safeguard * (toSt n st).prev ∨ (toInfo i).gap < 0)
  · rw [if_pos h0, if_pos (show n > 0 ∧ (((ofStg g).safeguard *. st.prev <. i.pres) = true ∨ (i.gap <. c 0) = true) by
      simp only [lt_r, lit_r, Rat.cast_zero]; exact h0)]
    exact congrArg IP.Pass.stop (reduced_real ..)
  rw [if_neg h0, if_neg (show ¬ (n > 0 ∧ (((ofStg g).safeguard *. st.prev <. i.pres) = true ∨ (i.gap <. c 0) = true)) by
      simp only [lt_r, lit_r, Rat.cast_zero]; exact h0)]
  generalize convergenceCheck (ofStg g) true r i st.opt = e
  cases e <;> try rfl
  simp only []
  by_cases h1 : n > 0 ∧ (toSt n st).step = g.minStep * g.stepScaling
  · rw [if_pos h1, if_pos (show n > 0 ∧ (st.step ==. (ofStg g).minStep *. (ofStg g).stepScaling) = true by simp only [eq_r]; exact h1)]
    exact congrArg IP.Pass.stop (reduced_real ..)
  rw [if_neg h1, if_neg (show ¬ (n > 0 ∧ (st.step ==. (ofStg g).minStep *. (ofStg g).stepScaling) = true) by simp only [eq_r]; exact h1)]
  by_cases h2 : (n : Int) = g.maxIters
  · rw [if_pos h2, if_pos (show (n : Int) = (ofStg g).maxIters from h2), better_real]
    rw [show (toSt n st).bestInfo = toInfo st.bestInfo from rfl]
    split
    · exact congrArg IP.Pass.stop (reduced_real ..)
    · exact congrArg IP.Pass.stop (reduced_real ..)
  rw [if_neg h2, if_neg (show ¬ (n : Int) = (ofStg g).maxIters from h2), better_real]
  rw [show (toSt n st).bestInfo = toInfo st.bestInfo from rfl]
  have hout := outside_real k st.opt.s st.opt.z (fun _ => 0)
  cases hN : k.updateNTScalings st.opt.s st.opt.z (fun _ => 0) with
  | none =>
    rw [if_pos (hout.mpr hN)]
    rw [show k.updateNTScalings (toPt st.opt).s (toPt st.opt).z (fun _ => 0) = none from hN]
    refine congrArg IP.Pass.stop (Eq.trans (reduced_real ..) ?_)
    split <;> rfl
  | some q =>
    obtain ⟨W, lam⟩ := q
    rw [if_neg (show ¬ outside k st.opt.s st.opt.z = true from fun h => by rw [hout.mp h] at hN; cases hN)]
    rw [show k.updateNTScalings (toPt st.opt).s (toPt st.opt).z (fun _ => 0) = some (W, lam) from hN]
    simp only []
    by_cases h3 : lin.fact (n + 1) = true
    · rw [if_pos (show (orcOf k g S lin rhs2).fact (n + 1) = true from h3), if_pos (show lin.fact (toSt n st).facts = true from h3)]
      have hd : (orcOf k g S lin rhs2).dir n st.opt = ⟨ofPt (newtonAt k g S lin n st.opt W lam).d, (newtonAt k g S lin n st.opt W lam).dsByW,
          (newtonAt k g S lin n st.opt W lam).wDz, lam⟩ := by
        show (match k.updateNTScalings st.opt.s st.opt.z (fun _ => 0) with
          | none => _
          | some (W, lam) => _) = _
        rw [hN]
      rw [hd]
      have hnw : newtonAt k g S lin n st.opt W lam = IP.newton k g S (toPt st.opt) (toRes r) (toInfo i).merit W lam
          (lin.solve (2 + 3 * n) (IP.rhs1 k S)) (lin.solve (2 + 3 * n + 1)) (lin.solve (2 + 3 * n + 2)) := by
        unfold newtonAt
        rw [← e2, ← e1]
      have hls := lineSearch_real k g lam _ _ st.opt.tau (newtonAt k g S lin n st.opt W lam).d.tau st.opt.kappa
        (newtonAt k g S lin n st.opt W lam).d.kappa (hr n st.opt W lam hN)
      have hstep : (newtonAt k g S lin n st.opt W lam).step = IP.lineSearch k g lam (newtonAt k g S lin n st.opt W lam).dsByW
        (newtonAt k g S lin n st.opt W lam).wDz st.opt.tau (newtonAt k g S lin n st.opt W lam).d.tau st.opt.kappa
        (newtonAt k g S lin n st.opt W lam).d.kappa * g.stepScaling := rfl
      show IP.Pass.next (toSt (n + 1) _) = IP.Pass.next ⟨IP.advance (toPt st.opt) (IP.newton k g S (toPt st.opt) (toRes r) (toInfo i).merit W lam
          (lin.solve (2 + 3 * n) (IP.rhs1 k S)) (lin.solve (2 + 3 * n + 1)) (lin.solve (2 + 3 * n + 2))).d
          (IP.newton k g S (toPt st.opt) (toRes r) (toInfo i).merit W lam
          (lin.solve (2 + 3 * n) (IP.rhs1 k S)) (lin.solve (2 + 3 * n + 1)) (lin.solve (2 + 3 * n + 2))).step, _, _, _,
          (IP.newton k g S (toPt st.opt) (toRes r) (toInfo i).merit W lam
          (lin.solve (2 + 3 * n) (IP.rhs1 k S)) (lin.solve (2 + 3 * n + 1)) (lin.solve (2 + 3 * n + 2))).step, _, _⟩
      rw [← hnw, hstep]
      simp only [ofPt, hls, toSt]
      split <;> rfl
    · rw [if_neg (show ¬ (orcOf k g S lin rhs2).fact (n + 1) = true from h3), if_neg (show ¬ lin.fact (toSt n st).facts = true from h3)]
      rfl

/-- The loop is the same in both models. -/
theorem loop_real (k : Cone) (g : IP.Stg) (S : Equil.Storage) (lin : IP.LinOracle) (rhs2 : IP.Tri) (hr : StepsRestrict k g S lin) (i0 : Info ℝ) :
    ∀ fuel n st, (fun q : Out ℝ × Nat => (toOut q.1, q.2)) (loop k (ofStg g) (ofData k S) (orcOf k g S lin rhs2) fuel n st i0) =
      IP.loop k g S lin fuel n (toSt n st) (toInfo i0) := by
  intro fuel
  induction fuel with
  | zero => intro n st; rfl
  | succ fuel ih =>
    intro n st
    unfold loop IP.loop
    rw [← body_real k g S lin rhs2 hr]
    cases body k (ofStg g) (ofData k S) (orcOf k g S lin rhs2) n st with
    | stop r => rfl
    | next st' =>
      have := ih (n + 1) st'
      simp only [toPass] at this ⊢
      rw [← this]

/-- Read in exact arithmetic, `optimize` of this model is `optimize` of the model over the real numbers, whenever no step divides by zero. -/
theorem optimize_real (k : Cone) (g : IP.Stg) (S : Equil.Storage) (lin : IP.LinOracle) (rhs2 : IP.Tri) (hr : StepsRestrict k g S lin)
    (old : Pt ℝ × Info ℝ) (o0 : Pt ℝ) (i0 : Info ℝ) :
    (fun q : Out ℝ × Nat => (toOut q.1, q.2)) (optimize k (ofStg g) (ofData k S) (orcOf k g S lin rhs2) old o0 i0) =
      IP.optimize k g S lin (toPt old.1, toInfo old.2) rhs2 (toPt o0) (toInfo i0) := by
  unfold optimize IP.optimize
  by_cases h : lin.fact 0 = true
  · rw [if_pos (show (orcOf k g S lin rhs2).fact 0 = true from h), if_pos h]
    rw [loop_real k g S lin rhs2 hr]
    unfold start toSt
    simp only [lit_r, nanv_real, Rat.cast_zero]
    rfl
  · rw [if_neg (show ¬ (orcOf k g S lin rhs2).fact 0 = true from h), if_neg h]
    simp only [toOut, lit_r, Rat.cast_zero]

/-- Problems without second-order cones: there is never a division by zero in the line search. -/
theorem stepsRestrict_of_linear (k : Cone) (g : IP.Stg) (S : Equil.Storage) (lin : IP.LinOracle) (h : k.nsoc = 0) : StepsRestrict k g S lin :=
  fun _ _ _ _ _ i hi => absurd hi (by omega)

end IPF
end Verif
