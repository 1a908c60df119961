import Verif.LbfgsFloat
import Verif.LbfgsProps
import Mathlib.Tactic.NormNum

/-!
The model over an arbitrary arithmetic (`LbfgsFloat.lean`), read in exact real arithmetic, is the model over the real numbers (`Lbfgs.lean`): the two models of
LbfgsSolver.cpp agree function by function, so that what C266-C269 say of every arithmetic is about the same program as C27-C33.
-/
namespace Verif
namespace LbfgsF
open Lbfgs (LsErr ParErr Ret)
open Classical

/-- Exact real arithmetic (division by zero gives 0). -/
@[reducible] noncomputable def realArith : Arith ℝ where
  lit q := (q : ℝ)
  add := (· + ·)
  sub := (· - ·)
  mul := (· * ·)
  div := (· / ·)
  neg := Neg.neg
  sqrt := Real.sqrt
  abs := fun x => |x|
  lt a b := decide (a < b)
  le a b := decide (a ≤ b)
  eq a b := decide (a = b)

attribute [local instance] realArith

/-- The same parameters in the other model. -/
def toPar (p : Params ℝ) : Lbfgs.Params :=
  ⟨p.m, p.epsilon, p.past, p.delta, p.maxIterations, p.linesearch, p.maxLinesearch, p.minStep, p.maxStep, p.ftol, p.wolfe, p.gtol, p.xtol⟩

/-- The same outcome of a line search in the other model. -/
def toOut {n : Nat} (o : LsOut ℝ n) : Lbfgs.LsOut n := ⟨o.x, o.f, o.g, o.stp, o.evals, o.ret⟩

/-- The same interval in the other model. -/
def toInt (I : Interval ℝ) : Lbfgs.Interval := ⟨I.x, I.fx, I.dx, I.y, I.fy, I.dy, I.brackt⟩

/-- The same line search state in the other model. -/
def toMt (s : MtState ℝ) : Lbfgs.MtState := ⟨toInt s.I, s.stage1, s.uinfo, s.width, s.prevWidth, s.stp⟩

/-- The same memory entry in the other model. -/
def toEntry {n : Nat} (e : Entry ℝ n) : Lbfgs.Entry n := ⟨e.alpha, e.s, e.y, e.ys⟩

/-- The same state of the main loop in the other model. -/
def toState {n : Nat} (s : LState ℝ n) : Lbfgs.LState n := ⟨s.x, s.fx, s.g, s.d, s.step, s.k, s.e, fun i => toEntry (s.lm i), s.pf⟩

/-- The same result in the other model. -/
def toRes {n : Nat} (r : Result ℝ n) : Lbfgs.Result n := ⟨r.ret, r.x, r.fx⟩

theorem add_r (a b : ℝ) : Arith.add a b = a + b := rfl
theorem sub_r (a b : ℝ) : Arith.sub a b = a - b := rfl
theorem mul_r (a b : ℝ) : Arith.mul a b = a * b := rfl
theorem div_r (a b : ℝ) : Arith.div a b = a / b := rfl
theorem neg_r (a : ℝ) : Arith.neg a = -a := rfl
theorem abs_r (a : ℝ) : Arith.abs a = |a| := rfl
theorem sqrt_r (a : ℝ) : Arith.sqrt a = Real.sqrt a := rfl
theorem lt_r (a b : ℝ) : (Arith.lt a b = true) = (a < b) := by show (decide (a < b) = true) = _; simp
theorem le_r (a b : ℝ) : (Arith.le a b = true) = (a ≤ b) := by show (decide (a ≤ b) = true) = _; simp
theorem eq_r (a b : ℝ) : (Arith.eq a b = true) = (a = b) := by show (decide (a = b) = true) = _; simp
theorem lit_r (q : ℚ) : (c q : ℝ) = (q : ℝ) := rfl

theorem dot_real {n : Nat} (x y : Vec ℝ n) : dot x y = Lbfgs.dot x y := by
  have key : ∀ (l : List (Fin n)) (s : ℝ), l.foldl (fun s i => s +. x i *. y i) s = s + (l.map fun i => x i * y i).sum := by
    intro l
    induction l with
    | nil => intro s; simp
    | cons i l ih => intro s; rw [List.foldl_cons, ih, List.map_cons, List.sum_cons, add_r, mul_r, add_assoc]
  unfold dot Lbfgs.dot
  rw [key, lit_r, Fin.sum_univ_def]
  simp

theorem norm2_real {n : Nat} (x : Vec ℝ n) : norm2 x = Lbfgs.norm2 x := by
  unfold norm2 Lbfgs.norm2
  rw [dot_real]; rfl

theorem vecadd_real {n : Nat} (y x : Vec ℝ n) (a : ℝ) : vecadd y x a = y + a • x := rfl

theorem fmin_real (a b : ℝ) : fmin a b = min a b := by
  unfold fmin; simp only [lt_r]; split
  · rw [min_eq_right]; linarith
  · rw [min_eq_left]; linarith

theorem fmax_real (a b : ℝ) : fmax a b = max a b := by
  unfold fmax; simp only [lt_r]; split
  · rw [max_eq_right]; linarith
  · rw [max_eq_left]; linarith

theorem max2_real (a b : ℝ) : max2 a b = max a b := by
  unfold max2; simp only [le_r]; split
  · rw [max_eq_left]; linarith
  · rw [max_eq_right]; linarith

theorem max3_real (a b d : ℝ) : max3 a b d = Lbfgs.max3 a b d := by
  unfold max3 Lbfgs.max3; rw [max2_real, max2_real]

theorem validate_real (n : Int) (p : Params ℝ) : validate n p = Lbfgs.validate n (toPar p) := by
  unfold validate Lbfgs.validate toPar
  simp only [lt_r, le_r, lit_r, Rat.cast_zero, Rat.cast_one]

theorem defparam_real : toPar defparam = Lbfgs.defparam := by
  unfold toPar defparam Lbfgs.defparam
  simp only [lit_r]
  norm_num

theorem btDecide_real (p : Params ℝ) (finit dginit stp f dg : ℝ) : btDecide p finit dginit stp f dg = Lbfgs.btDecide (toPar p) finit dginit stp f dg := by
  unfold btDecide Lbfgs.btDecide toPar
  simp only [lt_r, lit_r, add_r, mul_r, neg_r, gt_iff_lt]
  norm_num

theorem btLoop_real {n : Nat} (p : Params ℝ) (ev : Eval ℝ n) (xp d : Vec ℝ n) (finit dginit : ℝ) (count : Nat) (stp : ℝ) :
    toOut (btLoop p ev xp d finit dginit count stp) = Lbfgs.btLoop (toPar p) ev xp d finit dginit count stp := by
  fun_induction btLoop p ev xp d finit dginit count stp with
  | case1 count stp x f g k h =>
    rw [Lbfgs.btLoop]
    rw [btDecide_real, dot_real] at h
    simp only [x, f, g, vecadd_real] at h
    simp only [h]; rfl
  | case2 count stp x f g k w h h1 =>
    rw [Lbfgs.btLoop]
    rw [btDecide_real, dot_real] at h
    simp only [x, f, g, vecadd_real] at h
    rw [lt_r] at h1
    simp only [h]
    rw [if_pos (show stp < (toPar p).minStep from h1)]; rfl
  | case3 count stp x f g k w h h1 h2 =>
    rw [Lbfgs.btLoop]
    rw [btDecide_real, dot_real] at h
    simp only [x, f, g, vecadd_real] at h
    rw [lt_r] at h1 h2
    simp only [h]
    rw [if_neg (show ¬ stp < (toPar p).minStep from h1), if_pos (show stp > (toPar p).maxStep from h2)]; rfl
  | case4 count stp x f g k w h h1 h2 h3 =>
    rw [Lbfgs.btLoop]
    rw [btDecide_real, dot_real] at h
    simp only [x, f, g, vecadd_real] at h
    rw [lt_r] at h1 h2
    simp only [h]
    rw [if_neg (show ¬ stp < (toPar p).minStep from h1), if_neg (show ¬ stp > (toPar p).maxStep from h2), if_pos (show (toPar p).maxLinesearch ≤ _ from h3)]; rfl
  | case5 count stp x f g k w h h1 h2 h3 ih =>
    rw [Lbfgs.btLoop]
    rw [btDecide_real, dot_real] at h
    simp only [x, f, g, vecadd_real] at h
    rw [lt_r] at h1 h2
    simp only [h]
    rw [if_neg (show ¬ stp < (toPar p).minStep from h1), if_neg (show ¬ stp > (toPar p).maxStep from h2), if_neg (show ¬ (toPar p).maxLinesearch ≤ _ from h3)]; exact ih

theorem cubicMin_real (u fu du w fv dv : ℝ) : cubicMin u fu du w fv dv = Lbfgs.cubicMin u fu du w fv dv := by
  unfold cubicMin Lbfgs.cubicMin
  simp only [add_r, sub_r, mul_r, div_r, neg_r, abs_r, sqrt_r, lt_r, lit_r, max3_real, Rat.cast_ofNat]

theorem cubicMin2_real (u fu du w fv dv a b : ℝ) : cubicMin2 u fu du w fv dv a b = Lbfgs.cubicMin2 u fu du w fv dv a b := by
  unfold cubicMin2 Lbfgs.cubicMin2
  simp only [add_r, sub_r, mul_r, div_r, neg_r, abs_r, sqrt_r, lt_r, eq_r, lit_r, max3_real, max2_real, Rat.cast_ofNat, Rat.cast_zero, ne_eq]

theorem quadMin_real (u fu du w fv : ℝ) : quadMin u fu du w fv = Lbfgs.quadMin u fu du w fv := by
  unfold quadMin Lbfgs.quadMin
  simp only [add_r, sub_r, mul_r, div_r, lit_r, Rat.cast_ofNat]

theorem quadMin2_real (u du w dv : ℝ) : quadMin2 u du w dv = Lbfgs.quadMin2 u du w dv := rfl

theorem selectTrial_real (I : Interval ℝ) (t ft dt tmin tmax : ℝ) (ds : Bool) (P : Prop) (hP : (ds = true) = P) :
    selectTrial I t ft dt tmin tmax ds = Lbfgs.selectTrial (toInt I) t ft dt tmin tmax P := by
  subst hP
  unfold selectTrial Lbfgs.selectTrial toInt
  have h12 : ((1 / 2 : ℚ) : ℝ) = 0.5 := by norm_num
  simp only [add_r, sub_r, mul_r, abs_r, lt_r, lit_r, cubicMin_real, cubicMin2_real, quadMin_real, quadMin2_real, h12, gt_iff_lt]

theorem updateTrial_real (I : Interval ℝ) (t ft dt tmin tmax : ℝ) :
    (updateTrial I t ft dt tmin tmax).map (fun r => (toInt r.1, r.2)) = Lbfgs.updateTrial (toInt I) t ft dt tmin tmax := by
  unfold updateTrial Lbfgs.updateTrial
  have h66 : ((66 / 100 : ℚ) : ℝ) = 0.66 := by norm_num
  have hs := selectTrial_real I t ft dt tmin tmax (dt *. (I.dx /. Arith.abs I.dx) <. c 0) (dt * (I.dx / |I.dx|) < 0) (by rw [lt_r, lit_r, Rat.cast_zero]; rfl)
  dsimp only
  rw [hs]
  have hi : (toInt I).dx = I.dx := rfl
  rw [hi]
  generalize Lbfgs.selectTrial (toInt I) t ft dt tmin tmax (dt * (I.dx / |I.dx|) < 0) = sel
  simp only [add_r, sub_r, mul_r, div_r, abs_r, lt_r, le_r, lit_r, fmin_real, fmax_real, h66, Rat.cast_zero, toInt]
  by_cases h0 : I.brackt = true ∧ (t ≤ min I.x I.y ∨ max I.x I.y ≤ t ∨ 0 ≤ I.dx * (t - I.x) ∨ tmax < tmin)
  · simp only [eq_true h0, ↓reduceIte, Option.map_none]
  · simp only [eq_false h0, ↓reduceIte, Option.map_some]
    by_cases h1 : I.fx < ft
    · simp only [eq_true h1, ↓reduceIte]
    · simp only [eq_false h1, ↓reduceIte]
      by_cases h2 : dt * (I.dx / |I.dx|) < 0
      · simp only [eq_true h2, ↓reduceIte]
      · simp only [eq_false h2, ↓reduceIte]

theorem mtStep_real (p : Params ℝ) (s : MtState ℝ) (count : Nat) : mtStep p s count = Lbfgs.mtStep (toPar p) (toMt s) count := by
  unfold mtStep Lbfgs.mtStep toPar toMt toInt
  simp only [add_r, sub_r, mul_r, lt_r, le_r, lit_r, fmin_real, fmax_real, Rat.cast_ofNat]

theorem mtNext_real (p : Params ℝ) (s : MtState ℝ) (dginit dgtest ftest1 stmin stmax stp f dg : ℝ) :
    toMt (mtNext p s dginit dgtest ftest1 stmin stmax stp f dg) = Lbfgs.mtNext (toPar p) (toMt s) dginit dgtest ftest1 stmin stmax stp f dg := by
  unfold mtNext Lbfgs.mtNext
  have h66 : ((66 / 100 : ℚ) : ℝ) = 0.66 := by norm_num
  have h12 : ((1 / 2 : ℚ) : ℝ) = 0.5 := by norm_num
  simp only [add_r, sub_r, mul_r, abs_r, lt_r, le_r, lit_r, fmin_real, h66, h12]
  have e1 : (toMt s).stage1 = s.stage1 := rfl
  have e2 : (toPar p).ftol = p.ftol := rfl
  have e3 : (toPar p).gtol = p.gtol := rfl
  have e4 : (toMt s).I.fx = s.I.fx := rfl
  rw [e1, e2, e3, e4]
  generalize (if s.stage1 = true ∧ f ≤ ftest1 ∧ min p.ftol p.gtol * dginit ≤ dg then false else s.stage1) = st
  by_cases hc : st = true ∧ ftest1 < f ∧ f ≤ s.I.fx
  · simp only [if_pos hc]
    have hu := updateTrial_real { s.I with fx := s.I.fx - s.I.x * dgtest, fy := s.I.fy - s.I.y * dgtest, dx := s.I.dx - dgtest, dy := s.I.dy - dgtest }
      stp (f - stp * dgtest) (dg - dgtest) stmin stmax
    have hu' : Lbfgs.updateTrial { (toMt s).I with fx := s.I.fx - (toMt s).I.x * dgtest, fy := (toMt s).I.fy - (toMt s).I.y * dgtest, dx := (toMt s).I.dx - dgtest, dy := (toMt s).I.dy - dgtest }
      stp (f - stp * dgtest) (dg - dgtest) stmin stmax = _ := hu.symm
    rw [hu']
    cases updateTrial { s.I with fx := s.I.fx - s.I.x * dgtest, fy := s.I.fy - s.I.y * dgtest, dx := s.I.dx - dgtest, dy := s.I.dy - dgtest }
      stp (f - stp * dgtest) (dg - dgtest) stmin stmax with
    | none =>
      dsimp only [Option.map_none]
      rcases s with ⟨⟨v1, v2, v3, v4, v5, v6, _ | _⟩, v8, v9, v10, v11, v12⟩ <;> rfl
    | some v =>
      dsimp only [Option.map_some]
      rcases v with ⟨⟨v1, v2, v3, v4, v5, v6, _ | _⟩, v8⟩ <;> rfl
  · simp only [if_neg hc]
    have hu' : Lbfgs.updateTrial (toMt s).I stp f dg stmin stmax = _ := (updateTrial_real s.I stp f dg stmin stmax).symm
    rw [hu']
    cases updateTrial s.I stp f dg stmin stmax with
    | none =>
      dsimp only [Option.map_none]
      rcases s with ⟨⟨v1, v2, v3, v4, v5, v6, _ | _⟩, v8, v9, v10, v11, v12⟩ <;> rfl
    | some v =>
      dsimp only [Option.map_some]
      rcases v with ⟨⟨v1, v2, v3, v4, v5, v6, _ | _⟩, v8⟩ <;> rfl

theorem mtLoop_real {n : Nat} (p : Params ℝ) (ev : Eval ℝ n) (xp d : Vec ℝ n) (finit dginit : ℝ) (count : Nat) (s : MtState ℝ) :
    toOut (mtLoop p ev xp d finit dginit count s) = Lbfgs.mtLoop (toPar p) ev xp d finit dginit count (toMt s) := by
  induction hk : (p.maxLinesearch - count).toNat using Nat.strong_induction_on generalizing count s with
  | _ N ih =>
    rw [mtLoop, Lbfgs.mtLoop]
    simp only [mtStep_real, vecadd_real, dot_real, add_r, sub_r, mul_r, neg_r, abs_r, lt_r, le_r, eq_r]
    generalize Lbfgs.mtStep (toPar p) (toMt s) count = st
    obtain ⟨stmin, stmax, stp⟩ := st
    dsimp only
    have e1 : (toMt s).I.brackt = s.I.brackt := rfl
    have e2 : (toMt s).uinfo = s.uinfo := rfl
    have e3 : (toPar p).maxStep = p.maxStep := rfl
    have e4 : (toPar p).minStep = p.minStep := rfl
    have e5 : (toPar p).ftol = p.ftol := rfl
    have e6 : (toPar p).gtol = p.gtol := rfl
    have e7 : (toPar p).xtol = p.xtol := rfl
    have e8 : (toPar p).maxLinesearch = p.maxLinesearch := rfl
    rw [e1, e2, e3, e4, e5, e6, e7, e8]
    split
    · rfl
    split
    · rfl
    split
    · rfl
    split
    · rfl
    split
    · rfl
    split
    · rfl
    rename_i hml _
    rw [ih _ (by omega) (count + 1) _ rfl, mtNext_real]

theorem lineSearch_real {n : Nat} (p : Params ℝ) (ev : Eval ℝ n) (xp : Vec ℝ n) (f : ℝ) (gp d : Vec ℝ n) (stp : ℝ) :
    toOut (lineSearch p ev xp f gp d stp) = Lbfgs.lineSearch (toPar p) ev xp f gp d stp := by
  unfold lineSearch Lbfgs.lineSearch moreThuente backtracking Lbfgs.moreThuente Lbfgs.backtracking
  have e1 : (toPar p).linesearch = p.linesearch := rfl
  simp only [le_r, lt_r, lit_r, dot_real, Rat.cast_zero, Rat.cast_ofNat, sub_r, mul_r, e1]
  split
  · split
    · rfl
    split
    · rfl
    exact mtLoop_real ..
  · split
    · rfl
    split
    · rfl
    exact btLoop_real ..

theorem loop1_real {n : Nat} (m b : Nat) : ∀ (j : Nat) (lm : Nat → Entry ℝ n) (d : Vec ℝ n),
    (fun r => (r.1, (fun i => toEntry (r.2.1 i)), r.2.2)) (loop1 m b j lm d) = Lbfgs.loop1 m b j (fun i => toEntry (lm i)) d := by
  induction b with
  | zero => intro j lm d; rfl
  | succ b ih =>
    intro j lm d
    rw [loop1, Lbfgs.loop1, ih]
    simp only [dot_real, div_r, neg_r, vecadd_real]
    congr 1
    funext i
    simp only [Function.update_apply]
    split <;> rfl

theorem loop2_real {n : Nat} (m b : Nat) : ∀ (j : Nat) (lm : Nat → Entry ℝ n) (d : Vec ℝ n),
    loop2 m b j lm d = Lbfgs.loop2 m b j (fun i => toEntry (lm i)) d := by
  induction b with
  | zero => intro j lm d; rfl
  | succ b ih =>
    intro j lm d
    rw [loop2, Lbfgs.loop2, ih]
    simp only [dot_real, div_r, sub_r, vecadd_real]
    rfl

theorem direction_real {n : Nat} (m b e : Nat) (lm : Nat → Entry ℝ n) (γ : ℝ) (g : Vec ℝ n) :
    (fun r : Vec ℝ n × (Nat → Entry ℝ n) => (r.1, fun i => toEntry (r.2 i))) (direction m b e lm γ g) = Lbfgs.direction m b e (fun i => toEntry (lm i)) γ g := by
  unfold direction Lbfgs.direction
  have h1 := loop1_real m b e lm (fun i => Arith.neg (g i))
  have e1 : (fun i => Arith.neg (g i) : Vec ℝ n) = -g := rfl
  rw [e1] at h1
  simp only [e1, ← h1, loop2_real]
  have : ∀ v : Vec ℝ n, (fun i => v i *. γ : Vec ℝ n) = γ • v := fun v => by funext i; show v i * γ = γ * v i; ring
  rw [this]

theorem converged_real {n : Nat} (p : Params ℝ) (x g : Vec ℝ n) : (converged p x g = true) = (Lbfgs.norm2 g / max (Lbfgs.norm2 x) 1 ≤ p.epsilon) := by
  unfold converged
  simp only [norm2_real, lit_r, Rat.cast_one, lt_r, div_r, le_r]
  congr 2
  split
  · rw [max_eq_right]; linarith
  · rw [max_eq_left]; linarith

/-- A progress callback of the other model, which sees `x`, `g`, `fx` and `k` only. -/
def liftProg {n : Nat} (prog : Lbfgs.Vec n → Lbfgs.Vec n → ℝ → Nat → Int) : Prog ℝ n := fun x g f _ _ _ k _ => prog x g f k

theorem iter_real {n : Nat} (p : Params ℝ) (hp : p.past ≤ 0) (ev : Eval ℝ n) (prog : Lbfgs.Vec n → Lbfgs.Vec n → ℝ → Nat → Int) (s : LState ℝ n) :
    Sum.map toState toRes (iter p ev (liftProg prog) s) = Lbfgs.iter (toPar p) ev prog (toState s) := by
  unfold iter Lbfgs.iter
  have hl := lineSearch_real p ev s.x s.fx s.g s.d s.step
  have hl' : Lbfgs.lineSearch (toPar p) ev (toState s).x (toState s).fx (toState s).g (toState s).d (toState s).step = _ := hl.symm
  simp only [hl']
  generalize lineSearch p ev s.x s.fx s.g s.d s.step = r
  obtain ⟨x, f, g, stp, evals, ret⟩ := r
  cases ret with
  | error e => rfl
  | ok ls =>
    have hn : ¬ 0 < p.past := by omega
    have hn' : ¬ 0 < (toPar p).past := hn
    simp only [hn, hn', false_and, if_false, toOut]
    by_cases h1 : prog x g f s.k ≠ 0
    · rw [if_pos (show liftProg prog x g f (norm2 x) (norm2 g) stp s.k ls ≠ 0 from h1), if_pos (show prog x g f (toState s).k ≠ 0 from h1)]; rfl
    rw [if_neg (show ¬ liftProg prog x g f (norm2 x) (norm2 g) stp s.k ls ≠ 0 from h1), if_neg (show ¬ prog x g f (toState s).k ≠ 0 from h1)]
    by_cases h2 : converged p x g = true
    · rw [if_pos h2, if_pos (show Lbfgs.norm2 g / max (Lbfgs.norm2 x) 1 ≤ (toPar p).epsilon by rw [converged_real] at h2; exact h2)]; rfl
    rw [if_neg h2, if_neg (show ¬ Lbfgs.norm2 g / max (Lbfgs.norm2 x) 1 ≤ (toPar p).epsilon by rw [converged_real] at h2; exact h2)]
    by_cases h3 : p.maxIterations ≠ 0 ∧ p.maxIterations < s.k + 1
    · rw [if_pos h3, if_pos (show (toPar p).maxIterations ≠ 0 ∧ (toPar p).maxIterations < (toState s).k + 1 from h3)]; rfl
    rw [if_neg h3, if_neg (show ¬ ((toPar p).maxIterations ≠ 0 ∧ (toPar p).maxIterations < (toState s).k + 1) from h3)]
    by_cases h4 : p.m ≤ 0
    · rw [if_pos h4, if_pos (show (toPar p).m ≤ 0 from h4)]; rfl
    rw [if_neg h4, if_neg (show ¬ (toPar p).m ≤ 0 from h4)]
    have hd := direction_real p.m.toNat (if p.m.toNat ≤ s.k then p.m.toNat else s.k) ((s.e + 1) % p.m.toNat)
      (Function.update s.lm s.e { alpha := (s.lm s.e).alpha, s := fun i => x i -. s.x i, y := fun i => g i -. s.g i, ys := dot (fun i => g i -. s.g i) (fun i => x i -. s.x i) })
      (dot (fun i => g i -. s.g i) (fun i => x i -. s.x i) /. dot (fun i => g i -. s.g i) (fun i => g i -. s.g i)) g
    have hu : (fun i => toEntry (Function.update s.lm s.e { alpha := (s.lm s.e).alpha, s := fun i => x i -. s.x i, y := fun i => g i -. s.g i, ys := dot (fun i => g i -. s.g i) (fun i => x i -. s.x i) } i))
        = Function.update (toState s).lm (toState s).e { alpha := ((toState s).lm (toState s).e).alpha, s := x - (toState s).x, y := g - (toState s).g, ys := Lbfgs.dot (g - (toState s).g) (x - (toState s).x) } := by
      funext i
      simp only [Function.update_apply, dot_real]
      show toEntry (if i = s.e then _ else _) = if i = s.e then _ else _
      split <;> rfl
    generalize direction p.m.toNat (if p.m.toNat ≤ s.k then p.m.toNat else s.k) ((s.e + 1) % p.m.toNat)
      (Function.update s.lm s.e { alpha := (s.lm s.e).alpha, s := fun i => x i -. s.x i, y := fun i => g i -. s.g i, ys := dot (fun i => g i -. s.g i) (fun i => x i -. s.x i) })
      (dot (fun i => g i -. s.g i) (fun i => x i -. s.x i) /. dot (fun i => g i -. s.g i) (fun i => g i -. s.g i)) g = dir at hd ⊢
    rw [hu, dot_real, dot_real, div_r] at hd
    have hd' : Lbfgs.direction (toPar p).m.toNat (if (toPar p).m.toNat ≤ (toState s).k then (toPar p).m.toNat else (toState s).k) (((toState s).e + 1) % (toPar p).m.toNat)
      (Function.update (toState s).lm (toState s).e { alpha := ((toState s).lm (toState s).e).alpha, s := x - (toState s).x, y := g - (toState s).g, ys := Lbfgs.dot (g - (toState s).g) (x - (toState s).x) })
      (Lbfgs.dot (g - (toState s).g) (x - (toState s).x) / Lbfgs.dot (g - (toState s).g) (g - (toState s).g)) g = _ := hd.symm
    rw [hd']
    show Sum.inl _ = Sum.inl _
    congr 1
    show Lbfgs.LState.mk x f g dir.1 ((1 : ℚ) : ℝ) (s.k + 1) ((s.e + 1) % p.m.toNat) (fun i => toEntry (dir.2 i)) s.pf = Lbfgs.LState.mk x f g dir.1 (1 : ℝ) (s.k + 1) ((s.e + 1) % p.m.toNat) (fun i => toEntry (dir.2 i)) s.pf
    rw [Rat.cast_one]

theorem loop_real {n : Nat} (p : Params ℝ) (hp : p.past ≤ 0) (ev : Eval ℝ n) (prog : Lbfgs.Vec n → Lbfgs.Vec n → ℝ → Nat → Int) (s : LState ℝ n) (i : Nat) (r : Lbfgs.Result n) :
    Lbfgs.Loop (toPar p) ev prog (toState s) i r ↔ ∃ r', Loop p ev (liftProg prog) s i r' ∧ toRes r' = r := by
  constructor
  · intro h
    generalize ht : toState s = t at h
    induction h generalizing s with
    | done h =>
      subst ht
      rw [← iter_real p hp] at h
      cases hi : iter p ev (liftProg prog) s with
      | inl s' => rw [hi] at h; cases h
      | inr r' => rw [hi] at h; exact ⟨r', .done hi, by injection h⟩
    | next h _ ih =>
      subst ht
      rw [← iter_real p hp] at h
      cases hi : iter p ev (liftProg prog) s with
      | inl s' =>
        rw [hi] at h
        obtain ⟨r', h1, h2⟩ := ih s' (by injection h)
        exact ⟨r', .next hi h1, h2⟩
      | inr r' => rw [hi] at h; cases h
  · rintro ⟨r', h, rfl⟩
    induction h with
    | done h => refine .done ?_; rw [← iter_real p hp, h]; rfl
    | next h _ ih => refine .next ?_ ih; rw [← iter_real p hp, h]; rfl

theorem start_real {n : Nat} (p : Params ℝ) (ev : Eval ℝ n) (x0 : Vec ℝ n) : toState (start p ev x0) = Lbfgs.start (toPar p) ev x0 := by
  unfold start Lbfgs.start toState
  simp only [lit_r, div_r, norm2_real, Rat.cast_one, Rat.cast_zero]
  rfl

/-- With exact real arithmetic and without the delta-based test, the runs of the two models of the solver are the same. -/
theorem run_real {n : Nat} (p : Params ℝ) (hp : p.past ≤ 0) (ev : Eval ℝ n) (prog : Lbfgs.Vec n → Lbfgs.Vec n → ℝ → Nat → Int) (x0 : Vec ℝ n) (fx0 : ℝ) (i : Nat) (r : Lbfgs.Result n) :
    Lbfgs.Run (toPar p) ev prog x0 fx0 i r ↔ ∃ r', Run p ev (liftProg prog) x0 fx0 i r' ∧ toRes r' = r := by
  have hc := converged_real p x0 (ev x0).2
  constructor
  · intro h
    cases h with
    | invalid h => rw [← validate_real] at h; exact ⟨_, .invalid h, rfl⟩
    | already h hg =>
      rw [← validate_real] at h
      exact ⟨_, .already h (by rw [hc]; exact hg), rfl⟩
    | run h hg hr =>
      rw [← validate_real] at h
      rw [← start_real] at hr
      obtain ⟨r', h1, h2⟩ := (loop_real p hp ev prog _ i r).1 hr
      exact ⟨r', .run h (by rw [← Bool.not_eq_true, hc]; exact hg) h1, h2⟩
  · rintro ⟨r', h, rfl⟩
    cases h with
    | invalid h => rw [validate_real] at h; exact .invalid h
    | already h hg =>
      rw [validate_real] at h
      exact .already h (by rw [hc] at hg; exact hg)
    | run h hg hr =>
      rw [validate_real] at h
      refine .run h (by rw [← Bool.not_eq_true, hc] at hg; exact hg) ?_
      rw [← start_real]
      exact (loop_real p hp ev prog _ i _).2 ⟨r', hr, rfl⟩

end LbfgsF
end Verif
