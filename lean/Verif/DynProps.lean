import Verif.Dyn
import Verif.OptVarProps
import Verif.LinExprLemmas
import Mathlib.Tactic.Linarith
import Mathlib.Tactic.Ring
import Mathlib.Tactic.FieldSimp
import Mathlib.Tactic.NormNum
import Mathlib.Tactic.Positivity
import Mathlib.Tactic.IntervalCases
import Mathlib.Tactic.LinearCombination
import Mathlib.Algebra.BigOperators.Intervals

/-! C46-C50, C57, C58: friction, centroidal dynamics, torque decomposition, storing the plan, momentum feedback. -/
namespace Verif
namespace Dyn
open Finset LinExpr

/-! ### specification -/

/-- The planned quantities at an assignment `x` of the decision variables. -/
def pCom (c : Ctx) (x : Nat → ℝ) (t a : Nat) : ℝ := x (vcol c.com a t)
/-- Spec: linear momentum of the plan. -/
def pL (c : Ctx) (x : Nat → ℝ) (t a : Nat) : ℝ := x (vcol c.lmom a t)
/-- Spec: angular momentum of the plan. -/
def pH (c : Ctx) (x : Nat → ℝ) (t a : Nat) : ℝ := x (vcol c.amom a t)
/-- Spec: duration of time step `t`. -/
def pDt (c : Ctx) (x : Nat → ℝ) (t : Nat) : ℝ := x (vcol c.dtv 0 t)
/-- Spec: rate of the linear momentum. -/
def pLd (c : Ctx) (x : Nat → ℝ) (t a : Nat) : ℝ := x (vcol c.lmomd a t)
/-- Spec: rate of the angular momentum. -/
def pHd (c : Ctx) (x : Nat → ℝ) (t a : Nat) : ℝ := x (vcol c.amomd a t)
/-- Contact force in units of body weight, world frame. -/
def pF (c : Ctx) (x : Nat → ℝ) (t e a : Nat) : ℝ := x (vcol (c.frc e) a (c.actId t e))
/-- Spec: lower bound variable. -/
def pLb (c : Ctx) (x : Nat → ℝ) (t e a : Nat) : ℝ := x (vcol (c.lb e) a (c.actId t e))
/-- Spec: upper bound variable. -/
def pUb (c : Ctx) (x : Nat → ℝ) (t e a : Nat) : ℝ := x (vcol (c.ub e) a (c.actId t e))
/-- Spec: contact torque. -/
def pTrq (c : Ctx) (x : Nat → ℝ) (t e : Nat) : ℝ := x (vcol (c.trq e) 0 (c.actId t e))
/-- Spec: center of pressure. -/
def pCop (c : Ctx) (x : Nat → ℝ) (t e k : Nat) : ℝ := x (vcol (c.cop e) k (c.actId t e))

/-- Sum over the end-effectors in contact at time `t`. -/
noncomputable def sumActive (c : Ctx) (t : Nat) (f : Nat → ℝ) : ℝ := ∑ e ∈ range c.neff, if c.active t e then f e else 0

/-- Force in the contact frame. -/
noncomputable def pLocal (c : Ctx) (x : Nat → ℝ) (t e k : Nat) : ℝ :=
  pF c x t e 0 * c.rot t e 0 k + pF c x t e 1 * c.rot t e 1 k + pF c x t e 2 * c.rot t e 2 k

/-- Coulomb friction with coefficient `mu` in the contact frame. -/
def Coulomb (mu fx fy fz : ℝ) : Prop := Real.sqrt (fx ^ 2 + fy ^ 2) ≤ mu * fz

/-- Lever arm from the center of mass to the center of pressure. -/
noncomputable def pArm (c : Ctx) (x : Nat → ℝ) (t e a : Nat) : ℝ :=
  c.loc t e a + (c.rot t e a 0 * pCop c x t e 0 + c.rot t e a 1 * pCop c x t e 1) - pCom c x t a

/-! ### evaluation lemmas -/

theorem add_value' (e r : LinExpr ℝ) (x : Nat → ℝ) : (e.add r).getValue x = e.getValue x + r.getValue x := addAssign_value e r x

theorem subC_value (e : LinExpr ℝ) (k : ℝ) (x : Nat → ℝ) : (e.subC k).getValue x = e.getValue x - k := by
  rw [subC, addAssign_value, ofConst_value]; ring

theorem ofVar1_value (v : Nat) (x : Nat → ℝ) : (ofVar v : LinExpr ℝ).getValue x = x v := by
  rw [ofVar_value, one_mul]

theorem fold_active (n : Nat) (act : Nat → Bool) (g : Nat → ℝ) (h0 : ℝ) :
    (List.range n).foldl (fun h e => if act e then h + g e else h) h0 =
      h0 + ∑ e ∈ range n, if act e then g e else 0 := by
  induction n with
  | zero => simp
  | succ n ih =>
    rw [List.range_succ, List.foldl_append, ih, Finset.sum_range_succ]
    simp only [List.foldl_cons, List.foldl_nil]
    split <;> ring

theorem overActive_value (c : Ctx) (t : Nat) (body : Nat → LinExpr ℝ → LinExpr ℝ) (g : Nat → ℝ) (l : LinExpr ℝ) (x : Nat → ℝ)
    (hb : ∀ e l, (body e l).getValue x = l.getValue x + g e) :
    (c.overActive t body l).getValue x = l.getValue x + sumActive c t g := by
  unfold Ctx.overActive sumActive
  rw [← fold_active]
  generalize List.range c.neff = L
  induction L generalizing l with
  | nil => rfl
  | cons e L ih =>
    rw [List.foldl_cons, List.foldl_cons, ih]
    split
    · rw [hb]
    · rfl

theorem quad2_value (a b : LinExpr ℝ) (x : Nat → ℝ) :
    ((QuadExpr.empty.addQuaTerm 1 a).addQuaTerm 1 b).getValue x = a.getValue x ^ 2 + b.getValue x ^ 2 := by
  simp [QuadExpr.addQuaTerm, QuadExpr.empty, QuadExpr.getValue]

theorem integrate (f d : Nat → ℝ) (ini : ℝ) (T : Nat) :
    (∀ t < T, f t = (if t = 0 then ini else f (t - 1)) + d t) ↔ ∀ t < T, f t = ini + ∑ k ∈ range (t + 1), d k := by
  constructor
  · intro h t
    induction t with
    | zero => intro ht; rw [h 0 ht]; simp
    | succ t ih =>
      intro ht
      rw [h _ ht, if_neg (by omega), Nat.add_sub_cancel, ih (by omega), Finset.sum_range_succ _ (t + 1)]; ring
  · intro h t ht
    cases t with
    | zero => rw [h 0 ht]; simp
    | succ t => rw [h _ ht, if_neg (by omega), Nat.add_sub_cancel, h t (by omega), Finset.sum_range_succ _ (t + 1)]; ring

theorem comCons_value (c : Ctx) (x : Nat → ℝ) (t a : Nat) : (c.comCons t a).getValue x =
    pCom c x t a - (if t = 0 then c.iniCom a else pCom c x (t - 1) a) - c.dt t / c.mass * pL c x t a := by
  unfold Ctx.comCons
  split <;> simp only [sub_value, mul_value, ofConst_value, Ctx.vCom, Ctx.vL, ofVar1_value, pCom, pL] <;> ring

theorem lmomCons_value (c : Ctx) (x : Nat → ℝ) (t a : Nat) : (c.lmomCons t a).getValue x =
    pL c x t a - (if t = 0 then c.iniL a else pL c x (t - 1) a) -
      (c.dt t * (c.mass * c.grav a + sumActive c t fun e => c.mg * pF c x t e a) + if t = 0 then c.dt 0 * c.mg * c.ext a else 0) := by
  have hs : sumActive c t (fun e => pF c x t e a * (-c.dt t * c.mg)) =
      -c.dt t * sumActive c t fun e => c.mg * pF c x t e a := by
    unfold sumActive; rw [mul_sum]; refine sum_congr rfl fun e _ => ?_; split <;> ring
  unfold Ctx.lmomCons
  have ho := fun l => overActive_value c t (fun e l => l.addAssign ((c.vF e a t).mul (-c.dt t * c.mg)))
    (fun e => pF c x t e a * (-c.dt t * c.mg)) l x (fun e l => by
      rw [addAssign_value, mul_value, Ctx.vF, ofVar1_value]; rfl)
  by_cases h : t = 0
  · subst h
    simp only [if_true, addAssign_value, mul_value, ofConst_value, ho, sub_value, Ctx.vL, ofVar1_value, hs, pL]; ring
  · simp only [h, if_false, ho, sub_value, ofConst_value, Ctx.vL, ofVar1_value, hs, pL]; ring

theorem amomCons_value (c : Ctx) (x : Nat → ℝ) (t a : Nat) : (c.amomCons t a).getValue x =
    pH c x t a - (if t = 0 then c.iniH a else pH c x (t - 1) a) -
      c.dt t * sumActive c t (fun e => 0.25 * c.mg * (pUb c x t e a - pLb c x t e a) + c.rot t e a 2 * pTrq c x t e) := by
  have hs : sumActive c t (fun e => (pLb c x t e a - pUb c x t e a) * (0.25 * c.dt t * c.mg) + pTrq c x t e * (-c.rot t e a 2 * c.dt t)) =
      -(c.dt t * sumActive c t (fun e => 0.25 * c.mg * (pUb c x t e a - pLb c x t e a) + c.rot t e a 2 * pTrq c x t e)) := by
    unfold sumActive; rw [mul_sum, ← sum_neg_distrib]; refine sum_congr rfl fun e _ => ?_; split <;> ring
  unfold Ctx.amomCons
  rw [overActive_value c t _ (fun e => (pLb c x t e a - pUb c x t e a) * (0.25 * c.dt t * c.mg) + pTrq c x t e * (-c.rot t e a 2 * c.dt t)) _ x
    (fun e l => by
      simp only [addAssign_value, mul_value, sub_value, Ctx.vLb, Ctx.vUb, Ctx.vTrq, ofVar1_value, pLb, pUb, pTrq]; ring), hs]
  split <;> simp only [sub_value, ofConst_value, Ctx.vH, ofVar1_value, pH] <;> ring

theorem cons_iff {T : Nat} {x : Nat → ℝ} {k1 k2 k3 : Nat → Nat → LinExpr ℝ} :
    (∀ l ∈ (List.range T).flatMap fun t => (List.range 3).map (k1 t) ++ (List.range 3).map (k2 t) ++ (List.range 3).map (k3 t),
      l.getValue x = 0) ↔
    ∀ a < 3, (∀ t < T, (k1 t a).getValue x = 0) ∧ (∀ t < T, (k2 t a).getValue x = 0) ∧ ∀ t < T, (k3 t a).getValue x = 0 := by
  simp only [List.mem_flatMap, List.mem_range, List.mem_append, List.mem_map]
  constructor
  · intro h a ha
    exact ⟨fun t ht => h _ ⟨t, ht, Or.inl (Or.inl ⟨a, ha, rfl⟩)⟩, fun t ht => h _ ⟨t, ht, Or.inl (Or.inr ⟨a, ha, rfl⟩)⟩,
      fun t ht => h _ ⟨t, ht, Or.inr ⟨a, ha, rfl⟩⟩⟩
  · rintro h l ⟨t, ht, (⟨a, ha, rfl⟩ | ⟨a, ha, rfl⟩) | ⟨a, ha, rfl⟩⟩
    · exact (h a ha).1 t ht
    · exact (h a ha).2.1 t ht
    · exact (h a ha).2.2 t ht

theorem rec_iff {f p d : ℝ} : f - p - d = 0 ↔ f = p + d := by constructor <;> intro h <;> linarith

theorem fixed_iff_rec (c : Ctx) (x : Nat → ℝ) : (∀ l ∈ c.fixedCons, l.getValue x = 0) ↔ ∀ a < 3,
    (∀ t < c.T, pCom c x t a = (if t = 0 then c.iniCom a else pCom c x (t - 1) a) + c.dt t / c.mass * pL c x t a) ∧
    (∀ t < c.T, pL c x t a = (if t = 0 then c.iniL a else pL c x (t - 1) a) +
      (c.dt t * (c.mass * c.grav a + sumActive c t fun e => c.mg * pF c x t e a) + if t = 0 then c.dt 0 * c.mg * c.ext a else 0)) ∧
    (∀ t < c.T, pH c x t a = (if t = 0 then c.iniH a else pH c x (t - 1) a) +
      c.dt t * sumActive c t (fun e => 0.25 * c.mg * (pUb c x t e a - pLb c x t e a) + c.rot t e a 2 * pTrq c x t e)) := by
  rw [Ctx.fixedCons, cons_iff]
  simp only [comCons_value, lmomCons_value, amomCons_value, rec_iff]

theorem sum_ext_once (t : Nat) (d : Nat → ℝ) (k : ℝ) :
    ∑ i ∈ range (t + 1), (d i + if i = 0 then k else 0) = ∑ i ∈ range (t + 1), d i + k := by
  rw [sum_add_distrib, Finset.sum_ite_eq' (range (t + 1)) 0 (fun _ => k)]; simp

/-! ### C47: momentum dynamics -/

/-- C47 for planning with fixed timing: an assignment satisfies all dynamics constraints handed to the solver if and only if,
at every time step and axis, the center of mass is the initial one plus the time integral of momentum over mass, the linear
momentum is the initial one plus the time integral of gravity and of the forces in contact plus the external push of the first
step, and the angular momentum is the initial one plus the integral of the contact torques (in terms of the bounds `ub`, `lb`
of C48). Missing for the full C47: planning with optimised timing drops the external push (next theorem). -/
theorem C47_momentum_fixed_timing_partial (c : Ctx) (x : Nat → ℝ) :
    (∀ l ∈ c.fixedCons, l.getValue x = 0) ↔ ∀ a < 3, ∀ t < c.T,
      pCom c x t a = c.iniCom a + ∑ k ∈ range (t + 1), c.dt k / c.mass * pL c x k a ∧
      pL c x t a = c.iniL a + ∑ k ∈ range (t + 1), c.dt k * (c.mass * c.grav a + sumActive c k fun e => c.mg * pF c x k e a)
        + c.dt 0 * c.mg * c.ext a ∧
      pH c x t a = c.iniH a + ∑ k ∈ range (t + 1), c.dt k *
        sumActive c k (fun e => 0.25 * c.mg * (pUb c x k e a - pLb c x k e a) + c.rot k e a 2 * pTrq c x k e) := by
  rw [fixed_iff_rec]
  simp only [integrate (fun t => pCom c x t _), integrate (fun t => pL c x t _), integrate (fun t => pH c x t _), sum_ext_once]
  constructor
  · intro h a ha t ht
    obtain ⟨h1, h2, h3⟩ := h a ha
    exact ⟨h1 t ht, by rw [h2 t ht]; ring, h3 t ht⟩
  · intro h a ha
    exact ⟨fun t ht => (h a ha t ht).1, fun t ht => by rw [(h a ha t ht).2.1]; ring, fun t ht => (h a ha t ht).2.2⟩

theorem tLmomCons_value (c : Ctx) (x : Nat → ℝ) (t a : Nat) : (c.tLmomCons t a).getValue x =
    pL c x t a - (if t = 0 then c.iniL a else pL c x (t - 1) a) - c.dt t * pLd c x t a := by
  unfold Ctx.tLmomCons
  split <;> simp only [sub_value, mul_value, ofConst_value, Ctx.vL, Ctx.vLd, ofVar1_value, pLd, pL] <;> ring

theorem tAmomCons_value (c : Ctx) (x : Nat → ℝ) (t a : Nat) : (c.tAmomCons t a).getValue x =
    pH c x t a - (if t = 0 then c.iniH a else pH c x (t - 1) a) - c.dt t * pHd c x t a := by
  unfold Ctx.tAmomCons
  split <;> simp only [sub_value, mul_value, ofConst_value, Ctx.vH, Ctx.vHd, ofVar1_value, pHd, pH] <;> ring

theorem lmomdCons_value (c : Ctx) (x : Nat → ℝ) (t a : Nat) : (c.lmomdCons t a).getValue x =
    c.mass * c.grav a + (sumActive c t fun e => c.mg * pF c x t e a) - pLd c x t a := by
  unfold Ctx.lmomdCons
  rw [overActive_value c t _ (fun e => c.mg * pF c x t e a) _ x (fun e l => by
    rw [addAssign_value, mul_value, Ctx.vF, ofVar1_value, pF]; ring)]
  simp only [sub_value, ofConst_value, Ctx.vLd, ofVar1_value, pLd]; ring

theorem amomdCons_value (c : Ctx) (x : Nat → ℝ) (t a : Nat) : (c.amomdCons t a).getValue x =
    sumActive c t (fun e => 0.25 * c.mg * (pUb c x t e a - pLb c x t e a) + c.rot t e a 2 * pTrq c x t e) - pHd c x t a := by
  unfold Ctx.amomdCons
  rw [overActive_value c t _ (fun e => 0.25 * c.mg * (pUb c x t e a - pLb c x t e a) + c.rot t e a 2 * pTrq c x t e) _ x
    (fun e l => by
      simp only [addAssign_value, mul_value, sub_value, Ctx.vLb, Ctx.vUb, Ctx.vTrq, ofVar1_value, pLb, pUb, pTrq]; ring)]
  simp only [sub_value, ofConst_value, Ctx.vHd, ofVar1_value, pHd]; ring

theorem mem5 {T : Nat} {x : Nat → ℝ} {k1 k2 k3 k4 k5 : Nat → Nat → LinExpr ℝ}
    (h : ∀ l ∈ (List.range T).flatMap fun t => (List.range 3).map (k1 t) ++ (List.range 3).map (k2 t) ++ (List.range 3).map (k3 t) ++
      (List.range 3).map (k4 t) ++ (List.range 3).map (k5 t), l.getValue x = 0) (t a : Nat) (ht : t < T) (ha : a < 3) :
    (k1 t a).getValue x = 0 ∧ (k2 t a).getValue x = 0 ∧ (k3 t a).getValue x = 0 ∧ (k4 t a).getValue x = 0 ∧ (k5 t a).getValue x = 0 := by
  simp only [List.mem_flatMap, List.mem_range, List.mem_append, List.mem_map] at h
  exact ⟨h _ ⟨t, ht, .inl (.inl (.inl (.inl ⟨a, ha, rfl⟩)))⟩, h _ ⟨t, ht, .inl (.inl (.inl (.inr ⟨a, ha, rfl⟩)))⟩,
    h _ ⟨t, ht, .inl (.inl (.inr ⟨a, ha, rfl⟩))⟩, h _ ⟨t, ht, .inl (.inr ⟨a, ha, rfl⟩)⟩, h _ ⟨t, ht, .inr ⟨a, ha, rfl⟩⟩⟩

/-- C47 is false of the code with optimised timing: the constraints do not depend on the external force at all, and every
solution of the first iteration integrates gravity and contact forces only. -/
theorem C47_time_optimisation_ignores_disturbance (c : Ctx) :
    (∀ e' lVal ldVal hdVal, ({c with ext := e'} : Ctx).timeConsFirst = c.timeConsFirst ∧
      ({c with ext := e'} : Ctx).timeConsLater lVal ldVal hdVal = c.timeConsLater lVal ldVal hdVal) ∧
    ∀ x, (∀ l ∈ c.timeConsFirst, l.getValue x = 0) → ∀ a < 3, ∀ t < c.T,
      pCom c x t a = c.iniCom a + ∑ k ∈ range (t + 1), c.dt k / c.mass * pL c x k a ∧
      pL c x t a = c.iniL a + ∑ k ∈ range (t + 1), c.dt k * (c.mass * c.grav a + sumActive c k fun e => c.mg * pF c x k e a) ∧
      pH c x t a = c.iniH a + ∑ k ∈ range (t + 1), c.dt k *
        sumActive c k (fun e => 0.25 * c.mg * (pUb c x k e a - pLb c x k e a) + c.rot k e a 2 * pTrq c x k e) := by
  refine ⟨fun _ _ _ _ => ⟨rfl, rfl⟩, fun x h a ha => ?_⟩
  have key := fun t (ht : t < c.T) => mem5 h t a ht ha
  simp only [comCons_value, tLmomCons_value, tAmomCons_value, lmomdCons_value, amomdCons_value] at key
  have h1 := (integrate (fun t => pCom c x t a) (fun t => c.dt t / c.mass * pL c x t a) (c.iniCom a) c.T).mp
    (fun t ht => rec_iff.mp (key t ht).1)
  have h2 := (integrate (fun t => pL c x t a)
    (fun t => c.dt t * (c.mass * c.grav a + sumActive c t fun e => c.mg * pF c x t e a)) (c.iniL a) c.T).mp
    (fun t ht => by
      obtain ⟨-, k2, -, k4, -⟩ := key t ht
      rw [show c.mass * c.grav a + (sumActive c t fun e => c.mg * pF c x t e a) = pLd c x t a by linarith]
      exact rec_iff.mp k2)
  have h3 := (integrate (fun t => pH c x t a)
    (fun t => c.dt t * sumActive c t (fun e => 0.25 * c.mg * (pUb c x t e a - pLb c x t e a) + c.rot t e a 2 * pTrq c x t e))
    (c.iniH a) c.T).mp
    (fun t ht => by
      obtain ⟨-, -, k3, -, k5⟩ := key t ht
      rw [show sumActive c t (fun e => 0.25 * c.mg * (pUb c x t e a - pLb c x t e a) + c.rot t e a 2 * pTrq c x t e) = pHd c x t a by linarith]
      exact rec_iff.mp k3)
  exact fun t ht => ⟨h1 t ht, h2 t ht, h3 t ht⟩

/-! ### C57: linearised dynamics of the time optimisation -/

theorem tangentProd_value (u v : LinExpr ℝ) (uv vv k : ℝ) (x : Nat → ℝ) :
    (Ctx.tangentProd u v uv vv k).getValue x =
      4 * k * (u.getValue x * v.getValue x - (u.getValue x - uv) * (v.getValue x - vv)) := by
  unfold Ctx.tangentProd
  simp only [sub_value, mul_value, add_value', ofConst_value, subC_value]; ring

/-- C57: every solution of the constraints of a later iteration of the time optimisation satisfies the dynamics
with the optimised time steps up to exactly the product of the two deviations from the linearisation point; the momentum rates
are gravity plus contact forces and the contact torques. In particular it satisfies them exactly where the time step (or the
momentum, resp. rate) equals the value it was linearised at. -/
theorem C57_linearised_dynamics (c : Ctx) (hm : c.mass ≠ 0) (lVal ldVal hdVal : Nat → Nat → ℝ) (x : Nat → ℝ)
    (h : ∀ l ∈ c.timeConsLater lVal ldVal hdVal, l.getValue x = 0) : ∀ t < c.T, ∀ a < 3,
      pCom c x t a = (if t = 0 then c.iniCom a else pCom c x (t - 1) a) + 1 / c.mass *
        (pDt c x t * pL c x t a - (pDt c x t - c.dt t) * (pL c x t a - lVal t a)) ∧
      pL c x t a = (if t = 0 then c.iniL a else pL c x (t - 1) a) +
        (pDt c x t * pLd c x t a - (pDt c x t - c.dt t) * (pLd c x t a - ldVal t a)) ∧
      pH c x t a = (if t = 0 then c.iniH a else pH c x (t - 1) a) +
        (pDt c x t * pHd c x t a - (pDt c x t - c.dt t) * (pHd c x t a - hdVal t a)) ∧
      pLd c x t a = c.mass * c.grav a + (sumActive c t fun e => c.mg * pF c x t e a) ∧
      pHd c x t a = sumActive c t (fun e => 0.25 * c.mg * (pUb c x t e a - pLb c x t e a) + c.rot t e a 2 * pTrq c x t e) := by
  intro t ht a ha
  obtain ⟨k1, k2, k3, k4, k5⟩ := mem5 h t a ht ha
  rw [lmomdCons_value] at k4
  rw [amomdCons_value] at k5
  unfold Ctx.lComCons at k1
  unfold Ctx.lLmomCons at k2
  unfold Ctx.lAmomCons at k3
  simp only [addAssign_value, tangentProd_value, ofConst_value, Ctx.vDt, Ctx.vL, Ctx.vLd, Ctx.vHd, ofVar1_value] at k1 k2 k3
  refine ⟨?_, ?_, ?_, by linarith, by linarith⟩
  · by_cases h0 : t = 0
    · simp only [h0, if_true, sub_value, ofConst_value, Ctx.vCom, ofVar1_value, pCom, pDt, pL] at k1 ⊢
      have e : 4 * (0.25 / c.mass) = 1 / c.mass := by field_simp; norm_num
      rw [e] at k1; linarith
    · simp only [h0, if_false, sub_value, Ctx.vCom, ofVar1_value, pCom, pDt, pL] at k1 ⊢
      have e : 4 * (0.25 / c.mass) = 1 / c.mass := by field_simp; norm_num
      rw [e] at k1; linarith
  · by_cases h0 : t = 0
    · simp only [h0, if_true, sub_value, ofConst_value, ofVar1_value, pLd, pDt, pL] at k2 ⊢; linarith
    · simp only [h0, if_false, sub_value, ofVar1_value, pLd, pDt, pL] at k2 ⊢; linarith
  · by_cases h0 : t = 0
    · simp only [h0, if_true, sub_value, ofConst_value, Ctx.vH, ofVar1_value, pHd, pDt, pH] at k3 ⊢; linarith
    · simp only [h0, if_false, sub_value, Ctx.vH, ofVar1_value, pHd, pDt, pH] at k3 ⊢; linarith

/-! ### C48: torque decomposition -/

theorem len_value (c : Ctx) (x : Nat → ℝ) (t e a : Nat) : (c.len t e a).getValue x = pArm c x t e a := by
  unfold Ctx.len pArm
  simp only [add_value', sub_value, mul_value, ofConst_value, Ctx.vCom, Ctx.vCop, ofVar1_value, pCom, pCop]; ring

theorem lenVal_eq (c : Ctx) (x : Nat → ℝ) (t e a : Nat) : c.lenVal x t e a = pArm c x t e a := by
  unfold Ctx.lenVal pArm pCop pCom; ring

/-- C48: for every active end-effector, axis and assignment, a quarter of the difference of the two quadratic expressions
bounded by `ub` and `lb` is the cross product of lever arm and force; so if the two bounds are tight, a quarter of `ub - lb`
is the cross product. -/
theorem C48_decomposition (c : Ctx) (x : Nat → ℝ) (t e a : Nat) (ha : a < 3) :
    0.25 * ((c.ubQuad t e a).getValue x - (c.lbQuad t e a).getValue x) = Ctx.cross (pArm c x t e) (pF c x t e) a ∧
    ((c.ubQuad t e a).getValue x = pUb c x t e a → (c.lbQuad t e a).getValue x = pLb c x t e a →
      0.25 * (pUb c x t e a - pLb c x t e a) = Ctx.cross (pArm c x t e) (pF c x t e) a) := by
  have key : 0.25 * ((c.ubQuad t e a).getValue x - (c.lbQuad t e a).getValue x) = Ctx.cross (pArm c x t e) (pF c x t e) a := by
    interval_cases a <;>
      simp only [Ctx.ubQuad, Ctx.lbQuad, quad2_value, add_value', sub_value, Ctx.negL, ofConst_value, len_value, Ctx.vF,
        ofVar1_value, Ctx.cross, pF] <;> ring
  exact ⟨key, fun h1 h2 => by rw [← h1, ← h2]; exact key⟩

/-- All bounds of the decomposition are tight at `x`. -/
def Tight (c : Ctx) (x : Nat → ℝ) : Prop := ∀ t < c.T, ∀ e < c.neff, c.active t e = true → ∀ a < 3,
  (c.ubQuad t e a).getValue x = pUb c x t e a ∧ (c.lbQuad t e a).getValue x = pLb c x t e a

theorem tight_sum (c : Ctx) (x : Nat → ℝ) (ht : Tight c x) (t : Nat) (hT : t < c.T) (a : Nat) (ha : a < 3) :
    sumActive c t (fun e => 0.25 * c.mg * (pUb c x t e a - pLb c x t e a) + c.rot t e a 2 * pTrq c x t e) =
    sumActive c t (fun e => Ctx.cross (pArm c x t e) (fun b => c.mg * pF c x t e b) a + c.rot t e a 2 * pTrq c x t e) := by
  unfold sumActive
  refine sum_congr rfl fun e he => ?_
  split
  · next hact =>
    obtain ⟨h1, h2⟩ := ht t hT e (mem_range.mp he) hact a ha
    have := (C48_decomposition c x t e a ha).2 h1 h2
    have hc : Ctx.cross (pArm c x t e) (fun b => c.mg * pF c x t e b) a = c.mg * Ctx.cross (pArm c x t e) (pF c x t e) a := by
      interval_cases a <;> simp only [Ctx.cross] <;> ring
    beta_reduce; rw [hc, ← this]; ring
  · rfl

theorem angmom_eq (c : Ctx) (x : Nat → ℝ) (t a : Nat) : c.angmom x t a = c.iniH a + ∑ k ∈ range (t + 1), c.dt k *
    sumActive c k (fun e => Ctx.cross (pArm c x k e) (fun b => c.mg * pF c x k e b) a + c.rot k e a 2 * pTrq c x k e) := by
  have hstep : ∀ k h0, (List.range c.neff).foldl (fun h e => if c.active k e
      then h + c.dt k * (Ctx.cross (c.lenVal x k e) (c.frcVal x k e) a + c.trqVal x k e a) else h) h0 =
      h0 + c.dt k * sumActive c k (fun e => Ctx.cross (pArm c x k e) (fun b => c.mg * pF c x k e b) a + c.rot k e a 2 * pTrq c x k e) := by
    intro k h0
    rw [fold_active c.neff (c.active k) (fun e => c.dt k * (Ctx.cross (c.lenVal x k e) (c.frcVal x k e) a + c.trqVal x k e a))]
    congr 1
    unfold sumActive
    rw [mul_sum]
    refine sum_congr rfl fun e _ => ?_
    have e1 : c.lenVal x k e = pArm c x k e := funext fun b => lenVal_eq c x k e b
    split
    · rw [e1]; rfl
    · ring
  induction t with
  | zero => rw [Ctx.angmom, hstep]; simp
  | succ t ih => rw [Ctx.angmom, hstep, ih, Finset.sum_range_succ _ (t + 1)]; ring

/-- C48, consequence: if the dynamics constraints hold and the bounds are tight, then the planned angular momentum equals, at
every step, the initial one plus the integral of lever arm times force plus the contact torques, which is what the code
recomputes from the solution. -/
theorem C48_tight_angular_momentum (c : Ctx) (x : Nat → ℝ) (h : ∀ l ∈ c.fixedCons, l.getValue x = 0) (ht : Tight c x) :
    ∀ t < c.T, ∀ a < 3, pH c x t a = c.angmom x t a ∧
      pH c x t a = c.iniH a + ∑ k ∈ range (t + 1), c.dt k *
        sumActive c k (fun e => Ctx.cross (pArm c x k e) (fun b => c.mg * pF c x k e b) a + c.rot k e a 2 * pTrq c x k e) := by
  intro t hT a ha
  have h3 := ((C47_momentum_fixed_timing_partial c x).mp h a ha t hT).2.2
  rw [angmom_eq]
  have : pH c x t a = c.iniH a + ∑ k ∈ range (t + 1), c.dt k *
        sumActive c k (fun e => Ctx.cross (pArm c x k e) (fun b => c.mg * pF c x k e b) a + c.rot k e a 2 * pTrq c x k e) := by
    rw [h3]
    congr 1
    refine sum_congr rfl fun k hk => ?_
    rw [tight_sum c x ht k (by have := mem_range.mp hk; omega) a ha]
  exact ⟨this, this⟩

/-! ### C46: friction -/

theorem coneRow_value (mu : ℝ) : ∃ N : ℝ, 0 < N ∧
    (∀ k, coneRow mu 0 k = (match k with | 0 => 0.5 * Real.sqrt 2 | 1 => 0.5 * Real.sqrt 2 | _ => -clampMu mu) / N) ∧
    (coneRow mu 1 0 = -(0.5 * Real.sqrt 2) / N ∧ coneRow mu 1 1 = 0.5 * Real.sqrt 2 / N ∧ coneRow mu 1 2 = -clampMu mu / N) ∧
    (coneRow mu 2 0 = -(0.5 * Real.sqrt 2) / N ∧ coneRow mu 2 1 = -(0.5 * Real.sqrt 2) / N ∧ coneRow mu 2 2 = -clampMu mu / N) ∧
    (coneRow mu 3 0 = 0.5 * Real.sqrt 2 / N ∧ coneRow mu 3 1 = -(0.5 * Real.sqrt 2) / N ∧ coneRow mu 3 2 = -clampMu mu / N) := by
  have hang : 2 * Real.pi / 4 = Real.pi / 2 := by ring
  have hr : ∀ v : Nat → ℝ, rotZ v 0 = - v 1 ∧ rotZ v 1 = v 0 ∧ rotZ v 2 = v 2 := fun v => by
    refine ⟨?_, ?_, rfl⟩
    · show Real.cos (2 * Real.pi / 4) * v 0 - Real.sin (2 * Real.pi / 4) * v 1 = _
      rw [hang, Real.cos_pi_div_two, Real.sin_pi_div_two]; ring
    · show Real.sin (2 * Real.pi / 4) * v 0 + Real.cos (2 * Real.pi / 4) * v 1 = _
      rw [hang, Real.cos_pi_div_two, Real.sin_pi_div_two]; ring
  refine ⟨Real.sqrt (coneVec mu 0 ^ 2 + coneVec mu 1 ^ 2 + coneVec mu 2 ^ 2), ?_, ?_, ?_⟩
  · apply Real.sqrt_pos.mpr
    have : 0 < coneVec mu 0 ^ 2 := by
      show 0 < (0.5 * Real.sqrt 2) ^ 2
      positivity
    positivity
  · intro k
    match k with
    | 0 => rfl
    | 1 => rfl
    | k + 2 => rfl
  · set N := Real.sqrt (coneVec mu 0 ^ 2 + coneVec mu 1 ^ 2 + coneVec mu 2 ^ 2) with hN
    have a0 : coneRow mu 0 0 = 0.5 * Real.sqrt 2 / N := rfl
    have a1 : coneRow mu 0 1 = 0.5 * Real.sqrt 2 / N := rfl
    have a2 : coneRow mu 0 2 = -clampMu mu / N := rfl
    have s : ∀ i, coneRow mu (i + 1) 0 = - coneRow mu i 1 ∧ coneRow mu (i + 1) 1 = coneRow mu i 0 ∧
      coneRow mu (i + 1) 2 = coneRow mu i 2 := fun i => hr (coneRow mu i)
    obtain ⟨b0, b1, b2⟩ := s 0
    obtain ⟨c0, c1, c2⟩ := s 1
    obtain ⟨d0, d1, d2⟩ := s 2
    simp only [Nat.zero_add, Nat.reduceAdd] at b0 b1 b2 c0 c1 c2 d0 d1 d2
    rw [a1] at b0
    rw [a0] at b1
    rw [a2] at b2
    rw [b1] at c0
    rw [b0] at c1
    rw [b2] at c2
    rw [c1] at d0
    rw [c0] at d1
    rw [c2] at d2
    exact ⟨⟨by rw [b0]; ring, b1, b2⟩, ⟨by rw [c0]; ring, by rw [c1]; ring, c2⟩, ⟨by rw [d0]; ring, by rw [d1]; ring, d2⟩⟩

theorem frictionRow_value (c : Ctx) (mu : ℝ) (x : Nat → ℝ) (t e i : Nat) : (c.frictionRow mu t e i).getValue x =
    coneRow mu i 0 * pLocal c x t e 0 + coneRow mu i 1 * pLocal c x t e 1 + coneRow mu i 2 * pLocal c x t e 2 := by
  unfold Ctx.frictionRow pLocal
  rw [show List.range 3 = [0, 1, 2] from rfl]
  simp only [List.foldl_cons, List.foldl_nil, addAssign_value, mul_value, ofConst_value, Ctx.vF, ofVar1_value, pF]; ring

/-- The four linear friction constraints of one contact. -/
def PyramidHolds (c : Ctx) (mu : ℝ) (x : Nat → ℝ) (t e : Nat) : Prop := ∀ i < 4, (c.frictionRow mu t e i).getValue x ≤ 0

theorem pyramid_iff (c : Ctx) (mu : ℝ) (x : Nat → ℝ) (t e : Nat) : PyramidHolds c mu x t e ↔
    |pLocal c x t e 0| + |pLocal c x t e 1| ≤ Real.sqrt 2 * (clampMu mu * pLocal c x t e 2) := by
  obtain ⟨N, hN, r0, ⟨r10, r11, r12⟩, ⟨r20, r21, r22⟩, ⟨r30, r31, r32⟩⟩ := coneRow_value mu
  have r00 := r0 0
  have r01 := r0 1
  have r02 := r0 2
  simp only at r00 r01 r02
  set fx := pLocal c x t e 0
  set fy := pLocal c x t e 1
  set fz := pLocal c x t e 2
  have hs : 0 < Real.sqrt 2 := by positivity
  have hss : Real.sqrt 2 * Real.sqrt 2 = 2 := Real.mul_self_sqrt (by norm_num)
  have hrow : ∀ a b : ℝ, ((0.5 * Real.sqrt 2 * a) / N * fx + (0.5 * Real.sqrt 2 * b) / N * fy + -clampMu mu / N * fz ≤ 0) ↔
      a * fx + b * fy ≤ Real.sqrt 2 * (clampMu mu * fz) := by
    intro a b
    have e1 : (0.5 * Real.sqrt 2 * a) / N * fx + (0.5 * Real.sqrt 2 * b) / N * fy + -clampMu mu / N * fz =
        (0.5 * Real.sqrt 2 / N) * (a * fx + b * fy - Real.sqrt 2 * (clampMu mu * fz)) := by
      field_simp
      linear_combination (0.5 * clampMu mu * fz) * hss
    rw [e1]
    have hk : 0 < 0.5 * Real.sqrt 2 / N := by positivity
    constructor
    · intro h; by_contra hc
      have : 0 < a * fx + b * fy - Real.sqrt 2 * (clampMu mu * fz) := by linarith
      have := mul_pos hk this
      linarith
    · intro h; exact mul_nonpos_of_nonneg_of_nonpos hk.le (by linarith)
  have q0 : (c.frictionRow mu t e 0).getValue x ≤ 0 ↔ fx + fy ≤ Real.sqrt 2 * (clampMu mu * fz) := by
    have := hrow 1 1
    rw [frictionRow_value, r00, r01, r02]
    simpa using this
  have q1 : (c.frictionRow mu t e 1).getValue x ≤ 0 ↔ -fx + fy ≤ Real.sqrt 2 * (clampMu mu * fz) := by
    have := hrow (-1) 1
    rw [frictionRow_value, r10, r11, r12]
    simpa using this
  have q2 : (c.frictionRow mu t e 2).getValue x ≤ 0 ↔ -fx - fy ≤ Real.sqrt 2 * (clampMu mu * fz) := by
    have := hrow (-1) (-1)
    rw [frictionRow_value, r20, r21, r22]
    simpa [sub_eq_add_neg] using this
  have q3 : (c.frictionRow mu t e 3).getValue x ≤ 0 ↔ fx - fy ≤ Real.sqrt 2 * (clampMu mu * fz) := by
    have := hrow 1 (-1)
    rw [frictionRow_value, r30, r31, r32]
    simpa [sub_eq_add_neg] using this
  constructor
  · intro h
    have h0 := q0.mp (h 0 (by norm_num)); have h1 := q1.mp (h 1 (by norm_num))
    have h2 := q2.mp (h 2 (by norm_num)); have h3 := q3.mp (h 3 (by norm_num))
    rcases abs_cases fx with ⟨e1, _⟩ | ⟨e1, _⟩ <;> rcases abs_cases fy with ⟨e2, _⟩ | ⟨e2, _⟩ <;> rw [e1, e2] <;> linarith
  · intro h i hi
    have := le_abs_self fx; have := neg_abs_le fx; have := le_abs_self fy; have := neg_abs_le fy
    interval_cases i
    · exact q0.mpr (by linarith)
    · exact q1.mpr (by linarith)
    · exact q2.mpr (by linarith)
    · exact q3.mpr (by linarith)

theorem localForce_value (c : Ctx) (x : Nat → ℝ) (t e k : Nat) : (c.localForce t e k).getValue x = pLocal c x t e k := by
  unfold Ctx.localForce pLocal
  rw [show List.range 3 = [0, 1, 2] from rfl]
  simp only [List.foldl_cons, List.foldl_nil, addAssign_value, mul_value, ofConst_value, Ctx.vF, ofVar1_value, pF]; ring

/-- C46, second-order-cone option: the constraint handed to the solver is exactly Coulomb friction in the contact frame with the
configured coefficient. -/
theorem C46_soc_exact (c : Ctx) (mu : ℝ) (x : Nat → ℝ) (t e : Nat) :
    Real.sqrt ((c.frictionSoc mu t e).1.getValue x) ≤ (c.frictionSoc mu t e).2.getValue x ↔
    Coulomb mu (pLocal c x t e 0) (pLocal c x t e 1) (pLocal c x t e 2) := by
  unfold Ctx.frictionSoc Coulomb
  simp only [quad2_value, mul_value, localForce_value]
  rw [mul_comm mu]

/-- A context with one active end-effector in an unrotated contact, two time steps (used for witnesses). -/
noncomputable def exCtx : Ctx where
  T := 2
  neff := 1
  dt := fun _ => 1
  mass := 2
  mg := 20
  grav := fun a => if a = 2 then -10 else 0
  ext := fun _ => 0
  iniCom := fun _ => 0
  iniL := fun _ => 0
  iniH := fun _ => 0
  active := fun _ e => e == 0
  actId := fun t _ => t
  rot := fun _ _ a b => if a = b then 1 else 0
  loc := fun _ _ _ => 0
  com := ⟨0, 3, 2⟩
  lmom := ⟨6, 3, 2⟩
  amom := ⟨12, 3, 2⟩
  dtv := ⟨18, 1, 2⟩
  lmomd := ⟨20, 3, 2⟩
  amomd := ⟨26, 3, 2⟩
  lb := fun _ => ⟨32, 3, 2⟩
  ub := fun _ => ⟨38, 3, 2⟩
  frc := fun _ => ⟨44, 3, 2⟩
  cop := fun _ => ⟨50, 2, 2⟩
  trq := fun _ => ⟨54, 1, 2⟩

/-- C46 is false of the code for the linear friction model: for every friction coefficient there is a force that satisfies the
four constraints but needs `√2` times the available friction. -/
theorem C46_violated (mu : ℝ) (hmu : 0.001 < mu) : ∃ (c : Ctx) (x : Nat → ℝ) (t e : Nat),
    (∀ k j, c.rot t e k j = if k = j then 1 else 0) ∧ 0 < pLocal c x t e 2 ∧ PyramidHolds c mu x t e ∧
    ¬ Coulomb mu (pLocal c x t e 0) (pLocal c x t e 1) (pLocal c x t e 2) := by
  refine ⟨exCtx, fun v => if v = 44 then Real.sqrt 2 * mu else if v = 46 then 1 else 0, 0, 0, fun _ _ => rfl, ?_⟩
  have hcol : ∀ a, a < 3 → vcol (exCtx.frc 0) a (exCtx.actId 0 0) = 44 + a := fun a ha => by
    interval_cases a <;> rfl
  set x : Nat → ℝ := fun v => if v = 44 then Real.sqrt 2 * mu else if v = 46 then 1 else 0 with hx
  have f0 : pF exCtx x 0 0 0 = Real.sqrt 2 * mu := by rw [pF, hcol 0 (by norm_num)]; simp [hx]
  have f1 : pF exCtx x 0 0 1 = 0 := by rw [pF, hcol 1 (by norm_num)]; simp [hx]
  have f2 : pF exCtx x 0 0 2 = 1 := by rw [pF, hcol 2 (by norm_num)]; simp [hx]
  have l0 : pLocal exCtx x 0 0 0 = Real.sqrt 2 * mu := by
    rw [pLocal, f0, f1, f2]; simp [exCtx]
  have l1 : pLocal exCtx x 0 0 1 = 0 := by rw [pLocal, f0, f1, f2]; simp [exCtx]
  have l2 : pLocal exCtx x 0 0 2 = 1 := by rw [pLocal, f0, f1, f2]; simp [exCtx]
  have hmu0 : 0 < mu := lt_trans (by norm_num) hmu
  refine ⟨by rw [l2]; norm_num, ?_, ?_⟩
  · rw [pyramid_iff, l0, l1, l2, clampMu, if_neg (not_le.mpr hmu), abs_zero, abs_of_pos (by positivity)]; linarith
  · rw [l0, l1, l2, Coulomb]
    rw [show (Real.sqrt 2 * mu) ^ 2 + 0 ^ 2 = (Real.sqrt 2 * mu) ^ 2 by ring, Real.sqrt_sq (by positivity)]
    have : 1 < Real.sqrt 2 := by
      rw [show (1 : ℝ) = Real.sqrt 1 by simp]; exact Real.sqrt_lt_sqrt (by norm_num) (by norm_num)
    nlinarith

/-- C46, what holds of the linear friction model for every contact frame and force: the four constraints say
`|fx|+|fy| ≤ √2 μ fz` (with μ at least 0.001); they admit all forces inside the Coulomb cone of μ and only forces inside the
Coulomb cone of `√2 μ`. Missing: the restriction to the cone of μ itself (false, previous theorem). -/
theorem C46_pyramid_partial (c : Ctx) (mu : ℝ) (x : Nat → ℝ) (t e : Nat) :
    (PyramidHolds c mu x t e ↔ |pLocal c x t e 0| + |pLocal c x t e 1| ≤ Real.sqrt 2 * (max mu 0.001 * pLocal c x t e 2)) ∧
    (Coulomb (max mu 0.001) (pLocal c x t e 0) (pLocal c x t e 1) (pLocal c x t e 2) → PyramidHolds c mu x t e) ∧
    (PyramidHolds c mu x t e → Coulomb (Real.sqrt 2 * max mu 0.001) (pLocal c x t e 0) (pLocal c x t e 1) (pLocal c x t e 2)) := by
  have hcl : clampMu mu = max mu 0.001 := by
    unfold clampMu; split
    · next h => exact (max_eq_right h).symm
    · next h => exact (max_eq_left (not_le.mp h).le).symm
  have hiff := pyramid_iff c mu x t e
  rw [hcl] at hiff
  set fx := pLocal c x t e 0
  set fy := pLocal c x t e 1
  set fz := pLocal c x t e 2
  set m := max mu 0.001
  have hs : 0 < Real.sqrt 2 := by positivity
  refine ⟨hiff, fun h => ?_, fun h => ?_⟩
  · rw [hiff]
    have h1 : |fx| + |fy| ≤ Real.sqrt 2 * Real.sqrt (fx ^ 2 + fy ^ 2) := by
      rw [← Real.sqrt_mul (by norm_num)]
      apply Real.le_sqrt_of_sq_le
      have := sq_abs fx; have := sq_abs fy
      nlinarith [sq_nonneg (|fx| - |fy|)]
    exact h1.trans (mul_le_mul_of_nonneg_left h hs.le)
  · have h1 := hiff.mp h
    unfold Coulomb
    rw [mul_assoc]
    refine le_trans ?_ h1
    apply Real.sqrt_le_iff.mpr
    refine ⟨by positivity, ?_⟩
    have := sq_abs fx; have := sq_abs fy
    nlinarith [mul_nonneg (abs_nonneg fx) (abs_nonneg fy)]

/-! ### C49: storing the plan -/

theorem storeLoop_none {α : Type} (T : Nat) (guess : Nat → α) (s : List α) (h : s.length ≤ T) (hT : 0 < T) :
    storeShifted T guess s = none := by
  obtain ⟨T, rfl⟩ := Nat.exists_eq_succ_of_ne_zero hT.ne'
  unfold storeShifted
  rw [List.range_succ, List.foldl_append]
  simp only [List.foldl_cons, List.foldl_nil]
  have hlen : ∀ (L : List Nat) (s0 s1 : List α), L.foldl (fun s t => s.bind fun s => wrState s (t + 1) (guess t)) (some s0) = some s1 →
      s1.length = s0.length := by
    intro L
    induction L with
    | nil => intro s0 s1 h; simp at h; rw [h]
    | cons t L ih =>
      intro s0 s1 h
      rw [List.foldl_cons, Option.bind_some, wrState] at h
      split at h
      · rw [ih _ _ h, List.length_set]
      · exfalso
        have : ∀ L : List Nat, L.foldl (fun s t => s.bind fun s => wrState s (t + 1) (guess t)) (none : Option (List α)) = none := by
          intro L; induction L with
          | nil => rfl
          | cons _ _ ih => rw [List.foldl_cons]; exact ih
        rw [this] at h; cases h
  cases hf : (List.range T).foldl (fun s t => s.bind fun s => wrState s (t + 1) (guess t)) (some s) with
  | none => rfl
  | some s1 =>
    rw [Option.bind_some, wrState, if_neg (by rw [hlen _ _ _ hf]; omega)]

/-- C49 is false of the code: for every number of time steps, storing center of mass, linear and angular momentum writes
outside the sequence (which has one state per time step). -/
theorem C49_violated {α : Type} (T : Nat) (hT : 0 < T) (guess : Nat → α) (s : List α) (hs : s.length = T) :
    storeCom T guess s = none ∧ storeShifted T guess s = none := by
  refine ⟨?_, storeLoop_none T guess s hs.le hT⟩
  rw [storeCom, wrState, if_pos (by omega), Option.bind_some]
  exact storeLoop_none T guess _ (by rw [List.length_set]; exact hs.le) hT

/-- C49, index: even with room for one more state, step `k` of the solution ends up at index `k+1`, and index 0 is not
written (for the momenta) or holds step 0 a second time (center of mass). -/
theorem C49_shifted_index {α : Type} (T : Nat) (guess : Nat → α) (s : List α) (hs : s.length = T + 1) :
    ∃ s', storeShifted T guess s = some s' ∧ s'.length = T + 1 ∧ s'[0]? = s[0]? ∧ ∀ k < T, s'[k + 1]? = some (guess k) := by
  suffices h : ∀ n, n ≤ T → ∃ s', (List.range n).foldl (fun s t => s.bind fun s => wrState s (t + 1) (guess t)) (some s) = some s' ∧
      s'.length = T + 1 ∧ s'[0]? = s[0]? ∧ ∀ k < n, s'[k + 1]? = some (guess k) from h T le_rfl
  intro n
  induction n with
  | zero => intro _; exact ⟨s, rfl, hs, rfl, fun k hk => absurd hk (by omega)⟩
  | succ n ih =>
    intro hn
    obtain ⟨s', h1, h2, h3, h4⟩ := ih (by omega)
    refine ⟨s'.set (n + 1) (guess n), ?_, by simp [h2], ?_, fun k hk => ?_⟩
    · rw [List.range_succ, List.foldl_append, h1]
      simp only [List.foldl_cons, List.foldl_nil, Option.bind_some]
      rw [wrState, if_pos (by omega)]
    · rw [List.getElem?_set_ne (by omega), h3]
    · by_cases hkn : k = n
      · subst hkn; rw [List.getElem?_set_self (by omega)]
      · rw [List.getElem?_set_ne (by omega)]; exact h4 k (by omega)

/-- C49, what holds: forces, centers of pressure, torques, time steps and momentum rates are stored in bounds with step `k` at
index `k`. Missing: center of mass and momenta. -/
theorem C49_store_partial {α : Type} (T : Nat) (guess : Nat → α) (s : List α) (hs : s.length = T) :
    ∃ s', storeStraight T guess s = some s' ∧ s'.length = T ∧ ∀ k < T, s'[k]? = some (guess k) := by
  suffices h : ∀ n, n ≤ T → ∃ s', (List.range n).foldl (fun s t => s.bind fun s => wrState s t (guess t)) (some s) = some s' ∧
      s'.length = T ∧ ∀ k < n, s'[k]? = some (guess k) from h T le_rfl
  intro n
  induction n with
  | zero => intro _; exact ⟨s, rfl, hs, fun k hk => absurd hk (by omega)⟩
  | succ n ih =>
    intro hn
    obtain ⟨s', h1, h2, h4⟩ := ih (by omega)
    refine ⟨s'.set n (guess n), ?_, by simp [h2], fun k hk => ?_⟩
    · rw [List.range_succ, List.foldl_append, h1]
      simp only [List.foldl_cons, List.foldl_nil, Option.bind_some]
      rw [wrState, if_pos (by omega)]
    · by_cases hkn : k = n
      · subst hkn; rw [List.getElem?_set_self (by omega)]
      · rw [List.getElem?_set_ne (by omega)]; exact h4 k (by omega)

example : storeShifted 2 (fun k => k + 10) [0, 1] = none ∧ storeShifted 2 (fun k => k + 10) [0, 1, 2] = some [0, 10, 11] ∧
    storeStraight 2 (fun k => k + 10) [0, 1] = some [10, 11] := by decide

/-! ### C50: feedback -/

/-- C50 is false of the code: for every accepted problem (sizes agree) with an end-effector, the forward pass reads a state
beyond the end of the reference sequence. -/
theorem C50_violated (neff tdim size : Nat) (hn : 0 < neff) (ha : sizesAccepted tdim size = true) :
    ∃ i ∈ forwardPassReads neff tdim, ¬ i < size := by
  have : tdim = size := by simpa [sizesAccepted] using ha
  subst this
  refine ⟨tdim, ?_, lt_irrefl _⟩
  unfold forwardPassReads objectiveReads
  exact List.mem_append_right _ (List.mem_append_left _ (List.mem_replicate.mpr ⟨hn.ne', rfl⟩))

example : sizesAccepted 3 3 = true ∧ forwardPassReads 1 1 = [0, 0, 0, 0, 0, 0, 0, 1, 0, 0, 0, 0, 0, 0] := by decide

/-- C50, what holds: all other evaluations (running cost at every time step) read existing states; the problem is rejected iff
the sizes differ; and the gain handed out for any requested time is that of an existing step, the requested one if it exists.
Missing: the final cost. -/
theorem C50_reads_partial (neff tdim size : Nat) :
    (sizesAccepted tdim size = true ↔ tdim = size) ∧
    (tdim = size → ∀ t < tdim, ∀ i ∈ objectiveReads neff t, i < size) ∧
    (0 < tdim → ∀ time : Int, 0 ≤ forceGainIndex tdim time ∧ forceGainIndex tdim time < tdim ∧
      (0 ≤ time → time < tdim → forceGainIndex tdim time = time)) := by
  refine ⟨by simp [sizesAccepted], ?_, fun h time => ?_⟩
  · rintro rfl t ht i hi
    unfold objectiveReads at hi
    rcases List.mem_append.mp hi with h | h
    · rw [(List.mem_replicate.mp h).2]; exact ht
    · split at h
      · rw [(List.mem_replicate.mp h).2]; omega
      · rw [(List.mem_replicate.mp h).2]; omega
  · unfold forceGainIndex; omega

/-! ### C58: the feedback model agrees with the plan -/

/-- C58: if the dynamics constraints hold with tight torque bounds, no external push, zero centers of pressure and zero contact
torques, then rolling the feedback controller's model out under the planned forces from the initial state reproduces the planned
center of mass, linear and angular momentum at every step. -/
theorem C58_feedback_model_consistent (c : Ctx) (x : Nat → ℝ) (h : ∀ l ∈ c.fixedCons, l.getValue x = 0) (ht : Tight c x)
    (hext : ∀ a < 3, c.ext a = 0)
    (hcop : ∀ t < c.T, ∀ e < c.neff, c.active t e = true → ∀ k < 2, pCop c x t e k = 0)
    (htrq : ∀ t < c.T, ∀ e < c.neff, c.active t e = true → pTrq c x t e = 0) :
    ∀ t < c.T, ∀ a < 3,
      (fbRollout c c.loc (pF c x) (t + 1)).com a = pCom c x t a ∧
      (fbRollout c c.loc (pF c x) (t + 1)).l a = pL c x t a ∧
      (fbRollout c c.loc (pF c x) (t + 1)).h a = pH c x t a := by
  have hrec := (fixed_iff_rec c x).mp h
  -- state before step `t`
  suffices hS : ∀ t < c.T, (∀ a < 3, (fbRollout c c.loc (pF c x) t).com a = (if t = 0 then c.iniCom a else pCom c x (t - 1) a) ∧
      (fbRollout c c.loc (pF c x) t).l a = (if t = 0 then c.iniL a else pL c x (t - 1) a) ∧
      (fbRollout c c.loc (pF c x) t).h a = (if t = 0 then c.iniH a else pH c x (t - 1) a)) →
      ∀ a < 3, (fbRollout c c.loc (pF c x) (t + 1)).com a = pCom c x t a ∧
      (fbRollout c c.loc (pF c x) (t + 1)).l a = pL c x t a ∧ (fbRollout c c.loc (pF c x) (t + 1)).h a = pH c x t a by
    intro t
    induction t with
    | zero => intro hT; exact hS 0 hT (fun a _ => ⟨rfl, rfl, rfl⟩)
    | succ t ih =>
      intro hT
      refine hS (t + 1) hT (fun a ha => ?_)
      have := ih (by omega) a ha
      simpa using this
  intro t hT hprev
  set S := fbRollout c c.loc (pF c x) t with hSdef
  have hl : ∀ a < 3, S.l a + (List.range c.neff).foldl (fun d e => if c.active t e
      then d + c.dt t * (if c.active t e then c.mg * pF c x t e a else 0) else d) (c.dt t * c.mass * c.grav a) = pL c x t a := by
    intro a ha
    rw [fold_active c.neff (c.active t) (fun e => c.dt t * (if c.active t e then c.mg * pF c x t e a else 0)),
      (hrec a ha).2.1 t hT, (hprev a ha).2.1, hext a ha]
    have : (∑ e ∈ range c.neff, if c.active t e then c.dt t * (if c.active t e then c.mg * pF c x t e a else 0) else 0) =
        c.dt t * sumActive c t (fun e => c.mg * pF c x t e a) := by
      unfold sumActive; rw [mul_sum]; refine sum_congr rfl fun e _ => ?_
      by_cases he : c.active t e = true <;> simp [he]
    rw [this]; simp only [mul_zero, ite_self]; ring
  have hc : ∀ a < 3, S.com a + c.dt t / c.mass * pL c x t a = pCom c x t a := fun a ha => by
    rw [(hrec a ha).1 t hT, (hprev a ha).1]
  intro a ha
  have e1 : (fbRollout c c.loc (pF c x) (t + 1)).l a = pL c x t a := hl a ha
  refine ⟨?_, e1, ?_⟩
  · show S.com a + c.dt t / c.mass * (S.l a + (List.range c.neff).foldl (fun d e => if c.active t e
      then d + c.dt t * (if c.active t e then c.mg * pF c x t e a else 0) else d) (c.dt t * c.mass * c.grav a)) = _
    rw [hl a ha, hc a ha]
  · show S.h a + (List.range c.neff).foldl (fun d e => if c.active t e
      then d + c.dt t * Ctx.cross (fun b => c.loc t e b - (S.com b + c.dt t / c.mass * (S.l b + (List.range c.neff).foldl (fun d e => if c.active t e
      then d + c.dt t * (if c.active t e then c.mg * pF c x t e b else 0) else d) (c.dt t * c.mass * c.grav b))))
        (fun b => if c.active t e then c.mg * pF c x t e b else 0) a else d) 0 = _
    rw [fold_active c.neff (c.active t) (fun e => c.dt t * Ctx.cross _ _ a), (hrec a ha).2.2 t hT, (hprev a ha).2.2,
      tight_sum c x ht t hT a ha, zero_add]
    congr 1
    unfold sumActive
    rw [mul_sum]
    refine sum_congr rfl fun e he => ?_
    have he' := mem_range.mp he
    by_cases hact : c.active t e = true
    · rw [if_pos hact, if_pos hact]; beta_reduce; rw [htrq t hT e he' hact]
      have harm : ∀ b < 3, c.loc t e b - (S.com b + c.dt t / c.mass * (S.l b + (List.range c.neff).foldl (fun d e => if c.active t e
          then d + c.dt t * (if c.active t e then c.mg * pF c x t e b else 0) else d) (c.dt t * c.mass * c.grav b))) =
          pArm c x t e b := fun b hb => by
        rw [hl b hb, hc b hb, pArm, hcop t hT e he' hact 0 (by norm_num), hcop t hT e he' hact 1 (by norm_num)]; ring
      simp only [hact, if_true]
      interval_cases a <;> simp only [Ctx.cross] <;>
        simp only [harm 0 (by norm_num), harm 1 (by norm_num), harm 2 (by norm_num)] <;> ring
    · rw [if_neg hact, if_neg hact, mul_zero]

/-! ### a concrete solution: the robot stands still -/

/-- Contact force balances gravity: `x` is 1 on the vertical force variables and on the bounds they imply. -/
noncomputable def exSol : Nat → ℝ := fun v =>
  if v = 46 ∨ v = 49 then 1 else if v = 38 ∨ v = 39 ∨ v = 41 ∨ v = 42 ∨ v = 32 ∨ v = 33 ∨ v = 35 ∨ v = 36 then 1 else 0

/-- The hypotheses of C47/C48/C58 are met by a non-trivial plan (two steps, gravity balanced by a contact force). -/
theorem ex_plan : (∀ l ∈ exCtx.fixedCons, l.getValue exSol = 0) ∧ Tight exCtx exSol ∧
    (∀ t < 2, pF exCtx exSol t 0 2 = 1 ∧ pUb exCtx exSol t 0 0 = 1) := by
  have hid : ∀ (v : OptVar) (r t : Nat), r < v.rows → t < v.cols → 0 ≤ v.pos → vcol v r t = v.pos.toNat + t * v.rows + r := by
    intro v r t hr ht hp
    have : v.id r t = v.pos + t * v.rows + r := OptVar.id_inside v r t hr ht
    obtain ⟨p, hpp⟩ := Int.eq_ofNat_of_zero_le hp
    rw [vcol, this, hpp]; norm_cast
  have hF : ∀ t < 2, ∀ a < 3, pF exCtx exSol t 0 a = if a = 2 then 1 else 0 := by
    intro t ht a ha
    rw [pF, hid _ _ _ (by exact ha) (by exact ht) (by simp [exCtx])]
    interval_cases t <;> interval_cases a <;> simp [exCtx, exSol]
  have hUb : ∀ t < 2, ∀ a < 3, pUb exCtx exSol t 0 a = if a = 2 then 0 else 1 := by
    intro t ht a ha
    rw [pUb, hid _ _ _ (by exact ha) (by exact ht) (by simp [exCtx])]
    interval_cases t <;> interval_cases a <;> simp [exCtx, exSol]
  have hLb : ∀ t < 2, ∀ a < 3, pLb exCtx exSol t 0 a = if a = 2 then 0 else 1 := by
    intro t ht a ha
    rw [pLb, hid _ _ _ (by exact ha) (by exact ht) (by simp [exCtx])]
    interval_cases t <;> interval_cases a <;> simp [exCtx, exSol]
  have hTr : ∀ t < 2, pTrq exCtx exSol t 0 = 0 := by
    intro t ht
    rw [pTrq, hid _ _ _ (by simp [exCtx]) (by exact ht) (by simp [exCtx])]
    interval_cases t <;> simp [exCtx, exSol]
  have hCop : ∀ t < 2, ∀ k < 2, pCop exCtx exSol t 0 k = 0 := by
    intro t ht k hk
    rw [pCop, hid _ _ _ (by exact hk) (by exact ht) (by simp [exCtx])]
    interval_cases t <;> interval_cases k <;> simp [exCtx, exSol]
  have hCom : ∀ t < 2, ∀ a < 3, pCom exCtx exSol t a = 0 := by
    intro t ht a ha
    rw [pCom, hid _ _ _ (by exact ha) (by exact ht) (by simp [exCtx])]
    interval_cases t <;> interval_cases a <;> simp [exCtx, exSol]
  have hL : ∀ t < 2, ∀ a < 3, pL exCtx exSol t a = 0 := by
    intro t ht a ha
    rw [pL, hid _ _ _ (by exact ha) (by exact ht) (by simp [exCtx])]
    interval_cases t <;> interval_cases a <;> simp [exCtx, exSol]
  have hH : ∀ t < 2, ∀ a < 3, pH exCtx exSol t a = 0 := by
    intro t ht a ha
    rw [pH, hid _ _ _ (by exact ha) (by exact ht) (by simp [exCtx])]
    interval_cases t <;> interval_cases a <;> simp [exCtx, exSol]
  have hsum : ∀ t f, sumActive exCtx t f = f 0 := fun t f => by simp [sumActive, exCtx]
  refine ⟨?_, ?_, fun t ht => ⟨by simpa using hF t ht 2 (by norm_num), by simpa using hUb t ht 0 (by norm_num)⟩⟩
  · rw [fixed_iff_rec]
    intro a ha
    refine ⟨fun t ht => ?_, fun t ht => ?_, fun t ht => ?_⟩
    · have ht' : t < 2 := ht
      rw [hCom t ht' a ha, hL t ht' a ha]
      by_cases h0 : t = 0
      · simp [h0, exCtx]
      · rw [if_neg h0, hCom (t - 1) (by omega) a ha]; simp
    · have ht' : t < 2 := ht
      rw [hL t ht' a ha, hsum, hF t ht' a ha]
      have : (if t = 0 then exCtx.iniL a else pL exCtx exSol (t - 1) a) = 0 := by
        split
        · rfl
        · exact hL (t - 1) (by omega) a ha
      rw [this]
      interval_cases a <;> simp [exCtx]
      norm_num
    · have ht' : t < 2 := ht
      rw [hH t ht' a ha, hsum, hUb t ht' a ha, hLb t ht' a ha, hTr t ht']
      have : (if t = 0 then exCtx.iniH a else pH exCtx exSol (t - 1) a) = 0 := by
        split
        · rfl
        · exact hH (t - 1) (by omega) a ha
      rw [this]; simp
  · intro t ht e he _ a ha
    have he' : e < 1 := he
    have ht' : t < 2 := ht
    obtain rfl : e = 0 := by omega
    have harm : ∀ b < 3, pArm exCtx exSol t 0 b = 0 := fun b hb => by
      rw [pArm, hCop t ht' 0 (by norm_num), hCop t ht' 1 (by norm_num), hCom t ht' b hb]; simp [exCtx]
    have hf : ∀ b < 3, exSol (vcol (exCtx.frc 0) b (exCtx.actId t 0)) = if b = 2 then 1 else 0 := fun b hb => hF t ht' b hb
    rw [hUb t ht' a ha, hLb t ht' a ha]
    interval_cases a <;>
      simp only [Ctx.ubQuad, Ctx.lbQuad, quad2_value, add_value', sub_value, Ctx.negL, ofConst_value, len_value, Ctx.vF,
        ofVar1_value, harm 0 (by norm_num), harm 1 (by norm_num), harm 2 (by norm_num), hf 0 (by norm_num), hf 1 (by norm_num),
        hf 2 (by norm_num)] <;> norm_num

end Dyn
end Verif
