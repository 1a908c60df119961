import Verif.PyManStep

/-! C169-C173: derivatives, value function and gains of `CentroidalLqr`. -/
namespace Verif
namespace PyMan
open Matrix

/-! ### C169: the derivatives of the dynamics -/

/-- The right difference quotient: the change of the next state, from the unperturbed to the perturbed one, per change of entry `i` of the state. -/
noncomputable def quotX (act : ℝ) (x : X) (u : Fin 6 → ℝ) : Mat 12 12 := Matrix.of fun r i => diff (stepVal act x u) (stepVal act (inc x (Pi.single i eps)) u) r / eps

/-- The same for the controls. -/
noncomputable def quotU (act : ℝ) (x : X) (u : Fin 6 → ℝ) : Mat 12 6 := Matrix.of fun r i => diff (stepVal act x u) (stepVal act x (u + Pi.single i eps)) r / eps

lemma diff_antisymm (x y : X) : diff x y = -diff y x := by
  have := C167_antisymm x.q y.q
  funext r
  unfold diff
  rw [this]
  fin_cases r <;> simp

/-- C169 is violated: the matrices of `dynamics_derivatives` are the negatives of the difference quotients, in every state. -/
theorem C169_sign (act : ℝ) (x : X) (u : Fin 6 → ℝ) : fx act x u = -quotX act x u ∧ fu act x u = -quotU act x u := by
  constructor <;> ext r i
  · simp only [fx, quotX, of_apply, Matrix.neg_apply]
    rw [diff_antisymm, Pi.neg_apply, neg_div]
  · simp only [fu, quotU, of_apply, Matrix.neg_apply]
    rw [diff_antisymm, Pi.neg_apply, neg_div]

/-- C169 is violated: by the model moving faster moves the center of mass back: the entry is `-dt` where the derivative is `dt`. -/
theorem C169_violated (act : ℝ) (x : X) (u : Fin 6 → ℝ) : fx act x u 0 3 = -dt ∧ ∀ s : ℝ, (stepVal act (inc x (Pi.single 3 s)) u).c 0 = (stepVal act x u).c 0 + dt * s := by
  have h : ∀ s : ℝ, (stepVal act (inc x (Pi.single 3 s)) u).c 0 = (stepVal act x u).c 0 + dt * s := by
    intro s
    simp only [stepVal, inc, Pi.add_apply, Pi.smul_apply, smul_eq_mul, cons_val_zero]
    rw [Pi.single_eq_of_ne (by decide), Pi.single_eq_same]
    ring
  refine ⟨?_, h⟩
  rw [(C169_sign act x u).1, Matrix.neg_apply]
  have : quotX act x u 0 3 = dt := by
    show ((stepVal act (inc x (Pi.single 3 eps)) u).c 0 - (stepVal act x u).c 0) / eps = dt
    rw [h]
    have : eps ≠ 0 := by norm_num [eps]
    field_simp
    ring
  rw [this]

/-- A stage with the opposite derivatives of the dynamics. -/
def flip {n m : Nat} (s : Stage n m) : Stage n m := { s with A := -s.A, B := -s.B }

lemma flip_q {n m : Nat} (s : Stage n m) (v v' : Val n) (h : v.vxx = v'.vxx) :
    (computeQ (flip s) v').qxx = (computeQ s v).qxx ∧ (computeQ (flip s) v').quu = (computeQ s v).quu ∧ (computeQ (flip s) v').qxu = (computeQ s v).qxu := by
  simp only [computeQ, flip, h, transpose_neg, Matrix.neg_mul, Matrix.mul_neg, neg_neg, and_self]

/-- C169 (what holds): the feedback gains and the second derivatives of the value function do not depend on this sign, so that the stored gains are those of the right difference quotients. -/
theorem C169_gains_partial {n m : Nat} (fin : Val n) (ss : List (Stage n m)) :
    (backward fin (ss.map flip)).1.map Gains.kfb = (backward fin ss).1.map Gains.kfb ∧ (backward fin (ss.map flip)).2.vxx = (backward fin ss).2.vxx := by
  induction ss with
  | nil => simp [backward]
  | cons s ss ih =>
    obtain ⟨h1, h2, h3⟩ := flip_q s _ _ ih.2.symm
    simp only [List.map_cons, backward, valueFn, h1, h2, h3, ih.1, and_self]

/-- A stage built with the right difference quotients. -/
noncomputable def stageRight (p : Par) (t : Nat) : Stage 12 6 := { stage p t with A := quotX (p.act t) (p.x0 t) (p.u0 t), B := quotU (p.act t) (p.x0 t) (p.u0 t) }

/-- C169 (what holds), for the stored gains. -/
theorem C169_stored_partial (p : Par) : (computeGains p).map Gains.kfb = (backward (final p) ((List.range p.N).map (stageRight p))).1.map Gains.kfb := by
  have : (List.range p.N).map (stage p) = ((List.range p.N).map (stageRight p)).map flip := by
    rw [List.map_map]
    apply List.map_congr_left
    intro t _
    simp only [Function.comp, flip, stageRight, stage, (C169_sign _ _ _).1, (C169_sign _ _ _).2]
  unfold computeGains
  rw [this, (C169_gains_partial _ _).1]

/-! ### C170: the second derivatives of the cost -/

/-- Invariant of a loop over `finRange`. -/
lemma fold_inv {n : Nat} {S : Type} (f : S → Fin n → S) (P : Nat → S → Prop) (hstep : ∀ (i : Fin n) s, P i s → P (i + 1) (f s i)) (s : S) (h0 : P 0 s) :
    P n ((List.finRange n).foldl f s) := by
  have key : ∀ j k, k + j = n → ∀ s, P k s → P n (((List.finRange n).drop k).foldl f s) := by
    intro j
    induction j with
    | zero =>
      intro k hk s hs
      rw [List.drop_eq_nil_of_le (by simp; omega)]
      have : k = n := by omega
      subst this
      exact hs
    | succ j ih =>
      intro k hk s hs
      have hlt : k < (List.finRange n).length := by simp; omega
      rw [List.drop_eq_getElem_cons hlt, List.foldl_cons]
      have hg : (List.finRange n)[k] = ⟨k, by omega⟩ := by simp
      rw [hg]
      exact ih (k + 1) (by omega) _ (hstep ⟨k, by omega⟩ s hs)
  simpa using key n 0 (by omega) s h0

/-- The point around which row `r` and column `c` are evaluated on the plus side: the increments never taken back have piled up. -/
noncomputable def base {n : Nat} (r : Fin n) (c : Nat) : Fin n → ℝ := fun j => (if j = r then eps else 0) - 2 * eps * (r : Nat) - (if (j : Nat) < c then 2 * eps else 0)

/-- The number computed for row `r` and column `c`. -/
noncomputable def raw {n : Nat} (F : (Fin n → ℝ) → ℝ) (r c : Fin n) : ℝ :=
  F (base r c + Pi.single c eps) - F (base r c + Pi.single c (-eps)) - F (Pi.single r (-eps) + Pi.single c eps) + F (Pi.single r (-eps) + Pi.single c (-eps))

lemma bump_bump {n : Nat} (d : Fin n → ℝ) (i : Fin n) (a b : ℝ) : bump (bump d i a) i b = d + Pi.single i (a + b) := by
  unfold bump
  rw [add_assoc, Pi.single_add]

lemma cols {n : Nat} (F : (Fin n → ℝ) → ℝ) (row : Fin n) (m : Mat n n) :
    let s := (List.finRange n).foldl (hCol F row) ⟨base row 0, Pi.single row (-eps), m⟩
    s.d1 = base row n ∧ s.d2 = Pi.single row (-eps) ∧ (∀ c, s.m row c = raw F row c) ∧ ∀ r, r ≠ row → s.m r = m r := by
  have := fold_inv (hCol F row) (fun k s => s.d1 = base row k ∧ s.d2 = Pi.single row (-eps) ∧ (∀ c : Fin n, (c : Nat) < k → s.m row c = raw F row c) ∧ ∀ r, r ≠ row → s.m r = m r)
    ?_ ⟨base row 0, Pi.single row (-eps), m⟩ ⟨rfl, rfl, fun c hc => absurd hc (Nat.not_lt_zero _), fun r _ => rfl⟩
  · exact ⟨this.1, this.2.1, fun c => this.2.2.1 c c.2, this.2.2.2⟩
  · rintro c ⟨d1, d2, m'⟩ ⟨h1, h2, h3, h4⟩
    simp only at h1 h2 h3 h4
    subst h1 h2
    refine ⟨?_, ?_, fun j hj => ?_, fun r hr => ?_⟩
    · simp only [hCol]
      rw [bump_bump, bump]
      funext j
      simp only [Pi.add_apply, Pi.single_apply, base]
      by_cases hj : j = c
      · subst hj; simp; ring
      · have e1 : ((j : Nat) < (c : Nat) + 1) ↔ (j : Nat) < c := by
          have : (j : Nat) ≠ c := fun h => hj (Fin.ext h)
          omega
        simp [hj, e1]
    · simp only [hCol]
      rw [bump_bump, bump, add_assoc, ← Pi.single_add]
      have : eps + (-(2 * eps) + eps) = 0 := by ring
      rw [this]; simp
    · simp only [hCol]
      rw [updateRow_self]
      by_cases hjc : j = c
      · subst hjc
        rw [Function.update_self]
        unfold raw
        rw [bump_bump, bump_bump]
        have : eps + -(2 * eps) = -eps := by ring
        rw [this]; rfl
      · rw [Function.update_of_ne hjc]
        have : (j : Nat) ≠ c := fun h => hjc (Fin.ext h)
        exact h3 j (by omega)
    · simp only [hCol]
      rw [updateRow_ne hr]
      exact h4 r hr

lemma rows {n : Nat} (F : (Fin n → ℝ) → ℝ) : ∀ r c, ((List.finRange n).foldl (hRow F) ⟨0, 0, 0⟩).m r c = raw F r c := by
  have := fold_inv (hRow F) (fun k s => (s.d1 = fun _ => -(2 * eps * (k : ℝ))) ∧ s.d2 = 0 ∧ ∀ r : Fin n, (r : Nat) < k → ∀ c, s.m r c = raw F r c)
    ?_ ⟨0, 0, 0⟩ ⟨by funext; simp, rfl, fun c hc => absurd hc (Nat.not_lt_zero _)⟩
  · exact fun r c => this.2.2 r r.2 c
  · rintro row ⟨d1, d2, m'⟩ ⟨h1, h2, h3⟩
    simp only at h1 h2 h3
    subst h1 h2
    have e1 : bump (fun _ => -(2 * eps * (row : ℝ))) row eps = base row 0 := by
      funext j
      simp only [bump, base, Pi.add_apply, Pi.single_apply, Nat.not_lt_zero, if_false]; ring
    have e2 : bump 0 row (-eps) = Pi.single row (-eps) := by simp [bump]
    obtain ⟨c1, c2, c3, c4⟩ := cols F row m'
    simp only [hRow]
    rw [e1, e2]
    refine ⟨?_, ?_, fun r hr c => ?_⟩
    · rw [c1]
      funext j
      simp only [bump, base, Pi.add_apply, Pi.single_apply, j.2, if_true]
      push_cast
      split_ifs <;> ring
    · rw [c2, bump, ← Pi.single_add]; simp
    · by_cases hrr : r = row
      · subst hrr; exact c3 c
      · rw [c4 r hrr]
        have : (r : Nat) ≠ row := fun h => hrr (Fin.ext h)
        exact h3 r (by omega) c

/-- The result of `cost_dxdx`, as a formula. -/
lemma hessian_eq {n : Nat} (F : (Fin n → ℝ) → ℝ) (r c : Fin n) : hessian F r c = (raw F r c + raw F c r) / (8 * eps ^ 2) := by
  unfold hessian
  simp only [Matrix.smul_apply, Matrix.add_apply, transpose_apply, smul_eq_mul, rows]
  have : eps ≠ 0 := by norm_num [eps]
  field_simp
  ring

/-- Entries of an increment that are not the orientation. -/
def Lin (k : Fin 12) : Prop := (k : Nat) < 6 ∨ 9 ≤ (k : Nat)

/-- Incrementing a linear entry changes the difference to the reference in that entry only. -/
lemma diff_inc (a x : X) (d : Fin 12 → ℝ) (c : Fin 12) (hc : Lin c) (s : ℝ) : diff a (inc x (d + Pi.single c s)) = diff a (inc x d) + Pi.single c s := by
  have hz : ∀ k : Fin 12, 6 ≤ (k : Nat) → (k : Nat) < 9 → (d + (Pi.single c s : Fin 12 → ℝ)) k = d k := by
    intro k h1 h2
    have : k ≠ c := fun h => by
      rw [h] at h1 h2
      rcases hc with hc | hc <;> omega
    simp [Pi.single_eq_of_ne this]
  have hq : (inc x (d + Pi.single c s)).q = (inc x d).q := by
    simp only [inc]
    rw [hz 6 (by decide) (by decide), hz 7 (by decide) (by decide), hz 8 (by decide) (by decide)]
  have hs : ∀ k : Fin 12, 6 ≤ (k : Nat) → (k : Nat) < 9 → (Pi.single c s : Fin 12 → ℝ) k = 0 := by
    intro k h1 h2
    have := hz k h1 h2
    simpa using this
  funext r
  unfold diff
  rw [hq]
  have z6 := hs 6 (by decide) (by decide)
  have z7 := hs 7 (by decide) (by decide)
  have z8 := hs 8 (by decide) (by decide)
  fin_cases r <;> simp only [Pi.add_apply, inc] <;> simp [z6, z7, z8] <;> ring

/-- The factor of the cost: one half before the end of the horizon, one at the end. -/
noncomputable def half (p : Par) (t : Nat) : ℝ := if t = p.N then 1 else 1 / 2

lemma cost_form (p : Par) (t : Nat) (x : X) (u : Fin 6 → ℝ) :
    cost p t x u = half p t * (diff (p.x0 t) x ⬝ᵥ p.Q t *ᵥ diff (p.x0 t) x) + (if t = p.N then 0 else 1 / 2 * (u ⬝ᵥ p.R t *ᵥ u)) := by
  unfold cost half
  split_ifs <;> ring

lemma quad_diag {n : Nat} (h D : Fin n → ℝ) (c : Fin n) (s : ℝ) :
    (D + Pi.single c s) ⬝ᵥ diagonal h *ᵥ (D + Pi.single c s) = D ⬝ᵥ diagonal h *ᵥ D + 2 * s * h c * D c + h c * s ^ 2 := by
  have hv : diagonal h *ᵥ Pi.single c s = Pi.single c (h c * s) := by
    funext j
    rw [mulVec_diagonal]
    by_cases hj : j = c
    · subst hj; simp
    · simp [Pi.single_eq_of_ne hj]
  rw [mulVec_add, add_dotProduct, dotProduct_add, dotProduct_add, hv, single_dotProduct, single_dotProduct, dotProduct_single, mulVec_diagonal, Pi.single_eq_same]
  ring

/-- C170 (specification): for diagonal weights the true second derivatives of the cost with respect to the entries of position, velocity and angular velocity are the weights (twice the weights at the
end of the horizon): the mixed differences of any size are. -/
theorem C170_true (p : Par) (t : Nat) (x : X) (u : Fin 6 → ℝ) (h : Fin 12 → ℝ) (hQ : p.Q t = diagonal h) (r c : Fin 12) (hr : Lin r) (hc : Lin c) (d : Fin 12 → ℝ) (s s' : ℝ) :
    cost p t (inc x (d + Pi.single r s + Pi.single c s')) u - cost p t (inc x (d + Pi.single r s)) u - cost p t (inc x (d + Pi.single c s')) u + cost p t (inc x d) u =
      2 * half p t * (if r = c then h c else 0) * (s * s') := by
  simp only [cost_form, hQ, diff_inc _ _ _ _ hr, diff_inc _ _ _ _ hc, quad_diag, Pi.add_apply]
  by_cases hrc : r = c
  · subst hrc; simp; ring
  · rw [Pi.single_eq_of_ne (Ne.symm hrc), if_neg hrc]; ring

lemma raw_cost (p : Par) (t : Nat) (x : X) (u : Fin 6 → ℝ) (h : Fin 12 → ℝ) (hQ : p.Q t = diagonal h) (r c : Fin 12) (hc : Lin c) :
    raw (fun d => cost p t (inc x d) u) r c = 8 * eps ^ 2 * (half p t * h c * ((if r = c then 1 else 0) - (r : Nat))) := by
  have hb : ∀ d : Fin 12 → ℝ, diff (p.x0 t) (inc x d) c = diff (p.x0 t) (inc x 0) c + d c := by
    intro d
    rcases hc with h6 | h9
    · have : c = 0 ∨ c = 1 ∨ c = 2 ∨ c = 3 ∨ c = 4 ∨ c = 5 := by
        simp only [Fin.ext_iff]; show (c : Nat) = 0 ∨ (c : Nat) = 1 ∨ (c : Nat) = 2 ∨ (c : Nat) = 3 ∨ (c : Nat) = 4 ∨ (c : Nat) = 5
        omega
      rcases this with e | e | e | e | e | e <;> subst e <;> simp [diff, inc] <;> ring
    · have : c = 9 ∨ c = 10 ∨ c = 11 := by
        simp only [Fin.ext_iff]; show (c : Nat) = 9 ∨ (c : Nat) = 10 ∨ (c : Nat) = 11
        omega
      rcases this with e | e | e <;> subst e <;> simp [diff, inc] <;> ring
  unfold raw
  simp only [cost_form, hQ, diff_inc _ _ _ _ hc, quad_diag]
  rw [hb (base r c), hb (Pi.single r (-eps))]
  simp only [base, lt_irrefl, if_false, Pi.single_apply]
  by_cases hrc : r = c
  · subst hrc; simp; ring
  · rw [if_neg (Ne.symm hrc), if_neg (Ne.symm hrc), if_neg hrc]; ring

/-- C170 (what the code computes): for diagonal weights `h`, entry `(r, c)` of `cost_dxdx` outside the orientation is off by `(c h r + r h c) / 2`: only the very first entry is right. -/
theorem C170_formula_partial (p : Par) (t : Nat) (x : X) (u : Fin 6 → ℝ) (h : Fin 12 → ℝ) (hQ : p.Q t = diagonal h) (r c : Fin 12) (hr : Lin r) (hc : Lin c) :
    costXX p t x u r c = 2 * half p t * ((if r = c then h c else 0) - ((r : Nat) * h c + (c : Nat) * h r) / 2) := by
  unfold costXX
  rw [hessian_eq, raw_cost p t x u h hQ r c hc, raw_cost p t x u h hQ c r hr]
  have : eps ≠ 0 := by norm_num [eps]
  by_cases hrc : r = c
  · subst hrc; simp; field_simp; ring
  · rw [if_neg hrc, if_neg (Ne.symm hrc), if_neg hrc]; field_simp; ring

/-- C170 is violated: with the weights of `__init__` (the identity), whatever the state, the matrix returned for the convex cost is not positive semidefinite: in the direction `(1, 2)` of the position
it is negative where the cost curves upwards. -/
theorem C170_violated (p : Par) (t : Nat) (x : X) (u : Fin 6 → ℝ) (hQ : p.Q t = 1) :
    costXX p t x u 0 0 = 2 * half p t ∧ costXX p t x u 0 1 = -half p t ∧ costXX p t x u 1 1 = 0 ∧ ¬ (costXX p t x u).PosSemidef := by
  have hQ' : p.Q t = diagonal fun _ => 1 := by rw [hQ, diagonal_one]
  have l0 : Lin 0 := Or.inl (by decide)
  have l1 : Lin 1 := Or.inl (by decide)
  have e00 := C170_formula_partial p t x u _ hQ' 0 0 l0 l0
  have e01 := C170_formula_partial p t x u _ hQ' 0 1 l0 l1
  have e10 := C170_formula_partial p t x u _ hQ' 1 0 l1 l0
  have e11 := C170_formula_partial p t x u _ hQ' 1 1 l1 l1
  norm_num at e00 e01 e10 e11
  have e01' : costXX p t x u 0 1 = -half p t := by rw [e01]; ring
  have e10' : costXX p t x u 1 0 = -half p t := by rw [e10]; ring
  refine ⟨e00, e01', e11, fun hp => ?_⟩
  have hh : 0 < half p t := by unfold half; split_ifs <;> norm_num
  have := PyLqr.psd_nonneg hp (Pi.single 0 1 + Pi.single 1 2)
  rw [mulVec_add, mulVec_single_one, add_dotProduct, dotProduct_add, dotProduct_add, single_dotProduct, single_dotProduct, single_dotProduct, single_dotProduct] at this
  have hm : ∀ k, (costXX p t x u *ᵥ Pi.single 1 2) k = 2 * costXX p t x u k 1 := by
    intro k; rw [mulVec_single]; simp [mul_comm]
  simp only [hm, col_apply, e00, e01', e10', e11] at this
  linarith

end PyMan
end Verif
