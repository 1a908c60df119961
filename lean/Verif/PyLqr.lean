import Mathlib.LinearAlgebra.Matrix.Notation
import Mathlib.LinearAlgebra.Matrix.NonsingularInverse
import Mathlib.Data.Real.Basic
import Mathlib.Analysis.Real.Sqrt

/-!
Model of the scripts that compute LQR gains for the centroidal dynamics,
/repo/momentumopt/python/momentumopt/kinoptpy/lqr_gain_computation.py:22-252 (`centroidal_lqr`) and
end_eff_lqr_gain_computation.py:28-212 (`end_effector_lqr`).

Simplifications: exact reals; a state is a vector of 13 numbers (center of mass, velocity, quaternion x y z w, angular velocity); `inv` of a singular matrix (a Python exception) is the
junk value of Lean's inverse, and theorems are about regular ones; the files are given as functions of the row. Not modelled: printing; `compute_lin_dyn` of the centroidal class (its call
is commented out, line 198).
-/
namespace Verif
namespace PyLqr
open Matrix

/-- A real matrix (lqr_gain_computation.py:22-252). -/
abbrev Mat (m n : Nat) := Matrix (Fin m) (Fin n) ℝ

/-! ### The Riccati recursion -/

/-- The gain of `compute_lqr_gains`, lqr_gain_computation.py:176-182, end_eff_lqr_gain_computation.py:145-151. -/
noncomputable def gain {n m : Nat} (R : Mat m m) (A : Mat n n) (B : Mat n m) (P : Mat n n) : Mat m n := (-1 : ℝ) • ((R + Bᵀ * P * B)⁻¹ * Bᵀ * P * A)

/-- `compute_lqr_gains`, lqr_gain_computation.py:176-187, end_eff_lqr_gain_computation.py:145-156: `(K, P)`. -/
noncomputable def lqrGains {n m : Nat} (Q : Mat n n) (R : Mat m m) (A : Mat n n) (B : Mat n m) (P : Mat n n) : Mat m n × Mat n n :=
  let K := gain R A B P
  (K, Q + Kᵀ * R * K + (A + B * K)ᵀ * P * (A + B * K))

/-- The loop of `lqr_backward_pass` over the time steps `lo + k - 1, …, lo`, inserting in front (lqr_gain_computation.py:193-203) or appending and flipping at the end
(end_eff_lqr_gain_computation.py:162-177): the gains in order of time and the last `P_prev`. `sys t` are the discretised matrices of time step `t`. -/
noncomputable def backLoop {n m : Nat} (Q : Mat n n) (R : Mat m m) (sys : Nat → Mat n n × Mat n m) (lo : Nat) : Nat → List (Mat m n) × Mat n n
  | 0 => ([], 0)
  | k + 1 =>
    -- the loop has already treated the `k` later time steps `lo + 1, …`
    let later := backLoop Q R sys (lo + 1) k
    let r := lqrGains Q R (sys lo).1 (sys lo).2 later.2
    (r.1 :: later.1, r.2)

/-- `lqr_backward_pass` of `end_effector_lqr`, end_eff_lqr_gain_computation.py:159-177: `range(horizon-2, -1, -1)`. -/
noncomputable def backwardEff {n m : Nat} (Q : Mat n n) (R : Mat m m) (sys : Nat → Mat n n × Mat n m) (horizon : Nat) : List (Mat m n) := (backLoop Q R sys 0 (horizon - 1)).1

/-- `lqr_backward_pass` of `centroidal_lqr`, lqr_gain_computation.py:190-209: `range(horizon-2, 0, -1)`. -/
noncomputable def backwardCent {n m : Nat} (Q : Mat n n) (R : Mat m m) (sys : Nat → Mat n n × Mat n m) (horizon : Nat) : List (Mat m n) := (backLoop Q R sys 1 (horizon - 2)).1

/-! ### The dynamics -/

/-- The state, lqr_gain_computation.py:79. -/
abbrev St := Fin 13 → ℝ

/-- `omega`, lqr_gain_computation.py:46-49, 138-141, end_eff_lqr_gain_computation.py:61-64. -/
def omega (x : St) : Mat 4 4 := !![0, x 12, -x 11, x 10; -x 12, 0, x 10, x 11; x 11, -x 10, 0, x 12; -x 10, -x 11, -x 12, 0]

/-- `pd_omega`, lqr_gain_computation.py:144-149. -/
def pdOmega (x : St) : Mat 4 3 := !![x 9, -x 8, -x 7; x 8, x 9, -x 6; -x 7, -x 6, x 9; -x 6, -x 7, -x 8]

/-- `mass`, lqr_gain_computation.py:37. -/
noncomputable def mass : ℝ := 217 / 100

/-- `inertia_com_frame`, lqr_gain_computation.py:38-40, end_eff_lqr_gain_computation.py:43-45. -/
noncomputable def inertia : Mat 3 3 := diagonal ![578574 / 10 ^ 8, 1938108 / 10 ^ 8, 2476124 / 10 ^ 8]

/-- `Rot.from_quat(x_t[:, [6,7,8,9]]).as_dcm()`, lqr_gain_computation.py:57 (scipy normalises the quaternion). -/
noncomputable def rot (x : St) : Mat 3 3 :=
  (1 / (x 6 ^ 2 + x 7 ^ 2 + x 8 ^ 2 + x 9 ^ 2)) •
    !![x 6 ^ 2 - x 7 ^ 2 - x 8 ^ 2 + x 9 ^ 2, 2 * (x 6 * x 7 - x 8 * x 9), 2 * (x 6 * x 8 + x 7 * x 9);
       2 * (x 6 * x 7 + x 8 * x 9), -x 6 ^ 2 + x 7 ^ 2 - x 8 ^ 2 + x 9 ^ 2, 2 * (x 7 * x 8 - x 6 * x 9);
       2 * (x 6 * x 8 - x 7 * x 9), 2 * (x 7 * x 8 + x 6 * x 9), -x 6 ^ 2 - x 7 ^ 2 + x 8 ^ 2 + x 9 ^ 2]

/-- Index `r - 6` of the quaternion rows (lqr_gain_computation.py:43-163). -/
def qIx (r : Fin 13) : Fin 4 := ⟨(r - 6) % 4, Nat.mod_lt _ (by omega)⟩

/-- Index `r - 10` of the rows of the angular velocity (lqr_gain_computation.py:43-163). -/
def wIx (r : Fin 13) : Fin 3 := ⟨(r - 10) % 3, Nat.mod_lt _ (by omega)⟩

/-- The matrix `np.block` with the velocity, `0.5*omega` and the given block for the angular velocity, lqr_gain_computation.py:52-55 and 151-154. -/
noncomputable def blockA (x : St) (E : Mat 4 3) : Mat 13 13 := Matrix.of fun r c =>
  if (r : Nat) < 3 then (if (c : Nat) = r + 3 then 1 else 0)
  else if (r : Nat) < 6 then 0
  else if (r : Nat) < 10 then
    (if (c : Nat) < 6 then 0 else if (c : Nat) < 10 then 1 / 2 * omega x (qIx r) (qIx c) else E (qIx r) (wIx c))
  else 0

/-- The input matrix with the given inverse inertia, lqr_gain_computation.py:63-66 and 157-160. -/
noncomputable def blockB (Iinv : Mat 3 3) : Mat 13 6 := Matrix.of fun r c =>
  if (r : Nat) < 3 then 0
  else if (r : Nat) < 6 then (if (c : Nat) + 3 = r then 1 / mass else 0)
  else if (r : Nat) < 10 then 0
  else (if (c : Nat) < 3 then 0 else Iinv (wIx r) ⟨(c - 3) % 3, Nat.mod_lt _ (by omega)⟩)

/-- `compute_dyn` of `centroidal_lqr`, lqr_gain_computation.py:43-73. -/
noncomputable def dyn (x : St) (u : Fin 6 → ℝ) : St := blockA x 0 *ᵥ x + blockB (rot x * inertia * (rot x)ᵀ)⁻¹ *ᵥ u

/-- `analytical_lin_dyn`, lqr_gain_computation.py:133-163. -/
noncomputable def linDyn (x : St) : Mat 13 13 × Mat 13 6 := (blockA x ((1 / 2 : ℝ) • pdOmega x), blockB inertia⁻¹)

/-- `descretise_dynamics`, lqr_gain_computation.py:165-173, end_eff_lqr_gain_computation.py:134-142 (`dt = 0.001`). -/
noncomputable def discretise {m : Nat} (ab : Mat 13 13 × Mat 13 m) : Mat 13 13 × Mat 13 m := ((1 / 1000 : ℝ) • ab.1 + 1, (1 / 1000 : ℝ) • ab.2)

/-- `lqr_backward_pass` on the states read from the files, lqr_gain_computation.py:190-209. -/
noncomputable def centroidalGains (Q : Mat 13 13) (R : Mat 6 6) (xs : Nat → St) (horizon : Nat) : List (Mat 6 13) := backwardCent Q R (fun t => discretise (linDyn (xs t))) horizon

/-! ### The end-effector version -/

/-- `compute_r_cross`, end_eff_lqr_gain_computation.py:49-55. -/
def rCross (e c : Fin 3 → ℝ) : Mat 3 3 :=
  !![0, -(e 2 - c 2), e 1 - c 1; e 2 - c 2, 0, -(e 0 - c 0); -(e 1 - c 1), -(e 0 - c 0), 0]

/-- `B_t` of the end-effector version, end_eff_lqr_gain_computation.py:72-84: `c` and `p` are `self.com_pos[t]` and `self.end_eff_abs_pos[t]`. -/
noncomputable def effB (x : St) (c : Fin 3 → ℝ) (p : Fin 4 → Fin 3 → ℝ) : Mat 13 12 := Matrix.of fun r j =>
  if (r : Nat) < 3 then 0
  else if (r : Nat) < 6 then (if (j : Nat) % 3 + 3 = r then 1 / mass else 0)
  else if (r : Nat) < 10 then 0
  else (((rot x)ᵀ * inertia * rot x)⁻¹ * rCross (p ⟨j / 3, by omega⟩) c) (wIx r) ⟨j % 3, by omega⟩

/-- `compute_dyn` of `end_effector_lqr`, end_eff_lqr_gain_computation.py:58-90. -/
noncomputable def effDyn (c : Fin 3 → ℝ) (p : Fin 4 → Fin 3 → ℝ) (x : St) (u : Fin 12 → ℝ) : St := blockA x 0 *ᵥ x + effB x c p *ᵥ u

/-- `delta_x`, `delta_u`, end_eff_lqr_gain_computation.py:110-114, 125-129 (`delta = 0.000001`). -/
noncomputable def step {n : Nat} (x x1 : Fin n → ℝ) (i : Fin n) : ℝ := if x1 i - x i = 0 then 1 / 10 ^ 6 else x1 i - x i

/-- One column of a finite difference towards the next sample, end_eff_lqr_gain_computation.py:109-115, 124-130. -/
noncomputable def diffCol {n : Nat} (f : (Fin n → ℝ) → St) (x x1 : Fin n → ℝ) (i : Fin n) : St :=
  (1 / step x x1 i) • (f (Function.update x i (if x1 i - x i = 0 then x1 i + 1 / 10 ^ 6 else x1 i)) - f x)

open Classical in
/-- `compute_lin_dyn` of `end_effector_lqr`, end_eff_lqr_gain_computation.py:92-132: `x1`, `u1` are the next sample. -/
noncomputable def effLin (c : Fin 3 → ℝ) (p : Fin 4 → Fin 3 → ℝ) (x x1 : St) (u u1 : Fin 12 → ℝ) : Mat 13 13 × Mat 13 12 :=
  (Matrix.of fun r i => diffCol (fun y => effDyn c p y u) x x1 i r,
   if Real.sqrt (∑ j, u1 j ^ 2) < 1 / 1000 then 0 else Matrix.of fun r i => diffCol (fun v => effDyn c p x v) u u1 i r)

/-- `lqr_backward_pass` of `end_effector_lqr` on the samples read from the files, end_eff_lqr_gain_computation.py:159-177. -/
noncomputable def effGains (Q : Mat 13 13) (R : Mat 12 12) (c : Nat → Fin 3 → ℝ) (p : Nat → Fin 4 → Fin 3 → ℝ) (xs : Nat → St) (us : Nat → Fin 12 → ℝ) (horizon : Nat) : List (Mat 12 13) :=
  backwardEff Q R (fun t => discretise (effLin (c t) (p t) (xs t) (xs (t + 1)) (us t) (us (t + 1)))) horizon

/-! ### Files -/

/-- `store_lqr_gains`: row `i` of the reshaped array, lqr_gain_computation.py:216, end_eff_lqr_gain_computation.py:183: the matrix row by row. -/
def flat {m : Nat} (K : Mat m 13) : List ℝ := (List.ofFn fun r => List.ofFn fun c => K r c).flatten

/-- The files of `store_lqr_gains`: file `l` holds the columns `39 l .. 39 l + 38`, lqr_gain_computation.py:218-219, end_eff_lqr_gain_computation.py:185-188. -/
def gainFile {m : Nat} (Ks : List (Mat m 13)) (l : Nat) : List (List ℝ) := Ks.map fun K => ((flat K).drop (39 * l)).take 39

/-- The weight matrix the script uses, lqr_gain_computation.py:238: the entries set before (223-236) are overwritten. -/
def scriptQ : Mat 13 13 := 0

end PyLqr
end Verif
