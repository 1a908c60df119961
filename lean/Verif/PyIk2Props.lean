import Verif.PyIk2
import Verif.PyIkProps
import Mathlib.Analysis.Matrix.Spectrum
import Mathlib.Algebra.Order.Star.Real
import Mathlib.Tactic.Linarith
import Mathlib.Tactic.NoncommRing
import Mathlib.Tactic.NormNum

/-! C151-C154: the second-order inverse kinematics. -/
namespace Verif
namespace PyIk2
open Matrix PyIk

variable {Q O : Type} {nj : Nat}

/-! ### Specification -/

/-- The acceleration wanted for the linear momentum: reference rate, proportional corrections of momentum and center of mass. -/
noncomputable def linAim (b : Robot2 Q O nj) (g : Gains2) (q : Q) (dq : Vec (6 + nj)) (f : Ref2 O) (k : Nat) : ℝ :=
  f.dmom k + g.pMom k * (f.lmom k - b.rb.Ag q k ⬝ᵥ dq) + g.pCom * (f.com k - b.rb.com q k)

/-- The rate wanted for the angular momentum: reference rate, correction of the momentum, and a proportional-derivative term on the base orientation. -/
noncomputable def angAim (b : Robot2 Q O nj) (g : Gains2) (q : Q) (dq : Vec (6 + nj)) (f : Ref2 O) (k : Fin 3) : ℝ :=
  f.dmom (3 + k) + g.pMom (3 + k) * (f.amom k - b.rb.Ag q (3 + k) ⬝ᵥ dq) + (g.pOri * b.ori f.ori q k - g.dOri * dq ⟨3 + k, by omega⟩)

/-- The acceleration wanted for coordinate `k` of end-effector `i`. -/
noncomputable def effAim (b : Robot2 Q O nj) (g : Gains2) (q : Q) (dq : Vec (6 + nj)) (f : Ref2 O) (i k : Nat) : ℝ :=
  g.pEff * (f.pos i k - b.rb.pos q i k) + g.dEff * (f.vel i k - b.rb.jac q i k ⬝ᵥ dq) + f.acc i k

/-- The acceleration wanted for joint `j`. -/
noncomputable def jointAim (b : Robot2 Q O nj) (g : Gains2) (q : Q) (dq : Vec (6 + nj)) (f : Ref2 O) (j : Fin nj) : ℝ :=
  match f.joint with
  | none => 0
  | some r => g.pJoint * (r j - b.joints q j) - g.dJoint * dq (Fin.natAdd 6 j)

/-- Squared errors of the momentum rates under the acceleration `x` (the rate of `Ag dq` is `Ag x + dAg dq`). -/
noncomputable def linErr (b : Robot2 Q O nj) (g : Gains2) (q : Q) (dq : Vec (6 + nj)) (f : Ref2 O) (x : Vec (6 + nj)) : ℝ :=
  ∑ k ∈ Finset.range 3, (b.rb.Ag q k ⬝ᵥ x + b.dAg q dq k - linAim b g q dq f k) ^ 2

/-- As `linErr`, angular momentum. -/
noncomputable def angErr (b : Robot2 Q O nj) (g : Gains2) (q : Q) (dq : Vec (6 + nj)) (f : Ref2 O) (x : Vec (6 + nj)) : ℝ :=
  ∑ k : Fin 3, (b.rb.Ag q (3 + k) ⬝ᵥ x + b.dAg q dq (3 + k) - angAim b g q dq f k) ^ 2

/-- Squared error of the acceleration of end-effector `i`. -/
noncomputable def effErr (b : Robot2 Q O nj) (g : Gains2) (q : Q) (dq : Vec (6 + nj)) (f : Ref2 O) (x : Vec (6 + nj)) (i : Nat) : ℝ :=
  ∑ k ∈ Finset.range 3, (b.rb.jac q i k ⬝ᵥ x + b.djac q dq i k - effAim b g q dq f i k) ^ 2

/-- The weighted squared errors of the acceleration `x`. -/
noncomputable def accCost (b : Robot2 Q O nj) (g : Gains2) (q : Q) (dq : Vec (6 + nj)) (f : Ref2 O) (x : Vec (6 + nj)) : ℝ :=
  g.wLin * linErr b g q dq f x + g.wAng * angErr b g q dq f x
  + ∑ i ∈ Finset.range b.rb.ne, (if f.contact i then g.wContact else g.wTrack) * effErr b g q dq f x i
  + g.wJoint * ∑ j : Fin nj, (x (Fin.natAdd 6 j) - jointAim b g q dq f j) ^ 2
  + 1 / 10 ^ 6 * ∑ c, x c ^ 2

/-! ### C151: the weighted problem -/

/-- Target of row `r`. -/
noncomputable def target (b : Robot2 Q O nj) (g : Gains2) (q : Q) (dq : Vec (6 + nj)) (f : Ref2 O) (r : Nat) : ℝ := desAcc b g q dq f r - drift b q dq r

/-- The first-order problem with the same matrices: gains without feedback and references equal to the targets. -/
noncomputable def virtRef (b : Robot2 Q O nj) (g : Gains2) (q : Q) (dq : Vec (6 + nj)) (f : Ref2 O) : Ref where
  com := fun _ => 0
  lmom := target b g q dq f
  amom := fun k => target b g q dq f (3 + k)
  pos := fun _ _ => 0
  vel := fun i k => target b g q dq f (6 + (3 * i + k))
  contact := f.contact
  joint := some fun j => target b g q dq f ((b.rb.ne + 2) * 3 + j)
  flight := false

/-- As `virtRef`. -/
def virtGains (g : Gains2) : Gains := { g.toGains with pEff := 0, pCom := 0, init := false }

lemma virt_velDes (b : Robot2 Q O nj) (g : Gains2) (q : Q) (dq : Vec (6 + nj)) (f : Ref2 O) (r : Nat) :
    b.rb.velDes (virtGains g) q q (virtRef b g q dq f) r = target b g q dq f r := by
  unfold Robot.velDes
  by_cases h1 : r < 3
  · rw [if_pos h1]; simp [virtGains, virtRef]
  rw [if_neg h1]
  by_cases h2 : r < 6
  · rw [if_pos h2]
    show target b g q dq f (3 + (r - 3)) = _
    congr 1; omega
  rw [if_neg h2]
  by_cases h3 : r < (b.rb.ne + 2) * 3
  · rw [if_pos h3]
    have : 6 + (3 * ((r - 6) / 3) + (r - 6) % 3) = r := by omega
    simp [virtGains, virtRef, this]
  · rw [if_neg h3]
    show target b g q dq f ((b.rb.ne + 2) * 3 + (r - (b.rb.ne + 2) * 3)) = _
    congr 1; omega

lemma virt_weights (b : Robot2 Q O nj) (g : Gains2) (q : Q) (dq : Vec (6 + nj)) (f : Ref2 O) :
    b.rb.weights (virtGains g) (virtRef b g q dq f) = b.rb.weights g.toGains f.toRef := rfl

lemma weighted_eq (b : Robot2 Q O nj) (s : Quadprog) (g : Gains2) (q : Q) (dq : Vec (6 + nj)) (f : Ref2 O) :
    stepWeighted b s g q dq f = b.rb.solve s (virtGains g) q q (virtRef b g q dq f) := by
  unfold Robot.solve stepWeighted
  rw [if_neg (by simp [virtRef])]
  have h1 : b.rb.hessian (virtGains g) q (virtRef b g q dq f) = b.rb.hessian g.toGains q f.toRef := rfl
  have h2 : b.rb.gradient (virtGains g) q q (virtRef b g q dq f) =
      fun i => -∑ r ∈ Finset.range b.rb.rows, b.rb.J q r i * (b.rb.weights g.toGains f.toRef).getD r 0 * (desAcc b g q dq f r - drift b q dq r) := by
    funext i
    unfold Robot.gradient
    congr 1
    refine Finset.sum_congr rfl fun r _ => ?_
    rw [virt_velDes, virt_weights]
    rfl
  rw [h1, h2]

lemma target_lin (b : Robot2 Q O nj) (g : Gains2) (q : Q) (dq : Vec (6 + nj)) (f : Ref2 O) (k : Nat) (hk : k < 3) :
    target b g q dq f k = linAim b g q dq f k - b.dAg q dq k := by
  unfold target desAcc drift linAim
  rw [if_pos hk, if_pos (by omega)]

lemma target_ang (b : Robot2 Q O nj) (g : Gains2) (q : Q) (dq : Vec (6 + nj)) (f : Ref2 O) (k : Fin 3) :
    target b g q dq f (3 + k) = angAim b g q dq f k - b.dAg q dq (3 + k) := by
  unfold target desAcc drift angAim
  have e : 3 + (k : Nat) - 3 = k := by omega
  rw [if_neg (by omega), if_pos (by omega), if_pos (by omega), dif_pos (by omega), e]

lemma J_eff (rb : Robot Q nj) (q : Q) (i k : Nat) (hi : i < rb.ne) (hk : k < 3) : rb.J q (6 + (3 * i + k)) = rb.jac q i k := by
  have e1 : (6 + (3 * i + k) - 6) / 3 = i := by omega
  have e2 : (6 + (3 * i + k) - 6) % 3 = k := by omega
  unfold Robot.J
  rw [if_neg (by omega), if_pos (by omega), e1, e2]

lemma J_mom (rb : Robot Q nj) (q : Q) (r : Nat) (hr : r < 6) : rb.J q r = rb.Ag q r := by
  unfold Robot.J
  rw [if_pos hr]

lemma target_eff (b : Robot2 Q O nj) (g : Gains2) (q : Q) (dq : Vec (6 + nj)) (f : Ref2 O) (i k : Nat) (hi : i < b.rb.ne) (hk : k < 3) :
    target b g q dq f (6 + (3 * i + k)) = effAim b g q dq f i k - b.djac q dq i k := by
  have e1 : (6 + (3 * i + k) - 6) / 3 = i := by omega
  have e2 : (6 + (3 * i + k) - 6) % 3 = k := by omega
  unfold target desAcc drift effAim
  rw [if_neg (by omega), if_neg (by omega), if_pos (by omega), if_neg (by omega), if_pos (by omega), J_eff b.rb q i k hi hk]
  simp only [e1, e2]

lemma target_joint (b : Robot2 Q O nj) (g : Gains2) (q : Q) (dq : Vec (6 + nj)) (f : Ref2 O) (j : Fin nj) :
    target b g q dq f ((b.rb.ne + 2) * 3 + j) = jointAim b g q dq f j := by
  have e : (b.rb.ne + 2) * 3 + (j : Nat) - (b.rb.ne + 2) * 3 = j := by omega
  unfold target desAcc drift jointAim
  rw [if_neg (by omega), if_neg (by omega), if_neg (by omega), if_neg (by omega), if_neg (by omega)]
  cases f.joint with
  | none => simp
  | some r =>
    simp only [e]
    rw [dif_pos (by omega)]
    have : (⟨6 + (j : Nat), by omega⟩ : Fin (6 + nj)) = Fin.natAdd 6 j := rfl
    rw [this]
    ring

lemma virt_cost (b : Robot2 Q O nj) (g : Gains2) (q : Q) (dq : Vec (6 + nj)) (f : Ref2 O) (x : Vec (6 + nj)) :
    trackCost b.rb (virtGains g) q (virtRef b g q dq f) x = accCost b g q dq f x := by
  unfold trackCost accCost
  congr 1
  congr 1
  · congr 1
    · congr 1
      · show g.wLin * _ = g.wLin * _
        congr 1
        refine Finset.sum_congr rfl fun k hk => ?_
        have hk := Finset.mem_range.mp hk
        show (_ - (target b g q dq f k + 0 * _)) ^ 2 = _
        rw [target_lin b g q dq f k hk]
        ring
      · show g.wAng * _ = g.wAng * _
        rw [Finset.sum_range]
        congr 1
        refine Finset.sum_congr rfl fun k _ => ?_
        show (_ - target b g q dq f (3 + k)) ^ 2 = _
        rw [target_ang]
        ring
    · refine Finset.sum_congr rfl fun i hi => ?_
      have hi := Finset.mem_range.mp hi
      show (if f.contact i then g.wContact else g.wTrack) * _ = _
      congr 1
      refine Finset.sum_congr rfl fun k hk => ?_
      have hk := Finset.mem_range.mp hk
      unfold aim
      show (_ - (target b g q dq f (6 + (3 * i + k)) + (if false = true then 1 else 0) * _)) ^ 2 = _
      rw [target_eff b g q dq f i k hi hk]
      simp
      ring
  · show g.wJoint * _ = g.wJoint * _
    congr 1
    refine Finset.sum_congr rfl fun j _ => ?_
    show (_ - target b g q dq f ((b.rb.ne + 2) * 3 + j)) ^ 2 = _
    rw [target_joint]

/-- C151. Without the hierarchy a step never raises (nonnegative weights), and the acceleration it returns is the unique minimiser of the weighted squared errors of momentum rates, end-effector
accelerations and joint accelerations, each with its feedback law and including the velocity dependent terms. -/
theorem C151_weighted (b : Robot2 Q O nj) (s : Quadprog) (hs : s.Ok) (pinv : Pinv) (g : Gains2) (hg : g.toGains.Nonneg) (q : Q) (dq : Vec (6 + nj)) (f : Ref2 O) :
    ∃ x, step b s pinv false g q dq f = some x ∧ (∀ y, accCost b g q dq f x ≤ accCost b g q dq f y) ∧ ∀ y, accCost b g q dq f y ≤ accCost b g q dq f x → y = x := by
  have h : step b s pinv false g q dq f = stepWeighted b s g q dq f := rfl
  obtain ⟨h1, h2⟩ := solve_ok b.rb s hs (virtGains g) hg q (virtRef b g q dq f)
  obtain ⟨x, hx⟩ := h2 (by simp [virtRef])
  have hx' := h1 x hx
  have hf : ¬ (virtRef b g q dq f).flight = true := by simp [virtRef]
  refine ⟨x, by rw [h, weighted_eq, hx], fun y => ?_, fun y hy => ?_⟩
  · rw [← virt_cost, ← virt_cost]
    exact hx'.best y fun e => absurd e hf
  · rw [← virt_cost, ← virt_cost] at hy
    exact hx'.unique y (fun e => absurd e hf) hy

/-! ### The pseudo-inverse -/

/-- The four Penrose conditions. -/
structure Penrose {m n : Nat} (A : Matrix (Fin m) (Fin n) ℝ) (X : Matrix (Fin n) (Fin m) ℝ) : Prop where
  axa : A * X * A = A
  xax : X * A * X = X
  ax : (A * X)ᵀ = A * X
  xa : (X * A)ᵀ = X * A

/-- What `scipy.linalg.pinv` promises (its relative cut-off of small singular values is ignored). -/
def Pinv.Ok (p : Pinv) : Prop := ∀ m n (A : Matrix (Fin m) (Fin n) ℝ), Penrose A (p m n A)

/-- Squared length. -/
def sq {m : Nat} (v : Vec m) : ℝ := ∑ i, v i ^ 2

lemma sq_eq {m : Nat} (v : Vec m) : sq v = v ⬝ᵥ v := by simp [sq, dotProduct, pow_two]

lemma sq_nonneg' {m : Nat} (v : Vec m) : 0 ≤ sq v := Finset.sum_nonneg fun _ _ => sq_nonneg _

lemma sq_zero {m : Nat} (v : Vec m) (h : sq v = 0) : v = 0 := by
  funext i
  have := (Finset.sum_eq_zero_iff_of_nonneg (fun i _ => sq_nonneg (v i))).1 h i (Finset.mem_univ i)
  simpa using this

/-- Pythagoras for a residual orthogonal to the range. -/
lemma pythagoras {m n : Nat} (A : Matrix (Fin m) (Fin n) ℝ) (r : Vec m) (h : Aᵀ *ᵥ r = 0) (z : Vec n) : sq (A *ᵥ z + r) = sq (A *ᵥ z) + sq r := by
  have h0 : (A *ᵥ z) ⬝ᵥ r = 0 := by
    rw [dotProduct_comm, dotProduct_mulVec, ← mulVec_transpose, h, zero_dotProduct]
  rw [sq_eq, sq_eq, sq_eq, add_dotProduct, dotProduct_add, dotProduct_add, dotProduct_comm r, h0]
  ring

lemma normal {m n : Nat} (A : Matrix (Fin m) (Fin n) ℝ) (X : Matrix (Fin n) (Fin m) ℝ) (h : Penrose A X) (c : Vec m) : Aᵀ *ᵥ (A *ᵥ (X *ᵥ c) - c) = 0 := by
  have e : Aᵀ * (A * X) = Aᵀ := by
    have := congrArg transpose h.axa
    rw [transpose_mul, h.ax] at this
    exact this
  rw [mulVec_sub, mulVec_mulVec, mulVec_mulVec, Matrix.mul_assoc, e, sub_self]

/-- The pseudo-inverse solves the least squares problem, and all solutions have the same image. -/
lemma lsq {m n : Nat} (A : Matrix (Fin m) (Fin n) ℝ) (X : Matrix (Fin n) (Fin m) ℝ) (h : Penrose A X) (c : Vec m) (y : Vec n) :
    sq (A *ᵥ (X *ᵥ c) - c) ≤ sq (A *ᵥ y - c) ∧ (sq (A *ᵥ y - c) ≤ sq (A *ᵥ (X *ᵥ c) - c) → A *ᵥ y = A *ᵥ (X *ᵥ c)) := by
  have e : A *ᵥ y - c = A *ᵥ (y - X *ᵥ c) + (A *ᵥ (X *ᵥ c) - c) := by rw [mulVec_sub]; abel
  have hp := pythagoras A _ (normal A X h c) (y - X *ᵥ c)
  rw [e, hp]
  refine ⟨by linarith [sq_nonneg' (A *ᵥ (y - X *ᵥ c))], fun hle => ?_⟩
  have := sq_zero _ (le_antisymm (by linarith) (sq_nonneg' (A *ᵥ (y - X *ᵥ c))))
  rw [mulVec_sub] at this
  exact sub_eq_zero.1 this

/-- Two levels of least squares with pseudo-inverses: the result solves the first problem, and the second among the solutions of the first. -/
lemma hierarchy {m k n : Nat} (F : Matrix (Fin m) (Fin n) ℝ) (R : Matrix (Fin k) (Fin n) ℝ) (Fp : Matrix (Fin n) (Fin m) ℝ) (hF : Penrose F Fp)
    (Rp : Matrix (Fin n) (Fin k) ℝ) (hR : Penrose (R * (1 - Fp * F)) Rp) (c : Vec m) (d : Vec k) (x : Vec n)
    (hx : x = Fp *ᵥ c + Rp *ᵥ (d - R *ᵥ (Fp *ᵥ c))) :
    (∀ y, sq (F *ᵥ x - c) ≤ sq (F *ᵥ y - c)) ∧ ∀ y, sq (F *ᵥ y - c) ≤ sq (F *ᵥ x - c) → sq (R *ᵥ x - d) ≤ sq (R *ᵥ y - d) := by
  set N := 1 - Fp * F with hN
  have hFN : F * N = 0 := by rw [hN, Matrix.mul_sub, Matrix.mul_one, ← Matrix.mul_assoc, hF.axa, sub_self]
  have hNt : Nᵀ = N := by rw [hN, transpose_sub, transpose_one, hF.xa]
  have hNN : N * N = N := by
    have : Fp * F * N = 0 := by rw [Matrix.mul_assoc, hFN, Matrix.mul_zero]
    conv_lhs => rw [hN, Matrix.sub_mul, Matrix.one_mul, ← hN, this, sub_zero]
  have hRp : N * Rp = Rp := by
    have e1 : Rp = N * (Rᵀ * (Rpᵀ * Rp)) := by
      have h1 : Rp * (R * N) = N * (Rᵀ * Rpᵀ) := by
        rw [← hR.xa, transpose_mul, transpose_mul, hNt, Matrix.mul_assoc]
      calc Rp = Rp * (R * N) * Rp := hR.xax.symm
        _ = N * (Rᵀ * Rpᵀ) * Rp := by rw [h1]
        _ = N * (Rᵀ * (Rpᵀ * Rp)) := by rw [Matrix.mul_assoc, Matrix.mul_assoc]
    rw [e1, ← Matrix.mul_assoc, hNN]
  have hFR : F * Rp = 0 := by rw [← hRp, ← Matrix.mul_assoc, hFN, Matrix.zero_mul]
  have hFx : F *ᵥ x = F *ᵥ (Fp *ᵥ c) := by
    rw [hx, mulVec_add, mulVec_mulVec _ F Rp, hFR, zero_mulVec, add_zero]
  refine ⟨fun y => by rw [hFx]; exact (lsq F Fp hF c y).1, fun y hy => ?_⟩
  rw [hFx] at hy
  have hFy := (lsq F Fp hF c y).2 hy
  set rest := d - R *ᵥ (Fp *ᵥ c) with hrest
  have hRx : R *ᵥ x - d = (R * N) *ᵥ (Rp *ᵥ rest) - rest := by
    have : R * N * Rp = R * Rp := by rw [Matrix.mul_assoc, hRp]
    rw [mulVec_mulVec, this, ← mulVec_mulVec, hx, mulVec_add, hrest]
    abel
  have hz : N *ᵥ (y - x) = y - x := by
    have : F *ᵥ (y - x) = 0 := by rw [mulVec_sub, hFy, hFx, sub_self]
    rw [hN, sub_mulVec, one_mulVec, ← mulVec_mulVec, this, mulVec_zero, sub_zero]
  have hRy : R *ᵥ y - d = (R * N) *ᵥ (y - x) + (R *ᵥ x - d) := by
    rw [← mulVec_mulVec, hz, mulVec_sub]; abel
  have hn : (R * N)ᵀ *ᵥ (R *ᵥ x - d) = 0 := by rw [hRx]; exact normal _ _ hR rest
  rw [hRy, pythagoras _ _ hn]
  linarith [sq_nonneg' ((R * N) *ᵥ (y - x))]

/-- Every matrix has a pseudo-inverse (so that the contract of `pinv` can be met). -/
theorem exists_penrose {m n : Nat} (A : Matrix (Fin m) (Fin n) ℝ) : ∃ X, Penrose A X := by
  have hH : (Aᵀ * A).IsHermitian := by
    rw [IsHermitian, conjTranspose_eq_transpose_of_trivial, transpose_mul, transpose_transpose]
  -- a symmetric pseudo-inverse of the Gram matrix that commutes with it
  obtain ⟨G, hGs, hGc, hG⟩ : ∃ G : Matrix (Fin n) (Fin n) ℝ, Gᵀ = G ∧ G * (Aᵀ * A) = Aᵀ * A * G ∧ Aᵀ * A * G * (Aᵀ * A) = Aᵀ * A ∧ G * (Aᵀ * A) * G = G := by
    obtain ⟨U, d, hUU, hsp⟩ : ∃ (U : Matrix (Fin n) (Fin n) ℝ) (d : Fin n → ℝ), Uᵀ * U = 1 ∧ Aᵀ * A = U * diagonal d * Uᵀ := by
      refine ⟨(hH.eigenvectorUnitary : Matrix (Fin n) (Fin n) ℝ), hH.eigenvalues, ?_, ?_⟩
      · have := (Matrix.mem_unitaryGroup_iff' (A := (hH.eigenvectorUnitary : Matrix (Fin n) (Fin n) ℝ))).1 hH.eigenvectorUnitary.2
        rwa [star_eq_conjTranspose, conjTranspose_eq_transpose_of_trivial] at this
      · have := hH.spectral_theorem
        rw [Unitary.conjStarAlgAut_apply] at this
        rw [star_eq_conjTranspose, conjTranspose_eq_transpose_of_trivial] at this
        exact this
    have mulU : ∀ D E : Matrix (Fin n) (Fin n) ℝ, U * D * Uᵀ * (U * E * Uᵀ) = U * (D * E) * Uᵀ := by
      intro D E
      calc U * D * Uᵀ * (U * E * Uᵀ) = U * D * (Uᵀ * U) * E * Uᵀ := by simp only [Matrix.mul_assoc]
        _ = U * (D * E) * Uᵀ := by rw [hUU, Matrix.mul_one]; simp only [Matrix.mul_assoc]
    refine ⟨U * diagonal (fun i => (d i)⁻¹) * Uᵀ, ?_, ?_, ?_, ?_⟩
    · rw [transpose_mul, transpose_mul, transpose_transpose, diagonal_transpose, Matrix.mul_assoc]
    · rw [hsp, mulU, mulU, diagonal_mul_diagonal, diagonal_mul_diagonal]
      simp only [mul_comm]
    · rw [hsp, mulU, mulU, diagonal_mul_diagonal, diagonal_mul_diagonal]
      congr 3
      funext i
      exact mul_inv_mul_cancel (d i)
    · rw [hsp, mulU, mulU, diagonal_mul_diagonal, diagonal_mul_diagonal]
      congr 3
      funext i
      by_cases h : d i = 0
      · simp [h]
      · field_simp
  obtain ⟨hG1, hG2⟩ := hG
  have key : A * (G * (Aᵀ * A)) = A := by
    have h0 : ∀ M : Matrix (Fin m) (Fin n) ℝ, Mᵀ * M = 0 → M = 0 := by
      intro M hM
      have := Matrix.conjTranspose_mul_self_eq_zero (A := M)
      rw [conjTranspose_eq_transpose_of_trivial] at this
      exact this.1 hM
    have hz := h0 (A * (G * (Aᵀ * A)) - A) (by
      have e1 : (A * (G * (Aᵀ * A)) - A)ᵀ = (Aᵀ * A) * G * Aᵀ - Aᵀ := by
        rw [transpose_sub, transpose_mul, transpose_mul, transpose_mul, transpose_transpose, hGs]
      rw [e1, Matrix.sub_mul, Matrix.mul_sub, Matrix.mul_sub]
      have a1 : Aᵀ * A * G * Aᵀ * (A * (G * (Aᵀ * A))) = Aᵀ * A := by
        calc Aᵀ * A * G * Aᵀ * (A * (G * (Aᵀ * A))) = Aᵀ * A * G * (Aᵀ * A) * G * (Aᵀ * A) := by simp only [Matrix.mul_assoc]
          _ = Aᵀ * A := by rw [hG1, hG1]
      have a2 : Aᵀ * A * G * Aᵀ * A = Aᵀ * A := by
        calc Aᵀ * A * G * Aᵀ * A = Aᵀ * A * G * (Aᵀ * A) := by simp only [Matrix.mul_assoc]
          _ = Aᵀ * A := hG1
      have a3 : Aᵀ * (A * (G * (Aᵀ * A))) = Aᵀ * A := by
        calc Aᵀ * (A * (G * (Aᵀ * A))) = Aᵀ * A * G * (Aᵀ * A) := by simp only [Matrix.mul_assoc]
          _ = Aᵀ * A := hG1
      rw [a1, a2, a3, sub_self])
    exact sub_eq_zero.1 hz
  refine ⟨G * Aᵀ, ?_, ?_, ?_, ?_⟩
  · calc A * (G * Aᵀ) * A = A * (G * (Aᵀ * A)) := by simp only [Matrix.mul_assoc]
      _ = A := key
  · calc G * Aᵀ * A * (G * Aᵀ) = G * (Aᵀ * A) * G * Aᵀ := by simp only [Matrix.mul_assoc]
      _ = G * Aᵀ := by rw [hG2]
  · rw [transpose_mul, transpose_mul, transpose_transpose, hGs, Matrix.mul_assoc]
  · calc (G * Aᵀ * A)ᵀ = Aᵀ * A * G := by rw [transpose_mul, transpose_mul, transpose_transpose, hGs, ← Matrix.mul_assoc]
      _ = G * Aᵀ * A := by rw [← hGc, Matrix.mul_assoc]

theorem pinv_ok_exists : ∃ p : Pinv, p.Ok := ⟨fun _ _ A => (exists_penrose A).choose, fun _ _ A => (exists_penrose A).choose_spec⟩

/-! ### C152: the hierarchy -/

/-- Squared error of the accelerations of the four feet. -/
noncomputable def feetErr (b : Robot2 Q O nj) (g : Gains2) (q : Q) (dq : Vec (6 + nj)) (f : Ref2 O) (x : Vec (6 + nj)) : ℝ := ∑ i ∈ Finset.range b.rb.ne, effErr b g q dq f x i

lemma feet_sq (b : Robot2 Q O nj) (h4 : b.rb.ne = 4) (g : Gains2) (q : Q) (dq : Vec (6 + nj)) (f : Ref2 O) (x : Vec (6 + nj)) :
    sq (jFeet b q *ᵥ x - fun r : Fin (feetRows b) => desAcc b g q dq f (6 + r) - drift b q dq (6 + r)) = feetErr b g q dq f x := by
  have hfr : feetRows b = 12 := by
    have : b.rb.rows = 18 + nj := by rw [Robot.rows, h4]
    rw [feetRows, this]; omega
  have e : sq (jFeet b q *ᵥ x - fun r : Fin (feetRows b) => desAcc b g q dq f (6 + r) - drift b q dq (6 + r)) =
      ∑ r ∈ Finset.range 12, (b.rb.J q (6 + r) ⬝ᵥ x - target b g q dq f (6 + r)) ^ 2 := by
    rw [← hfr, Finset.sum_range]
    rfl
  have e2 : ∀ F : Nat → ℝ, ∑ r ∈ Finset.range 12, F r = ∑ i ∈ Finset.range 4, ∑ k ∈ Finset.range 3, F (3 * i + k) := by
    intro F
    simp only [Finset.sum_range_succ, Finset.sum_range_zero]
    ring
  rw [e, e2, feetErr, h4]
  refine Finset.sum_congr rfl fun i hi => Finset.sum_congr rfl fun k hk => ?_
  have hi := Finset.mem_range.1 hi
  have hk := Finset.mem_range.1 hk
  rw [J_eff b.rb q i k (by omega) hk, target_eff b g q dq f i k (by omega) hk]
  ring

lemma rest_sq (b : Robot2 Q O nj) (g : Gains2) (q : Q) (dq : Vec (6 + nj)) (f : Ref2 O) (x : Vec (6 + nj)) :
    sq (jRest b q *ᵥ x - fun r : Fin 6 => desAcc b g q dq f r - drift b q dq r) = linErr b g q dq f x + angErr b g q dq f x := by
  have e : sq (jRest b q *ᵥ x - fun r : Fin 6 => desAcc b g q dq f r - drift b q dq r) = ∑ r ∈ Finset.range 6, (b.rb.J q r ⬝ᵥ x - target b g q dq f r) ^ 2 := by
    rw [Finset.sum_range]; rfl
  have e2 : ∀ F : Nat → ℝ, ∑ r ∈ Finset.range 6, F r = ∑ r ∈ Finset.range 3, F r + ∑ k : Fin 3, F (3 + k) := by
    intro F
    simp only [Finset.sum_range_succ, Finset.sum_range_zero, Fin.sum_univ_succ, Fin.val_zero, Fin.val_succ, Finset.univ_eq_empty, Finset.sum_empty]
    ring
  rw [e, e2]
  congr 1
  · refine Finset.sum_congr rfl fun k hk => ?_
    have hk := Finset.mem_range.1 hk
    rw [J_mom b.rb q k (by omega), target_lin b g q dq f k hk]
    ring
  · refine Finset.sum_congr rfl fun k _ => ?_
    rw [J_mom b.rb q (3 + k) (by omega), target_ang]
    ring

/-- C152, partial: for robots with four end-effectors the hierarchical step minimises the error of the accelerations of the feet, and, among all accelerations that do, the error of the momentum rates.
Missing: other numbers of end-effectors (see `C152_other_robots_violated`). -/
theorem C152_hierarchy_partial (b : Robot2 Q O nj) (h4 : b.rb.ne = 4) (s : Quadprog) (pinv : Pinv) (hp : pinv.Ok) (g : Gains2) (q : Q) (dq : Vec (6 + nj)) (f : Ref2 O) :
    ∃ x, step b s pinv true g q dq f = some x ∧ (∀ y, feetErr b g q dq f x ≤ feetErr b g q dq f y) ∧
      ∀ y, feetErr b g q dq f y ≤ feetErr b g q dq f x → linErr b g q dq f x + angErr b g q dq f x ≤ linErr b g q dq f y + angErr b g q dq f y := by
  refine ⟨stepHierarchy b pinv g q dq f, rfl, ?_⟩
  have h := hierarchy (jFeet b q) (jRest b q) _ (hp _ _ _) _ (hp _ _ _) (fun r : Fin (feetRows b) => desAcc b g q dq f (6 + r) - drift b q dq (6 + r))
    (fun r : Fin 6 => desAcc b g q dq f r - drift b q dq r) (stepHierarchy b pinv g q dq f) rfl
  simp only [feet_sq b h4, rest_sq] at h
  exact h

/-- A robot with one end-effector and one joint; the end-effector moves with the joint along the first axis. -/
def legRobot : Robot2 Unit Unit 1 where
  rb := { ne := 1, Ag := fun _ _ _ => 0, com := fun _ _ => 0, jac := fun _ _ k c => if k = 0 ∧ (c : Nat) = 6 then 1 else 0, pos := fun _ _ _ => 0 }
  dAg := fun _ _ _ => 0
  djac := fun _ _ _ _ => 0
  ori := fun _ _ _ => 0
  joints := fun _ _ => 0
  integ := fun _ _ => ()

/-- Gains of one for position, none for velocities. -/
def legGains : Gains2 := { wTrack := 1, wContact := 1, wLin := 1, wAng := 1, wJoint := 1, pEff := 1, pCom := 1, init := false, dEff := 0, pOri := 0, dOri := 0, pMom := fun _ => 0, pJoint := 1, dJoint := 0 }

/-- The end-effector is asked to accelerate along the first axis, the joint to stay. -/
def legRef : Ref2 Unit :=
  { com := fun _ => 0, lmom := fun _ => 0, amom := fun _ => 0, pos := fun _ _ => 0, vel := fun _ _ => 0, contact := fun _ => false, joint := some fun _ => 0, flight := false,
    ori := (), dmom := fun _ => 0, acc := fun _ k => if k = 0 then 1 else 0 }

lemma leg_err (x : Vec 7) : feetErr legRobot legGains () 0 legRef x = (x 6 - 1) ^ 2 := by
  simp [feetErr, effErr, effAim, legRobot, legGains, legRef, Finset.sum_range_succ, dotProduct, Fin.sum_univ_succ]

/-- C152 is violated for other numbers of end-effectors: the rows 6 to 17 then include joint regularisation: with one end-effector, whose wanted acceleration can be reached exactly, the
hierarchical step misses it, whatever pseudo-inverse is used. -/
theorem C152_other_robots_violated (s : Quadprog) (pinv : Pinv) (hp : pinv.Ok) :
    (∃ y, feetErr legRobot legGains () 0 legRef y = 0) ∧ ∃ x, step legRobot s pinv true legGains () 0 legRef = some x ∧ feetErr legRobot legGains () 0 legRef x = 1 / 4 := by
  refine ⟨⟨fun _ => 1, by rw [leg_err]; norm_num⟩, stepHierarchy legRobot pinv legGains () 0 legRef, rfl, ?_⟩
  have h := (hierarchy (jFeet legRobot ()) (jRest legRobot ()) _ (hp _ _ _) _ (hp _ _ _) (fun r : Fin (feetRows legRobot) => desAcc legRobot legGains () 0 legRef (6 + r) - drift legRobot () 0 (6 + r))
    (fun r : Fin 6 => desAcc legRobot legGains () 0 legRef r - drift legRobot () 0 r) (stepHierarchy legRobot pinv legGains () 0 legRef) rfl).1
  have hrows : feetRows legRobot = 4 := rfl
  have e : ∀ x : Vec 7, sq (jFeet legRobot () *ᵥ x - fun r : Fin (feetRows legRobot) => desAcc legRobot legGains () 0 legRef (6 + r) - drift legRobot () 0 (6 + r)) = (x 6 - 1) ^ 2 + x 6 ^ 2 := by
    intro x
    have e1 : sq (jFeet legRobot () *ᵥ x - fun r : Fin (feetRows legRobot) => desAcc legRobot legGains () 0 legRef (6 + r) - drift legRobot () 0 (6 + r)) =
        ∑ r ∈ Finset.range 4, (legRobot.rb.J () (6 + r) ⬝ᵥ x - target legRobot legGains () 0 legRef (6 + r)) ^ 2 := by
      rw [← hrows, Finset.sum_range]
      rfl
    rw [e1]
    have t0 := target_eff legRobot legGains () 0 legRef 0 0 (by decide) (by decide)
    have t1 := target_eff legRobot legGains () 0 legRef 0 1 (by decide) (by decide)
    have t2 := target_eff legRobot legGains () 0 legRef 0 2 (by decide) (by decide)
    have t3 := target_joint legRobot legGains () 0 legRef (0 : Fin 1)
    have j0 := J_eff legRobot.rb () 0 0 (by decide) (by decide)
    have j1 := J_eff legRobot.rb () 0 1 (by decide) (by decide)
    have j2 := J_eff legRobot.rb () 0 2 (by decide) (by decide)
    have j3 := J_joint legRobot.rb () x (0 : Fin 1)
    have n3 : (legRobot.rb.ne + 2) * 3 + ((0 : Fin 1) : Nat) = 6 + 3 := rfl
    rw [n3] at t3 j3
    simp only [Nat.mul_zero, Nat.zero_add] at t0 t1 t2 j0 j1 j2
    rw [Finset.sum_range_succ, Finset.sum_range_succ, Finset.sum_range_succ, Finset.sum_range_succ, Finset.sum_range_zero, t0, t1, t2, t3, j0, j1, j2, j3]
    have x6 : x (Fin.natAdd 6 (0 : Fin 1)) = x 6 := rfl
    rw [x6]
    simp [effAim, jointAim, legRobot, legGains, legRef, dotProduct, Fin.sum_univ_succ]
  have hx := h (fun _ => 1 / 2)
  rw [e, e] at hx
  rw [leg_err]
  set z := (stepHierarchy legRobot pinv legGains () 0 legRef : Vec 7) 6
  have : z = 1 / 2 := by
    have h0 : (z - 1 / 2) ^ 2 = 0 := le_antisymm (by nlinarith) (sq_nonneg _)
    have := pow_eq_zero_iff (two_ne_zero) |>.1 h0
    linarith
  rw [this]; norm_num

/-- The contracts of the two solvers can be met. -/
example : (∃ p : Pinv, p.Ok) ∧ legGains.toGains.Nonneg := ⟨pinv_ok_exists, by simp [Gains.Nonneg, legGains]⟩

/-- C152: a robot with four feet, each moving with one joint along the first axis, and an attainable wish. -/
example : ∃ (b : Robot2 Unit Unit 4) (y : Vec 10), b.rb.ne = 4 ∧ feetErr b legGains () 0 legRef y = 0 ∧ feetErr b legGains () 0 legRef 0 ≠ 0 := by
  refine ⟨{ rb := { ne := 4, Ag := fun _ _ _ => 0, com := fun _ _ => 0, jac := fun _ i k c => if k = 0 ∧ (c : Nat) = 6 + i then 1 else 0, pos := fun _ _ _ => 0 },
            dAg := fun _ _ _ => 0, djac := fun _ _ _ _ => 0, ori := fun _ _ _ => 0, joints := fun _ _ => 0, integ := fun _ _ => () }, fun _ => 1, rfl, ?_, ?_⟩
  · have h6 : ∀ n : Nat, n < 10 → (Finset.univ.filter fun x : Fin 10 => (x : Nat) = n).card = 1 := by decide
    simp [feetErr, effErr, effAim, legGains, legRef, Finset.sum_range_succ, dotProduct]
    rw [h6 6 (by omega), h6 7 (by omega), h6 8 (by omega), h6 9 (by omega)]
    norm_num
  · simp [feetErr, effErr, effAim, legGains, legRef, Finset.sum_range_succ, dotProduct]

end PyIk2
end Verif
