import Verif.OptVar
import Mathlib.Tactic.Linarith
import Mathlib.Tactic.Ring

/-! C14: indexing of optimisation-variable blocks. -/
namespace Verif

/-- Number of scalar variables in the blocks. -/
def totalSize : List (Nat × Nat) → Nat
  | [] => 0
  | d :: ds => d.1 * d.2 + totalSize ds

/-- Within its dimensions a block maps (row, column) to `pos + col*rows + row`. -/
theorem OptVar.id_inside (v : OptVar) (r c : Nat) (hr : r < v.rows) (hc : c < v.cols) :
    v.id r c = v.pos + c * v.rows + r := by
  have h1 : OptVar.bnd v.cols c = c := by unfold OptVar.bnd; split <;> [omega; split <;> omega]
  have h2 : OptVar.bnd v.rows r = r := by unfold OptVar.bnd; split <;> [omega; split <;> omega]
  rw [OptVar.id, h1, h2]

/-- Column-major indices of one block hit every offset exactly once. -/
theorem block_bij (rows cols k : Nat) (hk : k < rows * cols) :
    ∃ r c, r < rows ∧ c < cols ∧ c * rows + r = k ∧
      ∀ r' c', r' < rows → c' < cols → c' * rows + r' = k → r' = r ∧ c' = c := by
  have hr : 0 < rows := by
    rcases Nat.eq_zero_or_pos rows with h | h
    · simp [h] at hk
    · exact h
  refine ⟨k % rows, k / rows, Nat.mod_lt _ hr, Nat.div_lt_of_lt_mul hk, ?_, ?_⟩
  · rw [Nat.mul_comm]; exact Nat.div_add_mod k rows
  · intro r' c' h1 h2 h3
    subst h3
    constructor
    · rw [Nat.mul_comm, Nat.mul_add_mod, Nat.mod_eq_of_lt h1]
    · rw [Nat.mul_comm, Nat.mul_add_div hr, Nat.div_eq_of_lt h1]; omega

/-- C14: for every list of blocks laid out one after the other from `start`, the running index ends at
`start + total`, and every flat index in `start .. start+total-1` is the index of exactly one (block, row, column)
within the dimensions; indices of entries within the dimensions are in that range. -/
theorem C14_bijection (dims : List (Nat × Nat)) (start : Int) :
    (OptVar.layout dims start).1.length = dims.length ∧
    (OptVar.layout dims start).2 = start + totalSize dims ∧
    (∀ (i : Nat) (v : OptVar), (OptVar.layout dims start).1[i]? = some v → dims[i]? = some (v.rows, v.cols) ∧
      ∀ r c : Nat, r < v.rows → c < v.cols → start ≤ v.id r c ∧ v.id r c < start + totalSize dims) ∧
    (∀ k : Nat, k < totalSize dims → ∃ (i : Nat) (v : OptVar) (r c : Nat), (OptVar.layout dims start).1[i]? = some v ∧ r < v.rows ∧ c < v.cols ∧
      v.id r c = start + k ∧
      ∀ (i' : Nat) (v' : OptVar) (r' c' : Nat), (OptVar.layout dims start).1[i']? = some v' → r' < v'.rows → c' < v'.cols →
        v'.id r' c' = start + k → i' = i ∧ r' = r ∧ c' = c) := by
  induction dims generalizing start with
  | nil => simp [OptVar.layout, totalSize]
  | cons d ds ih =>
    obtain ⟨h0, h1, h2, h3⟩ := ih (start + d.1 * d.2)
    have hcast : ((d.1 * d.2 : Nat) : Int) = (d.1 : Int) * d.2 := by push_cast; ring
    have hl : OptVar.layout (d :: ds) start =
        (⟨start, d.1, d.2⟩ :: (OptVar.layout ds (start + d.1 * d.2)).1, (OptVar.layout ds (start + d.1 * d.2)).2) := rfl
    have hts : (totalSize (d :: ds) : Int) = (d.1 : Int) * d.2 + totalSize ds := by
      rw [totalSize]; push_cast; ring
    have hin : ∀ r c : Nat, r < d.1 → c < d.2 → (OptVar.id ⟨start, d.1, d.2⟩ r c = start + (c * d.1 + r : Nat)) ∧
        c * d.1 + r < d.1 * d.2 := by
      intro r c hr hc
      refine ⟨?_, ?_⟩
      · rw [OptVar.id_inside _ r c hr hc]; push_cast; ring
      · calc c * d.1 + r < c * d.1 + d.1 := by omega
          _ = (c + 1) * d.1 := by ring
          _ ≤ d.2 * d.1 := Nat.mul_le_mul_right _ hc
          _ = d.1 * d.2 := by ring
    rw [hl]
    refine ⟨by simp [h0], by simp only; rw [h1, hts]; ring, ?_, ?_⟩
    · intro i v hv
      cases i with
      | zero =>
        simp only [List.getElem?_cons_zero, Option.some.injEq] at hv
        subst hv
        refine ⟨by simp, fun r c hr hc => ?_⟩
        obtain ⟨e, hlt⟩ := hin r c hr hc
        rw [e, hts]
        have : ((c * d.1 + r : Nat) : Int) < ((d.1 * d.2 : Nat) : Int) := by exact_mod_cast hlt
        rw [hcast] at this
        constructor
        · have : (0 : Int) ≤ ((c * d.1 + r : Nat) : Int) := Int.natCast_nonneg _
          linarith
        · have : (0 : Int) ≤ (totalSize ds : Int) := Int.natCast_nonneg _
          linarith
      | succ i =>
        simp only [List.getElem?_cons_succ] at hv ⊢
        obtain ⟨e, hb⟩ := h2 i v hv
        refine ⟨e, fun r c hr hc => ?_⟩
        obtain ⟨b1, b2⟩ := hb r c hr hc
        rw [hts]
        have : (0 : Int) ≤ (d.1 : Int) * d.2 := by positivity
        constructor <;> linarith
    · intro k hk
      rw [totalSize] at hk
      by_cases hkd : k < d.1 * d.2
      · obtain ⟨r, c, hr, hc, e, huniq⟩ := block_bij d.1 d.2 k hkd
        refine ⟨0, ⟨start, d.1, d.2⟩, r, c, by simp, hr, hc, by rw [(hin r c hr hc).1, e], ?_⟩
        intro i' v' r' c' hv' hr' hc' e'
        cases i' with
        | zero =>
          simp only [List.getElem?_cons_zero, Option.some.injEq] at hv'
          subst hv'
          rw [(hin r' c' hr' hc').1] at e'
          have : c' * d.1 + r' = k := by
            have : ((c' * d.1 + r' : Nat) : Int) = (k : Int) := by linarith
            exact_mod_cast this
          exact ⟨rfl, huniq r' c' hr' hc' this⟩
        | succ i' =>
          simp only [List.getElem?_cons_succ] at hv'
          have := ((h2 i' v' hv').2 r' c' hr' hc').1
          rw [e'] at this
          have : ((d.1 * d.2 : Nat) : Int) ≤ (k : Int) := by rw [hcast]; linarith
          have : d.1 * d.2 ≤ k := by exact_mod_cast this
          omega
      · obtain ⟨i, v, r, c, hv, hr, hc, e, huniq⟩ := h3 (k - d.1 * d.2) (by omega)
        have hk' : ((k - d.1 * d.2 : Nat) : Int) = k - (d.1 : Int) * d.2 := by
          rw [← hcast]; omega
        rw [hk'] at e
        refine ⟨i + 1, v, r, c, by simpa using hv, hr, hc, by rw [e]; ring, ?_⟩
        intro i' v' r' c' hv' hr' hc' e'
        cases i' with
        | zero =>
          simp only [List.getElem?_cons_zero, Option.some.injEq] at hv'
          subst hv'
          obtain ⟨e2, hlt⟩ := hin r' c' hr' hc'
          rw [e2] at e'
          have : ((c' * d.1 + r' : Nat) : Int) = (k : Int) := by linarith
          have : c' * d.1 + r' = k := by exact_mod_cast this
          omega
        | succ i' =>
          simp only [List.getElem?_cons_succ] at hv'
          obtain ⟨a, b, c''⟩ := huniq i' v' r' c' hv' hr' hc' (by rw [e', hk']; ring)
          exact ⟨by omega, b, c''⟩

/-- C14, clamping: rows and columns outside the block are replaced by the nearest ones inside, so the index of any
(row, column) is the index of an entry of the block. -/
theorem C14_clamped (v : OptVar) (row col : Int) (hr : 0 < v.rows) (hc : 0 < v.cols) :
    ∃ r c : Nat, r < v.rows ∧ c < v.cols ∧ v.id row col = v.id r c ∧
      (∀ r' : Nat, r' < v.rows → |(r : Int) - row| ≤ |(r' : Int) - row|) ∧
      (∀ c' : Nat, c' < v.cols → |(c : Int) - col| ≤ |(c' : Int) - col|) := by
  have key : ∀ (n : Nat) (i : Int), 0 < n → ∃ r : Nat, r < n ∧ OptVar.bnd n i = r ∧ OptVar.bnd n r = r ∧
      ∀ r' : Nat, r' < n → |(r : Int) - i| ≤ |(r' : Int) - i| := by
    intro n i hn
    by_cases h1 : i ≥ n
    · refine ⟨n - 1, by omega, ?_, ?_, ?_⟩
      · unfold OptVar.bnd; rw [if_pos h1]; omega
      · unfold OptVar.bnd; rw [if_neg (by omega)]; split <;> omega
      · intro r' hr'
        rw [abs_of_nonpos (by omega), abs_of_nonpos (by omega)]; omega
    · by_cases h2 : i ≤ 0
      · refine ⟨0, hn, ?_, ?_, ?_⟩
        · unfold OptVar.bnd; rw [if_neg h1, if_pos h2]; rfl
        · unfold OptVar.bnd; rw [if_neg (by omega)]; simp
        · intro r' hr'
          rw [abs_of_nonneg (by omega), abs_of_nonneg (by omega)]; omega
      · refine ⟨i.toNat, by omega, ?_, ?_, ?_⟩
        · unfold OptVar.bnd; rw [if_neg h1, if_neg h2]; omega
        · unfold OptVar.bnd; rw [if_neg (by omega)]; split <;> omega
        · intro r' hr'
          have : (i.toNat : Int) - i = 0 := by omega
          rw [this]; simp
  obtain ⟨r, r1, r2, r3, r4⟩ := key v.rows row hr
  obtain ⟨c, c1, c2, c3, c4⟩ := key v.cols col hc
  exact ⟨r, c, r1, c1, by simp only [OptVar.id, r2, r3, c2, c3], r4, c4⟩

/-- A concrete layout: a 3×2 block and a 1×4 block. -/
example : (OptVar.layout [(3, 2), (1, 4)] 0).2 = 10 ∧
    ((OptVar.layout [(3, 2), (1, 4)] 0).1.map (fun v => v.id 0 1)) = [3, 7] := by decide

end Verif
