/-
Properties C212-C214: tuning of gains, gains of the joints and momentum reported by the executor.
-/
import Verif.ExecTune
import Mathlib.Tactic.NormNum
import Mathlib.Tactic.Linarith
import Mathlib.Tactic.FinCases

namespace Verif
namespace ExecTune

variable {n : Nat}

/-! ### C212: the dialogue -/

/-- An answer to the question for a gain: lines that are no number, then a number or an empty line. -/
structure Answer where
  bad : List String
  line : String

/-- The answer enters the value `x`, or keeps the gain (`none`). -/
def Answer.Means (p : Parse) (a : Answer) (x : Option ℝ) : Prop :=
  (∀ s ∈ a.bad, p.flt s = none ∧ s ≠ "") ∧ p.flt a.line = x ∧ (x = none → a.line = "")

/-- One joint tuned: lines that are no id, the id, the answers for `P` and `D`. -/
structure Edit (n : Nat) where
  bad : List String
  id : String
  joint : Fin n
  ansP : Answer
  valP : Option ℝ
  ansD : Answer
  valD : Option ℝ

/-- The lines typed. -/
def Edit.lines (e : Edit n) : List String := e.bad ++ e.id :: (e.ansP.bad ++ e.ansP.line :: (e.ansD.bad ++ [e.ansD.line]))

/-- The lines mean what the edit says. -/
def Edit.Valid (p : Parse) (e : Edit n) : Prop :=
  (∀ s ∈ e.bad, s ≠ "stop" ∧ ∀ k, p.digit s = some k → n ≤ k) ∧ e.id ≠ "stop" ∧ p.digit e.id = some (e.joint : Nat) ∧
  e.ansP.Means p e.valP ∧ e.ansD.Means p e.valD

/-- The gain of joint `j` after a value may have been entered. -/
def setGain (K : Fin n → ℝ) (j : Fin n) : Option ℝ → Fin n → ℝ
  | none => K
  | some x => Function.update K j x

theorem queryGain_answer (p : Parse) (K : Fin n → ℝ) (j : Fin n) (a : Answer) (x : Option ℝ) (h : a.Means p x) (r : List String) :
    queryGain p K j (a.bad ++ a.line :: r) = some (setGain K j x, r) := by
  obtain ⟨h1, h2, h3⟩ := h
  have hl : ∀ bad : List String, (∀ s ∈ bad, p.flt s = none ∧ s ≠ "") → queryGain p K j (bad ++ a.line :: r) = some (setGain K j x, r) := by
    intro bad
    induction bad with
    | nil =>
      intro _
      cases x with
      | none => simp [queryGain, h2, h3 rfl, setGain]; rw [← h3 rfl, h2]
      | some x => simp [queryGain, h2, setGain]
    | cons s bad ih =>
      intro hb
      obtain ⟨e1, e2⟩ := hb s (by simp)
      simp only [List.cons_append, queryGain, e1, if_neg e2]
      exact ih fun s hs => hb s (by simp [hs])
  exact hl a.bad h1

theorem readId_edit (p : Parse) (e : Edit n) (h : e.Valid p) (r : List String) :
    readId p n (e.bad ++ e.id :: r) = some (some e.joint, r) := by
  obtain ⟨h1, h2, h3, -⟩ := h
  have hl : ∀ bad : List String, (∀ s ∈ bad, s ≠ "stop" ∧ ∀ k, p.digit s = some k → n ≤ k) →
      readId p n (bad ++ e.id :: r) = some (some e.joint, r) := by
    intro bad
    induction bad with
    | nil => intro _; simp [readId, h2, h3]
    | cons s bad ih =>
      intro hb
      obtain ⟨e1, e2⟩ := hb s (by simp)
      simp only [List.cons_append, readId, if_neg e1]
      cases hd : p.digit s with
      | none => exact ih fun s hs => hb s (by simp [hs])
      | some k =>
        have := e2 k hd
        simp only [dif_neg (Nat.not_lt.mpr this)]
        exact ih fun s hs => hb s (by simp [hs])
  exact hl e.bad h1

/-- C212: a dialogue of any number of edits, with any wrong lines in between, ended by `stop`: the gains are those
entered, in order; nothing else is changed and no line after `stop` is read. -/
theorem C212_dialogue (p : Parse) (P D : Fin n → ℝ) (es : List (Edit n)) (h : ∀ e ∈ es, e.Valid p) (bad : List String)
    (hbad : ∀ s ∈ bad, s ≠ "stop" ∧ ∀ k, p.digit s = some k → n ≤ k) (rest : List String) :
    tunePD p P D (es.flatMap Edit.lines ++ (bad ++ "stop" :: rest)) =
      some (es.foldl (fun K e => setGain K e.joint e.valP) P, es.foldl (fun K e => setGain K e.joint e.valD) D, rest) := by
  have key : ∀ (fuel : Nat) (es : List (Edit n)) (P D : Fin n → ℝ), es.length < fuel → (∀ e ∈ es, e.Valid p) →
      tuneLoop p fuel P D (es.flatMap Edit.lines ++ (bad ++ "stop" :: rest)) =
      some (es.foldl (fun K e => setGain K e.joint e.valP) P, es.foldl (fun K e => setGain K e.joint e.valD) D, rest) := by
    intro fuel
    induction fuel with
    | zero => intro es P D hf; omega
    | succ fuel ih =>
      intro es P D hf hv
      cases es with
      | nil =>
        have hb : ∀ bad : List String, (∀ s ∈ bad, s ≠ "stop" ∧ ∀ k, p.digit s = some k → n ≤ k) →
            readId p n (bad ++ "stop" :: rest) = some (none, rest) := by
          intro bad
          induction bad with
          | nil => intro _; simp [readId]
          | cons s bad ihb =>
            intro hb
            obtain ⟨e1, e2⟩ := hb s (by simp)
            simp only [List.cons_append, readId, if_neg e1]
            cases hd : p.digit s with
            | none => exact ihb fun s hs => hb s (by simp [hs])
            | some k =>
              have := e2 k hd
              simp only [dif_neg (Nat.not_lt.mpr this)]
              exact ihb fun s hs => hb s (by simp [hs])
        simp [tuneLoop, hb bad hbad]
      | cons e es =>
        have hve := hv e (by simp)
        have hs : (e :: es).flatMap Edit.lines ++ (bad ++ "stop" :: rest) =
            e.bad ++ e.id :: (e.ansP.bad ++ e.ansP.line :: (e.ansD.bad ++ e.ansD.line :: (es.flatMap Edit.lines ++ (bad ++ "stop" :: rest)))) := by
          simp [Edit.lines, List.flatMap_cons]
        rw [hs]
        simp only [tuneLoop, readId_edit p e hve, queryGain_answer p P e.joint e.ansP e.valP hve.2.2.2.1,
          queryGain_answer p D e.joint e.ansD e.valD hve.2.2.2.2]
        have := ih es (setGain P e.joint e.valP) (setGain D e.joint e.valD) (by simpa using hf) (fun e he => hv e (by simp [he]))
        simpa using this
  refine key _ es P D ?_ h
  have hlen : ∀ es : List (Edit n), es.length ≤ (es.flatMap Edit.lines).length := by
    intro es
    induction es with
    | nil => simp
    | cons e es ih => simp [List.flatMap_cons, Edit.lines]; omega
  have := hlen es
  simp only [List.length_append]
  omega

theorem queryGain_entry (p : Parse) (K K' : Fin n → ℝ) (j : Fin n) : ∀ (l r : List String), queryGain p K j l = some (K', r) →
    r ⊆ l ∧ ∀ i, K' i = K i ∨ (i = j ∧ ∃ s ∈ l, p.flt s = some (K' i)) := by
  intro l
  induction l with
  | nil => intro r h; simp [queryGain] at h
  | cons s l ih =>
    intro r h
    simp only [queryGain] at h
    cases hf : p.flt s with
    | some x =>
      rw [hf] at h
      simp only [Option.some.injEq, Prod.mk.injEq] at h
      obtain ⟨rfl, rfl⟩ := h
      refine ⟨by simp, fun i => ?_⟩
      by_cases hi : i = j
      · subst hi; right; exact ⟨rfl, s, by simp, by simp [hf]⟩
      · left; simp [hi]
    | none =>
      rw [hf] at h
      simp only at h
      split at h
      · simp only [Option.some.injEq, Prod.mk.injEq] at h
        obtain ⟨rfl, rfl⟩ := h
        exact ⟨by simp, fun i => Or.inl rfl⟩
      · obtain ⟨h1, h2⟩ := ih r h
        refine ⟨fun a ha => by simp [h1 ha], fun i => ?_⟩
        rcases h2 i with h | ⟨h, s', hs', e⟩
        · exact Or.inl h
        · exact Or.inr ⟨h, s', by simp [hs'], e⟩

theorem readId_entry (p : Parse) : ∀ (l r : List String) (j : Option (Fin n)), readId p n l = some (j, r) →
    r ⊆ l ∧ ∀ k : Fin n, j = some k → ∃ s ∈ l, p.digit s = some (k : Nat) := by
  intro l
  induction l with
  | nil => intro r j h; simp [readId] at h
  | cons s l ih =>
    intro r j h
    simp only [readId] at h
    have again : readId p n l = some (j, r) → r ⊆ s :: l ∧ ∀ k : Fin n, j = some k → ∃ s' ∈ s :: l, p.digit s' = some (k : Nat) := by
      intro h
      obtain ⟨h1, h2⟩ := ih r j h
      refine ⟨fun a ha => by simp [h1 ha], fun k hk => ?_⟩
      obtain ⟨s', a, b⟩ := h2 k hk
      exact ⟨s', by simp [a], b⟩
    split at h
    · simp only [Option.some.injEq, Prod.mk.injEq] at h
      obtain ⟨rfl, rfl⟩ := h
      exact ⟨by simp, by simp⟩
    · cases hd : p.digit s with
      | none => rw [hd] at h; exact again h
      | some k =>
        rw [hd] at h
        simp only at h
        split at h
        · simp only [Option.some.injEq, Prod.mk.injEq] at h
          obtain ⟨rfl, rfl⟩ := h
          refine ⟨by simp, fun k' hk' => ⟨s, by simp, ?_⟩⟩
          simp only [Option.some.injEq] at hk'
          rw [← hk', hd]
        · exact again h

/-- C212: whatever is typed, a gain that has changed is a number typed, and the id of its joint was typed. -/
theorem C212_only (p : Parse) (P D P' D' : Fin n → ℝ) (l r : List String) (h : tunePD p P D l = some (P', D', r)) (i : Fin n) :
    (P' i = P i ∨ (∃ s ∈ l, p.flt s = some (P' i)) ∧ ∃ s ∈ l, p.digit s = some (i : Nat)) ∧
    (D' i = D i ∨ (∃ s ∈ l, p.flt s = some (D' i)) ∧ ∃ s ∈ l, p.digit s = some (i : Nat)) := by
  have key : ∀ (fuel : Nat) (P D : Fin n → ℝ) (l : List String), tuneLoop p fuel P D l = some (P', D', r) →
      (P' i = P i ∨ (∃ s ∈ l, p.flt s = some (P' i)) ∧ ∃ s ∈ l, p.digit s = some (i : Nat)) ∧
      (D' i = D i ∨ (∃ s ∈ l, p.flt s = some (D' i)) ∧ ∃ s ∈ l, p.digit s = some (i : Nat)) := by
    intro fuel
    induction fuel with
    | zero => intro P D l h; simp [tuneLoop] at h
    | succ fuel ih =>
      intro P D l h
      simp only [tuneLoop] at h
      split at h
      · exact absurd h (by simp)
      · simp only [Option.some.injEq, Prod.mk.injEq] at h
        obtain ⟨rfl, rfl, rfl⟩ := h
        exact ⟨Or.inl rfl, Or.inl rfl⟩
      · rename_i j r1 hr
        obtain ⟨s1, hid⟩ := readId_entry p _ _ _ hr
        obtain ⟨sj, hsj, hdj⟩ := hid j rfl
        split at h
        · exact absurd h (by simp)
        · rename_i P1 r2 hP
          obtain ⟨s2, e2⟩ := queryGain_entry p _ _ _ _ _ hP
          split at h
          · exact absurd h (by simp)
          · rename_i D1 r3 hD
            obtain ⟨s3, e3⟩ := queryGain_entry p _ _ _ _ _ hD
            obtain ⟨a, b⟩ := ih P1 D1 r3 h
            have sub2 : r2 ⊆ l := fun x hx => s1 (s2 hx)
            have sub3 : r3 ⊆ l := fun x hx => sub2 (s3 hx)
            constructor
            · rcases a with a | ⟨⟨s, hs, hf⟩, s', hs', hd⟩
              · rcases e2 i with e | ⟨rfl, s, hs, hf⟩
                · exact Or.inl (a.trans e)
                · exact Or.inr ⟨⟨s, s1 hs, by rw [a]; exact hf⟩, sj, hsj, hdj⟩
              · exact Or.inr ⟨⟨s, sub3 hs, hf⟩, s', sub3 hs', hd⟩
            · rcases b with b | ⟨⟨s, hs, hf⟩, s', hs', hd⟩
              · rcases e3 i with e | ⟨rfl, s, hs, hf⟩
                · exact Or.inl (b.trans e)
                · exact Or.inr ⟨⟨s, sub2 hs, by rw [b]; exact hf⟩, sj, hsj, hdj⟩
              · exact Or.inr ⟨⟨s, sub3 hs, hf⟩, s', sub3 hs', hd⟩
  exact key _ P D l h

/-- A reader that knows the id `3` and the number `1`: typing `3`, `x`, `1`, an empty line and `stop` sets `P[3] = 1`. -/
example (P D : Fin 8 → ℝ) :
    tunePD ⟨fun s => if s = "3" then some 3 else none, fun s => if s = "1" then some 1 else none⟩ P D ["3", "x", "1", "", "stop"] =
      some (Function.update P 3 1, D, []) := by
  let p : Parse := ⟨fun s => if s = "3" then some 3 else none, fun s => if s = "1" then some 1 else none⟩
  exact C212_dialogue p P D [⟨[], "3", 3, ⟨["x"], "1"⟩, some 1, ⟨[], ""⟩, none⟩]
    (by
      intro e he
      simp only [List.mem_singleton] at he
      subst he
      refine ⟨by simp, by simp, by simp [p], ⟨by simp [p], by simp [p], by simp⟩, ⟨by simp, by simp [p], by simp⟩⟩) [] (by simp) []

/-! ### C213: each joint with its own gains -/

/-- Row `i` of the table of gains names the joint at position `pos i` of the vectors of pinocchio (`pinocchio_joint_ids[i] = pos i + 2`): its
torque is computed with the gains of that row. -/
def OwnGains (pos : Fin n → Fin n) : Prop :=
  ∀ (P D e de : Fin n → ℝ) (i : Fin n), pdTorque P D e de (pos i) = P i * e (pos i) + D i * de (pos i)

/-- C213, partial: the joints have their own gains exactly if they are listed in the order of pinocchio. -/
theorem C213_order_partial (pos : Fin n → Fin n) : OwnGains pos ↔ ∀ i, pos i = i := by
  constructor
  · intro h i
    by_contra hne
    have := h (fun k => if k = i then 1 else 0) 0 (fun _ => 1) 0 i
    simp [pdTorque, hne] at this
  · intro h P D e de i
    rw [h i]; rfl

/-- The order of pinocchio if it sorts the legs `FL, FR, HL, HR`. -/
def sorted : List Joint :=
  [⟨true, true, true⟩, ⟨true, true, false⟩, ⟨true, false, true⟩, ⟨true, false, false⟩,
   ⟨false, true, true⟩, ⟨false, true, false⟩, ⟨false, false, true⟩, ⟨false, false, false⟩]

/-- C213 violated: with the legs in the order `FL, FR, HL, HR` in pinocchio the damping chosen for the front knees is applied to the hind
knees and conversely: the damping torque of the joint at position `k` for unit velocity. -/
theorem C213_violated :
    (∀ k : Fin 8, (sorted.get (k.cast rfl)).hip = false → (sorted.get (k.cast rfl)).front = true →
      damping (sorted.get (k.cast rfl)) = 5 / 10 ∧ pdTorque 0 gainD 0 (fun _ => 1) k = 3 / 10) ∧
    (∀ k : Fin 8, (sorted.get (k.cast rfl)).hip = false → (sorted.get (k.cast rfl)).front = false →
      damping (sorted.get (k.cast rfl)) = 3 / 10 ∧ pdTorque 0 gainD 0 (fun _ => 1) k = 5 / 10) := by
  constructor <;> intro k <;> fin_cases k <;> simp [sorted, damping, pdTorque, gainD, controlled]

/-- C213: the damping of the table is that of the names. -/
theorem C213_table (i : Fin 8) : gainD i = if (controlled.get (i.cast rfl)).hip ∨ (controlled.get (i.cast rfl)).front then 1 / 2 else 3 / 10 := by
  fin_cases i <;> simp [gainD, damping, controlled] <;> norm_num

/-- Front knees exist. -/
example : (sorted.get ⟨1, by decide⟩).hip = false ∧ (sorted.get ⟨1, by decide⟩).front = true ∧ (sorted.get ⟨5, by decide⟩).front = false ∧ ¬ ∀ i : Fin 2, (1 - i) = i := by
  refine ⟨rfl, rfl, rfl, by decide⟩

/-! ### C214: reported momentum -/

variable {Q : Type} {nv : Nat}

theorem rows_spec (diff : Q → Q → Fin nv → ℝ) (A : Q → Matrix (Fin 6) (Fin nv) ℝ) (t : Nat → ℝ) (qs : Nat → Q) (q0 : Q) (k : Nat) :
    (momentumRows diff A t qs q0 (k + 1)).1 = qs k ∧ (momentumRows diff A t qs q0 k).2.length = k ∧
    ∀ i, i < k → (momentumRows diff A t qs q0 k).2[i]? = some (momentumPass diff A t qs i (qs (i - 1))).2 := by
  induction k with
  | zero => exact ⟨rfl, rfl, by simp⟩
  | succ k ih =>
    obtain ⟨h1, h2, h3⟩ := ih
    refine ⟨rfl, by simp [momentumRows, h2], fun i hi => ?_⟩
    show ((momentumRows diff A t qs q0 k).2 ++ [(momentumPass diff A t qs k (momentumRows diff A t qs q0 k).1).2])[i]? = _
    by_cases hik : i < k
    · rw [List.getElem?_append_left (by omega)]
      exact h3 i hik
    · have : i = k := by omega
      subst this
      rw [List.getElem?_append_right (by omega), h2]
      simp only [Nat.sub_self, List.getElem?_cons_zero, Option.some.injEq]
      cases i with
      | zero => simp [momentumPass]
      | succ i =>
        have : (momentumRows diff A t qs q0 (i + 1)).1 = qs i := rfl
        rw [this]; rfl

open Matrix in
/-- C214, partial: if the robot moves with the generalised velocities `v` between the samples (`diff` inverts `integ`), every
row but the first is the centroidal momentum of the robot for that velocity. -/
theorem C214_momentum_partial (diff : Q → Q → Fin nv → ℝ) (integ : Q → (Fin nv → ℝ) → Q) (hd : ∀ q w, diff q (integ q w) = w)
    (A : Q → Matrix (Fin 6) (Fin nv) ℝ) (t : Nat → ℝ) (qs : Nat → Q) (q0 : Q) (v : Nat → Fin nv → ℝ)
    (ht : ∀ i, t i < t (i + 1)) (hq : ∀ i, qs (i + 1) = integ (qs i) ((t (i + 1) - t i) • v i)) (k i : Nat) (hi : i + 1 < k) :
    (momentumRows diff A t qs q0 k).2[i + 1]? = some (A (qs (i + 1)) *ᵥ v i) := by
  rw [(rows_spec diff A t qs q0 k).2.2 (i + 1) hi]
  have hpos : t (i + 1) - t i ≠ 0 := (sub_pos.mpr (ht i)).ne'
  simp only [momentumPass, Nat.add_one_sub_one, Nat.succ_ne_zero, if_false]
  rw [hq i, hd, smul_smul, inv_mul_cancel₀ hpos, one_smul]

open Matrix in
/-- C214 violated: the first row is always zero: a robot moving from the start with any momentum is reported at rest. -/
theorem C214_violated (diff : Q → Q → Fin nv → ℝ) (hself : ∀ q, diff q q = 0) (A : Q → Matrix (Fin 6) (Fin nv) ℝ)
    (t : Nat → ℝ) (qs : Nat → Q) (q0 : Q) (k : Nat) (hk : 0 < k) :
    (momentumRows diff A t qs q0 k).2[0]? = some 0 := by
  rw [(rows_spec diff A t qs q0 k).2.2 0 hk]
  simp [momentumPass, hself]

/-- A body on a line moving with velocity two: zero, then two. -/
example : ∃ (A : ℝ → Matrix (Fin 6) (Fin 1) ℝ), let d : ℝ → ℝ → Fin 1 → ℝ := fun a b _ => b - a
    (∀ q w, d q (q + w 0) = w) ∧ (∀ q, d q q = 0) ∧ (momentumRows d A (fun i => i) (fun i => 2 * i) 0 2).2[1]? = some (fun _ => 2) := by
  have hd : ∀ (q : ℝ) (w : Fin 1 → ℝ), (fun (_ : Fin 1) => q + w 0 - q) = w := by
    intro q w; funext i; simp [Subsingleton.elim i 0]
  refine ⟨fun _ => Matrix.of fun _ _ => 1, hd, fun q => by funext i; simp, ?_⟩
  have := C214_momentum_partial (fun (a b : ℝ) (_ : Fin 1) => b - a) (fun q w => q + w 0) hd (fun _ => Matrix.of fun _ _ => 1) (fun i => i)
      (fun i => 2 * i) 0 (fun _ _ => 2) (fun i => by simp) (fun i => by push_cast; simp; ring) 2 0 (by norm_num)
  refine this.trans ?_
  simp only [Option.some.injEq]
  funext i
  simp [Matrix.mulVec, dotProduct]

end ExecTune
end Verif
