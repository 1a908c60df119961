import Verif.Cont

/-! C175-C179: loading contact plans and initial states, placements, generalised coordinates. -/
namespace Verif
namespace Cont
open Matrix

/-! ### C175: identifiers of the contacts -/

/-- All contacts of a sequence of `n` end-effectors, in order of end-effector and contact. -/
def Seq.all (s : Seq) (n : Nat) : List Contact := (List.range n).flatMap s.cnts

/-- The contact holds the parameters of the file: times, position, orientation with the real part first, type and terrain. -/
def Holds (p : Fin 11 → ℝ) (c : Contact) : Prop :=
  c.active = false ∧ c.tini = p 0 ∧ c.tend = p 1 ∧ (∀ i : Fin 3, c.pos i = p ⟨i + 2, by omega⟩) ∧ c.ori = ⟨p 5, p 6, p 7, p 8⟩ ∧
  (∀ k : Int, p 10 = k → c.terrain = k) ∧ (p 9 = 0 → c.ctype = .free) ∧ (p 9 = 1 → c.ctype = .flat) ∧ (p 9 = 2 → c.ctype = .full)

lemma toInt_int (k : Int) : toInt (k : ℝ) = k := by
  unfold toInt; split_ifs <;> simp

lemma push_spec (ps : List (Fin 11 → ℝ)) (k : Nat) : (push ps k).map Contact.optId = (List.range' k ps.length).map Int.ofNat ∧ List.Forall₂ Holds ps (push ps k) := by
  induction ps generalizing k with
  | nil => simp [push]
  | cons p ps ih =>
    obtain ⟨h1, h2⟩ := ih (k + 1)
    refine ⟨?_, ?_⟩
    · simp only [push, List.map_cons, h1, List.length_cons, List.range'_succ]
      rfl
    · refine List.Forall₂.cons ⟨rfl, rfl, rfl, fun i => ?_, rfl, fun j hj => ?_, fun h => ?_, fun h => ?_, fun h => ?_⟩ h2
      · fin_cases i <;> rfl
      · simp only [Contact.ofParams]; rw [hj, toInt_int]
      · have := toInt_int 0
        simp only [Contact.ofParams, h]; push_cast at this; rw [this]; rfl
      · have := toInt_int 1
        simp only [Contact.ofParams, h]; push_cast at this; rw [this]; rfl
      · have := toInt_int 2
        simp only [Contact.ofParams, h]; push_cast at this; rw [this]; rfl

/-- The contacts read before end-effector `m`. -/
def before (plan : Nat → Option (List (Fin 11 → ℝ))) (m : Nat) : Nat := ((List.range m).map fun e => ((plan e).getD []).length).sum

lemma before_succ (plan : Nat → Option (List (Fin 11 → ℝ))) (m : Nat) : before plan (m + 1) = before plan m + ((plan m).getD []).length := by
  simp [before, List.range_succ]

/-- What a load leaves: the end-effectors before the first unreadable one are replaced, with consecutive identifiers, all others are kept. -/
lemma loadFrom_spec (plan : Nat → Option (List (Fin 11 → ℝ))) (r : Nat) : ∀ (e : Nat) (c : Nat → List Contact), ∃ m, m ≤ r ∧ (∀ j, j < m → plan (e + j) ≠ none) ∧ (m < r → plan (e + m) = none) ∧
    (loadFrom plan r e (before plan e) c).num = some (before plan (e + m)) ∧
    ∀ j, (loadFrom plan r e (before plan e) c).cnts j = if e ≤ j ∧ j < e + m then push ((plan j).getD []) (before plan j) else c j := by
  induction r with
  | zero =>
    intro e c
    refine ⟨0, le_rfl, by simp, by simp, rfl, fun j => ?_⟩
    rw [if_neg (by omega)]; rfl
  | succ r ih =>
    intro e c
    cases hp : plan e with
    | none =>
      refine ⟨0, by omega, by simp, fun _ => hp, ?_, fun j => ?_⟩
      · simp only [loadFrom, hp]; rfl
      · simp only [loadFrom, hp]; rw [if_neg (by omega)]
    | some ps =>
      have hb : before plan (e + 1) = before plan e + ps.length := by rw [before_succ, hp]; rfl
      obtain ⟨m, h1, h2, h3, h4, h5⟩ := ih (e + 1) (Function.update c e (push ps (before plan e)))
      have hl : loadFrom plan (r + 1) e (before plan e) c = loadFrom plan r (e + 1) (before plan (e + 1)) (Function.update c e (push ps (before plan e))) := by
        simp only [loadFrom, hp, hb]
      refine ⟨m + 1, by omega, fun j hj => ?_, fun hm => ?_, ?_, fun j => ?_⟩
      · cases j with
        | zero => rw [Nat.add_zero, hp]; simp
        | succ j =>
          have := h2 j (by omega)
          rwa [show e + (j + 1) = e + 1 + j by omega]
      · have := h3 (by omega)
        rwa [show e + (m + 1) = e + 1 + m by omega]
      · rw [hl, h4]; congr 2; omega
      · rw [hl, h5]
        by_cases hj : j = e
        · subst hj
          rw [if_neg (by omega), if_pos (by omega), Function.update_self, hp]; rfl
        · by_cases hin : e + 1 ≤ j ∧ j < e + 1 + m
          · rw [if_pos hin, if_pos (by omega)]
          · rw [if_neg hin, if_neg (by omega), Function.update_of_ne hj]

lemma all_ids (cnts : Nat → List Contact) (plan : Nat → Option (List (Fin 11 → ℝ))) (m : Nat) (h : ∀ j, j < m → cnts j = push ((plan j).getD []) (before plan j)) :
    ((List.range m).flatMap cnts).map Contact.optId = (List.range (before plan m)).map Int.ofNat := by
  induction m with
  | zero => simp [before]
  | succ m ih =>
    rw [List.range_succ, List.flatMap_append, List.map_append, ih fun j hj => h j (by omega), before_succ]
    simp only [List.flatMap_cons, List.flatMap_nil, List.append_nil]
    rw [h m (by omega), (push_spec _ _).1, ← List.map_append, List.range_eq_range', List.range_eq_range']
    have := List.range'_append_1 (s := 0) (m := before plan m) (n := ((plan m).getD []).length)
    rw [Nat.zero_add] at this
    rw [this]

/-- C175: when the whole plan can be read, the sequence holds exactly its contacts, in order, with the parameters of the file, none of the contacts of an earlier plan, the identifiers are `0, 1, 2, …`
through all end-effectors, and the number of contacts is their number. -/
theorem C175_load (n : Nat) (plan : Nat → Option (List (Fin 11 → ℝ))) (s : Seq) (h : ∀ e, e < n → plan e ≠ none) :
    (∀ e ps, e < n → plan e = some ps → List.Forall₂ Holds ps ((load n (some plan) s).cnts e)) ∧
    ((load n (some plan) s).all n).map Contact.optId = (List.range ((load n (some plan) s).all n).length).map Int.ofNat ∧
    (load n (some plan) s).num = some ((load n (some plan) s).all n).length := by
  obtain ⟨m, h1, h2, h3, h4, h5⟩ := loadFrom_spec plan n 0 s.cnts
  have hm : m = n := by
    rcases Nat.lt_or_ge m n with hlt | hge
    · have h3' := h3 hlt
      rw [Nat.zero_add] at h3'
      exact absurd h3' (h m hlt)
    · omega
  subst hm
  rw [Nat.zero_add] at h4
  have hb0 : before plan 0 = 0 := rfl
  rw [hb0] at h4 h5
  have hld : load m (some plan) s = loadFrom plan m 0 0 s.cnts := rfl
  have hids := all_ids (load m (some plan) s).cnts plan m (fun j hj => by rw [hld, h5, if_pos (by omega)])
  have hlen : ((load m (some plan) s).all m).length = before plan m := by
    have := congrArg List.length hids
    simpa [Seq.all] using this
  refine ⟨fun e ps he hp => ?_, ?_, ?_⟩
  · rw [hld, h5, if_pos (by omega), hp]
    exact (push_spec _ _).2
  · rw [hlen]; exact hids
  · rw [hlen, hld, h4]

/-! ### C176: a load that fails -/

/-- C176 (what holds): after any load there is an end-effector up to which the contacts are those of the file and from which on they are those from before. -/
theorem C176_prefix_partial (n : Nat) (file : Option (Nat → Option (List (Fin 11 → ℝ)))) (s : Seq) :
    ∃ m, m ≤ n ∧ (∀ j, m ≤ j → (load n file s).cnts j = s.cnts j) ∧
      ∀ plan, file = some plan → (∀ j, j < m → ∃ ps, plan j = some ps ∧ List.Forall₂ Holds ps ((load n file s).cnts j)) ∧ (m < n → plan m = none) := by
  cases file with
  | none => exact ⟨0, by omega, fun j _ => rfl, by simp⟩
  | some plan =>
    obtain ⟨m, h1, h2, h3, h4, h5⟩ := loadFrom_spec plan n 0 s.cnts
    have hb0 : before plan 0 = 0 := rfl
    rw [hb0] at h5
    refine ⟨m, h1, fun j hj => ?_, fun plan' hp => ?_⟩
    · show (loadFrom plan n 0 0 s.cnts).cnts j = _
      rw [h5, if_neg (by omega)]
    · simp only [Option.some.injEq] at hp
      subst hp
      refine ⟨fun j hj => ?_, fun hm => by simpa using h3 hm⟩
      have := h2 j hj
      rw [Nat.zero_add] at this
      obtain ⟨ps, hps⟩ := Option.ne_none_iff_exists'.1 this
      refine ⟨ps, hps, ?_⟩
      show List.Forall₂ Holds ps ((loadFrom plan n 0 0 s.cnts).cnts j)
      rw [h5, if_pos (by omega), hps]
      exact (push_spec _ _).2

/-- C176 is violated: a second load that fails at the second end-effector leaves a mixture of the two plans, in which different contacts share an identifier and the number of contacts is wrong. -/
theorem C176_violated : ∃ (plan1 plan2 : Nat → Option (List (Fin 11 → ℝ))) (s : Seq), (∀ e, plan1 e ≠ none) ∧
    let s1 := load 4 (some plan1) s
    let s2 := load 4 (some plan2) s1
    s2.cnts 0 ≠ s1.cnts 0 ∧ s2.cnts 1 = s1.cnts 1 ∧ (∃ a ∈ s2.cnts 0, ∃ b ∈ s2.cnts 1, a.optId = b.optId) ∧ s2.num ≠ some (s2.all 4).length := by
  refine ⟨fun _ => some [0], fun e => if e = 0 then some [0, 0] else none, ⟨none, fun _ => []⟩, by simp, ?_⟩
  have e1 : ∀ j, j < 4 → (load 4 (some fun _ => some [0]) ⟨none, fun _ => []⟩).cnts j = [Contact.ofParams 0 j] := by
    intro j hj
    have : j = 0 ∨ j = 1 ∨ j = 2 ∨ j = 3 := by omega
    rcases this with rfl | rfl | rfl | rfl <;> simp [load, loadFrom, push, Function.update]
  set s1 := load 4 (some fun _ => some [0]) ⟨none, fun _ => []⟩ with hs1
  have e2 : (load 4 (some fun e => if e = 0 then some [0, 0] else none) s1).cnts = Function.update s1.cnts 0 [Contact.ofParams 0 0, Contact.ofParams 0 1] := by
    simp [load, loadFrom, push]
  have e3 : (load 4 (some fun e => if e = 0 then some [0, 0] else none) s1).num = some 2 := by
    simp [load, loadFrom]
  refine ⟨?_, ?_, ⟨Contact.ofParams 0 1, ?_, Contact.ofParams 0 1, ?_, rfl⟩, ?_⟩
  · rw [e2, Function.update_self, e1 0 (by omega)]; simp
  · rw [e2, Function.update_of_ne (by decide)]
  · rw [e2, Function.update_self]; simp
  · rw [e2, Function.update_of_ne (by decide), e1 1 (by omega)]; simp
  · rw [e3]
    simp only [Seq.all, e2]
    rw [show List.range 4 = [0, 1, 2, 3] from rfl]
    simp [Function.update, e1 1 (by omega), e1 2 (by omega), e1 3 (by omega)]

/-- The conditions of C175 are met by a plan with two contacts for the first end-effector. -/
example : ∀ e, e < 4 → (fun e => if e = 0 then some [(0 : Fin 11 → ℝ), 1] else some [] : Nat → Option (List (Fin 11 → ℝ))) e ≠ none := by
  intro e _; dsimp only; split_ifs <;> simp

/-! ### C179: the initial state -/

/-- The state holds what the file says about end-effector `e`. -/
def HoldsEff (f : IniFile) (s : Ini) (e : Nat) : Prop :=
  ∃ p v, f.pose e = some p ∧ f.frc e = some v ∧ (|p 0| < 1 → s.act e = false) ∧ (1 ≤ |p 0| → s.act e = true) ∧ s.pos e = ![p 1, p 2, p 3] ∧ s.ori e = ⟨p 4, p 5, p 6, p 7⟩ ∧ s.frc e = v

/-- Nothing of end-effector `e` changed. -/
def SameEff (s t : Ini) (e : Nat) : Prop := s.act e = t.act e ∧ s.pos e = t.pos e ∧ s.ori e = t.ori e ∧ s.frc e = t.frc e

/-- A flag is true from 1 on (up to the sign), as for a conversion to `int` that drops the fraction. -/
lemma act_spec (x : ℝ) : (|x| < 1 → decide (toInt x ≠ 0) = false) ∧ (1 ≤ |x| → decide (toInt x ≠ 0) = true) := by
  have key : toInt x = 0 ↔ |x| < 1 := by
    unfold toInt
    rw [abs_lt]
    split
    · rename_i h
      rw [Int.floor_eq_zero_iff]
      exact ⟨fun h' => ⟨by linarith, h'.2⟩, fun h' => ⟨h, h'.2⟩⟩
    · rename_i h
      rw [Int.ceil_eq_zero_iff]
      exact ⟨fun h' => ⟨h'.1, by linarith [h'.2]⟩, fun h' => ⟨h'.1, by linarith⟩⟩
  exact ⟨fun h => by simp [key.mpr h], fun h => by simp [key, not_lt.mpr h]⟩

lemma fillEffs_spec (f : IniFile) (r : Nat) : ∀ (e : Nat) (s : Ini), ∃ m, m ≤ r ∧ (m < r → f.pose (e + m) = none ∨ f.frc (e + m) = none) ∧
    (fillEffs f r e s).com = s.com ∧ (fillEffs f r e s).lmom = s.lmom ∧ (fillEffs f r e s).amom = s.amom ∧
    (∀ j, j < m → HoldsEff f (fillEffs f r e s) (e + j)) ∧ (∀ j, j < e ∨ (e + m < j ∨ m = r ∧ e + m = j) → SameEff (fillEffs f r e s) s j) := by
  induction r with
  | zero => intro e s; exact ⟨0, le_rfl, by simp, rfl, rfl, rfl, by simp, fun j _ => ⟨rfl, rfl, rfl, rfl⟩⟩
  | succ r ih =>
    intro e s
    cases hp : f.pose e with
    | none =>
      refine ⟨0, by omega, fun _ => Or.inl hp, ?_, ?_, ?_, by simp, fun j hj => ?_⟩
      · simp only [fillEffs, hp]
      · simp only [fillEffs, hp]
      · simp only [fillEffs, hp]
      · simp only [fillEffs, hp]; exact ⟨rfl, rfl, rfl, rfl⟩
    | some p =>
      cases hv : f.frc e with
      | none =>
        refine ⟨0, by omega, fun _ => Or.inr hv, ?_, ?_, ?_, by simp, fun j hj => ?_⟩
        · simp only [fillEffs, hp, hv]
        · simp only [fillEffs, hp, hv]
        · simp only [fillEffs, hp, hv]
        · have hne : j ≠ e := by omega
          simp only [fillEffs, hp, hv]
          refine ⟨?_, ?_, ?_, rfl⟩ <;> simp only [Function.update_of_ne hne]
      | some v =>
        set s2 : Ini := { s with act := Function.update s.act e (toInt (p 0) ≠ 0), pos := Function.update s.pos e ![p 1, p 2, p 3], ori := Function.update s.ori e ⟨p 4, p 5, p 6, p 7⟩, frc := Function.update s.frc e v } with hs2
        have hf : fillEffs f (r + 1) e s = fillEffs f r (e + 1) s2 := by simp only [fillEffs, hp, hv]; rfl
        obtain ⟨m, h1, h2, h3, h4, h5, h6, h7⟩ := ih (e + 1) s2
        rw [hf]
        refine ⟨m + 1, by omega, fun hm => ?_, h3, h4, h5, fun j hj => ?_, fun j hj => ?_⟩
        · have := h2 (by omega)
          rwa [show e + (m + 1) = e + 1 + m by omega]
        · cases j with
          | zero =>
            show HoldsEff f _ e
            obtain ⟨g1, g2, g3, g4⟩ := h7 e (Or.inl (by omega))
            obtain ⟨a0, a1⟩ := act_spec (p 0)
            refine ⟨p, v, hp, hv, fun h => ?_, fun h => ?_, ?_, ?_, ?_⟩
            · rw [g1, ← a0 h, hs2]; simp
            · rw [g1, ← a1 h, hs2]; simp
            · rw [g2, hs2]; simp
            · rw [g3, hs2]; simp
            · rw [g4, hs2]; simp
          | succ j =>
            rw [show e + (j + 1) = e + 1 + j by omega]
            exact h6 j (by omega)
        · obtain ⟨g1, g2, g3, g4⟩ := h7 j (by omega)
          have hne : j ≠ e := by omega
          refine ⟨g1.trans ?_, g2.trans ?_, g3.trans ?_, g4.trans ?_⟩ <;> simp only [hs2] <;> rw [Function.update_of_ne hne]

/-- C179: when everything can be read, the state holds the file: centre of mass, momenta, and for every end-effector activation (a flag below 1 in magnitude is false), position, orientation (real part first) and force. -/
theorem C179_initial_partial (n : Nat) (f : IniFile) (s : Ini) (c l a : Fin 3 → ℝ) (hc : f.com = some c) (hl : f.lmom = some l) (ha : f.amom = some a)
    (h : ∀ e, e < n → f.pose e ≠ none ∧ f.frc e ≠ none) :
    (fillIni n (some f) s).com = c ∧ (fillIni n (some f) s).lmom = l ∧ (fillIni n (some f) s).amom = a ∧
    (∀ e, e < n → HoldsEff f (fillIni n (some f) s) e) ∧ ∀ e, n ≤ e → SameEff (fillIni n (some f) s) s e := by
  obtain ⟨m, h1, h2, h3, h4, h5, h6, h7⟩ := fillEffs_spec f n 0 { s with com := c, lmom := l, amom := a }
  have hF : fillIni n (some f) s = fillEffs f n 0 { s with com := c, lmom := l, amom := a } := by simp only [fillIni, hc, hl, ha]
  have hm : m = n := by
    rcases Nat.lt_or_ge m n with hlt | hge
    · have := h2 hlt
      rw [Nat.zero_add] at this
      obtain ⟨g1, g2⟩ := h m hlt
      rcases this with g | g
      · exact absurd g g1
      · exact absurd g g2
    · omega
  subst hm
  rw [hF]
  refine ⟨h3, h4, h5, fun e he => ?_, fun e he => ?_⟩
  · have := h6 e he
    rwa [Nat.zero_add] at this
  · exact h7 e (by omega)

/-- C179 is violated when something cannot be read: with the forces of the second end-effector missing, the state is neither the old one nor that of the file, and the caller is not told: the first
end-effector and the pose of the second are new, the rest is from before. -/
theorem C179_violated : ∃ (f : IniFile) (s : Ini), f.com ≠ none ∧ f.lmom ≠ none ∧ f.amom ≠ none ∧ (∀ e, f.pose e ≠ none) ∧
    (fillIni 4 (some f) s).com ≠ s.com ∧ (fillIni 4 (some f) s).pos 1 ≠ s.pos 1 ∧ (fillIni 4 (some f) s).frc 0 ≠ s.frc 0 ∧ SameEff (fillIni 4 (some f) s) s 2 ∧ ¬ HoldsEff f (fillIni 4 (some f) s) 2 := by
  refine ⟨⟨some 1, some 1, some 1, fun _ => some 1, fun e => if e = 1 then none else some 1⟩, ⟨0, 0, 0, fun _ => false, fun _ => 0, fun _ => ⟨1, 0, 0, 0⟩, fun _ => 0⟩, by simp, by simp, by simp, by simp, ?_, ?_, ?_, ?_, ?_⟩
  · simp [fillIni, fillEffs]
  · simp [fillIni, fillEffs]
  · simp [fillIni, fillEffs]
  · simp [fillIni, fillEffs, SameEff]
  · rintro ⟨p, v, hp, hv, -, -, h, -⟩
    simp only [Option.some.injEq] at hp
    subst hp
    have := congrFun h 0
    simp [fillIni, fillEffs] at this

/-- The conditions of C179 are met. -/
example : (IniFile.mk (some 0) (some 1) (some 0) (fun _ => some 1) (fun _ => some 0)).com = some 0 ∧ ∀ e, e < 4 →
    (IniFile.mk (some 0) (some 1) (some 0) (fun _ => some 1) (fun _ => some 0)).pose e ≠ none ∧ (IniFile.mk (some 0) (some 1) (some 0) (fun _ => some 1) (fun _ => some 0)).frc e ≠ none := by simp

/-! ### C180: generalised coordinates -/

/-- C180: the generalised positions are the base position, then the base orientation in the order of the Python getter, then the joints, exactly when there are as many joint positions as joints (else
the assignment has the wrong size); what the Python setter of the orientation is given the getter returns, and the setter changes nothing else. -/
theorem C180_positions (p : Posture) : (p.joints.length = p.n → ∃ g : List ℝ, p.generalized = some g ∧ g.length = p.n + 7 ∧ (∀ i : Fin 3, g[(i : Nat)]? = some (p.base i)) ∧
      (∀ i : Fin 4, g[(i : Nat) + 3]? = some (p.pyOri i)) ∧ ∀ i : Nat, g[i + 7]? = p.joints[i]?) ∧
    (p.joints.length ≠ p.n → p.generalized = none) ∧ (∀ v, (p.setPyOri v).pyOri = v ∧ (p.setPyOri v).base = p.base ∧ (p.setPyOri v).joints = p.joints) ∧ p.setPyOri p.pyOri = p := by
  refine ⟨fun h => ⟨_, if_pos h, by simp [h], fun i => ?_, fun i => ?_, fun i => ?_⟩, fun h => if_neg h, fun v => ⟨?_, rfl, rfl⟩, ?_⟩
  · fin_cases i <;> simp
  · fin_cases i <;> simp [Posture.pyOri]
  · simp [List.getElem?_append]
  · funext i; fin_cases i <;> rfl
  · rfl

/-- C180 for velocities and accelerations: what is set is what is read, each of the three parts is independent of the others, and the three parts determine the whole vector. -/
theorem C180_velocities {n : Nat} (v : Vel n) (a b : Fin 3 → ℝ) (c : Fin n → ℝ) :
    ((v.setLin a).lin = a ∧ (v.setLin a).ang = v.ang ∧ (v.setLin a).jnt = v.jnt) ∧
    ((v.setAng b).ang = b ∧ (v.setAng b).lin = v.lin ∧ (v.setAng b).jnt = v.jnt) ∧
    ((v.setJnt c).jnt = c ∧ (v.setJnt c).lin = v.lin ∧ (v.setJnt c).ang = v.ang) ∧
    ∀ w : Vel n, w.lin = v.lin → w.ang = v.ang → w.jnt = v.jnt → w.g = v.g := by
  refine ⟨⟨?_, ?_, ?_⟩, ⟨?_, ?_, ?_⟩, ⟨?_, ?_, ?_⟩, fun w h1 h2 h3 => ?_⟩
  · funext i; simp [Vel.lin, Vel.setLin]
  · funext i; simp [Vel.ang, Vel.setLin]
  · funext i; simp [Vel.jnt, Vel.setLin]
  · funext i; simp [Vel.ang, Vel.setAng]
  · funext i; simp [Vel.lin, Vel.setAng]
  · funext i; simp [Vel.jnt, Vel.setAng]
  · funext i; simp [Vel.jnt, Vel.setJnt]
  · funext i; simp [Vel.lin, Vel.setJnt]; omega
  · funext i; simp [Vel.ang, Vel.setJnt]
  · funext k
    by_cases hk : (k : Nat) < 3
    · exact congrFun h1 ⟨k, hk⟩
    · by_cases hk' : (k : Nat) < 6
      · have := congrFun h2 ⟨k - 3, by omega⟩
        simpa [Vel.ang, show (k : Nat) - 3 + 3 = k by omega] using this
      · have := congrFun h3 ⟨k - 6, by omega⟩
        simpa [Vel.jnt, show (k : Nat) - 6 + 6 = k by omega] using this

/-- C180 for a new posture: it stands at the origin, unrotated (the quaternion in the order x, y, z, w), with all joints at zero. -/
theorem C180_fresh (n : Nat) : (Posture.fresh n).generalized = some ([0, 0, 0] ++ [0, 0, 0, 1] ++ List.replicate n 0) ∧
    (Posture.fresh n).pyOri = ![0, 0, 0, 1] := by
  simp [Posture.fresh, Posture.generalized, Posture.pyOri]

/-- A posture of twelve joints has nineteen generalised positions. -/
example : ((Posture.fresh 12).generalized.map List.length) = some 19 := by
  simp [Posture.fresh, Posture.generalized]

end Cont
end Verif
