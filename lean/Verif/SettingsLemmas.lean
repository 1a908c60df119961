import Verif.SettingsModel

/-! Auxiliary facts about the settings model. -/

namespace Verif
namespace Settings

variable {C : Class}

theorem put_same (s : Obj C) (f : C.Field) (v : (C.kindF f).Val) : s.put f v f = v := by simp [Obj.put]

theorem put_other (s : Obj C) {f g : C.Field} (v : (C.kindF f).Val) (h : g ≠ f) : s.put f v g = s g := by simp [Obj.put, h]

theorem sigma_cast {k l : Kind} (h : k = l) (v : k.Val) : (⟨l, h ▸ v⟩ : Σ k : Kind, k.Val) = ⟨k, v⟩ := by subst h; rfl

/-- What a successful write does, for a class whose tables are consistent. -/
theorem get_set (s s' : Obj C) (p : C.Param) (v : (C.kindP p).Val) (hrw : ∀ f, C.write p = some f → C.read p = some f) (h : s.set p v = some s') : s'.get p = some ⟨C.kindP p, v⟩ := by
  unfold Obj.set at h
  split at h
  · cases h
  · rename_i f hf
    split at h
    · rename_i hk
      split at h
      · cases h
      · obtain rfl := Option.some.inj h
        simp [Obj.get, hrw f hf, put_same, sigma_cast hk]
    · cases h

theorem get_set_other (s s' : Obj C) (p q : C.Param) (v : (C.kindP p).Val) (hne : ∀ f, C.write p = some f → C.read q ≠ some f) (h : s.set p v = some s') : s'.get q = s.get q := by
  unfold Obj.set at h
  split at h
  · cases h
  · rename_i f hf
    split at h
    · split at h
      · cases h
      · obtain rfl := Option.some.inj h
        simp only [Obj.get]
        cases hq : C.read q with
        | none => rfl
        | some g =>
          have : g ≠ f := by
            rintro rfl
            exact hne _ hf hq
          simp [put_other _ _ this]
    · cases h

theorem set_isSome (s : Obj C) (p : C.Param) (v : (C.kindP p).Val) (f : C.Field) (hf : C.write p = some f) (hk : C.kindP p = C.kindF f)
    (hl : C.fixedSize (C.kindF f) = true → len _ (s f) = len _ v) : (s.set p v).isSome := by
  unfold Obj.set
  simp only [hf, dif_pos hk]
  split
  · rename_i h
    simp only [Bool.and_eq_true, bne_iff_ne] at h
    exact absurd (hl h.1) h.2
  · rfl

/-! ### actions -/

theorem seq_ok {a b : Act} {s s' : PlannerObj} : seq a b s = (s', true) ↔ ∃ t, a s = (t, true) ∧ b t = (s', true) := by
  unfold seq
  rcases h : a s with ⟨t, b'⟩
  cases b' <;> simp

theorem seqs_append (l m : List Act) : seqs (l ++ m) = seq (seqs l) (seqs m) := by
  induction l with
  | nil => rfl
  | cons a r ih =>
    simp only [List.cons_append, seqs, ih]
    funext s
    simp only [seq]
    rcases a s with ⟨t, b⟩
    cases b <;> rfl

/-- `P` is kept by successful runs. -/
def Pres (P : PlannerObj → Prop) (a : Act) : Prop := ∀ s s', P s → a s = (s', true) → P s'

/-- `P` holds after successful runs. -/
def Est (P : PlannerObj → Prop) (a : Act) : Prop := ∀ s s', a s = (s', true) → P s'

variable {P : PlannerObj → Prop}

theorem Pres.seq {a b : Act} (ha : Pres P a) (hb : Pres P b) : Pres P (Settings.seq a b) := by
  intro s s' hs h
  obtain ⟨t, h1, h2⟩ := seq_ok.mp h
  exact hb t s' (ha s t hs h1) h2

theorem Pres.seqs {l : List Act} (h : ∀ a ∈ l, Pres P a) : Pres P (Settings.seqs l) := by
  induction l with
  | nil => intro s s' hs hr; simp only [Settings.seqs, Prod.mk.injEq, and_true] at hr; exact hr ▸ hs
  | cons a r ih => exact Pres.seq (h a (by simp)) (ih fun b hb => h b (by simp [hb]))

theorem Est.seqs {l : List Act} {m : List Act} {a : Act} (ha : Est P a) (hm : Pres P (Settings.seqs m)) : Est P (Settings.seqs (l ++ a :: m)) := by
  intro s s' h
  rw [seqs_append] at h
  obtain ⟨t, -, h2⟩ := seq_ok.mp h
  obtain ⟨u, h3, h4⟩ := seq_ok.mp h2
  exact hm u s' (ha t u h3) h4

theorem Pres.ifB {c : PlannerObj → Bool} {a : Act} (h : Pres P a) : Pres P (Settings.ifB c a) := by
  intro s s' hs hr
  unfold Settings.ifB at hr
  split at hr
  · exact h s s' hs hr
  · simp only [Prod.mk.injEq, and_true] at hr; exact hr ▸ hs

theorem Pres.pure1 {f : PlannerObj → PlannerObj} (h : ∀ s, P s → P (f s)) : Pres P (Settings.pure1 f) := by
  intro s s' hs hr
  simp only [Settings.pure1, Prod.mk.injEq, and_true] at hr
  exact hr ▸ h s hs

@[simp] theorem put_obj_same (s : PlannerObj) (f : Planner.Field) (v : (Planner.Field.kind f).Val) : (s.put f v).obj f = v := put_same (C := planner) s.obj f v

theorem put_obj_other (s : PlannerObj) {f g : Planner.Field} (v : (Planner.Field.kind f).Val) (h : g ≠ f) : (s.put f v).obj g = s.obj g := put_other (C := planner) s.obj v h

/-- The member has the value of its key. -/
def Loaded (cfg : PlannerCfg) (f : Planner.Field) (s : PlannerObj) : Prop := cfg.value f = some (s.obj f)

theorem Pres.readP {cfg : PlannerCfg} (f g : Planner.Field) : Pres (Loaded cfg f) (Settings.readP cfg g) := by
  intro s s' hs hr
  unfold Settings.readP at hr
  split at hr
  · rename_i v hv
    simp only [Prod.mk.injEq, and_true] at hr
    subst hr
    by_cases h : f = g
    · subst h; exact hv.trans (congrArg some (put_obj_same s f v).symm)
    · simpa [Loaded, put_obj_other _ _ h] using hs
  · simp at hr

theorem Est.readP {cfg : PlannerCfg} (f : Planner.Field) : Est (Loaded cfg f) (Settings.readP cfg f) := by
  intro s s' hr
  unfold Settings.readP at hr
  split at hr
  · rename_i v hv
    simp only [Prod.mk.injEq, and_true] at hr
    subst hr
    exact hv.trans (congrArg some (put_obj_same s f v).symm)
  · simp at hr

theorem Pres.reads {cfg : PlannerCfg} (f : Planner.Field) (l : List Planner.Field) : Pres (Loaded cfg f) (Settings.reads cfg l) := by
  apply Pres.seqs
  intro a ha
  obtain ⟨g, -, rfl⟩ := List.mem_map.mp ha
  exact Pres.readP f g

theorem Est.reads {cfg : PlannerCfg} {f : Planner.Field} {l : List Planner.Field} (h : f ∈ l) : Est (Loaded cfg f) (Settings.reads cfg l) := by
  obtain ⟨l1, l2, rfl⟩ := List.append_of_mem h
  unfold Settings.reads
  rw [List.map_append, List.map_cons]
  exact Est.seqs (Est.readP f) (Pres.reads f l2)

/-- A predicate that only depends on members other than `g`. -/
def Indep (P : PlannerObj → Prop) (g : Planner.Field) : Prop := ∀ s v, P s → P (s.put g v)

theorem Indep.loaded {cfg : PlannerCfg} {f g : Planner.Field} (h : f ≠ g) : Indep (Loaded cfg f) g := by
  intro s v hs
  simpa [Loaded, put_obj_other _ _ h] using hs

theorem Pres.viaLoop {cfg : PlannerCfg} {g : Planner.Field} {h : Planner.Field.kind g = .cvec} {z : PlannerObj → ℕ} (hi : Indep P g) (n i : ℕ) :
    Pres P (Settings.viaLoop cfg g h z n i) := by
  induction n generalizing i with
  | zero => intro s s' hs hr; simp only [Settings.viaLoop, Prod.mk.injEq, and_true] at hr; exact hr ▸ hs
  | succ n ih =>
    intro s s' hs hr
    simp only [Settings.viaLoop] at hr
    split at hr
    · exact ih _ _ _ (hi _ _ hs) hr
    · simp at hr

theorem Pres.clear {g : Planner.Field} {h : Planner.Field.kind g = .cvec} (hi : Indep P g) : Pres P (Settings.clear g h) := Pres.pure1 fun s hs => hi s _ hs

theorem Pres.readEff {cfg : PlannerCfg} {g : Planner.Field} {h : Planner.Field.kind g = .arr} {e : Fin 4} (hi : Indep P g) : Pres P (Settings.readEff cfg g h e) := by
  intro s s' hs hr
  unfold Settings.readEff at hr
  split at hr
  · simp only [Prod.mk.injEq, and_true] at hr
    exact hr ▸ hi _ _ hs
  · simp at hr

theorem Est.here {a : Act} {l : List Act} (h : Est P a) (hl : Pres P (Settings.seqs l)) : Est P (Settings.seqs (a :: l)) := Est.seqs (l := []) h hl

theorem Est.there {a : Act} {l : List Act} (h : Est P (Settings.seqs l)) : Est P (Settings.seqs (a :: l)) := by
  intro s s' hs
  obtain ⟨t, -, h2⟩ := seq_ok.mp hs
  exact h t s' h2

theorem Est.here2 {a b : Act} {l : List Act} (h : Est P (Settings.seq a b)) (hl : Pres P (Settings.seqs l)) : Est P (Settings.seqs (a :: b :: l)) := by
  intro s s' hs
  obtain ⟨t, h1, h2⟩ := seq_ok.mp hs
  obtain ⟨u, h3, h4⟩ := seq_ok.mp h2
  exact hl u s' (h s u (seq_ok.mpr ⟨t, h1, h3⟩)) h4

/-- `P` depends on the members in `D` only. -/
structure DependsOn (P : PlannerObj → Prop) (D : List Planner.Field) : Prop where
  heur : ∀ s h, P s → P { s with heuristic := h }
  indep : ∀ g, g ∉ D → Indep P g

theorem DependsOn.loaded (cfg : PlannerCfg) (f : Planner.Field) : DependsOn (Loaded cfg f) [f] where
  heur := fun _ _ h => h
  indep := fun g hg => Indep.loaded (by rintro rfl; simp at hg)

variable {D : List Planner.Field}

theorem Pres.nil : Pres P (Settings.seqs []) := Pres.seqs (by simp)

theorem Pres.cons {a : Act} {l : List Act} (h : Pres P a) (hl : Pres P (Settings.seqs l)) : Pres P (Settings.seqs (a :: l)) := Pres.seq h hl

theorem Pres.readP' {cfg : PlannerCfg} {g : Planner.Field} (hi : Indep P g) : Pres P (Settings.readP cfg g) := by
  intro s s' hs hr
  unfold Settings.readP at hr
  split at hr
  · simp only [Prod.mk.injEq, and_true] at hr
    exact hr ▸ hi _ _ hs
  · simp at hr

theorem Pres.reads' {cfg : PlannerCfg} (hD : DependsOn P D) {l : List Planner.Field} (hd : ∀ g ∈ l, g ∉ D) : Pres P (Settings.reads cfg l) := by
  apply Pres.seqs
  intro a ha
  obtain ⟨g, hg, rfl⟩ := List.mem_map.mp ha
  exact Pres.readP' (hD.indep g (hd g hg))

theorem Pres.heur (hD : DependsOn P D) (o : Option String) (f : String → Heuristic) :
    Pres P (fun s => match o with
      | none => (s, false)
      | some h => ({ s with heuristic := f h }, true)) := by
  intro s s' hs hr
  cases o with
  | none => simp at hr
  | some h => simp only [Prod.mk.injEq, and_true] at hr; exact hr ▸ hD.heur _ _ hs

theorem Pres.cone {g : Planner.Field} (hP : Indep P g) (o : Option String) (f : String → (Planner.Field.kind g).Val) :
    Pres P (fun s => match o with
      | none => (s, false)
      | some c => (s.put g (f c), true)) := by
  intro s s' hs hr
  cases o with
  | none => simp at hr
  | some h => simp only [Prod.mk.injEq, and_true] at hr; exact hr ▸ hP _ _ hs

theorem Pres.effs {cfg : PlannerCfg} {g k : Planner.Field} {hg : Planner.Field.kind g = .arr} {hk : Planner.Field.kind k = .arr} (h1 : Indep P g) (h2 : Indep P k) :
    Pres P (Settings.seqs ((List.finRange 4).map fun e => Settings.seq (Settings.readEff cfg g hg e) (Settings.readEff cfg k hk e))) := by
  apply Pres.seqs
  intro a ha
  obtain ⟨e, -, rfl⟩ := List.mem_map.mp ha
  exact Pres.seq (Pres.readEff h1) (Pres.readEff h2)

/-- The last assignments keep everything that does not depend on the five derived members. -/
theorem Pres.derive (hD : DependsOn P D)
    (h : ∀ g ∈ [Planner.Field.num_act_dofs, .mass_times_gravity, .gravity_vector, .num_timesteps, .num_extended_act_dofs], g ∉ D) : Pres P Settings.derive := by
  apply Pres.pure1
  intro s hs
  simp only [List.forall_mem_cons, List.not_mem_nil, false_imp_iff, implies_true, and_true] at h
  obtain ⟨h1, h2, h3, h4, h5⟩ := h
  exact hD.indep _ h5 _ _ (hD.indep _ h4 _ _ (hD.indep _ h3 _ _ (hD.indep _ h2 _ _ (hD.indep _ h1 _ _ hs))))

/-- Goes through a list of statements that do not touch the members `P` depends on. -/
macro "pres " h:term : tactic => `(tactic|
  repeat' first
    | exact Pres.effs (DependsOn.indep $h _ (by decide)) (DependsOn.indep $h _ (by decide))
    | exact Pres.nil
    | refine Pres.cons ?_ ?_
    | exact Pres.reads' $h (by decide)
    | exact Pres.readP' (DependsOn.indep $h _ (by decide))
    | exact Pres.derive $h (by decide)
    | exact Pres.clear (DependsOn.indep $h _ (by decide))
    | exact fun s s' hs hr => Pres.viaLoop (DependsOn.indep $h _ (by decide)) _ _ s s' hs hr
    | exact Pres.heur $h _ _
    | exact Pres.cone (DependsOn.indep $h _ (by decide)) _ _
    | refine Pres.ifB ?_
    | exact Pres.pure1 fun s hs => DependsOn.indep $h _ (by decide) _ _ hs)

/-! ### success -/

/-- Never throws. -/
def Ok (a : Act) : Prop := ∀ s, ∃ s', a s = (s', true)

theorem Ok.seq {a b : Act} (ha : Ok a) (hb : Ok b) : Ok (Settings.seq a b) := by
  intro s
  obtain ⟨t, h1⟩ := ha s
  obtain ⟨u, h2⟩ := hb t
  exact ⟨u, seq_ok.mpr ⟨t, h1, h2⟩⟩

theorem Ok.seqs {l : List Act} (h : ∀ a ∈ l, Ok a) : Ok (Settings.seqs l) := by
  induction l with
  | nil => exact fun s => ⟨s, rfl⟩
  | cons a r ih => exact Ok.seq (h a (by simp)) (ih fun b hb => h b (by simp [hb]))

theorem Ok.nil : Ok (Settings.seqs []) := fun s => ⟨s, rfl⟩

theorem Ok.cons {a : Act} {l : List Act} (h : Ok a) (hl : Ok (Settings.seqs l)) : Ok (Settings.seqs (a :: l)) := Ok.seq h hl

theorem Ok.ifB {c : PlannerObj → Bool} {a : Act} (h : Ok a) : Ok (Settings.ifB c a) := by
  intro s
  unfold Settings.ifB
  split
  · exact h s
  · exact ⟨s, rfl⟩

theorem Ok.pure1 (f : PlannerObj → PlannerObj) : Ok (Settings.pure1 f) := fun s => ⟨f s, rfl⟩

/-- Every key is present and well-typed. -/
structure PlannerCfg.Complete (cfg : PlannerCfg) : Prop where
  file : cfg.fileOk = true
  value : ∀ f, (cfg.value f).isSome
  heur : cfg.heuristic.isSome
  cone : cfg.frictionCone.isSome
  via : ∀ f i, (cfg.via f i).isSome
  eff : ∀ f e, (cfg.perEff f e).isSome

variable {cfg : PlannerCfg}

theorem Ok.readP (h : cfg.Complete) (f : Planner.Field) : Ok (Settings.readP cfg f) := by
  intro s
  obtain ⟨v, hv⟩ := Option.isSome_iff_exists.mp (h.value f)
  exact ⟨s.put f v, by simp [Settings.readP, hv]⟩

theorem Ok.reads (h : cfg.Complete) (l : List Planner.Field) : Ok (Settings.reads cfg l) := by
  apply Ok.seqs
  intro a ha
  obtain ⟨g, -, rfl⟩ := List.mem_map.mp ha
  exact Ok.readP h g

theorem Ok.viaLoop (h : cfg.Complete) (g : Planner.Field) (hg : Planner.Field.kind g = .cvec) (z : PlannerObj → ℕ) (n i : ℕ) : Ok (Settings.viaLoop cfg g hg z n i) := by
  induction n generalizing i with
  | zero => exact fun s => ⟨s, rfl⟩
  | succ n ih =>
    intro s
    obtain ⟨v, hv⟩ := Option.isSome_iff_exists.mp (h.via g i)
    simp only [Settings.viaLoop, hv]
    exact ih _ _

theorem Ok.readEff (h : cfg.Complete) (g : Planner.Field) (hg : Planner.Field.kind g = .arr) (e : Fin 4) : Ok (Settings.readEff cfg g hg e) := by
  intro s
  obtain ⟨v, hv⟩ := Option.isSome_iff_exists.mp (h.eff g e)
  exact ⟨_, by simp only [Settings.readEff, hv]; rfl⟩

theorem init_ok (file src : String) (h : cfg.Complete) : Ok (initPlanner file src cfg) := by
  obtain ⟨hs, hheur⟩ := Option.isSome_iff_exists.mp h.heur
  obtain ⟨cs, hcone⟩ := Option.isSome_iff_exists.mp h.cone
  unfold initPlanner
  repeat' first
    | exact Ok.nil
    | (refine Ok.cons ?_ ?_)
    | exact Ok.reads h _
    | exact Ok.readP h _
    | exact Ok.pure1 _
    | exact fun s => Ok.viaLoop h _ _ _ _ _ s
    | refine Ok.ifB ?_
    | exact fun s => ⟨s, by rw [h.file]⟩
    | exact fun s => ⟨_, by simp only [hheur]; rfl⟩
    | exact fun s => ⟨_, by simp only [hcone]; rfl⟩
    | exact Ok.seq (Ok.readEff h _ _ _) (Ok.readEff h _ _ _)

end Settings
end Verif
