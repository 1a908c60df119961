import Verif.Plan
import Verif.ContPlace
import Mathlib.Tactic.FieldSimp
import Mathlib.Tactic.FinCases

/-! C181-C191: the Python layer around the optimisers. -/
namespace Verif
namespace Plan
open Matrix

/-! ### C181: end-effector setters -/

/-- C181 (what holds): setting position, force or activation of an end-effector changes exactly that. -/
theorem C181_setters_partial (s : DynS) (e : Nat) (v : Fin 3 → ℝ) (b : Bool) :
    ((s.setPos e v).pos e = v ∧ (∀ j, j ≠ e → (s.setPos e v).pos j = s.pos j) ∧ (s.setPos e v).frc = s.frc ∧ (s.setPos e v).trq = s.trq ∧ (s.setPos e v).act = s.act) ∧
    ((s.setFrc e v).frc e = v ∧ (∀ j, j ≠ e → (s.setFrc e v).frc j = s.frc j) ∧ (s.setFrc e v).pos = s.pos ∧ (s.setFrc e v).trq = s.trq ∧ (s.setFrc e v).act = s.act) ∧
    ((s.setAct e b).act e = b ∧ (∀ j, j ≠ e → (s.setAct e b).act j = s.act j) ∧ (s.setAct e b).pos = s.pos ∧ (s.setAct e b).trq = s.trq ∧ (s.setAct e b).frc = s.frc) := by
  refine ⟨⟨?_, fun j h => ?_, rfl, rfl, rfl⟩, ⟨?_, fun j h => ?_, rfl, rfl, rfl⟩, ⟨?_, fun j h => ?_, rfl, rfl, rfl⟩⟩ <;>
    simp only [DynS.setPos, DynS.setFrc, DynS.setAct, Function.update_self] <;> rw [Function.update_of_ne h]

/-- C181 is violated for the torque: whatever torque is set, the torque of every end-effector stays what it was, and the position of the end-effector is overwritten with it. -/
theorem C181_violated (s : DynS) (e : Nat) (v : Fin 3 → ℝ) : (s.setTrq e v).trq = s.trq ∧ (s.setTrq e v).pos e = v := ⟨rfl, by simp [DynS.setTrq]⟩

/-- So there is a state and a torque with neither the torque set nor the position kept. -/
theorem C181_violated_witness : ∃ (s : DynS) (v : Fin 3 → ℝ), (s.setTrq 0 v).trq 0 ≠ v ∧ (s.setTrq 0 v).pos 0 ≠ s.pos 0 := by
  refine ⟨⟨0, 0, 0, fun _ => false⟩, 1, ?_, ?_⟩ <;> simp [DynS.setTrq]

/-! ### C182: alternation -/

variable {K D F : Type}

lemma rounds_spec (p : Planner K D F) (ks : Nat → K) (ds : Nat → D) (hk : ∀ i, ks (i + 1) = p.kinOpt (ds i) (ks i)) (hd : ∀ i, ds (i + 1) = p.dynOpt (ks (i + 1)) true (ds i)) (f : Option F) (r : Nat) :
    ∀ i, p.rounds r i ⟨ks i, ds i, f⟩ = ⟨ks (i + r), ds (i + r), f⟩ := by
  induction r with
  | zero => intro i; rfl
  | succ r ih =>
    intro i
    have : p.optDyn (i + 1) (p.optKin ⟨ks i, ds i, f⟩) = ⟨ks (i + 1), ds (i + 1), f⟩ := by
      simp only [Planner.optDyn, Planner.optKin, ← hk, hd]
      simp
    simp only [Planner.rounds, this, ih]
    congr 2 <;> omega

/-- C182: with `n` kinematic-dynamic iterations there are exactly `n` kinematic plans, each computed from the dynamic plan before it, and `n + 1` dynamic plans; the first does not track the kinematic plan,
every later one tracks the kinematic plan computed just before it; the last of each are returned, and the feedback, if asked for, belongs to the dynamic plan returned. -/
theorem C182_alternation (p : Planner K D F) (n : Nat) (lqr : Bool) (s : PState K D F) : ∃ (ks : Nat → K) (ds : Nat → D),
    ks 0 = s.kin ∧ ds 0 = p.dynOpt s.kin false s.dyn ∧ (∀ i, ks (i + 1) = p.kinOpt (ds i) (ks i)) ∧ (∀ i, ds (i + 1) = p.dynOpt (ks (i + 1)) true (ds i)) ∧
    (p.optimizeMotion n lqr s).kin = ks n ∧ (p.optimizeMotion n lqr s).dyn = ds n ∧
    (p.optimizeMotion n lqr s).fb = if lqr then some (p.feedback (p.optimizeMotion n lqr s).dyn) else s.fb := by
  let step : Nat → K × D := fun n => Nat.rec (s.kin, p.dynOpt s.kin false s.dyn) (fun _ x => (p.kinOpt x.2 x.1, p.dynOpt (p.kinOpt x.2 x.1) true x.2)) n
  have h := rounds_spec p (fun i => (step i).1) (fun i => (step i).2) (fun i => rfl) (fun i => rfl) s.fb n 0
  have h0 : p.optDyn 0 s = ⟨(step 0).1, (step 0).2, s.fb⟩ := rfl
  refine ⟨fun i => (step i).1, fun i => (step i).2, rfl, rfl, fun i => rfl, fun i => rfl, ?_⟩
  simp only [Planner.optimizeMotion, h0, h, Nat.zero_add]
  cases lqr <;> simp

/-- C182: without iterations the kinematic plan returned is the one from before the call. -/
theorem C182_no_iterations (p : Planner K D F) (lqr : Bool) (s : PState K D F) : (p.optimizeMotion 0 lqr s).kin = s.kin ∧ (p.optimizeMotion 0 lqr s).dyn = p.dynOpt s.kin false s.dyn := by
  cases lqr <;> exact ⟨rfl, rfl⟩

/-- A planner that counts: two iterations make two kinematic and three dynamic plans. -/
example : let r := (⟨fun _ _ d => d + 1, fun _ k => k + 1, fun d => d⟩ : Planner Nat Nat Nat).optimizeMotion 2 true ⟨0, 0, none⟩
    r.kin = 2 ∧ r.dyn = 3 ∧ r.fb = some 3 := ⟨rfl, rfl, rfl⟩

/-! ### C183: command line -/

/-- The options `getopt` can return. -/
def canon : List (List Char) := ["-h".toList, "-i".toList, "-m".toList, "--ifile".toList, "--solo12".toList, "--bolt".toList, "--disable_lqr".toList]

lemma longHasArgs_canon (opt o : List Char) (b : Bool) (h0 : '=' ∉ opt) (h : longHasArgs opt = some (b, o)) : '-' :: '-' :: o ∈ canon := by
  unfold longHasArgs at h
  simp only at h
  have hp : ∀ x ∈ longOpts.filter fun o => opt.isPrefixOf o, x = "ifile=".toList ∨ x = "solo12".toList ∨ x = "bolt".toList ∨ x = "disable_lqr".toList := by
    intro x hx
    have := (List.mem_filter.1 hx).1
    simpa [longOpts] using this
  generalize hP : (longOpts.filter fun o => opt.isPrefixOf o) = P at *
  split_ifs at h with h1 h2 h3 h4 h5
  · simp only [Option.some.injEq, Prod.mk.injEq] at h
    obtain ⟨-, rfl⟩ := h
    rcases hp _ h2 with rfl | rfl | rfl | rfl
    · exact absurd (by decide) h0
    · decide
    · decide
    · decide
  · simp only [Option.some.injEq, Prod.mk.injEq] at h
    obtain ⟨-, rfl⟩ := h
    rcases hp _ h3 with h6 | h6 | h6 | h6
    · have : opt = "ifile".toList := by
        have := congrArg List.dropLast h6
        simpa using this
      rw [this]; decide
    all_goals
      have := congrArg List.getLast? h6
      simp at this
  · simp only [Option.some.injEq, Prod.mk.injEq] at h
    obtain ⟨-, rfl⟩ := h
    cases P with
    | nil => exact absurd rfl h1
    | cons m P =>
      simp only [List.headD_cons] at h5 ⊢
      rcases hp m (by simp) with rfl | rfl | rfl | rfl
      · decide
      all_goals simp at h5
  · simp only [Option.some.injEq, Prod.mk.injEq] at h
    obtain ⟨-, rfl⟩ := h
    cases P with
    | nil => exact absurd rfl h1
    | cons m P =>
      simp only [List.headD_cons] at h5 ⊢
      rcases hp m (by simp) with rfl | rfl | rfl | rfl
      · simp at h5
      all_goals decide

lemma doLongs_canon (s : List Char) (args : List (List Char)) (opts : List Opt) (r : List Opt × List (List Char)) (ho : ∀ o ∈ opts, o.1 ∈ canon) (h : doLongs s args opts = some r) : ∀ o ∈ r.1, o.1 ∈ canon := by
  unfold doLongs at h
  simp only at h
  have hn : '=' ∉ s.takeWhile (· ≠ '=') := by
    intro hm
    have h2 := List.all_takeWhile (l := s) (p := fun c => decide (c ≠ '='))
    rw [List.all_eq_true] at h2
    have := h2 _ hm
    simp at this
  cases hl : longHasArgs (s.takeWhile (· ≠ '=')) with
  | none => rw [hl] at h; simp at h
  | some bo =>
    obtain ⟨b, o⟩ := bo
    have hc := longHasArgs_canon _ _ _ hn hl
    have key : ∀ a args', some (opts ++ [(('-' :: '-' :: o, a) : Opt)], args') = some r → ∀ o ∈ r.1, o.1 ∈ canon := by
      intro a args' he
      simp only [Option.some.injEq] at he
      subst he
      intro x hx
      rcases List.mem_append.1 hx with hx | hx
      · exact ho x hx
      · simp only [List.mem_singleton] at hx
        subst hx; exact hc
    rw [hl] at h
    cases b with
    | true =>
      simp only at h
      split at h
      · exact key _ _ h
      · split at h
        · simp at h
        · exact key _ _ h
    | false =>
      simp only at h
      split at h
      · simp at h
      · exact key _ _ h

lemma doShorts_canon (s : List Char) : ∀ (args : List (List Char)) (opts : List Opt) (r : List Opt × List (List Char)), (∀ o ∈ opts, o.1 ∈ canon) → doShorts s args opts = some r → ∀ o ∈ r.1, o.1 ∈ canon := by
  induction s with
  | nil => intro args opts r ho h; simp only [doShorts, Option.some.injEq] at h; subst h; exact ho
  | cons c rest ih =>
    intro args opts r ho h
    have hc : ∀ b, shortHasArg c = some b → ['-', c] ∈ canon := by
      intro b hb
      unfold shortHasArg at hb
      split_ifs at hb with h1 h2 h3
      · subst h1; decide
      · subst h2; decide
      · subst h3; decide
    have ext : ∀ a, ['-', c] ∈ canon → ∀ o ∈ opts ++ [((['-', c], a) : Opt)], o.1 ∈ canon := by
      intro a hcc x hx
      rcases List.mem_append.1 hx with hx | hx
      · exact ho x hx
      · simp only [List.mem_singleton] at hx
        subst hx; exact hcc
    unfold doShorts at h
    cases hs : shortHasArg c with
    | none => rw [hs] at h; simp at h
    | some b =>
      rw [hs] at h
      cases b with
      | false => simp only at h; exact ih _ _ _ (ext _ (hc _ hs)) h
      | true =>
        simp only at h
        split_ifs at h with h1
        · cases args with
          | nil => simp at h
          | cons a args =>
            simp only [Option.some.injEq] at h
            subst h; exact ext _ (hc _ hs)
        · simp only [Option.some.injEq] at h
          subst h; exact ext _ (hc _ hs)

lemma getopt_canon (fuel : Nat) : ∀ (args : List (List Char)) (opts r : List Opt), (∀ o ∈ opts, o.1 ∈ canon) → getopt fuel args opts = some r → ∀ o ∈ r, o.1 ∈ canon := by
  induction fuel with
  | zero => intro args opts r ho h; simp only [getopt, Option.some.injEq] at h; subst h; exact ho
  | succ n ih =>
    intro args opts r ho h
    cases args with
    | nil => simp only [getopt, Option.some.injEq] at h; subst h; exact ho
    | cons a args =>
      unfold getopt at h
      split at h
      · simp only [Option.some.injEq] at h; subst h; exact ho
      · obtain ⟨x, hx, hr⟩ := Option.bind_eq_some_iff.1 h
        exact ih _ _ _ (doLongs_canon _ _ _ _ ho hx) hr
      · obtain ⟨x, hx, hr⟩ := Option.bind_eq_some_iff.1 h
        exact ih _ _ _ (doShorts_canon _ _ _ _ ho hx) hr
      · simp only [Option.some.injEq] at h; subst h; exact ho

/-- The file named last on the command line. -/
def lastFile (d : List Char) (opts : List Opt) : List Char := (opts.filter fun o => decide (o.1 = "-i".toList ∨ o.1 = "--ifile".toList)).getLast?.elim d Prod.snd

/-- The robot named last on the command line. -/
def lastRobot (d : Robot) (opts : List Opt) : Robot :=
  (opts.filter fun o => decide (o.1 = "--solo12".toList ∨ o.1 = "--bolt".toList)).getLast?.elim d fun o => if o.1 = "--solo12".toList then .solo12 else .bolt

lemma parseLoop_spec (opts : List Opt) : ∀ (cfg : List Char) (r : Robot), (∀ o ∈ opts, o.1 ∈ canon) →
    parseLoop opts cfg r false = if (∃ o ∈ opts, o.1 = "-h".toList) then none else some (lastFile cfg opts, lastRobot r opts, false) := by
  induction opts with
  | nil =>
    intro cfg r _
    rw [if_neg (by rintro ⟨o, ho, _⟩; cases ho)]; rfl
  | cons o opts ih =>
    intro cfg r hc
    obtain ⟨n, a⟩ := o
    have hn := hc (n, a) (by simp)
    have hc' : ∀ o ∈ opts, o.1 ∈ canon := fun x hx => hc x (by simp [hx])
    have elimF : ∀ d : List Char, n = "-i".toList ∨ n = "--ifile".toList → lastFile d ((n, a) :: opts) = lastFile a opts := by
      intro d h
      unfold lastFile
      rw [List.filter_cons_of_pos (a := (n, a)) (by exact decide_eq_true h), List.getLast?_cons]
      cases (opts.filter fun o => decide (o.1 = "-i".toList ∨ o.1 = "--ifile".toList)).getLast? <;> rfl
    have elimF' : ∀ d : List Char, ¬ (n = "-i".toList ∨ n = "--ifile".toList) → lastFile d ((n, a) :: opts) = lastFile d opts := by
      intro d h
      unfold lastFile
      rw [List.filter_cons_of_neg (a := (n, a)) (by exact fun e => h (of_decide_eq_true e))]
    have elimR : ∀ d : Robot, n = "--solo12".toList ∨ n = "--bolt".toList → lastRobot d ((n, a) :: opts) = lastRobot (if n = "--solo12".toList then .solo12 else .bolt) opts := by
      intro d h
      unfold lastRobot
      rw [List.filter_cons_of_pos (a := (n, a)) (by exact decide_eq_true h), List.getLast?_cons]
      cases (opts.filter fun o => decide (o.1 = "--solo12".toList ∨ o.1 = "--bolt".toList)).getLast? <;> rfl
    have elimR' : ∀ d : Robot, ¬ (n = "--solo12".toList ∨ n = "--bolt".toList) → lastRobot d ((n, a) :: opts) = lastRobot d opts := by
      intro d h
      unfold lastRobot
      rw [List.filter_cons_of_neg (a := (n, a)) (by exact fun e => h (of_decide_eq_true e))]
    have hex : n ≠ "-h".toList → ((∃ o ∈ (n, a) :: opts, o.1 = "-h".toList) ↔ ∃ o ∈ opts, o.1 = "-h".toList) := by
      intro hne
      constructor
      · rintro ⟨o, ho, h⟩
        rcases List.mem_cons.1 ho with rfl | ho
        · exact absurd h hne
        · exact ⟨o, ho, h⟩
      · rintro ⟨o, ho, h⟩; exact ⟨o, by simp [ho], h⟩
    simp only [canon, List.mem_cons, List.not_mem_nil, or_false] at hn
    rcases hn with rfl | rfl | rfl | rfl | rfl | rfl | rfl
    · rw [if_pos ⟨_, List.mem_cons_self, rfl⟩]; unfold parseLoop; rw [if_pos rfl]
    · rw [elimF _ (Or.inl rfl), elimR' _ (by decide), if_congr (hex (by decide)) rfl rfl, ← ih _ _ hc']; conv_lhs => unfold parseLoop
      rw [if_neg (by decide), if_pos (by decide)]
    · rw [elimF' _ (by decide), elimR' _ (by decide), if_congr (hex (by decide)) rfl rfl, ← ih _ _ hc']; conv_lhs => unfold parseLoop
      rw [if_neg (by decide), if_neg (by decide), if_neg (by decide), if_neg (by decide), if_neg (by decide)]
    · rw [elimF _ (Or.inr rfl), elimR' _ (by decide), if_congr (hex (by decide)) rfl rfl, ← ih _ _ hc']; conv_lhs => unfold parseLoop
      rw [if_neg (by decide), if_pos (by decide)]
    · rw [elimF' _ (by decide), elimR _ (Or.inl rfl), if_congr (hex (by decide)) rfl rfl, if_pos rfl, ← ih _ _ hc']; conv_lhs => unfold parseLoop
      rw [if_neg (by decide), if_neg (by decide), if_pos (by decide)]
    · rw [elimF' _ (by decide), elimR _ (Or.inr rfl), if_congr (hex (by decide)) rfl rfl, if_neg (show ¬ "--bolt".toList = "--solo12".toList by decide), ← ih _ _ hc']; conv_lhs => unfold parseLoop
      rw [if_neg (by decide), if_neg (by decide), if_neg (by decide), if_pos (by decide)]
    · rw [elimF' _ (by decide), elimR' _ (by decide), if_congr (hex (by decide)) rfl rfl, ← ih _ _ hc']; conv_lhs => unfold parseLoop
      rw [if_neg (by decide), if_neg (by decide), if_neg (by decide), if_neg (by decide), if_pos (by decide)]

/-- C183 (what holds): for every command line `getopt` accepts and that does not ask for help, the file and the robot are those of the last option that names one, the eight-joint quadruped if none does;
an existing file is needed. -/
theorem C183_arguments_partial (ex : List Char → Bool) (argv : List (List Char)) (opts : List Opt) (h : getopt argv.length argv [] = some opts) (hh : ∀ o ∈ opts, o.1 ≠ "-h".toList) :
    (ex (lastFile [] opts) = true → parseArguments ex argv = .ok (lastFile [] opts) (lastRobot .solo8 opts) false) ∧ (ex (lastFile [] opts) = false → parseArguments ex argv = .noFile) := by
  have hc := getopt_canon _ _ _ _ (by simp) h
  have hs := parseLoop_spec opts [] .solo8 hc
  rw [if_neg (by rintro ⟨o, ho, he⟩; exact hh o ho he)] at hs
  unfold parseArguments
  rw [h]
  simp only [hs]
  exact ⟨fun he => by rw [if_pos he], fun he => by rw [if_neg (by simp [he])]⟩

/-- C183 is violated: the feedback gains, which `--disable_lqr` is to switch off, cannot be switched on: for every command line the planner is built without them. -/
theorem C183_violated (ex : List Char → Bool) (argv : List (List Char)) (cfg : List Char) (r : Robot) (l : Bool) (h : parseArguments ex argv = .ok cfg r l) : l = false := by
  unfold parseArguments at h
  cases hg : getopt argv.length argv [] with
  | none => rw [hg] at h; simp at h
  | some opts =>
    have hs := parseLoop_spec opts [] .solo8 (getopt_canon _ _ _ _ (by simp) hg)
    rw [hg] at h
    simp only [hs] at h
    by_cases hh : ∃ o ∈ opts, o.1 = "-h".toList
    · rw [if_pos hh] at h; simp at h
    · rw [if_neg hh] at h
      simp only at h
      split_ifs at h
      simp only [Parsed.ok.injEq] at h
      exact h.2.2.symm

/-- A command line that meets the conditions, with an abbreviated option, two robots and two files; the last ones count. -/
example : getopt 6 ["--solo".toList, "-i".toList, "a".toList, "--if=b".toList, "--bolt".toList, "x".toList] [] =
    some [("--solo12".toList, []), ("-i".toList, "a".toList), ("--ifile".toList, "b".toList), ("--bolt".toList, [])] := by decide

example : lastFile [] [("--solo12".toList, []), ("-i".toList, "a".toList), ("--ifile".toList, "b".toList), ("--bolt".toList, [])] = "b".toList ∧
    lastRobot .solo8 [("--solo12".toList, []), ("-i".toList, "a".toList), ("--ifile".toList, "b".toList), ("--bolt".toList, [])] = .bolt := by decide

/-! #### From the words on the command line -/

/-- What a user types: the file in one of four ways, a robot, or one of the switches. -/
inductive Word
  /-- `-i FILE` -/
  | fileShort (f : List Char)
  /-- `-iFILE`; the first character of the file and the rest. -/
  | fileGlued (c : Char) (f : List Char)
  /-- `--ifile FILE` -/
  | fileLong (f : List Char)
  /-- `--ifile=FILE` -/
  | fileEq (f : List Char)
  /-- `--solo12` -/
  | solo12
  /-- `--bolt` -/
  | bolt
  /-- `--disable_lqr` -/
  | noLqr
  /-- `-m` -/
  | m

/-- The arguments of a word. -/
def Word.args : Word → List (List Char)
  | .fileShort f => ["-i".toList, f]
  | .fileGlued c f => ['-' :: 'i' :: c :: f]
  | .fileLong f => ["--ifile".toList, f]
  | .fileEq f => ["--ifile=".toList ++ f]
  | .solo12 => ["--solo12".toList]
  | .bolt => ["--bolt".toList]
  | .noLqr => ["--disable_lqr".toList]
  | .m => ["-m".toList]

/-- The file a word names. -/
def Word.file : Word → Option (List Char)
  | .fileShort f | .fileLong f | .fileEq f => some f
  | .fileGlued c f => some (c :: f)
  | _ => none

/-- The robot a word names. -/
def Word.robot : Word → Option Robot
  | .solo12 => some .solo12
  | .bolt => some .bolt
  | _ => none

/-- What `getopt` makes of a word. -/
def Word.opt : Word → Opt
  | .fileShort f => ("-i".toList, f)
  | .fileGlued c f => ("-i".toList, c :: f)
  | .fileLong f | .fileEq f => ("--ifile".toList, f)
  | .solo12 => ("--solo12".toList, [])
  | .bolt => ("--bolt".toList, [])
  | .noLqr => ("--disable_lqr".toList, [])
  | .m => ("-m".toList, [])

/-- The positional arguments a command line may end in: none, or the first is no option. -/
def Positional (tail : List (List Char)) : Prop := ∀ a ∈ tail.head?, a = [] ∨ a = ['-'] ∨ a = ['-', '-'] ∨ a.head? ≠ some '-'

lemma getopt_positional (fuel : Nat) (tail : List (List Char)) (opts : List Opt) (h : Positional tail) : getopt fuel tail opts = some opts := by
  cases fuel with
  | zero => rfl
  | succ n =>
    cases tail with
    | nil => rfl
    | cons a tail =>
      rcases h a rfl with rfl | rfl | rfl | h
      · rfl
      · rfl
      · rfl
      · unfold getopt
        split
        · rfl
        · exact absurd rfl h
        · exact absurd rfl h
        · rfl

lemma doLongs_eq (f : List Char) (args : List (List Char)) (opts : List Opt) : doLongs ("ifile=".toList ++ f) args opts = some (opts ++ [("--ifile".toList, f)], args) := by
  have h1 : ("ifile=".toList ++ f).takeWhile (· ≠ '=') = "ifile".toList := rfl
  have h2 : (("ifile=".toList ++ f).dropWhile (· ≠ '=')).drop 1 = f := rfl
  have h3 : longHasArgs "ifile".toList = some (true, "ifile".toList) := by decide
  have h4 : '=' ∈ "ifile=".toList ++ f := List.mem_append_left _ (by decide)
  unfold doLongs
  simp only [h1, h2, h3, if_pos h4]
  rfl

lemma getopt_word (w : Word) (fuel : Nat) (rest : List (List Char)) (opts : List Opt) : getopt (fuel + 1) (w.args ++ rest) opts = getopt fuel rest (opts ++ [w.opt]) := by
  cases w with
  | fileShort f => rfl
  | fileGlued c f => rfl
  | fileLong f =>
    have h : doLongs "ifile".toList (f :: rest) opts = some (opts ++ [("--ifile".toList, f)], rest) := rfl
    change (doLongs "ifile".toList (f :: rest) opts).bind (fun r => getopt fuel r.2 r.1) = _
    rw [h]; rfl
  | fileEq f =>
    change (doLongs ("ifile=".toList ++ f) rest opts).bind (fun r => getopt fuel r.2 r.1) = _
    rw [doLongs_eq]; rfl
  | solo12 => rfl
  | bolt => rfl
  | noLqr => rfl
  | m => rfl

lemma getopt_words (ws : List Word) : ∀ (fuel : Nat) (tail : List (List Char)) (opts : List Opt), Positional tail → ws.length ≤ fuel →
    getopt fuel (ws.flatMap Word.args ++ tail) opts = some (opts ++ ws.map Word.opt) := by
  induction ws with
  | nil => intro fuel tail opts ht _; simp [getopt_positional fuel tail opts ht]
  | cons w ws ih =>
    intro fuel tail opts ht hf
    obtain ⟨n, rfl⟩ : ∃ n, fuel = n + 1 := ⟨fuel - 1, by simp at hf; omega⟩
    rw [List.flatMap_cons, List.append_assoc, getopt_word, ih n tail _ ht (by simpa using hf)]
    simp

lemma length_words (ws : List Word) : ws.length ≤ (ws.flatMap Word.args).length := by
  induction ws with
  | nil => simp
  | cons w ws ih =>
    have : 1 ≤ w.args.length := by cases w <;> simp [Word.args]
    simp only [List.flatMap_cons, List.length_append, List.length_cons]
    omega

lemma words_canon (w : Word) : w.opt.1 ∈ canon ∧ w.opt.1 ≠ "-h".toList := by
  have h : ∀ n ∈ canon.tail, n ∈ canon ∧ n ≠ "-h".toList := by decide
  have h2 : w.opt.1 ∈ canon.tail := by
    cases w with
    | fileShort f => exact List.mem_of_elem_eq_true (a := "-i".toList) (by decide)
    | fileGlued c f => exact List.mem_of_elem_eq_true (a := "-i".toList) (by decide)
    | fileLong f => exact List.mem_of_elem_eq_true (a := "--ifile".toList) (by decide)
    | fileEq f => exact List.mem_of_elem_eq_true (a := "--ifile".toList) (by decide)
    | solo12 => decide
    | bolt => decide
    | noLqr => decide
    | m => decide
  exact h _ h2

lemma lastFile_words (ws : List Word) : ∀ d, lastFile d (ws.map Word.opt) = ((ws.filterMap Word.file).getLast?).getD d := by
  induction ws with
  | nil => intro d; rfl
  | cons w ws ih =>
    intro d
    have pos : ∀ (n f : List Char), (n = "-i".toList ∨ n = "--ifile".toList) → lastFile d ((n, f) :: ws.map Word.opt) = lastFile f (ws.map Word.opt) := by
      intro n f h
      unfold lastFile
      rw [List.filter_cons_of_pos (a := (n, f)) (by exact decide_eq_true h), List.getLast?_cons]
      cases ((ws.map Word.opt).filter fun o => decide (o.1 = "-i".toList ∨ o.1 = "--ifile".toList)).getLast? <;> rfl
    have neg : ∀ (n f : List Char), ¬ (n = "-i".toList ∨ n = "--ifile".toList) → lastFile d ((n, f) :: ws.map Word.opt) = lastFile d (ws.map Word.opt) := by
      intro n f h
      unfold lastFile
      rw [List.filter_cons_of_neg (a := (n, f)) (by exact fun e => h (of_decide_eq_true e))]
    have hs : ∀ f, w.file = some f → ((w :: ws).filterMap Word.file).getLast?.getD d = (ws.filterMap Word.file).getLast?.getD f := by
      intro f hf
      rw [List.filterMap_cons_some hf, List.getLast?_cons]
      simp
    have hn : w.file = none → ((w :: ws).filterMap Word.file).getLast?.getD d = (ws.filterMap Word.file).getLast?.getD d := by
      intro hf; rw [List.filterMap_cons_none hf]
    rw [List.map_cons]
    cases w with
    | fileShort f => rw [hs f rfl, ← ih]; exact pos _ _ (Or.inl rfl)
    | fileGlued c f => rw [hs (c :: f) rfl, ← ih]; exact pos _ _ (Or.inl rfl)
    | fileLong f => rw [hs f rfl, ← ih]; exact pos _ _ (Or.inr rfl)
    | fileEq f => rw [hs f rfl, ← ih]; exact pos _ _ (Or.inr rfl)
    | solo12 => rw [hn rfl, ← ih]; exact neg _ _ (by decide)
    | bolt => rw [hn rfl, ← ih]; exact neg _ _ (by decide)
    | noLqr => rw [hn rfl, ← ih]; exact neg _ _ (by decide)
    | m => rw [hn rfl, ← ih]; exact neg _ _ (by decide)

lemma lastRobot_words (ws : List Word) : ∀ d, lastRobot d (ws.map Word.opt) = ((ws.filterMap Word.robot).getLast?).getD d := by
  induction ws with
  | nil => intro d; rfl
  | cons w ws ih =>
    intro d
    have pos : ∀ (n f : List Char), (n = "--solo12".toList ∨ n = "--bolt".toList) →
        lastRobot d ((n, f) :: ws.map Word.opt) = lastRobot (if n = "--solo12".toList then .solo12 else .bolt) (ws.map Word.opt) := by
      intro n f h
      unfold lastRobot
      rw [List.filter_cons_of_pos (a := (n, f)) (by exact decide_eq_true h), List.getLast?_cons]
      cases ((ws.map Word.opt).filter fun o => decide (o.1 = "--solo12".toList ∨ o.1 = "--bolt".toList)).getLast? <;> rfl
    have neg : ∀ (n f : List Char), ¬ (n = "--solo12".toList ∨ n = "--bolt".toList) → lastRobot d ((n, f) :: ws.map Word.opt) = lastRobot d (ws.map Word.opt) := by
      intro n f h
      unfold lastRobot
      rw [List.filter_cons_of_neg (a := (n, f)) (by exact fun e => h (of_decide_eq_true e))]
    have hs : ∀ f, w.robot = some f → ((w :: ws).filterMap Word.robot).getLast?.getD d = (ws.filterMap Word.robot).getLast?.getD f := by
      intro f hf
      rw [List.filterMap_cons_some hf, List.getLast?_cons]
      simp
    have hn : w.robot = none → ((w :: ws).filterMap Word.robot).getLast?.getD d = (ws.filterMap Word.robot).getLast?.getD d := by
      intro hf; rw [List.filterMap_cons_none hf]
    rw [List.map_cons]
    cases w with
    | fileShort f => rw [hn rfl, ← ih]; exact neg _ _ (by decide)
    | fileGlued c f => rw [hn rfl, ← ih]; exact neg _ _ (by decide)
    | fileLong f => rw [hn rfl, ← ih]; exact neg _ _ (by decide)
    | fileEq f => rw [hn rfl, ← ih]; exact neg _ _ (by decide)
    | solo12 => rw [hs .solo12 rfl, ← ih]; exact pos _ _ (Or.inl rfl)
    | bolt => rw [hs .bolt rfl, ← ih]; exact pos _ _ (Or.inr rfl)
    | noLqr => rw [hn rfl, ← ih]; exact neg _ _ (by decide)
    | m => rw [hn rfl, ← ih]; exact neg _ _ (by decide)

/-- C183, from the words typed: whichever of the four ways each file is named in, whatever its name, and whatever positional arguments follow, the last file and the last robot named count (the
empty name and the eight-joint quadruped if there is none), and the program goes on if and only if the file exists. -/
theorem C183_command_line (ex : List Char → Bool) (ws : List Word) (tail : List (List Char)) (ht : Positional tail) :
    parseArguments ex (ws.flatMap Word.args ++ tail) =
      if ex ((ws.filterMap Word.file).getLast?.getD []) then .ok ((ws.filterMap Word.file).getLast?.getD []) ((ws.filterMap Word.robot).getLast?.getD .solo8) false else .noFile := by
  have hg := getopt_words ws (ws.flatMap Word.args ++ tail).length tail [] ht (le_trans (length_words ws) (by simp))
  rw [List.nil_append] at hg
  have h := C183_arguments_partial ex _ _ hg (by
    intro o ho
    obtain ⟨w, -, rfl⟩ := List.mem_map.1 ho
    exact (words_canon w).2)
  rw [lastFile_words, lastRobot_words] at h
  split_ifs with he
  · exact h.1 he
  · exact h.2 (by simpa using he)

/-- C183, asking for help: `-h` anywhere among the options ends the program with the usage message. -/
theorem C183_help (ex : List Char → Bool) (ws vs : List Word) (tail : List (List Char)) (ht : Positional tail) :
    parseArguments ex (ws.flatMap Word.args ++ "-h".toList :: (vs.flatMap Word.args ++ tail)) = .help := by
  have key : ∀ (ws : List Word) (fuel : Nat) (opts : List Opt), ws.length + 1 + vs.length ≤ fuel →
      getopt fuel (ws.flatMap Word.args ++ "-h".toList :: (vs.flatMap Word.args ++ tail)) opts = some (opts ++ ws.map Word.opt ++ [("-h".toList, [])] ++ vs.map Word.opt) := by
    intro ws
    induction ws with
    | nil =>
      intro fuel opts hf
      obtain ⟨n, rfl⟩ : ∃ n, fuel = n + 1 := ⟨fuel - 1, by simp at hf; omega⟩
      have : getopt (n + 1) ("-h".toList :: (vs.flatMap Word.args ++ tail)) opts = getopt n (vs.flatMap Word.args ++ tail) (opts ++ [("-h".toList, [])]) := rfl
      rw [List.flatMap_nil, List.nil_append, this, getopt_words vs n tail _ ht (by simp at hf; omega)]
      rw [List.map_nil, List.append_nil]
    | cons w ws ih =>
      intro fuel opts hf
      obtain ⟨n, rfl⟩ : ∃ n, fuel = n + 1 := ⟨fuel - 1, by simp at hf; omega⟩
      rw [List.flatMap_cons, List.append_assoc, getopt_word, ih n _ (by simp at hf; omega)]
      rw [List.map_cons, List.append_cons opts w.opt (List.map Word.opt ws)]
  have hl : ws.length + 1 + vs.length ≤ (ws.flatMap Word.args ++ "-h".toList :: (vs.flatMap Word.args ++ tail)).length := by
    have h1 := length_words ws
    have h2 := length_words vs
    simp only [List.length_append, List.length_cons]
    omega
  have hg := key ws _ [] hl
  have hc := getopt_canon _ _ _ _ (by simp) hg
  have hs := parseLoop_spec _ [] .solo8 hc
  rw [if_pos ⟨("-h".toList, []), List.mem_append_left _ (List.mem_append_right _ (List.mem_singleton.2 rfl)), rfl⟩] at hs
  unfold parseArguments
  rw [hg]
  simp only [hs]

/-- C183, a file option without a file: the usage message, exit code 2. -/
theorem C183_missing_file (ex : List Char → Bool) (ws : List Word) (o : List Char) (ho : o = "-i".toList ∨ o = "--ifile".toList) :
    parseArguments ex (ws.flatMap Word.args ++ [o]) = .badUsage := by
  have key : ∀ (ws : List Word) (fuel : Nat) (opts : List Opt), ws.length + 1 ≤ fuel → getopt fuel (ws.flatMap Word.args ++ [o]) opts = none := by
    intro ws
    induction ws with
    | nil =>
      intro fuel opts hf
      obtain ⟨n, rfl⟩ : ∃ n, fuel = n + 1 := ⟨fuel - 1, by simp at hf; omega⟩
      rcases ho with rfl | rfl <;> rfl
    | cons w ws ih =>
      intro fuel opts hf
      obtain ⟨n, rfl⟩ : ∃ n, fuel = n + 1 := ⟨fuel - 1, by simp at hf; omega⟩
      rw [List.flatMap_cons, List.append_assoc, getopt_word, ih n _ (by simpa using hf)]
  unfold parseArguments
  rw [key ws _ [] (by have := length_words ws; simp only [List.length_append, List.length_singleton]; omega)]

/-- A command line with the file named in two ways, `--bolt -ia.yaml --ifile=b.yaml x`. -/
example : parseArguments (fun _ => true) ["--bolt".toList, "-ia".toList, "--ifile=b".toList, "x".toList] = .ok "b".toList .bolt false :=
  C183_command_line (fun _ => true) [.bolt, .fileGlued 'a' [], .fileEq "b".toList] ["x".toList] (by
    intro a ha
    obtain rfl : "x".toList = a := by simpa using ha
    exact Or.inr (Or.inr (Or.inr (by decide))))

/-! ### C184: initial configuration -/

/-- C184 (what holds): the quadruped with two joints per leg starts with every hip at minus half the angle and every knee at the angle. -/
theorem C184_solo8_partial (angle : ℝ) (leg : Nat) (h : leg < 4) : init8 angle (2 * leg) = -(1 / 2) * angle ∧ init8 angle (2 * leg + 1) = angle := by
  constructor
  · simp only [init8, setSlice]; rw [if_pos ⟨by omega, by omega, by omega⟩]
  · simp only [init8, setSlice]; rw [if_neg (by omega), if_pos ⟨by omega, by omega, by omega⟩]

/-- What the wrappers with three joints per leg set: only the first leg has the hip at minus half the angle, and its knee too. -/
theorem C184_three_partial (n leg : Nat) (angle : ℝ) (h : 3 * leg + 2 < n) : init3 n angle (3 * leg) = 0 ∧ init3 n angle (3 * leg + 1) = (if leg = 0 then -(1 / 2) * angle else 0) ∧
    init3 n angle (3 * leg + 2) = (if leg = 0 then -(1 / 2) * angle else angle) := by
  refine ⟨?_, ?_, ?_⟩
  · simp only [init3, setSlice]; rw [if_neg (by omega), if_neg (by omega)]
  · simp only [init3, setSlice]
    by_cases hl : leg = 0
    · rw [if_pos (by subst hl; omega), if_pos hl]
    · rw [if_neg (by omega), if_neg (by omega), if_neg hl]
  · simp only [init3, setSlice]
    by_cases hl : leg = 0
    · rw [if_pos (by subst hl; omega), if_pos hl]
    · rw [if_neg (by omega), if_pos (by omega), if_neg hl]

/-- C184 is violated: for both robots with three joints per leg the first leg and the second differ at hip and knee for every angle that is not zero. -/
theorem C184_violated (n : Nat) (hn : n = 12 ∨ n = 6) (angle : ℝ) (ha : angle ≠ 0) : init3 n angle 1 ≠ init3 n angle 4 ∧ init3 n angle 2 ≠ init3 n angle 5 := by
  have h0 := C184_three_partial n 0 angle (by omega)
  have h1 := C184_three_partial n 1 angle (by omega)
  simp only [mul_zero, zero_add, mul_one, if_true, one_ne_zero, if_false] at h0 h1
  refine ⟨?_, ?_⟩
  · rw [h0.2.1, show (4 : Nat) = 3 + 1 from rfl, h1.2.1]
    intro h; apply ha; linarith
  · rw [h0.2.2, show (5 : Nat) = 3 + 2 from rfl, h1.2.2]
    intro h; apply ha; linarith

/-! ### C185: floor constraints of the kinematics optimiser -/

variable {Q : Type} {nv : Nat}

/-- The linear velocity of a frame in the world for joint velocities `v`: the local one turned by the frame. -/
def worldVel (f : Frame Q nv) (q : Q) (v : Fin nv → ℝ) : Fin 3 → ℝ := f.rot q *ᵥ ((f.jacLocal q).submatrix Sum.inl id *ᵥ v)

/-- C185 (what holds): where the vertical axis of a frame is that of the world, the row computed for it says that the height predicted after the step is not below the floor. -/
theorem C185_row_partial (f : Frame Q nv) (q : Q) (dt z : ℝ) (v : Fin nv → ℝ) (h : f.rot q 2 0 = 0 ∧ f.rot q 2 1 = 0 ∧ f.rot q 2 2 = 1) :
    (∑ k, floorRow f q dt k * v k) ≤ floorRhs f q z ↔ z ≤ f.trans q 2 + dt * worldVel f q v 2 := by
  have e : worldVel f q v 2 = ∑ k, f.jacLocal q (Sum.inl 2) k * v k := by
    simp only [worldVel, Matrix.mulVec, dotProduct, Fin.sum_univ_three, h.1, h.2.1, h.2.2, zero_mul, one_mul, zero_add]
    rfl
  have e2 : (∑ k, floorRow f q dt k * v k) = -(dt * worldVel f q v 2) := by
    rw [e, Finset.mul_sum, ← Finset.sum_neg_distrib]
    exact Finset.sum_congr rfl fun k _ => by simp only [floorRow]; ring
  rw [e2, floorRhs]
  constructor <;> intro h <;> linarith

/-- C185 is violated, rows: for a frame turned upside down there is a velocity that satisfies its row and takes it below the floor. -/
theorem C185_row_violated : ∃ (f : Frame Unit 1) (v : Fin 1 → ℝ), Cont.IsRot (f.rot ()) ∧ 0 ≤ f.trans () 2 ∧
    (∑ k, floorRow f () 1 k * v k) ≤ floorRhs f () 0 ∧ f.trans () 2 + 1 * worldVel f () v 2 < 0 := by
  refine ⟨⟨fun _ => !![1, 0, 0; 0, -1, 0; 0, 0, -1], fun _ => ![0, 0, 1], fun _ => Matrix.of fun i _ => if i = Sum.inl 2 then 1 else 0⟩, fun _ => 2, ⟨?_, ?_⟩, ?_, ?_, ?_⟩
  · ext i j; fin_cases i <;> fin_cases j <;> simp [Matrix.mul_apply, Fin.sum_univ_three]
  · simp [Matrix.det_fin_three]
  · simp
  · simp [floorRow, floorRhs]; norm_num
  · simp [worldVel, Matrix.mulVec, dotProduct, Fin.sum_univ_three]

/-- C185 is violated, interface: every update of the interface raises, because a property is called. -/
theorem C185_call_violated (o : PyObj nv) (frames : List (Frame Q nv)) (q : Q) (dt z : ℝ) : updateJacobiansAndState o frames q dt z = .error .typeError := by
  simp [updateJacobiansAndState, callAttr, postureAttr]
  rfl

/-- C185 is violated, delivery: whatever rows are computed, the constraints the C++ optimiser reads stay those from before, and before the first update there are none; the rows and right hand sides are left in attributes of the Python object that nothing else reads. -/
theorem C185_delivery_violated (o : PyObj nv) (frames : List (Frame Q nv)) (q : Q) (dt z : ℝ) :
    (assignConstraints o frames q dt z).vec = o.vec ∧ (assignConstraints o frames q dt z).mat = o.mat ∧ (PyObj.fresh nv).vec = [] ∧
    (assignConstraints o frames q dt z).dictMat "constraintsMatrix" = some (frames.map fun f k => -(f.jacLocal q (Sum.inl 2) k) * dt) ∧
    (assignConstraints o frames q dt z).dictVec "constraintsVector" = some (frames.map fun f => f.trans q 2 - z) := by
  refine ⟨?_, ?_, rfl, ?_, ?_⟩ <;> simp [assignConstraints, PyObj.setVec, PyObj.setMat, floorRow, floorRhs, funext_iff]

/-- The condition of C185 is met by a frame aligned with the world. -/
example : (1 : Matrix (Fin 3) (Fin 3) ℝ) 2 0 = 0 ∧ (1 : Matrix (Fin 3) (Fin 3) ℝ) 2 1 = 0 ∧ (1 : Matrix (Fin 3) (Fin 3) ℝ) 2 2 = 1 := by simp

/-! ### C186, C187: jacobians and placements of the robot wrapper -/

/-- The angular velocity of a frame in the world. -/
def worldAng (f : Frame Q nv) (q : Q) (v : Fin nv → ℝ) : Fin 3 → ℝ := f.rot q *ᵥ ((f.jacLocal q).submatrix Sum.inr id *ᵥ v)

/-- C186: the jacobians of a frame give, for every joint velocity, its linear and angular velocity in the axes of the world at the configuration of the wrapper, which they leave as it is. -/
theorem C186_jacobian (f : Frame Q nv) (w : Wrapper Q) (v : Fin nv → ℝ) :
    (w.jacTrans f).2 *ᵥ v = worldVel f w.q v ∧ (w.jacRot f).2 *ᵥ v = worldAng f w.q v ∧ (w.jacTrans f).1.q = w.q ∧ (w.jacRot f).1.q = w.q := by
  refine ⟨?_, ?_, rfl, rfl⟩
  · rw [worldVel, Matrix.mulVec_mulVec]
    congr 1
    ext i k
    simp [Wrapper.jacTrans, Wrapper.worldJac, Matrix.mul_apply, Fintype.sum_sum_type, Matrix.fromBlocks]
  · rw [worldAng, Matrix.mulVec_mulVec]
    congr 1
    ext i k
    simp [Wrapper.jacRot, Wrapper.worldJac, Matrix.mul_apply, Fintype.sum_sum_type, Matrix.fromBlocks]

/-- C187 (what holds): the position returned is that of the configuration at the last evaluation of a jacobian, whatever configurations were set in between. -/
theorem C187_position_partial (f : Frame Q nv) (w : Wrapper Q) (qs : List Q) : (qs.foldl Wrapper.setConfiguration (w.jacTrans f).1).position f = f.trans w.q := by
  have h : ∀ (qs : List Q) (x : Wrapper Q), (qs.foldl Wrapper.setConfiguration x).oMf = x.oMf := by
    intro qs
    induction qs with
    | nil => intro x; rfl
    | cons q qs ih => intro x; rw [List.foldl_cons, ih]; rfl
  rw [Wrapper.position, h]; rfl

/-- C187 is violated: after `set_configuration` the position returned is still the old one, and the jacobian at a given configuration is that of the wrapper. -/
theorem C187_violated : ∃ (f : Frame ℝ 1) (w : Wrapper ℝ) (q : ℝ), (w.setConfiguration q).position f ≠ f.trans q ∧ w.jacTransAt f q ≠ (((w.setConfiguration q).jacTrans f).2) := by
  refine ⟨⟨fun _ => 1, fun q => ![q, 0, 0], fun q => Matrix.of fun _ _ => q⟩, ⟨0, 0⟩, 1, ?_, ?_⟩
  · intro h
    have := congrFun h 0
    simp [Wrapper.position, Wrapper.setConfiguration] at this
  · intro h
    have := congrFun (congrFun h 0) 0
    simp [Wrapper.jacTransAt, Wrapper.jacTrans, Wrapper.worldJac, Wrapper.setConfiguration, Matrix.mul_apply, Fintype.sum_sum_type, Fin.sum_univ_three, Matrix.fromBlocks] at this

/-! ### C188: torques of the planned forces -/

/-- C188 (what holds): the torques sent for a force are those that do the same work as the force at the end-effector, at the configuration the jacobian belongs to. -/
theorem C188_work_partial (f : Frame Q nv) (q : Q) (F : Fin 3 → ℝ) (v : Fin nv → ℝ) : ∑ k, forceTorque f q F k * v k = ∑ i, F i * worldVel f q v i := by
  have h := (C186_jacobian f ⟨q, q⟩ v).1
  rw [← h]
  simp only [forceTorque, Matrix.mulVec, dotProduct, Finset.sum_mul, Finset.mul_sum]
  rw [Finset.sum_comm]
  exact Finset.sum_congr rfl fun i _ => Finset.sum_congr rfl fun k _ => by ring

/-- C188 (what happens): without feedback the jacobians of every pass belong to the configuration the wrapper had before the loop, with feedback to the configuration measured one pass earlier. -/
theorem C188_configuration_partial (m : Nat → Q) (q0 : Q) (n : Nat) : execRobotQ false m q0 n = q0 ∧ execRobotQ true m q0 (n + 1) = m n := by
  refine ⟨?_, rfl⟩
  induction n with
  | zero => rfl
  | succ n ih => exact ih

/-- C188 is violated: for an executor without feedback there are a frame, measured configurations and a force so that the torque sent in pass one does not do the work of the force at the configuration of that
pass. -/
theorem C188_violated : ∃ (f : Frame ℝ 1) (m : Nat → ℝ) (q0 : ℝ) (F : Fin 3 → ℝ) (v : Fin 1 → ℝ),
    ∑ k, forceTorque f (execRobotQ false m q0 1) F k * v k ≠ ∑ i, F i * worldVel f (m 1) v i := by
  refine ⟨⟨fun _ => 1, fun q => ![q, 0, 0], fun q => Matrix.of fun _ _ => q⟩, fun _ => 1, 0, 1, 1, ?_⟩
  rw [C188_work_partial, (C188_configuration_partial _ _ _).1]
  simp [worldVel, Matrix.mulVec, dotProduct, Fin.sum_univ_three]
  norm_num

/-! ### C189: recorded contact forces -/

/-- C189 is violated, labels: the readings of every foot are recorded for the diagonally opposite one. -/
theorem C189_labels_violated : recordedAs .FR = some .HL ∧ recordedAs .FL = some .HR ∧ recordedAs .HR = some .FL ∧ recordedAs .HL = some .FR := by decide

/-- C189 (what holds): the force recorded for a foot is that of its last contact point, and the whole force when there is one contact point. -/
theorem C189_force_partial (foot : Foot) (pre post : List (Foot × (Fin 3 → ℝ))) (v : Fin 3 → ℝ) (h : ∀ p ∈ post, p.1 ≠ foot) : recordedForce foot (pre ++ (foot, v) :: post) = v := by
  unfold recordedForce
  rw [List.foldl_append, List.foldl_cons, if_pos rfl]
  generalize hv : v = a
  clear hv
  induction post with
  | nil => rfl
  | cons p post ih => rw [List.foldl_cons, if_neg (h p (by simp))]; exact ih fun x hx => h x (by simp [hx])

/-- C189 is violated, forces: of two contact points of a foot only one is recorded. -/
theorem C189_force_violated : ∃ (a b : Fin 3 → ℝ), recordedForce .FR [(.FR, a), (.FR, b)] ≠ a + b := by
  refine ⟨1, 0, ?_⟩
  simp [recordedForce]

/-! ### C190, C191: helpers -/

/-- C190: the matrix of `quat2mat` is the one the C++ library uses for the contact, for every quaternion; for a unit quaternion it is a rotation. -/
theorem C190_quat2mat (w x y z : ℝ) : quat2mat w x y z = Cont.toMat ⟨w, x, y, z⟩ ∧ (w ^ 2 + x ^ 2 + y ^ 2 + z ^ 2 = 1 → Cont.IsRot (quat2mat w x y z)) := by
  have h : quat2mat w x y z = Cont.toMat ⟨w, x, y, z⟩ := by
    ext i j; fin_cases i <;> fin_cases j <;> simp [quat2mat, Cont.toMat] <;> ring
  exact ⟨h, fun hu => h ▸ Cont.toMat_rot _ hu⟩

/-- C190: the surface drawn for a contact lies in the plane through the contact with the given normal, unless the normal is horizontal, and contains the contact. -/
theorem C190_patch (p n : Fin 3 → ℝ) (xx yy : ℝ) (h : n 2 ≠ 0) : n 0 * (xx - p 0) + n 1 * (yy - p 1) + n 2 * (patchZ p n xx yy - p 2) = 0 ∧ patchZ p n (p 0) (p 1) = p 2 := by
  constructor
  · simp only [patchZ]; field_simp; ring
  · simp only [patchZ]; field_simp; ring

/-- C190: the time steps drawn add up to the times. -/
theorem C190_timesteps (time : Nat → ℝ) (n : Nat) : ∑ i ∈ Finset.range (n + 1), timesteps2 time i = time n := by
  induction n with
  | zero => simp [timesteps2]
  | succ n ih => rw [Finset.sum_range_succ, ih]; simp [timesteps2]

lemma normF_eq (x : ℝ) : normF x = |x| := Real.sqrt_sq_eq_abs x

/-- C191: the norm of a list is the sum of the norms, each times the magnitude of its weight, where weights up to `1e-5` count as zero. -/
theorem C191_norm (vs ws : List ℝ) (hl : ws.length = vs.length) (hv : ∀ v ∈ vs, 0 ≤ v) :
    normList vs (some ws) = some ((List.zipWith (fun v w => if 1 / 100000 < |w| then |w| * v else 0) vs ws).sum) ∧ normList vs none = some vs.sum := by
  refine ⟨?_, rfl⟩
  simp only [normList]
  rw [if_neg (by omega)]
  congr 1
  clear hl
  induction vs generalizing ws with
  | nil => rfl
  | cons v vs ih =>
    cases ws with
    | nil => rfl
    | cons w ws =>
      have hi := ih ws (fun x hx => hv x (by simp [hx]))
      have h0 := hv v (by simp)
      simp only [List.zip_cons_cons, List.zipWith_cons_cons, List.sum_cons]
      by_cases hw : 1 / 100000 < |w|
      · rw [List.filter_cons_of_pos (by simpa using hw), List.map_cons, List.sum_cons, hi, if_pos hw, normF_eq, abs_mul, abs_of_nonneg h0]
      · rw [List.filter_cons_of_neg (by simpa using hw), hi, if_neg hw, zero_add]

/-- C191: it is zero exactly when every vector with a weight above `1e-5` is zero, so small weights hide errors of any size. -/
theorem C191_hidden (vs ws : List ℝ) (hl : ws.length = vs.length) (hv : ∀ v ∈ vs, 0 ≤ v) :
    normList vs (some ws) = some 0 ↔ ∀ p ∈ vs.zip ws, 1 / 100000 < |p.2| → p.1 = 0 := by
  rw [(C191_norm vs ws hl hv).1, Option.some.injEq]
  clear hl
  induction vs generalizing ws with
  | nil => simp
  | cons v vs ih =>
    cases ws with
    | nil => simp
    | cons w ws =>
      have hv0 := hv v (by simp)
      have hv' : ∀ x ∈ vs, 0 ≤ x := fun x hx => hv x (by simp [hx])
      have hnn : ∀ (vs ws : List ℝ), (∀ x ∈ vs, 0 ≤ x) → 0 ≤ (List.zipWith (fun v w : ℝ => if 1 / 100000 < |w| then |w| * v else 0) vs ws).sum := by
        intro vs
        induction vs with
        | nil => intro ws _; simp
        | cons v vs ih2 =>
          intro ws h
          cases ws with
          | nil => simp
          | cons w ws =>
            rw [List.zipWith_cons_cons, List.sum_cons]
            have a := ih2 ws fun x hx => h x (by simp [hx])
            have b := h v (by simp)
            split_ifs
            · exact add_nonneg (mul_nonneg (abs_nonneg _) b) a
            · rw [zero_add]; exact a
      rw [List.zipWith_cons_cons, List.sum_cons, List.zip_cons_cons, List.forall_mem_cons, ← ih ws hv']
      have hs := hnn vs ws hv'
      split_ifs with hw
      · have hwp : 0 < |w| := lt_trans (by norm_num) hw
        constructor
        · intro h
          have h1 : |w| * v = 0 := le_antisymm (by linarith [mul_nonneg hwp.le hv0]) (mul_nonneg hwp.le hv0)
          exact ⟨fun _ => (mul_eq_zero.1 h1).resolve_left hwp.ne', by linarith⟩
        · rintro ⟨h1, h2⟩
          rw [show v = 0 from h1 hw, h2]; simp
      · rw [zero_add]
        exact ⟨fun h => ⟨fun h' => absurd h' hw, h⟩, fun h => h.2⟩

/-- The conditions of C191 are met. -/
example : normList [1, 2] (some [1 / 2, 0]) = some (1 / 2) := by
  rw [(C191_norm [1, 2] [1 / 2, 0] rfl (by simp)).1]
  norm_num [abs_of_pos]

end Plan
end Verif
