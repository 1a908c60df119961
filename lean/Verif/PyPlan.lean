import Verif.DynPlanProps
import Verif.SettingsProps

/-!
Contact plans written in Python: the bindings of `ContactState` and of the lists of contacts, /repo/momentumopt/srcpy/momentumopt/cntopt/PyContacts.cpp:43-58, used as in
/repo/momentumopt/demos/demo_momentumopt_biped_from_python.py:16-85, and the properties C244-C246.

Simplifications: exact reals. A Python program is a list of actions on numpy arrays of three numbers (each a reference into a list), on `ContactState` objects and on the lists of contacts of the plan; a reference to
something that does not exist (a `NameError` or `IndexError`) is `none`. Views (slices) of arrays are not modelled.
-/
namespace Verif
namespace PyPlan
open Dyn DynPlan

/-! ### model -/

/-- `ContactState()`, ContactState.cpp:28-38. -/
def blank : Cont.Contact := ⟨false, 0, .free, 0, 0, -1, -1, ⟨1, 0, 0, 0⟩⟩

/-- What the program has made so far (demo_momentumopt_biped_from_python.py:54-85). -/
structure World where
  /-- The numpy arrays. -/
  arrs : List (Fin 3 → ℝ)
  /-- The `ContactState` objects. -/
  objs : List Cont.Contact
  /-- `contactSequence().contact_states(e)`. -/
  plan : Nat → List Cont.Contact

/-- A change of one attribute of a contact, PyContacts.cpp:45-50; an assignment of an array copies its numbers (`const Eigen::Vector3d&`). -/
inductive Attr
  /-- `start_time = x`. -/
  | start (x : ℝ)
  /-- `end_time = x`. -/
  | stop (x : ℝ)
  /-- `contactType = t`. -/
  | ctype (t : Cont.CType)
  /-- `active = b`. -/
  | active (b : Bool)
  /-- `position = r`. -/
  | position (r : Nat)

/-- The setter of an attribute, PyContacts.cpp:45-50 with ContactState.hpp:49-55. -/
def Attr.put (arrs : List (Fin 3 → ℝ)) (c : Cont.Contact) : Attr → Option Cont.Contact
  | .start x => some { c with tini := x }
  | .stop x => some { c with tend := x }
  | .ctype t => some { c with ctype := t }
  | .active b => some { c with active := b }
  | .position r => arrs[r]?.map fun v => { c with pos := v }

/-- The actions of a Python program (demo_momentumopt_biped_from_python.py:26-32,60-85; PyContacts.cpp:24,54-55). -/
inductive Act
  /-- `np.array(v)`: the new array gets the next reference. -/
  | array (v : Fin 3 → ℝ)
  /-- `a_r[i] = x`. -/
  | write (r : Nat) (i : Fin 3) (x : ℝ)
  /-- `ContactState()`: the new object gets the next reference. -/
  | contact
  /-- Assignment of an attribute of object `k`. -/
  | set (k : Nat) (a : Attr)
  /-- `contact_states(e).append(k)`: a copy is appended. -/
  | append (e k : Nat)
  /-- `contact_states(e)[j].attribute = …`: the element of the list itself is changed. -/
  | edit (e j : Nat) (a : Attr)

/-- One action (see `Act`; PyContacts.cpp:24,43-58). -/
def step (w : World) : Act → Option World
  | .array v => some { w with arrs := w.arrs ++ [v] }
  | .write r i x => w.arrs[r]?.map fun v => { w with arrs := w.arrs.set r (Function.update v i x) }
  | .contact => some { w with objs := w.objs ++ [blank] }
  | .set k a => do
    let c ← w.objs[k]?
    let c' ← a.put w.arrs c
    some { w with objs := w.objs.set k c' }
  | .append e k => w.objs[k]?.map fun c => { w with plan := Function.update w.plan e (w.plan e ++ [c]) }
  | .edit e j a => do
    let c ← (w.plan e)[j]?
    let c' ← a.put w.arrs c
    some { w with plan := Function.update w.plan e ((w.plan e).set j c') }

/-- A program, demo_momentumopt_biped_from_python.py:54-85. -/
def run (w : World) : List Act → Option World
  | [] => some w
  | a :: as => (step w a).bind fun w' => run w' as

/-- `createContactState(start, end, position, type)` and the appending of its result to the list of end-effector `e`, demo_momentumopt_biped_from_python.py:16-33,61-85; `k` is the number of objects made before. -/
def create (k e : Nat) (a b : ℝ) (r : Nat) (t : Cont.CType) : List Act :=
  [.contact, .set k (.start a), .set k (.stop b), .set k (.ctype t), .set k (.active true), .set k (.position r), .append e k]

/-! ### specification -/

/-- A script in the style of the demo: arrays are made and overwritten, contacts are created and appended. -/
inductive Line
  | array (v : Fin 3 → ℝ)
  | write (r : Nat) (i : Fin 3) (x : ℝ)
  | add (e : Nat) (a b : ℝ) (r : Nat) (t : Cont.CType)

/-- The Python program of a script; `k` contacts have been made before. -/
def program : Nat → List Line → List Act
  | _, [] => []
  | k, .array v :: ls => .array v :: program k ls
  | k, .write r i x :: ls => .write r i x :: program k ls
  | k, .add e a b r t :: ls => create k e a b r t ++ program (k + 1) ls

/-- Number of contacts a script adds to end-effector `e`. -/
def adds (e : Nat) (ls : List Line) : Nat := ls.countP fun | .add e' _ _ _ _ => e' = e | _ => false

/-- Number of arrays made by a script. -/
def arrays (ls : List Line) : Nat := ls.countP fun | .array _ => true | _ => false

/-- `x` is the number in component `i` of array `r` after the script: what was written last, or what the array was made with. -/
inductive Holds (r : Nat) (i : Fin 3) : List Line → ℝ → Prop
  | made (pre : List Line) (v : Fin 3 → ℝ) : arrays pre = r → Holds r i (pre ++ [.array v]) (v i)
  | written (pre : List Line) (x : ℝ) : r < arrays pre → Holds r i (pre ++ [.write r i x]) x
  | kept (pre : List Line) (l : Line) (x : ℝ) : Holds r i pre x → (∀ y, l ≠ .write r i y) → Holds r i (pre ++ [l]) x

/-- The script uses only arrays it has made. -/
def Named (ls : List Line) : Prop :=
  ∀ pre l post, ls = pre ++ l :: post → match l with
    | .array _ => True
    | .write r _ _ => r < arrays pre
    | .add _ _ _ r _ => r < arrays pre

/-- The empty program state: no arrays, no objects, no contacts (demo_momentumopt_biped_from_python.py:54-57). -/
def World.init : World := ⟨[], [], fun _ => []⟩

/-! ### the run of a script -/

theorem run_append (w : World) (as bs : List Act) : run w (as ++ bs) = (run w as).bind fun w' => run w' bs := by
  induction as generalizing w with
  | nil => rfl
  | cons a as ih =>
    simp only [List.cons_append, run]
    cases step w a with
    | none => rfl
    | some w' => exact ih w'

theorem program_append (k : Nat) (ls ms : List Line) :
    program k (ls ++ ms) = program k ls ++ program (k + ls.countP fun | .add _ _ _ _ _ => true | _ => false) ms := by
  induction ls generalizing k with
  | nil => rfl
  | cons l ls ih =>
    cases l with
    | array v => simp only [List.cons_append, program, ih]; rfl
    | write r i x => simp only [List.cons_append, program, ih]; rfl
    | add e a b r t =>
      simp only [List.cons_append, program, ih, List.append_assoc]
      have : (k + 1) + ls.countP (fun | .add _ _ _ _ _ => true | _ => false) =
          k + (Line.add e a b r t :: ls).countP (fun | .add _ _ _ _ _ => true | _ => false) := by
        rw [List.countP_cons_of_pos rfl]; omega
      rw [this]

/-- The contact that a call of `createContactState` makes. -/
def made (a b : ℝ) (v : Fin 3 → ℝ) (t : Cont.CType) : Cont.Contact := ⟨true, v, t, a, b, -1, -1, ⟨1, 0, 0, 0⟩⟩

theorem run_create (w : World) (e : Nat) (a b : ℝ) (r : Nat) (t : Cont.CType) (v : Fin 3 → ℝ) (hv : w.arrs[r]? = some v) :
    run w (create w.objs.length e a b r t) = some ⟨w.arrs, w.objs ++ [made a b v t], Function.update w.plan e (w.plan e ++ [made a b v t])⟩ := by
  simp [create, run, step, Attr.put, hv, blank, made]

/-- What is known after a script. -/
structure After (ls : List Line) (w : World) : Prop where
  objs : w.objs.length = ls.countP fun | .add _ _ _ _ _ => true | _ => false
  arrs : w.arrs.length = arrays ls
  vals : ∀ r v, w.arrs[r]? = some v → ∀ i, Holds r i ls (v i)
  plan : ∀ e, (w.plan e).length = adds e ls
  item : ∀ pre e a b r t post, ls = pre ++ .add e a b r t :: post → ∃ c, (w.plan e)[adds e pre]? = some c ∧ c.active = true ∧ c.tini = a ∧ c.tend = b ∧
    c.ctype = t ∧ c.ori = ⟨1, 0, 0, 0⟩ ∧ ∀ i, Holds r i pre (c.pos i)

theorem split_last {α : Type} {ls : List α} {x : α} {pre post : List α} {y : α} (h : ls ++ [x] = pre ++ y :: post) :
    (ls = pre ∧ x = y ∧ post = []) ∨ ∃ post', post = post' ++ [x] ∧ ls = pre ++ y :: post' := by
  rcases List.eq_nil_or_concat post with rfl | ⟨p, z, rfl⟩
  · left
    have := List.append_inj' h rfl
    exact ⟨this.1, by simpa using this.2, rfl⟩
  · right
    refine ⟨p, ?_⟩
    rw [List.concat_eq_append] at *
    have h' : ls ++ [x] = (pre ++ y :: p) ++ [z] := by simpa using h
    have := List.append_inj' h' rfl
    obtain ⟨h1, h2⟩ := this
    have : x = z := by simpa using h2
    exact ⟨by rw [this], h1⟩

theorem named_prefix {ls : List Line} {l : Line} (h : Named (ls ++ [l])) : Named ls := by
  intro pre m post hl
  exact h pre m (post ++ [l]) (by rw [hl]; simp)

theorem after (ls : List Line) (h : Named ls) : ∃ w, run World.init (program 0 ls) = some w ∧ After ls w := by
  induction ls using List.reverseRecOn with
  | nil =>
    refine ⟨World.init, rfl, ⟨rfl, rfl, fun r v hv => by simp [World.init] at hv, fun e => rfl, fun pre e a b r t post hl => ?_⟩⟩
    cases pre <;> simp at hl
  | append_singleton ls l ih =>
    obtain ⟨w, hw, A⟩ := ih (named_prefix h)
    have hl := h ls l [] rfl
    rw [program_append, run_append, hw, Option.bind_some, Nat.zero_add, ← A.objs]
    cases l with
    | array v =>
      refine ⟨{ w with arrs := w.arrs ++ [v] }, rfl, ⟨?_, ?_, ?_, ?_, ?_⟩⟩
      · simpa using A.objs
      · simp [arrays, A.arrs]
      · intro r u hu i
        rcases Nat.lt_or_ge r w.arrs.length with hr | hr
        · simp only [List.getElem?_append_left hr] at hu
          exact .kept _ _ _ (A.vals r u hu i) fun y hy => by cases hy
        · simp only [List.getElem?_append_right hr] at hu
          obtain ⟨h1, h2⟩ : r - w.arrs.length = 0 ∧ v = u := by
            rcases Nat.eq_zero_or_pos (r - w.arrs.length) with h0 | h0
            · rw [h0] at hu; exact ⟨h0, by simpa using hu⟩
            · rw [List.getElem?_eq_none (by simpa using Nat.succ_le_of_lt h0)] at hu; cases hu
          subst h2
          exact .made _ _ (by rw [← A.arrs]; omega)
      · intro e; simpa [adds] using A.plan e
      · intro pre e a b r t post hs
        rcases split_last hs with ⟨_, h2, _⟩ | ⟨p, _, h2⟩
        · cases h2
        · exact A.item pre e a b r t p h2
    | write r i x =>
      have hr : r < w.arrs.length := by rw [A.arrs]; exact hl
      refine ⟨{ w with arrs := w.arrs.set r (Function.update w.arrs[r] i x) }, ?_, ⟨?_, ?_, ?_, ?_, ?_⟩⟩
      · simp [program, run, step, List.getElem?_eq_getElem hr]
      · simpa using A.objs
      · simp [arrays, A.arrs]
      · intro r' u hu i'
        simp only [List.getElem?_set] at hu
        by_cases hrr : r = r'
        · subst hrr
          rw [if_pos rfl, if_pos hr] at hu
          obtain rfl := Option.some.inj hu
          by_cases hi : i' = i
          · subst hi; rw [Function.update_self]; exact .written _ _ hl
          · rw [Function.update_of_ne hi]
            exact .kept _ _ _ (A.vals r _ (List.getElem?_eq_getElem hr) i') fun y hy => hi (by injection hy with _ h _; exact h.symm)
        · rw [if_neg hrr] at hu
          exact .kept _ _ _ (A.vals r' u hu i') fun y hy => hrr (by injection hy)
      · intro e; simpa [adds] using A.plan e
      · intro pre e a b r t post hs
        rcases split_last hs with ⟨_, h2, _⟩ | ⟨p, _, h2⟩
        · cases h2
        · exact A.item pre e a b r t p h2
    | add e a b r t =>
      have hr : r < w.arrs.length := by rw [A.arrs]; exact hl
      have hv := List.getElem?_eq_getElem hr
      refine ⟨_, by rw [program, program, List.append_nil]; exact run_create w e a b r t _ hv, ⟨?_, ?_, ?_, ?_, ?_⟩⟩
      · simp [A.objs]
      · simpa [arrays] using A.arrs
      · intro r' u hu i'
        exact .kept _ _ _ (A.vals r' u hu i') fun y hy => by cases hy
      · intro e'
        by_cases he : e' = e
        · subst he; simp [adds, A.plan e']
        · have : (w.plan e').length = adds e' ls := A.plan e'
          simp [Function.update_of_ne he, adds, this, Ne.symm he]
      · intro pre e' a' b' r' t' post hs
        rcases split_last hs with ⟨h1, h2, _⟩ | ⟨p, _, h2⟩
        · cases h2
          subst h1
          refine ⟨made a b w.arrs[r] t, ?_, rfl, rfl, rfl, rfl, rfl, fun i => A.vals r _ hv i⟩
          simp only [Function.update_self]
          rw [← A.plan e, List.getElem?_append_right le_rfl]
          simp
        · obtain ⟨c, hc, h3⟩ := A.item pre e' a' b' r' t' p h2
          refine ⟨c, ?_, h3⟩
          by_cases he : e' = e
          · subst he
            simp only [Function.update_self]
            rw [List.getElem?_append_left (List.getElem?_eq_some_iff.1 hc).1]
            exact hc
          · simp only [Function.update_of_ne he]; exact hc

/-! ### C244 -/

/-- C244: a script that creates contacts and appends them runs without error if it uses only arrays it has made; afterwards every end-effector has exactly the contacts appended to its list, in the order of the script,
with the times and type given, marked as active, not rotated, and at the position the array had when the contact was created — whatever is written into the array later. -/
theorem C244_script (ls : List Line) (h : Named ls) : ∃ w, run World.init (program 0 ls) = some w ∧ (∀ e, (w.plan e).length = adds e ls) ∧
    ∀ pre e a b r t post, ls = pre ++ .add e a b r t :: post → ∃ c, (w.plan e)[adds e pre]? = some c ∧ c.active = true ∧ c.tini = a ∧ c.tend = b ∧
      c.ctype = t ∧ c.ori = ⟨1, 0, 0, 0⟩ ∧ ∀ i, Holds r i pre (c.pos i) := by
  obtain ⟨w, hw, A⟩ := after ls h
  exact ⟨w, hw, A.plan, A.item⟩

theorem arrays_snoc (ls : List Line) (l : Line) : arrays (ls ++ [l]) = arrays ls + match l with | .array _ => 1 | _ => 0 := by
  cases l <;> simp [arrays]

theorem holds_lt {r : Nat} {i : Fin 3} {ls : List Line} {x : ℝ} (hx : Holds r i ls x) : r < arrays ls := by
  induction hx with
  | made pre v h => rw [arrays_snoc]; simp only; omega
  | written pre x h => rw [arrays_snoc]; simp only; omega
  | kept pre l x _ _ ih => rw [arrays_snoc]; omega

/-- C244: an array has one content, so the positions above are determined. -/
theorem C244_content {r : Nat} {i : Fin 3} {ls : List Line} {x y : ℝ} (hx : Holds r i ls x) (hy : Holds r i ls y) : x = y := by
  have inv : ∀ {ls : List Line} {y : ℝ}, Holds r i ls y → ∀ pre l, ls = pre ++ [l] → match l with
      | .array v => (arrays pre = r ∧ y = v i) ∨ Holds r i pre y
      | .write r' i' x => (r' = r ∧ i' = i ∧ y = x) ∨ (¬ (r' = r ∧ i' = i) ∧ Holds r i pre y)
      | .add _ _ _ _ _ => Holds r i pre y := by
    intro ls y h pre l hl
    cases h with
    | made pre' v h =>
      obtain ⟨rfl, h2⟩ := List.append_inj' hl rfl
      obtain rfl : Line.array v = l := by simpa using h2
      exact .inl ⟨h, rfl⟩
    | written pre' x h =>
      obtain ⟨rfl, h2⟩ := List.append_inj' hl rfl
      obtain rfl : Line.write r i y = l := by simpa using h2
      exact .inl ⟨rfl, rfl, rfl⟩
    | kept pre' l' x h h' =>
      obtain ⟨rfl, h2⟩ := List.append_inj' hl rfl
      obtain rfl : l' = l := by simpa using h2
      cases l' with
      | array v => exact .inr h
      | write r' i' x => exact .inr ⟨fun ⟨h1, h2⟩ => h' x (by rw [h1, h2]), h⟩
      | add e a b r t => exact h
  induction hx generalizing y with
  | made pre v h =>
    rcases inv hy pre _ rfl with ⟨_, h2⟩ | h2
    · exact h2.symm
    · have := holds_lt h2; omega
  | written pre x h =>
    rcases inv hy pre _ rfl with ⟨_, _, h2⟩ | ⟨h2, _⟩
    · exact h2.symm
    · exact absurd ⟨rfl, rfl⟩ h2
  | kept pre l x h h' ih =>
    have := inv hy pre l rfl
    cases l with
    | array v =>
      rcases this with ⟨h2, _⟩ | h2
      · have := holds_lt h; omega
      · exact ih h2
    | write r' i' z =>
      rcases this with ⟨h1, h2, _⟩ | ⟨_, h2⟩
      · subst h1 h2; exact absurd rfl (h' z)
      · exact ih h2
    | add e a b r t => exact ih this

/-- The first lines of the biped demo: one array is used for two contacts of the right foot. -/
noncomputable def biped : List Line :=
  [.array ![0, -17 / 200, 0], .add 0 0 1 0 .flat, .write 0 0 (3 / 20), .add 0 (12 / 5) (21 / 5) 0 .flat]

/-- The hypothesis of C244 is met by the demo: both contacts are there, the first one where the array was before it was overwritten. -/
example : Named biped ∧ ∃ w, run World.init (program 0 biped) = some w ∧ (w.plan 0).map (fun c => (c.tini, c.pos 0)) = [(0, 0), (12 / 5, 3 / 20)] := by
  refine ⟨?_, _, rfl, ?_⟩
  · intro pre l post h
    rcases pre with _ | ⟨_, _ | ⟨_, _ | ⟨_, _ | ⟨_, pre⟩⟩⟩⟩ <;> simp [biped] at h
    · rw [← h.1]; trivial
    · rw [← h.1, ← h.2.1]; simp [arrays]
    · rw [← h.1, ← h.2.1, ← h.2.2.1]; simp [arrays]
    · rw [← h.1, ← h.2.1, ← h.2.2.1, ← h.2.2.2.1]; simp [arrays]
  · simp [World.init]

/-- C244, isolation: nothing a program does to arrays and to its own contact objects changes a contact that is already in the plan; only appending to the list and assigning to its elements does. -/
theorem C244_isolated (w w' : World) (as : List Act) (h : run w as = some w') (e : Nat)
    (ha : ∀ a ∈ as, (∀ k, a ≠ .append e k) ∧ ∀ j x, a ≠ .edit e j x) : w'.plan e = w.plan e := by
  induction as generalizing w with
  | nil => simp only [run, Option.some.injEq] at h; rw [h]
  | cons a as ih =>
    simp only [run, Option.bind_eq_some_iff] at h
    obtain ⟨w1, h1, h2⟩ := h
    rw [ih w1 h2 fun b hb => ha b (by simp [hb])]
    obtain ⟨n1, n2⟩ := ha a (by simp)
    cases a with
    | array v => simp only [step, Option.some.injEq] at h1; rw [← h1]
    | write r i x =>
      simp only [step, Option.map_eq_some_iff] at h1
      obtain ⟨_, _, h1⟩ := h1; rw [← h1]
    | contact => simp only [step, Option.some.injEq] at h1; rw [← h1]
    | set k x =>
      simp only [step, Option.bind_eq_bind, Option.bind_eq_some_iff, Option.some.injEq] at h1
      obtain ⟨_, _, _, _, h1⟩ := h1; rw [← h1]
    | append e' k =>
      simp only [step, Option.map_eq_some_iff] at h1
      obtain ⟨_, _, h1⟩ := h1; rw [← h1]
      exact Function.update_of_ne (fun h => n1 k (by rw [h])) _ _
    | edit e' j x =>
      simp only [step, Option.bind_eq_bind, Option.bind_eq_some_iff, Option.some.injEq] at h1
      obtain ⟨_, _, _, _, h1⟩ := h1; rw [← h1]
      exact Function.update_of_ne (fun h => n2 j x (by rw [h])) _ _

/-- The hypothesis of `C244_isolated` is met by a program that overwrites the array and the object of a contact in the plan. -/
example : ∃ w w', run World.init (program 0 [.array 0, .add 0 0 1 0 .flat]) = some w ∧ (w.plan 0).length = 1 ∧
    run w [.write 0 2 7, .set 0 (.start 5), .set 0 (.position 0)] = some w' := ⟨_, _, rfl, rfl, rfl⟩

/-! ### C245: from the script to the optimiser -/

theorem script_contacts (ls : List Line) (h : Named ls) (w : World) (hw : run World.init (program 0 ls) = some w) (e : Nat) (c : Cont.Contact) :
    c ∈ w.plan e → c.active = true ∧ c.ori = ⟨1, 0, 0, 0⟩ := by
  have key : ∀ ls : List Line, ∀ k (w w' : World), k = w.objs.length → run w (program k ls) = some w' → (∀ e, ∀ c ∈ w.plan e, c.active = true ∧ c.ori = ⟨1, 0, 0, 0⟩) →
      ∀ e, ∀ c ∈ w'.plan e, c.active = true ∧ c.ori = ⟨1, 0, 0, 0⟩ := by
    intro ls
    induction ls with
    | nil => intro k w w' _ h hp; simp only [program, run, Option.some.injEq] at h; rw [← h]; exact hp
    | cons l ls ih =>
      intro k w w' hk h hp
      cases l with
      | array v => exact ih k _ w' (by simpa using hk) h hp
      | write r i x =>
        simp only [program, run, step, Option.bind_eq_some_iff, Option.map_eq_some_iff] at h
        obtain ⟨w1, ⟨_, _, rfl⟩, h⟩ := h
        exact ih k _ w' (by simpa using hk) h hp
      | add e a b r t =>
        simp only [program] at h
        rw [run_append, Option.bind_eq_some_iff] at h
        obtain ⟨w1, h1, h⟩ := h
        cases hv : w.arrs[r]? with
        | none => subst hk; simp [create, run, step, Attr.put, hv, blank] at h1
        | some v =>
          rw [hk, run_create w e a b r t v hv, Option.some.injEq] at h1
          subst h1
          refine ih (k + 1) _ w' (by simp [hk]) h fun e' c hc => ?_
          by_cases he : e' = e
          · subst he
            simp only [Function.update_self, List.mem_append, List.mem_singleton] at hc
            rcases hc with hc | rfl
            · exact hp e' c hc
            · exact ⟨rfl, rfl⟩
          · simp only [Function.update_of_ne he] at hc
            exact hp e' c hc
  exact key ls 0 World.init w rfl hw (fun e c hc => by simp [World.init] at hc) e c


/-- According to the script, end-effector `e` stands at `p` in time step `t`: the last contact appended for it whose time span contains the end of the step was created there. -/
def Stands (ls : List Line) (dt : ℝ) (t e : Nat) (p : Fin 3 → ℝ) (ty : Cont.CType) : Prop :=
  ∃ pre a b r post, ls = pre ++ .add e a b r ty :: post ∧ a ≤ ((t : ℝ) + 1) * dt ∧ ((t : ℝ) + 1) * dt < b ∧ (∀ i, Holds r i pre (p i)) ∧
    ∀ a' b' r' ty', Line.add e a' b' r' ty' ∈ post → ¬ (a' ≤ ((t : ℝ) + 1) * dt ∧ ((t : ℝ) + 1) * dt < b')

/-- Every contact of the plan comes from a line of the script. -/
theorem line_of (ls : List Line) (e j : Nat) (h : j < adds e ls) : ∃ pre a b r ty post, ls = pre ++ .add e a b r ty :: post ∧ adds e pre = j := by
  induction ls using List.reverseRecOn with
  | nil => simp [adds] at h
  | append_singleton ls l ih =>
    by_cases hj : j < adds e ls
    · obtain ⟨pre, a, b, r, ty, post, h1, h2⟩ := ih hj
      exact ⟨pre, a, b, r, ty, post ++ [l], by rw [h1]; simp, h2⟩
    · cases l with
      | array v => simp [adds] at h hj; omega
      | write r i x => simp [adds] at h hj; omega
      | add e' a b r ty =>
        by_cases he : e' = e
        · subst he
          refine ⟨ls, a, b, r, ty, [], rfl, ?_⟩
          simp [adds] at h hj ⊢; omega
        · simp [adds, he] at h hj; omega

/-- The contacts that carry are those of the script. -/
theorem carries_script (ls : List Line) (h : Named ls) (w : World) (hw : run World.init (program 0 ls) = some w) (dt : ℝ) (t e : Nat) (p : Fin 3 → ℝ) (ty : Cont.CType) :
    (∃ c, Carries w.plan dt t e c ∧ c.pos = p ∧ c.ctype = ty) ↔ Stands ls dt t e p ty := by
  obtain ⟨w1, h1, A⟩ := after ls h
  obtain rfl : w1 = w := Option.some.inj (h1.symm.trans hw)
  constructor
  · rintro ⟨c, ⟨j, hj, hin, hlast⟩, rfl, rfl⟩
    have hlt := (List.getElem?_eq_some_iff.1 hj).1
    rw [A.plan e] at hlt
    obtain ⟨pre, a, b, r, ty, post, hl, hn⟩ := line_of ls e j hlt
    obtain ⟨c', hc', -, c2, c3, c4, -, c6⟩ := A.item pre e a b r ty post hl
    rw [hn, hj] at hc'
    obtain rfl := Option.some.inj hc'
    refine ⟨pre, a, b, r, post, by rw [c4]; exact hl, by rw [← c2]; exact hin.2.1, by rw [← c3]; exact hin.2.2, c6, fun a' b' r' ty' hm hsp => ?_⟩
    obtain ⟨q1, q2, rfl⟩ := List.append_of_mem hm
    obtain ⟨d, hd, d1, d2, d3, -⟩ := A.item (pre ++ .add e a b r ty :: q1) e a' b' r' ty' q2 (by rw [hl]; simp)
    have := hlast _ d hd ⟨d1, by rw [d2]; exact hsp.1, by rw [d3]; exact hsp.2⟩
    simp [adds] at this hn
    omega
  · rintro ⟨pre, a, b, r, post, hl, hs1, hs2, hp, hlast⟩
    obtain ⟨c, hc, c1, c2, c3, c4, -, c6⟩ := A.item pre e a b r ty post hl
    refine ⟨c, ⟨_, hc, ⟨c1, by rw [c2]; exact hs1, by rw [c3]; exact hs2⟩, fun k d hk hd => ?_⟩, funext fun i => C244_content (c6 i) (hp i), c4⟩
    by_contra hlt
    push Not at hlt
    have hk' := (List.getElem?_eq_some_iff.1 hk).1
    rw [A.plan e] at hk'
    obtain ⟨pre', a', b', r', ty', post', hl', hn'⟩ := line_of ls e k hk'
    obtain ⟨d', hd', -, d2, d3, -⟩ := A.item pre' e a' b' r' ty' post' hl'
    rw [hn', hk] at hd'
    obtain rfl := Option.some.inj hd'
    -- the line of `k` comes after the line of the contact
    have hmem : Line.add e a' b' r' ty' ∈ post := by
      have heq : pre ++ (.add e a b r ty :: post) = pre' ++ (.add e a' b' r' ty' :: post') := hl.symm.trans hl'
      rcases List.append_eq_append_iff.1 heq with ⟨q, hq1, hq2⟩ | ⟨q, hq1, hq2⟩
      · cases q with
        | nil => simp at hq1; subst hq1; omega
        | cons z q =>
          injection hq2 with _ h3
          rw [h3]; simp
      · exfalso
        have : adds e pre = adds e pre' + adds e q := by rw [hq1]; simp [adds]
        omega
    exact hlast a' b' r' ty' hmem ⟨by rw [← d2]; exact hd.2.1, by rw [← d3]; exact hd.2.2⟩

theorem toMat_id (i j : Fin 3) : Cont.toMat ⟨1, 0, 0, 0⟩ i j = if i = j then 1 else 0 := by
  fin_cases i <;> fin_cases j <;> simp [Cont.toMat]

/-- C245: the optimiser, run on the plan of a script, treats an end-effector as in contact in exactly those time steps in which the script lets it stand, and its constraints keep, for the position and type given there: the
force in the friction cone around the vertical, the center of pressure in its range, and the leg, from the center of mass to the center of pressure beside the position, not longer than its maximum. -/
theorem C245_limits (ls : List Line) (h : Named ls) (w : World) (hw : run World.init (program 0 ls) = some w) (n : Nat) (q : ContactPlan.Seq (Fin 3 → ℝ) Cont.Quat)
    (junk : Nat → Nat → Cont.Contact) (ini : Cont.Ini) (d : DCtx) (hd : d.p = toPlan w.plan (filled n d.s w.plan q) junk ini) (hq : Fresh q) (hn : d.s.neff ≤ n) (hT : 0 < d.s.T)
    (h0 : 0 < n) (hm : d.s.mass ≠ 0) (hc : ∃ p ty, Stands ls d.s.step 0 0 p ty) (x0 : Nat → ℝ) (thr : ℝ) (warm : Bool) (x : Nat → ℝ)
    (hx : ∀ op ∈ d.cons, op.Holds x0 thr warm x) (t : Nat) (ht : t < d.s.T) (e : Nat) (he : e < d.s.neff) :
    (d.p.active t e = true ↔ ∃ p ty, Stands ls d.s.step t e p ty) ∧
    ∀ p ty, Stands ls d.s.step t e p ty →
      (ty ≠ .full → if d.s.linCone then |pF d.ctx x t e 0| + |pF d.ctx x t e 1| ≤ Real.sqrt 2 * (max d.s.mu 0.001 * pF d.ctx x t e 2)
        else Real.sqrt (pF d.ctx x t e 0 ^ 2 + pF d.ctx x t e 1 ^ 2) ≤ d.s.mu * pF d.ctx x t e 2) ∧
      (d.s.copR e 0 ≤ pCop d.ctx x t e 0 ∧ pCop d.ctx x t e 0 ≤ d.s.copR e 1 ∧ d.s.copR e 2 ≤ pCop d.ctx x t e 1 ∧ pCop d.ctx x t e 1 ≤ d.s.copR e 3) ∧
      (p 0 + pCop d.ctx x t e 0 - pCom d.ctx x t 0 - d.s.off e 0) ^ 2 + (p 1 + pCop d.ctx x t e 1 - pCom d.ctx x t 1 - d.s.off e 1) ^ 2 +
        (p 2 - pCom d.ctx x t 2 - d.s.off e 2) ^ 2 ≤ d.s.maxLen e ^ 2 := by
  have hC : ∃ c, Carries w.plan d.s.step 0 0 c := by
    obtain ⟨p, ty, hs⟩ := hc
    obtain ⟨c, hc, -⟩ := (carries_script ls h w hw _ _ _ p ty).2 hs
    exact ⟨c, hc⟩
  obtain ⟨H, -⟩ := (C236_limits n w.plan q junk ini d hd hq hn hT h0 hm hC x0 thr warm x).1 hx
  have hact := active_iff n d.s w.plan q junk ini hq t e ht (by omega)
  rw [← hd] at hact
  refine ⟨?_, fun p ty hs => ?_⟩
  · rw [hact]
    constructor
    · rintro ⟨c, hc⟩
      exact ⟨c.pos, c.ctype, (carries_script ls h w hw _ _ _ _ _).1 ⟨c, hc, rfl, rfl⟩⟩
    · rintro ⟨p, ty, hs⟩
      obtain ⟨c, hc, -⟩ := (carries_script ls h w hw _ _ _ p ty).2 hs
      exact ⟨c, hc⟩
  · obtain ⟨c, hc, rfl, rfl⟩ := (carries_script ls h w hw _ _ _ p ty).2 hs
    have hmem : c ∈ w.plan e := by obtain ⟨j, hj, -⟩ := hc; exact List.mem_of_getElem? hj
    have hori := (script_contacts ls h w hw e c hmem).2
    have hloc : ∀ k : Fin 3, localForce d x t e c k = pF d.ctx x t e k := by
      intro k
      simp only [localForce, hori, toMat_id]
      fin_cases k <;> simp [Fin.sum_univ_three]
    have harm : ∀ a : Fin 3, arm d x t e c a = c.pos a + (if a = 0 then pCop d.ctx x t e 0 else 0) + (if a = 1 then pCop d.ctx x t e 1 else 0) - pCom d.ctx x t a := by
      intro a
      simp only [arm, frame, axis, hori, toMat_id]
      fin_cases a <;> simp [Fin.ofNat]
    refine ⟨fun hty => ?_, ?_, ?_⟩
    · have := H.friction t ht e he c hc hty
      simp only [hloc, mul_zero, add_zero] at this
      exact this
    · have := H.cop t ht e he c hc
      simpa using this
    · have := H.length t ht e he c hc
      have z : ∀ n b, slackSq 0 n b = b := fun n b => by unfold slackSq sqErr; ring
      rw [z, Finset.sum_range_succ, Finset.sum_range_succ, Finset.sum_range_succ, Finset.sum_range_zero] at this
      have a0 := harm 0
      have a1 := harm 1
      have a2 := harm 2
      simp at a0 a1 a2
      rw [a0, a1, a2] at this
      linarith

/-- A script: the foot stands throughout. -/
noncomputable def stand : List Line := [.array ![0, 0, -1], .add 0 0 1 0 .flat, .write 0 2 5]

theorem stand_named : Named stand := by
  intro pre l post h
  rcases pre with _ | ⟨_, _ | ⟨_, _ | ⟨_, pre⟩⟩⟩ <;> simp [stand] at h
  · rw [← h.1]; trivial
  · rw [← h.1, ← h.2.1]; simp [arrays]
  · rw [← h.1, ← h.2.1, ← h.2.2.1]; simp [arrays]

theorem stand_stands (hr : Heur) (t : Nat) (ht : t < 3) : Stands stand (exSet hr).step t 0 ![0, 0, -1] .flat := by
  refine ⟨[.array ![0, 0, -1]], 0, 1, 0, [.write 0 2 5], rfl, ?_, ?_, fun i => .made [] _ rfl, by simp⟩ <;>
    interval_cases t <;> norm_num [exSet]

/-- The hypotheses of C245 on the script and the plan are met by `stand`. -/
example (junk : Nat → Nat → Cont.Contact) (ini : Cont.Ini) : ∃ w, run World.init (program 0 stand) = some w ∧
    let d : DCtx := { exD .trust with p := toPlan w.plan (filled 1 (exSet .trust) w.plan exFresh) junk ini }
    d.p = toPlan w.plan (filled 1 d.s w.plan exFresh) junk ini ∧ Fresh exFresh ∧ d.s.neff ≤ 1 ∧ 0 < d.s.T ∧ d.s.mass ≠ 0 ∧ ∃ p ty, Stands stand d.s.step 0 0 p ty := by
  refine ⟨_, rfl, rfl, exFresh_fresh, le_rfl, ?_, ?_, _, _, stand_stands .trust 0 (by omega)⟩
  · norm_num [exAtZ, exSet]
  · norm_num [exAtZ, exSet]

/-! ### C246: the length of the motion -/

open Settings in
/-- C246: for every planner setting, setting the horizon to a duration and then the number of time steps to the whole number of steps in it (with the time step read from the setting) succeeds, both values and the unchanged
time step are read back, and horizon, step and number of steps belong together. -/
theorem C246_duration (s : Obj planner) (D : ℝ) : ∃ (dt : ℝ) (s1 s2 : Obj planner), Reads (C := planner) s Planner.Param.double_TimeStep dt ∧
    s.set Planner.Param.double_TimeHorizon D = some s1 ∧ s1.set Planner.Param.int_NumTimesteps (⌊D / dt⌋ : ℤ) = some s2 ∧
    Reads (C := planner) s2 Planner.Param.double_TimeHorizon D ∧ Reads (C := planner) s2 Planner.Param.int_NumTimesteps (⌊D / dt⌋ : ℤ) ∧
    Reads (C := planner) s2 Planner.Param.double_TimeStep dt ∧ StepsConsistent s2 := by
  obtain ⟨dt, hdt, -⟩ := C54_planner_settings_partial Planner.Param.double_TimeStep (by decide) s
  obtain ⟨_, -, -, set1⟩ := C54_planner_settings_partial Planner.Param.double_TimeHorizon (by decide) s
  obtain ⟨s1, h1, r1⟩ := set1 (D : ℝ) (by intro h; cases h)
  obtain ⟨_, -, -, set2⟩ := C54_planner_settings_partial Planner.Param.int_NumTimesteps (by decide) s1
  obtain ⟨s2, h2, r2⟩ := set2 (⌊D / (show ℝ from dt)⌋ : ℤ) (by intro h; cases h)
  have k1 : s1.get (C := planner) Planner.Param.double_TimeStep = s.get (C := planner) Planner.Param.double_TimeStep :=
    C73_planner_settings_partial _ _ (fun h => by cases h) (fun h => by cases h.2) (fun h => by cases h.2) s s1 _ h1
  have k2 : s2.get (C := planner) Planner.Param.double_TimeStep = s1.get (C := planner) Planner.Param.double_TimeStep :=
    C73_planner_settings_partial _ _ (fun h => by cases h) (fun h => by cases h.2) (fun h => by cases h.2) s1 s2 _ h2
  have k3 : s2.get (C := planner) Planner.Param.double_TimeHorizon = s1.get (C := planner) Planner.Param.double_TimeHorizon :=
    C73_planner_settings_partial _ _ (fun h => by cases h) (fun h => by cases h.2) (fun h => by cases h.2) s1 s2 _ h2
  have e1 : Reads (C := planner) s2 Planner.Param.double_TimeHorizon D := k3.trans r1
  have e2 : Reads (C := planner) s2 Planner.Param.double_TimeStep dt := (k2.trans k1).trans hdt
  exact ⟨dt, s1, s2, hdt, h1, h2, e1, r2, e2, _, D, dt, r2, e1, e2, rfl⟩

/-! ### C247: optimize() of the contact planner -/

/-- C247 is violated: `optimize` of the contact planner, called after a script has filled the plan, throws the contacts of the script away: with a file that lists the contacts of all end-effectors, what is left is the same
as if the script had not run. -/
theorem C247_reload_violated (ls : List Line) (h : Named ls) (n : Nat) (file : Nat → Option (List (Fin 11 → ℝ))) (hf : ∀ e < n, file e ≠ none) :
    ∃ w, run World.init (program 0 ls) = some w ∧ ∀ num e, e < n → fromFile n (some file) ⟨num, w.plan⟩ e = fromFile n (some file) ⟨num, fun _ => []⟩ e := by
  obtain ⟨w, hw, -⟩ := after ls h
  refine ⟨w, hw, fun num e he => ?_⟩
  have key : ∀ (r e0 k : Nat) (c c' : Nat → List Cont.Contact), (∀ e, e0 ≤ e → e < e0 + r → file e ≠ none) → (∀ e < e0, c e = c' e) →
      ∀ e < e0 + r, (Cont.loadFrom file r e0 k c).cnts e = (Cont.loadFrom file r e0 k c').cnts e := by
    intro r
    induction r with
    | zero => intro e0 k c c' _ hc e he; exact hc e (by omega)
    | succ r ih =>
      intro e0 k c c' hr hc e he
      cases hfe : file e0 with
      | none => exact absurd hfe (hr e0 le_rfl (by omega))
      | some ps =>
        simp only [Cont.loadFrom, hfe]
        refine ih (e0 + 1) _ _ _ (fun e h1 h2 => hr e (by omega) (by omega)) (fun e' h' => ?_) e (by omega)
        by_cases hee : e' = e0
        · subst hee; simp
        · simp only [Function.update_of_ne hee]; exact hc e' (by omega)
  simp only [fromFile, if_pos he, Cont.load]
  rw [key n 0 0 w.plan (fun _ => []) (fun e _ h2 => hf e (by omega)) (fun e h => by omega) e (by omega)]

/-- C247 (what holds): when the file cannot be opened, the contacts of the script stay, all of them selected. -/
theorem C247_reload_partial (ls : List Line) (h : Named ls) (n : Nat) : ∃ w, run World.init (program 0 ls) = some w ∧ ∀ num e, fromFile n none ⟨num, w.plan⟩ e = w.plan e := by
  obtain ⟨w, hw, -⟩ := after ls h
  refine ⟨w, hw, fun num e => ?_⟩
  simp only [fromFile, Cont.load]
  split
  · conv_rhs => rw [← List.map_id (w.plan e)]
    refine List.map_congr_left fun c hc => ?_
    have := (script_contacts ls h w hw e c hc).1
    cases c
    simp only at this
    subst this
    rfl
  · rfl

/-- The hypotheses of C247 are met by the script of the demo and a file without contacts. -/
example : Named stand ∧ ∀ e < 4, (fun _ => some [] : Nat → Option (List (Fin 11 → ℝ))) e ≠ none := ⟨stand_named, fun _ _ => by simp⟩

end PyPlan
end Verif
