import Verif.BnBLink
import Verif.BnBProps
import Verif.ConicProps
import Verif.EquilProps
import Mathlib.Tactic.FinCases

set_option linter.unusedSimpArgs false
set_option linter.unusedSectionVars false

/-!
Properties C192-C194: branch and bound on the conic problem. The statements use the model of the API (`Conic.lean`, `BnBLink.lean`), of
branch and bound (`BnB.lean`) and of equilibration (`Equil.lean`), and the specification of the conic problem (`ConicSpec.lean`).
-/
namespace Verif
namespace BnBLink
open Sys Build

/-- The decisions made by branch and bound: 1, 0 or -1 (undecided). -/
def Legal (d : List Int) : Prop := ∀ a ∈ d, a = 1 ∨ a = 0 ∨ a = -1

/-- The point agrees with the decisions on the binary variables. -/
def Agrees (bins : List Nat) (d : List Int) (x : Nat → ℝ) : Prop :=
  ∀ i (h : i < bins.length) (h' : i < d.length), (d[i] = 1 → x bins[i] = 1) ∧ (d[i] = 0 → x bins[i] = 0)

/-! ### C192 -/

theorem decide_shape (p : Problem ℝ) (hp : p.Shape) (d : List Int) (hd : d.length = p.bins.length) : (decide p d).Shape :=
  ⟨by simpa [decide] using hd, by simpa [decide] using hd, hp.obj, hp.qi, hp.so⟩

theorem shape_rows (p : Problem ℝ) (hp : p.Shape) (x0) (thr w : ℝ) (warm : Bool) (f : StdForm ℝ) (hf : p.build x0 thr w warm = some f) (x : Nat → ℝ) :
    f.Feasible x ↔ (∀ e ∈ p.leq, Rows.lin e x = 0) ∧ (∀ g ∈ p.lpRows x0 thr warm, 0 ≤ g x) ∧
      (∀ b ∈ p.blocks x0 warm, InSoc (b.map (fun g => g x))) := by
  rw [build_some p hp] at hf
  obtain rfl := Option.some.inj hf
  have heq := Ext.forIdx (eqBody (K := ℝ)) (fun e => [Rows.lin e]) 1 0 p.leq (by simp)
    (fun i a _ s hs => Rows.ext_eq i a s hs) 0 Sys.zero (fun r _ => fresh_zero r)
  rw [feasible_iff_rows _ (p.leq.flatMap fun e => [Rows.lin e]) (p.lpRows x0 thr warm) (p.blocks x0 warm) (by simpa using heq)
    (buildIneq_ext p hp x0 thr warm) (by simp) (lpRows_length p hp x0 thr warm).symm (coneSizes_eq p hp x0 warm)]
  rw [forall_flatMap]
  simp

/-- The rows of the binary variables come first; nothing else depends on their bounds. -/
theorem lpRows_decide (p : Problem ℝ) (d : List Int) (x0) (thr : ℝ) (warm : Bool) :
    ∃ rest, p.lpRows x0 thr warm = (p.bins.zip (p.binLo.zip p.binUp)).flatMap Rows.bin ++ rest ∧
      (decide p d).lpRows x0 thr warm = (p.bins.zip ((d.map decLo).zip (d.map decUp))).flatMap Rows.bin ++ rest := by
  refine ⟨p.lineq.flatMap (fun e => [Rows.lin e]) ++ (p.qineq.flatMap (fun q => [Rows.qlin q]) ++ (p.soc.flatMap (fun q => [Rows.socLin q]) ++
  (if warm then [] else (p.qineq.filter (·.trust)).flatMap (fun q => [Rows.trust x0 thr q])))), ?_, ?_⟩
  · simp [Problem.lpRows, List.append_assoc]
  · simp [Problem.lpRows, decide, List.append_assoc]

theorem bin_unit (p : Problem ℝ) (hp : p.WF) (x : Nat → ℝ) :
    (∀ g ∈ (p.bins.zip (p.binLo.zip p.binUp)).flatMap Rows.bin, 0 ≤ g x) ↔ ∀ i (h : i < p.bins.length), 0 ≤ x p.bins[i] ∧ x p.bins[i] ≤ 1 := by
  rw [hp.lo, hp.up, forall_flatMap]
  constructor
  · intro h i hi
    have := h (p.bins[i], 0, 1) (by
      rw [List.mem_iff_getElem]; exact ⟨i, by simpa using hi, by simp⟩)
    simpa [Rows.bin] using this
  · intro h t ht
    obtain ⟨i, hi, rfl⟩ := List.getElem_of_mem ht
    have hi' : i < p.bins.length := by simpa using hi
    simpa [Rows.bin] using h i hi'

theorem bin_dec (bins : List Nat) (d : List Int) (hl : d.length = bins.length) (hd : Legal d) (x : Nat → ℝ) :
    (∀ g ∈ (bins.zip ((d.map decLo).zip (d.map decUp))).flatMap Rows.bin, 0 ≤ g x) ↔
      (∀ i (h : i < bins.length), 0 ≤ x bins[i] ∧ x bins[i] ≤ 1) ∧ Agrees bins d x := by
  have one : ∀ i (h : i < bins.length) (h' : i < d.length), (0 ≤ decLo d[i] + x bins[i] ∧ 0 ≤ decUp d[i] - x bins[i]) ↔
      (0 ≤ x bins[i] ∧ x bins[i] ≤ 1) ∧ (d[i] = 1 → x bins[i] = 1) ∧ (d[i] = 0 → x bins[i] = 0) := by
    intro i h h'
    rcases hd _ (List.getElem_mem h') with e | e | e <;> rw [e] <;> norm_num [decLo, decUp]
    · constructor
      · rintro ⟨a, b⟩; exact ⟨⟨by linarith, by linarith⟩, by linarith⟩
      · rintro ⟨-, a⟩; rw [a]; norm_num
    · constructor
      · rintro ⟨a, b⟩; exact ⟨⟨by linarith, by linarith⟩, by linarith⟩
      · rintro ⟨-, a⟩; rw [a]; norm_num
  rw [forall_flatMap]
  constructor
  · intro h
    have h2 : ∀ i (h : i < bins.length) (h' : i < d.length), (0 ≤ decLo d[i] + x bins[i] ∧ 0 ≤ decUp d[i] - x bins[i]) := by
      intro i hi hi'
      have := h (bins[i], decLo d[i], decUp d[i]) (by
        rw [List.mem_iff_getElem]; exact ⟨i, by simp [hi, hi'], by simp⟩)
      simpa [Rows.bin] using this
    exact ⟨fun i hi => ((one i hi (by omega)).1 (h2 i hi (by omega))).1, fun i hi hi' => ((one i hi hi').1 (h2 i hi hi')).2⟩
  · rintro ⟨h1, h2⟩ t ht
    obtain ⟨i, hi, rfl⟩ := List.getElem_of_mem ht
    have hi' : i < bins.length := by simp at hi; omega
    have := (one i hi' (by omega)).2 ⟨h1 i hi', h2 i hi' (by omega)⟩
    simpa [Rows.bin] using this

theorem act_zero (s : Sys ℝ) (r : Nat) : s.act (fun _ => 0) r = 0 := by
  simp [Sys.act]

theorem rhs_slack (s : Sys ℝ) (r : Nat) : s.rhs r = s.slack (fun _ => 0) r := by simp [Sys.slack, act_zero]

theorem act_slack (s : Sys ℝ) (x : Nat → ℝ) (r : Nat) : s.act x r = s.slack (fun _ => 0) r - s.slack x r := by simp [Sys.slack, act_zero]

theorem bin_get (l : List (Nat × ℝ × ℝ)) : ∀ i (h : i < l.length),
    (l.flatMap Rows.bin)[2 * i]? = some (fun x => l[i].2.1 + x l[i].1) ∧ (l.flatMap Rows.bin)[2 * i + 1]? = some (fun x => l[i].2.2 - x l[i].1) := by
  induction l with
  | nil => intro i h; simp at h
  | cons a as ih =>
    intro i h
    cases i with
    | zero => simp [Rows.bin]
    | succ i =>
      have := ih i (by simpa using h)
      rw [show 2 * (i + 1) = 2 * i + 2 from by ring]
      simpa [Rows.bin] using this

/-- What the loop of `updateProblemData` writes. -/
theorem decide_rhs (d : List Int) : ∀ (k : Nat) (s : Sys ℝ),
    (∀ j (h : j < d.length), (forIdx (fun i a s => (s.set (2 * i) (decLo a)).set (2 * i + 1) (decUp a)) k d s).rhs (2 * (k + j)) = decLo d[j] ∧
      (forIdx (fun i a s => (s.set (2 * i) (decLo a)).set (2 * i + 1) (decUp a)) k d s).rhs (2 * (k + j) + 1) = decUp d[j]) ∧
    (∀ r, r < 2 * k ∨ 2 * (k + d.length) ≤ r → (forIdx (fun i a s => (s.set (2 * i) (decLo a)).set (2 * i + 1) (decUp a)) k d s).rhs r = s.rhs r) ∧
    (∀ x r, (forIdx (fun i a s => (s.set (2 * i) (decLo a)).set (2 * i + 1) (decUp a)) k d s).act x r = s.act x r) := by
  induction d with
  | nil => intro k s; simp [forIdx]
  | cons a as ih =>
    intro k s
    obtain ⟨h1, h2, h3⟩ := ih (k + 1) ((s.set (2 * k) (decLo a)).set (2 * k + 1) (decUp a))
    simp only [forIdx]
    refine ⟨fun j hj => ?_, fun r hr => ?_, fun x r => ?_⟩
    · cases j with
      | zero =>
        rw [h2 _ (.inl (by omega)), h2 _ (.inl (by omega))]
        constructor
        · rw [rhs_set_ne (by omega)]; simp
        · simp
      | succ j =>
        have := h1 j (by simpa using hj)
        rw [show k + (j + 1) = k + 1 + j by ring]
        simpa using this
    · simp only [List.length_cons] at hr
      rw [h2 r (by omega), rhs_set_ne (by omega), rhs_set_ne (by omega)]
    · rw [h3, act_set, act_set]

/-- C192 (in place = rebuilt): writing the decisions into `h` gives exactly the data of the problem rebuilt with the bounds of the decisions. -/
theorem C192_in_place (ops : List Op) (hok : ApiState.init.AllOk ops) (hone : OneObj ops) (x0 : Nat → ℝ) (thr w : ℝ) (warm : Bool)
    (d : List Int) (hd : d.length = (ApiState.init.run ops).p.bins.length) :
    ∃ f f', (ApiState.init.run ops).p.build x0 thr w warm = some f ∧ (decide (ApiState.init.run ops).p d).build x0 thr w warm = some f' ∧
      f'.nvars = f.nvars ∧ f'.nleq = f.nleq ∧ f'.nlineq = f.nlineq ∧ f'.q = f.q ∧ f'.eq = f.eq ∧ f'.c = f.c ∧
      (∀ r, r < f.nlineq + f.q.sum → (decideForm f d).ineq.rhs r = f'.ineq.rhs r ∧ ∀ x, (decideForm f d).ineq.act x r = f'.ineq.act x r) := by
  have hi := inv_reachable ops hok hone
  set p := (ApiState.init.run ops).p with hp
  have hs : p.Shape := hi.wf.shape
  have hs' := decide_shape p hs d hd
  refine ⟨_, _, build_some p hs _ _ _ _, build_some _ hs' _ _ _ _, rfl, rfl, rfl, rfl, rfl, rfl, ?_⟩
  intro r hr
  simp only at hr
  obtain ⟨rest, e1, e2⟩ := lpRows_decide p d x0 thr warm
  have X := buildIneq_ext p hs x0 thr warm
  have X' := buildIneq_ext _ hs' x0 thr warm
  have hb : (decide p d).blocks x0 warm = p.blocks x0 warm := rfl
  rw [hb] at X'
  have hlen : (p.lpRows x0 thr warm ++ (p.blocks x0 warm).flatten).length = p.nlineq warm + (p.coneSizes warm).sum := by
    rw [List.length_append, lpRows_length p hs, coneSizes_eq p hs x0, List.length_flatten]
  have hlen' : ((decide p d).lpRows x0 thr warm ++ (p.blocks x0 warm).flatten).length = p.nlineq warm + (p.coneSizes warm).sum := by
    rw [List.length_append, lpRows_length _ hs', coneSizes_eq p hs x0, List.length_flatten]; rfl
  have lbin : ((p.bins.zip (p.binLo.zip p.binUp)).flatMap Rows.bin).length = 2 * p.bins.length := by
    rw [flatMap_bin_length]; simp [hs.loLen, hs.upLen]
  have lbin' : ((p.bins.zip ((d.map decLo).zip (d.map decUp))).flatMap Rows.bin).length = 2 * p.bins.length := by
    rw [flatMap_bin_length]; simp [hd]
  obtain ⟨d1, d2, d3⟩ := decide_rhs d 0 (p.buildIneq x0 thr warm)
  simp only [Nat.zero_add] at d1 d2
  have A := X.at_ r (by rw [hlen]; exact hr)
  have A' := X'.at_ r (by rw [hlen']; exact hr)
  simp only [Nat.zero_add] at A A'
  simp only [decideForm]
  simp only [d3]
  have E1 : p.lpRows x0 thr warm ++ (p.blocks x0 warm).flatten =
      (p.bins.zip (p.binLo.zip p.binUp)).flatMap Rows.bin ++ (rest ++ (p.blocks x0 warm).flatten) := by rw [e1, List.append_assoc]
  have E2 : (decide p d).lpRows x0 thr warm ++ (p.blocks x0 warm).flatten =
      (p.bins.zip ((d.map decLo).zip (d.map decUp))).flatMap Rows.bin ++ (rest ++ (p.blocks x0 warm).flatten) := by rw [e2, List.append_assoc]
  by_cases hr2 : r < 2 * p.bins.length
  · obtain ⟨i, hi2, hri⟩ : ∃ i, i < p.bins.length ∧ (r = 2 * i ∨ r = 2 * i + 1) := ⟨r / 2, by omega, by omega⟩
    have B := bin_get (p.bins.zip (p.binLo.zip p.binUp)) i (by simp [hs.loLen, hs.upLen, hi2])
    have B' := bin_get (p.bins.zip ((d.map decLo).zip (d.map decUp))) i (by simp [hd, hi2])
    have g : ∀ x, (p.buildIneq x0 thr warm).slack x r = (((p.bins.zip (p.binLo.zip p.binUp)).flatMap Rows.bin)[r]'(by omega)) x := by
      intro x; rw [A x, List.getElem_of_eq E1, List.getElem_append_left]
    have g' : ∀ x, ((decide p d).buildIneq x0 thr warm).slack x r =
        (((p.bins.zip ((d.map decLo).zip (d.map decUp))).flatMap Rows.bin)[r]'(by omega)) x := by
      intro x; rw [A' x, List.getElem_of_eq E2, List.getElem_append_left]
    rcases hri with rfl | rfl
    · rw [List.getElem?_eq_getElem (by omega)] at B B'
      have b := Option.some.inj B.1
      have b' := Option.some.inj B'.1
      rw [b] at g; rw [b'] at g'
      simp only [List.getElem_zip, List.getElem_map] at g g'
      refine ⟨?_, fun x => ?_⟩
      · rw [(d1 i (by omega)).1, rhs_slack, g']; simp
      · rw [act_slack, act_slack, g, g, g', g']; ring
    · rw [List.getElem?_eq_getElem (by omega), List.getElem?_eq_getElem (by omega)] at B B'
      have b := Option.some.inj B.2
      have b' := Option.some.inj B'.2
      rw [b] at g; rw [b'] at g'
      simp only [List.getElem_zip, List.getElem_map] at g g'
      refine ⟨?_, fun x => ?_⟩
      · rw [(d1 i (by omega)).2, rhs_slack, g']; simp
      · rw [act_slack, act_slack, g, g, g', g']; ring
  · have hsl : ∀ x, (p.buildIneq x0 thr warm).slack x r = ((decide p d).buildIneq x0 thr warm).slack x r := by
      intro x
      have G1 : ∀ (l l' t : List ((Nat → ℝ) → ℝ)) (h : r < (l ++ t).length) (h' : r < (l' ++ t).length), l.length = 2 * p.bins.length →
          l'.length = 2 * p.bins.length → (l ++ t)[r] x = (l' ++ t)[r] x := by
        intro l l' t h h' hl hl'
        have a : (l ++ t)[r]? = (l' ++ t)[r]? := by
          rw [List.getElem?_append_right (by omega), List.getElem?_append_right (by omega), hl, hl']
        rw [List.getElem?_eq_getElem h, List.getElem?_eq_getElem h'] at a
        exact congrFun (Option.some.inj a) x
      rw [A x, A' x, List.getElem_of_eq E1, List.getElem_of_eq E2]
      exact G1 _ _ _ _ _ lbin lbin'
    refine ⟨?_, fun x => ?_⟩
    · rw [d2 r (.inr (by omega)), rhs_slack, rhs_slack, hsl]
    · rw [act_slack, act_slack, hsl, hsl]

theorem startSoc_lt (n : Nat) (q : List Nat) (i : Nat) (h : i < q.length) (j : Nat) (hj : j < q[i]) : startSoc n q i + j < n + q.sum := by
  unfold startSoc
  have : (q.take i).sum + q[i] ≤ q.sum := by
    have h2 : (q.take (i + 1)).sum ≤ q.sum := by
      have := congrArg List.sum (List.take_append_drop (i + 1) q)
      rw [List.sum_append] at this
      omega
    rw [List.take_add_one, List.getElem?_eq_getElem h, List.sum_append] at h2
    simpa only [Option.toList_some, List.sum_cons, List.sum_nil, Nat.add_zero] using h2
  omega

theorem feasible_congr (f g : StdForm ℝ) (h1 : g.nleq = f.nleq) (h2 : g.nlineq = f.nlineq) (h3 : g.q = f.q) (h4 : g.eq = f.eq)
    (h : ∀ r, r < f.nlineq + f.q.sum → f.ineq.rhs r = g.ineq.rhs r ∧ ∀ x, f.ineq.act x r = g.ineq.act x r) (x : Nat → ℝ) :
    f.Feasible x ↔ g.Feasible x := by
  unfold StdForm.Feasible
  rw [h1, h2, h4]
  refine and_congr Iff.rfl (and_congr ?_ ?_)
  · refine forall₂_congr fun r hr => ?_
    obtain ⟨a, b⟩ := h r (by omega)
    rw [a, b]
  · simp only [h3]
    refine forall₂_congr fun i hi => ?_
    rw [List.map_congr_left (g := fun j => g.ineq.rhs (startSoc f.nlineq f.q i + j) - g.ineq.act x (startSoc f.nlineq f.q i + j))]
    intro j hj
    obtain ⟨a, b⟩ := h _ (startSoc_lt f.nlineq f.q i hi j (by simpa using hj))
    rw [a, b]

/-- C192: for every program against the API and all decisions, the relaxation solved at the node (by `BnBSolver`, which edits `h`, and by
`NcvxBnBSolver`, which edits the bounds and rebuilds) admits exactly the points of the original relaxation that agree with the decisions; the cost is
the same. -/
theorem C192_branch (ops : List Op) (hok : ApiState.init.AllOk ops) (hone : OneObj ops) (x0 : Nat → ℝ) (thr w : ℝ) (warm : Bool)
    (d : List Int) (hd : d.length = (ApiState.init.run ops).p.bins.length) (hl : Legal d) :
    ∃ f f', (ApiState.init.run ops).p.build x0 thr w warm = some f ∧ (decide (ApiState.init.run ops).p d).build x0 thr w warm = some f' ∧
      ∀ x : Nat → ℝ, (f'.Feasible x ↔ f.Feasible x ∧ Agrees (ApiState.init.run ops).p.bins d x) ∧
        ((decideForm f d).Feasible x ↔ f.Feasible x ∧ Agrees (ApiState.init.run ops).p.bins d x) ∧
        f'.cost x = f.cost x ∧ (decideForm f d).cost x = f.cost x := by
  obtain ⟨f, f', hf, hf', a1, a2, a3, a4, a5, a6, a7⟩ := C192_in_place ops hok hone x0 thr w warm d hd
  have hi := inv_reachable ops hok hone
  have hs := hi.wf.shape
  have hs' := decide_shape _ hs d hd
  have main : ∀ x, f'.Feasible x ↔ f.Feasible x ∧ Agrees (ApiState.init.run ops).p.bins d x := by
    intro x
    rw [shape_rows _ hs' x0 thr w warm f' hf' x, shape_rows _ hs x0 thr w warm f hf x]
    obtain ⟨rest, e1, e2⟩ := lpRows_decide (ApiState.init.run ops).p d x0 thr warm
    have hb : (decide (ApiState.init.run ops).p d).blocks x0 warm = (ApiState.init.run ops).p.blocks x0 warm := rfl
    have hq : (decide (ApiState.init.run ops).p d).leq = (ApiState.init.run ops).p.leq := rfl
    rw [e1, e2, hb, hq, List.forall_mem_append, List.forall_mem_append, bin_unit _ hi.wf, bin_dec _ d hd hl]
    tauto
  refine ⟨f, f', hf, hf', fun x => ⟨main x, ?_, ?_, rfl⟩⟩
  · rw [← main x]
    exact feasible_congr (decideForm f d) f' (by rw [a2]; rfl) (by rw [a3]; rfl) (by rw [a4]; rfl) (by rw [a5]; rfl) a7 x
  · simp only [StdForm.cost, a1, a6]

/-- C192: the root of every search starts from the bounds 0 and 1, whatever an earlier search left behind. -/
theorem C192_root (ops : List Op) (hok : ApiState.init.AllOk ops) (hone : OneObj ops) (d : List Int) :
    decide (decide (ApiState.init.run ops).p d) (List.replicate (ApiState.init.run ops).p.bins.length (-1)) = (ApiState.init.run ops).p := by
  have hi := inv_reachable ops hok hone
  have h1 := hi.wf.lo
  have h2 := hi.wf.up
  have e1 : decLo (-1) = 0 := by norm_num [decLo]
  have e2 : decUp (-1) = 1 := by norm_num [decUp]
  simp only [decide, List.map_replicate, e1, e2, ← h1, ← h2]

/-- C192 on equilibrated data: undoing the equilibration shows the original data with the bounds of the decisions in `h` and nothing else changed. -/
theorem C192_equilibrated (c : Cone) (iters : Nat) (S : Equil.Storage) (hf : Equil.Fits c S) (d : List Int) (hd : 2 * d.length ≤ c.sizecone) :
    ∃ cbh, Equil.unsetEquilibration c (Equil.setEquilibration c iters S).2
        (decideEquil c (Equil.setEquilibration c iters S).2 (Equil.setEquilibration c iters S).1 d) = { S with cbh := cbh } ∧
      (∀ i (h : i < d.length), cbh (c.nvars + c.neq + 2 * i) = decLo d[i] ∧ cbh (c.nvars + c.neq + (2 * i + 1)) = decUp d[i]) ∧
      (∀ k, k < c.nvars + c.neq ∨ c.nvars + c.neq + 2 * d.length ≤ k → cbh k = S.cbh k) := by
  have h20 := Equil.C20_unset c iters S hf
  have hsc := Equil.scaled c S iters
  set e := (Equil.setEquilibration c iters S).2 with he
  set T := (Equil.setEquilibration c iters S).1 with hT
  have hA := congrArg Equil.Storage.A h20
  have hG := congrArg Equil.Storage.G h20
  have hc := congrArg Equil.Storage.cbh h20
  simp only [Equil.unsetEquilibration] at hA hG hc
  have key : ∀ (d : List Int) (k : Nat) (T : Equil.Storage), 2 * (k + d.length) ≤ c.sizecone →
      (forIdx (fun i a S => Equil.updateEquilH c e (Equil.updateEquilH c e S (2 * i) (decLo a)) (2 * i + 1) (decUp a)) k d T).A = T.A ∧
      (forIdx (fun i a S => Equil.updateEquilH c e (Equil.updateEquilH c e S (2 * i) (decLo a)) (2 * i + 1) (decUp a)) k d T).G = T.G ∧
      (∀ j (h : j < d.length),
        (forIdx (fun i a S => Equil.updateEquilH c e (Equil.updateEquilH c e S (2 * i) (decLo a)) (2 * i + 1) (decUp a)) k d T).cbh
          (c.nvars + c.neq + 2 * (k + j)) * e (c.nvars + c.neq + 2 * (k + j)) = decLo d[j] ∧
        (forIdx (fun i a S => Equil.updateEquilH c e (Equil.updateEquilH c e S (2 * i) (decLo a)) (2 * i + 1) (decUp a)) k d T).cbh
          (c.nvars + c.neq + (2 * (k + j) + 1)) * e (c.nvars + c.neq + (2 * (k + j) + 1)) = decUp d[j]) ∧
      (∀ r, r < c.nvars + c.neq + 2 * k ∨ c.nvars + c.neq + 2 * (k + d.length) ≤ r →
        (forIdx (fun i a S => Equil.updateEquilH c e (Equil.updateEquilH c e S (2 * i) (decLo a)) (2 * i + 1) (decUp a)) k d T).cbh r = T.cbh r) := by
    intro d
    induction d with
    | nil => intro k T _; simp [forIdx]
    | cons a as ih =>
      intro k T hk
      simp only [List.length_cons] at hk
      obtain ⟨h1, h2, h3, h4⟩ := ih (k + 1) (Equil.updateEquilH c e (Equil.updateEquilH c e T (2 * k) (decLo a)) (2 * k + 1) (decUp a)) (by omega)
      simp only [forIdx]
      refine ⟨h1, h2, fun j hj => ?_, fun r hr => ?_⟩
      · cases j with
        | zero =>
          have p1 : 0 < e (c.nvars + c.neq + 2 * k) := hsc.pos _ (by unfold Cone.sizeproblem Cone.sizeconstraints; omega)
          have p2 : 0 < e (c.nvars + c.neq + (2 * k + 1)) := hsc.pos _ (by unfold Cone.sizeproblem Cone.sizeconstraints; omega)
          rw [h4 _ (.inl (by omega)), h4 _ (.inl (by omega))]
          simp only [Equil.updateEquilH, Cone.lpconestart, Nat.add_zero, List.getElem_cons_zero]
          constructor
          · rw [Function.update_of_ne (by omega), Function.update_self, div_mul_cancel₀ _ p1.ne']
          · rw [Function.update_self, div_mul_cancel₀ _ p2.ne']
        | succ j =>
          have := h3 j (by simpa using hj)
          rw [show k + (j + 1) = k + 1 + j by ring]
          simpa using this
      · simp only [List.length_cons] at hr
        rw [h4 r (by omega)]
        simp only [Equil.updateEquilH, Cone.lpconestart]
        rw [Function.update_of_ne (by omega), Function.update_of_ne (by omega)]
  obtain ⟨k1, k2, k3, k4⟩ := key d 0 T (by omega)
  have sz : c.nvars + c.neq + 2 * d.length ≤ c.sizeproblem := by unfold Cone.sizeproblem Cone.sizeconstraints; omega
  refine ⟨fun k => if k < c.sizeproblem then (decideEquil c e T d).cbh k * e k else (decideEquil c e T d).cbh k, ?_, ?_, ?_⟩
  · simp only [Equil.unsetEquilibration, Equil.Storage.mk.injEq]
    unfold decideEquil
    rw [k1, k2]
    exact ⟨hA, hG, trivial⟩
  · intro i hi
    have := k3 i hi
    simp only [Nat.zero_add] at this
    simp only
    rw [if_pos (by omega), if_pos (by omega)]
    exact this
  · intro k hk
    simp only
    unfold decideEquil
    rw [k4 k (by simpa using hk)]
    exact congrFun hc k

/-- Non-vacuity of C192: a program with two binary variables and decisions for both. -/
example : ∃ ops : List Op, ApiState.init.AllOk ops ∧ OneObj ops ∧ (ApiState.init.run ops).p.bins = [0, 1] ∧ Legal [1, -1] := by
  refine ⟨[.addVar .binary 0 1 0, .addVar .binary 0 1 0, .addLin ⟨0, [(0, 16), (1, 1)]⟩ ">" ⟨1, []⟩,
    .setObj ⟨⟨0, []⟩, []⟩ ⟨0, [(0, 1), (1, 1/2)]⟩], ?_, ?_, ?_, ?_⟩
  · simp [ApiState.AllOk, Op.Ok, ApiState.step, ApiState.init, Problem.addVar, h10, Problem.pushVar, Problem.empty,
      LinExpr.Over, QuadExpr.Over]
  · simp [OneObj, Op.isObj, List.filter_cons]
  · simp [ApiState.run, ApiState.step, ApiState.init, Problem.addVar, h10, Problem.pushVar, Problem.empty, Problem.addLinConstr,
      Problem.setObjective, Problem.addExtras]
  · simp [Legal]

/-! ### C194 -/

/-- An interior point solver that never errs on the relaxations of `f`: for an accepted exit code it returns a minimiser, otherwise there is no
feasible point. -/
def ExactIp (f : StdForm ℝ) (n : Nat) (ip : Nat → StdForm ℝ → BnB.Code × (Nat → ℝ)) : Prop :=
  ∀ k d, d.length = n → Legal d →
    (BnB.Usable (ip k (decideForm f d)).1 → (decideForm f d).Feasible (ip k (decideForm f d)).2 ∧
      ∀ y, (decideForm f d).Feasible y → (decideForm f d).cost (ip k (decideForm f d)).2 ≤ (decideForm f d).cost y) ∧
    (¬ BnB.Usable (ip k (decideForm f d)).1 → ∀ y, ¬ (decideForm f d).Feasible y)

/-- The binary variables have integral values. -/
def Integral (bins : List Nat) (x : Nat → ℝ) : Prop := ∀ v ∈ bins, x v = 0 ∨ x v = 1

/-- The user's objective. -/
noncomputable def userObj (q : QuadExpr ℝ) (l : LinExpr ℝ) (x : Nat → ℝ) : ℝ := sumSq q.quad x + q.lin.getValue x + l.getValue x

/-- Decisions other than 1 and 0 count as undecided. -/
def norm (a : Int) : Int := if a = 1 then 1 else if a = 0 then 0 else -1

theorem norm_legal (d : List Int) : Legal (d.map norm) := by
  intro a ha
  obtain ⟨b, -, rfl⟩ := List.mem_map.1 ha
  unfold norm
  by_cases h : b = 1
  · simp [h]
  · by_cases h0 : b = 0 <;> simp [h, h0]

theorem forIdx_map {α β σ : Type} (g : α → β) (F : Nat → β → σ → σ) (l : List α) : ∀ k s, forIdx F k (l.map g) s = forIdx (fun i a => F i (g a)) k l s := by
  induction l with
  | nil => intro k s; rfl
  | cons a as ih => intro k s; simp [forIdx, ih]

theorem decideForm_norm (f : StdForm ℝ) (d : List Int) : decideForm f (d.map norm) = decideForm f d := by
  have h1 : ∀ a, decLo (norm a) = decLo a := by
    intro a; unfold norm decLo; by_cases h : a = 1 <;> by_cases h0 : a = 0 <;> simp [h, h0]
  have h2 : ∀ a, decUp (norm a) = decUp a := by
    intro a; unfold norm decUp; by_cases h : a = 1 <;> by_cases h0 : a = 0 <;> simp [h, h0]
  unfold decideForm
  rw [forIdx_map]
  simp only [h1, h2]

theorem agrees_norm (bins : List Nat) (d : List Int) (x : Nat → ℝ) : Agrees bins (d.map norm) x ↔ Agrees bins d x := by
  have h1 : ∀ a, norm a = 1 ↔ a = 1 := by
    intro a; unfold norm; by_cases h : a = 1 <;> by_cases h0 : a = 0 <;> simp [h, h0]
  have h2 : ∀ a, norm a = 0 ↔ a = 0 := by
    intro a; unfold norm; by_cases h : a = 1 <;> by_cases h0 : a = 0 <;> simp [h, h0]
  unfold Agrees
  simp [h1, h2]

theorem bnbCost_one (f : StdForm ℝ) (x : Nat → ℝ) : bnbCost f (fun _ => 1) x = f.cost x := by
  simp [bnbCost, StdForm.cost]

theorem accepted_of_usable {c : BnB.Code} (h : BnB.Usable c) : BnB.accepted c = true := by
  by_contra h'
  exact BnB.not_usable_of (by simpa using h') h

theorem rejected_of_not_usable {c : BnB.Code} (h : ¬ BnB.Usable c) : BnB.accepted c = false := by
  by_contra h'
  exact h (BnB.usable_of (by simpa using h'))

theorem accepted_of_optimal {c : BnB.Code} (h : BnB.isOptimal c = true) : BnB.accepted c = true := by
  cases c <;> simp_all [BnB.isOptimal, BnB.accepted]

/-- Best cost for an assignment of the binaries. -/
noncomputable def bestCost (f : StdForm ℝ) (bins : List Nat) (a : Fin bins.length → Bool) : EReal :=
  ⨅ y : {y : Nat → ℝ // f.Feasible y ∧ ∀ i : Fin bins.length, y bins[i] = if a i then 1 else 0}, (f.cost y.1 : EReal)

/-- Branch and bound on a standard form whose branches are right, with a solver that is exact. -/
theorem bnb_exact (f : StdForm ℝ) (bins : List Nat)
    (hbr : ∀ d : List Int, d.length = bins.length → ∀ x, (decideForm f d).Feasible x ↔ f.Feasible x ∧ Agrees bins d x)
    (hun : ∀ x, f.Feasible x → ∀ i (h : i < bins.length), 0 ≤ x bins[i] ∧ x bins[i] ≤ 1)
    (ip : Nat → StdForm ℝ → BnB.Code × (Nat → ℝ)) (hip : ExactIp f bins.length ip) (c : BnB.Setting) (hgap : 0 ≤ c.absGap) (htol : 0 < c.intTol)
    (nodes0 : Nat → BnB.Node bins.length) (opt0 : Nat → ℝ) :
    (∀ e, ¬ BnB.Run (oracle f bins (fun _ => 1) ip) c nodes0 opt0 (.error e)) ∧
    (∀ code s, BnB.Run (oracle f bins (fun _ => 1) ip) c nodes0 opt0 (.ok (code, s)) →
      (code = .optimal ∨ code = .optimalInacc → f.Feasible s.opt ∧ ∀ i (h : i < bins.length), |s.opt bins[i]| < c.intTol ∨ |s.opt bins[i] - 1| < c.intTol) ∧
      (code = .optimal → (∀ y, f.Feasible y → Integral bins y → f.cost s.opt ≤ f.cost y) ∨
        ∃ L : ℝ, (∀ y, f.Feasible y → Integral bins y → L ≤ f.cost y) ∧ (f.cost s.opt - L ≤ c.absGap ∨ |f.cost s.opt / L - 1| ≤ c.relGap)) ∧
      (code = .primalInf → ∀ y, f.Feasible y → ¬ Integral bins y)) := by
  set O := oracle f bins (fun _ => 1) ip with hO
  have hobj : ∀ x, O.obj x = f.cost x := fun x => bnbCost_one f x
  have hsolve : ∀ k (d : Fin bins.length → Int), O.solve k d = ip k (decideForm f ((List.ofFn d).map norm)) := by
    intro k d; rw [decideForm_norm]; rfl
  have hfe : ∀ (d : Fin bins.length → Int) x, (decideForm f ((List.ofFn d).map norm)).Feasible x ↔
      f.Feasible x ∧ ∀ i, (d i = 1 → x bins[i] = 1) ∧ (d i = 0 → x bins[i] = 0) := by
    intro d x
    rw [decideForm_norm, hbr _ (by simp)]
    refine and_congr Iff.rfl ⟨fun h i => ?_, fun h i hi hi' => ?_⟩
    · have := h i i.2 (by simp)
      simpa using this
    · simpa using h ⟨i, hi⟩
  have hcost : ∀ (d : Fin bins.length → Int) x, (decideForm f ((List.ofFn d).map norm)).cost x = f.cost x := fun d x => rfl
  have hacc : ∀ k (d : Fin bins.length → Int), BnB.accepted (O.solve k d).1 = true →
      (f.Feasible (O.solve k d).2 ∧ ∀ i, (d i = 1 → (O.solve k d).2 bins[i] = 1) ∧ (d i = 0 → (O.solve k d).2 bins[i] = 0)) ∧
      ∀ y, f.Feasible y → (∀ i, (d i = 1 → y bins[i] = 1) ∧ (d i = 0 → y bins[i] = 0)) → f.cost (O.solve k d).2 ≤ f.cost y := by
    intro k d h
    rw [hsolve] at h ⊢
    obtain ⟨h1, -⟩ := hip k _ (by simp) (norm_legal (List.ofFn d))
    obtain ⟨a, b⟩ := h1 (BnB.usable_of h)
    refine ⟨(hfe d _).1 a, fun y hy hy' => ?_⟩
    have := b y ((hfe d y).2 ⟨hy, hy'⟩)
    rwa [hcost, hcost] at this
  have hrej : ∀ k (d : Fin bins.length → Int), BnB.accepted (O.solve k d).1 = false →
      ∀ y, f.Feasible y → ¬ ∀ i, (d i = 1 → y bins[i] = 1) ∧ (d i = 0 → y bins[i] = 0) := by
    intro k d h y hy hy'
    rw [hsolve] at h
    exact (hip k _ (by simp) (norm_legal (List.ofFn d))).2 (BnB.not_usable_of h) y ((hfe d y).2 ⟨hy, hy'⟩)
  have hA : BnB.Accurate O 0 := by
    intro k d h v
    obtain ⟨⟨a, b⟩, -⟩ := hacc k d (accepted_of_usable h)
    obtain ⟨u1, u2⟩ := hun _ a v v.2
    have e : O.bin (O.solve k d).2 v = (O.solve k d).2 bins[v] := rfl
    rw [e]
    refine ⟨fun h => ?_, fun h => ?_, by simpa using u1, by simpa using u2⟩
    · rw [(b v).1 h]; simp
    · rw [(b v).2 h]; simp
  have hbox : ∀ (d : Fin bins.length → Int) a, BnB.Box d a → ∀ y : Nat → ℝ, (∀ i : Fin bins.length, y bins[i] = if a i then 1 else 0) →
      ∀ i : Fin bins.length, (d i = 1 → y bins[i] = 1) ∧ (d i = 0 → y bins[i] = 0) := by
    intro d a hb y hy i
    have hyi := hy i
    rcases hb i with h | h
    · rw [h]; norm_num
    · rw [h, hyi]; cases a i <;> simp
  have hV : BnB.ValidRelaxation O (bestCost f bins) := by
    intro k d a hb
    refine ⟨fun h => ?_, fun h => ?_⟩
    · rw [hobj]
      refine le_iInf fun y => ?_
      exact_mod_cast (hacc k d (accepted_of_usable h)).2 y.1 y.2.1 (hbox d a hb y.1 y.2.2)
    · unfold bestCost
      rw [iInf_eq_top]
      intro y
      exact absurd (hbox d a hb y.1 y.2.2) (hrej k d (rejected_of_not_usable h) y.1 y.2.1)
  have hle : ∀ y, f.Feasible y → Integral bins y → ∃ a, bestCost f bins a ≤ (f.cost y : EReal) := by
    intro y hy hi
    classical
    refine ⟨fun i => Decidable.decide (y bins[i] = 1), iInf_le_of_le ⟨y, hy, fun i => ?_⟩ le_rfl⟩
    rcases hi bins[i] (List.getElem_mem _) with h | h
    · simp only [Fin.getElem_fin] at h ⊢; simp [h]
    · simp only [Fin.getElem_fin] at h ⊢; simp [h]
  refine ⟨(BnB.C24_partition_partial O c hgap nodes0 opt0).2 0 hA htol (by norm_num) |>.2, fun code s hrun => ⟨fun hcode => ?_, fun hcode => ?_, fun hcode => ?_⟩⟩
  · obtain ⟨k, hk, -⟩ := (BnB.C26_incumbent_partial O c hgap nodes0 opt0 code s hrun).1 hcode
    cases hrun with
    | done h hc =>
      obtain ⟨k, d, hd, hs, hcase⟩ := BnB.log_source hgap h _ hk
      have hac : BnB.accepted (O.solve k d).1 = true := by
        rcases hcase with h | h
        · exact h.1
        · exact accepted_of_optimal h.1
      obtain ⟨⟨a, b⟩, -⟩ := hacc k d hac
      rw [hs] at a b
      refine ⟨a, fun i hi => ?_⟩
      obtain ⟨u1, u2⟩ := hun _ a i hi
      rcases hcase with ⟨-, h2⟩ | ⟨-, k', d', hd', hac', e⟩
      · have := h2 ⟨i, hi⟩
        have e : O.bin s.opt ⟨i, hi⟩ = s.opt bins[i] := rfl
        rw [e] at this
        rcases BnB.cround_cases (ε := 0) (by norm_num) (by simpa using u1) (by simpa using u2) with ⟨h, -⟩ | ⟨h, -⟩
        · left; rw [h] at this; simpa using this
        · right; rw [h] at this; simpa using this
      · obtain ⟨⟨a', b'⟩, -⟩ := hacc k' d' hac'
        obtain ⟨v1, v2⟩ := hun _ a' i hi
        have hb := b ⟨i, hi⟩
        rw [e] at hb
        have e' : O.bin (O.solve k' d').2 ⟨i, hi⟩ = (O.solve k' d').2 bins[i] := rfl
        simp only [e'] at hb
        rcases BnB.cround_cases (ε := 0) (by norm_num) (by simpa using v1) (by simpa using v2) with ⟨h, -⟩ | ⟨h, -⟩
        · left
          have := hb.2 h
          simp only [Fin.getElem_fin] at this
          rw [this]; simpa using htol
        · right
          have := hb.1 h
          simp only [Fin.getElem_fin] at this
          rw [this]; simpa using htol
  · obtain ⟨-, hB⟩ := BnB.C25_bounds O c hgap nodes0 opt0
    obtain ⟨-, -, -, h4, h5⟩ := hB code s hrun
    obtain ⟨u, hu, hobj', hcase⟩ := h5 hcode
    rw [hobj] at hobj'
    subst hobj'
    rcases hcase with h | ⟨L, hL, h⟩
    · left
      intro y hy hi
      obtain ⟨a, ha⟩ := hle y hy hi
      exact_mod_cast h.trans ((h4 _ hV a).trans ha)
    · right
      refine ⟨L, fun y hy hi => ?_, h⟩
      obtain ⟨a, ha⟩ := hle y hy hi
      have := (h4 _ hV a).trans ha
      rw [hL] at this
      exact_mod_cast this
  · intro y hy hint
    obtain ⟨a, ha⟩ := hle y hy hint
    have hne : bestCost f bins a ≠ ⊤ := fun h => by rw [h] at ha; exact absurd ha (by simp)
    obtain ⟨-, hB⟩ := BnB.C25_bounds O c hgap nodes0 opt0
    obtain ⟨-, -, -, h4, -⟩ := hB code s hrun
    have hlb := h4 _ hV a
    have hlt : s.lb ≠ ⊤ := fun h => hne (top_le_iff.1 (h ▸ hlb))
    cases hrun with
    | done h hc =>
      have hI := BnB.inv_reach hgap h
      unfold BnB.exitcode at hcode
      by_cases hit : (s.iteration : Int) < c.maxIters - 1
      · rw [if_pos hit] at hcode
        by_cases ht : s.ub = ⊤
        · have hn : s.nodeId = none := by
            by_contra hn
            apply hc
            refine ⟨?_, ?_, hn, hit⟩
            · unfold BnB.absExceeds
              rw [ht, EReal.top_sub hlt]
              exact EReal.coe_lt_top _
            · unfold BnB.relExceeds
              rw [if_pos ht]; exact hlt
          obtain ⟨i, hi, hb⟩ := hI.covers a
          have := BnB.valid_nodes hgap hV h i hi a hb
          rcases hI.solved i hi with h' | h'
          · exact hI.nidNone hn i hi h'.1
          · rw [ht] at h'
            rw [top_le_iff.1 h'.2] at this
            exact hne (top_le_iff.1 this)
        · rw [if_neg ht] at hcode
          split at hcode <;> cases hcode
      · rw [if_neg hit] at hcode
        split at hcode
        · cases hcode
        · split at hcode <;> cases hcode

/-- C194: for every mixed-binary program without trust-region and soft constraints, with an exact interior point solver and without equilibration,
branch and bound never faults; with exit code Optimal the returned point satisfies all constraints of the user, its binaries are within the tolerance
of 0 or 1, and its objective exceeds a lower bound `L` of the objective of all integral points by at most the configured gap; exit code PrimalInf means
that no integral point satisfies the constraints. Missing: an interior point solver that reports infeasibility (`C194_violated`); costs under
equilibration (`C193_violated`). -/
theorem C194_optimal_partial (ops : List Op) (hok : ApiState.init.AllOk ops) (hone : OneObj ops)
    (hreg : ∀ op ∈ ops, op.Regular) (hsoft : ∀ q s l ap, Op.addQua q s l ap ∈ ops → ap = .none)
    (q : QuadExpr ℝ) (l : LinExpr ℝ) (hobj : Op.setObj q l ∈ ops)
    (hw : ∀ t ∈ q.quad, 0 ≤ t.1) (x0 : Nat → ℝ) (thr w : ℝ) (hw0 : 0 ≤ w) (f : StdForm ℝ)
    (hf : (ApiState.init.run ops).p.build x0 thr w false = some f)
    (ip : Nat → StdForm ℝ → BnB.Code × (Nat → ℝ)) (hip : ExactIp f (ApiState.init.run ops).p.bins.length ip)
    (c : BnB.Setting) (hgap : 0 ≤ c.absGap) (htol : 0 < c.intTol) (hrel : c.relGap < 1)
    (nodes0 : Nat → BnB.Node (ApiState.init.run ops).p.bins.length) (opt0 : Nat → ℝ) :
    (∃ code s, BnB.Run (oracle f (ApiState.init.run ops).p.bins (fun _ => 1) ip) c nodes0 opt0 (.ok (code, s))) ∧
    (∀ e, ¬ BnB.Run (oracle f (ApiState.init.run ops).p.bins (fun _ => 1) ip) c nodes0 opt0 (.error e)) ∧
    (∀ code s, BnB.Run (oracle f (ApiState.init.run ops).p.bins (fun _ => 1) ip) c nodes0 opt0 (.ok (code, s)) →
      (code = .optimal ∨ code = .optimalInacc → (∀ op ∈ ops, op.Holds x0 thr false s.opt) ∧
        ∀ v ∈ (ApiState.init.run ops).p.bins, |s.opt v| < c.intTol ∨ |s.opt v - 1| < c.intTol) ∧
      (code = .optimal →
        ∃ L : ℝ, (∀ y, (∀ op ∈ ops, op.Holds x0 thr false y) → Integral (ApiState.init.run ops).p.bins y → L + (q.lin.const + l.const) ≤ userObj q l y) ∧
          userObj q l s.opt ≤ L + (q.lin.const + l.const) + max c.absGap (c.relGap * |L|)) ∧
      (code = .primalInf → ∀ y, (∀ op ∈ ops, op.Holds x0 thr false y) → ¬ Integral (ApiState.init.run ops).p.bins y)) := by
  have hi := inv_reachable ops hok hone
  have hbo := binsOk_run ops _ binsOk_init
  obtain ⟨f', hf', he⟩ := C07_standard_form ops hok hone hreg x0 thr w false
  obtain rfl : f = f' := Option.some.inj (hf.symm.trans hf')
  have hbr : ∀ d : List Int, d.length = (ApiState.init.run ops).p.bins.length → ∀ x, (decideForm f d).Feasible x ↔
      f.Feasible x ∧ Agrees (ApiState.init.run ops).p.bins d x := by
    intro d hd x
    obtain ⟨g, g', hg, -, hx⟩ := C192_branch ops hok hone x0 thr w false (d.map norm) (by simpa using hd) (norm_legal d)
    obtain rfl : f = g := Option.some.inj (hf.symm.trans hg)
    rw [← decideForm_norm, ← agrees_norm]
    exact (hx x).2.1
  have hun : ∀ x, f.Feasible x → ∀ i (h : i < (ApiState.init.run ops).p.bins.length),
      0 ≤ x (ApiState.init.run ops).p.bins[i] ∧ x (ApiState.init.run ops).p.bins[i] ≤ 1 := by
    intro x hx i h
    obtain ⟨r, hr, ht⟩ := (hbo _).1 (List.getElem_mem h)
    exact ((he x).2 ⟨x, fun _ _ => rfl, hx⟩).2 _ r hr ht
  obtain ⟨m1, m2⟩ := bnb_exact f _ hbr hun ip hip c hgap htol nodes0 opt0
  have hpen : ∀ y, penalised ops q l w false x0 y = userObj q l y := by
    intro y
    have : (ops.map (Op.softTerm x0 y)).sum = 0 := by
      apply List.sum_eq_zero
      intro t ht
      obtain ⟨o, ho, rfl⟩ := List.mem_map.1 ht
      cases o with
      | addQua q' s' l' ap => have := hsoft q' s' l' ap ho; subst this; rfl
      | addVar => rfl
      | addLin => rfl
      | addSoc => rfl
      | setObj => rfl
    simp [penalised, userObj, this]
  -- every integral user point is a feasible integral point of the same cost
  have lift : ∀ y, (∀ op ∈ ops, op.Holds x0 thr false y) → Integral (ApiState.init.run ops).p.bins y →
      ∃ z, f.Feasible z ∧ Integral (ApiState.init.run ops).p.bins z ∧ f.cost z = userObj q l y - (q.lin.const + l.const) := by
    intro y hy hint
    have hb : (ApiState.init.run ops).p.BinaryInUnit y := by
      intro v r hr ht
      rcases hint v ((hbo v).2 ⟨r, hr, ht⟩) with h | h <;> rw [h] <;> norm_num
    obtain ⟨y', hy', hfy'⟩ := (he y).1 ⟨hy, hb⟩
    obtain ⟨-, z, hz, hzu, hc⟩ := C08_objective ops hok hone hreg q l hobj hw x0 thr w hw0 false f hf y' hfy'
    refine ⟨z, hz, fun v hv => ?_, ?_⟩
    · rw [hzu v (hi.bins v hv), hy' v (hi.bins v hv)]; exact hint v hv
    · rw [hc, penalised_congr ops hok q l hobj x0 w false hy', hpen]
  refine ⟨?_, m1, fun code s hrun => ?_⟩
  · obtain ⟨r, hr⟩ := BnB.exists_run (oracle f (ApiState.init.run ops).p.bins (fun _ => 1) ip) c nodes0 opt0
    cases r with
    | error e => exact absurd hr (m1 e)
    | ok a => exact ⟨a.1, a.2, hr⟩
  obtain ⟨k1, k2, k3⟩ := m2 code s hrun
  refine ⟨fun hcode => ?_, fun hcode => ?_, fun hcode y hy hint => ?_⟩
  · obtain ⟨a, b⟩ := k1 hcode
    refine ⟨((he s.opt).2 ⟨s.opt, fun _ _ => rfl, a⟩).1, fun v hv => ?_⟩
    obtain ⟨i, hi', rfl⟩ := List.getElem_of_mem hv
    exact b i hi'
  · obtain ⟨a, -⟩ := k1 (.inl hcode)
    have hlow := (C08_objective ops hok hone hreg q l hobj hw x0 thr w hw0 false f hf s.opt a).1
    rw [hpen] at hlow
    rcases k2 hcode with h | ⟨L, h, hg⟩
    · refine ⟨f.cost s.opt, fun y hy hint => ?_, ?_⟩
      · obtain ⟨z, z1, z2, z3⟩ := lift y hy hint
        have := h z z1 z2
        linarith
      · have : 0 ≤ max c.absGap (c.relGap * |f.cost s.opt|) := le_max_of_le_left hgap
        linarith
    · refine ⟨L, fun y hy hint => ?_, ?_⟩
      · obtain ⟨z, z1, z2, z3⟩ := lift y hy hint
        have := h z z1 z2
        linarith
      · have hcost : f.cost s.opt ≤ L + max c.absGap (c.relGap * |L|) := by
          rcases hg with hg | hg
          · have := le_max_left c.absGap (c.relGap * |L|); linarith
          · have hm := le_max_right c.absGap (c.relGap * |L|)
            rcases lt_trichotomy L 0 with hL | hL | hL
            · rw [abs_le] at hg
              have h1 : 1 - c.relGap ≤ f.cost s.opt / L := by linarith [hg.1]
              rw [le_div_iff_of_neg hL] at h1
              rw [abs_of_neg hL] at hm ⊢
              linarith
            · rw [hL] at hg
              norm_num at hg
              linarith
            · rw [abs_le] at hg
              have h1 : f.cost s.opt / L ≤ 1 + c.relGap := by linarith [hg.2]
              rw [div_le_iff₀ hL] at h1
              rw [abs_of_pos hL] at hm ⊢
              linarith
        linarith
  · obtain ⟨z, z1, z2, z3⟩ := lift y hy hint
    exact k3 hcode z z1 z2

/-- C194 is false of the code: whenever the interior point solver answers "primal infeasible" at the root with integral entries for the binaries, branch
and bound reports Optimal and returns that vector, whatever the problem; in particular for an infeasible one. -/
theorem C194_violated :
    (∀ (f : StdForm ℝ) (bins : List Nat) (e : Nat → ℝ) (ip : Nat → StdForm ℝ → BnB.Code × (Nat → ℝ)) (c : BnB.Setting), 0 ≤ c.absGap → 0 < c.intTol →
      1 < c.maxIters → (ip 0 (decideForm f (List.replicate bins.length (-1)))).1 = .primalInf →
      (∀ v ∈ bins, (ip 0 (decideForm f (List.replicate bins.length (-1)))).2 v = 0) →
      ∀ nodes0 opt0, ∃ s, BnB.Run (oracle f bins e ip) c nodes0 opt0 (.ok (.optimal, s)) ∧
        s.opt = (ip 0 (decideForm f (List.replicate bins.length (-1)))).2) ∧
    ∃ ops : List Op, ApiState.init.AllOk ops ∧ OneObj ops ∧ (∀ op ∈ ops, op.Regular) ∧ (ApiState.init.run ops).p.bins = [0] ∧
      ∀ x, ¬ ((∀ op ∈ ops, op.Holds (fun _ => 0) 0 false x) ∧ (ApiState.init.run ops).p.BinaryInUnit x) := by
  constructor
  · intro f bins e ip c hgap htol hit hcode hint nodes0 opt0
    have hs : (oracle f bins e ip).solve 0 (fun _ => -1) = ip 0 (decideForm f (List.replicate bins.length (-1))) := by
      simp [oracle, List.ofFn_const]
    have hb : ∀ i, (oracle f bins e ip).bin (ip 0 (decideForm f (List.replicate bins.length (-1)))).2 i = 0 :=
      fun i => hint _ (List.getElem_mem _)
    have hcr : BnB.cround 0 = 0 := by norm_num [BnB.cround]
    have hroot : ∃ s, BnB.root (oracle f bins e ip) c nodes0 opt0 = .ok s ∧ s.opt = (ip 0 (decideForm f (List.replicate bins.length (-1)))).2 ∧
        s.lb = s.ub ∧ s.iteration = 0 ∧ ∃ u : ℝ, s.ub = u := by
      have hl : BnB.legal (fun _ : Fin bins.length => (-1 : Int)) := fun v => by simp
      unfold BnB.root BnB.updateNodeBounds
      simp only [hs, hcode, BnB.accepted, hb, hcr, hl, not_true_eq_false, if_false, if_true, Int.cast_zero, sub_zero, abs_zero, htol, implies_true,
        bind, Except.bind, EReal.coe_lt_top]
      refine ⟨_, rfl, ?_, ?_, rfl, ?_⟩
      · simp
      · simp
      · simp
    obtain ⟨s, h1, h2, h3, h4, u, h5⟩ := hroot
    have hR : BnB.Reach (oracle f bins e ip) c nodes0 opt0 s := .root h1
    have hc : ¬ BnB.check c s := by
      intro hc
      have := hc.1
      unfold BnB.absExceeds at this
      rw [h3, h5, ← EReal.coe_sub, sub_self] at this
      have : c.absGap < 0 := by exact_mod_cast this
      linarith
    have hx : BnB.exitcode c s = .optimal := by
      unfold BnB.exitcode
      rw [h4, h5, if_pos (by push_cast; omega), if_neg (EReal.coe_ne_top _), if_neg (EReal.coe_ne_bot _)]
    exact ⟨s, hx ▸ .done hR hc, h2⟩
  · refine ⟨[.addVar .binary 0 1 0, .addLin ⟨0, [(0, 1)]⟩ ">" ⟨2, []⟩], ?_, ?_, ?_, ?_, ?_⟩
    · simp [ApiState.AllOk, Op.Ok, ApiState.step, ApiState.init, Problem.addVar, h10, Problem.pushVar, Problem.empty, LinExpr.Over]
    · simp [OneObj, Op.isObj, List.filter_cons]
    · simp [Op.Regular, LinExpr.sub, LinExpr.mul, LinExpr.addAssign, LinExpr.clean, LinExpr.cleanStep]
    · simp [ApiState.run, ApiState.step, ApiState.init, Problem.addVar, h10, Problem.pushVar, Problem.empty, Problem.addLinConstr]
    · rintro x ⟨h, hb⟩
      have h1 := h (.addLin ⟨0, [(0, 1)]⟩ ">" ⟨2, []⟩) (by simp)
      have h2 := hb 0 ⟨.binary, 0, 1, 0⟩ (by
        simp [ApiState.run, ApiState.step, ApiState.init, Problem.addVar, h10, Problem.pushVar, Problem.empty, Problem.addLinConstr, Problem.clampGuess]) rfl
      simp [Op.Holds, LinExpr.getValue, LinExpr.sumLoop] at h1
      linarith [h2.2]

/-- A program with one binary variable: minimise `x` subject to `x ≥ 1/2`. -/
noncomputable def exOps : List Op := [.addVar .binary 0 1 0, .addLin ⟨0, [(0, 1)]⟩ ">" ⟨1/2, []⟩, .setObj ⟨⟨0, []⟩, []⟩ ⟨0, [(0, 1)]⟩]

theorem exOps_ok : ApiState.init.AllOk exOps ∧ OneObj exOps ∧ (∀ op ∈ exOps, op.Regular) ∧ (ApiState.init.run exOps).p.bins = [0] := by
  refine ⟨?_, ?_, ?_, ?_⟩
  · simp [exOps, ApiState.AllOk, Op.Ok, ApiState.step, ApiState.init, Problem.addVar, h10, Problem.pushVar, Problem.empty,
      LinExpr.Over, QuadExpr.Over]
  · simp [exOps, OneObj, Op.isObj, List.filter_cons]
  · simp [exOps, Op.Regular, LinExpr.sub, LinExpr.mul, LinExpr.addAssign, LinExpr.clean, LinExpr.cleanStep]
  · simp [exOps, ApiState.run, ApiState.step, ApiState.init, Problem.addVar, h10, Problem.pushVar, Problem.empty, Problem.addLinConstr,
      Problem.setObjective, Problem.addExtras]

theorem exOps_holds (x : Nat → ℝ) : (∀ op ∈ exOps, op.Holds (fun _ => 0) 0 false x) ↔ 1/2 ≤ x 0 := by
  simp [exOps, Op.Holds, LinExpr.getValue, LinExpr.sumLoop]

/-- Non-vacuity of C194: an exact interior point solver for `exOps`. -/
example : ∃ f ip, (ApiState.init.run exOps).p.build (fun _ => 0) 0 0 false = some f ∧ ExactIp f (ApiState.init.run exOps).p.bins.length ip ∧
    (∀ q s l ap, Op.addQua q s l ap ∈ exOps → ap = .none) := by
  obtain ⟨hok, hone, hreg, hbins⟩ := exOps_ok
  obtain ⟨f, hf, he⟩ := C07_standard_form exOps hok hone hreg (fun _ => 0) 0 0 false
  have hcost : ∀ x, f.cost x = x 0 := by
    intro x
    rw [build_some _ (inv_reachable exOps hok hone).wf.shape] at hf
    obtain rfl := Option.some.inj hf
    simp [StdForm.cost, exOps, ApiState.run, ApiState.step, ApiState.init, Problem.addVar, h10, Problem.pushVar, Problem.empty, Problem.addLinConstr,
      Problem.setObjective, Problem.addExtras, Problem.buildC, LinExpr.add, LinExpr.addAssign, LinExpr.clean, LinExpr.cleanStep]
  have hfe : ∀ x, f.Feasible x → 1/2 ≤ x 0 := by
    intro x hx
    exact (exOps_holds x).1 ((he x).2 ⟨x, fun _ _ => rfl, hx⟩).1
  have hfe' : ∀ t : ℝ, 1/2 ≤ t → t ≤ 1 → ∃ x, x 0 = t ∧ f.Feasible x := by
    intro t h1 h2
    obtain ⟨x, hx, hf⟩ := (he (fun _ => t)).1 ⟨(exOps_holds _).2 h1, fun v r _ _ => ⟨by linarith, h2⟩⟩
    refine ⟨x, ?_, hf⟩
    exact hx 0 (by simp [exOps, ApiState.run, ApiState.step, ApiState.init, Problem.addVar, h10, Problem.pushVar, Problem.empty])
  obtain ⟨xh, e1, f1⟩ := hfe' (1/2) (by norm_num) (by norm_num)
  obtain ⟨xo, e2, f2⟩ := hfe' 1 (by norm_num) (by norm_num)
  classical
  refine ⟨f, fun _ g => if g.ineq.rhs 1 = 0 then (.indeterminate, xh) else if g.ineq.rhs 0 = -1 then (.optimal, xo) else (.optimal, xh), hf, ?_, ?_⟩
  · intro k d hd hl
    obtain ⟨g, g', hg, -, hx⟩ := C192_branch exOps hok hone (fun _ => 0) 0 0 false d hd hl
    obtain rfl : f = g := Option.some.inj (hf.symm.trans hg)
    have hb : ∀ x, (decideForm f d).Feasible x ↔ f.Feasible x ∧ Agrees (ApiState.init.run exOps).p.bins d x := fun x => (hx x).2.1
    have hc : ∀ x, (decideForm f d).cost x = x 0 := fun x => by rw [(hx x).2.2.2, hcost]
    rw [hbins] at hd hb
    obtain ⟨a, rfl⟩ : ∃ a, d = [a] := List.length_eq_one_iff.1 hd
    have hag : ∀ x, Agrees [0] [a] x ↔ (a = 1 → x 0 = 1) ∧ (a = 0 → x 0 = 0) := by
      intro x
      constructor
      · intro h; exact h 0 (by simp) (by simp)
      · intro h i hi hi'
        have : i = 0 := by simpa using hi
        subst this; exact h
    have r0 : (decideForm f [a]).ineq.rhs 0 = decLo a := by
      simp [decideForm, forIdx, Sys.set, Function.update]
    have r1 : (decideForm f [a]).ineq.rhs 1 = decUp a := by
      simp [decideForm, forIdx, Sys.set, Function.update]
    simp only [r0, r1, hc]
    simp only [hb, hag]
    rcases hl a (by simp) with h | h | h <;> subst h <;> norm_num [decLo, decUp, BnB.Usable]
    · exact ⟨⟨f2, e2⟩, fun y _ hy => by rw [e2, hy]⟩
    · refine ⟨fun h => by simp at h, fun _ _ _ _ _ _ _ y hy h => ?_⟩
      have := hfe y hy
      rw [h] at this; norm_num at this
    · exact ⟨f1, fun y hy => by rw [e1]; exact hfe y hy⟩
  · simp [exOps]

/-! ### C193 -/

/-- The storage of the solver holds the data of the standard form. -/
def Rep (c : Cone) (S : Equil.Storage) (f : StdForm ℝ) : Prop :=
  c = ⟨f.nvars, f.nleq, f.nlineq, f.q⟩ ∧ Equil.Fits c S ∧
  (∀ x r, r < f.nleq → Equil.act S.A x r = f.eq.act x r) ∧ (∀ x r, r < f.nlineq + f.q.sum → Equil.act S.G x r = f.ineq.act x r) ∧
  (∀ v < f.nvars, S.cbh v = f.c v) ∧ (∀ r < f.nleq, S.cbh (f.nvars + r) = f.eq.rhs r) ∧
  (∀ r < f.nlineq + f.q.sum, S.cbh (f.nvars + f.nleq + r) = f.ineq.rhs r)

/-- C193, what holds: the value compared by branch and bound is the stored cost of the returned vector; it is the cost of the problem without
equilibration, and in general when the scaling of every variable with a cost is 1. Missing: `C193_violated`. -/
theorem C193_cost_partial (c : Cone) (S : Equil.Storage) (f : StdForm ℝ) (hr : Rep c S f) (iters : Nat) (x : Nat → ℝ) :
    bnbCost f (Equil.setEquilibration c iters S).2 x =
      ((List.range f.nvars).map (fun v => (Equil.setEquilibration c iters S).1.cbh v * x v)).sum ∧
    bnbCost f (Equil.setEquilibration c 0 S).2 x = f.cost x ∧
    ((∀ v < f.nvars, f.c v ≠ 0 → (Equil.setEquilibration c iters S).2 v = 1) → bnbCost f (Equil.setEquilibration c iters S).2 x = f.cost x) := by
  obtain ⟨rfl, -, -, -, hc, -, -⟩ := hr
  refine ⟨?_, ?_, fun h => ?_⟩
  · unfold bnbCost
    congr 1
    apply List.map_congr_left
    intro v hv
    have hv' : v < f.nvars := by simpa using hv
    have hcb : ∀ n (st : Equil.Storage × (Nat → ℝ)), (Equil.rounds (⟨f.nvars, f.nleq, f.nlineq, f.q⟩ : Cone) n st).1.cbh = st.1.cbh := by
      intro n
      induction n with
      | zero => intro st; rfl
      | succ n ih => intro st; rw [Equil.rounds, ih]; rfl
    simp only [Equil.setEquilibration]
    rw [if_pos (by unfold Cone.sizeproblem; simp only; omega), hcb, hc v hv']
  · simp [Equil.setEquilibration, Equil.rounds, bnbCost_one]
  · unfold bnbCost StdForm.cost
    congr 1
    apply List.map_congr_left
    intro v hv
    by_cases h0 : f.c v = 0
    · simp [h0]
    · rw [h v (by simpa using hv) h0, div_one]

/-- Two binaries: minimise `x + y/2` subject to `16 x + y ≥ 1`. -/
noncomputable def eqOps : List Op := [.addVar .binary 0 1 0, .addVar .binary 0 1 0, .addLin ⟨0, [(0, 16), (1, 1)]⟩ ">" ⟨1, []⟩,
    .setObj ⟨⟨0, []⟩, []⟩ ⟨0, [(0, 1), (1, 1/2)]⟩]

/-- Its inequality matrix after some rounds of equilibration. -/
noncomputable def eqG (a b : ℝ) : Equil.Sp := [[(0, -a), (1, a), (4, -1)], [(2, -1), (3, 1), (4, -b)]]

/-- Its sizes. -/
def eqCone : Cone := ⟨2, 0, 5, []⟩

/-- Its storage. -/
noncomputable def eqS : Equil.Storage := ⟨[[], []], [[(0, -1), (1, 1), (4, -16)], [(2, -1), (3, 1), (4, -1)]],
  fun k => if k = 0 then 1 else if k = 1 then 1/2 else if k = 3 then 1 else if k = 5 then 1 else if k = 6 then -1 else 0⟩

theorem root_one : Equil.rootOrOne 1 = 1 := by
  unfold Equil.rootOrOne
  rw [if_neg (by norm_num)]
  simp

theorem root_16 : Equil.rootOrOne 16 = 4 := by
  unfold Equil.rootOrOne
  rw [if_neg (by norm_num), show (16 : ℝ) = 4 ^ 2 by norm_num, Real.sqrt_sq (by norm_num)]

theorem roundVec_eqG (a b : ℝ) (ha : 0 < a) (ha1 : a ≤ 1) (hb : 0 < b) (hb1 : b ≤ 1) (cbh : Nat → ℝ) :
    (∀ k, k < 7 → Equil.roundVec eqCone ⟨[[], []], eqG a b, cbh⟩ k = if k = 2 ∨ k = 3 then Equil.rootOrOne a else 1) := by
  intro k hk
  have m1 : max a 1 = 1 := max_eq_right ha1
  have m2 : max 1 b = 1 := max_eq_left hb1
  have m3 : max b 1 = 1 := max_eq_right hb1
  interval_cases k <;>
  simp [Equil.roundVec, Equil.nnz, eqG, eqCone, Equil.maxRowsCols, Equil.maxCol, Equil.maxAbs, Equil.sumSocs, Cone.nsoc, Cone.wr, Cone.sizeproblem,
    Cone.sizeconstraints, Cone.sizecone, Cone.ssoc, Cone.lpconestart, List.range_succ, Function.update, abs_of_pos ha, abs_of_pos hb, m1, m2, m3, root_one, ha.le, hb.le,
    List.zipIdx]

theorem roundVec_eqS (cbh : Nat → ℝ) :
    (∀ k, k < 7 → Equil.roundVec eqCone ⟨[[], []], eqS.G, cbh⟩ k = if k = 0 ∨ k = 6 then 4 else 1) := by
  intro k hk
  interval_cases k <;>
  simp [Equil.roundVec, Equil.nnz, eqS, eqCone, Equil.maxRowsCols, Equil.maxCol, Equil.maxAbs, Equil.sumSocs, Cone.nsoc, Cone.wr, Cone.sizeproblem,
    Cone.sizeconstraints, Cone.sizecone, Cone.ssoc, Cone.lpconestart, List.range_succ, Function.update, root_one, root_16, List.zipIdx]

theorem root_le (a : ℝ) (ha : 0 < a) (ha1 : a ≤ 1) : 0 < a / Equil.rootOrOne a ∧ a / Equil.rootOrOne a ≤ 1 := by
  unfold Equil.rootOrOne
  split
  · simpa using ⟨ha, ha1⟩
  · have hs : 0 < Real.sqrt a := Real.sqrt_pos.2 ha
    refine ⟨div_pos ha hs, ?_⟩
    rw [div_le_one hs]
    exact Real.le_sqrt_of_sq_le (by nlinarith)

theorem round_eqG (a b : ℝ) (ha : 0 < a) (ha1 : a ≤ 1) (hb : 0 < b) (hb1 : b ≤ 1) (cbh v : Nat → ℝ) :
    (Equil.round eqCone (⟨[[], []], eqG a b, cbh⟩, v)).1 = ⟨[[], []], eqG (a / Equil.rootOrOne a) b, cbh⟩ ∧
    (Equil.round eqCone (⟨[[], []], eqG a b, cbh⟩, v)).2 0 = v 0 ∧ (Equil.round eqCone (⟨[[], []], eqG a b, cbh⟩, v)).2 1 = v 1 := by
  have h := roundVec_eqG a b ha ha1 hb hb1 cbh
  have h0 := h 0 (by norm_num)
  have h1 := h 1 (by norm_num)
  have h2 := h 2 (by norm_num)
  have h3 := h 3 (by norm_num)
  have h4 := h 4 (by norm_num)
  have h5 := h 5 (by norm_num)
  have h6 := h 6 (by norm_num)
  norm_num at h0 h1 h2 h3 h4 h5 h6
  simp only [Equil.round]
  generalize Equil.roundVec eqCone ⟨[[], []], eqG a b, cbh⟩ = e at *
  have hG : Equil.nnz (eqG a b) > 0 := by simp [Equil.nnz, eqG]
  rw [if_pos hG]
  refine ⟨?_, by rw [h0, mul_one], by rw [h1, mul_one]⟩
  simp [Equil.nnz, Equil.equilibrate, eqG, eqCone, Cone.lpconestart, h0, h1, h2, h3, h4, h5, h6, neg_div]

theorem round_eqS (v : Nat → ℝ) :
    (Equil.round eqCone (eqS, v)).1 = ⟨[[], []], eqG (1/4) (1/4), eqS.cbh⟩ ∧
    (Equil.round eqCone (eqS, v)).2 0 = v 0 * 4 ∧ (Equil.round eqCone (eqS, v)).2 1 = v 1 := by
  have h := roundVec_eqS eqS.cbh
  have h0 := h 0 (by norm_num)
  have h1 := h 1 (by norm_num)
  have h2 := h 2 (by norm_num)
  have h3 := h 3 (by norm_num)
  have h4 := h 4 (by norm_num)
  have h5 := h 5 (by norm_num)
  have h6 := h 6 (by norm_num)
  norm_num at h0 h1 h2 h3 h4 h5 h6
  simp only [Equil.round]
  change (Equil.Storage.mk (if Equil.nnz eqS.A > 0 then Equil.equilibrate eqCone.nvars 0 (Equil.roundVec eqCone ⟨[[], []], eqS.G, eqS.cbh⟩) eqS.A else eqS.A)
    (if Equil.nnz eqS.G > 0 then Equil.equilibrate eqCone.lpconestart 0 (Equil.roundVec eqCone ⟨[[], []], eqS.G, eqS.cbh⟩) eqS.G else eqS.G) eqS.cbh) = _ ∧
    v 0 * (Equil.roundVec eqCone ⟨[[], []], eqS.G, eqS.cbh⟩) 0 = _ ∧ v 1 * (Equil.roundVec eqCone ⟨[[], []], eqS.G, eqS.cbh⟩) 1 = _
  generalize Equil.roundVec eqCone ⟨[[], []], eqS.G, eqS.cbh⟩ = e at *
  have hG : Equil.nnz eqS.G > 0 := by simp [Equil.nnz, eqS]
  rw [if_pos hG]
  refine ⟨?_, by rw [h0], by rw [h1, mul_one]⟩
  simp [Equil.nnz, Equil.equilibrate, eqS, eqG, eqCone, Cone.lpconestart, h0, h1, h2, h3, h4, h5, h6]
  norm_num

/-- With any number of rounds the scaling of `x` is 4 and that of `y` is 1. -/
theorem equil_eqS (n : Nat) : (Equil.setEquilibration eqCone (n + 1) eqS).2 0 = 4 ∧ (Equil.setEquilibration eqCone (n + 1) eqS).2 1 = 1 := by
  have key : ∀ n a b (v : Nat → ℝ), 0 < a → a ≤ 1 → 0 < b → b ≤ 1 →
      (Equil.rounds eqCone n (⟨[[], []], eqG a b, eqS.cbh⟩, v)).2 0 = v 0 ∧ (Equil.rounds eqCone n (⟨[[], []], eqG a b, eqS.cbh⟩, v)).2 1 = v 1 := by
    intro n
    induction n with
    | zero => intro a b v _ _ _ _; exact ⟨rfl, rfl⟩
    | succ n ih =>
      intro a b v ha ha1 hb hb1
      obtain ⟨r1, r2, r3⟩ := round_eqG a b ha ha1 hb hb1 eqS.cbh v
      obtain ⟨l1, l2⟩ := root_le a ha ha1
      rw [Equil.rounds]
      have := ih (a / Equil.rootOrOne a) b (Equil.round eqCone (⟨[[], []], eqG a b, eqS.cbh⟩, v)).2 l1 l2 hb hb1
      rw [← r1] at this
      rw [r2, r3] at this
      exact this
  obtain ⟨r1, r2, r3⟩ := round_eqS (fun _ => 1)
  have := key n (1/4) (1/4) (Equil.round eqCone (eqS, fun _ => 1)).2 (by norm_num) (by norm_num) (by norm_num) (by norm_num)
  rw [← r1, r2, r3] at this
  simp only [Equil.setEquilibration, Equil.rounds]
  exact ⟨by rw [this.1]; norm_num, this.2⟩

/-- C193 is false of the code: in the problem `eqOps`, stored as it is and equilibrated with any positive number of rounds, the point `y = 1` has
the smaller objective and the point `x = 1` the smaller value in branch and bound; both are feasible and integral. -/
theorem C193_violated : ∃ ops : List Op, ApiState.init.AllOk ops ∧ OneObj ops ∧ (∀ op ∈ ops, op.Regular) ∧ ∃ f c S,
    (ApiState.init.run ops).p.build (fun _ => 0) 0 0 false = some f ∧ Rep c S f ∧ ∃ x y : Nat → ℝ,
      f.Feasible x ∧ f.Feasible y ∧ Integral (ApiState.init.run ops).p.bins x ∧ Integral (ApiState.init.run ops).p.bins y ∧ f.cost y = 1/2 ∧ f.cost x = 1 ∧
      ∀ iters, 1 ≤ iters → bnbCost f (Equil.setEquilibration c iters S).2 x = 1/4 ∧ bnbCost f (Equil.setEquilibration c iters S).2 y = 1/2 := by
  have hok : ApiState.init.AllOk eqOps := by
    simp [eqOps, ApiState.AllOk, Op.Ok, ApiState.step, ApiState.init, Problem.addVar, h10, Problem.pushVar, Problem.empty,
      LinExpr.Over, QuadExpr.Over]
  have hone : OneObj eqOps := by simp [eqOps, OneObj, Op.isObj, List.filter_cons]
  have hreg : ∀ op ∈ eqOps, op.Regular := by
    simp [eqOps, Op.Regular, LinExpr.sub, LinExpr.mul, LinExpr.addAssign, LinExpr.clean, LinExpr.cleanStep]
  have hi := inv_reachable eqOps hok hone
  set p := (ApiState.init.run eqOps).p with hp
  have pb : p.bins = [0, 1] := by simp [hp, eqOps, ApiState.run, ApiState.step, ApiState.init, Problem.addVar, h10, Problem.pushVar, Problem.empty, Problem.addLinConstr,
      Problem.setObjective, Problem.addExtras, LinExpr.sub, LinExpr.mul, LinExpr.addAssign, LinExpr.add, LinExpr.clean, LinExpr.cleanStep]
  have pl : p.binLo = [0, 0] := by simp [hp, eqOps, ApiState.run, ApiState.step, ApiState.init, Problem.addVar, h10, Problem.pushVar, Problem.empty, Problem.addLinConstr,
      Problem.setObjective, Problem.addExtras, LinExpr.sub, LinExpr.mul, LinExpr.addAssign, LinExpr.add, LinExpr.clean, LinExpr.cleanStep]
  have pu : p.binUp = [1, 1] := by simp [hp, eqOps, ApiState.run, ApiState.step, ApiState.init, Problem.addVar, h10, Problem.pushVar, Problem.empty, Problem.addLinConstr,
      Problem.setObjective, Problem.addExtras, LinExpr.sub, LinExpr.mul, LinExpr.addAssign, LinExpr.add, LinExpr.clean, LinExpr.cleanStep]
  have pv : p.vars.length = 2 := by simp [hp, eqOps, ApiState.run, ApiState.step, ApiState.init, Problem.addVar, h10, Problem.pushVar, Problem.empty, Problem.addLinConstr,
      Problem.setObjective, Problem.addExtras, LinExpr.sub, LinExpr.mul, LinExpr.addAssign, LinExpr.add, LinExpr.clean, LinExpr.cleanStep]
  have pe : p.leq = [] := by simp [hp, eqOps, ApiState.run, ApiState.step, ApiState.init, Problem.addVar, h10, Problem.pushVar, Problem.empty, Problem.addLinConstr,
      Problem.setObjective, Problem.addExtras, LinExpr.sub, LinExpr.mul, LinExpr.addAssign, LinExpr.add, LinExpr.clean, LinExpr.cleanStep]
  have pi : p.lineq = [⟨1, [(0, -16), (1, -1)]⟩] := by
    simp [hp, eqOps, ApiState.run, ApiState.step, ApiState.init, Problem.addVar, h10, Problem.pushVar, Problem.empty, Problem.addLinConstr,
      Problem.setObjective, Problem.addExtras, LinExpr.sub, LinExpr.mul, LinExpr.addAssign, LinExpr.add, LinExpr.clean, LinExpr.cleanStep]
  have pq : p.qineq = [] := by simp [hp, eqOps, ApiState.run, ApiState.step, ApiState.init, Problem.addVar, h10, Problem.pushVar, Problem.empty, Problem.addLinConstr,
      Problem.setObjective, Problem.addExtras, LinExpr.sub, LinExpr.mul, LinExpr.addAssign, LinExpr.add, LinExpr.clean, LinExpr.cleanStep]
  have ps : p.soc = [] := by simp [hp, eqOps, ApiState.run, ApiState.step, ApiState.init, Problem.addVar, h10, Problem.pushVar, Problem.empty, Problem.addLinConstr,
      Problem.setObjective, Problem.addExtras, LinExpr.sub, LinExpr.mul, LinExpr.addAssign, LinExpr.add, LinExpr.clean, LinExpr.cleanStep]
  have po : p.obj.extra = [] ∧ p.obj.quad = [] ∧ p.obj.lin = ⟨0, [(0, 1), (1, 1/2)]⟩ := by
    simp [hp, eqOps, ApiState.run, ApiState.step, ApiState.init, Problem.addVar, h10, Problem.pushVar, Problem.empty, Problem.addLinConstr,
      Problem.setObjective, Problem.addExtras, LinExpr.sub, LinExpr.mul, LinExpr.addAssign, LinExpr.add, LinExpr.clean, LinExpr.cleanStep]
  have hf := build_some p hi.wf.shape (fun _ => 0) 0 0 false
  set f : StdForm ℝ := { nvars := p.vars.length, nleq := p.leq.length, nlineq := p.nlineq false, q := p.coneSizes false, eq := forIdx eqBody 0 p.leq Sys.zero, ineq := p.buildIneq (fun _ => 0) 0 false, c := p.buildC 0 false } with hfd
  have hc0 : f.c 0 = 1 := by simp [hfd, Problem.buildC, po.1, po.2.1, po.2.2, pq]
  have hc1 : f.c 1 = 1/2 := by simp [hfd, Problem.buildC, po.1, po.2.1, po.2.2, pq]
  have hn : f.nvars = 2 := pv
  have hq : f.q = [] := by simp [hfd, Problem.coneSizes, Problem.mextra, po.1, po.2.1, pq, ps]
  have hm : f.nlineq = 5 := by simp [hfd, Problem.nlineq, Problem.countTrust, pb, pi, pq, ps]
  have he : f.nleq = 0 := by simp [hfd, pe]
  have hfeas : ∀ x : Nat → ℝ, (0 ≤ x 0 ∧ x 0 ≤ 1) → (0 ≤ x 1 ∧ x 1 ≤ 1) → 1 ≤ 16 * x 0 + x 1 → f.Feasible x := by
    intro x h1 h2 h3
    rw [feasible_iff p hi.wf _ _ _ _ _ hf]
    simp only [pe, pb, pi, pq, ps, po.1, po.2.1]
    simp [Rows.lin, LinExpr.getValue, LinExpr.sumLoop, h1, h2]
    linarith
  refine ⟨eqOps, hok, hone, hreg, f, eqCone, eqS, hf, ?_, (fun v => if v = 0 then 1 else 0), (fun v => if v = 1 then 1 else 0), ?_, ?_, ?_, ?_, ?_, ?_, ?_⟩
  · refine ⟨by rw [hn, he, hm, hq]; rfl, ?_, ?_, ?_, ?_, ?_, ?_⟩
    · simp [Equil.Fits, eqS, eqCone, Cone.sizecone, Cone.ssoc]; exact ⟨fun a b h => by omega, fun a b h => by omega⟩
    · intro x r hr; rw [he] at hr; omega
    · intro x r hr
      rw [hm, hq] at hr
      have hr' : r < 5 := by simpa using hr
      have hb : f.ineq = p.buildIneq (fun _ => 0) 0 false := rfl
      rw [hb]
      unfold Problem.buildIneq
      simp only [pb, pl, pu, pi, pq, ps, po.1, po.2.1]
      interval_cases r <;>
      simp [Equil.act, eqS, Finset.sum_range_succ, forIdx, forStart, forCount, binBody, lineqBody, Sys.act, Sys.add, Sys.set, Sys.zero, List.filter_cons]
    · intro v hv
      rw [hn] at hv
      interval_cases v
      · rw [hc0]; simp [eqS]
      · rw [hc1]; simp [eqS]
    · intro r hr; rw [he] at hr; omega
    · intro r hr
      rw [hm, hq] at hr
      have hr' : r < 5 := by simpa using hr
      have hb : f.ineq = p.buildIneq (fun _ => 0) 0 false := rfl
      rw [hb, hn, he]
      unfold Problem.buildIneq
      simp only [pb, pl, pu, pi, pq, ps, po.1, po.2.1]
      interval_cases r <;>
      simp [eqS, forIdx, forStart, forCount, binBody, lineqBody, Sys.add, Sys.set, Sys.zero, Function.update]
  · exact hfeas _ (by norm_num) (by norm_num) (by norm_num)
  · exact hfeas _ (by norm_num) (by norm_num) (by norm_num)
  · intro v _; simp only; split <;> simp
  · intro v _; simp only; split <;> simp
  · simp [StdForm.cost, hn, List.range_succ, hc0, hc1]
  · simp [StdForm.cost, hn, List.range_succ, hc0, hc1]
  · intro n h
    obtain ⟨m, rfl⟩ : ∃ m, n = m + 1 := ⟨n - 1, by omega⟩
    obtain ⟨e0, e1⟩ := equil_eqS m
    constructor <;> simp [bnbCost, hn, List.range_succ, hc0, hc1, e0, e1]

end BnBLink
end Verif
