import Verif.ConicSem

set_option linter.unusedSimpArgs false
set_option linter.unusedSectionVars false

/-! Feasibility of the standard form, in terms of the stored constraints. -/
namespace Verif
open Sys Build

theorem forall_flatMap {α β : Type} (l : List α) (f : α → List β) (P : β → Prop) :
    (∀ g ∈ l.flatMap f, P g) ↔ ∀ a ∈ l, ∀ g ∈ f a, P g := by
  simp only [List.mem_flatMap, forall_exists_index, and_imp]
  exact ⟨fun h a ha g hg => h g a ha hg, fun h g a ha hg => h a ha g hg⟩

theorem sum_replicate3 {α : Type} (l : List α) (f : α → List ((Nat → ℝ) → ℝ)) (h : ∀ a ∈ l, (f a).length = 3) :
    (l.map f).map List.length = List.replicate l.length 3 := by
  induction l with
  | nil => rfl
  | cons a as ih =>
    simp only [List.map_cons, List.length_cons, List.replicate_succ, h a (by simp)]
    rw [ih (fun b hb => h b (by simp [hb]))]

theorem flatMap_blocks_len (l : List (CQuad ℝ))
    (h : ∀ q ∈ l, q.extra.length = q.quad.length + (if q.soft then 1 else 0)) :
    (l.flatMap (fun q => (q.extra.zip (q.quad.map Prod.snd)).map Rows.quad3)).map List.length
      = List.replicate (l.map (fun q => q.quad.length)).sum 3 := by
  induction l with
  | nil => rfl
  | cons a as ih =>
    simp only [List.flatMap_cons, List.map_append, List.map_cons, List.sum_cons, List.replicate_add]
    rw [ih (fun q hq => h q (by simp [hq])), sum_replicate3 _ _ (by simp [Rows.quad3])]
    have := h a (by simp)
    rw [List.length_zip, List.length_map, this]
    congr 2
    omega

theorem mextra_eq (p : Problem ℝ) (warm : Bool) :
    p.mextra warm = p.obj.extra.length + p.soc.length + (if warm then 0 else p.countSoft) +
      (p.qineq.map (fun q => q.quad.length)).sum := by
  unfold Problem.mextra Problem.countSoft
  have : (p.qineq.map (fun q => q.quad.length + (if q.soft && !warm then 1 else 0))).sum
      = (if warm then 0 else (p.qineq.filter (·.soft)).length) + (p.qineq.map (fun q => q.quad.length)).sum := by
    induction p.qineq with
    | nil => simp
    | cons a as ih =>
      simp only [List.map_cons, List.sum_cons, ih]
      cases warm <;> cases hs : a.soft <;> simp [hs] <;> omega
  omega

/-- The cone sizes handed to the solver are the sizes of the row blocks. -/
theorem coneSizes_eq (p : Problem ℝ) (hp : p.Shape) (x0) (warm : Bool) :
    p.coneSizes warm = (p.blocks x0 warm).map List.length := by
  unfold Problem.coneSizes Problem.blocks
  rw [List.map_append, List.map_append, List.map_append, flatMap_blocks_len _ hp.qi, sum_replicate3 _ _ (by simp [Rows.quad3])]
  have h2 : (if warm then [] else (p.qineq.filter (·.soft)).map (Rows.soft3 x0)).map List.length
      = List.replicate (if warm then 0 else p.countSoft) 3 := by
    cases warm
    · simp only [if_neg Bool.false_ne_true]; exact sum_replicate3 _ _ (by simp [Rows.soft3])
    · simp
  rw [h2, ← List.replicate_add, ← List.replicate_add, List.take_replicate]
  have h3 : p.soc.map (fun q => q.quad.length + 1) = (p.soc.map Rows.socCone).map List.length := by
    simp [Rows.socCone, Function.comp]
  rw [h3]
  congr 2
  rw [mextra_eq, List.length_zip, List.length_map, hp.obj]
  omega

theorem lpRows_length (p : Problem ℝ) (hp : p.Shape) (x0 thr) (warm : Bool) :
    (p.lpRows x0 thr warm).length = p.nlineq warm := by
  unfold Problem.lpRows Problem.nlineq
  rw [List.length_append, List.length_append, List.length_append, List.length_append, flatMap_bin_length,
    flatMap_single_length, flatMap_single_length, flatMap_single_length]
  have : (p.bins.zip (p.binLo.zip p.binUp)).length = p.bins.length := by simp [hp.loLen, hp.upLen]
  rw [this]
  cases warm
  · simp only [if_neg Bool.false_ne_true, flatMap_single_length, Problem.countTrust]
  · simp

theorem take_sum_succ (l : List (List ((Nat → ℝ) → ℝ))) (i : Nat) (h : i < l.length) (j : Nat) (hj : j < l[i].length) :
    l.flatten[((l.map List.length).take i).sum + j]? = some (l[i][j]) := by
  induction l generalizing i with
  | nil => simp at h
  | cons a as ih =>
    cases i with
    | zero =>
      simp only [List.take_zero, List.sum_nil, Nat.zero_add, List.flatten_cons, List.getElem_cons_zero] at hj ⊢
      rw [List.getElem?_append_left hj, List.getElem?_eq_getElem hj]
    | succ i =>
      simp only [List.length_cons, Nat.add_lt_add_iff_right] at h
      have := ih i h (by simpa using hj)
      simp only [List.map_cons, List.take_succ_cons, List.sum_cons, List.flatten_cons]
      rw [List.getElem?_append_right (by omega)]
      rw [show a.length + ((as.map List.length).take i).sum + j - a.length = ((as.map List.length).take i).sum + j by omega]
      simpa using this

/-- Feasibility of a system that consists of given rows. -/
theorem feasible_iff_rows (f : StdForm ℝ) (eqRows lp : List ((Nat → ℝ) → ℝ)) (bs : List (List ((Nat → ℝ) → ℝ)))
    (he : Ext Sys.zero f.eq 0 eqRows) (hi : Ext Sys.zero f.ineq 0 (lp ++ bs.flatten))
    (h1 : f.nleq = eqRows.length) (h2 : f.nlineq = lp.length) (h3 : f.q = bs.map List.length) (x : Nat → ℝ) :
    f.Feasible x ↔ (∀ g ∈ eqRows, g x = 0) ∧ (∀ g ∈ lp, 0 ≤ g x) ∧ (∀ b ∈ bs, InSoc (b.map (fun g => g x))) := by
  unfold StdForm.Feasible
  refine and_congr ?_ (and_congr ?_ ?_)
  · rw [h1]
    constructor
    · intro h g hg
      obtain ⟨i, hi', rfl⟩ := List.getElem_of_mem hg
      have := he.at_ i hi' x
      simp only [Nat.zero_add] at this
      rw [← this, slack, h i hi']; ring
    · intro h r hr
      have := he.at_ r hr x
      simp only [Nat.zero_add, slack] at this
      rw [h _ (List.getElem_mem hr)] at this
      linarith
  · rw [h2]
    constructor
    · intro h g hg
      obtain ⟨i, hi', rfl⟩ := List.getElem_of_mem hg
      have := hi.at_ i (by rw [List.length_append]; omega) x
      simp only [Nat.zero_add, List.getElem_append_left hi', slack] at this
      rw [← this]; linarith [h i hi']
    · intro h r hr
      have := hi.at_ r (by rw [List.length_append]; omega) x
      simp only [Nat.zero_add, List.getElem_append_left hr, slack] at this
      linarith [h _ (List.getElem_mem hr)]
  · have key : ∀ i (hib : i < bs.length), (List.range (bs[i].length)).map (fun j =>
        f.ineq.rhs (startSoc f.nlineq f.q i + j) - f.ineq.act x (startSoc f.nlineq f.q i + j))
        = bs[i].map (fun g => g x) := by
      intro i hib
      apply List.ext_getElem
      · simp
      · intro j hj1 hj2
        simp only [List.length_map, List.length_range] at hj1
        simp only [List.getElem_map, List.getElem_range]
        have hget := take_sum_succ bs i hib j hj1
        have hlt : ((bs.map List.length).take i).sum + j < bs.flatten.length := by
          by_contra hc
          rw [List.getElem?_eq_none (by omega)] at hget
          exact absurd hget (by simp)
        have := hi.at_ (lp.length + (((bs.map List.length).take i).sum + j)) (by
          rw [List.length_append]; omega) x
        simp only [slack] at this
        have e : startSoc f.nlineq f.q i + j = 0 + (lp.length + (((bs.map List.length).take i).sum + j)) := by
          rw [startSoc, h2, h3]; omega
        rw [e, this]
        rw [List.getElem_append_right (by omega)]
        rw [List.getElem?_eq_getElem hlt] at hget
        have hget := Option.some.inj hget
        rw [← hget]
        have e3 : ∀ (a b : Nat) (ha : a < bs.flatten.length) (hb : b < bs.flatten.length), a = b →
            bs.flatten[a] x = bs.flatten[b] x := by intro a b ha hb h; subst h; rfl
        exact e3 _ _ _ _ (by omega)
    constructor
    · intro h b hb
      obtain ⟨i, hib, rfl⟩ := List.getElem_of_mem hb
      have := h i (by rw [h3]; simpa using hib)
      rw [← key i hib]
      convert this using 3
      simp [h3]
    · intro h i hiq
      have hib : i < bs.length := by rw [h3] at hiq; simpa using hiq
      have := h _ (List.getElem_mem hib)
      rw [← key i hib] at this
      convert this using 3
      simp [h3]

theorem build_some (p : Problem ℝ) (hp : p.Shape) (x0) (thr w : ℝ) (warm : Bool) :
    p.build x0 thr w warm = some
      { nvars := p.vars.length, nleq := p.leq.length, nlineq := p.nlineq warm, q := p.coneSizes warm,
        eq := forIdx eqBody 0 p.leq Sys.zero, ineq := p.buildIneq x0 thr warm, c := p.buildC w warm } := by
  unfold Problem.build
  rw [if_pos]
  refine ⟨by rw [hp.obj], fun q hq => ⟨?_, ?_⟩, fun q hq => ?_⟩
  · rw [hp.qi q hq]; omega
  · intro hs hnil; have := hp.qi q hq; simp [hnil, hs] at this
  · intro hnil; have := hp.so q hq; simp [hnil] at this

theorem inSoc3 (t a : ℝ) : InSoc [1 + t, t - 1, 2 * a] ↔ a ^ 2 ≤ t := by
  simp only [InSoc, List.map_cons, List.map_nil, List.sum_cons, List.sum_nil]
  constructor
  · intro h
    have h0 : 0 ≤ 1 + t := le_trans (Real.sqrt_nonneg _) h
    have := (Real.sqrt_le_left h0).1 h
    nlinarith
  · intro h
    have ht : 0 ≤ t := le_trans (sq_nonneg a) h
    rw [Real.sqrt_le_left (by linarith)]
    nlinarith

/-- Feasibility in terms of the stored constraints. -/
theorem feasible_iff (p : Problem ℝ) (hp : p.WF) (x0) (thr w : ℝ) (warm : Bool) (f : StdForm ℝ)
    (hf : p.build x0 thr w warm = some f) (x : Nat → ℝ) :
    f.Feasible x ↔
      (∀ e ∈ p.leq, Rows.lin e x = 0) ∧ (∀ v ∈ p.bins, 0 ≤ x v ∧ x v ≤ 1) ∧ (∀ e ∈ p.lineq, 0 ≤ Rows.lin e x) ∧
      (∀ q ∈ p.qineq, 0 ≤ Rows.qlin q x) ∧ (∀ q ∈ p.soc, 0 ≤ Rows.socLin q x) ∧
      (warm = false → ∀ q ∈ p.qineq, q.trust → 0 ≤ Rows.trust x0 thr q x) ∧
      (∀ t ∈ p.obj.extra.zip (p.obj.quad.map Prod.snd), (t.2.getValue x) ^ 2 ≤ x t.1) ∧
      (warm = false → ∀ q ∈ p.qineq, q.soft → (Rows.linearisation q x0 x) ^ 2 ≤ x (q.extra.getLastD 0)) ∧
      (∀ q ∈ p.qineq, ∀ t ∈ q.extra.zip (q.quad.map Prod.snd), (t.2.getValue x) ^ 2 ≤ x t.1) ∧
      (∀ q ∈ p.soc, Real.sqrt ((q.quad.map (fun t => (t.2.getValue x) ^ 2)).sum) ≤ x (q.extra.headD 0)) := by
  rw [build_some p hp.shape] at hf
  have hf := (Option.some.inj hf).symm
  have he : Ext Sys.zero f.eq 0 (p.leq.flatMap (fun e => [Rows.lin e])) := by
    have := Ext.forIdx (eqBody (K := ℝ)) (fun e => [Rows.lin e]) 1 0 p.leq (by simp)
      (fun i a _ s hs => Rows.ext_eq i a s hs) 0 Sys.zero (fun r _ => fresh_zero r)
    rw [hf]; simpa using this
  have hi : Ext Sys.zero f.ineq 0 (p.lpRows x0 thr warm ++ (p.blocks x0 warm).flatten) := by
    rw [hf]; exact buildIneq_ext p hp.shape x0 thr warm
  rw [feasible_iff_rows f _ _ _ he hi (by rw [hf, flatMap_single_length]) (by rw [hf, lpRows_length p hp.shape])
    (by rw [hf, coneSizes_eq p hp.shape x0])]
  have q3 : ∀ t : Nat × LinExpr ℝ, InSoc ((Rows.quad3 t).map (fun g => g x)) ↔ (t.2.getValue x) ^ 2 ≤ x t.1 := by
    intro t; exact inSoc3 _ _
  have s3 : ∀ q : CQuad ℝ, InSoc ((Rows.soft3 x0 q).map (fun g => g x)) ↔
      (Rows.linearisation q x0 x) ^ 2 ≤ x (q.extra.getLastD 0) := by
    intro q; exact inSoc3 _ _
  have sc : ∀ q : CQuad ℝ, InSoc ((Rows.socCone q).map (fun g => g x)) ↔
      Real.sqrt ((q.quad.map (fun t => (t.2.getValue x) ^ 2)).sum) ≤ x (q.extra.headD 0) := by
    intro q; simp [InSoc, Rows.socCone, Function.comp_def]
  have hbin : (∀ g ∈ (p.bins.zip (p.binLo.zip p.binUp)).flatMap Rows.bin, 0 ≤ g x) ↔
      ∀ v ∈ p.bins, 0 ≤ x v ∧ x v ≤ 1 := by
    rw [hp.lo, hp.up, List.zip_replicate']
    have : p.bins.zip (List.replicate p.bins.length ((0 : ℝ), (1 : ℝ))) = p.bins.map (fun v => (v, 0, 1)) := by
      induction p.bins with
      | nil => rfl
      | cons a as ih => simp [List.replicate_succ, ih]
    rw [this]
    rw [forall_flatMap]; simp [Rows.bin]
  unfold Problem.lpRows Problem.blocks
  have e1 : (∀ g ∈ p.leq.flatMap (fun e => [Rows.lin e]), g x = 0) ↔ (∀ e ∈ p.leq, Rows.lin e x = 0) := by
    rw [forall_flatMap]; simp
  have e2 : (∀ g ∈ p.lineq.flatMap (fun e => [Rows.lin e]), 0 ≤ g x) ↔ (∀ e ∈ p.lineq, 0 ≤ Rows.lin e x) := by
    rw [forall_flatMap]; simp
  have e3 : (∀ g ∈ p.qineq.flatMap (fun e => [Rows.qlin e]), 0 ≤ g x) ↔ (∀ e ∈ p.qineq, 0 ≤ Rows.qlin e x) := by
    rw [forall_flatMap]; simp
  have e4 : (∀ g ∈ p.soc.flatMap (fun e => [Rows.socLin e]), 0 ≤ g x) ↔ (∀ e ∈ p.soc, 0 ≤ Rows.socLin e x) := by
    rw [forall_flatMap]; simp
  have e5 : (∀ g ∈ (if warm then [] else (p.qineq.filter (·.trust)).flatMap (fun q => [Rows.trust x0 thr q])), 0 ≤ g x) ↔
      (warm = false → ∀ q ∈ p.qineq, q.trust → 0 ≤ Rows.trust x0 thr q x) := by
    cases warm
    · simp only [if_neg Bool.false_ne_true]; rw [forall_flatMap]; simp
    · simp
  have e6 : (∀ b ∈ (p.obj.extra.zip (p.obj.quad.map Prod.snd)).map Rows.quad3, InSoc (b.map (fun g => g x))) ↔
      (∀ t ∈ p.obj.extra.zip (p.obj.quad.map Prod.snd), (t.2.getValue x) ^ 2 ≤ x t.1) := by
    rw [List.forall_mem_map]
    exact forall₂_congr fun t _ => q3 t
  have e7 : (∀ b ∈ (if warm then [] else (p.qineq.filter (·.soft)).map (Rows.soft3 x0)), InSoc (b.map (fun g => g x))) ↔
      (warm = false → ∀ q ∈ p.qineq, q.soft → (Rows.linearisation q x0 x) ^ 2 ≤ x (q.extra.getLastD 0)) := by
    cases warm
    · simp only [if_neg Bool.false_ne_true, List.forall_mem_map, List.mem_filter, and_imp, s3, forall_const]
    · simp
  have e8 : (∀ b ∈ p.qineq.flatMap (fun q => (q.extra.zip (q.quad.map Prod.snd)).map Rows.quad3),
      InSoc (b.map (fun g => g x))) ↔
      (∀ q ∈ p.qineq, ∀ t ∈ q.extra.zip (q.quad.map Prod.snd), (t.2.getValue x) ^ 2 ≤ x t.1) := by
    simp only [List.mem_flatMap, forall_exists_index, and_imp]
    constructor
    · intro h q hq t ht
      exact (q3 t).1 (h _ q hq (List.mem_map_of_mem ht))
    · intro h b q hq hb
      obtain ⟨t, ht, rfl⟩ := List.mem_map.1 hb
      exact (q3 t).2 (h q hq t ht)
  have e9 : (∀ b ∈ p.soc.map Rows.socCone, InSoc (b.map (fun g => g x))) ↔
      (∀ q ∈ p.soc, Real.sqrt ((q.quad.map (fun t => (t.2.getValue x) ^ 2)).sum) ≤ x (q.extra.headD 0)) := by
    rw [List.forall_mem_map]
    exact forall₂_congr fun t _ => sc t
  rw [e1, List.forall_mem_append, List.forall_mem_append, List.forall_mem_append, List.forall_mem_append,
    hbin, e2, e3, e4, e5,
    List.forall_mem_append, List.forall_mem_append, List.forall_mem_append, e6, e7, e8, e9]
  constructor
  · rintro ⟨h1, ⟨⟨⟨⟨h2, h3⟩, h4⟩, h5⟩, h6⟩, ⟨⟨h7, h8⟩, h9⟩, h10⟩
    exact ⟨h1, h2, h3, h4, h5, h6, h7, h8, h9, h10⟩
  · rintro ⟨h1, h2, h3, h4, h5, h6, h7, h8, h9, h10⟩
    exact ⟨h1, ⟨⟨⟨⟨h2, h3⟩, h4⟩, h5⟩, h6⟩, ⟨⟨h7, h8⟩, h9⟩, h10⟩

end Verif
