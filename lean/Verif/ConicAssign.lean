import Verif.ConicSemInv

set_option linter.unusedSimpArgs false
set_option linter.unusedSectionVars false

/-! Choosing the auxiliary variables, and the cost of a point. -/
namespace Verif
open Sys Build

/-- Override `x` at the given keys. -/
noncomputable def assign (ps : List (Nat × ℝ)) (x : Nat → ℝ) (v : Nat) : ℝ := (ps.lookup v).getD (x v)

theorem lookup_of_mem {ps : List (Nat × ℝ)} (hnd : (ps.map Prod.fst).Nodup) {k : Nat} {a : ℝ} (h : (k, a) ∈ ps) :
    ps.lookup k = some a := by
  induction ps with
  | nil => simp at h
  | cons p ps ih =>
    obtain ⟨k', a'⟩ := p
    simp only [List.map_cons, List.nodup_cons] at hnd
    rcases List.mem_cons.1 h with h | h2
    · obtain ⟨rfl, rfl⟩ := Prod.mk.inj h; simp [List.lookup]
    · have : k ≠ k' := by
        rintro rfl; exact hnd.1 (List.mem_map.2 ⟨(k, a), h2, rfl⟩)
      have hb : (k == k') = false := by simpa using this
      simp only [List.lookup, hb]
      exact ih hnd.2 h2

theorem assign_mem {ps : List (Nat × ℝ)} (hnd : (ps.map Prod.fst).Nodup) {k : Nat} {a : ℝ} (h : (k, a) ∈ ps) (x) :
    assign ps x k = a := by rw [assign, lookup_of_mem hnd h]; rfl

theorem assign_not_mem {ps : List (Nat × ℝ)} {k : Nat} (h : k ∉ ps.map Prod.fst) (x) : assign ps x k = x k := by
  have : ps.lookup k = none := by
    rw [List.lookup_eq_none_iff]
    intro p hp
    simp only [bne_iff_ne, ne_eq, beq_eq_false_iff_ne]
    rintro rfl
    exact h (List.mem_map_of_mem hp)
  rw [assign, this]; rfl

/-- Square of a term. -/
noncomputable def sq (x : Nat → ℝ) (t : ℝ × LinExpr ℝ) : ℝ := (t.2.getValue x) ^ 2

/-- Values of the auxiliary variables that make every epigraph tight. -/
noncomputable def Problem.tight (p : Problem ℝ) (x0 x : Nat → ℝ) : List (Nat × ℝ) :=
  p.obj.extra.zip (p.obj.quad.map (sq x)) ++
  p.qineq.flatMap (fun q => q.extra.zip (q.quad.map (sq x) ++ [CQuad.softTerm x0 x q])) ++
  p.soc.flatMap (fun q => q.extra.zip [-(q.lin.getValue x)])

theorem tight_keys (p : Problem ℝ) (hp : p.WF) (x0 x) : (p.tight x0 x).map Prod.fst = p.extras := by
  unfold Problem.tight Problem.extras
  rw [List.map_append, List.map_append, List.map_flatMap, List.map_flatMap]
  congr 1
  · congr 1
    · rw [List.map_fst_zip]; rw [List.length_map, hp.obj]
    · have key : ∀ l : List (CQuad ℝ), (∀ q ∈ l, q.extra.length ≤ q.quad.length + 1) →
          l.flatMap (fun a => (a.extra.zip (a.quad.map (sq x) ++ [CQuad.softTerm x0 x a])).map Prod.fst)
            = l.flatMap (·.extra) := by
        intro l hl
        induction l with
        | nil => rfl
        | cons a as ih =>
          simp only [List.flatMap_cons]
          rw [ih (fun q hq => hl q (by simp [hq])), List.map_fst_zip]
          have := hl a (by simp)
          simp; omega
      apply key
      intro q hq
      have := hp.qi q hq
      split at this <;> omega
  · have key : ∀ l : List (CQuad ℝ), (∀ q ∈ l, q.extra.length = 1) →
        l.flatMap (fun a => (a.extra.zip [-(a.lin.getValue x)]).map Prod.fst) = l.flatMap (·.extra) := by
      intro l hl
      induction l with
      | nil => rfl
      | cons a as ih =>
        simp only [List.flatMap_cons]
        rw [ih (fun q hq => hl q (by simp [hq])), List.map_fst_zip]
        rw [hl a (by simp)]; simp
    exact key _ hp.so

theorem mem_zip_append {α β : Type} {l : List α} {m r : List β} {t} (h : t ∈ l.zip m) : t ∈ l.zip (m ++ r) := by
  induction l generalizing m with
  | nil => simp at h
  | cons a as ih =>
    cases m with
    | nil => simp at h
    | cons b bs =>
      simp only [List.zip_cons_cons, List.cons_append, List.mem_cons] at h ⊢
      rcases h with h | h
      · exact Or.inl h
      · exact Or.inr (ih h)

theorem mem_zip_map {α β γ : Type} {l : List α} {m : List β} (f : β → γ) {a : α} {b : β} (h : (a, b) ∈ l.zip m) :
    (a, f b) ∈ l.zip (m.map f) := by
  rw [List.zip_map_right]
  exact List.mem_map.2 ⟨(a, b), h, rfl⟩

theorem mem_zip_last {l : List Nat} {m : List ℝ} {r : ℝ} (h : l.length = m.length + 1) :
    (l.getLastD 0, r) ∈ l.zip (m ++ [r]) := by
  rcases List.eq_nil_or_concat l with rfl | ⟨l', a, rfl⟩
  · simp at h
  · simp only [List.concat_eq_append, List.length_append, List.length_singleton, Nat.add_right_cancel_iff] at h
    rw [List.concat_eq_append, List.zip_append h]
    simp

theorem linearisation_eq (q : CQuad ℝ) (x0 x) : Rows.linearisation q x0 x = tangent q.quad x0 x + q.lin.getValue x := rfl

theorem sum_zip_le {l : List (ℝ × LinExpr ℝ)} {ex : List Nat} {x : Nat → ℝ}
    (hw : ∀ t ∈ l, 0 ≤ t.1) (hlen : l.length ≤ ex.length)
    (h : ∀ t ∈ ex.zip (l.map Prod.snd), (t.2.getValue x) ^ 2 ≤ x t.1) :
    sumSq l x ≤ ((l.zip ex).map (fun t => t.1.1 * x t.2)).sum := by
  induction l generalizing ex with
  | nil => simp [sumSq]
  | cons a as ih =>
    cases ex with
    | nil => simp at hlen
    | cons e es =>
      have h1 := ih (ex := es) (fun t ht => hw t (by simp [ht])) (by simpa using hlen)
        (fun t ht => h t (by simp [ht]))
      have h2 := h (e, a.2) (by simp)
      have h3 := hw a (by simp)
      simp only [sumSq, List.map_cons, List.sum_cons, List.zip_cons_cons] at h1 ⊢
      have := mul_le_mul_of_nonneg_left h2 h3
      simp only at this
      linarith

theorem sum_zip_eq {l : List (ℝ × LinExpr ℝ)} {ex : List Nat} {x y : Nat → ℝ} (hlen : l.length ≤ ex.length)
    (h : ∀ t ∈ ex.zip (l.map Prod.snd), y t.1 = (t.2.getValue x) ^ 2) :
    ((l.zip ex).map (fun t => t.1.1 * y t.2)).sum = sumSq l x := by
  induction l generalizing ex with
  | nil => simp [sumSq]
  | cons a as ih =>
    cases ex with
    | nil => simp at hlen
    | cons e es =>
      have h1 := ih (ex := es) (by simpa using hlen) (fun t ht => h t (by simp [ht]))
      have h2 := h (e, a.2) (by simp)
      simp only [sumSq, List.map_cons, List.sum_cons, List.zip_cons_cons] at h1 ⊢
      rw [h1, h2]

theorem sumSq_congr {l : List (ℝ × LinExpr ℝ)} {us} (h : ∀ t ∈ l, t.2.Over us) {x y : Nat → ℝ}
    (hxy : ∀ v ∈ us, x v = y v) : sumSq l x = sumSq l y := by
  unfold sumSq
  congr 1
  apply List.map_congr_left
  intro t ht
  rw [value_congr (h t ht) hxy]

theorem tangent_congr {l : List (ℝ × LinExpr ℝ)} {us} (h : ∀ t ∈ l, t.2.Over us) {x0 x y : Nat → ℝ}
    (hxy : ∀ v ∈ us, x v = y v) : tangent l x0 x = tangent l x0 y := by
  unfold tangent
  congr 1
  apply List.map_congr_left
  intro t ht
  rw [value_congr (h t ht) hxy]

theorem soc_congr {l : List (ℝ × LinExpr ℝ)} {us} (h : ∀ t ∈ l, t.2.Over us) {x y : Nat → ℝ}
    (hxy : ∀ v ∈ us, x v = y v) : (l.map (fun t => (t.2.getValue x) ^ 2)).sum = (l.map (fun t => (t.2.getValue y) ^ 2)).sum := by
  congr 1
  apply List.map_congr_left
  intro t ht
  rw [value_congr (h t ht) hxy]

theorem softTerm_congr {q : CQuad ℝ} {us} (h : q.Over us) {x0 x y : Nat → ℝ} (hxy : ∀ v ∈ us, x v = y v) :
    q.softTerm x0 x = q.softTerm x0 y := by
  unfold CQuad.softTerm
  rw [tangent_congr h.2 hxy, value_congr h.1 hxy]

theorem sem_congr (st : ApiState) (hi : st.Inv) {x0 x y : Nat → ℝ} {thr warm} (hxy : ∀ v ∈ st.user, x v = y v)
    (h : st.p.Sem x0 thr warm x) : st.p.Sem x0 thr warm y := by
  obtain ⟨h1, h2, h3, h4⟩ := h
  refine ⟨fun e he => ?_, fun e he => ?_, fun q hq => ?_, fun q hq => ?_⟩
  · rw [← value_congr (hi.leq e he) hxy]; exact h1 e he
  · rw [← value_congr (hi.lineq e he) hxy]; exact h2 e he
  · have o := hi.qineq q hq
    rw [← sumSq_congr o.2 hxy, ← value_congr o.1 hxy, ← tangent_congr o.2 hxy]; exact h3 q hq
  · have o := hi.soc q hq
    rw [← soc_congr o.2 hxy, ← value_congr o.1 hxy]; exact h4 q hq

/-- Feasible points of the standard form satisfy the stored constraints. -/
theorem feasible_sem (p : Problem ℝ) (hp : p.WF) (hr : p.Reg) (x0) (thr w : ℝ) (warm : Bool) (f : StdForm ℝ)
    (hf : p.build x0 thr w warm = some f) (x : Nat → ℝ) (h : f.Feasible x) : p.Sem x0 thr warm x := by
  rw [feasible_iff p hp x0 thr w warm f hf x] at h
  obtain ⟨h1, h2, h3, h4, h5, h6, h7, h8, h9, h10⟩ := h
  refine ⟨fun e he => ?_, fun e he => ?_, fun q hq => ⟨?_, ?_⟩, fun q hq => ?_⟩
  · have := h1 e he
    rw [Rows.lin, if_neg (hr.1 e he)] at this; linarith
  · have := h3 e he
    rw [Rows.lin, if_neg (hr.2.1 e he)] at this; linarith
  · have h := h4 q hq
    have hl : q.quad.length ≤ q.extra.length := by rw [hp.qi q hq]; omega
    have := sum_zip_le (hr.2.2 q hq) hl (h9 q hq)
    rw [Rows.qlin] at h
    linarith
  · intro ht hwm
    have := h6 hwm q hq ht
    rw [Rows.trust, linearisation_eq] at this
    linarith
  · have h := h5 q hq
    have := h10 q hq
    rw [Rows.socLin] at h
    linarith

/-- A point that satisfies the stored constraints becomes feasible with tight auxiliary variables. -/
theorem tight_feasible (st : ApiState) (hi : st.Inv) (x0) (thr w : ℝ) (warm : Bool) (f : StdForm ℝ)
    (hf : st.p.build x0 thr w warm = some f) (x : Nat → ℝ) (h : st.p.Sem x0 thr warm x)
    (hb : ∀ v ∈ st.p.bins, 0 ≤ x v ∧ x v ≤ 1) :
    f.Feasible (assign (st.p.tight x0 x) x) ∧ (∀ v ∈ st.user, assign (st.p.tight x0 x) x v = x v) ∧
    (∀ t ∈ st.p.obj.extra.zip (st.p.obj.quad.map Prod.snd), assign (st.p.tight x0 x) x t.1 = (t.2.getValue x) ^ 2) ∧
    (∀ q ∈ st.p.qineq, q.soft → assign (st.p.tight x0 x) x (q.extra.getLastD 0) = q.softTerm x0 x) := by
  have hp := hi.wf
  have hnd : ((st.p.tight x0 x).map Prod.fst).Nodup := by
    rw [tight_keys st.p hp]; exact (List.nodup_append.1 hi.nd).2.1
  have hu : ∀ v ∈ st.user, assign (st.p.tight x0 x) x v = x v := by
    intro v hv
    apply assign_not_mem
    rw [tight_keys st.p hp]
    intro hc
    exact (List.nodup_append.1 hi.nd).2.2 v hv v hc rfl
  have ho : ∀ t ∈ st.p.obj.extra.zip (st.p.obj.quad.map Prod.snd), assign (st.p.tight x0 x) x t.1 = (t.2.getValue x) ^ 2 := by
    rintro ⟨k, e⟩ ht
    apply assign_mem hnd
    apply List.mem_append_left
    apply List.mem_append_left
    have := mem_zip_map (fun e : LinExpr ℝ => (e.getValue x) ^ 2) ht
    rwa [List.map_map] at this
  have hq : ∀ q ∈ st.p.qineq, ∀ t ∈ q.extra.zip (q.quad.map Prod.snd), assign (st.p.tight x0 x) x t.1 = (t.2.getValue x) ^ 2 := by
    rintro q hq ⟨k, e⟩ ht
    apply assign_mem hnd
    apply List.mem_append_left
    apply List.mem_append_right
    apply List.mem_flatMap.2 ⟨q, hq, ?_⟩
    apply mem_zip_append
    have := mem_zip_map (fun e : LinExpr ℝ => (e.getValue x) ^ 2) ht
    rwa [List.map_map] at this
  have hs : ∀ q ∈ st.p.qineq, q.soft → assign (st.p.tight x0 x) x (q.extra.getLastD 0) = q.softTerm x0 x := by
    intro q hq hso
    apply assign_mem hnd
    apply List.mem_append_left
    apply List.mem_append_right
    apply List.mem_flatMap.2 ⟨q, hq, ?_⟩
    apply mem_zip_last
    rw [hp.qi q hq, List.length_map]; simp [hso]
  have hc : ∀ q ∈ st.p.soc, assign (st.p.tight x0 x) x (q.extra.headD 0) = -(q.lin.getValue x) := by
    intro q hq
    apply assign_mem hnd
    apply List.mem_append_right
    apply List.mem_flatMap.2 ⟨q, hq, ?_⟩
    have := hp.so q hq
    match hqe : q.extra, this with
    | [a], _ => simp
  refine ⟨?_, hu, ho, hs⟩
  have hu' : ∀ v ∈ st.user, x v = assign (st.p.tight x0 x) x v := fun v hv => (hu v hv).symm
  have hsem := sem_congr st hi hu' h
  rw [feasible_iff st.p hp x0 thr w warm f hf]
  obtain ⟨s1, s2, s3, s4⟩ := hsem
  refine ⟨fun e he => ?_, fun v hv => ?_, fun e he => ?_, fun q hqm => ?_, fun q hqm => ?_, fun hw q hqm ht => ?_,
    fun t ht => ?_, fun hw q hqm hso => ?_, fun q hqm t ht => ?_, fun q hqm => ?_⟩
  · rw [Rows.lin, s1 e he]; simp
  · rw [hu v (hi.bins v hv)]; exact hb v hv
  · rw [Rows.lin]; have := s2 e he; split <;> linarith
  · have hl : q.quad.length ≤ q.extra.length := by rw [hp.qi q hqm]; omega
    have := sum_zip_eq hl (hq q hqm)
    rw [Rows.qlin, this, sumSq_congr (hi.qineq q hqm).2 hu']
    have := (s3 q hqm).1
    linarith
  · rw [Rows.socLin, hc q hqm, value_congr (hi.soc q hqm).1 hu']
    linarith
  · have := (s3 q hqm).2 ht hw
    rw [Rows.trust, linearisation_eq]; linarith
  · rw [ho t ht]
    have : t.2 ∈ st.p.obj.quad.map Prod.snd := (List.of_mem_zip ht).2
    obtain ⟨t', ht', e⟩ := List.mem_map.1 this
    rw [← e, value_congr (hi.obj.2 t' ht') hu']
  · rw [hs q hqm hso, linearisation_eq, softTerm_congr (hi.qineq q hqm) hu']
    exact le_refl _
  · rw [hq q hqm t ht]
    have : t.2 ∈ q.quad.map Prod.snd := (List.of_mem_zip ht).2
    obtain ⟨t', ht', e⟩ := List.mem_map.1 this
    rw [← e, value_congr ((hi.qineq q hqm).2 t' ht') hu']
  · rw [hc q hqm]
    have := s4 q hqm
    rw [value_congr (hi.soc q hqm).1 hu']
    linarith

/-! ### cost -/

/-- Scalar product. -/
noncomputable def dot (n : Nat) (c x : Nat → ℝ) : ℝ := ((List.range n).map (fun v => c v * x v)).sum

theorem dot_update (n k : Nat) (c x : Nat → ℝ) (w : ℝ) (hk : k < n) (h0 : c k = 0) :
    dot n (Function.update c k w) x = dot n c x + w * x k := by
  unfold dot
  induction n with
  | zero => omega
  | succ n ih =>
    rw [List.range_succ, List.map_append, List.map_append, List.sum_append, List.sum_append]
    simp only [List.map_cons, List.map_nil, List.sum_cons, List.sum_nil, add_zero]
    by_cases hkn : k = n
    · subst hkn
      have : (List.range k).map (fun v => Function.update c k w v * x v) = (List.range k).map (fun v => c v * x v) := by
        apply List.map_congr_left
        intro v hv
        rw [Function.update_of_ne]
        have := List.mem_range.1 hv
        omega
      rw [this, Function.update_self, h0]; ring
    · rw [ih (by omega), Function.update_of_ne (by omega)]; ring

theorem dot_foldl (n : Nat) (x : Nat → ℝ) (ps : List (Nat × ℝ)) : ∀ c : Nat → ℝ, (ps.map Prod.fst).Nodup →
    (∀ t ∈ ps, t.1 < n) → (∀ t ∈ ps, c t.1 = 0) →
    dot n (ps.foldl (fun c t => Function.update c t.1 t.2) c) x = dot n c x + (ps.map (fun t => t.2 * x t.1)).sum ∧
    ∀ v, v ∉ ps.map Prod.fst → ps.foldl (fun c t => Function.update c t.1 t.2) c v = c v := by
  induction ps with
  | nil => intro c _ _ _; simp
  | cons p ps ih =>
    intro c hnd hlt h0
    simp only [List.map_cons, List.nodup_cons] at hnd
    have h0' : ∀ t ∈ ps, Function.update c p.1 p.2 t.1 = 0 := by
      intro t ht
      rw [Function.update_of_ne]
      · exact h0 t (by simp [ht])
      · intro e; exact hnd.1 (e ▸ List.mem_map_of_mem ht)
    obtain ⟨i1, i2⟩ := ih (Function.update c p.1 p.2) hnd.2 (fun t ht => hlt t (by simp [ht])) h0'
    constructor
    · simp only [List.foldl_cons, List.map_cons, List.sum_cons]
      rw [i1, dot_update n p.1 c x p.2 (hlt p (by simp)) (h0 p (by simp))]; ring
    · intro v hv
      simp only [List.map_cons, List.mem_cons, not_or] at hv
      simp only [List.foldl_cons]
      rw [i2 v hv.2, Function.update_of_ne hv.1]

theorem foldl_soft (w : ℝ) (l : List (CQuad ℝ)) : ∀ c : Nat → ℝ,
    l.foldl (fun c q => Function.update c (q.extra.getLastD 0) w) c =
    (l.map (fun q => (q.extra.getLastD 0, w))).foldl (fun c t => Function.update c t.1 t.2) c := by
  induction l with
  | nil => intro c; rfl
  | cons a as ih => intro c; simp only [List.foldl_cons, List.map_cons]; exact ih _

theorem getLast_sublist (l : List (CQuad ℝ)) (h : ∀ q ∈ l, q.extra ≠ []) :
    List.Sublist (l.map (fun q => q.extra.getLastD 0)) (l.flatMap (·.extra)) := by
  induction l with
  | nil => simp
  | cons a as ih =>
    simp only [List.map_cons, List.flatMap_cons]
    have h1 : List.Sublist [a.extra.getLastD 0] a.extra := by
      rw [List.singleton_sublist]
      rw [List.getLastD_eq_getLast?, List.getLast?_eq_getLast_of_ne_nil (h a (by simp))]
      exact List.getLast_mem _
    exact List.Sublist.append h1 (ih (fun q hq => h q (by simp [hq])))

theorem filter_flatMap_sublist (l : List (CQuad ℝ)) (f : CQuad ℝ → Bool) :
    List.Sublist ((l.filter f).flatMap (·.extra)) (l.flatMap (·.extra)) := by
  induction l with
  | nil => simp
  | cons a as ih =>
    rw [List.filter_cons]
    split
    · simp only [List.flatMap_cons]; exact List.Sublist.append (List.Sublist.refl _) ih
    · simp only [List.flatMap_cons]; exact ih.trans (List.sublist_append_right _ _)

/-- The cost of a point. -/
theorem cost_eq (st : ApiState) (hi : st.Inv) (x0) (thr w : ℝ) (warm : Bool) (f : StdForm ℝ)
    (hf : st.p.build x0 thr w warm = some f) (x : Nat → ℝ) :
    f.cost x = LinExpr.tsum x st.p.obj.lin.terms +
      ((st.p.obj.quad.zip st.p.obj.extra).map (fun t => t.1.1 * x t.2)).sum +
      (if warm then 0 else ((st.p.qineq.filter (·.soft)).map (fun q => w * x (q.extra.getLastD 0))).sum) := by
  have hp := hi.wf
  rw [build_some st.p hp.shape] at hf
  have hf := (Option.some.inj hf).symm
  have hnd := List.nodup_append.1 hi.nd
  have hndE : st.p.extras.Nodup := hnd.2.1
  unfold Problem.extras at hndE
  have hndE' := List.nodup_append.1 (List.nodup_append.1 hndE).1
  have hlt : ∀ v ∈ st.p.extras, v < st.p.vars.length := fun v hv => hi.lt v (List.mem_append_right _ hv)
  have hcost : f.cost x = dot st.p.vars.length (st.p.buildC w warm) x := by rw [hf]; rfl
  rw [hcost]
  -- three groups of pairs
  obtain ⟨a1, a2⟩ := dot_foldl st.p.vars.length x st.p.obj.lin.terms (fun _ => 0) hi.objnd
    (fun t ht => hi.lt _ (List.mem_append_left _ (hi.obj.1 t ht))) (fun _ _ => rfl)
  have hk2 : (st.p.obj.extra.zip (st.p.obj.quad.map Prod.fst)).map Prod.fst = st.p.obj.extra := by
    rw [List.map_fst_zip]; rw [List.length_map, hp.obj]
  have hobjlin : ∀ v ∈ st.p.extras, v ∉ st.p.obj.lin.terms.map Prod.fst := by
    intro v hv hc
    obtain ⟨t, ht, rfl⟩ := List.mem_map.1 hc
    exact hnd.2.2 t.1 (hi.obj.1 t ht) t.1 hv rfl
  have hmemk : ∀ t ∈ st.p.obj.extra.zip (st.p.obj.quad.map Prod.fst), t.1 ∈ st.p.extras := by
    intro t ht
    exact List.mem_append_left _ (List.mem_append_left _ (List.of_mem_zip ht).1)
  obtain ⟨b1, b2⟩ := dot_foldl st.p.vars.length x (st.p.obj.extra.zip (st.p.obj.quad.map Prod.fst)) _
    (by rw [hk2]; exact hndE'.1)
    (fun t ht => hlt _ (hmemk t ht))
    (fun t ht => a2 _ (hobjlin _ (hmemk t ht)))
  have hz : dot st.p.vars.length (fun _ => 0) x = 0 := by simp [dot]
  have hb : ((st.p.obj.extra.zip (st.p.obj.quad.map Prod.fst)).map (fun t => t.2 * x t.1)).sum =
      ((st.p.obj.quad.zip st.p.obj.extra).map (fun t => t.1.1 * x t.2)).sum := by
    congr 1
    generalize st.p.obj.extra = ex
    generalize st.p.obj.quad = qs
    induction ex generalizing qs with
    | nil => simp
    | cons e es ih => cases qs with
      | nil => simp
      | cons q qs => simp [ih]
  unfold Problem.buildC
  cases warm
  · simp only [if_neg Bool.false_ne_true]
    have hne : ∀ q ∈ st.p.qineq.filter (·.soft), q.extra ≠ [] := by
      intro q hq hc
      have hm := List.mem_filter.1 hq
      have := hp.qi q hm.1
      rw [hc, hm.2] at this; simp at this
    have hsub := (getLast_sublist _ hne).trans (filter_flatMap_sublist st.p.qineq (·.soft))
    have hmem : ∀ t ∈ (st.p.qineq.filter (·.soft)).map (fun q => (q.extra.getLastD 0, w)),
        t.1 ∈ st.p.qineq.flatMap (·.extra) := by
      intro t ht
      obtain ⟨q, hq, rfl⟩ := List.mem_map.1 ht
      exact hsub.subset (List.mem_map_of_mem (f := fun q : CQuad ℝ => q.extra.getLastD 0) hq)
    have hmem' : ∀ v ∈ st.p.qineq.flatMap (·.extra), v ∈ st.p.extras :=
      fun v hv => List.mem_append_left _ (List.mem_append_right _ hv)
    have hkeys : ((st.p.qineq.filter (·.soft)).map (fun q => (q.extra.getLastD 0, w))).map Prod.fst =
        (st.p.qineq.filter (·.soft)).map (fun q => q.extra.getLastD 0) := by
      rw [List.map_map]; rfl
    obtain ⟨c1, _⟩ := dot_foldl st.p.vars.length x ((st.p.qineq.filter (·.soft)).map (fun q => (q.extra.getLastD 0, w)))
      ((st.p.obj.extra.zip (st.p.obj.quad.map Prod.fst)).foldl (fun c t => Function.update c t.1 t.2)
        (st.p.obj.lin.terms.foldl (fun c t => Function.update c t.1 t.2) (fun _ => 0)))
      (by rw [hkeys]; exact hsub.nodup hndE'.2.1)
      (fun t ht => hlt _ (hmem' _ (hmem t ht)))
      (fun t ht => by
        rw [b2 t.1 (by
          rw [hk2]; intro hc
          exact hndE'.2.2 t.1 hc t.1 (hmem t ht) rfl)]
        exact a2 _ (hobjlin _ (hmem' _ (hmem t ht))))
    rw [foldl_soft, c1, b1, a1, hz, hb, List.map_map, LinExpr.tsum]
    simp only [zero_add]
    rfl
  · simp only [if_true]
    rw [b1, a1, hz, hb, LinExpr.tsum]
    simp only [zero_add, add_zero]

end Verif
