import Verif.Ldl
import Mathlib.Logic.Relation
import Mathlib.Data.Finset.Card
import Mathlib.Data.Finset.Range
import Mathlib.Tactic.Linarith

/-! The symbolic phase: `analyzePattern` computes the elimination tree and the column counts. -/
namespace Verif
namespace Ldl
open Function

/-- Only the upper triangle is stored and no entry twice. -/
def Upper (n : Nat) (A : Cols) : Prop := ∀ k < n, (∀ e ∈ A k, e.1 ≤ k) ∧ ((A k).map Prod.fst).Nodup

/-- `j` is reached from `i` by following parents. -/
abbrev Reach (par : Nat → Option Nat) : Nat → Nat → Prop := Relation.ReflTransGen (fun a b => par a = some b)

/-- `i` belongs to the pattern of row `k` of the factor. -/
def InRow (A : Cols) (par : Nat → Option Nat) (k i : Nat) : Prop := i < k ∧ ∃ e ∈ A k, Reach par e.1 i

/-- Parents of the first `k` nodes are later nodes among them. -/
def Good (k : Nat) (par : Nat → Option Nat) : Prop := ∀ i < k, ∀ p, par i = some p → i < p ∧ p < k

theorem reach_le {k : Nat} {par : Nat → Option Nat} (hg : Good k par) {i j : Nat} (hi : i < k) (h : Reach par i j) : i ≤ j ∧ j < k := by
  induction h with
  | refl => exact ⟨le_rfl, hi⟩
  | tail _ hs ih => have := hg _ ih.2 _ hs; omega

theorem reach_mono {k : Nat} {par par' : Nat → Option Nat} (hg : Good k par) (h : ∀ i < k, ∀ p, par i = some p → par' i = some p)
    {i j : Nat} (hi : i < k) (hr : Reach par i j) : Reach par' i j := by
  induction hr with
  | refl => exact .refl
  | tail hb hs ih => exact ih.tail (h _ (reach_le hg hi hb).2 _ hs)

/-- New edges into `k` do not change what is reached below `k`. -/
theorem reach_back {k : Nat} {par par' : Nat → Option Nat} (hg : Good (k + 1) par')
    (h : ∀ i < k, par' i = par i ∨ (par i = none ∧ par' i = some k)) {i j : Nat} (hi : i < k) (hj : j < k) (hr : Reach par' i j) :
    Reach par i j := by
  induction hr with
  | refl => exact .refl
  | @tail b c hb hs ih =>
    have h1 := reach_le hg (by omega) hb
    have h2 := hg _ h1.2 _ hs
    rcases h b (by omega) with e | ⟨-, e⟩
    · exact (ih (by omega)).tail (e ▸ hs)
    · rw [e] at hs; simp at hs; omega

open Classical in
/-- What holds before pass `k`. -/
structure SymInv (A : Cols) (k : Nat) (s : Sym) : Prop where
  good : Good k s.parent
  reach : ∀ k' < k, ∀ e ∈ A k', Reach s.parent e.1 k'
  cnt : ∀ i < k, s.lnnz i = ((Finset.range k).filter fun k' => InRow A s.parent k' i).card
  flag : ∀ i < k, s.flag i < k

/-- What holds within pass `k` before node `q` is visited; `s0` is the state before the pass. -/
structure WalkInv (A : Cols) (k : Nat) (s0 : Sym) (q : Nat) (s : Sym) : Prop where
  flagk : s.flag k = k
  flagle : ∀ i < k, s.flag i ≤ k
  good : Good (k + 1) s.parent
  ext : ∀ i < k, s.parent i = s0.parent i ∨ (s0.parent i = none ∧ s.parent i = some k)
  cnt : ∀ i < k, s.lnnz i = s0.lnnz i + if s.flag i = k then 1 else 0
  cntk : s.lnnz k = 0
  src : ∀ i < k, s.flag i = k → ∃ e ∈ A k, Reach s.parent e.1 i
  closed : ∀ i < k, s.flag i = k → ∃ p, s.parent i = some p ∧ (s.flag p = k ∨ p = q)

theorem symWalk_spec (A : Cols) (k : Nat) (s0 : Sym) (f row : Nat) (s : Sym) (hrow : row ≤ k) (hf : k < f + row)
    (hA : ∀ e ∈ A k, e.1 ≤ k) (w : WalkInv A k s0 row s) (hsrc : ∃ e ∈ A k, Reach s.parent e.1 row) :
    ∃ s', symWalk k f row s = some s' ∧ WalkInv A k s0 k s' ∧ s'.flag row = k ∧ ∀ i, s.flag i = k → s'.flag i = k := by
  induction f generalizing row s with
  | zero => omega
  | succ f ih =>
    rw [symWalk]
    by_cases h : s.flag row = k
    · rw [if_pos h]
      refine ⟨s, rfl, { w with closed := fun i hi hfi => ?_ }, h, fun _ h => h⟩
      obtain ⟨p, hp, h1 | h1⟩ := w.closed i hi hfi
      · exact ⟨p, hp, .inl h1⟩
      · exact ⟨p, hp, .inl (h1 ▸ h)⟩
    · rw [if_neg h]
      have hlt : row < k := by
        rcases hrow.lt_or_eq with h' | h'
        · exact h'
        · exact absurd (h' ▸ w.flagk) h
      set par := if s.parent row = none then update s.parent row (some k) else s.parent with hpar
      have hext : ∀ i, ∀ p, s.parent i = some p → par i = some p := by
        intro i p hp
        rw [hpar]; split
        · rename_i hn
          by_cases hir : i = row
          · rw [hir] at hp; rw [hp] at hn; simp at hn
          · rw [update_of_ne hir, hp]
        · exact hp
      have hother : ∀ i, i ≠ row → par i = s.parent i := by
        intro i hi; rw [hpar]; split
        · rw [update_of_ne hi]
        · rfl
      have hrowp : ∃ r, par row = some r ∧ row < r ∧ r ≤ k ∧ (par row = s.parent row ∨ (s.parent row = none ∧ par row = some k)) := by
        rw [hpar]
        by_cases hn : s.parent row = none
        · rw [if_pos hn, update_self]; exact ⟨k, rfl, hlt, le_rfl, .inr ⟨hn, rfl⟩⟩
        · rw [if_neg hn]
          obtain ⟨r, hr⟩ := Option.ne_none_iff_exists'.1 hn
          have := w.good row (by omega) r hr
          exact ⟨r, hr, this.1, by omega, .inl rfl⟩
      obtain ⟨r, hr, hr1, hr2, hr3⟩ := hrowp
      have hgood : Good (k + 1) par := by
        intro i hi p hp
        by_cases hir : i = row
        · subst hir; rw [hr] at hp; cases hp; omega
        · rw [hother i hir] at hp; exact w.good i hi p hp
      have hreach : ∀ {a b}, Reach s.parent a b → Reach par a b := fun hab => Relation.ReflTransGen.mono (fun a b h => hext a b h) _ _ hab
      have hne : ∀ i, s.flag i = k → i ≠ row := fun i hi e => h (e ▸ hi)
      simp only [hr]
      obtain ⟨e0, he0, hre0⟩ := hsrc
      obtain ⟨s', h1, h2, h3, h4⟩ := ih r ⟨update s.flag row k, update s.lnnz row (s.lnnz row + 1), par⟩ hr2 (by omega)
        { flagk := by show update s.flag row k k = k; rw [update_of_ne (by omega : k ≠ row)]; exact w.flagk
          flagle := by
            intro i hi
            show update s.flag row k i ≤ k
            by_cases hir : i = row
            · rw [hir, update_self]
            · rw [update_of_ne hir]; exact w.flagle i hi
          good := hgood
          ext := by
            intro i hi
            show par i = s0.parent i ∨ (s0.parent i = none ∧ par i = some k)
            by_cases hir : i = row
            · subst hir
              rcases hr3 with e | ⟨e1, e2⟩
              · rw [e]; exact w.ext i hi
              · rcases w.ext i hi with e3 | ⟨e3, e4⟩
                · exact .inr ⟨e3 ▸ e1, e2⟩
                · rw [e4] at e1; simp at e1
            · rw [hother i hir]; exact w.ext i hi
          cnt := by
            intro i hi
            show update s.lnnz row (s.lnnz row + 1) i = _ + if update s.flag row (k : Int) i = k then 1 else 0
            by_cases hir : i = row
            · subst hir
              rw [update_self, update_self, if_pos rfl, w.cnt i hi, if_neg h]
            · rw [update_of_ne hir, update_of_ne hir]; exact w.cnt i hi
          cntk := by
            show update s.lnnz row (s.lnnz row + 1) k = 0
            rw [update_of_ne (by omega : k ≠ row)]; exact w.cntk
          src := by
            intro i hi hfi
            by_cases hir : i = row
            · rw [hir]; exact ⟨e0, he0, hreach hre0⟩
            · have hfi' : s.flag i = k := by
                have : update s.flag row (k : Int) i = k := hfi
                rwa [update_of_ne hir] at this
              obtain ⟨e, he, hre⟩ := w.src i hi hfi'
              exact ⟨e, he, hreach hre⟩
          closed := by
            intro i hi hfi
            show ∃ p, par i = some p ∧ (update s.flag row (k : Int) p = k ∨ p = r)
            by_cases hir : i = row
            · exact ⟨r, hir ▸ hr, .inr rfl⟩
            · have hfi' : s.flag i = k := by
                have : update s.flag row (k : Int) i = k := hfi
                rwa [update_of_ne hir] at this
              obtain ⟨p, hp, h1 | h1⟩ := w.closed i hi hfi'
              · exact ⟨p, hext i p hp, .inl (by rw [update_of_ne (hne p h1)]; exact h1)⟩
              · exact ⟨p, hext i p hp, .inl (by rw [h1, update_self])⟩ }
        ⟨e0, he0, (hreach hre0).tail hr⟩
      refine ⟨s', h1, h2, h4 row (by simp), fun i hi => h4 i ?_⟩
      show update s.flag row (k : Int) i = k
      rw [update_of_ne (hne i hi)]; exact hi

theorem symCol_spec (A : Cols) (n k : Nat) (hkn : k < n) (s0 : Sym) (l : List (Nat × ℝ)) (s : Sym) (hl : ∀ e ∈ l, e ∈ A k)
    (hA : ∀ e ∈ A k, e.1 ≤ k) (w : WalkInv A k s0 k s) :
    ∃ s', symCol n k l s = some s' ∧ WalkInv A k s0 k s' ∧ (∀ e ∈ l, s'.flag e.1 = k) ∧ ∀ i, s.flag i = k → s'.flag i = k := by
  induction l generalizing s with
  | nil => exact ⟨s, rfl, w, by simp, fun _ h => h⟩
  | cons e l ih =>
    have he := hl e (by simp)
    have w' : WalkInv A k s0 e.1 s := by
      refine { w with closed := fun i hi hf => ?_ }
      rcases w.closed i hi hf with ⟨p, hp, h | h⟩
      · exact ⟨p, hp, .inl h⟩
      · exact ⟨p, hp, .inl (h ▸ w.flagk)⟩
    obtain ⟨s1, h1, h2, h3, h4⟩ := symWalk_spec A k s0 (n + 1) e.1 s (hA e he) (by omega) hA w' ⟨e, he, .refl⟩
    obtain ⟨s2, k1, k2, k3, k4⟩ := ih s1 (fun e h => hl e (List.mem_cons_of_mem _ h)) h2
    refine ⟨s2, by rw [symCol, h1]; exact k1, k2, ?_, fun i hi => k4 i (h4 i hi)⟩
    intro e' he'
    rcases List.mem_cons.1 he' with rfl | h
    · exact k4 _ h3
    · exact k3 e' h

theorem closed_reach {A : Cols} {k : Nat} {s0 s : Sym} (w : WalkInv A k s0 k s) (i : Nat) (hi : i ≤ k) (hf : s.flag i = k) :
    Reach s.parent i k := by
  obtain ⟨m, hm⟩ : ∃ m, k - i = m := ⟨_, rfl⟩
  induction m using Nat.strong_induction_on generalizing i with
  | _ m ih =>
    rcases hi.lt_or_eq with h | h
    · obtain ⟨p, hp, hq⟩ := w.closed i h hf
      have := w.good i (by omega) p hp
      have hfp : s.flag p = k := by
        rcases hq with hq | hq
        · exact hq
        · exact hq ▸ w.flagk
      exact Relation.ReflTransGen.head hp (ih (k - p) (by omega) p (by omega) hfp rfl)
    · exact h ▸ .refl

theorem flag_iff_inRow {A : Cols} {k : Nat} {s0 s : Sym} (w : WalkInv A k s0 k s) (hA : ∀ e ∈ A k, e.1 ≤ k)
    (hf : ∀ e ∈ A k, s.flag e.1 = k) (i : Nat) (hi : i < k) : s.flag i = k ↔ InRow A s.parent k i := by
  constructor
  · intro h; exact ⟨hi, w.src i hi h⟩
  · rintro ⟨-, e, he, hr⟩
    have key : ∀ a, a ≤ k → s.flag a = k → Reach s.parent a i → s.flag i = k := by
      intro a ha hfa hr
      induction hr using Relation.ReflTransGen.head_induction_on with
      | refl => exact hfa
      | @head a b hab hbi ih =>
        have hb := w.good a (by omega) b hab
        have : a < k := by
          have := (reach_le w.good (by omega) hbi).1; omega
        obtain ⟨p, hp, hq⟩ := w.closed a this hfa
        rw [hab] at hp; cases hp
        refine ih (by omega) ?_
        rcases hq with hq | hq
        · exact hq
        · exact hq ▸ w.flagk
    exact key e.1 (hA e he) (hf e he) hr

theorem symStep_spec (A : Cols) (n k : Nat) (hkn : k < n) (hA : ∀ e ∈ A k, e.1 ≤ k) (hA' : ∀ k' < k, ∀ e ∈ A k', e.1 ≤ k') (s : Sym)
    (hs : SymInv A k s) : ∃ s', symStep n A k s = some s' ∧ SymInv A (k + 1) s' := by
  have hk : ∀ i < k, i ≠ k := fun i hi => by omega
  obtain ⟨s', h1, w, h3, -⟩ := symCol_spec A n k hkn s (A k)
    ⟨update s.flag k k, update s.lnnz k 0, update s.parent k none⟩ (fun _ h => h) hA
    { flagk := by simp
      flagle := by intro i hi; simp only [update_of_ne (hk i hi)]; exact (hs.flag i hi).le
      good := by
        intro i hi p hp
        simp only at hp
        by_cases hik : i = k
        · rw [hik, update_self] at hp; simp at hp
        · rw [update_of_ne hik] at hp
          have := hs.good i (by omega) p hp; omega
      ext := by intro i hi; left; simp only [update_of_ne (hk i hi)]
      cnt := by
        intro i hi
        have := hs.flag i hi
        simp only [update_of_ne (hk i hi)]
        rw [if_neg (by omega)]; rfl
      cntk := by simp
      src := by
        intro i hi hf
        simp only [update_of_ne (hk i hi)] at hf
        have := hs.flag i hi; omega
      closed := by
        intro i hi hf
        simp only [update_of_ne (hk i hi)] at hf
        have := hs.flag i hi; omega }
  refine ⟨s', h1, ?_⟩
  have hmono : ∀ i < k, ∀ p, s.parent i = some p → s'.parent i = some p := by
    intro i hi p hp
    rcases w.ext i hi with e | ⟨e, -⟩
    · rw [e, hp]
    · rw [e] at hp; simp at hp
  have hiff : ∀ k' < k, ∀ i, InRow A s'.parent k' i ↔ InRow A s.parent k' i := by
    intro k' hk' i
    constructor
    · rintro ⟨hi, e, he, hr⟩
      have := hA' k' hk' e he
      exact ⟨hi, e, he, reach_back w.good w.ext (by omega) (by omega) hr⟩
    · rintro ⟨hi, e, he, hr⟩
      have := hA' k' hk' e he
      exact ⟨hi, e, he, reach_mono hs.good hmono (by omega) hr⟩
  refine ⟨w.good, ?_, ?_, ?_⟩
  · intro k' hk' e he
    rcases Nat.lt_succ_iff_lt_or_eq.1 hk' with h | rfl
    · have := hA' k' h e he
      exact reach_mono hs.good hmono (by omega) (hs.reach k' h e he)
    · exact closed_reach w e.1 (hA e he) (h3 e he)
  · intro i hi
    classical
    rw [Finset.range_add_one, Finset.filter_insert]
    rcases Nat.lt_succ_iff_lt_or_eq.1 hi with h | rfl
    · rw [w.cnt i h, hs.cnt i h]
      have e1 : ((Finset.range k).filter fun k' => InRow A s'.parent k' i) = (Finset.range k).filter fun k' => InRow A s.parent k' i := by
        apply Finset.filter_congr
        intro k' hk'
        exact hiff k' (Finset.mem_range.1 hk') i
      rw [e1]
      by_cases hf : s'.flag i = k
      · rw [if_pos hf, if_pos ((flag_iff_inRow w hA h3 i h).1 hf), Finset.card_insert_of_notMem (by simp)]
      · rw [if_neg hf, if_neg (fun h' => hf ((flag_iff_inRow w hA h3 i h).2 h'))]; rfl
    · rw [w.cntk, if_neg (fun h => absurd h.1 (lt_irrefl _))]
      symm
      rw [Finset.card_eq_zero, Finset.filter_eq_empty_iff]
      intro k' hk' h
      have := Finset.mem_range.1 hk'
      have := h.1
      omega
  · intro i hi
    rcases Nat.lt_succ_iff_lt_or_eq.1 hi with h | rfl
    · have := w.flagle i h; push_cast; omega
    · rw [w.flagk]; push_cast; omega

/-- `analyzePattern` always stops; it computes the elimination tree and the sizes of the columns of the factor. -/
theorem analyze_spec (n : Nat) (A : Cols) (hA : Upper n A) (s : Sym) : ∃ s', analyze n A s = some s' ∧ SymInv A n s' := by
  have key : ∀ k, k ≤ n → ∃ s', symLoop n A k s = some s' ∧ SymInv A k s' := by
    intro k hk
    induction k with
    | zero => exact ⟨s, rfl, ⟨fun i h => by omega, fun i h => by omega, fun i h => by omega, fun i h => by omega⟩⟩
    | succ k ih =>
      obtain ⟨s1, h1, h2⟩ := ih (by omega)
      obtain ⟨s2, h3, h4⟩ := symStep_spec A n k (by omega) (hA k (by omega)).1 (fun k' hk' => (hA k' (by omega)).1) s1 h2
      exact ⟨s2, by rw [symLoop, h1]; exact h3, h4⟩
  exact key n le_rfl

end Ldl
end Verif
