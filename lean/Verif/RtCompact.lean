/-
Proof that the block-shifting loop of `RtAffineUtils::removeZeroRows` and `RtModel::reduceColumns`
keeps an increasing list of items.
-/
import Verif.RtMat
import Mathlib.Tactic.Linarith

namespace Verif
namespace Rt

theorem searchFrom_spec (p : Nat → Bool) (n i : Nat) :
    (∀ k, i ≤ k → k < searchFrom p n i → p k = false) ∧
    (searchFrom p n i < n → p (searchFrom p n i) = true) ∧ (i ≤ n → searchFrom p n i ≤ n) := by
  fun_induction searchFrom p n i with
  | case1 i h hp => exact ⟨fun k h1 h2 => by omega, fun _ => hp, fun h => h⟩
  | case2 i h hp ih =>
    refine ⟨fun k h1 h2 => ?_, ih.2.1, fun _ => ih.2.2 (by omega)⟩
    rcases Nat.eq_or_lt_of_le h1 with h3 | h3
    · subst h3; simpa using hp
    · exact ih.1 k h3 h2
  | case3 i h => exact ⟨fun k h1 h2 => by omega, fun h' => absurd h' h, fun h => h⟩

theorem shiftCopy_eq {α : Type} (d : Nat → α) (dst src : Nat) (hle : dst ≤ src) (len i : Nat) :
    shiftCopy d dst src len i =
      if dst ≤ i ∧ i < dst + len then d (src + (i - dst)) else d i := by
  induction len generalizing i with
  | zero => simp only [shiftCopy]; rw [if_neg (by omega)]
  | succ len ih =>
    simp only [shiftCopy]
    by_cases h : i = dst + len
    · subst h
      rw [if_pos rfl, if_pos (by omega), ih, if_neg (by omega)]
      congr 1; omega
    · rw [if_neg h, ih]
      by_cases h2 : dst ≤ i ∧ i < dst + len
      · rw [if_pos h2, if_pos (by omega)]
      · rw [if_neg h2, if_neg (by omega)]

/-- What is left of the items `d0 0, .., d0 (b-1)` after the prefix below `b` has been treated (RtMatrix.hpp:87-115, 478-540). -/
structure Kept {α : Type} (emp ful : (Nat → α) → Nat → Bool) (d0 d : Nat → α) (n fe b : Nat)
    (L : List Nat) : Prop where
  sorted : L.Pairwise (· < ·)
  lt : ∀ i ∈ L, i < b
  ful : ∀ i < b, i < n → ful d0 i = true → i ∈ L
  emp : ∀ i ∈ L, emp d0 i = false
  len : fe = L.length
  data : ∀ k (h : k < L.length), d k = d0 (L[k])

variable {α : Type} {emp ful : (Nat → α) → Nat → Bool}

theorem compactLoop_spec (hemp : ∀ d d' i, d i = d' i → emp d i = emp d' i)
    (hful : ∀ d d' i, d i = d' i → ful d i = ful d' i) (n : Nat) (d0 : Nat → α)
    (hdis : ∀ i < n, ful d0 i = true → emp d0 i = false) :
    ∀ (d : Nat → α) (fe bs : Nat), fe ≤ bs → (∀ i, bs ≤ i → d i = d0 i) →
      (∃ L, (∀ i ∈ L, i < n) ∧ Kept emp ful d0 d n fe bs L) →
      ∃ L, (∀ i ∈ L, i < n) ∧ Kept emp ful d0 (compactLoop emp ful n d fe bs).1 n
        (compactLoop emp ful n d fe bs).2 n L := by
  intro d fe bs
  fun_induction compactLoop emp ful n d fe bs with
  | case1 d fe bs bs' h =>
    intro hle hd ⟨L, hn, hK⟩
    obtain ⟨s1, s2, s3⟩ := searchFrom_spec (ful d) n bs
    refine ⟨L, hn, ⟨hK.sorted, hn, ?_, hK.emp, hK.len, hK.data⟩⟩
    intro i hi _ hf
    by_cases hib : i < bs
    · exact hK.ful i hib hi hf
    · have := s1 i (by omega) (show i < bs' by omega)
      rw [hful d d0 i (hd i (by omega))] at this
      simp [this] at hf
  | case2 d fe bs bs' h be hlt ih =>
    intro hle hd ⟨L, hn, hK⟩
    obtain ⟨s1, s2, s3⟩ := searchFrom_spec (ful d) n bs
    obtain ⟨t1, t2, t3⟩ := searchFrom_spec (emp d) n (bs' + 1)
    have hbs : bs ≤ bs' := le_searchFrom _ _ _
    have hbe : bs' + 1 ≤ be := le_searchFrom _ _ _
    have hben : be ≤ n := t3 (by omega)
    have hfb : ful d0 bs' = true := by
      rw [← hful d d0 bs' (hd bs' hbs)]; exact s2 (by omega)
    apply ih (by omega)
    · intro i hi
      rw [shiftCopy_eq _ _ _ (by omega), if_neg (by omega)]
      exact hd i (by omega)
    · refine ⟨L ++ (List.range' bs' (be - bs')), ?_, ?_⟩
      · intro i hi
        rcases List.mem_append.1 hi with hi | hi
        · exact hn i hi
        · have := List.mem_range'_1.1 hi; omega
      · constructor
        · rw [List.pairwise_append]
          refine ⟨hK.sorted, List.pairwise_lt_range', ?_⟩
          intro a ha b hb
          have := hK.lt a ha
          have := List.mem_range'_1.1 hb
          omega
        · intro i hi
          rcases List.mem_append.1 hi with hi | hi
          · have := hK.lt i hi; omega
          · have := List.mem_range'_1.1 hi; omega
        · intro i hi hin hf
          rw [List.mem_append]
          by_cases h1 : i < bs
          · exact Or.inl (hK.ful i h1 hin hf)
          · by_cases h2 : i < bs'
            · have := s1 i (by omega) h2
              rw [hful d d0 i (hd i (by omega))] at this
              simp [this] at hf
            · right; rw [List.mem_range'_1]; omega
        · intro i hi
          rcases List.mem_append.1 hi with hi | hi
          · exact hK.emp i hi
          · have hr := List.mem_range'_1.1 hi
            rcases Nat.eq_or_lt_of_le hr.1 with h1 | h1
            · rw [← h1]; exact hdis bs' (by omega) hfb
            · rw [← hemp d d0 i (hd i (by omega))]
              exact t1 i h1 (by omega)
        · rw [List.length_append, List.length_range', hK.len]
        · intro k hk
          rw [shiftCopy_eq _ _ _ (by omega)]
          by_cases hkL : k < L.length
          · rw [if_neg (by rw [hK.len]; omega), List.getElem_append_left hkL]
            exact hK.data k hkL
          · rw [List.length_append, List.length_range'] at hk
            rw [if_pos (by rw [hK.len]; omega), List.getElem_append_right (by omega),
              List.getElem_range', hd _ (by omega), hK.len]
            congr 1; omega

/-- The block-shifting algorithm keeps an increasing list of indices which contains every item tested
non-empty and no item tested empty. -/
theorem compact_spec (hemp : ∀ d d' i, d i = d' i → emp d i = emp d' i)
    (hful : ∀ d d' i, d i = d' i → ful d i = ful d' i) (n : Nat) (d0 : Nat → α)
    (hdis : ∀ i < n, ful d0 i = true → emp d0 i = false) :
    ∃ L : List Nat, L.Pairwise (· < ·) ∧ (∀ i ∈ L, i < n) ∧ (∀ i < n, ful d0 i = true → i ∈ L) ∧
      (∀ i ∈ L, emp d0 i = false) ∧ (compact emp ful n d0).2 = L.length ∧
      ∀ k (h : k < L.length), (compact emp ful n d0).1 k = d0 (L[k]) := by
  obtain ⟨s1, s2, s3⟩ := searchFrom_spec (emp d0) n 0
  have hfe := s3 (Nat.zero_le n)
  obtain ⟨L, hn, hK⟩ := compactLoop_spec hemp hful n d0 hdis d0 (searchFrom (emp d0) n 0)
    (searchFrom (emp d0) n 0 + 1) (by omega) (fun _ _ => rfl)
    ⟨List.range (searchFrom (emp d0) n 0), fun i hi => by
        have := List.mem_range.1 hi; omega,
      ⟨List.pairwise_lt_range, fun i hi => by have := List.mem_range.1 hi; omega,
       fun i hi hin hf => by
        by_cases h : i < searchFrom (emp d0) n 0
        · exact List.mem_range.2 h
        · have hi' : i = searchFrom (emp d0) n 0 := by omega
          have h1 := hdis i hin hf
          rw [hi'] at h1
          rw [s2 (by omega)] at h1
          exact absurd h1 (by simp),
       fun i hi => s1 i (by omega) (List.mem_range.1 hi),
       (List.length_range).symm, fun k h => by simp⟩⟩
  exact ⟨L, hK.sorted, hn, fun i hi => hK.ful i hi hi, hK.emp, hK.len, hK.data⟩

end Rt
end Verif
