import Verif.ConicSpec
import Verif.ConicLemmas
import Mathlib.Tactic.Positivity

set_option linter.unusedSimpArgs false
set_option linter.unusedSectionVars false

/-! Semantics of the standard form in terms of the stored constraints. -/
namespace Verif
open Sys Build

/-- Structural invariant of the stored problem needed to read off the rows. -/
structure Problem.WF (p : Problem ℝ) : Prop where
  lo : p.binLo = List.replicate p.bins.length 0
  up : p.binUp = List.replicate p.bins.length 1
  obj : p.obj.extra.length = p.obj.quad.length
  qi : ∀ q ∈ p.qineq, q.extra.length = q.quad.length + (if q.soft then 1 else 0)
  so : ∀ q ∈ p.soc, q.extra.length = 1

/-- The part of `WF` that does not fix the values of the binary bounds. -/
structure Problem.Shape (p : Problem ℝ) : Prop where
  loLen : p.binLo.length = p.bins.length
  upLen : p.binUp.length = p.bins.length
  obj : p.obj.extra.length = p.obj.quad.length
  qi : ∀ q ∈ p.qineq, q.extra.length = q.quad.length + (if q.soft then 1 else 0)
  so : ∀ q ∈ p.soc, q.extra.length = 1

theorem Problem.WF.shape {p : Problem ℝ} (h : p.WF) : p.Shape :=
  ⟨by rw [h.lo]; simp, by rw [h.up]; simp, h.obj, h.qi, h.so⟩

namespace Problem
variable (p : Problem ℝ) (x0 : Nat → ℝ) (thr : ℝ) (warm : Bool)

/-- All linear inequality rows of the built problem. -/
noncomputable def lpRows : List ((Nat → ℝ) → ℝ) :=
  (p.bins.zip (p.binLo.zip p.binUp)).flatMap Rows.bin ++ p.lineq.flatMap (fun e => [Rows.lin e]) ++
  p.qineq.flatMap (fun q => [Rows.qlin q]) ++ p.soc.flatMap (fun q => [Rows.socLin q]) ++
  (if warm then [] else (p.qineq.filter (·.trust)).flatMap (fun q => [Rows.trust x0 thr q]))

/-- All second-order cones of the built problem. -/
noncomputable def blocks : List (List ((Nat → ℝ) → ℝ)) :=
  (p.obj.extra.zip (p.obj.quad.map Prod.snd)).map Rows.quad3 ++
  (if warm then [] else (p.qineq.filter (·.soft)).map (Rows.soft3 x0)) ++
  p.qineq.flatMap (fun q => (q.extra.zip (q.quad.map Prod.snd)).map Rows.quad3) ++
  p.soc.map Rows.socCone

end Problem

theorem flatMap_single_length {α β : Type} (l : List α) (f : α → β) : (l.flatMap (fun a => [f a])).length = l.length := by
  induction l with
  | nil => rfl
  | cons a as ih => simp

theorem flatMap_quad3_length (l : List (Nat × LinExpr ℝ)) : (l.flatMap Rows.quad3).length = 3 * l.length := by
  induction l with
  | nil => rfl
  | cons a as ih => simp [ih, Rows.quad3]; omega

theorem flatMap_soft3_length (x0) (l : List (CQuad ℝ)) : (l.flatMap (Rows.soft3 x0)).length = 3 * l.length := by
  induction l with
  | nil => rfl
  | cons a as ih => simp [ih, Rows.soft3]; omega

theorem flatMap_bin_length (l : List (Nat × ℝ × ℝ)) : (l.flatMap Rows.bin).length = 2 * l.length := by
  induction l with
  | nil => rfl
  | cons a as ih => simp [ih, Rows.bin]; omega

theorem qcone_length (q : CQuad ℝ) (h : q.extra.length = q.quad.length + (if q.soft then 1 else 0)) :
    (Rows.qcone q).length = 3 * q.quad.length := by
  rw [Rows.qcone, flatMap_quad3_length, List.length_zip, List.length_map, h]
  congr 1; omega

theorem flatMap_qcone_length (l : List (CQuad ℝ)) (h : ∀ q ∈ l, q.extra.length = q.quad.length + (if q.soft then 1 else 0)) :
    (l.flatMap Rows.qcone).length = (l.map (fun q => 3 * q.quad.length)).sum := by
  induction l with
  | nil => rfl
  | cons a as ih =>
    simp only [List.flatMap_cons, List.length_append, List.map_cons, List.sum_cons]
    rw [ih (fun q hq => h q (by simp [hq])), qcone_length a (h a (by simp))]

/-- The inequality system consists exactly of the linear rows followed by the cone blocks. -/
theorem buildIneq_ext (p : Problem ℝ) (hp : p.Shape) (x0 : Nat → ℝ) (thr : ℝ) (warm : Bool) :
    Ext (Sys.zero : Sys ℝ) (p.buildIneq x0 thr warm) 0
      (p.lpRows x0 thr warm ++ (p.blocks x0 warm).flatten) := by
  have hbl : (p.bins.zip (p.binLo.zip p.binUp)).length = p.bins.length := by
    simp [hp.loLen, hp.upLen]
  have e1 := Ext.forIdx (binBody 0) Rows.bin 2 0 (p.bins.zip (p.binLo.zip p.binUp)) (by simp [Rows.bin])
    (fun i a _ s hs => Rows.ext_bin 0 i a s hs) 0 Sys.zero (fun r _ => fresh_zero r)
  set s1 := forIdx (binBody 0) 0 (p.bins.zip (p.binLo.zip p.binUp)) (Sys.zero : Sys ℝ) with hs1
  have l1 := flatMap_bin_length (p.bins.zip (p.binLo.zip p.binUp))
  rw [hbl] at l1
  set n1 := 0 + 2 * p.bins.length with hn1
  have e2 := Ext.forIdx (lineqBody n1) (fun e => [Rows.lin e]) 1 n1 p.lineq (by simp)
    (fun i a _ s hs => by have := Rows.ext_lineq n1 i a s (by simpa using hs); simpa using this) 0 s1
    (by intro r hr; apply e1.above; rw [l1]; omega)
  set s2 := forIdx (lineqBody n1) 0 p.lineq s1 with hs2
  have l2 := flatMap_single_length p.lineq (fun e => Rows.lin e)
  set n2 := n1 + p.lineq.length with hn2
  have e3 := Ext.forIdx (qlinBody n2) (fun q => [Rows.qlin q]) 1 n2 p.qineq (by simp)
    (fun i a _ s hs => by have := Rows.ext_qlin n2 i a s (by simpa using hs); simpa using this) 0 s2
    (by intro r hr; apply e2.above; rw [l2]; omega)
  set s3 := forIdx (qlinBody n2) 0 p.qineq s2 with hs3
  have l3 := flatMap_single_length p.qineq (fun e => Rows.qlin e)
  set n3 := n2 + p.qineq.length with hn3
  have e4 := Ext.forIdx (socLinBody n3) (fun q => [Rows.socLin q]) 1 n3 p.soc (by simp)
    (fun i a _ s hs => by have := Rows.ext_socLin n3 i a s (by simpa using hs); simpa using this) 0 s3
    (by intro r hr; apply e3.above; rw [l3]; omega)
  set s4 := forIdx (socLinBody n3) 0 p.soc s3 with hs4
  have l4 := flatMap_single_length p.soc (fun e => Rows.socLin e)
  set n4 := n3 + p.soc.length with hn4
  have f4 : ∀ r ≥ n4, s4.Fresh r := by intro r hr; apply e4.above; rw [l4]; omega
  have e5 : Ext s4 (if warm then s4 else forCount (·.trust) (trustBody x0 thr n4) 0 p.qineq s4) n4
      (if warm then [] else (p.qineq.filter (·.trust)).flatMap (fun q => [Rows.trust x0 thr q])) := by
    cases warm
    · have := Ext.forIdx (trustBody x0 thr n4) (fun q => [Rows.trust x0 thr q]) 1 n4 (p.qineq.filter (·.trust)) (by simp)
        (fun i a _ s hs => by have := Rows.ext_trust x0 thr n4 i a s (by simpa using hs); simpa using this) 0 s4
        (by simpa using f4)
      simpa [forCount_eq] using this
    · simpa using Ext.refl f4
  set s5 := (if warm then s4 else forCount (·.trust) (trustBody x0 thr n4) 0 p.qineq s4) with hs5
  set n5 := (if warm then n4 else n4 + p.countTrust) with hn5
  have f5 : ∀ r ≥ n5, s5.Fresh r := by
    intro r hr; apply e5.above
    cases warm
    · have := flatMap_single_length (p.qineq.filter (·.trust)) (fun q => Rows.trust x0 thr q)
      simp only [if_neg Bool.false_ne_true, this] at *
      simpa [Problem.countTrust, hn5] using hr
    · simpa [hn5] using hr
  have l5 : n4 + (if warm then [] else (p.qineq.filter (·.trust)).flatMap (fun q => [Rows.trust x0 thr q])).length = n5 := by
    cases warm
    · have := flatMap_single_length (p.qineq.filter (·.trust)) (fun q => Rows.trust x0 thr q)
      simp only [if_neg Bool.false_ne_true, this, hn5, Problem.countTrust]
    · simp [hn5]
  have e6 := Ext.forIdx (quadBody n5) Rows.quad3 3 n5 (p.obj.extra.zip (p.obj.quad.map Prod.snd)) (by simp [Rows.quad3])
    (fun i a _ s hs => Rows.ext_quad n5 i a s hs) 0 s5 (by simpa using f5)
  set s6 := forIdx (quadBody n5) 0 (p.obj.extra.zip (p.obj.quad.map Prod.snd)) s5 with hs6
  have l6 : ((p.obj.extra.zip (p.obj.quad.map Prod.snd)).flatMap Rows.quad3).length = 3 * p.obj.extra.length := by
    rw [flatMap_quad3_length]; simp [hp.obj]
  set n6 := n5 + 3 * p.obj.extra.length with hn6
  have f6 : ∀ r ≥ n6, s6.Fresh r := by intro r hr; apply e6.above; rw [l6]; omega
  have e7 : Ext s6 (if warm then s6 else forCount (·.soft) (softBody x0 n6) 0 p.qineq s6) n6
      (if warm then [] else (p.qineq.filter (·.soft)).flatMap (Rows.soft3 x0)) := by
    cases warm
    · have := Ext.forIdx (softBody x0 n6) (Rows.soft3 x0) 3 n6 (p.qineq.filter (·.soft)) (by simp [Rows.soft3])
        (fun i a _ s hs => Rows.ext_soft x0 n6 i a s hs) 0 s6 (by simpa using f6)
      simpa [forCount_eq] using this
    · simpa using Ext.refl f6
  set s7 := (if warm then s6 else forCount (·.soft) (softBody x0 n6) 0 p.qineq s6) with hs7
  set n7 := (if warm then n6 else n6 + 3 * p.countSoft) with hn7
  have l7 : n6 + (if warm then [] else (p.qineq.filter (·.soft)).flatMap (Rows.soft3 x0)).length = n7 := by
    cases warm
    · simp only [if_neg Bool.false_ne_true, flatMap_soft3_length, hn7, Problem.countSoft]
    · simp [hn7]
  have f7 : ∀ r ≥ n7, s7.Fresh r := by intro r hr; apply e7.above; rw [l7]; exact hr
  have e8 := Ext.forStart (fun q => 3 * q.quad.length) qconeBody Rows.qcone p.qineq
    (fun q hq => qcone_length q (hp.qi q hq)) (fun lo q _ s hs => Rows.ext_qcone lo q s hs) n7 s7 f7
  set s8 := forStart (fun q => 3 * q.quad.length) qconeBody n7 p.qineq s7 with hs8
  have l8 := flatMap_qcone_length p.qineq hp.qi
  set n8 := n7 + (p.qineq.map (fun q => 3 * q.quad.length)).sum with hn8
  have f8 : ∀ r ≥ n8, s8.Fresh r := by intro r hr; apply e8.above; rw [l8]; exact hr
  have e9 := Ext.forStart (fun q => q.quad.length + 1) socBody Rows.socCone p.soc
    (fun q _ => by simp [Rows.socCone]) (fun lo q _ s hs => Rows.ext_soc lo q s hs) n8 s8 f8
  have hfinal : p.buildIneq x0 thr warm = forStart (fun q => q.quad.length + 1) socBody n8 p.soc s8 := rfl
  rw [hfinal]
  -- glue
  have c := (Ext.trans (by simpa using e1) (by rw [l1, ← hn1]; simpa using e2) : Ext (Sys.zero : Sys ℝ) s2 0 _)
  have c := Ext.trans c (by
    rw [List.length_append, l1, l2]; rw [show 0 + (2 * p.bins.length + p.lineq.length) = n2 by omega]; simpa using e3)
  have c := Ext.trans c (by
    rw [List.length_append, List.length_append, l1, l2, l3]
    rw [show 0 + (2 * p.bins.length + p.lineq.length + p.qineq.length) = n3 by omega]; simpa using e4)
  have len4 : 0 + ((p.bins.zip (p.binLo.zip p.binUp)).flatMap Rows.bin ++ p.lineq.flatMap (fun e => [Rows.lin e]) ++
      p.qineq.flatMap (fun q => [Rows.qlin q]) ++ p.soc.flatMap (fun q => [Rows.socLin q])).length = n4 := by
    rw [List.length_append, List.length_append, List.length_append, l1, l2, l3, l4]; omega
  have c := Ext.trans c (by rw [len4]; exact e5)
  have c := Ext.trans c (by
    rw [List.length_append, ← Nat.add_assoc, len4, l5]; simpa using e6)
  have c := Ext.trans c (by
    rw [List.length_append, List.length_append, ← Nat.add_assoc, ← Nat.add_assoc, len4, l5, l6]; exact e7)
  have c := Ext.trans c (by
    rw [List.length_append, List.length_append, List.length_append, ← Nat.add_assoc, ← Nat.add_assoc, ← Nat.add_assoc,
      len4, l5, l6, l7]; exact e8)
  have c := Ext.trans c (by
    rw [List.length_append, List.length_append, List.length_append, List.length_append, ← Nat.add_assoc,
      ← Nat.add_assoc, ← Nat.add_assoc, ← Nat.add_assoc, len4, l5, l6, l7, l8]; exact e9)
  have hq : (p.qineq.flatMap (fun q => (q.extra.zip (q.quad.map Prod.snd)).map Rows.quad3)).flatten
      = p.qineq.flatMap Rows.qcone := by
    induction p.qineq with
    | nil => rfl
    | cons a as ih =>
      rw [List.flatMap_cons, List.flatten_append, ih, List.flatMap_cons, Rows.qcone, ← List.flatMap_def]
  convert c using 1
  unfold Problem.lpRows Problem.blocks
  rw [List.flatten_append, List.flatten_append, List.flatten_append, hq]
  cases warm <;> simp [List.flatMap_def, List.append_assoc]

end Verif
