import Verif.LbfgsProps

/-! C255: the stopping rule on the relative decrease of the objective, LbfgsSolver.cpp:371-392. -/
namespace Verif
namespace Lbfgs

/-! ### specification -/

/-- What a user expects of the code `LBFGS_STOP`: within the last `past` iterations the value decreased by less than `delta` times the
size of the reported value. `l` are the values accepted before the reported one. -/
def Stalled (past : Nat) (delta : ℝ) (l : List ℝ) (fx : ℝ) : Prop :=
  0 < past ∧ past ≤ l.length ∧ ∃ v, l[l.length - past]? = some v ∧ v - fx < delta * |fx|

/-! ### proofs -/

/-- An iteration that goes on did not meet the stopping rule. -/
theorem iter_goes_on {n : Nat} {p : Params} {ev : Eval n} {prog : Vec n → Vec n → ℝ → Nat → Int} {s s' : LState n}
    (h : iter p ev prog s = .inl s') : ¬ (0 < p.past ∧ p.past ≤ s.k ∧ rateBelow (s.pf (s.k % p.past.toNat)) s'.fx p.delta) := by
  unfold iter at h
  simp only at h
  generalize lineSearch p ev s.x s.fx s.g s.d s.step = r at h
  cases hr : r.ret with
  | error e => rw [hr] at h; simp at h
  | ok c =>
    rw [hr] at h
    simp only at h
    by_cases h1 : prog r.x r.g r.f s.k ≠ 0
    · rw [if_pos h1] at h; cases h
    rw [if_neg h1] at h
    by_cases h2 : norm2 r.g / max (norm2 r.x) 1 ≤ p.epsilon
    · rw [if_pos h2] at h; cases h
    rw [if_neg h2] at h
    by_cases h3 : 0 < p.past ∧ p.past ≤ s.k ∧ rateBelow (s.pf (s.k % p.past.toNat)) r.f p.delta
    · rw [if_pos h3] at h; cases h
    rw [if_neg h3] at h
    by_cases h4 : p.maxIterations ≠ 0 ∧ p.maxIterations < s.k + 1
    · rw [if_pos h4] at h; cases h
    rw [if_neg h4] at h
    by_cases h5 : p.m ≤ 0
    · rw [if_pos h5] at h; cases h
    rw [if_neg h5] at h
    injection h with h
    subst h
    exact h3

theorem iter_stops {n : Nat} {p : Params} {ev : Eval n} {prog : Vec n → Vec n → ℝ → Nat → Int} {s : LState n} {o : LsOut n} {c : Nat}
    (ho : lineSearch p ev s.x s.fx s.g s.d s.step = o) (hc : o.ret = .ok c) (h1 : prog o.x o.g o.f s.k = 0)
    (h2 : ¬ norm2 o.g / max (norm2 o.x) 1 ≤ p.epsilon)
    (h3 : 0 < p.past ∧ p.past ≤ s.k ∧ rateBelow (s.pf (s.k % p.past.toNat)) o.f p.delta) :
    iter p ev prog s = .inr ⟨.stop, o.x, o.f⟩ := by
  subst ho
  unfold iter
  simp only [hc]
  rw [if_neg (not_not.mpr h1), if_neg h2, if_pos h3]

theorem hist_le {n : Nat} {p : Params} (hv : validate n p = none) {ev : Eval n} {prog : Vec n → Vec n → ℝ → Nat → Int} {x0 : Vec n}
    {s : LState n} {l : List ℝ} (h : Hist p ev prog x0 s l) : s.fx ≤ (ev x0).1 ∧ ∀ v ∈ l, s.fx ≤ v := by
  have hI := inv_hist hv h
  have h1 := hI.last
  have hk := hI.kpos
  have hlen := hI.len
  have key : ∀ v ∈ l, s.fx ≤ v := by
    intro v hm
    obtain ⟨j, hj, rfl⟩ := List.getElem_of_mem hm
    rw [List.getElem?_eq_getElem (by omega)] at h1
    injection h1 with h1
    rcases Nat.lt_or_ge j (s.k - 1) with hlt | hge
    · have := List.pairwise_iff_getElem.mp hI.sorted j (s.k - 1) hj (by omega) hlt
      rw [h1] at this
      exact this
    · have : j = s.k - 1 := by omega
      subst this
      exact h1.ge
  exact ⟨key _ (List.mem_of_getElem? hI.head), key⟩

/-- C255, violated in general: if the objective is negative at the starting point, then, whatever the problem, the improvement and the
gradient, the method performs at most `past` iterations (the quotient is never positive). -/
theorem C255_negative_violated {n : Nat} (p : Params) (hv : validate n p = none) (hp : 0 < p.past) (hd : 0 < p.delta) (ev : Eval n)
    (prog : Vec n → Vec n → ℝ → Nat → Int) (x0 : Vec n) (hneg : (ev x0).1 < 0) (fx0 : ℝ) (i : Nat) (r : Result n)
    (h : Run p ev prog x0 fx0 i r) : (i : Int) ≤ p.past := by
  cases h with
  | invalid _ => simpa using hp.le
  | already _ _ => simpa using hp.le
  | run _ hg hr =>
    obtain ⟨s, l, hh, -, hk⟩ := loop_last hr _ .start
    have hki : s.k = i := by have : (start p ev x0).k = 1 := rfl; omega
    by_contra hcon
    cases hh with
    | start => have : (start p ev x0).k = 1 := rfl; omega
    | @step s0 _ l h0 hs =>
      have hI := inv_hist hv h0
      obtain ⟨c, -, -, -, -, h5, -⟩ := iter_inl ev hs
      have hle := hist_le hv (.step h0 hs)
      have hpk : p.past ≤ s0.k := by omega
      have hm := hI.past hp (s0.k - p.past.toNat) (by omega) (by omega)
      have he : s0.pf ((s0.k - p.past.toNat) % p.past.toNat) = s0.pf (s0.k % p.past.toNat) := by
        congr 1; exact (Nat.mod_eq_sub_mod (by omega)).symm
      rw [he] at hm
      have hv' := hle.2 _ (List.mem_append_left _ (List.mem_of_getElem? hm))
      have hfx : s.fx < 0 := lt_of_le_of_lt hle.1 hneg
      refine iter_goes_on hs ⟨hp, hpk, ?_⟩
      unfold rateBelow
      rw [if_neg hfx.ne]
      exact lt_of_le_of_lt (div_nonpos_of_nonneg_of_nonpos (by linarith) hfx.le) hd

/-- C255, what holds: with a positive reported value the code "stop" is reported exactly as a user expects: never without stalling, and no
iteration goes on that has stalled. -/
theorem C255_positive_partial {n : Nat} (p : Params) (hv : validate n p = none) (ev : Eval n) (prog : Vec n → Vec n → ℝ → Nat → Int)
    (x0 : Vec n) :
    (∀ fx0 i r, Run p ev prog x0 fx0 i r → r.ret = .stop → 0 < r.fx →
      ∃ s l, Hist p ev prog x0 s l ∧ l.length = i ∧ Stalled p.past.toNat p.delta l r.fx) ∧
    (∀ s l s', Hist p ev prog x0 s l → iter p ev prog s = .inl s' → 0 < (ev s'.x).1 →
      ¬ Stalled p.past.toNat p.delta l (ev s'.x).1) := by
  refine ⟨?_, ?_⟩
  · intro fx0 i r h hs hpos
    obtain ⟨s, l, v, h1, h2, h3, h4, h5, h6⟩ := (C30_exit_codes p ev prog x0 fx0 i r h).2.2.1 hs
    refine ⟨s, l, h1, h2, by omega, by omega, v, by rw [h2]; exact h5, ?_⟩
    unfold rateBelow at h6
    rw [if_neg hpos.ne', div_lt_iff₀ hpos] at h6
    rwa [abs_of_pos hpos]
  · intro s l s' h hs hpos ⟨h1, h2, v, h3, h4⟩
    have hI := inv_hist hv h
    have hI' := inv_hist hv (.step h hs)
    obtain ⟨a1, -⟩ := eval_split hI'.eval
    rw [← a1] at hpos h4
    have hlen := hI.len
    rw [hlen] at h2 h3
    have hp : 0 < p.past := by omega
    have hm := hI.past hp (s.k - p.past.toNat) (by omega) (by omega)
    rw [← Nat.mod_eq_sub_mod (by omega)] at hm
    rw [hm] at h3
    injection h3 with h3
    refine iter_goes_on hs ⟨hp, by omega, ?_⟩
    unfold rateBelow
    rw [if_neg hpos.ne', h3, div_lt_iff₀ hpos]
    rwa [abs_of_pos hpos] at h4

/-- The sample objective `x²/2 + c`. -/
noncomputable def bowl (c : ℝ) : Eval 1 := fun x => (x 0 ^ 2 / 2 + c, fun _ => x 0)

/-- Sample parameters: backtracking, the test on the last iteration, threshold `δ`. -/
noncomputable def stopPar (δ : ℝ) : Params := { defparam with linesearch := 1, past := 1, delta := δ }

theorem norm_one {a : ℝ} (ha : 0 ≤ a) : norm2 (fun _ : Fin 1 => a) = a := by
  have : dot (fun _ : Fin 1 => a) (fun _ => a) = a ^ 2 := by simp [dot]; ring
  unfold norm2
  rw [this, Real.sqrt_sq ha]

theorem run_bowl (c δ : ℝ) (hδ : 0 ≤ δ) (hr : rateBelow (9/2 + c) (2 + c) δ) :
    Run (stopPar δ) (bowl c) (fun _ _ _ _ => 0) (fun _ => 3) 0 1 ⟨.stop, fun _ => 2, 2 + c⟩ := by
  have hnneg : norm2 (-(fun _ : Fin 1 => (3:ℝ))) = 3 := by
    have : dot (-(fun _ : Fin 1 => (3:ℝ))) (-(fun _ => 3)) = 3 ^ 2 := by simp [dot]; norm_num
    unfold norm2
    rw [this, Real.sqrt_sq (by norm_num)]
  have hx : (fun _ : Fin 1 => (3:ℝ)) + (1/3 : ℝ) • (-(fun _ : Fin 1 => (3:ℝ))) = fun _ => 2 := by
    funext i; simp; norm_num
  have hx' : (fun _ : Fin 1 => (3:ℝ)) + (1/3 : ℝ) • (-(bowl c fun _ => 3).2) = fun _ => 2 := hx
  refine .run ?_ ?_ (.done ?_)
  · simp [validate, stopPar, defparam, not_lt.mpr hδ]; norm_num
  · show ¬ norm2 (fun _ : Fin 1 => (3:ℝ)) / max (norm2 (fun _ : Fin 1 => (3:ℝ))) 1 ≤ (stopPar δ).epsilon
    rw [norm_one (by norm_num)]; simp [stopPar, defparam]; norm_num
  · have hls : lineSearch (stopPar δ) (bowl c) (fun _ => 3) (bowl c fun _ => 3).1 (bowl c fun _ => 3).2 (-(bowl c fun _ => 3).2) (1/3) =
        ⟨fun _ => 2, 2 + c, fun _ => 2, 1/3, 1, .ok 1⟩ := by
      unfold lineSearch
      rw [if_neg (by simp [stopPar])]
      unfold backtracking
      have hd : dot (bowl c fun _ => 3).2 (-(bowl c fun _ => 3).2) = -9 := by simp [dot, bowl]; norm_num
      rw [if_neg (by norm_num), hd, if_neg (by norm_num), btLoop]
      have hf : bowl c (fun _ => 2) = (2 + c, fun _ => 2) := by simp [bowl]; norm_num
      have hdec : ∀ dg, btDecide (stopPar δ) (bowl c fun _ => 3).1 (-9) (1/3) (2 + c) dg = none := by
        intro dg
        unfold btDecide
        rw [if_neg, if_pos (by simp [stopPar])]
        simp [bowl, stopPar, defparam]; norm_num; linarith
      simp only [hx', hf, hdec]
    have hst : 1 / norm2 (-(bowl c fun _ => 3).2) = 1/3 := by
      show 1 / norm2 (-(fun _ : Fin 1 => (3:ℝ))) = 1/3
      rw [hnneg]
    refine iter_stops (o := ⟨fun _ => 2, 2 + c, fun _ => 2, 1/3, 1, .ok 1⟩) (c := 1) ?_ rfl rfl ?_ ⟨by simp [stopPar], by simp [stopPar, start], ?_⟩
    · simp only [start, hst, hls]
    · simp only [norm_one (show (0:ℝ) ≤ 2 by norm_num)]; simp [stopPar, defparam]; norm_num
    · have e : (start (stopPar δ) (bowl c) fun _ => 3).pf ((start (stopPar δ) (bowl c) fun _ => 3).k % (stopPar δ).past.toNat) = 9/2 + c := by
        simp [start, stopPar, bowl]; norm_num
      rw [e]; exact hr

/-- C255 is false: on `f(x) = x²/2 - 100` from `3`, with `past = 1` and `delta = 10⁻²`, the method reports "stop" at `x = 2` after one
iteration, although this iteration improved the value by more than `delta` times its size, the gradient is not small and the minimum is at `0`. -/
theorem C255_violated :
    ∃ r, Run (stopPar (1/100)) (bowl (-100)) (fun _ _ _ _ => 0) (fun _ => 3) 0 1 r ∧ r.ret = .stop ∧ r.x = (fun _ => 2) ∧ r.fx = -98 ∧
      ¬ Stalled 1 (1/100) [(bowl (-100) fun _ => 3).1] r.fx ∧ ¬ SmallGradient (bowl (-100)) (stopPar (1/100)).epsilon r.x := by
  refine ⟨_, run_bowl (-100) (1/100) (by norm_num) ?_, rfl, rfl, by norm_num, ?_, ?_⟩
  · unfold rateBelow; norm_num
  · rintro ⟨-, -, v, h1, h2⟩
    simp [bowl] at h1 h2
    subst h1
    norm_num [abs_of_neg] at h2
  · unfold SmallGradient
    show ¬ norm2 (fun _ : Fin 1 => (2:ℝ)) ≤ (stopPar (1/100)).epsilon * max (norm2 (fun _ : Fin 1 => (2:ℝ))) 1
    rw [norm_one (by norm_num)]; simp [stopPar, defparam]; norm_num

/-- The hypotheses of `C255_negative_violated` are met by the run of `C255_violated`. -/
example : validate 1 (stopPar (1/100)) = none ∧ 0 < (stopPar (1/100)).past ∧ 0 < (stopPar (1/100)).delta ∧ (bowl (-100) fun _ => 3).1 < 0 := by
  refine ⟨?_, ?_, ?_, ?_⟩
  · simp [validate, stopPar, defparam]; norm_num
  · simp [stopPar]
  · norm_num [stopPar]
  · norm_num [bowl]

/-- A run that stops with a positive value, as in `C255_positive_partial`. -/
example : ∃ r, Run (stopPar (1/10)) (bowl 100) (fun _ _ _ _ => 0) (fun _ => 3) 0 1 r ∧ r.ret = .stop ∧ 0 < r.fx := by
  refine ⟨_, run_bowl 100 (1/10) (by norm_num) ?_, rfl, by norm_num⟩
  unfold rateBelow; norm_num

end Lbfgs
end Verif
