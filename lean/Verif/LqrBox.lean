import Verif.Lqr
import Verif.ConicSpec

/-!
The quadratic program `BackwardPass::findConstrainedControls` poses (BackwardPass.cpp:109-131), as a program of calls against the conic problem model
(the model is cleaned first, so the calls start from a fresh problem).
-/
namespace Verif
namespace Lqr

/-- `lin_expr_` for one column, BackwardPass.cpp:120-122. -/
noncomputable def boxLin {nu : Nat} (L : Mat nu nu) (col : Fin nu) : LinExpr ℝ :=
  (List.finRange nu).foldl (fun e (row : Fin nu) => e.addAssign (LinExpr.ofVar (row : Nat) (L row col))) (LinExpr.ofConst 0)

/-- `quad_expr_`, BackwardPass.cpp:118-125. -/
noncomputable def boxObjective {nu : Nat} (L : Mat nu nu) (g : Vec nu) : QuadExpr ℝ :=
  (List.finRange nu).foldl (fun q (col : Fin nu) => (q.addQuaTerm 1 (boxLin L col)).addLinTerm (LinExpr.ofVar (col : Nat) (g col))) QuadExpr.empty

/-- Limits of one control, BackwardPass.cpp:128-131. -/
noncomputable def boxLimits {nu : Nat} (u0 lo hi : Vec nu) (i : Fin nu) : List Op :=
  [.addLin ((LinExpr.ofConst (u0 i)).add (LinExpr.ofVar i)) ">" (LinExpr.ofConst (lo i)),
   .addLin ((LinExpr.ofConst (u0 i)).add (LinExpr.ofVar i)) "<" (LinExpr.ofConst (hi i))]

/-- The calls of `findConstrainedControls`, BackwardPass.cpp:111-131; `L` is the Cholesky factor, `g` the gradient, `u0` the nominal feedforward. -/
noncomputable def boxOps {nu : Nat} (L : Mat nu nu) (g u0 lo hi : Vec nu) : List Op :=
  (List.replicate nu (VarType.continuous, (0 : ℝ), (1 : ℝ), (0.5 : ℝ))).map (fun d => Op.addVar d.1 d.2.1 d.2.2.1 d.2.2.2) ++
  (Op.setObj (boxObjective L g) (LinExpr.ofConst 0) :: (List.finRange nu).flatMap (boxLimits u0 lo hi))

end Lqr
end Verif
