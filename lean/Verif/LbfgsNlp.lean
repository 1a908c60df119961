import Verif.Lbfgs

/-!
Model of the class around L-BFGS, `solver::LbfgsSolver` (/repo/solver/src/solver/optimizer/LbfgsSolver.cpp:1018-1133,
/repo/solver/include/solver/optimizer/LbfgsSolver.hpp:422-451) and of the problem descriptions it works on
(/repo/solver/include/solver/interface/NlpDescription.hpp). Callbacks find their object through an address stored in a buffer on the heap; the
implicitly declared copy constructor and assignment copy the pointer to that buffer. A description is taken to be pure: its methods depend on
their arguments only. Memory is modelled by names of objects; the buffer by the name of the object whose address it holds.
-/

namespace Verif
namespace Lbfgs

/-- A problem description: sizes, bounds, functions and the starting point, NlpDescription.hpp:28-45. -/
structure Prob where
  n : Nat
  c : Nat
  nlp : Nlp n c
  x0 : Vec n

/-- An `LbfgsSolver`, LbfgsSolver.hpp:445-450: `prob` is `nlproblem_` (with `nvars_`, `ncons_`, which are read from it in `initialize`),
`weight` is `constraints_weight_`, `self` the object whose address is in the buffer `user_info_` points to. `verbose_` only affects printing. -/
structure Obj where
  prob : Nat
  weight : ℝ
  init : Bool
  params : Params
  self : Nat

/-- The objects alive, by name, and `optimalVector()`, `optimalValue()` of every description, NlpDescription.hpp:55-62. -/
structure World (P : Nat → Prob) where
  obj : Nat → Option Obj
  vec : (k : Nat) → Vec (P k).n
  val : Nat → ℝ

/-- What a program does with solvers: construct, copy (construction or assignment), destroy, `initialize`, assign to `opt_params()`,
`optimize` (LbfgsSolver.hpp:425-432). -/
inductive Call
  | create (a : Nat)
  | copy (dst src : Nat)
  | destroy (a : Nat)
  | init (a k : Nat) (w : ℝ)
  | setParams (a : Nat) (p : Params)
  | optimize (a : Nat)

/-- The callback `delegate_evaluate` with the object `o`, LbfgsSolver.cpp:1053-1081, for a vector of `n` numbers: only defined if the object has
been initialised with a description of that size (otherwise it reads or writes outside the arrays). -/
noncomputable def callback (P : Nat → Prob) (o : Obj) (n : Nat) : Option (Eval n) :=
  if o.init then
    if h : (P o.prob).n = n then some (h ▸ evaluate (penalised (P o.prob).nlp o.weight)) else none
  else none

/-- The callback `progress`, LbfgsSolver.cpp:1108-1132: it always returns zero. -/
def progress (n : Nat) : Vec n → Vec n → ℝ → Nat → Int := fun _ _ _ _ => 0

/-- Effect of a call. There is no transition for a call on an object that does not exist, and none for undefined behaviour. Construction
LbfgsSolver.cpp:1021-1028; copying: implicitly declared, member by member; destruction LbfgsSolver.hpp:426; `initialize`
LbfgsSolver.cpp:1030-1041; `opt_params()` LbfgsSolver.hpp:432; `optimize` LbfgsSolver.cpp:1043-1051. -/
inductive Step (P : Nat → Prob) : World P → Call → World P → Prop
  | create (W a k p) : Step P W (.create a) { W with obj := Function.update W.obj a (some ⟨k, 1, false, p, a⟩) }
  | copy (W : World P) (dst src s) (h : W.obj src = some s) : Step P W (.copy dst src) { W with obj := Function.update W.obj dst (some s) }
  | destroy (W a) : Step P W (.destroy a) { W with obj := Function.update W.obj a none }
  | init (W : World P) (a k w s) (h : W.obj a = some s) :
      Step P W (.init a k w) { W with obj := Function.update W.obj a (some { s with prob := k, weight := w, init := true, params := defparam }) }
  | setParams (W : World P) (a p s) (h : W.obj a = some s) :
      Step P W (.setParams a p) { W with obj := Function.update W.obj a (some { s with params := p }) }
  | idle (W : World P) (a s) (h : W.obj a = some s) (hi : s.init = false) : Step P W (.optimize a) W
  | optimize (W : World P) (a s o ev i r) (h : W.obj a = some s) (hi : s.init = true) (ho : W.obj s.self = some o)
      (hc : callback P o (P s.prob).n = some ev)
      (hr : Run s.params ev (progress _) (P s.prob).x0 (W.val s.prob) i r) :
      Step P W (.optimize a) { W with vec := Function.update W.vec s.prob r.x, val := Function.update W.val s.prob r.fx }

/-- Executions: a list of calls, oldest first (LbfgsSolver.hpp:425-432). -/
inductive Exec (P : Nat → Prob) : World P → List Call → World P → Prop
  | nil (W) : Exec P W [] W
  | snoc {W l W' c W''} (h : Exec P W l W') (hs : Step P W' c W'') : Exec P W (l ++ [c]) W''

/-- Before the first construction there are no solvers (LbfgsSolver.hpp:425). -/
def World.empty {P : Nat → Prob} (vec : (k : Nat) → Vec (P k).n) (val : Nat → ℝ) : World P := ⟨fun _ => none, vec, val⟩

end Lbfgs
end Verif
