/-
Model of the operators of `ConicVector`, /repo/solver/src/solver/interface/Cone.cpp:328-389.

Simplification: as in `Cone`; the entries of a vector beyond its size are zero in the model (`initialize` resizes to the
size of the cone and sets zero, Cone.cpp:328-333).
-/
import Verif.Cone

namespace Verif
open Finset
namespace Cone

/-- `ConicVector::operator*`, Cone.cpp:342-347. -/
noncomputable def opMul (c : Cone) (u v : Nat → ℝ) : Nat → ℝ := c.conicProduct u v fun _ => 0

/-- `ConicVector::operator/`, Cone.cpp:335-340: the divisor is the left operand. -/
noncomputable def opDiv (c : Cone) (u w : Nat → ℝ) : Nat → ℝ := c.conicDivision u w fun _ => 0

/-- `ConicVector::operator+(ConicVector)`, Cone.cpp:349-354. -/
noncomputable def opAdd (c : Cone) (u v : Nat → ℝ) : Nat → ℝ := wr 0 c.sizecone (fun k => u k + v k) fun _ => 0

/-- The scalar is added to the linear entries and to the first entry of each cone, Cone.cpp:360-362, 379-381. -/
noncomputable def addHeads (c : Cone) (a : ℝ) (s : Nat → ℝ) : Nat → ℝ :=
  (List.range c.nsoc).foldl (fun s i => Function.update s (c.startSoc i) (s (c.startSoc i) + a)) (wr 0 c.nineq (fun k => s k + a) s)

/-- `ConicVector::operator+(double)`, Cone.cpp:356-364. -/
noncomputable def opAddS (c : Cone) (u : Nat → ℝ) (a : ℝ) : Nat → ℝ := c.addHeads a (wr 0 c.sizecone u fun _ => 0)

/-- The scalar is subtracted from the linear entries and from the first entry of each cone, Cone.cpp:370-372. -/
noncomputable def subHeads (c : Cone) (a : ℝ) (s : Nat → ℝ) : Nat → ℝ :=
  (List.range c.nsoc).foldl (fun s i => Function.update s (c.startSoc i) (s (c.startSoc i) - a)) (wr 0 c.nineq (fun k => s k - a) s)

/-- `ConicVector::operator-(double)`, Cone.cpp:366-374. -/
noncomputable def opSubS (c : Cone) (u : Nat → ℝ) (a : ℝ) : Nat → ℝ := c.subHeads a (wr 0 c.sizecone u fun _ => 0)

/-- `ConicVector::operator+=`, Cone.cpp:376-382: the vector afterwards. -/
noncomputable def opIncr (c : Cone) (u : Nat → ℝ) (a : ℝ) : Nat → ℝ := c.addHeads a u

/-- `ConicVector::operator-()`, Cone.cpp:384-389. -/
noncomputable def opNeg (c : Cone) (u : Nat → ℝ) : Nat → ℝ := wr 0 c.sizecone (fun k => -u k) fun _ => 0

end Cone
end Verif
