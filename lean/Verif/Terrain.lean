/-
Model of /repo/momentumopt/src/momentumopt/cntopt/TerrainDescription.cpp and its header.

Simplifications: exact real arithmetic; at least three corners (with fewer, the code reads rows that do not exist); a division by a zero norm gives the zero vector instead of NaNs;
reading the YAML file and printing are not modelled.
-/
import Mathlib.Analysis.Real.Sqrt
import Mathlib.LinearAlgebra.CrossProduct
import Mathlib.Data.Real.Basic
import Mathlib.Algebra.BigOperators.Fin

namespace Verif
namespace Terrain
open Matrix

/-- `Eigen::Vector3d` (TerrainDescription.cpp:17). -/
abbrev V3 := Fin 3 → ℝ

/-- `Vector3d::norm` (TerrainDescription.cpp:24, 36). -/
noncomputable def norm (v : V3) : ℝ := √(v ⬝ᵥ v)

/-- `v / v.norm()` (TerrainDescription.cpp:24, 36, 51-53). -/
noncomputable def unit (v : V3) : V3 := (norm v)⁻¹ • v

/-- The members of `TerrainRegion`, TerrainDescription.hpp:56-60; the region has `m+3` corners. -/
structure Region where
  m : ℕ
  terrainId : ℤ
  b : Fin (m + 3) → ℝ
  rotation : Matrix (Fin 3) (Fin 3) ℝ
  point : V3
  normal : V3
  A : Matrix (Fin (m + 3)) (Fin 3) ℝ

variable {m : ℕ}

/-- Rows of `ccwvertices.block(1,0,num_rows-1,3)` above row 0: the corner after row `i`, TerrainDescription.cpp:32-33,41-42. -/
def next (V : Fin (m + 3) → V3) (i : Fin (m + 3)) : V3 := if h : i.val + 1 < m + 3 then V ⟨i.val + 1, h⟩ else V ⟨0, by omega⟩

/-- `normal_`, TerrainDescription.cpp:21-24. -/
noncomputable def normal (V : Fin (m + 3) → V3) : V3 :=
  let aux1 := V ⟨2, by omega⟩ - V ⟨1, by omega⟩
  let aux2 := V ⟨1, by omega⟩ - V ⟨0, by omega⟩
  unit (aux1 ⨯₃ aux2)

/-- `point_`, TerrainDescription.cpp:25-28. -/
noncomputable def point (V : Fin (m + 3) → V3) : V3 := ((m + 3 : ℕ) : ℝ)⁻¹ • ∑ i, V i

/-- Row of `A_`, TerrainDescription.cpp:31-37. -/
noncomputable def rowA (V : Fin (m + 3) → V3) (i : Fin (m + 3)) : V3 := unit (normal V ⨯₃ (-V i + next V i))

/-- Row of `vmat`, TerrainDescription.cpp:39-42. -/
noncomputable def vmat (V : Fin (m + 3) → V3) (i : Fin (m + 3)) : V3 := (1 / 2 : ℝ) • V i + (1 / 2 : ℝ) • next V i

/-- `rotation_`, TerrainDescription.cpp:47-53. -/
noncomputable def rotation (V : Fin (m + 3) → V3) : Matrix (Fin 3) (Fin 3) ℝ :=
  let aux1 := V ⟨0, by omega⟩ - V ⟨1, by omega⟩
  let aux2 := V ⟨1, by omega⟩ - V ⟨2, by omega⟩
  Matrix.of ![unit aux1, unit aux2, unit (aux1 ⨯₃ aux2)]

/-- `TerrainRegion::initialize`, TerrainDescription.cpp:14-54. -/
noncomputable def initRegion (V : Fin (m + 3) → V3) (id : ℤ) : Region where
  m := m
  terrainId := id
  normal := normal V
  point := point V
  A := rowA V
  b := fun i => vmat V i ⬝ᵥ rowA V i
  rotation := rotation V

/-- `TerrainDescription`, TerrainDescription.hpp:87-88. -/
structure Description where
  numTerrainRegions : ℤ
  regions : List Region

/-- Constructor, TerrainDescription.hpp:72. -/
def Description.empty : Description := ⟨-1, []⟩

/-- `addTerrainRegion`, TerrainDescription.cpp:69-74. -/
noncomputable def Description.add (d : Description) (V : Fin (m + 3) → V3) : Description :=
  let n := d.regions.length + 1
  ⟨n, d.regions ++ [initRegion V (n - 1)]⟩

/-- `loadFromFile` after the regions have been read, TerrainDescription.cpp:95-96. -/
noncomputable def Description.load (d : Description) (files : List (Σ m, Fin (m + 3) → V3)) : Description := files.foldl (fun d V => d.add V.2) d

/-- `numRegions`, TerrainDescription.hpp:79. -/
def Description.numRegions (d : Description) : ℕ := d.regions.length

end Terrain
end Verif
