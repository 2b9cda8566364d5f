import Mathlib.Geometry.Euclidean.Angle.Unoriented.TriangleInequality
import Mathlib.Analysis.InnerProductSpace.PiL2
/-! # Great circles -/
namespace FT.Spec

/-- The point of the unit sphere with these coordinates in degrees. -/
noncomputable def onSphere (lat lon : Rat) : EuclideanSpace ℝ (Fin 3) :=
  let φ : ℝ := (lat : ℝ) / 180 * Real.pi
  let l : ℝ := (lon : ℝ) / 180 * Real.pi
  !₂[Real.cos φ * Real.cos l, Real.cos φ * Real.sin l, Real.sin φ]

/-- The mean radius of the earth. -/
noncomputable def earthRadius (unit : String) : Option ℝ :=
  match unit with
  | "miles" => some 3958.7613
  | "kilometers" => some 6371.0088
  | _ => none

/-- The length of the shortest way over the sphere: the angle at the centre times the radius. -/
noncomputable def greatCircle (radius : ℝ) (p q : EuclideanSpace ℝ (Fin 3)) : ℝ := radius * InnerProductGeometry.angle p q

end FT.Spec
