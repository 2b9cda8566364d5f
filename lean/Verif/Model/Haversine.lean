import Mathlib.Analysis.SpecialFunctions.Trigonometric.Inverse
import Verif.Model.TransPrims
/-!
# Haversine

Models `primitives/standard/transform_primitive.py` 597-661. Coordinates are fractions, distances real numbers: rounding is not
modelled.
-/
namespace FT

/-- `np.radians`. -/
noncomputable def radians (degrees : Rat) : ℝ := (degrees : ℝ) * (Real.pi / 180)

/-- The unit of `Haversine.__init__` (`transform_primitive.py` 624-630). -/
def haversineUnit (unit : String) : Except PyErr String :=
  if unit ∉ ["miles", "kilometers"] then .error .valueError else .ok unit

/-- The distance of two positions in radians (`transform_primitive.py` 644-652). -/
noncomputable def haversineOf (unit : String) (lat1 lon1 lat2 lon2 : ℝ) : ℝ :=
  let dlon := lon2 - lon1
  let dlat := lat2 - lat1
  let a := Real.sin (dlat / 2) ^ 2 + Real.cos lat1 * Real.cos lat2 * Real.sin (dlon / 2) ^ 2
  let radiusEarth : ℝ := if unit = "kilometers" then 6371.0088 else 3958.7613
  radiusEarth * 2 * Real.arcsin (Real.sqrt a)

/-- One cell of the result: NaN if a part is NaN. -/
noncomputable def haversineCell (unit : String) : Option Rat → Option Rat → Option Rat → Option Rat → Option ℝ
  | some lat1, some lon1, some lat2, some lon2 =>
    some (haversineOf unit (radians lat1) (radians lon1) (radians lat2) (radians lon2))
  | _, _, _, _ => none

/-- Four arrays of one length, cell by cell. -/
def zipWith4 {α β : Type} (f : α → α → α → α → β) : List α → List α → List α → List α → List β
  | a :: as, b :: bs, c :: cs, d :: ds => f a b c d :: zipWith4 f as bs cs ds
  | _, _, _, _ => []

/-- `haversine` (`transform_primitive.py` 632-653). The two columns belong to one table: they have one length. -/
noncomputable def haversine (unit : String) (latlong1 latlong2 : List (Option Int × LatLong)) : Except PyErr (List (Option ℝ)) := do
  let unit ← haversineUnit unit
  let latlong1 := if hasNans latlong1 then replaceLatLongNan latlong1 else latlong1
  let latlong2 := if hasNans latlong2 then replaceLatLongNan latlong2 else latlong2
  let lat1s ← latLongParts (fun a _ => a) latlong1
  let lon1s ← latLongParts (fun _ b => b) latlong1
  let lat2s ← latLongParts (fun a _ => a) latlong2
  let lon2s ← latLongParts (fun _ b => b) latlong2
  pure (zipWith4 (haversineCell unit) lat1s lon1s lat2s lon2s)

/-- `Haversine.generate_name` (`transform_primitive.py` 655-661). -/
def haversineName (unit : String) (bases : List String) : String :=
  "HAVERSINE(" ++ ", ".intercalate bases ++ (if unit ≠ "miles" then ", unit=" ++ unit else "") ++ ")"

end FT
