import Mathlib.Analysis.SpecialFunctions.Trigonometric.Basic

/-!
# regular_polygon
-/

namespace Verif
namespace RegPolygon

/-- the loop of `regular_polygon` (salabim.py:27437-27440), `n` rounds with `x`, `y`; the corners as pairs -/
noncomputable def corners (radius cost sint : ℝ) : Nat → ℝ → ℝ → List (ℝ × ℝ)
  | 0, _, _ => []
  | n + 1, x, y => (x * cost - y * sint + radius, x * sint + y * cost + radius) :: corners radius cost sint n (x * cost - y * sint) (x * sint + y * cost)

/-- `regular_polygon(radius, number_of_sides, initial_angle)` (salabim.py:27427-27442), with `int(number_of_sides)`. `none`: ValueError. -/
noncomputable def regularPolygon (radius : ℝ) (n : Int) (initial : ℝ) : Option (List (ℝ × ℝ)) :=
  if n < 3 then none
  else some (corners radius (Real.cos (2 * Real.pi / n)) (Real.sin (2 * Real.pi / n)) n.toNat
    (radius * Real.cos (initial * Real.pi / 180)) (radius * Real.sin (initial * Real.pi / 180)))

end RegPolygon
end Verif
