import Verif.Trajectory
import Mathlib.Tactic.Linarith
import Mathlib.Tactic.FieldSimp

/-!
# Splines

The `spline` parameter of TrajectoryPolygon replaces the points of the polygon by points of a curve, before anything else is done with them. Exact reals; that numpy is
installed is assumed. `res` is a natural number.
-/

namespace Verif
namespace Spline

abbrev Pt := ℝ × ℝ

/-! ## Bézier -/

/-- `two_points` (salabim.py:6491-6492) -/
noncomputable def twoPoints (t : ℝ) (a b : Pt) : Pt := (1 - t) • a + t • b

/-- `do_points` (salabim.py:6494-6498) -/
noncomputable def doPoints (t : ℝ) (l : List Pt) : List Pt := List.zipWith (twoPoints t) l l.tail

theorem doPoints_length (t : ℝ) (l : List Pt) : (doPoints t l).length = l.length - 1 := by
  unfold doPoints
  rw [List.length_zipWith, List.length_tail]
  omega

/-- `do_point` (salabim.py:6500-6504) -/
noncomputable def doPoint (t : ℝ) (l : List Pt) : Pt :=
  if 1 < l.length then doPoint t (doPoints t l) else l.headD 0
termination_by l.length
decreasing_by rw [doPoints_length]; omega

/-- `numpy.linspace(0, 1, res)` -/
noncomputable def unitSteps (res : Nat) : List ℝ := (List.range res).map fun i : Nat => if res = 1 then 0 else (i : ℝ) / ((res - 1 : Nat) : ℝ)

/-- `bezier_polygon` (salabim.py:6487-6524) -/
noncomputable def bezier (res : Nat) (l : List Pt) : List Pt := (unitSteps res).map fun t => doPoint t l

/-! ## Catmull-Rom -/

/-- `evaluate` (salabim.py:6445-6450) -/
noncomputable def evaluate (x v0 v1 v2 v3 : ℝ) : ℝ :=
  (((-0.5 * v0 + 1.5 * v1 + -1.5 * v2 + 0.5 * v3) * x + (1.0 * v0 + -2.5 * v1 + 2.0 * v2 - 0.5 * v3)) * x + (-0.5 * v0 + 0.5 * v2)) * x + 1.0 * v1

/-- y of point `i` -/
noncomputable def yAt (l : List Pt) (i : Nat) : ℝ := (l.getD i 0).2

/-- the points between points `i` and `i + 1`, the first one included (salabim.py:6468-6481) -/
noncomputable def between (res : Nat) (l : List Pt) (i : Nat) : List Pt :=
  (List.range res).map fun j : Nat =>
    ((l.getD i 0).1 + ((j : ℝ) / (res : ℝ)) * ((l.getD (i + 1) 0).1 - (l.getD i 0).1),
      evaluate ((j : ℝ) / (res : ℝ))
        (if i = 0 then yAt l 0 - (yAt l 1 - yAt l 0) else yAt l (i - 1)) (yAt l i) (yAt l (i + 1))
        (if i = l.length - 2 then yAt l (i + 1) + (yAt l (i + 1) - yAt l i) else yAt l (i + 2)))

/-- `catmull_rom_polygon` (salabim.py:6444-6485) -/
noncomputable def catmullRom (res : Nat) (l : List Pt) : List Pt :=
  ((List.range (l.length - 1)).map (between res l)).flatten ++ [l.getLastD 0]

/-! ## the parameter -/

/-- the parameter `spline` (salabim.py:6526-6532): the points to be used, or a ValueError. `none` is None. -/
noncomputable def apply (spline : Option String) (res : Nat) (l : List Pt) : Option (List Pt) :=
  match spline.map String.toList with
  | none => some l
  | some s =>
    if (s.map Char.toLower).head? = some 'c' then some (catmullRom res l)
    else if (s.map Char.toLower).head? = some 'b' then some (bezier res l)
    else if s.all Char.isWhitespace then some l
    else none

/-- `TrajectoryPolygon` with the parameters `spline` and `res` (salabim.py:6526-6565) -/
noncomputable def polygon (spline : Option String) (res : Nat) (ps : List Pt) (t0 : ℝ) (vmax v0 v1 acc dec : Option ℝ) (orient : ℝ → ℝ) :
    Except Traj.Err Traj.Trajectory :=
  match apply spline res ps with
  | none => .error .value
  | some l => Traj.polygon l t0 vmax v0 v1 acc dec orient

end Spline
end Verif
