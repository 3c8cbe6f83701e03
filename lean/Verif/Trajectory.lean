import Verif.Util
import Mathlib.Analysis.SpecialFunctions.Complex.Arg
import Mathlib.Analysis.Real.Sqrt

/-!
# Trajectories (salabim.py:5907-6969)

Numbers are real numbers, with the exact square root, sine and cosine. Trajectory objects are records of their attributes and methods.
Left out: splines (in `Verif.Spline`), rendered_polygon, the lru_caches (they do not change results), the default of `t0` (env.now()).
-/

namespace Verif
namespace Traj

open Real

/-- exceptions -/
inductive Err
  | zeroDivision | value | index | type | name
  deriving DecidableEq

/-- a movement (salabim.py:5929-5942); an infinite acceleration or deceleration is `none` -/
structure Movement where
  lAcc : ℝ
  lDec : ℝ
  lMax : ℝ
  tAcc : ℝ
  tMax : ℝ
  tDec : ℝ
  t : ℝ
  v0 : ℝ
  vmax : ℝ
  acc : Option ℝ
  dec : Option ℝ

/-- `1 / (2 * acc)` (salabim.py:5921-5922) -/
noncomputable def half : Option ℝ → ℝ
  | none => 0
  | some a => 1 / (2 * a)

/-- `v / acc` (salabim.py:5935, 5937) -/
noncomputable def over (v : ℝ) : Option ℝ → ℝ
  | none => 0
  | some a => v / a

/-- the maximal speed that is reached (salabim.py:5923-5927) -/
noncomputable def topSpeed (length vmax v0 v1 : ℝ) (acc dec : Option ℝ) : Except Err ℝ :=
  if (vmax ^ 2 - v0 ^ 2) * half acc + (vmax ^ 2 - v1 ^ 2) * half dec > length then
    if half acc + half dec = 0 then .error .zeroDivision else
    if (length + (v0 ^ 2 * half acc) + (v1 ^ 2 * half dec)) / (half acc + half dec) < 0 then .error .value else
    .ok (sqrt ((length + (v0 ^ 2 * half acc) + (v1 ^ 2 * half dec)) / (half acc + half dec)))
  else .ok vmax

/-- `_Movement(length, vmax, v0, v1, acc, dec)` (salabim.py:5909-5942) -/
noncomputable def movement (length : ℝ) (vmax v0 v1 acc dec : Option ℝ) : Except Err Movement :=
  let vmax := vmax.getD 1
  let v0 := v0.getD vmax
  let v1 := v1.getD vmax
  if acc = some 0 ∨ dec = some 0 then .error .zeroDivision else
  match topSpeed length vmax v0 v1 acc dec with
  | .error e => .error e
  | .ok vmax =>
    let lAcc := (vmax ^ 2 - v0 ^ 2) * half acc
    let lDec := (vmax ^ 2 - v1 ^ 2) * half dec
    let lMax := length - lAcc - lDec
    if lAcc < 0 ∨ lDec < 0 then .error .value else
    if vmax = 0 then .error .zeroDivision else
    .ok { lAcc := lAcc, lDec := lDec, lMax := lMax, tAcc := over (vmax - v0) acc, tMax := lMax / vmax, tDec := over (vmax - v1) dec,
          t := over (vmax - v0) acc + lMax / vmax + over (vmax - v1) dec, v0 := v0, vmax := vmax, acc := acc, dec := dec }

/-- `l_at_t(t)` (salabim.py:5944-5959). With an infinite acceleration `t_v0_vmax` is 0, so that the branch of the acceleration is not reached. -/
noncomputable def Movement.at (m : Movement) (t : ℝ) : ℝ :=
  if t < 0 then 0 else
  let t := if t > m.t then m.t else t
  if m.acc = none ∧ m.dec = none then m.vmax * t else
  if t < m.tAcc then m.v0 * t + (m.acc.getD 0) * t ^ 2 / 2 else
  let t := t - m.tAcc
  if t < m.tMax then m.lAcc + t * m.vmax else
  let t := t - m.tMax
  match m.dec with
  | none => m.lAcc + m.lMax + m.vmax * t
  | some dec => m.lAcc + m.lMax + m.vmax * t - dec * t ^ 2 / 2

/-- a trajectory object: the attributes and the methods x, y, angle and length. `t` and `_t0` are the arguments; `none` for None. -/
structure Trajectory where
  /-- `_t0` -/
  t0 : ℝ
  /-- `_t1` -/
  t1 : ℝ
  /-- `_duration` -/
  duration : ℝ
  /-- `_length` -/
  len : ℝ
  x : ℝ → Option ℝ → Except Err ℝ
  y : ℝ → Option ℝ → Except Err ℝ
  angle : ℝ → Option ℝ → Except Err ℝ
  length : Option ℝ → Option ℝ → Except Err ℝ

/-- `TrajectoryStandstill((x, y), duration, orientation, t0)` (salabim.py:6192-6339); `angle` is the orientation, or its value for 0 -/
noncomputable def standstill (x y duration angle t0 : ℝ) : Trajectory :=
  { t0 := t0, t1 := t0 + duration, duration := duration, len := 0, x := fun _ _ => .ok x, y := fun _ _ => .ok y, angle := fun _ _ => .ok angle,
    length := fun _ _ => .ok 0 }

/-- `math.sqrt(dx * dx + dy * dy)` of two points (salabim.py:6555) -/
noncomputable def dist (p q : ℝ × ℝ) : ℝ := sqrt ((q.1 - p.1) * (q.1 - p.1) + (q.2 - p.2) * (q.2 - p.2))

/-- `math.degrees(math.atan2(dy, dx))` of two points (salabim.py:6546) -/
noncomputable def direction (p q : ℝ × ℝ) : ℝ := Complex.arg ⟨q.1 - p.1, q.2 - p.2⟩ * 180 / π

/-- `cum_length` (salabim.py:6537-6560), from the length so far -/
noncomputable def cumLengths (cum : ℝ) : List (ℝ × ℝ) → List ℝ
  | [] => []
  | [_] => [cum]
  | p :: q :: r => cum :: cumLengths (cum + dist p q) (q :: r)

/-- the angles of the segments (salabim.py:6545-6551); the last one twice (salabim.py:6559) -/
noncomputable def angles (orient : ℝ → ℝ) : List (ℝ × ℝ) → List ℝ
  | [] => []
  | [_] => []
  | [p, q] => [orient (direction p q), orient (direction p q)]
  | p :: q :: r => orient (direction p q) :: angles orient (q :: r)

/-- `indexes(t, _t0)`, for the time since the start: length and the two indexes (salabim.py:6577-6585) -/
noncomputable def indexes (m : Movement) (cum : List ℝ) (t : ℝ) : ℝ × Nat × Nat :=
  let length := m.at t
  if length ≤ cum.getD 0 0 then (length, 0, 0) else
  if length ≥ cum.getD (cum.length - 1) 0 then (0, cum.length - 1, cum.length - 1) else
  let i := Util.bisectLeft cum length - 1
  (length, i, i + 1)

/-- the time since the start (salabim.py:6572-6575) -/
noncomputable def since (t0 duration : ℝ) (t o : Option ℝ) : ℝ :=
  match t with
  | none => duration
  | some t => t - o.getD t0

/-- a coordinate of a polygon: `interp(length, [cum[i], cum[j]], [c[i], c[j]])` (salabim.py:6601, 6617) -/
noncomputable def coordinate (cum c : List ℝ) (k : ℝ × Nat × Nat) : Except Err ℝ :=
  match Util.interp k.1 [cum.getD k.2.1 0, cum.getD k.2.2 0] [c.getD k.2.1 0, c.getD k.2.2 0] none none with
  | none => .error .value
  | some v => .ok v

/-- `TrajectoryPolygon(polygon, t0, vmax, v0, v1, acc, dec, orientation)` (salabim.py:6430-6565, 6571-6697) for a list of points (a last x without y
is ignored by the code). `orient` is the function orientation, the identity for None, a constant function for a number. With fewer than two points `next_x`
is not defined. -/
noncomputable def polygon (ps : List (ℝ × ℝ)) (t0 : ℝ) (vmax v0 v1 acc dec : Option ℝ) (orient : ℝ → ℝ) : Except Err Trajectory :=
  if ps.length < 2 then .error .name else
  let cum := cumLengths 0 ps
  let len := cum.getD (cum.length - 1) 0
  match movement len vmax v0 v1 acc dec with
  | .error e => .error e
  | .ok m =>
    .ok { t0 := t0, t1 := t0 + m.t, duration := m.t, len := len
          x := fun t o => coordinate cum (ps.map (·.1)) (indexes m cum (since t0 m.t (some t) o))
          y := fun t o => coordinate cum (ps.map (·.2)) (indexes m cum (since t0 m.t (some t) o))
          angle := fun t o => .ok ((angles orient ps).getD (indexes m cum (since t0 m.t (some t) o)).2.1 0)
          length := fun t o => .ok (cum.getD (indexes m cum (since t0 m.t t o)).2.1 0 + (indexes m cum (since t0 m.t t o)).1) }

/-- `math.radians` -/
noncomputable def radians (a : ℝ) : ℝ := a * π / 180

/-- `length(t, _t0)` of a circle (salabim.py:6943-6949); comparing None with a number raises TypeError -/
noncomputable def circleLength (m : Movement) (t0 : ℝ) (t o : Option ℝ) : Except Err ℝ :=
  match t with
  | none => .error .type
  | some t =>
    let t0 := o.getD t0
    let t := if t < t0 then t0 else if t > t0 + m.t then t0 + m.t else t
    .ok (m.at (t - t0))

/-- `interp(length, (0, self._length), (self.angle0, self.angle1))` (salabim.py:6837) -/
noncomputable def circleAngle (len angle0 angle1 : ℝ) (l : Except Err ℝ) : Except Err ℝ :=
  match l with
  | .error e => .error e
  | .ok l => match Util.interp l [0, len] [angle0, angle1] none none with
    | none => .error .value
    | some a => .ok a

/-- `TrajectoryCircle(radius, x_center, y_center, angle0, angle1, t0, vmax, v0, v1, acc, dec, orientation)` (salabim.py:6790-6949) -/
noncomputable def circle (radius xc yc angle0 angle1 t0 : ℝ) (vmax v0 v1 acc dec : Option ℝ) (orient : ℝ → ℝ) : Except Err Trajectory :=
  let len := |radians (angle1 - angle0)| * radius
  match movement len vmax v0 v1 acc dec with
  | .error e => .error e
  | .ok m =>
    .ok { t0 := t0, t1 := t0 + m.t, duration := m.t, len := len
          x := fun t o => (circleAngle len angle0 angle1 (circleLength m t0 (some t) o)).map (fun a => xc + radius * cos (radians a))
          y := fun t o => (circleAngle len angle0 angle1 (circleLength m t0 (some t) o)).map (fun a => yc + radius * sin (radians a))
          angle := fun t o => (circleAngle len angle0 angle1 (circleLength m t0 (some t) o)).map (fun a => orient (if angle0 < angle1 then a + 90 else a - 90))
          length := circleLength m t0 }

/-- the partial sums of a list, without the total: `_t0s` and `cum_lengths` of a merged trajectory (salabim.py:6024-6032) -/
noncomputable def partialSums (s : ℝ) : List ℝ → List ℝ
  | [] => []
  | d :: r => s :: partialSums (s + d) r

/-- `index(t)` of a merged trajectory (salabim.py:6037-6043) -/
noncomputable def mergedIndex (t0s : List ℝ) (t : ℝ) : Nat :=
  if t ≤ t0s.getD 0 0 then 0 else
  if t ≥ t0s.getD (t0s.length - 1) 0 then t0s.length - 1 else
  Util.bisectLeft t0s t - 1

/-- call a method of the part that is active at t, with its start as `_t0` (salabim.py:6061-6064). The list is not empty and the index in range. -/
noncomputable def mergedCall (l : List Trajectory) (t0s : List ℝ) (f : Trajectory → ℝ → Option ℝ → Except Err ℝ) (t : ℝ) : Except Err ℝ :=
  match l[mergedIndex t0s t]? with
  | none => .error .index
  | some p => f p t (some (t0s.getD (mergedIndex t0s t) 0))

/-- `TrajectoryMerged(trajectories)` (salabim.py:6018-6169). Note that `_t0` is ignored by the methods. -/
noncomputable def merged (l : List Trajectory) : Except Err Trajectory :=
  match l with
  | [] => .error .index
  | p :: _ =>
    let duration := (l.map (·.duration)).sum
    let t0s := partialSums p.t0 (l.map (·.duration))
    let cums := partialSums 0 (l.map (·.len))
    .ok { t0 := p.t0, t1 := p.t0 + duration, duration := duration, len := (l.map (·.len)).sum
          x := fun t _ => mergedCall l t0s Trajectory.x t
          y := fun t _ => mergedCall l t0s Trajectory.y t
          angle := fun t _ => mergedCall l t0s Trajectory.angle t
          length := fun t _ =>
            let i := match t with | none => l.length - 1 | some t => mergedIndex t0s t
            match l[i]? with
            | none => .error .index
            | some p => (p.length t (some (t0s.getD i 0))).map (· + cums.getD i 0) }

/-- `in_trajectory(t)` (salabim.py:5964-5965) -/
noncomputable def Trajectory.contains (p : Trajectory) (t : ℝ) : Bool := decide (p.t0 ≤ t ∧ t ≤ p.t1)

end Traj
end Verif
