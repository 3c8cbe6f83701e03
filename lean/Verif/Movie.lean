import Mathlib.Algebra.Order.Field.Rat
import Mathlib.Algebra.Order.Floor.Defs
import Mathlib.Data.Rat.Floor
import Mathlib.Order.WithBot

/-!
# Animated images: which frame is shown

A movie is the list of the durations of its frames, in seconds, as exact rationals. Size, angle, alpha and so on of the image are left out (they don't change here).
-/

namespace Verif
namespace Movie

/-- the moments at which the frames end, the last one at inf (salabim.py:27695-27711) -/
def ends : List Rat → Rat → List (WithTop Rat)
  | [], _ => []
  | [_], _ => [⊤]
  | d :: l, t => ((t + d : Rat) : WithTop Rat) :: ends l (t + d)

/-- `_duration` (salabim.py:27693, 27709) -/
def duration (ds : List Rat) : Rat := if ds.length = 1 then 0 else ds.sum

/-- `t % interval` for a positive interval -/
def pymod (t i : Rat) : Rat := t - (⌊t / i⌋ : Int) * i

/-- `for id, frame in enumerate(self.images): if t <= frame.end_time: return frame, id` (salabim.py:27746-27748) -/
def find (s : Rat) : List (WithTop Rat) → Nat → Option Nat
  | [], _ => none
  | e :: l, n => if (s : WithTop Rat) ≤ e then some n else find s l (n + 1)

/-- the arguments animation_repeat, animation_pingpong, animation_from and animation_to -/
structure Play where
  repeats : Bool
  pingpong : Bool
  start : Rat
  stop : WithTop Rat

/-- the moment in the movie, after the checks (salabim.py:27729-27744); `none`: nothing is shown any more -/
def moment (p : Play) (stop t : Rat) : Option Rat :=
  let interval := if p.pingpong then 2 * (stop - p.start) else stop - p.start
  if !p.repeats && decide (t > interval) then none else
  let t := pymod t interval
  some (if p.pingpong then (if t ≤ interval / 2 then p.start + t else p.start + interval - t) else p.start + t)

/-- `ImageContainer.get_image` (salabim.py:27716-27748): the frame (`none` is the dummy image) and the id; ValueError is `none` -/
def getImage (ds : List Rat) (p : Play) (t : Rat) : Option (Option Nat × Int) :=
  if ds.length = 1 then some (some 0, 0) else
  if t < 0 then some (none, -1) else
  let stop := p.stop.untopD (duration ds)
  if ¬ (0 ≤ p.start ∧ p.start < stop) then none else
  if stop > duration ds then none else
  match moment p stop t with
  | none => some (none, 0)
  | some s => (find s (ends ds 0) 0).map (fun i => (some i, (i : Int)))

/-- the id and the picture that were made last -/
structure Screen where
  id : Option Int
  frame : Option Nat

/-- the picture is made anew only if the id has changed (salabim.py:15745-15755) -/
def draw (s : Screen) (r : Option Nat × Int) : Screen := if s.id = some r.2 then s else ⟨some r.2, r.1⟩

end Movie
end Verif
