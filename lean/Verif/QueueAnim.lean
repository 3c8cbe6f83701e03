import Mathlib.Algebra.Order.Field.Rat

/-!
# `AnimateQueue`: which components are shown, where, and with which animation objects

The parameters x, y, direction, reverse, max_length, visible and keep may be functions of time; here they are given anew with each update. The title is left out.
An animation object is a number, `alive` are those of the queue that are in `an_objects`. `animation_objects()` of a component makes any number of new objects.
-/

namespace Verif
namespace QueueAnim

/-- the directions; `t` is along a trajectory, where x is the travelled length -/
inductive Dir
  | e | w | n | s | t
deriving DecidableEq, Repr

variable {C : Type} [DecidableEq C]

/-- what an update reads: the queue, the place of the first component, the direction, reverse, max_length, visible, the dimensions and the number of objects of each component.
The place (x, y) includes what xy_anchor gives; along a trajectory it is only that, as x and y are added to the place on the trajectory (salabim.py:18314-18333) -/
structure Look (C : Type) where
  queue : List C
  x : Rat
  y : Rat
  dir : Dir
  reverse : Bool
  maxLength : Option Int
  visible : Bool
  dimx : C → Rat
  dimy : C → Rat
  count : C → Nat

/-- where the next component is put (salabim.py:18392-18401) -/
def advance (dir : Dir) (dx dy x y : Rat) : Rat × Rat :=
  match dir with
  | .w => (x - dx, y)
  | .s => (x, y - dy)
  | .e => (x + dx, y)
  | .n => (x, y + dy)
  | .t => (x + dx * 1, y)

/-- the loop stops with the component number `n` (salabim.py:18360-18361) -/
def stop (k : Look C) (n : Nat) : Bool := (match k.maxLength with | none => false | some m => decide ((n : Int) ≥ m)) || !k.visible

/-- the loop over the components: who is shown and where (salabim.py:18358-18403) -/
def place (k : Look C) : List C → Rat → Rat → Nat → List (C × Rat × Rat)
  | [], _, _, _ => []
  | c :: l, x, y, n =>
    if stop k n then []
    else (c, x, y) :: place k l (advance k.dir (k.dimx c) (k.dimy c) x y).1 (advance k.dir (k.dimx c) (k.dimy c) x y).2 (n + 1)

/-- `reversed(self._queue) if reverse else self._queue` (salabim.py:18359) -/
def layout (k : Look C) : List (C × Rat × Rat) := place k (if k.reverse then k.queue.reverse else k.queue) k.x k.y 0

/-- in `sys_objects`, `current_aos`, the objects in `an_objects`, and the next number -/
structure Disp (C : Type) where
  shown : Bool
  cur : List (C × List Nat)
  alive : List Nat
  next : Nat

/-- `ao.remove()` for all objects of a dictionary (salabim.py:18405-18407, 18424-18426) -/
def discard (l : List (C × List Nat)) (alive : List Nat) : List Nat := alive.filter (fun i => !(l.any (fun p => p.2.contains i)))

/-- the loop over the components: which objects are used (salabim.py:18363-18374); those of before only if the scale of the view has changed -/
def renew (changed : Bool) (count : C → Nat) : List C → List (C × List Nat) → Disp C → List (C × List Nat) × Disp C
  | [], prev, d => (prev, d)
  | c :: l, prev, d =>
    match (if changed then prev.lookup c else none) with
    | some os => renew changed count l (prev.filter (fun p => p.1 ≠ c)) { d with cur := d.cur ++ [(c, os)] }
    | none =>
      let os := List.range' d.next (count c)
      renew changed count l prev { d with cur := d.cur ++ [(c, os)], alive := d.alive ++ os, next := d.next + count c }

/-- `remove` (salabim.py:18421-18426) -/
def remove (d : Disp C) : Disp C := { d with shown := false, alive := discard d.cur d.alive }

/-- `update` (salabim.py:18304-18407), called for what is in `sys_objects` (salabim.py:10773-10775) -/
def update (keep changed : Bool) (k : Look C) (d : Disp C) : Disp C :=
  if !d.shown then d else
  if !keep then remove d else
  let r := renew changed k.count ((layout k).map (·.1)) d.cur { d with cur := [] }
  { r.2 with alive := discard r.1 r.2.alive }

/-- `show` (salabim.py:18411-18419) -/
def «show» (d : Disp C) : Disp C := { d with shown := true, cur := [] }

end QueueAnim
end Verif
