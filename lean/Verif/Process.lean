import Verif.Reach

/-!
# Processes

A process is what a component does each time it gets control, up to its next call that takes it out of control: a list of calls per turn.
-/

namespace Verif
open World

/-- a simulation under way: the state, how many turns each component has had, and who got control when -/
structure Play where
  w : World
  turns : CId → Nat := fun _ => 0
  log : List (Rat × CId) := []

/-- One turn of the loop of `run` (salabim.py:13404-13413): `step` picks a component and gives it control (salabim.py:11155-11248); the calls of its process
are made, until it gives control back. `none`: an exception, which ends the simulation. -/
def Play.turn (fuel : Nat) (process : CId → Nat → List Op) (x : Play) : Option Play :=
  match step x.w with
  | .err _ _ => none
  | .ok w =>
    match forR (process w.current (x.turns w.current)) (exec fuel) w with
    | .err _ _ => none
    | .ok w' => some ⟨w', fun d => if d = w.current then x.turns d + 1 else x.turns d, x.log ++ [(w.now, w.current)]⟩

/-- a number of turns of the loop of `run` (salabim.py:13404-13413) -/
def Play.run (fuel : Nat) (process : CId → Nat → List Op) : Nat → Play → Option Play
  | 0, x => some x
  | k + 1, x => (Play.run fuel process k x).bind (Play.turn fuel process)

/-- the moments at which a component got control -/
def Play.moments (x : Play) (c : CId) : List Rat := (x.log.filter (fun e => e.2 == c)).map Prod.fst

end Verif
