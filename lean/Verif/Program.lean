import Verif.Process

/-!
# Processes that look at the state

A process may look at the state (is the clerk passive, is the waiting line empty) and remember things (the customer it is serving) from one turn to the next.
-/

namespace Verif
open World

/-- What a component does in one turn, up to the call that takes it out of control: a call, a look at the state, or the end of the turn, with what it
remembers at its next turn. -/
inductive Prog (μ : Type) where
  | call (o : Op) (next : Prog μ)
  | look (f : World → Prog μ)
  | stop (m : μ)

/-- the calls are made one after the other; a look is at the state at that moment. `none`: an exception. The body of a process between two moments at which it gets
control (salabim.py:11225-11248: `step` switches to the process, that goes on until it gives control back). -/
def Prog.run {μ : Type} (fuel : Nat) : Prog μ → World → Option (World × μ)
  | .call o p, w =>
    match exec fuel o w with
    | .err _ _ => none
    | .ok w' => p.run fuel w'
  | .look f, w => (f w).run fuel w
  | .stop m, w => some (w, m)

/-- a simulation under way: the state, what each component remembers, and who got control when -/
structure Show (μ : Type) where
  w : World
  mem : CId → μ
  log : List (Rat × CId) := []

/-- One turn of the loop of `run` (salabim.py:13404-13413): `step` picks a component and gives it control (salabim.py:11155-11248), and it carries on
with its process. `none`: an exception, which ends the simulation. -/
def Show.turn {μ : Type} (fuel : Nat) (process : CId → μ → Prog μ) (x : Show μ) : Option (Show μ) :=
  match step x.w with
  | .err _ _ => none
  | .ok w =>
    match (process w.current (x.mem w.current)).run fuel w with
    | none => none
    | some (w', m) => some ⟨w', fun d => if d = w.current then m else x.mem d, x.log ++ [(w.now, w.current)]⟩

/-- a number of turns of the loop of `run` (salabim.py:13404-13413) -/
def Show.run {μ : Type} (fuel : Nat) (process : CId → μ → Prog μ) : Nat → Show μ → Option (Show μ)
  | 0, x => some x
  | k + 1, x => (Show.turn fuel process x).bind (Show.run fuel process k)

/-- the moments at which a component got control -/
def Show.moments {μ : Type} (x : Show μ) (c : CId) : List Rat := (x.log.filter (fun e => e.2 == c)).map Prod.fst

end Verif
