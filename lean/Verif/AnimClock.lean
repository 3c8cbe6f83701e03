import Mathlib.Algebra.Order.Field.Rat
import Mathlib.Order.WithBot

/-!
# The clock of the animation: which moment is shown, and how the simulation keeps up with it

Numbers are exact rationals. The simulation is only seen from outside: what `now()` and `peek()` say and what may happen in a step (in C105 this is filled in by the kernel model).
Calls and clicks come between two rounds of the animation loop. Left out are videos, audio, `reset_now` and the end of the run: a step at infinity, where the run ends and nothing is shown any more.
-/

namespace Verif
namespace AnimClock

/-- the simulation as the animation loop sees it: `_now`, `peek()` and what `step()` may do -/
structure Sim (S : Type) where
  now : S → Rat
  peek : S → WithTop Rat
  Step : S → S → Prop

/-- `_t`, `animation_start_time`, `animation_start_clocktime`, `_speed`, `_paused`, `_synced`, `_step_pressed` (salabim.py:10594-10604, 13909-13910) and the simulation -/
structure Clock (S : Type) where
  sim : S
  t : Rat
  startTime : Rat
  startClock : Rat
  speed : Rat
  paused : Bool
  synced : Bool
  stepPressed : Bool

variable {S : Type}

/-- `set_start_animation` when the clock on the wall says `c` (salabim.py:13907-13910) -/
def rebase (c : Rat) (k : Clock S) : Clock S := { k with startTime := k.t, startClock := c }

/-- the animation is switched on (salabim.py:11933-11935) -/
def start (m : Sim S) (s : S) (speed : Rat) (synced : Bool) (c : Rat) : Clock S :=
  rebase c ⟨s, m.now s, 0, 0, speed, false, synced, false⟩

/-- what may be called or clicked -/
inductive Call
  | speed (s : Rat)
  | half
  | double
  | paused (b : Bool)
  | synced (b : Bool)
  | syncedButton
  | go
  | menu
  | stepButton

/-- the effect when the clock on the wall says `c` -/
def Call.run (c : Rat) (k : Clock S) : Call → Clock S
  /- `env.speed(value)`, `animation_parameters(speed=value)` (salabim.py:11607-11609) -/
  | .speed s => rebase c { k with speed := s }
  /- `an_half`, `an_double` (salabim.py:13813-13819) -/
  | .half => rebase c { k with speed := k.speed / 2 }
  | .double => rebase c { k with speed := k.speed * 2 }
  /- `env.paused(value)` (salabim.py:13297-13299) -/
  | .paused b => rebase c { k with paused := b }
  /- `env.synced(value)`, `animation_parameters(synced=value)` (salabim.py:11620-11624) -/
  | .synced b => rebase c { k with synced := b }
  /- `an_synced`, the button of the menu (salabim.py:13853-13855) -/
  | .syncedButton => { k with synced := !k.synced }
  /- `an_go` (salabim.py:13821-13827) -/
  | .go => let k := rebase c { k with paused := false }; if k.synced then rebase c k else { k with stepPressed := true }
  /- `an_menu` (salabim.py:13873-13876) -/
  | .menu => rebase c (rebase c { k with paused := true })
  /- `an_step` (salabim.py:13857-13858) -/
  | .stepButton => { k with stepPressed := true }

/-- `while self.peek() < self._t: self.step()` (salabim.py:13467-13472) -/
inductive CatchUp (m : Sim S) (t : Rat) : S → S → Prop
  | done {s : S} : ¬ m.peek s < (t : WithTop Rat) → CatchUp m t s s
  | step {s s' s'' : S} : m.peek s < (t : WithTop Rat) → m.Step s s' → CatchUp m t s' s'' → CatchUp m t s s''

/-- the moment that is shown in synced mode (salabim.py:13463-13466) -/
def Clock.moment (k : Clock S) (c : Rat) : Rat := if k.paused then k.startTime else k.startTime + (c - k.startClock) * k.speed

/-- one round of `simulate_and_animate_loop` (salabim.py:13458-13479) -/
inductive Tick (m : Sim S) (c : Rat) : Clock S → Clock S → Prop
  /- synced -/
  | synced {k : Clock S} {s : S} : k.synced = true → CatchUp m (k.moment c) k.sim s → Tick m c k { k with t := k.moment c, sim := s }
  /- not synced: one step; `keep` if the step button stays pressed because of `_suppress_pause_at_step` -/
  | step {k : Clock S} {s : S} (keep : Bool) : k.synced = false → (k.stepPressed = true ∨ k.paused = false) → m.peek k.sim ≠ ⊤ → m.Step k.sim s →
      Tick m c k { k with sim := s, t := m.now s, stepPressed := keep && k.stepPressed }
  /- not synced and paused -/
  | idle {k : Clock S} : k.synced = false → ¬ (k.stepPressed = true ∨ k.paused = false) → Tick m c k k

/-- `an_single_step` (salabim.py:13860-13865) -/
def single (m : Sim S) (c : Rat) (k : Clock S) (s : S) : Clock S :=
  let k := rebase c { k with stepPressed := true, sim := s, paused := true }
  rebase c { k with t := m.now s }

end AnimClock
end Verif
