import Verif.AnimClock
import Mathlib.Algebra.Order.Floor.Defs
import Mathlib.Data.Rat.Floor

/-!
# Videos: which moment each frame shows

As in `AnimClock`, the simulation is only seen by `now()`, `peek()` and `step()`, and calls and clicks come between two rounds of the animation loop. Left out are audio, the end of the run, the step
buttons, and the blind animation.
-/

namespace Verif
namespace Video

open AnimClock

/-- the simulation, `_t`, `video_t`, `_speed`, `_real_fps`, `_paused`, `frame_number`, and the frames saved so far: the number in the name of the file (for a video that consists of separate images)
and the moment shown (salabim.py:10594-10604, 11857) -/
structure Rec (S : Type) where
  sim : S
  t : Rat
  videoT : Rat
  speed : Rat
  fps : Rat
  paused : Bool
  number : Nat
  frames : List (Nat × Rat)

variable {S : Type}

/-- the frames per second of gif and webp files (salabim.py:11862) -/
def realFps (fps : Rat) : Rat := 100 / (⌊100 / fps⌋ : Int)

/-- the duration of a frame in a gif or webp file, in milliseconds, before rounding (salabim.py:12009, 12025) -/
def frameMs (fps : Rat) : Rat := 1000 / realFps fps

/-- recording starts; `frame_number` is 0 for the first video, and isn't reset for a next one of separate images (salabim.py:10596, 11857-11878, 11903-11904, 11933-11934) -/
def start (m : Sim S) (s : S) (speed fps : Rat) (number : Nat) : Rec S := ⟨s, m.now s, m.now s, speed, fps, false, number, []⟩

/-- what may be called or clicked -/
inductive Call
  | half
  | double
  | paused (b : Bool)
  /-- any call of `animation_parameters`, also by `speed()`, `show_fps()`, `synced()`, ...; with the new speed, if any -/
  | params (speed : Option Rat)

/-- the effect -/
def Call.run (m : Sim S) (k : Rec S) : Call → Rec S
  /- `an_half`, `an_double` (salabim.py:13813-13819) -/
  | .half => { k with speed := k.speed / 2 }
  | .double => { k with speed := k.speed * 2 }
  /- `paused(value)`, `an_go`, `an_menu` (salabim.py:13297-13299) -/
  | .paused b => { k with paused := b }
  /- `if self._video: self.video_t = self._now` (salabim.py:11607-11609, 11903-11904) -/
  | .params s => { k with speed := s.getD k.speed, videoT := m.now k.sim }

/-- `_save_frame` and `insert_frame`, for separate images (salabim.py:12106-12112, 12118-12122) -/
def save (k : Rec S) : Rec S := { k with frames := k.frames ++ [(k.number, k.t)], number := k.number + 1 }

/-- one round of `simulate_and_animate_loop` (salabim.py:13459-13472, 13574-13578) -/
inductive Tick (m : Sim S) : Rec S → Rec S → Prop
  | paused {k : Rec S} {s : S} : k.paused = true → CatchUp m k.videoT k.sim s → Tick m k { k with t := k.videoT, sim := s }
  | frame {k k' : Rec S} {s : S} : k.paused = false → CatchUp m k.videoT k.sim s → k' = save { k with t := k.videoT, sim := s } →
      Tick m k { k' with videoT := k'.videoT + k'.speed / k'.fps, number := k'.number + 1 }

/-- `self._images.extend(self._images[::-1])` (salabim.py:11999-12000, 12033-12034) -/
def written {F : Type} (pingpong : Bool) (images : List F) : List F := if pingpong then images ++ images.reverse else images

end Video
end Verif
