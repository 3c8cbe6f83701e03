import Verif.Shift
import Verif.Monitor
import Verif.Props.Interrupt

/-!
# `reset_now` only shifts the presented time (C51)
-/

namespace Verif
open World

/-! ## what the environment presents -/

/-- `Environment.now()` (salabim.py:13129) -/
def presentedNow (w : World) : Rat := w.now - w.offset

/-- `Component.scheduled_time()` (salabim.py:9910) -/
def scheduledTime (w : World) (c : CId) : ETime := (w.comps c).schedTime.subQ w.offset

/-- `Component.enter_time(q)` (salabim.py:9892-9893); none: not in the queue -/
def enterTime (w : World) (c : CId) (q : QRef) : Option Rat := ((w.queues q).find c).map (fun m => m.enter - w.offset)

/-- specification: in `w'` every time that is presented is `δ` more than in `w`, and everything else is the same: the events to come
in the same order, at the same distance from now, of the same components; the remaining durations; the queues with their logs of
lengths and lengths of stay; the other attributes of components, resources and states -/
structure Shifted (δ : Rat) (w w' : World) : Prop where
  now : presentedNow w' = presentedNow w + δ
  scheduled : ∀ c, scheduledTime w' c = scheduledTime w c + (δ : ETime)
  entered : ∀ c q, enterTime w' c q = (enterTime w c q).map (· + δ)
  events : w'.events.map (fun e => (e.t - w'.now, e.prio, e.seq, e.c, e.ret)) = w.events.map (fun e => (e.t - w.now, e.prio, e.seq, e.c, e.ret))
  remaining : ∀ c, remainingDuration w' c = remainingDuration w c
  stays : ∀ q, (w'.queues q).stays = (w.queues q).stays
  lens : ∀ q, (w'.queues q).lens.map (fun p => (p.1 - w'.now, p.2)) = (w.queues q).lens.map (fun p => (p.1 - w.now, p.2))
  members : ∀ q, w'.inQ q = w.inQ q
  current : w'.current = w.current
  status : ∀ c, w'.status c = w.status c
  claims : ∀ c, (w'.comps c).claims = (w.comps c).claims
  resources : w'.res = w.res
  states : w'.states = w.states
  turns : w'.standby = w.standby ∧ w'.pending = w.pending

theorem subQ_shift (t : ETime) (o δ : Rat) : t.subQ (o - δ) = t.subQ o + (δ : ETime) := by
  cases t with
  | none => rfl
  | some t =>
    show ((t - (o - δ) : Rat) : ETime) = ((t - o + δ : Rat) : ETime)
    congr 1; ring

theorem shifted_sh (δ : Rat) (w : World) : Shifted δ w (w.sh δ) where
  now := by simp only [presentedNow, sh_now, sh_offset]; ring
  scheduled c := by simp only [scheduledTime, sh_comps, sh_offset, subQ_shift]
  entered c q := by
    simp only [enterTime, sh_queues, sh_offset, Option.map_map]
    congr 1; funext m; simp only [Function.comp]; ring
  events := rfl
  remaining _ := rfl
  stays _ := rfl
  lens _ := rfl
  members _ := rfl
  current := rfl
  status _ := rfl
  claims _ := rfl
  resources := rfl
  states := rfl
  turns := ⟨rfl, rfl⟩

/-! ## C51 -/

/-- C51: after `reset_now(t)`, `now()` is t -/
theorem C51_now (fuel : Nat) (t : Rat) (w : World) : presentedNow (exec fuel (.resetNow t) w).world = t := by
  simp only [exec, resetNow, presentedNow, R.world]; ring

theorem resetNow_sh (t : Rat) (w : World) : resetNow t w = w.sh (t - presentedNow w) := by
  unfold resetNow World.sh presentedNow
  congr 1; ring

/-- C51: `reset_now` never raises, and shifts all presented times by the same constant -/
theorem C51_shift (fuel : Nat) (t : Rat) (w : World) :
    ∃ w', exec fuel (.resetNow t) w = .ok w' ∧ Shifted (t - presentedNow w) w w' := by
  refine ⟨resetNow t w, rfl, ?_⟩
  rw [resetNow_sh]
  exact shifted_sh _ _

/-- C51: and so it is ever after. Whatever is done next, in the simulation after `reset_now(t)` (with the absolute times in the calls
adapted) everything happens in the same way: the same exceptions at every call, and after every call all presented times are shifted by
that same constant. -/
theorem C51_ever_after (fuel : Nat) (t : Rat) (w : World) (os : List Op) (o : Op) :
    let δ := t - presentedNow w
    let v := execAll fuel os w
    let v' := execAll fuel (os.map (Op.later δ)) (exec fuel (.resetNow t) w).world
    Shifted δ v v' ∧ (exec fuel (o.later δ) v').error? = (exec fuel o v).error? ∧
      Shifted δ (exec fuel o v).world (exec fuel (o.later δ) v').world := by
  have h : (exec fuel (.resetNow t) w).world = w.sh (t - presentedNow w) := resetNow_sh t w
  simp only [h, execAll_sh, exec_sh, map_error, map_world]
  exact ⟨shifted_sh _ _, trivial, shifted_sh _ _⟩

/-- calls in which no absolute time is given are not adapted at all -/
def Op.relative : Op → Prop
  | .hold _ _ t _ _ _ _ | .runStart _ t _ _ _ => t = none
  | .activate _ a _ _ _ _ _ _ _ | .create _ a _ _ _ _ _ => a = none
  | .request _ _ _ _ fa _ _ _ _ | .wait _ _ _ fa _ _ _ _ | .waitFor _ _ _ fa _ _ _ _ => fa = none
  | .fromStore _ _ _ _ _ fa _ _ _ _ | .toStore _ _ _ _ _ fa _ _ _ _ => fa = none
  | .resetNow _ => False
  | _ => True

theorem later_relative {o : Op} (h : o.relative) (δ : Rat) : o.later δ = o := by
  cases o <;> simp only [Op.relative] at h <;> simp only [Op.later] <;> subst h <;> rfl

/-- C51: for a model that only uses durations and delays the rest of the simulation is the same, but for the presented times -/
theorem C51_relative (fuel : Nat) (t : Rat) (w : World) (os : List Op) (ho : ∀ o ∈ os, o.relative) :
    Shifted (t - presentedNow w) (execAll fuel os w) (execAll fuel os (exec fuel (.resetNow t) w).world) := by
  have : os.map (Op.later (t - presentedNow w)) = os := by
    conv_rhs => rw [← List.map_id os]
    exact List.map_congr_left fun o h => later_relative (ho o h) _
  have h := (C51_ever_after fuel t w os .step).1
  simp only [this] at h
  exact h

/-- C51: the value of a level monitor at a presented moment: what was the value at τ, is the value at τ + δ after the shift -/
theorem C51_monitor_get (m : Mon.Monitor) (now offset δ : Rat) (τ : Rat) :
    m.get now (offset - δ) (some (τ + δ)) = m.get now offset (some τ) := by
  simp only [Mon.Monitor.get]
  rw [show τ + δ + (offset - δ) = τ + offset by ring]

/-- C51 for `slice` of a monitor: the start is not shifted but the end is (salabim.py:824-841), so that the slice over the same period
isn't the same after `reset_now`. Here: a level that is 5 from time 10 on, at time 20; slice from 10 to 15; and after `reset_now(0)` the
slice from -10 to -5. -/
theorem C51_slice_counterexample : ∃ (m : Mon.Monitor) (now δ start stop : Rat) (a b : Mon.Monitor),
    Mon.slice 9 now 0 m (some start) (some stop) none = .ok a ∧
    Mon.slice 9 now (0 - δ) m (some (start + δ)) (some (stop + δ)) none = .ok b ∧ a.x ≠ b.x := by
  refine ⟨{ Mon.system true .any 0 with x := [.num 5], t := [10] }, 20, -20, 10, 15, _, _, rfl, rfl, ?_⟩
  decide +kernel

/-- a run with a hold until an absolute time: events at 3 and at 10, seen from time 0, at which `reset_now(100)` is called -/
example : (execAll 9 [.create 1 none (3 : Rat) (0 : Rat) false false false, .resetNow 100,
      .runStart none (some ((10 + 100 : Rat) : ETime)) ⊤ false false] World.init).events.map (fun e => (e.t, e.c)) =
    (execAll 9 [.create 1 none (3 : Rat) (0 : Rat) false false false,
      .runStart none (some ((10 : Rat) : ETime)) ⊤ false false] World.init).events.map (fun e => (e.t, e.c)) ∧
    presentedNow (execAll 9 [.create 1 none (3 : Rat) (0 : Rat) false false false, .resetNow 100] World.init) = 100 := by
  decide +kernel

end Verif
