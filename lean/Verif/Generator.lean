import Verif.World
import Verif.Util
import Mathlib.Data.List.Sort

/-!
# ComponentGenerator

All citations are to `/repo/salabim/salabim.py`.

The construction of a generator and its processes, as a machine that makes one step for each event of the generator. A sample of a distribution (or the value
of a constant) is an element of a given sequence. It is assumed that nobody but the generator itself schedules the generator, so that it becomes current at
exactly the moment it holds till (C03, C05), and that the clock is not reset in the meantime (the offset is constant). The components that are generated are
reduced to the moments they are created, or for a generator with disturbance, to the moments for which they are scheduled. The yieldless processes
(20672-20728) do exactly the same.
-/

namespace Verif
namespace Generator

/-- arguments of `ComponentGenerator` (salabim.py:20439-20459); `at`, `delay`, `till`, `duration` and `number` after sampling. A disturbance that is falsy is `none`. -/
structure Args where
  at_ : Option Rat := none
  delay : Option Rat := none
  till : Option ETime := none
  duration : Option ETime := none
  number : Option Int := none
  /-- the argument number was a callable -/
  numberSampled : Bool := false
  iat : Option (Nat → Rat) := none
  forceAt : Bool := false
  forceTill : Bool := false
  disturbance : Option (Nat → Rat) := none
  equidistant : Bool := false
  moments : Option (List Rat) := none

/-- the attributes used by the processes: `self.till`, `self.number` (none: inf), `self.iat`, `self.disturbance`, `self.force_at`, the offset and the default cap_now -/
structure Conf where
  till : ETime
  number : Option Nat
  iat : Nat → Rat
  disturbance : Nat → Rat
  forceAt : Bool
  off : Rat
  cap : Bool

/-- what the generator does when it becomes current -/
inductive Stage
  /-- the loop of do_iat (20597) -/
  | iat
  /-- the loop of do_iat_disturbance (20622) -/
  | disturbed
  /-- the start of do_spread, with the intervals (20581) -/
  | spread (intervals : List Rat)
  /-- after the hold in do_spread, with the intervals to come (20583) -/
  | held (rest : List Rat)
  /-- do_finalize (20730) -/
  | finalize
  /-- the process has ended, or there is none -/
  | over
  /-- the process has raised an exception -/
  | failed
  deriving DecidableEq

/-- a generator, scheduled for `time`; `n` is the local variable of the processes, `used` the number of samples of iat taken, `made` the moments of the
components generated and `ended` the moments at_end was called -/
structure Gen where
  time : Rat
  stage : Stage
  n : Nat := 0
  used : Nat := 0
  made : List Rat := []
  ended : List Rat := []
  deriving DecidableEq

/-- the moment `Component._reschedule` schedules for (salabim.py:7525-7532) -/
def schedule (cap : Bool) (now t : Rat) : Option Rat :=
  if t < now then if cap then some now else none else some t

/-- continue at `t` with the given stage, unless this is in the past -/
def Gen.at_ (g : Gen) (cap : Bool) (t : Rat) (s : Stage) : Gen :=
  match schedule cap g.time t with
  | some t => { g with time := t, stage := s }
  | none => { g with stage := .failed }

/-- `self.activate(process="do_finalize", at=self.till)` (salabim.py:20614-20615, 20640-20641); activate adds the offset (7720) -/
def Gen.stop (c : Conf) (g : Gen) : Gen :=
  match c.till with
  | some t => g.at_ c.cap (t + c.off) .finalize
  | none => g

/-- `n >= self.number` (salabim.py:20606, 20648) -/
def Conf.enough (c : Conf) (n : Nat) : Bool := c.number.any (· ≤ n)

/-- the loop of `do_iat` (salabim.py:20597-20617); `hold(till=t)` adds the offset (7822) -/
def stepIat (c : Conf) (g : Gen) : Gen :=
  let g := { g with made := g.made ++ [g.time], n := g.n + 1 }
  if c.enough g.n then { g with ended := g.ended ++ [g.time], stage := .over } else
  let t := g.time + c.iat g.used
  let g := { g with used := g.used + 1 }
  if (t : ETime) > c.till then g.stop c else g.at_ c.cap (t + c.off) .iat

/-- the loop of `do_iat_disturbance` (salabim.py:20621-20654); `Component.__init__` adds the offset to `at` (7215) -/
def stepDisturbed (c : Conf) (g : Gen) : Gen :=
  let iat := c.iat g.used
  let d := c.disturbance g.used
  let at_ := if c.forceAt then g.time + d else g.time + iat + d
  let g := { g with used := g.used + 1 }
  if (at_ : ETime) > c.till then g.stop c else
  match schedule c.cap g.time (at_ + c.off) with
  | none => { g with stage := .failed }
  | some m =>
    let g := { g with made := g.made ++ [m], n := g.n + 1 }
    if c.enough g.n then { g with stage := .over } else
    g.at_ c.cap (g.time + iat + c.off) .disturbed

/-- the loop of `do_spread` (salabim.py:20582-20594) from its head on, with the intervals that are left -/
def spreadLoop (c : Conf) (g : Gen) : List Rat → Gen
  | [] => { g with ended := g.ended ++ [g.time], stage := .over }
  | i :: rest => g.at_ c.cap (g.time + i) (.held rest)

/-- an event of the generator -/
def step (c : Conf) (g : Gen) : Gen :=
  match g.stage with
  | .iat => stepIat c g
  | .disturbed => stepDisturbed c g
  | .spread l => spreadLoop c g l
  | .held rest => spreadLoop c { g with made := g.made ++ [g.time] } rest
  | .finalize => { g with ended := g.ended ++ [g.time], stage := .over }
  | .over => g
  | .failed => g

/-- the first `k` events of the generator -/
def run (c : Conf) (k : Nat) (g : Gen) : Gen := (step c)^[k] g

/-! ## construction -/

/-- something else than moments that is truthy (salabim.py:20475) -/
def Args.others (a : Args) : Bool :=
  a.at_.any (· ≠ 0) || a.delay.any (· ≠ 0) || a.till.any (fun t => decide (t ≠ ((0 : Rat) : ETime))) || a.duration.any (fun t => decide (t ≠ ((0 : Rat) : ETime)))
    || a.number.any (· ≠ 0) || a.numberSampled || a.iat.isSome || a.forceAt || a.forceTill || a.disturbance.isSome || a.equidistant

/-- `at` (salabim.py:20494-20500) -/
def Args.begins (a : Args) (now off : Rat) : Option Rat :=
  match a.at_, a.delay with
  | some _, some _ => none
  | none, d => some (now + d.getD 0)
  | some t, none => some (t + off)

/-- `self.till` (salabim.py:20501-20511) -/
def Args.ends (a : Args) (at_ off : Rat) : Option ETime :=
  match a.till, a.duration with
  | none, none => some ⊤
  | none, some d => some ((at_ : ETime) + d)
  | some t, none => some (t + (off : ETime))
  | some _, some _ => none

/-- `sorted` of numbers -/
def sorted (l : List Rat) : List Rat := l.insertionSort (· ≤ ·)

/-- the moments of a random spread of `n` components (salabim.py:20528-20545); `r` are the samples of random(). Without till as an argument `Uniform(at, None)`
is the constant `at`. -/
def Args.spreadMoments (a : Args) (at_ : Rat) (n : Nat) (r : Nat → Rat) : Option (List Rat) :=
  let hi : Option Rat := match a.till with
    | some (some t) => some t
    | _ => none
  if a.till = some ⊤ then none else
  if a.disturbance.isSome then none else
  if hi.any (fun t => decide (t < at_)) then none else
  let ms := sorted ((List.range n).map (fun k => at_ + (hi.getD at_ - at_) * r k))
  if a.forceAt || a.forceTill then
    if a.number = some 1 && !a.numberSampled then
      if a.forceAt && a.forceTill then none else
      if a.forceAt then some [at_] else hi.map (fun t => [t])
    else if a.forceTill && hi.isNone then none else
    let lo := ms.headD 0
    let up := ms.getLastD 0
    let vAt := if a.forceAt then at_ else lo
    let vTill := if a.forceTill then hi.getD 0 else up
    some (ms.map (fun m : Rat => (Util.interpolate (m : WithTop Rat) (lo : WithTop Rat) (up : WithTop Rat) (some vAt) (some vTill)).getD 0))
  else some ms

/-- `self.intervals` and `at` for a list of moments (salabim.py:20546-20548) -/
def intervals (ms : List Rat) : Rat × List Rat :=
  match List.zipWith (fun t0 t1 => t1 - t0) (0 :: ms) ms with
  | [] => (0, [])
  | i :: rest => (i, 0 :: rest)

/-- the construction in case there is something to generate by an inter arrival time (salabim.py:20551-20584): the process and when it starts -/
def Args.byIat (a : Args) (at_ : Rat) (till : ETime) (number : Option Nat) (off : Rat) (cap : Bool) : Option (Conf × Gen) :=
  let even : Option (ETime × (Nat → Rat)) :=
    if a.equidistant then
      match till with
      | none => none
      | some t =>
        if t - at_ < 0 then none else if number = some 1 then none else if a.iat.isSome then none else
        some (⊤, fun _ => match number with
          | some n => (t - at_) / ((n : Rat) - 1)
          | none => 0)
    else some (till, a.iat.getD (fun _ => 0))
  match even with
  | none => none
  | some (till, iat) =>
    if a.forceTill && !a.equidistant then none else
    let c : Conf := ⟨till, number, iat, a.disturbance.getD (fun _ => 0), a.forceAt, off, cap⟩
    let skip := !(a.forceAt || a.equidistant) && a.disturbance.isNone
    let first := if skip then at_ + iat 0 else at_
    let used := if skip then 1 else 0
    if (first : ETime) > till then
      match till with
      | some t => some (c, { time := t, stage := .finalize, used := used })
      | none => none
    else some (c, { time := first, stage := if a.disturbance.isSome then .disturbed else .iat, used := used })

/-- `ComponentGenerator.__init__` (salabim.py:20460-20588), with `Component.__init__` scheduling the process, which adds the offset (7212-7219); `none` is a
ValueError (or a TypeError) -/
def start (a : Args) (now off : Rat) (cap : Bool) (r : Nat → Rat) : Option (Conf × Gen) :=
  if a.moments.isSome && a.others then none else
  if a.disturbance.isSome && a.iat.isNone && !a.equidistant then none else
  match a.begins now off with
  | none => none
  | some at_ =>
    match a.ends at_ off with
    | none => none
    | some till =>
      if till < (at_ : ETime) then none else
      if a.number.any (· < 0) then none else
      let number := a.number.map Int.toNat
      if number = some 0 then some (⟨till, number, fun _ => 0, fun _ => 0, false, off, cap⟩, { time := now, stage := .over }) else
      let given := match a.moments with
        | some (m :: ms) => some (sorted (m :: ms))
        | _ => none
      let plan : Option (Conf × Gen) :=
        if (a.iat.isNone && !a.equidistant) || given.isSome then
          let ms : Option (List Rat) := match given with
            | some ms => some ms
            | none => match number with
              | none => none
              | some n => a.spreadMoments at_ n r
          ms.map (fun ms => (⟨till, number, fun _ => 0, fun _ => 0, a.forceAt, off, cap⟩, { time := (intervals ms).1, stage := .spread (intervals ms).2 }))
        else a.byIat at_ till number off cap
      match plan with
      | none => none
      | some (c, g) => (schedule cap now (g.time + off)).map (fun t => (c, { g with time := t }))

end Generator
end Verif
