import Verif.Dist

/-!
# Datetimes (salabim.py:14763-14910, 13139-13169)

A datetime is the number of seconds since some fixed moment, a timedelta a number of seconds, both exact (Python rounds to microseconds). Infinite times, the parsing of strings
and the formatting of dates are left out.
-/

namespace Verif
namespace Distr

/-- the part of an environment that has to do with datetimes: `_time_unit`, `_datetime0` (`none` if False), `_now`, `_offset` -/
structure Clock where
  unit : Option TUnit
  datetime0 : Option Rat
  now : Rat
  offset : Rat

/-- `env.now()` (salabim.py:13123-13129) -/
def Clock.present (c : Clock) : Rat := c.now - c.offset

/-- `env.seconds(t)` (salabim.py:14398-14416) -/
def Clock.seconds (c : Clock) (t : Rat) : Option Rat := fromUnit .seconds t (envUnit c.unit)

/-- `env.to_seconds(t)` (salabim.py:14568-14583) -/
def Clock.toSeconds (c : Clock) (t : Rat) : Option Rat := toUnit .seconds t (envUnit c.unit)

/-- `env.datetime_to_t(datetime)` (salabim.py:14794-14811); `none` is ValueError -/
def Clock.datetimeToT (c : Clock) (d : Rat) : Option Rat :=
  match c.datetime0 with
  | some d0 => c.seconds (d - d0)
  | none => none

/-- `env.timedelta_to_duration(timedelta)` (salabim.py:14813-14830) -/
def Clock.timedeltaToDuration (c : Clock) (d : Rat) : Option Rat :=
  match c.datetime0 with
  | some _ => c.seconds d
  | none => none

/-- `env.t_to_datetime(t)` (salabim.py:14832-14852) -/
def Clock.tToDatetime (c : Clock) (t : Rat) : Option Rat :=
  match c.datetime0 with
  | some d0 => (c.toSeconds t).map (d0 + ·)
  | none => none

/-- `env.duration_to_timedelta(duration)` (salabim.py:14854-14871) -/
def Clock.durationToTimedelta (c : Clock) (t : Rat) : Option Rat :=
  match c.unit with
  | some _ => c.toSeconds t
  | none => none

/-- `env.datetime0(datetime0)` with a datetime (salabim.py:14873-14910) -/
def Clock.setDatetime0 (c : Clock) (d : Rat) : Clock := { c with datetime0 := some d, unit := some (c.unit.getD .seconds) }

/-- `env.reset_now(new_now)` (salabim.py:13139-13169) -/
def Clock.resetNow (c : Clock) (new : Rat) : Clock :=
  let offset := c.now - new
  { c with offset := offset, datetime0 := match c.datetime0 with | some d0 => some (d0 + (c.toSeconds (offset - c.offset)).getD 0) | none => none }

/-- `divmod(a, b)` for b > 0 -/
def divmod (a b : Rat) : Int × Rat := ((a / b).floor, a - b * (a / b).floor)

/-- the days, hours, minutes and seconds in the text of `env.duration_to_str(duration)` with datetime0 (salabim.py:14784-14792) -/
def Clock.fields (c : Clock) (duration : Rat) : Option (Int × Int × Int × Int) :=
  (c.toSeconds duration).map fun s =>
    let d := divmod s 86400
    let h := divmod d.2 3600
    let m := divmod h.2 60
    (d.1, h.1, m.1, m.2.floor)

/-- what happens to the clock: time passes, or reset_now is called -/
inductive ClockOp
  | pass (d : Rat)
  | reset (new : Rat)

/-- the effect of that -/
def Clock.step (c : Clock) : ClockOp → Clock
  | .pass d => { c with now := c.now + d }
  | .reset new => c.resetNow new

end Distr
end Verif
