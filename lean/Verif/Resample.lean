import Verif.Monitor

/-!
# as_resampled_dataframe (salabim.py:3271-3328)

The dataframe is the list of its t values and, for each monitor, the list of its x values; `none` is `pd.NA`. Left out: datetimes (`use_datetime0=True`), the names of the
columns, and monitors of another environment.
-/

namespace Verif
namespace Mon

/-- the `while t >= t_next` loop (salabim.py:3318-3323): `x` is `x_last`, the list has the pair `t_next`, `x_next` and what the iterator still has to give; it's empty
when `t_next` is inf -/
def catchUp (t : Rat) (x : Val) : List (Rat × Val) → Val × List (Rat × Val)
  | [] => (x, [])
  | p :: r => if t ≥ p.1 then catchUp t p.2 r else (x, p :: r)

/-- the `for t in arange(...)` loop for one monitor (salabim.py:3317-3324); `na` is `self.off` -/
def column (na : Val) (x : Val) (l : List (Rat × Val)) : List Rat → List (Option Val)
  | [] => []
  | t :: ts =>
    let p := catchUp t x l
    (if p.1 = na then none else some p.1) :: column na p.1 p.2 ts

/-- `as_resampled_dataframe(extra_monitors, delta_t, min_t, max_t)` (salabim.py:3278-3328), without numpy. `none`: `arange` doesn't end within `fuel` rounds -/
def Monitor.resampled (fuel : Nat) (now offset : Rat) (m : Monitor) (extra : List Monitor) (delta tmin tmax : Option Rat) : Option (Except Err (List Rat × List (List (Option Val)))) :=
  match m.t with
  | [] => some (.error .index)
  | start :: _ =>
    let lo := match tmin with | none => start | some t => t + offset
    let hi := match tmax with | none => now | some t => t + offset
    match Util.arange fuel lo hi (delta.getD 1) with
    | none => none
    | some ts =>
      if (m :: extra).any (fun k => !k.level || k.t.head? != some start) then some (.error .value)
      else some (.ok (ts, (m :: extra).map (fun k => column m.off k.off (k.t.zip k.x) ts)))

end Mon
end Verif
