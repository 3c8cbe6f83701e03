import Verif.Util

/-!
# `Animate` objects that move: creation, update and what is shown

`A` are the names of the attributes that are interpolated with `interpolate`: x, y, offsetx, offsety, angle, alpha, linewidth, fontsize, circle, line, polygon, rectangle, points.
`V` are the values, `comb` mixes two values. All attributes have the moments t0 and t1 in common. Colours are mixed by `colorinterpolate` (see C101); the width and height of images, where
None means the width of the image, are left out, and so are attributes that are not interpolated.
-/

namespace Verif
namespace Tween

open Util

/-- `t0`, `t1`, `x0`, `x1`, `y0`, `y1`, ... of an `Animate` object (salabim.py:16550-16599); `⊤` is inf -/
structure Obj (A V : Type) where
  t0 : WithTop Rat
  t1 : WithTop Rat
  v0 : A → V
  v1 : A → V

/-- the arguments t0, t1, x0, x1, y0, y1, ... of a call of `update`; `none` if not given -/
structure Args (A V : Type) where
  t0 : Option (WithTop Rat) := none
  t1 : Option (WithTop Rat) := none
  v0 : A → Option V := fun _ => none
  v1 : A → Option V := fun _ => none

variable {A V : Type} [DecidableEq V]

/-- `x(t)`, `y(t)`, `angle(t)`, ... (salabim.py:17029-17140, 17215-17285, 17341-17355) -/
def value (comb : Rat → V → V → V) (k : Obj A V) (a : A) (t : WithTop Rat) : V := interpolateWith comb t k.t0 k.t1 (k.v0 a) (k.v1 a)

/-- `Animate(...)` at `now`, with `v0` the values of the arguments x0, y0, ... or their defaults (salabim.py:16526-16599) -/
def create (now : Rat) (v0 : A → V) (u : Args A V) : Obj A V where
  t0 := u.t0.getD now
  t1 := u.t1.getD ⊤
  v0 := v0
  v1 := fun a => (u.v1 a).getD (v0 a)

/-- `update(...)` at `now` (salabim.py:16915-16994) -/
def update (comb : Rat → V → V → V) (now : Rat) (u : Args A V) (k : Obj A V) : Obj A V :=
  let v0 : A → V := fun a => (u.v0 a).getD (value comb k a now)
  { t0 := u.t0.getD now
    t1 := u.t1.getD ⊤
    v0 := v0
    v1 := fun a => (u.v1 a).getD (v0 a) }

/-- `_i` for numbers (salabim.py:24902-24907) -/
def mixQ (p v0 v1 : Rat) : Rat := if v0 = v1 then v0 else (1 - p) * v0 + p * v1

end Tween
end Verif
