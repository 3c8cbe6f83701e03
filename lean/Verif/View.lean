import Mathlib.Algebra.Order.Field.Rat
import Mathlib.Algebra.Order.Floor.Ring

/-!
# The two dimensional animation window: coordinates, anchors, zooming and panning

Numbers are exact rationals; the zoom factor 1.1 is 11/10. What is modelled is where things are, not how they are drawn. Mouse events are handled between two ticks, as
in the code, and the callbacks that are called during a tick don't change the parameters. `retina` is 1 (it is something else on iOS only).
-/

namespace Verif
namespace View

/-- `_x0`, `_y0`, `_x1`, `_y1`, `_scale` (salabim.py:10645-10651), or the same with `z` (salabim.py:13426-13430) or `_org` (salabim.py:10737-10741) -/
structure Frame where
  x0 : Rat
  y0 : Rat
  x1 : Rat
  y1 : Rat
  scale : Rat
  deriving DecidableEq

/-- the attributes of the environment for the window -/
structure Window where
  width : Rat
  height : Rat
  base : Frame
  z : Frame
  org : Frame
  lastx : Rat
  lasty : Rat
  lastx0 : Rat
  lasty0 : Rat
  deriving DecidableEq

/-- `Environment.__init__` (salabim.py:10632-10651); what isn't there yet is taken to be the same as what is -/
def init : Window :=
  let f : Frame := ⟨0, 0, 1024, 768, 1⟩
  ⟨1024, 768, f, f, f, 0, 0, 0, 0⟩

/-- `_zoom_factor` (salabim.py:10605) -/
def zoomFactor : Rat := 11 / 10

/-- `animation_parameters(width, height, x0, x1, y0)` (salabim.py:11626-11634, 11687-11700, 11801-11802), also `env.x0(value)` and the like (salabim.py:12214-12267,
12407-12408, 12433-12434); `none` is ZeroDivisionError -/
def params (width height : Option Int) (x0 x1 y0 : Option Rat) (v : Window) : Option Window :=
  let w : Rat := (width.map (fun i : Int => (i : Rat))).getD v.width
  let h : Rat := (height.map (fun i : Int => (i : Rat))).getD v.height
  let x0 := x0.getD v.base.x0
  let x1 := x1.getD v.base.x1
  let y0 := y0.getD v.base.y0
  if x1 - x0 = 0 then none else
  let scale := w / (x1 - x0)
  if scale = 0 then none else
  some { v with width := w, height := h, base := ⟨x0, y0, x1, y0 + h / scale, scale⟩ }

/-- `width(adjust_x0_x1_y0=True)` (salabim.py:12410-12415) -/
def adjust (v : Window) : Option Window := params none none (some 0) (some v.width) (some 0) v

/-- the start of an animated run (salabim.py:13426-13430) -/
def begin (v : Window) : Window := { v with z := v.base }

/-- `unzoom` (salabim.py:11356-11361) -/
def unzoom (v : Window) : Window := { v with z := v.base }

/-- one turn of the loop of `on_mousewheel` (salabim.py:11322-11326) around the point (x, y) -/
def zoom (x y f : Rat) (z : Frame) : Frame :=
  ⟨x - (x - z.x0) * f, y - (y - z.y0) * f, x - (x - z.x1) * f, y - (y - z.y1) * f, z.scale / f⟩

/-- `n` turns of the loop -/
def zooms (x y f : Rat) : Nat → Frame → Frame
  | 0, z => z
  | n + 1, z => zooms x y f n (zoom x y f z)

/-- `on_mousewheel` (salabim.py:11293-11326), with the mouse at (mx, my) from the lower left corner of the window; the point is found with `_scale`, the scale without zooming -/
def wheel (mx my : Rat) (delta : Int) (v : Window) : Window :=
  let x := mx / v.base.scale + v.z.x0
  let y := my / v.base.scale + v.z.y0
  { v with z := zooms x y (if delta < 0 then zoomFactor else 1 / zoomFactor) delta.natAbs v.z }

/-- `start_pan` (salabim.py:11336-11341), with the mouse at (ex, ey) from the upper left corner of the window -/
def startPan (ex ey : Rat) (v : Window) : Window := { v with lastx := ex, lasty := ey, lastx0 := v.z.x0, lasty0 := v.z.y0 }

/-- `do_pan` (salabim.py:11343-11351) -/
def doPan (ex ey : Rat) (v : Window) : Window :=
  let dx := -((ex - v.lastx) / v.base.scale)
  let dy := (ey - v.lasty) / v.base.scale
  let x0 := v.lastx0 + dx
  let y0 := v.lasty0 + dy
  { v with z := { v.z with x0 := x0, y0 := y0, x1 := x0 + (v.base.x1 - v.base.x0), y1 := y0 + (v.base.y1 - v.base.y0) } }

/-- `animation_pre_tick` (salabim.py:10737-10746) -/
def preTick (v : Window) : Window := { v with org := v.base, base := v.z }
/-- `animation_post_tick` (salabim.py:10766-10770) -/
def postTick (v : Window) : Window := { v with base := v.org }

/-- `user_to_screen_coordinates_x` (salabim.py:12310) -/
def toScreenX (v : Window) (x : Rat) : Rat := (x - v.base.x0) * v.base.scale
/-- `user_to_screen_coordinates_y` (salabim.py:12325) -/
def toScreenY (v : Window) (y : Rat) : Rat := (y - v.base.y0) * v.base.scale
/-- `user_to_screen_coordinates_size` (salabim.py:12340) -/
def toScreenSize (v : Window) (s : Rat) : Rat := s * v.base.scale
/-- `screen_to_user_coordinates_x` (salabim.py:12355) -/
def toUserX (v : Window) (x : Rat) : Rat := v.base.x0 + x / v.base.scale
/-- `screen_to_user_coordinates_y` (salabim.py:12370) -/
def toUserY (v : Window) (y : Rat) : Rat := v.base.y0 + y / v.base.scale
/-- `screen_to_user_coordinates_size` (salabim.py:12385) -/
def toUserSize (v : Window) (s : Rat) : Rat := s / v.base.scale

/-- `xy_anchor_to_x` (salabim.py:13930-13954), without over3d and retina_scale; `none` is ValueError -/
def anchorX (v : Window) (a : String) (screen : Bool) : Option Rat :=
  if a ∈ ["nw", "w", "sw"] then some (if screen then 0 else v.org.x0)
  else if a ∈ ["n", "c", "center", "s"] then some (if screen then v.width / 2 else (v.org.x0 + v.org.x1) / 2)
  else if a ∈ ["ne", "e", "se", ""] then some (if screen then v.width else v.org.x1)
  else none

/-- `xy_anchor_to_y` (salabim.py:13956-13981), without over3d and retina_scale; `none` is ValueError -/
def anchorY (v : Window) (a : String) (screen : Bool) : Option Rat :=
  if a ∈ ["nw", "n", "ne"] then some (if screen then v.height else v.org.y1)
  else if a ∈ ["w", "c", "center", "e"] then some (if screen then v.height / 2 else (v.org.y0 + v.org.y1) / 2)
  else if a ∈ ["sw", "s", "se", ""] then some (if screen then 0 else v.org.y0)
  else none

end View
end Verif
