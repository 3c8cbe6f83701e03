import Verif.View
import Mathlib.Tactic.Cases
import Mathlib.Tactic.Linarith
import Mathlib.Tactic.FieldSimp
import Mathlib.Tactic.Ring
import Mathlib.Tactic.NormNum

/-!
# C104: coordinates, anchors, zooming and panning
-/

namespace Verif
namespace View

/-- what may happen to the window: calls, and what the user does with the mouse; a tick shows the animation once -/
inductive Call
  | params (width height : Option Int) (x0 x1 y0 : Option Rat)
  | adjust
  | begin
  | wheel (mx my : Rat) (delta : Int)
  | startPan (ex ey : Rat)
  | doPan (ex ey : Rat)
  | unzoom
  | tick

/-- what happens; `none` if an exception is raised -/
def Call.run : Call → Window → Option Window
  | .params w h x0 x1 y0, v => View.params w h x0 x1 y0 v
  | .adjust, v => View.adjust v
  | .begin, v => some (View.begin v)
  | .wheel mx my d, v => some (View.wheel mx my d v)
  | .startPan ex ey, v => some (View.startPan ex ey v)
  | .doPan ex ey, v => some (View.doPan ex ey v)
  | .unzoom, v => some (View.unzoom v)
  | .tick, v => some (postTick (preTick v))

/-- all histories, in any order -/
inductive Reach : Window → Prop
  | init : Reach init
  | call {v v' : Window} (c : Call) : Reach v → c.run v = some v' → Reach v'

/-- one call after the other -/
def runs : List Call → Window → Option Window
  | [], v => some v
  | c :: cs, v => (c.run v).bind (runs cs)

/-- doesn't change the parameters -/
def Call.isMouse : Call → Bool
  | .params .. => false
  | .adjust => false
  | _ => true

/-- the frame is exactly what is seen in a window of that size -/
def Frame.Fits (f : Frame) (w h : Rat) : Prop := f.scale ≠ 0 ∧ (f.x1 - f.x0) * f.scale = w ∧ (f.y1 - f.y0) * f.scale = h

theorem mouse_keeps {c : Call} (hc : c.isMouse = true) {v v' : Window} (h : c.run v = some v') : v'.base = v.base ∧ v'.width = v.width ∧ v'.height = v.height := by
  cases c <;> simp only [Call.isMouse, Bool.false_eq_true] at hc <;> cases h <;> exact ⟨rfl, rfl, rfl⟩

theorem params_fits {w h : Option Int} {x0 x1 y0 : Option Rat} {v v' : Window} (hp : params w h x0 x1 y0 v = some v') : v'.base.Fits v'.width v'.height := by
  unfold params at hp
  simp only at hp
  split at hp
  · cases hp
  · rename_i h1
    split at hp
    · cases hp
    · rename_i h2
      cases hp
      refine ⟨h2, ?_, ?_⟩
      · simp only; rw [mul_div_cancel₀]; exact h1
      · simp only; rw [add_sub_cancel_left]; exact div_mul_cancel₀ _ h2

theorem reach_fits {v : Window} (h : Reach v) : v.base.Fits v.width v.height := by
  induction h with
  | init => exact ⟨by decide, by decide +kernel, by decide +kernel⟩
  | @call v v' c _ hr ih =>
    by_cases hc : c.isMouse = true
    · obtain ⟨h1, h2, h3⟩ := mouse_keeps hc hr
      rw [h1, h2, h3]; exact ih
    · cases c <;> simp [Call.isMouse] at hc
      · exact params_fits hr
      · exact params_fits (hr : View.params _ _ _ _ _ _ = _)

/-- **C104.** Converting user coordinates into screen coordinates and the other way around are inverse to each other; sizes are differences of coordinates -/
theorem C104_roundtrip {v : Window} (h : Reach v) (a b : Rat) :
    toUserX v (toScreenX v a) = a ∧ toScreenX v (toUserX v a) = a ∧ toUserY v (toScreenY v a) = a ∧ toScreenY v (toUserY v a) = a ∧
    toUserSize v (toScreenSize v a) = a ∧ toScreenSize v (toUserSize v a) = a ∧
    toScreenX v a - toScreenX v b = toScreenSize v (a - b) ∧ toScreenY v a - toScreenY v b = toScreenSize v (a - b) := by
  have hs := (reach_fits h).1
  simp only [toUserX, toScreenX, toUserY, toScreenY, toUserSize, toScreenSize]
  refine ⟨?_, ?_, ?_, ?_, ?_, ?_, ?_, ?_⟩ <;> (try field_simp) <;> ring

/-- C104: x0 and x1 are at the left and at the right of the window, y0 and y1 at the bottom and at the top -/
theorem C104_corners {v : Window} (h : Reach v) :
    toScreenX v v.base.x0 = 0 ∧ toScreenX v v.base.x1 = v.width ∧ toScreenY v v.base.y0 = 0 ∧ toScreenY v v.base.y1 = v.height := by
  obtain ⟨_, h1, h2⟩ := reach_fits h
  exact ⟨by simp [toScreenX], h1, by simp [toScreenY], h2⟩

/-- where the anchors are, as fractions of the width and height -/
def places : List (String × Rat × Rat) :=
  [("nw", 0, 1), ("n", 1 / 2, 1), ("ne", 1, 1), ("w", 0, 1 / 2), ("c", 1 / 2, 1 / 2), ("center", 1 / 2, 1 / 2), ("e", 1, 1 / 2), ("sw", 0, 0), ("s", 1 / 2, 0), ("se", 1, 0), ("", 1, 0)]

/-- C104: each anchor is at its place in the window, both in screen coordinates and, when the view isn't zoomed or panned, in user coordinates: they are converted into each other.
Anything else is refused. -/
theorem C104_anchors {v : Window} (h : Reach v) (hz : v.z = v.base) :
    (∀ p ∈ places,
      anchorX (preTick v) p.1 true = some (p.2.1 * v.width) ∧ anchorY (preTick v) p.1 true = some (p.2.2 * v.height) ∧
      ∃ x y, anchorX (preTick v) p.1 false = some x ∧ anchorY (preTick v) p.1 false = some y ∧
        toScreenX (preTick v) x = p.2.1 * v.width ∧ toScreenY (preTick v) y = p.2.2 * v.height) ∧
    ∀ a, a ∉ places.map Prod.fst → ∀ s, anchorX (preTick v) a s = none ∧ anchorY (preTick v) a s = none := by
  obtain ⟨hs, h1, h2⟩ := reach_fits h
  constructor
  · intro p hp
    simp only [places, List.mem_cons, List.not_mem_nil, or_false] at hp
    rcases hp with rfl | rfl | rfl | rfl | rfl | rfl | rfl | rfl | rfl | rfl | rfl <;>
      simp [anchorX, anchorY, preTick, toScreenX, toScreenY, hz, ← h1, ← h2] <;> (try refine ⟨?_, ?_⟩) <;> (try ring_nf) <;> simp
  · intro a ha s
    simp only [places, List.map_cons, List.map_nil, List.mem_cons, List.not_mem_nil, or_false, not_or] at ha
    simp [anchorX, anchorY, ha]

/-- C104: the anchors don't depend on zooming and panning -/
theorem C104_anchors_fixed {v v' : Window} {cs : List Call} (hc : ∀ c ∈ cs, c.isMouse = true) (h : runs cs v = some v') (a : String) (s : Bool) :
    anchorX (preTick v') a s = anchorX (preTick v) a s ∧ anchorY (preTick v') a s = anchorY (preTick v) a s := by
  have key : v'.base = v.base ∧ v'.width = v.width ∧ v'.height = v.height := by
    induction cs generalizing v with
    | nil => cases h; exact ⟨rfl, rfl, rfl⟩
    | cons c cs ih =>
      obtain ⟨u, hu, h⟩ := Option.bind_eq_some_iff.1 h
      obtain ⟨a1, a2, a3⟩ := mouse_keeps (hc c (by simp)) hu
      obtain ⟨b1, b2, b3⟩ := ih (fun c hc' => hc c (by simp [hc'])) h
      exact ⟨b1.trans a1, b2.trans a2, b3.trans a3⟩
  obtain ⟨h1, h2, h3⟩ := key
  simp only [anchorX, anchorY, preTick, h1, h2, h3, and_self]

theorem zooms_eq (x y f : Rat) (hf : f ≠ 0) (n : Nat) (z : Frame) :
    zooms x y f n z = ⟨x - (x - z.x0) * f ^ n, y - (y - z.y0) * f ^ n, x - (x - z.x1) * f ^ n, y - (y - z.y1) * f ^ n, z.scale / f ^ n⟩ := by
  induction n generalizing z with
  | zero => simp [zooms]
  | succ n ih =>
    rw [zooms, ih]
    simp only [zoom, Frame.mk.injEq, pow_succ]
    refine ⟨by ring, by ring, by ring, by ring, by field_simp⟩

theorem factor_pow (d : Int) : ((if d < 0 then zoomFactor else 1 / zoomFactor) : Rat) ^ d.natAbs = (11 / 10 : Rat) ^ (-d) := by
  have hn : (11 / 10 : Rat) ≠ 0 := by norm_num
  unfold zoomFactor
  split
  · rename_i h
    have : -d = (d.natAbs : Int) := by omega
    rw [this, zpow_natCast]
  · rename_i h
    have : d = (d.natAbs : Int) := by omega
    conv_rhs => rw [this]
    rw [zpow_neg, zpow_natCast, one_div, inv_pow]

theorem factor_ne (d : Int) : ((if d < 0 then zoomFactor else 1 / zoomFactor) : Rat) ≠ 0 := by
  unfold zoomFactor; split <;> norm_num

/-- C104: with each notch of the mouse wheel everything gets 1.1 times larger or smaller; if the view wasn't zoomed before, the point under the mouse stays where it is -/
theorem C104_wheel {v : Window} (h : Reach v) (mx my : Rat) (d : Int) (s : Rat) :
    toScreenSize (preTick (wheel mx my d v)) s = toScreenSize (preTick v) s * (11 / 10) ^ d ∧
    (v.z.scale = v.base.scale →
      toUserX (preTick (wheel mx my d v)) mx = toUserX (preTick v) mx ∧ toUserY (preTick (wheel mx my d v)) my = toUserY (preTick v) my) := by
  have hs := (reach_fits h).1
  have hp := factor_pow d
  have hq : (11 / 10 : Rat) ^ (-d) ≠ 0 := zpow_ne_zero _ (by norm_num)
  have hr : (11 / 10 : Rat) ^ d = ((11 / 10 : Rat) ^ (-d))⁻¹ := by rw [zpow_neg, inv_inv]
  simp only [wheel, preTick, zooms_eq _ _ _ (factor_ne d), toScreenSize, toUserX, toUserY, hp, hr]
  generalize (11 / 10 : Rat) ^ (-d) = q at *
  refine ⟨by field_simp, fun hz => ?_⟩
  rw [hz]
  constructor <;> field_simp <;> ring

/-- no panning -/
def Call.isZoom : Call → Bool
  | .wheel .. => true
  | .unzoom => true
  | .begin => true
  | .tick => true
  | _ => false

/-- C104: when the view is zoomed in and out any number of times, x0() and x1() are at the left and at the right of the window during a tick, y0() and y1() at the bottom and at the top -/
theorem C104_zoomed {v v' : Window} (h : Reach v) {cs : List Call} (hc : ∀ c ∈ cs, c.isZoom = true) (hr : runs (.begin :: cs) v = some v') :
    let p := preTick v'
    toScreenX p p.base.x0 = 0 ∧ toScreenX p p.base.x1 = p.width ∧ toScreenY p p.base.y0 = 0 ∧ toScreenY p p.base.y1 = p.height := by
  have key : ∀ cs, (∀ c ∈ cs, c.isZoom = true) → ∀ v v', v.base.Fits v.width v.height → v.z.Fits v.width v.height → runs cs v = some v' → v'.z.Fits v'.width v'.height := by
    intro cs
    induction cs with
    | nil => intro _ v v' _ h2 h; cases h; exact h2
    | cons c cs ih =>
      intro hc v v' h1 h2 h
      obtain ⟨u, hu, h⟩ := Option.bind_eq_some_iff.1 h
      have hcc := hc c (by simp)
      refine ih (fun c hc' => hc c (by simp [hc'])) u v' ?_ ?_ h
      · cases c <;> simp only [Call.isZoom, Bool.false_eq_true] at hcc <;> cases hu <;> exact h1
      · cases c <;> simp only [Call.isZoom, Bool.false_eq_true] at hcc <;> cases hu
        · exact h1
        · rename_i mx my d _
          obtain ⟨a1, a2, a3⟩ := h2
          have hn := factor_ne d
          simp only [wheel, zooms_eq _ _ _ hn]
          generalize (if d < 0 then zoomFactor else 1 / zoomFactor : Rat) = f at hn
          have hn' := pow_ne_zero d.natAbs hn
          refine ⟨div_ne_zero a1 hn', ?_, ?_⟩
          · simp only; rw [← a2]; field_simp; ring
          · simp only; rw [← a3]; field_simp; ring
        · exact h1
        · exact h2
  have hf := reach_fits h
  obtain ⟨_, h1, h2⟩ := key cs hc (begin v) v' hf hf hr
  exact ⟨by simp [toScreenX], h1, by simp [toScreenY], h2⟩

/-- C104: when the view isn't zoomed, dragging the mouse takes the picture along: what was under the mouse when the button was pressed is under the mouse all the time -/
theorem C104_pan {v v' : Window} (h : Reach v) (hz : v.z.scale = v.base.scale) (ex ey ex' ey' : Rat) (ps : List (Rat × Rat))
    (hr : runs (.startPan ex ey :: ps.map (fun p => .doPan p.1 p.2) ++ [.doPan ex' ey']) v = some v') :
    toUserX (preTick v') ex' = toUserX (preTick v) ex ∧ toUserY (preTick v') (v.height - ey') = toUserY (preTick v) (v.height - ey) ∧
    ∀ s, toScreenSize (preTick v') s = toScreenSize (preTick v) s := by
  have hs := (reach_fits h).1
  have key : ∀ (ps : List (Rat × Rat)) (u : Window), u.base = v.base → u.z.scale = v.z.scale → u.lastx = ex → u.lasty = ey → u.lastx0 = v.z.x0 → u.lasty0 = v.z.y0 →
      runs (ps.map (fun p => .doPan p.1 p.2) ++ [.doPan ex' ey']) u = some v' →
      v'.z.scale = v.z.scale ∧ v'.z.x0 = v.z.x0 - (ex' - ex) / v.base.scale ∧ v'.z.y0 = v.z.y0 + (ey' - ey) / v.base.scale := by
    intro ps
    induction ps with
    | nil =>
      intro u h1 h2 h3 h4 h5 h6 hr
      cases hr
      refine ⟨h2, ?_, ?_⟩
      · simp only [doPan, h1, h3, h5]; ring
      · simp only [doPan, h1, h4, h6]
    | cons p ps ih =>
      intro u h1 h2 h3 h4 h5 h6 hr
      exact ih (doPan p.1 p.2 u) h1 h2 h3 h4 h5 h6 hr
  obtain ⟨k1, k2, k3⟩ := key ps (startPan ex ey v) rfl rfl rfl rfl rfl rfl hr
  simp only [toUserX, toUserY, toScreenSize, preTick, k1, k2, k3, hz]
  refine ⟨?_, ?_, fun _ => trivial⟩ <;> field_simp <;> ring

/-- C104: whatever is done with the mouse, the parameters don't change, and unzoom gives back the view of the beginning -/
theorem C104_unzoom {v v' : Window} {cs : List Call} (hc : ∀ c ∈ cs, c.isMouse = true) (h : runs (.begin :: cs) v = some v') (a : Rat) :
    v'.base = v.base ∧ v'.width = v.width ∧ v'.height = v.height ∧
    toScreenX (preTick (unzoom v')) a = toScreenX v a ∧ toScreenY (preTick (unzoom v')) a = toScreenY v a ∧
    toScreenSize (preTick (unzoom v')) a = toScreenSize v a := by
  have key : ∀ cs, (∀ c ∈ cs, c.isMouse = true) → ∀ v v', runs cs v = some v' → v'.base = v.base ∧ v'.width = v.width ∧ v'.height = v.height := by
    intro cs
    induction cs with
    | nil => intro _ v v' h; cases h; exact ⟨rfl, rfl, rfl⟩
    | cons c cs ih =>
      intro hc v v' h
      obtain ⟨u, hu, h⟩ := Option.bind_eq_some_iff.1 h
      obtain ⟨a1, a2, a3⟩ := mouse_keeps (hc c (by simp)) hu
      obtain ⟨b1, b2, b3⟩ := ih (fun c hc' => hc c (by simp [hc'])) u v' h
      exact ⟨b1.trans a1, b2.trans a2, b3.trans a3⟩
  obtain ⟨h1, h2, h3⟩ := key _ (by simpa [Call.isMouse] using hc) v v' h
  refine ⟨h1, h2, h3, ?_, ?_, ?_⟩ <;> simp only [toScreenX, toScreenY, toScreenSize, preTick, unzoom, h1]

/-- an environment with x0 = -10, x1 = 30, y0 = 5 in a window of 800 x 600 -/
def demo : Option Window := runs [.params (some 800) (some 600) (some (-10)) (some 30) (some 5), .begin] init

/-- non-vacuity of C104: the window is 30 high; after two notches around (400, 300) the scale is 20 * 1.21 -/
example : demo.map (fun v => (v.base, toScreenX v 10, toScreenY v 35, toUserX v 200)) = some (⟨-10, 5, 30, 35, 20⟩, 400, 600, 0) ∧
    demo.map (fun v => ((wheel 400 300 2 v).z.scale, toUserX (preTick (wheel 400 300 2 v)) 400)) = some (24 + 1 / 5, 10) ∧
    demo.map (fun v => toUserX (preTick (doPan 500 300 (startPan 400 300 v))) 500) = some 10 ∧
    demo.bind (fun v => anchorX (preTick v) "n" false) = some 10 ∧ View.params none none (some 5) (some 5) none init = none := by decide +kernel

/-- in a view that is zoomed already, turning the mouse wheel doesn't keep the point under the mouse where it is, as the code uses the scale of the view that isn't zoomed -/
theorem C104_wheel_counterexample : ∃ v, Reach v ∧ toUserX (preTick (wheel 400 300 1 v)) 400 ≠ toUserX (preTick v) 400 := by
  refine ⟨wheel 400 300 1 init, .call (.wheel 400 300 1) .init rfl, by decide +kernel⟩

/-- turning the mouse wheel forth and back, without moving the mouse, doesn't give the same view -/
theorem C104_back_counterexample : (wheel 400 300 (-1) (wheel 400 300 1 init)).z ≠ init.z := by decide +kernel

/-- in a zoomed view, the picture doesn't follow the mouse, and x1() isn't at the right of the window any more -/
theorem C104_pan_counterexample : ∃ v, Reach v ∧ toUserX (preTick (doPan 500 300 (startPan 400 300 v))) 500 ≠ toUserX (preTick v) 400 ∧
    (let p := preTick (doPan 500 300 (startPan 400 300 v)); toScreenX p p.base.x1 ≠ p.width) := by
  refine ⟨wheel 400 300 1 init, .call (.wheel 400 300 1) .init rfl, by decide +kernel⟩

end View
end Verif
