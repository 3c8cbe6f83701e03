import Verif.Video
import Verif.Props.AnimClock
import Mathlib.Algebra.Order.Floor.Ring
import Mathlib.Tactic.FieldSimp

/-!
# C109: videos
-/

namespace Verif
namespace Video

open AnimClock (Sim CatchUp Lawful catchUp_spec C105_kernel)

variable {S : Type}

/-- a call or click (those that satisfy `P`), or a round of the animation loop -/
inductive Next (m : Sim S) (P : Call → Prop) : Rec S → Rec S → Prop
  | call {k : Rec S} (o : Call) : P o → Next m P k (o.run m k)
  | tick {k k' : Rec S} : Tick m k k' → Next m P k k'

/-- any history from the moment that recording starts, with the given `frame_number` -/
def Reach (m : Sim S) (P : Call → Prop) (n : Nat) (k : Rec S) : Prop := ∃ s speed fps, 0 ≤ speed ∧ 0 < fps ∧ Relation.ReflTransGen (Next m P) (start m s speed fps n) k

/-- the speed isn't negative -/
def Fair : Call → Prop
  | .params (some s) => 0 ≤ s
  | _ => True

/-- animation_parameters isn't called -/
def Calm : Call → Prop
  | .params _ => False
  | _ => True

/-- what holds all the time -/
structure Inv (m : Sim S) (n : Nat) (k : Rec S) : Prop where
  low : m.now k.sim ≤ k.videoT
  speed : 0 ≤ k.speed
  fps : 0 < k.fps
  number : k.number = n + 2 * k.frames.length
  files : k.frames.map (·.1) = (List.range k.frames.length).map (n + 2 * ·)

theorem inv_tick {m : Sim S} (hm : Lawful m) {n : Nat} {k k' : Rec S} (h : Inv m n k) (ht : Tick m k k') :
    Inv m n k' ∧ m.now k'.sim ≤ k'.t ∧ (k'.t : WithTop Rat) ≤ m.peek k'.sim := by
  cases ht with
  | paused hp hc =>
    obtain ⟨h1, h2⟩ := catchUp_spec hm hc h.low
    exact ⟨⟨h1, h.speed, h.fps, h.number, h.files⟩, h1, h2⟩
  | @frame k' s hp hc he =>
    subst he
    obtain ⟨h1, h2⟩ := catchUp_spec hm hc h.low
    have hd : 0 ≤ k.speed / k.fps := div_nonneg h.speed h.fps.le
    refine ⟨⟨?_, h.speed, h.fps, ?_, ?_⟩, h1, h2⟩
    · simp only [save]; linarith
    · simp only [save, List.length_append, List.length_singleton]; rw [h.number]; omega
    · simp only [save, List.length_append, List.length_singleton, List.range_succ, List.map_append, h.files, List.map_cons, List.map_nil, h.number]

theorem inv_next {m : Sim S} (hm : Lawful m) {n : Nat} {k k' : Rec S} (h : Inv m n k) (hn : Next m Fair k k') : Inv m n k' := by
  cases hn with
  | tick ht => exact (inv_tick hm h ht).1
  | call o ho =>
    have := h.speed
    cases o with
    | half => exact ⟨h.low, by simp only [Call.run]; linarith, h.fps, h.number, h.files⟩
    | double => exact ⟨h.low, by simp only [Call.run]; linarith, h.fps, h.number, h.files⟩
    | paused b => exact ⟨h.low, h.speed, h.fps, h.number, h.files⟩
    | params s =>
      cases s with
      | none => exact ⟨le_rfl, h.speed, h.fps, h.number, h.files⟩
      | some s => exact ⟨le_rfl, ho, h.fps, h.number, h.files⟩

theorem inv_start {m : Sim S} (s : S) {speed fps : Rat} (n : Nat) (h0 : 0 ≤ speed) (h1 : 0 < fps) : Inv m n (start m s speed fps n) := ⟨le_rfl, h0, h1, rfl, rfl⟩

theorem reach_inv {m : Sim S} (hm : Lawful m) {n : Nat} {k : Rec S} (h : Reach m Fair n k) : Inv m n k := by
  obtain ⟨s, speed, fps, h0, h1, h⟩ := h
  induction h with
  | refl => exact inv_start s n h0 h1
  | tail _ h ih => exact inv_next hm ih h

/-- **C109.** Each frame shows the simulation at its moment: all that is before has taken place, and nothing that is after. -/
theorem C109_shown {m : Sim S} (hm : Lawful m) {n : Nat} {k k' : Rec S} (h : Reach m Fair n k) (ht : Tick m k k') :
    m.now k'.sim ≤ k'.t ∧ (k'.t : WithTop Rat) ≤ m.peek k'.sim ∧ (k.paused = true → k'.frames = k.frames) ∧
    (k.paused = false → ∃ i, k'.frames = k.frames ++ [(i, k'.t)]) := by
  obtain ⟨_, h1, h2⟩ := inv_tick hm (reach_inv hm h) ht
  refine ⟨h1, h2, ?_⟩
  cases ht with
  | paused hp hc => exact ⟨fun _ => rfl, fun h => absurd (hp.symm.trans h) (by decide)⟩
  | frame hp hc he => subst he; exact ⟨fun h => absurd (hp.symm.trans h) (by decide), fun _ => ⟨k.number, rfl⟩⟩

/-- C109: the frames of a video that consists of separate images have different file names, in increasing order (but every second number is skipped), from the number after the last video -/
theorem C109_files {m : Sim S} (hm : Lawful m) {n : Nat} {k : Rec S} (h : Reach m Fair n k) : k.frames.map (·.1) = (List.range k.frames.length).map (n + 2 * ·) := (reach_inv hm h).files

/-- nothing but rounds of the loop -/
def Still : Call → Prop := fun _ => False

/-- C109: if nothing is called or clicked, the frames are at now(), now() + speed/fps, now() + 2 speed/fps, ... -/
theorem C109_times {m : Sim S} {s : S} {speed fps : Rat} {n : Nat} {k : Rec S} (h : Relation.ReflTransGen (Next m Still) (start m s speed fps n) k) :
    k.frames.map (·.2) = (List.range k.frames.length).map (fun i : Nat => m.now s + (i : Rat) * (speed / fps)) := by
  have main : k.paused = false ∧ k.speed = speed ∧ k.fps = fps ∧ k.videoT = m.now s + k.frames.length * (speed / fps) ∧
      k.frames.map (·.2) = (List.range k.frames.length).map (fun i : Nat => m.now s + (i : Rat) * (speed / fps)) := by
    induction h with
    | refl => simp [start]
    | tail _ hn ih =>
      obtain ⟨i1, i2, i3, i4, i5⟩ := ih
      cases hn with
      | call o ho => exact ho.elim
      | tick ht =>
        cases ht with
        | paused hp => rw [i1] at hp; cases hp
        | frame hp hc he =>
          subst he
          refine ⟨i1, i2, i3, ?_, ?_⟩
          · simp only [save, List.length_append, List.length_singleton, i4, i2, i3]; push_cast; ring
          · simp only [save, List.length_append, List.length_singleton, List.range_succ, List.map_append, i5, List.map_cons, List.map_nil, i4]
  exact main.2.2.2.2

/-- C109: whatever buttons are used (half, double, go, menu), the moments of the frames never go back, and the next frame is speed/fps later -/
theorem C109_forward {m : Sim S} {n : Nat} {k : Rec S} (h : Reach m Calm n k) : (k.frames.map (·.2)).Pairwise (· ≤ ·) ∧ ∀ f ∈ k.frames, f.2 ≤ k.videoT := by
  obtain ⟨s, speed, fps, h0, h1, h⟩ := h
  have main : 0 ≤ k.speed ∧ 0 < k.fps ∧ (k.frames.map (·.2)).Pairwise (· ≤ ·) ∧ ∀ f ∈ k.frames, f.2 ≤ k.videoT := by
    induction h with
    | refl => exact ⟨h0, h1, by simp [start], by simp [start]⟩
    | tail _ hn ih =>
      obtain ⟨i1, i2, i3, i4⟩ := ih
      cases hn with
      | call o ho =>
        cases o with
        | half => exact ⟨by simp only [Call.run]; linarith, i2, i3, i4⟩
        | double => exact ⟨by simp only [Call.run]; linarith, i2, i3, i4⟩
        | paused b => exact ⟨i1, i2, i3, i4⟩
        | params s => exact ho.elim
      | tick ht =>
        cases ht with
        | paused hp hc => exact ⟨i1, i2, i3, i4⟩
        | frame hp hc he =>
          subst he
          have hd := div_nonneg i1 i2.le
          refine ⟨i1, i2, ?_, ?_⟩
          · simp only [save, List.map_append, List.map_cons, List.map_nil]
            rw [List.pairwise_append]
            refine ⟨i3, List.pairwise_singleton _ _, fun a ha b hb => ?_⟩
            obtain ⟨f, hf, rfl⟩ := List.mem_map.1 ha
            rw [List.mem_singleton] at hb
            rw [hb]; exact i4 f hf
          · intro f hf
            simp only [save, List.mem_append, List.mem_singleton] at hf ⊢
            rcases hf with hf | rfl
            · have := i4 f hf; linarith
            · simp only; linarith
  exact main.2.2

/-- C109: between two frames with nothing but buttons and rounds while paused in between there is speed/fps, with the speed at the first one -/
theorem C109_spacing {m : Sim S} {k0 k1 k2 k3 : Rec S} (h1 : Tick m k0 k1) (hp : k0.paused = false) (h2 : Relation.ReflTransGen (fun a b => (∃ o, Calm o ∧ b = Call.run m a o) ∨ a.paused = true ∧ Tick m a b) k1 k2)
    (h3 : Tick m k2 k3) : k3.t = k1.t + k0.speed / k0.fps := by
  have e1 : k1.videoT = k1.t + k0.speed / k0.fps := by
    cases h1 with
    | paused h => rw [hp] at h; cases h
    | frame _ _ he => subst he; rfl
  have e2 : k2.videoT = k1.videoT := by
    clear h3
    induction h2 with
    | refl => rfl
    | tail _ hn ih =>
      rw [← ih]
      rcases hn with ⟨o, ho, rfl⟩ | ⟨hq, ht⟩
      · cases o with
        | params s => exact ho.elim
        | _ => rfl
      · cases ht with
        | paused => rfl
        | frame hf => exact absurd (hq.symm.trans hf) (by decide)
  have e3 : k3.t = k2.videoT := by
    cases h3 with
    | paused => rfl
    | frame _ _ he => subst he; rfl
  rw [e3, e2, e1]

/-- C109: in a gif or webp file, each frame takes a whole number of hundredths of a second, which is exactly what is between two frames at speed 1, so the file plays at the right speed. -/
theorem C109_gif {fps : Rat} (h0 : 0 < fps) (h1 : fps ≤ 100) :
    frameMs fps = 10 * (⌊100 / fps⌋ : Int) ∧ 1 / realFps fps = frameMs fps / 1000 ∧ fps ≤ realFps fps ∧ 0 < realFps fps := by
  have hf : (1 : Int) ≤ ⌊100 / fps⌋ := by
    rw [Int.le_floor, le_div_iff₀ h0]; push_cast; linarith
  have hq : (0 : Rat) < (⌊100 / fps⌋ : Int) := by exact_mod_cast lt_of_lt_of_le one_pos hf
  have hr : 0 < realFps fps := by unfold realFps; positivity
  refine ⟨?_, ?_, ?_, hr⟩
  · unfold frameMs realFps; field_simp; norm_num
  · unfold frameMs; field_simp
  · unfold realFps
    rw [le_div_iff₀ hq]
    have := Int.floor_le (100 / fps)
    rw [le_div_iff₀ h0] at this
    linarith

/-- C109: with video_pingpong, the file is the same backward as forward -/
theorem C109_pingpong {F : Type} (images : List F) : (written true images).reverse = written true images ∧ images <+: written true images ∧
    (written true images).length = 2 * images.length ∧ written false images = images := by
  refine ⟨by simp [written], by simp [written], by simp [written]; omega, by simp [written]⟩

/-! ## a concrete case -/

theorem demo_catch (t : Rat) (ht : t ≤ 5) : CatchUp AnimClock.demo t (0, [5]) (0, [5]) :=
  .done (by
    have e : AnimClock.demo.peek (0, [5]) = ((5 : Rat) : WithTop Rat) := by decide +kernel
    rw [e]; exact not_lt.2 (WithTop.coe_le_coe.2 ht))

/-- after one frame with 2 frames per second -/
def one : Rec (Rat × List Rat) := ⟨(0, [5]), 0, 1 / 2, 1, 2, false, 2, [(0, 0)]⟩
/-- after two frames -/
def two : Rec (Rat × List Rat) := ⟨(0, [5]), 1 / 2, 1, 1, 2, false, 4, [(0, 0), (2, 1 / 2)]⟩

theorem first : Tick AnimClock.demo (start AnimClock.demo (0, [5]) 1 2 0) one := by
  have h := Tick.frame (m := AnimClock.demo) (k := start AnimClock.demo (0, [5]) 1 2 0) rfl (demo_catch 0 (by norm_num)) rfl
  convert h using 1
  simp [one, save, start, AnimClock.demo]

theorem second : Tick AnimClock.demo one two := by
  have h := Tick.frame (m := AnimClock.demo) (k := one) rfl (demo_catch (1 / 2) (by norm_num)) rfl
  convert h using 1
  simp only [two, save, one]; norm_num

/-- non-vacuity: two frames, at 0 and 1/2 -/
example : Reach AnimClock.demo Calm 0 two ∧ two.frames.map (·.2) = [0, 1 / 2] :=
  ⟨⟨(0, [5]), 1, 2, by norm_num, by norm_num, .tail (.single (.tick first)) (.tick second)⟩, rfl⟩

/-- any call of animation_parameters (e.g. `env.show_fps(True)` from a button) sets the video back to now(), the moment of the last event: the next frame is before the last one -/
theorem C109_params_counterexample : Reach AnimClock.demo Fair 0 two ∧ ∃ k', Tick AnimClock.demo ((Call.params none).run AnimClock.demo two) k' ∧
    k'.frames.map (·.2) = [0, 1 / 2, 0] := by
  refine ⟨⟨(0, [5]), 1, 2, by norm_num, by norm_num, .tail (.single (.tick first)) (.tick second)⟩, _,
    Tick.frame (m := AnimClock.demo) (k := (Call.params none).run AnimClock.demo two) rfl (demo_catch 0 (by norm_num)) rfl, rfl⟩

end Video
end Verif
