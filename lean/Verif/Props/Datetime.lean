import Verif.Datetime
import Verif.Props.Dist

/-!
# Claims about datetimes (C79)
-/

namespace Verif
namespace Distr

theorem toSeconds_eq {c : Clock} {u : TUnit} (hu : c.unit = some u) (t : Rat) : c.toSeconds t = some (t * secs u) := by
  unfold Clock.toSeconds
  rw [hu, (C41_meaning .seconds u t).2.1]
  simp [secs]

theorem seconds_eq {c : Clock} {u : TUnit} (hu : c.unit = some u) (t : Rat) : c.seconds t = some (t / secs u) := by
  unfold Clock.seconds
  rw [hu, (C41_meaning .seconds u t).1]
  simp [secs]

/-- C79: with a datetime for t=0 and a time unit, time t is the datetime that is t units of time after that datetime, and conversion there and back gives the
same time and the same datetime; likewise for durations -/
theorem C79_meaning {c : Clock} {u : TUnit} (hu : c.unit = some u) {d0 : Rat} (hd : c.datetime0 = some d0) (t d : Rat) :
    c.tToDatetime t = some (d0 + t * secs u) ∧ c.durationToTimedelta t = some (t * secs u) ∧
    ((c.datetimeToT d).bind c.tToDatetime = some d ∧ (c.tToDatetime t).bind c.datetimeToT = some t) ∧
    ((c.timedeltaToDuration d).bind c.durationToTimedelta = some d ∧ (c.durationToTimedelta t).bind c.timedeltaToDuration = some t) := by
  have h := (secs_pos u).ne'
  have e1 : ∀ t, c.tToDatetime t = some (d0 + t * secs u) := by intro t; unfold Clock.tToDatetime; rw [hd, toSeconds_eq hu]; rfl
  have e2 : ∀ t, c.durationToTimedelta t = some (t * secs u) := by intro t; unfold Clock.durationToTimedelta; rw [hu]; exact toSeconds_eq hu t
  have e3 : ∀ d, c.datetimeToT d = some ((d - d0) / secs u) := by intro d; unfold Clock.datetimeToT; rw [hd]; exact seconds_eq hu _
  have e4 : ∀ d, c.timedeltaToDuration d = some (d / secs u) := by intro d; unfold Clock.timedeltaToDuration; rw [hd]; exact seconds_eq hu _
  refine ⟨e1 t, e2 t, ⟨?_, ?_⟩, ?_, ?_⟩
  · rw [e3, Option.bind_some, e1]; congr 1; field_simp; ring
  · rw [e1, Option.bind_some, e3]; congr 1; field_simp; ring
  · rw [e4, Option.bind_some, e2]; congr 1; field_simp
  · rw [e2, Option.bind_some, e4]; congr 1; field_simp

/-- C79: setting datetime0 makes t=0 that datetime, keeps the time unit, and sets it to seconds if there was none; without datetime0 the conversions are refused -/
theorem C79_set (c : Clock) (d : Rat) :
    (c.setDatetime0 d).tToDatetime 0 = some d ∧ (∀ u, c.unit = some u → (c.setDatetime0 d).unit = some u) ∧
    (c.unit = none → (c.setDatetime0 d).tToDatetime 1 = some (d + 1)) ∧
    (c.datetime0 = none → ∀ x, c.tToDatetime x = none ∧ c.datetimeToT x = none ∧ c.timedeltaToDuration x = none) := by
  refine ⟨?_, ?_, ?_, ?_⟩
  · rw [(C79_meaning (c := c.setDatetime0 d) (u := c.unit.getD .seconds) rfl (d0 := d) rfl 0 0).1]; simp
  · intro u hu; simp [Clock.setDatetime0, hu]
  · intro hu
    rw [(C79_meaning (c := c.setDatetime0 d) (u := .seconds) (by simp [Clock.setDatetime0, hu]) (d0 := d) rfl 1 0).1]; simp [secs]
  · intro h x
    unfold Clock.tToDatetime Clock.datetimeToT Clock.timedeltaToDuration
    rw [h]; exact ⟨rfl, rfl, rfl⟩

/-- the time that passes -/
def passed (l : List ClockOp) : Rat := (l.map (fun o => match o with | .pass d => d | .reset _ => 0)).sum

/-- C79: whatever reset_now does to the presented time, the datetime of the present is the one of before plus the time that has passed. And more general,
any moment keeps its datetime: the one presented as `t` before is presented as `t` minus the change in offset after. -/
theorem C79_reset_now {c : Clock} {u : TUnit} (hu : c.unit = some u) {d0 : Rat} (hd : c.datetime0 = some d0) (l : List ClockOp) :
    let c' := l.foldl Clock.step c
    (∃ d, c.tToDatetime c.present = some d ∧ c'.tToDatetime c'.present = some (d + passed l * secs u)) ∧
    ∀ t, c'.tToDatetime (t - (c'.offset - c.offset)) = c.tToDatetime t := by
  have hinv : ∀ (l : List ClockOp) (c : Clock) (d0 : Rat), c.unit = some u → c.datetime0 = some d0 →
      let c' := l.foldl Clock.step c
      c'.unit = some u ∧ c'.datetime0 = some (d0 + (c'.offset - c.offset) * secs u) ∧ c'.now = c.now + passed l := by
    intro l
    induction l with
    | nil => intro c d0 hu hd; exact ⟨hu, by simp [hd], by simp [passed]⟩
    | cons o l ih =>
      intro c d0 hu hd
      simp only [List.foldl_cons]
      cases o with
      | pass d =>
        obtain ⟨h1, h2, h3⟩ := ih (c.step (.pass d)) d0 hu hd
        refine ⟨h1, h2, ?_⟩
        rw [h3]; simp [Clock.step, passed]; ring
      | reset new =>
        obtain ⟨h1, h2, h3⟩ := ih (c.step (.reset new)) (d0 + (c.now - new - c.offset) * secs u) hu (by
          simp only [Clock.step, Clock.resetNow, hd, toSeconds_eq hu]; rfl)
        refine ⟨h1, ?_, ?_⟩
        · rw [h2]; simp only [Clock.step, Clock.resetNow]; congr 1; ring
        · rw [h3]; simp [Clock.step, Clock.resetNow, passed]
  intro c'
  obtain ⟨h1, h2, h3⟩ := hinv l c d0 hu hd
  change c'.unit = _ at h1
  change c'.datetime0 = _ at h2
  change c'.now = _ at h3
  constructor
  · refine ⟨_, (C79_meaning hu hd c.present 0).1, ?_⟩
    rw [(C79_meaning h1 h2 c'.present 0).1]
    unfold Clock.present
    rw [h3]; congr 1; ring
  · intro t
    rw [(C79_meaning h1 h2 _ 0).1, (C79_meaning hu hd t 0).1]
    congr 1; ring

theorem divmod_spec (a : Rat) {b : Rat} (hb : 0 < b) : a = b * (divmod a b).1 + (divmod a b).2 ∧ 0 ≤ (divmod a b).2 ∧ (divmod a b).2 < b := by
  have h1 := Rat.floor_le (a / b)
  have h2 := Rat.lt_floor_add_one (a / b)
  push_cast at h2
  rw [le_div_iff₀ hb] at h1
  rw [div_lt_iff₀ hb] at h2
  refine ⟨?_, ?_, ?_⟩
  · simp only [divmod]; ring
  · simp only [divmod]; linarith
  · simp only [divmod]; linarith

/-- C79: the days, hours, minutes and seconds of a duration in text are those of the duration, rounded down to seconds -/
theorem C79_text {c : Clock} {u : TUnit} (hu : c.unit = some u) (t : Rat) :
    ∃ d h m s, c.fields t = some (d, h, m, s) ∧ (0 ≤ h ∧ h < 24) ∧ (0 ≤ m ∧ m < 60) ∧ (0 ≤ s ∧ s < 60) ∧
      ((d * 86400 + h * 3600 + m * 60 + s : Int) : Rat) ≤ t * secs u ∧ t * secs u < ((d * 86400 + h * 3600 + m * 60 + s + 1 : Int) : Rat) := by
  obtain ⟨S, hS⟩ : ∃ S, S = t * secs u := ⟨_, rfl⟩
  obtain ⟨a1, a2, a3⟩ := divmod_spec S (b := 86400) (by norm_num)
  obtain ⟨b1, b2, b3⟩ := divmod_spec (divmod S 86400).2 (b := 3600) (by norm_num)
  obtain ⟨c1, c2, c3⟩ := divmod_spec (divmod (divmod S 86400).2 3600).2 (b := 60) (by norm_num)
  obtain ⟨d, hd⟩ : ∃ d, d = (divmod S 86400).1 := ⟨_, rfl⟩
  obtain ⟨h, hh⟩ : ∃ h, h = (divmod (divmod S 86400).2 3600).1 := ⟨_, rfl⟩
  obtain ⟨m, hm⟩ : ∃ m, m = (divmod (divmod (divmod S 86400).2 3600).2 60).1 := ⟨_, rfl⟩
  obtain ⟨r, hr⟩ : ∃ r, r = (divmod (divmod (divmod S 86400).2 3600).2 60).2 := ⟨_, rfl⟩
  have s1 := Rat.floor_le r
  have s2 := Rat.lt_floor_add_one r
  push_cast at s2
  rw [← hd] at a1
  rw [← hh] at b1
  rw [← hm, ← hr] at c1
  rw [← hr] at c2 c3
  have h0 : (-1 : Rat) < h := by linarith
  have h1 : (h : Rat) < 24 := by linarith
  have m0 : (-1 : Rat) < m := by linarith
  have m1 : (m : Rat) < 60 := by linarith
  have r0 : (-1 : Rat) < r.floor := by linarith
  have r1 : (r.floor : Rat) < 60 := by linarith
  refine ⟨d, h, m, r.floor, by unfold Clock.fields; rw [toSeconds_eq hu, ← hS, hd, hh, hm, hr]; rfl, ⟨?_, by exact_mod_cast h1⟩, ⟨?_, by exact_mod_cast m1⟩, ⟨?_, by exact_mod_cast r1⟩, ?_, ?_⟩
  · have : (-1 : Int) < h := by exact_mod_cast h0
    omega
  · have : (-1 : Int) < m := by exact_mod_cast m0
    omega
  · have : (-1 : Int) < r.floor := by exact_mod_cast r0
    omega
  · push_cast; linarith
  · push_cast; linarith

/-- hours, t=0 at 1000 seconds, now 5 hours, reset to 2, then 1 hour later: 1000 + 6 * 3600 -/
example : let c : Clock := [ClockOp.reset 2, .pass 1].foldl Clock.step ⟨some .hours, some 1000, 5, 0⟩
    c.present = 3 ∧ c.tToDatetime 3 = some 22600 ∧ c.datetimeToT 22600 = some 3 ∧ c.fields (29 / 2) = some (0, 14, 30, 0) := by decide +kernel

example : (⟨some .days, some 0, 0, 0⟩ : Clock).fields (5 / 4) = some (1, 6, 0, 0) := by decide +kernel

end Distr
end Verif
