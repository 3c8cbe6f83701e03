import Verif.CalmStep
import Verif.Props.Scheduling

/-!
# Claim C06: interrupting and resuming preserves the remaining duration
-/

namespace Verif
open World

/-- specification: the course of a `hold(d)` of component `c`: the world, the time spent so far while not interrupted, and the number
of interrupts still to be resumed. In the meantime anything else may happen, as long as nobody else does something with `c`
itself (such as activating or cancelling it, or taking a resource from it). `c` may interrupt itself right at the start with the
parameter `interrupted`. -/
inductive Course (c : CId) (d : Rat) : World → Rat → Nat → Prop
  | hold {w w' : World} {fuel prio urgent cap level} (hr : Reach Calm w) (hm : c ≠ w.main)
      (h : exec fuel (.hold c (some (d : ETime)) none prio urgent cap level) w = .ok w') : Course c d w' 0 level
  | interrupt {w w' : World} {spent level fuel} (hc : Course c d w spent level)
      (h : exec fuel (.interrupt c) w = .ok w') : Course c d w' spent (level + 1)
  | resume {w w' : World} {spent level fuel all prio urgent} (hc : Course c d w spent level)
      (h : exec fuel (.resume c all prio urgent) w = .ok w') : Course c d w' spent (if all then 0 else level - 1)
  | other {w w' : World} {spent level fuel o} (hc : Course c d w spent level) (hs : o ≠ .step) (ho : Calm fuel w o) (ht : ¬ o.touches w c)
      (h : exec fuel o w = .ok w') : Course c d w' spent level
  | step {w w' : World} {spent level fuel} (hc : Course c d w spent level) (h : exec fuel .step w = .ok w') (hn : w'.current ≠ c) :
      Course c d w' (if level = 0 then spent + (w'.now - w.now) else spent) level

/-- `Component.remaining_duration()` (salabim.py:9994-9999) -/
def remainingDuration (w : World) (c : CId) : ETime :=
  if w.status c = .passive ∨ w.status c = .interrupted then (w.comps c).remaining
  else if w.status c = .scheduled ∨ w.status c = .waiting ∨ w.status c = .requesting then (w.comps c).schedTime.subQ w.now
  else (0 : Rat)

/-- the invariant of the course -/
structure InCourse (c : CId) (d : Rat) (w : World) (spent : Rat) (level : Nat) : Prop where
  reach : Reach Calm w
  notMain : c ≠ w.main
  nowait : NoWait (w.comps c)
  running : level = 0 → w.status c = .scheduled ∧ (w.comps c).schedTime = ((w.now + (d - spent) : Rat) : ETime)
  halted : level ≠ 0 → w.status c = .interrupted ∧ (w.comps c).intrStatus = .scheduled ∧ (w.comps c).intrLevel = level ∧
    (w.comps c).remaining = ((d - spent : Rat) : ETime)

theorem subQ_coe (a b : Rat) : ETime.subQ (a : ETime) b = ((a - b : Rat) : ETime) := rfl

theorem Course.inv {c : CId} {d : Rat} {w : World} {spent : Rat} {level : Nat} (hd : 0 ≤ d) (h : Course c d w spent level) :
    InCourse c d w spent level := by
  induction h with
  | @hold w w' fuel prio urgent cap level hr hm h =>
    have hcalm : Calm fuel w (.hold c (some (d : ETime)) none prio urgent cap level) := ⟨⟨w', h⟩, trivial, trivial⟩
    have hr' : Reach Calm w' := by
      have := Reach.op fuel _ hr hcalm
      rw [h] at this; exact this
    simp only [exec] at h
    obtain ⟨e, _, T, hT, _, h0, h1⟩ := hold_out hr.good h
    simp only [holdTime, Option.some.injEq] at hT
    have hmax : max T (w.now : ETime) = ((w.now + d : Rat) : ETime) := by
      rw [← hT, ← WithTop.coe_add]
      exact max_eq_left (WithTop.coe_le_coe.2 (by linarith))
    have hnow : w'.now = w.now := e.now
    refine ⟨hr', by rw [e.main]; exact hm, ?_, fun hl => ?_, fun hl => ?_⟩
    · by_cases hl : level = 0
      · exact (h0 hl).nowait (by simp) (by simp)
      · exact (h1 hl).2.2.2.2
    · have := h0 hl
      refine ⟨this.status, this.time.trans ?_⟩
      rw [hmax, hnow]; norm_num
    · obtain ⟨a1, a2, a3, a4, _⟩ := h1 hl
      refine ⟨a1, a4, a3, a2.trans ?_⟩
      rw [hmax, subQ_coe]; norm_num
  | @interrupt w w' spent level fuel hc h ih =>
    have hcalm : Calm fuel w (.interrupt c) := ⟨⟨w', h⟩, trivial, trivial⟩
    have hr' : Reach Calm w' := by
      have := Reach.op fuel _ ih.reach hcalm
      rw [h] at this; exact this
    simp only [exec] at h
    obtain ⟨e, h1⟩ := interrupt_out ih.reach.good h
    have hnow : w'.now = w.now := e.now
    refine ⟨hr', by rw [e.main]; exact ih.notMain, ?_, by simp, fun _ => ?_⟩
    · rcases h1 with ⟨_, h1⟩ | ⟨_, h1⟩ <;> rw [h1] <;> exact ⟨ih.nowait.req, ih.nowait.wai, ih.nowait.frm, ih.nowait.tos⟩
    · by_cases hl : level = 0
      · obtain ⟨i1, i2⟩ := ih.running hl
        rcases h1 with ⟨hs, h1⟩ | ⟨_, h1⟩
        · rw [i1] at hs; cases hs
        · simp only [World.status, h1]
          refine ⟨trivial, trivial, by omega, ?_⟩
          rw [i2, subQ_coe]; norm_num
      · obtain ⟨i1, i2, i3, i4⟩ := ih.halted hl
        rcases h1 with ⟨_, h1⟩ | ⟨hs, h1⟩
        · simp only [World.status, h1]
          exact ⟨i1, i2, by rw [i3]; rfl, i4⟩
        · rw [i1] at hs; cases hs
  | @resume w w' spent level fuel all prio urgent hc h ih =>
    have hcalm : Calm fuel w (.resume c all prio urgent) := ⟨⟨w', h⟩, trivial, trivial⟩
    have hr' : Reach Calm w' := by
      have := Reach.op fuel _ ih.reach hcalm
      rw [h] at this; exact this
    simp only [exec] at h
    obtain ⟨e, hs, h1⟩ := resume_out h
    have hnow : w'.now = w.now := e.now
    have hl : level ≠ 0 := by
      intro hl
      have := (ih.running hl).1
      rw [hs] at this; cases this
    obtain ⟨i1, i2, i3, i4⟩ := ih.halted hl
    refine ⟨hr', by rw [e.main]; exact ih.notMain, ?_, fun h0 => ?_, fun h0 => ?_⟩
    · rcases h1 with ⟨_, _, h1⟩ | ⟨_, _, _, h1⟩ <;> rw [h1] <;> exact ⟨ih.nowait.req, ih.nowait.wai, ih.nowait.frm, ih.nowait.tos⟩
    · rcases h1 with ⟨h2, h3, _⟩ | ⟨_, _, _, h1⟩
      · rw [h3] at h0; rw [i3] at h2
        simp only [Bool.false_eq_true, if_false] at h0
        omega
      · simp only [World.status, h1]
        refine ⟨trivial, ?_⟩
        rw [i4, hnow, ← WithTop.coe_add]
    · rcases h1 with ⟨h2, h3, h1⟩ | ⟨h2, _, _, h1⟩
      · simp only [World.status, h1]
        refine ⟨i1, i2, ?_, i4⟩
        rw [h3, i3]
        simp only [Bool.false_eq_true, if_false]
        omega
      · exfalso
        rcases h2 with h2 | h2
        · rw [i3] at h2
          apply h0
          split
          · rfl
          · omega
        · rw [h2] at h0; exact h0 rfl
  | @other w w' spent level fuel o hc hs ho ht h ih =>
    have hr' : Reach Calm w' := by
      have := Reach.op fuel _ ih.reach ho
      rw [h] at this; exact this
    obtain ⟨e1, e2, e3, _⟩ := exec_frozen ih.reach.good ho hs h
    obtain ⟨l, hl⟩ := e3 c ht ih.nowait
    refine ⟨hr', by rw [e1]; exact ih.notMain, noWait_claims hl ih.nowait, fun h0 => ?_, fun h0 => ?_⟩
    · simp only [World.status, hl, e2]; exact ih.running h0
    · simp only [World.status, hl]; exact ih.halted h0
  | @step w w' spent level fuel hc h hn ih =>
    have hcalm : Calm fuel w .step := ⟨⟨w', h⟩, trivial, trivial⟩
    have hr' : Reach Calm w' := by
      have := Reach.op fuel _ ih.reach hcalm
      rw [h] at this; exact this
    simp only [exec] at h
    have e := step_out ih.reach.good h
    have hcc := e.other c (Ne.symm hn)
    refine ⟨hr', by rw [e.main]; exact ih.notMain, by rw [hcc]; exact ih.nowait, fun h0 => ?_, fun h0 => ?_⟩
    · simp only [World.status, hcc, h0, if_true]
      refine ⟨(ih.running h0).1, (ih.running h0).2.trans ?_⟩
      congr 1; ring
    · simp only [World.status, hcc, h0, if_false]
      exact ih.halted h0

/-- C06: the moment the component becomes current again it has spent exactly the duration asked for, not counting the time it was
interrupted; and at that moment there are no interrupts left to be resumed -/
theorem C06_exact {c : CId} {d : Rat} {w w' : World} {spent : Rat} {level fuel : Nat} (hd : 0 ≤ d) (h : Course c d w spent level)
    (hs : exec fuel .step w = .ok w') (hc : w'.current = c) : level = 0 ∧ spent + (w'.now - w.now) = d := by
  have ih := h.inv hd
  simp only [exec] at hs
  have e := step_out ih.reach.good hs
  have hr := ih.reach
  by_cases h0 : level = 0
  · refine ⟨h0, ?_⟩
    obtain ⟨i1, i2⟩ := ih.running h0
    rcases e.cases with ⟨_, h2, _⟩ | ⟨ev, h2, h3, h4, _⟩ | ⟨_, _, _, h2⟩
    · rw [hc, i1] at h2; cases h2
    · have := (C03_event_status hr (h2.mem_iff.2 List.mem_cons_self)).2
      rw [h3, hc, i2] at this
      have := WithTop.coe_inj.1 this
      rw [← h4]; linarith
    · exact absurd (hc.symm.trans h2) ih.notMain
  · exfalso
    obtain ⟨i1, i2, i3, i4⟩ := ih.halted h0
    rcases e.cases with ⟨_, h2, _⟩ | ⟨ev, h2, h3, h4⟩ | ⟨_, _, _, h2⟩
    · rw [hc, i1] at h2; cases h2
    · have := (C03_event_status hr (h2.mem_iff.2 List.mem_cons_self)).1
      rw [h3, hc, i1] at this
      simp at this
    · exact absurd (hc.symm.trans h2) ih.notMain

/-- C06: as long as it has not become current again the time spent doesn't exceed the duration: it is never late -/
theorem C06_never_late {c : CId} {d : Rat} {w : World} {spent : Rat} (hd : 0 ≤ d) (h : Course c d w spent 0) : spent ≤ d := by
  have ih := h.inv hd
  obtain ⟨i1, i2⟩ := ih.running rfl
  have := C04_never_before_now ih.reach c (.inl i1)
  rw [i2] at this
  have := WithTop.coe_le_coe.1 this
  linarith

/-- C06: while its interrupt level is positive a component never becomes current, whatever its history -/
theorem C06_interrupted {w w' : World} {c : CId} {fuel : Nat} (h : Reach Calm w) (hi : w.status c = .interrupted) (hm : c ≠ w.main)
    (hs : exec fuel .step w = .ok w') : w'.current ≠ c ∧ w'.comps c = w.comps c := by
  simp only [exec] at hs
  have e := step_out h.good hs
  have : w'.current ≠ c := by
    intro hc
    rcases e.cases with ⟨_, h2, _⟩ | ⟨ev, h2, h3, h4⟩ | ⟨_, _, _, h2⟩
    · rw [hc, hi] at h2; cases h2
    · have := (C03_event_status h (h2.mem_iff.2 List.mem_cons_self)).1
      rw [h3, hc, hi] at this
      simp at this
    · exact hm (hc.symm.trans h2)
  exact ⟨this, e.other c (Ne.symm this)⟩

/-- C06: at any moment `remaining_duration()` is what is left of the duration -/
theorem C06_remaining {c : CId} {d : Rat} {w : World} {spent : Rat} {level : Nat} (hd : 0 ≤ d) (h : Course c d w spent level) :
    remainingDuration w c = ((d - spent : Rat) : ETime) := by
  have ih := h.inv hd
  unfold remainingDuration
  by_cases h0 : level = 0
  · obtain ⟨i1, i2⟩ := ih.running h0
    rw [if_neg (by simp [i1]), if_pos (by simp [i1]), i2, subQ_coe]; norm_num
  · obtain ⟨i1, i2, i3, i4⟩ := ih.halted h0
    rw [if_pos (by simp [i1]), i4]

/-! an example: components 1 (which holds for 5) and 2 (which interrupts 1 at time 2, again at 3, and resumes it at 4 and 7); 1
becomes current at 2 + 5 + 3 = 10 -/

theorem ok_world {r : R} (h : r.isOk = true) : r = .ok r.world := by
  cases r with
  | ok w => rfl
  | err e w => cases h

/-- the two components, both current at time 2, component 2 last -/
def courseStart : World := execAll 9 [.create 1 none (2 : Rat) (0 : Rat) false false false, .create 2 none (0 : Rat) (0 : Rat) false false false,
  .step, .hold 2 (some (4 : Rat)) none (0 : Rat) false false 0, .step] World.init
/-- component 1 holds -/
def course1 : World := (exec 9 (.hold 1 (some (5 : Rat)) none (0 : Rat) false false 0) courseStart).world
/-- component 2 becomes current (at 4) -/
def course2 : World := (exec 9 .step course1).world
/-- and interrupts 1 -/
def course3 : World := (exec 9 (.interrupt 1) course2).world
/-- twice -/
def course4 : World := (exec 9 (.interrupt 1) course3).world
/-- component 2 holds for 3 -/
def course5 : World := (exec 9 (.hold 2 (some (3 : Rat)) none (0 : Rat) false false 0) course4).world
/-- and is current (at 7) -/
def course6 : World := (exec 9 .step course5).world
/-- it resumes 1 -/
def course7 : World := (exec 9 (.resume 1 true (0 : Rat) false) course6).world
/-- and ends -/
def course8 : World := (exec 9 .terminate course7).world

example : Course 1 5 course8 2 0 ∧ course8.now = 7 ∧ (exec 9 .step course8).isOk = true ∧ (exec 9 .step course8).world.current = 1 ∧
    (exec 9 .step course8).world.now = 10 := by
  have h0 : Reach Calm courseStart := reach_calm _ (.init fresh_init) _ (by decide +kernel)
  have c1 : Course 1 5 course1 0 0 := .hold h0 (by decide +kernel) (ok_world (by decide +kernel))
  have c2 : Course 1 5 course2 (if (0 : Nat) = 0 then 0 + (course2.now - course1.now) else 0) 0 :=
    .step (fuel := 9) c1 (ok_world (by decide +kernel)) (by decide +kernel)
  rw [if_pos rfl, show (0 : Rat) + (course2.now - course1.now) = 2 by decide +kernel] at c2
  have c3 : Course 1 5 course3 2 1 := .interrupt c2 (ok_world (by decide +kernel))
  have c4 : Course 1 5 course4 2 2 := .interrupt c3 (ok_world (by decide +kernel))
  have c5 : Course 1 5 course5 2 2 := .other (fuel := 9) (o := .hold 2 (some (3 : Rat)) none (0 : Rat) false false 0) c4 (by simp)
    (calmb_calm (by decide +kernel)) (by simp [Op.touches]) (ok_world (by decide +kernel))
  have c6 : Course 1 5 course6 2 2 := .step (fuel := 9) c5 (ok_world (by decide +kernel)) (by decide +kernel)
  have c7 : Course 1 5 course7 2 0 := .resume (all := true) c6 (ok_world (by decide +kernel))
  have c8 : Course 1 5 course8 2 0 := .other (fuel := 9) (o := .terminate) c7 (by simp) (calmb_calm (by decide +kernel))
    (by simp only [Op.touches]; decide +kernel) (ok_world (by decide +kernel))
  exact ⟨c8, by decide +kernel, by decide +kernel, by decide +kernel, by decide +kernel⟩

end Verif
