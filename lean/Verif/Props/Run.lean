import Verif.CalmStep
import Verif.Props.Scheduling

/-!
# `run` stops at the moment asked for (C10)
-/

namespace Verif
open World

/-! ## specification -/

/-- the (internal) time at which a run is to end: `run()` never, `run(duration=d)` d from now, `run(till=t)` when the presented time
is t, `run(duration=d, till=t)` is refused -/
def runTarget (w : World) : (duration till : Option ETime) → Option ETime
  | none, none => some ⊤
  | some d, none => some ((w.now : ETime) + d)
  | none, some t => some (t + (w.offset : ETime))
  | some _, some _ => none

def Op.isReset : Op → Bool
  | .resetNow _ => true
  | _ => false

/-- `Running p T off r w`: a `run` with priority `p` to end at `T` is going on, `w` is the current state. It was started from the main
level, when the offset was `off`; since then the processes have made calls (none of them for main) and steps were done (in none of
them main became current). `r`: `reset_now` has been called. -/
inductive Running (p T : ETime) (off : Rat) : Bool → World → Prop
  | start {w w' : World} {fuel d t u k T0} (hr : Reach Calm w) (hm : w.status w.main = .current)
      (hT : runTarget w d t = some T0) (hmax : T = max T0 w.now) (hoff : off = w.offset)
      (h : exec fuel (.runStart d t p u k) w = .ok w') : Running p T off false w'
  | call {r : Bool} {w w' : World} {fuel o} (hw : Running p T off r w) (hs : o ≠ .step) (ho : Calm fuel w o) (ht : ¬ o.touches w w.main)
      (h : exec fuel o w = .ok w') : Running p T off (r || o.isReset) w'
  | step {r : Bool} {w w' : World} {fuel} (hw : Running p T off r w) (h : exec fuel .step w = .ok w') (hn : w'.current ≠ w'.main) :
      Running p T off r w'

/-! ## the invariant -/

structure InRun (p T : ETime) (w : World) : Prop where
  reach : Reach Calm w
  status : w.status w.main = .scheduled
  time : (w.comps w.main).schedTime = T
  event : ∀ t : Rat, T = (t : ETime) → ∃ e ∈ w.events, e.c = w.main ∧ e.t = t ∧ e.prio = p

theorem reschedule_pushed {c : CId} {t p : ETime} {u k ret} {w w' : World} (h : reschedule c t p u k ret w = .ok w') (s : Rat)
    (hs : max t (w.now : ETime) = (s : ETime)) : ∃ e ∈ w'.events, e.c = c ∧ e.t = s ∧ e.prio = p := by
  have key : ∀ t' : ETime, t' = (s : ETime) → ∀ w1 : World, ∃ e ∈ (push c t' p u ret w1).events, e.c = c ∧ e.t = s ∧ e.prio = p := by
    intro t' ht w1
    subst ht
    exact ⟨_, (Heapq.heappush_perm _ _).mem_iff.2 List.mem_cons_self, rfl, rfl, rfl⟩
  unfold reschedule at h
  split at h
  · rename_i hlt
    split at h
    · cases h
      rw [max_eq_right (le_of_lt hlt)] at hs
      exact key _ hs _
    · cases h
  · rename_i hlt
    cases h
    rw [max_eq_left (not_lt.1 hlt)] at hs
    exact key _ hs _

theorem runStart_target {w w' : World} {d t p u k} (h : runStart d t p u k w = .ok w') {T0} (hT : runTarget w d t = some T0) :
    ∃ e, reschedule w.main T0 p u k none (setStatus w.main .scheduled { w with endOnEmpty := e }) = .ok w' := by
  unfold runStart at h
  cases d <;> cases t <;> simp only [runTarget, Option.some.injEq, reduceCtorEq] at hT <;> subst hT <;> exact ⟨_, h⟩

theorem Running.inv {p T : ETime} {off : Rat} {r : Bool} {w : World} (h : Running p T off r w) : InRun p T w := by
  induction h with
  | @start w w' fuel d t u k T0 hr hm hT hmax hoff h =>
    have hcalm : Calm fuel w (.runStart d t p u k) := ⟨⟨w', h⟩, hm, trivial⟩
    have hr' : Reach Calm w' := by
      have := Reach.op fuel _ hr hcalm
      rw [h] at this; exact this
    simp only [exec] at h
    obtain ⟨e, h1⟩ := runStart_target h hT
    obtain ⟨e1, a1, _⟩ := resched_at (w := ({ w with endOnEmpty := e } : World)) (fun _ _ => hr.good.main) h1
    have hmain : w'.main = w.main := e1.main
    refine ⟨hr', by rw [hmain]; exact a1.status, by rw [hmain, hmax]; exact a1.time, fun s hs => ?_⟩
    rw [hmain]
    exact reschedule_pushed h1 s (by rw [← hs, hmax]; rfl)
  | @call r w w' fuel o hw hs ho ht h ih =>
    have hr' : Reach Calm w' := by
      have := Reach.op fuel _ ih.reach ho
      rw [h] at this; exact this
    obtain ⟨e1, e2, e3, e4⟩ := exec_frozen ih.reach.good ho hs h
    obtain ⟨l, hl⟩ := e3 w.main ht ih.reach.good.main
    refine ⟨hr', ?_, ?_, fun s hs => ?_⟩
    · rw [e1]; simp only [World.status, hl]; exact ih.status
    · rw [e1, hl]; exact ih.time
    · obtain ⟨x, hx, hc, hx1⟩ := ih.event s hs
      refine ⟨x, (e4 x ?_).2 hx, hc.trans e1.symm, hx1⟩
      rintro (hn | hn)
      · rw [hc] at hn; exact ht hn
      · rw [hc] at hn; exact hn ih.reach.good.main
  | @step r w w' fuel hw h hn ih =>
    have hcalm : Calm fuel w .step := ⟨⟨w', h⟩, trivial, trivial⟩
    have hr' : Reach Calm w' := by
      have := Reach.op fuel _ ih.reach hcalm
      rw [h] at this; exact this
    simp only [exec] at h
    have e := step_out ih.reach.good h
    have hcc := e.other w.main (by rw [← e.main]; exact Ne.symm hn)
    refine ⟨hr', ?_, ?_, fun s hs => ?_⟩
    · rw [e.main]; simp only [World.status, hcc]; exact ih.status
    · rw [e.main, hcc]; exact ih.time
    · obtain ⟨x, hx, hc, hx1⟩ := ih.event s hs
      refine ⟨x, ?_, hc.trans e.main.symm, hx1⟩
      rcases e.cases with ⟨_, _, h2⟩ | ⟨ev, h2, h3, _, _⟩ | ⟨h2, _, _, _⟩
      · rw [h2]; exact hx
      · rcases List.mem_cons.1 (h2.mem_iff.1 hx) with h4 | h4
        · exfalso; apply hn; rw [← h3, ← h4, hc, e.main]
        · exact h4
      · rw [h2] at hx; cases hx

/-! ## C10 -/

/-- C10: an event that is executed during the run (the last step, in which main becomes current, included) isn't later than the
moment asked for, and if it is at that moment its priority value is not higher than that of the run -/
theorem C10_executed {p T : ETime} {off : Rat} {r : Bool} {w w' : World} {fuel : Nat} {e : Ev} (h : Running p T off r w)
    (hs : exec fuel .step w = .ok w') (he : w.events.Perm (e :: w'.events)) : (e.t : ETime) < T ∨ ((e.t : ETime) = T ∧ e.prio ≤ p) := by
  have ih := h.inv
  simp only [exec] at hs
  have so := step_out ih.reach.good hs
  cases T with
  | none => exact .inl (WithTop.coe_lt_top _)
  | some t =>
    obtain ⟨x, hx, hc, ht, hp⟩ := ih.event t rfl
    rcases so.cases with ⟨_, _, h2⟩ | ⟨ev, h2, _, _, hmin⟩ | ⟨h2, _⟩
    · have := he.length_eq; rw [h2] at this; simp at this
    · have hev : e = ev := by
        have hp := (he.symm.trans h2)
        rcases List.mem_cons.1 (hp.mem_iff.1 List.mem_cons_self) with h3 | h3
        · exact h3
        · have hnd := ih.reach.good.inv.nodup
          have := (he.map Ev.c).nodup_iff.1 hnd
          exact absurd (List.mem_map_of_mem h3) (List.nodup_cons.1 this).1
      subst hev
      have hb : ¬ Before x e := by rw [← lt_iff_before, hmin x hx]; simp
      unfold Before at hb
      push Not at hb
      obtain ⟨h3, h4⟩ := hb
      rw [ht] at h3 h4
      rcases lt_or_eq_of_le h3 with h5 | h5
      · exact .inl (WithTop.coe_lt_coe.2 h5)
      · right
        refine ⟨congrArg _ h5, ?_⟩
        rw [← hp]; exact (h4 h5.symm).1
    · rw [h2] at hx; cases hx

/-- C10: the clock never is beyond the moment asked for -/
theorem C10_clock {p T : ETime} {off : Rat} {r : Bool} {w : World} (h : Running p T off r w) : (w.now : ETime) ≤ T := by
  have ih := h.inv
  cases T with
  | none => exact le_top
  | some t =>
    obtain ⟨x, hx, hc, ht, _⟩ := ih.event t rfl
    have := ih.reach.good.inv.ge x hx
    rw [ht] at this
    exact WithTop.coe_le_coe.2 this

/-- C10: when control returns to main the clock is at the moment asked for, and the events that are left are later, or at that moment
with a priority value that is not lower than that of the run -/
theorem C10_stop {p : ETime} {t off : Rat} {r : Bool} {w w' : World} {fuel : Nat} (h : Running p (t : ETime) off r w)
    (hs : exec fuel .step w = .ok w') (hc : w'.current = w'.main) :
    w'.now = t ∧ ∀ x ∈ w'.events, t < x.t ∨ (x.t = t ∧ p ≤ x.prio) := by
  have ih := h.inv
  simp only [exec] at hs
  have so := step_out ih.reach.good hs
  obtain ⟨y, hy, hyc, hyt, hyp⟩ := ih.event t rfl
  rcases so.cases with ⟨_, h2, _⟩ | ⟨ev, h2, h3, h4, hmin⟩ | ⟨h2, _⟩
  · rw [hc, so.main, ih.status] at h2; cases h2
  · have hev : ev = y := by
      refine List.inj_on_of_nodup_map ih.reach.good.inv.nodup (h2.mem_iff.2 List.mem_cons_self) hy ?_
      rw [h3, hc, so.main, hyc]
    subst hev
    refine ⟨h4.symm.trans hyt, fun x hx => ?_⟩
    have hx' : x ∈ w.events := h2.mem_iff.2 (List.mem_cons_of_mem _ hx)
    have hb : ¬ Before x ev := by rw [← lt_iff_before, hmin x hx']; simp
    unfold Before at hb
    push Not at hb
    obtain ⟨h5, h6⟩ := hb
    rw [hyt] at h5 h6
    rcases lt_or_eq_of_le h5 with h7 | h7
    · exact .inl h7
    · right
      refine ⟨h7.symm, ?_⟩
      rw [← hyp]; exact (h6 h7.symm).1
  · rw [h2] at hy; cases hy

/-- C10: with the default priority of `run` (inf) all events at the last moment have been executed, unless there are others with
priority inf -/
theorem C10_stop_default {t off : Rat} {r : Bool} {w w' : World} {fuel : Nat} (h : Running ⊤ (t : ETime) off r w)
    (hs : exec fuel .step w = .ok w') (hc : w'.current = w'.main) (hp : ∀ x ∈ w'.events, x.prio ≠ ⊤) : ∀ x ∈ w'.events, t < x.t := by
  intro x hx
  rcases (C10_stop h hs hc).2 x hx with h1 | ⟨_, h1⟩
  · exact h1
  · exact absurd (top_le_iff.1 h1) (hp x hx)

theorem Running.offset {p T : ETime} {off : Rat} {r : Bool} {w : World} (h : Running p T off r w) : r = false → w.offset = off := by
  induction h with
  | @start w w' fuel d t u k T0 hr hm hT hmax hoff h =>
    intro _
    have := (exec_st fuel (o := .runStart d t p u k) rfl w).offset
    rw [h] at this
    rw [hoff]; exact this
  | @call r w w' fuel o hw hs ho ht h ih =>
    intro hr
    simp only [Bool.or_eq_false_iff] at hr
    rw [← ih hr.1]
    by_cases hp : o.plain = true
    · have := (exec_st fuel hp w).offset
      rw [h] at this; exact this
    · cases o <;> simp [Op.plain] at hp
      · rename_i c n i
        rcases exec_insertAt fuel c n i w with he | ⟨q', _, he⟩
        · rw [h] at he
          have : w' = w := he
          rw [this]
        · rw [h] at he
          have : w' = _ := he
          rw [this]; rfl
      · simp [Op.isReset] at hr
      · exact absurd rfl hs
  | @step r w w' fuel hw h hn ih =>
    intro hr
    simp only [exec] at h
    rw [(step_out hw.inv.reach.good h).offset, ih hr]

/-- C10: `run(till=t)` with t not in the past ends when `now()` is t (provided that the presented time isn't changed by `reset_now` in
the meantime) -/
theorem C10_till {p : ETime} {t : Rat} {w0 w1 w w' : World} {fuel f0 : Nat} {u k} (hr : Reach Calm w0) (hm : w0.status w0.main = .current)
    (h0 : exec f0 (.runStart none (some (t : ETime)) p u k) w0 = .ok w1) (ht : w0.now - w0.offset ≤ t)
    (h : Running p ((t + w0.offset : Rat) : ETime) w0.offset false w)
    (hs : exec fuel .step w = .ok w') (hc : w'.current = w'.main) :
    Running p ((t + w0.offset : Rat) : ETime) w0.offset false w1 ∧ w'.now - w'.offset = t := by
  refine ⟨.start hr hm rfl ?_ rfl h0, ?_⟩
  · rw [← WithTop.coe_add]
    exact (max_eq_left (WithTop.coe_le_coe.2 (by linarith))).symm
  · have h1 := (C10_stop h hs hc).1
    have h2 := h.offset rfl
    have h3 := (step_out h.inv.reach.good (by simpa only [exec] using hs)).offset
    rw [h1, h3, h2]; ring

/-- C10: `run(duration=d)` with d not negative ends d later -/
theorem C10_duration {p : ETime} {d : Rat} {w0 w1 w w' : World} {fuel f0 : Nat} {u k r} (hr : Reach Calm w0) (hm : w0.status w0.main = .current)
    (h0 : exec f0 (.runStart (some (d : ETime)) none p u k) w0 = .ok w1) (hd : 0 ≤ d)
    (h : Running p ((w0.now + d : Rat) : ETime) w0.offset r w)
    (hs : exec fuel .step w = .ok w') (hc : w'.current = w'.main) :
    Running p ((w0.now + d : Rat) : ETime) w0.offset false w1 ∧ w'.now = w0.now + d := by
  refine ⟨.start hr hm rfl ?_ rfl h0, (C10_stop h hs hc).1⟩
  rw [← WithTop.coe_add]
  exact (max_eq_left (WithTop.coe_le_coe.2 (by linarith))).symm

/-- C10: a moment in the past is refused, and nothing is scheduled; with cap_now it is the present moment -/
theorem C10_past {p : ETime} {t : Rat} {w : World} {fuel : Nat} {u k} (ht : t < w.now - w.offset) :
    (k = false → (exec fuel (.runStart none (some (t : ETime)) p u k) w).error? = some .value ∧
      (exec fuel (.runStart none (some (t : ETime)) p u k) w).world.events = w.events) ∧
    (k = true → ∀ w', w.status w.main = .current → Reach Calm w → exec fuel (.runStart none (some (t : ETime)) p u k) w = .ok w' →
      Running p (w.now : ETime) w.offset false w') := by
  have hlt : (t : ETime) + (w.offset : ETime) < (w.now : ETime) := by
    rw [← WithTop.coe_add]; exact WithTop.coe_lt_coe.2 (by linarith)
  refine ⟨fun hk => ?_, fun _ w' hm hr h => .start hr hm rfl (max_eq_right (le_of_lt hlt)).symm rfl h⟩
  subst hk
  simp only [exec, runStart, reschedule]
  have hn : (setStatus w.main .scheduled { w with endOnEmpty := false }).now = w.now := rfl
  rw [hn, if_pos hlt]
  exact ⟨rfl, rfl⟩

/-- C10: `run()` and `run(till=inf)` end only when there are no events left; the clock isn't changed by that -/
theorem C10_no_end {p : ETime} {off : Rat} {r : Bool} {w w' : World} {fuel : Nat} (h : Running p ⊤ off r w)
    (hs : exec fuel .step w = .ok w') (hc : w'.current = w'.main) : w.events = [] ∧ w'.events = [] ∧ w'.now = w.now := by
  have ih := h.inv
  simp only [exec] at hs
  have so := step_out ih.reach.good hs
  rcases so.cases with ⟨_, h2, _⟩ | ⟨ev, h2, h3, _, _⟩ | ⟨h2, h3, h4, _⟩
  · rw [hc, so.main, ih.status] at h2; cases h2
  · exfalso
    exact C03_never ih.reach w.main (.inl ih.status) ih.time ev (h2.mem_iff.2 List.mem_cons_self) (by rw [h3, hc, so.main])
  · exact ⟨h2, h3, h4⟩

/-! ## examples -/

/-- two components: one with events at 0, 2, 4, ..., the other at 4 with priority 1 -/
def runOps : List Op :=
  [.create 1 none (0 : Rat) (0 : Rat) false false false, .create 2 none (4 : Rat) (1 : Rat) false false false]

/-- a run till 4 with priority 0.5 : the event of component 1 at 4 is executed, the one of component 2 (with priority 1) isn't -/
example : ∃ w, Running ((1/2 : Rat) : ETime) ((4 : Rat) : ETime) 0 false w ∧ (exec 9 .step w).isOk = true ∧
    (exec 9 .step w).world.current = (exec 9 .step w).world.main ∧ w.now = 4 ∧
    (exec 9 .step w).world.events.map (fun e => (e.t, e.c)) = [(4, 2), (6, 1)] := by
  have hr : Reach Calm (execAll 9 runOps World.init) := reach_calm _ (.init fresh_init) _ (by decide +kernel)
  have ok : ∀ {o w}, (exec 9 o w).isOk = true → exec 9 o w = .ok (exec 9 o w).world := by
    intro o w h
    cases he : exec 9 o w with
    | ok w' => rfl
    | err e w' => rw [he] at h; cases h
  have h1 : Running ((1/2 : Rat) : ETime) ((4 : Rat) : ETime) 0 false
      (execAll 9 (runOps ++ [.runStart none (some (4 : Rat)) ((1/2 : Rat) : ETime) false false]) World.init) :=
    .start (fuel := 9) hr (by decide +kernel) rfl (by decide +kernel) (by decide +kernel) (ok (by decide +kernel))
  have h2 := h1.step (ok (o := .step) (by decide +kernel)) (by decide +kernel)
  have h3 := h2.call (o := .hold 1 (some (2 : Rat)) none (0 : Rat) false false 0) (by simp) (calmb_calm (by decide +kernel)) (by simp only [Op.touches]; decide +kernel) (ok (by decide +kernel))
  have h4 := h3.step (ok (o := .step) (by decide +kernel)) (by decide +kernel)
  have h5 := h4.call (o := .hold 1 (some (2 : Rat)) none (0 : Rat) false false 0) (by simp) (calmb_calm (by decide +kernel)) (by simp only [Op.touches]; decide +kernel) (ok (by decide +kernel))
  have h6 := h5.step (ok (o := .step) (by decide +kernel)) (by decide +kernel)
  have h7 := h6.call (o := .hold 1 (some (2 : Rat)) none (0 : Rat) false false 0) (by simp) (calmb_calm (by decide +kernel)) (by simp only [Op.touches]; decide +kernel) (ok (by decide +kernel))
  exact ⟨_, h7, by decide +kernel, by decide +kernel, by decide +kernel, by decide +kernel⟩

/-- C10 if a process activates main: the run ends before the moment asked for -/
theorem C10_activate_main_counterexample : ∃ w0 w1 w2 w3 w4 : World, Reach Calm w0 ∧
    exec 9 (.runStart none (some (10 : Rat)) ⊤ false false) w0 = .ok w1 ∧ exec 9 .step w1 = .ok w2 ∧
    exec 9 (.activate w2.main none (0 : Rat) (0 : Rat) false false false false false) w2 = .ok w3 ∧ exec 9 .step w3 = .ok w4 ∧
    w4.current = w4.main ∧ w4.now = 0 := by
  have ok : ∀ {o w}, (exec 9 o w).isOk = true → exec 9 o w = .ok (exec 9 o w).world := by
    intro o w h
    cases he : exec 9 o w with
    | ok w' => rfl
    | err e w' => rw [he] at h; cases h
  refine ⟨execAll 9 runOps World.init, _, _, _, _, reach_calm _ (.init fresh_init) _ (by decide +kernel), ok ?_, ok ?_, ok ?_, ok ?_, ?_, ?_⟩ <;>
    decide +kernel

end Verif
