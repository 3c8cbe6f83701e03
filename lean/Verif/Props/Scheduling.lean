import Verif.CalmOut
import Verif.Props.Events

/-!
# Claims about scheduling: the pending event of a component, moments in the past, calls that raise
-/

namespace Verif
open World

/-! ## C03 -/

/-- specification: `e` is the only pending event of `c` -/
def OnlyEvent (w : World) (c : CId) (e : Ev) : Prop := e ∈ w.events ∧ e.c = c ∧ ∀ f ∈ w.events, f.c = c → f = e

/-- specification: `c` has no pending event -/
def NoEvent (w : World) (c : CId) : Prop := ∀ e ∈ w.events, e.c ≠ c

/-- C03: no component occurs twice in the event list -/
theorem C03_at_most_one {w : World} (h : Reach Calm w) : (w.events.map Ev.c).Nodup := h.good.inv.nodup

theorem noEvent_of_off {w : World} (h : w.Inv) {c : CId} (ho : (w.comps c).onList = false) : NoEvent w c := by
  intro e he hc
  have : (w.comps c).onList = true := (h.on c).2 ⟨e, he, hc⟩
  rw [ho] at this; cases this

/-- C03: a component that is passive, data, standby, interrupted or current has no pending event -/
theorem C03_no_event {w : World} (h : Reach Calm w) (c : CId)
    (hs : w.status c = .passive ∨ w.status c = .data ∨ w.status c = .standby ∨ w.status c = .interrupted ∨ w.status c = .current) :
    NoEvent w c := by
  refine noEvent_of_off h.good.inv ?_
  rcases hs with hs | hs | hs | hs | hs
  all_goals first
    | exact h.good.dat c (by simp) hs
    | exact (off_of_status h.good.inv (by simp [hs])).2

/-- C03: a component that is scheduled, requesting or waiting until a finite time has exactly one pending event, at its scheduled time -/
theorem C03_one_event {w : World} (h : Reach Calm w) (c : CId) (t : Rat)
    (hs : w.status c = .scheduled ∨ w.status c = .requesting ∨ w.status c = .waiting) (ht : (w.comps c).schedTime = (t : ETime)) :
    ∃ e, OnlyEvent w c e ∧ e.t = t := by
  have hon : (w.comps c).onList = true := h.good.timed c (by simp) hs (by rw [ht]; simp)
  obtain ⟨e, he, hc⟩ := (h.good.inv.on c).1 hon
  refine ⟨e, ⟨he, hc, fun f hf hfc => List.inj_on_of_nodup_map h.good.inv.nodup hf he (hfc.trans hc.symm)⟩, ?_⟩
  have h1 : (w.comps e.c).schedTime = (e.t : ETime) :=
    h.good.inv.sched e he (by show w.status e.c ≠ .data; rw [hc]; rcases hs with hs | hs | hs <;> simp [hs])
  rw [hc, ht] at h1
  exact (WithTop.coe_inj.1 h1).symm

/-- C03: and it has none if it is scheduled for infinity -/
theorem C03_never {w : World} (h : Reach Calm w) (c : CId)
    (hs : w.status c = .scheduled ∨ w.status c = .requesting ∨ w.status c = .waiting) (ht : (w.comps c).schedTime = ⊤) :
    NoEvent w c := by
  intro e he hc
  have h1 : (w.comps e.c).schedTime = (e.t : ETime) :=
    h.good.inv.sched e he (by show w.status e.c ≠ .data; rw [hc]; rcases hs with hs | hs | hs <;> simp [hs])
  rw [hc, ht] at h1
  cases h1

/-- C03: the other way round, a component with a pending event is scheduled, requesting or waiting, and the time of the event is its
scheduled time -/
theorem C03_event_status {w : World} (h : Reach Calm w) {e : Ev} (he : e ∈ w.events) :
    (w.status e.c = .scheduled ∨ w.status e.c = .requesting ∨ w.status e.c = .waiting) ∧ (w.comps e.c).schedTime = (e.t : ETime) := by
  have hd : w.status e.c ≠ .data := fun hd => C03_no_event h e.c (.inr (.inl hd)) e he rfl
  refine ⟨?_, h.good.inv.sched e he hd⟩
  rcases h.good.inv.st e.c ((h.good.inv.on e.c).2 ⟨e, he, rfl⟩) with h1 | h1 | h1 | h1
  · exact .inl h1
  · exact .inr (.inl h1)
  · exact .inr (.inr h1)
  · exact absurd h1 hd

/-- a check of `Calm` by evaluation -/
def calmb (fuel : Nat) (w : World) (o : Op) : Bool :=
  (exec fuel o w).isOk && match o with
  | .setRemaining c .. => w.status c != .data
  | .terminate => w.status w.current == .current
  | .request c as _ _ _ _ _ _ _ => c != w.main && !as.isEmpty &&
      as.all (fun a => !(w.res a.r).preemptive || !(w.queues (.claimers a.r)).has c)
  | .wait c .. | .waitFor c .. | .fromStore c .. | .toStore c .. | .standby c => c != w.main
  | .create c _ _ _ _ _ s => !(w.comps c).skipStandby || s
  | .runStart .. => w.status w.main == .current
  | _ => true

theorem calmb_calm {fuel w o} (h : calmb fuel w o = true) : Calm fuel w o := by
  simp only [calmb, Bool.and_eq_true] at h
  obtain ⟨h1, h2⟩ := h
  refine ⟨?_, ?_⟩
  · cases he : exec fuel o w with
    | ok w' => exact ⟨w', rfl⟩
    | err e w' => rw [he] at h1; cases h1
  · cases o <;> simp only [OpOK, true_and, and_true] <;> simp_all [ReqOK]
    · intro h
      rcases h2 with h2 | h2
      · rw [h] at h2; cases h2
      · exact h2
    · intro a ha hp
      rcases h2.2 a ha with h | h
      · rw [hp] at h; cases h
      · exact h

/-- all calls of a list pass the check, one after the other -/
def calmAll (fuel : Nat) : List Op → World → Bool
  | [], _ => true
  | o :: os, w => calmb fuel w o && calmAll fuel os (exec fuel o w).world

theorem reach_calm (fuel : Nat) {w : World} (h : Reach Calm w) (ops : List Op) (hc : calmAll fuel ops w = true) :
    Reach Calm (execAll fuel ops w) := by
  induction ops generalizing w with
  | nil => exact h
  | cons o os ih =>
    simp only [calmAll, Bool.and_eq_true] at hc
    exact ih (.op fuel o h (calmb_calm hc.1)) hc.2

/-- a program with a hold, a passivated component, an interrupted one, one in standby, a requester with a time limit and a waiter
without -/
def calmOps : List Op :=
  [.create 1 none (0 : Rat) (0 : Rat) false false false, .create 2 none (0 : Rat) (0 : Rat) false false false,
   .create 3 none (0 : Rat) (0 : Rat) false false false, .create 4 none (0 : Rat) (0 : Rat) false false false,
   .create 5 none (0 : Rat) (0 : Rat) false false false, .create 6 none (0 : Rat) (0 : Rat) false false false,
   .runStart (some (10 : Rat)) none ⊤ false false,
   .step, .request 1 [{ r := 0 }] false false none none (0 : Rat) false false,
   .step, .request 2 [{ r := 0 }] false false none (some (4 : Rat)) (0 : Rat) false false,
   .step, .wait 3 [{ s := 0 }] false none none (0 : Rat) false false,
   .step, .passivate 4, .step, .standby 5, .step, .hold 6 (some (2 : Rat)) none (0 : Rat) false false 0,
   .interrupt 6, .step, .standby 5, .step, .hold 1 (some (3 : Rat)) none (0 : Rat) false false 0]

/-- the hypotheses of the C03 theorems are met by a world with components in all these statuses -/
example : Reach Calm (execAll 20 calmOps World.init) ∧
    (List.range 7).map (execAll 20 calmOps World.init).status =
      [.scheduled, .scheduled, .requesting, .waiting, .passive, .standby, .interrupted] ∧
    (List.range 4).map (fun c => ((execAll 20 calmOps World.init).comps c).schedTime) =
      [((10 : Rat) : ETime), ((3 : Rat) : ETime), ((4 : Rat) : ETime), ⊤] :=
  ⟨reach_calm _ (.init fresh_init) _ (by decide +kernel), by decide +kernel, by decide +kernel⟩

/-- C03 without the conditions of `Calm`: `request()` without arguments by the current component leaves it current with a pending
event (salabim.py:8590-8592) -/
theorem C03_request_nothing_counterexample : ∃ w : World, Reach Any w ∧ (∀ e, e ∈ w.events → e.c = 1) ∧ w.events.length = 1 ∧ w.status 1 = .current := by
  refine ⟨execAll 20 [.create 1 none (0 : Rat) (0 : Rat) false false false, .step,
    .request 1 [] false false none none (0 : Rat) false false] World.init, reach_execAll _ (.init fresh_init) _, ?_, ?_, ?_⟩ <;> decide +kernel

/-- C03 without the conditions of `Calm`: a component that requests a preemptive resource that it claims already, with a better
priority, bumps and activates itself and so gets two pending events -/
theorem C03_self_preemption_counterexample : ∃ w : World, Reach Any w ∧ (w.events.map Ev.c) = [1, 1] := by
  refine ⟨execAll 20 [.create 1 none (0 : Rat) (0 : Rat) false false false, .step,
    .request 1 [{ r := 0, prio := 5 }] false false none none (0 : Rat) false false, .step,
    .request 1 [{ r := 0, q := 2, prio := 1 }] false false none (some (3 : Rat)) (0 : Rat) false false]
    { World.init with res := fun _ => { preemptive := true } }, reach_execAll _ (.init ?_) _, ?_⟩
  · obtain ⟨h1, h2, h3, h4, h5, h6, h7, h8, h9, h10⟩ := fresh_init
    exact ⟨h1, h2, h3, h4, h5, h6, h7, h8, h9, h10⟩
  · decide +kernel

/-- C03 without the conditions of `Calm`: setting the remaining duration of a data component gives it a pending event -/
theorem C03_remaining_duration_counterexample : ∃ w : World, Reach Any w ∧ w.status 1 = .data ∧ (w.events.map Ev.c) = [1] := by
  refine ⟨execAll 20 [.setRemaining 1 (3 : Rat) (0 : Rat) false] World.init, reach_execAll _ (.init fresh_init) _, ?_, ?_⟩ <;> decide +kernel

/-! ## C04

`holdTime`, `atTime` and `limitTime` are the moments asked for, in terms of the internal clock (`now + offset` is presented). -/

/-- if it raises, it is a ValueError -/
def OnlyValue (r : R) : Prop := ∀ e w, r = .err e w → e = .value

theorem OnlyValue.ok (w : World) : OnlyValue (.ok w) := by intro e w' h; cases h
theorem OnlyValue.value (w : World) : OnlyValue (.err .value w) := by intro e w' h; cases h; rfl
theorem OnlyValue.andThen {r : R} {f : World → R} (h : OnlyValue r) (hf : ∀ w, r = .ok w → OnlyValue (f w)) : OnlyValue (r ⊳ f) := by
  cases r with
  | ok w => exact hf w rfl
  | err e w => intro e' w' h'; cases h'; exact h _ _ rfl
theorem OnlyValue.forR {α : Type} {f : α → World → R} (hf : ∀ a w, OnlyValue (f a w)) : ∀ (l : List α) (w : World), OnlyValue (forR l f w)
  | [], w => .ok w
  | a :: l, w => (hf a w).andThen fun w' _ => OnlyValue.forR hf l w'

theorem ov_leaveQ (c : CId) (q : QRef) (w : World) : OnlyValue (leaveQ c q w) := by
  unfold leaveQ onQueue Queue.leave
  simp only
  cases (w.queues q).find c with
  | none => exact .value _
  | some m => exact .ok _
theorem ov_checkFail (c : CId) (w : World) : OnlyValue (checkFail c w) := by
  unfold checkFail
  refine ((OnlyValue.andThen ?_ fun w1 _ => ?_).andThen fun w2 _ => ?_).andThen fun w3 _ => ?_
  · unfold checkFailReq
    split
    · exact .ok _
    · refine (OnlyValue.forR (fun r w => ?_) _ _).andThen fun _ _ => .ok _
      exact (ov_leaveQ _ _ _).andThen fun _ _ => .ok _
  · unfold checkFailWait
    split
    · exact .ok _
    · refine (OnlyValue.forR (fun r w => ?_) _ _).andThen fun _ _ => .ok _
      unfold leaveWaiters
      split
      · exact ov_leaveQ _ _ _
      · exact .ok _
  · unfold checkFailFrom
    split
    · exact .ok _
    · exact (OnlyValue.forR (fun r w => ov_leaveQ _ _ _) _ _).andThen fun _ _ => .ok _
  · unfold checkFailTo
    split
    · exact .ok _
    · exact (OnlyValue.forR (fun r w => ov_leaveQ _ _ _) _ _).andThen fun _ _ => .ok _
theorem ov_checkNotData (c : CId) (w : World) : OnlyValue (checkNotData c w) := by
  unfold checkNotData; split
  · exact .value _
  · exact .ok _
theorem ov_remove {w : World} (h : w.Inv) (c : CId) : OnlyValue (remove c w) := by
  obtain ⟨w', h1, _⟩ := remove_removed h c
  rw [h1]; exact .ok _
theorem ov_notData {w : World} (h : w.Inv) (c : CId) : OnlyValue (checkNotData c w ⊳ remove c ⊳ checkFail c) := by
  refine ((ov_checkNotData c w).andThen fun w1 h1 => ?_).andThen fun w2 _ => ov_checkFail c w2
  obtain ⟨rfl, _⟩ := checkNotData_ok h1
  exact ov_remove h c

theorem removeFail_time {c : CId} {w w' : World} (h : w.Inv) (h1 : (remove c w ⊳ checkFail c) = .ok w') : w'.now = w.now ∧ w'.offset = w.offset := by
  obtain ⟨w1, h2, h3⟩ := andThen_ok h1
  obtain ⟨w2, h4, r⟩ := remove_removed h c
  rw [h4] at h2; cases h2
  have := fr_checkFail c w1
  rw [h3] at this
  exact ⟨(congrArg EV.now this).trans r.now, (congrArg EV.offset this).trans r.offset⟩
theorem notData_time {c : CId} {w w' : World} (h : w.Inv) (h1 : (checkNotData c w ⊳ remove c ⊳ checkFail c) = .ok w') :
    w'.now = w.now ∧ w'.offset = w.offset := by
  obtain ⟨w1, h2, h3⟩ := andThen_ok h1
  obtain ⟨w2, h4, h5⟩ := andThen_ok h2
  obtain ⟨rfl, _⟩ := checkNotData_ok h4
  exact removeFail_time h (by rw [h5]; exact h3)

/-- raised and nothing else than a ValueError -/
theorem OnlyValue.raised {r : R} (h : OnlyValue r) (hn : ∀ w, r ≠ .ok w) : ∃ w', r = .err .value w' := by
  cases r with
  | ok w => exact absurd rfl (hn w)
  | err e w => rw [h e w rfl]; exact ⟨w, rfl⟩

/-- C04: holding until a moment in the past is refused with a ValueError, whatever the status of the component -/
theorem C04_hold_refused {w : World} (h : Reach Sane w) (c : CId) (duration till : Option ETime) (prio : ETime) (urgent : Bool) (intr fuel : Nat)
    {T : ETime} (hT : holdTime w duration till = some T) (hp : T < (w.now : ETime)) :
    ∃ w', exec fuel (.hold c duration till prio urgent false intr) w = .err .value w' := by
  simp only [exec]
  unfold hold
  have hend : ∀ w1 : World, w1.now = w.now → w1.offset = w.offset → ∃ w',
      (match (match till, duration with
        | none, none => some (w1.now : ETime)
        | none, some d => some ((w1.now : ETime) + d)
        | some t, none => some (t + (w1.offset : ETime))
        | some _, some _ => none) with
      | none => R.err .value w1
      | some t =>
        if t < (w1.now : ETime) ∧ false = false then .err .value w1 else
        let t := if t < (w1.now : ETime) then (w1.now : ETime) else t
        if intr ≠ 0 then
          .ok (w1.modC c (fun x => { x with
            remaining := ETime.subQ t w1.now, intrStatus := .scheduled, intrLevel := intr, status := .interrupted }))
        else reschedule c t prio urgent false none (setStatus c .scheduled w1)) = .err .value w' := by
    intro w1 h1 h2
    rw [← holdTime_congr h1 h2] at hT
    rw [← h1] at hp
    cases duration <;> cases till <;> simp only [holdTime, Option.some.injEq, reduceCtorEq] at hT <;> subst hT <;> simp only
    all_goals rw [if_pos ⟨hp, trivial⟩]; exact ⟨_, rfl⟩
  split
  · exact hend w rfl rfl
  · have hov := ov_notData h.inv c
    cases hr : (checkNotData c w ⊳ remove c ⊳ checkFail c) with
    | err e w1 => rw [hov e w1 hr]; exact ⟨_, rfl⟩
    | ok w1 => exact hend w1 (notData_time h.inv hr).1 (notData_time h.inv hr).2

theorem resched_refused (c : CId) {t : ETime} (p u ret) {w : World} (h : t < (w.now : ETime)) : reschedule c t p u false ret w = .err .value w := by
  unfold reschedule
  rw [if_pos h]; rfl

/-- C04: activating a component for a moment in the past is refused with a ValueError -/
theorem C04_activate_refused {w : World} (h : Reach Sane w) (c : CId) (at_ : Option ETime) (delay prio : ETime) (urgent proc keepReq keepWait : Bool)
    (fuel : Nat) (hproc : (w.comps c).hasProcess = true) (hp : atTime w at_ delay < (w.now : ETime)) :
    ∃ w', exec fuel (.activate c at_ delay prio urgent false proc keepReq keepWait) w = .err .value w' := by
  simp only [exec]
  unfold activate
  simp only [hproc, Bool.not_true, Bool.and_false, Bool.false_eq_true, if_false]
  have hend : ∀ w1 : World, w1.now = w.now → w1.offset = w.offset → ∃ w', reschedule c (match at_ with
      | none => (w1.now : ETime) + delay
      | some a => a + (w1.offset : ETime) + delay) prio urgent false none (setStatus c .scheduled w1) = .err .value w' := by
    intro w1 h1 h2
    refine ⟨_, resched_refused c prio urgent none ?_⟩
    show _ < (w1.now : ETime)
    rw [h1, h2]
    cases at_ <;> exact hp
  split
  · exact hend w rfl rfl
  · obtain ⟨w1, h1, r⟩ := remove_removed h.inv c
    rw [h1]
    by_cases hk : (!(proc || decide (w.status c = .data)) && (keepReq || keepWait)) = true
    · simp only [R.andThen, hk, if_true]
      exact hend w1 r.now r.offset
    · simp only [R.andThen, hk, Bool.false_eq_true, if_false]
      cases hr : checkFail c w1 with
      | err e w2 => rw [ov_checkFail c w1 e w2 hr]; exact ⟨_, rfl⟩
      | ok w2 =>
        have := fr_checkFail c w1
        rw [hr] at this
        exact hend w2 ((congrArg EV.now this).trans r.now) ((congrArg EV.offset this).trans r.offset)

/-- C04: a component can't be made with a start in the past -/
theorem C04_create_refused (w : World) (c : CId) (at_ : Option ETime) (delay prio : ETime) (urgent skip : Bool) (fuel : Nat)
    (hnew : w.status c = .data ∧ (w.comps c).onList = false) (hp : atTime w at_ delay < (w.now : ETime)) :
    ∃ w', exec fuel (.create c at_ delay prio urgent false skip) w = .err .value w' := by
  simp only [exec]
  unfold create
  rw [if_neg (by simp [hnew.1, hnew.2])]
  refine ⟨_, resched_refused c prio urgent none ?_⟩
  show _ < (w.now : ETime)
  cases at_ <;> exact hp

/-- C04: run until a moment in the past is refused -/
theorem C04_run_refused (w : World) (duration till : Option ETime) (prio : ETime) (urgent : Bool) (fuel : Nat)
    (hgiven : duration ≠ none ∨ till ≠ none) {T : ETime} (hT : holdTime w duration till = some T) (hp : T < (w.now : ETime)) :
    ∃ w', exec fuel (.runStart duration till prio urgent false) w = .err .value w' := by
  simp only [exec]
  unfold runStart
  cases duration <;> cases till <;> simp only [holdTime, Option.some.injEq, reduceCtorEq, ne_eq, not_true, or_self] at hT hgiven <;> subst hT
  all_goals exact ⟨_, resched_refused _ prio urgent none hp⟩

/-- C04: a negative remaining duration is refused, unless the component is passive or interrupted (it is then only stored, and
refused by `resume`, see `C04_resume_refused`) -/
theorem C04_remaining_refused {w : World} (h : Reach Sane w) (c : CId) (v prio : ETime) (urgent : Bool) (fuel : Nat)
    (hs : w.status c ≠ .passive ∧ w.status c ≠ .interrupted) (hv : v + w.now < (w.now : ETime)) :
    ∃ w', exec fuel (.setRemaining c v prio urgent) w = .err .value w' := by
  simp only [exec]
  unfold setRemaining
  rw [if_neg (by simp [hs.1, hs.2])]
  split
  · exact ⟨_, rfl⟩
  · obtain ⟨w1, h1, r⟩ := remove_removed h.inv c
    rw [h1]
    refine ⟨_, resched_refused c prio urgent none ?_⟩
    rw [r.now]; exact hv

/-- C04: resuming with a negative remaining duration is refused -/
theorem C04_resume_refused {w : World} (c : CId) (all : Bool) (prio : ETime) (urgent : Bool) (fuel : Nat)
    (hs : w.status c = .interrupted) (hi : (w.comps c).intrStatus = .scheduled) (hl : (w.comps c).intrLevel = 1 ∨ all = true)
    (hv : (w.now : ETime) + (w.comps c).remaining < (w.now : ETime)) :
    ∃ w', exec fuel (.resume c all prio urgent) w = .err .value w' := by
  simp only [exec]
  unfold resume
  rw [if_pos hs]
  simp only
  rw [if_neg (by rw [modC_self]; rcases hl with h | h <;> simp [h]), if_pos (by simp [setStatus, World.modC, World.status, hi])]
  refine ⟨_, resched_refused c prio urgent none ?_⟩
  simpa [setStatus, World.modC] using hv

/-- C04: a hold that returns: the component is scheduled for the moment asked for, or for now if that moment is in the past and
cap_now is set -/
theorem C04_hold {w w' : World} (h : Reach Calm w) {c : CId} {duration till : Option ETime} {prio : ETime} {urgent cap : Bool} {fuel : Nat}
    (ho : exec fuel (.hold c duration till prio urgent cap 0) w = .ok w') :
    ∃ T, holdTime w duration till = some T ∧ (T < (w.now : ETime) → cap = true) ∧ w'.status c = .scheduled ∧
      (w'.comps c).schedTime = max T w.now := by
  obtain ⟨_, _, T, h1, h2, h3, _⟩ := hold_out h.good ho
  exact ⟨T, h1, h2, (h3 rfl).status, (h3 rfl).time⟩

/-- C04: activate -/
theorem C04_activate {w w' : World} (h : Reach Calm w) {c : CId} {at_ : Option ETime} {delay prio : ETime} {urgent cap proc keepReq keepWait : Bool}
    {fuel : Nat} (ho : exec fuel (.activate c at_ delay prio urgent cap proc keepReq keepWait) w = .ok w') :
    (atTime w at_ delay < (w.now : ETime) → cap = true) ∧ w'.status c = .scheduled ∧ (w'.comps c).schedTime = max (atTime w at_ delay) w.now := by
  obtain ⟨_, h1, h2, h3, _⟩ := activate_out h.good (by simp) ho
  exact ⟨h3, h1, h2⟩

/-- C04: creation of a component -/
theorem C04_create {w w' : World} (h : Reach Calm w) {c : CId} {at_ : Option ETime} {delay prio : ETime} {urgent cap skip : Bool} {fuel : Nat}
    (ho : exec fuel (.create c at_ delay prio urgent cap skip) w = .ok w') :
    (atTime w at_ delay < (w.now : ETime) → cap = true) ∧ w'.status c = .scheduled ∧ (w'.comps c).schedTime = max (atTime w at_ delay) w.now := by
  obtain ⟨_, h1, h2, _⟩ := create_out h.good ho
  exact ⟨h2, h1.status, h1.time⟩

/-- C04: run -/
theorem C04_run {w w' : World} (h : Reach Calm w) {duration till : Option ETime} {prio : ETime} {urgent cap : Bool} {fuel : Nat}
    (hgiven : duration ≠ none ∨ till ≠ none) (ho : exec fuel (.runStart duration till prio urgent cap) w = .ok w') :
    ∃ T, holdTime w duration till = some T ∧ (T < (w.now : ETime) → cap = true) ∧ w'.status w.main = .scheduled ∧
      (w'.comps w.main).schedTime = max T w.now := by
  obtain ⟨_, _, h1⟩ := runStart_out h.good ho
  obtain ⟨T, h2, h3, h4⟩ := h1 hgiven
  exact ⟨T, h2, h3, h4.status, h4.time⟩

/-- the moment a call with fail_at or fail_delay is to fail, in terms of the internal clock; inf if neither is given -/
def limitTime (w : World) : (failAt failDelay : Option ETime) → Option ETime
  | none, none => some ⊤
  | none, some d => some ((w.now : ETime) + d)
  | some a, none => some (a + (w.offset : ETime))
  | some _, some _ => none

theorem failTime_limit (w : World) (a d : Option ETime) : failTime w a d = limitTime w a d := by
  cases a <;> cases d <;> rfl

/-- C04: a request that returns is honored (the component is scheduled for now), or it is to fail at the moment given by fail_at or
fail_delay, or now if that moment is in the past and cap_now is set -/
theorem C04_request {w w' : World} (h : Reach Calm w) {c : CId} {args : List Arg} {oneof put : Bool} {failAt failDelay : Option ETime}
    {prio : ETime} {urgent cap : Bool} {fuel : Nat} (hr : ReqOK w c args) (hm : c ≠ w.main)
    (ho : exec fuel (.request c args oneof put failAt failDelay prio urgent cap) w = .ok w') :
    (w'.status c = .scheduled ∧ (w'.comps c).schedTime = (w.now : ETime) ∧ (w'.comps c).requests = []) ∨
    ∃ T, limitTime w failAt failDelay = some T ∧ (T < (w.now : ETime) → cap = true) ∧ w'.status c = .requesting ∧
      (w'.comps c).schedTime = max T w.now := by
  obtain ⟨_, _, T, h1, h2⟩ := request_out h.good hr hm ho
  rcases h2 with ⟨h2, h3⟩ | ⟨h2, _, h4⟩
  · exact .inl ⟨h2.status, h2.time, h3⟩
  · exact .inr ⟨T, (failTime_limit ..).symm.trans h1, h4, h2.status, h2.time⟩

/-- C04: wait -/
theorem C04_wait {w w' : World} (h : Reach Calm w) {c : CId} {args : List WArg} {all : Bool} {failAt failDelay : Option ETime}
    {prio : ETime} {urgent cap : Bool} {fuel : Nat} (hm : c ≠ w.main)
    (ho : exec fuel (.wait c args all failAt failDelay prio urgent cap) w = .ok w') :
    (w'.status c = .scheduled ∧ (w'.comps c).schedTime = (w.now : ETime) ∧ (w'.comps c).waits = []) ∨
    ∃ T, limitTime w failAt failDelay = some T ∧ (T < (w.now : ETime) → cap = true) ∧ w'.status c = .waiting ∧
      (w'.comps c).schedTime = max T w.now := by
  obtain ⟨_, _, T, h1, h2⟩ := wait_out h.good hm ho
  rcases h2 with ⟨h2, h3⟩ | ⟨h2, _, h4⟩
  · exact .inl ⟨h2.status, h2.time, h3⟩
  · exact .inr ⟨T, (failTime_limit ..).symm.trans h1, h4, h2.status, h2.time⟩

/-- C04: from_store -/
theorem C04_from_store {w w' : World} (h : Reach Calm w) {c : CId} {ss : List StId} {filter : CId → Bool} {key : Option (CId → Rat)} {rprio : Rat}
    {failAt failDelay : Option ETime} {prio : ETime} {urgent cap : Bool} {fuel : Nat}
    (ho : exec fuel (.fromStore c ss filter key rprio failAt failDelay prio urgent cap) w = .ok w') :
    (w'.status c = .scheduled ∧ (w'.comps c).schedTime = (w.now : ETime) ∧ (w'.comps c).fromStores = []) ∨
    ∃ T, limitTime w failAt failDelay = some T ∧ (T < (w.now : ETime) → cap = true) ∧ w'.status c = .requesting ∧
      (w'.comps c).schedTime = max T w.now := by
  obtain ⟨_, _, T, h1, h2⟩ := fromStore_out h.good ho
  rcases h2 with ⟨h2, h3⟩ | ⟨h2, _, h4⟩
  · exact .inl ⟨h2.status, h2.time, h3⟩
  · exact .inr ⟨T, (failTime_limit ..).symm.trans h1, h4, h2.status, h2.time⟩

/-- C04: to_store -/
theorem C04_to_store {w w' : World} (h : Reach Calm w) {c : CId} {ss : List StId} {item : CId} {rprio sprio : Rat}
    {failAt failDelay : Option ETime} {prio : ETime} {urgent cap : Bool} {fuel : Nat}
    (ho : exec fuel (.toStore c ss item rprio sprio failAt failDelay prio urgent cap) w = .ok w') :
    (w'.status c = .scheduled ∧ (w'.comps c).schedTime = (w.now : ETime) ∧ (w'.comps c).toStores = []) ∨
    ∃ T, limitTime w failAt failDelay = some T ∧ (T < (w.now : ETime) → cap = true) ∧ w'.status c = .requesting ∧
      (w'.comps c).schedTime = max T w.now := by
  obtain ⟨_, _, T, h1, h2⟩ := toStore_out h.good ho
  rcases h2 with ⟨h2, h3⟩ | ⟨h2, _, h4⟩
  · exact .inl ⟨h2.status, h2.time, h3⟩
  · exact .inr ⟨T, (failTime_limit ..).symm.trans h1, h4, h2.status, h2.time⟩

/-- C04: no call that returns schedules a component before now -/
theorem C04_never_before_now {w : World} (h : Reach Calm w) (c : CId)
    (hs : w.status c = .scheduled ∨ w.status c = .requesting ∨ w.status c = .waiting) : (w.now : ETime) ≤ (w.comps c).schedTime := by
  cases ht : (w.comps c).schedTime using WithTop.recTopCoe with
  | top => exact le_top
  | coe t =>
    obtain ⟨e, he, rfl⟩ := C03_one_event h c t hs ht
    exact WithTop.coe_le_coe.2 (h.good.inv.ge e he.1)

/-- the clock is at 3 when component 1 is asked to hold till 2: refused, or executed at 3 with cap_now -/
example : ∃ w, Reach Calm w ∧ w.now = 3 ∧ (exec 9 (.hold 1 none (some (2 : Rat)) (0 : Rat) false false 0) w).error? = some .value ∧
    (exec 9 (.hold 1 none (some (2 : Rat)) (0 : Rat) false true 0) w).isOk = true ∧
    ((exec 9 (.hold 1 none (some (2 : Rat)) (0 : Rat) false true 0) w).world.comps 1).schedTime = ((3 : Rat) : ETime) := by
  refine ⟨execAll 9 [.create 1 none (3 : Rat) (0 : Rat) false false false, .step] World.init, reach_calm _ (.init fresh_init) _ ?_, ?_, ?_, ?_, ?_⟩ <;>
    decide +kernel

/-! ## C05 -/

/-- specification: if the call raises, everything is exactly as it was -/
def Atomic (r : R) (w : World) : Prop := ∀ e w', r = .err e w' → w' = w

/-- the operations on a queue (not being an internal queue or a store) -/
def Op.onUserQueue : Op → Bool
  | .enter .. | .enterSorted .. | .enterAtHead .. | .enterInFrontOf .. | .enterBehind .. | .leave .. | .setPriority .. | .insertAt .. => true
  | _ => false

theorem atomic_onQueue (q : QRef) (f : Queue → Queue.QR) (w : World) : Atomic (onQueue q f w) w := by
  intro e w' h
  unfold onQueue at h
  split at h
  · cases h
  · cases h; rfl

/-- C05: entering, leaving, inserting in and changing the priority in a queue: if that is refused (queue full, already in the queue, not
in the queue, ...) nothing has changed, in whatever state the model is -/
theorem C05_queue (w : World) (fuel : Nat) {o : Op} (ho : o.onUserQueue = true) : Atomic (exec fuel o w) w := by
  cases o <;> simp only [Op.onUserQueue, Bool.false_eq_true] at ho <;> (simp only [exec]; exact atomic_onQueue _ _ w)

/-- C05: a hold by the current component, of a passive component or of a data component is refused without any change -/
theorem C05_hold (w : World) (c : CId) (duration till : Option ETime) (prio : ETime) (urgent cap : Bool) (intr fuel : Nat)
    (hs : w.status c = .current ∨ w.status c = .passive ∨ w.status c = .data) :
    Atomic (exec fuel (.hold c duration till prio urgent cap intr) w) w := by
  intro e w' h
  simp only [exec] at h
  unfold hold at h
  by_cases hd : w.status c = .data
  · rw [if_neg (by simp [hd])] at h
    simp only [checkNotData, hd, if_true, R.andThen] at h
    cases h; rfl
  · rw [if_pos (by tauto)] at h
    simp only [R.andThen] at h
    split at h
    · cases h; rfl
    · split at h
      · cases h; rfl
      · rename_i T _ hT
        split at h
        · cases h
        · exfalso
          unfold reschedule at h
          rw [if_neg] at h
          · split at h <;> cases h
          · have e1 : (setStatus c .scheduled w).now = w.now := rfl
            rw [e1]
            split
            · exact lt_irrefl _
            · assumption

/-- C05: calls for a component that is in the wrong status for it: all is as it was -/
theorem C05_wrong_status {w : World} (c : CId) (fuel : Nat) :
    (w.status c ≠ .interrupted → w.status c ≠ .scheduled → exec fuel (.interrupt c) w = .err .value w) ∧
    (w.status c ≠ .interrupted → ∀ all prio urgent, exec fuel (.resume c all prio urgent) w = .err .value w) ∧
    (w.status c = .current ∨ w.status c = .standby → ∀ v prio urgent, exec fuel (.setRemaining c v prio urgent) w = .err .value w) ∧
    (w.status c = .data → exec fuel (.passivate c) w = .err .value w) ∧
    (w.status c = .data → exec fuel (.standby c) w = .err .value w) ∧
    (c = w.main → w.status c ≠ .current → exec fuel (.standby c) w = .err .value w) ∧
    (w.status c = .data → (w.comps c).hasProcess = false → ∀ at_ delay prio urgent cap proc keepReq keepWait,
      exec fuel (.activate c at_ delay prio urgent cap proc keepReq keepWait) w = .err .attribute w) := by
  refine ⟨fun h1 h2 => ?_, fun h1 all prio urgent => ?_, fun h1 v prio urgent => ?_, fun h1 => ?_, fun h1 => ?_,
    fun h1 h2 => ?_, fun h1 h2 at_ delay prio urgent cap proc keepReq keepWait => ?_⟩ <;> simp only [exec]
  · unfold interrupt; rw [if_neg h1, if_neg h2]
  · unfold resume; rw [if_neg h1]
  · unfold setRemaining
    rw [if_neg (by rcases h1 with h1 | h1 <;> simp [h1]), if_pos h1]
  · unfold passivate; rw [if_neg (by simp [h1])]; simp [checkNotData, h1, R.andThen]
  · unfold standby preamble; rw [if_neg (by simp [h1])]; simp [checkNotData, h1, R.andThen]
  · unfold standby preamble; rw [if_neg h2]; unfold checkNotData checkNotMain; split <;> simp [h1, R.andThen]
  · unfold activate; simp [h1, h2]

/-- C05: from_store and to_store with a repeated store or none, or for a data component -/
theorem C05_stores {w : World} (c : CId) (ss : List StId) (fuel : Nat) (h : ¬ ss.Nodup ∨ ss = [] ∨ w.status c = .data) :
    (∀ filter key rprio fa fd prio urgent cap, exec fuel (.fromStore c ss filter key rprio fa fd prio urgent cap) w = .err .value w) ∧
    (∀ item rprio sprio fa fd prio urgent cap, exec fuel (.toStore c ss item rprio sprio fa fd prio urgent cap) w = .err .value w) := by
  constructor <;> intros <;> simp only [exec]
  · unfold fromStore
    split
    · rfl
    · have hd : w.status c = .data := by tauto
      unfold preamble; rw [if_neg (by simp [hd])]; simp [checkNotData, hd, R.andThen]
  · unfold toStore
    split
    · rfl
    · have hd : w.status c = .data := by tauto
      unfold preamble; rw [if_neg (by simp [hd])]; simp [checkNotData, hd, R.andThen]

/-- C05: request, wait and wait_for for a data component: refused; nothing of the component has changed except for what only has a
meaning during a request or wait (the flag `oneof` and the condition of wait_for) -/
theorem C05_request_wait {w : World} (c : CId) (fuel : Nat) (hd : w.status c = .data) :
    (∀ args oneof put fa fd prio urgent cap, exec fuel (.request c args oneof put fa fd prio urgent cap) w =
      .err .value (w.modC c (fun x => { x with oneof := oneof }))) ∧
    (∀ args all fa fd prio urgent cap, exec fuel (.wait c args all fa fd prio urgent cap) w = .err .value (w.modC c (fun x => { x with cond := none }))) ∧
    (∀ cond ss fa fd prio urgent cap, exec fuel (.waitFor c cond ss fa fd prio urgent cap) w = .err .value w) := by
  refine ⟨?_, ?_, ?_⟩ <;> intros <;> simp only [exec]
  · unfold request preamble
    rw [if_neg (by simpa [World.status, World.modC] using by rw [show (w.comps c).status = .data from hd]; simp)]
    unfold checkNotData
    rw [if_pos (by simpa [World.status, World.modC] using hd)]; rfl
  · unfold wait preamble
    rw [if_neg (by simpa [World.status, World.modC] using by rw [show (w.comps c).status = .data from hd]; simp)]
    unfold checkNotData
    rw [if_pos (by simpa [World.status, World.modC] using hd)]; rfl
  · unfold waitFor preamble
    rw [if_neg (by rw [hd]; simp)]
    unfold checkNotData
    rw [if_pos hd]; rfl

/-- C05: a raising `interrupt` never changes anything -/
theorem C05_interrupt {w : World} (h : Reach Sane w) (c : CId) (fuel : Nat) : Atomic (exec fuel (.interrupt c) w) w := by
  intro e w' h1
  simp only [exec] at h1
  unfold interrupt at h1
  split at h1
  · cases h1
  · split at h1
    · obtain ⟨w1, h2, _⟩ := remove_removed h.inv c
      rw [h2] at h1; cases h1
    · cases h1; rfl

/-- a queue with room for one component that already has one: entering is refused -/
example : (exec 9 (.enter 2 0) (execAll 9 [.queueSetCapacity 0 (1 : Rat), .enter 1 0] World.init)).error? = some .queueFull := by decide +kernel

/-- C05 without the restrictions: a scheduled component that is told to hold till a moment in the past loses its pending event (its
status stays scheduled), as it is taken from the event list before the check (salabim.py:7819-7844) -/
theorem C05_hold_counterexample : ∃ w : World, Reach Calm w ∧
    let r := exec 9 (.hold 1 none (some (2 : Rat)) (0 : Rat) false false 0) w
    r.error? = some .value ∧
    w.status 1 = .scheduled ∧ (w.comps 1).schedTime = ((5 : Rat) : ETime) ∧ (w.events.map Ev.c) = [1] ∧
    r.world.status 1 = .scheduled ∧ (r.world.comps 1).schedTime = ((5 : Rat) : ETime) ∧ (r.world.events.map Ev.c) = [] := by
  refine ⟨execAll 9 [.create 1 none (3 : Rat) (0 : Rat) false false false, .step, .hold 1 (some (2 : Rat)) none (0 : Rat) false false 0] World.init,
    reach_calm _ (.init fresh_init) _ (by decide +kernel), ?_⟩
  decide +kernel

/-- C05 without the restrictions: a passive component that is activated for a moment in the past becomes scheduled, without any
pending event (salabim.py:7711-7723, the status is set before the check) -/
theorem C05_activate_counterexample : ∃ w : World, Reach Calm w ∧
    let r := exec 9 (.activate 1 (some (2 : Rat)) (0 : Rat) (0 : Rat) false false false false false) w
    r.error? = some .value ∧ w.status 1 = .passive ∧ r.world.status 1 = .scheduled ∧ (r.world.events.map Ev.c) = [] := by
  refine ⟨execAll 9 [.create 1 none (3 : Rat) (0 : Rat) false false false, .step, .passivate 1] World.init,
    reach_calm _ (.init fresh_init) _ (by decide +kernel), ?_⟩
  decide +kernel

end Verif
