import Verif.Frame
import Verif.Props.Reset
import Verif.Props.Remaining

/-! C68: what `scheduled_time()` and `scheduled_priority()` say. -/

namespace Verif
open World

/-- `Component.scheduled_priority()` (salabim.py:9923-9926): the event list is searched from its start; none: None -/
def scheduledPriority (w : World) (c : CId) : Option ETime := (w.events.find? (fun e => e.c == c)).map Ev.prio

/-- a component that is passive, data or current isn't scheduled for any time -/
theorem Reach.quiet {w : World} (h : Reach Calm w) (c : CId) : (w.comps c).status.quiet = true → (w.comps c).schedTime = ⊤ := by
  induction h with
  | @init w hf => obtain ⟨b, hb⟩ := hf.comps c; intro _; rw [hb]
  | @op w fuel o hr hc ih =>
    rcases exec_quiet hr.inv0 fuel o c with hw | hk
    · obtain ⟨⟨w', hx⟩, hok, hm⟩ := hc
      rw [hx]
      show (w'.status c).quiet = true → (w'.comps c).schedTime = ⊤
      cases o <;> simp only [Op.wilds, reduceCtorEq] at hw
      case request d args _ _ _ _ _ _ _ =>
        cases args with
        | nil => exact absurd rfl hok.1
        | cons a l => simp at hw
      case resume d a p u =>
        cases hw
        simp only [exec] at hx
        obtain ⟨_, hi, h1 | h1⟩ := resume_out hx
        · intro hq; rw [World.status, h1.2.2] at hq; rw [World.status] at hi; simp [hi, Status.quiet] at hq
        · intro hq; rw [World.status, h1.2.2.2] at hq; simp [Status.quiet] at hq
      case setRemaining d v p u =>
        cases hw
        simp only [exec] at hx
        obtain ⟨_, hs, h1 | h1⟩ := setRemaining_out hr.good hx
        · intro hq; rw [hs] at hq; rw [h1.2]; exact ih hq
        · intro hq; rw [hs] at hq
          obtain ⟨a1, a2, a3, a4, _⟩ := h1
          simp only at hm
          cases e : w.status c <;> simp [e, Status.quiet] at hq a1 a2 a3 a4 hm
    · intro hq
      rcases hk hq with h1 | ⟨h1, h2⟩
      · exact h1
      · rw [h2]; exact ih h1

/-- C68: a component with a pending event: `scheduled_time()` is the moment of that event, as presented, and `scheduled_priority()` the
priority of that event -/
theorem C68_pending {w : World} (h : Reach Calm w) {e : Ev} (he : e ∈ w.events) :
    scheduledTime w e.c = ((e.t - w.offset : Rat) : ETime) ∧ scheduledPriority w e.c = some e.prio := by
  refine ⟨by rw [scheduledTime, (C03_event_status h he).2]; rfl, ?_⟩
  rw [scheduledPriority]
  cases hf : w.events.find? (fun f => f.c == e.c) with
  | none => exact absurd (List.find?_eq_none.1 hf e he) (by simp)
  | some f =>
    have h1 := List.mem_of_find?_eq_some hf
    have h2 : f.c = e.c := by simpa using List.find?_some hf
    rw [List.inj_on_of_nodup_map h.good.inv.nodup h1 he h2]; rfl

/-- C68: `scheduled_priority()` is None exactly if the component has no pending event -/
theorem C68_priority_none (w : World) (c : CId) : scheduledPriority w c = none ↔ NoEvent w c := by
  rw [scheduledPriority, Option.map_eq_none_iff, List.find?_eq_none]
  simp [NoEvent]

/-- C68: unless the component is in standby or interrupted, `scheduled_time()` is inf exactly if it has no pending event -/
theorem C68_inf {w : World} (h : Reach Calm w) (c : CId) (hs : w.status c ≠ .standby) (hi : w.status c ≠ .interrupted) :
    scheduledTime w c = ⊤ ↔ NoEvent w c := by
  have htop : scheduledTime w c = ⊤ ↔ (w.comps c).schedTime = ⊤ := by
    rw [scheduledTime]
    cases hx : (w.comps c).schedTime with
    | none => exact ⟨fun _ => rfl, fun _ => rfl⟩
    | some x => constructor <;> intro hh <;> exact absurd hh WithTop.coe_ne_top
  rw [htop]
  constructor
  · intro ht e he hc
    have := (C03_event_status h he).2
    rw [hc, ht] at this
    exact WithTop.coe_ne_top this.symm
  · intro hn
    by_contra hne
    obtain ⟨t, ht⟩ := WithTop.ne_top_iff_exists.1 hne
    by_cases hq : (w.comps c).status.quiet = true
    · exact hne (h.quiet c hq)
    · have hl : w.status c = .scheduled ∨ w.status c = .requesting ∨ w.status c = .waiting := by
        rw [World.status] at hs hi ⊢
        cases e : (w.comps c).status <;> simp [e, Status.quiet] at hq hs hi ⊢
      obtain ⟨e, he, _⟩ := C03_one_event h c t hl ht.symm
      exact hn e he.1 he.2.1

/-- C68: passive, data and current components: inf and None -/
theorem C68_none {w : World} (h : Reach Calm w) (c : CId) (hs : w.status c = .passive ∨ w.status c = .data ∨ w.status c = .current) :
    scheduledTime w c = ⊤ ∧ scheduledPriority w c = none := by
  have hn : NoEvent w c := C03_no_event h c (by tauto)
  refine ⟨(C68_inf h c ?_ ?_).2 hn, (C68_priority_none w c).2 hn⟩ <;> rcases hs with hs | hs | hs <;> rw [hs] <;> decide

/-- C68: the component that becomes current by an event does so at the moment that `scheduled_time()` said -/
theorem C68_becomes {w : World} (h : Reach Calm w) (ht : TakesEvent w) (hne : w.events ≠ []) {w' : World} (hx : step w = .ok w') :
    scheduledTime w w'.current = ((presentedNow w' : Rat) : ETime) := by
  obtain ⟨e, he, h1, h2, _⟩ := C02_step_takes_first_event h.any ht hne
  rw [hx] at h1 h2
  replace h1 : w'.current = e.c := h1
  replace h2 : w'.now = e.t := h2
  rw [h1, (C68_pending h he).1, presentedNow, h2, (step_out h.good hx).offset]

/-- `Environment.peek()` (salabim.py:13104-13113) -/
def peek (w : World) : ETime :=
  if w.pending ≠ [] then w.now
  else match w.events with
    | e :: _ => e.t
    | [] => if w.endOnEmpty then w.now else ⊤

theorem heappop_head {e m : Ev} {l es : List Ev} (h : Heapq.heappop Ev.lt (e :: l) = some (m, es)) : m = e := by
  cases l <;> simp only [Heapq.heappop, Option.some.injEq, Prod.mk.injEq] at h <;> exact h.1.symm

/-- C69: if `peek()` is not inf, the next step makes a component current at that time -/
theorem C69_next {w w' : World} (h : Reach Calm w) (hs : (w.comps w.current).skipStandby = false ∨ w.pending = []) {t : Rat}
    (hp : peek w = (t : ETime)) (hx : step w = .ok w') : w'.now = t ∧ w'.status w'.current = .current := by
  refine ⟨?_, (step_out h.good hx).status⟩
  unfold peek at hp
  split at hp
  · rename_i hne
    cases hpd : w.pending with
    | nil => exact absurd hpd hne
    | cons c l =>
      have hst : w.status c = .standby := (h.good.sb.mem c (by simp [World.lined, hpd])).2
      have hsk : (w.comps w.current).skipStandby = false := hs.resolve_right (by simp [hpd])
      unfold step at hx
      rw [hsk, hpd] at hx
      simp only [Bool.false_eq_true, if_false] at hx
      rw [if_pos (show ({ w with pending := l } : World).status c = .standby from hst)] at hx
      cases hx
      exact WithTop.coe_injective hp
  · rename_i hne
    have hpd : w.pending = [] := by simpa using hne
    split at hp
    · rename_i e l he
      obtain ⟨m, hm⟩ : ∃ m, Heapq.heappop Ev.lt w.events = some m := by rw [he]; cases l <;> exact ⟨_, rfl⟩
      have h1 := stepEvent_events (w := w) hm
      have h2 : m.1 = e := heappop_head (he ▸ hm)
      have h3 : step w = stepEvent w := by unfold step; rw [hpd]; simp
      rw [← h3, hx] at h1
      rw [show w'.now = m.1.t from h1.2.2, h2]; exact WithTop.coe_injective hp
    · rename_i he
      have h3 := (step_out h.good hx).cases
      rcases h3 with h3 | ⟨e, h3, _⟩ | h3
      · split at hp
        · rw [h3.1]; exact WithTop.coe_injective hp
        · exact absurd hp.symm WithTop.coe_ne_top
      · rw [he] at h3; exact absurd h3.nil_eq (by simp)
      · split at hp
        · rw [h3.2.2.1]; exact WithTop.coe_injective hp
        · exact absurd hp.symm WithTop.coe_ne_top

/-- C69: if `peek()` is inf, there is nothing left to do: there are no events and there is nobody in standby with a turn to come; the
next step gives control to main, and the clock says inf -/
theorem C69_inf {w w' : World} (h : Reach Calm w) (hp : peek w = ⊤) (hx : step w = .ok w') :
    w.events = [] ∧ w.pending = [] ∧ w'.current = w.main ∧ w'.atInf = true := by
  unfold peek at hp
  split at hp
  · exact absurd hp WithTop.coe_ne_top
  · rename_i hne
    have hpd : w.pending = [] := by simpa using hne
    split at hp
    · exact absurd hp WithTop.coe_ne_top
    · rename_i he
      split at hp
      · exact absurd hp WithTop.coe_ne_top
      · rename_i hend
        have h3 : step w = stepEvent w := by unfold step; rw [hpd]; simp
        rw [h3] at hx
        unfold stepEvent at hx
        refine ⟨he, hpd, ?_⟩
        split at hx <;> simp only [he, Heapq.heappop] at hx <;> cases hx <;> simp [World.modC, hend]

/-- C69: nothing happens before `peek()`: it isn't before now, and no event is earlier -/
theorem C69_first {w : World} (h : Reach Calm w) : (w.now : ETime) ≤ peek w ∧ ∀ e ∈ w.events, peek w ≤ (e.t : ETime) := by
  have hge := h.good.inv.ge
  unfold peek
  split
  · exact ⟨le_refl _, fun e he => WithTop.coe_le_coe.2 (hge e he)⟩
  · split
    · rename_i e l he
      have hm : e ∈ w.events := by rw [he]; simp
      refine ⟨WithTop.coe_le_coe.2 (hge e hm), fun f hf => WithTop.coe_le_coe.2 ?_⟩
      obtain ⟨m, hm⟩ : ∃ m, Heapq.heappop Ev.lt w.events = some m := by rw [he]; cases l <;> exact ⟨_, rfl⟩
      have hspec := Heapq.heappop_spec evLaw h.inv0.heap
      rw [hm] at hspec
      have h2 : m.1 = e := heappop_head (he ▸ hm)
      have h4 := hspec.2.2 f hf
      rw [h2] at h4
      by_contra hlt
      have : Before f e := .inl (not_le.1 hlt)
      rw [← lt_iff_before, h4] at this
      cases this
    · rename_i he
      refine ⟨?_, fun e h => by rw [he] at h; cases h⟩
      split
      · exact le_refl _
      · exact le_top

/-! examples: component 1 holds till 10 and component 2 till 4 with priority 3; component 3 is to start at 9 -/

def seenOps : List Op := [.create 1 none (0 : Rat) (0 : Rat) false false false, .create 2 none (0 : Rat) (0 : Rat) false false false,
  .create 3 none (9 : Rat) (0 : Rat) false false false, .step,
  .hold 1 (some (10 : Rat)) none (0 : Rat) false false 0, .step, .hold 2 (some (4 : Rat)) none (3 : Rat) false false 0]
def seenW : World := execAll 9 seenOps World.init
theorem seenW_reach : Reach Calm seenW := reach_calm _ (.init fresh_init) _ (by decide +kernel)

example : scheduledTime seenW 2 = ((4 : Rat) : ETime) ∧ scheduledPriority seenW 2 = some ((3 : Rat) : ETime) ∧ seenW.events ≠ [] ∧
    TakesEvent seenW ∧ (step seenW).isOk = true ∧ (step seenW).world.current = 2 ∧ (step seenW).world.now = 4 ∧
    peek seenW = ((4 : Rat) : ETime) ∧ (seenW.comps seenW.current).skipStandby = false :=
  ⟨by decide +kernel, by decide +kernel, by decide +kernel, .inr (.inl (by decide +kernel)), by decide +kernel, by decide +kernel,
    by decide +kernel, by decide +kernel, by decide +kernel⟩

/-- component 2 is current at 4, component 9 is data -/
example : let w := execAll 9 [.step] seenW
    Reach Calm w ∧ w.status 2 = .current ∧ w.status 9 = .data ∧ scheduledTime w 2 = ⊤ ∧ scheduledPriority w 2 = none :=
  ⟨reach_calm _ seenW_reach _ (by decide +kernel), by decide +kernel, by decide +kernel, by decide +kernel, by decide +kernel⟩

/-- C68 for an interrupted component: it has no pending event, but `scheduled_time()` keeps saying 10, also when it is 9 and there are
still 6 to go (salabim.py:7921-7948 leaves the scheduled time as it is) -/
theorem C68_interrupted_counterexample : ∃ w : World, Reach Calm w ∧ w.status 1 = .interrupted ∧ presentedNow w = 9 ∧
    remainingDuration w 1 = ((6 : Rat) : ETime) ∧ scheduledTime w 1 = ((10 : Rat) : ETime) ∧ scheduledPriority w 1 = none :=
  ⟨execAll 9 [.step, .interrupt 1, .terminate, .step] seenW, reach_calm _ seenW_reach _ (by decide +kernel), by decide +kernel,
    by decide +kernel, by decide +kernel, by decide +kernel, by decide +kernel⟩

/-- C68 for a component in standby: `scheduled_time()` says 4, when it went into standby, although it is 9 now (salabim.py:8080) -/
theorem C68_standby_counterexample : ∃ w : World, Reach Calm w ∧ w.status 2 = .standby ∧ presentedNow w = 9 ∧
    scheduledTime w 2 = ((4 : Rat) : ETime) ∧ scheduledPriority w 2 = none :=
  ⟨execAll 9 [.step, .standby 2, .step] seenW, reach_calm _ seenW_reach _ (by decide +kernel), by decide +kernel,
    by decide +kernel, by decide +kernel, by decide +kernel⟩

/-- C69, no events left, and run was called with a duration of inf: `peek()` is inf -/
example : let w := execAll 9 [.create 1 none (0 : Rat) (0 : Rat) false false false, .runStart (some ⊤) none ⊤ false false, .step,
      .passivate 1] World.init
    Reach Calm w ∧ peek w = ⊤ ∧ (step w).isOk = true :=
  ⟨reach_calm _ (.init fresh_init) _ (by decide +kernel), by decide +kernel, by decide +kernel⟩

/-- C69 when the current component was made with `skip_standby`: `peek()` says now, 2, as component 1 is to have its turn; but the next
step is an event at 4 (salabim.py:11155 and 13104) -/
theorem C69_skip_counterexample : ∃ w : World, Reach Calm w ∧ peek w = ((2 : Rat) : ETime) ∧ (step w).isOk = true ∧ (step w).world.now = 4 :=
  ⟨execAll 20 [.create 1 none (0 : Rat) (0 : Rat) false false false, .create 2 none (1 : Rat) (0 : Rat) false false false,
    .create 3 none (2 : Rat) (0 : Rat) false false true, .create 4 none (4 : Rat) (0 : Rat) false false false,
    .runStart (some (10 : Rat)) none ⊤ false false, .step, .standby 1, .step, .passivate 2, .step, .standby 1, .step, .passivate 3]
    World.init, reach_calm _ (.init fresh_init) _ (by decide +kernel), by decide +kernel, by decide +kernel, by decide +kernel⟩

/-- C69 after `reset_now`: `peek()` is on another scale than `now()`: at 4 the clock is set to 0; the next event is at 9, 5 on the new
scale, as `now()` says when it has come; but `peek()` says 9 -/
theorem C69_reset_counterexample : ∃ w : World, Reach Calm w ∧ presentedNow w = 0 ∧ peek w = ((9 : Rat) : ETime) ∧
    (step w).isOk = true ∧ presentedNow (step w).world = 5 :=
  ⟨execAll 9 [.step, .passivate 2, .resetNow 0] seenW, reach_calm _ seenW_reach _ (by decide +kernel), by decide +kernel,
    by decide +kernel, by decide +kernel, by decide +kernel⟩

end Verif
