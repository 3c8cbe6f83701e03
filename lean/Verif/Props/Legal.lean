import Verif.Legal
import Verif.Props.Stores
import Verif.Props.GiveUp

/-!
# C63: which calls raise

In every state that a program can reach, a call raises if and only if it is one of the misuses spelled out here. In particular the
library never trips over its own bookkeeping: a component can always be taken from the event list and from the queues it waits in.
-/

namespace Verif
open World

/-- the moment `t` (none: contradictory arguments) isn't in the past, or `cap_now` is set -/
def InTime (w : World) (t : Option ETime) (cap : Bool) : Prop := ∃ T, t = some T ∧ ((w.now : ETime) ≤ T ∨ cap = true)

/-- the call returns -/
def Returns (w : World) (fuel : Nat) (o : Op) : Prop := ∃ w', exec fuel o w = .ok w'

/-- a process that calls, or a component other than main about which something is said by others -/
def CanWait (w : World) (c : CId) : Prop := w.status c = .current ∨ (w.status c ≠ .data ∧ c ≠ w.main)

/-- C63: hold raises only for a data component, if both duration and till are given, or if the moment is in the past -/
theorem C63_hold {w : World} (h : Reach Calm w) (fuel : Nat) (c : CId) (duration till : Option ETime) (prio : ETime) (urgent cap : Bool) (intr : Nat) :
    Returns w fuel (.hold c duration till prio urgent cap intr) ↔ w.status c ≠ .data ∧ InTime w (holdTime w duration till) cap := by
  constructor
  · rintro ⟨w', hw⟩
    obtain ⟨_, h1, T, h2, h3, _⟩ := hold_out h.good hw
    refine ⟨h1, T, h2, ?_⟩
    rcases lt_or_ge T (w.now : ETime) with ht | ht
    · exact .inr (h3 ht)
    · exact .inl ht
  · rintro ⟨hd, T, hT, ht⟩
    show Fine (hold c duration till prio urgent cap intr w)
    unfold hold
    have hend : ∀ w1 : World, w1.now = w.now → w1.offset = w.offset → Fine (if T < (w1.now : ETime) ∧ cap = false then .err .value w1 else
        let t := if T < (w1.now : ETime) then (w1.now : ETime) else T
        if intr ≠ 0 then
          .ok (w1.modC c (fun x => { x with
            remaining := ETime.subQ t w1.now, intrStatus := .scheduled, intrLevel := intr, status := .interrupted }))
        else reschedule c t prio urgent cap none (setStatus c .scheduled w1)) := by
      intro w1 h1 h2
      rw [if_neg]
      · simp only
        split
        · exact .ok _
        · refine reschedule_fine.2 (.inl ?_)
          show (w1.now : ETime) ≤ _
          split
          · exact le_refl _
          · exact not_lt.1 ‹_›
      · rintro ⟨k1, k2⟩
        rcases ht with ht | ht
        · rw [h1] at k1; exact absurd k1 (not_lt.2 ht)
        · rw [ht] at k2; cases k2
    have hend2 : ∀ w1 : World, w1.now = w.now → w1.offset = w.offset → Fine ((fun w => match (match till, duration with
        | none, none => some (w.now : ETime)
        | none, some d => some ((w.now : ETime) + d)
        | some t, none => some (t + (w.offset : ETime))
        | some _, some _ => none) with
      | none => .err .value w
      | some t =>
        if t < (w.now : ETime) ∧ cap = false then .err .value w else
        let t := if t < (w.now : ETime) then (w.now : ETime) else t
        if intr ≠ 0 then
          .ok (w.modC c (fun x => { x with
            remaining := ETime.subQ t w.now, intrStatus := .scheduled, intrLevel := intr, status := .interrupted }))
        else reschedule c t prio urgent cap none (setStatus c .scheduled w)) w1) := by
      intro w1 h1 h2
      have := hend w1 h1 h2
      cases till <;> cases duration <;> simp only [holdTime, Option.some.injEq, reduceCtorEq] at hT <;> subst hT <;>
        first | (rw [← h1] at this; exact this) | (rw [← h2] at this; exact this)
    split
    · exact hend2 w rfl rfl
    · refine (notData_fine h.ready hd).all fun w1 h1 => ?_
      have s := (start_notData h.good h1).1
      exact hend2 w1 s.now s.offset

/-- C63: passivate raises only for a data component -/
theorem C63_passivate {w : World} (h : Reach Calm w) (fuel : Nat) (c : CId) : Returns w fuel (.passivate c) ↔ w.status c ≠ .data := by
  constructor
  · rintro ⟨w', hw⟩ hd
    simp only [exec, passivate] at hw
    obtain ⟨w1, h1, _⟩ := andThen_ok hw
    rw [if_neg (by rw [hd]; simp)] at h1
    obtain ⟨w1, h1, _⟩ := andThen_ok h1
    exact (start_notData h.good h1).2 hd
  · intro hd
    show Fine (passivate c w)
    unfold passivate
    split
    · exact .ok _
    · refine Fine.all ?_ fun _ _ => .ok _
      exact (notData_fine h.ready hd).all fun _ _ => .ok _

/-- C63: activate raises only if a process has to be started that isn't there, or if the moment is in the past -/
theorem C63_activate {w : World} (h : Reach Calm w) (fuel : Nat) (c : CId) (at_ : Option ETime) (delay prio : ETime)
    (urgent cap proc keepReq keepWait : Bool) :
    Returns w fuel (.activate c at_ delay prio urgent cap proc keepReq keepWait) ↔
      ((proc = true ∨ w.status c = .data) → (w.comps c).hasProcess = true) ∧ InTime w (some (atTime w at_ delay)) cap := by
  have hat : ∀ w1 : World, w1.now = w.now → w1.offset = w.offset → atTime w1 at_ delay = atTime w at_ delay := by
    intro w1 h1 h2; unfold atTime; rw [h1, h2]
  have hpre : ∀ w1, (if w.status c = .current then R.ok w else remove c w ⊳ fun w' =>
      if !(proc || decide (w.status c = .data)) && (keepReq || keepWait) then .ok w' else checkFail c w') = .ok w1 → w1.now = w.now ∧ w1.offset = w.offset := by
    intro w1 h1
    split at h1
    · cases h1; exact ⟨rfl, rfl⟩
    · obtain ⟨w2, h2, h3⟩ := andThen_ok h1
      split at h3
      · cases h3
        obtain ⟨w2', k, r⟩ := remove_removed h.good.inv c
        rw [h2] at k; cases k
        exact ⟨r.now, r.offset⟩
      · have s := start_removeFail h.good (show (remove c w ⊳ checkFail c) = .ok w1 by rw [h2]; exact h3)
        exact ⟨s.now, s.offset⟩
  constructor
  · rintro ⟨w', hw⟩
    simp only [exec, activate] at hw
    split at hw
    · cases hw
    · rename_i hp
      refine ⟨fun hs => ?_, _, rfl, ?_⟩
      · by_contra hh
        exact hp (by rcases hs with hs | hs <;> simp [hs, hh])
      · obtain ⟨w1, h1, h2⟩ := andThen_ok hw
        obtain ⟨hn, ho⟩ := hpre w1 h1
        have := reschedule_fine.1 ⟨_, h2⟩
        rw [← hn, ← hat w1 hn ho]
        cases at_ <;> exact this
  · rintro ⟨hp, T, hT, ht⟩
    cases hT
    show Fine (activate c at_ delay prio urgent cap proc keepReq keepWait w)
    unfold activate
    simp only
    rw [if_neg]
    · refine Fine.all ?_ fun w1 h1 => ?_
      · split
        · exact .ok _
        · obtain ⟨w1, h1⟩ := removeFail_fine h.ready c
          obtain ⟨w2, h2, h3⟩ := andThen_ok h1
          refine Fine.andThen ⟨w2, h2, ?_⟩
          split
          · exact .ok _
          · exact ⟨w1, h3⟩
      · obtain ⟨hn, ho⟩ := hpre w1 h1
        refine reschedule_fine.2 ?_
        rw [← hn, ← hat w1 hn ho] at ht
        cases at_ <;> exact ht
    · simp only [Bool.and_eq_true, Bool.or_eq_true, decide_eq_true_eq, Bool.not_eq_true', not_and, Bool.not_eq_false]
      exact hp

/-- C63: creating a component raises only if the moment is in the past -/
theorem C63_create {w : World} (fuel : Nat) {c : CId} (hc : w.status c = .data ∧ (w.comps c).onList = false)
    (at_ : Option ETime) (delay prio : ETime) (urgent cap skip : Bool) :
    Returns w fuel (.create c at_ delay prio urgent cap skip) ↔ InTime w (some (atTime w at_ delay)) cap := by
  show Fine (create c at_ delay prio urgent cap skip w) ↔ _
  unfold create
  rw [if_neg (by simp [hc.1, hc.2])]
  rw [reschedule_fine]
  cases at_ <;> exact ⟨fun h => ⟨_, rfl, h⟩, fun ⟨T, h1, h2⟩ => by cases h1; exact h2⟩

/-- C63: interrupt raises unless the component is scheduled or interrupted -/
theorem C63_interrupt {w : World} (h : Reach Calm w) (fuel : Nat) (c : CId) :
    Returns w fuel (.interrupt c) ↔ w.status c = .scheduled ∨ w.status c = .interrupted := by
  show Fine (interrupt c w) ↔ _
  unfold interrupt
  split
  · exact ⟨fun _ => .inr ‹_›, fun _ => .ok _⟩
  · split
    · exact ⟨fun _ => .inl ‹_›, fun _ => (remove_fine h.good.inv c).all fun _ _ => .ok _⟩
    · refine ⟨fun ⟨_, h⟩ => ?_, fun h => ?_⟩
      · cases h
      · rcases h with h | h <;> contradiction

/-- C63: resume raises unless the component is interrupted and, if this ends the interrupt, its remaining duration isn't negative -/
theorem C63_resume {w : World} (h : Reach Calm w) (fuel : Nat) (c : CId) (all : Bool) (prio : ETime) (urgent : Bool) :
    Returns w fuel (.resume c all prio urgent) ↔
      w.status c = .interrupted ∧ (all = true ∨ (w.comps c).intrLevel = 1 → (0 : Rat) ≤ (w.comps c).remaining) := by
  show Fine (resume c all prio urgent w) ↔ _
  unfold resume
  split
  · rename_i hs
    simp only [hs, true_and]
    have hI := h.intr hs
    have hl : ((w.modC c (fun x => { x with intrLevel := x.intrLevel - 1 })).comps c).intrLevel = (w.comps c).intrLevel - 1 := by rw [modC_self]
    have hi : ((w.modC c (fun x => { x with intrLevel := x.intrLevel - 1 })).comps c).intrStatus = .scheduled := by rw [modC_self]; exact hI
    rw [hi, hl]
    have hrem : (∀ v : ETime, (w.now : ETime) ≤ (w.now : ETime) + v ↔ ((0 : Rat) : ETime) ≤ v) := by
      intro v
      induction v using WithTop.recTopCoe with
      | top => simp
      | coe v =>
        rw [← WithTop.coe_add, WithTop.coe_le_coe, WithTop.coe_le_coe]
        exact ⟨fun h => by linarith, fun h => by linarith⟩
    split
    · rename_i hlev
      refine ⟨fun _ hh => ?_, fun _ => .ok _⟩
      rcases hh with hh | hh
      · rw [hlev.2] at hh; cases hh
      · exact absurd (by omega) hlev.1
    · rename_i hlev
      rw [if_pos (by simp [setStatus, World.status, World.modC])]
      rw [reschedule_fine]
      have h1 : (setStatus c .scheduled (w.modC c (fun x => { x with intrLevel := x.intrLevel - 1 }))).now = w.now := rfl
      have h2 : ((setStatus c .scheduled (w.modC c (fun x => { x with intrLevel := x.intrLevel - 1 }))).comps c).remaining = (w.comps c).remaining := by
        simp [setStatus, World.modC]
      rw [h1, h2, hrem]
      simp only [Bool.false_eq_true, or_false]
      refine ⟨fun h _ => h, fun h => h ?_⟩
      by_cases ha : all = true
      · exact .inl ha
      · right
        rw [not_and] at hlev
        by_contra hn
        exact hlev (by omega) (by simpa using ha)
  · rename_i hs
    refine ⟨fun ⟨_, h⟩ => ?_, fun h => absurd h.1 hs⟩
    cases h

/-- C63: standby raises only for a data component, and for main unless main itself is running -/
theorem C63_standby {w : World} (h : Reach Calm w) (fuel : Nat) (c : CId) : Returns w fuel (.standby c) ↔ CanWait w c := by
  constructor
  · rintro ⟨w', hw⟩
    simp only [exec, standby] at hw
    obtain ⟨w1, h1, _⟩ := andThen_ok hw
    exact preamble_of h1
  · intro hc
    exact (preamble_fine h.ready hc).all fun _ _ => .ok _

/-- C63: remaining_duration(v) raises for a component that is running or in standby, and for a negative duration, unless the
component is passive or interrupted -/
theorem C63_remaining {w : World} (h : Reach Calm w) (fuel : Nat) (c : CId) (v prio : ETime) (urgent : Bool) :
    Returns w fuel (.setRemaining c v prio urgent) ↔ w.status c = .passive ∨ w.status c = .interrupted ∨
      (w.status c ≠ .current ∧ w.status c ≠ .standby ∧ (0 : Rat) ≤ v) := by
  show Fine (setRemaining c v prio urgent w) ↔ _
  unfold setRemaining
  split
  · rename_i hs
    exact ⟨fun _ => by rcases hs with hs | hs <;> simp [hs], fun _ => .ok _⟩
  · rename_i hs
    push Not at hs
    split
    · rename_i hs2
      refine ⟨fun ⟨_, h⟩ => ?_, fun hh => ?_⟩
      · cases h
      · rcases hh with hh | hh | hh
        · exact absurd hh hs.1
        · exact absurd hh hs.2
        · rcases hs2 with hs2 | hs2
          · exact absurd hs2 hh.1
          · exact absurd hs2 hh.2.1
    · rename_i hs2
      push Not at hs2
      obtain ⟨w1, h1, r⟩ := remove_removed h.good.inv c
      rw [h1]
      simp only [R.andThen]
      rw [reschedule_fine, r.now]
      have : (w.now : ETime) ≤ v + (w.now : ETime) ↔ ((0 : Rat) : ETime) ≤ v := by
        induction v using WithTop.recTopCoe with
        | top => simp
        | coe v =>
          rw [← WithTop.coe_add, WithTop.coe_le_coe, WithTop.coe_le_coe]
          exact ⟨fun h => by linarith, fun h => by linarith⟩
      rw [this]
      simp [hs.1, hs.2, hs2.1, hs2.2]

/-- C63: run raises only if both duration and till are given, or if the moment is in the past -/
theorem C63_run {w : World} (fuel : Nat) (duration till : Option ETime) (prio : ETime) (urgent cap : Bool) :
    Returns w fuel (.runStart duration till prio urgent cap) ↔ (duration = none ∧ till = none) ∨ InTime w (holdTime w duration till) cap := by
  show Fine (runStart duration till prio urgent cap w) ↔ _
  unfold runStart
  cases till <;> cases duration <;> simp only [holdTime, reduceCtorEq, and_self, and_true, and_false, false_and, true_or, false_or, iff_true]
  · exact reschedule_fine.2 (.inl le_top)
  · rw [reschedule_fine]; exact ⟨fun h => ⟨_, rfl, h⟩, fun ⟨T, h1, h2⟩ => by cases h1; exact h2⟩
  · rw [reschedule_fine]; exact ⟨fun h => ⟨_, rfl, h⟩, fun ⟨T, h1, h2⟩ => by cases h1; exact h2⟩
  · exact ⟨fun ⟨_, h⟩ => by (cases h), fun ⟨T, h1, h2⟩ => by cases h1⟩

/-- C63: the scheduler always can take its next step: `step` never raises by itself -/
theorem C63_step {w : World} (h : Reach Calm w) (fuel : Nat) : Returns w fuel .step := by
  have hev : ∀ w1 : World, Ready w1 → Fine (stepEvent w1) := by
    intro w1 h1
    unfold stepEvent
    simp only
    generalize hw2 : (if w1.standby = [] then w1 else { w1 with pending := w1.standby, standby := [] } : World) = w2
    have k : w2.comps = w1.comps ∧ w2.queues = w1.queues ∧ w2.states = w1.states ∧ w2.res = w1.res := by
      rw [← hw2]; split <;> exact ⟨rfl, rfl, rfl, rfl⟩
    obtain ⟨k1, k2, k3, k4⟩ := k
    split
    · rename_i e es _
      split
      · exact .ok _
      · have S := enr_base ∅ ∅
        refine checkFail_fine (F := ∅) (T := ∅) ?_ ?_ (by simp) (by simp)
        · rw [rv_modC _ _ (by intro _; rfl)]
          have : ({ w2 with events := es, now := e.t, current := e.c } : World).rv = w1.rv := by
            unfold World.rv
            simp only [k1, k2, k4]
          rw [this]; exact h1.coh
        · refine Enr.modC (w := { w2 with events := es, now := e.t, current := e.c }) (S.frame h1.enr ?_ ?_ ?_) e.c
          · exact k1
          · exact k2
          · exact k3
    · exact .ok _
  show Fine (step w)
  unfold step
  split
  · exact hev w h.ready
  · split
    · exact hev w h.ready
    · rename_i c rest hp
      simp only
      split
      · exact .ok _
      · rename_i hst
        exfalso
        have := h.good.sb.mem c (by simp [World.lined, hp])
        exact hst this.2

/-- C63: set, reset and trigger of a state never raise by themselves -/
theorem C63_state {w : World} (h : Reach Calm w) (fuel : Nat) (s : SId) (v : Val) (after : Option Val) (max : Option Int) :
    Returns w fuel (.stateSet s v) ∧ Returns w fuel (.stateTrigger s v after max) := by
  have hs : ∀ (w1 : World) (v : Val), w1.Inv → (w1.setState s v).Inv := fun w1 v h => inv_of_ev rfl h
  constructor
  · show Fine (stateSet s v w)
    unfold stateSet
    split
    · exact .ok _
    · exact stateTryWait_fine _ _ (hs _ _ h.good.inv)
  · show Fine (stateTrigger s v after max w)
    unfold stateTrigger
    simp only
    refine (stateTryWait_fine _ _ (hs _ _ h.good.inv)).all fun w1 h1 => ?_
    refine stateTryWait_fine _ _ (hs _ _ ?_)
    have := (wk_stateTryWait (w.setState s v |>.inQ (.waiters s)) max (w.setState s v)).inv (hs _ _ h.good.inv)
    rw [h1] at this; exact this

/-- C63: wait returns if there is something to wait for and the moment it is to fail isn't in the past -/
theorem C63_wait {w : World} (h : Reach Calm w) (fuel : Nat) {c : CId} (hc : CanWait w c) {args : List WArg} (hne : args ≠ []) (all : Bool)
    {failAt failDelay : Option ETime} {prio : ETime} {urgent cap : Bool} (ht : InTime w (limitTime w failAt failDelay) cap) :
    Returns w fuel (.wait c args all failAt failDelay prio urgent cap) := by
  obtain ⟨T, hT, ht⟩ := ht
  show Fine (wait c args all failAt failDelay prio urgent cap w)
  unfold wait
  have S := enr_base ∅ ∅
  have r0 : Ready (w.modC c (fun x => { x with cond := none })) := by
    refine ⟨h.good.modC' (fun _ => rfl) (fun _ => rfl) (fun _ => rfl) (fun _ => rfl) (fun _ => rfl), ?_, h.enr.modC c, h.wide⟩
    rw [rv_modC _ _ (by intro _; rfl)]; exact h.coh
  have hc0 : CanWait (w.modC c (fun x => { x with cond := none })) c := by
    unfold CanWait World.status
    rw [modC_self]; exact hc
  refine (preamble_fine r0 hc0).all fun w1 h1 => ?_
  have s1 := (start_preamble r0.good (by simp) h1).1
  have hw1 : Wide w1 := (bs_preamble wide_base r0.wide c).to h1
  simp only
  have hT1 : failTime (w1.modC c (fun x => { x with waitAll := all, failed := false })) failAt failDelay = some T := by
    rw [failTime_limit, ← hT]
    have a1 : w1.now = w.now := s1.now
    have a2 : w1.offset = w.offset := s1.offset
    cases failAt <;> cases failDelay <;> simp [limitTime, World.modC, a1, a2]
  rw [hT1]
  simp only
  have y1 : Waity c w.now w1 := s1.waity hw1
  have y2 : Waity c w.now (w1.modC c (fun x => { x with waitAll := all, failed := false })) := by
    refine ⟨fun s hs => ?_, y1.wide, inv_of_ev (by exact ev_modC fun _ => rfl) y1.inv, y1.now, by rw [modC_self]; exact y1.off⟩
    rw [modC_self]; exact y1.rel s hs
  obtain ⟨w2, h2, y3, hne2⟩ := y2.args args
  exact Fine.andThen ⟨w2, h2, y3.done (hne2 hne) ht⟩

/-- C63: so does wait_for, if every state is given once -/
theorem C63_waitFor {w : World} (h : Reach Calm w) (fuel : Nat) {c : CId} (hc : CanWait w c) (cond : (SId → Val) → Bool) {ss : List SId}
    (hne : ss ≠ []) (hnd : ss.Nodup) {failAt failDelay : Option ETime} {prio : Rat} {urgent cap : Bool}
    (ht : InTime w (limitTime w failAt failDelay) cap) : Returns w fuel (.waitFor c cond ss failAt failDelay prio urgent cap) := by
  obtain ⟨T, hT, ht⟩ := ht
  show Fine (waitFor c cond ss failAt failDelay prio urgent cap w)
  unfold waitFor
  refine (preamble_fine h.ready hc).all fun w1 h1 => ?_
  have s1 := (start_preamble h.good (by simp) h1).1
  have hw1 : Wide w1 := (bs_preamble wide_base h.wide c).to h1
  simp only
  have hT1 : failTime (w1.modC c (fun x => { x with failed := false })) failAt failDelay = some T := by
    rw [failTime_limit, ← hT]
    have a1 : w1.now = w.now := s1.now
    have a2 : w1.offset = w.offset := s1.offset
    cases failAt <;> cases failDelay <;> simp [limitTime, World.modC, a1, a2]
  rw [hT1]
  simp only
  have y1 : Waity c w.now w1 := s1.waity hw1
  have y2 : Waity c w.now ((w1.modC c (fun x => { x with failed := false })).modC c (fun x => { x with cond := some cond })) := by
    refine ⟨fun s hs => ?_, y1.wide, inv_of_ev (by exact ev_modC fun _ => rfl) (inv_of_ev (by exact ev_modC fun _ => rfl) y1.inv), y1.now,
      by rw [modC_self, modC_self]; exact y1.off⟩
    rw [modC_self, modC_self]; exact y1.rel s hs
  have hno : ∀ s ∈ ss, c ∉ ((w1.modC c (fun x => { x with failed := false })).modC c (fun x => { x with cond := some cond })).inQ (.waiters s) :=
    fun s _ hs => s1.nowait.awaits (q := .waiters s) rfl (s1.good.coh (.waiters s) c hs)
  obtain ⟨w2, h2, y3, hlen⟩ := Waity.state (p := prio) ss hnd hno y2
  refine Fine.andThen ⟨w2, h2, y3.done ?_ ht⟩
  intro h0
  rw [h0] at hlen
  have := List.length_pos_of_ne_nil hne
  simp only [List.length_nil] at hlen
  omega

theorem enters_fine {c : CId} {K : StId → QRef} (hK : Function.Injective K) {rp : Rat} : ∀ (l : List StId) {w : World}, l.Nodup →
    (∀ s ∈ l, c ∉ w.inQ (K s) ∧ (w.queues (K s)).cap = ⊤) → ∃ w', forR l (fun s => enterSortedQ c (K s) rp) w = .ok w' ∧ w'.now = w.now
  | [], w, _, _ => ⟨w, rfl, rfl⟩
  | s :: t, w, hl, h => by
    rw [List.nodup_cons] at hl
    obtain ⟨⟨q', h1⟩, _⟩ := enter_fine (n := w.now) (p := rp) (h s List.mem_cons_self).1 (h s List.mem_cons_self).2
    have h2 : enterSortedQ c (K s) rp w = .ok (w.modQ (K s) (fun _ => q')) := by unfold enterSortedQ onQueue; simp only [h1]
    obtain ⟨w', h3, h4⟩ := enters_fine hK t (w := w.modQ (K s) (fun _ => q')) (rp := rp) hl.2 (fun x hx => by
      have hne : K x ≠ K s := fun he => hl.1 (hK he ▸ hx)
      rw [inQ_modQ', if_neg hne, modQ_queues_other hne]
      exact h x (List.mem_cons_of_mem _ hx))
    exact ⟨w', by unfold forR; rw [h2]; exact h3, h4⟩

theorem searchStore_none {f : CId → Bool} {k} : ∀ {l : List CId}, (∀ i ∈ l, f i = false) → searchStore f k l none = none
  | [], _ => rfl
  | c :: t, h => by
    unfold searchStore
    rw [h c List.mem_cons_self]
    exact searchStore_none fun i hi => h i (List.mem_cons_of_mem _ hi)

theorem search_nothing {w : World} {f : CId → Bool} {k} : ∀ {ss : List StId} {s0 : StId}, (∀ s ∈ ss, ∀ i ∈ conts w s, f i = false) →
    (searchStores w f k ss none s0).1 = none
  | [], _, _ => rfl
  | s :: t, s0, h => by
    unfold searchStores
    have h0 : searchStore f k (w.inQ (.store s)) none = none := searchStore_none (h s List.mem_cons_self)
    simp only [h0]
    rw [if_neg (by simp)]
    exact search_nothing fun x hx => h x (List.mem_cons_of_mem _ hx)

/-- nobody is waiting for this item in store `s` -/
def Free (w : World) (s : StId) (i : CId) : Prop := ∀ d ∈ w.inQ (.fromReq s), (w.comps d).fromFilter i = false

theorem limit_same {w w1 : World} (h1 : w1.now = w.now) (h2 : w1.offset = w.offset) (fa fd : Option ETime) : limitTime w1 fa fd = limitTime w fa fd := by
  cases fa <;> cases fd <;> simp [limitTime, h1, h2]

/-- C63: from_store returns if nothing acceptable is there (and the component has to wait) -/
theorem C63_fromStore_wait {w : World} (h : Reach Calm w) (fuel : Nat) {c : CId} (hc : CanWait w c) {ss : List StId} (hne : ss ≠ []) (hnd : ss.Nodup)
    {filter : CId → Bool} {key : Option (CId → Rat)} {rprio : Rat} {failAt failDelay : Option ETime} {prio : ETime} {urgent cap : Bool}
    (ht : InTime w (limitTime w failAt failDelay) cap) (hno : ∀ s ∈ ss, ∀ i ∈ conts w s, filter i = false) :
    Returns w fuel (.fromStore c ss filter key rprio failAt failDelay prio urgent cap) := by
  obtain ⟨T, hT, ht⟩ := ht
  show Fine (fromStore fuel c ss filter key rprio failAt failDelay prio urgent cap w)
  unfold fromStore
  rw [if_neg (by simp [hne, hnd])]
  refine (preamble_fine h.ready hc).all fun w1 h1 => ?_
  have s1 := (start_preamble h.good (by simp) h1).1
  have b := begun_of h.good h1
  have hw1 : Wide w1 := (bs_preamble wide_base h.wide c).to h1
  rw [failTime_limit, limit_same s1.now s1.offset, hT]
  simp only
  have hn := search_nothing (w := w1.modC c (fun x => { x with failed := false })) (k := key) (s0 := ss.headD 0) (f := filter) (ss := ss) (by rw [b.conts]; exact hno)
  split
  · rename_i hs; rw [hs] at hn; cases hn
  · have hn2 : ∀ s ∈ ss, c ∉ ((w1.modC c (fun x => { x with failed := false })).modC c (fun x => { x with fromStores := ss })).inQ (.fromReq s) ∧
        (((w1.modC c (fun x => { x with failed := false })).modC c (fun x => { x with fromStores := ss })).queues (.fromReq s)).cap = ⊤ :=
      fun s _ => ⟨b.notin (q := .fromReq s) rfl, hw1 (.fromReq s) rfl⟩
    obtain ⟨w2, h2, h3⟩ := enters_fine (K := fun s => .fromReq s) (fun _ _ h => by cases h; rfl) (rp := rprio) ss hnd hn2
    refine Fine.andThen ⟨w2, h2, reschedule_fine.2 ?_⟩
    show (w2.now : ETime) ≤ _ ∨ _
    rw [h3]
    show (w1.now : ETime) ≤ _ ∨ _
    rw [s1.now]; exact ht

/-- C63: from_store without a key returns if nobody is waiting to put something into the stores -/
theorem C63_fromStore_take {w : World} (h : Reach Calm w) (fuel : Nat) {c : CId} (hc : CanWait w c) {ss : List StId} (hne : ss ≠ []) (hnd : ss.Nodup)
    {filter : CId → Bool} {rprio : Rat} {failAt failDelay : Option ETime} {prio : ETime} {urgent cap : Bool}
    (ht : InTime w (limitTime w failAt failDelay) cap) (hno : ∀ s ∈ ss, w.inQ (.toReq s) = []) :
    Returns w (fuel + 1) (.fromStore c ss filter none rprio failAt failDelay prio urgent cap) := by
  by_cases hm : ∀ s ∈ ss, ∀ i ∈ conts w s, filter i = false
  · exact C63_fromStore_wait h _ hc hne hnd ht hm
  · obtain ⟨T, hT, ht⟩ := ht
    show Fine (fromStore (fuel + 1) c ss filter none rprio failAt failDelay prio urgent cap w)
    unfold fromStore
    rw [if_neg (by simp [hne, hnd])]
    refine (preamble_fine h.ready hc).all fun w1 h1 => ?_
    have s1 := (start_preamble h.good (by simp) h1).1
    have b := begun_of h.good h1
    have hw1 : Wide w1 := (bs_preamble wide_base h.wide c).to h1
    rw [failTime_limit, limit_same s1.now s1.offset, hT]
    simp only
    generalize hw2 : w1.modC c (fun x => { x with failed := false }) = w2 at b
    have hnow : w2.now = w.now := b.now
    split
    · rename_i i s hs
      obtain ⟨l1, l2, a, d, hss, _, hcs, _⟩ := searchStores_nokey w2 filter ss _ hs
      obtain ⟨w3, h3, h4⟩ := leaveQ_fine (c := i) (q := .store s) (w := w2) (by show i ∈ conts w2 s; rw [hcs]; simp)
      have hh : headQ w3 (.toReq s) = none := by
        have h5 := h4 (.toReq s) (by simp)
        have h6 : w2.inQ (.toReq s) = [] := List.sublist_nil.1 (hno s (by rw [hss]; simp) ▸ b.sub (.toReq s))
        rw [h6] at h5
        unfold headQ
        rw [List.map_eq_nil_iff.1 h5]; rfl
      have hl : storeLeave (fuel + 1) i s w2 = .ok w3 := by
        rw [storeLeave, h3]
        simp only [R.andThen]
        split
        · rw [hh]
        · rfl
      refine Fine.andThen ⟨w3, hl, wake_fine ?_ _ _⟩
      refine inv_of_ev (ev_modC (by intro _; rfl)) ?_
      have := (fr_leaveQ i (.store s) w2).inv b.good.inv
      rw [h3] at this; exact this
    · subst hw2
      have hn2 : ∀ s ∈ ss, c ∉ ((w1.modC c (fun x => { x with failed := false })).modC c (fun x => { x with fromStores := ss })).inQ (.fromReq s) ∧
          (((w1.modC c (fun x => { x with failed := false })).modC c (fun x => { x with fromStores := ss })).queues (.fromReq s)).cap = ⊤ :=
        fun s _ => ⟨b.notin (q := .fromReq s) rfl, hw1 (.fromReq s) rfl⟩
      obtain ⟨w2, h2, h3⟩ := enters_fine (K := fun s => .fromReq s) (fun _ _ h => by cases h; rfl) (rp := rprio) ss hnd hn2
      refine Fine.andThen ⟨w2, h2, reschedule_fine.2 ?_⟩
      show (w2.now : ETime) ≤ _ ∨ _
      rw [h3]
      show (w1.now : ETime) ≤ _ ∨ _
      rw [s1.now]; exact ht

/-- C63: to_store returns if the capacities are whole numbers and the item is neither in one of the stores nor wanted there -/
theorem C63_toStore {w : World} (h : Reach Calm w) (fuel : Nat) {c : CId} (hc : CanWait w c) {ss : List StId} (hne : ss ≠ []) (hnd : ss.Nodup)
    {item : CId} {rprio sprio : Rat} {failAt failDelay : Option ETime} {prio : ETime} {urgent cap : Bool}
    (ht : InTime w (limitTime w failAt failDelay) cap) (hwhole : ∀ s ∈ ss, caps w s = ⊤ ∨ ∃ n : Nat, caps w s = ((n : Rat) : ETime))
    (hnew : ∀ s ∈ ss, item ∉ conts w s) (hfree : ∀ s ∈ ss, Free w s item) :
    Returns w (fuel + 1) (.toStore c ss item rprio sprio failAt failDelay prio urgent cap) := by
  obtain ⟨T, hT, ht⟩ := ht
  show Fine (toStore (fuel + 1) c ss item rprio sprio failAt failDelay prio urgent cap w)
  unfold toStore
  rw [if_neg (by simp [hne, hnd])]
  refine (preamble_fine h.ready hc).all fun w1 h1 => ?_
  have s1 := (start_preamble h.good (by simp) h1).1
  have b := begun_of h.good h1
  have hw0 : Wide w1 := (bs_preamble wide_base h.wide c).to h1
  have hw1 : Wide (w1.modC c (fun x => { x with failed := false })) := hw0
  rw [failTime_limit, limit_same s1.now s1.offset, hT]
  simp only
  generalize w1.modC c (fun x => { x with failed := false }) = w2 at b hw1
  split
  · rename_i s hs
    have hms := List.mem_of_find?_eq_some hs
    have hroom := roomIn_iff.1 (List.find?_some hs)
    have hcap : (w2.queues (.store s)).cap = caps w s := congrFun b.caps s
    have hcont : w2.inQ (.store s) = conts w s := congrFun b.conts s
    have hR : Queue.Room (w2.queues (.store s)) := by
      unfold Queue.Room
      unfold HasRoom at hroom
      rw [hcap] at hroom ⊢
      have hlen : (w2.queues (.store s)).mem.length = (w2.inQ (.store s)).length := by simp [World.inQ]
      rw [hlen]
      rcases hwhole s hms with h0 | ⟨n, hn⟩
      · rw [h0]; exact le_top
      · rw [hn, WithTop.coe_lt_coe, Nat.cast_lt] at hroom
        rw [hn, WithTop.coe_le_coe, Nat.cast_le]; exact hroom
    have hent : ∃ q', (w2.queues (.store s)).enterSorted w2.now item sprio = .ok q' := by
      unfold Queue.enterSorted Queue.insert
      rw [if_neg, if_neg]
      · exact ⟨_, rfl⟩
      · rwa [Queue.room_iff] at hR
      · intro hh
        obtain ⟨m, hm, hmc⟩ := (Queue.has_iff _ _).1 hh
        refine hnew s hms ?_
        rw [← hcont]; exact List.mem_map.2 ⟨m, hm, hmc⟩
    obtain ⟨q', hq'⟩ := hent
    have h2 : onQueue (.store s) (fun x => x.enterSorted w2.now item sprio) w2 = .ok (w2.modQ (.store s) (fun _ => q')) := by
      unfold onQueue; simp only [hq']
    have hfind : (((w2.modQ (.store s) (fun _ => q')).queues (.fromReq s)).mem.find? (fun m => ((w2.modQ (.store s) (fun _ => q')).comps m.c).fromFilter item)) = none := by
      rw [modQ_queues_other (by simp), List.find?_eq_none]
      intro m hm
      have hmem : m.c ∈ w2.inQ (.fromReq s) := List.mem_map.2 ⟨m, hm, rfl⟩
      have hmc : m.c ≠ c := fun he => b.notin (q := .fromReq s) rfl (he ▸ hmem)
      show ¬ (w2.comps m.c).fromFilter item = true
      rw [b.other _ hmc, hfree s hms m.c ((b.sub (.fromReq s)).subset hmem)]
      simp
    have h3 : storeEnter (fuel + 1) item s (some sprio) w2 = .ok (w2.modQ (.store s) (fun _ => q')) := by
      rw [storeEnter]
      simp only [h2, R.andThen, hfind]
    refine Fine.andThen ⟨_, h3, wake_fine ?_ _ _⟩
    exact inv_of_ev (ev_modC (by intro _; rfl)) (inv_of_ev rfl b.good.inv)
  · have hn2 : ∀ s ∈ ss, c ∉ w2.inQ (.toReq s) ∧ (w2.queues (.toReq s)).cap = ⊤ := fun s _ => ⟨b.notin (q := .toReq s) rfl, hw1 (.toReq s) rfl⟩
    obtain ⟨w3, h2, h3⟩ := enters_fine (K := fun s => .toReq s) (fun _ _ h => by cases h; rfl) (rp := rprio) ss hnd hn2
    refine Fine.andThen ⟨w3, h2, reschedule_fine.2 ?_⟩
    show (w3.now : ETime) ≤ _ ∨ _
    rw [h3, b.now]; exact ht

/-- C63: cancelling or ending a component that claims nothing never raises -/
theorem C63_end {w : World} (h : Reach Calm w) (fuel : Nat) :
    (∀ c, (w.comps c).claims = [] → Returns w fuel (.cancel c)) ∧ ((w.comps w.current).claims = [] → Returns w fuel .terminate) := by
  constructor
  · intro c hc
    show Fine (cancel fuel c w)
    unfold cancel
    split
    · exact .ok _
    · rename_i hd
      refine Fine.all ?_ fun _ _ => .ok _
      split
      · show Fine (releaseAll fuel c w)
        unfold releaseAll; rw [hc]; exact .ok _
      · refine (notData_fine h.ready hd).all fun w1 h1 => ?_
        have s1 := (start_notData h.good h1).1
        unfold releaseAll; rw [s1.claims, hc]; exact .ok _
  · intro hc
    show Fine (terminate fuel w.current w)
    unfold terminate
    refine Fine.all ?_ fun _ _ => .ok _
    unfold releaseAll; rw [hc]; exact .ok _

/-! examples: the components of `laneW` that wait for a resource; those of `depotW` that wait at stores -/

example : laneW.status 3 = .requesting ∧ Returns laneW 20 (.hold 3 (some (2 : Rat)) none (0 : Rat) false false 0) ∧
    ¬ Returns laneW 20 (.hold 3 (some (-1 : Rat)) none (0 : Rat) false false 0) ∧ Returns laneW 20 (.hold 3 (some (-1 : Rat)) none (0 : Rat) false true 0) ∧
    ¬ Returns laneW 20 (.hold 9 (some (2 : Rat)) none (0 : Rat) false false 0) := by
  refine ⟨by decide +kernel, (C63_hold laneW_reach ..).2 ⟨by decide +kernel, _, rfl, .inl (by decide +kernel)⟩, fun h => ?_,
    (C63_hold laneW_reach ..).2 ⟨by decide +kernel, _, rfl, .inr rfl⟩, fun h => ?_⟩
  · obtain ⟨_, T, hT, ht⟩ := (C63_hold laneW_reach ..).1 h
    cases hT
    exact absurd ht (by decide +kernel)
  · exact absurd ((C63_hold laneW_reach ..).1 h).1 (by decide +kernel)
example : Returns laneW 20 (.passivate 3) ∧ ¬ Returns laneW 20 (.passivate 9) ∧ Returns laneW 20 (.standby 3) ∧ ¬ Returns laneW 20 (.interrupt 3) ∧
    Returns laneW 20 .step := by
  refine ⟨(C63_passivate laneW_reach ..).2 (by decide +kernel), fun h => ?_, (C63_standby laneW_reach ..).2 (.inr (by decide +kernel)), fun h => ?_, C63_step laneW_reach _⟩
  · exact absurd ((C63_passivate laneW_reach ..).1 h) (by decide +kernel)
  · exact absurd ((C63_interrupt laneW_reach ..).1 h) (by decide +kernel)
example : Returns laneW 20 (.wait 3 [{ s := 0 }] false none none (0 : Rat) false false) :=
  C63_wait laneW_reach _ (.inr (by decide +kernel)) (by simp) _ ⟨_, rfl, .inl le_top⟩

theorem depotW_reach : Reach Calm depotW := reach_calm _ (.init fresh_depot) _ (by decide +kernel)

/-- component 1 no longer waits for item 100 or 101, but for 109, or wants to put 106 into store 1 (which is full), or takes 105 from it -/
example : Returns depotW 20 (want 1 [0, 1] [109]) ∧ Returns depotW 20 (bring 1 [1] 106) ∧ Returns depotW 20 (want 1 [1] [105]) := by
  refine ⟨C63_fromStore_wait depotW_reach _ (.inr (by decide +kernel)) (by simp) (by simp) ⟨_, rfl, .inl le_top⟩ ?_,
    C63_toStore depotW_reach 19 (.inr (by decide +kernel)) (by simp) (by simp) ⟨_, rfl, .inl le_top⟩ ?_ ?_ ?_,
    C63_fromStore_take depotW_reach 19 (.inr (by decide +kernel)) (by simp) (by simp) ⟨_, rfl, .inl le_top⟩ ?_⟩
  · decide +kernel
  · intro s hs
    simp only [List.mem_singleton] at hs; subst hs
    exact .inr ⟨1, by decide +kernel⟩
  · decide +kernel
  · intro s hs
    simp only [List.mem_singleton] at hs; subst hs
    show ∀ d ∈ depotW.inQ (.fromReq 1), (depotW.comps d).fromFilter 106 = false
    decide +kernel
  · decide +kernel

end Verif
