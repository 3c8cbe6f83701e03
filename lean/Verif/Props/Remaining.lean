import Verif.CalmStep
import Verif.Props.Interrupt

/-!
# Claim C59: remaining_duration()
-/

namespace Verif
open World

/-- statuses in which the component has a scheduled time -/
def Status.planned (s : Status) : Prop := s = .scheduled ∨ s = .requesting ∨ s = .waiting

theorem remaining_planned {w : World} {c : CId} (h : (w.status c).planned) : remainingDuration w c = (w.comps c).schedTime.subQ w.now := by
  unfold remainingDuration
  rcases h with h | h | h <;> simp [h]

theorem subQ_eq {t : ETime} {n r : Rat} (h : ETime.subQ t n = (r : ETime)) : t = ((n + r : Rat) : ETime) := by
  induction t using WithTop.recTopCoe with
  | top => cases h
  | coe t =>
    have : t - n = r := WithTop.coe_inj.1 h
    congr 1; linarith

theorem subQ_top {t : ETime} {n : Rat} (h : ETime.subQ t n = ⊤) : t = ⊤ := by
  induction t using WithTop.recTopCoe with
  | top => rfl
  | coe t => cases h

/-- C59: the remaining duration of a component that is scheduled, requesting or waiting is the time until its pending event; it has no
pending event if that is inf -/
theorem C59_until_event {w : World} (h : Reach Calm w) {c : CId} (hs : (w.status c).planned) :
    (∀ r : Rat, remainingDuration w c = (r : ETime) → 0 ≤ r ∧ ∃ e, OnlyEvent w c e ∧ e.t = w.now + r) ∧
    (remainingDuration w c = ⊤ → NoEvent w c) := by
  rw [remaining_planned hs]
  refine ⟨fun r hr => ?_, fun ht => C03_never h c hs (subQ_top ht)⟩
  have ht := subQ_eq hr
  have h0 := C04_never_before_now h c hs
  rw [ht] at h0
  refine ⟨by have := WithTop.coe_le_coe.1 h0; linarith, C03_one_event h c _ hs ht⟩

/-- C59: passivate: `remaining_duration()` is what it was just before, 0 for the current component -/
theorem C59_passivate {w w' : World} {fuel : Nat} (h : Reach Calm w) {c : CId} (hs : (w.status c).planned ∨ w.status c = .current)
    (hx : exec fuel (.passivate c) w = .ok w') : w'.status c = .passive ∧ remainingDuration w' c = remainingDuration w c := by
  simp only [exec] at hx
  unfold passivate at hx
  obtain ⟨w1, h1, h2⟩ := andThen_ok hx
  cases h2
  have hst : (w1.modC c (fun x => { x with schedTime := ⊤, status := .passive })).status c = .passive := by
    rw [World.status, modC_self]
  refine ⟨hst, ?_⟩
  have hrem : remainingDuration (w1.modC c (fun x => { x with schedTime := ⊤, status := .passive })) c = (w1.comps c).remaining := by
    unfold remainingDuration
    rw [if_pos (.inl hst), modC_self]
  rw [hrem]
  split at h1
  · rename_i hc
    cases h1
    rw [modC_self]
    unfold remainingDuration
    rw [if_neg (by simp [hc]), if_neg (by simp [hc])]
  · rename_i hc
    have hp := hs.resolve_right hc
    obtain ⟨w2, h3, h4⟩ := andThen_ok h1
    cases h4
    have hst := (start_notData h.good h3).1
    obtain ⟨w3, h5, h6⟩ := andThen_ok h3
    obtain ⟨w4, h7, h8⟩ := andThen_ok h5
    obtain ⟨rfl, _⟩ := checkNotData_ok h7
    obtain ⟨w5, h9, r⟩ := remove_removed h.good.inv c
    rw [h9] at h8; cases h8
    have hf := fr_checkFail c w3
    rw [h6] at hf
    have h10 : (w2.comps c).cv = (w3.comps c).cv := congrFun (congrArg EV.comps hf) c
    have hsch : (w2.comps c).schedTime = (w4.comps c).schedTime := (congrArg CV.sched h10).trans (by rw [r.self]; rfl)
    rw [modC_self, remaining_planned hp, ← hsch, ← hst.now]

/-- C59: as long as it is passive (or interrupted), and nobody does something with the component itself, `remaining_duration()` doesn't
change, whatever else happens -/
theorem C59_frozen {w w' : World} {fuel : Nat} {o : Op} (h : Reach Calm w) {c : CId} (hm : c ≠ w.main)
    (hs : w.status c = .passive ∨ (w.status c = .interrupted ∧ NoWait (w.comps c))) (ho : Calm fuel w o) (ht : o ≠ .step → ¬ o.touches w c)
    (hx : exec fuel o w = .ok w') : w'.status c = w.status c ∧ remainingDuration w' c = remainingDuration w c := by
  have hn : NoWait (w.comps c) := by
    rcases hs with hs | hs
    · exact h.good.idle c (by simp) (by simp [Status.idle, hs])
    · exact hs.2
  have key : ∀ {l}, w'.comps c = { w.comps c with claims := l } → w'.status c = w.status c ∧ remainingDuration w' c = remainingDuration w c := by
    intro l hl
    have e : w'.status c = w.status c := by rw [World.status, hl]
    refine ⟨e, ?_⟩
    have hp : w.status c = .passive ∨ w.status c = .interrupted := hs.imp id And.left
    unfold remainingDuration
    rw [e, if_pos hp, if_pos hp, hl]
  by_cases hst : o = .step
  · subst hst
    simp only [exec] at hx
    have e := step_out h.good hx
    have hne : w'.current ≠ c := by
      intro hc
      rcases e.cases with ⟨_, h2, _⟩ | ⟨ev, h2, h3, h4⟩ | ⟨_, _, _, h2⟩
      · rw [hc] at h2; rcases hs with hs | hs
        · rw [hs] at h2; cases h2
        · rw [hs.1] at h2; cases h2
      · have := (C03_event_status h (h2.mem_iff.2 List.mem_cons_self)).1
        rw [h3, hc] at this
        rcases hs with hs | hs
        · simp [hs] at this
        · simp [hs.1] at this
      · exact hm (hc.symm.trans h2)
    exact key (l := (w.comps c).claims) (e.other c (Ne.symm hne))
  · obtain ⟨_, _, e3, _⟩ := exec_frozen h.good ho hst hx
    obtain ⟨l, hl⟩ := e3 c (ht hst) hn
    exact key hl

/-- C59: setting the remaining duration: `remaining_duration()` is the given value, the status is as it was, and if the component is
scheduled, requesting or waiting its event is moved accordingly -/
theorem C59_set {w w' : World} {fuel : Nat} (h : Reach Calm w) {c : CId} {v p : ETime} {u : Bool} (hs : w.status c ≠ .data)
    (hx : exec fuel (.setRemaining c v p u) w = .ok w') :
    w'.status c = w.status c ∧ remainingDuration w' c = v ∧
      ((w.status c).planned → ∀ r : Rat, v = (r : ETime) → ∃ e, OnlyEvent w' c e ∧ e.t = w.now + r) := by
  have hc : Calm fuel w (.setRemaining c v p u) := ⟨⟨w', hx⟩, trivial, hs⟩
  have hr : Reach Calm w' := by
    have := Reach.op fuel _ h hc
    rw [hx] at this; exact this
  simp only [exec] at hx
  unfold setRemaining at hx
  split at hx
  · rename_i hp
    cases hx
    have e : (w.modC c (fun x => { x with remaining := v })).status c = w.status c := by rw [World.status, modC_self]
    refine ⟨e, ?_, fun hp' => ?_⟩
    · unfold remainingDuration
      rw [e, if_pos hp, modC_self]
    · exfalso
      rcases hp with hp | hp <;> simp [hp, Status.planned] at hp'
  · rename_i hp
    split at hx
    · cases hx
    · rename_i hq
      have hpl : (w.status c).planned := by
        have := hs
        cases hst : w.status c <;> simp [hst, Status.planned] at hp hq this ⊢
      obtain ⟨w1, h1, h2⟩ := andThen_ok hx
      obtain ⟨w2, h3, r⟩ := remove_removed h.good.inv c
      rw [h3] at h1; cases h1
      obtain ⟨k, hk⟩ := reschedule_ok h2
      have hself := k.self
      have hst : w'.status c = w.status c := by rw [World.status, hself, r.self]
      have hnow : w'.now = w.now := k.now.trans r.now
      have hle : ¬ (v + (w1.now : ETime) < (w1.now : ETime)) := fun hlt => by cases hk hlt
      have htime : (w'.comps c).schedTime = v + (w.now : ETime) := by
        rw [hself, ← r.now]
        exact max_eq_left (not_lt.1 hle)
      have hrem : remainingDuration w' c = v := by
        rw [remaining_planned (by rw [hst]; exact hpl), htime, hnow]
        induction v using WithTop.recTopCoe with
        | top => rfl
        | coe v =>
          rw [← WithTop.coe_add, subQ_coe]
          congr 1; ring
      refine ⟨hst, hrem, fun _ q hq => ?_⟩
      have := (C59_until_event hr (c := c) (by rw [hst]; exact hpl)).1 q (hrem.trans hq)
      rw [hnow] at this
      exact this.2

/-- C59: hold with `interrupted`: the component is interrupted and its remaining duration is the duration asked for (0 if the moment
asked for is in the past and `cap_now` is set); it is interrupted as many times as asked for (`interrupt_level()`, salabim.py:10035-10038) -/
theorem C59_hold_interrupted {w w' : World} {fuel level : Nat} (h : Reach Calm w) {c : CId} {d t : Option ETime} {p : ETime} {u k : Bool} (hl : level ≠ 0)
    (hx : exec fuel (.hold c d t p u k level) w = .ok w') :
    ∃ T, holdTime w d t = some T ∧ (T < (w.now : ETime) → k = true) ∧ w'.status c = .interrupted ∧
      remainingDuration w' c = ETime.subQ (max T w.now) w.now ∧ (w'.comps c).intrLevel = level := by
  simp only [exec] at hx
  obtain ⟨_, _, T, hT, hk, _, h1⟩ := hold_out h.good hx
  obtain ⟨a1, a2, a3, _⟩ := h1 hl
  refine ⟨T, hT, hk, a1, ?_, a3⟩
  unfold remainingDuration
  rw [if_pos (.inr a1), a2]

/-! examples: component 1 holds for 10, component 2 for 4; then 2 lets 1 become passive; 6 are left. Component 3 becomes current at 9;
still 6 are left -/

def restOps : List Op := [.create 1 none (0 : Rat) (0 : Rat) false false false, .create 2 none (0 : Rat) (0 : Rat) false false false,
  .create 3 none (9 : Rat) (0 : Rat) false false false, .step,
  .hold 1 (some (10 : Rat)) none (0 : Rat) false false 0, .step, .hold 2 (some (4 : Rat)) none (0 : Rat) false false 0, .step]
def restW : World := execAll 9 restOps World.init
theorem restW_reach : Reach Calm restW := reach_calm _ (.init fresh_init) _ (by decide +kernel)

example : restW.now = 4 ∧ restW.status 1 = .scheduled ∧ remainingDuration restW 1 = ((6 : Rat) : ETime) ∧
    (exec 9 (.passivate 1) restW).isOk = true ∧ remainingDuration (exec 9 (.passivate 1) restW).world 1 = ((6 : Rat) : ETime) := by decide +kernel

example : let w := execAll 9 [.passivate 1, .terminate] restW
    Reach Calm w ∧ w.status 1 = .passive ∧ Calm 9 w .step ∧ (exec 9 .step w).world.now = 9 ∧
      remainingDuration (exec 9 .step w).world 1 = ((6 : Rat) : ETime) :=
  ⟨reach_calm _ restW_reach _ (by decide +kernel), by decide +kernel, calmb_calm (by decide +kernel), by decide +kernel, by decide +kernel⟩

example : (exec 9 (.setRemaining 1 (2 : Rat) (0 : Rat) false) restW).isOk = true ∧
    remainingDuration (exec 9 (.setRemaining 1 (2 : Rat) (0 : Rat) false) restW).world 1 = ((2 : Rat) : ETime) ∧
    (exec 9 (.hold 2 none (some (1 : Rat)) (0 : Rat) false true 1) restW).isOk = true ∧
    remainingDuration (exec 9 (.hold 2 none (some (1 : Rat)) (0 : Rat) false true 1) restW).world 2 = ((0 : Rat) : ETime) := by decide +kernel

/-- C59 for a component that is passive already: passivating it once more makes the remaining duration inf, as the scheduled time of a
passive component is inf (salabim.py:7887-7888) -/
theorem C59_passive_again_counterexample : ∃ w : World, Reach Calm w ∧ w.status 1 = .passive ∧ remainingDuration w 1 = ((6 : Rat) : ETime) ∧
    (exec 9 (.passivate 1) w).isOk = true ∧ remainingDuration (exec 9 (.passivate 1) w).world 1 = ⊤ :=
  ⟨execAll 9 [.passivate 1] restW, reach_calm _ restW_reach _ (by decide +kernel), by decide +kernel, by decide +kernel, by decide +kernel,
    by decide +kernel⟩

/-- C59 for an interrupted component: it has 6 left (interrupted at 4, till 10), but as its old scheduled time is used (salabim.py:7887)
passivating it at 9 makes that 1 -/
theorem C59_interrupted_counterexample : ∃ w : World, Reach Calm w ∧ w.status 1 = .interrupted ∧ remainingDuration w 1 = ((6 : Rat) : ETime) ∧
    (exec 9 (.passivate 1) w).isOk = true ∧ remainingDuration (exec 9 (.passivate 1) w).world 1 = ((1 : Rat) : ETime) :=
  ⟨execAll 9 [.interrupt 1, .terminate, .step] restW, reach_calm _ restW_reach _ (by decide +kernel), by decide +kernel, by decide +kernel,
    by decide +kernel, by decide +kernel⟩

end Verif
