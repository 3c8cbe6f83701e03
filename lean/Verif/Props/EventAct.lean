import Verif.CalmStep
import Verif.Props.Interrupt
import Verif.Props.Events

/-!
# Claim C88: the action of an Event is performed once, at its time

An `Event` (salabim.py:10189-10391) is a component whose process calls the action and then sets `action_taken()`; there is nothing else in it. So its life is: made, waiting,
getting control (the action is called), the calls that the action makes, the end of the process.
-/

namespace Verif
open World

/-- where an Event is in its life -/
inductive Phase
  | pending | acting | done | cancelled
  deriving DecidableEq

/-- specification: the life of an Event `e` made for the moment `T` (of the internal clock): the world, the phase, and the moments at which its action was called, the
last one first (salabim.py:10335-10345). In the meantime anything may happen, by anybody (the action may make any calls as well), as long as nobody does something to `e` itself,
other than cancelling it. -/
inductive Occasion (e : CId) (T : ETime) : World → Phase → List Rat → Prop
  | made {w w' : World} {fuel at_ delay prio urgent cap skip} (hr : Reach Calm w) (hm : e ≠ w.main) (ho : Calm fuel w (.create e at_ delay prio urgent cap skip))
      (h : exec fuel (.create e at_ delay prio urgent cap skip) w = .ok w') (hT : T = max (atTime w at_ delay) w.now) : Occasion e T w' .pending []
  | other {w w' : World} {ph acts fuel o} (hc : Occasion e T w ph acts) (hs : o ≠ .step) (ho : Calm fuel w o) (ht : ¬ o.touches w e)
      (h : exec fuel o w = .ok w') : Occasion e T w' ph acts
  | step {w w' : World} {ph acts fuel} (hc : Occasion e T w ph acts) (hp : ph ≠ .acting) (h : exec fuel .step w = .ok w') (hn : w'.current ≠ e) :
      Occasion e T w' ph acts
  | act {w w' : World} {ph acts fuel} (hc : Occasion e T w ph acts) (hp : ph ≠ .acting) (h : exec fuel .step w = .ok w') (hn : w'.current = e) :
      Occasion e T w' .acting (w'.now :: acts)
  | finish {w w' : World} {acts fuel} (hc : Occasion e T w .acting acts) (hn : w.current = e) (h : exec fuel .terminate w = .ok w') :
      Occasion e T w' .done acts
  | cancel {w w' : World} {acts fuel} (hc : Occasion e T w .pending acts) (h : exec fuel (.cancel e) w = .ok w') :
      Occasion e T w' .cancelled acts

/-- the invariant -/
structure AtPhase (e : CId) (T : ETime) (w : World) (ph : Phase) (acts : List Rat) : Prop where
  reach : Reach Calm w
  notMain : e ≠ w.main
  nowait : NoWait (w.comps e)
  pending : ph = .pending → acts = [] ∧ w.status e = .scheduled ∧ (w.comps e).schedTime = T
  acting : ph = .acting → (∃ t, acts = [t] ∧ (t : ETime) = T ∧ t = w.now) ∧ w.status e = .current
  done : ph = .done → (∃ t, acts = [t] ∧ (t : ETime) = T ∧ t ≤ w.now) ∧ w.status e = .data
  cancelled : ph = .cancelled → acts = [] ∧ w.status e = .data

theorem Reach.next {w w' : World} {fuel o} (h : Reach Calm w) (ho : Calm fuel w o) (hx : exec fuel o w = .ok w') : Reach Calm w' := by
  have := Reach.op fuel o h ho
  rw [hx] at this; exact this

theorem Occasion.inv {e : CId} {T : ETime} {w : World} {ph : Phase} {acts : List Rat} (h : Occasion e T w ph acts) : AtPhase e T w ph acts := by
  induction h with
  | @made w w' fuel at_ delay prio urgent cap skip hr hm ho h hT =>
    have hr' := hr.next ho h
    simp only [exec] at h
    obtain ⟨e1, h1, _, _⟩ := create_out hr.good h
    exact ⟨hr', by rw [e1.main]; exact hm, h1.nowait (by simp) (by simp), fun _ => ⟨rfl, h1.status, h1.time.trans hT.symm⟩, by simp, by simp, by simp⟩
  | @other w w' ph acts fuel o hc hs ho ht h ih =>
    obtain ⟨e1, e2, e3, _⟩ := exec_frozen ih.reach.good ho hs h
    obtain ⟨l, hl⟩ := e3 e ht ih.nowait
    refine ⟨ih.reach.next ho h, by rw [e1]; exact ih.notMain, noWait_claims hl ih.nowait, ?_, ?_, ?_, ?_⟩
    · simp only [World.status, hl]; exact ih.pending
    · simp only [World.status, hl, e2]; exact ih.acting
    · simp only [World.status, hl, e2]; exact ih.done
    · simp only [World.status, hl]; exact ih.cancelled
  | @step w w' ph acts fuel hc hp h hn ih =>
    have hr' := ih.reach.next (fuel := fuel) ⟨⟨w', h⟩, trivial, trivial⟩ h
    have hmono : w.now ≤ w'.now := by
      have := C01_clock_monotone ih.reach.any (.op fuel .step .refl trivial)
      rw [h] at this; exact this
    simp only [exec] at h
    have so := step_out ih.reach.good h
    have hcc := so.other e (Ne.symm hn)
    refine ⟨hr', by rw [so.main]; exact ih.notMain, by rw [hcc]; exact ih.nowait, ?_, fun h => absurd h hp, fun h0 => ?_, ?_⟩
    · simp only [World.status, hcc]; exact ih.pending
    · simp only [World.status, hcc]
      obtain ⟨⟨t, h1, h2, h3⟩, h4⟩ := ih.done h0
      exact ⟨⟨t, h1, h2, h3.trans hmono⟩, h4⟩
    · simp only [World.status, hcc]; exact ih.cancelled
  | @act w w' ph acts fuel hc hp h hn ih =>
    have hr' := ih.reach.next (fuel := fuel) ⟨⟨w', h⟩, trivial, trivial⟩ h
    simp only [exec] at h
    have so := step_out ih.reach.good h
    have hst : w'.status e = .current := by rw [← hn]; exact so.status
    refine ⟨hr', by rw [so.main]; exact ih.notMain, hr'.good.idle e (by simp) (by simp [hst, Status.idle]), by simp, fun _ => ⟨?_, hst⟩, by simp, by simp⟩
    have hsch : w.status e = .scheduled := by
      rcases so.cases with ⟨_, h2, _⟩ | ⟨ev, h2, h3, _⟩ | ⟨_, _, _, h2⟩
      · cases ph
        · exact (ih.pending rfl).2.1
        · exact absurd rfl hp
        · rw [hn, (ih.done rfl).2] at h2; cases h2
        · rw [hn, (ih.cancelled rfl).2] at h2; cases h2
      · have h4 := (C03_event_status ih.reach (h2.mem_iff.2 List.mem_cons_self)).1
        rw [h3, hn] at h4
        cases ph
        · exact (ih.pending rfl).2.1
        · exact absurd rfl hp
        · rw [(ih.done rfl).2] at h4; simp at h4
        · rw [(ih.cancelled rfl).2] at h4; simp at h4
      · exact absurd (hn.symm.trans h2) ih.notMain
    cases ph
    · obtain ⟨h1, _, h3⟩ := ih.pending rfl
      refine ⟨w'.now, by rw [h1], ?_, rfl⟩
      rcases so.cases with ⟨_, h2, _⟩ | ⟨ev, h2, h4, h5, _⟩ | ⟨_, _, _, h2⟩
      · rw [hn, hsch] at h2; cases h2
      · have h6 := (C03_event_status ih.reach (h2.mem_iff.2 List.mem_cons_self)).2
        rw [h4, hn, h3] at h6
        rw [h6, h5]
      · exact absurd (hn.symm.trans h2) ih.notMain
    · exact absurd rfl hp
    · rw [(ih.done rfl).2] at hsch; cases hsch
    · rw [(ih.cancelled rfl).2] at hsch; cases hsch
  | @finish w w' acts fuel hc hn h ih =>
    obtain ⟨⟨t, h1, h2, h3⟩, h4⟩ := ih.acting rfl
    have hst : w.status w.current = .current := by rw [hn]; exact h4
    have hr' := ih.reach.next (fuel := fuel) ⟨⟨w', h⟩, trivial, hst⟩ h
    simp only [exec] at h
    obtain ⟨e1, e2⟩ := terminate_out ih.reach.good hst h
    rw [hn] at e2
    exact ⟨hr', by rw [e1.main]; exact ih.notMain, hr'.good.idle e (by simp) (by simp [e2, Status.idle]), by simp, by simp,
      fun _ => ⟨⟨t, h1, h2, by rw [e1.now]; exact h3.le⟩, e2⟩, by simp⟩
  | @cancel w w' acts fuel hc h ih =>
    have hr' := ih.reach.next (fuel := fuel) ⟨⟨w', h⟩, trivial, trivial⟩ h
    simp only [exec] at h
    obtain ⟨e1, e2⟩ := cancel_out ih.reach.good h
    exact ⟨hr', by rw [e1.main]; exact ih.notMain, hr'.good.idle e (by simp) (by simp [e2, Status.idle]), by simp, by simp, by simp,
      fun _ => ⟨(ih.pending rfl).1, e2⟩⟩

/-- C88: the action of an Event is never called before or after the moment it was made for, and not more than once; when the clock has passed that moment it has been called (once), unless
the Event was cancelled; after being cancelled it is never called -/
theorem C88_once {e : CId} {T : ETime} {w : World} {ph : Phase} {acts : List Rat} (h : Occasion e T w ph acts) :
    (acts = [] ∨ ∃ t : Rat, acts = [t] ∧ (t : ETime) = T) ∧ (ph ≠ .cancelled → T < (w.now : ETime) → acts ≠ []) ∧ (ph = .cancelled → acts = []) := by
  have ih := h.inv
  cases ph
  · obtain ⟨h1, h2, h3⟩ := ih.pending rfl
    refine ⟨.inl h1, fun _ ht => ?_, by simp⟩
    have := C04_never_before_now ih.reach e (.inl h2)
    rw [h3] at this
    exact absurd ht (not_lt.2 this)
  · obtain ⟨⟨t, h1, h2, _⟩, _⟩ := ih.acting rfl
    exact ⟨.inr ⟨t, h1, h2⟩, fun _ _ => by simp [h1], by simp⟩
  · obtain ⟨⟨t, h1, h2, _⟩, _⟩ := ih.done rfl
    exact ⟨.inr ⟨t, h1, h2⟩, fun _ _ => by simp [h1], by simp⟩
  · exact ⟨.inl (ih.cancelled rfl).1, by simp, fun _ => (ih.cancelled rfl).1⟩

/-- C88: `action_taken()`, which is set at the end of the process, tells whether the action has been called and has come to its end; before that the Event is scheduled for its moment, with
`action_taken()` it is a data component, and so is a cancelled Event -/
theorem C88_taken {e : CId} {T : ETime} {w : World} {ph : Phase} {acts : List Rat} (h : Occasion e T w ph acts) :
    (acts = [] ↔ ph = .pending ∨ ph = .cancelled) ∧
    (ph = .pending → w.status e = .scheduled ∧ (w.comps e).schedTime = T ∧ (w.now : ETime) ≤ T) ∧
    (ph = .acting → w.status e = .current ∧ (w.now : ETime) = T) ∧
    (ph = .done ∨ ph = .cancelled → w.status e = .data ∧ NoEvent w e) := by
  have ih := h.inv
  refine ⟨?_, fun hp => ?_, fun hp => ?_, fun hp => ?_⟩
  · cases ph
    · simp [(ih.pending rfl).1]
    · obtain ⟨⟨t, h1, _⟩, _⟩ := ih.acting rfl; simp [h1]
    · obtain ⟨⟨t, h1, _⟩, _⟩ := ih.done rfl; simp [h1]
    · simp [(ih.cancelled rfl).1]
  · obtain ⟨_, h2, h3⟩ := ih.pending hp
    have := C04_never_before_now ih.reach e (.inl h2)
    exact ⟨h2, h3, h3 ▸ this⟩
  · obtain ⟨⟨t, h1, h2, h3⟩, h4⟩ := ih.acting hp
    exact ⟨h4, by rw [← h3]; exact h2⟩
  · have hd : w.status e = .data := hp.elim (fun hp => (ih.done hp).2) (fun hp => (ih.cancelled hp).2)
    exact ⟨hd, C03_no_event ih.reach e (.inr (.inl hd))⟩

/-! an Event 5 made for the moment 3; its action creates a component; it is done when the clock says 4 -/

def party0 : World := (exec 9 (.create 5 (some ((3 : Rat) : ETime)) (0 : Rat) (0 : Rat) false false false) World.init).world
def party1 : World := (exec 9 (.create 1 none (1 : Rat) (0 : Rat) false false false) party0).world
def party2 : World := (exec 9 (.runStart (some (4 : Rat)) none (0 : Rat) false false) party1).world
def party3 : World := (exec 9 .step party2).world
def party4 : World := (exec 9 .terminate party3).world
def party5 : World := (exec 9 .step party4).world
def party6 : World := (exec 9 (.create 2 none (0 : Rat) (0 : Rat) false false false) party5).world
def party7 : World := (exec 9 .terminate party6).world
def party8 : World := (exec 9 .step party7).world
def party9 : World := (exec 9 .step (exec 9 .terminate party8).world).world

example : Occasion 5 ((3 : Rat) : ETime) party9 .done [3] ∧ party9.now = 4 := by
  have c0 : Occasion 5 ((3 : Rat) : ETime) party0 .pending [] := .made (fuel := 9) (at_ := some ((3 : Rat) : ETime)) (delay := (0 : Rat)) (prio := (0 : Rat)) (urgent := false) (cap := false) (skip := false) (.init fresh_init) (by decide) (calmb_calm (by decide +kernel)) (ok_world (by decide +kernel)) (by decide +kernel)
  have c1 : Occasion 5 ((3 : Rat) : ETime) party1 .pending [] := .other (fuel := 9) (o := .create 1 none (1 : Rat) (0 : Rat) false false false) c0 (by simp)
    (calmb_calm (by decide +kernel)) (by simp [Op.touches]) (ok_world (by decide +kernel))
  have c2 : Occasion 5 ((3 : Rat) : ETime) party2 .pending [] := .other (fuel := 9) (o := .runStart (some (4 : Rat)) none (0 : Rat) false false) c1 (by simp)
    (calmb_calm (by decide +kernel)) (by simp only [Op.touches]; decide +kernel) (ok_world (by decide +kernel))
  have c3 : Occasion 5 ((3 : Rat) : ETime) party3 .pending [] := .step (fuel := 9) c2 (by simp) (ok_world (by decide +kernel)) (by decide +kernel)
  have c4 : Occasion 5 ((3 : Rat) : ETime) party4 .pending [] := .other (fuel := 9) (o := .terminate) c3 (by simp)
    (calmb_calm (by decide +kernel)) (by simp only [Op.touches]; decide +kernel) (ok_world (by decide +kernel))
  have c5 : Occasion 5 ((3 : Rat) : ETime) party5 .acting [party5.now] := .act (fuel := 9) c4 (by simp) (ok_world (by decide +kernel)) (by decide +kernel)
  have c6 : Occasion 5 ((3 : Rat) : ETime) party6 .acting [party5.now] := .other (fuel := 9) (o := .create 2 none (0 : Rat) (0 : Rat) false false false) c5 (by simp)
    (calmb_calm (by decide +kernel)) (by simp [Op.touches]) (ok_world (by decide +kernel))
  have c7 : Occasion 5 ((3 : Rat) : ETime) party7 .done [party5.now] := .finish (fuel := 9) c6 (by decide +kernel) (ok_world (by decide +kernel))
  have c8 : Occasion 5 ((3 : Rat) : ETime) party8 .done [party5.now] := .step (fuel := 9) c7 (by simp) (ok_world (by decide +kernel)) (by decide +kernel)
  have c9 : Occasion 5 ((3 : Rat) : ETime) (exec 9 .terminate party8).world .done [party5.now] := .other (fuel := 9) (o := .terminate) c8 (by simp)
    (calmb_calm (by decide +kernel)) (by simp only [Op.touches]; decide +kernel) (ok_world (by decide +kernel))
  have c10 : Occasion 5 ((3 : Rat) : ETime) party9 .done [party5.now] := .step (fuel := 9) c9 (by simp) (ok_world (by decide +kernel)) (by decide +kernel)
  have h : party5.now = 3 := by decide +kernel
  rw [h] at c10
  exact ⟨c10, by decide +kernel⟩

/-- and one that is cancelled -/
example : ∃ w, Occasion 5 ((3 : Rat) : ETime) w .cancelled [] :=
  ⟨_, .cancel (fuel := 9) (.made (fuel := 9) (at_ := some ((3 : Rat) : ETime)) (delay := (0 : Rat)) (prio := (0 : Rat)) (urgent := false) (cap := false) (skip := false) (w' := party0) (.init fresh_init) (by decide) (calmb_calm (by decide +kernel)) (ok_world (by decide +kernel)) (by decide +kernel))
    (ok_world (r := exec 9 (.cancel 5) party0) (by decide +kernel))⟩

end Verif
