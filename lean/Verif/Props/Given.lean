import Verif.Props.Interrupt

/-!
# The priority and the urgency of an event are those of the call (C02)
-/

namespace Verif
open World

/-! ## specification -/

/-- the component that a call schedules itself (not: lets wait), with the priority and urgent given in the call -/
def Op.schedules (w : World) : Op → Option (CId × ETime × Bool)
  | .hold c _ _ p u _ _ | .activate c _ _ p u _ _ _ _ | .create c _ _ p u _ _ | .resume c _ p u | .setRemaining c _ p u => some (c, p, u)
  | .runStart _ _ p u _ => some (w.main, p, u)
  | _ => none

/-! ## proof -/

theorem push_event {c : CId} {t : ETime} {p : ETime} {u : Bool} {ret : Option CId} {w : World} (ht : t ≠ ⊤) :
    ∃ e ∈ (push c t p u ret w).events, e.c = c ∧ e.prio = p ∧ (e.seq < 0 ↔ u = true) ∧ w.seq < e.seq.natAbs := by
  induction t using WithTop.recTopCoe with
  | top => exact absurd rfl ht
  | coe t =>
    refine ⟨⟨t, p, if u then -((w.seq + 1 : Nat) : Int) else (w.seq + 1 : Nat), c, ret⟩, ?_, rfl, rfl, ?_, ?_⟩
    · exact (Heapq.heappush_perm _ _).mem_iff.2 (by simp [World.modC])
    · cases u <;> simp <;> omega
    · cases u <;> simp <;> omega

/-- the event of the component that `reschedule` has just scheduled -/
theorem reschedule_given {c : CId} {t p : ETime} {u k ret} {w w' : World} (hx : reschedule c t p u k ret w = .ok w') (h : Reach Calm w') {e : Ev}
    (he : OnlyEvent w' c e) : e.prio = p ∧ (e.seq < 0 ↔ u = true) ∧ w.seq < e.seq.natAbs := by
  have hr := (reschedule_ok hx).1
  have hs := (C03_event_status h he.1).2
  rw [he.2.1, hr.self] at hs
  have hne : max t (w.now : ETime) ≠ ⊤ := by
    intro hh
    simp only [hh] at hs
    exact absurd hs (by simp)
  unfold reschedule at hx
  split at hx
  · split at hx
    · cases hx
      obtain ⟨x, x1, x2, x3⟩ := push_event (c := c) (t := (w.now : ETime)) (p := p) (u := u) (ret := ret)
        (w := w.modC c (fun x => { x with schedTime := (w.now : ETime) })) (by simp)
      rw [← he.2.2 x x1 x2]; exact x3
    · cases hx
  · rename_i hlt
    cases hx
    rw [max_eq_left (not_lt.1 hlt)] at hne
    obtain ⟨x, x1, x2, x3⟩ := push_event (c := c) (t := t) (p := p) (u := u) (ret := ret)
      (w := w.modC c (fun x => { x with schedTime := t })) hne
    rw [← he.2.2 x x1 x2]; exact x3

/-- a call that schedules ends by doing so, or the component has no event afterwards -/
theorem schedules_end {w w' : World} {fuel o c p u} (h : Reach Calm w) (hc : Calm fuel w o) (ho : o.schedules w = some (c, p, u))
    (hx : exec fuel o w = .ok w') : NoEvent w' c ∨ ∃ t k w1, w.seq ≤ w1.seq ∧ reschedule c t p u k none w1 = .ok w' := by
  have h' : Reach Calm w' := by have := h.op fuel o hc; rwa [hx] at this
  have hst : St (fun _ _ => True) w w := .refl w
  cases o with
  | hold c' d t p' u' k i =>
    cases ho
    simp only [exec, hold] at hx
    obtain ⟨w1, h1, h2⟩ := andThen_ok hx
    have s1 : w.seq ≤ w1.seq := by
      split at h1
      · cases h1; exact le_rfl
      · have := sr_removeFail hst c; rw [h1] at this; exact (St.seq this).1
    split at h2
    · cases h2
    · split at h2
      · cases h2
      · split at h2
        · cases h2
          left
          refine C03_no_event h' c ?_
          right; right; right; left
          simp [World.status, World.modC]
        · exact .inr ⟨_, _, _, by exact s1, h2⟩
  | activate c' a d p' u' k pr kr kw =>
    cases ho
    simp only [exec, activate] at hx
    split at hx
    · cases hx
    · obtain ⟨w1, h1, h2⟩ := andThen_ok hx
      refine .inr ⟨_, _, _, ?_, h2⟩
      show w.seq ≤ w1.seq
      split at h1
      · cases h1; exact le_rfl
      · have : Sr (fun _ _ => True) w (.ok w1) := by
          rw [← h1]
          refine Sr.andThen (sr_remove hst c) fun w2 h2 => ?_
          split
          · exact Sr.ok h2
          · exact sr_checkFail h2 c
        exact (St.seq this).1
  | create c' a d p' u' k s =>
    cases ho
    simp only [exec, create] at hx
    split at hx
    · cases hx
    · exact .inr ⟨_, _, _, by exact le_rfl, hx⟩
  | resume c' a p' u' =>
    cases ho
    simp only [exec, resume] at hx
    split at hx
    · rename_i hi
      split at hx
      · cases hx
        left
        refine C03_no_event h' c ?_
        right; right; right; left
        simpa [World.status, World.modC] using hi
      · split at hx
        · exact .inr ⟨_, _, _, by exact le_rfl, hx⟩
        · cases hx
    · cases hx
  | setRemaining c' v p' u' =>
    cases ho
    simp only [exec, setRemaining] at hx
    split at hx
    · rename_i hi
      cases hx
      left
      refine C03_no_event h' c ?_
      rcases hi with hi | hi
      · left; simpa [World.status, World.modC] using hi
      · right; right; right; left; simpa [World.status, World.modC] using hi
    · split at hx
      · cases hx
      · obtain ⟨w1, h1, h2⟩ := andThen_ok hx
        have := sr_remove hst c; rw [h1] at this
        exact .inr ⟨_, _, _, (St.seq this).1, h2⟩
  | runStart d t p' u' k =>
    cases ho
    simp only [exec, runStart] at hx
    split at hx
    · cases hx
    · exact .inr ⟨_, _, _, by exact le_rfl, hx⟩
  | _ => cases ho

/-! ## claim -/

/-- C02: the event of a component that is scheduled by hold, activate, its creation, resume, remaining_duration or run has the priority given in the call;
among the other events with the same time and priority it is the first if urgent is given, otherwise the last -/
theorem C02_given {w w' : World} {fuel o c p u} (h : Reach Calm w) (hc : Calm fuel w o) (ho : o.schedules w = some (c, p, u))
    (hx : exec fuel o w = .ok w') {e : Ev} (he : OnlyEvent w' c e) :
    e.prio = p ∧ ∀ f ∈ w.events, f.t = e.t → f.prio = p → if u then Before e f else Before f e := by
  have h' : Reach Calm w' := by have := h.op fuel o hc; rwa [hx] at this
  rcases schedules_end h hc ho hx with hn | ⟨t, k, w1, h1, h2⟩
  · exact absurd he.2.1 (hn e he.1)
  · obtain ⟨g1, g2, g3⟩ := reschedule_given h2 h' he
    refine ⟨g1, fun f hf ht hp => ?_⟩
    have hle := h.inv0.seqle f hf
    cases u
    · have : ¬ e.seq < 0 := by simpa using g2
      simp only [Bool.false_eq_true, if_false]
      exact .inr ⟨ht, .inr ⟨hp.trans g1.symm, by omega⟩⟩
    · have : e.seq < 0 := by simpa using g2
      simp only [if_true]
      exact .inr ⟨ht.symm, .inr ⟨g1.trans hp.symm, by omega⟩⟩

/-! ## examples -/

/-- components 1, 2 and 3 are to start at 0, component 3 urgently -/
def givenW : World := execAll 10 demoTies World.init

/-- the hypotheses of `C02_given`: activating component 2 urgently with priority 0 puts it in front of the events of components 1 and 3, without urgent it comes last; with
priority 5 its event has that priority -/
example : ∃ w' e, Reach Calm givenW ∧ Calm 10 givenW (.activate 2 none (0 : Rat) (0 : Rat) true false false false false) ∧
    (Op.activate 2 none (0 : Rat) (0 : Rat) true false false false false).schedules givenW = some (2, ((0 : Rat) : ETime), true) ∧
    exec 10 (.activate 2 none (0 : Rat) (0 : Rat) true false false false false) givenW = .ok w' ∧ OnlyEvent w' 2 e ∧
    (∃ f ∈ givenW.events, f.c = 3 ∧ f.t = e.t ∧ f.prio = e.prio) ∧ (step w').world.current = 2 ∧
    (step (exec 10 (.activate 2 none (0 : Rat) (0 : Rat) false false false false false) givenW).world).world.current = 3 := by
  refine ⟨_, ⟨0, (0 : Rat), -4, 2, none⟩, reach_calm _ (.init fresh_init) _ (by decide +kernel), calmb_calm (by decide +kernel), rfl, ok_world (by decide +kernel),
    ⟨by decide +kernel, rfl, by decide +kernel⟩, ⟨⟨0, (0 : Rat), -3, 3, none⟩, by decide +kernel, rfl, rfl, rfl⟩, by decide +kernel, by decide +kernel⟩

end Verif
