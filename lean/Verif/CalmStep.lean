import Verif.CalmOut

/-!
# What a step of the scheduler does, and which components a call touches
-/

namespace Verif
open World

/-- outcome of a step: a component in standby gets its turn, or the component of an event becomes current, or (without events)
main becomes current -/
structure StepOut (w w' : World) : Prop where
  main : w'.main = w.main
  offset : w'.offset = w.offset
  other : ∀ d, d ≠ w'.current → w'.comps d = w.comps d
  status : w'.status w'.current = .current
  claims : (w'.comps w'.current).claims = (w.comps w'.current).claims
  sub : ∀ q, (w'.inQ q).Sublist (w.inQ q)
  cases : (w'.now = w.now ∧ w.status w'.current = .standby ∧ w'.events = w.events) ∨
    (∃ e, w.events.Perm (e :: w'.events) ∧ e.c = w'.current ∧ e.t = w'.now ∧ ∀ x ∈ w.events, x.lt e = false) ∨
    (w.events = [] ∧ w'.events = [] ∧ w'.now = w.now ∧ w'.current = w.main)

theorem stepEvent_out {w w' : World} (hg : Good ∅ w) (hpd : (∀ d, (w.comps d).skipStandby = false) → w.pending = []) (h : stepEvent w = .ok w') : StepOut w w' := by
  unfold stepEvent at h
  simp only at h
  have g1 := good_turns hg hpd
  have e1 : ∀ w1 : World, w1 = (if w.standby = [] then w else { w with pending := w.standby, standby := [] } : World) →
      w1.comps = w.comps ∧ w1.main = w.main ∧ w1.now = w.now ∧ w1.events = w.events ∧ w1.queues = w.queues ∧ w1.offset = w.offset := by
    intro w1 h1; rw [h1]; split <;> exact ⟨rfl, rfl, rfl, rfl, rfl, rfl⟩
  generalize (if w.standby = [] then w else { w with pending := w.standby, standby := [] } : World) = w1 at g1 h e1
  obtain ⟨ec, em, en, ee, eq, eo⟩ := e1 _ rfl
  have hq : ∀ q, w1.inQ q = w.inQ q := fun q => by simp [World.inQ, eq]
  split at h
  · rename_i e es hp
    have hperm : w1.events.Perm (e :: es) := by
      have := Heapq.heappop_spec (l := w1.events) evLaw g1.inv.heap
      rw [hp] at this; exact this.1
    have hmin : ∀ x ∈ w.events, x.lt e = false := by
      have := Heapq.heappop_spec (l := w1.events) evLaw g1.inv.heap
      rw [hp] at this
      rw [← ee]; exact this.2.2
    split at h
    · rename_i hm
      cases h
      refine ⟨em, eo, fun d hd => ?_, ?_, ?_, fun q => ?_, .inr (.inl ⟨e, by rw [← ee]; exact hperm, rfl, rfl, hmin⟩)⟩
      · exact (modC_other hd _ _).trans (congrFun ec d)
      · show (((_ : World).modC e.c _).comps e.c).status = _
        rw [modC_self]
      · show (((_ : World).modC e.c _).comps e.c).claims = _
        rw [modC_self]; rw [← ec]; rfl
      · rw [← hq]; exact List.Sublist.refl _
    · rename_i hm
      have f3 := (checkFail_good h (?_ : Good (insert e.c ∅) _)).2.1
      · have hcur : w'.current = e.c := congrArg EV.current f3.ev
        have hcv : (w'.comps e.c).cv = _ := congrFun (congrArg EV.comps f3.ev) e.c
        refine ⟨f3.main.trans em, (congrArg EV.offset f3.ev).trans eo, fun d hd => ?_, ?_, ?_, fun q => ?_, .inr (.inl ⟨e, ?_, hcur.symm, ?_, hmin⟩)⟩
        · rw [hcur] at hd
          exact (f3.other d hd).trans ((modC_other hd _ _).trans (congrFun ec d))
        · rw [hcur]; exact (congrArg CV.status hcv).trans (by simp [World.ev, Comp.cv, World.modC])
        · rw [hcur, f3.claims, modC_self, ← ec]
        · rw [← hq]; exact f3.sub q
        · have : w'.events = es := congrArg EV.events f3.ev
          rw [← ee, this]; exact hperm
        · exact (congrArg EV.now f3.ev : w'.now = e.t).symm
      · exact (popped_good g1 hp).2
  · rename_i hp
    have hnil : w1.events = [] := by
      have := Heapq.heappop_spec (l := w1.events) evLaw g1.inv.heap
      rw [hp] at this; exact this
    cases h
    refine ⟨em, eo, fun d hd => ?_, ?_, ?_, fun q => ?_, .inr (.inr ⟨by rw [← ee]; exact hnil, hnil, en, em⟩)⟩
    · exact (modC_other hd _ _).trans (congrFun ec d)
    · show (((_ : World).modC w1.main _).comps w1.main).status = _
      rw [modC_self]
    · show (((_ : World).modC w1.main _).comps w1.main).claims = _
      rw [modC_self]; rw [← ec]; rfl
    · rw [← hq]; exact List.Sublist.refl _

theorem step_out {w w' : World} (hg : Good ∅ w) (h : step w = .ok w') : StepOut w w' := by
  unfold step at h
  split at h
  · rename_i hs
    exact stepEvent_out hg (fun h => absurd hs (by simp [h])) h
  · split at h
    · rename_i hp
      exact stepEvent_out hg (fun _ => hp) h
    · rename_i c rest hp
      have hs : w.status c = .standby := (hg.sb.mem c (by simp [World.lined, hp])).2
      simp only at h
      rw [if_pos (show ({ w with pending := rest } : World).status c = .standby from hs)] at h
      cases h
      refine ⟨rfl, rfl, fun d hd => by simpa [World.modC] using fun h => absurd h hd, ?_, ?_, fun q => List.Sublist.refl _, .inl ⟨rfl, hs, rfl⟩⟩
      · simp [World.status, World.modC]
      · simp [World.modC]

/-! ## which components a call touches -/

/-- specification: the component is the subject of the call, or it is a claimer of a preemptive resource that is requested -/
def Op.touches (w : World) : Op → CId → Prop
  | .hold c .., d | .passivate c, d | .activate c .., d | .create c .., d | .interrupt c, d | .resume c .., d | .standby c, d
  | .setRemaining c .., d | .cancel c, d | .wait c .., d | .waitFor c .., d | .fromStore c .., d | .toStore c .., d => d = c
  | .request c args .., d => d = c ∨ bumpable w args d
  | .runStart .., d => d = w.main
  | .terminate, d => d = w.current
  | .step, _ => True
  | _, _ => False

/-- a call leaves a component that it doesn't touch and that isn't waiting for anything as it is (but for what it claims),
and its pending events as well -/
theorem exec_frozen {w w' : World} {fuel o} (hg : Good ∅ w) (hc : Calm fuel w o) (hs : o ≠ .step) (h : exec fuel o w = .ok w') :
    w'.main = w.main ∧ w'.now = w.now ∧
      (∀ d, ¬ o.touches w d → NoWait (w.comps d) → ∃ l, w'.comps d = { w.comps d with claims := l }) ∧
        Evs (fun d => o.touches w d ∨ ¬ NoWait (w.comps d)) w w' := by
  obtain ⟨hex, hok, hc⟩ := hc
  clear hex
  have key : ∀ {c P}, Eff c P w w' → (∀ d, ¬ o.touches w d → d ≠ c ∧ ¬ P d) → w'.main = w.main ∧ w'.now = w.now ∧
      (∀ d, ¬ o.touches w d → NoWait (w.comps d) → ∃ l, w'.comps d = { w.comps d with claims := l }) ∧
        Evs (fun d => o.touches w d ∨ ¬ NoWait (w.comps d)) w w' :=
    fun e ht => ⟨e.main, e.now, fun d hd hn => e.frozen d (ht d hd).1 (ht d hd).2 hn, e.evs.mono fun d hd => by
      by_contra hx
      obtain ⟨h1, h2⟩ := not_or.1 hx
      rcases hd with hd | hd | hd
      · exact (ht d h1).1 hd
      · exact (ht d h1).2 hd
      · exact h2 hd⟩
  have same : w'.comps = w.comps → w'.main = w.main → w'.now = w.now → w'.events = w.events → w'.main = w.main ∧ w'.now = w.now ∧
      (∀ d, ¬ o.touches w d → NoWait (w.comps d) → ∃ l, w'.comps d = { w.comps d with claims := l }) ∧
        Evs (fun d => o.touches w d ∨ ¬ NoWait (w.comps d)) w w' :=
    fun h1 h2 h3 h4 => ⟨h2, h3, fun d _ _ => ⟨(w.comps d).claims, by rw [h1]⟩, .of_eq h4⟩
  have trc : TrC ∅ w w' → w'.main = w.main ∧ w'.now = w.now ∧
      (∀ d, ¬ o.touches w d → NoWait (w.comps d) → ∃ l, w'.comps d = { w.comps d with claims := l }) ∧
        Evs (fun d => o.touches w d ∨ ¬ NoWait (w.comps d)) w w' :=
    fun t => ⟨t.main, t.now, fun d _ hn => t.frozen d hn, t.evs.mono fun _ h => .inr h⟩
  have onq : ∀ q f, onQueue q f w = .ok w' → w'.comps = w.comps ∧ w'.main = w.main ∧ w'.now = w.now ∧ w'.events = w.events := by
    intro q f h
    obtain ⟨q', _, he⟩ := onQueue_ok h
    rw [he]; exact ⟨rfl, rfl, rfl, rfl⟩
  cases o <;> simp only [exec] at h
  case hold => exact key (hold_out hg h).1 fun d hd => ⟨hd, id⟩
  case passivate => exact key (passivate_out hg h).1 fun d hd => ⟨hd, id⟩
  case activate => exact key (activate_out hg (by simp) h).1 fun d hd => ⟨hd, id⟩
  case create => exact key (create_out hg h).1 fun d hd => ⟨hd, id⟩
  case interrupt => exact key (interrupt_out hg h).1 fun d hd => ⟨hd, id⟩
  case resume => exact key (resume_out h).1 fun d hd => ⟨hd, id⟩
  case standby => exact key (standby_out hg h).1 fun d hd => ⟨hd, id⟩
  case setRemaining => exact key (setRemaining_out hg h).1 fun d hd => ⟨hd, id⟩
  case cancel => exact key (cancel_out hg h).1 fun d hd => ⟨hd, id⟩
  case request => exact key (request_out hg hok hc h).1 fun d hd => not_or.1 hd
  case release => exact trc (trRC_releaseArgs hg _ _ _ w' h)
  case releaseAll => exact trc (trRC_releaseAll hg _ _ w' h)
  case resRelease => exact trc (trRC_resRelease hg _ _ _ w' h)
  case resSetCapacity => exact trc (trR_resSetCapacity hg _ _ _ w' h).c
  case wait => exact key (wait_out hg hc h).1 fun d hd => ⟨hd, id⟩
  case waitFor => exact key (waitFor_out hg hc h).1 fun d hd => ⟨hd, id⟩
  case stateSet => exact trc (trR_stateSet hg _ _ w' h).c
  case stateTrigger => exact trc (trR_stateTrigger hg _ _ _ _ w' h).c
  case fromStore => exact key (fromStore_out hg h).1 fun d hd => ⟨hd, id⟩
  case toStore => exact key (toStore_out hg h).1 fun d hd => ⟨hd, id⟩
  case rescan => exact trc (trR_rescan _ hg _ w' h).c
  case storeSetCapacity => exact trc (trR_storeSetCapacity _ hg _ _ w' h).c
  case storeEnter => exact trc ((trR_store ∅ fuel).1 _ _ _ _ hg w' h).c
  case storeLeave => exact trc ((trR_store ∅ fuel).2 _ _ _ hg w' h).c
  case queueSetCapacity n k => cases h; exact same rfl rfl rfl rfl
  case queueReset q => cases h; exact same rfl rfl rfl rfl
  case runStart => exact key (runStart_out hg h).1 fun d hd => ⟨hd, id⟩
  case resetNow => cases h; exact same rfl rfl rfl rfl
  case step => exact absurd rfl hs
  case terminate => exact key (terminate_out hg hc h).1 fun d hd => ⟨hd, id⟩
  all_goals exact same (onq _ _ h).1 (onq _ _ h).2.1 (onq _ _ h).2.2.1 (onq _ _ h).2.2.2

end Verif
