import Verif.CalmOps

/-!
# What the calls do to their subject and to the other components

In a consistent world a call that returns changes, apart from its subject `c`, only components that are waiting for something
(and, with preemption, claimers of the resource).
-/

namespace Verif
open World

/-- apart from `c` and the components in `P`, components that don't wait for anything are untouched (but for what they claim) -/
structure Eff (c : CId) (P : CId → Prop) (w w' : World) : Prop where
  main : w'.main = w.main
  now : w'.now = w.now
  frozen : ∀ d, d ≠ c → ¬ P d → NoWait (w.comps d) → ∃ l, w'.comps d = { w.comps d with claims := l }
  evs : Evs (fun d => d = c ∨ P d ∨ ¬ NoWait (w.comps d)) w w'

/-- nobody -/
def nobody : CId → Prop := fun _ => False

theorem noWait_claims {x y : Comp} {l} (h : y = { x with claims := l }) (hn : NoWait x) : NoWait y := by
  rw [h]; exact ⟨hn.req, hn.wai, hn.frm, hn.tos⟩

theorem Eff.refl (c P) (w : World) : Eff c P w w := ⟨rfl, rfl, fun _ _ _ _ => ⟨_, rfl⟩, .refl _ _⟩
theorem Eff.trans {c P} {w1 w2 w3 : World} (h : Eff c P w1 w2) (h2 : Eff c P w2 w3) : Eff c P w1 w3 := by
  refine ⟨h2.main.trans h.main, h2.now.trans h.now, fun d hd hp hn => ?_, fun x hx => ?_⟩
  rotate_left
  · simp only [not_or, not_not] at hx
    obtain ⟨hd, hp, hn⟩ := hx
    obtain ⟨l, hl⟩ := h.frozen _ hd hp hn
    have hn' := noWait_claims hl hn
    exact (h2.evs x (by simp only [not_or, not_not]; exact ⟨hd, hp, hn'⟩)).trans (h.evs x (by simp only [not_or, not_not]; exact ⟨hd, hp, hn⟩))
  obtain ⟨l, hl⟩ := h.frozen d hd hp hn
  obtain ⟨l2, hl2⟩ := h2.frozen d hd hp (noWait_claims hl hn)
  exact ⟨l2, by rw [hl2, hl]⟩
theorem Eff.mk' {c P} {w w' : World} (h1 : w'.main = w.main) (h2 : w'.now = w.now) (h3 : ∀ d, d ≠ c → w'.comps d = w.comps d)
    (h4 : Evs (· = c) w w' := by exact .of_eq rfl) : Eff c P w w' :=
  ⟨h1, h2, fun d hd _ _ => ⟨(w.comps d).claims, by rw [h3 d hd]⟩, h4.mono fun _ h => .inl h⟩
theorem Eff.modC (c P) (w : World) (f : Comp → Comp) : Eff c P w (w.modC c f) := .mk' rfl rfl fun _ hd => modC_other hd _ _
theorem Start.eff {e P} {c} {w w' : World} (h : Start e c w w') : Eff c P w w' := .mk' h.main h.now h.other h.evs
theorem Resched.eff {c t P} {w w' : World} (h : Resched c t w w') : Eff c P w w' := .mk' h.main h.now h.other h.evs
theorem Tr.eff {e} {w w' : World} (h : Tr e w w') (c P) : Eff c P w w' := ⟨h.main, h.now, fun d _ _ hn => ⟨(w.comps d).claims, by rw [h.frozen d hn]⟩, h.evs.mono fun _ h => .inr (.inr h)⟩
theorem TrC.eff {e} {w w' : World} (h : TrC e w w') (c P) : Eff c P w w' := ⟨h.main, h.now, fun d _ _ hn => h.frozen d hn, h.evs.mono fun _ h => .inr (.inr h)⟩
theorem Woken.eff {c P} {w w' : World} (h : Woken c w w') : Eff c P w w' := .mk' h.main h.now h.other h.evs

/-! ## the moment asked for -/

/-- specification: the moment asked for by `hold(duration, till=till)`; `till` is a presented time -/
def holdTime (w : World) : Option ETime → Option ETime → Option ETime
  | none, none => some (w.now : ETime)
  | some d, none => some ((w.now : ETime) + d)
  | none, some t => some (t + (w.offset : ETime))
  | some _, some _ => none

/-- specification: the moment asked for by `activate(at=at, delay=delay)` -/
def atTime (w : World) (at_ : Option ETime) (delay : ETime) : ETime :=
  (match at_ with
  | none => (w.now : ETime)
  | some a => a + (w.offset : ETime)) + delay

/-- `c` has this status and scheduled time -/
structure At (c : CId) (s : Status) (t : ETime) (w : World) : Prop where
  status : w.status c = s
  time : (w.comps c).schedTime = t
  nowait : s ≠ .requesting → s ≠ .waiting → NoWait (w.comps c)

theorem holdTime_congr {w w' : World} (h1 : w'.now = w.now) (h2 : w'.offset = w.offset) (d t) : holdTime w' d t = holdTime w d t := by
  cases d <;> cases t <;> simp [holdTime, h1, h2]

theorem resched_at {c : CId} {t p : ETime} {u k ret} {w w' : World} {s : Status} (hn : s ≠ .requesting → s ≠ .waiting → NoWait (w.comps c))
    (h : reschedule c t p u k ret (setStatus c s w) = .ok w') : Eff c nobody w w' ∧ At c s (max t w.now) w' ∧ (t < (w.now : ETime) → k = true) := by
  obtain ⟨hr, hk⟩ := reschedule_ok h
  have hself : w'.comps c = { (w.comps c) with status := s, schedTime := max t w.now, onList := (w.comps c).onList || decide (max t (w.now : ETime) ≠ ⊤) } := by
    rw [hr.self]; simp [setStatus, World.modC]
  refine ⟨(Eff.modC c nobody w _).trans hr.eff, ⟨by simp [World.status, hself], by rw [hself], ?_⟩, hk⟩
  intro h1 h2
  have := hn h1 h2
  rw [hself]; exact ⟨this.req, this.wai, this.frm, this.tos⟩

/-- hold: either at once interrupted, or scheduled -/
theorem hold_out {w w' : World} {c d t p u k i} (hg : Good ∅ w) (h : hold c d t p u k i w = .ok w') :
    Eff c nobody w w' ∧ w.status c ≠ .data ∧ ∃ T, holdTime w d t = some T ∧ (T < (w.now : ETime) → k = true) ∧
      (i = 0 → At c .scheduled (max T w.now) w') ∧
      (i ≠ 0 → w'.status c = .interrupted ∧ (w'.comps c).remaining = ETime.subQ (max T w.now) w.now ∧ (w'.comps c).intrLevel = i ∧
        (w'.comps c).intrStatus = .scheduled ∧ NoWait (w'.comps c)) := by
  unfold hold at h
  obtain ⟨w1, h1, h2⟩ := andThen_ok h
  have s1 : Start ∅ c w w1 ∧ w.status c ≠ .data := by
    split at h1
    · rename_i hs
      cases h1
      exact ⟨start_idle hg (by simp) hs.symm, by rcases hs with h | h <;> rw [h] <;> simp⟩
    · exact start_notData hg h1
  obtain ⟨s1, hd⟩ := s1
  simp only at h2
  split at h2
  · cases h2
  · rename_i T hT0
    have hT : holdTime w d t = some T := by
      rw [← holdTime_congr s1.now s1.offset]
      cases d <;> cases t <;> simp_all [holdTime]
    have hm : (if T < (w1.now : ETime) then (w1.now : ETime) else T) = max T w.now := by
      rw [s1.now]
      split
      · rw [max_eq_right (le_of_lt (by assumption))]
      · rw [max_eq_left (not_lt.1 (by assumption))]
    split at h2
    · cases h2
    · rename_i hk
      have hk' : T < (w.now : ETime) → k = true := by
        intro hlt
        rw [s1.now] at hk
        cases k with
        | true => rfl
        | false => exact absurd ⟨hlt, rfl⟩ hk
      rw [hm] at h2
      split at h2
      · rename_i hi
        cases h2
        refine ⟨s1.eff.trans (Eff.modC _ _ _ _), hd, T, hT, hk', fun h => absurd h hi, fun _ => ?_⟩
        simp only [World.status, modC_self, s1.now]
        exact ⟨trivial, trivial, trivial, trivial, ⟨s1.nowait.req, s1.nowait.wai, s1.nowait.frm, s1.nowait.tos⟩⟩
      · rename_i hi
        obtain ⟨e2, a2, _⟩ := resched_at (fun _ _ => s1.nowait) h2
        refine ⟨s1.eff.trans e2, hd, T, hT, hk', fun _ => ?_, fun h => absurd h hi⟩
        have : max (max T (w.now : ETime)) w1.now = max T w.now := by rw [s1.now, max_assoc, max_self]
        rw [← this]; exact a2

theorem passivate_out {w w' : World} {c} (hg : Good ∅ w) (h : passivate c w = .ok w') :
    Eff c nobody w w' ∧ At c .passive ⊤ w' ∧ w.status c ≠ .data := by
  unfold passivate at h
  obtain ⟨w1, h1, h2⟩ := andThen_ok h
  cases h2
  have s1 : Eff c nobody w w1 ∧ NoWait (w1.comps c) ∧ w.status c ≠ .data := by
    split at h1
    · rename_i hs
      cases h1
      have s := start_idle hg (by simp) (.inl hs)
      exact ⟨.modC _ _ _ _, by rw [modC_self]; exact ⟨s.nowait.req, s.nowait.wai, s.nowait.frm, s.nowait.tos⟩, by rw [hs]; simp⟩
    · obtain ⟨w2, h2, h3⟩ := andThen_ok h1
      cases h3
      obtain ⟨s, hd⟩ := start_notData hg h2
      exact ⟨s.eff.trans (.modC _ _ _ _), by rw [modC_self]; exact ⟨s.nowait.req, s.nowait.wai, s.nowait.frm, s.nowait.tos⟩, hd⟩
  refine ⟨s1.1.trans (.modC _ _ _ _), ⟨?_, ?_, fun _ _ => ?_⟩, s1.2.2⟩
  · simp [World.status, World.modC]
  · simp [World.modC]
  · have := s1.2.1
    rw [modC_self]; exact ⟨this.req, this.wai, this.frm, this.tos⟩

/-- activate: scheduled for the moment asked for. With keep_request or keep_wait the component keeps waiting. -/
theorem activate_out {e : Set CId} {w w' : World} {c a d p u k pr kr kw} (hg : Good e w) (hc : c ∉ e)
    (h : activate c a d p u k pr kr kw w = .ok w') :
    Eff c nobody w w' ∧ w'.status c = .scheduled ∧ (w'.comps c).schedTime = max (atTime w a d) w.now ∧
      (atTime w a d < (w.now : ETime) → k = true) ∧ (kr = false → kw = false → NoWait (w'.comps c)) := by
  unfold activate at h
  simp only at h
  split at h
  · cases h
  · obtain ⟨w1, h1, h2⟩ := andThen_ok h
    have s1 : Eff c nobody w w1 ∧ w1.offset = w.offset ∧ (kr = false → kw = false → NoWait (w1.comps c)) := by
      split at h1
      · rename_i hs
        cases h1
        exact ⟨.refl _ _ _, rfl, fun _ _ => hg.idle c hc (by simp [hs, Status.idle])⟩
      · obtain ⟨w2, h2, h3⟩ := andThen_ok h1
        split at h3
        · rename_i hkk
          cases h3
          obtain ⟨g, r⟩ := good_remove hg h2
          refine ⟨.mk' r.main r.now r.other r.evs, r.offset, fun h1 h2 => ?_⟩
          rw [h1, h2] at hkk; simp at hkk
        · have s := start_removeFail (w' := w1) hg (by rw [h2]; exact h3)
          exact ⟨s.eff, s.offset, fun _ _ => s.nowait⟩
    obtain ⟨s1, ho, hn⟩ := s1
    have key : ∀ T, reschedule c T p u k none (setStatus c .scheduled w1) = .ok w' → T = atTime w a d →
        reschedule c (atTime w a d) p u k none (setStatus c .scheduled w1) = .ok w' := fun T h hT => hT ▸ h
    obtain ⟨hr, hk⟩ := reschedule_ok (key _ h2 (by cases a <;> simp [atTime, s1.now, ho]))
    have hself : w'.comps c = { (w1.comps c) with status := .scheduled, schedTime := max (atTime w a d) w1.now, onList := (w1.comps c).onList || decide (max (atTime w a d) (w1.now : ETime) ≠ ⊤) } := by
      rw [hr.self]; simp [setStatus, World.modC]
    refine ⟨s1.trans ((Eff.modC c nobody w1 _).trans hr.eff), by simp [World.status, hself], by rw [hself, s1.now], ?_, fun h1 h2 => ?_⟩
    · rw [← s1.now]; exact hk
    · have := hn h1 h2
      rw [hself]; exact ⟨this.req, this.wai, this.frm, this.tos⟩

theorem create_out {w w' : World} {c a d p u k s} (hg : Good ∅ w) (h : create c a d p u k s w = .ok w') :
    Eff c nobody w w' ∧ At c .scheduled (max (atTime w a d) w.now) w' ∧ (atTime w a d < (w.now : ETime) → k = true) ∧ w.status c = .data := by
  unfold create at h
  split at h
  · cases h
  · rename_i hs
    simp only [not_or, Bool.not_eq_true] at hs
    simp only at h
    have hs : w.status c = .data := by simpa using hs.1
    have hn := hg.idle c (by simp) (by simp [hs, Status.idle])
    have e1 : (w.modC c (fun x => { x with status := .scheduled, skipStandby := s, hasProcess := true })) =
        setStatus c .scheduled (w.modC c (fun x => { x with skipStandby := s, hasProcess := true })) := by
      unfold setStatus World.modC
      congr 1
      funext d
      by_cases hd : d = c <;> simp [hd]
    rw [e1] at h
    have key : ∀ T w1, reschedule c T p u k none w1 = .ok w' → T = atTime w a d →
        reschedule c (atTime w a d) p u k none w1 = .ok w' := fun T w1 h hT => hT ▸ h
    replace h := key _ _ h (by cases a <;> simp [atTime])
    obtain ⟨e2, a2, k2⟩ := resched_at (w := w.modC c (fun x => { x with skipStandby := s, hasProcess := true })) (fun _ _ => by
      rw [modC_self]; exact ⟨hn.req, hn.wai, hn.frm, hn.tos⟩) h
    exact ⟨(Eff.modC _ _ _ _).trans e2, a2, k2, hs⟩

/-- interrupt: the first one takes the pending event away and remembers the time left, later ones only count -/
theorem interrupt_out {w w' : World} {c} (hg : Good ∅ w) (h : interrupt c w = .ok w') :
    Eff c nobody w w' ∧
      ((w.status c = .interrupted ∧ w'.comps c = { w.comps c with intrLevel := (w.comps c).intrLevel + 1 }) ∨
       (w.status c = .scheduled ∧ w'.comps c = { w.comps c with onList := false, remaining := (w.comps c).schedTime.subQ w.now, intrStatus := .scheduled, intrLevel := 1, status := .interrupted })) := by
  unfold interrupt at h
  split at h
  · rename_i hs
    cases h
    exact ⟨.modC _ _ _ _, .inl ⟨hs, modC_self _ _ _⟩⟩
  · split at h
    · rename_i hs
      obtain ⟨w1, h1, h2⟩ := andThen_ok h
      cases h2
      obtain ⟨g, r⟩ := good_remove hg h1
      refine ⟨(Eff.mk' r.main r.now r.other r.evs).trans (.modC _ _ _ _), .inr ⟨hs, ?_⟩⟩
      have hs : (w.comps c).status = .scheduled := hs
      rw [modC_self, r.self, r.now]
      simp [hs]
    · cases h

/-- resume: one level less; at level 0 (or with all) scheduled again with the remaining duration -/
theorem resume_out {w w' : World} {c a p u} (h : resume c a p u w = .ok w') :
    Eff c nobody w w' ∧ w.status c = .interrupted ∧
      (((w.comps c).intrLevel - 1 ≠ 0 ∧ a = false ∧ w'.comps c = { w.comps c with intrLevel := (w.comps c).intrLevel - 1 }) ∨
       (((w.comps c).intrLevel - 1 = 0 ∨ a = true) ∧ (w.comps c).intrStatus = .scheduled ∧ ((w.now : ETime) ≤ w.now + (w.comps c).remaining) ∧
        w'.comps c = { w.comps c with intrLevel := (w.comps c).intrLevel - 1, status := .scheduled, schedTime := (w.now : ETime) + (w.comps c).remaining, onList := (w.comps c).onList || decide ((w.now : ETime) + (w.comps c).remaining ≠ ⊤) })) := by
  unfold resume at h
  split at h
  · rename_i hs
    simp only at h
    split at h
    · rename_i hl
      cases h
      rw [modC_self] at hl
      exact ⟨.modC _ _ _ _, hs, .inl ⟨hl.1, hl.2, modC_self _ _ _⟩⟩
    · rename_i hl
      rw [modC_self] at hl
      split at h
      · rename_i hst
        have hst' : (w.comps c).intrStatus = .scheduled := by simpa [setStatus, World.status, World.modC] using hst
        obtain ⟨hr, hk⟩ := reschedule_ok h
        have ht : ((setStatus c ((w.modC c (fun x => { x with intrLevel := x.intrLevel - 1 })).comps c).intrStatus
            (w.modC c (fun x => { x with intrLevel := x.intrLevel - 1 }))).comps c).remaining = (w.comps c).remaining := by
          simp [setStatus, World.modC]
        rw [ht] at hr hk
        have hge : (w.now : ETime) ≤ w.now + (w.comps c).remaining := by
          by_contra hlt
          have := hk (not_le.1 hlt)
          cases this
        have hmx : max ((w.now : ETime) + (w.comps c).remaining) w.now = w.now + (w.comps c).remaining := max_eq_left hge
        refine ⟨?_, hs, .inr ⟨?_, hst', hge, ?_⟩⟩
        · exact ((Eff.modC c nobody w _).trans (Eff.modC c nobody _ _)).trans hr.eff
        · by_cases ha : a = true
          · exact .inr ha
          · left
            by_contra hne
            exact hl ⟨hne, by simpa using ha⟩
        · rw [hr.self]
          simp only [setStatus, World.modC, if_true, hmx, hst']
      · cases h
  · cases h

theorem standby_out {w w' : World} {c} (hg : Good ∅ w) (h : standby c w = .ok w') :
    Eff c nobody w w' ∧ At c .standby w.now w' ∧ w.status c ≠ .data := by
  unfold standby at h
  obtain ⟨w1, h1, h2⟩ := andThen_ok h
  obtain ⟨s, hd⟩ := start_preamble hg (by simp) h1
  cases h2
  refine ⟨.mk' s.main s.now (fun d hd => by simp [World.modC, hd, s.other d hd]) s.evs, ⟨?_, ?_, fun _ _ => ?_⟩, hd⟩
  · simp [World.status, World.modC]
  · simp [World.modC, s.now]
  · have := s.nowait
    refine ⟨?_, ?_, ?_, ?_⟩ <;> simp [World.modC, this.req, this.wai, this.frm, this.tos]

/-- setting the remaining duration: the status stays as it is -/
theorem setRemaining_out {w w' : World} {c v p u} (hg : Good ∅ w) (h : setRemaining c v p u w = .ok w') :
    Eff c nobody w w' ∧ w'.status c = w.status c ∧
     (((w.status c = .passive ∨ w.status c = .interrupted) ∧ w'.comps c = { w.comps c with remaining := v }) ∨
      (w.status c ≠ .passive ∧ w.status c ≠ .interrupted ∧ w.status c ≠ .current ∧ w.status c ≠ .standby ∧ (w.now : ETime) ≤ v + w.now ∧
        (w'.comps c).schedTime = v + w.now)) := by
  unfold setRemaining at h
  split at h
  · rename_i hp
    cases h
    exact ⟨.modC _ _ _ _, by simp [World.status, World.modC], .inl ⟨hp, modC_self _ _ _⟩⟩
  · rename_i hp
    split at h
    · cases h
    · rename_i hp2
      obtain ⟨w1, h1, h2⟩ := andThen_ok h
      obtain ⟨g, r⟩ := good_remove hg h1
      obtain ⟨hr, hk⟩ := reschedule_ok h2
      have hge : (w.now : ETime) ≤ v + w.now := by
        rw [r.now] at hk
        by_contra hlt
        have := hk (not_le.1 hlt)
        cases this
      simp only [not_or] at hp hp2
      refine ⟨(Eff.mk' r.main r.now r.other r.evs).trans hr.eff, ?_, .inr ⟨hp.1, hp.2, hp2.1, hp2.2, hge, ?_⟩⟩
      · simp [World.status, hr.self, r.self]
      · rw [hr.self]
        simp only [r.now]
        exact max_eq_left hge

theorem cancel_out {w w' : World} {fuel c} (hg : Good ∅ w) (h : cancel fuel c w = .ok w') :
    Eff c nobody w w' ∧ w'.status c = .data := by
  unfold cancel at h
  split at h
  · rename_i hs
    cases h; exact ⟨.refl _ _ _, hs⟩
  · obtain ⟨w2, h2, h3⟩ := andThen_ok h
    obtain ⟨w1, h1, h2⟩ := andThen_ok h2
    have s1 : Start ∅ c w w1 := by
      split at h1
      · rename_i hs
        cases h1
        exact start_idle hg (by simp) (.inl hs)
      · exact (start_notData hg h1).1
    have t2 := trRC_releaseAll s1.good fuel c w2 h2
    cases h3
    exact ⟨(s1.eff.trans (t2.eff c nobody)).trans (.modC _ _ _ _), by simp [World.status, World.modC]⟩

theorem terminate_out {w w' : World} {fuel c} (hg : Good ∅ w) (hs : w.status c = .current) (h : terminate fuel c w = .ok w') :
    Eff c nobody w w' ∧ w'.status c = .data := by
  unfold terminate at h
  obtain ⟨w1, h1, h2⟩ := andThen_ok h
  have s1 := start_idle hg (by simp) (.inl hs)
  have t2 := trRC_releaseAll s1.good fuel c w1 h1
  cases h2
  exact ⟨(t2.eff c nobody).trans (.modC _ _ _ _), by simp [World.status, World.modC]⟩

theorem runStart_out {w w' : World} {d t p u k} (hg : Good ∅ w)
    (h : runStart d t p u k w = .ok w') : Eff w.main nobody w w' ∧
      (d = none → t = none → At w.main .scheduled ⊤ w') ∧
      (d ≠ none ∨ t ≠ none → ∃ T, holdTime w d t = some T ∧ (T < (w.now : ETime) → k = true) ∧ At w.main .scheduled (max T w.now) w') := by
  unfold runStart at h
  cases d with
  | none =>
    cases t with
    | none =>
      simp only at h
      obtain ⟨e1, a1, k1⟩ := resched_at (w := ({ w with endOnEmpty := true } : World)) (fun _ _ => hg.main) h
      exact ⟨⟨e1.main, e1.now, e1.frozen, e1.evs⟩, fun _ _ => by simpa using a1, fun h => by simp at h⟩
    | some t =>
      simp only at h
      obtain ⟨e1, a1, k1⟩ := resched_at (w := ({ w with endOnEmpty := false } : World)) (fun _ _ => hg.main) h
      exact ⟨⟨e1.main, e1.now, e1.frozen, e1.evs⟩, fun _ h => by simp at h, fun _ => ⟨_, rfl, k1, a1⟩⟩
  | some d =>
    cases t with
    | none =>
      simp only at h
      obtain ⟨e1, a1, k1⟩ := resched_at (w := ({ w with endOnEmpty := false } : World)) (fun _ _ => hg.main) h
      exact ⟨⟨e1.main, e1.now, e1.frozen, e1.evs⟩, fun h => by simp at h, fun _ => ⟨_, rfl, k1, a1⟩⟩
    | some t => simp at h

/-! ## requests -/

theorem honorNow_self {e : Set CId} {c : CId} {w w' : World} {r : R} (hg : Good e w)
    (h : honorNow c w = some r) (hr : r = .ok w') : ∃ l, w'.comps c =
      { w.comps c with claims := l, requests := [], status := .scheduled, schedTime := (w.now : ETime), onList := true } := by
  unfold honorNow at h
  split at h
  · cases h
  · rename_i hh
    simp only [Option.some.injEq] at h
    subst h
    obtain ⟨w1, h1, h2⟩ := andThen_ok hr
    obtain ⟨g1, c1, n1⟩ := forR_claimOne _ _ _ hg h1
    obtain ⟨l, hl⟩ := c1.self
    have hinv : (w1.modC c (fun x => { x with requests := [] })).Inv := inv_of_ev (ev_modC (fun _ => rfl)) g1.inv
    obtain ⟨w2, h2', k⟩ := wake_woken hinv c none
    rw [h2'] at h2; cases h2
    refine ⟨l, ?_⟩
    rw [k.self, modC_self, hl]
    simp [World.modC, c1.now]

theorem tryReqC_out {fuel : Nat} {c : CId} {w w' : World} (hg : Good {c} w)
    (hw : (w.comps c).waits = [] ∧ (w.comps c).fromStores = [] ∧ (w.comps c).toStores = []) (h : tryReqC fuel c w = .ok w') :
    w' = w ∨ (Eff c nobody w w' ∧ At c .scheduled w.now w' ∧ ∃ l, w'.comps c =
      { w.comps c with claims := l, requests := [], status := .scheduled, schedTime := (w.now : ETime), onList := true }) := by
  cases fuel with
  | zero => rw [tryReqC] at h; cases h
  | succ n =>
    rw [tryReqC] at h
    split at h
    · cases h; exact .inl rfl
    · rename_i res hres
      obtain ⟨w1, h1, h2⟩ := andThen_ok h
      obtain ⟨g1, ne, r1, st, ot, mn, nw, _⟩ := honorNow_good hg (e' := ∅) not_single hres h1
      obtain ⟨l, hl⟩ := honorNow_self hg hres h1
      have t2 := (trR_try ∅ n).2.1 _ w1 g1 w' h2
      have n1 : NoWait (w1.comps c) := by rw [hl]; exact ⟨rfl, hw.1, hw.2.1, hw.2.2⟩
      have f2 := t2.frozen c n1
      right
      refine ⟨(Eff.mk' mn nw.now ot nw.evs).trans (t2.eff _ _), ⟨?_, ?_, fun _ _ => ?_⟩, l, by rw [f2, hl]⟩
      · simp [World.status, f2, hl]
      · rw [f2, hl]
      · rw [f2]; exact n1

theorem activate_evs {e : Set CId} {w w' : World} {c a d p u k pr kr kw} (hg : Good e w)
    (h : activate c a d p u k pr kr kw w = .ok w') : Evs (· = c) w w' := by
  unfold activate at h
  simp only at h
  split at h
  · cases h
  · obtain ⟨w1, h1, h2⟩ := andThen_ok h
    have s1 : Evs (· = c) w w1 := by
      split at h1
      · cases h1; exact .refl _ _
      · obtain ⟨w2, h2, h3⟩ := andThen_ok h1
        split at h3
        · cases h3; exact (good_remove hg h2).2.evs
        · exact (start_removeFail (w' := w1) hg (by rw [h2]; exact h3)).evs
    exact s1.trans (reschedule_ok h2).1.evs

theorem preempt_out {c : CId} {w w' : World} {r q prio} (hg : Good {c} w) (hc : c ∉ w.inQ (.claimers r))
    (h : preempt r q prio w = .ok w') : (w'.now = w.now ∧ Evs (· ∈ w.inQ (.claimers r)) w w') ∧ (∀ d, d ∉ w.inQ (.claimers r) → w'.comps d = w.comps d) := by
  unfold preempt at h
  simp only at h
  split at h
  · have key : ∀ (l : List CId) (w w' : World), (∀ d ∈ l, d ≠ c) → Good {c} w →
        forR l (fun d w => releaseCore d r none w ⊳ activate d none ((0:Rat):ETime) ((0:Rat):ETime) false false false false false) w = .ok w' →
        (w'.now = w.now ∧ Evs (· ∈ l) w w') ∧ ∀ d, d ∉ l → w'.comps d = w.comps d := by
      intro l
      induction l with
      | nil => intro w w' _ hg h; cases h; exact ⟨⟨rfl, .refl _ _⟩, fun _ _ => rfl⟩
      | cons d t ih =>
        intro w w' hl hg h
        unfold forR at h
        obtain ⟨w1, h1, h2⟩ := andThen_ok h
        obtain ⟨w0, h0, h1⟩ := andThen_ok h1
        obtain ⟨g0, k0⟩ := releaseCore_good hg h0
        obtain ⟨g1, m1, o1, _⟩ := activate_good g0 h1
        have e1 := (activate_out g0 (by simpa using hl d (by simp)) h1).1
        obtain ⟨⟨n2, v2⟩, c2⟩ := ih w1 w' (fun x hx => hl x (by simp [hx])) g1 h2
        refine ⟨⟨n2.trans (e1.now.trans k0.now), ?_⟩, fun x hx => ?_⟩
        · exact ((Evs.of_eq k0.events).trans ((activate_evs g0 h1).mono fun _ h => h ▸ List.mem_cons_self)).trans (v2.mono fun _ h => List.mem_cons_of_mem _ h)
        rw [List.mem_cons, not_or] at hx
        rw [c2 x hx.2, o1 x hx.1, k0.other x hx.1]
    have hsub : ∀ d ∈ bumpCandidates (w.res r).avail q prio (w.queues (.claimers r)).mem.reverse, d ∈ w.inQ (.claimers r) := by
      intro d hd
      obtain ⟨m, hm, hmc⟩ := bump_mem hd
      exact List.mem_map.2 ⟨m, by simpa using hm, hmc⟩
    obtain ⟨n, k⟩ := key _ _ _ (fun d hd hdc => hc (hdc ▸ hsub d hd)) hg h
    exact ⟨⟨n.1, n.2.mono hsub⟩, fun d hd => k d fun hm => hd (hsub d hm)⟩
  · cases h; exact ⟨⟨rfl, .refl _ _⟩, fun _ _ => rfl⟩

/-- the components that a request with these arguments can bump: the claimers of preemptive resources among them -/
def bumpable (w : World) (args : List Arg) : CId → Prop := fun d => ∃ a ∈ args, (w.res a.r).preemptive = true ∧ d ∈ w.inQ (.claimers a.r)

/-- the requests after (part of) the arguments of `request` (`put` if called from put) have been treated -/
def asked (put : Bool) (d : List (RId × Rat)) (l : List Arg) : List (RId × Rat) :=
  l.foldl (fun d a => addTo d a.r (if put then -a.q else a.q)) d

theorem requestArg_out {c : CId} {n : Nat} {put : Bool} {a : Arg} {w w' : World} (hg : Good {c} w) (hm : c ≠ w.main)
    (hp : n > 1 ∨ ((w.res a.r).preemptive = true → c ∉ w.inQ (.claimers a.r))) (h : requestArg c n put a w = .ok w') :
    (w'.now = w.now ∧ Evs (fun d => ¬ (n > 1) ∧ (w.res a.r).preemptive = true ∧ d ∈ w.inQ (.claimers a.r)) w w') ∧ (∀ d, d ≠ c → (n > 1 ∨ ((w.res a.r).preemptive = true → d ∉ w.inQ (.claimers a.r))) → w'.comps d = w.comps d) ∧
      w'.comps c = { w.comps c with requests := asked put (w.comps c).requests [a] } := by
  unfold requestArg at h
  simp only at h
  by_cases hpre : (w.res a.r).preemptive = true ∧ n > 1
  · rw [if_pos hpre] at h; cases h
  · rw [if_neg hpre] at h
    simp only [asked, List.foldl_cons, List.foldl_nil]
    generalize (if put = true then -a.q else a.q) = q at h
    by_cases hq : q < 0 ∧ (w.res a.r).anonymous = false
    · rw [if_pos hq] at h; cases h
    · rw [if_neg hq] at h
      obtain ⟨w1, h1, h2⟩ := andThen_ok h
      have g0 : Good {c} (w.modC c (fun x => { x with requests := addTo x.requests a.r q })) := by
        refine hg.grow rfl hm (fun _ => rfl) fun q => awaits_congr (fun r _ h => ?_) (fun _ _ h => h) (fun _ _ h => h) (fun _ _ h => h)
        exact mem_keys_addTo.2 (.inr h)
      have n0 : a.r ∈ keys ((w.modC c (fun x => { x with requests := addTo x.requests a.r q })).comps c).requests := by
        rw [modC_self]; exact mem_keys_addTo.2 (.inl rfl)
      have o0 : ∀ d, d ≠ c → (w.modC c (fun x => { x with requests := addTo x.requests a.r q })).comps d = w.comps d :=
        fun d hd => modC_other hd _ _
      have s0 : (w.modC c (fun x => { x with requests := addTo x.requests a.r q })).comps c =
          { w.comps c with requests := addTo (w.comps c).requests a.r q } := modC_self _ _ _
      have m0 : (w.modC c (fun x => { x with requests := addTo x.requests a.r q })).now = w.now := rfl
      have v0 : (w.modC c (fun x => { x with requests := addTo x.requests a.r q })).events = w.events := rfl
      have q0 : ∀ p, (w.modC c (fun x => { x with requests := addTo x.requests a.r q })).inQ p = w.inQ p := fun _ => rfl
      generalize w.modC c (fun x => { x with requests := addTo x.requests a.r q }) = w0 at h1 g0 n0 o0 m0 q0 s0 v0
      obtain ⟨e1, e2, e3, e4⟩ := enterQ_inQ h1
      have g1 : Good {c} w1 := good_enter (q := .requesters a.r) g0 n0 e1 e2 e3
      have c1 : w1.comps = w0.comps := by rw [e1]; rfl
      have m1 : w1.now = w0.now := by rw [e1]; rfl
      have v1 : w1.events = w.events := by rw [← v0, e1]; rfl
      split at h2
      · rename_i hpr
        rcases hp with hp | hp
        · exact absurd ⟨hpr, hp⟩ hpre
        · have hc : c ∉ w1.inQ (.claimers a.r) := by rw [e4 _ (by simp), q0]; exact hp hpr
          obtain ⟨⟨n2, v2⟩, o2⟩ := preempt_out g1 hc h2
          have v3 : Evs (fun d => ¬ (n > 1) ∧ (w.res a.r).preemptive = true ∧ d ∈ w.inQ (.claimers a.r)) w w' := by
            refine (Evs.of_eq v1).trans (v2.mono fun d hd => ⟨fun hn => hpre ⟨hpr, hn⟩, hpr, ?_⟩)
            rwa [e4 _ (by simp), q0] at hd
          refine ⟨⟨by rw [n2, m1, m0], v3⟩, fun d hd hdp => ?_, ?_⟩
          · have : d ∉ w1.inQ (.claimers a.r) := by
              rw [e4 _ (by simp), q0]
              rcases hdp with hdp | hdp
              · exact absurd ⟨hpr, hdp⟩ hpre
              · exact hdp hpr
            rw [o2 d this, c1, o0 d hd]
          · rw [o2 c hc, c1]; exact s0
      · cases h2
        exact ⟨⟨m1.trans m0, .of_eq v1⟩, fun d hd _ => by rw [c1, o0 d hd], by rw [c1]; exact s0⟩

theorem requestArgs_out {c : CId} {n : Nat} {put : Bool} (hn : n > 1) : ∀ (l : List Arg) (w w' : World), Good {c} w → c ≠ w.main →
    (w.comps c).onList = false → forR l (requestArg c n put) w = .ok w' →
    (w'.now = w.now ∧ Evs (fun _ => False) w w') ∧ (∀ d, d ≠ c → w'.comps d = w.comps d) ∧
      w'.comps c = { w.comps c with requests := asked put (w.comps c).requests l }
  | [], w, w', hg, hm, ho, h => by cases h; exact ⟨⟨rfl, .refl _ _⟩, fun _ _ => rfl, rfl⟩
  | a :: t, w, w', hg, hm, ho, h => by
    unfold forR at h
    obtain ⟨w1, h1, h2⟩ := andThen_ok h
    obtain ⟨g1, m1, o1, r1⟩ := requestArg_good hg hm ho (.inl hn) h1
    obtain ⟨n1, f1, s1⟩ := requestArg_out hg hm (.inl hn) h1
    obtain ⟨n2, f2, s2⟩ := requestArgs_out hn t w1 w' g1 (by rw [m1]; exact hm) o1 h2
    exact ⟨⟨n2.1.trans n1.1, (n1.2.mono fun _ h => h.1 hn).trans n2.2⟩, fun d hd => (f2 d hd).trans (f1 d hd (.inl hn)), by rw [s2, s1]; rfl⟩

theorem lowerMinq_out (w : World) (l : List (RId × Rat)) : (lowerMinq l w).now = w.now := by
  unfold lowerMinq
  induction l generalizing w with
  | nil => rfl
  | cons p t ih => exact ih _

theorem lowerMinq_events (w : World) (l : List (RId × Rat)) : (lowerMinq l w).events = w.events := by
  unfold lowerMinq
  induction l generalizing w with
  | nil => rfl
  | cons p t ih => exact ih _

theorem failTime_congr {w w' : World} (h1 : w'.now = w.now) (h2 : w'.offset = w.offset) (a d) : failTime w' a d = failTime w a d := by
  cases a <;> cases d <;> simp [failTime, h1, h2]

/-- request: honored at once (scheduled for now), or requesting until the moment of failure -/
theorem request_out {w w' : World} {fuel c args o pu fa fd p u k} (hg : Good ∅ w) (hr : ReqOK w c args) (hm : c ≠ w.main)
    (h : request fuel c args o pu fa fd p u k w = .ok w') : Eff c (bumpable w args) w w' ∧ w.status c ≠ .data ∧
      ∃ T, failTime w fa fd = some T ∧
       ((At c .scheduled w.now w' ∧ (w'.comps c).requests = []) ∨
        (At c .requesting (max T w.now) w' ∧ (w'.comps c).requests ≠ [] ∧ (T < (w.now : ETime) → k = true))) := by
  unfold request at h
  have g0 : Good ∅ (w.modC c (fun x => { x with oneof := o })) :=
    hg.modC' (fun _ => rfl) (fun _ => rfl) (fun _ => rfl) (fun _ => rfl) (fun _ => rfl)
  obtain ⟨w1, h1, h2⟩ := andThen_ok h
  obtain ⟨s1, hd⟩ := start_preamble g0 (by simp) h1
  have hd : w.status c ≠ .data := by simpa [World.status, World.modC] using hd
  have sc1 : SameCl w w1 := by
    have := sc_preamble c (w.modC c (fun x => { x with oneof := o }))
    rw [h1] at this
    exact SameCl.trans (b := w.modC c (fun x => { x with oneof := o })) ⟨fun _ => rfl, fun _ => rfl⟩ this
  have m1 : w1.main = w.main := s1.main
  have n1 : w1.now = w.now := s1.now
  have f1 : w1.offset = w.offset := s1.offset
  simp only at h2
  rw [failTime_congr n1 f1] at h2
  split at h2
  · cases h2
  · rename_i t ht
    have hne : args.isEmpty = false := by
      cases args with
      | nil => exact absurd rfl hr.1
      | cons a t => rfl
    simp only [hne, Bool.false_eq_true, if_false] at h2
    obtain ⟨w3, h3, h4⟩ := andThen_ok h2
    have g2 : Good {c} (w1.modC c (fun x => { x with failed := false })) := by
      have := s1.good.modC' (c := c) (f := fun x => { x with failed := false }) (fun _ => rfl) (fun _ => rfl) (fun _ => rfl) (fun _ => rfl) (fun _ => rfl)
      simpa using this
    have o2 : ((w1.modC c (fun x => { x with failed := false })).comps c).onList = false := by rw [modC_self]; exact s1.off
    have m2 : (w1.modC c (fun x => { x with failed := false })).main = w.main := m1
    have nw2 : (w1.modC c (fun x => { x with failed := false })).now = w.now := n1
    have ev2 : Evs (· = c) w (w1.modC c (fun x => { x with failed := false })) := s1.evs
    have wt2 : NoWait ((w1.modC c (fun x => { x with failed := false })).comps c) := by
      rw [modC_self]; exact ⟨s1.nowait.req, s1.nowait.wai, s1.nowait.frm, s1.nowait.tos⟩
    have ef2 : ∀ d, d ≠ c → (w1.modC c (fun x => { x with failed := false })).comps d = w.comps d := by
      intro d hd
      rw [modC_other hd, s1.other d hd, modC_other hd]
    have sc2 : SameCl w (w1.modC c (fun x => { x with failed := false })) := sc1.trans ⟨fun _ => rfl, fun _ => rfl⟩
    generalize w1.modC c (fun x => { x with failed := false }) = w2 at h3 g2 o2 m2 sc2 nw2 wt2 ef2 ev2
    have s3 : Good {c} w3 ∧ (w3.comps c).onList = false ∧ (w3.comps c).requests ≠ [] ∧ w3.main = w2.main ∧ (w3.now = w2.now ∧ Evs (bumpable w args) w2 w3) ∧
        (∀ d, d ≠ c → ¬ bumpable w args d → w3.comps d = w2.comps d) ∧ ∃ l, w3.comps c = { w2.comps c with requests := l } := by
      obtain ⟨_, hr⟩ := hr
      match args, hr, h3, hne with
      | [a], hr, h3, _ =>
        unfold forR at h3
        obtain ⟨w5, h5, h6⟩ := andThen_ok h3
        cases h6
        have hcl : (w2.res a.r).preemptive = true → c ∉ w2.inQ (.claimers a.r) := by
          intro hpre
          have h7 := hr a (by simp) (by rw [← sc2.1]; exact hpre)
          rw [← sc2.2] at h7
          rw [← has_inQ, h7]; simp
        have k1 := requestArg_good g2 (by rw [m2]; exact hm) o2 (.inr hcl) h5
        have k2 := requestArg_out g2 (by rw [m2]; exact hm) (.inr hcl) h5
        refine ⟨k1.1, k1.2.2.1, k1.2.2.2, k1.2.1, ⟨k2.1.1, k2.1.2.mono fun d hd => ⟨a, by simp, ?_, ?_⟩⟩,
          fun d hd hb => k2.2.1 d hd (.inr fun hpre hcl => hb ⟨a, by simp, ?_, ?_⟩), _, k2.2.2⟩
        · rw [← sc2.1]; exact hd.2.1
        · have := hd.2.2
          simp only [World.inQ] at this ⊢
          rw [← sc2.2]; exact this
        · rw [← sc2.1]; exact hpre
        · simp only [World.inQ] at hcl ⊢
          rw [← sc2.2]; exact hcl
      | a :: b :: t, hr, h3, _ =>
        have hn : (a :: b :: t).length > 1 := by simp
        obtain ⟨k1, k2, k3⟩ := requestArgs_out (put := pu) hn _ w2 w3 g2 (by rw [m2]; exact hm) o2 h3
        generalize (a :: b :: t).length = n at h3 hn
        unfold forR at h3
        obtain ⟨w5, h5, h6⟩ := andThen_ok h3
        obtain ⟨g5, m5, o5, r5⟩ := requestArg_good g2 (by rw [m2]; exact hm) o2 (.inl hn) h5
        obtain ⟨g6, m6, o6, r6⟩ := requestArgs_good hn _ w5 w3 g5 (by rw [m5, m2]; exact hm) o5 r5 h6
        exact ⟨g6, o6, r6, m6.trans m5, ⟨k1.1, k1.2.mono fun _ h => h.elim⟩, fun d hd _ => k2 d hd, _, k3⟩
    obtain ⟨g3, o3, r3, m3, nw3, ef3, l3, sf3⟩ := s3
    have e3 : Eff c (bumpable w args) w w3 := ⟨m3.trans m2, nw3.1.trans nw2, fun d hd hb _ => ⟨(w.comps d).claims, by rw [ef3 d hd hb, ef2 d hd]⟩,
      (ev2.mono fun _ h => .inl h).trans (nw3.2.mono fun _ h => .inr (.inl h))⟩
    have q3 : (w3.comps c).waits = [] ∧ (w3.comps c).fromStores = [] ∧ (w3.comps c).toStores = [] := by
      rw [sf3]; exact ⟨wt2.wai, wt2.frm, wt2.tos⟩
    obtain ⟨g4, c4, m4⟩ := lowerMinq_good g3 (w3.comps c).requests
    have n4 := lowerMinq_out w3 (w3.comps c).requests
    obtain ⟨w5, h5, h6⟩ := andThen_ok h4
    have e4 : Eff c (bumpable w args) w (lowerMinq (w3.comps c).requests w3) := e3.trans (.mk' m4 n4 (fun d _ => by rw [c4]) (.of_eq (lowerMinq_events _ _)))
    have o4 : ((lowerMinq (w3.comps c).requests w3).comps c).onList = false := by rw [c4]; exact o3
    have r4 : ((lowerMinq (w3.comps c).requests w3).comps c).requests ≠ [] := by rw [c4]; exact r3
    have q4 : ((lowerMinq (w3.comps c).requests w3).comps c).waits = [] ∧ ((lowerMinq (w3.comps c).requests w3).comps c).fromStores = [] ∧
      ((lowerMinq (w3.comps c).requests w3).comps c).toStores = [] := by rw [c4]; exact q3
    generalize lowerMinq (w3.comps c).requests w3 = w4 at h5 g4 o4 r4 e4 q4
    have g5 : Good {c} (w4.modC c (fun x => { x with remaining := t.subQ w4.now })) := by
      refine g4.set (fun _ _ => Iff.rfl) o4 ?_ ?_ ?_ ?_ ?_ ?_ ?_ <;> simp
    have e5 : Eff c (bumpable w args) w (w4.modC c (fun x => { x with remaining := t.subQ w4.now })) := e4.trans (.modC _ _ _ _)
    have q5 : ((w4.modC c (fun x => { x with remaining := t.subQ w4.now })).comps c).waits = [] ∧
      ((w4.modC c (fun x => { x with remaining := t.subQ w4.now })).comps c).fromStores = [] ∧
      ((w4.modC c (fun x => { x with remaining := t.subQ w4.now })).comps c).toStores = [] := by rw [modC_self]; exact q4
    have n5 : (w4.modC c (fun x => { x with remaining := t.subQ w4.now })).now = w.now := e5.now
    have r5 : ((w4.modC c (fun x => { x with remaining := t.subQ w4.now })).comps c).requests ≠ [] := by rw [modC_self]; exact r4
    generalize w4.modC c (fun x => { x with remaining := t.subQ w4.now }) = w4' at h5 g5 e5 q5 n5 r5
    rcases tryReqC_out g5 q5 h5 with rfl | ⟨e6, a6, l6, r6⟩
    · rw [if_neg r5] at h6
      obtain ⟨e6, a6, k6⟩ := resched_at (fun h => absurd rfl h) h6
      rw [n5] at a6 k6
      refine ⟨e5.trans ⟨e6.main, e6.now, fun d hd _ => e6.frozen d hd id, e6.evs.mono fun _ h => h.imp id (.imp (fun h => h.elim) id)⟩, hd, t, ht, .inr ⟨a6, ?_, k6⟩⟩
      rw [((reschedule_ok h6).1).self]
      simpa [setStatus, World.modC] using r5
    · have r6' : (w5.comps c).requests = [] := by rw [r6]
      rw [if_pos r6'] at h6
      cases h6
      rw [n5] at a6
      exact ⟨e5.trans ⟨e6.main, e6.now, fun d hd _ => e6.frozen d hd id, e6.evs.mono fun _ h => h.imp id (.imp (fun h => h.elim) id)⟩, hd, t, ht, .inl ⟨a6, r6'⟩⟩

/-! ## waits -/

theorem tryWait_self {e : Set CId} {c : CId} {w w' : World} (hg : Good e w) (h : (tryWait c w).1 = .ok w') :
    w' = w ∨ w'.comps c = { w.comps c with waits := [], status := .scheduled, schedTime := (w.now : ETime), onList := true } := by
  unfold tryWait at h
  split at h
  · cases h; exact .inl rfl
  · split at h
    · right
      simp only at h
      obtain ⟨w1, h1, h2⟩ := andThen_ok h
      obtain ⟨l1, n1⟩ := forR_lv (g := fun (x : Wait) => .waiters x.s) (fun a w w' => leaveWaiters_lv) _ _ _ h1 hg.nd
      have hinv : (w1.modC c (fun x => { x with waits := [] })).Inv := inv_of_ev (ev_modC (fun _ => rfl)) (l1.good hg).inv
      obtain ⟨w2, h2', k⟩ := wake_woken hinv c none
      rw [h2'] at h2; cases h2
      rw [k.self, modC_self, l1.comps]
      have : w1.now = w.now := congrArg EV.now l1.ev
      simp [World.modC, this]
    · cases h; exact .inl rfl

theorem waitArg_out {c : CId} {a : WArg} {w w' : World} (h : waitArg c a w = .ok w') :
    Eff c nobody w w' ∧ (∀ d, d ≠ c → w'.comps d = w.comps d) ∧ ∃ l, w'.comps c = { w.comps c with waits := l } := by
  unfold waitArg at h
  obtain ⟨w1, h1, h2⟩ := andThen_ok h
  cases h2
  have key : w1.main = w.main ∧ w1.comps = w.comps ∧ w1.now = w.now ∧ w1.events = w.events := by
    split at h1
    · cases h1; exact ⟨rfl, rfl, rfl, rfl⟩
    · split at h1 <;> (obtain ⟨q', _, he⟩ := onQueue_ok h1; rw [he]; exact ⟨rfl, rfl, rfl, rfl⟩)
  obtain ⟨k1, k2, k3, k4⟩ := key
  have ho : ∀ d, d ≠ c → (w1.modC c (fun x => { x with waits := x.waits ++ [⟨a.s, a.ok⟩] })).comps d = w.comps d := by
    intro d hd; rw [modC_other hd, k2]
  exact ⟨.mk' k1 k3 ho (.of_eq k4), ho, _, by rw [modC_self, k2]⟩

theorem waitEnd_out {c : CId} {w w' : World} {t p u k} (hg : Good {c} w) (hoff : (w.comps c).onList = false)
    (hw : (w.comps c).requests = [] ∧ (w.comps c).fromStores = [] ∧ (w.comps c).toStores = [])
    (h : waitEnd c t p u k w = .ok w') : Eff c nobody w w' ∧
      ((At c .scheduled w.now w' ∧ (w'.comps c).waits = []) ∨
       (At c .waiting (max t w.now) w' ∧ (w'.comps c).waits ≠ [] ∧ (t < (w.now : ETime) → k = true))) := by
  unfold waitEnd at h
  split at h
  · cases h
  · rename_i hne
    simp only at h
    obtain ⟨w1, h1, h2⟩ := andThen_ok h
    have e0 : Eff c nobody w (w.modC c (fun x => { x with remaining := t.subQ w.now })) := .modC _ _ _ _
    have g1 : Good {c} (w.modC c (fun x => { x with remaining := t.subQ w.now })) := by
      refine hg.set (fun _ _ => Iff.rfl) hoff ?_ ?_ ?_ ?_ ?_ ?_ ?_ <;> simp
    have n1 : ¬ ((w.modC c (fun x => { x with remaining := t.subQ w.now })).comps c).waits.isEmpty = true := by rw [modC_self]; exact hne
    have w0' : (w.modC c (fun x => { x with remaining := t.subQ w.now })).now = w.now := rfl
    have hw' : ((w.modC c (fun x => { x with remaining := t.subQ w.now })).comps c).requests = [] ∧
      ((w.modC c (fun x => { x with remaining := t.subQ w.now })).comps c).fromStores = [] ∧
      ((w.modC c (fun x => { x with remaining := t.subQ w.now })).comps c).toStores = [] := by rw [modC_self]; exact hw
    generalize w.modC c (fun x => { x with remaining := t.subQ w.now }) = w0 at h1 g1 n1 e0 w0' hw'
    have hs := tryWait_self g1 h1
    rcases tryWait_good g1 (e' := ∅) not_single h1 with rfl | ⟨_, g2, e2, s2, o2, m2, nw2, _⟩
    · rw [if_neg n1] at h2
      obtain ⟨e6, a6, k6⟩ := resched_at (fun _ h => absurd rfl h) h2
      rw [w0'] at a6 k6
      refine ⟨e0.trans e6, .inr ⟨a6, ?_, k6⟩⟩
      rw [((reschedule_ok h2).1).self]
      simpa [setStatus, World.modC] using n1
    · rw [if_pos (by rw [e2]; rfl)] at h2
      cases h2
      refine ⟨e0.trans (.mk' m2 nw2.now o2 nw2.evs), .inl ⟨?_, e2⟩⟩
      rcases hs with rfl | hs
      · rw [e2] at n1; exact absurd rfl n1
      · refine ⟨s2, by rw [hs, w0'], fun _ _ => ?_⟩
        rw [hs]; exact ⟨hw'.1, rfl, hw'.2.1, hw'.2.2⟩

theorem wait_out {w w' : World} {c args a fa fd p u k} (hg : Good ∅ w) (hm : c ≠ w.main)
    (h : wait c args a fa fd p u k w = .ok w') : Eff c nobody w w' ∧ w.status c ≠ .data ∧
      ∃ T, failTime w fa fd = some T ∧
       ((At c .scheduled w.now w' ∧ (w'.comps c).waits = []) ∨
        (At c .waiting (max T w.now) w' ∧ (w'.comps c).waits ≠ [] ∧ (T < (w.now : ETime) → k = true))) := by
  unfold wait at h
  have g0 : Good ∅ (w.modC c (fun x => { x with cond := none })) :=
    hg.modC' (fun _ => rfl) (fun _ => rfl) (fun _ => rfl) (fun _ => rfl) (fun _ => rfl)
  obtain ⟨w1, h1, h2⟩ := andThen_ok h
  obtain ⟨s1, hd⟩ := start_preamble g0 (by simp) h1
  have hd : w.status c ≠ .data := by simpa [World.status, World.modC] using hd
  have n1 : w1.now = w.now := s1.now
  have f1 : w1.offset = w.offset := s1.offset
  simp only at h2
  rw [failTime_congr (w := w) (by exact n1) (by exact f1)] at h2
  split at h2
  · cases h2
  · rename_i T hT
    obtain ⟨w3, h3, h4⟩ := andThen_ok h2
    have g2 : Good {c} (w1.modC c (fun x => { x with waitAll := a, failed := false })) := by
      have := s1.good.modC' (c := c) (f := fun x => { x with waitAll := a, failed := false }) (fun _ => rfl) (fun _ => rfl) (fun _ => rfl) (fun _ => rfl) (fun _ => rfl)
      simpa using this
    have o2 : ((w1.modC c (fun x => { x with waitAll := a, failed := false })).comps c).onList = false := by rw [modC_self]; exact s1.off
    have m2 : (w1.modC c (fun x => { x with waitAll := a, failed := false })).main = w.main := s1.main
    have e2 : Eff c nobody w (w1.modC c (fun x => { x with waitAll := a, failed := false })) :=
      ((Eff.modC c nobody w _).trans s1.eff).trans (.modC _ _ _ _)
    have q2 : ((w1.modC c (fun x => { x with waitAll := a, failed := false })).comps c).requests = [] ∧
      ((w1.modC c (fun x => { x with waitAll := a, failed := false })).comps c).fromStores = [] ∧
      ((w1.modC c (fun x => { x with waitAll := a, failed := false })).comps c).toStores = [] := by
      rw [modC_self]; exact ⟨s1.nowait.req, s1.nowait.frm, s1.nowait.tos⟩
    generalize w1.modC c (fun x => { x with waitAll := a, failed := false }) = w2 at h3 g2 o2 m2 e2 q2
    have key : ∀ (l : List WArg) (w2 : World), Good {c} w2 → w2.main = w.main → (w2.comps c).onList = false → Eff c nobody w w2 →
        ((w2.comps c).requests = [] ∧ (w2.comps c).fromStores = [] ∧ (w2.comps c).toStores = []) → forR l (waitArg c) w2 = .ok w3 →
        Good {c} w3 ∧ (w3.comps c).onList = false ∧ Eff c nobody w w3 ∧
        ((w3.comps c).requests = [] ∧ (w3.comps c).fromStores = [] ∧ (w3.comps c).toStores = []) := by
      intro l
      induction l with
      | nil => intro w2 g m o e q h; cases h; exact ⟨g, o, e, q⟩
      | cons x t ih =>
        intro w2 g m o e q h
        unfold forR at h
        obtain ⟨w5, h5, h6⟩ := andThen_ok h
        obtain ⟨g5, m5, o5⟩ := waitArg_good g (by rw [m]; exact hm) o h5
        obtain ⟨e5, _, l5, s5⟩ := waitArg_out h5
        exact ih w5 g5 (m5.trans m) o5 (e.trans e5) (by rw [s5]; exact q) h6
    obtain ⟨g3, o3, e3, q3⟩ := key _ _ g2 m2 o2 e2 q2 h3
    obtain ⟨e4, a4⟩ := waitEnd_out g3 o3 q3 h4
    rw [e3.now] at a4
    exact ⟨e3.trans e4, hd, T, hT, a4⟩

theorem waitFor_out {w w' : World} {c f ss fa fd p u k} (hg : Good ∅ w) (hm : c ≠ w.main)
    (h : waitFor c f ss fa fd p u k w = .ok w') : Eff c nobody w w' ∧ w.status c ≠ .data ∧
      ∃ T, failTime w fa fd = some T ∧
       ((At c .scheduled w.now w' ∧ (w'.comps c).waits = []) ∨
        (At c .waiting (max T w.now) w' ∧ (w'.comps c).waits ≠ [] ∧ (T < (w.now : ETime) → k = true))) := by
  unfold waitFor at h
  obtain ⟨w1, h1, h2⟩ := andThen_ok h
  obtain ⟨s1, hd⟩ := start_preamble hg (by simp) h1
  have n1 : w1.now = w.now := s1.now
  have f1 : w1.offset = w.offset := s1.offset
  simp only at h2
  rw [failTime_congr (w := w) (by exact n1) (by exact f1)] at h2
  split at h2
  · cases h2
  · rename_i T hT
    obtain ⟨w3, h3, h4⟩ := andThen_ok h2
    have g2 : Good {c} ((w1.modC c (fun x => { x with failed := false })).modC c (fun x => { x with cond := some f })) := by
      have g1 : Good {c} w1 := by simpa using s1.good
      exact (g1.modC' (c := c) (f := fun x => { x with failed := false }) (fun _ => rfl) (fun _ => rfl) (fun _ => rfl) (fun _ => rfl) (fun _ => rfl)).modC'
        (fun _ => rfl) (fun _ => rfl) (fun _ => rfl) (fun _ => rfl) (fun _ => rfl)
    have o2 : (((w1.modC c (fun x => { x with failed := false })).modC c (fun x => { x with cond := some f })).comps c).onList = false := by
      rw [modC_self, modC_self]; exact s1.off
    have m2 : ((w1.modC c (fun x => { x with failed := false })).modC c (fun x => { x with cond := some f })).main = w.main := s1.main
    have e2 : Eff c nobody w ((w1.modC c (fun x => { x with failed := false })).modC c (fun x => { x with cond := some f })) :=
      (s1.eff.trans (.modC _ _ _ _)).trans (.modC _ _ _ _)
    have q2 : (((w1.modC c (fun x => { x with failed := false })).modC c (fun x => { x with cond := some f })).comps c).requests = [] ∧
      (((w1.modC c (fun x => { x with failed := false })).modC c (fun x => { x with cond := some f })).comps c).fromStores = [] ∧
      (((w1.modC c (fun x => { x with failed := false })).modC c (fun x => { x with cond := some f })).comps c).toStores = [] := by
      rw [modC_self, modC_self]; exact ⟨s1.nowait.req, s1.nowait.frm, s1.nowait.tos⟩
    generalize (w1.modC c (fun x => { x with failed := false })).modC c (fun x => { x with cond := some f }) = w2 at h3 g2 o2 m2 e2 q2
    have key : ∀ (l : List SId) (w2 : World), Good {c} w2 → w2.main = w.main → (w2.comps c).onList = false → Eff c nobody w w2 →
        ((w2.comps c).requests = [] ∧ (w2.comps c).fromStores = [] ∧ (w2.comps c).toStores = []) →
        forR l (fun s w => enterSortedQ c (.waiters s) p (w.modC c (fun x => { x with waits := x.waits ++ [⟨s, fun _ => false⟩] }))) w2 = .ok w3 →
        Good {c} w3 ∧ (w3.comps c).onList = false ∧ Eff c nobody w w3 ∧
        ((w3.comps c).requests = [] ∧ (w3.comps c).fromStores = [] ∧ (w3.comps c).toStores = []) := by
      intro l
      induction l with
      | nil => intro w2 g m o e q h; cases h; exact ⟨g, o, e, q⟩
      | cons s t ih =>
        intro w2 g m o e q h
        unfold forR at h
        obtain ⟨w5, h5, h6⟩ := andThen_ok h
        have g0 : Good {c} (w2.modC c (fun x => { x with waits := x.waits ++ [⟨s, fun _ => false⟩] })) := by
          refine g.grow rfl (by rw [m]; exact hm) (fun _ => rfl) fun q => awaits_congr (fun _ _ h => h) (fun r _ h => ?_) (fun _ _ h => h) (fun _ _ h => h)
          simp only [List.map_append, List.mem_append]; exact .inl h
        obtain ⟨e1, e2, e3, e4⟩ := enterQ_inQ h5
        have g5 : Good {c} w5 := good_enter g0 (by rw [modC_self]; simp [awaits]) e1 e2 e3
        have c5 : w5.comps = (w2.modC c (fun x => { x with waits := x.waits ++ [⟨s, fun _ => false⟩] })).comps := by rw [e1]; rfl
        refine ih w5 g5 (by rw [e1]; exact m) (by rw [c5, modC_self]; exact o) ?_ (by rw [c5, modC_self]; exact q) h6
        exact (e.trans (Eff.modC c nobody w2 (fun x => { x with waits := x.waits ++ [⟨s, fun _ => false⟩] }))).trans
          (.mk' (by rw [e1]; rfl) (by rw [e1]; rfl) (fun d _ => by rw [c5]) (.of_eq (by rw [e1]; rfl)))
    obtain ⟨g3, o3, e3, q3⟩ := key _ _ g2 m2 o2 e2 q2 h3
    obtain ⟨e4, a4⟩ := waitEnd_out g3 o3 q3 h4
    rw [e3.now] at a4
    exact ⟨e3.trans e4, hd, T, hT, a4⟩

/-! ## stores -/

theorem forR_enter_out {c : CId} {g : StId → QRef} {p : Rat} : ∀ (l : List StId) (w w' : World),
    forR l (fun s => enterSortedQ c (g s) p) w = .ok w' → w'.comps = w.comps ∧ w'.main = w.main ∧ w'.now = w.now ∧ w'.events = w.events
  | [], w, w', h => by cases h; exact ⟨rfl, rfl, rfl, rfl⟩
  | s :: t, w, w', h => by
    unfold forR at h
    obtain ⟨w1, h1, h2⟩ := andThen_ok h
    obtain ⟨e1, _⟩ := enterQ_inQ h1
    obtain ⟨k1, k2, k3, k4⟩ := forR_enter_out t w1 w' h2
    exact ⟨by rw [k1, e1]; rfl, by rw [k2, e1]; rfl, by rw [k3, e1]; rfl, by rw [k4, e1]; rfl⟩

theorem fromStore_out {w w' : World} {fuel c ss f k rp fa fd p u cp} (hg : Good ∅ w)
    (h : fromStore fuel c ss f k rp fa fd p u cp w = .ok w') : Eff c nobody w w' ∧ w.status c ≠ .data ∧
      ∃ T, failTime w fa fd = some T ∧
       ((At c .scheduled w.now w' ∧ (w'.comps c).fromStores = []) ∨
        (At c .requesting (max T w.now) w' ∧ (w'.comps c).fromStores = ss ∧ (T < (w.now : ETime) → cp = true))) := by
  unfold fromStore at h
  split at h
  · cases h
  · obtain ⟨w1, h1, h2⟩ := andThen_ok h
    obtain ⟨s1, hd⟩ := start_preamble hg (by simp) h1
    have n1 : w1.now = w.now := s1.now
    have f1 : w1.offset = w.offset := s1.offset
    simp only at h2
    rw [failTime_congr n1 f1] at h2
    split at h2
    · cases h2
    · rename_i T hT
      have g2 : Good {c} (w1.modC c (fun x => { x with failed := false })) := by
        have := s1.good.modC' (c := c) (f := fun x => { x with failed := false }) (fun _ => rfl) (fun _ => rfl) (fun _ => rfl) (fun _ => rfl) (fun _ => rfl)
        simpa using this
      have n2 : NoWait ((w1.modC c (fun x => { x with failed := false })).comps c) := by
        rw [modC_self]; exact ⟨s1.nowait.req, s1.nowait.wai, s1.nowait.frm, s1.nowait.tos⟩
      have e2 : Eff c nobody w (w1.modC c (fun x => { x with failed := false })) := s1.eff.trans (.modC _ _ _ _)
      generalize w1.modC c (fun x => { x with failed := false }) = w2 at h2 g2 n2 e2
      split at h2
      · rename_i item s _
        obtain ⟨w3, h3, h4⟩ := andThen_ok h2
        have t3 := (trR_store {c} fuel).2 _ _ _ g2 w3 h3
        have n3 : NoWait (w3.comps c) := by rw [t3.frozen c n2]; exact n2
        obtain ⟨g5, k⟩ := good_wake (e' := ∅) (t3.good.modC' (f := fun x => { x with fromItem := some item }) (c := c)
          (fun _ => rfl) (fun _ => rfl) (fun _ => rfl) (fun _ => rfl) (fun _ => rfl)) not_single h4
        have e3 : Eff c nobody w w3 := e2.trans (t3.eff _ _)
        refine ⟨(e3.trans (.modC _ _ _ _)).trans k.eff, hd, T, hT, .inl ⟨⟨?_, ?_, fun _ _ => ?_⟩, ?_⟩⟩
        · simp [World.status, k.self]
        · rw [k.self]; simp [World.modC, e3.now]
        · rw [k.self, modC_self]; exact ⟨n3.req, n3.wai, n3.frm, n3.tos⟩
        · rw [k.self, modC_self]; exact n3.frm
      · obtain ⟨w3, h3, h4⟩ := andThen_ok h2
        obtain ⟨c3, m3, nw3, ev3⟩ := forR_enter_out (g := fun s => .fromReq s) _ _ _ h3
        have e3 : Eff c nobody w w3 := (e2.trans (.modC c nobody w2 (fun x => { x with fromStores := ss }))).trans (.mk' m3 nw3 (fun d _ => by rw [c3]) (.of_eq ev3))
        have e5 : w3.modC c (fun x => { x with status := .requesting, fromItem := none, fromFilter := f }) =
            setStatus c .requesting (w3.modC c (fun x => { x with fromItem := none, fromFilter := f })) := by
          unfold setStatus World.modC
          congr 1
          funext d
          by_cases hd : d = c <;> simp [hd]
        rw [e5] at h4
        obtain ⟨e6, a6, k6⟩ := resched_at (fun h => absurd rfl h) h4
        have hnow : (w3.modC c (fun x => { x with fromItem := none, fromFilter := f })).now = w.now := e3.now
        rw [hnow] at a6 k6
        refine ⟨(e3.trans (.modC _ _ _ _)).trans e6, hd, T, hT, .inr ⟨a6, ?_, k6⟩⟩
        rw [((reschedule_ok h4).1).self]
        simp [setStatus, World.modC, c3]

theorem toStore_out {w w' : World} {fuel c ss i rp sp fa fd p u cp} (hg : Good ∅ w)
    (h : toStore fuel c ss i rp sp fa fd p u cp w = .ok w') : Eff c nobody w w' ∧ w.status c ≠ .data ∧
      ∃ T, failTime w fa fd = some T ∧
       ((At c .scheduled w.now w' ∧ (w'.comps c).toStores = []) ∨
        (At c .requesting (max T w.now) w' ∧ (w'.comps c).toStores = ss ∧ (T < (w.now : ETime) → cp = true))) := by
  unfold toStore at h
  split at h
  · cases h
  · obtain ⟨w1, h1, h2⟩ := andThen_ok h
    obtain ⟨s1, hd⟩ := start_preamble hg (by simp) h1
    have n1 : w1.now = w.now := s1.now
    have f1 : w1.offset = w.offset := s1.offset
    simp only at h2
    rw [failTime_congr n1 f1] at h2
    split at h2
    · cases h2
    · rename_i T hT
      have g2 : Good {c} (w1.modC c (fun x => { x with failed := false })) := by
        have := s1.good.modC' (c := c) (f := fun x => { x with failed := false }) (fun _ => rfl) (fun _ => rfl) (fun _ => rfl) (fun _ => rfl) (fun _ => rfl)
        simpa using this
      have n2 : NoWait ((w1.modC c (fun x => { x with failed := false })).comps c) := by
        rw [modC_self]; exact ⟨s1.nowait.req, s1.nowait.wai, s1.nowait.frm, s1.nowait.tos⟩
      have e2 : Eff c nobody w (w1.modC c (fun x => { x with failed := false })) := s1.eff.trans (.modC _ _ _ _)
      generalize w1.modC c (fun x => { x with failed := false }) = w2 at h2 g2 n2 e2
      split at h2
      · obtain ⟨w3, h3, h4⟩ := andThen_ok h2
        have t3 := (trR_store {c} fuel).1 _ _ _ _ g2 w3 h3
        have n3 : NoWait (w3.comps c) := by rw [t3.frozen c n2]; exact n2
        have g4 : Good {c} (w3.modC c (fun x => { x with toItem := none, toStores := [] })) := by
          refine t3.good.modC (fun _ => rfl) (fun h => ⟨h.req, h.wai, h.frm, rfl⟩) fun q _ => ?_
          refine awaits_congr (fun _ _ h => h) (fun _ _ h => h) (fun _ _ h => h) (fun r _ h => ?_)
          rw [n3.tos] at h; exact h
        obtain ⟨g5, k⟩ := good_wake (e' := ∅) g4 not_single h4
        have e3 : Eff c nobody w w3 := e2.trans (t3.eff _ _)
        refine ⟨(e3.trans (.modC _ _ _ _)).trans k.eff, hd, T, hT, .inl ⟨⟨?_, ?_, fun _ _ => ?_⟩, ?_⟩⟩
        · simp [World.status, k.self]
        · rw [k.self]; simp [World.modC, e3.now]
        · rw [k.self, modC_self]; exact ⟨n3.req, n3.wai, n3.frm, rfl⟩
        · rw [k.self, modC_self]
      · obtain ⟨w3, h3, h4⟩ := andThen_ok h2
        obtain ⟨c3, m3, nw3, ev3⟩ := forR_enter_out (g := fun s => .toReq s) _ _ _ h3
        have e3 : Eff c nobody w w3 := e2.trans (.mk' m3 nw3 (fun d _ => by rw [c3]) (.of_eq ev3))
        have e5 : w3.modC c (fun x => { x with status := .requesting, toItem := some i, toPrio := sp, toStores := ss }) =
            setStatus c .requesting (w3.modC c (fun x => { x with toItem := some i, toPrio := sp, toStores := ss })) := by
          unfold setStatus World.modC
          congr 1
          funext d
          by_cases hd : d = c <;> simp [hd]
        rw [e5] at h4
        obtain ⟨e6, a6, k6⟩ := resched_at (fun h => absurd rfl h) h4
        have hnow : (w3.modC c (fun x => { x with toItem := some i, toPrio := sp, toStores := ss })).now = w.now := e3.now
        rw [hnow] at a6 k6
        refine ⟨(e3.trans (.modC _ _ _ _)).trans e6, hd, T, hT, .inr ⟨a6, ?_, k6⟩⟩
        rw [((reschedule_ok h4).1).self]
        simp [setStatus, World.modC]

end Verif
