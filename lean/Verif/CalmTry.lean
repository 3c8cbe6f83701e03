import Verif.Calm

/-!
# Histories without exceptions: letting waiting components continue
-/

namespace Verif
open World

theorem andThen_ok {r : R} {f : World → R} {w' : World} (h : (r ⊳ f) = .ok w') : ∃ w1, r = .ok w1 ∧ f w1 = .ok w' := by
  cases r with
  | ok w1 => exact ⟨w1, rfl, h⟩
  | err e w1 => cases h

/-- completing the change of one component -/
theorem Good.settle {e e' : Set CId} {w w' : World} {c : CId} (hg : Good e w) (he : ∀ d, d ≠ c → (d ∈ e' ↔ d ∈ e))
    (hsb : SB e' w') (hinv : w'.Inv) (hq : w'.queues = w.queues) (hm : w'.main = w.main) (ho : ∀ d, d ≠ c → w'.comps d = w.comps d)
    (hl1 : (w'.comps c).requests = (w.comps c).requests) (hl2 : (w'.comps c).waits = (w.comps c).waits)
    (hl3 : (w'.comps c).fromStores = (w.comps c).fromStores) (hl4 : (w'.comps c).toStores = (w.comps c).toStores)
    (hi : c ∉ e' → (w'.status c).idle → NoWait (w.comps c))
    (ht : c ∉ e' → (w'.status c).timed → (w'.comps c).schedTime ≠ ⊤ → (w'.comps c).onList = true)
    (hd : c ∉ e' → w'.status c = .data → (w'.comps c).onList = false) : Good e' w' := by
  have hn : NoWait (w.comps c) → NoWait (w'.comps c) := fun h =>
    ⟨hl1.trans h.req, hl2.trans h.wai, hl3.trans h.frm, hl4.trans h.tos⟩
  have hin : ∀ q, w'.inQ q = w.inQ q := fun q => by simp [World.inQ, hq]
  have he : ∀ d, d ≠ c → d ∉ e' → d ∉ e := fun d hd hn hm => hn ((he d hd).2 hm)
  refine ⟨hinv, fun q => by rw [hin]; exact hg.nd q, ?_, ?_, ?_, ?_, ?_, hsb⟩
  · intro d hde hs
    by_cases hdc : d = c
    · subst hdc; exact hn (hi hde hs)
    · simp only [World.status, ho d hdc] at hs ⊢; exact hg.idle d (he d hdc hde) hs
  · intro d hde hs
    by_cases hdc : d = c
    · subst hdc; exact ht hde hs
    · simp only [World.status, ho d hdc] at hs ⊢; exact hg.timed d (he d hdc hde) hs
  · intro d hde hs
    by_cases hdc : d = c
    · subst hdc; exact hd hde hs
    · simp only [World.status, ho d hdc] at hs ⊢; exact hg.dat d (he d hdc hde) hs
  · intro q d hd
    rw [hin] at hd
    have := hg.coh q d hd
    by_cases hdc : d = c
    · subst hdc
      cases q <;> simp only [awaits, hl1, hl2, hl3, hl4] <;> exact this
    · rw [ho d hdc]; exact this
  · rw [hm]
    by_cases hmc : w.main = c
    · rw [hmc]; exact hn (hmc ▸ hg.main)
    · rw [ho _ hmc]; exact hg.main

/-- the pending events of all components but those in `S` are the same -/
def Evs (S : CId → Prop) (w w' : World) : Prop := ∀ x : Ev, ¬ S x.c → (x ∈ w'.events ↔ x ∈ w.events)

theorem Evs.of_eq {S : CId → Prop} {w w' : World} (h : w'.events = w.events) : Evs S w w' := fun _ _ => by rw [h]
theorem Evs.refl (S : CId → Prop) (w : World) : Evs S w w := .of_eq rfl
theorem Evs.trans {S : CId → Prop} {a b c : World} (h : Evs S a b) (h2 : Evs S b c) : Evs S a c := fun x hx => (h2 x hx).trans (h x hx)
theorem Evs.mono {S T : CId → Prop} {a b : World} (h : Evs S a b) (hs : ∀ d, S d → T d) : Evs T a b := fun x hx => h x fun h => hx (hs _ h)

/-- no time has passed, and only `c` has been rescheduled -/
structure Clock (c : CId) (w w' : World) : Prop where
  now : w'.now = w.now
  evs : Evs (· = c) w w'

theorem Clock.of_eq {c : CId} {w w' : World} (h1 : w'.now = w.now) (h2 : w'.events = w.events) : Clock c w w' := ⟨h1, .of_eq h2⟩
theorem Clock.trans {d : CId} {a b c : World} (h : Clock d a b) (h2 : Clock d b c) : Clock d a c := ⟨h2.now.trans h.now, h.evs.trans h2.evs⟩

/-- the effect of `_reschedule` -/
structure Resched (c : CId) (t : ETime) (w w' : World) : Prop where
  le : (w.now : ETime) ≤ t
  other : ∀ d, d ≠ c → w'.comps d = w.comps d
  self : w'.comps c = { w.comps c with schedTime := t, onList := (w.comps c).onList || decide (t ≠ ⊤) }
  queues : w'.queues = w.queues
  main : w'.main = w.main
  now : w'.now = w.now
  res : w'.res = w.res
  states : w'.states = w.states
  standby : w'.standby = w.standby
  pending : w'.pending = w.pending
  current : w'.current = w.current
  offset : w'.offset = w.offset
  evs : Evs (· = c) w w'

theorem push_resched {c : CId} {t : ETime} (p u ret) {w : World} (ht : (w.now : ETime) ≤ t) :
    Resched c t w (push c t p u ret (w.modC c (fun x => { x with schedTime := t }))) := by
  induction t using WithTop.recTopCoe with
  | top =>
    refine ⟨ht, fun d hd => ?_, ?_, rfl, rfl, rfl, rfl, rfl, rfl, rfl, rfl, rfl, .of_eq rfl⟩
    · simp [push, World.modC, hd]
    · simp [push, World.modC]
  | coe t =>
    refine ⟨ht, fun d hd => ?_, ?_, rfl, rfl, rfl, rfl, rfl, rfl, rfl, rfl, rfl, fun x hx => ?_⟩
    · simp [push, World.modC, hd]
    · simp [push, World.modC]
    · simp only [push, World.modC]
      rw [(Heapq.heappush_perm _ _).mem_iff, List.mem_cons]
      refine or_iff_right ?_
      rintro rfl
      exact hx rfl

theorem reschedule_ok {c : CId} {t p : ETime} {u k ret} {w w' : World} (h : reschedule c t p u k ret w = .ok w') :
    Resched c (max t w.now) w w' ∧ (t < (w.now : ETime) → k = true) := by
  unfold reschedule at h
  split at h
  · rename_i hlt
    split at h
    · rename_i hk
      cases h
      rw [max_eq_right (le_of_lt hlt)]
      exact ⟨push_resched _ _ _ le_rfl, fun _ => hk⟩
    · cases h
  · rename_i hlt
    cases h
    rw [max_eq_left (not_lt.1 hlt)]
    exact ⟨push_resched _ _ _ (not_lt.1 hlt), fun h => absurd h hlt⟩

/-- rescheduling a component that has no pending event, with a status that goes with it -/
theorem good_resched {e e' : Set CId} {c : CId} {t p : ETime} {u k ret} {w w' : World} {s : Status} (hg : Good e w)
    (he : ∀ d, d ≠ c → (d ∈ e' ↔ d ∈ e)) (hoff : (w.comps c).onList = false) (hs : s.timed)
    (h : reschedule c t p u k ret (setStatus c s w) = .ok w')
    (hc : c ∈ e ∨ w.status c ≠ .standby := by first | exact .inl (Set.mem_insert _ _) | exact .inl rfl) : Good e' w' := by
  have hr := (reschedule_ok h).1
  have hinv : w'.Inv := by
    have := resched_set_inv hg.inv (c := c) (s := s) (by rcases hs with h | h | h <;> simp [h, Status.sch]) t p u k ret hoff
    rw [h] at this
    exact this
  have hself : w'.comps c = { (w.comps c) with status := s, schedTime := max t w.now, onList := decide (max t (w.now : ETime) ≠ ⊤) } := by
    rw [hr.self]
    simp [setStatus, World.modC, hoff]
  have hst : w'.status c = s := by simp [World.status, hself]
  have hoth : ∀ d, d ≠ c → w'.comps d = w.comps d := by
    intro d hd
    rw [hr.other d hd]
    exact modC_other hd _ _
  have hsb : SB e' w' := by
    refine hg.sb.put he hr.main hoth (fun h d => ?_) (by simp only [World.lined, hr.standby, hr.pending]; rfl) (hg.sb.notin hc) (.inl ?_)
    · have := h d
      by_cases hd : d = c
      · subst hd; rw [hself] at this; exact this
      · rwa [hoth d hd] at this
    · rw [hst]; rcases hs with h | h | h <;> simp [h]
  refine hg.settle he hsb hinv hr.queues hr.main hoth (by rw [hself]) (by rw [hself]) (by rw [hself]) (by rw [hself]) ?_ ?_ ?_
  · intro _ hi
    rw [hst] at hi
    rcases hs with h | h | h <;> subst h <;> simp [Status.idle] at hi
  · intro _ _ hne
    rw [hself] at hne ⊢
    simpa using hne
  · intro _ hd
    rw [hst] at hd
    subst hd
    rcases hs with h | h | h <;> cases h

/-- the effect of `_remove` -/
structure Removed (c : CId) (w w' : World) : Prop where
  inv : w'.Inv
  off : (w'.comps c).onList = false
  other : ∀ d, d ≠ c → w'.comps d = w.comps d
  self : w'.comps c = { w.comps c with onList := false }
  queues : w'.queues = w.queues
  main : w'.main = w.main
  now : w'.now = w.now
  res : w'.res = w.res
  states : w'.states = w.states
  current : w'.current = w.current
  offset : w'.offset = w.offset
  events : w'.events.Perm (w.events.filter (fun e => e.c != c))
  standby : w'.standby = if w.status c = .standby then w.standby.erase c else w.standby
  pending : w'.pending = if w.status c = .standby then w.pending.erase c else w.pending

theorem Removed.evs {c : CId} {w w' : World} (h : Removed c w w') : Evs (· = c) w w' := fun x hx => by
  rw [h.events.mem_iff, List.mem_filter]
  simpa using fun _ => hx

theorem remove_removed {w : World} (h : w.Inv) (c : CId) : ∃ w', remove c w = .ok w' ∧ Removed c w w' := by
  obtain ⟨es, hp, hh, he⟩ := remove_spec h c
  refine ⟨_, he, h.of_perm_filter c hp hh _ _, ?_, ?_, ?_, rfl, rfl, rfl, rfl, rfl, rfl, rfl, hp, rfl, rfl⟩
  · simp [World.modC]
  · intro d hd; simp [World.modC, hd]
  · simp [World.modC]

/-- `_remove` exempts the component -/
theorem good_remove {e : Set CId} {c : CId} {w w' : World} (hg : Good e w) (h : remove c w = .ok w') :
    Good (insert c e) w' ∧ Removed c w w' := by
  obtain ⟨w1, h1, hr⟩ := remove_removed hg.inv c
  rw [h1] at h; cases h
  have he : ∀ d, d ≠ c → (d ∈ insert c e ↔ d ∈ e) := fun d hd => by simp [hd]
  have hsb : SB (insert c e) w' := by
    obtain ⟨h1, h2, h3⟩ := hg.sb.erased hr.standby hr.pending
    refine hg.sb.one he hr.main hr.other (fun h d => ?_) h1 h2 (fun h => absurd h h3) (fun _ h => absurd (Set.mem_insert _ _) h) ?_
    · have := h d
      by_cases hd : d = c
      · subst hd; rw [hr.self] at this; exact this
      · rwa [hr.other d hd] at this
    · intro hm
      simp only [World.status, hr.self]
      have := hg.sb.main
      rw [← hm] at this
      exact this
  exact ⟨hg.settle (c := c) he hsb hr.inv hr.queues hr.main hr.other (by rw [hr.self]) (by rw [hr.self]) (by rw [hr.self]) (by rw [hr.self])
    (fun h => absurd (Set.mem_insert _ _) h) (fun h => absurd (Set.mem_insert _ _) h) (fun h => absurd (Set.mem_insert _ _) h), hr⟩

/-- effect of letting a component continue -/
structure Woken (c : CId) (w w' : World) : Prop where
  other : ∀ d, d ≠ c → w'.comps d = w.comps d
  self : w'.comps c = { w.comps c with status := .scheduled, schedTime := (w.now : ETime), onList := true }
  queues : w'.queues = w.queues
  main : w'.main = w.main
  now : w'.now = w.now
  res : w'.res = w.res
  states : w'.states = w.states
  standby : w'.standby = if w.status c = .standby then w.standby.erase c else w.standby
  pending : w'.pending = if w.status c = .standby then w.pending.erase c else w.pending
  evs : Evs (· = c) w w'

theorem Woken.clock {c : CId} {w w' : World} (h : Woken c w w') : Clock c w w' := ⟨h.now, h.evs⟩

theorem wake_woken {w : World} (h : w.Inv) (c : CId) (ret) : ∃ w', wake c ret w = .ok w' ∧ Woken c w w' := by
  obtain ⟨w1, h1, hr⟩ := remove_removed h c
  unfold wake
  rw [h1]
  simp only [R.andThen]
  cases h2 : reschedule c w1.now (0 : Rat) false false ret (setStatus c .scheduled w1) with
  | err er w2 =>
    unfold reschedule at h2
    simp [setStatus, World.modC] at h2
  | ok w2 =>
    have hs := (reschedule_ok h2).1
    have hnow : (setStatus c .scheduled w1).now = w1.now := rfl
    rw [hnow, max_self] at hs
    refine ⟨w2, rfl, ?_, ?_, hs.queues.trans hr.queues, hs.main.trans hr.main, hs.now.trans hr.now, hs.res.trans hr.res,
      hs.states.trans hr.states, hs.standby.trans hr.standby, hs.pending.trans hr.pending, hr.evs.trans hs.evs⟩
    · intro d hd
      rw [hs.other d hd]
      exact (modC_other hd _ _).trans (hr.other d hd)
    · rw [hs.self]
      simp [setStatus, World.modC, hr.self, hr.now]

theorem good_wake {e e' : Set CId} {c : CId} {ret} {w w' : World} (hg : Good e w) (he : ∀ d, d ≠ c → (d ∈ e' ↔ d ∈ e))
    (h : wake c ret w = .ok w') : Good e' w' ∧ Woken c w w' := by
  obtain ⟨w1, h1, hw⟩ := wake_woken hg.inv c ret
  rw [h1] at h; cases h
  have hinv : w'.Inv := by have := wake_inv hg.inv c ret; rw [h1] at this; exact this
  have hsb : SB e' w' := by
    obtain ⟨h1, h2, h3⟩ := hg.sb.erased hw.standby hw.pending
    refine hg.sb.one he hw.main hw.other (fun h d => ?_) h1 h2 (fun h => absurd h h3) (fun _ _ h => ?_) (fun _ h => ?_)
    · have := h d
      by_cases hd : d = c
      · subst hd; rw [hw.self] at this; exact this
      · rwa [hw.other d hd] at this
    · simp [World.status, hw.self] at h
    · simp [World.status, hw.self] at h
  refine ⟨hg.settle he hsb hinv hw.queues hw.main hw.other (by rw [hw.self]) (by rw [hw.self]) (by rw [hw.self]) (by rw [hw.self]) ?_ ?_ ?_, hw⟩
  · intro _ hi; simp [World.status, hw.self, Status.idle] at hi
  · intro _ _ _; rw [hw.self]
  · intro _ hd; simp [World.status, hw.self] at hd

/-! ## passive effects -/

/-- What a call can do to components that are not its subject: only waiting components are touched, and nobody starts waiting. -/
structure Tr (e : Set CId) (w w' : World) : Prop where
  good : Good e w'
  main : w'.main = w.main
  now : w'.now = w.now
  sub : ∀ q, q.wq = true → ∀ c, c ∈ w'.inQ q → c ∈ w.inQ q
  frozen : ∀ c, NoWait (w.comps c) → w'.comps c = w.comps c
  evs : Evs (fun c => ¬ NoWait (w.comps c)) w w'

theorem Tr.refl {e : Set CId} {w : World} (h : Good e w) : Tr e w w := ⟨h, rfl, rfl, fun _ _ _ h => h, fun _ _ => rfl, .refl _ _⟩
theorem Tr.trans {e : Set CId} {a b c : World} (h : Tr e a b) (h2 : Tr e b c) : Tr e a c :=
  ⟨h2.good, h2.main.trans h.main, h2.now.trans h.now, fun q hq d hd => h.sub q hq d (h2.sub q hq d hd),
    fun d hd => (h2.frozen d (by rw [h.frozen d hd]; exact hd)).trans (h.frozen d hd),
    h.evs.trans (h2.evs.mono fun d hd h' => hd (by rw [h.frozen d h']; exact h'))⟩
theorem Tr.lv {e : Set CId} {w w' : World} (h : Good e w) (hl : Lv w w') : Tr e w w' :=
  ⟨hl.good h, hl.main, congrArg EV.now hl.ev, fun q _ _ hd => (hl.sub q).subset hd, fun c _ => by rw [hl.comps],
    .of_eq (congrArg EV.events hl.ev)⟩

/-- after some passive effects one component that was waiting is changed -/
theorem Tr.active {e : Set CId} {w w1 w2 : World} {c : CId} (h : Tr e w w1) (hc : ¬ NoWait (w.comps c)) (hg : Good e w2)
    (hm : w2.main = w1.main) (hn : Clock c w1 w2) (hs : ∀ q, q.wq = true → ∀ d, d ∈ w2.inQ q → d ∈ w1.inQ q)
    (ho : ∀ d, d ≠ c → w2.comps d = w1.comps d) : Tr e w w2 := by
  refine ⟨hg, hm.trans h.main, hn.now.trans h.now, fun q hq d hd => h.sub q hq d (hs q hq d hd), fun d hd => ?_,
    h.evs.trans (hn.evs.mono fun d hd => hd ▸ hc)⟩
  have hdc : d ≠ c := fun hdc => hc (hdc ▸ hd)
  rw [ho d hdc]; exact h.frozen d hd

/-- the call has passive effects only, if it returns -/
def TrR (e : Set CId) (w : World) (r : R) : Prop := ∀ w', r = .ok w' → Tr e w w'

theorem TrR.ok {e : Set CId} {w : World} (h : Good e w) : TrR e w (.ok w) := fun w' h' => by cases h'; exact .refl h
theorem TrR.err {e : Set CId} {w w1 : World} {er} : TrR e w (.err er w1) := fun w' h' => by cases h'
theorem TrR.andThen {e : Set CId} {w : World} {r : R} {f : World → R} (h : TrR e w r)
    (hf : ∀ w', Tr e w w' → TrR e w' (f w')) : TrR e w (r ⊳ f) := by
  intro w2 h2
  obtain ⟨w1, h1, h2⟩ := andThen_ok h2
  exact (h w1 h1).trans (hf w1 (h w1 h1) w2 h2)
theorem TrR.forR {α : Type} {e : Set CId} {f : α → World → R} (hf : ∀ a w', Good e w' → TrR e w' (f a w')) :
    ∀ (l : List α) (w : World), Good e w → TrR e w (Verif.forR l f w)
  | [], w, hg => .ok hg
  | a :: t, w, hg => TrR.andThen (hf a w hg) fun w' h => TrR.forR hf t w' h.good

/-! ### requests -/

theorem enterQ_inQ {c : CId} {q : QRef} {p : Rat} {w w' : World} (h : enterSortedQ c q p w = .ok w') :
    w' = w.modQ q (fun _ => w'.queues q) ∧ (w'.inQ q).Perm (c :: w.inQ q) ∧ c ∉ w.inQ q ∧ (∀ p, p ≠ q → w'.inQ p = w.inQ p) := by
  obtain ⟨q', h1, h2⟩ := onQueue_ok h
  obtain ⟨l1, l2, x, hx, _⟩ := Queue.enterSorted_ok h1
  subst h2
  refine ⟨?_, ?_, ?_, ?_⟩
  · simp [World.modQ]
  · rw [inQ_modQ, if_pos rfl, hx.eq]
    have hp : (l1 ++ x :: l2).Perm (x :: (w.queues q).mem) := by rw [hx.mem]; exact List.perm_middle
    have := hp.map QMem.c
    rw [List.map_cons, hx.xc] at this
    exact this
  · intro hm
    obtain ⟨m, hm, he⟩ := List.mem_map.1 hm
    exact hx.new m hm he
  · intro p hp; rw [inQ_modQ, if_neg hp]

/-- entering a queue, in which components do not wait, or which agrees with what the component waits for -/
theorem good_enter {e : Set CId} {c : CId} {q : QRef} {w w' : World} (hg : Good e w) (ha : awaits (w.comps c) q)
    (h1 : w' = w.modQ q (fun _ => w'.queues q)) (h2 : (w'.inQ q).Perm (c :: w.inQ q)) (h3 : c ∉ w.inQ q) : Good e w' := by
  have hcomps : w'.comps = w.comps := by rw [h1]; rfl
  have hev : w'.ev = w.ev := by rw [h1]; rfl
  have hmain : w'.main = w.main := by rw [h1]; rfl
  have h4 : ∀ p, p ≠ q → w'.inQ p = w.inQ p := by
    intro p hp; rw [h1, inQ_modQ, if_neg hp]
  refine ⟨inv_of_ev hev hg.inv, ?_, ?_, ?_, ?_, ?_, ?_, hg.sb.of_ev hev⟩
  · intro p
    by_cases hp : p = q
    · subst hp
      exact h2.nodup_iff.2 (List.nodup_cons.2 ⟨h3, hg.nd p⟩)
    · rw [h4 p hp]; exact hg.nd p
  · simp only [World.status, hcomps]; exact hg.idle
  · simp only [World.status, hcomps]; exact hg.timed
  · simp only [World.status, hcomps]; exact hg.dat
  · intro p d hd
    rw [hcomps]
    by_cases hp : p = q
    · subst hp
      rcases List.mem_cons.1 (h2.mem_iff.1 hd) with rfl | hd
      · exact ha
      · exact hg.coh p d hd
    · rw [h4 p hp] at hd; exact hg.coh p d hd
  · rw [hcomps, hmain]; exact hg.main

/-- what claiming one resource does -/
structure Claimed1 (c : CId) (w w' : World) : Prop where
  other : ∀ d, d ≠ c → w'.comps d = w.comps d
  self : ∃ l, w'.comps c = { w.comps c with claims := l }
  main : w'.main = w.main
  now : w'.now = w.now
  sub : ∀ q, q.wq = true → ∀ d, d ∈ w'.inQ q → d ∈ w.inQ q
  events : w'.events = w.events

theorem Claimed1.refl (c : CId) (w : World) : Claimed1 c w w := ⟨fun _ _ => rfl, ⟨_, rfl⟩, rfl, rfl, fun _ _ _ h => h, rfl⟩
theorem Claimed1.trans {c : CId} {w1 w2 w3 : World} (h : Claimed1 c w1 w2) (h2 : Claimed1 c w2 w3) : Claimed1 c w1 w3 := by
  obtain ⟨l, hl⟩ := h.self
  obtain ⟨l2, hl2⟩ := h2.self
  exact ⟨fun d hd => (h2.other d hd).trans (h.other d hd), ⟨l2, by rw [hl2, hl]⟩, h2.main.trans h.main, h2.now.trans h.now,
    fun q hq d hd => h.sub q hq d (h2.sub q hq d hd), h2.events.trans h.events⟩

theorem claimOne_good {e : Set CId} {c : CId} {hon : List RId} {p : RId × Rat} {w w' : World} (hg : Good e w)
    (h : claimOne c hon p w = .ok w') : Good e w' ∧ Claimed1 c w w' ∧ c ∉ w'.inQ (.requesters p.1) := by
  unfold claimOne at h
  obtain ⟨w1, h1, h2⟩ := andThen_ok h
  have a1 : Good e w1 ∧ Claimed1 c w w1 := by
    split at h1
    · simp only at h1
      split at h1
      · cases h1
      · split at h1
        · cases h1
          exact ⟨hg.modR _ _, ⟨fun _ _ => rfl, ⟨_, rfl⟩, rfl, rfl, fun _ _ _ h => h, rfl⟩⟩
        · have g1 : Good e ((w.modR p.1 (fun x => { x with claimed := x.claimed + p.2, log := x.log.claims w.now x.cap (x.claimed + p.2) })).modC c
              (fun x => { x with claims := addTo x.claims p.1 p.2 })) :=
            (hg.modR _ _).modC' (fun _ => rfl) (fun _ => rfl) (fun _ => rfl) (fun _ => rfl) (fun _ => rfl)
          have c1 : Claimed1 c w ((w.modR p.1 (fun x => { x with claimed := x.claimed + p.2, log := x.log.claims w.now x.cap (x.claimed + p.2) })).modC c
              (fun x => { x with claims := addTo x.claims p.1 p.2 })) :=
            ⟨fun d hd => modC_other hd _ _, ⟨_, modC_self _ _ _⟩, rfl, rfl, fun _ _ _ h => h, rfl⟩
          generalize ((w.modR p.1 (fun x => { x with claimed := x.claimed + p.2, log := x.log.claims w.now x.cap (x.claimed + p.2) })).modC c
              (fun x => { x with claims := addTo x.claims p.1 p.2 })) = w0 at h1 g1 c1
          unfold enterClaimers at h1
          split at h1
          · cases h1; exact ⟨g1, c1⟩
          · obtain ⟨e1, e2, e3, e4⟩ := enterQ_inQ h1
            refine ⟨good_enter g1 (q := .claimers p.1) trivial e1 e2 e3, c1.trans ⟨fun d _ => by rw [e1]; rfl, ⟨(w0.comps c).claims, by rw [e1]; rfl⟩,
              by rw [e1]; rfl, by rw [e1]; rfl, ?_, by rw [e1]; rfl⟩⟩
            intro q hq d hd
            rwa [e4 q (by rintro rfl; simp [QRef.wq] at hq)] at hd
    · cases h1; exact ⟨hg, .refl _ _⟩
  obtain ⟨l1, l2⟩ := leaveRequesters_lv h2 (a1.1.nd _)
  exact ⟨l1.good a1.1, a1.2.trans ⟨fun d _ => by rw [l1.comps], ⟨(w1.comps c).claims, by rw [l1.comps]⟩, l1.main, congrArg EV.now l1.ev,
    fun q _ d hd => (l1.sub q).subset hd, congrArg EV.events l1.ev⟩, l2⟩

theorem forR_claimOne {e : Set CId} {c : CId} {hon : List RId} : ∀ (l : List (RId × Rat)) (w w' : World), Good e w →
    forR l (claimOne c hon) w = .ok w' → Good e w' ∧ Claimed1 c w w' ∧ ∀ p ∈ l, c ∉ w'.inQ (.requesters p.1)
  | [], w, w', hg, h => by cases h; exact ⟨hg, .refl _ _, by simp⟩
  | p :: t, w, w', hg, h => by
    unfold forR at h
    obtain ⟨w1, h1, h2⟩ := andThen_ok h
    obtain ⟨g1, c1, n1⟩ := claimOne_good hg h1
    obtain ⟨g2, c2, n2⟩ := forR_claimOne t w1 w' g1 h2
    refine ⟨g2, c1.trans c2, fun q hq => ?_⟩
    rcases List.mem_cons.1 hq with rfl | hq
    · exact fun hm => n1 (c2.sub _ rfl _ hm)
    · exact n2 q hq

/-- effect of a request that is honored -/
theorem honorNow_good {e e' : Set CId} {c : CId} {w w' : World} {r : R} (hg : Good e w) (he : ∀ d, d ≠ c → (d ∈ e' ↔ d ∈ e))
    (h : honorNow c w = some r) (hr : r = .ok w') : Good e' w' ∧ (w.comps c).requests ≠ [] ∧ (w'.comps c).requests = [] ∧
      w'.status c = .scheduled ∧ (∀ d, d ≠ c → w'.comps d = w.comps d) ∧ w'.main = w.main ∧ Clock c w w' ∧
      (∀ q, q.wq = true → ∀ d, d ∈ w'.inQ q → d ∈ w.inQ q) := by
  unfold honorNow at h
  split at h
  · cases h
  · rename_i hh
    simp only [Option.some.injEq] at h
    subst h
    obtain ⟨w1, h1, h2⟩ := andThen_ok hr
    obtain ⟨g1, c1, n1⟩ := forR_claimOne _ _ _ hg h1
    obtain ⟨l, hl⟩ := c1.self
    have hne : (w.comps c).requests ≠ [] := by
      intro hn
      refine hh (.inr ?_)
      unfold honored honorAny honorAll
      simp [hn, keys]
    have g2 : Good e (w1.modC c (fun x => { x with requests := [] })) := by
      refine g1.modC (fun _ => rfl) (fun h => ⟨rfl, h.wai, h.frm, h.tos⟩) ?_
      intro q hq
      refine awaits_congr (fun r hr hm => ?_) (fun _ _ h => h) (fun _ _ h => h) (fun _ _ h => h)
      exfalso
      rw [hl] at hm
      obtain ⟨p, hp, he⟩ := List.mem_map.1 hm
      exact n1 p hp (by rw [he, ← hr]; exact hq)
    obtain ⟨g3, k⟩ := good_wake (e' := e') g2 he h2
    refine ⟨g3, hne, ?_, ?_, ?_, k.main.trans c1.main, (Clock.of_eq c1.now c1.events).trans ⟨k.now, k.evs⟩, ?_⟩
    · rw [k.self]; simp [World.modC]
    · simp [World.status, k.self]
    · intro d hd; rw [k.other d hd, modC_other hd, c1.other d hd]
    · intro q hq d hd
      refine c1.sub q hq d ?_
      simp only [World.inQ, k.queues] at hd
      exact hd

theorem NoWait.not_of_requests {x : Comp} (h : x.requests ≠ []) : ¬ NoWait x := fun h' => h h'.req

theorem trR_try (e : Set CId) (fuel : Nat) : (∀ c w, Good e w → TrR e w (tryReqC fuel c w)) ∧
    (∀ rs w, Good e w → TrR e w (tryReqList fuel rs w)) ∧ (∀ r w, Good e w → TrR e w (tryReqR fuel r w)) ∧
    (∀ r mx f w, Good e w → TrR e w (loopR fuel r mx f w)) := by
  induction fuel with
  | zero =>
    refine ⟨fun c w hg => ?_, fun rs w hg => ?_, fun r w hg => ?_, fun r mx f w hg => ?_⟩
    · rw [tryReqC]; exact .err
    · rw [tryReqList]; exact .err
    · rw [tryReqR]; exact .err
    · rw [loopR]; exact .err
  | succ n ih =>
    obtain ⟨i1, i2, i3, i4⟩ := ih
    refine ⟨fun c w hg => ?_, fun rs w hg => ?_, fun r w hg => ?_, fun r mx f w hg => ?_⟩
    · rw [tryReqC]
      split
      · exact .ok hg
      · rename_i res hres
        refine TrR.andThen ?_ fun w' h' => i2 _ _ h'.good
        intro w' hw'
        obtain ⟨g, hne, _, _, ho, hm, hn, hs⟩ := honorNow_good hg (e' := e) (fun _ _ => Iff.rfl) hres hw'
        exact (Tr.refl hg).active (NoWait.not_of_requests hne) g hm hn hs ho
    · rw [tryReqList.eq_def]
      simp only
      split
      · exact .ok hg
      · exact TrR.andThen (i3 _ _ hg) fun w' h' => i2 _ _ h'.good
    · rw [tryReqR]
      split
      · split
        · exact .ok hg
        · have h1 : Tr e w (w.modR r (fun x => { x with trying := true })) := ⟨hg.modR _ _, rfl, rfl, fun _ _ _ h => h, fun _ _ => rfl, .of_eq rfl⟩
          intro w' hw'
          obtain ⟨w2, h2, h3⟩ := andThen_ok hw'
          cases h3
          have h4 := i4 _ _ _ _ h1.good w2 h2
          exact (h1.trans h4).trans ⟨h4.good.modR _ _, rfl, rfl, fun _ _ _ h => h, fun _ _ => rfl, .of_eq rfl⟩
      · exact i4 _ _ _ _ hg
    · rw [loopR.eq_def]
      simp only
      split
      · exact .ok hg
      · split
        · exact .ok hg
        · split
          · exact .ok hg
          · split
            · exact .ok hg
            · split
              · exact .err
              · refine TrR.andThen (i1 _ _ hg) fun w' h' => ?_
                split
                · exact i4 _ _ _ _ h'.good
                · exact i4 _ _ _ _ h'.good

/-! ### states -/

theorem tryWait_good {e e' : Set CId} {c : CId} {w w' : World} (hg : Good e w) (he : ∀ d, d ≠ c → (d ∈ e' ↔ d ∈ e))
    (h : (tryWait c w).1 = .ok w') : w' = w ∨ ((tryWait c w).2 = true ∧ Good e' w' ∧ (w'.comps c).waits = [] ∧ w'.status c = .scheduled ∧
      (∀ d, d ≠ c → w'.comps d = w.comps d) ∧ w'.main = w.main ∧ Clock c w w' ∧ w'.states = w.states ∧
      (∀ q, q.wq = true → ∀ d, d ∈ w'.inQ q → d ∈ w.inQ q)) := by
  unfold tryWait at h ⊢
  split at h
  · cases h; exact .inl rfl
  · rename_i hint
    split at h
    · rename_i hov
      right
      simp only at h
      obtain ⟨w1, h1, h2⟩ := andThen_ok h
      obtain ⟨l1, n1⟩ := forR_lv (g := fun (x : Wait) => .waiters x.s) (fun a w w' => leaveWaiters_lv) _ _ _ h1 hg.nd
      have hst : w1.states = w.states := by
        have : ∀ (l : List Wait) (w w1 : World), forR l (leaveWaiters c) w = .ok w1 → w1.states = w.states := by
          intro l
          induction l with
          | nil => intro w w1 h; cases h; rfl
          | cons a t ih =>
            intro w w1 h
            unfold forR at h
            obtain ⟨w2, h2, h3⟩ := andThen_ok h
            rw [ih w2 w1 h3]
            unfold leaveWaiters at h2
            split at h2
            · obtain ⟨q', _, e⟩ := onQueue_ok h2; rw [e]; rfl
            · cases h2; rfl
        exact this _ _ _ h1
      have g2 : Good e (w1.modC c (fun x => { x with waits := [] })) := by
        refine (l1.good hg).modC (fun _ => rfl) (fun h => ⟨h.req, rfl, h.frm, h.tos⟩) ?_
        intro q hq
        refine awaits_congr (fun _ _ h => h) (fun r hr hm => ?_) (fun _ _ h => h) (fun _ _ h => h)
        exfalso
        rw [l1.comps] at hm
        obtain ⟨p, hp, he⟩ := List.mem_map.1 hm
        exact n1 p hp (by rw [he, ← hr]; exact hq)
      obtain ⟨g3, k⟩ := good_wake (e' := e') g2 he h2
      refine ⟨?_, g3, ?_, ?_, ?_, k.main.trans l1.main,
        (Clock.of_eq (congrArg EV.now l1.ev) (congrArg EV.events l1.ev)).trans ⟨k.now, k.evs⟩, k.states.trans hst, ?_⟩
      · simp [hint, hov]
      · rw [k.self]; simp [World.modC]
      · simp [World.status, k.self]
      · intro d hd; rw [k.other d hd, modC_other hd, l1.comps]
      · intro q _ d hd
        refine (l1.sub q).subset ?_
        simp only [World.inQ, k.queues] at hd
        exact hd
    · cases h; exact .inl rfl

theorem trR_stateTryWait {e : Set CId} : ∀ (l : List CId) (mx : Option Int) (w : World), Good e w → l.Nodup →
    (∀ c ∈ l, ¬ NoWait (w.comps c)) → TrR e w (stateTryWait l mx w)
  | [], mx, w, hg, _, _ => .ok hg
  | c :: t, mx, w, hg, hn, hw => by
    intro w' h
    have h : ((tryWait c w).1 ⊳ fun v => if (tryWait c w).2 then
        let max := mx.map (· - 1)
        if max = some 0 then .ok v else stateTryWait t max v
      else stateTryWait t mx v) = .ok w' := h
    obtain ⟨w1, h1, h2⟩ := andThen_ok h
    rw [List.nodup_cons] at hn
    have a : Tr e w w1 ∧ ∀ d, d ≠ c → w1.comps d = w.comps d := by
      rcases tryWait_good hg (e' := e) (fun _ _ => Iff.rfl) h1 with rfl | ⟨_, g, _, _, ho, hm, hnw, _, hs⟩
      · exact ⟨.refl hg, fun _ _ => rfl⟩
      · exact ⟨(Tr.refl hg).active (hw c (by simp)) g hm hnw hs ho, ho⟩
    have hw1 : ∀ d ∈ t, ¬ NoWait (w1.comps d) := by
      intro d hd
      rw [a.2 d (by rintro rfl; exact hn.1 hd)]
      exact hw d (by simp [hd])
    have hrec := fun mx => trR_stateTryWait t mx w1 a.1.good hn.2 hw1
    by_cases hb : (tryWait c w).2 = true
    · rw [if_pos hb] at h2
      simp only at h2
      by_cases hm : mx.map (fun x => x - 1) = some 0
      · rw [if_pos hm] at h2; cases h2; exact a.1
      · rw [if_neg hm] at h2; exact a.1.trans (hrec _ w' h2)
    · rw [if_neg hb] at h2; exact a.1.trans (hrec _ w' h2)

theorem Good.waits_of_inQ {e : Set CId} {w : World} (hg : Good e w) {q : QRef} (hq : q.wq = true) {c : CId} (hc : c ∈ w.inQ q) :
    ¬ NoWait (w.comps c) := fun h => h.awaits hq (hg.coh q c hc)

theorem Tr.setState {e : Set CId} {w : World} (hg : Good e w) (s v) : Tr e w (w.setState s v) :=
  ⟨hg.setState s v, rfl, rfl, fun _ _ _ h => h, fun _ _ => rfl, .of_eq rfl⟩

theorem trR_stateTry {e : Set CId} {w : World} (hg : Good e w) (s : SId) (mx) : TrR e w (stateTryWait (w.inQ (.waiters s)) mx w) :=
  trR_stateTryWait _ _ _ hg (hg.nd _) fun _ hc => hg.waits_of_inQ rfl hc

theorem trR_stateSet {e : Set CId} {w : World} (hg : Good e w) (s v) : TrR e w (stateSet s v w) := by
  unfold stateSet
  split
  · exact .ok hg
  · have h1 := Tr.setState hg s v
    exact fun w' h => h1.trans (trR_stateTry h1.good s none w' h)

theorem trR_stateTrigger {e : Set CId} {w : World} (hg : Good e w) (s v a m) : TrR e w (stateTrigger s v a m w) := by
  intro w' h
  unfold stateTrigger at h
  obtain ⟨w1, h1, h2⟩ := andThen_ok h
  have h3 := Tr.setState hg s v
  have h4 := h3.trans (trR_stateTry h3.good s m w1 h1)
  have h5 := h4.trans (Tr.setState h4.good s (a.getD (w.states s)))
  exact h5.trans (trR_stateTry h5.good s none w' h2)

/-! ### stores -/

/-- operations on queues in which components do not wait -/
theorem tr_queue {e : Set CId} {w w' : World} {q : QRef} {f} (hg : Good e w) (hq : q.wq = false) (h : onQueue q f w = .ok w')
    (hk : ∀ q', f (w.queues q) = .ok q' → Queue.Kind w.now (w.queues q) q') : Tr e w w' := by
  obtain ⟨q', h1, h2⟩ := onQueue_ok h
  have hk := hk q' h1
  have hin : ∀ p, p ≠ q → w'.inQ p = w.inQ p := by intro p hp; rw [h2, inQ_modQ, if_neg hp]
  have hcomps : w'.comps = w.comps := by rw [h2]; rfl
  have hev : w'.ev = w.ev := by rw [h2]; rfl
  have hmain : w'.main = w.main := by rw [h2]; rfl
  refine ⟨⟨inv_of_ev hev hg.inv, ?_, ?_, ?_, ?_, ?_, ?_, hg.sb.of_ev hev⟩, hmain, congrArg EV.now hev, ?_, fun c _ => by rw [hcomps], .of_eq (congrArg EV.events hev)⟩
  · intro p
    by_cases hp : p = q
    · subst hp
      rw [h2, inQ_modQ, if_pos rfl]
      exact hk.nodup (hg.nd p)
    · rw [hin p hp]; exact hg.nd p
  · simp only [World.status, hcomps]; exact hg.idle
  · simp only [World.status, hcomps]; exact hg.timed
  · simp only [World.status, hcomps]; exact hg.dat
  · intro p d hd
    by_cases hp : p = q
    · subst hp
      cases p <;> simp [QRef.wq] at hq <;> trivial
    · rw [hin p hp] at hd; rw [hcomps]; exact hg.coh p d hd
  · rw [hcomps, hmain]; exact hg.main
  · intro p hp d hd
    rwa [hin p (by rintro rfl; rw [hq] at hp; cases hp)] at hd

/-- a component leaves the queues in which it waits for items -/
theorem leaveFrom_good {e : Set CId} {c : CId} {w w' : World} (hg : Good e w)
    (h : forR (w.comps c).fromStores (fun s0 => leaveQ c (.fromReq s0)) w = .ok w') :
    Lv w w' ∧ ∀ s, c ∉ w'.inQ (.fromReq s) := by
  obtain ⟨l, n⟩ := forR_lv (g := fun s => .fromReq s) (fun a w w' => leaveQ_lv) _ _ _ h hg.nd
  refine ⟨l, fun s hs => ?_⟩
  exact n s (hg.coh _ _ ((l.sub _).subset hs)) hs

theorem leaveTo_good {e : Set CId} {c : CId} {w w' : World} (hg : Good e w)
    (h : forR (w.comps c).toStores (fun s0 => leaveQ c (.toReq s0)) w = .ok w') :
    Lv w w' ∧ ∀ s, c ∉ w'.inQ (.toReq s) := by
  obtain ⟨l, n⟩ := forR_lv (g := fun s => .toReq s) (fun a w w' => leaveQ_lv) _ _ _ h hg.nd
  refine ⟨l, fun s hs => ?_⟩
  exact n s (hg.coh _ _ ((l.sub _).subset hs)) hs

/-- a component that waits in no store's queue forgets the stores and continues -/
theorem wakeFrom_good {e e' : Set CId} {c : CId} {w w' : World} {i j} (hg : Good e w) (he : ∀ d, d ≠ c → (d ∈ e' ↔ d ∈ e))
    (hn : ∀ s, c ∉ w.inQ (.fromReq s))
    (h : wake c i (w.modC c (fun x => { x with fromStores := [], fromItem := j })) = .ok w') :
    Good e' w' ∧ w'.main = w.main ∧ Clock c w w' ∧ w'.queues = w.queues ∧ (∀ d, d ≠ c → w'.comps d = w.comps d) := by
  have g2 : Good e (w.modC c (fun x => { x with fromStores := [], fromItem := j })) := by
    refine hg.modC (fun _ => rfl) (fun h => ⟨h.req, h.wai, rfl, h.tos⟩) ?_
    intro q hq
    refine awaits_congr (fun _ _ h => h) (fun _ _ h => h) (fun r hr _ => ?_) (fun _ _ h => h)
    exact absurd (hr ▸ hq) (hn r)
  obtain ⟨g3, k⟩ := good_wake (e' := e') g2 he h
  exact ⟨g3, k.main, ⟨k.now, k.evs⟩, k.queues, fun d hd => by rw [k.other d hd, modC_other hd]⟩

theorem wakeTo_good {e e' : Set CId} {c : CId} {w w' : World} {i} (hg : Good e w) (he : ∀ d, d ≠ c → (d ∈ e' ↔ d ∈ e))
    (hn : ∀ s, c ∉ w.inQ (.toReq s))
    (h : wake c i (w.modC c (fun x => { x with toStores := [] })) = .ok w') :
    Good e' w' ∧ w'.main = w.main ∧ Clock c w w' ∧ w'.queues = w.queues ∧ (∀ d, d ≠ c → w'.comps d = w.comps d) := by
  have g2 : Good e (w.modC c (fun x => { x with toStores := [] })) := by
    refine hg.modC (fun _ => rfl) (fun h => ⟨h.req, h.wai, h.frm, rfl⟩) ?_
    intro q hq
    refine awaits_congr (fun _ _ h => h) (fun _ _ h => h) (fun _ _ h => h) (fun r hr _ => ?_)
    exact absurd (hr ▸ hq) (hn r)
  obtain ⟨g3, k⟩ := good_wake (e' := e') g2 he h
  exact ⟨g3, k.main, ⟨k.now, k.evs⟩, k.queues, fun d hd => by rw [k.other d hd, modC_other hd]⟩

theorem trR_store (e : Set CId) (fuel : Nat) : (∀ item s p w, Good e w → TrR e w (storeEnter fuel item s p w)) ∧
    (∀ item s w, Good e w → TrR e w (storeLeave fuel item s w)) := by
  induction fuel with
  | zero =>
    refine ⟨fun item s p w hg => ?_, fun item s w hg => ?_⟩
    · rw [storeEnter]; exact .err
    · rw [storeLeave]; exact .err
  | succ n ih =>
    obtain ⟨i1, i2⟩ := ih
    refine ⟨fun item s p w hg => ?_, fun item s w hg => ?_⟩
    · rw [storeEnter.eq_def]
      refine TrR.andThen ?_ fun w1 t1 => ?_
      · intro w1 h1
        cases p with
        | some p => exact tr_queue hg rfl h1 fun q' hq' => Queue.run_kind (o := .enterSorted item p) hq'
        | none => exact tr_queue hg rfl h1 fun q' hq' => Queue.run_kind (o := .enter item) hq'
      · split
        · exact .ok t1.good
        · rename_i m hm
          intro w' h'
          obtain ⟨w2, h2, h'⟩ := andThen_ok h'
          obtain ⟨w3, h3, h4⟩ := andThen_ok h'
          have hmem := List.mem_of_find?_eq_some hm
          have hact : ¬ NoWait (w1.comps m.c) := t1.good.waits_of_inQ (q := .fromReq s) rfl (List.mem_map.2 ⟨m, hmem, rfl⟩)
          have t2 := i2 _ _ _ t1.good w2 h2
          obtain ⟨l3, n3⟩ := leaveFrom_good t2.good h3
          have t3 := t2.trans (Tr.lv t2.good l3)
          obtain ⟨g4, m4, o4, q4, c4⟩ := wakeFrom_good (e' := e) t3.good (fun _ _ => Iff.rfl) n3 h4
          exact t3.active hact g4 m4 o4 (fun q _ d hd => by simpa [World.inQ, q4] using hd) c4
    · rw [storeLeave]
      refine TrR.andThen ?_ fun w1 t1 => ?_
      · intro w1 h1
        exact Tr.lv hg (leaveQ_lv h1 (hg.nd _)).1
      · simp only
        split
        · split
          · exact .ok t1.good
          · rename_i m hm
            split
            · exact .err
            · intro w' h'
              obtain ⟨w2, h2, h'⟩ := andThen_ok h'
              obtain ⟨w3, h3, h'⟩ := andThen_ok h'
              obtain ⟨w4, h4, h5⟩ := andThen_ok h'
              have hmem := List.mem_of_mem_head? (l := (w1.queues (.toReq s)).mem) hm
              have hact : ¬ NoWait (w1.comps m.c) := t1.good.waits_of_inQ (q := .toReq s) rfl (List.mem_map.2 ⟨m, hmem, rfl⟩)
              have t2 := i1 _ _ _ _ t1.good w2 h2
              obtain ⟨l3, n3⟩ := leaveTo_good t2.good h3
              have t3 := t2.trans (Tr.lv t2.good l3)
              obtain ⟨g4, m4, o4, q4, c4⟩ := wakeTo_good (e' := e) t3.good (fun _ _ => Iff.rfl) n3 h4
              cases h5
              exact t3.active hact (g4.modC' (fun _ => rfl) (fun _ => rfl) (fun _ => rfl) (fun _ => rfl) (fun _ => rfl)) m4 ⟨o4.now, o4.evs⟩
                (fun q _ d hd => by
                  have : d ∈ w4.inQ q := hd
                  simpa [World.inQ, q4] using this) (fun d hd => by rw [modC_other hd, c4 d hd])
        · exact .ok t1.good

theorem rescanItems_tr {e : Set CId} {fuel : Nat} {c : CId} {s : StId} {w0 : World} (hact : ¬ NoWait (w0.comps c)) :
    ∀ (l : List CId) (w w' : World), Tr e w0 w → forR l (rescanItems fuel c s) w = .ok w' → Tr e w0 w'
  | [], w, w', t, h => by cases h; exact t
  | item :: l, w, w', t, h => by
    unfold forR at h
    obtain ⟨w1, h1, h2⟩ := andThen_ok h
    refine rescanItems_tr hact l w1 w' ?_ h2
    unfold rescanItems at h1
    split at h1
    · obtain ⟨w2, h2, h1⟩ := andThen_ok h1
      obtain ⟨w3, h3, h4⟩ := andThen_ok h1
      obtain ⟨l2, n2⟩ := leaveFrom_good t.good h2
      have t2 := t.trans (Tr.lv t.good l2)
      have t3' := (trR_store e fuel).2 _ _ _ t2.good w3 h3
      have t3 := t2.trans t3'
      obtain ⟨g4, m4, o4, q4, c4⟩ := wakeFrom_good (e' := e) t3.good (fun _ _ => Iff.rfl) (fun s hs => n2 s (t3'.sub _ rfl _ hs)) h4
      exact t3.active hact g4 m4 o4 (fun q _ d hd => by simpa [World.inQ, q4] using hd) c4
    · cases h1; exact t

theorem trR_rescan {e : Set CId} {w : World} (fuel : Nat) (hg : Good e w) (s : StId) : TrR e w (rescan fuel s w) := by
  unfold rescan
  refine TrR.forR (fun c w hg => ?_) _ _ hg
  split
  · rename_i hh
    rw [has_inQ] at hh
    exact fun w' h => rescanItems_tr (hg.waits_of_inQ rfl hh) _ _ _ (.refl hg) h
  · exact .ok hg

theorem trR_rescanTo {e : Set CId} (fuel : Nat) (s : StId) : ∀ (l : List CId) (w : World), Good e w → TrR e w (rescanTo fuel s l w)
  | [], w, hg => .ok hg
  | c :: t, w, hg => by
    unfold rescanTo
    split
    · rename_i hh
      rw [has_inQ] at hh
      split
      · intro w' h
        obtain ⟨w1, h1, h⟩ := andThen_ok h
        obtain ⟨l1, n1⟩ := leaveTo_good hg h1
        have t1 := Tr.lv hg l1
        split at h
        · cases h
        · obtain ⟨w2, h2, h⟩ := andThen_ok h
          obtain ⟨w3, h3, h4⟩ := andThen_ok h
          have t2' := (trR_store e fuel).1 _ _ _ _ t1.good w2 h2
          have t2 := t1.trans t2'
          obtain ⟨g3, m3, o3, q3, c3⟩ := wakeTo_good (e' := e) t2.good (fun _ _ => Iff.rfl) (fun s hs => n1 s (t2'.sub _ rfl _ hs)) h3
          have t3 : Tr e w (w3.modC c (fun x => { x with toItem := none })) :=
            t2.active (hg.waits_of_inQ rfl hh) (g3.modC' (fun _ => rfl) (fun _ => rfl) (fun _ => rfl) (fun _ => rfl) (fun _ => rfl)) m3 ⟨o3.now, o3.evs⟩
              (fun q _ d hd => by
                have : d ∈ w3.inQ q := hd
                simpa [World.inQ, q3] using this) (fun d hd => by rw [modC_other hd, c3 d hd])
          exact t3.trans (trR_rescanTo fuel s t _ t3.good w' h4)
      · exact .ok hg
    · exact trR_rescanTo fuel s t w hg

theorem trR_storeSetCapacity {e : Set CId} {w : World} (fuel : Nat) (hg : Good e w) (s : StId) (cap) :
    TrR e w (storeSetCapacity fuel s cap w) := by
  unfold storeSetCapacity
  simp only
  have h1 : Tr e w (w.modQ (.store s) (fun q => q.setCapacity cap)) := by
    refine tr_queue (q := .store s) (f := fun q => .ok (q.setCapacity cap)) hg rfl ?_ fun q' hq' => ?_
    · simp only [onQueue]
      congr 1
      simp only [World.modQ]
      congr 1
      funext p
      split
      · rename_i hp; rw [hp]
      · rfl
    · cases hq'; exact .cap cap rfl
  split
  · exact fun w' h => h1.trans (trR_rescanTo fuel s _ _ h1.good w' h)
  · intro w' h; cases h; exact h1

/-! ### releasing -/

/-- effects that leave everything of components that do not wait alone, apart from their claims -/
structure TrC (e : Set CId) (w w' : World) : Prop where
  good : Good e w'
  main : w'.main = w.main
  now : w'.now = w.now
  sub : ∀ q, q.wq = true → ∀ c, c ∈ w'.inQ q → c ∈ w.inQ q
  frozen : ∀ c, NoWait (w.comps c) → ∃ l, w'.comps c = { w.comps c with claims := l }
  evs : Evs (fun c => ¬ NoWait (w.comps c)) w w'

theorem Tr.c {e : Set CId} {w w' : World} (h : Tr e w w') : TrC e w w' :=
  ⟨h.good, h.main, h.now, h.sub, fun c hc => ⟨_, h.frozen c hc⟩, h.evs⟩
theorem TrC.trans {e : Set CId} {a b c : World} (h : TrC e a b) (h2 : TrC e b c) : TrC e a c := by
  refine ⟨h2.good, h2.main.trans h.main, h2.now.trans h.now, fun q hq d hd => h.sub q hq d (h2.sub q hq d hd), fun d hd => ?_,
    h.evs.trans (h2.evs.mono fun d hd h' => hd ?_)⟩
  rotate_left
  · obtain ⟨l, hl⟩ := h.frozen d h'
    rw [hl]; exact ⟨h'.req, h'.wai, h'.frm, h'.tos⟩
  obtain ⟨l, hl⟩ := h.frozen d hd
  obtain ⟨l2, hl2⟩ := h2.frozen d (by rw [hl]; exact ⟨hd.req, hd.wai, hd.frm, hd.tos⟩)
  exact ⟨l2, by rw [hl2, hl]⟩
theorem TrC.noWait {e : Set CId} {w w' : World} (h : TrC e w w') {c : CId} (hc : NoWait (w.comps c)) : NoWait (w'.comps c) := by
  obtain ⟨l, hl⟩ := h.frozen c hc
  rw [hl]; exact ⟨hc.req, hc.wai, hc.frm, hc.tos⟩

/-- what giving back a resource does -/
structure Gave (c : CId) (w w' : World) : Prop where
  other : ∀ d, d ≠ c → w'.comps d = w.comps d
  self : ∃ l, w'.comps c = { w.comps c with claims := l }
  main : w'.main = w.main
  now : w'.now = w.now
  sub : ∀ q, q.wq = true → w'.inQ q = w.inQ q
  events : w'.events = w.events

/-- the quantity that is really released -/
def relQty (q : Option Rat) (cl : Rat) : Rat := match q with
  | none => cl
  | some q => if q > cl then cl else q

theorem releaseCore_ok {c : CId} {r : RId} {q : Option Rat} {w w' : World} (h : releaseCore c r q w = .ok w') :
    ∃ cl, lookup (w.comps c).claims r = some cl ∧
      (if cl - relQty q cl < eps then
        leaveQ c (.claimers r) ((w.modR r (fun x => { x with claimed := x.claimed - relQty q cl })).modC c
            (fun x => { x with claims := addTo x.claims r (-relQty q cl) })) ⊳ fun w =>
          .ok (((if (w.queues (.claimers r)).len = 0 then w.modR r (fun x => { x with claimed := 0 }) else w).tallyR r).modC c
            (fun x => { x with claims := delKey x.claims r }))
      else .ok (((w.modR r (fun x => { x with claimed := x.claimed - relQty q cl })).tallyR r).modC c
        (fun x => { x with claims := addTo x.claims r (-relQty q cl) }))) = .ok w' := by
  unfold releaseCore at h
  cases hl : lookup (w.comps c).claims r with
  | none => rw [hl] at h; cases h
  | some cl => rw [hl] at h; exact ⟨cl, rfl, h⟩

theorem releaseCore_good {e : Set CId} {c : CId} {r : RId} {q : Option Rat} {w w' : World} (hg : Good e w)
    (h : releaseCore c r q w = .ok w') : Good e w' ∧ Gave c w w' := by
  obtain ⟨cl, hcl, h⟩ := releaseCore_ok h
  · generalize relQty q cl = q' at h
    have g1 : ∀ w, Good e w → Good e (w.modC c (fun x => { x with claims := addTo x.claims r (-q') })) := fun w hg =>
      hg.modC' (fun _ => rfl) (fun _ => rfl) (fun _ => rfl) (fun _ => rfl) (fun _ => rfl)
    split at h
    · obtain ⟨w2, h2, h3⟩ := andThen_ok h
      obtain ⟨l2, _⟩ := leaveQ_lv h2 (hg.nd _)
      have g2 : Good e w2 := l2.good (g1 _ (hg.modR _ _))
      have hw2 : ∀ q, q.wq = true → w2.inQ q = w.inQ q := by
        intro q hq
        obtain ⟨q', _, e2⟩ := onQueue_ok h2
        rw [e2, inQ_modQ, if_neg (by rintro rfl; simp [QRef.wq] at hq)]
        rfl
      have h4 : ∃ w3, Good e w3 ∧ w3.comps = w2.comps ∧ w3.main = w2.main ∧ w3.now = w2.now ∧ w3.queues = w2.queues ∧ w3.events = w2.events ∧
          w' = w3.modC c (fun x => { x with claims := delKey x.claims r }) := by
        refine ⟨_, ?_, ?_, ?_, ?_, ?_, ?_, (R.ok.inj h3).symm⟩
        · refine Good.modR ?_ _ _
          split
          · exact g2.modR _ _
          · exact g2
        all_goals (simp only [World.tallyR, World.modR]; split <;> rfl)
      obtain ⟨w3, g3, c3, m3, n3, q3, e3, rfl⟩ := h4
      refine ⟨g3.modC' (fun _ => rfl) (fun _ => rfl) (fun _ => rfl) (fun _ => rfl) (fun _ => rfl), ?_, ?_, m3.trans l2.main,
        n3.trans (congrArg EV.now l2.ev), ?_, e3.trans (congrArg EV.events l2.ev)⟩
      · intro d hd
        rw [modC_other hd, c3, l2.comps, modC_other hd]; rfl
      · refine ⟨delKey (w3.comps c).claims r, ?_⟩
        rw [modC_self, c3, l2.comps, modC_self]
        rfl
      · intro q hq
        rw [← hw2 q hq]
        show w3.inQ q = _
        simp [World.inQ, q3]
    · cases h
      exact ⟨g1 _ ((hg.modR _ _).modR _ _), fun d hd => modC_other hd _ _, ⟨_, modC_self _ _ _⟩, rfl, rfl, fun _ _ => rfl, rfl⟩

theorem Gave.trC {e : Set CId} {c : CId} {w w' : World} (hg : Good e w') (h : Gave c w w') : TrC e w w' := by
  refine ⟨hg, h.main, h.now, fun q hq d hd => by rwa [← h.sub q hq], fun d _ => ?_, .of_eq h.events⟩
  by_cases hd : d = c
  · subst hd; exact h.self
  · exact ⟨_, h.other d hd⟩

/-- if the call returns, it is of the kind `TrC` -/
def TrRC (e : Set CId) (w : World) (r : R) : Prop := ∀ w', r = .ok w' → TrC e w w'
theorem TrR.c {e : Set CId} {w : World} {r : R} (h : TrR e w r) : TrRC e w r := fun w' hw => (h w' hw).c
theorem TrRC.andThen {e : Set CId} {w : World} {r : R} {f : World → R} (h : TrRC e w r)
    (hf : ∀ w', TrC e w w' → TrRC e w' (f w')) : TrRC e w (r ⊳ f) := by
  intro w2 h2
  obtain ⟨w1, h1, h2⟩ := andThen_ok h2
  exact (h w1 h1).trans (hf w1 (h w1 h1) w2 h2)
theorem TrRC.forR {α : Type} {e : Set CId} {f : α → World → R} (hf : ∀ a w', Good e w' → TrRC e w' (f a w')) :
    ∀ (l : List α) (w : World), Good e w → TrRC e w (Verif.forR l f w)
  | [], w, hg => (TrR.ok hg).c
  | a :: t, w, hg => TrRC.andThen (hf a w hg) fun w' h => TrRC.forR hf t w' h.good

theorem trRC_release1 {e : Set CId} {w : World} (hg : Good e w) (fuel c r q) : TrRC e w (release1 fuel c r q w) := by
  refine TrRC.andThen (fun w1 h1 => ?_) fun w1 t1 => ((trR_try e fuel).2.2.1 r w1 t1.good).c
  obtain ⟨g, k⟩ := releaseCore_good hg h1
  exact k.trC g
theorem trRC_releaseArgs {e : Set CId} {w : World} (hg : Good e w) (fuel c args) : TrRC e w (releaseArgs fuel c args w) := by
  refine TrRC.forR (fun a w hg => ?_) _ _ hg
  split
  · exact TrR.err.c
  · exact trRC_release1 hg _ _ _ _
theorem trRC_releaseAll {e : Set CId} {w : World} (hg : Good e w) (fuel c) : TrRC e w (releaseAll fuel c w) :=
  TrRC.forR (fun _ _ hg => trRC_release1 hg _ _ _ _) _ _ hg
theorem trRC_resReleaseLoop {e : Set CId} (r : RId) : ∀ (fuel : Nat) (mx) (w : World), Good e w → TrRC e w (resReleaseLoop fuel r mx w)
  | 0, mx, w, hg => TrR.err.c
  | fuel + 1, mx, w, hg => by
    unfold resReleaseLoop
    simp only
    split
    · exact (TrR.ok hg).c
    · split
      · exact TrR.err.c
      · exact TrRC.andThen (trRC_release1 hg _ _ _ _) fun w' h => trRC_resReleaseLoop r fuel _ w' h.good
theorem tr_modR {e : Set CId} {w : World} (hg : Good e w) (r f) : Tr e w (w.modR r f) :=
  ⟨hg.modR _ _, rfl, rfl, fun _ _ _ h => h, fun _ _ => rfl, .of_eq rfl⟩
theorem trRC_resRelease {e : Set CId} {w : World} (hg : Good e w) (fuel r q) : TrRC e w (resRelease fuel r q w) := by
  unfold resRelease
  split
  · intro w' h
    exact ((tr_modR hg _ _).trans ((trR_try e fuel).2.2.1 r _ (hg.modR _ _) w' h)).c
  · split
    · exact TrR.err.c
    · exact trRC_resReleaseLoop r fuel _ w hg
theorem trR_resSetCapacity {e : Set CId} {w : World} (hg : Good e w) (fuel r k) : TrR e w (resSetCapacity fuel r k w) :=
  fun w' h => (tr_modR hg _ _).trans ((trR_try e fuel).2.2.1 r _ (hg.modR _ _) w' h)

end Verif
