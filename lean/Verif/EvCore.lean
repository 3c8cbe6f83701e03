import Verif.EvInv

/-!
# Core invariant of the event list: primitives
-/

namespace Verif
open World Heapq

theorem evLaw : Law Ev.lt where
  irrefl a := by simp [Ev.lt]
  trans a b c := by
    simp only [Ev.lt, Bool.or_eq_true, Bool.and_eq_true, decide_eq_true_eq]
    rintro (h1 | ⟨h1, h1' | ⟨h1', h1''⟩⟩) (h2 | ⟨h2, h2' | ⟨h2', h2''⟩⟩)
    · exact .inl (h1.trans h2)
    · exact .inl (h2 ▸ h1)
    · exact .inl (h2 ▸ h1)
    · exact .inl (h1 ▸ h2)
    · exact .inr ⟨h1.trans h2, .inl (h1'.trans h2')⟩
    · exact .inr ⟨h1.trans h2, .inl (h2' ▸ h1')⟩
    · exact .inl (h1 ▸ h2)
    · exact .inr ⟨h1.trans h2, .inl (h1' ▸ h2')⟩
    · exact .inr ⟨h1.trans h2, .inr ⟨h1'.trans h2', h1''.trans h2''⟩⟩
  ntrans a b c := by
    simp only [Ev.lt, Bool.or_eq_false_iff, Bool.and_eq_false_iff, decide_eq_false_iff_not]
    intro ⟨h1, h1'⟩ ⟨h2, h2'⟩
    push Not at h1 h2 ⊢
    refine ⟨h2.trans h1, ?_⟩
    by_cases hac : a.t = c.t
    · have hab : a.t = b.t := le_antisymm (hac ▸ h2) h1
      have hbc : b.t = c.t := hab ▸ hac
      have e1 : ¬ a.prio < b.prio ∧ (¬ a.prio = b.prio ∨ ¬ a.seq < b.seq) := by
        rcases h1' with h | h
        · exact absurd hab h
        · exact h
      have e2 : ¬ b.prio < c.prio ∧ (¬ b.prio = c.prio ∨ ¬ b.seq < c.seq) := by
        rcases h2' with h | h
        · exact absurd hbc h
        · exact h
      right
      obtain ⟨p1, q1⟩ := e1
      obtain ⟨p2, q2⟩ := e2
      push Not at p1 p2
      refine ⟨p2.trans p1, ?_⟩
      by_cases hp : a.prio = c.prio
      · right
        have hpab : a.prio = b.prio := le_antisymm (hp ▸ p2) p1
        have hpbc : b.prio = c.prio := hpab ▸ hp
        rcases q1 with q1 | q1
        · exact absurd hpab q1
        rcases q2 with q2 | q2
        · exact absurd hpbc q2
        omega
      · exact .inl hp
    · exact .inl hac

/-- statuses that may go with a pending event; `data` is possible after a call that raised -/
def Status.sch (s : Status) : Prop := s = .scheduled ∨ s = .requesting ∨ s = .waiting ∨ s = .data

/-- The invariant of the event list. -/
structure EvInv (e : EV) : Prop where
  heap : IsHeap Ev.lt e.events
  ge : ∀ x ∈ e.events, e.now ≤ x.t
  nodup : (e.events.map Ev.c).Nodup
  on : ∀ c, (e.comps c).onList = true ↔ ∃ x ∈ e.events, x.c = c
  sched : ∀ x ∈ e.events, (e.comps x.c).status ≠ .data → (e.comps x.c).sched = x.t
  st : ∀ c, (e.comps c).onList = true → (e.comps c).status.sch
  seqle : ∀ x ∈ e.events, x.seq.natAbs ≤ e.seq
  seqnd : (e.events.map (fun x => x.seq.natAbs)).Nodup

abbrev World.Inv (w : World) : Prop := EvInv w.ev

/-- removal of the first event of `c` by overwriting it with the first event -/
theorem removeAt_perm {c : CId} : ∀ {l : List Ev} {i : Nat} {e0 : Ev} {t : List Ev}, (l.map Ev.c).Nodup → l = e0 :: t →
    l.findIdx? (fun e => e.c == c) = some i → ((l.set i e0).tail).Perm (l.filter (fun e => e.c != c)) := by
  intro l i e0 t nd hl hi
  have hil : i < l.length := by
    have := List.findIdx?_eq_some_iff_findIdx_eq.1 hi; omega
  have hf : l.eraseIdx i = l.filter (fun e => e.c != c) := by
    clear hl
    induction l generalizing i with
    | nil => simp at hil
    | cons a l ih =>
      rw [List.findIdx?_cons] at hi
      simp only [List.map_cons, List.nodup_cons] at nd
      by_cases hac : a.c = c
      · simp [hac] at hi
        subst hi
        simp only [List.eraseIdx_zero, List.tail_cons, List.filter_cons, hac, bne_self_eq_false]
        symm
        simp only [Bool.false_eq_true, ↓reduceIte, List.filter_eq_self]
        intro b hb
        have : b.c ≠ a.c := fun h => nd.1 (h ▸ List.mem_map_of_mem hb)
        simpa [hac] using this
      · have hac' : (a.c == c) = false := by simpa using hac
        rw [hac'] at hi
        simp only [Bool.false_eq_true, ↓reduceIte, Option.map_eq_some_iff] at hi
        obtain ⟨j, hj, rfl⟩ := hi
        have hjl : j < l.length := by simpa using hil
        simp [hac, ih nd.2 hj hjl]
  rw [← hf]
  subst hl
  cases i with
  | zero => simp
  | succ j =>
    simp only [List.set_cons_succ, List.tail_cons, List.eraseIdx_cons_succ]
    have : j < t.length := by simpa using hil
    exact List.set_perm_cons_eraseIdx this e0

theorem EvInv.not_on {e : EV} (h : EvInv e) {c : CId} (hs : (e.comps c).status = .current ∨ (e.comps c).status = .passive ∨
    (e.comps c).status = .interrupted ∨ (e.comps c).status = .standby) : (e.comps c).onList = false := by
  by_contra hc
  have := h.st c (by simpa using hc)
  rcases hs with hs | hs | hs | hs <;> rw [hs] at this <;> simp [Status.sch] at this

/-- what `_remove` does on a state that satisfies the invariant -/
theorem remove_spec {w : World} (h : w.Inv) (c : CId) : ∃ es, es.Perm (w.events.filter (fun e => e.c != c)) ∧
    IsHeap Ev.lt es ∧
    remove c w = .ok { (w.modC c (fun x => { x with onList := false })) with
      events := es,
      standby := if w.status c = .standby then w.standby.erase c else w.standby,
      pending := if w.status c = .standby then w.pending.erase c else w.pending } := by
  unfold remove
  split
  · rename_i hon
    obtain ⟨x, hx, hxc⟩ := (h.on c).1 hon
    have hne : w.status c ≠ .standby := by
      intro hs
      have := h.st c hon
      simp only [World.status] at hs
      simp [World.ev, Comp.cv, hs, Status.sch] at this
    have hx' : x ∈ w.events := hx
    obtain ⟨i, hi⟩ : ∃ i, w.events.findIdx? (fun e => e.c == c) = some i := by
      cases hf : w.events.findIdx? (fun e => e.c == c) with
      | some i => exact ⟨i, rfl⟩
      | none =>
        rw [List.findIdx?_eq_none_iff] at hf
        have := hf x hx'
        simp [hxc] at this
    rw [hi]
    cases hev : w.events with
    | nil => rw [hev] at hx'; cases hx'
    | cons e0 t =>
      refine ⟨heapify Ev.lt (((e0 :: t).set i e0).tail), ?_, heapify_isHeap evLaw _, ?_⟩
      · refine (heapify_perm _).trans ?_
        rw [← hev]
        exact removeAt_perm h.nodup hev hi
      · simp only [hne, if_false]
        simp [World.modC]
  · rename_i hon
    have hmod : (w.modC c (fun x => { x with onList := false })) = w := by
      unfold World.modC
      cases w
      simp only [World.mk.injEq, true_and, and_true]
      funext d
      split
      · rename_i hd
        subst hd
        simp only [Bool.not_eq_true] at hon
        rw [← hon]
      · rfl
    refine ⟨w.events, ?_, h.heap, ?_⟩
    · have : w.events.filter (fun e => e.c != c) = w.events := by
        rw [List.filter_eq_self]
        intro x hx
        by_contra hxc
        exact hon ((h.on c).2 ⟨x, hx, by simpa using hxc⟩)
      rw [this]
    · rw [hmod]
      split <;> rfl

theorem EvInv.of_perm_filter {w : World} (h : w.Inv) (c : CId) {es : List Ev} (hp : es.Perm (w.events.filter (fun e => e.c != c)))
    (hh : IsHeap Ev.lt es) (sb pd : List CId) : EvInv
      (World.ev { (w.modC c (fun x => { x with onList := false })) with events := es, standby := sb, pending := pd }) := by
  have hmem : ∀ x, x ∈ es ↔ x ∈ w.events ∧ x.c ≠ c := by
    intro x; rw [hp.mem_iff]; simp
  refine ⟨hh, fun x hx => h.ge x ((hmem x).1 hx).1, ?_, ?_, ?_, ?_, fun x hx => h.seqle x ((hmem x).1 hx).1, ?_⟩
  · show (es.map Ev.c).Nodup
    refine (hp.map Ev.c).nodup_iff.2 ?_
    exact h.nodup.sublist (List.filter_sublist.map _)
  · intro d
    show ((if d = c then _ else _ : Comp).cv).onList = true ↔ ∃ x ∈ es, x.c = d
    by_cases hd : d = c
    · subst hd
      simp only [if_true, Comp.cv]
      constructor
      · intro hf; cases hf
      · rintro ⟨x, hx, hxc⟩; exact absurd hxc ((hmem x).1 hx).2
    · simp only [hd, if_false]
      rw [show ((w.comps d).cv).onList = true ↔ _ from h.on d]
      constructor
      · rintro ⟨x, hx, hxc⟩; exact ⟨x, (hmem x).2 ⟨hx, hxc ▸ hd⟩, hxc⟩
      · rintro ⟨x, hx, hxc⟩; exact ⟨x, ((hmem x).1 hx).1, hxc⟩
  · intro x hx
    obtain ⟨h1, h2⟩ := (hmem x).1 hx
    show ((if x.c = c then _ else _ : Comp).cv).status ≠ _ → ((if x.c = c then _ else _ : Comp).cv).sched = _
    simp only [h2, if_false]
    exact h.sched x h1
  · intro d
    show ((if d = c then _ else _ : Comp).cv).onList = true → ((if d = c then _ else _ : Comp).cv).status.sch
    by_cases hd : d = c
    · simp [hd, Comp.cv]
    · simp only [hd, if_false]
      exact h.st d
  · show (es.map _).Nodup
    refine (hp.map _).nodup_iff.2 ?_
    exact h.seqnd.sublist (List.filter_sublist.map _)

/-- consequences of `_remove`, in the form used below -/
theorem remove_ok {w : World} (h : w.Inv) (c : CId) : ∃ w', remove c w = .ok w' ∧ w'.Inv ∧ (w'.comps c).onList = false ∧
    (∀ d, (w'.comps d).status = (w.comps d).status) ∧ w'.now = w.now ∧ w'.main = w.main := by
  obtain ⟨es, hp, hh, he⟩ := remove_spec h c
  refine ⟨_, he, h.of_perm_filter c hp hh _ _, ?_, ?_, rfl, rfl⟩
  · simp [World.modC]
  · intro d
    simp only [World.modC]
    split <;> rfl

theorem EvInv.push_aux {e e' : EV} (h : EvInv e) {c : CId} {ev : Ev} (hev : e'.events = heappush Ev.lt e.events ev)
    (hseq : e'.seq = e.seq + 1) (hnow : e'.now = e.now) (hcomp : ∀ d, d ≠ c → e'.comps d = e.comps d) (hc : ev.c = c)
    (hon : (e'.comps c).onList = true) (hsc : (e'.comps c).sched = ev.t) (hst : (e'.comps c).status.sch)
    (hsq : ev.seq.natAbs = e.seq + 1) (hoff : (e.comps c).onList = false) (ht : e.now ≤ ev.t) : EvInv e' := by
  have hnone : ∀ x ∈ e.events, x.c ≠ c := by
    intro x hx hxc
    have := (h.on c).2 ⟨x, hx, hxc⟩
    simp [hoff] at this
  have hperm : (heappush Ev.lt e.events ev).Perm (ev :: e.events) := heappush_perm _ _
  rw [← hev] at hperm
  have hmem : ∀ x, x ∈ e'.events ↔ x = ev ∨ x ∈ e.events := by
    intro x; rw [hperm.mem_iff]; simp
  refine ⟨hev ▸ heappush_isHeap evLaw _ h.heap, ?_, ?_, ?_, ?_, ?_, ?_, ?_⟩
  · intro x hx
    rw [hnow]
    rcases (hmem x).1 hx with rfl | hx
    · exact ht
    · exact h.ge x hx
  · refine (hperm.map Ev.c).nodup_iff.2 ?_
    simp only [List.map_cons, List.nodup_cons]
    refine ⟨?_, h.nodup⟩
    intro hc'
    obtain ⟨x, hx, hxc⟩ := List.mem_map.1 hc'
    exact hnone x hx (hxc.trans hc)
  · intro d
    by_cases hd : d = c
    · subst hd
      simp only [hon, true_iff]
      exact ⟨ev, (hmem _).2 (.inl rfl), hc⟩
    · rw [hcomp d hd, h.on d]
      constructor
      · rintro ⟨x, hx, hxc⟩; exact ⟨x, (hmem x).2 (.inr hx), hxc⟩
      · rintro ⟨x, hx, hxc⟩
        rcases (hmem x).1 hx with rfl | hx
        · exact absurd (hxc.symm.trans hc) hd
        · exact ⟨x, hx, hxc⟩
  · intro x hx
    rcases (hmem x).1 hx with rfl | hx
    · rw [hc]; intro _; exact hsc
    · rw [hcomp _ (hnone x hx)]
      exact h.sched x hx
  · intro d hd
    by_cases hdc : d = c
    · subst hdc; exact hst
    · rw [hcomp _ hdc] at hd ⊢
      exact h.st d hd
  · intro x hx
    rw [hseq]
    rcases (hmem x).1 hx with rfl | hx
    · exact hsq.le
    · exact (h.seqle x hx).trans (by omega)
  · refine (hperm.map _).nodup_iff.2 ?_
    simp only [List.map_cons, List.nodup_cons]
    refine ⟨?_, h.seqnd⟩
    intro hc'
    obtain ⟨x, hx, hxc⟩ := List.mem_map.1 hc'
    have := h.seqle x hx
    omega

/-- pushing an event for a component that has none -/
theorem push_inv {w : World} (h : w.Inv) {c : CId} {t : ETime} (hn : (w.comps c).onList = false) (ht : (w.now : ETime) ≤ t)
    (hs : (w.comps c).status.sch) (prio : ETime) (urgent : Bool) (ret : Option CId) :
    (push c t prio urgent ret (w.modC c (fun x => { x with schedTime := t }))).Inv := by
  have hnone : ∀ x ∈ w.events, x.c ≠ c := by
    intro x hx hxc
    have : (w.ev.comps c).onList = true := (h.on c).2 ⟨x, hx, hxc⟩
    simp [World.ev, Comp.cv, hn] at this
  have hcomp : ∀ d, d ≠ c → ((w.modC c (fun x => { x with schedTime := t })).comps d) = w.comps d := by
    intro d hd; simp [World.modC, hd]
  induction t using WithTop.recTopCoe with
  | top =>
    unfold push
    refine ⟨h.heap, h.ge, h.nodup, ?_, ?_, ?_, h.seqle, h.seqnd⟩
    · intro d
      show (((w.modC c _).comps d).cv).onList = true ↔ _
      by_cases hd : d = c
      · subst hd
        rw [show (((w.modC d (fun x => { x with schedTime := ⊤ })).comps d).cv).onList = ((w.comps d).cv).onList by
          simp [World.modC, Comp.cv]]
        exact h.on d
      · rw [hcomp d hd]; exact h.on d
    · intro x hx
      show (((w.modC c _).comps x.c).cv).status ≠ _ → _
      have := hnone x hx
      show _ → (((w.modC c _).comps x.c).cv).sched = _
      rw [hcomp _ this]
      exact h.sched x hx
    · intro d hd
      have hd' : (((w.modC c (fun x => { x with schedTime := ⊤ })).comps d).cv).onList = true := hd
      show (((w.modC c (fun x => { x with schedTime := ⊤ })).comps d).cv).status.sch
      by_cases hdc : d = c
      · subst hdc
        simpa [World.modC, Comp.cv] using hs
      · rw [hcomp _ hdc] at hd' ⊢
        exact h.st d hd'
  | coe t =>
    have ht' : w.now ≤ t := by exact_mod_cast ht
    refine h.push_aux (c := c) (ev := ⟨t, prio, if urgent then -((w.seq + 1 : Nat) : Int) else ((w.seq + 1 : Nat) : Int), c, ret⟩)
      rfl rfl rfl ?_ rfl ?_ ?_ ?_ ?_ hn ht'
    · intro d hd
      simp [World.ev, push, World.modC, hd]
    · simp [World.ev, push, World.modC, Comp.cv]
    · simp [World.ev, push, World.modC, Comp.cv]
    · simpa [World.ev, push, World.modC, Comp.cv] using hs
    · show Int.natAbs (if _ then _ else _) = _
      split
      · rw [Int.natAbs_neg]; rfl
      · rfl

/-- changing the status (and anything else but `onList`, `schedTime`) of a component -/
theorem modC_inv {w : World} (h : w.Inv) {c : CId} {f : Comp → Comp} (h1 : ∀ x, (f x).onList = x.onList)
    (h2 : ∀ x, (f x).schedTime = x.schedTime)
    (h3 : (w.comps c).onList = false ∨ ((f (w.comps c)).status.sch ∧ ((f (w.comps c)).status = .data ∨ (w.comps c).status ≠ .data))) :
    (w.modC c f).Inv := by
  have hon : ∀ d, ((w.modC c f).comps d).onList = (w.comps d).onList := by
    intro d; simp only [World.modC]; split <;> simp [h1]
  have hsc : ∀ d, ((w.modC c f).comps d).schedTime = (w.comps d).schedTime := by
    intro d; simp only [World.modC]; split <;> simp [h2]
  have hst : ∀ d, d ≠ c → ((w.modC c f).comps d).status = (w.comps d).status := by
    intro d hd; simp [World.modC, hd]
  refine ⟨h.heap, h.ge, h.nodup, ?_, ?_, ?_, h.seqle, h.seqnd⟩
  · intro d
    show ((w.modC c f).comps d).onList = true ↔ _
    rw [hon]; exact h.on d
  · intro x hx
    show ((w.modC c f).comps x.c).status ≠ _ → ((w.modC c f).comps x.c).schedTime = _
    rw [hsc]
    by_cases hxc : x.c = c
    · intro hd
      refine h.sched x hx ?_
      show (w.comps x.c).status ≠ _
      rcases h3 with h3 | ⟨_, h3 | h3⟩
      · have := (h.on c).2 ⟨x, hx, hxc⟩
        simp [World.ev, Comp.cv, h3] at this
      · simp [hxc, World.modC, h3] at hd
      · rw [hxc]; exact h3
    · rw [hst _ hxc]; exact h.sched x hx
  · intro d hd
    have hd' : ((w.modC c f).comps d).onList = true := hd
    show ((w.modC c f).comps d).status.sch
    rw [hon] at hd'
    by_cases hdc : d = c
    · subst hdc
      rcases h3 with h3 | ⟨h3, _⟩
      · rw [h3] at hd'; cases hd'
      · simpa [World.modC] using h3
    · rw [hst _ hdc]; exact h.st d hd'

/-- any change to a component without pending event -/
theorem modC_inv_off {w : World} (h : w.Inv) {c : CId} {f : Comp → Comp} (h1 : (w.comps c).onList = false)
    (h2 : ∀ x, (f x).onList = x.onList) : (w.modC c f).Inv := by
  have hon : ∀ d, ((w.modC c f).comps d).onList = (w.comps d).onList := by
    intro d; simp only [World.modC]; split <;> simp [h2]
  have hst : ∀ d, d ≠ c → ((w.modC c f).comps d) = (w.comps d) := by
    intro d hd; simp [World.modC, hd]
  have hne : ∀ x ∈ w.events, x.c ≠ c := by
    intro x hx hxc
    have : (w.comps c).onList = true := (h.on c).2 ⟨x, hx, hxc⟩
    simp [h1] at this
  refine ⟨h.heap, h.ge, h.nodup, ?_, ?_, ?_, h.seqle, h.seqnd⟩
  · intro d
    show ((w.modC c f).comps d).onList = true ↔ _
    rw [hon]; exact h.on d
  · intro x hx
    show ((w.modC c f).comps x.c).status ≠ _ → ((w.modC c f).comps x.c).schedTime = _
    rw [hst _ (hne x hx)]; exact h.sched x hx
  · intro d hd
    have hd' : ((w.modC c f).comps d).onList = true := hd
    show ((w.modC c f).comps d).status.sch
    rw [hon] at hd'
    by_cases hdc : d = c
    · subst hdc; rw [h1] at hd'; cases hd'
    · rw [hst _ hdc]; exact h.st d hd'

theorem reschedule_inv {w : World} (h : w.Inv) {c : CId} (t prio : ETime) (urgent cap ret) (hn : (w.comps c).onList = false)
    (hs : (w.comps c).status.sch) : (reschedule c t prio urgent cap ret w).world.Inv := by
  unfold reschedule
  split
  · split
    · exact push_inv h hn le_rfl hs _ _ _
    · exact h
  · rename_i ht
    exact push_inv h hn (not_lt.1 ht) hs _ _ _

@[simp] theorem status_setStatus (c : CId) (s : Status) (w : World) : ((setStatus c s w).comps c).status = s := by
  simp [setStatus, World.modC]
@[simp] theorem onList_setStatus (c d : CId) (s : Status) (w : World) : ((setStatus c s w).comps d).onList = (w.comps d).onList := by
  simp only [setStatus, World.modC]; split <;> rfl

theorem resched_set_inv {w : World} (h : w.Inv) {c : CId} {s : Status} (hs : s.sch) (t prio : ETime) (urgent cap ret)
    (hn : (w.comps c).onList = false) : (reschedule c t prio urgent cap ret (setStatus c s w)).world.Inv := by
  refine reschedule_inv ?_ _ _ _ _ _ (by simpa using hn) (by simpa using hs)
  exact modC_inv_off h hn fun _ => rfl

theorem wake_inv {w : World} (h : w.Inv) (c : CId) (ret) : (wake c ret w).world.Inv := by
  obtain ⟨w', he, hi, ho, _⟩ := remove_ok h c
  unfold wake
  rw [he]
  exact resched_set_inv hi (.inl rfl) _ _ _ _ _ ho

theorem Wk.inv {w w' : World} (h : Wk w w') (hi : w.Inv) : w'.Inv := by
  induction h with
  | refl => exact hi
  | frame _ he ih => unfold World.Inv; rw [he]; exact ih
  | wake d ret _ ih => exact wake_inv ih d ret

theorem Fr.inv {r : R} {w : World} (h : Fr r w) (hi : w.Inv) : r.world.Inv := by
  unfold World.Inv; rw [h]; exact hi
theorem inv_of_ev {w w' : World} (h : w'.ev = w.ev) (hi : w.Inv) : w'.Inv := by
  unfold World.Inv; rw [h]; exact hi

end Verif
