import Verif.Reach
import Mathlib.Tactic.Linarith

/-!
# Claims about the clock and the event list
-/

namespace Verif
open World

/-! ## C01 -/

/-- C01: the clock never runs backwards, whatever calls are made (including calls that raise) -/
theorem C01_clock_monotone {w w' : World} (h : Reach Any w) (h' : After Any w w') : w.now ≤ w'.now := by
  induction h' with
  | refl => exact le_refl _
  | op fuel o h1 _ ih => exact ih.trans (exec_now (h.after h1).inv0 fuel o)

/-- C01: no pending event is earlier than the clock -/
theorem C01_no_event_in_past {w : World} (h : Reach Any w) : ∀ e ∈ w.events, w.now ≤ e.t := h.inv0.ge

theorem fresh_init : Fresh World.init := by
  refine ⟨rfl, rfl, rfl, rfl, ?_, fun _ => ⟨⊤, rfl⟩, fun _ _ => rfl, fun _ => ⟨rfl, rfl, le_refl _, ?_, fun _ => rfl⟩, fun _ => rfl, fun _ => rfl⟩
  · intro c
    refine ⟨true, ?_⟩
    by_cases hc : c = 0 <;> simp [World.init, hc]
  · exact WithTop.coe_le_coe.2 (show (0 : Rat) ≤ 1 by decide +kernel)

/-- a small program: two components are made, one of them interrupts the other, a hold in the past is refused -/
def demoOps : List Op :=
  [.create 1 none (0 : Rat) (0 : Rat) false false false, .create 2 none (3 : Rat) (0 : Rat) false false false,
   .runStart (some (10 : Rat)) none ⊤ false false, .step, .hold 1 (some (5 : Rat)) none (0 : Rat) false false 0,
   .step, .interrupt 1, .hold 2 (some (-1 : Rat)) none (0 : Rat) false false 0, .hold 2 (some (4 : Rat)) none (0 : Rat) false false 0,
   .step]

theorem reach_execAll (fuel : Nat) {w : World} (h : Reach Any w) (ops : List Op) : Reach Any (execAll fuel ops w) := by
  induction ops generalizing w with
  | nil => exact h
  | cons o os ih => exact ih (.op fuel o h trivial)

/-- the clock has reached 7 and there still are events, at 10 -/
example : Reach Any (execAll 10 demoOps World.init) ∧ (execAll 10 demoOps World.init).now = 7 ∧
    (execAll 10 demoOps World.init).events.map (fun e => (e.t, e.c)) = [(10, 0)] :=
  ⟨reach_execAll _ (.init fresh_init) _, by decide +kernel, by decide +kernel⟩

/-! ## C02 -/

/-- specification: `a` is to happen before `b`: earlier, or at the same time with lower priority value, or, with the same time and
priority, lower sequence number (see `C02_order_of_scheduling` for what sequence numbers mean) -/
def Before (a b : Ev) : Prop := a.t < b.t ∨ (a.t = b.t ∧ (a.prio < b.prio ∨ (a.prio = b.prio ∧ a.seq < b.seq)))

theorem lt_iff_before (a b : Ev) : Ev.lt a b = true ↔ Before a b := by
  simp [Ev.lt, Before]

theorem before_total {a b : Ev} (h : ¬ Before a b) (hs : a.seq ≠ b.seq) : Before b a := by
  unfold Before at *
  push Not at h
  obtain ⟨h1, h2⟩ := h
  rcases lt_or_eq_of_le h1 with h3 | h3
  · exact .inl h3
  · right
    refine ⟨h3, ?_⟩
    obtain ⟨h4, h5⟩ := h2 h3.symm
    rcases lt_or_eq_of_le h4 with h6 | h6
    · exact .inl h6
    · exact .inr ⟨h6, lt_of_le_of_ne (h5 h6.symm) (Ne.symm hs)⟩

/-- the scheduler is about to take an event: there is no standby component whose turn it is -/
def TakesEvent (w : World) : Prop :=
  (w.comps w.current).skipStandby = true ∨ w.pending = [] ∨ ∃ c l, w.pending = c :: l ∧ w.status c ≠ .standby

theorem stepEvent_events {w : World} {e : Ev} {es : List Ev} (hp : Heapq.heappop Ev.lt w.events = some (e, es)) :
    (stepEvent w).world.events = es ∧ (stepEvent w).world.current = e.c ∧ (stepEvent w).world.now = e.t := by
  unfold stepEvent
  have h5 : (if w.standby = [] then w else { w with pending := w.standby, standby := [] } : World).events = w.events := by
    split <;> rfl
  simp only
  generalize (if w.standby = [] then w else { w with pending := w.standby, standby := [] } : World) = w2 at h5 ⊢
  rw [h5, hp]
  simp only
  split
  · exact ⟨rfl, rfl, rfl⟩
  · refine ⟨?_, (current_checkFail _ _).trans rfl, ?_⟩
    · exact (congrArg EV.events (fr_checkFail e.c _)).trans rfl
    · exact (congrArg EV.now (fr_checkFail e.c _)).trans rfl

/-- C02: the component that becomes current is the one whose pending event comes before all the other pending events; this event
is taken out of the list and the clock moves to its time. -/
theorem C02_step_takes_first_event {w : World} (h : Reach Any w) (ht : TakesEvent w) (hne : w.events ≠ []) :
    ∃ e ∈ w.events, (step w).world.current = e.c ∧ (step w).world.now = e.t ∧
      (∀ f ∈ w.events, f ≠ e → Before e f) ∧ w.events.Perm (e :: (step w).world.events) := by
  have h0 := h.inv0
  have hspec := Heapq.heappop_spec evLaw h0.heap
  cases hp : Heapq.heappop Ev.lt w.events with
  | none => rw [hp] at hspec; exact absurd hspec hne
  | some p =>
    obtain ⟨e, es⟩ := p
    rw [hp] at hspec
    obtain ⟨hperm, hheap, hmin⟩ := hspec
    have hst : (step w).world.events = es ∧ (step w).world.current = e.c ∧ (step w).world.now = e.t := by
      unfold step
      rcases ht with ht | ht | ⟨c, l, ht, hs⟩
      · simp only [ht, if_true]
        exact stepEvent_events hp
      · split
        · exact stepEvent_events hp
        · simp only [ht]
          exact stepEvent_events hp
      · split
        · exact stepEvent_events hp
        · simp only [ht]
          have : ¬ (({ w with pending := l } : World).status c = .standby) := hs
          simp only [this, if_false]
          exact stepEvent_events hp
    refine ⟨e, hperm.mem_iff.2 (by simp), hst.2.1, hst.2.2, ?_, ?_⟩
    · intro f hf hne
      refine before_total ?_ ?_
      · rw [← lt_iff_before, hmin f hf]; simp
      · intro hseq
        have hin := List.inj_on_of_nodup_map h0.seqnd hf (hperm.mem_iff.2 (by simp : e ∈ e :: es)) (by simp [hseq])
        exact hne hin
    · rw [hst.1]; exact hperm

theorem St.seq {w w' : World} {L : LK → CId → Prop} (h : St L w w') : w.seq ≤ w'.seq ∧ ∀ e ∈ w'.events, e ∈ w.events ∨ w.seq < e.seq.natAbs := by
  induction h with
  | refl => exact ⟨le_refl _, fun e he => .inl he⟩
  | comp _ h1 _ _ _ _ _ h7 h8 _ ih => rw [h7, h8]; exact ih
  | push e _ ht hs _ ih =>
    refine ⟨Nat.le_succ_of_le ih.1, fun x hx => ?_⟩
    rcases List.mem_cons.1 ((Heapq.heappush_perm _ _).mem_iff.1 hx) with rfl | hx
    · right; rw [hs]; exact Nat.lt_succ_of_le ih.1
    · exact ih.2 x hx
  | remove i e0 _ hi he ih =>
    refine ⟨ih.1, fun x hx => ih.2 x ?_⟩
    exact (setTail_subperm hi he).subset ((Heapq.heapify_perm _).mem_iff.1 hx)
  | res _ _ _ _ ih => exact ih
  | state _ _ _ _ ih => exact ih
  | queue _ _ _ _ _ ih => exact ih

theorem exec_seq {w : World} (h : Inv0 w) (fuel o) : w.seq ≤ (exec fuel o w).world.seq ∧
    ∀ e ∈ (exec fuel o w).world.events, e ∈ w.events ∨ w.seq < e.seq.natAbs := by
  by_cases hp : o.plain
  · exact (exec_st fuel hp w).seq
  · cases o <;> simp [Op.plain] at hp
    · rename_i c n i
      rcases exec_insertAt fuel c n i w with he | ⟨q', _, he⟩
      · rw [he]; exact ⟨le_refl _, fun e he => .inl he⟩
      · rw [he]; exact ⟨le_refl _, fun e he => .inl he⟩
    · exact ⟨le_refl _, fun e he => .inl he⟩
    · have := step_kind w h.heap
      simp only [exec]
      generalize (step w).world = w' at this
      cases this with
      | turn c _ _ _ _ hs => exact hs.seq
      | ev _ hk =>
        cases hk with
        | empty _ _ _ _ _ hs => exact hs.seq
        | event p s e es _ hp _ hs =>
          have hspec := Heapq.heappop_spec evLaw h.heap
          rw [hp] at hspec
          refine ⟨hs.seq.1, fun x hx => ?_⟩
          rcases hs.seq.2 x hx with hx | hx
          · exact .inl (hspec.1.mem_iff.2 (by simp [show x ∈ es from hx]))
          · exact .inr hx

theorem after_seq {w w' : World} (h : Reach Any w) (h' : After Any w w') : w.seq ≤ w'.seq ∧
    ∀ e ∈ w'.events, e ∈ w.events ∨ w.seq < e.seq.natAbs := by
  induction h' with
  | refl => exact ⟨le_refl _, fun e he => .inl he⟩
  | op fuel o h1 _ ih =>
    have := exec_seq (h.after h1).inv0 fuel o
    refine ⟨ih.1.trans this.1, fun e he => ?_⟩
    rcases this.2 e he with he | he
    · exact ih.2 e he
    · exact .inr (lt_of_le_of_lt ih.1 he)

/-- C02: of two events with the same time and priority, one pending at some moment and the other one scheduled later, the later
one comes after the first if it is not urgent (positive sequence number) and before the first if it is urgent (negative). Hence
non-urgent events are first-in-first-out, urgent ones are last-in-first-out and precede all non-urgent ones. -/
theorem C02_order_of_scheduling {w w' : World} (h : Reach Any w) (h' : After Any w w') {e f : Ev} (hf : f ∈ w.events)
    (he : e ∈ w'.events) (hnew : e ∉ w.events) (ht : f.t = e.t) (hp : f.prio = e.prio) :
    (0 < e.seq → Before f e) ∧ (e.seq < 0 → Before e f) := by
  have h1 := h.inv0.seqle f hf
  have h2 := ((after_seq h h').2 e he).resolve_left hnew
  refine ⟨fun hs => .inr ⟨ht, .inr ⟨hp, ?_⟩⟩, fun hs => .inr ⟨ht.symm, .inr ⟨hp.symm, ?_⟩⟩⟩ <;> omega

/-- `reschedule` makes an event with the given time, priority and urgency (unless the time is inf) -/
theorem reschedule_event {c : CId} {t : Rat} {p : ETime} {u k : Bool} {ret : Option CId} {w : World} (ht : w.now ≤ t) :
    ∃ e w', reschedule c t p u k ret w = .ok w' ∧ e ∈ w'.events ∧ e.c = c ∧ e.t = t ∧ e.prio = p ∧ (e.seq < 0 ↔ u = true) ∧
      w.seq < e.seq.natAbs ∧ (∀ f ∈ w.events, f ∈ w'.events) := by
  unfold reschedule
  rw [if_neg (by simpa using ht)]
  refine ⟨⟨t, p, if u then -((w.seq + 1 : Nat) : Int) else (w.seq + 1 : Nat), c, ret⟩, _, rfl, ?_, rfl, rfl, rfl, ?_, ?_, ?_⟩
  · exact (Heapq.heappush_perm _ _).mem_iff.2 (by simp [World.modC])
  · cases u <;> simp <;> omega
  · cases u <;> simp <;> omega
  · intro f hf
    exact (Heapq.heappush_perm _ _).mem_iff.2 (by simp [World.modC, hf])

/-- C02: `hold` by the current component makes an event that comes, among the events with the same time and priority, behind all
pending ones if not urgent, before all pending ones if urgent. -/
theorem C02_hold_order {w : World} (h : Reach Any w) {c : CId} (hc : w.status c = .current) (d : Rat) (hd : 0 ≤ d) (p : ETime)
    (u k : Bool) : ∃ e w', hold c (some d) none p u k 0 w = .ok w' ∧ e ∈ w'.events ∧ e.c = c ∧ e.t = w.now + d ∧ e.prio = p ∧
      ∀ f ∈ w.events, f.t = e.t → f.prio = p → if u then Before e f else Before f e := by
  have hnow : w.now ≤ w.now + d := by linarith
  obtain ⟨e, w', h1, h2, h3, h4, h5, h6, h7, _⟩ := reschedule_event (c := c) (p := p) (u := u) (k := k) (ret := none)
    (w := setStatus c .scheduled w) (t := w.now + d) hnow
  refine ⟨e, w', ?_, h2, h3, h4, h5, ?_⟩
  · unfold hold
    simp only [hc, or_true, if_true, R.andThen]
    have h8 : ¬ (((w.now : ETime) + ((d : Rat) : ETime)) < (w.now : ETime)) := by
      rw [← WithTop.coe_add, WithTop.coe_lt_coe]; linarith
    simp only [h8, false_and, if_false]
    exact h1
  · intro f hf ht hp
    have h9 := h.inv0.seqle f hf
    have h7' : w.seq < e.seq.natAbs := h7
    cases u
    · have : ¬ e.seq < 0 := by simpa using h6
      simp only [Bool.false_eq_true, if_false]
      exact .inr ⟨ht, .inr ⟨hp.trans h5.symm, by omega⟩⟩
    · have : e.seq < 0 := by simpa using h6
      simp only [if_true]
      exact .inr ⟨ht.symm, .inr ⟨h5.trans hp.symm, by omega⟩⟩

theorem St.asked {w w' : World} {L : LK → CId → Prop} (h : St L w w') : ∀ e ∈ w'.events, e ∈ w.events ∨
    Asked L w'.now e.c e.t e.prio (decide (e.seq < 0)) := by
  induction h with
  | refl => exact fun e he => .inl he
  | comp _ h1 _ _ _ _ _ h7 _ _ ih => rw [h7, h1]; exact ih
  | push e _ ht hs ha ih =>
    intro x hx
    rcases List.mem_cons.1 ((Heapq.heappush_perm _ _).mem_iff.1 hx) with rfl | hx
    · exact .inr ha
    · exact ih x hx
  | remove i e0 _ hi he ih =>
    exact fun x hx => ih x ((setTail_subperm hi he).subset ((Heapq.heapify_perm _).mem_iff.1 hx))
  | res _ _ _ _ ih => exact ih
  | state _ _ _ _ ih => exact ih
  | queue _ _ _ _ _ ih => exact ih

theorem exec_asked {w : World} (h : Inv0 w) (fuel o) : ∀ e ∈ (exec fuel o w).world.events, e ∈ w.events ∨
    Asked (o.lists w) (exec fuel o w).world.now e.c e.t e.prio (decide (e.seq < 0)) := by
  by_cases hp : o.plain
  · exact (exec_st fuel hp w).asked
  · cases o <;> simp [Op.plain] at hp
    · rename_i c n i
      rcases exec_insertAt fuel c n i w with he | ⟨q', _, he⟩
      · rw [he]; exact fun e he => .inl he
      · rw [he]; exact fun e he => .inl he
    · exact fun e he => .inl he
    · have := step_kind w h.heap
      simp only [exec]
      generalize (step w).world = w' at this
      cases this with
      | turn c _ _ _ _ hs => exact fun x hx => (hs.asked x hx).imp id (Or.imp id (by intro h; cases h))
      | ev _ hk =>
        cases hk with
        | empty _ _ _ _ _ hs => exact fun x hx => (hs.asked x hx).imp id (Or.imp id (by intro h; cases h))
        | event p s e es _ hp _ hs =>
          have hspec := Heapq.heappop_spec evLaw h.heap
          rw [hp] at hspec
          intro x hx
          rcases hs.asked x hx with hx | hx
          · exact .inl (hspec.1.mem_iff.2 (by simp [show x ∈ es from hx]))
          · exact .inr (hx.imp id (by intro h; cases h))

/-- C02: every event that a call makes has the priority given in the call, and comes, among the events with the same time and
priority, before all pending ones if the call says urgent, behind all pending ones otherwise; or it is an event for a component
that is waked up: at the present moment, with priority 0, behind all pending ones with priority 0. -/
theorem C02_new_event {w : World} (h : Reach Any w) (fuel : Nat) (o : Op) {e : Ev} (he : e ∈ (exec fuel o w).world.events)
    (hnew : e ∉ w.events) :
    (∃ u, o.asks w = some (e.c, e.prio, u) ∧ ∀ f ∈ w.events, f.t = e.t → f.prio = e.prio → if u then Before e f else Before f e) ∨
    (e.t = (exec fuel o w).world.now ∧ e.prio = (0 : Rat) ∧ ∀ f ∈ w.events, f.t = e.t → f.prio = e.prio → Before f e) := by
  have hs := ((exec_seq h.inv0 fuel o).2 e he).resolve_left hnew
  have hle := h.inv0.seqle
  rcases (exec_asked h.inv0 fuel o e he).resolve_left hnew with ⟨h1, h2, h3⟩ | h1
  · refine .inr ⟨WithTop.coe_injective h1, h2, fun f hf ht hp => .inr ⟨ht, .inr ⟨hp, ?_⟩⟩⟩
    have h4 : ¬ e.seq < 0 := by simpa using h3
    have := hle f hf
    omega
  · refine .inl ⟨decide (e.seq < 0), by cases o <;> exact h1, fun f hf ht hp => ?_⟩
    have := hle f hf
    by_cases h4 : e.seq < 0
    · simp only [h4, decide_true, if_true]
      exact .inr ⟨ht.symm, .inr ⟨hp.symm, by omega⟩⟩
    · simp only [h4, decide_false, Bool.false_eq_true, if_false]
      exact .inr ⟨ht, .inr ⟨hp, by omega⟩⟩

/-- three components at time 0: FIFO, except the urgent one -/
def demoTies : List Op :=
  [.create 1 none (0 : Rat) (0 : Rat) false false false, .create 2 none (0 : Rat) (0 : Rat) false false false,
   .create 3 none (0 : Rat) (0 : Rat) true false false]

example : Reach Any (execAll 10 demoTies World.init) ∧ TakesEvent (execAll 10 demoTies World.init) ∧
    (execAll 10 demoTies World.init).events ≠ [] ∧ (step (execAll 10 demoTies World.init)).world.current = 3 ∧
    (step (step (execAll 10 demoTies World.init)).world).world.current = 1 :=
  ⟨reach_execAll _ (.init fresh_init) _, .inr (.inl (by decide +kernel)), by decide +kernel, by decide +kernel, by decide +kernel⟩

/-- an urgent activation at time 0 with priority 0: the new event comes before those pending -/
example : ∃ e ∈ (exec 10 (.create 4 none (0 : Rat) (0 : Rat) true false false) (execAll 10 demoTies World.init)).world.events,
    e ∉ (execAll 10 demoTies World.init).events ∧ ∃ f ∈ (execAll 10 demoTies World.init).events, f.t = e.t ∧ f.prio = e.prio :=
  ⟨⟨0, (0 : Rat), -4, 4, none⟩, by decide +kernel, by decide +kernel, ⟨0, (0 : Rat), 1, 1, none⟩, by decide +kernel, rfl, rfl⟩

end Verif
