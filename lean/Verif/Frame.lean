import Verif.EvOps

/-!
# What calls can do to queues, states, resources and the clock

`St w w'`: from `w` to `w'` by primitive updates only: operations on one queue at the current time, assignments to states and
resources, and arbitrary changes of components and of the event list. All calls except `step` and `reset_now` are of this kind.
-/

namespace Verif
open World

/-- the operations on one queue -/
inductive QOp
  | enter (c : CId) | enterSorted (c : CId) (p : Rat) | enterAtHead (c : CId) | enterInFrontOf (c p : CId) | enterBehind (c p : CId)
  | leave (c : CId) | setPriority (c : CId) (p : Rat) | setCapacity (k : ETime) | resetRates (a d : Bool)

/-- the operation at time `t` -/
def QOp.run (t : Rat) : QOp → Queue → Queue.QR
  | .enter c, q => q.enter t c
  | .enterSorted c p, q => q.enterSorted t c p
  | .enterAtHead c, q => q.enterAtHead t c
  | .enterInFrontOf c p, q => q.enterInFrontOf t c p
  | .enterBehind c p, q => q.enterBehind t c p
  | .leave c, q => q.leave t c
  | .setPriority c p, q => q.setPriority c p
  | .setCapacity k, q => .ok (q.setCapacity k)
  | .resetRates a d, q => .ok (q.resetRates t a d)

/-- the attributes of a resource that are fixed at its creation -/
def Res.kind (r : Res) : Bool × Bool × Bool × Bool := (r.anonymous, r.preemptive, r.honorFirst, r.honorHighest)

/-- kinds of licences: to go into standby, to get `skip_standby`, to get another status than scheduled, to get any scheduled time, to get
an event with the given priority that is urgent or not; and, for states, to get a value -/
inductive LK
  | line
  | skip
  | stat
  | wild
  | ask (p : ETime) (u : Bool)
  | set

/-- An event can be made for `c` at `t`: as licensed, or one at this moment with priority 0, not urgent -/
def Asked (L : LK → CId → Prop) (now : Rat) (c : CId) (t p : ETime) (u : Bool) : Prop :=
  (t = (now : ETime) ∧ p = (0 : Rat) ∧ u = false) ∨ L (.ask p u) c

/-- a component that is interrupted was so before, and the status to return to hasn't changed, or is to become scheduled again -/
def IntrKept (x y : Comp) : Prop :=
  y.status = .interrupted → y.intrStatus = .scheduled ∨ (x.status = .interrupted ∧ y.intrStatus = x.intrStatus)

theorem IntrKept.refl (x : Comp) : IntrKept x x := fun h => .inr ⟨h, rfl⟩
theorem IntrKept.trans {x y z : Comp} (h : IntrKept x y) (h2 : IntrKept y z) : IntrKept x z := fun hz => by
  rcases h2 hz with h3 | ⟨h3, h4⟩
  · exact .inl h3
  · rw [h4]; exact h h3
theorem intr_modC (w : World) (c : CId) {f : Comp → Comp} (hf : IntrKept (w.comps c) (f (w.comps c))) (d : CId) :
    IntrKept (w.comps d) ((w.modC c f).comps d) := by
  simp only [World.modC]
  split
  · rename_i h; subst h; exact hf
  · exact .refl _

/-- statuses without a moment to look forward to -/
def Status.quiet : Status → Bool
  | .passive | .data | .current => true
  | _ => false

/-- a component with one of these statuses isn't scheduled for any time, or had one of these statuses before and the same scheduled time -/
def QuietKept (x y : Comp) : Prop := y.status.quiet = true → y.schedTime = ⊤ ∨ (x.status.quiet = true ∧ y.schedTime = x.schedTime)

theorem QuietKept.refl (x : Comp) : QuietKept x x := fun h => .inr ⟨h, rfl⟩
theorem QuietKept.trans {x y z : Comp} (h : QuietKept x y) (h2 : QuietKept y z) : QuietKept x z := fun hz => by
  rcases h2 hz with h3 | ⟨h3, h4⟩
  · exact .inl h3
  · rw [h4]; exact h h3
theorem quiet_modC {L : LK → CId → Prop} (w : World) (c : CId) {f : Comp → Comp} (hf : L .wild c ∨ QuietKept (w.comps c) (f (w.comps c))) (d : CId) :
    L .wild d ∨ QuietKept (w.comps d) ((w.modC c f).comps d) := by
  simp only [World.modC]
  split
  · rename_i h; subst h; exact hf
  · exact .inr (.refl _)

/-- what a call can do to the lists of components in standby: take components away, and add new ones (that satisfy
`L .line`) at the end of the list of those that went into standby since the last event; `L .skip` are the components that may get
`skip_standby`; others than those in `L .stat` can only become scheduled; `L .wild` are those whose scheduled time isn't kept track of -/
structure Lists (L : LK → CId → Prop) (w w' : World) : Prop where
  pending : w'.pending.Sublist w.pending
  standby : ∃ s t, w'.standby = s ++ t ∧ s.Sublist w.standby ∧ ∀ c ∈ t, L .line c
  skip : ∀ c, (w'.comps c).skipStandby = true → (w.comps c).skipStandby = true ∨ L .skip c
  stat : ∀ c, w'.status c = w.status c ∨ w'.status c = .scheduled ∨ L .stat c
  intr : ∀ c, IntrKept (w.comps c) (w'.comps c)
  quiet : ∀ c, L .wild c ∨ QuietKept (w.comps c) (w'.comps c)

theorem Lists.mod {L : LK → CId → Prop} {w w' : World} (h1 : w'.pending = w.pending) (h2 : w'.standby = w.standby)
    (h3 : ∀ c, (w'.comps c).skipStandby = (w.comps c).skipStandby)
    (h4 : ∀ c, w'.status c = w.status c ∨ w'.status c = .scheduled ∨ L .stat c) (h5 : ∀ c, IntrKept (w.comps c) (w'.comps c))
    (h6 : ∀ c, L .wild c ∨ QuietKept (w.comps c) (w'.comps c)) : Lists L w w' :=
  ⟨by rw [h1], ⟨w.standby, [], by simp [h2], List.Sublist.refl _, by simp⟩, fun c h => .inl (h3 c ▸ h), h4, h5, h6⟩
theorem Lists.same {L : LK → CId → Prop} {w w' : World} (h1 : w'.pending = w.pending := by rfl) (h2 : w'.standby = w.standby := by rfl)
    (h3 : ∀ c, (w'.comps c).skipStandby = (w.comps c).skipStandby := by intro _; rfl)
    (h4 : ∀ c, w'.status c = w.status c := by intro _; rfl)
    (h5 : ∀ c, (w'.comps c).intrStatus = (w.comps c).intrStatus := by intro _; rfl)
    (h6 : ∀ c, (w'.comps c).schedTime = (w.comps c).schedTime := by intro _; rfl) : Lists L w w' :=
  ⟨h1 ▸ List.Sublist.refl _, ⟨w.standby, [], by simp [h2], List.Sublist.refl _, by simp⟩, fun c h => .inl (h3 c ▸ h), fun c => .inl (h4 c),
    fun c h => .inr ⟨(h4 c).symm.trans h, h5 c⟩, fun c => .inr fun h => .inr ⟨by rw [show (w.comps c).status = (w'.comps c).status from (h4 c).symm]; exact h, h6 c⟩⟩

theorem Lists.trans {L : LK → CId → Prop} {w1 w2 w3 : World} (h : Lists L w1 w2) (h2 : Lists L w2 w3) : Lists L w1 w3 := by
  refine ⟨h2.pending.trans h.pending, ?_, fun c hc => (h2.skip c hc).elim (fun h' => h.skip c h') .inr, fun c => ?_, fun c => (h.intr c).trans (h2.intr c),
    fun c => (h.quiet c).elim .inl fun h' => (h2.quiet c).elim .inl fun h2' => .inr (h'.trans h2')⟩
  rotate_left
  · rcases h2.stat c with h3 | h3 | h3
    · rw [h3]; exact h.stat c
    · exact .inr (.inl h3)
    · exact .inr (.inr h3)
  obtain ⟨s, t, e1, e2, e3⟩ := h.standby
  obtain ⟨s', t', f1, f2, f3⟩ := h2.standby
  rw [e1, List.sublist_append_iff] at f2
  obtain ⟨a, b, g1, g2, g3⟩ := f2
  refine ⟨a, b ++ t', by rw [f1, g1, List.append_assoc], g2.trans e2, fun c hc => ?_⟩
  rcases List.mem_append.1 hc with hc | hc
  · exact e3 c (g3.subset hc)
  · exact f3 c hc

variable {L : LK → CId → Prop}

/-- sequences of primitive updates -/
inductive St (L : LK → CId → Prop) : World → World → Prop
  | refl (w) : St L w w
  | comp {w w1 w2} : St L w w1 → w2.now = w1.now → w2.main = w1.main → w2.offset = w1.offset → w2.res = w1.res →
      (w2.states, w2.slog) = (w1.states, w1.slog) → w2.queues = w1.queues → w2.events = w1.events → w2.seq = w1.seq →
      Lists L w1 w2 → St L w w2
  | push {w w1} (e : Ev) : St L w w1 → w1.now ≤ e.t → e.seq.natAbs = w1.seq + 1 →
      Asked L w1.now e.c e.t e.prio (decide (e.seq < 0)) →
      St L w { w1 with seq := w1.seq + 1, events := Heapq.heappush Ev.lt w1.events e }
  | remove {w w1} (i : Nat) (e0 : Ev) : St L w w1 → i < w1.events.length → w1.events.head? = some e0 →
      St L w { w1 with events := Heapq.heapify Ev.lt (w1.events.set i e0).tail }
  | res {w w1} (r f) : St L w w1 → (∀ x, (f x).kind = x.kind) → St L w (w1.modR r f)
  | state {w w1} (s v) : St L w w1 → L .set s → St L w (w1.setState s v)
  | queue {w w1} (q) (o : QOp) (q') : St L w w1 → o.run w1.now (w1.queues q) = .ok q' → St L w (w1.modQ q (fun _ => q'))

theorem St.trans {a b c : World} (h : St L a b) (h2 : St L b c) : St L a c := by
  induction h2 with
  | refl => exact h
  | comp _ h1 h2 h3 h4 h5 h6 h7 h8 h9 ih => exact .comp ih h1 h2 h3 h4 h5 h6 h7 h8 h9
  | push e _ ht hs ha ih => exact .push e ih ht hs ha
  | remove i e0 _ hi he ih => exact .remove i e0 ih hi he
  | res r f _ hf ih => exact .res r f ih hf
  | state s v _ hv ih => exact .state s v ih hv
  | queue q o q' _ ho ih => exact .queue q o q' ih ho

theorem skip_modC (w : World) (c : CId) {f : Comp → Comp} (hf : ∀ x, (f x).skipStandby = x.skipStandby) (d : CId) :
    ((w.modC c f).comps d).skipStandby = (w.comps d).skipStandby := by
  simp only [World.modC]; split <;> simp [hf]

theorem stat_modC (w : World) (c : CId) {f : Comp → Comp} (hf : ∀ x, (f x).status = x.status ∨ (f x).status = .scheduled ∨ L .stat c) (d : CId) :
    (w.modC c f).status d = w.status d ∨ (w.modC c f).status d = .scheduled ∨ L .stat d := by
  by_cases hd : d = c
  · subst hd
    simp only [World.status, World.modC, if_pos]
    exact hf _
  · simp [World.status, World.modC, hd]

theorem St.modC {w w1 : World} (h : St L w w1) (c) (f : Comp → Comp) (hf : ∀ x, (f x).skipStandby = x.skipStandby := by intro _; rfl)
    (hs : ∀ x, (f x).status = x.status ∨ (f x).status = .scheduled ∨ L .stat c := by
      first
      | exact fun _ => .inl rfl
      | exact fun _ => .inr (.inl rfl)
      | exact fun _ => .inr (.inr (by assumption)))
    (hi : IntrKept (w1.comps c) (f (w1.comps c)) := by
      first
      | exact fun h => .inr ⟨h, rfl⟩
      | exact fun _ => .inl rfl
      | exact fun h => by cases h)
    (hq : L .wild c ∨ QuietKept (w1.comps c) (f (w1.comps c)) := by
      first
      | exact .inr (fun h => .inr ⟨h, rfl⟩)
      | exact .inr (fun _ => .inl rfl)
      | exact .inr (fun h => by cases h)
      | exact .inl (by assumption)) :
    St L w (w1.modC c f) := .comp h rfl rfl rfl rfl rfl rfl rfl rfl ⟨List.Sublist.refl _, ⟨_, [], (List.append_nil _).symm, List.Sublist.refl _, by simp⟩,
      fun d hd => .inl (skip_modC w1 c hf d ▸ hd), stat_modC _ _ hs, intr_modC _ _ hi, quiet_modC _ _ hq⟩

/-- the result of a call, from `w0` -/
def Sr (L : LK → CId → Prop) (w0 : World) : R → Prop
  | .ok w => St L w0 w
  | .err _ w => St L w0 w

theorem Sr.world {w0 : World} {r : R} (h : Sr L w0 r) : St L w0 r.world := by cases r <;> exact h
theorem Sr.ok {w0 w : World} (h : St L w0 w) : Sr L w0 (.ok w) := h
theorem Sr.err {w0 w : World} {e} (h : St L w0 w) : Sr L w0 (.err e w) := h
theorem Sr.andThen {w0 : World} {r : R} {f : World → R} (h : Sr L w0 r) (hf : ∀ w', St L w0 w' → Sr L w0 (f w')) : Sr L w0 (r ⊳ f) := by
  cases r with
  | ok w' => exact hf w' h
  | err e w' => exact h
theorem Sr.forR {α : Type} {w0 : World} {f : α → World → R} (hf : ∀ a w', St L w0 w' → Sr L w0 (f a w')) :
    ∀ (l : List α) (w : World), St L w0 w → Sr L w0 (Verif.forR l f w)
  | [], _, h => h
  | a :: t, w, h => Sr.andThen (hf a w h) (fun w' h' => Sr.forR hf t w' h')

theorem sr_onQueue {w0 w : World} (h : St L w0 w) (q f) (hf : ∀ q1 q', f q1 = .ok q' → ∃ o : QOp, o.run w.now q1 = .ok q') :
    Sr L w0 (onQueue q f w) := by
  unfold onQueue
  split
  · rename_i q' hq
    obtain ⟨o, ho⟩ := hf _ _ hq
    exact .queue q o q' h ho
  · exact h
theorem sr_leaveQ {w0 w : World} (h : St L w0 w) (c q) : Sr L w0 (leaveQ c q w) := sr_onQueue h _ _ fun _ _ e => ⟨.leave c, e⟩
theorem sr_enterSortedQ {w0 w : World} (h : St L w0 w) (c q p) : Sr L w0 (enterSortedQ c q p w) :=
  sr_onQueue h _ _ fun _ _ e => ⟨.enterSorted c p, e⟩

theorem sr_push {w0 w : World} (h : St L w0 w) (c) {t : ETime} (p u ret) (ht : (w.now : ETime) ≤ t)
    (ha : Asked L w.now c t p u) : St L w0 (push c t p u ret w) := by
  unfold Verif.push
  split
  · exact h
  · rename_i t
    refine (St.push _ (h.modC c (fun x => { x with onList := true })) ?_ ?_ ?_)
    · exact WithTop.coe_le_coe.1 ht
    · simp only
      split
      · simp [World.modC]; omega
      · simp [World.modC]; omega
    · have : (decide ((if u = true then -((w.seq + 1 : Nat) : Int) else (w.seq + 1 : Nat)) < 0)) = u := by
        cases u <;> simp <;> omega
      simp only [World.modC]
      rw [this]
      exact ha
theorem sr_remove {w0 w : World} (h : St L w0 w) (c) : Sr L w0 (remove c w) := by
  unfold Verif.remove
  split
  · split
    · rename_i i e0 t hi he
      have := List.findIdx?_eq_some_iff_getElem.1 hi
      exact St.remove (w1 := w.modC c (fun x => { x with onList := false })) i e0 (h.modC _ _) this.1 (by simp [World.modC, he])
    · exact h
  · split
    · exact .comp h rfl rfl rfl rfl rfl rfl rfl rfl ⟨List.erase_sublist, ⟨w.standby.erase c, [], by simp, List.erase_sublist, by simp⟩, fun _ h => .inl h, fun _ => .inl rfl, fun _ => .refl _, fun _ => .inr (.refl _)⟩
    · exact h
theorem sr_reschedule {w0 w : World} (h : St L w0 w) (c t p u k ret) (ha : Asked L w.now c t p u)
    (hw : L .wild c ∨ (w.comps c).status.quiet = false := by
      exact .inr (by simp only [setStatus, World.modC, if_pos]; rfl)) : Sr L w0 (reschedule c t p u k ret w) := by
  have hq : ∀ t : ETime, L .wild c ∨ QuietKept (w.comps c) { w.comps c with schedTime := t } :=
    fun _ => hw.imp id fun hn hq => by rw [show (w.comps c).status.quiet = true from hq] at hn; cases hn
  unfold reschedule
  split
  · split
    · exact sr_push (h.modC _ _ (hq := hq _)) _ _ _ _ (le_refl _) (ha.imp (fun h => ⟨rfl, h.2⟩) id)
    · exact h
  · rename_i ht
    exact sr_push (h.modC _ _ (hq := hq _)) _ _ _ _ (not_lt.1 ht) ha
theorem sr_setStatus {w0 w : World} (h : St L w0 w) (c s) (hs : s = .scheduled ∨ L .stat c := by first | exact .inl rfl | exact .inr (by assumption))
    (hi : s ≠ .interrupted ∨ w.status c = .interrupted := by exact .inl (by simp))
    (hq : L .wild c ∨ s.quiet = false := by first | exact .inr rfl | exact .inl (by assumption)) :
    St L w0 (setStatus c s w) := h.modC _ _ (by intro _; rfl) (fun _ => .inr hs)
      (fun h => hi.elim (fun h' => absurd h h') (fun h' => .inr ⟨h', rfl⟩))
      (hq.imp id fun hn hq => by rw [show s.quiet = true from hq] at hn; cases hn)
theorem sr_wake {w0 w : World} (h : St L w0 w) (c ret) : Sr L w0 (wake c ret w) :=
  (sr_remove h c).andThen fun _ h' => sr_reschedule (sr_setStatus h' _ _) _ _ _ _ _ _ (.inl ⟨rfl, rfl, rfl⟩)

theorem sr_leaveRequesters {w0 w : World} (h : St L w0 w) (c r) : Sr L w0 (leaveRequesters c r w) := by
  refine (sr_leaveQ h _ _).andThen fun w' h' => ?_
  simp only [Sr]
  split
  · exact .res _ _ h' fun _ => rfl
  · exact h'
theorem sr_leaveWaiters {w0 w : World} (h : St L w0 w) (c x) : Sr L w0 (leaveWaiters c x w) := by
  unfold leaveWaiters
  split
  · exact sr_leaveQ h _ _
  · exact h

theorem sr_checkFail {w0 w : World} (h : St L w0 w) (c) : Sr L w0 (checkFail c w) := by
  unfold checkFail
  refine ((Sr.andThen ?_ fun w h => ?_).andThen fun w h => ?_).andThen fun w h => ?_
  · unfold checkFailReq; split
    · exact h
    · exact (Sr.forR (fun r w h => sr_leaveRequesters h c r) _ _ h).andThen fun w h => h.modC _ _
  · unfold checkFailWait; split
    · exact h
    · exact (Sr.forR (fun r w h => sr_leaveWaiters h c r) _ _ h).andThen fun w h => h.modC _ _
  · unfold checkFailFrom; split
    · exact h
    · exact (Sr.forR (fun r w h => sr_leaveQ h c _) _ _ h).andThen fun w h => h.modC _ _
  · unfold checkFailTo; split
    · exact h
    · exact (Sr.forR (fun r w h => sr_leaveQ h c _) _ _ h).andThen fun w h => h.modC _ _

theorem sr_removeFail {w0 w : World} (h : St L w0 w) (c) : Sr L w0 (checkNotData c w ⊳ remove c ⊳ checkFail c) := by
  refine (Sr.andThen ?_ fun w h => sr_remove h _).andThen fun w h => sr_checkFail h _
  unfold checkNotData; split <;> exact h

theorem sr_preamble {w0 w : World} (h : St L w0 w) (c) : Sr L w0 (preamble c w) := by
  unfold preamble
  split
  · exact h
  · refine ((Sr.andThen ?_ fun w h => ?_).andThen fun w h => sr_remove h _).andThen fun w h => sr_checkFail h _
    · unfold checkNotData; split <;> exact h
    · unfold checkNotMain; split <;> exact h

theorem sr_hold {w0 w : World} (h : St L w0 w) (c d t p u k i) (hS : L .stat c) (hA : L (.ask p u) c) : Sr L w0 (hold c d t p u k i w) := by
  unfold hold
  refine Sr.andThen ?_ fun w h => ?_
  · split
    · exact h
    · exact sr_removeFail h c
  · split
    · exact h
    · split
      · exact h
      · simp only
        split
        · exact h.modC _ _
        · exact sr_reschedule (sr_setStatus h _ _) _ _ _ _ _ _ (.inr hA)

theorem sr_passivate {w0 w : World} (h : St L w0 w) (c) (hS : L .stat c) : Sr L w0 (passivate c w) := by
  unfold passivate
  refine Sr.andThen ?_ fun w h => h.modC _ _
  split
  · exact h.modC _ _
  · exact (sr_removeFail h c).andThen fun w h => h.modC _ _

theorem sr_activate {w0 w : World} (h : St L w0 w) (c a) (d p : ETime) (u k pr kr kw)
    (hA : (a = none ∧ d = ((0 : Rat) : ETime) ∧ p = ((0 : Rat) : ETime) ∧ u = false) ∨ L (.ask p u) c) : Sr L w0 (activate c a d p u k pr kr kw w) := by
  unfold activate
  simp only
  split
  · exact h
  · refine Sr.andThen ?_ fun w h => sr_reschedule (sr_setStatus h _ _) _ _ _ _ _ _ (hA.imp (fun h => ?_) id)
    rotate_left
    · obtain ⟨rfl, rfl, rfl, rfl⟩ := h
      exact ⟨add_zero _, rfl, rfl⟩
    split
    · exact h
    · refine (sr_remove h _).andThen fun w h => ?_
      split
      · exact h
      · exact sr_checkFail h _

theorem sr_create {w0 w : World} (h : St L w0 w) (c a d p u k s) (hL : s = true → L .skip c) (hA : L (.ask p u) c) : Sr L w0 (create c a d p u k s w) := by
  unfold create
  split
  · exact h
  · have h1 : St L w0 (w.modC c (fun x => { x with status := .scheduled, skipStandby := s, hasProcess := true })) := by
      refine .comp h rfl rfl rfl rfl rfl rfl rfl rfl ⟨List.Sublist.refl _, ⟨_, [], (List.append_nil _).symm, List.Sublist.refl _, by simp⟩, fun e he => ?_, stat_modC _ _ (fun _ => .inr (.inl rfl)),
        intr_modC _ _ (fun h => by cases h), quiet_modC _ _ (.inr fun h => by cases h)⟩
      by_cases hec : e = c
      · subst hec
        simp only [World.modC, if_pos] at he
        exact .inr (hL he)
      · simp only [World.modC, if_neg hec] at he
        exact .inl he
    exact sr_reschedule h1 _ _ _ _ _ _ (.inr hA)

theorem status_remove {c : CId} {w w' : World} (h : remove c w = .ok w') : (w'.comps c).status = w.status c := by
  unfold Verif.remove at h
  split at h
  · split at h
    · cases h; simp [World.modC, World.status]
    · cases h
  · split at h <;> cases h <;> rfl

theorem sr_interrupt {w0 w : World} (h : St L w0 w) (c) (hS : L .stat c) : Sr L w0 (interrupt c w) := by
  unfold interrupt
  split
  · exact h.modC _ _
  · split
    · rename_i hs
      have h1 := sr_remove h c
      cases hr : remove c w with
      | err e w1 => rw [hr] at h1; exact h1
      | ok w1 =>
        rw [hr] at h1
        refine St.modC h1 _ _ (hi := fun _ => .inl ?_)
        exact (status_remove hr).trans hs
    · exact h

theorem sr_resume {w0 w : World} (h : St L w0 w) (c a p u) (hS : L .stat c) (hW : L .wild c) (hA : L (.ask p u) c) : Sr L w0 (resume c a p u w) := by
  unfold resume
  split
  · rename_i hs
    have hi : ∀ s : Status, s ≠ .interrupted ∨ (w.modC c (fun x => { x with intrLevel := x.intrLevel - 1 })).status c = .interrupted :=
      fun _ => .inr (by simpa [World.status, World.modC] using hs)
    simp only
    split
    · exact h.modC _ _
    · split
      · exact sr_reschedule (sr_setStatus (h.modC _ _) _ _ (hi := hi _)) _ _ _ _ _ _ (.inr hA) (.inl hW)
      · exact sr_setStatus (h.modC _ _) _ _ (hi := hi _)
  · exact h

theorem sr_standby {w0 w : World} (h : St L w0 w) (c) (hS : L .stat c) (hL : L .line c) : Sr L w0 (standby c w) := by
  unfold standby
  exact (sr_preamble h _).andThen fun w h => .comp h rfl rfl rfl rfl rfl rfl rfl rfl ⟨List.Sublist.refl _, ⟨w.standby, [c], rfl, List.Sublist.refl _, by simpa using hL⟩,
    fun d hd => .inl ((skip_modC w c (f := fun x => { x with schedTime := (w.now : ETime), status := .standby }) (fun _ => rfl) d) ▸ hd),
    stat_modC w c (f := fun x => { x with schedTime := (w.now : ETime), status := .standby }) (fun _ => .inr (.inr hS)),
    intr_modC w c (f := fun x => { x with schedTime := (w.now : ETime), status := .standby }) (fun h => by cases h),
    quiet_modC w c (f := fun x => { x with schedTime := (w.now : ETime), status := .standby }) (.inr fun h => by cases h)⟩

theorem sr_setRemaining {w0 w : World} (h : St L w0 w) (c v p u) (hW : L .wild c) (hA : L (.ask p u) c) : Sr L w0 (setRemaining c v p u w) := by
  unfold setRemaining
  split
  · exact h.modC _ _
  · split
    · exact h
    · exact (sr_remove h _).andThen fun w h => sr_reschedule h _ _ _ _ _ _ (.inr hA) (.inl hW)

theorem sr_claimOne {w0 w : World} (h : St L w0 w) (c hon p) : Sr L w0 (claimOne c hon p w) := by
  unfold claimOne
  refine Sr.andThen ?_ fun w h => sr_leaveRequesters h _ _
  split
  · have h1 : St L w0 (w.modR p.1 (fun x => { x with claimed := x.claimed + p.2, log := x.log.claims w.now x.cap (x.claimed + p.2) })) := .res _ _ h fun _ => rfl
    simp only
    split
    · exact h1
    · split
      · exact h1
      · unfold enterClaimers
        split
        · exact h1.modC _ _
        · exact sr_enterSortedQ (h1.modC _ _) _ _ _
  · exact h

theorem sr_honorNow {w0 w : World} (h : St L w0 w) {c r} (he : honorNow c w = some r) : Sr L w0 r := by
  unfold honorNow at he
  split at he
  · cases he
  · cases he
    exact (Sr.forR (fun p w h => sr_claimOne h _ _ _) _ _ h).andThen fun w h => sr_wake (h.modC _ _) _ _

theorem sr_try (fuel : Nat) : (∀ c w0 w, St L w0 w → Sr L w0 (tryReqC fuel c w)) ∧ (∀ rs w0 w, St L w0 w → Sr L w0 (tryReqList fuel rs w)) ∧
    (∀ r w0 w, St L w0 w → Sr L w0 (tryReqR fuel r w)) ∧ (∀ r mx f w0 w, St L w0 w → Sr L w0 (loopR fuel r mx f w)) := by
  induction fuel with
  | zero =>
    refine ⟨fun c w0 w h => ?_, fun rs w0 w h => ?_, fun r w0 w h => ?_, fun r mx f w0 w h => ?_⟩
    · rw [tryReqC]; exact h
    · rw [tryReqList]; exact h
    · rw [tryReqR]; exact h
    · rw [loopR]; exact h
  | succ n ih =>
    obtain ⟨i1, i2, i3, i4⟩ := ih
    refine ⟨fun c w0 w h => ?_, fun rs w0 w h => ?_, fun r w0 w h => ?_, fun r mx f w0 w h => ?_⟩
    · rw [tryReqC]
      split
      · exact h
      · rename_i res hres
        exact Sr.andThen (sr_honorNow h hres) (i2 _ _)
    · rw [tryReqList.eq_def]
      simp only
      split
      · exact h
      · exact Sr.andThen (i3 _ _ _ h) (i2 _ _)
    · rw [tryReqR]
      split
      · split
        · exact h
        · exact Sr.andThen (i4 _ _ _ _ _ (.res _ _ h fun _ => rfl)) fun w' h' => .res _ _ h' fun _ => rfl
      · exact i4 _ _ _ _ _ h
    · rw [loopR.eq_def]
      simp only
      repeat' split
      all_goals first
        | exact h
        | (refine Sr.andThen (i1 _ _ _ h) fun w' h' => ?_
           split <;> exact i4 _ _ _ _ _ h')

theorem sr_releaseCore {w0 w : World} (h : St L w0 w) (c r q) : Sr L w0 (releaseCore c r q w) := by
  unfold releaseCore
  split
  · exact h
  · rename_i cl _
    extract_lets q' w1
    have h1 : St L w0 w1 := .res _ _ h fun _ => rfl
    split
    · refine (sr_leaveQ (h1.modC _ _) _ _).andThen fun w' h' => ?_
      refine Sr.ok (St.res _ _ (St.modC ?_ _ _) fun _ => rfl)
      split
      · exact .res _ _ h' fun _ => rfl
      · exact h'
    · exact St.res _ _ (h1.modC _ _) fun _ => rfl

theorem sr_release1 {w0 w : World} (h : St L w0 w) (fuel c r q) : Sr L w0 (release1 fuel c r q w) :=
  (sr_releaseCore h _ _ _).andThen ((sr_try fuel).2.2.1 _ _)
theorem sr_releaseAll {w0 w : World} (h : St L w0 w) (fuel c) : Sr L w0 (releaseAll fuel c w) :=
  Sr.forR (fun _ _ h => sr_release1 h _ _ _ _) _ _ h
theorem sr_releaseArgs {w0 w : World} (h : St L w0 w) (fuel c l) : Sr L w0 (releaseArgs fuel c l w) := by
  refine Sr.forR (fun a w h => ?_) _ _ h
  split
  · exact h
  · exact sr_release1 h _ _ _ _

theorem sr_preempt {w0 w : World} (h : St L w0 w) (r q p) : Sr L w0 (preempt r q p w) := by
  unfold preempt
  simp only
  split
  · exact Sr.forR (fun d w h => (sr_releaseCore h _ _ _).andThen fun w h => sr_activate h _ _ _ _ _ _ _ _ _ (.inl ⟨rfl, rfl, rfl, rfl⟩)) _ _ h
  · exact h

theorem sr_requestArg {w0 w : World} (h : St L w0 w) (c n pu a) : Sr L w0 (requestArg c n pu a w) := by
  unfold requestArg
  simp only
  generalize (if pu = true then -a.q else a.q) = q
  split
  · exact h
  · split
    · exact h
    · refine (sr_enterSortedQ (h.modC _ _) _ _ _).andThen fun w h => ?_
      split
      · exact sr_preempt h _ _ _
      · exact h

theorem sr_lowerMinq {w0 : World} (l) : ∀ w, St L w0 w → St L w0 (lowerMinq l w) := by
  unfold lowerMinq
  induction l with
  | nil => intro w h; exact h
  | cons a t ih => intro w h; exact ih _ (.res _ _ h fun _ => rfl)

theorem sr_request {w0 w : World} (h : St L w0 w) (fuel c args o pu fa fd p u k) (hS : L .stat c) (hW : args.isEmpty = true → L .wild c) (hA : L (.ask p u) c) : Sr L w0 (request fuel c args o pu fa fd p u k w) := by
  unfold request
  refine (sr_preamble (h.modC _ _) _).andThen fun w h => ?_
  split
  · exact h
  · simp only
    split
    · rename_i he
      exact sr_reschedule (h.modC _ _) _ _ _ _ _ _ (.inl ⟨rfl, rfl, rfl⟩) (.inl (hW he))
    · refine (Sr.forR (fun a w h => sr_requestArg h _ _ _ _) _ _ (h.modC _ _)).andThen fun w h => ?_
      refine ((sr_try fuel).1 _ _ _ ((sr_lowerMinq _ _ h).modC _ _)).andThen fun w h => ?_
      split
      · exact h
      · exact sr_reschedule (sr_setStatus h _ _) _ _ _ _ _ _ (.inr hA)

theorem sr_resReleaseLoop (fuel : Nat) : ∀ r mx w0 w, St L w0 w → Sr L w0 (resReleaseLoop fuel r mx w) := by
  induction fuel with
  | zero => intro r mx w0 w h; rw [resReleaseLoop]; exact h
  | succ n ih =>
    intro r mx w0 w h
    rw [resReleaseLoop.eq_def]
    simp only
    split
    · exact h
    · split
      · exact h
      · exact (sr_release1 h _ _ _ _).andThen fun w h => ih _ _ _ _ h

theorem sr_resRelease {w0 w : World} (h : St L w0 w) (fuel r q) : Sr L w0 (resRelease fuel r q w) := by
  unfold resRelease
  split
  · exact (sr_try fuel).2.2.1 _ _ _ (.res _ _ h fun _ => rfl)
  · split
    · exact h
    · exact sr_resReleaseLoop _ _ _ _ _ h

theorem sr_resSetCapacity {w0 w : World} (h : St L w0 w) (fuel r k) : Sr L w0 (resSetCapacity fuel r k w) :=
  (sr_try fuel).2.2.1 _ _ _ (.res _ _ h fun _ => rfl)

theorem sr_tryWait {w0 w : World} (h : St L w0 w) (c) : Sr L w0 (tryWait c w).1 := by
  unfold tryWait
  split
  · exact h
  · split
    · exact (Sr.forR (fun p w h => sr_leaveWaiters h _ _) _ _ h).andThen fun w h => sr_wake (h.modC _ _) _ _
    · exact h

theorem sr_waitArg {w0 w : World} (h : St L w0 w) (c a) : Sr L w0 (waitArg c a w) := by
  unfold waitArg
  refine Sr.andThen ?_ fun w h => h.modC _ _
  split
  · exact h
  · split
    · exact sr_onQueue h _ _ fun _ _ e => ⟨.enter c, e⟩
    · exact sr_enterSortedQ h _ _ _

theorem sr_waitEnd {w0 w : World} (h : St L w0 w) (c t p u k) (hS : L .stat c) (hA : L (.ask p u) c) : Sr L w0 (waitEnd c t p u k w) := by
  unfold waitEnd
  split
  · exact h
  · refine (sr_tryWait (h.modC _ _) _).andThen fun w h => ?_
    split
    · exact h
    · exact sr_reschedule (sr_setStatus h _ _) _ _ _ _ _ _ (.inr hA)

theorem sr_wait {w0 w : World} (h : St L w0 w) (c args a fa fd p u k) (hS : L .stat c) (hA : L (.ask p u) c) : Sr L w0 (wait c args a fa fd p u k w) := by
  unfold wait
  refine (sr_preamble (h.modC _ _) _).andThen fun w h => ?_
  simp only
  split
  · exact h.modC _ _
  · exact (Sr.forR (fun a w h => sr_waitArg h _ _) _ _ (h.modC _ _)).andThen fun w h => sr_waitEnd h _ _ _ _ _ hS hA

theorem sr_waitFor {w0 w : World} (h : St L w0 w) (c f ss fa fd) (p : Rat) (u k) (hS : L .stat c)
    (hA : L (.ask (p : ETime) u) c) : Sr L w0 (waitFor c f ss fa fd p u k w) := by
  unfold waitFor
  refine (sr_preamble h _).andThen fun w h => ?_
  simp only
  split
  · exact h.modC _ _
  · exact (Sr.forR (fun a w h => sr_enterSortedQ (h.modC _ _) _ _ _) _ _ ((h.modC _ _).modC _ _)).andThen
      fun w h => sr_waitEnd h _ _ _ _ _ hS hA

theorem sr_stateTryWait {w0 : World} (l) : ∀ mx w, St L w0 w → Sr L w0 (stateTryWait l mx w) := by
  induction l with
  | nil => intro mx w h; exact h
  | cons c t ih =>
    intro mx w h
    unfold stateTryWait
    have := sr_tryWait h c
    generalize tryWait c w = p at this ⊢
    obtain ⟨r, b⟩ := p
    refine Sr.andThen this fun w h => ?_
    simp only
    split
    · split
      · exact h
      · exact ih _ _ h
    · exact ih _ _ h

theorem sr_stateSet {w0 w : World} (h : St L w0 w) (s v) (hV : L .set s) : Sr L w0 (stateSet s v w) := by
  unfold stateSet
  split
  · exact h
  · exact sr_stateTryWait _ _ _ (.state _ _ h hV)

theorem sr_stateTrigger {w0 w : World} (h : St L w0 w) (s v a m) (hV : L .set s) : Sr L w0 (stateTrigger s v a m w) := by
  unfold stateTrigger
  exact (sr_stateTryWait _ _ _ (.state _ _ h hV)).andThen fun w h => sr_stateTryWait _ _ _ (.state _ _ h hV)

theorem sr_store (fuel : Nat) : (∀ i s p w0 w, St L w0 w → Sr L w0 (storeEnter fuel i s p w)) ∧
    (∀ i s w0 w, St L w0 w → Sr L w0 (storeLeave fuel i s w)) := by
  induction fuel with
  | zero =>
    refine ⟨fun i s p w0 w h => ?_, fun i s w0 w h => ?_⟩
    · rw [storeEnter]; exact h
    · rw [storeLeave]; exact h
  | succ n ih =>
    obtain ⟨i1, i2⟩ := ih
    refine ⟨fun i s p w0 w h => ?_, fun i s w0 w h => ?_⟩
    · rw [storeEnter.eq_def]
      refine Sr.andThen ?_ fun w h => ?_
      · split
        · exact sr_onQueue h _ _ fun _ _ e => ⟨.enterSorted _ _, e⟩
        · exact sr_onQueue h _ _ fun _ _ e => ⟨.enter _, e⟩
      · split
        · exact h
        · refine (i2 _ _ _ _ h).andThen fun w h => ?_
          exact (Sr.forR (fun s0 w h => sr_leaveQ h _ _) _ _ h).andThen fun w h => sr_wake (h.modC _ _) _ _
    · rw [storeLeave.eq_def]
      refine (sr_leaveQ h _ _).andThen fun w h => ?_
      simp only
      split
      · split
        · exact h
        · split
          · exact h
          · refine (i1 _ _ _ _ _ h).andThen fun w h => ?_
            refine (Sr.forR (fun s0 w h => sr_leaveQ h _ _) _ _ h).andThen fun w h => ?_
            exact (sr_wake (h.modC _ _) _ _).andThen fun w h => h.modC _ _
      · exact h

theorem sr_fromStore {w0 w : World} (h : St L w0 w) (fuel c ss f k rp fa fd p u cp) (hS : L .stat c) (hA : L (.ask p u) c) :
    Sr L w0 (fromStore fuel c ss f k rp fa fd p u cp w) := by
  unfold fromStore
  split
  · exact h
  · refine (sr_preamble h _).andThen fun w h => ?_
    split
    · exact h
    · simp only
      split
      · exact ((sr_store fuel).2 _ _ _ _ (h.modC _ _)).andThen fun w h => sr_wake (h.modC _ _) _ _
      · exact (Sr.forR (fun s0 w h => sr_enterSortedQ h _ _ _) _ _ ((h.modC _ _).modC _ _)).andThen
          fun w h => sr_reschedule (h.modC _ _) _ _ _ _ _ _ (.inr hA)

theorem sr_toStore {w0 w : World} (h : St L w0 w) (fuel c ss i rp sp fa fd p u cp) (hS : L .stat c) (hA : L (.ask p u) c) :
    Sr L w0 (toStore fuel c ss i rp sp fa fd p u cp w) := by
  unfold toStore
  split
  · exact h
  · refine (sr_preamble h _).andThen fun w h => ?_
    split
    · exact h
    · simp only
      split
      · exact ((sr_store fuel).1 _ _ _ _ _ (h.modC _ _)).andThen fun w h => sr_wake (h.modC _ _) _ _
      · exact (Sr.forR (fun s0 w h => sr_enterSortedQ h _ _ _) _ _ (h.modC _ _)).andThen
          fun w h => sr_reschedule (h.modC _ _) _ _ _ _ _ _ (.inr hA)

theorem sr_rescanItems {w0 w : World} (h : St L w0 w) (fuel c s i) : Sr L w0 (rescanItems fuel c s i w) := by
  unfold rescanItems
  split
  · refine (Sr.forR (fun s0 w h => sr_leaveQ h _ _) _ _ h).andThen fun w h => ?_
    exact ((sr_store fuel).2 _ _ _ _ h).andThen fun w h => sr_wake (h.modC _ _) _ _
  · exact h

theorem sr_rescan {w0 w : World} (h : St L w0 w) (fuel s) : Sr L w0 (rescan fuel s w) := by
  refine Sr.forR (fun c w h => ?_) _ _ h
  split
  · exact Sr.forR (fun i w h => sr_rescanItems h _ _ _ _) _ _ h
  · exact h

theorem sr_rescanTo {w0 : World} (fuel s l) : ∀ w, St L w0 w → Sr L w0 (rescanTo fuel s l w) := by
  induction l with
  | nil => intro w h; exact h
  | cons c t ih =>
    intro w h
    unfold rescanTo
    split
    · split
      · refine (Sr.forR (fun s0 w h => sr_leaveQ h _ _) _ _ h).andThen fun w h => ?_
        split
        · exact h
        · refine ((sr_store fuel).1 _ _ _ _ _ h).andThen fun w h => ?_
          exact (sr_wake (h.modC _ _) _ _).andThen fun w h => ih _ (h.modC _ _)
      · exact h
    · exact ih _ h

theorem st_setCapacity {w0 w : World} (h : St L w0 w) (q k) : St L w0 (w.modQ q (fun x => x.setCapacity k)) := by
  have : w.modQ q (fun x => x.setCapacity k) = w.modQ q (fun _ => (w.queues q).setCapacity k) := by
    unfold World.modQ
    congr 1
    funext d
    by_cases hd : d = q <;> simp [hd]
  rw [this]
  exact .queue q (.setCapacity k) _ h rfl

theorem st_resetRates {w0 w : World} (h : St L w0 w) (q a d) : St L w0 (w.modQ q (fun x => x.resetRates w.now a d)) := by
  have : w.modQ q (fun x => x.resetRates w.now a d) = w.modQ q (fun _ => (w.queues q).resetRates w.now a d) := by
    unfold World.modQ
    congr 1
    funext d
    by_cases hd : d = q <;> simp [hd]
  rw [this]
  exact .queue q (.resetRates a d) _ h rfl

theorem sr_storeSetCapacity {w0 w : World} (h : St L w0 w) (fuel s k) : Sr L w0 (storeSetCapacity fuel s k w) := by
  unfold storeSetCapacity
  simp only
  split
  · exact sr_rescanTo _ _ _ _ (st_setCapacity h _ _)
  · exact st_setCapacity h _ _

theorem sr_cancel {w0 w : World} (h : St L w0 w) (fuel c) (hS : L .stat c) : Sr L w0 (cancel fuel c w) := by
  unfold cancel
  split
  · exact h
  · refine (Sr.andThen ?_ fun w h => sr_releaseAll h _ _).andThen fun w h => h.modC _ _
    split
    · exact h
    · exact sr_removeFail h _

theorem sr_terminate {w0 w : World} (h : St L w0 w) (fuel c) (hS : L .stat c) : Sr L w0 (terminate fuel c w) :=
  (sr_releaseAll h _ _).andThen fun w h => h.modC _ _

theorem sr_runStart {w0 w : World} (h : St L w0 w) (d t p u k) (hA : L (.ask p u) w.main) : Sr L w0 (runStart d t p u k w) := by
  have h1 : ∀ b, St L w0 { w with endOnEmpty := b } := fun b => .comp h rfl rfl rfl rfl rfl rfl rfl rfl .same
  unfold runStart
  split
  · exact h1 _
  · exact sr_reschedule (sr_setStatus (h1 _) _ _) _ _ _ _ _ _ (.inr hA)

/-- calls that are not the scheduler's step nor `reset_now` nor `Queue.insert` -/
def Op.plain : Op → Bool
  | .step => false
  | .resetNow _ => false
  | .insertAt _ _ _ => false
  | _ => true

/-- the component a call is made for -/
def Op.subject (w : World) : Op → Option CId
  | .hold c _ _ _ _ _ _ | .passivate c | .activate c _ _ _ _ _ _ _ _ | .create c _ _ _ _ _ _ | .interrupt c | .resume c _ _ _ => some c
  | .standby c | .setRemaining c _ _ _ | .cancel c => some c
  | .terminate => some w.current
  | .request c _ _ _ _ _ _ _ _ | .wait c _ _ _ _ _ _ _ | .waitFor c _ _ _ _ _ _ _ => some c
  | .fromStore c _ _ _ _ _ _ _ _ _ | .toStore c _ _ _ _ _ _ _ _ _ => some c
  | _ => none

/-- the component for which a call has the parameters `priority` and `urgent`, and these -/
def Op.asks (w : World) : Op → Option (CId × ETime × Bool)
  | .hold c _ _ p u _ _ | .activate c _ _ p u _ _ _ _ | .create c _ _ p u _ _ | .resume c _ p u | .setRemaining c _ p u => some (c, p, u)
  | .request c _ _ _ _ _ p u _ | .wait c _ _ _ _ p u _ => some (c, p, u)
  | .waitFor c _ _ _ _ p u _ => some (c, (p : ETime), u)
  | .fromStore c _ _ _ _ _ _ p u _ | .toStore c _ _ _ _ _ _ p u _ => some (c, p, u)
  | .runStart _ _ p u _ => some (w.main, p, u)
  | _ => none

/-- for whom a call can set the scheduled time without changing the status -/
def Op.wilds : Op → Option CId
  | .resume c _ _ _ | .setRemaining c _ _ _ | .request c [] _ _ _ _ _ _ _ => some c
  | _ => none

/-- the state whose value a call can change -/
def Op.sets : Op → Option SId
  | .stateSet s _ | .stateTrigger s _ _ _ => some s
  | _ => none

/-- whom a call puts into standby, whom it gives `skip_standby`, to whom it can give another status than scheduled, and for whom
it has priority and urgent, and the state it gives a value -/
def Op.lists (w : World) : Op → LK → CId → Prop
  | .create c _ _ _ _ _ s, .skip, d => s = true ∧ d = c
  | .standby c, .line, d => d = c
  | o, .stat, d => o.subject w = some d
  | o, .wild, d => o.wilds = some d
  | o, .set, s => o.sets = some s
  | o, .ask p u, d => o.asks w = some (d, p, u)
  | _, _, _ => False

theorem exec_sr (fuel : Nat) {o : Op} (ho : o.plain) (w : World) (hL : ∀ c, o = .standby c → L .line c)
    (hK : ∀ c a d p u k, o = .create c a d p u k true → L .skip c) (hS : ∀ c, o.subject w = some c → L .stat c)
    (hA : ∀ c p u, o.asks w = some (c, p, u) → L (.ask p u) c) (hW : ∀ c, o.wilds = some c → L .wild c)
    (hV : ∀ s, o.sets = some s → L .set s) : Sr L w (exec fuel o w) := by
  have h := St.refl (L := L) w
  cases o with
  | hold => exact sr_hold h _ _ _ _ _ _ _ (hS _ rfl) (hA _ _ _ rfl)
  | passivate => exact sr_passivate h _ (hS _ rfl)
  | activate => exact sr_activate h _ _ _ _ _ _ _ _ _ (.inr (hA _ _ _ rfl))
  | create => exact sr_create h _ _ _ _ _ _ _ (fun hs => hK _ _ _ _ _ _ (by rw [hs])) (hA _ _ _ rfl)
  | interrupt => exact sr_interrupt h _ (hS _ rfl)
  | resume => exact sr_resume h _ _ _ _ (hS _ rfl) (hW _ rfl) (hA _ _ _ rfl)
  | standby => exact sr_standby h _ (hS _ rfl) (hL _ rfl)
  | setRemaining => exact sr_setRemaining h _ _ _ _ (hW _ rfl) (hA _ _ _ rfl)
  | cancel => exact sr_cancel h _ _ (hS _ rfl)
  | request c args => exact sr_request h _ _ _ _ _ _ _ _ _ _ (hS _ rfl) (fun he => by rw [List.isEmpty_iff.1 he] at hW; exact hW _ rfl) (hA _ _ _ rfl)
  | release => exact sr_releaseArgs h _ _ _
  | releaseAll => exact sr_releaseAll h _ _
  | resRelease => exact sr_resRelease h _ _ _
  | resSetCapacity => exact sr_resSetCapacity h _ _ _
  | wait => exact sr_wait h _ _ _ _ _ _ _ _ (hS _ rfl) (hA _ _ _ rfl)
  | waitFor => exact sr_waitFor h _ _ _ _ _ _ _ _ (hS _ rfl) (hA _ _ _ rfl)
  | stateSet => exact sr_stateSet h _ _ (hV _ rfl)
  | stateTrigger => exact sr_stateTrigger h _ _ _ _ (hV _ rfl)
  | fromStore => exact sr_fromStore h _ _ _ _ _ _ _ _ _ _ _ (hS _ rfl) (hA _ _ _ rfl)
  | toStore => exact sr_toStore h _ _ _ _ _ _ _ _ _ _ _ (hS _ rfl) (hA _ _ _ rfl)
  | rescan => exact sr_rescan h _ _
  | storeSetCapacity => exact sr_storeSetCapacity h _ _ _
  | storeEnter => exact (sr_store fuel).1 _ _ _ _ _ h
  | storeLeave => exact (sr_store fuel).2 _ _ _ _ h
  | enter c => exact sr_onQueue h _ _ fun _ _ e => ⟨.enter c, e⟩
  | enterSorted c _ p => exact sr_onQueue h _ _ fun _ _ e => ⟨.enterSorted c p, e⟩
  | enterAtHead c => exact sr_onQueue h _ _ fun _ _ e => ⟨.enterAtHead c, e⟩
  | enterInFrontOf c _ p => exact sr_onQueue h _ _ fun _ _ e => ⟨.enterInFrontOf c p, e⟩
  | enterBehind c _ p => exact sr_onQueue h _ _ fun _ _ e => ⟨.enterBehind c p, e⟩
  | leave c => exact sr_onQueue h _ _ fun _ _ e => ⟨.leave c, e⟩
  | setPriority c _ p => exact sr_onQueue h _ _ fun _ _ e => ⟨.setPriority c p, e⟩
  | queueSetCapacity => exact st_setCapacity h _ _
  | queueReset => exact st_resetRates h _ _ _
  | runStart => exact sr_runStart h _ _ _ _ _ (hA _ _ _ rfl)
  | insertAt => simp [Op.plain] at ho
  | resetNow => simp [Op.plain] at ho
  | step => simp [Op.plain] at ho
  | terminate => exact sr_terminate h _ _ (hS _ rfl)

theorem exec_insertAt (fuel c n i) (w : World) : (exec fuel (.insertAt c n i) w).world = w ∨
    ∃ q', (w.queues (.user n)).insertAt w.now c i = .ok q' ∧ (exec fuel (.insertAt c n i) w).world = w.modQ (.user n) (fun _ => q') := by
  simp only [exec, onQueue]
  split
  · rename_i q' hq; exact .inr ⟨q', hq, rfl⟩
  · exact .inl rfl

theorem exec_st (fuel : Nat) {o : Op} (ho : o.plain) (w : World) : St (o.lists w) w (exec fuel o w).world :=
  (exec_sr fuel ho w (fun _ h => by rw [h]; rfl) (fun _ _ _ _ _ _ h => by rw [h]; exact ⟨rfl, rfl⟩) (fun _ h => by cases o <;> exact h)
    (fun _ _ _ h => by cases o <;> exact h) (fun _ h => by cases o <;> exact h) (fun _ h => by cases o <;> exact h)).world

/-- invariant of the event list that does not involve the components: no conditions on the program are needed for it -/
structure Inv0 (w : World) : Prop where
  heap : Heapq.IsHeap Ev.lt w.events
  ge : ∀ x ∈ w.events, w.now ≤ x.t
  seqle : ∀ x ∈ w.events, x.seq.natAbs ≤ w.seq
  seqnd : (w.events.map (fun x => x.seq.natAbs)).Nodup

/-- only the status of `c` -/
def LK.only (c : CId) : LK → CId → Prop
  | .stat, d => d = c
  | _, _ => False

/-- the effect of a step of the scheduler: a standby component gets its turn, the list is empty, or the first event is taken -/
inductive EventKind (w : World) : World → Prop
  | empty (l s : List CId) (w') : w.events = [] → w'.current = w'.main → St (LK.only w.main) { w with pending := l, standby := s } w' → EventKind w w'
  | event (l s : List CId) (e : Ev) (es : List Ev) (w') : Heapq.heappop Ev.lt w.events = some (e, es) → w'.current = e.c →
      St (LK.only e.c) { w with pending := l, standby := s, now := e.t, events := es } w' → EventKind w w'

/-- see `EventKind` -/
inductive StepKind (w : World) : World → Prop
  | turn (c : CId) (w') : w.pending.head? = some c → w.status c = .standby → w'.current = c → St (LK.only c) w w' →
      StepKind w w'
  | ev (w') : EventKind w w' → StepKind w w'

/-- whoever was current before: nothing else than control has changed hands -/
theorem current_checkFail (c) (w : World) : (checkFail c w).world.current = w.current := by
  have hq : ∀ q f (w : World), (onQueue q f w).world.current = w.current := by
    intro q f w; unfold onQueue; split <;> rfl
  have hA : ∀ (r : R) (f : World → R) (w : World), r.world.current = w.current → (∀ w', (f w').world.current = w'.current) →
      (r ⊳ f).world.current = w.current := by
    intro r f w h hf
    cases r with
    | ok w' => exact (hf w').trans h
    | err e w' => exact h
  have hF : ∀ {α : Type} (f : α → World → R) (l : List α), (∀ a w, (f a w).world.current = w.current) →
      ∀ w, (forR l f w).world.current = w.current := by
    intro α f l hf
    induction l with
    | nil => intro w; rfl
    | cons a t ih => intro w; exact hA _ _ _ (hf a w) ih
  unfold checkFail
  refine hA _ _ _ (hA _ _ _ (hA _ _ _ ?_ fun w => ?_) fun w => ?_) fun w => ?_
  · unfold checkFailReq; split
    · rfl
    · refine hA _ _ _ (hF _ _ (fun r w => ?_) _) fun w => rfl
      refine hA _ _ _ (hq _ _ _) fun w => ?_
      simp only [R.world]; split <;> rfl
  · unfold checkFailWait; split
    · rfl
    · refine hA _ _ _ (hF _ _ (fun r w => ?_) _) fun w => rfl
      unfold leaveWaiters; split
      · exact hq _ _ _
      · rfl
  · unfold checkFailFrom; split
    · rfl
    · exact hA _ _ _ (hF _ _ (fun r w => hq _ _ _) _) fun w => rfl
  · unfold checkFailTo; split
    · rfl
    · exact hA _ _ _ (hF _ _ (fun r w => hq _ _ _) _) fun w => rfl

theorem stepEvent_kind (w : World) (h : Heapq.IsHeap Ev.lt w.events) : EventKind w (stepEvent w).world := by
  unfold stepEvent
  have h3 : ∀ t l, ∃ p s, ∀ L, St L { w with pending := p, standby := s, now := t, events := l }
      { (if w.standby = [] then w else { w with pending := w.standby, standby := [] } : World) with now := t, events := l } := by
    intro t l
    split
    · exact ⟨_, _, fun _ => .refl _⟩
    · exact ⟨_, _, fun _ => .refl _⟩
  have h4 : (if w.standby = [] then w else { w with pending := w.standby, standby := [] } : World).now = w.now := by
    split <;> rfl
  have h7 : (if w.standby = [] then w else { w with pending := w.standby, standby := [] } : World).main = w.main := by
    split <;> rfl
  have h5 : (if w.standby = [] then w else { w with pending := w.standby, standby := [] } : World).events = w.events := by
    split <;> rfl
  simp only
  generalize (if w.standby = [] then w else { w with pending := w.standby, standby := [] } : World) = w2 at h3 h4 h5 h7 ⊢
  rw [h5]
  split
  · rename_i e es hp
    obtain ⟨p, s, h3⟩ := h3 e.t es
    have h6 : St (LK.only e.c) { w with pending := p, standby := s, now := e.t, events := es } (({ w2 with events := es, now := e.t, current := e.c } : World).modC e.c
        (fun x => { x with onList := false, status := .current, schedTime := ⊤ })) :=
      .comp (h3 _) rfl rfl rfl rfl rfl rfl rfl rfl (.mod rfl rfl (skip_modC { w2 with events := es, now := e.t, current := e.c } _
        (f := fun x => { x with onList := false, status := .current, schedTime := ⊤ }) (by intro _; rfl)) (stat_modC _ _ (fun _ => .inr (.inr rfl)))
        (intr_modC { w2 with events := es, now := e.t, current := e.c } _ (f := fun x => { x with onList := false, status := .current, schedTime := ⊤ }) (fun h => by cases h))
        (quiet_modC { w2 with events := es, now := e.t, current := e.c } _ (f := fun x => { x with onList := false, status := .current, schedTime := ⊤ }) (.inr fun _ => .inl rfl)))
    refine .event p s e es _ hp ?_ ?_
    · split
      · rfl
      · exact (current_checkFail _ _).trans rfl
    · split
      · exact h6
      · exact (sr_checkFail h6 _).world
  · rename_i hp
    have hspec := Heapq.heappop_spec evLaw h
    rw [hp] at hspec
    obtain ⟨p, s, h3⟩ := h3 w.now w.events
    refine .empty p s _ hspec rfl ?_
    exact .comp (h3 _) h4 rfl rfl rfl rfl rfl rfl rfl (.mod rfl rfl (skip_modC { w2 with current := w2.main, atInf := if w2.endOnEmpty then w2.atInf else true } _
      (f := fun x => { x with onList := false, status := .current, schedTime := ⊤ }) (by intro _; rfl)) (stat_modC { w2 with current := w2.main, atInf := if w2.endOnEmpty then w2.atInf else true } w2.main
        (f := fun x => { x with onList := false, status := .current, schedTime := ⊤ }) (fun _ => .inr (.inr h7)))
      (intr_modC { w2 with current := w2.main, atInf := if w2.endOnEmpty then w2.atInf else true } w2.main
        (f := fun x => { x with onList := false, status := .current, schedTime := ⊤ }) (fun h => by cases h))
      (quiet_modC { w2 with current := w2.main, atInf := if w2.endOnEmpty then w2.atInf else true } w2.main
        (f := fun x => { x with onList := false, status := .current, schedTime := ⊤ }) (.inr fun _ => .inl rfl)))

theorem step_kind (w : World) (h : Heapq.IsHeap Ev.lt w.events) : StepKind w (step w).world := by
  unfold step
  split
  · exact .ev _ (stepEvent_kind w h)
  · split
    · exact .ev _ (stepEvent_kind w h)
    · rename_i c rest hp
      simp only
      split
      · rename_i hs
        exact .turn c _ (by simp [hp]) hs rfl (.comp (.refl _) rfl rfl rfl rfl rfl rfl rfl rfl
          ⟨by rw [hp]; exact List.sublist_cons_self _ _, ⟨w.standby, [], (List.append_nil _).symm, List.Sublist.refl _, by simp⟩,
            fun d hd => .inl ((skip_modC { w with pending := rest } c (f := fun x => { x with status := .current, schedTime := ⊤ }) (fun _ => rfl) d) ▸ hd),
            stat_modC { w with pending := rest } c (f := fun x => { x with status := .current, schedTime := ⊤ }) (fun _ => .inr (.inr rfl)),
            intr_modC { w with pending := rest } c (f := fun x => { x with status := .current, schedTime := ⊤ }) (fun h => by cases h),
            quiet_modC { w with pending := rest } c (f := fun x => { x with status := .current, schedTime := ⊤ }) (.inr fun _ => .inl rfl)⟩)
      · have := stepEvent_kind { w with pending := rest } h
        refine .ev _ ?_
        cases this with
        | empty p s _ h1 h2 h3 => exact .empty p s _ h1 h2 h3
        | event p s e es _ h1 h2 h3 => exact .event p s e es _ h1 h2 h3

theorem setTail_subperm {l : List Ev} {i : Nat} {e0 : Ev} (hi : i < l.length) (he : l.head? = some e0) :
    ((l.set i e0).tail).Subperm l := by
  cases l with
  | nil => simp at hi
  | cons a t =>
    simp only [List.head?_cons, Option.some.injEq] at he
    subst he
    cases i with
    | zero => simpa using (List.sublist_cons_self a t).subperm
    | succ j =>
      simp only [List.set_cons_succ, List.tail_cons]
      have hj : j < t.length := by simpa using hi
      have : (t.set j a).Perm (a :: t.eraseIdx j) := List.set_perm_cons_eraseIdx hj a
      exact this.subperm.trans ((List.eraseIdx_sublist t j).cons_cons a).subperm

theorem Inv0.push {w : World} (h : Inv0 w) {e : Ev} (ht : w.now ≤ e.t) (hs : e.seq.natAbs = w.seq + 1) :
    Inv0 { w with seq := w.seq + 1, events := Heapq.heappush Ev.lt w.events e } := by
  have hp := Heapq.heappush_perm (lt := Ev.lt) w.events e
  refine ⟨Heapq.heappush_isHeap evLaw e h.heap, ?_, ?_, ?_⟩
  · intro x hx
    rcases List.mem_cons.1 (hp.mem_iff.1 hx) with rfl | hx
    · exact ht
    · exact h.ge x hx
  · intro x hx
    rcases List.mem_cons.1 (hp.mem_iff.1 hx) with rfl | hx
    · exact le_of_eq hs
    · exact Nat.le_succ_of_le (h.seqle x hx)
  · refine ((hp.map _).nodup_iff).2 (List.nodup_cons.2 ⟨?_, h.seqnd⟩)
    rintro hm
    obtain ⟨x, hx, he⟩ := List.mem_map.1 hm
    have := h.seqle x hx
    simp only at he
    omega

theorem Inv0.sub {w : World} (h : Inv0 w) {l l' : List Ev} (hh : Heapq.IsHeap Ev.lt l') (hp : l'.Perm l) (hs : l.Subperm w.events) :
    Inv0 { w with events := l' } := by
  refine ⟨hh, fun x hx => h.ge x (hs.subset (hp.mem_iff.1 hx)), fun x hx => h.seqle x (hs.subset (hp.mem_iff.1 hx)), ?_⟩
  refine ((hp.map _).nodup_iff).2 ?_
  obtain ⟨l2, h1, h2⟩ := hs
  exact ((h1.map _).nodup_iff).1 (h.seqnd.sublist (h2.map _))

theorem St.inv0 {w w' : World} (hw : Inv0 w) (h : St L w w') : Inv0 w' := by
  induction h with
  | refl => exact hw
  | comp _ h1 _ _ _ _ _ h7 h8 _ ih => exact ⟨h7 ▸ ih.heap, by rw [h7, h1]; exact ih.ge, by rw [h7, h8]; exact ih.seqle, h7 ▸ ih.seqnd⟩
  | push e _ ht hs _ ih => exact ih.push ht hs
  | @remove w1 i e0 _ hi he ih =>
    refine ih.sub (Heapq.heapify_isHeap evLaw _) (Heapq.heapify_perm _) ?_
    exact setTail_subperm hi he
  | res _ _ _ _ ih => exact ⟨ih.heap, ih.ge, ih.seqle, ih.seqnd⟩
  | state _ _ _ _ ih => exact ⟨ih.heap, ih.ge, ih.seqle, ih.seqnd⟩
  | queue _ _ _ _ _ ih => exact ⟨ih.heap, ih.ge, ih.seqle, ih.seqnd⟩

theorem St.now {w w' : World} (h : St L w w') : w'.now = w.now := by
  induction h with
  | refl => rfl
  | comp _ h1 _ _ _ _ _ _ _ _ ih => exact h1.trans ih
  | push _ _ _ _ _ ih => exact ih
  | remove _ _ _ _ _ ih => exact ih
  | res _ _ _ _ ih => exact ih
  | state _ _ _ _ ih => exact ih
  | queue _ _ _ _ _ ih => exact ih
theorem St.main {w w' : World} (h : St L w w') : w'.main = w.main := by
  induction h with
  | refl => rfl
  | comp _ _ h1 _ _ _ _ _ _ _ ih => exact h1.trans ih
  | push _ _ _ _ _ ih => exact ih
  | remove _ _ _ _ _ ih => exact ih
  | res _ _ _ _ ih => exact ih
  | state _ _ _ _ ih => exact ih
  | queue _ _ _ _ _ ih => exact ih
theorem St.offset {w w' : World} (h : St L w w') : w'.offset = w.offset := by
  induction h with
  | refl => rfl
  | comp _ _ _ h1 _ _ _ _ _ _ ih => exact h1.trans ih
  | push _ _ _ _ _ ih => exact ih
  | remove _ _ _ _ _ ih => exact ih
  | res _ _ _ _ ih => exact ih
  | state _ _ _ _ ih => exact ih
  | queue _ _ _ _ _ ih => exact ih
theorem St.kind {w w' : World} (h : St L w w') (r) : (w'.res r).kind = (w.res r).kind := by
  induction h with
  | refl => rfl
  | comp _ _ _ _ h1 _ _ _ _ _ ih => rw [h1]; exact ih
  | push _ _ _ _ _ ih => exact ih
  | remove _ _ _ _ _ ih => exact ih
  | res r f _ hf ih =>
    simp only [World.modR]
    split
    · rw [hf]; exact ih
    · exact ih
  | state _ _ _ _ ih => exact ih
  | queue _ _ _ _ _ ih => exact ih

theorem St.lists {w w' : World} (h : St L w w') : Lists L w w' := by
  induction h with
  | refl => exact .same
  | comp _ _ _ _ _ _ _ _ _ h9 ih => exact ih.trans h9
  | push _ _ _ _ _ ih => exact ⟨ih.pending, ih.standby, ih.skip, ih.stat, ih.intr, ih.quiet⟩
  | remove _ _ _ _ _ ih => exact ⟨ih.pending, ih.standby, ih.skip, ih.stat, ih.intr, ih.quiet⟩
  | res _ _ _ _ ih => exact ⟨ih.pending, ih.standby, ih.skip, ih.stat, ih.intr, ih.quiet⟩
  | state _ _ _ _ ih => exact ⟨ih.pending, ih.standby, ih.skip, ih.stat, ih.intr, ih.quiet⟩
  | queue _ _ _ _ _ ih => exact ⟨ih.pending, ih.standby, ih.skip, ih.stat, ih.intr, ih.quiet⟩

theorem exec_intr {w : World} (h : Inv0 w) (fuel o) (c : CId) : IntrKept (w.comps c) ((exec fuel o w).world.comps c) := by
  by_cases hp : o.plain
  · exact (exec_st fuel hp w).lists.intr c
  · cases o <;> simp [Op.plain] at hp
    · rename_i d n i
      rcases exec_insertAt fuel d n i w with he | ⟨q', _, he⟩ <;> rw [he] <;> exact .refl _
    · exact .refl _
    · have := step_kind w h.heap
      simp only [exec]
      generalize (step w).world = w' at this
      cases this with
      | turn c _ _ _ _ hs => exact hs.lists.intr _
      | ev _ hk =>
        cases hk with
        | empty _ _ _ _ _ hs => exact hs.lists.intr c
        | event p s e es _ hp _ hs => exact hs.lists.intr c

theorem exec_quiet {w : World} (h : Inv0 w) (fuel o) (c : CId) : o.wilds = some c ∨ QuietKept (w.comps c) ((exec fuel o w).world.comps c) := by
  by_cases hp : o.plain
  · have := (exec_st fuel hp w).lists.quiet c
    rcases this with h | h
    · exact .inl (by cases o <;> exact h)
    · exact .inr h
  · right
    cases o <;> simp [Op.plain] at hp
    · rename_i d n i
      rcases exec_insertAt fuel d n i w with he | ⟨q', _, he⟩ <;> rw [he] <;> exact .refl _
    · exact .refl _
    · have := step_kind w h.heap
      simp only [exec]
      generalize (step w).world = w' at this
      cases this with
      | turn c _ _ _ _ hs => exact (hs.lists.quiet _).resolve_left id
      | ev _ hk =>
        cases hk with
        | empty _ _ _ _ _ hs => exact (hs.lists.quiet c).resolve_left id
        | event p s e es _ hp _ hs => exact (hs.lists.quiet c).resolve_left id

end Verif
