import Verif.Props.Bank

/-!
# A producer and a consumer with a buffer between them

The producer and consumer program with a store of any capacity: what the model of the kernel does with it, for all production and consumption times.
-/

namespace Verif
open World Bank
namespace Buffer

/-! ## what matters of a state -/

/-- what matters of a component -/
structure Side where
  status : Status
  onList : Bool
  froms : List StId
  tos : List StId
  item : Option CId
  prio : Rat
  fil : CId → Bool

structure SideIs (x : Comp) (s : Side) : Prop where
  requests : x.requests = []
  waits : x.waits = []
  claims : x.claims = []
  status : x.status = s.status
  onList : x.onList = s.onList
  froms : x.fromStores = s.froms
  tos : x.toStores = s.tos
  item : x.toItem = s.item
  prio : x.toPrio = s.prio
  fil : x.fromFilter = s.fil

/-- what matters of a state -/
structure Abs where
  now : Rat
  seq : Nat
  events : List Ev
  current : CId
  side : CId → Side
  queues : QRef → Queue

structure Sim (w : World) (S : Abs) : Prop where
  now : w.now = S.now
  seq : w.seq = S.seq
  events : w.events = S.events
  current : w.current = S.current
  side : ∀ c, SideIs (w.comps c) (S.side c)
  queues : w.queues = S.queues
  main : w.main = 0
  standby : w.standby = []
  pending : w.pending = []

def Abs.upd (S : Abs) (c : CId) (s : Side) : Abs := { S with side := fun d => if d = c then s else S.side d }
def Abs.queue (S : Abs) (q : QRef) (x : Queue) : Abs := { S with queues := fun p => if p = q then x else S.queues p }
def Abs.sched (S : Abs) (c : CId) (t : Rat) (v : Option CId) : Abs :=
  ⟨S.now, S.seq + 1, Heapq.heappush Ev.lt S.events ⟨t, (0 : Rat), (S.seq + 1 : Nat), c, v⟩, S.current,
    fun d => if d = c then { S.side c with status := .scheduled, onList := true } else S.side d, S.queues⟩

variable {w : World} {S : Abs}

theorem Sim.modC {c : CId} {f : Comp → Comp} {s : Side} (h : Sim w S) (hf : SideIs (f (w.comps c)) s) : Sim (w.modC c f) (S.upd c s) := by
  refine ⟨h.now, h.seq, h.events, h.current, fun d => ?_, h.queues, h.main, h.standby, h.pending⟩
  show SideIs _ (if d = c then s else S.side d)
  by_cases hd : d = c
  · subst hd; rw [if_pos rfl, c_self]; exact hf
  · rw [if_neg hd, c_other _ _ _ _ hd]; exact h.side d

theorem Sim.modQ {q : QRef} {f : Queue → Queue} (h : Sim w S) : Sim (w.modQ q f) (S.queue q (f (S.queues q))) := by
  refine ⟨h.now, h.seq, h.events, h.current, h.side, ?_, h.main, h.standby, h.pending⟩
  funext p
  show _ = if p = q then f (S.queues q) else S.queues p
  by_cases hp : p = q
  · subst hp; rw [if_pos rfl, q_self, h.queues]
  · rw [if_neg hp, q_other _ _ _ _ hp, h.queues]

theorem Sim.sched {c : CId} {t : Rat} {v : Option CId} (h : Sim w S) (ht : S.now ≤ t) :
    ∃ w', reschedule c (t : ETime) (0 : Rat) false false v (setStatus c .scheduled w) = .ok w' ∧ Sim w' (S.sched c t v) := by
  unfold reschedule
  rw [if_neg (by show ¬ (t : ETime) < (w.now : ETime); rw [WithTop.coe_lt_coe, h.now]; exact not_lt.mpr ht)]
  refine ⟨_, rfl, h.now, ?_, ?_, h.current, fun d => ?_, h.queues, h.main, h.standby, h.pending⟩
  · show w.seq + 1 = S.seq + 1
    rw [h.seq]
  · show Heapq.heappush Ev.lt w.events ⟨t, (0 : Rat), (w.seq + 1 : Nat), c, v⟩ = _
    rw [h.seq, h.events]; rfl
  · show SideIs _ (if d = c then { S.side c with status := .scheduled, onList := true } else S.side d)
    by_cases hd : d = c
    · subst hd
      have := h.side d
      rw [if_pos rfl]
      refine ⟨?_, ?_, ?_, ?_, ?_, ?_, ?_, ?_, ?_, ?_⟩ <;> simp [push, setStatus, World.modC, this.requests, this.waits, this.claims, this.froms, this.tos, this.item, this.prio, this.fil]
    · rw [if_neg hd]
      have : (World.modC ((setStatus c .scheduled w).modC c (fun x => { x with schedTime := (t : ETime) })) c (fun x => { x with onList := true })).comps d = w.comps d := by
        unfold setStatus; rw [c_other _ _ _ _ hd, c_other _ _ _ _ hd, c_other _ _ _ _ hd]
      show SideIs ((World.modC ((setStatus c .scheduled w).modC c (fun x => { x with schedTime := (t : ETime) })) c (fun x => { x with onList := true })).comps d) _
      rw [this]; exact h.side d

theorem Sim.wake {c : CId} {v : Option CId} (h : Sim w S) (hon : (S.side c).onList = false) (hs : (S.side c).status ≠ .standby) :
    ∃ w', Verif.wake c v w = .ok w' ∧ Sim w' (S.sched c S.now v) := by
  unfold Verif.wake Verif.remove
  rw [if_neg (by rw [(h.side c).onList, hon]; simp), if_neg (show ¬ (w.comps c).status = .standby by rw [(h.side c).status]; exact hs), then_ok, h.now]
  exact h.sched le_rfl

theorem Sim.passive {c : CId} (h : Sim w S) : ∃ w', reschedule c ⊤ (0 : Rat) false false none w = .ok w' ∧ Sim w' S := by
  unfold reschedule
  rw [if_neg (by simp)]
  refine ⟨_, rfl, ?_⟩
  have : Sim (w.modC c (fun x => { x with schedTime := ⊤ })) (S.upd c (S.side c)) := h.modC (by
    have := h.side c
    exact ⟨this.requests, this.waits, this.claims, this.status, this.onList, this.froms, this.tos, this.item, this.prio, this.fil⟩)
  have e : S.upd c (S.side c) = S := by
    unfold Abs.upd
    have : (fun d => if d = c then S.side c else S.side d) = S.side := by funext d; split <;> simp_all
    rw [this]
  rw [e] at this
  exact this

theorem Sim.enterRoom {c : CId} {q : QRef} (h : Sim w S) (hr : ¬ ETime.subQ (S.queues q).cap ((S.queues q).len + 1 : Nat) < (0 : Rat))
    (hp : ∀ m ∈ (S.queues q).mem, m.prio = 0 ∧ m.c ≠ c) : ∃ w', enterSortedQ c q 0 w = .ok w' ∧ Sim w' (S.queue q (enq c S.now (S.queues q))) := by
  have h1 : (S.queues q).has c = false := by
    unfold Queue.has
    rw [List.any_eq_false]
    intro m hm; simpa using (hp m hm).2
  have h2 : (S.queues q).enterSorted S.now c 0 = .ok (enq c S.now (S.queues q)) := by
    unfold Queue.enterSorted Queue.insert
    rw [h1, if_neg (by simp), if_neg hr, sortedIns_end (fun m hm => (hp m hm).1)]
    rfl
  refine ⟨w.modQ q (fun _ => enq c S.now (S.queues q)), ?_, h.modQ⟩
  unfold enterSortedQ onQueue
  rw [h.queues, h.now]
  simp only [h2]

theorem Sim.enter {c : CId} {q : QRef} (h : Sim w S) (hcap : (S.queues q).cap = ⊤)
    (hp : ∀ m ∈ (S.queues q).mem, m.prio = 0 ∧ m.c ≠ c) : ∃ w', enterSortedQ c q 0 w = .ok w' ∧ Sim w' (S.queue q (enq c S.now (S.queues q))) :=
  h.enterRoom (by rw [hcap]; simp [ETime.subQ]) hp

theorem Sim.leave {c : CId} {q : QRef} {m : QMem} {l : List QMem} (h : Sim w S) (hm : (S.queues q).mem = m :: l) (hc : m.c = c) :
    ∃ w', leaveQ c q w = .ok w' ∧ Sim w' (S.queue q (deq S.now m l (S.queues q))) := by
  refine ⟨_, leave_run (m := m) (l := l) (by rw [h.queues]; exact hm) hc, ?_⟩
  rw [h.queues, h.now]
  exact h.modQ

theorem Sim.hold {c : CId} {t : Rat} {f : Nat} (h : Sim w S) (hst : (S.side c).status = .current) (ht : 0 ≤ t) :
    ∃ w', exec f (.hold c (some (t : ETime)) none (0 : Rat) false false 0) w = .ok w' ∧ Sim w' (S.sched c (S.now + t) none) := by
  have hle : S.now ≤ S.now + t := le_add_of_nonneg_right ht
  obtain ⟨w', e, h'⟩ := h.sched (c := c) (v := none) hle
  refine ⟨w', ?_, h'⟩
  show Verif.hold c (some (t : ETime)) none (0 : Rat) false false 0 w = _
  unfold Verif.hold
  rw [if_pos (.inr (by unfold World.status; rw [(h.side c).status]; exact hst)), then_ok]
  simp only
  have hnl : ¬ ((w.now : ETime) + (t : ETime) < (w.now : ETime)) := by
    rw [← WithTop.coe_add, WithTop.coe_lt_coe, h.now]; exact not_lt.mpr hle
  rw [if_neg (fun h => hnl h.1), if_neg (by simp), if_neg hnl, ← WithTop.coe_add, h.now]
  exact e

theorem Sim.terminate {c : CId} {f : Nat} (h : Sim w S) :
    ∃ w', Verif.terminate f c w = .ok w' ∧ Sim w' (S.upd c { S.side c with status := .data, item := none }) := by
  have hc := h.side c
  refine ⟨w.modC c (fun x => { x with fromItem := none, toItem := none, status := .data, schedTime := ⊤ }), ?_,
    h.modC ⟨hc.requests, hc.waits, hc.claims, rfl, hc.onList, hc.froms, hc.tos, rfl, hc.prio, hc.fil⟩⟩
  unfold Verif.terminate releaseAll
  rw [hc.claims]; rfl

theorem Sim.step {e : Ev} {es : List Ev} (h : Sim w S) (hpop : Heapq.heappop Ev.lt S.events = some (e, es)) (hm : e.c ≠ 0)
    (hf : (S.side e.c).froms = []) (ht : (S.side e.c).tos = []) :
    ∃ w', Verif.step w = .ok w' ∧ Sim w' (Abs.upd { S with now := e.t, events := es, current := e.c } e.c { S.side e.c with onList := false, status := .current }) := by
  have hc := h.side e.c
  obtain ⟨w', e1, n1, cu1, ev1, sq1, sb1, pd1, mn1, ot1, c1, -, q1⟩ := step_run h.standby h.pending (by rw [h.events]; exact hpop) (by rw [h.main]; exact hm)
    hc.requests hc.waits (hc.froms.trans hf) (hc.tos.trans ht)
  refine ⟨w', e1, n1, sq1.trans h.seq, ev1, cu1, fun d => ?_, q1.trans h.queues, mn1.trans h.main, sb1, pd1⟩
  show SideIs _ (if d = e.c then _ else S.side d)
  by_cases hd : d = e.c
  · subst hd; rw [if_pos rfl, c1]
    exact ⟨hc.requests, hc.waits, hc.claims, rfl, rfl, hc.froms, hc.tos, hc.item, hc.prio, hc.fil⟩
  · rw [if_neg hd, ot1 d hd]; exact h.side d

/-! ## the calls -/

theorem cap_sub (m k : Nat) : ETime.subQ ((m : Rat) : ETime) ((k : Nat) : Rat) = (((m : Rat) - (k : Rat) : Rat) : ETime) := rfl

theorem room_iff {q : Queue} {m : Nat} (hc : q.cap = ((m : Rat) : ETime)) : (ETime.subQ q.cap ((q.len : Nat) : Rat) > ((0 : Rat) : ETime)) ↔ q.len < m := by
  rw [hc, cap_sub, gt_iff_lt, WithTop.coe_lt_coe, sub_pos, Nat.cast_lt]

theorem fits {q : Queue} {m : Nat} (hc : q.cap = ((m : Rat) : ETime)) (h : q.len < m) : ¬ ETime.subQ q.cap ((q.len + 1 : Nat) : Rat) < ((0 : Rat) : ETime) := by
  rw [hc, cap_sub, WithTop.coe_lt_coe, sub_neg, Nat.cast_lt]; omega

theorem q_same (S : Abs) (q : QRef) (x : Queue) : (S.queue q x).queues q = x := by simp [Abs.queue]
theorem q_diff (S : Abs) (q p : QRef) (x : Queue) (h : p ≠ q) : (S.queue q x).queues p = S.queues p := by simp [Abs.queue, h]
theorem s_same (S : Abs) (c : CId) (x : Side) : (S.upd c x).side c = x := by simp [Abs.upd]
theorem s_diff (S : Abs) (c d : CId) (x : Side) (h : d ≠ c) : (S.upd c x).side d = S.side d := by simp [Abs.upd, h]

/-- a component has control and is not waiting for a store -/
structure Runs (s : Side) : Prop where
  status : s.status = .current
  onList : s.onList = false
  froms : s.froms = []
  tos : s.tos = []

/-- the calls of the producer and of the consumer -/
abbrev putIn (f : Nat) (y : CId) : World → R := toStore f 1 [1] y 0 0 none none (0 : Rat) false false
abbrev getOut (f : Nat) : World → R := fromStore f 2 [1] (fun _ => true) none 0 none none (0 : Rat) false false

theorem search_first (c : CId) (l : List CId) (b : Option CId) : searchStore (fun _ => true) none (c :: l) b = some c := rfl

section
variable {m f : Nat} {y : CId}

/-- the beginning of a call of `c` that has control -/
theorem Sim.clear {c : CId} (h : Sim w S) : Sim (w.modC c (fun x => { x with failed := false })) S := by
  have hc := h.side c
  have := h.modC (c := c) (f := fun x => { x with failed := false }) (s := S.side c) ⟨hc.requests, hc.waits, hc.claims, hc.status, hc.onList, hc.froms, hc.tos, hc.item, hc.prio, hc.fil⟩
  have e : S.upd c (S.side c) = S := by
    unfold Abs.upd
    have : (fun d => if d = c then S.side c else S.side d) = S.side := by funext d; split <;> simp_all
    rw [this]
  rwa [e] at this

theorem Sim.noted {c : CId} {v : Option CId} (h : Sim w S) : Sim (w.modC c (fun x => { x with fromItem := v })) S := by
  have hc := h.side c
  have := h.modC (c := c) (f := fun x => { x with fromItem := v }) (s := S.side c) ⟨hc.requests, hc.waits, hc.claims, hc.status, hc.onList, hc.froms, hc.tos, hc.item, hc.prio, hc.fil⟩
  have e : S.upd c (S.side c) = S := by
    unfold Abs.upd
    have : (fun d => if d = c then S.side c else S.side d) = S.side := by funext d; split <;> simp_all
    rw [this]
  rwa [e] at this

/-- an item is put in, nobody is waiting for it -/
theorem put_room (h : Sim w S) (h1 : Runs (S.side 1)) (hc : (S.queues (.store 1)).cap = ((m : Rat) : ETime)) (hl : (S.queues (.store 1)).len < m)
    (hp : ∀ x ∈ (S.queues (.store 1)).mem, x.prio = 0 ∧ x.c ≠ y) (hf : (S.queues (.fromReq 1)).mem = []) :
    ∃ w', putIn (f + 1) y w = .ok w' ∧
      Sim w' (((S.queue (.store 1) (enq y S.now (S.queues (.store 1)))).upd 1 { S.side 1 with item := none, tos := [] }).sched 1 S.now none) := by
  obtain ⟨w0, hw0⟩ : ∃ w0, w0 = w.modC 1 (fun x => { x with failed := false }) := ⟨_, rfl⟩
  have s0 : Sim w0 S := hw0 ▸ h.clear
  obtain ⟨w1, e1, s1⟩ := s0.enterRoom (fits hc hl) hp
  have hS1 := s1.side 1
  have s2 := s1.modC (c := 1) (f := fun x => { x with toItem := none, toStores := [] }) (s := { S.side 1 with item := none, tos := [] })
    ⟨hS1.requests, hS1.waits, hS1.claims, hS1.status, hS1.onList, hS1.froms, rfl, rfl, hS1.prio, hS1.fil⟩
  obtain ⟨w3, e3, s3⟩ := s2.wake (c := 1) (v := none) (by rw [s_same]; exact h1.onList) (by rw [s_same, h1.status]; simp)
  refine ⟨w3, ?_, s3⟩
  unfold putIn toStore
  rw [if_neg (by simp)]
  unfold preamble
  rw [if_pos (show w.status 1 = .current by unfold World.status; rw [(h.side 1).status]; exact h1.status), then_ok]
  simp only [failTime]
  rw [← hw0]
  have hroom : roomIn w0 1 = true := by
    unfold roomIn
    rw [s0.queues]
    exact decide_eq_true ((room_iff hc).mpr hl)
  simp only [List.find?_cons, hroom]
  have e4 : storeEnter (f + 1) y 1 (some 0) w0 = .ok w1 := by
    unfold storeEnter
    show (enterSortedQ y (.store 1) 0 w0 ⊳ _) = _
    rw [e1, then_ok]
    have : (w1.queues (.fromReq 1)).mem = [] := by rw [s1.queues, q_diff _ _ _ _ (by simp)]; exact hf
    rw [this]; rfl
  rw [e4, then_ok]
  exact e3

/-- the store is full -/
theorem put_full (h : Sim w S) (h1 : Runs (S.side 1)) (hc : (S.queues (.store 1)).cap = ((m : Rat) : ETime)) (hl : (S.queues (.store 1)).len = m)
    (ht : (S.queues (.toReq 1)).cap = ⊤) (hq : (S.queues (.toReq 1)).mem = []) :
    ∃ w', putIn (f + 1) y w = .ok w' ∧
      Sim w' ((S.queue (.toReq 1) (enq 1 S.now (S.queues (.toReq 1)))).upd 1 { S.side 1 with status := .requesting, item := some y, prio := 0, tos := [1] }) := by
  obtain ⟨w0, hw0⟩ : ∃ w0, w0 = w.modC 1 (fun x => { x with failed := false }) := ⟨_, rfl⟩
  have s0 : Sim w0 S := hw0 ▸ h.clear
  obtain ⟨w1, e1, s1⟩ := s0.enter (c := 1) ht (by rw [hq]; simp)
  have hS1 := s1.side 1
  have s2 := s1.modC (c := 1) (f := fun x => { x with status := .requesting, toItem := some y, toPrio := 0, toStores := [1] })
    (s := { S.side 1 with status := .requesting, item := some y, prio := 0, tos := [1] })
    ⟨hS1.requests, hS1.waits, hS1.claims, rfl, hS1.onList, hS1.froms, rfl, rfl, rfl, hS1.fil⟩
  obtain ⟨w3, e3, s3⟩ := s2.passive (c := 1)
  refine ⟨w3, ?_, s3⟩
  unfold putIn toStore
  rw [if_neg (by simp)]
  unfold preamble
  rw [if_pos (show w.status 1 = .current by unfold World.status; rw [(h.side 1).status]; exact h1.status), then_ok]
  simp only [failTime]
  rw [← hw0]
  have hroom : roomIn w0 1 = false := by
    unfold roomIn
    rw [s0.queues]
    exact decide_eq_false (fun h => by have := (room_iff hc).mp h; omega)
  simp only [List.find?_cons, hroom, List.find?_nil]
  have : forR [1] (fun s => enterSortedQ 1 (.toReq s) 0) w0 = .ok w1 := by
    show (enterSortedQ 1 (.toReq 1) 0 w0 ⊳ fun w => R.ok w) = _
    rw [e1, then_ok]
  rw [this, then_ok]
  exact e3

/-- an item is put in, and goes to the consumer, that is waiting for it -/
theorem put_pass (h : Sim w S) (h1 : Runs (S.side 1)) (hc : (S.queues (.store 1)).cap = ((m : Rat) : ETime)) (hl : 0 < m)
    (hs : (S.queues (.store 1)).mem = []) (ht : (S.queues (.toReq 1)).mem = []) {x : QMem} (hf : (S.queues (.fromReq 1)).mem = [x]) (hx : x.c = 2)
    (h2 : (S.side 2).froms = [1]) (h2f : (S.side 2).fil = fun _ => true) (h2o : (S.side 2).onList = false) (h2s : (S.side 2).status ≠ .standby) :
    ∃ w', putIn (f + 2) y w = .ok w' ∧
      Sim w' ((((((S.queue (.store 1) (enq y S.now (S.queues (.store 1)))).queue (.store 1) (deq S.now ⟨y, 0, S.now⟩ [] (enq y S.now (S.queues (.store 1))))).queue
        (.fromReq 1) (deq S.now x [] (S.queues (.fromReq 1)))).upd 2 { S.side 2 with froms := [] }).sched 2 S.now (some y)).upd 1
          { S.side 1 with item := none, tos := [] } |>.sched 1 S.now none) := by
  obtain ⟨w0, hw0⟩ : ∃ w0, w0 = w.modC 1 (fun x => { x with failed := false }) := ⟨_, rfl⟩
  have s0 : Sim w0 S := hw0 ▸ h.clear
  have hl0 : (S.queues (.store 1)).len < m := by unfold Queue.len; rw [hs]; exact hl
  obtain ⟨w1, e1, s1⟩ := s0.enterRoom (c := y) (fits hc hl0) (by rw [hs]; simp)
  obtain ⟨w2, e2, s2⟩ := s1.leave (c := y) (q := .store 1) (m := ⟨y, 0, S.now⟩) (l := []) (by rw [q_same]; simp [enq, hs]) rfl
  rw [q_same] at s2
  obtain ⟨w3, e3, s3⟩ := s2.leave (c := 2) (q := .fromReq 1) (m := x) (l := []) (by rw [q_diff _ _ _ _ (by simp), q_diff _ _ _ _ (by simp)]; exact hf) hx
  rw [q_diff _ _ _ _ (by simp), q_diff _ _ _ _ (by simp)] at s3
  have hS3 := s3.side 2
  have s4 := s3.modC (c := 2) (f := fun x => { x with fromStores := [], fromItem := some y }) (s := { S.side 2 with froms := [] })
    ⟨hS3.requests, hS3.waits, hS3.claims, hS3.status, hS3.onList, rfl, hS3.tos, hS3.item, hS3.prio, hS3.fil⟩
  obtain ⟨w5, e5, s5⟩ := s4.wake (c := 2) (v := some y) (by rw [s_same]; exact h2o) (by rw [s_same]; exact h2s)
  have hS5 := s5.side 1
  have s6 := s5.modC (c := 1) (f := fun x => { x with toItem := none, toStores := [] }) (s := { S.side 1 with item := none, tos := [] })
    ⟨hS5.requests, hS5.waits, hS5.claims, hS5.status, hS5.onList, hS5.froms, rfl, rfl, hS5.prio, hS5.fil⟩
  obtain ⟨w7, e7, s7⟩ := s6.wake (c := 1) (v := none) (by rw [s_same]; exact h1.onList) (by rw [s_same, h1.status]; simp)
  refine ⟨w7, ?_, s7⟩
  unfold putIn toStore
  rw [if_neg (by simp)]
  unfold preamble
  rw [if_pos (show w.status 1 = .current by unfold World.status; rw [(h.side 1).status]; exact h1.status), then_ok]
  simp only [failTime]
  rw [← hw0]
  have hroom : roomIn w0 1 = true := by
    unfold roomIn
    rw [s0.queues]
    exact decide_eq_true ((room_iff hc).mpr hl0)
  simp only [List.find?_cons, hroom]
  have e4 : storeEnter (f + 2) y 1 (some 0) w0 = .ok w5 := by
    unfold storeEnter
    show (enterSortedQ y (.store 1) 0 w0 ⊳ _) = _
    rw [e1, then_ok]
    have hq : (w1.queues (.fromReq 1)).mem = [x] := by rw [s1.queues, q_diff _ _ _ _ (by simp)]; exact hf
    have hfil : (w1.comps x.c).fromFilter = fun _ => true := by rw [hx, (s1.side 2).fil]; exact h2f
    simp only [hq, List.find?_cons, hfil]
    have e6 : storeLeave (f + 1) y 1 w1 = .ok w2 := by
      unfold storeLeave
      rw [e2, then_ok]
      have hh : headQ w2 (.toReq 1) = none := by
        unfold headQ; rw [s2.queues, q_diff _ _ _ _ (by simp), q_diff _ _ _ _ (by simp), ht]; rfl
      simp only [hh]
      split <;> rfl
    rw [e6, then_ok, hx]
    have hfr : (w2.comps 2).fromStores = [1] := by rw [(s2.side 2).froms]; exact h2
    rw [hfr]
    have : forR [1] (fun s0 => leaveQ 2 (.fromReq s0)) w2 = .ok w3 := by
      show (leaveQ 2 (.fromReq 1) w2 ⊳ fun w => R.ok w) = _
      rw [e3, then_ok]
    rw [this, then_ok]
    exact e5
  rw [e4, then_ok]
  exact e7

/-- an item is taken out, nobody is waiting to put one in -/
theorem get_take (h : Sim w S) (h2 : Runs (S.side 2)) {x : QMem} {l : List QMem} (hs : (S.queues (.store 1)).mem = x :: l) (ht : (S.queues (.toReq 1)).mem = []) :
    ∃ w', getOut (f + 1) w = .ok w' ∧ Sim w' ((S.queue (.store 1) (deq S.now x l (S.queues (.store 1)))).sched 2 S.now (some x.c)) := by
  obtain ⟨w0, hw0⟩ : ∃ w0, w0 = w.modC 2 (fun x => { x with failed := false }) := ⟨_, rfl⟩
  have s0 : Sim w0 S := hw0 ▸ h.clear
  obtain ⟨w1, e1, s1⟩ := s0.leave (c := x.c) (q := .store 1) hs rfl
  obtain ⟨w3, e3, s3⟩ := (s1.noted (c := 2) (v := some x.c)).wake (c := 2) (v := some x.c) h2.onList (by show (S.side 2).status ≠ _; rw [h2.status]; simp)
  refine ⟨w3, ?_, s3⟩
  unfold getOut fromStore
  rw [if_neg (by simp)]
  unfold preamble
  rw [if_pos (show w.status 2 = .current by unfold World.status; rw [(h.side 2).status]; exact h2.status), then_ok]
  simp only [failTime]
  rw [← hw0]
  have hse : searchStores w0 (fun _ => true) none [1] none (([1] : List StId).headD 0) = (some x.c, 1) := by
    unfold searchStores
    have : w0.inQ (.store 1) = x.c :: l.map (·.c) := by unfold World.inQ; rw [s0.queues, hs]; rfl
    simp only [this, search_first]
    rfl
  rw [hse]
  simp only
  have e6 : storeLeave (f + 1) x.c 1 w0 = .ok w1 := by
    unfold storeLeave
    rw [e1, then_ok]
    have hh : headQ w1 (.toReq 1) = none := by
      unfold headQ; rw [s1.queues, q_diff _ _ _ _ (by simp), ht]; rfl
    simp only [hh]
    split <;> rfl
  rw [e6, then_ok]
  exact e3

/-- an item is taken out, and the producer, that is waiting, puts one in -/
theorem get_unblock (h : Sim w S) (h2 : Runs (S.side 2)) {x z : QMem} {l : List QMem} (hc : (S.queues (.store 1)).cap = ((m : Rat) : ETime))
    (hl : (S.queues (.store 1)).len = m) (hs : (S.queues (.store 1)).mem = x :: l) (hp : ∀ v ∈ l, v.prio = 0 ∧ v.c ≠ y)
    (ht : (S.queues (.toReq 1)).mem = [z]) (hz : z.c = 1) (hf : (S.queues (.fromReq 1)).mem = [])
    (h1i : (S.side 1).item = some y) (h1p : (S.side 1).prio = 0) (h1t : (S.side 1).tos = [1]) (h1o : (S.side 1).onList = false) (h1s : (S.side 1).status ≠ .standby) :
    ∃ w', getOut (f + 2) w = .ok w' ∧
      Sim w' ((((((S.queue (.store 1) (deq S.now x l (S.queues (.store 1)))).queue (.store 1) (enq y S.now (deq S.now x l (S.queues (.store 1))))).queue
        (.toReq 1) (deq S.now z [] (S.queues (.toReq 1)))).upd 1 { S.side 1 with tos := [] }).sched 1 S.now none).upd 1
          { S.side 1 with tos := [], status := .scheduled, onList := true, item := none } |>.sched 2 S.now (some x.c)) := by
  obtain ⟨w0, hw0⟩ : ∃ w0, w0 = w.modC 2 (fun x => { x with failed := false }) := ⟨_, rfl⟩
  have s0 : Sim w0 S := hw0 ▸ h.clear
  obtain ⟨w1, e1, s1⟩ := s0.leave (c := x.c) (q := .store 1) hs rfl
  have hl1 : (deq S.now x l (S.queues (.store 1))).len < m := by
    have : l.length + 1 = m := by rw [← hl]; unfold Queue.len; rw [hs]; rfl
    show l.length < m; omega
  obtain ⟨w2, e2, s2⟩ := s1.enterRoom (c := y) (q := .store 1) (by rw [q_same]; exact fits (q := deq S.now x l (S.queues (.store 1))) hc hl1) (by rw [q_same]; exact hp)
  rw [q_same] at s2
  obtain ⟨w3, e3, s3⟩ := s2.leave (c := 1) (q := .toReq 1) (m := z) (l := []) (by rw [q_diff _ _ _ _ (by simp), q_diff _ _ _ _ (by simp)]; exact ht) hz
  rw [q_diff _ _ _ _ (by simp), q_diff _ _ _ _ (by simp)] at s3
  have hS3 := s3.side 1
  have s4 := s3.modC (c := 1) (f := fun x => { x with toStores := [] }) (s := { S.side 1 with tos := [] })
    ⟨hS3.requests, hS3.waits, hS3.claims, hS3.status, hS3.onList, hS3.froms, rfl, hS3.item, hS3.prio, hS3.fil⟩
  obtain ⟨w5, e5, s5⟩ := s4.wake (c := 1) (v := none) (by rw [s_same]; exact h1o) (by rw [s_same]; exact h1s)
  have hS5 := s5.side 1
  have s6 := s5.modC (c := 1) (f := fun x => { x with toItem := none }) (s := { S.side 1 with tos := [], status := .scheduled, onList := true, item := none })
    ⟨hS5.requests, hS5.waits, hS5.claims, hS5.status, hS5.onList, hS5.froms, hS5.tos, rfl, hS5.prio, hS5.fil⟩
  obtain ⟨w8, e8, s8⟩ := (s6.noted (c := 2) (v := some x.c)).wake (c := 2) (v := some x.c) h2.onList (by show (S.side 2).status ≠ _; rw [h2.status]; simp)
  refine ⟨w8, ?_, s8⟩
  unfold getOut fromStore
  rw [if_neg (by simp)]
  unfold preamble
  rw [if_pos (show w.status 2 = .current by unfold World.status; rw [(h.side 2).status]; exact h2.status), then_ok]
  simp only [failTime]
  rw [← hw0]
  have hse : searchStores w0 (fun _ => true) none [1] none (([1] : List StId).headD 0) = (some x.c, 1) := by
    unfold searchStores
    have : w0.inQ (.store 1) = x.c :: l.map (·.c) := by unfold World.inQ; rw [s0.queues, hs]; rfl
    simp only [this, search_first]
    rfl
  rw [hse]
  simp only
  have e6 : storeLeave (f + 2) x.c 1 w0 = .ok (w5.modC 1 (fun x => { x with toItem := none })) := by
    unfold storeLeave
    rw [e1, then_ok]
    have hh : headQ w1 (.toReq 1) = some z := by
      unfold headQ; rw [s1.queues, q_diff _ _ _ _ (by simp), ht]; rfl
    have hi : (w1.comps 1).toItem = some y := by rw [(s1.side 1).item]; exact h1i
    have hpr : (w1.comps 1).toPrio = 0 := by rw [(s1.side 1).prio]; exact h1p
    have hroom : ETime.subQ (w1.queues (.store 1)).cap (((w1.queues (.store 1)).len : Nat) : Rat) > ((0 : Rat) : ETime) := by
      rw [s1.queues, q_same]; exact (room_iff (q := deq S.now x l (S.queues (.store 1))) hc).mpr hl1
    simp only [hh, hz, hi, hpr]
    rw [if_pos hroom]
    have e7 : storeEnter (f + 1) y 1 (some 0) w1 = .ok w2 := by
      unfold storeEnter
      show (enterSortedQ y (.store 1) 0 w1 ⊳ _) = _
      rw [e2, then_ok]
      have : (w2.queues (.fromReq 1)).mem = [] := by rw [s2.queues, q_diff _ _ _ _ (by simp), q_diff _ _ _ _ (by simp)]; exact hf
      rw [this]; rfl
    rw [e7, then_ok]
    have hto : (w2.comps 1).toStores = [1] := by rw [(s2.side 1).tos]; exact h1t
    rw [hto]
    have : forR [1] (fun s0 => leaveQ 1 (.toReq s0)) w2 = .ok w3 := by
      show (leaveQ 1 (.toReq 1) w2 ⊳ fun w => R.ok w) = _
      rw [e3, then_ok]
    rw [this, then_ok, e5, then_ok]
  rw [e6, then_ok]
  exact e8

/-- there is nothing to take out -/
theorem get_wait (h : Sim w S) (h2 : Runs (S.side 2)) (hs : (S.queues (.store 1)).mem = [])
    (ht : (S.queues (.fromReq 1)).cap = ⊤) (hq : (S.queues (.fromReq 1)).mem = []) :
    ∃ w', getOut (f + 1) w = .ok w' ∧
      Sim w' ((S.queue (.fromReq 1) (enq 2 S.now (S.queues (.fromReq 1)))).upd 2 { S.side 2 with status := .requesting, fil := fun _ => true, froms := [1] }) := by
  obtain ⟨w0, hw0⟩ : ∃ w0, w0 = w.modC 2 (fun x => { x with failed := false }) := ⟨_, rfl⟩
  have s0 : Sim w0 S := hw0 ▸ h.clear
  obtain ⟨w1, hw1⟩ : ∃ w1, w1 = w0.modC 2 (fun x => { x with fromStores := [1] }) := ⟨_, rfl⟩
  have hS0 := s0.side 2
  have s1 : Sim w1 (S.upd 2 { S.side 2 with froms := [1] }) := hw1 ▸ s0.modC
    ⟨hS0.requests, hS0.waits, hS0.claims, hS0.status, hS0.onList, rfl, hS0.tos, hS0.item, hS0.prio, hS0.fil⟩
  obtain ⟨w2, e2, s2⟩ := s1.enter (c := 2) (q := .fromReq 1) ht (by show ∀ m ∈ (S.queues (.fromReq 1)).mem, _; rw [hq]; simp)
  have hS2 := s2.side 2
  have s3 := s2.modC (c := 2) (f := fun x => { x with status := .requesting, fromItem := none, fromFilter := fun _ => true })
    (s := { S.side 2 with status := .requesting, fil := fun _ => true, froms := [1] })
    ⟨hS2.requests, hS2.waits, hS2.claims, rfl, hS2.onList, hS2.froms, hS2.tos, hS2.item, hS2.prio, rfl⟩
  obtain ⟨w4, e4, s4⟩ := s3.passive (c := 2)
  refine ⟨w4, ?_, ?_⟩
  · unfold getOut fromStore
    rw [if_neg (by simp)]
    unfold preamble
    rw [if_pos (show w.status 2 = .current by unfold World.status; rw [(h.side 2).status]; exact h2.status), then_ok]
    simp only [failTime]
    rw [← hw0]
    have hse : searchStores w0 (fun _ => true) none [1] none (([1] : List StId).headD 0) = (none, 1) := by
      unfold searchStores
      have : w0.inQ (.store 1) = [] := by unfold World.inQ; rw [s0.queues, hs]; rfl
      simp only [this]
      rfl
    rw [hse]
    simp only
    rw [← hw1]
    have : forR [1] (fun s => enterSortedQ 2 (.fromReq s) 0) w1 = .ok w2 := by
      show (enterSortedQ 2 (.fromReq 1) 0 w1 ⊳ fun w => R.ok w) = _
      rw [e2, then_ok]
    rw [this, then_ok]
    exact e4
  · have : ((S.upd 2 { S.side 2 with froms := [1] }).queue (.fromReq 1) (enq 2 S.now (S.queues (.fromReq 1)))).upd 2
        { S.side 2 with status := .requesting, fil := fun _ => true, froms := [1] } =
        (S.queue (.fromReq 1) (enq 2 S.now (S.queues (.fromReq 1)))).upd 2 { S.side 2 with status := .requesting, fil := fun _ => true, froms := [1] } := by
      unfold Abs.upd Abs.queue
      simp only
      congr 1
      funext d
      split <;> rfl
    rw [← this]
    exact s4

end

/-! ## the program -/

/-- What the producer (component 1) and the consumer (component 2) do. The producer makes `n` items (the components 3, 4, …): each takes a time, and is put in the
store then. The consumer gets `n` items out of the store, and spends a time on each. -/
def job (p c : Nat → Rat) (n : Nat) (d : CId) (k : Nat) : List Op :=
  if k = 2 * n then [.terminate]
  else if d = 1 then
    if k % 2 = 0 then [.hold 1 (some ((p (k / 2) : Rat) : ETime)) none (0 : Rat) false false 0]
    else [.toStore 1 [1] (k / 2 + 3) 0 0 none none (0 : Rat) false false]
  else
    if k % 2 = 0 then [.fromStore 2 [1] (fun _ => true) none 0 none none (0 : Rat) false false]
    else [.hold 2 (some ((c (k / 2) : Rat) : ETime)) none (0 : Rat) false false 0]

/-- the main program: the store has a capacity; the producer and the consumer are made, and the simulation is run until there are no more events -/
def opening (m : Nat) : List Op :=
  [.storeSetCapacity 1 ((m : Rat) : ETime), .create 1 none (0 : Rat) (0 : Rat) false false false, .create 2 none (0 : Rat) (0 : Rat) false false false,
    .runStart none none ⊤ false false]

/-- when the item before has been put in the store -/
def before (put : Nat → Rat) : Nat → Rat
  | 0 => 0
  | i + 1 => put i

/-- when an item is ready -/
def ready (p put : Nat → Rat) (i : Nat) : Rat := before put i + p i

/-- when the consumer asks for an item: when it is done with the one before -/
def asks (c get : Nat → Rat) : Nat → Rat
  | 0 => 0
  | i + 1 => get i + c i

/-- The flow of items through a buffer with room for `m` of them: an item is put in when it is ready and, if there is no room, when the consumer gets the item that
is `m` items ahead of it; the consumer gets an item when it asks for it and, if it isn't there yet, when it is put in. -/
structure Flow (m : Nat) (p c put get : Nat → Rat) : Prop where
  putAt : ∀ i, put i = if m ≤ i then max (ready p put i) (get (i - m)) else ready p put i
  getAt : ∀ i, get i = max (asks c get i) (put i)

/-! ## the state of affairs -/

/-- the producer is about to begin with an item, is working on it, is waiting for room, has come to its end -/
inductive PSt | go | work | blocked | ended
deriving DecidableEq
/-- the consumer is about to ask for an item, is waiting for it, has got it, has come to its end -/
inductive CSt | ask | wait | got | ended
deriving DecidableEq

def ptime (p put : Nat → Rat) : PSt → Nat → Option Rat
  | .go, i => some (before put i)
  | .work, i => some (ready p put i)
  | _, _ => none
def ctime (c get : Nat → Rat) : CSt → Nat → Option Rat
  | .ask, j => some (asks c get j)
  | .got, j => some (before get j)
  | _, _ => none
def pturns (n : Nat) : PSt → Nat → Nat
  | .go, i => 2 * i
  | .work, i => 2 * i + 1
  | .blocked, i => 2 * i + 2
  | .ended, _ => 2 * n + 1
def cturns (n : Nat) : CSt → Nat → Nat
  | .ask, j => 2 * j
  | .wait, j => 2 * j + 1
  | .got, j => 2 * j - 1
  | .ended, _ => 2 * n + 1
def pmoment (p put : Nat → Rat) (k : Nat) : Rat := if k % 2 = 0 then before put (k / 2) else ready p put (k / 2)
def cmoment (c get : Nat → Rat) (k : Nat) : Rat := if k % 2 = 0 then asks c get (k / 2) else get (k / 2)
def evs (t : Option Rat) (c : CId) (q : Int) (v : Option CId) : List Ev := t.toList.map (fun t => ⟨t, (0 : Rat), q, c, v⟩)

def pok (m n : Nat) (p put : Nat → Rat) (now : Rat) (i j : Nat) : PSt → Prop
  | .go => True
  | .work => i < n
  | .blocked => i < n ∧ i = j + m ∧ ready p put i ≤ now
  | .ended => i = n
def cok (n : Nat) (c get : Nat → Rat) (now : Rat) (i j : Nat) : CSt → Prop
  | .ask => True
  | .wait => j < n ∧ i = j ∧ asks c get j ≤ now
  | .got => 1 ≤ j
  | .ended => j = n ∧ asks c get n ≤ now
def pside (s : Side) (i : Nat) : PSt → Prop
  | .blocked => s.item = some (i + 3) ∧ s.prio = 0 ∧ s.tos = [1] ∧ s.onList = false ∧ s.status ≠ .standby ∧ s.froms = []
  | _ => s.froms = [] ∧ s.tos = []
def cside (s : Side) : CSt → Prop
  | .wait => s.froms = [1] ∧ s.tos = [] ∧ s.fil = (fun _ => true) ∧ s.onList = false ∧ s.status ≠ .standby
  | _ => s.froms = [] ∧ s.tos = []

/-- `i` items have been put in the store, `j` of them have been taken out -/
structure Inv (m n : Nat) (p c put get : Nat → Rat) (x : Play) (S : Abs) (ps : PSt) (cs : CSt) (i j : Nat) : Prop where
  sim : Sim x.w S
  heap : Heapq.IsHeap Ev.lt S.events
  ev : ∃ q1 v1 q2 v2, S.events.Perm (evs (ptime p put ps i) 1 q1 v1 ++ evs (ctime c get cs j) 2 q2 v2)
  ji : j ≤ i
  im : i ≤ j + m
  ino : i ≤ n
  pok : pok m n p put S.now i j ps
  cok : cok n c get S.now i j cs
  pdue : ∀ t, ptime p put ps i = some t → S.now ≤ t
  cdue : ∀ t, ctime c get cs j = some t → S.now ≤ t
  pastp : ∀ k, k < i → put k ≤ S.now
  pastc : ∀ k, k < j → get k ≤ S.now
  pside : pside (S.side 1) i ps
  cside : cside (S.side 2) cs
  cap : (S.queues (.store 1)).cap = ((m : Rat) : ETime)
  mem : (S.queues (.store 1)).mem = (List.range' j (i - j)).map (fun k => ⟨k + 3, 0, put k⟩)
  stays : (S.queues (.store 1)).stays = (List.range j).map (fun k => get k - put k)
  tcap : (S.queues (.toReq 1)).cap = ⊤
  tmem : (S.queues (.toReq 1)).mem = if ps = .blocked then [⟨1, 0, ready p put i⟩] else []
  fcap : (S.queues (.fromReq 1)).cap = ⊤
  fmem : (S.queues (.fromReq 1)).mem = if cs = .wait then [⟨2, 0, asks c get j⟩] else []
  pturn : x.turns 1 = pturns n ps i
  cturn : x.turns 2 = cturns n cs j
  pmom : x.moments 1 = (List.range (x.turns 1)).map (pmoment p put)
  cmom : x.moments 2 = (List.range (x.turns 2)).map (cmoment c get)
  count : x.log.length = x.turns 1 + x.turns 2
  fin : ps = .ended → cs = .ended → S.now = asks c get n

/-- one turn: the component of the first event gets control and makes its calls -/
theorem turn_go {f : Nat} {pr : CId → Nat → List Op} {x : Play} {w1 w2 : World} {c : CId} (h1 : Verif.step x.w = .ok w1) (hc : w1.current = c)
    (h2 : forR (pr c (x.turns c)) (exec f) w1 = .ok w2) :
    Play.turn f pr x = some ⟨w2, fun d => if d = c then x.turns d + 1 else x.turns d, x.log ++ [(w1.now, c)]⟩ := by
  unfold Play.turn
  rw [h1]
  simp only [hc]
  rw [h2]

section
variable {m n : Nat} {p c put get : Nat → Rat} {x : Play} {ps : PSt} {cs : CSt} {i j : Nat}

/-- whose turn it is -/
theorem Inv.first (hI : Inv m n p c put get x S ps cs i j) (hne : ptime p put ps i ≠ none ∨ ctime c get cs j ≠ none) :
    ∃ e es, Heapq.heappop Ev.lt S.events = some (e, es) ∧ Heapq.IsHeap Ev.lt es ∧
      ((e.c = 1 ∧ ptime p put ps i = some e.t ∧ (∀ t, ctime c get cs j = some t → e.t ≤ t) ∧ ∃ q v, es.Perm (evs (ctime c get cs j) 2 q v)) ∨
       (e.c = 2 ∧ ctime c get cs j = some e.t ∧ (∀ t, ptime p put ps i = some t → e.t ≤ t) ∧ ∃ q v, es.Perm (evs (ptime p put ps i) 1 q v))) := by
  obtain ⟨q1, v1, q2, v2, hp⟩ := hI.ev
  have hsp := Heapq.heappop_spec (l := S.events) evLaw hI.heap
  rcases hpop : Heapq.heappop Ev.lt S.events with _ | ⟨e, es⟩
  · rw [hpop] at hsp
    exfalso
    have hnil : S.events = [] := hsp
    rw [hnil] at hp
    have := hp.length_eq
    rcases hne with h | h
    · cases h' : ptime p put ps i with
      | none => exact h h'
      | some t => rw [h'] at this; simp [evs] at this
    · cases h' : ctime c get cs j with
      | none => exact h h'
      | some t => rw [h'] at this; simp [evs] at this
  · rw [hpop] at hsp
    obtain ⟨hperm, hheap, hmin⟩ := hsp
    have hmin' : ∀ y ∈ S.events, e.t ≤ y.t := by
      intro y hy
      have := hmin y hy
      unfold Ev.lt at this
      simp only [Bool.or_eq_false_iff, decide_eq_false_iff_not] at this
      exact not_lt.mp this.1
    refine ⟨e, es, rfl, hheap, ?_⟩
    have he : e ∈ evs (ptime p put ps i) 1 q1 v1 ++ evs (ctime c get cs j) 2 q2 v2 := hp.subset (hperm.symm.subset (List.mem_cons_self ..))
    rcases List.mem_append.mp he with h | h
    · left
      cases h' : ptime p put ps i with
      | none => rw [h'] at h; simp [evs] at h
      | some t =>
        rw [h'] at h
        have he' : e = ⟨t, (0 : Rat), q1, 1, v1⟩ := by simpa [evs] using h
        refine ⟨by rw [he'], by rw [he'], fun u hu => ?_, q2, v2, ?_⟩
        · have := hmin' ⟨u, (0 : Rat), q2, 2, v2⟩ (hp.symm.subset (List.mem_append_right _ (by rw [hu]; simp [evs])))
          exact this
        · rw [h'] at hp
          have := hperm.symm.trans hp
          rw [he'] at this
          exact this.cons_inv
    · right
      cases h' : ctime c get cs j with
      | none => rw [h'] at h; simp [evs] at h
      | some t =>
        rw [h'] at h
        have he' : e = ⟨t, (0 : Rat), q2, 2, v2⟩ := by simpa [evs] using h
        refine ⟨by rw [he'], by rw [he'], fun u hu => ?_, q1, v1, ?_⟩
        · have := hmin' ⟨u, (0 : Rat), q1, 1, v1⟩ (hp.symm.subset (List.mem_append_left _ (by rw [hu]; simp [evs])))
          exact this
        · rw [h'] at hp
          have := (hperm.symm.trans hp).trans List.perm_append_comm
          rw [he'] at this
          exact this.cons_inv

/-- the state when a component gets control -/
def Abs.begin (S : Abs) (e : Ev) (es : List Ev) : Abs :=
  Abs.upd { S with now := e.t, events := es, current := e.c } e.c { S.side e.c with onList := false, status := .current }

theorem evs_push {es l : List Ev} {t : Rat} {q : Int} {c : CId} {v : Option CId} (h : es.Perm l) :
    (Heapq.heappush Ev.lt es ⟨t, (0 : Rat), q, c, v⟩).Perm (evs (some t) c q v ++ l) :=
  (Heapq.heappush_perm _ _).trans (h.cons _)

theorem evs_push' {es l : List Ev} {t : Rat} {q : Int} {c : CId} {v : Option CId} (h : es.Perm l) :
    (Heapq.heappush Ev.lt es ⟨t, (0 : Rat), q, c, v⟩).Perm (l ++ evs (some t) c q v) :=
  (evs_push h).trans List.perm_append_comm

theorem mom_next {g : Nat → Rat} {k : Nat} {l : List Rat} (h : l = (List.range k).map g) {t : Rat} (ht : t = g k) : l ++ [t] = (List.range (k + 1)).map g := by
  rw [List.range_succ, List.map_append, h, ht]; rfl

theorem pm_even (i : Nat) : pmoment p put (2 * i) = before put i := by
  unfold pmoment; rw [if_pos (by omega), show 2 * i / 2 = i by omega]
theorem pm_odd (i : Nat) : pmoment p put (2 * i + 1) = ready p put i := by
  unfold pmoment; rw [if_neg (by omega), show (2 * i + 1) / 2 = i by omega]
theorem cm_even (i : Nat) : cmoment c get (2 * i) = asks c get i := by
  unfold cmoment; rw [if_pos (by omega), show 2 * i / 2 = i by omega]
theorem cm_odd (i : Nat) : cmoment c get (2 * i + 1) = get i := by
  unfold cmoment; rw [if_neg (by omega), show (2 * i + 1) / 2 = i by omega]

theorem mono_now {a b : Rat} {k : Nat} {g : Nat → Rat} (h : ∀ i, i < k → g i ≤ a) (hab : a ≤ b) : ∀ i, i < k → g i ≤ b := fun i hi => (h i hi).trans hab

theorem pok_later {a b : Rat} (hab : a ≤ b) (h : pok m n p put a i j ps) : pok m n p put b i j ps := by
  cases ps with
  | blocked => exact ⟨h.1, h.2.1, h.2.2.trans hab⟩
  | _ => exact h

theorem cok_later {a b : Rat} (hab : a ≤ b) (h : cok n c get a i j cs) : cok n c get b i j cs := by
  cases cs with
  | wait => exact ⟨h.1, h.2.1, h.2.2.trans hab⟩
  | ended => exact ⟨h.1, h.2.trans hab⟩
  | _ => exact h

/-- what is left alone by a turn of the producer -/
theorem turn_log (x : Play) (w : World) (t : Rat) (c : CId) (hc : c = 1 ∨ c = 2) (h : x.log.length = x.turns 1 + x.turns 2) :
    (Play.mk w (fun d => if d = c then x.turns d + 1 else x.turns d) (x.log ++ [(t, c)])).log.length =
      (if 1 = c then x.turns 1 + 1 else x.turns 1) + (if 2 = c then x.turns 2 + 1 else x.turns 2) := by
  show (x.log ++ [_]).length = _
  rw [List.length_append, h]
  rcases hc with rfl | rfl <;> simp <;> omega

/-- the producer begins with an item -/
theorem step_work {f : Nat} (hI : Inv m n p c put get x S .go cs i j) (hp : ∀ k, 0 ≤ p k) (hi : i < n) {e : Ev} {es : List Ev} (hpop : Heapq.heappop Ev.lt S.events = some (e, es))
    (hh : Heapq.IsHeap Ev.lt es) (hc : e.c = 1) (ht : before put i = e.t) (hle : ∀ t, ctime c get cs j = some t → e.t ≤ t) {q : Int} {v : Option CId}
    (hes : es.Perm (evs (ctime c get cs j) 2 q v)) :
    ∃ x' S', Play.turn (f + 2) (job p c n) x = some x' ∧ Inv m n p c put get x' S' .work cs i j := by
  have hnow : S.now ≤ e.t := hI.pdue _ (by rw [← ht]; rfl)
  obtain ⟨w1, e1, s1⟩ := hI.sim.step hpop (by rw [hc]; simp) (by rw [hc]; exact hI.pside.1) (by rw [hc]; exact hI.pside.2)
  rw [hc] at s1
  have htu : x.turns 1 = 2 * i := hI.pturn
  obtain ⟨w2, e2, s2⟩ := s1.hold (c := 1) (t := p i) (f := f + 2) (by rw [s_same]) (hp i)
  have e3 : forR (job p c n 1 (x.turns 1)) (exec (f + 2)) w1 = .ok w2 := by
    rw [htu]; unfold job
    rw [if_neg (by omega), if_pos rfl, if_pos (by omega), show 2 * i / 2 = i by omega]
    show (exec _ _ w1 ⊳ fun w => R.ok w) = _
    rw [e2, then_ok]
  have hcur : w1.current = 1 := s1.current
  refine ⟨_, _, turn_go e1 hcur e3,
    { sim := s2, heap := Heapq.heappush_isHeap evLaw _ hh, ev := ⟨(S.seq + 1 : Nat), none, q, v, ?_⟩, ji := hI.ji, im := hI.im, ino := hI.ino, pok := hi, cok := cok_later hnow hI.cok
      pdue := ?_, cdue := hle, pastp := mono_now hI.pastp hnow, pastc := mono_now hI.pastc hnow, pside := hI.pside, cside := hI.cside
      cap := hI.cap, mem := hI.mem, stays := hI.stays, tcap := hI.tcap, tmem := hI.tmem, fcap := hI.fcap, fmem := hI.fmem, pturn := ?_, cturn := hI.cturn, pmom := ?_, cmom := ?_
      count := turn_log _ _ _ _ (.inl rfl) hI.count, fin := fun h => absurd h (by simp) }⟩
  · show List.Perm _ (evs (some (ready p put i)) 1 _ _ ++ _)
    have : ready p put i = e.t + p i := by unfold ready; rw [ht]
    rw [this]
    exact evs_push hes
  · rintro t ⟨⟩
    show e.t ≤ before put i + p i
    rw [ht]; exact le_add_of_nonneg_right (hp i)
  · show x.turns 1 + 1 = 2 * i + 1; rw [htu]
  · rw [moments_add, if_pos rfl]
    exact mom_next hI.pmom (by rw [htu, pm_even, s1.now]; exact ht.symm)
  · rw [moments_add, if_neg (by simp)]; exact hI.cmom

theorem before_le (hF : Flow m p c put get) (hc : ∀ k, 0 ≤ c k) (k : Nat) : before put k ≤ asks c get k := by
  cases k with
  | zero => exact le_rfl
  | succ k =>
    show put k ≤ get k + c k
    have : put k ≤ get k := by rw [hF.getAt k]; exact le_max_right _ _
    have := hc k
    linarith

/-- the producer comes to its end -/
theorem step_pend {f : Nat} (hI : Inv m n p c put get x S .go cs i j) (hF : Flow m p c put get) (hcn : ∀ k, 0 ≤ c k) (hi : i = n) {e : Ev} {es : List Ev}
    (hpop : Heapq.heappop Ev.lt S.events = some (e, es))
    (hh : Heapq.IsHeap Ev.lt es) (hc : e.c = 1) (ht : before put i = e.t) (hle : ∀ t, ctime c get cs j = some t → e.t ≤ t) {q : Int} {v : Option CId}
    (hes : es.Perm (evs (ctime c get cs j) 2 q v)) :
    ∃ x' S', Play.turn (f + 2) (job p c n) x = some x' ∧ Inv m n p c put get x' S' .ended cs i j := by
  have hnow : S.now ≤ e.t := hI.pdue _ (by rw [← ht]; rfl)
  obtain ⟨w1, e1, s1⟩ := hI.sim.step hpop (by rw [hc]; simp) (by rw [hc]; exact hI.pside.1) (by rw [hc]; exact hI.pside.2)
  rw [hc] at s1
  have htu : x.turns 1 = 2 * i := hI.pturn
  have hcur : w1.current = 1 := s1.current
  obtain ⟨w2, e2, s2⟩ := s1.terminate (c := 1) (f := f + 2)
  have e3 : forR (job p c n 1 (x.turns 1)) (exec (f + 2)) w1 = .ok w2 := by
    rw [htu]; unfold job
    rw [if_pos (by omega)]
    show (Verif.terminate _ w1.current w1 ⊳ fun w => R.ok w) = _
    rw [hcur, e2, then_ok]
  refine ⟨_, _, turn_go e1 hcur e3,
    { sim := s2, heap := hh, ev := ⟨0, none, q, v, hes⟩, ji := hI.ji, im := hI.im, ino := hI.ino, pok := hi, cok := cok_later hnow hI.cok
      pdue := fun t h => absurd h (by simp [ptime]), cdue := hle, pastp := mono_now hI.pastp hnow, pastc := mono_now hI.pastc hnow, pside := hI.pside, cside := hI.cside
      cap := hI.cap, mem := hI.mem, stays := hI.stays, tcap := hI.tcap, tmem := hI.tmem, fcap := hI.fcap, fmem := hI.fmem, pturn := ?_, cturn := hI.cturn, pmom := ?_, cmom := ?_
      count := turn_log _ _ _ _ (.inl rfl) hI.count, fin := ?_ }⟩
  · show x.turns 1 + 1 = 2 * n + 1; rw [htu, hi]
  · rw [moments_add, if_pos rfl]
    exact mom_next hI.pmom (by rw [htu, pm_even, s1.now]; exact ht.symm)
  · rw [moments_add, if_neg (by simp)]; exact hI.cmom
  · rintro - rfl
    show e.t = asks c get n
    apply le_antisymm
    · rw [← ht, hi]; exact before_le hF hcn n
    · exact hI.cok.2.trans hnow

theorem put_now (hF : Flow m p c put get) {t : Rat} (ht : ready p put i = t) (hlt : i < j + m) (hpast : ∀ k, k < j → get k ≤ t) : put i = t := by
  rw [hF.putAt i]
  split
  · rename_i h
    rw [ht]; exact max_eq_left (hpast _ (by omega))
  · exact ht

theorem mem_ne {l : List QMem} (h : l = (List.range' j (i - j)).map (fun k => ⟨k + 3, 0, put k⟩)) {k : Nat} (hk : i ≤ k) : ∀ z ∈ l, z.prio = 0 ∧ z.c ≠ k + 3 := by
  intro z hz
  rw [h] at hz
  obtain ⟨a, ha, rfl⟩ := List.mem_map.mp hz
  rw [List.mem_range'_1] at ha
  exact ⟨rfl, fun h => by have : a + 3 = k + 3 := h; omega⟩

/-- an item is put in the store -/
theorem step_put {f : Nat} (hI : Inv m n p c put get x S .work cs i j) (hF : Flow m p c put get) (hlt : i < j + m) (hcs : cs ≠ .wait) {e : Ev} {es : List Ev}
    (hpop : Heapq.heappop Ev.lt S.events = some (e, es))
    (hh : Heapq.IsHeap Ev.lt es) (hc : e.c = 1) (ht : ready p put i = e.t) (hle : ∀ t, ctime c get cs j = some t → e.t ≤ t) {q : Int} {v : Option CId}
    (hes : es.Perm (evs (ctime c get cs j) 2 q v)) :
    ∃ x' S', Play.turn (f + 2) (job p c n) x = some x' ∧ Inv m n p c put get x' S' .go cs (i + 1) j := by
  have hnow : S.now ≤ e.t := hI.pdue _ (by rw [← ht]; rfl)
  have hi : i < n := hI.pok
  have hji := hI.ji
  obtain ⟨w1, e1, s1⟩ := hI.sim.step hpop (by rw [hc]; simp) (by rw [hc]; exact hI.pside.1) (by rw [hc]; exact hI.pside.2)
  rw [hc] at s1
  have htu : x.turns 1 = 2 * i + 1 := hI.pturn
  have hput : put i = e.t := put_now hF ht hlt (mono_now hI.pastc hnow)
  have hlen : (S.queues (.store 1)).len = i - j := by unfold Queue.len; rw [hI.mem]; simp
  obtain ⟨w2, e2, s2⟩ := put_room (y := i + 3) (f := f + 1) s1 (by rw [s_same]; exact ⟨rfl, rfl, hI.pside.1, hI.pside.2⟩) hI.cap (by rw [← show m = m from rfl]; exact lt_of_eq_of_lt hlen (by omega))
    (mem_ne hI.mem le_rfl) (hI.fmem.trans (if_neg hcs))
  have e3 : forR (job p c n 1 (x.turns 1)) (exec (f + 2)) w1 = .ok w2 := by
    rw [htu]; unfold job
    rw [if_neg (by omega), if_pos rfl, if_neg (by omega), show (2 * i + 1) / 2 = i by omega]
    show (putIn (f + 2) (i + 3) w1 ⊳ fun w => R.ok w) = _
    rw [e2, then_ok]
  have hcur : w1.current = 1 := s1.current
  refine ⟨_, _, turn_go e1 hcur e3,
    { sim := s2, heap := Heapq.heappush_isHeap evLaw _ hh, ev := ⟨(S.seq + 1 : Nat), none, q, v, ?_⟩, ji := by omega, im := by omega, ino := hi, pok := trivial, cok := ?_
      pdue := ?_, cdue := hle, pastp := ?_, pastc := mono_now hI.pastc hnow, pside := ⟨hI.pside.1, rfl⟩, cside := hI.cside
      cap := hI.cap, mem := ?_, stays := hI.stays, tcap := hI.tcap, tmem := hI.tmem, fcap := hI.fcap, fmem := hI.fmem, pturn := ?_, cturn := hI.cturn, pmom := ?_, cmom := ?_
      count := turn_log _ _ _ _ (.inl rfl) hI.count, fin := fun h => absurd h (by simp) }⟩
  · show List.Perm _ (evs (some (put i)) 1 _ _ ++ _)
    rw [hput]
    exact evs_push hes
  · have := hI.cok
    cases cs with
    | wait => exact absurd rfl hcs
    | ask => trivial
    | got => exact this
    | ended => exact ⟨this.1, this.2.trans hnow⟩
  · rintro t ⟨⟩
    show e.t ≤ put i
    rw [hput]
  · intro k hk
    show put k ≤ e.t
    rcases Nat.lt_succ_iff_lt_or_eq.mp hk with h | h
    · exact mono_now hI.pastp hnow k h
    · rw [h, hput]
  · show (S.queues (.store 1)).mem ++ [⟨i + 3, 0, e.t⟩] = _
    rw [range_snoc hji, List.map_append, ← hI.mem, ← hput]; rfl
  · show x.turns 1 + 1 = 2 * (i + 1); rw [htu]; omega
  · rw [moments_add, if_pos rfl]
    exact mom_next hI.pmom (by rw [htu, pm_odd, s1.now]; exact ht.symm)
  · rw [moments_add, if_neg (by simp)]; exact hI.cmom

/-- an item is ready, and the store is full -/
theorem step_block {f : Nat} (hI : Inv m n p c put get x S .work cs i j) (hm : 0 < m) (heq : i = j + m) {e : Ev} {es : List Ev}
    (hpop : Heapq.heappop Ev.lt S.events = some (e, es))
    (hh : Heapq.IsHeap Ev.lt es) (hc : e.c = 1) (ht : ready p put i = e.t) (hle : ∀ t, ctime c get cs j = some t → e.t ≤ t) {q : Int} {v : Option CId}
    (hes : es.Perm (evs (ctime c get cs j) 2 q v)) :
    ∃ x' S', Play.turn (f + 2) (job p c n) x = some x' ∧ Inv m n p c put get x' S' .blocked cs i j := by
  have hnow : S.now ≤ e.t := hI.pdue _ (by rw [← ht]; rfl)
  have hi : i < n := hI.pok
  have hji := hI.ji
  obtain ⟨w1, e1, s1⟩ := hI.sim.step hpop (by rw [hc]; simp) (by rw [hc]; exact hI.pside.1) (by rw [hc]; exact hI.pside.2)
  rw [hc] at s1
  have htu : x.turns 1 = 2 * i + 1 := hI.pturn
  have hlen : (S.queues (.store 1)).len = i - j := by unfold Queue.len; rw [hI.mem]; simp
  obtain ⟨w2, e2, s2⟩ := put_full (y := i + 3) (f := f + 1) s1 (by rw [s_same]; exact ⟨rfl, rfl, hI.pside.1, hI.pside.2⟩) hI.cap (hlen.trans (by omega)) hI.tcap (hI.tmem.trans (if_neg (by simp)))
  have e3 : forR (job p c n 1 (x.turns 1)) (exec (f + 2)) w1 = .ok w2 := by
    rw [htu]; unfold job
    rw [if_neg (by omega), if_pos rfl, if_neg (by omega), show (2 * i + 1) / 2 = i by omega]
    show (putIn (f + 2) (i + 3) w1 ⊳ fun w => R.ok w) = _
    rw [e2, then_ok]
  have hcur : w1.current = 1 := s1.current
  refine ⟨_, _, turn_go e1 hcur e3,
    { sim := s2, heap := hh, ev := ⟨0, none, q, v, hes⟩, ji := hji, im := hI.im, ino := hI.ino, pok := ⟨hi, heq, ht.le⟩, cok := cok_later hnow hI.cok
      pdue := fun t h => absurd h (by simp [ptime]), cdue := hle, pastp := mono_now hI.pastp hnow, pastc := mono_now hI.pastc hnow, pside := ⟨rfl, rfl, rfl, rfl, by show Status.requesting ≠ _; simp, hI.pside.1⟩
      cside := hI.cside
      cap := hI.cap, mem := hI.mem, stays := hI.stays, tcap := hI.tcap, tmem := ?_, fcap := hI.fcap, fmem := hI.fmem, pturn := ?_, cturn := hI.cturn, pmom := ?_, cmom := ?_
      count := turn_log _ _ _ _ (.inl rfl) hI.count, fin := fun h => absurd h (by simp) }⟩
  · show (S.queues (.toReq 1)).mem ++ [⟨1, 0, e.t⟩] = _
    rw [hI.tmem, ← ht]; rfl
  · show x.turns 1 + 1 = 2 * i + 2; rw [htu]
  · rw [moments_add, if_pos rfl]
    exact mom_next hI.pmom (by rw [htu, pm_odd, s1.now]; exact ht.symm)
  · rw [moments_add, if_neg (by simp)]; exact hI.cmom

/-- an item goes to the consumer, that was waiting for it -/
theorem step_pass {f : Nat} (hI : Inv m n p c put get x S .work .wait i j) (hF : Flow m p c put get) (hm : 0 < m) {e : Ev} {es : List Ev}
    (hpop : Heapq.heappop Ev.lt S.events = some (e, es))
    (hh : Heapq.IsHeap Ev.lt es) (hc : e.c = 1) (ht : ready p put i = e.t) (hes : es = []) :
    ∃ x' S', Play.turn (f + 2) (job p c n) x = some x' ∧ Inv m n p c put get x' S' .go .got (i + 1) (j + 1) := by
  have hnow : S.now ≤ e.t := hI.pdue _ (by rw [← ht]; rfl)
  have hi : i < n := hI.pok
  obtain ⟨hjn, hij, hask⟩ := hI.cok
  subst hij
  obtain ⟨w1, e1, s1⟩ := hI.sim.step hpop (by rw [hc]; simp) (by rw [hc]; exact hI.pside.1) (by rw [hc]; exact hI.pside.2)
  rw [hc] at s1
  have htu : x.turns 1 = 2 * i + 1 := hI.pturn
  have htu2 : x.turns 2 = 2 * i + 1 := hI.cturn
  have hput : put i = e.t := put_now (j := i) hF ht (by omega) (mono_now hI.pastc hnow)
  have hget : get i = e.t := by rw [hF.getAt i, hput]; exact max_eq_right (hask.trans hnow)
  have hmem : (S.queues (.store 1)).mem = [] := by rw [hI.mem]; simp
  obtain ⟨hf1, -, hf3, hf4, hf5⟩ := hI.cside
  obtain ⟨w2, e2, s2⟩ := put_pass (y := i + 3) (f := f) (x := ⟨2, 0, asks c get i⟩) s1 (by rw [s_same]; exact ⟨rfl, rfl, hI.pside.1, hI.pside.2⟩) hI.cap hm hmem (hI.tmem.trans (if_neg (by simp)))
    (hI.fmem.trans (if_pos rfl)) rfl hf1 hf3 hf4 hf5
  have e3 : forR (job p c n 1 (x.turns 1)) (exec (f + 2)) w1 = .ok w2 := by
    rw [htu]; unfold job
    rw [if_neg (by omega), if_pos rfl, if_neg (by omega), show (2 * i + 1) / 2 = i by omega]
    show (putIn (f + 2) (i + 3) w1 ⊳ fun w => R.ok w) = _
    rw [e2, then_ok]
  have hcur : w1.current = 1 := s1.current
  refine ⟨_, _, turn_go e1 hcur e3,
    { sim := s2, heap := Heapq.heappush_isHeap evLaw _ (Heapq.heappush_isHeap evLaw _ hh), ev := ⟨(S.seq + 1 + 1 : Nat), none, (S.seq + 1 : Nat), some (i + 3), ?_⟩, ji := le_rfl, im := by omega, ino := hi
      pok := trivial, cok := Nat.succ_pos _
      pdue := ?_, cdue := ?_, pastp := ?_, pastc := ?_, pside := ⟨hI.pside.1, rfl⟩, cside := ⟨rfl, hI.cside.2.1⟩
      cap := hI.cap, mem := ?_, stays := ?_, tcap := hI.tcap, tmem := hI.tmem, fcap := hI.fcap, fmem := rfl, pturn := ?_, cturn := ?_, pmom := ?_, cmom := ?_
      count := turn_log _ _ _ _ (.inl rfl) hI.count, fin := fun h => absurd h (by simp) }⟩
  · show List.Perm _ (evs (some (put i)) 1 _ _ ++ evs (some (get i)) 2 _ _)
    rw [hput, hget]
    refine evs_push ?_
    rw [hes]
    exact evs_push (List.Perm.refl [])
  · rintro t ⟨⟩
    show e.t ≤ put i
    rw [hput]
  · rintro t ⟨⟩
    show e.t ≤ get i
    rw [hget]
  · intro k hk
    show put k ≤ e.t
    rcases Nat.lt_succ_iff_lt_or_eq.mp hk with h | h
    · exact mono_now hI.pastp hnow k h
    · rw [h, hput]
  · intro k hk
    show get k ≤ e.t
    rcases Nat.lt_succ_iff_lt_or_eq.mp hk with h | h
    · exact mono_now hI.pastc hnow k h
    · rw [h, hget]
  · simp only [Nat.sub_self]; rfl
  · show (S.queues (.store 1)).stays ++ [e.t - e.t] = _
    rw [List.range_succ, List.map_append, ← hI.stays, List.map_singleton, hput, hget]
  · show x.turns 1 + 1 = 2 * (i + 1); rw [htu]; omega
  · show x.turns 2 = 2 * (i + 1) - 1; rw [htu2]; omega
  · rw [moments_add, if_pos rfl]
    exact mom_next hI.pmom (by rw [htu, pm_odd, s1.now]; exact ht.symm)
  · rw [moments_add, if_neg (by simp)]; exact hI.cmom

/-- the consumer begins with an item -/
theorem step_use {f : Nat} (hI : Inv m n p c put get x S ps .got i j) (hcn : ∀ k, 0 ≤ c k) {e : Ev} {es : List Ev}
    (hpop : Heapq.heappop Ev.lt S.events = some (e, es))
    (hh : Heapq.IsHeap Ev.lt es) (hc : e.c = 2) (ht : before get j = e.t) (hle : ∀ t, ptime p put ps i = some t → e.t ≤ t) {q : Int} {v : Option CId}
    (hes : es.Perm (evs (ptime p put ps i) 1 q v)) :
    ∃ x' S', Play.turn (f + 2) (job p c n) x = some x' ∧ Inv m n p c put get x' S' ps .ask i j := by
  have hnow : S.now ≤ e.t := hI.cdue _ (by rw [← ht]; rfl)
  have hj : 1 ≤ j := hI.cok
  obtain ⟨k, rfl⟩ : ∃ k, j = k + 1 := ⟨j - 1, by omega⟩
  have hji := hI.ji
  have hin := hI.ino
  have hget : get k = e.t := ht
  obtain ⟨w1, e1, s1⟩ := hI.sim.step hpop (by rw [hc]; simp) (by rw [hc]; exact hI.cside.1) (by rw [hc]; exact hI.cside.2)
  rw [hc] at s1
  have htu : x.turns 2 = 2 * (k + 1) - 1 := hI.cturn
  have htu' : x.turns 2 = 2 * k + 1 := by omega
  obtain ⟨w2, e2, s2⟩ := s1.hold (c := 2) (t := c k) (f := f + 2) (by rw [s_same]) (hcn k)
  have e3 : forR (job p c n 2 (x.turns 2)) (exec (f + 2)) w1 = .ok w2 := by
    rw [htu']; unfold job
    rw [if_neg (by omega), if_neg (by simp), if_neg (by omega), show (2 * k + 1) / 2 = k by omega]
    show (exec _ _ w1 ⊳ fun w => R.ok w) = _
    rw [e2, then_ok]
  have hcur : w1.current = 2 := s1.current
  refine ⟨_, _, turn_go e1 hcur e3,
    { sim := s2, heap := Heapq.heappush_isHeap evLaw _ hh, ev := ⟨q, v, (S.seq + 1 : Nat), none, ?_⟩, ji := hI.ji, im := hI.im, ino := hI.ino, pok := pok_later hnow hI.pok, cok := trivial
      pdue := hle, cdue := ?_, pastp := mono_now hI.pastp hnow, pastc := mono_now hI.pastc hnow, pside := hI.pside, cside := hI.cside
      cap := hI.cap, mem := hI.mem, stays := hI.stays, tcap := hI.tcap, tmem := hI.tmem, fcap := hI.fcap, fmem := hI.fmem, pturn := hI.pturn, cturn := ?_, pmom := ?_, cmom := ?_
      count := turn_log _ _ _ _ (.inr rfl) hI.count, fin := fun _ h => absurd h (by simp) }⟩
  · show List.Perm _ (_ ++ evs (some (get k + c k)) 2 _ _)
    rw [hget]
    exact evs_push' hes
  · rintro t ⟨⟩
    show e.t ≤ get k + c k
    rw [hget]; exact le_add_of_nonneg_right (hcn k)
  · show x.turns 2 + 1 = 2 * (k + 1); rw [htu']; omega
  · rw [moments_add, if_neg (by simp)]; exact hI.pmom
  · rw [moments_add, if_pos rfl]
    exact mom_next hI.cmom (by rw [htu', cm_odd, s1.now]; exact hget.symm)

/-- the consumer comes to its end -/
theorem step_cend {f : Nat} (hI : Inv m n p c put get x S ps .ask i j) (hj : j = n) {e : Ev} {es : List Ev}
    (hpop : Heapq.heappop Ev.lt S.events = some (e, es))
    (hh : Heapq.IsHeap Ev.lt es) (hc : e.c = 2) (ht : asks c get j = e.t) (hle : ∀ t, ptime p put ps i = some t → e.t ≤ t) {q : Int} {v : Option CId}
    (hes : es.Perm (evs (ptime p put ps i) 1 q v)) :
    ∃ x' S', Play.turn (f + 2) (job p c n) x = some x' ∧ Inv m n p c put get x' S' ps .ended i j := by
  have hnow : S.now ≤ e.t := hI.cdue _ (by rw [← ht]; rfl)
  obtain ⟨w1, e1, s1⟩ := hI.sim.step hpop (by rw [hc]; simp) (by rw [hc]; exact hI.cside.1) (by rw [hc]; exact hI.cside.2)
  rw [hc] at s1
  have htu : x.turns 2 = 2 * j := hI.cturn
  have hcur : w1.current = 2 := s1.current
  obtain ⟨w2, e2, s2⟩ := s1.terminate (c := 2) (f := f + 2)
  have e3 : forR (job p c n 2 (x.turns 2)) (exec (f + 2)) w1 = .ok w2 := by
    rw [htu]; unfold job
    rw [if_pos (by omega)]
    show (Verif.terminate _ w1.current w1 ⊳ fun w => R.ok w) = _
    rw [hcur, e2, then_ok]
  have hes' : es.Perm (evs (ptime p put ps i) 1 q v ++ evs (ctime c get .ended j) 2 0 none) := by
    show es.Perm (_ ++ [])
    rw [List.append_nil]; exact hes
  refine ⟨_, _, turn_go e1 hcur e3,
    { sim := s2, heap := hh, ev := ⟨q, v, 0, none, hes'⟩, ji := hI.ji, im := hI.im, ino := hI.ino, pok := pok_later hnow hI.pok, cok := ⟨hj, by rw [← hj]; exact ht.le⟩
      pdue := hle, cdue := fun t h => absurd h (by simp [ctime]), pastp := mono_now hI.pastp hnow, pastc := mono_now hI.pastc hnow, pside := hI.pside, cside := hI.cside
      cap := hI.cap, mem := hI.mem, stays := hI.stays, tcap := hI.tcap, tmem := hI.tmem, fcap := hI.fcap, fmem := hI.fmem, pturn := hI.pturn, cturn := ?_, pmom := ?_, cmom := ?_
      count := turn_log _ _ _ _ (.inr rfl) hI.count, fin := fun _ _ => by show e.t = _; rw [← hj]; exact ht.symm }⟩
  · show x.turns 2 + 1 = 2 * n + 1; rw [htu, hj]
  · rw [moments_add, if_neg (by simp)]; exact hI.pmom
  · rw [moments_add, if_pos rfl]
    exact mom_next hI.cmom (by rw [htu, cm_even, s1.now]; exact ht.symm)

/-- the consumer asks for an item that isn't there -/
theorem step_wait {f : Nat} (hI : Inv m n p c put get x S ps .ask i j) (hm : 0 < m) (hj : j < n) (hij : i = j) {e : Ev} {es : List Ev}
    (hpop : Heapq.heappop Ev.lt S.events = some (e, es))
    (hh : Heapq.IsHeap Ev.lt es) (hc : e.c = 2) (ht : asks c get j = e.t) (hle : ∀ t, ptime p put ps i = some t → e.t ≤ t) {q : Int} {v : Option CId}
    (hes : es.Perm (evs (ptime p put ps i) 1 q v)) :
    ∃ x' S', Play.turn (f + 2) (job p c n) x = some x' ∧ Inv m n p c put get x' S' ps .wait i j := by
  have hnow : S.now ≤ e.t := hI.cdue _ (by rw [← ht]; rfl)
  obtain ⟨w1, e1, s1⟩ := hI.sim.step hpop (by rw [hc]; simp) (by rw [hc]; exact hI.cside.1) (by rw [hc]; exact hI.cside.2)
  rw [hc] at s1
  have htu : x.turns 2 = 2 * j := hI.cturn
  have hcur : w1.current = 2 := s1.current
  have hmem : (S.queues (.store 1)).mem = [] := by rw [hI.mem, hij]; simp
  obtain ⟨w2, e2, s2⟩ := get_wait (f := f + 1) s1 (by rw [s_same]; exact ⟨rfl, rfl, hI.cside.1, hI.cside.2⟩) hmem hI.fcap (hI.fmem.trans (if_neg (by simp)))
  have e3 : forR (job p c n 2 (x.turns 2)) (exec (f + 2)) w1 = .ok w2 := by
    rw [htu]; unfold job
    rw [if_neg (by omega), if_neg (by simp), if_pos (by omega)]
    show (getOut (f + 2) w1 ⊳ fun w => R.ok w) = _
    rw [e2, then_ok]
  have hes' : es.Perm (evs (ptime p put ps i) 1 q v ++ evs (ctime c get .wait j) 2 0 none) := by
    show es.Perm (_ ++ [])
    rw [List.append_nil]; exact hes
  refine ⟨_, _, turn_go e1 hcur e3,
    { sim := s2, heap := hh, ev := ⟨q, v, 0, none, hes'⟩, ji := hI.ji, im := hI.im, ino := hI.ino, pok := pok_later hnow hI.pok, cok := ⟨hj, hij, ht.le⟩
      pdue := hle, cdue := fun t h => absurd h (by simp [ctime]), pastp := mono_now hI.pastp hnow, pastc := mono_now hI.pastc hnow, pside := hI.pside
      cside := ⟨rfl, hI.cside.2, rfl, rfl, by show Status.requesting ≠ _; simp⟩
      cap := hI.cap, mem := hI.mem, stays := hI.stays, tcap := hI.tcap, tmem := hI.tmem, fcap := hI.fcap, fmem := ?_, pturn := hI.pturn, cturn := ?_, pmom := ?_, cmom := ?_
      count := turn_log _ _ _ _ (.inr rfl) hI.count, fin := fun _ h => absurd h (by simp) }⟩
  · show (S.queues (.fromReq 1)).mem ++ [⟨2, 0, e.t⟩] = _
    rw [hI.fmem, ← ht]; rfl
  · show x.turns 2 + 1 = 2 * j + 1; rw [htu]
  · rw [moments_add, if_neg (by simp)]; exact hI.pmom
  · rw [moments_add, if_pos rfl]
    exact mom_next hI.cmom (by rw [htu, cm_even, s1.now]; exact ht.symm)

theorem mem_head (h : j < i) : (List.range' j (i - j)).map (fun k => (⟨k + 3, 0, put k⟩ : QMem)) =
    ⟨j + 3, 0, put j⟩ :: (List.range' (j + 1) (i - (j + 1))).map (fun k => ⟨k + 3, 0, put k⟩) := by
  rw [range_cons h]; rfl

/-- the consumer gets an item, and the producer isn't waiting for room -/
theorem step_get {f : Nat} (hI : Inv m n p c put get x S ps .ask i j) (hF : Flow m p c put get) (hps : ps ≠ .blocked) (hij : j < i) {e : Ev} {es : List Ev}
    (hpop : Heapq.heappop Ev.lt S.events = some (e, es))
    (hh : Heapq.IsHeap Ev.lt es) (hc : e.c = 2) (ht : asks c get j = e.t) (hle : ∀ t, ptime p put ps i = some t → e.t ≤ t) {q : Int} {v : Option CId}
    (hes : es.Perm (evs (ptime p put ps i) 1 q v)) :
    ∃ x' S', Play.turn (f + 2) (job p c n) x = some x' ∧ Inv m n p c put get x' S' ps .got i (j + 1) := by
  have hnow : S.now ≤ e.t := hI.cdue _ (by rw [← ht]; rfl)
  have hin := hI.ino
  have him := hI.im
  obtain ⟨w1, e1, s1⟩ := hI.sim.step hpop (by rw [hc]; simp) (by rw [hc]; exact hI.cside.1) (by rw [hc]; exact hI.cside.2)
  rw [hc] at s1
  have htu : x.turns 2 = 2 * j := hI.cturn
  have hcur : w1.current = 2 := s1.current
  have hget : get j = e.t := by rw [hF.getAt j, ht]; exact max_eq_left ((hI.pastp j hij).trans hnow)
  obtain ⟨w2, e2, s2⟩ := get_take (f := f + 1) s1 (by rw [s_same]; exact ⟨rfl, rfl, hI.cside.1, hI.cside.2⟩) (hI.mem.trans (mem_head hij)) (hI.tmem.trans (if_neg hps))
  have e3 : forR (job p c n 2 (x.turns 2)) (exec (f + 2)) w1 = .ok w2 := by
    rw [htu]; unfold job
    rw [if_neg (by omega), if_neg (by simp), if_pos (by omega)]
    show (getOut (f + 2) w1 ⊳ fun w => R.ok w) = _
    rw [e2, then_ok]
  refine ⟨_, _, turn_go e1 hcur e3,
    { sim := s2, heap := Heapq.heappush_isHeap evLaw _ hh, ev := ⟨q, v, (S.seq + 1 : Nat), some (j + 3), ?_⟩, ji := hij, im := by omega, ino := hin, pok := ?_, cok := Nat.succ_pos _
      pdue := hle, cdue := ?_, pastp := mono_now hI.pastp hnow, pastc := ?_, pside := hI.pside, cside := hI.cside
      cap := hI.cap, mem := rfl, stays := ?_, tcap := hI.tcap, tmem := hI.tmem, fcap := hI.fcap, fmem := hI.fmem, pturn := hI.pturn, cturn := ?_, pmom := ?_, cmom := ?_
      count := turn_log _ _ _ _ (.inr rfl) hI.count, fin := fun _ h => absurd h (by simp) }⟩
  · show List.Perm _ (_ ++ evs (some (get j)) 2 _ _)
    rw [hget]
    exact evs_push' hes
  · have := hI.pok
    cases ps with
    | blocked => exact absurd rfl hps
    | go => trivial
    | work => exact this
    | ended => exact this
  · rintro t ⟨⟩
    show e.t ≤ get j
    rw [hget]
  · intro k hk
    show get k ≤ e.t
    rcases Nat.lt_succ_iff_lt_or_eq.mp hk with h | h
    · exact mono_now hI.pastc hnow k h
    · rw [h, hget]
  · show (S.queues (.store 1)).stays ++ [e.t - put j] = _
    rw [List.range_succ, List.map_append, ← hI.stays, List.map_singleton, hget]
  · show x.turns 2 + 1 = 2 * (j + 1) - 1; rw [htu]; omega
  · rw [moments_add, if_neg (by simp)]; exact hI.pmom
  · rw [moments_add, if_pos rfl]
    exact mom_next hI.cmom (by rw [htu, cm_even, s1.now]; exact ht.symm)

/-- the consumer gets an item, and makes room for the next one of the producer -/
theorem step_room {f : Nat} (hI : Inv m n p c put get x S .blocked .ask i j) (hF : Flow m p c put get) (hm : 0 < m) {e : Ev} {es : List Ev}
    (hpop : Heapq.heappop Ev.lt S.events = some (e, es))
    (hh : Heapq.IsHeap Ev.lt es) (hc : e.c = 2) (ht : asks c get j = e.t) (hes : es = []) :
    ∃ x' S', Play.turn (f + 2) (job p c n) x = some x' ∧ Inv m n p c put get x' S' .go .got (i + 1) (j + 1) := by
  have hnow : S.now ≤ e.t := hI.cdue _ (by rw [← ht]; rfl)
  obtain ⟨hin, him, hrd⟩ := hI.pok
  have hij : j < i := by omega
  obtain ⟨w1, e1, s1⟩ := hI.sim.step hpop (by rw [hc]; simp) (by rw [hc]; exact hI.cside.1) (by rw [hc]; exact hI.cside.2)
  rw [hc] at s1
  have htu : x.turns 2 = 2 * j := hI.cturn
  have htu1 : x.turns 1 = 2 * i + 2 := hI.pturn
  have hcur : w1.current = 2 := s1.current
  have hget : get j = e.t := by rw [hF.getAt j, ht]; exact max_eq_left ((hI.pastp j hij).trans hnow)
  have hput : put i = e.t := by
    rw [hF.putAt i, if_pos (by omega), show i - m = j by omega, hget]; exact max_eq_right (hrd.trans hnow)
  have hlen : (S.queues (.store 1)).len = i - j := by unfold Queue.len; rw [hI.mem]; simp
  obtain ⟨g1, g2, g3, g4, g5, g6⟩ := hI.pside
  obtain ⟨w2, e2, s2⟩ := get_unblock (f := f) (y := i + 3) s1 (by rw [s_same]; exact ⟨rfl, rfl, hI.cside.1, hI.cside.2⟩) hI.cap (hlen.trans (by omega)) (hI.mem.trans (mem_head hij))
    (fun z hz => mem_ne (i := i) rfl le_rfl z hz) (hI.tmem.trans (if_pos rfl)) rfl (hI.fmem.trans (if_neg (by simp))) g1 g2 g3 g4 g5
  have e3 : forR (job p c n 2 (x.turns 2)) (exec (f + 2)) w1 = .ok w2 := by
    rw [htu]; unfold job
    rw [if_neg (by omega), if_neg (by simp), if_pos (by omega)]
    show (getOut (f + 2) w1 ⊳ fun w => R.ok w) = _
    rw [e2, then_ok]
  refine ⟨_, _, turn_go e1 hcur e3,
    { sim := s2, heap := Heapq.heappush_isHeap evLaw _ (Heapq.heappush_isHeap evLaw _ hh), ev := ⟨(S.seq + 1 : Nat), none, (S.seq + 1 + 1 : Nat), some (j + 3), ?_⟩, ji := by omega, im := by omega, ino := hin
      pok := trivial, cok := Nat.succ_pos _
      pdue := ?_, cdue := ?_, pastp := ?_, pastc := ?_, pside := ⟨g6, rfl⟩, cside := hI.cside
      cap := hI.cap, mem := ?_, stays := ?_, tcap := hI.tcap, tmem := rfl, fcap := hI.fcap, fmem := hI.fmem, pturn := ?_, cturn := ?_, pmom := ?_, cmom := ?_
      count := turn_log _ _ _ _ (.inr rfl) hI.count, fin := fun _ h => absurd h (by simp) }⟩
  · show List.Perm _ (evs (some (put i)) 1 _ _ ++ evs (some (get j)) 2 _ _)
    rw [hput, hget]
    refine evs_push' ?_
    rw [hes]
    exact evs_push (List.Perm.refl [])
  · rintro t ⟨⟩
    show e.t ≤ put i
    rw [hput]
  · rintro t ⟨⟩
    show e.t ≤ get j
    rw [hget]
  · intro k hk
    show put k ≤ e.t
    rcases Nat.lt_succ_iff_lt_or_eq.mp hk with h | h
    · exact mono_now hI.pastp hnow k h
    · rw [h, hput]
  · intro k hk
    show get k ≤ e.t
    rcases Nat.lt_succ_iff_lt_or_eq.mp hk with h | h
    · exact mono_now hI.pastc hnow k h
    · rw [h, hget]
  · show (List.range' (j + 1) (i - (j + 1))).map (fun k => (⟨k + 3, 0, put k⟩ : QMem)) ++ [⟨i + 3, 0, e.t⟩] = _
    rw [range_snoc (by omega), List.map_append, ← hput]; rfl
  · show (S.queues (.store 1)).stays ++ [e.t - put j] = _
    rw [List.range_succ, List.map_append, ← hI.stays, List.map_singleton, hget]
  · show x.turns 1 = 2 * (i + 1); rw [htu1]; omega
  · show x.turns 2 + 1 = 2 * (j + 1) - 1; rw [htu]; omega
  · rw [moments_add, if_neg (by simp)]; exact hI.pmom
  · rw [moments_add, if_pos rfl]
    exact mom_next hI.cmom (by rw [htu, cm_even, s1.now]; exact ht.symm)

/-- there is always a next turn, until both have come to their end -/
theorem next_turn {f : Nat} (hI : Inv m n p c put get x S ps cs i j) (hF : Flow m p c put get) (hm : 0 < m) (hp : ∀ k, 0 ≤ p k) (hc : ∀ k, 0 ≤ c k)
    (hlt : x.log.length < 4 * n + 2) :
    ∃ x' S' ps' cs' i' j', Play.turn (f + 2) (job p c n) x = some x' ∧ Inv m n p c put get x' S' ps' cs' i' j' ∧ x'.log.length = x.log.length + 1 := by
  have hlog : ∀ {x'}, Play.turn (f + 2) (job p c n) x = some x' → x'.log.length = x.log.length + 1 := by
    intro x' h
    unfold Play.turn at h
    split at h
    · cases h
    · split at h
      · cases h
      · cases h; simp
  have wrap : ∀ {ps' cs' i' j'}, (∃ x' S', Play.turn (f + 2) (job p c n) x = some x' ∧ Inv m n p c put get x' S' ps' cs' i' j') →
      ∃ x' S' ps' cs' i' j', Play.turn (f + 2) (job p c n) x = some x' ∧ Inv m n p c put get x' S' ps' cs' i' j' ∧ x'.log.length = x.log.length + 1 :=
    fun ⟨x', S', e, h⟩ => ⟨x', S', _, _, _, _, e, h, hlog e⟩
  have hji := hI.ji; have him := hI.im; have hin := hI.ino
  have hcount := hI.count
  have hpt := hI.pturn
  have hct := hI.cturn
  have hpk := hI.pok
  have hck := hI.cok
  have hne : ptime p put ps i ≠ none ∨ ctime c get cs j ≠ none := by
    cases ps with
    | go => left; simp [ptime]
    | work => left; simp [ptime]
    | blocked =>
      cases cs with
      | ask => right; simp [ctime]
      | got => right; simp [ctime]
      | wait => exfalso; have := hpk.2.1; have := hck.2.1; omega
      | ended => exfalso; have := hpk.1; have := hck.1; omega
    | ended =>
      cases cs with
      | ask => right; simp [ctime]
      | got => right; simp [ctime]
      | wait =>
        exfalso
        have h1 : i = n := hpk
        have := hck.1; have := hck.2.1; omega
      | ended =>
        exfalso
        have h1 : x.turns 1 = 2 * n + 1 := hpt
        have h2 : x.turns 2 = 2 * n + 1 := hct
        omega
  obtain ⟨e, es, hpop, hh, hcase⟩ := hI.first hne
  rcases hcase with ⟨h1, h2, h3, q, v, h4⟩ | ⟨h1, h2, h3, q, v, h4⟩
  · cases ps with
    | go =>
      have h2' : before put i = e.t := by simpa [ptime] using h2
      rcases Nat.lt_or_ge i n with h | h
      · exact wrap (step_work hI hp h hpop hh h1 h2' h3 h4)
      · exact wrap (step_pend hI hF hc (by omega) hpop hh h1 h2' h3 h4)
    | work =>
      have h2' : ready p put i = e.t := by simpa [ptime] using h2
      rcases Nat.lt_or_ge i (j + m) with h | h
      · by_cases hcs : cs = .wait
        · subst hcs
          exact wrap (step_pass hI hF hm hpop hh h1 h2' (by simpa [ctime, evs] using h4))
        · exact wrap (step_put hI hF h hcs hpop hh h1 h2' h3 h4)
      · exact wrap (step_block hI hm (by omega) hpop hh h1 h2' h3 h4)
    | blocked => exact absurd h2 (by simp [ptime])
    | ended => exact absurd h2 (by simp [ptime])
  · cases cs with
    | ask =>
      have h2' : asks c get j = e.t := by simpa [ctime] using h2
      by_cases hj : j = n
      · exact wrap (step_cend hI hj hpop hh h1 h2' h3 h4)
      · by_cases hps : ps = .blocked
        · subst hps
          exact wrap (step_room hI hF hm hpop hh h1 h2' (by simpa [ptime, evs] using h4))
        · rcases Nat.lt_or_ge j i with h | h
          · exact wrap (step_get hI hF hps h hpop hh h1 h2' h3 h4)
          · exact wrap (step_wait hI hm (by omega) (by omega) hpop hh h1 h2' h3 h4)
    | got =>
      have h2' : before get j = e.t := by simpa [ctime] using h2
      exact wrap (step_use hI hc hpop hh h1 h2' h3 h4)
    | wait => exact absurd h2 (by simp [ctime])
    | ended => exact absurd h2 (by simp [ctime])

theorem turns_run {f : Nat} (hI : Inv m n p c put get x S .go .ask 0 0) (h0 : x.log = []) (hF : Flow m p c put get) (hm : 0 < m) (hp : ∀ k, 0 ≤ p k) (hc : ∀ k, 0 ≤ c k) :
    ∀ k, k ≤ 4 * n + 2 → ∃ x' S' ps' cs' i' j', Play.run (f + 2) (job p c n) k x = some x' ∧ Inv m n p c put get x' S' ps' cs' i' j' ∧ x'.log.length = k
  | 0, _ => ⟨x, S, _, _, _, _, rfl, hI, by rw [h0]; rfl⟩
  | k + 1, hk => by
    obtain ⟨x1, S1, _, _, _, _, e1, h1, l1⟩ := turns_run (f := f) hI h0 hF hm hp hc k (by omega)
    obtain ⟨x2, S2, _, _, _, _, e2, h2, l2⟩ := next_turn (f := f) h1 hF hm hp hc (by omega)
    refine ⟨x2, S2, _, _, _, _, ?_, h2, by omega⟩
    show (Play.run (f + 2) (job p c n) k x).bind _ = _
    rw [e1]; exact e2

theorem Sim.create {d : CId} (h : Sim w S) (hd : (S.side d).status = .data) (ho : (S.side d).onList = false) :
    ∃ w', Verif.create d none (0 : Rat) (0 : Rat) false false false w = .ok w' ∧ Sim w' (S.sched d S.now none) := by
  obtain ⟨w1, hw1⟩ : ∃ w1, w1 = w.modC d (fun x => { x with skipStandby := false, hasProcess := true }) := ⟨_, rfl⟩
  have hc := h.side d
  have s1 : Sim w1 S := by
    have := h.modC (c := d) (f := fun x => { x with skipStandby := false, hasProcess := true }) (s := S.side d)
      ⟨hc.requests, hc.waits, hc.claims, hc.status, hc.onList, hc.froms, hc.tos, hc.item, hc.prio, hc.fil⟩
    have e : S.upd d (S.side d) = S := by
      unfold Abs.upd
      have : (fun e => if e = d then S.side d else S.side e) = S.side := by funext e; split <;> simp_all
      rw [this]
    rw [e] at this
    rw [hw1]; exact this
  obtain ⟨w2, e2, s2⟩ := s1.sched (c := d) (v := none) (le_refl S.now)
  refine ⟨w2, ?_, s2⟩
  unfold Verif.create
  rw [if_neg (by rw [hc.onList, ho]; unfold World.status; rw [hc.status, hd]; simp)]
  simp only
  rw [← e2, ← WithTop.coe_add, add_zero, h.now, hw1]
  congr 1
  unfold setStatus World.modC
  simp only [if_pos]
  congr 1
  funext e
  by_cases he : e = d <;> simp [he]

theorem Sim.running (h : Sim w S) : Sim { w with endOnEmpty := true } S := ⟨h.now, h.seq, h.events, h.current, h.side, h.queues, h.main, h.standby, h.pending⟩

def sideOf (x : Comp) : Side := ⟨x.status, x.onList, x.fromStores, x.toStores, x.toItem, x.toPrio, x.fromFilter⟩

theorem opened {f : Nat} (hm : 0 < m) : ∃ w S, forR (opening m) (exec f) World.init = .ok w ∧ Inv m n p c put get ⟨w, fun _ => 0, []⟩ S .go .ask 0 0 := by
  have s0 : Sim World.init ⟨0, 0, [], 0, fun d => sideOf (World.init.comps d), fun _ => {}⟩ := by
    refine ⟨rfl, rfl, rfl, rfl, fun d => ?_, rfl, rfl, rfl, rfl⟩
    show SideIs (if d = 0 then { status := .current } else {}) (sideOf (if d = 0 then { status := .current } else {}))
    split <;> exact ⟨rfl, rfl, rfl, rfl, rfl, rfl, rfl, rfl, rfl, rfl⟩
  obtain ⟨w1, hw1⟩ : ∃ w1, w1 = World.init.modQ (.store 1) (fun q => q.setCapacity ((m : Rat) : ETime)) := ⟨_, rfl⟩
  have s1 := s0.modQ (q := .store 1) (f := fun q => q.setCapacity ((m : Rat) : ETime))
  rw [← hw1] at s1
  obtain ⟨w2, e2, s2⟩ := s1.create (d := 1) rfl rfl
  obtain ⟨w3, e3, s3⟩ := s2.create (d := 2) rfl rfl
  obtain ⟨w4, hw4⟩ : ∃ w4 : World, w4 = { w3 with endOnEmpty := true } := ⟨_, rfl⟩
  have s4 := s3.running
  rw [← hw4] at s4
  have hS4 := s4.side 0
  have s5 := s4.modC (c := 0) (f := fun x => { x with status := .scheduled }) ⟨hS4.requests, hS4.waits, hS4.claims, (rfl : _ = (Side.mk .scheduled _ _ _ _ _ _).status), hS4.onList, hS4.froms, hS4.tos, hS4.item, hS4.prio, hS4.fil⟩
  obtain ⟨w6, e6, s6⟩ := s5.passive (c := 0)
  have e1 : exec f (.storeSetCapacity 1 ((m : Rat) : ETime)) World.init = .ok w1 := by
    simp only [exec]
    unfold storeSetCapacity
    simp only
    rw [← hw1, if_neg]
    show ¬ (((m : Rat) : ETime) ≥ ⊤)
    simp
  refine ⟨w6, _, ?_,
    { sim := s6, heap := ?_, ev := ⟨(1 : Nat), none, (2 : Nat), none, ?_⟩, ji := le_rfl, im := by omega, ino := Nat.zero_le _, pok := trivial, cok := trivial
      pdue := ?_, cdue := ?_, pastp := fun k hk => absurd hk (by simp), pastc := fun k hk => absurd hk (by simp), pside := ⟨rfl, rfl⟩, cside := ⟨rfl, rfl⟩
      cap := rfl, mem := rfl, stays := rfl, tcap := rfl, tmem := rfl, fcap := rfl, fmem := rfl, pturn := rfl, cturn := rfl, pmom := rfl, cmom := rfl, count := rfl
      fin := fun h => absurd h (by simp) }⟩
  · unfold opening
    show (exec f (.storeSetCapacity 1 ((m : Rat) : ETime)) World.init ⊳ _) = _
    rw [e1, then_ok]
    show (Verif.create 1 none (0 : Rat) (0 : Rat) false false false w1 ⊳ _) = _
    rw [e2, then_ok]
    show (Verif.create 2 none (0 : Rat) (0 : Rat) false false false w2 ⊳ _) = _
    rw [e3, then_ok]
    show (runStart none none ⊤ false false w3 ⊳ fun w => R.ok w) = _
    have : runStart none none ⊤ false false w3 = .ok w6 := by
      unfold runStart
      simp only
      rw [← hw4, s3.main, ← e6]
      unfold reschedule
      rw [if_neg (by simp), if_neg (by simp)]
      rfl
    rw [this, then_ok]
  · exact Heapq.heappush_isHeap evLaw _ (Heapq.heappush_isHeap evLaw _ (show Heapq.IsHeap Ev.lt [] from fun k hk => absurd hk (Nat.not_lt_zero k)))
  · exact evs_push' (evs_push (List.Perm.refl []))
  · rintro t ⟨⟩; exact le_rfl
  · rintro t ⟨⟩; exact le_rfl

theorem plist (n : Nat) : (List.range (2 * n + 1)).map (pmoment p put) = 0 :: (List.range n).flatMap (fun i => [ready p put i, put i]) := by
  induction n with
  | zero => rfl
  | succ n ih =>
    rw [show 2 * (n + 1) + 1 = 2 * n + 1 + 1 + 1 by omega, List.range_succ, List.map_append, List.range_succ, List.map_append, ih, List.range_succ, List.flatMap_append]
    simp only [List.map_singleton, pm_odd, List.flatMap_singleton, List.cons_append, List.append_assoc]
    rw [show 2 * n + 1 + 1 = 2 * (n + 1) by omega, pm_even]
    rfl

theorem clist (n : Nat) : (List.range (2 * n + 1)).map (cmoment c get) = (List.range n).flatMap (fun i => [asks c get i, get i]) ++ [asks c get n] := by
  induction n with
  | zero => rfl
  | succ n ih =>
    rw [show 2 * (n + 1) + 1 = 2 * n + 1 + 1 + 1 by omega, List.range_succ, List.map_append, List.range_succ, List.map_append, ih, List.range_succ, List.flatMap_append]
    simp only [List.map_singleton, cm_odd, List.flatMap_singleton, List.append_assoc]
    rw [show 2 * n + 1 + 1 = 2 * (n + 1) by omega, cm_even]
    rfl

end

/-- the flow of items, one after the other -/
def flow (m : Nat) (p c : Nat → Rat) (i : Nat) : Rat × Rat :=
  let r := (if i = 0 then 0 else (flow m p c (i - 1)).1) + p i
  let q := if i = 0 then 0 else (flow m p c (i - 1)).2 + c (i - 1)
  let u := if 0 < m ∧ m ≤ i then max r (flow m p c (i - m)).2 else r
  (u, max q u)
termination_by i

end Buffer

open Buffer

/-- **C84.** A producer makes `n` items, each of which takes a time, and puts them in a store of capacity `m`; a consumer gets `n` items out of the store and spends
a time on each. Nothing is raised. The producer gets control when an item is ready and when it has been put in, the consumer when it asks for an item and when it
has got it, and both once more at their end: at the moments given by the equations of the flow through a buffer of `m` places (`Flow`). The store's length of stay
holds the times the items have spent in it, in the order in which they were made; in the end the store is empty, nobody is waiting, and main gets control when the
consumer is done with the last item. -/
theorem C84_buffer (m n f : Nat) (p c put get : Nat → Rat) (hm : 0 < m) (hp : ∀ k, 0 ≤ p k) (hc : ∀ k, 0 ≤ c k) (hF : Flow m p c put get) :
    ∃ w, forR (opening m) (exec (f + 2)) World.init = .ok w ∧ ∃ x, Play.run (f + 2) (job p c n) (4 * n + 2) { w := w } = some x ∧
      x.moments 1 = 0 :: (List.range n).flatMap (fun i => [ready p put i, put i]) ∧
      x.moments 2 = (List.range n).flatMap (fun i => [asks c get i, get i]) ++ [asks c get n] ∧
      (x.w.queues (.store 1)).stays = (List.range n).map (fun i => get i - put i) ∧
      x.w.inQ (.store 1) = [] ∧ x.w.inQ (.toReq 1) = [] ∧ x.w.inQ (.fromReq 1) = [] ∧
      ∃ w', step x.w = .ok w' ∧ w'.current = w'.main ∧ w'.now = asks c get n := by
  obtain ⟨w, S0, e, hI⟩ := opened (n := n) (p := p) (c := c) (put := put) (get := get) (f := f + 2) hm
  obtain ⟨x, S, ps, cs, i, j, e', h, hl⟩ := turns_run (f := f) hI rfl hF hm hp hc (4 * n + 2) le_rfl
  have hcount := h.count
  have hpt := h.pturn
  have hct := h.cturn
  have hji := h.ji; have hin := h.ino
  have hpk := h.pok; have hck := h.cok
  have hps : ps = .ended := by
    cases ps with
    | ended => rfl
    | go =>
      exfalso
      have h1 : x.turns 1 = 2 * i := hpt
      cases cs <;> simp only [cturns] at hct <;> omega
    | work =>
      exfalso
      have h1 : x.turns 1 = 2 * i + 1 := hpt
      have h2 : i < n := hpk
      cases cs <;> simp only [cturns] at hct <;> omega
    | blocked =>
      exfalso
      have h1 : x.turns 1 = 2 * i + 2 := hpt
      have h2 : i < n := hpk.1
      cases cs <;> simp only [cturns] at hct <;> omega
  subst hps
  have h1 : x.turns 1 = 2 * n + 1 := hpt
  have hcs : cs = .ended := by
    cases cs with
    | ended => rfl
    | ask => exfalso; have h2 : x.turns 2 = 2 * j := hct; omega
    | wait => exfalso; have h2 : x.turns 2 = 2 * j + 1 := hct; have := hck.1; omega
    | got => exfalso; have h2 : x.turns 2 = 2 * j - 1 := hct; omega
  subst hcs
  have h2 : x.turns 2 = 2 * n + 1 := hct
  have hi : i = n := hpk
  have hj : j = n := hck.1
  have hev : x.w.events = [] := by
    obtain ⟨_, _, _, _, hp⟩ := h.ev
    rw [h.sim.events]
    have := hp.length_eq
    simpa [ptime, ctime, evs] using this
  refine ⟨w, e, x, e', ?_, ?_, ?_, ?_, ?_, ?_, ?_⟩
  · rw [h.pmom, h1, plist]
  · rw [h.cmom, h2, clist]
  · rw [h.sim.queues, h.stays, hj]
  · unfold World.inQ; rw [h.sim.queues, h.mem, hi, hj]; simp
  · unfold World.inQ; rw [h.sim.queues, h.tmem]; rfl
  · unfold World.inQ; rw [h.sim.queues, h.fmem]; rfl
  · have es : step x.w = stepEvent x.w := by
      unfold step
      split
      · rfl
      · rw [h.sim.pending]
    rw [es]
    unfold stepEvent
    rw [if_pos h.sim.standby]
    simp only
    rw [hev]
    exact ⟨_, rfl, rfl, by show x.w.now = _; rw [h.sim.now]; exact h.fin rfl rfl⟩

/-- there is such a flow -/
theorem C84_flow (m : Nat) (p c : Nat → Rat) (hm : 0 < m) : Flow m p c (fun i => (flow m p c i).1) (fun i => (flow m p c i).2) := by
  have hr : ∀ i, ready p (fun i => (flow m p c i).1) i = (if i = 0 then 0 else (flow m p c (i - 1)).1) + p i := by
    intro i; unfold ready; cases i <;> simp [before]
  have hq : ∀ i, asks c (fun i => (flow m p c i).2) i = if i = 0 then 0 else (flow m p c (i - 1)).2 + c (i - 1) := by
    intro i; cases i <;> simp [asks]
  refine ⟨fun i => ?_, fun i => ?_⟩
  · rw [hr]
    show (flow m p c i).1 = _
    conv_lhs => rw [flow]
    simp [hm]
  · rw [hq]
    show (flow m p c i).2 = max _ (flow m p c i).1
    rw [flow.eq_1 m p c i]

/-- with room for all items the producer never waits -/
theorem C84_room (m n : Nat) (p c put get : Nat → Rat) (hF : Flow m p c put get) (h : n ≤ m) : ∀ i < n, put i = ((List.range (i + 1)).map p).sum := by
  intro i
  induction i with
  | zero => intro hi; rw [hF.putAt 0, if_neg (by omega)]; simp [ready, before]
  | succ i ih =>
    intro hi
    rw [hF.putAt (i + 1), if_neg (by omega), List.range_succ, List.map_append, List.sum_append, ← ih (by omega)]
    simp [ready, before]

/-- the items come in order, an item is not got before it is put in, and there are never more than `m` of them in between -/
theorem C84_order (m : Nat) (p c put get : Nat → Rat) (hp : ∀ k, 0 ≤ p k) (hc : ∀ k, 0 ≤ c k) (hF : Flow m p c put get) (i : Nat) :
    put i ≤ put (i + 1) ∧ get i ≤ get (i + 1) ∧ put i ≤ get i ∧ get i ≤ put (i + m) := by
  refine ⟨?_, ?_, ?_, ?_⟩
  · have h1 : ready p put (i + 1) ≤ put (i + 1) := by
      rw [hF.putAt (i + 1)]; split
      · exact le_max_left _ _
      · exact le_rfl
    have h2 : ready p put (i + 1) = put i + p (i + 1) := rfl
    have := hp (i + 1)
    linarith
  · have h1 : asks c get (i + 1) ≤ get (i + 1) := by rw [hF.getAt (i + 1)]; exact le_max_left _ _
    have h2 : asks c get (i + 1) = get i + c i := rfl
    have := hc i
    linarith
  · rw [hF.getAt i]; exact le_max_right _ _
  · rw [hF.putAt (i + m), if_pos (by omega), Nat.add_sub_cancel]; exact le_max_right _ _

/-- four items through a buffer for one: the consumer waits for the first one, the producer has to wait with the third and the fourth -/
example : ((Play.run 2 (job (fun i => [3, 1, 2, 1].getD i 0) (fun i => [5, 4, 1, 2].getD i 0) 4) 18 { w := execAll 2 (opening 1) World.init }).map
    fun x => (x.moments 1, x.moments 2, (x.w.queues (.store 1)).stays, x.w.now)) =
    some ([0, 3, 3, 4, 4, 6, 8, 9, 12], [0, 3, 8, 8, 12, 12, 13, 13, 15], [0, 4, 4, 1], 15) := by decide +kernel

end Verif
