import Verif.Process
import Mathlib.Tactic.Linarith
import Mathlib.Tactic.Ring

/-!
# A single server queue

The first program of the manual (salabim's bank with one clerk and a resource): what the model of the kernel does with it, for all arrival and service times.
The proof goes through the complete chain of calls: creation, run, step, request, the passing on of the resource at a release, hold, the end of the process.
-/

namespace Verif
open World
namespace Bank

section
variable (w : World) (c d : CId) (f : Comp → Comp) (r : RId) (g : Res → Res) (q p : QRef) (h : Queue → Queue)

theorem c_self : (w.modC c f).comps c = f (w.comps c) := by simp [modC]
theorem c_other (hd : d ≠ c) : (w.modC c f).comps d = w.comps d := by simp [modC, hd]
theorem c_res : (w.modC c f).res = w.res := rfl
theorem c_queues : (w.modC c f).queues = w.queues := rfl
theorem c_now : (w.modC c f).now = w.now := rfl
theorem c_seq : (w.modC c f).seq = w.seq := rfl
theorem c_events : (w.modC c f).events = w.events := rfl
theorem r_self : (w.modR r g).res r = g (w.res r) := by simp [modR]
theorem r_comps : (w.modR r g).comps = w.comps := rfl
theorem r_queues : (w.modR r g).queues = w.queues := rfl
theorem r_now : (w.modR r g).now = w.now := rfl
theorem r_seq : (w.modR r g).seq = w.seq := rfl
theorem r_events : (w.modR r g).events = w.events := rfl
theorem q_self : (w.modQ q h).queues q = h (w.queues q) := by simp [modQ]
theorem q_other (hp : p ≠ q) : (w.modQ q h).queues p = w.queues p := by simp [modQ, hp]
theorem q_comps : (w.modQ q h).comps = w.comps := rfl
theorem q_res : (w.modQ q h).res = w.res := rfl
theorem q_now : (w.modQ q h).now = w.now := rfl
theorem q_seq : (w.modQ q h).seq = w.seq := rfl
theorem q_events : (w.modQ q h).events = w.events := rfl
end

attribute [local simp] c_self c_other c_res c_queues c_now c_seq c_events r_self r_comps r_queues r_now r_seq r_events q_self q_other q_comps q_res q_now q_seq q_events


/-- the queue after a component has entered at its end -/
def enq (c : CId) (t : Rat) (q : Queue) : Queue :=
  { q with mem := q.mem ++ [⟨c, 0, t⟩], arrivals := q.arrivals + 1, lens := q.lens ++ [(t, q.len + 1)] }
/-- the queue after its first member has left -/
def deq (t : Rat) (m : QMem) (l : List QMem) (q : Queue) : Queue :=
  { q with mem := l, departures := q.departures + 1, stays := q.stays ++ [t - m.enter], lens := q.lens ++ [(t, q.len - 1)] }

theorem sortedIns_end {x : QMem} {l : List QMem} (h : ∀ m ∈ l, m.prio = x.prio) : Queue.sortedIns x l = l ++ [x] := by
  cases l with
  | nil => rfl
  | cons m t =>
    unfold Queue.sortedIns
    simp only
    rw [if_neg (by rw [h m (by simp)]; exact lt_irrefl _)]
    have : ∀ l' : List QMem, (∀ m ∈ l', m.prio = x.prio) → Queue.insRev x l' = x :: l' := by
      intro l' hl
      cases l' with
      | nil => rfl
      | cons a b =>
        unfold Queue.insRev
        rw [if_neg (by rw [hl a (by simp)]; exact lt_irrefl _)]
    rw [this _ (fun a ha => h a (List.mem_reverse.mp ha))]
    simp

theorem enter_run {w : World} {c : CId} {q : QRef} (hcap : (w.queues q).cap = ⊤) (hp : ∀ m ∈ (w.queues q).mem, m.prio = 0 ∧ m.c ≠ c) :
    enterSortedQ c q 0 w = .ok (w.modQ q (fun _ => enq c w.now (w.queues q))) := by
  have h1 : (w.queues q).has c = false := by
    unfold Queue.has
    rw [List.any_eq_false]
    intro m hm; simpa using (hp m hm).2
  have h2 : (w.queues q).enterSorted w.now c 0 = .ok (enq c w.now (w.queues q)) := by
    unfold Queue.enterSorted Queue.insert
    rw [h1, if_neg (by simp), if_neg (by rw [hcap]; simp [ETime.subQ]), sortedIns_end (fun m hm => (hp m hm).1)]
    rfl
  unfold enterSortedQ onQueue
  simp only [h2]

theorem leave_run {w : World} {c : CId} {q : QRef} {m : QMem} {l : List QMem} (hm : (w.queues q).mem = m :: l) (hc : m.c = c) :
    leaveQ c q w = .ok (w.modQ q (fun _ => deq w.now m l (w.queues q))) := by
  have h2 : (w.queues q).leave w.now c = .ok (deq w.now m l (w.queues q)) := by
    unfold Queue.leave Queue.find
    rw [hm]
    simp [hc, deq]
  unfold leaveQ onQueue
  simp only [h2]

/-- what a call of `c` leaves alone -/
structure Chg (w w' : World) (c : CId) : Prop where
  now : w'.now = w.now
  standby : w'.standby = w.standby
  pending : w'.pending = w.pending
  main : w'.main = w.main
  current : w'.current = w.current
  other : ∀ d, d ≠ c → w'.comps d = w.comps d
  waits : (w'.comps c).waits = (w.comps c).waits
  froms : (w'.comps c).fromStores = (w.comps c).fromStores
  tos : (w'.comps c).toStores = (w.comps c).toStores
  oneof : (w'.comps c).oneof = (w.comps c).oneof

theorem Chg.trans {w w' w'' : World} {c : CId} (h : Chg w w' c) (h' : Chg w' w'' c) : Chg w w'' c :=
  ⟨h'.now.trans h.now, h'.standby.trans h.standby, h'.pending.trans h.pending, h'.main.trans h.main, h'.current.trans h.current,
    fun d hd => (h'.other d hd).trans (h.other d hd), h'.waits.trans h.waits, h'.froms.trans h.froms, h'.tos.trans h.tos, h'.oneof.trans h.oneof⟩

/-- the clerk: one, who is free or busy -/
structure Clerk (x : Res) (claimed : Rat) : Prop where
  cap : x.cap = ((1 : Rat) : ETime)
  claimed : x.claimed = claimed
  anonymous : x.anonymous = false
  preemptive : x.preemptive = false
  first : x.honorFirst = false
  highest : x.honorHighest = false

/-- the event of a component is put on the list -/
structure Sched (w w' : World) (c : CId) (t : Rat) : Prop where
  chg : Chg w w' c
  seq : w'.seq = w.seq + 1
  events : w'.events = Heapq.heappush Ev.lt w.events ⟨t, (0 : Rat), (w.seq + 1 : Nat), c, none⟩
  status : (w'.comps c).status = .scheduled
  onList : (w'.comps c).onList = true

theorem resched_run {w : World} {c : CId} {t : Rat} (ht : w.now ≤ t) : ∃ w', reschedule c (t : ETime) (0 : Rat) false false none (setStatus c .scheduled w) = .ok w' ∧
    Sched w w' c t ∧ (w'.comps c).requests = (w.comps c).requests ∧ (w'.comps c).claims = (w.comps c).claims ∧ w'.res = w.res ∧ w'.queues = w.queues := by
  unfold reschedule
  rw [if_neg (by show ¬ (t : ETime) < (w.now : ETime); rw [WithTop.coe_lt_coe]; exact not_lt.mpr ht)]
  refine ⟨_, rfl, ⟨⟨rfl, rfl, rfl, rfl, rfl, fun d hd => ?_, ?_, ?_, ?_, ?_⟩, rfl, rfl, ?_, ?_⟩, ?_, ?_, rfl, rfl⟩ <;> simp [push, setStatus, modC]
  · simp [hd]

theorem wake_run {w : World} {c : CId} (hon : (w.comps c).onList = false) (hs2 : (w.comps c).status ≠ .standby) : ∃ w', wake c none w = .ok w' ∧
    Sched w w' c w.now ∧ (w'.comps c).requests = (w.comps c).requests ∧ (w'.comps c).claims = (w.comps c).claims ∧ w'.res = w.res ∧ w'.queues = w.queues := by
  unfold wake remove
  rw [if_neg (by rw [hon]; simp), if_neg (show ¬ (w.comps c).status = .standby from hs2)]
  exact resched_run le_rfl

theorem grant {w : World} {c : CId} {m : QMem} {l : List QMem} (hk : Clerk (w.res 1) 0) (hm : (w.queues (.requesters 1)).mem = m :: l) (hc : m.c = c)
    (hp : m.prio = 0) (hcc : (w.queues (.claimers 1)).cap = ⊤) (hcm : (w.queues (.claimers 1)).mem = []) (hrq : (w.comps c).requests = [(1, 1)])
    (hcl : (w.comps c).claims = []) (hon : (w.comps c).onList = false) (hs1 : (w.comps c).status ≠ .interrupted) (hs2 : (w.comps c).status ≠ .standby)
    (ho : (w.comps c).oneof = false) :
    ∃ w', honorNow c w = some (.ok w') ∧ Sched w w' c w.now ∧ (w'.comps c).requests = [] ∧ (w'.comps c).claims = [(1, 1)] ∧
      Clerk (w'.res 1) 1 ∧ (w'.res 1).minq = (if l = [] then ⊤ else (w.res 1).minq) ∧
      w'.queues (.requesters 1) = deq w.now m l (w.queues (.requesters 1)) ∧
      w'.queues (.claimers 1) = enq c w.now (w.queues (.claimers 1)) := by
  have hh : honored w c = [1] := by
    unfold honored
    rw [if_neg (by rw [ho]; simp)]
    unfold honorAll
    simp only [hrq, List.all_cons, List.all_nil, Bool.and_true]
    rw [if_pos]
    · rfl
    · unfold canHonor
      simp only [hk.first, hk.highest, Bool.false_and, Bool.not_false, Bool.true_and]
      unfold Res.avail
      rw [hk.cap, hk.claimed, if_pos (by decide +kernel)]
      decide +kernel
  unfold honorNow
  rw [if_neg (by rw [hh]; simpa [World.status] using hs1), hh, hrq]
  have hf : (w.queues (.requesters 1)).find c = some m := by
    unfold Queue.find
    rw [hm]; simp [hc]
  have hkc : ∀ m ∈ (w.queues (.claimers 1)).mem, m.prio = 0 ∧ m.c ≠ c := by rw [hcm]; simp
  have hhas : (w.queues (.claimers 1)).has c = false := by unfold Queue.has; rw [hcm]; rfl
  obtain ⟨w1, hw1⟩ : ∃ w1, w1 = w.modR 1 (fun x => { x with claimed := x.claimed + 1, log := x.log.claims w.now x.cap (x.claimed + 1) }) := ⟨_, rfl⟩
  obtain ⟨w2, hw2⟩ : ∃ w2, w2 = w1.modC c (fun x => { x with claims := addTo x.claims 1 1 }) := ⟨_, rfl⟩
  obtain ⟨w3, hw3⟩ : ∃ w3, w3 = w2.modQ (.claimers 1) (fun _ => enq c w.now (w.queues (.claimers 1))) := ⟨_, rfl⟩
  obtain ⟨w4, hw4⟩ : ∃ w4, w4 = w3.modQ (.requesters 1) (fun _ => deq w.now m l (w.queues (.requesters 1))) := ⟨_, rfl⟩
  obtain ⟨w5, hw5⟩ : ∃ w5, w5 = if l = [] then w4.modR 1 (fun x => { x with minq := ⊤ }) else w4 := ⟨_, rfl⟩
  have e1 : claimOne c [1] (1, 1) w = .ok w5 := by
    unfold claimOne
    rw [if_pos (by simp)]
    simp only
    rw [← hw1]
    have q1 : w1.queues = w.queues := by rw [hw1]; rfl
    have a1 : (w1.res 1).anonymous = false := by rw [hw1, r_self]; exact hk.anonymous
    rw [q1, hf]
    simp only
    rw [if_neg (by rw [a1]; simp), ← hw2, hp]
    have q2 : w2.queues = w.queues := by rw [hw2]; exact q1
    have n2 : w2.now = w.now := by rw [hw2, hw1]; rfl
    unfold enterClaimers
    rw [q2, hhas, if_neg (by simp), enter_run (by rw [q2]; exact hcc) (by rw [q2]; exact hkc), q2, n2, ← hw3]
    have q3 : w3.queues (.requesters 1) = w.queues (.requesters 1) := by rw [hw3, q_other _ _ _ _ (by simp), q2]
    have n3 : w3.now = w.now := by rw [hw3]; exact n2
    show leaveRequesters c 1 w3 = _
    unfold leaveRequesters
    rw [leave_run (by rw [q3]; exact hm) hc, q3, n3, ← hw4]
    show R.ok _ = _
    have q4 : w4.queues (.requesters 1) = deq w.now m l (w.queues (.requesters 1)) := by rw [hw4, q_self]
    have l4 : ((w4.queues (.requesters 1)).len = 0) = (l = []) := by rw [q4]; simp [Queue.len, deq]
    simp only [l4]
    rw [hw5]
  have c5 : w5.comps = w2.comps := by rw [hw5, hw4, hw3]; split <;> rfl
  have c2 : w2.comps c = { w.comps c with claims := [(1, 1)] } := by rw [hw2, c_self, hw1]; show { w.comps c with claims := addTo (w.comps c).claims 1 1 } = _; rw [hcl]; rfl
  have c2' : ∀ d, d ≠ c → w2.comps d = w.comps d := by intro d hd; rw [hw2, c_other _ _ _ _ hd, hw1]; rfl
  have n1 : w1.now = w.now ∧ w1.seq = w.seq ∧ w1.events = w.events ∧ w1.standby = w.standby ∧ w1.pending = w.pending ∧ w1.main = w.main ∧ w1.current = w.current := by rw [hw1]; exact ⟨rfl, rfl, rfl, rfl, rfl, rfl, rfl⟩
  have n2 : w2.now = w1.now ∧ w2.seq = w1.seq ∧ w2.events = w1.events ∧ w2.standby = w1.standby ∧ w2.pending = w1.pending ∧ w2.main = w1.main ∧ w2.current = w1.current := by rw [hw2]; exact ⟨rfl, rfl, rfl, rfl, rfl, rfl, rfl⟩
  have n3 : w3.now = w2.now ∧ w3.seq = w2.seq ∧ w3.events = w2.events ∧ w3.standby = w2.standby ∧ w3.pending = w2.pending ∧ w3.main = w2.main ∧ w3.current = w2.current := by rw [hw3]; exact ⟨rfl, rfl, rfl, rfl, rfl, rfl, rfl⟩
  have n4 : w4.now = w3.now ∧ w4.seq = w3.seq ∧ w4.events = w3.events ∧ w4.standby = w3.standby ∧ w4.pending = w3.pending ∧ w4.main = w3.main ∧ w4.current = w3.current := by rw [hw4]; exact ⟨rfl, rfl, rfl, rfl, rfl, rfl, rfl⟩
  have n5 : w5.now = w.now ∧ w5.seq = w.seq ∧ w5.events = w.events ∧ w5.standby = w.standby ∧ w5.pending = w.pending ∧ w5.main = w.main ∧ w5.current = w.current := by
    rw [n3.1, n2.1, n1.1, n3.2.1, n2.2.1, n1.2.1, n3.2.2.1, n2.2.2.1, n1.2.2.1, n3.2.2.2.1, n2.2.2.2.1, n1.2.2.2.1, n3.2.2.2.2.1, n2.2.2.2.2.1, n1.2.2.2.2.1,
      n3.2.2.2.2.2.1, n2.2.2.2.2.2.1, n1.2.2.2.2.2.1, n3.2.2.2.2.2.2, n2.2.2.2.2.2.2, n1.2.2.2.2.2.2] at n4
    rw [hw5]; split
    · exact n4
    · exact n4
  obtain ⟨w6, hw6⟩ : ∃ w6, w6 = w5.modC c (fun x => { x with requests := [] }) := ⟨_, rfl⟩
  have c6 : w6.comps c = { w.comps c with claims := [(1, 1)], requests := [] } := by rw [hw6, c_self, c5, c2]
  have n6 : w6.now = w.now := by rw [hw6]; exact n5.1
  obtain ⟨w7, e2, h7, r7, k7, s7, q7⟩ := wake_run (w := w6) (c := c) (by rw [c6]; exact hon) (by rw [c6]; exact hs2)
  have h6 : Chg w w6 c := by
    refine ⟨n6, ?_, ?_, ?_, ?_, fun d hd => ?_, ?_, ?_, ?_, ?_⟩
    · rw [hw6]; exact n5.2.2.2.1
    · rw [hw6]; exact n5.2.2.2.2.1
    · rw [hw6]; exact n5.2.2.2.2.2.1
    · rw [hw6]; exact n5.2.2.2.2.2.2
    · rw [hw6, c_other _ _ _ _ hd, c5, c2' d hd]
    all_goals rw [c6]
  have s6 : w6.seq = w.seq := by rw [hw6]; exact n5.2.1
  have v6 : w6.events = w.events := by rw [hw6]; exact n5.2.2.1
  have r1 : w1.res 1 = { w.res 1 with claimed := (w.res 1).claimed + 1, log := (w.res 1).log.claims w.now (w.res 1).cap ((w.res 1).claimed + 1) } := by rw [hw1, r_self]
  have r4 : w4.res 1 = w1.res 1 := by rw [hw4, hw3, hw2]; rfl
  refine ⟨w7, ?_, ⟨h6.trans h7.chg, ?_, ?_, h7.status, h7.onList⟩, ?_, ?_, ?_, ?_, ?_, ?_⟩
  · show some ((claimOne c [1] (1, 1) w ⊳ fun w => forR [] _ w) ⊳ _) = _
    rw [e1]
    show some (wake c none _) = _
    rw [← hw6, e2]
  · rw [h7.seq, s6]
  · rw [h7.events, s6, v6, n6]
  · rw [r7, c6]
  · rw [k7, c6]
  · rw [s7, hw6]
    show Clerk (w5.res 1) 1
    have : Clerk (w4.res 1) 1 := by
      rw [r4, r1]
      exact ⟨hk.cap, by show (w.res 1).claimed + 1 = 1; rw [hk.claimed, zero_add], hk.anonymous, hk.preemptive, hk.first, hk.highest⟩
    rw [hw5]; split
    · rw [r_self]; exact ⟨this.cap, this.claimed, this.anonymous, this.preemptive, this.first, this.highest⟩
    · exact this
  · rw [s7, hw6]
    show (w5.res 1).minq = _
    rw [hw5]; split
    · rw [r_self]
    · rw [r4, r1]
  · rw [q7, hw6]; show w5.queues _ = _
    have : w5.queues = w4.queues := by rw [hw5]; split <;> rfl
    rw [this, hw4, q_self]
  · rw [q7, hw6]; show w5.queues _ = _
    have : w5.queues = w4.queues := by rw [hw5]; split <;> rfl
    rw [this, hw4, q_other _ _ _ _ (by simp), hw3, q_self]

theorem then_ok (w : World) (f : World → R) : (R.ok w ⊳ f) = f w := rfl

/-- the scheduling side is not touched -/
structure Calm0 (w w' : World) (c : CId) : Prop where
  chg : Chg w w' c
  seq : w'.seq = w.seq
  events : w'.events = w.events

theorem Calm0.trans {w w' w'' : World} {c : CId} (h : Calm0 w w' c) (h' : Calm0 w' w'' c) : Calm0 w w'' c :=
  ⟨h.chg.trans h'.chg, h'.seq.trans h.seq, h'.events.trans h.events⟩

theorem calm0_modC {w : World} {c : CId} {f : Comp → Comp} (h1 : (f (w.comps c)).waits = (w.comps c).waits) (h2 : (f (w.comps c)).fromStores = (w.comps c).fromStores)
    (h3 : (f (w.comps c)).toStores = (w.comps c).toStores) (h4 : (f (w.comps c)).oneof = (w.comps c).oneof) : Calm0 w (w.modC c f) c :=
  ⟨⟨rfl, rfl, rfl, rfl, rfl, fun d hd => c_other w c d f hd, by rw [c_self, h1], by rw [c_self, h2], by rw [c_self, h3], by rw [c_self, h4]⟩, rfl, rfl⟩
theorem calm0_modQ {w : World} {c : CId} {q : QRef} {f : Queue → Queue} : Calm0 w (w.modQ q f) c :=
  ⟨⟨rfl, rfl, rfl, rfl, rfl, fun _ _ => rfl, rfl, rfl, rfl, rfl⟩, rfl, rfl⟩
theorem calm0_modR {w : World} {c : CId} {r : RId} {f : Res → Res} : Calm0 w (w.modR r f) c :=
  ⟨⟨rfl, rfl, rfl, rfl, rfl, fun _ _ => rfl, rfl, rfl, rfl, rfl⟩, rfl, rfl⟩

theorem ask_pre {w : World} {c : CId} {f : Nat} {k : Rat} (hst : (w.comps c).status = .current) (hrq : (w.comps c).requests = [])
    (ho : (w.comps c).oneof = false) (hk : Clerk (w.res 1) k) (hcap : (w.queues (.requesters 1)).cap = ⊤)
    (hp : ∀ m ∈ (w.queues (.requesters 1)).mem, m.prio = 0 ∧ m.c ≠ c) :
    ∃ w6, request f c [⟨1, 1, 0⟩] false false none none (0 : Rat) false false w = (tryReqC f c w6 ⊳ fun w =>
        if (w.comps c).requests = [] then .ok w else reschedule c ⊤ (0 : Rat) false false none (setStatus c .requesting w)) ∧
      Calm0 w w6 c ∧ (w6.comps c).status = .current ∧ (w6.comps c).onList = (w.comps c).onList ∧
      (w6.comps c).requests = [(1, 1)] ∧ (w6.comps c).claims = (w.comps c).claims ∧ Clerk (w6.res 1) k ∧
      (w6.res 1).minq = (if ((1 : Rat) : ETime) < (w.res 1).minq then ((1 : Rat) : ETime) else (w.res 1).minq) ∧
      w6.queues (.requesters 1) = enq c w.now (w.queues (.requesters 1)) ∧ w6.queues (.claimers 1) = w.queues (.claimers 1) := by
  obtain ⟨w1, hw1⟩ : ∃ w1, w1 = w.modC c (fun x => { x with oneof := false }) := ⟨_, rfl⟩
  obtain ⟨w2, hw2⟩ : ∃ w2, w2 = w1.modC c (fun x => { x with failed := false }) := ⟨_, rfl⟩
  obtain ⟨w3, hw3⟩ : ∃ w3, w3 = w2.modC c (fun x => { x with requests := addTo x.requests 1 1 }) := ⟨_, rfl⟩
  obtain ⟨w4, hw4⟩ : ∃ w4, w4 = w3.modQ (.requesters 1) (fun _ => enq c w.now (w.queues (.requesters 1))) := ⟨_, rfl⟩
  obtain ⟨w5, hw5⟩ : ∃ w5, w5 = w4.modR 1 (fun x => { x with minq := if ((1 : Rat) : ETime) < x.minq then ((1 : Rat) : ETime) else x.minq }) := ⟨_, rfl⟩
  obtain ⟨w6, hw6⟩ : ∃ w6, w6 = w5.modC c (fun x => { x with remaining := ETime.subQ ⊤ w5.now }) := ⟨_, rfl⟩
  have k1 : Calm0 w w1 c := hw1 ▸ calm0_modC rfl rfl rfl ho.symm
  have k2 : Calm0 w1 w2 c := hw2 ▸ calm0_modC rfl rfl rfl rfl
  have k3 : Calm0 w2 w3 c := hw3 ▸ calm0_modC rfl rfl rfl rfl
  have k4 : Calm0 w3 w4 c := hw4 ▸ calm0_modQ
  have k5 : Calm0 w4 w5 c := hw5 ▸ calm0_modR
  have k6 : Calm0 w5 w6 c := hw6 ▸ calm0_modC rfl rfl rfl rfl
  have c1 : w1.comps c = { w.comps c with oneof := false } := by rw [hw1, c_self]
  have c2 : w2.comps c = { w.comps c with oneof := false, failed := false } := by rw [hw2, c_self, c1]
  have c3 : w3.comps c = { w.comps c with oneof := false, failed := false, requests := [(1, 1)] } := by
    rw [hw3, c_self, c2]
    show { w.comps c with oneof := false, failed := false, requests := addTo (w.comps c).requests 1 1 } = _
    rw [hrq]; rfl
  have c5 : w5.comps = w3.comps := by rw [hw5, hw4]; rfl
  have c6 : w6.comps c = { w.comps c with oneof := false, failed := false, requests := [(1, 1)], remaining := ETime.subQ ⊤ w5.now } := by
    rw [hw6, c_self, c5, c3]
  have q3 : w3.queues = w.queues := by rw [hw3, hw2, hw1]; rfl
  have r3 : w3.res = w.res := by rw [hw3, hw2, hw1]; rfl
  have r2 : w2.res = w.res := by rw [hw2, hw1]; rfl
  have n3 : w3.now = w.now := (k1.trans (k2.trans k3)).chg.now
  refine ⟨w6, ?_, k1.trans (k2.trans (k3.trans (k4.trans (k5.trans k6)))), ?_, ?_, ?_, ?_, ?_, ?_, ?_, ?_⟩
  · unfold request
    rw [← hw1]
    unfold preamble
    rw [if_pos (show w1.status c = .current by unfold World.status; rw [c1]; exact hst)]
    rw [then_ok]
    simp only [failTime, List.isEmpty_cons, Bool.false_eq_true, if_false]
    rw [← hw2]
    have e : forR [⟨1, 1, 0⟩] (requestArg c ([⟨1, 1, 0⟩] : List Arg).length false) w2 = .ok w4 := by
      show (requestArg c 1 false ⟨1, 1, 0⟩ w2 ⊳ fun w => .ok w) = _
      unfold requestArg
      rw [r2, if_neg (by simp), if_neg (by rintro ⟨h, _⟩; exact absurd h (by decide +kernel))]
      show ((enterSortedQ c (.requesters 1) 0 (w2.modC c (fun x => { x with requests := addTo x.requests 1 1 })) ⊳ fun w => if (_ : Bool) = true then preempt 1 1 0 w else .ok w) ⊳ fun w => .ok w) = _
      rw [← hw3, enter_run (by rw [q3]; exact hcap) (by rw [q3]; exact hp), q3, n3, ← hw4, hk.preemptive]
      rfl
    rw [e, then_ok]
    show (tryReqC f c ((lowerMinq (w4.comps c).requests w4).modC c _) ⊳ _) = _
    have c4 : (w4.comps c).requests = [(1, 1)] := by rw [← show w5.comps = w4.comps by rw [hw5]; rfl, c5, c3]
    rw [c4]
    have : lowerMinq [(1, 1)] w4 = w5 := by rw [hw5]; rfl
    rw [this, ← hw6]
  · rw [c6]; exact hst
  · rw [c6]
  · rw [c6]
  · rw [c6]
  · have : w6.res 1 = { w.res 1 with minq := if ((1 : Rat) : ETime) < (w.res 1).minq then ((1 : Rat) : ETime) else (w.res 1).minq } := by
      rw [hw6, c_res, hw5, r_self, hw4, q_res, r3]
    rw [this]
    exact ⟨hk.cap, hk.claimed, hk.anonymous, hk.preemptive, hk.first, hk.highest⟩
  · rw [hw6, c_res, hw5, r_self, hw4, q_res, r3]
  · rw [hw6, c_queues, hw5, r_queues, hw4, q_self]
  · rw [hw6, c_queues, hw5, r_queues, hw4, q_other _ _ _ _ (by simp), q3]

theorem try_run {w w' : World} {c : CId} {f : Nat} (hk : Clerk (w.res 1) 0) (hrq : (w.comps c).requests = [(1, 1)]) (h : honorNow c w = some (.ok w')) :
    tryReqC (f + 2) c w = .ok w' := by
  unfold tryReqC
  rw [h]
  simp only [hrq, keys, List.map_cons, List.map_nil, List.filter_cons, List.filter_nil, hk.anonymous]
  rw [then_ok]
  simp [tryReqList]

theorem ask_free {w : World} {c : CId} {f : Nat} (hst : (w.comps c).status = .current) (hrq : (w.comps c).requests = [])
    (ho : (w.comps c).oneof = false) (hk : Clerk (w.res 1) 0) (hcap : (w.queues (.requesters 1)).cap = ⊤)
    (hq : (w.queues (.requesters 1)).mem = []) (hcc : (w.queues (.claimers 1)).cap = ⊤) (hcm : (w.queues (.claimers 1)).mem = [])
    (hcl : (w.comps c).claims = []) (hon : (w.comps c).onList = false) :
    ∃ w', request (f + 2) c [⟨1, 1, 0⟩] false false none none (0 : Rat) false false w = .ok w' ∧ Sched w w' c w.now ∧ (w'.comps c).requests = [] ∧
      (w'.comps c).claims = [(1, 1)] ∧ Clerk (w'.res 1) 1 ∧ (w'.res 1).minq = ⊤ ∧
      w'.queues (.requesters 1) = deq w.now ⟨c, 0, w.now⟩ [] (enq c w.now (w.queues (.requesters 1))) ∧
      w'.queues (.claimers 1) = enq c w.now (w.queues (.claimers 1)) := by
  obtain ⟨w6, e6, h6, s6, o6, r6, k6, K6, m6, q6, p6⟩ := ask_pre (f := f + 2) hst hrq ho hk hcap (by rw [hq]; simp)
  have hn : w6.now = w.now := h6.chg.now
  obtain ⟨w7, e7, h7, r7, k7, K7, m7, q7, p7⟩ := grant (w := w6) (c := c) (m := ⟨c, 0, w.now⟩) (l := []) K6 (by rw [q6]; simp [enq, hq]) rfl rfl
    (by rw [p6]; exact hcc) (by rw [p6]; exact hcm) r6 (by rw [k6]; exact hcl) (by rw [o6]; exact hon) (by rw [s6]; simp) (by rw [s6]; simp)
    (by rw [h6.chg.oneof]; exact ho)
  refine ⟨w7, ?_, ⟨h6.chg.trans h7.chg, by rw [h7.seq, h6.seq], by rw [h7.events, h6.seq, h6.events, hn], h7.status, h7.onList⟩, r7, k7, K7, by rw [m7, if_pos rfl], ?_, ?_⟩
  · rw [e6, try_run K6 r6 e7, then_ok, if_pos r7]
  · rw [q7, q6, hn]
  · rw [p7, p6, hn]

theorem ask_busy {w : World} {c : CId} {f : Nat} (hst : (w.comps c).status = .current) (hrq : (w.comps c).requests = [])
    (ho : (w.comps c).oneof = false) (hk : Clerk (w.res 1) 1) (hcap : (w.queues (.requesters 1)).cap = ⊤)
    (hp : ∀ m ∈ (w.queues (.requesters 1)).mem, m.prio = 0 ∧ m.c ≠ c) (hm : (w.res 1).minq = ⊤ ∨ (w.res 1).minq = ((1 : Rat) : ETime)) :
    ∃ w', request (f + 2) c [⟨1, 1, 0⟩] false false none none (0 : Rat) false false w = .ok w' ∧ Calm0 w w' c ∧ (w'.comps c).requests = [(1, 1)] ∧
      (w'.comps c).claims = (w.comps c).claims ∧ (w'.comps c).onList = (w.comps c).onList ∧ (w'.comps c).status = .requesting ∧
      Clerk (w'.res 1) 1 ∧ (w'.res 1).minq = ((1 : Rat) : ETime) ∧
      w'.queues (.requesters 1) = enq c w.now (w.queues (.requesters 1)) ∧
      w'.queues (.claimers 1) = w.queues (.claimers 1) := by
  obtain ⟨w6, e6, h6, s6, o6, r6, k6, K6, m6, q6, p6⟩ := ask_pre (f := f + 2) hst hrq ho hk hcap hp
  have hno : honorNow c w6 = none := by
    unfold honorNow
    rw [if_pos]
    right
    unfold honored
    rw [if_neg (by rw [h6.chg.oneof, ho]; simp)]
    unfold honorAll
    simp only [r6, List.all_cons, List.all_nil, Bool.and_true]
    rw [if_neg]
    unfold canHonor
    simp only [K6.first, K6.highest, Bool.false_and, Bool.not_false, Bool.true_and]
    unfold Res.avail
    rw [K6.cap, K6.claimed, if_pos (by decide +kernel)]
    decide +kernel
  refine ⟨(setStatus c .requesting w6).modC c (fun x => { x with schedTime := ⊤ }), ?_, ?_, ?_, ?_, ?_, ?_, K6, ?_, q6, p6⟩
  · have : tryReqC (f + 2) c w6 = .ok w6 := by unfold tryReqC; rw [hno]
    rw [e6, this, then_ok, if_neg (by rw [r6]; simp)]
    unfold reschedule
    rw [if_neg (by simp)]
    rfl
  · exact h6.trans ((show Calm0 w6 (w6.modC c _) c from calm0_modC rfl rfl rfl rfl).trans (calm0_modC rfl rfl rfl rfl))
  · rw [c_self]; unfold setStatus; rw [c_self]; exact r6
  · rw [c_self]; unfold setStatus; rw [c_self]; exact k6
  · rw [c_self]; unfold setStatus; rw [c_self]; exact o6
  · rw [c_self]; unfold setStatus; rw [c_self]
  · show (w6.res 1).minq = _
    rw [m6]
    rcases hm with hm | hm <;> rw [hm]
    · rw [if_pos (WithTop.coe_lt_top _)]
    · rw [if_neg (lt_irrefl _)]

theorem give_back {w : World} {c : CId} {m : QMem} (hk : Clerk (w.res 1) 1) (hcl : (w.comps c).claims = [(1, 1)])
    (hm : (w.queues (.claimers 1)).mem = [m]) (hc : m.c = c) :
    ∃ w', releaseCore c 1 none w = .ok w' ∧ Calm0 w w' c ∧ (w'.comps c).requests = (w.comps c).requests ∧ (w'.comps c).claims = [] ∧
      (w'.comps c).onList = (w.comps c).onList ∧ (w'.comps c).status = (w.comps c).status ∧ Clerk (w'.res 1) 0 ∧ (w'.res 1).minq = (w.res 1).minq ∧
      w'.queues (.requesters 1) = w.queues (.requesters 1) ∧ w'.queues (.claimers 1) = deq w.now m [] (w.queues (.claimers 1)) := by
  obtain ⟨w1, hw1⟩ : ∃ w1, w1 = w.modR 1 (fun x => { x with claimed := x.claimed - 1 }) := ⟨_, rfl⟩
  obtain ⟨w2, hw2⟩ : ∃ w2, w2 = w1.modC c (fun x => { x with claims := addTo x.claims 1 (-1) }) := ⟨_, rfl⟩
  obtain ⟨w3, hw3⟩ : ∃ w3, w3 = w2.modQ (.claimers 1) (fun _ => deq w.now m [] (w.queues (.claimers 1))) := ⟨_, rfl⟩
  obtain ⟨w4, hw4⟩ : ∃ w4, w4 = w3.modR 1 (fun x => { x with claimed := 0 }) := ⟨_, rfl⟩
  obtain ⟨w5, hw5⟩ : ∃ w5, w5 = w4.modC c (fun x => { x with claims := delKey x.claims 1 }) := ⟨_, rfl⟩
  have k1 : Calm0 w w1 c := hw1 ▸ calm0_modR
  have k2 : Calm0 w1 w2 c := hw2 ▸ calm0_modC rfl rfl rfl rfl
  have k3 : Calm0 w2 w3 c := hw3 ▸ calm0_modQ
  have k4 : Calm0 w3 w4 c := hw4 ▸ calm0_modR
  have k5 : Calm0 w4 w5 c := hw5 ▸ calm0_modC rfl rfl rfl rfl
  have c1 : w1.comps = w.comps := by rw [hw1]; rfl
  have q2 : w2.queues = w.queues := by rw [hw2, hw1]; rfl
  have n2 : w2.now = w.now := (k1.trans k2).chg.now
  have c4 : w4.comps = w2.comps := by rw [hw4, hw3]; rfl
  have c2 : w2.comps c = { w.comps c with claims := [(1, 0)] } := by
    rw [hw2, c_self, c1]
    show { w.comps c with claims := addTo (w.comps c).claims 1 (-1) } = _
    rw [hcl]
    have : addTo [(1, 1)] 1 (-1) = [((1 : RId), (0 : Rat))] := by decide +kernel
    rw [this]
  have c5 : w5.comps c = { w.comps c with claims := [] } := by
    rw [hw5, c_self, c4, c2]; rfl
  have r5 : w5.res 1 = { w.res 1 with claimed := 0 } := by
    rw [hw5, c_res, hw4, r_self, hw3, q_res, hw2, c_res, hw1, r_self]
  have q5 : w5.queues = w3.queues := by rw [hw5, c_queues, hw4, r_queues]
  refine ⟨w5.tallyR 1, ?_, (k1.trans (k2.trans (k3.trans (k4.trans k5)))).trans calm0_modR, ?_, ?_, ?_, ?_, ?_, ?_, ?_, ?_⟩
  · unfold releaseCore
    have : lookup (w.comps c).claims 1 = some 1 := by rw [hcl]; rfl
    rw [this]
    simp only
    rw [← hw1, if_pos (by decide +kernel), ← hw2, leave_run (m := m) (l := []) (by rw [q2]; exact hm) hc, q2, n2, ← hw3, then_ok]
    have l3 : (w3.queues (.claimers 1)).len = 0 := by rw [hw3, q_self]; rfl
    simp only [l3, if_true]
    rw [← hw4, ← hw5]
  · show (w5.comps c).requests = _; rw [c5]
  · show (w5.comps c).claims = _; rw [c5]
  · show (w5.comps c).onList = _; rw [c5]
  · show (w5.comps c).status = _; rw [c5]
  · unfold tallyR; rw [r_self, r5]; exact ⟨hk.cap, rfl, hk.anonymous, hk.preemptive, hk.first, hk.highest⟩
  · unfold tallyR; rw [r_self, r5]
  · show w5.queues _ = _; rw [q5, hw3, q_other _ _ _ _ (by simp), q2]
  · show w5.queues _ = _; rw [q5, hw3, q_self]

theorem pass_none {w : World} {f : Nat} (hk : Clerk (w.res 1) 0) (hq : (w.queues (.requesters 1)).mem = []) : tryReqR (f + 5) 1 w = .ok w := by
  have h0 : cursor0 w 1 = none := by unfold cursor0 headQ; rw [hq]; rfl
  unfold tryReqR
  rw [if_neg (by rw [hk.anonymous]; simp), h0]
  unfold loopR
  rfl

theorem pass_next {w : World} {c : CId} {f : Nat} {m : QMem} {l : List QMem} (hk : Clerk (w.res 1) 0) (hm : (w.queues (.requesters 1)).mem = m :: l) (hc : m.c = c)
    (hp : m.prio = 0) (hcc : (w.queues (.claimers 1)).cap = ⊤) (hcm : (w.queues (.claimers 1)).mem = []) (hrq : (w.comps c).requests = [(1, 1)])
    (hcl : (w.comps c).claims = []) (hon : (w.comps c).onList = false) (hs1 : (w.comps c).status ≠ .interrupted) (hs2 : (w.comps c).status ≠ .standby)
    (ho : (w.comps c).oneof = false) (hmq : (w.res 1).minq = ((1 : Rat) : ETime)) :
    ∃ w', tryReqR (f + 5) 1 w = .ok w' ∧ Sched w w' c w.now ∧ (w'.comps c).requests = [] ∧ (w'.comps c).claims = [(1, 1)] ∧
      Clerk (w'.res 1) 1 ∧ (w'.res 1).minq = (if l = [] then ⊤ else ((1 : Rat) : ETime)) ∧
      w'.queues (.requesters 1) = deq w.now m l (w.queues (.requesters 1)) ∧
      w'.queues (.claimers 1) = enq c w.now (w.queues (.claimers 1)) := by
  obtain ⟨w7, e7, h7, r7, k7, K7, m7, q7, p7⟩ := grant hk hm hc hp hcc hcm hrq hcl hon hs1 hs2 ho
  refine ⟨w7, ?_, h7, r7, k7, K7, by rw [m7, hmq], q7, p7⟩
  have h0 : cursor0 w 1 = some m := by unfold cursor0 headQ; rw [hm]; rfl
  unfold tryReqR
  rw [if_neg (by rw [hk.anonymous]; simp), h0]
  unfold loopR
  simp only
  have hhas : (w.queues (.requesters 1)).has m.c = true := by unfold Queue.has; rw [hm]; simp
  have hle : ¬ ((w.res 1).minq > (w.res 1).avail + (eps : ETime)) := by
    rw [hmq]; unfold Res.avail; rw [hk.cap, hk.claimed]; decide +kernel
  rw [if_neg (by simp [hk.first]), if_neg (by simp [hk.highest]), if_neg (by simp [hle]), if_neg (by rw [hhas]; simp), hc, try_run hk hrq e7, then_ok,
    if_neg (by simp [hk.anonymous])]
  have hs : (w.queues (.requesters 1)).succ c = l.head? := by
    unfold Queue.succ
    rw [hm]; simp only [List.dropWhile_cons, hc, bne_self_eq_false, Bool.false_eq_true, if_false]
    cases l <;> rfl
  rw [hs]
  cases l with
  | nil => unfold loopR; rfl
  | cons m2 l2 =>
    unfold loopR
    simp only [List.head?_cons]
    have hgt : (w7.res 1).minq > (w7.res 1).avail + (eps : ETime) := by
      rw [m7, hmq, if_neg (by simp)]; unfold Res.avail; rw [K7.cap, K7.claimed]; decide +kernel
    rw [if_neg (by simp [K7.first]), if_neg (by simp [K7.highest]), if_pos (by simp [K7.anonymous, hgt])]
theorem step_run {w : World} {e : Ev} {es : List Ev} (hsb : w.standby = []) (hpd : w.pending = []) (hpop : Heapq.heappop Ev.lt w.events = some (e, es))
    (hm : e.c ≠ w.main) (h1 : (w.comps e.c).requests = []) (h2 : (w.comps e.c).waits = []) (h3 : (w.comps e.c).fromStores = []) (h4 : (w.comps e.c).toStores = []) :
    ∃ w', step w = .ok w' ∧ w'.now = e.t ∧ w'.current = e.c ∧ w'.events = es ∧ w'.seq = w.seq ∧ w'.standby = [] ∧ w'.pending = [] ∧ w'.main = w.main ∧
      (∀ d, d ≠ e.c → w'.comps d = w.comps d) ∧ w'.comps e.c = { w.comps e.c with onList := false, status := .current, schedTime := ⊤ } ∧
      w'.res = w.res ∧ w'.queues = w.queues := by
  obtain ⟨w1, hw1⟩ : ∃ w1, w1 = ({ w with events := es, now := e.t, current := e.c } : World).modC e.c (fun x => { x with onList := false, status := .current, schedTime := ⊤ }) := ⟨_, rfl⟩
  have c1 : w1.comps e.c = { w.comps e.c with onList := false, status := .current, schedTime := ⊤ } := by rw [hw1, c_self]
  have e1 : stepEvent w = .ok w1 := by
    unfold stepEvent
    rw [if_pos hsb]
    simp only
    rw [hpop]
    simp only
    rw [← hw1, if_neg (show ¬ e.c = w1.main by rw [hw1]; exact hm)]
    unfold checkFail checkFailReq
    rw [if_pos (by rw [c1]; exact h1), then_ok]
    unfold checkFailWait
    rw [if_pos (by rw [c1]; simp [h2]), then_ok]
    unfold checkFailFrom
    rw [if_pos (by rw [c1]; exact h3), then_ok]
    unfold checkFailTo
    rw [if_pos (by rw [c1]; exact h4)]
  refine ⟨w1, ?_, by rw [hw1]; rfl, by rw [hw1]; rfl, by rw [hw1]; rfl, by rw [hw1]; rfl, by rw [hw1]; exact hsb, by rw [hw1]; exact hpd, by rw [hw1]; rfl,
    fun d hd => by rw [hw1, c_other _ _ _ _ hd], c1, by rw [hw1]; rfl, by rw [hw1]; rfl⟩
  unfold step
  split
  · exact e1
  · rw [hpd]; exact e1

/-! ## the program -/

/-- what a customer does (component `i + 1` is customer `i`): request the clerk (resource 1), hold for the service time, release and end -/
def visit (s : Nat → Rat) (c : CId) : Nat → List Op
  | 0 => [.request c [⟨1, 1, 0⟩] false false none none (0 : Rat) false false]
  | 1 => [.hold c (some ((s (c - 1) : Rat) : ETime)) none (0 : Rat) false false 0]
  | _ => [.releaseAll c, .terminate]

/-- the main program: the customers are made, to start at their arrival times, and the simulation is run until there are no more events -/
def opening (a : Nat → Rat) (n : Nat) : List Op :=
  (List.range n).map (fun i => Op.create (i + 1) (some ((a i : Rat) : ETime)) (0 : Rat) (0 : Rat) false false false) ++ [.runStart none none ⊤ false false]

/-- when the service of each customer begins, according to queueing theory: at the arrival, or when the one before has been served -/
def begins (a s : Nat → Rat) : Nat → Rat
  | 0 => a 0
  | i + 1 => max (a (i + 1)) (begins a s i + s i)

/-- the event of an arrival -/
def arr (a : Nat → Rat) (i : Nat) : Ev := ⟨a i, (0 : Rat), (i + 1 : Nat), i + 1, none⟩

/-- the state of affairs: `A` customers have arrived, `D` have left; `g`: the clerk is claimed, `b`: the service has begun -/
structure Inv (a s : Nat → Rat) (n : Nat) (x : Play) (A D g b : Nat) : Prop where
  an : A ≤ n
  g1 : g ≤ 1
  bg : b ≤ g
  sa : D + g ≤ A
  idle : g = 0 → A = D
  main : x.w.main = 0
  standby : x.w.standby = []
  pending : x.w.pending = []
  heap : Heapq.IsHeap Ev.lt x.w.events
  ev0 : g = 0 → x.w.events.Perm ((List.range' A (n - A)).map (arr a))
  ev1 : g = 1 → ∃ q, x.w.events.Perm (⟨begins a s D + (if b = 1 then s D else 0), (0 : Rat), q, D + 1, none⟩ :: (List.range' A (n - A)).map (arr a))
  due : ∀ i : Nat, A ≤ i → i < n → x.w.now ≤ a i
  due1 : g = 1 → x.w.now ≤ begins a s D + (if b = 1 then s D else 0)
  past : ∀ i : Nat, i < A → a i ≤ x.w.now
  rest : g = 0 → ∀ j : Nat, D = j + 1 → x.w.now = begins a s j + s j
  plain : ∀ c, (x.w.comps c).waits = [] ∧ (x.w.comps c).fromStores = [] ∧ (x.w.comps c).toStores = [] ∧ (x.w.comps c).oneof = false
  req1 : ∀ i : Nat, D + g ≤ i → i < A → (x.w.comps (i + 1)).requests = [(1, 1)] ∧ (x.w.comps (i + 1)).onList = false ∧ (x.w.comps (i + 1)).status = .requesting
  req0 : ∀ i : Nat, i < D + g ∨ A ≤ i → (x.w.comps (i + 1)).requests = []
  clm1 : g = 1 → (x.w.comps (D + 1)).claims = [(1, 1)]
  clm0 : ∀ i : Nat, i ≠ D ∨ g = 0 → (x.w.comps (i + 1)).claims = []
  clerk : Clerk (x.w.res 1) g
  minq0 : D + g = A → (x.w.res 1).minq = ⊤
  minq1 : D + g < A → (x.w.res 1).minq = ((1 : Rat) : ETime)
  rcap : (x.w.queues (.requesters 1)).cap = ⊤
  rmem : (x.w.queues (.requesters 1)).mem = (List.range' (D + g) (A - (D + g))).map (fun i => ⟨i + 1, 0, a i⟩)
  rstay : (x.w.queues (.requesters 1)).stays = (List.range (D + g)).map (fun i => begins a s i - a i)
  ccap : (x.w.queues (.claimers 1)).cap = ⊤
  cmem : (x.w.queues (.claimers 1)).mem = (List.range' D g).map (fun i => ⟨i + 1, 0, begins a s i⟩)
  cstay : (x.w.queues (.claimers 1)).stays = (List.range D).map s
  t3 : ∀ i : Nat, i < D → x.turns (i + 1) = 3
  t2 : ∀ i : Nat, D ≤ i → i < D + b → x.turns (i + 1) = 2
  t1 : ∀ i : Nat, D + b ≤ i → i < A → x.turns (i + 1) = 1
  t0 : ∀ i : Nat, A ≤ i → x.turns (i + 1) = 0
  moments : ∀ i : Nat, x.moments (i + 1) = [a i, begins a s i, begins a s i + s i].take (x.turns (i + 1))
  count : x.log.length = A + (D + b) + D

theorem moments_add (x : Play) (w : World) (f : CId → Nat) (t : Rat) (c d : CId) :
    Play.moments ⟨w, f, x.log ++ [(t, c)]⟩ d = if c = d then x.moments d ++ [t] else x.moments d := by
  unfold Play.moments
  simp only [List.filter_append, List.map_append, List.filter_cons, List.filter_nil]
  by_cases h : c = d
  · simp [h]
  · simp [h]

theorem arr_first {a : Nat → Rat} (ha : ∀ i j, i ≤ j → a i ≤ a j) {A i n : Nat} (hi : A ≤ i) (hin : i < n) {l : List Ev}
    (hl : ∀ j, A ≤ j → j < n → arr a j ∈ l) (hmin : ∀ b ∈ l, Ev.lt b (arr a i) = false) : i = A := by
  by_contra hne
  have hlt : A < i := by omega
  have := hmin (arr a A) (hl A le_rfl (by omega))
  unfold Ev.lt arr at this
  simp only [Bool.or_eq_false_iff, Bool.and_eq_false_iff, decide_eq_false_iff_not] at this
  obtain ⟨h1, h2⟩ := this
  rcases h2 with h2 | ⟨-, h2⟩
  · exact h2 (le_antisymm (ha _ _ hi) (not_lt.mp h1))
  · rcases h2 with h2 | h2
    · exact h2 trivial
    · apply h2; omega

/-- one turn: the component of the first event gets control and makes its calls -/
theorem turn_run {f : Nat} {s : Nat → Rat} {x : Play} {w1 w2 : World} {c : CId} (h1 : step x.w = .ok w1) (hc : w1.current = c)
    (h2 : forR (visit s c (x.turns c)) (exec f) w1 = .ok w2) :
    Play.turn f (visit s) x = some ⟨w2, fun d => if d = c then x.turns d + 1 else x.turns d, x.log ++ [(w1.now, c)]⟩ := by
  unfold Play.turn
  rw [h1]
  simp only [hc]
  rw [h2]

theorem range_cons {A n : Nat} (h : A < n) : List.range' A (n - A) = A :: List.range' (A + 1) (n - (A + 1)) := by
  rw [show n - A = (n - (A + 1)) + 1 by omega, List.range'_succ]

theorem range_snoc {S A : Nat} (h : S ≤ A) : List.range' S (A + 1 - S) = List.range' S (A - S) ++ [A] := by
  rw [show A + 1 - S = (A - S) + 1 by omega, List.range'_concat]
  congr 2; omega

theorem range'_mem_map {α : Type} {A n : Nat} {f : Nat → α} {y : α} (h : y ∈ (List.range' A (n - A)).map f) : ∃ i, A ≤ i ∧ i < n ∧ y = f i := by
  obtain ⟨i, hi, rfl⟩ := List.mem_map.mp h
  rw [List.mem_range'_1] at hi
  exact ⟨i, hi.1, by omega, rfl⟩

theorem mem_range'_map {α : Type} {A n i : Nat} {f : Nat → α} (h1 : A ≤ i) (h2 : i < n) : f i ∈ (List.range' A (n - A)).map f :=
  List.mem_map.mpr ⟨i, by rw [List.mem_range'_1]; omega, rfl⟩

variable {a s : Nat → Rat} {n : Nat} {x : Play} {A D g b : Nat}

/-- an arrival, the clerk being free -/
theorem arrive_free {f : Nat} (hI : Inv a s n x A D 0 b) (ha : ∀ i j, i ≤ j → a i ≤ a j) {es : List Ev} (hpop : Heapq.heappop Ev.lt x.w.events = some (arr a A, es)) (hA : A < n) :
    ∃ x', Play.turn (f + 10) (visit s) x = some x' ∧ Inv a s n x' (A + 1) D 1 0 := by
  have hAD := hI.idle rfl
  have hb : b = 0 := by have := hI.bg; omega
  subst hAD; subst hb
  have hsp := Heapq.heappop_spec (l := x.w.events) evLaw hI.heap
  rw [hpop] at hsp
  obtain ⟨hperm, hheap, hmin⟩ := hsp
  have pl := hI.plain (A + 1)
  obtain ⟨w1, e1, n1, cu1, ev1, sq1, sb1, pd1, mn1, ot1, c1, r1, q1⟩ := step_run hI.standby hI.pending hpop
    (by rw [hI.main]; exact Nat.succ_ne_zero _) (hI.req0 A (.inr le_rfl)) pl.1 pl.2.1 pl.2.2.1
  have c1' : w1.comps (A + 1) = { x.w.comps (A + 1) with onList := false, status := .current, schedTime := ⊤ } := c1
  have n1' : w1.now = a A := n1
  have cu1' : w1.current = A + 1 := cu1
  obtain ⟨w2, e2, h2, rq2, cl2, K2, m2, q2, p2⟩ := ask_free (w := w1) (c := A + 1) (f := f + 8) (by rw [c1']) (by rw [c1']; exact hI.req0 A (.inr le_rfl))
    (by rw [c1']; exact pl.2.2.2) (by rw [r1]; exact_mod_cast hI.clerk) (by rw [q1]; exact hI.rcap) (by rw [q1, hI.rmem]; simp) (by rw [q1]; exact hI.ccap)
    (by rw [q1, hI.cmem]; rfl) (by rw [c1']; exact hI.clm0 A (.inr rfl)) (by rw [c1'])
  have t2 : forR (visit s (A + 1) (x.turns (A + 1))) (exec (f + 10)) w1 = .ok w2 := by
    rw [hI.t0 A le_rfl]
    simp only [visit, forR, exec]
    rw [show f + 10 = f + 8 + 2 from rfl, e2]; rfl
  have hbeg : begins a s A = a A := by
    cases A with
    | zero => rfl
    | succ j =>
      show max (a (j + 1)) (begins a s j + s j) = _
      rw [← hI.rest rfl j rfl]
      exact max_eq_left (hI.due _ le_rfl hA)
  have hsched := h2.chg
  have hoth : ∀ i : Nat, i ≠ A → w2.comps (i + 1) = x.w.comps (i + 1) := fun i hi => by
    rw [hsched.other (i + 1) (fun h => hi (Nat.succ.inj h)), ot1 (i + 1) (fun h => hi (Nat.succ.inj h))]
  refine ⟨_, turn_run e1 cu1' t2, ?_⟩
  have hes : es.Perm ((List.range' (A + 1) (n - (A + 1))).map (arr a)) := by
    have := hperm.symm.trans (hI.ev0 rfl)
    rw [range_cons hA, List.map_cons] at this
    exact this.cons_inv
  have hm0 : (w2.queues (.requesters 1)).mem = [] := by rw [q2]; rfl
  refine ⟨hA, le_rfl, Nat.zero_le _, le_rfl, fun h => absurd h (by simp), ?_, ?_, ?_, ?_, fun h => absurd h (by simp), fun _ => ⟨(w1.seq + 1 : Nat), ?_⟩, ?_, ?_, ?_, fun h => absurd h (by simp),
    ?_, ?_, ?_, fun _ => cl2, ?_, ?_, fun _ => m2, fun h => absurd h (lt_irrefl _), ?_, ?_, ?_, ?_, ?_, ?_, ?_, ?_, ?_, ?_, ?_, ?_⟩
  · show w2.main = 0
    rw [hsched.main, mn1]; exact hI.main
  · show w2.standby = []
    rw [hsched.standby, sb1]
  · show w2.pending = []
    rw [hsched.pending, pd1]
  · show Heapq.IsHeap _ w2.events
    rw [h2.events]; exact Heapq.heappush_isHeap evLaw _ (by rw [ev1]; exact hheap)
  · show w2.events.Perm _
    rw [h2.events, ev1, hbeg, n1', if_neg (by simp), add_zero]
    exact (Heapq.heappush_perm _ _).trans (hes.cons _)
  · intro i h1 h2'
    show w2.now ≤ _
    rw [hsched.now, n1']; exact ha _ _ (by omega)
  · intro _
    show w2.now ≤ _
    rw [hsched.now, n1', hbeg, if_neg (by simp), add_zero]
  · intro i hi
    show _ ≤ w2.now
    rw [hsched.now, n1']; exact ha _ _ (by omega)
  · intro c
    show (w2.comps c).waits = [] ∧ (w2.comps c).fromStores = [] ∧ (w2.comps c).toStores = [] ∧ (w2.comps c).oneof = false
    by_cases h : c = A + 1
    · subst h
      rw [hsched.waits, hsched.froms, hsched.tos, hsched.oneof, c1']; exact pl
    · rw [hsched.other c h, ot1 c h]; exact hI.plain c
  · intro i h1 h2'; omega
  · intro i hi
    show (w2.comps (i + 1)).requests = []
    by_cases h : i = A
    · rw [h]; exact rq2
    · rw [hoth i h]; exact hI.req0 i (by omega)
  · intro i hi
    show (w2.comps (i + 1)).claims = []
    rw [hoth i (by omega)]; exact hI.clm0 i (.inr rfl)
  · exact_mod_cast K2
  · show (w2.queues _).cap = ⊤
    rw [q2]; show (w1.queues _).cap = ⊤; rw [q1]; exact hI.rcap
  · show (w2.queues _).mem = _
    rw [hm0]; simp
  · show (w2.queues _).stays = _
    rw [q2]; show (w1.queues _).stays ++ [w1.now - w1.now] = _
    rw [q1, hI.rstay, List.range_succ, List.map_append]
    simp [hbeg]
  · show (w2.queues _).cap = ⊤
    rw [p2]; show (w1.queues _).cap = ⊤; rw [q1]; exact hI.ccap
  · show (w2.queues _).mem = _
    rw [p2]; show (w1.queues _).mem ++ [⟨A + 1, 0, w1.now⟩] = _
    rw [q1, hI.cmem, n1']; simp [hbeg]
  · show (w2.queues _).stays = _
    rw [p2]; show (w1.queues _).stays = _
    rw [q1, hI.cstay]
  · intro i hi; show (if i + 1 = A + 1 then _ else _) = 3
    rw [if_neg (by omega)]; exact hI.t3 i hi
  · intro i h1 h2'; omega
  · intro i h1 h2'; show (if i + 1 = A + 1 then _ else _) = 1
    rw [if_pos (by omega), show i = A by omega, hI.t0 A le_rfl]
  · intro i h1; show (if i + 1 = A + 1 then _ else _) = 0
    rw [if_neg (by omega)]; exact hI.t0 i (by omega)
  · intro i
    rw [moments_add]
    show _ = List.take (if i + 1 = A + 1 then x.turns (i + 1) + 1 else x.turns (i + 1)) _
    by_cases h : i = A
    · subst h
      rw [if_pos rfl, if_pos rfl, hI.moments, hI.t0 i le_rfl, n1']; rfl
    · rw [if_neg (fun h' => h (Nat.succ.inj h').symm), if_neg (fun h' => h (Nat.succ.inj h'))]; exact hI.moments i
  · show (x.log ++ [_]).length = _
    rw [List.length_append, hI.count]; simp; omega

/-- an arrival, the clerk being claimed -/
theorem arrive_busy {f : Nat} (hI : Inv a s n x A D 1 b) (ha : ∀ i j, i ≤ j → a i ≤ a j) {es : List Ev}
    (hpop : Heapq.heappop Ev.lt x.w.events = some (arr a A, es)) (hA : A < n) :
    ∃ x', Play.turn (f + 10) (visit s) x = some x' ∧ Inv a s n x' (A + 1) D 1 b := by
  have hsp := Heapq.heappop_spec (l := x.w.events) evLaw hI.heap
  rw [hpop] at hsp
  obtain ⟨hperm, hheap, hmin⟩ := hsp
  have hsa := hI.sa
  have pl := hI.plain (A + 1)
  obtain ⟨w1, e1, n1, cu1, ev1, sq1, sb1, pd1, mn1, ot1, c1, r1, q1⟩ := step_run hI.standby hI.pending hpop
    (by rw [hI.main]; exact Nat.succ_ne_zero _) (hI.req0 A (.inr le_rfl)) pl.1 pl.2.1 pl.2.2.1
  have c1' : w1.comps (A + 1) = { x.w.comps (A + 1) with onList := false, status := .current, schedTime := ⊤ } := c1
  have n1' : w1.now = a A := n1
  have cu1' : w1.current = A + 1 := cu1
  have hmq : (w1.res 1).minq = ⊤ ∨ (w1.res 1).minq = ((1 : Rat) : ETime) := by
    rw [r1]
    rcases Nat.lt_or_ge (D + 1) A with h | h
    · exact .inr (hI.minq1 h)
    · exact .inl (hI.minq0 (by omega))
  have hne : ∀ m ∈ (w1.queues (.requesters 1)).mem, m.prio = 0 ∧ m.c ≠ A + 1 := by
    intro m hm
    rw [q1, hI.rmem] at hm
    obtain ⟨i, hi, rfl⟩ := List.mem_map.mp hm
    rw [List.mem_range'_1] at hi
    exact ⟨rfl, fun h => by have : i = A := Nat.succ.inj h; omega⟩
  obtain ⟨w2, e2, h2, rq2, cl2, ol2, st2, K2, m2, q2, p2⟩ := ask_busy (w := w1) (c := A + 1) (f := f + 8) (by rw [c1']) (by rw [c1']; exact hI.req0 A (.inr le_rfl))
    (by rw [c1']; exact pl.2.2.2) (by rw [r1]; exact_mod_cast hI.clerk) (by rw [q1]; exact hI.rcap) hne hmq
  have t2 : forR (visit s (A + 1) (x.turns (A + 1))) (exec (f + 10)) w1 = .ok w2 := by
    rw [hI.t0 A le_rfl]
    simp only [visit, forR, exec]
    rw [show f + 10 = f + 8 + 2 from rfl, e2]; rfl
  have hsched := h2.chg
  have hoth : ∀ i : Nat, i ≠ A → w2.comps (i + 1) = x.w.comps (i + 1) := fun i hi => by
    rw [hsched.other (i + 1) (fun h => hi (Nat.succ.inj h)), ot1 (i + 1) (fun h => hi (Nat.succ.inj h))]
  obtain ⟨q, hq⟩ := hI.ev1 rfl
  refine ⟨_, turn_run e1 cu1' t2, ?_⟩
  have hin : arr a A ∈ x.w.events := hperm.symm.subset (List.mem_cons_self ..)
  have hle : a A ≤ begins a s D + (if b = 1 then s D else 0) := by
    have := hmin _ (hq.symm.subset (List.mem_cons_self ..))
    unfold Ev.lt arr at this
    simp only [Bool.or_eq_false_iff, decide_eq_false_iff_not] at this
    exact not_lt.mp this.1
  have hes : es.Perm (⟨begins a s D + (if b = 1 then s D else 0), (0 : Rat), q, D + 1, none⟩ :: (List.range' (A + 1) (n - (A + 1))).map (arr a)) := by
    have := hperm.symm.trans hq
    rw [range_cons hA, List.map_cons] at this
    exact (this.trans (List.Perm.swap _ _ _)).cons_inv
  refine ⟨hA, le_rfl, hI.bg, by omega, fun h => absurd h (by simp), ?_, ?_, ?_, ?_, fun h => absurd h (by simp), fun _ => ⟨q, ?_⟩, ?_, ?_, ?_, fun h => absurd h (by simp),
    ?_, ?_, ?_, fun _ => ?_, ?_, ?_, fun h => absurd h (by omega), fun _ => m2, ?_, ?_, ?_, ?_, ?_, ?_, ?_, ?_, ?_, ?_, ?_, ?_⟩
  · show w2.main = 0
    rw [hsched.main, mn1]; exact hI.main
  · show w2.standby = []
    rw [hsched.standby, sb1]
  · show w2.pending = []
    rw [hsched.pending, pd1]
  · show Heapq.IsHeap _ w2.events
    rw [h2.events, ev1]; exact hheap
  · show w2.events.Perm _
    rw [h2.events, ev1]; exact hes
  · intro i h1 h2'
    show w2.now ≤ _
    rw [hsched.now, n1']; exact ha _ _ (by omega)
  · intro _
    show w2.now ≤ _
    rw [hsched.now, n1']; exact hle
  · intro i hi
    show _ ≤ w2.now
    rw [hsched.now, n1']; exact ha _ _ (by omega)
  · intro c
    show (w2.comps c).waits = [] ∧ (w2.comps c).fromStores = [] ∧ (w2.comps c).toStores = [] ∧ (w2.comps c).oneof = false
    by_cases h : c = A + 1
    · subst h
      rw [hsched.waits, hsched.froms, hsched.tos, hsched.oneof, c1']; exact pl
    · rw [hsched.other c h, ot1 c h]; exact hI.plain c
  · intro i h1 h2'
    show (w2.comps (i + 1)).requests = _ ∧ (w2.comps (i + 1)).onList = _ ∧ (w2.comps (i + 1)).status = _
    by_cases h : i = A
    · rw [h]; exact ⟨rq2, by rw [ol2, c1'], st2⟩
    · rw [hoth i h]; exact hI.req1 i h1 (by omega)
  · intro i hi
    show (w2.comps (i + 1)).requests = []
    rw [hoth i (by omega)]; exact hI.req0 i (by omega)
  · show (w2.comps (D + 1)).claims = _
    rw [hoth D (by omega)]; exact hI.clm1 rfl
  · intro i hi
    show (w2.comps (i + 1)).claims = []
    by_cases h : i = A
    · rw [h, cl2, c1']; exact hI.clm0 A (by omega)
    · rw [hoth i h]; exact hI.clm0 i (by omega)
  · exact_mod_cast K2
  · show (w2.queues _).cap = ⊤
    rw [q2]; show (w1.queues _).cap = ⊤; rw [q1]; exact hI.rcap
  · show (w2.queues _).mem = _
    rw [q2]; show (w1.queues _).mem ++ [⟨A + 1, 0, w1.now⟩] = _
    rw [q1, hI.rmem, range_snoc hsa, List.map_append, n1']; rfl
  · show (w2.queues _).stays = _
    rw [q2]; show (w1.queues _).stays = _
    rw [q1, hI.rstay]
  · show (w2.queues _).cap = ⊤
    rw [p2, q1]; exact hI.ccap
  · show (w2.queues _).mem = _
    rw [p2, q1]; exact hI.cmem
  · show (w2.queues _).stays = _
    rw [p2, q1]; exact hI.cstay
  · intro i hi; show (if i + 1 = A + 1 then _ else _) = 3
    rw [if_neg (by omega)]; exact hI.t3 i hi
  · intro i h1 h2'; show (if i + 1 = A + 1 then _ else _) = 2
    have := hI.bg
    rw [if_neg (by omega)]; exact hI.t2 i h1 h2'
  · intro i h1 h2'; show (if i + 1 = A + 1 then _ else _) = 1
    by_cases h : i = A
    · rw [if_pos (by omega), h, hI.t0 A le_rfl]
    · rw [if_neg (by omega)]; exact hI.t1 i h1 (by omega)
  · intro i h1; show (if i + 1 = A + 1 then _ else _) = 0
    rw [if_neg (by omega)]; exact hI.t0 i (by omega)
  · intro i
    rw [moments_add]
    show _ = List.take (if i + 1 = A + 1 then x.turns (i + 1) + 1 else x.turns (i + 1)) _
    by_cases h : i = A
    · subst h
      rw [if_pos rfl, if_pos rfl, hI.moments, hI.t0 i le_rfl, n1']; rfl
    · rw [if_neg (fun h' => h (Nat.succ.inj h').symm), if_neg (fun h' => h (Nat.succ.inj h'))]; exact hI.moments i
  · show (x.log ++ [_]).length = _
    rw [List.length_append, hI.count]; simp; omega

theorem hold_run {w : World} {c : CId} {t : Rat} {f : Nat} (hst : (w.comps c).status = .current) (ht : 0 ≤ t) :
    ∃ w', exec f (.hold c (some (t : ETime)) none (0 : Rat) false false 0) w = .ok w' ∧ Sched w w' c (w.now + t) ∧
      (w'.comps c).requests = (w.comps c).requests ∧ (w'.comps c).claims = (w.comps c).claims ∧ w'.res = w.res ∧ w'.queues = w.queues := by
  have hle : w.now ≤ w.now + t := le_add_of_nonneg_right ht
  obtain ⟨w', e, h⟩ := resched_run (w := w) (c := c) hle
  refine ⟨w', ?_, h⟩
  show hold c (some (t : ETime)) none (0 : Rat) false false 0 w = _
  unfold hold
  rw [if_pos (.inr hst), then_ok]
  simp only
  have hnl : ¬ ((w.now : ETime) + (t : ETime) < (w.now : ETime)) := by
    rw [← WithTop.coe_add, WithTop.coe_lt_coe]; exact not_lt.mpr hle
  rw [if_neg (fun h => hnl h.1), if_neg (by simp), if_neg hnl, ← WithTop.coe_add]
  exact e

/-- the service begins -/
theorem start_service {f : Nat} (hI : Inv a s n x A D 1 0) (hs : ∀ i, 0 ≤ s i) {es : List Ev} {q : Int}
    (hpop : Heapq.heappop Ev.lt x.w.events = some (⟨begins a s D, (0 : Rat), q, D + 1, none⟩, es))
    (hq : x.w.events.Perm (⟨begins a s D, (0 : Rat), q, D + 1, none⟩ :: (List.range' A (n - A)).map (arr a))) :
    ∃ x', Play.turn (f + 10) (visit s) x = some x' ∧ Inv a s n x' A D 1 1 := by
  have hsp := Heapq.heappop_spec (l := x.w.events) evLaw hI.heap
  rw [hpop] at hsp
  obtain ⟨hperm, hheap, hmin⟩ := hsp
  have hsa := hI.sa
  have pl := hI.plain (D + 1)
  obtain ⟨w1, e1, n1, cu1, ev1, sq1, sb1, pd1, mn1, ot1, c1, r1, q1⟩ := step_run hI.standby hI.pending hpop
    (by rw [hI.main]; exact Nat.succ_ne_zero _) (hI.req0 D (.inl (by omega))) pl.1 pl.2.1 pl.2.2.1
  have c1' : w1.comps (D + 1) = { x.w.comps (D + 1) with onList := false, status := .current, schedTime := ⊤ } := c1
  have n1' : w1.now = begins a s D := n1
  have cu1' : w1.current = D + 1 := cu1
  obtain ⟨w2, e2, h2, rq2, cl2, r2, q2⟩ := hold_run (w := w1) (c := D + 1) (f := f + 10) (t := s D) (by rw [c1']) (hs D)
  have t2 : forR (visit s (D + 1) (x.turns (D + 1))) (exec (f + 10)) w1 = .ok w2 := by
    rw [hI.t1 D (by omega) (by omega)]
    simp only [visit, forR]
    rw [show D + 1 - 1 = D from rfl, e2]; rfl
  have hsched := h2.chg
  have hoth : ∀ i : Nat, i ≠ D → w2.comps (i + 1) = x.w.comps (i + 1) := fun i hi => by
    rw [hsched.other (i + 1) (fun h => hi (Nat.succ.inj h)), ot1 (i + 1) (fun h => hi (Nat.succ.inj h))]
  have hmono : x.w.now ≤ w1.now := by
    have := hI.due1 rfl
    rw [n1']; simpa using this
  have hin : ∀ y ∈ x.w.events, w1.now ≤ y.t := by
    intro y hy
    have := hmin y hy
    unfold Ev.lt at this
    simp only [Bool.or_eq_false_iff, decide_eq_false_iff_not] at this
    rw [n1']
    exact not_lt.mp this.1
  have hes : es.Perm ((List.range' A (n - A)).map (arr a)) := (hperm.symm.trans hq).cons_inv
  refine ⟨_, turn_run e1 cu1' t2, ?_⟩
  refine ⟨hI.an, le_rfl, le_rfl, hsa, fun h => absurd h (by simp), ?_, ?_, ?_, ?_, fun h => absurd h (by simp), fun _ => ⟨(w1.seq + 1 : Nat), ?_⟩, ?_, ?_, ?_, fun h => absurd h (by simp),
    ?_, ?_, ?_, fun _ => ?_, ?_, ?_, ?_, ?_, ?_, ?_, ?_, ?_, ?_, ?_, ?_, ?_, ?_, ?_, ?_, ?_⟩
  · show w2.main = 0
    rw [hsched.main, mn1]; exact hI.main
  · show w2.standby = []
    rw [hsched.standby, sb1]
  · show w2.pending = []
    rw [hsched.pending, pd1]
  · show Heapq.IsHeap _ w2.events
    rw [h2.events]; exact Heapq.heappush_isHeap evLaw _ (by rw [ev1]; exact hheap)
  · show w2.events.Perm _
    rw [h2.events, ev1, n1', if_pos rfl]
    exact (Heapq.heappush_perm _ _).trans (hes.cons _)
  · intro i h1 h2'
    show w2.now ≤ _
    rw [hsched.now]
    exact hin (arr a i) (hq.symm.subset (List.mem_cons_of_mem _ (mem_range'_map h1 h2')))
  · intro _
    show w2.now ≤ _
    rw [hsched.now, n1', if_pos rfl]; exact le_add_of_nonneg_right (hs D)
  · intro i hi
    show _ ≤ w2.now
    rw [hsched.now]; exact (hI.past i hi).trans hmono
  · intro c
    show (w2.comps c).waits = [] ∧ (w2.comps c).fromStores = [] ∧ (w2.comps c).toStores = [] ∧ (w2.comps c).oneof = false
    by_cases h : c = D + 1
    · subst h
      rw [hsched.waits, hsched.froms, hsched.tos, hsched.oneof, c1']; exact pl
    · rw [hsched.other c h, ot1 c h]; exact hI.plain c
  · intro i h1 h2'
    show (w2.comps (i + 1)).requests = _ ∧ (w2.comps (i + 1)).onList = _ ∧ (w2.comps (i + 1)).status = _
    rw [hoth i (by omega)]; exact hI.req1 i h1 h2'
  · intro i hi
    show (w2.comps (i + 1)).requests = []
    by_cases h : i = D
    · rw [h, rq2, c1']; exact hI.req0 D (.inl (by omega))
    · rw [hoth i h]; exact hI.req0 i hi
  · show (w2.comps (D + 1)).claims = _
    rw [cl2, c1']; exact hI.clm1 rfl
  · intro i hi
    show (w2.comps (i + 1)).claims = []
    rw [hoth i (by omega)]; exact hI.clm0 i hi
  · show Clerk (w2.res 1) _
    rw [r2, r1]; exact hI.clerk
  · intro h; show (w2.res 1).minq = _
    rw [r2, r1]; exact hI.minq0 h
  · intro h; show (w2.res 1).minq = _
    rw [r2, r1]; exact hI.minq1 h
  · show (w2.queues _).cap = ⊤
    rw [q2, q1]; exact hI.rcap
  · show (w2.queues _).mem = _
    rw [q2, q1]; exact hI.rmem
  · show (w2.queues _).stays = _
    rw [q2, q1]; exact hI.rstay
  · show (w2.queues _).cap = ⊤
    rw [q2, q1]; exact hI.ccap
  · show (w2.queues _).mem = _
    rw [q2, q1]; exact hI.cmem
  · show (w2.queues _).stays = _
    rw [q2, q1]; exact hI.cstay
  · intro i hi; show (if i + 1 = D + 1 then _ else _) = 3
    rw [if_neg (by omega)]; exact hI.t3 i hi
  · intro i h1 h2'; show (if i + 1 = D + 1 then _ else _) = 2
    have : i = D := by omega
    rw [if_pos (by omega), this, hI.t1 D (by omega) (by omega)]
  · intro i h1 h2'; show (if i + 1 = D + 1 then _ else _) = 1
    rw [if_neg (by omega)]; exact hI.t1 i (by omega) h2'
  · intro i h1; show (if i + 1 = D + 1 then _ else _) = 0
    rw [if_neg (by omega)]; exact hI.t0 i h1
  · intro i
    rw [moments_add]
    show _ = List.take (if i + 1 = D + 1 then x.turns (i + 1) + 1 else x.turns (i + 1)) _
    by_cases h : i = D
    · subst h
      rw [if_pos rfl, if_pos rfl, hI.moments, hI.t1 i (by omega) (by omega), n1']; rfl
    · rw [if_neg (fun h' => h (Nat.succ.inj h').symm), if_neg (fun h' => h (Nat.succ.inj h'))]; exact hI.moments i
  · show (x.log ++ [_]).length = _
    rw [List.length_append, hI.count]; simp; omega

theorem end_run {w : World} {c : CId} {f : Nat} (hcl : (w.comps c).claims = []) :
    ∃ w', terminate f c w = .ok w' ∧ Calm0 w w' c ∧ (w'.comps c).requests = (w.comps c).requests ∧ (w'.comps c).claims = [] ∧
      w'.res = w.res ∧ w'.queues = w.queues := by
  refine ⟨w.modC c (fun x => { x with fromItem := none, toItem := none, status := .data, schedTime := ⊤ }), ?_, calm0_modC rfl rfl rfl rfl, ?_, ?_, rfl, rfl⟩
  · unfold terminate releaseAll
    rw [hcl]; rfl
  · rw [c_self]
  · rw [c_self]; exact hcl

/-- the service is over -/
theorem end_service {f : Nat} (hI : Inv a s n x A D 1 1) {es : List Ev} {q : Int}
    (hpop : Heapq.heappop Ev.lt x.w.events = some (⟨begins a s D + s D, (0 : Rat), q, D + 1, none⟩, es))
    (hq : x.w.events.Perm (⟨begins a s D + s D, (0 : Rat), q, D + 1, none⟩ :: (List.range' A (n - A)).map (arr a))) :
    ∃ x' g', Play.turn (f + 10) (visit s) x = some x' ∧ Inv a s n x' A (D + 1) g' 0 := by
  have hsp := Heapq.heappop_spec (l := x.w.events) evLaw hI.heap
  rw [hpop] at hsp
  obtain ⟨hperm, hheap, hmin⟩ := hsp
  have hsa := hI.sa
  have pl := hI.plain (D + 1)
  obtain ⟨w1, e1, n1, cu1, ev1, sq1, sb1, pd1, mn1, ot1, c1, r1, q1⟩ := step_run hI.standby hI.pending hpop
    (by rw [hI.main]; exact Nat.succ_ne_zero _) (hI.req0 D (.inl (by omega))) pl.1 pl.2.1 pl.2.2.1
  have c1' : w1.comps (D + 1) = { x.w.comps (D + 1) with onList := false, status := .current, schedTime := ⊤ } := c1
  have n1' : w1.now = begins a s D + s D := n1
  have cu1' : w1.current = D + 1 := cu1
  have cl1 : (w1.comps (D + 1)).claims = [(1, 1)] := by rw [c1']; exact hI.clm1 rfl
  obtain ⟨w2, e2, h2, rq2, cl2, ol2, st2, K2, m2, q2, p2⟩ := give_back (w := w1) (c := D + 1) (m := ⟨D + 1, 0, begins a s D⟩) (by rw [r1]; exact_mod_cast hI.clerk) cl1
    (by rw [q1, hI.cmem]; rfl) rfl
  have hmono : x.w.now ≤ w1.now := by
    have := hI.due1 rfl
    rw [n1']; simpa using this
  have hin : ∀ y ∈ x.w.events, w1.now ≤ y.t := by
    intro y hy
    have := hmin y hy
    unfold Ev.lt at this
    simp only [Bool.or_eq_false_iff, decide_eq_false_iff_not] at this
    rw [n1']
    exact not_lt.mp this.1
  have hes : es.Perm ((List.range' A (n - A)).map (arr a)) := (hperm.symm.trans hq).cons_inv
  have o2 : ∀ d, d ≠ D + 1 → w2.comps d = x.w.comps d := fun d hd => by rw [h2.chg.other d hd, ot1 d hd]
  have tr : x.turns (D + 1) = 2 := hI.t2 D le_rfl (by omega)
  -- the next in line gets the clerk
  obtain ⟨w3, g', e3, ho3, hc3, hsched, hg, hev, hK, hm3, hq3, hp3⟩ : ∃ (w3 : World) (g' : Nat), tryReqR (f + 10) 1 w2 = .ok w3 ∧
      (∀ d, d ≠ D + 1 → (w3.comps d).waits = (w2.comps d).waits ∧ (w3.comps d).fromStores = (w2.comps d).fromStores ∧ (w3.comps d).toStores = (w2.comps d).toStores ∧
        (w3.comps d).oneof = (w2.comps d).oneof) ∧
      (w3.comps (D + 1) = w2.comps (D + 1) ∧ w3.current = w2.current) ∧ (w3.now = w2.now ∧ w3.standby = w2.standby ∧ w3.pending = w2.pending ∧ w3.main = w2.main) ∧
      ((g' = 0 ∧ A = D + 1 ∧ (∀ d, w3.comps d = w2.comps d)) ∨ (g' = 1 ∧ D + 1 < A ∧ (∀ d, d ≠ D + 2 → w3.comps d = w2.comps d) ∧ (w3.comps (D + 2)).requests = [] ∧
        (w3.comps (D + 2)).claims = [(1, 1)])) ∧
      (Heapq.IsHeap Ev.lt w3.events ∧ (g' = 0 → w3.events = es) ∧ (g' = 1 → ∃ q, w3.events.Perm (⟨w1.now, (0 : Rat), q, D + 2, none⟩ :: es))) ∧ Clerk (w3.res 1) g' ∧
      (w3.res 1).minq = (if D + 1 + g' = A then ⊤ else ((1 : Rat) : ETime)) ∧
      ((w3.queues (.requesters 1)).cap = ⊤ ∧ (w3.queues (.requesters 1)).mem = (List.range' (D + 1 + g') (A - (D + 1 + g'))).map (fun i => ⟨i + 1, 0, a i⟩) ∧
        (w3.queues (.requesters 1)).stays = (List.range (D + 1 + g')).map (fun i => begins a s i - a i)) ∧
      ((w3.queues (.claimers 1)).cap = ⊤ ∧ (w3.queues (.claimers 1)).mem = (List.range' (D + 1) g').map (fun i => ⟨i + 1, 0, w1.now⟩) ∧
        (w3.queues (.claimers 1)).stays = (List.range (D + 1)).map s) := by
    have hh2 : Heapq.IsHeap Ev.lt w2.events := by rw [h2.events, ev1]; exact hheap
    have rc2 : (w2.queues (.requesters 1)).cap = ⊤ := by rw [q2, q1]; exact hI.rcap
    have rm2 : (w2.queues (.requesters 1)).mem = (List.range' (D + 1) (A - (D + 1))).map (fun i => ⟨i + 1, 0, a i⟩) := by rw [q2, q1]; exact hI.rmem
    have rs2 : (w2.queues (.requesters 1)).stays = (List.range (D + 1)).map (fun i => begins a s i - a i) := by rw [q2, q1]; exact hI.rstay
    have cc2 : (w2.queues (.claimers 1)).cap = ⊤ := by rw [p2]; show (w1.queues _).cap = ⊤; rw [q1]; exact hI.ccap
    have cm2 : (w2.queues (.claimers 1)).mem = [] := by rw [p2]; rfl
    have cs2 : (w2.queues (.claimers 1)).stays = (List.range (D + 1)).map s := by
      rw [p2]; show (w1.queues _).stays ++ [w1.now - begins a s D] = _
      rw [q1, hI.cstay, List.range_succ, List.map_append, n1', add_sub_cancel_left]; rfl
    rcases Nat.lt_or_ge (D + 1) A with hlt | hge
    · have hne : (D + 2 : Nat) ≠ D + 1 := by omega
      have rq := hI.req1 (D + 1) le_rfl hlt
      have c2 : w2.comps (D + 2) = x.w.comps (D + 2) := o2 _ hne
      have hm : (w2.queues (.requesters 1)).mem = ⟨D + 2, 0, a (D + 1)⟩ :: (List.range' (D + 2) (A - (D + 2))).map (fun i => ⟨i + 1, 0, a i⟩) := by
        rw [rm2, range_cons hlt]; rfl
      obtain ⟨w3, e3, h3, rq3, cl3, K3, m3, q3, p3⟩ := pass_next (w := w2) (c := D + 2) (f := f + 5) K2 hm rfl rfl cc2 cm2 (by rw [c2]; exact rq.1)
        (by rw [c2]; exact hI.clm0 (D + 1) (.inl (by omega))) (by rw [c2]; exact rq.2.1) (by rw [c2, rq.2.2]; simp) (by rw [c2, rq.2.2]; simp)
        (by rw [c2]; exact (hI.plain _).2.2.2) (by rw [m2, r1]; exact hI.minq1 hlt)
      have n2 : w2.now = w1.now := h2.chg.now
      refine ⟨w3, 1, e3, fun d hd => ?_, ⟨h3.chg.other _ hne.symm, h3.chg.current⟩, ⟨h3.chg.now, h3.chg.standby, h3.chg.pending, h3.chg.main⟩,
        .inr ⟨rfl, hlt, h3.chg.other, rq3, cl3⟩, ⟨?_, fun h => absurd h (by simp), fun _ => ⟨(w2.seq + 1 : Nat), ?_⟩⟩, by exact_mod_cast K3, ?_, ⟨?_, ?_, ?_⟩, ⟨?_, ?_, ?_⟩⟩
      · by_cases h : d = D + 2
        · rw [h]; exact ⟨h3.chg.waits, h3.chg.froms, h3.chg.tos, h3.chg.oneof⟩
        · rw [h3.chg.other d h]; exact ⟨rfl, rfl, rfl, rfl⟩
      · rw [h3.events]; exact Heapq.heappush_isHeap evLaw _ hh2
      · rw [h3.events, h2.events, ev1, n2]; exact Heapq.heappush_perm _ _
      · rw [m3]
        by_cases h : D + 1 + 1 = A
        · rw [if_pos h, if_pos]; rw [← h]; simp
        · rw [if_neg h, if_neg]
          rw [range_cons (by omega)]; simp
      · rw [q3]; exact rc2
      · rw [q3]; rfl
      · rw [q3]; show (w2.queues _).stays ++ [w2.now - a (D + 1)] = _
        rw [rs2, List.range_succ (n := D + 1), List.map_append, n2, n1']
        have : begins a s (D + 1) = begins a s D + s D := by
          show max (a (D + 1)) _ = _
          refine max_eq_right ?_
          rw [← n1']; exact (hI.past (D + 1) hlt).trans hmono
        simp [this]
      · rw [p3]; exact cc2
      · rw [p3]; show (w2.queues _).mem ++ [⟨D + 2, 0, w2.now⟩] = _
        rw [cm2, n2]; rfl
      · rw [p3]; exact cs2
    · have hA : A = D + 1 := by omega
      have hm : (w2.queues (.requesters 1)).mem = [] := by rw [rm2, hA]; simp
      refine ⟨w2, 0, pass_none (f := f + 5) K2 hm, fun d _ => ⟨rfl, rfl, rfl, rfl⟩, ⟨rfl, rfl⟩, ⟨rfl, rfl, rfl, rfl⟩, .inl ⟨rfl, hA, fun _ => rfl⟩,
        ⟨hh2, fun _ => by rw [h2.events, ev1], fun h => absurd h (by simp)⟩, by exact_mod_cast K2, ?_, ⟨rc2, rm2, rs2⟩, ⟨cc2, cm2, cs2⟩⟩
      rw [if_pos (by omega), m2, r1]; exact hI.minq0 (by omega)
  obtain ⟨w4, e4, h4, rq4, cl4, r4, q4⟩ := end_run (w := w3) (c := D + 1) (f := f + 10) (by rw [hc3.1]; exact cl2)
  have t2 : forR (visit s (D + 1) (x.turns (D + 1))) (exec (f + 10)) w1 = .ok w4 := by
    rw [tr]
    simp only [visit, forR, exec]
    have : releaseAll (f + 10) (D + 1) w1 = .ok w3 := by
      unfold releaseAll
      rw [cl1]
      show ((releaseCore (D + 1) 1 none w1 ⊳ tryReqR (f + 10) 1) ⊳ fun w => .ok w) = _
      rw [e2, then_ok, e3]; rfl
    rw [this, then_ok]
    rw [hc3.2, h2.chg.current, cu1', e4]; rfl
  have hbeg : ∀ i : Nat, i = D + 1 → g' = 1 → begins a s i = w1.now := by
    intro i hi h
    subst hi
    rcases hg with hg | hg
    · omega
    · show max (a (D + 1)) _ = _
      rw [n1']
      refine max_eq_right ?_
      rw [← n1']; exact (hI.past (D + 1) hg.2.1).trans hmono
  have n4 : w4.now = w1.now := by rw [h4.chg.now, hsched.1, h2.chg.now]
  have hoth : ∀ i : Nat, i ≠ D → (i ≠ D + 1 ∨ g' = 0) → w4.comps (i + 1) = x.w.comps (i + 1) := fun i hi hi' => by
    rw [h4.chg.other (i + 1) (fun h => hi (Nat.succ.inj h))]
    rcases hg with hg | hg
    · rw [hg.2.2]; exact o2 _ (fun h => hi (Nat.succ.inj h))
    · rw [hg.2.2.1 (i + 1) (fun h => by have := Nat.succ.inj h; omega)]; exact o2 _ (fun h => hi (Nat.succ.inj h))
  have hg1 : g' ≤ 1 := by rcases hg with hg | hg <;> omega
  have hgA : D + 1 + g' ≤ A := by rcases hg with hg | hg <;> omega
  refine ⟨_, g', turn_run e1 cu1' t2, ?_⟩
  refine ⟨hI.an, hg1, Nat.zero_le _, hgA, fun h => ?_, ?_, ?_, ?_, ?_, fun h => ?_, fun h => ?_, ?_, fun h => ?_, ?_, fun h j hj => ?_,
    ?_, ?_, ?_, fun h => ?_, ?_, ?_, fun h => ?_, fun h => ?_, ?_, ?_, ?_, ?_, ?_, ?_, ?_, ?_, ?_, ?_, ?_, ?_⟩
  · rcases hg with hg | hg <;> omega
  · show w4.main = 0
    rw [h4.chg.main, hsched.2.2.2, h2.chg.main, mn1]; exact hI.main
  · show w4.standby = []
    rw [h4.chg.standby, hsched.2.1, h2.chg.standby, sb1]
  · show w4.pending = []
    rw [h4.chg.pending, hsched.2.2.1, h2.chg.pending, pd1]
  · show Heapq.IsHeap _ w4.events
    rw [h4.events]; exact hev.1
  · show w4.events.Perm _
    rw [h4.events, hev.2.1 h]; exact hes
  · obtain ⟨q', hq'⟩ := hev.2.2 h
    refine ⟨q', ?_⟩
    show w4.events.Perm _
    rw [h4.events, hbeg _ rfl h, if_neg (by simp), add_zero]
    exact hq'.trans (hes.cons _)
  · intro i h1 h2'
    show w4.now ≤ _
    rw [n4]
    exact hin (arr a i) (hq.symm.subset (List.mem_cons_of_mem _ (mem_range'_map h1 h2')))
  · show w4.now ≤ _
    rw [n4, hbeg _ rfl h, if_neg (by simp), add_zero]
  · intro i hi
    show _ ≤ w4.now
    rw [n4]; exact (hI.past i hi).trans hmono
  · show w4.now = _
    have : D = j := by omega
    rw [n4, n1', this]
  · intro c
    show (w4.comps c).waits = [] ∧ (w4.comps c).fromStores = [] ∧ (w4.comps c).toStores = [] ∧ (w4.comps c).oneof = false
    by_cases h : c = D + 1
    · rw [h, h4.chg.waits, h4.chg.froms, h4.chg.tos, h4.chg.oneof, hc3.1, h2.chg.waits, h2.chg.froms, h2.chg.tos, h2.chg.oneof, c1']; exact pl
    · rw [h4.chg.other c h, (ho3 c h).1, (ho3 c h).2.1, (ho3 c h).2.2.1, (ho3 c h).2.2.2, o2 c h]; exact hI.plain c
  · intro i h1 h2'
    show (w4.comps (i + 1)).requests = _ ∧ (w4.comps (i + 1)).onList = _ ∧ (w4.comps (i + 1)).status = _
    rw [hoth i (by omega) (by omega)]; exact hI.req1 i (by omega) h2'
  · intro i hi
    show (w4.comps (i + 1)).requests = []
    by_cases h : i = D
    · rw [h, rq4, hc3.1, rq2, c1']; exact hI.req0 D (.inl (by omega))
    · by_cases h' : i = D + 1 ∧ g' = 1
      · rcases hg with hg | hg
        · omega
        · rw [h'.1, h4.chg.other _ (by simp)]; exact hg.2.2.2.1
      · rw [hoth i h (by omega)]; exact hI.req0 i (by omega)
  · show (w4.comps (D + 2)).claims = _
    rcases hg with hg | hg
    · omega
    · rw [h4.chg.other _ (by simp)]; exact hg.2.2.2.2
  · intro i hi
    show (w4.comps (i + 1)).claims = []
    by_cases h : i = D
    · rw [h]; exact cl4
    · rw [hoth i h (by omega)]; exact hI.clm0 i (.inl h)
  · show Clerk (w4.res 1) _
    rw [r4]; exact hK
  · show (w4.res 1).minq = _
    rw [r4, hm3, if_pos h]
  · show (w4.res 1).minq = _
    rw [r4, hm3, if_neg (by omega)]
  · show (w4.queues _).cap = ⊤
    rw [q4]; exact hq3.1
  · show (w4.queues _).mem = _
    rw [q4]; exact hq3.2.1
  · show (w4.queues _).stays = _
    rw [q4]; exact hq3.2.2
  · show (w4.queues _).cap = ⊤
    rw [q4]; exact hp3.1
  · show (w4.queues _).mem = _
    rw [q4, hp3.2.1]
    refine List.map_congr_left fun i hi => ?_
    rw [List.mem_range'_1] at hi
    rw [hbeg i (by omega) (by omega)]
  · show (w4.queues _).stays = _
    rw [q4]; exact hp3.2.2
  · intro i hi; show (if i + 1 = D + 1 then _ else _) = 3
    by_cases h : i = D
    · rw [if_pos (by omega), h, tr]
    · rw [if_neg (by omega)]; exact hI.t3 i (by omega)
  · intro i h1 h2'; omega
  · intro i h1 h2'; show (if i + 1 = D + 1 then _ else _) = 1
    rw [if_neg (by omega)]; exact hI.t1 i (by omega) h2'
  · intro i h1; show (if i + 1 = D + 1 then _ else _) = 0
    rw [if_neg (by omega)]; exact hI.t0 i h1
  · intro i
    rw [moments_add]
    show _ = List.take (if i + 1 = D + 1 then x.turns (i + 1) + 1 else x.turns (i + 1)) _
    by_cases h : i = D
    · subst h
      rw [if_pos rfl, if_pos rfl, hI.moments, tr, n1']; rfl
    · rw [if_neg (fun h' => h (Nat.succ.inj h').symm), if_neg (fun h' => h (Nat.succ.inj h'))]; exact hI.moments i
  · show (x.log ++ [_]).length = _
    rw [List.length_append, hI.count]; simp; omega

theorem forR_snoc {α : Type} (f : α → World → R) (y : α) : ∀ (l : List α) (w : World), forR (l ++ [y]) f w = (forR l f w ⊳ f y)
  | [], w => by show (f y w ⊳ fun w => .ok w) = f y w; cases f y w <;> rfl
  | z :: l, w => by
    show (f z w ⊳ forR (l ++ [y]) f) = ((f z w ⊳ forR l f) ⊳ f y)
    cases f z w with
    | ok w' => exact forR_snoc f y l w'
    | err e w' => rfl

/-- the customers have been made; `r0`: the resources -/
structure Made (r0 : RId → Res) (a : Nat → Rat) (k : Nat) (w : World) : Prop where
  now : w.now = 0
  offset : w.offset = 0
  seq : w.seq = k
  heap : Heapq.IsHeap Ev.lt w.events
  events : w.events.Perm ((List.range k).map (arr a))
  standby : w.standby = []
  pending : w.pending = []
  main : w.main = 0
  res : w.res = r0
  queues : w.queues = fun _ => {}
  new : ∀ i : Nat, k ≤ i → w.comps (i + 1) = {}
  plain : ∀ c, (w.comps c).waits = [] ∧ (w.comps c).fromStores = [] ∧ (w.comps c).toStores = [] ∧ (w.comps c).oneof = false ∧ (w.comps c).requests = [] ∧ (w.comps c).claims = []

theorem make {f : Nat} (r0 : RId → Res) (h0 : ∀ i, 0 ≤ a i) : ∀ k, ∃ w, forR ((List.range k).map (fun i => Op.create (i + 1) (some ((a i : Rat) : ETime)) (0 : Rat) (0 : Rat) false false false))
    (exec f) { World.init with res := r0 } = .ok w ∧ Made r0 a k w
  | 0 => ⟨{ World.init with res := r0 }, rfl, rfl, rfl, rfl, (by intro i hi; exact absurd hi (by simp [World.init])), List.Perm.refl _, rfl, rfl, rfl, rfl, rfl, fun i _ => rfl, fun c => by
      unfold World.init; dsimp only; split <;> exact ⟨rfl, rfl, rfl, rfl, rfl, rfl⟩⟩
  | k + 1 => by
    obtain ⟨w, e, h⟩ := make r0 h0 k
    obtain ⟨w1, hw1⟩ : ∃ w1, w1 = w.modC (k + 1) (fun x => { x with status := .scheduled, skipStandby := false, hasProcess := true }) := ⟨_, rfl⟩
    obtain ⟨w2, hw2⟩ : ∃ w2, w2 = w1.modC (k + 1) (fun x => { x with schedTime := ((a k : Rat) : ETime) }) := ⟨_, rfl⟩
    obtain ⟨w3, hw3⟩ : ∃ w3, w3 = push (k + 1) ((a k : Rat) : ETime) (0 : Rat) false none w2 := ⟨_, rfl⟩
    have ev2 : w2.events = w.events := by rw [hw2, hw1]; rfl
    have sq2 : w2.seq = w.seq := by rw [hw2, hw1]; rfl
    have ev3 : w3.events = Heapq.heappush Ev.lt w.events (arr a k) := by
      rw [hw3]; show Heapq.heappush Ev.lt w2.events ⟨a k, (0 : Rat), (w2.seq + 1 : Nat), k + 1, none⟩ = _
      rw [ev2, sq2, h.seq]; rfl
    have c2 : ∀ c, c ≠ k + 1 → w3.comps c = w.comps c := by
      intro c hc
      rw [hw3]; show (w2.modC (k + 1) (fun x => { x with onList := true })).comps c = _
      rw [c_other _ _ _ _ hc, hw2, c_other _ _ _ _ hc, hw1, c_other _ _ _ _ hc]
    have c3 : w3.comps (k + 1) = { w.comps (k + 1) with status := .scheduled, skipStandby := false, hasProcess := true, schedTime := ((a k : Rat) : ETime), onList := true } := by
      rw [hw3]; show (w2.modC (k + 1) (fun x => { x with onList := true })).comps (k + 1) = _
      rw [c_self, hw2, c_self, hw1, c_self]
    refine ⟨w3, ?_, ?_, ?_, ?_, ?_, ?_, ?_, ?_, ?_, ?_, ?_, ?_, ?_⟩
    · rw [List.range_succ, List.map_append, List.map_singleton, forR_snoc, e, then_ok]
      show create (k + 1) (some ((a k : Rat) : ETime)) (0 : Rat) (0 : Rat) false false false w = _
      unfold create
      rw [if_neg (by unfold World.status; rw [h.new k le_rfl]; simp)]
      simp only
      have ht : ((a k : Rat) : ETime) + (w.offset : ETime) + ((0 : Rat) : ETime) = ((a k : Rat) : ETime) := by
        rw [h.offset, ← WithTop.coe_add, ← WithTop.coe_add, add_zero, add_zero]
      rw [ht, ← hw1]
      unfold reschedule
      have n1 : w1.now = 0 := by rw [hw1]; exact h.now
      rw [if_neg (by rw [n1, WithTop.coe_lt_coe]; exact not_lt.mpr (h0 k)), ← hw2, ← hw3]
    · rw [hw3, hw2, hw1]; exact h.now
    · rw [hw3, hw2, hw1]; exact h.offset
    · rw [hw3]; show w2.seq + 1 = _; rw [sq2, h.seq]
    · rw [ev3]; exact Heapq.heappush_isHeap evLaw _ h.heap
    · rw [ev3, List.range_succ, List.map_append]
      exact (Heapq.heappush_perm _ _).trans ((h.events.cons _).trans (List.perm_append_comm (l₁ := [arr a k])))
    · rw [hw3, hw2, hw1]; exact h.standby
    · rw [hw3, hw2, hw1]; exact h.pending
    · rw [hw3, hw2, hw1]; exact h.main
    · rw [hw3, hw2, hw1]; exact h.res
    · rw [hw3, hw2, hw1]; exact h.queues
    · intro i hi
      rw [c2 (i + 1) (fun h => by have := Nat.succ.inj h; omega)]; exact h.new i (by omega)
    · intro c
      by_cases hc : c = k + 1
      · rw [hc, c3]; exact h.plain (k + 1)
      · rw [c2 c hc]; exact h.plain c

theorem opened {f : Nat} (h0 : ∀ i, 0 ≤ a i) (n : Nat) : ∃ w, forR (opening a n) (exec f) World.init = .ok w ∧ Inv a s n ⟨w, fun _ => 0, []⟩ 0 0 0 0 := by
  obtain ⟨w, e, h⟩ := make (f := f) (fun _ => {}) h0 n
  change forR _ _ World.init = _ at e
  obtain ⟨w1, hw1⟩ : ∃ w1 : World, w1 = { w with endOnEmpty := true } := ⟨_, rfl⟩
  obtain ⟨w2, hw2⟩ : ∃ w2, w2 = (setStatus 0 .scheduled w1).modC 0 (fun x => { x with schedTime := ⊤ }) := ⟨_, rfl⟩
  have oth : ∀ i : Nat, w2.comps (i + 1) = w.comps (i + 1) := by
    intro i
    rw [hw2, c_other _ _ _ _ (by simp)]; unfold setStatus; rw [c_other _ _ _ _ (by simp), hw1]
  have pl : ∀ c, (w2.comps c).waits = [] ∧ (w2.comps c).fromStores = [] ∧ (w2.comps c).toStores = [] ∧ (w2.comps c).oneof = false ∧ (w2.comps c).requests = [] ∧ (w2.comps c).claims = [] := by
    intro c
    cases c with
    | zero => rw [hw2, c_self]; unfold setStatus; rw [c_self, hw1]; exact h.plain 0
    | succ i => rw [oth i]; exact h.plain _
  have ev : w2.events = w.events := by rw [hw2, hw1]; rfl
  have nw : w2.now = 0 := by rw [hw2, hw1]; exact h.now
  have rs : w2.res = fun _ => {} := by rw [hw2, hw1]; exact h.res
  have qs : w2.queues = fun _ => {} := by rw [hw2, hw1]; exact h.queues
  refine ⟨w2, ?_, Nat.zero_le _, Nat.zero_le _, le_rfl, le_rfl, fun _ => rfl, ?_, ?_, ?_, ?_, fun _ => ?_, fun h => absurd h (by simp), fun i _ _ => ?_, fun h => absurd h (by simp),
    fun i hi => absurd hi (by simp), fun _ j hj => absurd hj (by simp), fun c => ⟨(pl c).1, (pl c).2.1, (pl c).2.2.1, (pl c).2.2.2.1⟩, fun i _ hi => absurd hi (by simp), fun i _ => (pl _).2.2.2.2.1,
    fun h => absurd h (by simp), fun i _ => (pl _).2.2.2.2.2, ?_, fun _ => ?_, fun h => absurd h (by simp), ?_, ?_, ?_, ?_, ?_, ?_, fun i hi => absurd hi (by simp),
    fun i _ hi => absurd hi (by simp), fun i _ hi => absurd hi (by simp), fun i _ => rfl, fun i => rfl, rfl⟩
  · unfold opening
    rw [forR_snoc, e, then_ok]
    show runStart none none ⊤ false false w = _
    unfold runStart
    simp only
    rw [← hw1, h.main]
    unfold reschedule
    rw [if_neg (by simp), ← hw2]
    rfl
  · show w2.main = 0
    rw [hw2, hw1]; exact h.main
  · show w2.standby = []
    rw [hw2, hw1]; exact h.standby
  · show w2.pending = []
    rw [hw2, hw1]; exact h.pending
  · show Heapq.IsHeap _ w2.events
    rw [ev]; exact h.heap
  · show w2.events.Perm _
    rw [ev, Nat.sub_zero, ← List.range_eq_range']; exact h.events
  · show w2.now ≤ a i
    rw [nw]; exact h0 i
  · show Clerk (w2.res 1) _
    rw [rs]; exact ⟨rfl, rfl, rfl, rfl, rfl, rfl⟩
  · show (w2.res 1).minq = ⊤
    rw [rs]
  · show (w2.queues _).cap = ⊤
    rw [qs]
  · show (w2.queues _).mem = _
    rw [qs]; rfl
  · show (w2.queues _).stays = _
    rw [qs]; rfl
  · show (w2.queues _).cap = ⊤
    rw [qs]
  · show (w2.queues _).mem = _
    rw [qs]; rfl
  · show (w2.queues _).stays = _
    rw [qs]; rfl

theorem next_turn {f : Nat} (hI : Inv a s n x A D g b) (hs : ∀ i, 0 ≤ s i) (ha : ∀ i j, i ≤ j → a i ≤ a j) (hlt : A + (D + b) + D < 3 * n) :
    ∃ x' A' D' g' b', Play.turn (f + 10) (visit s) x = some x' ∧ Inv a s n x' A' D' g' b' ∧ x'.log.length = x.log.length + 1 := by
  have hlog : ∀ {x'}, Play.turn (f + 10) (visit s) x = some x' → x'.log.length = x.log.length + 1 := by
    intro x' h
    unfold Play.turn at h
    split at h
    · cases h
    · split at h
      · cases h
      · cases h; simp
  have hsa := hI.sa
  have han := hI.an
  have hbg := hI.bg
  have hg1 := hI.g1
  have hsp := Heapq.heappop_spec (l := x.w.events) evLaw hI.heap
  rcases hpop : Heapq.heappop Ev.lt x.w.events with _ | ⟨e, es⟩
  · rw [hpop] at hsp
    exfalso
    have hnil : x.w.events = [] := hsp
    rcases Nat.lt_or_ge 0 g with h | h
    · obtain ⟨q, hq⟩ := hI.ev1 (by omega)
      rw [hnil] at hq
      exact absurd hq.length_eq (by simp)
    · have := hI.ev0 (by omega)
      rw [hnil] at this
      have hl := this.length_eq
      simp at hl
      have := hI.idle (by omega)
      omega
  · rw [hpop] at hsp
    obtain ⟨hperm, hheap, hmin⟩ := hsp
    have he : e ∈ x.w.events := hperm.symm.subset (List.mem_cons_self ..)
    rcases Nat.lt_or_ge 0 g with h | h
    · have h1 : g = 1 := by omega
      subst h1
      obtain ⟨q, hq⟩ := hI.ev1 rfl
      rcases List.mem_cons.mp (hq.subset he) with h' | h'
      · have hb : b = 0 ∨ b = 1 := by omega
        rcases hb with hb | hb
        · subst hb
          rw [if_neg (by simp), add_zero] at h' hq
          rw [h'] at hpop
          obtain ⟨x', e', h'⟩ := start_service (f := f) hI hs hpop hq
          exact ⟨x', _, _, _, _, e', h', hlog e'⟩
        · subst hb
          rw [if_pos rfl] at h' hq
          rw [h'] at hpop
          obtain ⟨x', g', e', h'⟩ := end_service (f := f) hI hpop hq
          exact ⟨x', _, _, _, _, e', h', hlog e'⟩
      · obtain ⟨i, hi1, hi2, rfl⟩ := range'_mem_map h'
        have := arr_first ha hi1 hi2 (fun j h1 h2 => hq.symm.subset (List.mem_cons_of_mem _ (mem_range'_map h1 h2))) hmin
        subst this
        obtain ⟨x', e', h'⟩ := arrive_busy (f := f) hI ha hpop hi2
        exact ⟨x', _, _, _, _, e', h', hlog e'⟩
    · have h0 : g = 0 := by omega
      subst h0
      have hq := hI.ev0 rfl
      obtain ⟨i, hi1, hi2, rfl⟩ := range'_mem_map (hq.subset he)
      have := arr_first ha hi1 hi2 (fun j h1 h2 => hq.symm.subset (mem_range'_map h1 h2)) hmin
      subst this
      obtain ⟨x', e', h'⟩ := arrive_free (f := f) hI ha hpop hi2
      exact ⟨x', _, _, _, _, e', h', hlog e'⟩

theorem turns_run {f : Nat} (hs : ∀ i, 0 ≤ s i) (ha : ∀ i j, i ≤ j → a i ≤ a j) (hI : Inv a s n x 0 0 0 0) : ∀ k, k ≤ 3 * n →
    ∃ x' A' D' g' b', Play.run (f + 10) (visit s) k x = some x' ∧ Inv a s n x' A' D' g' b' ∧ x'.log.length = k
  | 0, _ => ⟨x, _, _, _, _, rfl, hI, hI.count⟩
  | k + 1, hk => by
    obtain ⟨x1, A1, D1, g1, b1, e1, h1, l1⟩ := turns_run (f := f) hs ha hI k (by omega)
    obtain ⟨x2, A2, D2, g2, b2, e2, h2, l2⟩ := next_turn (f := f) h1 hs ha (by have := h1.count; omega)
    refine ⟨x2, A2, D2, g2, b2, ?_, h2, by omega⟩
    show (Play.run (f + 10) (visit s) k x).bind _ = _
    rw [e1]; exact e2

end Bank

open Bank

/-- **C80.** A clerk (a resource of capacity 1) serves customers. Each customer is a component that is made to start at its arrival time, and whose process requests
the clerk, holds for its service time, releases the clerk and ends; the main program makes the customers and runs the simulation until there are no more events.
Nothing is raised, and each customer gets control exactly three times: at its arrival, when its service begins and when it is over. Service begins at the arrival,
or when the customer before has been served, whichever is later (`begins`). The requesters' length of stay holds the waiting times in order of arrival, the
claimers' length of stay the service times; in the end both queues are empty and main gets control, at the end of the last service. -/
theorem C80_single_server (a s : Nat → Rat) (n f : Nat) (h0 : 0 ≤ a 0) (ha : ∀ i, a i ≤ a (i + 1)) (hs : ∀ i, 0 ≤ s i) :
    ∃ w, forR (opening a n) (exec (f + 10)) World.init = .ok w ∧ ∃ x, Play.run (f + 10) (visit s) (3 * n) { w := w } = some x ∧
      (∀ i < n, x.moments (i + 1) = [a i, begins a s i, begins a s i + s i]) ∧
      (x.w.queues (.requesters 1)).stays = (List.range n).map (fun i => begins a s i - a i) ∧
      (x.w.queues (.claimers 1)).stays = (List.range n).map s ∧
      x.w.inQ (.requesters 1) = [] ∧ x.w.inQ (.claimers 1) = [] ∧
      ∃ w', step x.w = .ok w' ∧ w'.current = w'.main ∧ ∀ j, n = j + 1 → w'.now = begins a s j + s j := by
  have mono : ∀ i j, i ≤ j → a i ≤ a j := fun i j h => monotone_nat_of_le_succ ha h
  have hpos : ∀ i, 0 ≤ a i := fun i => h0.trans (mono 0 i (Nat.zero_le _))
  obtain ⟨w, e, hI⟩ := opened (s := s) (f := f + 10) hpos n
  obtain ⟨x, A, D, g, b, e', h, hl⟩ := turns_run (f := f) hs mono hI (3 * n) le_rfl
  have hc := h.count
  have h1 := h.an; have h2 := h.g1; have h3 := h.bg; have h4 := h.sa
  have hb : b = 0 := by omega
  have hg : g = 0 := by omega
  have hD : D = n := by omega
  have hA : A = n := by omega
  subst hb hg hD hA
  have hev : x.w.events = [] := by
    have := (h.ev0 rfl).length_eq
    simpa using this
  refine ⟨w, e, x, e', fun i hi => ?_, h.rstay, h.cstay, ?_, ?_, ?_⟩
  · rw [h.moments i, h.t3 i hi]; rfl
  · unfold World.inQ; rw [h.rmem]; simp
  · unfold World.inQ; rw [h.cmem]; simp
  · have es : step x.w = stepEvent x.w := by
      unfold step
      split
      · rfl
      · rw [h.pending]
    rw [es]
    unfold stepEvent
    rw [if_pos h.standby]
    simp only
    rw [hev]
    exact ⟨_, rfl, rfl, fun j hj => h.rest rfl j hj⟩

/-- waiting times obey Lindley's recursion -/
theorem C80_waiting (a s : Nat → Rat) (i : Nat) :
    begins a s (i + 1) - a (i + 1) = max 0 ((begins a s i - a i) + s i - (a (i + 1) - a i)) := by
  show max (a (i + 1)) (begins a s i + s i) - a (i + 1) = _
  rcases le_total (a (i + 1)) (begins a s i + s i) with h | h
  · rw [max_eq_right h, max_eq_right (by linarith)]; ring
  · rw [max_eq_left h, max_eq_left (by linarith)]; ring

/-- service in order of arrival, one at a time -/
theorem C80_one_at_a_time (a s : Nat → Rat) (i : Nat) : begins a s i + s i ≤ begins a s (i + 1) ∧ a (i + 1) ≤ begins a s (i + 1) :=
  ⟨le_max_right _ _, le_max_left _ _⟩

/-- four customers: the second and the third have to wait, the third and fourth arrive at the very moment that the one before leaves or arrives -/
example : ((Play.run 10 (visit (fun i => [5, 2, 1, 4].getD i 0)) 12 { w := execAll 10 (opening (fun i => [1, 3, 6, 9].getD i 9) 4) World.init }).map
    fun x => ([1, 2, 3, 4].map x.moments, (x.w.queues (.requesters 1)).stays, x.w.now)) =
    some ([[1, 1, 6], [3, 6, 8], [6, 8, 9], [9, 9, 13]], [0, 3, 2, 0], 13) := by decide +kernel

end Verif
