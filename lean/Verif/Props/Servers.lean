import Verif.Props.Bank
import Mathlib.Data.List.Sort

/-!
# A queue with several servers

The program of `Bank` with a resource of any capacity: what the model of the kernel does with it, for all numbers of servers, arrival and service times.
-/

namespace Verif
open World Bank
namespace Desk

/-- the servers: `m`, of which `g` are busy -/
structure Crew (x : Res) (m g : Nat) : Prop where
  cap : x.cap = ((m : Rat) : ETime)
  claimed : x.claimed = (g : Rat)
  anonymous : x.anonymous = false
  preemptive : x.preemptive = false
  first : x.honorFirst = false
  highest : x.honorHighest = false

theorem Crew.free {x : Res} {m g : Nat} (hk : Crew x m g) (h : g < m) : ((1 : Rat) : ETime) ≤ x.avail + (eps : ETime) := by
  unfold Res.avail
  rw [hk.cap, hk.claimed]
  show ((1 : Rat) : ETime) ≤ ((m - g : Rat) : ETime) + (eps : ETime)
  rw [← WithTop.coe_add, WithTop.coe_le_coe]
  have : (g : Rat) + 1 ≤ m := by exact_mod_cast h
  unfold eps; linarith

theorem Crew.full {x : Res} {m : Nat} (hk : Crew x m m) : x.avail + (eps : ETime) < ((1 : Rat) : ETime) := by
  unfold Res.avail
  rw [hk.cap, hk.claimed]
  show ((m - m : Rat) : ETime) + (eps : ETime) < ((1 : Rat) : ETime)
  rw [← WithTop.coe_add, WithTop.coe_lt_coe, sub_self]
  decide +kernel

theorem grant {w : World} {c : CId} {m : QMem} {l : List QMem} {k g : Nat} (hk : Crew (w.res 1) k g) (hfree : g < k) (hm : (w.queues (.requesters 1)).mem = m :: l) (hc : m.c = c)
    (hp : m.prio = 0) (hcc : (w.queues (.claimers 1)).cap = ⊤) (hcm : ∀ m ∈ (w.queues (.claimers 1)).mem, m.prio = 0 ∧ m.c ≠ c) (hrq : (w.comps c).requests = [(1, 1)])
    (hcl : (w.comps c).claims = []) (hon : (w.comps c).onList = false) (hs1 : (w.comps c).status ≠ .interrupted) (hs2 : (w.comps c).status ≠ .standby)
    (ho : (w.comps c).oneof = false) :
    ∃ w', honorNow c w = some (.ok w') ∧ Sched w w' c w.now ∧ (w'.comps c).requests = [] ∧ (w'.comps c).claims = [(1, 1)] ∧
      Crew (w'.res 1) k (g + 1) ∧ (w'.res 1).minq = (if l = [] then ⊤ else (w.res 1).minq) ∧
      w'.queues (.requesters 1) = deq w.now m l (w.queues (.requesters 1)) ∧
      w'.queues (.claimers 1) = enq c w.now (w.queues (.claimers 1)) := by
  have hh : honored w c = [1] := by
    unfold honored
    rw [if_neg (by rw [ho]; simp)]
    unfold honorAll
    simp only [hrq, List.all_cons, List.all_nil, Bool.and_true]
    rw [if_pos]
    · rfl
    · unfold canHonor
      simp only [hk.first, hk.highest, Bool.false_and, Bool.not_false, Bool.true_and]
      rw [if_pos (by decide +kernel)]
      exact decide_eq_true (hk.free hfree)
  unfold honorNow
  rw [if_neg (by rw [hh]; simpa [World.status] using hs1), hh, hrq]
  have hf : (w.queues (.requesters 1)).find c = some m := by
    unfold Queue.find
    rw [hm]; simp [hc]
  have hkc : ∀ m ∈ (w.queues (.claimers 1)).mem, m.prio = 0 ∧ m.c ≠ c := hcm
  have hhas : (w.queues (.claimers 1)).has c = false := by unfold Queue.has; rw [List.any_eq_false]; intro m hm; simpa using (hcm m hm).2
  obtain ⟨w1, hw1⟩ : ∃ w1, w1 = w.modR 1 (fun x => { x with claimed := x.claimed + 1, log := x.log.claims w.now x.cap (x.claimed + 1) }) := ⟨_, rfl⟩
  obtain ⟨w2, hw2⟩ : ∃ w2, w2 = w1.modC c (fun x => { x with claims := addTo x.claims 1 1 }) := ⟨_, rfl⟩
  obtain ⟨w3, hw3⟩ : ∃ w3, w3 = w2.modQ (.claimers 1) (fun _ => enq c w.now (w.queues (.claimers 1))) := ⟨_, rfl⟩
  obtain ⟨w4, hw4⟩ : ∃ w4, w4 = w3.modQ (.requesters 1) (fun _ => deq w.now m l (w.queues (.requesters 1))) := ⟨_, rfl⟩
  obtain ⟨w5, hw5⟩ : ∃ w5, w5 = if l = [] then w4.modR 1 (fun x => { x with minq := ⊤ }) else w4 := ⟨_, rfl⟩
  have e1 : claimOne c [1] (1, 1) w = .ok w5 := by
    unfold claimOne
    rw [if_pos (by simp)]
    simp only
    rw [← hw1]
    have q1 : w1.queues = w.queues := by rw [hw1]; rfl
    have a1 : (w1.res 1).anonymous = false := by rw [hw1, r_self]; exact hk.anonymous
    rw [q1, hf]
    simp only
    rw [if_neg (by rw [a1]; simp), ← hw2, hp]
    have q2 : w2.queues = w.queues := by rw [hw2]; exact q1
    have n2 : w2.now = w.now := by rw [hw2, hw1]; rfl
    unfold enterClaimers
    rw [q2, hhas, if_neg (by simp), enter_run (by rw [q2]; exact hcc) (by rw [q2]; exact hkc), q2, n2, ← hw3]
    have q3 : w3.queues (.requesters 1) = w.queues (.requesters 1) := by rw [hw3, q_other _ _ _ _ (by simp), q2]
    have n3 : w3.now = w.now := by rw [hw3]; exact n2
    show leaveRequesters c 1 w3 = _
    unfold leaveRequesters
    rw [leave_run (by rw [q3]; exact hm) hc, q3, n3, ← hw4]
    show R.ok _ = _
    have q4 : w4.queues (.requesters 1) = deq w.now m l (w.queues (.requesters 1)) := by rw [hw4, q_self]
    have l4 : ((w4.queues (.requesters 1)).len = 0) = (l = []) := by rw [q4]; simp [Queue.len, deq]
    simp only [l4]
    rw [hw5]
  have c5 : w5.comps = w2.comps := by rw [hw5, hw4, hw3]; split <;> rfl
  have c2 : w2.comps c = { w.comps c with claims := [(1, 1)] } := by rw [hw2, c_self, hw1]; show { w.comps c with claims := addTo (w.comps c).claims 1 1 } = _; rw [hcl]; rfl
  have c2' : ∀ d, d ≠ c → w2.comps d = w.comps d := by intro d hd; rw [hw2, c_other _ _ _ _ hd, hw1]; rfl
  have n1 : w1.now = w.now ∧ w1.seq = w.seq ∧ w1.events = w.events ∧ w1.standby = w.standby ∧ w1.pending = w.pending ∧ w1.main = w.main ∧ w1.current = w.current := by rw [hw1]; exact ⟨rfl, rfl, rfl, rfl, rfl, rfl, rfl⟩
  have n2 : w2.now = w1.now ∧ w2.seq = w1.seq ∧ w2.events = w1.events ∧ w2.standby = w1.standby ∧ w2.pending = w1.pending ∧ w2.main = w1.main ∧ w2.current = w1.current := by rw [hw2]; exact ⟨rfl, rfl, rfl, rfl, rfl, rfl, rfl⟩
  have n3 : w3.now = w2.now ∧ w3.seq = w2.seq ∧ w3.events = w2.events ∧ w3.standby = w2.standby ∧ w3.pending = w2.pending ∧ w3.main = w2.main ∧ w3.current = w2.current := by rw [hw3]; exact ⟨rfl, rfl, rfl, rfl, rfl, rfl, rfl⟩
  have n4 : w4.now = w3.now ∧ w4.seq = w3.seq ∧ w4.events = w3.events ∧ w4.standby = w3.standby ∧ w4.pending = w3.pending ∧ w4.main = w3.main ∧ w4.current = w3.current := by rw [hw4]; exact ⟨rfl, rfl, rfl, rfl, rfl, rfl, rfl⟩
  have n5 : w5.now = w.now ∧ w5.seq = w.seq ∧ w5.events = w.events ∧ w5.standby = w.standby ∧ w5.pending = w.pending ∧ w5.main = w.main ∧ w5.current = w.current := by
    rw [n3.1, n2.1, n1.1, n3.2.1, n2.2.1, n1.2.1, n3.2.2.1, n2.2.2.1, n1.2.2.1, n3.2.2.2.1, n2.2.2.2.1, n1.2.2.2.1, n3.2.2.2.2.1, n2.2.2.2.2.1, n1.2.2.2.2.1,
      n3.2.2.2.2.2.1, n2.2.2.2.2.2.1, n1.2.2.2.2.2.1, n3.2.2.2.2.2.2, n2.2.2.2.2.2.2, n1.2.2.2.2.2.2] at n4
    rw [hw5]; split
    · exact n4
    · exact n4
  obtain ⟨w6, hw6⟩ : ∃ w6, w6 = w5.modC c (fun x => { x with requests := [] }) := ⟨_, rfl⟩
  have c6 : w6.comps c = { w.comps c with claims := [(1, 1)], requests := [] } := by rw [hw6, c_self, c5, c2]
  have n6 : w6.now = w.now := by rw [hw6]; exact n5.1
  obtain ⟨w7, e2, h7, r7, k7, s7, q7⟩ := wake_run (w := w6) (c := c) (by rw [c6]; exact hon) (by rw [c6]; exact hs2)
  have h6 : Chg w w6 c := by
    refine ⟨n6, ?_, ?_, ?_, ?_, fun d hd => ?_, ?_, ?_, ?_, ?_⟩
    · rw [hw6]; exact n5.2.2.2.1
    · rw [hw6]; exact n5.2.2.2.2.1
    · rw [hw6]; exact n5.2.2.2.2.2.1
    · rw [hw6]; exact n5.2.2.2.2.2.2
    · rw [hw6, c_other _ _ _ _ hd, c5, c2' d hd]
    all_goals rw [c6]
  have s6 : w6.seq = w.seq := by rw [hw6]; exact n5.2.1
  have v6 : w6.events = w.events := by rw [hw6]; exact n5.2.2.1
  have r1 : w1.res 1 = { w.res 1 with claimed := (w.res 1).claimed + 1, log := (w.res 1).log.claims w.now (w.res 1).cap ((w.res 1).claimed + 1) } := by rw [hw1, r_self]
  have r4 : w4.res 1 = w1.res 1 := by rw [hw4, hw3, hw2]; rfl
  refine ⟨w7, ?_, ⟨h6.trans h7.chg, ?_, ?_, h7.status, h7.onList⟩, ?_, ?_, ?_, ?_, ?_, ?_⟩
  · show some ((claimOne c [1] (1, 1) w ⊳ fun w => forR [] _ w) ⊳ _) = _
    rw [e1]
    show some (wake c none _) = _
    rw [← hw6, e2]
  · rw [h7.seq, s6]
  · rw [h7.events, s6, v6, n6]
  · rw [r7, c6]
  · rw [k7, c6]
  · rw [s7, hw6]
    show Crew (w5.res 1) k (g + 1)
    have : Crew (w4.res 1) k (g + 1) := by
      rw [r4, r1]
      exact ⟨hk.cap, by show (w.res 1).claimed + 1 = ((g + 1 : Nat) : Rat); rw [hk.claimed]; push_cast; rfl, hk.anonymous, hk.preemptive, hk.first, hk.highest⟩
    rw [hw5]; split
    · rw [r_self]; exact ⟨this.cap, this.claimed, this.anonymous, this.preemptive, this.first, this.highest⟩
    · exact this
  · rw [s7, hw6]
    show (w5.res 1).minq = _
    rw [hw5]; split
    · rw [r_self]
    · rw [r4, r1]
  · rw [q7, hw6]; show w5.queues _ = _
    have : w5.queues = w4.queues := by rw [hw5]; split <;> rfl
    rw [this, hw4, q_self]
  · rw [q7, hw6]; show w5.queues _ = _
    have : w5.queues = w4.queues := by rw [hw5]; split <;> rfl
    rw [this, hw4, q_other _ _ _ _ (by simp), hw3, q_self]

theorem ask_pre {w : World} {c : CId} {f : Nat} {k g : Nat} (hst : (w.comps c).status = .current) (hrq : (w.comps c).requests = [])
    (ho : (w.comps c).oneof = false) (hk : Crew (w.res 1) k g) (hcap : (w.queues (.requesters 1)).cap = ⊤)
    (hp : ∀ m ∈ (w.queues (.requesters 1)).mem, m.prio = 0 ∧ m.c ≠ c) :
    ∃ w6, request f c [⟨1, 1, 0⟩] false false none none (0 : Rat) false false w = (tryReqC f c w6 ⊳ fun w =>
        if (w.comps c).requests = [] then .ok w else reschedule c ⊤ (0 : Rat) false false none (setStatus c .requesting w)) ∧
      Calm0 w w6 c ∧ (w6.comps c).status = .current ∧ (w6.comps c).onList = (w.comps c).onList ∧
      (w6.comps c).requests = [(1, 1)] ∧ (w6.comps c).claims = (w.comps c).claims ∧ Crew (w6.res 1) k g ∧
      (w6.res 1).minq = (if ((1 : Rat) : ETime) < (w.res 1).minq then ((1 : Rat) : ETime) else (w.res 1).minq) ∧
      w6.queues (.requesters 1) = enq c w.now (w.queues (.requesters 1)) ∧ w6.queues (.claimers 1) = w.queues (.claimers 1) := by
  obtain ⟨w1, hw1⟩ : ∃ w1, w1 = w.modC c (fun x => { x with oneof := false }) := ⟨_, rfl⟩
  obtain ⟨w2, hw2⟩ : ∃ w2, w2 = w1.modC c (fun x => { x with failed := false }) := ⟨_, rfl⟩
  obtain ⟨w3, hw3⟩ : ∃ w3, w3 = w2.modC c (fun x => { x with requests := addTo x.requests 1 1 }) := ⟨_, rfl⟩
  obtain ⟨w4, hw4⟩ : ∃ w4, w4 = w3.modQ (.requesters 1) (fun _ => enq c w.now (w.queues (.requesters 1))) := ⟨_, rfl⟩
  obtain ⟨w5, hw5⟩ : ∃ w5, w5 = w4.modR 1 (fun x => { x with minq := if ((1 : Rat) : ETime) < x.minq then ((1 : Rat) : ETime) else x.minq }) := ⟨_, rfl⟩
  obtain ⟨w6, hw6⟩ : ∃ w6, w6 = w5.modC c (fun x => { x with remaining := ETime.subQ ⊤ w5.now }) := ⟨_, rfl⟩
  have k1 : Calm0 w w1 c := hw1 ▸ calm0_modC rfl rfl rfl ho.symm
  have k2 : Calm0 w1 w2 c := hw2 ▸ calm0_modC rfl rfl rfl rfl
  have k3 : Calm0 w2 w3 c := hw3 ▸ calm0_modC rfl rfl rfl rfl
  have k4 : Calm0 w3 w4 c := hw4 ▸ calm0_modQ
  have k5 : Calm0 w4 w5 c := hw5 ▸ calm0_modR
  have k6 : Calm0 w5 w6 c := hw6 ▸ calm0_modC rfl rfl rfl rfl
  have c1 : w1.comps c = { w.comps c with oneof := false } := by rw [hw1, c_self]
  have c2 : w2.comps c = { w.comps c with oneof := false, failed := false } := by rw [hw2, c_self, c1]
  have c3 : w3.comps c = { w.comps c with oneof := false, failed := false, requests := [(1, 1)] } := by
    rw [hw3, c_self, c2]
    show { w.comps c with oneof := false, failed := false, requests := addTo (w.comps c).requests 1 1 } = _
    rw [hrq]; rfl
  have c5 : w5.comps = w3.comps := by rw [hw5, hw4]; rfl
  have c6 : w6.comps c = { w.comps c with oneof := false, failed := false, requests := [(1, 1)], remaining := ETime.subQ ⊤ w5.now } := by
    rw [hw6, c_self, c5, c3]
  have q3 : w3.queues = w.queues := by rw [hw3, hw2, hw1]; rfl
  have r3 : w3.res = w.res := by rw [hw3, hw2, hw1]; rfl
  have r2 : w2.res = w.res := by rw [hw2, hw1]; rfl
  have n3 : w3.now = w.now := (k1.trans (k2.trans k3)).chg.now
  refine ⟨w6, ?_, k1.trans (k2.trans (k3.trans (k4.trans (k5.trans k6)))), ?_, ?_, ?_, ?_, ?_, ?_, ?_, ?_⟩
  · unfold request
    rw [← hw1]
    unfold preamble
    rw [if_pos (show w1.status c = .current by unfold World.status; rw [c1]; exact hst)]
    rw [then_ok]
    simp only [failTime, List.isEmpty_cons, Bool.false_eq_true, if_false]
    rw [← hw2]
    have e : forR [⟨1, 1, 0⟩] (requestArg c ([⟨1, 1, 0⟩] : List Arg).length false) w2 = .ok w4 := by
      show (requestArg c 1 false ⟨1, 1, 0⟩ w2 ⊳ fun w => .ok w) = _
      unfold requestArg
      rw [r2, if_neg (by simp), if_neg (by rintro ⟨h, _⟩; exact absurd h (by decide +kernel))]
      show ((enterSortedQ c (.requesters 1) 0 (w2.modC c (fun x => { x with requests := addTo x.requests 1 1 })) ⊳ fun w => if (_ : Bool) = true then preempt 1 1 0 w else .ok w) ⊳ fun w => .ok w) = _
      rw [← hw3, enter_run (by rw [q3]; exact hcap) (by rw [q3]; exact hp), q3, n3, ← hw4, hk.preemptive]
      rfl
    rw [e, then_ok]
    show (tryReqC f c ((lowerMinq (w4.comps c).requests w4).modC c _) ⊳ _) = _
    have c4 : (w4.comps c).requests = [(1, 1)] := by rw [← show w5.comps = w4.comps by rw [hw5]; rfl, c5, c3]
    rw [c4]
    have : lowerMinq [(1, 1)] w4 = w5 := by rw [hw5]; rfl
    rw [this, ← hw6]
  · rw [c6]; exact hst
  · rw [c6]
  · rw [c6]
  · rw [c6]
  · have : w6.res 1 = { w.res 1 with minq := if ((1 : Rat) : ETime) < (w.res 1).minq then ((1 : Rat) : ETime) else (w.res 1).minq } := by
      rw [hw6, c_res, hw5, r_self, hw4, q_res, r3]
    rw [this]
    exact ⟨hk.cap, hk.claimed, hk.anonymous, hk.preemptive, hk.first, hk.highest⟩
  · rw [hw6, c_res, hw5, r_self, hw4, q_res, r3]
  · rw [hw6, c_queues, hw5, r_queues, hw4, q_self]
  · rw [hw6, c_queues, hw5, r_queues, hw4, q_other _ _ _ _ (by simp), q3]

theorem try_run {w w' : World} {c : CId} {f : Nat} (ha : (w.res 1).anonymous = false) (hrq : (w.comps c).requests = [(1, 1)]) (h : honorNow c w = some (.ok w')) :
    tryReqC (f + 2) c w = .ok w' := by
  unfold tryReqC
  rw [h]
  simp only [hrq, keys, List.map_cons, List.map_nil, List.filter_cons, List.filter_nil, ha]
  rw [then_ok]
  simp [tryReqList]

theorem ask_free {w : World} {c : CId} {f : Nat} (hst : (w.comps c).status = .current) (hrq : (w.comps c).requests = [])
    (ho : (w.comps c).oneof = false) {k g : Nat} (hk : Crew (w.res 1) k g) (hfree : g < k) (hcap : (w.queues (.requesters 1)).cap = ⊤)
    (hq : (w.queues (.requesters 1)).mem = []) (hcc : (w.queues (.claimers 1)).cap = ⊤) (hcm : ∀ m ∈ (w.queues (.claimers 1)).mem, m.prio = 0 ∧ m.c ≠ c)
    (hcl : (w.comps c).claims = []) (hon : (w.comps c).onList = false) :
    ∃ w', request (f + 2) c [⟨1, 1, 0⟩] false false none none (0 : Rat) false false w = .ok w' ∧ Sched w w' c w.now ∧ (w'.comps c).requests = [] ∧
      (w'.comps c).claims = [(1, 1)] ∧ Crew (w'.res 1) k (g + 1) ∧ (w'.res 1).minq = ⊤ ∧
      w'.queues (.requesters 1) = deq w.now ⟨c, 0, w.now⟩ [] (enq c w.now (w.queues (.requesters 1))) ∧
      w'.queues (.claimers 1) = enq c w.now (w.queues (.claimers 1)) := by
  obtain ⟨w6, e6, h6, s6, o6, r6, k6, K6, m6, q6, p6⟩ := ask_pre (f := f + 2) hst hrq ho hk hcap (by rw [hq]; simp)
  have hn : w6.now = w.now := h6.chg.now
  obtain ⟨w7, e7, h7, r7, k7, K7, m7, q7, p7⟩ := grant (w := w6) (c := c) (m := ⟨c, 0, w.now⟩) (l := []) K6 hfree (by rw [q6]; simp [enq, hq]) rfl rfl
    (by rw [p6]; exact hcc) (by rw [p6]; exact hcm) r6 (by rw [k6]; exact hcl) (by rw [o6]; exact hon) (by rw [s6]; simp) (by rw [s6]; simp)
    (by rw [h6.chg.oneof]; exact ho)
  refine ⟨w7, ?_, ⟨h6.chg.trans h7.chg, by rw [h7.seq, h6.seq], by rw [h7.events, h6.seq, h6.events, hn], h7.status, h7.onList⟩, r7, k7, K7, by rw [m7, if_pos rfl], ?_, ?_⟩
  · rw [e6, try_run K6.anonymous r6 e7, then_ok, if_pos r7]
  · rw [q7, q6, hn]
  · rw [p7, p6, hn]

theorem ask_busy {w : World} {c : CId} {f : Nat} (hst : (w.comps c).status = .current) (hrq : (w.comps c).requests = [])
    (ho : (w.comps c).oneof = false) {k : Nat} (hk : Crew (w.res 1) k k) (hcap : (w.queues (.requesters 1)).cap = ⊤)
    (hp : ∀ m ∈ (w.queues (.requesters 1)).mem, m.prio = 0 ∧ m.c ≠ c) (hm : (w.res 1).minq = ⊤ ∨ (w.res 1).minq = ((1 : Rat) : ETime)) :
    ∃ w', request (f + 2) c [⟨1, 1, 0⟩] false false none none (0 : Rat) false false w = .ok w' ∧ Calm0 w w' c ∧ (w'.comps c).requests = [(1, 1)] ∧
      (w'.comps c).claims = (w.comps c).claims ∧ (w'.comps c).onList = (w.comps c).onList ∧ (w'.comps c).status = .requesting ∧
      Crew (w'.res 1) k k ∧ (w'.res 1).minq = ((1 : Rat) : ETime) ∧
      w'.queues (.requesters 1) = enq c w.now (w.queues (.requesters 1)) ∧
      w'.queues (.claimers 1) = w.queues (.claimers 1) := by
  obtain ⟨w6, e6, h6, s6, o6, r6, k6, K6, m6, q6, p6⟩ := ask_pre (f := f + 2) hst hrq ho hk hcap hp
  have hno : honorNow c w6 = none := by
    unfold honorNow
    rw [if_pos]
    right
    unfold honored
    rw [if_neg (by rw [h6.chg.oneof, ho]; simp)]
    unfold honorAll
    simp only [r6, List.all_cons, List.all_nil, Bool.and_true]
    rw [if_neg]
    unfold canHonor
    simp only [K6.first, K6.highest, Bool.false_and, Bool.not_false, Bool.true_and]
    rw [if_pos (by decide +kernel)]
    simpa using K6.full
  refine ⟨(setStatus c .requesting w6).modC c (fun x => { x with schedTime := ⊤ }), ?_, ?_, ?_, ?_, ?_, ?_, K6, ?_, q6, p6⟩
  · have : tryReqC (f + 2) c w6 = .ok w6 := by unfold tryReqC; rw [hno]
    rw [e6, this, then_ok, if_neg (by rw [r6]; simp)]
    unfold reschedule
    rw [if_neg (by simp)]
    rfl
  · exact h6.trans ((show Calm0 w6 (w6.modC c _) c from calm0_modC rfl rfl rfl rfl).trans (calm0_modC rfl rfl rfl rfl))
  · rw [c_self]; unfold setStatus; rw [c_self]; exact r6
  · rw [c_self]; unfold setStatus; rw [c_self]; exact k6
  · rw [c_self]; unfold setStatus; rw [c_self]; exact o6
  · rw [c_self]; unfold setStatus; rw [c_self]
  · show (w6.res 1).minq = _
    rw [m6]
    rcases hm with hm | hm <;> rw [hm]
    · rw [if_pos (WithTop.coe_lt_top _)]
    · rw [if_neg (lt_irrefl _)]

theorem leave_mid {w : World} {c : CId} {q : QRef} {m : QMem} {l1 l2 : List QMem} (hm : (w.queues q).mem = l1 ++ m :: l2) (hc : m.c = c)
    (h1 : ∀ y ∈ l1, y.c ≠ c) : leaveQ c q w = .ok (w.modQ q (fun _ => deq w.now m (l1 ++ l2) (w.queues q))) := by
  have hf : (w.queues q).find c = some m := by
    unfold Queue.find
    rw [hm, List.find?_append, List.find?_eq_none.mpr (fun y hy => by simpa using h1 y hy)]
    simp [hc]
  have he : (w.queues q).mem.erase m = l1 ++ l2 := by
    rw [hm, List.erase_append_right _ (fun h => h1 m h hc), List.erase_cons_head]
  have h2 : (w.queues q).leave w.now c = .ok (deq w.now m (l1 ++ l2) (w.queues q)) := by
    unfold Queue.leave
    rw [hf]
    simp only [he]
    rfl
  unfold leaveQ onQueue
  simp only [h2]

theorem give_back {w : World} {c : CId} {m : QMem} {l1 l2 : List QMem} {k g : Nat} (hk : Crew (w.res 1) k (g + 1)) (hl : l1.length + l2.length = g) (hcl : (w.comps c).claims = [(1, 1)])
    (hm : (w.queues (.claimers 1)).mem = l1 ++ m :: l2) (hc : m.c = c) (h1 : ∀ y ∈ l1, y.c ≠ c) :
    ∃ w', releaseCore c 1 none w = .ok w' ∧ Calm0 w w' c ∧ (w'.comps c).requests = (w.comps c).requests ∧ (w'.comps c).claims = [] ∧
      (w'.comps c).onList = (w.comps c).onList ∧ (w'.comps c).status = (w.comps c).status ∧ Crew (w'.res 1) k g ∧ (w'.res 1).minq = (w.res 1).minq ∧
      w'.queues (.requesters 1) = w.queues (.requesters 1) ∧ w'.queues (.claimers 1) = deq w.now m (l1 ++ l2) (w.queues (.claimers 1)) := by
  obtain ⟨w1, hw1⟩ : ∃ w1, w1 = w.modR 1 (fun x => { x with claimed := x.claimed - 1 }) := ⟨_, rfl⟩
  obtain ⟨w2, hw2⟩ : ∃ w2, w2 = w1.modC c (fun x => { x with claims := addTo x.claims 1 (-1) }) := ⟨_, rfl⟩
  obtain ⟨w3, hw3⟩ : ∃ w3, w3 = w2.modQ (.claimers 1) (fun _ => deq w.now m (l1 ++ l2) (w.queues (.claimers 1))) := ⟨_, rfl⟩
  obtain ⟨w4, hw4⟩ : ∃ w4, w4 = if (w3.queues (.claimers 1)).len = 0 then w3.modR 1 (fun x => { x with claimed := 0 }) else w3 := ⟨_, rfl⟩
  obtain ⟨w5, hw5⟩ : ∃ w5, w5 = w4.modC c (fun x => { x with claims := delKey x.claims 1 }) := ⟨_, rfl⟩
  have k1 : Calm0 w w1 c := hw1 ▸ calm0_modR
  have k2 : Calm0 w1 w2 c := hw2 ▸ calm0_modC rfl rfl rfl rfl
  have k3 : Calm0 w2 w3 c := hw3 ▸ calm0_modQ
  have k4 : Calm0 w3 w4 c := by
    rw [hw4]; split
    · exact calm0_modR
    · exact ⟨⟨rfl, rfl, rfl, rfl, rfl, fun _ _ => rfl, rfl, rfl, rfl, rfl⟩, rfl, rfl⟩
  have k5 : Calm0 w4 w5 c := hw5 ▸ calm0_modC rfl rfl rfl rfl
  have c1 : w1.comps = w.comps := by rw [hw1]; rfl
  have q2 : w2.queues = w.queues := by rw [hw2, hw1]; rfl
  have n2 : w2.now = w.now := (k1.trans k2).chg.now
  have c4 : w4.comps = w2.comps := by rw [hw4]; split <;> rw [hw3] <;> rfl
  have c2 : w2.comps c = { w.comps c with claims := [(1, 0)] } := by
    rw [hw2, c_self, c1]
    show { w.comps c with claims := addTo (w.comps c).claims 1 (-1) } = _
    rw [hcl]
    have : addTo [(1, 1)] 1 (-1) = [((1 : RId), (0 : Rat))] := by decide +kernel
    rw [this]
  have c5 : w5.comps c = { w.comps c with claims := [] } := by
    rw [hw5, c_self, c4, c2]; rfl
  have l3 : (w3.queues (.claimers 1)).len = g := by
    rw [hw3, q_self]; show (l1 ++ l2).length = g; rw [List.length_append]; exact hl
  have r3 : w3.res 1 = { w.res 1 with claimed := (w.res 1).claimed - 1 } := by rw [hw3, q_res, hw2, c_res, hw1, r_self]
  have r5 : w5.res 1 = { w.res 1 with claimed := (g : Rat) } := by
    rw [hw5, c_res, hw4]
    split
    · rename_i h
      rw [r_self, r3]
      rw [l3] at h
      rw [h]; rfl
    · rw [r3, hk.claimed]
      have : ((g + 1 : Nat) : Rat) - 1 = g := by push_cast; ring
      rw [this]
  have q5 : w5.queues = w3.queues := by
    rw [hw5, c_queues, hw4]; split <;> rfl
  refine ⟨w5.tallyR 1, ?_, (k1.trans (k2.trans (k3.trans (k4.trans k5)))).trans calm0_modR, ?_, ?_, ?_, ?_, ?_, ?_, ?_, ?_⟩
  · unfold releaseCore
    have : lookup (w.comps c).claims 1 = some 1 := by rw [hcl]; rfl
    rw [this]
    simp only
    rw [← hw1, if_pos (by decide +kernel), ← hw2, leave_mid (m := m) (by rw [q2]; exact hm) hc h1, q2, n2, ← hw3, then_ok]
    show R.ok (World.tallyR (World.modC (if (w3.queues (.claimers 1)).len = 0 then _ else _) c _) 1) = _
    rw [← hw4, ← hw5]
  · show (w5.comps c).requests = _; rw [c5]
  · show (w5.comps c).claims = _; rw [c5]
  · show (w5.comps c).onList = _; rw [c5]
  · show (w5.comps c).status = _; rw [c5]
  · unfold tallyR; rw [r_self, r5]; exact ⟨hk.cap, rfl, hk.anonymous, hk.preemptive, hk.first, hk.highest⟩
  · unfold tallyR; rw [r_self, r5]
  · show w5.queues _ = _; rw [q5, hw3, q_other _ _ _ _ (by simp), q2]
  · show w5.queues _ = _; rw [q5, hw3, q_self]

theorem pass_none {w : World} {f : Nat} {k g : Nat} (hk : Crew (w.res 1) k g) (hq : (w.queues (.requesters 1)).mem = []) : tryReqR (f + 5) 1 w = .ok w := by
  have h0 : cursor0 w 1 = none := by unfold cursor0 headQ; rw [hq]; rfl
  unfold tryReqR
  rw [if_neg (by rw [hk.anonymous]; simp), h0]
  unfold loopR
  rfl

theorem pass_next {w : World} {c : CId} {f : Nat} {m : QMem} {l : List QMem} {g : Nat} (hk : Crew (w.res 1) (g + 1) g) (hm : (w.queues (.requesters 1)).mem = m :: l) (hc : m.c = c)
    (hp : m.prio = 0) (hcc : (w.queues (.claimers 1)).cap = ⊤) (hcm : ∀ m ∈ (w.queues (.claimers 1)).mem, m.prio = 0 ∧ m.c ≠ c) (hrq : (w.comps c).requests = [(1, 1)])
    (hcl : (w.comps c).claims = []) (hon : (w.comps c).onList = false) (hs1 : (w.comps c).status ≠ .interrupted) (hs2 : (w.comps c).status ≠ .standby)
    (ho : (w.comps c).oneof = false) (hmq : (w.res 1).minq = ((1 : Rat) : ETime)) :
    ∃ w', tryReqR (f + 5) 1 w = .ok w' ∧ Sched w w' c w.now ∧ (w'.comps c).requests = [] ∧ (w'.comps c).claims = [(1, 1)] ∧
      Crew (w'.res 1) (g + 1) (g + 1) ∧ (w'.res 1).minq = (if l = [] then ⊤ else ((1 : Rat) : ETime)) ∧
      w'.queues (.requesters 1) = deq w.now m l (w.queues (.requesters 1)) ∧
      w'.queues (.claimers 1) = enq c w.now (w.queues (.claimers 1)) := by
  obtain ⟨w7, e7, h7, r7, k7, K7, m7, q7, p7⟩ := grant hk (Nat.lt_succ_self g) hm hc hp hcc hcm hrq hcl hon hs1 hs2 ho
  refine ⟨w7, ?_, h7, r7, k7, K7, by rw [m7, hmq], q7, p7⟩
  have h0 : cursor0 w 1 = some m := by unfold cursor0 headQ; rw [hm]; rfl
  unfold tryReqR
  rw [if_neg (by rw [hk.anonymous]; simp), h0]
  unfold loopR
  simp only
  have hhas : (w.queues (.requesters 1)).has m.c = true := by unfold Queue.has; rw [hm]; simp
  have hle : ¬ ((w.res 1).minq > (w.res 1).avail + (eps : ETime)) := by
    rw [hmq]; exact not_lt.mpr (hk.free (Nat.lt_succ_self g))
  rw [if_neg (by simp [hk.first]), if_neg (by simp [hk.highest]), if_neg (by simp [hle]), if_neg (by rw [hhas]; simp), hc, try_run hk.anonymous hrq e7, then_ok,
    if_neg (by simp [hk.anonymous])]
  have hs : (w.queues (.requesters 1)).succ c = l.head? := by
    unfold Queue.succ
    rw [hm]; simp only [List.dropWhile_cons, hc, bne_self_eq_false, Bool.false_eq_true, if_false]
    cases l <;> rfl
  rw [hs]
  cases l with
  | nil => unfold loopR; rfl
  | cons m2 l2 =>
    unfold loopR
    simp only [List.head?_cons]
    have hgt : (w7.res 1).minq > (w7.res 1).avail + (eps : ETime) := by
      rw [m7, hmq, if_neg (by simp)]; exact K7.full
    rw [if_neg (by simp [K7.first]), if_neg (by simp [K7.highest]), if_pos (by simp [K7.anonymous, hgt])]
/-! ## what queueing theory says -/

/-- when each of the `m` servers is free, once the first `i` customers have been assigned, the earliest one first (Kiefer and Wolfowitz): the next customer goes to
the server that is free first, and begins at its arrival or then, whichever is later -/
def free (m : Nat) (a s : Nat → Rat) : Nat → List Rat
  | 0 => List.replicate m 0
  | i + 1 =>
    match free m a s i with
    | [] => []
    | t :: l => l.orderedInsert (· ≤ ·) (max (a i) t + s i)

/-- when the service of each customer begins -/
def starts (m : Nat) (a s : Nat → Rat) (i : Nat) : Rat := max (a i) ((free m a s i).headD 0)

/-- when the service of each customer is over -/
def finish (m : Nat) (a s : Nat → Rat) (i : Nat) : Rat := starts m a s i + s i

section
variable {m : Nat} {a s : Nat → Rat}

theorem free_length (i : Nat) : (free m a s i).length = m := by
  induction i with
  | zero => simp [free]
  | succ i ih =>
    unfold free
    cases h : free m a s i with
    | nil => rw [h] at ih; exact ih
    | cons t l => rw [h] at ih; simpa [List.orderedInsert_length] using ih

theorem free_sorted (i : Nat) : (free m a s i).Pairwise (· ≤ ·) := by
  induction i with
  | zero => simp [free]
  | succ i ih =>
    unfold free
    cases h : free m a s i with
    | nil => exact List.Pairwise.nil
    | cons t l => rw [h] at ih; exact (List.pairwise_cons.mp ih).2.orderedInsert _ _

/-- the next customer goes to a server that is free first -/
theorem free_next {i : Nat} {t : Rat} {l : List Rat} (hp : (free m a s i).Perm (t :: l)) (hmin : ∀ u ∈ l, t ≤ u) :
    starts m a s i = max (a i) t ∧ (free m a s (i + 1)).Perm (finish m a s i :: l) := by
  have hs := free_sorted (m := m) (a := a) (s := s) i
  obtain ⟨t', l', h⟩ : ∃ t' l', free m a s i = t' :: l' := by
    cases h : free m a s i with
    | nil => rw [h] at hp; exact absurd hp.length_eq (by simp)
    | cons t' l' => exact ⟨t', l', rfl⟩
  rw [h] at hp hs
  have ht : t' = t := by
    apply le_antisymm
    · rcases List.mem_cons.mp (hp.symm.subset (List.mem_cons_self ..)) with e | e
      · exact e ▸ le_rfl
      · exact (List.pairwise_cons.mp hs).1 t e
    · rcases List.mem_cons.mp (hp.subset (List.mem_cons_self ..)) with e | e
      · exact e ▸ le_rfl
      · exact hmin t' e
  subst ht
  have e1 : starts m a s i = max (a i) t' := by unfold starts; rw [h]; rfl
  refine ⟨e1, ?_⟩
  have e2 : free m a s (i + 1) = l'.orderedInsert (· ≤ ·) (max (a i) t' + s i) := by
    rw [free]; rw [h]
  rw [e2]
  unfold finish
  rw [e1]
  exact (List.perm_orderedInsert _ _ _).trans (hp.cons_inv.cons _)
end

/-! ## the state of affairs -/

/-- the event of a customer that has got a server; the flag: its service has begun -/
def bev (m : Nat) (a s : Nat → Rat) (sq : Nat → Int) (p : Nat × Bool) : Ev :=
  ⟨starts m a s p.1 + (if p.2 then s p.1 else 0), (0 : Rat), sq p.1, p.1 + 1, none⟩

/-- the entry of such a customer in the claimers -/
def mem (m : Nat) (a s : Nat → Rat) (p : Nat × Bool) : QMem := ⟨p.1 + 1, 0, starts m a s p.1⟩

/-- `A` customers have arrived, `G` of them have got a server; `B` are those that have one now, `L` those that have left, both in order -/
structure Inv (m : Nat) (a s : Nat → Rat) (n : Nat) (x : Play) (A G : Nat) (B : List (Nat × Bool)) (L : List Nat) : Prop where
  an : A ≤ n
  ga : G ≤ A
  blen : B.length ≤ m
  full : G < A → B.length = m
  all : (L ++ B.map Prod.fst).Perm (List.range G)
  main : x.w.main = 0
  standby : x.w.standby = []
  pending : x.w.pending = []
  heap : Heapq.IsHeap Ev.lt x.w.events
  ev : ∃ sq, x.w.events.Perm (B.map (bev m a s sq) ++ (List.range' A (n - A)).map (arr a))
  due : ∀ i : Nat, A ≤ i → i < n → x.w.now ≤ a i
  due1 : ∀ p ∈ B, x.w.now ≤ starts m a s p.1 + (if p.2 then s p.1 else 0)
  past : ∀ i : Nat, i < A → a i ≤ x.w.now
  past1 : ∀ i ∈ L, finish m a s i ≤ x.w.now
  rest : B = [] → ∀ i ∈ L, ∃ j ∈ L, x.w.now = finish m a s j
  idle : ∃ F, (free m a s G).Perm (F ++ B.map (fun p => finish m a s p.1)) ∧ ∀ t ∈ F, t ≤ x.w.now
  plain : ∀ c, (x.w.comps c).waits = [] ∧ (x.w.comps c).fromStores = [] ∧ (x.w.comps c).toStores = [] ∧ (x.w.comps c).oneof = false
  req1 : ∀ i : Nat, G ≤ i → i < A → (x.w.comps (i + 1)).requests = [(1, 1)] ∧ (x.w.comps (i + 1)).onList = false ∧ (x.w.comps (i + 1)).status = .requesting
  req0 : ∀ i : Nat, i < G ∨ A ≤ i → (x.w.comps (i + 1)).requests = []
  clm1 : ∀ i : Nat, i ∈ B.map Prod.fst → (x.w.comps (i + 1)).claims = [(1, 1)]
  clm0 : ∀ i : Nat, i ∉ B.map Prod.fst → (x.w.comps (i + 1)).claims = []
  crew : Crew (x.w.res 1) m B.length
  minq0 : G = A → (x.w.res 1).minq = ⊤
  minq1 : G < A → (x.w.res 1).minq = ((1 : Rat) : ETime)
  rcap : (x.w.queues (.requesters 1)).cap = ⊤
  rmem : (x.w.queues (.requesters 1)).mem = (List.range' G (A - G)).map (fun i => ⟨i + 1, 0, a i⟩)
  rstay : (x.w.queues (.requesters 1)).stays = (List.range G).map (fun i => starts m a s i - a i)
  ccap : (x.w.queues (.claimers 1)).cap = ⊤
  cmem : (x.w.queues (.claimers 1)).mem = B.map (mem m a s)
  cstay : (x.w.queues (.claimers 1)).stays = L.map s
  t3 : ∀ i ∈ L, x.turns (i + 1) = 3
  t2 : ∀ p ∈ B, x.turns (p.1 + 1) = if p.2 then 2 else 1
  t1 : ∀ i : Nat, G ≤ i → i < A → x.turns (i + 1) = 1
  t0 : ∀ i : Nat, A ≤ i → x.turns (i + 1) = 0
  moments : ∀ i : Nat, x.moments (i + 1) = [a i, starts m a s i, finish m a s i].take (x.turns (i + 1))
  count : x.log.length = A + (B.countP Prod.snd + L.length) + L.length

variable {m : Nat} {a s : Nat → Rat} {n : Nat} {x : Play} {A G : Nat} {B : List (Nat × Bool)} {L : List Nat}

theorem Inv.nodup (hI : Inv m a s n x A G B L) : (L ++ B.map Prod.fst).Nodup := hI.all.nodup_iff.mpr List.nodup_range

theorem Inv.lt (hI : Inv m a s n x A G B L) {i : Nat} (h : i ∈ L ∨ i ∈ B.map Prod.fst) : i < G :=
  List.mem_range.mp (hI.all.subset (List.mem_append.mpr h))

/-- the clock after a turn -/
theorem first_le {l : List Ev} {e : Ev} (hmin : ∀ b ∈ l, Ev.lt b e = false) : ∀ y ∈ l, e.t ≤ y.t := by
  intro y hy
  have := hmin y hy
  unfold Ev.lt at this
  simp only [Bool.or_eq_false_iff, decide_eq_false_iff_not] at this
  exact not_lt.mp this.1

theorem bev_congr {sq sq' : Nat → Int} (h : ∀ p ∈ B, sq p.1 = sq' p.1) : B.map (bev m a s sq) = B.map (bev m a s sq') :=
  List.map_congr_left fun p hp => by unfold bev; rw [h p hp]

/-- an arrival, a server being free -/
theorem arrive_free {f : Nat} (hI : Inv m a s n x A G B L) (hB : B.length < m) (ha : ∀ i j, i ≤ j → a i ≤ a j) (hs : ∀ i, 0 ≤ s i) {es : List Ev}
    (hpop : Heapq.heappop Ev.lt x.w.events = some (arr a A, es)) (hA : A < n) :
    ∃ x', Play.turn (f + 10) (visit s) x = some x' ∧ Inv m a s n x' (A + 1) (G + 1) (B ++ [(G, false)]) L := by
  have hAG : G = A := by
    rcases Nat.lt_or_ge G A with h | h
    · have := hI.full h; omega
    · exact le_antisymm hI.ga h
  subst hAG
  have hsp := Heapq.heappop_spec (l := x.w.events) evLaw hI.heap
  rw [hpop] at hsp
  obtain ⟨hperm, hheap, hmin⟩ := hsp
  have hmin' := first_le hmin
  have pl := hI.plain (G + 1)
  have hnB : ∀ p ∈ B, p.1 ≠ G := fun p hp h => by have := hI.lt (.inr (List.mem_map_of_mem hp)); omega
  obtain ⟨w1, e1, n1, cu1, ev1, sq1, sb1, pd1, mn1, ot1, c1, r1, q1⟩ := step_run hI.standby hI.pending hpop
    (by rw [hI.main]; exact Nat.succ_ne_zero _) (hI.req0 G (.inr le_rfl)) pl.1 pl.2.1 pl.2.2.1
  have c1' : w1.comps (G + 1) = { x.w.comps (G + 1) with onList := false, status := .current, schedTime := ⊤ } := c1
  have n1' : w1.now = a G := n1
  have cu1' : w1.current = G + 1 := cu1
  obtain ⟨w2, e2, h2, rq2, cl2, K2, m2, q2, p2⟩ := ask_free (w := w1) (c := G + 1) (f := f + 8) (k := m) (g := B.length) (by rw [c1']) (by rw [c1']; exact hI.req0 G (.inr le_rfl))
    (by rw [c1']; exact pl.2.2.2) (by rw [r1]; exact hI.crew) hB (by rw [q1]; exact hI.rcap) (by rw [q1, hI.rmem]; simp) (by rw [q1]; exact hI.ccap)
    (by
      rw [q1, hI.cmem]
      intro y hy
      obtain ⟨p, hp, rfl⟩ := List.mem_map.mp hy
      exact ⟨rfl, fun h => hnB p hp (Nat.succ.inj h)⟩)
    (by rw [c1']; exact hI.clm0 G (fun h => by have := hI.lt (.inr h); omega)) (by rw [c1'])
  have t2 : forR (visit s (G + 1) (x.turns (G + 1))) (exec (f + 10)) w1 = .ok w2 := by
    rw [hI.t0 G le_rfl]
    simp only [visit, forR, exec]
    rw [show f + 10 = f + 8 + 2 from rfl, e2]; rfl
  have hnow : x.w.now ≤ a G := hI.due G le_rfl hA
  -- the assignment
  obtain ⟨F, hF, hFn⟩ := hI.idle
  obtain ⟨hbeg, F', hF', hFn'⟩ : starts m a s G = a G ∧ ∃ F', (free m a s (G + 1)).Perm (F' ++ (B ++ [(G, false)]).map (fun p => finish m a s p.1)) ∧ ∀ t ∈ F', t ≤ a G := by
    have hne : F ≠ [] := by
      rintro rfl
      have := hF.length_eq
      rw [free_length] at this
      simp at this; omega
    obtain ⟨u, hu, humin⟩ : ∃ u ∈ F, ∀ v ∈ F, u ≤ v := by
      obtain ⟨u, hu⟩ : ∃ u, F.min? = some u := by
        cases h : F.min? with
        | none => exact absurd (List.min?_eq_none_iff.mp h) hne
        | some u => exact ⟨u, rfl⟩
      exact ⟨u, (List.min?_eq_some_iff.mp hu).1, (List.min?_eq_some_iff.mp hu).2⟩
    have hp : (free m a s G).Perm (u :: (F.erase u ++ B.map (fun p => finish m a s p.1))) := hF.trans ((List.perm_cons_erase hu).append_right _)
    obtain ⟨h1, h2⟩ := free_next hp (by
      intro v hv
      rcases List.mem_append.mp hv with h | h
      · exact humin v (List.mem_of_mem_erase h)
      · obtain ⟨p, hp, rfl⟩ := List.mem_map.mp h
        refine (hFn u hu).trans ((hI.due1 p hp).trans ?_)
        unfold finish
        have := hs p.1
        split <;> linarith)
    refine ⟨by rw [h1]; exact max_eq_left ((hFn u hu).trans hnow), F.erase u, h2.trans ?_, fun t ht => (hFn t (List.mem_of_mem_erase ht)).trans hnow⟩
    rw [List.map_append, ← List.append_assoc]
    exact (List.perm_append_comm (l₁ := [finish m a s G]))
  have hsched := h2.chg
  have hoth : ∀ i : Nat, i ≠ G → w2.comps (i + 1) = x.w.comps (i + 1) := fun i hi => by
    rw [hsched.other (i + 1) (fun h => hi (Nat.succ.inj h)), ot1 (i + 1) (fun h => hi (Nat.succ.inj h))]
  obtain ⟨sq, hq⟩ := hI.ev
  refine ⟨_, turn_run e1 cu1' t2, ?_⟩
  have hes : es.Perm (B.map (bev m a s sq) ++ (List.range' (G + 1) (n - (G + 1))).map (arr a)) := by
    have := hperm.symm.trans hq
    rw [range_cons hA, List.map_cons] at this
    exact (this.trans List.perm_middle).cons_inv
  have hm0 : (w2.queues (.requesters 1)).mem = [] := by rw [q2]; rfl
  refine ⟨hA, le_rfl, by simp; omega, fun h => absurd h (lt_irrefl _), ?_, ?_, ?_, ?_, ?_, ⟨fun i => if i = G then (w1.seq + 1 : Nat) else sq i, ?_⟩, ?_, ?_, ?_, ?_, fun h => absurd h (by simp),
    ⟨F', hF', ?_⟩, ?_, ?_, ?_, ?_, ?_, ?_, fun _ => m2, fun h => absurd h (lt_irrefl _), ?_, ?_, ?_, ?_, ?_, ?_, ?_, ?_, ?_, ?_, ?_, ?_⟩
  · rw [List.range_succ, List.map_append, ← List.append_assoc]; exact hI.all.append_right _
  · show w2.main = 0
    rw [hsched.main, mn1]; exact hI.main
  · show w2.standby = []
    rw [hsched.standby, sb1]
  · show w2.pending = []
    rw [hsched.pending, pd1]
  · show Heapq.IsHeap _ w2.events
    rw [h2.events]; exact Heapq.heappush_isHeap evLaw _ (by rw [ev1]; exact hheap)
  · show w2.events.Perm _
    rw [h2.events, ev1, List.map_append, ← bev_congr (sq := sq) (fun p hp => by rw [if_neg (hnB p hp)]), List.append_assoc]
    refine (Heapq.heappush_perm _ _).trans ((hes.cons _).trans ?_)
    rw [n1', ← hbeg]
    have : bev m a s (fun i => if i = G then ((w1.seq + 1 : Nat) : Int) else sq i) (G, false) = ⟨starts m a s G, (0 : Rat), (w1.seq + 1 : Nat), G + 1, none⟩ := by
      unfold bev; simp
    rw [List.map_singleton, this]
    exact List.perm_middle.symm
  · intro i h1 h2'
    show w2.now ≤ _
    rw [hsched.now, n1']; exact ha _ _ (by omega)
  · intro p hp
    show w2.now ≤ _
    rw [hsched.now, n1']
    rcases List.mem_append.mp hp with h | h
    · exact hmin' _ (hq.symm.subset (List.mem_append_left _ (List.mem_map_of_mem h)))
    · rw [List.mem_singleton.mp h]; simp [hbeg]
  · intro i hi
    show _ ≤ w2.now
    rw [hsched.now, n1']; exact ha _ _ (by omega)
  · intro i hi
    show _ ≤ w2.now
    rw [hsched.now, n1']; exact (hI.past1 i hi).trans hnow
  · show ∀ t ∈ F', t ≤ w2.now
    rw [hsched.now, n1']; exact hFn'
  · intro c
    show (w2.comps c).waits = [] ∧ (w2.comps c).fromStores = [] ∧ (w2.comps c).toStores = [] ∧ (w2.comps c).oneof = false
    by_cases h : c = G + 1
    · subst h
      rw [hsched.waits, hsched.froms, hsched.tos, hsched.oneof, c1']; exact pl
    · rw [hsched.other c h, ot1 c h]; exact hI.plain c
  · intro i h1 h2'; omega
  · intro i hi
    show (w2.comps (i + 1)).requests = []
    by_cases h : i = G
    · rw [h]; exact rq2
    · rw [hoth i h]; exact hI.req0 i (by omega)
  · intro i hi
    show (w2.comps (i + 1)).claims = _
    by_cases h : i = G
    · rw [h]; exact cl2
    · rw [hoth i h]; exact hI.clm1 i (by simpa [h] using hi)
  · intro i hi
    show (w2.comps (i + 1)).claims = []
    have h : i ≠ G := by rintro rfl; simp at hi
    rw [hoth i h]; exact hI.clm0 i (by simp at hi ⊢; exact hi.1)
  · show Crew (w2.res 1) _ _
    rw [List.length_append]; exact K2
  · show (w2.queues _).cap = ⊤
    rw [q2]; show (w1.queues _).cap = ⊤; rw [q1]; exact hI.rcap
  · show (w2.queues _).mem = _
    rw [hm0]; simp
  · show (w2.queues _).stays = _
    rw [q2]; show (w1.queues _).stays ++ [w1.now - w1.now] = _
    rw [q1, hI.rstay, List.range_succ, List.map_append]
    simp [hbeg]
  · show (w2.queues _).cap = ⊤
    rw [p2]; show (w1.queues _).cap = ⊤; rw [q1]; exact hI.ccap
  · show (w2.queues _).mem = _
    rw [p2]; show (w1.queues _).mem ++ [⟨G + 1, 0, w1.now⟩] = _
    rw [q1, hI.cmem, n1']; simp [mem, hbeg]
  · show (w2.queues _).stays = _
    rw [p2]; show (w1.queues _).stays = _
    rw [q1, hI.cstay]
  · intro i hi; show (if i + 1 = G + 1 then _ else _) = 3
    have := hI.lt (.inl hi)
    rw [if_neg (by omega)]; exact hI.t3 i hi
  · intro p hp; show (if p.1 + 1 = G + 1 then _ else _) = _
    rcases List.mem_append.mp hp with h | h
    · rw [if_neg (fun h' => hnB p h (Nat.succ.inj h'))]; exact hI.t2 p h
    · rw [List.mem_singleton.mp h, if_pos rfl, hI.t0 G le_rfl]; rfl
  · intro i h1 h2'; omega
  · intro i h1; show (if i + 1 = G + 1 then _ else _) = 0
    rw [if_neg (by omega)]; exact hI.t0 i (by omega)
  · intro i
    rw [moments_add]
    show _ = List.take (if i + 1 = G + 1 then x.turns (i + 1) + 1 else x.turns (i + 1)) _
    by_cases h : i = G
    · subst h
      rw [if_pos rfl, if_pos rfl, hI.moments, hI.t0 i le_rfl, n1']; rfl
    · rw [if_neg (fun h' => h (Nat.succ.inj h').symm), if_neg (fun h' => h (Nat.succ.inj h'))]; exact hI.moments i
  · show (x.log ++ [_]).length = _
    rw [List.length_append, hI.count, List.countP_append]; simp; omega

/-- an arrival, all servers being busy -/
theorem arrive_busy {f : Nat} (hI : Inv m a s n x A G B L) (hB : B.length = m) (hm : 0 < m) (ha : ∀ i j, i ≤ j → a i ≤ a j) {es : List Ev}
    (hpop : Heapq.heappop Ev.lt x.w.events = some (arr a A, es)) (hA : A < n) :
    ∃ x', Play.turn (f + 10) (visit s) x = some x' ∧ Inv m a s n x' (A + 1) G B L := by
  have hsp := Heapq.heappop_spec (l := x.w.events) evLaw hI.heap
  rw [hpop] at hsp
  obtain ⟨hperm, hheap, hmin⟩ := hsp
  have hmin' := first_le hmin
  have hga := hI.ga
  have pl := hI.plain (A + 1)
  obtain ⟨w1, e1, n1, cu1, ev1, sq1, sb1, pd1, mn1, ot1, c1, r1, q1⟩ := step_run hI.standby hI.pending hpop
    (by rw [hI.main]; exact Nat.succ_ne_zero _) (hI.req0 A (.inr le_rfl)) pl.1 pl.2.1 pl.2.2.1
  have c1' : w1.comps (A + 1) = { x.w.comps (A + 1) with onList := false, status := .current, schedTime := ⊤ } := c1
  have n1' : w1.now = a A := n1
  have cu1' : w1.current = A + 1 := cu1
  have hmq : (w1.res 1).minq = ⊤ ∨ (w1.res 1).minq = ((1 : Rat) : ETime) := by
    rw [r1]
    rcases Nat.lt_or_ge G A with h | h
    · exact .inr (hI.minq1 h)
    · exact .inl (hI.minq0 (by omega))
  have hne : ∀ m ∈ (w1.queues (.requesters 1)).mem, m.prio = 0 ∧ m.c ≠ A + 1 := by
    intro m hm
    rw [q1, hI.rmem] at hm
    obtain ⟨i, hi, rfl⟩ := List.mem_map.mp hm
    rw [List.mem_range'_1] at hi
    exact ⟨rfl, fun h => by have : i = A := Nat.succ.inj h; omega⟩
  have hcrew : Crew (x.w.res 1) m m := by have := hI.crew; rwa [hB] at this
  obtain ⟨w2, e2, h2, rq2, cl2, ol2, st2, K2, m2, q2, p2⟩ := ask_busy (w := w1) (c := A + 1) (f := f + 8) (by rw [c1']) (by rw [c1']; exact hI.req0 A (.inr le_rfl))
    (by rw [c1']; exact pl.2.2.2) (by rw [r1]; exact hcrew) (by rw [q1]; exact hI.rcap) hne hmq
  have t2 : forR (visit s (A + 1) (x.turns (A + 1))) (exec (f + 10)) w1 = .ok w2 := by
    rw [hI.t0 A le_rfl]
    simp only [visit, forR, exec]
    rw [show f + 10 = f + 8 + 2 from rfl, e2]; rfl
  have hsched := h2.chg
  have hoth : ∀ i : Nat, i ≠ A → w2.comps (i + 1) = x.w.comps (i + 1) := fun i hi => by
    rw [hsched.other (i + 1) (fun h => hi (Nat.succ.inj h)), ot1 (i + 1) (fun h => hi (Nat.succ.inj h))]
  have hnA : ∀ i, i ∈ L ∨ i ∈ B.map Prod.fst → i ≠ A := fun i h => by have := hI.lt h; omega
  have hnow : x.w.now ≤ a A := hI.due A le_rfl hA
  obtain ⟨sq, hq⟩ := hI.ev
  refine ⟨_, turn_run e1 cu1' t2, ?_⟩
  have hes : es.Perm (B.map (bev m a s sq) ++ (List.range' (A + 1) (n - (A + 1))).map (arr a)) := by
    have := hperm.symm.trans hq
    rw [range_cons hA, List.map_cons] at this
    exact (this.trans List.perm_middle).cons_inv
  obtain ⟨F, hF, hFn⟩ := hI.idle
  refine ⟨hA, by omega, hI.blen, fun _ => hB, hI.all, ?_, ?_, ?_, ?_, ⟨sq, ?_⟩, ?_, ?_, ?_, ?_, fun h => by rw [h] at hB; simp at hB; omega,
    ⟨F, hF, ?_⟩, ?_, ?_, ?_, ?_, ?_, ?_, fun h => absurd h (by omega), fun _ => m2, ?_, ?_, ?_, ?_, ?_, ?_, ?_, ?_, ?_, ?_, ?_, ?_⟩
  · show w2.main = 0
    rw [hsched.main, mn1]; exact hI.main
  · show w2.standby = []
    rw [hsched.standby, sb1]
  · show w2.pending = []
    rw [hsched.pending, pd1]
  · show Heapq.IsHeap _ w2.events
    rw [h2.events, ev1]; exact hheap
  · show w2.events.Perm _
    rw [h2.events, ev1]; exact hes
  · intro i h1 h2'
    show w2.now ≤ _
    rw [hsched.now, n1']; exact ha _ _ (by omega)
  · intro p hp
    show w2.now ≤ _
    rw [hsched.now, n1']
    exact hmin' _ (hq.symm.subset (List.mem_append_left _ (List.mem_map_of_mem hp)))
  · intro i hi
    show _ ≤ w2.now
    rw [hsched.now, n1']; exact ha _ _ (by omega)
  · intro i hi
    show _ ≤ w2.now
    rw [hsched.now, n1']; exact (hI.past1 i hi).trans hnow
  · intro t ht
    show t ≤ w2.now
    rw [hsched.now, n1']; exact (hFn t ht).trans hnow
  · intro c
    show (w2.comps c).waits = [] ∧ (w2.comps c).fromStores = [] ∧ (w2.comps c).toStores = [] ∧ (w2.comps c).oneof = false
    by_cases h : c = A + 1
    · subst h
      rw [hsched.waits, hsched.froms, hsched.tos, hsched.oneof, c1']; exact pl
    · rw [hsched.other c h, ot1 c h]; exact hI.plain c
  · intro i h1 h2'
    show (w2.comps (i + 1)).requests = _ ∧ (w2.comps (i + 1)).onList = _ ∧ (w2.comps (i + 1)).status = _
    by_cases h : i = A
    · rw [h]; exact ⟨rq2, by rw [ol2, c1'], st2⟩
    · rw [hoth i h]; exact hI.req1 i h1 (by omega)
  · intro i hi
    show (w2.comps (i + 1)).requests = []
    rw [hoth i (by omega)]; exact hI.req0 i (by omega)
  · intro i hi
    show (w2.comps (i + 1)).claims = _
    rw [hoth i (hnA i (.inr hi))]; exact hI.clm1 i hi
  · intro i hi
    show (w2.comps (i + 1)).claims = []
    by_cases h : i = A
    · rw [h, cl2, c1']; exact hI.clm0 A (fun h' => hnA A (.inr h') rfl)
    · rw [hoth i h]; exact hI.clm0 i hi
  · show Crew (w2.res 1) _ _
    rw [hB]; exact K2
  · show (w2.queues _).cap = ⊤
    rw [q2]; show (w1.queues _).cap = ⊤; rw [q1]; exact hI.rcap
  · show (w2.queues _).mem = _
    rw [q2]; show (w1.queues _).mem ++ [⟨A + 1, 0, w1.now⟩] = _
    rw [q1, hI.rmem, range_snoc hga, List.map_append, n1']; rfl
  · show (w2.queues _).stays = _
    rw [q2]; show (w1.queues _).stays = _
    rw [q1, hI.rstay]
  · show (w2.queues _).cap = ⊤
    rw [p2, q1]; exact hI.ccap
  · show (w2.queues _).mem = _
    rw [p2, q1]; exact hI.cmem
  · show (w2.queues _).stays = _
    rw [p2, q1]; exact hI.cstay
  · intro i hi; show (if i + 1 = A + 1 then _ else _) = 3
    rw [if_neg (fun h => hnA i (.inl hi) (Nat.succ.inj h))]; exact hI.t3 i hi
  · intro p hp; show (if p.1 + 1 = A + 1 then _ else _) = _
    rw [if_neg (fun h => hnA p.1 (.inr (List.mem_map_of_mem hp)) (Nat.succ.inj h))]; exact hI.t2 p hp
  · intro i h1 h2'; show (if i + 1 = A + 1 then _ else _) = 1
    by_cases h : i = A
    · rw [if_pos (by omega), h, hI.t0 A le_rfl]
    · rw [if_neg (by omega)]; exact hI.t1 i h1 (by omega)
  · intro i h1; show (if i + 1 = A + 1 then _ else _) = 0
    rw [if_neg (by omega)]; exact hI.t0 i (by omega)
  · intro i
    rw [moments_add]
    show _ = List.take (if i + 1 = A + 1 then x.turns (i + 1) + 1 else x.turns (i + 1)) _
    by_cases h : i = A
    · subst h
      rw [if_pos rfl, if_pos rfl, hI.moments, hI.t0 i le_rfl, n1']; rfl
    · rw [if_neg (fun h' => h (Nat.succ.inj h').symm), if_neg (fun h' => h (Nat.succ.inj h'))]; exact hI.moments i
  · show (x.log ++ [_]).length = _
    rw [List.length_append, hI.count]; simp; omega

/-- a service begins -/
theorem start_service {f : Nat} {B1 B2 : List (Nat × Bool)} {j : Nat} (hI : Inv m a s n x A G (B1 ++ (j, false) :: B2) L) (hs : ∀ i, 0 ≤ s i) {es : List Ev} {sq : Nat → Int}
    (hpop : Heapq.heappop Ev.lt x.w.events = some (bev m a s sq (j, false), es))
    (hq : x.w.events.Perm ((B1 ++ (j, false) :: B2).map (bev m a s sq) ++ (List.range' A (n - A)).map (arr a))) :
    ∃ x', Play.turn (f + 10) (visit s) x = some x' ∧ Inv m a s n x' A G (B1 ++ (j, true) :: B2) L := by
  have hsp := Heapq.heappop_spec (l := x.w.events) evLaw hI.heap
  rw [hpop] at hsp
  obtain ⟨hperm, hheap, hmin⟩ := hsp
  have hmin' := first_le hmin
  have hga := hI.ga
  have hjB : (j, false) ∈ B1 ++ (j, false) :: B2 := by simp
  have hj : j < G := hI.lt (.inr (List.mem_map_of_mem hjB))
  have hfst : (B1 ++ (j, true) :: B2).map Prod.fst = (B1 ++ (j, false) :: B2).map Prod.fst := by simp
  have hnd := hI.nodup
  have hjL : j ∉ L := fun h => (List.nodup_append.mp hnd).2.2 j h j (List.mem_map_of_mem hjB) rfl
  have hnd2 := (List.nodup_append.mp hnd).2.1
  rw [List.map_append, List.map_cons] at hnd2
  have hj1 : ∀ p ∈ B1, p.1 ≠ j := fun p hp h => (List.nodup_append.mp hnd2).2.2 p.1 (List.mem_map_of_mem hp) j (by simp) h
  have hj2 : ∀ p ∈ B2, p.1 ≠ j := fun p hp h => (List.nodup_cons.mp (List.nodup_append.mp hnd2).2.1).1 (List.mem_map.mpr ⟨p, hp, h⟩)
  have pl := hI.plain (j + 1)
  obtain ⟨w1, e1, n1, cu1, ev1, sq1, sb1, pd1, mn1, ot1, c1, r1, q1⟩ := step_run hI.standby hI.pending hpop
    (by rw [hI.main]; exact Nat.succ_ne_zero _) (hI.req0 j (.inl hj)) pl.1 pl.2.1 pl.2.2.1
  have c1' : w1.comps (j + 1) = { x.w.comps (j + 1) with onList := false, status := .current, schedTime := ⊤ } := c1
  have n1' : w1.now = starts m a s j := by rw [n1]; simp [bev]
  have cu1' : w1.current = j + 1 := cu1
  obtain ⟨w2, e2, h2, rq2, cl2, r2, q2⟩ := hold_run (w := w1) (c := j + 1) (f := f + 10) (t := s j) (by rw [c1']) (hs j)
  have tj : x.turns (j + 1) = 1 := by rw [hI.t2 (j, false) hjB]; rfl
  have t2 : forR (visit s (j + 1) (x.turns (j + 1))) (exec (f + 10)) w1 = .ok w2 := by
    rw [tj]
    simp only [visit, forR]
    rw [show j + 1 - 1 = j from rfl, e2]; rfl
  have hsched := h2.chg
  have hoth : ∀ i : Nat, i ≠ j → w2.comps (i + 1) = x.w.comps (i + 1) := fun i hi => by
    rw [hsched.other (i + 1) (fun h => hi (Nat.succ.inj h)), ot1 (i + 1) (fun h => hi (Nat.succ.inj h))]
  have hmono : x.w.now ≤ w1.now := by
    have := hI.due1 (j, false) hjB
    rw [n1']; simpa using this
  have hin : ∀ y ∈ x.w.events, w1.now ≤ y.t := by rw [n1]; exact hmin'
  have hes : es.Perm (B1.map (bev m a s sq) ++ (B2.map (bev m a s sq) ++ (List.range' A (n - A)).map (arr a))) := by
    have := hperm.symm.trans hq
    rw [List.map_append, List.map_cons, List.append_assoc, List.cons_append] at this
    exact (this.trans List.perm_middle).cons_inv
  obtain ⟨F, hF, hFn⟩ := hI.idle
  refine ⟨_, turn_run e1 cu1' t2, ?_⟩
  refine ⟨hI.an, hga, by simpa using hI.blen, fun h => by simpa using hI.full h, by rw [hfst]; exact hI.all, ?_, ?_, ?_, ?_,
    ⟨fun i => if i = j then (w1.seq + 1 : Nat) else sq i, ?_⟩, ?_, ?_, ?_, ?_, fun h => absurd h (by simp),
    ⟨F, ?_, ?_⟩, ?_, ?_, ?_, ?_, ?_, ?_, ?_, ?_, ?_, ?_, ?_, ?_, ?_, ?_, ?_, ?_, ?_, ?_, ?_, ?_⟩
  · show w2.main = 0
    rw [hsched.main, mn1]; exact hI.main
  · show w2.standby = []
    rw [hsched.standby, sb1]
  · show w2.pending = []
    rw [hsched.pending, pd1]
  · show Heapq.IsHeap _ w2.events
    rw [h2.events]; exact Heapq.heappush_isHeap evLaw _ (by rw [ev1]; exact hheap)
  · show w2.events.Perm _
    rw [h2.events, ev1, n1', List.map_append, List.map_cons, List.append_assoc, List.cons_append,
      ← bev_congr (B := B1) (sq := sq) (fun p hp => by rw [if_neg (hj1 p hp)]), ← bev_congr (B := B2) (sq := sq) (fun p hp => by rw [if_neg (hj2 p hp)])]
    have : bev m a s (fun i => if i = j then ((w1.seq + 1 : Nat) : Int) else sq i) (j, true) = ⟨starts m a s j + s j, (0 : Rat), (w1.seq + 1 : Nat), j + 1, none⟩ := by
      unfold bev; simp
    rw [this]
    exact (Heapq.heappush_perm _ _).trans ((hes.cons _).trans List.perm_middle.symm)
  · intro i h1 h2'
    show w2.now ≤ _
    rw [hsched.now]
    exact hin (arr a i) (hq.symm.subset (List.mem_append_right _ (mem_range'_map h1 h2')))
  · intro p hp
    show w2.now ≤ _
    rw [hsched.now]
    have old : p ∈ B1 ++ (j, false) :: B2 → w1.now ≤ starts m a s p.1 + (if p.2 then s p.1 else 0) := fun h =>
      hin (bev m a s sq p) (hq.symm.subset (List.mem_append_left _ (List.mem_map_of_mem h)))
    rcases List.mem_append.mp hp with h | h
    · exact old (by simp [h])
    · rcases List.mem_cons.mp h with h | h
      · rw [h, n1']; simpa using hs j
      · exact old (by simp [h])
  · intro i hi
    show _ ≤ w2.now
    rw [hsched.now]; exact (hI.past i hi).trans hmono
  · intro i hi
    show _ ≤ w2.now
    rw [hsched.now]; exact (hI.past1 i hi).trans hmono
  · simpa using hF
  · intro t ht
    show t ≤ w2.now
    rw [hsched.now]; exact (hFn t ht).trans hmono
  · intro c
    show (w2.comps c).waits = [] ∧ (w2.comps c).fromStores = [] ∧ (w2.comps c).toStores = [] ∧ (w2.comps c).oneof = false
    by_cases h : c = j + 1
    · subst h
      rw [hsched.waits, hsched.froms, hsched.tos, hsched.oneof, c1']; exact pl
    · rw [hsched.other c h, ot1 c h]; exact hI.plain c
  · intro i h1 h2'
    show (w2.comps (i + 1)).requests = _ ∧ (w2.comps (i + 1)).onList = _ ∧ (w2.comps (i + 1)).status = _
    rw [hoth i (by omega)]; exact hI.req1 i h1 h2'
  · intro i hi
    show (w2.comps (i + 1)).requests = []
    by_cases h : i = j
    · rw [h, rq2, c1']; exact hI.req0 j (.inl hj)
    · rw [hoth i h]; exact hI.req0 i hi
  · rw [hfst]
    intro i hi
    show (w2.comps (i + 1)).claims = _
    by_cases h : i = j
    · rw [h, cl2, c1']; exact hI.clm1 j (List.mem_map_of_mem hjB)
    · rw [hoth i h]; exact hI.clm1 i hi
  · rw [hfst]
    intro i hi
    show (w2.comps (i + 1)).claims = []
    have h : i ≠ j := by rintro rfl; exact hi (List.mem_map_of_mem hjB)
    rw [hoth i h]; exact hI.clm0 i hi
  · show Crew (w2.res 1) _ _
    rw [r2, r1]; simpa using hI.crew
  · intro h; show (w2.res 1).minq = _
    rw [r2, r1]; exact hI.minq0 h
  · intro h; show (w2.res 1).minq = _
    rw [r2, r1]; exact hI.minq1 h
  · show (w2.queues _).cap = ⊤
    rw [q2, q1]; exact hI.rcap
  · show (w2.queues _).mem = _
    rw [q2, q1]; exact hI.rmem
  · show (w2.queues _).stays = _
    rw [q2, q1]; exact hI.rstay
  · show (w2.queues _).cap = ⊤
    rw [q2, q1]; exact hI.ccap
  · show (w2.queues _).mem = _
    rw [q2, q1, hI.cmem]; simp [mem]
  · show (w2.queues _).stays = _
    rw [q2, q1]; exact hI.cstay
  · intro i hi; show (if i + 1 = j + 1 then _ else _) = 3
    rw [if_neg (fun h => by have e : i = j := Nat.succ.inj h; rw [e] at hi; exact hjL hi)]; exact hI.t3 i hi
  · intro p hp; show (if p.1 + 1 = j + 1 then _ else _) = _
    rcases List.mem_append.mp hp with h | h
    · rw [if_neg (fun h' => hj1 p h (Nat.succ.inj h'))]; exact hI.t2 p (by simp [h])
    · rcases List.mem_cons.mp h with h | h
      · rw [h, if_pos rfl, tj]; rfl
      · rw [if_neg (fun h' => hj2 p h (Nat.succ.inj h'))]; exact hI.t2 p (by simp [h])
  · intro i h1 h2'; show (if i + 1 = j + 1 then _ else _) = 1
    rw [if_neg (by omega)]; exact hI.t1 i h1 h2'
  · intro i h1; show (if i + 1 = j + 1 then _ else _) = 0
    rw [if_neg (by omega)]; exact hI.t0 i h1
  · intro i
    rw [moments_add]
    show _ = List.take (if i + 1 = j + 1 then x.turns (i + 1) + 1 else x.turns (i + 1)) _
    by_cases h : i = j
    · subst h
      rw [if_pos rfl, if_pos rfl, hI.moments, tj, n1']; rfl
    · rw [if_neg (fun h' => h (Nat.succ.inj h').symm), if_neg (fun h' => h (Nat.succ.inj h'))]; exact hI.moments i
  · show (x.log ++ [_]).length = _
    rw [List.length_append, hI.count]; simp; omega

/-- a service is over -/
theorem end_service {f : Nat} {B1 B2 : List (Nat × Bool)} {j : Nat} (hI : Inv m a s n x A G (B1 ++ (j, true) :: B2) L) (hs : ∀ i, 0 ≤ s i) {es : List Ev} {sq : Nat → Int}
    (hpop : Heapq.heappop Ev.lt x.w.events = some (bev m a s sq (j, true), es))
    (hq : x.w.events.Perm ((B1 ++ (j, true) :: B2).map (bev m a s sq) ++ (List.range' A (n - A)).map (arr a))) :
    ∃ x' G' N, Play.turn (f + 10) (visit s) x = some x' ∧ Inv m a s n x' A G' (B1 ++ B2 ++ N) (L ++ [j]) := by
  have hsp := Heapq.heappop_spec (l := x.w.events) evLaw hI.heap
  rw [hpop] at hsp
  obtain ⟨hperm, hheap, hmin⟩ := hsp
  have hmin' := first_le hmin
  have hga := hI.ga
  have hjB : (j, true) ∈ B1 ++ (j, true) :: B2 := by simp
  have hj : j < G := hI.lt (.inr (List.mem_map_of_mem hjB))
  have hnd := hI.nodup
  have hjL : j ∉ L := fun h => (List.nodup_append.mp hnd).2.2 j h j (List.mem_map_of_mem hjB) rfl
  have hnd2 := (List.nodup_append.mp hnd).2.1
  rw [List.map_append, List.map_cons] at hnd2
  have hj1 : ∀ p ∈ B1, p.1 ≠ j := fun p hp h => (List.nodup_append.mp hnd2).2.2 p.1 (List.mem_map_of_mem hp) j (by simp) h
  have hj2 : ∀ p ∈ B2, p.1 ≠ j := fun p hp h => (List.nodup_cons.mp (List.nodup_append.mp hnd2).2.1).1 (List.mem_map.mpr ⟨p, hp, h⟩)
  have hj12 : ∀ p ∈ B1 ++ B2, p.1 ≠ j := fun p hp => (List.mem_append.mp hp).elim (hj1 p) (hj2 p)
  have hsub : ∀ p ∈ B1 ++ B2, p ∈ B1 ++ (j, true) :: B2 := fun p hp => by
    rcases List.mem_append.mp hp with h | h <;> simp [h]
  have hlt12 : ∀ p ∈ B1 ++ B2, p.1 < G := fun p hp => hI.lt (.inr (List.mem_map_of_mem (hsub p hp)))
  have pl := hI.plain (j + 1)
  obtain ⟨w1, e1, n1, cu1, ev1, sq1, sb1, pd1, mn1, ot1, c1, r1, q1⟩ := step_run hI.standby hI.pending hpop
    (by rw [hI.main]; exact Nat.succ_ne_zero _) (hI.req0 j (.inl hj)) pl.1 pl.2.1 pl.2.2.1
  have c1' : w1.comps (j + 1) = { x.w.comps (j + 1) with onList := false, status := .current, schedTime := ⊤ } := c1
  have n1' : w1.now = finish m a s j := by rw [n1]; simp [bev, finish]
  have cu1' : w1.current = j + 1 := cu1
  have cl1 : (w1.comps (j + 1)).claims = [(1, 1)] := by rw [c1']; exact hI.clm1 j (List.mem_map_of_mem hjB)
  obtain ⟨w2, e2, h2, rq2, cl2, ol2, st2, K2, m2, q2, p2⟩ := give_back (w := w1) (c := j + 1) (m := mem m a s (j, true)) (l1 := B1.map (mem m a s)) (l2 := B2.map (mem m a s))
    (k := m) (g := (B1 ++ B2).length)
    (by rw [r1]; have := hI.crew; rwa [show (B1 ++ (j, true) :: B2).length = (B1 ++ B2).length + 1 by simp; omega] at this) (by simp) cl1
    (by rw [q1, hI.cmem]; simp) rfl (by
      intro y hy
      obtain ⟨p, hp, rfl⟩ := List.mem_map.mp hy
      exact fun h => hj1 p hp (Nat.succ.inj h))
  have hmono : x.w.now ≤ w1.now := by
    have := hI.due1 (j, true) hjB
    rw [n1']; simpa [finish] using this
  have hin : ∀ y ∈ x.w.events, w1.now ≤ y.t := by rw [n1]; exact hmin'
  have hdue : ∀ p ∈ B1 ++ B2, w1.now ≤ starts m a s p.1 + (if p.2 then s p.1 else 0) := fun p hp =>
    hin (bev m a s sq p) (hq.symm.subset (List.mem_append_left _ (List.mem_map_of_mem (hsub p hp))))
  have hes : es.Perm ((B1 ++ B2).map (bev m a s sq) ++ (List.range' A (n - A)).map (arr a)) := by
    have := hperm.symm.trans hq
    rw [List.map_append, List.map_cons, List.append_assoc, List.cons_append] at this
    rw [List.map_append, List.append_assoc]
    exact (this.trans List.perm_middle).cons_inv
  have o2 : ∀ d, d ≠ j + 1 → w2.comps d = x.w.comps d := fun d hd => by rw [h2.chg.other d hd, ot1 d hd]
  have tr : x.turns (j + 1) = 2 := by rw [hI.t2 (j, true) hjB]; rfl
  have n2 : w2.now = w1.now := h2.chg.now
  obtain ⟨F, hF, hFn⟩ := hI.idle
  have hF1 : (free m a s G).Perm (finish m a s j :: (F ++ (B1 ++ B2).map (fun p => finish m a s p.1))) := by
    refine hF.trans ?_
    simp only [List.map_append, List.map_cons]
    rw [← List.append_assoc, ← List.append_assoc]
    exact List.perm_middle
  have hall : (L ++ [j] ++ (B1 ++ B2).map Prod.fst).Perm (List.range G) := by
    refine List.Perm.trans ?_ hI.all
    simp only [List.map_append, List.map_cons, List.append_assoc, List.singleton_append]
    exact (List.perm_middle.symm).append_left L
  -- the next in line gets the server
  obtain ⟨w3, g, N, e3, hN, ho3, hc3, hsched, hg, hev, hK, hm3, hq3, hp3, hidle⟩ : ∃ (w3 : World) (g : Nat) (N : List (Nat × Bool)), tryReqR (f + 10) 1 w2 = .ok w3 ∧
      N = (if g = 0 then [] else [(G, false)]) ∧
      (∀ d, d ≠ j + 1 → (w3.comps d).waits = (w2.comps d).waits ∧ (w3.comps d).fromStores = (w2.comps d).fromStores ∧ (w3.comps d).toStores = (w2.comps d).toStores ∧
        (w3.comps d).oneof = (w2.comps d).oneof) ∧
      (w3.comps (j + 1) = w2.comps (j + 1) ∧ w3.current = w2.current) ∧ (w3.now = w2.now ∧ w3.standby = w2.standby ∧ w3.pending = w2.pending ∧ w3.main = w2.main) ∧
      ((g = 0 ∧ A = G ∧ (∀ d, w3.comps d = w2.comps d)) ∨ (g = 1 ∧ G < A ∧ (B1 ++ B2).length + 1 = m ∧ starts m a s G = w1.now ∧ (∀ d, d ≠ G + 1 → w3.comps d = w2.comps d) ∧
        (w3.comps (G + 1)).requests = [] ∧ (w3.comps (G + 1)).claims = [(1, 1)])) ∧
      (Heapq.IsHeap Ev.lt w3.events ∧ ∃ sq', w3.events.Perm ((B1 ++ B2 ++ N).map (bev m a s sq') ++ (List.range' A (n - A)).map (arr a))) ∧ Crew (w3.res 1) m (B1 ++ B2 ++ N).length ∧
      (w3.res 1).minq = (if G + g = A then ⊤ else ((1 : Rat) : ETime)) ∧
      ((w3.queues (.requesters 1)).cap = ⊤ ∧ (w3.queues (.requesters 1)).mem = (List.range' (G + g) (A - (G + g))).map (fun i => ⟨i + 1, 0, a i⟩) ∧
        (w3.queues (.requesters 1)).stays = (List.range (G + g)).map (fun i => starts m a s i - a i)) ∧
      ((w3.queues (.claimers 1)).cap = ⊤ ∧ (w3.queues (.claimers 1)).mem = (B1 ++ B2 ++ N).map (mem m a s) ∧
        (w3.queues (.claimers 1)).stays = (L ++ [j]).map s) ∧
      ∃ F', (free m a s (G + g)).Perm (F' ++ (B1 ++ B2 ++ N).map (fun p => finish m a s p.1)) ∧ ∀ t ∈ F', t ≤ w1.now := by
    have hh2 : Heapq.IsHeap Ev.lt w2.events := by rw [h2.events, ev1]; exact hheap
    have rc2 : (w2.queues (.requesters 1)).cap = ⊤ := by rw [q2, q1]; exact hI.rcap
    have rm2 : (w2.queues (.requesters 1)).mem = (List.range' G (A - G)).map (fun i => ⟨i + 1, 0, a i⟩) := by rw [q2, q1]; exact hI.rmem
    have rs2 : (w2.queues (.requesters 1)).stays = (List.range G).map (fun i => starts m a s i - a i) := by rw [q2, q1]; exact hI.rstay
    have cc2 : (w2.queues (.claimers 1)).cap = ⊤ := by rw [p2]; show (w1.queues _).cap = ⊤; rw [q1]; exact hI.ccap
    have cm2 : (w2.queues (.claimers 1)).mem = (B1 ++ B2).map (mem m a s) := by rw [p2, List.map_append]; rfl
    have cs2 : (w2.queues (.claimers 1)).stays = (L ++ [j]).map s := by
      rw [p2]; show (w1.queues _).stays ++ [w1.now - starts m a s j] = _
      rw [q1, hI.cstay, List.map_append, n1']; simp [finish]
    rcases Nat.lt_or_ge G A with hlt | hge
    · have hlen : (B1 ++ B2).length + 1 = m := by
        have := hI.full hlt
        simp at this ⊢; omega
      have hF0 : F = [] := by
        have := hF.length_eq
        rw [free_length, List.length_append, List.length_map, hI.full hlt] at this
        exact List.length_eq_zero_iff.mp (by omega)
      subst hF0
      have hle12 : ∀ p ∈ B1 ++ B2, finish m a s j ≤ finish m a s p.1 := by
        intro p hp
        have h1 := hdue p hp
        have h2 := hs p.1
        rw [← n1']
        refine h1.trans ?_
        unfold finish
        split <;> linarith
      obtain ⟨hst, hfr⟩ := free_next hF1 (by
        intro u hu
        rw [List.nil_append] at hu
        obtain ⟨p, hp, rfl⟩ := List.mem_map.mp hu
        exact hle12 p hp)
      have hst' : starts m a s G = w1.now := by
        rw [hst, n1']
        refine max_eq_right ?_
        rw [← n1']; exact (hI.past G hlt).trans hmono
      have hne : (G + 1 : Nat) ≠ j + 1 := by omega
      have rq := hI.req1 G le_rfl hlt
      have c2 : w2.comps (G + 1) = x.w.comps (G + 1) := o2 _ hne
      have hm : (w2.queues (.requesters 1)).mem = ⟨G + 1, 0, a G⟩ :: (List.range' (G + 1) (A - (G + 1))).map (fun i => ⟨i + 1, 0, a i⟩) := by
        rw [rm2, range_cons hlt]; rfl
      have K2' : Crew (w2.res 1) ((B1 ++ B2).length + 1) (B1 ++ B2).length := by rw [hlen]; exact K2
      obtain ⟨w3, e3, h3, rq3, cl3, K3, m3, q3, p3⟩ := pass_next (w := w2) (c := G + 1) (f := f + 5) K2' hm rfl rfl cc2
        (by
          rw [cm2]
          intro y hy
          obtain ⟨p, hp, rfl⟩ := List.mem_map.mp hy
          exact ⟨rfl, fun h => by have := hlt12 p hp; have : p.1 = G := Nat.succ.inj h; omega⟩)
        (by rw [c2]; exact rq.1)
        (by rw [c2]; exact hI.clm0 G (fun h => by have := hI.lt (.inr h); omega)) (by rw [c2]; exact rq.2.1) (by rw [c2, rq.2.2]; simp) (by rw [c2, rq.2.2]; simp)
        (by rw [c2]; exact (hI.plain _).2.2.2) (by rw [m2, r1]; exact hI.minq1 hlt)
      rw [hlen] at K3
      refine ⟨w3, 1, [(G, false)], e3, rfl, fun d hd => ?_, ⟨h3.chg.other _ hne.symm, h3.chg.current⟩, ⟨h3.chg.now, h3.chg.standby, h3.chg.pending, h3.chg.main⟩,
        .inr ⟨rfl, hlt, hlen, hst', h3.chg.other, rq3, cl3⟩, ⟨?_, fun i => if i = G then (w2.seq + 1 : Nat) else sq i, ?_⟩, ?_, ?_, ⟨?_, ?_, ?_⟩, ⟨?_, ?_, ?_⟩, [], ?_, by simp⟩
      · by_cases h : d = G + 1
        · rw [h]; exact ⟨h3.chg.waits, h3.chg.froms, h3.chg.tos, h3.chg.oneof⟩
        · rw [h3.chg.other d h]; exact ⟨rfl, rfl, rfl, rfl⟩
      · rw [h3.events]; exact Heapq.heappush_isHeap evLaw _ hh2
      · rw [h3.events, h2.events, ev1, n2, List.map_append, ← bev_congr (B := B1 ++ B2) (sq := sq) (fun p hp => by rw [if_neg (hlt12 p hp).ne]), List.append_assoc]
        refine (Heapq.heappush_perm _ _).trans ((hes.cons _).trans ?_)
        have : bev m a s (fun i => if i = G then ((w2.seq + 1 : Nat) : Int) else sq i) (G, false) = ⟨w1.now, (0 : Rat), (w2.seq + 1 : Nat), G + 1, none⟩ := by
          unfold bev; simp [hst']
        rw [List.map_singleton, this]
        exact List.perm_middle.symm
      · rw [show (B1 ++ B2 ++ [(G, false)]).length = m by rw [List.length_append]; exact hlen]
        exact K3
      · rw [m3]
        by_cases h : G + 1 = A
        · rw [if_pos h, if_pos]; rw [← h]; simp
        · rw [if_neg h, if_neg]
          rw [range_cons (by omega)]; simp
      · rw [q3]; exact rc2
      · rw [q3]; rfl
      · rw [q3]; show (w2.queues _).stays ++ [w2.now - a G] = _
        rw [rs2, List.range_succ (n := G), List.map_append, n2, ← hst']; rfl
      · rw [p3]; exact cc2
      · rw [p3]; show (w2.queues _).mem ++ [⟨G + 1, 0, w2.now⟩] = _
        rw [cm2, n2, ← hst', List.map_append (l₁ := B1 ++ B2)]; rfl
      · rw [p3]; exact cs2
      · refine hfr.trans ?_
        rw [List.nil_append, List.nil_append, List.map_append (l₁ := B1 ++ B2)]
        exact List.perm_append_comm (l₁ := [finish m a s G])
    · have hA : A = G := le_antisymm hge hga
      have hm : (w2.queues (.requesters 1)).mem = [] := by rw [rm2, hA]; simp
      refine ⟨w2, 0, [], pass_none (f := f + 5) K2 hm, rfl, fun d _ => ⟨rfl, rfl, rfl, rfl⟩, ⟨rfl, rfl⟩, ⟨rfl, rfl, rfl, rfl⟩, .inl ⟨rfl, hA, fun _ => rfl⟩,
        ⟨hh2, sq, by rw [h2.events, ev1, List.append_nil]; exact hes⟩, by rw [List.append_nil]; exact K2, ?_, ⟨rc2, rm2, rs2⟩, ⟨cc2, by rw [List.append_nil]; exact cm2, cs2⟩,
        finish m a s j :: F, by rw [List.append_nil]; exact hF1, fun t ht => ?_⟩
      · rw [if_pos (by omega), m2, r1]; exact hI.minq0 (by omega)
      · rcases List.mem_cons.mp ht with h | h
        · rw [h, n1']
        · exact (hFn t h).trans hmono
  obtain ⟨w4, e4, h4, rq4, cl4, r4, q4⟩ := end_run (w := w3) (c := j + 1) (f := f + 10) (by rw [hc3.1]; exact cl2)
  have t2 : forR (visit s (j + 1) (x.turns (j + 1))) (exec (f + 10)) w1 = .ok w4 := by
    rw [tr]
    simp only [visit, forR, exec]
    have : releaseAll (f + 10) (j + 1) w1 = .ok w3 := by
      unfold releaseAll
      rw [cl1]
      show ((releaseCore (j + 1) 1 none w1 ⊳ tryReqR (f + 10) 1) ⊳ fun w => .ok w) = _
      rw [e2, then_ok, e3]; rfl
    rw [this, then_ok]
    rw [hc3.2, h2.chg.current, cu1', e4]; rfl
  have n4 : w4.now = w1.now := by rw [h4.chg.now, hsched.1, n2]
  have hoth : ∀ i : Nat, i ≠ j → (i ≠ G ∨ g = 0) → w4.comps (i + 1) = x.w.comps (i + 1) := fun i hi hi' => by
    rw [h4.chg.other (i + 1) (fun h => hi (Nat.succ.inj h))]
    rcases hg with hg | hg
    · rw [hg.2.2]; exact o2 _ (fun h => hi (Nat.succ.inj h))
    · rw [hg.2.2.2.2.1 (i + 1) (fun h => by have := Nat.succ.inj h; omega)]; exact o2 _ (fun h => hi (Nat.succ.inj h))
  have hg1 : g = 0 ∨ g = 1 := by rcases hg with hg | hg <;> omega
  have hgA : G + g ≤ A := by rcases hg with hg | hg <;> omega
  have hNm : ∀ p ∈ B1 ++ B2 ++ N, p ∈ B1 ++ B2 ∨ (g = 1 ∧ p = (G, false)) := by
    intro p hp
    rcases List.mem_append.mp hp with h | h
    · exact .inl h
    · rcases hg1 with h' | h'
      · rw [hN, if_pos h'] at h; simp at h
      · rw [hN, if_neg (by omega)] at h; exact .inr ⟨h', List.mem_singleton.mp h⟩
  have hNf : ∀ i, i ∈ (B1 ++ B2 ++ N).map Prod.fst → (i ∈ (B1 ++ (j, true) :: B2).map Prod.fst ∧ i ≠ j) ∨ (g = 1 ∧ i = G) := by
    intro i hi
    obtain ⟨p, hp, rfl⟩ := List.mem_map.mp hi
    rcases hNm p hp with h | h
    · exact .inl ⟨List.mem_map_of_mem (hsub p h), hj12 p h⟩
    · exact .inr ⟨h.1, by rw [h.2]⟩
  have hNb : ∀ i, i ∉ (B1 ++ B2 ++ N).map Prod.fst → i ∉ (B1 ++ (j, true) :: B2).map Prod.fst ∨ i = j := by
    intro i hi
    by_cases h : i = j
    · exact .inr h
    · refine .inl fun h' => hi ?_
      simp only [List.map_append, List.map_cons, List.mem_append, List.mem_cons] at h' ⊢
      rcases h' with h' | h' | h'
      · exact .inl (.inl h')
      · exact absurd h' h
      · exact .inl (.inr h')
  obtain ⟨F', hF', hFn'⟩ := hidle
  refine ⟨_, G + g, N, turn_run e1 cu1' t2, ?_⟩
  refine ⟨hI.an, hgA, ?_, fun h => ?_, ?_, ?_, ?_, ?_, ?_, ?_, ?_, ?_, ?_, ?_, ?_,
    ⟨F', hF', ?_⟩, ?_, ?_, ?_, ?_, ?_, ?_, fun h => ?_, fun h => ?_, ?_, ?_, ?_, ?_, ?_, ?_, ?_, ?_, ?_, ?_, ?_, ?_⟩
  · rcases hg with hg | hg
    · rw [hN, if_pos hg.1, List.append_nil]
      have := hI.blen
      simp at this ⊢; omega
    · rw [hN, if_neg (by omega), List.length_append]; exact hg.2.2.1.le
  · rcases hg with hg | hg
    · omega
    · rw [hN, if_neg (by omega), List.length_append]; exact hg.2.2.1
  · rcases hg1 with h | h
    · rw [hN, if_pos h, h, List.append_nil]; exact hall
    · rw [hN, if_neg (by omega), h, List.map_append, ← List.append_assoc, List.range_succ]; exact hall.append_right _
  · show w4.main = 0
    rw [h4.chg.main, hsched.2.2.2, h2.chg.main, mn1]; exact hI.main
  · show w4.standby = []
    rw [h4.chg.standby, hsched.2.1, h2.chg.standby, sb1]
  · show w4.pending = []
    rw [h4.chg.pending, hsched.2.2.1, h2.chg.pending, pd1]
  · show Heapq.IsHeap _ w4.events
    rw [h4.events]; exact hev.1
  · show ∃ sq, w4.events.Perm _
    rw [h4.events]; exact hev.2
  · intro i h1 h2'
    show w4.now ≤ _
    rw [n4]
    exact hin (arr a i) (hq.symm.subset (List.mem_append_right _ (mem_range'_map h1 h2')))
  · intro p hp
    show w4.now ≤ _
    rw [n4]
    rcases hNm p hp with h | h
    · exact hdue p h
    · rcases hg with hg | hg
      · omega
      · rw [h.2]; simp [hg.2.2.2.1]
  · intro i hi
    show _ ≤ w4.now
    rw [n4]; exact (hI.past i hi).trans hmono
  · intro i hi
    show _ ≤ w4.now
    rw [n4]
    rcases List.mem_append.mp hi with h | h
    · exact (hI.past1 i h).trans hmono
    · rw [List.mem_singleton.mp h, n1']
  · intro _ i hi
    refine ⟨j, by simp, ?_⟩
    show w4.now = _
    rw [n4, n1']
  · intro t ht
    show t ≤ w4.now
    rw [n4]; exact hFn' t ht
  · intro c
    show (w4.comps c).waits = [] ∧ (w4.comps c).fromStores = [] ∧ (w4.comps c).toStores = [] ∧ (w4.comps c).oneof = false
    by_cases h : c = j + 1
    · rw [h, h4.chg.waits, h4.chg.froms, h4.chg.tos, h4.chg.oneof, hc3.1, h2.chg.waits, h2.chg.froms, h2.chg.tos, h2.chg.oneof, c1']; exact pl
    · rw [h4.chg.other c h, (ho3 c h).1, (ho3 c h).2.1, (ho3 c h).2.2.1, (ho3 c h).2.2.2, o2 c h]; exact hI.plain c
  · intro i h1 h2'
    show (w4.comps (i + 1)).requests = _ ∧ (w4.comps (i + 1)).onList = _ ∧ (w4.comps (i + 1)).status = _
    rw [hoth i (by omega) (by omega)]; exact hI.req1 i (by omega) h2'
  · intro i hi
    show (w4.comps (i + 1)).requests = []
    by_cases h : i = j
    · rw [h, rq4, hc3.1, rq2, c1']; exact hI.req0 j (.inl hj)
    · by_cases h' : i = G ∧ g = 1
      · rcases hg with hg | hg
        · omega
        · rw [h'.1, h4.chg.other _ (fun h => by have : G = j := Nat.succ.inj h; omega)]; exact hg.2.2.2.2.2.1
      · rw [hoth i h (by omega)]; exact hI.req0 i (by omega)
  · intro i hi
    show (w4.comps (i + 1)).claims = _
    rcases hNf i hi with h | h
    · have : i ≠ G := by have := hI.lt (.inr h.1); omega
      rw [hoth i h.2 (.inl this)]; exact hI.clm1 i h.1
    · rcases hg with hg | hg
      · omega
      · rw [h.2, h4.chg.other _ (fun h => by have : G = j := Nat.succ.inj h; omega)]; exact hg.2.2.2.2.2.2
  · intro i hi
    show (w4.comps (i + 1)).claims = []
    by_cases h : i = j
    · rw [h]; exact cl4
    · have h' : i ≠ G ∨ g = 0 := by
        by_contra hc
        rw [not_or] at hc
        refine hi ?_
        rw [hN, if_neg hc.2, not_not.mp hc.1]; simp
      rw [hoth i h h']; exact hI.clm0 i ((hNb i hi).resolve_right h)
  · show Crew (w4.res 1) _ _
    rw [r4]; exact hK
  · show (w4.res 1).minq = _
    rw [r4, hm3, if_pos h]
  · show (w4.res 1).minq = _
    rw [r4, hm3, if_neg (by omega)]
  · show (w4.queues _).cap = ⊤
    rw [q4]; exact hq3.1
  · show (w4.queues _).mem = _
    rw [q4]; exact hq3.2.1
  · show (w4.queues _).stays = _
    rw [q4]; exact hq3.2.2
  · show (w4.queues _).cap = ⊤
    rw [q4]; exact hp3.1
  · show (w4.queues _).mem = _
    rw [q4, hp3.2.1]
  · show (w4.queues _).stays = _
    rw [q4]; exact hp3.2.2
  · intro i hi; show (if i + 1 = j + 1 then _ else _) = 3
    by_cases h : i = j
    · rw [if_pos (by omega), h, tr]
    · rw [if_neg (by omega)]; exact hI.t3 i (by simpa [h] using hi)
  · intro p hp; show (if p.1 + 1 = j + 1 then _ else _) = _
    rcases hNm p hp with h | h
    · rw [if_neg (fun h' => hj12 p h (Nat.succ.inj h'))]; exact hI.t2 p (hsub p h)
    · rw [h.2, if_neg (by show ¬ G + 1 = j + 1; omega)]; exact hI.t1 G le_rfl (by omega)
  · intro i h1 h2'; show (if i + 1 = j + 1 then _ else _) = 1
    rw [if_neg (by omega)]; exact hI.t1 i (by omega) h2'
  · intro i h1; show (if i + 1 = j + 1 then _ else _) = 0
    rw [if_neg (by omega)]; exact hI.t0 i h1
  · intro i
    rw [moments_add]
    show _ = List.take (if i + 1 = j + 1 then x.turns (i + 1) + 1 else x.turns (i + 1)) _
    by_cases h : i = j
    · subst h
      rw [if_pos rfl, if_pos rfl, hI.moments, tr, n1']; rfl
    · rw [if_neg (fun h' => h (Nat.succ.inj h').symm), if_neg (fun h' => h (Nat.succ.inj h'))]; exact hI.moments i
  · show (x.log ++ [_]).length = _
    have hNc : N.countP Prod.snd = 0 := by
      rw [hN]; split <;> simp
    rw [List.length_append, hI.count, List.countP_append (l₁ := B1 ++ B2), hNc]; simp; omega

/-- the environment with a resource (number 1) of capacity `m` -/
def office (m : Nat) : World := { World.init with res := fun _ => { cap := ((m : Rat) : ETime) } }

theorem opened {f : Nat} (h0 : ∀ i, 0 ≤ a i) (n : Nat) : ∃ w, forR (opening a n) (exec f) (office m) = .ok w ∧ Inv m a s n ⟨w, fun _ => 0, []⟩ 0 0 [] [] := by
  obtain ⟨w, e, h⟩ := make (f := f) (fun _ => { cap := ((m : Rat) : ETime) }) h0 n
  change forR _ _ (office m) = _ at e
  obtain ⟨w1, hw1⟩ : ∃ w1 : World, w1 = { w with endOnEmpty := true } := ⟨_, rfl⟩
  obtain ⟨w2, hw2⟩ : ∃ w2, w2 = (setStatus 0 .scheduled w1).modC 0 (fun x => { x with schedTime := ⊤ }) := ⟨_, rfl⟩
  have oth : ∀ i : Nat, w2.comps (i + 1) = w.comps (i + 1) := by
    intro i
    rw [hw2, c_other _ _ _ _ (by simp)]; unfold setStatus; rw [c_other _ _ _ _ (by simp), hw1]
  have pl : ∀ c, (w2.comps c).waits = [] ∧ (w2.comps c).fromStores = [] ∧ (w2.comps c).toStores = [] ∧ (w2.comps c).oneof = false ∧ (w2.comps c).requests = [] ∧ (w2.comps c).claims = [] := by
    intro c
    cases c with
    | zero => rw [hw2, c_self]; unfold setStatus; rw [c_self, hw1]; exact h.plain 0
    | succ i => rw [oth i]; exact h.plain _
  have ev : w2.events = w.events := by rw [hw2, hw1]; rfl
  have nw : w2.now = 0 := by rw [hw2, hw1]; exact h.now
  have rs : w2.res = fun _ => { cap := ((m : Rat) : ETime) } := by rw [hw2, hw1]; exact h.res
  have qs : w2.queues = fun _ => {} := by rw [hw2, hw1]; exact h.queues
  refine ⟨w2, ?_, Nat.zero_le _, le_rfl, Nat.zero_le _, fun h => absurd h (by simp), by simp, ?_, ?_, ?_, ?_, ⟨fun _ => 0, ?_⟩, fun i _ _ => ?_, by simp,
    fun i hi => absurd hi (by simp), by simp, by simp, ⟨List.replicate m 0, by simp [free], ?_⟩, fun c => ⟨(pl c).1, (pl c).2.1, (pl c).2.2.1, (pl c).2.2.2.1⟩,
    fun i _ hi => absurd hi (by simp), fun i _ => (pl _).2.2.2.2.1,
    by simp, fun i _ => (pl _).2.2.2.2.2, ?_, fun _ => ?_, fun h => absurd h (by simp), ?_, ?_, ?_, ?_, ?_, ?_, by simp,
    by simp, fun i _ hi => absurd hi (by simp), fun i _ => rfl, fun i => rfl, rfl⟩
  · unfold opening
    rw [forR_snoc, e, then_ok]
    show runStart none none ⊤ false false w = _
    unfold runStart
    simp only
    rw [← hw1, h.main]
    unfold reschedule
    rw [if_neg (by simp), ← hw2]
    rfl
  · show w2.main = 0
    rw [hw2, hw1]; exact h.main
  · show w2.standby = []
    rw [hw2, hw1]; exact h.standby
  · show w2.pending = []
    rw [hw2, hw1]; exact h.pending
  · show Heapq.IsHeap _ w2.events
    rw [ev]; exact h.heap
  · show w2.events.Perm _
    rw [ev, Nat.sub_zero, ← List.range_eq_range']; exact h.events
  · show w2.now ≤ a i
    rw [nw]; exact h0 i
  · intro t ht
    show t ≤ w2.now
    rw [nw, (List.mem_replicate.mp ht).2]
  · show Crew (w2.res 1) _ _
    rw [rs]; exact ⟨rfl, by simp, rfl, rfl, rfl, rfl⟩
  · show (w2.res 1).minq = ⊤
    rw [rs]
  · show (w2.queues _).cap = ⊤
    rw [qs]
  · show (w2.queues _).mem = _
    rw [qs]; rfl
  · show (w2.queues _).stays = _
    rw [qs]; rfl
  · show (w2.queues _).cap = ⊤
    rw [qs]
  · show (w2.queues _).mem = _
    rw [qs]; rfl
  · show (w2.queues _).stays = _
    rw [qs]; rfl

theorem next_turn {f : Nat} (hI : Inv m a s n x A G B L) (hm : 0 < m) (hs : ∀ i, 0 ≤ s i) (ha : ∀ i j, i ≤ j → a i ≤ a j) (hlt : x.log.length < 3 * n) :
    ∃ x' A' G' B' L', Play.turn (f + 10) (visit s) x = some x' ∧ Inv m a s n x' A' G' B' L' ∧ x'.log.length = x.log.length + 1 := by
  have hlog : ∀ {x'}, Play.turn (f + 10) (visit s) x = some x' → x'.log.length = x.log.length + 1 := by
    intro x' h
    unfold Play.turn at h
    split at h
    · cases h
    · split at h
      · cases h
      · cases h; simp
  obtain ⟨sq, hq⟩ := hI.ev
  have hsp := Heapq.heappop_spec (l := x.w.events) evLaw hI.heap
  rcases hpop : Heapq.heappop Ev.lt x.w.events with _ | ⟨e, es⟩
  · rw [hpop] at hsp
    exfalso
    have hnil : x.w.events = [] := hsp
    rw [hnil] at hq
    have hl := hq.length_eq
    simp at hl
    have hB : B = [] := List.length_eq_zero_iff.mp (by omega)
    have han := hI.an
    have hga := hI.ga
    have hG : ¬ G < A := fun h => by have := hI.full h; rw [hB] at this; simp at this; omega
    have hL := hI.all.length_eq
    rw [hB] at hL
    simp at hL
    have := hI.count
    rw [hB] at this
    simp at this
    omega
  · rw [hpop] at hsp
    obtain ⟨hperm, hheap, hmin⟩ := hsp
    have he : e ∈ x.w.events := hperm.symm.subset (List.mem_cons_self ..)
    rcases List.mem_append.mp (hq.subset he) with h' | h'
    · obtain ⟨⟨j, b⟩, hp, rfl⟩ := List.mem_map.mp h'
      obtain ⟨B1, B2, rfl⟩ := List.append_of_mem hp
      cases b with
      | false =>
        obtain ⟨x', e', h'⟩ := start_service (f := f) hI hs hpop hq
        exact ⟨x', _, _, _, _, e', h', hlog e'⟩
      | true =>
        obtain ⟨x', G', N, e', h'⟩ := end_service (f := f) hI hs hpop hq
        exact ⟨x', _, _, _, _, e', h', hlog e'⟩
    · obtain ⟨i, hi1, hi2, rfl⟩ := range'_mem_map h'
      have := arr_first ha hi1 hi2 (fun j h1 h2 => hq.symm.subset (List.mem_append_right _ (mem_range'_map h1 h2))) hmin
      subst this
      rcases Nat.lt_or_ge B.length m with h | h
      · obtain ⟨x', e', h'⟩ := arrive_free (f := f) hI h ha hs hpop hi2
        exact ⟨x', _, _, _, _, e', h', hlog e'⟩
      · obtain ⟨x', e', h'⟩ := arrive_busy (f := f) hI (le_antisymm hI.blen h) hm ha hpop hi2
        exact ⟨x', _, _, _, _, e', h', hlog e'⟩

theorem turns_run {f : Nat} (hm : 0 < m) (hs : ∀ i, 0 ≤ s i) (ha : ∀ i j, i ≤ j → a i ≤ a j) (hI : Inv m a s n x 0 0 [] []) : ∀ k, k ≤ 3 * n →
    ∃ x' A' G' B' L', Play.run (f + 10) (visit s) k x = some x' ∧ Inv m a s n x' A' G' B' L' ∧ x'.log.length = k
  | 0, _ => ⟨x, _, _, _, _, rfl, hI, hI.count⟩
  | k + 1, hk => by
    obtain ⟨x1, A1, G1, B1, L1, e1, h1, l1⟩ := turns_run (f := f) hm hs ha hI k (by omega)
    obtain ⟨x2, A2, G2, B2, L2, e2, h2, l2⟩ := next_turn (f := f) h1 hm hs ha (by omega)
    refine ⟨x2, A2, G2, B2, L2, ?_, h2, by omega⟩
    show (Play.run (f + 10) (visit s) k x).bind _ = _
    rw [e1]; exact e2

/-! ## what the recursion means -/

theorem free_cons (hm : 0 < m) (i : Nat) : ∃ t l, free m a s i = t :: l ∧ (∀ u ∈ l, t ≤ u) ∧ starts m a s i = max (a i) t ∧ free m a s (i + 1) = l.orderedInsert (· ≤ ·) (finish m a s i) := by
  cases h : free m a s i with
  | nil => have := free_length (m := m) (a := a) (s := s) i; rw [h] at this; simp at this; omega
  | cons t l =>
    have hs := free_sorted (m := m) (a := a) (s := s) i
    rw [h] at hs
    have e1 : starts m a s i = max (a i) t := by unfold starts; rw [h]; rfl
    refine ⟨t, l, rfl, (List.pairwise_cons.mp hs).1, e1, ?_⟩
    rw [free, h]; unfold finish; rw [e1]

theorem starts_mono (hm : 0 < m) (ha : ∀ i, a i ≤ a (i + 1)) (hs : ∀ i, 0 ≤ s i) : Monotone (starts m a s) := by
  refine monotone_nat_of_le_succ fun i => ?_
  obtain ⟨t, l, h1, h2, h3, h4⟩ := free_cons (a := a) (s := s) hm i
  obtain ⟨t', l', h1', h2', h3', h4'⟩ := free_cons (a := a) (s := s) hm (i + 1)
  rw [h3, h3']
  refine max_le ((ha i).trans (le_max_left _ _)) (le_trans ?_ (le_max_right _ _))
  have : t' ∈ l.orderedInsert (· ≤ ·) (finish m a s i) := by rw [← h4, h1']; simp
  rcases List.mem_cons.mp ((List.perm_orderedInsert _ _ _).subset this) with h | h
  · rw [h]; unfold finish; rw [h3]
    exact (le_max_right (a i) t).trans (le_add_of_nonneg_right (hs i))
  · exact h2 t' h

/-- the moments at which servers were free, and no longer are: all of them are in the past -/
theorem free_all (hm : 0 < m) (i : Nat) :
    ∃ gone, (free m a s i ++ gone).Perm (List.replicate m 0 ++ (List.range i).map (finish m a s)) ∧ ∀ u ∈ gone, ∃ j < i, u ≤ starts m a s j := by
  induction i with
  | zero => exact ⟨[], by simp [free], by simp⟩
  | succ i ih =>
    obtain ⟨gone, hp, hg⟩ := ih
    obtain ⟨t, l, h1, h2, h3, h4⟩ := free_cons (a := a) (s := s) hm i
    refine ⟨t :: gone, ?_, fun u hu => ?_⟩
    · rw [h4, List.range_succ, List.map_append, ← List.append_assoc]
      refine List.Perm.trans ?_ (hp.append_right _)
      rw [h1]
      refine ((List.perm_orderedInsert _ _ _).append_right _).trans ?_
      refine List.Perm.trans ?_ (List.perm_append_comm (l₁ := [finish m a s i]))
      refine List.Perm.cons _ ?_
      exact List.perm_middle
    · rcases List.mem_cons.mp hu with h | h
      · exact ⟨i, Nat.lt_succ_self i, by rw [h, h3]; exact le_max_right _ _⟩
      · obtain ⟨j, hj, hj'⟩ := hg u h
        exact ⟨j, by omega, hj'⟩

end Desk

open Desk

/-- **C81.** `m` servers (a resource of capacity `m`) serve customers, each of whom arrives, requests a server, holds for its service time, releases the server and
ends. Nothing is raised; each customer gets control exactly three times: at its arrival, when its service begins and when it is over. Services begin as queueing
theory has it (`starts`): the next customer in order of arrival goes to the server that is free first. The requesters' length of stay holds the waiting times in order
of arrival, the claimers' length of stay the service times; in the end both queues are empty and main gets control, at the end of the service that is over last. -/
theorem C81_servers (m : Nat) (hm : 0 < m) (a s : Nat → Rat) (n f : Nat) (h0 : 0 ≤ a 0) (ha : ∀ i, a i ≤ a (i + 1)) (hs : ∀ i, 0 ≤ s i) :
    ∃ w, forR (opening a n) (exec (f + 10)) (office m) = .ok w ∧ ∃ x, Play.run (f + 10) (visit s) (3 * n) { w := w } = some x ∧
      (∀ i < n, x.moments (i + 1) = [a i, starts m a s i, starts m a s i + s i]) ∧
      (x.w.queues (.requesters 1)).stays = (List.range n).map (fun i => starts m a s i - a i) ∧
      (x.w.queues (.claimers 1)).stays.Perm ((List.range n).map s) ∧
      x.w.inQ (.requesters 1) = [] ∧ x.w.inQ (.claimers 1) = [] ∧
      ∃ w', step x.w = .ok w' ∧ w'.current = w'.main ∧ (∀ i < n, starts m a s i + s i ≤ w'.now) ∧ (0 < n → ∃ i < n, w'.now = starts m a s i + s i) := by
  have mono : ∀ i j, i ≤ j → a i ≤ a j := fun i j h => monotone_nat_of_le_succ ha h
  have hpos : ∀ i, 0 ≤ a i := fun i => h0.trans (mono 0 i (Nat.zero_le _))
  obtain ⟨w, e, hI⟩ := Desk.opened (m := m) (s := s) (f := f + 10) hpos n
  obtain ⟨x, A, G, B, L, e', h, hl⟩ := Desk.turns_run (f := f) hm hs mono hI (3 * n) le_rfl
  have hc := h.count
  have h1 := h.an; have h2 := h.ga
  have h3 := h.all.length_eq
  have h4 : B.countP Prod.snd ≤ B.length := List.countP_le_length
  simp at h3
  have hB : B = [] := List.length_eq_zero_iff.mp (by omega)
  subst hB
  simp at h3 hc
  have hL : L.length = n := by omega
  have hG : G = n := by omega
  have hA : A = n := by omega
  rw [hG, hA] at h
  have hperm : L.Perm (List.range n) := by simpa using h.all
  have hev : x.w.events = [] := by
    obtain ⟨sq, hq⟩ := h.ev
    have := hq.length_eq
    simpa using this
  refine ⟨w, e, x, e', fun i hi => ?_, h.rstay, ?_, ?_, ?_, ?_⟩
  · rw [h.moments i, h.t3 i (hperm.symm.subset (List.mem_range.mpr hi))]; rfl
  · rw [h.cstay]; exact hperm.map s
  · unfold World.inQ; rw [h.rmem]; simp
  · unfold World.inQ; rw [h.cmem]; simp
  · have es : step x.w = stepEvent x.w := by
      unfold step
      split
      · rfl
      · rw [h.pending]
    rw [es]
    unfold stepEvent
    rw [if_pos h.standby]
    simp only
    rw [hev]
    refine ⟨_, rfl, rfl, fun i hi => h.past1 i (hperm.symm.subset (List.mem_range.mpr hi)), fun hn => ?_⟩
    obtain ⟨j, hj, hj'⟩ := h.rest rfl 0 (hperm.symm.subset (List.mem_range.mpr hn))
    exact ⟨j, List.mem_range.mp (hperm.subset hj), hj'⟩

/-- C81: what the recursion means: services begin in order of arrival and not before it; at no moment are there more than `m` customers in service; and as long as
someone waits there are exactly `m`, all of whom have arrived before -/
theorem C81_counter (m : Nat) (hm : 0 < m) (a s : Nat → Rat) (h0 : 0 ≤ a 0) (ha : ∀ i, a i ≤ a (i + 1)) (hs : ∀ i, 0 ≤ s i) :
    (∀ i, a i ≤ starts m a s i ∧ starts m a s i ≤ starts m a s (i + 1)) ∧
    (∀ n t, (List.range n).countP (fun j => decide (starts m a s j ≤ t ∧ t < starts m a s j + s j)) ≤ m) ∧
    ∀ i t, a i ≤ t → t < starts m a s i → (List.range i).countP (fun j => decide (starts m a s j ≤ t ∧ t < starts m a s j + s j)) = m := by
  have mono := starts_mono (m := m) (a := a) (s := s) hm ha hs
  have amono : ∀ i j, i ≤ j → a i ≤ a j := fun i j h => monotone_nat_of_le_succ ha h
  -- the customers whose service has begun are a prefix
  have cut : ∀ (n : Nat) (t : Rat), ∃ k ≤ n, (∀ j < k, starts m a s j ≤ t) ∧ (k < n → t < starts m a s k) ∧
      (List.range n).countP (fun j => decide (starts m a s j ≤ t ∧ t < starts m a s j + s j)) = (List.range k).countP (fun j => decide (t < finish m a s j)) := by
    intro n t
    induction n with
    | zero => exact ⟨0, le_rfl, by simp, by simp, rfl⟩
    | succ n ih =>
      obtain ⟨k, h1, h2, h3, h4⟩ := ih
      rcases Nat.lt_or_ge k n with h | h
      · refine ⟨k, by omega, h2, fun _ => h3 h, ?_⟩
        rw [List.range_succ, List.countP_append, h4]
        have : ¬ (starts m a s n ≤ t ∧ t < starts m a s n + s n) := fun h' => absurd (h3 h) (not_lt.mpr ((mono (Nat.le_of_lt h)).trans h'.1))
        simp [this]
      · have hk : k = n := by omega
        subst hk
        by_cases h' : starts m a s k ≤ t
        · refine ⟨k + 1, le_rfl, fun j hj => (mono (Nat.le_of_lt_succ hj)).trans h', fun h => absurd h (lt_irrefl _), ?_⟩
          rw [List.range_succ, List.countP_append, List.countP_append, h4]
          by_cases h'' : t < starts m a s k + s k <;> simp [h', h'', finish]
        · refine ⟨k, by omega, h2, fun _ => not_le.mp h', ?_⟩
          rw [List.range_succ, List.countP_append, h4]
          simp [h']
  have count : ∀ (k : Nat) (t : Rat), 0 ≤ t → (∀ j < k, starts m a s j ≤ t) →
      (List.range k).countP (fun j => decide (t < finish m a s j)) = (free m a s k).countP (fun u => decide (t < u)) := by
    intro k t ht hk
    obtain ⟨gone, hp, hg⟩ := free_all (m := m) (a := a) (s := s) hm k
    have hc := hp.countP_eq (fun u => decide (t < u))
    rw [List.countP_append, List.countP_append, List.countP_map] at hc
    have e1 : gone.countP (fun u => decide (t < u)) = 0 := by
      rw [List.countP_eq_zero]
      intro u hu
      obtain ⟨j, hj, hj'⟩ := hg u hu
      simpa using hj'.trans (hk j hj)
    have e2 : (List.replicate m (0 : Rat)).countP (fun u => decide (t < u)) = 0 := by
      rw [List.countP_eq_zero]
      intro u hu
      rw [(List.mem_replicate.mp hu).2]
      simpa using ht
    rw [e1, e2] at hc
    simp only [add_zero, zero_add] at hc
    exact hc.symm
  refine ⟨fun i => ⟨le_max_left _ _, mono (Nat.le_succ i)⟩, fun n t => ?_, fun i t h1 h2 => ?_⟩
  · obtain ⟨k, _, hk, _, e⟩ := cut n t
    rw [e]
    rcases lt_or_ge t 0 with ht | ht
    · have : k = 0 := by
        by_contra h
        have h3 := hk 0 (by omega)
        have h4 : a 0 ≤ starts m a s 0 := le_max_left _ _
        exact absurd (h0.trans (h4.trans h3)) (not_le.mpr ht)
      rw [this]; simp
    · rw [count k t ht hk]
      exact List.countP_le_length.trans (free_length k).le
  · have ht : 0 ≤ t := (h0.trans (amono 0 i (Nat.zero_le _))).trans h1
    obtain ⟨k, hk, hk1, hk2, e⟩ := cut i t
    rw [e, count k t ht hk1]
    have hlt : t < starts m a s k := by
      rcases Nat.lt_or_ge k i with h | h
      · exact hk2 h
      · rw [le_antisymm hk h]; exact h2
    obtain ⟨u, l, e1, e2, e3, _⟩ := free_cons (a := a) (s := s) hm k
    have hu : t < u := by
      rw [e3] at hlt
      exact (lt_max_iff.mp hlt).resolve_left (not_lt.mpr ((amono k i hk).trans h1))
    rw [List.countP_eq_length.mpr, free_length]
    intro v hv
    rw [e1] at hv
    rcases List.mem_cons.mp hv with h | h
    · simpa [h] using hu
    · simpa using hu.trans_le (e2 v h)

/-- with one server this is `C80` -/
theorem C81_one (a s : Nat → Rat) (h0 : 0 ≤ a 0) (i : Nat) : starts 1 a s i = begins a s i := by
  have : ∀ i, free 1 a s (i + 1) = [begins a s i + s i] := by
    intro i
    induction i with
    | zero => simp [free, begins, max_eq_left h0]
    | succ i ih => rw [free, ih]; simp [begins]
  cases i with
  | zero => simp [starts, free, begins, max_eq_left h0]
  | succ i => unfold starts; rw [this i]; rfl

/-- two servers: the third customer waits for the second, the fourth for the third, the fifth for the first or the fourth -/
example : ((Play.run 10 (visit (fun i => [8, 2, 3, 1, 1].getD i 0)) 15 { w := execAll 10 (opening (fun i => [1, 3, 4, 6, 7].getD i 9) 5) (office 2) }).map
    fun x => ([1, 2, 3, 4, 5].map x.moments, (x.w.queues (.requesters 1)).stays, (x.w.queues (.claimers 1)).stays, x.w.now)) =
    some ([[1, 1, 9], [3, 3, 5], [4, 5, 8], [6, 8, 9], [7, 9, 10]], [0, 0, 1, 2, 2], [2, 3, 8, 1, 1], 10) := by decide +kernel

end Verif
