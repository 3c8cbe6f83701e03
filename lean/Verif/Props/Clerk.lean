import Verif.Props.Buffer
import Verif.Program

/-!
# The bank with one clerk, with activate and passivate

The sample program of the documentation (sample models/Bank, 1 clerk.py): a generator makes customers, a customer enters the waiting line and wakes the clerk if it is
passive, the clerk takes customers out of the waiting line. What the model of the kernel does with it, for all interarrival and service times.
-/

namespace Verif
open World Bank Buffer
namespace Clerks

variable {w : World} {S : Abs}

/-! ## the calls -/

theorem Sim.free {c : CId} {f : Comp → Comp} (h : Sim w S) (hf : SideIs (f (w.comps c)) (S.side c)) : Sim (w.modC c f) S := by
  have := h.modC (c := c) (f := f) (s := S.side c) hf
  have e : S.upd c (S.side c) = S := by
    unfold Abs.upd
    have : (fun d => if d = c then S.side c else S.side d) = S.side := by funext d; split <;> simp_all
    rw [this]
  rwa [e] at this

theorem Sim.passivate {c : CId} {f : Nat} (h : Sim w S) (hst : (S.side c).status = .current) :
    ∃ w', exec f (.passivate c) w = .ok w' ∧ Sim w' (S.upd c { S.side c with status := .passive }) := by
  obtain ⟨w1, hw1⟩ : ∃ w1, w1 = w.modC c (fun x => { x with remaining := ((0 : Rat) : ETime) }) := ⟨_, rfl⟩
  have hc := h.side c
  have s1 : Sim w1 S := hw1 ▸ Sim.free h ⟨hc.requests, hc.waits, hc.claims, hc.status, hc.onList, hc.froms, hc.tos, hc.item, hc.prio, hc.fil⟩
  have hc := s1.side c
  refine ⟨_, ?_, s1.modC (c := c) (f := fun x => { x with schedTime := ⊤, status := .passive })
    ⟨hc.requests, hc.waits, hc.claims, rfl, hc.onList, hc.froms, hc.tos, hc.item, hc.prio, hc.fil⟩⟩
  show Verif.passivate c w = _
  unfold Verif.passivate
  rw [if_pos (show w.status c = .current by unfold World.status; rw [(h.side c).status]; exact hst), then_ok, hw1]

theorem Sim.activate {c : CId} {f : Nat} (h : Sim w S) (hst : (S.side c).status = .passive) (ho : (S.side c).onList = false)
    (hf : (S.side c).froms = []) (ht : (S.side c).tos = []) :
    ∃ w', exec f (.activate c none (0 : Rat) (0 : Rat) false false false false false) w = .ok w' ∧ Sim w' (S.sched c S.now none) := by
  have hc := h.side c
  obtain ⟨w', e, s⟩ := h.sched (c := c) (v := none) (le_refl S.now)
  refine ⟨w', ?_, s⟩
  have hws : w.status c = .passive := by unfold World.status; rw [hc.status]; exact hst
  show Verif.activate c none (0 : Rat) (0 : Rat) false false false false false w = _
  unfold Verif.activate
  simp only [Bool.false_or]
  rw [if_neg (by rw [hws]; simp), if_neg (by rw [hws]; simp)]
  have e1 : Verif.remove c w = .ok w := by
    unfold Verif.remove
    rw [if_neg (by rw [hc.onList, ho]; simp), if_neg (by rw [hws]; simp)]
  have e2 : checkFail c w = .ok w := by
    unfold checkFail checkFailReq
    rw [if_pos hc.requests, then_ok]
    unfold checkFailWait
    rw [if_pos (by rw [hc.waits]; rfl), then_ok]
    unfold checkFailFrom
    rw [if_pos (by rw [hc.froms]; exact hf), then_ok]
    unfold checkFailTo
    rw [if_pos (by rw [hc.tos]; exact ht)]
  rw [e1, then_ok, if_neg (by simp), e2, then_ok, ← e]
  congr 1
  rw [← WithTop.coe_add, add_zero, h.now]

theorem Sim.createIn {d : CId} {f : Nat} (h : Sim w S) (hd : (S.side d).status = .data) (ho : (S.side d).onList = false) :
    ∃ w', exec f (.create d none (0 : Rat) (0 : Rat) false false false) w = .ok w' ∧ Sim w' (S.sched d S.now none) := h.create hd ho

/-- a component enters the waiting line, in which all have priority 0 -/
theorem Sim.enterLine {c : CId} {k f : Nat} (h : Sim w S) (hcap : (S.queues (.user k)).cap = ⊤) (hp : ∀ m ∈ (S.queues (.user k)).mem, m.prio = 0 ∧ m.c ≠ c) :
    ∃ w', exec f (.enter c k) w = .ok w' ∧ Sim w' (S.queue (.user k) (enq c S.now (S.queues (.user k)))) := by
  have h1 : (S.queues (.user k)).has c = false := by
    unfold Queue.has
    rw [List.any_eq_false]
    intro m hm; simpa using (hp m hm).2
  have h3 : Queue.tailPrio (S.queues (.user k)).mem = 0 := by
    unfold Queue.tailPrio
    split
    · rename_i m hm; exact (hp m (List.mem_of_getLast? hm)).1
    · rfl
  have h2 : (S.queues (.user k)).enter S.now c = .ok (enq c S.now (S.queues (.user k))) := by
    unfold Queue.enter Queue.insert
    rw [h1, if_neg (by simp), if_neg (by rw [hcap]; simp [ETime.subQ]), h3]
    rfl
  refine ⟨w.modQ (.user k) (fun _ => enq c S.now (S.queues (.user k))), ?_, h.modQ⟩
  simp only [exec]
  unfold onQueue
  rw [h.queues, h.now]
  simp only [h2]

theorem Sim.leaveLine {c : CId} {k f : Nat} {m : QMem} {l : List QMem} (h : Sim w S) (hm : (S.queues (.user k)).mem = m :: l) (hc : m.c = c) :
    ∃ w', exec f (.leave c k) w = .ok w' ∧ Sim w' (S.queue (.user k) (deq S.now m l (S.queues (.user k)))) := by
  obtain ⟨w', e, s⟩ := h.leave (q := .user k) hm hc
  exact ⟨w', e, s⟩

/-! ## the program -/

/-- what a component remembers: the generator the number of customers made, the clerk the customer it is serving, a customer that it has entered the waiting line -/
inductive Mem where
  | start
  | made (k : Nat)
  | serving (c : CId)
  | waiting

def Mem.count : Mem → Nat
  | .made k => k
  | _ => 0

/-- the generator (component 1): for each of `n` customers, the customer is made, and the generator holds for the interarrival time -/
def generator (d : Nat → Rat) (n : Nat) (m : Mem) : Prog Mem :=
  if m.count < n then .call (.create (m.count + 3) none (0 : Rat) (0 : Rat) false false false)
    (.call (.hold 1 (some ((d m.count : Rat) : ETime)) none (0 : Rat) false false 0) (.stop (.made (m.count + 1))))
  else .call .terminate (.stop m)

/-- a customer (component `i + 3` is customer `i`): enters the waiting line (queue 1), activates the clerk if that is passive, and passivates; the process ends when the customer
is activated -/
def customer (c : CId) : Mem → Prog Mem
  | .start => .call (.enter c 1) (.look fun w =>
      if w.status 2 = .passive then .call (.activate 2 none (0 : Rat) (0 : Rat) false false false false false) (.call (.passivate c) (.stop .waiting))
      else .call (.passivate c) (.stop .waiting))
  | m => .call .terminate (.stop m)

/-- the loop of the clerk: while the waiting line is empty, passivate; otherwise, take the first customer and hold for the service time -/
def loop (s : Nat → Rat) : Prog Mem :=
  .look fun w => match w.inQ (.user 1) with
    | [] => .call (.passivate 2) (.stop .start)
    | c :: _ => .call (.leave c 1) (.call (.hold 2 (some ((s (c - 3) : Rat) : ETime)) none (0 : Rat) false false 0) (.stop (.serving c)))

/-- the clerk (component 2): after a service, the customer is activated -/
def clerk (s : Nat → Rat) : Mem → Prog Mem
  | .serving c => .call (.activate c none (0 : Rat) (0 : Rat) false false false false false) (loop s)
  | _ => loop s

/-- all processes -/
def bank (d s : Nat → Rat) (n : Nat) (c : CId) (m : Mem) : Prog Mem :=
  if c = 1 then generator d n m else if c = 2 then clerk s m else customer c m

/-- the main program: the generator and the clerk are made and the simulation is run until there are no more events -/
def opening : List Op :=
  [.create 1 none (0 : Rat) (0 : Rat) false false false, .create 2 none (0 : Rat) (0 : Rat) false false false, .runStart none none ⊤ false false]

/-- when the customers arrive -/
def arrives (d : Nat → Rat) : Nat → Rat
  | 0 => 0
  | i + 1 => arrives d i + d i

/-! ## the state of affairs -/

/-- the clerk: about to look at the waiting line, passive, or serving -/
inductive St where
  | ready (t : Rat)
  | passive
  | busy

variable {d s : Nat → Rat} {n : Nat}

/-- when the service of a customer is over -/
def over (d s : Nat → Rat) (i : Nat) : Rat := begins (arrives d) s i + s i

/-- the customers that have been served -/
def served : St → Nat → Nat
  | .busy, G => G - 1
  | _, G => G

def ctime (d s : Nat → Rat) : St → Nat → Option Rat
  | .ready t, _ => some t
  | .passive, _ => none
  | .busy, G => some (over d s (G - 1))

def gtime (d : Nat → Rat) (ge : Bool) (C : Nat) : Option Rat := if ge then none else some (arrives d C)
def ptime (d : Nat → Rat) (C A : Nat) : Option Rat := if C = A + 1 then some (arrives d A) else none

def kok (d s : Nat → Rat) (now : Rat) (G A : Nat) : St → Prop
  | .ready t => (G < A → t = begins (arrives d) s G) ∧ (G = A → t = 0 ∧ G = 0)
  | .passive => A = G ∧ ∀ j, G = j + 1 → over d s j ≤ now
  | .busy => 0 < G

def kside (x : Side) : St → Prop
  | .passive => x.status = .passive ∧ x.onList = false
  | _ => x.status = .scheduled

def kmem : St → Nat → Mem
  | .busy, G => .serving (G + 2)
  | _, _ => .start

def dep (d s : Nat → Rat) (p : Nat × Int) : Ev := ⟨over d s p.1, (0 : Rat), p.2, p.1 + 3, none⟩

/-- `C` customers have been made, `A` of them have arrived, the service of `G` of them has begun; those of `P` have been served and are about to leave -/
structure Inv (d s : Nat → Rat) (n : Nat) (x : Show Mem) (S : Abs) (ge : Bool) (C A G : Nat) (K : St) (P : List (Nat × Int)) : Prop where
  sim : Sim x.w S
  heap : Heapq.IsHeap Ev.lt S.events
  ev : ∃ qg qp qc, S.events.Perm (evs (gtime d ge C) 1 qg none ++ (evs (ptime d C A) (A + 3) qp none ++ (evs (ctime d s K G) 2 qc none ++ P.map (dep d s)))) ∧ qp < qg
  cn : C ≤ n
  ac : A ≤ C
  ca : C ≤ A + 1
  ga : G ≤ A
  gdone : ge = true → C = n
  kok : kok d s S.now G A K
  gdue : ∀ t, gtime d ge C = some t → S.now ≤ t
  pdue : ∀ t, ptime d C A = some t → S.now ≤ t
  cdue : ∀ t, ctime d s K G = some t → S.now ≤ t
  past : ∀ i : Nat, i < A → arrives d i ≤ S.now
  deps : ∀ p ∈ P, S.now ≤ over d s p.1 ∧ p.1 < served K G
  nodup : (P.map Prod.fst).Nodup
  plain : ∀ c, (S.side c).froms = [] ∧ (S.side c).tos = []
  new : ∀ i : Nat, C ≤ i → (S.side (i + 3)).status = .data ∧ (S.side (i + 3)).onList = false
  asleep : ∀ i : Nat, served K G ≤ i → i < A → (S.side (i + 3)).status = .passive ∧ (S.side (i + 3)).onList = false
  gone : ∀ i : Nat, i < served K G → i ∉ P.map Prod.fst → (S.side (i + 3)).status = .data
  kside : kside (S.side 2) K
  cap : (S.queues (.user 1)).cap = ⊤
  mem : (S.queues (.user 1)).mem = (List.range' G (A - G)).map (fun i => ⟨i + 3, 0, arrives d i⟩)
  stays : (S.queues (.user 1)).stays = (List.range G).map (fun i => begins (arrives d) s i - arrives d i)
  gmem : (x.mem 1).count = C
  cmem : x.mem 2 = kmem K G
  umem0 : ∀ i : Nat, A ≤ i → x.mem (i + 3) = .start
  umem1 : ∀ i : Nat, i < A → x.mem (i + 3) = .waiting
  mom : ∀ i : Nat, x.moments (i + 3) = if A ≤ i then [] else if i < served K G ∧ i ∉ P.map Prod.fst then [arrives d i, over d s i] else [arrives d i]

/-- one turn: the component of the first event gets control and goes on with its process -/
theorem turn_go {μ : Type} {f : Nat} {pr : CId → μ → Prog μ} {x : Show μ} {w1 w2 : World} {c : CId} {m : μ} (h1 : Verif.step x.w = .ok w1) (hc : w1.current = c)
    (h2 : (pr c (x.mem c)).run f w1 = some (w2, m)) :
    Show.turn f pr x = some ⟨w2, fun d => if d = c then m else x.mem d, x.log ++ [(w1.now, c)]⟩ := by
  unfold Show.turn
  rw [h1]
  simp only [hc]
  rw [h2]

theorem run_call {μ : Type} {f : Nat} {o : Op} {p : Prog μ} {w w' : World} (h : exec f o w = .ok w') : (Prog.call o p).run f w = p.run f w' := by
  rw [Prog.run, h]

theorem moments_add {μ : Type} (x : Show μ) (w : World) (f : CId → μ) (t : Rat) (c d : CId) :
    Show.moments ⟨w, f, x.log ++ [(t, c)]⟩ d = if c = d then x.moments d ++ [t] else x.moments d := by
  unfold Show.moments
  simp only [List.filter_append, List.map_append, List.filter_cons, List.filter_nil]
  by_cases h : c = d
  · simp [h]
  · simp [h]

/-- the first event -/
theorem first {l L : List Ev} (hh : Heapq.IsHeap Ev.lt l) (hp : l.Perm L) (hne : L ≠ []) :
    ∃ e es, Heapq.heappop Ev.lt l = some (e, es) ∧ Heapq.IsHeap Ev.lt es ∧ e ∈ L ∧ (∀ L', L.Perm (e :: L') → es.Perm L') ∧ (∀ y ∈ L, Ev.lt y e = false) ∧ ∀ y ∈ L, e.t ≤ y.t := by
  have hsp := Heapq.heappop_spec (l := l) evLaw hh
  rcases hpop : Heapq.heappop Ev.lt l with _ | ⟨e, es⟩
  · rw [hpop] at hsp
    have hnil : l = [] := hsp
    rw [hnil] at hp
    exact absurd hp.nil_eq.symm hne
  · rw [hpop] at hsp
    obtain ⟨hperm, hheap, hmin⟩ := hsp
    refine ⟨e, es, rfl, hheap, hp.subset (hperm.symm.subset (List.mem_cons_self ..)), fun L' h => ?_, fun y hy => hmin y (hp.symm.subset hy), fun y hy => ?_⟩
    · exact ((hperm.symm.trans hp).trans h).cons_inv
    · have := hmin y (hp.symm.subset hy)
      unfold Ev.lt at this
      simp only [Bool.or_eq_false_iff, decide_eq_false_iff_not] at this
      exact not_lt.mp this.1

theorem arrives_mono (hd : ∀ i, 0 ≤ d i) (i : Nat) : arrives d i ≤ arrives d (i + 1) := le_add_of_nonneg_right (hd i)

theorem kok_later {a b : Rat} {G A : Nat} {K : St} (hab : a ≤ b) (h : kok d s a G A K) : kok d s b G A K := by
  cases K with
  | passive => exact ⟨h.1, fun j hj => (h.2 j hj).trans hab⟩
  | _ => exact h

variable {x : Show Mem} {ge : Bool} {C A G : Nat} {K : St} {P : List (Nat × Int)}

/-- the generator makes a customer -/
theorem step_make {f : Nat} (hI : Inv d s n x S false A A G K P) (hd : ∀ i, 0 ≤ d i) (hn : A < n) {e : Ev} {es : List Ev} (hpop : Heapq.heappop Ev.lt S.events = some (e, es))
    (hh : Heapq.IsHeap Ev.lt es) (hc : e.c = 1) (ht : arrives d A = e.t) {qc : Int} (hes : es.Perm (evs (ctime d s K G) 2 qc none ++ P.map (dep d s)))
    (hlc : ∀ t, ctime d s K G = some t → e.t ≤ t) (hld : ∀ p ∈ P, e.t ≤ over d s p.1) :
    ∃ x' S', Show.turn f (bank d s n) x = some x' ∧ Inv d s n x' S' false (A + 1) A G K P := by
  have hnow : S.now ≤ e.t := hI.gdue _ (by rw [← ht]; rfl)
  obtain ⟨w1, e1, s1⟩ := hI.sim.step hpop (by rw [hc]; simp) (hI.plain _).1 (hI.plain _).2
  rw [hc] at s1
  have hnew := hI.new A le_rfl
  have n1 : A + 3 ≠ 1 := by omega
  obtain ⟨w2, e2, s2⟩ := Sim.createIn (d := A + 3) (f := f) s1 (by rw [s_diff _ _ _ _ n1]; exact hnew.1) (by rw [s_diff _ _ _ _ n1]; exact hnew.2)
  obtain ⟨w3, e3, s3⟩ := s2.hold (c := 1) (t := d A) (f := f) (by simp [Abs.sched, Abs.upd]) (hd A)
  obtain ⟨S3, hS3, s3⟩ : ∃ S3, S3 = _ ∧ Sim w3 S3 := ⟨_, rfl, s3⟩
  have hrun : (bank d s n 1 (x.mem 1)).run f w1 = some (w3, .made (A + 1)) := by
    unfold bank generator
    rw [if_pos rfl, hI.gmem, if_pos hn, run_call e2, run_call e3]; rfl
  have hcur : w1.current = 1 := s1.current
  have hside : ∀ c : Nat, c ≠ 1 → c ≠ A + 3 → S3.side c = S.side c := by
    intro c h1 h2; rw [hS3]; simp [Abs.sched, Abs.upd, h1, h2]
  have hpl : ∀ c, (S3.side c).froms = [] ∧ (S3.side c).tos = [] := by
    intro c
    by_cases hc1 : c = 1
    · subst hc1; rw [hS3]; simp [Abs.sched, Abs.upd, hI.plain 1]
    · by_cases hc2 : c = A + 3
      · subst hc2; rw [hS3]; simp [Abs.sched, Abs.upd, hI.plain (A + 3)]
      · rw [hside c hc1 hc2]; exact hI.plain c
  have hno : S3.now = e.t := by rw [hS3]; rfl
  have hq : S3.queues = S.queues := by rw [hS3]; rfl
  refine ⟨_, _, turn_go e1 hcur hrun,
    { sim := s3, heap := by rw [hS3]; exact Heapq.heappush_isHeap evLaw _ (Heapq.heappush_isHeap evLaw _ hh), ev := ⟨(S.seq + 2 : Nat), (S.seq + 1 : Nat), qc, ?_, by omega⟩
      cn := hn, ac := Nat.le_succ _, ca := le_rfl, ga := hI.ga, gdone := fun h => absurd h (by simp), kok := by rw [hno]; exact kok_later hnow hI.kok
      gdue := ?_, pdue := ?_, cdue := by rw [hno]; exact hlc, past := fun i hi => by rw [hno]; exact (hI.past i hi).trans hnow
      deps := fun p hp => by rw [hno]; exact ⟨hld p hp, (hI.deps p hp).2⟩, nodup := hI.nodup, plain := hpl
      new := ?_, asleep := ?_, gone := ?_, kside := ?_, cap := by rw [hq]; exact hI.cap, mem := by rw [hq]; exact hI.mem, stays := by rw [hq]; exact hI.stays
      gmem := rfl, cmem := ?_, umem0 := ?_, umem1 := ?_, mom := ?_ }⟩
  · have h1 : gtime d false (A + 1) = some (e.t + d A) := by rw [← ht]; rfl
    have h2 : ptime d (A + 1) A = some e.t := by unfold ptime; rw [if_pos rfl, ht]
    rw [h1, h2, hS3]
    exact evs_push (evs_push hes)
  · intro t h
    have : arrives d A + d A = t := by simpa [gtime, arrives] using h
    rw [← this, ht, hno]; exact le_add_of_nonneg_right (hd A)
  · intro t h
    have : arrives d A = t := by simpa [ptime] using h
    rw [← this, ht, hno]
  · intro i hi; rw [hside _ (by omega) (by omega)]; exact hI.new i (by omega)
  · intro i hi hi2; rw [hside _ (by omega) (by omega)]; exact hI.asleep i hi hi2
  · intro i hi hi2
    have : i < A := by
      have := hI.ga
      cases K <;> simp only [served] at hi <;> omega
    rw [hside _ (by omega) (by omega)]; exact hI.gone i hi hi2
  · rw [hside _ (by omega) (by omega)]; exact hI.kside
  · exact hI.cmem
  · intro i hi; exact hI.umem0 i hi
  · intro i hi; exact hI.umem1 i hi
  · intro i; rw [moments_add, if_neg (show ¬ (1 : Nat) = i + 3 by omega)]; exact hI.mom i

theorem served_le (hI : Inv d s n x S ge C A G K P) : served K G ≤ A := by
  have := hI.ga
  cases K <;> simp only [served] <;> omega

theorem Sim.exit {c : CId} {f : Nat} (h : Sim w S) (hc : S.current = c) :
    ∃ w', exec f .terminate w = .ok w' ∧ Sim w' (S.upd c { S.side c with status := .data, item := none }) := by
  obtain ⟨w', e, s⟩ := h.terminate (c := c) (f := f)
  refine ⟨w', ?_, s⟩
  simp only [exec]
  rw [h.current, hc]; exact e

/-- the generator has made all customers -/
theorem step_gend {f : Nat} (hI : Inv d s n x S false A A G K P) (hn : A = n) {e : Ev} {es : List Ev} (hpop : Heapq.heappop Ev.lt S.events = some (e, es))
    (hh : Heapq.IsHeap Ev.lt es) (hc : e.c = 1) (ht : arrives d A = e.t) {qc : Int} (hes : es.Perm (evs (ctime d s K G) 2 qc none ++ P.map (dep d s)))
    (hlc : ∀ t, ctime d s K G = some t → e.t ≤ t) (hld : ∀ p ∈ P, e.t ≤ over d s p.1) :
    ∃ x' S', Show.turn f (bank d s n) x = some x' ∧ Inv d s n x' S' true A A G K P := by
  have hnow : S.now ≤ e.t := hI.gdue _ (by rw [← ht]; rfl)
  obtain ⟨w1, e1, s1⟩ := hI.sim.step hpop (by rw [hc]; simp) (hI.plain _).1 (hI.plain _).2
  rw [hc] at s1
  obtain ⟨w3, e3, s3⟩ := Sim.exit (f := f) s1 rfl
  obtain ⟨S3, hS3, s3⟩ : ∃ S3, S3 = _ ∧ Sim w3 S3 := ⟨_, rfl, s3⟩
  have hrun : (bank d s n 1 (x.mem 1)).run f w1 = some (w3, x.mem 1) := by
    unfold bank generator
    rw [if_pos rfl, hI.gmem, if_neg (by omega), run_call e3]; rfl
  have hcur : w1.current = 1 := s1.current
  have hside : ∀ c : Nat, c ≠ 1 → S3.side c = S.side c := by
    intro c h1; rw [hS3]; simp [Abs.upd, h1]
  have hpl : ∀ c, (S3.side c).froms = [] ∧ (S3.side c).tos = [] := by
    intro c
    by_cases hc1 : c = 1
    · subst hc1; rw [hS3]; simp [Abs.upd, hI.plain 1]
    · rw [hside c hc1]; exact hI.plain c
  have hno : S3.now = e.t := by rw [hS3]; rfl
  have hq : S3.queues = S.queues := by rw [hS3]; rfl
  refine ⟨_, _, turn_go e1 hcur hrun,
    { sim := s3, heap := by rw [hS3]; exact hh, ev := ⟨1, 0, qc, ?_, by omega⟩
      cn := hI.cn, ac := hI.ac, ca := hI.ca, ga := hI.ga, gdone := fun _ => hn, kok := by rw [hno]; exact kok_later hnow hI.kok
      gdue := fun t h => absurd h (by simp [gtime]), pdue := fun t h => absurd h (by simp [ptime]), cdue := by rw [hno]; exact hlc, past := fun i hi => by rw [hno]; exact (hI.past i hi).trans hnow
      deps := fun p hp => by rw [hno]; exact ⟨hld p hp, (hI.deps p hp).2⟩, nodup := hI.nodup, plain := hpl
      new := ?_, asleep := ?_, gone := ?_, kside := ?_, cap := by rw [hq]; exact hI.cap, mem := by rw [hq]; exact hI.mem, stays := by rw [hq]; exact hI.stays
      gmem := hI.gmem, cmem := hI.cmem, umem0 := hI.umem0, umem1 := hI.umem1, mom := ?_ }⟩
  · have h2 : ptime d A A = none := by simp [ptime]
    rw [h2, hS3]
    exact hes
  · intro i hi; rw [hside (i + 3) (by omega)]; exact hI.new i (by omega)
  · intro i hi hi2; rw [hside (i + 3) (by omega)]; exact hI.asleep i hi hi2
  · intro i hi hi2
    rw [hside (i + 3) (by omega)]; exact hI.gone i hi hi2
  · rw [hside 2 (by omega)]; exact hI.kside
  · intro i; rw [moments_add, if_neg (show ¬ (1 : Nat) = i + 3 by omega)]; exact hI.mom i

/-- what an arrival does to the waiting line -/
theorem line_enter (hI : Inv d s n x S ge C A G K P) (t : Rat) (ht : t = arrives d A) :
    (∀ m ∈ (S.queues (.user 1)).mem, m.prio = 0 ∧ m.c ≠ A + 3) ∧
    (enq (A + 3) t (S.queues (.user 1))).mem = (List.range' G (A + 1 - G)).map (fun i => ⟨i + 3, 0, arrives d i⟩) := by
  constructor
  · rw [hI.mem]
    intro m hm
    obtain ⟨i, h1, h2, rfl⟩ := range'_mem_map hm
    exact ⟨rfl, by show i + 3 ≠ A + 3; omega⟩
  · show (S.queues (.user 1)).mem ++ [_] = _
    rw [hI.mem, range_snoc hI.ga, List.map_append, ht]; rfl

/-- an arrival, the clerk not being passive -/
theorem step_arrive {f : Nat} (hI : Inv d s n x S ge (A + 1) A G K P) (hK : K ≠ .passive) {e : Ev} {es : List Ev} (hpop : Heapq.heappop Ev.lt S.events = some (e, es))
    (hh : Heapq.IsHeap Ev.lt es) (hc : e.c = A + 3) (ht : arrives d A = e.t) {qg qc : Int}
    (hes : es.Perm (evs (gtime d ge (A + 1)) 1 qg none ++ (evs (ctime d s K G) 2 qc none ++ P.map (dep d s))))
    (hlg : ∀ t, gtime d ge (A + 1) = some t → e.t ≤ t) (hlc : ∀ t, ctime d s K G = some t → e.t ≤ t) (hld : ∀ p ∈ P, e.t ≤ over d s p.1) :
    ∃ x' S', Show.turn f (bank d s n) x = some x' ∧ Inv d s n x' S' ge (A + 1) (A + 1) G K P := by
  have hnow : S.now ≤ e.t := hI.pdue _ (by rw [← ht]; simp [ptime])
  have hga := hI.ga
  have hse := served_le hI
  obtain ⟨w1, e1, s1⟩ := hI.sim.step hpop (by rw [hc]; exact Nat.succ_ne_zero _) (hI.plain _).1 (hI.plain _).2
  rw [hc] at s1
  obtain ⟨hm1, hm2⟩ := line_enter hI e.t ht.symm
  obtain ⟨w2, e2, s2⟩ := Sim.enterLine (c := A + 3) (k := 1) (f := f) s1 hI.cap hm1
  obtain ⟨w3, e3, s3⟩ := Sim.passivate (c := A + 3) (f := f) s2 (by simp [Abs.queue, Abs.upd])
  obtain ⟨S3, hS3, s3⟩ : ∃ S3, S3 = _ ∧ Sim w3 S3 := ⟨_, rfl, s3⟩
  have hks : w2.status 2 ≠ .passive := by
    have : (S.side 2).status ≠ .passive := by
      have := hI.kside
      cases K <;> simp_all [kside]
    unfold World.status
    rw [(s2.side 2).status]
    simpa [Abs.queue, Abs.upd] using this
  have hrun : (bank d s n (A + 3) (x.mem (A + 3))).run f w1 = some (w3, .waiting) := by
    unfold bank
    rw [if_neg (show ¬ A + 3 = 1 by omega), if_neg (show ¬ A + 3 = 2 by omega), hI.umem0 A le_rfl]
    unfold customer
    rw [run_call e2, Prog.run, if_neg hks, run_call e3]; rfl
  have hcur : w1.current = A + 3 := s1.current
  have hside : ∀ c : Nat, c ≠ A + 3 → S3.side c = S.side c := by
    intro c h1; rw [hS3]; simp [Abs.upd, Abs.queue, h1]
  have hme : (S3.side (A + 3)).status = .passive ∧ (S3.side (A + 3)).onList = false := by
    rw [hS3]; simp [Abs.upd, Abs.queue]
  have hpl : ∀ c, (S3.side c).froms = [] ∧ (S3.side c).tos = [] := by
    intro c
    by_cases hc1 : c = A + 3
    · subst hc1; rw [hS3]; simp [Abs.upd, Abs.queue, hI.plain (A + 3)]
    · rw [hside c hc1]; exact hI.plain c
  have hno : S3.now = e.t := by rw [hS3]; rfl
  have hq : S3.queues (.user 1) = enq (A + 3) e.t (S.queues (.user 1)) := by rw [hS3]; simp [Abs.upd, Abs.queue]
  refine ⟨_, _, turn_go e1 hcur hrun,
    { sim := s3, heap := by rw [hS3]; exact hh, ev := ⟨qg, qg - 1, qc, ?_, by omega⟩
      cn := hI.cn, ac := le_rfl, ca := by omega, ga := by omega, gdone := hI.gdone, kok := ?_
      gdue := by rw [hno]; exact hlg, pdue := fun t h => absurd h (by simp [ptime]), cdue := by rw [hno]; exact hlc, past := ?_
      deps := fun p hp => by rw [hno]; exact ⟨hld p hp, (hI.deps p hp).2⟩, nodup := hI.nodup, plain := hpl
      new := ?_, asleep := ?_, gone := ?_, kside := ?_, cap := by rw [hq]; exact hI.cap, mem := by rw [hq]; exact hm2, stays := by rw [hq]; exact hI.stays
      gmem := ?_, cmem := ?_, umem0 := ?_, umem1 := ?_, mom := ?_ }⟩
  · have h2 : ptime d (A + 1) (A + 1) = none := by simp [ptime]
    rw [h2, hS3]
    exact hes
  · have := hI.kok
    cases K with
    | passive => exact absurd rfl hK
    | busy => exact this
    | ready t =>
      refine ⟨fun h => ?_, fun h => by omega⟩
      rcases Nat.lt_or_ge G A with h' | h'
      · exact this.1 h'
      · obtain ⟨h1, h2⟩ := this.2 (by omega)
        rw [h1, h2]; rfl
  · intro i hi
    rw [hno]
    rcases Nat.lt_or_ge i A with h | h
    · exact (hI.past i h).trans hnow
    · rw [show i = A by omega, ht]
  · intro i hi; rw [hside (i + 3) (by omega)]; exact hI.new i (by omega)
  · intro i hi hi2
    by_cases h : i = A
    · rw [h]; exact hme
    · rw [hside (i + 3) (by omega)]; exact hI.asleep i hi (by omega)
  · intro i hi hi2
    rw [hside (i + 3) (by omega)]; exact hI.gone i hi hi2
  · rw [hside 2 (by omega)]; exact hI.kside
  · show (if (1 : Nat) = A + 3 then Mem.waiting else x.mem 1).count = _
    rw [if_neg (by omega)]; exact hI.gmem
  · show (if (2 : Nat) = A + 3 then Mem.waiting else x.mem 2) = _
    rw [if_neg (by omega)]; exact hI.cmem
  · intro i hi
    show (if i + 3 = A + 3 then Mem.waiting else x.mem (i + 3)) = _
    rw [if_neg (by omega)]; exact hI.umem0 i (by omega)
  · intro i hi
    show (if i + 3 = A + 3 then Mem.waiting else x.mem (i + 3)) = _
    split
    · rfl
    · exact hI.umem1 i (by omega)
  · intro i; rw [moments_add, hI.mom i]
    by_cases h : i = A
    · subst h
      rw [if_pos rfl, if_pos le_rfl, if_neg (show ¬ i + 1 ≤ i by omega), if_neg (show ¬ (i < served K G ∧ _) from fun h => absurd h.1 (by omega)), s1.now, ht]; rfl
    · rw [if_neg (show ¬ A + 3 = i + 3 by omega)]
      by_cases h' : A ≤ i
      · rw [if_pos h', if_pos (show A + 1 ≤ i by omega)]
      · rw [if_neg h', if_neg (show ¬ A + 1 ≤ i by omega)]

theorem begins_now {G : Nat} (h : ∀ j, G = j + 1 → over d s j ≤ arrives d G) : begins (arrives d) s G = arrives d G := by
  cases G with
  | zero => rfl
  | succ j => exact max_eq_left (h j rfl)

/-- an arrival, the clerk being passive -/
theorem step_wake {f : Nat} (hI : Inv d s n x S ge (A + 1) A G .passive P) {e : Ev} {es : List Ev} (hpop : Heapq.heappop Ev.lt S.events = some (e, es))
    (hh : Heapq.IsHeap Ev.lt es) (hc : e.c = A + 3) (ht : arrives d A = e.t) {qg : Int}
    (hes : es.Perm (evs (gtime d ge (A + 1)) 1 qg none ++ P.map (dep d s)))
    (hlg : ∀ t, gtime d ge (A + 1) = some t → e.t ≤ t) (hld : ∀ p ∈ P, e.t ≤ over d s p.1) :
    ∃ x' S', Show.turn f (bank d s n) x = some x' ∧ Inv d s n x' S' ge (A + 1) (A + 1) G (.ready e.t) P := by
  have hnow : S.now ≤ e.t := hI.pdue _ (by rw [← ht]; simp [ptime])
  have hga : A = G := hI.kok.1
  have hov := hI.kok.2
  obtain ⟨w1, e1, s1⟩ := hI.sim.step hpop (by rw [hc]; exact Nat.succ_ne_zero _) (hI.plain _).1 (hI.plain _).2
  rw [hc] at s1
  obtain ⟨hm1, hm2⟩ := line_enter hI e.t ht.symm
  have hk : (S.side 2).status = .passive ∧ (S.side 2).onList = false := hI.kside
  have n1 : (2 : Nat) ≠ A + 3 := by omega
  have n2 : A + 3 ≠ 2 := by omega
  obtain ⟨w2, e2, s2⟩ := Sim.enterLine (c := A + 3) (k := 1) (f := f) s1 hI.cap hm1
  have hS2 : ((Abs.upd { S with now := e.t, events := es, current := A + 3 } (A + 3) { S.side (A + 3) with onList := false, status := .current }).queue (.user 1)
      (enq (A + 3) e.t (S.queues (.user 1)))).side 2 = S.side 2 := by simp [Abs.queue, Abs.upd]
  obtain ⟨w4, e4, s4⟩ := Sim.activate (c := 2) (f := f) s2 (hS2 ▸ hk.1) (hS2 ▸ hk.2) (hS2 ▸ (hI.plain 2).1) (hS2 ▸ (hI.plain 2).2)
  obtain ⟨w3, e3, s3⟩ := Sim.passivate (c := A + 3) (f := f) s4 (by simp [Abs.queue, Abs.upd, Abs.sched])
  obtain ⟨S3, hS3, s3⟩ : ∃ S3, S3 = _ ∧ Sim w3 S3 := ⟨_, rfl, s3⟩
  have hks : w2.status 2 = .passive := by
    unfold World.status
    rw [(s2.side 2).status]
    exact hS2 ▸ hk.1
  have hrun : (bank d s n (A + 3) (x.mem (A + 3))).run f w1 = some (w3, .waiting) := by
    unfold bank
    rw [if_neg (show ¬ A + 3 = 1 by omega), if_neg (show ¬ A + 3 = 2 by omega), hI.umem0 A le_rfl]
    unfold customer
    rw [run_call e2, Prog.run, if_pos hks, run_call e4, run_call e3]; rfl
  have hcur : w1.current = A + 3 := s1.current
  have hside : ∀ c : Nat, c ≠ A + 3 → c ≠ 2 → S3.side c = S.side c := by
    intro c h1 h2; rw [hS3]; simp [Abs.upd, Abs.queue, Abs.sched, h1, h2]
  have hme : (S3.side (A + 3)).status = .passive ∧ (S3.side (A + 3)).onList = false := by
    rw [hS3]; simp [Abs.upd, Abs.queue, Abs.sched]
  have hcl : (S3.side 2).status = .scheduled := by
    rw [hS3]; simp [Abs.upd, Abs.queue, Abs.sched]
  have hpl : ∀ c, (S3.side c).froms = [] ∧ (S3.side c).tos = [] := by
    intro c
    by_cases hc1 : c = A + 3
    · subst hc1; rw [hS3]; simp [Abs.upd, Abs.queue, Abs.sched, hI.plain (A + 3)]
    · by_cases hc2 : c = 2
      · subst hc2; rw [hS3]; simp [Abs.upd, Abs.queue, Abs.sched, hI.plain 2]
      · rw [hside c hc1 hc2]; exact hI.plain c
  have hno : S3.now = e.t := by rw [hS3]; rfl
  have hq : S3.queues (.user 1) = enq (A + 3) e.t (S.queues (.user 1)) := by rw [hS3]; simp [Abs.upd, Abs.queue, Abs.sched]
  refine ⟨_, _, turn_go e1 hcur hrun,
    { sim := s3, heap := by rw [hS3]; exact Heapq.heappush_isHeap evLaw _ hh, ev := ⟨qg, qg - 1, (S.seq + 1 : Nat), ?_, by omega⟩
      cn := hI.cn, ac := le_rfl, ca := by omega, ga := by omega, gdone := hI.gdone, kok := ?_
      gdue := by rw [hno]; exact hlg, pdue := fun t h => absurd h (by simp [ptime]), cdue := ?_, past := ?_
      deps := fun p hp => by rw [hno]; exact ⟨hld p hp, (hI.deps p hp).2⟩, nodup := hI.nodup, plain := hpl
      new := ?_, asleep := ?_, gone := ?_, kside := hcl, cap := by rw [hq]; exact hI.cap, mem := by rw [hq]; exact hm2, stays := by rw [hq]; exact hI.stays
      gmem := ?_, cmem := ?_, umem0 := ?_, umem1 := ?_, mom := ?_ }⟩
  · have h2 : ptime d (A + 1) (A + 1) = none := by simp [ptime]
    rw [h2, hS3]
    exact (evs_push hes).trans (List.perm_append_comm_assoc _ _ _)
  · refine ⟨fun _ => ?_, fun h => by omega⟩
    rw [begins_now, ← hga, ht]
    intro j hj
    rw [← hga, ht]
    exact (hov j hj).trans hnow
  · rintro t ⟨⟩; rw [hno]
  · intro i hi
    rw [hno]
    rcases Nat.lt_or_ge i A with h | h
    · exact (hI.past i h).trans hnow
    · rw [show i = A by omega, ht]
  · intro i hi; rw [hside (i + 3) (by omega) (by omega)]; exact hI.new i (by omega)
  · intro i hi hi2
    by_cases h : i = A
    · rw [h]; exact hme
    · rw [hside (i + 3) (by omega) (by omega)]; exact hI.asleep i hi (by omega)
  · intro i hi hi2
    have : i < G := hi
    rw [hside (i + 3) (by omega) (by omega)]; exact hI.gone i hi hi2
  · show (if (1 : Nat) = A + 3 then Mem.waiting else x.mem 1).count = _
    rw [if_neg (by omega)]; exact hI.gmem
  · show (if (2 : Nat) = A + 3 then Mem.waiting else x.mem 2) = _
    rw [if_neg (by omega)]; exact hI.cmem
  · intro i hi
    show (if i + 3 = A + 3 then Mem.waiting else x.mem (i + 3)) = _
    rw [if_neg (by omega)]; exact hI.umem0 i (by omega)
  · intro i hi
    show (if i + 3 = A + 3 then Mem.waiting else x.mem (i + 3)) = _
    split
    · rfl
    · exact hI.umem1 i (by omega)
  · intro i; rw [moments_add, hI.mom i]
    by_cases h : i = A
    · subst h
      rw [if_pos rfl, if_pos le_rfl, if_neg (show ¬ i + 1 ≤ i by omega), if_neg (show ¬ (i < served (.ready e.t) G ∧ _) from fun h => absurd h.1 (Nat.not_lt.mpr (show G ≤ i by omega))), s1.now, ht]; rfl
    · rw [if_neg (show ¬ A + 3 = i + 3 by omega)]
      by_cases h' : A ≤ i
      · rw [if_pos h', if_pos (show A + 1 ≤ i by omega)]
      · rw [if_neg h', if_neg (show ¬ A + 1 ≤ i by omega)]; rfl

theorem loop_take {f : Nat} (h : Sim w S) (hst : (S.side 2).status = .current) {m : QMem} {l : List QMem} (hm : (S.queues (.user 1)).mem = m :: l) (hs : 0 ≤ s (m.c - 3)) :
    ∃ w', (loop s).run f w = some (w', .serving m.c) ∧ Sim w' ((S.queue (.user 1) (deq S.now m l (S.queues (.user 1)))).sched 2 (S.now + s (m.c - 3)) none) := by
  obtain ⟨w1, e1, s1⟩ := Sim.leaveLine (k := 1) (f := f) h hm rfl
  obtain ⟨w2, e2, s2⟩ := s1.hold (c := 2) (t := s (m.c - 3)) (f := f) hst hs
  refine ⟨w2, ?_, s2⟩
  unfold loop
  have : w.inQ (.user 1) = m.c :: l.map (·.c) := by unfold World.inQ; rw [h.queues, hm]; rfl
  rw [Prog.run, this]
  simp only
  rw [run_call e1, run_call e2]; rfl

theorem loop_rest {f : Nat} (h : Sim w S) (hst : (S.side 2).status = .current) (hm : (S.queues (.user 1)).mem = []) :
    ∃ w', (loop s).run f w = some (w', .start) ∧ Sim w' (S.upd 2 { S.side 2 with status := .passive }) := by
  obtain ⟨w2, e2, s2⟩ := Sim.passivate (c := 2) (f := f) h hst
  refine ⟨w2, ?_, s2⟩
  unfold loop
  have : w.inQ (.user 1) = [] := by unfold World.inQ; rw [h.queues, hm]; rfl
  rw [Prog.run, this]
  simp only
  rw [run_call e2]; rfl

/-- what the clerk takes out of the waiting line -/
theorem line_leave (hI : Inv d s n x S ge C A G K P) (hg : G < A) (t : Rat) (ht : t = begins (arrives d) s G) :
    ∃ m l, (S.queues (.user 1)).mem = m :: l ∧ m.c = G + 3 ∧ (deq t m l (S.queues (.user 1))).mem = (List.range' (G + 1) (A - (G + 1))).map (fun i => ⟨i + 3, 0, arrives d i⟩) ∧
      (deq t m l (S.queues (.user 1))).stays = (List.range (G + 1)).map (fun i => begins (arrives d) s i - arrives d i) := by
  refine ⟨⟨G + 3, 0, arrives d G⟩, (List.range' (G + 1) (A - (G + 1))).map (fun i => ⟨i + 3, 0, arrives d i⟩), ?_, rfl, rfl, ?_⟩
  · rw [hI.mem, range_cons hg]; rfl
  · show (S.queues (.user 1)).stays ++ [_] = _
    rw [hI.stays, List.range_succ, List.map_append, ht]; rfl

theorem perm3 {α : Type} {a g p r l : List α} (h : l.Perm (a ++ (g ++ (p ++ r)))) : l.Perm (g ++ (p ++ (a ++ r))) :=
  h.trans ((List.perm_append_comm_assoc _ _ _).trans ((List.perm_append_comm_assoc _ _ _).append_left _))

/-- the clerk begins a service -/
theorem step_begin {f : Nat} {u : Rat} (hI : Inv d s n x S ge C A G (.ready u) P) (hs : ∀ i, 0 ≤ s i) (hg : G < A) {e : Ev} {es : List Ev}
    (hpop : Heapq.heappop Ev.lt S.events = some (e, es)) (hh : Heapq.IsHeap Ev.lt es) (hc : e.c = 2) (ht : u = e.t) {qg qp : Int}
    (hes : es.Perm (evs (gtime d ge C) 1 qg none ++ (evs (ptime d C A) (A + 3) qp none ++ P.map (dep d s)))) (hqq : qp < qg)
    (hlg : ∀ t, gtime d ge C = some t → e.t ≤ t) (hlp : ∀ t, ptime d C A = some t → e.t ≤ t) (hld : ∀ p ∈ P, e.t ≤ over d s p.1) :
    ∃ x' S', Show.turn f (bank d s n) x = some x' ∧ Inv d s n x' S' ge C A (G + 1) .busy P := by
  have hnow : S.now ≤ e.t := hI.cdue _ (by rw [← ht]; rfl)
  have hb : begins (arrives d) s G = e.t := by rw [← ht]; exact (hI.kok.1 hg).symm
  obtain ⟨w1, e1, s1⟩ := hI.sim.step hpop (by rw [hc]; simp) (hI.plain _).1 (hI.plain _).2
  rw [hc] at s1
  obtain ⟨m, l, hm, hmc, hm1, hm2⟩ := line_leave hI hg e.t hb.symm
  obtain ⟨w3, e3, s3⟩ := loop_take (s := s) (f := f) s1 (by simp [Abs.upd]) hm (hs _)
  obtain ⟨S3, hS3, s3⟩ : ∃ S3, S3 = _ ∧ Sim w3 S3 := ⟨_, rfl, s3⟩
  have hm3 : m.c - 3 = G := by rw [hmc]; rfl
  rw [hmc] at e3
  rw [hm3] at hS3
  have hrun : (bank d s n 2 (x.mem 2)).run f w1 = some (w3, .serving (G + 3)) := by
    unfold bank
    rw [if_neg (by decide), if_pos rfl, hI.cmem]
    exact e3
  have hcur : w1.current = 2 := s1.current
  have hside : ∀ c : Nat, c ≠ 2 → S3.side c = S.side c := by
    intro c h1; rw [hS3]; simp [Abs.upd, Abs.queue, Abs.sched, h1]
  have hcl : (S3.side 2).status = .scheduled := by
    rw [hS3]; simp [Abs.upd, Abs.queue, Abs.sched]
  have hpl : ∀ c, (S3.side c).froms = [] ∧ (S3.side c).tos = [] := by
    intro c
    by_cases hc2 : c = 2
    · subst hc2; rw [hS3]; simp [Abs.upd, Abs.queue, Abs.sched, hI.plain 2]
    · rw [hside c hc2]; exact hI.plain c
  have hno : S3.now = e.t := by rw [hS3]; rfl
  have hq : S3.queues (.user 1) = deq e.t m l (S.queues (.user 1)) := by rw [hS3]; simp [Abs.upd, Abs.queue, Abs.sched]
  have hct : ctime d s .busy (G + 1) = some (e.t + s G) := by rw [← hb]; rfl
  refine ⟨_, _, turn_go e1 hcur hrun,
    { sim := s3, heap := by rw [hS3]; exact Heapq.heappush_isHeap evLaw _ hh, ev := ⟨qg, qp, (S.seq + 1 : Nat), ?_, hqq⟩
      cn := hI.cn, ac := hI.ac, ca := hI.ca, ga := hg, gdone := hI.gdone, kok := Nat.succ_pos _
      gdue := by rw [hno]; exact hlg, pdue := by rw [hno]; exact hlp, cdue := ?_, past := fun i hi => by rw [hno]; exact (hI.past i hi).trans hnow
      deps := fun p hp => by rw [hno]; exact ⟨hld p hp, (hI.deps p hp).2⟩, nodup := hI.nodup, plain := hpl
      new := ?_, asleep := ?_, gone := ?_, kside := hcl, cap := by rw [hq]; exact hI.cap, mem := by rw [hq]; exact hm1, stays := by rw [hq]; exact hm2
      gmem := ?_, cmem := rfl, umem0 := ?_, umem1 := ?_, mom := ?_ }⟩
  · rw [hct, hS3]
    exact perm3 (evs_push hes)
  · intro t h
    rw [hct] at h
    cases h
    rw [hno]; exact le_add_of_nonneg_right (hs G)
  · intro i hi; rw [hside (i + 3) (by omega)]; exact hI.new i (by omega)
  · intro i hi hi2
    rw [hside (i + 3) (by omega)]; exact hI.asleep i hi (by omega)
  · intro i hi hi2
    rw [hside (i + 3) (by omega)]; exact hI.gone i hi hi2
  · exact hI.gmem
  · intro i hi
    show (if i + 3 = 2 then Mem.serving (G + 3) else x.mem (i + 3)) = _
    rw [if_neg (by omega)]; exact hI.umem0 i (by omega)
  · intro i hi
    show (if i + 3 = 2 then Mem.serving (G + 3) else x.mem (i + 3)) = _
    rw [if_neg (by omega)]; exact hI.umem1 i (by omega)
  · intro i; rw [moments_add, hI.mom i, if_neg (show ¬ (2 : Nat) = i + 3 by omega)]
    rfl

/-- the clerk finds nobody at its start -/
theorem step_rest {f : Nat} {u : Rat} (hI : Inv d s n x S ge C A G (.ready u) P) (hg : G = A) {e : Ev} {es : List Ev}
    (hpop : Heapq.heappop Ev.lt S.events = some (e, es)) (hh : Heapq.IsHeap Ev.lt es) (hc : e.c = 2) (ht : u = e.t) {qg qp : Int}
    (hes : es.Perm (evs (gtime d ge C) 1 qg none ++ (evs (ptime d C A) (A + 3) qp none ++ P.map (dep d s)))) (hqq : qp < qg)
    (hlg : ∀ t, gtime d ge C = some t → e.t ≤ t) (hlp : ∀ t, ptime d C A = some t → e.t ≤ t) (hld : ∀ p ∈ P, e.t ≤ over d s p.1) :
    ∃ x' S', Show.turn f (bank d s n) x = some x' ∧ Inv d s n x' S' ge C A G .passive P := by
  have hnow : S.now ≤ e.t := hI.cdue _ (by rw [← ht]; rfl)
  have hG0 := (hI.kok.2 hg).2
  obtain ⟨w1, e1, s1⟩ := hI.sim.step hpop (by rw [hc]; simp) (hI.plain _).1 (hI.plain _).2
  rw [hc] at s1
  obtain ⟨w3, e3, s3⟩ := loop_rest (s := s) (f := f) s1 (by simp [Abs.upd]) (by show (S.queues (.user 1)).mem = []; rw [hI.mem, hg]; simp)
  obtain ⟨S3, hS3, s3⟩ : ∃ S3, S3 = _ ∧ Sim w3 S3 := ⟨_, rfl, s3⟩
  have hrun : (bank d s n 2 (x.mem 2)).run f w1 = some (w3, .start) := by
    unfold bank
    rw [if_neg (by decide), if_pos rfl, hI.cmem]
    exact e3
  have hcur : w1.current = 2 := s1.current
  have hside : ∀ c : Nat, c ≠ 2 → S3.side c = S.side c := by
    intro c h1; rw [hS3]; simp [Abs.upd, h1]
  have hcl : (S3.side 2).status = .passive ∧ (S3.side 2).onList = false := by
    rw [hS3]; simp [Abs.upd]
  have hpl : ∀ c, (S3.side c).froms = [] ∧ (S3.side c).tos = [] := by
    intro c
    by_cases hc2 : c = 2
    · subst hc2; rw [hS3]; simp [Abs.upd, hI.plain 2]
    · rw [hside c hc2]; exact hI.plain c
  have hno : S3.now = e.t := by rw [hS3]; rfl
  have hq : S3.queues = S.queues := by rw [hS3]; rfl
  refine ⟨_, _, turn_go e1 hcur hrun,
    { sim := s3, heap := by rw [hS3]; exact hh, ev := ⟨qg, qp, 0, by rw [hS3]; exact hes, hqq⟩
      cn := hI.cn, ac := hI.ac, ca := hI.ca, ga := hI.ga, gdone := hI.gdone, kok := ⟨hg.symm, fun j hj => by omega⟩
      gdue := by rw [hno]; exact hlg, pdue := by rw [hno]; exact hlp, cdue := fun t h => absurd h (by simp [ctime]), past := fun i hi => by rw [hno]; exact (hI.past i hi).trans hnow
      deps := fun p hp => by rw [hno]; exact ⟨hld p hp, (hI.deps p hp).2⟩, nodup := hI.nodup, plain := hpl
      new := ?_, asleep := ?_, gone := ?_, kside := hcl, cap := by rw [hq]; exact hI.cap, mem := by rw [hq]; exact hI.mem, stays := by rw [hq]; exact hI.stays
      gmem := ?_, cmem := rfl, umem0 := ?_, umem1 := ?_, mom := ?_ }⟩
  · intro i hi; rw [hside (i + 3) (by omega)]; exact hI.new i (by omega)
  · intro i hi hi2
    rw [hside (i + 3) (by omega)]; exact hI.asleep i hi (by omega)
  · intro i hi hi2
    rw [hside (i + 3) (by omega)]; exact hI.gone i hi hi2
  · exact hI.gmem
  · intro i hi
    show (if i + 3 = 2 then Mem.start else x.mem (i + 3)) = _
    rw [if_neg (by omega)]; exact hI.umem0 i (by omega)
  · intro i hi
    show (if i + 3 = 2 then Mem.start else x.mem (i + 3)) = _
    rw [if_neg (by omega)]; exact hI.umem1 i (by omega)
  · intro i; rw [moments_add, hI.mom i, if_neg (show ¬ (2 : Nat) = i + 3 by omega)]
    rfl

/-- what happens to the customers when customer `G` has been served and is activated -/
theorem mom_served {g A : Nat} {q : Int} {l1 l2 : List Rat} {i : Nat} :
    (if A ≤ i then [] else if i < g ∧ i ∉ P.map Prod.fst then l1 else l2) =
    (if A ≤ i then [] else if i < g + 1 ∧ i ∉ ((g, q) :: P).map Prod.fst then l1 else l2) := by
  have : (i < g ∧ i ∉ P.map Prod.fst) ↔ (i < g + 1 ∧ i ∉ ((g, q) :: P).map Prod.fst) := by
    rw [List.map_cons, List.mem_cons]
    constructor
    · rintro ⟨h1, h2⟩
      refine ⟨by omega, ?_⟩
      rintro (h | h)
      · exact absurd h (by show i ≠ g; omega)
      · exact h2 h
    · rintro ⟨h1, h2⟩
      have h3 : i ≠ g := fun h => h2 (.inl h)
      exact ⟨by omega, fun h => h2 (.inr h)⟩
  simp only [this]

/-- the clerk ends a service and begins the next one -/
theorem step_next {f g : Nat} (hI : Inv d s n x S ge C A (g + 1) .busy P) (hs : ∀ i, 0 ≤ s i) (hg : g + 1 < A) {e : Ev} {es : List Ev}
    (hpop : Heapq.heappop Ev.lt S.events = some (e, es)) (hh : Heapq.IsHeap Ev.lt es) (hc : e.c = 2) (ht : over d s g = e.t) {qg qp : Int}
    (hes : es.Perm (evs (gtime d ge C) 1 qg none ++ (evs (ptime d C A) (A + 3) qp none ++ P.map (dep d s)))) (hqq : qp < qg)
    (hlg : ∀ t, gtime d ge C = some t → e.t ≤ t) (hlp : ∀ t, ptime d C A = some t → e.t ≤ t) (hld : ∀ p ∈ P, e.t ≤ over d s p.1) :
    ∃ x' S' q, Show.turn f (bank d s n) x = some x' ∧ Inv d s n x' S' ge C A (g + 2) .busy ((g, q) :: P) := by
  have hnow : S.now ≤ e.t := hI.cdue _ (by rw [← ht]; rfl)
  have hb : begins (arrives d) s (g + 1) = e.t := by
    rw [← ht]; exact max_eq_right (by have := (hI.past (g + 1) hg).trans hnow; rw [← ht] at this; exact this)
  obtain ⟨w1, e1, s1⟩ := hI.sim.step hpop (by rw [hc]; simp) (hI.plain _).1 (hI.plain _).2
  rw [hc] at s1
  have n1 : g + 3 ≠ 2 := by omega
  have n2 : (2 : Nat) ≠ g + 3 := by omega
  have hsl := hI.asleep g le_rfl (by omega)
  obtain ⟨w2, e2, s2⟩ := Sim.activate (c := g + 3) (f := f) s1 (by rw [s_diff _ _ _ _ n1]; exact hsl.1) (by rw [s_diff _ _ _ _ n1]; exact hsl.2)
    (by rw [s_diff _ _ _ _ n1]; exact (hI.plain _).1) (by rw [s_diff _ _ _ _ n1]; exact (hI.plain _).2)
  obtain ⟨m, l, hm, hmc, hm1, hm2⟩ := line_leave hI hg e.t hb.symm
  obtain ⟨w3, e3, s3⟩ := loop_take (s := s) (f := f) s2 (by simp [Abs.upd, Abs.sched]) hm (hs _)
  obtain ⟨S3, hS3, s3⟩ : ∃ S3, S3 = _ ∧ Sim w3 S3 := ⟨_, rfl, s3⟩
  have hm3 : m.c - 3 = g + 1 := by rw [hmc]; rfl
  rw [hmc] at e3
  rw [hm3] at hS3
  have hrun : (bank d s n 2 (x.mem 2)).run f w1 = some (w3, .serving (g + 1 + 3)) := by
    unfold bank
    rw [if_neg (by decide), if_pos rfl, hI.cmem]
    show (Prog.call (.activate (g + 3) none (0 : Rat) (0 : Rat) false false false false false) (loop s)).run f w1 = _
    rw [run_call e2]
    exact e3
  have hcur : w1.current = 2 := s1.current
  have hside : ∀ c : Nat, c ≠ 2 → c ≠ g + 3 → S3.side c = S.side c := by
    intro c h1 h2; rw [hS3]; simp [Abs.upd, Abs.queue, Abs.sched, h1, h2]
  have hcl : (S3.side 2).status = .scheduled := by
    rw [hS3]; simp [Abs.upd, Abs.queue, Abs.sched]
  have hpl : ∀ c, (S3.side c).froms = [] ∧ (S3.side c).tos = [] := by
    intro c
    by_cases hc2 : c = 2
    · subst hc2; rw [hS3]; simp [Abs.upd, Abs.queue, Abs.sched, hI.plain 2]
    · by_cases hc3 : c = g + 3
      · subst hc3; rw [hS3]; simp [Abs.upd, Abs.queue, Abs.sched, hI.plain (g + 3)]
      · rw [hside c hc2 hc3]; exact hI.plain c
  have hno : S3.now = e.t := by rw [hS3]; rfl
  have hq : S3.queues (.user 1) = deq e.t m l (S.queues (.user 1)) := by rw [hS3]; simp [Abs.upd, Abs.queue, Abs.sched]
  have hct : ctime d s .busy (g + 2) = some (e.t + s (g + 1)) := by rw [← hb]; rfl
  have hPd : ∀ p ∈ P, p.1 < g := fun p hp => (hI.deps p hp).2
  refine ⟨_, _, (S.seq + 1 : Nat), turn_go e1 hcur hrun,
    { sim := s3, heap := by rw [hS3]; exact Heapq.heappush_isHeap evLaw _ (Heapq.heappush_isHeap evLaw _ hh), ev := ⟨qg, qp, (S.seq + 2 : Nat), ?_, hqq⟩
      cn := hI.cn, ac := hI.ac, ca := hI.ca, ga := hg, gdone := hI.gdone, kok := Nat.succ_pos _
      gdue := by rw [hno]; exact hlg, pdue := by rw [hno]; exact hlp, cdue := ?_, past := fun i hi => by rw [hno]; exact (hI.past i hi).trans hnow
      deps := ?_, nodup := ?_, plain := hpl
      new := ?_, asleep := ?_, gone := ?_, kside := hcl, cap := by rw [hq]; exact hI.cap, mem := by rw [hq]; exact hm1, stays := by rw [hq]; exact hm2
      gmem := ?_, cmem := rfl, umem0 := ?_, umem1 := ?_, mom := ?_ }⟩
  · rw [hct, hS3]
    refine perm3 (evs_push ?_)
    have : dep d s (g, ((S.seq + 1 : Nat) : Int)) = ⟨e.t, (0 : Rat), (S.seq + 1 : Nat), g + 3, none⟩ := by unfold dep; rw [ht]
    rw [List.map_cons, this]
    exact perm3 (evs_push hes)
  · intro t h
    rw [hct] at h
    cases h
    rw [hno]; exact le_add_of_nonneg_right (hs _)
  · intro p hp
    rw [hno]
    rcases List.mem_cons.mp hp with rfl | hp
    · exact ⟨ht.ge, Nat.lt_succ_self g⟩
    · exact ⟨hld p hp, (hPd p hp).trans (Nat.lt_succ_self g)⟩
  · rw [List.map_cons, List.nodup_cons]
    refine ⟨fun h => ?_, hI.nodup⟩
    obtain ⟨p, hp, h'⟩ := List.mem_map.mp h
    have := hPd p hp
    have h' : p.1 = g := h'
    omega
  · intro i hi
    have := hI.ac
    rw [hside (i + 3) (by omega) (by omega)]; exact hI.new i (by omega)
  · intro i hi hi2
    have hi : g + 1 ≤ i := hi
    rw [hside (i + 3) (by omega) (by omega)]; exact hI.asleep i (show g ≤ i by omega) (by omega)
  · intro i hi hi2
    rw [List.map_cons, List.mem_cons] at hi2
    have h3 : i ≠ g := fun h => hi2 (.inl h)
    have hi : i < g + 1 := hi
    rw [hside (i + 3) (by omega) (by omega)]; exact hI.gone i (show i < g by omega) (fun h => hi2 (.inr h))
  · exact hI.gmem
  · intro i hi
    show (if i + 3 = 2 then Mem.serving (g + 1 + 3) else x.mem (i + 3)) = _
    rw [if_neg (by omega)]; exact hI.umem0 i (by omega)
  · intro i hi
    show (if i + 3 = 2 then Mem.serving (g + 1 + 3) else x.mem (i + 3)) = _
    rw [if_neg (by omega)]; exact hI.umem1 i (by omega)
  · intro i; rw [moments_add, hI.mom i, if_neg (show ¬ (2 : Nat) = i + 3 by omega)]
    exact mom_served

/-- the clerk ends a service, nobody is waiting -/
theorem step_done {f g : Nat} (hI : Inv d s n x S ge C A (g + 1) .busy P) (hg : g + 1 = A) {e : Ev} {es : List Ev}
    (hpop : Heapq.heappop Ev.lt S.events = some (e, es)) (hh : Heapq.IsHeap Ev.lt es) (hc : e.c = 2) (ht : over d s g = e.t) {qg qp : Int}
    (hes : es.Perm (evs (gtime d ge C) 1 qg none ++ (evs (ptime d C A) (A + 3) qp none ++ P.map (dep d s)))) (hqq : qp < qg)
    (hlg : ∀ t, gtime d ge C = some t → e.t ≤ t) (hlp : ∀ t, ptime d C A = some t → e.t ≤ t) (hld : ∀ p ∈ P, e.t ≤ over d s p.1) :
    ∃ x' S' q, Show.turn f (bank d s n) x = some x' ∧ Inv d s n x' S' ge C A (g + 1) .passive ((g, q) :: P) := by
  have hnow : S.now ≤ e.t := hI.cdue _ (by rw [← ht]; rfl)
  obtain ⟨w1, e1, s1⟩ := hI.sim.step hpop (by rw [hc]; simp) (hI.plain _).1 (hI.plain _).2
  rw [hc] at s1
  have n1 : g + 3 ≠ 2 := by omega
  have n2 : (2 : Nat) ≠ g + 3 := by omega
  have hsl := hI.asleep g le_rfl (by omega)
  obtain ⟨w2, e2, s2⟩ := Sim.activate (c := g + 3) (f := f) s1 (by rw [s_diff _ _ _ _ n1]; exact hsl.1) (by rw [s_diff _ _ _ _ n1]; exact hsl.2)
    (by rw [s_diff _ _ _ _ n1]; exact (hI.plain _).1) (by rw [s_diff _ _ _ _ n1]; exact (hI.plain _).2)
  obtain ⟨w3, e3, s3⟩ := loop_rest (s := s) (f := f) s2 (by simp [Abs.upd, Abs.sched]) (by show (S.queues (.user 1)).mem = []; rw [hI.mem, hg]; simp)
  obtain ⟨S3, hS3, s3⟩ : ∃ S3, S3 = _ ∧ Sim w3 S3 := ⟨_, rfl, s3⟩
  have hrun : (bank d s n 2 (x.mem 2)).run f w1 = some (w3, .start) := by
    unfold bank
    rw [if_neg (by decide), if_pos rfl, hI.cmem]
    show (Prog.call (.activate (g + 3) none (0 : Rat) (0 : Rat) false false false false false) (loop s)).run f w1 = _
    rw [run_call e2]
    exact e3
  have hcur : w1.current = 2 := s1.current
  have hside : ∀ c : Nat, c ≠ 2 → c ≠ g + 3 → S3.side c = S.side c := by
    intro c h1 h2; rw [hS3]; simp [Abs.upd, Abs.sched, h1, h2]
  have hcl : (S3.side 2).status = .passive ∧ (S3.side 2).onList = false := by
    rw [hS3]; simp [Abs.upd, Abs.sched]
  have hpl : ∀ c, (S3.side c).froms = [] ∧ (S3.side c).tos = [] := by
    intro c
    by_cases hc2 : c = 2
    · subst hc2; rw [hS3]; simp [Abs.upd, Abs.sched, hI.plain 2]
    · by_cases hc3 : c = g + 3
      · subst hc3; rw [hS3]; simp [Abs.upd, Abs.sched, hI.plain (g + 3)]
      · rw [hside c hc2 hc3]; exact hI.plain c
  have hno : S3.now = e.t := by rw [hS3]; rfl
  have hq : S3.queues = S.queues := by rw [hS3]; rfl
  have hPd : ∀ p ∈ P, p.1 < g := fun p hp => (hI.deps p hp).2
  refine ⟨_, _, (S.seq + 1 : Nat), turn_go e1 hcur hrun,
    { sim := s3, heap := by rw [hS3]; exact Heapq.heappush_isHeap evLaw _ hh, ev := ⟨qg, qp, 0, ?_, hqq⟩
      cn := hI.cn, ac := hI.ac, ca := hI.ca, ga := hI.ga, gdone := hI.gdone, kok := ⟨hg.symm, fun j hj => ?_⟩
      gdue := by rw [hno]; exact hlg, pdue := by rw [hno]; exact hlp, cdue := fun t h => absurd h (by simp [ctime]), past := fun i hi => by rw [hno]; exact (hI.past i hi).trans hnow
      deps := ?_, nodup := ?_, plain := hpl
      new := ?_, asleep := ?_, gone := ?_, kside := hcl, cap := by rw [hq]; exact hI.cap, mem := by rw [hq]; exact hI.mem, stays := by rw [hq]; exact hI.stays
      gmem := ?_, cmem := rfl, umem0 := ?_, umem1 := ?_, mom := ?_ }⟩
  · rw [hS3]
    have : dep d s (g, ((S.seq + 1 : Nat) : Int)) = ⟨e.t, (0 : Rat), (S.seq + 1 : Nat), g + 3, none⟩ := by unfold dep; rw [ht]
    rw [List.map_cons, this]
    have := perm3 (evs_push (t := e.t) (q := ((S.seq + 1 : Nat) : Int)) (c := g + 3) (v := none) hes)
    exact this
  · have : g = j := by omega
    rw [hno, ← this, ht]
  · intro p hp
    rw [hno]
    rcases List.mem_cons.mp hp with rfl | hp
    · exact ⟨ht.ge, Nat.lt_succ_self g⟩
    · exact ⟨hld p hp, (hPd p hp).trans (Nat.lt_succ_self g)⟩
  · rw [List.map_cons, List.nodup_cons]
    refine ⟨fun h => ?_, hI.nodup⟩
    obtain ⟨p, hp, h'⟩ := List.mem_map.mp h
    have := hPd p hp
    have h' : p.1 = g := h'
    omega
  · intro i hi
    have := hI.ac
    rw [hside (i + 3) (by omega) (by omega)]; exact hI.new i (by omega)
  · intro i hi hi2
    have hi : g + 1 ≤ i := hi
    rw [hside (i + 3) (by omega) (by omega)]; exact hI.asleep i (show g ≤ i by omega) (by omega)
  · intro i hi hi2
    rw [List.map_cons, List.mem_cons] at hi2
    have h3 : i ≠ g := fun h => hi2 (.inl h)
    have hi : i < g + 1 := hi
    rw [hside (i + 3) (by omega) (by omega)]; exact hI.gone i (show i < g by omega) (fun h => hi2 (.inr h))
  · exact hI.gmem
  · intro i hi
    show (if i + 3 = 2 then Mem.start else x.mem (i + 3)) = _
    rw [if_neg (by omega)]; exact hI.umem0 i (by omega)
  · intro i hi
    show (if i + 3 = 2 then Mem.start else x.mem (i + 3)) = _
    rw [if_neg (by omega)]; exact hI.umem1 i (by omega)
  · intro i; rw [moments_add, hI.mom i, if_neg (show ¬ (2 : Nat) = i + 3 by omega)]
    exact mom_served

/-- a customer leaves -/
theorem step_leave {f : Nat} (hI : Inv d s n x S ge C A G K P) {p : Nat × Int} (hp : p ∈ P) {e : Ev} {es : List Ev} (hpop : Heapq.heappop Ev.lt S.events = some (e, es))
    (hh : Heapq.IsHeap Ev.lt es) (he : e = dep d s p) {qg qp qc : Int}
    (hes : es.Perm (evs (gtime d ge C) 1 qg none ++ (evs (ptime d C A) (A + 3) qp none ++ (evs (ctime d s K G) 2 qc none ++ (P.erase p).map (dep d s))))) (hqq : qp < qg)
    (hlg : ∀ t, gtime d ge C = some t → e.t ≤ t) (hlp : ∀ t, ptime d C A = some t → e.t ≤ t) (hlc : ∀ t, ctime d s K G = some t → e.t ≤ t)
    (hld : ∀ p ∈ P, e.t ≤ over d s p.1) :
    ∃ x' S', Show.turn f (bank d s n) x = some x' ∧ Inv d s n x' S' ge C A G K (P.erase p) := by
  obtain ⟨i0, q0⟩ := p
  have hc : e.c = i0 + 3 := by rw [he]; rfl
  have het : e.t = over d s i0 := by rw [he]; rfl
  have hd0 := hI.deps _ hp
  have hnow : S.now ≤ e.t := by rw [het]; exact hd0.1
  have hse := served_le hI
  have hi0 : i0 < served K G := hd0.2
  obtain ⟨w1, e1, s1⟩ := hI.sim.step hpop (by rw [hc]; exact Nat.succ_ne_zero _) (hI.plain _).1 (hI.plain _).2
  rw [hc] at s1
  obtain ⟨w3, e3, s3⟩ := Sim.exit (f := f) s1 rfl
  obtain ⟨S3, hS3, s3⟩ : ∃ S3, S3 = _ ∧ Sim w3 S3 := ⟨_, rfl, s3⟩
  have hrun : (bank d s n (i0 + 3) (x.mem (i0 + 3))).run f w1 = some (w3, .waiting) := by
    unfold bank
    rw [if_neg (show ¬ i0 + 3 = 1 by omega), if_neg (show ¬ i0 + 3 = 2 by omega), hI.umem1 i0 (by omega)]
    unfold customer
    simp only
    rw [run_call e3]; rfl
  have hcur : w1.current = i0 + 3 := s1.current
  have hside : ∀ c : Nat, c ≠ i0 + 3 → S3.side c = S.side c := by
    intro c h1; rw [hS3]; simp [Abs.upd, h1]
  have hme : (S3.side (i0 + 3)).status = .data := by rw [hS3]; simp [Abs.upd]
  have hpl : ∀ c, (S3.side c).froms = [] ∧ (S3.side c).tos = [] := by
    intro c
    by_cases hc1 : c = i0 + 3
    · subst hc1; rw [hS3]; simp [Abs.upd, hI.plain (i0 + 3)]
    · rw [hside c hc1]; exact hI.plain c
  have hno : S3.now = e.t := by rw [hS3]; rfl
  have hq : S3.queues = S.queues := by rw [hS3]; rfl
  have hnd : P.Nodup := List.Nodup.of_map _ hI.nodup
  have hmem : ∀ i, i ∈ (P.erase (i0, q0)).map Prod.fst ↔ i ∈ P.map Prod.fst ∧ i ≠ i0 := by
    intro i
    constructor
    · intro h
      obtain ⟨p, hp', rfl⟩ := List.mem_map.mp h
      rw [hnd.mem_erase_iff] at hp'
      refine ⟨List.mem_map.mpr ⟨p, hp'.2, rfl⟩, fun h => hp'.1 ?_⟩
      exact List.inj_on_of_nodup_map hI.nodup hp'.2 hp h
    · rintro ⟨h, h'⟩
      obtain ⟨p, hp', rfl⟩ := List.mem_map.mp h
      exact List.mem_map.mpr ⟨p, hnd.mem_erase_iff.mpr ⟨fun h => h' (by rw [h]), hp'⟩, rfl⟩
  refine ⟨_, _, turn_go e1 hcur hrun,
    { sim := s3, heap := by rw [hS3]; exact hh, ev := ⟨qg, qp, qc, by rw [hS3]; exact hes, hqq⟩
      cn := hI.cn, ac := hI.ac, ca := hI.ca, ga := hI.ga, gdone := hI.gdone, kok := by rw [hno]; exact kok_later hnow hI.kok
      gdue := by rw [hno]; exact hlg, pdue := by rw [hno]; exact hlp, cdue := by rw [hno]; exact hlc, past := fun i hi => by rw [hno]; exact (hI.past i hi).trans hnow
      deps := fun p hp => by rw [hno]; exact ⟨hld p (List.mem_of_mem_erase hp), (hI.deps p (List.mem_of_mem_erase hp)).2⟩
      nodup := hI.nodup.sublist (List.erase_sublist.map _), plain := hpl
      new := ?_, asleep := ?_, gone := ?_, kside := ?_, cap := by rw [hq]; exact hI.cap, mem := by rw [hq]; exact hI.mem, stays := by rw [hq]; exact hI.stays
      gmem := ?_, cmem := ?_, umem0 := ?_, umem1 := ?_, mom := ?_ }⟩
  · intro i hi
    have := hI.ac
    rw [hside (i + 3) (by omega)]; exact hI.new i hi
  · intro i hi hi2; rw [hside (i + 3) (by omega)]; exact hI.asleep i hi hi2
  · intro i hi hi2
    by_cases h : i = i0
    · rw [h]; exact hme
    · rw [hside (i + 3) (by omega)]; exact hI.gone i hi (fun h' => hi2 ((hmem i).mpr ⟨h', h⟩))
  · rw [hside 2 (by omega)]; exact hI.kside
  · show (if (1 : Nat) = i0 + 3 then Mem.waiting else x.mem 1).count = _
    rw [if_neg (by omega)]; exact hI.gmem
  · show (if (2 : Nat) = i0 + 3 then Mem.waiting else x.mem 2) = _
    rw [if_neg (by omega)]; exact hI.cmem
  · intro i hi
    show (if i + 3 = i0 + 3 then Mem.waiting else x.mem (i + 3)) = _
    rw [if_neg (by omega)]; exact hI.umem0 i (by omega)
  · intro i hi
    show (if i + 3 = i0 + 3 then Mem.waiting else x.mem (i + 3)) = _
    split
    · rfl
    · exact hI.umem1 i (by omega)
  · intro i; rw [moments_add, hI.mom i]
    by_cases h : i = i0
    · subst h
      have h1 : ¬ (i < served K G ∧ i ∉ P.map Prod.fst) := fun h => h.2 (List.mem_map.mpr ⟨_, hp, rfl⟩)
      have h2 : i < served K G ∧ i ∉ (P.erase (i, q0)).map Prod.fst := ⟨hi0, fun h => ((hmem i).mp h).2 rfl⟩
      rw [if_pos rfl, if_neg (show ¬ A ≤ i by omega), if_neg (show ¬ A ≤ i by omega), if_neg h1, if_pos h2, s1.now]
      show [arrives d i] ++ [e.t] = _
      rw [het]; rfl
    · rw [if_neg (show ¬ i0 + 3 = i + 3 by omega)]
      have : (i < served K G ∧ i ∉ P.map Prod.fst) ↔ (i < served K G ∧ i ∉ (P.erase (i0, q0)).map Prod.fst) := by
        rw [hmem]; tauto
      simp only [this]

/-- a bound on the number of turns to come -/
def todo (n : Nat) (ge : Bool) (C A G : Nat) (K : St) (P : List (Nat × Int)) : Nat :=
  5 * (n - C) + 4 * (C - A) + 2 * (A - G) + (match K with | .busy => 2 | .ready _ => 1 | .passive => 0) + P.length + (if ge then 0 else 1)

theorem next_turn {f : Nat} (hI : Inv d s n x S ge C A G K P) (hd : ∀ i, 0 ≤ d i) (hs : ∀ i, 0 ≤ s i) (hne : S.events ≠ []) :
    ∃ x' S' ge' C' A' G' K' P', Show.turn f (bank d s n) x = some x' ∧ Inv d s n x' S' ge' C' A' G' K' P' ∧ todo n ge' C' A' G' K' P' < todo n ge C A G K P := by
  obtain ⟨qg, qp, qc, hperm, hqq⟩ := hI.ev
  obtain ⟨e, es, hpop, hh, hmem, hrest, hmin, hle⟩ := first hI.heap hperm (fun h => by rw [h] at hperm; exact hne hperm.eq_nil)
  have hcn := hI.cn; have hac := hI.ac; have hca := hI.ca; have hga := hI.ga
  have hlg : ∀ t, gtime d ge C = some t → e.t ≤ t := fun t h => hle ⟨t, (0 : Rat), qg, 1, none⟩ (by rw [h]; simp [evs])
  have hlp : ∀ t, ptime d C A = some t → e.t ≤ t := fun t h => hle ⟨t, (0 : Rat), qp, A + 3, none⟩ (by rw [h]; simp [evs])
  have hlc : ∀ t, ctime d s K G = some t → e.t ≤ t := fun t h => hle ⟨t, (0 : Rat), qc, 2, none⟩ (by rw [h]; simp [evs])
  have hld : ∀ p ∈ P, e.t ≤ over d s p.1 := fun p hp => hle (dep d s p)
    (List.mem_append_right _ (List.mem_append_right _ (List.mem_append_right _ (List.mem_map_of_mem hp))))
  rcases List.mem_append.mp hmem with h | h
  · -- the generator
    have hge : ge = false := by
      cases ge with
      | false => rfl
      | true => simp [gtime, evs] at h
    subst hge
    have he : e = ⟨arrives d C, (0 : Rat), qg, 1, none⟩ := by simpa [gtime, evs] using h
    have hCA : C = A := by
      by_contra hne
      have hC : C = A + 1 := by omega
      have hp : ptime d C A = some (arrives d A) := by unfold ptime; rw [if_pos hC]
      have := hmin ⟨arrives d A, (0 : Rat), qp, A + 3, none⟩ (by rw [hp]; simp [evs])
      rw [he] at this
      unfold Ev.lt at this
      simp only [Bool.or_eq_false_iff, Bool.and_eq_false_iff, decide_eq_false_iff_not] at this
      obtain ⟨h1, h2⟩ := this
      have h3 : arrives d A = arrives d C := le_antisymm (by rw [hC]; exact arrives_mono hd A) (not_lt.mp h1)
      rcases h2 with h2 | ⟨-, h2⟩
      · exact h2 h3
      · rcases h2 with h2 | h2
        · exact h2 trivial
        · exact h2 hqq
    subst hCA
    have hp0 : ptime d C C = none := by simp [ptime]
    have hes : es.Perm (evs (ctime d s K G) 2 qc none ++ P.map (dep d s)) := hrest _ (by rw [he, hp0]; exact List.Perm.refl _)
    have ht : arrives d C = e.t := by rw [he]
    have hc : e.c = 1 := by rw [he]
    rcases Nat.lt_or_ge C n with hn | hn
    · obtain ⟨x', S', e', h'⟩ := step_make (f := f) hI hd hn hpop hh hc ht hes hlc hld
      exact ⟨x', S', _, _, _, _, _, _, e', h', by unfold todo; omega⟩
    · obtain ⟨x', S', e', h'⟩ := step_gend (f := f) hI (by omega) hpop hh hc ht hes hlc hld
      exact ⟨x', S', _, _, _, _, _, _, e', h', by unfold todo; simp⟩
  rcases List.mem_append.mp h with h | h
  · -- an arrival
    have hC : C = A + 1 := by
      by_contra hne
      simp [ptime, hne, evs] at h
    subst hC
    have hp : ptime d (A + 1) A = some (arrives d A) := by unfold ptime; rw [if_pos rfl]
    have he : e = ⟨arrives d A, (0 : Rat), qp, A + 3, none⟩ := by rw [hp] at h; simpa [evs] using h
    have ht : arrives d A = e.t := by rw [he]
    have hc : e.c = A + 3 := by rw [he]
    have hes : es.Perm (evs (gtime d ge (A + 1)) 1 qg none ++ (evs (ctime d s K G) 2 qc none ++ P.map (dep d s))) := hrest _ (by
      rw [he, hp]; exact List.perm_append_comm_assoc _ _ _)
    cases K with
    | passive =>
      obtain ⟨x', S', e', h'⟩ := step_wake (f := f) hI hpop hh hc ht hes hlg hld
      exact ⟨x', S', _, _, _, _, _, _, e', h', by unfold todo; simp only; omega⟩
    | busy =>
      obtain ⟨x', S', e', h'⟩ := step_arrive (f := f) hI (by simp) hpop hh hc ht hes hlg hlc hld
      exact ⟨x', S', _, _, _, _, _, _, e', h', by unfold todo; simp only; omega⟩
    | ready t =>
      obtain ⟨x', S', e', h'⟩ := step_arrive (f := f) hI (by simp) hpop hh hc ht hes hlg hlc hld
      exact ⟨x', S', _, _, _, _, _, _, e', h', by unfold todo; simp only; omega⟩
  rcases List.mem_append.mp h with h | h
  · -- the clerk
    cases hK : ctime d s K G with
    | none => rw [hK] at h; simp [evs] at h
    | some u =>
      rw [hK] at h
      have he : e = ⟨u, (0 : Rat), qc, 2, none⟩ := by simpa [evs] using h
      have ht : u = e.t := by rw [he]
      have hc : e.c = 2 := by rw [he]
      have hes : es.Perm (evs (gtime d ge C) 1 qg none ++ (evs (ptime d C A) (A + 3) qp none ++ P.map (dep d s))) := hrest _ (by
        rw [hK, he]
        exact (((List.perm_append_comm_assoc _ _ _).append_left _).trans (List.perm_append_comm_assoc _ _ _)))
      cases K with
      | passive => simp [ctime] at hK
      | ready t =>
        have htu : t = u := by simpa [ctime] using hK
        subst htu
        rcases Nat.lt_or_ge G A with hg | hg
        · obtain ⟨x', S', e', h'⟩ := step_begin (f := f) hI hs hg hpop hh hc ht hes hqq hlg hlp hld
          exact ⟨x', S', _, _, _, _, _, _, e', h', by unfold todo; simp only; omega⟩
        · obtain ⟨x', S', e', h'⟩ := step_rest (f := f) hI (by omega) hpop hh hc ht hes hqq hlg hlp hld
          exact ⟨x', S', _, _, _, _, _, _, e', h', by unfold todo; simp only; omega⟩
      | busy =>
        have h0 : 0 < G := hI.kok
        obtain ⟨g, rfl⟩ : ∃ g, G = g + 1 := ⟨G - 1, by omega⟩
        have htu : over d s g = u := by simpa [ctime] using hK
        rcases Nat.lt_or_ge (g + 1) A with hg | hg
        · obtain ⟨x', S', q, e', h'⟩ := step_next (f := f) hI hs hg hpop hh hc (htu.trans ht) hes hqq hlg hlp hld
          exact ⟨x', S', _, _, _, _, _, _, e', h', by unfold todo; simp only [List.length_cons]; omega⟩
        · obtain ⟨x', S', q, e', h'⟩ := step_done (f := f) hI (by omega) hpop hh hc (htu.trans ht) hes hqq hlg hlp hld
          exact ⟨x', S', _, _, _, _, _, _, e', h', by unfold todo; simp only [List.length_cons]; omega⟩
  · -- a departure
    obtain ⟨p, hp, hpe⟩ := List.mem_map.mp h
    have hes : es.Perm (evs (gtime d ge C) 1 qg none ++ (evs (ptime d C A) (A + 3) qp none ++ (evs (ctime d s K G) 2 qc none ++ (P.erase p).map (dep d s)))) := hrest _ (by
      have h1 : (P.map (dep d s)).Perm ([e] ++ (P.erase p).map (dep d s)) := by
        rw [← hpe]; exact (List.perm_cons_erase hp).map (dep d s)
      refine (((h1.append_left _).append_left _).append_left _).trans ?_
      exact ((((List.perm_append_comm_assoc _ _ _).append_left _).append_left _).trans ((List.perm_append_comm_assoc _ _ _).append_left _)).trans (List.perm_append_comm_assoc _ _ _))
    obtain ⟨x', S', e', h'⟩ := step_leave (f := f) hI hp hpop hh hpe.symm hes hqq hlg hlp hlc hld
    have hl : (P.erase p).length < P.length := by
      rw [List.length_erase_of_mem hp]
      exact Nat.sub_lt (List.length_pos_of_mem hp) Nat.one_pos
    exact ⟨x', S', _, _, _, _, _, _, e', h', by unfold todo; omega⟩

theorem turns_run {f : Nat} (hd : ∀ i, 0 ≤ d i) (hs : ∀ i, 0 ≤ s i) : ∀ (k : Nat) {x : Show Mem} {S : Abs} {ge : Bool} {C A G : Nat} {K : St} {P : List (Nat × Int)},
    Inv d s n x S ge C A G K P → todo n ge C A G K P ≤ k →
    ∃ j x' S' ge' C' A' G' K' P', j ≤ k ∧ Show.run f (bank d s n) j x = some x' ∧ Inv d s n x' S' ge' C' A' G' K' P' ∧ S'.events = [] := by
  intro k
  induction k with
  | zero =>
    intro x S ge C A G K P hI hk
    by_cases hne : S.events = []
    · exact ⟨0, x, S, _, _, _, _, _, _, le_rfl, rfl, hI, hne⟩
    · obtain ⟨x1, S1, _, _, _, _, _, _, e1, h1, l1⟩ := next_turn (f := f) hI hd hs hne
      omega
  | succ k ih =>
    intro x S ge C A G K P hI hk
    by_cases hne : S.events = []
    · exact ⟨0, x, S, _, _, _, _, _, _, Nat.zero_le _, rfl, hI, hne⟩
    · obtain ⟨x1, S1, _, _, _, _, _, _, e1, h1, l1⟩ := next_turn (f := f) hI hd hs hne
      obtain ⟨j, x2, S2, _, _, _, _, _, _, hj, e2, h2, l2⟩ := ih h1 (by omega)
      refine ⟨j + 1, x2, S2, _, _, _, _, _, _, by omega, ?_, h2, l2⟩
      show (Show.turn f (bank d s n) x).bind _ = _
      rw [e1]; exact e2

theorem opened {f : Nat} : ∃ w S, forR opening (exec f) World.init = .ok w ∧ Inv d s n ⟨w, fun _ => .start, []⟩ S false 0 0 0 (.ready 0) [] := by
  have s1 : Sim World.init ⟨0, 0, [], 0, fun d => sideOf (World.init.comps d), fun _ => {}⟩ := by
    refine ⟨rfl, rfl, rfl, rfl, fun d => ?_, rfl, rfl, rfl, rfl⟩
    show SideIs (if d = 0 then { status := .current } else {}) (sideOf (if d = 0 then { status := .current } else {}))
    split <;> exact ⟨rfl, rfl, rfl, rfl, rfl, rfl, rfl, rfl, rfl, rfl⟩
  obtain ⟨w2, e2, s2⟩ := s1.create (d := 1) rfl rfl
  obtain ⟨w3, e3, s3⟩ := s2.create (d := 2) rfl rfl
  obtain ⟨w4, hw4⟩ : ∃ w4 : World, w4 = { w3 with endOnEmpty := true } := ⟨_, rfl⟩
  have s4 := s3.running
  rw [← hw4] at s4
  have hS4 := s4.side 0
  have s5 := s4.modC (c := 0) (f := fun x => { x with status := .scheduled }) ⟨hS4.requests, hS4.waits, hS4.claims, (rfl : _ = (Side.mk .scheduled _ _ _ _ _ _).status), hS4.onList, hS4.froms, hS4.tos, hS4.item, hS4.prio, hS4.fil⟩
  obtain ⟨w6, e6, s6⟩ := s5.passive (c := 0)
  obtain ⟨S6, hS6, s6⟩ : ∃ S6, S6 = _ ∧ Sim w6 S6 := ⟨_, rfl, s6⟩
  have hside : ∀ c : Nat, c ≠ 0 → c ≠ 1 → c ≠ 2 → S6.side c = sideOf {} := by
    intro c h0 h1 h2; rw [hS6]; simp [Abs.upd, Abs.sched, World.init, h0, h1, h2]
  refine ⟨w6, S6, ?_,
    { sim := s6, heap := ?_, ev := ⟨1, 0, 2, ?_, by omega⟩, cn := Nat.zero_le _, ac := le_rfl, ca := by omega, ga := le_rfl, gdone := fun h => absurd h (by simp)
      kok := ⟨fun h => absurd h (by simp), fun _ => ⟨rfl, rfl⟩⟩, gdue := ?_, pdue := fun t h => absurd h (by simp [ptime]), cdue := ?_, past := fun i hi => absurd hi (by simp)
      deps := fun p hp => absurd hp (by simp), nodup := by simp, plain := ?_, new := ?_, asleep := fun i _ hi => absurd hi (by simp), gone := fun i hi => absurd hi (Nat.not_lt_zero i)
      kside := ?_, cap := by rw [hS6]; rfl, mem := by rw [hS6]; rfl, stays := by rw [hS6]; rfl, gmem := rfl, cmem := rfl, umem0 := fun _ _ => rfl, umem1 := fun i hi => absurd hi (by simp)
      mom := fun i => by rw [if_pos (Nat.zero_le i)]; rfl }⟩
  · unfold opening
    show (Verif.create 1 none (0 : Rat) (0 : Rat) false false false World.init ⊳ _) = _
    rw [e2, then_ok]
    show (Verif.create 2 none (0 : Rat) (0 : Rat) false false false w2 ⊳ _) = _
    rw [e3, then_ok]
    show (runStart none none ⊤ false false w3 ⊳ fun w => R.ok w) = _
    have : runStart none none ⊤ false false w3 = .ok w6 := by
      unfold runStart
      simp only
      rw [← hw4, s3.main, ← e6]
      unfold reschedule
      rw [if_neg (by simp), if_neg (by simp)]
      rfl
    rw [this, then_ok]
  · rw [hS6]
    exact Heapq.heappush_isHeap evLaw _ (Heapq.heappush_isHeap evLaw _ (show Heapq.IsHeap Ev.lt [] from fun k hk => absurd hk (Nat.not_lt_zero k)))
  · rw [hS6]
    have h0 : ptime d 0 0 = none := by simp [ptime]
    rw [h0]
    exact evs_push' (evs_push (List.Perm.refl []))
  · rintro t ⟨⟩; rw [hS6]; exact le_rfl
  · rintro t ⟨⟩; rw [hS6]; exact le_rfl
  · intro c
    rw [hS6]
    by_cases h2 : c = 2
    · subst h2; exact ⟨rfl, rfl⟩
    · by_cases h1 : c = 1
      · subst h1; exact ⟨rfl, rfl⟩
      · by_cases h0 : c = 0
        · subst h0; exact ⟨rfl, rfl⟩
        · rw [← hS6, hside c h0 h1 h2]; exact ⟨rfl, rfl⟩
  · intro i _; rw [hside (i + 3) (by omega) (by omega) (by omega)]; exact ⟨rfl, rfl⟩
  · rw [hS6]; rfl

end Clerks

open Clerks

/-- **C85.** The bank with one clerk, with activate and passivate (sample models/Bank, 1 clerk.py), for any interarrival and service times: a generator makes `n`
customers; a customer enters the waiting line, activates the clerk if that is passive, and passivates; the clerk, as long as somebody is waiting, takes the first
customer out of the waiting line, holds for the service time and activates the customer, and passivates when nobody is waiting. Nothing is raised and the simulation comes to an end, within `5 n + 2`
turns. Each customer gets control exactly twice: when it arrives and when its service is over, which is the service time after `begins`, that is the moment at which service begins according to
queueing theory, as in C80. The length of stay of the waiting line holds the waiting times in order of arrival. In the end the waiting line is empty, the clerk is passive and the customers are data components, and main
gets control. -/
theorem C85_clerk (d s : Nat → Rat) (n f : Nat) (hd : ∀ i, 0 ≤ d i) (hs : ∀ i, 0 ≤ s i) :
    ∃ w, forR Clerks.opening (exec f) World.init = .ok w ∧ ∃ k x, k ≤ 5 * n + 2 ∧ Show.run f (bank d s n) k ⟨w, fun _ => .start, []⟩ = some x ∧
      (∀ i < n, x.moments (i + 3) = [arrives d i, begins (arrives d) s i + s i]) ∧
      (x.w.queues (.user 1)).stays = (List.range n).map (fun i => begins (arrives d) s i - arrives d i) ∧
      x.w.inQ (.user 1) = [] ∧ x.w.status 2 = .passive ∧ (∀ i < n, x.w.status (i + 3) = .data) ∧
      ∃ w', step x.w = .ok w' ∧ w'.current = w'.main := by
  obtain ⟨w, S, e, hI⟩ := Clerks.opened (d := d) (s := s) (n := n) (f := f)
  obtain ⟨k, x, S', ge, C, A, G, K, P, hk, e', h, hev⟩ := Clerks.turns_run (f := f) hd hs (5 * n + 2) hI (by unfold todo; simp)
  obtain ⟨qg, qp, qc, hp, -⟩ := h.ev
  rw [hev] at hp
  have hp := hp.nil_eq.symm
  simp only [List.append_eq_nil_iff, List.map_eq_nil_iff] at hp
  obtain ⟨h1, h2, h3, h4⟩ := hp
  subst h4
  have hge : ge = true := by
    cases ge with
    | true => rfl
    | false => simp [gtime, evs] at h1
  have hC := h.gdone hge
  have hA : C = A := by
    have := h.ac; have := h.ca
    by_contra hne
    rw [show C = A + 1 by omega] at h2
    simp [Clerks.ptime, evs] at h2
  have hK : K = .passive := by
    cases K with
    | passive => rfl
    | ready t => simp [Clerks.ctime, evs] at h3
    | busy => simp [Clerks.ctime, evs] at h3
  subst hK
  have hG : A = G := h.kok.1
  have hn : A = n := by omega
  subst hA hG hn
  refine ⟨w, e, k, x, hk, e', fun i hi => ?_, ?_, ?_, ?_, fun i hi => ?_, ?_⟩
  · rw [h.mom i, if_neg (by omega), if_pos ⟨hi, by simp⟩]; rfl
  · rw [h.sim.queues]; exact h.stays
  · unfold World.inQ; rw [h.sim.queues, h.mem]; simp
  · unfold World.status; rw [(h.sim.side 2).status]; exact h.kside.1
  · unfold World.status; rw [(h.sim.side (i + 3)).status]; exact h.gone i hi (by simp)
  · have es : step x.w = stepEvent x.w := by
      unfold step
      split
      · rfl
      · rw [h.sim.pending]
    rw [es]
    unfold stepEvent
    rw [if_pos h.sim.standby]
    simp only
    rw [h.sim.events, hev]
    exact ⟨_, rfl, rfl⟩

/-- in the two programs for one clerk, of C80 and of C85, each customer begins and ends service at the same moments -/
theorem C85_same (d s : Nat → Rat) (n f : Nat) (hd : ∀ i, 0 ≤ d i) (hs : ∀ i, 0 ≤ s i) :
    ∃ w x, forR (Bank.opening (arrives d) n) (exec (f + 10)) World.init = .ok w ∧ Play.run (f + 10) (visit s) (3 * n) { w := w } = some x ∧
    ∃ w' k x', forR Clerks.opening (exec f) World.init = .ok w' ∧ Show.run f (bank d s n) k ⟨w', fun _ => .start, []⟩ = some x' ∧
      (x.w.queues (.requesters 1)).stays = (x'.w.queues (.user 1)).stays ∧
      ∀ i < n, (x.moments (i + 1)).getLast? = (x'.moments (i + 3)).getLast? ∧ (x.moments (i + 1)).head? = (x'.moments (i + 3)).head? := by
  obtain ⟨w, e, x, e1, m1, s1, -⟩ := C80_single_server (arrives d) s n f le_rfl (arrives_mono hd) hs
  obtain ⟨w', e', k, x', -, e2, m2, s2, -⟩ := C85_clerk d s n f hd hs
  refine ⟨w, x, e, e1, w', k, x', e', e2, s1.trans s2.symm, fun i hi => ?_⟩
  rw [m1 i hi, m2 i hi]
  exact ⟨rfl, rfl⟩

/-- four customers: the second one waits, the third and the fourth arrive at the very moments that the one before is served -/
example : ((Show.run 3 (bank (fun i => [2, 3, 3, 0].getD i 0) (fun i => [4, 1, 3, 2].getD i 0) 4) 21 ⟨execAll 3 Clerks.opening World.init, fun _ => .start, []⟩).map
    fun x => ([3, 4, 5, 6].map x.moments, (x.w.queues (.user 1)).stays, x.w.now, x.w.events.length)) =
    some ([[0, 4], [2, 5], [5, 8], [8, 10]], [0, 2, 0, 0], 10, 0) := by decide +kernel

end Verif
