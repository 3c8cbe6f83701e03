import Verif.World

/-!
# Queues as ordered lists

List level model of `Queue`, `Qmember.insert_in_front_of`, `Component.enter*`, `Component.leave`, `Component.priority`.
The pointer level is in `Verif.Chain`.
-/

namespace Verif
namespace Queue

/-- `q._length` (kept equal to the number of members: salabim.py:4236, 9773) -/
def len (q : Queue) : Nat := q.mem.length

/-- `self in q` / `_member(q) is not None` (salabim.py:10040-10055) -/
def has (q : Queue) (c : CId) : Bool := q.mem.any (fun m => m.c == c)

/-- the Qmember of a component -/
def find (q : Queue) (c : CId) : Option QMem := q.mem.find? (fun m => m.c == c)

/-- the bookkeeping of `insert_in_front_of` (salabim.py:4222-4245), given the resulting order of the members:
the capacity check `capacity - length - 1 < 0` comes before any change. -/
def insert (q : Queue) (now : Rat) (mem' : List QMem) : Option Queue :=
  if ETime.subQ q.cap (q.len + 1 : Nat) < (0 : Rat) then none
  else some { q with mem := mem', arrivals := q.arrivals + 1, lens := q.lens ++ [(now, q.len + 1)] }

/-- backward scan of `enter` with a priority (salabim.py:9656-9658); the argument list is in reversed order (tail first) -/
def insRev (x : QMem) : List QMem → List QMem
  | [] => [x]
  | m :: ms => if m.prio > x.prio then m :: insRev x ms else x :: m :: ms

/-- order of the members after `enter(q, priority)` = `enter_sorted` (salabim.py:9653-9659, 9745) -/
def sortedIns (x : QMem) (l : List QMem) : List QMem :=
  match l with
  | [] => [x]
  | h :: t => if x.prio < h.prio then x :: h :: t else (insRev x (h :: t).reverse).reverse

/-- priority of the last Qmember; of the head sentinel (0) if empty (salabim.py:9650, 4318-4319) -/
def tailPrio (l : List QMem) : Rat := match l.getLast? with | some m => m.prio | none => 0
/-- priority of the first Qmember; of the tail sentinel (0) if empty (salabim.py:9679) -/
def headPrio (l : List QMem) : Rat := match l.head? with | some m => m.prio | none => 0

/-- order after inserting in front of the Qmember of `p` (salabim.py:9700-9703) -/
def insBefore (x : QMem) (p : CId) : List QMem → List QMem
  | [] => []
  | m :: ms => if m.c = p then x :: m :: ms else m :: insBefore x p ms
/-- order after inserting behind the Qmember of `p` (salabim.py:9723-9726) -/
def insBehind (x : QMem) (p : CId) : List QMem → List QMem
  | [] => []
  | m :: ms => if m.c = p then m :: x :: ms else m :: insBehind x p ms

/-- outcome of an operation on one queue -/
inductive QR
  | ok (q : Queue)
  | notOk (e : Err)

def ofOpt : Option Queue → QR
  | some q => .ok q
  | none => .notOk .queueFull

/-- `enter(q)` without priority: at the tail, with the priority of the tail (salabim.py:9648-9651) -/
def enter (q : Queue) (now : Rat) (c : CId) : QR :=
  if q.has c then .notOk .value else ofOpt (q.insert now (q.mem ++ [⟨c, tailPrio q.mem, now⟩]))
/-- `enter_sorted(q, priority)` = `enter(q, priority)` (salabim.py:9648-9660, 9745) -/
def enterSorted (q : Queue) (now : Rat) (c : CId) (prio : Rat) : QR :=
  if q.has c then .notOk .value else ofOpt (q.insert now (sortedIns ⟨c, prio, now⟩ q.mem))
/-- `enter_at_head(q)` (salabim.py:9678-9681) -/
def enterAtHead (q : Queue) (now : Rat) (c : CId) : QR :=
  if q.has c then .notOk .value else ofOpt (q.insert now (⟨c, headPrio q.mem, now⟩ :: q.mem))
/-- `enter_in_front_of(q, poscomponent)` (salabim.py:9700-9704) -/
def enterInFrontOf (q : Queue) (now : Rat) (c p : CId) : QR :=
  if q.has c then .notOk .value else
  match q.find p with
  | none => .notOk .value
  | some m => ofOpt (q.insert now (insBefore ⟨c, m.prio, now⟩ p q.mem))
/-- `enter_behind(q, poscomponent)` (salabim.py:9723-9727) -/
def enterBehind (q : Queue) (now : Rat) (c p : CId) : QR :=
  if q.has c then .notOk .value else
  match q.find p with
  | none => .notOk .value
  | some m => ofOpt (q.insert now (insBehind ⟨c, m.prio, now⟩ p q.mem))

/-- at the tail, with a given priority, without looking at the other priorities: how the set operations fill the new queue
(salabim.py:5481, 5575, 5666) -/
def append (q : Queue) (now : Rat) (c : CId) (prio : Rat) : QR :=
  if q.has c then .notOk .value else ofOpt (q.insert now (q.mem ++ [⟨c, prio, now⟩]))

/-- `leave(q)` for a queue that isn't a store (salabim.py:9766-9782) -/
def leave (q : Queue) (now : Rat) (c : CId) : QR :=
  match q.find c with
  | none => .notOk .value
  | some m => .ok { q with
      mem := q.mem.erase m, departures := q.departures + 1,
      stays := q.stays ++ [now - m.enter], lens := q.lens ++ [(now, q.len - 1)] }

/-- forward scan of `priority(q, p)` (salabim.py:9832-9834) -/
def insFwd (x : QMem) : List QMem → List QMem
  | [] => [x]
  | m :: ms => if m.prio ≤ x.prio then m :: insFwd x ms else x :: m :: ms

/-- `priority(q, p)` with p given (salabim.py:9825-9844): unlink and relink in front of the first member with a larger priority;
nothing happens if the priority is unchanged. -/
def setPriority (q : Queue) (c : CId) (p : Rat) : QR :=
  match q.find c with
  | none => .notOk .value
  | some m => if p = m.prio then .ok q else
      .ok { q with mem := insFwd { m with prio := p } (q.mem.erase m) }

/-- `set_capacity` (salabim.py:4791-4792) -/
def setCapacity (q : Queue) (cap : ETime) : Queue := { q with cap := cap }

/-- the effect of `arrival_rate(reset=True)` (if `a`) and of `departure_rate(reset=True)` (if `d`) (salabim.py:4578-4580, 4607-4609) -/
def resetRates (q : Queue) (now : Rat) (a d : Bool) : Queue :=
  { q with arrivals := if a then 0 else q.arrivals, arrivalsT0 := if a then now else q.arrivalsT0,
           departures := if d then 0 else q.departures, departuresT0 := if d then now else q.departuresT0 }

/-- `Queue.insert(index, component)` (salabim.py:4979-4994): the priority is that of the component at the index; at the end it is
that of the tail sentinel, 0. -/
def insertAt (q : Queue) (now : Rat) (c : CId) (i : Int) : QR :=
  if i < 0 ∨ i > q.len then .notOk .exc else
  if q.has c then .notOk .value else
  let k := i.toNat
  ofOpt (q.insert now (q.mem.take k ++ ⟨c, ((q.mem[k]?).map QMem.prio).getD 0, now⟩ :: q.mem.drop k))

/-- successor of a component in the queue (the Qmember behind it) -/
def succ (q : Queue) (c : CId) : Option QMem :=
  match q.mem.dropWhile (fun m => m.c != c) with
  | _ :: m :: _ => some m
  | _ => none

end Queue
end Verif
