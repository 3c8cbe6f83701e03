import Verif.Queue

/-!
# Queues as chains of Qmembers (pointer level)

`Queue` and `Qmember` of salabim.py with explicit references: every queue owns two sentinels and the Qmembers in between are
doubly linked; each component has a dictionary `_qmembers` from queues to its Qmember. Also the iterators of `__iter__` and
`__reversed__`, as generators that may be interleaved with arbitrary operations.

Simplifications: user queues only (stores and internal queues do not "touch" iterators, salabim.py:4237-4239); no traces; a loop that
would never end, or that would dereference `None`, is `none` / `Err.attribute` (shown never to happen).
-/

namespace Verif
namespace Chain
open Queue (QR)

abbrev NId := Nat
abbrev QId := Nat

/-- `Qmember` (salabim.py:4217-4245); `comp` is `None` for sentinels and for a member that has left (salabim.py:9771) -/
structure Node where
  pred : Option NId := none
  succ : Option NId := none
  comp : Option CId := none
  prio : Rat := 0
  enter : Rat := 0

/-- the attributes of a queue (salabim.py:4305-4343) -/
structure PQ where
  head : NId
  tail : NId
  length : Int := 0
  cap : ETime := ⊤
  arrivals : Int := 0
  departures : Int := 0
  /-- `number_of_arrivals_t0` and `number_of_departures_t0` -/
  arrivalsT0 : Rat := 0
  departuresT0 : Rat := 0
  stays : List Rat := []
  lens : List (Rat × Int) := []
  /-- last value tallied in `available_quantity` -/
  avail : ETime := ⊤
  iterSeq : Nat := 0
  /-- the dictionary `_iter_touched` -/
  touched : List (Nat × Bool) := []

/-- all Qmembers, all queues, and the dictionaries `_qmembers` of the components -/
structure PS where
  now : Rat
  nodes : NId → Node
  /-- number of Qmembers created so far -/
  next : NId
  queues : QId → PQ
  qm : CId → QId → Option NId

/-- outcome of a call -/
inductive PR
  | ok (s : PS)
  /-- an exception, and what has been changed by then -/
  | err (e : Err) (s : PS)

/-- assignment to attributes of a Qmember -/
def PS.setN (s : PS) (n : NId) (f : Node → Node) : PS := { s with nodes := fun m => if m = n then f (s.nodes m) else s.nodes m }
/-- assignment to attributes of a queue -/
def PS.setQ (s : PS) (q : QId) (f : PQ → PQ) : PS := { s with queues := fun m => if m = q then f (s.queues m) else s.queues m }
/-- assignment in the dictionary `_qmembers` -/
def PS.setQm (s : PS) (c : CId) (q : QId) (v : Option NId) : PS :=
  { s with qm := fun c' q' => if c' = c ∧ q' = q then v else s.qm c' q' }

/-- `for iter in q._iter_touched: q._iter_touched[iter] = True` (salabim.py:4238-4239, 9843-9844) -/
def touchAll (l : List (Nat × Bool)) : List (Nat × Bool) := l.map (fun p => (p.1, true))

/-- a new queue, empty, with its sentinels (salabim.py:4309-4335). Queues are identified by their number, here 0, 1, 2, ... in order
of `newQueue`; the sentinels of queues that do not exist yet are irrelevant. -/
def newQueue (q : QId) (cap : ETime) (s : PS) : PS :=
  let h := s.next
  let t := s.next + 1
  let s := { s with next := s.next + 2 }
  let s := s.setN h (fun _ => { succ := some t })
  let s := s.setN t (fun _ => { pred := some h })
  s.setQ q (fun _ => { head := h, tail := t, cap := cap, avail := cap, arrivalsT0 := s.now, departuresT0 := s.now })

/-- `Qmember().insert_in_front_of(m2, c, q, priority)` for a queue that isn't a store (salabim.py:4221-4245) -/
def insertInFrontOf (m2 : NId) (c : CId) (q : QId) (prio : Rat) (s : PS) : PR :=
  let available := ETime.subQ (s.queues q).cap ((s.queues q).length + 1 : Int)
  if available < ((0 : Rat) : ETime) then .err .queueFull s else
  let s := s.setQ q (fun x => { x with avail := available })
  match (s.nodes m2).pred with
  | none => .err .attribute s
  | some m1 =>
    let self := s.next
    let s := { s with next := s.next + 1 }
    let s := s.setN m1 (fun x => { x with succ := some self })
    let s := s.setN m2 (fun x => { x with pred := some self })
    let s := s.setN self (fun _ => { pred := some m1, succ := some m2, prio := prio, comp := some c, enter := s.now })
    let s := s.setQ q (fun x => { x with length := x.length + 1, touched := touchAll x.touched })
    let s := s.setQm c q (some self)
    .ok (s.setQ q (fun x => { x with lens := x.lens ++ [(s.now, x.length)], arrivals := x.arrivals + 1 }))

/-- `Qmember().insert_in_front_of(q._tail, c, q, priority)` as used by the set operations (salabim.py:5481, 5530, 5575 and others) to
fill the new queue; there it is never called for a component that is already in the queue, which is why the test is harmless. -/
def append (c : CId) (q : QId) (prio : Rat) (s : PS) : PR :=
  if (s.qm c q).isSome then .err .value s else insertInFrontOf (s.queues q).tail c q prio s

/-- the new queue of `copy` (salabim.py:5661-5663): with `copy_capacity` the capacity is set without a tally of the available quantity -/
def newCopy (q : QId) (cap : ETime) (s : PS) : PS := (newQueue q ⊤ s).setQ q (fun x => { x with cap := cap })

/-- the backward search of `enter` with a priority (salabim.py:9655-9657), starting at `m2` -/
def scanBack (s : PS) (head : NId) (prio : Rat) : Nat → NId → Option NId
  | 0, _ => none
  | f + 1, m2 =>
    match (s.nodes m2).pred with
    | none => none
    | some p => if p ≠ head ∧ (s.nodes p).prio > prio then scanBack s head prio f p else some m2

/-- the forward search of `priority` (salabim.py:9832-9834), starting at `m2` -/
def scanFwd (s : PS) (tail : NId) (prio : Rat) : Nat → NId → Option NId
  | 0, _ => none
  | f + 1, m2 =>
    if m2 ≠ tail ∧ (s.nodes m2).prio ≤ prio then
      match (s.nodes m2).succ with
      | none => none
      | some n => scanFwd s tail prio f n
    else some m2

/-- dereference -/
def orAttr {α : Type} (s : PS) (o : Option α) (f : α → PR) : PR :=
  match o with
  | none => .err .attribute s
  | some a => f a

/-- `Component.enter(q, priority)` (salabim.py:9647-9660) -/
def enter (c : CId) (q : QId) (prio : Option Rat) (s : PS) : PR :=
  if (s.qm c q).isSome then .err .value s else
  match prio with
  | none => orAttr s (s.nodes (s.queues q).tail).pred fun p => insertInFrontOf (s.queues q).tail c q (s.nodes p).prio s
  | some prio =>
    orAttr s (s.nodes (s.queues q).head).succ fun h =>
      if (s.queues q).length ≥ 1 ∧ prio < (s.nodes h).prio then insertInFrontOf h c q prio s
      else orAttr s (scanBack s (s.queues q).head prio s.next (s.queues q).tail) fun m2 => insertInFrontOf m2 c q prio s

/-- `Component.enter_at_head(q)` (salabim.py:9676-9680) -/
def enterAtHead (c : CId) (q : QId) (s : PS) : PR :=
  if (s.qm c q).isSome then .err .value s else
  orAttr s (s.nodes (s.queues q).head).succ fun h => insertInFrontOf h c q (s.nodes h).prio s

/-- `Component.enter_in_front_of(q, poscomponent)` (salabim.py:9699-9704) -/
def enterInFrontOf (c : CId) (q : QId) (p : CId) (s : PS) : PR :=
  if (s.qm c q).isSome then .err .value s else
  match s.qm p q with
  | none => .err .value s
  | some m2 => insertInFrontOf m2 c q (s.nodes m2).prio s

/-- `Component.enter_behind(q, poscomponent)` (salabim.py:9722-9727) -/
def enterBehind (c : CId) (q : QId) (p : CId) (s : PS) : PR :=
  if (s.qm c q).isSome then .err .value s else
  match s.qm p q with
  | none => .err .value s
  | some m1 => orAttr s (s.nodes m1).succ fun m2 => insertInFrontOf m2 c q (s.nodes m1).prio s

/-- the search of `Queue.insert` (salabim.py:4983-4989) -/
def scanIndex (s : PS) (tail : NId) (index : Int) : Nat → NId → Int → Option NId
  | 0, _, _ => none
  | f + 1, mx, count =>
    if mx ≠ tail then
      if count = index then some mx else
      match (s.nodes mx).succ with
      | none => none
      | some n => scanIndex s tail index f n (count + 1)
    else some mx

/-- `Queue.insert(index, component)` (salabim.py:4977-4994) -/
def insertAt (c : CId) (q : QId) (i : Int) (s : PS) : PR :=
  if i < 0 then .err .exc s else
  if i > (s.queues q).length then .err .exc s else
  if (s.qm c q).isSome then .err .value s else
  orAttr s (s.nodes (s.queues q).head).succ fun h =>
  orAttr s (scanIndex s (s.queues q).tail i s.next h 0) fun mx => insertInFrontOf mx c q (s.nodes mx).prio s

/-- `Component.leave(q)` (salabim.py:9766-9783) -/
def leave (c : CId) (q : QId) (s : PS) : PR :=
  match s.qm c q with
  | none => .err .value s
  | some mx =>
    orAttr s (s.nodes mx).pred fun m1 => orAttr s (s.nodes mx).succ fun m2 =>
      let s := s.setN m1 (fun x => { x with succ := some m2 })
      let s := s.setN m2 (fun x => { x with pred := some m1 })
      let s := s.setN mx (fun x => { x with comp := none })
      let s := s.setQ q (fun x => { x with length := x.length - 1 })
      let s := s.setQm c q none
      .ok (s.setQ q (fun x => { x with
        stays := x.stays ++ [s.now - (s.nodes mx).enter], lens := x.lens ++ [(s.now, x.length)],
        avail := ETime.subQ x.cap x.length, departures := x.departures + 1 }))

/-- `Component.priority(q, priority)` with a new priority (salabim.py:9825-9844) -/
def setPriority (c : CId) (q : QId) (prio : Rat) (s : PS) : PR :=
  match s.qm c q with
  | none => .err .value s
  | some mx =>
    if prio = (s.nodes mx).prio then .ok s else
    orAttr s (s.nodes mx).pred fun p => orAttr s (s.nodes mx).succ fun n =>
      let s := s.setN p (fun x => { x with succ := some n })
      let s := s.setN n (fun x => { x with pred := some p })
      orAttr s (s.nodes (s.queues q).head).succ fun h =>
      orAttr s (scanFwd s (s.queues q).tail prio s.next h) fun m2 =>
      orAttr s (s.nodes m2).pred fun m1 =>
        let s := s.setN m1 (fun x => { x with succ := some mx })
        let s := s.setN m2 (fun x => { x with pred := some mx })
        let s := s.setN mx (fun x => { x with pred := some m1, succ := some m2, prio := prio })
        .ok (s.setQ q (fun x => { x with touched := touchAll x.touched }))

/-- `set_capacity` (salabim.py:4791-4792) -/
def setCapacity (q : QId) (cap : ETime) (s : PS) : PS :=
  s.setQ q (fun x => { x with cap := cap, avail := ETime.subQ cap x.length })

/-- the effect of `arrival_rate(reset=True)` (if `a`) and of `departure_rate(reset=True)` (if `d`) (salabim.py:4578-4580, 4607-4609) -/
def resetRates (q : QId) (a d : Bool) (s : PS) : PS :=
  s.setQ q (fun x => { x with arrivals := if a then 0 else x.arrivals, arrivalsT0 := if a then s.now else x.arrivalsT0,
                              departures := if d then 0 else x.departures, departuresT0 := if d then s.now else x.departuresT0 })

/-! ## observers -/

/-- the Qmembers from `mx` on, up to the tail, following `successor` (salabim.py:5368-5371 and others) -/
def walkFwd (s : PS) (tail : NId) : Nat → NId → Option (List NId)
  | 0, _ => none
  | f + 1, mx => if mx = tail then some [] else
    match (s.nodes mx).succ with
    | none => none
    | some n => (walkFwd s tail f n).map (mx :: ·)

/-- the Qmembers from `mx` down to the head, following `predecessor` (salabim.py:5220-5223) -/
def walkBwd (s : PS) (head : NId) : Nat → NId → Option (List NId)
  | 0, _ => none
  | f + 1, mx => if mx = head then some [] else
    match (s.nodes mx).pred with
    | none => none
    | some n => (walkBwd s head f n).map (mx :: ·)

/-- all Qmembers in order -/
def members (q : QId) (s : PS) : Option (List NId) :=
  match (s.nodes (s.queues q).head).succ with
  | none => none
  | some h => walkFwd s (s.queues q).tail s.next h

/-- all Qmembers from tail to head -/
def membersRev (q : QId) (s : PS) : Option (List NId) :=
  match (s.nodes (s.queues q).tail).pred with
  | none => none
  | some h => walkBwd s (s.queues q).head s.next h

/-- `Queue.head()` (salabim.py:5072) -/
def headC (q : QId) (s : PS) : Option CId := (s.nodes (s.queues q).head).succ.bind fun n => (s.nodes n).comp
/-- `Queue.tail()` (salabim.py:5084) -/
def tailC (q : QId) (s : PS) : Option CId := (s.nodes (s.queues q).tail).pred.bind fun n => (s.nodes n).comp
/-- `Component.successor(q)` (salabim.py:9862-9863); `none` if it raises -/
def successor (c : CId) (q : QId) (s : PS) : Option (Option CId) :=
  (s.qm c q).bind fun mx => (s.nodes mx).succ.map fun n => (s.nodes n).comp
/-- `Component.predecessor(q)` (salabim.py:9880-9881); `none` if it raises -/
def predecessor (c : CId) (q : QId) (s : PS) : Option (Option CId) :=
  (s.qm c q).bind fun mx => (s.nodes mx).pred.map fun n => (s.nodes n).comp

/-- the loop of `index` (salabim.py:9626-9630) -/
def indexLoop (s : PS) (m1 : NId) : Nat → NId → Int → Option Int
  | 0, _, _ => none
  | f + 1, mx, i => if mx = m1 then some i else
    match (s.nodes mx).succ with
    | none => none
    | some n => indexLoop s m1 f n (i + 1)

/-- `Component.index(q)` = `Queue.index(component)` (salabim.py:9621-9631) -/
def index (c : CId) (q : QId) (s : PS) : Option Int :=
  match s.qm c q with
  | none => some (-1)
  | some m1 => (s.nodes (s.queues q).head).succ.bind fun h => indexLoop s m1 s.next h 0

/-- `Component.count(q)` = `Queue.count(component)` (salabim.py:9603-9606, 5316); `in` is a lookup in the table of queues of the component
(salabim.py:5147-5148) -/
def count (c : CId) (q : QId) (s : PS) : Nat :=
  if (s.qm c q).isSome then 1 else 0

/-- the loop of `__getitem__` with an integer (salabim.py:5189-5195) -/
def getLoop (s : PS) (tail : NId) (key : Int) : Nat → NId → Int → Option (Option CId)
  | 0, _, _ => none
  | f + 1, mx, count =>
    if mx = tail then some none else
    if count = key then some (s.nodes mx).comp else
    match (s.nodes mx).succ with
    | none => none
    | some n => getLoop s tail key f n (count + 1)

/-- `q[key]` with an integer (salabim.py:5183-5197): `Except.error` if it raises IndexError -/
def getItem (q : QId) (key : Int) (s : PS) : Except Err (Option CId) :=
  let key := if key < 0 then key + (s.queues q).length else key
  if key < 0 ∨ key ≥ (s.queues q).length then .error .exc else
  match (s.nodes (s.queues q).head).succ.bind fun h => getLoop s (s.queues q).tail key s.next h 0 with
  | none => .error .attribute
  | some r => .ok r

/-! ## iterators -/

/-- local variables of the generator `__iter__` / `__reversed__` (salabim.py:5213-5239, 5360-5387) -/
structure It where
  q : QId
  rev : Bool
  seq : Nat
  list : List NId
  index : Nat
  done : Bool := false

/-- the chain in the direction of the iteration -/
def scan (rev : Bool) (q : QId) (s : PS) : List NId := ((if rev then membersRev q s else members q s).getD [])

/-- start of the generator, up to the while loop (salabim.py:5361-5371, 5214-5223) -/
def iterNew (q : QId) (rev : Bool) (s : PS) : It × PS :=
  let seq := (s.queues q).iterSeq + 1
  (⟨q, rev, seq, scan rev q s, 0, false⟩,
    s.setQ q (fun x => { x with iterSeq := x.iterSeq + 1, touched := x.touched ++ [(seq, false)] }))

/-- `self._iter_touched[iter_sequence]` -/
def isTouched (it : It) (s : PS) : Bool := ((s.queues it.q).touched.find? (fun p => p.1 == it.seq)).any (fun p => p.2)

/-- `if mx not in iter_list: iter_list.append(mx)` for all members (salabim.py:5378-5381) -/
def addNew (acc : List NId) : List NId → List NId
  | [] => acc
  | n :: ns => if n ∈ acc then addNew acc ns else addNew (acc ++ [n]) ns

/-- refresh of the list when touched (salabim.py:5374-5382): keep what has been taken and append the members that aren't there -/
def refresh (it : It) (s : PS) : It × PS :=
  ({ it with list := addNew (it.list.take it.index) (scan it.rev it.q s) },
   s.setQ it.q (fun x => { x with touched := x.touched.map (fun p => if p.1 = it.seq then (p.1, false) else p) }))

/-- the loop up to the next `yield` when not touched (salabim.py:5383-5387): skip the members that have left -/
def advance (s : PS) : List NId → Nat → Option CId × Nat
  | [], i => (none, i)
  | n :: ns, i =>
    match (s.nodes n).comp with
    | some c => (some c, i + 1)
    | none => advance s ns (i + 1)

/-- `next(it)` (salabim.py:5373-5387): `none` is StopIteration. -/
def iterNext (it : It) (s : PS) : Option CId × It × PS :=
  if it.done then (none, it, s) else
  let (it, s) := if isTouched it s then refresh it s else (it, s)
  match advance s (it.list.drop it.index) it.index with
  | (some c, i) => (some c, { it with index := i }, s)
  | (none, i) => (none, { it with index := i, done := true },
      s.setQ it.q (fun x => { x with touched := x.touched.filter (fun p => p.1 ≠ it.seq) }))

/-- what `arrival_rate` returns (salabim.py:4581-4585); none: nan -/
def arrivalRate (q : QId) (s : PS) : Option Rat :=
  let duration := s.now - (s.queues q).arrivalsT0
  if duration = 0 then none else some ((s.queues q).arrivals / duration)

/-- what `departure_rate` returns (salabim.py:4610-4614) -/
def departureRate (q : QId) (s : PS) : Option Rat :=
  let duration := s.now - (s.queues q).departuresT0
  if duration = 0 then none else some ((s.queues q).departures / duration)

/-- the loop of `component_with_name` (salabim.py:5354-5357), `name` gives the names of the components -/
def nameLoop (name : CId → String) (txt : String) (s : PS) (tail : NId) : Nat → NId → Option (Option CId)
  | 0, _ => none
  | f + 1, mx =>
    if mx = tail then some none else
    match (s.nodes mx).comp with
    | none => none
    | some c => if name c = txt then some (some c) else
      match (s.nodes mx).succ with
      | none => none
      | some n => nameLoop name txt s tail f n

/-- `component_with_name` (salabim.py:5353-5358): `some none` is None; `none` would be an AttributeError -/
def componentWithName (name : CId → String) (txt : String) (q : QId) (s : PS) : Option (Option CId) :=
  (s.nodes (s.queues q).head).succ.bind fun h => nameLoop name txt s (s.queues q).tail s.next h

end Chain
end Verif
