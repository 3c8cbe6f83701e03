import Mathlib.Algebra.Order.Field.Rat
import Mathlib.Order.WithBot
import Mathlib.Algebra.Order.Monoid.WithTop
import Verif.Heapq

/-!
# The state of a simulation

All citations are to `/repo/salabim/salabim.py`.

Simplifications that hold for the complete model:
* times, priorities, quantities are exact rationals, `inf` is `⊤`; the clock itself is finite (the only way to make it `inf`,
  running out of events in `run(till=inf)`, is a flag that ends the run);
* names, traces, modes, animation and the tallying of monitors that are not used by the properties are left out;
* every API call runs to completion before anything else happens (in yieldless mode a call that reschedules the
  calling component gives control to the scheduler inside `_push`, salabim.py:7468-7470);
* component, resource, state, store, queue identities are natural numbers.
-/

namespace Verif

abbrev CId := Nat
abbrev RId := Nat
abbrev SId := Nat
abbrev StId := Nat
abbrev ETime := WithTop Rat
/-- values of states -/
abbrev Val := Int

/-- the rounding tolerance `1e-8` used by resources (salabim.py:8725, 8728, 8741, 8744, 8806, 24348, 24380) -/
def eps : Rat := 1 / 100000000

/-- `inf - x = inf` -/
def ETime.subQ (a : ETime) (b : Rat) : ETime := a.map (· - b)

/-- component statuses (salabim.py:25392-25399) -/
inductive Status
  | data | current | standby | passive | interrupted | scheduled | requesting | waiting
  deriving DecidableEq, Repr

/-- kinds of Python exceptions raised -/
inductive Err
  | value | type | attribute | queueFull | exc | recursion
  deriving DecidableEq, Repr

/-- An entry of `env._event_list`: `(t, priority, seq, self, return_value)` (salabim.py:7467). -/
structure Ev where
  t : Rat
  prio : ETime
  seq : Int
  c : CId
  ret : Option CId := none
  deriving DecidableEq

/-- Python's `<` on the tuples of the event list. The sequence number is unique, so that the comparison never gets to
the component. -/
def Ev.lt (a b : Ev) : Bool :=
  decide (a.t < b.t) || (decide (a.t = b.t) &&
    (decide (a.prio < b.prio) || (decide (a.prio = b.prio) && decide (a.seq < b.seq))))

/-- Which queue: user queues, and the internal queues of resources (salabim.py:24033-24037), states (23550) and stores (5727-5730);
a store is a queue itself. -/
inductive QRef
  | user (n : Nat) | requesters (r : RId) | claimers (r : RId) | waiters (s : SId)
  | store (s : StId) | fromReq (s : StId) | toReq (s : StId)
  deriving DecidableEq, Repr

/-- `Qmember` (salabim.py:4217-4245): component, priority and enter time. The chain of Qmembers is the list in `Queue.mem`
(see `Verif.Chain` for the pointer structure). -/
structure QMem where
  c : CId
  prio : Rat
  enter : Rat
  deriving DecidableEq, Repr

/-- `Queue` (salabim.py:4264ff): members in order, capacity, arrivals, departures (with the moments since when they are counted) and the logs of the
tallies of `length_of_stay` and `length` (time, value), most recent last. -/
structure Queue where
  mem : List QMem := []
  cap : ETime := ⊤
  arrivals : Int := 0
  departures : Int := 0
  arrivalsT0 : Rat := 0
  departuresT0 : Rat := 0
  stays : List Rat := []
  lens : List (Rat × Nat) := []

/-- one awaited condition of `wait`: the state and the test on its value (salabim.py:9218-9223: a constant, an expression or a
function of the value) -/
structure Wait where
  s : SId
  ok : Val → Bool

/-- the attributes of a component (salabim.py:7104-7120) -/
structure Comp where
  status : Status := .data
  schedTime : ETime := ⊤
  onList : Bool := false
  remaining : ETime := (0 : Rat)
  intrLevel : Int := 0
  intrStatus : Status := .data
  skipStandby : Bool := false
  hasProcess : Bool := true
  failed : Bool := false
  requests : List (RId × Rat) := []
  oneof : Bool := false
  claims : List (RId × Rat) := []
  waits : List Wait := []
  waitAll : Bool := false
  cond : Option ((SId → Val) → Bool) := none
  fromStores : List StId := []
  fromFilter : CId → Bool := fun _ => true
  fromItem : Option CId := none
  toStores : List StId := []
  toItem : Option CId := none
  toPrio : Rat := 0

/-- the calls of `tally` of the monitors `claimed_quantity`, `available_quantity`, `occupancy` and `capacity` of a resource: moment and value, the last one
first -/
structure RLog where
  claimed : List (Rat × Rat)
  avail : List (Rat × ETime)
  occ : List (Rat × Rat)
  cap : List (Rat × ETime)

/-- the monitors of a new resource (salabim.py:24045-24054) -/
def RLog.start (t : Rat) (cap : ETime) (claimed : Rat) : RLog := ⟨[(t, claimed)], [(t, cap.subQ claimed)], [(t, 0)], [(t, cap)]⟩

/-- the occupancy that is tallied (salabim.py:8778, 8812, 24383, 24428): 0 if the capacity is not positive; dividing by inf gives 0 -/
def occupancy (claimed : Rat) : ETime → Rat
  | (k : Rat) => if k ≤ 0 then 0 else claimed / k
  | ⊤ => 0

/-- the claimed quantity has changed (salabim.py:8777-8779, 8811-8813, 24382-24384) -/
def RLog.claims (t : Rat) (cap : ETime) (claimed : Rat) (l : RLog) : RLog :=
  { l with claimed := (t, claimed) :: l.claimed, occ := (t, occupancy claimed cap) :: l.occ, avail := (t, cap.subQ claimed) :: l.avail }

/-- the capacity has changed (salabim.py:24426-24428) -/
def RLog.caps (t : Rat) (cap : ETime) (claimed : Rat) (l : RLog) : RLog :=
  { l with cap := (t, cap) :: l.cap, avail := (t, cap.subQ claimed) :: l.avail, occ := (t, occupancy claimed cap) :: l.occ }

/-- the attributes of a resource (salabim.py:24027-24043) -/
structure Res where
  cap : ETime := (1 : Rat)
  claimed : Rat := 0
  minq : ETime := ⊤
  anonymous : Bool := false
  preemptive : Bool := false
  honorFirst : Bool := false
  honorHighest : Bool := false
  trying : Bool := false
  log : RLog := .start 0 cap claimed

/-- the environment with everything in it -/
structure World where
  now : Rat := 0
  offset : Rat := 0
  seq : Nat := 0
  events : List Ev := []
  standby : List CId := []
  pending : List CId := []
  current : CId := 0
  main : CId := 0
  endOnEmpty : Bool := true
  atInf : Bool := false
  comps : CId → Comp := fun _ => {}
  res : RId → Res := fun _ => {}
  states : SId → Val := fun _ => 0
  /-- the tallies of the monitor `value` of every state, the last one first (salabim.py:23552) -/
  slog : SId → List (Rat × Val) := fun _ => [(0, 0)]
  queues : QRef → Queue := fun _ => {}

/-- a new environment: component 0 is `main`, which is current (salabim.py:10560-10574) -/
def World.init : World := { comps := fun c => if c = 0 then { status := .current } else {} }

/-- result of a call: returned normally, or raised (the state as it was when raising is kept) -/
inductive R
  | ok (w : World)
  | err (e : Err) (w : World)

namespace R
/-- sequencing; an exception skips the rest -/
def andThen : R → (World → R) → R
  | .ok w, f => f w
  | .err e w, _ => .err e w

/-- the state after the call, raised or not -/
def world : R → World
  | .ok w => w
  | .err _ w => w

def isOk : R → Bool
  | .ok _ => true
  | .err _ _ => false

def error? : R → Option Err
  | .ok _ => none
  | .err e _ => some e
end R

infixl:55 " ⊳ " => R.andThen

namespace World

/-- assignment to attributes of component `c` -/
def modC (w : World) (c : CId) (f : Comp → Comp) : World :=
  { w with comps := fun d => if d = c then f (w.comps d) else w.comps d }
/-- assignment to attributes of resource `r` -/
def modR (w : World) (r : RId) (f : Res → Res) : World :=
  { w with res := fun d => if d = r then f (w.res d) else w.res d }
/-- the monitors of `r` tally the claimed quantity -/
def tallyR (w : World) (r : RId) : World := w.modR r (fun x => { x with log := x.log.claims w.now x.cap x.claimed })
/-- assignment to queue `q` -/
def modQ (w : World) (q : QRef) (f : Queue → Queue) : World :=
  { w with queues := fun d => if d = q then f (w.queues d) else w.queues d }
/-- assignment to the value of state `s`; its monitor tallies it (salabim.py:23732-23733, 23790-23791, 23793-23794) -/
def setState (w : World) (s : SId) (v : Val) : World :=
  { w with states := fun d => if d = s then v else w.states d
           slog := fun d => if d = s then (w.now, v) :: w.slog d else w.slog d }

abbrev status (w : World) (c : CId) : Status := (w.comps c).status
/-- the members of a queue, as component ids -/
def inQ (w : World) (q : QRef) : List CId := (w.queues q).mem.map QMem.c

end World

/-- sequential execution of `f` for all elements of a list (a Python `for` loop over a snapshot) -/
def forR {α : Type} (l : List α) (f : α → World → R) (w : World) : R :=
  match l with
  | [] => .ok w
  | a :: t => f a w ⊳ forR t f

end Verif
