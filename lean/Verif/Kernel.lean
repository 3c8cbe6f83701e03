import Verif.Queue

/-!
# Process interaction

Model of the methods of `Component`, `Environment`, `Resource`, `State` and `Store` that move components around.
-/

namespace Verif
open World

/-! ## event list -/

/-- `Component._push` (salabim.py:7459-7470). -/
def push (c : CId) (t : ETime) (prio : ETime) (urgent : Bool) (ret : Option CId) (w : World) : World :=
  match t with
  | ⊤ => w
  | (t : Rat) =>
    let n := w.seq + 1
    let seq : Int := if urgent then -(n : Int) else n
    { (w.modC c (fun x => { x with onList := true })) with
        seq := n, events := Heapq.heappush Ev.lt w.events ⟨t, prio, seq, c, ret⟩ }

/-- `Component._remove` (salabim.py:7472-7486). The loop looks for the first entry of the component, overwrites it by the first
entry, drops the first entry and heapifies. -/
def remove (c : CId) (w : World) : R :=
  if (w.comps c).onList then
    match w.events.findIdx? (fun e => e.c == c), w.events with
    | some i, e0 :: _ =>
      .ok { (w.modC c (fun x => { x with onList := false })) with
              events := Heapq.heapify Ev.lt ((w.events.set i e0).tail) }
    | _, _ => .err .exc w
  else if w.status c = .standby then
    .ok { w with standby := w.standby.erase c, pending := w.pending.erase c }
  else .ok w

/-- `Component._reschedule` (salabim.py:7524-7551); `cap` is the resolved `cap_now` (the argument or the global default). -/
def reschedule (c : CId) (t : ETime) (prio : ETime) (urgent cap : Bool) (ret : Option CId) (w : World) : R :=
  if t < (w.now : ETime) then
    if cap then .ok (push c w.now prio urgent ret (w.modC c (fun x => { x with schedTime := (w.now : ETime) })))
    else .err .value w
  else .ok (push c t prio urgent ret (w.modC c (fun x => { x with schedTime := t })))

/-- assignment to `self.status._value` -/
def setStatus (c : CId) (s : Status) (w : World) : World := w.modC c (fun x => { x with status := s })

/-- The component gets what it was waiting for: `_remove`, status scheduled, rescheduled for now with priority 0. This sequence
occurs in `Component._tryrequest` (salabim.py:8787-8790), `Component._trywait` (9281-9283), `Qmember.insert_in_front_of`
(4256-4260), `Component.leave` (9795-9797), `from_store` (8246-8250), `to_store` (8401-8403), `rescan` (5788-5790) and
`_rescan_to` (5803-5805). -/
def wake (c : CId) (ret : Option CId) (w : World) : R :=
  remove c w ⊳ fun w => reschedule c w.now (0 : Rat) false false ret (setStatus c .scheduled w)

/-! ## queues (not stores) -/

/-- lift of an operation on one queue -/
def onQueue (q : QRef) (f : Queue → Queue.QR) (w : World) : R :=
  match f (w.queues q) with
  | .ok q' => .ok (w.modQ q (fun _ => q'))
  | .notOk e => .err e w

/-- `Component.leave(q)` where q isn't a store (salabim.py:9766-9782) -/
def leaveQ (c : CId) (q : QRef) (w : World) : R := onQueue q (fun x => x.leave w.now c) w
/-- `Component.enter_sorted(q, prio)` where q isn't a store (salabim.py:9633-9660) -/
def enterSortedQ (c : CId) (q : QRef) (prio : Rat) (w : World) : R := onQueue q (fun x => x.enterSorted w.now c prio) w

/-- keys of `_requests` / `_claims` in insertion order -/
def keys (l : List (RId × Rat)) : List RId := l.map Prod.fst
/-- value of a key in an OrderedDict -/
def lookup (l : List (RId × Rat)) (r : RId) : Option Rat := (l.find? (fun p => p.1 == r)).map Prod.snd
/-- `d[r] += q` if present, otherwise `d[r] = q` -/
def addTo (l : List (RId × Rat)) (r : RId) (q : Rat) : List (RId × Rat) :=
  if l.any (fun p => p.1 == r) then l.map (fun p => if p.1 = r then (p.1, p.2 + q) else p) else l ++ [(r, q)]
/-- `del d[r]` -/
def delKey (l : List (RId × Rat)) (r : RId) : List (RId × Rat) := l.filter (fun p => p.1 != r)

/-- leave the requesters of one resource; `_minq` becomes inf when the queue gets empty (salabim.py:7493-7495, 8782-8784) -/
def leaveRequesters (c : CId) (r : RId) (w : World) : R :=
  leaveQ c (.requesters r) w ⊳ fun w =>
    .ok (if (w.queues (.requesters r)).len = 0 then w.modR r (fun x => { x with minq := ⊤ }) else w)

/-- part of `_check_fail` about requests (salabim.py:7489-7497) -/
def checkFailReq (c : CId) (w : World) : R :=
  if (w.comps c).requests = [] then .ok w else
    forR (keys (w.comps c).requests) (leaveRequesters c) w ⊳ fun w =>
      .ok (w.modC c (fun x => { x with requests := [], failed := true }))

/-- `if self in state._waiters: self.leave(state._waiters)` (salabim.py:7503-7504, 9277-9278) -/
def leaveWaiters (c : CId) (x : Wait) (w : World) : R :=
  if (w.queues (.waiters x.s)).has c then leaveQ c (.waiters x.s) w else .ok w

/-- part of `_check_fail` about waits (salabim.py:7499-7506) -/
def checkFailWait (c : CId) (w : World) : R :=
  if (w.comps c).waits.isEmpty then .ok w else
    forR (w.comps c).waits (leaveWaiters c) w ⊳ fun w =>
      .ok (w.modC c (fun x => { x with waits := [], failed := true }))

/-- part of `_check_fail` about from_store (salabim.py:7508-7514) -/
def checkFailFrom (c : CId) (w : World) : R :=
  if (w.comps c).fromStores = [] then .ok w else
    forR (w.comps c).fromStores (fun s => leaveQ c (.fromReq s)) w ⊳ fun w =>
      .ok (w.modC c (fun x => { x with fromStores := [], failed := true }))

/-- part of `_check_fail` about to_store (salabim.py:7516-7522) -/
def checkFailTo (c : CId) (w : World) : R :=
  if (w.comps c).toStores = [] then .ok w else
    forR (w.comps c).toStores (fun s => leaveQ c (.toReq s)) w ⊳ fun w =>
      .ok (w.modC c (fun x => { x with toStores := [], failed := true }))

/-- `Component._check_fail` (salabim.py:7488-7522) -/
def checkFail (c : CId) (w : World) : R :=
  checkFailReq c w ⊳ checkFailWait c ⊳ checkFailFrom c ⊳ checkFailTo c

/-- `_checkisnotdata` (salabim.py:10057-10059) -/
def checkNotData (c : CId) (w : World) : R := if w.status c = .data then .err .value w else .ok w
/-- `_checkisnotmain` (salabim.py:10061-10063) -/
def checkNotMain (c : CId) (w : World) : R := if c = w.main then .err .value w else .ok w

/-- the preamble of request, wait, standby, from_store, to_store (e.g. salabim.py:8565-8569) -/
def preamble (c : CId) (w : World) : R :=
  if w.status c = .current then .ok w else
    checkNotData c w ⊳ checkNotMain c ⊳ remove c ⊳ checkFail c

/-! ## hold, passivate, activate, interrupt, resume, standby -/

/-- scheduled time from `fail_at` / `fail_delay` (e.g. salabim.py:8570-8584); `none` models the ValueError if both are given -/
def failTime (w : World) (failAt failDelay : Option ETime) : Option ETime :=
  match failAt, failDelay with
  | none, none => some ⊤
  | none, some d => some ((w.now : ETime) + d)
  | some a, none => some (a + (w.offset : ETime))
  | some _, some _ => none

/-- `Component.hold` (salabim.py:7805-7860). `interrupted` is the interrupt level to start with (0: not interrupted). -/
def hold (c : CId) (duration till : Option ETime) (prio : ETime) (urgent cap : Bool) (intr : Nat) (w : World) : R :=
  (if w.status c = .passive ∨ w.status c = .current then R.ok w
    else checkNotData c w ⊳ remove c ⊳ checkFail c) ⊳ fun w =>
  match (match till, duration with
    | none, none => some (w.now : ETime)
    | none, some d => some ((w.now : ETime) + d)
    | some t, none => some (t + (w.offset : ETime))
    | some _, some _ => none) with
  | none => .err .value w
  | some t =>
    if t < (w.now : ETime) ∧ cap = false then .err .value w else
    let t := if t < (w.now : ETime) then (w.now : ETime) else t
    if intr ≠ 0 then
      .ok (w.modC c (fun x => { x with
        remaining := ETime.subQ t w.now, intrStatus := .scheduled, intrLevel := intr, status := .interrupted }))
    else reschedule c t prio urgent cap none (setStatus c .scheduled w)

/-- `Component.passivate` (salabim.py:7881-7898) -/
def passivate (c : CId) (w : World) : R :=
  (if w.status c = .current then R.ok (w.modC c (fun x => { x with remaining := (0 : Rat) }))
    else checkNotData c w ⊳ remove c ⊳ checkFail c ⊳ fun w =>
      .ok (w.modC c (fun x => { x with remaining := x.schedTime.subQ w.now }))) ⊳ fun w =>
  .ok (w.modC c (fun x => { x with schedTime := ⊤, status := .passive }))

/-- `Component.activate` (salabim.py:7648-7723). `proc`: the parameter `process` is given. Starting a process without the
component having one is the AttributeError of 7655/7661. -/
def activate (c : CId) (at_ : Option ETime) (delay : ETime) (prio : ETime) (urgent cap proc keepReq keepWait : Bool)
    (w : World) : R :=
  let starts := proc || w.status c = .data
  if starts && !(w.comps c).hasProcess then .err .attribute w else
  (if w.status c = .current then R.ok w
    else remove c w ⊳ fun w => if !starts && (keepReq || keepWait) then .ok w else checkFail c w) ⊳ fun w =>
  let t : ETime := match at_ with
    | none => (w.now : ETime) + delay
    | some a => a + (w.offset : ETime) + delay
  reschedule c t prio urgent cap none (setStatus c .scheduled w)

/-- Creation of a component with a process (salabim.py:7083-7222). Components are numbered; a number that has not been used stands
for a component yet to be made, so that its record still is the initial one. The guard (which is not in the code) makes creating
a component under a number that is in use an error. Arguments at, delay, priority, urgent as in activate. -/
def create (c : CId) (at_ : Option ETime) (delay : ETime) (prio : ETime) (urgent cap skip : Bool) (w : World) : R :=
  if w.status c ≠ .data ∨ (w.comps c).onList then .err .exc w else
  let t : ETime := match at_ with
    | none => (w.now : ETime) + delay
    | some a => a + (w.offset : ETime) + delay
  reschedule c t prio urgent cap none
    (w.modC c (fun x => { x with status := .scheduled, skipStandby := skip, hasProcess := true }))

/-- `Component.interrupt` (salabim.py:7921-7936) -/
def interrupt (c : CId) (w : World) : R :=
  if w.status c = .interrupted then .ok (w.modC c (fun x => { x with intrLevel := x.intrLevel + 1 }))
  else if w.status c = .scheduled then
    remove c w ⊳ fun w =>
      .ok (w.modC c (fun x => { x with
        remaining := x.schedTime.subQ w.now, intrStatus := x.status, intrLevel := 1, status := .interrupted }))
  else .err .value w

/-- `Component.resume` (salabim.py:7984-7998) -/
def resume (c : CId) (all : Bool) (prio : ETime) (urgent : Bool) (w : World) : R :=
  if w.status c = .interrupted then
    let w := w.modC c (fun x => { x with intrLevel := x.intrLevel - 1 })
    if (w.comps c).intrLevel ≠ 0 ∧ all = false then .ok w
    else
      let w := setStatus c (w.comps c).intrStatus w
      if w.status c = .scheduled then
        reschedule c ((w.now : ETime) + (w.comps c).remaining) prio urgent false none w
      else .err .exc w
  else .err .value w

/-- `Component.standby` (salabim.py:8062-8082) -/
def standby (c : CId) (w : World) : R :=
  preamble c w ⊳ fun w =>
    .ok { (w.modC c (fun x => { x with schedTime := (w.now : ETime), status := .standby })) with
            standby := w.standby ++ [c] }

/-- setting `remaining_duration(value)` (salabim.py:9983-9993) -/
def setRemaining (c : CId) (v : ETime) (prio : ETime) (urgent : Bool) (w : World) : R :=
  if w.status c = .passive ∨ w.status c = .interrupted then .ok (w.modC c (fun x => { x with remaining := v }))
  else if w.status c = .current ∨ w.status c = .standby then .err .value w
  else remove c w ⊳ fun w => reschedule c (v + (w.now : ETime)) prio urgent false none w

/-! ## resources -/

/-- `r._capacity - r._claimed_quantity` (also `available_quantity()`) -/
def Res.avail (r : Res) : ETime := r.cap.subQ r.claimed

/-- first Qmember of a queue -/
def headQ (w : World) (q : QRef) : Option QMem := (w.queues q).mem.head?

/-- may the request of `q` from `r` by `c` be honored, now (the conditions of honor_all and honor_any, salabim.py:8719-8729,
8734-8745) -/
def canHonor (w : World) (c : CId) (r : RId) (q : Rat) : Bool :=
  let R := w.res r
  let myPrio := ((w.queues (.requesters r)).find c).map QMem.prio
  let hd := headQ w (.requesters r)
  !(R.honorFirst && (hd.map QMem.c != some c)) &&
  !(R.honorHighest && (myPrio != hd.map QMem.prio)) &&
  (if q > 0 then decide ((q : ETime) ≤ R.avail + (eps : ETime)) else decide (-q ≤ R.claimed + eps))

/-- `honor_all` (salabim.py:8717-8730) -/
def honorAll (w : World) (c : CId) : List RId :=
  let rq := (w.comps c).requests
  if rq.all (fun p => canHonor w c p.1 p.2) then keys rq else []
/-- `honor_any` (salabim.py:8732-8746) -/
def honorAny (w : World) (c : CId) : List RId :=
  match (w.comps c).requests.find? (fun p => canHonor w c p.1 p.2) with
  | some p => [p.1]
  | none => []

/-- enter `claimers` sorted, unless already there (salabim.py:8773-8775) -/
def enterClaimers (c : CId) (r : RId) (prio : Rat) (w : World) : R :=
  if (w.queues (.claimers r)).has c then .ok w else enterSortedQ c (.claimers r) prio w

/-- one iteration of the loop over the requests in `Component._tryrequest` (salabim.py:8760-8784); the monitors tally before the component enters the
claimers instead of right after it (the same moment) -/
def claimOne (c : CId) (honored : List RId) (p : RId × Rat) (w : World) : R :=
  (if p.1 ∈ honored then
    let w := w.modR p.1 (fun x => { x with claimed := x.claimed + p.2, log := x.log.claims w.now x.cap (x.claimed + p.2) })
    match (w.queues (.requesters p.1)).find c with
    | none => .err .value w
    | some m =>
      if (w.res p.1).anonymous then .ok w
      else enterClaimers c p.1 m.prio (w.modC c (fun x => { x with claims := addTo x.claims p.1 p.2 }))
  else .ok w) ⊳ leaveRequesters c p.1

/-- the resources to be claimed now: `r_honor` (salabim.py:8753-8756) -/
def honored (w : World) (c : CId) : List RId := if (w.comps c).oneof then honorAny w c else honorAll w c

/-- `_tryrequest` of component: the part up to and including the rescheduling (salabim.py:8750-8790).
`none`: not honored. -/
def honorNow (c : CId) (w : World) : Option R :=
  if w.status c = .interrupted ∨ honored w c = [] then none
  else some (forR (w.comps c).requests (claimOne c (honored w c)) w ⊳ fun w =>
    wake c none (w.modC c (fun x => { x with requests := [] })))

/-- first Qmember, `_head.successor` (none: the tail sentinel) -/
def cursor0 (w : World) (r : RId) : Option QMem := headQ w (.requesters r)

mutual
/-- `Component._tryrequest` (salabim.py:8748-8795). `fuel` bounds the number of nested calls and loop iterations. -/
def tryReqC (fuel : Nat) (c : CId) (w : World) : R :=
  match fuel with
  | 0 => .err .recursion w
  | fuel + 1 =>
    match honorNow c w with
    | none => .ok w
    | some res =>
      let anon := (keys (w.comps c).requests).filter (fun r => (w.res r).anonymous)
      res ⊳ tryReqList fuel anon
/-- `for r in anonymous_resources: r._tryrequest()` (salabim.py:8791-8792) -/
def tryReqList (fuel : Nat) (rs : List RId) (w : World) : R :=
  match fuel with
  | 0 => .err .recursion w
  | fuel + 1 =>
    match rs with
    | [] => .ok w
    | r :: rs => tryReqR fuel r w ⊳ tryReqList fuel rs
/-- `Resource._tryrequest` (salabim.py:24320-24352) -/
def tryReqR (fuel : Nat) (r : RId) (w : World) : R :=
  match fuel with
  | 0 => .err .recursion w
  | fuel + 1 =>
    if (w.res r).anonymous then
      if (w.res r).trying then .ok w
      else
        loopR fuel r (cursor0 w r) (cursor0 w r) (w.modR r (fun x => { x with trying := true })) ⊳ fun w =>
          .ok (w.modR r (fun x => { x with trying := false }))
    else loopR fuel r (cursor0 w r) (cursor0 w r) w
/-- the while loops of `Resource._tryrequest` (salabim.py:24327-24338 and 24343-24352); `mx` is the current Qmember, `first` is
`mx_first`. A Qmember whose component has left the queue in the meantime has component None. -/
def loopR (fuel : Nat) (r : RId) (mx first : Option QMem) (w : World) : R :=
  match fuel with
  | 0 => .err .recursion w
  | fuel + 1 =>
    match mx with
    | none => .ok w
    | some m =>
      let R := w.res r
      if R.honorFirst && (some m.c != first.map QMem.c) then .ok w
      else if R.honorHighest && (some m.prio != first.map QMem.prio) then .ok w
      else if !R.anonymous && decide (R.minq > R.avail + (eps : ETime)) then .ok w
      else if !(w.queues (.requesters r)).has m.c then .err .attribute w
      else
        let nxt := (w.queues (.requesters r)).succ m.c
        tryReqC fuel m.c w ⊳ fun w =>
          if R.anonymous && !(w.queues (.requesters r)).has m.c then loopR fuel r (cursor0 w r) first w
          else loopR fuel r nxt first w
end

/-- the part of `_release` before `r._tryrequest()` (salabim.py:8798-8813); a component that claims less than 1e-8 leaves the
claimers, and the claimed quantity is set to 0 when there are no claimers left -/
def releaseCore (c : CId) (r : RId) (q : Option Rat) (w : World) : R :=
  match lookup (w.comps c).claims r with
  | none => .err .value w
  | some cl =>
    let q := match q with
      | none => cl
      | some q => if q > cl then cl else q
    let w := w.modR r (fun x => { x with claimed := x.claimed - q })
    if cl - q < eps then
      let w := w.modC c (fun x => { x with claims := addTo x.claims r (-q) })
      leaveQ c (.claimers r) w ⊳ fun w =>
        let w := if (w.queues (.claimers r)).len = 0 then w.modR r (fun x => { x with claimed := 0 }) else w
        .ok ((w.modC c (fun x => { x with claims := delKey x.claims r })).tallyR r)
    else .ok ((w.modC c (fun x => { x with claims := addTo x.claims r (-q) })).tallyR r)

/-- `Component._release(r, q)` (salabim.py:8797-8821) with `bumped_by` None -/
def release1 (fuel : Nat) (c : CId) (r : RId) (q : Option Rat) (w : World) : R :=
  releaseCore c r q w ⊳ tryReqR fuel r

/-- `Component.release(...)` with arguments (salabim.py:8865-8878) -/
def releaseArgs (fuel : Nat) (c : CId) (args : List (RId × Option Rat)) (w : World) : R :=
  forR args (fun a w => if (w.res a.1).anonymous then .err .value w else release1 fuel c a.1 a.2 w) w
/-- `for r in list(self._claims): self._release(r)`: release without arguments, also in cancel and _terminate
(salabim.py:8879-8881, 8027-8028, 11274-11275) -/
def releaseAll (fuel : Nat) (c : CId) (w : World) : R :=
  forR (keys (w.comps c).claims) (fun r => release1 fuel c r none) w

/-- the claimers to be bumped, walking from the tail (salabim.py:8639-8648). `c.claimed_quantity(this_claimers)` is called with the
queue instead of the resource, so that it always yields 0: `av` never changes. -/
def bumpCandidates (av : ETime) (q prio : Rat) : List QMem → List CId
  | [] => []
  | m :: ms => if av ≥ (q : ETime) then [] else if prio ≥ m.prio then [] else m.c :: bumpCandidates (av + (0 : Rat)) q prio ms

/-- preemption (salabim.py:8638-8652) -/
def preempt (r : RId) (q prio : Rat) (w : World) : R :=
  let cands := bumpCandidates (w.res r).avail q prio (w.queues (.claimers r)).mem.reverse
  if (w.res r).avail ≥ (0 : Rat) then
    forR cands (fun d w => releaseCore d r none w ⊳
      activate d none (0 : Rat) (0 : Rat) false false false false false) w
  else .ok w

/-- one argument of `request`: resource, quantity, request priority -/
structure Arg where
  r : RId
  q : Rat := 1
  prio : Rat := 0

/-- one iteration of the loop over the arguments of request (salabim.py:8594-8652); `put`: called_from == "put" -/
def requestArg (c : CId) (n : Nat) (put : Bool) (a : Arg) (w : World) : R :=
  let R := w.res a.r
  if R.preemptive ∧ n > 1 then .err .value w else
  let q := if put then -a.q else a.q
  if q < 0 ∧ R.anonymous = false then .err .value w else
  enterSortedQ c (.requesters a.r) a.prio (w.modC c (fun x => { x with requests := addTo x.requests a.r q })) ⊳ fun w =>
  if R.preemptive then preempt a.r q a.prio w else .ok w

/-- `for r, q in self._requests.items(): if q < r._minq: r._minq = q` (salabim.py:8653-8655) -/
def lowerMinq (rq : List (RId × Rat)) (w : World) : World :=
  rq.foldl (fun w p => w.modR p.1 (fun x => { x with minq := if (p.2 : ETime) < x.minq then (p.2 : ETime) else x.minq })) w

/-- `Component.request` / `get` / `put` (salabim.py:8563-8663, 8705-8715) -/
def request (fuel : Nat) (c : CId) (args : List Arg) (oneof put : Bool) (failAt failDelay : Option ETime) (prio : ETime)
    (urgent cap : Bool) (w : World) : R :=
  preamble c (w.modC c (fun x => { x with oneof := oneof })) ⊳ fun w =>
  match failTime w failAt failDelay with
  | none => .err .value w
  | some t =>
    let w := w.modC c (fun x => { x with failed := false })
    if args.isEmpty then reschedule c w.now (0 : Rat) false false none w
    else
      forR args (requestArg c args.length put) w ⊳ fun w =>
      let w := lowerMinq (w.comps c).requests w
      let w := w.modC c (fun x => { x with remaining := t.subQ w.now })
      tryReqC fuel c w ⊳ fun w =>
      if (w.comps c).requests = [] then .ok w
      else reschedule c t prio urgent cap none (setStatus c .requesting w)

/-- the loop of `Resource.release` over the claimers (salabim.py:24373-24395). The loop over the claimers of a non anonymous resource reads the successor
before releasing; `mx` is the current Qmember. -/
def resReleaseLoop (fuel : Nat) (r : RId) (mx : Option QMem) (w : World) : R :=
  match fuel with
  | 0 => .err .recursion w
  | fuel + 1 =>
    match mx with
    | none => .ok w
    | some m =>
      if !(w.queues (.claimers r)).has m.c then .err .attribute w else
      let nxt := (w.queues (.claimers r)).succ m.c
      release1 fuel m.c r none w ⊳ resReleaseLoop fuel r nxt
/-- `Resource.release` (salabim.py:24373-24395) -/
def resRelease (fuel : Nat) (r : RId) (q : Option Rat) (w : World) : R :=
  if (w.res r).anonymous then
    let d := match q with | none => (w.res r).claimed | some q => q
    let cl := (w.res r).claimed - d
    tryReqR fuel r (w.modR r (fun x => { x with claimed := if cl < eps then 0 else cl, log := x.log.claims w.now x.cap (if cl < eps then 0 else cl) }))
  else if q.isSome then .err .value w
  else resReleaseLoop fuel r (headQ w (.claimers r)) w

/-- `Resource.set_capacity` (salabim.py:24425-24429) -/
def resSetCapacity (fuel : Nat) (r : RId) (cap : ETime) (w : World) : R :=
  tryReqR fuel r (w.modR r (fun x => { x with cap := cap, log := x.log.caps w.now cap x.claimed }))

/-! ## states -/

/-- is the wait of `c` over (salabim.py:9241-9272) -/
def waitOver (w : World) (c : CId) : Bool :=
  let x := w.comps c
  match x.cond with
  | some f => f w.states
  | none => if x.waitAll then x.waits.all (fun a => a.ok (w.states a.s)) else x.waits.any (fun a => a.ok (w.states a.s))

/-- `Component._trywait` (salabim.py:9238-9285): result and honored -/
def tryWait (c : CId) (w : World) : R × Bool :=
  if w.status c = .interrupted then (.ok w, false) else
  if waitOver w c then
    (forR (w.comps c).waits (leaveWaiters c) w ⊳ fun w =>
      wake c none (w.modC c (fun x => { x with waits := [] })), true)
  else (.ok w, false)

/-- one argument of `wait` -/
structure WArg where
  s : SId
  ok : Val → Bool := fun v => v == 1
  prio : Option Rat := some 0

/-- one iteration over the arguments of `wait` (salabim.py:9192-9223): the component enters the waiters of each state once -/
def waitArg (c : CId) (a : WArg) (w : World) : R :=
  (if (w.comps c).waits.any (fun x => x.s == a.s) then R.ok w
    else match a.prio with
      | none => onQueue (.waiters a.s) (fun x => x.enter w.now c) w
      | some p => enterSortedQ c (.waiters a.s) p w) ⊳ fun w =>
  .ok (w.modC c (fun x => { x with waits := x.waits ++ [⟨a.s, a.ok⟩] }))

/-- end of `wait` and `wait_for` (salabim.py:9225-9236, 8996-9007) -/
def waitEnd (c : CId) (t : ETime) (prio : ETime) (urgent cap : Bool) (w : World) : R :=
  if (w.comps c).waits.isEmpty then .err .type w else
  let w := w.modC c (fun x => { x with remaining := t.subQ w.now })
  (tryWait c w).1 ⊳ fun w =>
  if (w.comps c).waits.isEmpty then .ok w
  else reschedule c t prio urgent cap none (setStatus c .waiting w)

/-- `Component.wait` (salabim.py:9163-9236) -/
def wait (c : CId) (args : List WArg) (all : Bool) (failAt failDelay : Option ETime) (prio : ETime) (urgent cap : Bool)
    (w : World) : R :=
  preamble c (w.modC c (fun x => { x with cond := none })) ⊳ fun w =>
  let w := w.modC c (fun x => { x with waitAll := all, failed := false })
  match failTime w failAt failDelay with
  | none => .err .value w
  | some t => forR args (waitArg c) w ⊳ waitEnd c t prio urgent cap

/-- `Component.wait_for` (salabim.py:8961-9007). The priority of the fail event is (also) used as priority in the waiters queues.
The condition is a function of the values of the states. -/
def waitFor (c : CId) (cond : (SId → Val) → Bool) (ss : List SId) (failAt failDelay : Option ETime) (prio : Rat)
    (urgent cap : Bool) (w : World) : R :=
  preamble c w ⊳ fun w =>
  let w := w.modC c (fun x => { x with failed := false })
  match failTime w failAt failDelay with
  | none => .err .value w
  | some t =>
    forR ss (fun s w => enterSortedQ c (.waiters s) prio
        (w.modC c (fun x => { x with waits := x.waits ++ [⟨s, fun _ => false⟩] })))
      (w.modC c (fun x => { x with cond := some cond })) ⊳ waitEnd c t prio urgent cap

/-- `State._trywait(max)` (salabim.py:23797-23805): the loop walks along the waiters, `max` (none: inf) is decremented for each
honored component and the loop ends when it is 0. As only the component under test leaves the queue, walking along the chain is
the same as walking along the list at the start. -/
def stateTryWait (l : List CId) (max : Option Int) (w : World) : R :=
  match l with
  | [] => .ok w
  | c :: t =>
    let (r, honored) := tryWait c w
    r ⊳ fun w =>
      if honored then
        let max := max.map (· - 1)
        if max = some 0 then .ok w else stateTryWait t max w
      else stateTryWait t max w

/-- `State.set` / `State.reset` (salabim.py:23713-23757) -/
def stateSet (s : SId) (v : Val) (w : World) : R :=
  if w.states s = v then .ok w
  else
    let w := w.setState s v
    stateTryWait (w.inQ (.waiters s)) none w

/-- `State.trigger` (salabim.py:23759-23795); `after` none: the value before -/
def stateTrigger (s : SId) (v : Val) (after : Option Val) (max : Option Int) (w : World) : R :=
  let after := after.getD (w.states s)
  let w := w.setState s v
  stateTryWait (w.inQ (.waiters s)) max w ⊳ fun w =>
  let w := w.setState s after
  stateTryWait (w.inQ (.waiters s)) none w

/-! ## stores -/

mutual
/-- `item.enter_sorted(store, prio)`: `enter` and `insert_in_front_of` for a store (salabim.py:9633-9660, 4221-4262).
`fuel` bounds the depth of the mutual recursion of entering and leaving. -/
def storeEnter (fuel : Nat) (item : CId) (s : StId) (prio : Option Rat) (w : World) : R :=
  match fuel with
  | 0 => .err .recursion w
  | fuel + 1 =>
    (match prio with
      | some p => onQueue (.store s) (fun x => x.enterSorted w.now item p) w
      | none => onQueue (.store s) (fun x => x.enter w.now item) w) ⊳ fun w =>
    match (w.queues (.fromReq s)).mem.find? (fun m => (w.comps m.c).fromFilter item) with
    | none => .ok w
    | some m => storeLeave fuel item s w ⊳ fun w =>
      forR (w.comps m.c).fromStores (fun s0 => leaveQ m.c (.fromReq s0)) w ⊳ fun w =>
      wake m.c (some item) (w.modC m.c (fun x => { x with fromStores := [], fromItem := some item }))
/-- `item.leave(store)` (salabim.py:9766-9800) -/
def storeLeave (fuel : Nat) (item : CId) (s : StId) (w : World) : R :=
  match fuel with
  | 0 => .err .recursion w
  | fuel + 1 =>
    leaveQ item (.store s) w ⊳ fun w =>
    let q := w.queues (.store s)
    if ETime.subQ q.cap (q.len : Nat) > (0 : Rat) then
      match headQ w (.toReq s) with
      | none => .ok w
      | some m =>
        match (w.comps m.c).toItem with
        | none => .err .attribute w
        | some y =>
          storeEnter fuel y s (some (w.comps m.c).toPrio) w ⊳ fun w =>
          forR (w.comps m.c).toStores (fun s0 => leaveQ m.c (.toReq s0)) w ⊳ fun w =>
          wake m.c none (w.modC m.c (fun x => { x with toStores := [] })) ⊳ fun w =>
          .ok (w.modC m.c (fun x => { x with toItem := none }))
    else .ok w
end

/-- search of `from_store` in one store: with a key the best so far is updated, without a key the first match is final
(salabim.py:8229-8239) -/
def searchStore (filter : CId → Bool) (key : Option (CId → Rat)) : List CId → Option CId → Option CId
  | [], best => best
  | c :: t, best =>
    if filter c then
      match key with
      | none => some c
      | some k => match best with
        | none => searchStore filter key t (some c)
        | some b => if k c < k b then searchStore filter key t (some c) else searchStore filter key t best
    else searchStore filter key t best

/-- search over the stores (salabim.py:8225-8241): the found item and the value of the loop variable `store` afterwards -/
def searchStores (w : World) (filter : CId → Bool) (key : Option (CId → Rat)) : List StId → Option CId → StId → Option CId × StId
  | [], best, last => (best, last)
  | s :: t, best, _ =>
    let b := searchStore filter key (w.inQ (.store s)) best
    if key.isNone ∧ b.isSome then (b, s) else searchStores w filter key t b s

/-- `Component.from_store` (salabim.py:8187-8262). Note `found_c.leave(store)` with the last value of the loop variable. -/
def fromStore (fuel : Nat) (c : CId) (ss : List StId) (filter : CId → Bool) (key : Option (CId → Rat)) (rprio : Rat)
    (failAt failDelay : Option ETime) (prio : ETime) (urgent cap : Bool) (w : World) : R :=
  if ¬ ss.Nodup ∨ ss = [] then .err .value w else
  preamble c w ⊳ fun w =>
  match failTime w failAt failDelay with
  | none => .err .value w
  | some t =>
    let w := w.modC c (fun x => { x with failed := false })
    match searchStores w filter key ss none (ss.headD 0) with
    | (some item, s) =>
      storeLeave fuel item s w ⊳ fun w =>
      wake c (some item) (w.modC c (fun x => { x with fromItem := some item }))
    | (none, _) =>
      let w := w.modC c (fun x => { x with fromStores := ss })
      forR ss (fun s => enterSortedQ c (.fromReq s) rprio) w ⊳ fun w =>
      let w := w.modC c (fun x => { x with status := .requesting, fromItem := none, fromFilter := filter })
      reschedule c t prio urgent cap none w

/-- `available_quantity() > 0` -/
def roomIn (w : World) (s : StId) : Bool :=
  let q := w.queues (.store s)
  decide (ETime.subQ q.cap (q.len : Nat) > (0 : Rat))

/-- `Component.to_store` (salabim.py:8357-8414) -/
def toStore (fuel : Nat) (c : CId) (ss : List StId) (item : CId) (rprio sprio : Rat)
    (failAt failDelay : Option ETime) (prio : ETime) (urgent cap : Bool) (w : World) : R :=
  if ¬ ss.Nodup ∨ ss = [] then .err .value w else
  preamble c w ⊳ fun w =>
  match failTime w failAt failDelay with
  | none => .err .value w
  | some t =>
    let w := w.modC c (fun x => { x with failed := false })
    match ss.find? (fun s => roomIn w s) with
    | some s =>
      storeEnter fuel item s (some sprio) w ⊳ fun w =>
      wake c none (w.modC c (fun x => { x with toItem := none, toStores := [] }))
    | none =>
      forR ss (fun s => enterSortedQ c (.toReq s) rprio) w ⊳ fun w =>
      let w := w.modC c (fun x => { x with status := .requesting, toItem := some item, toPrio := sprio, toStores := ss })
      reschedule c t prio urgent cap none w

/-- inner loop of `rescan` (salabim.py:5779-5790): there is no break after a match -/
def rescanItems (fuel : Nat) (c : CId) (s : StId) (item : CId) (w : World) : R :=
  if (w.comps c).fromFilter item then
    forR (w.comps c).fromStores (fun s0 => leaveQ c (.fromReq s0)) w ⊳ fun w =>
    storeLeave fuel item s w ⊳ fun w =>
    wake c (some item) (w.modC c (fun x => { x with fromStores := [], fromItem := some item }))
  else .ok w
/-- `Store.rescan` (salabim.py:5774-5790). The iteration over the requesters skips those that have left in the meantime. -/
def rescan (fuel : Nat) (s : StId) (w : World) : R :=
  forR (w.inQ (.fromReq s)) (fun c w =>
    if (w.queues (.fromReq s)).has c then forR (w.inQ (.store s)) (rescanItems fuel c s) w else .ok w) w

/-- `Store._rescan_to` (salabim.py:5792-5810) -/
def rescanTo (fuel : Nat) (s : StId) : List CId → World → R
  | [], w => .ok w
  | c :: t, w =>
    if (w.queues (.toReq s)).has c then
      if roomIn w s then
        forR (w.comps c).toStores (fun s0 => leaveQ c (.toReq s0)) w ⊳ fun w =>
        match (w.comps c).toItem with
        | none => .err .attribute w
        | some y =>
          storeEnter fuel y s (some (w.comps c).toPrio) w ⊳ fun w =>
          wake c none (w.modC c (fun x => { x with toStores := [] })) ⊳ fun w =>
          rescanTo fuel s t (w.modC c (fun x => { x with toItem := none }))
      else .ok w
    else rescanTo fuel s t w

/-- `Store.set_capacity` (salabim.py:5749-5752) -/
def storeSetCapacity (fuel : Nat) (s : StId) (cap : ETime) (w : World) : R :=
  let old := (w.queues (.store s)).cap
  let w := w.modQ (.store s) (fun q => q.setCapacity cap)
  if cap ≥ old then rescanTo fuel s (w.inQ (.toReq s)) w else .ok w

/-! ## cancel, termination, step, run -/

/-- `Component.cancel` (salabim.py:8019-8037) -/
def cancel (fuel : Nat) (c : CId) (w : World) : R :=
  if w.status c = .data then .ok w else
  (if w.status c = .current then R.ok w else checkNotData c w ⊳ remove c ⊳ checkFail c) ⊳
  releaseAll fuel c ⊳ fun w =>
  .ok (w.modC c (fun x => { x with schedTime := ⊤, status := .data }))

/-- `Environment._terminate` (salabim.py:11274-11284): the process of `c` has come to its end -/
def terminate (fuel : Nat) (c : CId) (w : World) : R :=
  releaseAll fuel c w ⊳ fun w =>
  .ok (w.modC c (fun x => { x with fromItem := none, toItem := none, status := .data, schedTime := ⊤ }))

/-- the part of `step` that takes an event (salabim.py:11188-11218): standby list becomes pending list, the first event is popped,
its component becomes current and its requests fail. With an empty event list main becomes current. -/
def stepEvent (w : World) : R :=
  let w := if w.standby = [] then w else { w with pending := w.standby, standby := [] }
  match Heapq.heappop Ev.lt w.events with
  | some (e, es) =>
    let w := { w with events := es, now := e.t, current := e.c }
    let w := w.modC e.c (fun x => { x with onList := false, status := .current, schedTime := ⊤ })
    if e.c = w.main then .ok w else checkFail e.c w
  | none =>
    let w := { w with current := w.main, atInf := if w.endOnEmpty then w.atInf else true }
    .ok (w.modC w.main (fun x => { x with onList := false, status := .current, schedTime := ⊤ }))

/-- `Environment.step` (salabim.py:11155-11218) up to the point where the process of the component gets control -/
def step (w : World) : R :=
  if (w.comps w.current).skipStandby then stepEvent w else
  match w.pending with
  | [] => stepEvent w
  | c :: rest =>
    let w := { w with pending := rest }
    if w.status c = .standby then
      .ok { (w.modC c (fun x => { x with status := .current, schedTime := ⊤ })) with current := c }
    else stepEvent w

/-- start of `Environment.run` (salabim.py:13372-13401), before the loop of steps -/
def runStart (duration till : Option ETime) (prio : ETime) (urgent cap : Bool) (w : World) : R :=
  match (match till, duration with
    | none, none => some (⊤, true)
    | none, some d => some ((w.now : ETime) + d, false)
    | some t, none => some (t + (w.offset : ETime), false)
    | some _, some _ => none) with
  | none => .err .value { w with endOnEmpty := false }
  | some (t, e) =>
    reschedule w.main t prio urgent cap none (setStatus w.main .scheduled { w with endOnEmpty := e })

/-- `Environment.reset_now` (salabim.py:13160-13162) -/
def resetNow (newNow : Rat) (w : World) : World := { w with offset := w.now - newNow }

/-! ## histories -/

/-- The calls a program can make. -/
inductive Op
  | hold (c : CId) (duration till : Option ETime) (prio : ETime) (urgent cap : Bool) (intr : Nat)
  | passivate (c : CId)
  | activate (c : CId) (at_ : Option ETime) (delay prio : ETime) (urgent cap proc keepReq keepWait : Bool)
  | create (c : CId) (at_ : Option ETime) (delay prio : ETime) (urgent cap skip : Bool)
  | interrupt (c : CId)
  | resume (c : CId) (all : Bool) (prio : ETime) (urgent : Bool)
  | standby (c : CId)
  | setRemaining (c : CId) (v prio : ETime) (urgent : Bool)
  | cancel (c : CId)
  | request (c : CId) (args : List Arg) (oneof put : Bool) (failAt failDelay : Option ETime) (prio : ETime) (urgent cap : Bool)
  | release (c : CId) (args : List (RId × Option Rat))
  | releaseAll (c : CId)
  | resRelease (r : RId) (q : Option Rat)
  | resSetCapacity (r : RId) (cap : ETime)
  | wait (c : CId) (args : List WArg) (all : Bool) (failAt failDelay : Option ETime) (prio : ETime) (urgent cap : Bool)
  | waitFor (c : CId) (cond : (SId → Val) → Bool) (ss : List SId) (failAt failDelay : Option ETime) (prio : Rat) (urgent cap : Bool)
  | stateSet (s : SId) (v : Val)
  | stateTrigger (s : SId) (v : Val) (after : Option Val) (max : Option Int)
  | fromStore (c : CId) (ss : List StId) (filter : CId → Bool) (key : Option (CId → Rat)) (rprio : Rat)
      (failAt failDelay : Option ETime) (prio : ETime) (urgent cap : Bool)
  | toStore (c : CId) (ss : List StId) (item : CId) (rprio sprio : Rat)
      (failAt failDelay : Option ETime) (prio : ETime) (urgent cap : Bool)
  | rescan (s : StId)
  | storeSetCapacity (s : StId) (cap : ETime)
  | storeEnter (c : CId) (s : StId) (prio : Option Rat)
  | storeLeave (c : CId) (s : StId)
  | enter (c : CId) (n : Nat) | enterSorted (c : CId) (n : Nat) (prio : Rat) | enterAtHead (c : CId) (n : Nat)
  | enterInFrontOf (c : CId) (n : Nat) (p : CId) | enterBehind (c : CId) (n : Nat) (p : CId)
  | leave (c : CId) (n : Nat) | setPriority (c : CId) (n : Nat) (prio : Rat)
  | insertAt (c : CId) (n : Nat) (i : Int) | queueSetCapacity (n : Nat) (cap : ETime) | queueReset (q : QRef) (a d : Bool)
  | runStart (duration till : Option ETime) (prio : ETime) (urgent cap : Bool)
  | resetNow (t : Rat)
  /-- the scheduler takes the next step -/
  | step
  /-- the process of the current component has come to its end -/
  | terminate

/-- effect of a call; `fuel` is the recursion bound -/
def exec (fuel : Nat) : Op → World → R
  | .hold c d t p u k i, w => hold c d t p u k i w
  | .passivate c, w => passivate c w
  | .activate c a d p u k pr kr kw, w => activate c a d p u k pr kr kw w
  | .create c a d p u k s, w => create c a d p u k s w
  | .interrupt c, w => interrupt c w
  | .resume c a p u, w => resume c a p u w
  | .standby c, w => standby c w
  | .setRemaining c v p u, w => setRemaining c v p u w
  | .cancel c, w => cancel fuel c w
  | .request c as o pu fa fd p u k, w => request fuel c as o pu fa fd p u k w
  | .release c as, w => releaseArgs fuel c as w
  | .releaseAll c, w => releaseAll fuel c w
  | .resRelease r q, w => resRelease fuel r q w
  | .resSetCapacity r k, w => resSetCapacity fuel r k w
  | .wait c as a fa fd p u k, w => wait c as a fa fd p u k w
  | .waitFor c f ss fa fd p u k, w => waitFor c f ss fa fd p u k w
  | .stateSet s v, w => stateSet s v w
  | .stateTrigger s v a m, w => stateTrigger s v a m w
  | .fromStore c ss f k rp fa fd p u cp, w => fromStore fuel c ss f k rp fa fd p u cp w
  | .toStore c ss i rp sp fa fd p u cp, w => toStore fuel c ss i rp sp fa fd p u cp w
  | .rescan s, w => rescan fuel s w
  | .storeSetCapacity s k, w => storeSetCapacity fuel s k w
  | .storeEnter c s p, w => storeEnter fuel c s p w
  | .storeLeave c s, w => storeLeave fuel c s w
  | .enter c n, w => onQueue (.user n) (fun q => q.enter w.now c) w
  | .enterSorted c n p, w => onQueue (.user n) (fun q => q.enterSorted w.now c p) w
  | .enterAtHead c n, w => onQueue (.user n) (fun q => q.enterAtHead w.now c) w
  | .enterInFrontOf c n p, w => onQueue (.user n) (fun q => q.enterInFrontOf w.now c p) w
  | .enterBehind c n p, w => onQueue (.user n) (fun q => q.enterBehind w.now c p) w
  | .leave c n, w => onQueue (.user n) (fun q => q.leave w.now c) w
  | .setPriority c n p, w => onQueue (.user n) (fun q => q.setPriority c p) w
  | .insertAt c n i, w => onQueue (.user n) (fun q => q.insertAt w.now c i) w
  | .queueSetCapacity n k, w => .ok (w.modQ (.user n) (fun q => q.setCapacity k))
  | .queueReset q a d, w => .ok (w.modQ q (fun q => q.resetRates w.now a d))
  | .runStart d t p u k, w => runStart d t p u k w
  | .resetNow t, w => .ok (resetNow t w)
  | .step, w => step w
  | .terminate, w => terminate fuel w.current w

/-- the states that can be reached from `w` by the given calls; an exception is caught by the program and the history goes on -/
def execAll (fuel : Nat) : List Op → World → World
  | [], w => w
  | o :: os, w => execAll fuel os (exec fuel o w).world

end Verif
