import Verif.Shift
import Mathlib.Tactic.Linarith
import Mathlib.Data.List.Basic

/-!
# The unit of time

Two states of the simulation that only differ in the unit of time (all moments and durations are `k` times as large) behave in the same way, provided that all
times that are given in calls are multiplied as well. This is for all calls of the model (also if they raise), in all states.
-/

namespace Verif
open World

/-- a moment or duration in a unit that is `k` times as small -/
def esc (k : Rat) (t : ETime) : ETime := WithTop.map (k * ·) t

def Ev.sc (k : Rat) (e : Ev) : Ev := { e with t := k * e.t }
def QMem.sc (k : Rat) (m : QMem) : QMem := { m with enter := k * m.enter }
/-- moments in logs -/
def logSc {α : Type} (k : Rat) (l : List (Rat × α)) : List (Rat × α) := l.map (fun p => (k * p.1, p.2))
def Queue.sc (k : Rat) (q : Queue) : Queue := { q with
  mem := q.mem.map (QMem.sc k), arrivalsT0 := k * q.arrivalsT0, departuresT0 := k * q.departuresT0, stays := q.stays.map (k * ·), lens := logSc k q.lens }
def Comp.sc (k : Rat) (x : Comp) : Comp := { x with schedTime := esc k x.schedTime, remaining := esc k x.remaining }
def RLog.sc (k : Rat) (l : RLog) : RLog := ⟨logSc k l.claimed, logSc k l.avail, logSc k l.occ, logSc k l.cap⟩
def Res.sc (k : Rat) (x : Res) : Res := { x with log := x.log.sc k }

/-- the same state in a unit of time that is `k` times as small: all moments and durations are multiplied -/
def World.sc (k : Rat) (w : World) : World := { w with
  now := k * w.now, offset := k * w.offset, events := w.events.map (Ev.sc k), comps := fun c => (w.comps c).sc k, res := fun r => (w.res r).sc k,
  slog := fun s => logSc k (w.slog s), queues := fun q => (w.queues q).sc k }

variable {k : Rat}

@[simp] theorem su_now (w : World) : (w.sc k).now = k * w.now := rfl
@[simp] theorem su_offset (w : World) : (w.sc k).offset = k * w.offset := rfl
@[simp] theorem su_seq (w : World) : (w.sc k).seq = w.seq := rfl
@[simp] theorem su_events (w : World) : (w.sc k).events = w.events.map (Ev.sc k) := rfl
@[simp] theorem su_standby (w : World) : (w.sc k).standby = w.standby := rfl
@[simp] theorem su_pending (w : World) : (w.sc k).pending = w.pending := rfl
@[simp] theorem su_current (w : World) : (w.sc k).current = w.current := rfl
@[simp] theorem su_main (w : World) : (w.sc k).main = w.main := rfl
@[simp] theorem su_endOnEmpty (w : World) : (w.sc k).endOnEmpty = w.endOnEmpty := rfl
@[simp] theorem su_atInf (w : World) : (w.sc k).atInf = w.atInf := rfl
@[simp] theorem su_comps (w : World) (c) : (w.sc k).comps c = (w.comps c).sc k := rfl
@[simp] theorem su_res (w : World) (r) : (w.sc k).res r = (w.res r).sc k := rfl
@[simp] theorem su_states (w : World) : (w.sc k).states = w.states := rfl
@[simp] theorem su_queues (w : World) (q) : (w.sc k).queues q = (w.queues q).sc k := rfl
@[simp] theorem su_status (w : World) (c) : (w.sc k).status c = w.status c := rfl

@[simp] theorem csc_status (x : Comp) : (x.sc k).status = x.status := rfl
@[simp] theorem csc_onList (x : Comp) : (x.sc k).onList = x.onList := rfl
@[simp] theorem csc_intrLevel (x : Comp) : (x.sc k).intrLevel = x.intrLevel := rfl
@[simp] theorem csc_intrStatus (x : Comp) : (x.sc k).intrStatus = x.intrStatus := rfl
@[simp] theorem csc_skipStandby (x : Comp) : (x.sc k).skipStandby = x.skipStandby := rfl
@[simp] theorem csc_hasProcess (x : Comp) : (x.sc k).hasProcess = x.hasProcess := rfl
@[simp] theorem csc_requests (x : Comp) : (x.sc k).requests = x.requests := rfl
@[simp] theorem csc_oneof (x : Comp) : (x.sc k).oneof = x.oneof := rfl
@[simp] theorem csc_claims (x : Comp) : (x.sc k).claims = x.claims := rfl
@[simp] theorem csc_waits (x : Comp) : (x.sc k).waits = x.waits := rfl
@[simp] theorem csc_waitAll (x : Comp) : (x.sc k).waitAll = x.waitAll := rfl
@[simp] theorem csc_cond (x : Comp) : (x.sc k).cond = x.cond := rfl
@[simp] theorem csc_fromStores (x : Comp) : (x.sc k).fromStores = x.fromStores := rfl
@[simp] theorem csc_fromFilter (x : Comp) : (x.sc k).fromFilter = x.fromFilter := rfl
@[simp] theorem csc_toStores (x : Comp) : (x.sc k).toStores = x.toStores := rfl
@[simp] theorem csc_toItem (x : Comp) : (x.sc k).toItem = x.toItem := rfl
@[simp] theorem csc_toPrio (x : Comp) : (x.sc k).toPrio = x.toPrio := rfl
@[simp] theorem csc_remaining (x : Comp) : (x.sc k).remaining = esc k x.remaining := rfl
@[simp] theorem csc_schedTime (x : Comp) : (x.sc k).schedTime = esc k x.schedTime := rfl

@[simp] theorem rsc_cap (x : Res) : (x.sc k).cap = x.cap := rfl
@[simp] theorem rsc_claimed (x : Res) : (x.sc k).claimed = x.claimed := rfl
@[simp] theorem rsc_minq (x : Res) : (x.sc k).minq = x.minq := rfl
@[simp] theorem rsc_anonymous (x : Res) : (x.sc k).anonymous = x.anonymous := rfl
@[simp] theorem rsc_preemptive (x : Res) : (x.sc k).preemptive = x.preemptive := rfl
@[simp] theorem rsc_honorFirst (x : Res) : (x.sc k).honorFirst = x.honorFirst := rfl
@[simp] theorem rsc_honorHighest (x : Res) : (x.sc k).honorHighest = x.honorHighest := rfl
@[simp] theorem rsc_trying (x : Res) : (x.sc k).trying = x.trying := rfl
@[simp] theorem rsc_avail (x : Res) : (x.sc k).avail = x.avail := rfl

@[simp] theorem msc_c (m : QMem) : (m.sc k).c = m.c := rfl
@[simp] theorem msc_prio (m : QMem) : (m.sc k).prio = m.prio := rfl
@[simp] theorem esc_c (e : Ev) : (e.sc k).c = e.c := rfl

@[simp] theorem esc_top : esc k ⊤ = ⊤ := rfl
@[simp] theorem esc_coe (a : Rat) : esc k (a : ETime) = ((k * a : Rat) : ETime) := rfl
theorem esc_zero : esc k ((0 : Rat) : ETime) = ((0 : Rat) : ETime) := by rw [esc_coe, mul_zero]
theorem esc_add (a b : ETime) : esc k a + esc k b = esc k (a + b) := by
  cases a <;> cases b <;> first | rfl | (show ((k * _ + k * _ : Rat) : ETime) = ((k * (_ + _) : Rat) : ETime); rw [mul_add])
theorem esc_subQ (a : ETime) (b : Rat) : (esc k a).subQ (k * b) = esc k (a.subQ b) := by
  cases a with
  | none => rfl
  | some a => show ((k * a - k * b : Rat) : ETime) = ((k * (a - b) : Rat) : ETime); rw [mul_sub]
theorem esc_lt (hk : 0 < k) (a : ETime) (b : Rat) : esc k a < ((k * b : Rat) : ETime) ↔ a < (b : ETime) := by
  cases a with
  | none => exact iff_of_false (not_top_lt (a := ((k * b : Rat) : ETime))) (not_top_lt (a := (b : ETime)))
  | some a =>
    show ((k * a : Rat) : ETime) < _ ↔ ((a : Rat) : ETime) < _
    rw [WithTop.coe_lt_coe, WithTop.coe_lt_coe]
    exact mul_lt_mul_iff_right₀ hk

/-! ## attributes -/

theorem su_modC {f f' : Comp → Comp} (h : ∀ x, f' (x.sc k) = (f x).sc k) (w : World) (c : CId) : (w.sc k).modC c f' = (w.modC c f).sc k := by
  unfold World.modC World.sc
  simp only [World.mk.injEq, true_and, and_true]
  funext d
  split
  · exact h _
  · rfl

theorem su_modR {f f' : Res → Res} (h : ∀ x, f' (x.sc k) = (f x).sc k) (w : World) (r : RId) : (w.sc k).modR r f' = (w.modR r f).sc k := by
  unfold World.modR World.sc
  simp only [World.mk.injEq, true_and, and_true]
  funext d
  split
  · exact h _
  · rfl

theorem su_modQ {f f' : Queue → Queue} (h : ∀ x, f' (x.sc k) = (f x).sc k) (w : World) (q : QRef) : (w.sc k).modQ q f' = (w.modQ q f).sc k := by
  unfold World.modQ World.sc
  simp only [World.mk.injEq, true_and]
  funext d
  split
  · exact h _
  · rfl

/-- assignments in which no time occurs -/
@[simp] theorem su_modC' {f : Comp → Comp} (h : ∀ x, f (x.sc k) = (f x).sc k) (w : World) (c : CId) : (w.sc k).modC c f = (w.modC c f).sc k := su_modC h w c
@[simp] theorem su_modR' {f : Res → Res} (h : ∀ x, f (x.sc k) = (f x).sc k) (w : World) (c : RId) : (w.sc k).modR c f = (w.modR c f).sc k := su_modR h w c

@[simp] theorem su_setStatus (w : World) (c s) : setStatus c s (w.sc k) = (setStatus c s w).sc k := by
  unfold setStatus; exact su_modC' (by intro; rfl) w c
@[simp] theorem su_setState (w : World) (s v) : (w.sc k).setState s v = (w.setState s v).sc k := by
  unfold World.setState World.sc
  simp only [World.mk.injEq, true_and, and_true]
  funext d
  split <;> rfl

theorem claims_sc (t : Rat) (cap : ETime) (q : Rat) (l : RLog) : (l.sc k).claims (k * t) cap q = (l.claims t cap q).sc k := rfl
theorem caps_sc (t : Rat) (cap : ETime) (q : Rat) (l : RLog) : (l.sc k).caps (k * t) cap q = (l.caps t cap q).sc k := rfl

@[simp] theorem su_tallyR (w : World) (r) : (w.sc k).tallyR r = (w.tallyR r).sc k := by
  unfold World.tallyR
  refine su_modR ?_ w r
  intro x; rfl
@[simp] theorem su_inQ (w : World) (q) : (w.sc k).inQ q = w.inQ q := by
  show ((w.queues q).mem.map (QMem.sc k)).map QMem.c = (w.queues q).mem.map QMem.c
  rw [List.map_map]; rfl

/-! ## the event list -/

namespace Heapq
variable {α : Type} {lt : α → α → Bool} {g : α → α}

theorem siftdown_map (h : ∀ a b, lt (g a) (g b) = lt a b) (start : Nat) (x : α) :
    ∀ (n : Nat) (f : Nat → α) (pos : Nat), siftdown lt start (g x) n (fun i => g (f i)) pos = fun i => g (siftdown lt start x n f pos i) := by
  have hu : ∀ (f : Nat → α) (p : Nat) (y : α), upd (fun i => g (f i)) p (g y) = fun i => g (upd f p y i) := by
    intro f p y; funext i; unfold upd; split <;> rfl
  intro n
  induction n with
  | zero => intro f pos; simp only [siftdown, hu]
  | succ n ih =>
    intro f pos
    simp only [siftdown, hu, h]
    split
    · split
      · exact ih _ _
      · rfl
    · rfl

theorem siftupLoop_map (h : ∀ a b, lt (g a) (g b) = lt a b) (m : Nat) :
    ∀ (n : Nat) (f : Nat → α) (pos : Nat), siftupLoop lt m n (fun i => g (f i)) pos =
      (fun i => g ((siftupLoop lt m n f pos).1 i), (siftupLoop lt m n f pos).2) := by
  have hu : ∀ (f : Nat → α) (p : Nat) (y : α), upd (fun i => g (f i)) p (g y) = fun i => g (upd f p y i) := by
    intro f p y; funext i; unfold upd; split <;> rfl
  intro n
  induction n with
  | zero => intro f pos; simp only [siftupLoop]
  | succ n ih =>
    intro f pos
    simp only [siftupLoop, hu, h]
    split
    · exact ih _ _
    · rfl

theorem siftup_map (h : ∀ a b, lt (g a) (g b) = lt a b) (n : Nat) (f : Nat → α) (pos : Nat) :
    siftup lt n (fun i => g (f i)) pos = fun i => g (siftup lt n f pos i) := by
  simp only [siftup, siftupLoop_map h, siftdown_map h]

theorem heapifyLoop_map (h : ∀ a b, lt (g a) (g b) = lt a b) (n : Nat) : ∀ (i : Nat) (f : Nat → α),
    heapifyLoop lt n i (fun i => g (f i)) = fun j => g (heapifyLoop lt n i f j)
  | 0, _ => rfl
  | i + 1, f => by simp only [heapifyLoop, siftup_map h, heapifyLoop_map h n i]

theorem toFun_map (d : α) (l : List α) : toFun (g d) (l.map g) = fun i => g (toFun d l i) := by
  funext i
  simp only [toFun, List.getD_eq_getElem?_getD, List.getElem?_map]
  cases l[i]? <;> rfl

theorem ofFun_map (n : Nat) (f : Nat → α) : ofFun n (fun i => g (f i)) = (ofFun n f).map g := by
  simp [ofFun, List.map_map, Function.comp_def]

theorem heappush_map (h : ∀ a b, lt (g a) (g b) = lt a b) (l : List α) (x : α) : heappush lt (l.map g) (g x) = (heappush lt l x).map g := by
  simp only [heappush, List.length_map, toFun_map, siftdown_map h, ofFun_map]

theorem heapify_map (h : ∀ a b, lt (g a) (g b) = lt a b) (l : List α) : heapify lt (l.map g) = (heapify lt l).map g := by
  cases l with
  | nil => rfl
  | cons d t =>
    have e := toFun_map (g := g) d (d :: t)
    simp only [List.map_cons] at e
    simp only [heapify, List.map_cons, List.length_cons, List.length_map, e, heapifyLoop_map h, ofFun_map]

theorem heappop_map (h : ∀ a b, lt (g a) (g b) = lt a b) (l : List α) :
    heappop lt (l.map g) = (heappop lt l).map (fun p => (g p.1, p.2.map g)) := by
  have hu : ∀ (f : Nat → α) (p : Nat) (y : α), upd (fun i => g (f i)) p (g y) = fun i => g (upd f p y i) := by
    intro f p y; funext i; unfold upd; split <;> rfl
  match l with
  | [] => rfl
  | [a] => rfl
  | a :: b :: t =>
    have e := toFun_map (g := g) a (a :: b :: t)
    simp only [List.map_cons] at e
    have hl : (g b :: t.map g).getLast (by simp) = g ((b :: t).getLast (by simp)) := by
      rw [← List.getLast_map (f := g) (l := b :: t) (by simp)]; rfl
    simp only [heappop, List.map_cons, List.length_cons, List.length_map, e, hl, hu, siftup_map h, ofFun_map, Option.map_some]

end Heapq

theorem lt_sc (hk : 0 < k) (a b : Ev) : Ev.lt (a.sc k) (b.sc k) = Ev.lt a b := by
  have h1 : k * a.t < k * b.t ↔ a.t < b.t := mul_lt_mul_iff_right₀ hk
  have h2 : k * a.t = k * b.t ↔ a.t = b.t := mul_right_inj' hk.ne'
  show (decide (k * a.t < k * b.t) || (decide (k * a.t = k * b.t) && _)) = _
  rw [decide_eq_decide.2 h1, decide_eq_decide.2 h2]; rfl

theorem su_push (hk : 0 < k) (c t p u ret) (w : World) : push c (esc k t) p u ret (w.sc k) = (push c t p u ret w).sc k := by
  cases t with
  | none => rfl
  | some t =>
    show ({ (w.sc k).modC c (fun x => { x with onList := true }) with
        seq := w.seq + 1, events := Heapq.heappush Ev.lt (w.events.map (Ev.sc k)) (Ev.sc k ⟨t, p, if u then -((w.seq + 1 : Nat) : Int) else (w.seq + 1 : Nat), c, ret⟩) } : World) = _
    rw [Heapq.heappush_map (lt_sc hk), su_modC' (by intro; rfl)]
    rfl

theorem su_remove (hk : 0 < k) (c) (w : World) : remove c (w.sc k) = (remove c w).map (·.sc k) := by
  unfold remove
  simp only [su_comps, csc_onList, su_events, su_status, su_standby, su_pending]
  refine map_ite (fun _ => ?_) (fun _ => ?_)
  · have hf : (w.events.map (Ev.sc k)).findIdx? (fun e => e.c == c) = w.events.findIdx? (fun e => e.c == c) := by
      rw [List.findIdx?_map]; rfl
    rw [hf]
    cases h1 : w.events.findIdx? (fun e => e.c == c) with
    | none => rfl
    | some i =>
      cases h2 : w.events with
      | nil => rfl
      | cons e0 t =>
        simp only [List.map_cons, map_ok, R.ok.injEq]
        rw [su_modC' (by intro; rfl), ← List.map_cons, ← List.map_set, ← List.map_tail, Heapq.heapify_map (lt_sc hk)]
        rfl
  · sp <;> rfl

theorem su_reschedule (hk : 0 < k) (c t p u cp ret) (w : World) :
    reschedule c (esc k t) p u cp ret (w.sc k) = (reschedule c t p u cp ret w).map (·.sc k) := by
  unfold reschedule
  simp only [su_now, esc_lt hk]
  refine map_ite (fun _ => ?_) (fun _ => ?_)
  · refine map_ite (fun _ => ?_) (fun _ => rfl)
    rw [← esc_coe, su_modC (f := fun x => { x with schedTime := (w.now : ETime) }) (by intro; rfl), su_push hk]; rfl
  · rw [su_modC (f := fun x => { x with schedTime := t }) (by intro; rfl), su_push hk]; rfl

theorem su_wake (hk : 0 < k) (c ret) (w : World) : wake c ret (w.sc k) = (wake c ret w).map (·.sc k) :=
  map_andThen (su_remove hk c w) fun w => by
    rw [su_setStatus, su_now, ← esc_coe, su_reschedule hk]

theorem su_wakeC (hk : 0 < k) (c ret d) {f : Comp → Comp} (h : ∀ x, f (x.sc k) = (f x).sc k) (w : World) :
    wake c ret ((w.sc k).modC d f) = (wake c ret (w.modC d f)).map (·.sc k) := by rw [su_modC' h, su_wake hk]

/-! ## queues -/

def Queue.QR.map (g : Queue → Queue) : Queue.QR → Queue.QR
  | .ok q => .ok (g q)
  | .notOk e => .notOk e

theorem su_onQueue (q) {f f' : Queue → Queue.QR} (h : ∀ x, f' (x.sc k) = (f x).map (Queue.sc k)) (w : World) :
    onQueue q f' (w.sc k) = (onQueue q f w).map (·.sc k) := by
  unfold onQueue
  rw [su_queues, h]
  cases f (w.queues q) with
  | notOk e => rfl
  | ok q' =>
    simp only [Queue.QR.map, map_ok, R.ok.injEq]
    exact su_modQ (by intro; rfl) w q

namespace Queue

@[simp] theorem len_sc (q : Queue) : (q.sc k).len = q.len := by simp [len, Queue.sc]
@[simp] theorem has_sc (q : Queue) (c) : (q.sc k).has c = q.has c := by
  simp only [has, Queue.sc, List.any_map]; rfl
@[simp] theorem find_sc (q : Queue) (c) : (q.sc k).find c = (q.find c).map (QMem.sc k) := by
  simp only [find, Queue.sc, List.find?_map]; rfl
@[simp] theorem mem_sc (q : Queue) : (q.sc k).mem = q.mem.map (QMem.sc k) := rfl
@[simp] theorem cap_sc (q : Queue) : (q.sc k).cap = q.cap := rfl

theorem insert_sc (q : Queue) (t : Rat) (l : List QMem) : (q.sc k).insert (k * t) (l.map (QMem.sc k)) = (q.insert t l).map (Queue.sc k) := by
  unfold Queue.insert
  rw [len_sc, cap_sc]
  split
  · rfl
  · simp [Queue.sc, logSc]

theorem ofOpt_sc (o : Option Queue) : ofOpt (o.map (Queue.sc k)) = (ofOpt o).map (Queue.sc k) := by cases o <;> rfl

theorem tailPrio_sc (l : List QMem) : tailPrio (l.map (QMem.sc k)) = tailPrio l := by
  unfold tailPrio; rw [List.getLast?_map]; cases l.getLast? <;> rfl
theorem headPrio_sc (l : List QMem) : headPrio (l.map (QMem.sc k)) = headPrio l := by
  unfold headPrio; rw [List.head?_map]; cases l.head? <;> rfl
theorem insRev_sc (x : QMem) : ∀ l, insRev (x.sc k) (l.map (QMem.sc k)) = (insRev x l).map (QMem.sc k)
  | [] => rfl
  | m :: ms => by
    simp only [List.map_cons, insRev, insRev_sc x ms, msc_prio]
    split <;> rfl
theorem insFwd_sc (x : QMem) : ∀ l, insFwd (x.sc k) (l.map (QMem.sc k)) = (insFwd x l).map (QMem.sc k)
  | [] => rfl
  | m :: ms => by
    simp only [List.map_cons, insFwd, insFwd_sc x ms, msc_prio]
    split <;> rfl
theorem insBefore_sc (x : QMem) (p) : ∀ l, insBefore (x.sc k) p (l.map (QMem.sc k)) = (insBefore x p l).map (QMem.sc k)
  | [] => rfl
  | m :: ms => by
    simp only [List.map_cons, insBefore, insBefore_sc x p ms, msc_c]
    split <;> rfl
theorem insBehind_sc (x : QMem) (p) : ∀ l, insBehind (x.sc k) p (l.map (QMem.sc k)) = (insBehind x p l).map (QMem.sc k)
  | [] => rfl
  | m :: ms => by
    simp only [List.map_cons, insBehind, insBehind_sc x p ms, msc_c]
    split <;> rfl
theorem sortedIns_sc (x : QMem) (l) : sortedIns (x.sc k) (l.map (QMem.sc k)) = (sortedIns x l).map (QMem.sc k) := by
  cases l with
  | nil => rfl
  | cons h t =>
    simp only [List.map_cons, sortedIns]
    by_cases hx : x.prio < h.prio
    · rw [if_pos hx, if_pos (show (x.sc k).prio < (h.sc k).prio from hx)]; rfl
    · rw [if_neg hx, if_neg (show ¬ (x.sc k).prio < (h.sc k).prio from hx), ← List.map_cons, ← List.map_reverse, insRev_sc, List.map_reverse]

theorem enter_sc (q : Queue) (t c) : (q.sc k).enter (k * t) c = (q.enter t c).map (Queue.sc k) := by
  unfold enter
  rw [has_sc]
  split
  · rfl
  · rw [← ofOpt_sc, ← insert_sc, mem_sc, tailPrio_sc]; simp [QMem.sc]

theorem enterSorted_sc (q : Queue) (t c p) : (q.sc k).enterSorted (k * t) c p = (q.enterSorted t c p).map (Queue.sc k) := by
  unfold enterSorted
  rw [has_sc]
  split
  · rfl
  · rw [← ofOpt_sc, ← insert_sc, mem_sc, ← sortedIns_sc]; rfl

theorem enterAtHead_sc (q : Queue) (t c) : (q.sc k).enterAtHead (k * t) c = (q.enterAtHead t c).map (Queue.sc k) := by
  unfold enterAtHead
  rw [has_sc]
  split
  · rfl
  · rw [← ofOpt_sc, ← insert_sc, mem_sc, headPrio_sc]; rfl

theorem enterInFrontOf_sc (q : Queue) (t c p) : (q.sc k).enterInFrontOf (k * t) c p = (q.enterInFrontOf t c p).map (Queue.sc k) := by
  unfold enterInFrontOf
  rw [has_sc, find_sc]
  split
  · rfl
  · cases q.find p with
    | none => rfl
    | some m => simp only [Option.map_some]; rw [← ofOpt_sc, ← insert_sc, mem_sc, ← insBefore_sc]; rfl

theorem enterBehind_sc (q : Queue) (t c p) : (q.sc k).enterBehind (k * t) c p = (q.enterBehind t c p).map (Queue.sc k) := by
  unfold enterBehind
  rw [has_sc, find_sc]
  split
  · rfl
  · cases q.find p with
    | none => rfl
    | some m => simp only [Option.map_some]; rw [← ofOpt_sc, ← insert_sc, mem_sc, ← insBehind_sc]; rfl

theorem su_inj (hk : 0 < k) : Function.Injective (QMem.sc k) := by
  rintro ⟨a, b, c⟩ ⟨a', b', c'⟩ h
  simp only [QMem.sc, QMem.mk.injEq] at h
  obtain ⟨rfl, rfl, h⟩ := h
  rw [mul_right_inj' hk.ne'] at h
  rw [h]

theorem leave_sc (hk : 0 < k) (q : Queue) (t c) : (q.sc k).leave (k * t) c = (q.leave t c).map (Queue.sc k) := by
  unfold leave
  rw [find_sc]
  cases q.find c with
  | none => rfl
  | some m =>
    simp only [Option.map_some, QR.map, QR.ok.injEq]
    rw [len_sc, mem_sc, ← List.map_erase (su_inj hk)]
    simp [Queue.sc, logSc, QMem.sc, mul_sub]

theorem setPriority_sc (hk : 0 < k) (q : Queue) (c p) : (q.sc k).setPriority c p = (q.setPriority c p).map (Queue.sc k) := by
  unfold setPriority
  rw [find_sc]
  cases q.find c with
  | none => rfl
  | some m =>
    simp only [Option.map_some]
    by_cases hx : p = m.prio
    · rw [if_pos hx, if_pos (show p = (m.sc k).prio from hx)]; rfl
    · rw [if_neg hx, if_neg (show ¬ p = (m.sc k).prio from hx)]
      simp only [QR.map, QR.ok.injEq]
      rw [mem_sc, ← List.map_erase (su_inj hk)]
      show ({ q.sc k with mem := insFwd (QMem.sc k { m with prio := p }) _ } : Queue) = _
      rw [insFwd_sc]; rfl

theorem insertAt_sc (q : Queue) (t c i) : (q.sc k).insertAt (k * t) c i = (q.insertAt t c i).map (Queue.sc k) := by
  unfold insertAt
  rw [len_sc, has_sc]
  split
  · rfl
  · split
    · rfl
    · simp only
      rw [← ofOpt_sc, ← insert_sc, mem_sc, List.getElem?_map, List.map_append, List.map_cons, List.map_take, List.map_drop]
      cases q.mem[i.toNat]? <;> rfl

theorem succ_sc (q : Queue) (c) : (q.sc k).succ c = (q.succ c).map (QMem.sc k) := by
  have h : (q.mem.map (QMem.sc k)).dropWhile (fun m => m.c != c) = (q.mem.dropWhile (fun m => m.c != c)).map (QMem.sc k) := by
    rw [List.dropWhile_map]; rfl
  unfold succ
  rw [mem_sc, h]
  generalize q.mem.dropWhile (fun m => m.c != c) = l
  match l with
  | [] => rfl
  | [_] => rfl
  | _ :: _ :: _ => rfl

theorem resetRates_sc (q : Queue) (t a d) : (q.sc k).resetRates (k * t) a d = (q.resetRates t a d).sc k := by
  cases a <;> cases d <;> rfl

end Queue

theorem map_iff {g : World → World} {p p' : Prop} [Decidable p] [Decidable p'] {a b a' b' : R} (h : p' ↔ p) (h1 : p → a' = a.map g) (h2 : ¬ p → b' = b.map g) :
    (if p' then a' else b') = (if p then a else b).map g := by
  by_cases hp : p
  · rw [if_pos hp, if_pos (h.2 hp)]; exact h1 hp
  · rw [if_neg hp, if_neg (fun x => hp (h.1 x))]; exact h2 hp

theorem su_ite {p p' : Prop} [Decidable p] [Decidable p'] {a b a' b' : World} (h : p' ↔ p) (h1 : p → a' = a.sc k) (h2 : ¬ p → b' = b.sc k) :
    (if p' then a' else b') = (if p then a else b).sc k := by
  by_cases hp : p
  · rw [if_pos hp, if_pos (h.2 hp)]; exact h1 hp
  · rw [if_neg hp, if_neg (fun x => hp (h.1 x))]; exact h2 hp

/-- an assignment without times at the end of a call -/
theorem su_okC {f : Comp → Comp} (h : ∀ x, f (x.sc k) = (f x).sc k) (w : World) (c : CId) :
    R.ok ((w.sc k).modC c f) = (R.ok (w.modC c f)).map (·.sc k) := by rw [su_modC' h]; rfl

theorem su_leaveQ (hk : 0 < k) (c q) (w : World) : leaveQ c q (w.sc k) = (leaveQ c q w).map (·.sc k) :=
  su_onQueue q (fun x => x.leave_sc hk w.now c) w
theorem su_enterSortedQ (c q p) (w : World) : enterSortedQ c q p (w.sc k) = (enterSortedQ c q p w).map (·.sc k) :=
  su_onQueue q (fun x => x.enterSorted_sc w.now c p) w
theorem su_enterSortedQC (c q p d) {f : Comp → Comp} (h : ∀ x, f (x.sc k) = (f x).sc k) (w : World) :
    enterSortedQ c q p ((w.sc k).modC d f) = (enterSortedQ c q p (w.modC d f)).map (·.sc k) := by rw [su_modC' h, su_enterSortedQ]

theorem su_leaveRequesters (hk : 0 < k) (c r) (w : World) : leaveRequesters c r (w.sc k) = (leaveRequesters c r w).map (·.sc k) :=
  map_andThen (su_leaveQ hk _ _ _) fun w => by
    rw [map_ok, R.ok.injEq]
    exact su_ite (by rw [su_queues, Queue.len_sc]) (fun _ => su_modR' (by intro; rfl) _ _) (fun _ => rfl)

theorem su_leaveWaiters (hk : 0 < k) (c x) (w : World) : leaveWaiters c x (w.sc k) = (leaveWaiters c x w).map (·.sc k) :=
  map_iff (by rw [su_queues, Queue.has_sc]) (fun _ => su_leaveQ hk _ _ _) (fun _ => rfl)

theorem su_checkFailReq (hk : 0 < k) (c) (w : World) : checkFailReq c (w.sc k) = (checkFailReq c w).map (·.sc k) :=
  map_iff Iff.rfl (fun _ => rfl) fun _ => map_andThen (map_forR (su_leaveRequesters hk c) _ _) fun _ => su_okC (by intro; rfl) _ _

theorem su_checkFailWait (hk : 0 < k) (c) (w : World) : checkFailWait c (w.sc k) = (checkFailWait c w).map (·.sc k) :=
  map_iff Iff.rfl (fun _ => rfl) fun _ => map_andThen (map_forR (su_leaveWaiters hk c) _ _) fun _ => su_okC (by intro; rfl) _ _

theorem su_checkFailFrom (hk : 0 < k) (c) (w : World) : checkFailFrom c (w.sc k) = (checkFailFrom c w).map (·.sc k) :=
  map_iff Iff.rfl (fun _ => rfl) fun _ => map_andThen (map_forR (fun s => su_leaveQ hk c (.fromReq s)) _ _) fun _ => su_okC (by intro; rfl) _ _

theorem su_checkFailTo (hk : 0 < k) (c) (w : World) : checkFailTo c (w.sc k) = (checkFailTo c w).map (·.sc k) :=
  map_iff Iff.rfl (fun _ => rfl) fun _ => map_andThen (map_forR (fun s => su_leaveQ hk c (.toReq s)) _ _) fun _ => su_okC (by intro; rfl) _ _

theorem su_checkFail (hk : 0 < k) (c) (w : World) : checkFail c (w.sc k) = (checkFail c w).map (·.sc k) :=
  map_andThen (map_andThen (map_andThen (su_checkFailReq hk c w) (su_checkFailWait hk c)) (su_checkFailFrom hk c)) (su_checkFailTo hk c)

theorem su_checkNotData (c) (w : World) : checkNotData c (w.sc k) = (checkNotData c w).map (·.sc k) :=
  map_iff Iff.rfl (fun _ => rfl) fun _ => rfl
theorem su_checkNotMain (c) (w : World) : checkNotMain c (w.sc k) = (checkNotMain c w).map (·.sc k) :=
  map_iff Iff.rfl (fun _ => rfl) fun _ => rfl

theorem su_clear (hk : 0 < k) (c) (w : World) : (checkNotData c (w.sc k) ⊳ remove c ⊳ checkFail c) =
    (checkNotData c w ⊳ remove c ⊳ checkFail c).map (·.sc k) :=
  map_andThen (map_andThen (su_checkNotData c w) (su_remove hk c)) (su_checkFail hk c)

theorem su_preamble (hk : 0 < k) (c) (w : World) : preamble c (w.sc k) = (preamble c w).map (·.sc k) :=
  map_iff Iff.rfl (fun _ => rfl) fun _ =>
    map_andThen (map_andThen (map_andThen (su_checkNotData c w) (su_checkNotMain c)) (su_remove hk c)) (su_checkFail hk c)

theorem su_preambleC (hk : 0 < k) (c d) {f : Comp → Comp} (h : ∀ x, f (x.sc k) = (f x).sc k) (w : World) :
    preamble c ((w.sc k).modC d f) = (preamble c (w.modC d f)).map (·.sc k) := by rw [su_modC' h, su_preamble hk]

/-! ## hold, passivate, activate, interrupt, resume, standby -/

/-- a time in a call in the other unit -/
def times (k : Rat) (t : Option ETime) : Option ETime := t.map (esc k)

theorem su_failTime (fa fd) (w : World) : failTime (w.sc k) (times k fa) (times k fd) = times k (failTime w fa fd) := by
  cases fa <;> cases fd <;> simp only [failTime, times, Option.map_none, Option.map_some, su_now, su_offset, ← esc_coe, esc_add, esc_top]

theorem su_rescheduleS (hk : 0 < k) (c t p u cp ret s) (w : World) :
    reschedule c (esc k t) p u cp ret (setStatus c s (w.sc k)) = (reschedule c t p u cp ret (setStatus c s w)).map (·.sc k) := by
  rw [su_setStatus, su_reschedule hk]

theorem su_hold (hk : 0 < k) (c d t p u cp i) (w : World) : hold c (times k d) (times k t) p u cp i (w.sc k) = (hold c d t p u cp i w).map (·.sc k) := by
  refine map_andThen (map_iff Iff.rfl (fun _ => rfl) fun _ => su_clear hk c w) fun w => ?_
  have key : ∀ t : ETime,
      (if esc k t < ((k * w.now : Rat) : ETime) ∧ cp = false then R.err .value (w.sc k) else
        let t := if esc k t < ((k * w.now : Rat) : ETime) then ((k * w.now : Rat) : ETime) else esc k t
        if i ≠ 0 then .ok ((w.sc k).modC c (fun x => { x with
          remaining := ETime.subQ t (k * w.now), intrStatus := .scheduled, intrLevel := i, status := .interrupted }))
        else reschedule c t p u cp none (setStatus c .scheduled (w.sc k))) =
      (if t < (w.now : ETime) ∧ cp = false then R.err .value w else
        let t := if t < (w.now : ETime) then (w.now : ETime) else t
        if i ≠ 0 then .ok (w.modC c (fun x => { x with
          remaining := ETime.subQ t w.now, intrStatus := .scheduled, intrLevel := i, status := .interrupted }))
        else reschedule c t p u cp none (setStatus c .scheduled w)).map (·.sc k) := by
    intro t
    refine map_iff (by rw [esc_lt hk]) (fun _ => rfl) fun _ => ?_
    have ht : (if esc k t < ((k * w.now : Rat) : ETime) then ((k * w.now : Rat) : ETime) else esc k t) = esc k (if t < (w.now : ETime) then (w.now : ETime) else t) := by
      by_cases h : t < (w.now : ETime)
      · rw [if_pos h, if_pos ((esc_lt hk _ _).2 h)]; rfl
      · rw [if_neg h, if_neg (fun x => h ((esc_lt hk _ _).1 x))]
    simp only [ht]
    refine map_ite (fun _ => ?_) (fun _ => su_rescheduleS hk _ _ _ _ _ _ _ _)
    rw [esc_subQ, map_ok, R.ok.injEq]
    exact su_modC (by intro; rfl) w c
  cases t with
  | some t =>
    cases d with
    | some d => rfl
    | none =>
      have := key (t + (w.offset : ETime))
      rw [← esc_add] at this
      exact this
  | none =>
    cases d with
    | some d =>
      have := key ((w.now : ETime) + d)
      rw [← esc_add] at this
      exact this
    | none => exact key (w.now : ETime)

theorem su_passivate (hk : 0 < k) (c) (w : World) : passivate c (w.sc k) = (passivate c w).map (·.sc k) := by
  refine map_andThen (map_iff Iff.rfl (fun _ => ?_) fun _ => map_andThen (su_clear hk c w) fun w => ?_) fun w => su_okC (by intro; rfl) _ _
  · refine su_okC (fun x => ?_) _ _
    show ({ x.sc k with remaining := ((0 : Rat) : ETime) } : Comp) = { x.sc k with remaining := esc k ((0 : Rat) : ETime) }
    rw [esc_zero]
  · rw [map_ok, R.ok.injEq]
    refine su_modC (fun x => ?_) w c
    simp only [csc_schedTime, su_now, esc_subQ]; rfl

theorem su_starts (hk : 0 < k) (c) (a : Option ETime) (d p u cp) (w : World) :
    (let t : ETime := match times k a with
      | none => ((w.sc k).now : ETime) + esc k d
      | some a => a + ((w.sc k).offset : ETime) + esc k d
    reschedule c t p u cp none (w.sc k)) =
    (let t : ETime := match a with
      | none => (w.now : ETime) + d
      | some a => a + (w.offset : ETime) + d
    reschedule c t p u cp none w).map (·.sc k) := by
  cases a with
  | none =>
    simp only [times, Option.map_none, su_now, ← esc_coe, esc_add]
    exact su_reschedule hk _ _ _ _ _ _ _
  | some a =>
    simp only [times, Option.map_some, su_offset, ← esc_coe, esc_add]
    exact su_reschedule hk _ _ _ _ _ _ _

theorem su_activate (hk : 0 < k) (c a d p u cp pr kr kw) (w : World) :
    activate c (times k a) (esc k d) p u cp pr kr kw (w.sc k) = (activate c a d p u cp pr kr kw w).map (·.sc k) := by
  refine map_iff Iff.rfl (fun _ => rfl) fun _ => ?_
  refine map_andThen (map_iff Iff.rfl (fun _ => rfl) fun _ => map_andThen (su_remove hk c w) fun w =>
    map_iff Iff.rfl (fun _ => rfl) fun _ => su_checkFail hk c w) fun w => ?_
  rw [su_setStatus]
  exact su_starts hk c a d p u cp (setStatus c .scheduled w)

theorem su_create (hk : 0 < k) (c a d p u cp s) (w : World) : create c (times k a) (esc k d) p u cp s (w.sc k) = (create c a d p u cp s w).map (·.sc k) := by
  refine map_iff Iff.rfl (fun _ => rfl) fun _ => ?_
  rw [su_modC' (by intro; rfl)]
  exact su_starts hk c a d p u cp (w.modC c (fun x => { x with status := .scheduled, skipStandby := s, hasProcess := true }))

theorem su_interrupt (hk : 0 < k) (c) (w : World) : interrupt c (w.sc k) = (interrupt c w).map (·.sc k) := by
  refine map_iff Iff.rfl (fun _ => su_okC (by intro; rfl) _ _) fun _ => map_iff Iff.rfl (fun _ => map_andThen (su_remove hk c w) fun w => ?_) fun _ => rfl
  rw [map_ok, R.ok.injEq]
  refine su_modC (fun x => ?_) w c
  simp only [csc_schedTime, su_now, esc_subQ]; rfl

theorem su_resume (hk : 0 < k) (c a p u) (w : World) : resume c a p u (w.sc k) = (resume c a p u w).map (·.sc k) := by
  refine map_iff Iff.rfl (fun _ => ?_) fun _ => rfl
  simp only
  rw [su_modC' (by intro; rfl)]
  obtain ⟨w1, hw1⟩ : ∃ w1, w1 = w.modC c (fun x => { x with intrLevel := x.intrLevel - 1 }) := ⟨_, rfl⟩
  rw [← hw1]
  refine map_iff Iff.rfl (fun _ => rfl) fun _ => ?_
  rw [su_comps, csc_intrStatus, su_setStatus]
  refine map_iff Iff.rfl (fun _ => ?_) fun _ => rfl
  rw [su_now, su_comps, csc_remaining, ← esc_coe, esc_add, su_reschedule hk]

theorem su_standbyCall (hk : 0 < k) (c) (w : World) : standby c (w.sc k) = (standby c w).map (·.sc k) :=
  map_andThen (su_preamble hk c w) fun w => by
    rw [map_ok, R.ok.injEq]
    rw [su_modC (f := fun x => { x with schedTime := (w.now : ETime), status := .standby }) (by intro; rfl)]
    rfl

theorem su_setRemaining (hk : 0 < k) (c v p u) (w : World) : setRemaining c (esc k v) p u (w.sc k) = (setRemaining c v p u w).map (·.sc k) := by
  refine map_iff Iff.rfl (fun _ => ?_) fun _ => map_iff Iff.rfl (fun _ => rfl) fun _ => map_andThen (su_remove hk c w) fun w => ?_
  · rw [map_ok, R.ok.injEq]
    exact su_modC (by intro; rfl) w c
  · rw [su_now, ← esc_coe, esc_add, su_reschedule hk]

/-! ## resources -/

theorem su_okR {f : Res → Res} (h : ∀ x, f (x.sc k) = (f x).sc k) (w : World) (r : RId) :
    R.ok ((w.sc k).modR r f) = (R.ok (w.modR r f)).map (·.sc k) := by rw [su_modR' h]; rfl

theorem su_headQ (w : World) (q) : headQ (w.sc k) q = (headQ w q).map (QMem.sc k) := by
  unfold headQ; rw [su_queues, Queue.mem_sc, List.head?_map]

theorem map_c_sc (o : Option QMem) : (o.map (QMem.sc k)).map QMem.c = o.map QMem.c := by cases o <;> rfl
theorem map_prio_sc (o : Option QMem) : (o.map (QMem.sc k)).map QMem.prio = o.map QMem.prio := by cases o <;> rfl

theorem su_canHonor (w : World) (c r q) : canHonor (w.sc k) c r q = canHonor w c r q := by
  have h1 := map_c_sc (k := k) (headQ w (.requesters r))
  have h2 := map_prio_sc (k := k) (headQ w (.requesters r))
  have h3 := map_prio_sc (k := k) ((w.queues (.requesters r)).find c)
  unfold canHonor
  simp only
  rw [su_headQ, su_queues, Queue.find_sc, h1, h2, h3]
  rfl

theorem su_honored (w : World) (c) : honored (w.sc k) c = honored w c := by
  unfold honored honorAny honorAll
  simp only [su_canHonor]
  rfl

theorem su_enterClaimers (c r p) (w : World) : enterClaimers c r p (w.sc k) = (enterClaimers c r p w).map (·.sc k) :=
  map_iff (by rw [su_queues, Queue.has_sc]) (fun _ => rfl) fun _ => su_enterSortedQ _ _ _ _

theorem su_claimOne (hk : 0 < k) (c l p) (w : World) : claimOne c l p (w.sc k) = (claimOne c l p w).map (·.sc k) := by
  refine map_andThen (map_iff Iff.rfl (fun _ => ?_) fun _ => rfl) (su_leaveRequesters hk c p.1)
  simp only
  rw [su_modR (f := fun x => { x with claimed := x.claimed + p.2, log := x.log.claims w.now x.cap (x.claimed + p.2) }) (by intro; rfl)]
  obtain ⟨w1, hw1⟩ : ∃ w1, w1 = w.modR p.1 (fun x => { x with claimed := x.claimed + p.2, log := x.log.claims w.now x.cap (x.claimed + p.2) }) := ⟨_, rfl⟩
  rw [← hw1, su_queues, Queue.find_sc]
  cases (w1.queues (.requesters p.1)).find c with
  | none => rfl
  | some m =>
    refine map_iff Iff.rfl (fun _ => rfl) fun _ => ?_
    rw [su_modC' (by intro; rfl)]
    exact su_enterClaimers _ _ _ _

theorem su_honorNow (hk : 0 < k) (c) (w : World) : honorNow c (w.sc k) = (honorNow c w).map (R.map (·.sc k)) := by
  have hh := su_honored (k := k) w c
  unfold honorNow
  by_cases h : w.status c = .interrupted ∨ honored w c = []
  · rw [if_pos h, if_pos (by rw [hh]; exact h)]; rfl
  · rw [if_neg h, if_neg (by rw [hh]; exact h)]
    simp only [Option.map_some, Option.some.injEq, hh]
    exact map_andThen (map_forR (su_claimOne hk c _) _ _) fun w => su_wakeC hk _ _ _ (by intro; rfl) _

theorem su_cursor0 (w : World) (r) : cursor0 (w.sc k) r = (cursor0 w r).map (QMem.sc k) := su_headQ _ _

theorem su_try (hk : 0 < k) : ∀ fuel : Nat,
    (∀ c (w : World), tryReqC fuel c (w.sc k) = (tryReqC fuel c w).map (·.sc k)) ∧
    (∀ rs (w : World), tryReqList fuel rs (w.sc k) = (tryReqList fuel rs w).map (·.sc k)) ∧
    (∀ r (w : World), tryReqR fuel r (w.sc k) = (tryReqR fuel r w).map (·.sc k)) ∧
    (∀ r mx first (w : World), loopR fuel r (Option.map (QMem.sc k) mx) (Option.map (QMem.sc k) first) (w.sc k) = (loopR fuel r mx first w).map (·.sc k)) := by
  intro fuel
  induction fuel with
  | zero => exact ⟨fun c w => by simp [tryReqC], fun rs w => by simp [tryReqList], fun r w => by simp [tryReqR], fun r mx f w => by simp [loopR]⟩
  | succ fuel ih =>
    obtain ⟨i1, i2, i3, i4⟩ := ih
    refine ⟨fun c w => ?_, fun rs w => ?_, fun r w => ?_, fun r mx first w => ?_⟩
    · unfold tryReqC
      rw [su_honorNow hk]
      cases honorNow c w with
      | none => rfl
      | some r => exact map_andThen rfl (i2 _)
    · unfold tryReqList
      cases rs with
      | nil => rfl
      | cons r rs => exact map_andThen (i3 r w) (i2 rs)
    · unfold tryReqR
      refine map_iff Iff.rfl (fun _ => map_iff Iff.rfl (fun _ => rfl) fun _ => ?_) fun _ => ?_
      · rw [su_modR' (by intro; rfl), su_cursor0]
        exact map_andThen (i4 _ _ _ _) fun w => su_okR (by intro; rfl) _ _
      · rw [su_cursor0]; exact i4 _ _ _ _
    · unfold loopR
      cases mx with
      | none => rfl
      | some m =>
        refine map_iff (by rw [map_c_sc]; rfl) (fun _ => rfl) fun _ => ?_
        refine map_iff (by rw [map_prio_sc]; rfl) (fun _ => rfl) fun _ => ?_
        refine map_iff Iff.rfl (fun _ => rfl) fun _ => ?_
        refine map_iff (by rw [su_queues, Queue.has_sc]; rfl) (fun _ => rfl) fun _ => ?_
        refine map_andThen (i1 _ _) fun w' => ?_
        refine map_iff (by rw [su_queues, Queue.has_sc]; rfl) (fun _ => ?_) fun _ => ?_
        · rw [su_cursor0]; exact i4 _ _ _ _
        · rw [su_queues, Queue.succ_sc]; exact i4 _ _ _ _

theorem su_tryReqC (hk : 0 < k) (fuel c) (w : World) : tryReqC fuel c (w.sc k) = (tryReqC fuel c w).map (·.sc k) := (su_try hk fuel).1 c w
theorem su_tryReqR (hk : 0 < k) (fuel r) (w : World) : tryReqR fuel r (w.sc k) = (tryReqR fuel r w).map (·.sc k) := (su_try hk fuel).2.2.1 r w

theorem su_releaseCore (hk : 0 < k) (c r q) (w : World) : releaseCore c r q (w.sc k) = (releaseCore c r q w).map (·.sc k) := by
  unfold releaseCore
  rw [su_comps, csc_claims]
  cases lookup (w.comps c).claims r with
  | none => rfl
  | some cl =>
    simp only
    rw [su_modR' (by intro; rfl)]
    refine map_iff Iff.rfl (fun _ => ?_) fun _ => ?_
    · rw [su_modC' (by intro; rfl)]
      refine map_andThen (su_leaveQ hk _ _ _) fun w => ?_
      have hi : (if ((w.sc k).queues (.claimers r)).len = 0 then (w.sc k).modR r (fun x => { x with claimed := 0 }) else w.sc k) =
          (if (w.queues (.claimers r)).len = 0 then w.modR r (fun x => { x with claimed := 0 }) else w).sc k :=
        su_ite (by rw [su_queues, Queue.len_sc]) (fun _ => su_modR' (by intro; rfl) _ _) fun _ => rfl
      rw [hi, su_modC' (by intro; rfl), su_tallyR]; rfl
    · rw [su_modC' (by intro; rfl), su_tallyR]; rfl

theorem su_release1 (hk : 0 < k) (fuel c r q) (w : World) : release1 fuel c r q (w.sc k) = (release1 fuel c r q w).map (·.sc k) :=
  map_andThen (su_releaseCore hk c r q w) (su_tryReqR hk fuel r)

theorem su_releaseArgs (hk : 0 < k) (fuel c l) (w : World) : releaseArgs fuel c l (w.sc k) = (releaseArgs fuel c l w).map (·.sc k) :=
  map_forR (fun _ _ => by exact map_iff Iff.rfl (fun _ => rfl) fun _ => su_release1 hk _ _ _ _ _) _ _

theorem su_releaseAll (hk : 0 < k) (fuel c) (w : World) : releaseAll fuel c (w.sc k) = (releaseAll fuel c w).map (·.sc k) :=
  map_forR (fun r => su_release1 hk fuel c r none) _ _

theorem su_bump (av q p) : ∀ l : List QMem, bumpCandidates av q p (l.map (QMem.sc k)) = bumpCandidates av q p l
  | [] => rfl
  | m :: ms => by
    have ih := su_bump (av + (0 : Rat)) q p ms
    simp only [List.map_cons, bumpCandidates, ih]
    rfl

theorem su_preempt (hk : 0 < k) (r q p) (w : World) : preempt r q p (w.sc k) = (preempt r q p w).map (·.sc k) := by
  unfold preempt
  simp only
  rw [su_queues, Queue.mem_sc, ← List.map_reverse, su_bump]
  refine map_iff Iff.rfl (fun _ => map_forR (fun d w => map_andThen (su_releaseCore hk d r none w) fun w => ?_) _ _) fun _ => rfl
  have := su_activate hk d none (0 : Rat) (0 : Rat) false false false false false w
  rw [esc_zero] at this
  exact this

theorem su_requestArg (hk : 0 < k) (c n put a) (w : World) : requestArg c n put a (w.sc k) = (requestArg c n put a w).map (·.sc k) := by
  refine map_iff Iff.rfl (fun _ => rfl) fun _ => map_iff Iff.rfl (fun _ => rfl) fun _ => ?_
  refine map_andThen (su_enterSortedQC _ _ _ _ (by intro; rfl) _) fun w => ?_
  exact map_iff Iff.rfl (fun _ => su_preempt hk _ _ _ _) fun _ => rfl

theorem su_lowerMinq (l) (w : World) : lowerMinq l (w.sc k) = (lowerMinq l w).sc k := by
  unfold lowerMinq
  induction l generalizing w with
  | nil => rfl
  | cons p t ih => rw [List.foldl_cons, List.foldl_cons, su_modR' (by intro; rfl), ih]

theorem su_request (hk : 0 < k) (fuel c as o pu fa fd p u cp) (w : World) :
    request fuel c as o pu (times k fa) (times k fd) p u cp (w.sc k) = (request fuel c as o pu fa fd p u cp w).map (·.sc k) := by
  refine map_andThen (su_preambleC hk _ _ (by intro; rfl) _) fun w => ?_
  rw [su_failTime]
  cases failTime w fa fd with
  | none => rfl
  | some t =>
    simp only [times, Option.map_some]
    rw [su_modC' (by intro; rfl)]
    obtain ⟨w1, hw1⟩ : ∃ w1, w1 = w.modC c (fun x => { x with failed := false }) := ⟨_, rfl⟩
    rw [← hw1]
    refine map_iff Iff.rfl (fun _ => ?_) fun _ => ?_
    · rw [su_now, ← esc_coe]; exact su_reschedule hk _ _ _ _ _ _ _
    · refine map_andThen (map_forR (su_requestArg hk c _ _) _ _) fun w => ?_
      rw [su_comps, csc_requests, su_lowerMinq]
      obtain ⟨w2, hw2⟩ : ∃ w2, w2 = lowerMinq (w.comps c).requests w := ⟨_, rfl⟩
      rw [← hw2, su_now, esc_subQ]
      rw [su_modC (f := fun x => { x with remaining := t.subQ w2.now }) (by intro; rfl)]
      refine map_andThen (su_tryReqC hk _ _ _) fun w => ?_
      exact map_iff Iff.rfl (fun _ => rfl) fun _ => su_rescheduleS hk _ _ _ _ _ _ _ _

theorem su_resReleaseLoop (hk : 0 < k) : ∀ (fuel : Nat) (r) (mx : Option QMem) (w : World),
    resReleaseLoop fuel r (mx.map (QMem.sc k)) (w.sc k) = (resReleaseLoop fuel r mx w).map (·.sc k)
  | 0, _, _, _ => rfl
  | fuel + 1, r, none, w => rfl
  | fuel + 1, r, some m, w => by
    refine map_iff (by rw [su_queues, Queue.has_sc]; rfl) (fun _ => rfl) fun _ => ?_
    rw [su_queues, Queue.succ_sc]
    exact map_andThen (su_release1 hk _ _ _ _ _) (su_resReleaseLoop hk fuel r _)

theorem su_resRelease (hk : 0 < k) (fuel r q) (w : World) : resRelease fuel r q (w.sc k) = (resRelease fuel r q w).map (·.sc k) := by
  refine map_iff Iff.rfl (fun _ => ?_) fun _ => map_iff Iff.rfl (fun _ => rfl) fun _ => ?_
  · simp only
    rw [← su_tryReqR hk, ← su_modR]
    intro x; rfl
  · rw [su_headQ, su_resReleaseLoop hk]

theorem su_resSetCapacity (hk : 0 < k) (fuel r cp) (w : World) : resSetCapacity fuel r cp (w.sc k) = (resSetCapacity fuel r cp w).map (·.sc k) := by
  unfold resSetCapacity
  rw [← su_tryReqR hk, ← su_modR]
  intro x; rfl

/-! ## states -/

theorem su_tryWait (hk : 0 < k) (c) (w : World) : tryWait c (w.sc k) = ((tryWait c w).1.map (·.sc k), (tryWait c w).2) := by
  unfold tryWait
  by_cases h : w.status c = .interrupted
  · rw [if_pos h, if_pos (show (w.sc k).status c = .interrupted from h)]; rfl
  · rw [if_neg h, if_neg (show ¬ (w.sc k).status c = .interrupted from h)]
    by_cases h2 : waitOver w c = true
    · rw [if_pos h2, if_pos (show waitOver (w.sc k) c = true from h2)]
      refine Prod.ext ?_ rfl
      exact map_andThen (map_forR (su_leaveWaiters hk c) _ _) fun w => su_wakeC hk _ _ _ (by intro; rfl) _
    · rw [if_neg h2, if_neg (show ¬ waitOver (w.sc k) c = true from h2)]; rfl

theorem su_waitArg (c a) (w : World) : waitArg c a (w.sc k) = (waitArg c a w).map (·.sc k) := by
  refine map_andThen (map_iff Iff.rfl (fun _ => rfl) fun _ => ?_) fun w => su_okC (by intro; rfl) _ _
  cases a.prio with
  | none => exact su_onQueue _ (fun x => x.enter_sc w.now c) w
  | some p => exact su_enterSortedQ _ _ _ _

theorem su_waitEnd (hk : 0 < k) (c t p u cp) (w : World) : waitEnd c (esc k t) p u cp (w.sc k) = (waitEnd c t p u cp w).map (·.sc k) := by
  refine map_iff Iff.rfl (fun _ => rfl) fun _ => ?_
  simp only
  rw [su_now, esc_subQ, su_modC (f := fun x => { x with remaining := t.subQ w.now }) (by intro; rfl), su_tryWait hk]
  refine map_andThen rfl fun w => ?_
  exact map_iff Iff.rfl (fun _ => rfl) fun _ => su_rescheduleS hk _ _ _ _ _ _ _ _

theorem su_wait (hk : 0 < k) (c as a fa fd p u cp) (w : World) :
    wait c as a (times k fa) (times k fd) p u cp (w.sc k) = (wait c as a fa fd p u cp w).map (·.sc k) := by
  refine map_andThen (su_preambleC hk _ _ (by intro; rfl) _) fun w => ?_
  simp only
  rw [su_modC' (by intro; rfl), su_failTime]
  cases failTime (w.modC c (fun x => { x with waitAll := a, failed := false })) fa fd with
  | none => rfl
  | some t => exact map_andThen (map_forR (su_waitArg c) _ _) (su_waitEnd hk _ _ _ _ _)

theorem su_waitFor (hk : 0 < k) (c f ss fa fd p u cp) (w : World) :
    waitFor c f ss (times k fa) (times k fd) p u cp (w.sc k) = (waitFor c f ss fa fd p u cp w).map (·.sc k) := by
  refine map_andThen (su_preamble hk _ _) fun w => ?_
  simp only
  rw [su_modC' (by intro; rfl), su_failTime]
  cases failTime (w.modC c (fun x => { x with failed := false })) fa fd with
  | none => rfl
  | some t =>
    simp only [times, Option.map_some]
    rw [su_modC' (by intro; rfl)]
    exact map_andThen (map_forR (fun s w => su_enterSortedQC _ _ _ _ (by intro; rfl) _) _ _) (su_waitEnd hk _ _ _ _ _)

theorem su_stateTryWait (hk : 0 < k) : ∀ (l m) (w : World), stateTryWait l m (w.sc k) = (stateTryWait l m w).map (·.sc k)
  | [], _, _ => rfl
  | c :: t, m, w => by
    unfold stateTryWait
    rw [su_tryWait hk]
    refine map_andThen rfl fun w => ?_
    refine map_iff Iff.rfl (fun _ => map_iff Iff.rfl (fun _ => rfl) fun _ => ?_) fun _ => ?_
    · exact su_stateTryWait hk t _ w
    · exact su_stateTryWait hk t _ w

theorem su_stateSet (hk : 0 < k) (s v) (w : World) : stateSet s v (w.sc k) = (stateSet s v w).map (·.sc k) := by
  refine map_iff Iff.rfl (fun _ => rfl) fun _ => ?_
  simp only
  rw [su_setState, su_inQ, su_stateTryWait hk]

theorem su_stateTrigger (hk : 0 < k) (s v a m) (w : World) : stateTrigger s v a m (w.sc k) = (stateTrigger s v a m w).map (·.sc k) := by
  unfold stateTrigger
  simp only
  rw [su_setState, su_inQ]
  exact map_andThen (su_stateTryWait hk _ _ _) fun w => by rw [su_setState, su_inQ, su_stateTryWait hk]; rfl

/-! ## stores -/

theorem su_store (hk : 0 < k) : ∀ fuel : Nat,
    (∀ i s p (w : World), storeEnter fuel i s p (w.sc k) = (storeEnter fuel i s p w).map (·.sc k)) ∧
    (∀ i s (w : World), storeLeave fuel i s (w.sc k) = (storeLeave fuel i s w).map (·.sc k)) := by
  intro fuel
  induction fuel with
  | zero => exact ⟨fun i s p w => by simp [storeEnter], fun i s w => by simp [storeLeave]⟩
  | succ fuel ih =>
    obtain ⟨i1, i2⟩ := ih
    refine ⟨fun i s p w => ?_, fun i s w => ?_⟩
    · unfold storeEnter
      refine map_andThen ?_ fun w => ?_
      · cases p with
        | none => exact su_onQueue _ (fun x => x.enter_sc w.now i) w
        | some p => exact su_onQueue _ (fun x => x.enterSorted_sc w.now i p) w
      · have hf : ((w.sc k).queues (.fromReq s)).mem.find? (fun m => ((w.sc k).comps m.c).fromFilter i) =
            ((w.queues (.fromReq s)).mem.find? (fun m => (w.comps m.c).fromFilter i)).map (QMem.sc k) := by
          rw [su_queues, Queue.mem_sc, List.find?_map]; rfl
        rw [hf]
        cases (w.queues (.fromReq s)).mem.find? (fun m => (w.comps m.c).fromFilter i) with
        | none => rfl
        | some m =>
          refine map_andThen (i2 _ _ _) fun w => ?_
          refine map_andThen (map_forR (fun s0 => su_leaveQ hk _ _) _ _) fun w => ?_
          exact su_wakeC hk _ _ _ (by intro; rfl) _
    · unfold storeLeave
      refine map_andThen (su_leaveQ hk _ _ _) fun w => ?_
      refine map_iff (by rw [su_queues, Queue.len_sc, Queue.cap_sc]) (fun _ => ?_) fun _ => rfl
      rw [su_headQ]
      cases headQ w (.toReq s) with
      | none => rfl
      | some m =>
        simp only [Option.map_some, msc_c, su_comps, csc_toItem]
        cases (w.comps m.c).toItem with
        | none => rfl
        | some y =>
          refine map_andThen (i1 _ _ _ _) fun w => ?_
          refine map_andThen (map_forR (fun s0 => su_leaveQ hk _ _) _ _) fun w => ?_
          exact map_andThen (su_wakeC hk _ _ _ (by intro; rfl) _) fun w => su_okC (by intro; rfl) _ _

theorem su_storeEnter (hk : 0 < k) (fuel i s p) (w : World) : storeEnter fuel i s p (w.sc k) = (storeEnter fuel i s p w).map (·.sc k) :=
  (su_store hk fuel).1 i s p w
theorem su_storeLeave (hk : 0 < k) (fuel i s) (w : World) : storeLeave fuel i s (w.sc k) = (storeLeave fuel i s w).map (·.sc k) :=
  (su_store hk fuel).2 i s w

theorem su_searchStores (f kf) (w : World) : ∀ ss b l, searchStores (w.sc k) f kf ss b l = searchStores w f kf ss b l
  | [], _, _ => rfl
  | s :: t, b, l => by
    simp only [searchStores, su_inQ, su_searchStores f kf w t]

theorem su_roomIn (w : World) (s) : roomIn (w.sc k) s = roomIn w s := by
  unfold roomIn
  simp only [su_queues, Queue.len_sc, Queue.cap_sc]

theorem su_rescheduleC (hk : 0 < k) (c t p u cp ret d) {f : Comp → Comp} (h : ∀ x, f (x.sc k) = (f x).sc k) (w : World) :
    reschedule c (esc k t) p u cp ret ((w.sc k).modC d f) = (reschedule c t p u cp ret (w.modC d f)).map (·.sc k) := by rw [su_modC' h, su_reschedule hk]

theorem su_fromStore (hk : 0 < k) (fuel c ss f kf rp fa fd p u cp) (w : World) :
    fromStore fuel c ss f kf rp (times k fa) (times k fd) p u cp (w.sc k) = (fromStore fuel c ss f kf rp fa fd p u cp w).map (·.sc k) := by
  refine map_iff Iff.rfl (fun _ => rfl) fun _ => map_andThen (su_preamble hk _ _) fun w => ?_
  rw [su_failTime]
  cases failTime w fa fd with
  | none => rfl
  | some t =>
    simp only [times, Option.map_some]
    rw [su_modC' (by intro; rfl), su_searchStores]
    obtain ⟨w1, hw1⟩ : ∃ w1, w1 = w.modC c (fun x => { x with failed := false }) := ⟨_, rfl⟩
    rw [← hw1]
    obtain ⟨o, s⟩ := searchStores w1 f kf ss none (ss.headD 0)
    cases o with
    | some i => exact map_andThen (su_storeLeave hk _ _ _ _) fun w => su_wakeC hk _ _ _ (by intro; rfl) _
    | none =>
      simp only
      rw [su_modC' (by intro; rfl)]
      exact map_andThen (map_forR (fun s => su_enterSortedQ _ _ _) _ _) fun w => su_rescheduleC hk _ _ _ _ _ _ _ (by intro; rfl) _

theorem su_toStore (hk : 0 < k) (fuel c ss i rp sp fa fd p u cp) (w : World) :
    toStore fuel c ss i rp sp (times k fa) (times k fd) p u cp (w.sc k) = (toStore fuel c ss i rp sp fa fd p u cp w).map (·.sc k) := by
  refine map_iff Iff.rfl (fun _ => rfl) fun _ => map_andThen (su_preamble hk _ _) fun w => ?_
  rw [su_failTime]
  cases failTime w fa fd with
  | none => rfl
  | some t =>
    simp only [times, Option.map_some]
    rw [su_modC' (by intro; rfl)]
    obtain ⟨w1, hw1⟩ : ∃ w1, w1 = w.modC c (fun x => { x with failed := false }) := ⟨_, rfl⟩
    rw [← hw1]
    have hr : (fun s => roomIn (w1.sc k) s) = fun s => roomIn w1 s := by funext s; exact su_roomIn w1 s
    rw [hr]
    cases ss.find? (fun s => roomIn w1 s) with
    | some s => exact map_andThen (su_storeEnter hk _ _ _ _ _) fun w => su_wakeC hk _ _ _ (by intro; rfl) _
    | none => exact map_andThen (map_forR (fun s => su_enterSortedQ _ _ _) _ _) fun w => su_rescheduleC hk _ _ _ _ _ _ _ (by intro; rfl) _

theorem su_rescan (hk : 0 < k) (fuel s) (w : World) : rescan fuel s (w.sc k) = (rescan fuel s w).map (·.sc k) := by
  unfold rescan
  rw [su_inQ]
  refine map_forR (fun c w => ?_) _ _
  refine map_iff (by rw [su_queues, Queue.has_sc]) (fun _ => ?_) fun _ => rfl
  rw [su_inQ]
  refine map_forR (fun i w => ?_) _ _
  refine map_iff Iff.rfl (fun _ => ?_) fun _ => rfl
  refine map_andThen (map_forR (fun s0 => su_leaveQ hk _ _) _ _) fun w => ?_
  exact map_andThen (su_storeLeave hk _ _ _ _) fun w => su_wakeC hk _ _ _ (by intro; rfl) _

theorem su_rescanTo (hk : 0 < k) (fuel s) : ∀ l (w : World), rescanTo fuel s l (w.sc k) = (rescanTo fuel s l w).map (·.sc k)
  | [], _ => rfl
  | c :: t, w => by
    unfold rescanTo
    refine map_iff (by rw [su_queues, Queue.has_sc]) (fun _ => map_iff (by rw [su_roomIn]) (fun _ => ?_) fun _ => rfl) fun _ => su_rescanTo hk fuel s t w
    refine map_andThen (map_forR (fun s0 => su_leaveQ hk _ _) _ _) fun w => ?_
    rw [su_comps, csc_toItem]
    cases (w.comps c).toItem with
    | none => rfl
    | some y =>
      refine map_andThen (su_storeEnter hk _ _ _ _ _) fun w => ?_
      exact map_andThen (su_wakeC hk _ _ _ (by intro; rfl) _) fun w => by rw [su_modC' (by intro; rfl), su_rescanTo hk fuel s t]

theorem su_storeSetCapacity (hk : 0 < k) (fuel s cp) (w : World) : storeSetCapacity fuel s cp (w.sc k) = (storeSetCapacity fuel s cp w).map (·.sc k) := by
  unfold storeSetCapacity
  simp only
  rw [su_modQ (f := fun q => q.setCapacity cp) (by intro; rfl), su_inQ]
  exact map_iff Iff.rfl (fun _ => su_rescanTo hk _ _ _ _) fun _ => rfl

/-! ## cancel, end of process, step, run -/

theorem su_cancel (hk : 0 < k) (fuel c) (w : World) : cancel fuel c (w.sc k) = (cancel fuel c w).map (·.sc k) := by
  refine map_iff Iff.rfl (fun _ => rfl) fun _ => ?_
  refine map_andThen (map_andThen (map_iff Iff.rfl (fun _ => rfl) fun _ => su_clear hk c w) (su_releaseAll hk fuel c)) fun w => su_okC (by intro; rfl) _ _

theorem su_terminate (hk : 0 < k) (fuel c) (w : World) : terminate fuel c (w.sc k) = (terminate fuel c w).map (·.sc k) :=
  map_andThen (su_releaseAll hk fuel c w) fun w => su_okC (by intro; rfl) _ _

theorem su_newTurns (w : World) : newTurns (w.sc k) = (newTurns w).sc k := su_ite Iff.rfl (fun _ => rfl) fun _ => rfl

theorem su_takeEvent (hk : 0 < k) (w : World) : takeEvent (w.sc k) = (takeEvent w).map (·.sc k) := by
  unfold takeEvent
  rw [su_events, Heapq.heappop_map (lt_sc hk)]
  cases hp : Heapq.heappop Ev.lt w.events with
  | none =>
    simp only [Option.map_none]
    exact su_okC (by intro; rfl) { w with current := w.main, atInf := if w.endOnEmpty then w.atInf else true } w.main
  | some p =>
    simp only [Option.map_some]
    obtain ⟨w1, hw1⟩ : ∃ w1, w1 = ({ w with events := p.2, now := p.1.t, current := p.1.c } : World) := ⟨_, rfl⟩
    have e : ({ w.sc k with events := p.2.map (Ev.sc k), now := (p.1.sc k).t, current := (p.1.sc k).c } : World) = w1.sc k := by rw [hw1]; rfl
    rw [e, ← hw1, su_modC' (by intro; rfl)]
    exact map_iff Iff.rfl (fun _ => rfl) fun _ => su_checkFail hk _ _

theorem su_stepEvent (hk : 0 < k) (w : World) : stepEvent (w.sc k) = (stepEvent w).map (·.sc k) := by
  show takeEvent (newTurns (w.sc k)) = (takeEvent (newTurns w)).map (·.sc k)
  rw [su_newTurns, su_takeEvent hk]

theorem su_step (hk : 0 < k) (w : World) : step (w.sc k) = (step w).map (·.sc k) := by
  refine map_iff Iff.rfl (fun _ => su_stepEvent hk w) fun _ => ?_
  rw [su_pending]
  cases w.pending with
  | nil => exact su_stepEvent hk w
  | cons c rest =>
    obtain ⟨w1, hw1⟩ : ∃ w1, w1 = ({ w with pending := rest } : World) := ⟨_, rfl⟩
    have e : ({ w.sc k with pending := rest } : World) = w1.sc k := by rw [hw1]; rfl
    simp only
    rw [e, ← hw1]
    refine map_iff Iff.rfl (fun _ => ?_) fun _ => su_stepEvent hk w1
    rw [su_modC' (by intro; rfl)]; rfl

theorem su_runStart (hk : 0 < k) (d t p u cp) (w : World) : runStart (times k d) (times k t) p u cp (w.sc k) = (runStart d t p u cp w).map (·.sc k) := by
  have key : ∀ (t : ETime) (e : Bool), reschedule w.main (esc k t) p u cp none (setStatus w.main .scheduled { w.sc k with endOnEmpty := e }) =
      (reschedule w.main t p u cp none (setStatus w.main .scheduled { w with endOnEmpty := e })).map (·.sc k) :=
    fun t e => su_rescheduleS hk _ _ _ _ _ _ _ { w with endOnEmpty := e }
  cases t with
  | some t =>
    cases d with
    | some d => rfl
    | none =>
      have := key (t + (w.offset : ETime)) false
      rw [← esc_add] at this
      exact this
  | none =>
    cases d with
    | some d =>
      have := key ((w.now : ETime) + d) false
      rw [← esc_add] at this
      exact this
    | none => exact key ⊤ true

/-- a call with all times in the other unit -/
def Op.scale (k : Rat) : Op → Op
  | .hold c d t p u cp i => .hold c (times k d) (times k t) p u cp i
  | .activate c a d p u cp pr kr kw => .activate c (times k a) (esc k d) p u cp pr kr kw
  | .create c a d p u cp s => .create c (times k a) (esc k d) p u cp s
  | .setRemaining c v p u => .setRemaining c (esc k v) p u
  | .request c as o pu fa fd p u cp => .request c as o pu (times k fa) (times k fd) p u cp
  | .wait c as a fa fd p u cp => .wait c as a (times k fa) (times k fd) p u cp
  | .waitFor c f ss fa fd p u cp => .waitFor c f ss (times k fa) (times k fd) p u cp
  | .fromStore c ss f kf rp fa fd p u cp => .fromStore c ss f kf rp (times k fa) (times k fd) p u cp
  | .toStore c ss i rp sp fa fd p u cp => .toStore c ss i rp sp (times k fa) (times k fd) p u cp
  | .runStart d t p u cp => .runStart (times k d) (times k t) p u cp
  | .resetNow t => .resetNow (k * t)
  | o => o

/-- the same call in the same state, in another unit of time: the same outcome, in that unit -/
theorem exec_sc (hk : 0 < k) (fuel : Nat) (o : Op) (w : World) : exec fuel (o.scale k) (w.sc k) = (exec fuel o w).map (·.sc k) := by
  cases o <;> simp only [Op.scale, exec]
  case hold => exact su_hold hk _ _ _ _ _ _ _ _
  case passivate => exact su_passivate hk _ _
  case activate => exact su_activate hk _ _ _ _ _ _ _ _ _ _
  case create => exact su_create hk _ _ _ _ _ _ _ _
  case interrupt => exact su_interrupt hk _ _
  case resume => exact su_resume hk _ _ _ _ _
  case standby => exact su_standbyCall hk _ _
  case setRemaining => exact su_setRemaining hk _ _ _ _ _
  case cancel => exact su_cancel hk _ _ _
  case request => exact su_request hk _ _ _ _ _ _ _ _ _ _ _
  case release => exact su_releaseArgs hk _ _ _ _
  case releaseAll => exact su_releaseAll hk _ _ _
  case resRelease => exact su_resRelease hk _ _ _ _
  case resSetCapacity => exact su_resSetCapacity hk _ _ _ _
  case wait => exact su_wait hk _ _ _ _ _ _ _ _ _
  case waitFor => exact su_waitFor hk _ _ _ _ _ _ _ _ _
  case stateSet => exact su_stateSet hk _ _ _
  case stateTrigger => exact su_stateTrigger hk _ _ _ _ _
  case fromStore => exact su_fromStore hk _ _ _ _ _ _ _ _ _ _ _ _
  case toStore => exact su_toStore hk _ _ _ _ _ _ _ _ _ _ _ _
  case rescan => exact su_rescan hk _ _ _
  case storeSetCapacity => exact su_storeSetCapacity hk _ _ _ _
  case storeEnter => exact su_storeEnter hk _ _ _ _ _
  case storeLeave => exact su_storeLeave hk _ _ _ _
  case runStart => exact su_runStart hk _ _ _ _ _ _
  case resetNow t =>
    simp only [resetNow, map_ok, R.ok.injEq]
    show ({ w.sc k with offset := k * w.now - k * t } : World) = { w.sc k with offset := k * (w.now - t) }
    rw [mul_sub]
  case step => exact su_step hk _
  case terminate => exact su_terminate hk _ _ _
  case queueSetCapacity n c =>
    rw [map_ok, R.ok.injEq]
    exact su_modQ (by intro; rfl) w _
  case queueReset q a d =>
    rw [map_ok, R.ok.injEq]
    exact su_modQ (fun x => x.resetRates_sc w.now a d) w q
  case enter c n => exact su_onQueue _ (fun x => x.enter_sc w.now c) w
  case enterSorted c n p => exact su_onQueue _ (fun x => x.enterSorted_sc w.now c p) w
  case enterAtHead c n => exact su_onQueue _ (fun x => x.enterAtHead_sc w.now c) w
  case enterInFrontOf c n p => exact su_onQueue _ (fun x => x.enterInFrontOf_sc w.now c p) w
  case enterBehind c n p => exact su_onQueue _ (fun x => x.enterBehind_sc w.now c p) w
  case leave c n => exact su_onQueue _ (fun x => x.leave_sc hk w.now c) w
  case setPriority c n p => exact su_onQueue _ (fun x => x.setPriority_sc hk c p) w
  case insertAt c n i => exact su_onQueue _ (fun x => x.insertAt_sc w.now c i) w

theorem execAll_sc (hk : 0 < k) (fuel : Nat) : ∀ (os : List Op) (w : World), execAll fuel (os.map (Op.scale k)) (w.sc k) = (execAll fuel os w).sc k
  | [], _ => rfl
  | o :: os, w => by
    simp only [List.map_cons, execAll, exec_sc hk, map_world, execAll_sc hk fuel os]

end Verif
