import Verif.Scale

/-!
# Only the order of priorities matters

Two states of the simulation that only differ in the values of the priorities (a priority `p` in one is `φ p` in the other one, for a strictly increasing `φ` that keeps 0)
behave in the same way, provided that the priorities in calls are replaced as well. This is for all calls of the model (also if they raise), in all states. The value 0 has to
be kept as salabim itself uses it: as the default of all priorities, for the event of a component that gets what it was waiting for, and for a component in an empty queue.
-/

namespace Verif
open World

/-- other values for the priorities, in the same order -/
structure Ranks where
  f : Rat → Rat
  mono : StrictMono f
  zero : f 0 = 0

namespace Ranks
/-- the priority of an event can be `inf` as well -/
def e (φ : Ranks) (p : ETime) : ETime := WithTop.map φ.f p
variable (φ : Ranks)
theorem e_coe (p : Rat) : φ.e (p : ETime) = (φ.f p : Rat) := rfl
theorem e_zero : φ.e ((0 : Rat) : ETime) = ((0 : Rat) : ETime) := by rw [e_coe, φ.zero]
theorem e_mono : StrictMono φ.e := φ.mono.withTop_map
theorem e_lt {a b : ETime} : φ.e a < φ.e b ↔ a < b := φ.e_mono.lt_iff_lt
theorem e_eq {a b : ETime} : φ.e a = φ.e b ↔ a = b := φ.e_mono.injective.eq_iff
theorem f_lt {a b : Rat} : φ.f a < φ.f b ↔ a < b := φ.mono.lt_iff_lt
theorem f_le {a b : Rat} : φ.f a ≤ φ.f b ↔ a ≤ b := φ.mono.le_iff_le
theorem f_eq {a b : Rat} : φ.f a = φ.f b ↔ a = b := φ.mono.injective.eq_iff
end Ranks

def Ev.mp (φ : Ranks) (e : Ev) : Ev := { e with prio := φ.e e.prio }
def QMem.mp (φ : Ranks) (m : QMem) : QMem := { m with prio := φ.f m.prio }
def Queue.mp (φ : Ranks) (q : Queue) : Queue := { q with mem := q.mem.map (QMem.mp φ) }
def Comp.mp (φ : Ranks) (x : Comp) : Comp := { x with toPrio := φ.f x.toPrio }

/-- the same state with other priorities -/
def World.mp (φ : Ranks) (w : World) : World := { w with
  events := w.events.map (Ev.mp φ), comps := fun c => (w.comps c).mp φ, queues := fun q => (w.queues q).mp φ }

variable {φ : Ranks}

@[simp] theorem mp_now (w : World) : (w.mp φ).now = w.now := rfl
@[simp] theorem mp_offset (w : World) : (w.mp φ).offset = w.offset := rfl
@[simp] theorem mp_seq (w : World) : (w.mp φ).seq = w.seq := rfl
@[simp] theorem mp_events (w : World) : (w.mp φ).events = w.events.map (Ev.mp φ) := rfl
@[simp] theorem mp_standby (w : World) : (w.mp φ).standby = w.standby := rfl
@[simp] theorem mp_pending (w : World) : (w.mp φ).pending = w.pending := rfl
@[simp] theorem mp_current (w : World) : (w.mp φ).current = w.current := rfl
@[simp] theorem mp_main (w : World) : (w.mp φ).main = w.main := rfl
@[simp] theorem mp_res (w : World) : (w.mp φ).res = w.res := rfl
@[simp] theorem mp_states (w : World) : (w.mp φ).states = w.states := rfl
@[simp] theorem mp_queues (w : World) (q) : (w.mp φ).queues q = (w.queues q).mp φ := rfl
@[simp] theorem mp_comps (w : World) (c) : (w.mp φ).comps c = (w.comps c).mp φ := rfl
@[simp] theorem mp_status (w : World) (c) : (w.mp φ).status c = w.status c := rfl

@[simp] theorem cmp_status (x : Comp) : (x.mp φ).status = x.status := rfl
@[simp] theorem cmp_onList (x : Comp) : (x.mp φ).onList = x.onList := rfl
@[simp] theorem cmp_intrLevel (x : Comp) : (x.mp φ).intrLevel = x.intrLevel := rfl
@[simp] theorem cmp_intrStatus (x : Comp) : (x.mp φ).intrStatus = x.intrStatus := rfl
@[simp] theorem cmp_skipStandby (x : Comp) : (x.mp φ).skipStandby = x.skipStandby := rfl
@[simp] theorem cmp_hasProcess (x : Comp) : (x.mp φ).hasProcess = x.hasProcess := rfl
@[simp] theorem cmp_requests (x : Comp) : (x.mp φ).requests = x.requests := rfl
@[simp] theorem cmp_oneof (x : Comp) : (x.mp φ).oneof = x.oneof := rfl
@[simp] theorem cmp_claims (x : Comp) : (x.mp φ).claims = x.claims := rfl
@[simp] theorem cmp_waits (x : Comp) : (x.mp φ).waits = x.waits := rfl
@[simp] theorem cmp_waitAll (x : Comp) : (x.mp φ).waitAll = x.waitAll := rfl
@[simp] theorem cmp_cond (x : Comp) : (x.mp φ).cond = x.cond := rfl
@[simp] theorem cmp_fromStores (x : Comp) : (x.mp φ).fromStores = x.fromStores := rfl
@[simp] theorem cmp_fromFilter (x : Comp) (i) : (x.mp φ).fromFilter i = x.fromFilter i := rfl
@[simp] theorem cmp_toStores (x : Comp) : (x.mp φ).toStores = x.toStores := rfl
@[simp] theorem cmp_toItem (x : Comp) : (x.mp φ).toItem = x.toItem := rfl
@[simp] theorem cmp_toPrio (x : Comp) : (x.mp φ).toPrio = φ.f x.toPrio := rfl
@[simp] theorem cmp_remaining (x : Comp) : (x.mp φ).remaining = x.remaining := rfl
@[simp] theorem cmp_schedTime (x : Comp) : (x.mp φ).schedTime = x.schedTime := rfl

@[simp] theorem mmp_c (m : QMem) : (m.mp φ).c = m.c := rfl
@[simp] theorem mmp_prio (m : QMem) : (m.mp φ).prio = φ.f m.prio := rfl
@[simp] theorem emp_c (e : Ev) : (e.mp φ).c = e.c := rfl

/-- the attributes of a component -/
macro "rk" : tactic => `(tactic| simp only [mp_comps, mp_status, mp_res, mp_main, mp_now, mp_offset, cmp_status, cmp_onList, cmp_intrLevel, cmp_intrStatus, cmp_skipStandby, cmp_hasProcess, cmp_requests,
  cmp_oneof, cmp_claims, cmp_waits, cmp_waitAll, cmp_cond, cmp_fromStores, cmp_toStores, cmp_toPrio, cmp_remaining, cmp_schedTime, mmp_c, mmp_prio, emp_c])

/-! ## attributes -/

theorem mp_modC {f f' : Comp → Comp} (h : ∀ x, f' (x.mp φ) = (f x).mp φ) (w : World) (c : CId) : (w.mp φ).modC c f' = (w.modC c f).mp φ := by
  unfold World.modC World.mp
  simp only [World.mk.injEq, true_and, and_true]
  funext d
  split
  · exact h _
  · rfl

theorem mp_modQ {f f' : Queue → Queue} (h : ∀ x, f' (x.mp φ) = (f x).mp φ) (w : World) (q : QRef) : (w.mp φ).modQ q f' = (w.modQ q f).mp φ := by
  unfold World.modQ World.mp
  simp only [World.mk.injEq, true_and]
  funext d
  split
  · exact h _
  · rfl

/-- assignments in which no priority occurs -/
theorem mp_modC' {f : Comp → Comp} (h : ∀ x, f (x.mp φ) = (f x).mp φ) (w : World) (c : CId) : (w.mp φ).modC c f = (w.modC c f).mp φ := mp_modC h w c
theorem mp_modR (f : Res → Res) (w : World) (r : RId) : (w.mp φ).modR r f = (w.modR r f).mp φ := rfl
theorem mp_setStatus (w : World) (c s) : setStatus c s (w.mp φ) = (setStatus c s w).mp φ := by
  unfold setStatus; exact mp_modC' (by intro; rfl) w c
theorem mp_setState (w : World) (s v) : (w.mp φ).setState s v = (w.setState s v).mp φ := rfl
theorem mp_tallyR (w : World) (r) : (w.mp φ).tallyR r = (w.tallyR r).mp φ := rfl
theorem mp_inQ (w : World) (q) : (w.mp φ).inQ q = w.inQ q := by
  show ((w.queues q).mem.map (QMem.mp φ)).map QMem.c = (w.queues q).mem.map QMem.c
  rw [List.map_map]; rfl

theorem map_forRm {α : Type} {h : α → α} {g : World → World} {f f' : α → World → R} (hf : ∀ a w, f' (h a) (g w) = (f a w).map g) :
    ∀ (l : List α) (w : World), forR (l.map h) f' (g w) = (forR l f w).map g
  | [], _ => rfl
  | a :: t, w => map_andThen (hf a w) (map_forRm hf t)

/-! ## the event list -/

theorem lt_mp (a b : Ev) : Ev.lt (a.mp φ) (b.mp φ) = Ev.lt a b := by
  unfold Ev.lt Ev.mp
  simp only [φ.e_lt, φ.e_eq]

theorem mp_push (c t p u) (ret : Option CId) (w : World) : push c t (φ.e p) u ret (w.mp φ) = (push c t p u ret w).mp φ := by
  cases t with
  | none => rfl
  | some t =>
    show ({ (w.mp φ).modC c (fun x => { x with onList := true }) with
        seq := w.seq + 1, events := Heapq.heappush Ev.lt (w.events.map (Ev.mp φ)) (Ev.mp φ ⟨t, p, if u then -((w.seq + 1 : Nat) : Int) else (w.seq + 1 : Nat), c, ret⟩) } : World) = _
    rw [Heapq.heappush_map lt_mp, mp_modC' (by intro; rfl)]
    rfl

theorem mp_remove (c) (w : World) : remove c (w.mp φ) = (remove c w).map (·.mp φ) := by
  unfold remove
  refine map_iff (by rk) (fun _ => ?_) (fun _ => map_iff (by rk) (fun _ => ?_) fun _ => rfl)
  · have hf : (w.events.map (Ev.mp φ)).findIdx? (fun e => e.c == c) = w.events.findIdx? (fun e => e.c == c) := by
      rw [List.findIdx?_map]
      rfl
    rw [mp_events, hf]
    cases h1 : w.events.findIdx? (fun e => e.c == c) with
    | none => rfl
    | some i =>
      cases h2 : w.events with
      | nil => rfl
      | cons e0 t =>
        simp only [List.map_cons, map_ok, R.ok.injEq]
        rw [mp_modC' (by intro; rfl), ← List.map_cons, ← List.map_set, ← List.map_tail, Heapq.heapify_map lt_mp]
        rfl
  · rw [map_ok, R.ok.injEq]
    rfl

theorem mp_reschedule (c t p u cp) (ret : Option CId) (w : World) :
    reschedule c t (φ.e p) u cp ret (w.mp φ) = (reschedule c t p u cp ret w).map (·.mp φ) := by
  unfold reschedule
  refine map_iff (by rk) (fun _ => map_iff Iff.rfl (fun _ => ?_) fun _ => rfl) fun _ => ?_
  · rw [mp_now, mp_modC' (by intro; rfl), mp_push]; rfl
  · rw [mp_modC' (by intro; rfl), mp_push]; rfl
theorem mp_reschedule0 (c t p u cp) (w : World) : reschedule c t (φ.e p) u cp none (w.mp φ) = (reschedule c t p u cp none w).map (·.mp φ) :=
  mp_reschedule c t p u cp none w

theorem mp_rescheduleZ (c t u cp) (ret : Option CId) (w : World) :
    reschedule c t ((0 : Rat) : ETime) u cp ret (w.mp φ) = (reschedule c t ((0 : Rat) : ETime) u cp ret w).map (·.mp φ) := by
  conv_lhs => rw [← φ.e_zero]
  exact mp_reschedule c t _ u cp ret w

theorem mp_wake (c) (ret : Option CId) (w : World) : wake c ret (w.mp φ) = (wake c ret w).map (·.mp φ) :=
  map_andThen (mp_remove c w) fun w => by
    rw [mp_setStatus, mp_now, mp_rescheduleZ]

theorem mp_wakeC (c) (ret : Option CId) (d) {f f' : Comp → Comp} (h : ∀ x, f' (x.mp φ) = (f x).mp φ) (w : World) :
    wake c ret ((w.mp φ).modC d f') = (wake c ret (w.modC d f)).map (·.mp φ) := by rw [mp_modC h, mp_wake]
theorem mp_wakeC0 (c d) {f f' : Comp → Comp} (h : ∀ x, f' (x.mp φ) = (f x).mp φ) (w : World) :
    wake c none ((w.mp φ).modC d f') = (wake c none (w.modC d f)).map (·.mp φ) := mp_wakeC c none d h w

/-! ## queues -/

theorem mp_onQueue (q) {f f' : Queue → Queue.QR} (h : ∀ x, f' (x.mp φ) = (f x).map (Queue.mp φ)) (w : World) :
    onQueue q f' (w.mp φ) = (onQueue q f w).map (·.mp φ) := by
  unfold onQueue
  rw [mp_queues, h]
  cases f (w.queues q) with
  | notOk e => rfl
  | ok q' =>
    simp only [Queue.QR.map, map_ok, R.ok.injEq]
    exact mp_modQ (by intro; rfl) w q

namespace Queue

@[simp] theorem len_mp (q : Queue) : (q.mp φ).len = q.len := by simp [len, Queue.mp]
@[simp] theorem has_mp (q : Queue) (c) : (q.mp φ).has c = q.has c := by
  simp only [has, Queue.mp, List.any_map]
  rfl
@[simp] theorem find_mp (q : Queue) (c) : (q.mp φ).find c = (q.find c).map (QMem.mp φ) := by
  simp only [find, Queue.mp, List.find?_map]
  rfl
@[simp] theorem mem_mp (q : Queue) : (q.mp φ).mem = q.mem.map (QMem.mp φ) := rfl
@[simp] theorem cap_mp (q : Queue) : (q.mp φ).cap = q.cap := rfl

theorem insert_mp (q : Queue) (t : Rat) (l : List QMem) : (q.mp φ).insert t (l.map (QMem.mp φ)) = (q.insert t l).map (Queue.mp φ) := by
  unfold Queue.insert
  rw [len_mp, cap_mp]
  split
  · rfl
  · simp [Queue.mp]

theorem ofOpt_mp (o : Option Queue) : ofOpt (o.map (Queue.mp φ)) = (ofOpt o).map (Queue.mp φ) := by cases o <;> rfl

theorem tailPrio_mp (l : List QMem) : tailPrio (l.map (QMem.mp φ)) = φ.f (tailPrio l) := by
  unfold tailPrio; rw [List.getLast?_map]
  cases l.getLast? with
  | none => exact φ.zero.symm
  | some _ => rfl
theorem headPrio_mp (l : List QMem) : headPrio (l.map (QMem.mp φ)) = φ.f (headPrio l) := by
  unfold headPrio; rw [List.head?_map]
  cases l.head? with
  | none => exact φ.zero.symm
  | some _ => rfl
theorem insRev_mp (x : QMem) : ∀ l, insRev (x.mp φ) (l.map (QMem.mp φ)) = (insRev x l).map (QMem.mp φ)
  | [] => rfl
  | m :: ms => by
    simp only [List.map_cons, insRev, insRev_mp x ms, mmp_prio, gt_iff_lt, φ.f_lt]
    split <;> rfl
theorem insFwd_mp (x : QMem) : ∀ l, insFwd (x.mp φ) (l.map (QMem.mp φ)) = (insFwd x l).map (QMem.mp φ)
  | [] => rfl
  | m :: ms => by
    simp only [List.map_cons, insFwd, insFwd_mp x ms, mmp_prio, φ.f_le]
    split <;> rfl
theorem insBefore_mp (x : QMem) (p) : ∀ l, insBefore (x.mp φ) p (l.map (QMem.mp φ)) = (insBefore x p l).map (QMem.mp φ)
  | [] => rfl
  | m :: ms => by
    simp only [List.map_cons, insBefore, insBefore_mp x p ms, mmp_c]
    split <;> rfl
theorem insBehind_mp (x : QMem) (p) : ∀ l, insBehind (x.mp φ) p (l.map (QMem.mp φ)) = (insBehind x p l).map (QMem.mp φ)
  | [] => rfl
  | m :: ms => by
    simp only [List.map_cons, insBehind, insBehind_mp x p ms, mmp_c]
    split <;> rfl
theorem sortedIns_mp (x : QMem) (l) : sortedIns (x.mp φ) (l.map (QMem.mp φ)) = (sortedIns x l).map (QMem.mp φ) := by
  cases l with
  | nil => rfl
  | cons h t =>
    simp only [List.map_cons, sortedIns]
    by_cases hx : x.prio < h.prio
    · rw [if_pos hx, if_pos (show (x.mp φ).prio < (h.mp φ).prio from φ.f_lt.2 hx)]; rfl
    · rw [if_neg hx, if_neg (show ¬ (x.mp φ).prio < (h.mp φ).prio from fun a => hx (φ.f_lt.1 a)), ← List.map_cons, ← List.map_reverse, insRev_mp, List.map_reverse]

theorem enter_mp (q : Queue) (t c) : (q.mp φ).enter t c = (q.enter t c).map (Queue.mp φ) := by
  unfold enter
  rw [has_mp]
  split
  · rfl
  · rw [← ofOpt_mp, ← insert_mp, mem_mp, tailPrio_mp]; simp [QMem.mp]

theorem enterSorted_mp (q : Queue) (t c p) : (q.mp φ).enterSorted t c (φ.f p) = (q.enterSorted t c p).map (Queue.mp φ) := by
  unfold enterSorted
  rw [has_mp]
  split
  · rfl
  · rw [← ofOpt_mp, ← insert_mp, mem_mp, ← sortedIns_mp]; rfl

theorem enterAtHead_mp (q : Queue) (t c) : (q.mp φ).enterAtHead t c = (q.enterAtHead t c).map (Queue.mp φ) := by
  unfold enterAtHead
  rw [has_mp]
  split
  · rfl
  · rw [← ofOpt_mp, ← insert_mp, mem_mp, headPrio_mp]; rfl

theorem enterInFrontOf_mp (q : Queue) (t c p) : (q.mp φ).enterInFrontOf t c p = (q.enterInFrontOf t c p).map (Queue.mp φ) := by
  unfold enterInFrontOf
  rw [has_mp, find_mp]
  split
  · rfl
  · cases q.find p with
    | none => rfl
    | some m => simp only [Option.map_some]; rw [← ofOpt_mp, ← insert_mp, mem_mp, ← insBefore_mp]; rfl

theorem enterBehind_mp (q : Queue) (t c p) : (q.mp φ).enterBehind t c p = (q.enterBehind t c p).map (Queue.mp φ) := by
  unfold enterBehind
  rw [has_mp, find_mp]
  split
  · rfl
  · cases q.find p with
    | none => rfl
    | some m => simp only [Option.map_some]; rw [← ofOpt_mp, ← insert_mp, mem_mp, ← insBehind_mp]; rfl

theorem mp_inj : Function.Injective (QMem.mp φ) := by
  rintro ⟨a, b, c⟩ ⟨a', b', c'⟩ h
  simp only [QMem.mp, QMem.mk.injEq, φ.f_eq] at h
  obtain ⟨rfl, rfl, rfl⟩ := h
  rfl

theorem leave_mp (q : Queue) (t c) : (q.mp φ).leave t c = (q.leave t c).map (Queue.mp φ) := by
  unfold leave
  rw [find_mp]
  cases q.find c with
  | none => rfl
  | some m =>
    simp only [Option.map_some, QR.map, QR.ok.injEq]
    rw [len_mp, mem_mp, ← List.map_erase mp_inj]
    simp [Queue.mp, QMem.mp]

theorem setPriority_mp (q : Queue) (c p) : (q.mp φ).setPriority c (φ.f p) = (q.setPriority c p).map (Queue.mp φ) := by
  unfold setPriority
  rw [find_mp]
  cases q.find c with
  | none => rfl
  | some m =>
    simp only [Option.map_some]
    by_cases hx : p = m.prio
    · rw [if_pos hx, if_pos (show φ.f p = (m.mp φ).prio from congrArg φ.f hx)]; rfl
    · rw [if_neg hx, if_neg (show ¬ φ.f p = (m.mp φ).prio from fun a => hx (φ.f_eq.1 a))]
      simp only [QR.map, QR.ok.injEq]
      rw [mem_mp, ← List.map_erase mp_inj]
      show ({ q.mp φ with mem := insFwd (QMem.mp φ { m with prio := p }) _ } : Queue) = _
      rw [insFwd_mp]; rfl

theorem insertAt_mp (q : Queue) (t c i) : (q.mp φ).insertAt t c i = (q.insertAt t c i).map (Queue.mp φ) := by
  unfold insertAt
  rw [len_mp, has_mp]
  split
  · rfl
  · split
    · rfl
    · simp only
      rw [← ofOpt_mp, ← insert_mp, mem_mp, List.getElem?_map, List.map_append, List.map_cons, List.map_take, List.map_drop]
      cases q.mem[i.toNat]? with
      | none => simp only [Option.map_none, Option.getD_none, QMem.mp, φ.zero]
      | some _ => rfl

theorem succ_mp (q : Queue) (c) : (q.mp φ).succ c = (q.succ c).map (QMem.mp φ) := by
  have h : (q.mem.map (QMem.mp φ)).dropWhile (fun m => m.c != c) = (q.mem.dropWhile (fun m => m.c != c)).map (QMem.mp φ) := by
    rw [List.dropWhile_map]
    rfl
  unfold succ
  rw [mem_mp, h]
  generalize q.mem.dropWhile (fun m => m.c != c) = l
  match l with
  | [] => rfl
  | [_] => rfl
  | _ :: _ :: _ => rfl

theorem resetRates_mp (q : Queue) (t a d) : (q.mp φ).resetRates t a d = (q.resetRates t a d).mp φ := rfl

end Queue

theorem mp_ite {p p' : Prop} [Decidable p] [Decidable p'] {a b a' b' : World} (h : p' ↔ p) (h1 : p → a' = a.mp φ) (h2 : ¬ p → b' = b.mp φ) :
    (if p' then a' else b') = (if p then a else b).mp φ := by
  by_cases hp : p
  · rw [if_pos hp, if_pos (h.2 hp)]; exact h1 hp
  · rw [if_neg hp, if_neg (fun x => hp (h.1 x))]; exact h2 hp

theorem mp_okC {f f' : Comp → Comp} (h : ∀ x, f' (x.mp φ) = (f x).mp φ) (w : World) (c : CId) :
    R.ok ((w.mp φ).modC c f') = (R.ok (w.modC c f)).map (·.mp φ) := by rw [mp_modC h]; rfl

theorem mp_leaveQ (c q) (w : World) : leaveQ c q (w.mp φ) = (leaveQ c q w).map (·.mp φ) :=
  mp_onQueue q (fun x => x.leave_mp w.now c) w
theorem mp_enterSortedQ (c q p) (w : World) : enterSortedQ c q (φ.f p) (w.mp φ) = (enterSortedQ c q p w).map (·.mp φ) :=
  mp_onQueue q (fun x => x.enterSorted_mp w.now c p) w
theorem mp_enterSortedQC (c q p d) {f f' : Comp → Comp} (h : ∀ x, f' (x.mp φ) = (f x).mp φ) (w : World) :
    enterSortedQ c q (φ.f p) ((w.mp φ).modC d f') = (enterSortedQ c q p (w.modC d f)).map (·.mp φ) := by rw [mp_modC h, mp_enterSortedQ]

theorem mp_leaveRequesters (c r) (w : World) : leaveRequesters c r (w.mp φ) = (leaveRequesters c r w).map (·.mp φ) :=
  map_andThen (mp_leaveQ _ _ _) fun w => by
    rw [map_ok, R.ok.injEq]
    exact mp_ite (by rw [mp_queues, Queue.len_mp]) (fun _ => rfl) (fun _ => rfl)

theorem mp_leaveWaiters (c x) (w : World) : leaveWaiters c x (w.mp φ) = (leaveWaiters c x w).map (·.mp φ) :=
  map_iff (by rw [mp_queues, Queue.has_mp]) (fun _ => mp_leaveQ _ _ _) (fun _ => rfl)

theorem mp_checkFailReq (c) (w : World) : checkFailReq c (w.mp φ) = (checkFailReq c w).map (·.mp φ) := by
  refine map_iff (by rk) (fun _ => rfl) fun _ => ?_
  rw [mp_comps]
  exact map_andThen (map_forR (mp_leaveRequesters c) _ _) fun _ => mp_okC (by intro; rfl) _ _

theorem mp_checkFailWait (c) (w : World) : checkFailWait c (w.mp φ) = (checkFailWait c w).map (·.mp φ) := by
  refine map_iff (by rk) (fun _ => rfl) fun _ => ?_
  rw [mp_comps]
  exact map_andThen (map_forR (mp_leaveWaiters c) _ _) fun _ => mp_okC (by intro; rfl) _ _

theorem mp_checkFailFrom (c) (w : World) : checkFailFrom c (w.mp φ) = (checkFailFrom c w).map (·.mp φ) := by
  refine map_iff (by rk) (fun _ => rfl) fun _ => ?_
  rw [mp_comps]
  exact map_andThen (map_forR (fun s => mp_leaveQ c (.fromReq s)) _ _) fun _ => mp_okC (by intro; rfl) _ _

theorem mp_checkFailTo (c) (w : World) : checkFailTo c (w.mp φ) = (checkFailTo c w).map (·.mp φ) := by
  refine map_iff (by rk) (fun _ => rfl) fun _ => ?_
  rw [mp_comps]
  exact map_andThen (map_forR (fun s => mp_leaveQ c (.toReq s)) _ _) fun _ => mp_okC (by intro; rfl) _ _

theorem mp_checkFail (c) (w : World) : checkFail c (w.mp φ) = (checkFail c w).map (·.mp φ) :=
  map_andThen (map_andThen (map_andThen (mp_checkFailReq c w) (mp_checkFailWait c)) (mp_checkFailFrom c)) (mp_checkFailTo c)

theorem mp_checkNotData (c) (w : World) : checkNotData c (w.mp φ) = (checkNotData c w).map (·.mp φ) :=
  map_iff (by rk) (fun _ => rfl) fun _ => rfl
theorem mp_checkNotMain (c) (w : World) : checkNotMain c (w.mp φ) = (checkNotMain c w).map (·.mp φ) :=
  map_iff (by rk) (fun _ => rfl) fun _ => rfl

theorem mp_clear (c) (w : World) : (checkNotData c (w.mp φ) ⊳ remove c ⊳ checkFail c) =
    (checkNotData c w ⊳ remove c ⊳ checkFail c).map (·.mp φ) :=
  map_andThen (map_andThen (mp_checkNotData c w) (mp_remove c)) (mp_checkFail c)

theorem mp_preamble (c) (w : World) : preamble c (w.mp φ) = (preamble c w).map (·.mp φ) :=
  map_iff (by rk) (fun _ => rfl) fun _ =>
    map_andThen (map_andThen (map_andThen (mp_checkNotData c w) (mp_checkNotMain c)) (mp_remove c)) (mp_checkFail c)

theorem mp_preambleC (c d) {f f' : Comp → Comp} (h : ∀ x, f' (x.mp φ) = (f x).mp φ) (w : World) :
    preamble c ((w.mp φ).modC d f') = (preamble c (w.modC d f)).map (·.mp φ) := by rw [mp_modC h, mp_preamble]

/-! ## hold, passivate, activate, interrupt, resume, standby -/

theorem mp_failTime (fa fd) (w : World) : failTime (w.mp φ) fa fd = failTime w fa fd := rfl

theorem mp_rescheduleS (c t p u cp s) (w : World) :
    reschedule c t (φ.e p) u cp none (setStatus c s (w.mp φ)) = (reschedule c t p u cp none (setStatus c s w)).map (·.mp φ) := by
  rw [mp_setStatus, mp_reschedule0]

theorem mp_hold (c d t p u cp i) (w : World) : hold c d t (φ.e p) u cp i (w.mp φ) = (hold c d t p u cp i w).map (·.mp φ) := by
  refine map_andThen (map_iff (by rk) (fun _ => rfl) fun _ => mp_clear c w) fun w => ?_
  simp only [mp_now, mp_offset]
  split
  · rfl
  · refine map_iff Iff.rfl (fun _ => rfl) fun _ => ?_
    exact map_iff Iff.rfl (fun _ => mp_okC (by intro; rfl) _ _) (fun _ => mp_rescheduleS _ _ _ _ _ _ _)

theorem mp_passivate (c) (w : World) : passivate c (w.mp φ) = (passivate c w).map (·.mp φ) := by
  refine map_andThen (map_iff (by rk) (fun _ => ?_) fun _ => map_andThen (mp_clear c w) fun w => ?_) fun w => mp_okC (by intro; rfl) _ _
  · exact mp_okC (by intro; rfl) _ _
  · exact mp_okC (by intro; rfl) _ _

theorem mp_activate (c a d p u cp pr kr kw) (w : World) :
    activate c a d (φ.e p) u cp pr kr kw (w.mp φ) = (activate c a d p u cp pr kr kw w).map (·.mp φ) := by
  refine map_iff (Iff.rfl) (fun _ => rfl) fun _ => ?_
  refine map_andThen (map_iff (Iff.rfl) (fun _ => rfl) fun _ => map_andThen (mp_remove c w) fun w =>
    map_iff (Iff.rfl) (fun _ => rfl) fun _ => mp_checkFail c w) fun w => ?_
  exact mp_rescheduleS _ _ _ _ _ _ _

theorem mp_activateZ (c a d u cp pr kr kw) (w : World) :
    activate c a d ((0 : Rat) : ETime) u cp pr kr kw (w.mp φ) = (activate c a d ((0 : Rat) : ETime) u cp pr kr kw w).map (·.mp φ) := by
  conv_lhs => rw [← φ.e_zero]
  exact mp_activate c a d _ u cp pr kr kw w

theorem mp_create (c a d p u cp s) (w : World) : create c a d (φ.e p) u cp s (w.mp φ) = (create c a d p u cp s w).map (·.mp φ) := by
  refine map_iff (by rk) (fun _ => rfl) fun _ => ?_
  rw [mp_modC' (by intro; rfl)]
  exact mp_reschedule0 _ _ _ _ _ _

theorem mp_interrupt (c) (w : World) : interrupt c (w.mp φ) = (interrupt c w).map (·.mp φ) := by
  refine map_iff (by rk) (fun _ => mp_okC (by intro; rfl) _ _) fun _ => map_iff (by rk) (fun _ => map_andThen (mp_remove c w) fun w => ?_) fun _ => rfl
  exact mp_okC (by intro; rfl) _ _

theorem mp_resume (c a p u) (w : World) : resume c a (φ.e p) u (w.mp φ) = (resume c a p u w).map (·.mp φ) := by
  refine map_iff (by rk) (fun _ => ?_) fun _ => rfl
  simp only
  rw [mp_modC' (by intro; rfl)]
  obtain ⟨w1, hw1⟩ : ∃ w1, w1 = w.modC c (fun x => { x with intrLevel := x.intrLevel - 1 }) := ⟨_, rfl⟩
  rw [← hw1]
  refine map_iff (by rk) (fun _ => rfl) fun _ => ?_
  rw [mp_comps, cmp_intrStatus, mp_setStatus]
  refine map_iff (by rk) (fun _ => ?_) fun _ => rfl
  rw [mp_now, mp_comps, cmp_remaining, mp_reschedule0]

theorem mp_standbyCall (c) (w : World) : standby c (w.mp φ) = (standby c w).map (·.mp φ) :=
  map_andThen (mp_preamble c w) fun w => by
    rw [map_ok, R.ok.injEq]
    rw [mp_modC (f := fun x => { x with schedTime := (w.now : ETime), status := .standby }) (by intro; rfl)]
    simp only [World.mp, World.modC]

theorem mp_setRemaining (c v p u) (w : World) : setRemaining c v (φ.e p) u (w.mp φ) = (setRemaining c v p u w).map (·.mp φ) := by
  refine map_iff (by rk) (fun _ => ?_) fun _ => map_iff (by rk) (fun _ => rfl) fun _ => map_andThen (mp_remove c w) fun w => ?_
  · exact mp_okC (by intro; rfl) _ _
  · rw [mp_now, mp_reschedule0]

/-! ## resources -/

theorem mp_headQ (w : World) (q) : headQ (w.mp φ) q = (headQ w q).map (QMem.mp φ) := by
  unfold headQ; rw [mp_queues, Queue.mem_mp, List.head?_map]

theorem map_c_mp (o : Option QMem) : (o.map (QMem.mp φ)).map QMem.c = (o.map QMem.c) := by cases o <;> rfl
theorem map_prio_mp (o : Option QMem) : (o.map (QMem.mp φ)).map QMem.prio = (o.map QMem.prio).map φ.f := by cases o <;> rfl
theorem bne_prio (a b : Option Rat) : (a.map φ.f != b.map φ.f) = (a != b) := by
  have h : a.map φ.f = b.map φ.f ↔ a = b := (Option.map_injective φ.mono.injective).eq_iff
  by_cases hab : a = b
  · rw [hab]; simp
  · rw [bne_iff_ne.2 hab, bne_iff_ne.2 (fun x => hab (h.1 x))]

theorem mp_canHonor (w : World) (c r q) : canHonor (w.mp φ) c r q = canHonor w c r q := by
  have h1 := map_c_mp (φ := φ) (headQ w (.requesters r))
  have h2 := map_prio_mp (φ := φ) (headQ w (.requesters r))
  have h3 := map_prio_mp (φ := φ) ((w.queues (.requesters r)).find c)
  unfold canHonor
  simp only
  rw [mp_headQ, mp_queues, Queue.find_mp, h1, h2, h3, bne_prio]
  rfl

theorem mp_honored (w : World) (c) : honored (w.mp φ) c = honored w c := by
  unfold honored honorAny honorAll
  simp only [mp_canHonor, mp_comps]
  rfl

theorem mp_enterClaimers (c r p) (w : World) : enterClaimers c r (φ.f p) (w.mp φ) = (enterClaimers c r p w).map (·.mp φ) :=
  map_iff (by rw [mp_queues, Queue.has_mp]) (fun _ => rfl) fun _ => mp_enterSortedQ _ _ _ _

theorem mp_claimOne (c l p) (w : World) : claimOne c l p (w.mp φ) = (claimOne c l p w).map (·.mp φ) := by
  refine map_andThen (map_iff Iff.rfl (fun _ => ?_) fun _ => rfl) (mp_leaveRequesters c p.1)
  simp only
  rw [mp_modR, mp_now]
  obtain ⟨w1, hw1⟩ : ∃ w1, w1 = w.modR p.1 (fun x => { x with claimed := x.claimed + p.2, log := x.log.claims w.now x.cap (x.claimed + p.2) }) := ⟨_, rfl⟩
  rw [← hw1, mp_queues, Queue.find_mp]
  cases (w1.queues (.requesters p.1)).find c with
  | none => rfl
  | some m =>
    refine map_iff Iff.rfl (fun _ => rfl) fun _ => ?_
    rw [mp_modC' (by intro; rfl)]
    exact mp_enterClaimers _ _ _ _

theorem mp_honorNow (c) (w : World) : honorNow c (w.mp φ) = (honorNow c w).map (R.map (·.mp φ)) := by
  have hh := mp_honored (φ := φ) w c
  unfold honorNow
  by_cases h : w.status c = .interrupted ∨ honored w c = []
  · rw [if_pos h, if_pos (by rw [hh, mp_status]; exact h)]; rfl
  · rw [if_neg h, if_neg (by rw [hh, mp_status]; exact h)]
    simp only [Option.map_some, Option.some.injEq, hh, mp_comps, cmp_requests]
    exact map_andThen (map_forR (mp_claimOne c _) _ _) fun w => mp_wakeC0 _ _ (by intro; rfl) _

theorem mp_cursor0 (w : World) (r) : cursor0 (w.mp φ) r = (cursor0 w r).map (QMem.mp φ) := mp_headQ _ _

theorem mp_try : ∀ fuel : Nat,
    (∀ c (w : World), tryReqC fuel c (w.mp φ) = (tryReqC fuel c w).map (·.mp φ)) ∧
    (∀ rs (w : World), tryReqList fuel rs (w.mp φ) = (tryReqList fuel rs w).map (·.mp φ)) ∧
    (∀ r (w : World), tryReqR fuel r (w.mp φ) = (tryReqR fuel r w).map (·.mp φ)) ∧
    (∀ r mx first (w : World), loopR fuel r (Option.map (QMem.mp φ) mx) (Option.map (QMem.mp φ) first) (w.mp φ) = (loopR fuel r mx first w).map (·.mp φ)) := by
  intro fuel
  induction fuel with
  | zero => exact ⟨fun c w => by simp [tryReqC], fun rs w => by simp [tryReqList], fun r w => by simp [tryReqR], fun r mx f w => by simp [loopR]⟩
  | succ fuel ih =>
    obtain ⟨i1, i2, i3, i4⟩ := ih
    refine ⟨fun c w => ?_, fun rs w => ?_, fun r w => ?_, fun r mx first w => ?_⟩
    · unfold tryReqC
      rw [mp_honorNow]
      cases honorNow c w with
      | none => rfl
      | some r =>
        simp only [Option.map_some, mp_comps, cmp_requests, mp_res]
        exact map_andThen rfl (i2 _)
    · unfold tryReqList
      cases rs with
      | nil => rfl
      | cons r rs => exact map_andThen (i3 r w) (i2 rs)
    · unfold tryReqR
      refine map_iff Iff.rfl (fun _ => map_iff Iff.rfl (fun _ => rfl) fun _ => ?_) fun _ => ?_
      · rw [mp_modR, mp_cursor0]
        exact map_andThen (i4 _ _ _ _) fun w => rfl
      · rw [mp_cursor0]; exact i4 _ _ _ _
    · unfold loopR
      cases mx with
      | none => rfl
      | some m =>
        refine map_iff (by rw [map_c_mp]; rfl) (fun _ => rfl) fun _ => ?_
        refine map_iff (by rw [map_prio_mp, mmp_prio, show some (φ.f m.prio) = (some m.prio).map φ.f from rfl, bne_prio]; rfl) (fun _ => rfl) fun _ => ?_
        refine map_iff Iff.rfl (fun _ => rfl) fun _ => ?_
        refine map_iff (by rw [mp_queues, mmp_c, Queue.has_mp]) (fun _ => rfl) fun _ => ?_
        refine map_andThen (i1 _ _) fun w' => ?_
        refine map_iff (by rw [mp_queues, mmp_c, Queue.has_mp]; rfl) (fun _ => ?_) fun _ => ?_
        · rw [mp_cursor0]; exact i4 _ _ _ _
        · rw [mp_queues, mmp_c, Queue.succ_mp]; exact i4 _ _ _ _

theorem mp_tryReqC (fuel c) (w : World) : tryReqC fuel c (w.mp φ) = (tryReqC fuel c w).map (·.mp φ) := (mp_try fuel).1 c w
theorem mp_tryReqR (fuel r) (w : World) : tryReqR fuel r (w.mp φ) = (tryReqR fuel r w).map (·.mp φ) := (mp_try fuel).2.2.1 r w

theorem mp_releaseCore (c r q) (w : World) : releaseCore c r q (w.mp φ) = (releaseCore c r q w).map (·.mp φ) := by
  unfold releaseCore
  rw [mp_comps, cmp_claims]
  cases lookup (w.comps c).claims r with
  | none => rfl
  | some cl =>
    simp only
    rw [mp_modR]
    refine map_iff Iff.rfl (fun _ => ?_) fun _ => ?_
    · rw [mp_modC' (by intro; rfl)]
      refine map_andThen (mp_leaveQ _ _ _) fun w => ?_
      have hi : (if ((w.mp φ).queues (.claimers r)).len = 0 then (w.mp φ).modR r (fun x => { x with claimed := 0 }) else w.mp φ) =
          (if (w.queues (.claimers r)).len = 0 then w.modR r (fun x => { x with claimed := 0 }) else w).mp φ :=
        mp_ite (by rw [mp_queues, Queue.len_mp]) (fun _ => rfl) fun _ => rfl
      rw [hi, mp_modC' (by intro; rfl), mp_tallyR]; rfl
    · rw [mp_modC' (by intro; rfl), mp_tallyR]; rfl

theorem mp_release1 (fuel c r q) (w : World) : release1 fuel c r q (w.mp φ) = (release1 fuel c r q w).map (·.mp φ) :=
  map_andThen (mp_releaseCore c r q w) (mp_tryReqR fuel r)

theorem mp_releaseArgs (fuel c l) (w : World) : releaseArgs fuel c l (w.mp φ) = (releaseArgs fuel c l w).map (·.mp φ) :=
  map_forR (fun _ _ => by exact map_iff Iff.rfl (fun _ => rfl) fun _ => mp_release1 _ _ _ _ _) _ _

theorem mp_releaseAll (fuel c) (w : World) : releaseAll fuel c (w.mp φ) = (releaseAll fuel c w).map (·.mp φ) := by
  unfold releaseAll
  rw [mp_comps]
  exact map_forR (fun r => mp_release1 fuel c r none) _ _

theorem mp_bump (av q p) : ∀ l : List QMem, bumpCandidates av q (φ.f p) (l.map (QMem.mp φ)) = (bumpCandidates av q p l)
  | [] => rfl
  | m :: ms => by
    have ih := mp_bump (av + (0 : Rat)) q p ms
    simp only [List.map_cons, bumpCandidates, ih, mmp_prio, mmp_c, ge_iff_le, φ.f_le]

theorem mp_preempt (r q p) (w : World) : preempt r q (φ.f p) (w.mp φ) = (preempt r q p w).map (·.mp φ) := by
  unfold preempt
  simp only
  rw [mp_queues, Queue.mem_mp, ← List.map_reverse, mp_bump]
  exact map_iff Iff.rfl (fun _ => map_forR (fun d w => map_andThen (mp_releaseCore d r none w) fun w => mp_activateZ _ _ _ _ _ _ _ _ _) _ _) fun _ => rfl

/-- an argument of request with another priority -/
def Arg.mp (φ : Ranks) (a : Arg) : Arg := { a with prio := φ.f a.prio }

theorem mp_requestArg (c n put a) (w : World) : requestArg c n put (a.mp φ) (w.mp φ) = (requestArg c n put a w).map (·.mp φ) := by
  refine map_iff Iff.rfl (fun _ => rfl) fun _ => map_iff Iff.rfl (fun _ => rfl) fun _ => ?_
  refine map_andThen (mp_enterSortedQC _ _ _ _ (by intro; rfl) _) fun w => ?_
  exact map_iff Iff.rfl (fun _ => mp_preempt _ _ _ _) fun _ => rfl

theorem mp_lowerMinq (l) (w : World) : lowerMinq l (w.mp φ) = (lowerMinq l w).mp φ := by
  unfold lowerMinq
  induction l generalizing w with
  | nil => rfl
  | cons p t ih => rw [List.foldl_cons, List.foldl_cons, mp_modR, ih]

theorem mp_request (fuel c as o pu fa fd p u cp) (w : World) :
    request fuel c (as.map (Arg.mp φ)) o pu fa fd (φ.e p) u cp (w.mp φ) = (request fuel c as o pu fa fd p u cp w).map (·.mp φ) := by
  refine map_andThen (mp_preambleC _ _ (by intro; rfl) _) fun w => ?_
  rw [mp_failTime]
  cases failTime w fa fd with
  | none => rfl
  | some t =>
    simp only
    rw [mp_modC' (by intro; rfl)]
    obtain ⟨w1, hw1⟩ : ∃ w1, w1 = w.modC c (fun x => { x with failed := false }) := ⟨_, rfl⟩
    rw [← hw1]
    refine map_iff (by rw [List.isEmpty_map]) (fun _ => ?_) fun _ => ?_
    · rw [mp_now]; exact mp_rescheduleZ _ _ _ _ _ _
    · refine map_andThen (map_forRm (by rw [List.length_map]; exact mp_requestArg c _ _) _ _) fun w => ?_
      rw [mp_comps, cmp_requests, mp_lowerMinq]
      obtain ⟨w2, hw2⟩ : ∃ w2, w2 = lowerMinq (w.comps c).requests w := ⟨_, rfl⟩
      rw [← hw2, mp_now]
      rw [mp_modC' (by intro; rfl)]
      refine map_andThen (mp_tryReqC _ _ _) fun w => ?_
      exact map_iff (by rk) (fun _ => rfl) fun _ => mp_rescheduleS _ _ _ _ _ _ _

theorem mp_resReleaseLoop : ∀ (fuel : Nat) (r) (mx : Option QMem) (w : World),
    resReleaseLoop fuel r (mx.map (QMem.mp φ)) (w.mp φ) = (resReleaseLoop fuel r mx w).map (·.mp φ)
  | 0, _, _, _ => rfl
  | fuel + 1, r, none, w => rfl
  | fuel + 1, r, some m, w => by
    refine map_iff (by rw [mp_queues, mmp_c, Queue.has_mp]) (fun _ => rfl) fun _ => ?_
    rw [mp_queues, mmp_c, Queue.succ_mp]
    exact map_andThen (mp_release1 _ _ _ _ _) (mp_resReleaseLoop fuel r _)

theorem mp_resRelease (fuel r q) (w : World) : resRelease fuel r q (w.mp φ) = (resRelease fuel r q w).map (·.mp φ) := by
  refine map_iff Iff.rfl (fun _ => ?_) fun _ => map_iff Iff.rfl (fun _ => rfl) fun _ => ?_
  · simp only
    rw [← mp_tryReqR, ← mp_modR]
    rfl
  · rw [mp_headQ, mp_resReleaseLoop]

theorem mp_resSetCapacity (fuel r cp) (w : World) : resSetCapacity fuel r cp (w.mp φ) = (resSetCapacity fuel r cp w).map (·.mp φ) := by
  unfold resSetCapacity
  rw [← mp_tryReqR, ← mp_modR]
  rfl

/-! ## states -/

theorem mp_waitOver (w : World) (c) : waitOver (w.mp φ) c = waitOver w c := by
  unfold waitOver
  simp only [mp_comps]
  rfl

theorem mp_tryWait (c) (w : World) : tryWait c (w.mp φ) = ((tryWait c w).1.map (·.mp φ), (tryWait c w).2) := by
  unfold tryWait
  by_cases h : w.status c = .interrupted
  · rw [if_pos h, if_pos (show (w.mp φ).status c = .interrupted by rw [mp_status]; exact h)]; rfl
  · rw [if_neg h, if_neg (show ¬ (w.mp φ).status c = .interrupted by rw [mp_status]; exact h), mp_waitOver]
    by_cases h2 : waitOver w c = true
    · rw [if_pos h2, if_pos h2]
      refine Prod.ext ?_ rfl
      simp only
      rw [mp_comps]
      exact map_andThen (map_forR (mp_leaveWaiters c) _ _) fun w => mp_wakeC0 _ _ (by intro; rfl) _
    · rw [if_neg h2, if_neg h2]; rfl

/-- an argument of wait with another priority -/
def WArg.mp (φ : Ranks) (a : WArg) : WArg := { a with prio := a.prio.map φ.f }

theorem mp_waitArg (c a) (w : World) : waitArg c (a.mp φ) (w.mp φ) = (waitArg c a w).map (·.mp φ) := by
  refine map_andThen (map_iff Iff.rfl (fun _ => rfl) fun _ => ?_) fun w => mp_okC (by intro; rfl) _ _
  obtain ⟨s, v, p⟩ := a
  cases p with
  | none => exact mp_onQueue _ (fun x => x.enter_mp w.now c) w
  | some p => exact mp_enterSortedQ _ _ _ _

theorem mp_waitEnd (c t p u cp) (w : World) : waitEnd c t (φ.e p) u cp (w.mp φ) = (waitEnd c t p u cp w).map (·.mp φ) := by
  refine map_iff (by rk) (fun _ => rfl) fun _ => ?_
  simp only
  rw [mp_now, mp_modC' (by intro; rfl), mp_tryWait]
  refine map_andThen rfl fun w => ?_
  exact map_iff (by rk) (fun _ => rfl) fun _ => mp_rescheduleS _ _ _ _ _ _ _

theorem mp_wait (c as a fa fd p u cp) (w : World) :
    wait c (as.map (WArg.mp φ)) a fa fd (φ.e p) u cp (w.mp φ) = (wait c as a fa fd p u cp w).map (·.mp φ) := by
  refine map_andThen (mp_preambleC _ _ (by intro; rfl) _) fun w => ?_
  simp only
  rw [mp_modC' (by intro; rfl), mp_failTime]
  cases failTime (w.modC c (fun x => { x with waitAll := a, failed := false })) fa fd with
  | none => rfl
  | some t => exact map_andThen (map_forRm (mp_waitArg c) _ _) (mp_waitEnd _ _ _ _ _)

theorem mp_waitFor (c f ss fa fd p u cp) (w : World) :
    waitFor c f ss fa fd (φ.f p) u cp (w.mp φ) = (waitFor c f ss fa fd p u cp w).map (·.mp φ) := by
  refine map_andThen (mp_preamble _ _) fun w => ?_
  simp only
  rw [mp_modC' (by intro; rfl), mp_failTime]
  cases failTime (w.modC c (fun x => { x with failed := false })) fa fd with
  | none => rfl
  | some t =>
    simp only
    rw [mp_modC' (by intro; rfl)]
    exact map_andThen (map_forR (fun s w => mp_enterSortedQC _ _ _ _ (by intro; rfl) _) _ _) (mp_waitEnd c t (p : ETime) u cp)

theorem mp_stateTryWait : ∀ (l : List CId) (m) (w : World), stateTryWait l m (w.mp φ) = (stateTryWait l m w).map (·.mp φ)
  | [], _, _ => rfl
  | c :: t, m, w => by
    unfold stateTryWait
    simp only
    rw [mp_tryWait]
    refine map_andThen rfl fun w => ?_
    refine map_iff Iff.rfl (fun _ => map_iff Iff.rfl (fun _ => rfl) fun _ => ?_) fun _ => ?_
    · exact mp_stateTryWait t _ w
    · exact mp_stateTryWait t _ w

theorem mp_stateSet (s v) (w : World) : stateSet s v (w.mp φ) = (stateSet s v w).map (·.mp φ) := by
  refine map_iff Iff.rfl (fun _ => rfl) fun _ => ?_
  simp only
  rw [mp_setState, mp_inQ, mp_stateTryWait]

theorem mp_stateTrigger (s v a m) (w : World) : stateTrigger s v a m (w.mp φ) = (stateTrigger s v a m w).map (·.mp φ) := by
  unfold stateTrigger
  simp only
  rw [mp_setState, mp_inQ]
  exact map_andThen (mp_stateTryWait _ _ _) fun w => by rw [mp_setState, mp_inQ, mp_stateTryWait]; rfl

/-! ## stores -/

theorem mp_store : ∀ fuel : Nat,
    (∀ i s p (w : World), storeEnter fuel i s (p.map φ.f) (w.mp φ) = (storeEnter fuel i s p w).map (·.mp φ)) ∧
    (∀ i s (w : World), storeLeave fuel i s (w.mp φ) = (storeLeave fuel i s w).map (·.mp φ)) := by
  intro fuel
  induction fuel with
  | zero => exact ⟨fun i s p w => by simp [storeEnter], fun i s w => by simp [storeLeave]⟩
  | succ fuel ih =>
    obtain ⟨i1, i2⟩ := ih
    refine ⟨fun i s p w => ?_, fun i s w => ?_⟩
    · unfold storeEnter
      refine map_andThen ?_ fun w => ?_
      · cases p with
        | none => exact mp_onQueue _ (fun x => x.enter_mp w.now i) w
        | some p => exact mp_onQueue _ (fun x => x.enterSorted_mp w.now i p) w
      · have hf : ((w.mp φ).queues (.fromReq s)).mem.find? (fun m => ((w.mp φ).comps m.c).fromFilter i) =
            ((w.queues (.fromReq s)).mem.find? (fun m => (w.comps m.c).fromFilter i)).map (QMem.mp φ) := by
          rw [mp_queues, Queue.mem_mp, List.find?_map]
          rfl
        rw [hf]
        cases (w.queues (.fromReq s)).mem.find? (fun m => (w.comps m.c).fromFilter i) with
        | none => rfl
        | some m =>
          refine map_andThen (i2 _ _ _) fun w => ?_
          simp only [mmp_c, mp_comps, cmp_fromStores]
          refine map_andThen (map_forR (fun s0 => mp_leaveQ _ _) _ _) fun w => ?_
          exact mp_wakeC _ (some i) _ (by intro; rfl) _
    · unfold storeLeave
      refine map_andThen (mp_leaveQ _ _ _) fun w => ?_
      refine map_iff (by rw [mp_queues, Queue.len_mp, Queue.cap_mp]) (fun _ => ?_) fun _ => rfl
      rw [mp_headQ]
      cases headQ w (.toReq s) with
      | none => rfl
      | some m =>
        simp only [Option.map_some, mmp_c, mp_comps, cmp_toItem, cmp_toPrio]
        cases (w.comps m.c).toItem with
        | none => rfl
        | some y =>
          refine map_andThen (i1 y _ (some (w.comps m.c).toPrio) _) fun w => ?_
          simp only [mp_comps, cmp_toStores]
          refine map_andThen (map_forR (fun s0 => mp_leaveQ _ _) _ _) fun w => ?_
          exact map_andThen (mp_wakeC0 _ _ (by intro; rfl) _) fun w => mp_okC (by intro; rfl) _ _

theorem mp_storeEnter (fuel i s p) (w : World) : storeEnter fuel i s (p.map φ.f) (w.mp φ) = (storeEnter fuel i s p w).map (·.mp φ) := (mp_store fuel).1 i s p w
theorem mp_storeLeave (fuel i s) (w : World) : storeLeave fuel i s (w.mp φ) = (storeLeave fuel i s w).map (·.mp φ) := (mp_store fuel).2 i s w

theorem mp_searchStores (f key) (w : World) : ∀ ss (b : Option CId) l, searchStores (w.mp φ) f key ss b l = searchStores w f key ss b l
  | [], _, _ => rfl
  | s :: t, b, l => by
    simp only [searchStores, mp_inQ, mp_searchStores f key w t]

theorem mp_roomIn (w : World) (s) : roomIn (w.mp φ) s = roomIn w s := by
  unfold roomIn
  simp only [mp_queues, Queue.len_mp, Queue.cap_mp]

theorem mp_rescheduleC (c t p u cp d) {f f' : Comp → Comp} (h : ∀ x, f' (x.mp φ) = (f x).mp φ) (w : World) :
    reschedule c t (φ.e p) u cp none ((w.mp φ).modC d f') = (reschedule c t p u cp none (w.modC d f)).map (·.mp φ) := by rw [mp_modC h, mp_reschedule0]

theorem mp_fromStore (fuel c ss f kf rp fa fd p u cp) (w : World) :
    fromStore fuel c ss f kf (φ.f rp) fa fd (φ.e p) u cp (w.mp φ) = (fromStore fuel c ss f kf rp fa fd p u cp w).map (·.mp φ) := by
  refine map_iff Iff.rfl (fun _ => rfl) fun _ => map_andThen (mp_preamble _ _) fun w => ?_
  rw [mp_failTime]
  cases failTime w fa fd with
  | none => rfl
  | some t =>
    simp only
    rw [mp_modC' (by intro; rfl)]
    obtain ⟨w1, hw1⟩ : ∃ w1, w1 = w.modC c (fun x => { x with failed := false }) := ⟨_, rfl⟩
    rw [← hw1]
    have hs := mp_searchStores (φ := φ) f kf w1 ss none (ss.headD 0)
    rw [hs]
    obtain ⟨o, s⟩ := searchStores w1 f kf ss none (ss.headD 0)
    cases o with
    | some i => exact map_andThen (mp_storeLeave _ _ _ _) fun w => mp_wakeC _ (some i) _ (by intro; rfl) _
    | none =>
      simp only
      rw [mp_modC' (by intro; rfl)]
      exact map_andThen (map_forR (fun s => mp_enterSortedQ _ _ _) _ _) fun w => mp_rescheduleC _ _ _ _ _ _ (by intro; rfl) _

theorem mp_toStore (fuel c ss i rp sp fa fd p u cp) (w : World) :
    toStore fuel c ss i (φ.f rp) (φ.f sp) fa fd (φ.e p) u cp (w.mp φ) = (toStore fuel c ss i rp sp fa fd p u cp w).map (·.mp φ) := by
  refine map_iff Iff.rfl (fun _ => rfl) fun _ => map_andThen (mp_preamble _ _) fun w => ?_
  rw [mp_failTime]
  cases failTime w fa fd with
  | none => rfl
  | some t =>
    simp only
    rw [mp_modC' (by intro; rfl)]
    obtain ⟨w1, hw1⟩ : ∃ w1, w1 = w.modC c (fun x => { x with failed := false }) := ⟨_, rfl⟩
    rw [← hw1]
    have hr : (fun s => roomIn (w1.mp φ) s) = fun s => roomIn w1 s := by funext s; exact mp_roomIn w1 s
    rw [hr]
    cases ss.find? (fun s => roomIn w1 s) with
    | some s => exact map_andThen (mp_storeEnter fuel i s (some sp) w1) fun w => mp_wakeC0 _ _ (by intro; rfl) _
    | none => exact map_andThen (map_forR (fun s => mp_enterSortedQ _ _ _) _ _) fun w => mp_rescheduleC _ _ _ _ _ _ (by intro; rfl) _

theorem mp_rescan (fuel s) (w : World) : rescan fuel s (w.mp φ) = (rescan fuel s w).map (·.mp φ) := by
  unfold rescan
  rw [mp_inQ]
  refine map_forR (fun c w => ?_) _ _
  refine map_iff (by rw [mp_queues, Queue.has_mp]) (fun _ => ?_) fun _ => rfl
  rw [mp_inQ]
  refine map_forR (fun i w => ?_) _ _
  refine map_iff (by rw [mp_comps, cmp_fromFilter]) (fun _ => ?_) fun _ => rfl
  rw [mp_comps]
  refine map_andThen (map_forR (fun s0 => mp_leaveQ _ _) _ _) fun w => ?_
  exact map_andThen (mp_storeLeave _ _ _ _) fun w => mp_wakeC _ (some i) _ (by intro; rfl) _

theorem mp_rescanTo (fuel s) : ∀ (l : List CId) (w : World), rescanTo fuel s l (w.mp φ) = (rescanTo fuel s l w).map (·.mp φ)
  | [], _ => rfl
  | c :: t, w => by
    unfold rescanTo
    refine map_iff (by rw [mp_queues, Queue.has_mp]) (fun _ => map_iff (by rw [mp_roomIn]) (fun _ => ?_) fun _ => rfl) fun _ => mp_rescanTo fuel s t w
    rw [mp_comps]
    refine map_andThen (map_forR (fun s0 => mp_leaveQ _ _) _ _) fun w => ?_
    rw [mp_comps, cmp_toItem, cmp_toPrio]
    cases (w.comps c).toItem with
    | none => rfl
    | some y =>
      refine map_andThen (mp_storeEnter _ y _ (some (w.comps c).toPrio) _) fun w => ?_
      exact map_andThen (mp_wakeC0 _ _ (by intro; rfl) _) fun w => by rw [mp_modC' (by intro; rfl), mp_rescanTo fuel s t]

theorem mp_storeSetCapacity (fuel s cp) (w : World) : storeSetCapacity fuel s cp (w.mp φ) = (storeSetCapacity fuel s cp w).map (·.mp φ) := by
  unfold storeSetCapacity
  simp only
  rw [mp_modQ (f := fun q => q.setCapacity cp) (by intro; rfl), mp_inQ]
  exact map_iff Iff.rfl (fun _ => mp_rescanTo _ _ _ _) fun _ => rfl

/-! ## cancel, end of process, step, run -/

theorem mp_cancel (fuel c) (w : World) : cancel fuel c (w.mp φ) = (cancel fuel c w).map (·.mp φ) := by
  refine map_iff (by rk) (fun _ => rfl) fun _ => ?_
  refine map_andThen (map_andThen (map_iff (by rk) (fun _ => rfl) fun _ => mp_clear c w) (mp_releaseAll fuel c)) fun w => mp_okC (by intro; rfl) _ _

theorem mp_terminate (fuel c) (w : World) : terminate fuel c (w.mp φ) = (terminate fuel c w).map (·.mp φ) :=
  map_andThen (mp_releaseAll fuel c w) fun w => mp_okC (by intro; rfl) _ _

theorem mp_newTurns (w : World) : newTurns (w.mp φ) = (newTurns w).mp φ :=
  mp_ite Iff.rfl (fun _ => rfl) fun _ => rfl

theorem mp_takeEvent (w : World) : takeEvent (w.mp φ) = (takeEvent w).map (·.mp φ) := by
  unfold takeEvent
  rw [mp_events, Heapq.heappop_map lt_mp]
  cases hp : Heapq.heappop Ev.lt w.events with
  | none =>
    simp only [Option.map_none]
    exact mp_okC (by intro; rfl) { w with current := w.main, atInf := if w.endOnEmpty then w.atInf else true } w.main
  | some p =>
    simp only [Option.map_some]
    obtain ⟨w1, hw1⟩ : ∃ w1, w1 = ({ w with events := p.2, now := p.1.t, current := p.1.c } : World) := ⟨_, rfl⟩
    have e : ({ w.mp φ with events := p.2.map (Ev.mp φ), now := (p.1.mp φ).t, current := (p.1.mp φ).c } : World) = w1.mp φ := by rw [hw1]; rfl
    rw [e, ← hw1, emp_c, mp_modC' (by intro; rfl)]
    exact map_iff (by rw [mp_main]) (fun _ => rfl) fun _ => mp_checkFail _ _

theorem mp_stepEvent (w : World) : stepEvent (w.mp φ) = (stepEvent w).map (·.mp φ) := by
  show takeEvent (newTurns (w.mp φ)) = (takeEvent (newTurns w)).map (·.mp φ)
  rw [mp_newTurns, mp_takeEvent]

theorem mp_step (w : World) : step (w.mp φ) = (step w).map (·.mp φ) := by
  refine map_iff (by rw [mp_current, mp_comps]; rfl) (fun _ => mp_stepEvent w) fun _ => ?_
  rw [mp_pending]
  cases w.pending with
  | nil => exact mp_stepEvent w
  | cons c rest =>
    obtain ⟨w1, hw1⟩ : ∃ w1, w1 = ({ w with pending := rest } : World) := ⟨_, rfl⟩
    have e : ({ w.mp φ with pending := rest } : World) = w1.mp φ := by rw [hw1]; rfl
    simp only
    rw [e, ← hw1]
    refine map_iff (by rk) (fun _ => ?_) fun _ => mp_stepEvent w1
    rw [mp_modC' (by intro; rfl)]; rfl

theorem mp_runStart (d t p u cp) (w : World) : runStart d t (φ.e p) u cp (w.mp φ) = (runStart d t p u cp w).map (·.mp φ) := by
  unfold runStart
  simp only [mp_now, mp_offset]
  split
  · rfl
  · rename_i t e _
    exact mp_rescheduleS w.main t p u cp .scheduled { w with endOnEmpty := e }

/-- a call with other values for the priorities -/
def Op.rank (φ : Ranks) : Op → Op
  | .hold c d t p u cp i => .hold c d t (φ.e p) u cp i
  | .activate c a d p u cp pr kr kw => .activate c a d (φ.e p) u cp pr kr kw
  | .create c a d p u cp s => .create c a d (φ.e p) u cp s
  | .resume c a p u => .resume c a (φ.e p) u
  | .setRemaining c v p u => .setRemaining c v (φ.e p) u
  | .request c as o pu fa fd p u cp => .request c (as.map (Arg.mp φ)) o pu fa fd (φ.e p) u cp
  | .wait c as a fa fd p u cp => .wait c (as.map (WArg.mp φ)) a fa fd (φ.e p) u cp
  | .waitFor c f ss fa fd p u cp => .waitFor c f ss fa fd (φ.f p) u cp
  | .fromStore c ss f kf rp fa fd p u cp => .fromStore c ss f kf (φ.f rp) fa fd (φ.e p) u cp
  | .toStore c ss i rp sp fa fd p u cp => .toStore c ss i (φ.f rp) (φ.f sp) fa fd (φ.e p) u cp
  | .storeEnter c s p => .storeEnter c s (p.map φ.f)
  | .enterSorted c n p => .enterSorted c n (φ.f p)
  | .setPriority c n p => .setPriority c n (φ.f p)
  | .runStart d t p u cp => .runStart d t (φ.e p) u cp
  | o => o

/-- the same call in the same state with other priorities: the same outcome -/
theorem exec_mp (fuel : Nat) (o : Op) (w : World) : exec fuel (o.rank φ) (w.mp φ) = (exec fuel o w).map (·.mp φ) := by
  cases o <;> simp only [Op.rank, exec]
  case hold => exact mp_hold _ _ _ _ _ _ _ _
  case passivate => exact mp_passivate _ _
  case activate => exact mp_activate _ _ _ _ _ _ _ _ _ _
  case create => exact mp_create _ _ _ _ _ _ _ _
  case interrupt => exact mp_interrupt _ _
  case resume => exact mp_resume _ _ _ _ _
  case standby => exact mp_standbyCall _ _
  case setRemaining => exact mp_setRemaining _ _ _ _ _
  case cancel => exact mp_cancel _ _ _
  case request => exact mp_request _ _ _ _ _ _ _ _ _ _ _
  case release => exact mp_releaseArgs _ _ _ _
  case releaseAll => exact mp_releaseAll _ _ _
  case resRelease => exact mp_resRelease _ _ _ _
  case resSetCapacity => exact mp_resSetCapacity _ _ _ _
  case wait => exact mp_wait _ _ _ _ _ _ _ _ _
  case waitFor => exact mp_waitFor _ _ _ _ _ _ _ _ _
  case stateSet => exact mp_stateSet _ _ _
  case stateTrigger => exact mp_stateTrigger _ _ _ _ _
  case fromStore => exact mp_fromStore _ _ _ _ _ _ _ _ _ _ _ _
  case toStore => exact mp_toStore _ _ _ _ _ _ _ _ _ _ _ _
  case rescan => exact mp_rescan _ _ _
  case storeSetCapacity => exact mp_storeSetCapacity _ _ _ _
  case storeEnter => exact mp_storeEnter _ _ _ _ _
  case storeLeave => exact mp_storeLeave _ _ _ _
  case runStart => exact mp_runStart _ _ _ _ _ _
  case resetNow t => rfl
  case step => exact mp_step _
  case terminate => exact mp_terminate _ _ _
  case queueSetCapacity n c =>
    rw [map_ok, R.ok.injEq]
    exact mp_modQ (by intro; rfl) w _
  case queueReset q a d =>
    rw [map_ok, R.ok.injEq]
    exact mp_modQ (fun x => x.resetRates_mp w.now a d) w q
  case enter c n => exact mp_onQueue _ (fun x => x.enter_mp w.now c) w
  case enterSorted c n p => exact mp_onQueue _ (fun x => x.enterSorted_mp w.now c p) w
  case enterAtHead c n => exact mp_onQueue _ (fun x => x.enterAtHead_mp w.now c) w
  case enterInFrontOf c n p => exact mp_onQueue _ (fun x => x.enterInFrontOf_mp w.now c p) w
  case enterBehind c n p => exact mp_onQueue _ (fun x => x.enterBehind_mp w.now c p) w
  case leave c n => exact mp_onQueue _ (fun x => x.leave_mp w.now c) w
  case setPriority c n p => exact mp_onQueue _ (fun x => x.setPriority_mp c p) w
  case insertAt c n i => exact mp_onQueue _ (fun x => x.insertAt_mp w.now c i) w

theorem execAll_mp (fuel : Nat) : ∀ (os : List Op) (w : World), execAll fuel (os.map (Op.rank φ)) (w.mp φ) = (execAll fuel os w).mp φ
  | [], _ => rfl
  | o :: os, w => by
    simp only [List.map_cons, execAll, exec_mp, map_world, execAll_mp fuel os]

end Verif
