import Verif.Scale

/-!
# Who is who

Two states of the simulation that only differ in who is who (the component `c` in one is the component `π c` in the other one, for a one to one mapping `π`) behave in the
same way, provided that the components in calls are replaced as well. This is for all calls of the model (also if they raise), in all states.
-/

namespace Verif
open World

def Ev.rn (π : Equiv.Perm CId) (e : Ev) : Ev := { e with c := π e.c, ret := e.ret.map π }
def QMem.rn (π : Equiv.Perm CId) (m : QMem) : QMem := { m with c := π m.c }
def Queue.rn (π : Equiv.Perm CId) (q : Queue) : Queue := { q with mem := q.mem.map (QMem.rn π) }
def Comp.rn (π : Equiv.Perm CId) (x : Comp) : Comp := { x with
  fromFilter := fun i => x.fromFilter (π.symm i), fromItem := x.fromItem.map π, toItem := x.toItem.map π }

/-- the same state in which `π c` takes the place of `c` -/
def World.rn (π : Equiv.Perm CId) (w : World) : World := { w with
  events := w.events.map (Ev.rn π), standby := w.standby.map π, pending := w.pending.map π, current := π w.current, main := π w.main,
  comps := fun c => (w.comps (π.symm c)).rn π, queues := fun q => (w.queues q).rn π }

variable {π : Equiv.Perm CId}

@[simp] theorem rn_now (w : World) : (w.rn π).now = w.now := rfl
@[simp] theorem rn_offset (w : World) : (w.rn π).offset = w.offset := rfl
@[simp] theorem rn_seq (w : World) : (w.rn π).seq = w.seq := rfl
@[simp] theorem rn_events (w : World) : (w.rn π).events = w.events.map (Ev.rn π) := rfl
@[simp] theorem rn_standby (w : World) : (w.rn π).standby = w.standby.map π := rfl
@[simp] theorem rn_pending (w : World) : (w.rn π).pending = w.pending.map π := rfl
@[simp] theorem rn_current (w : World) : (w.rn π).current = π w.current := rfl
@[simp] theorem rn_main (w : World) : (w.rn π).main = π w.main := rfl
@[simp] theorem rn_res (w : World) : (w.rn π).res = w.res := rfl
@[simp] theorem rn_states (w : World) : (w.rn π).states = w.states := rfl
@[simp] theorem rn_queues (w : World) (q) : (w.rn π).queues q = (w.queues q).rn π := rfl
@[simp] theorem rn_comps (w : World) (c) : (w.rn π).comps (π c) = (w.comps c).rn π := by
  show (w.comps (π.symm (π c))).rn π = _
  rw [Equiv.symm_apply_apply]
@[simp] theorem rn_status (w : World) (c) : (w.rn π).status (π c) = w.status c := by
  show ((w.rn π).comps (π c)).status = _
  rw [rn_comps]; rfl

@[simp] theorem crn_status (x : Comp) : (x.rn π).status = x.status := rfl
@[simp] theorem crn_onList (x : Comp) : (x.rn π).onList = x.onList := rfl
@[simp] theorem crn_intrLevel (x : Comp) : (x.rn π).intrLevel = x.intrLevel := rfl
@[simp] theorem crn_intrStatus (x : Comp) : (x.rn π).intrStatus = x.intrStatus := rfl
@[simp] theorem crn_skipStandby (x : Comp) : (x.rn π).skipStandby = x.skipStandby := rfl
@[simp] theorem crn_hasProcess (x : Comp) : (x.rn π).hasProcess = x.hasProcess := rfl
@[simp] theorem crn_requests (x : Comp) : (x.rn π).requests = x.requests := rfl
@[simp] theorem crn_oneof (x : Comp) : (x.rn π).oneof = x.oneof := rfl
@[simp] theorem crn_claims (x : Comp) : (x.rn π).claims = x.claims := rfl
@[simp] theorem crn_waits (x : Comp) : (x.rn π).waits = x.waits := rfl
@[simp] theorem crn_waitAll (x : Comp) : (x.rn π).waitAll = x.waitAll := rfl
@[simp] theorem crn_cond (x : Comp) : (x.rn π).cond = x.cond := rfl
@[simp] theorem crn_fromStores (x : Comp) : (x.rn π).fromStores = x.fromStores := rfl
@[simp] theorem crn_fromFilter (x : Comp) (i) : (x.rn π).fromFilter (π i) = x.fromFilter i := by
  show x.fromFilter (π.symm (π i)) = _
  rw [Equiv.symm_apply_apply]
@[simp] theorem crn_toStores (x : Comp) : (x.rn π).toStores = x.toStores := rfl
@[simp] theorem crn_toItem (x : Comp) : (x.rn π).toItem = x.toItem.map π := rfl
@[simp] theorem crn_toPrio (x : Comp) : (x.rn π).toPrio = x.toPrio := rfl
@[simp] theorem crn_remaining (x : Comp) : (x.rn π).remaining = x.remaining := rfl
@[simp] theorem crn_schedTime (x : Comp) : (x.rn π).schedTime = x.schedTime := rfl

@[simp] theorem mrn_c (m : QMem) : (m.rn π).c = π m.c := rfl
@[simp] theorem mrn_prio (m : QMem) : (m.rn π).prio = m.prio := rfl
@[simp] theorem ern_c (e : Ev) : (e.rn π).c = π e.c := rfl

/-- the attributes of a component under its new name -/
macro "rc" : tactic => `(tactic| simp only [rn_comps, rn_status, rn_res, rn_main, rn_now, rn_offset, crn_status, crn_onList, crn_intrLevel, crn_intrStatus, crn_skipStandby, crn_hasProcess, crn_requests,
  crn_oneof, crn_claims, crn_waits, crn_waitAll, crn_cond, crn_fromStores, crn_toStores, crn_toPrio, crn_remaining, crn_schedTime, mrn_c, mrn_prio, ern_c, EmbeddingLike.apply_eq_iff_eq])

theorem beq_perm (a b : CId) : (π a == π b) = (a == b) := by
  by_cases h : a = b
  · rw [h]; simp
  · rw [beq_eq_false_iff_ne.2 h, beq_eq_false_iff_ne.2 (fun x => h (π.injective x))]

/-! ## attributes -/

theorem rn_modC {f f' : Comp → Comp} (h : ∀ x, f' (x.rn π) = (f x).rn π) (w : World) (c : CId) : (w.rn π).modC (π c) f' = (w.modC c f).rn π := by
  unfold World.modC World.rn
  simp only [World.mk.injEq, true_and, and_true]
  funext d
  by_cases hd : d = π c
  · rw [if_pos hd, if_pos ((Equiv.symm_apply_eq π).2 hd)]; exact h _
  · rw [if_neg hd, if_neg (fun x => hd ((Equiv.symm_apply_eq π).1 x))]

theorem rn_modQ {f f' : Queue → Queue} (h : ∀ x, f' (x.rn π) = (f x).rn π) (w : World) (q : QRef) : (w.rn π).modQ q f' = (w.modQ q f).rn π := by
  unfold World.modQ World.rn
  simp only [World.mk.injEq, true_and]
  funext d
  split
  · exact h _
  · rfl

/-- assignments in which no component occurs -/
theorem rn_modC' {f : Comp → Comp} (h : ∀ x, f (x.rn π) = (f x).rn π) (w : World) (c : CId) : (w.rn π).modC (π c) f = (w.modC c f).rn π := rn_modC h w c
theorem rn_modR (f : Res → Res) (w : World) (r : RId) : (w.rn π).modR r f = (w.modR r f).rn π := rfl
theorem rn_setStatus (w : World) (c s) : setStatus (π c) s (w.rn π) = (setStatus c s w).rn π := by
  unfold setStatus; exact rn_modC' (by intro; rfl) w c
theorem rn_setState (w : World) (s v) : (w.rn π).setState s v = (w.setState s v).rn π := rfl
theorem rn_tallyR (w : World) (r) : (w.rn π).tallyR r = (w.tallyR r).rn π := rfl
theorem rn_inQ (w : World) (q) : (w.rn π).inQ q = (w.inQ q).map π := by
  show ((w.queues q).mem.map (QMem.rn π)).map QMem.c = ((w.queues q).mem.map QMem.c).map π
  rw [List.map_map, List.map_map]; rfl

theorem map_forRn {g : World → World} {f f' : CId → World → R} (hf : ∀ a w, f' (π a) (g w) = (f a w).map g) :
    ∀ (l : List CId) (w : World), forR (l.map π) f' (g w) = (forR l f w).map g
  | [], _ => rfl
  | a :: t, w => map_andThen (hf a w) (map_forRn hf t)

/-! ## the event list -/

theorem lt_rn (a b : Ev) : Ev.lt (a.rn π) (b.rn π) = Ev.lt a b := rfl

theorem rn_push (c t p u) (ret : Option CId) (w : World) : push (π c) t p u (ret.map π) (w.rn π) = (push c t p u ret w).rn π := by
  cases t with
  | none => rfl
  | some t =>
    show ({ (w.rn π).modC (π c) (fun x => { x with onList := true }) with
        seq := w.seq + 1, events := Heapq.heappush Ev.lt (w.events.map (Ev.rn π)) (Ev.rn π ⟨t, p, if u then -((w.seq + 1 : Nat) : Int) else (w.seq + 1 : Nat), c, ret⟩) } : World) = _
    rw [Heapq.heappush_map lt_rn, rn_modC' (by intro; rfl)]
    rfl

theorem rn_remove (c) (w : World) : remove (π c) (w.rn π) = (remove c w).map (·.rn π) := by
  unfold remove
  refine map_iff (by rc) (fun _ => ?_) (fun _ => map_iff (by rc) (fun _ => ?_) fun _ => rfl)
  · have hf : (w.events.map (Ev.rn π)).findIdx? (fun e => e.c == π c) = w.events.findIdx? (fun e => e.c == c) := by
      rw [List.findIdx?_map]
      congr 1; funext e
      exact beq_perm _ _
    rw [rn_events, hf]
    cases h1 : w.events.findIdx? (fun e => e.c == c) with
    | none => rfl
    | some i =>
      cases h2 : w.events with
      | nil => rfl
      | cons e0 t =>
        simp only [List.map_cons, map_ok, R.ok.injEq]
        rw [rn_modC' (by intro; rfl), ← List.map_cons, ← List.map_set, ← List.map_tail, Heapq.heapify_map lt_rn]
        rfl
  · rw [map_ok, R.ok.injEq]
    rw [rn_standby, rn_pending, ← List.map_erase π.injective, ← List.map_erase π.injective]; rfl

theorem rn_reschedule (c t p u cp) (ret : Option CId) (w : World) :
    reschedule (π c) t p u cp (ret.map π) (w.rn π) = (reschedule c t p u cp ret w).map (·.rn π) := by
  unfold reschedule
  refine map_iff (by rc) (fun _ => map_iff Iff.rfl (fun _ => ?_) fun _ => rfl) fun _ => ?_
  · rw [rn_now, rn_modC' (by intro; rfl), rn_push]; rfl
  · rw [rn_modC' (by intro; rfl), rn_push]; rfl
theorem rn_reschedule0 (c t p u cp) (w : World) : reschedule (π c) t p u cp none (w.rn π) = (reschedule c t p u cp none w).map (·.rn π) :=
  rn_reschedule c t p u cp none w

theorem rn_wake (c) (ret : Option CId) (w : World) : wake (π c) (ret.map π) (w.rn π) = (wake c ret w).map (·.rn π) :=
  map_andThen (rn_remove c w) fun w => by
    rw [rn_setStatus, rn_now, rn_reschedule]

theorem rn_wakeC (c) (ret : Option CId) (d) {f f' : Comp → Comp} (h : ∀ x, f' (x.rn π) = (f x).rn π) (w : World) :
    wake (π c) (ret.map π) ((w.rn π).modC (π d) f') = (wake c ret (w.modC d f)).map (·.rn π) := by rw [rn_modC h, rn_wake]
theorem rn_wakeC0 (c d) {f f' : Comp → Comp} (h : ∀ x, f' (x.rn π) = (f x).rn π) (w : World) :
    wake (π c) none ((w.rn π).modC (π d) f') = (wake c none (w.modC d f)).map (·.rn π) := rn_wakeC c none d h w

/-! ## queues -/

theorem rn_onQueue (q) {f f' : Queue → Queue.QR} (h : ∀ x, f' (x.rn π) = (f x).map (Queue.rn π)) (w : World) :
    onQueue q f' (w.rn π) = (onQueue q f w).map (·.rn π) := by
  unfold onQueue
  rw [rn_queues, h]
  cases f (w.queues q) with
  | notOk e => rfl
  | ok q' =>
    simp only [Queue.QR.map, map_ok, R.ok.injEq]
    exact rn_modQ (by intro; rfl) w q

namespace Queue

@[simp] theorem len_rn (q : Queue) : (q.rn π).len = q.len := by simp [len, Queue.rn]
@[simp] theorem has_rn (q : Queue) (c) : (q.rn π).has (π c) = q.has c := by
  simp only [has, Queue.rn, List.any_map]
  congr 1; funext m; exact beq_perm _ _
@[simp] theorem find_rn (q : Queue) (c) : (q.rn π).find (π c) = (q.find c).map (QMem.rn π) := by
  simp only [find, Queue.rn, List.find?_map]
  congr 2; funext m; exact beq_perm _ _
@[simp] theorem mem_rn (q : Queue) : (q.rn π).mem = q.mem.map (QMem.rn π) := rfl
@[simp] theorem cap_rn (q : Queue) : (q.rn π).cap = q.cap := rfl

theorem insert_rn (q : Queue) (t : Rat) (l : List QMem) : (q.rn π).insert t (l.map (QMem.rn π)) = (q.insert t l).map (Queue.rn π) := by
  unfold Queue.insert
  rw [len_rn, cap_rn]
  split
  · rfl
  · simp [Queue.rn]

theorem ofOpt_rn (o : Option Queue) : ofOpt (o.map (Queue.rn π)) = (ofOpt o).map (Queue.rn π) := by cases o <;> rfl

theorem tailPrio_rn (l : List QMem) : tailPrio (l.map (QMem.rn π)) = tailPrio l := by
  unfold tailPrio; rw [List.getLast?_map]; cases l.getLast? <;> rfl
theorem headPrio_rn (l : List QMem) : headPrio (l.map (QMem.rn π)) = headPrio l := by
  unfold headPrio; rw [List.head?_map]; cases l.head? <;> rfl
theorem insRev_rn (x : QMem) : ∀ l, insRev (x.rn π) (l.map (QMem.rn π)) = (insRev x l).map (QMem.rn π)
  | [] => rfl
  | m :: ms => by
    simp only [List.map_cons, insRev, insRev_rn x ms, mrn_prio]
    split <;> rfl
theorem insFwd_rn (x : QMem) : ∀ l, insFwd (x.rn π) (l.map (QMem.rn π)) = (insFwd x l).map (QMem.rn π)
  | [] => rfl
  | m :: ms => by
    simp only [List.map_cons, insFwd, insFwd_rn x ms, mrn_prio]
    split <;> rfl
theorem insBefore_rn (x : QMem) (p) : ∀ l, insBefore (x.rn π) (π p) (l.map (QMem.rn π)) = (insBefore x p l).map (QMem.rn π)
  | [] => rfl
  | m :: ms => by
    simp only [List.map_cons, insBefore, insBefore_rn x p ms, mrn_c, EmbeddingLike.apply_eq_iff_eq]
    split <;> rfl
theorem insBehind_rn (x : QMem) (p) : ∀ l, insBehind (x.rn π) (π p) (l.map (QMem.rn π)) = (insBehind x p l).map (QMem.rn π)
  | [] => rfl
  | m :: ms => by
    simp only [List.map_cons, insBehind, insBehind_rn x p ms, mrn_c, EmbeddingLike.apply_eq_iff_eq]
    split <;> rfl
theorem sortedIns_rn (x : QMem) (l) : sortedIns (x.rn π) (l.map (QMem.rn π)) = (sortedIns x l).map (QMem.rn π) := by
  cases l with
  | nil => rfl
  | cons h t =>
    simp only [List.map_cons, sortedIns]
    by_cases hx : x.prio < h.prio
    · rw [if_pos hx, if_pos (show (x.rn π).prio < (h.rn π).prio from hx)]; rfl
    · rw [if_neg hx, if_neg (show ¬ (x.rn π).prio < (h.rn π).prio from hx), ← List.map_cons, ← List.map_reverse, insRev_rn, List.map_reverse]

theorem enter_rn (q : Queue) (t c) : (q.rn π).enter t (π c) = (q.enter t c).map (Queue.rn π) := by
  unfold enter
  rw [has_rn]
  split
  · rfl
  · rw [← ofOpt_rn, ← insert_rn, mem_rn, tailPrio_rn]; simp [QMem.rn]

theorem enterSorted_rn (q : Queue) (t c p) : (q.rn π).enterSorted t (π c) p = (q.enterSorted t c p).map (Queue.rn π) := by
  unfold enterSorted
  rw [has_rn]
  split
  · rfl
  · rw [← ofOpt_rn, ← insert_rn, mem_rn, ← sortedIns_rn]; rfl

theorem enterAtHead_rn (q : Queue) (t c) : (q.rn π).enterAtHead t (π c) = (q.enterAtHead t c).map (Queue.rn π) := by
  unfold enterAtHead
  rw [has_rn]
  split
  · rfl
  · rw [← ofOpt_rn, ← insert_rn, mem_rn, headPrio_rn]; rfl

theorem enterInFrontOf_rn (q : Queue) (t c p) : (q.rn π).enterInFrontOf t (π c) (π p) = (q.enterInFrontOf t c p).map (Queue.rn π) := by
  unfold enterInFrontOf
  rw [has_rn, find_rn]
  split
  · rfl
  · cases q.find p with
    | none => rfl
    | some m => simp only [Option.map_some]; rw [← ofOpt_rn, ← insert_rn, mem_rn, ← insBefore_rn]; rfl

theorem enterBehind_rn (q : Queue) (t c p) : (q.rn π).enterBehind t (π c) (π p) = (q.enterBehind t c p).map (Queue.rn π) := by
  unfold enterBehind
  rw [has_rn, find_rn]
  split
  · rfl
  · cases q.find p with
    | none => rfl
    | some m => simp only [Option.map_some]; rw [← ofOpt_rn, ← insert_rn, mem_rn, ← insBehind_rn]; rfl

theorem rn_inj : Function.Injective (QMem.rn π) := by
  rintro ⟨a, b, c⟩ ⟨a', b', c'⟩ h
  simp only [QMem.rn, QMem.mk.injEq, EmbeddingLike.apply_eq_iff_eq] at h
  obtain ⟨rfl, rfl, rfl⟩ := h
  rfl

theorem leave_rn (q : Queue) (t c) : (q.rn π).leave t (π c) = (q.leave t c).map (Queue.rn π) := by
  unfold leave
  rw [find_rn]
  cases q.find c with
  | none => rfl
  | some m =>
    simp only [Option.map_some, QR.map, QR.ok.injEq]
    rw [len_rn, mem_rn, ← List.map_erase rn_inj]
    simp [Queue.rn, QMem.rn]

theorem setPriority_rn (q : Queue) (c p) : (q.rn π).setPriority (π c) p = (q.setPriority c p).map (Queue.rn π) := by
  unfold setPriority
  rw [find_rn]
  cases q.find c with
  | none => rfl
  | some m =>
    simp only [Option.map_some]
    by_cases hx : p = m.prio
    · rw [if_pos hx, if_pos (show p = (m.rn π).prio from hx)]; rfl
    · rw [if_neg hx, if_neg (show ¬ p = (m.rn π).prio from hx)]
      simp only [QR.map, QR.ok.injEq]
      rw [mem_rn, ← List.map_erase rn_inj]
      show ({ q.rn π with mem := insFwd (QMem.rn π { m with prio := p }) _ } : Queue) = _
      rw [insFwd_rn]; rfl

theorem insertAt_rn (q : Queue) (t c i) : (q.rn π).insertAt t (π c) i = (q.insertAt t c i).map (Queue.rn π) := by
  unfold insertAt
  rw [len_rn, has_rn]
  split
  · rfl
  · split
    · rfl
    · simp only
      rw [← ofOpt_rn, ← insert_rn, mem_rn, List.getElem?_map, List.map_append, List.map_cons, List.map_take, List.map_drop]
      cases q.mem[i.toNat]? <;> rfl

theorem succ_rn (q : Queue) (c) : (q.rn π).succ (π c) = (q.succ c).map (QMem.rn π) := by
  have h : (q.mem.map (QMem.rn π)).dropWhile (fun m => m.c != π c) = (q.mem.dropWhile (fun m => m.c != c)).map (QMem.rn π) := by
    rw [List.dropWhile_map]
    congr 2; funext m
    simp only [Function.comp, mrn_c, bne, beq_perm]
  unfold succ
  rw [mem_rn, h]
  generalize q.mem.dropWhile (fun m => m.c != c) = l
  match l with
  | [] => rfl
  | [_] => rfl
  | _ :: _ :: _ => rfl

theorem resetRates_rn (q : Queue) (t a d) : (q.rn π).resetRates t a d = (q.resetRates t a d).rn π := rfl

end Queue

theorem rn_ite {p p' : Prop} [Decidable p] [Decidable p'] {a b a' b' : World} (h : p' ↔ p) (h1 : p → a' = a.rn π) (h2 : ¬ p → b' = b.rn π) :
    (if p' then a' else b') = (if p then a else b).rn π := by
  by_cases hp : p
  · rw [if_pos hp, if_pos (h.2 hp)]; exact h1 hp
  · rw [if_neg hp, if_neg (fun x => hp (h.1 x))]; exact h2 hp

theorem rn_okC {f f' : Comp → Comp} (h : ∀ x, f' (x.rn π) = (f x).rn π) (w : World) (c : CId) :
    R.ok ((w.rn π).modC (π c) f') = (R.ok (w.modC c f)).map (·.rn π) := by rw [rn_modC h]; rfl

theorem rn_leaveQ (c q) (w : World) : leaveQ (π c) q (w.rn π) = (leaveQ c q w).map (·.rn π) :=
  rn_onQueue q (fun x => x.leave_rn w.now c) w
theorem rn_enterSortedQ (c q p) (w : World) : enterSortedQ (π c) q p (w.rn π) = (enterSortedQ c q p w).map (·.rn π) :=
  rn_onQueue q (fun x => x.enterSorted_rn w.now c p) w
theorem rn_enterSortedQC (c q p d) {f f' : Comp → Comp} (h : ∀ x, f' (x.rn π) = (f x).rn π) (w : World) :
    enterSortedQ (π c) q p ((w.rn π).modC (π d) f') = (enterSortedQ c q p (w.modC d f)).map (·.rn π) := by rw [rn_modC h, rn_enterSortedQ]

theorem rn_leaveRequesters (c r) (w : World) : leaveRequesters (π c) r (w.rn π) = (leaveRequesters c r w).map (·.rn π) :=
  map_andThen (rn_leaveQ _ _ _) fun w => by
    rw [map_ok, R.ok.injEq]
    exact rn_ite (by rw [rn_queues, Queue.len_rn]) (fun _ => rfl) (fun _ => rfl)

theorem rn_leaveWaiters (c x) (w : World) : leaveWaiters (π c) x (w.rn π) = (leaveWaiters c x w).map (·.rn π) :=
  map_iff (by rw [rn_queues, Queue.has_rn]) (fun _ => rn_leaveQ _ _ _) (fun _ => rfl)

theorem rn_checkFailReq (c) (w : World) : checkFailReq (π c) (w.rn π) = (checkFailReq c w).map (·.rn π) := by
  refine map_iff (by rc) (fun _ => rfl) fun _ => ?_
  rw [rn_comps]
  exact map_andThen (map_forR (rn_leaveRequesters c) _ _) fun _ => rn_okC (by intro; rfl) _ _

theorem rn_checkFailWait (c) (w : World) : checkFailWait (π c) (w.rn π) = (checkFailWait c w).map (·.rn π) := by
  refine map_iff (by rc) (fun _ => rfl) fun _ => ?_
  rw [rn_comps]
  exact map_andThen (map_forR (rn_leaveWaiters c) _ _) fun _ => rn_okC (by intro; rfl) _ _

theorem rn_checkFailFrom (c) (w : World) : checkFailFrom (π c) (w.rn π) = (checkFailFrom c w).map (·.rn π) := by
  refine map_iff (by rc) (fun _ => rfl) fun _ => ?_
  rw [rn_comps]
  exact map_andThen (map_forR (fun s => rn_leaveQ c (.fromReq s)) _ _) fun _ => rn_okC (by intro; rfl) _ _

theorem rn_checkFailTo (c) (w : World) : checkFailTo (π c) (w.rn π) = (checkFailTo c w).map (·.rn π) := by
  refine map_iff (by rc) (fun _ => rfl) fun _ => ?_
  rw [rn_comps]
  exact map_andThen (map_forR (fun s => rn_leaveQ c (.toReq s)) _ _) fun _ => rn_okC (by intro; rfl) _ _

theorem rn_checkFail (c) (w : World) : checkFail (π c) (w.rn π) = (checkFail c w).map (·.rn π) :=
  map_andThen (map_andThen (map_andThen (rn_checkFailReq c w) (rn_checkFailWait c)) (rn_checkFailFrom c)) (rn_checkFailTo c)

theorem rn_checkNotData (c) (w : World) : checkNotData (π c) (w.rn π) = (checkNotData c w).map (·.rn π) :=
  map_iff (by rc) (fun _ => rfl) fun _ => rfl
theorem rn_checkNotMain (c) (w : World) : checkNotMain (π c) (w.rn π) = (checkNotMain c w).map (·.rn π) :=
  map_iff (by rc) (fun _ => rfl) fun _ => rfl

theorem rn_clear (c) (w : World) : (checkNotData (π c) (w.rn π) ⊳ remove (π c) ⊳ checkFail (π c)) =
    (checkNotData c w ⊳ remove c ⊳ checkFail c).map (·.rn π) :=
  map_andThen (map_andThen (rn_checkNotData c w) (rn_remove c)) (rn_checkFail c)

theorem rn_preamble (c) (w : World) : preamble (π c) (w.rn π) = (preamble c w).map (·.rn π) :=
  map_iff (by rc) (fun _ => rfl) fun _ =>
    map_andThen (map_andThen (map_andThen (rn_checkNotData c w) (rn_checkNotMain c)) (rn_remove c)) (rn_checkFail c)

theorem rn_preambleC (c d) {f f' : Comp → Comp} (h : ∀ x, f' (x.rn π) = (f x).rn π) (w : World) :
    preamble (π c) ((w.rn π).modC (π d) f') = (preamble c (w.modC d f)).map (·.rn π) := by rw [rn_modC h, rn_preamble]

/-! ## hold, passivate, activate, interrupt, resume, standby -/

theorem rn_failTime (fa fd) (w : World) : failTime (w.rn π) fa fd = failTime w fa fd := rfl

theorem rn_rescheduleS (c t p u cp s) (w : World) :
    reschedule (π c) t p u cp none (setStatus (π c) s (w.rn π)) = (reschedule c t p u cp none (setStatus c s w)).map (·.rn π) := by
  rw [rn_setStatus, rn_reschedule0]

theorem rn_hold (c d t p u cp i) (w : World) : hold (π c) d t p u cp i (w.rn π) = (hold c d t p u cp i w).map (·.rn π) := by
  refine map_andThen (map_iff (by rc) (fun _ => rfl) fun _ => rn_clear c w) fun w => ?_
  simp only [rn_now, rn_offset]
  split
  · rfl
  · refine map_iff Iff.rfl (fun _ => rfl) fun _ => ?_
    exact map_iff Iff.rfl (fun _ => rn_okC (by intro; rfl) _ _) (fun _ => rn_rescheduleS _ _ _ _ _ _ _)

theorem rn_passivate (c) (w : World) : passivate (π c) (w.rn π) = (passivate c w).map (·.rn π) := by
  refine map_andThen (map_iff (by rc) (fun _ => ?_) fun _ => map_andThen (rn_clear c w) fun w => ?_) fun w => rn_okC (by intro; rfl) _ _
  · exact rn_okC (by intro; rfl) _ _
  · exact rn_okC (by intro; rfl) _ _

theorem rn_activate (c a d p u cp pr kr kw) (w : World) :
    activate (π c) a d p u cp pr kr kw (w.rn π) = (activate c a d p u cp pr kr kw w).map (·.rn π) := by
  refine map_iff (by rc) (fun _ => rfl) fun _ => ?_
  refine map_andThen (map_iff (by rc) (fun _ => rfl) fun _ => map_andThen (rn_remove c w) fun w =>
    map_iff (by rc) (fun _ => rfl) fun _ => rn_checkFail c w) fun w => ?_
  exact rn_rescheduleS _ _ _ _ _ _ _

theorem rn_create (c a d p u cp s) (w : World) : create (π c) a d p u cp s (w.rn π) = (create c a d p u cp s w).map (·.rn π) := by
  refine map_iff (by rc) (fun _ => rfl) fun _ => ?_
  rw [rn_modC' (by intro; rfl)]
  exact rn_reschedule0 _ _ _ _ _ _

theorem rn_interrupt (c) (w : World) : interrupt (π c) (w.rn π) = (interrupt c w).map (·.rn π) := by
  refine map_iff (by rc) (fun _ => rn_okC (by intro; rfl) _ _) fun _ => map_iff (by rc) (fun _ => map_andThen (rn_remove c w) fun w => ?_) fun _ => rfl
  exact rn_okC (by intro; rfl) _ _

theorem rn_resume (c a p u) (w : World) : resume (π c) a p u (w.rn π) = (resume c a p u w).map (·.rn π) := by
  refine map_iff (by rc) (fun _ => ?_) fun _ => rfl
  simp only
  rw [rn_modC' (by intro; rfl)]
  obtain ⟨w1, hw1⟩ : ∃ w1, w1 = w.modC c (fun x => { x with intrLevel := x.intrLevel - 1 }) := ⟨_, rfl⟩
  rw [← hw1]
  refine map_iff (by rc) (fun _ => rfl) fun _ => ?_
  rw [rn_comps, crn_intrStatus, rn_setStatus]
  refine map_iff (by rc) (fun _ => ?_) fun _ => rfl
  rw [rn_now, rn_comps, crn_remaining, rn_reschedule0]

theorem rn_standbyCall (c) (w : World) : standby (π c) (w.rn π) = (standby c w).map (·.rn π) :=
  map_andThen (rn_preamble c w) fun w => by
    rw [map_ok, R.ok.injEq]
    rw [rn_modC (f := fun x => { x with schedTime := (w.now : ETime), status := .standby }) (by intro; rfl)]
    simp only [World.rn, World.modC, List.map_append, List.map_cons, List.map_nil]

theorem rn_setRemaining (c v p u) (w : World) : setRemaining (π c) v p u (w.rn π) = (setRemaining c v p u w).map (·.rn π) := by
  refine map_iff (by rc) (fun _ => ?_) fun _ => map_iff (by rc) (fun _ => rfl) fun _ => map_andThen (rn_remove c w) fun w => ?_
  · exact rn_okC (by intro; rfl) _ _
  · rw [rn_now, rn_reschedule0]

/-! ## resources -/

theorem rn_headQ (w : World) (q) : headQ (w.rn π) q = (headQ w q).map (QMem.rn π) := by
  unfold headQ; rw [rn_queues, Queue.mem_rn, List.head?_map]

theorem map_c_rn (o : Option QMem) : (o.map (QMem.rn π)).map QMem.c = (o.map QMem.c).map π := by cases o <;> rfl
theorem map_prio_rn (o : Option QMem) : (o.map (QMem.rn π)).map QMem.prio = o.map QMem.prio := by cases o <;> rfl
theorem bne_some_rn (o : Option CId) (c : CId) : (o.map π != some (π c)) = (o != some c) := by
  cases o with
  | none => rfl
  | some d => exact congrArg (!·) (beq_perm d c)
theorem some_bne_rn (o : Option CId) (c : CId) : (some (π c) != o.map π) = (some c != o) := by
  cases o with
  | none => rfl
  | some d => exact congrArg (!·) (beq_perm c d)

theorem rn_canHonor (w : World) (c r q) : canHonor (w.rn π) (π c) r q = canHonor w c r q := by
  have h1 := map_c_rn (π := π) (headQ w (.requesters r))
  have h2 := map_prio_rn (π := π) (headQ w (.requesters r))
  have h3 := map_prio_rn (π := π) ((w.queues (.requesters r)).find c)
  unfold canHonor
  simp only
  rw [rn_headQ, rn_queues, Queue.find_rn, h1, h2, h3, bne_some_rn]
  rfl

theorem rn_honored (w : World) (c) : honored (w.rn π) (π c) = honored w c := by
  unfold honored honorAny honorAll
  simp only [rn_canHonor, rn_comps]
  rfl

theorem rn_enterClaimers (c r p) (w : World) : enterClaimers (π c) r p (w.rn π) = (enterClaimers c r p w).map (·.rn π) :=
  map_iff (by rw [rn_queues, Queue.has_rn]) (fun _ => rfl) fun _ => rn_enterSortedQ _ _ _ _

theorem rn_claimOne (c l p) (w : World) : claimOne (π c) l p (w.rn π) = (claimOne c l p w).map (·.rn π) := by
  refine map_andThen (map_iff Iff.rfl (fun _ => ?_) fun _ => rfl) (rn_leaveRequesters c p.1)
  simp only
  rw [rn_modR, rn_now]
  obtain ⟨w1, hw1⟩ : ∃ w1, w1 = w.modR p.1 (fun x => { x with claimed := x.claimed + p.2, log := x.log.claims w.now x.cap (x.claimed + p.2) }) := ⟨_, rfl⟩
  rw [← hw1, rn_queues, Queue.find_rn]
  cases (w1.queues (.requesters p.1)).find c with
  | none => rfl
  | some m =>
    refine map_iff Iff.rfl (fun _ => rfl) fun _ => ?_
    rw [rn_modC' (by intro; rfl)]
    exact rn_enterClaimers _ _ _ _

theorem rn_honorNow (c) (w : World) : honorNow (π c) (w.rn π) = (honorNow c w).map (R.map (·.rn π)) := by
  have hh := rn_honored (π := π) w c
  unfold honorNow
  by_cases h : w.status c = .interrupted ∨ honored w c = []
  · rw [if_pos h, if_pos (by rw [hh, rn_status]; exact h)]; rfl
  · rw [if_neg h, if_neg (by rw [hh, rn_status]; exact h)]
    simp only [Option.map_some, Option.some.injEq, hh, rn_comps, crn_requests]
    exact map_andThen (map_forR (rn_claimOne c _) _ _) fun w => rn_wakeC0 _ _ (by intro; rfl) _

theorem rn_cursor0 (w : World) (r) : cursor0 (w.rn π) r = (cursor0 w r).map (QMem.rn π) := rn_headQ _ _

theorem rn_try : ∀ fuel : Nat,
    (∀ c (w : World), tryReqC fuel (π c) (w.rn π) = (tryReqC fuel c w).map (·.rn π)) ∧
    (∀ rs (w : World), tryReqList fuel rs (w.rn π) = (tryReqList fuel rs w).map (·.rn π)) ∧
    (∀ r (w : World), tryReqR fuel r (w.rn π) = (tryReqR fuel r w).map (·.rn π)) ∧
    (∀ r mx first (w : World), loopR fuel r (Option.map (QMem.rn π) mx) (Option.map (QMem.rn π) first) (w.rn π) = (loopR fuel r mx first w).map (·.rn π)) := by
  intro fuel
  induction fuel with
  | zero => exact ⟨fun c w => by simp [tryReqC], fun rs w => by simp [tryReqList], fun r w => by simp [tryReqR], fun r mx f w => by simp [loopR]⟩
  | succ fuel ih =>
    obtain ⟨i1, i2, i3, i4⟩ := ih
    refine ⟨fun c w => ?_, fun rs w => ?_, fun r w => ?_, fun r mx first w => ?_⟩
    · unfold tryReqC
      rw [rn_honorNow]
      cases honorNow c w with
      | none => rfl
      | some r =>
        simp only [Option.map_some, rn_comps, crn_requests, rn_res]
        exact map_andThen rfl (i2 _)
    · unfold tryReqList
      cases rs with
      | nil => rfl
      | cons r rs => exact map_andThen (i3 r w) (i2 rs)
    · unfold tryReqR
      refine map_iff Iff.rfl (fun _ => map_iff Iff.rfl (fun _ => rfl) fun _ => ?_) fun _ => ?_
      · rw [rn_modR, rn_cursor0]
        exact map_andThen (i4 _ _ _ _) fun w => rfl
      · rw [rn_cursor0]; exact i4 _ _ _ _
    · unfold loopR
      cases mx with
      | none => rfl
      | some m =>
        refine map_iff (by rw [map_c_rn, mrn_c, some_bne_rn]; rfl) (fun _ => rfl) fun _ => ?_
        refine map_iff (by rw [map_prio_rn]; rfl) (fun _ => rfl) fun _ => ?_
        refine map_iff Iff.rfl (fun _ => rfl) fun _ => ?_
        refine map_iff (by rw [rn_queues, mrn_c, Queue.has_rn]) (fun _ => rfl) fun _ => ?_
        refine map_andThen (i1 _ _) fun w' => ?_
        refine map_iff (by rw [rn_queues, mrn_c, Queue.has_rn]; rfl) (fun _ => ?_) fun _ => ?_
        · rw [rn_cursor0]; exact i4 _ _ _ _
        · rw [rn_queues, mrn_c, Queue.succ_rn]; exact i4 _ _ _ _

theorem rn_tryReqC (fuel c) (w : World) : tryReqC fuel (π c) (w.rn π) = (tryReqC fuel c w).map (·.rn π) := (rn_try fuel).1 c w
theorem rn_tryReqR (fuel r) (w : World) : tryReqR fuel r (w.rn π) = (tryReqR fuel r w).map (·.rn π) := (rn_try fuel).2.2.1 r w

theorem rn_releaseCore (c r q) (w : World) : releaseCore (π c) r q (w.rn π) = (releaseCore c r q w).map (·.rn π) := by
  unfold releaseCore
  rw [rn_comps, crn_claims]
  cases lookup (w.comps c).claims r with
  | none => rfl
  | some cl =>
    simp only
    rw [rn_modR]
    refine map_iff Iff.rfl (fun _ => ?_) fun _ => ?_
    · rw [rn_modC' (by intro; rfl)]
      refine map_andThen (rn_leaveQ _ _ _) fun w => ?_
      have hi : (if ((w.rn π).queues (.claimers r)).len = 0 then (w.rn π).modR r (fun x => { x with claimed := 0 }) else w.rn π) =
          (if (w.queues (.claimers r)).len = 0 then w.modR r (fun x => { x with claimed := 0 }) else w).rn π :=
        rn_ite (by rw [rn_queues, Queue.len_rn]) (fun _ => rfl) fun _ => rfl
      rw [hi, rn_modC' (by intro; rfl), rn_tallyR]; rfl
    · rw [rn_modC' (by intro; rfl), rn_tallyR]; rfl

theorem rn_release1 (fuel c r q) (w : World) : release1 fuel (π c) r q (w.rn π) = (release1 fuel c r q w).map (·.rn π) :=
  map_andThen (rn_releaseCore c r q w) (rn_tryReqR fuel r)

theorem rn_releaseArgs (fuel c l) (w : World) : releaseArgs fuel (π c) l (w.rn π) = (releaseArgs fuel c l w).map (·.rn π) :=
  map_forR (fun _ _ => by exact map_iff Iff.rfl (fun _ => rfl) fun _ => rn_release1 _ _ _ _ _) _ _

theorem rn_releaseAll (fuel c) (w : World) : releaseAll fuel (π c) (w.rn π) = (releaseAll fuel c w).map (·.rn π) := by
  unfold releaseAll
  rw [rn_comps]
  exact map_forR (fun r => rn_release1 fuel c r none) _ _

theorem rn_bump (av q p) : ∀ l : List QMem, bumpCandidates av q p (l.map (QMem.rn π)) = (bumpCandidates av q p l).map π
  | [] => rfl
  | m :: ms => by
    have ih := rn_bump (av + (0 : Rat)) q p ms
    simp only [List.map_cons, bumpCandidates, ih, mrn_prio, mrn_c]
    split
    · rfl
    · split <;> rfl

theorem rn_preempt (r q p) (w : World) : preempt r q p (w.rn π) = (preempt r q p w).map (·.rn π) := by
  unfold preempt
  simp only
  rw [rn_queues, Queue.mem_rn, ← List.map_reverse, rn_bump]
  exact map_iff Iff.rfl (fun _ => map_forRn (fun d w => map_andThen (rn_releaseCore d r none w) fun w => rn_activate _ _ _ _ _ _ _ _ _ _) _ _) fun _ => rfl

theorem rn_requestArg (c n put a) (w : World) : requestArg (π c) n put a (w.rn π) = (requestArg c n put a w).map (·.rn π) := by
  refine map_iff Iff.rfl (fun _ => rfl) fun _ => map_iff Iff.rfl (fun _ => rfl) fun _ => ?_
  refine map_andThen (rn_enterSortedQC _ _ _ _ (by intro; rfl) _) fun w => ?_
  exact map_iff Iff.rfl (fun _ => rn_preempt _ _ _ _) fun _ => rfl

theorem rn_lowerMinq (l) (w : World) : lowerMinq l (w.rn π) = (lowerMinq l w).rn π := by
  unfold lowerMinq
  induction l generalizing w with
  | nil => rfl
  | cons p t ih => rw [List.foldl_cons, List.foldl_cons, rn_modR, ih]

theorem rn_request (fuel c as o pu fa fd p u cp) (w : World) :
    request fuel (π c) as o pu fa fd p u cp (w.rn π) = (request fuel c as o pu fa fd p u cp w).map (·.rn π) := by
  refine map_andThen (rn_preambleC _ _ (by intro; rfl) _) fun w => ?_
  rw [rn_failTime]
  cases failTime w fa fd with
  | none => rfl
  | some t =>
    simp only
    rw [rn_modC' (by intro; rfl)]
    obtain ⟨w1, hw1⟩ : ∃ w1, w1 = w.modC c (fun x => { x with failed := false }) := ⟨_, rfl⟩
    rw [← hw1]
    refine map_iff Iff.rfl (fun _ => ?_) fun _ => ?_
    · rw [rn_now]; exact rn_reschedule0 _ _ _ _ _ _
    · refine map_andThen (map_forR (rn_requestArg c _ _) _ _) fun w => ?_
      rw [rn_comps, crn_requests, rn_lowerMinq]
      obtain ⟨w2, hw2⟩ : ∃ w2, w2 = lowerMinq (w.comps c).requests w := ⟨_, rfl⟩
      rw [← hw2, rn_now]
      rw [rn_modC' (by intro; rfl)]
      refine map_andThen (rn_tryReqC _ _ _) fun w => ?_
      exact map_iff (by rc) (fun _ => rfl) fun _ => rn_rescheduleS _ _ _ _ _ _ _

theorem rn_resReleaseLoop : ∀ (fuel : Nat) (r) (mx : Option QMem) (w : World),
    resReleaseLoop fuel r (mx.map (QMem.rn π)) (w.rn π) = (resReleaseLoop fuel r mx w).map (·.rn π)
  | 0, _, _, _ => rfl
  | fuel + 1, r, none, w => rfl
  | fuel + 1, r, some m, w => by
    refine map_iff (by rw [rn_queues, mrn_c, Queue.has_rn]) (fun _ => rfl) fun _ => ?_
    rw [rn_queues, mrn_c, Queue.succ_rn]
    exact map_andThen (rn_release1 _ _ _ _ _) (rn_resReleaseLoop fuel r _)

theorem rn_resRelease (fuel r q) (w : World) : resRelease fuel r q (w.rn π) = (resRelease fuel r q w).map (·.rn π) := by
  refine map_iff Iff.rfl (fun _ => ?_) fun _ => map_iff Iff.rfl (fun _ => rfl) fun _ => ?_
  · simp only
    rw [← rn_tryReqR, ← rn_modR]
    rfl
  · rw [rn_headQ, rn_resReleaseLoop]

theorem rn_resSetCapacity (fuel r cp) (w : World) : resSetCapacity fuel r cp (w.rn π) = (resSetCapacity fuel r cp w).map (·.rn π) := by
  unfold resSetCapacity
  rw [← rn_tryReqR, ← rn_modR]
  rfl

/-! ## states -/

theorem rn_waitOver (w : World) (c) : waitOver (w.rn π) (π c) = waitOver w c := by
  unfold waitOver
  simp only [rn_comps]
  rfl

theorem rn_tryWait (c) (w : World) : tryWait (π c) (w.rn π) = ((tryWait c w).1.map (·.rn π), (tryWait c w).2) := by
  unfold tryWait
  by_cases h : w.status c = .interrupted
  · rw [if_pos h, if_pos (show (w.rn π).status (π c) = .interrupted by rw [rn_status]; exact h)]; rfl
  · rw [if_neg h, if_neg (show ¬ (w.rn π).status (π c) = .interrupted by rw [rn_status]; exact h), rn_waitOver]
    by_cases h2 : waitOver w c = true
    · rw [if_pos h2, if_pos h2]
      refine Prod.ext ?_ rfl
      simp only
      rw [rn_comps]
      exact map_andThen (map_forR (rn_leaveWaiters c) _ _) fun w => rn_wakeC0 _ _ (by intro; rfl) _
    · rw [if_neg h2, if_neg h2]; rfl

theorem rn_waitArg (c a) (w : World) : waitArg (π c) a (w.rn π) = (waitArg c a w).map (·.rn π) := by
  refine map_andThen (map_iff (by rc) (fun _ => rfl) fun _ => ?_) fun w => rn_okC (by intro; rfl) _ _
  cases a.prio with
  | none => exact rn_onQueue _ (fun x => x.enter_rn w.now c) w
  | some p => exact rn_enterSortedQ _ _ _ _

theorem rn_waitEnd (c t p u cp) (w : World) : waitEnd (π c) t p u cp (w.rn π) = (waitEnd c t p u cp w).map (·.rn π) := by
  refine map_iff (by rc) (fun _ => rfl) fun _ => ?_
  simp only
  rw [rn_now, rn_modC' (by intro; rfl), rn_tryWait]
  refine map_andThen rfl fun w => ?_
  exact map_iff (by rc) (fun _ => rfl) fun _ => rn_rescheduleS _ _ _ _ _ _ _

theorem rn_wait (c as a fa fd p u cp) (w : World) :
    wait (π c) as a fa fd p u cp (w.rn π) = (wait c as a fa fd p u cp w).map (·.rn π) := by
  refine map_andThen (rn_preambleC _ _ (by intro; rfl) _) fun w => ?_
  simp only
  rw [rn_modC' (by intro; rfl), rn_failTime]
  cases failTime (w.modC c (fun x => { x with waitAll := a, failed := false })) fa fd with
  | none => rfl
  | some t => exact map_andThen (map_forR (rn_waitArg c) _ _) (rn_waitEnd _ _ _ _ _)

theorem rn_waitFor (c f ss fa fd p u cp) (w : World) :
    waitFor (π c) f ss fa fd p u cp (w.rn π) = (waitFor c f ss fa fd p u cp w).map (·.rn π) := by
  refine map_andThen (rn_preamble _ _) fun w => ?_
  simp only
  rw [rn_modC' (by intro; rfl), rn_failTime]
  cases failTime (w.modC c (fun x => { x with failed := false })) fa fd with
  | none => rfl
  | some t =>
    simp only
    rw [rn_modC' (by intro; rfl)]
    exact map_andThen (map_forR (fun s w => rn_enterSortedQC _ _ _ _ (by intro; rfl) _) _ _) (rn_waitEnd _ _ _ _ _)

theorem rn_stateTryWait : ∀ (l : List CId) (m) (w : World), stateTryWait (l.map π) m (w.rn π) = (stateTryWait l m w).map (·.rn π)
  | [], _, _ => rfl
  | c :: t, m, w => by
    unfold stateTryWait
    simp only [List.map_cons]
    rw [rn_tryWait]
    refine map_andThen rfl fun w => ?_
    refine map_iff Iff.rfl (fun _ => map_iff Iff.rfl (fun _ => rfl) fun _ => ?_) fun _ => ?_
    · exact rn_stateTryWait t _ w
    · exact rn_stateTryWait t _ w

theorem rn_stateSet (s v) (w : World) : stateSet s v (w.rn π) = (stateSet s v w).map (·.rn π) := by
  refine map_iff Iff.rfl (fun _ => rfl) fun _ => ?_
  simp only
  rw [rn_setState, rn_inQ, rn_stateTryWait]

theorem rn_stateTrigger (s v a m) (w : World) : stateTrigger s v a m (w.rn π) = (stateTrigger s v a m w).map (·.rn π) := by
  unfold stateTrigger
  simp only
  rw [rn_setState, rn_inQ]
  exact map_andThen (rn_stateTryWait _ _ _) fun w => by rw [rn_setState, rn_inQ, rn_stateTryWait]; rfl

/-! ## stores -/

theorem rn_store : ∀ fuel : Nat,
    (∀ i s p (w : World), storeEnter fuel (π i) s p (w.rn π) = (storeEnter fuel i s p w).map (·.rn π)) ∧
    (∀ i s (w : World), storeLeave fuel (π i) s (w.rn π) = (storeLeave fuel i s w).map (·.rn π)) := by
  intro fuel
  induction fuel with
  | zero => exact ⟨fun i s p w => by simp [storeEnter], fun i s w => by simp [storeLeave]⟩
  | succ fuel ih =>
    obtain ⟨i1, i2⟩ := ih
    refine ⟨fun i s p w => ?_, fun i s w => ?_⟩
    · unfold storeEnter
      refine map_andThen ?_ fun w => ?_
      · cases p with
        | none => exact rn_onQueue _ (fun x => x.enter_rn w.now i) w
        | some p => exact rn_onQueue _ (fun x => x.enterSorted_rn w.now i p) w
      · have hf : ((w.rn π).queues (.fromReq s)).mem.find? (fun m => ((w.rn π).comps m.c).fromFilter (π i)) =
            ((w.queues (.fromReq s)).mem.find? (fun m => (w.comps m.c).fromFilter i)).map (QMem.rn π) := by
          rw [rn_queues, Queue.mem_rn, List.find?_map]
          congr 2; funext m
          simp only [Function.comp, mrn_c, rn_comps, crn_fromFilter]
        rw [hf]
        cases (w.queues (.fromReq s)).mem.find? (fun m => (w.comps m.c).fromFilter i) with
        | none => rfl
        | some m =>
          refine map_andThen (i2 _ _ _) fun w => ?_
          simp only [mrn_c, rn_comps, crn_fromStores]
          refine map_andThen (map_forR (fun s0 => rn_leaveQ _ _) _ _) fun w => ?_
          exact rn_wakeC _ (some i) _ (by intro; rfl) _
    · unfold storeLeave
      refine map_andThen (rn_leaveQ _ _ _) fun w => ?_
      refine map_iff (by rw [rn_queues, Queue.len_rn, Queue.cap_rn]) (fun _ => ?_) fun _ => rfl
      rw [rn_headQ]
      cases headQ w (.toReq s) with
      | none => rfl
      | some m =>
        simp only [Option.map_some, mrn_c, rn_comps, crn_toItem, crn_toPrio]
        cases (w.comps m.c).toItem with
        | none => rfl
        | some y =>
          refine map_andThen (i1 _ _ _ _) fun w => ?_
          simp only [rn_comps, crn_toStores]
          refine map_andThen (map_forR (fun s0 => rn_leaveQ _ _) _ _) fun w => ?_
          exact map_andThen (rn_wakeC0 _ _ (by intro; rfl) _) fun w => rn_okC (by intro; rfl) _ _

theorem rn_storeEnter (fuel i s p) (w : World) : storeEnter fuel (π i) s p (w.rn π) = (storeEnter fuel i s p w).map (·.rn π) := (rn_store fuel).1 i s p w
theorem rn_storeLeave (fuel i s) (w : World) : storeLeave fuel (π i) s (w.rn π) = (storeLeave fuel i s w).map (·.rn π) := (rn_store fuel).2 i s w

/-- a filter in a call -/
def filterRn (π : Equiv.Perm CId) (f : CId → Bool) : CId → Bool := fun i => f (π.symm i)
/-- a key in a call -/
def keyRn (π : Equiv.Perm CId) (key : Option (CId → Rat)) : Option (CId → Rat) := key.map (fun g i => g (π.symm i))

theorem rn_searchStore (f key) : ∀ (l : List CId) (b : Option CId),
    searchStore (filterRn π f) (keyRn π key) (l.map π) (b.map π) = (searchStore f key l b).map π
  | [], _ => rfl
  | c :: t, b => by
    have hf : filterRn π f (π c) = f c := by unfold filterRn; rw [Equiv.symm_apply_apply]
    simp only [List.map_cons, searchStore, hf]
    cases f c with
    | false => simpa using rn_searchStore f key t b
    | true =>
      simp only [if_true]
      cases key with
      | none => rfl
      | some g =>
        simp only [keyRn, Option.map_some]
        cases b with
        | none => exact rn_searchStore f (some g) t (some c)
        | some b =>
          simp only [Option.map_some, Equiv.symm_apply_apply]
          split
          · exact rn_searchStore f (some g) t (some c)
          · exact rn_searchStore f (some g) t (some b)

theorem rn_searchStores (f key) (w : World) : ∀ ss (b : Option CId) l,
    searchStores (w.rn π) (filterRn π f) (keyRn π key) ss (b.map π) l = ((searchStores w f key ss b l).1.map π, (searchStores w f key ss b l).2)
  | [], _, _ => rfl
  | s :: t, b, l => by
    have hk : (keyRn π key).isNone = key.isNone := by cases key <;> rfl
    simp only [searchStores, rn_inQ, rn_searchStore, hk, Option.isSome_map, rn_searchStores f key w t]
    split <;> rfl

theorem rn_roomIn (w : World) (s) : roomIn (w.rn π) s = roomIn w s := by
  unfold roomIn
  simp only [rn_queues, Queue.len_rn, Queue.cap_rn]

theorem rn_rescheduleC (c t p u cp d) {f f' : Comp → Comp} (h : ∀ x, f' (x.rn π) = (f x).rn π) (w : World) :
    reschedule (π c) t p u cp none ((w.rn π).modC (π d) f') = (reschedule c t p u cp none (w.modC d f)).map (·.rn π) := by rw [rn_modC h, rn_reschedule0]

theorem rn_fromStore (fuel c ss f kf rp fa fd p u cp) (w : World) :
    fromStore fuel (π c) ss (filterRn π f) (keyRn π kf) rp fa fd p u cp (w.rn π) = (fromStore fuel c ss f kf rp fa fd p u cp w).map (·.rn π) := by
  refine map_iff Iff.rfl (fun _ => rfl) fun _ => map_andThen (rn_preamble _ _) fun w => ?_
  rw [rn_failTime]
  cases failTime w fa fd with
  | none => rfl
  | some t =>
    simp only
    rw [rn_modC' (by intro; rfl)]
    obtain ⟨w1, hw1⟩ : ∃ w1, w1 = w.modC c (fun x => { x with failed := false }) := ⟨_, rfl⟩
    rw [← hw1]
    have hs := rn_searchStores (π := π) f kf w1 ss none (ss.headD 0)
    rw [Option.map_none] at hs
    rw [hs]
    obtain ⟨o, s⟩ := searchStores w1 f kf ss none (ss.headD 0)
    cases o with
    | some i => exact map_andThen (rn_storeLeave _ _ _ _) fun w => rn_wakeC _ (some i) _ (by intro; rfl) _
    | none =>
      simp only [Option.map_none]
      rw [rn_modC' (by intro; rfl)]
      exact map_andThen (map_forR (fun s => rn_enterSortedQ _ _ _) _ _) fun w => rn_rescheduleC _ _ _ _ _ _ (by intro; rfl) _

theorem rn_toStore (fuel c ss i rp sp fa fd p u cp) (w : World) :
    toStore fuel (π c) ss (π i) rp sp fa fd p u cp (w.rn π) = (toStore fuel c ss i rp sp fa fd p u cp w).map (·.rn π) := by
  refine map_iff Iff.rfl (fun _ => rfl) fun _ => map_andThen (rn_preamble _ _) fun w => ?_
  rw [rn_failTime]
  cases failTime w fa fd with
  | none => rfl
  | some t =>
    simp only
    rw [rn_modC' (by intro; rfl)]
    obtain ⟨w1, hw1⟩ : ∃ w1, w1 = w.modC c (fun x => { x with failed := false }) := ⟨_, rfl⟩
    rw [← hw1]
    have hr : (fun s => roomIn (w1.rn π) s) = fun s => roomIn w1 s := by funext s; exact rn_roomIn w1 s
    rw [hr]
    cases ss.find? (fun s => roomIn w1 s) with
    | some s => exact map_andThen (rn_storeEnter _ _ _ _ _) fun w => rn_wakeC0 _ _ (by intro; rfl) _
    | none => exact map_andThen (map_forR (fun s => rn_enterSortedQ _ _ _) _ _) fun w => rn_rescheduleC _ _ _ _ _ _ (by intro; rfl) _

theorem rn_rescan (fuel s) (w : World) : rescan fuel s (w.rn π) = (rescan fuel s w).map (·.rn π) := by
  unfold rescan
  rw [rn_inQ]
  refine map_forRn (fun c w => ?_) _ _
  refine map_iff (by rw [rn_queues, Queue.has_rn]) (fun _ => ?_) fun _ => rfl
  rw [rn_inQ]
  refine map_forRn (fun i w => ?_) _ _
  refine map_iff (by rw [rn_comps, crn_fromFilter]) (fun _ => ?_) fun _ => rfl
  rw [rn_comps]
  refine map_andThen (map_forR (fun s0 => rn_leaveQ _ _) _ _) fun w => ?_
  exact map_andThen (rn_storeLeave _ _ _ _) fun w => rn_wakeC _ (some i) _ (by intro; rfl) _

theorem rn_rescanTo (fuel s) : ∀ (l : List CId) (w : World), rescanTo fuel s (l.map π) (w.rn π) = (rescanTo fuel s l w).map (·.rn π)
  | [], _ => rfl
  | c :: t, w => by
    unfold rescanTo
    simp only [List.map_cons]
    refine map_iff (by rw [rn_queues, Queue.has_rn]) (fun _ => map_iff (by rw [rn_roomIn]) (fun _ => ?_) fun _ => rfl) fun _ => rn_rescanTo fuel s t w
    rw [rn_comps]
    refine map_andThen (map_forR (fun s0 => rn_leaveQ _ _) _ _) fun w => ?_
    rw [rn_comps, crn_toItem, crn_toPrio]
    cases (w.comps c).toItem with
    | none => rfl
    | some y =>
      refine map_andThen (rn_storeEnter _ _ _ _ _) fun w => ?_
      exact map_andThen (rn_wakeC0 _ _ (by intro; rfl) _) fun w => by rw [rn_modC' (by intro; rfl), rn_rescanTo fuel s t]

theorem rn_storeSetCapacity (fuel s cp) (w : World) : storeSetCapacity fuel s cp (w.rn π) = (storeSetCapacity fuel s cp w).map (·.rn π) := by
  unfold storeSetCapacity
  simp only
  rw [rn_modQ (f := fun q => q.setCapacity cp) (by intro; rfl), rn_inQ]
  exact map_iff Iff.rfl (fun _ => rn_rescanTo _ _ _ _) fun _ => rfl

/-! ## cancel, end of process, step, run -/

theorem rn_cancel (fuel c) (w : World) : cancel fuel (π c) (w.rn π) = (cancel fuel c w).map (·.rn π) := by
  refine map_iff (by rc) (fun _ => rfl) fun _ => ?_
  refine map_andThen (map_andThen (map_iff (by rc) (fun _ => rfl) fun _ => rn_clear c w) (rn_releaseAll fuel c)) fun w => rn_okC (by intro; rfl) _ _

theorem rn_terminate (fuel c) (w : World) : terminate fuel (π c) (w.rn π) = (terminate fuel c w).map (·.rn π) :=
  map_andThen (rn_releaseAll fuel c w) fun w => rn_okC (by intro; rfl) _ _

theorem rn_newTurns (w : World) : newTurns (w.rn π) = (newTurns w).rn π :=
  rn_ite (by rw [rn_standby, List.map_eq_nil_iff]) (fun _ => rfl) fun _ => rfl

theorem rn_takeEvent (w : World) : takeEvent (w.rn π) = (takeEvent w).map (·.rn π) := by
  unfold takeEvent
  rw [rn_events, Heapq.heappop_map lt_rn]
  cases hp : Heapq.heappop Ev.lt w.events with
  | none =>
    simp only [Option.map_none]
    exact rn_okC (by intro; rfl) { w with current := w.main, atInf := if w.endOnEmpty then w.atInf else true } w.main
  | some p =>
    simp only [Option.map_some]
    obtain ⟨w1, hw1⟩ : ∃ w1, w1 = ({ w with events := p.2, now := p.1.t, current := p.1.c } : World) := ⟨_, rfl⟩
    have e : ({ w.rn π with events := p.2.map (Ev.rn π), now := (p.1.rn π).t, current := (p.1.rn π).c } : World) = w1.rn π := by rw [hw1]; rfl
    rw [e, ← hw1, ern_c, rn_modC' (by intro; rfl)]
    exact map_iff (by rw [rn_main, EmbeddingLike.apply_eq_iff_eq]) (fun _ => rfl) fun _ => rn_checkFail _ _

theorem rn_stepEvent (w : World) : stepEvent (w.rn π) = (stepEvent w).map (·.rn π) := by
  show takeEvent (newTurns (w.rn π)) = (takeEvent (newTurns w)).map (·.rn π)
  rw [rn_newTurns, rn_takeEvent]

theorem rn_step (w : World) : step (w.rn π) = (step w).map (·.rn π) := by
  refine map_iff (by rw [rn_current, rn_comps]; rfl) (fun _ => rn_stepEvent w) fun _ => ?_
  rw [rn_pending]
  cases w.pending with
  | nil => exact rn_stepEvent w
  | cons c rest =>
    obtain ⟨w1, hw1⟩ : ∃ w1, w1 = ({ w with pending := rest } : World) := ⟨_, rfl⟩
    have e : ({ w.rn π with pending := rest.map π } : World) = w1.rn π := by rw [hw1]; rfl
    simp only [List.map_cons]
    rw [e, ← hw1]
    refine map_iff (by rc) (fun _ => ?_) fun _ => rn_stepEvent w1
    rw [rn_modC' (by intro; rfl)]; rfl

theorem rn_runStart (d t p u cp) (w : World) : runStart d t p u cp (w.rn π) = (runStart d t p u cp w).map (·.rn π) := by
  unfold runStart
  simp only [rn_now, rn_offset]
  split
  · rfl
  · rename_i t e _
    exact rn_rescheduleS w.main t p u cp .scheduled { w with endOnEmpty := e }

/-- a call with all components replaced -/
def Op.rename (π : Equiv.Perm CId) : Op → Op
  | .hold c d t p u cp i => .hold (π c) d t p u cp i
  | .passivate c => .passivate (π c)
  | .activate c a d p u cp pr kr kw => .activate (π c) a d p u cp pr kr kw
  | .create c a d p u cp s => .create (π c) a d p u cp s
  | .interrupt c => .interrupt (π c)
  | .resume c a p u => .resume (π c) a p u
  | .standby c => .standby (π c)
  | .setRemaining c v p u => .setRemaining (π c) v p u
  | .cancel c => .cancel (π c)
  | .request c as o pu fa fd p u cp => .request (π c) as o pu fa fd p u cp
  | .release c as => .release (π c) as
  | .releaseAll c => .releaseAll (π c)
  | .wait c as a fa fd p u cp => .wait (π c) as a fa fd p u cp
  | .waitFor c f ss fa fd p u cp => .waitFor (π c) f ss fa fd p u cp
  | .fromStore c ss f kf rp fa fd p u cp => .fromStore (π c) ss (filterRn π f) (keyRn π kf) rp fa fd p u cp
  | .toStore c ss i rp sp fa fd p u cp => .toStore (π c) ss (π i) rp sp fa fd p u cp
  | .storeEnter c s p => .storeEnter (π c) s p
  | .storeLeave c s => .storeLeave (π c) s
  | .enter c n => .enter (π c) n
  | .enterSorted c n p => .enterSorted (π c) n p
  | .enterAtHead c n => .enterAtHead (π c) n
  | .enterInFrontOf c n p => .enterInFrontOf (π c) n (π p)
  | .enterBehind c n p => .enterBehind (π c) n (π p)
  | .leave c n => .leave (π c) n
  | .setPriority c n p => .setPriority (π c) n p
  | .insertAt c n i => .insertAt (π c) n i
  | o => o

/-- the same call in the same state, by and about others: the same outcome, for them -/
theorem exec_rn (fuel : Nat) (o : Op) (w : World) : exec fuel (o.rename π) (w.rn π) = (exec fuel o w).map (·.rn π) := by
  cases o <;> simp only [Op.rename, exec]
  case hold => exact rn_hold _ _ _ _ _ _ _ _
  case passivate => exact rn_passivate _ _
  case activate => exact rn_activate _ _ _ _ _ _ _ _ _ _
  case create => exact rn_create _ _ _ _ _ _ _ _
  case interrupt => exact rn_interrupt _ _
  case resume => exact rn_resume _ _ _ _ _
  case standby => exact rn_standbyCall _ _
  case setRemaining => exact rn_setRemaining _ _ _ _ _
  case cancel => exact rn_cancel _ _ _
  case request => exact rn_request _ _ _ _ _ _ _ _ _ _ _
  case release => exact rn_releaseArgs _ _ _ _
  case releaseAll => exact rn_releaseAll _ _ _
  case resRelease => exact rn_resRelease _ _ _ _
  case resSetCapacity => exact rn_resSetCapacity _ _ _ _
  case wait => exact rn_wait _ _ _ _ _ _ _ _ _
  case waitFor => exact rn_waitFor _ _ _ _ _ _ _ _ _
  case stateSet => exact rn_stateSet _ _ _
  case stateTrigger => exact rn_stateTrigger _ _ _ _ _
  case fromStore => exact rn_fromStore _ _ _ _ _ _ _ _ _ _ _ _
  case toStore => exact rn_toStore _ _ _ _ _ _ _ _ _ _ _ _
  case rescan => exact rn_rescan _ _ _
  case storeSetCapacity => exact rn_storeSetCapacity _ _ _ _
  case storeEnter => exact rn_storeEnter _ _ _ _ _
  case storeLeave => exact rn_storeLeave _ _ _ _
  case runStart => exact rn_runStart _ _ _ _ _ _
  case resetNow t => rfl
  case step => exact rn_step _
  case terminate => exact rn_terminate _ _ _
  case queueSetCapacity n c =>
    rw [map_ok, R.ok.injEq]
    exact rn_modQ (by intro; rfl) w _
  case queueReset q a d =>
    rw [map_ok, R.ok.injEq]
    exact rn_modQ (fun x => x.resetRates_rn w.now a d) w q
  case enter c n => exact rn_onQueue _ (fun x => x.enter_rn w.now c) w
  case enterSorted c n p => exact rn_onQueue _ (fun x => x.enterSorted_rn w.now c p) w
  case enterAtHead c n => exact rn_onQueue _ (fun x => x.enterAtHead_rn w.now c) w
  case enterInFrontOf c n p => exact rn_onQueue _ (fun x => x.enterInFrontOf_rn w.now c p) w
  case enterBehind c n p => exact rn_onQueue _ (fun x => x.enterBehind_rn w.now c p) w
  case leave c n => exact rn_onQueue _ (fun x => x.leave_rn w.now c) w
  case setPriority c n p => exact rn_onQueue _ (fun x => x.setPriority_rn c p) w
  case insertAt c n i => exact rn_onQueue _ (fun x => x.insertAt_rn w.now c i) w

theorem execAll_rn (fuel : Nat) : ∀ (os : List Op) (w : World), execAll fuel (os.map (Op.rename π)) (w.rn π) = (execAll fuel os w).rn π
  | [], _ => rfl
  | o :: os, w => by
    simp only [List.map_cons, execAll, exec_rn, map_world, execAll_rn fuel os]

end Verif
