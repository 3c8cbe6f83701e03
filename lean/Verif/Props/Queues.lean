import Verif.QueueView
import Verif.Reach

/-!
# Claims about queues (C11 - C17, C52, C53)

Histories of calls on any number of queues and components are given by `PReach`/`PStep`/`PAfter` on the pointer structure.
-/

namespace Verif
namespace Chain
open Queue (QR)

/-! ## C11 -/

/-- the priorities are in non-decreasing order -/
def InOrder (l : List QMem) : Prop := l.Pairwise (fun a b => a.prio ≤ b.prio)

/-- specification: what a call at time `t` does to the list of members -/
def ListSpec (t : Rat) : POp → List QMem → List QMem → Prop
  | .enter c _, l, l' => ∃ p, l' = l ++ [⟨c, p, t⟩] ∧ (l = [] → p = 0) ∧ ∀ m, l.getLast? = some m → p = m.prio
  | .enterAtHead c _, l, l' => ∃ p, l' = ⟨c, p, t⟩ :: l ∧ (l = [] → p = 0) ∧ ∀ m, l.head? = some m → p = m.prio
  | .enterInFrontOf c _ p, l, l' => ∃ l1 m l2, l = l1 ++ m :: l2 ∧ m.c = p ∧ l' = l1 ++ ⟨c, m.prio, t⟩ :: m :: l2
  | .enterBehind c _ p, l, l' => ∃ l1 m l2, l = l1 ++ m :: l2 ∧ m.c = p ∧ l' = l1 ++ m :: ⟨c, m.prio, t⟩ :: l2
  | .enterSorted c _ p, l, l' => ∃ l1 l2, l = l1 ++ l2 ∧ l' = l1 ++ ⟨c, p, t⟩ :: l2 ∧ (InOrder l → (∀ m ∈ l1, m.prio ≤ p) ∧ ∀ m ∈ l2, p < m.prio)
  | .insertAt c _ i, l, l' => ∃ p, l' = l.take i.toNat ++ ⟨c, p, t⟩ :: l.drop i.toNat
  | .append c _ p, l, l' => l' = l ++ [⟨c, p, t⟩]
  | .leave c _, l, l' => ∃ l1 m l2, l = l1 ++ m :: l2 ∧ m.c = c ∧ l' = l1 ++ l2
  | .setPriority c _ p, l, l' => (l' = l ∧ ∃ m ∈ l, m.c = c ∧ m.prio = p) ∨ ∃ k1 m k2 l1 l2, l = k1 ++ m :: k2 ∧ m.c = c ∧ k1 ++ k2 = l1 ++ l2 ∧
      l' = l1 ++ ⟨c, p, m.enter⟩ :: l2 ∧ (InOrder l → (∀ m ∈ l1, m.prio ≤ p) ∧ ∀ m ∈ l2, p < m.prio)
  | _, l, l' => l' = l

theorem lop_spec {o : POp} {t : Rat} {q q' : Queue} (h : lop o t q = .ok q') : ListSpec t o q.mem q'.mem := by
  cases o with
  | enter c =>
    simp only [lop, Queue.enter] at h
    split at h
    · cases h
    · obtain ⟨_, rfl⟩ := Queue.insert_some (Queue.ofOpt_ok h)
      refine ⟨_, rfl, fun h => by simp [h, Queue.tailPrio], fun m hm => by simp [Queue.tailPrio, hm]⟩
  | enterAtHead c =>
    simp only [lop, Queue.enterAtHead] at h
    split at h
    · cases h
    · obtain ⟨_, rfl⟩ := Queue.insert_some (Queue.ofOpt_ok h)
      refine ⟨_, rfl, fun h => by simp [h, Queue.headPrio], fun m hm => by simp [Queue.headPrio, hm]⟩
  | enterSorted c _ p =>
    obtain ⟨l1, l2, x, he, hf, hp, hs⟩ := Queue.enterSorted_ok h
    have hx : x = ⟨c, p, t⟩ := by
      have := he.xc; have := he.xt; cases x; simp_all
    refine ⟨l1, l2, he.mem, by rw [he.eq, hx], fun hso => ⟨fun m hm => ?_, hs hso⟩⟩
    have := (hf hso).1 m hm
    rwa [hp] at this
  | enterInFrontOf c _ p =>
    obtain ⟨l1, l2, x, m, he, hf, hm, hp⟩ := Queue.enterInFrontOf_ok h
    have hx : x = ⟨c, m.prio, t⟩ := by
      have := he.xc; have := he.xt; cases x; simp_all
    exact ⟨l1, m, l2, he.mem, hm, by rw [he.eq, hx]⟩
  | enterBehind c _ p =>
    obtain ⟨l1, l2, x, m, he, hf, hm, hp⟩ := Queue.enterBehind_ok h
    have hx : x = ⟨c, m.prio, t⟩ := by
      have := he.xc; have := he.xt; cases x; simp_all
    exact ⟨l1, m, l2, by rw [he.mem]; simp, hm, by rw [he.eq, hx]; simp⟩
  | insertAt c _ i =>
    obtain ⟨_, _, x, he⟩ := Queue.insertAt_ok h
    have hx : x = ⟨c, x.prio, t⟩ := by
      have := he.xc; have := he.xt; cases x; simp_all
    exact ⟨x.prio, by rw [he.eq, ← hx]⟩
  | append c _ p => have he := Queue.append_ok h; simp only [ListSpec, he.eq]
  | leave c =>
    obtain ⟨l1, l2, x, he⟩ := Queue.leave_ok h
    exact ⟨l1, x, l2, he.mem, he.xc, by rw [he.eq]⟩
  | setPriority c _ p =>
    rcases Queue.setPriority_ok h with ⟨rfl, h1⟩ | ⟨k1, k2, l1, l2, x, he⟩
    · exact .inl ⟨rfl, h1⟩
    · refine .inr ⟨k1, x, k2, l1, l2, he.mem, he.xc, he.split, ?_, he.sorted⟩
      rw [he.eq]
      have := he.xc
      simp [this]
  | setCapacity _ k => simp only [lop, QR.ok.injEq] at h; rw [← h]; rfl
  | resetRates => simp only [lop, QR.ok.injEq] at h; rw [← h]; rfl
  | newQueue => simp only [lop, QR.ok.injEq] at h; rw [← h]; rfl
  | newCopy => simp only [lop, QR.ok.injEq] at h; rw [← h]; rfl
  | tick => simp only [lop, QR.ok.injEq] at h; rw [← h]; rfl
  | iterNew => simp only [lop, QR.ok.injEq] at h; rw [← h]; rfl
  | iterNext => simp only [lop, QR.ok.injEq] at h; rw [← h]; rfl

/-- C11: in every history, a call that doesn't raise acts on the list of members of its queue as specified and leaves all other queues
alone -/
theorem C11_operations {w o w' q} (h : PReach w) (hs : PStep w o w' none) (ho : o.queue = some q) :
    ListSpec w.s.now o (content q w.s) (content q w'.s) ∧ ∀ p ∈ w.live, p ≠ q → content p w'.s = content p w.s := by
  obtain ⟨h1, hq, _, h3⟩ := step_ok h hs ho
  exact ⟨lop_spec h1, fun p hp hpq => congrArg Queue.mem (h3 p hp hpq)⟩

/-- specification: when a call is allowed -/
def Allowed (l : List QMem) (cap : ETime) : POp → Prop
  | .enter c _ | .enterSorted c _ _ | .enterAtHead c _ | .append c _ _ => c ∉ l.map QMem.c ∧ ((l.length + 1 : Nat) : Rat) ≤ cap
  | .enterInFrontOf c _ p | .enterBehind c _ p => c ∉ l.map QMem.c ∧ p ∈ l.map QMem.c ∧ ((l.length + 1 : Nat) : Rat) ≤ cap
  | .insertAt c _ i => 0 ≤ i ∧ i ≤ l.length ∧ c ∉ l.map QMem.c ∧ ((l.length + 1 : Nat) : Rat) ≤ cap
  | .leave c _ | .setPriority c _ _ => c ∈ l.map QMem.c
  | _ => True

theorem insert_room {q : Queue} {t l} : Queue.Room q → ∃ q', q.insert t l = some q' := by
  intro h
  rw [Queue.room_iff] at h
  exact ⟨_, by unfold Queue.insert; rw [if_neg h]⟩

theorem has_comps (q : Queue) (c : CId) : q.has c = true ↔ c ∈ q.mem.map QMem.c := by
  rw [Queue.has_iff, List.mem_map]

theorem find_comps (q : Queue) (c : CId) : (∃ m, q.find c = some m) ↔ c ∈ q.mem.map QMem.c := by
  unfold Queue.find
  rw [← Option.isSome_iff_exists, List.find?_isSome, List.mem_map]
  simp

theorem ofOpt_insert_iff {q : Queue} {t l} : (∃ q', Queue.ofOpt (q.insert t l) = .ok q') ↔ ((q.mem.length + 1 : Nat) : Rat) ≤ q.cap := by
  constructor
  · rintro ⟨q', h⟩; exact (Queue.insert_some (Queue.ofOpt_ok h)).1
  · intro h
    obtain ⟨q', hq'⟩ := insert_room (t := t) (l := l) (show Queue.Room q from h)
    exact ⟨q', by rw [hq']; rfl⟩

theorem lop_allowed (o : POp) (t : Rat) (q : Queue) : (∃ q', lop o t q = .ok q') ↔ Allowed q.mem q.cap o := by
  have hx : ∀ c, q.has c = true ∨ c ∉ q.mem.map QMem.c := by
    intro c; rw [has_comps]; exact em _
  cases o with
  | enter c =>
    simp only [lop, Queue.enter, Allowed, ← has_comps]
    split
    · rename_i hc; simp [hc]
    · rename_i hc; rw [ofOpt_insert_iff]; simp [hc]
  | enterSorted c =>
    simp only [lop, Queue.enterSorted, Allowed, ← has_comps]
    split
    · rename_i hc; simp [hc]
    · rename_i hc; rw [ofOpt_insert_iff]; simp [hc]
  | enterAtHead c =>
    simp only [lop, Queue.enterAtHead, Allowed, ← has_comps]
    split
    · rename_i hc; simp [hc]
    · rename_i hc; rw [ofOpt_insert_iff]; simp [hc]
  | append c =>
    simp only [lop, Queue.append, Allowed, ← has_comps]
    split
    · rename_i hc; simp [hc]
    · rename_i hc; rw [ofOpt_insert_iff]; simp [hc]
  | enterInFrontOf c _ p =>
    simp only [lop, Queue.enterInFrontOf, Allowed, ← find_comps _ p]
    rw [← has_comps]
    split
    · rename_i hc; simp [hc]
    · rename_i hc
      cases hf : q.find p with
      | none => simp
      | some m => simp only [ofOpt_insert_iff]; simp [hc]
  | enterBehind c _ p =>
    simp only [lop, Queue.enterBehind, Allowed, ← find_comps _ p]
    rw [← has_comps]
    split
    · rename_i hc; simp [hc]
    · rename_i hc
      cases hf : q.find p with
      | none => simp
      | some m => simp only [ofOpt_insert_iff]; simp [hc]
  | insertAt c _ i =>
    simp only [lop, Queue.insertAt, Allowed, ← has_comps, Queue.len]
    split
    · rename_i hi
      constructor
      · rintro ⟨_, h⟩; cases h
      · rintro ⟨h1, h2, _⟩; omega
    · rename_i hi
      split
      · rename_i hc; simp [hc]
      · rename_i hc; rw [ofOpt_insert_iff]; simp only [hc, not_false_eq_true, true_and, Bool.false_eq_true]
        constructor
        · intro h; exact ⟨by omega, by omega, h⟩
        · rintro ⟨_, _, h⟩; exact h
  | leave c =>
    simp only [lop, Queue.leave, Allowed, ← find_comps]
    cases hf : q.find c with
    | none => simp
    | some m => simp
  | setPriority c _ p =>
    simp only [lop, Queue.setPriority, Allowed, ← find_comps]
    cases hf : q.find c with
    | none => simp
    | some m => simp only; split <;> simp
  | _ => simp [lop, Allowed]

/-- C11: a call on an existing queue succeeds exactly when it is allowed; otherwise it raises and changes nothing. It never ends in a
pointer that is None. -/
theorem C11_outcome {w o q} (h : PReach w) (ho : o.queue = some q) (hq : q ∈ w.live) :
    (Allowed (content q w.s) (w.s.queues q).cap o → ∃ w', PStep w o w' none) ∧
    (¬ Allowed (content q w.s) (w.s.queues q).cap o → ∃ e, PStep w o w (some e) ∧ e ≠ .attribute) := by
  obtain ⟨ids, hr, _, _⟩ := h.rep
  have hsim := prun1_sim hr ho hq
  rw [hr.view hq] at hsim
  have hal := lop_allowed o w.s.now (view q w.s)
  have hal' : (∃ q', lop o w.s.now (view q w.s) = .ok q') ↔ Allowed (content q w.s) (w.s.queues q).cap o := hal
  constructor
  · intro hx
    obtain ⟨q', hq'⟩ := hal'.2 hx
    rw [hq'] at hsim
    obtain ⟨s', ids', a, _⟩ := hsim
    exact ⟨_, .op o q s' ho hq a⟩
  · intro hx
    cases hl : lop o w.s.now (view q w.s) with
    | ok q' => exact absurd (hal'.1 ⟨q', hl⟩) hx
    | notOk e =>
      rw [hl] at hsim
      refine ⟨e, .raise o q e w.s ho hq hsim, ?_⟩
      intro he
      subst he
      revert hl
      have hof : ∀ x : Option Queue, Queue.ofOpt x ≠ .notOk .attribute := by intro x; cases x <;> simp [Queue.ofOpt]
      cases o <;> simp only [lop, Queue.enter, Queue.enterSorted, Queue.enterAtHead, Queue.append, Queue.enterInFrontOf, Queue.enterBehind,
        Queue.insertAt, Queue.leave, Queue.setPriority] <;> intro hl <;> (repeat' split at hl) <;> first | exact hof _ hl | cases hl

/-- C11: all ways of looking at a queue agree with the list of members -/
theorem C11_observers {w q} (h : PReach w) (hq : q ∈ w.live) :
    (w.s.queues q).length = (order q w.s).length ∧
    (∀ f, (order q w.s).length < f → collect f (iterNew q false w.s).1 (iterNew q false w.s).2 = some (order q w.s)) ∧
    (∀ f, (order q w.s).length < f → collect f (iterNew q true w.s).1 (iterNew q true w.s).2 = some (order q w.s).reverse) ∧
    headC q w.s = (order q w.s).head? ∧ tailC q w.s = (order q w.s).getLast? ∧
    (∀ l1 c l2, order q w.s = l1 ++ c :: l2 → successor c q w.s = some l2.head? ∧ predecessor c q w.s = some l1.getLast?) ∧
    (∀ c, c ∉ order q w.s → successor c q w.s = none ∧ predecessor c q w.s = none) ∧
    (∀ c, index c q w.s = some (if c ∈ order q w.s then ((order q w.s).idxOf c : Int) else -1)) ∧
    (∀ c, count c q w.s = (order q w.s).count c) ∧
    (∀ i : Nat, i < (order q w.s).length → getItem q i w.s = .ok (order q w.s)[i]?) ∧
    (∀ i : Nat, i < (order q w.s).length → getItem q (-(i + 1 : Nat)) w.s = .ok (order q w.s).reverse[i]?) ∧
    (∀ i : Int, i < -((order q w.s).length : Int) ∨ ((order q w.s).length : Int) ≤ i → getItem q i w.s = .error .exc) := by
  obtain ⟨ids, hr, _, _⟩ := h.rep
  refine ⟨hr.length hq, fun f hf => ?_, fun f hf => ?_, hr.headC hq, hr.tailC hq, fun l1 c l2 ho => hr.successor hq ho, fun c hc => hr.not_succ hq hc,
    hr.index hq, fun c => ?_, fun i hi => ?_, fun i hi => ?_, fun i hi => ?_⟩
  · simpa using h.collect hq false f hf
  · simpa using h.collect hq true f hf
  · unfold Chain.count
    by_cases hc : c ∈ order q w.s
    · rw [if_pos ((hr.mem_order hq c).1 hc), List.count_eq_one_of_mem (hr.order_nodup hq) hc]
    · rw [if_neg (fun h => hc ((hr.mem_order hq c).2 h)), List.count_eq_zero_of_not_mem hc]
  · rw [hr.getItem hq, if_pos (by omega)]; simp
  · rw [hr.getItem hq, if_neg (by omega), if_pos (by omega)]
    rw [List.getElem?_reverse hi]
    congr 2
    omega
  · rw [hr.getItem hq, if_neg (by omega), if_neg (by omega)]

/-! ### executable histories, to show that the hypotheses can be met -/

/-- run a call; a raised exception is caught -/
def pexec1 (o : POp) (w : PW) : Option PW :=
  match o with
  | .newQueue q cap => if q ∈ w.live then none else some ⟨newQueue q cap w.s, q :: w.live⟩
  | .newCopy q cap => if q ∈ w.live then none else some ⟨newCopy q cap w.s, q :: w.live⟩
  | .tick d => if 0 ≤ d then some ⟨{ w.s with now := w.s.now + d }, w.live⟩ else none
  | o => match o.queue with
    | none => none
    | some q => if q ∈ w.live then (match prun1 o w.s with | .ok s' => some ⟨s', w.live⟩ | .err _ s' => some ⟨s', w.live⟩) else none

def pexec : List POp → PW → Option PW
  | [], w => some w
  | o :: os, w => (pexec1 o w).bind (pexec os)

theorem pexec1_step {o w w'} (h : pexec1 o w = some w') : ∃ e, PStep w o w' e := by
  have key : ∀ q, o.queue = some q → (if q ∈ w.live then (match prun1 o w.s with | .ok s' => some (⟨s', w.live⟩ : PW) | .err _ s' => some ⟨s', w.live⟩) else none) = some w' →
      ∃ e, PStep w o w' e := by
    intro q hq h
    split at h
    · rename_i hl
      split at h
      · rename_i s' hs; cases h; exact ⟨none, .op o q s' hq hl hs⟩
      · rename_i e s' hs; cases h; exact ⟨some e, .raise o q e s' hq hl hs⟩
    · cases h
  cases o with
  | newQueue q cap =>
    simp only [pexec1] at h
    split at h
    · cases h
    · rename_i hq; cases h; exact ⟨none, .create q cap hq⟩
  | newCopy q cap =>
    simp only [pexec1] at h
    split at h
    · cases h
    · rename_i hq; cases h; exact ⟨none, .createCopy q cap hq⟩
  | tick d =>
    simp only [pexec1] at h
    split at h
    · rename_i hd; cases h; exact ⟨none, .tick d hd⟩
    · cases h
  | _ => exact key _ rfl h

theorem pexec_reach {os w w'} (hw : PReach w) (h : pexec os w = some w') : PReach w' := by
  induction os generalizing w with
  | nil => cases h; exact hw
  | cons o os ih =>
    simp only [pexec, Option.bind_eq_some_iff] at h
    obtain ⟨w1, h1, h2⟩ := h
    obtain ⟨e, he⟩ := pexec1_step h1
    exact ih (.step o e hw he) h2

/-- two queues, one of capacity 4, and several ways to enter and leave; the last two calls raise -/
def demoQ : List POp := [.newQueue 0 (4 : Rat), .newQueue 1 ⊤, .enter 10 0, .tick 2, .enterSorted 11 0 3, .enterAtHead 12 0, .enter 10 1, .enterBehind 13 0 12,
  .tick (1 / 2), .leave 10 0, .setPriority 12 0 5, .enterInFrontOf 14 0 11, .enter 11 1, .enter 15 0, .enter 11 1]

/-- the state after `demoQ` -/
def demoQW : PW := (pexec demoQ .empty).getD .empty

theorem demoQ_reach : PReach demoQW := by
  have h : (pexec demoQ .empty).isSome = true := by decide +kernel
  obtain ⟨w, hw⟩ := Option.isSome_iff_exists.1 h
  have : demoQW = w := by simp [demoQW, hw]
  rw [this]; exact pexec_reach .empty hw

/-- non-vacuity of C11: a reachable state with queues of several members -/
example : PReach demoQW ∧ 0 ∈ demoQW.live ∧ 1 ∈ demoQW.live ∧ order 0 demoQW.s = [13, 14, 11, 12] ∧ order 1 demoQW.s = [10, 11] :=
  ⟨demoQ_reach, by decide +kernel, by decide +kernel, by decide +kernel, by decide +kernel⟩
/-- non-vacuity of C11: a call that is allowed and two that aren't -/
example : Allowed (content 0 demoQW.s) (demoQW.s.queues 0).cap (.leave 11 0) ∧ ¬ Allowed (content 0 demoQW.s) (demoQW.s.queues 0).cap (.enter 20 0) ∧
    ¬ Allowed (content 1 demoQW.s) (demoQW.s.queues 1).cap (.enterBehind 20 1 12) := by
  unfold Allowed; decide +kernel

/-! ## C12 -/

/-- calls that can't disturb the order of the priorities of `q` -/
def Sorting (q : QId) : POp → Prop
  | .insertAt _ q' _ | .append _ q' _ => q' ≠ q
  | _ => True

theorem lop_sorted {q : QId} {o : POp} {t : Rat} {x x' : Queue} (ho : Sorting q o) (hoq : o.queue = some q) (h : lop o t x = .ok x') (hs : InOrder x.mem) :
    InOrder x'.mem := by
  cases o with
  | insertAt c q' i => simp [POp.queue] at hoq; exact absurd hoq ho
  | append c q' i => simp [POp.queue] at hoq; exact absurd hoq ho
  | enter c =>
    obtain ⟨l1, l2, y, he, hf, _⟩ := Queue.enter_ok h
    exact he.sorted hf hs
  | enterAtHead c =>
    obtain ⟨l1, l2, y, he, hf, _⟩ := Queue.enterAtHead_ok h
    exact he.sorted hf hs
  | enterSorted c _ p =>
    obtain ⟨l1, l2, y, he, hf, _⟩ := Queue.enterSorted_ok h
    exact he.sorted hf hs
  | enterInFrontOf c _ p =>
    obtain ⟨l1, l2, y, m, he, hf, _⟩ := Queue.enterInFrontOf_ok h
    exact he.sorted hf hs
  | enterBehind c _ p =>
    obtain ⟨l1, l2, y, m, he, hf, _⟩ := Queue.enterBehind_ok h
    exact he.sorted hf hs
  | leave c =>
    obtain ⟨l1, l2, y, he⟩ := Queue.leave_ok h
    have := he.mem
    rw [he.eq]; unfold InOrder at hs; rw [this] at hs
    exact Queue.sorted_delete hs
  | setPriority c _ p =>
    exact Queue.run_sorted (t := t) (o := .setPriority c p) h hs
  | _ => simp only [lop, QR.ok.injEq] at h; rw [← h]; exact hs

/-- C12: the priorities stay sorted under every history without `insert(index, ..)` -/
theorem C12_sorted {w w' : PW} {q : QId} (h : PReach w) (hq : q ∈ w.live) (hs : InOrder (content q w.s)) (ha : PAfter (Sorting q) w w') :
    InOrder (content q w'.s) := by
  induction ha with
  | refl => exact hs
  | step o e ha ho hst ih =>
    rcases step_view (ha.reach h) hst (ha.live hq) with hv | ⟨_, hoq, hl⟩
    · have : content q _ = content q _ := congrArg Queue.mem hv
      rw [this]; exact ih
    · exact lop_sorted ho hoq hl ih

/-- C12: a new queue is sorted -/
theorem C12_new {w : PW} {q : QId} {cap} (h : PReach w) {w1 e} (hs : PStep w (.newQueue q cap) w1 e) : content q w1.s = [] := by
  cases hs with
  | create q cap hq =>
    obtain ⟨ids, hr, hn, _⟩ := h.rep
    rw [(newQueue_rep hr hq cap (hn q hq)).content (.inl rfl)]; simp [abs, hn q hq]
  | op o q s' ho => simp [POp.queue] at ho
  | raise o q e s' ho => simp [POp.queue] at ho

/-- C12: `enter_sorted` on a sorted queue puts the component behind those of lower or equal priority and in front of the higher ones -/
theorem C12_fifo {w w' : PW} {q : QId} {c p} (h : PReach w) (hs : PStep w (.enterSorted c q p) w' none) (hso : InOrder (content q w.s)) :
    content q w'.s = (content q w.s).filter (fun m => m.prio ≤ p) ++ ⟨c, p, w.s.now⟩ :: (content q w.s).filter (fun m => p < m.prio) := by
  obtain ⟨l1, l2, e1, e2, e3⟩ := (C11_operations h hs rfl).1
  obtain ⟨h1, h2⟩ := e3 hso
  rw [e2, e1, List.filter_append, List.filter_append]
  have a1 : l1.filter (fun m => decide (m.prio ≤ p)) = l1 := List.filter_eq_self.2 (fun m hm => by simpa using h1 m hm)
  have a2 : l2.filter (fun m => decide (m.prio ≤ p)) = [] := List.filter_eq_nil_iff.2 (fun m hm => by simpa using h2 m hm)
  have a3 : l1.filter (fun m => decide (p < m.prio)) = [] := List.filter_eq_nil_iff.2 (fun m hm => by simpa using h1 m hm)
  have a4 : l2.filter (fun m => decide (p < m.prio)) = l2 := List.filter_eq_self.2 (fun m hm => by simpa using h2 m hm)
  rw [a1, a2, a3, a4]; simp

/-- the claim fails for `Queue.insert` at the end: the priority becomes 0, whatever the others are -/
theorem C12_insert_counterexample : ∃ w, PReach w ∧ 0 ∈ w.live ∧ InOrder (content 0 w.s) ∧ ∃ w', PStep w (.insertAt 2 0 1) w' none ∧ ¬ InOrder (content 0 w'.s) := by
  let w := (pexec [.newQueue 0 ⊤, .enterSorted 1 0 5] .empty).getD .empty
  have h : (pexec [.newQueue 0 ⊤, .enterSorted 1 0 5] .empty) = some w := rfl
  refine ⟨w, pexec_reach .empty h, by decide +kernel, by unfold InOrder; decide +kernel, ?_⟩
  refine ⟨⟨_, w.live⟩, .op _ 0 _ rfl (by decide +kernel) rfl, by unfold InOrder; decide +kernel⟩

/-- non-vacuity of C12: a sorted queue with ties, to which `enter_sorted` adds one more of the same priority -/
def tiesW : PW := (pexec [.newQueue 0 ⊤, .enterSorted 1 0 5, .enterSorted 2 0 3, .enterSorted 3 0 5, .enterSorted 4 0 3, .enterSorted 5 0 7, .setPriority 1 0 3] .empty).getD .empty
example : order 0 tiesW.s = [2, 4, 1, 3, 5] ∧ InOrder (content 0 tiesW.s) ∧ (content 0 tiesW.s).map QMem.prio = [3, 3, 3, 5, 7] := by unfold InOrder; decide +kernel

/-! ## C13 -/

/-- anything but a reset of the statistics of `q` -/
def NoReset (q : QId) : POp → Prop
  | .resetRates q' _ _ => q' ≠ q
  | _ => True

theorem lop_account {q : QId} {o : POp} {t : Rat} {x x' : Queue} (ho : NoReset q o) (hoq : o.queue = some q) (h : lop o t x = .ok x') :
    (x'.arrivals : Int) - x'.departures - x'.mem.length = x.arrivals - x.departures - x.mem.length := by
  have hent : ∀ {c l1 l2 y}, Queue.Entered t x c x' l1 l2 y → (x'.arrivals : Int) - x'.departures - x'.mem.length = x.arrivals - x.departures - x.mem.length := by
    intro c l1 l2 y he
    have h1 := he.mem
    have h2 := he.eq
    rw [h2]; simp only [h1, List.length_append, List.length_cons]; push_cast; omega
  cases o with
  | resetRates q' a d => simp [POp.queue] at hoq; exact absurd hoq ho
  | enter c => obtain ⟨l1, l2, y, he, _⟩ := Queue.enter_ok h; exact hent he
  | enterAtHead c => obtain ⟨l1, l2, y, he, _⟩ := Queue.enterAtHead_ok h; exact hent he
  | enterSorted c _ p => obtain ⟨l1, l2, y, he, _⟩ := Queue.enterSorted_ok h; exact hent he
  | enterInFrontOf c _ p => obtain ⟨l1, l2, y, m, he, _⟩ := Queue.enterInFrontOf_ok h; exact hent he
  | enterBehind c _ p => obtain ⟨l1, l2, y, m, he, _⟩ := Queue.enterBehind_ok h; exact hent he
  | insertAt c _ i => obtain ⟨_, _, y, he⟩ := Queue.insertAt_ok h; exact hent he
  | append c _ p => exact hent (Queue.append_ok h)
  | leave c =>
    obtain ⟨l1, l2, y, he⟩ := Queue.leave_ok h
    rw [he.eq]; simp only [he.mem, List.length_append, List.length_cons]; push_cast; omega
  | setPriority c _ p =>
    rcases Queue.setPriority_ok h with ⟨rfl, _⟩ | ⟨k1, k2, l1, l2, y, he⟩
    · rfl
    · have h1 := congrArg List.length he.split
      rw [he.eq]; simp only [he.mem, List.length_append, List.length_cons] at h1 ⊢; omega
  | setCapacity _ k => simp only [lop, QR.ok.injEq] at h; rw [← h]; rfl
  | _ => simp only [lop, QR.ok.injEq] at h; rw [← h]

/-- C13: between two moments without a reset, the length grows by arrivals minus departures -/
theorem C13_accounting {w w' : PW} {q : QId} (h : PReach w) (hq : q ∈ w.live) (ha : PAfter (NoReset q) w w') :
    ((w'.s.queues q).arrivals : Int) - (w.s.queues q).arrivals - ((w'.s.queues q).departures - (w.s.queues q).departures) =
      (order q w'.s).length - (order q w.s).length := by
  have key : ((view q w'.s).arrivals : Int) - (view q w'.s).departures - (view q w'.s).mem.length =
      (view q w.s).arrivals - (view q w.s).departures - (view q w.s).mem.length := by
    induction ha with
    | refl => rfl
    | step o e ha ho hst ih =>
      rcases step_view (ha.reach h) hst (ha.live hq) with hv | ⟨_, hoq, hl⟩
      · rw [hv]; exact ih
      · exact (lop_account ho hoq hl).trans ih
  simp only [order, List.length_map]
  simp only [view] at key
  omega

/-- C13: after a reset or creation, the counts are zero -/
theorem C13_reset {w w' : PW} {q : QId} (h : PReach w) (hs : PStep w (.resetRates q true true) w' none) :
    (w'.s.queues q).arrivals = 0 ∧ (w'.s.queues q).departures = 0 ∧ order q w'.s = order q w.s := by
  obtain ⟨h1, _⟩ := step_ok h hs rfl
  simp only [lop, QR.ok.injEq] at h1
  have a := congrArg Queue.arrivals h1
  have b := congrArg Queue.departures h1
  have c := congrArg Queue.mem h1
  exact ⟨a.symm, b.symm, by unfold order; exact congrArg (List.map QMem.c) c.symm⟩

theorem level_last (v : Rat) (l : List (Rat × Nat)) : Queue.level v l = ((l.getLast?.map (fun p => (p.2 : Rat))).getD v) := by
  induction l generalizing v with
  | nil => rfl
  | cons a l ih =>
    obtain ⟨t, n⟩ := a
    cases l with
    | nil => rfl
    | cons b l =>
      have := ih (n : Rat)
      simp only [Queue.level] at this ⊢
      rw [this]; simp [List.getLast?_eq_some_getLast]

/-- C13: the length, the last tallied value of the length monitor and the number of components in a traversal are the same -/
theorem C13_length {w : PW} {q : QId} (h : PReach w) (hq : q ∈ w.live) : (w.s.queues q).length = (order q w.s).length ∧
    ((w.s.queues q).lens.getLast?.map (fun p => p.2.toNat)).getD 0 = (order q w.s).length ∧
    ∀ rev f, (order q w.s).length < f → ∃ l, collect f (iterNew q rev w.s).1 (iterNew q rev w.s).2 = some l ∧ l.length = (order q w.s).length := by
  obtain ⟨ids, hr, _, _⟩ := h.rep
  refine ⟨hr.length hq, ?_, fun rev f hf => ⟨_, h.collect hq rev f hf, by cases rev <;> simp⟩⟩
  have := (h.qinv hq).level
  rw [level_last] at this
  simp only [view, List.getLast?_map, Option.map_map] at this
  unfold order
  rw [List.length_map]
  cases hl : (w.s.queues q).lens.getLast? with
  | none => simp [hl] at this ⊢; exact_mod_cast this
  | some p => simp [hl] at this ⊢; exact_mod_cast this

/-- non-vacuity of C13: arrivals 5, departures 1, length 4 -/
example : (demoQW.s.queues 0).arrivals = 5 ∧ (demoQW.s.queues 0).departures = 1 ∧ (demoQW.s.queues 0).length = 4 := by decide +kernel

/-! ## C14 -/

/-- calls that bring a component into a queue -/
def POp.enterer : POp → Option CId
  | .enter c _ | .enterSorted c _ _ | .enterAtHead c _ | .enterInFrontOf c _ _ | .enterBehind c _ _ | .insertAt c _ _ | .append c _ _ => some c
  | _ => none

/-- C14: a call that brings a component into a queue and doesn't raise, makes the queue one longer, within the capacity -/
theorem C14_within {w o w' q c} (h : PReach w) (hs : PStep w o w' none) (ho : o.queue = some q) (he : o.enterer = some c) :
    (((order q w'.s).length : Nat) : Rat) ≤ (w'.s.queues q).cap ∧ (order q w'.s).length = (order q w.s).length + 1 ∧ c ∈ order q w'.s ∧
      (w'.s.queues q).cap = (w.s.queues q).cap := by
  obtain ⟨h1, _⟩ := step_ok h hs ho
  have key : ∀ {l1 l2 y}, Queue.Entered w.s.now (view q w.s) c (view q w'.s) l1 l2 y → (((order q w'.s).length : Nat) : Rat) ≤ (w'.s.queues q).cap ∧
      (order q w'.s).length = (order q w.s).length + 1 ∧ c ∈ order q w'.s ∧ (w'.s.queues q).cap = (w.s.queues q).cap := by
    intro l1 l2 y hx
    have a := congrArg Queue.mem hx.eq
    have b := congrArg Queue.cap hx.eq
    have m := hx.mem
    have r := hx.room
    have xc := hx.xc
    simp only [view] at a b m
    have hlen : (order q w'.s).length = (order q w.s).length + 1 := by
      unfold order; rw [a, m]; simp; omega
    refine ⟨?_, hlen, ?_, b⟩
    · rw [hlen, b]
      unfold Queue.Room at r
      simpa [view, order] using r
    · unfold order; rw [a]; simp [xc]
  cases o with
  | enter c' => cases he; obtain ⟨l1, l2, y, hx, _⟩ := Queue.enter_ok h1; exact key hx
  | enterAtHead c' => cases he; obtain ⟨l1, l2, y, hx, _⟩ := Queue.enterAtHead_ok h1; exact key hx
  | enterSorted c' _ p => cases he; obtain ⟨l1, l2, y, hx, _⟩ := Queue.enterSorted_ok h1; exact key hx
  | enterInFrontOf c' _ p => cases he; obtain ⟨l1, l2, y, m, hx, _⟩ := Queue.enterInFrontOf_ok h1; exact key hx
  | enterBehind c' _ p => cases he; obtain ⟨l1, l2, y, m, hx, _⟩ := Queue.enterBehind_ok h1; exact key hx
  | insertAt c' _ i => cases he; obtain ⟨_, _, y, hx⟩ := Queue.insertAt_ok h1; exact key hx
  | append c' _ p => cases he; exact key (Queue.append_ok h1)
  | _ => simp [POp.enterer] at he

theorem lop_full {o : POp} {t q} (h : lop o t q = .notOk .queueFull) : ¬ Queue.Room q := by
  have hof : ∀ {l}, Queue.ofOpt (q.insert t l) = .notOk .queueFull → ¬ Queue.Room q := by
    intro l hl
    cases hx : q.insert t l with
    | none => exact insert_none hx
    | some q' => rw [hx] at hl; cases hl
  revert h
  cases o <;> simp only [lop, Queue.enter, Queue.enterSorted, Queue.enterAtHead, Queue.append, Queue.enterInFrontOf, Queue.enterBehind,
        Queue.insertAt, Queue.leave, Queue.setPriority] <;> intro hl <;> (repeat' split at hl) <;> first | exact hof hl | cases hl

/-- C14: QueueFullError is raised only if there is no room and then nothing at all changes: no queue, no component, no statistic -/
theorem C14_full {w o w'} (h : PReach w) (hs : PStep w o w' (some .queueFull)) :
    w' = w ∧ ∃ q ∈ w.live, o.queue = some q ∧ ¬ (((order q w.s).length + 1 : Nat) : Rat) ≤ (w.s.queues q).cap := by
  obtain ⟨h1, q, hq, hoq, hl⟩ := step_err h hs
  refine ⟨h1, q, hq, hoq, ?_⟩
  have := lop_full hl
  unfold Queue.Room at this
  simpa [view, order] using this

/-- C14: a component that isn't in the queue can enter exactly when there is room; otherwise QueueFullError is raised -/
theorem C14_room {w q c} (h : PReach w) (hq : q ∈ w.live) (hc : c ∉ order q w.s) (o : POp) (ho : o = .enter c q ∨ (∃ p, o = .enterSorted c q p) ∨ o = .enterAtHead c q) :
    ((((order q w.s).length + 1 : Nat) : Rat) ≤ (w.s.queues q).cap → ∃ w', PStep w o w' none) ∧
    (¬ (((order q w.s).length + 1 : Nat) : Rat) ≤ (w.s.queues q).cap → PStep w o w (some .queueFull)) := by
  have hoq : o.queue = some q := by rcases ho with rfl | ⟨p, rfl⟩ | rfl <;> rfl
  have hlen : (order q w.s).length = (content q w.s).length := by simp [order]
  have hal : (((order q w.s).length + 1 : Nat) : Rat) ≤ (w.s.queues q).cap ↔ Allowed (content q w.s) (w.s.queues q).cap o := by
    rw [hlen]
    rcases ho with rfl | ⟨p, rfl⟩ | rfl <;> exact ⟨fun x => ⟨hc, x⟩, fun x => x.2⟩
  obtain ⟨h1, h2⟩ := C11_outcome h hoq hq
  refine ⟨fun x => h1 (hal.1 x), fun x => ?_⟩
  obtain ⟨e, he, _⟩ := h2 (fun y => x (hal.2 y))
  have : e = .queueFull := by
    obtain ⟨_, q', _, hoq', hl⟩ := step_err h he
    rw [hoq] at hoq'; cases hoq'
    have hh : ¬ (view q w.s).has c = true := by rw [has_comps]; exact hc
    have hof : ∀ {x : Option Queue}, Queue.ofOpt x = .notOk e → e = .queueFull := by
      intro x hx; cases x <;> simp [Queue.ofOpt] at hx; exact hx.symm
    rcases ho with rfl | ⟨p, rfl⟩ | rfl
    · simp only [lop, Queue.enter] at hl; rw [if_neg hh] at hl; exact hof hl
    · simp only [lop, Queue.enterSorted] at hl; rw [if_neg hh] at hl; exact hof hl
    · simp only [lop, Queue.enterAtHead] at hl; rw [if_neg hh] at hl; exact hof hl
  exact this ▸ he

/-- capacities are never exceeded as long as nobody lowers a capacity below the length -/
def NoLower (q : QId) (w : PW) : POp → Prop
  | .setCapacity q' k => q' = q → ((order q w.s).length : Rat) ≤ k
  | _ => True

/-- histories in which that holds -/
inductive PAfterC (q : QId) (w : PW) : PW → Prop
  | refl : PAfterC q w w
  | step {w1 w2} (o e) : PAfterC q w w1 → NoLower q w1 o → PStep w1 o w2 e → PAfterC q w w2

/-- C14: along any history in which the capacity isn't lowered below the length of the moment, the length is at most the capacity -/
theorem C14_invariant {w w' : PW} {q : QId} (h : PReach w) (hq : q ∈ w.live) (hc : (((order q w.s).length : Nat) : Rat) ≤ (w.s.queues q).cap)
    (ha : PAfterC q w w') : (((order q w'.s).length : Nat) : Rat) ≤ (w'.s.queues q).cap := by
  have key : ∀ w1, PAfterC q w w1 → PReach w1 ∧ q ∈ w1.live ∧ (((order q w1.s).length : Nat) : Rat) ≤ (w1.s.queues q).cap := by
    intro w1 ha
    induction ha with
    | refl => exact ⟨h, hq, hc⟩
    | @step w1 w2 o e ha ho hst ih =>
      obtain ⟨i1, i2, i3⟩ := ih
      have hl : q ∈ w2.live := PAfter.live (ok := fun _ => True) (.step o e .refl trivial hst) i2
      refine ⟨.step o e i1 hst, hl, ?_⟩
      rcases step_view i1 hst i2 with hv | ⟨rfl, hoq, hlo⟩
      · have a := congrArg Queue.mem hv
        have b := congrArg Queue.cap hv
        simp only [view] at a b
        unfold order; rw [a, b]; exact i3
      · cases hen : o.enterer with
        | some c => exact (C14_within i1 hst hoq hen).1
        | none =>
          have hsame : ∀ {n k}, (content q w2.s).length ≤ n → n = (content q w1.s).length → (w2.s.queues q).cap = k → k = (w1.s.queues q).cap →
              (((order q w2.s).length : Nat) : Rat) ≤ (w2.s.queues q).cap := by
            intro n k a b c d
            rw [c, d]
            refine le_trans ?_ i3
            have : (order q w2.s).length ≤ (order q w1.s).length := by simp only [order, List.length_map]; omega
            exact_mod_cast this
          cases o with
          | setCapacity q' k =>
            cases hoq
            simp only [lop, QR.ok.injEq] at hlo
            have a := congrArg Queue.mem hlo
            have b := congrArg Queue.cap hlo
            simp only [view, Queue.setCapacity] at a b
            unfold order; rw [← a, ← b]; exact ho rfl
          | leave c q' =>
            obtain ⟨l1, l2, y, hx⟩ := Queue.leave_ok hlo
            have a := congrArg Queue.mem hx.eq
            have b := congrArg Queue.cap hx.eq
            have m := hx.mem
            simp only [view] at a b m
            exact hsame (by rw [a, m]; simp) rfl b rfl
          | setPriority c q' p =>
            rcases Queue.setPriority_ok hlo with ⟨hx, _⟩ | ⟨k1, k2, l1, l2, y, hx⟩
            · have a := congrArg Queue.mem hx
              have b := congrArg Queue.cap hx
              simp only [view] at a b
              exact hsame (by rw [a]) rfl b rfl
            · have a := congrArg Queue.mem hx.eq
              have b := congrArg Queue.cap hx.eq
              have m := hx.mem
              have sp := congrArg List.length hx.split
              simp only [view] at a b m
              exact hsame (by rw [a, m]; simp at sp ⊢; omega) rfl b rfl
          | resetRates q' a d =>
            simp only [lop, QR.ok.injEq] at hlo
            have a := congrArg Queue.mem hlo
            have b := congrArg Queue.cap hlo
            simp only [view, Queue.resetRates] at a b
            exact hsame (by rw [← a]) rfl b.symm rfl
          | iterNew q' r =>
            simp only [lop, QR.ok.injEq] at hlo
            have a := congrArg Queue.mem hlo
            have b := congrArg Queue.cap hlo
            simp only [view] at a b
            exact hsame (by rw [← a]) rfl b.symm rfl
          | iterNext it =>
            simp only [lop, QR.ok.injEq] at hlo
            have a := congrArg Queue.mem hlo
            have b := congrArg Queue.cap hlo
            simp only [view] at a b
            exact hsame (by rw [← a]) rfl b.symm rfl
          | newQueue => simp [POp.queue] at hoq
          | newCopy => simp [POp.queue] at hoq
          | tick => simp [POp.queue] at hoq
          | _ => simp [POp.enterer] at hen
  exact (key w' ha).2.2

/-- non-vacuity of C14: the first queue is full, the second isn't -/
example : ¬ (((order 0 demoQW.s).length + 1 : Nat) : Rat) ≤ (demoQW.s.queues 0).cap ∧ (((order 1 demoQW.s).length + 1 : Nat) : Rat) ≤ (demoQW.s.queues 1).cap ∧ 20 ∉ order 0 demoQW.s := by
  decide +kernel

/-! ## C15 -/

/-- C15: the queues of a component are the queues it is a member of, once -/
theorem C15_membership {w q} (h : PReach w) (hq : q ∈ w.live) : (∀ c, c ∈ order q w.s ↔ (w.s.qm c q).isSome) ∧ (order q w.s).Nodup := by
  obtain ⟨ids, hr, _, _⟩ := h.rep
  exact ⟨hr.mem_order hq, hr.order_nodup hq⟩

/-- C15: there is no membership of queues that don't exist -/
theorem C15_only_live {w c q} (h : PReach w) (hq : (w.s.qm c q).isSome) : q ∈ w.live := by
  obtain ⟨ids, hr, _, _⟩ := h.rep
  obtain ⟨n, hn⟩ := Option.isSome_iff_exists.1 hq
  exact ((hr.qm c q n).1 hn).1

/-- C15: entering a queue twice and leaving a queue one is not in raise ValueError and change nothing -/
theorem C15_misuse {w o q c} (h : PReach w) (hq : q ∈ w.live)
    (ho : (c ∈ order q w.s ∧ (o = .enter c q ∨ (∃ p, o = .enterSorted c q p) ∨ o = .enterAtHead c q ∨ (∃ p, o = .enterInFrontOf c q p) ∨
        (∃ p, o = .enterBehind c q p))) ∨ (c ∉ order q w.s ∧ (o = .leave c q ∨ ∃ p, o = .setPriority c q p))) :
    PStep w o w (some .value) ∧ ∀ w' e, PStep w o w' e → w' = w ∧ e = some .value := by
  have hoq : o.queue = some q := by
    rcases ho with ⟨_, rfl | ⟨p, rfl⟩ | rfl | ⟨p, rfl⟩ | ⟨p, rfl⟩⟩ | ⟨_, rfl | ⟨p, rfl⟩⟩ <;> rfl
  have hl : lop o w.s.now (view q w.s) = .notOk .value := by
    rcases ho with ⟨hc, ho⟩ | ⟨hc, ho⟩
    · have hh : (view q w.s).has c = true := by rw [has_comps]; exact hc
      rcases ho with rfl | ⟨p, rfl⟩ | rfl | ⟨p, rfl⟩ | ⟨p, rfl⟩
      · simp only [lop, Queue.enter]; rw [if_pos hh]
      · simp only [lop, Queue.enterSorted]; rw [if_pos hh]
      · simp only [lop, Queue.enterAtHead]; rw [if_pos hh]
      · simp only [lop, Queue.enterInFrontOf]; rw [if_pos hh]
      · simp only [lop, Queue.enterBehind]; rw [if_pos hh]
    · have hh : (view q w.s).find c = none := by
        cases hf : (view q w.s).find c with
        | none => rfl
        | some m => exact absurd ((find_comps _ _).1 ⟨m, hf⟩) hc
      rcases ho with rfl | ⟨p, rfl⟩
      · simp only [lop, Queue.leave]; rw [hh]
      · simp only [lop, Queue.setPriority]; rw [hh]
  constructor
  · obtain ⟨ids, hr, _, _⟩ := h.rep
    have hsim := prun1_sim hr hoq hq
    rw [hr.view hq, hl] at hsim
    exact .raise o q _ w.s hoq hq hsim
  · intro w' e hs
    cases e with
    | none => have := (step_ok h hs hoq).1; rw [hl] at this; cases this
    | some er =>
      obtain ⟨h1, q', _, hoq', hl'⟩ := step_err h hs
      rw [hoq] at hoq'; cases hoq'
      rw [hl] at hl'; cases hl'
      exact ⟨h1, rfl⟩

/-- non-vacuity of C15 -/
example : 11 ∈ order 0 demoQW.s ∧ 11 ∈ order 1 demoQW.s ∧ 12 ∉ order 1 demoQW.s := by decide +kernel

/-! ## C16 -/

/-- C16: what a loop over a queue yields, whatever happens in the body (`lv` are the components that left the queue meanwhile) -/
theorem C16_loop {q rev w it ys lv} (h : Loop q rev w it ys lv) :
    (∀ c it' s', iterNext it w.s = (some c, it', s') → c ∈ order q w.s) ∧
    (∀ c, c ∉ lv → ys.count c ≤ 1) ∧
    (∀ it' s', iterNext it w.s = (none, it', s') → ∀ c ∈ order q w.s, c ∈ ys) :=
  ⟨fun _ _ _ hn => h.yield_in hn, fun _ hc => h.once hc, fun _ _ hn => h.complete hn⟩

/-- C16: at the end of a loop, every component that is in the queue and didn't leave meanwhile was visited exactly once -/
theorem C16_once {q rev w it ys lv it' s'} (h : Loop q rev w it ys lv) (hn : iterNext it w.s = (none, it', s')) {c} (hc : c ∈ order q w.s) (hl : c ∉ lv) :
    ys.count c = 1 :=
  le_antisymm (h.once hl) (List.count_pos_iff.2 (h.complete hn c hc))

/-- C16: a loop with a body that does nothing -/
theorem C16_plain {w} (h : PReach w) {q} (hq : q ∈ w.live) (f : Nat) (hf : (order q w.s).length < f) :
    collect f (iterNew q false w.s).1 (iterNew q false w.s).2 = some (order q w.s) ∧
    collect f (iterNew q true w.s).1 (iterNew q true w.s).2 = some (order q w.s).reverse :=
  ⟨by simpa using h.collect hq false f hf, by simpa using h.collect hq true f hf⟩

/-- non-vacuity of C16: the body of the first round lets 14 leave and 30 enter at the head; the loop visits 13, 30, 11 and 12 -/
def demoLoop : Option (List CId) :=
  let w := (pexec [.setCapacity 0 ⊤] demoQW).getD .empty
  let (it, s) := iterNew 0 false w.s
  match iterNext it s with
  | (some c, it, s) => ((pexec [.leave 14 0, .enterAtHead 30 0] ⟨s, w.live⟩).bind fun w => collect 10 it w.s).map (c :: ·)
  | _ => none
example : demoLoop = some [13, 30, 11, 12] := by decide +kernel

/-! ## C17 -/

/-- C17: the integral of the length up to now is the sum of the stays of those that left plus the time so far of those present -/
theorem C17_little {w q} (h : PReach w) (hq : q ∈ w.live) (t0 : Rat) :
    Queue.area t0 0 ((w.s.queues q).lens.map (fun p => (p.1, p.2.toNat))) w.s.now =
      (w.s.queues q).stays.sum + ((content q w.s).map (fun m => w.s.now - m.enter)).sum := (h.qinv hq).little t0

/-- C17: the same in the full simulation model, for all queues including those of resources and states -/
theorem C17_little_world {ok} {w : World} (h : Reach ok w) (q : QRef) (t0 : Rat) :
    Queue.area t0 0 (w.queues q).lens w.now = (w.queues q).stays.sum + ((w.queues q).mem.map (fun m => w.now - m.enter)).sum := (h.qinv q).little t0

/-- non-vacuity of C17 -/
example : Queue.area 0 0 ((demoQW.s.queues 0).lens.map (fun p => (p.1, p.2.toNat))) demoQW.s.now = 4 ∧ (demoQW.s.queues 0).stays = [5 / 2] := by
  decide +kernel

/-! ## C52 -/

/-- what all the set operations have in common: a new queue comes into existence with the given members, and no existing queue changes -/
structure Made (w : PW) (q1 : QId) (s' : PS) (l : List CId) : Prop where
  reach : PReach ⟨s', q1 :: w.live⟩
  order : order q1 s' = l
  nodup : (Chain.order q1 s').Nodup
  others : ∀ p ∈ w.live, content p s' = content p w.s

theorem Made.mk' {w : PW} {q1 s' l} (h1 : PReach ⟨s', q1 :: w.live⟩) (h2 : Chain.order q1 s' = l) (h3 : ∀ p ∈ w.live, content p s' = content p w.s) : Made w q1 s' l := by
  obtain ⟨ids, hr, _, _⟩ := h1.rep
  exact ⟨h1, h2, hr.order_nodup (List.mem_cons_self ..), h3⟩

/-- C52: union: first the members of the queue, then those of the other that aren't in it -/
theorem C52_union {w : PW} (h : PReach w) {q qb q1} (hq : q ∈ w.live) (hqb : qb ∈ w.live) (hq1 : q1 ∉ w.live) :
    ∃ s', union q qb q1 w.s = .ok s' ∧ Made w q1 s' (order q w.s ++ (order qb w.s).filter (fun c => decide (c ∉ order q w.s))) := by
  obtain ⟨s', e1, e2, e3, e4, _⟩ := make2 (fun _ => true) (fun c => decide (c ∉ order q w.s)) (fun _ => 0) h hq hqb hq1 (by
    intro c _ h1 h2; simp at h1; exact absurd h2 h1)
  refine ⟨s', e1, .mk' e2 ?_ e4⟩
  unfold order; rw [e3, List.map_append, picked_c, picked_c]; simp [order]

/-- C52: intersection -/
theorem C52_intersection {w : PW} (h : PReach w) {q qb q1} (hq : q ∈ w.live) (hq1 : q1 ∉ w.live) :
    ∃ s', intersection q qb q1 w.s = .ok s' ∧ Made w q1 s' ((order q w.s).filter (fun c => decide (c ∈ order qb w.s))) := by
  obtain ⟨s', e1, e2, e3, e4, _⟩ := make1 (fun c => decide (c ∈ order qb w.s)) (fun _ => 0) h hq hq1
  refine ⟨s', e1, .mk' e2 ?_ e4⟩
  unfold order; rw [e3, picked_c]; rfl

/-- C52: difference; the priorities are kept -/
theorem C52_difference {w : PW} (h : PReach w) {q qb q1} (hq : q ∈ w.live) (hq1 : q1 ∉ w.live) :
    ∃ s', difference q qb q1 w.s = .ok s' ∧ Made w q1 s' ((order q w.s).filter (fun c => decide (c ∉ order qb w.s))) ∧
      (content q1 s').map QMem.prio = ((content q w.s).filter (fun m => decide (m.c ∉ order qb w.s))).map QMem.prio := by
  obtain ⟨s', e1, e2, e3, e4, _⟩ := make1 (fun c => decide (c ∉ order qb w.s)) id h hq hq1
  refine ⟨s', e1, .mk' e2 ?_ e4, ?_⟩
  · unfold order; rw [e3, picked_c]; rfl
  · rw [e3, picked, List.map_map]; rfl

/-- C52: symmetric difference: the members of the queue that aren't in the other, then the members of the other that aren't in it -/
theorem C52_symmetric_difference {w : PW} (h : PReach w) {q qb q1} (hq : q ∈ w.live) (hqb : qb ∈ w.live) (hq1 : q1 ∉ w.live) :
    ∃ s', symmetricDifference q qb q1 w.s = .ok s' ∧ Made w q1 s'
      ((order q w.s).filter (fun c => decide (c ∉ order qb w.s)) ++ (order qb w.s).filter (fun c => decide (c ∉ order q w.s))) := by
  obtain ⟨s', e1, e2, e3, e4, _⟩ := make2 (fun c => decide (c ∉ (order q w.s).filter (fun c => decide (c ∈ order qb w.s))))
    (fun c => decide (c ∉ (order q w.s).filter (fun c => decide (c ∈ order qb w.s)))) (fun _ => 0) h hq hqb hq1 (by
    intro c h0 h1 h2; simp at h1; rcases h1 with h1 | h1 <;> contradiction)
  refine ⟨s', e1, .mk' e2 ?_ e4⟩
  unfold order; rw [e3, List.map_append, picked_c, picked_c]
  congr 1 <;> refine List.filter_congr fun c hc => ?_ <;> simp only [← order_eq_map] at hc ⊢
  · by_cases hx : c ∈ order qb w.s <;> simp [List.mem_filter, hc, hx]
  · by_cases hx : c ∈ order q w.s <;> simp [List.mem_filter, hc, hx]

/-- C52: copy: same members, order and priorities -/
theorem C52_copy {w : PW} (h : PReach w) {q q1} (hq : q ∈ w.live) (hq1 : q1 ∉ w.live) :
    ∃ s', copy q q1 false w.s = .ok s' ∧ Made w q1 s' (order q w.s) ∧ (content q1 s').map QMem.prio = (content q w.s).map QMem.prio := by
  obtain ⟨s', e1, e2, e3, e4, _⟩ := make1 (fun _ => true) id h hq hq1
  refine ⟨s', e1, .mk' e2 ?_ e4, ?_⟩
  · unfold order; rw [e3, picked_c]; simp
  · rw [e3, picked, List.map_map]; simp

/-- C52: copy with the capacity, when the members fit (they always do unless the capacity was lowered) -/
theorem C52_copy_capacity {w : PW} (h : PReach w) {q q1} (hq : q ∈ w.live) (hq1 : q1 ∉ w.live) (hf : (((order q w.s).length : Nat) : Rat) ≤ (w.s.queues q).cap) :
    ∃ s', copy q q1 true w.s = .ok s' ∧ Made w q1 s' (order q w.s) ∧ (s'.queues q1).cap = (w.s.queues q).cap := by
  obtain ⟨n1, n2, n3, n4, n5⟩ := newCopy_step h hq1 (w.s.queues q).cap
  have hne : q ≠ q1 := fun h => hq1 (h ▸ hq)
  have hspec := copyFrom_spec (fun _ => true) id hne n1 (List.mem_cons_of_mem _ hq) (List.mem_cons_self ..) (by
    intro c _ _; unfold order; simp [n2])
  simp only [n3 q hq, n4, n5] at hspec
  obtain ⟨s', e1, e2⟩ := hspec.1 (.inr (by
    have : (picked (fun _ => true) id w.s.now (content q w.s)).length = (order q w.s).length := by simp [picked, order]
    rw [this]; unfold order; rw [n2]; simpa [order] using hf))
  refine ⟨s', e1, .mk' e2.reach ?_ ?_, e2.cap.trans n4⟩
  · have := e2.cont; simp only [n2, List.nil_append] at this
    unfold order; rw [this, picked_c]; simp
  · intro p hp
    have := (e2.others p (fun h => hq1 (h ▸ hp)) (List.mem_cons_of_mem _ hp)).1
    exact this.trans (n3 p hp)

/-- C52: clear -/
theorem C52_clear {w : PW} (h : PReach w) {q} (hq : q ∈ w.live) :
    ∃ s', clear q w.s = .ok s' ∧ PReach ⟨s', w.live⟩ ∧ order q s' = [] ∧ ∀ p ∈ w.live, p ≠ q → content p s' = content p w.s := by
  obtain ⟨s', e1, e2, e3, e4, _⟩ := clear_spec h hq
  exact ⟨s', e1, e2, by unfold order; rw [e3]; rfl, fun p hp hpq => (e4 p hpq hp).1⟩

/-- C52: move: a copy, and the queue becomes empty -/
theorem C52_move {w : PW} (h : PReach w) {q q1} (hq : q ∈ w.live) (hq1 : q1 ∉ w.live) :
    ∃ s', move q q1 false w.s = .ok s' ∧ PReach ⟨s', q1 :: w.live⟩ ∧ order q1 s' = order q w.s ∧ order q s' = [] ∧
      ∀ p ∈ w.live, p ≠ q → content p s' = content p w.s := by
  obtain ⟨s1, e1, e2, _⟩ := C52_copy h hq hq1
  obtain ⟨s', f1, f2, f3, f4⟩ := C52_clear e2.reach (List.mem_cons_of_mem _ hq)
  have hne : q1 ≠ q := fun h => hq1 (h ▸ hq)
  refine ⟨s', ?_, f2, ?_, f3, fun p hp hpq => (f4 p (List.mem_cons_of_mem _ hp) hpq).trans (e2.others p hp)⟩
  · unfold move; rw [e1]; exact f1
  · have := f4 q1 (List.mem_cons_self ..) hne
    unfold order; rw [this]; exact e2.order

/-- C52: extend (when it doesn't raise): the members of the source that aren't present are added at the end, in their order -/
theorem C52_extend {w : PW} (h : PReach w) {q src s'} (hq : q ∈ w.live) (hs : src ∈ w.live) (he : extend q src false w.s = .ok s') :
    PReach ⟨s', w.live⟩ ∧ order q s' = order q w.s ++ (order src w.s).filter (fun c => decide (c ∉ order q w.s)) ∧
      ∀ p ∈ w.live, p ≠ q → content p s' = content p w.s := by
  obtain ⟨ids, hr, _, _⟩ := h.rep
  have hx : extendLoop q (order src w.s) w.s = .ok s' := by
    unfold extend at he
    cases hl : extendLoop q (order src w.s) w.s with
    | ok s1 => rw [hl] at he; simpa [PR.andThen] using he
    | err e s1 => rw [hl] at he; cases he
  obtain ⟨a, b, c⟩ := extendLoop_spec (order src w.s) w h hq (hr.order_nodup hs) s' hx
  exact ⟨a, b, fun p hp hpq => (c p hpq hp).1⟩

theorem extendLoop_ok {q : QId} : ∀ (cs : List CId) (w : PW), PReach w → q ∈ w.live → cs.Nodup →
    Fits (w.s.queues q).cap (order q w.s).length (cs.filter (fun c => decide (c ∉ order q w.s))).length → ∃ s', extendLoop q cs w.s = .ok s' := by
  intro cs
  induction cs with
  | nil => intro w _ _ _ _; exact ⟨w.s, rfl⟩
  | cons c cs ih =>
    intro w hw hq hn hf
    rw [List.nodup_cons] at hn
    unfold extendLoop
    by_cases hc : c ∈ order q w.s
    · rw [if_pos (((C15_membership hw hq).1 c).1 hc)]
      refine ih w hw hq hn.2 ?_
      rw [List.filter_cons, if_neg (by simpa using hc)] at hf
      exact hf
    · rw [if_neg (fun hh => hc (((C15_membership hw hq).1 c).2 hh))]
      rw [List.filter_cons, if_pos (by simpa using hc), List.length_cons] at hf
      have hf' := hf.resolve_left (by omega)
      have hroom : (((order q w.s).length + 1 : Nat) : Rat) ≤ (w.s.queues q).cap := by
        refine le_trans ?_ hf'
        have : (order q w.s).length + 1 ≤ (order q w.s).length + ((cs.filter (fun c => decide (c ∉ order q w.s))).length + 1) := by omega
        exact_mod_cast this
      obtain ⟨w', hs⟩ := (C14_room hw hq hc (.enter c q) (.inl rfl)).1 hroom
      obtain ⟨p, e1, _⟩ := (C11_operations hw hs rfl).1
      obtain ⟨_, k1, _, k3⟩ := C14_within hw hs rfl rfl
      have hord : order q w'.s = order q w.s ++ [c] := by unfold order; rw [e1]; simp
      cases hs with
      | op o q' s1 ho hl hp =>
        have hp' : enter c q none w.s = .ok s1 := hp
        rw [hp']
        refine ih ⟨s1, w.live⟩ (.step (.enter c q) none hw (.op _ q _ rfl hq hp)) hq hn.2 ?_
        right
        have hfil : (cs.filter (fun x => decide (x ∉ order q s1))) = cs.filter (fun x => decide (x ∉ order q w.s)) := by
          refine List.filter_congr fun x hx => ?_
          have : x ≠ c := fun h => hn.1 (h ▸ hx)
          have hord : order q s1 = order q w.s ++ [c] := hord
          rw [hord]; simp [this]
        simp only at k1 k3 ⊢
        rw [hfil, k1, k3]
        refine le_trans (le_of_eq ?_) hf'
        congr 2; omega

/-- C52: extend doesn't raise if there is room for what is to be added -/
theorem C52_extend_ok {w : PW} (h : PReach w) {q src} (hq : q ∈ w.live) (hs : src ∈ w.live)
    (hf : (((order q w.s ++ (order src w.s).filter (fun c => decide (c ∉ order q w.s))).length : Nat) : Rat) ≤ (w.s.queues q).cap) :
    ∃ s', extend q src false w.s = .ok s' := by
  obtain ⟨s', hs'⟩ := extendLoop_ok (order src w.s) w h hq (C15_membership h hs).2 (.inr (by rw [List.length_append] at hf; exact hf))
  exact ⟨s', by unfold extend; rw [hs']; rfl⟩

/-- C52: extend with `clear_source`: the source becomes empty -/
theorem C52_extend_clear {w : PW} (h : PReach w) {q src s'} (hq : q ∈ w.live) (hs : src ∈ w.live) (hne : q ≠ src) (he : extend q src true w.s = .ok s') :
    PReach ⟨s', w.live⟩ ∧ order q s' = order q w.s ++ (order src w.s).filter (fun c => decide (c ∉ order q w.s)) ∧ order src s' = [] ∧
      ∀ p ∈ w.live, p ≠ q → p ≠ src → content p s' = content p w.s := by
  cases hl : extendLoop q (order src w.s) w.s with
  | err e s1 => unfold extend at he; rw [hl] at he; cases he
  | ok s1 =>
    have he1 : extend q src false w.s = .ok s1 := by unfold extend; rw [hl]; rfl
    obtain ⟨a, b, d⟩ := C52_extend h hq hs he1
    obtain ⟨s2, f1, f2, f3, f4⟩ := C52_clear a hs
    unfold extend at he; rw [hl] at he
    simp only [PR.andThen, if_true] at he
    rw [f1] at he; cases he
    refine ⟨f2, ?_, f3, fun p hp h1 h2 => (f4 p hp h2).trans (d p hp h1)⟩
    have := f4 q hq hne
    unfold order at b ⊢; rw [this]; exact b

/-- non-vacuity of C52 -/
example : (match union 0 1 2 demoQW.s with | .ok s => order 2 s | .err _ _ => []) = [13, 14, 11, 12, 10] ∧
    (match symmetricDifference 0 1 2 demoQW.s with | .ok s => order 2 s | .err _ _ => []) = [13, 14, 12, 10] ∧ 2 ∉ demoQW.live := by decide +kernel
example : (match extend 1 0 false demoQW.s with | .ok s => order 1 s | .err _ _ => []) = [10, 11, 13, 14, 12] := by decide +kernel

/-! ## C53 -/

/-- C53. Full statement: `(w.s.queues q).avail = ETime.subQ (w.s.queues q).cap (order q w.s).length`, always. It is false (see below) for an empty queue
made by `copy(copy_capacity=True)`; this is what holds. -/
theorem C53_available_partial {w q} (h : PReach w) (hq : q ∈ w.live) :
    (w.s.queues q).avail = ETime.subQ (w.s.queues q).cap ((order q w.s).length : Int) ∨ ((w.s.queues q).avail = ⊤ ∧ order q w.s = []) := by
  obtain ⟨ids, hr, _, _⟩ := h.rep
  have hl := hr.length hq
  rcases hr.avail q hq with h | ⟨h1, h2⟩
  · left; rw [h, hl]
  · right; refine ⟨h1, ?_⟩
    rw [hl] at h2
    exact List.length_eq_zero_iff.1 (by exact_mod_cast h2)

/-- the exception exists: a copy with capacity of an empty queue has available quantity inf although its capacity is 3 -/
theorem C53_copy_counterexample : ∃ w, PReach w ∧ 0 ∈ w.live ∧ ∃ s', copy 0 1 true w.s = .ok s' ∧ (s'.queues 1).cap = (3 : Rat) ∧ (s'.queues 1).avail = ⊤ := by
  let w := (pexec [.newQueue 0 (3 : Rat)] .empty).getD .empty
  have h : (pexec [.newQueue 0 (3 : Rat)] .empty) = some w := rfl
  exact ⟨w, pexec_reach .empty h, by decide +kernel, _, rfl, by decide +kernel, by decide +kernel⟩

end Chain
end Verif
