import Verif.ChainOps

/-!
# Histories of queue operations at pointer level, observers, iterators
-/

namespace Verif
namespace Chain
open Queue (QR)

/-- calls on queues -/
inductive POp
  | newQueue (q : QId) (cap : ETime)
  /-- the new queue of `copy(copy_capacity=True)` -/
  | newCopy (q : QId) (cap : ETime)
  /-- time passes -/
  | tick (d : Rat)
  | enter (c : CId) (q : QId) | enterSorted (c : CId) (q : QId) (p : Rat) | enterAtHead (c : CId) (q : QId)
  | enterInFrontOf (c : CId) (q : QId) (p : CId) | enterBehind (c : CId) (q : QId) (p : CId) | insertAt (c : CId) (q : QId) (i : Int)
  /-- step of the set operations -/
  | append (c : CId) (q : QId) (p : Rat)
  | leave (c : CId) (q : QId) | setPriority (c : CId) (q : QId) (p : Rat) | setCapacity (q : QId) (cap : ETime)
  | resetRates (q : QId) (a d : Bool)
  /-- start of a loop over a queue (forward or reversed), by anyone -/
  | iterNew (q : QId) (rev : Bool)
  /-- a step of some iterator -/
  | iterNext (it : It)

/-- pointer state plus the queues that exist -/
structure PW where
  s : PS
  live : List QId

/-- nothing exists -/
def PW.empty : PW := ⟨⟨0, fun _ => {}, 0, fun _ => ⟨0, 0, 0, ⊤, 0, 0, 0, 0, [], [], ⊤, 0, []⟩, fun _ _ => none⟩, []⟩

/-- the queue that an operation needs -/
def POp.queue : POp → Option QId
  | .newQueue _ _ | .newCopy _ _ | .tick _ => none
  | .enter _ q | .enterSorted _ q _ | .enterAtHead _ q | .enterInFrontOf _ q _ | .enterBehind _ q _ | .insertAt _ q _ | .append _ q _
  | .leave _ q | .setPriority _ q _ | .setCapacity q _ | .resetRates q _ _ | .iterNew q _ => some q
  | .iterNext it => some it.q

/-- effect of a call on the pointer structure -/
def prun1 : POp → PS → PR
  | .newQueue q cap, s => .ok (newQueue q cap s)
  | .newCopy q cap, s => .ok (newCopy q cap s)
  | .tick d, s => .ok { s with now := s.now + d }
  | .enter c q, s => enter c q none s
  | .enterSorted c q p, s => enter c q (some p) s
  | .enterAtHead c q, s => enterAtHead c q s
  | .enterInFrontOf c q p, s => enterInFrontOf c q p s
  | .enterBehind c q p, s => enterBehind c q p s
  | .insertAt c q i, s => insertAt c q i s
  | .append c q p, s => append c q p s
  | .leave c q, s => leave c q s
  | .setPriority c q p, s => setPriority c q p s
  | .setCapacity q cap, s => .ok (setCapacity q cap s)
  | .resetRates q a d, s => .ok (resetRates q a d s)
  | .iterNew q rev, s => .ok (iterNew q rev s).2
  | .iterNext it, s => .ok (iterNext it s).2.2

/-- one step of a history: the queue must exist, a new queue must not -/
inductive PStep (w : PW) : POp → PW → Option Err → Prop
  | create (q cap) : q ∉ w.live → PStep w (.newQueue q cap) ⟨newQueue q cap w.s, q :: w.live⟩ none
  | createCopy (q cap) : q ∉ w.live → PStep w (.newCopy q cap) ⟨newCopy q cap w.s, q :: w.live⟩ none
  | tick (d) : 0 ≤ d → PStep w (.tick d) ⟨{ w.s with now := w.s.now + d }, w.live⟩ none
  | op (o : POp) (q : QId) (s') : o.queue = some q → q ∈ w.live → prun1 o w.s = .ok s' → PStep w o ⟨s', w.live⟩ none
  | raise (o : POp) (q : QId) (e) (s') : o.queue = some q → q ∈ w.live → prun1 o w.s = .err e s' → PStep w o ⟨s', w.live⟩ (some e)

/-- the states that occur -/
inductive PReach : PW → Prop
  | empty : PReach .empty
  | step {w w'} (o e) : PReach w → PStep w o w' e → PReach w'

abbrev PW.Live (w : PW) (q : QId) : Prop := q ∈ w.live

theorem nat_ne {n k : Nat} (h : n < k) : n ≠ k + 1 := by omega

theorem setQ_rep {s live ids} (h : Rep s live ids) (q) (f : PQ → PQ) (hf : ∀ x, (f x).head = x.head ∧ (f x).tail = x.tail ∧ (f x).length = x.length ∧
    (f x).cap = x.cap ∧ (f x).avail = x.avail) : Rep (s.setQ q f) live ids := by
  have hr : ∀ p, ring (s.setQ q f) ids p = ring s ids p := by
    intro p; unfold ring; rw [setQ_queues]; split
    · rw [(hf _).1, (hf _).2.1]
    · rfl
  have hq : ∀ p, ((s.setQ q f).queues p).head = (s.queues p).head ∧ ((s.setQ q f).queues p).tail = (s.queues p).tail ∧ ((s.setQ q f).queues p).length = (s.queues p).length ∧
    ((s.setQ q f).queues p).cap = (s.queues p).cap ∧ ((s.setQ q f).queues p).avail = (s.queues p).avail := by
    intro p; rw [setQ_queues]; split
    · exact hf _
    · exact ⟨rfl, rfl, rfl, rfl, rfl⟩
  refine ⟨⟨?_, ?_, ?_, ?_⟩, ?_, ?_, ?_, h.qm, h.comp, ?_⟩
  · intro p hp; rw [hr]; exact h.chain p hp
  · intro p hp; rw [hr]; exact h.nodup p hp
  · intro p p' hp hp' hpp; rw [hr, hr]; exact h.disj p p' hp hp' hpp
  · intro p hp; rw [hr]; exact h.lt p hp
  · intro p hp; rw [(hq p).2.2.1]; exact h.len p hp
  · intro p hp; rw [(hq p).1]; exact h.hd p hp
  · intro p hp; rw [(hq p).2.1]; exact h.tl p hp
  · intro p hp; rw [(hq p).2.2.1, (hq p).2.2.2.1, (hq p).2.2.2.2]; exact h.avail p hp

theorem newQueue_rep {s live ids} (h : Rep s live ids) {q} (hq : ¬ live q) (cap) (hids : ids q = []) :
    Rep (newQueue q cap s) (fun p => p = q ∨ live p) ids := by
  have hN : ∀ n, n < s.next → (newQueue q cap s).nodes n = s.nodes n := by
    intro n hn
    unfold newQueue
    simp only [setQ_nodes, setN_nodes]
    rw [if_neg (nat_ne hn), if_neg (ne_of_lt hn)]
  have hQ : ∀ p, p ≠ q → (newQueue q cap s).queues p = s.queues p := by
    intro p hp; simp [newQueue, setQ_queues, hp]
  have hQq : (newQueue q cap s).queues q = { head := s.next, tail := s.next + 1, cap := cap, avail := cap, arrivalsT0 := s.now, departuresT0 := s.now } := by
    simp [newQueue, setQ_queues]
  have hnh : (newQueue q cap s).nodes s.next = { succ := some (s.next + 1) } := by
    simp [newQueue, setN_nodes]
  have hnt : (newQueue q cap s).nodes (s.next + 1) = { pred := some s.next } := by
    simp [newQueue, setN_nodes]
  have hr : ∀ p, p ≠ q → ring (newQueue q cap s) ids p = ring s ids p := by
    intro p hp; unfold ring; rw [hQ p hp]
  have hrq : ring (newQueue q cap s) ids q = [s.next, s.next + 1] := by
    unfold ring; rw [hQq, hids]; rfl
  have hlq : ∀ p, live p → p ≠ q := fun p hp hh => hq (hh ▸ hp)
  have hnx : (newQueue q cap s).next = s.next + 2 := rfl
  refine ⟨⟨?_, ?_, ?_, ?_⟩, ?_, ?_, ?_, ?_, ?_, ?_⟩
  · intro p hp
    by_cases hpq : p = q
    · subst hpq
      rw [hrq, List.isChain_cons_cons]
      exact ⟨⟨by rw [hnh], by rw [hnt]⟩, by simp⟩
    · have hp := hp.resolve_left hpq
      rw [hr p hpq]
      refine chain_frame (h.chain p hp) ?_ ?_
      · intro x hx; rw [hN x (h.lt p hp x (List.mem_of_mem_dropLast hx))]
      · intro x hx; rw [hN x (h.lt p hp x (List.mem_of_mem_tail hx))]
  · intro p hp
    by_cases hpq : p = q
    · subst hpq; rw [hrq]; simp
    · rw [hr p hpq]; exact h.nodup p (hp.resolve_left hpq)
  · have key : ∀ p, live p → ∀ n ∈ ring s ids p, n ∉ [s.next, s.next + 1] := by
      intro p hp n hn hx
      have h1 : n < s.next := h.lt p hp n hn
      simp only [List.mem_cons, List.not_mem_nil, or_false] at hx
      rcases hx with hx | hx
      · exact absurd h1 (by rw [hx]; exact lt_irrefl _)
      · exact nat_ne h1 hx
    intro p p' hp hp' hpp n hn
    by_cases hpq : p = q
    · subst hpq
      have hp' := hp'.resolve_left (Ne.symm hpp)
      rw [hr p' (Ne.symm hpp)]
      rw [hrq] at hn
      exact fun hx => key p' hp' n hx hn
    · have hp := hp.resolve_left hpq
      rw [hr p hpq] at hn
      by_cases hpq' : p' = q
      · rw [hpq', hrq]; exact key p hp n hn
      · rw [hr p' hpq']; exact h.disj p p' hp (hp'.resolve_left hpq') hpp n hn
  · intro p hp n hn
    rw [hnx]
    by_cases hpq : p = q
    · subst hpq
      rw [hrq] at hn
      simp only [List.mem_cons, List.not_mem_nil, or_false] at hn
      rcases hn with hn | hn
      · rw [hn]; exact Nat.lt_add_of_pos_right (by decide)
      · rw [hn]; exact Nat.lt_succ_self _
    · rw [hr p hpq] at hn
      exact lt_of_lt_of_le (h.lt p (hp.resolve_left hpq) n hn) (Nat.le_add_right _ _)
  · intro p hp
    by_cases hpq : p = q
    · subst hpq; rw [hQq, hids]; rfl
    · rw [hQ p hpq]; exact h.len p (hp.resolve_left hpq)
  · intro p hp
    by_cases hpq : p = q
    · subst hpq; rw [hQq]; simp only; rw [hnh]; exact ⟨rfl, rfl⟩
    · have hp := hp.resolve_left hpq
      rw [hQ p hpq, hN _ (h.lt p hp _ head_mem)]; exact h.hd p hp
  · intro p hp
    by_cases hpq : p = q
    · subst hpq; rw [hQq]; simp only; rw [hnt]; exact ⟨rfl, rfl⟩
    · have hp := hp.resolve_left hpq
      rw [hQ p hpq, hN _ (h.lt p hp _ tail_mem)]; exact h.tl p hp
  · intro c p n
    show s.qm c p = some n ↔ _
    rw [h.qm]
    constructor
    · rintro ⟨a, b, d⟩
      exact ⟨.inr a, b, by rw [hN n (h.lt p a n (mem_ring b))]; exact d⟩
    · rintro ⟨a, b, d⟩
      have hpq : p ≠ q := by rintro rfl; rw [hids] at b; cases b
      have a := a.resolve_left hpq
      exact ⟨a, b, by rw [← hN n (h.lt p a n (mem_ring b))]; exact d⟩
  · intro p hp n hn
    have hpq : p ≠ q := by rintro rfl; rw [hids] at hn; cases hn
    have hp := hp.resolve_left hpq
    rw [hN n (h.lt p hp n (mem_ring hn))]; exact h.comp p hp n hn
  · intro p hp
    by_cases hpq : p = q
    · subst hpq; rw [hQq]; simp only [ETime.subQ]; left
      cases cap using WithTop.recTopCoe with
      | top => rfl
      | coe k => simp [WithTop.map_coe]
    · rw [hQ p hpq]; exact h.avail p (hp.resolve_left hpq)

theorem setCapacity_rep {s live ids} (h : Rep s live ids) (q cap) : Rep (setCapacity q cap s) live ids := by
  have hq : ∀ p, ((setCapacity q cap s).queues p).head = (s.queues p).head ∧ ((setCapacity q cap s).queues p).tail = (s.queues p).tail ∧
      ((setCapacity q cap s).queues p).length = (s.queues p).length := by
    intro p; unfold setCapacity; rw [setQ_queues]; split <;> exact ⟨rfl, rfl, rfl⟩
  have hr : ∀ p, ring (setCapacity q cap s) ids p = ring s ids p := by
    intro p; unfold ring; rw [(hq p).1, (hq p).2.1]
  refine ⟨⟨?_, ?_, ?_, ?_⟩, ?_, ?_, ?_, h.qm, h.comp, ?_⟩
  · intro p hp; rw [hr]; exact h.chain p hp
  · intro p hp; rw [hr]; exact h.nodup p hp
  · intro p p' hp hp' hpp; rw [hr, hr]; exact h.disj p p' hp hp' hpp
  · intro p hp; rw [hr]; exact h.lt p hp
  · intro p hp; rw [(hq p).2.2]; exact h.len p hp
  · intro p hp; rw [(hq p).1]; exact h.hd p hp
  · intro p hp; rw [(hq p).2.1]; exact h.tl p hp
  · intro p hp
    unfold setCapacity
    rw [setQ_queues]
    split
    · exact .inl rfl
    · exact h.avail p hp

theorem newCopy_rep {s live ids} (h : Rep s live ids) {q} (hq : ¬ live q) (cap) (hids : ids q = []) :
    Rep (newCopy q cap s) (fun p => p = q ∨ live p) ids := by
  have h0 := newQueue_rep h hq ⊤ hids
  unfold newCopy
  have hx : ((newQueue q ⊤ s).queues q).avail = ⊤ ∧ ((newQueue q ⊤ s).queues q).length = 0 := by simp [newQueue, setQ_queues]
  generalize newQueue q ⊤ s = s1 at h0 hx
  have hqq : ∀ p, ((s1.setQ q (fun x => { x with cap := cap })).queues p).head = (s1.queues p).head ∧
      ((s1.setQ q (fun x => { x with cap := cap })).queues p).tail = (s1.queues p).tail ∧
      ((s1.setQ q (fun x => { x with cap := cap })).queues p).length = (s1.queues p).length := by
    intro p; rw [setQ_queues]; split <;> exact ⟨rfl, rfl, rfl⟩
  have hr : ∀ p, ring (s1.setQ q (fun x => { x with cap := cap })) ids p = ring s1 ids p := by
    intro p; unfold ring; rw [(hqq p).1, (hqq p).2.1]
  refine ⟨⟨?_, ?_, ?_, ?_⟩, ?_, ?_, ?_, h0.qm, h0.comp, ?_⟩
  · intro p hp; rw [hr]; exact h0.chain p hp
  · intro p hp; rw [hr]; exact h0.nodup p hp
  · intro p p' hp hp' hpp; rw [hr, hr]; exact h0.disj p p' hp hp' hpp
  · intro p hp; rw [hr]; exact h0.lt p hp
  · intro p hp; rw [(hqq p).2.2]; exact h0.len p hp
  · intro p hp; rw [(hqq p).1]; exact h0.hd p hp
  · intro p hp; rw [(hqq p).2.1]; exact h0.tl p hp
  · intro p hp
    rw [setQ_queues]
    split
    · rename_i hpq; subst hpq; exact .inr hx
    · exact h0.avail p hp

/-! ## traversals -/

theorem Wf.walkFwd {s live ids} (h : Wf s live ids) {q} (hq : live q) :
    ∀ (l2 l1 : List NId) (m2 : NId) (B : List NId) (fuel : Nat), ids q = l1 ++ l2 → l2 ++ [(s.queues q).tail] = m2 :: B → l2.length < fuel →
    walkFwd s (s.queues q).tail fuel m2 = some l2 := by
  intro l2
  induction l2 with
  | nil =>
    intro l1 m2 B fuel hi h2 hf
    cases fuel with
    | zero => simp at hf
    | succ f =>
      have : m2 = (s.queues q).tail := (List.cons.inj h2).1.symm
      unfold Chain.walkFwd
      simp [this]
  | cons a l2 ih =>
    intro l1 m2 B fuel hi h2 hf
    cases fuel with
    | zero => simp at hf
    | succ f =>
      have ha : a = m2 := (List.cons.inj h2).1
      subst ha
      have hi' : ids q = (l1 ++ [a]) ++ l2 := by simpa using hi
      obtain ⟨m', B', h2'⟩ := cons_of_snoc (s.queues q).tail l2
      have hl := (h.link hq (l1 := l1 ++ [a]) (A := (s.queues q).head :: l1) (m1 := a) hi' (by simp) h2').1
      have hne : a ≠ (s.queues q).tail := by
        have hn := h.nodup q hq
        unfold ring at hn
        rw [List.nodup_cons, List.nodup_append] at hn
        intro hh
        exact hn.2.2.2 a (by rw [hi]; simp) a (by simp [hh]) rfl
      unfold Chain.walkFwd
      rw [if_neg hne, hl]
      simp only
      rw [ih (l1 ++ [a]) m' B' f hi' h2' (by simpa using hf)]; rfl

theorem Wf.walkBwd {s live ids} (h : Wf s live ids) {q} (hq : live q) :
    ∀ (r l2 : List NId) (A : List NId) (m1 : NId) (fuel : Nat), ids q = r.reverse ++ l2 → (s.queues q).head :: r.reverse = A ++ [m1] → r.length < fuel →
    walkBwd s (s.queues q).head fuel m1 = some r := by
  intro r
  induction r with
  | nil =>
    intro l2 A m1 fuel hi h1 hf
    cases fuel with
    | zero => simp at hf
    | succ f =>
      have : m1 = (s.queues q).head := by
        have := congrArg List.getLast? h1; simpa using this.symm
      unfold Chain.walkBwd
      simp [this]
  | cons a r ih =>
    intro l2 A m1 fuel hi h1 hf
    cases fuel with
    | zero => simp at hf
    | succ f =>
      have ha : m1 = a := by
        rw [List.reverse_cons, ← List.cons_append] at h1
        have := congrArg List.getLast? h1
        rw [List.getLast?_concat, List.getLast?_concat] at this
        exact (Option.some.inj this).symm
      subst ha
      obtain ⟨A', m', h1'⟩ := snoc_of_cons (s.queues q).head r.reverse
      have hi' : ids q = r.reverse ++ (m1 :: l2) := by simpa using hi
      have hl := (h.link hq hi' h1' (m2 := m1) (B := l2 ++ [(s.queues q).tail]) rfl).2
      have hne : m1 ≠ (s.queues q).head := by
        have hn := h.nodup q hq
        unfold ring at hn
        rw [List.nodup_cons] at hn
        intro hh
        exact hn.1 (by rw [← hh, hi']; simp)
      unfold Chain.walkBwd
      rw [if_neg hne, hl]
      simp only
      rw [ih (m1 :: l2) A' m' f hi' h1' (by simpa using hf)]; rfl

theorem Wf.members {s live ids} (h : Wf s live ids) {q} (hq : live q) : members q s = some (ids q) := by
  obtain ⟨m, B, hm⟩ := cons_of_snoc (s.queues q).tail (ids q)
  unfold Chain.members
  rw [h.head_succ hq hm]
  exact h.walkFwd hq (ids q) [] m B s.next (by simp) hm (by have := h.fuel hq; omega)

theorem Wf.membersRev {s live ids} (h : Wf s live ids) {q} (hq : live q) : membersRev q s = some (ids q).reverse := by
  obtain ⟨A, m, hm⟩ := snoc_of_cons (s.queues q).head (ids q)
  unfold Chain.membersRev
  rw [h.tail_pred hq hm]
  refine h.walkBwd hq (ids q).reverse [] A m s.next (by simp) (by simpa using hm) (by have := h.fuel hq; simp; omega)

theorem Wf.scan {s live ids} (h : Wf s live ids) {q} (hq : live q) (rev) : scan rev q s = if rev then (ids q).reverse else ids q := by
  unfold Chain.scan
  split
  · rw [h.membersRev hq]; rfl
  · rw [h.members hq]; rfl

theorem Rep.comps {s live ids} (h : Rep s live ids) {q} (hq : live q) :
    (ids q).map (fun n => (s.nodes n).comp) = ((abs s ids q).mem.map QMem.c).map some := by
  simp only [abs, List.map_map]
  refine List.map_congr_left fun n hn => ?_
  obtain ⟨c, hc⟩ := Option.isSome_iff_exists.1 (h.comp q hq n hn)
  simp [mem, hc]

/-! ## all operations -/

/-- the list operation that belongs to a call -/
def lop : POp → Rat → Queue → QR
  | .enter c _, t, q => q.enter t c
  | .enterSorted c _ p, t, q => q.enterSorted t c p
  | .enterAtHead c _, t, q => q.enterAtHead t c
  | .enterInFrontOf c _ p, t, q => q.enterInFrontOf t c p
  | .enterBehind c _ p, t, q => q.enterBehind t c p
  | .insertAt c _ i, t, q => q.insertAt t c i
  | .append c _ p, t, q => q.append t c p
  | .leave c _, t, q => q.leave t c
  | .setPriority c _ p, _, q => q.setPriority c p
  | .setCapacity _ k, _, q => .ok (q.setCapacity k)
  | .resetRates _ a d, t, q => .ok (q.resetRates t a d)
  | .iterNew _ _, _, q => .ok q
  | .iterNext _, _, q => .ok q
  | .newQueue _ _, _, q => .ok q
  | .newCopy _ _, _, q => .ok q
  | .tick _, _, q => .ok q

/-- not an iterator operation -/
def POp.isOp : POp → Bool
  | .iterNew _ _ | .iterNext _ | .newQueue _ _ | .newCopy _ _ | .tick _ => false
  | _ => true

/-- the component that leaves -/
def POp.leaver : POp → Option CId
  | .leave c _ => some c
  | _ => none

theorem prun1_refines {s live ids} (h : Rep s live ids) {o : POp} {q} (ho : o.queue = some q) (hq : live q) (hop : o.isOp) :
    Refines s live ids q o.leaver (prun1 o s) (lop o s.now (abs s ids q)) := by
  cases o <;> simp only [POp.queue, Option.some.injEq, reduceCtorEq] at ho <;> simp only [POp.isOp, Bool.false_eq_true] at hop <;> subst ho
  · exact enter_refines h hq _
  · exact enterSorted_refines h hq _ _
  · exact enterAtHead_refines h hq _
  · exact enterInFrontOf_refines h hq _ _
  · exact enterBehind_refines h hq _ _
  · exact insertAt_refines h hq _ _
  · exact append_refines h hq _ _
  · exact leave_refines h hq _
  · exact setPriority_refines h hq _ _
  · rename_i q cap
    refine ⟨setCapacity q cap s, ids, rfl, setCapacity_rep h q cap, ?_, ?_, rfl, le_refl _, fun _ _ => .inl rfl, fun _ _ h => .inl h, fun _ _ h => .inl h, ?_, ?_⟩
    · simp [abs, setCapacity, setQ_queues, Queue.setCapacity, mem]
    · intro p hp _
      simp [abs, setCapacity, setQ_queues, hp, mem]
    · intro p; left; unfold setCapacity; rw [setQ_queues]; split <;> rfl
    · intro p; unfold setCapacity; rw [setQ_queues]; split <;> rfl
  · rename_i q a d
    refine ⟨resetRates q a d s, ids, rfl, setQ_rep h q _ (fun _ => ⟨rfl, rfl, rfl, rfl, rfl⟩),
      ?_, ?_, rfl, le_refl _, fun _ _ => .inl rfl, fun _ _ h => .inl h, fun _ _ h => .inl h, ?_, ?_⟩
    · simp [abs, resetRates, setQ_queues, Queue.resetRates, mem]
    · intro p hp _
      simp [abs, resetRates, setQ_queues, hp, mem]
    · intro p; left; unfold resetRates; rw [setQ_queues]; split <;> rfl
    · intro p; unfold resetRates; rw [setQ_queues]; split <;> rfl

theorem iterNew_rep {s live ids} (h : Rep s live ids) (q rev) :
    Rep (iterNew q rev s).2 live ids ∧ ∀ p, abs (iterNew q rev s).2 ids p = abs s ids p := by
  refine ⟨setQ_rep h q (fun x => { x with iterSeq := x.iterSeq + 1, touched := x.touched ++ [((s.queues q).iterSeq + 1, false)] })
    (fun _ => ⟨rfl, rfl, rfl, rfl, rfl⟩), fun p => ?_⟩
  unfold abs iterNew
  simp only [setQ_queues]
  split <;> rfl

/-- another dictionary of touched flags -/
def PQ.mapT (f : List (Nat × Bool) → List (Nat × Bool)) (x : PQ) : PQ := { x with touched := f x.touched }

theorem setQ_touched_rep {s live ids} (h : Rep s live ids) (q) (f : List (Nat × Bool) → List (Nat × Bool)) :
    Rep (s.setQ q (PQ.mapT f)) live ids ∧ ∀ p, abs (s.setQ q (PQ.mapT f)) ids p = abs s ids p := by
  refine ⟨setQ_rep h q (PQ.mapT f) (fun _ => ⟨rfl, rfl, rfl, rfl, rfl⟩), fun p => ?_⟩
  unfold abs
  simp only [setQ_queues, PQ.mapT]
  split <;> rfl

theorem setQ_mapT_mapT (s : PS) (q) (f g : List (Nat × Bool) → List (Nat × Bool)) :
    (s.setQ q (PQ.mapT f)).setQ q (PQ.mapT g) = s.setQ q (PQ.mapT (g ∘ f)) := by
  cases s
  simp only [PS.setQ, PS.mk.injEq, true_and, and_true]
  funext m
  by_cases hm : m = q
  · simp [hm, PQ.mapT]
  · simp [hm]

theorem setQ_mapT_id (s : PS) (q) : s.setQ q (PQ.mapT id) = s := by
  cases s
  simp only [PS.setQ, PS.mk.injEq, true_and, and_true]
  funext m
  by_cases hm : m = q
  · simp [hm, PQ.mapT]
  · simp [hm]

/-- what a step of an iterator does to the state: only the dictionary of touched flags -/
theorem iterNext_state (it : It) (s : PS) : ∃ f, (iterNext it s).2.2 = s.setQ it.q (PQ.mapT f) := by
  unfold iterNext
  split
  · exact ⟨id, (setQ_mapT_id _ _).symm⟩
  · split
    rename_i it' s' heq
    have hs' : it'.q = it.q ∧ ∃ f, s' = s.setQ it.q (PQ.mapT f) := by
      split at heq
      · cases heq; exact ⟨rfl, _, rfl⟩
      · cases heq; exact ⟨rfl, id, (setQ_mapT_id _ _).symm⟩
    obtain ⟨hq, f, rfl⟩ := hs'
    split
    · exact ⟨f, rfl⟩
    · rw [hq]
      exact ⟨_, setQ_mapT_mapT s it.q f _⟩

theorem iterNext_rep {s live ids} (h : Rep s live ids) (it : It) :
    Rep (iterNext it s).2.2 live ids ∧ ∀ p, abs (iterNext it s).2.2 ids p = abs s ids p := by
  obtain ⟨f, hf⟩ := iterNext_state it s
  rw [hf]
  exact setQ_touched_rep h it.q f

/-- every outcome of a call on an existing queue is that of the list operation -/
theorem prun1_sim {s live ids} (h : Rep s live ids) {o : POp} {q} (ho : o.queue = some q) (hq : live q) :
    match lop o s.now (abs s ids q) with
    | .notOk e => prun1 o s = .err e s
    | .ok q' => ∃ s' ids', prun1 o s = .ok s' ∧ Rep s' live ids' ∧ abs s' ids' q = q' ∧ (∀ p, p ≠ q → live p → abs s' ids' p = abs s ids p) ∧
        s'.now = s.now ∧ (∀ p, ¬ live p → ids p = [] → ids' p = []) := by
  by_cases hop : o.isOp
  · have := prun1_refines h ho hq hop
    split
    · rename_i e he; rw [he] at this; exact this
    · rename_i q' he
      rw [he] at this
      obtain ⟨s', ids', a, b, d, e, f, g⟩ := this
      refine ⟨s', ids', a, b, d, e, f, ?_⟩
      intro p hp hpe
      rw [List.eq_nil_iff_forall_not_mem]
      intro n hn
      rcases g.new p n hn with hn | ⟨rfl, _⟩
      · rw [hpe] at hn; cases hn
      · exact hp hq
  · cases o <;> simp only [POp.queue, Option.some.injEq, reduceCtorEq] at ho <;> simp only [POp.isOp, not_true] at hop <;> subst ho
    · rename_i q rev
      have := iterNew_rep h q rev
      exact ⟨_, ids, rfl, this.1, this.2 _, fun p _ _ => this.2 p, rfl, fun _ _ h => h⟩
    · rename_i it
      have := iterNext_rep h it
      obtain ⟨f, hf⟩ := iterNext_state it s
      exact ⟨_, ids, rfl, this.1, this.2 _, fun p _ _ => this.2 p, by simp only [prun1, hf]; rfl, fun _ _ h => h⟩

/-- an exception changes nothing -/
theorem raise_same {s live ids} (h : Rep s live ids) {o : POp} {q e s'} (ho : o.queue = some q) (hq : live q) (hp : prun1 o s = .err e s') : s' = s := by
  have := prun1_sim h ho hq
  split at this
  · rw [hp] at this; cases this; rfl
  · obtain ⟨s2, ids', a, _⟩ := this
    rw [hp] at a; cases a

theorem lop_kind {o : POp} {t q q'} (h : lop o t q = .ok q') : Queue.Kind t q q' := by
  cases o with
  | enter c => exact Queue.run_kind (o := .enter c) h
  | enterSorted c _ p => exact Queue.run_kind (o := .enterSorted c p) h
  | enterAtHead c => exact Queue.run_kind (o := .enterAtHead c) h
  | enterInFrontOf c _ p => exact Queue.run_kind (o := .enterInFrontOf c p) h
  | enterBehind c _ p => exact Queue.run_kind (o := .enterBehind c p) h
  | insertAt c _ i => obtain ⟨_, _, x, hx⟩ := Queue.insertAt_ok h; exact .entered _ _ _ _ hx
  | append c _ p => exact .entered _ _ _ _ (Queue.append_ok h)
  | leave c => exact Queue.run_kind (o := .leave c) h
  | setPriority c _ p => exact Queue.run_kind (o := .setPriority c p) h
  | setCapacity _ k => exact Queue.run_kind (o := .setCapacity k) h
  | resetRates _ a d => exact Queue.run_kind (o := .resetRates a d) h
  | _ => simp only [lop, QR.ok.injEq] at h; exact .same h.symm

/-- the invariant of all histories -/
theorem PReach.rep {w : PW} (h : PReach w) : ∃ ids, Rep w.s (w.Live) ids ∧ (∀ q, q ∉ w.live → ids q = []) ∧
    ∀ q, q ∈ w.live → Queue.QInv w.s.now (abs w.s ids q) := by
  induction h with
  | empty =>
    refine ⟨fun _ => [], ⟨⟨?_, ?_, ?_, ?_⟩, ?_, ?_, ?_, ?_, ?_, ?_⟩, fun _ _ => rfl, ?_⟩ <;> simp [PW.empty, PW.Live]
  | @step v v' o e _ hs ih =>
    obtain ⟨ids, hr, hn, hi⟩ := ih
    cases hs with
    | create q cap hq =>
      refine ⟨ids, ?_, ?_, ?_⟩
      · have := newQueue_rep hr hq cap (hn q hq)
        have e : (fun p => p = q ∨ v.Live p) = PW.Live ⟨newQueue q cap v.s, q :: v.live⟩ := by
          funext p; simp [PW.Live]
        exact e ▸ this
      · intro p hp
        simp only [List.mem_cons, not_or] at hp
        exact hn p hp.2
      · intro p hp
        by_cases hpq : p = q
        · subst hpq
          have : abs (newQueue p cap v.s) ids p = { cap := cap, arrivalsT0 := v.s.now, departuresT0 := v.s.now } := by
            unfold abs; rw [hn p hq]; simp [newQueue, setQ_queues]
          rw [this]; exact Queue.QInv.init _ _ _ _
        · have hp' : p ∈ v.live := (List.mem_cons.1 hp).resolve_left hpq
          have : abs (newQueue q cap v.s) ids p = abs v.s ids p := by
            unfold abs
            have hm : (ids p).map (mem (newQueue q cap v.s)) = (ids p).map (mem v.s) := by
              refine map_congr' fun n hn => mem_congr ?_
              have hlt := hr.lt p hp' n (mem_ring hn)
              have : (newQueue q cap v.s).nodes n = v.s.nodes n := by
                unfold newQueue
                simp only [setQ_nodes, setN_nodes]
                rw [if_neg (nat_ne hlt), if_neg (ne_of_lt hlt)]
              rw [this]; exact ⟨rfl, rfl, rfl⟩
            rw [hm]
            simp [newQueue, setQ_queues, hpq]
          rw [this]; exact hi p hp'
    | createCopy q cap hq =>
      refine ⟨ids, ?_, ?_, ?_⟩
      · have := newCopy_rep hr hq cap (hn q hq)
        have e : (fun p => p = q ∨ v.Live p) = PW.Live ⟨newCopy q cap v.s, q :: v.live⟩ := by
          funext p; simp [PW.Live]
        exact e ▸ this
      · intro p hp
        simp only [List.mem_cons, not_or] at hp
        exact hn p hp.2
      · intro p hp
        by_cases hpq : p = q
        · subst hpq
          have : abs (newCopy p cap v.s) ids p = { cap := cap, arrivalsT0 := v.s.now, departuresT0 := v.s.now } := by
            unfold abs; rw [hn p hq]; simp [newCopy, newQueue, setQ_queues]
          rw [this]; exact Queue.QInv.init _ _ _ _
        · have hp' : p ∈ v.live := (List.mem_cons.1 hp).resolve_left hpq
          have : abs (newCopy q cap v.s) ids p = abs v.s ids p := by
            unfold abs
            have hm : (ids p).map (mem (newCopy q cap v.s)) = (ids p).map (mem v.s) := by
              refine map_congr' fun n hn => mem_congr ?_
              have hlt := hr.lt p hp' n (mem_ring hn)
              have : (newCopy q cap v.s).nodes n = v.s.nodes n := by
                unfold newCopy newQueue
                simp only [setQ_nodes, setN_nodes]
                rw [if_neg (nat_ne hlt), if_neg (ne_of_lt hlt)]
              rw [this]; exact ⟨rfl, rfl, rfl⟩
            rw [hm]
            simp [newCopy, newQueue, setQ_queues, hpq]
          rw [this]; exact hi p hp'
    | tick d hd =>
      refine ⟨ids, ⟨⟨hr.chain, hr.nodup, hr.disj, hr.lt⟩, hr.len, hr.hd, hr.tl, hr.qm, hr.comp, hr.avail⟩, hn, ?_⟩
      intro q hq
      exact (hi q hq).time (by simpa using hd)
    | op o q s' ho hq hp =>
      have := prun1_sim hr ho hq
      split at this
      · rw [this] at hp; cases hp
      · rename_i q' hl
        obtain ⟨s2, ids', a, b, d, e, f, g⟩ := this
        rw [hp] at a; cases a
        refine ⟨ids', b, fun p hp => g p hp (hn p hp), ?_⟩
        intro p hp
        simp only [f]
        by_cases hpq : p = q
        · subst hpq; rw [d]; exact (hi p hp).run (lop_kind hl)
        · rw [e p hpq hp]; exact hi p hp
    | raise o q e s' ho hq hp => rw [raise_same hr ho hq hp]; exact ⟨ids, hr, hn, hi⟩

end Chain
end Verif
