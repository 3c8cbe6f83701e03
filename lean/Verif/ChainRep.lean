import Verif.Chain
import Verif.QueueInv
import Mathlib.Data.List.Chain

/-!
# The chain of Qmembers represents a list

`Rep` is the representation invariant; each pointer operation refines the list operation of `Verif.Queue`.
-/

namespace Verif
namespace Chain
open Queue (QR)

/-- How an operation on queue `q` changes what iterators look at; `lv` is the component that leaves. -/
structure Evo (s : PS) (ids : QId → List NId) (s' : PS) (ids' : QId → List NId) (q : QId) (lv : Option CId) : Prop where
  next : s.next ≤ s'.next
  comp : ∀ n, n < s.next → (s'.nodes n).comp = (s.nodes n).comp ∨
    ((s'.nodes n).comp = none ∧ n ∈ ids q ∧ ∃ c, lv = some c ∧ (s.nodes n).comp = some c)
  keep : ∀ p n, n ∈ ids p → n ∈ ids' p ∨ (s'.nodes n).comp = none
  new : ∀ p n, n ∈ ids' p → n ∈ ids p ∨ (p = q ∧ s.next ≤ n ∧ (s'.queues q).touched = touchAll (s.queues q).touched)
  touched : ∀ p, (s'.queues p).touched = (s.queues p).touched ∨ (s'.queues p).touched = touchAll (s.queues p).touched
  iterSeq : ∀ p, (s'.queues p).iterSeq = (s.queues p).iterSeq

/-- consecutive Qmembers point to each other -/
def Link (s : PS) (a b : NId) : Prop := (s.nodes a).succ = some b ∧ (s.nodes b).pred = some a

/-- sentinels included -/
def ring (s : PS) (ids : QId → List NId) (q : QId) : List NId := (s.queues q).head :: (ids q ++ [(s.queues q).tail])

/-- the chains are well formed and disjoint -/
structure Wf (s : PS) (live : QId → Prop) (ids : QId → List NId) : Prop where
  chain : ∀ q, live q → (ring s ids q).IsChain (Link s)
  nodup : ∀ q, live q → (ring s ids q).Nodup
  disj : ∀ q q', live q → live q' → q ≠ q' → ∀ n ∈ ring s ids q, n ∉ ring s ids q'
  lt : ∀ q, live q → ∀ n ∈ ring s ids q, n < s.next

/-- representation invariant -/
structure Rep (s : PS) (live : QId → Prop) (ids : QId → List NId) : Prop extends Wf s live ids where
  len : ∀ q, live q → (s.queues q).length = (ids q).length
  hd : ∀ q, live q → (s.nodes (s.queues q).head).prio = 0 ∧ (s.nodes (s.queues q).head).comp = none
  tl : ∀ q, live q → (s.nodes (s.queues q).tail).prio = 0 ∧ (s.nodes (s.queues q).tail).comp = none
  qm : ∀ c q n, s.qm c q = some n ↔ live q ∧ n ∈ ids q ∧ (s.nodes n).comp = some c
  comp : ∀ q, live q → ∀ n ∈ ids q, ((s.nodes n).comp).isSome
  /-- the second case: an empty queue that was made by `copy` with `copy_capacity` -/
  avail : ∀ q, live q → (s.queues q).avail = ETime.subQ (s.queues q).cap (s.queues q).length ∨ ((s.queues q).avail = ⊤ ∧ (s.queues q).length = 0)

/-- what a Qmember says -/
def mem (s : PS) (n : NId) : QMem := ⟨((s.nodes n).comp).getD 0, (s.nodes n).prio, (s.nodes n).enter⟩

/-- the list that is represented -/
def abs (s : PS) (ids : QId → List NId) (q : QId) : Queue :=
  { mem := (ids q).map (mem s), cap := (s.queues q).cap, arrivals := (s.queues q).arrivals, departures := (s.queues q).departures,
    arrivalsT0 := (s.queues q).arrivalsT0, departuresT0 := (s.queues q).departuresT0,
    stays := (s.queues q).stays, lens := (s.queues q).lens.map (fun p => (p.1, p.2.toNat)) }

/-- another list for one queue -/
def upd (ids : QId → List NId) (q : QId) (l : List NId) : QId → List NId := fun q' => if q' = q then l else ids q'

@[simp] theorem upd_same (ids q l) : upd ids q l q = l := by simp [upd]
theorem upd_other {ids : QId → List NId} {q l q'} (h : q' ≠ q) : upd ids q l q' = ids q' := by simp [upd, h]

theorem chain_frame {s s' : PS} : ∀ {L : List NId}, L.IsChain (Link s) → (∀ x ∈ L.dropLast, (s'.nodes x).succ = (s.nodes x).succ) →
    (∀ x ∈ L.tail, (s'.nodes x).pred = (s.nodes x).pred) → L.IsChain (Link s')
  | [], _, _, _ => by simp
  | [a], _, _, _ => by simp
  | a :: b :: L, h, h1, h2 => by
    rw [List.isChain_cons_cons] at h ⊢
    refine ⟨⟨?_, ?_⟩, chain_frame h.2 ?_ ?_⟩
    · rw [h1 a (by simp)]; exact h.1.1
    · rw [h2 b (by simp)]; exact h.1.2
    · intro x hx; exact h1 x (by simp [hx])
    · intro x hx; exact h2 x (by simp at hx ⊢; exact .inr hx)

theorem chain_mid {s : PS} {A B : List NId} {a b : NId} :
    (A ++ a :: b :: B).IsChain (Link s) ↔ (A ++ [a]).IsChain (Link s) ∧ Link s a b ∧ (b :: B).IsChain (Link s) := by
  rw [List.isChain_append_cons_cons]

/-- splitting a non-empty list at the end -/
theorem snoc_of_cons (a : NId) (l : List NId) : ∃ A m, a :: l = A ++ [m] :=
  ⟨(a :: l).dropLast, (a :: l).getLast (by simp), (List.dropLast_append_getLast (by simp)).symm⟩

theorem cons_of_snoc (a : NId) (l : List NId) : ∃ m B, l ++ [a] = m :: B := by
  cases l with
  | nil => exact ⟨a, [], rfl⟩
  | cons x l => exact ⟨x, l ++ [a], rfl⟩

@[simp] theorem setN_queues (s : PS) (n f) : (s.setN n f).queues = s.queues := rfl
@[simp] theorem setN_qm (s : PS) (n f) : (s.setN n f).qm = s.qm := rfl
@[simp] theorem setN_next (s : PS) (n f) : (s.setN n f).next = s.next := rfl
@[simp] theorem setN_now (s : PS) (n f) : (s.setN n f).now = s.now := rfl
@[simp] theorem setQ_nodes (s : PS) (n f) : (s.setQ n f).nodes = s.nodes := rfl
@[simp] theorem setQ_qm (s : PS) (n f) : (s.setQ n f).qm = s.qm := rfl
@[simp] theorem setQ_next (s : PS) (n f) : (s.setQ n f).next = s.next := rfl
@[simp] theorem setQ_now (s : PS) (n f) : (s.setQ n f).now = s.now := rfl
@[simp] theorem setQm_nodes (s : PS) (c n f) : (s.setQm c n f).nodes = s.nodes := rfl
@[simp] theorem setQm_queues (s : PS) (c n f) : (s.setQm c n f).queues = s.queues := rfl
@[simp] theorem setQm_next (s : PS) (c n f) : (s.setQm c n f).next = s.next := rfl
@[simp] theorem setQm_now (s : PS) (c n f) : (s.setQm c n f).now = s.now := rfl
theorem setN_nodes (s : PS) (n f m) : (s.setN n f).nodes m = if m = n then f (s.nodes m) else s.nodes m := rfl
theorem setQ_queues (s : PS) (n f m) : (s.setQ n f).queues m = if m = n then f (s.queues m) else s.queues m := rfl
theorem setQm_qm (s : PS) (c q v c' q') : (s.setQm c q v).qm c' q' = if c' = c ∧ q' = q then v else s.qm c' q' := rfl

/-! ## facts that only depend on parts of the state -/

theorem Wf.head_succ {s live ids} (h : Wf s live ids) {q} (hq : live q) {m B} (hl : ids q ++ [(s.queues q).tail] = m :: B) :
    (s.nodes (s.queues q).head).succ = some m := by
  have := h.chain q hq
  unfold ring at this
  rw [hl, List.isChain_cons_cons] at this
  exact this.1.1

theorem Wf.tail_pred {s live ids} (h : Wf s live ids) {q} (hq : live q) {A m} (hl : (s.queues q).head :: ids q = A ++ [m]) :
    (s.nodes (s.queues q).tail).pred = some m := by
  have := h.chain q hq
  unfold ring at this
  rw [← List.cons_append, hl, List.append_assoc, List.singleton_append, chain_mid] at this
  exact this.2.1.2

theorem link_mid {s ids q} {l1 l2 A m1 m2 B} (hi : ids q = l1 ++ l2)
    (h1 : (s.queues q).head :: l1 = A ++ [m1]) (h2 : l2 ++ [(s.queues q).tail] = m2 :: B) : ring s ids q = A ++ m1 :: m2 :: B := by
  unfold ring
  rw [hi, List.append_assoc, h2, ← List.cons_append, h1, List.append_assoc, List.singleton_append]

/-- the state `s'` is `s` with a new Qmember `me` between `m1` and `m2` in queue `q` -/
structure Spliced (s s' : PS) (q : QId) (me m1 m2 : NId) : Prop where
  info : ∀ n, n ≠ me → (s'.nodes n).comp = (s.nodes n).comp ∧ (s'.nodes n).prio = (s.nodes n).prio ∧ (s'.nodes n).enter = (s.nodes n).enter
  succ : ∀ n, n ≠ me → n ≠ m1 → (s'.nodes n).succ = (s.nodes n).succ
  pred : ∀ n, n ≠ me → n ≠ m2 → (s'.nodes n).pred = (s.nodes n).pred
  succ1 : (s'.nodes m1).succ = some me
  pred2 : (s'.nodes m2).pred = some me
  selfS : (s'.nodes me).succ = some m2
  selfP : (s'.nodes me).pred = some m1
  others : ∀ p, p ≠ q → s'.queues p = s.queues p
  ends : (s'.queues q).head = (s.queues q).head ∧ (s'.queues q).tail = (s.queues q).tail

theorem Spliced.ring_other {s s' : PS} {q me m1 m2 ids l p} (h : Spliced s s' q me m1 m2) (hp : p ≠ q) :
    ring s' (upd ids q l) p = ring s ids p := by
  unfold ring; rw [h.others p hp, upd_other hp]

/-- a chain in which the new member is put remains a chain -/
theorem Spliced.chain {s s' : PS} {q me m1 m2} (h : Spliced s s' q me m1 m2) {A B : List NId}
    (hc : (A ++ m1 :: m2 :: B).IsChain (Link s)) (hn : (A ++ m1 :: m2 :: B).Nodup) (hme : me ∉ A ++ m1 :: m2 :: B) :
    (A ++ m1 :: me :: m2 :: B).IsChain (Link s') := by
  rw [chain_mid] at hc
  have e : A ++ m1 :: me :: m2 :: B = (A ++ [m1]) ++ me :: m2 :: B := by simp
  rw [chain_mid, List.isChain_cons_cons]
  simp only [List.mem_append, List.mem_cons, not_or] at hme
  rw [List.nodup_append] at hn
  obtain ⟨hn1, hn2, hn3⟩ := hn
  simp only [List.nodup_cons, List.mem_cons, not_or] at hn2
  refine ⟨chain_frame hc.1 ?_ ?_, ⟨h.succ1, h.selfP⟩, ⟨h.selfS, h.pred2⟩, chain_frame hc.2.2 ?_ ?_⟩
  · intro x hx
    simp only [List.dropLast_concat] at hx
    refine h.succ x (fun hh => hme.1 (hh ▸ hx)) (fun hh => hn3 x hx m1 (by simp) hh)
  · intro x hx
    have hx := List.mem_of_mem_tail hx
    rcases List.mem_append.1 hx with hx | hx
    · exact h.pred x (fun hh => hme.1 (hh ▸ hx)) (fun hh => hn3 x hx m2 (by simp) hh)
    · simp only [List.mem_singleton] at hx
      subst hx
      exact h.pred x (fun hh => hme.2.1 hh.symm) hn2.1.1
  · intro x hx
    have hx := List.mem_of_mem_dropLast hx
    rcases List.mem_cons.1 hx with rfl | hx
    · exact h.succ x (fun hh => hme.2.2.1 hh.symm) (fun hh => hn2.1.1 hh.symm)
    · exact h.succ x (fun hh => hme.2.2.2 (hh ▸ hx)) (fun hh => hn2.1.2 (hh ▸ hx))
  · intro x hx
    simp only [List.tail_cons] at hx
    exact h.pred x (fun hh => hme.2.2.2 (hh ▸ hx)) (fun hh => hn2.2.1 (hh ▸ hx))

/-- other chains are not affected -/
theorem Spliced.chain_other {s s' : PS} {q me m1 m2} (h : Spliced s s' q me m1 m2) {L : List NId}
    (hc : L.IsChain (Link s)) (h0 : me ∉ L) (h1 : m1 ∉ L) (h2 : m2 ∉ L) : L.IsChain (Link s') := by
  refine chain_frame hc ?_ ?_
  · intro x hx
    have hx := List.mem_of_mem_dropLast hx
    exact h.succ x (fun hh => h0 (hh ▸ hx)) (fun hh => h1 (hh ▸ hx))
  · intro x hx
    have hx := List.mem_of_mem_tail hx
    exact h.pred x (fun hh => h0 (hh ▸ hx)) (fun hh => h2 (hh ▸ hx))

theorem head_mem {s ids q} : (s.queues q).head ∈ ring s ids q := by simp [ring]
theorem tail_mem {s ids q} : (s.queues q).tail ∈ ring s ids q := by simp [ring]
theorem mem_ring {s ids q n} (h : n ∈ ids q) : n ∈ ring s ids q := by simp [ring, h]

theorem Wf.splice {s s' live ids} (h : Wf s live ids) {q me m1 m2} (hq : live q) (hsp : Spliced s s' q me m1 m2) {l1 l2 A B}
    (hi : ids q = l1 ++ l2) (h1 : (s.queues q).head :: l1 = A ++ [m1]) (h2 : l2 ++ [(s.queues q).tail] = m2 :: B)
    (hfresh : ∀ p, live p → me ∉ ring s ids p) (hme : me < s'.next) (hnext : s.next ≤ s'.next) :
    Wf s' live (upd ids q (l1 ++ me :: l2)) := by
  have hring := link_mid hi h1 h2
  have hch := h.chain q hq
  rw [hring] at hch
  have hnd := h.nodup q hq
  rw [hring] at hnd
  have hm1 : m1 ∈ ring s ids q := by rw [hring]; simp
  have hm2 : m2 ∈ ring s ids q := by rw [hring]; simp
  have hring' : ring s' (upd ids q (l1 ++ me :: l2)) q = A ++ m1 :: me :: m2 :: B := by
    unfold ring
    rw [upd_same, hsp.ends.1, hsp.ends.2, List.append_assoc, List.cons_append, h2, ← List.cons_append, h1]; simp
  have hmr : ∀ n, n ∈ ring s' (upd ids q (l1 ++ me :: l2)) q ↔ n = me ∨ n ∈ ring s ids q := by
    intro n; rw [hring', hring]; simp; tauto
  refine ⟨?_, ?_, ?_, ?_⟩
  · intro p hp
    by_cases hpq : p = q
    · subst hpq
      rw [hring']
      exact hsp.chain hch hnd (hring ▸ hfresh p hp)
    · rw [hsp.ring_other hpq]
      exact hsp.chain_other (h.chain p hp) (hfresh p hp) (h.disj q p hq hp (Ne.symm hpq) m1 hm1) (h.disj q p hq hp (Ne.symm hpq) m2 hm2)
  · intro p hp
    by_cases hpq : p = q
    · subst hpq
      rw [hring']
      have hperm : (A ++ m1 :: me :: m2 :: B).Perm (me :: (A ++ m1 :: m2 :: B)) := by
        rw [show A ++ m1 :: me :: m2 :: B = (A ++ [m1]) ++ me :: m2 :: B by simp]
        refine List.perm_middle.trans ?_
        simp
      rw [hperm.nodup_iff, List.nodup_cons]
      exact ⟨hring ▸ hfresh p hp, hnd⟩
    · rw [hsp.ring_other hpq]; exact h.nodup p hp
  · intro p p' hp hp' hpp n hn
    by_cases hpq : p = q
    · subst hpq
      rw [hsp.ring_other (Ne.symm hpp)]
      rcases (hmr n).1 hn with rfl | hn
      · exact hfresh p' hp'
      · exact h.disj p p' hp hp' hpp n hn
    · rw [hsp.ring_other hpq] at hn
      by_cases hpq' : p' = q
      · subst hpq'
        rw [hmr]
        rintro (rfl | hx)
        · exact hfresh p hp hn
        · exact h.disj p p' hp hp' hpp n hn hx
      · rw [hsp.ring_other hpq']; exact h.disj p p' hp hp' hpp n hn
  · intro p hp n hn
    by_cases hpq : p = q
    · subst hpq
      rcases (hmr n).1 hn with rfl | hn
      · exact hme
      · exact lt_of_lt_of_le (h.lt p hp n hn) hnext
    · rw [hsp.ring_other hpq] at hn
      exact lt_of_lt_of_le (h.lt p hp n hn) hnext

/-- the state `s'` is `s` with everything between `m1` and `m2` taken out of the chain -/
structure Unlinked (s s' : PS) (m1 m2 : NId) : Prop where
  succ : ∀ n, n ≠ m1 → (s'.nodes n).succ = (s.nodes n).succ
  pred : ∀ n, n ≠ m2 → (s'.nodes n).pred = (s.nodes n).pred
  succ1 : (s'.nodes m1).succ = some m2
  pred2 : (s'.nodes m2).pred = some m1
  ends : ∀ q, (s'.queues q).head = (s.queues q).head ∧ (s'.queues q).tail = (s.queues q).tail
  next : s'.next = s.next

theorem ring_del {s : PS} {ids : QId → List NId} {q l1 l2 mx A m1 m2 B} (hi : ids q = l1 ++ mx :: l2)
    (h1 : (s.queues q).head :: l1 = A ++ [m1]) (h2 : l2 ++ [(s.queues q).tail] = m2 :: B) : ring s ids q = A ++ m1 :: mx :: m2 :: B := by
  unfold ring
  rw [hi, List.append_assoc, List.cons_append, h2, ← List.cons_append, h1, List.append_assoc, List.singleton_append]

theorem Wf.delete {s s' live ids} (h : Wf s live ids) {q mx m1 m2} (hq : live q) (hu : Unlinked s s' m1 m2) {l1 l2 A B}
    (hi : ids q = l1 ++ mx :: l2) (h1 : (s.queues q).head :: l1 = A ++ [m1]) (h2 : l2 ++ [(s.queues q).tail] = m2 :: B) :
    Wf s' live (upd ids q (l1 ++ l2)) := by
  have hring := ring_del hi h1 h2
  have hch := h.chain q hq
  rw [hring, chain_mid, List.isChain_cons_cons] at hch
  have hnd := h.nodup q hq
  rw [hring] at hnd
  have hm1 : m1 ∈ ring s ids q := by rw [hring]; simp
  have hm2 : m2 ∈ ring s ids q := by rw [hring]; simp
  have hro : ∀ p, p ≠ q → ring s' (upd ids q (l1 ++ l2)) p = ring s ids p := by
    intro p hp; unfold ring; rw [upd_other hp, (hu.ends p).1, (hu.ends p).2]
  have hring' : ring s' (upd ids q (l1 ++ l2)) q = A ++ m1 :: m2 :: B := by
    unfold ring
    rw [upd_same, (hu.ends q).1, (hu.ends q).2, List.append_assoc, h2, ← List.cons_append, h1]; simp
  have hsub : (A ++ m1 :: m2 :: B).Sublist (A ++ m1 :: mx :: m2 :: B) :=
    List.Sublist.append_left (List.Sublist.cons_cons _ (List.sublist_cons_self _ _)) _
  have hmr : ∀ p n, n ∈ ring s' (upd ids q (l1 ++ l2)) p → n ∈ ring s ids p := by
    intro p n hn
    by_cases hp : p = q
    · subst hp; rw [hring'] at hn; rw [hring]; exact hsub.subset hn
    · rw [hro p hp] at hn; exact hn
  have hnd' := hnd.sublist hsub
  refine ⟨?_, ?_, ?_, ?_⟩
  · intro p hp
    by_cases hpq : p = q
    · subst hpq
      rw [hring', chain_mid]
      rw [List.nodup_append] at hnd'
      obtain ⟨_, hn2, hn3⟩ := hnd'
      simp only [List.nodup_cons, List.mem_cons, not_or] at hn2
      refine ⟨chain_frame hch.1 ?_ ?_, ⟨hu.succ1, hu.pred2⟩, chain_frame hch.2.2.2 ?_ ?_⟩
      · intro x hx
        simp only [List.dropLast_concat] at hx
        exact hu.succ x (fun hh => hn3 x hx m1 (by simp) hh)
      · intro x hx
        have hx := List.mem_of_mem_tail hx
        rcases List.mem_append.1 hx with hx | hx
        · exact hu.pred x (fun hh => hn3 x hx m2 (by simp) hh)
        · simp only [List.mem_singleton] at hx
          subst hx
          exact hu.pred x hn2.1.1
      · intro x hx
        have hx := List.mem_of_mem_dropLast hx
        rcases List.mem_cons.1 hx with rfl | hx
        · exact hu.succ x (fun hh => hn2.1.1 hh.symm)
        · exact hu.succ x (fun hh => hn2.1.2 (hh ▸ hx))
      · intro x hx
        simp only [List.tail_cons] at hx
        exact hu.pred x (fun hh => hn2.2.1 (hh ▸ hx))
    · rw [hro p hpq]
      refine chain_frame (h.chain p hp) ?_ ?_
      · intro x hx
        have hx := List.mem_of_mem_dropLast hx
        exact hu.succ x (fun hh => h.disj q p hq hp (Ne.symm hpq) m1 hm1 (hh ▸ hx))
      · intro x hx
        have hx := List.mem_of_mem_tail hx
        exact hu.pred x (fun hh => h.disj q p hq hp (Ne.symm hpq) m2 hm2 (hh ▸ hx))
  · intro p hp
    by_cases hpq : p = q
    · subst hpq; rw [hring']; exact hnd'
    · rw [hro p hpq]; exact h.nodup p hp
  · intro p p' hp hp' hpp n hn hn'
    exact h.disj p p' hp hp' hpp n (hmr p n hn) (hmr p' n hn')
  · intro p hp n hn
    rw [hu.next]
    exact h.lt p hp n (hmr p n hn)

/-- the member taken out is in no chain any more -/
theorem Wf.deleted_fresh {s s' live ids} (h : Wf s live ids) {q mx m1 m2} (hq : live q) (hu : Unlinked s s' m1 m2) {l1 l2 A B}
    (hi : ids q = l1 ++ mx :: l2) (h1 : (s.queues q).head :: l1 = A ++ [m1]) (h2 : l2 ++ [(s.queues q).tail] = m2 :: B) :
    ∀ p, live p → mx ∉ ring s' (upd ids q (l1 ++ l2)) p := by
  have hring := ring_del hi h1 h2
  intro p hp
  by_cases hpq : p = q
  · subst hpq
    have hnd := h.nodup p hp
    rw [hring] at hnd
    have hring' : ring s' (upd ids p (l1 ++ l2)) p = A ++ m1 :: m2 :: B := by
      unfold ring
      rw [upd_same, (hu.ends p).1, (hu.ends p).2, List.append_assoc, h2, ← List.cons_append, h1]; simp
    rw [hring']
    have hperm : (A ++ m1 :: mx :: m2 :: B).Perm (mx :: (A ++ m1 :: m2 :: B)) := by
      rw [show A ++ m1 :: mx :: m2 :: B = (A ++ [m1]) ++ mx :: m2 :: B by simp]
      refine List.perm_middle.trans ?_
      simp
    rw [hperm.nodup_iff, List.nodup_cons] at hnd
    exact hnd.1
  · have : ring s' (upd ids q (l1 ++ l2)) p = ring s ids p := by
      unfold ring; rw [upd_other hpq, (hu.ends p).1, (hu.ends p).2]
    rw [this]
    refine h.disj q p hq hp (Ne.symm hpq) mx ?_
    rw [hring]; simp

theorem mem_congr {s s' : PS} {n} (h : (s'.nodes n).comp = (s.nodes n).comp ∧ (s'.nodes n).prio = (s.nodes n).prio ∧ (s'.nodes n).enter = (s.nodes n).enter) :
    mem s' n = mem s n := by
  unfold mem; rw [h.1, h.2.1, h.2.2]

theorem map_congr' {s s' : PS} {l : List NId} (h : ∀ n ∈ l, mem s' n = mem s n) : l.map (mem s') = l.map (mem s) :=
  List.map_congr_left h

theorem Rep.insert {s live ids} (h : Rep s live ids) {q} (hq : live q) {c : CId} {prio : Rat} {l1 l2 m2 B} (hi : ids q = l1 ++ l2)
    (h2 : l2 ++ [(s.queues q).tail] = m2 :: B) (hc : s.qm c q = none) :
    match (abs s ids q).insert s.now (l1.map (mem s) ++ ⟨c, prio, s.now⟩ :: l2.map (mem s)) with
    | none => insertInFrontOf m2 c q prio s = .err .queueFull s
    | some q' => ∃ s', insertInFrontOf m2 c q prio s = .ok s' ∧ Rep s' live (upd ids q (l1 ++ s.next :: l2)) ∧
        abs s' (upd ids q (l1 ++ s.next :: l2)) q = q' ∧
        (∀ p, p ≠ q → live p → abs s' (upd ids q (l1 ++ s.next :: l2)) p = abs s ids p) ∧ s'.now = s.now ∧
        Evo s ids s' (upd ids q (l1 ++ s.next :: l2)) q none := by
  obtain ⟨A, m1, h1⟩ := snoc_of_cons (s.queues q).head l1
  have hring := link_mid hi h1 h2
  have hlen : (abs s ids q).len = (ids q).length := by simp [abs, Queue.len]
  have hav : ETime.subQ (s.queues q).cap ((s.queues q).length + 1 : Int) = ETime.subQ (abs s ids q).cap ((abs s ids q).len + 1 : Nat) := by
    rw [h.len q hq, hlen]; simp [abs]
  unfold Queue.insert
  split
  · rename_i hx
    split at hx
    · unfold insertInFrontOf
      simp only [hav]
      rw [if_pos ‹_›]
    · cases hx
  · rename_i q' hx
    split at hx
    · cases hx
    · rename_i hroom
      cases hx
      have hch := h.chain q hq
      rw [hring] at hch
      have hnd := h.nodup q hq
      rw [hring] at hnd
      have hpred : (s.nodes m2).pred = some m1 := (chain_mid.1 hch).2.1.2
      have hm1 : m1 ∈ ring s ids q := by rw [hring]; simp
      have hm2 : m2 ∈ ring s ids q := by rw [hring]; simp
      have l1' := h.lt q hq m1 hm1
      have l2' := h.lt q hq m2 hm2
      have hne : m1 ≠ m2 := by
        rw [List.nodup_append] at hnd
        have := hnd.2.1
        simp only [List.nodup_cons, List.mem_cons, not_or] at this
        exact this.1.1
      have hok : ∃ s', insertInFrontOf m2 c q prio s = .ok s' ∧ Spliced s s' q s.next m1 m2 ∧
          (s'.nodes s.next).comp = some c ∧ (s'.nodes s.next).prio = prio ∧ (s'.nodes s.next).enter = s.now ∧ s'.next = s.next + 1 ∧
          (∀ c' q', s'.qm c' q' = if c' = c ∧ q' = q then some s.next else s.qm c' q') ∧ s'.now = s.now ∧
          s'.queues q = { s.queues q with
            avail := ETime.subQ (s.queues q).cap ((s.queues q).length + 1 : Int), length := (s.queues q).length + 1,
            touched := touchAll (s.queues q).touched, lens := (s.queues q).lens ++ [(s.now, (s.queues q).length + 1)],
            arrivals := (s.queues q).arrivals + 1 } := by
        unfold insertInFrontOf
        simp only [hav]
        rw [if_neg hroom]
        simp only [setQ_nodes, hpred]
        refine ⟨_, rfl, ⟨?_, ?_, ?_, ?_, ?_, ?_, ?_, ?_, ?_⟩, ?_, ?_, ?_, rfl, ?_, rfl, ?_⟩
        · intro n hn
          simp only [setQ_nodes, setQm_nodes, setN_nodes, setQ_next, if_neg hn]
          split_ifs <;> simp
        · intro n hn hn1
          simp only [setQ_nodes, setQm_nodes, setN_nodes, setQ_next, if_neg hn, if_neg hn1]
          split_ifs <;> simp
        · intro n hn hn1
          simp only [setQ_nodes, setQm_nodes, setN_nodes, setQ_next, if_neg hn, if_neg hn1]
          split_ifs <;> simp
        · simp [setN_nodes, l1'.ne, hne]
        · simp [setN_nodes, l2'.ne]
        · simp [setN_nodes]
        · simp [setN_nodes]
        · intro p hp; simp [setQ_queues, hp]
        · simp [setQ_queues]
        · simp [setN_nodes]
        · simp [setN_nodes]
        · simp [setN_nodes]
        · intro c' q'; simp [setQm_qm]
        · simp [setQ_queues, hav]
      obtain ⟨s', hs', hsp, n1, n2, n3, n4, n5, n6, n7⟩ := hok
      have hfresh : ∀ p, live p → s.next ∉ ring s ids p := fun p hp hh => lt_irrefl _ (h.lt p hp _ hh)
      have hmi : ∀ n, n ∈ l1 ++ s.next :: l2 ↔ n = s.next ∨ n ∈ ids q := by
        intro n; rw [hi]; simp; tauto
      have hold : ∀ p, live p → ∀ n ∈ ring s ids p, mem s' n = mem s n := fun p hp n hn =>
        mem_congr (hsp.info n (fun hh => hfresh p hp (hh ▸ hn)))
      have hcomp : ∀ p, live p → ∀ n ∈ ring s ids p, (s'.nodes n).comp = (s.nodes n).comp := fun p hp n hn =>
        (hsp.info n (fun hh => hfresh p hp (hh ▸ hn))).1
      have hprio : ∀ p, live p → ∀ n ∈ ring s ids p, (s'.nodes n).prio = (s.nodes n).prio := fun p hp n hn =>
        (hsp.info n (fun hh => hfresh p hp (hh ▸ hn))).2.1
      have hhd : ∀ p, (s'.queues p).head = (s.queues p).head ∧ (s'.queues p).tail = (s.queues p).tail := by
        intro p
        by_cases hp : p = q
        · subst hp; exact hsp.ends
        · rw [hsp.others p hp]; exact ⟨rfl, rfl⟩
      refine ⟨s', hs', ⟨h.toWf.splice hq hsp hi h1 h2 hfresh (by rw [n4]; exact Nat.lt_succ_self _) (by rw [n4]; exact Nat.le_succ _), ?_, ?_, ?_, ?_, ?_, ?_⟩, ?_, ?_, n6, ?_⟩
      · intro p hp
        by_cases hpq : p = q
        · subst hpq
          rw [n7, upd_same]
          simp only [h.len p hp, hi]; simp; omega
        · rw [hsp.others p hpq, upd_other hpq]; exact h.len p hp
      · intro p hp
        rw [(hhd p).1, hprio p hp _ head_mem, hcomp p hp _ head_mem]; exact h.hd p hp
      · intro p hp
        rw [(hhd p).2, hprio p hp _ tail_mem, hcomp p hp _ tail_mem]; exact h.tl p hp
      · intro c' p n
        rw [n5]
        split
        · rename_i hcp
          obtain ⟨rfl, rfl⟩ := hcp
          rw [upd_same, hmi]
          constructor
          · intro hx; cases hx; exact ⟨hq, .inl rfl, n1⟩
          · rintro ⟨_, rfl | hn, hx⟩
            · rfl
            · rw [hcomp p hq n (mem_ring hn)] at hx
              rw [(h.qm c' p n).2 ⟨hq, hn, hx⟩] at hc; cases hc
        · rename_i hcp
          rw [h.qm]
          by_cases hpq : p = q
          · subst hpq
            rw [upd_same, hmi]
            constructor
            · rintro ⟨a, b, d⟩; exact ⟨a, .inr b, by rw [hcomp p a n (mem_ring b)]; exact d⟩
            · rintro ⟨a, rfl | b, d⟩
              · rw [n1] at d; cases d; exact absurd ⟨rfl, rfl⟩ hcp
              · exact ⟨a, b, by rw [← hcomp p a n (mem_ring b)]; exact d⟩
          · rw [upd_other hpq]
            constructor
            · rintro ⟨a, b, d⟩; exact ⟨a, b, by rw [hcomp p a n (mem_ring b)]; exact d⟩
            · rintro ⟨a, b, d⟩; exact ⟨a, b, by rw [← hcomp p a n (mem_ring b)]; exact d⟩
      · intro p hp n hn
        by_cases hpq : p = q
        · subst hpq
          rw [upd_same, hmi] at hn
          rcases hn with rfl | hn
          · rw [n1]; rfl
          · rw [hcomp p hp n (mem_ring hn)]; exact h.comp p hp n hn
        · rw [upd_other hpq] at hn
          rw [hcomp p hp n (mem_ring hn)]; exact h.comp p hp n hn
      · intro p hp
        by_cases hpq : p = q
        · subst hpq; rw [n7]; exact .inl rfl
        · rw [hsp.others p hpq]; exact h.avail p hp
      · have hl : ∀ n ∈ ids q, mem s' n = mem s n := fun n hn => hold q hq n (mem_ring hn)
        unfold abs
        rw [upd_same, n7]
        simp only [List.map_append, List.map_cons]
        rw [map_congr' (fun n hn => hl n (by rw [hi]; simp [hn])), map_congr' (fun n hn => hl n (by rw [hi]; simp [hn]))]
        have : mem s' s.next = ⟨c, prio, s.now⟩ := by simp [mem, n1, n2, n3]
        rw [this]
        have := h.len q hq
        simp [Queue.len, this]
      · intro p hpq hp
        unfold abs
        rw [upd_other hpq, hsp.others p hpq]
        rw [map_congr' (fun n hn => hold p hp n (mem_ring hn))]
      · refine ⟨by rw [n4]; exact Nat.le_succ _, ?_, ?_, ?_, ?_, ?_⟩
        · intro n hn; exact .inl (hsp.info n (ne_of_lt hn)).1
        · intro p n hn
          left
          by_cases hpq : p = q
          · subst hpq; rw [upd_same, hmi]; exact .inr hn
          · rw [upd_other hpq]; exact hn
        · intro p n hn
          by_cases hpq : p = q
          · subst hpq
            rw [upd_same, hmi] at hn
            rcases hn with rfl | hn
            · exact .inr ⟨rfl, le_refl _, by rw [n7]⟩
            · exact .inl hn
          · rw [upd_other hpq] at hn; exact .inl hn
        · intro p
          by_cases hpq : p = q
          · subst hpq; exact .inr (by rw [n7])
          · exact .inl (by rw [hsp.others p hpq])
        · intro p
          by_cases hpq : p = q
          · subst hpq; rw [n7]
          · rw [hsp.others p hpq]

end Chain
end Verif
